import Verif.Cluster.Spec

/-! # Spectra of clustering catalogs, on average over the positions of the sources (C87) -/

namespace NaMaster

open Finset MeasureTheory ProbabilityTheory ClusterSpec

variable {Ω : Type*} [MeasurableSpace Ω] {μ : Measure Ω} {H : Harm (ℝ × ℝ)}

/-! ## One pair of sources -/

theorem pairTerm_scalar (H : Harm (ℝ × ℝ)) (l : ℕ) (x x' : ℝ × ℝ) (q u q' u' : ℝ) :
    pairTerm H 0 0 0 0 l x q u x' q' u' = q * (q' * alm2cl (fun l m => H.a 0 l m x) (fun l m => H.a 0 l m x') l) := by
  unfold pairTerm
  have e : ∀ x q u, H.source 0 x q u 0 = fun l m => (q : ℂ) * (fun l m => H.a 0 l m x) l m := by
    intro x q u; funext l m; simp [Harm.source]
  rw [e, e, alm2cl_smul_left, alm2cl_smul_right]

/-- The mean of the product of harmonics at two independent positions. -/
theorem harmonics_mean {x x' : Ω → ℝ × ℝ} (hx : Measurable x) (hx' : Measurable x') (hi : IndepFun x x' μ) {ν ν' : Measure (ℝ × ℝ)}
    (hν : μ.map x = ν) (hν' : μ.map x' = ν') {lmax l : ℕ} (hl : l ≤ lmax) (hc : HasCoefs H lmax ν) (hc' : HasCoefs H lmax ν') :
    Integrable (fun ω => alm2cl (fun l m => H.a 0 l m (x ω)) (fun l m => H.a 0 l m (x' ω)) l) μ ∧
      ∫ ω, alm2cl (fun l m => H.a 0 l m (x ω)) (fun l m => H.a 0 l m (x' ω)) l ∂μ = power H ν ν' l := by
  have one : ∀ m ∈ range (l + 1), Integrable (fun ω => (H.a 0 l m (x ω) * (starRingEnd ℂ) (H.a 0 l m (x' ω)))) μ ∧
      ∫ ω, (H.a 0 l m (x ω) * (starRingEnd ℂ) (H.a 0 l m (x' ω))) ∂μ = density H ν l m * (starRingEnd ℂ) (density H ν' l m) := by
    intro m hm
    have hm : m ≤ l := by have := mem_range.1 hm; omega
    have h1 := hc l hl m hm
    have h2 := hc' l hl m hm
    rw [← hν] at h1
    rw [← hν'] at h2
    have i1 : Integrable (fun ω => H.a 0 l m (x ω)) μ := h1.comp_measurable hx
    have h2' : Integrable (fun y => (starRingEnd ℂ) (H.a 0 l m y)) (μ.map x') := (RCLike.conjCLE (K := ℂ)).toContinuousLinearMap.integrable_comp h2
    have i2 : Integrable (fun ω => (starRingEnd ℂ) (H.a 0 l m (x' ω))) μ := h2'.comp_measurable hx'
    constructor
    · exact (hi.comp₀ hx.aemeasurable hx'.aemeasurable h1.1.aemeasurable h2'.1.aemeasurable).integrable_mul i1 i2
    · rw [hi.integral_fun_comp_mul_comp hx.aemeasurable hx'.aemeasurable h1.1 h2'.1]
      congr 1
      · unfold density
        rw [← hν, integral_map hx.aemeasurable h1.1]
      · unfold density
        rw [← hν', ← integral_conj, integral_map hx'.aemeasurable h2'.1]
  have re : ∀ m ∈ range (l + 1), Integrable (fun ω => (if m = 0 then (1 : ℝ) else 2) * (H.a 0 l m (x ω) * (starRingEnd ℂ) (H.a 0 l m (x' ω))).re) μ ∧
      ∫ ω, (if m = 0 then (1 : ℝ) else 2) * (H.a 0 l m (x ω) * (starRingEnd ℂ) (H.a 0 l m (x' ω))).re ∂μ =
        (if m = 0 then 1 else 2) * (density H ν l m * (starRingEnd ℂ) (density H ν' l m)).re := by
    intro m hm
    obtain ⟨o1, o2⟩ := one m hm
    refine ⟨o1.re.const_mul _, ?_⟩
    rw [integral_const_mul]
    congr 1
    rw [← o2]
    exact integral_re o1
  unfold power alm2cl
  constructor
  · exact (integrable_finsetSum _ fun m hm => (re m hm).1).div_const _
  · rw [integral_div, integral_finsetSum _ fun m hm => (re m hm).1]
    congr 1
    exact sum_congr rfl fun m hm => (re m hm).2

/-! ## Data and randoms together -/

/-- Positions of data and randoms together. -/
def bothPos (n : ℕ) (x y : ℕ → ℝ × ℝ) (i : ℕ) : ℝ × ℝ := if i < n then x i else y (i - n)

/-- Their distributions. -/
noncomputable def bothLaw (n : ℕ) (ν ν' : Measure (ℝ × ℝ)) (i : ℕ) : Measure (ℝ × ℝ) := if i < n then ν else ν'

theorem bothAt_placed (d r : CatArgs) (x y : ℕ → ℝ × ℝ) : bothAt (placed d x) (placed r y) = bothPos d.nsrc x y := by
  funext i
  unfold bothAt bothPos placed CatArgs.at
  simp

theorem bothWeight_placed (d r : CatArgs) (x y : ℕ → ℝ × ℝ) : bothWeight (placed d x) (placed r y) = bothWeight d r := rfl

/-- The field object. -/
theorem clustering_view (H : Harm (ℝ × ℝ)) (d r : CatArgs) (lmax : ℕ) {x y : ℕ → ℝ × ℝ} (hx : OnSphere d.nsrc x) (hy : OnSphere r.nsrc y) :
    ∃ v A, nmtFieldClustering H (placed d x) (placed r y) lmax = .ok v ∧ v.geom = ⟨none, lmax, lmax⟩ ∧ v.ncomp = 1 ∧ v.alm = some (some A) ∧
      ∀ l m, A 0 l m = catalog2alm H 0 (d.nsrc + r.nsrc) (bothPos d.nsrc x y) (single (bothWeight d r)) 0 l m := by
  have h1 : positionsOk (placed d x).rows (placed d x).cols (placed d x).nsrc (placed d x).pos :=
    ⟨rfl, rfl, fun i hi => (hx i hi).1, fun i hi => (hx i hi).2⟩
  have h2 : positionsOk (placed r y).rows (placed r y).cols (placed r y).nsrc (placed r y).pos :=
    ⟨rfl, rfl, fun i hi => (hy i hi).1, fun i hi => (hy i hi).2⟩
  unfold nmtFieldClustering
  rw [if_neg (not_not.2 h1), if_neg (not_not.2 h2)]
  refine ⟨_, _, rfl, rfl, rfl, rfl, fun l m => ?_⟩
  have := catalog_both H (placed d x) (placed r y) l m
  rw [bothAt_placed, bothWeight_placed] at this
  exact this.symm

theorem total_both (d r : CatArgs) (hr : total r ≠ 0) (ν ν' : Measure (ℝ × ℝ)) (l m : ℕ) :
    ∑ i ∈ range (d.nsrc + r.nsrc), (bothWeight d r i : ℂ) * density H (bothLaw d.nsrc ν ν' i) l m =
      (total d : ℂ) * (density H ν l m - density H ν' l m) := by
  have hr' : ((total r : ℝ) : ℂ) ≠ 0 := by exact_mod_cast hr
  rw [sum_range_add, mul_sub, sub_eq_add_neg]
  congr 1
  · unfold total
    push_cast
    rw [sum_mul]
    refine sum_congr rfl fun i hi => ?_
    simp only [bothWeight, bothLaw, if_pos (mem_range.1 hi)]
  · have e : ∀ i, (bothWeight d r (d.nsrc + i) : ℂ) * density H (bothLaw d.nsrc ν ν' (d.nsrc + i)) l m =
        -(((total d : ℂ) / total r * density H ν' l m) * (r.weights i : ℂ)) := by
      intro i
      have : ¬ d.nsrc + i < d.nsrc := by omega
      simp only [bothWeight, bothLaw, if_neg this, Nat.add_sub_cancel_left, total]
      push_cast
      ring
    simp only [e]
    rw [sum_neg_distrib, ← mul_sum]
    have ht : ∑ i ∈ range r.nsrc, (r.weights i : ℂ) = (total r : ℂ) := by unfold total; push_cast; rfl
    rw [ht]
    field_simp

/-- All pairs. -/
theorem all_pairs (d1 r1 d2 r2 : CatArgs) (h1 : total r1 ≠ 0) (h2 : total r2 ≠ 0) (ν1 ν1' ν2 ν2' : Measure (ℝ × ℝ)) (l : ℕ) :
    ∑ i ∈ range (d1.nsrc + r1.nsrc), ∑ j ∈ range (d2.nsrc + r2.nsrc), bothWeight d1 r1 i * (bothWeight d2 r2 j *
      power H (bothLaw d1.nsrc ν1 ν1' i) (bothLaw d2.nsrc ν2 ν2' j) l) = total d1 * total d2 * contrast H ν1 ν1' ν2 ν2' l := by
  have e : ∀ i j, bothWeight d1 r1 i * (bothWeight d2 r2 j * power H (bothLaw d1.nsrc ν1 ν1' i) (bothLaw d2.nsrc ν2 ν2' j) l) =
      alm2cl (fun l m => (bothWeight d1 r1 i : ℂ) * density H (bothLaw d1.nsrc ν1 ν1' i) l m)
        (fun l m => (bothWeight d2 r2 j : ℂ) * density H (bothLaw d2.nsrc ν2 ν2' j) l m) l := by
    intro i j
    rw [alm2cl_smul_left, alm2cl_smul_right]
    rfl
  simp only [e]
  rw [sum_congr rfl fun i _ => (alm2cl_sum_right _ _ (fun j l m => (bothWeight d2 r2 j : ℂ) * density H (bothLaw d2.nsrc ν2 ν2' j) l m) l).symm,
    ← alm2cl_sum_left _ (fun i l m => (bothWeight d1 r1 i : ℂ) * density H (bothLaw d1.nsrc ν1 ν1' i) l m)]
  unfold contrast
  rw [mul_assoc, ← alm2cl_smul_right, ← alm2cl_smul_left]
  exact alm2cl_congr (fun m => total_both d1 r1 h1 ν1 ν1' l m) (fun m => total_both d2 r2 h2 ν2 ν2' l m)

/-- The pairs of a source with itself. -/
theorem self_pairs (d r : CatArgs) (g : Measure (ℝ × ℝ) → ℝ) (ν ν' : Measure (ℝ × ℝ)) :
    ∑ i ∈ range (d.nsrc + r.nsrc), bothWeight d r i * (bothWeight d r i * g (bothLaw d.nsrc ν ν' i)) =
      squares d * g ν + (total d / total r) ^ 2 * squares r * g ν' := by
  rw [sum_range_add]
  congr 1
  · unfold squares
    rw [sum_mul]
    refine sum_congr rfl fun i hi => ?_
    simp only [bothWeight, bothLaw, if_pos (mem_range.1 hi)]
    ring
  · unfold squares
    rw [mul_assoc, sum_mul, mul_sum]
    refine sum_congr rfl fun i _ => ?_
    have : ¬ d.nsrc + i < d.nsrc := by omega
    simp only [bothWeight, bothLaw, if_neg this, Nat.add_sub_cancel_left, total]
    ring

/-- Random positions of data and randoms together. -/
theorem both_meas {n n' : ℕ} {x y : Ω → ℕ → ℝ × ℝ} {ν ν' : Measure (ℝ × ℝ)} (hx : Drawn μ n x ν) (hy : Drawn μ n' y ν') {i : ℕ} (hi : i < n + n') :
    Measurable (fun ω => bothPos n (x ω) (y ω) i) ∧ μ.map (fun ω => bothPos n (x ω) (y ω) i) = bothLaw n ν ν' i := by
  unfold bothPos bothLaw
  by_cases h : i < n
  · simp only [if_pos h]
    exact ⟨hx.meas i h, hx.law i h⟩
  · simp only [if_neg h]
    exact ⟨hy.meas _ (by omega), hy.law _ (by omega)⟩

theorem bothLaw_coefs {n : ℕ} {ν ν' : Measure (ℝ × ℝ)} {lmax : ℕ} (h : HasCoefs H lmax ν) (h' : HasCoefs H lmax ν') (i : ℕ) :
    HasCoefs H lmax (bothLaw n ν ν' i) := by
  unfold bothLaw
  by_cases hi : i < n
  · rwa [if_pos hi]
  · rwa [if_neg hi]

/-! ## C87 -/

/-- C87: the mean of the spectrum of a clustering catalog with itself. Data and randoms are drawn independently, from the densities `ν` and `ν'`. The first term is the
spectrum of the difference of the densities. The other two are of the order of the shot noise times the spectra of the densities: they are missing
because the number of sources is fixed (integral constraint). -/
theorem C87_auto_exact (d r : CatArgs) (hr : total r ≠ 0) (lmax : ℕ) (x y : Ω → ℕ → ℝ × ℝ) (ν ν' : Measure (ℝ × ℝ))
    (hx : Drawn μ d.nsrc x ν) (hy : Drawn μ r.nsrc y ν') (hxx : Indep μ d.nsrc x) (hyy : Indep μ r.nsrc y) (hxy : IndepOf μ d.nsrc r.nsrc x y)
    (hν : HasCoefs H lmax ν) (hν' : HasCoefs H lmax ν') (hN : ∀ l ≤ lmax, H.Normalised 0 l) :
    ∃ S : Ω → Arr2 ℝ, (∀ ω, ((nmtFieldClustering H (placed d (x ω)) (placed r (y ω)) lmax).bind fun v => computeCoupledCell v v true) = .ok (some (S ω))) ∧
      ∀ l ≤ lmax, Integrable (fun ω => (S ω).val 0 l) μ ∧ ∫ ω, (S ω).val 0 l ∂μ = total d ^ 2 * contrast H ν ν' ν ν' l -
        (squares d * power H ν ν l + (total d / total r) ^ 2 * squares r * power H ν' ν' l) := by
  have hv : ∀ ω, ∃ S : Arr2 ℝ, ((nmtFieldClustering H (placed d (x ω)) (placed r (y ω)) lmax).bind fun v => computeCoupledCell v v true) = .ok (some S) ∧
      ∀ l ≤ lmax, S.val 0 l = ∑ i ∈ range (d.nsrc + r.nsrc), ∑ j ∈ (range (d.nsrc + r.nsrc)).erase i,
        pairTerm H 0 0 0 0 l (bothPos d.nsrc (x ω) (y ω) i) (bothWeight d r i) 0 (bothPos d.nsrc (x ω) (y ω) j) (bothWeight d r j) 0 := by
    intro ω
    obtain ⟨v, A, hv, -⟩ := clustering_view H d r lmax (hx.sphere ω) (hy.sphere ω)
    obtain ⟨s, h1, -, -, h2⟩ := C39_clustering H _ _ lmax v hv
    refine ⟨s, by rw [hv]; exact h1, fun l hl => ?_⟩
    have := (h2 l hl (hN l hl)).1
    rw [bothAt_placed, bothWeight_placed] at this
    exact this
  choose S hS hval using hv
  refine ⟨S, hS, fun l hl => ?_⟩
  have hind : ∀ i ∈ range (d.nsrc + r.nsrc), ∀ j ∈ (range (d.nsrc + r.nsrc)).erase i,
      IndepFun (fun ω => bothPos d.nsrc (x ω) (y ω) i) (fun ω => bothPos d.nsrc (x ω) (y ω) j) μ := by
    intro i hi j hj
    have hi' := mem_range.1 hi
    have hj' := mem_range.1 (mem_of_mem_erase hj)
    have hij : i ≠ j := (ne_of_mem_erase hj).symm
    unfold bothPos
    by_cases h1 : i < d.nsrc <;> by_cases h2 : j < d.nsrc
    · simp only [if_pos h1, if_pos h2]; exact hxx i h1 j h2 hij
    · simp only [if_pos h1, if_neg h2]; exact hxy i h1 _ (by omega)
    · simp only [if_neg h1, if_pos h2]; exact (hxy j h2 _ (by omega)).symm
    · simp only [if_neg h1, if_neg h2]; exact hyy _ (by omega) _ (by omega) (by omega)
  have hpair : ∀ i ∈ range (d.nsrc + r.nsrc), ∀ j ∈ (range (d.nsrc + r.nsrc)).erase i,
      Integrable (fun ω => pairTerm H 0 0 0 0 l (bothPos d.nsrc (x ω) (y ω) i) (bothWeight d r i) 0 (bothPos d.nsrc (x ω) (y ω) j) (bothWeight d r j) 0) μ ∧
      ∫ ω, pairTerm H 0 0 0 0 l (bothPos d.nsrc (x ω) (y ω) i) (bothWeight d r i) 0 (bothPos d.nsrc (x ω) (y ω) j) (bothWeight d r j) 0 ∂μ =
        bothWeight d r i * (bothWeight d r j * power H (bothLaw d.nsrc ν ν' i) (bothLaw d.nsrc ν ν' j) l) := by
    intro i hi j hj
    obtain ⟨m1, l1⟩ := both_meas hx hy (mem_range.1 hi)
    obtain ⟨m2, l2⟩ := both_meas hx hy (mem_range.1 (mem_of_mem_erase hj))
    obtain ⟨a1, a2⟩ := harmonics_mean (H := H) m1 m2 (hind i hi j hj) l1 l2 hl (bothLaw_coefs hν hν' i) (bothLaw_coefs hν hν' j)
    simp only [pairTerm_scalar]
    refine ⟨(a1.const_mul _).const_mul _, ?_⟩
    rw [integral_const_mul, integral_const_mul, a2]
  constructor
  · simp only [hval _ l hl]
    exact integrable_finsetSum _ fun i hi => integrable_finsetSum _ fun j hj => (hpair i hi j hj).1
  · simp only [hval _ l hl]
    rw [integral_finsetSum _ fun i hi => integrable_finsetSum _ fun j hj => (hpair i hi j hj).1]
    rw [sum_congr rfl fun i hi => (integral_finsetSum _ fun j hj => (hpair i hi j hj).1).trans (sum_congr rfl fun j hj => (hpair i hi j hj).2)]
    have := all_pairs (H := H) d r d r hr hr ν ν' ν ν' l
    rw [pow_two, ← this, ← self_pairs d r (fun ν => power H ν ν l) ν ν', ← sum_sub_distrib]
    refine sum_congr rfl fun i hi => ?_
    rw [← add_sum_erase _ _ hi]
    ring

/-- C87: in particular, sources without clustering, which have the density of the randoms, have negative power, at all multipoles at which the density has power. -/
theorem C87_auto_wrong (d r : CatArgs) (hr : total r ≠ 0) (hd : 0 < squares d) (lmax : ℕ) (x y : Ω → ℕ → ℝ × ℝ) (ν : Measure (ℝ × ℝ))
    (hx : Drawn μ d.nsrc x ν) (hy : Drawn μ r.nsrc y ν) (hxx : Indep μ d.nsrc x) (hyy : Indep μ r.nsrc y) (hxy : IndepOf μ d.nsrc r.nsrc x y)
    (hν : HasCoefs H lmax ν) (hN : ∀ l ≤ lmax, H.Normalised 0 l) :
    ∃ S : Ω → Arr2 ℝ, (∀ ω, ((nmtFieldClustering H (placed d (x ω)) (placed r (y ω)) lmax).bind fun v => computeCoupledCell v v true) = .ok (some (S ω))) ∧
      ∀ l ≤ lmax, 0 < power H ν ν l → ∫ ω, (S ω).val 0 l ∂μ < 0 := by
  obtain ⟨S, h1, h2⟩ := C87_auto_exact d r hr lmax x y ν ν hx hy hxx hyy hxy hν hν hN
  refine ⟨S, h1, fun l hl hp => ?_⟩
  rw [(h2 l hl).2]
  have e : contrast H ν ν ν ν l = 0 := by
    unfold contrast alm2cl
    simp
  rw [e]
  have h3 : 0 ≤ (total d / total r) ^ 2 * squares r * power H ν ν l :=
    mul_nonneg (mul_nonneg (sq_nonneg _) (sum_nonneg fun i _ => sq_nonneg _)) hp.le
  have h4 := mul_pos hd hp
  linarith

/-- The mean of the spectrum of two different clustering fields, if the means of the products of harmonics of the pairs of sources are those of independent
positions up to `e`. -/
theorem cross_general (d1 r1 d2 r2 : CatArgs) (h1 : total r1 ≠ 0) (h2 : total r2 ≠ 0) (lmax : ℕ) (x1 y1 x2 y2 : Ω → ℕ → ℝ × ℝ) (ν1 ν1' ν2 ν2' : Measure (ℝ × ℝ))
    (hx1 : Drawn μ d1.nsrc x1 ν1) (hy1 : Drawn μ r1.nsrc y1 ν1') (hx2 : Drawn μ d2.nsrc x2 ν2) (hy2 : Drawn μ r2.nsrc y2 ν2') (e : ℕ → ℕ → ℕ → ℝ)
    (he : ∀ l ≤ lmax, ∀ i < d1.nsrc + r1.nsrc, ∀ j < d2.nsrc + r2.nsrc,
      Integrable (fun ω => alm2cl (fun l m => H.a 0 l m (bothPos d1.nsrc (x1 ω) (y1 ω) i)) (fun l m => H.a 0 l m (bothPos d2.nsrc (x2 ω) (y2 ω) j)) l) μ ∧
      ∫ ω, alm2cl (fun l m => H.a 0 l m (bothPos d1.nsrc (x1 ω) (y1 ω) i)) (fun l m => H.a 0 l m (bothPos d2.nsrc (x2 ω) (y2 ω) j)) l ∂μ =
        power H (bothLaw d1.nsrc ν1 ν1' i) (bothLaw d2.nsrc ν2 ν2' j) l + e l i j) :
    ∃ S : Ω → Arr2 ℝ, (∀ ω, ((nmtFieldClustering H (placed d1 (x1 ω)) (placed r1 (y1 ω)) lmax).bind fun v =>
        (nmtFieldClustering H (placed d2 (x2 ω)) (placed r2 (y2 ω)) lmax).bind fun w => computeCoupledCell v w false) = .ok (some (S ω))) ∧
      ∀ l ≤ lmax, Integrable (fun ω => (S ω).val 0 l) μ ∧ ∫ ω, (S ω).val 0 l ∂μ = total d1 * total d2 * contrast H ν1 ν1' ν2 ν2' l +
        ∑ i ∈ range (d1.nsrc + r1.nsrc), ∑ j ∈ range (d2.nsrc + r2.nsrc), bothWeight d1 r1 i * (bothWeight d2 r2 j * e l i j) := by
  have hv : ∀ ω, ∃ S : Arr2 ℝ, ((nmtFieldClustering H (placed d1 (x1 ω)) (placed r1 (y1 ω)) lmax).bind fun v =>
        (nmtFieldClustering H (placed d2 (x2 ω)) (placed r2 (y2 ω)) lmax).bind fun w => computeCoupledCell v w false) = .ok (some S) ∧
      ∀ l ≤ lmax, S.val 0 l = ∑ i ∈ range (d1.nsrc + r1.nsrc), ∑ j ∈ range (d2.nsrc + r2.nsrc),
        pairTerm H 0 0 0 0 l (bothPos d1.nsrc (x1 ω) (y1 ω) i) (bothWeight d1 r1 i) 0 (bothPos d2.nsrc (x2 ω) (y2 ω) j) (bothWeight d2 r2 j) 0 := by
    intro ω
    obtain ⟨v, A, hv, gv, nv, av, hA⟩ := clustering_view H d1 r1 lmax (hx1.sphere ω) (hy1.sphere ω)
    obtain ⟨w, B, hw, gw, nw, aw, hB⟩ := clustering_view H d2 r2 lmax (hx2.sphere ω) (hy2.sphere ω)
    rw [hv, hw]
    refine ⟨_, coupledCell_val v w false A B av aw (by rw [gv, gw]; unfold isCompatible; simp), fun l hl => ?_⟩
    simp only [Arr2.of]
    rw [tab2_of_lt _ (by rw [nv, nw]; norm_num) (by rw [gv, gw]; simp only [Nat.min_self]; omega)]
    simp only [nw, Nat.zero_div, Nat.zero_mod, Bool.false_eq_true, if_false, if_true, sub_zero]
    rw [alm2cl_congr (fun m => hA l m) (fun m => hB l m), catalog_pairs]
    simp [single]
  choose S hS hval using hv
  refine ⟨S, hS, fun l hl => ?_⟩
  have hpair : ∀ i ∈ range (d1.nsrc + r1.nsrc), ∀ j ∈ range (d2.nsrc + r2.nsrc),
      Integrable (fun ω => pairTerm H 0 0 0 0 l (bothPos d1.nsrc (x1 ω) (y1 ω) i) (bothWeight d1 r1 i) 0 (bothPos d2.nsrc (x2 ω) (y2 ω) j) (bothWeight d2 r2 j) 0) μ ∧
      ∫ ω, pairTerm H 0 0 0 0 l (bothPos d1.nsrc (x1 ω) (y1 ω) i) (bothWeight d1 r1 i) 0 (bothPos d2.nsrc (x2 ω) (y2 ω) j) (bothWeight d2 r2 j) 0 ∂μ =
        bothWeight d1 r1 i * (bothWeight d2 r2 j * power H (bothLaw d1.nsrc ν1 ν1' i) (bothLaw d2.nsrc ν2 ν2' j) l) +
          bothWeight d1 r1 i * (bothWeight d2 r2 j * e l i j) := by
    intro i hi j hj
    obtain ⟨a1, a2⟩ := he l hl i (mem_range.1 hi) j (mem_range.1 hj)
    simp only [pairTerm_scalar]
    refine ⟨(a1.const_mul _).const_mul _, ?_⟩
    rw [integral_const_mul, integral_const_mul, a2]
    ring
  constructor
  · simp only [hval _ l hl]
    exact integrable_finsetSum _ fun i hi => integrable_finsetSum _ fun j hj => (hpair i hi j hj).1
  · simp only [hval _ l hl]
    rw [integral_finsetSum _ fun i hi => integrable_finsetSum _ fun j hj => (hpair i hi j hj).1]
    rw [sum_congr rfl fun i hi => (integral_finsetSum _ fun j hj => (hpair i hi j hj).1).trans (sum_congr rfl fun j hj => (hpair i hi j hj).2)]
    simp only [sum_add_distrib]
    rw [all_pairs d1 r1 d2 r2 h1 h2]

/-- Positions of two pairs of catalogs are independent. -/
theorem both_indep {n1 n1' n2 n2' : ℕ} {x1 y1 x2 y2 : Ω → ℕ → ℝ × ℝ} (a : IndepOf μ n1 n2 x1 x2) (b : IndepOf μ n1 n2' x1 y2) (c : IndepOf μ n1' n2 y1 x2)
    (d : IndepOf μ n1' n2' y1 y2) {i j : ℕ} (hi : i < n1 + n1') (hj : j < n2 + n2') :
    IndepFun (fun ω => bothPos n1 (x1 ω) (y1 ω) i) (fun ω => bothPos n2 (x2 ω) (y2 ω) j) μ := by
  unfold bothPos
  by_cases h1 : i < n1 <;> by_cases h2 : j < n2
  · simp only [if_pos h1, if_pos h2]; exact a i h1 j h2
  · simp only [if_pos h1, if_neg h2]; exact b i h1 _ (by omega)
  · simp only [if_neg h1, if_pos h2]; exact c _ (by omega) j h2
  · simp only [if_neg h1, if_neg h2]; exact d _ (by omega) _ (by omega)

/-- C87: the mean of the spectrum of two clustering catalogs, with randoms of their own and all drawn independently, is exactly that of the differences of the
densities. In particular it is zero if one of the catalogs is not clustered. -/
theorem C87_cross (d1 r1 d2 r2 : CatArgs) (h1 : total r1 ≠ 0) (h2 : total r2 ≠ 0) (lmax : ℕ) (x1 y1 x2 y2 : Ω → ℕ → ℝ × ℝ) (ν1 ν1' ν2 ν2' : Measure (ℝ × ℝ))
    (hx1 : Drawn μ d1.nsrc x1 ν1) (hy1 : Drawn μ r1.nsrc y1 ν1') (hx2 : Drawn μ d2.nsrc x2 ν2) (hy2 : Drawn μ r2.nsrc y2 ν2')
    (i1 : IndepOf μ d1.nsrc d2.nsrc x1 x2) (i2 : IndepOf μ d1.nsrc r2.nsrc x1 y2) (i3 : IndepOf μ r1.nsrc d2.nsrc y1 x2) (i4 : IndepOf μ r1.nsrc r2.nsrc y1 y2)
    (c1 : HasCoefs H lmax ν1) (c2 : HasCoefs H lmax ν1') (c3 : HasCoefs H lmax ν2) (c4 : HasCoefs H lmax ν2') :
    ∃ S : Ω → Arr2 ℝ, (∀ ω, ((nmtFieldClustering H (placed d1 (x1 ω)) (placed r1 (y1 ω)) lmax).bind fun v =>
        (nmtFieldClustering H (placed d2 (x2 ω)) (placed r2 (y2 ω)) lmax).bind fun w => computeCoupledCell v w false) = .ok (some (S ω))) ∧
      ∀ l ≤ lmax, Integrable (fun ω => (S ω).val 0 l) μ ∧ ∫ ω, (S ω).val 0 l ∂μ = total d1 * total d2 * contrast H ν1 ν1' ν2 ν2' l := by
  obtain ⟨S, a, b⟩ := cross_general (H := H) d1 r1 d2 r2 h1 h2 lmax x1 y1 x2 y2 ν1 ν1' ν2 ν2' hx1 hy1 hx2 hy2 (fun _ _ _ => 0) (by
    intro l hl i hi j hj
    obtain ⟨m1, l1⟩ := both_meas hx1 hy1 hi
    obtain ⟨m2, l2⟩ := both_meas hx2 hy2 hj
    obtain ⟨a1, a2⟩ := harmonics_mean (H := H) m1 m2 (both_indep i1 i2 i3 i4 hi hj) l1 l2 hl (bothLaw_coefs c1 c2 i) (bothLaw_coefs c3 c4 j)
    exact ⟨a1, by rw [a2, add_zero]⟩)
  refine ⟨S, a, fun l hl => ⟨(b l hl).1, ?_⟩⟩
  rw [(b l hl).2]
  simp

/-- C87: the same for two catalogs with the same randoms. The pairs of a random source with itself are not subtracted, and the mean differs by their number times the
difference between the spectrum of a single source and that of the density of the randoms. -/
theorem C87_shared_exact [IsProbabilityMeasure μ] (d1 d2 r : CatArgs) (hr : total r ≠ 0) (lmax : ℕ) (x1 x2 y : Ω → ℕ → ℝ × ℝ) (ν1 ν2 ν' : Measure (ℝ × ℝ))
    (hx1 : Drawn μ d1.nsrc x1 ν1) (hx2 : Drawn μ d2.nsrc x2 ν2) (hy : Drawn μ r.nsrc y ν')
    (i1 : IndepOf μ d1.nsrc d2.nsrc x1 x2) (i2 : IndepOf μ d1.nsrc r.nsrc x1 y) (i3 : IndepOf μ r.nsrc d2.nsrc y x2) (i4 : Indep μ r.nsrc y)
    (c1 : HasCoefs H lmax ν1) (c2 : HasCoefs H lmax ν2) (c3 : HasCoefs H lmax ν') (hN : ∀ l ≤ lmax, H.Normalised 0 l) :
    ∃ S : Ω → Arr2 ℝ, (∀ ω, ((nmtFieldClustering H (placed d1 (x1 ω)) (placed r (y ω)) lmax).bind fun v =>
        (nmtFieldClustering H (placed d2 (x2 ω)) (placed r (y ω)) lmax).bind fun w => computeCoupledCell v w false) = .ok (some (S ω))) ∧
      ∀ l ≤ lmax, Integrable (fun ω => (S ω).val 0 l) μ ∧ ∫ ω, (S ω).val 0 l ∂μ = total d1 * total d2 * contrast H ν1 ν' ν2 ν' l +
        total d1 / total r * (total d2 / total r) * squares r * (1 / (4 * Real.pi) - power H ν' ν' l) := by
  classical
  obtain ⟨S, a, b⟩ := cross_general (H := H) d1 r d2 r hr hr lmax x1 y x2 y ν1 ν' ν2 ν' hx1 hy hx2 hy
    (fun l i j => if ¬ i < d1.nsrc ∧ j = d2.nsrc + (i - d1.nsrc) then 1 / (4 * Real.pi) - power H ν' ν' l else 0) (by
    intro l hl i hi j hj
    obtain ⟨m1, l1⟩ := both_meas hx1 hy hi
    obtain ⟨m2, l2⟩ := both_meas hx2 hy hj
    by_cases hs : ¬ i < d1.nsrc ∧ j = d2.nsrc + (i - d1.nsrc)
    · have hjn : ¬ j < d2.nsrc := by omega
      have e1 : ∀ ω, bothPos d1.nsrc (x1 ω) (y ω) i = y ω (i - d1.nsrc) := fun ω => if_neg hs.1
      have e2 : ∀ ω, bothPos d2.nsrc (x2 ω) (y ω) j = y ω (i - d1.nsrc) := by
        intro ω
        unfold bothPos
        rw [if_neg hjn, hs.2, Nat.add_sub_cancel_left]
      have e3 : bothLaw d1.nsrc ν1 ν' i = ν' := if_neg hs.1
      have e4 : bothLaw d2.nsrc ν2 ν' j = ν' := if_neg hjn
      rw [if_pos hs, e3, e4]
      simp only [e1, e2, (hN l hl).scalar rfl]
      refine ⟨integrable_const _, ?_⟩
      rw [integral_const]
      simp
    · have hind : IndepFun (fun ω => bothPos d1.nsrc (x1 ω) (y ω) i) (fun ω => bothPos d2.nsrc (x2 ω) (y ω) j) μ := by
        unfold bothPos
        by_cases h1 : i < d1.nsrc <;> by_cases h2 : j < d2.nsrc
        · simp only [if_pos h1, if_pos h2]; exact i1 i h1 j h2
        · simp only [if_pos h1, if_neg h2]; exact i2 i h1 _ (by omega)
        · simp only [if_neg h1, if_pos h2]; exact i3 _ (by omega) j h2
        · simp only [if_neg h1, if_neg h2]; exact i4 _ (by omega) _ (by omega) fun h => hs ⟨h1, by omega⟩
      obtain ⟨a1, a2⟩ := harmonics_mean (H := H) m1 m2 hind l1 l2 hl (bothLaw_coefs c1 c3 i) (bothLaw_coefs c2 c3 j)
      exact ⟨a1, by rw [a2, if_neg hs, add_zero]⟩)
  refine ⟨S, a, fun l hl => ⟨(b l hl).1, ?_⟩⟩
  rw [(b l hl).2]
  congr 1
  rw [sum_range_add, sum_eq_zero, zero_add]
  · have e : ∀ i ∈ range r.nsrc, ∑ j ∈ range (d2.nsrc + r.nsrc), bothWeight d1 r (d1.nsrc + i) * (bothWeight d2 r j *
        if ¬ d1.nsrc + i < d1.nsrc ∧ j = d2.nsrc + (d1.nsrc + i - d1.nsrc) then 1 / (4 * Real.pi) - power H ν' ν' l else 0) =
        (total d1 / total r * (total d2 / total r) * (1 / (4 * Real.pi) - power H ν' ν' l)) * r.weights i ^ 2 := by
      intro i hi
      have hi' := mem_range.1 hi
      rw [sum_eq_single_of_mem (d2.nsrc + i) (mem_range.2 (by omega))]
      · have n1 : ¬ d1.nsrc + i < d1.nsrc := by omega
        have n2 : ¬ d2.nsrc + i < d2.nsrc := by omega
        rw [if_pos ⟨n1, by omega⟩]
        simp only [bothWeight, if_neg n1, if_neg n2, Nat.add_sub_cancel_left, total]
        ring
      · intro j _ hj
        rw [if_neg (by omega), mul_zero, mul_zero]
    rw [sum_congr rfl e, ← mul_sum]
    unfold squares
    ring
  · intro i hi
    refine sum_eq_zero fun j _ => ?_
    rw [if_neg (by have := mem_range.1 hi; omega), mul_zero, mul_zero]

/-- C87: so sources without clustering, in two catalogs with the same randoms, have a spectrum that does not vanish. -/
theorem C87_shared_wrong [IsProbabilityMeasure μ] (d1 d2 r : CatArgs) (hr : total r ≠ 0) (h1 : total d1 ≠ 0) (h2 : total d2 ≠ 0) (lmax : ℕ)
    (x1 x2 y : Ω → ℕ → ℝ × ℝ) (ν : Measure (ℝ × ℝ)) (hx1 : Drawn μ d1.nsrc x1 ν) (hx2 : Drawn μ d2.nsrc x2 ν) (hy : Drawn μ r.nsrc y ν)
    (i1 : IndepOf μ d1.nsrc d2.nsrc x1 x2) (i2 : IndepOf μ d1.nsrc r.nsrc x1 y) (i3 : IndepOf μ r.nsrc d2.nsrc y x2) (i4 : Indep μ r.nsrc y)
    (c : HasCoefs H lmax ν) (hN : ∀ l ≤ lmax, H.Normalised 0 l) :
    ∃ S : Ω → Arr2 ℝ, (∀ ω, ((nmtFieldClustering H (placed d1 (x1 ω)) (placed r (y ω)) lmax).bind fun v =>
        (nmtFieldClustering H (placed d2 (x2 ω)) (placed r (y ω)) lmax).bind fun w => computeCoupledCell v w false) = .ok (some (S ω))) ∧
      ∀ l ≤ lmax, power H ν ν l ≠ 1 / (4 * Real.pi) → ∫ ω, (S ω).val 0 l ∂μ ≠ 0 := by
  obtain ⟨S, a, b⟩ := C87_shared_exact (H := H) d1 d2 r hr lmax x1 x2 y ν ν ν hx1 hx2 hy i1 i2 i3 i4 c c c hN
  refine ⟨S, a, fun l hl hp => ?_⟩
  rw [(b l hl).2]
  have e : contrast H ν ν ν ν l = 0 := by
    unfold contrast alm2cl
    simp
  have hs : squares r ≠ 0 := by
    intro h0
    apply hr
    unfold squares at h0
    rw [sum_eq_zero_iff_of_nonneg fun i _ => sq_nonneg _] at h0
    unfold total
    exact sum_eq_zero fun i hi => by simpa using h0 i hi
  rw [e, mul_zero, zero_add]
  exact mul_ne_zero (mul_ne_zero (mul_ne_zero (div_ne_zero h1 hr) (div_ne_zero h2 hr)) hs) (sub_ne_zero.2 hp.symm)

/-- C87: the mask spectrum given to the coupling matrix is, on average, that of the density of the randoms with the total weight of the data, times one minus the effective
number of randoms to the power minus one. -/
theorem C87_mask_exact (d r : CatArgs) (hr : total r ≠ 0) (lmax : ℕ) {x : ℕ → ℝ × ℝ} (hx : OnSphere d.nsrc x) (y : Ω → ℕ → ℝ × ℝ) (ν' : Measure (ℝ × ℝ))
    (hy : Drawn μ r.nsrc y ν') (hyy : Indep μ r.nsrc y) (hν' : HasCoefs H lmax ν') (hN : ∀ l ≤ lmax, H.Normalised 0 l) :
    ∃ v : Ω → FieldView, (∀ ω, nmtFieldClustering H (placed d x) (placed r (y ω)) lmax = .ok (v ω)) ∧
      ∀ l ≤ lmax, Integrable (fun ω => maskSpectrum (v ω) (v ω) true l) μ ∧
        ∫ ω, maskSpectrum (v ω) (v ω) true l ∂μ = total d ^ 2 * (1 - squares r / total r ^ 2) * power H ν' ν' l := by
  have hv : ∀ ω, ∃ v, nmtFieldClustering H (placed d x) (placed r (y ω)) lmax = .ok v ∧ ∀ l ≤ lmax, maskSpectrum v v true l =
      ∑ i ∈ range r.nsrc, ∑ j ∈ (range r.nsrc).erase i,
        pairTerm H 0 0 0 0 l (y ω i) (bothWeight d r (d.nsrc + i)) 0 (y ω j) (bothWeight d r (d.nsrc + j)) 0 := by
    intro ω
    obtain ⟨v, A, hv, -⟩ := clustering_view H d r lmax hx (hy.sphere ω)
    obtain ⟨s, -, -, -, h2⟩ := C39_clustering H _ _ lmax v hv
    refine ⟨v, hv, fun l hl => ?_⟩
    rw [(h2 l hl (hN l hl)).2]
    rfl
  choose v hv hval using hv
  refine ⟨v, hv, fun l hl => ?_⟩
  have hw : ∀ i, bothWeight d r (d.nsrc + i) = -(total d / total r) * r.weights i := by
    intro i
    have : ¬ d.nsrc + i < d.nsrc := by omega
    simp only [bothWeight, if_neg this, Nat.add_sub_cancel_left, total]
    ring
  have hpair : ∀ i ∈ range r.nsrc, ∀ j ∈ (range r.nsrc).erase i,
      Integrable (fun ω => pairTerm H 0 0 0 0 l (y ω i) (bothWeight d r (d.nsrc + i)) 0 (y ω j) (bothWeight d r (d.nsrc + j)) 0) μ ∧
      ∫ ω, pairTerm H 0 0 0 0 l (y ω i) (bothWeight d r (d.nsrc + i)) 0 (y ω j) (bothWeight d r (d.nsrc + j)) 0 ∂μ =
        ((total d / total r) ^ 2 * power H ν' ν' l) * (r.weights i * r.weights j) := by
    intro i hi j hj
    have hi' := mem_range.1 hi
    have hj' := mem_range.1 (mem_of_mem_erase hj)
    obtain ⟨a1, a2⟩ := harmonics_mean (H := H) (hy.meas i hi') (hy.meas j hj') (hyy i hi' j hj' (ne_of_mem_erase hj).symm) (hy.law i hi') (hy.law j hj') hl hν' hν'
    simp only [pairTerm_scalar]
    refine ⟨(a1.const_mul _).const_mul _, ?_⟩
    rw [integral_const_mul, integral_const_mul, a2, hw, hw]
    ring
  constructor
  · simp only [hval _ l hl]
    exact integrable_finsetSum _ fun i hi => integrable_finsetSum _ fun j hj => (hpair i hi j hj).1
  · simp only [hval _ l hl]
    rw [integral_finsetSum _ fun i hi => integrable_finsetSum _ fun j hj => (hpair i hi j hj).1]
    rw [sum_congr rfl fun i hi => (integral_finsetSum _ fun j hj => (hpair i hi j hj).1).trans (sum_congr rfl fun j hj => (hpair i hi j hj).2)]
    simp only [← mul_sum]
    have key : ∑ i ∈ range r.nsrc, r.weights i * ∑ j ∈ (range r.nsrc).erase i, r.weights j = total r ^ 2 - squares r := by
      have e : ∀ i ∈ range r.nsrc, r.weights i * ∑ j ∈ (range r.nsrc).erase i, r.weights j = r.weights i * total r - r.weights i ^ 2 := by
        intro i hi
        unfold total
        rw [← add_sum_erase _ _ hi]
        ring
      rw [sum_congr rfl e, sum_sub_distrib, ← sum_mul]
      unfold total squares
      ring
    rw [key]
    field_simp

end NaMaster
