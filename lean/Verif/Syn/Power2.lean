import Verif.Syn.Power

/-! # Lemmas for property C61: covariance of the simulated coefficients -/

namespace NaMaster

open Finset Real MeasureTheory

/-! ## The numbers of the threads do not depend on the random numbers -/

theorem step_ithr (A : SynAlm) (E : Eigen) (gauss gauss' : ℤ → ℕ → ℝ × ℝ) (seed : ℤ) (tr : List SynEvent) :
    ∀ s s' : SynState, s.numthr = s'.numthr → s.ithr = s'.ithr →
      (tr.foldl (A.step E gauss seed) s).ithr = (tr.foldl (A.step E gauss' seed) s').ithr := by
  induction tr with
  | nil => intro s s' _ h; exact h
  | cons e tr ih =>
    intro s s' h1 h2
    rw [List.foldl_cons, List.foldl_cons]
    cases e with
    | arrive t => exact ih _ _ (by simp only [SynAlm.step, h1]) (by simp only [SynAlm.step, h1, h2])
    | mode t k => exact ih _ _ (by simpa only [SynAlm.step] using h1) (by simpa only [SynAlm.step] using h2)

theorem rankOf_eq (A : SynAlm) (E : Eigen) (gauss gauss' : ℤ → ℕ → ℝ × ℝ) (seed : ℤ) (tr : List SynEvent) (i0 c0 : ℕ → ℕ)
    (m0 : ℕ × ℕ × ℕ → ℂ) : A.rankOf E gauss seed tr i0 c0 m0 = A.rankOf E gauss' seed tr i0 c0 m0 :=
  step_ithr A E gauss gauss' seed tr _ _ rfl rfl

/-! ## Rotations at opposite modes -/

theorem csRec_neg (c s : ℝ) (n : ℕ) : csRec (-c) (-s) n = ((-1) ^ n * (csRec c s n).1, (-1) ^ n * (csRec c s n).2) := by
  induction n with
  | zero => simp [csRec]
  | succ n ih => simp only [csRec, ih, pow_succ]; ext <;> ring

theorem csRec_one (n : ℕ) : csRec 1 0 n = (1, 0) := by
  induction n with
  | zero => rfl
  | succ n ih => simp [csRec, ih]

theorem star_sig (s : ℕ) : star (sigOverall s * (-Complex.I) ^ s) = (-1) ^ s * (sigOverall s * (-Complex.I) ^ s) := by
  have h1 : star (sigOverall s) = sigOverall s := by unfold sigOverall; split_ifs <;> simp
  have h2 : star ((-Complex.I) ^ s) = Complex.I ^ s := by
    rw [star_pow]; congr 1; simp
  rw [star_mul', h1, h2, ← mul_assoc, mul_comm ((-1 : ℂ) ^ s), mul_assoc, ← mul_pow]
  congr 2
  ring

/-- E and B of a real map: the rotation at the opposite mode of conjugate coefficients is the conjugate. -/
theorem eb2qu_conj (s : ℕ) (kx ky : ℝ) (a : ℂ × ℂ) (h : ¬ (kx = 0 ∧ ky = 0) ∨ Even s ∨ a = (0, 0)) :
    eb2qu s (-kx) (-ky) (star a.1, star a.2) = (star (eb2qu s kx ky a).1, star (eb2qu s kx ky a).2) := by
  have hsig := star_sig s
  have hr : ∀ x : ℝ, star (x : ℂ) = x := fun x => Complex.conj_ofReal x
  by_cases h0 : kx = 0 ∧ ky = 0
  · obtain ⟨rfl, rfl⟩ := h0
    rcases h with h | h | h
    · exact absurd ⟨rfl, rfl⟩ h
    · rw [h.neg_one_pow, one_mul] at hsig
      unfold eb2qu modeDir
      simp only [neg_zero, mul_zero, add_zero, le_refl, if_true, csRec_one, star_mul', star_add, hsig, star_neg, star_zero,
        star_one, Complex.ofReal_one, Complex.ofReal_zero]
    · subst h
      simp [eb2qu]
  · have hk : ¬ kx * kx + ky * ky ≤ 0 := by
      intro hc
      have h1 := mul_self_nonneg kx
      have h2 := mul_self_nonneg ky
      exact h0 ⟨mul_self_eq_zero.mp (by linarith), mul_self_eq_zero.mp (by linarith)⟩
    have hd : modeDir (-kx) (-ky) = (-(modeDir kx ky).1, -(modeDir kx ky).2) := by
      unfold modeDir
      simp only [neg_mul_neg, if_neg hk]
      simp only [neg_mul]
    unfold eb2qu
    simp only [hd, csRec_neg, star_mul', star_add, hsig, star_neg, hr]
    have hsq : ((-1 : ℂ) ^ s) * ((-1) ^ s) = 1 := by rw [← mul_pow]; simp
    push_cast
    ext
    · ring_nf
    · ring_nf

/-! ## Covariance -/

/-- The phase with which the two components of a random number enter mode `k`. -/
noncomputable def modePhase (fs : FlatInfo) (k : ℕ × ℕ) (b : Bool) : ℂ :=
  if k = (0, 0) then (if b then 0 else ((√2 : ℝ) : ℂ))
  else if posMode fs k then (if b then Complex.I else 1) else (if b then -Complex.I else 1)

theorem modePhase_sum (fs : FlatInfo) (k : ℕ × ℕ) : ∑ b : Bool, modePhase fs k b * star (modePhase fs k b) = 2 := by
  rw [Fintype.sum_bool]
  unfold modePhase
  by_cases h0 : k = (0, 0)
  · have : ((√2 : ℝ) : ℂ) * star ((√2 : ℝ) : ℂ) = 2 := by
      have h1 : star ((√2 : ℝ) : ℂ) = ((√2 : ℝ) : ℂ) := Complex.conj_ofReal _
      rw [h1, ← Complex.ofReal_mul, Real.mul_self_sqrt (by norm_num)]
      norm_num
    simp only [h0, if_true, Bool.false_eq_true, if_false, zero_mul, zero_add]
    exact this
  · by_cases hp : posMode fs k
    · simp [h0, hp]; norm_num
    · simp [h0, hp]; norm_num

theorem modePhase_cross (fs : FlatInfo) {k k' : ℕ × ℕ} (h0 : k ≠ (0, 0)) (h0' : k' ≠ (0, 0))
    (h : posMode fs k ↔ ¬ posMode fs k') : ∑ b : Bool, modePhase fs k b * star (modePhase fs k' b) = 0 := by
  rw [Fintype.sum_bool]
  unfold modePhase
  by_cases hp : posMode fs k
  · have hp' := h.mp hp
    simp [h0, h0', hp, hp']
  · have hp' : posMode fs k' := by
      by_contra hc
      exact hp (h.mpr hc)
    simp [h0, h0', hp, hp']

/-- The sets of indices of the random numbers. -/
def drawSet (A : SynAlm) : Finset ((ℕ × ℕ) × ℕ × Bool) :=
  (range (A.fs.nx / 2 + 1) ×ˢ range A.fs.ny) ×ˢ range A.nmaps ×ˢ univ

/-- The generator and the number of the call for a mode and a map. -/
def drawIdx (A : SynAlm) (sched : List (List ℕ)) (rank : ℕ → ℕ) (x : (ℕ × ℕ) × ℕ × Bool) : ℕ × ℕ × Bool :=
  (rank (place sched x.1.2).1, ((place sched x.1.2).2 * (A.fs.nx / 2 + 1) + x.1.1) * A.nmaps + x.2.1, x.2.2)

theorem place_mem {n : ℕ} {sched : List (List ℕ)} (hperm : sched.flatten.Perm (List.range n)) {iy : ℕ} (hy : iy < n) :
    ∃ l, sched[(place sched iy).1]? = some l ∧ l[(place sched iy).2]? = some iy := by
  have h1 : iy ∈ sched.flatten := hperm.mem_iff.mpr (List.mem_range.mpr hy)
  obtain ⟨l, hl, hi⟩ := List.mem_flatten.mp h1
  obtain ⟨t, ht, rfl⟩ := List.mem_iff_getElem.mp hl
  obtain ⟨p, hp, hpe⟩ := List.mem_iff_getElem.mp hi
  have e1 : sched[t]? = some sched[t] := List.getElem?_eq_getElem ht
  have e2 : (sched[t])[p]? = some iy := by rw [List.getElem?_eq_getElem hp, hpe]
  rw [place_eq (hperm.nodup_iff.mpr List.nodup_range) e1 e2]
  exact ⟨_, e1, e2⟩

theorem drawIdx_lt {A : SynAlm} {sched : List (List ℕ)} {rank : ℕ → ℕ} (hperm : sched.flatten.Perm (List.range A.fs.ny))
    (hr : ∀ t < sched.length, rank t < sched.length) {x : (ℕ × ℕ) × ℕ × Bool} (hx : x ∈ drawSet A) :
    (drawIdx A sched rank x).1 < sched.length := by
  simp only [drawSet, mem_product, mem_range] at hx
  obtain ⟨l, h1, -⟩ := place_mem hperm hx.1.2
  exact hr _ (List.getElem?_eq_some_iff.mp h1).1

theorem drawIdx_inj {A : SynAlm} {sched : List (List ℕ)} {rank : ℕ → ℕ} (hperm : sched.flatten.Perm (List.range A.fs.ny))
    (hr : ∀ t < sched.length, ∀ t' < sched.length, rank t = rank t' → t = t') {x y : (ℕ × ℕ) × ℕ × Bool} (hx : x ∈ drawSet A)
    (hy : y ∈ drawSet A) (h : drawIdx A sched rank x = drawIdx A sched rank y) : x = y := by
  simp only [drawSet, mem_product, mem_range] at hx hy
  obtain ⟨l, h1, h2⟩ := place_mem hperm hx.1.2
  obtain ⟨l', h1', h2'⟩ := place_mem hperm hy.1.2
  simp only [drawIdx, Prod.mk.injEq] at h
  obtain ⟨e1, e2, e3⟩ := h
  have e4 := hr _ (List.getElem?_eq_some_iff.mp h1).1 _ (List.getElem?_eq_some_iff.mp h1').1 e1
  have e2' : A.nmaps * ((place sched x.1.2).2 * (A.fs.nx / 2 + 1) + x.1.1) + x.2.1 =
      A.nmaps * ((place sched y.1.2).2 * (A.fs.nx / 2 + 1) + y.1.1) + y.2.1 := by
    rw [Nat.mul_comm A.nmaps, Nat.mul_comm A.nmaps]; exact e2
  obtain ⟨e6, e5⟩ := flat_inj hx.2.1 hy.2.1 e2'
  have e5' : (A.fs.nx / 2 + 1) * (place sched x.1.2).2 + x.1.1 = (A.fs.nx / 2 + 1) * (place sched y.1.2).2 + y.1.1 := by
    rw [Nat.mul_comm (A.fs.nx / 2 + 1), Nat.mul_comm (A.fs.nx / 2 + 1)]; exact e5
  obtain ⟨e8, e7⟩ := flat_inj hx.1.1 hy.1.1 e5'
  rw [e4] at h1
  rw [h1] at h1'
  rw [e7, Option.some.inj h1'] at h2
  rw [h2] at h2'
  exact Prod.ext (Prod.ext e8 (Option.some.inj h2')) (Prod.ext e6 e3)

/-- The factor with which a random number enters a coefficient. -/
noncomputable def synWeight (A : SynAlm) (E : Eigen) (X : ℕ) (k : ℕ × ℕ) (x : (ℕ × ℕ) × ℕ × Bool) : ℂ :=
  if x.1 = repMode A.fs k then
    ((A.beam X (A.fs.kmod k.1 k.2) * A.root E (A.fs.kmod k.1 k.2) X x.2.1 : ℝ) : ℂ) * modePhase A.fs k x.2.2 else 0

theorem drawSet_sum {A : SynAlm} {q : ℕ × ℕ} (hq : q.1 ≤ A.fs.nx / 2 ∧ q.2 < A.fs.ny) (f : (ℕ × ℕ) × ℕ × Bool → ℂ)
    (hf : ∀ x, x.1 ≠ q → f x = 0) : ∑ x ∈ drawSet A, f x = ∑ j ∈ range A.nmaps, ∑ b : Bool, f (q, j, b) := by
  unfold drawSet
  rw [Finset.sum_product, Finset.sum_eq_single q]
  · rw [Finset.sum_product]
  · intro q' _ hne
    exact Finset.sum_eq_zero fun x _ => hf _ hne
  · intro hn
    exact absurd (mem_product.mpr ⟨mem_range.mpr (by omega), mem_range.mpr hq.2⟩) hn

/-- The full array as a linear combination of the random numbers. -/
theorem full_linear {A : SynAlm} (hx : Odd A.fs.nx) (hy : Odd A.fs.ny) (E : Eigen) (gauss : ℤ → ℕ → ℝ × ℝ) (seed : ℤ)
    (sched : List (List ℕ)) (rank : ℕ → ℕ) (X : ℕ) {k : ℕ × ℕ} (hk : k ∈ A.fs.modes) :
    fullArr A.fs (fun k => A.cell (synValues A E gauss seed sched rank) X k.1 k.2) k =
      ∑ x ∈ drawSet A, synWeight A E X k x * (drawOf gauss seed (drawIdx A sched rank x) : ℂ) := by
  have hrep := repMode_half hx hy hk
  rw [full_cell hx hy _ X hk, drawSet_sum hrep _ fun x hx => by unfold synWeight; rw [if_neg hx, zero_mul]]
  simp only [Fintype.sum_bool, synWeight, if_true]
  have hkm := kmod_repMode hk
  set q := repMode A.fs k with hq
  have hv : synValues A E gauss seed sched rank q.1 q.2 X =
      ∑ j ∈ range A.nmaps, ((A.beam X (A.fs.kmod k.1 k.2) * A.root E (A.fs.kmod k.1 k.2) X j : ℝ) : ℂ) *
        ((drawOf gauss seed (drawIdx A sched rank (q, j, false)) : ℝ) + Complex.I * (drawOf gauss seed (drawIdx A sched rank (q, j, true)) : ℝ)) := by
    unfold synValues SynAlm.coef
    simp only [hkm]
    rw [Finset.mul_sum, Finset.mul_sum]
    apply Complex.ext
    · simp only [Complex.re_sum]
      refine Finset.sum_congr rfl fun j _ => ?_
      simp [drawOf, drawIdx]
      ring
    · simp only [Complex.im_sum]
      refine Finset.sum_congr rfl fun j _ => ?_
      simp [drawOf, drawIdx]
      ring
  unfold modePhase
  by_cases h0 : k = (0, 0)
  · have hq0 : q = (0, 0) := by rw [hq]; unfold repMode; rw [if_pos (Or.inl h0), h0]
    rw [hq0] at hv
    simp only [if_pos h0]
    rw [hv, hq0, Complex.re_sum, Finset.mul_sum]
    push_cast
    refine Finset.sum_congr rfl fun j _ => ?_
    simp
    ring
  · simp only [if_neg h0]
    by_cases hp : posMode A.fs k
    · simp only [if_pos hp]
      rw [hv]
      refine Finset.sum_congr rfl fun j _ => ?_
      simp
      ring
    · simp only [if_neg hp]
      rw [hv, star_sum]
      refine Finset.sum_congr rfl fun j _ => ?_
      have hr : ∀ x : ℝ, star (x : ℂ) = x := fun x => Complex.conj_ofReal x
      have hI : star Complex.I = -Complex.I := Complex.conj_I
      rw [star_mul', star_add, star_mul', hr, hr, hr, hI]
      simp
      ring

/-- The covariance of the coefficients. -/
theorem syn_cov {Ω : Type*} [MeasurableSpace Ω] {μ : Measure Ω} {A : SynAlm} (hx : Odd A.fs.nx) (hy : Odd A.fs.ny) {E : Eigen}
    (hE : E.Correct) (hpsd : ∀ k, PsdMat A.nmaps (A.clmat k)) {gauss : Ω → ℤ → ℕ → ℝ × ℝ} {seed : ℤ} {sched : List (List ℕ)}
    (hperm : sched.flatten.Perm (List.range A.fs.ny)) {rank : ℕ → ℕ} (hr : ∀ t < sched.length, rank t < sched.length)
    (hr' : ∀ t < sched.length, ∀ t' < sched.length, rank t = rank t' → t = t') (hw : WhiteDraws μ gauss seed sched.length)
    {X Y : ℕ} (hX : X < A.nmaps) (hY : Y < A.nmaps) {k k' : ℕ × ℕ} (hk : k ∈ A.fs.modes) (hk' : k' ∈ A.fs.modes) :
    let F := fun (ω : Ω) (X : ℕ) (k : ℕ × ℕ) => fullArr A.fs (fun k => A.cell (synValues A E (gauss ω) seed sched rank) X k.1 k.2) k
    Integrable (fun ω => F ω X k * star (F ω Y k')) μ ∧
    ∫ ω, F ω X k * star (F ω Y k') ∂μ = if k = k' then
      ((2 * (A.clmat (A.fs.kmod k.1 k.2) X Y * (A.beam X (A.fs.kmod k.1 k.2) * A.beam Y (A.fs.kmod k.1 k.2))) : ℝ) : ℂ) else 0 := by
  intro F
  have hF : ∀ ω, F ω X k * star (F ω Y k') =
      (∑ x ∈ drawSet A, synWeight A E X k x * (drawOf (gauss ω) seed (drawIdx A sched rank x) : ℂ)) *
        star (∑ x ∈ drawSet A, synWeight A E Y k' x * (drawOf (gauss ω) seed (drawIdx A sched rank x) : ℂ)) := by
    intro ω
    simp only [F]
    rw [full_linear hx hy E (gauss ω) seed sched rank X hk, full_linear hx hy E (gauss ω) seed sched rank Y hk']
  simp only [hF]
  have hlin := lin_cov (μ := μ) (drawSet A) (fun ω x => drawOf (gauss ω) seed (drawIdx A sched rank x)) (synWeight A E X k)
    (synWeight A E Y k') (fun a ha b hb => hw.integrable _ _ (drawIdx_lt hperm hr ha) (drawIdx_lt hperm hr hb))
    (fun a ha b hb => by
      rw [hw.cov _ _ (drawIdx_lt hperm hr ha) (drawIdx_lt hperm hr hb)]
      by_cases hab : a = b
      · rw [hab, if_pos rfl, if_pos rfl]
      · rw [if_neg hab, if_neg fun h => hab (drawIdx_inj hperm hr' ha hb h)])
  refine ⟨hlin.1, hlin.2.trans ?_⟩
  rw [drawSet_sum (repMode_half hx hy hk) _ fun x hx => by unfold synWeight; rw [if_neg hx, zero_mul]]
  have hr0 : ∀ x : ℝ, star (x : ℂ) = x := fun x => Complex.conj_ofReal x
  by_cases hrep : repMode A.fs k = repMode A.fs k'
  · have e : ∀ j ∈ range A.nmaps, ∑ b : Bool, synWeight A E X k (repMode A.fs k, j, b) * star (synWeight A E Y k' (repMode A.fs k, j, b)) =
        ((A.beam X (A.fs.kmod k.1 k.2) * A.root E (A.fs.kmod k.1 k.2) X j : ℝ) : ℂ) *
        ((A.beam Y (A.fs.kmod k'.1 k'.2) * A.root E (A.fs.kmod k'.1 k'.2) Y j : ℝ) : ℂ) *
        ∑ b : Bool, modePhase A.fs k b * star (modePhase A.fs k' b) := by
      intro j _
      rw [Finset.mul_sum]
      refine Finset.sum_congr rfl fun b _ => ?_
      simp only [synWeight, if_true, if_pos hrep, star_mul', hr0]
      ring
    rw [Finset.sum_congr rfl e, ← Finset.sum_mul]
    rcases repMode_eq hx hy hk hk' hrep with h | ⟨h0, h0', hpn⟩
    · subst h
      rw [if_pos rfl, modePhase_sum, ← root_sq hE A (hpsd _) hX hY]
      push_cast
      simp only [Finset.mul_sum, Finset.sum_mul]
      exact Finset.sum_congr rfl fun j _ => by ring
    · have hne : k ≠ k' := by
        rintro rfl
        exact iff_not_self hpn
      rw [if_neg hne, modePhase_cross _ h0 h0' hpn, mul_zero]
  · have hne : k ≠ k' := fun h => hrep (by rw [h])
    rw [if_neg hne]
    refine Finset.sum_eq_zero fun j _ => Finset.sum_eq_zero fun b _ => ?_
    have : synWeight A E Y k' (repMode A.fs k, j, b) = 0 := by unfold synWeight; rw [if_neg hrep]
    rw [this, star_zero, mul_zero]

end NaMaster
