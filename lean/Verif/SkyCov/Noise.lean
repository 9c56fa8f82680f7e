import Verif.SkyCov.NoiseProps

/-! # C85: covariances of white noise -/

namespace NaMaster

open Finset MeasureTheory SkySpec WignerSpec CovSpec

local notation "conj" => starRingEnd ℂ

namespace SkySpec

/-- No mixing of E and B contributes to the covariance of the spectrum of components `X 0`, `X 1` and that of `X 2`, `X 3`. -/
def NoMixing (s X : ℕ → ℕ) : Prop :=
  ¬ ((s 0 = s 2 ∧ s 1 = s 3) ∧ X 0 ≠ X 2 ∧ X 1 ≠ X 3) ∧ ¬ ((s 0 = s 3 ∧ s 1 = s 2) ∧ X 0 ≠ X 3 ∧ X 1 ≠ X 2)

end SkySpec

/-! ## The coefficients -/

theorem coupling_even {s1 s2 Nw : ℕ} (h : s1 = 0 ∨ s2 = 0) (pcl : ℕ → ℝ) (l l' : ℕ) :
    CouplingSpec.coupling racah s1 s2 Nw pcl (fun _ => True) l l' = CouplingSpec.coupling racah s1 s2 Nw pcl Even l l' := by
  unfold CouplingSpec.coupling
  refine sum_congr rfl fun L _ => ?_
  rw [if_pos trivial]
  by_cases he : Even (L + l + l')
  · rw [if_pos he]
  · rw [if_neg he]
    rcases h with rfl | rfl <;> rw [spin3j_zero_odd he] <;> ring

theorem coupling_exchange (s1 s2 Nw : ℕ) (pcl : ℕ → ℝ) (sel : ℕ → Prop) [DecidablePred sel] (l l' : ℕ) :
    CouplingSpec.coupling racah s1 s2 Nw pcl sel l l' = CouplingSpec.coupling racah s2 s1 Nw pcl sel l l' := by
  unfold CouplingSpec.coupling
  refine sum_congr rfl fun L _ => ?_
  split_ifs
  · ring
  · rfl

/-- The true coefficient as textbook sums. -/
theorem kernel_coupling {s1 s2 : ℕ} (h1 : s1 = 0 ∨ s1 = 2) (h2 : s2 = 0 ∨ s2 = 2) (Nw : ℕ) (pcl : ℕ → ℝ) (l l' X Y X' Y' : ℕ) :
    kernelMatrix (fun _ => sfac s1 0 s1) (fun _ => sfac s2 0 s2) Nw pcl l X Y l' X' Y' = (2 * l' + 1) *
      if X = X' ∧ Y = Y' then CouplingSpec.coupling racah s1 s2 Nw pcl Even l l'
      else if X ≠ X' ∧ Y ≠ Y' then (if X = Y then 1 else -1) * CouplingSpec.coupling racah s1 s2 Nw pcl Odd l l' else 0 := by
  have hterm : ∀ L : ℕ, (2 * (L : ℝ) + 1) / (4 * Real.pi) * pcl L * sfac s1 0 s1 l L l' * sfac s2 0 s2 l L l' =
      (2 * (L : ℝ) + 1) / (4 * Real.pi) * pcl L * CouplingSpec.spin3j racah s1 L l l' * CouplingSpec.spin3j racah s2 L l l' := by
    intro L
    have e1 : ((-1 : ℝ)) ^ s1 = 1 := by rcases h1 with rfl | rfl <;> norm_num
    have e2 : ((-1 : ℝ)) ^ s2 = 1 := by rcases h2 with rfl | rfl <;> norm_num
    rw [sfac_spin3j, sfac_spin3j, e1, e2]
    linear_combination (2 * (L : ℝ) + 1) / (4 * Real.pi) * pcl L * CouplingSpec.spin3j racah s1 L l l' * CouplingSpec.spin3j racah s2 L l l' *
      sign_mul_self (L + l + l')
  unfold kernelMatrix CouplingSpec.coupling
  congr 1
  by_cases c1 : X = X' ∧ Y = Y'
  · rw [if_pos c1]
    refine sum_congr rfl fun L _ => ?_
    rw [hterm]
    unfold mixR
    rw [if_pos c1, show l + L + l' = L + l + l' by ring]
    by_cases he : Even (L + l + l')
    · rw [if_pos he, if_pos he, mul_one]
    · rw [if_neg he, if_neg he, mul_zero]
  · rw [if_neg c1]
    by_cases c2 : X ≠ X' ∧ Y ≠ Y'
    · rw [if_pos c2, mul_sum]
      refine sum_congr rfl fun L _ => ?_
      rw [hterm]
      unfold mixR
      rw [if_neg c1, if_pos c2, show l + L + l' = L + l + l' by ring]
      by_cases he : Even (L + l + l')
      · rw [if_pos he, if_neg (Nat.not_odd_iff_even.2 he)]; ring
      · rw [if_neg he, if_pos (Nat.not_even_iff_odd.1 he)]; ring
    · rw [if_neg c2]
      refine sum_eq_zero fun L _ => ?_
      unfold mixR
      rw [if_neg c1, if_neg c2, mul_zero]

/-- What the code uses for one pair of pairs of components of white noise. -/
def codeXi (x : CovXi ℝ) (n n' l l' X Y X' Y' : ℕ) : ℝ :=
  if X = X' ∧ Y = Y' then (if n = 1 ∧ n' = 1 then x.xi00 l l' else if n = 1 ∨ n' = 1 then x.xi02 l l' else x.xi22p l l')
  else if X ≠ X' ∧ Y ≠ Y' then (if X = Y then -4 else 4) * x.xi22m l l' else 0

theorem at_sum (x : CovXi ℝ) {n n' l l' ia ic ib id : ℕ} (hn : n = 1 ∨ n = 2) (hn' : n' = 1 ∨ n' = 2) (h1 : ia < n) (h2 : ib < n') (h3 : ic < n)
    (h4 : id < n') : ∑ i ∈ range n, ∑ j ∈ range n', x.at l l' (covPair n n n' n' ia i ic i ib j id j) = codeXi x n n' l l' ia ib ic id := by
  rcases hn with rfl | rfl <;> rcases hn' with rfl | rfl <;> interval_cases ia <;> interval_cases ib <;> interval_cases ic <;> interval_cases id <;>
    simp [sum_range_succ, covPair, covIndex, covarIndices, pairKind, CovXi.at, codeXi] <;> ring

theorem sum_pick (n n' m m' : ℕ) (g : ℕ → ℕ → ℕ → ℕ → ℝ) (P Q : Prop) [Decidable P] [Decidable Q] (hP : P → n = m) (hQ : Q → n' = m') (u v : ℝ) :
    ∑ i ∈ range n, ∑ j ∈ range n', ∑ k ∈ range m, ∑ r ∈ range m', g i j k r * ((if P ∧ i = k then u else 0) * (if Q ∧ j = r then v else 0)) =
      if P ∧ Q then u * v * ∑ i ∈ range n, ∑ j ∈ range n', g i j i j else 0 := by
  by_cases h : P ∧ Q
  · obtain ⟨p, r⟩ := h
    obtain rfl := hP p
    obtain rfl := hQ r
    rw [if_pos ⟨p, r⟩, mul_sum]
    refine sum_congr rfl fun i hi => ?_
    rw [mul_sum]
    refine sum_congr rfl fun j hj => ?_
    rw [sum_eq_single_of_mem i hi, sum_eq_single_of_mem j hj]
    · rw [if_pos ⟨p, rfl⟩, if_pos ⟨r, rfl⟩]; ring
    · intro k _ hk
      rw [if_neg (c := Q ∧ j = k) (fun h => hk h.2.symm)]; ring
    · intro k _ hk
      refine sum_eq_zero fun k' _ => ?_
      rw [if_neg (c := P ∧ i = k) (fun h => hk h.2.symm)]; ring
  · rw [if_neg h]
    refine sum_eq_zero fun i _ => sum_eq_zero fun j _ => sum_eq_zero fun k _ => sum_eq_zero fun r _ => ?_
    by_cases p : P
    · rw [if_neg (c := Q ∧ j = r) (fun h' => h ⟨p, h'.1⟩)]; ring
    · rw [if_neg (c := P ∧ i = k) (fun h' => p h'.1)]; ring

/-- The element of the covariance for spectra of white noise. -/
theorem element_noise (cw : CovWsp ℝ) {s : ℕ → ℕ} {N : ℕ → ℕ → ℝ} {x : CovCls ℝ} {lmax : ℕ} (hx : TrueSpectra x s lmax (noiseSpectra s N))
    {X : ℕ → ℕ} (hX : ∀ i < 4, X i < ncomp (s i)) {l l' : ℕ} (hl : l ≤ lmax) (hl' : l' ≤ lmax) (pre : ℝ) :
    covElement cw (Maps.ofSpins (s 0) (s 1) (s 2) (s 3)) x (X 0) (X 1) (X 2) (X 3) l l' pre = pre *
      ((if s 0 = s 2 ∧ s 1 = s 3 then N 0 2 * N 1 3 * codeXi cw.x1122 (ncomp (s 0)) (ncomp (s 1)) l l' (X 0) (X 1) (X 2) (X 3) else 0) +
        (if s 0 = s 3 ∧ s 1 = s 2 then N 0 3 * N 1 2 * codeXi cw.x1221 (ncomp (s 0)) (ncomp (s 1)) l l' (X 0) (X 1) (X 3) (X 2) else 0)) := by
  obtain ⟨x0, x1, x2, x3⟩ := four_comp.1 hX
  unfold covElement Maps.ofSpins
  simp only [nmaps_ncomp]
  have e : ∀ i ∈ range (ncomp (s 0)), ∀ j ∈ range (ncomp (s 1)), ∀ k ∈ range (ncomp (s 2)), ∀ r ∈ range (ncomp (s 3)),
      (cw.x1122.at l l' (covPair (ncomp (s 0)) (ncomp (s 2)) (ncomp (s 1)) (ncomp (s 3)) (X 0) i (X 2) k (X 1) j (X 3) r) *
        (1 / 2 * (x.ac.val (k + ncomp (s 2) * i) l * x.bd.val (r + ncomp (s 3) * j) l' + x.ac.val (k + ncomp (s 2) * i) l' * x.bd.val (r + ncomp (s 3) * j) l)) +
      cw.x1221.at l l' (covPair (ncomp (s 0)) (ncomp (s 3)) (ncomp (s 1)) (ncomp (s 2)) (X 0) i (X 3) r (X 1) j (X 2) k) *
        (1 / 2 * (x.ad.val (r + ncomp (s 3) * i) l * x.bc.val (k + ncomp (s 2) * j) l' + x.ad.val (r + ncomp (s 3) * i) l' * x.bc.val (k + ncomp (s 2) * j) l))) * pre =
      pre * (cw.x1122.at l l' (covPair (ncomp (s 0)) (ncomp (s 2)) (ncomp (s 1)) (ncomp (s 3)) (X 0) i (X 2) k (X 1) j (X 3) r) *
          ((if s 0 = s 2 ∧ i = k then N 0 2 else 0) * (if s 1 = s 3 ∧ j = r then N 1 3 else 0))) +
        pre * (cw.x1221.at l l' (covPair (ncomp (s 0)) (ncomp (s 3)) (ncomp (s 1)) (ncomp (s 2)) (X 0) i (X 3) r (X 1) j (X 2) k) *
          ((if s 0 = s 3 ∧ i = r then N 0 3 else 0) * (if s 1 = s 2 ∧ j = k then N 1 2 else 0))) := by
    intro i hi j hj k hk r hr
    rw [mem_range] at hi hj hk hr
    rw [hx.ac i hi k hk l hl, hx.ac i hi k hk l' hl', hx.bd j hj r hr l hl, hx.bd j hj r hr l' hl', hx.ad i hi r hr l hl, hx.ad i hi r hr l' hl',
      hx.bc j hj k hk l hl, hx.bc j hj k hk l' hl']
    unfold noiseSpectra
    ring
  rw [sum_congr rfl fun i hi => sum_congr rfl fun j hj => sum_congr rfl fun k hk => sum_congr rfl fun r hr => e i hi j hj k hk r hr]
  simp only [sum_add_distrib]
  rw [mul_add]
  congr 1
  · simp only [← mul_sum]
    rw [sum_pick _ _ _ _ (fun i j k r => cw.x1122.at l l' (covPair (ncomp (s 0)) (ncomp (s 2)) (ncomp (s 1)) (ncomp (s 3)) (X 0) i (X 2) k (X 1) j (X 3) r))
      (s 0 = s 2) (s 1 = s 3) (fun h => by rw [h]) (fun h => by rw [h])]
    congr 1
    by_cases h : s 0 = s 2 ∧ s 1 = s 3
    · rw [if_pos h, if_pos h, ← h.1, ← h.2, at_sum _ (ncomp_cases _) (ncomp_cases _) x0 x1 (h.1 ▸ x2) (h.2 ▸ x3)]
    · rw [if_neg h, if_neg h]
  · have sw : ∀ i j, ∑ k ∈ range (ncomp (s 2)), ∑ r ∈ range (ncomp (s 3)), pre *
        (cw.x1221.at l l' (covPair (ncomp (s 0)) (ncomp (s 3)) (ncomp (s 1)) (ncomp (s 2)) (X 0) i (X 3) r (X 1) j (X 2) k) *
          ((if s 0 = s 3 ∧ i = r then N 0 3 else 0) * (if s 1 = s 2 ∧ j = k then N 1 2 else 0))) =
        ∑ r ∈ range (ncomp (s 3)), ∑ k ∈ range (ncomp (s 2)), pre *
        (cw.x1221.at l l' (covPair (ncomp (s 0)) (ncomp (s 3)) (ncomp (s 1)) (ncomp (s 2)) (X 0) i (X 3) r (X 1) j (X 2) k) *
          ((if s 0 = s 3 ∧ i = r then N 0 3 else 0) * (if s 1 = s 2 ∧ j = k then N 1 2 else 0))) := fun i j => sum_comm
    simp only [sw]
    simp only [← mul_sum]
    rw [sum_pick _ _ _ _ (fun i j r k => cw.x1221.at l l' (covPair (ncomp (s 0)) (ncomp (s 3)) (ncomp (s 1)) (ncomp (s 2)) (X 0) i (X 3) r (X 1) j (X 2) k))
      (s 0 = s 3) (s 1 = s 2) (fun h => by rw [h]) (fun h => by rw [h])]
    congr 1
    by_cases h : s 0 = s 3 ∧ s 1 = s 2
    · rw [if_pos h, if_pos h, ← h.1, ← h.2, at_sum _ (ncomp_cases _) (ncomp_cases _) x0 x1 (h.1 ▸ x3) (h.2 ▸ x2)]
    · rw [if_neg h, if_neg h]

/-! ## The covariance computed by the code -/

/-- The coefficients of the code are the textbook sums; those of fields with spin if there are such fields. -/
structure CodeSums (x : CovXi ℝ) (spin : Prop) (Nw : ℕ) (pcl : ℕ → ℝ) (l l' : ℕ) : Prop where
  xi00 : x.xi00 l l' = CouplingSpec.coupling racah 0 0 Nw pcl Even l l'
  xi02 : spin → x.xi02 l l' = CouplingSpec.coupling racah 0 2 Nw pcl Even l l'
  xi22p : spin → x.xi22p l l' = CouplingSpec.coupling racah 2 2 Nw pcl Even l l'
  xi22m : spin → x.xi22m l l' = CouplingSpec.coupling racah 2 2 Nw pcl Odd l l'

/-- The code compared with the truth: the same without mixing of E and B, and `-4` times the truth for mixing of E and B. -/
theorem codeXi_truth {x : CovXi ℝ} {spin : Prop} {Nw : ℕ} {pcl : ℕ → ℝ} {l l' : ℕ} (hx : CodeSums x spin Nw pcl l l') {s1 s2 : ℕ} (h1 : s1 = 0 ∨ s1 = 2)
    (h2 : s2 = 0 ∨ s2 = 2) (hs1 : s1 ≠ 0 → spin) (hs2 : s2 ≠ 0 → spin) {X Y X' Y' : ℕ} (c1 : X < ncomp s1) (c2 : Y < ncomp s2) (c3 : X' < ncomp s1)
    (c4 : Y' < ncomp s2) :
    (2 * l' + 1) * codeXi x (ncomp s1) (ncomp s2) l l' X Y X' Y' = (if X ≠ X' ∧ Y ≠ Y' then -4 else 1) *
      kernelMatrix (fun _ => sfac s1 0 s1) (fun _ => sfac s2 0 s2) Nw pcl l X Y l' X' Y' := by
  rw [kernel_coupling h1 h2]
  unfold codeXi
  by_cases e1 : X = X' ∧ Y = Y'
  · have hn : ¬ (X ≠ X' ∧ Y ≠ Y') := fun h => h.1 e1.1
    rw [if_pos e1, if_pos e1, if_neg hn, one_mul]
    congr 1
    rcases h1 with rfl | rfl <;> rcases h2 with rfl | rfl
    · simpa [ncomp] using hx.xi00
    · simpa [ncomp] using hx.xi02 (hs2 (by norm_num))
    · rw [coupling_exchange]
      simpa [ncomp] using hx.xi02 (hs1 (by norm_num))
    · simpa [ncomp] using hx.xi22p (hs1 (by norm_num))
  · rw [if_neg e1, if_neg e1]
    by_cases e2 : X ≠ X' ∧ Y ≠ Y'
    · rw [if_pos e2, if_pos e2, if_pos e2]
      have z1 : s1 = 2 := by
        rcases h1 with rfl | rfl
        · have : ncomp 0 = 1 := rfl
          omega
        · rfl
      have z2 : s2 = 2 := by
        rcases h2 with rfl | rfl
        · have : ncomp 0 = 1 := rfl
          omega
        · rfl
      subst z1 z2
      rw [hx.xi22m (hs1 (by norm_num))]
      split_ifs <;> ring
    · rw [if_neg e2, if_neg e2, if_neg e2]
      ring

section
variable {Ω : Type*} [MeasurableSpace Ω] {μ : Measure Ω} {env : FieldEnv} {minfo : MapInfo} {a : ℕ → FieldArgs} {s : ℕ → ℕ} {lmax lmaxMask : ℕ}
  {q : ℕ → ℝ} {Y : ℤ → ℕ → ℤ → ℕ → ℂ} {maps : ℕ → Ω → MapStack} {f : ℕ → Ω → FieldObj} {N : ℕ → ℕ → ℝ} {same same' : Bool} {P Q : Ω → Arr2 ℝ}

/-- The covariance of the pseudo-spectra, with mask spectra up to any multipole that is large enough. -/
theorem noise_covar (hS : ∀ i < 4, PixelSums env.sht env.pix.npix q Y (s i)) (hf : ∀ i < 4, PlainFields env (a i) (s i) lmax lmaxMask (maps i) (f i))
    (hW : WhiteNoise μ env.pix.npix q s maps N)
    (hP : ∀ ω, computeCoupledCell ((f 0 ω).view env.sht minfo) ((f 1 ω).view env.sht minfo) same = .ok (some (P ω)))
    (hQ : ∀ ω, computeCoupledCell ((f 2 ω).view env.sht minfo) ((f 3 ω).view env.sht minfo) same' = .ok (some (Q ω)))
    {X : ℕ → ℕ} (hX : ∀ i < 4, X i < ncomp (s i)) {l l' : ℕ} (hl : l ≤ lmax) (hl' : l' ≤ lmax) {Nw : ℕ} (hN : l + l' ≤ Nw) :
    Integrable (fun ω => (P ω).val (X 1 + ncomp (s 1) * X 0) l) μ ∧ Integrable (fun ω => (Q ω).val (X 3 + ncomp (s 3) * X 2) l') μ ∧
    Integrable (fun ω => (P ω).val (X 1 + ncomp (s 1) * X 0) l * (Q ω).val (X 3 + ncomp (s 3) * X 2) l') μ ∧
    (2 * l' + 1) * covar μ (fun ω => (P ω).val (X 1 + ncomp (s 1) * X 0) l) (fun ω => (Q ω).val (X 3 + ncomp (s 3) * X 2) l') =
      (if s 0 = s 2 ∧ s 1 = s 3 then N 0 2 * N 1 3 * kernelMatrix (fun _ => sfac (s 0) 0 (s 0)) (fun _ => sfac (s 1) 0 (s 1)) Nw
        (productSpectrum env.sht Nw 0 0 (a 0).mask (a 2).mask (a 1).mask (a 3).mask) l (X 0) (X 1) l' (X 2) (X 3) else 0) +
      (if s 0 = s 3 ∧ s 1 = s 2 then N 0 3 * N 1 2 * kernelMatrix (fun _ => sfac (s 0) 0 (s 0)) (fun _ => sfac (s 1) 0 (s 1)) Nw
        (productSpectrum env.sht Nw 0 0 (a 0).mask (a 3).mask (a 1).mask (a 2).mask) l (X 0) (X 1) l' (X 3) (X 2) else 0) := by
  obtain ⟨f0, f1, f2, f3⟩ := four_comp.1 hf
  obtain ⟨s0, s1, s2, s3⟩ := four_comp.1 hS
  obtain ⟨x0, x1, x2, x3⟩ := four_comp.1 hX
  obtain ⟨A0, A1, c0, c1, e1⟩ := plain_spectra f0 f1 s0 s1 hP
  obtain ⟨A2, A3, c2, c3, e2⟩ := plain_spectra f2 f3 s2 s3 hQ
  simp only [fun ω => (e1 ω).2.2 (X 0) x0 (X 1) x1 l hl, fun ω => (e2 ω).2.2 (X 2) x2 (X 3) x3 l' hl']
  let A : ℕ → Ω → ℕ → ℕ → ℂ := fun i ω => if i = 0 then A0 ω (X 0) else if i = 1 then A1 ω (X 1) else if i = 2 then A2 ω (X 2) else A3 ω (X 3)
  have hA : ∀ i < 4, ∀ ω, ∀ l ≤ lmax, ∀ m ≤ l, A i ω l m = noiseCoef Y env.pix.npix q ((fun i => (a i).mask) i) (s i) (X i) (maps i ω) l m := by
    intro i hi ω l hl m hm
    obtain rfl | rfl | rfl | rfl : i = 0 ∨ i = 1 ∨ i = 2 ∨ i = 3 := by omega
    · exact c0 ω (X 0) x0 l hl m hm
    · exact c1 ω (X 1) x1 l hl m hm
    · exact c2 ω (X 2) x2 l hl m hm
    · exact c3 ω (X 3) x3 l hl m hm
  exact noise_truth hW s0.weight (fun i hi => (hS i hi).harmonics) (fun i => (a i).mask) hX hA hl hl' hN
    (fun L hL => productSpectrum_pixels s0 _ _ _ _ hL) (fun L hL => productSpectrum_pixels s0 _ _ _ _ hL)

variable {S : Option MapInfo → Sht} {junk : ℕ → ℝ} {old : Option (CovWsp ℝ)} {lT lE dl : ℤ} {spin0 : Bool} {cw : CovWsp ℝ} {ω0 : Ω}

omit [MeasurableSpace Ω] in
theorem noise_sums (hf : ∀ i < 4, PlainFields env (a i) (s i) lmax lmaxMask (maps i) (f i)) (hR : Respects S) (hSm : S (some minfo) = env.sht) (hT : lT ≤ 0)
    (hcw : covCompute racah S junk old ((f 0 ω0).covField minfo) ((f 1 ω0).covField minfo) (some ((f 2 ω0).covField minfo))
      (some ((f 3 ω0).covField minfo)) lT lE dl spin0 = (some cw, .ok ())) (hsp : spin0 = true → ∀ i < 4, s i = 0) :
    cw.lmax = lmax ∧ cw.spin0Only = spin0 ∧ ∀ l ≤ lmax, ∀ l' ≤ lmax,
      CodeSums cw.x1122 (¬ ∀ i < 4, s i = 0) lmaxMask (productSpectrum env.sht lmaxMask 0 0 (a 0).mask (a 2).mask (a 1).mask (a 3).mask) l l' ∧
      CodeSums cw.x1221 (¬ ∀ i < 4, s i = 0) lmaxMask (productSpectrum env.sht lmaxMask 0 0 (a 0).mask (a 3).mask (a 1).mask (a 2).mask) l l' := by
  obtain ⟨f0, f1, f2, f3⟩ := four_comp.1 hf
  obtain ⟨p1, p2, -, p5, p8, -⟩ := plain_facts f0 ω0
  obtain ⟨-, -, -, q5, q8, -⟩ := plain_facts f1 ω0
  obtain ⟨-, -, -, r5, -, -⟩ := plain_facts f2 ω0
  obtain ⟨-, -, -, t5, -, -⟩ := plain_facts f3 ω0
  have hm : ((f 0 ω0).covField minfo).geom.minfo ≠ none := by unfold FieldObj.covField; simp
  have g1 : ((f 0 ω0).covField minfo).geom.lmax = lmax := p1
  have g2 : ((f 0 ω0).covField minfo).geom.lmaxMask = lmaxMask := p2
  have g3 : ((f 0 ω0).covField minfo).nIterMask = 0 := p8
  have g4 : ((f 1 ω0).covField minfo).nIterMask = 0 := q8
  have g5 : S ((f 0 ω0).covField minfo).geom.minfo = env.sht := hSm
  have k0 : ((f 0 ω0).covField minfo).mask = some (a 0).mask := congrArg some p5
  have k1 : ((f 1 ω0).covField minfo).mask = some (a 1).mask := congrArg some q5
  have k2 : ((f 2 ω0).covField minfo).mask = some (a 2).mask := congrArg some r5
  have k3 : ((f 3 ω0).covField minfo).mask = some (a 3).mask := congrArg some t5
  cases spin0 with
  | false =>
    obtain ⟨h1, h2, m1, m2, n1, n2, e1, e2, e3, e4, t1, t2⟩ := C68_textbook C76_symmetric hR hT hm hcw
    rw [k0] at e1
    rw [k1] at e2
    rw [k2] at e3
    rw [k3] at e4
    rw [← Option.some.inj e1, ← Option.some.inj e2, ← Option.some.inj e3, ← Option.some.inj e4, g2, g3, g4, g5] at t1 t2
    rw [g1] at h1
    refine ⟨h1, h2, fun l hl l' hl' => ?_⟩
    have sums : ∀ x pcl, Textbook racah lmaxMask cw.lmax pcl x → CodeSums x (¬ ∀ i < 4, s i = 0) lmaxMask pcl l l' := by
      intro x pcl hx
      obtain ⟨x1, x2, x3, x4⟩ := hx l l' (by omega) (by omega)
      exact ⟨by rw [x1, coupling_even (Or.inl rfl)], fun _ => by rw [x2, coupling_even (Or.inl rfl)], fun _ => x3, fun _ => x4⟩
    exact ⟨sums _ _ t1, sums _ _ t2⟩
  | true =>
    obtain ⟨h1, h2, m1, m2, n1, n2, e1, e2, e3, e4, t⟩ := C68_textbook_spin0 C76_symmetric hR hT hm hcw
    rw [k0] at e1
    rw [k1] at e2
    rw [k2] at e3
    rw [k3] at e4
    rw [← Option.some.inj e1, ← Option.some.inj e2, ← Option.some.inj e3, ← Option.some.inj e4, g2, g3, g4, g5] at t
    rw [g1] at h1
    refine ⟨h1, h2, fun l hl l' hl' => ?_⟩
    obtain ⟨x1, x2⟩ := t l l' (by omega) (by omega)
    have hall := hsp rfl
    exact ⟨⟨by rw [x1, coupling_even (Or.inl rfl)], fun h => absurd hall h, fun h => absurd hall h, fun h => absurd hall h⟩,
      ⟨by rw [x2, coupling_even (Or.inl rfl)], fun h => absurd hall h, fun h => absurd hall h, fun h => absurd hall h⟩⟩

variable {L : LinAlg ℝ} {jk : CovJunk ℝ} {x : CovCls ℝ} {oa ob : Obj ℝ} {wa wb : Wsp ℝ} {Cov : Arr2 ℝ}

/-- The element computed by the code, and the covariance, if the products of masks are known to a high enough multipole: `t` and `t'` are the two terms of the
covariance. -/
theorem noise_element (hS : ∀ i < 4, PixelSums env.sht env.pix.npix q Y (s i)) (hf : ∀ i < 4, PlainFields env (a i) (s i) lmax lmaxMask (maps i) (f i))
    (hW : WhiteNoise μ env.pix.npix q s maps N) (hs : ∀ i < 4, s i = 0 ∨ s i = 2)
    (hP : ∀ ω, computeCoupledCell ((f 0 ω).view env.sht minfo) ((f 1 ω).view env.sht minfo) same = .ok (some (P ω)))
    (hQ : ∀ ω, computeCoupledCell ((f 2 ω).view env.sht minfo) ((f 3 ω).view env.sht minfo) same' = .ok (some (Q ω)))
    (hu : ∀ l ≤ lmax, ∀ l' ≤ lmax,
      CodeSums cw.x1122 (¬ ∀ i < 4, s i = 0) lmaxMask (productSpectrum env.sht lmaxMask 0 0 (a 0).mask (a 2).mask (a 1).mask (a 3).mask) l l' ∧
      CodeSums cw.x1221 (¬ ∀ i < 4, s i = 0) lmaxMask (productSpectrum env.sht lmaxMask 0 0 (a 0).mask (a 3).mask (a 1).mask (a 2).mask) l l')
    (hx : TrueSpectra x s lmax (noiseSpectra s N)) {X : ℕ → ℕ} (hX : ∀ i < 4, X i < ncomp (s i)) {l l' : ℕ} (hl : l ≤ lmax) (hl' : l' ≤ lmax)
    (hN : l + l' ≤ lmaxMask) : ∃ t t' : ℝ,
      covar μ (fun ω => (P ω).val (X 1 + ncomp (s 1) * X 0) l) (fun ω => (Q ω).val (X 3 + ncomp (s 3) * X 2) l') = t + t' ∧
      (¬ (s 0 = s 2 ∧ s 1 = s 3) → t = 0) ∧ (¬ (s 0 = s 3 ∧ s 1 = s 2) → t' = 0) ∧
      ∀ pre, covElement cw (Maps.ofSpins (s 0) (s 1) (s 2) (s 3)) x (X 0) (X 1) (X 2) (X 3) l l' pre =
        pre * ((if X 0 ≠ X 2 ∧ X 1 ≠ X 3 then -4 else 1) * t + (if X 0 ≠ X 3 ∧ X 1 ≠ X 2 then -4 else 1) * t') := by
  obtain ⟨-, -, -, hc⟩ := noise_covar hS hf hW hP hQ hX hl hl' hN
  obtain ⟨u1, u2⟩ := hu l hl l' hl'
  obtain ⟨x0, x1, x2, x3⟩ := four_comp.1 hX
  have hne : (2 * (l' : ℝ) + 1) ≠ 0 := by positivity
  have sp : ∀ i < 4, s i ≠ 0 → ¬ ∀ i < 4, s i = 0 := fun i hi h h' => h (h' i hi)
  set T : ℝ := (if s 0 = s 2 ∧ s 1 = s 3 then N 0 2 * N 1 3 * kernelMatrix (fun _ => sfac (s 0) 0 (s 0)) (fun _ => sfac (s 1) 0 (s 1)) lmaxMask
        (productSpectrum env.sht lmaxMask 0 0 (a 0).mask (a 2).mask (a 1).mask (a 3).mask) l (X 0) (X 1) l' (X 2) (X 3) else 0) with hTd
  set T' : ℝ := (if s 0 = s 3 ∧ s 1 = s 2 then N 0 3 * N 1 2 * kernelMatrix (fun _ => sfac (s 0) 0 (s 0)) (fun _ => sfac (s 1) 0 (s 1)) lmaxMask
        (productSpectrum env.sht lmaxMask 0 0 (a 0).mask (a 3).mask (a 1).mask (a 2).mask) l (X 0) (X 1) l' (X 3) (X 2) else 0) with hTd'
  refine ⟨T / (2 * l' + 1), T' / (2 * l' + 1), ?_, fun h => ?_, fun h => ?_, fun pre => ?_⟩
  · rw [← add_div, ← hc]
    field_simp
  · rw [hTd, if_neg h, zero_div]
  · rw [hTd', if_neg h, zero_div]
  · rw [element_noise cw hx hX hl hl' pre]
    congr 1
    congr 1
    · by_cases h : s 0 = s 2 ∧ s 1 = s 3
      · rw [hTd, if_pos h, if_pos h]
        have := codeXi_truth u1 (hs 0 (by norm_num)) (hs 1 (by norm_num)) (sp 0 (by norm_num)) (sp 1 (by norm_num)) x0 x1 (h.1 ▸ x2) (h.2 ▸ x3)
        rw [← mul_div_assoc, eq_div_iff hne]
        linear_combination (N 0 2 * N 1 3) * this
      · rw [hTd, if_neg h, if_neg h]; simp
    · by_cases h : s 0 = s 3 ∧ s 1 = s 2
      · rw [hTd', if_pos h, if_pos h]
        have := codeXi_truth u2 (hs 0 (by norm_num)) (hs 1 (by norm_num)) (sp 0 (by norm_num)) (sp 1 (by norm_num)) x0 x1 (h.1 ▸ x3) (h.2 ▸ x2)
        rw [← mul_div_assoc, eq_div_iff hne]
        linear_combination (N 0 3 * N 1 2) * this
      · rw [hTd', if_neg h, if_neg h]; simp

omit [MeasurableSpace Ω] in
theorem noise_spin0 (hcw : covCompute racah S junk old ((f 0 ω0).covField minfo) ((f 1 ω0).covField minfo) (some ((f 2 ω0).covField minfo))
      (some ((f 3 ω0).covField minfo)) lT lE dl spin0 = (some cw, .ok ()))
    (h : cw.spin0Only = true → ((s 0 : ℤ)) + s 1 + s 2 + s 3 = 0) : spin0 = true → ∀ i < 4, s i = 0 := by
  intro h1
  have h0 : cw.spin0Only = spin0 := by
    obtain ⟨-, -, _, _, _, _, -, -, -, -, rfl⟩ := covCompute_ok hcw
    rfl
  exact spins_zero (h (h0.trans h1))

/-- C85: for white noise in masked maps of scalars and of fields of spin 2, `gaussian_covariance` with the true (flat) spectra returns exactly the covariance of
the pseudo-spectra (times the prefactors of the bands), if the band limit of the masks is at least the sum of the two multipoles. Missing: mixing of E and B,
that is the covariance of EE and BB, or of EB and BE, and of EB with itself; see `C85_mixing_wrong`. -/
theorem C85_coupled_partial (hS : ∀ i < 4, PixelSums env.sht env.pix.npix q Y (s i))
    (hf : ∀ i < 4, PlainFields env (a i) (s i) lmax lmaxMask (maps i) (f i)) (hW : WhiteNoise μ env.pix.npix q s maps N) (hs : ∀ i < 4, s i = 0 ∨ s i = 2)
    (hP : ∀ ω, computeCoupledCell ((f 0 ω).view env.sht minfo) ((f 1 ω).view env.sht minfo) same = .ok (some (P ω)))
    (hQ : ∀ ω, computeCoupledCell ((f 2 ω).view env.sht minfo) ((f 3 ω).view env.sht minfo) same' = .ok (some (Q ω)))
    (hR : Respects S) (hSm : S (some minfo) = env.sht) (hT : lT ≤ 0)
    (hcw : covCompute racah S junk old ((f 0 ω0).covField minfo) ((f 1 ω0).covField minfo) (some ((f 2 ω0).covField minfo))
      (some ((f 3 ω0).covField minfo)) lT lE dl spin0 = (some cw, .ok ()))
    (hx : TrueSpectra x s lmax (noiseSpectra s N)) (hoa : oa.wsp = some wa) (hob : ob.wsp = some wb) (hA : WspSpec.Bounded wa.bin wa.bin.ellMax)
    (hB : WspSpec.Bounded wb.bin wb.bin.ellMax) (hna : BinSpec.NoRepeats wa.bin) (hnb : BinSpec.NoRepeats wb.bin)
    (hCov : gaussianCovariance L jk (some cw) (s 0) (s 1) (s 2) (s 3) x oa (some ob) true = .ok Cov)
    (X : ℕ → ℕ) (hX : ∀ i < 4, X i < ncomp (s i)) (hmix : NoMixing s X) {e e' : BandEntry ℝ} (he : e ∈ wa.bin.bands.flatten)
    (he' : e' ∈ wb.bin.bands.flatten) (hN : e.ell + e'.ell ≤ lmaxMask) :
    Cov.val (wa.ncls * e.ell + (X 1 + ncomp (s 1) * X 0)) (wb.ncls * e'.ell + (X 3 + ncomp (s 3) * X 2)) =
      e.f * e'.f * covar μ (fun ω => (P ω).val (X 1 + ncomp (s 1) * X 0) e.ell) (fun ω => (Q ω).val (X 3 + ncomp (s 3) * X 2) e'.ell) := by
  obtain ⟨hcon, -⟩ := call_result hoa hob hA hB hCov
  obtain ⟨hlm, -, hu⟩ := noise_sums hf hR hSm hT hcw (noise_spin0 hcw hcon.spins)
  have hl : e.ell ≤ lmax := by have := hA.flat e he; have := hcon.limit.1; omega
  have hl' : e'.ell ≤ lmax := by have := hB.flat e' he'; have := hcon.limit.2; omega
  obtain ⟨x0, x1, x2, x3⟩ := four_comp.1 hX
  have hv := coupled_val hoa hob hA hB hna hnb hCov he he' (ia := X 0) (ib := X 1) (ic := X 2) (id := X 3) (by rwa [nmaps_ncomp]) (by rwa [nmaps_ncomp])
    (by rwa [nmaps_ncomp]) (by rwa [nmaps_ncomp])
  rw [nmaps_ncomp, nmaps_ncomp] at hv
  obtain ⟨t, t', h1, h2, h3, h4⟩ := noise_element hS hf hW hs hP hQ hu hx hX hl hl' hN
  rw [hv, h4, h1]
  congr 1
  congr 1
  · by_cases c : X 0 ≠ X 2 ∧ X 1 ≠ X 3
    · rw [h2 (fun h => hmix.1 ⟨h, c⟩), mul_zero]
    · rw [if_neg c, one_mul]
  · by_cases c : X 0 ≠ X 3 ∧ X 1 ≠ X 2
    · rw [h3 (fun h => hmix.2 ⟨h, c⟩), mul_zero]
    · rw [if_neg c, one_mul]

/-- C85 is false of the code for the covariance of EE and BB of white noise (and of BB and EE): for all masks and noise levels the result is `-4` times the
covariance. -/
theorem C85_mixing_wrong (hS : ∀ i < 4, PixelSums env.sht env.pix.npix q Y (s i))
    (hf : ∀ i < 4, PlainFields env (a i) (s i) lmax lmaxMask (maps i) (f i)) (hW : WhiteNoise μ env.pix.npix q s maps N) (hs : ∀ i < 4, s i = 2)
    (hP : ∀ ω, computeCoupledCell ((f 0 ω).view env.sht minfo) ((f 1 ω).view env.sht minfo) same = .ok (some (P ω)))
    (hQ : ∀ ω, computeCoupledCell ((f 2 ω).view env.sht minfo) ((f 3 ω).view env.sht minfo) same' = .ok (some (Q ω)))
    (hR : Respects S) (hSm : S (some minfo) = env.sht) (hT : lT ≤ 0)
    (hcw : covCompute racah S junk old ((f 0 ω0).covField minfo) ((f 1 ω0).covField minfo) (some ((f 2 ω0).covField minfo))
      (some ((f 3 ω0).covField minfo)) lT lE dl spin0 = (some cw, .ok ()))
    (hx : TrueSpectra x s lmax (noiseSpectra s N)) (hoa : oa.wsp = some wa) (hob : ob.wsp = some wb) (hA : WspSpec.Bounded wa.bin wa.bin.ellMax)
    (hB : WspSpec.Bounded wb.bin wb.bin.ellMax) (hna : BinSpec.NoRepeats wa.bin) (hnb : BinSpec.NoRepeats wb.bin)
    (hCov : gaussianCovariance L jk (some cw) (s 0) (s 1) (s 2) (s 3) x oa (some ob) true = .ok Cov) {c c' : ℕ} (hc : c < 2) (hc' : c' < 2) (hne : c ≠ c')
    {e e' : BandEntry ℝ} (he : e ∈ wa.bin.bands.flatten) (he' : e' ∈ wb.bin.bands.flatten) (hN : e.ell + e'.ell ≤ lmaxMask) :
    Cov.val (wa.ncls * e.ell + (c + 2 * c)) (wb.ncls * e'.ell + (c' + 2 * c')) =
      -4 * (e.f * e'.f * covar μ (fun ω => (P ω).val (c + 2 * c) e.ell) (fun ω => (Q ω).val (c' + 2 * c') e'.ell)) := by
  obtain ⟨hcon, -⟩ := call_result hoa hob hA hB hCov
  obtain ⟨hlm, -, hu⟩ := noise_sums hf hR hSm hT hcw (noise_spin0 hcw hcon.spins)
  have hl : e.ell ≤ lmax := by have := hA.flat e he; have := hcon.limit.1; omega
  have hl' : e'.ell ≤ lmax := by have := hB.flat e' he'; have := hcon.limit.2; omega
  have two : ∀ i < 4, ncomp (s i) = 2 := fun i hi => by rw [hs i hi]; rfl
  obtain ⟨n0, n1, n2, n3⟩ := four_comp.1 two
  let X : ℕ → ℕ := fun i => if i < 2 then c else c'
  have hX : ∀ i < 4, X i < ncomp (s i) := by
    intro i hi
    rw [two i hi]
    simp only [X]
    split_ifs <;> assumption
  obtain ⟨x0, x1, x2, x3⟩ := four_comp.1 hX
  have hv := coupled_val hoa hob hA hB hna hnb hCov he he' (ia := X 0) (ib := X 1) (ic := X 2) (id := X 3) (by rwa [nmaps_ncomp]) (by rwa [nmaps_ncomp])
    (by rwa [nmaps_ncomp]) (by rwa [nmaps_ncomp])
  rw [nmaps_ncomp, nmaps_ncomp, n1, n3] at hv
  obtain ⟨t, t', h1, h2, h3, h4⟩ := noise_element hS hf hW (fun i hi => Or.inr (hs i hi)) hP hQ hu hx hX hl hl' hN
  rw [n1, n3] at h1
  have e0 : X 0 = c := rfl
  have e1 : X 1 = c := rfl
  have e2 : X 2 = c' := rfl
  have e3 : X 3 = c' := rfl
  rw [h4] at hv
  rw [e0, e1, e2, e3] at h1 hv
  rw [hv, h1, if_pos ⟨hne, hne⟩]
  ring

/-- C85: unless all four fields have spin, `gaussian_covariance` returns exactly the covariance of the bandpowers of white noise decoupled with the two
workspaces, if the band limit of the masks is at least the sum of any two multipoles in the bands. Missing: four fields with spin. -/
theorem C85_bandpowers_partial (hS : ∀ i < 4, PixelSums env.sht env.pix.npix q Y (s i))
    (hf : ∀ i < 4, PlainFields env (a i) (s i) lmax lmaxMask (maps i) (f i)) (hW : WhiteNoise μ env.pix.npix q s maps N) (hs : ∀ i < 4, s i = 0 ∨ s i = 2)
    (hscalar : ∃ i < 4, s i = 0)
    (hP : ∀ ω, computeCoupledCell ((f 0 ω).view env.sht minfo) ((f 1 ω).view env.sht minfo) same = .ok (some (P ω)))
    (hQ : ∀ ω, computeCoupledCell ((f 2 ω).view env.sht minfo) ((f 3 ω).view env.sht minfo) same' = .ok (some (Q ω)))
    (hR : Respects S) (hSm : S (some minfo) = env.sht) (hT : lT ≤ 0)
    (hcw : covCompute racah S junk old ((f 0 ω0).covField minfo) ((f 1 ω0).covField minfo) (some ((f 2 ω0).covField minfo))
      (some ((f 3 ω0).covField minfo)) lT lE dl spin0 = (some cw, .ok ()))
    (hx : TrueSpectra x s lmax (noiseSpectra s N)) (hL : L.Correct) (hoa : oa.wsp = some wa) (hob : ob.wsp = some wb)
    (hA : WspSpec.Bounded wa.bin wa.bin.ellMax) (hB : WspSpec.Bounded wb.bin wb.bin.ellMax)
    (hra : Regular wa.nBinned wa.binned) (hrb : Regular wb.nBinned wb.binned) {D E : Ω → Arr2 ℝ}
    (hD : ∀ ω, decoupleCell L wa (P ω) none none = .ok (D ω)) (hE : ∀ ω, decoupleCell L wb (Q ω) none none = .ok (E ω))
    (hCov : gaussianCovariance L jk (some cw) (s 0) (s 1) (s 2) (s 3) x oa (some ob) false = .ok Cov)
    (hN : ∀ e ∈ wa.bin.bands.flatten, ∀ e' ∈ wb.bin.bands.flatten, e.ell + e'.ell ≤ lmaxMask) {k k' b b' : ℕ} (hk : k < wa.ncls) (hk' : k' < wb.ncls)
    (hb : b < wa.bin.nBands) (hb' : b' < wb.bin.nBands) :
    Cov.val (wa.ncls * b + k) (wb.ncls * b' + k') = covar μ (fun ω => (D ω).val k b) (fun ω => (E ω).val k' b') := by
  obtain ⟨hcon, -⟩ := call_result hoa hob hA hB hCov
  obtain ⟨hlm, -, hu⟩ := noise_sums hf hR hSm hT hcw (noise_spin0 hcw hcon.spins)
  have hl : ∀ e ∈ wa.bin.bands.flatten, e.ell ≤ lmax := fun e he => by have := hA.flat e he; have := hcon.limit.1; omega
  have hl' : ∀ e ∈ wb.bin.bands.flatten, e.ell ≤ lmax := fun e he => by have := hB.flat e he; have := hcon.limit.2; omega
  have pos : ∀ i, 0 < ncomp (s i) := fun i => by rcases ncomp_cases (s i) with h | h <;> omega
  simp only [fun ω => decoupleCell_val (hD ω) hk hb, fun ω => decoupleCell_val (hE ω) hk' hb']
  have comps : ∀ ia ib ic id : ℕ, ia < ncomp (s 0) → ib < ncomp (s 1) → ic < ncomp (s 2) → id < ncomp (s 3) →
      ∃ X : ℕ → ℕ, (∀ i < 4, X i < ncomp (s i)) ∧ X 0 = ia ∧ X 1 = ib ∧ X 2 = ic ∧ X 3 = id := by
    intro ia ib ic id h0 h1 h2 h3
    refine ⟨fun i => if i = 0 then ia else if i = 1 then ib else if i = 2 then ic else id, four_comp.2 ⟨?_, ?_, ?_, ?_⟩, rfl, rfl, rfl, rfl⟩
    all_goals simpa
  have clean : ∀ X : ℕ → ℕ, (∀ i < 4, X i < ncomp (s i)) → NoMixing s X := by
    intro X hX
    obtain ⟨x0, x1, x2, x3⟩ := four_comp.1 hX
    have one : ∀ i, s i = 0 → ncomp (s i) = 1 := fun i h => ncomp_one.2 h
    obtain ⟨i, hi, h⟩ := hscalar
    have e := one i h
    constructor
    · rintro ⟨⟨h1, h2⟩, h3, h4⟩
      rw [h1] at x0
      rw [h2] at x1
      obtain rfl | rfl | rfl | rfl : i = 0 ∨ i = 1 ∨ i = 2 ∨ i = 3 := by omega
      · rw [← h1] at x0 x2; omega
      · rw [← h2] at x1 x3; omega
      · omega
      · omega
    · rintro ⟨⟨h1, h2⟩, h3, h4⟩
      rw [h1] at x0
      rw [h2] at x1
      obtain rfl | rfl | rfl | rfl : i = 0 ∨ i = 1 ∨ i = 2 ∨ i = 3 := by omega
      · rw [← h1] at x0 x3; omega
      · rw [← h2] at x1 x2; omega
      · omega
      · omega
  refine decoupled_exact hL hoa hob hA hB hra hrb hCov (fun ω => (P ω).val) (fun ω => (Q ω).val) ?_ ?_ ?_ hk hk' hb hb'
  · intro k hk e he
    rw [hcon.wspA, nmaps_ncomp, nmaps_ncomp] at hk
    obtain ⟨X, hX, x0, x1, -⟩ := comps (k / ncomp (s 1)) (k % ncomp (s 1)) 0 0 (Nat.div_lt_of_lt_mul (by rwa [mul_comm] at hk)) (Nat.mod_lt _ (pos 1))
      (pos 2) (pos 3)
    have := (noise_covar hS hf hW hP hQ hX (hl e he) (Nat.zero_le lmax) le_rfl).1
    rwa [x0, x1, Nat.mod_add_div] at this
  · intro k hk e he
    rw [hcon.wspB, nmaps_ncomp, nmaps_ncomp] at hk
    obtain ⟨X, hX, -, -, x2, x3⟩ := comps 0 0 (k / ncomp (s 3)) (k % ncomp (s 3)) (pos 0) (pos 1) (Nat.div_lt_of_lt_mul (by rwa [mul_comm] at hk))
      (Nat.mod_lt _ (pos 3))
    have := (noise_covar hS hf hW hP hQ hX (Nat.zero_le lmax) (hl' e he) le_rfl).2.1
    rwa [x2, x3, Nat.mod_add_div] at this
  · intro ia h0 ib h1 ic h2 id h3 e he e' he'
    rw [nmaps_ncomp] at h0 h1 h2 h3
    obtain ⟨X, hX, rfl, rfl, rfl, rfl⟩ := comps ia ib ic id h0 h1 h2 h3
    rw [nmaps_ncomp, nmaps_ncomp]
    refine ⟨(noise_covar hS hf hW hP hQ hX (hl e he) (hl' e' he') le_rfl).2.2.1, ?_⟩
    obtain ⟨t, t', h1, h2, h3, h4⟩ := noise_element hS hf hW hs hP hQ hu hx hX (hl e he) (hl' e' he') (hN e he e' he')
    have hmix := clean X hX
    rw [h4, h1, one_mul]
    congr 1
    · by_cases c : X 0 ≠ X 2 ∧ X 1 ≠ X 3
      · rw [h2 (fun h => hmix.1 ⟨h, c⟩), mul_zero]
      · rw [if_neg c, one_mul]
    · by_cases c : X 0 ≠ X 3 ∧ X 1 ≠ X 2
      · rw [h3 (fun h => hmix.2 ⟨h, c⟩), mul_zero]
      · rw [if_neg c, one_mul]

end

end NaMaster
