import Verif.Wigner.Corollaries

/-!
# C77: sum rules of the coupling matrix

The normalisation and orthogonality of the Wigner symbols, for the matrices that the code computes with them.
-/

namespace NaMaster

open WignerSpec CouplingSpec Finset

/-! ## Specification -/

/-- The mean over the sky of the product of the two masks, from their cross-spectrum up to `lmaxMask`. -/
noncomputable def meanMaskProduct (lmaxMask : ℕ) (pcl : List ℝ) : ℝ :=
  ∑ l ∈ range (lmaxMask + 1), (2 * l + 1) / (4 * Real.pi) * pcl.getD l 0

/-! ## Lemmas -/

theorem wigner3j_not_allowed {l1 l2 l3 : ℕ} {m1 m2 m3 : ℤ} (h : ¬ Allowed l1 l2 l3 m1 m2 m3) : wigner3j l1 l2 l3 m1 m2 m3 = 0 := by
  unfold wigner3j
  rw [if_neg h]

theorem spin3j_racah (s l1 l2 l3 : ℕ) : spin3j racah s l1 l2 l3 = wigner3j l1 l2 l3 0 s (-s) := by
  unfold spin3j
  by_cases hs : s = 0
  · subst hs
    rw [if_pos rfl, ← wigner3j_zero_row]
    simp
  · rw [if_neg hs]
    by_cases h : Triangle l1 l2 l3 ∧ s ≤ l2 ∧ s ≤ l3
    · rw [if_pos h]
      unfold racah
      dsimp only
      congr 1
      ring
    · rw [if_neg h, wigner3j_not_allowed]
      unfold Allowed
      unfold Triangle at h
      simp only [abs_le]
      omega

theorem sign_mul_self (n : ℕ) : ((-1 : ℝ) ^ n) * (-1) ^ n = 1 := by
  rw [← pow_add, ← two_mul, pow_mul]; norm_num

/-- The squares of the symbols sum to one over the third multipole. -/
theorem sum_thirdL (l1 l2 s N : ℕ) (hs : s ≤ l2) (hN : l1 + l2 ≤ N) :
    ∑ l3 ∈ range (N + 1), (2 * (l3 : ℝ) + 1) * (spin3j racah s l1 l2 l3 * spin3j racah s l1 l2 l3) = 1 := by
  have h := wcol_norm l1 l2 0 s (by simp) (by rw [abs_le]; omega)
  refine Eq.trans ?_ h
  symm
  have hz : ∀ l3 ∈ range (N + 1), l3 ∉ range (l1 + l2 + 1) → (2 * (l3 : ℝ) + 1) * (wcol l1 l2 0 s l3) ^ 2 = 0 := by
    intro l3 _ hn
    rw [mem_range] at hn
    rw [wcol_zero]
    · ring
    · unfold Allowed; omega
  rw [sum_subset (s₂ := range (N + 1)) (by intro x; simp only [mem_range]; omega) hz]
  apply sum_congr rfl
  intro l3 _
  have e : wcol l1 l2 0 s l3 = (-1) ^ (l1 + l3 + l2) * ((-1) ^ (l1 + l2 + l3) * spin3j racah s l1 l2 l3) := by
    unfold wcol
    rw [spin3j_racah, ← wigner3j_exchange, ← wigner3j_first]
    congr 1
    ring
  rw [e, show l1 + l3 + l2 = l1 + l2 + l3 by ring, ← mul_assoc, sign_mul_self, one_mul, sq]

/-- … and over the first. -/
theorem sum_firstL (l2 l3 s M : ℕ) (h2 : s ≤ l2) (h3 : s ≤ l3) (hM : l2 + l3 ≤ M) :
    ∑ l1 ∈ range (M + 1), (2 * (l1 : ℝ) + 1) * (spin3j racah s l1 l2 l3 * spin3j racah s l1 l2 l3) = 1 := by
  have h := wcol_norm l2 l3 s (-s) (by rw [abs_le]; omega) (by rw [abs_le]; omega)
  refine Eq.trans ?_ h
  symm
  have hz : ∀ l1 ∈ range (M + 1), l1 ∉ range (l2 + l3 + 1) → (2 * (l1 : ℝ) + 1) * (wcol l2 l3 s (-s) l1) ^ 2 = 0 := by
    intro l1 _ hn
    rw [mem_range] at hn
    rw [wcol_zero]
    · ring
    · unfold Allowed; omega
  rw [sum_subset (s₂ := range (M + 1)) (by intro x; simp only [mem_range]; omega) hz]
  apply sum_congr rfl
  intro l1 _
  have e : wcol l2 l3 s (-s) l1 = spin3j racah s l1 l2 l3 := by
    unfold wcol
    rw [spin3j_racah]
    congr 1
    ring
  rw [e, sq]

/-- Symbols of different spins are orthogonal in the first multipole, also with the sign of the parity. -/
theorem sum_firstL_other (l2 l3 s s' M : ℕ) (h : s ≠ s' ) (h2 : s ≤ l2) (h2' : s' ≤ l2) (hM : l2 + l3 ≤ M) :
    ∑ l1 ∈ range (M + 1), (2 * (l1 : ℝ) + 1) * (spin3j racah s l1 l2 l3 * spin3j racah s' l1 l2 l3) = 0 := by
  have h := wcol_orthogonal l2 l3 0 s s' (by omega) (by rw [abs_le]; omega) (by rw [abs_le]; omega)
  rw [← h]
  symm
  have e : ∀ t l1 : ℕ, wrow l2 l3 l1 0 t = spin3j racah t l1 l2 l3 := by
    intro t l1
    unfold wrow wcol
    rw [spin3j_racah]
    congr 1 <;> ring
  simp only [e]
  apply sum_subset (by intro x; simp only [mem_range]; omega)
  intro l1 _ hn
  rw [mem_range] at hn
  rw [spin3j_racah, wigner3j_not_allowed (by unfold Allowed; omega)]
  ring

theorem sum_firstL_sign (l2 l3 s s' M : ℕ) (h : s ≠ 0 ∨ s' ≠ 0) (h2 : s ≤ l2) (h2' : s' ≤ l2) (hM : l2 + l3 ≤ M) :
    ∑ l1 ∈ range (M + 1), (2 * (l1 : ℝ) + 1) * ((-1) ^ (l1 + l2 + l3) * (spin3j racah s l1 l2 l3 * spin3j racah s' l1 l2 l3)) = 0 := by
  have h := wcol_orthogonal l2 l3 0 s (-s') (by omega) (by rw [abs_le]; omega) (by rw [abs_le]; omega)
  rw [← h]
  symm
  have e : ∀ l1 : ℕ, wrow l2 l3 l1 0 s = spin3j racah s l1 l2 l3 := by
    intro l1
    unfold wrow wcol
    rw [spin3j_racah]
    congr 1 <;> ring
  have e' : ∀ l1 : ℕ, wrow l2 l3 l1 0 (-s') = (-1) ^ (l1 + l2 + l3) * spin3j racah s' l1 l2 l3 := by
    intro l1
    unfold wrow wcol
    rw [spin3j_racah, ← wigner3j_reversal]
    congr 1 <;> ring
  simp only [e, e']
  rw [sum_subset (s₂ := range (M + 1)) (by intro x; simp only [mem_range]; omega)]
  · apply sum_congr rfl
    intro l1 _
    ring
  intro l1 _ hn
  rw [mem_range] at hn
  rw [spin3j_racah, wigner3j_not_allowed (by unfold Allowed; omega)]
  ring

theorem coupling_split (s1 s2 M : ℕ) (pcl : ℕ → ℝ) (l2 l3 : ℕ) :
    coupling racah s1 s2 M pcl Even l2 l3 + coupling racah s1 s2 M pcl Odd l2 l3 =
      coupling racah s1 s2 M pcl (fun _ => True) l2 l3 := by
  unfold coupling
  rw [← sum_add_distrib]
  apply sum_congr rfl
  intro l1 _
  rw [if_pos trivial]
  by_cases h : Even (l1 + l2 + l3)
  · rw [if_pos h, if_neg (Nat.not_odd_iff_even.2 h), add_zero]
  · rw [if_neg h, if_pos (Nat.not_even_iff_odd.1 h), zero_add]

/-- Sum of a row of coupling coefficients of equal spins, over columns up to `N`. -/
theorem coupling_row (s M N : ℕ) (pcl : ℕ → ℝ) (l2 : ℕ) (hs : s ≤ l2) (hp : ∀ l1, N < l1 + l2 → pcl l1 = 0) :
    ∑ l3 ∈ range (N + 1), (2 * (l3 : ℝ) + 1) * coupling racah s s M pcl (fun _ => True) l2 l3 =
      ∑ l1 ∈ range (M + 1), (2 * (l1 : ℝ) + 1) / (4 * Real.pi) * pcl l1 := by
  unfold coupling
  simp only [if_true, mul_sum]
  rw [sum_comm]
  apply sum_congr rfl
  intro l1 _
  by_cases h : N < l1 + l2
  · rw [hp l1 h]
    simp
  · have := sum_thirdL l1 l2 s N hs (by omega)
    calc _ = (2 * (l1 : ℝ) + 1) / (4 * Real.pi) * pcl l1 *
          ∑ l3 ∈ range (N + 1), (2 * (l3 : ℝ) + 1) * (spin3j racah s l1 l2 l3 * spin3j racah s l1 l2 l3) := by
          rw [mul_sum]
          apply sum_congr rfl
          intro l3 _
          ring
      _ = _ := by rw [this, mul_one]

/-- With a mask spectrum that is not negative the sum is never larger. -/
theorem coupling_row_le (s M N : ℕ) (pcl : ℕ → ℝ) (l2 : ℕ) (hs : s ≤ l2) (hp : ∀ l1, 0 ≤ pcl l1) :
    ∑ l3 ∈ range (N + 1), (2 * (l3 : ℝ) + 1) * coupling racah s s M pcl (fun _ => True) l2 l3 ≤
      ∑ l1 ∈ range (M + 1), (2 * (l1 : ℝ) + 1) / (4 * Real.pi) * pcl l1 := by
  unfold coupling
  simp only [if_true, mul_sum]
  rw [sum_comm]
  apply sum_le_sum
  intro l1 _
  have h1 := sum_thirdL l1 l2 s (N + l1 + l2) hs (by omega)
  have h2 : ∑ l3 ∈ range (N + 1), (2 * (l3 : ℝ) + 1) * (spin3j racah s l1 l2 l3 * spin3j racah s l1 l2 l3) ≤ 1 := by
    refine le_trans ?_ h1.le
    apply sum_le_sum_of_subset_of_nonneg
    · intro x; simp only [mem_range]; omega
    · intro x _ _
      exact mul_nonneg (by positivity) (mul_self_nonneg _)
  calc _ = (2 * (l1 : ℝ) + 1) / (4 * Real.pi) * pcl l1 *
        ∑ l3 ∈ range (N + 1), (2 * (l3 : ℝ) + 1) * (spin3j racah s l1 l2 l3 * spin3j racah s l1 l2 l3) := by
        rw [mul_sum]
        apply sum_congr rfl
        intro l3 _
        ring
    _ ≤ (2 * (l1 : ℝ) + 1) / (4 * Real.pi) * pcl l1 * 1 := by
        apply mul_le_mul_of_nonneg_left h2
        exact mul_nonneg (by positivity) (hp l1)
    _ = _ := mul_one _

/-- Coefficients of a mask with constant spectrum. -/
theorem coupling_white (s1 s2 M : ℕ) (N : ℝ) (pcl : ℕ → ℝ) (hp : ∀ l, l ≤ M → pcl l = N) (l2 l3 : ℕ) (h2 : max s1 s2 ≤ l2)
    (h3 : max s1 s2 ≤ l3) (hM : l2 + l3 ≤ M) :
    coupling racah s1 s2 M pcl (fun _ => True) l2 l3 = (if s1 = s2 then N / (4 * Real.pi) else 0) ∧
    (s1 ≠ 0 ∨ s2 ≠ 0 → coupling racah s1 s2 M pcl Even l2 l3 = (if s1 = s2 then N / (8 * Real.pi) else 0) ∧
      coupling racah s1 s2 M pcl Odd l2 l3 = (if s1 = s2 then N / (8 * Real.pi) else 0)) := by
  have hpi : Real.pi ≠ 0 := Real.pi_ne_zero
  have hT : coupling racah s1 s2 M pcl (fun _ => True) l2 l3 = (if s1 = s2 then N / (4 * Real.pi) else 0) := by
    have e : coupling racah s1 s2 M pcl (fun _ => True) l2 l3 = N / (4 * Real.pi) *
        ∑ l1 ∈ range (M + 1), (2 * (l1 : ℝ) + 1) * (spin3j racah s1 l1 l2 l3 * spin3j racah s2 l1 l2 l3) := by
      unfold coupling
      rw [mul_sum]
      apply sum_congr rfl
      intro l1 hl
      rw [mem_range] at hl
      rw [if_pos trivial, hp l1 (by omega)]
      ring
    rw [e]
    by_cases c : s1 = s2
    · subst c
      rw [if_pos rfl, sum_firstL l2 l3 s1 M (by omega) (by omega) hM, mul_one]
    · rw [if_neg c, sum_firstL_other l2 l3 s1 s2 M c (by omega) (by omega) hM, mul_zero]
  refine ⟨hT, fun hs => ?_⟩
  have hD : coupling racah s1 s2 M pcl Even l2 l3 - coupling racah s1 s2 M pcl Odd l2 l3 = 0 := by
    have e : coupling racah s1 s2 M pcl Even l2 l3 - coupling racah s1 s2 M pcl Odd l2 l3 = N / (4 * Real.pi) *
        ∑ l1 ∈ range (M + 1), (2 * (l1 : ℝ) + 1) *
          ((-1) ^ (l1 + l2 + l3) * (spin3j racah s1 l1 l2 l3 * spin3j racah s2 l1 l2 l3)) := by
      unfold coupling
      rw [mul_sum, ← sum_sub_distrib]
      apply sum_congr rfl
      intro l1 hl
      rw [mem_range] at hl
      rw [hp l1 (by omega)]
      by_cases h : Even (l1 + l2 + l3)
      · rw [if_pos h, if_neg (Nat.not_odd_iff_even.2 h), h.neg_one_pow]; ring
      · rw [if_neg h, if_pos (Nat.not_even_iff_odd.1 h), (Nat.not_even_iff_odd.1 h).neg_one_pow]; ring
    rw [e, sum_firstL_sign l2 l3 s1 s2 M hs (by omega) (by omega) hM, mul_zero]
  have hS := coupling_split s1 s2 M pcl l2 l3
  rw [hT] at hS
  have hE : (if s1 = s2 then N / (4 * Real.pi) else 0) = 2 * (if s1 = s2 then N / (8 * Real.pi) else 0) := by
    split
    · field_simp; ring
    · ring
  rw [hE] at hS
  constructor <;> linarith

/-! ## C77 -/

section
variable {a : CouplingArgs} {lmaxFields : ℕ} {pcl beam1 beam2 : List ℝ} {B : Bins ℝ} {nt : ℤ} {w2 : ℝ} {w : Wsp ℝ}

/-- **C77** (rows): for fields of equal spin that are not purified, the elements of a row of the coupling matrix for EE that
multiply EE and BB (and EB minus BE in a row for EB; all elements for scalars) sum to the mean over the sky of the
product of the masks, in every row that does not reach the end of the matrix. -/
theorem C77_row_sum (ha : a.Plain) (h : compCouplingMatrix racah a lmaxFields pcl beam1 beam2 B nt w2 = .ok w)
    (hs : a.spin1 = a.spin2) (l : ℕ) (hl : l ≤ B.ellMax) (hsl : a.spin1 ≤ l)
    (hp : ∀ l1, B.ellMax < l1 + l → pcl.getD l1 0 = 0) :
    ∃ U, w.unbinned = some U ∧
      (a.spin1 = 0 → ∑ l' ∈ range (B.ellMax + 1), U l l' = meanMaskProduct a.lmaxMask pcl) ∧
      (a.spin1 ≠ 0 →
        ∑ l' ∈ range (B.ellMax + 1), (U (4 * l) (4 * l') + U (4 * l) (4 * l' + 3)) = meanMaskProduct a.lmaxMask pcl ∧
        ∑ l' ∈ range (B.ellMax + 1), (U (4 * l + 1) (4 * l' + 1) - U (4 * l + 1) (4 * l' + 2)) =
          meanMaskProduct a.lmaxMask pcl) := by
  obtain ⟨hn, U, hU, hv⟩ := C76_matrix ha h
  have hrow := coupling_row a.spin1 a.lmaxMask B.ellMax (fun l => pcl.getD l 0) l hsl hp
  have hsgn : ((-1 : ℝ)) ^ (a.spin1 + a.spin2) = 1 := by rw [← hs, ← two_mul, pow_mul]; norm_num
  refine ⟨U, hU, fun h0 => ?_, fun h0 => ?_⟩
  · have hn1 : w.ncls = 1 := by rw [hn]; unfold CouplingSpec.ncls; rw [← hs, h0]; rfl
    rw [hn1] at hv
    unfold meanMaskProduct
    rw [← hrow]
    apply sum_congr rfl
    intro l' hl'
    rw [mem_range] at hl'
    have := hv l l' 0 0 hl (by omega) (by norm_num) (by norm_num)
    simp only [one_mul, add_zero] at this
    rw [this]
    unfold CouplingSpec.matrix
    rw [hsgn, if_pos (Or.inl h0), if_pos rfl, ← hs, one_mul]
  · have hn4 : w.ncls = 4 := by
      rw [hn]; unfold CouplingSpec.ncls; rw [← hs, if_neg h0]
    have hne : ¬ (a.spin1 = 0 ∨ a.spin2 = 0) := by omega
    rw [hn4] at hv
    unfold meanMaskProduct
    rw [← hrow]
    constructor
    all_goals
      apply sum_congr rfl
      intro l' hl'
      rw [mem_range] at hl'
      rw [← coupling_split]
    · have e1 := hv l l' 0 0 hl (by omega) (by norm_num) (by norm_num)
      have e2 := hv l l' 0 3 hl (by omega) (by norm_num) (by norm_num)
      simp only [add_zero] at e1 e2
      rw [e1, e2]
      unfold CouplingSpec.matrix
      rw [hsgn, if_neg hne, if_neg hne, if_pos rfl, if_neg (by norm_num), if_pos (by norm_num), ← hs]
      ring
    · have e1 := hv l l' 1 1 hl (by omega) (by norm_num) (by norm_num)
      have e2 := hv l l' 1 2 hl (by omega) (by norm_num) (by norm_num)
      rw [e1, e2]
      unfold CouplingSpec.matrix
      rw [hsgn, if_neg hne, if_neg hne, if_pos rfl, if_neg (by norm_num), if_neg (by norm_num), if_pos (by norm_num),
        ← hs]
      ring

/-- **C77** (bound): for the auto-spectrum of a mask, no row sums to more. -/
theorem C77_row_bound (ha : a.Plain) (h : compCouplingMatrix racah a lmaxFields pcl beam1 beam2 B nt w2 = .ok w)
    (hs : a.spin1 = a.spin2) (l : ℕ) (hl : l ≤ B.ellMax) (hsl : a.spin1 ≤ l) (hp : ∀ l1, 0 ≤ pcl.getD l1 0) :
    ∃ U, w.unbinned = some U ∧
      (a.spin1 = 0 → ∑ l' ∈ range (B.ellMax + 1), U l l' ≤ meanMaskProduct a.lmaxMask pcl) ∧
      (a.spin1 ≠ 0 →
        ∑ l' ∈ range (B.ellMax + 1), (U (4 * l) (4 * l') + U (4 * l) (4 * l' + 3)) ≤ meanMaskProduct a.lmaxMask pcl) := by
  obtain ⟨hn, U, hU, hv⟩ := C76_matrix ha h
  have hrow := coupling_row_le a.spin1 a.lmaxMask B.ellMax (fun l => pcl.getD l 0) l hsl hp
  have hsgn : ((-1 : ℝ)) ^ (a.spin1 + a.spin2) = 1 := by rw [← hs, ← two_mul, pow_mul]; norm_num
  refine ⟨U, hU, fun h0 => ?_, fun h0 => ?_⟩
  · have hn1 : w.ncls = 1 := by rw [hn]; unfold CouplingSpec.ncls; rw [← hs, h0]; rfl
    rw [hn1] at hv
    unfold meanMaskProduct
    refine (le_of_eq ?_).trans hrow
    apply sum_congr rfl
    intro l' hl'
    rw [mem_range] at hl'
    have := hv l l' 0 0 hl (by omega) (by norm_num) (by norm_num)
    simp only [one_mul, add_zero] at this
    rw [this]
    unfold CouplingSpec.matrix
    rw [hsgn, if_pos (Or.inl h0), if_pos rfl, ← hs, one_mul]
  · have hn4 : w.ncls = 4 := by
      rw [hn]; unfold CouplingSpec.ncls; rw [← hs, if_neg h0]
    have hne : ¬ (a.spin1 = 0 ∨ a.spin2 = 0) := by omega
    rw [hn4] at hv
    unfold meanMaskProduct
    refine (le_of_eq ?_).trans hrow
    apply sum_congr rfl
    intro l' hl'
    rw [mem_range] at hl'
    rw [← coupling_split]
    have e1 := hv l l' 0 0 hl (by omega) (by norm_num) (by norm_num)
    have e2 := hv l l' 0 3 hl (by omega) (by norm_num) (by norm_num)
    simp only [add_zero] at e1 e2
    rw [e1, e2]
    unfold CouplingSpec.matrix
    rw [hsgn, if_neg hne, if_neg hne, if_pos rfl, if_neg (by norm_num), if_pos (by norm_num), ← hs]
    ring

/-- **C77** (white spectra): `couple_cell` returns for spectra that are constant, after the beams, and for polarisation equal
in E and B and without EB, the constant multiplied by the mean of the product of the masks: what has to be subtracted
from pseudo-spectra of maps with homogeneous white noise. -/
theorem C77_white_noise (ha : a.Plain) (h : compCouplingMatrix racah a lmaxFields pcl beam1 beam2 B nt w2 = .ok w)
    (hs : a.spin1 = a.spin2) (N : ℝ) (cl : Arr2 ℝ) (hr : cl.rows = w.ncls) (hc : B.ellMax + 1 ≤ cl.cols)
    (h0 : ∀ l', l' ≤ B.ellMax → w.beamProd l' * cl.val 0 l' = N)
    (h4 : a.spin1 ≠ 0 → ∀ l', l' ≤ B.ellMax → w.beamProd l' * cl.val 3 l' = N ∧ cl.val 1 l' = 0 ∧ cl.val 2 l' = 0) :
    ∃ U out, w.unbinned = some U ∧ coupleCell w U cl = .ok out ∧
      ∀ l, l ≤ B.ellMax → a.spin1 ≤ l → (∀ l1, B.ellMax < l1 + l → pcl.getD l1 0 = 0) →
        out.val 0 l = N * meanMaskProduct a.lmaxMask pcl ∧
        (a.spin1 ≠ 0 → out.val 1 l = 0 ∧ out.val 2 l = 0 ∧ out.val 3 l = N * meanMaskProduct a.lmaxMask pcl) := by
  obtain ⟨hn, U, hU, hv⟩ := C76_matrix ha h
  have hlm : w.lmax = B.ellMax := (comp_ok h).2.2.1
  have hsgn : ((-1 : ℝ)) ^ (a.spin1 + a.spin2) = 1 := by rw [← hs, ← two_mul, pow_mul]; norm_num
  refine ⟨U, _, hU, by unfold coupleCell; rw [if_neg (by push Not; exact ⟨hr, by omega⟩)], fun l hl hsl hp => ?_⟩
  have hrow := coupling_row a.spin1 a.lmaxMask B.ellMax (fun l => pcl.getD l 0) l hsl hp
  unfold meanMaskProduct
  rw [← hrow, mul_sum]
  by_cases c0 : a.spin1 = 0
  · refine ⟨?_, fun h => absurd c0 h⟩
    have hn1 : w.ncls = 1 := by rw [hn]; unfold CouplingSpec.ncls; rw [← hs, c0]; rfl
    rw [hn1] at hv
    have : (Arr2.of w.ncls (w.lmax + 1) (coupleCl w.ncls w.lmax U w.beamProd cl.val)).val 0 l =
        coupleCl w.ncls w.lmax U w.beamProd cl.val 0 l := by
      unfold Arr2.of
      simp only [hn1, hlm]
      rw [tab2_lt _ (by norm_num) (by omega)]
    rw [this]
    unfold coupleCl
    rw [hn1, hlm]
    apply sum_congr rfl
    intro l' hl'
    rw [mem_range] at hl'
    rw [sum_range_one]
    have e := hv l l' 0 0 hl (by omega) (by norm_num) (by norm_num)
    rw [e, mul_assoc, h0 l' (by omega)]
    unfold CouplingSpec.matrix
    rw [hsgn, if_pos (Or.inl c0), if_pos rfl, ← hs]
    ring
  · have hn4 : w.ncls = 4 := by
      rw [hn]; unfold CouplingSpec.ncls; rw [← hs, if_neg c0]
    rw [hn4] at hv
    have hval : ∀ i, i < 4 → (Arr2.of w.ncls (w.lmax + 1) (coupleCl w.ncls w.lmax U w.beamProd cl.val)).val i l =
        ∑ l' ∈ range (B.ellMax + 1), N * (U (4 * l + i) (4 * l' + 0) + U (4 * l + i) (4 * l' + 3)) := by
      intro i hi
      unfold Arr2.of
      simp only [hn4, hlm]
      rw [tab2_lt _ hi (by omega)]
      unfold coupleCl
      apply sum_congr rfl
      intro l' hl'
      rw [mem_range] at hl'
      obtain ⟨b3, b1, b2⟩ := h4 c0 l' (by omega)
      simp only [sum_range_succ, sum_range_zero, zero_add]
      rw [b1, b2, mul_assoc, mul_assoc (U (4 * l + i) (4 * l' + 3)), h0 l' (by omega), b3]
      ring
    have hne : ¬ (a.spin1 = 0 ∨ a.spin2 = 0) := by omega
    refine ⟨?_, fun _ => ⟨?_, ?_, ?_⟩⟩
    · rw [hval 0 (by norm_num)]
      apply sum_congr rfl
      intro l' hl'
      rw [mem_range] at hl'
      rw [hv l l' 0 0 hl (by omega) (by norm_num) (by norm_num), hv l l' 0 3 hl (by omega) (by norm_num) (by norm_num), ← coupling_split]
      unfold CouplingSpec.matrix
      rw [hsgn, if_neg hne, if_neg hne, if_pos rfl, if_neg (by norm_num), if_pos (by norm_num), ← hs]
      ring
    · rw [hval 1 (by norm_num)]
      apply sum_eq_zero
      intro l' hl'
      rw [mem_range] at hl'
      rw [hv l l' 1 0 hl (by omega) (by norm_num) (by norm_num), hv l l' 1 3 hl (by omega) (by norm_num) (by norm_num)]
      unfold CouplingSpec.matrix
      rw [if_neg hne, if_neg hne]
      norm_num
    · rw [hval 2 (by norm_num)]
      apply sum_eq_zero
      intro l' hl'
      rw [mem_range] at hl'
      rw [hv l l' 2 0 hl (by omega) (by norm_num) (by norm_num), hv l l' 2 3 hl (by omega) (by norm_num) (by norm_num)]
      unfold CouplingSpec.matrix
      rw [if_neg hne, if_neg hne]
      norm_num
    · rw [hval 3 (by norm_num)]
      apply sum_congr rfl
      intro l' hl'
      rw [mem_range] at hl'
      rw [hv l l' 3 0 hl (by omega) (by norm_num) (by norm_num), hv l l' 3 3 hl (by omega) (by norm_num) (by norm_num), ← coupling_split]
      unfold CouplingSpec.matrix
      rw [hsgn, if_neg hne, if_neg hne, if_neg (by norm_num), if_pos (by norm_num), if_pos rfl, ← hs]
      ring

/-- **C77** (white masks): if the spectrum of the masks is a constant `N`, as that of points at random positions, the matrix
mixes all multipoles alike, E and B fully, and vanishes for fields of different spins, where the multipoles of the
mask reach. -/
theorem C77_white_mask (ha : a.Plain) (h : compCouplingMatrix racah a lmaxFields pcl beam1 beam2 B nt w2 = .ok w)
    (N : ℝ) (hp : ∀ l, l ≤ a.lmaxMask → pcl.getD l 0 = N) :
    ∃ U, w.unbinned = some U ∧ ∀ l l', l ≤ B.ellMax → l' ≤ B.ellMax → max a.spin1 a.spin2 ≤ l → max a.spin1 a.spin2 ≤ l' →
      l + l' ≤ a.lmaxMask →
      (a.spin1 = 0 ∧ a.spin2 = 0 → U l l' = N * (2 * l' + 1) / (4 * Real.pi)) ∧
      (a.spin1 ≠ a.spin2 → ∀ x y, x < w.ncls → y < w.ncls → U (w.ncls * l + x) (w.ncls * l' + y) = 0) ∧
      (a.spin1 = a.spin2 ∧ a.spin1 ≠ 0 →
        (∀ x y, (x = 0 ∨ x = 3) → (y = 0 ∨ y = 3) → U (4 * l + x) (4 * l' + y) = N * (2 * l' + 1) / (8 * Real.pi)) ∧
        U (4 * l + 1) (4 * l' + 1) = N * (2 * l' + 1) / (8 * Real.pi) ∧
        U (4 * l + 1) (4 * l' + 2) = -(N * (2 * l' + 1) / (8 * Real.pi))) := by
  obtain ⟨hn, U, hU, hv⟩ := C76_matrix ha h
  refine ⟨U, hU, fun l l' hl hl' hm hm' hM => ?_⟩
  obtain ⟨cT, cEO⟩ := coupling_white a.spin1 a.spin2 a.lmaxMask N (fun l => pcl.getD l 0) hp l l' hm hm' hM
  refine ⟨fun ⟨h1, h2⟩ => ?_, fun hne x y hx hy => ?_, fun ⟨he, h0⟩ => ?_⟩
  · have hn1 : w.ncls = 1 := by rw [hn]; unfold CouplingSpec.ncls; rw [h1, h2]; rfl
    rw [hn1] at hv
    have := hv l l' 0 0 hl hl' (by norm_num) (by norm_num)
    simp only [one_mul, add_zero] at this
    rw [this]
    unfold CouplingSpec.matrix
    rw [if_pos (Or.inl h1), if_pos rfl, cT, if_pos (by rw [h1, h2]), h1, h2]
    norm_num
    ring
  · rw [hv l l' x y hl hl' hx hy]
    obtain ⟨cE, cO⟩ := cEO (by omega)
    unfold CouplingSpec.matrix
    rw [cT, cE, cO, if_neg hne, if_neg hne]
    simp
  · obtain ⟨cE, cO⟩ := cEO (Or.inl h0)
    have hn4 : w.ncls = 4 := by
      rw [hn]; unfold CouplingSpec.ncls; rw [← he, if_neg h0]
    rw [hn4] at hv
    have hsgn : ((-1 : ℝ)) ^ (a.spin1 + a.spin2) = 1 := by rw [← he, ← two_mul, pow_mul]; norm_num
    have hne : ¬ (a.spin1 = 0 ∨ a.spin2 = 0) := by omega
    rw [if_pos he] at cE cO
    have mk : ∀ x y, x < 4 → y < 4 → U (4 * l + x) (4 * l' + y) = (2 * (l' : ℝ) + 1) *
        (if x = y then N / (8 * Real.pi) else if (x, y) = (0, 3) ∨ (x, y) = (3, 0) then N / (8 * Real.pi)
          else if (x, y) = (1, 2) ∨ (x, y) = (2, 1) then -(N / (8 * Real.pi)) else 0) := by
      intro x y hx hy
      rw [hv l l' x y hl hl' hx hy]
      unfold CouplingSpec.matrix
      rw [hsgn, if_neg hne, cE, cO, one_mul]
    refine ⟨?_, ?_, ?_⟩
    · rintro x y (rfl | rfl) (rfl | rfl)
      all_goals
        rw [mk _ _ (by norm_num) (by norm_num)]
        norm_num
        ring
    · rw [mk _ _ (by norm_num) (by norm_num)]
      norm_num
      ring
    · rw [mk _ _ (by norm_num) (by norm_num)]
      norm_num
      ring

end

/-- Polarisation up to multipole 3 and a mask with monopole and dipole: the row `l = 2` sums to the mean of the squared
mask, `(1 + 3/2)/4π`. -/
example : ∃ w U, compCouplingMatrix racah (plainArgs 2 2 false) 3 [1, 1 / 2, 0, 0] [1, 1, 1, 1] [1, 1, 1, 1] pairBins 0 1 = .ok w ∧
    w.unbinned = some U ∧ ∑ l' ∈ range 4, (U 8 (4 * l') + U 8 (4 * l' + 3)) = 5 / (8 * Real.pi) := by
  obtain ⟨w, h⟩ := plainArgs_ok racah 2 2 false (by simp) [1, 1 / 2, 0, 0] rfl
  obtain ⟨U, hU, -, h4⟩ := C77_row_sum ⟨rfl, rfl, rfl, rfl, rfl, by decide⟩ h rfl 2 (by norm_num [pairBins]) (by norm_num [plainArgs]) (by
    intro l1 hl
    have hl : 3 < l1 + 2 := hl
    rcases l1 with _ | _ | _ | _ | l1
    · omega
    · omega
    all_goals rfl)
  refine ⟨w, U, h, hU, ((h4 (by norm_num [plainArgs])).1).trans ?_⟩
  have hpi : Real.pi ≠ 0 := Real.pi_ne_zero
  simp [meanMaskProduct, plainArgs, sum_range_succ]
  field_simp
  norm_num

/-- A white mask spectrum. -/
example : ∃ w U, compCouplingMatrix racah (plainArgs 1 1 false) 3 [1, 1, 1, 1] [1, 1, 1, 1] [1, 1, 1, 1] pairBins 0 1 = .ok w ∧
    w.unbinned = some U ∧ U 4 11 = 5 / (8 * Real.pi) := by
  obtain ⟨w, h⟩ := plainArgs_ok racah 1 1 false (by simp) [1, 1, 1, 1] rfl
  obtain ⟨U, hU, hv⟩ := C77_white_mask ⟨rfl, rfl, rfl, rfl, rfl, by decide⟩ h 1 (by
    intro l hl
    have hl : l ≤ 3 := hl
    interval_cases l <;> rfl)
  have := ((hv 1 2 (by norm_num [pairBins]) (by norm_num [pairBins]) (by norm_num [plainArgs]) (by norm_num [plainArgs])
    (by norm_num [plainArgs])).2.2 ⟨rfl, by norm_num [plainArgs]⟩).1 0 3 (by norm_num) (by norm_num)
  refine ⟨w, U, h, hU, this.trans ?_⟩
  norm_num

end NaMaster
