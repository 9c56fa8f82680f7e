import Verif.Sky.Mean

/-! # The mean spectra as products with the coupling matrix -/

namespace NaMaster

open Finset MeasureTheory WignerSpec SkySpec CouplingSpec
open Complex (I)

local notation "conj" => starRingEnd ℂ

/-- The product of the two factors that mix the components. -/
def mixR (X Y X' Y' n : ℕ) : ℝ :=
  if X = X' ∧ Y = Y' then (if Even n then 1 else 0)
  else if X ≠ X' ∧ Y ≠ Y' then (if Even n then 0 else if X = Y then 1 else -1) else 0

theorem mixR_eq {X Y X' Y' : ℕ} (hX : X < 2) (hY : Y < 2) (n : ℕ) :
    mixc X X' n * conj (mixc Y Y' n) = (mixR X Y X' Y' n : ℂ) := by
  unfold mixc mixR
  by_cases hn : Even n <;> by_cases h1 : X = X' <;> by_cases h2 : Y = Y' <;>
    simp only [hn, h1, h2, if_true, if_false, and_self, and_true, true_and, ne_eq, not_true_eq_false, not_false_eq_true, and_false, false_and] <;>
    try simp
  obtain rfl | rfl : X = 0 ∨ X = 1 := by omega
  · obtain rfl | rfl : Y = 0 ∨ Y = 1 := by omega
    all_goals simp
  · obtain rfl | rfl : Y = 0 ∨ Y = 1 := by omega
    all_goals simp

/-- The spectra of components `X` and `Y` of two fields, from those of the sky. -/
noncomputable def kernelMatrix (h1 h2 : ℕ → ℕ → ℕ → ℕ → ℝ) (Nw : ℕ) (pcl : ℕ → ℝ) (l X Y l' X' Y' : ℕ) : ℝ :=
  (2 * l' + 1) * ∑ L ∈ range (Nw + 1), (2 * L + 1) / (4 * Real.pi) * pcl L * h1 X l L l' * h2 Y l L l' * mixR X Y X' Y' (l + L + l')

/-- `alm2cl_mean` in real numbers. -/
theorem alm2cl_mean_real {Ω : Type*} [MeasurableSpace Ω] {μ : Measure Ω} {n1 n2 Nf : ℕ} {F1 F2 : Ω → ℕ → ℕ → ℤ → ℂ} {C : ℕ → ℕ → ℕ → ℝ}
    (hI : Isotropic μ n1 n2 Nf F1 F2 C) (hF1 : ∀ ω, ∀ X < n1, RealCoefs (F1 ω X)) (hF2 : ∀ ω, ∀ X < n2, RealCoefs (F2 ω X))
    {Nw : ℕ} {h1 h2 : ℕ → ℕ → ℕ → ℕ → ℝ} (hz : ∀ X l L l', ¬ CouplingSpec.Triangle L l l' → h1 X l L l' = 0)
    {w1 w2 : ℕ → ℤ → ℂ} (hw1 : RealCoefs w1) (hw2 : RealCoefs w2) {A1 A2 : Ω → Alms} {W1 W2 : ℕ → ℕ → ℂ}
    {X Y l : ℕ} (hX : X < 2) (hY : Y < 2) (hA1 : ∀ ω, ∀ m ≤ l, A1 ω X l m = linCoef n1 Nw Nf h1 w1 (F1 ω) X l m)
    (hA2 : ∀ ω, ∀ m ≤ l, A2 ω Y l m = linCoef n2 Nw Nf h2 w2 (F2 ω) Y l m)
    (hW1 : ∀ L ≤ Nw, ∀ m ≤ L, W1 L m = w1 L m) (hW2 : ∀ L ≤ Nw, ∀ m ≤ L, W2 L m = w2 L m) :
    Integrable (fun ω => alm2cl (A1 ω X) (A2 ω Y) l) μ ∧
    ∫ ω, alm2cl (A1 ω X) (A2 ω Y) l ∂μ = ∑ l' ∈ range (Nf + 1), ∑ X' ∈ range n1, ∑ Y' ∈ range n2,
      kernelMatrix h1 h2 Nw (alm2cl W1 W2) l X Y l' X' Y' * C X' Y' l' := by
  obtain ⟨hint, hval⟩ := alm2cl_mean hI hF1 hF2 hz hw1 hw2 hA1 hA2 hW1 hW2
  refine ⟨hint, ?_⟩
  have := congrArg Complex.re hval
  rw [Complex.ofReal_re] at this
  rw [this, ← Complex.ofReal_re (∑ l' ∈ range (Nf + 1), ∑ X' ∈ range n1, ∑ Y' ∈ range n2,
      kernelMatrix h1 h2 Nw (alm2cl W1 W2) l X Y l' X' Y' * C X' Y' l')]
  congr 1
  rw [Complex.ofReal_sum]
  apply sum_congr rfl; intro l' _
  rw [Complex.ofReal_sum]
  apply sum_congr rfl; intro X' _
  rw [Complex.ofReal_sum]
  apply sum_congr rfl; intro Y' _
  rw [Complex.ofReal_mul, mul_comm]
  congr 1
  unfold kernelMatrix
  rw [Complex.ofReal_mul, Complex.ofReal_sum, mul_sum]
  apply sum_congr rfl; intro L _
  rw [mixR_eq hX hY]
  push_cast
  ring

/-- The factors of fields without purification. -/
theorem sfac_spin3j (s l L l' : ℕ) : sfac s 0 s l L l' = (-1) ^ s * ((-1) ^ (L + l + l') * spin3j racah s L l l') := by
  unfold sfac
  rw [spin3j_racah, neg_zero, ← wigner3j_first, zpow_natCast]

theorem sfac_triangle {so sw sf : ℤ} {l L l' : ℕ} (h : ¬ Triangle L l l') : sfac so sw sf l L l' = 0 := by
  unfold sfac
  rw [wigner3j_not_allowed, mul_zero]
  unfold Allowed
  unfold Triangle at h
  omega

theorem spin3j_zero_odd {l1 l2 l3 : ℕ} (h : ¬ Even (l1 + l2 + l3)) : spin3j racah 0 l1 l2 l3 = 0 := by
  unfold spin3j zero3j
  rw [if_pos rfl, if_neg (by tauto)]

/-- The matrix of fields without purification. -/
theorem kernel_plain (s1 s2 Nw : ℕ) (pcl : ℕ → ℝ) (l l' : ℕ) {X Y X' Y' : ℕ} (hX : X < ncomp s1) (hY : Y < ncomp s2) (hX' : X' < ncomp s1)
    (hY' : Y' < ncomp s2) :
    kernelMatrix (fun _ => sfac s1 0 s1) (fun _ => sfac s2 0 s2) Nw pcl l X Y l' X' Y' =
      CouplingSpec.matrix racah s1 s2 Nw pcl l (ncomp s2 * X + Y) l' (ncomp s2 * X' + Y') := by
  have hterm : ∀ L : ℕ, (2 * (L : ℝ) + 1) / (4 * Real.pi) * pcl L * sfac s1 0 s1 l L l' * sfac s2 0 s2 l L l' =
      (-1) ^ (s1 + s2) * ((2 * (L : ℝ) + 1) / (4 * Real.pi) * pcl L * spin3j racah s1 L l l' * spin3j racah s2 L l l') := by
    intro L
    rw [sfac_spin3j, sfac_spin3j, pow_add]
    linear_combination (2 * (L : ℝ) + 1) / (4 * Real.pi) * pcl L * (-1) ^ s1 * spin3j racah s1 L l l' * (-1) ^ s2 * spin3j racah s2 L l l' *
      sign_mul_self (L + l + l')
  unfold kernelMatrix CouplingSpec.matrix
  simp only [hterm]
  rw [mul_comm ((-1 : ℝ) ^ (s1 + s2)), mul_assoc]
  congr 1
  have hsum : ∀ (sel : ℕ → Prop) [DecidablePred sel] (c : ℝ), (∀ L, spin3j racah s1 L l l' * spin3j racah s2 L l l' * mixR X Y X' Y' (l + L + l') =
      if sel (L + l + l') then c * (spin3j racah s1 L l l' * spin3j racah s2 L l l') else 0) →
      ∑ L ∈ range (Nw + 1), (-1) ^ (s1 + s2) * ((2 * (L : ℝ) + 1) / (4 * Real.pi) * pcl L * spin3j racah s1 L l l' * spin3j racah s2 L l l') *
        mixR X Y X' Y' (l + L + l') = (-1) ^ (s1 + s2) * (c * coupling racah s1 s2 Nw pcl sel l l') := by
    intro sel _ c hc
    unfold coupling
    rw [mul_sum, mul_sum]
    apply sum_congr rfl; intro L _
    have := hc L
    by_cases h : sel (L + l + l')
    · rw [if_pos h] at this ⊢
      linear_combination (-1) ^ (s1 + s2) * ((2 * (L : ℝ) + 1) / (4 * Real.pi)) * pcl L * this
    · rw [if_neg h] at this ⊢
      linear_combination (-1) ^ (s1 + s2) * ((2 * (L : ℝ) + 1) / (4 * Real.pi)) * pcl L * this
  have hcomm : ∀ L, l + L + l' = L + l + l' := fun L => by ring
  have hEven : X = X' → Y = Y' → ∑ L ∈ range (Nw + 1), (-1) ^ (s1 + s2) * ((2 * (L : ℝ) + 1) / (4 * Real.pi) * pcl L *
      spin3j racah s1 L l l' * spin3j racah s2 L l l') * mixR X Y X' Y' (l + L + l') =
      (-1) ^ (s1 + s2) * (1 * coupling racah s1 s2 Nw pcl Even l l') := by
    intro a b
    apply hsum
    intro L
    rw [hcomm]
    unfold mixR
    rw [if_pos ⟨a, b⟩]
    split_ifs <;> ring
  have hTrue : s1 = 0 ∨ s2 = 0 → X = X' → Y = Y' → ∑ L ∈ range (Nw + 1), (-1) ^ (s1 + s2) * ((2 * (L : ℝ) + 1) / (4 * Real.pi) * pcl L *
      spin3j racah s1 L l l' * spin3j racah s2 L l l') * mixR X Y X' Y' (l + L + l') =
      (-1) ^ (s1 + s2) * (1 * coupling racah s1 s2 Nw pcl (fun _ => True) l l') := by
    intro h a b
    apply hsum
    intro L
    rw [hcomm]
    unfold mixR
    rw [if_pos ⟨a, b⟩, if_pos trivial]
    by_cases hn : Even (L + l + l')
    · rw [if_pos hn]; ring
    · rw [if_neg hn]
      rcases h with rfl | rfl
      · rw [spin3j_zero_odd hn]; ring
      · rw [spin3j_zero_odd hn]; ring
  have hOdd : X ≠ X' → Y ≠ Y' → ∑ L ∈ range (Nw + 1), (-1) ^ (s1 + s2) * ((2 * (L : ℝ) + 1) / (4 * Real.pi) * pcl L *
      spin3j racah s1 L l l' * spin3j racah s2 L l l') * mixR X Y X' Y' (l + L + l') =
      (-1) ^ (s1 + s2) * ((if X = Y then 1 else -1) * coupling racah s1 s2 Nw pcl Odd l l') := by
    intro a b
    apply hsum
    intro L
    rw [hcomm]
    unfold mixR
    rw [if_neg (by tauto), if_pos ⟨a, b⟩]
    by_cases hn : Even (L + l + l')
    · rw [if_pos hn, if_neg (Nat.not_odd_iff_even.mpr hn)]; ring
    · rw [if_neg hn, if_pos (Nat.not_even_iff_odd.mp hn)]; ring
  have hzero : ¬ (X = X' ∧ Y = Y') → ¬ (X ≠ X' ∧ Y ≠ Y') → ∑ L ∈ range (Nw + 1), (-1) ^ (s1 + s2) *
      ((2 * (L : ℝ) + 1) / (4 * Real.pi) * pcl L * spin3j racah s1 L l l' * spin3j racah s2 L l l') * mixR X Y X' Y' (l + L + l') =
      (-1) ^ (s1 + s2) * 0 := by
    intro a b
    rw [mul_zero]
    apply sum_eq_zero; intro L _
    unfold mixR
    rw [if_neg a, if_neg b, mul_zero]
  by_cases h0 : s1 = 0 ∨ s2 = 0
  · rw [if_pos h0]
    have hone : X = X' ∨ Y = Y' := by
      unfold ncomp at hX hY hX' hY'
      rcases h0 with rfl | rfl
      · left; simp only [if_true] at hX hX'; omega
      · right; simp only [if_true] at hY hY'; omega
    by_cases he : X = X' ∧ Y = Y'
    · rw [hTrue h0 he.1 he.2, if_pos (by rw [he.1, he.2]), one_mul]
    · rw [hzero he (by tauto), if_neg]
      intro h
      apply he
      rcases hone with rfl | rfl
      · exact ⟨rfl, by omega⟩
      · refine ⟨?_, rfl⟩
        have : ncomp s2 * X = ncomp s2 * X' := by omega
        exact Nat.eq_of_mul_eq_mul_left (by unfold ncomp; split_ifs <;> omega) this
  · have h1 : s1 ≠ 0 := by tauto
    have h2 : s2 ≠ 0 := by tauto
    rw [if_neg h0]
    unfold ncomp at hX hY hX' hY' ⊢
    rw [if_neg h1] at hX hX'
    rw [if_neg h2] at hY hY' ⊢
    by_cases a : X = X' <;> by_cases b : Y = Y'
    · rw [hEven a b, if_pos (by omega), one_mul]
    · rw [hzero (by tauto) (by tauto), if_neg (by omega), if_neg (by simp only [Prod.mk.injEq]; omega), if_neg (by simp only [Prod.mk.injEq]; omega)]
    · rw [hzero (by tauto) (by tauto), if_neg (by omega), if_neg (by simp only [Prod.mk.injEq]; omega), if_neg (by simp only [Prod.mk.injEq]; omega)]
    · rw [hOdd a b, if_neg (show ¬ (2 * X + Y = 2 * X' + Y') by omega)]
      by_cases c : X = Y
      · rw [if_pos c, if_pos (by simp only [Prod.mk.injEq]; omega), one_mul]
      · rw [if_neg c, if_neg (by simp only [Prod.mk.injEq]; omega), if_pos (by simp only [Prod.mk.injEq]; omega)]
        ring

end NaMaster
