import Verif.Wigner.Orthogonal

/-!
# Symmetries of the Wigner 3j symbols
-/

namespace NaMaster.WignerSpec

open Finset

theorem rsum_exchange (l2 l3 j m2 m3 : ℤ) : rsum l3 l2 j m3 m2 = (-1) ^ (l2 + l3 - j) * rsum l2 l3 j m2 m3 := by
  unfold rsum
  rw [mul_finsum, ← finsum_comp_equiv (Equiv.subLeft (l2 + l3 - j))]
  apply finsum_congr
  intro t
  simp only [Equiv.subLeft_apply]
  unfold rterm
  rw [show l2 + l3 - j - t + j - l2 + m3 = l3 + m3 - t by ring, show l2 + l3 - j - t + j - l3 - m2 = l2 - m2 - t by ring,
    show l3 + l2 - j - (l2 + l3 - j - t) = t by ring, show l3 - m3 - (l2 + l3 - j - t) = t + j - l2 - m3 by ring,
    show l2 + m2 - (l2 + l3 - j - t) = t + j - l3 + m2 by ring, ← mul_assoc ((-1 : ℝ) ^ (l2 + l3 - j)),
    ← zpow_add₀ (by norm_num : (-1 : ℝ) ≠ 0), neg_one_zpow_even (a := l2 + l3 - j - t) (b := l2 + l3 - j + t) ⟨-t, by ring⟩]
  ring

theorem rsum_reversal (l2 l3 j m2 m3 : ℤ) : rsum l2 l3 j (-m2) (-m3) = (-1) ^ (l2 + l3 - j) * rsum l2 l3 j m2 m3 := by
  unfold rsum
  rw [mul_finsum, ← finsum_comp_equiv (Equiv.subLeft (l2 + l3 - j))]
  apply finsum_congr
  intro t
  simp only [Equiv.subLeft_apply]
  unfold rterm
  rw [show l2 + l3 - j - t + j - l2 - -m3 = l3 + m3 - t by ring, show l2 + l3 - j - t + j - l3 + -m2 = l2 - m2 - t by ring,
    show l2 + l3 - j - (l2 + l3 - j - t) = t by ring, show l3 + -m3 - (l2 + l3 - j - t) = t + j - l2 - m3 by ring,
    show l2 - -m2 - (l2 + l3 - j - t) = t + j - l3 + m2 by ring, ← mul_assoc ((-1 : ℝ) ^ (l2 + l3 - j)),
    ← zpow_add₀ (by norm_num : (-1 : ℝ) ≠ 0), neg_one_zpow_even (a := l2 + l3 - j - t) (b := l2 + l3 - j + t) ⟨-t, by ring⟩]
  ring

theorem rsum_first (l2 l3 j m2 m3 : ℤ) : rsum j l3 l2 (-m2 - m3) m3 = (-1) ^ (l3 + m3) * rsum l2 l3 j m2 m3 := by
  unfold rsum
  rw [mul_finsum, ← finsum_comp_equiv (Equiv.subLeft (l3 + m3))]
  apply finsum_congr
  intro t
  simp only [Equiv.subLeft_apply]
  unfold rterm
  rw [show l3 + m3 - t + l2 - l3 + (-m2 - m3) = l2 - m2 - t by ring, show l3 + m3 - t + l2 - j - m3 = l2 + l3 - j - t by ring,
    show j + l3 - l2 - (l3 + m3 - t) = t + j - l2 - m3 by ring, show j - (-m2 - m3) - (l3 + m3 - t) = t + j - l3 + m2 by ring,
    show l3 + m3 - (l3 + m3 - t) = t by ring, ← mul_assoc ((-1 : ℝ) ^ (l3 + m3)),
    ← zpow_add₀ (by norm_num : (-1 : ℝ) ≠ 0), neg_one_zpow_even (a := l3 + m3 - t) (b := l3 + m3 + t) ⟨-t, by ring⟩]
  ring

theorem wigner3j_sum_ne {l1 l2 l3 : ℕ} {m1 m2 m3 : ℤ} (h : m1 + m2 + m3 ≠ 0) : wigner3j l1 l2 l3 m1 m2 m3 = 0 := by
  unfold wigner3j
  rw [if_neg (by unfold Allowed; omega)]

theorem npow_zpow (n : ℕ) : ((-1 : ℝ)) ^ n = (-1) ^ (n : ℤ) := (zpow_natCast _ _).symm

/-- Exchange of the second and third columns. -/
theorem wigner3j_exchange (l1 l2 l3 : ℕ) (m1 m2 m3 : ℤ) :
    wigner3j l1 l3 l2 m1 m3 m2 = (-1) ^ (l1 + l2 + l3) * wigner3j l1 l2 l3 m1 m2 m3 := by
  by_cases h : m1 + m2 + m3 = 0
  · obtain rfl : m1 = -m2 - m3 := by omega
    rw [wigner3j_eq]
    rw [show -m2 - m3 = -m3 - m2 by ring, wigner3j_eq, rsum_exchange, show wt l3 l2 l1 (-m3 - m2) = wt l2 l3 l1 (-m2 - m3) by
      unfold wt; rw [show (l3 : ℤ) + l2 - l1 = l2 + l3 - l1 by ring, show (l1 : ℤ) + l3 - l2 = l1 - l2 + l3 by ring,
        show (l1 : ℤ) - l3 + l2 = l1 + l2 - l3 by ring, show (l3 : ℤ) + l2 + l1 + 1 = l2 + l3 + l1 + 1 by ring,
        show -m3 - m2 = -m2 - m3 by ring]; ring,
      show kap l3 l2 m3 m2 = kap l2 l3 m2 m3 by unfold kap; ring, npow_zpow]
    have : (-1 : ℝ) ^ ((l3 : ℤ) - l2 + m3 + m2) * (-1) ^ ((l2 : ℤ) + l3 - l1) = (-1) ^ (((l1 + l2 + l3 : ℕ) : ℤ)) * (-1) ^ ((l2 : ℤ) - l3 + m2 + m3) := by
      rw [← zpow_add₀ (by norm_num), ← zpow_add₀ (by norm_num)]
      apply neg_one_zpow_even
      exact ⟨(l3 : ℤ) - l2 - l1, by push_cast; ring⟩
    rw [show -m3 - m2 = -m2 - m3 by ring]
    linear_combination (Real.sqrt (wt l2 l3 l1 (-m2 - m3)) * Real.sqrt (kap l2 l3 m2 m3) * rsum l2 l3 l1 m2 m3) * this
  · rw [wigner3j_sum_ne h, wigner3j_sum_ne (by omega), mul_zero]

/-- Reversal of the lower row. -/
theorem wigner3j_reversal (l1 l2 l3 : ℕ) (m1 m2 m3 : ℤ) :
    wigner3j l1 l2 l3 (-m1) (-m2) (-m3) = (-1) ^ (l1 + l2 + l3) * wigner3j l1 l2 l3 m1 m2 m3 := by
  by_cases h : m1 + m2 + m3 = 0
  · obtain rfl : m1 = -m2 - m3 := by omega
    rw [wigner3j_eq]
    rw [show -(-m2 - m3) = -(-m2) - -m3 by ring, wigner3j_eq, rsum_reversal, show wt l2 l3 l1 (- -m2 - -m3) = wt l2 l3 l1 (-m2 - m3) by
      unfold wt; rw [show (l1 : ℤ) + (- -m2 - -m3) = l1 - (-m2 - m3) by ring, show (l1 : ℤ) - (- -m2 - -m3) = l1 + (-m2 - m3) by ring]; ring,
      show kap l2 l3 (-m2) (-m3) = kap l2 l3 m2 m3 by
        unfold kap
        rw [← sub_eq_add_neg, ← sub_eq_add_neg, sub_neg_eq_add, sub_neg_eq_add]; ring, npow_zpow]
    have : (-1 : ℝ) ^ ((l2 : ℤ) - l3 + -m2 + -m3) * (-1) ^ ((l2 : ℤ) + l3 - l1) = (-1) ^ (((l1 + l2 + l3 : ℕ) : ℤ)) * (-1) ^ ((l2 : ℤ) - l3 + m2 + m3) := by
      rw [← zpow_add₀ (by norm_num), ← zpow_add₀ (by norm_num)]
      apply neg_one_zpow_even
      exact ⟨-l1 - m2 - m3, by push_cast; ring⟩
    linear_combination (Real.sqrt (wt l2 l3 l1 (-m2 - m3)) * Real.sqrt (kap l2 l3 m2 m3) * rsum l2 l3 l1 m2 m3) * this
  · rw [wigner3j_sum_ne h, wigner3j_sum_ne (by omega), mul_zero]

/-- Exchange of the first and second columns. -/
theorem wigner3j_first (l1 l2 l3 : ℕ) (m1 m2 m3 : ℤ) :
    wigner3j l2 l1 l3 m2 m1 m3 = (-1) ^ (l1 + l2 + l3) * wigner3j l1 l2 l3 m1 m2 m3 := by
  by_cases h : m1 + m2 + m3 = 0
  · obtain rfl : m1 = -m2 - m3 := by omega
    rw [wigner3j_eq l1 l2 l3]
    have e := wigner3j_eq l2 l1 l3 (-m2 - m3) m3
    rw [show -(-m2 - m3) - m3 = m2 by ring] at e
    rw [e, rsum_first, npow_zpow]
    have hs : Real.sqrt (wt l1 l3 l2 m2) * Real.sqrt (kap l1 l3 (-m2 - m3) m3) =
        Real.sqrt (wt l2 l3 l1 (-m2 - m3)) * Real.sqrt (kap l2 l3 m2 m3) := by
      rw [← Real.sqrt_mul (wt_pos _ _ _ _).le, ← Real.sqrt_mul (wt_pos _ _ _ _).le]
      congr 1
      unfold wt kap
      rw [show (l1 : ℤ) + l3 - l2 = l1 - l2 + l3 by ring, show (l2 : ℤ) + l1 - l3 = l1 + l2 - l3 by ring,
        show (l2 : ℤ) - l1 + l3 = l2 + l3 - l1 by ring, show (l1 : ℤ) + l3 + l2 + 1 = l2 + l3 + l1 + 1 by ring]
      ring
    have : (-1 : ℝ) ^ ((l1 : ℤ) - l3 + (-m2 - m3) + m3) * (-1) ^ ((l3 : ℤ) + m3) = (-1) ^ (((l1 + l2 + l3 : ℕ) : ℤ)) * (-1) ^ ((l2 : ℤ) - l3 + m2 + m3) := by
      rw [← zpow_add₀ (by norm_num), ← zpow_add₀ (by norm_num)]
      apply neg_one_zpow_even
      exact ⟨-l2 - m2, by push_cast; ring⟩
    calc _ = ((-1 : ℝ) ^ ((l1 : ℤ) - l3 + (-m2 - m3) + m3) * (-1) ^ ((l3 : ℤ) + m3)) *
          (Real.sqrt (wt l1 l3 l2 m2) * Real.sqrt (kap l1 l3 (-m2 - m3) m3)) * rsum l2 l3 l1 m2 m3 := by ring
      _ = _ := by rw [this, hs]; ring
  · rw [wigner3j_sum_ne h, wigner3j_sum_ne (by omega), mul_zero]

end NaMaster.WignerSpec
