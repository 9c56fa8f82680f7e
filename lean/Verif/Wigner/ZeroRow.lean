import Verif.Wigner.Symmetry
import Verif.Coupling.Spec

/-!
# Closed forms: zero lower row and zero first multipole
-/

namespace NaMaster.WignerSpec

open Finset CouplingSpec

/-- The sum of Racah's formula with zero lower row. -/
theorem rsum_zero_row (l2 l3 : ℕ) : ∀ k : ℕ, k ≤ l2 → k ≤ l3 →
    rsum l2 l3 ((l2 + l3 - 2 * k : ℕ) : ℤ) 0 0 *
      ((k.factorial : ℝ) * (l3 - k).factorial * (l2 - k).factorial * (l2 + l3 - 2 * k).factorial * l2.factorial * l3.factorial) =
      (-1) ^ k * (l2 + l3 - k).factorial := by
  intro k
  induction k with
  | zero =>
    intro _ _
    have h := rsum_top l2 l3 0 0
    have e2 := fact_mul_invFact (n := (l2 : ℤ)) (by omega)
    have e3 := fact_mul_invFact (n := (l3 : ℤ)) (by omega)
    unfold fact at e2 e3
    rw [Int.toNat_natCast] at e2 e3
    simp only [add_zero, sub_zero] at h
    simp only [mul_zero, Nat.sub_zero, Nat.factorial_zero, Nat.cast_one, pow_zero, one_mul]
    rw [show (((l2 + l3 : ℕ)) : ℤ) = (l2 : ℤ) + l3 by push_cast; ring, h]
    calc _ = ((l2.factorial : ℝ) * invFact l2) ^ 2 * ((l3.factorial : ℝ) * invFact l3) ^ 2 * (l2 + l3).factorial := by ring
      _ = _ := by rw [e2, e3]; ring
  | succ k ih =>
    intro h2 h3
    have h := ih (by omega) (by omega)
    obtain ⟨a, rfl⟩ : ∃ a, l2 = k + 1 + a := ⟨l2 - (k + 1), by omega⟩
    obtain ⟨b, rfl⟩ : ∃ b, l3 = k + 1 + b := ⟨l3 - (k + 1), by omega⟩
    have r := rsum_rec_j (k + 1 + a : ℕ) (k + 1 + b : ℕ) (a + b + 1 : ℕ) 0 0
    rw [show k + 1 + a + (k + 1 + b) - 2 * (k + 1) = a + b by omega, show k + 1 + a + (k + 1 + b) - (k + 1) = a + b + k + 1 by omega,
      show k + 1 + b - (k + 1) = b by omega, show k + 1 + a - (k + 1) = a by omega]
    rw [show k + 1 + a + (k + 1 + b) - 2 * k = a + b + 2 by omega, show k + 1 + a + (k + 1 + b) - k = a + b + k + 2 by omega,
      show k + 1 + b - k = b + 1 by omega, show k + 1 + a - k = a + 1 by omega] at h
    rw [show (((a + b + 1 : ℕ)) : ℤ) + 1 = ((a + b + 2 : ℕ) : ℤ) by push_cast; ring,
      show (((a + b + 1 : ℕ)) : ℤ) - 1 = ((a + b : ℕ) : ℤ) by push_cast; ring] at r
    generalize rsum ((k + 1 + a : ℕ) : ℤ) ((k + 1 + b : ℕ) : ℤ) ((a + b + 2 : ℕ) : ℤ) 0 0 = S2 at *
    generalize rsum ((k + 1 + a : ℕ) : ℤ) ((k + 1 + b : ℕ) : ℤ) ((a + b : ℕ) : ℤ) 0 0 = S0 at *
    have f1 : ((a + b + 2).factorial : ℝ) = (a + b + 2) * (a + b + 1) * (a + b).factorial := by
      rw [show a + b + 2 = a + b + 1 + 1 by ring, Nat.factorial_succ, Nat.factorial_succ]; push_cast; ring
    have f2 : ((a + b + k + 2).factorial : ℝ) = (a + b + k + 2) * (a + b + k + 1).factorial := by
      rw [show a + b + k + 2 = a + b + k + 1 + 1 by ring, Nat.factorial_succ]; push_cast; ring
    have f3 : ((b + 1).factorial : ℝ) = (b + 1) * b.factorial := by rw [Nat.factorial_succ]; push_cast; ring
    have f4 : ((a + 1).factorial : ℝ) = (a + 1) * a.factorial := by rw [Nat.factorial_succ]; push_cast; ring
    have f5 : ((k + 1).factorial : ℝ) = (k + 1) * k.factorial := by rw [Nat.factorial_succ]; push_cast; ring
    rw [f1, f2, f3, f4] at h
    rw [f5]
    generalize ((a + b).factorial : ℝ) = F1 at *
    generalize ((a + b + k + 1).factorial : ℝ) = F2 at *
    generalize (b.factorial : ℝ) = F3 at *
    generalize (a.factorial : ℝ) = F4 at *
    generalize (k.factorial : ℝ) = F5 at *
    generalize ((k + 1 + a).factorial : ℝ) = F6 at *
    generalize ((k + 1 + b).factorial : ℝ) = F7 at *
    push_cast at r
    have r' : ((a : ℝ) + b + 1) * (a + b + 2) * (a + 1) * (b + 1) * S2 + (k + 1) * (a + b + k + 2) * S0 = 0 := by
      have hn : (4 * ((a : ℝ) + b + 2)) ≠ 0 := by positivity
      apply mul_left_cancel₀ hn
      rw [mul_zero]
      linear_combination r
    have hn : ((a : ℝ) + b + k + 2) ≠ 0 := by positivity
    apply mul_left_cancel₀ hn
    rw [pow_succ]
    linear_combination (F5 * F3 * F4 * F1 * F6 * F7) * r' - h

theorem sqrt_sq_fact (n : ℤ) : Real.sqrt ((fact n : ℝ) ^ 2) = fact n := Real.sqrt_sq (fact_pos n).le

/-- The symbols with zero lower row. -/
theorem wigner3j_zero_row (l1 l2 l3 : ℕ) : wigner3j l1 l2 l3 0 0 0 = zero3j l1 l2 l3 := by
  unfold zero3j
  by_cases hT : Triangle l1 l2 l3
  · by_cases he : Even (l1 + l2 + l3)
    · rw [if_pos ⟨hT, he⟩]
      dsimp only
      obtain ⟨g, hg⟩ := he
      obtain ⟨t1, t2, t3⟩ := hT
      rw [show (l1 + l2 + l3) / 2 = g by omega]
      have h := rsum_zero_row l2 l3 (g - l1) (by omega) (by omega)
      rw [show l2 + l3 - 2 * (g - l1) = l1 by omega, show l3 - (g - l1) = g - l2 by omega, show l2 - (g - l1) = g - l3 by omega,
        show l2 + l3 - (g - l1) = g by omega] at h
      have e := wigner3j_eq l1 l2 l3 0 0
      rw [show -(0 : ℤ) - 0 = 0 by norm_num] at e
      rw [e]
      have hk : Real.sqrt (kap l2 l3 0 0) = (l2.factorial : ℝ) * l3.factorial := by
        unfold kap
        rw [add_zero, add_zero, sub_zero, sub_zero, show (fact l2 : ℝ) * fact l2 * fact l3 * fact l3 = ((fact l2 : ℝ) * fact l3) ^ 2 by ring,
          Real.sqrt_sq (mul_pos (fact_pos _) (fact_pos _)).le]
        unfold fact
        rw [Int.toNat_natCast, Int.toNat_natCast]
      have hw : Real.sqrt (wt l2 l3 l1 0) = Real.sqrt (((l2 + l3 - l1).factorial * (l1 + l3 - l2).factorial * (l1 + l2 - l3).factorial : ℕ) /
          ((l1 + l2 + l3 + 1).factorial : ℝ)) * l1.factorial := by
        have e1 : wt l2 l3 l1 0 = (((l2 + l3 - l1).factorial * (l1 + l3 - l2).factorial * (l1 + l2 - l3).factorial : ℕ) /
          ((l1 + l2 + l3 + 1).factorial : ℝ)) * (l1.factorial : ℝ) ^ 2 := by
          unfold wt fact
          rw [show ((l2 : ℤ) + l3 - l1).toNat = l2 + l3 - l1 by omega, show ((l1 : ℤ) + l2 - l3).toNat = l1 + l2 - l3 by omega,
            show ((l1 : ℤ) - l2 + l3).toNat = l1 + l3 - l2 by omega, show ((l1 : ℤ) + 0).toNat = l1 by omega,
            show ((l1 : ℤ) - 0).toNat = l1 by omega, show ((l2 : ℤ) + l3 + l1 + 1).toNat = l1 + l2 + l3 + 1 by omega]
          push_cast
          ring
        rw [e1, Real.sqrt_mul (by positivity), Real.sqrt_sq (by positivity)]
      rw [hk, hw]
      have hs : (-1 : ℝ) ^ ((l2 : ℤ) - l3 + 0 + 0) * (-1) ^ (g - l1) = (-1) ^ g := by
        rw [npow_zpow, npow_zpow, ← zpow_add₀ (by norm_num)]
        apply neg_one_zpow_even
        exact ⟨(l2 : ℤ) - g, by omega⟩
      rw [← hs]
      push_cast
      have p1 : ((g - l1).factorial : ℝ) ≠ 0 := by positivity
      have p2 : ((g - l2).factorial : ℝ) ≠ 0 := by positivity
      have p3 : ((g - l3).factorial : ℝ) ≠ 0 := by positivity
      generalize Real.sqrt ((((l2 + l3 - l1).factorial : ℝ) * (l1 + l3 - l2).factorial * (l1 + l2 - l3).factorial) / ((l1 + l2 + l3 + 1).factorial : ℝ)) = Q at *
      generalize ((g - l1).factorial : ℝ) = A at *
      generalize ((g - l2).factorial : ℝ) = B at *
      generalize ((g - l3).factorial : ℝ) = C at *
      generalize (l1.factorial : ℝ) = D at *
      generalize (l2.factorial : ℝ) = E at *
      generalize (l3.factorial : ℝ) = F at *
      generalize (g.factorial : ℝ) = G at *
      generalize rsum l2 l3 l1 0 0 = S at *
      generalize (-1 : ℝ) ^ ((l2 : ℤ) - l3 + 0 + 0) = s1 at *
      generalize (-1 : ℝ) ^ (g - l1) = s2 at *
      field_simp
      linear_combination (s1 * Q) * h
    · rw [if_neg (fun h => he h.2)]
      have := wigner3j_reversal l1 l2 l3 0 0 0
      rw [neg_zero, (Nat.not_even_iff_odd.mp he).neg_one_pow] at this
      linarith
  · rw [if_neg (fun h => hT h.1)]
    unfold wigner3j
    rw [if_neg (fun h => hT ⟨h.1, h.2.1, h.2.2.1⟩)]

/-- The symbols with `l1 = 0`. -/
theorem wigner3j_monopole (l : ℕ) (m : ℤ) (h : |m| ≤ l) : wigner3j 0 l l 0 m (-m) = (-1) ^ ((l : ℤ) - m) / Real.sqrt (2 * l + 1) := by
  rw [abs_le] at h
  have e := wigner3j_eq 0 l l m (-m)
  rw [show -m - -m = 0 by ring] at e
  rw [e]
  have hz : rsum l l ((0 : ℕ) : ℤ) m (-m) = (-1) ^ ((l : ℤ) - m) * (invFact (l - m) * invFact (l + m)) := rsum_zero_j l m
  rw [hz]
  have i1 := fact_mul_invFact (n := l + m) (by omega)
  have i2 := fact_mul_invFact (n := l - m) (by omega)
  have hk : Real.sqrt (kap l l m (-m)) = (fact (l + m) : ℝ) * fact (l - m) := by
    unfold kap
    rw [← sub_eq_add_neg, sub_neg_eq_add, show (fact (l + m) : ℝ) * fact (l - m) * fact (l - m) * fact (l + m) = ((fact (l + m) : ℝ) * fact (l - m)) ^ 2 by ring,
      Real.sqrt_sq (mul_pos (fact_pos _) (fact_pos _)).le]
  have hw : wt l l ((0 : ℕ) : ℤ) 0 = 1 / (2 * (l : ℝ) + 1) := by
    unfold wt
    rw [show (l : ℤ) + l - ((0 : ℕ) : ℤ) = 2 * l by push_cast; ring, show ((0 : ℕ) : ℤ) + l - l = 0 by push_cast; ring,
      show ((0 : ℕ) : ℤ) - l + l = 0 by push_cast; ring, show (l : ℤ) + l + ((0 : ℕ) : ℤ) + 1 = 2 * l + 1 by push_cast; ring,
      fact_succ (by positivity), show ((0 : ℕ) : ℤ) + 0 = 0 by norm_num, show ((0 : ℕ) : ℤ) - 0 = 0 by norm_num,
      show (fact 0 : ℝ) = 1 by simp [fact]]
    have := fact_pos (2 * l)
    push_cast
    field_simp
  rw [hk, hw, show (l : ℤ) - l + m + -m = 0 by ring, zpow_zero, Real.sqrt_div (by norm_num), Real.sqrt_one]
  calc _ = 1 / Real.sqrt (2 * (l : ℝ) + 1) * (-1) ^ ((l : ℤ) - m) * ((fact (l + m) : ℝ) * invFact (l + m)) * ((fact (l - m) : ℝ) * invFact (l - m)) := by ring
    _ = _ := by rw [i1, i2]; ring

end NaMaster.WignerSpec
