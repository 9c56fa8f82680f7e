import Verif.Wigner.Racah

/-!
# Recurrence relations of the Wigner 3j symbols
-/

namespace NaMaster.WignerSpec

open Finset

theorem fact_pos (n : ℤ) : (0 : ℝ) < fact n := by unfold fact; exact_mod_cast Nat.factorial_pos _

theorem fact_succ {n : ℤ} (h : 0 ≤ n) : (fact (n + 1) : ℝ) = ((n : ℝ) + 1) * fact n := by
  obtain ⟨k, rfl⟩ := Int.eq_ofNat_of_zero_le h
  unfold fact
  have e : ((k : ℤ) + 1).toNat = k + 1 := by omega
  rw [e, Int.toNat_natCast, Nat.factorial_succ]
  push_cast; ring

theorem fact_mul_invFact {n : ℤ} (h : 0 ≤ n) : (fact n : ℝ) * invFact n = 1 := by
  unfold invFact
  rw [if_neg (by omega)]
  have := fact_pos n
  field_simp

theorem neg_one_zpow_even {a b : ℤ} (h : Even (a - b)) : (-1 : ℝ) ^ a = (-1) ^ b := by
  have : a = b + (a - b) := by ring
  rw [this, zpow_add₀ (by norm_num), h.neg_one_zpow, mul_one]

/-- Part of the square of the factor that depends on `j`. -/
noncomputable def wt (l2 l3 j m1 : ℤ) : ℝ :=
  (fact (l2 + l3 - j) : ℝ) * fact (j + l2 - l3) * fact (j - l2 + l3) * fact (j + m1) * fact (j - m1) / fact (l2 + l3 + j + 1)

/-- Part of the square of the factor that depends on `m2`, `m3`. -/
noncomputable def kap (l2 l3 m2 m3 : ℤ) : ℝ :=
  (fact (l2 + m2) : ℝ) * fact (l2 - m2) * fact (l3 + m3) * fact (l3 - m3)

theorem wt_pos (l2 l3 j m1 : ℤ) : 0 < wt l2 l3 j m1 := by
  unfold wt
  have := fact_pos (l2 + l3 - j)
  have := fact_pos (j + l2 - l3)
  have := fact_pos (j - l2 + l3)
  have := fact_pos (j + m1)
  have := fact_pos (j - m1)
  have := fact_pos (l2 + l3 + j + 1)
  positivity

theorem kap_pos (l2 l3 m2 m3 : ℤ) : 0 < kap l2 l3 m2 m3 := by
  unfold kap
  have := fact_pos (l2 + m2)
  have := fact_pos (l2 - m2)
  have := fact_pos (l3 + m3)
  have := fact_pos (l3 - m3)
  positivity

/-- Racah's formula with the columns in the order `l2 l3 l1`. -/
theorem wigner3j_eq (j l2 l3 : ℕ) (m2 m3 : ℤ) :
    wigner3j j l2 l3 (-m2 - m3) m2 m3 =
      (-1) ^ ((l2 : ℤ) - l3 + m2 + m3) * Real.sqrt (wt l2 l3 j (-m2 - m3)) * Real.sqrt (kap l2 l3 m2 m3) *
        rsum l2 l3 j m2 m3 := by
  unfold wigner3j
  by_cases h : Allowed j l2 l3 (-m2 - m3) m2 m3
  · rw [if_pos h]
    obtain ⟨h1, h2, h3, h4, h5, h6, -⟩ := h
    have hs : Real.sqrt ((fact (j + l2 - l3) * fact (j - l2 + l3) * fact (-j + l2 + l3) : ℕ) / (fact (j + l2 + l3 + 1) : ℝ)) *
        Real.sqrt ((fact (j + (-m2 - m3)) * fact (j - (-m2 - m3)) * fact (l2 + m2) * fact (l2 - m2) * fact (l3 + m3) *
          fact (l3 - m3) : ℕ) : ℝ) = Real.sqrt (wt l2 l3 j (-m2 - m3)) * Real.sqrt (kap l2 l3 m2 m3) := by
      rw [← Real.sqrt_mul (by positivity), ← Real.sqrt_mul (wt_pos _ _ _ _).le]
      congr 1
      unfold wt kap
      have e1 : (-(j : ℤ) + l2 + l3) = l2 + l3 - j := by ring
      have e2 : ((j : ℤ) + l2 + l3 + 1) = l2 + l3 + j + 1 := by ring
      rw [e1, e2]
      push_cast
      ring
    have ht : (-1 : ℝ) ^ ((j : ℤ) - l2 - m3) * ∑ t ∈ range (j + l2 - l3 + 1), (-1) ^ t * (invFact t *
        invFact (l3 - l2 + t + (-m2 - m3)) * invFact (l3 - j + t - m2) *
        invFact (j + l2 - l3 - t) * invFact (j - t - (-m2 - m3)) * invFact (l2 - t + m2)) =
        (-1) ^ ((l2 : ℤ) - l3 + m2 + m3) * rsum l2 l3 j m2 m3 := by
      unfold rsum
      rw [← finsum_comp_equiv (Equiv.addRight ((l3 : ℤ) - j - m2)) (f := rterm l2 l3 j m2 m3)]
      simp only [Equiv.coe_addRight]
      rw [finsum_eq_sum_of_support_subset (s := (range (j + l2 - l3 + 1)).map Nat.castEmbedding), sum_map, mul_sum, mul_sum]
      · apply sum_congr rfl
        intro t _
        simp only [Nat.castEmbedding_apply]
        unfold rterm
        have e1 : (t : ℤ) + (l3 - j - m2) + j - l3 + m2 = t := by ring
        have e2 : (t : ℤ) + (l3 - j - m2) + j - l2 - m3 = l3 - l2 + t + (-m2 - m3) := by ring
        have e3 : (l2 : ℤ) + l3 - j - (t + (l3 - j - m2)) = l2 - t + m2 := by ring
        have e4 : (l2 : ℤ) - m2 - (t + (l3 - j - m2)) = j + l2 - l3 - t := by ring
        have e5 : (l3 : ℤ) + m3 - (t + (l3 - j - m2)) = j - t - (-m2 - m3) := by ring
        have e6 : (t : ℤ) + (l3 - j - m2) = l3 - j + t - m2 := by ring
        rw [e1, e2, e3, e4, e5, e6]
        have es : (-1 : ℝ) ^ ((j : ℤ) - l2 - m3) * (-1) ^ t =
            (-1) ^ ((l2 : ℤ) - l3 + m2 + m3) * (-1) ^ ((l3 : ℤ) - j + t - m2) := by
          rw [← zpow_natCast, ← zpow_add₀ (by norm_num), ← zpow_add₀ (by norm_num)]
          apply neg_one_zpow_even
          exact ⟨(j : ℤ) - l2 - m3, by ring⟩
        rw [← mul_assoc, es]
        ring
      · intro t ht
        rw [Function.mem_support] at ht
        have h0 : 0 ≤ t := by
          by_contra hn
          apply ht
          unfold rterm
          have e1 : (t : ℤ) + (l3 - j - m2) + j - l3 + m2 = t := by ring
          rw [e1, invFact_neg (not_le.mp hn)]; ring
        have h1 : t ≤ j + l2 - l3 := by
          by_contra hn
          apply ht
          unfold rterm
          rw [invFact_neg (n := (l2 : ℤ) - m2 - (t + (l3 - j - m2))) (by omega)]; ring
        simp only [coe_map, Nat.castEmbedding_apply, coe_range, Set.mem_image, Set.mem_Iio]
        exact ⟨t.toNat, by omega, by omega⟩
    calc _ = (-1 : ℝ) ^ ((j : ℤ) - l2 - m3) * (Real.sqrt ((fact (j + l2 - l3) * fact (j - l2 + l3) * fact (-j + l2 + l3) : ℕ) / (fact (j + l2 + l3 + 1) : ℝ)) *
        Real.sqrt ((fact (j + (-m2 - m3)) * fact (j - (-m2 - m3)) * fact (l2 + m2) * fact (l2 - m2) * fact (l3 + m3) *
          fact (l3 - m3) : ℕ) : ℝ)) * ∑ t ∈ range (j + l2 - l3 + 1), (-1) ^ t * (invFact t *
        invFact (l3 - l2 + t + (-m2 - m3)) * invFact (l3 - j + t - m2) *
        invFact (j + l2 - l3 - t) * invFact (j - t - (-m2 - m3)) * invFact (l2 - t + m2)) := by ring
      _ = Real.sqrt (wt l2 l3 j (-m2 - m3)) * Real.sqrt (kap l2 l3 m2 m3) * ((-1 : ℝ) ^ ((j : ℤ) - l2 - m3) * ∑ t ∈ range (j + l2 - l3 + 1), (-1) ^ t * (invFact t *
        invFact (l3 - l2 + t + (-m2 - m3)) * invFact (l3 - j + t - m2) *
        invFact (j + l2 - l3 - t) * invFact (j - t - (-m2 - m3)) * invFact (l2 - t + m2))) := by rw [hs]; ring
      _ = _ := by rw [ht]; ring
  · rw [if_neg h]
    have : rsum l2 l3 j m2 m3 = 0 := by
      by_cases hm : (l2 : ℤ) < m2 ∨ m2 < -l2 ∨ (l3 : ℤ) < m3 ∨ m3 < -l3
      · exact rsum_zero_m hm
      · apply rsum_zero
        by_contra hj
        push Not at hm hj
        apply h
        unfold Allowed
        simp only [abs_le]
        omega
    rw [this, mul_zero]

/-- The coefficient `A(l1)` of the recurrence. -/
noncomputable def recA (l2 l3 m1 x : ℝ) : ℝ :=
  Real.sqrt ((x + l2 + l3 + 1) * (x - l2 + l3) * (x + l2 - l3) * (-x + l2 + l3 + 1) * ((x + m1) * (x - m1)))

theorem wt_succ {l2 l3 j m1 : ℤ} (h1 : j + 1 ≤ l2 + l3) (h2 : l2 - l3 ≤ j) (h3 : l3 - l2 ≤ j) (h4 : m1 ≤ j)
    (h5 : -m1 ≤ j) :
    wt l2 l3 (j + 1) m1 * ((l2 + l3 - j) * (l2 + l3 + j + 2)) =
      wt l2 l3 j m1 * (((j : ℝ) + 1 + l2 - l3) * (j + 1 - l2 + l3) * ((j + 1 + m1) * (j + 1 - m1))) := by
  unfold wt
  have f1 : (fact (l2 + l3 - j) : ℝ) = (l2 + l3 - j) * fact (l2 + l3 - (j + 1)) := by
    have := fact_succ (n := l2 + l3 - (j + 1)) (by omega)
    rw [show l2 + l3 - (j + 1) + 1 = l2 + l3 - j by ring] at this
    rw [this]; push_cast; ring
  have f2 : (fact (j + 1 + l2 - l3) : ℝ) = (j + 1 + l2 - l3) * fact (j + l2 - l3) := by
    have := fact_succ (n := j + l2 - l3) (by omega)
    rw [show j + l2 - l3 + 1 = j + 1 + l2 - l3 by ring] at this
    rw [this]; push_cast; ring
  have f3 : (fact (j + 1 - l2 + l3) : ℝ) = (j + 1 - l2 + l3) * fact (j - l2 + l3) := by
    have := fact_succ (n := j - l2 + l3) (by omega)
    rw [show j - l2 + l3 + 1 = j + 1 - l2 + l3 by ring] at this
    rw [this]; push_cast; ring
  have f4 : (fact (j + 1 + m1) : ℝ) = (j + 1 + m1) * fact (j + m1) := by
    have := fact_succ (n := j + m1) (by omega)
    rw [show j + m1 + 1 = j + 1 + m1 by ring] at this
    rw [this]; push_cast; ring
  have f5 : (fact (j + 1 - m1) : ℝ) = (j + 1 - m1) * fact (j - m1) := by
    have := fact_succ (n := j - m1) (by omega)
    rw [show j - m1 + 1 = j + 1 - m1 by ring] at this
    rw [this]; push_cast; ring
  have f6 : (fact (l2 + l3 + (j + 1) + 1) : ℝ) = (l2 + l3 + j + 2) * fact (l2 + l3 + j + 1) := by
    have := fact_succ (n := l2 + l3 + j + 1) (by omega)
    rw [show l2 + l3 + j + 1 + 1 = l2 + l3 + (j + 1) + 1 by ring] at this
    rw [this]; push_cast; ring
  rw [f1, f2, f3, f4, f5, f6]
  have p6 := fact_pos (l2 + l3 + j + 1)
  clear f1 f2 f3 f4 f5 f6
  generalize (fact (l2 + l3 - (j + 1)) : ℝ) = g1
  generalize (fact (j + l2 - l3) : ℝ) = g2
  generalize (fact (j - l2 + l3) : ℝ) = g3
  generalize (fact (j + m1) : ℝ) = g4
  generalize (fact (j - m1) : ℝ) = g5
  generalize (fact (l2 + l3 + j + 1) : ℝ) = g6 at *
  have p7 : (0 : ℝ) < l2 + l3 + j + 2 := by
    have : 0 < l2 + l3 + j + 2 := by omega
    exact_mod_cast this
  rw [div_mul_eq_mul_div, div_mul_eq_mul_div, div_eq_div_iff (by positivity) (by positivity)]
  ring

/-- `A(j+1)` times the factor of `j+1` in terms of the factor of `j`. -/
theorem recA_up {l2 l3 j m1 : ℤ} (h1 : j + 1 ≤ l2 + l3) (h2 : l2 - l3 ≤ j) (h3 : l3 - l2 ≤ j) (h4 : m1 ≤ j)
    (h5 : -m1 ≤ j) :
    recA l2 l3 m1 (j + 1) * Real.sqrt (wt l2 l3 (j + 1) m1) =
      ((j : ℝ) + 1 + l2 - l3) * (j + 1 - l2 + l3) * ((j + 1 + m1) * (j + 1 - m1)) * Real.sqrt (wt l2 l3 j m1) := by
  have hw := wt_succ h1 h2 h3 h4 h5
  have p1 : (0 : ℝ) ≤ j + 1 + l2 - l3 := by have : 0 ≤ j + 1 + l2 - l3 := by omega
                                            exact_mod_cast this
  have p2 : (0 : ℝ) ≤ j + 1 - l2 + l3 := by have : 0 ≤ j + 1 - l2 + l3 := by omega
                                            exact_mod_cast this
  have p3 : (0 : ℝ) ≤ j + 1 + m1 := by have : 0 ≤ j + 1 + m1 := by omega
                                       exact_mod_cast this
  have p4 : (0 : ℝ) ≤ j + 1 - m1 := by have : 0 ≤ j + 1 - m1 := by omega
                                       exact_mod_cast this
  unfold recA
  rw [← Real.sqrt_mul' _ (wt_pos _ _ _ _).le]
  have : ((j : ℝ) + 1 + l2 + l3 + 1) * (j + 1 - l2 + l3) * (j + 1 + l2 - l3) * (-(j + 1) + l2 + l3 + 1) * ((j + 1 + m1) * (j + 1 - m1)) *
      wt l2 l3 (j + 1) m1 = (((j : ℝ) + 1 + l2 - l3) * (j + 1 - l2 + l3) * ((j + 1 + m1) * (j + 1 - m1))) ^ 2 * wt l2 l3 j m1 := by
    linear_combination (((j : ℝ) + 1 + l2 - l3) * (j + 1 - l2 + l3) * ((j + 1 + m1) * (j + 1 - m1))) * hw
  rw [this, Real.sqrt_mul (by positivity), Real.sqrt_sq (by positivity)]

/-- `A(j+1)` times the factor of `j` in terms of the factor of `j+1`. -/
theorem recA_down {l2 l3 j m1 : ℤ} (h1 : j + 1 ≤ l2 + l3) (h2 : l2 - l3 ≤ j) (h3 : l3 - l2 ≤ j) (h4 : m1 ≤ j)
    (h5 : -m1 ≤ j) :
    recA l2 l3 m1 (j + 1) * Real.sqrt (wt l2 l3 j m1) =
      ((l2 : ℝ) + l3 - j) * (l2 + l3 + j + 2) * Real.sqrt (wt l2 l3 (j + 1) m1) := by
  have hw := wt_succ h1 h2 h3 h4 h5
  have p1 : (0 : ℝ) ≤ l2 + l3 - j := by have : 0 ≤ l2 + l3 - j := by omega
                                        exact_mod_cast this
  have p2 : (0 : ℝ) ≤ l2 + l3 + j + 2 := by have : 0 ≤ l2 + l3 + j + 2 := by omega
                                            exact_mod_cast this
  unfold recA
  rw [← Real.sqrt_mul' _ (wt_pos _ _ _ _).le]
  have : ((j : ℝ) + 1 + l2 + l3 + 1) * (j + 1 - l2 + l3) * (j + 1 + l2 - l3) * (-(j + 1) + l2 + l3 + 1) * ((j + 1 + m1) * (j + 1 - m1)) *
      wt l2 l3 j m1 = (((l2 : ℝ) + l3 - j) * (l2 + l3 + j + 2)) ^ 2 * wt l2 l3 (j + 1) m1 := by
    linear_combination (-((l2 : ℝ) + l3 - j) * (l2 + l3 + j + 2)) * hw
  rw [this, Real.sqrt_mul (by positivity), Real.sqrt_sq (by positivity)]

/-- The symbols as function of `l1`. -/
noncomputable def wcol (l2 l3 : ℕ) (m2 m3 : ℤ) (j : ℕ) : ℝ := wigner3j j l2 l3 (-m2 - m3) m2 m3

/-- The coefficient of the middle term of the recurrence. -/
def recB (l2 l3 m1 m2 m3 x : ℝ) : ℝ :=
  (2 * x + 1) * (-l2 * (l2 + 1) * m1 + l3 * (l3 + 1) * m1 + x * (x + 1) * (m3 - m2))

theorem wcol_zero {l2 l3 : ℕ} {m2 m3 : ℤ} {j : ℕ} (h : ¬ Allowed j l2 l3 (-m2 - m3) m2 m3) : wcol l2 l3 m2 m3 j = 0 := by
  unfold wcol wigner3j; rw [if_neg h]

/-- Three-term recurrence in `l1`. -/
theorem wcol_rec (l2 l3 : ℕ) (m2 m3 : ℤ) (j : ℕ) (h2 : (l2 : ℤ) - l3 ≤ j + 1) (h3 : (l3 : ℤ) - l2 ≤ j + 1)
    (h4 : -m2 - m3 ≤ j + 1) (h5 : m2 + m3 ≤ j + 1) (h6 : j + 1 ≤ l2 + l3) :
    ((j : ℝ) + 1) * recA l2 l3 (-m2 - m3) (j + 2) * wcol l2 l3 m2 m3 (j + 2) +
      recB l2 l3 (-m2 - m3) m2 m3 (j + 1) * wcol l2 l3 m2 m3 (j + 1) +
      ((j : ℝ) + 2) * recA l2 l3 (-m2 - m3) (j + 1) * wcol l2 l3 m2 m3 j = 0 := by
  unfold wcol
  rw [wigner3j_eq, wigner3j_eq, wigner3j_eq]
  have hr := rsum_rec_j l2 l3 (j + 1) m2 m3
  rw [show ((j : ℤ) + 1 + 1) = ((j + 2 : ℕ) : ℤ) by push_cast; ring, show ((j : ℤ) + 1) = ((j + 1 : ℕ) : ℤ) by push_cast; ring,
    show (((j + 1 : ℕ) : ℤ) - 1) = (j : ℤ) by push_cast; ring] at hr
  have hu : recA l2 l3 (-m2 - m3) (j + 2) * Real.sqrt (wt l2 l3 (j + 2 : ℕ) (-m2 - m3)) * rsum l2 l3 (j + 2 : ℕ) m2 m3 =
      ((j : ℝ) + 2 + l2 - l3) * (j + 2 - l2 + l3) * ((j + 2 + (-m2 - m3)) * (j + 2 - (-m2 - m3))) *
        Real.sqrt (wt l2 l3 (j + 1 : ℕ) (-m2 - m3)) * rsum l2 l3 (j + 2 : ℕ) m2 m3 := by
    by_cases hh : j + 2 ≤ l2 + l3
    · have := recA_up (l2 := l2) (l3 := l3) (j := (j + 1 : ℕ)) (m1 := -m2 - m3) (by push_cast; omega) (by push_cast; omega) (by push_cast; omega)
        (by push_cast; omega) (by push_cast; omega)
      rw [show (((j + 1 : ℕ) : ℤ) + 1) = ((j + 2 : ℕ) : ℤ) by push_cast; ring] at this
      push_cast at this ⊢
      rw [show (j : ℝ) + 1 + 1 = j + 2 by ring] at this
      rw [this]
    · rw [rsum_zero (j := ((j + 2 : ℕ) : ℤ)) (by push_cast; omega)]; ring
  have hd : recA l2 l3 (-m2 - m3) (j + 1) * Real.sqrt (wt l2 l3 j (-m2 - m3)) * rsum l2 l3 j m2 m3 =
      ((l2 : ℝ) + l3 - j) * (l2 + l3 + j + 2) * Real.sqrt (wt l2 l3 (j + 1 : ℕ) (-m2 - m3)) * rsum l2 l3 j m2 m3 := by
    by_cases hh : (l2 : ℤ) - l3 ≤ j ∧ (l3 : ℤ) - l2 ≤ j ∧ -m2 - m3 ≤ j ∧ -(-m2 - m3) ≤ j
    · have := recA_down (l2 := l2) (l3 := l3) (j := j) (m1 := -m2 - m3) (by omega) (by omega) (by omega)
        (by omega) (by omega)
      push_cast at this ⊢
      rw [this]
    · rw [rsum_zero (j := (j : ℤ)) (by omega)]; ring
  unfold recB
  push_cast at hr hu hd ⊢
  linear_combination (-1 : ℝ) ^ ((l2 : ℤ) - l3 + m2 + m3) * Real.sqrt (kap l2 l3 m2 m3) * ((j + 1 : ℝ) * hu + (j + 2 : ℝ) * hd +
    Real.sqrt (wt l2 l3 (j + 1) (-m2 - m3)) * hr)

/-- The recurrence at `l1 = 0`. -/
theorem wcol_rec_zero (l : ℕ) (m : ℤ) (hl : 0 < l) (hm : |m| ≤ l) :
    recA l l 0 1 * wcol l l m (-m) 1 + (-2 * m) * wcol l l m (-m) 0 = 0 := by
  unfold wcol
  rw [wigner3j_eq, wigner3j_eq]
  have e1 := rsum_one_j l m
  have e0 := rsum_zero_j l m
  have := recA_up (l2 := l) (l3 := l) (j := 0) (m1 := -m - -m) (by push_cast; omega) (by push_cast; omega) (by push_cast; omega)
        (by omega) (by omega)
  push_cast at this e0 e1 ⊢
  rw [show -m - -m = 0 by ring] at this ⊢
  rw [e0, e1]
  norm_num at this ⊢
  rw [← sub_eq_zero] at this
  linear_combination Real.sqrt (kap l l m (-m)) * (-1) ^ ((l : ℤ) - m) * (2 * m * (invFact (l - m) * invFact (l + m))) * this

end NaMaster.WignerSpec
