import Verif.Wigner.Recurrence
import Mathlib.Data.Nat.Choose.Vandermonde
import Mathlib.Algebra.Order.BigOperators.Ring.Finset

/-!
# Orthogonality and normalisation of the Wigner 3j symbols
-/

namespace NaMaster.WignerSpec

open Finset

/-- Coefficient that links `m2` and `m2+1`. -/
noncomputable def recC (l2 l3 m2 m3 : ℝ) : ℝ :=
  Real.sqrt ((l2 + m2 + 1) * (l2 - m2) * ((l3 - m3 + 1) * (l3 + m3)))

theorem kap_succ {l2 l3 m2 m3 : ℤ} (h1 : m2 + 1 ≤ l2) (h2 : -l2 ≤ m2) (h3 : -l3 ≤ m3 - 1) (h4 : m3 ≤ l3) :
    kap l2 l3 (m2 + 1) (m3 - 1) * ((l2 - m2) * (l3 + m3)) = kap l2 l3 m2 m3 * (((l2 : ℝ) + m2 + 1) * (l3 - m3 + 1)) := by
  unfold kap
  have f1 : (fact (l2 + (m2 + 1)) : ℝ) = (l2 + m2 + 1) * fact (l2 + m2) := by
    have := fact_succ (n := l2 + m2) (by omega)
    rw [show l2 + m2 + 1 = l2 + (m2 + 1) by ring] at this
    rw [this]; push_cast; ring
  have f2 : (fact (l2 - m2) : ℝ) = (l2 - m2) * fact (l2 - (m2 + 1)) := by
    have := fact_succ (n := l2 - (m2 + 1)) (by omega)
    rw [show l2 - (m2 + 1) + 1 = l2 - m2 by ring] at this
    rw [this]; push_cast; ring
  have f3 : (fact (l3 + m3) : ℝ) = (l3 + m3) * fact (l3 + (m3 - 1)) := by
    have := fact_succ (n := l3 + (m3 - 1)) (by omega)
    rw [show l3 + (m3 - 1) + 1 = l3 + m3 by ring] at this
    rw [this]; push_cast; ring
  have f4 : (fact (l3 - (m3 - 1)) : ℝ) = (l3 - m3 + 1) * fact (l3 - m3) := by
    have := fact_succ (n := l3 - m3) (by omega)
    rw [show l3 - m3 + 1 = l3 - (m3 - 1) by ring] at this
    rw [this]; push_cast; ring
  rw [f1, f2, f3, f4]
  ring

theorem recC_up {l2 l3 m2 m3 : ℤ} (h1 : m2 + 1 ≤ l2) (h2 : -l2 ≤ m2) (h3 : -l3 ≤ m3 - 1) (h4 : m3 ≤ l3) :
    recC l2 l3 m2 m3 * Real.sqrt (kap l2 l3 (m2 + 1) (m3 - 1)) =
      ((l2 : ℝ) + m2 + 1) * (l3 - m3 + 1) * Real.sqrt (kap l2 l3 m2 m3) := by
  have hk := kap_succ h1 h2 h3 h4
  have p1 : (0 : ℝ) ≤ l2 + m2 + 1 := by have : 0 ≤ l2 + m2 + 1 := by omega
                                        exact_mod_cast this
  have p2 : (0 : ℝ) ≤ l3 - m3 + 1 := by have : 0 ≤ l3 - m3 + 1 := by omega
                                        exact_mod_cast this
  unfold recC
  rw [← Real.sqrt_mul' _ (kap_pos _ _ _ _).le]
  have : ((l2 : ℝ) + m2 + 1) * (l2 - m2) * ((l3 - m3 + 1) * (l3 + m3)) * kap l2 l3 (m2 + 1) (m3 - 1) =
      (((l2 : ℝ) + m2 + 1) * (l3 - m3 + 1)) ^ 2 * kap l2 l3 m2 m3 := by
    linear_combination (((l2 : ℝ) + m2 + 1) * (l3 - m3 + 1)) * hk
  rw [this, Real.sqrt_mul (by positivity), Real.sqrt_sq (by positivity)]

theorem recC_down {l2 l3 m2 m3 : ℤ} (h1 : m2 + 1 ≤ l2) (h2 : -l2 ≤ m2) (h3 : -l3 ≤ m3 - 1) (h4 : m3 ≤ l3) :
    recC l2 l3 m2 m3 * Real.sqrt (kap l2 l3 m2 m3) =
      ((l2 : ℝ) - m2) * (l3 + m3) * Real.sqrt (kap l2 l3 (m2 + 1) (m3 - 1)) := by
  have hk := kap_succ h1 h2 h3 h4
  have p1 : (0 : ℝ) ≤ l2 - m2 := by have : 0 ≤ l2 - m2 := by omega
                                    exact_mod_cast this
  have p2 : (0 : ℝ) ≤ l3 + m3 := by have : 0 ≤ l3 + m3 := by omega
                                    exact_mod_cast this
  unfold recC
  rw [← Real.sqrt_mul' _ (kap_pos _ _ _ _).le]
  have : ((l2 : ℝ) + m2 + 1) * (l2 - m2) * ((l3 - m3 + 1) * (l3 + m3)) * kap l2 l3 m2 m3 =
      (((l2 : ℝ) - m2) * (l3 + m3)) ^ 2 * kap l2 l3 (m2 + 1) (m3 - 1) := by
    linear_combination -(((l2 : ℝ) - m2) * (l3 + m3)) * hk
  rw [this, Real.sqrt_mul (by positivity), Real.sqrt_sq (by positivity)]

/-- The symbols as function of `m2` at fixed `m2 + m3 = n`. -/
noncomputable def wrow (l2 l3 j : ℕ) (n m2 : ℤ) : ℝ := wcol l2 l3 m2 (n - m2) j

theorem wrow_zero {l2 l3 j : ℕ} {n m2 : ℤ} (h : m2 < -l2 ∨ (l2 : ℤ) < m2 ∨ n - m2 < -l3 ∨ (l3 : ℤ) < n - m2) : wrow l2 l3 j n m2 = 0 := by
  apply wcol_zero
  unfold Allowed
  simp only [abs_le]
  omega

/-- Three-term recurrence in `m2`. -/
theorem wrow_rec (l2 l3 j : ℕ) (n m2 : ℤ) (h1 : -(l2 : ℤ) ≤ m2) (h2 : m2 ≤ l2) :
    recC l2 l3 m2 (n - m2) * wrow l2 l3 j n (m2 + 1) -
      ((j : ℝ) * (j + 1) - l2 * (l2 + 1) - l3 * (l3 + 1) - 2 * m2 * (n - m2)) * wrow l2 l3 j n m2 +
      recC l2 l3 (m2 - 1) (n - m2 + 1) * wrow l2 l3 j n (m2 - 1) = 0 := by
  by_cases ho : -(l3 : ℤ) ≤ n - m2 ∧ n - m2 ≤ l3
  swap
  · have z : recC l2 l3 m2 (n - m2) * wrow l2 l3 j n (m2 + 1) = 0 := by
      by_cases hb : n - m2 = l3 + 1
      · have : recC l2 l3 m2 (n - m2) = 0 := by
          have hb' : (n : ℝ) - m2 = l3 + 1 := by exact_mod_cast hb
          unfold recC
          rw [hb']
          simp
        rw [this, zero_mul]
      · rw [wrow_zero (m2 := m2 + 1) (by omega), mul_zero]
    have z' : recC l2 l3 (m2 - 1) (n - m2 + 1) * wrow l2 l3 j n (m2 - 1) = 0 := by
      by_cases hb : n - m2 = -l3 - 1
      · have : recC l2 l3 (m2 - 1) (n - m2 + 1) = 0 := by
          have hb' : (n : ℝ) - m2 = -l3 - 1 := by exact_mod_cast hb
          unfold recC
          rw [hb']
          simp
        rw [this, zero_mul]
      · rw [wrow_zero (m2 := m2 - 1) (by omega), mul_zero]
    rw [z, z', wrow_zero (m2 := m2) (by omega)]
    ring
  have hr := rsum_rec_m l2 l3 j m2 (n - m2)
  have g1 : recC l2 l3 m2 (n - m2) * Real.sqrt (kap l2 l3 (m2 + 1) (n - m2 - 1)) * rsum l2 l3 j (m2 + 1) (n - m2 - 1) =
      ((l2 : ℝ) + m2 + 1) * (l3 - (n - m2) + 1) * Real.sqrt (kap l2 l3 m2 (n - m2)) * rsum l2 l3 j (m2 + 1) (n - m2 - 1) := by
    by_cases hh : m2 + 1 ≤ l2 ∧ -(l3 : ℤ) ≤ n - m2 - 1
    · have := recC_up (l2 := l2) (l3 := l3) (m2 := m2) (m3 := n - m2) hh.1 h1 hh.2 ho.2
      push_cast at this
      rw [this]
    · rw [rsum_zero_m (m2 := m2 + 1) (by omega)]; ring
  have g2 : recC l2 l3 (m2 - 1) (n - m2 + 1) * Real.sqrt (kap l2 l3 (m2 - 1) (n - m2 + 1)) * rsum l2 l3 j (m2 - 1) (n - m2 + 1) =
      ((l2 : ℝ) - m2 + 1) * (l3 + (n - m2) + 1) * Real.sqrt (kap l2 l3 m2 (n - m2)) * rsum l2 l3 j (m2 - 1) (n - m2 + 1) := by
    by_cases hh : -(l2 : ℤ) ≤ m2 - 1 ∧ n - m2 + 1 ≤ l3
    · have := recC_down (l2 := l2) (l3 := l3) (m2 := m2 - 1) (m3 := n - m2 + 1) (by omega) hh.1 (by omega) hh.2
      rw [show m2 - 1 + 1 = m2 by ring, show n - m2 + 1 - 1 = n - m2 by ring] at this
      push_cast at this
      rw [this]; ring
    · rw [rsum_zero_m (m2 := m2 - 1) (by omega)]; ring
  unfold wrow wcol
  rw [wigner3j_eq, wigner3j_eq, wigner3j_eq]
  rw [show -(m2 + 1) - (n - (m2 + 1)) = -n by ring, show -m2 - (n - m2) = -n by ring, show -(m2 - 1) - (n - (m2 - 1)) = -n by ring,
    show (l2 : ℤ) - l3 + (m2 + 1) + (n - (m2 + 1)) = l2 - l3 + n by ring, show (l2 : ℤ) - l3 + m2 + (n - m2) = l2 - l3 + n by ring,
    show (l2 : ℤ) - l3 + (m2 - 1) + (n - (m2 - 1)) = l2 - l3 + n by ring, show n - (m2 + 1) = n - m2 - 1 by ring,
    show n - (m2 - 1) = n - m2 + 1 by ring]
  push_cast at hr
  linear_combination (-1 : ℝ) ^ ((l2 : ℤ) - l3 + n) * Real.sqrt (wt l2 l3 j (-n)) * (g1 + g2 + Real.sqrt (kap l2 l3 m2 (n - m2)) * hr)

/-- Symbols with different `l1` are orthogonal as functions of `m2`. -/
theorem wrow_orthogonal (l2 l3 j j' : ℕ) (n : ℤ) (h : j ≠ j') :
    ∑ k ∈ range (2 * l2 + 1), wrow l2 l3 j n (-l2 + k) * wrow l2 l3 j' n (-l2 + k) = 0 := by
  set Y : ℕ → ℝ := fun k => recC l2 l3 ((-l2 + k : ℤ) - 1) (n - (-l2 + k : ℤ) + 1) *
    (wrow l2 l3 j n (-l2 + k) * wrow l2 l3 j' n (-l2 + k - 1) - wrow l2 l3 j' n (-l2 + k) * wrow l2 l3 j n (-l2 + k - 1)) with hY
  have step : ∀ k ∈ range (2 * l2 + 1), ((j : ℝ) * (j + 1) - j' * (j' + 1)) * (wrow l2 l3 j n (-l2 + k) * wrow l2 l3 j' n (-l2 + k)) =
      Y (k + 1) - Y k := by
    intro k hk
    rw [mem_range] at hk
    have r1 := wrow_rec l2 l3 j n (-l2 + k) (by omega) (by omega)
    have r2 := wrow_rec l2 l3 j' n (-l2 + k) (by omega) (by omega)
    simp only [hY]
    have e : (-(l2 : ℤ) + ((k + 1 : ℕ) : ℤ)) = -l2 + k + 1 := by push_cast; ring
    rw [e, show -(l2 : ℤ) + k + 1 - 1 = -l2 + k by ring]
    push_cast at r1 r2 ⊢
    rw [show -(l2 : ℝ) + k + 1 - 1 = -l2 + k by ring, show (n : ℝ) - (-l2 + k + 1) + 1 = n - (-l2 + k) by ring]
    linear_combination (-wrow l2 l3 j' n (-l2 + k)) * r1 + wrow l2 l3 j n (-l2 + k) * r2
  have tot := sum_congr rfl step
  rw [← mul_sum, sum_range_sub] at tot
  have y0 : Y 0 = 0 := by
    simp only [hY]
    rw [wrow_zero (j := j') (m2 := -l2 + (0 : ℕ) - 1) (by push_cast; omega), wrow_zero (j := j) (m2 := -l2 + (0 : ℕ) - 1) (by push_cast; omega)]
    ring
  have y1 : Y (2 * l2 + 1) = 0 := by
    simp only [hY]
    rw [wrow_zero (j := j') (m2 := -l2 + (2 * l2 + 1 : ℕ)) (by push_cast; omega), wrow_zero (j := j) (m2 := -l2 + (2 * l2 + 1 : ℕ)) (by push_cast; omega)]
    ring
  rw [y0, y1, sub_zero, mul_eq_zero] at tot
  rcases tot with t | t
  · exfalso
    apply h
    have : ((j : ℝ) - j') * (j + j' + 1) = 0 := by linear_combination t
    rcases mul_eq_zero.mp this with a | a
    · exact_mod_cast sub_eq_zero.mp a
    · have : (0 : ℝ) < j + j' + 1 := by positivity
      linarith
  · exact t

/-- Symbols with different `m2` and the same `m1` are orthogonal as functions of `l1`. -/
theorem wcol_orthogonal (l2 l3 : ℕ) (n m m' : ℤ) (h : m ≠ m') (hm : |m| ≤ l2) (hm' : |m'| ≤ l2) :
    ∑ j ∈ range (l2 + l3 + 1), (2 * j + 1) * (wrow l2 l3 j n m * wrow l2 l3 j n m') = 0 := by
  unfold wrow
  set w := wcol l2 l3 m (n - m) with hw
  set w' := wcol l2 l3 m' (n - m') with hw'
  set X : ℕ → ℝ := fun j => recA l2 l3 (-n) j / j * (w j * w' (j - 1) - w' j * w (j - 1)) with hX
  have zero : ∀ j : ℕ, (j : ℤ) < l2 - l3 ∨ (j : ℤ) < l3 - l2 ∨ (j : ℤ) < n ∨ (j : ℤ) < -n → w j = 0 ∧ w' j = 0 := by
    intro j hj
    constructor
    · rw [hw]; apply wcol_zero; unfold Allowed; simp only [abs_le]; omega
    · rw [hw']; apply wcol_zero; unfold Allowed; simp only [abs_le]; omega
  have step : ∀ j ∈ range (l2 + l3 + 1), -(2 * ((m' : ℝ) - m)) * ((2 * j + 1) * (w j * w' j)) = X (j + 1) - X j := by
    intro j hj
    rw [mem_range] at hj
    by_cases hz : (j : ℤ) < l2 - l3 ∨ (j : ℤ) < l3 - l2 ∨ (j : ℤ) < n ∨ (j : ℤ) < -n
    · obtain ⟨z1, z2⟩ := zero j hz
      simp only [hX]
      rw [Nat.add_sub_cancel, z1, z2]; ring
    rcases Nat.eq_zero_or_pos j with rfl | hp
    · simp only [hX]
      have e1 : l2 = l3 := by omega
      have e2 : n = 0 := by omega
      subst e1; subst e2
      rcases Nat.eq_zero_or_pos l2 with rfl | hl
      · exfalso; apply h
        rw [abs_le] at hm hm'; omega
      have r1 := wcol_rec_zero l2 m hl hm
      have r2 := wcol_rec_zero l2 m' hl hm'
      rw [hw, hw', show (0 : ℤ) - m = -m by ring, show (0 : ℤ) - m' = -m' by ring]
      simp
      linear_combination (-wcol l2 l2 m' (-m') 0) * r1 + wcol l2 l2 m (-m) 0 * r2
    · obtain ⟨k, rfl⟩ : ∃ k, j = k + 1 := ⟨j - 1, by omega⟩
      push_cast at hz
      have r1 := wcol_rec l2 l3 m (n - m) k (by omega) (by omega) (by omega) (by omega) (by omega)
      have r2 := wcol_rec l2 l3 m' (n - m') k (by omega) (by omega) (by omega) (by omega) (by omega)
      rw [← hw] at r1
      rw [← hw'] at r2
      simp only [hX]
      rw [Nat.add_sub_cancel, Nat.add_sub_cancel]
      unfold recB at r1 r2
      push_cast at r1 r2 ⊢
      rw [show -(m : ℝ) - (n - m) = -n by ring] at r1
      rw [show -(m' : ℝ) - (n - m') = -n by ring] at r2
      rw [show (k : ℝ) + 1 + 1 = k + 2 by ring]
      have q1 : (k : ℝ) + 1 ≠ 0 := by positivity
      have q2 : (k : ℝ) + 2 ≠ 0 := by positivity
      generalize recA l2 l3 (-n) (k + 2) = a2 at *
      generalize recA l2 l3 (-n) (k + 1) = a1 at *
      field_simp
      linear_combination (-w' (k + 1)) * r1 + w (k + 1) * r2
  have tot := sum_congr rfl step
  rw [← mul_sum, sum_range_sub] at tot
  have x0 : X 0 = 0 := by simp [hX]
  have x1 : X (l2 + l3 + 1) = 0 := by
    simp only [hX]
    have z1 : w (l2 + l3 + 1) = 0 := by rw [hw]; apply wcol_zero; unfold Allowed; omega
    have z2 : w' (l2 + l3 + 1) = 0 := by rw [hw']; apply wcol_zero; unfold Allowed; omega
    rw [z1, z2]; ring
  rw [x0, x1, sub_zero, mul_eq_zero] at tot
  rcases tot with t | t
  · exfalso
    apply h
    have : (m' : ℝ) = m := by linarith
    exact_mod_cast this.symm
  · exact t

theorem invFact_choose {N k : ℤ} (hN : 0 ≤ N) :
    invFact k * invFact (N - k) = (if 0 ≤ k then ((N.toNat.choose k.toNat : ℕ) : ℝ) else 0) / fact N := by
  by_cases h0 : 0 ≤ k
  swap
  · rw [if_neg h0, invFact_neg (not_le.mp h0)]; simp
  rw [if_pos h0]
  by_cases h1 : k ≤ N
  swap
  · rw [invFact_neg (n := N - k) (by omega), Nat.choose_eq_zero_of_lt (by omega)]; simp
  unfold invFact fact
  rw [if_neg (by omega), if_neg (by omega)]
  have hc := Nat.choose_mul_factorial_mul_factorial (n := N.toNat) (k := k.toNat) (by omega)
  have e : (N - k).toNat = N.toNat - k.toNat := by omega
  rw [e]
  have p1 : ((k.toNat.factorial : ℕ) : ℝ) ≠ 0 := by exact_mod_cast Nat.factorial_ne_zero _
  have p2 : (((N.toNat - k.toNat).factorial : ℕ) : ℝ) ≠ 0 := by exact_mod_cast Nat.factorial_ne_zero _
  have p3 : ((N.toNat.factorial : ℕ) : ℝ) ≠ 0 := by exact_mod_cast Nat.factorial_ne_zero _
  rw [← hc] at p3 ⊢
  push_cast at p3 ⊢
  have p4 : ((N.toNat.choose k.toNat : ℕ) : ℝ) ≠ 0 := by
    intro h; apply p3; rw [h]; ring
  field_simp

/-- Vandermonde's identity for the symbols at the largest `l1`. -/
theorem sum_top (l2 l3 : ℕ) (n : ℤ) (hn : |n| ≤ (l2 : ℤ) + l3) :
    ∑ k ∈ range (2 * l2 + 1), (invFact k * invFact (2 * l2 - k)) * (invFact (l2 + l3 + n - k) * invFact (2 * l3 - (l2 + l3 + n - k))) =
      1 / ((fact (2 * l2) : ℝ) * fact (2 * l3)) * (fact (2 * (l2 + l3)) / (fact (l2 + l3 + n) * fact (l2 + l3 - n))) := by
  rw [abs_le] at hn
  obtain ⟨N, hN⟩ : ∃ N : ℕ, (l2 : ℤ) + l3 + n = N := ⟨((l2 : ℤ) + l3 + n).toNat, by omega⟩
  have hv := Nat.add_choose_eq (2 * l2) (2 * l3) N
  rw [Finset.Nat.sum_antidiagonal_eq_sum_range_succ (fun a b => (2 * l2).choose a * (2 * l3).choose b)] at hv
  have e2 : ((fact (2 * (l2 + l3)) : ℕ) : ℝ) / (fact (l2 + l3 + n) * fact (l2 + l3 - n)) = (((2 * l2 + 2 * l3).choose N : ℕ) : ℝ) := by
    have h := invFact_choose (N := 2 * (l2 + l3)) (k := N) (by omega)
    rw [if_pos (by omega)] at h
    have t1 : (2 * ((l2 : ℤ) + l3)).toNat = 2 * l2 + 2 * l3 := by omega
    rw [t1, Int.toNat_natCast] at h
    unfold invFact at h
    rw [if_neg (by omega), if_neg (by omega)] at h
    rw [hN, show (l2 : ℤ) + l3 - n = 2 * (l2 + l3) - N by omega]
    have p0 := fact_pos (2 * ((l2 : ℤ) + l3))
    have p1 := fact_pos N
    have p2 := fact_pos (2 * ((l2 : ℤ) + l3) - N)
    field_simp at h ⊢
    linarith
  rw [e2, hv]
  have hs : ∀ k ∈ range (2 * l2 + 1), (invFact k * invFact (2 * l2 - k)) * (invFact (l2 + l3 + n - k) * invFact (2 * l3 - (l2 + l3 + n - k))) =
      1 / ((fact (2 * l2) : ℝ) * fact (2 * l3)) * (if k ≤ N then (((2 * l2).choose k * (2 * l3).choose (N - k) : ℕ) : ℝ) else 0) := by
    intro k _
    rw [invFact_choose (N := 2 * l2) (k := k) (by omega), if_pos (by omega), invFact_choose (N := 2 * l3) (by omega), hN]
    have t1 : (2 * (l2 : ℤ)).toNat = 2 * l2 := by omega
    have t2 : (2 * (l3 : ℤ)).toNat = 2 * l3 := by omega
    rw [t1, t2, Int.toNat_natCast]
    by_cases hk : k ≤ N
    · rw [if_pos hk, if_pos (by omega), show ((N : ℤ) - k).toNat = N - k by omega]
      push_cast; ring
    · rw [if_neg hk, if_neg (by omega)]; ring
  rw [sum_congr rfl hs, ← mul_sum]
  congr 1
  push_cast
  have a1 : ∑ k ∈ range (2 * l2 + 1), (if k ≤ N then (((2 * l2).choose k : ℝ) * ((2 * l3).choose (N - k) : ℝ)) else 0) =
      ∑ k ∈ range (2 * l2 + N + 1), (if k ≤ N then (((2 * l2).choose k : ℝ) * ((2 * l3).choose (N - k) : ℝ)) else 0) := by
    apply sum_subset
    · intro k; simp only [mem_range]; omega
    · intro k _ hk
      simp only [mem_range, not_lt] at hk
      rw [Nat.choose_eq_zero_of_lt (show 2 * l2 < k by omega)]; simp
  have a2 : ∑ k ∈ range (N + 1), (((2 * l2).choose k : ℝ) * ((2 * l3).choose (N - k) : ℝ)) =
      ∑ k ∈ range (2 * l2 + N + 1), (if k ≤ N then (((2 * l2).choose k : ℝ) * ((2 * l3).choose (N - k) : ℝ)) else 0) := by
    rw [← sum_filter]
    apply sum_congr
    · ext k; simp only [mem_range, mem_filter]; omega
    · intros; rfl
  rw [a1, a2]

/-- The symbol at the largest `l1`. -/
theorem wcol_top (l2 l3 : ℕ) (m2 m3 : ℤ) :
    wcol l2 l3 m2 m3 (l2 + l3) = (-1) ^ ((l2 : ℤ) - l3 + m2 + m3) * Real.sqrt (wt l2 l3 (l2 + l3) (-m2 - m3)) *
      Real.sqrt (kap l2 l3 m2 m3) * (invFact (l2 + m2) * invFact (l2 - m2) * invFact (l3 + m3) * invFact (l3 - m3)) := by
  unfold wcol
  rw [wigner3j_eq, show (((l2 + l3 : ℕ) : ℤ)) = (l2 : ℤ) + l3 by push_cast; ring, rsum_top]

theorem wrow_top_norm (l2 l3 : ℕ) (n : ℤ) (hn : |n| ≤ (l2 : ℤ) + l3) :
    ∑ k ∈ range (2 * l2 + 1), (2 * ((l2 + l3 : ℕ) : ℝ) + 1) * (wrow l2 l3 (l2 + l3) n (-l2 + k) * wrow l2 l3 (l2 + l3) n (-l2 + k)) = 1 := by
  have hs : ∀ k ∈ range (2 * l2 + 1), (2 * ((l2 + l3 : ℕ) : ℝ) + 1) * (wrow l2 l3 (l2 + l3) n (-l2 + k) * wrow l2 l3 (l2 + l3) n (-l2 + k)) =
      (2 * ((l2 + l3 : ℕ) : ℝ) + 1) * wt l2 l3 (l2 + l3) (-n) *
        ((invFact k * invFact (2 * l2 - k)) * (invFact (l2 + l3 + n - k) * invFact (2 * l3 - (l2 + l3 + n - k)))) := by
    intro k hk
    rw [mem_range] at hk
    unfold wrow
    rw [wcol_top]
    rw [show -(-(l2 : ℤ) + k) - (n - (-l2 + k)) = -n by ring]
    have s1 : Real.sqrt (wt l2 l3 (l2 + l3) (-n)) * Real.sqrt (wt l2 l3 (l2 + l3) (-n)) = wt l2 l3 (l2 + l3) (-n) :=
      Real.mul_self_sqrt (wt_pos _ _ _ _).le
    have s2 : Real.sqrt (kap l2 l3 (-l2 + k) (n - (-l2 + k))) * Real.sqrt (kap l2 l3 (-l2 + k) (n - (-l2 + k))) = kap l2 l3 (-l2 + k) (n - (-l2 + k)) :=
      Real.mul_self_sqrt (kap_pos _ _ _ _).le
    have s3 : ∀ a : ℤ, (-1 : ℝ) ^ a * (-1) ^ a = 1 := by
      intro a; rw [← zpow_add₀ (by norm_num), ← two_mul]
      exact (even_two_mul a).neg_one_zpow
    have s3 := s3 ((l2 : ℤ) - l3 + (-l2 + k) + (n - (-l2 + k)))
    have e1 : (l2 : ℤ) + (-l2 + k) = k := by ring
    have e2 : (l2 : ℤ) - (-l2 + k) = 2 * l2 - k := by ring
    have e3 : (l3 : ℤ) + (n - (-l2 + k)) = l2 + l3 + n - k := by ring
    have e4 : (l3 : ℤ) - (n - (-l2 + k)) = 2 * l3 - (l2 + l3 + n - k) := by ring
    rw [e1, e2, e3, e4]
    have hk' : kap l2 l3 (-l2 + k) (n - (-l2 + k)) * ((invFact k * invFact (2 * l2 - k)) * (invFact (l2 + l3 + n - k) * invFact (2 * l3 - (l2 + l3 + n - k)))) ^ 2 =
        (invFact k * invFact (2 * l2 - k)) * (invFact (l2 + l3 + n - k) * invFact (2 * l3 - (l2 + l3 + n - k))) := by
      unfold kap
      rw [e1, e2, e3, e4]
      by_cases ha : 0 ≤ (l2 : ℤ) + l3 + n - k ∧ 0 ≤ 2 * (l3 : ℤ) - (l2 + l3 + n - k)
      · have i1 := fact_mul_invFact (n := k) (by omega)
        have i2 := fact_mul_invFact (n := 2 * l2 - k) (by omega)
        have i3 := fact_mul_invFact ha.1
        have i4 := fact_mul_invFact ha.2
        calc _ = ((fact k : ℝ) * invFact k) * (fact (2 * l2 - k) * invFact (2 * l2 - k)) * (fact (l2 + l3 + n - k) * invFact (l2 + l3 + n - k)) *
              (fact (2 * l3 - (l2 + l3 + n - k)) * invFact (2 * l3 - (l2 + l3 + n - k))) *
              ((invFact k * invFact (2 * l2 - k)) * (invFact (l2 + l3 + n - k) * invFact (2 * l3 - (l2 + l3 + n - k)))) := by ring
          _ = _ := by rw [i1, i2, i3, i4]; ring
      · have : invFact (l2 + l3 + n - k) * invFact (2 * l3 - (l2 + l3 + n - k)) = 0 := by
          by_cases hb : 0 ≤ (l2 : ℤ) + l3 + n - k
          · rw [invFact_neg (n := 2 * l3 - (l2 + l3 + n - k)) (by omega), mul_zero]
          · rw [invFact_neg (not_le.mp hb), zero_mul]
        rw [this]; ring
    rw [← hk']
    clear hk'
    generalize (-1 : ℝ) ^ ((l2 : ℤ) - l3 + (-l2 + k) + (n - (-l2 + k))) = sg at *
    generalize Real.sqrt (wt l2 l3 (l2 + l3) (-n)) = g1 at *
    generalize Real.sqrt (kap l2 l3 (-l2 + k) (n - (-l2 + k))) = g2 at *
    rw [← s1, ← s2]
    generalize invFact k = i1
    generalize invFact (2 * l2 - k) = i2
    generalize invFact (l2 + l3 + n - k) = i3
    generalize invFact (2 * l3 - (l2 + l3 + n - k)) = i4
    linear_combination (2 * ((l2 + l3 : ℕ) : ℝ) + 1) * g1 ^ 2 * g2 ^ 2 * (i1 * i2 * i3 * i4) ^ 2 * s3
  rw [sum_congr rfl hs, ← mul_sum, sum_top l2 l3 n hn]
  unfold wt
  rw [abs_le] at hn
  have e0 : ((fact ((l2 : ℤ) + l3 - (l2 + l3)) : ℕ) : ℝ) = 1 := by rw [sub_self]; simp [fact]
  have f := fact_succ (n := 2 * ((l2 : ℤ) + l3)) (by omega)
  rw [e0, show (l2 : ℤ) + l3 + l2 - l3 = 2 * l2 by ring, show (l2 : ℤ) + l3 - l2 + l3 = 2 * l3 by ring,
    show (l2 : ℤ) + l3 + (l2 + l3) + 1 = 2 * (l2 + l3) + 1 by ring, f, show (l2 : ℤ) + l3 + -n = l2 + l3 - n by ring,
    show (l2 : ℤ) + l3 - -n = l2 + l3 + n by ring]
  have p0 := fact_pos (2 * ((l2 : ℤ) + l3))
  have p1 := fact_pos (2 * (l2 : ℤ))
  have p2 := fact_pos (2 * (l3 : ℤ))
  have p3 := fact_pos ((l2 : ℤ) + l3 + n)
  have p4 := fact_pos ((l2 : ℤ) + l3 - n)
  generalize ((fact (2 * ((l2 : ℤ) + l3)) : ℕ) : ℝ) = g0 at *
  generalize ((fact (2 * (l2 : ℤ)) : ℕ) : ℝ) = g1 at *
  generalize ((fact (2 * (l3 : ℤ)) : ℕ) : ℝ) = g2 at *
  generalize ((fact ((l2 : ℤ) + l3 + n) : ℕ) : ℝ) = g3 at *
  generalize ((fact ((l2 : ℤ) + l3 - n) : ℕ) : ℝ) = g4 at *
  push_cast
  have p5 : (0 : ℝ) < 2 * (l2 + l3) + 1 := by positivity
  field_simp

/-- The symbol at the largest `l1` is not zero and has the sign of the phase convention. -/
theorem wcol_top_sign (l2 l3 : ℕ) (m2 m3 : ℤ) (h2 : |m2| ≤ l2) (h3 : |m3| ≤ l3) :
    ∃ r : ℝ, 0 < r ∧ wcol l2 l3 m2 m3 (l2 + l3) = (-1) ^ ((l2 : ℤ) - l3 + m2 + m3) * r := by
  rw [abs_le] at h2 h3
  refine ⟨_, ?_, by rw [wcol_top, mul_assoc, mul_assoc]⟩
  have p : ∀ n : ℤ, 0 ≤ n → 0 < invFact n := by
    intro n hn
    unfold invFact
    rw [if_neg (by omega)]
    have := fact_pos n
    positivity
  have p1 := p (l2 + m2) (by omega)
  have p2 := p (l2 - m2) (by omega)
  have p3 := p (l3 + m3) (by omega)
  have p4 := p (l3 - m3) (by omega)
  have p5 := Real.sqrt_pos.mpr (wt_pos l2 l3 (l2 + l3) (-m2 - m3))
  have p6 := Real.sqrt_pos.mpr (kap_pos l2 l3 m2 m3)
  positivity

/-- Normalisation: the squares of the symbols, multiplied by `2 l1 + 1`, sum to one. -/
theorem wcol_norm (l2 l3 : ℕ) (m2 m3 : ℤ) (h2 : |m2| ≤ l2) (h3 : |m3| ≤ l3) :
    ∑ j ∈ range (l2 + l3 + 1), (2 * (j : ℝ) + 1) * (wcol l2 l3 m2 m3 j) ^ 2 = 1 := by
  set n := m2 + m3 with hn
  have hw : ∀ j, wcol l2 l3 m2 m3 j = wrow l2 l3 j n m2 := by
    intro j; unfold wrow; rw [show n - m2 = m3 by omega]
  have habs : |n| ≤ (l2 : ℤ) + l3 := by rw [abs_le] at h2 h3 ⊢; omega
  obtain ⟨r, hr, ht⟩ := wcol_top_sign l2 l3 m2 m3 h2 h3
  rw [hw] at ht
  have hne : wrow l2 l3 (l2 + l3) n m2 ≠ 0 := by
    rw [ht]; exact mul_ne_zero (zpow_ne_zero _ (by norm_num)) hr.ne'
  have A : ∑ k ∈ range (2 * l2 + 1), wrow l2 l3 (l2 + l3) n (-l2 + k) *
      ∑ j ∈ range (l2 + l3 + 1), (2 * (j : ℝ) + 1) * (wrow l2 l3 j n (-l2 + k) * wrow l2 l3 j n m2) =
      wrow l2 l3 (l2 + l3) n m2 * ∑ j ∈ range (l2 + l3 + 1), (2 * (j : ℝ) + 1) * (wrow l2 l3 j n m2 * wrow l2 l3 j n m2) := by
    rw [sum_eq_single_of_mem (m2 + l2).toNat]
    · rw [show -(l2 : ℤ) + ((m2 + l2).toNat : ℤ) = m2 by rw [abs_le] at h2; omega]
    · rw [mem_range]; rw [abs_le] at h2; omega
    · intro k hk hne
      rw [mem_range] at hk
      rw [wcol_orthogonal l2 l3 n (-l2 + k) m2 (by omega) (by rw [abs_le]; omega) h2, mul_zero]
  have B : ∑ k ∈ range (2 * l2 + 1), wrow l2 l3 (l2 + l3) n (-l2 + k) *
      ∑ j ∈ range (l2 + l3 + 1), (2 * (j : ℝ) + 1) * (wrow l2 l3 j n (-l2 + k) * wrow l2 l3 j n m2) = wrow l2 l3 (l2 + l3) n m2 := by
    simp only [mul_sum]
    rw [sum_comm, sum_eq_single_of_mem (l2 + l3) (by rw [mem_range]; omega)]
    · have := wrow_top_norm l2 l3 n habs
      calc _ = (∑ k ∈ range (2 * l2 + 1), (2 * ((l2 + l3 : ℕ) : ℝ) + 1) * (wrow l2 l3 (l2 + l3) n (-l2 + k) * wrow l2 l3 (l2 + l3) n (-l2 + k))) *
            wrow l2 l3 (l2 + l3) n m2 := by rw [sum_mul]; apply sum_congr rfl; intros; ring
        _ = _ := by rw [this, one_mul]
    · intro j _ hj
      have := wrow_orthogonal l2 l3 (l2 + l3) j n (Ne.symm hj)
      calc _ = (2 * (j : ℝ) + 1) * wrow l2 l3 j n m2 * ∑ k ∈ range (2 * l2 + 1), wrow l2 l3 (l2 + l3) n (-l2 + k) * wrow l2 l3 j n (-l2 + k) := by
            rw [mul_sum]; apply sum_congr rfl; intros; ring
        _ = _ := by rw [this, mul_zero]
  rw [A] at B
  have : ∑ j ∈ range (l2 + l3 + 1), (2 * (j : ℝ) + 1) * (wrow l2 l3 j n m2 * wrow l2 l3 j n m2) = 1 :=
    mul_left_cancel₀ hne (by rw [B, mul_one])
  refine Eq.trans (sum_congr rfl ?_) this
  intro j _
  rw [hw]; ring

end NaMaster.WignerSpec
