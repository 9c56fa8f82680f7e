import Verif.Wigner.Symmetry
import Mathlib.Data.Nat.Choose.Central
import Mathlib.Data.Nat.Factorial.BigOperators

/-!
# Lower bounds on the first and last symbols of a family
-/

namespace NaMaster.WignerSpec

open Finset

theorem choose_lower (l : ℕ) : ∀ m, m ≤ l → 4 ^ l ≤ (2 * l + 1) ^ (1 + m) * (2 * l).choose (l + m) := by
  intro m
  induction m with
  | zero =>
    intro _
    have := Nat.four_pow_le_two_mul_add_one_mul_central_binom l
    simpa using this
  | succ m ih =>
    intro h
    have h1 := ih (by omega)
    have h2 := Nat.choose_succ_right_eq (2 * l) (l + m)
    have h3 : (2 * l).choose (l + m) ≤ (2 * l).choose (l + m + 1) * (2 * l + 1) :=
      calc (2 * l).choose (l + m) ≤ (2 * l).choose (l + m) * (2 * l - (l + m)) := Nat.le_mul_of_pos_right _ (by omega)
        _ = (2 * l).choose (l + m + 1) * (l + m + 1) := h2.symm
        _ ≤ _ := Nat.mul_le_mul_left _ (by omega)
    calc 4 ^ l ≤ (2 * l + 1) ^ (1 + m) * (2 * l).choose (l + m) := h1
      _ ≤ (2 * l + 1) ^ (1 + m) * ((2 * l).choose (l + m + 1) * (2 * l + 1)) := Nat.mul_le_mul_left _ h3
      _ = _ := by rw [show 1 + (m + 1) = (1 + m) + 1 by ring, pow_succ, show l + (m + 1) = l + m + 1 by ring]; ring

theorem fact_lower (l : ℕ) (m : ℤ) (h : |m| ≤ l) :
    (4 : ℝ) ^ l * (fact (l + m) * fact (l - m)) ≤ (2 * l + 1) ^ (1 + m.natAbs) * fact (2 * l) := by
  have hm : m.natAbs ≤ l := by rw [abs_le] at h; omega
  have h1 := choose_lower l m.natAbs hm
  have h2 := Nat.choose_mul_factorial_mul_factorial (n := 2 * l) (k := l + m.natAbs) (by omega)
  have h3 : fact (l + m) * fact (l - m) = (l + m.natAbs).factorial * (2 * l - (l + m.natAbs)).factorial := by
    unfold fact
    rcases le_total 0 m with hm0 | hm0
    · rw [show ((l : ℤ) + m).toNat = l + m.natAbs by omega, show ((l : ℤ) - m).toNat = 2 * l - (l + m.natAbs) by omega]
    · rw [show ((l : ℤ) - m).toNat = l + m.natAbs by omega, show ((l : ℤ) + m).toNat = 2 * l - (l + m.natAbs) by omega, mul_comm]
  have h4 : fact (2 * l) = (2 * l).factorial := by unfold fact; congr 1
  have h5 : 4 ^ l * (fact (l + m) * fact (l - m)) ≤ (2 * l + 1) ^ (1 + m.natAbs) * fact (2 * l) := by
    rw [h3, h4, ← h2]
    calc _ ≤ ((2 * l + 1) ^ (1 + m.natAbs) * (2 * l).choose (l + m.natAbs)) * ((l + m.natAbs).factorial * (2 * l - (l + m.natAbs)).factorial) :=
          Nat.mul_le_mul_right _ h1
      _ = _ := by ring
  exact_mod_cast h5

theorem fact_upper (l : ℕ) (m : ℤ) (h : |m| ≤ l) : (fact (2 * l) : ℝ) ≤ 4 ^ l * (fact (l + m) * fact (l - m)) := by
  have hm : m.natAbs ≤ l := by rw [abs_le] at h; omega
  have h2 := Nat.choose_mul_factorial_mul_factorial (n := 2 * l) (k := l + m.natAbs) (by omega)
  have h3 : fact (l + m) * fact (l - m) = (l + m.natAbs).factorial * (2 * l - (l + m.natAbs)).factorial := by
    unfold fact
    rcases le_total 0 m with hm0 | hm0
    · rw [show ((l : ℤ) + m).toNat = l + m.natAbs by omega, show ((l : ℤ) - m).toNat = 2 * l - (l + m.natAbs) by omega]
    · rw [show ((l : ℤ) - m).toNat = l + m.natAbs by omega, show ((l : ℤ) + m).toNat = 2 * l - (l + m.natAbs) by omega, mul_comm]
  have h4 : fact (2 * l) = (2 * l).factorial := by unfold fact; congr 1
  have h5 : fact (2 * l) ≤ 4 ^ l * (fact (l + m) * fact (l - m)) := by
    rw [h3, h4, ← h2, mul_assoc]
    apply Nat.mul_le_mul_right
    rw [show 4 = 2 ^ 2 by norm_num, ← pow_mul]
    exact Nat.choose_le_two_pow _ _
  exact_mod_cast h5

theorem neg_one_sq (k : ℤ) : ((-1 : ℝ) ^ k) ^ 2 = 1 := by
  rcases Int.even_or_odd k with h | h
  · rw [h.neg_one_zpow]; norm_num
  · rw [h.neg_one_zpow]; norm_num

/-- The square of the last symbol. -/
theorem top_sq_eq (l2 l3 : ℕ) (m2 m3 : ℤ) (h2 : |m2| ≤ l2) (h3 : |m3| ≤ l3) :
    (wcol l2 l3 m2 m3 (l2 + l3)) ^ 2 * (fact (2 * (l2 + l3 : ℕ) + 1) * (fact (l2 + m2) * fact (l2 - m2)) * (fact (l3 + m3) * fact (l3 - m3))) =
      fact (2 * l2) * fact (2 * l3) * (fact ((l2 + l3 : ℕ) + (-m2 - m3)) * fact ((l2 + l3 : ℕ) - (-m2 - m3))) := by
  rw [abs_le] at h2 h3
  have i1 := fact_mul_invFact (n := l2 + m2) (by omega)
  have i2 := fact_mul_invFact (n := l2 - m2) (by omega)
  have i3 := fact_mul_invFact (n := l3 + m3) (by omega)
  have i4 := fact_mul_invFact (n := l3 - m3) (by omega)
  rw [wcol_top, mul_pow, mul_pow, mul_pow, neg_one_sq, Real.sq_sqrt (wt_pos _ _ _ _).le, Real.sq_sqrt (kap_pos _ _ _ _).le]
  unfold wt kap
  rw [show (l2 : ℤ) + l3 - (l2 + l3) = 0 by ring, show (l2 : ℤ) + l3 + l2 - l3 = 2 * l2 by ring,
    show (l2 : ℤ) + l3 - l2 + l3 = 2 * l3 by ring, show (l2 : ℤ) + l3 + (l2 + l3) + 1 = 2 * ((l2 + l3 : ℕ) : ℤ) + 1 by push_cast; ring,
    show (l2 : ℤ) + l3 + (-m2 - m3) = ((l2 + l3 : ℕ) : ℤ) + (-m2 - m3) by push_cast; ring,
    show (l2 : ℤ) + l3 - (-m2 - m3) = ((l2 + l3 : ℕ) : ℤ) - (-m2 - m3) by push_cast; ring]
  have hJ := fact_pos (2 * ((l2 + l3 : ℕ) : ℤ) + 1)
  have f0 : (fact 0 : ℝ) = 1 := by simp [fact]
  rw [f0]
  generalize (fact (2 * ((l2 + l3 : ℕ) : ℤ) + 1) : ℝ) = J at *
  generalize (fact (l2 + m2) : ℝ) = a at *
  generalize (fact (l2 - m2) : ℝ) = b at *
  generalize (fact (l3 + m3) : ℝ) = c at *
  generalize (fact (l3 - m3) : ℝ) = d at *
  generalize invFact (l2 + m2) = a' at *
  generalize invFact (l2 - m2) = b' at *
  generalize invFact (l3 + m3) = c' at *
  generalize invFact (l3 - m3) = d' at *
  generalize (fact (2 * l2) : ℝ) = e at *
  generalize (fact (2 * l3) : ℝ) = f at *
  generalize (fact ((l2 + l3 : ℕ) + (-m2 - m3)) : ℝ) = g at *
  generalize (fact ((l2 + l3 : ℕ) - (-m2 - m3)) : ℝ) = h at *
  calc 1 * (1 * e * f * g * h / J) * (a * b * c * d) * (a' * b' * c' * d') ^ 2 * (J * (a * b) * (c * d))
      = (J / J) * (e * f * g * h) * (a * a') ^ 2 * (b * b') ^ 2 * (c * c') ^ 2 * (d * d') ^ 2 := by ring
    _ = _ := by rw [i1, i2, i3, i4, div_self hJ.ne']; ring

/-- Lower bound on the last symbol. -/
theorem top_sq_lower (l2 l3 : ℕ) (m2 m3 : ℤ) (h2 : |m2| ≤ l2) (h3 : |m3| ≤ l3) :
    1 ≤ (2 * ((l2 + l3 : ℕ) : ℝ) + 1) ^ (3 + m2.natAbs + m3.natAbs) * (wcol l2 l3 m2 m3 (l2 + l3)) ^ 2 := by
  have E := top_sq_eq l2 l3 m2 m3 h2 h3
  have b2 := fact_lower l2 m2 h2
  have b3 := fact_lower l3 m3 h3
  have bL := fact_upper (l2 + l3) (-m2 - m3) (by rw [abs_le] at h2 h3 ⊢; push_cast; omega)
  have hJ : (fact (2 * (l2 + l3 : ℕ) + 1) : ℝ) = (2 * ((l2 + l3 : ℕ) : ℝ) + 1) * fact (2 * (l2 + l3 : ℕ)) := by
    rw [fact_succ (by positivity)]; push_cast; ring
  rw [hJ] at E
  have p1 := fact_pos (l2 + m2)
  have p2 := fact_pos (l2 - m2)
  have p3 := fact_pos (l3 + m3)
  have p4 := fact_pos (l3 - m3)
  have p5 := fact_pos (2 * (l2 + l3 : ℕ))
  have p6 := fact_pos ((l2 + l3 : ℕ) + (-m2 - m3))
  have p7 := fact_pos ((l2 + l3 : ℕ) - (-m2 - m3))
  set X : ℝ := 2 * ((l2 + l3 : ℕ) : ℝ) + 1 with hX
  have x1 : (1 : ℝ) ≤ X := by rw [hX]; have : (0 : ℝ) ≤ ((l2 + l3 : ℕ) : ℝ) := by positivity
                              linarith
  have b2' : (4 : ℝ) ^ l2 * (fact (l2 + m2) * fact (l2 - m2)) ≤ X ^ (1 + m2.natAbs) * fact (2 * l2) := by
    refine b2.trans (mul_le_mul_of_nonneg_right (pow_le_pow_left₀ (by positivity) ?_ _) (fact_pos _).le)
    rw [hX]; push_cast; have : (0 : ℝ) ≤ l3 := by positivity
    linarith
  have b3' : (4 : ℝ) ^ l3 * (fact (l3 + m3) * fact (l3 - m3)) ≤ X ^ (1 + m3.natAbs) * fact (2 * l3) := by
    refine b3.trans (mul_le_mul_of_nonneg_right (pow_le_pow_left₀ (by positivity) ?_ _) (fact_pos _).le)
    rw [hX]; push_cast; have : (0 : ℝ) ≤ l2 := by positivity
    linarith
  have xp : X ^ (3 + m2.natAbs + m3.natAbs) = X * X ^ (1 + m2.natAbs) * X ^ (1 + m3.natAbs) := by
    rw [← pow_succ', ← pow_add]; congr 1; ring
  have pw : (4 : ℝ) ^ (l2 + l3) = 4 ^ l2 * 4 ^ l3 := pow_add _ _ _
  rw [xp]
  rw [pw] at bL
  clear b2 b3 hJ xp pw
  generalize X ^ (1 + m2.natAbs) = X2 at *
  generalize X ^ (1 + m3.natAbs) = X3 at *
  generalize (fact (l2 + m2) : ℝ) = a at *
  generalize (fact (l2 - m2) : ℝ) = b at *
  generalize (fact (l3 + m3) : ℝ) = c at *
  generalize (fact (l3 - m3) : ℝ) = d at *
  generalize (fact (2 * (l2 + l3 : ℕ)) : ℝ) = J at *
  generalize (fact ((l2 + l3 : ℕ) + (-m2 - m3)) : ℝ) = g at *
  generalize (fact ((l2 + l3 : ℕ) - (-m2 - m3)) : ℝ) = h at *
  generalize (fact (2 * l2) : ℝ) = e at *
  generalize (fact (2 * l3) : ℝ) = f at *
  have q2 : (0 : ℝ) < 4 ^ l2 := by positivity
  have q3 : (0 : ℝ) < 4 ^ l3 := by positivity
  generalize (4 : ℝ) ^ l2 = F2 at *
  generalize (4 : ℝ) ^ l3 = F3 at *
  generalize (wcol l2 l3 m2 m3 (l2 + l3)) ^ 2 = w at *
  have hgh : 0 < g * h := mul_pos p6 p7
  -- multiply out
  have key : (a * b) * (c * d) * (X * J) ≤ (X * X2 * X3) * (e * f) * (g * h) := by
    have s1 : (F2 * (a * b)) * (F3 * (c * d)) ≤ (X2 * e) * (X3 * f) :=
      mul_le_mul b2' b3' (by positivity) (le_trans (by positivity) b2')
    have s2 : (F2 * (a * b)) * (F3 * (c * d)) * J ≤ (X2 * e) * (X3 * f) * (F2 * F3 * (g * h)) :=
      mul_le_mul s1 bL p5.le (le_trans (by positivity) s1)
    have s3 : (F2 * F3) * ((a * b) * (c * d) * J) ≤ (F2 * F3) * ((X2 * X3) * (e * f) * (g * h)) := by linarith
    have s4 := le_of_mul_le_mul_left s3 (by positivity)
    nlinarith
  have hpos : 0 < X * J * (a * b) * (c * d) := by positivity
  have : 1 * (X * J * (a * b) * (c * d)) ≤ (X * X2 * X3 * w) * (X * J * (a * b) * (c * d)) := by
    calc 1 * (X * J * (a * b) * (c * d)) = (a * b) * (c * d) * (X * J) := by ring
      _ ≤ _ := key
      _ = (X * X2 * X3) * (e * f * (g * h)) := by ring
      _ = (X * X2 * X3) * (w * (X * J * (a * b) * (c * d))) := by rw [E]
      _ = _ := by ring
  exact le_of_mul_le_mul_right this hpos

theorem rsum_edge (l2 l3 m2 m3 : ℤ) :
    rsum l2 l3 (-m2 - m3) m2 m3 = (-1) ^ (l3 + m3) * (invFact (l3 + m3) * invFact (-m2 - m3 + l3 - l2) * invFact (l2 + m2) *
      invFact (-m2 - m3 + l2 - l3)) := by
  have e : invFact 0 = 1 := by simp [invFact, fact]
  unfold rsum
  rw [finsum_eq_single _ (l3 + m3)]
  · unfold rterm
    rw [show l3 + m3 + (-m2 - m3) - l3 + m2 = 0 by ring, show l3 + m3 + (-m2 - m3) - l2 - m3 = -m2 - m3 + l3 - l2 by ring,
      show l2 + l3 - (-m2 - m3) - (l3 + m3) = l2 + m2 by ring, show l2 - m2 - (l3 + m3) = -m2 - m3 + l2 - l3 by ring,
      show l3 + m3 - (l3 + m3) = 0 by ring, e]
    ring
  · intro t ht
    unfold rterm
    rcases lt_or_gt_of_ne ht with h0 | h0
    · rw [invFact_neg (n := t + (-m2 - m3) - l3 + m2) (by omega)]; ring
    · rw [invFact_neg (n := l3 + m3 - t) (by omega)]; ring

theorem fact_ratio (n k : ℕ) (h : k ≤ n) (X : ℝ) (hX : (n : ℝ) ≤ X) : (n.factorial : ℝ) ≤ X ^ k * (n - k).factorial := by
  have h1 := Nat.factorial_mul_descFactorial h
  have h2 : (n.descFactorial k : ℝ) ≤ X ^ k := by
    calc (n.descFactorial k : ℝ) ≤ (n : ℝ) ^ k := by exact_mod_cast Nat.descFactorial_le_pow n k
      _ ≤ X ^ k := pow_le_pow_left₀ (by positivity) hX k
  rw [← h1]
  push_cast
  rw [mul_comm]
  exact mul_le_mul_of_nonneg_right h2 (by positivity)

theorem fact_sign_ratio (l : ℕ) (m : ℤ) (h : |m| ≤ l) (X : ℝ) (hX : 2 * (l : ℝ) ≤ X) :
    (fact (l + m) : ℝ) ≤ X ^ (2 * m.toNat) * fact (l - m) := by
  rw [abs_le] at h
  unfold fact
  rcases le_total 0 m with hm | hm
  · have := fact_ratio (l + m).toNat (2 * m.toNat) (by omega) X (by
      refine le_trans ?_ hX
      have : ((l : ℤ) + m).toNat ≤ 2 * l := by omega
      exact_mod_cast this)
    rwa [show ((l : ℤ) + m).toNat - 2 * m.toNat = ((l : ℤ) - m).toNat by omega] at this
  · rw [show m.toNat = 0 by omega, mul_zero, pow_zero, one_mul]
    exact_mod_cast Nat.factorial_le (by omega)

/-- Lower bound on a symbol with `l1 = m1`. -/
theorem edge_sq_lower (l2 l3 : ℕ) (m2 m3 : ℤ) (h2 : |m2| ≤ l2) (h3 : |m3| ≤ l3) (j : ℕ) (hj : (j : ℤ) = -m2 - m3)
    (h4 : l2 ≤ j + l3) (h5 : l3 ≤ j + l2) :
    1 ≤ (2 * ((l2 + l3 : ℕ) : ℝ) + 1) ^ (2 * (m2.natAbs + m3.natAbs) + 1) * (wcol l2 l3 m2 m3 j) ^ 2 := by
  have h2' := h2
  have h3' := h3
  rw [abs_le] at h2' h3'
  have i1 := fact_mul_invFact (n := l2 + m2) (by omega)
  have i3 := fact_mul_invFact (n := l3 + m3) (by omega)
  have i5 := fact_mul_invFact (n := j + l2 - l3) (by omega)
  have i6 := fact_mul_invFact (n := j + l3 - l2) (by omega)
  set X : ℝ := 2 * ((l2 + l3 : ℕ) : ℝ) + 1 with hX
  have x1 : (1 : ℝ) ≤ X := by rw [hX]; have : (0 : ℝ) ≤ ((l2 + l3 : ℕ) : ℝ) := by positivity
                              linarith
  have r2 := fact_sign_ratio l2 m2 h2 X (by rw [hX]; push_cast; have : (0 : ℝ) ≤ l3 := by positivity
                                            linarith)
  have r3 := fact_sign_ratio l3 m3 h3 X (by rw [hX]; push_cast; have : (0 : ℝ) ≤ l2 := by positivity
                                            linarith)
  have rJ := fact_ratio (l2 + l3 + j + 1) (2 * j + 1) (by omega) X (by
    rw [hX]
    have : l2 + l3 + j + 1 ≤ 2 * (l2 + l3) + 1 := by omega
    exact_mod_cast this)
  have rJ' : (fact ((l2 : ℤ) + l3 + j + 1) : ℝ) ≤ X ^ (2 * j + 1) * fact ((l2 : ℤ) + l3 - j) := by
    unfold fact
    rw [show ((l2 : ℤ) + l3 + j + 1).toNat = l2 + l3 + j + 1 by omega, show ((l2 : ℤ) + l3 - j).toNat = l2 + l3 + j + 1 - (2 * j + 1) by omega]
    exact rJ
  have rC : (fact ((j : ℤ) + l2 - l3) : ℝ) * fact ((j : ℤ) - l2 + l3) ≤ fact ((j : ℤ) + j) := by
    unfold fact
    have := Nat.factorial_mul_factorial_dvd_factorial_add ((j : ℤ) + l2 - l3).toNat ((j : ℤ) - l2 + l3).toNat
    have := Nat.le_of_dvd (Nat.factorial_pos _) this
    rw [show ((j : ℤ) + l2 - l3).toNat + ((j : ℤ) - l2 + l3).toNat = ((j : ℤ) + j).toNat by omega] at this
    exact_mod_cast this
  have hw : (wcol l2 l3 m2 m3 j) ^ 2 = wt l2 l3 j j * kap l2 l3 m2 m3 * (invFact (l3 + m3) * invFact (j + l3 - l2) * invFact (l2 + m2) *
      invFact (j + l2 - l3)) ^ 2 := by
    unfold wcol
    rw [wigner3j_eq, ← hj]
    have := rsum_edge l2 l3 m2 m3
    rw [← hj] at this
    rw [this, mul_pow, mul_pow, mul_pow, mul_pow, neg_one_sq, neg_one_sq, Real.sq_sqrt (wt_pos _ _ _ _).le, Real.sq_sqrt (kap_pos _ _ _ _).le]
    ring
  rw [hw]
  unfold wt kap
  rw [show (j : ℤ) + l3 - l2 = j - l2 + l3 by ring] at *
  rw [show (j : ℤ) - j = 0 by ring, show (fact 0 : ℝ) = 1 by simp [fact]]
  have hexp : X ^ (2 * j + 1) * X ^ (2 * m2.toNat) * X ^ (2 * m3.toNat) ≤ X ^ (2 * (m2.natAbs + m3.natAbs) + 1) := by
    rw [← pow_add, ← pow_add]
    exact pow_le_pow_right₀ x1 (by omega)
  have p1 := fact_pos (l2 + m2)
  have p2 := fact_pos (l2 - m2)
  have p3 := fact_pos (l3 + m3)
  have p4 := fact_pos (l3 - m3)
  have p5 := fact_pos ((j : ℤ) + l2 - l3)
  have p6 := fact_pos ((j : ℤ) - l2 + l3)
  have p7 := fact_pos ((l2 : ℤ) + l3 + j + 1)
  have p8 := fact_pos ((l2 : ℤ) + l3 - j)
  have p9 := fact_pos ((j : ℤ) + j)
  have q1 : 0 < X ^ (2 * j + 1) := by positivity
  have q2 : 0 < X ^ (2 * m2.toNat) := by positivity
  have q3 : 0 < X ^ (2 * m3.toNat) := by positivity
  clear hw rJ
  generalize X ^ (2 * j + 1) = X1 at *
  generalize X ^ (2 * m2.toNat) = X2 at *
  generalize X ^ (2 * m3.toNat) = X3 at *
  generalize X ^ (2 * (m2.natAbs + m3.natAbs) + 1) = XX at *
  generalize (fact (l2 + m2) : ℝ) = a at *
  generalize (fact (l2 - m2) : ℝ) = b at *
  generalize (fact (l3 + m3) : ℝ) = c at *
  generalize (fact (l3 - m3) : ℝ) = d at *
  generalize (fact ((j : ℤ) + l2 - l3) : ℝ) = e at *
  generalize (fact ((j : ℤ) - l2 + l3) : ℝ) = f at *
  generalize (fact ((l2 : ℤ) + l3 + j + 1) : ℝ) = J at *
  generalize (fact ((l2 : ℤ) + l3 - j) : ℝ) = g at *
  generalize (fact ((j : ℤ) + j) : ℝ) = h at *
  generalize invFact (l2 + m2) = a' at *
  generalize invFact (l3 + m3) = c' at *
  generalize invFact ((j : ℤ) + l2 - l3) = e' at *
  generalize invFact ((j : ℤ) - l2 + l3) = f' at *
  obtain rfl : a' = 1 / a := by field_simp; linarith
  obtain rfl : c' = 1 / c := by field_simp; linarith
  obtain rfl : e' = 1 / e := by field_simp; linarith
  obtain rfl : f' = 1 / f := by field_simp; linarith
  rw [show XX * (g * e * f * h * 1 / J * (a * b * c * d) * (1 / c * (1 / f) * (1 / a) * (1 / e)) ^ 2) =
    XX * (g * h * b * d) / (J * (e * f) * a * c) by field_simp, le_div_iff₀ (by positivity), one_mul]
  calc J * (e * f) * a * c ≤ (X1 * g) * h * (X2 * b) * (X3 * d) := by
        apply mul_le_mul _ r3 p3.le (by positivity)
        apply mul_le_mul _ r2 p1.le (by positivity)
        exact mul_le_mul rJ' rC (by positivity) (by positivity)
    _ = (X1 * X2 * X3) * (g * h * b * d) := by ring
    _ ≤ _ := mul_le_mul_of_nonneg_right hexp (by positivity)

end NaMaster.WignerSpec
