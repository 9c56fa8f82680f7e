import Verif.Wigner.Spec
import Mathlib.Algebra.BigOperators.Finprod
import Mathlib.Tactic.LinearCombination

/-!
# Sums of Racah's formula

Three-term relations of the sums of Racah's formula in `l1` and in `m2`, by telescoping.
-/

namespace NaMaster.WignerSpec

open Finset

theorem invFact_neg {n : ℤ} (h : n < 0) : invFact n = 0 := by unfold invFact; rw [if_pos h]

theorem invFact_succ (n : ℤ) : invFact n = ((n : ℝ) + 1) * invFact (n + 1) := by
  unfold invFact fact
  by_cases h : n < 0
  · rw [if_pos h]
    by_cases h' : n + 1 < 0
    · rw [if_pos h']; simp
    · have : n = -1 := by omega
      subst this; norm_num
  · rw [if_neg h, if_neg (by omega)]
    obtain ⟨k, rfl⟩ := Int.eq_ofNat_of_zero_le (not_lt.mp h)
    have e : ((k : ℤ) + 1).toNat = k + 1 := by omega
    rw [e]
    simp only [Int.toNat_natCast, Nat.factorial_succ]
    have h0 : ((k.factorial : ℕ) : ℝ) ≠ 0 := by exact_mod_cast k.factorial_ne_zero
    have h1 : ((k : ℝ) + 1) ≠ 0 := by positivity
    push_cast
    field_simp

theorem invFact_pred (n : ℤ) : invFact (n - 1) = (n : ℝ) * invFact n := by
  have h := invFact_succ (n - 1)
  rw [sub_add_cancel] at h
  rw [h]; push_cast; ring

/-- Summand of Racah's formula with the columns in the order `l2 l3 j`. -/
noncomputable def rterm (l2 l3 j m2 m3 t : ℤ) : ℝ :=
  (-1) ^ t * (invFact t * invFact (t + j - l3 + m2) * invFact (t + j - l2 - m3) *
    invFact (l2 + l3 - j - t) * invFact (l2 - m2 - t) * invFact (l3 + m3 - t))

/-- Sum of Racah's formula with the columns in the order `l2 l3 j`. -/
noncomputable def rsum (l2 l3 j m2 m3 : ℤ) : ℝ := ∑ᶠ t : ℤ, rterm l2 l3 j m2 m3 t

theorem finite_of_Icc {f : ℤ → ℝ} (a b : ℤ) (h1 : ∀ t, t < a → f t = 0) (h2 : ∀ t, b < t → f t = 0) :
    (Function.support f).Finite := by
  apply (Set.finite_Icc a b).subset
  intro t ht
  rw [Function.mem_support] at ht
  constructor
  · by_contra h; exact ht (h1 t (not_le.mp h))
  · by_contra h; exact ht (h2 t (not_le.mp h))

theorem rterm_finite (l2 l3 j m2 m3 : ℤ) : (Function.support (rterm l2 l3 j m2 m3)).Finite := by
  apply finite_of_Icc 0 (l2 + l3 - j)
  · intro t ht; unfold rterm; rw [invFact_neg ht]; ring
  · intro t ht; unfold rterm; rw [invFact_neg (n := l2 + l3 - j - t) (by omega)]; ring

theorem finsum_telescope (G : ℤ → ℝ) (h : (Function.support G).Finite) : ∑ᶠ t : ℤ, (G (t + 1) - G t) = 0 := by
  have h1 : (Function.support fun t => G (t + 1)).Finite := by
    have : (Function.support fun t => G (t + 1)) = (fun t => t + 1) ⁻¹' Function.support G := by
      ext t; simp [Function.mem_support]
    rw [this]
    exact h.preimage (fun a _ b _ e => by simpa using e)
  rw [finsum_sub_distrib h1 h]
  have := finsum_comp_equiv (Equiv.addRight (1 : ℤ)) (f := G)
  simp only [Equiv.coe_addRight] at this
  rw [this, sub_self]

/-- A linear combination of three summands that telescopes sums to zero. -/
theorem rsum_three {l2 l3 j m2 m3 j' m2' m3' j'' m2'' m3'' : ℤ} (a b c : ℝ) (G : ℤ → ℝ)
    (hG : (Function.support G).Finite)
    (h : ∀ t, a * rterm l2 l3 j m2 m3 t + b * rterm l2 l3 j' m2' m3' t + c * rterm l2 l3 j'' m2'' m3'' t =
      G (t + 1) - G t) :
    a * rsum l2 l3 j m2 m3 + b * rsum l2 l3 j' m2' m3' + c * rsum l2 l3 j'' m2'' m3'' = 0 := by
  have s : ∀ (c : ℝ) (f : ℤ → ℝ), (Function.support f).Finite → (Function.support fun t => c * f t).Finite := by
    intro c f hf
    apply hf.subset
    intro t ht
    rw [Function.mem_support] at ht ⊢
    intro e; exact ht (by rw [e, mul_zero])
  have h1 := s a _ (rterm_finite l2 l3 j m2 m3)
  have h2 := s b _ (rterm_finite l2 l3 j' m2' m3')
  have h3 := s c _ (rterm_finite l2 l3 j'' m2'' m3'')
  rw [← finsum_telescope G hG, ← finsum_congr h]
  have h12 : (Function.support fun t => a * rterm l2 l3 j m2 m3 t + b * rterm l2 l3 j' m2' m3' t).Finite :=
    (h1.union h2).subset (Function.support_add _ _)
  rw [finsum_add_distrib h12 h3, finsum_add_distrib h1 h2]
  unfold rsum
  rw [mul_finsum, mul_finsum, mul_finsum]

/-- The function that telescopes for the relation in `j`. -/
noncomputable def certJ (l2 l3 j m2 m3 t : ℤ) : ℝ :=
  (-1) ^ t * (-(j + 1) * (l2 + l3 + 1 + j) * (l2 + m2 + 1) * (l3 - m3 + 1) +
    (-(j + 1) * (l2 + l3 + 1 + j) * (l3 - m3 + 1) + j * (j + 1 - (l2 - l3)) * (j + 1 - m2 - m3)) * (t - (l2 + l3 - j + 1)) -
    (j + 1) * (l2 + l3 + 1 - j) * (t - (l2 + l3 - j + 1)) * (t - (l2 + l3 - j + 1) + (l2 + m2 + 1))) *
  (invFact (t - 1) * invFact (t + j - l3 + m2) * invFact (t + j - l2 - m3) *
    invFact (l2 + l3 - j - t + 1) * invFact (l2 - m2 - t) * invFact (l3 + m3 - t))

theorem certJ_finite (l2 l3 j m2 m3 : ℤ) : (Function.support (certJ l2 l3 j m2 m3)).Finite := by
  apply finite_of_Icc 1 (l2 + l3 - j + 1)
  · intro t ht; unfold certJ; rw [invFact_neg (n := t - 1) (by omega)]; ring
  · intro t ht; unfold certJ; rw [invFact_neg (n := l2 + l3 - j - t + 1) (by omega)]; ring

/-- Relation of the sums for `j-1`, `j` and `j+1`. -/
theorem rsum_rec_j (l2 l3 j m2 m3 : ℤ) :
    ((j * (((j + 1) ^ 2 - (l2 - l3) ^ 2) * ((j + 1) ^ 2 - (m2 + m3) ^ 2)) : ℤ) : ℝ) * rsum l2 l3 (j + 1) m2 m3 +
    (((2 * j + 1) * ((l3 * (l3 + 1) - l2 * (l2 + 1)) * (-m2 - m3) + j * (j + 1) * (m3 - m2)) : ℤ) : ℝ) * rsum l2 l3 j m2 m3 +
    (((j + 1) * ((l2 + l3 + 1) ^ 2 - j ^ 2) : ℤ) : ℝ) * rsum l2 l3 (j - 1) m2 m3 = 0 := by
  apply rsum_three _ _ _ (certJ l2 l3 j m2 m3) (certJ_finite _ _ _ _ _)
  intro t
  unfold rterm certJ
  have e1 : t + (j + 1) - l3 + m2 = (t + j - l3 + m2) + 1 := by ring
  have e2 : t + (j + 1) - l2 - m3 = (t + j - l2 - m3) + 1 := by ring
  have e3 : l2 + l3 - (j + 1) - t = (l2 + l3 - j - t) - 1 := by ring
  have e4 : t + (j - 1) - l3 + m2 = (t + j - l3 + m2) - 1 := by ring
  have e5 : t + (j - 1) - l2 - m3 = (t + j - l2 - m3) - 1 := by ring
  have e6 : l2 + l3 - (j - 1) - t = (l2 + l3 - j - t) + 1 := by ring
  have e7 : t + 1 + j - l3 + m2 = (t + j - l3 + m2) + 1 := by ring
  have e8 : t + 1 + j - l2 - m3 = (t + j - l2 - m3) + 1 := by ring
  have e9 : l2 + l3 - j - (t + 1) + 1 = l2 + l3 - j - t := by ring
  have e10 : l2 - m2 - (t + 1) = (l2 - m2 - t) - 1 := by ring
  have e11 : l3 + m3 - (t + 1) = (l3 + m3 - t) - 1 := by ring
  have e12 : t + 1 - 1 = t := by ring
  rw [e1, e2, e3, e4, e5, e6, e7, e8, e9, e10, e11, e12]
  rw [invFact_pred (l2 + l3 - j - t), invFact_pred (t + j - l3 + m2), invFact_pred (t + j - l2 - m3), invFact_pred t,
    invFact_pred (l2 - m2 - t), invFact_pred (l3 + m3 - t), invFact_succ (t + j - l3 + m2), invFact_succ (t + j - l2 - m3),
    invFact_succ (l2 + l3 - j - t)]
  generalize invFact t = i1
  generalize invFact (t + j - l3 + m2 + 1) = i2
  generalize invFact (t + j - l2 - m3 + 1) = i3
  generalize invFact (l2 + l3 - j - t + 1) = i4
  generalize invFact (l2 - m2 - t) = i5
  generalize invFact (l3 + m3 - t) = i6
  rw [zpow_add_one₀ (by norm_num : (-1 : ℝ) ≠ 0)]
  generalize ((-1 : ℝ) ^ t) = s
  push_cast
  generalize (t : ℝ) = t
  generalize (j : ℝ) = j
  generalize (l2 : ℝ) = l2
  generalize (l3 : ℝ) = l3
  generalize (m2 : ℝ) = m2
  generalize (m3 : ℝ) = m3
  ring

/-- The function that telescopes for the relation in `m2`. -/
noncomputable def certM (l2 l3 j m2 m3 t : ℤ) : ℝ :=
  (-1) ^ t * (-(l3 + m3 + 1) * (l2 - l3 + j + 1) * (j + 1 - m2 - m3) +
    (-2 * (j + 1) * (l3 + m3 + 1) + (j + 1 + m2 + m3) * (j + 1 - (l2 - l3))) * (t - (l2 - m2 + 1)) -
    (l2 + l3 + 1 - j) * (t - (l2 - m2 + 1)) * (t - (l3 + m3 + 1))) *
  (invFact (t - 1) * invFact (t + j - l3 + m2) * invFact (t + j - l2 - m3) *
    invFact (l2 + l3 - j - t) * invFact (l2 - m2 - t + 1) * invFact (l3 + m3 - t + 1))

theorem certM_finite (l2 l3 j m2 m3 : ℤ) : (Function.support (certM l2 l3 j m2 m3)).Finite := by
  apply finite_of_Icc 1 (l2 + l3 - j)
  · intro t ht; unfold certM; rw [invFact_neg (n := t - 1) (by omega)]; ring
  · intro t ht; unfold certM; rw [invFact_neg (n := l2 + l3 - j - t) (by omega)]; ring

/-- Relation of the sums for `m2-1`, `m2` and `m2+1`. -/
theorem rsum_rec_m (l2 l3 j m2 m3 : ℤ) :
    (((l2 + m2 + 1) * (l3 - m3 + 1) : ℤ) : ℝ) * rsum l2 l3 j (m2 + 1) (m3 - 1) +
    (-(j * (j + 1) - l2 * (l2 + 1) - l3 * (l3 + 1) - 2 * m2 * m3 : ℤ) : ℝ) * rsum l2 l3 j m2 m3 +
    (((l2 - m2 + 1) * (l3 + m3 + 1) : ℤ) : ℝ) * rsum l2 l3 j (m2 - 1) (m3 + 1) = 0 := by
  apply rsum_three _ _ _ (certM l2 l3 j m2 m3) (certM_finite _ _ _ _ _)
  intro t
  unfold rterm certM
  have e1 : t + j - l3 + (m2 + 1) = (t + j - l3 + m2) + 1 := by ring
  have e2 : t + j - l2 - (m3 - 1) = (t + j - l2 - m3) + 1 := by ring
  have e3 : l2 - (m2 + 1) - t = (l2 - m2 - t) - 1 := by ring
  have e3' : l3 + (m3 - 1) - t = (l3 + m3 - t) - 1 := by ring
  have e4 : t + j - l3 + (m2 - 1) = (t + j - l3 + m2) - 1 := by ring
  have e5 : t + j - l2 - (m3 + 1) = (t + j - l2 - m3) - 1 := by ring
  have e6 : l2 - (m2 - 1) - t = (l2 - m2 - t) + 1 := by ring
  have e6' : l3 + (m3 + 1) - t = (l3 + m3 - t) + 1 := by ring
  have e7 : t + 1 + j - l3 + m2 = (t + j - l3 + m2) + 1 := by ring
  have e8 : t + 1 + j - l2 - m3 = (t + j - l2 - m3) + 1 := by ring
  have e9 : l2 + l3 - j - (t + 1) = (l2 + l3 - j - t) - 1 := by ring
  have e10 : l2 - m2 - (t + 1) + 1 = l2 - m2 - t := by ring
  have e11 : l3 + m3 - (t + 1) + 1 = l3 + m3 - t := by ring
  have e12 : t + 1 - 1 = t := by ring
  rw [e1, e2, e3, e3', e4, e5, e6, e6', e7, e8, e9, e10, e11, e12]
  rw [invFact_pred (l2 + l3 - j - t), invFact_pred (t + j - l3 + m2), invFact_pred (t + j - l2 - m3), invFact_pred t,
    invFact_pred (l2 - m2 - t), invFact_pred (l3 + m3 - t), invFact_succ (t + j - l3 + m2), invFact_succ (t + j - l2 - m3),
    invFact_succ (l2 - m2 - t), invFact_succ (l3 + m3 - t)]
  generalize invFact t = i1
  generalize invFact (t + j - l3 + m2 + 1) = i2
  generalize invFact (t + j - l2 - m3 + 1) = i3
  generalize invFact (l2 + l3 - j - t) = i4
  generalize invFact (l2 - m2 - t + 1) = i5
  generalize invFact (l3 + m3 - t + 1) = i6
  rw [zpow_add_one₀ (by norm_num : (-1 : ℝ) ≠ 0)]
  generalize ((-1 : ℝ) ^ t) = s
  push_cast
  generalize (t : ℝ) = t
  generalize (j : ℝ) = j
  generalize (l2 : ℝ) = l2
  generalize (l3 : ℝ) = l3
  generalize (m2 : ℝ) = m2
  generalize (m3 : ℝ) = m3
  ring

/-- The sum vanishes outside the triangle and below `|m1|`. -/
theorem rsum_zero {l2 l3 j m2 m3 : ℤ} (h : l2 + l3 < j ∨ j < l2 - l3 ∨ j < l3 - l2 ∨ j < m2 + m3 ∨ j < -m2 - m3) :
    rsum l2 l3 j m2 m3 = 0 := by
  unfold rsum
  rw [← finsum_zero (α := ℤ) (M := ℝ)]
  apply finsum_congr
  intro t
  unfold rterm
  rcases h with h | h | h | h | h
  · rcases lt_or_ge t 0 with h0 | h0
    · rw [invFact_neg h0]; ring
    · rw [invFact_neg (n := l2 + l3 - j - t) (by omega)]; ring
  · rcases lt_or_ge (t + j - l2 - m3) 0 with h0 | h0
    · rw [invFact_neg h0]; ring
    · rw [invFact_neg (n := l3 + m3 - t) (by omega)]; ring
  · rcases lt_or_ge (t + j - l3 + m2) 0 with h0 | h0
    · rw [invFact_neg h0]; ring
    · rw [invFact_neg (n := l2 - m2 - t) (by omega)]; ring
  · rcases lt_or_ge (t + j - l2 - m3) 0 with h0 | h0
    · rw [invFact_neg h0]; ring
    · rw [invFact_neg (n := l2 - m2 - t) (by omega)]; ring
  · rcases lt_or_ge (t + j - l3 + m2) 0 with h0 | h0
    · rw [invFact_neg h0]; ring
    · rw [invFact_neg (n := l3 + m3 - t) (by omega)]; ring

/-- The sum at the largest `j` has one term. -/
theorem rsum_top (l2 l3 m2 m3 : ℤ) :
    rsum l2 l3 (l2 + l3) m2 m3 = invFact (l2 + m2) * invFact (l2 - m2) * invFact (l3 + m3) * invFact (l3 - m3) := by
  unfold rsum
  rw [finsum_eq_single _ 0]
  · unfold rterm
    have e : invFact 0 = 1 := by simp [invFact, fact]
    have e1 : (0 : ℤ) + (l2 + l3) - l3 + m2 = l2 + m2 := by ring
    have e2 : (0 : ℤ) + (l2 + l3) - l2 - m3 = l3 - m3 := by ring
    have e3 : l2 + l3 - (l2 + l3) - (0 : ℤ) = 0 := by ring
    rw [e1, e2, e3, sub_zero, sub_zero, e]; simp; ring
  · intro t ht
    unfold rterm
    rcases lt_or_ge t 0 with h0 | h0
    · rw [invFact_neg h0]; ring
    · rw [invFact_neg (n := l2 + l3 - (l2 + l3) - t) (by omega)]; ring

/-- The sum for `j = 0`. -/
theorem rsum_zero_j (l m : ℤ) : rsum l l 0 m (-m) = (-1) ^ (l - m) * (invFact (l - m) * invFact (l + m)) := by
  have e : invFact 0 = 1 := by simp [invFact, fact]
  unfold rsum
  rw [finsum_eq_single _ (l - m)]
  · unfold rterm
    have e1 : l - m + 0 - l + m = 0 := by ring
    have e2 : l - m + 0 - l - -m = 0 := by ring
    have e3 : l + l - 0 - (l - m) = l + m := by ring
    have e4 : l - m - (l - m) = 0 := by ring
    have e5 : l + -m - (l - m) = 0 := by ring
    rw [e1, e2, e3, e4, e5, e]; ring
  · intro t ht
    unfold rterm
    rcases lt_or_ge (t + 0 - l + m) 0 with h0 | h0
    · rw [invFact_neg h0]; ring
    · rw [invFact_neg (n := l - m - t) (by omega)]; ring

/-- The sum for `j = 1`, `m1 = 0`, `l2 = l3`. -/
theorem rsum_one_j (l m : ℤ) :
    rsum l l 1 m (-m) = (-1) ^ (l - m) * (2 * m * (invFact (l - m) * invFact (l + m))) := by
  have e : invFact 0 = 1 := by simp [invFact, fact]
  have e' : invFact 1 = 1 := by simp [invFact, fact]
  unfold rsum
  rw [finsum_eq_sum_of_support_subset (s := {l - m - 1, l - m})]
  · rw [sum_pair (by omega)]
    unfold rterm
    have e1 : l - m + 1 - l + m = 1 := by ring
    have e2 : l - m + 1 - l - -m = 1 := by ring
    have e3 : l + l - 1 - (l - m) = (l + m) - 1 := by ring
    have e4 : l - m - (l - m) = 0 := by ring
    have e5 : l + -m - (l - m) = 0 := by ring
    have f1 : l - m - 1 + 1 - l + m = 0 := by ring
    have f2 : l - m - 1 + 1 - l - -m = 0 := by ring
    have f3 : l + l - 1 - (l - m - 1) = l + m := by ring
    have f4 : l - m - (l - m - 1) = 1 := by ring
    have f5 : l + -m - (l - m - 1) = 1 := by ring
    rw [e1, e2, e3, e4, e5, f1, f2, f3, f4, f5, e, e', invFact_pred (l - m), invFact_pred (l + m),
      zpow_sub_one₀ (by norm_num : (-1 : ℝ) ≠ 0)]
    push_cast
    norm_num
    ring
  · intro t ht
    rw [Function.mem_support] at ht
    simp only [coe_insert, coe_singleton, Set.mem_insert_iff, Set.mem_singleton_iff]
    by_contra h
    apply ht
    unfold rterm
    rcases lt_or_ge (t + 1 - l + m) 0 with h0 | h0
    · rw [invFact_neg h0]; ring
    · rw [invFact_neg (n := l - m - t) (by omega)]; ring

/-- The sum vanishes above the allowed `m2`, `m3`. -/
theorem rsum_zero_m {l2 l3 j m2 m3 : ℤ} (h : l2 < m2 ∨ m2 < -l2 ∨ l3 < m3 ∨ m3 < -l3) : rsum l2 l3 j m2 m3 = 0 := by
  unfold rsum
  rw [← finsum_zero (α := ℤ) (M := ℝ)]
  apply finsum_congr
  intro t
  unfold rterm
  rcases h with h | h | h | h
  · rcases lt_or_ge t 0 with h0 | h0
    · rw [invFact_neg h0]; ring
    · rw [invFact_neg (n := l2 - m2 - t) (by omega)]; ring
  · rcases lt_or_ge (t + j - l3 + m2) 0 with h0 | h0
    · rw [invFact_neg h0]; ring
    · rw [invFact_neg (n := l2 + l3 - j - t) (by omega)]; ring
  · rcases lt_or_ge (t + j - l2 - m3) 0 with h0 | h0
    · rw [invFact_neg h0]; ring
    · rw [invFact_neg (n := l2 + l3 - j - t) (by omega)]; ring
  · rcases lt_or_ge t 0 with h0 | h0
    · rw [invFact_neg h0]; ring
    · rw [invFact_neg (n := l3 + m3 - t) (by omega)]; ring

end NaMaster.WignerSpec
