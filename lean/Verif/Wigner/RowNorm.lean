import Verif.Wigner.SumRules
import Mathlib.LinearAlgebra.Matrix.NonsingularInverse
import Mathlib.Data.Int.Interval

/-! # Normalisation of the Wigner 3j symbols in the lower row -/

namespace NaMaster

open WignerSpec Finset

/-- Sum over the integers from `-l` to `l`. -/
theorem sum_Icc_range {M : Type*} [AddCommMonoid M] (l : ℕ) (f : ℤ → M) :
    ∑ m ∈ Icc (-(l : ℤ)) l, f m = ∑ k ∈ range (2 * l + 1), f (-l + k) := by
  symm
  apply sum_bij (fun (k : ℕ) _ => (-(l : ℤ) + k))
  · intro k hk; rw [mem_range] at hk; rw [mem_Icc]; omega
  · intro a _ b _ h; omega
  · intro m hm
    rw [mem_Icc] at hm
    exact ⟨(m + l).toNat, by rw [mem_range]; omega, by omega⟩
  · intro _ _; rfl

section

variable (l2 l3 : ℕ) (n : ℤ)

/-- The values of `m2` that are allowed for some `j`. -/
noncomputable def rowSet : Finset ℤ := Icc (max (-(l2 : ℤ)) (n - l3)) (min (l2 : ℤ) (n + l3))

/-- The values of `j` that are allowed for some `m2`. -/
def colSet : Finset ℕ := Icc (max (max (l2 - l3) (l3 - l2)) n.natAbs) (l2 + l3)

theorem card_sets : Fintype.card (rowSet l2 l3 n) = Fintype.card (colSet l2 l3 n) := by
  rw [Fintype.card_coe, Fintype.card_coe]
  unfold rowSet colSet
  rw [Int.card_Icc, Nat.card_Icc]
  omega

theorem wrow_outside_col {j : ℕ} (h : j ∉ colSet l2 l3 n) (m : ℤ) : wrow l2 l3 j n m = 0 := by
  apply wcol_zero
  unfold colSet at h
  rw [mem_Icc] at h
  unfold Allowed
  simp only [abs_le]
  omega

theorem wrow_outside_row {m : ℤ} (h : m ∉ rowSet l2 l3 n) (j : ℕ) : wrow l2 l3 j n m = 0 := by
  apply wrow_zero
  unfold rowSet at h
  rw [mem_Icc] at h
  omega

/-- The symbols as a matrix with as many rows as columns. -/
noncomputable def rowMat : Matrix (rowSet l2 l3 n) (colSet l2 l3 n) ℝ :=
  fun m j => Real.sqrt (2 * (j : ℕ) + 1) * wrow l2 l3 j n m

theorem rowMat_mul : rowMat l2 l3 n * (rowMat l2 l3 n).transpose = 1 := by
  ext ⟨m, hm⟩ ⟨m', hm'⟩
  rw [Matrix.mul_apply, Matrix.one_apply]
  have hs : ∀ j : colSet l2 l3 n, rowMat l2 l3 n ⟨m, hm⟩ j * (rowMat l2 l3 n).transpose j ⟨m', hm'⟩ =
      (2 * ((j : ℕ) : ℝ) + 1) * (wrow l2 l3 j n m * wrow l2 l3 j n m') := by
    intro j
    unfold rowMat Matrix.transpose
    simp only [Matrix.of_apply]
    rw [mul_mul_mul_comm, Real.mul_self_sqrt (by positivity)]
  rw [sum_congr rfl (fun j _ => hs j), sum_coe_sort (colSet l2 l3 n) (fun j : ℕ => (2 * (j : ℝ) + 1) * (wrow l2 l3 j n m * wrow l2 l3 j n m')),
    sum_subset (s₂ := range (l2 + l3 + 1))]
  · unfold rowSet at hm hm'
    rw [mem_Icc] at hm hm'
    by_cases h : m = m'
    · subst h
      rw [if_pos rfl]
      have := wcol_norm l2 l3 m (n - m) (by rw [abs_le]; omega) (by rw [abs_le]; omega)
      refine Eq.trans ?_ this
      apply sum_congr rfl
      intro j _
      unfold wrow
      rw [sq]
    · rw [if_neg (fun e => h (congrArg Subtype.val e))]
      exact wcol_orthogonal l2 l3 n m m' h (by rw [abs_le]; omega) (by rw [abs_le]; omega)
  · intro j hj
    unfold colSet at hj
    rw [mem_Icc] at hj
    rw [mem_range]; omega
  · intro j _ hj
    rw [wrow_outside_col l2 l3 n hj]
    ring

theorem rowMat_mul' : (rowMat l2 l3 n).transpose * rowMat l2 l3 n = 1 :=
  (Matrix.mul_eq_one_comm_of_card_eq _ _ _ (card_sets l2 l3 n)).mp (rowMat_mul l2 l3 n)

end

/-- The squares of the symbols sum to `1/(2j+1)` over the lower row. -/
theorem wrow_norm (l2 l3 j : ℕ) (n : ℤ) (hj : CouplingSpec.Triangle j l2 l3) (hn : |n| ≤ j) :
    ∑ k ∈ range (2 * l2 + 1), wrow l2 l3 j n (-l2 + k) * wrow l2 l3 j n (-l2 + k) = 1 / (2 * j + 1) := by
  have hm : j ∈ colSet l2 l3 n := by
    unfold colSet
    unfold CouplingSpec.Triangle at hj
    rw [abs_le] at hn
    rw [mem_Icc]
    omega
  have h := congrFun (congrFun (rowMat_mul' l2 l3 n) ⟨j, hm⟩) ⟨j, hm⟩
  rw [Matrix.mul_apply, Matrix.one_apply_eq] at h
  have hs : ∀ m : rowSet l2 l3 n, (rowMat l2 l3 n).transpose ⟨j, hm⟩ m * rowMat l2 l3 n m ⟨j, hm⟩ =
      (2 * (j : ℝ) + 1) * (wrow l2 l3 j n m * wrow l2 l3 j n m) := by
    intro m
    unfold rowMat Matrix.transpose
    simp only [Matrix.of_apply]
    rw [mul_mul_mul_comm, Real.mul_self_sqrt (by positivity)]
  rw [sum_congr rfl (fun m _ => hs m), sum_coe_sort (rowSet l2 l3 n) (fun m : ℤ => (2 * (j : ℝ) + 1) * (wrow l2 l3 j n m * wrow l2 l3 j n m)),
    sum_subset (s₂ := Icc (-(l2 : ℤ)) l2), sum_Icc_range, ← mul_sum] at h
  · have hp : (2 * (j : ℝ) + 1) ≠ 0 := by positivity
    rw [eq_div_iff hp, mul_comm]
    exact h
  · intro m hm
    unfold rowSet at hm
    rw [mem_Icc] at hm ⊢
    omega
  · intro m _ hm
    rw [wrow_outside_row l2 l3 n hm]
    ring

/-- Both rules at once, in terms of the symbols. -/
theorem wigner3j_row (l2 l3 j j' : ℕ) (n n' : ℤ) :
    ∑ m2 ∈ Icc (-(l2 : ℤ)) l2, ∑ m3 ∈ Icc (-(l3 : ℤ)) l3, wigner3j j l2 l3 n m2 m3 * wigner3j j' l2 l3 n' m2 m3 =
      if j = j' ∧ n = n' ∧ CouplingSpec.Triangle j l2 l3 ∧ |n| ≤ j then 1 / (2 * (j : ℝ) + 1) else 0 := by
  by_cases hn : n = n'
  swap
  · rw [if_neg (by tauto)]
    apply sum_eq_zero; intro m2 _
    apply sum_eq_zero; intro m3 _
    by_cases h : n + m2 + m3 = 0
    · rw [wigner3j_sum_ne (m1 := n') (by omega), mul_zero]
    · rw [wigner3j_sum_ne (m1 := n) h, zero_mul]
  subst hn
  have hrow : ∀ m2 ∈ Icc (-(l2 : ℤ)) l2, ∑ m3 ∈ Icc (-(l3 : ℤ)) l3, wigner3j j l2 l3 n m2 m3 * wigner3j j' l2 l3 n m2 m3 =
      wrow l2 l3 j (-n) m2 * wrow l2 l3 j' (-n) m2 := by
    intro m2 _
    have e : ∀ i, wrow l2 l3 i (-n) m2 = wigner3j i l2 l3 n m2 (-n - m2) := by
      intro i; unfold wrow wcol; congr 1; ring
    rw [e, e]
    by_cases hb : -n - m2 ∈ Icc (-(l3 : ℤ)) l3
    · apply sum_eq_single_of_mem _ hb
      intro m3 _ h
      rw [wigner3j_sum_ne (by omega), zero_mul]
    · rw [wigner3j_not_allowed (l1 := j) (m3 := -n - m2), zero_mul]
      · apply sum_eq_zero
        intro m3 hm3
        rw [wigner3j_sum_ne, zero_mul]
        intro h
        exact hb (by rwa [show -n - m2 = m3 by omega])
      · rw [mem_Icc] at hb
        unfold Allowed
        simp only [abs_le]
        tauto
  rw [sum_congr rfl hrow, sum_Icc_range]
  by_cases hj : j = j'
  · subst hj
    by_cases h : CouplingSpec.Triangle j l2 l3 ∧ |n| ≤ j
    · rw [if_pos ⟨rfl, rfl, h⟩]
      exact wrow_norm l2 l3 j (-n) h.1 (by rw [abs_neg]; exact h.2)
    · rw [if_neg (by tauto)]
      apply sum_eq_zero
      intro k _
      rw [show wrow l2 l3 j (-n) (-l2 + k) = 0 from wcol_zero (by
        unfold Allowed
        unfold CouplingSpec.Triangle at h
        rw [abs_le] at h
        simp only [abs_le]
        omega), zero_mul]
  · rw [if_neg (by tauto)]
    exact wrow_orthogonal l2 l3 j j' (-n) hj

end NaMaster
