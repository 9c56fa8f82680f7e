import Verif.Field.Model
import Mathlib.Analysis.Matrix.Spectrum
import Mathlib.Algebra.Order.Star.Real
import Mathlib.Tactic.Linarith
import Mathlib.Tactic.Positivity
import Mathlib.Tactic.Ring
import Mathlib.Tactic.FieldSimp
import Mathlib.Tactic.NormNum
import Mathlib.Algebra.BigOperators.Fin

/-!
# Properties of the pseudo-inverse of the template matrix
-/

namespace NaMaster

open Finset

/-! ## Specification -/

/-- The matrix is symmetric. -/
def SymmMat (n : ℕ) (M : ℕ → ℕ → ℝ) : Prop := ∀ i < n, ∀ j < n, M i j = M j i

/-- The matrix is positive semidefinite. -/
def PsdMat (n : ℕ) (M : ℕ → ℕ → ℝ) : Prop := ∀ x : ℕ → ℝ, 0 ≤ ∑ i ∈ range n, ∑ j ∈ range n, x i * M i j * x j

/-- Product of a matrix and a vector. -/
def mulVecN (n : ℕ) (M : ℕ → ℕ → ℝ) (x : ℕ → ℝ) (i : ℕ) : ℝ := ∑ j ∈ range n, M i j * x j

/-- `x` is an eigenvector with eigenvalue `lam`. -/
def EigenPair (n : ℕ) (M : ℕ → ℕ → ℝ) (lam : ℝ) (x : ℕ → ℝ) : Prop :=
  (∃ i < n, x i ≠ 0) ∧ ∀ i < n, mulVecN n M x i = lam * x i

/-- `top` is the largest eigenvalue. -/
def TopEigenvalue (n : ℕ) (M : ℕ → ℕ → ℝ) (top : ℝ) : Prop := IsGreatest {lam | ∃ x, EigenPair n M lam x} top

/-- The eigenvalue decomposition of symmetric matrices is exact: eigenvectors in the columns, orthonormal and complete. -/
def Eigen.Correct (E : Eigen) : Prop := ∀ n M, SymmMat n M →
  (∀ k < n, ∀ i < n, ∑ j ∈ range n, M i j * E.vecs n M j k = E.vals n M k * E.vecs n M i k) ∧
  (∀ k < n, ∀ l < n, ∑ i ∈ range n, E.vecs n M i k * E.vecs n M i l = if k = l then 1 else 0) ∧
  (∀ i < n, ∀ j < n, ∑ k ∈ range n, E.vecs n M i k * E.vecs n M j k = if i = j then 1 else 0)

/-! ## Lemmas -/

theorem le_maxUpTo (w : ℕ → ℝ) (n k : ℕ) (h : k ≤ n) : w k ≤ maxUpTo w n := by
  induction n with
  | zero => obtain rfl : k = 0 := by omega
            exact le_refl _
  | succ n ih =>
    unfold maxUpTo
    rcases Nat.lt_or_ge k (n + 1) with h' | h'
    · exact le_trans (ih (by omega)) (le_max_left _ _)
    · obtain rfl : k = n + 1 := by omega
      exact le_max_right _ _

theorem maxUpTo_mem (w : ℕ → ℝ) (n : ℕ) : ∃ k ≤ n, maxUpTo w n = w k := by
  induction n with
  | zero => exact ⟨0, le_refl _, rfl⟩
  | succ n ih =>
    obtain ⟨k, hk, he⟩ := ih
    unfold maxUpTo
    rcases max_cases (maxUpTo w n) (w (n + 1)) with h | h
    · exact ⟨k, by omega, by rw [h.1, he]⟩
    · exact ⟨n + 1, le_refl _, h.1⟩

section
variable {n : ℕ} {M : ℕ → ℕ → ℝ} {E : Eigen}

/-- Coefficient of a vector along an eigenvector. -/
def eigCoef (E : Eigen) (n : ℕ) (M : ℕ → ℕ → ℝ) (x : ℕ → ℝ) (k : ℕ) : ℝ := ∑ i ∈ range n, E.vecs n M i k * x i

theorem eig_expand (hE : E.Correct) (hs : SymmMat n M) (x : ℕ → ℝ) (i : ℕ) (hi : i < n) :
    x i = ∑ k ∈ range n, E.vecs n M i k * eigCoef E n M x k := by
  unfold eigCoef
  simp only [mul_sum]
  rw [sum_comm]
  have h : ∀ j ∈ range n, ∑ k ∈ range n, E.vecs n M i k * (E.vecs n M j k * x j) = (if i = j then 1 else 0) * x j := by
    intro j hj
    rw [← (hE n M hs).2.2 i hi j (mem_range.1 hj), sum_mul]
    exact sum_congr rfl fun k _ => by ring
  rw [sum_congr rfl h]
  simp only [ite_mul, one_mul, zero_mul]
  rw [sum_ite_eq, if_pos (mem_range.2 hi)]

theorem eigCoef_mul (hE : E.Correct) (hs : SymmMat n M) (x : ℕ → ℝ) (k : ℕ) (hk : k < n) :
    eigCoef E n M (mulVecN n M x) k = E.vals n M k * eigCoef E n M x k := by
  unfold eigCoef mulVecN
  simp only [mul_sum]
  rw [sum_comm]
  refine sum_congr rfl fun j hj => ?_
  rw [show ∑ i ∈ range n, E.vecs n M i k * (M i j * x j) = (∑ i ∈ range n, M j i * E.vecs n M i k) * x j by
    rw [sum_mul]
    exact sum_congr rfl fun i hi => by rw [hs j (mem_range.1 hj) i (mem_range.1 hi)]; ring]
  rw [(hE n M hs).1 k hk j (mem_range.1 hj)]
  ring

theorem mulVecN_congr {x y : ℕ → ℝ} (h : ∀ j < n, x j = y j) (i : ℕ) : mulVecN n M x i = mulVecN n M y i :=
  sum_congr rfl fun j hj => by rw [h j (mem_range.1 hj)]

theorem eigCoef_congr {x y : ℕ → ℝ} (h : ∀ j < n, x j = y j) (k : ℕ) : eigCoef E n M x k = eigCoef E n M y k :=
  sum_congr rfl fun j hj => by rw [h j (mem_range.1 hj)]

theorem eigCoef_smul (c : ℝ) (x : ℕ → ℝ) (k : ℕ) : eigCoef E n M (fun i => c * x i) k = c * eigCoef E n M x k := by
  unfold eigCoef; rw [mul_sum]; exact sum_congr rfl fun i _ => by ring

/-- An eigenvector only has components along columns with the same eigenvalue. -/
theorem eigCoef_zero (hE : E.Correct) (hs : SymmMat n M) {lam : ℝ} {x : ℕ → ℝ} (hx : EigenPair n M lam x) (k : ℕ)
    (hk : k < n) (hne : E.vals n M k ≠ lam) : eigCoef E n M x k = 0 := by
  have h1 := eigCoef_mul hE hs x k hk
  rw [eigCoef_congr (fun j hj => hx.2 j hj), eigCoef_smul] at h1
  have h2 : (E.vals n M k - lam) * eigCoef E n M x k = 0 := by linarith
  rcases mul_eq_zero.1 h2 with h | h
  · exact absurd (by linarith) hne
  · exact h

theorem column_pair (hE : E.Correct) (hs : SymmMat n M) (k : ℕ) (hk : k < n) :
    EigenPair n M (E.vals n M k) (fun i => E.vecs n M i k) := by
  refine ⟨?_, fun i hi => (hE n M hs).1 k hk i hi⟩
  by_contra h
  push Not at h
  have h1 := (hE n M hs).2.1 k hk k hk
  rw [if_pos rfl, sum_eq_zero (fun i hi => by rw [h i (mem_range.1 hi), zero_mul])] at h1
  exact zero_ne_one h1

theorem pair_is_column (hE : E.Correct) (hs : SymmMat n M) {lam : ℝ} {x : ℕ → ℝ} (hx : EigenPair n M lam x) :
    ∃ k < n, E.vals n M k = lam := by
  by_contra h
  push Not at h
  obtain ⟨i, hi, hne⟩ := hx.1
  apply hne
  rw [eig_expand hE hs x i hi]
  exact sum_eq_zero fun k hk => by rw [eigCoef_zero hE hs hx k (mem_range.1 hk) (h k (mem_range.1 hk)), mul_zero]

theorem maxUpTo_top (hE : E.Correct) (hs : SymmMat n M) (hn : 0 < n) {top : ℝ} (ht : TopEigenvalue n M top) :
    maxUpTo (E.vals n M) (n - 1) = top := by
  obtain ⟨k, hk, he⟩ := maxUpTo_mem (E.vals n M) (n - 1)
  apply le_antisymm
  · rw [he]
    exact ht.2 ⟨_, column_pair hE hs k (by omega)⟩
  · obtain ⟨x, hx⟩ := ht.1
    obtain ⟨k, hk, he⟩ := pair_is_column hE hs hx
    rw [← he]
    exact le_maxUpTo _ _ _ (by omega)

/-- The matrix is the sum of its eigenvalues times projections. -/
theorem spectral_sum (hE : E.Correct) (hs : SymmMat n M) (i j : ℕ) (hi : i < n) (hj : j < n) :
    M i j = ∑ k ∈ range n, E.vals n M k * E.vecs n M i k * E.vecs n M j k := by
  have h : ∀ k ∈ range n, E.vals n M k * E.vecs n M i k * E.vecs n M j k =
      ∑ l ∈ range n, M i l * (E.vecs n M l k * E.vecs n M j k) := by
    intro k hk
    rw [← (hE n M hs).1 k (mem_range.1 hk) i hi, sum_mul]
    exact sum_congr rfl fun l _ => by ring
  rw [sum_congr rfl h, sum_comm]
  have h2 : ∀ l ∈ range n, ∑ k ∈ range n, M i l * (E.vecs n M l k * E.vecs n M j k) = M i l * (if l = j then 1 else 0) := by
    intro l hl
    rw [← mul_sum, (hE n M hs).2.2 l (mem_range.1 hl) j hj]
  rw [sum_congr rfl h2]
  simp only [mul_ite, mul_one, mul_zero]
  rw [sum_ite_eq', if_pos (mem_range.2 hj)]

theorem vals_nonneg (hE : E.Correct) (hs : SymmMat n M) (hp : PsdMat n M) (k : ℕ) (hk : k < n) : 0 ≤ E.vals n M k := by
  have h := hp (fun i => E.vecs n M i k)
  have h2 : ∑ i ∈ range n, ∑ j ∈ range n, E.vecs n M i k * M i j * E.vecs n M j k =
      E.vals n M k * ∑ i ∈ range n, E.vecs n M i k * E.vecs n M i k := by
    rw [mul_sum]
    refine sum_congr rfl fun i hi => ?_
    rw [show ∑ j ∈ range n, E.vecs n M i k * M i j * E.vecs n M j k =
      E.vecs n M i k * ∑ j ∈ range n, M i j * E.vecs n M j k by rw [mul_sum]; exact sum_congr rfl fun j _ => by ring]
    rw [(hE n M hs).1 k hk i (mem_range.1 hi)]
    ring
  rw [h2, (hE n M hs).2.1 k hk k hk, if_pos rfl, mul_one] at h
  exact h

theorem top_pos (hE : E.Correct) (hs : SymmMat n M) (hp : PsdMat n M) (hne : ∃ i < n, ∃ j < n, M i j ≠ 0) {top : ℝ}
    (ht : TopEigenvalue n M top) : 0 < top := by
  obtain ⟨i, hi, j, hj, hM⟩ := hne
  have h : ∃ k < n, E.vals n M k ≠ 0 := by
    by_contra h
    push Not at h
    apply hM
    rw [spectral_sum hE hs i j hi hj]
    exact sum_eq_zero fun k hk => by rw [h k (mem_range.1 hk), zero_mul, zero_mul]
  obtain ⟨k, hk, h0⟩ := h
  exact lt_of_lt_of_le (lt_of_le_of_ne (vals_nonneg hE hs hp k hk) h0.symm) (ht.2 ⟨_, column_pair hE hs k hk⟩)

open Classical in
/-- The matrix built from the inverted eigenvalues. -/
noncomputable def spectralMat (E : Eigen) (n : ℕ) (M : ℕ → ℕ → ℝ) (g : ℕ → ℝ) : ℕ → ℕ → ℝ :=
  tab2 n n fun i j => ∑ k ∈ range n, E.vecs n M i k * (g k * E.vecs n M j k)

theorem spectralMat_mul (g : ℕ → ℝ) (x : ℕ → ℝ) (i : ℕ) (hi : i < n) :
    mulVecN n (spectralMat E n M g) x i = ∑ k ∈ range n, E.vecs n M i k * (g k * eigCoef E n M x k) := by
  unfold mulVecN spectralMat
  have h : ∀ j ∈ range n, tab2 n n (fun i j => ∑ k ∈ range n, E.vecs n M i k * (g k * E.vecs n M j k)) i j * x j =
      ∑ k ∈ range n, E.vecs n M i k * (g k * (E.vecs n M j k * x j)) := by
    intro j hj
    rw [tab2_of_lt _ hi (mem_range.1 hj), sum_mul]
    exact sum_congr rfl fun k _ => by ring
  rw [sum_congr rfl h, sum_comm]
  refine sum_congr rfl fun k _ => ?_
  unfold eigCoef
  rw [mul_sum, mul_sum]

/-- On an eigenvector the matrix acts with the value of its eigenvalue. -/
theorem spectralMat_pair (hE : E.Correct) (hs : SymmMat n M) (g : ℕ → ℝ) (gv : ℝ) {lam : ℝ} {x : ℕ → ℝ}
    (hx : EigenPair n M lam x) (hg : ∀ k < n, E.vals n M k = lam → g k = gv) (i : ℕ) (hi : i < n) :
    mulVecN n (spectralMat E n M g) x i = gv * x i := by
  rw [spectralMat_mul g x i hi, eig_expand hE hs x i hi, mul_sum]
  refine sum_congr rfl fun k hk => ?_
  by_cases h : E.vals n M k = lam
  · rw [hg k (mem_range.1 hk) h]; ring
  · rw [eigCoef_zero hE hs hx k (mem_range.1 hk) h]; ring

open Classical in
/-- Both pseudo-inverses as the matrix built from the inverted eigenvalues. -/
theorem pinv_eq (hE : E.Correct) (hs : SymmMat n M) (hp : PsdMat n M) (hne : ∃ i < n, ∃ j < n, M i j ≠ 0)
    (inv : ℕ → (ℕ → ℕ → ℝ) → Option (ℕ → ℕ → ℝ)) {tol top : ℝ} (h0 : 0 < tol) (ht : TopEigenvalue n M top) :
    pinvh E inv n M tol = .ok (some (spectralMat E n M fun k => if tol * top ≤ E.vals n M k then 1 / E.vals n M k else 0)) ∧
    pinvC E n M tol = some (spectralMat E n M fun k => if tol * top ≤ E.vals n M k then 1 / E.vals n M k else 0) := by
  have hn : 0 < n := by obtain ⟨i, hi, _⟩ := hne; omega
  have htop := top_pos hE hs hp hne ht
  have hmax := maxUpTo_top hE hs hn ht
  have hno : ¬ ∃ k ∈ range n, tol * top ≤ E.vals n M k ∧ E.vals n M k = 0 := by
    rintro ⟨k, _, h1, h2⟩
    have : 0 < tol * top := by positivity
    linarith
  constructor
  · unfold pinvh spectralInverse
    rw [if_neg (by linarith)]
    simp only [hmax, ge_iff_le]
    rw [if_neg hno]
    rfl
  · unfold pinvC spectralInverse
    simp only [hmax, not_lt]
    rw [if_neg hno]
    rfl

end

/-! ## The properties -/

/-- C37: for every symmetric positive semidefinite matrix that is not zero and every tolerance in (0, 1] the pseudo-inverse (of
the python library and of the C library) exists, is symmetric, inverts the eigenvectors whose eigenvalue is at least the
tolerance times the largest eigenvalue and vanishes on the others. Missing: zero matrices, for which the claim is
false (`C37_zero_wrong`). -/
theorem C37_pinv_partial (E : Eigen) (hE : E.Correct) (inv : ℕ → (ℕ → ℕ → ℝ) → Option (ℕ → ℕ → ℝ)) (n : ℕ) (M : ℕ → ℕ → ℝ)
    (tol top : ℝ) (hs : SymmMat n M) (hp : PsdMat n M) (hne : ∃ i < n, ∃ j < n, M i j ≠ 0) (h0 : 0 < tol) (h1 : tol ≤ 1)
    (ht : TopEigenvalue n M top) :
    ∃ P, pinvh E inv n M tol = .ok (some P) ∧ pinvC E n M tol = some P ∧ SymmMat n P ∧
      (∃ x, EigenPair n M top x ∧ ∀ i < n, mulVecN n P x i = x i / top) ∧
      ∀ lam x, EigenPair n M lam x →
        (tol * top ≤ lam → 0 < lam ∧ ∀ i < n, mulVecN n P x i = x i / lam) ∧
        (lam < tol * top → ∀ i < n, mulVecN n P x i = 0) := by
  have htop := top_pos hE hs hp hne ht
  obtain ⟨e1, e2⟩ := pinv_eq hE hs hp hne inv h0 ht
  have key : ∀ lam x, EigenPair n M lam x →
        (tol * top ≤ lam → 0 < lam ∧ ∀ i < n, mulVecN n (spectralMat E n M fun k =>
          if tol * top ≤ E.vals n M k then 1 / E.vals n M k else 0) x i = x i / lam) ∧
        (lam < tol * top → ∀ i < n, mulVecN n (spectralMat E n M fun k =>
          if tol * top ≤ E.vals n M k then 1 / E.vals n M k else 0) x i = 0) := by
    intro lam x hx
    constructor
    · intro h
      refine ⟨lt_of_lt_of_le (by positivity) h, fun i hi => ?_⟩
      rw [spectralMat_pair hE hs _ (1 / lam) hx (fun k _ he => by rw [he, if_pos h]) i hi]
      ring
    · intro h i hi
      rw [spectralMat_pair hE hs _ 0 hx (fun k _ he => by rw [he, if_neg (by linarith)]) i hi]
      ring
  refine ⟨_, by convert e1, by convert e2, ?_, ?_, key⟩
  · intro i hi j hj
    unfold spectralMat
    rw [tab2_of_lt _ hi hj, tab2_of_lt _ hj hi]
    exact sum_congr rfl fun k _ => by ring
  · obtain ⟨x, hx⟩ := ht.1
    exact ⟨x, hx, ((key top x hx).1 (by nlinarith)).2⟩

/-- C37 fails for zero matrices of every size: the result of both libraries is not finite. -/
theorem C37_zero_wrong (E : Eigen) (hE : E.Correct) (inv : ℕ → (ℕ → ℕ → ℝ) → Option (ℕ → ℕ → ℝ)) (n : ℕ) (hn : 0 < n)
    (tol : ℝ) (h0 : 0 < tol) :
    pinvh E inv n (fun _ _ => 0) tol = .ok none ∧ pinvC E n (fun _ _ => 0) tol = none := by
  have hs : SymmMat n (fun _ _ => 0) := fun _ _ _ _ => rfl
  have hv : ∀ k < n, E.vals n (fun _ _ => 0) k = 0 := by
    intro k hk
    obtain ⟨⟨i, hi, hne⟩, he⟩ := column_pair hE hs k hk
    have h := he i hi
    unfold mulVecN at h
    simp only [zero_mul, sum_const_zero] at h
    rcases mul_eq_zero.1 h.symm with h | h
    · exact h
    · exact absurd h hne
  have hm : maxUpTo (E.vals n fun _ _ => 0) (n - 1) = 0 := by
    obtain ⟨k, hk, he⟩ := maxUpTo_mem (E.vals n fun _ _ => 0) (n - 1)
    rw [he, hv k (by omega)]
  constructor
  · unfold pinvh spectralInverse
    rw [if_neg (by linarith), if_pos]
    exact ⟨0, mem_range.2 hn, by simp only [hm, hv 0 hn, mul_zero]; exact le_refl _, hv 0 hn⟩
  · unfold pinvC spectralInverse
    rw [if_pos]
    exact ⟨0, mem_range.2 hn, by simp only [hm, hv 0 hn, mul_zero]; exact lt_irrefl _, hv 0 hn⟩

/-- C37: with a tolerance that is not positive the ordinary inverse is returned, and singular matrices raise. -/
theorem C37_no_tolerance (E : Eigen) (inv : ℕ → (ℕ → ℕ → ℝ) → Option (ℕ → ℕ → ℝ)) (n : ℕ) (M : ℕ → ℕ → ℝ) (tol : ℝ)
    (h0 : tol ≤ 0) :
    (∀ P, inv n M = some P → pinvh E inv n M tol = .ok (some P)) ∧ (inv n M = none → pinvh E inv n M tol = .raises .value) := by
  unfold pinvh
  rw [if_pos h0]
  exact ⟨fun P h => by rw [h], fun h => by rw [h]⟩

/-! ## An exact eigenvalue decomposition exists -/

/-- The first `n` rows and columns of a matrix. -/
def finMat (n : ℕ) (M : ℕ → ℕ → ℝ) : Matrix (Fin n) (Fin n) ℝ := Matrix.of fun i j => M i j

theorem finMat_herm {n : ℕ} {M : ℕ → ℕ → ℝ} (hs : SymmMat n M) : (finMat n M).IsHermitian := by
  ext i j
  simp only [finMat, Matrix.conjTranspose_apply, Matrix.of_apply, star_trivial]
  exact hs j j.2 i i.2

open Classical in
/-- The decomposition given by the spectral theorem. -/
noncomputable def exactEigen : Eigen where
  vals n M k := if h : SymmMat n M then (if hk : k < n then (finMat_herm h).eigenvalues ⟨k, hk⟩ else 0) else 0
  vecs n M i k := if h : SymmMat n M then
    (if hk : k < n then (if hi : i < n then ((finMat_herm h).eigenvectorUnitary : Matrix (Fin n) (Fin n) ℝ) ⟨i, hi⟩ ⟨k, hk⟩ else 0) else 0)
    else 0

theorem exactEigen_correct : exactEigen.Correct := by
  intro n M hs
  have hv : ∀ k (hk : k < n), exactEigen.vals n M k = (finMat_herm hs).eigenvalues ⟨k, hk⟩ := by
    intro k hk
    simp only [exactEigen, dif_pos hs, dif_pos hk]
  have hV : ∀ i k (hi : i < n) (hk : k < n), exactEigen.vecs n M i k =
      ((finMat_herm hs).eigenvectorUnitary : Matrix (Fin n) (Fin n) ℝ) ⟨i, hi⟩ ⟨k, hk⟩ := by
    intro i k hi hk
    simp only [exactEigen, dif_pos hs, dif_pos hk, dif_pos hi]
  have hu := (finMat_herm hs).eigenvectorUnitary.2
  refine ⟨fun k hk i hi => ?_, fun k hk l hl => ?_, fun i hi j hj => ?_⟩
  · have h := (finMat_herm hs).mulVec_eigenvectorBasis ⟨k, hk⟩
    have h' := congrFun h ⟨i, hi⟩
    rw [hv k hk, hV i k hi hk, ← Fin.sum_univ_eq_sum_range (fun j => M i j * exactEigen.vecs n M j k) n]
    simp only [Matrix.mulVec, dotProduct, finMat, Matrix.of_apply, Pi.smul_apply, smul_eq_mul] at h'
    rw [Matrix.IsHermitian.eigenvectorUnitary_apply]
    refine Eq.trans ?_ h'
    refine sum_congr rfl fun j _ => ?_
    rw [hV j k j.2 hk, Matrix.IsHermitian.eigenvectorUnitary_apply]
    rfl
  · have h := congrFun (congrFun (Matrix.mem_unitaryGroup_iff'.1 hu) ⟨k, hk⟩) ⟨l, hl⟩
    rw [← Fin.sum_univ_eq_sum_range (fun i => exactEigen.vecs n M i k * exactEigen.vecs n M i l) n]
    simp only [Matrix.mul_apply, Matrix.star_apply, star_trivial, Matrix.one_apply, Fin.mk.injEq] at h
    rw [← h]
    exact sum_congr rfl fun i _ => by rw [hV i k i.2 hk, hV i l i.2 hl]
  · have h := congrFun (congrFun (Matrix.mem_unitaryGroup_iff.1 hu) ⟨i, hi⟩) ⟨j, hj⟩
    rw [← Fin.sum_univ_eq_sum_range (fun k => exactEigen.vecs n M i k * exactEigen.vecs n M j k) n]
    simp only [Matrix.mul_apply, Matrix.star_apply, star_trivial, Matrix.one_apply, Fin.mk.injEq] at h
    rw [← h]
    exact sum_congr rfl fun k _ => by rw [hV i k hi k.2, hV j k hj k.2]

/-- A template matrix: two templates with norms 4 and 1 that are orthogonal. -/
def diag41 : ℕ → ℕ → ℝ := fun i j => if i = j then (if i = 0 then 4 else 1) else 0

theorem diag41_top : TopEigenvalue 2 diag41 4 := by
  constructor
  · refine ⟨fun i => if i = 0 then 1 else 0, ⟨0, by norm_num, by norm_num⟩, fun i hi => ?_⟩
    interval_cases i <;> simp [mulVecN, diag41, sum_range_succ]
  · rintro lam ⟨x, ⟨i, hi, hne⟩, he⟩
    have h0 := he 0 (by norm_num)
    have h1 := he 1 (by norm_num)
    simp only [mulVecN, diag41, sum_range_succ, range_zero, sum_empty] at h0 h1
    have h0' : (4 - lam) * x 0 = 0 := by norm_num at h0; rcases h0 with h | h <;> rw [h] <;> ring
    have h1' : (1 - lam) * x 1 = 0 := by norm_num at h1; linarith
    interval_cases i
    · rcases mul_eq_zero.1 h0' with h | h
      · linarith
      · exact absurd h hne
    · rcases mul_eq_zero.1 h1' with h | h
      · linarith
      · exact absurd h hne

/-- The hypotheses of `C37_pinv_partial` are met, with a tolerance that removes one direction. -/
example : ∃ P, pinvh exactEigen (fun _ _ => none) 2 diag41 (1 / 2) = .ok (some P) ∧
    (∀ i < 2, mulVecN 2 P (fun j => if j = 0 then 1 else 0) i = (if i = 0 then 1 else 0) / 4) ∧
    (∀ i < 2, mulVecN 2 P (fun j => if j = 1 then 1 else 0) i = 0) := by
  have hs : SymmMat 2 diag41 := by intro i _ j _; unfold diag41; by_cases h : i = j <;> simp [h, eq_comm]
  have hp : PsdMat 2 diag41 := by
    intro x
    simp only [diag41, sum_range_succ, range_zero, sum_empty]
    norm_num
    nlinarith [mul_self_nonneg (x 0), mul_self_nonneg (x 1)]
  obtain ⟨P, h1, _, _, _, h⟩ := C37_pinv_partial exactEigen exactEigen_correct (fun _ _ => none) 2 diag41 (1 / 2) 4 hs hp
    ⟨0, by norm_num, 0, by norm_num, by norm_num [diag41]⟩ (by norm_num) (by norm_num) diag41_top
  refine ⟨P, h1, ((h 4 _ ⟨⟨0, by norm_num, by norm_num⟩, ?_⟩).1 (by norm_num)).2, (h 1 _ ⟨⟨1, by norm_num, by norm_num⟩, ?_⟩).2 (by norm_num)⟩ <;>
  · intro i hi
    interval_cases i <;> simp [mulVecN, diag41, sum_range_succ]

end NaMaster
