import Verif.Units.Lemmas

/-! # Matrices made of three blocks -/

namespace NaMaster

open Finset

/-- A vector made of seven parts from vectors with one, two and four parts. -/
def stackVec (x1 x2 x4 : ℕ → ℝ) (j : ℕ) : ℝ :=
  if j % 7 = 0 then x1 (1 * (j / 7) + 0) else if j % 7 < 3 then x2 (2 * (j / 7) + (j % 7 - 1)) else x4 (4 * (j / 7) + (j % 7 - 3))

theorem stackVec_at (x1 x2 x4 : ℕ → ℝ) (b : ℕ) {y : ℕ} (hy : y < 7) : stackVec x1 x2 x4 (7 * b + y) =
    if y = 0 then x1 (1 * b + 0) else if y < 3 then x2 (2 * b + (y - 1)) else x4 (4 * b + (y - 3)) := by
  unfold stackVec
  rw [Nat.mul_add_mod, Nat.mod_eq_of_lt hy, show (7 * b + y) / 7 = b by omega]

/-- The element of a matrix made of three blocks. -/
def blockElem (α β : ℝ) (M1 M2 M4 : ℕ → ℕ → ℝ) (b b' x y : ℕ) : ℝ :=
  if x = 0 ∧ y = 0 then α * M1 (1 * b + 0) (1 * b' + 0)
  else if (x = 1 ∨ x = 2) ∧ (y = 1 ∨ y = 2) then M2 (2 * b + (x - 1)) (2 * b' + (y - 1))
  else if 3 ≤ x ∧ 3 ≤ y then β * M4 (4 * b + (x - 3)) (4 * b' + (y - 3))
  else 0

variable {n : ℕ} {α β : ℝ} {M7 M1 M2 M4 : ℕ → ℕ → ℝ}

/-- Products of such a matrix and such a vector. -/
theorem block_mul (h : ∀ b b' x y, b < n → b' < n → x < 7 → y < 7 → M7 (7 * b + x) (7 * b' + y) = blockElem α β M1 M2 M4 b b' x y)
    (x1 x2 x4 : ℕ → ℝ) {b x : ℕ} (hb : b < n) (hx : x < 7) :
    ∑ j ∈ range (7 * n), M7 (7 * b + x) j * stackVec x1 x2 x4 j =
      if x = 0 then α * ∑ j ∈ range (1 * n), M1 (1 * b + 0) j * x1 j
      else if x < 3 then ∑ j ∈ range (2 * n), M2 (2 * b + (x - 1)) j * x2 j
      else β * ∑ j ∈ range (4 * n), M4 (4 * b + (x - 3)) j * x4 j := by
  have e : ∀ b' ∈ range n, ∑ y ∈ range 7, M7 (7 * b + x) (7 * b' + y) * stackVec x1 x2 x4 (7 * b' + y) =
      if x = 0 then α * ∑ y ∈ range 1, M1 (1 * b + 0) (1 * b' + y) * x1 (1 * b' + y)
      else if x < 3 then ∑ y ∈ range 2, M2 (2 * b + (x - 1)) (2 * b' + y) * x2 (2 * b' + y)
      else β * ∑ y ∈ range 4, M4 (4 * b + (x - 3)) (4 * b' + y) * x4 (4 * b' + y) := by
    intro b' hb'
    have e2 : ∀ y ∈ range 7, M7 (7 * b + x) (7 * b' + y) * stackVec x1 x2 x4 (7 * b' + y) = blockElem α β M1 M2 M4 b b' x y *
        if y = 0 then x1 (1 * b' + 0) else if y < 3 then x2 (2 * b' + (y - 1)) else x4 (4 * b' + (y - 3)) := by
      intro y hy
      rw [h b b' x y hb (mem_range.1 hb') hx (mem_range.1 hy), stackVec_at _ _ _ _ (mem_range.1 hy)]
    rw [sum_congr rfl e2]
    unfold blockElem
    by_cases h0 : x = 0
    · subst h0
      simp [sum_range_succ]
      ring
    · by_cases h3 : x < 3
      · have h12 : x = 1 ∨ x = 2 := by omega
        simp [sum_range_succ, h0, h3, h12, show ¬ 3 ≤ x by omega]
      · have h12 : ¬ (x = 1 ∨ x = 2) := by omega
        have h12' : ¬ x = 1 ∧ ¬ x = 2 := by omega
        simp [sum_range_succ, h0, h3, h12'.1, h12'.2, show 3 ≤ x by omega]
        ring
  rw [sum_flat 7 n, sum_congr rfl e]
  by_cases h0 : x = 0
  · simp only [if_pos h0]
    rw [sum_flat 1 n, mul_sum]
  · simp only [if_neg h0]
    by_cases h3 : x < 3
    · simp only [if_pos h3]
      rw [sum_flat 2 n]
    · simp only [if_neg h3]
      rw [sum_flat 4 n, mul_sum]

theorem regular_of_injective {n : ℕ} {M : ℕ → ℕ → ℝ} (h : ∀ x : ℕ → ℝ, (∀ i, i < n → ∑ j ∈ range n, M i j * x j = 0) → ∀ i, i < n → x i = 0) :
    Regular n M := by
  unfold Regular
  rw [← Matrix.isUnit_iff_isUnit_det, ← Matrix.mulVec_injective_iff_isUnit]
  intro u v huv
  have hz := h (fun j => if hj : j < n then u ⟨j, hj⟩ - v ⟨j, hj⟩ else 0) (fun i hi => by
    have e := congrFun huv ⟨i, hi⟩
    unfold Matrix.mulVec dotProduct toMat at e
    rw [Finset.sum_range]
    have : ∀ j : Fin n, M i j * (if hj : (j : ℕ) < n then u ⟨j, hj⟩ - v ⟨j, hj⟩ else 0) = M i j * u j - M i j * v j := by
      intro j
      rw [dif_pos j.2]
      ring
    rw [Finset.sum_congr rfl fun j _ => this j, Finset.sum_sub_distrib]
    exact sub_eq_zero.2 e)
  funext i
  have := hz i i.2
  rw [dif_pos i.2] at this
  exact sub_eq_zero.1 this

/-- It can be inverted if the blocks can. -/
theorem block_regular (h : ∀ b b' x y, b < n → b' < n → x < 7 → y < 7 → M7 (7 * b + x) (7 * b' + y) = blockElem α β M1 M2 M4 b b' x y)
    (hα : α ≠ 0) (hβ : β ≠ 0) (r1 : Regular (1 * n) M1) (r2 : Regular (2 * n) M2) (r4 : Regular (4 * n) M4) : Regular (7 * n) M7 := by
  refine regular_of_injective fun x hx => ?_
  set x1 : ℕ → ℝ := fun b => x (7 * b) with hx1
  set x2 : ℕ → ℝ := fun j => x (7 * (j / 2) + (j % 2 + 1)) with hx2
  set x4 : ℕ → ℝ := fun j => x (7 * (j / 4) + (j % 4 + 3)) with hx4
  have hs : ∀ j, stackVec x1 x2 x4 j = x j := by
    intro j
    unfold stackVec
    have hj := Nat.div_add_mod j 7
    have hlt : j % 7 < 7 := Nat.mod_lt _ (by norm_num)
    by_cases h0 : j % 7 = 0
    · rw [if_pos h0, hx1]; dsimp only; congr 1; omega
    · rw [if_neg h0]
      by_cases h3 : j % 7 < 3
      · rw [if_pos h3, hx2]; dsimp only; congr 1; omega
      · rw [if_neg h3, hx4]; dsimp only; congr 1; omega
  have hm : ∀ b x, b < n → x < 7 → (if x = 0 then α * ∑ j ∈ range (1 * n), M1 (1 * b + 0) j * x1 j
      else if x < 3 then ∑ j ∈ range (2 * n), M2 (2 * b + (x - 1)) j * x2 j
      else β * ∑ j ∈ range (4 * n), M4 (4 * b + (x - 3)) j * x4 j) = 0 := by
    intro b k hb hk
    rw [← block_mul h x1 x2 x4 hb hk]
    rw [sum_congr rfl fun j _ => by rw [hs j]]
    exact hx _ (flat_lt hk hb)
  have z1 : ∀ i, i < 1 * n → x1 i = 0 := by
    refine r1.unique x1 (fun _ => 0) fun i hi => ?_
    have := hm i 0 (by omega) (by norm_num)
    rw [if_pos rfl] at this
    rw [show 1 * i + 0 = i by omega] at this
    rw [(mul_eq_zero.1 this).resolve_left hα]
    simp
  have z2 : ∀ i, i < 2 * n → x2 i = 0 := by
    refine r2.unique x2 (fun _ => 0) fun i hi => ?_
    have := hm (i / 2) (i % 2 + 1) (by omega) (by omega)
    rw [if_neg (by omega), if_pos (by omega), show 2 * (i / 2) + (i % 2 + 1 - 1) = i by omega] at this
    rw [this]
    simp
  have z4 : ∀ i, i < 4 * n → x4 i = 0 := by
    refine r4.unique x4 (fun _ => 0) fun i hi => ?_
    have := hm (i / 4) (i % 4 + 3) (by omega) (by omega)
    rw [if_neg (by omega), if_neg (by omega), show 4 * (i / 4) + (i % 4 + 3 - 3) = i by omega] at this
    rw [(mul_eq_zero.1 this).resolve_left hβ]
    simp
  intro i hi
  rw [← hs i]
  have hj := Nat.div_add_mod i 7
  have hlt : i % 7 < 7 := Nat.mod_lt _ (by norm_num)
  unfold stackVec
  by_cases h0 : i % 7 = 0
  · rw [if_pos h0]; exact z1 _ (by omega)
  · rw [if_neg h0]
    by_cases h3 : i % 7 < 3
    · rw [if_pos h3]; exact z2 _ (by omega)
    · rw [if_neg h3]; exact z4 _ (by omega)

end NaMaster
