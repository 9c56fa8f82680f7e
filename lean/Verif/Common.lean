import Verif.Bins.Model
import Mathlib.Data.List.Basic

/-!
# Definitions shared by the models

Arrays of the C code are functions from indices. An array with `n` elements is kept in the normal
form "zero from index `n` on" (`tab`), so that two arrays of the same length are equal as
functions exactly if all their elements are equal.
-/

namespace NaMaster

/-- Result of a call into the library: a value, a python exception (python or C level error, the
latter through src/utils.c:15-36 and namaster.i:58-65), or undefined behaviour of the C code
(null pointer, access outside an array, signed overflow). -/
inductive Outcome (α : Type*) where
  | ok (a : α)
  | raises (e : Err)
  | crash
  deriving DecidableEq

/-- Result of a successful call. -/
def Outcome.toOption {α : Type*} : Outcome α → Option α
  | .ok a => some a
  | _ => none

/-- Sequential composition. -/
def Outcome.bind {α β : Type*} : Outcome α → (α → Outcome β) → Outcome β
  | .ok a, f => f a
  | .raises e, _ => .raises e
  | .crash, _ => .crash

/-- Array with `n` elements. -/
def tab {K : Type*} [Zero K] (n : ℕ) (f : ℕ → K) : ℕ → K := fun i => if i < n then f i else 0

/-- Two-dimensional array with `n` rows and `m` columns. -/
def tab2 {K : Type*} [Zero K] (n m : ℕ) (f : ℕ → ℕ → K) : ℕ → ℕ → K :=
  fun i j => if i < n ∧ j < m then f i j else 0

/-- A sequence of assignments `array[i]=v` in program order; used for loops whose assigned values do
not depend on the array being written. -/
def runWrites {ι K : Type*} [DecidableEq ι] (ws : List (ι × K)) (init : ι → K) : ι → K :=
  ws.foldl (fun a w => Function.update a w.1 w.2) init

/-- A two-dimensional numpy array. -/
structure Arr2 (K : Type*) where
  rows : ℕ
  cols : ℕ
  val : ℕ → ℕ → K

/-- The `rows × cols` array with the given elements, in normal form. -/
def Arr2.of {K : Type*} [Zero K] (rows cols : ℕ) (f : ℕ → ℕ → K) : Arr2 K :=
  ⟨rows, cols, tab2 rows cols f⟩

section lemmas
variable {ι K : Type*} [DecidableEq ι]

theorem tab_of_lt [Zero K] {n i : ℕ} (f : ℕ → K) (h : i < n) : tab n f i = f i := if_pos h

theorem tab2_of_lt [Zero K] {n m i j : ℕ} (f : ℕ → ℕ → K) (h : i < n) (h' : j < m) :
    tab2 n m f i j = f i j := if_pos ⟨h, h'⟩

theorem tab_congr [Zero K] {n : ℕ} {f g : ℕ → K} (h : ∀ i, i < n → f i = g i) :
    tab n f = tab n g := by
  funext i; unfold tab; split_ifs with hi
  · exact h i hi
  · rfl

theorem tab2_congr [Zero K] {n m : ℕ} {f g : ℕ → ℕ → K}
    (h : ∀ i j, i < n → j < m → f i j = g i j) : tab2 n m f = tab2 n m g := by
  funext i j; unfold tab2; split_ifs with hi
  · exact h i j hi.1 hi.2
  · rfl

theorem Arr2.of_congr [Zero K] {r c : ℕ} {f g : ℕ → ℕ → K}
    (h : ∀ i j, i < r → j < c → f i j = g i j) : Arr2.of r c f = Arr2.of r c g := by
  unfold Arr2.of; rw [tab2_congr h]

theorem tab_tab [Zero K] (n : ℕ) (f : ℕ → K) : tab n (tab n f) = tab n f :=
  tab_congr (fun _ h => tab_of_lt f h)

theorem tab2_tab2 [Zero K] (n m : ℕ) (f : ℕ → ℕ → K) : tab2 n m (tab2 n m f) = tab2 n m f :=
  tab2_congr (fun _ _ h h' => tab2_of_lt f h h')

/-- An index that is never written keeps its value. -/
theorem runWrites_notMem (ws : List (ι × K)) (init : ι → K) (i : ι)
    (h : ∀ w ∈ ws, w.1 ≠ i) : runWrites ws init i = init i := by
  unfold runWrites
  induction ws generalizing init with
  | nil => rfl
  | cons a t ih =>
    rw [List.foldl_cons, ih _ (fun w hw => h w (List.mem_cons_of_mem _ hw)),
      Function.update_of_ne (h a (List.mem_cons_self)).symm]

/-- If all assignments to the same index agree, the index ends up with the assigned value. -/
theorem runWrites_mem (ws : List (ι × K)) (init : ι → K) (i : ι) (v : K) (hm : (i, v) ∈ ws)
    (hf : ∀ w ∈ ws, w.1 = i → w.2 = v) : runWrites ws init i = v := by
  unfold runWrites
  induction ws generalizing init with
  | nil => simp at hm
  | cons a t ih =>
    rw [List.foldl_cons]
    by_cases ht : (i, v) ∈ t
    · exact ih _ ht (fun w hw => hf w (List.mem_cons_of_mem _ hw))
    · have hne : ∀ w ∈ t, w.1 ≠ i := by
        intro w hw hi
        apply ht
        have := hf w (List.mem_cons_of_mem _ hw) hi
        rw [← hi, ← this]; exact hw
      have h1 := runWrites_notMem t (Function.update init a.1 a.2) i hne
      unfold runWrites at h1
      rw [h1]
      rcases List.mem_cons.1 hm with h | h
      · rw [← h]; simp
      · exact absurd h ht

end lemmas

/-- The index `n*b+a` with `a<n` determines `a` and `b`. -/
theorem flat_inj {n a b a' b' : ℕ} (ha : a < n) (ha' : a' < n) (h : n * b + a = n * b' + a') :
    a = a' ∧ b = b' := by
  have h1 : (n * b + a) % n = (n * b' + a') % n := by rw [h]
  rw [Nat.mul_add_mod, Nat.mul_add_mod, Nat.mod_eq_of_lt ha, Nat.mod_eq_of_lt ha'] at h1
  subst h1
  have h2 : n * b = n * b' := by omega
  exact ⟨rfl, Nat.eq_of_mul_eq_mul_left (by omega) h2⟩

/-- Range of a flattened index. -/
theorem flat_lt {n m a b : ℕ} (ha : a < n) (hb : b < m) : n * b + a < n * m := by
  calc n * b + a < n * b + n := by omega
    _ = n * (b + 1) := by rw [Nat.mul_succ]
    _ ≤ n * m := Nat.mul_le_mul_left _ hb

end NaMaster
