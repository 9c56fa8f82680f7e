import Verif.Coupling.Model
import Mathlib.Tactic.Ring
import Mathlib.Tactic.Linarith
import Mathlib.Tactic.FieldSimp

/-!
# Lemmas on loops, tables and matrices of coupling coefficients
-/

namespace NaMaster

open Finset

theorem mem_rangeIncl {a b x : ℕ} : x ∈ rangeIncl a b ↔ a ≤ x ∧ x ≤ b := by
  unfold rangeIncl
  rw [List.mem_range'_1]
  omega

theorem ldist_comm (a b : ℕ) : ldist a b = ldist b a := by unfold ldist; omega

theorem ldist_self (a : ℕ) : ldist a a = 0 := by unfold ldist; omega

section writes
variable {ι κ K : Type*} [DecidableEq ι] [DecidableEq κ]

theorem runWrites_append (a b : List (ι × K)) (init : ι → K) :
    runWrites (a ++ b) init = runWrites b (runWrites a init) := by
  unfold runWrites; rw [List.foldl_append]

/-- The result at an index depends on the initial value there only. -/
theorem runWrites_init (ws : List (ι × K)) (f g : ι → K) (i : ι) (h : f i = g i) :
    runWrites ws f i = runWrites ws g i := by
  unfold runWrites
  induction ws generalizing f g with
  | nil => exact h
  | cons a t ih =>
    rw [List.foldl_cons, List.foldl_cons]
    apply ih
    by_cases hi : i = a.1
    · subst hi; simp
    · rw [Function.update_of_ne hi, Function.update_of_ne hi, h]

/-- Only one of the blocks of writes touches the index. -/
theorem runWrites_flatMap {α : Type*} (l : List α) (f : α → List (ι × K)) (init : ι → K) (i : ι) (x0 : α)
    (hx : x0 ∈ l) (hnd : l.Nodup) (h : ∀ x ∈ l, x ≠ x0 → ∀ w ∈ f x, w.1 ≠ i) :
    runWrites (l.flatMap f) init i = runWrites (f x0) init i := by
  induction l generalizing init with
  | nil => simp at hx
  | cons a t ih =>
    rw [List.flatMap_cons, runWrites_append]
    rw [List.nodup_cons] at hnd
    by_cases ha : a = x0
    · subst ha
      rw [runWrites_notMem]
      intro w hw
      rw [List.mem_flatMap] at hw
      obtain ⟨y, hy, hwy⟩ := hw
      exact h y (List.mem_cons_of_mem _ hy) (fun e => hnd.1 (e ▸ hy)) w hwy
    · rcases List.mem_cons.1 hx with h0 | h0
      · exact absurd h0.symm ha
      · rw [ih _ h0 hnd.2 (fun x hx' => h x (List.mem_cons_of_mem _ hx'))]
        exact runWrites_init _ _ _ _ (runWrites_notMem _ _ _ (h a List.mem_cons_self ha))

/-- Renaming of indices. -/
theorem runWrites_map (ws : List (ι × K)) (φ : ι → κ) (c : K) (i : ι)
    (hinj : ∀ w ∈ ws, φ w.1 = φ i → w.1 = i) :
    runWrites (ws.map fun w => (φ w.1, w.2)) (fun _ => c) (φ i) = runWrites ws (fun _ => c) i := by
  suffices H : ∀ (f : κ → K) (g : ι → K), f (φ i) = g i →
      runWrites (ws.map fun w => (φ w.1, w.2)) f (φ i) = runWrites ws g i from H _ _ rfl
  induction ws with
  | nil => intro f g h; exact h
  | cons a t ih =>
    intro f g h
    unfold runWrites at ih ⊢
    rw [List.map_cons, List.foldl_cons, List.foldl_cons]
    apply ih (fun w hw => hinj w (List.mem_cons_of_mem _ hw))
    by_cases ha : a.1 = i
    · rw [ha]; simp
    · rw [Function.update_of_ne (fun e => ha (hinj a List.mem_cons_self e.symm)),
        Function.update_of_ne (fun e => ha e.symm), h]

end writes

/-- Elements of the coupling matrix. -/
theorem matrix_apply (ncls lmax : ℕ) (cells : ℕ → ℕ → List ((ℕ × ℕ) × ℝ))
    (hc : ∀ l2 l3 w, w ∈ cells l2 l3 → w.1.1 < ncls ∧ w.1.2 < ncls) {l2 l3 a b : ℕ} (h2 : l2 ≤ lmax) (h3 : l3 ≤ lmax)
    (ha : a < ncls) (hb : b < ncls) :
    runWrites (matrixWrites ncls lmax cells) (fun _ => 0) (ncls * l2 + a, ncls * l3 + b) =
      runWrites (cells l2 l3) (fun _ => 0) (a, b) := by
  unfold matrixWrites
  have hidx : ∀ {m x m' x' : ℕ}, x < ncls → x' < ncls → ncls * m + x = ncls * m' + x' → m = m' ∧ x = x' := by
    intro m x m' x' hx hx' h
    have := flat_inj hx hx' h
    exact ⟨by tauto, by tauto⟩
  rw [runWrites_flatMap _ _ _ _ l2 (List.mem_range.2 (by omega)) List.nodup_range]
  · rw [runWrites_flatMap _ _ _ _ l3 (List.mem_range.2 (by omega)) List.nodup_range]
    · exact runWrites_map (cells l2 l3) (fun x => (ncls * l2 + x.1, ncls * l3 + x.2)) 0 (a, b) (by
        intro w hw h
        have h' := hc l2 l3 w hw
        simp only [Prod.mk.injEq] at h
        have e1 := hidx h'.1 ha h.1
        have e2 := hidx h'.2 hb h.2
        exact Prod.ext e1.2 e2.2)
    · intro x _ hx w hw
      simp only [List.mem_map] at hw
      obtain ⟨v, hv, rfl⟩ := hw
      intro h
      simp only [Prod.mk.injEq] at h
      exact hx (hidx (hc _ _ v hv).2 hb h.2).1
  · intro x _ hx w hw
    simp only [List.mem_flatMap, List.mem_map] at hw
    obtain ⟨y, _, v, hv, rfl⟩ := hw
    intro h
    simp only [Prod.mk.injEq] at h
    exact hx (hidx (hc _ _ v hv).1 ha h.1).1

theorem nodup_rangeIncl (a b : ℕ) : (rangeIncl a b).Nodup := List.nodup_range'

/-- The matrix without purification: transposed elements are equal. -/
theorem main_sym (lstart lmax : ℕ) (lend : ℕ → ℕ) (entry : ℕ → ℕ → ℝ) (init : ℕ × ℕ → ℝ) {l2 l3 : ℕ}
    (h1 : lstart ≤ min l2 l3) (h2 : max l2 l3 ≤ lend (min l2 l3)) (hle : max l2 l3 ≤ lmax) :
    runWrites (mainWrites lstart lmax false lend entry) init (l2, l3) = entry (min l2 l3) (max l2 l3) := by
  apply runWrites_mem
  · unfold mainWrites
    rw [List.mem_flatMap]
    refine ⟨min l2 l3, mem_rangeIncl.2 ⟨h1, by omega⟩, ?_⟩
    rw [List.mem_flatMap]
    refine ⟨max l2 l3, mem_rangeIncl.2 ⟨?_, h2⟩, ?_⟩
    · simp
    · rcases le_total l2 l3 with h | h
      · rw [min_eq_left h, max_eq_right h]; simp
      · rw [min_eq_right h, max_eq_left h]
        by_cases he : l3 = l2
        · subst he; simp
        · simp [he]
  · intro w hw hi
    unfold mainWrites at hw
    rw [List.mem_flatMap] at hw
    obtain ⟨a, ha, hw⟩ := hw
    rw [List.mem_flatMap] at hw
    obtain ⟨b, hb, hw⟩ := hw
    rw [mem_rangeIncl] at ha hb
    simp only [Bool.false_eq_true, if_false, not_false_eq_true, true_and] at hb hw
    rcases List.mem_cons.1 hw with h | h
    · subst h
      simp only [Prod.mk.injEq] at hi
      obtain ⟨rfl, rfl⟩ := hi
      rw [min_eq_left hb.1, max_eq_right hb.1]
    · by_cases hab : a = b
      · simp [hab] at h
      · simp only [ne_eq, hab, not_false_eq_true, if_true, List.mem_singleton] at h
        subst h
        simp only [Prod.mk.injEq] at hi
        obtain ⟨rfl, rfl⟩ := hi
        rw [min_eq_right hb.1, max_eq_left hb.1]

/-- Elements the main loop does not touch. -/
theorem main_untouched (lstart lmax : ℕ) (pureAny : Bool) (lend : ℕ → ℕ) (entry : ℕ → ℕ → ℝ) (init : ℕ × ℕ → ℝ)
    {l2 l3 : ℕ} (h : l2 < lstart ∨ l3 < lstart) :
    runWrites (mainWrites lstart lmax pureAny lend entry) init (l2, l3) = init (l2, l3) := by
  apply runWrites_notMem
  intro w hw hi
  unfold mainWrites at hw
  rw [List.mem_flatMap] at hw
  obtain ⟨a, ha, hw⟩ := hw
  rw [List.mem_flatMap] at hw
  obtain ⟨b, hb, hw⟩ := hw
  rw [mem_rangeIncl] at ha hb
  have hb' : lstart ≤ b := by
    cases pureAny
    · simp only [Bool.false_eq_true, if_false] at hb; omega
    · simp only [if_true] at hb; omega
  rcases List.mem_cons.1 hw with h' | h'
  · subst h'
    simp only [Prod.mk.injEq] at hi
    omega
  · by_cases hab : ¬ pureAny ∧ a ≠ b
    · rw [if_pos hab, List.mem_singleton] at h'
      subst h'
      simp only [Prod.mk.injEq] at hi
      omega
    · rw [if_neg hab] at h'
      exact absurd h' List.not_mem_nil

/-- The matrix with purification. -/
theorem main_pure (lstart lmax : ℕ) (lend : ℕ → ℕ) (entry : ℕ → ℕ → ℝ) (init : ℕ × ℕ → ℝ) {l2 l3 : ℕ}
    (h1 : lstart ≤ l2) (h2 : lstart ≤ l3) (h3 : l2 ≤ lmax) (h4 : l3 ≤ lend l2) :
    runWrites (mainWrites lstart lmax true lend entry) init (l2, l3) = entry l2 l3 := by
  apply runWrites_mem
  · unfold mainWrites
    rw [List.mem_flatMap]
    refine ⟨l2, mem_rangeIncl.2 ⟨h1, h3⟩, ?_⟩
    rw [List.mem_flatMap]
    exact ⟨l3, mem_rangeIncl.2 ⟨by simpa using h2, h4⟩, by simp⟩
  · intro w hw hi
    unfold mainWrites at hw
    rw [List.mem_flatMap] at hw
    obtain ⟨a, ha, hw⟩ := hw
    rw [List.mem_flatMap] at hw
    obtain ⟨b, hb, hw⟩ := hw
    simp only [not_true_eq_false, false_and, if_false, List.mem_singleton] at hw
    subst hw
    simp only [Prod.mk.injEq] at hi
    rw [hi.1, hi.2]

theorem lend_plain (l2 : ℕ) (lT lE dl : ℤ) (lmax : ℕ) (hT : lT ≤ 0) :
    (lendToeplitz l2 lT lE dl lmax).toNat = lmax := by
  unfold lendToeplitz
  rw [if_neg (by omega)]
  simp

/-- Table without Toeplitz approximation. -/
theorem coefTable_plain (lstart lmax : ℕ) (pureAny : Bool) (lT lE dl : ℤ) (entry : ℕ → ℕ → ℝ) (hT : lT ≤ 0)
    {l2 l3 : ℕ} (h2 : l2 ≤ lmax) (h3 : l3 ≤ lmax) :
    coefTable lstart lmax pureAny lT lE dl entry (l2, l3) =
      if lstart ≤ l2 ∧ lstart ≤ l3 then
        (if pureAny then entry l2 l3 else entry (min l2 l3) (max l2 l3)) else 0 := by
  unfold coefTable
  simp only
  rw [if_neg (by omega)]
  by_cases h : lstart ≤ l2 ∧ lstart ≤ l3
  · rw [if_pos h]
    cases pureAny
    · rw [main_sym]
      · simp
      · exact le_min h.1 h.2
      · rw [lend_plain _ _ _ _ _ hT]; exact max_le h2 h3
      · exact max_le h2 h3
    · rw [main_pure _ _ _ _ _ h.1 h.2 h2]
      · simp
      · rw [lend_plain _ _ _ _ _ hT]; exact h3
  · rw [if_neg h, main_untouched]
    omega

/-! ## Wigner symbols with zero lower row -/

theorem logFac_eq (n : ℕ) : logFac n = Real.log (n.factorial : ℝ) := by
  induction n using logFac.induct with
  | case1 => simp [logFac]
  | case2 => simp [logFac]
  | case3 n ih =>
    have h1 : ((n + 1 + 1 : ℕ) : ℝ) ≠ 0 := Nat.cast_ne_zero.2 (by omega)
    have h2 : ((n + 1).factorial : ℝ) ≠ 0 := Nat.cast_ne_zero.2 (Nat.factorial_ne_zero _)
    rw [logFac, ih, Nat.factorial_succ (n + 1), Nat.cast_mul, Real.log_mul h1 h2, add_comm]

end NaMaster
