import Verif.Bins.Lemmas

/-! Helper lemmas for linear binning. -/

namespace NaMaster

open BinSpec

theorem filter_range_interval (n a b : ℕ) (p : ℕ → Bool) (hab : a ≤ b) (hbn : b ≤ n)
    (hp : ∀ l < n, p l = true ↔ (a ≤ l ∧ l < b)) :
    (List.range n).filter p = List.range' a (b - a) := by
  have h1 : List.range n = List.range' 0 a ++ (List.range' a (b - a) ++ List.range' b (n - b)) := by
    rw [List.range_eq_range']
    have e2 : List.range' a (b - a) ++ List.range' b (n - b) = List.range' a (n - a) := by
      have := List.range'_append (s := a) (m := b - a) (n := n - b) (step := 1)
      rw [show a + 1 * (b - a) = b by omega] at this
      rw [this]; congr 1; omega
    rw [e2]
    have := List.range'_append (s := 0) (m := a) (n := n - a) (step := 1)
    rw [show 0 + 1 * a = a by omega] at this
    rw [this]; congr 1; omega
  rw [h1, List.filter_append, List.filter_append]
  have f1 : (List.range' 0 a).filter p = [] := by
    rw [List.filter_eq_nil_iff]
    intro l hl
    rw [List.mem_range'_1] at hl
    intro hpl
    have := (hp l (by omega)).1 hpl
    omega
  have f2 : (List.range' a (b - a)).filter p = List.range' a (b - a) := by
    rw [List.filter_eq_self]
    intro l hl
    rw [List.mem_range'_1] at hl
    exact (hp l (by omega)).2 (by omega)
  have f3 : (List.range' b (n - b)).filter p = [] := by
    rw [List.filter_eq_nil_iff]
    intro l hl
    rw [List.mem_range'_1] at hl
    intro hpl
    have := (hp l (by omega)).1 hpl
    omega
  rw [f1, f2, f3]; simp

/-- Closed form of the bandpower index of multipole `l`. -/
def linBpw (lmax nlb l : ℕ) : ℤ :=
  if 2 ≤ l ∧ (l - 2) / nlb < (lmax - 1) / nlb then (((l - 2) / nlb : ℕ) : ℤ) else -1

/-- Index before removal of the last band. -/
def linG (nlb l : ℕ) : ℤ := if l < 2 then -1 else (((l - 2) / nlb : ℕ) : ℤ)

theorem linear_step1 (lmax nlb : ℕ) :
    ((List.range (lmax + 1)).map (fun l : ℕ => ((l : ℤ) - 2) / (nlb : ℤ))).mapIdx
      (fun i x => if i < 2 then -1 else x) = (List.range (lmax + 1)).map (linG nlb) := by
  apply List.ext_getElem
  · simp
  · intro i h1 h2
    simp only [List.getElem_mapIdx, List.getElem_map, List.getElem_range, linG]
    split_ifs with h
    · rfl
    · push_cast [Nat.cast_sub (show 2 ≤ i by omega)]
      rfl

theorem linearBpws_eq (lmax nlb : ℕ) (hn : 1 ≤ nlb) :
    linearBpws lmax nlb = (List.range (lmax + 1)).map (linBpw lmax nlb) := by
  unfold linearBpws
  simp only
  rw [linear_step1]
  have hlast : ((List.range (lmax + 1)).map (linG nlb)).getLastD (-1) = linG nlb lmax := by
    rw [List.range_succ, List.map_append]; simp
  rw [hlast]
  by_cases hl : lmax < 2
  · have e1 : ∀ l ∈ List.range (lmax + 1), linG nlb l = -1 := by
      intro l h
      have : l < lmax + 1 := by simpa using h
      unfold linG; rw [if_pos (by omega)]
    have e2 : ∀ l ∈ List.range (lmax + 1), linBpw lmax nlb l = -1 := by
      intro l h
      have : l < lmax + 1 := by simpa using h
      unfold linBpw; rw [if_neg (by omega)]
    have e3 : linG nlb lmax = -1 := e1 lmax (by simp)
    have e4 : (List.range (lmax + 1)).map (linG nlb) = (List.range (lmax + 1)).map (linBpw lmax nlb) :=
      List.map_congr_left (fun l hl => by rw [e1 l hl, e2 l hl])
    split_ifs with h
    · rw [List.map_map]
      apply List.map_congr_left
      intro l hl
      simp only [Function.comp_apply, e3, e1 l hl, e2 l hl, if_true]
    · exact e4
  · -- at least one multipole from 2 on
    push Not at hl
    set q := (lmax - 2) / nlb with hq
    have hG : linG nlb lmax = (q : ℤ) := by unfold linG; rw [if_neg (by omega)]
    have hqle : q * nlb ≤ lmax - 2 := Nat.div_mul_le_self _ _
    have hqlt : lmax - 2 < (q + 1) * nlb := by
      have := Nat.lt_div_mul_add (a := lmax - 2) (b := nlb) (by omega)
      rw [Nat.add_mul, one_mul]; exact this
    have hmod : ∀ l, 2 ≤ l → l ≤ lmax → ((l - 2) / nlb = q ↔ 2 + q * nlb ≤ l) := by
      intro l h2 h3
      constructor
      · intro h
        have := Nat.div_mul_le_self (l - 2) nlb
        rw [h] at this; omega
      · intro h
        apply le_antisymm
        · exact Nat.div_le_div_right (by omega)
        · rw [Nat.le_div_iff_mul_le (by omega)]; omega
    have hGq : ∀ l, l < lmax + 1 → (linG nlb l = (q : ℤ) ↔ 2 + q * nlb ≤ l) := by
      intro l h3
      unfold linG
      by_cases h2 : l < 2
      · rw [if_pos h2]; constructor
        · intro h; exact absurd h (by have := Int.natCast_nonneg q; intro h; linarith)
        · intro h; omega
      · rw [if_neg h2, Int.natCast_inj]
        exact hmod l (by omega) (by omega)
    have hcount : (((List.range (lmax + 1)).map (linG nlb)).filter (· = linG nlb lmax)).length =
        lmax + 1 - (2 + q * nlb) := by
      rw [List.filter_map, List.length_map, hG]
      rw [filter_range_interval (lmax + 1) (2 + q * nlb) (lmax + 1) _ (by omega) le_rfl]
      · simp
      · intro l hlt
        simp only [Function.comp_apply, decide_eq_true_eq]
        rw [hGq l hlt]
        constructor
        · intro h; exact ⟨h, hlt⟩
        · intro h; exact h.1
    rw [hcount, hG]
    have hdiv : (lmax - 1) / nlb = if lmax + 1 - (2 + q * nlb) = nlb then q + 1 else q := by
      split_ifs with h
      · have : lmax - 1 = (q + 1) * nlb := by rw [Nat.add_mul, one_mul]; omega
        rw [this, Nat.mul_div_cancel _ (by omega)]
      · rw [Nat.add_mul, one_mul] at hqlt
        apply le_antisymm
        · rw [← Nat.lt_succ_iff, Nat.div_lt_iff_lt_mul (by omega), Nat.succ_mul]; omega
        · rw [Nat.le_div_iff_mul_le (by omega)]; omega
    split_ifs with h
    · rw [if_neg h] at hdiv
      rw [List.map_map]
      apply List.map_congr_left
      intro l hl
      have hl : l < lmax + 1 := by simpa using hl
      simp only [Function.comp_apply]
      unfold linBpw
      rw [hdiv]
      by_cases h2 : l < 2
      · rw [if_neg (show ¬ (2 ≤ l ∧ (l - 2) / nlb < q) by omega)]
        split_ifs
        · rfl
        · unfold linG; rw [if_pos h2]
      · by_cases h3 : linG nlb l = (q : ℤ)
        · rw [if_pos h3, if_neg]
          have := (hmod l (by omega) (by omega)).2 ((hGq l hl).1 h3)
          omega
        · rw [if_neg h3]
          have h4 : (l - 2) / nlb ≠ q := by
            intro h4; exact h3 ((hGq l hl).2 ((hmod l (by omega) (by omega)).1 h4))
          have h5 : (l - 2) / nlb ≤ q := Nat.div_le_div_right (by omega)
          rw [if_pos ⟨by omega, by omega⟩]
          unfold linG; rw [if_neg h2]
    · have h : lmax + 1 - (2 + q * nlb) = nlb := not_not.1 h
      rw [if_pos h] at hdiv
      apply List.map_congr_left
      intro l hl
      have hl : l < lmax + 1 := by simpa using hl
      unfold linBpw linG
      rw [hdiv]
      by_cases h2 : l < 2
      · rw [if_pos h2, if_neg (by omega)]
      · have h5 : (l - 2) / nlb ≤ q := Nat.div_le_div_right (by omega)
        rw [if_neg h2, if_pos ⟨by omega, by omega⟩]

theorem linBpw_eq_iff (lmax nlb l b : ℕ) (hn : 1 ≤ nlb) :
    linBpw lmax nlb l = (b : ℤ) ↔
      b < (lmax - 1) / nlb ∧ 2 + b * nlb ≤ l ∧ l < 2 + (b + 1) * nlb := by
  unfold linBpw
  split_ifs with h
  · rw [Int.natCast_inj]
    constructor
    · intro hb
      refine ⟨by omega, ?_, ?_⟩
      · have := Nat.div_mul_le_self (l - 2) nlb
        rw [hb] at this; omega
      · have := Nat.lt_div_mul_add (a := l - 2) (b := nlb) (by omega)
        rw [hb] at this; rw [Nat.add_mul, one_mul]; omega
    · rintro ⟨_, h2, h3⟩
      rw [Nat.add_mul, one_mul] at h3
      apply le_antisymm
      · rw [← Nat.lt_succ_iff, Nat.div_lt_iff_lt_mul (by omega), Nat.succ_mul]; omega
      · rw [Nat.le_div_iff_mul_le (by omega)]; omega
  · constructor
    · intro hb; exact hb.elim
    · rintro ⟨h1, h2, h3⟩
      exfalso; apply h
      refine ⟨by omega, ?_⟩
      rw [Nat.add_mul, one_mul] at h3
      have : (l - 2) / nlb = b := by
        apply le_antisymm
        · rw [← Nat.lt_succ_iff, Nat.div_lt_iff_lt_mul (by omega), Nat.succ_mul]; omega
        · rw [Nat.le_div_iff_mul_le (by omega)]; omega
      omega

end NaMaster
