import Verif.Maps.Model
import Mathlib.Tactic.Linarith
import Mathlib.Tactic.Ring
import Mathlib.Tactic.NormNum
import Mathlib.Tactic.IntervalCases
import Mathlib.Tactic.SplitIfs
import Mathlib.Tactic.FieldSimp
import Mathlib.Tactic.Push

/-! # Auxiliary results on pixelisations -/

namespace NaMaster

open Finset

/-! ## The search for `nside` -/

theorem twelve_pow (k : ℕ) : 12 * 2 ^ k * 2 ^ k = 12 * 4 ^ k := by
  rw [mul_assoc, ← pow_add, ← two_mul, pow_mul]; norm_num

theorem pySearch_spec (len : ℕ) : ∀ f j, j ≤ 16 → 17 ≤ f + j →
    (∃ k, j ≤ k ∧ k ≤ 16 ∧ len = 12 * 4 ^ k ∧ pySearch len f (2 ^ j) = some (.ok (2 ^ k))) ∨
    ((∀ k, j ≤ k → k ≤ 16 → len ≠ 12 * 4 ^ k) ∧ pySearch len f (2 ^ j) = some (.raises .value)) := by
  intro f
  induction f with
  | zero => intro j h1 h2; omega
  | succ f ih =>
    intro j h1 h2
    unfold pySearch
    by_cases hl : 12 * 2 ^ j * 2 ^ j = len
    · left
      exact ⟨j, le_refl _, h1, by rw [← twelve_pow, hl], by rw [if_pos hl]⟩
    · rw [if_neg hl]
      have hl' : len ≠ 12 * 4 ^ j := by rw [← twelve_pow]; exact fun h => hl h.symm
      by_cases hj : j = 16
      · right
        subst hj
        refine ⟨fun k hk hk' => ?_, by rw [if_pos (by norm_num)]⟩
        have : k = 16 := by omega
        subst this; exact hl'
      · have h3 : ¬ (2 ^ j * 2 > 65536) := by
          have : 2 ^ (j + 1) ≤ 2 ^ 16 := Nat.pow_le_pow_right (by norm_num) (by omega)
          rw [pow_succ] at this; push Not; exact this
        rw [if_neg h3, ← pow_succ]
        rcases ih (j + 1) (by omega) (by omega) with ⟨k, ha, hb, hc, hd⟩ | ⟨ha, hb⟩
        · left; exact ⟨k, by omega, hb, hc, hd⟩
        · right
          refine ⟨fun k hk hk' => ?_, hb⟩
          rcases Nat.lt_or_ge j k with h | h
          · exact ha k h hk'
          · have : k = j := by omega
            subst this; exact hl'

theorem cSearch_spec (len : ℕ) : ∀ f j, j ≤ 17 → 18 ≤ f + j →
    (∃ k, j ≤ k ∧ k ≤ 17 ∧ len = 12 * 4 ^ k ∧ cSearch len f (2 ^ j) = some (.ok (2 ^ k))) ∨
    ((∀ k, j ≤ k → k ≤ 17 → len ≠ 12 * 4 ^ k) ∧ cSearch len f (2 ^ j) = some (.raises .runtime)) := by
  intro f
  induction f with
  | zero => intro j h1 h2; omega
  | succ f ih =>
    intro j h1 h2
    unfold cSearch
    by_cases hl : len = 12 * 2 ^ j * 2 ^ j
    · left
      exact ⟨j, le_refl _, h1, by rw [← twelve_pow, hl], by rw [if_pos hl]⟩
    · rw [if_neg hl]
      have hl' : len ≠ 12 * 4 ^ j := by rw [← twelve_pow]; exact hl
      by_cases hj : j = 17
      · right
        subst hj
        refine ⟨fun k hk hk' => ?_, by rw [if_pos (by norm_num)]⟩
        have : k = 17 := by omega
        subst this; exact hl'
      · have h3 : ¬ ¬ (2 ^ j ≤ 65536) := by
          have : 2 ^ j ≤ 2 ^ 16 := Nat.pow_le_pow_right (by norm_num) (by omega)
          push Not; exact this
        rw [if_neg h3, ← pow_succ]
        rcases ih (j + 1) (by omega) (by omega) with ⟨k, ha, hb, hc, hd⟩ | ⟨ha, hb⟩
        · left; exact ⟨k, by omega, hb, hc, hd⟩
        · right
          refine ⟨fun k hk hk' => ?_, hb⟩
          rcases Nat.lt_or_ge j k with h | h
          · exact ha k h hk'
          · have : k = j := by omega
            subst this; exact hl'

theorem four_pow_inj {a b : ℕ} (h : 12 * 4 ^ a = 12 * 4 ^ b) : a = b :=
  Nat.pow_right_injective (le_refl 2 |>.trans (by norm_num : (2:ℕ) ≤ 4)) (by
    have : (4:ℕ) ^ a = 4 ^ b := by omega
    exact this)

/-! ## Consecutive blocks -/

/-- Consecutive blocks of lengths `c i` cover everything below the total. -/
theorem exists_block (c : ℕ → ℕ) : ∀ N p, p < ∑ j ∈ range N, c j →
    ∃ i, i < N ∧ ∑ j ∈ range i, c j ≤ p ∧ p < ∑ j ∈ range (i + 1), c j := by
  intro N
  induction N with
  | zero => intro p hp; simp at hp
  | succ N ih =>
    intro p hp
    by_cases h : p < ∑ j ∈ range N, c j
    · obtain ⟨i, h1, h2, h3⟩ := ih p h
      exact ⟨i, by omega, h2, h3⟩
    · exact ⟨N, by omega, by omega, hp⟩

theorem psum_mono (c : ℕ → ℕ) {i j : ℕ} (h : i ≤ j) :
    ∑ k ∈ range i, c k ≤ ∑ k ∈ range j, c k :=
  Finset.sum_le_sum_of_subset (Finset.range_mono h)

/-- The block of a position is unique. -/
theorem block_unique (c : ℕ → ℕ) {i j p : ℕ}
    (h1 : ∑ k ∈ range i, c k ≤ p) (h2 : p < ∑ k ∈ range (i + 1), c k)
    (h3 : ∑ k ∈ range j, c k ≤ p) (h4 : p < ∑ k ∈ range (j + 1), c k) : i = j := by
  by_contra hne
  rcases Nat.lt_or_gt_of_ne hne with h | h
  · have := psum_mono c (show i + 1 ≤ j from h); omega
  · have := psum_mono c (show j + 1 ≤ i from h); omega

/-! ## Rings -/

theorem ring_next (n r : ℤ) (h1 : 1 ≤ r) (h2 : r + 1 ≤ 4 * n - 1) :
    (ringLimits n (r + 1)).1 = (ringLimits n r).2 + 1 := by
  unfold ringLimits
  by_cases a : n ≤ r ∧ r ≤ 3 * n
  · rw [if_pos a]
    by_cases b : n ≤ r + 1 ∧ r + 1 ≤ 3 * n
    · rw [if_pos b]; simp only; ring
    · rw [if_neg b, if_neg (by omega)]
      have : r = 3 * n := by omega
      subst this; simp only; ring
  · rw [if_neg a]
    by_cases b : r < n
    · rw [if_pos b]
      by_cases c : r + 1 < n
      · rw [if_neg (by omega), if_pos c]; simp only; ring
      · rw [if_pos (by omega)]
        have : r = n - 1 := by omega
        subst this; simp only; ring
    · rw [if_neg b, if_neg (by omega), if_neg (by omega)]; simp only; ring

theorem ring_len (n i : ℕ) (hn : 1 ≤ n) (h2 : i + 1 ≤ 4 * n - 1) :
    (ringLimits n (i + 1)).2 = (ringLimits n (i + 1)).1 + pyNphi n i - 1 := by
  have hn' : (northring n (i + 1) : ℤ) = if (i : ℤ) + 1 > 2 * n then 4 * (n:ℤ) - (i + 1) else i + 1 := by
    unfold northring
    by_cases h : i + 1 > 2 * n
    · rw [if_pos h, if_pos (by omega)]; omega
    · rw [if_neg h, if_neg (by omega)]; push_cast; ring
  have hp : (pyNphi n i : ℤ) = if (northring n (i + 1) : ℤ) < n then 4 * (northring n (i + 1) : ℤ) else 4 * n := by
    unfold pyNphi
    by_cases h : northring n (i + 1) < n
    · rw [if_pos h, if_pos (by omega)]; push_cast; ring
    · rw [if_neg h, if_neg (by omega)]; push_cast; ring
  rw [hp, hn']
  unfold ringLimits
  by_cases a : (n:ℤ) ≤ i + 1 ∧ (i:ℤ) + 1 ≤ 3 * n
  · rw [if_pos a, if_neg (by split_ifs <;> omega)]
  · rw [if_neg a]
    by_cases b : (i:ℤ) + 1 < n
    · rw [if_pos b, if_neg (show ¬ ((i:ℤ) + 1 > 2 * n) by omega), if_pos b]
    · rw [if_neg b, if_pos (show (i:ℤ) + 1 > 2 * n by omega), if_pos (by omega)]

theorem ring_first (n : ℤ) (hn : 1 ≤ n) : (ringLimits n 1).1 = 0 := by
  unfold ringLimits
  by_cases h : n ≤ 1
  · have : n = 1 := by omega
    subst this; simp
  · rw [if_neg (by omega), if_pos (by omega)]; simp

theorem ring_last (n : ℤ) (hn : 1 ≤ n) : (ringLimits n (4 * n - 1)).2 = 12 * n * n - 1 := by
  unfold ringLimits
  by_cases h : n ≤ 1
  · have : n = 1 := by omega
    subst this; simp
  · rw [if_neg (by omega), if_neg (by omega)]; simp only; ring

theorem pyOffset_eq (n : ℕ) (hn : 1 ≤ n) : ∀ i, i + 1 ≤ 4 * n - 1 →
    (pyOffset n i : ℤ) = (ringLimits n (i + 1)).1 := by
  intro i
  induction i with
  | zero =>
    intro _
    rw [Nat.cast_zero, zero_add, ring_first _ (by omega)]; simp [pyOffset]
  | succ i ih =>
    intro h
    have h1 := ih (by omega)
    have h2 := ring_len n i hn (by omega)
    have h3 := ring_next n (i + 1) (by omega) (by omega)
    have : pyOffset n (i + 1) = pyOffset n i + pyNphi n i := by
      unfold pyOffset; rw [sum_range_succ]
    rw [this]; push_cast
    rw [h3, h2, h1]; ring

/-- The offsets reach the number of pixels. -/
theorem pyOffset_total (n : ℕ) (hn : 1 ≤ n) : pyOffset n (4 * n - 1) = 12 * n * n := by
  obtain ⟨i, hi⟩ : ∃ i, 4 * n - 1 = i + 1 := ⟨4 * n - 2, by omega⟩
  have : pyOffset n (i + 1) = pyOffset n i + pyNphi n i := by
    unfold pyOffset; rw [sum_range_succ]
  rw [hi, this]
  have h1 := pyOffset_eq n hn i (by omega)
  have h2 := ring_len n i hn (by omega)
  have h3 := ring_last n (by omega)
  have h4 : (4 * (n:ℤ) - 1) = i + 1 := by omega
  rw [h4] at h3
  have : ((pyOffset n i + pyNphi n i : ℕ) : ℤ) = ((12 * n * n : ℕ) : ℤ) := by
    push_cast; rw [h1]; linarith
  exact_mod_cast this

/-! ## Coefficient tables -/

theorem mstart_two (lmax m : ℕ) (h : m ≤ lmax) : 2 * mstart lmax m = m * (2 * lmax + 1 - m) := by
  unfold mstart
  apply Nat.mul_div_cancel'
  rcases Nat.even_or_odd m with hm | hm
  · exact dvd_mul_of_dvd_left hm.two_dvd _
  · apply dvd_mul_of_dvd_right
    obtain ⟨k, hk⟩ := hm
    exact ⟨lmax - k, by omega⟩

theorem mstart_block (lmax m : ℕ) (h : m ≤ lmax) :
    mstart lmax m + m = ∑ k ∈ range m, (lmax + 1 - k) := by
  induction m with
  | zero => simp [mstart]
  | succ m ih =>
    rw [sum_range_succ, ← ih (by omega)]
    have h1 := mstart_two lmax m (by omega)
    have h2 := mstart_two lmax (m + 1) h
    obtain ⟨d, rfl⟩ : ∃ d, lmax = m + 1 + d := ⟨lmax - (m + 1), by omega⟩
    have e1 : 2 * (m + 1 + d) + 1 - m = m + 2 * d + 3 := by omega
    have e2 : 2 * (m + 1 + d) + 1 - (m + 1) = m + 2 * d + 2 := by omega
    have e3 : m + 1 + d + 1 - m = d + 2 := by omega
    rw [e1] at h1; rw [e2] at h2; rw [e3]
    nlinarith

theorem mstart_mono (lmax : ℕ) {a b : ℕ} (h : a ≤ b) (hb : b ≤ lmax) : mstart lmax a ≤ mstart lmax b := by
  have h1 := mstart_two lmax a (by omega)
  have h2 := mstart_two lmax b hb
  obtain ⟨d, rfl⟩ : ∃ d, b = a + d := ⟨b - a, by omega⟩
  obtain ⟨e, rfl⟩ : ∃ e, lmax = a + d + e := ⟨lmax - (a + d), by omega⟩
  have e1 : 2 * (a + d + e) + 1 - a = a + 2 * d + 2 * e + 1 := by omega
  have e2 : 2 * (a + d + e) + 1 - (a + d) = a + d + 2 * e + 1 := by omega
  rw [e1] at h1; rw [e2] at h2
  nlinarith [Nat.zero_le (d * e), Nat.zero_le (d * d), Nat.zero_le d]

theorem nelem_eq (lmax : ℕ) : nelem lmax = mstart lmax lmax + (lmax + 1) := by
  unfold nelem
  congr 1
  apply le_antisymm
  · apply Finset.sup_le
    intro m hm
    exact mstart_mono lmax (by simpa [Nat.lt_succ_iff] using hm) (le_refl _)
  · exact Finset.le_sup (f := mstart lmax) (by simp)

theorem nelem_two (lmax : ℕ) : 2 * nelem lmax = (lmax + 1) * (lmax + 2) := by
  rw [nelem_eq, mul_add, mstart_two lmax lmax (le_refl _)]
  have : 2 * lmax + 1 - lmax = lmax + 1 := by omega
  rw [this]; ring

theorem nelem_block (lmax : ℕ) : nelem lmax = ∑ k ∈ range (lmax + 1), (lmax + 1 - k) := by
  rw [sum_range_succ, ← mstart_block lmax lmax (le_refl _), nelem_eq]
  omega

end NaMaster
