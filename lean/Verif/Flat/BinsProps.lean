import Verif.Flat.Bins
import Mathlib.Data.Rat.Defs
import Mathlib.Algebra.Order.Ring.Rat
import Mathlib.Tactic.Linarith
import Mathlib.Tactic.FieldSimp
import Mathlib.Tactic.Ring
import Mathlib.Tactic.NormNum
import Mathlib.Tactic.SplitIfs

/-! # Flat-sky bandpowers: C40 and C57 -/

set_option linter.unusedSectionVars false

namespace NaMaster

variable {K : Type*} [Field K] [LinearOrder K] [IsStrictOrderedRing K]

/-! ## Specification -/

/-- The multipole `l` lies in band `i`, that is in `[ell_0, ell_f)` of that band. -/
def InBand (b : FlatBins K) (i : ℕ) (l : K) : Prop := i < b.nBands ∧ b.ell0 i ≤ l ∧ l < b.ellf i

/-- `r` is the right answer to the question which band contains `l`; `-1` stands for none. -/
def RightBand (b : FlatBins K) (l : K) (r : ℤ) : Prop :=
  (∃ i, InBand b i l ∧ r = i) ∨ (r = -1 ∧ ∀ i, ¬ InBand b i l)

/-- The bands are given in increasing order, are not empty and do not overlap. -/
structure OrderedBands (b : FlatBins K) : Prop where
  proper : ∀ i, i < b.nBands → b.ell0 i < b.ellf i
  ordered : ∀ i, i + 1 < b.nBands → b.ellf i ≤ b.ell0 (i + 1)

/-- Moreover each band begins where the one before ends. -/
structure GaplessBands (b : FlatBins K) : Prop extends OrderedBands b where
  gapless : ∀ i, i + 1 < b.nBands → b.ellf i = b.ell0 (i + 1)

/-! ## Lemmas -/

theorem OrderedBands.f_le_0 {b : FlatBins K} (h : OrderedBands b) {i j : ℕ} (hij : i < j) (hj : j < b.nBands) :
    b.ellf i ≤ b.ell0 j := by
  induction j, hij using Nat.le_induction with
  | base => exact h.ordered i hj
  | succ j hij ih =>
    exact (ih (by omega)).trans ((h.proper j (by omega)).le.trans (h.ordered j hj))

theorem OrderedBands.zero_le_0 {b : FlatBins K} (h : OrderedBands b) {i j : ℕ} (hij : i ≤ j) (hj : j < b.nBands) :
    b.ell0 i ≤ b.ell0 j := by
  rcases hij.eq_or_lt with rfl | hij
  · exact le_refl _
  · exact (h.proper i (by omega)).le.trans (h.f_le_0 hij hj)

theorem OrderedBands.f_le_f {b : FlatBins K} (h : OrderedBands b) {i j : ℕ} (hij : i ≤ j) (hj : j < b.nBands) :
    b.ellf i ≤ b.ellf j := by
  rcases hij.eq_or_lt with rfl | hij
  · exact le_refl _
  · exact (h.f_le_0 hij hj).trans (h.proper j hj).le

theorem searchBack_spec (b : FlatBins K) (l : K) (n : ℕ) :
    (∃ i, i < n ∧ b.ell0 i ≤ l ∧ (∀ j, i < j → j < n → l < b.ell0 j) ∧ searchBack b l n = i) ∨
      ((∀ j, j < n → l < b.ell0 j) ∧ searchBack b l n = -1) := by
  induction n with
  | zero => right; exact ⟨fun j hj => by omega, rfl⟩
  | succ n ih =>
    unfold searchBack
    by_cases hl : l < b.ell0 n
    · rw [if_pos hl]
      rcases ih with ⟨i, h1, h2, h3, h4⟩ | ⟨h1, h2⟩
      · left
        refine ⟨i, by omega, h2, fun j hj hjn => ?_, h4⟩
        rcases Nat.lt_succ_iff_lt_or_eq.1 hjn with h | rfl
        · exact h3 j hj h
        · exact hl
      · right
        refine ⟨fun j hj => ?_, h2⟩
        rcases Nat.lt_succ_iff_lt_or_eq.1 hj with h | rfl
        · exact h1 j h
        · exact hl
    · rw [if_neg hl]
      left
      exact ⟨n, by omega, not_lt.1 hl, fun j h h' => by omega, rfl⟩

theorem searchForward_spec (b : FlatBins K) (l : K) (k i : ℕ) :
    (∃ m, i ≤ m ∧ m < i + k ∧ l < b.ellf m ∧ (∀ j, i ≤ j → j < m → b.ellf j ≤ l) ∧ searchForward b l k i = m) ∨
      ((∀ j, i ≤ j → j < i + k → b.ellf j ≤ l) ∧ searchForward b l k i = -1) := by
  induction k generalizing i with
  | zero => right; exact ⟨fun j hj => by omega, rfl⟩
  | succ k ih =>
    unfold searchForward
    by_cases hl : b.ellf i ≤ l
    · rw [if_pos hl]
      rcases ih (i + 1) with ⟨m, h1, h2, h3, h4, h5⟩ | ⟨h1, h2⟩
      · left
        refine ⟨m, by omega, by omega, h3, fun j hj hjn => ?_, h5⟩
        rcases hj.eq_or_lt with rfl | h
        · exact hl
        · exact h4 j h hjn
      · right
        refine ⟨fun j hj hjn => ?_, h2⟩
        rcases hj.eq_or_lt with rfl | h
        · exact hl
        · exact h1 j h (by omega)
    · rw [if_neg hl]
      left
      exact ⟨i, le_refl _, by omega, not_le.1 hl, fun j h h' => by omega, rfl⟩

theorem searchFast_total (b : FlatBins K) (l : K) (il : ℤ) (h0 : 0 < b.nBands) (hil : il < b.nBands) :
    ∃ r : ℤ, searchFast b l il = .ok r ∧ -1 ≤ r ∧ r < b.nBands := by
  have hi : il.toNat < b.nBands := by omega
  unfold searchFast
  simp only
  rw [if_neg (by omega)]
  by_cases h1 : l < b.ell0 il.toNat
  · rw [if_pos h1]
    rcases searchBack_spec b l il.toNat with ⟨i, h, _, _, h'⟩ | ⟨_, h'⟩
    · exact ⟨_, rfl, by omega, by omega⟩
    · exact ⟨_, rfl, by omega, by omega⟩
  · rw [if_neg h1]
    by_cases h2 : b.ellf il.toNat ≤ l
    · rw [if_pos h2]
      rcases searchForward_spec b l (b.nBands - (il.toNat + 1)) (il.toNat + 1) with ⟨i, _, h, _, _, h'⟩ | ⟨_, h'⟩
      · exact ⟨_, rfl, by omega, by omega⟩
      · exact ⟨_, rfl, by omega, by omega⟩
    · rw [if_neg h2]
      exact ⟨_, rfl, by omega, by omega⟩

/-! ## C40 -/

/-- C40, bands in order, possibly with gaps: a multipole lying in a band is assigned to this band, whatever has been
looked up before. -/
theorem C40_contained_partial (b : FlatBins K) (hb : OrderedBands b) (l : K) (i : ℕ) (hl : InBand b i l) (hint : ℤ)
    (hh : hint < b.nBands) : searchFast b l hint = .ok (i : ℤ) := by
  obtain ⟨hi, hl0, hlf⟩ := hl
  have hn : hint.toNat < b.nBands := by omega
  unfold searchFast
  simp only
  rw [if_neg (by omega)]
  by_cases h1 : l < b.ell0 hint.toNat
  · rw [if_pos h1]
    have hlt : i < hint.toNat := by
      by_contra hc
      exact absurd (hb.zero_le_0 (not_lt.1 hc) hi) (not_le.2 (lt_of_le_of_lt hl0 h1))
    rcases searchBack_spec b l hint.toNat with ⟨m, h2, h3, h4, h5⟩ | ⟨h2, _⟩
    · rw [h5]
      rcases lt_trichotomy i m with h | h | h
      · exact absurd (hb.f_le_0 h (by omega)) (not_le.2 (lt_of_le_of_lt h3 hlf))
      · rw [h]
      · exact absurd (h4 i h hlt) (not_lt.2 hl0)
    · exact absurd (h2 i hlt) (not_lt.2 hl0)
  · rw [if_neg h1]
    by_cases h2 : b.ellf hint.toNat ≤ l
    · rw [if_pos h2]
      have hlt : hint.toNat < i := by
        by_contra hc
        exact absurd (hb.f_le_f (not_lt.1 hc) hn) (not_le.2 (lt_of_le_of_lt h2 hlf))
      rcases searchForward_spec b l (b.nBands - (hint.toNat + 1)) (hint.toNat + 1) with ⟨m, h3, h4, h5, h6, h7⟩ | ⟨h3, _⟩
      · rw [h7]
        rcases lt_trichotomy i m with h | h | h
        · exact absurd (h6 i hlt h) (not_le.2 hlf)
        · rw [h]
        · exact absurd (hb.f_le_0 h hi) (not_le.2 (lt_of_le_of_lt hl0 h5))
      · exact absurd (h3 i hlt (by omega)) (not_le.2 hlf)
    · rw [if_neg h2]
      rcases lt_trichotomy i hint.toNat with h | h | h
      · exact absurd (hb.f_le_0 h hn) (not_le.2 (lt_of_le_of_lt (not_lt.1 h1) hlf))
      · rw [h]
      · exact absurd (hb.f_le_0 h hi) (not_le.2 (lt_of_le_of_lt hl0 (not_le.1 h2)))

/-- C40, bands without gaps: each multipole is assigned to the band containing it, or to none if there is none,
whatever has been looked up before. Missing: the claim is false for bands with gaps (`C40_gap_wrong`) and for bands
that are not in order (`C40_unsorted_wrong`), which the constructor accepts. -/
theorem C40_search_partial (b : FlatBins K) (hb : GaplessBands b) (h0 : 0 < b.nBands) (l : K) (hint : ℤ)
    (hh : hint < b.nBands) : ∃ r, searchFast b l hint = .ok r ∧ RightBand b l r := by
  by_cases hex : ∃ i, InBand b i l
  · obtain ⟨i, hi⟩ := hex
    exact ⟨i, C40_contained_partial b hb.toOrderedBands l i hi hint hh, Or.inl ⟨i, hi, rfl⟩⟩
  have hno : ∀ i, ¬ InBand b i l := fun i hi => hex ⟨i, hi⟩
  refine ⟨-1, ?_, Or.inr ⟨rfl, hno⟩⟩
  have hn : hint.toNat < b.nBands := by omega
  -- below all bands or above all bands
  have key : (∀ i, i < b.nBands → l < b.ell0 i) ∨ (∀ i, i < b.nBands → b.ellf i ≤ l) := by
    by_cases hl : l < b.ell0 0
    · exact Or.inl fun i hi => lt_of_lt_of_le hl (hb.toOrderedBands.zero_le_0 (Nat.zero_le i) hi)
    · right
      intro i
      induction i with
      | zero => intro hi; exact not_lt.1 fun h => hno 0 ⟨hi, not_lt.1 hl, h⟩
      | succ i ih =>
        intro hi
        have := ih (by omega)
        rw [hb.gapless i hi] at this
        exact not_lt.1 fun h => hno (i + 1) ⟨hi, this, h⟩
  unfold searchFast
  simp only
  rw [if_neg (by omega)]
  rcases key with h | h
  · rw [if_pos (h _ hn)]
    rcases searchBack_spec b l hint.toNat with ⟨m, h2, h3, _, _⟩ | ⟨_, h2⟩
    · exact absurd (h m (by omega)) (not_lt.2 h3)
    · rw [h2]
  · rw [if_neg (fun h1 => absurd (hb.proper _ hn) (not_lt.2 ((h _ hn).trans h1.le))), if_pos (h _ hn)]
    rcases searchForward_spec b l (b.nBands - (hint.toNat + 1)) (hint.toNat + 1) with ⟨m, h3, h4, h5, _, _⟩ | ⟨_, h3⟩
    · exact absurd (h m (by omega)) (not_le.2 h5)
    · rw [h3]

/-- The band containing a multipole is unique. -/
theorem C40_unique (b : FlatBins K) (hb : OrderedBands b) (l : K) (r r' : ℤ) (h : RightBand b l r)
    (h' : RightBand b l r') : r = r' := by
  rcases h with ⟨i, hi, rfl⟩ | ⟨rfl, hn⟩ <;> rcases h' with ⟨j, hj, rfl⟩ | ⟨rfl, hn'⟩
  · have h1 := C40_contained_partial b hb l i hi 0 (by exact_mod_cast lt_of_le_of_lt (Nat.zero_le i) hi.1)
    have h2 := C40_contained_partial b hb l j hj 0 (by exact_mod_cast lt_of_le_of_lt (Nat.zero_le i) hi.1)
    rw [h1] at h2
    injection h2
  · exact absurd hi (hn' i)
  · exact absurd hj (hn j)
  · rfl

/-- C40: in a sequence of look-ups, each handing its result to the next, every result is right. -/
theorem C40_history_partial (b : FlatBins K) (hb : GaplessBands b) (h0 : 0 < b.nBands) (ls : List K) (hint : ℤ)
    (hh : hint < b.nBands) : ∃ rs, searchLoop b hint ls = .ok rs ∧ List.Forall₂ (RightBand b) ls rs := by
  induction ls generalizing hint with
  | nil => exact ⟨[], rfl, .nil⟩
  | cons l ls ih =>
    obtain ⟨r, h1, h2⟩ := C40_search_partial b hb h0 l hint hh
    obtain ⟨r', h3, _, h4⟩ := searchFast_total b l hint h0 hh
    have : r = r' := by rw [h1] at h3; injection h3
    subst this
    obtain ⟨rs, h5, h6⟩ := ih r h4
    refine ⟨r :: rs, ?_, .cons h2 h6⟩
    unfold searchLoop
    rw [h1]
    simp only [Outcome.bind, h5]

/-- C40: for any list of bands, also in the wrong order, no sequence of look-ups reads outside the lists of edges,
provided there is at least one band. -/
theorem C40_in_range (b : FlatBins K) (h0 : 0 < b.nBands) (ls : List K) (hint : ℤ) (hh : hint < b.nBands) :
    ∃ rs, searchLoop b hint ls = .ok rs ∧ rs.length = ls.length ∧ ∀ r ∈ rs, -1 ≤ r ∧ r < b.nBands := by
  induction ls generalizing hint with
  | nil => exact ⟨[], rfl, rfl, by simp⟩
  | cons l ls ih =>
    obtain ⟨r, h3, h3', h4⟩ := searchFast_total b l hint h0 hh
    obtain ⟨rs, h5, h6, h7⟩ := ih r h4
    refine ⟨r :: rs, ?_, by simp [h6], by simpa using ⟨⟨h3', h4⟩, h7⟩⟩
    unfold searchLoop
    rw [h3]
    simp only [Outcome.bind, h5]

/-- C40: a scheme without bands is accepted, and the first look-up in it reads outside the lists of edges. -/
theorem C40_empty_scheme (l : K) (ls : List K) : ∃ b : FlatBins K, flatBinsCreate [] [] = .ok b ∧
    unbinCellFlat b [] (l :: ls) = .crash := ⟨_, rfl, rfl⟩

/-- C40 is false for bands with gaps: there is a list of bands in order and a multipole in no band, which is assigned
to the second band after a look-up in the first one, and to the first band after a look-up in the second one. -/
theorem C40_gap_wrong : ∃ b : FlatBins ℚ, flatBinsCreate [0, 4] [2, 6] = .ok b ∧ OrderedBands b ∧
    (∀ i, ¬ InBand b i 3) ∧ searchLoop b 0 [1, 3] = .ok [0, 1] ∧ searchLoop b 0 [5, 3] = .ok [1, 0] := by
  refine ⟨_, rfl, ⟨?_, ?_⟩, ?_, by decide +kernel, by decide +kernel⟩
  · intro i hi
    rcases i with _ | _ | i
    · decide +kernel
    · decide +kernel
    · exact absurd hi (by simp)
  · intro i hi
    rcases i with _ | i
    · decide +kernel
    · exact absurd hi (by simp)
  · rintro i ⟨hi, h⟩
    rcases i with _ | _ | i
    · exact absurd h (by decide +kernel)
    · exact absurd h (by decide +kernel)
    · exact absurd hi (by simp)

/-- C40 is false for bands that are not in order: a multipole lying in the second band is not found. -/
theorem C40_unsorted_wrong : ∃ b : FlatBins ℚ, flatBinsCreate [4, 0] [6, 2] = .ok b ∧ InBand b 1 1 ∧
    searchLoop b 0 [1] = .ok [-1] :=
  ⟨_, rfl, ⟨by decide, by decide +kernel, by decide +kernel⟩, by decide +kernel⟩

/-- C40: `nmt_bins_flat_constant` gives bands without gaps. -/
theorem C40_constant (nlb : ℤ) (h : 0 < nlb) (nband : ℕ) : GaplessBands (flatBinsConstant (K := K) nlb nband) := by
  refine { proper := fun i hi => ?_, ordered := fun i hi => ?_, gapless := fun i hi => ?_ }
  · simp only [flatBinsConstant] at hi ⊢
    rw [tab_of_lt _ hi, tab_of_lt _ hi]
    exact_mod_cast (by nlinarith : 2 + nlb * (i : ℤ) < 2 + nlb * ((i : ℤ) + 1))
  · simp only [flatBinsConstant] at hi ⊢
    rw [tab_of_lt _ (by omega), tab_of_lt _ hi]
    push_cast
    exact le_refl _
  · simp only [flatBinsConstant] at hi ⊢
    rw [tab_of_lt _ (by omega), tab_of_lt _ hi]
    push_cast
    rfl

/-- C40: `unbin_cell` gives each multipole the value of the band containing it, and -999 if there is none. -/
theorem C40_unbin_partial (b : FlatBins K) (hb : GaplessBands b) (h0 : 0 < b.nBands) (cls larr : List K)
    (hc : cls.length = b.nBands) :
    ∃ out, unbinCellFlat b cls larr = .ok out ∧
      List.Forall₂ (fun l v => (∃ i, InBand b i l ∧ v = cls.getD i 0) ∨ ((∀ i, ¬ InBand b i l) ∧ v = -999)) larr out := by
  obtain ⟨rs, h1, h2⟩ := C40_history_partial b hb h0 larr 0 (by exact_mod_cast h0)
  refine ⟨_, by unfold unbinCellFlat unbinRowFlat; rw [if_neg (by simp [hc]), h1]; rfl, ?_⟩
  rw [List.forall₂_map_right_iff]
  refine h2.imp fun l r h => ?_
  rcases h with ⟨i, hi, rfl⟩ | ⟨rfl, hn⟩
  · exact Or.inl ⟨i, hi, by simp⟩
  · exact Or.inr ⟨hn, by simp⟩

section examples

/-- Three bands `[2,5)`, `[5,8)`, `[8,11)` without gaps. -/
def flatExample : FlatBins ℚ := flatBinsConstant 3 3

example : GaplessBands flatExample := C40_constant 3 (by norm_num) 3
example : InBand flatExample 1 (13 / 2) := ⟨by decide, by decide +kernel, by decide +kernel⟩
example : searchLoop flatExample 2 [13 / 2, 3, 20, 9, 1] = .ok [1, 0, -1, 2, -1] := by decide +kernel
example : unbinCellFlat flatExample [10, 20, 30] [1, 2, 6, 11] = .ok [-999, 10, 20, -999] := by decide +kernel

end examples

end NaMaster
