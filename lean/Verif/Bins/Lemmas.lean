import Verif.Bins.Spec
import Mathlib.Algebra.Order.Field.Basic
import Mathlib.Algebra.Order.BigOperators.Group.List
import Mathlib.Data.List.Basic
import Mathlib.Algebra.BigOperators.Ring.List
import Mathlib.Data.List.Nodup
import Mathlib.Data.Nat.Cast.Order.Field
import Mathlib.Tactic.Ring
import Mathlib.Tactic.Linarith
import Mathlib.Tactic.FieldSimp
import Mathlib.Tactic.Positivity

/-! Helper lemmas about bandpower construction. -/

namespace NaMaster

open BinSpec

variable {K : Type*} [Field K] [LinearOrder K]

theorem foldl_max_le (es : List (Entry K)) (lmax : ℕ) (m b : ℤ) :
    b ≤ es.foldl (fun (m : ℤ) e => if e.ell ≤ lmax then (if e.bpw > m then e.bpw else m) else m) m ↔
      b ≤ m ∨ ∃ e ∈ es, e.ell ≤ lmax ∧ b ≤ e.bpw := by
  induction es generalizing m with
  | nil => simp
  | cons e es ih =>
    rw [List.foldl_cons, ih]
    simp only [List.mem_cons, exists_eq_or_imp]
    by_cases h1 : e.ell ≤ lmax
    · by_cases h2 : e.bpw > m
      · simp only [h1, h2, if_true, true_and]
        constructor
        · rintro (h | h)
          · exact Or.inr (Or.inl h)
          · exact Or.inr (Or.inr h)
        · rintro (h | h | h)
          · left; omega
          · exact Or.inl h
          · exact Or.inr h
      · simp only [h1, h2, if_true, if_false, true_and]
        constructor
        · rintro (h | h)
          · exact Or.inl h
          · exact Or.inr (Or.inr h)
        · rintro (h | h | h)
          · exact Or.inl h
          · left; omega
          · exact Or.inr h
    · simp only [h1, if_false, false_and, false_or]

theorem lt_countBands (es : List (Entry K)) (lmax b : ℕ) :
    b < countBands es lmax ↔ Used es lmax b := by
  unfold countBands Used
  have h := foldl_max_le es lmax 0 (b : ℤ)
  rw [Int.lt_toNat]
  constructor
  · intro hb
    rcases h.1 (by omega) with h0 | h1
    · left; omega
    · exact Or.inr h1
  · intro hb
    have := h.2 (by rcases hb with h0 | h1; · left; omega
                    · exact Or.inr h1)
    omega

/-- Content of a band before normalisation. -/
def rawBand (es : List (Entry K)) (lmax b : ℕ) : List (BandEntry K) :=
  (members es lmax b).map (fun e => ⟨e.ell, e.w, cleanF e.f⟩)

theorem cleanF_eq (f : K) : (if f ≤ 0 then (1 : K) else f) = cleanF f := by
  unfold cleanF
  by_cases h : 0 < f
  · rw [if_neg (not_le.2 h), if_pos h]
  · rw [if_pos (not_lt.1 h), if_neg h]

theorem length_placeEntry (lmax : ℕ) (bands : List (List (BandEntry K))) (e : Entry K) :
    (placeEntry lmax bands e).length = bands.length := by
  unfold placeEntry; split_ifs <;> simp

theorem length_foldl_placeEntry (lmax : ℕ) (es : List (Entry K)) (bands : List (List (BandEntry K))) :
    (es.foldl (placeEntry lmax) bands).length = bands.length := by
  induction es generalizing bands with
  | nil => rfl
  | cons e es ih => rw [List.foldl_cons, ih, length_placeEntry]

theorem getD_placeEntry (lmax : ℕ) (bands : List (List (BandEntry K))) (e : Entry K) (b : ℕ)
    (hb : b < bands.length) :
    (placeEntry lmax bands e).getD b [] = bands.getD b [] ++ rawBand [e] lmax b := by
  unfold placeEntry rawBand members
  by_cases h1 : e.ell ≤ lmax
  · by_cases h2 : 0 ≤ e.bpw
    · simp only [h1, h2, if_true]
      rw [List.getD_eq_getElem?_getD, List.getElem?_modify, List.getD_eq_getElem?_getD]
      by_cases h3 : e.bpw.toNat = b
      · have h4 : e.bpw = (b : ℤ) := by omega
        simp [h1, h3, h4, hb, cleanF_eq, List.filter_cons]
      · have h4 : e.bpw ≠ (b : ℤ) := by omega
        simp [h3, h4, List.filter_cons]
    · have h4 : e.bpw ≠ (b : ℤ) := by omega
      simp [h1, h2, h4, List.filter_cons]
  · simp [h1, List.filter_cons]

theorem rawBand_cons (e : Entry K) (es : List (Entry K)) (lmax b : ℕ) :
    rawBand (e :: es) lmax b = rawBand [e] lmax b ++ rawBand es lmax b := by
  unfold rawBand members
  rw [← List.map_append, ← List.filter_append]; rfl

theorem getD_foldl_placeEntry (lmax : ℕ) (es : List (Entry K)) (bands : List (List (BandEntry K)))
    (b : ℕ) (hb : b < bands.length) :
    (es.foldl (placeEntry lmax) bands).getD b [] = bands.getD b [] ++ rawBand es lmax b := by
  induction es generalizing bands with
  | nil => simp [rawBand, members]
  | cons e es ih =>
    rw [List.foldl_cons, ih _ (by rw [length_placeEntry]; exact hb), getD_placeEntry _ _ _ _ hb,
      List.append_assoc, ← rawBand_cons]

theorem placed_eq (es : List (Entry K)) (lmax : ℕ) :
    es.foldl (placeEntry lmax) (List.replicate (countBands es lmax) []) =
      (List.range (countBands es lmax)).map (rawBand es lmax) := by
  apply List.ext_getElem
  · rw [length_foldl_placeEntry]; simp
  · intro b h1 h2
    have hb : b < countBands es lmax := by simpa using h2
    have := getD_foldl_placeEntry lmax es (List.replicate (countBands es lmax) []) b (by simpa using hb)
    rw [List.getD_eq_getElem?_getD, List.getElem?_eq_getElem h1, Option.getD_some] at this
    rw [this]
    simp [hb]

/-- Sum of the weights of a band. -/
def wsum (b : List (BandEntry K)) : K := (b.map (·.w)).sum

theorem normaliseFrom_ok (i : ℕ) (bs bs' : List (List (BandEntry K))) :
    normaliseFrom i bs = .ok bs' ↔
      (∀ b ∈ bs, 0 < wsum b) ∧ bs' = bs.map (fun b => b.map (fun x => { x with w := x.w / wsum b })) := by
  induction bs generalizing i bs' with
  | nil => simp [normaliseFrom, eq_comm]
  | cons b bs ih =>
    unfold normaliseFrom
    by_cases h : (b.map (·.w)).sum ≤ 0
    · simp only [h, if_true]
      constructor
      · intro h'; cases h'
      · rintro ⟨h1, _⟩
        exact absurd h (not_le.2 (h1 b (by simp)))
    · simp only [h, if_false]
      have hpos : 0 < wsum b := not_le.1 h
      cases hn : normaliseFrom (i + 1) bs with
      | error e =>
        simp only
        constructor
        · intro h'; cases h'
        · rintro ⟨h1, h2⟩
          have := (ih (i + 1) (bs.map (fun b => b.map (fun x => { x with w := x.w / wsum b })))).2
            ⟨fun b hb => h1 b (by simp [hb]), rfl⟩
          rw [hn] at this; cases this
      | ok r =>
        simp only
        have := (ih (i + 1) r).1 hn
        constructor
        · intro h'
          injection h' with h'
          refine ⟨?_, ?_⟩
          · intro x hx
            rcases List.mem_cons.1 hx with rfl | hx
            · exact hpos
            · exact this.1 x hx
          · rw [← h', this.2]; rfl
        · rintro ⟨_, h2⟩
          rw [h2, this.2]; rfl

theorem wsum_rawBand (es : List (Entry K)) (lmax b : ℕ) :
    wsum (rawBand es lmax b) = total es lmax b := by
  unfold wsum rawBand total
  rw [List.map_map]; rfl

theorem bandOf_eq (es : List (Entry K)) (lmax b : ℕ) :
    (rawBand es lmax b).map (fun x => { x with w := x.w / wsum (rawBand es lmax b) }) =
      bandOf es lmax b := by
  rw [wsum_rawBand]
  unfold rawBand bandOf
  rw [List.map_map]; rfl

theorem binsCreate_ok (es : List (Entry K)) (lmax : ℕ) (B : Bins K) :
    binsCreate es lmax = .ok B ↔
      (∀ b < countBands es lmax, 0 < total es lmax b) ∧
      B = ⟨lmax, (List.range (countBands es lmax)).map (bandOf es lmax)⟩ := by
  unfold binsCreate
  simp only
  rw [placed_eq]
  cases hn : normaliseFrom 0 ((List.range (countBands es lmax)).map (rawBand es lmax)) with
  | error e =>
    simp only
    constructor
    · intro h; cases h
    · rintro ⟨h1, _⟩
      have := (normaliseFrom_ok 0 ((List.range (countBands es lmax)).map (rawBand es lmax)) _).2
        ⟨by
          intro b hb
          obtain ⟨c, hc, rfl⟩ := List.mem_map.1 hb
          rw [wsum_rawBand]; exact h1 c (by simpa using hc), rfl⟩
      rw [hn] at this; cases this
  | ok r =>
    simp only
    obtain ⟨h1, h2⟩ := (normaliseFrom_ok _ _ _).1 hn
    have h3 : r = (List.range (countBands es lmax)).map (bandOf es lmax) := by
      rw [h2, List.map_map]
      apply List.map_congr_left
      intro b _
      exact bandOf_eq es lmax b
    constructor
    · intro h
      injection h with h
      refine ⟨?_, by rw [← h, h3]⟩
      intro b hb
      rw [← wsum_rawBand]
      exact h1 _ (List.mem_map.2 ⟨b, by simpa using hb, rfl⟩)
    · rintro ⟨_, rfl⟩
      rw [h3]

end NaMaster
