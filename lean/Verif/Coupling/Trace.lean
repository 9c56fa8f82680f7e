import Verif.Coupling.Props5

/-!
# Accesses to memory while Wigner symbols are computed

Model of the accesses made by `drc3jj_000`, `drc3jj` (src/utils.c:82-343) and their caller. Values that decide
branches (convergence of the recursion, rescaling) are arbitrary functions of the step, so that the theorems hold
whatever the floating-point values are.
-/

namespace NaMaster

/-- Access to an element of an array. -/
inductive Acc where
  | r (i : ℤ)
  | w (i : ℤ)
  deriving DecidableEq

/-- Index of an access. -/
def Acc.idx : Acc → ℤ
  | .r i => i
  | .w i => i

/-- All accesses are within an array of `n` elements. -/
def InRange (n : ℕ) (tr : List Acc) : Prop := ∀ a ∈ tr, 0 ≤ a.idx ∧ a.idx < n

/-- Every element read has been written before; `S` says which elements have been written initially. -/
def Initialised : (ℤ → Prop) → List Acc → Prop
  | _, [] => True
  | S, .r i :: t => S i ∧ Initialised S t
  | S, .w i :: t => Initialised (fun j => S j ∨ j = i) t

/-- Read and write each element of a list of indices: `thrcof[ii]/=x`. -/
def rescale (l : List ℤ) : List Acc := l.flatMap fun i => [.r i, .w i]

/-- Read elements of the table `lfac` for one `l1` in `drc3jj_000` (src/utils.c:107-129). -/
def lfacReads (l1 l2 l3 : ℤ) : List Acc :=
  let J := l1 + l2 + l3
  let g := J / 2
  if J % 2 = 1 then []
  else [.r (J - 2 * l1), .r (J - 2 * l2), .r (J - 2 * l3), .r (J + 1), .r g, .r (g - l1), .r (g - l2), .r (g - l3)]

/-- Accesses of `drc3jj_000` to `lfac` (src/utils.c:95-129). -/
def lfacTrace (l2 l3 : ℕ) : List Acc :=
  if l2 + l3 = ldist l2 l3 then []
  else (rangeIncl (ldist l2 l3) (l2 + l3)).flatMap fun l1 : ℕ => lfacReads l1 l2 l3

/-- Writes of `drc3jj_000` to its output (src/utils.c:95-129); `none` if the output is too small. -/
def buf000 (l2 l3 size : ℕ) : Option (List Acc) :=
  if l2 + l3 = ldist l2 l3 then some [.w 0]
  else if l2 + l3 - ldist l2 l3 + 1 > size then none
  else some ((List.range (l2 + l3 - ldist l2 l3 + 1)).map fun ii : ℕ => .w ii)

/-- Forward recursion (src/utils.c:200-247) from step `s` on: accesses and last step. `stop`, `big` are the outcomes of
`c1old<=fabs(c1)` and `fabs(x)>=srhuge`. -/
def fwdLoop (stop big : ℕ → Bool) (nfin : ℕ) : ℕ → ℕ → List Acc × ℕ
  | 0, s => ([], s)
  | f + 1, s =>
    if s + 1 ≤ 1 then
      let q := fwdLoop stop big nfin f (s + 1)
      (.w 1 :: q.1, q.2)
    else
      let here := [Acc.r s, .r ((s : ℤ) - 1), .w (s + 1)] ++
        (if s + 1 < nfin - 1 ∧ big (s + 1) then rescale ((List.range (s + 2)).map fun i : ℕ => (i : ℤ)) else [])
      if s + 1 < nfin - 1 ∧ stop (s + 1) then (here, s + 1)
      else
        let q := fwdLoop stop big nfin f (s + 1)
        (here ++ q.1, q.2)

/-- Backward recursion (src/utils.c:262-296). -/
def bwdLoop (big : ℕ → Bool) (nfin nstep2 : ℕ) : ℕ → ℕ → List Acc
  | 0, _ => []
  | f + 1, s =>
    (if s + 1 ≤ 1 then [.w ((nfin : ℤ) - 2)]
     else [Acc.r ((nfin : ℤ) - (s + 1)), .r ((nfin : ℤ) + 1 - (s + 1))] ++
       (if s + 1 ≠ nstep2 - 1 then
          .w ((nfin : ℤ) - (s + 1) - 1) ::
            (if big (s + 1) then rescale ((List.range (s + 2)).map fun i : ℕ => (nfin : ℤ) - i - 1) else [])
        else [])) ++
    bwdLoop big nfin nstep2 f (s + 1)

/-- The recursion of `drc3jj` for `nfin` values (src/utils.c:191-340), `nfin` at least two. -/
def recursionTrace (stop bigF bigB : ℕ → Bool) (small : Bool) (nfin : ℕ) : List Acc :=
  let q := fwdLoop stop bigF nfin (nfin - 1) 0
  let k := q.2
  let nstep2 := nfin - k - 1 + 3
  let lstep := nstep2 - 1
  let nlim := nfin - nstep2 + 1
  .w 0 :: q.1 ++
  (if nfin > 2 then
    [.r ((k : ℤ) - 1), .r ((k : ℤ) - 2), .w ((nfin : ℤ) - 1)] ++ bwdLoop bigB nfin nstep2 (nstep2 - 1) 0 ++
    [.r ((nfin : ℤ) - lstep), .r ((nfin : ℤ) + 1 - lstep)] ++
    (if small then rescale ((List.range' nlim (nfin - nlim)).map fun i : ℕ => (i : ℤ))
     else rescale ((List.range nlim).map fun i : ℕ => (i : ℤ)))
   else []) ++
  [.r ((nfin : ℤ) - 1)] ++ rescale ((List.range nfin).map fun i : ℕ => (i : ℤ))

/-- Accesses of `drc3jj` to its output (src/utils.c:166-340); `none` if the output is too small. The first branch does
not look at the size. -/
def bufTrace (stop bigF bigB : ℕ → Bool) (small : Bool) (l2 l3 : ℕ) (m2 m3 : ℤ) (size : ℕ) : Option (List Acc) :=
  if l2 < m2.natAbs ∨ l3 < m3.natAbs then
    some ((List.range (l2 + l3 + 1 - drcMin l2 l3 m2 m3)).map fun ii : ℕ => .w ii)
  else if l2 + l3 = drcMin l2 l3 m2 m3 then some [.w 0]
  else if l2 + l3 - drcMin l2 l3 m2 m3 + 1 > size then none
  else some (recursionTrace stop bigF bigB small (l2 + l3 - drcMin l2 l3 m2 m3 + 1))

/-- Reads of the caller for one kind of symbol (src/nmt_master.c:836-884): for each mask multipole `l1` the element
`l1-lmin` if not negative. For the two symbols used by purification, `pure` is true and element 0 is read in that
case. -/
def callerReads (pure : Bool) (l2 l3 lmin lmaxMask : ℕ) : List Acc :=
  ((rangeIncl (ldist l2 l3) (l2 + l3)).filter (· ≤ lmaxMask)).flatMap fun l1 =>
    if l1 < lmin then (if pure then [.r 0] else []) else [.r ((l1 : ℤ) - lmin)]

/-! ## Lemmas -/

theorem inRange_append {n : ℕ} {a b : List Acc} : InRange n (a ++ b) ↔ InRange n a ∧ InRange n b := by
  unfold InRange
  constructor
  · intro h
    exact ⟨fun x hx => h x (List.mem_append_left _ hx), fun x hx => h x (List.mem_append_right _ hx)⟩
  · rintro ⟨h1, h2⟩ x hx
    rcases List.mem_append.1 hx with h | h
    · exact h1 x h
    · exact h2 x h

theorem inRange_cons {n : ℕ} {a : Acc} {b : List Acc} : InRange n (a :: b) ↔ (0 ≤ a.idx ∧ a.idx < n) ∧ InRange n b := by
  unfold InRange
  simp

theorem inRange_nil {n : ℕ} : InRange n [] := by unfold InRange; simp

theorem inRange_rescale {n : ℕ} {l : List ℤ} : InRange n (rescale l) ↔ ∀ i ∈ l, 0 ≤ i ∧ i < n := by
  unfold InRange rescale
  constructor
  · intro h i hi
    exact h (.r i) (List.mem_flatMap.2 ⟨i, hi, by simp⟩)
  · intro h a ha
    obtain ⟨i, hi, ha⟩ := List.mem_flatMap.1 ha
    simp only [List.mem_cons, List.not_mem_nil, or_false] at ha
    rcases ha with rfl | rfl
    · exact h i hi
    · exact h i hi

/-- Elements written. -/
def written : List Acc → ℤ → Prop
  | [], _ => False
  | .r _ :: t, j => written t j
  | .w i :: t, j => j = i ∨ written t j

theorem written_append (a b : List Acc) (j : ℤ) : written (a ++ b) j ↔ written a j ∨ written b j := by
  induction a with
  | nil => simp [written]
  | cons x t ih =>
    cases x with
    | r i => simpa [written] using ih
    | w i =>
      rw [List.cons_append]
      change (j = i ∨ written (t ++ b) j) ↔ (j = i ∨ written t j) ∨ written b j
      rw [ih]; tauto

theorem initialised_congr {S T : ℤ → Prop} (h : ∀ i, S i → T i) (a : List Acc) (ha : Initialised S a) :
    Initialised T a := by
  induction a generalizing S T with
  | nil => trivial
  | cons x t ih =>
    cases x with
    | r i => exact ⟨h i ha.1, ih h ha.2⟩
    | w i => exact ih (fun j hj => hj.elim (fun q => Or.inl (h j q)) Or.inr) ha

theorem initialised_append (S : ℤ → Prop) (a b : List Acc) :
    Initialised S (a ++ b) ↔ Initialised S a ∧ Initialised (fun j => S j ∨ written a j) b := by
  induction a generalizing S with
  | nil =>
    simp only [List.nil_append]
    constructor
    · exact fun h => ⟨trivial, initialised_congr (fun i hi => Or.inl hi) _ h⟩
    · exact fun h => initialised_congr (fun i hi => hi.elim id (fun q => q.elim)) _ h.2
  | cons x t ih =>
    cases x with
    | r i =>
      rw [List.cons_append]
      change S i ∧ Initialised S (t ++ b) ↔ (S i ∧ Initialised S t) ∧ _
      rw [ih, and_assoc]; rfl
    | w i =>
      rw [List.cons_append]
      change Initialised _ (t ++ b) ↔ Initialised _ t ∧ _
      rw [ih]
      apply and_congr_right
      intro _
      constructor
      · exact initialised_congr (fun j hj => by change S j ∨ (j = i ∨ written t j); tauto) _
      · exact initialised_congr (fun j hj => by change S j ∨ (j = i ∨ written t j) at hj; tauto) _

theorem initialised_rescale (S : ℤ → Prop) (l : List ℤ) (h : ∀ i ∈ l, S i) : Initialised S (rescale l) := by
  induction l generalizing S with
  | nil => trivial
  | cons i t ih =>
    refine ⟨h i List.mem_cons_self, ?_⟩
    exact ih _ (fun j hj => Or.inl (h j (List.mem_cons_of_mem _ hj)))

/-- The forward recursion: step reached, range, elements written, and reads only of elements written. -/
theorem fwdLoop_ok (stop big : ℕ → Bool) (nfin : ℕ) (hn : 2 ≤ nfin) : ∀ f s, f + s = nfin - 1 →
    (fwdLoop stop big nfin f s).2 ≤ nfin - 1 ∧ (s = 0 → 1 ≤ (fwdLoop stop big nfin f s).2) ∧
    s ≤ (fwdLoop stop big nfin f s).2 ∧ (3 ≤ nfin → 2 ≤ (fwdLoop stop big nfin f s).2 ∨ False) ∧
    InRange nfin (fwdLoop stop big nfin f s).1 ∧
    (∀ j : ℤ, s < j → j ≤ (fwdLoop stop big nfin f s).2 → written (fwdLoop stop big nfin f s).1 j) ∧
    ∀ S : ℤ → Prop, (∀ j : ℤ, 0 ≤ j → j ≤ s → S j) → Initialised S (fwdLoop stop big nfin f s).1 := by
  intro f
  induction f with
  | zero =>
    intro s hs
    have e : fwdLoop stop big nfin 0 s = ([], s) := rfl
    rw [e]
    refine ⟨by simp; omega, fun h => ?_, le_rfl, fun h => Or.inl (by simp; omega), inRange_nil, fun j h1 h2 => ?_, fun S _ => trivial⟩
    · subst h; simp; omega
    · simp at h2; omega
  | succ f ih =>
    intro s hs
    obtain ⟨i1, i2, i3, i4, i5, i6, i7⟩ := ih (s + 1) (by omega)
    by_cases h1 : s + 1 ≤ 1
    · have e : fwdLoop stop big nfin (f + 1) s =
          (.w 1 :: (fwdLoop stop big nfin f (s + 1)).1, (fwdLoop stop big nfin f (s + 1)).2) := by
        rw [fwdLoop, if_pos h1]
      rw [e]
      have hs0 : s = 0 := by omega
      subst hs0
      refine ⟨i1, fun _ => by simpa using i3, by simp, i4, ?_, ?_, ?_⟩
      · rw [inRange_cons]
        refine ⟨⟨by simp [Acc.idx], ?_⟩, i5⟩
        change (1 : ℤ) < nfin
        omega
      · intro j hj hj2
        change j = 1 ∨ _
        by_cases hj1 : j = 1
        · exact Or.inl hj1
        · exact Or.inr (i6 j (by push_cast at hj ⊢; omega) hj2)
      · intro S hS
        change Initialised _ _
        apply i7
        intro j h0 h1
        by_cases hj : j = 1
        · exact Or.inr hj
        · exact Or.inl (hS j h0 (by push_cast at h1 ⊢; omega))
    · set here : List Acc := [Acc.r s, .r ((s : ℤ) - 1), .w (s + 1)] ++
        (if s + 1 < nfin - 1 ∧ big (s + 1) then rescale ((List.range (s + 2)).map fun i : ℕ => (i : ℤ)) else []) with hh
      have hrange : InRange nfin here := by
        rw [hh, inRange_append]
        constructor
        · simp only [inRange_cons, Acc.idx]
          refine ⟨by omega, by omega, by omega, inRange_nil⟩
        · split
          · rw [inRange_rescale]
            intro i hi
            rw [List.mem_map] at hi
            obtain ⟨m, hm, rfl⟩ := hi
            rw [List.mem_range] at hm
            omega
          · exact inRange_nil
      have hwr : written here ((s : ℤ) + 1) := by
        rw [hh, written_append]
        left
        change _ = _ ∨ _
        left; rfl
      have hinit : ∀ S : ℤ → Prop, (∀ j : ℤ, 0 ≤ j → j ≤ s → S j) → Initialised S here := by
        intro S hS
        rw [hh, initialised_append]
        constructor
        · refine ⟨hS s (by omega) le_rfl, hS _ (by omega) (by omega), trivial⟩
        · split
          · apply initialised_rescale
            intro i hi
            rw [List.mem_map] at hi
            obtain ⟨m, hm, rfl⟩ := hi
            rw [List.mem_range] at hm
            by_cases hms : (m : ℤ) = s + 1
            · right; exact Or.inl hms
            · left; exact hS _ (by omega) (by omega)
          · trivial
      by_cases h2 : s + 1 < nfin - 1 ∧ stop (s + 1)
      · have e : fwdLoop stop big nfin (f + 1) s = (here, s + 1) := by
          rw [fwdLoop, if_neg h1]
          simp only
          rw [if_pos h2]
        rw [e]
        refine ⟨by simp; omega, fun h => by omega, by simp, fun _ => Or.inl (by simp; omega), hrange, ?_, hinit⟩
        intro j hj hj2
        have : j = (s : ℤ) + 1 := by push_cast at hj2; omega
        rw [this]; exact hwr
      · have e : fwdLoop stop big nfin (f + 1) s =
            (here ++ (fwdLoop stop big nfin f (s + 1)).1, (fwdLoop stop big nfin f (s + 1)).2) := by
          rw [fwdLoop, if_neg h1]
          simp only
          rw [if_neg h2]
        rw [e]
        refine ⟨i1, fun h => by omega, by simp; omega, i4, ?_, ?_, ?_⟩
        · rw [inRange_append]; exact ⟨hrange, i5⟩
        · intro j hj hj2
          rw [written_append]
          by_cases hj1 : j = (s : ℤ) + 1
          · left; rw [hj1]; exact hwr
          · right; exact i6 j (by push_cast; omega) hj2
        · intro S hS
          rw [initialised_append]
          refine ⟨hinit S hS, i7 _ ?_⟩
          intro j h0 hj
          by_cases hj1 : j = (s : ℤ) + 1
          · right; rw [hj1]; exact hwr
          · left; exact hS j h0 (by push_cast at hj; omega)

/-- The backward recursion, started with element `nfin-1` written. -/
theorem bwdLoop_ok (big : ℕ → Bool) (nfin nstep2 : ℕ) (h3 : 3 ≤ nstep2) (hn : nstep2 ≤ nfin) : ∀ f s, f + s = nstep2 - 1 →
    InRange nfin (bwdLoop big nfin nstep2 f s) ∧
    (∀ j : ℤ, (nfin : ℤ) - nstep2 + 1 ≤ j → j ≤ (nfin : ℤ) - s - 2 → written (bwdLoop big nfin nstep2 f s) j) ∧
    ∀ S : ℤ → Prop, (∀ j : ℤ, (nfin : ℤ) - 1 - s ≤ j → (nfin : ℤ) - nstep2 + 1 ≤ j → j < nfin → S j) →
      Initialised S (bwdLoop big nfin nstep2 f s) := by
  intro f
  induction f with
  | zero =>
    intro s hs
    refine ⟨inRange_nil, fun j h1 h2 => by omega, fun S _ => trivial⟩
  | succ f ih =>
    intro s hs
    obtain ⟨i1, i2, i3⟩ := ih (s + 1) (by omega)
    rw [bwdLoop]
    by_cases h1 : s + 1 ≤ 1
    · rw [if_pos h1]
      have hs0 : s = 0 := by omega
      subst hs0
      refine ⟨?_, ?_, ?_⟩
      · rw [inRange_append, inRange_cons]
        refine ⟨⟨⟨?_, ?_⟩, inRange_nil⟩, i1⟩
        · change (0 : ℤ) ≤ (nfin : ℤ) - 2; omega
        · change ((nfin : ℤ) - 2) < nfin; omega
      · intro j hj hj2
        rw [written_append]
        by_cases hj1 : j = (nfin : ℤ) - 2
        · left; exact Or.inl hj1
        · right; exact i2 j hj (by push_cast at hj2 ⊢; omega)
      · intro S hS
        rw [initialised_append]
        refine ⟨trivial, i3 _ ?_⟩
        intro j h0 h1' h2'
        by_cases hj1 : j = (nfin : ℤ) - 2
        · right; exact Or.inl hj1
        · left; exact hS j (by push_cast at h0 ⊢; omega) h1' h2'
    · rw [if_neg h1]
      by_cases h2 : s + 1 ≠ nstep2 - 1
      · rw [if_pos h2]
        have hres : ∀ i ∈ (List.range (s + 2)).map (fun i : ℕ => (nfin : ℤ) - i - 1), (nfin : ℤ) - (s + 1) - 1 ≤ i ∧ i < nfin := by
          intro i hi
          rw [List.mem_map] at hi
          obtain ⟨m, hm, rfl⟩ := hi
          rw [List.mem_range] at hm
          omega
        refine ⟨?_, ?_, ?_⟩
        · rw [inRange_append, inRange_append, inRange_cons, inRange_cons, inRange_cons]
          simp only [Acc.idx]
          refine ⟨⟨⟨by omega, by omega, inRange_nil⟩, by omega, ?_⟩, i1⟩
          split
          · rw [inRange_rescale]
            intro i hi
            have := hres i hi
            omega
          · exact inRange_nil
        · intro j hj hj2
          rw [written_append, written_append]
          by_cases hj1 : j = (nfin : ℤ) - (s + 1) - 1
          · left; right; exact Or.inl hj1
          · right; exact i2 j hj (by push_cast; omega)
        · intro S hS
          rw [initialised_append, initialised_append]
          refine ⟨⟨⟨hS _ (by omega) (by omega) (by omega), hS _ (by omega) (by omega) (by omega), trivial⟩, ?_⟩, ?_⟩
          · change Initialised _ _
            split
            · apply initialised_rescale
              intro i hi
              have := hres i hi
              by_cases hi1 : i = (nfin : ℤ) - (s + 1) - 1
              · right; exact hi1
              · left; left; exact hS i (by omega) (by omega) this.2
            · trivial
          · apply i3
            intro j h0 h1' h2'
            rw [written_append]
            by_cases hj1 : j = (nfin : ℤ) - (s + 1) - 1
            · right; right; exact Or.inl hj1
            · left; exact hS j (by push_cast at h0; omega) h1' h2'
      · rw [if_neg h2]
        push Not at h2
        refine ⟨?_, ?_, ?_⟩
        · rw [inRange_append, inRange_append, inRange_cons, inRange_cons]
          simp only [Acc.idx]
          exact ⟨⟨⟨by omega, by omega, inRange_nil⟩, inRange_nil⟩, i1⟩
        · intro j hj hj2
          omega
        · intro S hS
          rw [initialised_append, initialised_append]
          refine ⟨⟨⟨hS _ (by omega) (by omega) (by omega), hS _ (by omega) (by omega) (by omega), trivial⟩, trivial⟩, ?_⟩
          apply i3
          intro j h0 h1' h2'
          left
          exact hS j (by omega) h1' h2'

/-- Whatever the floating-point values, the recursion stays within `nfin` elements and reads only elements it has
written, and writes all of them. -/
theorem recursion_ok (stop bigF bigB : ℕ → Bool) (small : Bool) (nfin : ℕ) (hn : 2 ≤ nfin) :
    InRange nfin (recursionTrace stop bigF bigB small nfin) ∧
    Initialised (fun _ => False) (recursionTrace stop bigF bigB small nfin) := by
  obtain ⟨f1, f2, f3, f4, f5, f6, f7⟩ := fwdLoop_ok stop bigF nfin hn (nfin - 1) 0 (by omega)
  unfold recursionTrace
  simp only
  generalize hq : fwdLoop stop bigF nfin (nfin - 1) 0 = q at *
  have f2' := f2 rfl
  by_cases h2 : nfin > 2
  · rw [if_pos h2]
    have hk : 2 ≤ q.2 := by rcases f4 (by omega) with h | h <;> [exact h; exact h.elim]
    set nstep2 := nfin - q.2 - 1 + 3 with hns
    obtain ⟨b1, b2, b3⟩ := bwdLoop_ok bigB nfin nstep2 (by omega) (by omega) (nstep2 - 1) 0 (by omega)
    have hres : ∀ i ∈ (List.range nfin).map (fun i : ℕ => (i : ℤ)), 0 ≤ i ∧ i < nfin := by
      intro i hi
      rw [List.mem_map] at hi
      obtain ⟨m, hm, rfl⟩ := hi
      rw [List.mem_range] at hm
      omega
    have hscale : ∀ i ∈ (if small = true then (List.range' (nfin - nstep2 + 1) (nfin - (nfin - nstep2 + 1))).map (fun i : ℕ => (i : ℤ))
        else (List.range (nfin - nstep2 + 1)).map (fun i : ℕ => (i : ℤ))), 0 ≤ i ∧ i < nfin := by
      intro i hi
      split at hi
      · rw [List.mem_map] at hi
        obtain ⟨m, hm, rfl⟩ := hi
        rw [List.mem_range'_1] at hm
        omega
      · rw [List.mem_map] at hi
        obtain ⟨m, hm, rfl⟩ := hi
        rw [List.mem_range] at hm
        omega
    have hif : (if small = true then rescale ((List.range' (nfin - nstep2 + 1) (nfin - (nfin - nstep2 + 1))).map fun i : ℕ => (i : ℤ))
        else rescale ((List.range (nfin - nstep2 + 1)).map fun i : ℕ => (i : ℤ))) =
        rescale (if small = true then (List.range' (nfin - nstep2 + 1) (nfin - (nfin - nstep2 + 1))).map (fun i : ℕ => (i : ℤ))
        else (List.range (nfin - nstep2 + 1)).map (fun i : ℕ => (i : ℤ))) := by
      split <;> rfl
    rw [hif]
    constructor
    · simp only [List.cons_append, inRange_cons, inRange_append, inRange_rescale, Acc.idx]
      refine ⟨by omega, ⟨⟨f5, by omega, by omega, by omega, ⟨⟨⟨inRange_nil, b1⟩, by omega, by omega, inRange_nil⟩, hscale⟩⟩, by omega, inRange_nil⟩, hres⟩
    · change Initialised _ (_ ++ _)
      simp only [List.cons_append]
      have g1 : ∀ j : ℤ, 0 ≤ j → j ≤ q.2 → ((False ∨ j = 0) ∨ written q.1 j) := by
        intro j h0 h1
        by_cases hj : j = 0
        · exact Or.inl (Or.inr hj)
        · exact Or.inr (f6 j (by push_cast; omega) h1)
      change Initialised (fun j => False ∨ j = 0) _
      rw [initialised_append, initialised_append, initialised_append]
      refine ⟨⟨⟨f7 _ (fun j h0 h1 => Or.inr (by push_cast at h1; omega)), ?_⟩, ?_⟩, ?_⟩
      · refine ⟨g1 _ (by omega) (by omega), g1 _ (by omega) (by omega), ?_⟩
        change Initialised (fun j => ((False ∨ j = 0) ∨ written q.1 j) ∨ j = (nfin : ℤ) - 1)
          (bwdLoop bigB nfin nstep2 (nstep2 - 1) 0 ++ _ ++ _)
        rw [initialised_append, initialised_append]
        refine ⟨⟨?_, ?_⟩, ?_⟩
        · apply b3
          intro j h0 h1 hj2
          right; push_cast at h0; omega
        · refine ⟨?_, ?_, trivial⟩
          · by_cases hj : (nfin : ℤ) - ((nstep2 - 1 : ℕ) : ℤ) = nfin - 1
            · left; right; exact hj
            · right; exact b2 _ (by omega) (by push_cast; omega)
          · by_cases hj : (nfin : ℤ) + 1 - ((nstep2 - 1 : ℕ) : ℤ) = nfin - 1
            · left; right; exact hj
            · right; exact b2 _ (by omega) (by push_cast; omega)
        · apply initialised_rescale
          intro i hi
          have := hscale i hi
          by_cases hik : i ≤ q.2
          · beta_reduce
            rw [written_append]
            have := g1 i this.1 hik
            tauto
          · by_cases hin : i = nfin - 1
            · left; right; exact hin
            · right
              rw [written_append]
              left
              exact b2 i (by omega) (by push_cast; omega)
      · refine ⟨?_, trivial⟩
        beta_reduce
        rw [written_append]
        right; right
        exact Or.inl rfl
      · apply initialised_rescale
        intro i hi
        have := hres i hi
        rw [written_append, written_append]
        by_cases hik : i ≤ q.2
        · have := g1 i this.1 hik
          tauto
        · right; left; right
          by_cases hin : i = nfin - 1
          · exact Or.inl hin
          · right
            change written (bwdLoop bigB nfin nstep2 (nstep2 - 1) 0 ++ _ ++ _) i
            rw [written_append, written_append]
            left; left
            exact b2 i (by omega) (by push_cast; omega)
  · rw [if_neg h2]
    have e : nfin = 2 := by omega
    have hk : q.2 = 1 := by omega
    constructor
    · simp only [List.cons_append, List.append_nil, inRange_cons, inRange_append, inRange_rescale, Acc.idx]
      refine ⟨by omega, ⟨f5, by omega, inRange_nil⟩, ?_⟩
      intro i hi
      rw [List.mem_map] at hi
      obtain ⟨m, hm, rfl⟩ := hi
      rw [List.mem_range] at hm
      omega
    · have g1 : ∀ j : ℤ, 0 ≤ j → j ≤ 1 → ((False ∨ j = 0) ∨ written q.1 j) := by
        intro j h0 h1
        by_cases hj : j = 0
        · exact Or.inl (Or.inr hj)
        · exact Or.inr (f6 j (by push_cast; omega) (by omega))
      simp only [List.cons_append, List.append_nil]
      change Initialised (fun j => False ∨ j = 0) _
      rw [initialised_append, initialised_append]
      refine ⟨⟨f7 _ (fun j h0 h1 => Or.inr (by push_cast at h1; omega)), ?_⟩, ?_⟩
      · refine ⟨?_, trivial⟩
        exact g1 _ (by omega) (by omega)
      · apply initialised_rescale
        intro i hi
        rw [List.mem_map] at hi
        obtain ⟨m, hm, rfl⟩ := hi
        rw [List.mem_range] at hm
        have := g1 m (by omega) (by omega)
        rw [written_append]
        tauto

end NaMaster
