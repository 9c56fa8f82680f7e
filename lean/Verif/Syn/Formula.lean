import Verif.Syn.Lemmas

/-! # The coefficients computed by any execution of `fs_synalm` -/

namespace NaMaster

open Finset Real

variable (A : SynAlm) (E : Eigen) (gauss : ℤ → ℕ → ℝ × ℝ) (seed : ℤ)

theorem modesOf_cons (iy : ℕ) (rows : List ℕ) :
    A.modesOf (iy :: rows) = ((List.range (A.fs.nx / 2 + 1)).map fun ix => (ix, iy)) ++ A.modesOf rows := by
  simp [SynAlm.modesOf]

theorem modesOf_getElem? (rows : List ℕ) (d : ℕ) :
    (A.modesOf rows)[d]? = (rows[d / (A.fs.nx / 2 + 1)]?).map fun iy => (d % (A.fs.nx / 2 + 1), iy) := by
  induction rows generalizing d with
  | nil => simp [SynAlm.modesOf]
  | cons iy rows ih =>
    rw [modesOf_cons]
    rcases Nat.lt_or_ge d (A.fs.nx / 2 + 1) with h | h
    · rw [List.getElem?_append_left (by simpa using h), Nat.div_eq_of_lt h, Nat.mod_eq_of_lt h]
      simp [h]
    · obtain ⟨c, rfl⟩ := Nat.exists_eq_add_of_le h
      rw [List.getElem?_append_right (by simp)]
      simp only [List.length_map, List.length_range, Nat.add_sub_cancel_left]
      rw [ih, Nat.add_div_left _ (Nat.succ_pos _), Nat.add_mod_left]
      rfl

theorem modesOf_at {rows : List ℕ} {pos iy ix : ℕ} (h : rows[pos]? = some iy) (hx : ix ≤ A.fs.nx / 2) :
    (A.modesOf rows)[pos * (A.fs.nx / 2 + 1) + ix]? = some (ix, iy) := by
  rw [modesOf_getElem?]
  have h1 : (pos * (A.fs.nx / 2 + 1) + ix) / (A.fs.nx / 2 + 1) = pos := by
    rw [Nat.add_comm, Nat.add_mul_div_right _ _ (Nat.succ_pos _), Nat.div_eq_of_lt (by omega), Nat.zero_add]
  have h2 : (pos * (A.fs.nx / 2 + 1) + ix) % (A.fs.nx / 2 + 1) = ix := by
    rw [Nat.add_comm, Nat.add_mul_mod_self_right, Nat.mod_eq_of_lt (by omega)]
  rw [h1, h2, h]; rfl

/-- An element occurs in only one place in lists whose concatenation has no duplicates. -/
theorem unique_place {sched : List (List ℕ)} (hn : sched.flatten.Nodup) {t t' p p' iy : ℕ} {l l' : List ℕ}
    (h : sched[t]? = some l) (h' : sched[t']? = some l') (hp : l[p]? = some iy) (hp' : l'[p']? = some iy) : t = t' ∧ p = p' := by
  obtain ⟨h1, h2⟩ := List.nodup_flatten.mp hn
  have htt : t = t' := by
    by_contra hne
    have key : ∀ {a b : ℕ} {x y : List ℕ}, a < b → sched[a]? = some x → sched[b]? = some y → List.Disjoint x y := by
      intro a b x y hab ha hb
      obtain ⟨ha', rfl⟩ := List.getElem?_eq_some_iff.mp ha
      obtain ⟨hb', rfl⟩ := List.getElem?_eq_some_iff.mp hb
      exact List.pairwise_iff_getElem.mp h2 a b ha' hb' hab
    rcases Nat.lt_or_gt_of_ne hne with hlt | hlt
    · exact key hlt h h' (List.mem_of_getElem? hp) (List.mem_of_getElem? hp')
    · exact key hlt h' h (List.mem_of_getElem? hp') (List.mem_of_getElem? hp)
  subst htt
  rw [h] at h'
  obtain rfl := Option.some.inj h'
  refine ⟨rfl, ?_⟩
  obtain ⟨hl, e1⟩ := List.getElem?_eq_some_iff.mp hp
  obtain ⟨hl', e2⟩ := List.getElem?_eq_some_iff.mp hp'
  exact (List.Nodup.getElem_inj_iff (h1 l (List.mem_of_getElem? h))).mp (e1.trans e2.symm)

/-- The stores of a mode without the first of two stores to the same element. -/
noncomputable def SynAlm.stores' (a : ℕ → ℂ) (k : ℕ × ℕ) : List ((ℕ × ℕ × ℕ) × ℂ) :=
  (List.range A.nmaps).flatMap fun i =>
    if k.1 = 0 then
      if k.2 > A.fs.ny / 2 then []
      else if k.2 = 0 then [((i, k.1, k.2), ((√2 * (a i).re : ℝ) : ℂ))]
      else if 2 * k.2 = A.fs.ny then [((i, k.1, k.2), star (a i))]
      else [((i, k.1, k.2), a i), ((i, k.1, A.fs.ny - k.2), star (a i))]
    else [((i, k.1, k.2), a i)]

theorem stores_eq (a : ℕ → ℂ) (k : ℕ × ℕ) (m : ℕ × ℕ × ℕ → ℂ) : runWrites (A.stores a k) m = runWrites (A.stores' a k) m := by
  unfold SynAlm.stores SynAlm.stores'
  generalize List.range A.nmaps = L
  induction L generalizing m with
  | nil => rfl
  | cons i L ih =>
    rw [List.flatMap_cons, List.flatMap_cons, runWrites_cat, runWrites_cat, ih]
    congr 1
    by_cases h1 : k.1 = 0
    · rw [if_pos h1, if_pos h1]
      by_cases h2 : k.2 > A.fs.ny / 2
      · rw [if_pos h2, if_pos h2]
      · rw [if_neg h2, if_neg h2]
        by_cases h3 : k.2 = 0
        · rw [if_pos h3, if_pos h3]
        · rw [if_neg h3, if_neg h3]
          by_cases h4 : 2 * k.2 = A.fs.ny
          · rw [if_pos h4]
            have : A.fs.ny - k.2 = k.2 := by omega
            rw [this]
            simp only [runWrites, List.foldl]
            exact Function.update_idem ..
          · rw [if_neg h4]
    · rw [if_neg h1, if_neg h1]

/-- The stores of an entry of the log, without double stores. -/
noncomputable def SynAlm.storesOf' (e : ℕ × ℕ × (ℕ × ℕ)) : List ((ℕ × ℕ × ℕ) × ℂ) :=
  A.stores' (A.coef E (fun j => gauss (seed + e.1) (e.2.1 + j)) e.2.2) e.2.2

theorem log_stores_eq (L : List (ℕ × ℕ × (ℕ × ℕ))) (m : ℕ × ℕ × ℕ → ℂ) :
    runWrites (L.flatMap (A.storesOf E gauss seed)) m = runWrites (L.flatMap (A.storesOf' E gauss seed)) m := by
  induction L generalizing m with
  | nil => rfl
  | cons e L ih =>
    rw [List.flatMap_cons, List.flatMap_cons, runWrites_cat, runWrites_cat, ih]
    congr 1
    exact stores_eq A _ _ _

/-- The stores to one element. -/
theorem mem_stores' {a : ℕ → ℂ} {k : ℕ × ℕ} {i x y : ℕ} {v : ℂ} (hk : k.2 < A.fs.ny) (hy : y < A.fs.ny)
    (h : ((i, x, y), v) ∈ A.stores' a k) :
    i < A.nmaps ∧ k.1 = x ∧
      ((x ≠ 0 ∧ k.2 = y ∧ v = a i) ∨ (x = 0 ∧ y = 0 ∧ k.2 = 0 ∧ v = ((√2 * (a i).re : ℝ) : ℂ)) ∨
        (x = 0 ∧ 0 < y ∧ 2 * y < A.fs.ny ∧ k.2 = y ∧ v = a i) ∨
        (x = 0 ∧ A.fs.ny ≤ 2 * y ∧ k.2 = A.fs.ny - y ∧ v = star (a i))) := by
  simp only [SynAlm.stores', List.mem_flatMap, List.mem_range] at h
  obtain ⟨j, hj, h⟩ := h
  by_cases h1 : k.1 = 0
  · rw [if_pos h1] at h
    by_cases h2 : k.2 > A.fs.ny / 2
    · rw [if_pos h2] at h; simp at h
    · rw [if_neg h2] at h
      by_cases h3 : k.2 = 0
      · rw [if_pos h3, List.mem_singleton, Prod.mk.injEq, Prod.mk.injEq, Prod.mk.injEq] at h
        obtain ⟨⟨rfl, rfl, rfl⟩, rfl⟩ := h
        exact ⟨hj, rfl, Or.inr (Or.inl ⟨h1, h3, h3, rfl⟩)⟩
      · rw [if_neg h3] at h
        by_cases h4 : 2 * k.2 = A.fs.ny
        · rw [if_pos h4, List.mem_singleton, Prod.mk.injEq, Prod.mk.injEq, Prod.mk.injEq] at h
          obtain ⟨⟨rfl, rfl, rfl⟩, rfl⟩ := h
          exact ⟨hj, rfl, Or.inr (Or.inr (Or.inr ⟨h1, by omega, by omega, rfl⟩))⟩
        · rw [if_neg h4] at h
          simp only [List.mem_cons, List.not_mem_nil, or_false, Prod.mk.injEq] at h
          rcases h with ⟨⟨rfl, rfl, rfl⟩, rfl⟩ | ⟨⟨rfl, rfl, rfl⟩, rfl⟩
          · exact ⟨hj, rfl, Or.inr (Or.inr (Or.inl ⟨h1, by omega, by omega, rfl, rfl⟩))⟩
          · exact ⟨hj, rfl, Or.inr (Or.inr (Or.inr ⟨h1, by omega, by omega, rfl⟩))⟩
  · rw [if_neg h1, List.mem_singleton, Prod.mk.injEq, Prod.mk.injEq, Prod.mk.injEq] at h
    obtain ⟨⟨rfl, rfl, rfl⟩, rfl⟩ := h
    exact ⟨hj, rfl, Or.inl ⟨h1, rfl, rfl⟩⟩

/-- The coefficient stored in element `(i, ix, iy)` when the mode `(x, y)` has the value `a x y i`. -/
noncomputable def SynAlm.cell (a : ℕ → ℕ → ℕ → ℂ) (i ix iy : ℕ) : ℂ :=
  if ix ≠ 0 then a ix iy i
  else if iy = 0 then ((√2 * (a 0 0 i).re : ℝ) : ℂ)
  else if 2 * iy < A.fs.ny then a 0 iy i
  else star (a 0 (A.fs.ny - iy) i)

/-- The numbers of the threads after a trace. -/
noncomputable def SynAlm.rankOf (tr : List SynEvent) (i0 c0 : ℕ → ℕ) (m0 : ℕ × ℕ × ℕ → ℂ) : ℕ → ℕ :=
  (tr.foldl (A.step E gauss seed) ⟨0, i0, c0, m0⟩).ithr

/-- Every execution computes the coefficients from the generators of the threads: thread `t` has number `rank t`, all
numbers are different, and row number `pos` of the thread uses the random numbers from the one with number
`(pos*(nx/2+1)+ix)*nmaps` on. -/
theorem syn_formula_trace {sched : List (List ℕ)} {m0 : ℕ × ℕ × ℕ → ℂ} {tr : List SynEvent} {i0 c0 : ℕ → ℕ}
    (hperm : sched.flatten.Perm (List.range A.fs.ny)) (hint : Interleaving (sched.mapIdx fun t l => A.prog t l) tr) :
    let rank := A.rankOf E gauss seed tr i0 c0 m0
    (∀ t < sched.length, rank t < sched.length) ∧
      (∀ t < sched.length, ∀ t' < sched.length, rank t = rank t' → t = t') ∧
      ∀ a : ℕ → ℕ → ℕ → ℂ, (∀ t l pos iy, sched[t]? = some l → l[pos]? = some iy → ∀ ix ≤ A.fs.nx / 2,
        a ix iy = A.coef E (fun j => gauss (seed + rank t) ((pos * (A.fs.nx / 2 + 1) + ix) * A.nmaps + j)) (ix, iy)) →
      ∀ i < A.nmaps, ∀ ix ≤ A.fs.nx / 2, ∀ iy < A.fs.ny,
        (tr.foldl (A.step E gauss seed) ⟨0, i0, c0, m0⟩).alms (i, ix, iy) = A.cell a i ix iy := by
  have hnodup : sched.flatten.Nodup := hperm.nodup_iff.mpr List.nodup_range
  have hplace : ∀ iy < A.fs.ny, ∃ (t : ℕ) (l : List ℕ) (pos : ℕ), sched[t]? = some l ∧ l[pos]? = some iy := by
    intro iy hiy
    obtain ⟨l, hl, hm⟩ := List.mem_flatten.mp (hperm.mem_iff.mpr (List.mem_range.mpr hiy))
    obtain ⟨t, ht⟩ := List.getElem?_of_mem hl
    obtain ⟨p, hp⟩ := List.getElem?_of_mem hm
    exact ⟨t, l, p, ht, hp⟩
  have key := trace_log A E gauss seed hint (fun t => sched.getD t []) (fun _ => none) ⟨0, i0, c0, m0⟩
    (by
      intro t ht
      simp only [List.length_mapIdx] at ht
      rw [List.getElem?_mapIdx, List.getElem?_eq_getElem ht, Option.map_some]
      simp [SynAlm.rest, ht]) (by simp) (by simp) (by simp)
  set s' := tr.foldl (A.step E gauss seed) ⟨0, i0, c0, m0⟩ with hs'
  simp only [List.length_mapIdx] at key
  obtain ⟨-, k2, k3, k4, k5⟩ := key
  simp only [Finset.filter_true, Finset.card_range, Nat.zero_add] at k4
  refine ⟨fun t ht => k4 ▸ k2 t ht, k3, ?_⟩
  intro a ha i hi ix hix iy hiy
  rw [hs', alms_eq_log, log_stores_eq]
  -- entries of the log
  have hlog : ∀ e ∈ A.logOf E gauss seed tr ⟨0, i0, c0, m0⟩, e.2.2.1 ≤ A.fs.nx / 2 ∧ e.2.2.2 < A.fs.ny ∧
      A.storesOf' E gauss seed e = A.stores' (a e.2.2.1 e.2.2.2) e.2.2 := by
    intro e he
    obtain ⟨t, ht, d, -, k, hk, rfl⟩ := (k5 e).mp he
    rw [modesOf_getElem?] at hk
    have hl : sched[t]? = some (sched.getD t []) := by
      rw [List.getElem?_eq_getElem ht, List.getD_eq_getElem _ _ ht]
    cases hr : (sched.getD t [])[d / (A.fs.nx / 2 + 1)]? with
    | none => rw [hr] at hk; simp at hk
    | some y =>
      rw [hr, Option.map_some, Option.some.injEq] at hk
      subst hk
      have hx : d % (A.fs.nx / 2 + 1) ≤ A.fs.nx / 2 := Nat.lt_succ_iff.mp (Nat.mod_lt _ (Nat.succ_pos _))
      refine ⟨hx, ?_, ?_⟩
      · refine List.mem_range.mp (hperm.mem_iff.mp (List.mem_flatten.mpr ⟨_, List.mem_of_getElem? hl, List.mem_of_getElem? hr⟩))
      · simp only [SynAlm.storesOf']
        rw [ha t _ _ y hl hr _ hx, Nat.div_add_mod']
        rfl
  have hentry : ∀ x ≤ A.fs.nx / 2, ∀ y < A.fs.ny, ∃ e ∈ A.logOf E gauss seed tr ⟨0, i0, c0, m0⟩, e.2.2 = (x, y) := by
    intro x hx y hy
    obtain ⟨t, l, p, ht, hp⟩ := hplace y hy
    have htl : t < sched.length := (List.getElem?_eq_some_iff.mp ht).1
    refine ⟨_, (k5 _).mpr ⟨t, htl, p * (A.fs.nx / 2 + 1) + x, Nat.zero_le _, (x, y), ?_, rfl⟩, rfl⟩
    refine modesOf_at A ?_ hx
    rw [List.getD_eq_getElem?_getD, ht]
    exact hp
  apply runWrites_mem
  · rw [List.mem_flatMap]
    -- the event that stores the element
    by_cases hx0 : ix ≠ 0
    · obtain ⟨e, he, hek⟩ := hentry ix hix iy hiy
      refine ⟨e, he, ?_⟩
      rw [(hlog e he).2.2, hek]
      simp only [SynAlm.stores', List.mem_flatMap, List.mem_range]
      exact ⟨i, hi, by rw [if_neg hx0]; simp [SynAlm.cell, hx0]⟩
    · push Not at hx0
      subst hx0
      by_cases hy0 : iy = 0
      · subst hy0
        obtain ⟨e, he, hek⟩ := hentry 0 hix 0 hiy
        refine ⟨e, he, ?_⟩
        rw [(hlog e he).2.2, hek]
        simp only [SynAlm.stores', List.mem_flatMap, List.mem_range]
        exact ⟨i, hi, by simp [SynAlm.cell]⟩
      · by_cases h2 : 2 * iy < A.fs.ny
        · obtain ⟨e, he, hek⟩ := hentry 0 hix iy hiy
          refine ⟨e, he, ?_⟩
          rw [(hlog e he).2.2, hek]
          simp only [SynAlm.stores', List.mem_flatMap, List.mem_range]
          refine ⟨i, hi, ?_⟩
          rw [if_pos trivial, if_neg (by omega), if_neg hy0, if_neg (by omega)]
          simp [SynAlm.cell, hy0, h2]
        · obtain ⟨e, he, hek⟩ := hentry 0 hix (A.fs.ny - iy) (by omega)
          refine ⟨e, he, ?_⟩
          rw [(hlog e he).2.2, hek]
          simp only [SynAlm.stores', List.mem_flatMap, List.mem_range]
          refine ⟨i, hi, ?_⟩
          rw [if_pos trivial, if_neg (by omega), if_neg (by omega)]
          by_cases h4 : 2 * (A.fs.ny - iy) = A.fs.ny
          · rw [if_pos h4]
            have h5 : A.fs.ny - iy = iy := by omega
            simp [SynAlm.cell, hy0, h2, h5]
          · rw [if_neg h4]
            have h5 : A.fs.ny - (A.fs.ny - iy) = iy := by omega
            simp [SynAlm.cell, hy0, h2, h5]
  · intro w hw hwk
    rw [List.mem_flatMap] at hw
    obtain ⟨e, he, hw⟩ := hw
    obtain ⟨h1, h2, h3⟩ := hlog e he
    rw [h3] at hw
    obtain ⟨wk, wv⟩ := w
    simp only at hwk
    subst hwk
    obtain ⟨-, hx, hcase⟩ := mem_stores' A h2 hiy hw
    rcases hcase with ⟨c1, c2, rfl⟩ | ⟨rfl, rfl, c3, rfl⟩ | ⟨rfl, c2, c3, c4, rfl⟩ | ⟨rfl, c2, c3, rfl⟩
    · simp only [SynAlm.cell, if_pos c1, hx, c2]
    · simp [SynAlm.cell, hx, c3]
    · simp [SynAlm.cell, hx, c4, c3, Nat.ne_of_gt c2]
    · simp [SynAlm.cell, hx, c3, Nat.not_lt.mpr c2, show iy ≠ 0 by omega]

theorem syn_formula {sched : List (List ℕ)} {m0 m : ℕ × ℕ × ℕ → ℂ} (h : A.Runs E gauss seed sched m0 m) :
    ∃ rank : ℕ → ℕ, (∀ t < sched.length, rank t < sched.length) ∧
      (∀ t < sched.length, ∀ t' < sched.length, rank t = rank t' → t = t') ∧
      ∀ a : ℕ → ℕ → ℕ → ℂ, (∀ t l pos iy, sched[t]? = some l → l[pos]? = some iy → ∀ ix ≤ A.fs.nx / 2,
        a ix iy = A.coef E (fun j => gauss (seed + rank t) ((pos * (A.fs.nx / 2 + 1) + ix) * A.nmaps + j)) (ix, iy)) →
      ∀ i < A.nmaps, ∀ ix ≤ A.fs.nx / 2, ∀ iy < A.fs.ny, m (i, ix, iy) = A.cell a i ix iy := by
  obtain ⟨hperm, -, tr, i0, c0, hint, rfl⟩ := h
  exact ⟨_, syn_formula_trace A E gauss seed hperm hint⟩

/-- The thread that arrives first gets number 0. -/
theorem rank_first {sched : List (List ℕ)} {m0 : ℕ × ℕ × ℕ → ℂ} {tr : List SynEvent} {i0 c0 : ℕ → ℕ} {t : ℕ} {l : List ℕ}
    (hl : sched[t]? = some l)
    (hint : Interleaving ((sched.mapIdx fun t l => A.prog t l).set t ((A.modesOf l).map (.mode t))) tr) :
    A.rankOf E gauss seed (.arrive t :: tr) i0 c0 m0 t = 0 := by
  have htl : t < sched.length := (List.getElem?_eq_some_iff.mp hl).1
  have key := trace_log A E gauss seed hint (fun t => sched.getD t []) (Function.update (fun _ => none) t (some 0))
    (A.step E gauss seed ⟨0, i0, c0, m0⟩ (.arrive t))
    (by
      intro t' ht'
      simp only [List.length_set, List.length_mapIdx] at ht'
      by_cases h : t' = t
      · subst h
        rw [List.getElem?_set_self (by simpa using ht'), Function.update_self, List.getD_eq_getElem?_getD, hl]
        simp [SynAlm.rest]
      · rw [List.getElem?_set_ne (Ne.symm h), Function.update_of_ne h, List.getElem?_mapIdx, List.getElem?_eq_getElem ht']
        simp [SynAlm.rest, ht'])
    (by
      intro t' d h
      by_cases ht : t' = t
      · subst ht
        rw [Function.update_self, Option.some.injEq] at h
        simp [SynAlm.step, ← h]
      · rw [Function.update_of_ne ht] at h; simp at h)
    (by
      intro t' _ h
      by_cases ht : t' = t
      · subst ht; simp [SynAlm.step]
      · rw [Function.update_of_ne ht] at h; exact absurd rfl h)
    (by
      intro t' _ t'' _ h h' _
      have : ∀ x, Function.update (fun _ : ℕ => (none : Option ℕ)) t (some 0) x ≠ none → x = t := by
        intro x hx
        by_contra hne
        rw [Function.update_of_ne hne] at hx
        exact hx rfl
      rw [this _ h, this _ h'])
  have h1 := key.1 t (by simp)
  unfold SynAlm.rankOf
  rw [List.foldl_cons, h1]
  simp [SynAlm.step]

theorem Interleaving.seq {α : Type*} (ps : List (List α)) : Interleaving ps ps.flatten := by
  generalize hn : ps.flatten.length = n
  induction n generalizing ps with
  | zero =>
    have h := List.eq_nil_of_length_eq_zero hn
    rw [h]
    exact .nil fun p hp => List.flatten_eq_nil_iff.mp h p hp
  | succ n ih =>
    induction ps with
    | nil => simp at hn
    | cons p ps ihp =>
      cases p with
      | nil =>
        have := ihp (by simpa using hn)
        rw [List.flatten_cons, List.nil_append]
        clear ihp ih hn
        generalize ps.flatten = tr at this
        induction this with
        | nil h => exact .nil (by simpa using h)
        | cons i h _ ih => exact .cons (i + 1) (by simpa using h) (by simpa using ih)
      | cons a p =>
        refine .cons 0 rfl ?_
        have := ih (p :: ps) (by simpa using hn)
        simpa using this

/-- For every thread there is an execution in which it arrives first. -/
theorem exists_first {sched : List (List ℕ)} {t : ℕ} {l : List ℕ} (hl : sched[t]? = some l) :
    ∃ tr, Interleaving (sched.mapIdx fun t l => A.prog t l) (.arrive t :: tr) ∧
      Interleaving ((sched.mapIdx fun t l => A.prog t l).set t ((A.modesOf l).map (.mode t))) tr := by
  refine ⟨_, .cons t ?_ (Interleaving.seq _), Interleaving.seq _⟩
  rw [List.getElem?_mapIdx, hl, Option.map_some, prog_eq]

end NaMaster
