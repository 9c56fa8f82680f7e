import Verif.Coupling.Props4

/-!
# Lemmas: Toeplitz approximation
-/

namespace NaMaster

open Finset CouplingSpec

/-! ## Symmetry -/

/-- Symmetric table. -/
def SymTab (m : ℕ × ℕ → ℝ) : Prop := ∀ i j, m (i, j) = m (j, i)

theorem symTab_pair (m : ℕ × ℕ → ℝ) (hm : SymTab m) (a b : ℕ) (v : ℝ) (c : Prop) [Decidable c] (hc : ¬ c → a = b) :
    SymTab (runWrites (((a, b), v) :: (if c then [((b, a), v)] else [])) m) := by
  intro i j
  by_cases h : c
  · rw [if_pos h]
    simp only [runWrites, List.foldl_cons, List.foldl_nil, Function.update_apply, Prod.mk.injEq]
    by_cases h1 : i = b ∧ j = a
    · rw [if_pos h1]
      by_cases h2 : j = b ∧ i = a
      · rw [if_pos h2]
      · rw [if_neg h2, if_pos ⟨h1.2, h1.1⟩]
    · rw [if_neg h1]
      by_cases h2 : i = a ∧ j = b
      · rw [if_pos h2, if_pos ⟨h2.2, h2.1⟩]
      · rw [if_neg h2, if_neg (fun h => h2 ⟨h.2, h.1⟩), if_neg (fun h => h1 ⟨h.2, h.1⟩)]
        exact hm i j
  · rw [if_neg h]
    have := hc h
    subst this
    simp only [runWrites, List.foldl_cons, List.foldl_nil, Function.update_apply, Prod.mk.injEq]
    by_cases h1 : i = a ∧ j = a
    · rw [if_pos h1, if_pos ⟨h1.2, h1.1⟩]
    · rw [if_neg h1, if_neg (fun h => h1 ⟨h.2, h.1⟩)]
      exact hm i j

theorem symTab_flatMap {α : Type*} (l : List α) (f : α → List ((ℕ × ℕ) × ℝ))
    (hf : ∀ x m, SymTab m → SymTab (runWrites (f x) m)) (m : ℕ × ℕ → ℝ) (hm : SymTab m) :
    SymTab (runWrites (l.flatMap f) m) := by
  induction l generalizing m with
  | nil => exact hm
  | cons x t ih =>
    rw [List.flatMap_cons, runWrites_append]
    exact ih _ (hf x m hm)

theorem symTab_main (lstart lmax : ℕ) (lend : ℕ → ℕ) (entry : ℕ → ℕ → ℝ) (m : ℕ × ℕ → ℝ) (hm : SymTab m) :
    SymTab (runWrites (mainWrites lstart lmax false lend entry) m) := by
  unfold mainWrites
  refine symTab_flatMap _ _ (fun a m hm => ?_) _ hm
  refine symTab_flatMap _ _ (fun b m hm => ?_) _ hm
  exact symTab_pair m hm a b _ _ (by simp)

theorem symTab_tplz (lstart lmax lt : ℕ) (entry : ℕ → ℕ → ℝ) (m : ℕ × ℕ → ℝ) (hm : SymTab m) :
    SymTab (runWrites (tplzWrites lstart lmax lt entry) m) := by
  unfold tplzWrites
  refine symTab_flatMap _ _ (fun a m hm => ?_) _ hm
  refine symTab_flatMap _ _ (fun b m hm => ?_) _ hm
  exact symTab_pair m hm a b _ _ (by intro h; push Not at h; exact h.symm)

theorem symTab_fill (lE : ℕ) (ps : List (ℕ × ℕ)) (m : ℕ × ℕ → ℝ) (hm : SymTab m) :
    SymTab (ps.foldl (fillStep lE) m) := by
  induction ps generalizing m with
  | nil => exact hm
  | cons p t ih =>
    rw [List.foldl_cons]
    apply ih
    intro i j
    rw [fillStep_apply, fillStep_apply, hm i j]
    by_cases h : (i = p.1 ∧ j = p.2) ∨ (i = p.2 ∧ j = p.1)
    · rw [if_pos h, if_pos (by tauto)]
    · rw [if_neg h, if_neg (by tauto)]

theorem coefTable_sym (lstart lmax : ℕ) (lT lE dl : ℤ) (entry : ℕ → ℕ → ℝ) (l2 l3 : ℕ) :
    coefTable lstart lmax false lT lE dl entry (l2, l3) = coefTable lstart lmax false lT lE dl entry (l3, l2) := by
  unfold coefTable
  simp only
  by_cases hT : lT > 0
  · rw [if_pos hT]
    exact symTab_fill _ _ _ (symTab_main _ _ _ _ _ (symTab_tplz _ _ _ _ _ (fun _ _ => rfl))) _ _
  · rw [if_neg hT]
    exact symTab_main _ _ _ _ _ (fun _ _ => rfl) _ _

/-! ## The loop filling the corner -/

theorem mem_fillPairs {lmax lT lE : ℕ} (hE : lE ≤ lT) (hT : lT < lmax) {p : ℕ × ℕ} :
    p ∈ fillPairs lmax lT lE ↔ p.1 ≤ lmax ∧ lE ≤ p.2 ∧ p.2 + (lmax - lT) ≤ p.1 := by
  unfold fillPairs
  rw [List.mem_flatMap]
  constructor
  · rintro ⟨a, ha, hp⟩
    rw [List.mem_map] at hp
    obtain ⟨b, hb, rfl⟩ := hp
    rw [mem_rangeIncl] at ha hb
    simp only
    omega
  · rintro ⟨h1, h2, h3⟩
    refine ⟨p.1, mem_rangeIncl.2 ⟨by omega, h1⟩, ?_⟩
    rw [List.mem_map]
    exact ⟨p.2, mem_rangeIncl.2 ⟨h2, by omega⟩, rfl⟩

/-- Elements the loop does not visit. -/
theorem fill_untouched (lE : ℕ) (ps : List (ℕ × ℕ)) (m : ℕ × ℕ → ℝ) (i j : ℕ)
    (h : ∀ p ∈ ps, ¬ ((i = p.1 ∧ j = p.2) ∨ (i = p.2 ∧ j = p.1))) :
    ps.foldl (fillStep lE) m (i, j) = m (i, j) := by
  induction ps generalizing m with
  | nil => rfl
  | cons p t ih =>
    rw [List.foldl_cons, ih _ (fun q hq => h q (List.mem_cons_of_mem _ hq)), fillStep_apply,
      if_neg (h p List.mem_cons_self)]

/-- Elements of the column `l_exact` are assigned their own value if the diagonal elements are not zero. -/
theorem fill_exact (lE : ℕ) (ps : List (ℕ × ℕ)) (hps : ∀ p ∈ ps, p.2 < p.1) (m : ℕ × ℕ → ℝ) (i : ℕ)
    (hi : m (i, i) ≠ 0) (hE : m (lE, lE) ≠ 0) (hlt : lE < i) :
    ps.foldl (fillStep lE) m (i, lE) = m (i, lE) := by
  induction ps generalizing m with
  | nil => rfl
  | cons p t ih =>
    have hp := hps p List.mem_cons_self
    have hd : ∀ k, fillStep lE m p (k, k) = m (k, k) := by
      intro k
      rw [fillStep_apply, if_neg (by omega)]
    rw [List.foldl_cons, ih (fun q hq => hps q (List.mem_cons_of_mem _ hq)) _ (by rw [hd]; exact hi) (by rw [hd]; exact hE),
      fillStep_apply]
    by_cases h : (i = p.1 ∧ lE = p.2) ∨ (i = p.2 ∧ lE = p.1)
    · rw [if_pos h]
      have h' : i = p.1 ∧ lE = p.2 := by omega
      unfold fillValue
      rw [← h'.1, ← h'.2, show lE + i - lE = i by omega, if_neg (by tauto), div_self (mul_ne_zero hi hE)]
      simp
    · rw [if_neg h]

/-! ## Elements that are exact -/

/-- Accepted Toeplitz parameters. -/
def ToeplitzOk (lT lE dl : ℤ) (lmax : ℕ) : Prop := 0 < lE ∧ lE ≤ lT ∧ lT < lmax ∧ 0 ≤ dl ∧ dl < lmax

theorem coefTable_start (lstart lmax : ℕ) (pureAny : Bool) (lT lE dl : ℤ) (entry : ℕ → ℕ → ℝ) {l2 l3 : ℕ}
    (h : l2 < lstart ∨ l3 < lstart) : coefTable lstart lmax pureAny lT lE dl entry (l2, l3) = 0 :=
  coefTable_zero _ _ _ _ _ _ _ (fun l => l < lstart) (fun _ hl => Or.inl hl) _ _ h

theorem coefTable_tplz (lstart lmax : ℕ) (lT lE dl : ℤ) (entry : ℕ → ℕ → ℝ) (h : lT > 0) :
    coefTable lstart lmax false lT lE dl entry =
      (fillPairs lmax lT.toNat lE.toNat).foldl (fillStep lE.toNat)
        (runWrites (mainWrites lstart lmax false (fun l2 : ℕ => (lendToeplitz l2 lT lE dl lmax).toNat) entry)
          (runWrites (tplzWrites lstart lmax lT.toNat entry) (fun _ => 0))) := by
  unfold coefTable
  simp only
  rw [if_pos h]

/-- The table after the main loop. -/
theorem main_exact {lstart lmax : ℕ} {lT lE dl : ℤ} (hok : ToeplitzOk lT lE dl lmax) (entry : ℕ → ℕ → ℝ)
    (m : ℕ × ℕ → ℝ) {l2 l3 : ℕ} (h2 : l2 ≤ lmax) (h3 : l3 ≤ lmax) (hs : lstart ≤ min l2 l3)
    (h : l2 = l3 ∨ ((min l2 l3 : ℕ) : ℤ) ≤ lE ∨ (((min l2 l3 : ℕ) : ℤ) ≤ lT ∧ ((max l2 l3 : ℕ) : ℤ) ≤ (min l2 l3 : ℕ) + dl)) :
    runWrites (mainWrites lstart lmax false (fun l2 : ℕ => (lendToeplitz l2 lT lE dl lmax).toNat) entry) m (l2, l3) =
      entry (min l2 l3) (max l2 l3) := by
  obtain ⟨o1, o2, o3, o4, o5⟩ := hok
  apply main_sym _ _ _ _ _ hs _ (max_le h2 h3)
  have hmax : max l2 l3 ≤ lmax := max_le h2 h3
  unfold lendToeplitz
  rw [if_pos (by omega)]
  by_cases c1 : ((min l2 l3 : ℕ) : ℤ) ≤ lE
  · rw [if_pos c1]; omega
  · rw [if_neg c1]
    by_cases c2 : ((min l2 l3 : ℕ) : ℤ) ≤ lT
    · rw [if_pos c2]; omega
    · rw [if_neg c2]; omega

theorem coefTable_exact {lstart lmax : ℕ} {lT lE dl : ℤ} (hok : ToeplitzOk lT lE dl lmax) (entry : ℕ → ℕ → ℝ)
    {l2 l3 : ℕ} (h2 : l2 ≤ lmax) (h3 : l3 ≤ lmax)
    (h : l2 = l3 ∨ ((min l2 l3 : ℕ) : ℤ) < lE ∨
      (((min l2 l3 : ℕ) : ℤ) = lE ∧ coefTable lstart lmax false 0 0 0 entry (l2, l2) ≠ 0 ∧
        coefTable lstart lmax false 0 0 0 entry (l3, l3) ≠ 0) ∨
      (((min l2 l3 : ℕ) : ℤ) ≤ lT ∧ ((max l2 l3 : ℕ) : ℤ) ≤ (min l2 l3 : ℕ) + dl ∧
        ((max l2 l3 : ℕ) : ℤ) - (min l2 l3 : ℕ) < lmax - lT)) :
    coefTable lstart lmax false lT lE dl entry (l2, l3) = coefTable lstart lmax false 0 0 0 entry (l2, l3) := by
  by_cases hs : l2 < lstart ∨ l3 < lstart
  · rw [coefTable_start _ _ _ _ _ _ _ hs, coefTable_start _ _ _ _ _ _ _ hs]
  have hs' : lstart ≤ min l2 l3 := by omega
  obtain ⟨o1, o2, o3, o4, o5⟩ := hok
  have hok' : ToeplitzOk lT lE dl lmax := ⟨o1, o2, o3, o4, o5⟩
  rw [coefTable_plain _ _ _ _ _ _ _ le_rfl h2 h3, if_pos (by omega), if_neg (by simp)]
  have hdiag : ∀ (m : ℕ × ℕ → ℝ) l, l ≤ lmax → lstart ≤ l →
      runWrites (mainWrites lstart lmax false (fun l2 : ℕ => (lendToeplitz l2 lT lE dl lmax).toNat) entry) m (l, l) = entry l l := by
    intro m l hl hls
    have := main_exact hok' entry m hl hl (by omega : lstart ≤ min l l) (Or.inl rfl)
    simpa using this
  have hlend : ∀ l : ℕ, l ≤ lmax → lstart ≤ l → coefTable lstart lmax false 0 0 0 entry (l, l) = entry l l := by
    intro l hl hls
    rw [coefTable_plain _ _ _ _ _ _ _ le_rfl hl hl, if_pos ⟨hls, hls⟩]
    simp
  rw [coefTable_tplz _ _ _ _ _ _ (by omega : lT > 0)]
  have hmem : ∀ p ∈ fillPairs lmax lT.toNat lE.toNat, p.1 ≤ lmax ∧ lE.toNat ≤ p.2 ∧ p.2 + (lmax - lT.toNat) ≤ p.1 :=
    fun p hp => (mem_fillPairs (by omega) (by omega)).1 hp
  by_cases hc : l2 = l3 ∨ ((min l2 l3 : ℕ) : ℤ) < lE ∨ (((min l2 l3 : ℕ) : ℤ) ≤ lT ∧ ((max l2 l3 : ℕ) : ℤ) ≤ (min l2 l3 : ℕ) + dl ∧
        ((max l2 l3 : ℕ) : ℤ) - (min l2 l3 : ℕ) < lmax - lT)
  · rw [fill_untouched]
    · apply main_exact hok' _ _ h2 h3 hs'
      rcases hc with h | h | h
      · exact Or.inl h
      · exact Or.inr (Or.inl (by omega))
      · exact Or.inr (Or.inr ⟨h.1, h.2.1⟩)
    · intro p hp
      have := hmem p hp
      omega
  · have h' : ((min l2 l3 : ℕ) : ℤ) = lE ∧ coefTable lstart lmax false 0 0 0 entry (l2, l2) ≠ 0 ∧
        coefTable lstart lmax false 0 0 0 entry (l3, l3) ≠ 0 := by
      rcases h with h | h | h | h
      · exact absurd (Or.inl h) hc
      · exact absurd (Or.inr (Or.inl h)) hc
      · exact h
      · exact absurd (Or.inr (Or.inr h)) hc
    obtain ⟨e, d2, d3⟩ := h'
    rw [hlend l2 h2 (by omega)] at d2
    rw [hlend l3 h3 (by omega)] at d3
    have hne : l2 ≠ l3 := fun h => hc (Or.inl h)
    have hps : ∀ p ∈ fillPairs lmax lT.toNat lE.toNat, p.2 < p.1 := by
      intro p hp
      have := hmem p hp
      omega
    rcases lt_or_gt_of_ne hne with hlt | hlt
    · have e2 : lE.toNat = l2 := by omega
      have sy := symTab_fill lE.toNat (fillPairs lmax lT.toNat lE.toNat) _ (symTab_main lstart lmax
        (fun l2 : ℕ => (lendToeplitz l2 lT lE dl lmax).toNat) entry _ (symTab_tplz lstart lmax lT.toNat entry (fun _ => 0) (fun _ _ => rfl))) l2 l3
      rw [sy]
      conv_lhs => rw [show (l3, l2) = (l3, lE.toNat) by rw [e2]]
      rw [fill_exact _ _ hps _ _ _ _ (by omega)]
      · rw [e2, main_exact hok' _ _ h3 h2 (by omega) (Or.inr (Or.inl (by omega))), min_comm, max_comm]
      · rw [hdiag _ _ h3 (by omega)]; exact d3
      · rw [e2, hdiag _ _ h2 (by omega)]; exact d2
    · have e3 : lE.toNat = l3 := by omega
      conv_lhs => rw [show (l2, l3) = (l2, lE.toNat) by rw [e3]]
      rw [fill_exact _ _ hps _ _ _ _ (by omega)]
      · rw [e3, main_exact hok' _ _ h2 h3 (by omega) (Or.inr (Or.inl (by omega)))]
      · rw [hdiag _ _ h2 (by omega)]; exact d2
      · rw [e3, hdiag _ _ h3 (by omega)]; exact d3

/-! ## One element of the coupling matrix -/

/-- The same call with other Toeplitz parameters. -/
def CouplingArgs.withToeplitz (a : CouplingArgs) (lT lE dl : ℤ) : CouplingArgs := { a with lT := lT, lE := lE, dl := dl }

/-- Without purification each element is a multiple of an element of one of the tables. -/
theorem cell_kind (W : Wigner) (a : CouplingArgs) (lmax : ℕ) (pcl : ℕ → ℝ) (hp : a.pureAny = false) {x y : ℕ}
    (hx : x < a.ncls) (hy : y < a.ncls) :
    ∃ (c : ℝ) (e : ℕ → ℕ → ℝ), ∀ (lT lE dl : ℤ) (l2 l3 : ℕ),
      runWrites ((a.withToeplitz lT lE dl).cells W lmax pcl l2 l3) (fun _ => 0) (x, y) =
        (2 * l3 + 1) * c * coefTable (a.calc lmax).lstart lmax false lT lE dl e (l2, l3) := by
  have hx1 : ∀ lT lE dl, ((a.withToeplitz lT lE dl).xi W lmax pcl) =
    (fun l2 l3 => coefTable (a.calc lmax).lstart lmax false lT lE dl (entry00 (lfac a.junk lmax a.lmaxMask) (a.calc lmax) pcl) (l2, l3),
     fun ip l2 l3 => coefTable (a.calc lmax).lstart lmax false lT lE dl (entry0s W (lfac a.junk lmax a.lmaxMask) (a.calc lmax) pcl ip) (l2, l3),
     fun ip l2 l3 => coefTable (a.calc lmax).lstart lmax false lT lE dl (entryPP W (a.calc lmax) pcl ip) (l2, l3),
     fun ip l2 l3 => coefTable (a.calc lmax).lstart lmax false lT lE dl (entryMM W (a.calc lmax) pcl ip) (l2, l3)) := by
    intro lT lE dl
    have : (a.withToeplitz lT lE dl).pureAny = false := hp
    unfold CouplingArgs.xi
    simp only [this]
    rfl
  have hn : ∀ lT lE dl, (a.withToeplitz lT lE dl).ncls = a.ncls := fun _ _ _ => rfl
  rcases ncls_cases a with hc | hc | hc | hc
  · rw [hc] at hx hy
    have hx0 : x = 0 := by omega
    have hy0 : y = 0 := by omega
    subst hx0; subst hy0
    refine ⟨(if Odd (a.spin1 + a.spin2) then -1 else 1), entry00 (lfac a.junk lmax a.lmaxMask) (a.calc lmax) pcl,
      fun lT lE dl l2 l3 => ?_⟩
    rw [cells_one _ _ _ _ _ _ ((hn lT lE dl).trans hc), hx1]
    rfl
  · rw [hc] at hx hy
    by_cases e : x = y
    · refine ⟨(if Odd (a.spin1 + a.spin2) then -1 else 1), entry0s W (lfac a.junk lmax a.lmaxMask) (a.calc lmax) pcl
        (if x = 0 then flag a.pe1 + flag a.pe2 else flag a.pb1 + flag a.pb2), fun lT lE dl l2 l3 => ?_⟩
      rw [cells_two _ _ _ _ _ _ _ _ ((hn lT lE dl).trans hc) hx hy, hx1, if_pos e]
      rfl
    · refine ⟨0, fun _ _ => 0, fun lT lE dl l2 l3 => ?_⟩
      rw [cells_two _ _ _ _ _ _ _ _ ((hn lT lE dl).trans hc) hx hy, if_neg e]
      ring
  · rw [hc] at hx hy
    by_cases e : x = y
    · refine ⟨(if Odd (a.spin1 + a.spin2) then -1 else 1), entryPP W (a.calc lmax) pcl
        ((if x < 2 then flag a.pe1 else flag a.pb1) + (if x % 2 = 0 then flag a.pe2 else flag a.pb2)), fun lT lE dl l2 l3 => ?_⟩
      rw [cells_four _ _ _ _ _ _ _ _ ((hn lT lE dl).trans hc) hx hy, hx1, if_pos e]
      rfl
    · by_cases e1 : (x, y) = (0, 3) ∨ (x, y) = (3, 0)
      · refine ⟨(if Odd (a.spin1 + a.spin2) then -1 else 1), entryMM W (a.calc lmax) pcl
          ((if x < 2 then flag a.pe1 else flag a.pb1) + (if x % 2 = 0 then flag a.pe2 else flag a.pb2)), fun lT lE dl l2 l3 => ?_⟩
        rw [cells_four _ _ _ _ _ _ _ _ ((hn lT lE dl).trans hc) hx hy, hx1, if_neg e, if_pos e1]
        rfl
      · by_cases e2 : (x, y) = (1, 2) ∨ (x, y) = (2, 1)
        · refine ⟨-(if Odd (a.spin1 + a.spin2) then -1 else 1), entryMM W (a.calc lmax) pcl
            ((if x < 2 then flag a.pe1 else flag a.pb1) + (if x % 2 = 0 then flag a.pe2 else flag a.pb2)), fun lT lE dl l2 l3 => ?_⟩
          rw [cells_four _ _ _ _ _ _ _ _ ((hn lT lE dl).trans hc) hx hy, hx1, if_neg e, if_neg e1, if_pos e2, mul_neg, mul_neg,
            neg_mul]
          rfl
        · refine ⟨0, fun _ _ => 0, fun lT lE dl l2 l3 => ?_⟩
          rw [cells_four _ _ _ _ _ _ _ _ ((hn lT lE dl).trans hc) hx hy, if_neg e, if_neg e1, if_neg e2]
          ring
  · rw [hc] at hx hy
    by_cases e0 : x = 0 ∧ y = 0
    · refine ⟨(if Odd (a.spin1 + a.spin2) then -1 else 1), entry00 (lfac a.junk lmax a.lmaxMask) (a.calc lmax) pcl,
        fun lT lE dl l2 l3 => ?_⟩
      rw [cells_seven _ _ _ _ _ _ _ _ ((hn lT lE dl).trans hc) hx hy, hx1, if_pos e0]
      rfl
    · by_cases e3 : x < 3 ∨ y < 3
      · by_cases e : x = y
        · refine ⟨(if Odd (a.spin1 + a.spin2) then -1 else 1), entry0s W (lfac a.junk lmax a.lmaxMask) (a.calc lmax) pcl
            (if x = 1 then flag a.pe2 else flag a.pb2), fun lT lE dl l2 l3 => ?_⟩
          rw [cells_seven _ _ _ _ _ _ _ _ ((hn lT lE dl).trans hc) hx hy, hx1, if_neg e0, if_pos e3, if_pos e]
          rfl
        · refine ⟨0, fun _ _ => 0, fun lT lE dl l2 l3 => ?_⟩
          rw [cells_seven _ _ _ _ _ _ _ _ ((hn lT lE dl).trans hc) hx hy, if_neg e0, if_pos e3, if_neg e]
          ring
      · by_cases e : x = y
        · refine ⟨(if Odd (a.spin1 + a.spin2) then -1 else 1), entryPP W (a.calc lmax) pcl
            ((if x < 5 then flag a.pe2 else flag a.pb2) + (if x % 2 = 1 then flag a.pe2 else flag a.pb2)), fun lT lE dl l2 l3 => ?_⟩
          rw [cells_seven _ _ _ _ _ _ _ _ ((hn lT lE dl).trans hc) hx hy, hx1, if_neg e0, if_neg e3, if_pos e]
          rfl
        · by_cases e1 : (x, y) = (3, 6) ∨ (x, y) = (6, 3)
          · refine ⟨(if Odd (a.spin1 + a.spin2) then -1 else 1), entryMM W (a.calc lmax) pcl
              ((if x < 5 then flag a.pe2 else flag a.pb2) + (if x % 2 = 1 then flag a.pe2 else flag a.pb2)), fun lT lE dl l2 l3 => ?_⟩
            rw [cells_seven _ _ _ _ _ _ _ _ ((hn lT lE dl).trans hc) hx hy, hx1, if_neg e0, if_neg e3, if_neg e, if_pos e1]
            rfl
          · by_cases e2 : (x, y) = (4, 5) ∨ (x, y) = (5, 4)
            · refine ⟨-(if Odd (a.spin1 + a.spin2) then -1 else 1), entryMM W (a.calc lmax) pcl
                ((if x < 5 then flag a.pe2 else flag a.pb2) + (if x % 2 = 1 then flag a.pe2 else flag a.pb2)), fun lT lE dl l2 l3 => ?_⟩
              rw [cells_seven _ _ _ _ _ _ _ _ ((hn lT lE dl).trans hc) hx hy, hx1, if_neg e0, if_neg e3, if_neg e, if_neg e1, if_pos e2,
                mul_neg, mul_neg, neg_mul]
              rfl
            · refine ⟨0, fun _ _ => 0, fun lT lE dl l2 l3 => ?_⟩
              rw [cells_seven _ _ _ _ _ _ _ _ ((hn lT lE dl).trans hc) hx hy, if_neg e0, if_neg e3, if_neg e, if_neg e1, if_neg e2]
              ring

end NaMaster
