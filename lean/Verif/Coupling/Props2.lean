import Verif.Coupling.Lemmas4
import Mathlib.Tactic.SplitIfs

/-!
# Coupling matrices: linearity (C17), vanishing elements (C18), joint T-E-B matrix (C19)
-/

namespace NaMaster

open Finset CouplingSpec

/-! ## Linearity in the mask spectrum -/

theorem sumMask_lin (M l2 l3 : ℕ) (c d : ℝ) (f g h : ℕ → ℝ) (hf : ∀ l1, l1 ≤ M → f l1 = c * g l1 + d * h l1) :
    sumMask M l2 l3 f = c * sumMask M l2 l3 g + d * sumMask M l2 l3 h := by
  unfold sumMask
  rw [Finset.mul_sum, Finset.mul_sum, ← Finset.sum_add_distrib]
  apply Finset.sum_congr rfl
  intro l1 _
  by_cases hl : l1 ≤ M
  · rw [if_pos hl, if_pos hl, if_pos hl, hf l1 hl]
  · rw [if_neg hl, if_neg hl, if_neg hl]; ring

section linear
variable (W : Wigner) (a : CouplingArgs) (lmax : ℕ) {p q r : ℕ → ℝ} {c d : ℝ}
  (hr : ∀ l, l ≤ a.lmaxMask → r l = c * p l + d * q l) (hT : a.lT ≤ 0) {l2 l3 : ℕ} (h2 : l2 ≤ lmax) (h3 : l3 ≤ lmax)
include hr

theorem table_lin (E : (ℕ → ℝ) → ℕ → ℕ → ℝ) (hE : ∀ l2 l3, E r l2 l3 = c * E p l2 l3 + d * E q l2 l3)
    (hT : a.lT ≤ 0) (h2 : l2 ≤ lmax) (h3 : l3 ≤ lmax) (ls : ℕ) (b : Bool) :
    coefTable ls lmax b a.lT a.lE a.dl (E r) (l2, l3) =
      c * coefTable ls lmax b a.lT a.lE a.dl (E p) (l2, l3) + d * coefTable ls lmax b a.lT a.lE a.dl (E q) (l2, l3) := by
  rw [coefTable_plain _ _ _ _ _ _ _ hT h2 h3, coefTable_plain _ _ _ _ _ _ _ hT h2 h3,
    coefTable_plain _ _ _ _ _ _ _ hT h2 h3]
  split
  · split
    · exact hE _ _
    · exact hE _ _
  · ring

include hT h2 h3

theorem xi00_lin : (a.xi W lmax r).1 l2 l3 = c * (a.xi W lmax p).1 l2 l3 + d * (a.xi W lmax q).1 l2 l3 := by
  unfold CouplingArgs.xi
  simp only
  refine table_lin a lmax hr (fun p => entry00 (lfac a.junk lmax a.lmaxMask) (a.calc lmax) p) ?_ hT h2 h3 _ _
  intro l2 l3
  unfold entry00
  apply sumMask_lin
  intro l1 hl
  rw [calc_lmaxMask] at hl
  rw [hr l1 hl]; ring

theorem xi0s_lin (ip : ℕ) : (a.xi W lmax r).2.1 ip l2 l3 =
    c * (a.xi W lmax p).2.1 ip l2 l3 + d * (a.xi W lmax q).2.1 ip l2 l3 := by
  unfold CouplingArgs.xi
  simp only
  refine table_lin a lmax hr (fun p => entry0s W (lfac a.junk lmax a.lmaxMask) (a.calc lmax) p ip) ?_ hT h2 h3 _ _
  intro l2 l3
  unfold entry0s
  apply sumMask_lin
  intro l1 hl
  rw [calc_lmaxMask] at hl
  rw [hr l1 hl]; ring

theorem xipp_lin (ip : ℕ) : (a.xi W lmax r).2.2.1 ip l2 l3 =
    c * (a.xi W lmax p).2.2.1 ip l2 l3 + d * (a.xi W lmax q).2.2.1 ip l2 l3 := by
  unfold CouplingArgs.xi
  simp only
  refine table_lin a lmax hr (fun p => entryPP W (a.calc lmax) p ip) ?_ hT h2 h3 _ _
  intro l2 l3
  unfold entryPP
  apply sumMask_lin
  intro l1 hl
  rw [calc_lmaxMask] at hl
  unfold wfacSs
  rw [hr l1 hl]
  split <;> [ring; (split <;> [ring; (split <;> ring)])]

theorem ximm_lin (ip : ℕ) : (a.xi W lmax r).2.2.2 ip l2 l3 =
    c * (a.xi W lmax p).2.2.2 ip l2 l3 + d * (a.xi W lmax q).2.2.2 ip l2 l3 := by
  unfold CouplingArgs.xi
  simp only
  refine table_lin a lmax hr (fun p => entryMM W (a.calc lmax) p ip) ?_ hT h2 h3 _ _
  intro l2 l3
  unfold entryMM
  apply sumMask_lin
  intro l1 hl
  rw [calc_lmaxMask] at hl
  unfold wfacSs
  rw [hr l1 hl]
  split <;> [(split <;> [ring; (split <;> ring)]); ring]

end linear

/-- **C17** (linearity). The matrix is linear in the mask spectrum, with or without purification and for the
joint T-E-B matrix too, when no Toeplitz approximation is used. -/
theorem C17_linear {W : Wigner} {a : CouplingArgs} (hT : a.lT ≤ 0) {lmaxFields : ℕ} {p q r beam1 beam2 : List ℝ}
    {B : Bins ℝ} {nt : ℤ} {w2 : ℝ} {wp wq wr : Wsp ℝ} {c d : ℝ}
    (hp : compCouplingMatrix W a lmaxFields p beam1 beam2 B nt w2 = .ok wp)
    (hq : compCouplingMatrix W a lmaxFields q beam1 beam2 B nt w2 = .ok wq)
    (hr : compCouplingMatrix W a lmaxFields r beam1 beam2 B nt w2 = .ok wr)
    (hlin : ∀ l, r.getD l 0 = c * p.getD l 0 + d * q.getD l 0) :
    ∃ Up Uq Ur, wp.unbinned = some Up ∧ wq.unbinned = some Uq ∧ wr.unbinned = some Ur ∧
      ∀ i j, i < wr.ncls * (wr.lmax + 1) → j < wr.ncls * (wr.lmax + 1) → Ur i j = c * Up i j + d * Uq i j := by
  obtain ⟨-, -, -, Up, hUp, hvp⟩ := comp_ok hp
  obtain ⟨-, -, -, Uq, hUq, hvq⟩ := comp_ok hq
  obtain ⟨-, hn, hl, Ur, hUr, hvr⟩ := comp_ok hr
  refine ⟨Up, Uq, Ur, hUp, hUq, hUr, ?_⟩
  rw [hn, hl]
  have key : ∀ l2 l3 x y, l2 ≤ B.ellMax → l3 ≤ B.ellMax → x < a.ncls → y < a.ncls →
      Ur (a.ncls * l2 + x) (a.ncls * l3 + y) =
        c * Up (a.ncls * l2 + x) (a.ncls * l3 + y) + d * Uq (a.ncls * l2 + x) (a.ncls * l3 + y) := by
    intro l2 l3 x y h2 h3 hx hy
    rw [hvp l2 l3 x y h2 h3 hx hy, hvq l2 l3 x y h2 h3 hx hy, hvr l2 l3 x y h2 h3 hx hy]
    have hu : ∀ l, l ≤ a.lmaxMask →
        usedPcl a.lmaxMask r l = c * usedPcl a.lmaxMask p l + d * usedPcl a.lmaxMask q l := by
      intro l hl
      rw [usedPcl_apply _ hl, usedPcl_apply _ hl, usedPcl_apply _ hl, hlin l]; ring
    have e1 := xi00_lin W a B.ellMax hu hT h2 h3
    have e2 := xi0s_lin W a B.ellMax hu hT h2 h3
    have e3 := xipp_lin W a B.ellMax hu hT h2 h3
    have e4 := ximm_lin W a B.ellMax hu hT h2 h3
    rcases ncls_cases a with hc | hc | hc | hc
    · rw [hc] at hx hy
      have hx0 : x = 0 := by omega
      have hy0 : y = 0 := by omega
      subst hx0; subst hy0
      rw [cells_one _ _ _ _ _ _ hc, cells_one _ _ _ _ _ _ hc, cells_one _ _ _ _ _ _ hc, e1]; ring
    · rw [hc] at hx hy
      rw [cells_two _ _ _ _ _ _ _ _ hc hx hy, cells_two _ _ _ _ _ _ _ _ hc hx hy, cells_two _ _ _ _ _ _ _ _ hc hx hy,
        e2]
      split <;> ring
    · rw [hc] at hx hy
      rw [cells_four _ _ _ _ _ _ _ _ hc hx hy, cells_four _ _ _ _ _ _ _ _ hc hx hy,
        cells_four _ _ _ _ _ _ _ _ hc hx hy]
      simp only
      rw [e3, e4]
      generalize (if Odd (a.spin1 + a.spin2) then (-1 : ℝ) else 1) = sg
      split_ifs <;> ring
    · rw [hc] at hx hy
      rw [cells_seven _ _ _ _ _ _ _ _ hc hx hy, cells_seven _ _ _ _ _ _ _ _ hc hx hy,
        cells_seven _ _ _ _ _ _ _ _ hc hx hy]
      simp only
      rw [e1, e2, e3, e4]
      generalize (if Odd (a.spin1 + a.spin2) then (-1 : ℝ) else 1) = sg
      split_ifs <;> ring
  intro i j hi hj
  have hpos : 0 < a.ncls := by rcases ncls_cases a with h | h | h | h <;> omega
  have := key (i / a.ncls) (j / a.ncls) (i % a.ncls) (j % a.ncls)
    (by have := Nat.div_lt_of_lt_mul hi; omega) (by have := Nat.div_lt_of_lt_mul hj; omega)
    (Nat.mod_lt _ hpos) (Nat.mod_lt _ hpos)
  rwa [Nat.div_add_mod, Nat.div_add_mod] at this

/-! ## Vanishing elements -/

/-- A field can be purified only if its spin is two (pymaster/field.py:238-239). -/
def CouplingArgs.PureSpinTwo (a : CouplingArgs) : Prop :=
  (a.pe1 ∨ a.pb1 → a.spin1 = 2) ∧ (a.pe2 ∨ a.pb2 → a.spin2 = 2)

theorem lstart_teb {a : CouplingArgs} (ht : a.teb = true) (lmax : ℕ) : (a.calc lmax).lstart = 0 := by
  unfold CouplingArgs.calc Calc.make Calc.lstart Calc.has00
  split <;> [split; skip] <;> simp [ht]

/-- **C18** (below the spin). Rows and columns with a multipole below the larger spin vanish, except in the
T-T block of a joint T-E-B matrix; with or without purification and Toeplitz approximation. -/
theorem C18_below_spin {W : Wigner} {a : CouplingArgs} (hps : a.PureSpinTwo) {lmaxFields : ℕ}
    {pcl beam1 beam2 : List ℝ} {B : Bins ℝ} {nt : ℤ} {w2 : ℝ} {w : Wsp ℝ}
    (h : compCouplingMatrix W a lmaxFields pcl beam1 beam2 B nt w2 = .ok w) :
    ∃ U, w.unbinned = some U ∧ ∀ l2 l3 x y, l2 ≤ B.ellMax → l3 ≤ B.ellMax → x < w.ncls → y < w.ncls →
      (l2 < max a.spin1 a.spin2 ∨ l3 < max a.spin1 a.spin2) → ¬ (a.teb ∧ x = 0 ∧ y = 0) →
      U (w.ncls * l2 + x) (w.ncls * l3 + y) = 0 := by
  obtain ⟨ht, hn, -, U, hU, hv⟩ := comp_ok h
  refine ⟨U, hU, ?_⟩
  rw [hn]
  intro l2 l3 x y h2 h3 hx hy hl hne
  rw [hv l2 l3 x y h2 h3 hx hy]
  cases hteb : a.teb
  · -- loops start at the larger spin
    have hz : ∀ entry, coefTable (a.calc B.ellMax).lstart B.ellMax a.pureAny a.lT a.lE a.dl entry (l2, l3) = 0 := by
      intro entry
      apply coefTable_zero _ _ _ _ _ _ _ (fun l => l < max a.spin1 a.spin2)
      · intro l hl
        rw [lstart_plain hteb]
        exact Or.inl hl
      · exact hl
    rcases ncls_cases a with hc | hc | hc | hc
    · rw [hc] at hx hy
      have hx0 : x = 0 := by omega
      have hy0 : y = 0 := by omega
      subst hx0; subst hy0
      rw [cells_one _ _ _ _ _ _ hc]
      unfold CouplingArgs.xi
      simp only
      rw [hz, mul_zero]
    · rw [hc] at hx hy
      rw [cells_two _ _ _ _ _ _ _ _ hc hx hy]
      unfold CouplingArgs.xi
      simp only
      rw [hz, mul_zero, ite_self]
    · rw [hc] at hx hy
      rw [cells_four _ _ _ _ _ _ _ _ hc hx hy]
      unfold CouplingArgs.xi
      simp only
      rw [hz, hz]
      simp
    · exfalso
      unfold CouplingArgs.ncls at hc
      rw [hteb] at hc
      by_cases e1 : a.spin1 ≠ 0 <;> by_cases e2 : a.spin2 ≠ 0 <;> simp [e1, e2] at hc
  · obtain ⟨hs1, hs2⟩ := ht hteb
    have hc : a.ncls = 7 := by unfold CouplingArgs.ncls; rw [if_pos hteb]
    rw [hc] at hx hy
    have hcs : (a.calc B.ellMax).s1 = a.spin2 := by rw [calc_s1, if_pos hs1]
    have hmax : max a.spin1 a.spin2 = a.spin2 := by rw [hs1]; simp
    rw [hmax] at hl
    have hip : ∀ ip, ip = flag a.pe2 ∨ ip = flag a.pb2 ∨ ip = flag a.pe2 + flag a.pb2 ∨ ip = flag a.pe2 + flag a.pe2
        ∨ ip = flag a.pb2 + flag a.pb2 ∨ ip = flag a.pb2 + flag a.pe2 → ip = 0 ∨ (a.calc B.ellMax).s1 = 2 := by
      intro ip hip
      rw [hcs]
      by_cases hp : a.pe2 ∨ a.pb2
      · exact Or.inr (hps.2 hp)
      · left
        have e1 : a.pe2 = false := by simpa using fun h => hp (Or.inl h)
        have e2 : a.pb2 = false := by simpa using fun h => hp (Or.inr h)
        have hf : flag false = 0 := rfl
        rw [e1, e2, hf] at hip
        omega
    have hz : ∀ entry : ℕ → ℕ → ℝ, (∀ l l', l < a.spin2 ∨ l' < a.spin2 → entry l l' = 0) →
        coefTable (a.calc B.ellMax).lstart B.ellMax a.pureAny a.lT a.lE a.dl entry (l2, l3) = 0 := by
      intro entry he
      apply coefTable_zero _ _ _ _ _ _ _ (fun l => l < a.spin2)
      · intro l hl
        right
        exact fun l' => ⟨he l l' (Or.inl hl), he l' l (Or.inr hl)⟩
      · exact hl
    have z2 : ∀ ip, (ip = 0 ∨ (a.calc B.ellMax).s1 = 2) → (a.xi W B.ellMax (usedPcl a.lmaxMask pcl)).2.1 ip l2 l3 = 0 := by
      intro ip h0
      unfold CouplingArgs.xi
      simp only
      exact hz _ fun l l' hll => entry0s_below W _ _ _ ip h0 (by rw [hcs]; exact hll)
    have z3 : ∀ ip, (ip = 0 ∨ (a.calc B.ellMax).s1 = 2) → (a.xi W B.ellMax (usedPcl a.lmaxMask pcl)).2.2.1 ip l2 l3 = 0 := by
      intro ip h0
      unfold CouplingArgs.xi
      simp only
      exact hz _ fun l l' hll => entryPP_below W _ _ ip h0 (by rw [hcs]; exact hll)
    have z4 : ∀ ip, (ip = 0 ∨ (a.calc B.ellMax).s1 = 2) → (a.xi W B.ellMax (usedPcl a.lmaxMask pcl)).2.2.2 ip l2 l3 = 0 := by
      intro ip h0
      unfold CouplingArgs.xi
      simp only
      exact hz _ fun l l' hll => entryMM_below W _ _ ip h0 (by rw [hcs]; exact hll)
    rw [cells_seven _ _ _ _ _ _ _ _ hc hx hy, if_neg (fun h => hne ⟨hteb, h⟩)]
    simp only
    rw [z2, z3, z4]
    · simp
    · apply hip
      by_cases e1 : x < 5 <;> by_cases e2 : x % 2 = 1 <;> simp [e1, e2]
    · apply hip
      by_cases e1 : x < 5 <;> by_cases e2 : x % 2 = 1 <;> simp [e1, e2]
    · apply hip
      by_cases e1 : x = 1 <;> simp [e1]

/-- Which components may mix: for `0E,0B` each only with itself; for `EE,EB,BE,BB` also `EE` with `BB` and
`EB` with `BE`; for the joint case the same inside each block. -/
def mayMix (ncls x y : ℕ) : Prop :=
  x = y ∨ (ncls = 4 ∧ x + y = 3) ∨ (ncls = 7 ∧ 3 ≤ x ∧ 3 ≤ y ∧ x + y = 9)

/-- **C18** (no other mixing). All elements between components that may not mix vanish, for all arguments. -/
theorem C18_mixing {W : Wigner} {a : CouplingArgs} {lmaxFields : ℕ} {pcl beam1 beam2 : List ℝ} {B : Bins ℝ}
    {nt : ℤ} {w2 : ℝ} {w : Wsp ℝ} (h : compCouplingMatrix W a lmaxFields pcl beam1 beam2 B nt w2 = .ok w) :
    ∃ U, w.unbinned = some U ∧ ∀ l2 l3 x y, l2 ≤ B.ellMax → l3 ≤ B.ellMax → x < w.ncls → y < w.ncls →
      ¬ mayMix w.ncls x y → U (w.ncls * l2 + x) (w.ncls * l3 + y) = 0 := by
  obtain ⟨-, hn, -, U, hU, hv⟩ := comp_ok h
  refine ⟨U, hU, ?_⟩
  rw [hn]
  intro l2 l3 x y h2 h3 hx hy hne
  rw [hv l2 l3 x y h2 h3 hx hy]
  unfold mayMix at hne
  push Not at hne
  obtain ⟨n1, n2, n3⟩ := hne
  rcases ncls_cases a with hc | hc | hc | hc
  · rw [hc] at hx hy; omega
  · rw [hc] at hx hy
    rw [cells_two _ _ _ _ _ _ _ _ hc hx hy, if_neg n1]
  · rw [hc] at hx hy
    have := n2 hc
    rw [cells_four _ _ _ _ _ _ _ _ hc hx hy]
    simp only
    generalize (if Odd (a.spin1 + a.spin2) then (-1 : ℝ) else 1) = sg
    rw [if_neg n1, if_neg (by simp only [Prod.mk.injEq]; omega), if_neg (by simp only [Prod.mk.injEq]; omega), mul_zero]
  · rw [hc] at hx hy
    have := n3 hc
    rw [cells_seven _ _ _ _ _ _ _ _ hc hx hy]
    simp only
    generalize (if Odd (a.spin1 + a.spin2) then (-1 : ℝ) else 1) = sg
    rw [if_neg (by omega)]
    by_cases hb : x < 3 ∨ y < 3
    · rw [if_pos hb, if_neg n1, mul_zero]
    · rw [if_neg hb, if_neg n1, if_neg (by simp only [Prod.mk.injEq]; omega),
        if_neg (by simp only [Prod.mk.injEq]; omega), mul_zero]

/-! ## Joint T-E-B matrix -/

theorem entry00_sym (junk : ℕ → ℝ) (c : Calc) (lmax M : ℕ) (pcl : List ℝ) {l2 l3 : ℕ} (hM : c.lmaxMask = M)
    (h2 : l2 ≤ lmax) (h3 : l3 ≤ lmax) :
    entry00 (lfac junk lmax M) c (usedPcl M pcl) l3 l2 = entry00 (lfac junk lmax M) c (usedPcl M pcl) l2 l3 := by
  rw [entry00_eq exampleWigner _ _ _ _ _ hM h2 h3, entry00_eq exampleWigner _ _ _ _ _ hM h3 h2,
    coupling_comm exampleWigner_symmetric]

theorem sumMask_congr (M l2 l3 : ℕ) (f g : ℕ → ℝ) (h : ∀ l1, l1 ≤ M → Triangle l1 l2 l3 → f l1 = g l1) :
    sumMask M l2 l3 f = sumMask M l2 l3 g := by
  unfold sumMask
  apply Finset.sum_congr rfl
  intro l1 hl
  by_cases hM : l1 ≤ M
  · rw [if_pos hM, if_pos hM, h l1 hM (triangle_iff.2 (Finset.mem_Icc.1 hl))]
  · rw [if_neg hM, if_neg hM]

/-- The memory after the table of factorials, and everything but the first spin, do not matter. -/
theorem entry0s_congr (W : Wigner) (j j' : ℕ → ℝ) (c c' : Calc) (lmax M : ℕ) (p : ℕ → ℝ) (ip : ℕ) {l2 l3 : ℕ}
    (hM : c.lmaxMask = M) (hM' : c'.lmaxMask = M) (hs : c.s1 = c'.s1) (h2 : l2 ≤ lmax) (h3 : l3 ≤ lmax) :
    entry0s W (lfac j lmax M) c p ip l2 l3 = entry0s W (lfac j' lmax M) c' p ip l2 l3 := by
  unfold entry0s
  rw [hM, hM']
  apply sumMask_congr
  intro l1 hl ht
  rw [drc000_eq j lmax M _ _ _ ht (by unfold lfacSize; omega), drc000_eq j' lmax M _ _ _ ht (by unfold lfacSize; omega)]
  unfold wPure wss1
  rw [hs]

theorem wfacSs_congr (W : Wigner) (c c' : Calc) (p : ℕ → ℝ) (ip l1 l2 l3 : ℕ) (hs : c.s1 = c'.s1)
    (hss : c.hasSs2 = false) (hss' : c'.hasSs2 = false) : wfacSs W c p ip l1 l2 l3 = wfacSs W c' p ip l1 l2 l3 := by
  have hw : ∀ d : Calc, d.hasSs2 = false → wss2 W d l1 l2 l3 = wss1 W d l1 l2 l3 := by
    intro d hd
    unfold wss2
    rw [hd, if_neg (by simp)]
  unfold wfacSs wPure
  rw [hw c hss, hw c' hss']
  unfold wss1
  rw [hs]

/-- The blocks of the joint matrix up to the sign by which they differ. -/
theorem teb_blocks {W : Wigner} {a : CouplingArgs} (hteb : a.teb = true) (h1e : a.pe1 = false) (h1b : a.pb1 = false)
    (hps : a.PureSpinTwo) (hT : a.lT ≤ 0) {j1 j2 j4 : ℕ → ℝ} {lmaxFields : ℕ} {pcl : List ℝ} {B : Bins ℝ}
    {b1 b2 b3 b4 b5 b6 b7 b8 : List ℝ} {n1 n2 n3 n4 : ℤ} {v1 v2 v3 v4 : ℝ} {w7 w1 w2 w4 : Wsp ℝ}
    (h7 : compCouplingMatrix W a lmaxFields pcl b1 b2 B n1 v1 = .ok w7)
    (h1 : compCouplingMatrix W { a with teb := false, spin2 := 0, pe2 := false, pb2 := false, junk := j1 }
      lmaxFields pcl b3 b4 B n2 v2 = .ok w1)
    (h2 : compCouplingMatrix W { a with teb := false, junk := j2 } lmaxFields pcl b5 b6 B n3 v3 = .ok w2)
    (h4 : compCouplingMatrix W { a with teb := false, spin1 := a.spin2, pe1 := a.pe2, pb1 := a.pb2, junk := j4 }
      lmaxFields pcl b7 b8 B n4 v4 = .ok w4) :
    ∃ U7 U1 U2 U4, w7.unbinned = some U7 ∧ w1.unbinned = some U1 ∧ w2.unbinned = some U2 ∧ w4.unbinned = some U4 ∧
      ∀ l l' x y, l ≤ B.ellMax → l' ≤ B.ellMax → x < 7 → y < 7 →
        U7 (7 * l + x) (7 * l' + y) =
          if x = 0 ∧ y = 0 then (-1) ^ a.spin2 * U1 l l'
          else if (x = 1 ∨ x = 2) ∧ (y = 1 ∨ y = 2) then U2 (2 * l + (x - 1)) (2 * l' + (y - 1))
          else if 3 ≤ x ∧ 3 ≤ y then (-1) ^ a.spin2 * U4 (4 * l + (x - 3)) (4 * l' + (y - 3))
          else 0 := by
  obtain ⟨ht, -, -, U7, hU7, hv7⟩ := comp_ok h7
  obtain ⟨-, -, -, U1, hU1, hv1⟩ := comp_ok h1
  obtain ⟨-, -, -, U2, hU2, hv2⟩ := comp_ok h2
  obtain ⟨-, -, -, U4, hU4, hv4⟩ := comp_ok h4
  obtain ⟨hs1, hs2⟩ := ht hteb
  refine ⟨U7, U1, U2, U4, hU7, hU1, hU2, hU4, ?_⟩
  set a1 : CouplingArgs := { a with teb := false, spin2 := 0, pe2 := false, pb2 := false, junk := j1 } with ha1
  set a2 : CouplingArgs := { a with teb := false, junk := j2 } with ha2
  set a4 : CouplingArgs := { a with teb := false, spin1 := a.spin2, pe1 := a.pe2, pb1 := a.pb2, junk := j4 } with ha4
  have c7 : a.ncls = 7 := by unfold CouplingArgs.ncls; rw [if_pos hteb]
  have c1 : a1.ncls = 1 := by unfold CouplingArgs.ncls; simp [ha1, hs1]
  have c2 : a2.ncls = 2 := by unfold CouplingArgs.ncls; simp [ha2, hs1, hs2]
  have c4 : a4.ncls = 4 := by unfold CouplingArgs.ncls; simp [ha4, hs2]
  have p2 : a2.pureAny = a.pureAny := rfl
  have p4 : a4.pureAny = a.pureAny := by
    unfold CouplingArgs.pureAny
    simp only [ha4, h1e, h1b]
    cases a.pe2 <;> cases a.pb2 <;> rfl
  intro l l' x y hl hl' hx hy
  have q := hv7 l l' x y hl hl' (by omega) (by omega)
  rw [c7] at q
  rw [q, cells_seven _ _ _ _ _ _ _ _ c7 hx hy]
  have hsg : (if Odd (a.spin1 + a.spin2) then (-1 : ℝ) else 1) = (-1) ^ a.spin2 := by
    rw [neg_one_pow_eq, hs1, zero_add]
  rw [hsg]
  by_cases hb0 : x = 0 ∧ y = 0
  · rw [if_pos hb0, if_pos hb0]
    have r := hv1 l l' 0 0 hl hl' (by omega) (by omega)
    rw [c1, cells_one _ _ _ _ _ _ c1] at r
    simp only [one_mul, add_zero] at r
    rw [r]
    have e : (a.xi W B.ellMax (usedPcl a.lmaxMask pcl)).1 l l' =
        (a1.xi W B.ellMax (usedPcl a1.lmaxMask pcl)).1 l l' := by
      unfold CouplingArgs.xi
      simp only
      have pl1 : a1.pureAny = false := by unfold CouplingArgs.pureAny; simp [ha1, h1e, h1b]
      rw [coefTable_plain _ _ _ _ _ _ _ hT hl hl', coefTable_plain _ _ _ _ _ _ _ (show a1.lT ≤ 0 from hT) hl hl',
        lstart_teb hteb, lstart_plain (show a1.teb = false from rfl), pl1]
      have m1 : max a1.spin1 a1.spin2 = 0 := by simp [ha1, hs1]
      rw [m1]
      simp only [Nat.zero_le, and_self, if_true, Bool.false_eq_true, if_false]
      have s7 : ∀ l l', l ≤ B.ellMax → l' ≤ B.ellMax →
          entry00 (lfac a.junk B.ellMax a.lmaxMask) (a.calc B.ellMax) (usedPcl a.lmaxMask pcl) l l' =
          entry00 (lfac a1.junk B.ellMax a1.lmaxMask) (a1.calc B.ellMax) (usedPcl a1.lmaxMask pcl) l l' := by
        intro l l' hl hl'
        rw [entry00_eq W _ _ _ _ _ (calc_lmaxMask _ _) hl hl', entry00_eq W _ _ _ _ _ (calc_lmaxMask _ _) hl hl']
      rw [s7 _ _ hl hl', s7 _ _ (by omega) (by omega), ite_eq_right_iff]
      intro _
      rcases le_total l l' with h | h
      · rw [min_eq_left h, max_eq_right h]
      · rw [min_eq_right h, max_eq_left h, entry00_sym _ _ _ _ _ (calc_lmaxMask _ _) hl hl']
    rw [e]
    have hsg1 : (if Odd (a1.spin1 + a1.spin2) then (-1 : ℝ) else 1) = 1 := by simp [ha1, hs1]
    rw [hsg1]; ring
  · rw [if_neg hb0, if_neg hb0]
    have hcs : (a.calc B.ellMax).s1 = a.spin2 := by rw [calc_s1, if_pos hs1]
    have hcs2 : (a2.calc B.ellMax).s1 = a.spin2 := by rw [calc_s1, if_pos (show a2.spin1 = 0 from hs1)]
    have hcs4 : (a4.calc B.ellMax).s1 = a.spin2 := by rw [calc_s1, if_neg (show ¬ a4.spin1 = 0 from hs2)]
    have hip : ∀ ip, ip = flag a.pe2 ∨ ip = flag a.pb2 ∨ ip = flag a.pe2 + flag a.pb2 ∨ ip = flag a.pe2 + flag a.pe2
        ∨ ip = flag a.pb2 + flag a.pb2 ∨ ip = flag a.pb2 + flag a.pe2 → ip = 0 ∨ (a.calc B.ellMax).s1 = 2 := by
      intro ip hip
      rw [hcs]
      by_cases hp : a.pe2 ∨ a.pb2
      · exact Or.inr (hps.2 hp)
      · left
        have e1 : a.pe2 = false := by simpa using fun h => hp (Or.inl h)
        have e2 : a.pb2 = false := by simpa using fun h => hp (Or.inr h)
        have hf : flag false = 0 := rfl
        rw [e1, e2, hf] at hip
        omega
    -- tables starting at zero and at the spin agree
    have htab : ∀ (e e' : ℕ → ℕ → ℝ), (∀ l l', l ≤ B.ellMax → l' ≤ B.ellMax → e l l' = e' l l') →
        (∀ l l', l < a.spin2 ∨ l' < a.spin2 → e l l' = 0) →
        coefTable 0 B.ellMax a.pureAny a.lT a.lE a.dl e (l, l') =
          coefTable a.spin2 B.ellMax a.pureAny a.lT a.lE a.dl e' (l, l') := by
      intro e e' hee hz
      rw [coefTable_plain _ _ _ _ _ _ _ hT hl hl', coefTable_plain _ _ _ _ _ _ _ hT hl hl',
        if_pos ⟨by omega, by omega⟩]
      by_cases hc : a.spin2 ≤ l ∧ a.spin2 ≤ l'
      · rw [if_pos hc, hee _ _ hl hl', hee _ _ (by omega) (by omega)]
      · rw [if_neg hc, hz l l' (by omega), hz (min l l') (max l l') (by omega), ite_self]
    have x2 : ∀ ip, (ip = 0 ∨ (a.calc B.ellMax).s1 = 2) → (a.xi W B.ellMax (usedPcl a.lmaxMask pcl)).2.1 ip l l' =
        (a2.xi W B.ellMax (usedPcl a2.lmaxMask pcl)).2.1 ip l l' := by
      intro ip h0
      unfold CouplingArgs.xi
      simp only
      have m2 : max a2.spin1 a2.spin2 = a.spin2 := by simp [ha2, hs1]
      rw [lstart_teb hteb, lstart_plain (show a2.teb = false from rfl), m2]
      apply htab
      · intro l l' hl hl'
        exact entry0s_congr W _ _ _ _ _ _ _ _ (calc_lmaxMask _ _) (calc_lmaxMask a2 _) (hcs.trans hcs2.symm) hl hl'
      · exact fun l l' hll => entry0s_below W _ _ _ ip h0 (by rw [hcs]; exact hll)
    have hss : (a.calc B.ellMax).hasSs2 = false := by
      unfold Calc.hasSs2 CouplingArgs.calc Calc.make
      rw [if_pos hs1, if_neg hs2]; simp
    have hss4 : (a4.calc B.ellMax).hasSs2 = false := by
      unfold Calc.hasSs2 CouplingArgs.calc Calc.make
      rw [if_neg (show ¬ a4.spin1 = 0 from hs2)]; simp [ha4]
    have m4 : max a4.spin1 a4.spin2 = a.spin2 := by simp [ha4]
    have x3 : ∀ ip, (ip = 0 ∨ (a.calc B.ellMax).s1 = 2) → (a.xi W B.ellMax (usedPcl a.lmaxMask pcl)).2.2.1 ip l l' =
        (a4.xi W B.ellMax (usedPcl a4.lmaxMask pcl)).2.2.1 ip l l' := by
      intro ip h0
      unfold CouplingArgs.xi
      simp only
      rw [lstart_teb hteb, lstart_plain (show a4.teb = false from rfl), m4, p4]
      apply htab
      · intro l l' hl hl'
        unfold entryPP
        rw [calc_lmaxMask, calc_lmaxMask]
        apply sumMask_congr
        intro l1 _ _
        rw [wfacSs_congr W (a.calc B.ellMax) (a4.calc B.ellMax) _ ip l1 l l' (hcs.trans hcs4.symm) hss hss4]
      · exact fun l l' hll => entryPP_below W _ _ ip h0 (by rw [hcs]; exact hll)
    have x4 : ∀ ip, (ip = 0 ∨ (a.calc B.ellMax).s1 = 2) → (a.xi W B.ellMax (usedPcl a.lmaxMask pcl)).2.2.2 ip l l' =
        (a4.xi W B.ellMax (usedPcl a4.lmaxMask pcl)).2.2.2 ip l l' := by
      intro ip h0
      unfold CouplingArgs.xi
      simp only
      rw [lstart_teb hteb, lstart_plain (show a4.teb = false from rfl), m4, p4]
      apply htab
      · intro l l' hl hl'
        unfold entryMM
        rw [calc_lmaxMask, calc_lmaxMask]
        apply sumMask_congr
        intro l1 _ _
        rw [wfacSs_congr W (a.calc B.ellMax) (a4.calc B.ellMax) _ ip l1 l l' (hcs.trans hcs4.symm) hss hss4]
      · exact fun l l' hll => entryMM_below W _ _ ip h0 (by rw [hcs]; exact hll)
    by_cases hb1 : (x = 1 ∨ x = 2) ∧ (y = 1 ∨ y = 2)
    · rw [if_pos (by omega), if_pos hb1]
      have r := hv2 l l' (x - 1) (y - 1) hl hl' (by omega) (by omega)
      rw [c2, cells_two _ _ _ _ _ _ _ _ c2 (by omega) (by omega)] at r
      rw [r, x2 _ (hip _ (by by_cases e1 : x = 1 <;> simp [e1]))]
      have hsg2 : (if Odd (a2.spin1 + a2.spin2) then (-1 : ℝ) else 1) = (-1) ^ a.spin2 := hsg
      have hf : flag false = 0 := rfl
      have f1 : flag a2.pe1 + flag a2.pe2 = flag a.pe2 := by
        change flag a.pe1 + flag a.pe2 = _; rw [h1e, hf, zero_add]
      have f2 : flag a2.pb1 + flag a2.pb2 = flag a.pb2 := by
        change flag a.pb1 + flag a.pb2 = _; rw [h1b, hf, zero_add]
      rw [hsg2, f1, f2]
      by_cases hxy : x = y
      · rw [if_pos hxy, if_pos (show x - 1 = y - 1 by omega)]
        by_cases hx1 : x = 1
        · rw [if_pos hx1, if_pos (by omega)]
        · rw [if_neg hx1, if_neg (by omega)]
      · rw [if_neg hxy, if_neg (by omega), mul_zero]
    · rw [if_neg hb1]
      by_cases hb3 : 3 ≤ x ∧ 3 ≤ y
      · rw [if_neg (by omega), if_pos hb3]
        have r := hv4 l l' (x - 3) (y - 3) hl hl' (by omega) (by omega)
        rw [c4, cells_four _ _ _ _ _ _ _ _ c4 (by omega) (by omega)] at r
        rw [r]
        simp only
        have hsg4 : (if Odd (a4.spin1 + a4.spin2) then (-1 : ℝ) else 1) = 1 := by
          rw [if_neg]
          rw [Nat.not_odd_iff_even]
          exact ⟨a.spin2, rfl⟩
        rw [hsg4, x3, x4]
        · have g1 : flag a4.pe1 = flag a.pe2 := rfl
          have g2 : flag a4.pb1 = flag a.pb2 := rfl
          have g3 : flag a4.pe2 = flag a.pe2 := rfl
          have g4 : flag a4.pb2 = flag a.pb2 := rfl
          rw [g1, g2, g3, g4]
          obtain ⟨u, hu⟩ : ∃ u, x = u + 3 := ⟨x - 3, by omega⟩
          obtain ⟨v, hv⟩ : ∃ v, y = v + 3 := ⟨y - 3, by omega⟩
          subst hu; subst hv
          have hu4 : u < 4 := by omega
          have hv4 : v < 4 := by omega
          interval_cases u <;> interval_cases v <;> simp <;> ring
        · apply hip
          by_cases e1 : x < 5 <;> by_cases e2 : x % 2 = 1 <;> simp [e1, e2]
        · apply hip
          by_cases e1 : x < 5 <;> by_cases e2 : x % 2 = 1 <;> simp [e1, e2]
      · rw [if_neg hb3]
        by_cases hb : x < 3 ∨ y < 3
        · rw [if_pos hb, if_neg (by omega), mul_zero]
        · omega

/-- **C19** (even spin). The joint T-E-B matrix consists of the matrices of the separate workspaces: `0-0` for
T-T, `0-s` for T-E and T-B, `s-s` for the rest (with the purification flags of the second field), and zeros.
Beams, normalisation and memory contents may differ between the four calls. -/
theorem C19_even_spin_partial {W : Wigner} {a : CouplingArgs} (hteb : a.teb = true) (heven : Even a.spin2)
    (h1e : a.pe1 = false) (h1b : a.pb1 = false)
    (hps : a.PureSpinTwo) (hT : a.lT ≤ 0) {j1 j2 j4 : ℕ → ℝ} {lmaxFields : ℕ} {pcl : List ℝ} {B : Bins ℝ}
    {b1 b2 b3 b4 b5 b6 b7 b8 : List ℝ} {n1 n2 n3 n4 : ℤ} {v1 v2 v3 v4 : ℝ} {w7 w1 w2 w4 : Wsp ℝ}
    (h7 : compCouplingMatrix W a lmaxFields pcl b1 b2 B n1 v1 = .ok w7)
    (h1 : compCouplingMatrix W { a with teb := false, spin2 := 0, pe2 := false, pb2 := false, junk := j1 }
      lmaxFields pcl b3 b4 B n2 v2 = .ok w1)
    (h2 : compCouplingMatrix W { a with teb := false, junk := j2 } lmaxFields pcl b5 b6 B n3 v3 = .ok w2)
    (h4 : compCouplingMatrix W { a with teb := false, spin1 := a.spin2, pe1 := a.pe2, pb1 := a.pb2, junk := j4 }
      lmaxFields pcl b7 b8 B n4 v4 = .ok w4) :
    ∃ U7 U1 U2 U4, w7.unbinned = some U7 ∧ w1.unbinned = some U1 ∧ w2.unbinned = some U2 ∧ w4.unbinned = some U4 ∧
      ∀ l l' x y, l ≤ B.ellMax → l' ≤ B.ellMax → x < 7 → y < 7 →
        U7 (7 * l + x) (7 * l' + y) =
          if x = 0 ∧ y = 0 then U1 l l'
          else if (x = 1 ∨ x = 2) ∧ (y = 1 ∨ y = 2) then U2 (2 * l + (x - 1)) (2 * l' + (y - 1))
          else if 3 ≤ x ∧ 3 ≤ y then U4 (4 * l + (x - 3)) (4 * l' + (y - 3))
          else 0 := by
  have := teb_blocks hteb h1e h1b hps hT h7 h1 h2 h4
  rw [heven.neg_one_pow] at this
  simpa only [one_mul] using this

/-- **C19** fails for odd spin: T-T block and spin-spin block have the opposite sign. -/
theorem C19_odd_spin {W : Wigner} {a : CouplingArgs} (hteb : a.teb = true) (hodd : Odd a.spin2)
    (h1e : a.pe1 = false) (h1b : a.pb1 = false)
    (hps : a.PureSpinTwo) (hT : a.lT ≤ 0) {j1 j2 j4 : ℕ → ℝ} {lmaxFields : ℕ} {pcl : List ℝ} {B : Bins ℝ}
    {b1 b2 b3 b4 b5 b6 b7 b8 : List ℝ} {n1 n2 n3 n4 : ℤ} {v1 v2 v3 v4 : ℝ} {w7 w1 w2 w4 : Wsp ℝ}
    (h7 : compCouplingMatrix W a lmaxFields pcl b1 b2 B n1 v1 = .ok w7)
    (h1 : compCouplingMatrix W { a with teb := false, spin2 := 0, pe2 := false, pb2 := false, junk := j1 }
      lmaxFields pcl b3 b4 B n2 v2 = .ok w1)
    (h2 : compCouplingMatrix W { a with teb := false, junk := j2 } lmaxFields pcl b5 b6 B n3 v3 = .ok w2)
    (h4 : compCouplingMatrix W { a with teb := false, spin1 := a.spin2, pe1 := a.pe2, pb1 := a.pb2, junk := j4 }
      lmaxFields pcl b7 b8 B n4 v4 = .ok w4) :
    ∃ U7 U1 U2 U4, w7.unbinned = some U7 ∧ w1.unbinned = some U1 ∧ w2.unbinned = some U2 ∧ w4.unbinned = some U4 ∧
      ∀ l l' x y, l ≤ B.ellMax → l' ≤ B.ellMax → x < 7 → y < 7 →
        U7 (7 * l + x) (7 * l' + y) =
          if x = 0 ∧ y = 0 then -U1 l l'
          else if (x = 1 ∨ x = 2) ∧ (y = 1 ∨ y = 2) then U2 (2 * l + (x - 1)) (2 * l' + (y - 1))
          else if 3 ≤ x ∧ 3 ≤ y then -U4 (4 * l + (x - 3)) (4 * l' + (y - 3))
          else 0 := by
  have := teb_blocks hteb h1e h1b hps hT h7 h1 h2 h4
  rw [hodd.neg_one_pow] at this
  simpa only [neg_one_mul] using this

/-! ## Concrete calls -/

/-- Bandpowers with one band holding multipoles 2 and 3. -/
noncomputable def pairBins : Bins ℝ := ⟨3, [[⟨2, 1 / 2, 1⟩, ⟨3, 1 / 2, 1⟩]]⟩

/-- Arguments: given spins, band limit 3 of the mask, no approximation. -/
def plainArgs (s1 s2 : ℕ) (teb : Bool) : CouplingArgs :=
  ⟨s1, s2, 3, false, false, false, false, teb, -1, -1, -1, fun _ => 7⟩

theorem plainArgs_ok (W : Wigner) (s1 s2 : ℕ) (teb : Bool) (h : teb = true → s1 = 0 ∧ s2 ≠ 0) (pcl : List ℝ)
    (hp : pcl.length = 4) :
    ∃ w, compCouplingMatrix W (plainArgs s1 s2 teb) 3 pcl [1, 1, 1, 1] [1, 1, 1, 1] pairBins 0 1 = .ok w := by
  unfold compCouplingMatrix computeCouplingMatrix
  have e : pairBins.ellMax = 3 := rfl
  rw [if_neg (by simp [plainArgs, hp]), if_neg (by rintro ⟨ht, hc⟩; exact hc (h ht)), if_neg (by rw [e]; omega),
    if_neg (by rw [e]; simp [plainArgs]), if_neg (by simp [plainArgs, flag])]
  exact ⟨_, rfl⟩

/-- The hypotheses of C17 are met: two spin-2 fields and a mask spectrum with all multipoles. -/
example : ∃ w, compCouplingMatrix exampleWigner (plainArgs 2 2 false) 3 [1, 2, 3, 4] [1, 1, 1, 1] [1, 1, 1, 1] pairBins
      0 1 = .ok w ∧ Symmetric exampleWigner ∧ MonopoleValue exampleWigner ∧ (plainArgs 2 2 false).Plain := by
  obtain ⟨w, hw⟩ := plainArgs_ok exampleWigner 2 2 false (by simp) [1, 2, 3, 4] rfl
  exact ⟨w, hw, exampleWigner_symmetric, exampleWigner_monopole, rfl, rfl, rfl, rfl, rfl, by decide⟩

/-- The hypotheses of C19 are met, with spin 2 and with spin 1. -/
example (s : ℕ) (hs : s ≠ 0) : ∃ w7 w1 w2 w4,
    compCouplingMatrix exampleWigner (plainArgs 0 s true) 3 [1, 2, 3, 4] [1, 1, 1, 1] [1, 1, 1, 1] pairBins 0 1 = .ok w7 ∧
    compCouplingMatrix exampleWigner (plainArgs 0 0 false) 3 [1, 2, 3, 4] [1, 1, 1, 1] [1, 1, 1, 1] pairBins 0 1 = .ok w1 ∧
    compCouplingMatrix exampleWigner (plainArgs 0 s false) 3 [1, 2, 3, 4] [1, 1, 1, 1] [1, 1, 1, 1] pairBins 0 1 = .ok w2 ∧
    compCouplingMatrix exampleWigner (plainArgs s s false) 3 [1, 2, 3, 4] [1, 1, 1, 1] [1, 1, 1, 1] pairBins 0 1 = .ok w4 := by
  obtain ⟨w7, h7⟩ := plainArgs_ok exampleWigner 0 s true (fun _ => ⟨rfl, hs⟩) [1, 2, 3, 4] rfl
  obtain ⟨w1, h1⟩ := plainArgs_ok exampleWigner 0 0 false (by simp) [1, 2, 3, 4] rfl
  obtain ⟨w2, h2⟩ := plainArgs_ok exampleWigner 0 s false (by simp) [1, 2, 3, 4] rfl
  obtain ⟨w4, h4⟩ := plainArgs_ok exampleWigner s s false (by simp) [1, 2, 3, 4] rfl
  exact ⟨w7, w1, w2, w4, h7, h1, h2, h4⟩

/-- **C19** fails: with spin 1 and the full sky as mask the T-T part of the joint matrix is minus the identity,
that of the separate workspace the identity. -/
theorem C19_odd_spin_example (W : Wigner) (hW : Symmetric W) (hm : MonopoleValue W) :
    ∃ w7 w1 U7 U1,
      compCouplingMatrix W (plainArgs 0 1 true) 3 [4 * Real.pi, 0, 0, 0] [1, 1, 1, 1] [1, 1, 1, 1] pairBins 0 1 = .ok w7 ∧
      compCouplingMatrix W (plainArgs 0 0 false) 3 [4 * Real.pi, 0, 0, 0] [1, 1, 1, 1] [1, 1, 1, 1] pairBins 0 1 = .ok w1 ∧
      w7.unbinned = some U7 ∧ w1.unbinned = some U1 ∧
      ∀ l, l ≤ 3 → U1 l l = 1 ∧ U7 (7 * l) (7 * l) = -1 := by
  obtain ⟨w7, h7⟩ := plainArgs_ok W 0 1 true (fun _ => ⟨rfl, by simp⟩) [4 * Real.pi, 0, 0, 0] rfl
  obtain ⟨w1, h1⟩ := plainArgs_ok W 0 0 false (by simp) [4 * Real.pi, 0, 0, 0] rfl
  obtain ⟨w2, h2⟩ := plainArgs_ok W 0 1 false (by simp) [4 * Real.pi, 0, 0, 0] rfl
  obtain ⟨w4, h4⟩ := plainArgs_ok W 1 1 false (by simp) [4 * Real.pi, 0, 0, 0] rfl
  obtain ⟨U7, U1, U2, U4, e7, e1, -, -, hv⟩ := C19_odd_spin (a := plainArgs 0 1 true) (j1 := fun _ => 7)
    (j2 := fun _ => 7) (j4 := fun _ => 7) rfl (by decide) rfl rfl ⟨by simp [plainArgs], by simp [plainArgs]⟩
    (by decide) h7 h1 h2 h4
  have hpl : (plainArgs 0 0 false).Plain := ⟨rfl, rfl, rfl, rfl, rfl, by decide⟩
  obtain ⟨U1', e1', hv1⟩ := C17_monopole hW hm hpl h1 (by
    intro l hl
    rcases l with _ | _ | _ | _ | l
    · exact absurd rfl hl
    · rfl
    · rfl
    · rfl
    · rfl)
  rw [e1] at e1'
  cases e1'
  have hnc : w1.ncls = 1 := (C17_formula hW hpl h1).1
  refine ⟨w7, w1, U7, U1, h7, h1, e7, e1, ?_⟩
  intro l hl
  have hone : U1 l l = 1 := by
    have := hv1 l l 0 0 hl hl (by rw [hnc]; omega) (by rw [hnc]; omega) (by simp [plainArgs])
    rw [hnc, if_pos ⟨rfl, rfl⟩] at this
    simp only [one_mul, add_zero] at this
    rw [this]
    have : (4 * Real.pi) ≠ 0 := by positivity
    exact div_self this
  refine ⟨hone, ?_⟩
  have := hv l l 0 0 hl hl (by omega) (by omega)
  rw [if_pos ⟨rfl, rfl⟩, hone] at this
  simpa using this

end NaMaster
