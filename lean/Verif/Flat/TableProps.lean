import Verif.Flat.CoupleModel
import Verif.Flat.BiasProps
import Verif.Flat.FieldProps

/-! # Beams and spectra given at a list of multipoles: C96 -/

namespace NaMaster

open Finset

/-! ## Specification -/

/-- `y` is the value at `x` of the function given by the values `v` at the `n` multipoles `l`: linear between neighbouring multipoles, these included, the
first value below the first one and zero above the last one. -/
def TableValue (l v : ℕ → ℝ) (n : ℕ) (x y : ℝ) : Prop :=
  (x ≤ l 0 → y = v 0) ∧ (l (n - 1) < x → y = 0) ∧
  ∀ i, i + 1 < n → l i ≤ x → x ≤ l (i + 1) → y = v i + (x - l i) / (l (i + 1) - l i) * (v (i + 1) - v i)

/-- Multipoles at which a function can be tabulated: at least two, in increasing order. -/
def Increasing (l : ℕ → ℝ) (n : ℕ) : Prop := 2 ≤ n ∧ ∀ i j, i < j → j < n → l i < l j

/-! ## Lemmas -/

theorem increasing_iff (l : ℕ → ℝ) (n : ℕ) : Increasing l n ↔ 2 ≤ ((List.range n).map l).length ∧ ((List.range n).map l).Pairwise (· < ·) := by
  unfold Increasing
  rw [List.length_map, List.length_range, List.pairwise_iff_getElem]
  simp only [List.length_map, List.length_range, List.getElem_map, List.getElem_range]
  constructor
  · rintro ⟨h1, h2⟩
    exact ⟨h1, fun i j _ hj hij => h2 i j hij hj⟩
  · rintro ⟨h1, h2⟩
    exact ⟨h1, fun i j hij hj => h2 i j (by omega) hj hij⟩

theorem increasing_list (ells : List ℝ) : Increasing (fun i => ells.getD i 0) ells.length ↔ 2 ≤ ells.length ∧ ells.Pairwise (· < ·) := by
  rw [increasing_iff]
  have e : (List.range ells.length).map (fun i => ells.getD i 0) = ells := by
    refine List.ext_getElem (by simp) fun i h1 h2 => ?_
    simp [List.getD_eq_getElem?_getD, List.getElem?_eq_getElem h2]
  rw [e]

theorem getD_range (l : ℕ → ℝ) {n i : ℕ} (hi : i < n) : ((List.range n).map l).getD i 0 = l i := by
  simp [List.getD_eq_getElem?_getD, hi]

/-- Every number has a value in the table read by the code. -/
theorem guess_exists (l v : ℕ → ℝ) (n : ℕ) (h : Increasing l n) (x : ℝ) : ∃ y, GuessAt ((List.range n).map l) v x y := by
  obtain ⟨h2, hs⟩ := h
  unfold GuessAt
  simp only [List.length_map, List.length_range]
  rw [getD_range l (by omega : 0 < n), getD_range l (by omega : n - 1 < n)]
  have hseg : ∀ i, i + 1 < n → ((List.range n).map l).getD i 0 = l i ∧ ((List.range n).map l).getD (i + 1) 0 = l (i + 1) :=
    fun i hi => ⟨getD_range l (by omega), getD_range l hi⟩
  by_cases h0 : x ≤ l 0
  · refine ⟨v 0, fun _ => rfl, fun hl => absurd (hs 0 (n - 1) (by omega) (by omega)) (by linarith), fun i hi k1 k2 => ?_⟩
    rw [(hseg i hi).1] at k1 ⊢
    by_cases hi0 : i = 0
    · subst hi0
      rw [show x = l 0 from le_antisymm h0 k1]
      simp
    · have := hs 0 i (by omega) (by omega)
      linarith
  by_cases h1 : l (n - 1) ≤ x
  · refine ⟨0, fun hl => absurd hl h0, fun _ => rfl, fun i hi k1 k2 => ?_⟩
    rw [(hseg i hi).2] at k2
    by_cases hi0 : i + 1 = n - 1
    · rw [hi0] at k2; linarith
    · have := hs (i + 1) (n - 1) (by omega) (by omega)
      linarith
  push Not at h0 h1
  have hex : ∃ i, i + 1 < n ∧ l i ≤ x ∧ x < l (i + 1) := by
    by_contra hcon
    push Not at hcon
    have : ∀ m, m < n → l m ≤ x := by
      intro m
      induction m with
      | zero => intro _; exact h0.le
      | succ m ih => intro hm; exact hcon m hm (ih (by omega))
    exact absurd (this (n - 1) (by omega)) (not_le.2 h1)
  obtain ⟨i, hi, hi1, hi2⟩ := hex
  refine ⟨v i + (x - l i) / (l (i + 1) - l i) * (v (i + 1) - v i), fun hl => absurd hl (not_le.2 h0), fun hl => absurd hl (not_le.2 h1), fun j hj k1 k2 => ?_⟩
  rw [(hseg j hj).1] at k1
  rw [(hseg j hj).2] at k2
  rw [(hseg j hj).1, (hseg j hj).2]
  have hij : i = j := by
    rcases lt_trichotomy i j with hh | hh | hh
    · rcases Nat.lt_or_ge (i + 1) j with hh' | hh'
      · have := hs (i + 1) j hh' (by omega); linarith
      · obtain rfl : i + 1 = j := by omega
        linarith
    · exact hh
    · rcases Nat.lt_or_ge (j + 1) i with hh' | hh'
      · have := hs (j + 1) i hh' (by omega); linarith
      · obtain rfl : j + 1 = i := by omega
        linarith
  rw [hij]

theorem propFun_guess (l v : ℕ → ℝ) (n : ℕ) (h : Increasing l n) (x : ℝ) : GuessAt ((List.range n).map l) v x (propFun ((List.range n).map l) v x) := by
  obtain ⟨y, hy⟩ := guess_exists l v n h x
  obtain ⟨h2, hs⟩ := (increasing_iff l n).1 h
  rw [propFun_at h2 hs hy]
  exact hy

/-- Away from the last multipole the code reads tables as one expects. -/
theorem propFun_table (l v : ℕ → ℝ) (n : ℕ) (h : Increasing l n) (x : ℝ) (hx : x ≠ l (n - 1)) : TableValue l v n x (propFun ((List.range n).map l) v x) := by
  obtain ⟨g1, g2, g3⟩ := propFun_guess l v n h x
  obtain ⟨h2, hs⟩ := h
  simp only [List.length_map, List.length_range] at g2 g3
  rw [getD_range l (by omega : 0 < n)] at g1
  rw [getD_range l (by omega : n - 1 < n)] at g2
  refine ⟨g1, fun hl => g2 hl.le, fun i hi k1 k2 => ?_⟩
  have hseg : ∀ i, i + 1 < n → ((List.range n).map l).getD i 0 = l i ∧ ((List.range n).map l).getD (i + 1) 0 = l (i + 1) :=
    fun i hi => ⟨getD_range l (by omega), getD_range l hi⟩
  rcases k2.lt_or_eq with k2 | k2
  · have := g3 i hi (by rw [(hseg i hi).1]; exact k1) (by rw [(hseg i hi).2]; exact k2)
    rw [(hseg i hi).1, (hseg i hi).2] at this
    exact this
  · have hi2 : i + 2 < n := by
      by_contra hh
      obtain rfl : i + 2 = n := by omega
      exact hx k2
    have h1 := hs i (i + 1) (by omega) hi
    have h3 := hs (i + 1) (i + 1 + 1) (by omega) hi2
    have := g3 (i + 1) hi2 (by rw [(hseg (i + 1) hi2).1, k2]) (by rw [(hseg (i + 1) hi2).2, k2]; exact h3)
    rw [(hseg (i + 1) hi2).1] at this
    rw [this, k2, sub_self, zero_div, zero_mul, add_zero, div_self (by linarith)]
    ring

theorem propFun_last (l v : ℕ → ℝ) (n : ℕ) (h : Increasing l n) : propFun ((List.range n).map l) v (l (n - 1)) = 0 := by
  obtain ⟨-, g2, -⟩ := propFun_guess l v n h (l (n - 1))
  obtain ⟨h2, -⟩ := h
  simp only [List.length_map, List.length_range] at g2
  rw [getD_range l (by omega : n - 1 < n)] at g2
  exact g2 le_rfl

/-- Interpolation ends the process exactly for tables that cannot be used. -/
theorem kFunction_ends (l v : ℕ → ℝ) (n : ℕ) (y0 yf x : ℝ) :
    (Increasing l n → ∃ y, kFunction ((List.range n).map fun i => (l i, v i)) y0 yf x = .ok y) ∧
    (¬ Increasing l n → kFunction ((List.range n).map fun i => (l i, v i)) y0 yf x = .crash) := by
  have hp : List.Pairwise (fun a b : ℝ × ℝ => a.1 < b.1) ((List.range n).map fun i => (l i, v i)) ↔ ∀ i j, i < j → j < n → l i < l j := by
    rw [List.pairwise_iff_getElem]
    simp only [List.length_map, List.length_range, List.getElem_map, List.getElem_range]
    exact ⟨fun h i j hij hj => h i j (by omega) hj hij, fun h i j _ hj hij => h i j hij hj⟩
  match n with
  | 0 => exact ⟨fun h => absurd h.1 (by norm_num), fun _ => rfl⟩
  | 1 => exact ⟨fun h => absurd h.1 (by norm_num), fun _ => rfl⟩
  | m + 2 =>
    have hlen : ((List.range (m + 2)).map fun i => (l i, v i)).length = m + 2 := by simp
    generalize hq : (List.range (m + 2)).map (fun i => (l i, v i)) = pts at hp hlen ⊢
    match pts, hlen with
    | p :: q :: ps, _ =>
      unfold kFunction
      dsimp only
      constructor
      · intro h
        rw [if_pos (hp.2 h.2)]
        exact ⟨_, rfl⟩
      · intro h
        rw [if_neg (fun h' => h ⟨by omega, hp.1 h'⟩)]

/-- The marker for no beam (pymaster/field.py:707). -/
def NoBeamMark (b : Arr2 ℝ) : Prop := b.cols = 1 ∧ b.val 0 0 < 0 ∧ b.val 1 0 < 0

theorem flatBeam_eq (b : Arr2 ℝ) (hr : b.rows = 2) (hm : ¬ NoBeamMark b) :
    (Increasing (b.val 0) b.cols → flatBeam (some b) = .ok (propFun ((List.range b.cols).map (b.val 0)) (b.val 1))) ∧
    (¬ Increasing (b.val 0) b.cols → flatBeam (some b) = .crash) := by
  have e : flatBeam (some b) = (kFunction ((List.range b.cols).map fun i => (b.val 0 i, b.val 1 i)) (b.val 1 0) 0 0).bind fun _ =>
      .ok fun x => match kFunction ((List.range b.cols).map fun i => (b.val 0 i, b.val 1 i)) (b.val 1 0) 0 x with
        | .ok v => v
        | _ => 0 := by
    unfold flatBeam
    dsimp only
    rw [if_neg (by rw [hr]; simp)]
    exact if_neg hm
  rw [e]
  constructor
  · intro h
    obtain ⟨y, hy⟩ := (kFunction_ends (b.val 0) (b.val 1) b.cols (b.val 1 0) 0 0).1 h
    rw [hy]
    simp only [Outcome.bind]
    congr 1
    funext x
    unfold propFun
    have e2 : (List.range ((List.range b.cols).map (b.val 0)).length).map (fun i => (((List.range b.cols).map (b.val 0)).getD i 0, b.val 1 i)) =
        (List.range b.cols).map fun i => (b.val 0 i, b.val 1 i) := by
      rw [List.length_map, List.length_range]
      refine List.map_congr_left fun i hi => ?_
      rw [getD_range _ (List.mem_range.1 hi)]
    rw [e2]
    rfl
  · intro h
    rw [(kFunction_ends (b.val 0) (b.val 1) b.cols (b.val 1 0) 0 0).2 h]
    rfl

/-! ## Theorems -/

/-- What the constructor does with a beam, for arguments from which it makes a field without beam. -/
theorem nmtFieldFlat_beam {env : FlatEnv} {a : FlatFieldArgs} {f0 : FlatFieldObj} (h0 : nmtFieldFlat env { a with beam := none } = .ok f0) :
    nmtFieldFlat env a = (flatBeam a.beam).bind fun B => .ok { f0 with base := { f0.base with beam := B } } := by
  unfold nmtFieldFlat at h0 ⊢
  dsimp only at h0 ⊢
  have es : flatSpin { a with beam := none } = flatSpin a := rfl
  have eh : flatShapes { a with beam := none } = flatShapes a := rfl
  rw [es, eh] at h0
  by_cases k1 : a.fs.lx < 0 ∨ a.fs.ly < 0
  · rw [if_pos k1] at h0; cases h0
  rw [if_neg k1] at h0 ⊢
  cases hs : flatSpin a with
  | raises e => rw [hs] at h0; cases h0
  | crash => rw [hs] at h0; cases h0
  | ok s =>
    rw [hs] at h0
    simp only [Outcome.bind] at h0 ⊢
    by_cases k2 : (a.purifyE || a.purifyB) = true ∧ s ≠ 2
    · rw [if_pos k2] at h0; cases h0
    rw [if_neg k2] at h0 ⊢
    cases hh : flatShapes a with
    | raises e => rw [hh] at h0; cases h0
    | crash => rw [hh] at h0; cases h0
    | ok u =>
      rw [hh] at h0
      simp only at h0 ⊢
      by_cases k3 : ¬ (a.fs.lx > 0 ∧ a.fs.ly > 0)
      · rw [if_pos k3] at h0; cases h0
      rw [if_neg k3] at h0 ⊢
      cases flatBeam a.beam with
      | raises e => rfl
      | crash => rfl
      | ok B =>
        simp only [flatBeam] at h0 ⊢
        cases hm : a.maps with
        | none =>
          rw [hm] at h0
          rw [← Outcome.ok.inj h0]
        | some m =>
          rw [hm] at h0
          rw [← Outcome.ok.inj h0]
          rfl

/-- **C96**, the part that holds for fields: away from its last multipole, the beam of a field is the tabulated one. -/
theorem C96_beam_partial (env : FlatEnv) (a : FlatFieldArgs) (f0 : FlatFieldObj) (h0 : nmtFieldFlat env { a with beam := none } = .ok f0) (b : Arr2 ℝ)
    (hb : a.beam = some b) (hr : b.rows = 2) (h : Increasing (b.val 0) b.cols) :
    ∃ B : ℝ → ℝ, nmtFieldFlat env a = .ok { f0 with base := { f0.base with beam := B } } ∧
      ∀ x, x ≠ b.val 0 (b.cols - 1) → TableValue (b.val 0) (b.val 1) b.cols x (B x) := by
  have hm : ¬ NoBeamMark b := fun hm => by
    have := h.1
    rw [hm.1] at this
    omega
  refine ⟨_, ?_, fun x hx => propFun_table (b.val 0) (b.val 1) b.cols h x hx⟩
  rw [nmtFieldFlat_beam h0, hb, (flatBeam_eq b hr hm).1 h]
  rfl

/-- C96 is false: at the last multipole of the table, the beam of a field is zero and not the tabulated value. -/
theorem C96_beam_last_wrong (env : FlatEnv) (a : FlatFieldArgs) (b : Arr2 ℝ) (hb : a.beam = some b) (hr : b.rows = 2) (h : Increasing (b.val 0) b.cols)
    (f : FlatFieldObj) (hf : nmtFieldFlat env a = .ok f) (hv : b.val 1 (b.cols - 1) ≠ 0) :
    f.base.beam (b.val 0 (b.cols - 1)) = 0 ∧ ¬ TableValue (b.val 0) (b.val 1) b.cols (b.val 0 (b.cols - 1)) (f.base.beam (b.val 0 (b.cols - 1))) := by
  have hm : ¬ NoBeamMark b := fun hm => by
    have := h.1
    rw [hm.1] at this
    omega
  have hB : f.base.beam = propFun ((List.range b.cols).map (b.val 0)) (b.val 1) := by
    unfold nmtFieldFlat at hf
    dsimp only at hf
    rw [hb, (flatBeam_eq b hr hm).1 h] at hf
    by_cases k1 : a.fs.lx < 0 ∨ a.fs.ly < 0
    · rw [if_pos k1] at hf; cases hf
    rw [if_neg k1] at hf
    cases hs : flatSpin a with
    | raises e => rw [hs] at hf; cases hf
    | crash => rw [hs] at hf; cases hf
    | ok s =>
      rw [hs] at hf
      simp only [Outcome.bind] at hf
      by_cases k2 : (a.purifyE || a.purifyB) = true ∧ s ≠ 2
      · rw [if_pos k2] at hf; cases hf
      rw [if_neg k2] at hf
      cases hh : flatShapes a with
      | raises e => rw [hh] at hf; cases hf
      | crash => rw [hh] at hf; cases hf
      | ok u =>
        rw [hh] at hf
        simp only at hf
        by_cases k3 : ¬ (a.fs.lx > 0 ∧ a.fs.ly > 0)
        · rw [if_pos k3] at hf; cases hf
        rw [if_neg k3] at hf
        cases hm : a.maps with
        | none =>
          rw [hm] at hf
          rw [← Outcome.ok.inj hf]
        | some m =>
          rw [hm] at hf
          rw [← Outcome.ok.inj hf]
          rfl
  have h0 : f.base.beam (b.val 0 (b.cols - 1)) = 0 := by rw [hB, propFun_last _ _ _ h]
  refine ⟨h0, fun ht => ?_⟩
  rw [h0] at ht
  obtain ⟨h2, hs⟩ := h
  have h1 := hs (b.cols - 2) (b.cols - 1) (by omega) (by omega)
  have e : b.cols - 2 + 1 = b.cols - 1 := by omega
  have := ht.2.2 (b.cols - 2) (by omega) h1.le (by rw [e])
  rw [e, div_self (by linarith)] at this
  exact hv (by linarith)

/-- C96 is false: beams given at a single multipole or at multipoles that do not increase end the process; there is no exception. -/
theorem C96_beam_ends_wrong (env : FlatEnv) (a : FlatFieldArgs) (f0 : FlatFieldObj) (h0 : nmtFieldFlat env { a with beam := none } = .ok f0) (b : Arr2 ℝ)
    (hb : a.beam = some b) (hr : b.rows = 2) (hm : ¬ NoBeamMark b) (h : ¬ Increasing (b.val 0) b.cols) : nmtFieldFlat env a = .crash := by
  rw [nmtFieldFlat_beam h0, hb, (flatBeam_eq b hr hm).2 h]
  rfl

/-- C96 is false: with spectra given at the wave numbers of the modes of the map, `couple_cell` does not use the values at the last of them. -/
theorem C96_couple_last_wrong (w : WspFlat) (ells : List ℝ) (he : Increasing (fun i => ells.getD i 0) ells.length)
    (hk : ∀ k ∈ w.fs.modes, ∃ i < ells.length, w.fs.kmod k.1 k.2 = ells.getD i 0) (cl cl' : Arr2 ℝ) (hr : cl.rows = w.ncls) (hr' : cl'.rows = w.ncls)
    (hc : cl.cols = ells.length) (hc' : cl'.cols = ells.length) (hv : ∀ r, ∀ i, i + 1 < ells.length → cl.val r i = cl'.val r i) :
    coupleCellFlat (some w) ells cl = coupleCellFlat (some w) ells cl' := by
  have hE : (List.range ells.length).map (fun i => ells.getD i 0) = ells := by
    refine List.ext_getElem (by simp) fun i h1 h2 => ?_
    simp [List.getD_eq_getElem?_getD, List.getElem?_eq_getElem h2]
  have hf : ∀ v v' : ℕ → ℝ, (∀ i, i + 1 < ells.length → v i = v' i) → ∀ k ∈ w.fs.modes,
      propFun ells v (w.fs.kmod k.1 k.2) = propFun ells v' (w.fs.kmod k.1 k.2) := by
    intro v v' hvv k hkm
    obtain ⟨i, hi, hki⟩ := hk k hkm
    rw [hki]
    by_cases hl : i + 1 < ells.length
    · have hne : ells.getD i 0 ≠ ells.getD (ells.length - 1) 0 := (he.2 i (ells.length - 1) (by omega) (by omega)).ne
      have t : ∀ u : ℕ → ℝ, propFun ells u (ells.getD i 0) = u i := by
        intro u
        have t := (propFun_table _ u _ he (ells.getD i 0) hne).2.2 i hl le_rfl (he.2 i (i + 1) (by omega) hl).le
        rw [hE] at t
        rw [t]
        simp
      rw [t, t, hvv i hl]
    · obtain rfl : i = ells.length - 1 := by omega
      have t : ∀ u : ℕ → ℝ, propFun ells u (ells.getD (ells.length - 1) 0) = 0 := by
        intro u
        have t := propFun_last _ u _ he
        rwa [hE] at t
      rw [t, t]
  have hg := (increasing_list ells).1 he
  unfold coupleCellFlat
  dsimp only
  have k1 : ¬ (cl.rows ≠ w.ncls ∨ cl.cols ≠ ells.length) := by rw [hr, hc]; simp
  have k2 : ¬ (cl'.rows ≠ w.ncls ∨ cl'.cols ≠ ells.length) := by rw [hr', hc']; simp
  rw [if_neg k1, if_neg k2, if_neg (not_not.2 hg), if_neg (not_not.2 hg)]
  refine congrArg Outcome.ok (Arr2.of_congr (K := ℝ) fun i ib _ _ => ?_)
  refine sum_congr rfl fun n _ => ?_
  congr 1
  unfold ringMean
  dsimp only
  have e : ∑ k ∈ w.fs.modes with w.rings.index (w.fs.kmod k.1 k.2) = (n / w.ncls : ℕ), propFun ells (cl.val (n % w.ncls)) (w.fs.kmod k.1 k.2) =
      ∑ k ∈ w.fs.modes with w.rings.index (w.fs.kmod k.1 k.2) = (n / w.ncls : ℕ), propFun ells (cl'.val (n % w.ncls)) (w.fs.kmod k.1 k.2) :=
    sum_congr rfl fun k hk => hf _ _ (hv _) k (mem_filter.1 hk).1
  rw [e]

/-- C96 is false: `couple_cell` and `bin_cell` end the process for spectra given at a single multipole or at multipoles that do not increase. -/
theorem C96_spectra_end_wrong (ells : List ℝ) (he : ¬ Increasing (fun i => ells.getD i 0) ells.length) :
    (∀ (w : WspFlat) (cl : Arr2 ℝ), cl.rows = w.ncls → cl.cols = ells.length → coupleCellFlat (some w) ells cl = .crash) ∧
    ∀ (b : FlatBins ℝ) (cls : List ℝ) (ib : ℕ), cls.length = ells.length → binCellFlat b ells cls ib = .crash := by
  refine ⟨fun w cl hr hc => ?_, fun b cls ib hc => ?_⟩
  · unfold coupleCellFlat
    dsimp only
    rw [if_neg (by rw [hr, hc]; simp), if_pos (fun h => he ((increasing_list ells).2 h))]
  · unfold binCellFlat binRowFlat
    rw [if_neg (by rw [hc]; simp)]
    have e : ells.zip cls = (List.range ells.length).map fun i => (ells.getD i 0, cls.getD i 0) := by
      refine List.ext_getElem (by simp [hc]) fun i h1 h2 => ?_
      have h3 : i < ells.length := by simpa using h2
      simp [List.getD_eq_getElem?_getD, List.getElem?_eq_getElem h3, List.getElem?_eq_getElem (hc ▸ h3 : i < cls.length)]
    rw [e]
    exact (kFunction_ends _ _ _ _ _ _).2 he

/-- **C96**, the part that holds for binned spectra: `bin_cell` returns the tabulated value at the centre of the band, the last multipole included, and the
last value above it. -/
theorem C96_bin_cell (b : FlatBins ℝ) (ells cls : List ℝ) (hc : cls.length = ells.length) (he : Increasing (fun i => ells.getD i 0) ells.length) (ib : ℕ) :
    ∃ y, binCellFlat b ells cls ib = .ok y ∧ (ellEffFlat b ib ≤ ells.getD 0 0 → y = cls.getD 0 0) ∧
      (ells.getD (ells.length - 1) 0 ≤ ellEffFlat b ib → y = cls.getD (ells.length - 1) 0) ∧
      ∀ i, i + 1 < ells.length → ells.getD i 0 ≤ ellEffFlat b ib → ellEffFlat b ib ≤ ells.getD (i + 1) 0 →
        y = cls.getD i 0 + (ellEffFlat b ib - ells.getD i 0) / (ells.getD (i + 1) 0 - ells.getD i 0) * (cls.getD (i + 1) 0 - cls.getD i 0) := by
  have hE : (List.range ells.length).map (fun i => ells.getD i 0) = ells := by
    refine List.ext_getElem (by simp) fun i h1 h2 => ?_
    simp [List.getD_eq_getElem?_getD, List.getElem?_eq_getElem h2]
  have hg := (increasing_list ells).1 he
  have e : ells.zip cls = (List.range ells.length).map fun i => (ells.getD i 0, cls.getD i 0) := by
    refine List.ext_getElem (by simp [hc]) fun i h1 h2 => ?_
    have h3 : i < ells.length := by simpa using h2
    simp [List.getD_eq_getElem?_getD, List.getElem?_eq_getElem h3, List.getElem?_eq_getElem (hc ▸ h3 : i < cls.length)]
  have hp : propFun ells (fun i => cls.getD i 0) (ellEffFlat b ib) = match kFunction (ells.zip cls) (cls.getD 0 0) 0 (ellEffFlat b ib) with
      | .ok v => v
      | _ => 0 := by
    unfold propFun
    rw [e]
    rfl
  have h0 : cls.headD 0 = cls.getD 0 0 := by cases cls <;> rfl
  have hlast : cls.getLastD 0 = cls.getD (ells.length - 1) 0 := by
    rw [← hc]
    cases cls with
    | nil => rfl
    | cons c cs => rw [List.getLastD_cons, List.getD_eq_getElem _ _ (by simp), ← List.getLast_eq_getElem (by simp), List.getLast_eq_getLastD]
  have hK : ∀ yf, kFunction (ells.zip cls) (cls.getD 0 0) yf (ellEffFlat b ib) = .ok (if ellEffFlat b ib ≤ ells.getD 0 0 then cls.getD 0 0
      else if ells.getD (ells.length - 1) 0 ≤ ellEffFlat b ib then yf else interpLin (ells.zip cls) (ellEffFlat b ib)) := by
    intro yf
    obtain ⟨l, l', ls, hq⟩ : ∃ l l' ls, ells = l :: l' :: ls := by
      match ells, hg.1 with
      | l :: l' :: ls, _ => exact ⟨l, l', ls, rfl⟩
    subst hq
    rw [kFunction_eq l l' ls cls hc hg.2]
    have k : (l' :: ls).getLast (by simp) = (l :: l' :: ls).getD ((l :: l' :: ls).length - 1) 0 := by
      rw [List.getD_eq_getElem _ _ (by simp), ← List.getLast_eq_getElem (by simp)]
      exact (List.getLast_cons (List.cons_ne_nil l' ls)).symm
    rw [k]
    rfl
  have hb : binCellFlat b ells cls ib = kFunction (ells.zip cls) (cls.getD 0 0) (cls.getD (ells.length - 1) 0) (ellEffFlat b ib) := by
    unfold binCellFlat binRowFlat ellEffFlat
    rw [if_neg (by rw [hc]; simp), h0, hlast]
  rw [hb]
  by_cases hx : ellEffFlat b ib ≤ ells.getD 0 0 ∨ ¬ ells.getD (ells.length - 1) 0 ≤ ellEffFlat b ib
  · -- as in a table that ends with zero
    have hv : kFunction (ells.zip cls) (cls.getD 0 0) (cls.getD (ells.length - 1) 0) (ellEffFlat b ib) =
        .ok (propFun ells (fun i => cls.getD i 0) (ellEffFlat b ib)) := by
      rw [hp, hK, hK]
      rcases hx with hx | hx
      · rw [if_pos hx, if_pos hx]
      · rw [if_neg hx, if_neg hx]
    have hne : ellEffFlat b ib ≠ ells.getD (ells.length - 1) 0 := by
      have := he.2 0 (ells.length - 1) (by have := hg.1; omega) (by have := hg.1; omega)
      dsimp only at this
      rcases hx with hx | hx
      · intro h; linarith
      · intro h; exact hx h.ge
    have t := propFun_table _ (fun i => cls.getD i 0) _ he (ellEffFlat b ib) hne
    rw [hE] at t
    refine ⟨_, hv, t.1, fun hl => ?_, t.2.2⟩
    exact absurd (t.2.1 (lt_of_le_of_ne hl (Ne.symm hne))) (by
      rcases hx with hx | hx
      · have := he.2 0 (ells.length - 1) (by have := hg.1; omega) (by have := hg.1; omega)
        dsimp only at this
        linarith
      · exact absurd hl hx)
  · push Not at hx
    refine ⟨cls.getD (ells.length - 1) 0, ?_, fun h => absurd h (not_le.2 hx.1), fun _ => rfl, fun i hi k1 k2 => ?_⟩
    · rw [hK, if_neg (not_le.2 hx.1), if_pos hx.2]
    · have hi2 : i + 1 = ells.length - 1 := by
        by_contra hh
        have := he.2 (i + 1) (ells.length - 1) (by omega) (by omega)
        dsimp only at this
        linarith [hx.2]
      have h1 := he.2 i (i + 1) (by omega) hi
      dsimp only at h1
      have h3 : ellEffFlat b ib = ells.getD (i + 1) 0 := le_antisymm k2 (by rw [hi2]; exact hx.2)
      rw [h3, div_self (by linarith), hi2]
      ring

end NaMaster
