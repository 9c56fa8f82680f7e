import Verif.FlatAngle.Matrix

/-!
# C101: turning the polarisation angle of flat fields
-/

namespace NaMaster

open Real Finset

variable {env : FlatEnv}

/-- Fields made with both or none of E and B modes purified. -/
theorem evenFlat_of_call {a : FlatFieldArgs} (hp : a.purifyE = a.purifyB) {f : FlatFieldObj} (h : nmtFieldFlat env a = .ok f) : EvenFlat f := by
  unfold nmtFieldFlat at h
  by_cases h0 : a.fs.lx < 0 ∨ a.fs.ly < 0
  · rw [if_pos h0] at h; cases h
  rw [if_neg h0] at h
  obtain ⟨spin, -, h⟩ := bind_eq_ok h
  by_cases hpp : (a.purifyE || a.purifyB) ∧ spin ≠ 2
  · rw [if_pos hpp] at h; cases h
  rw [if_neg hpp] at h
  obtain ⟨u, -, h⟩ := bind_eq_ok h
  by_cases hl : ¬ (a.fs.lx > 0 ∧ a.fs.ly > 0)
  · rw [if_pos hl] at h; cases h
  rw [if_neg hl] at h
  obtain ⟨beam, -, h⟩ := bind_eq_ok h
  have key : ((if a.purifyB = true then 1 else 0) ≠ 0 ∨ (if a.purifyE = true then 1 else 0) ≠ 0) → spin = 2 := by
    intro hq
    by_contra hne
    refine hpp ⟨?_, hne⟩
    cases h1 : a.purifyE <;> cases h2 : a.purifyB <;> simp_all
  dsimp only at h
  cases hm : a.maps with
  | none =>
    rw [hm] at h
    rw [← Outcome.ok.inj h]
    exact ⟨rfl, by dsimp only; rw [hp], key⟩
  | some m =>
    rw [hm] at h
    rw [← Outcome.ok.inj h]
    exact ⟨rfl, by change (if a.purifyE = true then 1 else 0) = if a.purifyB = true then 1 else 0; rw [hp], key⟩

/-- **C101**, fields: turning maps and templates of a field by an angle turns its maps, its coefficients and its templates by that angle, and changes nothing else:
not the mask, the numbers of maps and templates, and the matrix of the templates. Calls that raise an exception still raise it. -/
theorem C101_field (hl : env.Linear) (t : ℝ) (a : FlatFieldArgs) (hp : a.purifyE = a.purifyB) :
    Outcome.Related (FlatTurned t) (nmtFieldFlat env a) (nmtFieldFlat env (a.turn t)) := nmtFieldFlat_turned hl t a hp

theorem turned_made (hl : env.Linear) (t : ℝ) {a : FlatFieldArgs} (hp : a.purifyE = a.purifyB) {f : FlatFieldObj} (h : nmtFieldFlat env a = .ok f) :
    ∃ g, nmtFieldFlat env (a.turn t) = .ok g ∧ FlatTurned t f g := by
  have hr := nmtFieldFlat_turned hl t a hp
  rw [h] at hr
  cases hg : nmtFieldFlat env (a.turn t) with
  | ok g => rw [hg] at hr; exact ⟨g, rfl, hr⟩
  | raises e => rw [hg] at hr; exact hr.elim
  | crash => rw [hg] at hr; exact hr.elim

/-- **C101**, spectra: the components of the first field are turned by `t1` and those of the second by `t2`, in pseudo-spectra and in the deprojection bias; the
spectra for the bias have to be turned too. Workspaces do not change. -/
theorem C101_spectra (hl : env.Linear) {a1 a2 : FlatFieldArgs} (p1 : a1.purifyE = a1.purifyB) (p2 : a2.purifyE = a2.purifyB) {f1 f2 : FlatFieldObj}
    (hf1 : nmtFieldFlat env a1 = .ok f1) (hf2 : nmtFieldFlat env a2 = .ok f2) (t1 t2 : ℝ) (b : FlatBins ℝ) (c : EllCuts) (ells : List ℝ) (guess : Arr2 ℝ) (teb : Bool) :
    ∃ g1 g2, nmtFieldFlat env (a1.turn t1) = .ok g1 ∧ nmtFieldFlat env (a2.turn t2) = .ok g2 ∧
      coupledCellFlat g1.data g2.data b c = (coupledCellFlat f1.data f2.data b c).bind (fun s => .ok (s.turn f1.nmaps f2.nmaps t1 t2)) ∧
      deprojBiasFlatObj env g1 g2 b c ells (guess.turn f1.nmaps f2.nmaps t1 t2) =
        (deprojBiasFlatObj env f1 f2 b c ells guess).bind (fun s => .ok (s.map (Arr2.turn f1.nmaps f2.nmaps t1 t2))) ∧
      couplingFlat g1.base g2.base b c teb = couplingFlat f1.base f2.base b c teb := by
  obtain ⟨g1, e1, r1⟩ := turned_made hl t1 p1 hf1
  obtain ⟨g2, e2, r2⟩ := turned_made hl t2 p2 hf2
  have k1 := evenFlat_of_call p1 hf1
  have k2 := evenFlat_of_call p2 hf2
  exact ⟨g1, g2, e1, e2, coupled_turned_flat k1 k2 r1 r2 b c, deproj_turned_flat hl k1 k2 r1 r2 b c ells guess, by rw [r1.base, r2.base]⟩

theorem turn_noSpectra (n1 n2 : ℕ) (t1 t2 : ℝ) (r m : ℕ) : (⟨r, m, fun _ _ => 0⟩ : Arr2 ℝ).turn n1 n2 t1 t2 = ⟨r, m, fun _ _ => 0⟩ := by
  unfold Arr2.turn
  congr 1
  funext k l
  have : (fun i => turnBy n2 t2 fun j => (fun _ : ℕ => (0 : ℝ))) = fun _ : ℕ => (0 : ℕ → ℕ → ℝ) := by
    funext i j
    exact turnBy_zero _ _ _
  dsimp only
  rw [this, turnBy_zero]
  split_ifs <;> rfl

open Classical in
theorem deprojC_rows {f1 f2 : FlatFieldObj} {b : FlatBins ℝ} {c : EllCuts} {ells : List ℝ} {guess : ℕ → ℕ → ℝ} {rows : ℕ} {x : Arr2 ℝ}
    (h : deprojBiasFlatObjC env f1 f2 b c ells guess rows = .ok (some x)) : x.rows = rows := by
  unfold deprojBiasFlatObjC at h
  by_cases q1 : f1.lite ∨ f2.lite
  · rw [if_pos q1] at h; cases h
  rw [if_neg q1] at h
  by_cases q2 : ¬ (2 ≤ ells.length ∧ ells.Pairwise (· < ·))
  · rw [if_pos q2] at h; cases h
  rw [if_neg q2] at h
  by_cases q5 : rows < f1.nmaps * f2.nmaps
  · rw [if_pos q5] at h; cases h
  rw [if_neg q5] at h
  by_cases q3 : f1.base.fs ≠ f2.base.fs
  · rw [if_pos q3] at h; cases h
  rw [if_neg q3] at h
  by_cases q4 : f1.ntemp = 0 ∧ f2.ntemp = 0
  · rw [if_pos q4] at h
    rw [← Option.some.inj (Outcome.ok.inj h)]
    rfl
  rw [if_neg q4] at h
  obtain ⟨tbl, -, h⟩ := bind_eq_ok h
  cases h1 : f1.matrixM.getD (some fun _ _ => 0) with
  | none => rw [h1] at h; cases h
  | some M1 =>
    cases h2 : f2.matrixM.getD (some fun _ _ => 0) with
    | none => rw [h1, h2] at h; cases h
    | some M2 =>
      rw [h1, h2] at h
      rw [← Option.some.inj (Outcome.ok.inj h)]
      rfl

theorem turn_of_val {n1 n2 : ℕ} (c1 : n1 = 1 ∨ n1 = 2) (c2 : n2 = 1 ∨ n2 = 2) (t1 t2 : ℝ) {x : Arr2 ℝ} (hx : x.rows = n1 * n2) (m : ℕ) :
    Arr2.of (n1 * n2) m (x.turn n1 n2 t1 t2).val = (Arr2.of (n1 * n2) m x.val).turn n1 n2 t1 t2 := by
  rw [turn2_of c1 c2]
  exact Arr2.of_congr fun k l hk _ => if_pos (by rw [hx]; exact hk)

/-- The deprojection bias in `compute_full_master_flat`. -/
theorem deprojOf_turned (hl : env.Linear) {s1 s2 : ℝ} {f1 f2 g1 g2 : FlatFieldObj} (k1 : EvenFlat f1) (k2 : EvenFlat f2) (h1 : FlatTurned s1 f1 g1)
    (h2 : FlatTurned s2 f2 g2) (b : FlatBins ℝ) (c : EllCuts) (ells : List ℝ) (guess : Arr2 ℝ) (hg : guess.rows = f1.nmaps * f2.nmaps) (d1 d2 e1 e2 : FlatFieldData) :
    Arr2.of (f1.nmaps * f2.nmaps) b.nBands (deprojOf env g1 g2 d1 d2 b c ells (guess.turn f1.nmaps f2.nmaps s1 s2).val) =
      (Arr2.of (f1.nmaps * f2.nmaps) b.nBands (deprojOf env f1 f2 e1 e2 b c ells guess.val)).turn f1.nmaps f2.nmaps s1 s2 := by
  have c1 : f1.nmaps = 1 ∨ f1.nmaps = 2 := by rw [k1.comps]; exact nmapsOf_or _
  have c2 : f2.nmaps = 1 ∨ f2.nmaps = 2 := by rw [k2.comps]; exact nmapsOf_or _
  have hz : Arr2.of (f1.nmaps * f2.nmaps) b.nBands (fun _ _ => 0) = (Arr2.of (f1.nmaps * f2.nmaps) b.nBands (fun _ _ => 0)).turn f1.nmaps f2.nmaps s1 s2 := by
    have : Arr2.of (f1.nmaps * f2.nmaps) b.nBands (fun _ _ => (0 : ℝ)) = ⟨f1.nmaps * f2.nmaps, b.nBands, fun _ _ => 0⟩ := by
      unfold Arr2.of
      congr 1
      funext i j
      unfold tab2
      split_ifs <;> rfl
    rw [this, turn_noSpectra]
  have hC := deprojC_turned hl k1 k2 h1 h2 b c ells guess hg
  unfold deprojOf
  rw [h1.nmaps, h2.nmaps, hC]
  cases h : deprojBiasFlatObjC env f1 f2 b c ells guess.val (f1.nmaps * f2.nmaps) with
  | raises e => exact hz
  | crash => exact hz
  | ok o =>
    cases o with
    | none => exact hz
    | some x => exact turn_of_val c1 c2 s1 s2 (deprojC_rows h) b.nBands

/-- **C101**: turning the maps and templates of two fields by angles turns the bandpowers of `compute_full_master_flat` by these angles: the coupling matrix treats
turned and unturned spectra alike. A noise pseudo-spectrum and the spectra for the bias have to be turned too. A workspace, if one is given, was computed from the
two fields, maybe for other bands or cuts. The coupling matrix can be inverted. -/
theorem C101_bandpowers {L : LinAlg ℝ} (hL : L.Correct) (hl : env.Linear) {a1 a2 : FlatFieldArgs} (p1 : a1.purifyE = a1.purifyB) (p2 : a2.purifyE = a2.purifyB)
    {f1 f2 : FlatFieldObj} (hf1 : nmtFieldFlat env a1 = .ok f1) (hf2 : nmtFieldFlat env a2 = .ok f2) (t1 t2 : ℝ) (b : FlatBins ℝ) (c : EllCuts)
    (noise : Option (Arr2 ℝ)) (guess : Option (Arr2 ℝ × Option (List ℝ))) (workspace : Option (Option WspFlat))
    (hwsp : ∀ w, workspace.bind id = some w → ∃ b' c', couplingFlat f1.base f2.base b' c' false = .ok w)
    (hreg : ∀ w, pickWspFlat f1.data f2.data b c (workspace.bind id) = .ok w → Regular (w.ncls * w.bin.nBands) w.gslMatrix) :
    ∃ g1 g2, nmtFieldFlat env (a1.turn t1) = .ok g1 ∧ nmtFieldFlat env (a2.turn t2) = .ok g2 ∧
      fullMasterFlat L (deprojOf env g1 g2) g1.data g2.data b c (noise.map (Arr2.turn f1.nmaps f2.nmaps t1 t2))
          (guess.map fun g => (g.1.turn f1.nmaps f2.nmaps t1 t2, g.2)) workspace =
        (fullMasterFlat L (deprojOf env f1 f2) f1.data f2.data b c noise guess workspace).bind fun r => .ok (r.turn f1.nmaps f2.nmaps t1 t2) := by
  obtain ⟨g1, e1, r1⟩ := turned_made hl t1 p1 hf1
  obtain ⟨g2, e2, r2⟩ := turned_made hl t2 p2 hf2
  have k1 := evenFlat_of_call p1 hf1
  have k2 := evenFlat_of_call p2 hf2
  refine ⟨g1, g2, e1, e2, ?_⟩
  have c1 : f1.nmaps = 1 ∨ f1.nmaps = 2 := by rw [k1.comps]; exact nmapsOf_or _
  have c2 : f2.nmaps = 1 ∨ f2.nmaps = 2 := by rw [k2.comps]; exact nmapsOf_or _
  have n1 : f1.data.nmaps = f1.nmaps := k1.comps.symm
  have n2 : f2.data.nmaps = f2.nmaps := k2.comps.symm
  have m1 : g1.data.nmaps = f1.nmaps := by rw [k1.comps, ← r1.base]; rfl
  have m2 : g2.data.nmaps = f2.nmaps := by rw [k2.comps, ← r2.base]; rfl
  have b1 : g1.data.fs = f1.data.fs := congrArg FlatField.fs r1.base
  have b2 : g2.data.fs = f2.data.fs := congrArg FlatField.fs r2.base
  have l1 : g1.data.lite = f1.data.lite := r1.lite
  have l2 : g2.data.lite = f2.data.lite := r2.lite
  have u1 : g1.data.ntemp = f1.data.ntemp := r1.ntemp
  have u2 : g2.data.ntemp = f2.data.ntemp := r2.ntemp
  have hp : pickWspFlat g1.data g2.data b c (workspace.bind id) = pickWspFlat f1.data f2.data b c (workspace.bind id) := by
    cases workspace.bind id with
    | none =>
      change couplingFlat g1.base g2.base b c false = couplingFlat f1.base f2.base b c false
      rw [r1.base, r2.base]
    | some w =>
      unfold pickWspFlat
      rw [b1, b2]
  have hpick : ∀ w, pickWspFlat f1.data f2.data b c (workspace.bind id) = .ok w → ∃ b' c', couplingFlat f1.base f2.base b' c' false = .ok w := by
    intro w h
    cases hw : workspace.bind id with
    | none => rw [hw] at h; exact ⟨b, c, h⟩
    | some w' =>
      rw [hw] at h
      unfold pickWspFlat at h
      dsimp only at h
      by_cases h1 : f1.data.fs ≠ w'.fs ∨ f2.data.fs ≠ w'.fs
      · rw [if_pos h1] at h; cases h
      rw [if_neg h1] at h
      by_cases h2 : b.nBands ≠ w'.bin.nBands
      · rw [if_pos h2] at h; cases h
      rw [if_neg h2] at h
      rw [← Outcome.ok.inj h]
      exact hwsp w' hw
  have hb : ∀ ells (gs : Arr2 ℝ), gs.rows = f1.nmaps * f2.nmaps →
      deprojBiasFlatC (deprojOf env g1 g2) g1.data g2.data b c ells (gs.turn f1.nmaps f2.nmaps t1 t2).val (f1.nmaps * f2.nmaps) =
        (deprojBiasFlatC (deprojOf env f1 f2) f1.data f2.data b c ells gs.val (f1.nmaps * f2.nmaps)).bind fun s => .ok (s.turn f1.nmaps f2.nmaps t1 t2) := by
    intro ells gs hgs
    unfold deprojBiasFlatC
    rw [l1, l2, m1, m2, n1, n2, b1, b2, u1, u2]
    by_cases q1 : f1.data.lite = true ∨ f2.data.lite = true
    · rw [if_pos q1, if_pos q1]; rfl
    rw [if_neg q1, if_neg q1]
    by_cases q2 : ¬ (2 ≤ ells.length ∧ ells.Pairwise (· < ·))
    · rw [if_pos q2, if_pos q2]; rfl
    rw [if_neg q2, if_neg q2, if_neg (lt_irrefl _), if_neg (lt_irrefl _)]
    by_cases q4 : f1.data.fs ≠ f2.data.fs
    · rw [if_pos q4, if_pos q4]; rfl
    rw [if_neg q4, if_neg q4]
    simp only [Outcome.bind]
    congr 1
    have e0 : ∀ F : ℕ → ℕ → ℝ, Arr2.of (f1.nmaps * f2.nmaps) b.nBands (fun i ib => if i < f1.nmaps * f2.nmaps then F i ib else 0) =
        Arr2.of (f1.nmaps * f2.nmaps) b.nBands F := fun F => Arr2.of_congr fun k l hk _ => if_pos hk
    rw [e0, e0]
    by_cases q5 : f1.data.ntemp = 0 ∧ f2.data.ntemp = 0
    · simp only [if_pos q5]
      have : Arr2.of (f1.nmaps * f2.nmaps) b.nBands (fun _ _ => (0 : ℝ)) = ⟨f1.nmaps * f2.nmaps, b.nBands, fun _ _ => 0⟩ := by
        unfold Arr2.of
        congr 1
        funext i j
        unfold tab2
        split_ifs <;> rfl
      rw [this, turn_noSpectra]
    · simp only [if_neg q5]
      exact deprojOf_turned hl k1 k2 r1 r2 b c ells gs hgs _ _ _ _
  have hpow : ∀ (cln : Arr2 ℝ) ells (gs : Arr2 ℝ), cln.rows = f1.nmaps * f2.nmaps → gs.rows = f1.nmaps * f2.nmaps →
      powerSpectraFlatC L (deprojOf env g1 g2) g1.data g2.data b c (workspace.bind id) (cln.turn f1.nmaps f2.nmaps t1 t2) ells
        (gs.turn f1.nmaps f2.nmaps t1 t2).val (f1.nmaps * f2.nmaps) =
      (powerSpectraFlatC L (deprojOf env f1 f2) f1.data f2.data b c (workspace.bind id) cln ells gs.val (f1.nmaps * f2.nmaps)).bind
        fun r => .ok (r.turn f1.nmaps f2.nmaps t1 t2) := by
    intro cln ells gs hcln hgs
    unfold powerSpectraFlatC
    rw [hp]
    cases hw : pickWspFlat f1.data f2.data b c (workspace.bind id) with
    | raises e => rfl
    | crash => rfl
    | ok w =>
      obtain ⟨b', c', hc⟩ := hpick w hw
      obtain ⟨hn, hex⟩ := binned_exchanges k1.pure k2.pure t1 t2 hc
      rw [← k1.comps, ← k2.comps] at hn hex
      simp only [Outcome.bind]
      rw [hn, coupledC_turned k1 k2 r1 r2, hb ells gs hgs]
      cases hcl : coupledCellFlatC f1.data f2.data b c (f1.nmaps * f2.nmaps) with
      | raises e => rfl
      | crash => rfl
      | ok cl =>
        simp only [Outcome.bind]
        cases hbi : deprojBiasFlatC (deprojOf env f1 f2) f1.data f2.data b c ells gs.val (f1.nmaps * f2.nmaps) with
        | raises e => rfl
        | crash => rfl
        | ok bias =>
          simp only [Outcome.bind]
          refine decoupleFlat_turned hL w (hreg w hw) c1 c2 t1 t2 hn hex ?_ hcln ?_
          · unfold coupledCellFlatC at hcl
            split_ifs at hcl
            unfold fsAlm2clAll at hcl
            rw [n1, n2, if_neg (lt_irrefl _)] at hcl
            obtain ⟨r, -, hcl⟩ := bind_eq_ok hcl
            rw [← Outcome.ok.inj hcl]
            rfl
          · unfold deprojBiasFlatC at hbi
            split_ifs at hbi <;> (rw [← Outcome.ok.inj hbi]; rfl)
  have hrun : ∀ (ells : List ℝ) (gs : Arr2 ℝ), gs.rows = f1.nmaps * f2.nmaps →
      (let cln := (noise.map (Arr2.turn f1.nmaps f2.nmaps t1 t2)).getD ⟨f1.nmaps * f2.nmaps, b.nBands, fun _ _ => 0⟩
      if cln.rows ≠ f1.nmaps * f2.nmaps ∨ cln.cols ≠ b.nBands ∨ ells.length ≠ (gs.turn f1.nmaps f2.nmaps t1 t2).cols ∨ cln.rows ≠ (gs.turn f1.nmaps f2.nmaps t1 t2).rows
      then (.raises .runtime : Outcome (Arr2 ℝ))
      else powerSpectraFlatC L (deprojOf env g1 g2) g1.data g2.data b c (workspace.bind id) cln ells (gs.turn f1.nmaps f2.nmaps t1 t2).val (f1.nmaps * f2.nmaps)) =
      (let cln := noise.getD ⟨f1.nmaps * f2.nmaps, b.nBands, fun _ _ => 0⟩
      if cln.rows ≠ f1.nmaps * f2.nmaps ∨ cln.cols ≠ b.nBands ∨ ells.length ≠ gs.cols ∨ cln.rows ≠ gs.rows then (.raises .runtime : Outcome (Arr2 ℝ))
      else powerSpectraFlatC L (deprojOf env f1 f2) f1.data f2.data b c (workspace.bind id) cln ells gs.val (f1.nmaps * f2.nmaps)).bind
        fun r => .ok (r.turn f1.nmaps f2.nmaps t1 t2) := by
    intro ells gs hgs
    have en : (noise.map (Arr2.turn f1.nmaps f2.nmaps t1 t2)).getD ⟨f1.nmaps * f2.nmaps, b.nBands, fun _ _ => 0⟩ =
        (noise.getD ⟨f1.nmaps * f2.nmaps, b.nBands, fun _ _ => 0⟩).turn f1.nmaps f2.nmaps t1 t2 := by
      cases noise with
      | none => exact (turn_noSpectra _ _ _ _ _ _).symm
      | some x => rfl
    rw [en]
    generalize noise.getD ⟨f1.nmaps * f2.nmaps, b.nBands, fun _ _ => 0⟩ = cln
    dsimp only
    by_cases q : cln.rows ≠ f1.nmaps * f2.nmaps ∨ cln.cols ≠ b.nBands ∨ ells.length ≠ gs.cols ∨ cln.rows ≠ gs.rows
    · rw [if_pos q]
      exact if_pos q
    · rw [if_neg q]
      refine (if_neg q).trans ?_
      push Not at q
      exact hpow cln ells gs q.1 hgs
  have ea : (noise.map (Arr2.turn f1.nmaps f2.nmaps t1 t2)).any (fun a => a.rows ≠ f1.nmaps * f2.nmaps ∨ a.cols ≠ b.nBands) =
      noise.any (fun a => a.rows ≠ f1.nmaps * f2.nmaps ∨ a.cols ≠ b.nBands) := by cases noise <;> rfl
  unfold fullMasterFlat
  dsimp only
  rw [m1, m2, n1, n2, b1, b2, ea]
  by_cases q1 : f1.data.fs.nx ≠ f2.data.fs.nx ∨ f1.data.fs.ny ≠ f2.data.fs.ny
  · rw [if_pos q1, if_pos q1]; rfl
  rw [if_neg q1, if_neg q1]
  by_cases q2 : noise.any (fun a => a.rows ≠ f1.nmaps * f2.nmaps ∨ a.cols ≠ b.nBands) = true
  · rw [if_pos q2, if_pos q2]; rfl
  rw [if_neg q2, if_neg q2]
  rcases guess with _ | ⟨clg, _ | ells⟩
  · have h := hrun ((List.range b.nBands).map (ellEffFlat b)) ⟨f1.nmaps * f2.nmaps, b.nBands, fun _ _ => 0⟩ rfl
    rw [turn_noSpectra] at h
    exact h
  · rfl
  · simp only [Option.map_some]
    by_cases q3 : clg.rows ≠ f1.nmaps * f2.nmaps ∨ clg.cols ≠ ells.length
    · rw [if_pos q3]
      exact if_pos q3
    · rw [if_neg q3]
      refine (if_neg q3).trans ?_
      push Not at q3
      exact hrun ells clg q3.1

/-- **C101**, what an angle common to both fields leaves alone: the sum of the `EE` and `BB` bandpowers and the difference of the `EB` and `BE` bandpowers. -/
theorem C101_invariants {L : LinAlg ℝ} (hL : L.Correct) (hl : env.Linear) {a1 a2 : FlatFieldArgs} (p1 : a1.purifyE = a1.purifyB) (p2 : a2.purifyE = a2.purifyB)
    {f1 f2 : FlatFieldObj} (hf1 : nmtFieldFlat env a1 = .ok f1) (hf2 : nmtFieldFlat env a2 = .ok f2) (n1 : f1.nmaps = 2) (n2 : f2.nmaps = 2) (t : ℝ)
    (b : FlatBins ℝ) (c : EllCuts) (noise : Option (Arr2 ℝ)) (guess : Option (Arr2 ℝ × Option (List ℝ)))
    (hreg : ∀ w, couplingFlat f1.base f2.base b c false = .ok w → Regular (w.ncls * w.bin.nBands) w.gslMatrix) (r : Arr2 ℝ)
    (hr : fullMasterFlat L (deprojOf env f1 f2) f1.data f2.data b c noise guess none = .ok r) :
    ∃ g1 g2 r', nmtFieldFlat env (a1.turn t) = .ok g1 ∧ nmtFieldFlat env (a2.turn t) = .ok g2 ∧
      fullMasterFlat L (deprojOf env g1 g2) g1.data g2.data b c (noise.map (Arr2.turn 2 2 t t))
        (guess.map fun g => (g.1.turn 2 2 t t, g.2)) none = .ok r' ∧ r.rows = 4 ∧ r'.rows = 4 ∧
      ∀ ib, r'.val 0 ib + r'.val 3 ib = r.val 0 ib + r.val 3 ib ∧ r'.val 1 ib - r'.val 2 ib = r.val 1 ib - r.val 2 ib := by
  obtain ⟨g1, g2, q1, q2, q3⟩ := C101_bandpowers hL hl p1 p2 hf1 hf2 t t b c noise guess none (fun w h => by cases h) hreg
  rw [hr, n1, n2] at q3
  have k1 := evenFlat_of_call p1 hf1
  have k2 := evenFlat_of_call p2 hf2
  have e1 : f1.data.nmaps = f1.nmaps := k1.comps.symm
  have e2 : f2.data.nmaps = f2.nmaps := k2.comps.symm
  have hrows : r.rows = 4 := by
    unfold fullMasterFlat at hr
    dsimp only at hr
    have hC : ∀ cln ells g, powerSpectraFlatC L (deprojOf env f1 f2) f1.data f2.data b c none cln ells g (f1.data.nmaps * f2.data.nmaps) = .ok r → r.rows = 4 := by
      intro cln ells g hr
      unfold powerSpectraFlatC at hr
      obtain ⟨w, -, hr⟩ := bind_eq_ok hr
      obtain ⟨cl, -, hr⟩ := bind_eq_ok hr
      obtain ⟨bi, -, hr⟩ := bind_eq_ok hr
      unfold decoupleFlatC at hr
      split_ifs at hr
      rw [← Outcome.ok.inj hr]
      change f1.data.nmaps * f2.data.nmaps = 4
      rw [e1, e2, n1, n2]
    rcases guess with _ | ⟨g, _ | ells⟩
    · dsimp only at hr
      split_ifs at hr
      exact hC _ _ _ hr
    · dsimp only at hr
      split_ifs at hr
    · dsimp only at hr
      split_ifs at hr
      exact hC _ _ _ hr
  refine ⟨g1, g2, r.turn 2 2 t t, q1, q2, q3, hrows, hrows, fun ib => ?_⟩
  have h2' : ∀ k < 4, (r.turn 2 2 t t).val k ib =
      turnBy 2 t (fun i => turnBy 2 t fun j => r.val (i * 2 + j) ib) (k / 2) (k % 2) := by
    intro k hk
    simp only [Arr2.turn]
    rw [if_pos (by rw [hrows]; exact hk)]
    simp only [turn_pi]
  rw [h2' 0 (by norm_num), h2' 1 (by norm_num), h2' 2 (by norm_num), h2' 3 (by norm_num)]
  simp [turnBy]
  constructor
  · linear_combination (r.val 0 ib + r.val 3 ib) * Real.sin_sq_add_cos_sq t
  · linear_combination (r.val 1 ib - r.val 2 ib) * Real.sin_sq_add_cos_sq t

end NaMaster
