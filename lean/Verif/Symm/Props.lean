import Verif.Symm.Matrix

/-!
# C95: symmetries of the pixel grid
-/

namespace NaMaster

open Finset

variable {env : FieldEnv} {g : GridSym} {a1 a2 : FieldArgs} {f1 f2 : FieldObj}

theorem sub_signs (n1 n2 : ℕ) (a b : Arr2 ℝ) : (a.flip g n1 n2).sub (b.flip g n1 n2) = (a.sub b).bind fun d => .ok (d.flip g n1 n2) := by
  unfold Arr2.sub
  change (if a.rows ≠ b.rows ∨ a.cols ≠ b.cols then _ else _) = _
  by_cases h : a.rows ≠ b.rows ∨ a.cols ≠ b.cols
  · rw [if_pos h, if_pos h]; rfl
  rw [if_neg h, if_neg h]
  simp only [Outcome.bind, Arr2.flip]
  congr 2
  funext k l
  ring

theorem subO_signs (n1 n2 : ℕ) (a b : Option (Arr2 ℝ)) :
    subO (a.map (Arr2.flip g n1 n2)) (b.map (Arr2.flip g n1 n2)) = (subO a b).bind fun d => .ok (d.map (Arr2.flip g n1 n2)) := by
  cases a with
  | none => rfl
  | some a =>
    cases b with
    | none => rfl
    | some b =>
      simp only [subO, Option.map_some, sub_signs]
      cases a.sub b <;> rfl

theorem zero_flip (n1 n2 r c : ℕ) : (⟨r, c, fun _ _ => 0⟩ : Arr2 ℝ).flip g n1 n2 = ⟨r, c, fun _ _ => 0⟩ := by
  simp only [Arr2.flip, mul_zero]

theorem field_sym {a : FieldArgs} {f : FieldObj} (ha : IsoMask a) (hm : a.maps.isSome = true) (hf : nmtField env a = .ok f) : SymField f := by
  have hk : fieldMasks env.pix a = .ok (a.mask, none) := by
    unfold fieldMasks
    rw [ha.iso22, ha.iso12]
  unfold nmtField at hf
  obtain ⟨pl, hpl, hf⟩ := ok_of_bind hf
  unfold fieldChecks at hpl
  rw [hk] at hpl
  simp only [Outcome.bind] at hpl
  by_cases k1 : a.lmax.getD env.lmaxDefault ≤ 0 ∨ a.lmaxMask.getD env.lmaxDefault ≤ 0
  · rw [if_pos k1] at hpl; cases hpl
  rw [if_neg k1] at hpl
  by_cases k2 : (a.beam.map fun b => (b.1 : ℤ)).any (fun n => n ≤ a.lmax.getD env.lmaxDefault) = true
  · rw [if_pos k2] at hpl; cases hpl
  rw [if_neg k2] at hpl
  obtain ⟨m, hm⟩ := Option.isSome_iff_exists.1 hm
  rw [hm] at hpl
  obtain ⟨spin, v, t, rfl, hs⟩ := mapChecks_spin hpl
  dsimp only at hf
  unfold fieldFinish at hf
  dsimp only at hf
  obtain ⟨d, -, hf⟩ := ok_of_bind hf
  obtain ⟨r, -, hf⟩ := ok_of_bind hf
  obtain ⟨at', -, hf⟩ := ok_of_bind hf
  rw [← Outcome.ok.inj hf]
  refine ⟨rfl, fun hp => ?_⟩
  have : spin = 2 := hs hp
  change (if spin = 0 then 1 else 2) = 2
  rw [this]
  norm_num

/-- **C95**, fields: moving mask, maps and templates by a symmetry of the pixel grid moves the mask, the maps, the coefficients and the templates of the field,
with the sign of the second component reversed in mirror images, and changes nothing else: the amplitudes of the templates and their pseudo-inverse
stay the same. Calls that raise an exception still raise it. -/
theorem C95_field (h : env.HasSym g) (a : FieldArgs) (ha : IsoMask a) : nmtField env (a.move g) = (nmtField env a).bind fun f => .ok (f.move g) :=
  nmtField_move h a ha

/-- **C95**, pseudo-spectra and deprojection bias do not change, except that in mirror images the rows with exactly one `B` change sign. The spectra for the
bias get the same signs. -/
theorem C95_pseudo (h : env.HasSym g) (minfo : MapInfo) (h1 : IsoMask a1) (h2 : IsoMask a2) (m1 : a1.maps.isSome = true) (m2 : a2.maps.isSome = true)
    (hf1 : nmtField env a1 = .ok f1) (hf2 : nmtField env a2 = .ok f2) (same : Bool) (nIter : ℕ) (compat : Bool) (guess : Arr2 ℝ) :
    ∃ g1 g2, nmtField env (a1.move g) = .ok g1 ∧ nmtField env (a2.move g) = .ok g2 ∧
      computeCoupledCell (g1.view env.sht minfo) (g2.view env.sht minfo) same =
        (computeCoupledCell (f1.view env.sht minfo) (f2.view env.sht minfo) same).bind (fun b => .ok (b.map (Arr2.flip g f1.nmaps f2.nmaps))) ∧
      deprojectionBias env nIter compat g1 g2 (guess.flip g f1.nmaps f2.nmaps) =
        (deprojectionBias env nIter compat f1 f2 guess).bind fun b => .ok (b.map (Arr2.flip g f1.nmaps f2.nmaps)) := by
  refine ⟨f1.move g, f2.move g, ?_, ?_, coupled_move _ _ _ _ _, bias_move h nIter compat (field_sym h1 m1 hf1) (field_sym h2 m2 hf2) guess⟩
  · rw [nmtField_move h a1 h1, hf1]; rfl
  · rw [nmtField_move h a2 h2, hf2]; rfl

/-- **C95**: moving the masks, maps and templates of two fields by a symmetry of the pixel grid does not change the workspace, and does not change the
bandpowers of `compute_full_master`, except that in mirror images the rows with exactly one `B` change sign. This holds with any purification,
normalisation and Toeplitz approximation. A noise pseudo-spectrum and the spectra for the bias get the same signs. The binned coupling matrix can be
inverted, if there is one. -/
theorem C95_bandpowers (W : Wigner) (L : LinAlg ℝ) (hL : L.Correct) (h : env.HasSym g) (minfo : MapInfo) (h1 : IsoMask a1) (h2 : IsoMask a2)
    (m1 : a1.maps.isSome = true) (m2 : a2.maps.isSome = true) (hf1 : nmtField env a1 = .ok f1) (hf2 : nmtField env a2 = .ok f2) (same : Bool) (B : Bins ℝ)
    (wa : WspArgs) (hreg : ∀ w, wspFromFields W env minfo f1 f2 same B wa = .ok w → Regular w.nBinned w.binned) (nIter : ℕ) (noise guess : Option (Arr2 ℝ)) :
    ∃ g1 g2, nmtField env (a1.move g) = .ok g1 ∧ nmtField env (a2.move g) = .ok g2 ∧
      wspFromFields W env minfo g1 g2 same B wa = wspFromFields W env minfo f1 f2 same B wa ∧
      fullMaster L env nIter minfo g1 g2 same true (wspFromFields W env minfo g1 g2 same B wa) none (noise.map (Arr2.flip g f1.nmaps f2.nmaps))
          (guess.map (Arr2.flip g f1.nmaps f2.nmaps)) =
        (fullMaster L env nIter minfo f1 f2 same true (wspFromFields W env minfo f1 f2 same B wa) none noise guess).bind fun r =>
          .ok (r.map (Arr2.flip g f1.nmaps f2.nmaps)) := by
  have p1 := field_sym h1 m1 hf1
  have p2 := field_sym h2 m2 hf2
  have i1 := field_iso h1.iso22 h1.iso12 hf1
  have i2 := field_iso h2.iso22 h2.iso12 hf2
  have hw := wsp_move h W minfo f1 f2 i1 i2 same B wa
  refine ⟨f1.move g, f2.move g, ?_, ?_, hw, ?_⟩
  · rw [nmtField_move h a1 h1, hf1]; rfl
  · rw [nmtField_move h a2 h2, hf2]; rfl
  rw [hw]
  unfold fullMaster
  dsimp only
  have e : ∀ o : Option (Arr2 ℝ), (o.map (Arr2.flip g f1.nmaps f2.nmaps)).any (fun a => a.rows ≠ f1.nmaps * f2.nmaps ∨ a.cols ≠ f1.lmax + 1) =
      o.any (fun a => a.rows ≠ f1.nmaps * f2.nmaps ∨ a.cols ≠ f1.lmax + 1) := fun o => by cases o <;> rfl
  have en : ∀ o : Option (Arr2 ℝ), (o.map (Arr2.flip g f1.nmaps f2.nmaps)).getD ⟨f1.nmaps * f2.nmaps, f1.lmax + 1, fun _ _ => 0⟩ =
      (o.getD ⟨f1.nmaps * f2.nmaps, f1.lmax + 1, fun _ _ => 0⟩).flip g f1.nmaps f2.nmaps := by
    intro o
    cases o with
    | none => exact (zero_flip _ _ _ _).symm
    | some x => rfl
  have g1 : (f1.move g).nmaps = f1.nmaps := rfl
  have g2 : (f2.move g).nmaps = f2.nmaps := rfl
  have g3 : (f1.move g).lmax = f1.lmax := rfl
  have g4 : ((f1.move g).view env.sht minfo).geom = (f1.view env.sht minfo).geom := rfl
  have g5 : ((f2.move g).view env.sht minfo).geom = (f2.view env.sht minfo).geom := rfl
  rw [g1, g2, g3, g4, g5, e, e, en, en, coupled_move, bias_move h nIter _ p1 p2]
  by_cases k1 : ¬ true = true ∧ (none : Option (Wsp ℝ)).isNone = true
  · rw [if_pos k1, if_pos k1]; rfl
  rw [if_neg k1, if_neg k1]
  by_cases k2 : isCompatible (f1.view env.sht minfo).geom (f2.view env.sht minfo).geom false = false
  · rw [if_pos k2, if_pos k2]; rfl
  rw [if_neg k2, if_neg k2]
  by_cases k3 : noise.any (fun a => a.rows ≠ f1.nmaps * f2.nmaps ∨ a.cols ≠ f1.lmax + 1) = true
  · rw [if_pos k3, if_pos k3]; rfl
  rw [if_neg k3, if_neg k3]
  by_cases k4 : guess.any (fun a => a.rows ≠ f1.nmaps * f2.nmaps ∨ a.cols ≠ f1.lmax + 1) = true
  · rw [if_pos k4, if_pos k4]; rfl
  rw [if_neg k4, if_neg k4]
  cases hx : computeCoupledCell (f1.view env.sht minfo) (f2.view env.sht minfo) same with
  | raises e => rfl
  | crash => rfl
  | ok x =>
    simp only [Outcome.bind]
    cases deprojectionBias env nIter (isCompatible (f1.view env.sht minfo).geom (f2.view env.sht minfo).geom true) f1 f2
      (guess.getD ⟨f1.nmaps * f2.nmaps, f1.lmax + 1, fun _ _ => 0⟩) with
    | raises e => rfl
    | crash => rfl
    | ok b =>
      simp only [pickWsp]
      cases hw : wspFromFields W env minfo f1 f2 same B wa with
      | raises e => rfl
      | crash => rfl
      | ok w =>
        simp only
        rw [subO_signs]
        cases hd : subO x b with
        | raises e => rfl
        | crash => rfl
        | ok d =>
          have es := subO_signs (g := g) f1.nmaps f2.nmaps d (some (noise.getD ⟨f1.nmaps * f2.nmaps, f1.lmax + 1, fun _ _ => 0⟩))
          simp only [Option.map_some] at es
          simp only [Outcome.bind]
          rw [es]
          cases hd' : subO d (some (noise.getD ⟨f1.nmaps * f2.nmaps, f1.lmax + 1, fun _ _ => 0⟩)) with
          | raises e => rfl
          | crash => rfl
          | ok d' =>
            cases d' with
            | none => rfl
            | some d' =>
              have hr : d'.rows = f1.nmaps * f2.nmaps := by
                obtain ⟨y, rfl, h3⟩ := subO_rows hd'
                obtain ⟨z, rfl, h4⟩ := subO_rows hd
                rw [h3, h4, coupled_rows hx]
                rfl
              simp only [Outcome.bind, Option.map_some]
              rw [decouple_move hL w (hreg w hw) (fun hn ib hib ib' hib' => wsp_keeps i1 i2 p1 p2 hw hn hib hib') d' hr]
              cases decoupleCell L w d' none none <;> rfl

/-- **C95**, consequence: if masks, maps and templates are their own mirror images, the bandpowers with exactly one `B` are zero. -/
theorem C95_null (W : Wigner) (L : LinAlg ℝ) (hL : L.Correct) (h : env.HasSym g) (hg : g.mirror = true) (minfo : MapInfo) (h1 : IsoMask a1)
    (h2 : IsoMask a2) (m1 : a1.maps.isSome = true) (m2 : a2.maps.isSome = true) (s1 : a1.move g = a1) (s2 : a2.move g = a2)
    (hf1 : nmtField env a1 = .ok f1) (hf2 : nmtField env a2 = .ok f2) (same : Bool) (B : Bins ℝ) (wa : WspArgs)
    (hreg : ∀ w, wspFromFields W env minfo f1 f2 same B wa = .ok w → Regular w.nBinned w.binned) (nIter : ℕ) (r : Arr2 ℝ)
    (hr : fullMaster L env nIter minfo f1 f2 same true (wspFromFields W env minfo f1 f2 same B wa) none none none = .ok (some r)) :
    (f1.nmaps = 1 → f2.nmaps = 2 → ∀ ib, r.val 1 ib = 0) ∧ (f1.nmaps = 2 → f2.nmaps = 1 → ∀ ib, r.val 1 ib = 0) ∧
      (f1.nmaps = 2 → f2.nmaps = 2 → ∀ ib, r.val 1 ib = 0 ∧ r.val 2 ib = 0) := by
  obtain ⟨g1, g2, q1, q2, -, q3⟩ := C95_bandpowers W L hL h minfo h1 h2 m1 m2 hf1 hf2 same B wa hreg nIter none none
  rw [s1, hf1] at q1
  rw [s2, hf2] at q2
  rw [← Outcome.ok.inj q1, ← Outcome.ok.inj q2] at q3
  simp only [Option.map_none] at q3
  rw [hr] at q3
  have q4 : r = r.flip g f1.nmaps f2.nmaps := Option.some.inj (Outcome.ok.inj q3)
  have q5 : ∀ k ib, g.rowSign f1.nmaps f2.nmaps k = -1 → r.val k ib = 0 := by
    intro k ib hk
    have := congrArg (fun x : Arr2 ℝ => x.val k ib) q4
    simp only [Arr2.flip] at this
    rw [hk] at this
    linarith
  refine ⟨fun n1 n2 ib => q5 1 ib ?_, fun n1 n2 ib => q5 1 ib ?_, fun n1 n2 ib => ⟨q5 1 ib ?_, q5 2 ib ?_⟩⟩ <;>
    simp [GridSym.rowSign, GridSym.sg, n1, n2, hg]

end NaMaster
