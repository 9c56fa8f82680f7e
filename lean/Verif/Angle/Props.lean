import Verif.Angle.Matrix

/-!
# C92: turning the polarisation angle of maps turns their bandpowers
-/

namespace NaMaster

open Finset

variable {env : FieldEnv} {a1 a2 : FieldArgs} {f1 f2 : FieldObj}

theorem sub_turn (n1 n2 : ℕ) (t1 t2 : ℝ) (a b : Arr2 ℝ) :
    (a.turn n1 n2 t1 t2).sub (b.turn n1 n2 t1 t2) = (a.sub b).bind fun d => .ok (d.turn n1 n2 t1 t2) := by
  unfold Arr2.sub
  change (if a.rows ≠ b.rows ∨ a.cols ≠ b.cols then _ else _) = _
  by_cases h : a.rows ≠ b.rows ∨ a.cols ≠ b.cols
  · rw [if_pos h, if_pos h]; rfl
  rw [if_neg h, if_neg h]
  push Not at h
  simp only [Outcome.bind, Arr2.turn]
  congr 2
  funext k l
  rw [← h.1]
  by_cases hk : k < a.rows
  · rw [if_pos hk, if_pos hk, if_pos hk]
    obtain ⟨x, y, p, q, e1⟩ := turn_comb n1 t1 (k / n2)
    obtain ⟨z, w, r, s, e2⟩ := turn_comb n2 t2 (k % n2)
    simp only [e1, Pi.add_apply, Pi.smul_apply, e2, smul_eq_mul]
    ring
  · rw [if_neg hk, if_neg hk, if_neg hk, sub_zero]

theorem subO_turn (n1 n2 : ℕ) (t1 t2 : ℝ) (a b : Option (Arr2 ℝ)) :
    subO (a.map (Arr2.turn n1 n2 t1 t2)) (b.map (Arr2.turn n1 n2 t1 t2)) = (subO a b).bind fun d => .ok (d.map (Arr2.turn n1 n2 t1 t2)) := by
  cases a with
  | none => rfl
  | some a =>
    cases b with
    | none => rfl
    | some b =>
      simp only [subO, Option.map_some, sub_turn]
      cases a.sub b <;> rfl

theorem subO_rows {a b : Option (Arr2 ℝ)} {d : Arr2 ℝ} (h : subO a b = .ok (some d)) : ∃ x, a = some x ∧ d.rows = x.rows := by
  cases a with
  | none => cases h
  | some x =>
    refine ⟨x, rfl, ?_⟩
    cases b with
    | none => cases h
    | some y =>
      simp only [subO, Arr2.sub] at h
      by_cases k : x.rows ≠ y.rows ∨ x.cols ≠ y.cols
      · rw [if_pos k] at h; cases h
      · rw [if_neg k] at h
        rw [← Option.some.inj (Outcome.ok.inj h)]

theorem coupled_rows {v1 v2 : FieldView} {same : Bool} {x : Arr2 ℝ} (h : computeCoupledCell v1 v2 same = .ok (some x)) : x.rows = v1.ncomp * v2.ncomp := by
  unfold computeCoupledCell at h
  by_cases k : isCompatible v1.geom v2.geom false = false
  · rw [if_pos k] at h; cases h
  rw [if_neg k] at h
  obtain ⟨b1, -, h⟩ := ok_of_bind h
  obtain ⟨b2, -, h⟩ := ok_of_bind h
  dsimp only at h
  cases b1 with
  | none => cases h
  | some b1 =>
    cases b2 with
    | none => cases h
    | some b2 => rw [← Option.some.inj (Outcome.ok.inj h)]; rfl

theorem zero_turn (n1 n2 : ℕ) (t1 t2 : ℝ) (r c : ℕ) : (⟨r, c, fun _ _ => 0⟩ : Arr2 ℝ).turn n1 n2 t1 t2 = ⟨r, c, fun _ _ => 0⟩ := by
  simp only [Arr2.turn]
  congr 1
  funext k l
  split_ifs
  · simp only [turn_pi, turnBy_zero]
  · rfl

theorem field_plain {a : FieldArgs} {f : FieldObj} (ha : EvenCall a) (hf : nmtField env a = .ok f) : EvenField f := by
  have key : ∀ o : FieldObj, (∃ l lm s, o = baseObj a (a.mask, none) l lm s) → EvenField o := by
    rintro o ⟨l, lm, s, rfl⟩
    refine ⟨?_, ?_, ha.pure⟩
    · simp only [baseObj]; split_ifs <;> simp
    · simp only [baseObj]
      intro h h0
      rw [if_pos h0] at h
      cases h
  have hm : fieldMasks env.pix a = .ok (a.mask, none) := by
    unfold fieldMasks
    rw [ha.iso22, ha.iso12]
  unfold nmtField at hf
  obtain ⟨pl, hpl, hf⟩ := ok_of_bind hf
  unfold fieldChecks at hpl
  rw [hm] at hpl
  simp only [Outcome.bind] at hpl
  by_cases k1 : a.lmax.getD env.lmaxDefault ≤ 0 ∨ a.lmaxMask.getD env.lmaxDefault ≤ 0
  · rw [if_pos k1] at hpl; cases hpl
  rw [if_neg k1] at hpl
  by_cases k2 : (a.beam.map fun b => (b.1 : ℤ)).any (fun n => n ≤ a.lmax.getD env.lmaxDefault) = true
  · rw [if_pos k2] at hpl; cases hpl
  rw [if_neg k2] at hpl
  cases hm : a.maps with
  | none =>
    rw [hm] at hpl
    cases hs : a.spin with
    | none => rw [hs] at hpl; cases hpl
    | some s =>
      rw [hs] at hpl
      dsimp only at hpl
      rw [if_neg (by simp)] at hpl
      rw [← Outcome.ok.inj hpl] at hf
      rw [← Outcome.ok.inj hf]
      exact key _ ⟨_, _, _, rfl⟩
  | some m =>
    rw [hm] at hpl
    obtain ⟨spin, v, t, rfl, -, -⟩ := mapChecks_obj hpl
    have kb := key (baseObj a (a.mask, none) (a.lmax.getD env.lmaxDefault) (a.lmaxMask.getD env.lmaxDefault) spin) ⟨_, _, _, rfl⟩
    dsimp only at hf
    unfold fieldFinish at hf
    dsimp only at hf
    obtain ⟨d, -, hf⟩ := ok_of_bind hf
    obtain ⟨r, -, hf⟩ := ok_of_bind hf
    obtain ⟨at', -, hf⟩ := ok_of_bind hf
    rw [← Outcome.ok.inj hf]
    exact ⟨kb.comps, kb.spin, kb.pure⟩

/-- **C92**, fields: turning maps and templates by an angle turns the maps of the field, its coefficients and its templates by that angle, and changes
nothing else. Calls that raise an exception still raise it. -/
theorem C92_field (env : FieldEnv) (hS : env.sht.Turns) (t : ℝ) (a : FieldArgs) (ha : EvenCall a) :
    nmtField env (a.turn t) = (nmtField env a).bind fun f => .ok (f.turn t) := nmtField_turn env hS t a ha

/-- **C92**, pseudo-spectra and deprojection bias: the components of the first field are turned by `t1` and those of the second by `t2`. The spectra for
the bias have to be turned too. -/
theorem C92_pseudo (hS : env.sht.Turns) (minfo : MapInfo) (h1 : EvenCall a1) (h2 : EvenCall a2) (hf1 : nmtField env a1 = .ok f1)
    (hf2 : nmtField env a2 = .ok f2) (t1 t2 : ℝ) (same : Bool) (nIter : ℕ) (compat : Bool) (guess : Arr2 ℝ) :
    ∃ g1 g2, nmtField env (a1.turn t1) = .ok g1 ∧ nmtField env (a2.turn t2) = .ok g2 ∧
      computeCoupledCell (g1.view env.sht minfo) (g2.view env.sht minfo) same =
        (computeCoupledCell (f1.view env.sht minfo) (f2.view env.sht minfo) same).bind (fun b => .ok (b.map (Arr2.turn f1.nmaps f2.nmaps t1 t2))) ∧
      deprojectionBias env nIter compat g1 g2 (guess.turn f1.nmaps f2.nmaps t1 t2) =
        (deprojectionBias env nIter compat f1 f2 guess).bind fun b => .ok (b.map (Arr2.turn f1.nmaps f2.nmaps t1 t2)) := by
  have p1 := field_plain h1 hf1
  have p2 := field_plain h2 hf2
  refine ⟨f1.turn t1, f2.turn t2, ?_, ?_, coupled_turn _ _ _ _ _ _ p1.comps p2.comps _, bias_turn env hS nIter compat p1 p2 t1 t2 guess⟩
  · rw [nmtField_turn env hS t1 a1 h1, hf1]; rfl
  · rw [nmtField_turn env hS t2 a2 h2, hf2]; rfl

/-- **C92**: turning the maps and templates of two fields by angles turns the bandpowers of `compute_full_master` by these angles: the coupling matrix treats
turned and unturned spectra alike, with any normalisation and Toeplitz approximation. The workspace does not change. A noise pseudo-spectrum and the
spectra for the bias have to be turned too. The binned coupling matrix can be inverted, if there is one. -/
theorem C92_bandpowers (W : Wigner) (L : LinAlg ℝ) (hL : L.Correct) (hS : env.sht.Turns) (minfo : MapInfo) (h1 : EvenCall a1) (h2 : EvenCall a2)
    (hf1 : nmtField env a1 = .ok f1) (hf2 : nmtField env a2 = .ok f2) (t1 t2 : ℝ) (same : Bool) (B : Bins ℝ) (wa : WspArgs)
    (hreg : ∀ w, wspFromFields W env minfo f1 f2 same B wa = .ok w → Regular w.nBinned w.binned) (nIter : ℕ) (noise guess : Option (Arr2 ℝ)) :
    ∃ g1 g2, nmtField env (a1.turn t1) = .ok g1 ∧ nmtField env (a2.turn t2) = .ok g2 ∧
      wspFromFields W env minfo g1 g2 same B wa = wspFromFields W env minfo f1 f2 same B wa ∧
      fullMaster L env nIter minfo g1 g2 same true (wspFromFields W env minfo g1 g2 same B wa) none (noise.map (Arr2.turn f1.nmaps f2.nmaps t1 t2))
          (guess.map (Arr2.turn f1.nmaps f2.nmaps t1 t2)) =
        (fullMaster L env nIter minfo f1 f2 same true (wspFromFields W env minfo f1 f2 same B wa) none noise guess).bind fun r =>
          .ok (r.map (Arr2.turn f1.nmaps f2.nmaps t1 t2)) := by
  have p1 := field_plain h1 hf1
  have p2 := field_plain h2 hf2
  have hw : wspFromFields W env minfo (f1.turn t1) (f2.turn t2) same B wa = wspFromFields W env minfo f1 f2 same B wa := rfl
  refine ⟨f1.turn t1, f2.turn t2, ?_, ?_, hw, ?_⟩
  · rw [nmtField_turn env hS t1 a1 h1, hf1]; rfl
  · rw [nmtField_turn env hS t2 a2 h2, hf2]; rfl
  rw [hw]
  unfold fullMaster
  dsimp only
  have e : ∀ o : Option (Arr2 ℝ), (o.map (Arr2.turn f1.nmaps f2.nmaps t1 t2)).any (fun a => a.rows ≠ f1.nmaps * f2.nmaps ∨ a.cols ≠ f1.lmax + 1) =
      o.any (fun a => a.rows ≠ f1.nmaps * f2.nmaps ∨ a.cols ≠ f1.lmax + 1) := fun o => by cases o <;> rfl
  have en : ∀ o : Option (Arr2 ℝ), (o.map (Arr2.turn f1.nmaps f2.nmaps t1 t2)).getD ⟨f1.nmaps * f2.nmaps, f1.lmax + 1, fun _ _ => 0⟩ =
      (o.getD ⟨f1.nmaps * f2.nmaps, f1.lmax + 1, fun _ _ => 0⟩).turn f1.nmaps f2.nmaps t1 t2 := by
    intro o
    cases o with
    | none => exact (zero_turn _ _ _ _ _ _).symm
    | some x => rfl
  have g1 : (f1.turn t1).nmaps = f1.nmaps := rfl
  have g2 : (f2.turn t2).nmaps = f2.nmaps := rfl
  have g3 : (f1.turn t1).lmax = f1.lmax := rfl
  have g4 : ((f1.turn t1).view env.sht minfo).geom = (f1.view env.sht minfo).geom := rfl
  have g5 : ((f2.turn t2).view env.sht minfo).geom = (f2.view env.sht minfo).geom := rfl
  rw [g1, g2, g3, g4, g5, e, e, en, en, coupled_turn _ _ _ _ _ _ p1.comps p2.comps, bias_turn env hS nIter _ p1 p2]
  by_cases k1 : ¬ true = true ∧ (none : Option (Wsp ℝ)).isNone = true
  · rw [if_pos k1, if_pos k1]; rfl
  rw [if_neg k1, if_neg k1]
  by_cases k2 : isCompatible (f1.view env.sht minfo).geom (f2.view env.sht minfo).geom false = false
  · rw [if_pos k2, if_pos k2]; rfl
  rw [if_neg k2, if_neg k2]
  by_cases k3 : noise.any (fun a => a.rows ≠ f1.nmaps * f2.nmaps ∨ a.cols ≠ f1.lmax + 1) = true
  · rw [if_pos k3, if_pos k3]; rfl
  rw [if_neg k3, if_neg k3]
  by_cases k4 : guess.any (fun a => a.rows ≠ f1.nmaps * f2.nmaps ∨ a.cols ≠ f1.lmax + 1) = true
  · rw [if_pos k4, if_pos k4]; rfl
  rw [if_neg k4, if_neg k4]
  cases hx : computeCoupledCell (f1.view env.sht minfo) (f2.view env.sht minfo) same with
  | raises e => rfl
  | crash => rfl
  | ok x =>
    simp only [Outcome.bind]
    cases deprojectionBias env nIter (isCompatible (f1.view env.sht minfo).geom (f2.view env.sht minfo).geom true) f1 f2
      (guess.getD ⟨f1.nmaps * f2.nmaps, f1.lmax + 1, fun _ _ => 0⟩) with
    | raises e => rfl
    | crash => rfl
    | ok b =>
      simp only [pickWsp]
      cases hw : wspFromFields W env minfo f1 f2 same B wa with
      | raises e => rfl
      | crash => rfl
      | ok w =>
        simp only
        rw [subO_turn]
        cases hd : subO x b with
        | raises e => rfl
        | crash => rfl
        | ok d =>
          have es := subO_turn f1.nmaps f2.nmaps t1 t2 d (some (noise.getD ⟨f1.nmaps * f2.nmaps, f1.lmax + 1, fun _ _ => 0⟩))
          simp only [Option.map_some] at es
          simp only [Outcome.bind]
          rw [es]
          cases hd' : subO d (some (noise.getD ⟨f1.nmaps * f2.nmaps, f1.lmax + 1, fun _ _ => 0⟩)) with
          | raises e => rfl
          | crash => rfl
          | ok d' =>
            cases d' with
            | none => rfl
            | some d' =>
              have hr : d'.rows = f1.nmaps * f2.nmaps := by
                obtain ⟨y, rfl, h3⟩ := subO_rows hd'
                obtain ⟨z, rfl, h4⟩ := subO_rows hd
                rw [h3, h4, coupled_rows hx]
                rfl
              simp only [Outcome.bind, Option.map_some]
              rw [decouple_turn hL w (hreg w hw) p1.comps p2.comps t1 t2 (fun hn ib hib ib' hib' => wsp_form (field_iso h1.iso22 h1.iso12 hf1)
                (field_iso h2.iso22 h2.iso12 hf2) p1 p2 hw hn hib hib') d' hr]
              cases decoupleCell L w d' none none <;> rfl

/-- **C92**, what an angle common to both fields leaves alone: the sum of the `EE` and `BB` bandpowers and the difference of the `EB` and `BE` bandpowers. -/
theorem C92_invariants (W : Wigner) (L : LinAlg ℝ) (hL : L.Correct) (hS : env.sht.Turns) (minfo : MapInfo) (h1 : EvenCall a1) (h2 : EvenCall a2)
    (hf1 : nmtField env a1 = .ok f1) (hf2 : nmtField env a2 = .ok f2) (n1 : f1.nmaps = 2) (n2 : f2.nmaps = 2) (t : ℝ) (same : Bool) (B : Bins ℝ)
    (wa : WspArgs) (hreg : ∀ w, wspFromFields W env minfo f1 f2 same B wa = .ok w → Regular w.nBinned w.binned) (nIter : ℕ) (r : Arr2 ℝ)
    (hr : fullMaster L env nIter minfo f1 f2 same true (wspFromFields W env minfo f1 f2 same B wa) none none none = .ok (some r)) :
    ∃ g1 g2 r', nmtField env (a1.turn t) = .ok g1 ∧ nmtField env (a2.turn t) = .ok g2 ∧
      fullMaster L env nIter minfo g1 g2 same true (wspFromFields W env minfo g1 g2 same B wa) none none none = .ok (some r') ∧ r.rows = 4 ∧ r'.rows = 4 ∧
      ∀ ib, r'.val 0 ib + r'.val 3 ib = r.val 0 ib + r.val 3 ib ∧ r'.val 1 ib - r'.val 2 ib = r.val 1 ib - r.val 2 ib := by
  obtain ⟨g1, g2, q1, q2, -, q3⟩ := C92_bandpowers W L hL hS minfo h1 h2 hf1 hf2 t t same B wa hreg nIter none none
  rw [hr] at q3
  refine ⟨g1, g2, r.turn f1.nmaps f2.nmaps t t, q1, q2, q3, ?_⟩
  have hrows : r.rows = 4 := by
    unfold fullMaster at hr
    dsimp only at hr
    split_ifs at hr
    obtain ⟨x, hx, hr⟩ := ok_of_bind hr
    obtain ⟨b, -, hr⟩ := ok_of_bind hr
    obtain ⟨w, -, hr⟩ := ok_of_bind hr
    obtain ⟨d, hd, hr⟩ := ok_of_bind hr
    obtain ⟨d', hd', hr⟩ := ok_of_bind hr
    cases d' with
    | none => cases hr
    | some d' =>
      dsimp only at hr
      obtain ⟨y, hy, hr⟩ := ok_of_bind hr
      rw [← Option.some.inj (Outcome.ok.inj hr)]
      have hdr : d'.rows = 4 := by
        obtain ⟨y, rfl, h3⟩ := subO_rows hd'
        obtain ⟨z, rfl, h4⟩ := subO_rows hd
        rw [h3, h4, coupled_rows hx]
        change f1.nmaps * f2.nmaps = 4
        rw [n1, n2]
      by_cases hs : d'.rows = w.ncls ∧ w.lmax + 1 ≤ d'.cols
      · rw [decoupleCell_ok L w d' hs.1 hs.2] at hy
        rw [← Outcome.ok.inj hy, ← hdr, hs.1]
        rfl
      · unfold decoupleCell at hy
        rw [if_pos] at hy
        · cases hy
        · by_cases h1 : d'.rows = w.ncls
          · exact Or.inr (by have := fun h2 => hs ⟨h1, h2⟩; omega)
          · exact Or.inl h1
  refine ⟨hrows, hrows, fun ib => ?_⟩
  have h2' : ∀ k < 4, (r.turn f1.nmaps f2.nmaps t t).val k ib =
      turnBy 2 t (fun i => turnBy 2 t fun j => r.val (i * 2 + j) ib) (k / 2) (k % 2) := by
    intro k hk
    simp only [Arr2.turn]
    rw [if_pos (by rw [hrows]; exact hk), n1, n2]
    simp only [turn_pi]
  rw [h2' 0 (by norm_num), h2' 1 (by norm_num), h2' 2 (by norm_num), h2' 3 (by norm_num)]
  simp [turnBy]
  constructor
  · linear_combination (r.val 0 ib + r.val 3 ib) * Real.sin_sq_add_cos_sq t
  · linear_combination (r.val 1 ib - r.val 2 ib) * Real.sin_sq_add_cos_sq t

end NaMaster
