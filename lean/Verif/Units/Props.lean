import Verif.Units.Lemmas

/-!
# C91: bandpowers do not depend on the units of the masks
-/

namespace NaMaster

open Finset

variable {env : FieldEnv} {a1 a2 : FieldArgs} {c1 c2 : ℝ} {f1 f2 : FieldObj}

/-- **C91**, fields: multiplying the mask by a positive number multiplies maps, coefficients and templates by that number, divides the inverse of the
matrix of template products by its square, and changes nothing else. Calls that raise an exception still raise it. -/
theorem C91_field (env : FieldEnv) (hE : env.eig.Correct) (hS : env.sht.Homogeneous) {c : ℝ} (hc : 0 < c) (a : FieldArgs) (ha : PlainCall a) :
    nmtField env (a.rescale c) = (nmtField env a).bind fun f => .ok (f.rescale c) := nmtField_smul env hE hS hc a ha

/-- **C91**, pseudo-spectra: they are multiplied by both numbers, and so is the deprojection bias. -/
theorem C91_pseudo (hE : env.eig.Correct) (hS : env.sht.Homogeneous) (minfo : MapInfo) (h1 : PlainCall a1) (h2 : PlainCall a2) (hc1 : 0 < c1)
    (hc2 : 0 < c2) (hf1 : nmtField env a1 = .ok f1) (hf2 : nmtField env a2 = .ok f2) (same : Bool) (nIter : ℕ) (compat : Bool) (guess : Arr2 ℝ) :
    ∃ g1 g2, nmtField env (a1.rescale c1) = .ok g1 ∧ nmtField env (a2.rescale c2) = .ok g2 ∧
      computeCoupledCell (g1.view env.sht minfo) (g2.view env.sht minfo) same =
        (computeCoupledCell (f1.view env.sht minfo) (f2.view env.sht minfo) same).bind (fun b => .ok (b.map (Arr2.scale (c1 * c2)))) ∧
      deprojectionBias env nIter compat g1 g2 guess =
        (deprojectionBias env nIter compat f1 f2 guess).bind fun b => .ok (b.map (Arr2.scale (c1 * c2))) := by
  refine ⟨f1.rescale c1, f2.rescale c2, ?_, ?_, coupled_smul _ _ _ _ _ _ _, bias_smul env hS nIter hc1 hc2 compat f1 f2 guess⟩
  · rw [nmtField_smul env hE hS hc1 a1 h1, hf1]; rfl
  · rw [nmtField_smul env hE hS hc2 a2 h2, hf2]; rfl

/-- **C91**: multiplying the masks of two fields by positive numbers does not change the bandpowers of `compute_full_master`, with templates or without,
purified or not, with any choice of normalisation and Toeplitz approximation. A noise pseudo-spectrum has to be multiplied by both numbers. The binned
coupling matrix can be inverted, if there is one. -/
theorem C91_bandpowers (W : Wigner) (L : LinAlg ℝ) (hL : L.Correct) (hE : env.eig.Correct) (hS : env.sht.Homogeneous) (minfo : MapInfo)
    (h1 : PlainCall a1) (h2 : PlainCall a2) (hc1 : 0 < c1) (hc2 : 0 < c2) (hf1 : nmtField env a1 = .ok f1) (hf2 : nmtField env a2 = .ok f2)
    (same : Bool) (hs : same = true → c1 = c2) (B : Bins ℝ) (wa : WspArgs)
    (hreg : ∀ w, wspFromFields W env minfo f1 f2 same B wa = .ok w → Regular w.nBinned w.binned) (nIter : ℕ) (noise guess : Option (Arr2 ℝ)) :
    ∃ g1 g2, nmtField env (a1.rescale c1) = .ok g1 ∧ nmtField env (a2.rescale c2) = .ok g2 ∧
      fullMaster L env nIter minfo g1 g2 same true (wspFromFields W env minfo g1 g2 same B wa) none (noise.map (Arr2.scale (c1 * c2))) guess =
        fullMaster L env nIter minfo f1 f2 same true (wspFromFields W env minfo f1 f2 same B wa) none noise guess := by
  refine ⟨f1.rescale c1, f2.rescale c2, ?_, ?_, ?_⟩
  · rw [nmtField_smul env hE hS hc1 a1 h1, hf1]; rfl
  · rw [nmtField_smul env hE hS hc2 a2 h2, hf2]; rfl
  rw [wsp_smul W env hS minfo hc1 hc2 f1 f2 (field_iso h1.iso22 h1.iso12 hf1) (field_iso h2.iso22 h2.iso12 hf2) same hs B wa]
  unfold fullMaster
  dsimp only
  rw [coupled_smul, bias_smul env hS nIter hc1 hc2]
  have e : (noise.map (Arr2.scale (c1 * c2))).any (fun a => a.rows ≠ f1.nmaps * f2.nmaps ∨ a.cols ≠ f1.lmax + 1) =
      noise.any (fun a => a.rows ≠ f1.nmaps * f2.nmaps ∨ a.cols ≠ f1.lmax + 1) := by cases noise <;> rfl
  have en : (noise.map (Arr2.scale (c1 * c2))).getD ⟨f1.nmaps * f2.nmaps, f1.lmax + 1, fun _ _ => 0⟩ =
      (noise.getD ⟨f1.nmaps * f2.nmaps, f1.lmax + 1, fun _ _ => 0⟩).scale (c1 * c2) := by
    cases noise with
    | none => simp [Arr2.scale]
    | some x => rfl
  change (if ¬ true = true ∧ (none : Option (Wsp ℝ)).isNone = true then _ else if isCompatible (f1.view env.sht minfo).geom (f2.view env.sht minfo).geom false = false then _
    else if (noise.map (Arr2.scale (c1 * c2))).any (fun a => a.rows ≠ f1.nmaps * f2.nmaps ∨ a.cols ≠ f1.lmax + 1) = true then _
    else if guess.any (fun a => a.rows ≠ f1.nmaps * f2.nmaps ∨ a.cols ≠ f1.lmax + 1) = true then _
    else (Outcome.bind _ _).bind fun pcld => (Outcome.bind _ _).bind fun pclb => (pickWsp (Outcome.bind _ _) none).bind fun w =>
      (subO pcld pclb).bind fun d => (subO d (some ((noise.map (Arr2.scale (c1 * c2))).getD ⟨f1.nmaps * f2.nmaps, f1.lmax + 1, fun _ _ => 0⟩))).bind fun d => _) = _
  rw [e, en]
  by_cases k1 : ¬ true = true ∧ (none : Option (Wsp ℝ)).isNone = true
  · rw [if_pos k1, if_pos k1]
  rw [if_neg k1, if_neg k1]
  by_cases k2 : isCompatible (f1.view env.sht minfo).geom (f2.view env.sht minfo).geom false = false
  · rw [if_pos k2, if_pos k2]
  rw [if_neg k2, if_neg k2]
  by_cases k3 : noise.any (fun a => a.rows ≠ f1.nmaps * f2.nmaps ∨ a.cols ≠ f1.lmax + 1) = true
  · rw [if_pos k3, if_pos k3]
  rw [if_neg k3, if_neg k3]
  by_cases k4 : guess.any (fun a => a.rows ≠ f1.nmaps * f2.nmaps ∨ a.cols ≠ f1.lmax + 1) = true
  · rw [if_pos k4, if_pos k4]
  rw [if_neg k4, if_neg k4]
  cases computeCoupledCell (f1.view env.sht minfo) (f2.view env.sht minfo) same with
  | raises e => rfl
  | crash => rfl
  | ok x =>
    simp only [Outcome.bind]
    change Outcome.bind (Outcome.bind (deprojectionBias env nIter (isCompatible (f1.view env.sht minfo).geom (f2.view env.sht minfo).geom true) f1 f2
      (guess.getD ⟨f1.nmaps * f2.nmaps, f1.lmax + 1, fun _ _ => 0⟩)) _) _ = _
    cases deprojectionBias env nIter (isCompatible (f1.view env.sht minfo).geom (f2.view env.sht minfo).geom true) f1 f2
      (guess.getD ⟨f1.nmaps * f2.nmaps, f1.lmax + 1, fun _ _ => 0⟩) with
    | raises e => rfl
    | crash => rfl
    | ok b =>
      simp only [Outcome.bind, pickWsp]
      cases hw : wspFromFields W env minfo f1 f2 same B wa with
      | raises e => rfl
      | crash => rfl
      | ok w =>
        simp only
        rw [subO_scale]
        cases subO x b with
        | raises e => rfl
        | crash => rfl
        | ok d =>
          have es := subO_scale (c1 * c2) d (some (noise.getD ⟨f1.nmaps * f2.nmaps, f1.lmax + 1, fun _ _ => 0⟩))
          simp only [Option.map_some] at es
          simp only [Outcome.bind]
          rw [es]
          cases subO d (some (noise.getD ⟨f1.nmaps * f2.nmaps, f1.lmax + 1, fun _ _ => 0⟩)) with
          | raises e => rfl
          | crash => rfl
          | ok d =>
            cases d with
            | none => rfl
            | some d =>
              simp only [Outcome.bind, Option.map_some]
              rw [decouple_scale hL w (hreg w hw) (mul_pos hc1 hc2).ne']

/-- **C91**, bandpower windows: they do not change. -/
theorem C91_windows (W : Wigner) (L : LinAlg ℝ) (hL : L.Correct) (hE : env.eig.Correct) (hS : env.sht.Homogeneous) (minfo : MapInfo)
    (h1 : PlainCall a1) (h2 : PlainCall a2) (hc1 : 0 < c1) (hc2 : 0 < c2) (hf1 : nmtField env a1 = .ok f1) (hf2 : nmtField env a2 = .ok f2)
    (same : Bool) (hs : same = true → c1 = c2) (B : Bins ℝ) (wa : WspArgs) (w : Wsp ℝ) (hw : wspFromFields W env minfo f1 f2 same B wa = .ok w)
    (hreg : Regular w.nBinned w.binned) (U : ℕ → ℕ → ℝ) (hU : w.unbinned = some U) :
    ∃ g1 g2 w' U', nmtField env (a1.rescale c1) = .ok g1 ∧ nmtField env (a2.rescale c2) = .ok g2 ∧
      wspFromFields W env minfo g1 g2 same B wa = .ok w' ∧ w'.unbinned = some U' ∧ w'.ncls = w.ncls ∧ w'.lmax = w.lmax ∧ w'.bin = w.bin ∧
      ∀ icl1 ib1 icl2 l2, icl1 < w.ncls → ib1 < w.bin.nBands → icl2 < w.ncls → l2 < w.lmax + 1 →
        bandpowerWindows L w' U' icl1 ib1 icl2 l2 = bandpowerWindows L w U icl1 ib1 icl2 l2 := by
  have hk : c1 * c2 ≠ 0 := (mul_pos hc1 hc2).ne'
  refine ⟨f1.rescale c1, f2.rescale c2, w.rescale (c1 * c2), fun i j => c1 * c2 * U i j, ?_, ?_, ?_, ?_, rfl, rfl, rfl, ?_⟩
  · rw [nmtField_smul env hE hS hc1 a1 h1, hf1]; rfl
  · rw [nmtField_smul env hE hS hc2 a2 h2, hf2]; rfl
  · rw [wsp_smul W env hS minfo hc1 hc2 f1 f2 (field_iso h1.iso22 h1.iso12 hf1) (field_iso h2.iso22 h2.iso12 hf2) same hs B wa, hw]; rfl
  · simp [Wsp.rescale, hU]
  · intro i b j l hi hb hj hl
    rw [bandpowerWindows_apply L w U hi hb hj hl]
    refine (bandpowerWindows_apply L (w.rescale (c1 * c2)) _ hi hb hj hl).trans ?_
    change ∑ k ∈ range (w.ncls * w.bin.nBands), L.invert (w.ncls * w.bin.nBands) (fun i j => c1 * c2 * w.binned i j) (w.ncls * b + i) k *
      coupledBin w.ncls w.lmax w.bin (fun i j => c1 * c2 * U i j) w.beamProd (k, w.ncls * l + j) = _
    refine sum_congr rfl fun k hk' => ?_
    rw [mem_range] at hk'
    have hreg' : Regular (w.ncls * w.bin.nBands) w.binned := hreg
    rw [invert_scale hL hreg' hk (flat_lt hi hb) hk']
    have hpos : 0 < w.ncls := lt_of_le_of_lt (Nat.zero_le _) hi
    have e1 : k % w.ncls < w.ncls := Nat.mod_lt _ hpos
    have e2 : k / w.ncls < w.bin.nBands := Nat.div_lt_of_lt_mul hk'
    have e3 : coupledBin w.ncls w.lmax w.bin (fun i j => c1 * c2 * U i j) w.beamProd (k, w.ncls * l + j) =
        c1 * c2 * coupledBin w.ncls w.lmax w.bin U w.beamProd (k, w.ncls * l + j) := by
      rw [← Nat.div_add_mod k w.ncls, coupledBin_apply _ _ _ _ _ e1 e2 hj hl, coupledBin_apply _ _ _ _ _ e1 e2 hj hl, ← List.sum_map_mul_left]
      congr 1
      refine List.map_congr_left fun e _ => ?_
      ring
    rw [e3]
    field_simp

end NaMaster
