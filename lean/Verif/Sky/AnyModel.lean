import Verif.Sky.CatalogModel

/-!
# Model of workspaces and of the pipeline for maps and catalogs

Models `NmtWorkspace.compute_coupling_matrix` (pymaster/workspaces.py:203-327), `deprojection_bias` (pymaster/workspaces.py:664-787) and
`compute_full_master` (pymaster/workspaces.py:1038-1071) for two fields each of which is an `NmtField` or an `NmtFieldCatalog`.
-/

namespace NaMaster

open Finset

/-- An `NmtField` (pymaster/field.py:108-347) or an `NmtFieldCatalog` (pymaster/field.py:806-971). -/
inductive AnyField where
  | map (f : FieldObj)
  | cat (f : CatObj)

/-- The attribute `is_catalog` (pymaster/field.py:145,873). -/
def AnyField.isCatalog : AnyField → Bool
  | .map _ => false
  | .cat _ => true

/-- What functions computing spectra read; catalogs have no pixelisation (`minfo = None`, pymaster/field.py:879). -/
noncomputable def AnyField.view (S : Sht) (minfo : MapInfo) : AnyField → FieldView
  | .map f => f.view S minfo
  | .cat f => f.view

/-- The attribute `spin`; spins are not negative. -/
def AnyField.spin : AnyField → ℕ
  | .map f => f.spin.toNat
  | .cat f => f.spin.toNat

/-- The attribute `beam` (pymaster/field.py:187-201,934-947). -/
def AnyField.beamList : AnyField → List ℝ
  | .map f => f.beamList
  | .cat f => f.beamList

/-- The attribute `pure_e` (pymaster/field.py:130,865). -/
def AnyField.pureE : AnyField → Bool
  | .map f => f.pureE
  | .cat _ => false

/-- The attribute `pure_b` (pymaster/field.py:131,866). -/
def AnyField.pureB : AnyField → Bool
  | .map f => f.pureB
  | .cat _ => false

/-- `get_anisotropic_mask_alms` if the mask is anisotropic (pymaster/field.py:412-430,881). -/
def AnyField.anisoAlms (S : Sht) : AnyField → Option Alms
  | .map f => f.maskA.map (f.getAnisoAlms S)
  | .cat _ => none

/-- `norm_type` and `wawb` (pymaster/workspaces.py:288-309). -/
noncomputable def anyNormOf (P : Pix) (f1 f2 : AnyField) (same : Bool) (norm : String) : Outcome (ℤ × ℝ) :=
  if norm = "MASTER" then .ok (0, 0)
  else if norm = "FKP" then
    match f1, f2 with
    | .map f1, .map f2 => .ok (1, P.dot 1 (single f1.mask) (single f2.mask) / (4 * Real.pi))
    | .cat f1, _ => if same then .ok (1, f1.noiseW) else .raises .value
    | .map _, .cat _ => .raises .value
  else .raises .value

/-- The arguments passed to `comp_coupling_matrix` (pymaster/workspaces.py:321-329). -/
noncomputable def anyCouplingArgs (S : Sht) (minfo : MapInfo) (f1 f2 : AnyField) (a : WspArgs) : CouplingArgs :=
  ⟨f1.spin, f2.spin, (f1.view S minfo).geom.lmaxMask, f1.pureE, f1.pureB, f2.pureE, f2.pureB, a.isTeb, a.lT, a.lE, a.dl, a.junk⟩

/-- The branch with anisotropic masks (pymaster/workspaces.py:265-286,311-319). -/
noncomputable def anisoFromAny (W : Wigner) (S : Sht) (minfo : MapInfo) (f1 f2 : AnyField) (same : Bool) (B : Bins ℝ) (nt : ℤ) (w2 : ℝ) :
    Outcome (Wsp ℝ) :=
  let alm1 := (f1.view S minfo).almMask
  let alm2 := if same then alm1 else (f2.view S minfo).almMask
  let zero : ℕ → ℝ := fun _ => 0
  let a1 := f1.anisoAlms S
  let a2 := f2.anisoAlms S
  let p0 : ℕ → ℕ → ℝ := fun k => (a2.map fun a => alm2cl alm1 (a k)).getD zero
  let p1 : ℕ → ℕ → ℝ := fun k => (a1.map fun a => alm2cl (a k) alm2).getD zero
  let p2 : ℕ → ℕ → ℕ → ℝ := fun k j => match a1, a2 with
    | some a, some b => alm2cl (a k) (b j)
    | _, _ => zero
  compAnisoWsp W ⟨f1.spin, f2.spin, a1.isSome, a2.isSome, (f1.view S minfo).geom.lmaxMask⟩ (f1.view S minfo).geom.lmax (alm2cl alm1 alm2)
    (p0 0) (p0 1) (p1 0) (p1 1) (p2 0 0) (p2 0 1) (p2 1 0) (p2 1 1) f1.beamList f2.beamList B nt w2

/-- `compute_coupling_matrix` (pymaster/workspaces.py:203-327); `same`: `fl2 is fl1`. `bins.lmax` and `bins.bin.ell_max` are the same number
(pymaster/bins.py:50-59). -/
noncomputable def wspFromAny (W : Wigner) (env : FieldEnv) (minfo : MapInfo) (f1 f2 : AnyField) (same : Bool) (B : Bins ℝ) (a : WspArgs) :
    Outcome (Wsp ℝ) :=
  let v1 := f1.view env.sht minfo
  let v2 := f2.view env.sht minfo
  let aniso := (f1.anisoAlms env.sht).isSome || (f2.anisoAlms env.sht).isSome
  if isCompatible v1.geom v2.geom false = false then .raises .value
  else if v1.geom.lmax ≠ B.ellMax then .raises .value
  else if aniso ∧ a.lT ≥ 0 then .raises .notImplemented
  else match toeplitzSanity a.lT a.lE a.dl B.ellMax (f1.pureE || f1.pureB || f2.pureE || f2.pureB) with
    | some e => .raises e
    | none => (anyNormOf env.pix f1 f2 same a.norm).bind fun n =>
      if aniso then anisoFromAny W env.sht minfo f1 f2 same B n.1 n.2
      else compCouplingMatrix W (anyCouplingArgs env.sht minfo f1 f2 a) v1.geom.lmax
        ((List.range (v1.geom.lmaxMask + 1)).map (maskSpectrum v1 v2 same)) f1.beamList f2.beamList B n.1 n.2

/-- The attribute `nmaps`; catalogs without values of a field have none (pymaster/field.py:949-962). -/
def AnyField.nmaps : AnyField → Outcome ℕ
  | .map f => .ok f.nmaps
  | .cat f => match f.nmaps with
    | some n => .ok n
    | none => .raises .attribute

/-- The attribute `lite`; catalogs are lightweight fields (pymaster/field.py:860). -/
def AnyField.lite : AnyField → Bool
  | .map f => f.lite
  | .cat _ => true

/-- `deprojection_bias` (pymaster/workspaces.py:664-787): after the checks of lines 683-703, which no catalog passes, both fields are
`NmtField` objects. -/
noncomputable def anyBias (env : FieldEnv) (nIter : ℕ) (minfo : MapInfo) (f1 f2 : AnyField) (guess : Arr2 ℝ) : Outcome (Option (Arr2 ℝ)) :=
  let v1 := f1.view env.sht minfo
  let v2 := f2.view env.sht minfo
  if isCompatible v1.geom v2.geom true = false then .raises .value
  else f1.nmaps.bind fun n1 => f2.nmaps.bind fun n2 =>
    if guess.rows ≠ n1 * n2 ∨ guess.cols ≠ v1.geom.lmax + 1 then .raises .value
    else if f1.lite ∨ f2.lite then .raises .value
    else match f1, f2 with
      | .map f1, .map f2 => deprojectionBias env nIter true f1 f2 guess
      | _, _ => .raises .value

/-- `compute_full_master` (pymaster/workspaces.py:1038-1071). `same`: `f2 is f1`; `nIter`: the default number of iterations; `fromFields`:
`NmtWorkspace.from_fields(f1,f2,b,...)`. -/
noncomputable def anyFullMaster (L : LinAlg ℝ) (env : FieldEnv) (nIter : ℕ) (minfo : MapInfo) (f1 f2 : AnyField) (same : Bool)
    (hasBins : Bool) (fromFields : Outcome (Wsp ℝ)) (workspace : Option (Wsp ℝ)) (clNoise clGuess : Option (Arr2 ℝ)) :
    Outcome (Option (Arr2 ℝ)) :=
  let v1 := f1.view env.sht minfo
  let v2 := f2.view env.sht minfo
  if ¬ hasBins ∧ workspace.isNone then .raises .type
  else if isCompatible v1.geom v2.geom false = false then .raises .value
  else f1.nmaps.bind fun n1 => f2.nmaps.bind fun n2 =>
  if clNoise.any (fun a => a.rows ≠ n1 * n2 ∨ a.cols ≠ v1.geom.lmax + 1) then .raises .value
  else if clGuess.any (fun a => a.rows ≠ n1 * n2 ∨ a.cols ≠ v1.geom.lmax + 1) then .raises .value
  else
    let pcln := clNoise.getD ⟨n1 * n2, v1.geom.lmax + 1, fun _ _ => 0⟩
    let clg := clGuess.getD ⟨n1 * n2, v1.geom.lmax + 1, fun _ _ => 0⟩
    (computeCoupledCell v1 v2 same).bind fun pcld =>
    (anyBias env nIter minfo f1 f2 clg).bind fun pclb =>
    (pickWsp fromFields workspace).bind fun w =>
    (subO pcld pclb).bind fun d => (subO d (some pcln)).bind fun d =>
      match d with
      | none => .ok none
      | some d => (decoupleCell L w d none none).bind fun r => .ok (some r)

/-! The models of the single cases are instances. -/

theorem wspFromAny_maps (W : Wigner) (env : FieldEnv) (minfo : MapInfo) (f1 f2 : FieldObj) (same : Bool) (B : Bins ℝ) (a : WspArgs) :
    wspFromAny W env minfo (.map f1) (.map f2) same B a = wspFromFields W env minfo f1 f2 same B a := by
  have e : anyNormOf env.pix (.map f1) (.map f2) same a.norm = normOf env.pix f1 f2 a.norm := rfl
  unfold wspFromAny wspFromFields
  simp only [AnyField.anisoAlms, Option.isSome_map, e]
  have e2 : ∀ n : ℤ × ℝ, anisoFromAny W env.sht minfo (.map f1) (.map f2) same B n.1 n.2 = anisoFromFields W env.sht f1 f2 same B n.1 n.2 := by
    intro n
    unfold anisoFromAny anisoFromFields
    simp only [AnyField.anisoAlms, Option.isSome_map]
    rfl
  simp only [e2]
  rfl

theorem wspFromAny_catalogs (W : Wigner) (env : FieldEnv) (minfo : MapInfo) (f1 f2 : CatObj) (same : Bool) (B : Bins ℝ) (a : WspArgs) :
    wspFromAny W env minfo (.cat f1) (.cat f2) same B a = wspFromCatalogs W f1 f2 same B a := by
  have e : anyNormOf env.pix (.cat f1) (.cat f2) same a.norm = catNormOf f1 same a.norm := rfl
  unfold wspFromAny wspFromCatalogs
  simp only [AnyField.anisoAlms, Option.isSome_none, Bool.or_self, Bool.false_eq_true, false_and, if_false, e]
  rfl

theorem anyFullMaster_maps (L : LinAlg ℝ) (env : FieldEnv) (nIter : ℕ) (minfo : MapInfo) (f1 f2 : FieldObj) (same hasBins : Bool)
    (ff : Outcome (Wsp ℝ)) (ws : Option (Wsp ℝ)) (cn cg : Option (Arr2 ℝ)) :
    anyFullMaster L env nIter minfo (.map f1) (.map f2) same hasBins ff ws cn cg = fullMaster L env nIter minfo f1 f2 same hasBins ff ws cn cg := by
  have e : ∀ g, anyBias env nIter minfo (.map f1) (.map f2) g =
      deprojectionBias env nIter (isCompatible (f1.view env.sht minfo).geom (f2.view env.sht minfo).geom true) f1 f2 g := by
    intro g
    change (if isCompatible (f1.view env.sht minfo).geom (f2.view env.sht minfo).geom true = false then .raises .value
      else if g.rows ≠ f1.nmaps * f2.nmaps ∨ g.cols ≠ f1.lmax + 1 then .raises .value
      else if f1.lite = true ∨ f2.lite = true then .raises .value else deprojectionBias env nIter true f1 f2 g) = _
    cases isCompatible (f1.view env.sht minfo).geom (f2.view env.sht minfo).geom true
    · rfl
    · rw [if_neg (by simp)]
      by_cases hg : g.rows ≠ f1.nmaps * f2.nmaps ∨ g.cols ≠ f1.lmax + 1
      · rw [if_pos hg]; unfold deprojectionBias; rw [if_neg (by simp), if_pos hg]
      · rw [if_neg hg]
        by_cases hl : f1.lite = true ∨ f2.lite = true
        · rw [if_pos hl]; unfold deprojectionBias; rw [if_neg (by simp), if_neg hg, if_pos hl]
        · rw [if_neg hl]
  unfold anyFullMaster fullMaster
  simp only [e, AnyField.nmaps, Outcome.bind]
  rfl

end NaMaster
