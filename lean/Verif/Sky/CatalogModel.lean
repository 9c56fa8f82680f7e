import Verif.Sky.Workspace

/-!
# Model of the workspace made from two catalogs

Models `NmtWorkspace.compute_coupling_matrix` (pymaster/workspaces.py:203-327) for two `NmtFieldCatalog` objects. Their masks are isotropic
and nothing is purified (pymaster/field.py:866-886).
-/

namespace NaMaster

open Finset

/-- The array `fl.beam` (pymaster/field.py:934-947). -/
def CatObj.beamList (f : CatObj) : List ℝ := (List.range f.beam.1).map f.beam.2

/-- `norm_type` and `wawb` for catalogs (pymaster/workspaces.py:288-305). -/
noncomputable def catNormOf (f1 : CatObj) (same : Bool) (norm : String) : Outcome (ℤ × ℝ) :=
  if norm = "MASTER" then .ok (0, 0)
  else if norm = "FKP" then (if same then .ok (1, f1.noiseW) else .raises .value)
  else .raises .value

/-- The arguments passed to `comp_coupling_matrix` (pymaster/workspaces.py:321-329). Spins are not negative. -/
def catCouplingArgs (f1 f2 : CatObj) (a : WspArgs) : CouplingArgs :=
  ⟨f1.spin.toNat, f2.spin.toNat, f1.lmaxMask, false, false, false, false, a.isTeb, a.lT, a.lE, a.dl, a.junk⟩

/-- `compute_coupling_matrix` (pymaster/workspaces.py:203-327) for two catalogs; `same`: `fl2 is fl1`. -/
noncomputable def wspFromCatalogs (W : Wigner) (f1 f2 : CatObj) (same : Bool) (B : Bins ℝ) (a : WspArgs) : Outcome (Wsp ℝ) :=
  if isCompatible f1.view.geom f2.view.geom false = false then .raises .value
  else if f1.lmax ≠ B.ellMax then .raises .value
  else match toeplitzSanity a.lT a.lE a.dl B.ellMax false with
    | some e => .raises e
    | none => (catNormOf f1 same a.norm).bind fun n =>
      compCouplingMatrix W (catCouplingArgs f1 f2 a) f1.lmax ((List.range (f1.lmaxMask + 1)).map (maskSpectrum f1.view f2.view same))
        f1.beamList f2.beamList B n.1 n.2

end NaMaster
