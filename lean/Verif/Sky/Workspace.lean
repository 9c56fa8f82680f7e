import Verif.Coupling.Model
import Verif.Field.Spectra

/-!
# Model of the workspace made from two fields

Models `NmtWorkspace.compute_coupling_matrix`, called by `NmtWorkspace.from_fields` (pymaster/workspaces.py:203-327), for two
`NmtField` objects.
-/

namespace NaMaster

open Finset

/-- The array `fl.beam` (pymaster/field.py:187-201). -/
def FieldObj.beamList (f : FieldObj) : List ℝ := (List.range f.beam.1).map f.beam.2

/-- `get_anisotropic_mask_alms` (pymaster/field.py:412-430). -/
def FieldObj.getAnisoAlms (S : Sht) (f : FieldObj) (ma : ℕ → ℕ → ℝ) : Alms := S.map2alm (2 * f.spin) f.lmaxMask f.nIterMask ma

/-- `comp_coupling_matrix_anisotropic` (namaster.i:434-467, src/nmt_master.c:421-651): the workspace, for spectra given by name. The lengths
of the beams are checked; all spectra have the same length. As for isotropic masks, a mask band limit below that of the bandpowers makes the
buffers too small. -/
noncomputable def compAnisoWsp (W : Wigner) (a : AnisoArgs) (lmaxFields : ℕ) (fl00 fl0e fl0b fle0 flb0 flee fleb flbe flbb : ℕ → ℝ)
    (beam1 beam2 : List ℝ) (B : Bins ℝ) (normType : ℤ) (w2 : ℝ) : Outcome (Wsp ℝ) :=
  if beam1.length ≠ lmaxFields + 1 ∨ beam2.length ≠ lmaxFields + 1 then .raises .runtime
  else if B.ellMax > lmaxFields then .raises .runtime
  else if a.lmaxMask < B.ellMax ∧ max a.spin1 a.spin2 ≤ B.ellMax then .crash
  else .ok (buildWsp a.ncls lmaxFields a.lmaxMask false normType w2 (fun l => beam1.getD l 0) (fun l => beam2.getD l 0)
    (scalePcl fl00) (compAnisoMatrix W a B.ellMax fl00 fl0e fl0b fle0 flb0 flee fleb flbe flbb) B)

/-- `norm_type` and `wawb` (pymaster/workspaces.py:288-309). -/
noncomputable def normOf (P : Pix) (f1 f2 : FieldObj) (norm : String) : Outcome (ℤ × ℝ) :=
  if norm = "MASTER" then .ok (0, 0)
  else if norm = "FKP" then .ok (1, P.dot 1 (single f1.mask) (single f2.mask) / (4 * Real.pi))
  else .raises .value

/-- The remaining arguments of `compute_coupling_matrix`. -/
structure WspArgs where
  isTeb : Bool
  lT : ℤ
  lE : ℤ
  dl : ℤ
  norm : String
  /-- contents of memory behind the table of factorials -/
  junk : ℕ → ℝ

/-- The arguments passed to `comp_coupling_matrix` (pymaster/workspaces.py:321-329). Spins are not negative. -/
def couplingArgsOf (f1 f2 : FieldObj) (a : WspArgs) : CouplingArgs :=
  ⟨f1.spin.toNat, f2.spin.toNat, f1.lmaxMask, f1.pureE, f1.pureB, f2.pureE, f2.pureB, a.isTeb, a.lT, a.lE, a.dl, a.junk⟩

/-- The mask spectra of the branch with anisotropic masks and the call (pymaster/workspaces.py:265-286,311-319). `is_teb` is ignored. -/
noncomputable def anisoFromFields (W : Wigner) (S : Sht) (f1 f2 : FieldObj) (same : Bool) (B : Bins ℝ) (nt : ℤ) (w2 : ℝ) : Outcome (Wsp ℝ) :=
  let alm1 := f1.getMaskAlms S
  let alm2 := if same then alm1 else f2.getMaskAlms S
  let zero : ℕ → ℝ := fun _ => 0
  let a1 := f1.maskA.map (f1.getAnisoAlms S)
  let a2 := f2.maskA.map (f2.getAnisoAlms S)
  let p0 : ℕ → ℕ → ℝ := fun k => (a2.map fun a => alm2cl alm1 (a k)).getD zero
  let p1 : ℕ → ℕ → ℝ := fun k => (a1.map fun a => alm2cl (a k) alm2).getD zero
  let p2 : ℕ → ℕ → ℕ → ℝ := fun k j => match a1, a2 with
    | some a, some b => alm2cl (a k) (b j)
    | _, _ => zero
  compAnisoWsp W ⟨f1.spin.toNat, f2.spin.toNat, f1.maskA.isSome, f2.maskA.isSome, f1.lmaxMask⟩ f1.lmax (alm2cl alm1 alm2)
    (p0 0) (p0 1) (p1 0) (p1 1) (p2 0 0) (p2 0 1) (p2 1 0) (p2 1 1) f1.beamList f2.beamList B nt w2

/-- `compute_coupling_matrix` (pymaster/workspaces.py:203-327) for two `NmtField` objects; `same`: `fl2 is fl1`. The noise level of the mask
is zero for these fields. `bins.lmax` and `bins.bin.ell_max` are the same number (pymaster/bins.py:50-59). -/
noncomputable def wspFromFields (W : Wigner) (env : FieldEnv) (minfo : MapInfo) (f1 f2 : FieldObj) (same : Bool) (B : Bins ℝ) (a : WspArgs) :
    Outcome (Wsp ℝ) :=
  let v1 := f1.view env.sht minfo
  let v2 := f2.view env.sht minfo
  let aniso := f1.maskA.isSome || f2.maskA.isSome
  if isCompatible v1.geom v2.geom false = false then .raises .value
  else if f1.lmax ≠ B.ellMax then .raises .value
  else if aniso ∧ a.lT ≥ 0 then .raises .notImplemented
  else match toeplitzSanity a.lT a.lE a.dl B.ellMax (f1.pureE || f1.pureB || f2.pureE || f2.pureB) with
    | some e => .raises e
    | none => (normOf env.pix f1 f2 a.norm).bind fun n =>
      if aniso then anisoFromFields W env.sht f1 f2 same B n.1 n.2
      else compCouplingMatrix W (couplingArgsOf f1 f2 a) f1.lmax ((List.range (f1.lmaxMask + 1)).map (maskSpectrum v1 v2 same))
        f1.beamList f2.beamList B n.1 n.2

end NaMaster
