import Verif.Covar.Model
import Verif.Field.Spectra

/-!
# Model of the coefficients of curved-sky covariances

Models `NmtCovarianceWorkspace.compute_coupling_coefficients` (pymaster/covariance.py:164-239); the C function behind it is
`covInit` in `Verif.Covar.Model`.
-/

namespace NaMaster

open Finset

/-- What `compute_coupling_coefficients` reads from a field: geometry, whether the mask is anisotropic, whether a component is
purified, number of iterations for masks, and the mask (`None` for catalog fields, pymaster/field.py:861,1008). -/
structure CovField where
  geom : FieldGeom
  aniso : Bool
  pureAny : Bool
  nIterMask : ℕ
  mask : Option (ℕ → ℝ)

/-- An `NmtField` on the pixelisation `minfo`. -/
def FieldObj.covField (minfo : MapInfo) (f : FieldObj) : CovField :=
  ⟨⟨some minfo, f.lmaxMask, f.lmax⟩, f.maskA.isSome, f.pureE || f.pureB, f.nIterMask, some f.mask⟩

/-- `get_mask` (pymaster/field.py:370-378). -/
def CovField.getMask (f : CovField) : Outcome (ℕ → ℝ) :=
  match f.mask with
  | none => .raises .value
  | some m => .ok m

/-- Product of two masks and its coefficients, computed with the settings of the first field
(pymaster/covariance.py:224-227). -/
def prodAlms (S : Option MapInfo → Sht) (f g : CovField) (m m' : ℕ → ℝ) : ℕ → ℕ → ℂ :=
  maskAlms (S f.geom.minfo) f.geom.lmaxMask f.nIterMask fun p => m p * m' p

/-- `get_mask_prod_cl` (pymaster/covariance.py:223-232). -/
noncomputable def maskProdCl (S : Option MapInfo → Sht) (f1 g1 f2 g2 : CovField) : Outcome (List ℝ) :=
  f1.getMask.bind fun m1 => g1.getMask.bind fun n1 => f2.getMask.bind fun m2 => g2.getMask.bind fun n2 =>
    .ok ((List.range (f1.geom.lmaxMask + 1)).map (alm2cl (prodAlms S f1 g1 m1 n1) (prodAlms S f2 g2 m2 n2)))

/-- `compute_coupling_coefficients` (pymaster/covariance.py:164-239): the coefficients held by the object afterwards and the
outcome. `fb1`, `fb2` are `none` for the default `None`. Old coefficients are freed once the arguments have passed the checks
(lines 219-221). `S` are the transforms for every pixelisation. -/
noncomputable def covCompute (W : Wigner) (S : Option MapInfo → Sht) (junk : ℕ → ℝ) (old : Option (CovWsp ℝ)) (fa1 fa2 : CovField)
    (fb1 fb2 : Option CovField) (lT lE dl : ℤ) (spin0Only : Bool) : Option (CovWsp ℝ) × Outcome Unit :=
  let fb1 := fb1.getD fa1
  let fb2 := fb2.getD fa2
  if fa1.aniso || fa2.aniso || fb1.aniso || fb2.aniso then (old, .raises .notImplemented)
  else if !(isCompatible fa1.geom fa2.geom true && isCompatible fa1.geom fb1.geom true && isCompatible fa1.geom fb2.geom true) then
    (old, .raises .value)
  else match toeplitzSanity lT lE dl fa1.geom.lmax (fa1.pureAny || fb1.pureAny) with
    | some e => (old, .raises e)
    | none =>
      match (maskProdCl S fa1 fb1 fa2 fb2).bind fun p1 => (maskProdCl S fa1 fb2 fa2 fb1).bind fun p2 =>
          covInit W junk p1 p2 fa1.geom.lmax fa1.geom.lmaxMask lT lE dl spin0Only with
      | .ok cw => (some cw, .ok ())
      | .raises e => (none, .raises e)
      | .crash => (none, .crash)

end NaMaster
