import Verif.Flat.FieldModel
import Verif.Flat.Pipeline

/-!
# Model of the deprojection bias of flat-sky fields

Models `nmt_compute_deprojection_bias_flat` and `purify_generic_flat` (src/nmt_master_flat.c:4-16,540-700), `fs_zero_alm`
and `fs_alter_alm` (src/flatsky_utils.c:302-354) and `deprojection_bias_flat` (pymaster/workspaces.py:857-902,
pymaster/namaster.i:541-564), for fields made by the constructor of `NmtFieldFlat`.
-/

namespace NaMaster

open Real Finset

/-- A field as far as the spectra depend on it. Without finite coefficients the spectra are not finite, which is not
modelled in `FlatFieldData`. -/
noncomputable def FlatFieldObj.data (f : FlatFieldObj) : FlatFieldData :=
  { f.base with maskOnly := f.maskOnly, lite := f.lite, ntemp := f.ntemp, alms := (f.alms.bind id).getD fun _ _ => 0 }

/-- `purify_generic_flat` (src/nmt_master_flat.c:4-16): the coefficients of maps after masking or purification. The maps are
overwritten; they are not used afterwards. -/
noncomputable def purifyGenericFlat (env : FlatEnv) (f : FlatFieldObj) (maps : FlatMaps) : FlatAlms :=
  if f.base.pureB ≠ 0 ∨ f.base.pureE ≠ 0 then
    purifyFlatAlms (env.c2r f.base.fs) f.base.fs (f.base.pureE == 1) (f.base.pureB == 1) f.base.mask (f.aMask.getD fun _ => 0) maps
  else fsMap2alm f.base.fs f.base.spin fun c p => maps c p * f.base.mask p

/-- A proposal spectrum as a function of the wave number (src/nmt_master_flat.c:558): interpolated, its first value below the
first multipole, zero from the last one. -/
noncomputable def propFun (ells : List ℝ) (row : ℕ → ℝ) (k : ℝ) : ℝ :=
  match kFunction ((List.range ells.length).map fun i => (ells.getD i 0, row i)) (row 0) 0 k with
  | .ok v => v
  | _ => 0

/-- The coefficients of `n` maps mixed by the proposal spectra `g c d` (src/nmt_master_flat.c:597-601,632-636,663-667): map
`d` of the result is the sum over the maps `c`, with `fs_zero_alm` and `fs_alter_alm` (src/flatsky_utils.c:302-354). -/
noncomputable def mixFlat (fs : FlatInfo) (n : ℕ) (g : ℕ → ℕ → ℝ → ℝ) (a : FlatAlms) : FlatAlms := fun d k =>
  ∑ c ∈ range n, a c k * ((g c d (fs.kmod k.1 k.2) : ℝ) : ℂ)

/-- The map with the mixed coefficients of a masked template of the field `f`, for maps like those of the field `h`
(src/nmt_master_flat.c:591-603,626-638,657-669). -/
noncomputable def biasMapFlat (env : FlatEnv) (f h : FlatFieldObj) (g : ℕ → ℕ → ℝ → ℝ) (t : FlatMaps) : FlatMaps :=
  fsAlm2map (env.c2r h.base.fs) h.base.fs h.base.spin
    (mixFlat f.base.fs f.nmaps g (fsMap2alm f.base.fs f.base.spin fun c p => t c p * f.base.mask p))

/-- `fs_alm2cl` (src/flatsky_utils.c:356-432) for one pair of coefficient arrays, when the bands of the modes are `rows`. -/
noncomputable def clBand (fs : FlatInfo) (rows : List (List ℤ)) (a1 a2 : ℕ × ℕ → ℂ) (ib : ℕ) : ℝ :=
  if nCells fs rows ib ≤ 0 then 0
  else (∑ k ∈ fs.modes with tableAt rows k = ib, halfProd fs.nx a1 a2 k) * (4 * π * π / (fs.lx * fs.ly) / nCells fs rows ib)

/-- The element of the array `cl_bias` for components `c`, `d` and band `ib` (src/nmt_master_flat.c:584-692). `M1` and `M2` are
the matrices of the templates of the two fields, `g c d` the proposal spectra. -/
noncomputable def biasFlatSums (env : FlatEnv) (f1 f2 : FlatFieldObj) (rows : List (List ℤ)) (g : ℕ → ℕ → ℝ → ℝ)
    (M1 M2 : ℕ → ℕ → ℝ) (c d ib : ℕ) : ℝ :=
  let fs := f1.base.fs
  let t1 := f1.temp.getD fun _ _ _ => 0
  let t2 := f2.temp.getD fun _ _ _ => 0
  let at1 := f1.aTemp.getD fun _ _ _ => 0
  let at2 := f2.aTemp.getD fun _ _ _ => 0
  let m1 := fun j => biasMapFlat env f1 f2 g (t1 j)
  let m2 := fun j => biasMapFlat env f2 f1 (fun d c => g c d) (t2 j)
  let matProd := fun j q => fs.dot f1.nmaps (fun c p => m2 q c p * f1.base.mask p) (t1 j)
  0 - (∑ i ∈ range f2.ntemp, ∑ j ∈ range f2.ntemp, clBand fs rows (purifyGenericFlat env f1 (m2 j) c) (at2 i d) ib * M2 i j)
    - (∑ i ∈ range f1.ntemp, ∑ j ∈ range f1.ntemp, clBand fs rows (at1 i c) (purifyGenericFlat env f2 (m1 j) d) ib * M1 i j)
    + ∑ i ∈ range f1.ntemp, ∑ p ∈ range f2.ntemp, ∑ j ∈ range f1.ntemp, ∑ q ∈ range f2.ntemp,
        clBand fs rows (at1 i c) (at2 p d) ib * matProd j q * M1 i j * M2 p q

open Classical in
/-- `nmt_compute_deprojection_bias_flat` (src/nmt_master_flat.c:540-700), into an array with `rows` rows filled with zeros. The
result is `none` if it is not finite because a matrix of templates is not. Without templates no spectrum is computed. -/
noncomputable def deprojBiasFlatObjC (env : FlatEnv) (f1 f2 : FlatFieldObj) (b : FlatBins ℝ) (c : EllCuts) (ells : List ℝ)
    (guess : ℕ → ℕ → ℝ) (rows : ℕ) : Outcome (Option (Arr2 ℝ)) :=
  if f1.lite ∨ f2.lite then .raises .runtime
  else if ¬ (2 ≤ ells.length ∧ ells.Pairwise (· < ·)) then .crash
  else if rows < f1.nmaps * f2.nmaps then .crash
  else if f1.base.fs ≠ f2.base.fs then .raises .runtime
  else if f1.ntemp = 0 ∧ f2.ntemp = 0 then .ok (some (Arr2.of rows b.nBands fun _ _ => 0))
  else (Outcome.all ((List.range f1.base.fs.ny).map fun iy => alm2clBands f1.base.fs b c iy)).bind fun tbl =>
    match f1.matrixM.getD (some fun _ _ => 0), f2.matrixM.getD (some fun _ _ => 0) with
    | some M1, some M2 => .ok (some (Arr2.of rows b.nBands fun i ib =>
        if i < f1.nmaps * f2.nmaps then
          biasFlatSums env f1 f2 tbl (fun c d => propFun ells (guess (c * f2.nmaps + d))) M1 M2 (i / f2.nmaps) (i % f2.nmaps) ib
        else 0))
    | _, _ => .ok none

/-- `deprojection_bias_flat` (pymaster/workspaces.py:857-902, pymaster/namaster.i:541-564). -/
noncomputable def deprojBiasFlatObj (env : FlatEnv) (f1 f2 : FlatFieldObj) (b : FlatBins ℝ) (c : EllCuts) (ells : List ℝ)
    (guess : Arr2 ℝ) : Outcome (Option (Arr2 ℝ)) :=
  if guess.rows ≠ f1.nmaps * f2.nmaps then .raises .value
  else if guess.cols ≠ ells.length then .raises .value
  else deprojBiasFlatObjC env f1 f2 b c ells guess.val (f1.nmaps * f2.nmaps)

end NaMaster
