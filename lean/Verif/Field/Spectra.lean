import Verif.Field.Model
import Verif.Master.Model

/-!
# Model of power spectra of curved-sky fields and of catalog fields

Models `compute_coupled_cell`, `deprojection_bias` and `compute_full_master` as functions of field objects
(pymaster/workspaces.py:664-787,905-939,988-1071), the mask spectrum of `NmtWorkspace.compute_coupling_matrix`
(pymaster/workspaces.py:256-264,328), and the constructors of `NmtFieldCatalog` and `NmtFieldCatalogClustering`
(pymaster/field.py:806-1093).
-/

namespace NaMaster

open Finset

/-- `healpy.alm2cl` for one multipole, coefficients stored for `m ≥ 0`. -/
noncomputable def alm2cl (a b : ℕ → ℕ → ℂ) (l : ℕ) : ℝ :=
  (∑ m ∈ range (l + 1), (if m = 0 then 1 else 2) * (a l m * (starRingEnd ℂ) (b l m)).re) / (2 * l + 1)

/-- What the functions computing spectra read from a field object: geometry, coefficients (`none` for mask-only fields, `some none`
if they are not finite), number of components of the coefficients, noise levels and coefficients of the mask. -/
structure FieldView where
  geom : FieldGeom
  alm : Option (Option Alms)
  ncomp : ℕ
  noiseF : ℝ
  noiseW : ℝ
  almMask : ℕ → ℕ → ℂ

/-- An `NmtField` on the pixelisation `minfo`; its noise levels are zero (pymaster/field.py:142-143). -/
noncomputable def FieldObj.view (S : Sht) (minfo : MapInfo) (f : FieldObj) : FieldView :=
  ⟨⟨some minfo, f.lmaxMask, f.lmax⟩, f.alm, f.nmaps, 0, 0, f.getMaskAlms S⟩

/-- `compute_coupled_cell` (pymaster/workspaces.py:905-939). `same` says whether `f2 is f1`. Spectra of coefficients that are not
finite are not finite (`none`). -/
noncomputable def computeCoupledCell (f1 f2 : FieldView) (same : Bool) : Outcome (Option (Arr2 ℝ)) :=
  if isCompatible f1.geom f2.geom false = false then .raises .value
  else (getOr f1.alm).bind fun a1 => (getOr f2.alm).bind fun a2 =>
    let lmax := min f1.geom.lmax f2.geom.lmax
    let nf := if same then f1.noiseF else 0
    .ok (match a1, a2 with
      | some a1, some a2 => some (Arr2.of (f1.ncomp * f2.ncomp) (lmax + 1) fun k l =>
          alm2cl (a1 (k / f2.ncomp)) (a2 (k % f2.ncomp)) l - if k / f2.ncomp = k % f2.ncomp then nf else 0)
      | _, _ => none)

/-- The mask spectrum passed to the C library (pymaster/workspaces.py:256-264,328). -/
noncomputable def maskSpectrum (f1 f2 : FieldView) (same : Bool) (l : ℕ) : ℝ :=
  alm2cl f1.almMask (if same then f1.almMask else f2.almMask) l - if same then f1.noiseW else 0

/-! ## Deprojection bias -/

/-- `purify_if_needed` (pymaster/workspaces.py:686-695). -/
noncomputable def purifyIfNeeded (S : Sht) (nIter : ℕ) (f : FieldObj) (mp : MapStack) : Outcome Alms :=
  if f.pureE || f.pureB then
    (purify S f.lmax f.lmaxMask nIter f.mask (f.getMaskAlms S) f.pureE f.pureB mp).bind fun r => .ok r.1
  else .ok (S.map2alm f.spin f.lmax nIter fun c p => mp c p * f.mask p)

/-- `purify_if_needed` for `n` maps. -/
noncomputable def purifyIfNeededAll (S : Sht) (nIter : ℕ) (f : FieldObj) (mp : ℕ → MapStack) : ℕ → Outcome (ℕ → Alms)
  | 0 => .ok fun _ _ _ _ => 0
  | n + 1 => (purifyIfNeededAll S nIter f mp n).bind fun g => (purifyIfNeeded S nIter f (mp n)).bind fun r =>
      .ok (Function.update g n r)

/-- Coefficients multiplied by the proposal spectra: component `n` is the sum over the components `m < k` of coefficients times
`cl m n` (pymaster/workspaces.py:719-723,751-755). -/
noncomputable def mixCl (k n' : ℕ) (cl : ℕ → ℕ → ℕ → ℝ) (a : Alms) : Alms := fun n l m =>
  if n < n' then ∑ i ∈ range k, almxfl (a i) (cl i n) l m else 0

/-- The maps `SHT^-1[C SHT[v f_j]]` (pymaster/workspaces.py:714-726,746-758): from the templates of `f` to maps of `g`. -/
noncomputable def biasMap (S : Sht) (nIter : ℕ) (f g : FieldObj) (cl : ℕ → ℕ → ℕ → ℝ) (t : MapStack) : MapStack :=
  S.alm2map g.spin g.lmax (mixCl f.nmaps g.nmaps cl (S.map2alm f.spin f.lmax nIter fun c p => t c p * f.mask p))

/-- The sums of `deprojection_bias` (pymaster/workspaces.py:707-787) for finite pseudo-inverses `iM1`, `iM2`, for components `a`, `b`
and multipole `l`. `almF j` and `almG j` are the coefficients of the maps of line 728 and 766. -/
noncomputable def biasSums (env : FieldEnv) (nIter : ℕ) (f1 f2 : FieldObj) (cl : ℕ → ℕ → ℕ → ℝ) (t1 t2 : ℕ → MapStack) (at1 at2 : ℕ → Alms)
    (iM1 iM2 : ℕ → ℕ → ℝ) (almF almG : ℕ → Alms) (a b l : ℕ) : ℝ :=
  let prodFG : ℕ → ℕ → ℝ := fun j r => env.pix.dot f1.nmaps (t1 j) fun c p =>
    biasMap env.sht nIter f2 f1 (fun n m => cl m n) (t2 r) c p * f1.mask p
  0 - (∑ i ∈ range f1.nTemp, ∑ j ∈ range f1.nTemp, iM1 i j * alm2cl (at1 i a) (almF j b) l)
    - (∑ i ∈ range f2.nTemp, ∑ j ∈ range f2.nTemp, iM2 i j * alm2cl (almG j a) (at2 i b) l)
    + ∑ i ∈ range f1.nTemp, ∑ j ∈ range f1.nTemp, ∑ r ∈ range f2.nTemp, ∑ s ∈ range f2.nTemp,
        iM1 i j * iM2 r s * prodFG j r * alm2cl (at1 i a) (at2 s b) l

/-- `deprojection_bias` (pymaster/workspaces.py:664-787) of two fields on the same pixels; `compat` is the outcome of the comparison
of their pixelisations. The sums over no templates are empty, as the branches of lines 710, 737, 741, 760 and 778 leave them out. A
pseudo-inverse that is not finite gives a bias that is not finite (`none`); a field with templates that is not lightweight has
templates, their coefficients and a pseudo-inverse. -/
noncomputable def deprojectionBias (env : FieldEnv) (nIter : ℕ) (compat : Bool) (f1 f2 : FieldObj) (guess : Arr2 ℝ) :
    Outcome (Option (Arr2 ℝ)) :=
  if compat = false then .raises .value
  else if guess.rows ≠ f1.nmaps * f2.nmaps ∨ guess.cols ≠ f1.lmax + 1 then .raises .value
  else if f1.lite ∨ f2.lite then .raises .value
  else
    let cl : ℕ → ℕ → ℕ → ℝ := fun m n l => guess.val (m * f2.nmaps + n) l
    let t1 := f1.temp.getD fun _ _ _ => 0
    let t2 := f2.temp.getD fun _ _ _ => 0
    (purifyIfNeededAll env.sht nIter f2 (fun j => biasMap env.sht nIter f1 f2 cl (t1 j)) f1.nTemp).bind fun almF =>
    (purifyIfNeededAll env.sht nIter f1 (fun j => biasMap env.sht nIter f2 f1 (fun n m => cl m n) (t2 j)) f2.nTemp).bind fun almG =>
    .ok (match f1.iM.getD (some fun _ _ => 0), f2.iM.getD (some fun _ _ => 0) with
      | some iM1, some iM2 => some (Arr2.of (f1.nmaps * f2.nmaps) (f1.lmax + 1) fun k l =>
          biasSums env nIter f1 f2 cl t1 t2 (f1.almTemp.getD fun _ _ _ _ => 0) (f2.almTemp.getD fun _ _ _ _ => 0) iM1 iM2 almF almG
            (k / f2.nmaps) (k % f2.nmaps) l)
      | _, _ => none)

/-- Difference of two arrays that may not be finite. -/
noncomputable def subO (a b : Option (Arr2 ℝ)) : Outcome (Option (Arr2 ℝ)) :=
  match a, b with
  | some a, some b => (a.sub b).bind fun d => .ok (some d)
  | _, _ => .ok none

/-- `compute_full_master` (pymaster/workspaces.py:1038-1071) for two `NmtField` objects. `same`: `f2 is f1`; `nIter`: the default number of
iterations; `fromFields`: `NmtWorkspace.from_fields(f1,f2,b,...)`. -/
noncomputable def fullMaster (L : LinAlg ℝ) (env : FieldEnv) (nIter : ℕ) (minfo : MapInfo) (f1 f2 : FieldObj) (same : Bool)
    (hasBins : Bool) (fromFields : Outcome (Wsp ℝ)) (workspace : Option (Wsp ℝ)) (clNoise clGuess : Option (Arr2 ℝ)) :
    Outcome (Option (Arr2 ℝ)) :=
  let v1 := f1.view env.sht minfo
  let v2 := f2.view env.sht minfo
  let nmaps := f1.nmaps * f2.nmaps
  if ¬ hasBins ∧ workspace.isNone then .raises .type
  else if isCompatible v1.geom v2.geom false = false then .raises .value
  else if clNoise.any (fun a => a.rows ≠ nmaps ∨ a.cols ≠ f1.lmax + 1) then .raises .value
  else if clGuess.any (fun a => a.rows ≠ nmaps ∨ a.cols ≠ f1.lmax + 1) then .raises .value
  else
    let pcln := clNoise.getD ⟨nmaps, f1.lmax + 1, fun _ _ => 0⟩
    let clg := clGuess.getD ⟨nmaps, f1.lmax + 1, fun _ _ => 0⟩
    (computeCoupledCell v1 v2 same).bind fun pcld =>
    (deprojectionBias env nIter (isCompatible v1.geom v2.geom true) f1 f2 clg).bind fun pclb =>
    (pickWsp fromFields workspace).bind fun w =>
    (subO pcld pclb).bind fun d => (subO d (some pcln)).bind fun d =>
      match d with
      | none => .ok none
      | some d => (decoupleCell L w d none none).bind fun r => .ok (some r)

/-! ## Catalog fields -/

/-- The harmonics used by `_catalog2alm_ducc0` (pymaster/utils.py:852-857): a source at `x` with value `q` of a scalar contributes
`q * a 0 l m x`; a source with values `(q, u)` of a field with spin `s` contributes `q * a + u * b` to the first and `u * a - q * b` to the
second component. -/
structure Harm (X : Type*) where
  a : ℤ → ℕ → ℕ → X → ℂ
  b : ℤ → ℕ → ℕ → X → ℂ

/-- Coefficients of one source. -/
noncomputable def Harm.source {X : Type*} (H : Harm X) (spin : ℤ) (x : X) (q u : ℝ) : Alms := fun c l m =>
  if spin = 0 then (if c = 0 then (q : ℂ) * H.a 0 l m x else 0)
  else if c = 0 then (q : ℂ) * H.a spin l m x + (u : ℂ) * H.b spin l m x
  else if c = 1 then (u : ℂ) * H.a spin l m x - (q : ℂ) * H.b spin l m x else 0

/-- `_catalog2alm_ducc0` (pymaster/utils.py:852-857): the sum over the sources. -/
noncomputable def catalog2alm {X : Type*} (H : Harm X) (spin : ℤ) (n : ℕ) (pos : ℕ → X) (val : MapStack) : Alms := fun c l m =>
  ∑ i ∈ range n, H.source spin (pos i) (val 0 i) (val 1 i) c l m

/-- Arguments of `NmtFieldCatalog`. `positions` has shape `(rows, cols)`; the angles are given as colatitude and longitude in
radians (the conversion from degrees is left out). -/
structure CatArgs where
  rows : ℕ
  cols : ℕ
  pos : ℕ → ℕ → ℝ
  nsrc : ℕ
  weights : ℕ → ℝ
  field : Option StackArg
  spin : Option ℤ
  lmax : ℕ
  lmaxMask : Option ℕ
  beam : Option (ℕ × (ℕ → ℝ))
  weighted : Bool

/-- A catalog field; `nmaps` is not set for catalogs without field values. -/
structure CatObj where
  lmax : ℕ
  lmaxMask : ℕ
  beam : ℕ × (ℕ → ℝ)
  spin : ℤ
  nmaps : Option ℕ
  alm : Option Alms
  almMask : ℕ → ℕ → ℂ
  noiseW : ℝ
  noiseF : ℝ

/-- The checks of positions (pymaster/field.py:887-919,1034-1067). -/
noncomputable def positionsOk (rows cols n : ℕ) (pos : ℕ → ℕ → ℝ) : Prop :=
  rows = 2 ∧ cols = n ∧ (∀ i < n, 0 ≤ pos 0 i ∧ pos 0 i ≤ Real.pi) ∧ (∀ i < n, 0 ≤ pos 1 i ∧ pos 1 i ≤ 2 * Real.pi)

open Classical in
/-- The constructor of `NmtFieldCatalog` (pymaster/field.py:855-971). -/
noncomputable def nmtFieldCatalog (H : Harm (ℝ × ℝ)) (a : CatArgs) : Outcome CatObj :=
  if ¬ positionsOk a.rows a.cols a.nsrc a.pos then .raises .value
  else
    let x : ℕ → ℝ × ℝ := fun i => (a.pos 0 i, a.pos 1 i)
    let noiseW := (∑ i ∈ range a.nsrc, a.weights i ^ 2) / (4 * Real.pi)
    let almMask := catalog2alm H 0 a.nsrc x (single a.weights) 0
    if a.beam.any (fun b => b.1 ≤ a.lmax) then .raises .value
    else
      let o : ℤ → CatObj := fun s => ⟨a.lmax, a.lmaxMask.getD a.lmax, a.beam.getD (a.lmax + 1, fun _ => 1), s, none, none, almMask, noiseW, 0⟩
      match a.field with
      | none => match a.spin with
        | none => .raises .value
        | some s => .ok (o s)
      | some f =>
        let spin := a.spin.getD (if f.ncomp = 1 then 0 else 2)
        let nmaps := if spin = 0 then 1 else 2
        if f.ncomp ≠ nmaps ∨ f.npix ≠ a.nsrc then .raises .value
        else
          let val : MapStack := fun c i => if a.weighted then f.val c i else f.val c i * a.weights i
          .ok { o spin with
            nmaps := some nmaps
            alm := some (catalog2alm H spin a.nsrc x val)
            noiseF := (∑ c ∈ range nmaps, ∑ i ∈ range a.nsrc, val c i ^ 2) / (4 * Real.pi * nmaps) }

/-- A catalog field for the functions computing spectra. -/
def CatObj.view (f : CatObj) : FieldView :=
  ⟨⟨none, f.lmaxMask, f.lmax⟩, f.alm.map some, f.nmaps.getD 0, f.noiseF, f.noiseW, f.almMask⟩

open Classical in
/-- The constructor of `NmtFieldCatalogClustering` (pymaster/field.py:1001-1093) for data (`d`) and random (`r`) sources; only positions,
weights, number of sources and `lmax` are used. The number of components of the coefficients is one; the attributes `nmaps` and `beam` are
left out. -/
noncomputable def nmtFieldClustering (H : Harm (ℝ × ℝ)) (d r : CatArgs) (lmax : ℕ) : Outcome FieldView :=
  if ¬ positionsOk d.rows d.cols d.nsrc d.pos then .raises .value
  else if ¬ positionsOk r.rows r.cols r.nsrc r.pos then .raises .value
  else
    let alpha := (∑ i ∈ range d.nsrc, d.weights i) / ∑ i ∈ range r.nsrc, r.weights i
    let noiseW := alpha ^ 2 * (∑ i ∈ range r.nsrc, r.weights i ^ 2) / (4 * Real.pi)
    let almMask := catalog2alm H 0 r.nsrc (fun i => (r.pos 0 i, r.pos 1 i)) (single fun i => r.weights i * alpha)
    let almData := catalog2alm H 0 d.nsrc (fun i => (d.pos 0 i, d.pos 1 i)) (single d.weights)
    .ok ⟨⟨none, lmax, lmax⟩, some (some fun c l m => almData c l m - almMask c l m), 1,
      (∑ i ∈ range d.nsrc, d.weights i ^ 2) / (4 * Real.pi) + noiseW, noiseW, almMask 0⟩

end NaMaster
