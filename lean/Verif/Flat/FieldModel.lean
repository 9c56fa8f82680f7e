import Verif.Flat.Coupling
import Verif.Field.Model
import Verif.Syn.Model

/-!
# Model of flat-sky fields

Models the constructor of `NmtFieldFlat` and its accessors (pymaster/field.py:615-795, pymaster/namaster.i:237-355),
`nmt_field_flat_alloc`, `walm_x_lpower` and `nmt_purify_flat` (src/nmt_field_flat.c:113-520).

Maps are functions of component and pixel `(x, y)`, Fourier coefficients functions of component and mode. The inverse FFT
(`c2r`) and the eigenvalue decomposition are parameters. `fftw_plan_dft_c2r_2d` overwrites its input; no array is used after
having been the input, so that this is not modelled. An array all of whose elements are NaN or infinite is `none`. Memory and
the single-precision version are not modelled.
-/

namespace NaMaster

open Real Finset

/-- A stack of flat maps: component, pixel. -/
abbrev FlatMaps := ℕ → ℕ × ℕ → ℝ

/-- Fourier coefficients of a stack of maps: component, mode. -/
abbrev FlatAlms := ℕ → ℕ × ℕ → ℂ

/-- `fs_map2alm` (src/flatsky_utils.c:192-236): for spin 0 each map by itself, otherwise a pair of maps. -/
noncomputable def fsMap2alm (fs : FlatInfo) (spin : ℕ) (m : FlatMaps) : FlatAlms := fun X k =>
  if spin = 0 then fs.map2alm (m X) k
  else if X = 0 then (fs.map2almSpin spin (m 0) (m 1) k).1 else (fs.map2almSpin spin (m 0) (m 1) k).2

/-- The modulus of the wave vector of a mode used in the purification (src/nmt_field_flat.c:118-134,190-214,228-251), with
`dkx=2*M_PI/nx` and `dky=2*M_PI/ny`. For the elements with `ix <= nx/2`, which are those in the array, the wave number of column
`ix` is `ix*dkx`. -/
noncomputable def FlatInfo.pixMod (fs : FlatInfo) (k : ℕ × ℕ) : ℝ :=
  √(waveNum fs.nx fs.nx k.1 * waveNum fs.nx fs.nx k.1 + waveNum fs.ny fs.ny k.2 * waveNum fs.ny fs.ny k.2)

/-- `walm_x_lpower` (src/nmt_field_flat.c:113-142): minus the coefficients times a power of the modulus, and zero. -/
noncomputable def walmXLpower (fs : FlatInfo) (walm : ℕ × ℕ → ℂ) (power : ℕ) : FlatAlms := fun X k =>
  if X = 0 then -walm k * ((fs.pixMod k ^ power : ℝ) : ℂ) else 0

/-- Product of a pair of maps with a spin mask (src/nmt_field_flat.c:182-185,220-223, without the sign). -/
def spinProductFlat (w maps : FlatMaps) : FlatMaps := fun c p =>
  if c = 0 then w 0 p * maps 0 p + w 1 p * maps 1 p else w 0 p * maps 1 p - w 1 p * maps 0 p

/-- The coefficients computed by `nmt_purify_flat` (src/nmt_field_flat.c:145-257) for a mask with coefficients `walm0`. The
two products are transformed as a pair with spin 1 and as two maps with spin 0. -/
noncomputable def purifyFlatAlms (c2r : (ℕ × ℕ → ℂ) → ℕ × ℕ → ℝ) (fs : FlatInfo) (pureE pureB : Bool) (mask : ℕ × ℕ → ℝ)
    (walm0 : ℕ × ℕ → ℂ) (maps : FlatMaps) : FlatAlms :=
  let alm := fsMap2alm fs 2 fun c p => maps c p * mask p
  let wmap1 := fsAlm2map c2r fs 1 (walmXLpower fs walm0 1)
  let palm1 := fsMap2alm fs 1 (spinProductFlat wmap1 maps)
  let wmap2 := fsAlm2map c2r fs 2 (walmXLpower fs walm0 2)
  let palm2 := fsMap2alm fs 0 fun c p => -1 * spinProductFlat wmap2 maps c p
  fun X k =>
    if (X = 0 ∧ pureE) ∨ (X = 1 ∧ pureB) then
      (alm X k + if fs.pixMod k > 0 then 2 * palm1 X k / (fs.pixMod k : ℂ) else 0) +
        if fs.pixMod k ^ 2 > 0 then palm2 X k / ((fs.pixMod k ^ 2 : ℝ) : ℂ) else 0
    else alm X k

/-- `nmt_purify_flat` (src/nmt_field_flat.c:145-271): the coefficients, and the maps with these coefficients. -/
noncomputable def purifyFlat (c2r : (ℕ × ℕ → ℂ) → ℕ × ℕ → ℝ) (fs : FlatInfo) (pureE pureB : Bool) (mask : ℕ × ℕ → ℝ)
    (walm0 : ℕ × ℕ → ℂ) (maps : FlatMaps) : FlatAlms × FlatMaps :=
  let alm := purifyFlatAlms c2r fs pureE pureB mask walm0 maps
  (alm, fsAlm2map c2r fs 2 alm)

/-! ## Fields -/

/-- An array of maps passed to the constructor: `ncomp` maps of `ny` rows and `nx` columns. -/
structure FlatStackArg where
  ncomp : ℕ
  nx : ℕ
  ny : ℕ
  val : FlatMaps

/-- An array of templates. -/
structure FlatTemplArg where
  ntemp : ℕ
  ncomp : ℕ
  nx : ℕ
  ny : ℕ
  val : ℕ → FlatMaps

/-- The arguments of the constructor of `NmtFieldFlat` (pymaster/field.py:615-617). The shape of the mask gives `nx` and
`ny`. Negative spins are not modelled. -/
structure FlatFieldArgs where
  fs : FlatInfo
  mask : ℕ × ℕ → ℝ
  maps : Option FlatStackArg
  spin : Option ℕ
  templates : Option FlatTemplArg
  beam : Option (Arr2 ℝ)
  purifyE : Bool
  purifyB : Bool
  tol : ℝ
  maskedOnInput : Bool
  lite : Bool

/-- The environment: inverse transform and eigenvalue decomposition. -/
structure FlatEnv where
  c2r : FlatInfo → (ℕ × ℕ → ℂ) → ℕ × ℕ → ℝ
  eig : Eigen

/-- The object, `nmt_field_flat` and the attribute `lite`. `none` in `alms` is a field without maps, `some none` coefficients
that are not finite; the same for `maps`, and for `matrixM`, which is not set without templates. -/
structure FlatFieldObj where
  base : FlatField
  lite : Bool
  maskOnly : Bool
  nmaps : ℕ
  ntemp : ℕ
  maps : Option (Option FlatMaps)
  temp : Option (ℕ → FlatMaps)
  alms : Option (Option FlatAlms)
  aTemp : Option (ℕ → FlatAlms)
  aMask : Option (ℕ × ℕ → ℂ)
  matrixM : Option (Option (ℕ → ℕ → ℝ))

open Classical in
/-- Maps divided by the mask where it is positive, zero elsewhere (src/nmt_field_flat.c:335-342,352-359). -/
noncomputable def unmaskFlat (mask : ℕ × ℕ → ℝ) (maps : FlatMaps) : FlatMaps := fun c p =>
  if mask p > 0 then maps c p / mask p else 0

/-- `pixsize` (src/nmt_field_flat.c:45): the area of a pixel. The product `nx*ny`, of type `int`, does not overflow. -/
noncomputable def FlatInfo.pixsize (fs : FlatInfo) : ℝ := fs.lx * fs.ly / (fs.nx * fs.ny)

/-- `fs_map_dot` (src/flatsky_utils.c:53-75) summed over the components (src/nmt_field_flat.c:384-386,397-398). -/
noncomputable def FlatInfo.dot (fs : FlatInfo) (nm : ℕ) (a b : FlatMaps) : ℝ :=
  ∑ c ∈ range nm, (∑ p ∈ fs.modes, a c p * b c p) * fs.pixsize

/-- The matrix of the templates (src/nmt_field_flat.c:379-391): the element for two templates is computed once. -/
noncomputable def flatGram (fs : FlatInfo) (nm nt : ℕ) (templ : ℕ → FlatMaps) : ℕ → ℕ → ℝ :=
  tab2 nt nt fun i j => if i ≤ j then fs.dot nm (templ i) (templ j) else fs.dot nm (templ j) (templ i)

/-- The coefficients of the templates in the maps (src/nmt_field_flat.c:394-405). -/
noncomputable def flatAlphas (fs : FlatInfo) (nm nt : ℕ) (P : ℕ → ℕ → ℝ) (templ : ℕ → FlatMaps) (maps : FlatMaps) (i : ℕ) : ℝ :=
  ∑ j ∈ range nt, P i j * fs.dot nm (templ j) maps

/-- The templates removed from maps with given coefficients (src/nmt_field_flat.c:409-417). -/
noncomputable def removeTempl (nt : ℕ) (alpha : ℕ → ℝ) (templ : ℕ → FlatMaps) (maps : FlatMaps) : FlatMaps := fun c p =>
  maps c p - ∑ i ∈ range nt, alpha i * templ i c p

/-- `nmt_field_flat_alloc` for a field with maps (src/nmt_field_flat.c:322-520), after the checks and the allocation of the
beam. `maps0` and `templ0` are the input arrays, `base` the attributes set before. The deprojection of an array that is not
finite gives one that is not finite. -/
noncomputable def flatAlloc (env : FlatEnv) (base : FlatField) (maps0 : FlatMaps) (templ0 : Option (ℕ × (ℕ → FlatMaps))) (tol : ℝ)
    (masked lite : Bool) : FlatFieldObj :=
  let fs := base.fs
  let nm := nmapsOf base.spin
  let pureE := base.pureE == 1
  let pureB := base.pureB == 1
  let isPure : Bool := pureE || pureB
  let nt := (templ0.map Prod.fst).getD 0
  let tv : ℕ → FlatMaps := (templ0.map Prod.snd).getD fun _ _ _ => 0
  let unm : FlatMaps → FlatMaps := if masked then unmaskFlat base.mask else id
  let msk : FlatMaps → FlatMaps := fun m => if masked then m else fun c p => m c p * base.mask p
  let templ : ℕ → FlatMaps := fun i => msk (tv i)
  let templU : ℕ → FlatMaps := fun i => unm (tv i)
  let M := if nt > 0 then some (pinvC env.eig nt (flatGram fs nm nt templ) tol) else none
  let alpha : Option (ℕ → ℝ) := match M with
    | none => some fun _ => 0
    | some P => P.map fun P => flatAlphas fs nm nt P templ (msk maps0)
  let maps : Option FlatMaps := alpha.map fun a => removeTempl nt a templ (msk maps0)
  let mapsU : Option FlatMaps := alpha.map fun a => removeTempl nt a templU (unm maps0)
  let amask := fs.map2alm base.mask
  let r : Option (FlatAlms × FlatMaps) :=
    if isPure then mapsU.map (purifyFlat (env.c2r fs) fs pureE pureB base.mask amask)
    else maps.map fun m => (fsMap2alm fs base.spin m, m)
  { base := base
    lite := lite
    maskOnly := false
    nmaps := nm
    ntemp := nt
    maps := if lite then none else some (r.map Prod.snd)
    temp := if lite ∨ nt = 0 then none else some fun i => if isPure then fun c p => templU i c p * base.mask p else templ i
    alms := some (r.map Prod.fst)
    aTemp := if lite ∨ nt = 0 then none else some fun i =>
      if isPure then (purifyFlat (env.c2r fs) fs pureE pureB base.mask amask (templU i)).1 else fsMap2alm fs base.spin (templ i)
    aMask := if lite ∨ ¬ isPure then none else some amask
    matrixM := M }

/-- The beam of a field (src/nmt_field_flat.c:305-308, pymaster/namaster.i:299-306): one without a beam and for an array with a
single negative multipole and value; otherwise interpolated. GSL ends the process if the points do not increase. -/
noncomputable def flatBeam (beam : Option (Arr2 ℝ)) : Outcome (ℝ → ℝ) :=
  match beam with
  | none => .ok fun _ => 1
  | some b =>
    if b.rows ≠ 2 then .raises .runtime
    else if b.cols = 1 ∧ b.val 0 0 < 0 ∧ b.val 1 0 < 0 then .ok fun _ => 1
    else
      let pts := (List.range b.cols).map fun i => (b.val 0 i, b.val 1 i)
      (kFunction pts (b.val 1 0) 0 0).bind fun _ => .ok fun l => match kFunction pts (b.val 1 0) 0 l with
        | .ok v => v
        | _ => 0

/-- The spin of a field (pymaster/field.py:641-666). -/
def flatSpin (a : FlatFieldArgs) : Outcome ℕ :=
  match a.maps with
  | none => match a.spin with
    | none => .raises .value
    | some s => .ok s
  | some m =>
    if m.ncomp ≠ 1 ∧ m.ncomp ≠ 2 then .raises .value
    else match a.spin with
      | none => .ok (if m.ncomp = 1 then 0 else 2)
      | some s => if (s ≠ 0 ∧ m.ncomp = 1) ∨ (s = 0 ∧ m.ncomp ≠ 1) then .raises .value else .ok s

/-- The checks of the shapes of maps and templates (pymaster/field.py:673-703). With templates and without maps the number of
maps is not defined (`NameError`, here the attribute error). A list of no templates does not become a 3-dimensional array, which
the wrapper of the C function rejects (`TypeError`), or is ignored without maps. -/
def flatShapes (a : FlatFieldArgs) : Outcome Unit :=
  match a.maps, a.templates with
  | none, none => .ok ()
  | none, some t => if t.ntemp = 0 then .ok () else .raises .attribute
  | some m, none => if m.nx ≠ a.fs.nx ∨ m.ny ≠ a.fs.ny then .raises .value else .ok ()
  | some m, some t =>
    if m.nx ≠ a.fs.nx ∨ m.ny ≠ a.fs.ny then .raises .value
    else if t.ntemp = 0 then .raises .type
    else if t.ncomp ≠ m.ncomp then .raises .value
    else if t.nx ≠ a.fs.nx ∨ t.ny ≠ a.fs.ny then .raises .value
    else .ok ()

open Classical in
/-- The constructor of `NmtFieldFlat` (pymaster/field.py:615-733, pymaster/namaster.i:237-334). -/
noncomputable def nmtFieldFlat (env : FlatEnv) (a : FlatFieldArgs) : Outcome FlatFieldObj :=
  if a.fs.lx < 0 ∨ a.fs.ly < 0 then .raises .value
  else (flatSpin a).bind fun spin =>
    if (a.purifyE || a.purifyB) ∧ spin ≠ 2 then .raises .value
    else (flatShapes a).bind fun _ =>
      if ¬ (a.fs.lx > 0 ∧ a.fs.ly > 0) then .raises .runtime
      else (flatBeam a.beam).bind fun beam =>
        let base : FlatField := ⟨a.fs, spin, a.mask, beam, if a.purifyE then 1 else 0, if a.purifyB then 1 else 0⟩
        match a.maps with
        | none => .ok ⟨base, true, true, nmapsOf spin, 0, none, none, none, none, none, none⟩
        | some m => .ok (flatAlloc env base m.val (a.templates.map fun t => (t.ntemp, t.val)) a.tol a.maskedOnInput a.lite)

/-- `NmtFieldFlat.get_maps` (pymaster/field.py:753-771, pymaster/namaster.i:342-347). -/
def FlatFieldObj.getMaps (f : FlatFieldObj) : Outcome (Option FlatMaps) :=
  if f.lite then .raises .value
  else match f.maps with
    | some m => .ok m
    | none => .crash

/-- `NmtFieldFlat.get_templates` (pymaster/field.py:773-795, pymaster/namaster.i:349-355): the number of templates and the
templates. -/
def FlatFieldObj.getTemplates (f : FlatFieldObj) : Outcome (ℕ × (ℕ → FlatMaps)) :=
  if f.lite then .raises .value
  else match f.temp with
    | some t => .ok (f.ntemp, t)
    | none => .ok (0, fun _ _ _ => 0)

end NaMaster
