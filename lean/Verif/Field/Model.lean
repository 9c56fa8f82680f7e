import Verif.Common
import Verif.Maps.Model
import Mathlib.Data.Complex.Basic
import Mathlib.Analysis.SpecialFunctions.Sqrt

/-!
# Model of curved-sky fields

Models the constructor of `NmtField` and its purification step (pymaster/field.py:111-347,468-530),
`moore_penrose_pinvh`, `map2alm` and `alm2map` (pymaster/utils.py:773-800,860-923) and the pseudo-inverse of the C library
(src/utils.c:345-379).

Maps are functions of component and pixel; the order of the pixels (`reform_map`) is modelled in `Verif.Maps.Model`.
Harmonic coefficients are functions of component, `l` and `m ≥ 0`. The transforms of the backend, the eigenvalue decomposition
and the inverse of a matrix are parameters. An array all of whose elements are NaN or infinite is `none`.
-/

namespace NaMaster

open Finset

/-- A stack of maps: component, pixel. -/
abbrev MapStack := ℕ → ℕ → ℝ

/-- Harmonic coefficients: component, `l`, `m`. -/
abbrev Alms := ℕ → ℕ → ℕ → ℂ

/-! ## Pixels -/

/-- What `dot_map` needs from a pixelisation: number of pixels and quadrature weight of each pixel. -/
structure Pix where
  npix : ℕ
  w : ℕ → ℝ

/-- HEALPix pixels (pymaster/utils.py:239-240): constant weight. -/
def Pix.healpix (npix : ℕ) (w : ℝ) : Pix := ⟨npix, fun _ => w⟩

/-- CAR pixels (pymaster/utils.py:231-238): one weight for each ring. -/
def Pix.car (nring nx : ℕ) (w : ℕ → ℝ) : Pix := ⟨nring * nx, fun p => w (p / nx)⟩

/-- `_SHTInfo.dot_map` (pymaster/utils.py:242-243) of two stacks with `nm` components. -/
def Pix.dot (P : Pix) (nm : ℕ) (a b : MapStack) : ℝ :=
  ∑ c ∈ range nm, ∑ p ∈ range P.npix, a c p * b c p * P.w p

/-! ## Pseudo-inverse -/

/-- `numpy.linalg.eigh` or `gsl_eigen_symmv`: eigenvalues, and eigenvectors as columns, of an `n × n` matrix. -/
structure Eigen where
  vals : ℕ → (ℕ → ℕ → ℝ) → ℕ → ℝ
  vecs : ℕ → (ℕ → ℕ → ℝ) → ℕ → ℕ → ℝ

/-- `np.max` and `gsl_vector_max` of the first `n+1` elements. -/
noncomputable def maxUpTo (w : ℕ → ℝ) : ℕ → ℝ
  | 0 => w 0
  | n + 1 => max (maxUpTo w n) (w (n + 1))

/-- The common part of both pseudo-inverses: the eigenvalues marked as `good` are inverted, the others are replaced by
zero. Inverting zero gives an infinity, and the two matrix products make every element infinite or NaN. -/
noncomputable def spectralInverse (n : ℕ) (w : ℕ → ℝ) (v : ℕ → ℕ → ℝ) (good : ℕ → Prop) [DecidablePred good] :
    Option (ℕ → ℕ → ℝ) :=
  if ∃ k ∈ range n, good k ∧ w k = 0 then none
  else some (tab2 n n fun i j => ∑ k ∈ range n, v i k * ((if good k then 1 / w k else 0) * v j k))

open Classical in
/-- `moore_penrose_pinvh` (pymaster/utils.py:790-800). `inv` is `numpy.linalg.inv`, which raises `LinAlgError` (a
`ValueError`) for singular matrices (`none`). -/
noncomputable def pinvh (E : Eigen) (inv : ℕ → (ℕ → ℕ → ℝ) → Option (ℕ → ℕ → ℝ)) (n : ℕ) (M : ℕ → ℕ → ℝ) (tol : ℝ) :
    Outcome (Option (ℕ → ℕ → ℝ)) :=
  if tol ≤ 0 then
    match inv n M with
    | none => .raises .value
    | some P => .ok (some P)
  else .ok (spectralInverse n (E.vals n M) (E.vecs n M) fun k => E.vals n M k ≥ tol * maxUpTo (E.vals n M) (n - 1))

open Classical in
/-- `moore_penrose_pinv` (src/utils.c:345-379). -/
noncomputable def pinvC (E : Eigen) (n : ℕ) (M : ℕ → ℕ → ℝ) (threshold : ℝ) : Option (ℕ → ℕ → ℝ) :=
  spectralInverse n (E.vals n M) (E.vecs n M) fun k => ¬ (E.vals n M k < threshold * maxUpTo (E.vals n M) (n - 1))

/-! ## Spherical harmonic transforms -/

/-- The transforms of one backend for one pixelisation (pymaster/utils.py:811-846), and the padding of maps
(pymaster/utils.py:205-228). -/
structure Sht where
  m2a : (spin : ℤ) → (lmax : ℕ) → MapStack → Alms
  a2m : (spin : ℤ) → (lmax : ℕ) → Alms → MapStack
  pad : MapStack → MapStack
  unpad : MapStack → MapStack

/-- The loop of `map2alm` (pymaster/utils.py:889-893) in any group: `A` is the analysis, `B` the synthesis. -/
def jacobi {V W : Type*} [AddCommGroup V] [AddCommGroup W] (A : V → W) (B : W → V) (map : V) : ℕ → W
  | 0 => A map
  | n + 1 => jacobi A B map n - A (B (jacobi A B map n) - map)

/-- `map2alm` (pymaster/utils.py:860-893). -/
def Sht.map2alm (S : Sht) (spin : ℤ) (lmax nIter : ℕ) (map : MapStack) : Alms :=
  jacobi (S.m2a spin lmax) (S.a2m spin lmax) (S.pad map) nIter

/-- `alm2map` (pymaster/utils.py:896-923). -/
def Sht.alm2map (S : Sht) (spin : ℤ) (lmax : ℕ) (alm : Alms) : MapStack := S.unpad (S.a2m spin lmax alm)

/-- `hp.almxfl` of one component. -/
noncomputable def almxfl (a : ℕ → ℕ → ℂ) (fl : ℕ → ℝ) : ℕ → ℕ → ℂ := fun l m => (fl l : ℂ) * a l m

/-- Product of a stack of two maps with a spin mask (pymaster/field.py:487-488,510-511). -/
def spinProduct (w maps : MapStack) : MapStack := fun c p =>
  if c = 0 then w 0 p * maps 0 p + w 1 p * maps 1 p
  else if c = 1 then w 0 p * maps 1 p - w 1 p * maps 0 p else 0

/-- One component as a stack with one map, `np.array([m])`. -/
def single (m : ℕ → ℝ) : MapStack := fun c p => if c = 0 then m p else 0

/-- `-sqrt((l+1)*l)` (pymaster/field.py:481). -/
noncomputable def flMask1 (l : ℕ) : ℝ := -Real.sqrt (((l : ℝ) + 1) * l)
/-- `2/sqrt((l+2)*(l-1))` from `l = 2` on (pymaster/field.py:493-494). -/
noncomputable def flPure1 (l : ℕ) : ℝ := if l < 2 then 0 else 2 / Real.sqrt (((l : ℝ) + 2) * ((l : ℝ) - 1))
/-- `-sqrt((l+2)*(l-1))` from `l = 2` on (pymaster/field.py:505-506). -/
noncomputable def flMask2 (l : ℕ) : ℝ := if l < 2 then 0 else -Real.sqrt (((l : ℝ) + 2) * ((l : ℝ) - 1))
/-- `1/sqrt((l+2)*(l+1)*l*(l-1))` from `l = 2` on (pymaster/field.py:517-519). -/
noncomputable def flPure2 (l : ℕ) : ℝ :=
  if l < 2 then 0 else 1 / Real.sqrt (((l : ℝ) + 2) * ((l : ℝ) + 1) * l * ((l : ℝ) - 1))

/-- `NmtField._purify` (pymaster/field.py:468-530). The coefficients of the masked maps are computed up to `lmaxMask`, those
of the products with the derivatives of the mask up to `lmax`; adding arrays with different numbers of coefficients raises
`ValueError` (both have more than one element). The pair of arrays with the second one multiplied by zero (line 484) stays
zero when the first is rescaled (line 507). -/
noncomputable def purify (S : Sht) (lmax lmaxMask nIter : ℕ) (mask : ℕ → ℝ) (almMask : ℕ → ℕ → ℂ) (pureE pureB : Bool)
    (maps : MapStack) : Outcome (Alms × MapStack) :=
  let alms := S.map2alm 2 lmaxMask nIter fun c p => maps c p * mask p
  let walm1 := almxfl almMask flMask1
  let wmap1 := S.alm2map 1 lmaxMask fun c => if c = 0 then walm1 else fun _ _ => 0
  let palm1 := S.map2alm 1 lmax nIter (spinProduct wmap1 maps)
  let walm2 := almxfl walm1 flMask2
  let wmap2 := S.alm2map 2 lmaxMask fun c => if c = 0 then walm2 else fun _ _ => 0
  let prod2 := spinProduct wmap2 maps
  let palm2 : Alms := fun c => S.map2alm 0 lmax nIter (single (prod2 c)) 0
  if (pureE || pureB) ∧ lmax ≠ lmaxMask then .raises .value
  else
    let out : Alms := fun c l m =>
      alms c l m + if (c = 0 ∧ pureE) ∨ (c = 1 ∧ pureB) then almxfl (palm1 c) flPure1 l m + almxfl (palm2 c) flPure2 l m else 0
    .ok (out, S.alm2map 2 lmax out)

/-! ## Fields -/

/-- Array of maps passed to the constructor: shape `(ncomp, npix)`. -/
structure StackArg where
  ncomp : ℕ
  npix : ℕ
  val : MapStack

/-- Array of templates: shape `(ntemp, ncomp, npix)`. -/
structure TemplArg where
  ntemp : ℕ
  ncomp : ℕ
  npix : ℕ
  val : ℕ → MapStack

/-- Arguments of the constructor of `NmtField` (pymaster/field.py:111-115). All masks have the same pixels. The arguments that
set defaults (`n_iter`, `n_iter_mask`, `tol_pinv`) are given; negative numbers of iterations do nothing. -/
structure FieldArgs where
  mask : ℕ → ℝ
  mask22 : Option (ℕ → ℝ)
  mask12 : Option (ℕ → ℝ)
  maps : Option StackArg
  spin : Option ℤ
  templates : Option TemplArg
  beam : Option (ℕ × (ℕ → ℝ))
  purifyE : Bool
  purifyB : Bool
  nIter : ℕ
  nIterMask : ℕ
  tol : ℝ
  lmax : Option ℤ
  lmaxMask : Option ℤ
  maskedOnInput : Bool
  lite : Bool

/-- The environment: pixels, transforms, linear algebra and the default band limit of the map (`get_lmax`). -/
structure FieldEnv where
  pix : Pix
  sht : Sht
  eig : Eigen
  inv : ℕ → (ℕ → ℕ → ℝ) → Option (ℕ → ℕ → ℝ)
  lmaxDefault : ℤ

/-- The attributes of an `NmtField`. `none` in `alm` is a mask-only field, `some none` coefficients that are not finite; the
same for `maps`. -/
structure FieldObj where
  lite : Bool
  mask : ℕ → ℝ
  maskA : Option (ℕ → ℕ → ℝ)
  lmax : ℕ
  lmaxMask : ℕ
  beam : ℕ × (ℕ → ℝ)
  nIter : ℕ
  nIterMask : ℕ
  pureE : Bool
  pureB : Bool
  spin : ℤ
  nmaps : ℕ
  alm : Option (Option Alms)
  maps : Option (Option MapStack)
  nTemp : ℕ
  temp : Option (ℕ → MapStack)
  almTemp : Option (ℕ → Alms)
  iM : Option (Option (ℕ → ℕ → ℝ))
  alphas : Option (Option (ℕ → ℝ))

open Classical in
/-- Masks of the constructor (pymaster/field.py:154-174): isotropic part and, for anisotropic masks, the two other
components. -/
noncomputable def fieldMasks (P : Pix) (a : FieldArgs) : Outcome ((ℕ → ℝ) × Option (ℕ → ℕ → ℝ)) :=
  match a.mask22, a.mask12 with
  | none, none => .ok (a.mask, none)
  | some m22, some m12 =>
    let scale := (∑ p ∈ range P.npix, (a.mask p + m22 p)) / P.npix
    if ∃ p ∈ range P.npix, a.mask p * m22 p - m12 p ^ 2 < -1e-5 * scale then .raises .value
    else .ok (fun p => 0.5 * (a.mask p + m22 p),
      some fun c p => if c = 0 then 0.5 * (a.mask p - m22 p) else if c = 1 then m12 p else 0)
  | _, _ => .raises .value

/-- Product of maps with the mask (pymaster/field.py:286-293). -/
def applyMask (mask : ℕ → ℝ) (maskA : Option (ℕ → ℕ → ℝ)) (maps : MapStack) : MapStack :=
  match maskA with
  | none => fun c p => maps c p * mask p
  | some ma => fun c p => maps c p * mask p +
      if c = 0 then maps 0 p * ma 0 p + maps 1 p * ma 1 p
      else if c = 1 then maps 0 p * ma 1 p - maps 1 p * ma 0 p else 0

open Classical in
/-- Maps divided by the mask where it is positive (pymaster/field.py:275-280). -/
noncomputable def unmask (mask : ℕ → ℝ) (maps : MapStack) : MapStack := fun c p =>
  if 0 < mask p then maps c p / mask p else maps c p

/-- Result of the deprojection step. -/
structure Deproj where
  maps : Option MapStack
  mapsU : Option MapStack
  iM : Option (ℕ → ℕ → ℝ)
  alphas : Option (ℕ → ℝ)

/-- Deprojection (pymaster/field.py:297-313): `maps` and `templ` are masked, `mapsU` and `templU` are not. -/
noncomputable def deproject (env : FieldEnv) (nm nt : ℕ) (tol : ℝ) (templ : ℕ → MapStack) (maps : MapStack)
    (templU : ℕ → MapStack) (mapsU : MapStack) : Outcome Deproj :=
  let M : ℕ → ℕ → ℝ := tab2 nt nt fun i j => env.pix.dot nm (templ j) (templ i)
  (pinvh env.eig env.inv nt M tol).bind fun iM =>
  let prods : ℕ → ℝ := fun i => env.pix.dot nm (templ i) maps
  match iM with
  | none => .ok ⟨none, none, none, none⟩
  | some P =>
    let alphas : ℕ → ℝ := tab nt fun i => ∑ j ∈ range nt, P i j * prods j
    .ok ⟨some fun c p => maps c p - ∑ i ∈ range nt, alphas i * templ i c p,
      some fun c p => mapsU c p - ∑ i ∈ range nt, alphas i * templU i c p, some P, some alphas⟩

/-- Coefficients of maps that may not be finite. -/
def Sht.map2almO (S : Sht) (spin : ℤ) (lmax nIter : ℕ) : Option MapStack → Option Alms :=
  Option.map (S.map2alm spin lmax nIter)

/-- `_purify` of maps that may not be finite. -/
noncomputable def purifyO (S : Sht) (lmax lmaxMask nIter : ℕ) (mask : ℕ → ℝ) (almMask : ℕ → ℕ → ℂ) (pureE pureB : Bool)
    (maps : Option MapStack) : Outcome (Option Alms × Option MapStack) :=
  (purify S lmax lmaxMask nIter mask almMask pureE pureB (maps.getD fun _ _ => 0)).bind fun r =>
    .ok (maps.map fun _ => r.1, maps.map fun _ => r.2)

/-- Coefficients of the mask (`get_mask_alms`, pymaster/field.py:391-412). -/
def maskAlms (S : Sht) (lmaxMask nIterMask : ℕ) (mask : ℕ → ℝ) : ℕ → ℕ → ℂ := S.map2alm 0 lmaxMask nIterMask (single mask) 0

/-- `_purify` applied to every template. -/
noncomputable def purifyAll (S : Sht) (lmax lmaxMask nIter : ℕ) (mask : ℕ → ℝ) (almMask : ℕ → ℕ → ℂ) (pureE pureB : Bool)
    (templ : ℕ → MapStack) : ℕ → Outcome (ℕ → Alms)
  | 0 => .ok fun _ _ _ _ => 0
  | n + 1 => (purifyAll S lmax lmaxMask nIter mask almMask pureE pureB templ n).bind fun f =>
      (purify S lmax lmaxMask nIter mask almMask pureE pureB (templ n)).bind fun r => .ok (Function.update f n r.1)

/-- Steps 4 to 8 of the constructor (pymaster/field.py:268-347), after all checks. `maps` and `templ` are the input arrays,
`o` has the attributes set before. -/
noncomputable def fieldFinish (env : FieldEnv) (a : FieldArgs) (o : FieldObj) (maps0 : MapStack) (templ0 : Option TemplArg) :
    Outcome FieldObj :=
  let pure := a.purifyE || a.purifyB
  let unm : MapStack → MapStack := if a.maskedOnInput then unmask o.mask else id
  let maps := if a.maskedOnInput then maps0 else applyMask o.mask o.maskA maps0
  let nt := (templ0.map TemplArg.ntemp).getD 0
  let tv : ℕ → MapStack := (templ0.map TemplArg.val).getD fun _ _ _ => 0
  let templU : ℕ → MapStack := fun i => unm (tv i)
  let templ : ℕ → MapStack := fun i => if a.maskedOnInput then tv i else fun c p => tv i c p * o.mask p
  (match templ0 with
    | none => Outcome.ok (⟨some maps, some (unm maps0), none, none⟩ : Deproj)
    | some _ => deproject env o.nmaps nt a.tol templ maps templU (unm maps0)).bind fun d =>
  let amask := maskAlms env.sht o.lmaxMask a.nIterMask o.mask
  (if pure then purifyO env.sht o.lmax o.lmaxMask a.nIter o.mask amask a.purifyE a.purifyB d.mapsU
    else Outcome.ok (env.sht.map2almO o.spin o.lmax a.nIter d.maps, d.maps)).bind fun r =>
  (if templ0.isSome ∧ ¬ a.lite then
      (if pure then purifyAll env.sht o.lmax o.lmaxMask a.nIter o.mask amask a.purifyE a.purifyB templU nt
        else Outcome.ok fun i => env.sht.map2alm o.spin o.lmax a.nIter (templ i)).bind fun at' => Outcome.ok (some at')
    else Outcome.ok none).bind fun almTemp =>
  .ok { o with
    alm := some r.1
    maps := if a.lite then none else some r.2
    nTemp := nt
    temp := if templ0.isSome ∧ ¬ a.lite then some templ else none
    almTemp := almTemp
    iM := if templ0.isSome then some d.iM else none
    alphas := if templ0.isSome then some d.alphas else none }

/-- Spin of a field with `n` maps (pymaster/field.py:222-233). -/
def pickSpin (n : ℕ) : Option ℤ → Outcome ℤ
  | none => .ok (if n = 1 then 0 else 2)
  | some s => if (s ≠ 0 ∧ n = 1) ∨ (s = 0 ∧ n ≠ 1) then .raises .value else .ok s

/-- What is left to do after the checks of the constructor. -/
inductive FieldPlan where
  | maskOnly (o : FieldObj)
  | withMaps (o : FieldObj) (maps : MapStack) (templ : Option TemplArg)

/-- The checks of the arguments for a field with maps (pymaster/field.py:215-266). An empty list of templates raises
`IndexError` (line 257), here the key error. The `map_info` checks of the shape of the maps and templates raise `ValueError`.
`aniso` says whether the mask is anisotropic, `o` makes the object for a given spin. -/
def mapChecks (npix : ℕ) (a : FieldArgs) (aniso : Bool) (o : ℤ → FieldObj) (maps : StackArg) : Outcome FieldPlan :=
  if maps.ncomp ≠ 1 ∧ maps.ncomp ≠ 2 then .raises .value
  else (pickSpin maps.ncomp a.spin).bind fun spin =>
    if maps.npix ≠ npix then .raises .value
    else if (a.purifyE || a.purifyB) ∧ spin ≠ 2 then .raises .value
    else if aniso ∧ spin = 0 then .raises .value
    else if aniso ∧ (a.purifyE || a.purifyB) then .raises .notImplemented
    else if aniso ∧ a.templates.isSome then .raises .notImplemented
    else match a.templates with
      | none => .ok (.withMaps (o spin) (tab2 maps.ncomp maps.npix maps.val) none)
      | some t =>
        if t.ntemp = 0 then .raises .key
        else if t.ncomp ≠ maps.ncomp then .raises .value
        else if t.npix ≠ npix then .raises .value
        else .ok (.withMaps (o spin) (tab2 maps.ncomp maps.npix maps.val)
          (some { t with val := fun i => tab2 t.ncomp t.npix (t.val i) }))

/-- The attributes set before the maps are looked at (pymaster/field.py:123-201,208-212). -/
def baseObj (a : FieldArgs) (mk : (ℕ → ℝ) × Option (ℕ → ℕ → ℝ)) (lmax lmaxMask : ℤ) (spin : ℤ) : FieldObj :=
  ⟨a.lite, mk.1, mk.2, lmax.toNat, lmaxMask.toNat, a.beam.getD ((lmax + 1).toNat, fun _ => 1), a.nIter, a.nIterMask,
    a.purifyE, a.purifyB, spin, if spin = 0 then 1 else 2, none, none, 0, none, none, none, none⟩

/-- The checks of the constructor (pymaster/field.py:111-266). Arguments of wrong python types are not modelled. -/
noncomputable def fieldChecks (env : FieldEnv) (a : FieldArgs) : Outcome FieldPlan :=
  (fieldMasks env.pix a).bind fun mk =>
  let lmax := a.lmax.getD env.lmaxDefault
  let lmaxMask := a.lmaxMask.getD env.lmaxDefault
  if lmax ≤ 0 ∨ lmaxMask ≤ 0 then .raises .value
  else if (a.beam.map fun b => (b.1 : ℤ)).any (fun n => n ≤ lmax) then .raises .value
  else match a.maps with
    | none =>
      match a.spin with
      | none => .raises .value
      | some s => if s = 0 ∧ mk.2.isSome then .raises .value else .ok (.maskOnly (baseObj a mk lmax lmaxMask s))
    | some maps => mapChecks env.pix.npix a mk.2.isSome (baseObj a mk lmax lmaxMask) maps

/-- The constructor of `NmtField` (pymaster/field.py:111-347). -/
noncomputable def nmtField (env : FieldEnv) (a : FieldArgs) : Outcome FieldObj :=
  (fieldChecks env a).bind fun
    | .maskOnly o => .ok o
    | .withMaps o maps templ => fieldFinish env a o maps templ

/-! ## Reading fields -/

/-- `get_mask_alms` (pymaster/field.py:391-412). Storing the result for later calls is left out, the field is not modified
otherwise. -/
def FieldObj.getMaskAlms (S : Sht) (f : FieldObj) : ℕ → ℕ → ℂ := maskAlms S f.lmaxMask f.nIterMask f.mask

/-- `get_maps`, `get_alms`, `get_templates` (pymaster/field.py:432-466): `ValueError` if they are missing. -/
def getOr {α : Type*} : Option α → Outcome α
  | none => .raises .value
  | some x => .ok x

end NaMaster
