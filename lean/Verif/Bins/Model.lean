import Mathlib.Algebra.Order.Field.Basic
import Mathlib.Algebra.BigOperators.Group.List.Basic
import Mathlib.Logic.Function.Basic

/-!
# Model of curved-sky bandpowers

Models `pymaster/bins.py` (class `NmtBin`) and `src/nmt_bins.c`.

Simplifications common to the whole file: floating-point numbers are elements
of a field `K` with a linear order; multipoles are natural numbers (the C code
would accept negative ones and later use them as array indices).
-/

namespace NaMaster

/-- Exceptions visible to the user. `report_error` (src/utils.c:15-36) is turned into a python
`RuntimeError` by the SWIG `%exception` block (pymaster/namaster.i:58-65); the constructor `bweight`
records the band named in the message of nmt_bins.c:122. -/
inductive Err where
  /-- python `ValueError` -/
  | value
  /-- python `RuntimeError` -/
  | runtime
  /-- python `NotImplementedError` -/
  | notImplemented
  /-- python `KeyError` -/
  | key
  /-- python `AttributeError` (attribute of `None`, missing attribute) -/
  | attribute
  /-- python `TypeError` -/
  | type
  /-- C error `NMT_ERROR_BWEIGHT` for the given band -/
  | bweight (band : ℕ)
  deriving DecidableEq, Repr

section
variable {K : Type*}

/-- One element of the four input arrays of `nmt_bins_create`
(src/nmt_bins.c:55-56): `ells[ii]`, `bpws[ii]`, `weights[ii]`, `f_ell[ii]`. -/
structure Entry (K : Type*) where
  ell : ℕ
  bpw : ℤ
  w : K
  f : K

/-- One multipole of a band: `ell_list[ib][il]`, `w_list[ib][il]`, `f_ell[ib][il]` of
`nmt_binning_scheme` (src/namaster.h:24-33). -/
structure BandEntry (K : Type*) where
  ell : ℕ
  w : K
  f : K

/-- `nmt_binning_scheme` (src/namaster.h). `n_bands` is the length of `bands`, `nell_list[ib]` the length of band `ib`. -/
structure Bins (K : Type*) where
  ellMax : ℕ
  bands : List (List (BandEntry K))

/-- `bin->n_bands`. -/
def Bins.nBands (B : Bins K) : ℕ := B.bands.length

/-- `bin->ell_list[ib]`, `w_list[ib]`, `f_ell[ib]`; only used for `ib < n_bands`. -/
def Bins.band (B : Bins K) (ib : ℕ) : List (BandEntry K) := B.bands.getD ib []

end

section
variable {K : Type*} [Field K] [LinearOrder K]

/-- src/nmt_bins.c:59-67: number of bands, `1 + max(0, bpws[ii] with ells[ii]<=lmax)`. -/
def countBands (es : List (Entry K)) (lmax : ℕ) : ℕ :=
  (es.foldl (fun (m : ℤ) e => if e.ell ≤ lmax then (if e.bpw > m then e.bpw else m) else m) 0 + 1).toNat

/-- src/nmt_bins.c:93-114, one iteration: append the entry to its band. -/
def placeEntry (lmax : ℕ) (bands : List (List (BandEntry K))) (e : Entry K) :
    List (List (BandEntry K)) :=
  if e.ell ≤ lmax then
    if 0 ≤ e.bpw then
      bands.modify e.bpw.toNat (fun l => l ++ [⟨e.ell, e.w, if e.f ≤ 0 then 1 else e.f⟩])
    else bands
  else bands

/-- src/nmt_bins.c:116-125: normalise the weights of each band, starting at band `i`. -/
def normaliseFrom : ℕ → List (List (BandEntry K)) → Except Err (List (List (BandEntry K)))
  | _, [] => .ok []
  | i, b :: bs =>
    let norm := (b.map (·.w)).sum
    if norm ≤ 0 then .error (.bweight i)
    else
      match normaliseFrom (i + 1) bs with
      | .error e => .error e
      | .ok bs' => .ok (b.map (fun x => { x with w := x.w / norm }) :: bs')

/-- `nmt_bins_create` (src/nmt_bins.c:55-128). The first counting pass (77-82) only sizes the
arrays and is left out. `f_ell==NULL` does not occur through the python interface. -/
def binsCreate (es : List (Entry K)) (lmax : ℕ) : Except Err (Bins K) :=
  let bands0 := List.replicate (countBands es lmax) []
  let bands1 := es.foldl (placeEntry lmax) bands0
  match normaliseFrom 0 bands1 with
  | .error e => .error e
  | .ok bands => .ok ⟨lmax, bands⟩

/-- Assemble the arrays handed to `bins_create_py`; the SWIG wrapper (namaster.i:111-122) asserts
equal lengths and raises `RuntimeError` otherwise. -/
def mkEntries (bpws : List ℤ) (ells : List ℕ) (w f : List K) : Except Err (List (Entry K)) :=
  if bpws.length = ells.length ∧ w.length = ells.length ∧ f.length = ells.length then
    .ok ((ells.zip (bpws.zip (w.zip f))).map (fun x => ⟨x.1, x.2.1, x.2.2.1, x.2.2.2⟩))
  else .error .runtime

/-- `NmtBin.__init__` (pymaster/bins.py:46-59). `np.amax` of an empty array raises `ValueError`. -/
def nmtBin (bpws : List ℤ) (ells : List ℕ) (lmax : Option ℕ) (weights f_ell : Option (List K)) :
    Except Err (Bins K) :=
  match (match lmax with | some l => some l | none => ells.max?) with
  | none => .error .value
  | some lmax =>
    match mkEntries bpws ells (weights.getD (List.replicate ells.length 1))
        (f_ell.getD (List.replicate ells.length 1)) with
    | .error e => .error e
    | .ok es => binsCreate es lmax

/-- `_get_bpw_arrays_linear` (pymaster/bins.py:5-13); python `//` with positive divisor is
floor division, which is `/` on `ℤ`. -/
def linearBpws (lmax nlb : ℕ) : List ℤ :=
  let bpws := (List.range (lmax + 1)).map (fun l : ℕ => ((l : ℤ) - 2) / (nlb : ℤ))
  let bpws := bpws.mapIdx (fun i x => if i < 2 then -1 else x)
  let last := bpws.getLastD (-1)
  if (bpws.filter (· = last)).length ≠ nlb then bpws.map (fun x => if x = last then -1 else x)
  else bpws

/-- `ells*(ells+1)/(2*pi)` (pymaster/bins.py:95,132,171); `twoPi` stands for `2*np.pi`. -/
def dellFactor (twoPi : K) (ells : List ℕ) : List K :=
  ells.map (fun l : ℕ => ((l : K) * ((l : K) + 1)) / twoPi)

/-- `NmtBin.from_lmax_linear` (pymaster/bins.py:129-134). -/
def fromLmaxLinear (twoPi : K) (lmax nlb : ℕ) (isDell : Bool) (f_ell : Option (List K)) :
    Except Err (Bins K) :=
  let ells := List.range (lmax + 1)
  let f_ell := if isDell ∧ f_ell.isNone then some (dellFactor twoPi ells) else f_ell
  nmtBin (linearBpws lmax nlb) ells (some lmax) (some (List.replicate ells.length 1)) f_ell

/-- `NmtBin.from_nside_linear` (pymaster/bins.py:92-97). -/
def fromNsideLinear (twoPi : K) (nside nlb : ℕ) (isDell : Bool) (f_ell : Option (List K)) :
    Except Err (Bins K) :=
  let ells := List.range (3 * nside - 1 + 1)
  let f_ell := if isDell ∧ f_ell.isNone then some (dellFactor twoPi ells) else f_ell
  nmtBin (linearBpws (3 * nside - 1) nlb) ells (some (3 * nside - 1))
    (some (List.replicate ells.length 1)) f_ell

/-- Loop of `NmtBin.from_edges` (pymaster/bins.py:161-166): for each pair of edges the
multipoles `range(li,le)`, the index and the weight. -/
def edgeLists : ℕ → List (ℕ × ℕ) → List ℕ × List ℤ × List K
  | _, [] => ([], [], [])
  | ib, (li, le) :: t =>
    let nlb := le - li
    let r := edgeLists (ib + 1) t
    (List.range' li nlb ++ r.1, List.replicate nlb (ib : ℤ) ++ r.2.1,
      List.replicate nlb (1 / (nlb : K)) ++ r.2.2)

/-- `NmtBin.from_edges` (pymaster/bins.py:161-173). `zip` stops at the shorter edge array. A pair
with `li > le` gives the empty band (python: `range` is empty and `[ib]*nlb` with negative `nlb`
is empty); for `li = le` python evaluates `1./nlb` and raises `ZeroDivisionError` for python
integers, here the value error. -/
def fromEdges (twoPi : K) (ini fin : List ℕ) (isDell : Bool) (f_ell : Option (List K)) :
    Except Err (Bins K) :=
  let edges := ini.zip fin
  if edges.any (fun p => p.1 = p.2) then .error .value
  else
    let (ells, bpws, weights) := edgeLists (K := K) 0 edges
    let f_ell := if isDell ∧ f_ell.isNone then some (dellFactor twoPi ells) else f_ell
    match ells.max? with
    | none => .error .value
    | some lmax => nmtBin bpws ells (some lmax) (some weights) f_ell

/-- `nmt_bins_constant` (src/nmt_bins.c:21-53); the C integer division truncates, which only differs
from `/` on `ℕ` for `lmax = 0`, where the subtraction gives zero bands in both. -/
def binsConstant (twoPi : K) (nlb lmax : ℕ) (isL2 : Bool) : Bins K :=
  ⟨lmax, (List.range ((lmax - 1) / nlb)).map (fun ii => (List.range nlb).map (fun jj =>
    let ell := 2 + ii * nlb + jj
    ⟨ell, 1 / (nlb : K), if isL2 then (ell : K) * ((ell : K) + 1) / twoPi else 1⟩))⟩

end

section
variable {K : Type*} [Field K]

/-- `nmt_bin_cls` (src/nmt_bins.c:130-147) for one spectrum and one band. -/
def binCls (B : Bins K) (cl : ℕ → K) (ib : ℕ) : K :=
  ((B.band ib).map (fun e => e.w * e.f * cl e.ell)).sum

/-- Inner loop of `nmt_unbin_cls` (src/nmt_bins.c:158-161): the writes of one band. -/
def unbinBand (clb : K) (band : List (BandEntry K)) (out : ℕ → K) : ℕ → K :=
  band.foldl (fun out e => Function.update out e.ell (clb / e.f)) out

/-- Band loop of `nmt_unbin_cls` (src/nmt_bins.c:155-162) from band `i` on. -/
def unbinFrom (x : ℕ → K) : ℕ → List (List (BandEntry K)) → (ℕ → K) → (ℕ → K)
  | _, [], out => out
  | i, b :: bs, out => unbinFrom x (i + 1) bs (unbinBand (x i) b out)

/-- `nmt_unbin_cls` (src/nmt_bins.c:149-164) for one spectrum, called by the SWIG wrapper
`unbin_cl` (namaster.i:196-214) with output set to zero. -/
def unbinCls (B : Bins K) (x : ℕ → K) : ℕ → K := unbinFrom x 0 B.bands (fun _ => 0)

/-- `nmt_ell_eff` (src/nmt_bins.c:166-176). -/
def ellEff (B : Bins K) (ib : ℕ) : K := ((B.band ib).map (fun e => (e.ell : K) * e.w)).sum

/-- `NmtBin.bin_cell` (pymaster/bins.py:262-282) for a single spectrum; rows of a
two-dimensional array are treated independently by the C loop. -/
def binCell (B : Bins K) (cl : List K) : Except Err (List K) :=
  if cl.length ≠ B.ellMax + 1 then .error .value
  else .ok ((List.range B.nBands).map (binCls B (fun l => cl.getD l 0)))

/-- `NmtBin.unbin_cell` (pymaster/bins.py:284-306) for a single spectrum. -/
def unbinCell (B : Bins K) (x : List K) : Except Err (List K) :=
  if x.length ≠ B.nBands then .error .value
  else .ok ((List.range (B.ellMax + 1)).map (unbinCls B (fun i => x.getD i 0)))

/-- `NmtBin.get_effective_ells` (pymaster/bins.py:249-260). -/
def effectiveElls (B : Bins K) : List K := (List.range B.nBands).map (ellEff B)

end

end NaMaster
