import Verif.Mem.Use

/-!
# Memory of the flat-sky classes

Models the functions of the C library and of its wrapper that create, use and destroy the structures behind `NmtBinFlat`,
`NmtFieldFlat`, `NmtWorkspaceFlat` and `NmtCovarianceWorkspaceFlat`, as `Verif/Mem/Model.lean` does for the curved sky: only
allocations, releases and accesses through pointers are kept. Arrays handed over by python belong to python; the wrapper makes
arrays of pointers to their rows. Arrays of pointers that the code allocates or releases in one loop are here allocated or
released one after the other; blocks allocated by each of several threads are allocated once.
-/

namespace NaMaster

namespace MemF

open Mem

/-- A pointer to a row of an array of python: whether it has been set. -/
def usePy (r : Bool) : Mem Unit := fun h => if r then .done () h else .bad

/-- `for(i=0;i<n;i++)` with access to `a[i]`. -/
def useArr (n : ℕ) (a : PArr Ptr) : Mem Unit := loopU n fun i => do
  let p ← a.get i
  use p

/-- The same for rows of python arrays. -/
def usePyArr (n : ℕ) (a : PArr Bool) : Mem Unit := loopU n fun i => do
  let p ← a.get i
  usePy p

/-- Access to `a[i]` for a row of a python array. -/
def pyRow (a : PArr Bool) (i : ℕ) : Mem Unit := do
  let p ← a.get i
  usePy p

/-- Access to `a[i]`. -/
def row (a : PArr Ptr) (i : ℕ) : Mem Unit := do
  let p ← a.get i
  use p

/-- `for(i=0;i<n;i++) fr(a[i]); free(a);`. -/
def freeEach {α : Type} [Inhabited α] (n : ℕ) (a : PArr α) (fr : α → Mem Unit) : Mem Unit := do
  loopU n fun i => do
    let x ← a.get i
    fr x
  free a.ptr

/-- A temporary array whose elements are allocated by `al` and released by `fr`. -/
def withEach {α : Type} [Inhabited α] (n : ℕ) (al : Mem α) (fr : α → Mem Unit) (m : PArr α → Mem Unit) : Mem Unit := do
  let a ← allocArr n fun _ => al
  m a
  freeEach n a fr

/-- A temporary array of pointers to blocks. -/
def withArr (n : ℕ) (m : PArr Ptr → Mem Unit) : Mem Unit := withEach n mallocP free m

/-- An array of pointers to the `n` rows of a python array, allocated and released by the wrapper. -/
def withPy (n : ℕ) (m : PArr Bool → Mem Unit) : Mem Unit := do
  let o ← mallocP
  m ⟨o, List.replicate n true⟩
  free o

/-! ## Binning schemes -/

/-- `nmt_binning_scheme_flat` (src/namaster.h:71-75). -/
structure FBins where
  self : Ptr
  nBands : ℕ
  ell0 : Ptr
  ellf : Ptr

/-- `nmt_bins_flat_create` (src/nmt_bins_flat.c:62-73), also `nmt_bins_copy` (src/nmt_covar_flat.c:15-25) and
`nmt_binning_scheme_flat_fromhdus` (src/nmt_io.c:669-688), which allocate the same blocks. -/
def fbinsCreate (n : ℕ) : Mem FBins := do
  let self ← mallocP
  let l0 ← mallocP
  let lf ← mallocP
  pure ⟨self, n, l0, lf⟩

/-- `nmt_bins_flat_free` (src/nmt_bins_flat.c:35-40). -/
def fbinsFree (b : FBins) : Mem Unit := do
  freeM b.self b.ell0
  freeM b.self b.ellf
  free b.self

/-- The limits of the bands are read. -/
def useEdges (b : FBins) : Mem Unit := do
  use b.self
  use b.ell0
  use b.ellf

/-! ## Functions of the wave number, and pixels -/

/-- `nmt_k_function` (src/namaster.h:252-259). -/
structure KFun where
  self : Ptr
  isConst : Bool
  spl : Ptr
  deriving Inhabited

/-- `nmt_k_function_alloc` (src/nmt_field_flat.c:4-17). -/
def kAlloc (isConst : Bool) : Mem KFun := do
  let self ← mallocP
  let spl ← pick isConst (pure .uninit) mallocP
  pure ⟨self, isConst, spl⟩

/-- `nmt_k_function_free` (src/nmt_field_flat.c:19-24). -/
def kFree (f : KFun) : Mem Unit := do
  use f.self
  whenC (!f.isConst) (freeM f.self f.spl)
  free f.self

/-- `nmt_k_function_eval` (src/nmt_field_flat.c:26-34), for some wave number inside the range of the spline. -/
def kEval (f : KFun) : Mem Unit := do
  use f.self
  whenC (!f.isConst) (use f.spl)

/-- `nx`, `ny`, `lx`, `ly`. -/
structure FPix where
  nx : ℕ
  ny : ℕ
  lx : ℚ
  ly : ℚ
  deriving DecidableEq, Inhabited

/-- `nmt_flatsky_info` (src/namaster.h:298-310). -/
structure FInfo where
  self : Ptr
  pix : FPix
  ellMin : Ptr

/-- `nmt_flatsky_info_alloc` (src/nmt_field_flat.c:37-64). -/
def infoAlloc (p : FPix) : Mem FInfo := do
  let self ← mallocP
  let ellMin ← mallocP
  pure ⟨self, p, ellMin⟩

/-- `nmt_flatsky_info_free` (src/nmt_field_flat.c:66-70). -/
def infoFree (i : FInfo) : Mem Unit := do
  freeM i.self i.ellMin
  free i.self

/-! ## Fields -/

/-- `nmt_field_flat` (src/namaster.h:335-353). -/
structure FFld where
  self : Ptr
  spin : ℕ
  ntemp : ℕ
  pure : Bool
  lite : Bool
  maskOnly : Bool
  fs : FInfo
  beam : KFun
  mask : Ptr
  alms : PArr Ptr
  matM : Ptr
  maps : PArr Ptr
  temp : PArr (PArr Ptr)
  aTemp : PArr (PArr Ptr)
  aMask : PArr Ptr

/-- One map for spin 0 and two otherwise. -/
def mapsOf (spin : ℕ) : ℕ := if spin = 0 then 1 else 2

/-- The number of maps of a field. -/
def FFld.nmaps (f : FFld) : ℕ := mapsOf f.spin

/-- Arguments of `nmt_field_flat_alloc`; `pure` is `pure_e || pure_b`. -/
structure FldArgs where
  pix : FPix
  spin : ℕ
  ntemp : ℕ
  beam : Bool
  pure : Bool
  lite : Bool
  maskOnly : Bool

/-- The number of maps. -/
def FldArgs.nmaps (a : FldArgs) : ℕ := mapsOf a.spin

/-- `nmt_purify_flat` (src/nmt_field_flat.c:145-272); `out` accesses `maps_out`. -/
def purify (self : Ptr) (nmaps : ℕ) (mask : Ptr) (walm mapsIn : PArr Ptr) (out : Mem Unit) (alms : PArr Ptr) : Mem Unit := do
  use self
  withArr nmaps fun pmap => withArr nmaps fun wmap => withArr nmaps fun walm' => withArr nmaps fun palm =>
    withArr nmaps fun almOut => do
      useArr nmaps walm
      useArr nmaps walm'
      useArr nmaps mapsIn
      use mask
      useArr nmaps pmap
      useArr nmaps almOut
      useArr nmaps wmap
      useArr nmaps palm
      useArr nmaps alms
      out

/-- `flouble ***` with `ntemp` sets of `nmaps` maps. -/
def allocTemps (ntemp nmaps : ℕ) : Mem (PArr (PArr Ptr)) := allocArr ntemp fun _ => allocArr nmaps fun _ => mallocP

/-- Such arrays are released. -/
def freeTemps (ntemp nmaps : ℕ) (t : PArr (PArr Ptr)) : Mem Unit := freeEach ntemp t fun r => freeEach nmaps r free

/-- Such arrays are read. -/
def useTemps (ntemp nmaps : ℕ) (t : PArr (PArr Ptr)) : Mem Unit := loopU ntemp fun it => do
  let r ← t.get it
  useArr nmaps r

/-- Templates of python are read or changed. -/
def usePyTemps (ntemp nmaps : ℕ) (t : PArr (PArr Bool)) : Mem Unit := loopU ntemp fun it => do
  let r ← t.get it
  usePyArr nmaps r

/-- The part of `nmt_field_flat_alloc` for purified fields (src/nmt_field_flat.c:439-488); the result is `a_mask`. -/
def fldPurify (a : FldArgs) (self mask : Ptr) (maps : PArr Bool) (temp : PArr (PArr Bool)) (mu : PArr Ptr)
    (tu : PArr (PArr Ptr)) (alms : PArr Ptr) (aTemp : PArr (PArr Ptr)) : Mem (PArr Ptr) := do
  let am ← allocArr a.nmaps fun _ => mallocP
  purify self a.nmaps mask am mu (usePyArr a.nmaps maps) alms
  whenC (!a.lite && decide (0 < a.ntemp)) (loopU a.ntemp fun it => do
    let t ← tu.get it
    let o ← temp.get it
    let at' ← aTemp.get it
    purify self a.nmaps mask am t (usePyArr a.nmaps o) at')
  freeEach a.nmaps mu free
  whenC (decide (0 < a.ntemp)) (freeTemps a.ntemp a.nmaps tu)
  pick a.lite (do freeEach a.nmaps am free; pure nullArr) (pure am)

/-- The part without purification (src/nmt_field_flat.c:489-499). -/
def fldTransform (a : FldArgs) (maps : PArr Bool) (temp : PArr (PArr Bool)) (alms : PArr Ptr) (aTemp : PArr (PArr Ptr)) :
    Mem (PArr Ptr) := do
  usePyArr a.nmaps maps
  useArr a.nmaps alms
  whenC (!a.lite && decide (0 < a.ntemp)) do
    usePyTemps a.ntemp a.nmaps temp
    useTemps a.ntemp a.nmaps aTemp
  pure nullArr

/-- The part of `nmt_field_flat_alloc` after the return for fields without maps (src/nmt_field_flat.c:323-519). -/
def fldMaps (a : FldArgs) (maps : PArr Bool) (temp : PArr (PArr Bool)) (self : Ptr) (fs : FInfo) (beam : KFun) (mask : Ptr) :
    Mem FFld := do
  let mu ← pick a.pure (allocArr a.nmaps fun _ => mallocP) (pure default)
  let tu ← pick (a.pure && decide (0 < a.ntemp)) (allocTemps a.ntemp a.nmaps) (pure default)
  usePyArr a.nmaps maps
  whenC (decide (0 < a.ntemp)) (usePyTemps a.ntemp a.nmaps temp)
  let matM ← pick (decide (0 < a.ntemp)) mallocP (pure .uninit)
  whenC (decide (0 < a.ntemp)) do
    let prods ← mallocP
    use matM
    whenC a.pure do
      useArr a.nmaps mu
      useTemps a.ntemp a.nmaps tu
    free prods
  let alms ← allocArr a.nmaps fun _ => mallocP
  let aTemp ← pick a.lite (pure nullArr) (pick (decide (0 < a.ntemp)) (allocTemps a.ntemp a.nmaps) (pure default))
  let aMask ← pick a.pure (fldPurify a self mask maps temp mu tu alms aTemp) (fldTransform a maps temp alms aTemp)
  let mps ← pick a.lite (pure nullArr) (allocArr a.nmaps fun _ => mallocP)
  let tmp ← pick (!a.lite && decide (0 < a.ntemp)) (allocTemps a.ntemp a.nmaps) (pure nullArr)
  pure ⟨self, a.spin, a.ntemp, a.pure, a.lite, false, fs, beam, mask, alms, matM, mps, tmp, aTemp, aMask⟩

/-- `nmt_field_flat_alloc` (src/nmt_field_flat.c:274-520). -/
def fldAlloc (a : FldArgs) (maps : PArr Bool) (temp : PArr (PArr Bool)) : Mem FFld := do
  let self ← mallocP
  let fs ← infoAlloc a.pix
  whenC (a.pure && decide (a.spin ≠ 2)) raiseErr
  let beam ← kAlloc (!a.beam)
  let mask ← mallocP
  if a.maskOnly then
    pure ⟨self, a.spin, a.ntemp, a.pure, true, true, fs, beam, mask, nullArr, .uninit, nullArr, nullArr, nullArr, nullArr⟩
  else fldMaps a maps temp self fs beam mask

/-- `field_alloc_empty_flat` (pymaster/namaster.i:237-261). -/
def fldEmpty (a : FldArgs) : Mem FFld := fldAlloc { a with maskOnly := true, lite := true, ntemp := 0 } nullArr nullArr

/-- `field_alloc_new_flat` (pymaster/namaster.i:263-320) and `field_alloc_new_notemp_flat` (pymaster/namaster.i:322-334), which has no
templates; `templates` tells which. -/
def fldNew (a : FldArgs) (templates : Bool) : Mem FFld := do
  let ntemp := if templates then a.ntemp else 0
  let temp ← pick templates (allocArr a.ntemp fun _ => do
    let o ← mallocP
    pure (⟨o, List.replicate a.nmaps true⟩ : PArr Bool)) (pure nullArr)
  let maps ← mallocP
  let f ← fldAlloc { a with maskOnly := false, ntemp := ntemp } ⟨maps, List.replicate a.nmaps true⟩ temp
  whenC templates (freeEach a.ntemp temp fun r => free r.ptr)
  free maps
  pure f

/-- `nmt_field_flat_free` (src/nmt_field_flat.c:72-111). -/
def fldFree (f : FFld) : Mem Unit := do
  use f.self
  kFree f.beam
  use f.self
  infoFree f.fs
  freeM f.self f.mask
  whenC (!f.maskOnly) do
    use f.self
    freeEach f.nmaps f.alms free
    whenC (decide (0 < f.ntemp)) (freeM f.self f.matM)
  whenC (!f.lite) do
    use f.self
    freeEach f.nmaps f.maps free
    whenC (decide (0 < f.ntemp)) do
      use f.self
      freeTemps f.ntemp f.nmaps f.temp
      freeTemps f.ntemp f.nmaps f.aTemp
    use f.self
    whenC (decide (f.aMask.ptr ≠ .null)) (freeEach f.nmaps f.aMask free)
  free f.self

/-- `get_mask_flat` and `get_ell_sampling_flat` (pymaster/namaster.i:336-340, 875-881); for fields that are not lite also `get_map_flat`
and `get_temp_flat` (pymaster/namaster.i:342-358, pymaster/field.py:753-793). -/
def fldGet (f : FFld) : Mem Unit := do
  use f.self
  use f.mask
  use f.fs.self
  use f.fs.ellMin
  whenC (!f.lite) do
    useArr f.nmaps f.maps
    loopU f.ntemp fun it => do
      let r ← f.temp.get it
      useArr f.nmaps r

/-! ## Coupling matrices -/

/-- `nmt_workspace_flat` (src/namaster.h:505-522). -/
structure FWsp where
  self : Ptr
  ncls : ℕ
  bin : FBins
  fs : FInfo
  nCells : Ptr
  unbinned : PArr Ptr
  binned : PArr Ptr
  gsl : Ptr
  perm : Ptr

/-- The number of rows of the matrices. -/
def FWsp.rows (w : FWsp) : ℕ := w.ncls * w.bin.nBands

/-- `nmt_workspace_flat_new` (src/nmt_master_flat.c:34-68). -/
def fwspNew (ncls : ℕ) (fs : FInfo) (bin : FBins) : Mem FWsp := do
  let self ← mallocP
  useEdges bin
  let b ← fbinsCreate bin.nBands
  use fs.self
  let i ← infoAlloc fs.pix
  let nc ← mallocP
  let unb ← allocArr (ncls * bin.nBands) fun _ => mallocP
  let bnd ← allocArr (ncls * bin.nBands) fun _ => mallocP
  let g ← mallocP
  let p ← mallocP
  pure ⟨self, ncls, b, i, nc, unb, bnd, g, p⟩

/-- `nmt_workspace_flat_free` (src/nmt_master_flat.c:17-32). -/
def fwspFree (w : FWsp) : Mem Unit := do
  freeM w.self w.perm
  freeM w.self w.gsl
  use w.self
  use w.bin.self
  freeEach (w.ncls * w.bin.nBands) w.unbinned free
  use w.self
  use w.bin.self
  freeEach (w.ncls * w.bin.nBands) w.binned free
  freeM w.self w.nCells
  use w.self
  fbinsFree w.bin
  use w.self
  infoFree w.fs
  free w.self

/-- Number of spectra: `n_cl` in `nmt_compute_coupling_matrix_flat` (src/nmt_master_flat.c:87-92). -/
def nclsOf (f1 f2 : FFld) (teb : Bool) : ℕ := if teb then 7 else f1.nmaps * f2.nmaps

/-- `nmt_compute_coupling_matrix_flat` (src/nmt_master_flat.c:79-539). -/
def fwspCompute (f1 f2 : FFld) (bin : FBins) (teb : Bool) : Mem FWsp := do
  use f1.self
  use f2.self
  use f1.fs.self
  use f2.fs.self
  whenC (decide (f1.fs.pix ≠ f2.fs.pix)) raiseErr
  whenC (teb && !(decide (f1.spin = 0) && decide (f2.spin ≠ 0))) raiseErr
  let w ← fwspNew (nclsOf f1 f2 teb) f1.fs bin
  withTemps (if f1.self = f2.self then 1 else 2) do
    use f1.mask
    use f2.mask
    withTemps (if 1 < w.ncls then 10 else 6) do
      withTemps 4 do
        use w.nCells
        useEdges w.bin
        kEval f1.beam
        kEval f2.beam
      withArr w.rows fun cu => withArr w.rows fun cb => do
        useArr w.rows cu
        useArr w.rows cb
        use w.self
        useArr w.rows w.unbinned
        useArr w.rows w.binned
      use w.gsl
      use w.perm
  pure w

/-! ## Spectra -/

/-- `fs_alm2cl` (src/flatsky_utils.c:355-430); `out i` accesses `cls[i]`. -/
def almToCl (bin : FBins) (nm1 nm2 : ℕ) (a1 a2 : PArr Ptr) (out : ℕ → Mem Unit) : Mem Unit := do
  useEdges bin
  let n ← mallocP
  loopU nm1 fun i1 => do
    row a1 i1
    loopU nm2 fun i2 => do
      row a2 i2
      loopU bin.nBands fun _ => out (i2 + nm2 * i1)
  free n

/-- `nmt_compute_coupled_cell_flat` (src/nmt_master_flat.c:898-908). -/
def coupledCell (f1 f2 : FFld) (bin : FBins) (out : ℕ → Mem Unit) : Mem Unit := do
  use f1.self
  use f2.self
  whenC (f1.maskOnly || f2.maskOnly) raiseErr
  use f1.fs.self
  use f2.fs.self
  whenC (decide (f1.fs.pix ≠ f2.fs.pix)) raiseErr
  almToCl bin f1.nmaps f2.nmaps f1.alms f2.alms out

/-- `comp_pspec_coupled_flat` (pymaster/namaster.i:698-717). -/
def coupledPy (f1 f2 : FFld) (bin : FBins) : Mem Unit := do
  use f1.self
  use f2.self
  use f1.fs.self
  use f2.fs.self
  whenC (decide (f1.fs.pix ≠ f2.fs.pix)) raiseErr
  withPy (f1.nmaps * f2.nmaps) fun out => coupledCell f1 f2 bin (pyRow out)

/-- `purify_generic_flat` (src/nmt_master_flat.c:4-15). -/
def purifyGeneric (f : FFld) (mapsIn alms : PArr Ptr) : Mem Unit := do
  use f.self
  if f.pure then purify f.self f.nmaps f.mask f.aMask mapsIn (useArr f.nmaps mapsIn) alms
  else do
    useArr f.nmaps mapsIn
    use f.mask
    useArr f.nmaps alms

/-- The templates of a field are multiplied by its mask and transformed (`fs_map_product` and `fs_map2alm` in
src/nmt_master_flat.c:589-593, 622-626, 653-657), for template `it`. -/
def tempAlm (f : FFld) (it : ℕ) (map alm : PArr Ptr) : Mem Unit := do
  use f.self
  let t ← f.temp.get it
  useArr f.nmaps t
  use f.mask
  useArr f.nmaps map
  useArr f.nmaps alm

/-- The result is multiplied by the proposal spectra (src/nmt_master_flat.c:594-601, 627-634, 658-668). -/
def propAlm (nm1 nm2 : ℕ) (prop : PArr KFun) (map1 alm1 map2 alm2 : PArr Ptr) : Mem Unit := do
  loopU nm1 fun im1 => loopU nm2 fun im2 => do
    row alm1 im1
    row alm2 im2
    let k ← prop.get (im1 * nm2 + im2)
    kEval k
  useArr nm1 map1
  useArr nm1 alm1
  useArr nm2 map2
  useArr nm2 alm2

/-- `nmt_compute_deprojection_bias_flat` (src/nmt_master_flat.c:541-716); `guess i` and `bias i` access `cl_proposal[i]` and
`cl_bias[i]`. -/
def deprojBias (f1 f2 : FFld) (bin : FBins) (guess bias : ℕ → Mem Unit) : Mem Unit := do
  use f1.self
  use f2.self
  whenC (f1.lite || f2.lite) raiseErr
  let nspec := f1.nmaps * f2.nmaps
  let clDum ← allocArr nspec fun _ => mallocP
  let prop ← allocArr nspec fun _ => kAlloc false
  loopU nspec fun i => do
    guess i
    loopU bin.nBands fun _ => bias i
  use f1.fs.self
  use f2.fs.self
  whenC (decide (f1.fs.pix ≠ f2.fs.pix)) raiseErr
  let acc : Mem Unit := loopU nspec fun i => loopU bin.nBands fun _ => do bias i; row clDum i
  withArr f1.nmaps fun map1 => withArr f1.nmaps fun alm1 => withArr f2.nmaps fun map2 => withArr f2.nmaps fun alm2 => do
    loopU f2.ntemp fun iti => loopU f2.ntemp fun itj => do
      use f2.matM
      tempAlm f2 itj map2 alm2
      propAlm f1.nmaps f2.nmaps prop map1 alm1 map2 alm2
      purifyGeneric f1 map1 alm1
      let t ← f2.aTemp.get iti
      almToCl bin f1.nmaps f2.nmaps alm1 t (row clDum)
      acc
    loopU f1.ntemp fun iti => loopU f1.ntemp fun itj => do
      use f1.matM
      tempAlm f1 itj map1 alm1
      propAlm f1.nmaps f2.nmaps prop map1 alm1 map2 alm2
      purifyGeneric f2 map2 alm2
      let t ← f1.aTemp.get iti
      almToCl bin f1.nmaps f2.nmaps t alm2 (row clDum)
      acc
    whenC (decide (0 < f1.ntemp) && decide (0 < f2.ntemp)) (withTemps 1 do
      loopU f1.ntemp fun itj => loopU f2.ntemp fun itq => do
        tempAlm f2 itq map2 alm2
        propAlm f1.nmaps f2.nmaps prop map1 alm1 map2 alm2
        let t ← f1.temp.get itj
        useArr f1.nmaps t
      loopU f1.ntemp fun iti => loopU f2.ntemp fun itp => do
        let t1 ← f1.aTemp.get iti
        let t2 ← f2.aTemp.get itp
        almToCl bin f1.nmaps f2.nmaps t1 t2 (row clDum)
        use f1.matM
        use f2.matM
        acc)
  freeEach nspec clDum free
  freeEach nspec prop kFree

/-- `comp_deproj_bias_flat` (pymaster/namaster.i:541-564). -/
def deprojPy (f1 f2 : FFld) (bin : FBins) : Mem Unit :=
  withPy (f1.nmaps * f2.nmaps) fun bias => withPy (f1.nmaps * f2.nmaps) fun guess =>
    deprojBias f1 f2 bin (pyRow guess) (pyRow bias)

/-- `nmt_decouple_cl_l_flat` (src/nmt_master_flat.c:873-896). -/
def decouple (w : FWsp) (clIn clNoise clBias clOut : ℕ → Mem Unit) : Mem Unit := do
  use w.self
  use w.bin.self
  withTemps 2 do
    loopU w.ncls fun icl => loopU w.bin.nBands fun _ => do
      clIn icl
      clNoise icl
      clBias icl
    use w.gsl
    use w.perm
    loopU w.ncls fun icl => loopU w.bin.nBands fun _ => clOut icl

/-- `decouple_cell_py_flat` (pymaster/namaster.i:753-785). -/
def decouplePy (w : FWsp) : Mem Unit := do
  use w.self
  use w.bin.self
  withPy w.ncls fun cin => withPy w.ncls fun noise => withPy w.ncls fun bias => withPy w.ncls fun out =>
    decouple w (pyRow cin) (pyRow noise) (pyRow bias) (pyRow out)

/-- `couple_cell_py_flat` (pymaster/namaster.i:807-827) with `nmt_couple_cl_l_flat_fast` (src/nmt_master_flat.c:718-802). -/
def couplePy (w : FWsp) : Mem Unit := do
  use w.self
  withPy w.ncls fun cin => withPy w.ncls fun out => withTemps 2 (withEach w.ncls (kAlloc false) kFree fun fcl => do
    usePyArr w.ncls cin
    use w.fs.self
    withTemps 3 (loopU w.ncls fun ic => do
      let k ← fcl.get ic
      kEval k)
    use w.bin.self
    useArr w.rows w.unbinned
    usePyArr w.ncls out)

/-- `nmt_compute_power_spectra_flat` (src/nmt_master_flat.c:910-950); `w0` is `none` for a null pointer. -/
def fullSpectra (f1 f2 : FFld) (bin : FBins) (w0 : Option FWsp) (noise guess out : ℕ → Mem Unit) : Mem FWsp := do
  let w ← match w0 with
    | none => fwspCompute f1 f2 bin false
    | some w => do
      use f1.self
      use f2.self
      use w.self
      use w.fs.self
      use f1.fs.self
      use f2.fs.self
      whenC (decide (f1.fs.pix ≠ w.fs.pix) || decide (f2.fs.pix ≠ w.fs.pix)) raiseErr
      use bin.self
      use w.bin.self
      whenC (decide (bin.nBands ≠ w.bin.nBands)) raiseErr
      pure w
  let clBias ← allocArr w.ncls fun _ => mallocP
  let clData ← allocArr w.ncls fun _ => mallocP
  coupledCell f1 f2 bin (row clData)
  deprojBias f1 f2 bin guess (row clBias)
  decouple w (row clData) noise (row clBias) out
  freeEach w.ncls clBias free
  freeEach w.ncls clData free
  pure w

/-- `comp_pspec_flat` (pymaster/namaster.i:840-873). -/
def fullPy (f1 f2 : FFld) (bin : FBins) (w0 : Option FWsp) : Mem Unit := do
  let noise ← mallocP
  let guess ← mallocP
  let out ← mallocP
  let rows : Ptr → PArr Bool := fun p => ⟨p, List.replicate (f1.nmaps * f2.nmaps) true⟩
  let w ← fullSpectra f1 f2 bin w0 (pyRow (rows noise)) (pyRow (rows guess)) (pyRow (rows out))
  free out
  free guess
  free noise
  whenC w0.isNone (fwspFree w)

/-- `bin_cl_flat` and `unbin_cl_flat` (pymaster/namaster.i:176-194, 216-235) with `nmt_bin_cls_flat`, `nmt_unbin_cls_flat`
(src/nmt_bins_flat.c:75-110); the latter allocates nothing. -/
def binPy (b : FBins) (ncl : ℕ) (unbin : Bool) : Mem Unit := do
  use b.self
  withPy ncl fun cin => withPy ncl fun out => withTemps (if unbin then 0 else 1) (loopU ncl fun icl => do
    pyRow cin icl
    useEdges b
    whenC (!unbin) do
      let k ← kAlloc false
      kEval k
      kFree k
    pyRow out icl)

/-! ## Covariances -/

/-- `nmt_covar_workspace_flat` (src/namaster.h:863-873); the eight tables in the order of the structure. -/
structure FCov where
  self : Ptr
  bin : FBins
  xi : List (PArr Ptr)

/-- `nmt_covar_workspace_flat_init` (src/nmt_covar_flat.c:27-287). -/
def fcovInit (fa1 fa2 fb1 fb2 : FFld) (ba bb : FBins) : Mem FCov := do
  use fa1.self
  use fa2.self
  use fb1.self
  use fb2.self
  whenC (decide (¬(fa1.fs.pix.nx = fa2.fs.pix.nx ∧ fa1.fs.pix.ny = fa2.fs.pix.ny ∧ fa1.fs.pix.nx = fb1.fs.pix.nx ∧
    fa1.fs.pix.ny = fb1.fs.pix.ny ∧ fa1.fs.pix.nx = fb2.fs.pix.nx ∧ fa1.fs.pix.ny = fb2.fs.pix.ny))) raiseErr
  use ba.self
  use bb.self
  whenC (decide (ba.nBands ≠ bb.nBands)) raiseErr
  let self ← mallocP
  useEdges ba
  let b ← fbinsCreate ba.nBands
  let xi ← loopC 8 fun _ => allocArr ba.nBands fun _ => mallocP
  withTemps 7 do
    withTemps 4 do
      withTemps 1 do
        use fa1.mask
        use fa2.mask
        use fb1.mask
        use fb2.mask
      withTemps 1 (useEdges b)
    withEach 8 (allocArr ba.nBands fun _ => mallocP) (fun t => freeEach ba.nBands t free) fun thr =>
      loopU 8 fun i => do
        let t ← thr.get i
        useArr ba.nBands t
        useArr ba.nBands (xi.getD i default)
  pure ⟨self, b, xi⟩

/-- Each table of a covariance workspace is released. -/
def freeTabs (s : Ptr) (n : ℕ) : List (PArr Ptr) → Mem Unit
  | [] => pure ()
  | t :: l => do
    use s
    freeEach n t free
    freeTabs s n l

/-- `nmt_covar_workspace_flat_free` (src/nmt_covar_flat.c:289-313). -/
def fcovFree (cw : FCov) : Mem Unit := do
  use cw.self
  use cw.bin.self
  freeTabs cw.self cw.bin.nBands cw.xi
  use cw.self
  fbinsFree cw.bin
  free cw.self

/-- The tables are read. -/
def useTabs (s : Ptr) (n : ℕ) : List (PArr Ptr) → Mem Unit
  | [] => pure ()
  | t :: l => do
    use s
    useArr n t
    useTabs s n l

/-- `comp_gaussian_covariance_flat` (pymaster/namaster.i:666-696) with `nmt_compute_gaussian_covariance_flat`
(src/nmt_covar_flat.c:315-454). `nm` are the numbers of maps of the four fields. -/
def gaussPy (cw : FCov) (wa wb : FWsp) (na1 na2 nb1 nb2 : ℕ) : Mem Unit :=
  withPy (na1 * nb1) fun c11 => withPy (na1 * nb2) fun c12 => withPy (na2 * nb1) fun c21 => withPy (na2 * nb2) fun c22 => do
    use cw.self
    use cw.bin.self
    use wa.self
    use wa.bin.self
    use wb.self
    use wb.bin.self
    whenC (decide (wa.bin.nBands ≠ cw.bin.nBands) || decide (wb.bin.nBands ≠ cw.bin.nBands)) raiseErr
    whenC (decide (wa.ncls ≠ na1 * na2) || decide (wb.ncls ≠ nb1 * nb2)) raiseErr
    withArr (na1 * nb1) fun b11 => withArr (na1 * nb2) fun b12 => withArr (na2 * nb1) fun b21 => withArr (na2 * nb2) fun b22 => do
      usePyArr (na1 * nb1) c11
      usePyArr (na1 * nb2) c12
      usePyArr (na2 * nb1) c21
      usePyArr (na2 * nb2) c22
      useEdges cw.bin
      withTemps 5 do
        useArr (na1 * nb1) b11
        useArr (na1 * nb2) b12
        useArr (na2 * nb1) b21
        useArr (na2 * nb2) b22
        useTabs cw.self cw.bin.nBands cw.xi
        use wb.gsl
        use wb.perm
        use wa.gsl
        use wa.perm

/-! ## Files -/

/-- `nmt_workspace_flat_write_fits` (src/nmt_io.c:690-712) with the functions called from it (lines 396-422, 454-480, 511-529, 548-586,
636-667). -/
def fwspWrite (w : FWsp) (fail : Option ℕ) : Mem Unit := do
  checkpoint fail 0
  use w.self
  use w.bin.self
  useArr w.rows w.unbinned
  checkpoint fail 1
  withTemps 6 do
    use w.fs.self
    use w.fs.ellMin
  checkpoint fail 2
  withTemps 6 (use w.nCells)
  checkpoint fail 3
  useArr w.rows w.binned
  withTemps 1 (use w.gsl)
  withTemps 1 (use w.perm)
  checkpoint fail 4
  withTemps 9 (useEdges w.bin)
  checkpoint fail 5

/-- What a file contains: the number of spectra in the header, the pixels, the numbers of rows of the unbinned and of the binned
matrix, the number of rows of the table of bands; `fail` is the check that fails, if any. -/
structure FWspFile where
  ncls : ℕ
  pix : FPix
  nRows : ℕ
  nEl : ℕ
  nBands : ℕ
  fail : Option ℕ

/-- `nmt_workspace_flat_read_fits` (src/nmt_io.c:714-740) with the functions called from it (lines 424-452, 482-509, 531-546, 588-634,
669-688). Check 4 is the comparison of sizes in `nmt_flat_coupling_binned_fromhdus`. -/
def fwspRead (f : FWspFile) : Mem FWsp := do
  let self ← mallocP
  checkpoint f.fail 0
  let unb ← allocArr f.nRows fun _ => mallocP
  checkpoint f.fail 1
  let fs ← infoAlloc f.pix
  checkpoint f.fail 2
  let nc ← mallocP
  checkpoint f.fail 3
  let matrix ← mallocP
  let bnd ← allocArr f.nEl fun _ => mallocP
  checkpoint f.fail 4
  let g ← mallocP
  free matrix
  let permI ← mallocP
  let p ← mallocP
  free permI
  checkpoint f.fail 5
  let b ← fbinsCreate f.nBands
  checkpoint f.fail 6
  pure ⟨self, f.ncls, b, fs, nc, unb, bnd, g, p⟩

/-- `nmt_covar_workspace_flat_write_fits` (src/nmt_io.c:872-906). Checks between the tables come after them here. -/
def fcovWrite (cw : FCov) (fail : Option ℕ) : Mem Unit := do
  checkpoint fail 0
  checkpoint fail 1
  use cw.self
  withTemps 9 (useEdges cw.bin)
  checkpoint fail 2
  useTabs cw.self cw.bin.nBands cw.xi
  checkpoint fail 3

/-- A file with coupling coefficients. -/
structure FCovFile where
  nBands : ℕ
  fail : Option ℕ

/-- Tables `k`, `k + 1`, … are read (src/nmt_io.c:922-938). -/
def readTabs (fail : Option ℕ) (n : ℕ) : ℕ → ℕ → Mem (List (PArr Ptr))
  | _, 0 => pure []
  | k, m + 1 => do
    let t ← coeffsRead fail k n
    let l ← readTabs fail n (k + 2) m
    pure (t :: l)

/-- `nmt_covar_workspace_flat_read_fits` (src/nmt_io.c:908-942). -/
def fcovRead (f : FCovFile) : Mem FCov := do
  let self ← mallocP
  checkpoint f.fail 0
  let b ← fbinsCreate f.nBands
  checkpoint f.fail 1
  let xi ← readTabs f.fail f.nBands 2 8
  pure ⟨self, b, xi⟩

end MemF

end NaMaster
