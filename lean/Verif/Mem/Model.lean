import Verif.Mem.Heap

/-!
# Memory of binning schemes, workspaces and covariance workspaces

Models the functions of the C library that create, change and destroy the structures behind `NmtBin`, `NmtWorkspace` and
`NmtCovarianceWorkspace`, keeping only allocations, releases and accesses through pointers. Every structure carries the
pointer to itself, the sizes used by loops, and its pointer members. Access to a member `s->x` needs the structure `s` to be
there (`use s.self`). Values of matrices are in the other models.
-/

namespace NaMaster

namespace Mem

/-- `free(s->p)`. -/
def freeM (s p : Ptr) : Mem Unit := do
  use s
  free p

/-- `free(s->a[i])`. -/
def freeE (s : Ptr) (a : PArr Ptr) (i : ℕ) : Mem Unit := do
  use s
  let p ← a.get i
  free p

/-- `if(c) { m }`. -/
def whenC (c : Bool) (m : Mem Unit) : Mem Unit := if c then m else pure ()

/-- `if(c) x=m1; else x=m2;`. -/
def pick {α : Type} (c : Bool) (m1 m2 : Mem α) : Mem α := if c then m1 else m2

/-! ## Binning schemes -/

/-- `nmt_binning_scheme` (src/namaster.h:166-173). -/
structure Bins where
  self : Ptr
  ellMax : ℕ
  nBands : ℕ
  nellList : Ptr
  ellList : PArr Ptr
  wList : PArr Ptr
  fEll : PArr Ptr

/-- `nmt_bins_free` (src/nmt_bins.c:4-19). -/
def binsFree (b : Bins) : Mem Unit :=
  if b.self = .null then pure () else do
    freeM b.self b.nellList
    loopU b.nBands fun ii => do
      freeE b.self b.ellList ii
      freeE b.self b.wList ii
      freeE b.self b.fEll ii
    freeM b.self b.ellList.ptr
    freeM b.self b.wList.ptr
    freeM b.self b.fEll.ptr
    free b.self

/-- `nmt_bins_create` (src/nmt_bins.c:55-130). `nBands` is the number of bands found by the first loop; `good i` tells
whether the weights of band `i` have a positive sum, otherwise the error at line 124 is reported. -/
def binsCreate (nBands ellMax : ℕ) (good : ℕ → Bool) : Mem Bins := do
  let self ← mallocP
  let nell ← mallocP
  let eo ← mallocP
  let wo ← mallocP
  let fo ← mallocP
  let rows ← loopC nBands fun _ => do
    let e ← mallocP
    let w ← mallocP
    let f ← mallocP
    pure (e, w, f)
  loopU nBands fun ii => whenC (!good ii) raiseErr
  pure ⟨self, ellMax, nBands, nell, ⟨eo, rows.map (·.1)⟩, ⟨wo, rows.map (·.2.1)⟩, ⟨fo, rows.map (·.2.2)⟩⟩

/-- `nmt_workspace_store_bins` (src/nmt_master.c:4-26): a copy of a binning scheme. The lists of the original are read. -/
def storeBins (bin : Bins) : Mem Bins := do
  let self ← mallocP
  use bin.self
  let nell ← mallocP
  use bin.nellList
  let eo ← mallocP
  let wo ← mallocP
  let fo ← mallocP
  let rows ← loopC bin.nBands fun ii => do
    let e ← mallocP
    let w ← mallocP
    let f ← mallocP
    let e' ← bin.ellList.get ii
    use e'
    let w' ← bin.wList.get ii
    use w'
    let f' ← bin.fEll.get ii
    use f'
    pure (e, w, f)
  pure ⟨self, bin.ellMax, bin.nBands, nell, ⟨eo, rows.map (·.1)⟩, ⟨wo, rows.map (·.2.1)⟩, ⟨fo, rows.map (·.2.2)⟩⟩

/-! ## Workspaces -/

/-- `nmt_workspace` (src/namaster.h:695-709). -/
structure Wsp where
  self : Ptr
  lmax : ℕ
  ncls : ℕ
  fkp : Bool
  pclMasks : Ptr
  beamProd : Ptr
  unbinned : PArr Ptr
  bin : Bins
  binned : Ptr
  perm : Ptr

/-- `nmt_workspace_new` (src/nmt_master.c:28-55). -/
def wspNew (ncls : ℕ) (bin : Bins) (fkp : Bool) : Mem Wsp := do
  let self ← mallocP
  use bin.self
  let pcl ← mallocP
  let beam ← mallocP
  let unb ← allocArr (ncls * (bin.ellMax + 1)) fun _ => mallocP
  let b ← storeBins bin
  let binned ← mallocP
  let perm ← mallocP
  pure ⟨self, bin.ellMax, ncls, fkp, pcl, beam, unb, b, binned, perm⟩

/-- `nmt_workspace_free` (src/nmt_master.c:58-72). -/
def wspFree (w : Wsp) : Mem Unit := do
  freeM w.self w.perm
  freeM w.self w.binned
  use w.self
  binsFree w.bin
  whenC (w.unbinned.ptr ≠ .null) do
    loopU (w.ncls * (w.lmax + 1)) fun ii => freeE w.self w.unbinned ii
    freeM w.self w.unbinned.ptr
  freeM w.self w.beamProd
  freeM w.self w.pclMasks
  free w.self

/-- `bin_coupling_matrix` (src/nmt_master.c:74-104): what it accesses. With the usual normalisation it reads, for every band,
the lists of the band, the beams and rows of the unbinned matrix. The code reads the rows of the multipoles of the bands, here it
reads all rows up to `ell_max`. -/
def binCoupling (w : Wsp) : Mem Unit := do
  use w.self
  use w.bin.self
  whenC (!w.fkp) do
    loopU w.bin.nBands fun ib => do
      let e ← w.bin.ellList.get ib
      use e
      let wl ← w.bin.wList.get ib
      use wl
      let f ← w.bin.fEll.get ib
      use f
      use w.beamProd
      loopU (w.ncls * (w.bin.ellMax + 1)) fun r => do
        let p ← w.unbinned.get r
        use p
  use w.binned
  use w.perm

/-- `nmt_update_coupling_matrix` (src/nmt_master.c:106-118). -/
def updateMatrix (w : Wsp) (nRows : ℕ) : Mem Unit := do
  use w.self
  if nRows ≠ w.ncls * (w.lmax + 1) then raiseErr else do
    loopU nRows fun ii => do
      let r ← w.unbinned.get ii
      use r
    binCoupling w

/-- `nmt_workspace_update_beams` (src/nmt_master.c:120-135); `long` tells whether both beams are long enough. -/
def updateBeams (w : Wsp) (long : Bool) : Mem Unit := do
  use w.self
  if long then do
    use w.beamProd
    binCoupling w
  else raiseErr

/-- New bins and new binned matrix of a workspace (src/nmt_master.c:145-153). -/
def replaceBins (w : Wsp) (bin : Bins) : Mem Wsp := do
  use w.self
  binsFree w.bin
  let b ← storeBins bin
  freeM w.self w.binned
  freeM w.self w.perm
  let binned ← mallocP
  let perm ← mallocP
  pure { w with bin := b, binned := binned, perm := perm }

/-- `nmt_workspace_update_binning` (src/nmt_master.c:137-155); gives the changed workspace. -/
def updateBinning (w : Wsp) (bin : Bins) : Mem Wsp := do
  use bin.self
  use w.self
  use w.bin.self
  if bin.ellMax ≠ w.bin.ellMax then raiseErr else do
    let w' ← replaceBins w bin
    binCoupling w'
    pure w'

/-! ## Coupling coefficients -/

/-- `nmt_master_calculator` (src/namaster.h:711-732). -/
structure Calc where
  self : Ptr
  has00 : Bool
  has0s : Bool
  hasSs : Bool
  npcl : ℕ
  npure0s : ℕ
  npureSs : ℕ
  lmax : ℕ
  xi00 : PArr (PArr Ptr)
  xi0s : PArr (PArr (PArr Ptr))
  xiPp : PArr (PArr (PArr Ptr))
  xiMm : PArr (PArr (PArr Ptr))
  lfac : Ptr

/-- The members set to `NULL` at src/nmt_master.c:674-677. -/
def nullArr {α : Type} : PArr α := ⟨.null, []⟩

/-- `if(cond) p=malloc(...)` for a pointer that is `NULL` otherwise. -/
def mallocIf (cond : Bool) : Mem Ptr := pick cond mallocP (pure .null)

/-- Table of `npcl` pairs of columns in `populate_toeplitz` (src/nmt_master.c:189-216). -/
def toepTable (npcl : ℕ) : Mem (PArr (PArr Ptr)) :=
  allocArr npcl fun _ => allocArr 2 fun _ => mallocP

/-- Release of such a table (src/nmt_master.c:391-418). -/
def toepTableFree (npcl : ℕ) (t : PArr (PArr Ptr)) : Mem Unit := do
  loopU npcl fun ic => do
    let a ← t.get ic
    let p0 ← a.get 0
    free p0
    let a ← t.get ic
    let p1 ← a.get 1
    free p1
    let a ← t.get ic
    free a.ptr
  free t.ptr

/-- The buffers for Wigner symbols of one thread in `populate_toeplitz` (src/nmt_master.c:230-238, 304-307) and
`nmt_compute_master_coefficients` (src/nmt_master.c:769-781, 926-931; there with `pureAny`), with `work` rounds of the loops. The
buffer for the second spin is the one for the first spin unless `ss2`. -/
def wignerThread (h00 h0s hss ss2 pureAny : Bool) (work : ℕ) : Mem Unit := do
  let w00 ← mallocIf (h00 || h0s)
  let wss1 ← mallocIf (h0s || hss)
  let wss2 ← pick ss2 mallocP (pure wss1)
  let w12 ← mallocIf pureAny
  let w02 ← mallocIf pureAny
  loopU work fun _ => do
    whenC (h00 || h0s) (use w00)
    whenC (h0s || hss) (use wss1)
    whenC ss2 (use wss2)
    whenC pureAny do
      use w12
      use w02
    whenC (h0s || hss) (use wss2)
  free w00
  free wss1
  whenC ss2 (free wss2)
  free w12
  free w02

/-- `populate_toeplitz` (src/nmt_master.c:185-419). The threads of the parallel region allocate and release their own buffers;
here one after the other. -/
def populateToeplitz (c : Calc) (ss2 : Bool) (threads : ℕ) (work : ℕ → ℕ) : Mem Unit := do
  use c.self
  let t00 ← pick c.has00 (toepTable c.npcl) (pure default)
  let t0s ← pick c.has0s (toepTable c.npcl) (pure default)
  let tpp ← pick c.hasSs (toepTable c.npcl) (pure default)
  let tmm ← pick c.hasSs (toepTable c.npcl) (pure default)
  loopU threads fun t => wignerThread c.has00 c.has0s c.hasSs ss2 false (work t)
  whenC c.hasSs do
    toepTableFree c.npcl tpp
    toepTableFree c.npcl tmm
  whenC c.has0s (toepTableFree c.npcl t0s)
  whenC c.has00 (toepTableFree c.npcl t00)

/-- What determines the allocations of `nmt_compute_master_coefficients`. -/
structure CalcArgs where
  lmax : ℕ
  npcl : ℕ
  s1 : ℕ
  s2 : ℕ
  pureAny : Bool
  teb : Bool
  toeplitz : Bool
  threads : ℕ
  work : ℕ → ℕ

/-- The spins as stored (src/nmt_master.c:687-698). -/
def CalcArgs.c1 (a : CalcArgs) : ℕ := if a.s1 = 0 then a.s2 else a.s1
/-- See `CalcArgs.c1`. -/
def CalcArgs.c2 (a : CalcArgs) : ℕ := if a.s1 = 0 then 0 else a.s2
/-- src/nmt_master.c:700-709. -/
def CalcArgs.has00 (a : CalcArgs) : Bool := a.teb || (a.c1 == 0 && a.c2 == 0)
/-- src/nmt_master.c:700-709. -/
def CalcArgs.has0s (a : CalcArgs) : Bool := a.teb || ((a.c1 == 0 && a.c2 != 0) || (a.c1 != 0 && a.c2 == 0))
/-- src/nmt_master.c:700-709. -/
def CalcArgs.hasSs (a : CalcArgs) : Bool := a.teb || (a.c1 != 0 && a.c2 != 0)
/-- `has_ss2` at src/nmt_master.c:760. -/
def CalcArgs.ss2 (a : CalcArgs) : Bool := a.c1 != 0 && a.c2 != 0 && !a.teb && a.c1 != a.c2
/-- `has_ss2` in `populate_toeplitz` (src/nmt_master.c:220). -/
def CalcArgs.ss2toep (a : CalcArgs) : Bool := a.c1 != 0 && a.c2 != 0 && a.c1 != a.c2
/-- src/nmt_master.c:678-685. -/
def CalcArgs.npure0s (a : CalcArgs) : ℕ := if a.pureAny then 2 else 1
/-- src/nmt_master.c:678-685. -/
def CalcArgs.npureSs (a : CalcArgs) : ℕ := if a.pureAny then 3 else 1

/-- A square table with `lmax+1` rows. -/
def xiTable (lmax : ℕ) : Mem (PArr Ptr) := allocArr (lmax + 1) fun _ => mallocP

/-- `nmt_compute_master_coefficients` (src/nmt_master.c:653-995). `xi_pp` and `xi_mm` are allocated in one loop there; here one
after the other. -/
def masterCoefficients (a : CalcArgs) : Mem Calc := do
  let self ← mallocP
  let xi00 ← pick a.has00 (allocArr a.npcl fun _ => xiTable a.lmax) (pure nullArr)
  let xi0s ← pick a.has0s (allocArr a.npcl fun _ => allocArr a.npure0s fun _ => xiTable a.lmax) (pure nullArr)
  let xiPp ← pick a.hasSs (allocArr a.npcl fun _ => allocArr a.npureSs fun _ => xiTable a.lmax) (pure nullArr)
  let xiMm ← pick a.hasSs (allocArr a.npcl fun _ => allocArr a.npureSs fun _ => xiTable a.lmax) (pure nullArr)
  let lfac ← mallocP
  let c : Calc := ⟨self, a.has00, a.has0s, a.hasSs, a.npcl, a.npure0s, a.npureSs, a.lmax, xi00, xi0s, xiPp, xiMm, lfac⟩
  whenC a.toeplitz (populateToeplitz c a.ss2toep a.threads a.work)
  loopU a.threads fun t => wignerThread a.has00 a.has0s a.hasSs a.ss2 a.pureAny (a.work t)
  pure c

/-- Release of the three lower levels of `c->xi_0s` and the like. -/
def freeXi (s : Ptr) (npcl npure lmax : ℕ) (x : PArr (PArr (PArr Ptr))) : Mem Unit := do
  loopU npcl fun ic => do
    loopU npure fun ip => do
      loopU (lmax + 1) fun ii => do
        use s
        let a ← x.get ic
        let b ← a.get ip
        let p ← b.get ii
        free p
      use s
      let a ← x.get ic
      let b ← a.get ip
      free b.ptr
    use s
    let a ← x.get ic
    free a.ptr
  freeM s x.ptr

/-- `nmt_master_calculator_free` (src/nmt_master.c:997-1038). `xi_pp` and `xi_mm` are released in one loop there; here one after
the other. -/
def calcFree (c : Calc) : Mem Unit := do
  use c.self
  whenC c.has00 do
    loopU c.npcl fun ic => do
      loopU (c.lmax + 1) fun ii => do
        use c.self
        let a ← c.xi00.get ic
        let p ← a.get ii
        free p
      use c.self
      let a ← c.xi00.get ic
      free a.ptr
    freeM c.self c.xi00.ptr
  whenC c.has0s (freeXi c.self c.npcl c.npure0s c.lmax c.xi0s)
  whenC c.hasSs do
    freeXi c.self c.npcl c.npureSs c.lmax c.xiPp
    freeXi c.self c.npcl c.npureSs c.lmax c.xiMm
  freeM c.self c.lfac
  free c.self

/-- Arguments of `nmt_compute_coupling_matrix` that matter here; the purification flags as numbers 0 or 1. -/
structure WspArgs where
  spin1 : ℕ
  spin2 : ℕ
  lmaxFields : ℕ
  pe1 : ℕ
  pb1 : ℕ
  pe2 : ℕ
  pb2 : ℕ
  teb : Bool
  toeplitz : Bool
  fkp : Bool
  threads : ℕ
  work : ℕ → ℕ

/-- Number of spectra (src/nmt_master.c:1055-1063). -/
def WspArgs.ncls (a : WspArgs) : ℕ :=
  if a.teb then 7 else (if a.spin1 ≠ 0 then 2 else 1) * (if a.spin2 ≠ 0 then 2 else 1)

/-- Arguments passed on to `nmt_compute_master_coefficients` (src/nmt_master.c:1080-1086). -/
def WspArgs.calc (a : WspArgs) (lmax : ℕ) : CalcArgs :=
  ⟨lmax, 1, a.spin1, a.spin2, decide (a.pe1 ≠ 0 ∨ a.pb1 ≠ 0 ∨ a.pe2 ≠ 0 ∨ a.pb2 ≠ 0), a.teb, a.toeplitz, a.threads, a.work⟩

/-- Access to row `l2` of `c->xi_0s[0][ip]` and the like. -/
def useXi (x : PArr (PArr (PArr Ptr))) (ip l2 : ℕ) : Mem Unit := do
  let a ← x.get 0
  let b ← a.get ip
  let p ← b.get l2
  use p

/-- The coefficients read for row `l2` of the coupling matrix (src/nmt_master.c:1100-1130). -/
def applyRow (a : WspArgs) (c : Calc) (l2 : ℕ) : Mem Unit := do
  use c.self
  whenC (a.ncls = 1) do
    let x ← c.xi00.get 0
    let p ← x.get l2
    use p
  whenC (a.ncls = 2) do
    useXi c.xi0s (a.pe1 + a.pe2) l2
    useXi c.xi0s (a.pb1 + a.pb2) l2
  whenC (a.ncls = 4) do
    useXi c.xiMm (a.pe1 + a.pe2) l2
    useXi c.xiMm (a.pe1 + a.pb2) l2
    useXi c.xiMm (a.pb1 + a.pe2) l2
    useXi c.xiMm (a.pb1 + a.pb2) l2
    useXi c.xiPp (a.pe1 + a.pe2) l2
    useXi c.xiPp (a.pe1 + a.pb2) l2
    useXi c.xiPp (a.pb1 + a.pe2) l2
    useXi c.xiPp (a.pb1 + a.pb2) l2
  whenC (a.ncls = 7) do
    let x ← c.xi00.get 0
    let p ← x.get l2
    use p
    useXi c.xi0s a.pe2 l2
    useXi c.xi0s a.pb2 l2
    useXi c.xiMm (a.pe2 + a.pe2) l2
    useXi c.xiMm (a.pe2 + a.pb2) l2
    useXi c.xiMm (a.pb2 + a.pe2) l2
    useXi c.xiMm (a.pb2 + a.pb2) l2
    useXi c.xiPp (a.pe2 + a.pe2) l2
    useXi c.xiPp (a.pe2 + a.pb2) l2
    useXi c.xiPp (a.pb2 + a.pe2) l2
    useXi c.xiPp (a.pb2 + a.pb2) l2

/-- `nmt_compute_coupling_matrix` (src/nmt_master.c:1043-1139). -/
def computeCoupling (a : WspArgs) (bin : Bins) : Mem Wsp :=
  if a.teb = true ∧ ¬(a.spin1 = 0 ∧ a.spin2 ≠ 0) then raiseErr else do
    use bin.self
    if a.lmaxFields < bin.ellMax then raiseErr else do
      let w ← wspNew a.ncls bin a.fkp
      use w.beamProd
      use w.pclMasks
      let c ← masterCoefficients (a.calc w.lmax)
      loopU (w.lmax + 1) fun l2 => do
        applyRow a c l2
        loopU a.ncls fun icl => do
          use w.self
          let r ← w.unbinned.get (a.ncls * l2 + icl)
          use r
      calcFree c
      binCoupling w
      pure w

/-- Arguments of `nmt_compute_coupling_matrix_anisotropic` that matter here. -/
structure AnisoWspArgs where
  spin1 : ℕ
  spin2 : ℕ
  lmaxFields : ℕ
  aniso1 : Bool
  aniso2 : Bool
  fkp : Bool
  threads : ℕ
  work : ℕ → ℕ

/-- Number of spectra (src/nmt_master.c:439-443). -/
def AnisoWspArgs.ncls (a : AnisoWspArgs) : ℕ := (if a.spin1 ≠ 0 then 2 else 1) * (if a.spin2 ≠ 0 then 2 else 1)

/-- The buffers of one thread of `nmt_compute_coupling_matrix_anisotropic` (src/nmt_master.c:513-529, 631-641). -/
def anisoThread (reuse an1 an2 : Bool) (work : ℕ) : Mem Unit := do
  let ss1 ← mallocP
  let ss2 ← pick reuse (pure ss1) mallocP
  let ss1a ← mallocIf an1
  let ss2a ← pick an2 (pick (!reuse || !an1) mallocP (pure ss1a)) (pure .null)
  loopU work fun _ => do
    use ss1
    use ss2
    whenC an1 (use ss1a)
    whenC an2 (use ss2a)
  free ss1
  whenC (!reuse) (free ss2)
  whenC an1 (free ss1a)
  whenC an2 (whenC (!reuse || !an1) (free ss2a))

/-- `nmt_compute_coupling_matrix_anisotropic` (src/nmt_master.c:421-651). The rows of the matrix are written by the threads, for
multipoles up to the `lmax` of the fields; here after the work with the buffers. -/
def computeAniso (a : AnisoWspArgs) (bin : Bins) : Mem Wsp := do
  use bin.self
  if a.lmaxFields < bin.ellMax then raiseErr else do
    let w ← wspNew a.ncls bin a.fkp
    use w.beamProd
    use w.pclMasks
    let pm ← allocArr 9 fun _ => mallocP
    loopU a.threads fun t => anisoThread (a.spin1 == a.spin2) a.aniso1 a.aniso2 (a.work t)
    loopU (a.ncls * (a.lmaxFields + 1)) fun r => do
      use w.self
      let p ← w.unbinned.get r
      use p
    loopU 9 fun l2 => do
      let p ← pm.get l2
      free p
    free pm.ptr
    binCoupling w
    pure w

/-! ## Reading workspaces -/

/-- What a workspace file contains, as far as allocations go; `fail` is the number of checks (`check_fits`, sizes) that pass
before one fails, if any. If the header is missing, `ncls` and `lmax` are what the memory contained before. The table of bandpowers is
there and has the current format; for others see C15 and C16. -/
structure WspFile where
  ncls : ℕ
  lmax : ℕ
  fkp : Bool
  nBands : ℕ
  ellMax : ℕ
  good : ℕ → Bool
  fail : Option ℕ

/-- A check that reports an error. -/
def checkpoint (fail : Option ℕ) (k : ℕ) : Mem Unit := whenC (fail = some k) raiseErr

/-- `nmt_workspace_read_fits` (src/nmt_io.c:366-395) with the functions called from it (lines 27-58, 96-113, 115-151, 299-330), for
files in the current format. -/
def wspRead (f : WspFile) (withUnbinned : Bool) : Mem Wsp := do
  let self ← mallocP
  checkpoint f.fail 0
  let unb ← pick withUnbinned (allocArr (f.ncls * (f.lmax + 1)) fun _ => mallocP) (pure nullArr)
  checkpoint f.fail 1
  checkpoint f.fail 2
  let beam ← mallocP
  checkpoint f.fail 3
  checkpoint f.fail 4
  let pcl ← mallocP
  checkpoint f.fail 5
  let bpws ← mallocP
  let ells ← mallocP
  let weights ← mallocP
  let fEll ← mallocP
  let b ← binsCreate f.nBands f.ellMax f.good
  checkpoint f.fail 6
  free bpws
  free ells
  free weights
  free fEll
  checkpoint f.fail 7
  let flat ← mallocP
  let binned ← mallocP
  free flat
  let permI ← mallocP
  let perm ← mallocP
  free permI
  checkpoint f.fail 8
  pure ⟨self, f.lmax, f.ncls, f.fkp, pcl, beam, unb, b, binned, perm⟩

/-- The number of blocks allocated when reading a workspace fails. -/
def WspFile.lost (f : WspFile) (withUnbinned : Bool) : ℕ :=
  let unb := if withUnbinned then f.ncls * (f.lmax + 1) + 1 else 0
  if f.fail = some 0 then 1
  else if f.fail = some 1 ∨ f.fail = some 2 then 1 + unb
  else if f.fail = some 3 ∨ f.fail = some 4 then 2 + unb
  else if f.fail = some 5 then 3 + unb
  else if f.fail = some 6 ∨ ∃ i < f.nBands, f.good i = false then 7 + unb + (5 + 3 * f.nBands)
  else if f.fail = some 7 then 3 + unb + (5 + 3 * f.nBands)
  else 5 + unb + (5 + 3 * f.nBands)

/-! ## Covariance workspaces -/

/-- `nmt_covar_workspace` (src/namaster.h:932-944). -/
structure Cov where
  self : Ptr
  lmax : ℕ
  spin0 : Bool
  xi00a : PArr Ptr
  xi00b : PArr Ptr
  xi02a : PArr Ptr
  xi02b : PArr Ptr
  xi22pa : PArr Ptr
  xi22pb : PArr Ptr
  xi22ma : PArr Ptr
  xi22mb : PArr Ptr

/-- `x[ic][0]`. -/
def sub0 (x : PArr (PArr (PArr Ptr))) (ic : ℕ) : Mem (PArr Ptr) := do
  let a ← x.get ic
  a.get 0

/-- `free(x[ic])`. -/
def freeSub {α : Type} (x : PArr (PArr α)) (ic : ℕ) : Mem Unit := do
  let a ← x.get ic
  free a.ptr

/-- `nmt_covar_workspace_init` (src/nmt_covar.c:4-71): it keeps tables of the calculator and releases the rest of it by hand. -/
def covInit (lmax : ℕ) (spin0 toeplitz : Bool) (threads : ℕ) (work : ℕ → ℕ) : Mem Cov := do
  let self ← mallocP
  let clm ← allocArr 2 fun _ => mallocP
  let c ← pick spin0 (masterCoefficients ⟨lmax, 2, 0, 0, false, false, toeplitz, threads, work⟩)
    (masterCoefficients ⟨lmax, 2, 0, 2, false, true, toeplitz, threads, work⟩)
  use c.self
  let a ← c.xi00.get 0
  let b ← c.xi00.get 1
  let cw ← pick spin0 (pure (Cov.mk self lmax spin0 a b a b a b a b)) do
    let x02a ← sub0 c.xi0s 0
    let x02b ← sub0 c.xi0s 1
    let x22pa ← sub0 c.xiPp 0
    let x22pb ← sub0 c.xiPp 1
    let x22ma ← sub0 c.xiMm 0
    let x22mb ← sub0 c.xiMm 1
    freeSub c.xi0s 0
    freeSub c.xi0s 1
    free c.xi0s.ptr
    freeSub c.xiPp 0
    freeSub c.xiPp 1
    free c.xiPp.ptr
    freeSub c.xiMm 0
    freeSub c.xiMm 1
    free c.xiMm.ptr
    pure (Cov.mk self lmax spin0 a b x02a x02b x22pa x22pb x22ma x22mb)
  freeM c.self c.xi00.ptr
  free c.self
  let p0 ← clm.get 0
  free p0
  let p1 ← clm.get 1
  free p1
  free clm.ptr
  pure cw

/-- `nmt_covar_workspace_free` (src/nmt_covar.c:73-90). -/
def covFree (cw : Cov) : Mem Unit := do
  use cw.self
  loopU (cw.lmax + 1) fun ii => do
    freeE cw.self cw.xi00a ii
    freeE cw.self cw.xi00b ii
    whenC (!cw.spin0) do
      freeE cw.self cw.xi02a ii
      freeE cw.self cw.xi02b ii
      freeE cw.self cw.xi22pa ii
      freeE cw.self cw.xi22pb ii
      freeE cw.self cw.xi22ma ii
      freeE cw.self cw.xi22mb ii
  free cw.self

/-- A covariance file: `spin0` as read or assumed (src/nmt_io.c:830-838), and whether and where reading fails. -/
structure CovFile where
  lmax : ℕ
  spin0 : Bool
  fail : Option ℕ

/-- The number of blocks allocated when reading a covariance workspace fails: a table has `lmax+2` blocks, and there are two checks for
every table. -/
def CovFile.lost (f : CovFile) : ℕ := match f.fail with
  | none => 0
  | some k => 1 + (k - 1) / 2 * (f.lmax + 2)

/-- `nmt_covar_coeffs_fromhdus` (src/nmt_io.c:757-781); `k` counts the checks. -/
def coeffsRead (fail : Option ℕ) (k n : ℕ) : Mem (PArr Ptr) := do
  checkpoint fail k
  let m ← mallocP
  let a ← allocArr n fun _ => mallocP
  free m
  checkpoint fail (k + 1)
  pure a

/-- `nmt_covar_workspace_read_fits` (src/nmt_io.c:819-870). -/
def covRead (f : CovFile) (force : Bool) : Mem Cov := do
  let self ← mallocP
  checkpoint f.fail 0
  checkpoint f.fail 1
  let a ← coeffsRead f.fail 2 (f.lmax + 1)
  let b ← coeffsRead f.fail 4 (f.lmax + 1)
  pick (force || f.spin0) (pure ⟨self, f.lmax, true, a, b, a, b, a, b, a, b⟩) do
    let x02a ← coeffsRead f.fail 6 (f.lmax + 1)
    let x02b ← coeffsRead f.fail 8 (f.lmax + 1)
    let x22pa ← coeffsRead f.fail 10 (f.lmax + 1)
    let x22pb ← coeffsRead f.fail 12 (f.lmax + 1)
    let x22ma ← coeffsRead f.fail 14 (f.lmax + 1)
    let x22mb ← coeffsRead f.fail 16 (f.lmax + 1)
    pure ⟨self, f.lmax, false, a, b, x02a, x02b, x22pa, x22pb, x22ma, x22mb⟩

end Mem

end NaMaster
