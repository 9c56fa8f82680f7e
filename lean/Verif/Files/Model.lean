import Verif.Files.Fits
import Verif.Master.Object

/-!
# Model of workspace files

Models `src/nmt_io.c:5-394`. The factorised matrix that GSL computes from the binned coupling matrix is
external: `Factor`.
-/

namespace NaMaster

variable {K : Type*}

/-- The LU factorisation stored in `coupling_matrix_binned` and `coupling_matrix_perm`
(`gsl_linalg_LU_decomp`, src/nmt_master.c:103). `rebuild` undoes it: the model of the workspace keeps the
matrix before factorisation, see `Wsp`. -/
structure Factor (K : Type*) where
  lu : ℕ → (ℕ → ℕ → K) → ℕ → ℕ → K
  perm : ℕ → (ℕ → ℕ → K) → ℕ → ℤ
  rebuild : ℕ → (ℕ → ℕ → K) → (ℕ → ℤ) → ℕ → ℕ → K

/-- Assumption: the factors determine the matrix (`P M = L U` with invertible `P`), and only the elements
in range matter. -/
def Factor.Correct [Zero K] (F : Factor K) : Prop :=
  ∀ n (M lu : ℕ → ℕ → K) (p : ℕ → ℤ), M = tab2 n n M →
    (∀ i j, i < n → j < n → lu i j = F.lu n M i j) → (∀ i, i < n → p i = F.perm n M i) →
    F.rebuild n lu p = M

section write
variable [Zero K]

/-- Data written row by row into an `n × n` image: row `ii` goes to pixels `ii*n ..` (the loops of
src/nmt_io.c:22-25 and 753-756). -/
def imagePixels (n : ℕ) (M : ℕ → ℕ → K) : ℕ → K :=
  runWrites ((List.range n).flatMap fun ii => (List.range n).map fun jj => (ii * n + jj, M ii jj)) (fun _ => 0)

/-- `nmt_workspace_info_tohdus` (src/nmt_io.c:5-26). -/
def infoHdu (w : Wsp K) (U : ℕ → ℕ → K) : Hdu K where
  name := "WSP_PRIMARY"
  isTable := false
  keys := [("LMAX", w.lmax), ("LMAX_FIELDS", w.lmaxFields), ("LMAX_MASK", w.lmaxMask),
    ("IS_TEB", if w.isTeb then 1 else 0), ("NCLS", w.ncls), ("NORM_TYPE", w.normType)]
  dims := [w.ncls * (w.lmax + 1), w.ncls * (w.lmax + 1)]
  ints := fun _ _ => 0
  dbls := fun _ => imagePixels (w.ncls * (w.lmax + 1)) U

/-- `nmt_l_arr_tohdus` (src/nmt_io.c:61-95): columns 1 (multipole) and 2 (values). -/
def lArrHdu (lmax : ℕ) (fl : ℕ → K) (name : String) : Hdu K where
  name := name
  isTable := true
  keys := []
  dims := [lmax + 1]
  ints := fun _ r => r
  dbls := fun _ r => fl r

/-- The assignments of src/nmt_io.c:213-222: one per multipole of each band, in loop order; the value is
band, multipole, weight, prefactor. -/
def binWritesFrom : ℕ → List (List (BandEntry K)) → List (ℕ × (ℤ × ℤ × K × K))
  | _, [] => []
  | ii, b :: bs => b.map (fun e => (e.ell, ((ii : ℤ), (e.ell : ℤ), e.w, e.f))) ++ binWritesFrom (ii + 1) bs

/-- Content of the four columns of the bandpower table (src/nmt_io.c:202-222). -/
def binRows (B : Bins K) : ℕ → ℤ × ℤ × K × K :=
  runWrites (binWritesFrom 0 B.bands) (fun _ => (-1, -1, 0, 0))

/-- `nmt_binning_scheme_tohdus` (src/nmt_io.c:198-262). -/
def binsHdu (B : Bins K) : Hdu K where
  name := "BANDPOWERS"
  isTable := true
  keys := [("N_BANDS", B.nBands), ("ELL_MAX", B.ellMax)]
  dims := [B.ellMax + 1]
  ints := fun c r => if c = 1 then (binRows B r).1 else (binRows B r).2.1
  dbls := fun c r => if c = 3 then (binRows B r).2.2.1 else (binRows B r).2.2.2

/-- First image written by `nmt_coupling_binned_tohdus` (src/nmt_io.c:264-288). -/
def mcmHdu (F : Factor K) (w : Wsp K) : Hdu K where
  name := "MCM_BINNED"
  isTable := false
  keys := []
  dims := [w.ncls * w.bin.nBands, w.ncls * w.bin.nBands]
  ints := fun _ _ => 0
  dbls := fun _ => imagePixels (w.ncls * w.bin.nBands) (F.lu (w.ncls * w.bin.nBands) w.binned)

/-- Second image written by `nmt_coupling_binned_tohdus` (src/nmt_io.c:289-299). -/
def permHdu (F : Factor K) (w : Wsp K) : Hdu K where
  name := "MCM_PERM"
  isTable := false
  keys := []
  dims := [w.ncls * w.bin.nBands]
  ints := fun _ => F.perm (w.ncls * w.bin.nBands) w.binned
  dbls := fun _ _ => 0

/-- The units of a workspace file in the order of writing (src/nmt_io.c:342-364). -/
def workspaceHdus (F : Factor K) (w : Wsp K) (U : ℕ → ℕ → K) : FitsFile K :=
  [infoHdu w U, lArrHdu w.lmaxFields w.beamProd "BEAMS", lArrHdu w.lmaxMask w.pclMasks "PCL_MASKS",
    binsHdu w.bin, mcmHdu F w, permHdu F w]

/-- `nmt_workspace_write_fits` (src/nmt_io.c:342-364), all calls successful: the file. Without unbinned
matrix a null pointer is dereferenced; `int i0=ii*n_el` (line 276) overflows for very large matrices. -/
def writeWorkspace (F : Factor K) (w : Wsp K) : Outcome (FitsFile K) :=
  match w.unbinned with
  | none => .crash
  | some U =>
    let n := w.ncls * w.bin.nBands
    if 2 ^ 31 ≤ (n - 1) * n then .crash else .ok (workspaceHdus F w U)

end write

section read
variable [Field K] [LinearOrder K]

/-- What `nmt_workspace_info_fromhdus` reads. -/
structure Info (K : Type*) where
  lmax : ℤ
  lmaxFields : ℤ
  lmaxMask : ℤ
  isTeb : ℤ
  ncls : ℤ
  normType : ℤ
  unbinned : Option (ℕ → ℕ → K)

/-- Rows `ii = 0 .. k-1` of the image, `n` pixels each (src/nmt_io.c:47-52). -/
def readRows (n : ℕ) (old : ℕ → K) : ℕ → Rd K → (ℕ → ℕ → K) × Rd K
  | 0, s => (fun _ _ => 0, s)
  | k + 1, s =>
    let (m, s) := readRows n old k s
    let (row, s) := readDbl 0 (k * n) n old s
    (fun i j => if i = k then row j else m i j, s)

/-- `nmt_workspace_info_fromhdus` (src/nmt_io.c:28-59). Sizes that are negative, which no writer produces,
count as zero. -/
def infoFromHdus (j : Junk K (Bins K)) (f : FitsFile K) (wUnbinned : Bool) (s : Rd K) : Info K × Rd K :=
  let s := movnam f false "WSP_PRIMARY" s
  let (lmax, s) := readKey "LMAX" (j.int "LMAX") s
  let (lmaxFields, s) := readKey "LMAX_FIELDS" (j.int "LMAX_FIELDS") s
  let (lmaxMask, s) := readKey "LMAX_MASK" (j.int "LMAX_MASK") s
  let (isTeb, s) := readKey "IS_TEB" (j.int "IS_TEB") s
  let (ncls, s) := readKey "NCLS" (j.int "NCLS") s
  let statusPre := s.status
  let (normType, s) := readKey "NORM_TYPE" (j.int "NORM_TYPE") s
  let (normType, s) := if s.status ≠ 0 then (0, { s with status := statusPre }) else (normType, s)
  let n := (ncls * (lmax + 1)).toNat
  if wUnbinned then
    let (m, s) := readRows n j.dbl n s
    (⟨lmax, lmaxFields, lmaxMask, isTeb, ncls, normType, some (tab2 n n m)⟩, s)
  else (⟨lmax, lmaxFields, lmaxMask, isTeb, ncls, normType, none⟩, s)

/-- `nmt_l_arr_fromhdus` (src/nmt_io.c:97-113). -/
def lArrFromHdus (j : Junk K (Bins K)) (f : FitsFile K) (lmaxExpect : ℤ) (name : String) (s : Rd K) :
    Outcome ((ℕ → K) × Rd K) :=
  let s := { s with status := 0 }
  let s := movnam f true name s
  let (nrows, s) := numRows (j.int name) s
  if nrows ≠ lmaxExpect + 1 then .raises .runtime
  else
    let (v, s) := readDbl 2 0 nrows.toNat j.dbl s
    .ok (tab nrows.toNat v, s)

/-- Python exception of the C function building bandpowers. -/
def liftExcept {α : Type*} : Except Err α → Outcome α
  | .ok a => .ok a
  | .error e => .raises e

/-- `nmt_binning_scheme_fromhdus` (src/nmt_io.c:115-151). If one of the reads fails, the arrays passed to
`nmt_bins_create` are not initialised. Rows with multipole -1 carry band -1 and are skipped by
`nmt_bins_create`. -/
def binsFromHdus (j : Junk K (Bins K)) (f : FitsFile K) (s : Rd K) : Outcome (Bins K × Rd K) :=
  let s := movnam f true "BANDPOWERS" s
  let (nBands, s) := readKey "N_BANDS" (j.int "N_BANDS") s
  let (ellMax, s) := readKey "ELL_MAX" (j.int "ELL_MAX") s
  let (nrows, s) := numRows (j.int "BANDPOWERS") s
  let (bpws, s) := readInt 1 0 nrows.toNat (fun _ => 0) s
  let (ells, s) := readInt 2 0 nrows.toNat (fun _ => 0) s
  let (weights, s) := readDbl 3 0 nrows.toNat j.dbl s
  let (f_ell, s) := readDbl 4 0 nrows.toNat j.dbl s
  if s.status ≠ 0 then j.bins.bind (fun b => .ok (b, s))
  else
    (liftExcept (binsCreate ((List.range nrows.toNat).map (fun i =>
      ⟨(ells i).toNat, bpws i, weights i, f_ell i⟩)) ellMax.toNat)).bind fun b =>
    if nBands ≠ b.nBands then .raises .runtime else .ok (b, s)

/-- `nmt_binning_scheme_fromhdus_old` (src/nmt_io.c:153-196), only ever called with a non-zero status: then
no call changes anything and the bandpowers are made of values that were never set. -/
def binsFromHdusOld (j : Junk K (Bins K)) (s : Rd K) : Outcome (Bins K × Rd K) :=
  j.binsOld.bind (fun b => .ok (b, s))

/-- `nmt_coupling_binned_fromhdus` (src/nmt_io.c:301-330). -/
def mcmFromHdus (F : Factor K) (j : Junk K (Bins K)) (f : FitsFile K) (n : ℕ) (s : Rd K) :
    Outcome ((ℕ → ℕ → K) × Rd K) :=
  let s := movnam f false "MCM_BINNED" s
  let (m, s) := readDbl 0 0 (n * n) j.dbl s
  if 2 ^ 31 ≤ (n - 1) * n then .crash
  else
    let s := movnam f false "MCM_PERM" s
    let (p, s) := readInt 0 0 n (fun _ => 0) s
    .ok (F.rebuild n (fun i k => m (i * n + k)) p, s)

/-- `check_fits` (src/nmt_io.c:332-340). -/
def checkFits (s : Rd K) : Outcome Unit := if s.status ≠ 0 then .raises .runtime else .ok ()

/-- `nmt_workspace_read_fits` (src/nmt_io.c:366-394), through `read_workspace` (namaster.i). The member
`w2` is not set. -/
def readWorkspace (F : Factor K) (j : Junk K (Bins K)) (f : FitsFile K) (wUnbinned : Bool) : Outcome (Wsp K) :=
  let s := fitsOpen f
  (checkFits s).bind fun _ =>
  let (info, s) := infoFromHdus j f wUnbinned s
  (checkFits s).bind fun _ =>
  (lArrFromHdus j f info.lmaxFields "BEAMS" s).bind fun (beams, s) =>
  (checkFits s).bind fun _ =>
  (lArrFromHdus j f info.lmaxMask "PCL_MASKS" s).bind fun (pcl, s) =>
  (checkFits s).bind fun _ =>
  (binsFromHdus j f s).bind fun (b, s) =>
  (if s.status ≠ 0 then binsFromHdusOld j s else .ok (b, s)).bind fun (b, s) =>
  (checkFits s).bind fun _ =>
  (mcmFromHdus F j f (info.ncls.toNat * b.nBands) s).bind fun (m, s) =>
  (checkFits s).bind fun _ =>
  .ok { ncls := info.ncls.toNat, lmax := info.lmax.toNat, lmaxFields := info.lmaxFields.toNat,
        lmaxMask := info.lmaxMask.toNat, isTeb := info.isTeb ≠ 0, normType := info.normType, w2 := j.w2,
        beamProd := beams, pclMasks := pcl, unbinned := info.unbinned, bin := b, binned := m }

end read

end NaMaster
