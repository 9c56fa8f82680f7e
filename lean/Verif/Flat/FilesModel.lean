import Verif.Flat.CoupleModel
import Verif.Flat.CovarModel
import Verif.Covar.FilesModel

/-!
# Model of the files of flat-sky workspaces

Models `src/nmt_io.c:395-741`, `nmt_covar_workspace_flat_write_fits` and `nmt_covar_workspace_flat_read_fits` (871-942), and the methods
`read_from`, `write_to` of `NmtWorkspaceFlat` (pymaster/workspaces.py:508-519,550-561) and `NmtCovarianceWorkspaceFlat`
(pymaster/covariance.py:277-287,341-352). CFITSIO is external, as for the other files.

Numbers in tables and images are stored as they are. Numbers in keywords are written as decimal numbers: `fits_write_key` with type
`TDOUBLE` prints 15 significant digits (`%.15G`). Fields and results of calculations are real numbers in the model; what happens to a
number on its way through a keyword is described by `KeyFormat`.
-/

namespace NaMaster

open Real Finset

noncomputable section

/-- Decimal numbers with at most 15 significant digits. -/
def Digits15 (x : ℝ) : Prop := ∃ m e : ℤ, |m| < 10 ^ 15 ∧ x = m * (10 : ℝ) ^ e

/-- A number in a keyword: `dec x` is the decimal number printed for `x`, `rd x` the double nearest to the decimal number `x`. -/
structure KeyFormat where
  dec : ℝ → ℝ
  rd : ℝ → ℝ

/-- What a reader finds in a keyword into which `x` was written. -/
def KeyFormat.stored (k : KeyFormat) (x : ℝ) : ℝ := k.rd (k.dec x)

/-- Assumptions: the number printed is a nearest one with 15 digits, the number read is a double (53 bits) nearest to it, and 15 digits
survive the conversion to a double and back. The range of exponents is not limited. -/
structure KeyFormat.Correct (k : KeyFormat) : Prop where
  digits : ∀ x, Digits15 (k.dec x)
  closest : ∀ x y, Digits15 y → |k.dec x - x| ≤ |y - x|
  near : ∀ x, |k.rd x - x| ≤ |x| / 2 ^ 53
  exact : ∀ m e : ℤ, |m| ≤ 2 ^ 53 → k.rd (m * (2 : ℝ) ^ e) = m * (2 : ℝ) ^ e
  back : ∀ x, Digits15 x → k.dec (k.rd x) = x

/-! ## Writing -/

/-- Data written row by row into an image of `n` rows and `m` columns (src/nmt_io.c:417-420,559-562,572,575). -/
def imageRows (n m : ℕ) (M : ℕ → ℕ → ℝ) : ℕ → ℝ :=
  runWrites ((List.range n).flatMap fun ii => (List.range m).map fun jj => (ii * m + jj, M ii jj)) (fun _ => 0)

/-- `nmt_workspace_flat_info_tohdus` (src/nmt_io.c:395-421). -/
def flatInfoHdu (k : KeyFormat) (w : WspFlat) : Hdu ℝ where
  name := "WSP_PRIMARY"
  isTable := false
  keys := [("PURE_E1", w.pure.1), ("PURE_E2", w.pure.2.1), ("PURE_B1", w.pure.2.2.1), ("PURE_B2", w.pure.2.2.2),
    ("IS_TEB", if w.isTeb then 1 else 0), ("NCLS", w.ncls)]
  dkeys := [("LMAX", k.stored w.lmax), ("ELLCUT_X_I", k.stored w.cuts.x0), ("ELLCUT_X_F", k.stored w.cuts.x1),
    ("ELLCUT_Y_I", k.stored w.cuts.y0), ("ELLCUT_Y_F", k.stored w.cuts.y1)]
  dims := [w.ncls * w.rings.nEll, w.ncls * w.bin.nBands]
  ints := fun _ _ => 0
  dbls := fun _ => imageRows (w.ncls * w.bin.nBands) (w.ncls * w.rings.nEll) fun r s =>
    w.unbinned (r % w.ncls) (r / w.ncls) (s % w.ncls) (s / w.ncls)

/-- `nmt_flatsky_info_tohdus` (src/nmt_io.c:455-483). -/
def flatGeomHdu (k : KeyFormat) (w : WspFlat) : Hdu ℝ where
  name := "FS_INFO"
  isTable := true
  keys := [("NX", w.fs.nx), ("NY", w.fs.ny), ("NPIX", w.rings.npix)]
  dkeys := [("LX", k.stored w.fs.lx), ("LY", k.stored w.fs.ly), ("PIXSIZE", k.stored w.rings.pixsize),
    ("DELL", k.stored w.rings.dell), ("I_DELL", k.stored w.rings.iDell)]
  dims := [w.rings.nEll]
  ints := fun _ _ => 0
  dbls := fun _ => tab w.rings.nEll w.rings.ellMin

/-- `nmt_n_cells_tohdus` (src/nmt_io.c:516-534). -/
def flatCellsHdu (w : WspFlat) : Hdu ℝ where
  name := "N_CELLS"
  isTable := true
  keys := []
  dims := [w.bin.nBands]
  ints := fun _ => tab w.bin.nBands fun i => (w.nCells i : ℤ)
  dbls := fun _ _ => 0

/-- First and second image written by `nmt_flat_coupling_binned_tohdus` (src/nmt_io.c:553-577): the binned matrix and its LU factors. -/
def flatMcmHdu (w : WspFlat) (M : ℕ → ℕ → ℝ) (name : String) : Hdu ℝ where
  name := name
  isTable := false
  keys := []
  dims := [w.ncls * w.bin.nBands, w.ncls * w.bin.nBands]
  ints := fun _ _ => 0
  dbls := fun _ => imageRows (w.ncls * w.bin.nBands) (w.ncls * w.bin.nBands) M

/-- Third image written by `nmt_flat_coupling_binned_tohdus` (src/nmt_io.c:579-586). -/
def flatPermHdu (F : Factor ℝ) (w : WspFlat) : Hdu ℝ where
  name := "MCM_PERM"
  isTable := false
  keys := []
  dims := [w.ncls * w.bin.nBands]
  ints := fun _ => tab (w.ncls * w.bin.nBands) (F.perm (w.ncls * w.bin.nBands) w.gslMatrix)
  dbls := fun _ _ => 0

/-- `nmt_binning_scheme_flat_tohdus` (src/nmt_io.c:638-673). -/
def flatBinsHdu (b : FlatBins ℝ) : Hdu ℝ where
  name := "BINS_SUMMARY"
  isTable := true
  keys := []
  dims := [b.nBands]
  ints := fun _ _ => 0
  dbls := fun c => tab b.nBands (if c = 1 then b.ell0 else b.ellf)

/-- The units of the file of a flat workspace in the order of writing, all calls successful (`nmt_workspace_flat_write_fits`,
src/nmt_io.c:698-717). -/
def wspFlatHdus (k : KeyFormat) (F : Factor ℝ) (w : WspFlat) : FitsFile ℝ :=
  [flatInfoHdu k w, flatGeomHdu k w, flatCellsHdu w, flatMcmHdu w w.gslMatrix "MCM_BINNED",
    flatMcmHdu w (F.lu (w.ncls * w.bin.nBands) w.gslMatrix) "MCM_BINNED_GSL", flatPermHdu F w, flatBinsHdu w.bin]

/-- `write_to` (pymaster/workspaces.py:550-561, pymaster/namaster.i:515-518): the new content of the file. -/
def FlatObj.writeTo (k : KeyFormat) (F : Factor ℝ) (w : Option WspFlat) : Outcome (FitsFile ℝ) :=
  match w with
  | none => .raises .runtime
  | some w => .ok (wspFlatHdus k F w)

/-! ## Reading -/

/-- Values in memory that the program did not set, and whether memory of a size that was not set can be allocated. -/
structure FlatFileJunk where
  int : String → ℤ
  key : String → ℝ
  dbl : ℕ → ℝ
  cells : ℕ → ℤ
  alloc : Bool

/-- What `nmt_workspace_flat_info_fromhdus` reads. -/
structure FlatHead where
  lmax : ℝ
  cuts : EllCuts
  pure : ℕ × ℕ × ℕ × ℕ
  isTeb : Bool
  ncls : ℕ
  unbinned : ℕ → ℕ → ℝ

/-- `nmt_workspace_flat_info_fromhdus` (src/nmt_io.c:423-453). Negative numbers, which no writer produces, count as zero. Status 412
(numerical overflow of a data type) does not occur in the model. Failing to allocate memory of a size that was not set is an error like
the one found by the check of the status that follows. -/
def flatInfoFromHdus (j : FlatFileJunk) (f : FitsFile ℝ) (s : Rd ℝ) : FlatHead × Rd ℝ :=
  let s := movnam f false "WSP_PRIMARY" s
  let (lmax, s) := readKeyD "LMAX" (j.key "LMAX") s
  let (x0, s) := readKeyD "ELLCUT_X_I" (j.key "ELLCUT_X_I") s
  let (x1, s) := readKeyD "ELLCUT_X_F" (j.key "ELLCUT_X_F") s
  let (y0, s) := readKeyD "ELLCUT_Y_I" (j.key "ELLCUT_Y_I") s
  let (y1, s) := readKeyD "ELLCUT_Y_F" (j.key "ELLCUT_Y_F") s
  let (pe1, s) := readKey "PURE_E1" (j.int "PURE_E1") s
  let (pe2, s) := readKey "PURE_E2" (j.int "PURE_E2") s
  let (pb1, s) := readKey "PURE_B1" (j.int "PURE_B1") s
  let (pb2, s) := readKey "PURE_B2" (j.int "PURE_B2") s
  let (teb, s) := readKey "IS_TEB" (j.int "IS_TEB") s
  let (ncls, s) := readKey "NCLS" (j.int "NCLS") s
  let (n0, n1, s) := imgSize2 (j.int "NAXIS1") (j.int "NAXIS2") s
  let (m, s) := readRows n0.toNat j.dbl n1.toNat s
  (⟨lmax, ⟨x0, x1, y0, y1⟩, (pe1.toNat, pe2.toNat, pb1.toNat, pb2.toNat), teb ≠ 0, ncls.toNat, m⟩, s)

/-- `nmt_flatsky_info_fromhdus` (src/nmt_io.c:485-514). -/
def flatGeomFromHdus (j : FlatFileJunk) (f : FitsFile ℝ) (s : Rd ℝ) : (FlatInfo × RingInfo) × Rd ℝ :=
  let s := movnam f true "FS_INFO" s
  let (nx, s) := readKey "NX" (j.int "NX") s
  let (ny, s) := readKey "NY" (j.int "NY") s
  let (npix, s) := readKey "NPIX" (j.int "NPIX") s
  let (lx, s) := readKeyD "LX" (j.key "LX") s
  let (ly, s) := readKeyD "LY" (j.key "LY") s
  let (pixsize, s) := readKeyD "PIXSIZE" (j.key "PIXSIZE") s
  let (dell, s) := readKeyD "DELL" (j.key "DELL") s
  let (iDell, s) := readKeyD "I_DELL" (j.key "I_DELL") s
  let (nrows, s) := numRows (j.int "FS_INFO") s
  let (v, s) := readDbl 1 0 nrows.toNat j.dbl s
  ((⟨nx.toNat, ny.toNat, lx, ly⟩, ⟨npix.toNat, pixsize, dell, iDell, nrows.toNat, tab nrows.toNat v⟩), s)

/-- `nmt_n_cells_fromhdus` (src/nmt_io.c:536-551). -/
def flatCellsFromHdus (j : FlatFileJunk) (f : FitsFile ℝ) (s : Rd ℝ) : (ℕ → ℕ) × Rd ℝ :=
  let s := movnam f true "N_CELLS" s
  let (nrows, s) := numRows (j.int "N_CELLS") s
  let (v, s) := readInt 1 0 nrows.toNat j.cells s
  (tab nrows.toNat fun i => (v i).toNat, s)

/-- `nmt_flat_coupling_binned_fromhdus` (src/nmt_io.c:589-636): the matrix with the LU factors and the permutation read. If the first image
is missing, its size is not set: the process then ends in GSL, or the size check or the check of the status that follows fails. If the
second one is missing, the sizes compared are those of the first. The buffer has `naxes[0]*naxes[0]` elements. The first image
(`coupling_matrix_binned`) is not used by functions called from python and is left out of the result. -/
def flatMcmFromHdus (F : Factor ℝ) (j : FlatFileJunk) (f : FitsFile ℝ) (s : Rd ℝ) : Outcome ((ℕ → ℕ → ℝ) × Rd ℝ) :=
  let s := movnam f false "MCM_BINNED" s
  let (n0, n1, s) := imgSize2 (j.int "NAXIS1") (j.int "NAXIS2") s
  if s.status ≠ 0 then (if j.alloc then .raises .runtime else .crash)
  else if n0 < n1 ∨ n0 ≤ 0 then .crash
  else
    let n := n0.toNat
    let (_, s) := readDbl 0 0 (n * n1.toNat) j.dbl s
    let s := movnam f false "MCM_BINNED_GSL" s
    let (m0, m1, s) := imgSize2 n0 n1 s
    if m0 ≠ n0 ∨ m1 ≠ n0 then .raises .runtime
    else
      let (v, s) := readDbl 0 0 (n * n) j.dbl s
      let s := movnam f false "MCM_PERM" s
      let (p, s) := readInt 0 0 n j.cells s
      .ok (F.rebuild n (fun i k => v (i * n + k)) p, s)

/-- `nmt_binning_scheme_flat_fromhdus` (src/nmt_io.c:675-696). -/
def flatBinsFromHdus (j : FlatFileJunk) (f : FitsFile ℝ) (s : Rd ℝ) : FlatBins ℝ × Rd ℝ :=
  let s := movnam f true "BINS_SUMMARY" s
  let (nrows, s) := numRows (j.int "BINS_SUMMARY") s
  let (e0, s) := readDbl 1 0 nrows.toNat j.dbl s
  let (ef, s) := readDbl 2 0 nrows.toNat j.dbl s
  (⟨nrows.toNat, tab nrows.toNat e0, tab nrows.toNat ef⟩, s)

/-- The workspace made of the parts read. Whether the sizes of the parts agree is not checked; the model is meant for files in which they
do. -/
def flatAssemble (h : FlatHead) (g : FlatInfo × RingInfo) (c : ℕ → ℕ) (m : ℕ → ℕ → ℝ) (b : FlatBins ℝ) : WspFlat where
  fs := g.1
  cuts := h.cuts
  ncls := h.ncls
  bin := b
  isTeb := h.isTeb
  nCells := c
  binned := fun i b1 k b2 => if i < h.ncls ∧ k < h.ncls ∧ b1 < b.nBands ∧ b2 < b.nBands then m (h.ncls * b1 + i) (h.ncls * b2 + k) else 0
  unbinned := fun i b1 k ir =>
    if i < h.ncls ∧ k < h.ncls ∧ b1 < b.nBands ∧ ir < g.2.nEll then h.unbinned (h.ncls * b1 + i) (h.ncls * ir + k) else 0
  rings := g.2
  lmax := h.lmax
  pure := h.pure

/-- `nmt_workspace_flat_read_fits` (src/nmt_io.c:719-741). -/
def readWspFlat (F : Factor ℝ) (j : FlatFileJunk) (f : FitsFile ℝ) : Outcome WspFlat :=
  let s := fitsOpen f
  (checkFits s).bind fun _ =>
  let (h, s) := flatInfoFromHdus j f s
  (checkFits s).bind fun _ =>
  let (g, s) := flatGeomFromHdus j f s
  (checkFits s).bind fun _ =>
  let (c, s) := flatCellsFromHdus j f s
  (checkFits s).bind fun _ =>
  (flatMcmFromHdus F j f s).bind fun (m, s) =>
  (checkFits s).bind fun _ =>
  let (b, s) := flatBinsFromHdus j f s
  (checkFits s).bind fun _ =>
  .ok (flatAssemble h g c m b)

/-- `read_from` (pymaster/workspaces.py:508-519): the content of the object after the call and the outcome of the call; the file may be
missing. The old workspace is given up first. -/
def FlatObj.readFrom (F : Factor ℝ) (j : FlatFileJunk) (f : Option (FitsFile ℝ)) (_old : Option WspFlat) : Option WspFlat × Outcome Unit :=
  match f with
  | none => (none, .raises .runtime)
  | some f =>
    match readWspFlat F j f with
    | .ok w => (some w, .ok ())
    | .raises e => (none, .raises e)
    | .crash => (none, .crash)

/-! ## Covariances -/

/-- The first unit, an image without axes (src/nmt_io.c:879-881). -/
def flatCovPrimary : Hdu ℝ where
  name := "CWSP_PRIMARY"
  isTable := false
  keys := []
  dims := []
  ints := fun _ _ => 0
  dbls := fun _ _ => 0

/-- The units of the file of a flat covariance workspace in the order of writing, all calls successful
(`nmt_covar_workspace_flat_write_fits`, src/nmt_io.c:871-905). -/
def covFlatHdus (cw : CovWspFlat) : FitsFile ℝ :=
  let n := cw.bin.nBands
  [flatCovPrimary, flatBinsHdu cw.bin, coeffHdu n cw.x1122.xi00 "XI00_1122", coeffHdu n cw.x1221.xi00 "XI00_1221",
    coeffHdu n cw.x1122.xi02 "XI02_1122", coeffHdu n cw.x1221.xi02 "XI02_1221",
    coeffHdu n cw.x1122.xi22p "XI22P_1122", coeffHdu n cw.x1221.xi22p "XI22P_1221",
    coeffHdu n cw.x1122.xi22m "XI22M_1122", coeffHdu n cw.x1221.xi22m "XI22M_1221"]

/-- `write_to` (pymaster/covariance.py:341-352): the new content of the file. -/
def CovFlatObj.writeTo (cw : Option CovWspFlat) : Outcome (FitsFile ℝ) :=
  match cw with
  | none => .raises .value
  | some cw => .ok (covFlatHdus cw)

/-- `nmt_covar_workspace_flat_read_fits` (src/nmt_io.c:907-942). -/
def readCovarFlat (j : FlatFileJunk) (f : FitsFile ℝ) : Outcome CovWspFlat :=
  let jc : CovFileJunk ℝ := ⟨j.int, j.dbl⟩
  let s := fitsOpen f
  (checkFits s).bind fun _ =>
  let s := movnam f false "CWSP_PRIMARY" s
  let (b, s) := flatBinsFromHdus j f s
  (checkFits s).bind fun _ =>
  (coeffChecked jc f b.nBands "XI00_1122" s).bind fun (a00, s) =>
  (coeffChecked jc f b.nBands "XI00_1221" s).bind fun (b00, s) =>
  (coeffChecked jc f b.nBands "XI02_1122" s).bind fun (a02, s) =>
  (coeffChecked jc f b.nBands "XI02_1221" s).bind fun (b02, s) =>
  (coeffChecked jc f b.nBands "XI22P_1122" s).bind fun (ap, s) =>
  (coeffChecked jc f b.nBands "XI22P_1221" s).bind fun (bp, s) =>
  (coeffChecked jc f b.nBands "XI22M_1122" s).bind fun (am, s) =>
  (coeffChecked jc f b.nBands "XI22M_1221" s).bind fun (bm, _) =>
  .ok ⟨b, ⟨a00, a02, ap, am⟩, ⟨b00, b02, bp, bm⟩⟩

/-- `read_from` (pymaster/covariance.py:277-287): the content of the object after the call and the outcome of the call. -/
def CovFlatObj.readFrom (j : FlatFileJunk) (f : Option (FitsFile ℝ)) (_old : Option CovWspFlat) : Option CovWspFlat × Outcome Unit :=
  match f with
  | none => (none, .raises .runtime)
  | some f =>
    match readCovarFlat j f with
    | .ok cw => (some cw, .ok ())
    | .raises e => (none, .raises e)
    | .crash => (none, .crash)

end

end NaMaster
