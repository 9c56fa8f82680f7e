import Verif.Common
import Mathlib.Data.List.Lookmap

/-!
# The part of CFITSIO used by NaMaster

An external library; this file states what is assumed about it. A file is the list of its header-data
units (HDUs). All routines follow the inherited-status convention: a routine called with a non-zero status
returns at once and leaves its output arguments untouched.
-/

namespace NaMaster

variable {K : Type*}

/-- A header-data unit: name (keyword EXTNAME), image or binary table, integer keywords, keywords with real
values, axes of the image or number of rows of the table, and data. `ints c r`, `dbls c r` is the element of column `c`, row `r` of a
table; pixel `r` of an image is in column 0. `complete` is false for a unit whose data ends early because
the process writing the file was interrupted. -/
structure Hdu (K : Type*) where
  name : String
  isTable : Bool
  keys : List (String × ℤ)
  dims : List ℕ
  ints : ℕ → ℕ → ℤ
  dbls : ℕ → ℕ → K
  complete : Bool := true
  dkeys : List (String × K) := []

/-- Contents of a file. -/
abbrev FitsFile (K : Type*) := List (Hdu K)

/-- An open file: current unit and status. -/
structure Rd (K : Type*) where
  cur : Option (Hdu K)
  status : ℕ

/-- Values found in memory that the program did not set: `int` for integer variables (by name of the
keyword they were meant for, or of the table whose number of rows they should hold), `dbl` for elements of
arrays, `w2` for the member `w2` of a workspace, and the outcomes of building bandpowers from such
values. Arbitrary in all theorems. -/
structure Junk (K : Type*) (Bin : Type*) where
  int : String → ℤ
  dbl : ℕ → K
  w2 : K
  bins : Outcome Bin
  binsOld : Outcome Bin

/-- `fits_open_file`: an empty file is an error. -/
def fitsOpen (f : FitsFile K) : Rd K := ⟨f.head?, if f.isEmpty then 107 else 0⟩

/-- `fits_movnam_hdu`. -/
def movnam (f : FitsFile K) (isTable : Bool) (name : String) (s : Rd K) : Rd K :=
  if s.status ≠ 0 then s
  else match f.find? (fun h => h.isTable == isTable && h.name == name) with
    | some h => ⟨some h, 0⟩
    | none => { s with status := 301 }

/-- `fits_movnam_hdu` with type `ANY_HDU`. -/
def movnamAny (f : FitsFile K) (name : String) (s : Rd K) : Rd K :=
  if s.status ≠ 0 then s
  else match f.find? (fun h => h.name == name) with
    | some h => ⟨some h, 0⟩
    | none => { s with status := 301 }

/-- `fits_read_key` for an integer keyword; `old` is the value of the variable before the call. Keywords with real values, which CFITSIO
would convert, are not found; this matters for files of another kind only (see `readWorkspace_foreign`, `readWspFlat_foreign`, which do
not depend on it). -/
def readKey (k : String) (old : ℤ) (s : Rd K) : ℤ × Rd K :=
  if s.status ≠ 0 then (old, s)
  else match s.cur.bind (fun h => h.keys.lookup k) with
    | some v => (v, s)
    | none => (old, { s with status := 202 })

/-- `fits_read_key` for a keyword with a real value. -/
def readKeyD (k : String) (old : K) (s : Rd K) : K × Rd K :=
  if s.status ≠ 0 then (old, s)
  else match s.cur.bind (fun h => h.dkeys.lookup k) with
    | some v => (v, s)
    | none => (old, { s with status := 202 })

/-- `fits_get_num_rows`. -/
def numRows (old : ℤ) (s : Rd K) : ℤ × Rd K :=
  if s.status ≠ 0 then (old, s)
  else match s.cur with
    | some h => if h.isTable then ((h.dims.headD 0 : ℕ), s) else (old, { s with status := 227 })
    | none => (old, { s with status := 227 })

/-- `fits_get_img_size`: first axis. -/
def imgSize (old : ℤ) (s : Rd K) : ℤ × Rd K :=
  if s.status ≠ 0 then (old, s)
  else match s.cur with
    | some h => if h.isTable then (old, { s with status := 233 }) else ((h.dims.headD 0 : ℕ), s)
    | none => (old, { s with status := 233 })

/-- The current unit has the data asked for: `n` elements from element `first` on. -/
def Rd.has (s : Rd K) (first n : ℕ) : Bool :=
  match s.cur with
  | some h => h.complete && decide (first + n ≤ h.dims.prod)
  | none => false

/-- `fits_read_pix` or `fits_read_col` (type double): `n` elements of column `c` from element `first` on;
reading beyond the end is an error. -/
def readDbl (c first n : ℕ) (old : ℕ → K) (s : Rd K) : (ℕ → K) × Rd K :=
  if s.status ≠ 0 then (old, s)
  else match s.cur with
    | some h => if s.has first n then (fun i => h.dbls c (first + i), s) else (old, { s with status := 107 })
    | none => (old, { s with status := 107 })

/-- `fits_read_pix` or `fits_read_col` (type int). -/
def readInt (c first n : ℕ) (old : ℕ → ℤ) (s : Rd K) : (ℕ → ℤ) × Rd K :=
  if s.status ≠ 0 then (old, s)
  else match s.cur with
    | some h => if s.has first n then (fun i => h.ints c (first + i), s) else (old, { s with status := 107 })
    | none => (old, { s with status := 107 })

end NaMaster
