import Verif.Files.Model
import Verif.Bins.Spec
import Verif.Master.Spec

/-!
# Specification for workspace files
-/

namespace NaMaster.FileSpec

open WspSpec BinSpec

variable {K : Type*} [Field K] [LinearOrder K]

/-- The scheme was accepted by the constructor of bandpowers. -/
def Accepted (B : Bins K) : Prop := ∃ es, binsCreate es B.ellMax = .ok B

/-- Two schemes are the same: same largest multipole, same number of bands, and each band has the same
multipoles with the same weights and prefactors. The order of the multipoles within a band, which nothing
depends on, may differ. -/
structure SameScheme (B B' : Bins K) : Prop where
  ellMax : B'.ellMax = B.ellMax
  nBands : B'.nBands = B.nBands
  band : ∀ b, (B'.band b).Perm (B.band b)

/-- Calls that replace an input of the workspace. -/
def IsUpdate : Op K → Prop
  | .updateBeams _ _ => True
  | .updateBins _ => True
  | .updateMatrix _ => True
  | _ => False

/-- What is left of a unit that was being written: a prefix of its keywords (possibly not even its name)
and incomplete data. -/
structure Torn (h p : Hdu K) : Prop where
  name : p.name = h.name ∨ p.name = ""
  keys : p.keys <+: h.keys
  incomplete : p.complete = false

/-- What can be found under a file name if the process writing `units` there was interrupted: the old
content, nothing, some complete units, or these and a torn one. Units reach the disk in order. The name of
the file is passed with a leading exclamation mark (pymaster/workspaces.py:342), which makes
`fits_create_file` remove an old file first. -/
inductive Interrupted (old : Option (FitsFile K)) (units : FitsFile K) : Option (FitsFile K) → Prop
  | before : Interrupted old units old
  | removed : Interrupted old units none
  | between (k : ℕ) (hk : k ≤ units.length) : Interrupted old units (some (units.take k))
  | torn (k : ℕ) (hk : k < units.length) (p : Hdu K) (hp : Torn units[k] p) :
      Interrupted old units (some (units.take k ++ [p]))

/-- The file with the given keyword removed from the first unit of the given name. -/
def dropKey (unit key : String) (f : FitsFile K) : FitsFile K :=
  f.map (fun h => if h.isTable = false ∧ h.name = unit then
    { h with keys := h.keys.filter (fun p => p.1 ≠ key) } else h)

/-- Table `BINS_SUMMARY` of the older bandpower layout: number of multipoles of each band, as expected by
src/nmt_io.c:160-175. -/
def oldSummary (B : Bins K) : Hdu K where
  name := "BINS_SUMMARY"
  isTable := true
  keys := [("N_BANDS", B.nBands), ("ELL_MAX", B.ellMax)]
  dims := [B.nBands]
  ints := fun _ r => (B.band r).length
  dbls := fun _ _ => 0

/-- Table `BINS_BAND_n` of the older bandpower layout: multipoles, weights and prefactors of one band, as
expected by src/nmt_io.c:178-193. -/
def oldBand (B : Bins K) (b : ℕ) : Hdu K where
  name := "BINS_BAND_" ++ toString (b + 1)
  isTable := true
  keys := []
  dims := [(B.band b).length]
  ints := fun _ r => ((B.band b)[r]?.map (fun e => (e.ell : ℤ))).getD 0
  dbls := fun c r => ((B.band b)[r]?.map (fun e => if c = 2 then e.w else e.f)).getD 0

/-- The file of a workspace with the older bandpower layout. -/
def oldLayout (F : Factor K) (w : Wsp K) (U : ℕ → ℕ → K) : FitsFile K :=
  [infoHdu w U, lArrHdu w.lmaxFields w.beamProd "BEAMS", lArrHdu w.lmaxMask w.pclMasks "PCL_MASKS",
    oldSummary w.bin] ++ (List.range w.bin.nBands).map (oldBand w.bin) ++ [mcmHdu F w, permHdu F w]

end NaMaster.FileSpec
