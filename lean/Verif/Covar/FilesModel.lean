import Verif.Covar.Model
import Verif.Files.Model

/-!
# Model of covariance workspace files

Models `src/nmt_io.c:742-870` and the methods `read_from`, `write_to` of `NmtCovarianceWorkspace`
(pymaster/covariance.py:149-166, 250-259).
-/

namespace NaMaster

variable {K : Type*}

/-- `nmt_covar_coeffs_tohdus` (src/nmt_io.c:742-756). -/
def coeffHdu [Zero K] (n : ℕ) (c : ℕ → ℕ → K) (name : String) : Hdu K where
  name := name
  isTable := false
  keys := []
  dims := [n, n]
  ints := fun _ _ => 0
  dbls := fun _ => imagePixels n c

/-- The first unit (src/nmt_io.c:790-795), an image without data. -/
def covPrimary [Zero K] (cw : CovWsp K) : Hdu K where
  name := "CWSP_PRIMARY"
  isTable := false
  keys := [("LMAX", cw.lmax), ("SPIN0_ONLY", if cw.spin0Only then 1 else 0)]
  dims := [0]
  ints := fun _ _ => 0
  dbls := fun _ _ => 0

/-- The units of a covariance workspace file in the order of writing, all calls successful
(`nmt_covar_workspace_write_fits`, src/nmt_io.c:783-817). -/
def covarHdus [Zero K] (cw : CovWsp K) : FitsFile K :=
  let n := cw.lmax + 1
  [covPrimary cw, coeffHdu n cw.x1122.xi00 "XI00_1122", coeffHdu n cw.x1221.xi00 "XI00_1221"] ++
  if cw.spin0Only then []
  else [coeffHdu n cw.x1122.xi02 "XI02_1122", coeffHdu n cw.x1221.xi02 "XI02_1221",
    coeffHdu n cw.x1122.xi22p "XI22P_1122", coeffHdu n cw.x1221.xi22p "XI22P_1221",
    coeffHdu n cw.x1122.xi22m "XI22M_1122", coeffHdu n cw.x1221.xi22m "XI22M_1221"]

/-- Values in memory that the program did not set. -/
structure CovFileJunk (K : Type*) where
  int : String → ℤ
  dbl : ℕ → K

/-- `fits_get_img_size` with room for two axes; an axis the image does not have is not set. -/
def imgSize2 (old0 old1 : ℤ) (s : Rd K) : ℤ × ℤ × Rd K :=
  if s.status ≠ 0 then (old0, old1, s)
  else match s.cur with
    | some h =>
      if h.isTable then (old0, old1, { s with status := 233 })
      else ((h.dims[0]?.map Nat.cast).getD old0, (h.dims[1]?.map Nat.cast).getD old1, s)
    | none => (old0, old1, { s with status := 233 })

/-- `nmt_covar_coeffs_fromhdus` (src/nmt_io.c:758-781). The buffer has `naxes[0]*naxes[0]` elements, the number of
pixels read is `naxes[0]*naxes[1]`: more pixels are written beyond the buffer, fewer leave part of it unset. -/
def coeffFromHdus [Zero K] (j : CovFileJunk K) (f : FitsFile K) (nExpected : ℤ) (name : String) (s : Rd K) :
    Outcome ((ℕ → ℕ → K) × Rd K) :=
  let s := movnam f false name s
  let (n0, n1, s) := imgSize2 (j.int "NAXIS1") (j.int "NAXIS2") s
  if n0 ≠ nExpected then .raises .runtime
  else if s.status = 0 ∧ n0 < n1 then .crash
  else
    let n := n0.toNat
    let pix := n * n1.toNat
    let (v, s) := readDbl 0 0 pix j.dbl s
    let m := fun i => if i < pix then v i else j.dbl i
    .ok (tab2 n n (fun i k => m (i * n + k)), s)

/-- One coefficient array followed by `check_fits` (src/nmt_io.c:841-866). -/
def coeffChecked [Zero K] (j : CovFileJunk K) (f : FitsFile K) (n : ℤ) (name : String) (s : Rd K) :
    Outcome ((ℕ → ℕ → K) × Rd K) :=
  (coeffFromHdus j f n name s).bind fun (m, s) => (checkFits s).bind fun _ => .ok (m, s)

/-- `nmt_covar_workspace_read_fits` (src/nmt_io.c:819-870). A negative `LMAX` other than -1 fails the first size
check; the model stores 0 for it. -/
def readCovar [Zero K] (j : CovFileJunk K) (f : FitsFile K) (forceSpin0 : Bool) : Outcome (CovWsp K) :=
  let s := fitsOpen f
  (checkFits s).bind fun _ =>
  let s := movnamAny f "CWSP_PRIMARY" s
  let (lmax, s) := readKey "LMAX" (j.int "LMAX") s
  (checkFits s).bind fun _ =>
  let (spin0, s) :=
    if forceSpin0 then ((1 : ℤ), s)
    else
      let (v, s) := readKey "SPIN0_ONLY" (j.int "SPIN0_ONLY") s
      if s.status ≠ 0 then (0, { s with status := 0 }) else (v, s)
  (coeffChecked j f (lmax + 1) "XI00_1122" s).bind fun (a00, s) =>
  (coeffChecked j f (lmax + 1) "XI00_1221" s).bind fun (b00, s) =>
  if spin0 ≠ 0 then .ok ⟨lmax.toNat, true, ⟨a00, a00, a00, a00⟩, ⟨b00, b00, b00, b00⟩⟩
  else
    (coeffChecked j f (lmax + 1) "XI02_1122" s).bind fun (a02, s) =>
    (coeffChecked j f (lmax + 1) "XI02_1221" s).bind fun (b02, s) =>
    (coeffChecked j f (lmax + 1) "XI22P_1122" s).bind fun (ap, s) =>
    (coeffChecked j f (lmax + 1) "XI22P_1221" s).bind fun (bp, s) =>
    (coeffChecked j f (lmax + 1) "XI22M_1122" s).bind fun (am, s) =>
    (coeffChecked j f (lmax + 1) "XI22M_1221" s).bind fun (bm, _) =>
    .ok ⟨lmax.toNat, false, ⟨a00, a02, ap, am⟩, ⟨b00, b02, bp, bm⟩⟩

/-- `read_from` (pymaster/covariance.py:149-166): member `wsp` after the call and outcome of the call; the file may be
missing. The old workspace is given up first. -/
def CovObj.readFrom [Zero K] (j : CovFileJunk K) (f : Option (FitsFile K)) (force : Bool) (_old : Option (CovWsp K)) :
    Option (CovWsp K) × Outcome Unit :=
  match f with
  | none => (none, .raises .runtime)
  | some f =>
    match readCovar j f force with
    | .ok cw => (some cw, .ok ())
    | .raises e => (none, .raises e)
    | .crash => (none, .crash)

/-- `write_to` (pymaster/covariance.py:250-259): the new content of the file. -/
def CovObj.writeTo [Zero K] (cw : Option (CovWsp K)) : Outcome (FitsFile K) :=
  match cw with
  | none => .raises .value
  | some cw => .ok (covarHdus cw)

end NaMaster
