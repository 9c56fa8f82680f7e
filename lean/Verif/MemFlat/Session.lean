import Verif.MemFlat.Use

/-!
# Flat-sky sessions

A session creates, uses and deletes objects of the classes `NmtBinFlat`, `NmtFieldFlat`, `NmtWorkspaceFlat` and
`NmtCovarianceWorkspaceFlat`, in any order. Objects are numbered in the order of their creation. Calls that the python code refuses
before it calls the library change nothing.
-/

namespace NaMaster

namespace MemF

open Mem

/-- Calls of the library that failed. -/
inductive FEvent where
  | readWspFailed (f : FWspFile)
  | readCovFailed (f : FCovFile)
  | coupledFailed (f1 f2 : FFld)
  | biasFailed (f1 f2 : FFld)
  | fullFailed (f1 f2 : FFld) (b : FBins) (w : Option FWsp)
  | gaussFailed (cw : FCov) (wa wb : FWsp)

/-- The objects of a session (`none` is a deleted object, or a workspace with nothing in it), and the calls that failed. -/
structure FSess where
  bins : List (Option FBins)
  flds : List (Option FFld)
  wsps : List (Option FWsp)
  covs : List (Option FCov)
  log : List FEvent

/-- The start of a session. -/
def FSess.start : FSess := ⟨[], [], [], [], []⟩

/-- What a user can do. -/
inductive FOp where
  /-- `NmtBinFlat(l0, lf)` with this number of bands (pymaster/bins.py:324-326). -/
  | newBins (nBands : ℕ)
  /-- `bin_cell`, `unbin_cell` (pymaster/bins.py:354-406). -/
  | useBins (i ncl : ℕ) (unbin : Bool)
  /-- Binning scheme `i` is deleted (pymaster/bins.py:328-332). -/
  | delBins (i : ℕ)
  /-- `NmtFieldFlat(...)` (pymaster/field.py:615-732). -/
  | newField (a : FldArgs) (templates : Bool)
  /-- `get_mask`, `get_maps`, `get_templates`, `get_ell_sampling` (pymaster/field.py:740-803). -/
  | useField (i : ℕ)
  /-- Field `i` is deleted (pymaster/field.py:734-738). -/
  | delField (i : ℕ)
  /-- `NmtWorkspaceFlat()` (pymaster/workspaces.py:504-505). -/
  | newWsp
  /-- `compute_coupling_matrix` (pymaster/workspaces.py:525-561) for workspace `i`, fields `a` and `b` and binning scheme `j`. -/
  | compWsp (i a b j : ℕ) (teb : Bool)
  /-- `read_from` (pymaster/workspaces.py:513-523). -/
  | readWsp (i : ℕ) (f : FWspFile)
  /-- `write_to` (pymaster/workspaces.py:563-573). -/
  | writeWsp (i : ℕ) (fail : Option ℕ)
  /-- `couple_cell` (pymaster/workspaces.py:575-603). -/
  | couple (i : ℕ)
  /-- `decouple_cell` (pymaster/workspaces.py:605-661). -/
  | decouple (i : ℕ)
  /-- Workspace `i` is deleted (pymaster/workspaces.py:507-511). -/
  | delWsp (i : ℕ)
  /-- `NmtCovarianceWorkspaceFlat()` (pymaster/covariance.py:268-269). -/
  | newCov
  /-- `compute_coupling_coefficients` (pymaster/covariance.py:289-339). -/
  | compCov (i a1 a2 b1 b2 ja jb : ℕ)
  /-- `read_from` (pymaster/covariance.py:277-287). -/
  | readCov (i : ℕ) (f : FCovFile)
  /-- `write_to` (pymaster/covariance.py:341-350). -/
  | writeCov (i : ℕ) (fail : Option ℕ)
  /-- `gaussian_covariance_flat` (pymaster/covariance.py:457-501). -/
  | gauss (c i j sa1 sa2 sb1 sb2 : ℕ)
  /-- Covariance workspace `i` is deleted (pymaster/covariance.py:271-275). -/
  | delCov (i : ℕ)
  /-- `compute_coupled_cell_flat` (pymaster/workspaces.py:942-985). -/
  | coupled (a b j : ℕ)
  /-- `deprojection_bias_flat` (pymaster/workspaces.py:857-902). -/
  | bias (a b j : ℕ)
  /-- `compute_full_master_flat` (pymaster/workspaces.py:1074-1171), maybe with a workspace. -/
  | full (a b j : ℕ) (w : Option ℕ)

/-- A call that needs object `i` to be there. -/
def withF {α : Type} (l : List (Option α)) (i : ℕ) (s : FSess) (k : α → Mem FSess) : Mem FSess :=
  match l[i]? with
  | some (some a) => k a
  | _ => pure s

/-- A method that replaces what object `i` contains. -/
def withSlot {α : Type} (l : List (Option α)) (i : ℕ) (s : FSess) (k : Option α → Mem FSess) : Mem FSess :=
  match l[i]? with
  | some o => k o
  | _ => pure s

/-- The log after a call that may fail. -/
def FSess.logIf (s : FSess) {α : Type} (r : Option α) (e : FEvent) : FSess :=
  match r with
  | some _ => s
  | none => { s with log := s.log ++ [e] }

/-- A call that leaves all objects as they are, but may fail. -/
def callF (s : FSess) (m : Mem Unit) (e : FEvent) : Mem FSess := do
  let r ← attempt m
  pure (s.logIf r e)

/-- The number of pixels is compared in python. -/
def samePixels (f1 f2 : FFld) : Bool := decide (f1.fs.pix.nx = f2.fs.pix.nx) && decide (f1.fs.pix.ny = f2.fs.pix.ny)

/-- `compute_full_master_flat` for these objects. -/
def fullCall (s : FSess) (a b j : ℕ) (w : Option FWsp) : Mem FSess :=
  withF s.flds a s fun f1 => withF s.flds b s fun f2 => withF s.bins j s fun bin =>
    if samePixels f1 f2 then callF s (fullPy f1 f2 bin w) (.fullFailed f1 f2 bin w) else pure s

/-- One operation. -/
def fstep (s : FSess) : FOp → Mem FSess
  | .newBins n => do
    let b ← fbinsCreate n
    pure { s with bins := s.bins ++ [some b] }
  | .useBins i ncl unbin => withF s.bins i s fun b => do
    binPy b ncl unbin
    pure s
  | .delBins i => withF s.bins i s fun b => do
    fbinsFree b
    pure { s with bins := s.bins.set i none }
  | .newField a templates =>
    if a.pure = true ∧ a.spin ≠ 2 then pure s
    else if a.maskOnly then
      (if templates then pure s else do
        let f ← fldEmpty a
        pure { s with flds := s.flds ++ [some f] })
    else do
      let f ← fldNew a templates
      pure { s with flds := s.flds ++ [some f] }
  | .useField i => withF s.flds i s fun f => do
    fldGet f
    pure s
  | .delField i => withF s.flds i s fun f => do
    fldFree f
    pure { s with flds := s.flds.set i none }
  | .newWsp => pure { s with wsps := s.wsps ++ [none] }
  | .compWsp i a b j teb => withF s.flds a s fun f1 => withF s.flds b s fun f2 => withF s.bins j s fun bin =>
    withSlot s.wsps i s fun o => do
      freeOpt fwspFree o
      let r ← attempt (fwspCompute f1 f2 bin teb)
      pure { s with wsps := s.wsps.set i r }
  | .readWsp i f => withSlot s.wsps i s fun o => do
    freeOpt fwspFree o
    let r ← attempt (fwspRead f)
    pure (FSess.logIf { s with wsps := s.wsps.set i r } r (.readWspFailed f))
  | .writeWsp i fail => withF s.wsps i s fun w => do
    let _ ← attempt (fwspWrite w fail)
    pure s
  | .couple i => withF s.wsps i s fun w => do
    couplePy w
    pure s
  | .decouple i => withF s.wsps i s fun w => do
    decouplePy w
    pure s
  | .delWsp i => withF s.wsps i s fun w => do
    fwspFree w
    pure { s with wsps := s.wsps.set i none }
  | .newCov => pure { s with covs := s.covs ++ [none] }
  | .compCov i a1 a2 b1 b2 ja jb => withF s.flds a1 s fun fa1 => withF s.flds a2 s fun fa2 => withF s.flds b1 s fun fb1 =>
    withF s.flds b2 s fun fb2 => withF s.bins ja s fun ba => withF s.bins jb s fun bb => withSlot s.covs i s fun o =>
      if samePixels fa1 fa2 && samePixels fa1 fb1 && samePixels fa1 fb2 then do
        freeOpt fcovFree o
        let r ← attempt (fcovInit fa1 fa2 fb1 fb2 ba bb)
        pure { s with covs := s.covs.set i r }
      else pure s
  | .readCov i f => withSlot s.covs i s fun o => do
    freeOpt fcovFree o
    let r ← attempt (fcovRead f)
    pure (FSess.logIf { s with covs := s.covs.set i r } r (.readCovFailed f))
  | .writeCov i fail => withF s.covs i s fun cw => do
    let _ ← attempt (fcovWrite cw fail)
    pure s
  | .gauss c i j sa1 sa2 sb1 sb2 => withF s.covs c s fun cw => withF s.wsps i s fun wa => withF s.wsps j s fun wb =>
    if wa.ncls = mapsOf sa1 * mapsOf sa2 ∧ wb.ncls = mapsOf sb1 * mapsOf sb2 then
      callF s (gaussPy cw wa wb (mapsOf sa1) (mapsOf sa2) (mapsOf sb1) (mapsOf sb2)) (.gaussFailed cw wa wb)
    else pure s
  | .delCov i => withF s.covs i s fun cw => do
    fcovFree cw
    pure { s with covs := s.covs.set i none }
  | .coupled a b j => withF s.flds a s fun f1 => withF s.flds b s fun f2 => withF s.bins j s fun bin =>
    if samePixels f1 f2 then callF s (coupledPy f1 f2 bin) (.coupledFailed f1 f2) else pure s
  | .bias a b j => withF s.flds a s fun f1 => withF s.flds b s fun f2 => withF s.bins j s fun bin =>
    callF s (deprojPy f1 f2 bin) (.biasFailed f1 f2)
  | .full a b j none => fullCall s a b j none
  | .full a b j (some i) => withSlot s.wsps i s fun w => fullCall s a b j w

/-- A session. -/
def frun (s : FSess) : List FOp → Mem FSess
  | [] => pure s
  | op :: ops => do
    let s' ← fstep s op
    frun s' ops

end MemF

end NaMaster
