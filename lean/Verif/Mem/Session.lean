import Verif.Mem.Use

/-!
# Sessions

A session creates, uses and deletes objects of the classes `NmtBin`, `NmtWorkspace` and `NmtCovarianceWorkspace` in any order.
Objects are numbered in the order of their creation. Operations that the python code refuses before it calls the library change
nothing, and are left out here, except where the python code has already released something.
-/

namespace NaMaster

namespace Mem

/-- An error reported by the library becomes a python exception (pymaster/namaster.i:57-64): the session goes on. -/
def attempt {α : Type} (m : Mem α) : Mem (Option α) := fun h => match m h with
  | .bad => .bad
  | .raised h' => .done none h'
  | .done a h' => .done (some a) h'

/-- An `NmtWorkspace` (pymaster/workspaces.py:55-80). -/
structure WObj where
  wsp : Option Wsp
  hasUnbinned : Bool
  deriving Inhabited

/-- What happened to library calls, as far as it matters for memory. -/
inductive Event where
  /-- `bins_create_py` failed for this number of bands. -/
  | binsFailed (nBands : ℕ)
  /-- Reading a file failed when this number of blocks were allocated. -/
  | readFailed (blocks : ℕ)
  /-- A call of `gaussian_covariance` failed. -/
  | gaussFailed
  /-- Coupling coefficients were computed. -/
  | covComputed (spin0 : Bool)
  /-- Coupling coefficients were read. -/
  | covRead (spin0 : Bool)
  deriving DecidableEq

/-- The objects of a session (`none` in a list is a deleted object), and what happened so far. -/
structure Sess where
  bins : List (Option Bins)
  wsps : List WObj
  covs : List (Option Cov)
  log : List Event

/-- The start of a session. -/
def Sess.start : Sess := ⟨[], [], [], []⟩

/-- Nothing is allocated. -/
def emptyHeap : Heap := ⟨0, 0⟩

/-- What a user can do. -/
inductive Op where
  /-- `NmtBin(...)` (pymaster/bins.py:46-60). -/
  | newBins (nBands ellMax : ℕ) (good : ℕ → Bool)
  /-- `bin_cell`, `unbin_cell` with this number of spectra. -/
  | useBins (i ncl : ℕ)
  /-- Binning scheme `i` is deleted (pymaster/bins.py:175-179). -/
  | delBins (i : ℕ)
  /-- `NmtWorkspace()`; the other constructors go on with `compute_coupling_matrix` or `read_from`. -/
  | newWsp
  /-- `compute_coupling_matrix` (pymaster/workspaces.py:203-330) for workspace `i` and binning scheme `j`, with isotropic masks;
  `ok` is false if an argument is found to be wrong after the old matrix was released. -/
  | compute (i j : ℕ) (a : WspArgs) (ok : Bool)
  /-- The same with anisotropic masks. -/
  | computeAniso (i j : ℕ) (a : AnisoWspArgs) (ok : Bool)
  /-- `read_from` (pymaster/workspaces.py:150-164). -/
  | readWsp (i : ℕ) (f : WspFile) (unbinned : Bool)
  /-- `update_beams` (pymaster/workspaces.py:166-186). -/
  | updateBeams (i : ℕ) (long : Bool)
  /-- `update_bins` (pymaster/workspaces.py:188-201). -/
  | updateBins (i j : ℕ)
  /-- `update_coupling_matrix` (pymaster/workspaces.py:364-383). -/
  | updateMatrix (i nRows : ℕ)
  /-- `couple_cell` (pymaster/workspaces.py:384-410). -/
  | couple (i : ℕ)
  /-- `get_bandpower_windows` (pymaster/workspaces.py:466-495). -/
  | windows (i : ℕ)
  /-- `get_coupling_matrix` (pymaster/workspaces.py:344-362). -/
  | matrix (i : ℕ)
  /-- `write_to` (pymaster/workspaces.py:332-342). -/
  | writeWsp (i : ℕ) (fail : Option ℕ)
  /-- `decouple_cell` (pymaster/workspaces.py:412-463). -/
  | decouple (i : ℕ)
  /-- Workspace `i` is deleted (pymaster/workspaces.py:136-140). -/
  | delWsp (i : ℕ)
  /-- `NmtCovarianceWorkspace()`; the other constructors go on with one of the following. -/
  | newCov
  /-- `compute_coupling_coefficients` (pymaster/covariance.py:164-245). -/
  | computeCov (i lmax : ℕ) (spin0 toeplitz : Bool) (threads : ℕ) (work : ℕ → ℕ)
  /-- `read_from` (pymaster/covariance.py:148-162). -/
  | readCov (i : ℕ) (f : CovFile) (force : Bool)
  /-- `write_to` (pymaster/covariance.py:247-256). -/
  | writeCov (i : ℕ) (fail : Option ℕ)
  /-- `gaussian_covariance` (pymaster/covariance.py:353-454) with covariance workspace `c` and workspaces `i` and `j`. -/
  | gauss (c i j : ℕ) (spins ncls coupled : Bool)
  /-- Covariance workspace `i` is deleted (pymaster/covariance.py:142-146). -/
  | delCov (i : ℕ)

/-- `if x is not None: lib.bins_free(x)` and the like. -/
def freeOpt {α : Type} (f : α → Mem Unit) : Option α → Mem Unit
  | none => pure ()
  | some a => f a

/-- An operation on object `i` that needs it to be there. -/
def withObj {α : Type} (l : List (Option α)) (i : ℕ) (s : Sess) (k : α → Mem Sess) : Mem Sess :=
  match l[i]? with
  | some (some a) => k a
  | _ => pure s

/-- A method of workspace `i` that uses what it contains. -/
def withWsp (s : Sess) (i : ℕ) (k : Wsp → Bool → Mem Sess) : Mem Sess :=
  match s.wsps[i]? with
  | some ⟨some w, u⟩ => k w u
  | _ => pure s

/-- A method that starts with `check_unbinned` (pymaster/workspaces.py:142-148). -/
def withUnbinned (s : Sess) (i : ℕ) (m : Wsp → Mem Unit) : Mem Sess :=
  withWsp s i fun w u => if u then do let _ ← attempt (m w); pure s else pure s

/-- The new matrix of workspace `i`, if any. -/
def Sess.setWsp (s : Sess) (i : ℕ) (r : Option Wsp) (u : Bool) : Sess := { s with wsps := s.wsps.set i ⟨r, u⟩ }

/-- The old matrix is released, then (if `ok`) the new one is computed. -/
def recompute (s : Sess) (i : ℕ) (o : WObj) (ok : Bool) (m : Mem Wsp) : Mem Sess := do
  freeOpt wspFree o.wsp
  let r ← pick ok (attempt m) (pure none)
  pure (match r with
    | some w => s.setWsp i (some w) true
    | none => s.setWsp i none o.hasUnbinned)

/-- `compute_coupling_matrix`: the `lmax` of the fields is compared with that of the binning scheme before the old matrix is
released. -/
def computeStep (s : Sess) (i j lmaxFields : ℕ) (ok : Bool) (m : Bins → Mem Wsp) : Mem Sess :=
  withObj s.bins j s fun b =>
    match s.wsps[i]? with
    | some o => if lmaxFields = b.ellMax then recompute s i o ok (m b) else pure s
    | none => pure s

/-- The lists and the log after a call that may fail. -/
def Sess.logIf (s : Sess) {α : Type} (r : Option α) (e : Event) : Sess :=
  match r with
  | some _ => s
  | none => { s with log := s.log ++ [e] }

/-- `wsp_update_bins`: the workspace afterwards. -/
def Sess.rebinned (s : Sess) (i : ℕ) (u : Bool) : Option Wsp → Sess
  | some w => s.setWsp i (some w) u
  | none => s

/-- `NmtBin(...)`: the new object. -/
def Sess.addBins (s : Sess) (n : ℕ) : Option Bins → Sess
  | some b => { s with bins := s.bins ++ [some b] }
  | none => { s with bins := s.bins ++ [none], log := s.log ++ [.binsFailed n] }

/-- `read_from`: the workspace afterwards. -/
def Sess.wspLoaded (s : Sess) (i : ℕ) (o : WObj) (u : Bool) (blocks : ℕ) : Option Wsp → Sess
  | some w => s.setWsp i (some w) u
  | none => { s.setWsp i none o.hasUnbinned with log := s.log ++ [.readFailed blocks] }

/-- `read_from`: the covariance workspace afterwards. -/
def Sess.covLoaded (s : Sess) (i blocks : ℕ) : Option Cov → Sess
  | some cw => { s with covs := s.covs.set i (some cw), log := s.log ++ [.covRead cw.spin0] }
  | none => { s with covs := s.covs.set i none, log := s.log ++ [.readFailed blocks] }

/-- One operation. -/
def step (s : Sess) : Op → Mem Sess
  | .newBins n lmax good => do
    let r ← attempt (binsCreate n lmax good)
    pure (s.addBins n r)
  | .useBins i ncl => withObj s.bins i s fun b => do
    binCl b ncl
    pure s
  | .delBins i => withObj s.bins i s fun b => do
    binsFree b
    pure { s with bins := s.bins.set i none }
  | .newWsp => pure { s with wsps := s.wsps ++ [⟨none, false⟩] }
  | .compute i j a ok => computeStep s i j a.lmaxFields ok (computeCoupling a)
  | .computeAniso i j a ok => computeStep s i j a.lmaxFields ok (Mem.computeAniso a)
  | .readWsp i f u => match s.wsps[i]? with
    | some o => do
      freeOpt wspFree o.wsp
      let r ← attempt (wspRead f u)
      pure (s.wspLoaded i o u (f.lost u) r)
    | none => pure s
  | .updateBeams i long => withWsp s i fun w _ => do
    let _ ← attempt (Mem.updateBeams w long)
    pure s
  | .updateBins i j => withWsp s i fun w u => withObj s.bins j s fun b => do
    let r ← attempt (updateBinning w b)
    pure (s.rebinned i u r)
  | .updateMatrix i n => withUnbinned s i fun w => Mem.updateMatrix w n
  | .couple i => withUnbinned s i coupleCl
  | .windows i => withUnbinned s i bandpowerWindows
  | .matrix i => withUnbinned s i getMcm
  | .writeWsp i fail => withUnbinned s i fun w => wspWrite w fail
  | .decouple i => withWsp s i fun w _ => do
    decoupleCl w
    pure s
  | .delWsp i => withWsp s i fun w u => do
    wspFree w
    pure (s.setWsp i none u)
  | .newCov => pure { s with covs := s.covs ++ [none] }
  | .computeCov i lmax spin0 toeplitz threads work => match s.covs[i]? with
    | some o => do
      freeOpt covFree o
      let cw ← covInit lmax spin0 toeplitz threads work
      pure { s with covs := s.covs.set i (some cw), log := s.log ++ [.covComputed spin0] }
    | none => pure s
  | .readCov i f force => match s.covs[i]? with
    | some o => do
      freeOpt covFree o
      let r ← attempt (Mem.covRead f force)
      pure (s.covLoaded i f.lost r)
    | none => pure s
  | .writeCov i fail => withObj s.covs i s fun cw => do
    let _ ← attempt (covWrite cw fail)
    pure s
  | .gauss c i j spins ncls coupled => withObj s.covs c s fun cw => withWsp s i fun wa ua => withWsp s j fun wb ub =>
    if coupled = true ∧ ¬(ua = true ∧ ub = true) then pure s else do
      let r ← attempt (gaussCov cw wa wb spins ncls coupled)
      pure (s.logIf r .gaussFailed)
  | .delCov i => withObj s.covs i s fun cw => do
    covFree cw
    pure { s with covs := s.covs.set i none }

/-- A session. -/
def run (s : Sess) : List Op → Mem Sess
  | [] => pure s
  | op :: ops => do
    let s' ← step s op
    run s' ops

end Mem

end NaMaster
