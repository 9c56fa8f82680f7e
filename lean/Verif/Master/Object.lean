import Verif.Master.Model

/-!
# Model of the python object `NmtWorkspace`

Models the state of `NmtWorkspace` (pymaster/workspaces.py:11-494) and how its methods change it. The C
calls that compute or read a workspace are arguments of the corresponding operations (their models are in
other files); everything the methods do around them is modelled.
-/

namespace NaMaster

variable {K : Type*} [Field K]

/-- Attributes `wsp` and `has_unbinned` of `NmtWorkspace` (pymaster/workspaces.py:58-59). -/
structure Obj (K : Type*) where
  wsp : Option (Wsp K)
  hasUnbinned : Bool

/-- The object made by the bare constructor (pymaster/workspaces.py:55-70). -/
def Obj.bare : Obj K := ⟨none, false⟩

/-- Values returned by the methods. -/
inductive Reply (K : Type*) where
  | unit
  | arr (a : Arr2 K)
  /-- bandpower windows: number of spectra, bands, multipoles and elements `[icl1,ib1,icl2,l2]` -/
  | win (ncls nBands nEll : ℕ) (f : ℕ → ℕ → ℕ → ℕ → K)

/-- `_toeplitz_sanity` (pymaster/utils.py:684-698); `pureAny` says whether a field is purified. -/
def toeplitzSanity (lToeplitz lExact dlBand lmax : ℤ) (pureAny : Bool) : Option Err :=
  if lToeplitz > 0 then
    if pureAny then some .value
    else if lExact ≤ 0 ∨ dlBand < 0 then some .value
    else if lExact > lToeplitz then some .value
    else if lToeplitz ≥ lmax ∨ lExact ≥ lmax ∨ dlBand ≥ lmax then some .value
    else none
  else none

/-- What `compute_coupling_matrix` looks at: properties of the two fields, of the bandpowers and the
remaining arguments; `cResult` is the outcome of the call of the C function that computes the matrix. -/
structure ComputeArgs (K : Type*) where
  compatible : Bool
  lmaxField : ℕ
  lmaxBins : ℕ
  aniso1 : Bool
  aniso2 : Bool
  pureAny : Bool
  catalogAny : Bool
  sameField : Bool
  lToeplitz : ℤ
  lExact : ℤ
  dlBand : ℤ
  normalization : String
  cResult : Outcome (Wsp K)

/-- The checks of `compute_coupling_matrix` made before the old workspace is freed
(pymaster/workspaces.py:239-244). -/
def ComputeArgs.early (a : ComputeArgs K) : Option Err :=
  if ¬ a.compatible then some .value
  else if a.lmaxField ≠ a.lmaxBins then some .value
  else none

/-- The checks made afterwards (pymaster/workspaces.py:249-309) and the C call (311-329). The
computation of mask spectra (256-288) is left out. -/
def ComputeArgs.late (a : ComputeArgs K) : Outcome (Wsp K) :=
  if (a.aniso1 ∨ a.aniso2) ∧ a.lToeplitz ≥ 0 then .raises .notImplemented
  else match toeplitzSanity a.lToeplitz a.lExact a.dlBand a.lmaxBins a.pureAny with
    | some e => .raises e
    | none =>
      if a.normalization ≠ "MASTER" ∧ a.normalization ≠ "FKP" then .raises .value
      else if a.normalization = "FKP" ∧ a.catalogAny ∧ ¬ a.sameField then .raises .value
      else a.cResult

/-- `NmtWorkspace.compute_coupling_matrix` (pymaster/workspaces.py:203-330). -/
def Obj.compute (o : Obj K) (a : ComputeArgs K) : Obj K × Outcome (Reply K) :=
  match a.early with
  | some e => (o, .raises e)
  | none =>
    let o := { o with wsp := none }
    match a.late with
    | .ok w => (⟨some w, true⟩, .ok .unit)
    | .raises e => (o, .raises e)
    | .crash => (o, .crash)

/-- `NmtWorkspace.read_from` (pymaster/workspaces.py:150-164); `r` is the outcome of
`lib.read_workspace`. -/
def Obj.readFrom (o : Obj K) (r : Outcome (Wsp K)) (readUnbinned : Bool) : Obj K × Outcome (Reply K) :=
  let o := { o with wsp := none }
  match r with
  | .ok w => (⟨some w, readUnbinned⟩, .ok .unit)
  | .raises e => (o, .raises e)
  | .crash => (o, .crash)

/-- Store the result of a C update in the object: the C functions change the workspace in place, and
raise before changing anything. -/
def Obj.store (o : Obj K) : Outcome (Wsp K) → Obj K × Outcome (Reply K)
  | .ok w => ({ o with wsp := some w }, .ok .unit)
  | .raises e => (o, .raises e)
  | .crash => (o, .crash)

/-- `NmtWorkspace.update_beams` (pymaster/workspaces.py:166-186); `none` stands for an argument that is
not a list, tuple or array. -/
def Obj.updateBeams (o : Obj K) (beam1 beam2 : Option (List K)) : Obj K × Outcome (Reply K) :=
  match beam1, beam2 with
  | some b1, some b2 =>
    match o.wsp with
    | none => (o, .raises .attribute)
    | some w =>
      if b1.length ≤ w.lmaxFields ∨ b2.length ≤ w.lmaxFields then (o, .raises .value)
      else o.store (cUpdateBeams w b1 b2)
  | _, _ => (o, .raises .value)

/-- `NmtWorkspace.update_bins` (pymaster/workspaces.py:188-201); `none` stands for bandpowers without
C object. -/
def Obj.updateBins (o : Obj K) (bins : Option (Bins K)) : Obj K × Outcome (Reply K) :=
  match o.wsp with
  | none => (o, .raises .value)
  | some w =>
    match bins with
    | none => (o, .raises .value)
    | some B => o.store (cUpdateBinning w B)

/-- `NmtWorkspace.check_unbinned` (pymaster/workspaces.py:142-148). -/
def Obj.checkUnbinned (o : Obj K) : Outcome Unit := if o.hasUnbinned then .ok () else .raises .value

/-- `numpy` flattening of a two-dimensional array. -/
def Arr2.flatten (a : Arr2 K) : ℕ → K := fun k => a.val (k / a.cols) (k % a.cols)

/-- `NmtWorkspace.update_coupling_matrix` (pymaster/workspaces.py:364-382) with the SWIG wrapper
`update_mcm` (namaster.i:124-129). The C type `int` holds `n_rows*n_rows`; overflow is undefined. -/
def Obj.updateMatrix (o : Obj K) (m : Arr2 K) : Obj K × Outcome (Reply K) :=
  match o.wsp with
  | none => (o, .raises .runtime)
  | some w =>
    match o.checkUnbinned with
    | .ok _ =>
      if m.rows ≠ (w.lmax + 1) * w.ncls then (o, .raises .value)
      else if 2 ^ 31 ≤ m.rows * m.rows then (o, .crash)
      else if m.rows * m.cols ≠ m.rows * m.rows then (o, .raises .runtime)
      else o.store (cUpdateMatrix w m.rows m.flatten)
    | .raises e => (o, .raises e)
    | .crash => (o, .crash)

/-- `NmtWorkspace.get_coupling_matrix` (pymaster/workspaces.py:344-362) with the SWIG wrapper `get_mcm`
(namaster.i:137-148), whose index `ii*nrows` is an `int` product; overflow is undefined. -/
def Obj.getMatrix (o : Obj K) : Outcome (Arr2 K) :=
  match o.wsp with
  | none => .raises .runtime
  | some w => o.checkUnbinned.bind fun _ =>
      let nrows := (w.lmax + 1) * w.ncls
      match w.unbinned with
      | none => if nrows = 0 then .ok (Arr2.of 0 0 (fun _ _ => 0)) else .crash
      | some U =>
        if 2 ^ 31 ≤ (nrows - 1) * nrows then .crash
        else
          let flat : ℕ → K := runWrites ((List.range nrows).flatMap fun ii =>
            (List.range nrows).map fun jj => (ii * nrows + jj, U ii jj)) (fun _ => 0)
          .ok (Arr2.of nrows nrows (fun i j => flat (i * nrows + j)))

/-- `NmtWorkspace.couple_cell` (pymaster/workspaces.py:384-410), see `coupleCell`. -/
def Obj.coupleCell (o : Obj K) (cl : Arr2 K) : Outcome (Arr2 K) :=
  match o.wsp with
  | none => .raises .attribute
  | some w =>
    if cl.rows ≠ w.ncls ∨ cl.cols < w.lmax + 1 then .raises .value
    else o.checkUnbinned.bind fun _ =>
      match w.unbinned with
      | none => .crash
      | some U => NaMaster.coupleCell w U cl

/-- `NmtWorkspace.decouple_cell` (pymaster/workspaces.py:412-464), see `decoupleCell`. -/
def Obj.decoupleCell (L : LinAlg K) (o : Obj K) (cl : Arr2 K) (bias noise : Option (Arr2 K)) :
    Outcome (Arr2 K) :=
  match o.wsp with
  | none => .raises .attribute
  | some w => NaMaster.decoupleCell L w cl bias noise

/-- `NmtWorkspace.get_bandpower_windows` (pymaster/workspaces.py:466-494), see `bandpowerWindows`. The size
of the output is passed as a C `int`; python raises `OverflowError` (here the type error) if it does not
fit. -/
def Obj.windows (L : LinAlg K) (o : Obj K) : Outcome (Reply K) :=
  o.checkUnbinned.bind fun _ =>
    match o.wsp with
    | none => .raises .attribute
    | some w =>
      if 2 ^ 31 ≤ w.ncls * w.bin.nBands * w.ncls * (w.lmax + 1) then .raises .type
      else match w.unbinned with
        | none => .crash
        | some U => .ok (.win w.ncls w.bin.nBands (w.lmax + 1) (fun a b c l =>
            if a < w.ncls ∧ b < w.bin.nBands ∧ c < w.ncls ∧ l < w.lmax + 1 then
              bandpowerWindows L w U a b c l else 0))

/-- `NmtWorkspace.write_to` (pymaster/workspaces.py:332-342), up to the call of the C writer, which needs
the unbinned matrix: the workspace that is written. -/
def Obj.writeTo (o : Obj K) : Outcome (Wsp K) :=
  match o.wsp with
  | none => .raises .runtime
  | some w => o.checkUnbinned.bind fun _ =>
      match w.unbinned with
      | none => .crash
      | some _ => .ok w

/-- Calls of methods of a workspace. -/
inductive Op (K : Type*) where
  | compute (a : ComputeArgs K)
  | read (r : Outcome (Wsp K)) (unbinned : Bool)
  | updateBeams (b1 b2 : Option (List K))
  | updateBins (B : Option (Bins K))
  | updateMatrix (m : Arr2 K)
  | couple (cl : Arr2 K)
  | decouple (cl : Arr2 K) (bias noise : Option (Arr2 K))
  | windows
  | getMatrix
  | write

/-- Return value from an array. -/
def Outcome.arr : Outcome (Arr2 K) → Outcome (Reply K)
  | .ok a => .ok (.arr a)
  | .raises e => .raises e
  | .crash => .crash

/-- Forget the value. -/
def Outcome.unit {α : Type*} : Outcome α → Outcome (Reply K)
  | .ok _ => .ok .unit
  | .raises e => .raises e
  | .crash => .crash

/-- One method call. -/
def Obj.step (L : LinAlg K) (o : Obj K) : Op K → Obj K × Outcome (Reply K)
  | .compute a => o.compute a
  | .read r u => o.readFrom r u
  | .updateBeams b1 b2 => o.updateBeams b1 b2
  | .updateBins B => o.updateBins B
  | .updateMatrix m => o.updateMatrix m
  | .couple cl => (o, (o.coupleCell cl).arr)
  | .decouple cl b n => (o, (o.decoupleCell L cl b n).arr)
  | .windows => (o, o.windows L)
  | .getMatrix => (o, o.getMatrix.arr)
  | .write => (o, o.writeTo.unit)

/-- The object after a sequence of calls. -/
def Obj.run (L : LinAlg K) (o : Obj K) (ops : List (Op K)) : Obj K :=
  ops.foldl (fun o op => (o.step L op).1) o

/-- The replies to a sequence of calls. -/
def Obj.replies (L : LinAlg K) : Obj K → List (Op K) → List (Outcome (Reply K))
  | _, [] => []
  | o, op :: ops => (o.step L op).2 :: Obj.replies L (o.step L op).1 ops

end NaMaster
