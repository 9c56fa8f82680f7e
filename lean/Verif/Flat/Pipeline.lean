import Verif.Flat.Coupling
import Verif.Master.Model

/-!
# Model of the flat-sky pipeline

Models `NmtWorkspaceFlat.decouple_cell`, `compute_coupled_cell_flat`, `deprojection_bias_flat` and
`compute_full_master_flat` (pymaster/workspaces.py:603-661,857-902,942-985,1074-1171), their wrappers
(pymaster/namaster.i:541-564,699-718,753-783,840-873) and `nmt_decouple_cl_l_flat`,
`nmt_compute_coupled_cell_flat` and `nmt_compute_power_spectra_flat` (src/nmt_master_flat.c:873-950). The deprojection
bias of fields with templates (src/nmt_master_flat.c:563-692) is a parameter. An array of pointers to rows is an `Arr2`;
using a row that it does not have is undefined.
-/

namespace NaMaster

open Real Finset

/-- A flat field (`nmt_field_flat`): what the coupling matrix needs, whether it has maps and templates, and the Fourier
coefficients of its masked maps. -/
structure FlatFieldData extends FlatField where
  maskOnly : Bool
  lite : Bool
  ntemp : ℕ
  alms : ℕ → ℕ × ℕ → ℂ

/-- Number of maps of a field. -/
def FlatFieldData.nmaps (f : FlatFieldData) : ℕ := nmapsOf f.spin

/-- The spectra written by `fs_alm2cl` (src/flatsky_utils.c:356-432) into the first rows of an array with `rows` rows
filled with zeros. -/
noncomputable def fsAlm2clAll (f1 f2 : FlatFieldData) (b : FlatBins ℝ) (c : EllCuts) (rows : ℕ) : Outcome (Arr2 ℝ) :=
  if rows < f1.nmaps * f2.nmaps then .crash
  else (Outcome.all ((List.range (f1.nmaps * f2.nmaps)).map fun i =>
      fsAlm2cl f1.fs b c (f1.alms (i / f2.nmaps)) (f2.alms (i % f2.nmaps)))).bind fun cls =>
    .ok (Arr2.of rows b.nBands fun i ib => (cls.getD i fun _ => 0) ib)

open Classical in
/-- `nmt_compute_coupled_cell_flat` (src/nmt_master_flat.c:898-908), into an array with `rows` rows. -/
noncomputable def coupledCellFlatC (f1 f2 : FlatFieldData) (b : FlatBins ℝ) (c : EllCuts) (rows : ℕ) : Outcome (Arr2 ℝ) :=
  if f1.maskOnly ∨ f2.maskOnly then .raises .runtime
  else if f1.fs ≠ f2.fs then .raises .runtime
  else fsAlm2clAll f1 f2 b c rows

open Classical in
/-- `compute_coupled_cell_flat` (pymaster/workspaces.py:942-985, pymaster/namaster.i:699-718). -/
noncomputable def coupledCellFlat (f1 f2 : FlatFieldData) (b : FlatBins ℝ) (c : EllCuts) : Outcome (Arr2 ℝ) :=
  if f1.fs.nx ≠ f2.fs.nx ∨ f1.fs.ny ≠ f2.fs.ny then .raises .value
  else if f1.fs.lx ≠ f2.fs.lx ∨ f1.fs.ly ≠ f2.fs.ly then .raises .runtime
  else coupledCellFlatC f1 f2 b c (f1.nmaps * f2.nmaps)

/-- The deprojection bias of two fields of which at least one has templates (src/nmt_master_flat.c:584-692). -/
abbrev FlatDeproj := FlatFieldData → FlatFieldData → FlatBins ℝ → EllCuts → List ℝ → (ℕ → ℕ → ℝ) → ℕ → ℕ → ℝ

open Classical in
/-- `nmt_compute_deprojection_bias_flat` (src/nmt_master_flat.c:540-700), into an array with `rows` rows filled with zeros.
The interpolation of the proposal spectra (line 558) ends the process for less than two multipoles and for multipoles that
do not increase. -/
noncomputable def deprojBiasFlatC (D : FlatDeproj) (f1 f2 : FlatFieldData) (b : FlatBins ℝ) (c : EllCuts) (ells : List ℝ)
    (guess : ℕ → ℕ → ℝ) (rows : ℕ) : Outcome (Arr2 ℝ) :=
  if f1.lite ∨ f2.lite then .raises .runtime
  else if ¬ (2 ≤ ells.length ∧ ells.Pairwise (· < ·)) then .crash
  else if rows < f1.nmaps * f2.nmaps then .crash
  else if f1.fs ≠ f2.fs then .raises .runtime
  else .ok (Arr2.of rows b.nBands fun i ib =>
    if i < f1.nmaps * f2.nmaps then (if f1.ntemp = 0 ∧ f2.ntemp = 0 then 0 else D f1 f2 b c ells guess i ib) else 0)

/-- `deprojection_bias_flat` (pymaster/workspaces.py:857-902, pymaster/namaster.i:541-564). -/
noncomputable def deprojBiasFlat (D : FlatDeproj) (f1 f2 : FlatFieldData) (b : FlatBins ℝ) (c : EllCuts) (ells : List ℝ)
    (guess : Arr2 ℝ) : Outcome (Arr2 ℝ) :=
  if guess.rows ≠ f1.nmaps * f2.nmaps then .raises .value
  else if guess.cols ≠ ells.length then .raises .value
  else deprojBiasFlatC D f1 f2 b c ells guess.val (f1.nmaps * f2.nmaps)

/-- The binned coupling matrix of a flat workspace as the matrix given to GSL (src/nmt_master_flat.c:509-519):
row `ncls*b1+i` and column `ncls*b2+j`. -/
def WspFlat.gslMatrix (w : WspFlat) (r s : ℕ) : ℝ := w.binned (r % w.ncls) (r / w.ncls) (s % w.ncls) (s / w.ncls)

/-- The vector `dl_map_bad_b` of `nmt_decouple_cl_l_flat` (src/nmt_master_flat.c:880-886). -/
def flatInput (w : WspFlat) (cl noise bias : ℕ → ℕ → ℝ) : ℕ → ℝ :=
  runWrites ((List.range w.ncls).flatMap fun icl => (List.range w.bin.nBands).map fun ib2 =>
    (w.ncls * ib2 + icl, cl icl ib2 - noise icl ib2 - bias icl ib2)) (fun _ => 0)

/-- `nmt_decouple_cl_l_flat` (src/nmt_master_flat.c:873-896) with an output array of `rows` rows. -/
noncomputable def decoupleFlatC (L : LinAlg ℝ) (w : WspFlat) (cl noise bias : Arr2 ℝ) (rows : ℕ) : Outcome (Arr2 ℝ) :=
  if cl.rows < w.ncls ∨ noise.rows < w.ncls ∨ bias.rows < w.ncls ∨ rows < w.ncls then .crash
  else .ok (Arr2.of rows w.bin.nBands fun icl ib2 =>
    if icl < w.ncls then
      L.solve (w.ncls * w.bin.nBands) w.gslMatrix (flatInput w cl.val noise.val bias.val) (w.ncls * ib2 + icl)
    else 0)

/-- `NmtWorkspaceFlat.decouple_cell` (pymaster/workspaces.py:603-661, pymaster/namaster.i:753-783). An object without a
matrix has no attribute `ncls`. -/
noncomputable def decoupleCellFlat (L : LinAlg ℝ) (wsp : Option WspFlat) (cl : Arr2 ℝ) (bias noise : Option (Arr2 ℝ)) :
    Outcome (Arr2 ℝ) :=
  match wsp with
  | none => .raises .attribute
  | some w =>
    if cl.rows ≠ w.ncls ∨ cl.cols ≠ w.bin.nBands then .raises .value
    else if bias.any (fun a => a.rows ≠ w.ncls ∨ a.cols ≠ w.bin.nBands) then .raises .value
    else if noise.any (fun a => a.rows ≠ w.ncls ∨ a.cols ≠ w.bin.nBands) then .raises .value
    else
      let clb := bias.getD ⟨cl.rows, cl.cols, fun _ _ => 0⟩
      let cln := noise.getD ⟨cl.rows, cl.cols, fun _ _ => 0⟩
      if cl.rows ≠ cln.rows ∨ cln.rows ≠ clb.rows ∨ cl.rows ≠ w.ncls ∨ cl.cols ≠ cln.cols ∨ cln.cols ≠ clb.cols ∨
          cl.cols ≠ w.bin.nBands then .raises .runtime
      else decoupleFlatC L w cl cln clb w.ncls

open Classical in
/-- The workspace used by `nmt_compute_power_spectra_flat` (src/nmt_master_flat.c:921-929). -/
noncomputable def pickWspFlat (f1 f2 : FlatFieldData) (b : FlatBins ℝ) (c : EllCuts) : Option WspFlat → Outcome WspFlat
  | none => couplingFlat f1.toFlatField f2.toFlatField b c false
  | some w =>
    if f1.fs ≠ w.fs ∨ f2.fs ≠ w.fs then .raises .runtime
    else if b.nBands ≠ w.bin.nBands then .raises .runtime
    else .ok w

/-- `nmt_compute_power_spectra_flat` (src/nmt_master_flat.c:910-950), with an output array of `rows` rows. -/
noncomputable def powerSpectraFlatC (L : LinAlg ℝ) (D : FlatDeproj) (f1 f2 : FlatFieldData) (b : FlatBins ℝ) (c : EllCuts)
    (w0 : Option WspFlat) (noise : Arr2 ℝ) (ells : List ℝ) (guess : ℕ → ℕ → ℝ) (rows : ℕ) : Outcome (Arr2 ℝ) :=
  (pickWspFlat f1 f2 b c w0).bind fun w =>
    (coupledCellFlatC f1 f2 b c w.ncls).bind fun cl =>
      (deprojBiasFlatC D f1 f2 b c ells guess w.ncls).bind fun bias =>
        decoupleFlatC L w cl noise bias rows

/-- `compute_full_master_flat` (pymaster/workspaces.py:1074-1171, pymaster/namaster.i:840-873). The workspace, if given, is
the content of an `NmtWorkspaceFlat`; one without a matrix is handed over as `NULL`, like none. The guess comes with its
multipoles, if these are given. -/
noncomputable def fullMasterFlat (L : LinAlg ℝ) (D : FlatDeproj) (f1 f2 : FlatFieldData) (b : FlatBins ℝ) (c : EllCuts)
    (noise : Option (Arr2 ℝ)) (guess : Option (Arr2 ℝ × Option (List ℝ))) (workspace : Option (Option WspFlat)) :
    Outcome (Arr2 ℝ) :=
  let nspec := f1.nmaps * f2.nmaps
  let run := fun (ells : List ℝ) (clg : Arr2 ℝ) =>
    let cln := noise.getD ⟨nspec, b.nBands, fun _ _ => 0⟩
    if cln.rows ≠ nspec ∨ cln.cols ≠ b.nBands ∨ ells.length ≠ clg.cols ∨ cln.rows ≠ clg.rows then .raises .runtime
    else powerSpectraFlatC L D f1 f2 b c (workspace.bind id) cln ells clg.val nspec
  if f1.fs.nx ≠ f2.fs.nx ∨ f1.fs.ny ≠ f2.fs.ny then .raises .value
  else if noise.any (fun a => a.rows ≠ nspec ∨ a.cols ≠ b.nBands) then .raises .value
  else match guess with
    | none => run ((List.range b.nBands).map (ellEffFlat b)) ⟨nspec, b.nBands, fun _ _ => 0⟩
    | some (_, none) => .raises .value
    | some (clg, some ells) =>
      if clg.rows ≠ nspec ∨ clg.cols ≠ ells.length then .raises .value
      else run ells clg

end NaMaster
