import Verif.Flat.BiasModel

/-!
# Model of the prediction of flat-sky pseudo-spectra

Models `nmt_couple_cl_l_flat_fast` (src/nmt_master_flat.c:718-802), `couple_cell_py_flat` (pymaster/namaster.i:807-826) and
`NmtWorkspaceFlat.couple_cell` (pymaster/workspaces.py:575-602). The function `nmt_couple_cl_l_flat_quick` (src/nmt_master_flat.c:804-871)
is not called from python.
-/

namespace NaMaster

open Real Finset

/-- One element of the array `cl_in_rings` (src/nmt_master_flat.c:729-783): the mean over the modes in a ring of a function of the
wave number; zero for a ring without modes. -/
noncomputable def ringMean (r : RingInfo) (fs : FlatInfo) (g : ℝ → ℝ) (ir : ℕ) : ℝ :=
  let n := #{k ∈ fs.modes | r.index (fs.kmod k.1 k.2) = ir}
  let s := ∑ k ∈ fs.modes with r.index (fs.kmod k.1 k.2) = ir, g (fs.kmod k.1 k.2)
  if n > 0 then s / n else s

open Classical in
/-- `NmtWorkspaceFlat.couple_cell` (pymaster/workspaces.py:575-602, pymaster/namaster.i:807-826, src/nmt_master_flat.c:718-802). The
input spectra are interpolated between the multipoles `ells`; GSL ends the process if these are less than two or do not increase. An
object without a matrix has no attribute `ncls`. -/
noncomputable def coupleCellFlat (wsp : Option WspFlat) (ells : List ℝ) (cl : Arr2 ℝ) : Outcome (Arr2 ℝ) :=
  match wsp with
  | none => .raises .attribute
  | some w =>
    if cl.rows ≠ w.ncls ∨ cl.cols ≠ ells.length then .raises .value
    else if ¬ (2 ≤ ells.length ∧ ells.Pairwise (· < ·)) then .crash
    else .ok (Arr2.of w.ncls w.bin.nBands fun i ib =>
      ∑ ind2 ∈ range (w.ncls * w.rings.nEll), w.unbinned i ib (ind2 % w.ncls) (ind2 / w.ncls) *
        ringMean w.rings w.fs (propFun ells (cl.val (ind2 % w.ncls))) (ind2 / w.ncls))

end NaMaster
