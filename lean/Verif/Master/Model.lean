import Verif.Common
import Mathlib.LinearAlgebra.Matrix.NonsingularInverse
import Mathlib.Algebra.BigOperators.Group.Finset.Basic

/-!
# Model of curved-sky workspaces: coupling, binning, decoupling, updates

Models `src/nmt_master.c` (lines 4-155 and 1141-1254), the SWIG glue around it in
`pymaster/namaster.i` and the methods of `NmtWorkspace` in `pymaster/workspaces.py`.

The GSL routines for LU decompositions are external: `gsl_linalg_LU_decomp` followed by
`gsl_linalg_LU_solve`/`gsl_linalg_LU_invert` is a parameter `L`, assumed to be correct for
invertible matrices only (`LinAlg.Correct`).
-/

namespace NaMaster

open Finset

variable {K : Type*} [Field K]

/-- `nmt_workspace` (src/namaster.h). `unbinned = none` stands for `coupling_matrix_unbinned==NULL`;
`binned` is the matrix handed to the LU decomposition, which replaces the pair
`coupling_matrix_binned`, `coupling_matrix_perm`. -/
structure Wsp (K : Type*) where
  ncls : ℕ
  lmax : ℕ
  lmaxFields : ℕ
  lmaxMask : ℕ
  isTeb : Bool
  normType : ℤ
  w2 : K
  beamProd : ℕ → K
  pclMasks : ℕ → K
  unbinned : Option (ℕ → ℕ → K)
  bin : Bins K
  binned : ℕ → ℕ → K

/-- Number of rows of the binned matrix. -/
def Wsp.nBinned (w : Wsp K) : ℕ := w.ncls * w.bin.nBands

/-- Number of rows of the unbinned matrix. -/
def Wsp.nRows (w : Wsp K) : ℕ := w.ncls * (w.lmax + 1)

/-- Value assigned at src/nmt_master.c:97 to `coupling_matrix_binned[ncls*ib2+icl_a][ncls*ib3+icl_b]`
(lines 82-96). -/
def binnedElement (ncls : ℕ) (normType : ℤ) (w2 : K) (beam : ℕ → K) (B : Bins K) (U : ℕ → ℕ → K)
    (icl_a icl_b ib2 ib3 : ℕ) : K :=
  if normType = 0 then
    ((B.band ib2).map (fun e2 => ((B.band ib3).map (fun e3 =>
      U (ncls * e2.ell + icl_a) (ncls * e3.ell + icl_b) * beam e3.ell * e2.w * e2.f / e3.f)).sum)).sum
  else if ncls * ib2 + icl_a = ncls * ib3 + icl_b then w2 else 0

/-- The assignments of `bin_coupling_matrix` (src/nmt_master.c:78-101) in loop order. -/
def binnedWrites (ncls : ℕ) (normType : ℤ) (w2 : K) (beam : ℕ → K) (B : Bins K) (U : ℕ → ℕ → K) :
    List ((ℕ × ℕ) × K) :=
  (List.range ncls).flatMap fun icl_a =>
  (List.range ncls).flatMap fun icl_b =>
  (List.range B.nBands).flatMap fun ib2 =>
  (List.range B.nBands).map fun ib3 =>
    ((ncls * ib2 + icl_a, ncls * ib3 + icl_b),
      binnedElement ncls normType w2 beam B U icl_a icl_b ib2 ib3)

/-- The matrix filled by `bin_coupling_matrix` (src/nmt_master.c:74-101). -/
def binMatrix (ncls : ℕ) (normType : ℤ) (w2 : K) (beam : ℕ → K) (B : Bins K) (U : ℕ → ℕ → K) :
    ℕ → ℕ → K :=
  fun i j => runWrites (binnedWrites ncls normType w2 beam B U) (fun _ => 0) (i, j)

/-- `bin_coupling_matrix` (src/nmt_master.c:74-104). The unbinned matrix is dereferenced only in the
branch of the usual normalisation, and only if there is something to sum; a null pointer there is
undefined behaviour. All schemes accepted by `nmt_bins_create` have non-empty bands, so the model
crashes whenever the branch is taken. -/
def binCouplingMatrix (w : Wsp K) : Outcome (Wsp K) :=
  match w.unbinned with
  | some U => .ok { w with binned := binMatrix w.ncls w.normType w.w2 w.beamProd w.bin U }
  | none =>
    if w.normType = 0 then .crash
    else .ok { w with binned := binMatrix w.ncls w.normType w.w2 w.beamProd w.bin (fun _ _ => 0) }

/-- `nmt_update_coupling_matrix` (src/nmt_master.c:106-118). -/
def cUpdateMatrix (w : Wsp K) (nRows : ℕ) (new : ℕ → K) : Outcome (Wsp K) :=
  if nRows ≠ w.ncls * (w.lmax + 1) then .raises .runtime
  else match w.unbinned with
    | none => .crash
    | some _ => binCouplingMatrix { w with unbinned := some (tab2 nRows nRows (fun i j => new (i * nRows + j))) }

/-- `nmt_workspace_update_beams` (src/nmt_master.c:120-135); a beam is its list of elements. -/
def cUpdateBeams (w : Wsp K) (b1 b2 : List K) : Outcome (Wsp K) :=
  if b1.length ≤ w.lmaxFields ∨ b2.length ≤ w.lmaxFields then .raises .runtime
  else binCouplingMatrix { w with beamProd := tab (w.lmaxFields + 1) (fun l => b1.getD l 0 * b2.getD l 0) }

/-- `nmt_workspace_update_binning` (src/nmt_master.c:137-155), with the deep copy of lines 4-26. -/
def cUpdateBinning (w : Wsp K) (B : Bins K) : Outcome (Wsp K) :=
  if B.ellMax ≠ w.bin.ellMax then .raises .runtime
  else binCouplingMatrix { w with bin := B }

/-- `nmt_workspace_new` (src/nmt_master.c:28-56) followed by the filling of beams, mask spectrum and
coupling matrix and the final binning in `nmt_compute_coupling_matrix` (src/nmt_master.c:1072-1138).
`beam1`, `beam2` are the beams, `pcl` the mask spectrum with the factor of line 1079 included, and `U` the
matrix computed at lines 1082-1134. -/
def buildWsp (ncls lmaxFields lmaxMask : ℕ) (isTeb : Bool) (normType : ℤ) (w2 : K)
    (beam1 beam2 pcl : ℕ → K) (U : ℕ → ℕ → K) (B : Bins K) : Wsp K :=
  let beam := tab (lmaxFields + 1) (fun l => beam1 l * beam2 l)
  let n := ncls * (B.ellMax + 1)
  { ncls := ncls, lmax := B.ellMax, lmaxFields := lmaxFields, lmaxMask := lmaxMask, isTeb := isTeb,
    normType := normType, w2 := w2, beamProd := beam, pclMasks := tab (lmaxMask + 1) pcl,
    unbinned := some (tab2 n n U), bin := B,
    binned := binMatrix ncls normType w2 beam B (tab2 n n U) }

/-- `nmt_couple_cl_l` (src/nmt_master.c:1141-1159). -/
def coupleCl (ncls lmax : ℕ) (U : ℕ → ℕ → K) (beam : ℕ → K) (cl : ℕ → ℕ → K) (icl1 l1 : ℕ) : K :=
  ∑ l2 ∈ range (lmax + 1), ∑ icl2 ∈ range ncls,
    U (ncls * l1 + icl1) (ncls * l2 + icl2) * beam l2 * cl icl2 l2

/-- The square matrix made of the first `n` rows and columns. -/
def toMat (n : ℕ) (M : ℕ → ℕ → K) : Matrix (Fin n) (Fin n) K := fun i j => M i j

/-- The external linear algebra used by the code: `solve` is `gsl_linalg_LU_decomp` followed by
`gsl_linalg_LU_solve` (nmt_master.c:103,1246), `invert` the same with `gsl_linalg_LU_invert` (1198). -/
structure LinAlg (K : Type*) where
  solve : ℕ → (ℕ → ℕ → K) → (ℕ → K) → ℕ → K
  invert : ℕ → (ℕ → ℕ → K) → ℕ → ℕ → K

/-- The `n × n` matrix is invertible. -/
def Regular (n : ℕ) (M : ℕ → ℕ → K) : Prop := IsUnit (toMat n M).det

/-- Assumption on the external linear algebra: for invertible matrices it solves the equations.
Nothing is assumed for singular matrices. -/
structure LinAlg.Correct (L : LinAlg K) : Prop where
  solve_spec : ∀ n M y, Regular n M → ∀ i, i < n → ∑ j ∈ range n, M i j * L.solve n M y j = y i
  invert_spec : ∀ n M, Regular n M → ∀ i j, i < n → j < n →
    ∑ k ∈ range n, M i k * L.invert n M k j = if i = j then 1 else 0

/-- src/nmt_master.c:1234-1244: the binned input vector. -/
def binnedInput (ncls : ℕ) (B : Bins K) (cl noise bias : ℕ → ℕ → K) : ℕ → K :=
  runWrites ((List.range ncls).flatMap fun icl => (List.range B.nBands).map fun ib2 =>
    (ncls * ib2 + icl, ((B.band ib2).map (fun e =>
      (cl icl e.ell - noise icl e.ell - bias icl e.ell) * e.f * e.w)).sum)) (fun _ => 0)

/-- `nmt_decouple_cl_l` (src/nmt_master.c:1226-1254): element `cl_out[icl][ib2]`. -/
def decoupleCl (L : LinAlg K) (ncls : ℕ) (B : Bins K) (M : ℕ → ℕ → K) (cl noise bias : ℕ → ℕ → K)
    (icl ib2 : ℕ) : K :=
  L.solve (ncls * B.nBands) M (binnedInput ncls B cl noise bias) (ncls * ib2 + icl)

/-- One accumulating assignment `mat[i][j]=mat[i][j]+v`. -/
def addAt (m : ℕ × ℕ → K) (a : (ℕ × ℕ) × K) : ℕ × ℕ → K := Function.update m a.1 (m a.1 + a.2)

/-- `mat_coupled_bin` of `nmt_compute_bandpower_windows` (src/nmt_master.c:1164-1192). -/
def coupledBin (ncls lmax : ℕ) (B : Bins K) (U : ℕ → ℕ → K) (beam : ℕ → K) : ℕ × ℕ → K :=
  ((List.range ncls).flatMap fun icl1 => (List.range B.nBands).flatMap fun ib1 =>
    (B.band ib1).flatMap fun e => (List.range ncls).flatMap fun icl2 =>
      (List.range (lmax + 1)).map fun l2 =>
        ((ncls * ib1 + icl1, ncls * l2 + icl2),
          U (ncls * e.ell + icl1) (ncls * l2 + icl2) * beam l2 * (e.f * e.w))).foldl addAt (fun _ => 0)

/-- `nmt_compute_bandpower_windows` (src/nmt_master.c:1161-1224): the flat output array. -/
def bpwWindows (L : LinAlg K) (ncls lmax : ℕ) (B : Bins K) (U : ℕ → ℕ → K) (beam : ℕ → K)
    (M : ℕ → ℕ → K) : ℕ → K :=
  let mcb := coupledBin ncls lmax B U beam
  let n := ncls * B.nBands
  let inv := L.invert n M
  let bpw := fun i j => ∑ k ∈ range n, inv i k * mcb (k, j)
  runWrites ((List.range ncls).flatMap fun icl1 => (List.range B.nBands).flatMap fun ib1 =>
    (List.range ncls).flatMap fun icl2 => (List.range (lmax + 1)).map fun l2 =>
      ((ncls * ib1 + icl1) * ncls * (lmax + 1) + (ncls * l2 + icl2),
        bpw (ncls * ib1 + icl1) (ncls * l2 + icl2))) (fun _ => 0)

/-! ## Methods of `NmtWorkspace` on an existing C workspace -/

/-- `NmtWorkspace.couple_cell` (pymaster/workspaces.py:384-410) on a workspace with unbinned matrix
`U`. Inputs are rectangular arrays. The slice to `lmax+1` columns makes the check of the SWIG wrapper
(namaster.i:787-805) succeed. -/
def coupleCell (w : Wsp K) (U : ℕ → ℕ → K) (cl : Arr2 K) : Outcome (Arr2 K) :=
  if cl.rows ≠ w.ncls ∨ cl.cols < w.lmax + 1 then .raises .value
  else .ok (Arr2.of w.ncls (w.lmax + 1) (coupleCl w.ncls w.lmax U w.beamProd cl.val))

/-- `NmtWorkspace.decouple_cell` (pymaster/workspaces.py:412-464) with the checks of the SWIG wrapper
(namaster.i:719-751). -/
def decoupleCell (L : LinAlg K) (w : Wsp K) (cl : Arr2 K) (bias noise : Option (Arr2 K)) :
    Outcome (Arr2 K) :=
  if cl.rows ≠ w.ncls ∨ cl.cols < w.lmax + 1 then .raises .value
  else if bias.any (fun a => a.rows ≠ w.ncls ∨ a.cols < w.lmax + 1) then .raises .value
  else if noise.any (fun a => a.rows ≠ w.ncls ∨ a.cols < w.lmax + 1) then .raises .value
  else
    let clb := bias.getD ⟨cl.rows, cl.cols, fun _ _ => 0⟩
    let cln := noise.getD ⟨cl.rows, cl.cols, fun _ _ => 0⟩
    if cl.rows ≠ cln.rows ∨ cln.rows ≠ clb.rows ∨ cl.rows ≠ w.ncls ∨ cl.cols ≠ cln.cols ∨
        cln.cols ≠ clb.cols ∨ cl.cols < w.lmax + 1 then .raises .runtime
    else .ok (Arr2.of w.ncls w.bin.nBands (decoupleCl L w.ncls w.bin w.binned cl.val cln.val clb.val))

/-- `NmtWorkspace.get_bandpower_windows` (pymaster/workspaces.py:466-494) on a workspace with unbinned
matrix `U`: element `[icl1, ib1, icl2, l2]` of the reshaped and transposed flat array. The reshaping to
`[n_bands,ncls,lmax+1,ncls]` reads element `((ib1*ncls+icl1)*(lmax+1)+l2)*ncls+icl2`. -/
def bandpowerWindows (L : LinAlg K) (w : Wsp K) (U : ℕ → ℕ → K) (icl1 ib1 icl2 l2 : ℕ) : K :=
  bpwWindows L w.ncls w.lmax w.bin U w.beamProd w.binned
    (((ib1 * w.ncls + icl1) * (w.lmax + 1) + l2) * w.ncls + icl2)

/-- `NmtBin.unbin_cell` (pymaster/bins.py:284-306) for several spectra at once. -/
def unbinCells (B : Bins K) (x : Arr2 K) : Outcome (Arr2 K) :=
  if x.cols ≠ B.nBands then .raises .value
  else .ok (Arr2.of x.rows (B.ellMax + 1) (fun a => unbinCls B (x.val a)))

/-- Elementwise difference of two numpy arrays; different shapes raise `ValueError` (broadcasting of
arrays with a single row or column is left out). -/
def Arr2.sub (a b : Arr2 K) : Outcome (Arr2 K) :=
  if a.rows ≠ b.rows ∨ a.cols ≠ b.cols then .raises .value
  else .ok ⟨a.rows, a.cols, fun i j => a.val i j - b.val i j⟩

/-- Workspace used by `compute_full_master` (pymaster/workspaces.py:1062-1069). -/
def pickWsp (fromFields : Outcome (Wsp K)) : Option (Wsp K) → Outcome (Wsp K)
  | none => fromFields
  | some w => .ok w

/-- `compute_full_master` (pymaster/workspaces.py:1038-1071). `compat` is the outcome of
`f1.is_compatible(f2,strict=False)`, `nmaps` the product of the numbers of maps, `lmax` the band limit of the
fields, `coupled` is `compute_coupled_cell(f1,f2)`, `bias clg` is `deprojection_bias(f1,f2,clg)`, `fromFields` is
`NmtWorkspace.from_fields(f1,f2,b,...)`. A missing `b` and workspace raises `SyntaxError`, here the type
error. -/
def computeFullMaster (L : LinAlg K) (hasBins compat : Bool) (nmaps lmax : ℕ) (coupled : Outcome (Arr2 K))
    (bias : Arr2 K → Outcome (Arr2 K)) (fromFields : Outcome (Wsp K)) (workspace : Option (Wsp K))
    (clNoise clGuess : Option (Arr2 K)) : Outcome (Arr2 K) :=
  if ¬ hasBins ∧ workspace.isNone then .raises .type
  else if ¬ compat then .raises .value
  else if clNoise.any (fun a => a.rows ≠ nmaps ∨ a.cols ≠ lmax + 1) then .raises .value
  else if clGuess.any (fun a => a.rows ≠ nmaps ∨ a.cols ≠ lmax + 1) then .raises .value
  else
    let pcln := clNoise.getD ⟨nmaps, lmax + 1, fun _ _ => 0⟩
    let clg := clGuess.getD ⟨nmaps, lmax + 1, fun _ _ => 0⟩
    coupled.bind fun pcld =>
    (bias clg).bind fun pclb =>
    (pickWsp fromFields workspace).bind fun w =>
    (pcld.sub pclb).bind fun d => (d.sub pcln).bind fun d => decoupleCell L w d none none

end NaMaster
