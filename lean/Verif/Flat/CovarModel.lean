import Verif.Flat.Pipeline
import Verif.Covar.Model

/-!
# Model of flat-sky Gaussian covariances

Models `src/nmt_covar_flat.c`, `NmtCovarianceWorkspaceFlat.compute_coupling_coefficients` and
`gaussian_covariance_flat` (pymaster/covariance.py:259-340,455-501) and their wrappers
(pymaster/namaster.i:599-605,666-697). The sums over modes of the threads (src/nmt_covar_flat.c:81-146,154-249) are sums
of real numbers, for which the order does not matter.
-/

namespace NaMaster

open Real Finset

/-- `nmt_covar_workspace_flat` (include/namaster.h): a copy of the bands and the coefficients, which are indexed by bands. -/
structure CovWspFlat where
  bin : FlatBins ℝ
  x1122 : CovXi ℝ
  x1221 : CovXi ℝ

/-- `cl_mask_1122` and `cl_mask_1221` (src/nmt_covar_flat.c:4-13,67-70,97-116) at the mode `k`: product of the coefficients of two
products of masks, read from half-complex arrays. -/
noncomputable def covMaskProd (fs : FlatInfo) (m1 m2 m3 m4 : ℕ × ℕ → ℝ) (k : ℕ × ℕ) : ℝ :=
  halfProd fs.nx (fs.map2alm fun p => m1 p * m2 p) (fs.map2alm fun p => m3 p * m4 p) k

/-- The sum over pairs of modes of two bands of `clm` at the difference of the modes, multiplied by `w`
(src/nmt_covar_flat.c:179-214), with the bands from the table `rows`, and its normalisation (251-276). -/
noncomputable def covXiSum (fs : FlatInfo) (rows : List (List ℤ)) (clm : ℕ × ℕ → ℝ) (w : ℕ × ℕ → ℕ × ℕ → ℝ)
    (ib1 ib2 : ℕ) : ℝ :=
  (∑ k1 ∈ fs.modes with tableAt rows k1 = ib1, ∑ k2 ∈ fs.modes with tableAt rows k2 = ib2, clm (fs.sub k1 k2) * w k1 k2) *
    (if nCells fs rows ib1 * nCells fs rows ib2 > 0 then
      4 * π * π / (fs.lx * fs.lx * fs.ly * fs.ly) / ((nCells fs rows ib1 * nCells fs rows ib2 : ℕ) : ℝ) else 0)

/-- The four kinds of coefficients (src/nmt_covar_flat.c:197-208). `cosarr` and `sinarr` (127-136) are the cosine and sine of
twice the angle of a mode. -/
noncomputable def covXiFlat (fs : FlatInfo) (n : ℕ) (rows : List (List ℤ)) (clm : ℕ × ℕ → ℝ) : CovXi ℝ where
  xi00 := tab2 n n (covXiSum fs rows clm fun _ _ => 1)
  xi02 := tab2 n n (covXiSum fs rows clm fun k1 k2 => fs.cdiff 2 k1 k2)
  xi22p := tab2 n n (covXiSum fs rows clm fun k1 k2 => fs.cdiff 2 k1 k2 * fs.cdiff 2 k1 k2)
  xi22m := tab2 n n (covXiSum fs rows clm fun k1 k2 => fs.sdiff 2 k1 k2 * fs.sdiff 2 k1 k2)

/-- `nmt_covar_workspace_flat_init` (src/nmt_covar_flat.c:15-287). Only the numbers of pixels of the maps and the numbers of
bands are compared; the sizes of the maps and the bands are those of the first spectrum. The look-up of the bands of a row of
modes (91-126) is that of the coupling matrix without cuts. The product of the numbers of modes of two bands (262-263) is an
`int`; beyond 2^31-1 the behaviour is undefined. -/
noncomputable def covInitFlatC (a1 a2 : FlatField) (ba : FlatBins ℝ) (b1 b2 : FlatField) (bb : FlatBins ℝ) :
    Outcome CovWspFlat :=
  if a1.fs.nx ≠ a2.fs.nx ∨ a1.fs.ny ≠ a2.fs.ny ∨ a1.fs.nx ≠ b1.fs.nx ∨ a1.fs.ny ≠ b1.fs.ny ∨ a1.fs.nx ≠ b2.fs.nx ∨
      a1.fs.ny ≠ b2.fs.ny then .raises .runtime
  else if ba.nBands ≠ bb.nBands then .raises .runtime
  else
    let fs := a1.fs
    (Outcome.all ((List.range fs.ny).map fun iy => couplingBandsNocut fs ba iy)).bind fun rows =>
    if ∃ ib1 < ba.nBands, ∃ ib2 < ba.nBands, 2 ^ 31 ≤ nCells fs rows ib1 * nCells fs rows ib2 then .crash
    else .ok ⟨ba, covXiFlat fs ba.nBands rows (covMaskProd fs a1.mask b1.mask a2.mask b2.mask),
      covXiFlat fs ba.nBands rows (covMaskProd fs a1.mask b2.mask a2.mask b1.mask)⟩

/-- `NmtCovarianceWorkspaceFlat.compute_coupling_coefficients` (pymaster/covariance.py:289-339,
pymaster/namaster.i:599-605): the new content of the object. -/
noncomputable def covInitFlat (a1 a2 : FlatField) (ba : FlatBins ℝ) (b1 b2 : Option FlatField) (bb : Option (FlatBins ℝ)) :
    Outcome CovWspFlat :=
  let b1 := b1.getD a1
  let b2 := b2.getD a2
  if a1.fs.nx ≠ a2.fs.nx ∨ a1.fs.ny ≠ a2.fs.ny ∨ a1.fs.nx ≠ b1.fs.nx ∨ a1.fs.ny ≠ b1.fs.ny ∨ a1.fs.nx ≠ b2.fs.nx ∨
      a1.fs.ny ≠ b2.fs.ny then .raises .value
  else covInitFlatC a1 a2 ba b1 b2 (bb.getD ba)

/-- `nmt_bin_cls_flat` (src/nmt_bins_flat.c:71-89) for all rows of an array. -/
noncomputable def binSpectraFlat (b : FlatBins ℝ) (larr : List ℝ) (s : Arr2 ℝ) : Outcome (Arr2 ℝ) :=
  (Outcome.all ((List.range s.rows).map fun i => Outcome.all ((List.range b.nBands).map fun ib =>
    binRowFlat b larr ((List.range s.cols).map fun l => s.val i l) ib))).bind fun rows =>
  .ok (Arr2.of s.rows b.nBands fun i ib => (rows.getD i []).getD ib 0)

/-- Assignments to `covar_binned` (src/nmt_covar_flat.c:351-414). The sum for one element is that of the spherical
covariance with bands in place of multipoles. -/
noncomputable def flatCovWrites (cw : CovWspFlat) (m : Maps) (na nb : ℕ) (s : CovCls ℝ) : List ((ℕ × ℕ) × ℝ) :=
  (List.range cw.bin.nBands).flatMap fun bandA => (List.range cw.bin.nBands).flatMap fun bandB =>
    m.quads.map fun (ia, ib, ic, id) =>
      ((na * bandA + (ib + m.b * ia), nb * bandB + (id + m.d * ic)),
        covElement ⟨cw.bin.nBands, false, cw.x1122, cw.x1221⟩ m s ia ib ic id bandA bandB 1)

/-- `nmt_compute_gaussian_covariance_flat` (src/nmt_covar_flat.c:315-454). -/
noncomputable def covFlatC (L : LinAlg ℝ) (j : CovJunk ℝ) (cw : CovWspFlat) (sa sb sc sd : ℤ) (wa wb : WspFlat)
    (larr : List ℝ) (s : CovCls ℝ) : Outcome (ℕ → ℝ) :=
  let m := Maps.ofSpins sa sb sc sd
  if wa.bin.nBands ≠ cw.bin.nBands ∨ wb.bin.nBands ≠ cw.bin.nBands then .raises .runtime
  else if wa.ncls ≠ m.a * m.b ∨ wb.ncls ≠ m.c * m.d then .raises .runtime
  else
    (binSpectraFlat cw.bin larr s.ac).bind fun ac => (binSpectraFlat cw.bin larr s.ad).bind fun ad =>
    (binSpectraFlat cw.bin larr s.bc).bind fun bc => (binSpectraFlat cw.bin larr s.bd).bind fun bd =>
    let n1 := wa.ncls * cw.bin.nBands
    let n2 := wb.ncls * cw.bin.nBands
    let c := fun i k => runWrites (flatCovWrites cw m wa.ncls wb.ncls ⟨ac, ad, bc, bd⟩) j.mat (i, k)
    let invA := L.invert n1 wa.gslMatrix
    let invB := L.invert n2 wb.gslMatrix
    let tmp := fun i k => ∑ r ∈ range n2, c i r * invB k r
    let out := fun i k => ∑ r ∈ range n1, invA i r * tmp r k
    .ok (runWrites ((List.range n1).flatMap fun ii => (List.range n2).map fun jj => (ii * n2 + jj, out ii jj)) j.out)

/-- `gaussian_covariance_flat` (pymaster/covariance.py:457-501, pymaster/namaster.i:666-697). `cw = none` and workspaces
`none` are objects without content, `wb = none` is the default argument. -/
noncomputable def gaussianCovarianceFlat (L : LinAlg ℝ) (j : CovJunk ℝ) (cw : Option CovWspFlat) (sa1 sa2 sb1 sb2 : ℤ)
    (larr : List ℝ) (s : CovCls ℝ) (wa : Option WspFlat) (wb : Option (Option WspFlat)) : Outcome (Arr2 ℝ) :=
  match wa, wb.getD wa with
  | some a, some b =>
    if a.ncls ≠ nmaps sa1 * nmaps sa2 ∨ b.ncls ≠ nmaps sb1 * nmaps sb2 then .raises .value
    else if s.ac.rows ≠ nmaps sa1 * nmaps sb1 ∨ s.ad.rows ≠ nmaps sa1 * nmaps sb2 ∨ s.bc.rows ≠ nmaps sa2 * nmaps sb1 ∨
        s.bd.rows ≠ nmaps sa2 * nmaps sb2 then .raises .value
    else if s.ac.cols ≠ larr.length ∨ s.ad.cols ≠ larr.length ∨ s.bc.cols ≠ larr.length ∨ s.bd.cols ≠ larr.length then
      .raises .value
    else match cw with
      | none => .raises .attribute
      | some cw =>
        (argoutArray (a.ncls * cw.bin.nBands * (b.ncls * cw.bin.nBands))).bind fun _ =>
        (covFlatC L j cw sa1 sa2 sb1 sb2 a b larr s).bind fun x =>
          .ok (reshapeFlat (a.ncls * cw.bin.nBands) (b.ncls * cw.bin.nBands) x)
  | _, _ => .raises .attribute

end NaMaster
