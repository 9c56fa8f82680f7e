import Verif.Master.Object
import Verif.Coupling.Model

/-!
# Model of Gaussian covariances

Models `src/nmt_covar.c`, the index tables of `src/utils.c:381-446`, `gaussian_covariance`
(pymaster/covariance.py:353-454) and the SWIG glue (namaster.i:606-664).
-/

namespace NaMaster

open Finset

variable {K : Type*}

/-- The four kinds of coupling coefficients for one pair of masks (`xi00_..`, `xi02_..`, `xi22p_..`, `xi22m_..` of
`nmt_covar_workspace`, src/namaster.h). -/
structure CovXi (K : Type*) where
  xi00 : ℕ → ℕ → K
  xi02 : ℕ → ℕ → K
  xi22p : ℕ → ℕ → K
  xi22m : ℕ → ℕ → K

/-- `nmt_covar_workspace` (src/namaster.h); the member `lmax_mask` is never used. -/
structure CovWsp (K : Type*) where
  lmax : ℕ
  spin0Only : Bool
  x1122 : CovXi K
  x1221 : CovXi K

/-- `spin_a ? 2 : 1` (src/nmt_covar.c:105-108); python: `2 if spin_a1 else 1`. -/
def nmaps (s : ℤ) : ℕ := if s ≠ 0 then 2 else 1

/-- `covar_indices` (src/utils.c:392-395); IND_COV_P is 1, IND_COV_MP 2, IND_COV_MM 3, IND_COV_ZERO 5. -/
def covarIndices : List ℕ := [1, 3, 2, 5, 2, 1, 5, 2, 3, 5, 1, 3, 5, 3, 2, 1]

/-- `cov_get_coupling_index` (src/utils.c:397-423); IND_COV_0 is 0. -/
def covIndex (nma nmb ia1 ib1 ia2 ib2 : ℕ) : ℕ :=
  if nma = 1 then
    if nmb = 1 then 0
    else if ib1 = ib2 then 0 else 5
  else
    if nmb = 1 then (if ia1 = ia2 then 0 else 5)
    else covarIndices.getD ((ib2 + 2 * ia2) + 4 * (ib1 + 2 * ia1)) 0

/-- The decision at src/utils.c:431-445; the results are IND_COV_00 (0), 0P (1), PP (2), MMP (3), MMM (4), ZERO (5). -/
def pairKind (ind1 ind2 : ℕ) : ℕ :=
  if ind1 = 0 ∧ ind2 = 0 then 0
  else if (ind1 = 0 ∧ ind2 = 1) ∨ (ind1 = 1 ∧ ind2 = 0) then 1
  else if ind1 = 1 ∧ ind2 = 1 then 2
  else if (ind1 = 2 ∧ ind2 = 2) ∨ (ind1 = 3 ∧ ind2 = 3) then 4
  else if (ind1 = 2 ∧ ind2 = 3) ∨ (ind1 = 3 ∧ ind2 = 2) then 3
  else 5

/-- `cov_get_coupling_pair_index` (src/utils.c:425-446). -/
def covPair (na nc nb nd ia1 ia2 ic1 ic2 ib1 ib2 id1 id2 : ℕ) : ℕ :=
  pairKind (covIndex na nc ia1 ic1 ia2 ic2) (covIndex nb nd ib1 id1 ib2 id2)

/-- Numbers of maps of the four fields. -/
structure Maps where
  a : ℕ
  b : ℕ
  c : ℕ
  d : ℕ

/-- src/nmt_covar.c:105-108. -/
def Maps.ofSpins (sa sb sc sd : ℤ) : Maps := ⟨nmaps sa, nmaps sb, nmaps sc, nmaps sd⟩

/-- The four input spectra `cla1b1`, `cla1b2`, `cla2b1`, `cla2b2` (in C: `clac`, `clad`, `clbc`, `clbd`). -/
structure CovCls (K : Type*) where
  ac : Arr2 K
  ad : Arr2 K
  bc : Arr2 K
  bd : Arr2 K

section
variable [Field K]

/-- `xis_1122`, `xis_1221` (src/nmt_covar.c:134-144). -/
def CovXi.at (x : CovXi K) (la lb : ℕ) : ℕ → K
  | 0 => x.xi00 la lb
  | 1 => x.xi02 la lb
  | 2 => x.xi22p la lb
  | 3 => x.xi22m la lb
  | 4 => -x.xi22m la lb
  | _ => 0

/-- `cov_element` (src/nmt_covar.c:146-171) and the same sum at 250-275: for one pair of components and multipoles, with
factor `pre`. -/
def covElement (cw : CovWsp K) (m : Maps) (s : CovCls K) (ia ib ic id la lb : ℕ) (pre : K) : K :=
  ∑ iap ∈ range m.a, ∑ ibp ∈ range m.b, ∑ icp ∈ range m.c, ∑ idp ∈ range m.d,
    let clac := s.ac.val (icp + m.c * iap)
    let clad := s.ad.val (idp + m.d * iap)
    let clbc := s.bc.val (icp + m.c * ibp)
    let clbd := s.bd.val (idp + m.d * ibp)
    let fac1122 := 1 / 2 * (clac la * clbd lb + clac lb * clbd la)
    let fac1221 := 1 / 2 * (clad la * clbc lb + clad lb * clbc la)
    (cw.x1122.at la lb (covPair m.a m.c m.b m.d ia iap ic icp ib ibp id idp) * fac1122 +
      cw.x1221.at la lb (covPair m.a m.d m.b m.c ia iap id idp ib ibp ic icp) * fac1221) * pre

/-- Components in loop order: `(ia, ib, ic, id)` (src/nmt_covar.c:120-128). -/
def Maps.quads (m : Maps) : List (ℕ × ℕ × ℕ × ℕ) :=
  (List.range m.a).flatMap fun ia => (List.range m.b).flatMap fun ib => (List.range m.c).flatMap fun ic =>
    (List.range m.d).map fun id => (ia, ib, ic, id)

/-- Assignments to `covar_out` in `nmt_compute_gaussian_covariance_coupled` (src/nmt_covar.c:115-182). The loop over
`band_a` is shared between threads; the order matters only if a multipole is in two bands. -/
def coupledWrites (cw : CovWsp K) (m : Maps) (na nb : ℕ) (Ba Bb : Bins K) (s : CovCls K) : List (ℕ × K) :=
  Ba.bands.flatMap fun bandA => Bb.bands.flatMap fun bandB => m.quads.flatMap fun (ia, ib, ic, id) =>
    bandA.flatMap fun ea => bandB.map fun eb =>
      (((na * ea.ell + (ib + m.b * ia)) * (cw.lmax + 1) + eb.ell) * nb + (id + m.d * ic),
        covElement cw m s ia ib ic id ea.ell eb.ell (ea.f * eb.f))

/-- Assignments to `covar_binned` (src/nmt_covar.c:221-280). -/
def binnedCovWrites (cw : CovWsp K) (m : Maps) (na nb : ℕ) (Ba Bb : Bins K) (s : CovCls K) : List ((ℕ × ℕ) × K) :=
  (List.range Ba.nBands).flatMap fun bandA => (List.range Bb.nBands).flatMap fun bandB => m.quads.map fun (ia, ib, ic, id) =>
    ((na * bandA + (ib + m.b * ia), nb * bandB + (id + m.d * ic)),
      ((Ba.band bandA).map fun ea => ((Bb.band bandB).map fun eb =>
        covElement cw m s ia ib ic id ea.ell eb.ell (ea.w * ea.f * eb.w * eb.f)).sum).sum)

/-- All multipoles of the scheme are at most `n`: condition for the accesses `xi00_1122[la]`, `cl_ac[la]` etc. to be within
the arrays. -/
def Bins.below (B : Bins K) (n : ℕ) : Bool := B.bands.all fun b => b.all fun e => decide (e.ell ≤ n)

/-- The spectra have the rows and columns that are read (src/nmt_covar.c:155-160). -/
def CovCls.covers (s : CovCls K) (m : Maps) (lmax : ℕ) : Bool :=
  decide (m.a * m.c ≤ s.ac.rows ∧ m.a * m.d ≤ s.ad.rows ∧ m.b * m.c ≤ s.bc.rows ∧ m.b * m.d ≤ s.bd.rows ∧
    lmax < s.ac.cols ∧ lmax < s.ad.cols ∧ lmax < s.bc.cols ∧ lmax < s.bd.cols)

/-- The checks at the head of both functions (src/nmt_covar.c:98-110, 193-205). -/
def covChecks (cw : CovWsp K) (sa sb sc sd : ℤ) (wa wb : Wsp K) : Outcome Unit :=
  if cw.lmax < wa.bin.ellMax ∨ cw.lmax < wb.bin.ellMax then .raises .runtime
  else if cw.spin0Only ∧ sa + sb + sc + sd ≠ 0 then .raises .runtime
  else if wa.ncls ≠ nmaps sa * nmaps sb ∨ wb.ncls ≠ nmaps sc * nmaps sd then .raises .runtime
  else .ok ()

/-- Accesses outside arrays: multipoles beyond the coefficients, missing spectra or multipoles. -/
def covInside (cw : CovWsp K) (m : Maps) (wa wb : Wsp K) (s : CovCls K) : Bool :=
  wa.bin.below cw.lmax && wb.bin.below cw.lmax && s.covers m cw.lmax

/-- `nmt_compute_gaussian_covariance_coupled` (src/nmt_covar.c:91-184); `junk` is the content of the output array, which the
SWIG wrapper allocates and does not clear (namaster.i:636-664). -/
def covCoupledC (junk : ℕ → K) (cw : CovWsp K) (sa sb sc sd : ℤ) (wa wb : Wsp K) (s : CovCls K) : Outcome (ℕ → K) :=
  let m := Maps.ofSpins sa sb sc sd
  (covChecks cw sa sb sc sd wa wb).bind fun _ =>
  if covInside cw m wa wb s then .ok (runWrites (coupledWrites cw m wa.ncls wb.ncls wa.bin wb.bin s) junk)
  else .crash

/-- The matrix `covar_binned` (src/nmt_covar.c:207-280); `gsl_matrix_alloc` does not clear it. -/
def covBinned (junk : ℕ × ℕ → K) (cw : CovWsp K) (m : Maps) (wa wb : Wsp K) (s : CovCls K) : ℕ → ℕ → K :=
  fun i j => runWrites (binnedCovWrites cw m wa.ncls wb.ncls wa.bin wb.bin s) junk (i, j)

/-- `nmt_compute_gaussian_covariance` (src/nmt_covar.c:186-302): product with the inverse coupling matrices and output row
by row. -/
def covDecoupledC (L : LinAlg K) (junk : ℕ → K) (junk2 : ℕ × ℕ → K) (cw : CovWsp K) (sa sb sc sd : ℤ) (wa wb : Wsp K)
    (s : CovCls K) : Outcome (ℕ → K) :=
  let m := Maps.ofSpins sa sb sc sd
  (covChecks cw sa sb sc sd wa wb).bind fun _ =>
  if covInside cw m wa wb s then
    let n1 := wa.ncls * wa.bin.nBands
    let n2 := wb.ncls * wb.bin.nBands
    let c := covBinned junk2 cw m wa wb s
    let invA := L.invert n1 wa.binned
    let invB := L.invert n2 wb.binned
    let tmp := fun i j => ∑ k ∈ range n2, c i k * invB j k
    let out := fun i j => ∑ k ∈ range n1, invA i k * tmp k j
    .ok (runWrites ((List.range n1).flatMap fun ii => (List.range n2).map fun jj => (ii * n2 + jj, out ii jj)) junk)
  else .crash

/-- Lengths compared by the SWIG wrappers (namaster.i:615-617, 645-647). -/
def CovCls.sameLength (s : CovCls K) : Bool :=
  s.ac.cols == s.ad.cols && s.ac.cols == s.bc.cols && s.ac.cols == s.bd.cols

/-- `covar.reshape([len_a, len_b])` (pymaster/covariance.py:454). -/
def reshapeFlat (la lb : ℕ) (x : ℕ → K) : Arr2 K := Arr2.of la lb fun i j => x (i * lb + j)

/-- Allocation of the output array of `n` elements by the SWIG wrapper (pymaster/numpy.i:1996-2015): the number of elements is
truncated to a 32-bit `int`. A negative number is an error of numpy; if bits are lost the C code writes beyond the array. -/
def argoutArray (n : ℕ) : Outcome Unit :=
  if 2 ^ 31 ≤ n % 2 ^ 32 then .raises .value
  else if 2 ^ 32 ≤ n then .crash
  else .ok ()

/-- Values in memory that the program did not set. -/
structure CovJunk (K : Type*) where
  out : ℕ → K
  mat : ℕ × ℕ → K

/-- `gaussian_covariance` (pymaster/covariance.py:353-454). `cw = none` is a workspace not yet computed, `wb = none` the default
argument. -/
def gaussianCovariance (L : LinAlg K) (j : CovJunk K) (cw : Option (CovWsp K)) (sa1 sa2 sb1 sb2 : ℤ) (s : CovCls K)
    (wa : Obj K) (wb : Option (Obj K)) (coupled : Bool) : Outcome (Arr2 K) :=
  let wb := wb.getD wa
  match wa.wsp, wb.wsp with
  | some a, some b =>
    if a.ncls ≠ nmaps sa1 * nmaps sa2 ∨ b.ncls ≠ nmaps sb1 * nmaps sb2 then .raises .value
    else if s.ac.rows ≠ nmaps sa1 * nmaps sb1 ∨ s.ad.rows ≠ nmaps sa1 * nmaps sb2 ∨ s.bc.rows ≠ nmaps sa2 * nmaps sb1 ∨
        s.bd.rows ≠ nmaps sa2 * nmaps sb2 then .raises .value
    else match cw with
      | none => .raises .attribute
      | some cw =>
        if s.ac.cols < cw.lmax + 1 ∨ s.ad.cols < cw.lmax + 1 ∨ s.bc.cols < cw.lmax + 1 ∨ s.bd.cols < cw.lmax + 1 then
          .raises .value
        else if coupled then
          (wa.checkUnbinned).bind fun _ => (wb.checkUnbinned).bind fun _ =>
          (argoutArray (a.ncls * (cw.lmax + 1) * (b.ncls * (cw.lmax + 1)))).bind fun _ =>
          if s.sameLength then
            (covCoupledC j.out cw sa1 sa2 sb1 sb2 a b s).bind fun x =>
              .ok (reshapeFlat (a.ncls * (cw.lmax + 1)) (b.ncls * (cw.lmax + 1)) x)
          else .raises .runtime
        else
          (argoutArray (a.ncls * a.bin.nBands * (b.ncls * b.bin.nBands))).bind fun _ =>
          if s.sameLength then
            (covDecoupledC L j.out j.mat cw sa1 sa2 sb1 sb2 a b s).bind fun x =>
              .ok (reshapeFlat (a.ncls * a.bin.nBands) (b.ncls * b.bin.nBands) x)
          else .raises .runtime
  | _, _ => .raises .attribute

end

/-- `nmt_covar_workspace_init` (src/nmt_covar.c:4-71) called through `covar_workspace_init_py` (namaster.i:576-586): the
coefficients are those of a spin-0 field with itself, or of a spin-0 and a spin-2 field with all combinations (TEB). As for
coupling matrices, a mask band limit below that of the fields makes the buffers for Wigner symbols too small. -/
noncomputable def covInit (W : Wigner) (junk : ℕ → ℝ) (pcl1 pcl2 : List ℝ) (lmax lmaxMask : ℕ) (lT lE dl : ℤ)
    (spin0Only : Bool) : Outcome (CovWsp ℝ) :=
  if pcl1.length ≠ lmaxMask + 1 ∨ pcl2.length ≠ lmaxMask + 1 then .raises .runtime
  else if lmaxMask < lmax then .crash
  else
    let scaled := fun p : List ℝ => tab (lmaxMask + 1) (fun l : ℕ => p.getD l 0 * ((l : ℝ) + 1 / 2) / (2 * Real.pi))
    let args : CouplingArgs :=
      ⟨0, if spin0Only then 0 else 2, lmaxMask, false, false, false, false, !spin0Only, lT, lE, dl, junk⟩
    let mk := fun p : List ℝ =>
      let x := args.xi W lmax (scaled p)
      if spin0Only then (⟨x.1, x.1, x.1, x.1⟩ : CovXi ℝ) else ⟨x.1, x.2.1 0, x.2.2.1 0, x.2.2.2 0⟩
    .ok ⟨lmax, spin0Only, mk pcl1, mk pcl2⟩

end NaMaster
