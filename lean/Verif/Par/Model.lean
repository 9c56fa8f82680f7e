import Verif.Flat.Coupling
import Verif.Coupling.Model
import Verif.Maps.Disc
import Verif.Flat.Apo
import Mathlib.Data.List.Flatten

/-!
# Model of the parallel loops

Models the OpenMP regions of the C code. A thread executes its actions in program order; the actions of different threads
interleave in any way. `#pragma omp for` gives every iteration to exactly one thread, in any distribution and order
(`schedule(dynamic)` or static; the threads need not get consecutive iterations). Updates under `#pragma omp atomic` and
blocks under `#pragma omp critical` are single actions. The barrier at the end of `omp for` only removes interleavings and is
left out.
-/

namespace NaMaster

open Finset

/-- `tr` is an interleaving of the programs `ps` of the threads. -/
inductive Interleaving {α : Type*} : List (List α) → List α → Prop
  | nil {ps : List (List α)} (h : ∀ p ∈ ps, p = []) : Interleaving ps []
  | cons {ps : List (List α)} {a : α} {p tr : List α} (i : ℕ) (h : ps[i]? = some (a :: p))
      (h' : Interleaving (ps.set i p) tr) : Interleaving ps (a :: tr)

/-- The state after a sequence of actions. -/
def runActs {S : Type*} (tr : List (S → S)) (s : S) : S := tr.foldl (fun s a => a s) s

/-- A parallel region with a loop over `its`: thread `t` does `pre t`, then its iterations, then `post t`. From state `s`
the region can end in state `s'`. -/
def ParRegion {S : Type*} (its : List ℕ) (pre : ℕ → List (S → S)) (body : ℕ → ℕ → List (S → S)) (post : ℕ → List (S → S))
    (s s' : S) : Prop :=
  ∃ (sched : List (List ℕ)) (tr : List (S → S)), sched.flatten.Perm its ∧
    Interleaving (sched.mapIdx fun t l => pre t ++ l.flatMap (body t) ++ post t) tr ∧ s' = runActs tr s

/-- A parallel region that is only a loop whose iterations do the same in every thread. -/
def ParFor {S : Type*} (its : List ℕ) (body : ℕ → List (S → S)) (s s' : S) : Prop :=
  ParRegion its (fun _ => []) (fun _ => body) (fun _ => []) s s'

/-! ## Actions -/

/-- Assignment to the private variable of thread `t`. -/
def privSet {σ π : Type*} (t : ℕ) (v : π) : σ × (ℕ → π) → σ × (ℕ → π) := fun s => (s.1, Function.update s.2 t v)

/-- Change of the private variable of thread `t`. -/
def privUpd {σ π : Type*} (t : ℕ) (f : π → π) : σ × (ℕ → π) → σ × (ℕ → π) :=
  fun s => (s.1, Function.update s.2 t (f (s.2 t)))

/-- The critical block: thread `t` adds its private variable to the shared one. -/
def privMerge {σ π : Type*} (t : ℕ) (g : σ → π → σ) : σ × (ℕ → π) → σ × (ℕ → π) := fun s => (g s.1 (s.2 t), s.2)

/-- `array[k]+=v`. -/
def incAt {ι K : Type*} [DecidableEq ι] [Add K] (k : ι) (v : K) (m : ι → K) : ι → K := Function.update m k (m k + v)

/-- `array[k]=v`. -/
def setAt {ι K : Type*} [DecidableEq ι] (k : ι) (v : K) (m : ι → K) : ι → K := Function.update m k v

/-- `array[k]=array[k']`. -/
def copyAt {ι K : Type*} [DecidableEq ι] (k k' : ι) (m : ι → K) : ι → K := Function.update m k (m k')

/-! ## Scalar products and products of maps -/

/-- `fs_map_dot` (src/flatsky_utils.c:53-75): `r` is a possible result for maps with `npix` pixels of size `pixsize`;
`p0` are the values of the private variables before the region. -/
def FsMapDotRuns (npix : ℕ) (pixsize : ℝ) (mp1 mp2 : ℕ → ℝ) (r : ℝ) : Prop :=
  ∃ (p0 : ℕ → ℝ) (s : ℝ × (ℕ → ℝ)),
    ParRegion (List.range npix) (fun t => [privSet t 0]) (fun t ip => [privUpd t (· + mp1 ip * mp2 ip)])
      (fun t => [privMerge t (· + ·)]) (0, p0) s ∧ r = s.1 * pixsize

/-- `he_map_dot` (src/healpix_extra.c:517-541): each thread multiplies its part by the area of a pixel. -/
def HeMapDotRuns (nside : ℕ) (mp1 mp2 : ℕ → ℝ) (r : ℝ) : Prop :=
  ∃ (p0 : ℕ → ℝ) (s : ℝ × (ℕ → ℝ)),
    ParRegion (List.range (12 * nside * nside)) (fun t => [privSet t 0]) (fun t ip => [privUpd t (· + mp1 ip * mp2 ip)])
      (fun t => [privMerge t fun sum thr => sum + thr * (Real.pi / (3 * nside * nside))]) (0, p0) s ∧ r = s.1

/-- `fs_map_product`, `he_map_product` (src/flatsky_utils.c:38-51, src/healpix_extra.c:502-515); `m0` is the content of
the output before. -/
def MapProductRuns (npix : ℕ) (mp1 mp2 m0 m : ℕ → ℝ) : Prop :=
  ParFor (List.range npix) (fun ip => [setAt ip (mp1 ip * mp2 ip)]) m0 m

/-! ## Flat-sky spectra and coupling matrices -/

/-- The atomic updates made for mode `k` in `fs_alm2cl` (src/flatsky_utils.c:412-418): the spectrum and the number of
modes of the band `ik`. -/
noncomputable def alm2clActs (nx : ℕ) (a1 a2 : ℕ × ℕ → ℂ) (k : ℕ × ℕ) (ik : ℤ) :
    List ((ℕ → ℝ) × (ℕ → ℕ) → (ℕ → ℝ) × (ℕ → ℕ)) :=
  if ik ≥ 0 then
    [fun s => (incAt ik.toNat (halfProd nx a1 a2 k) s.1, s.2), fun s => (s.1, incAt ik.toNat 1 s.2)]
  else []

/-- `fs_alm2cl` for one pair of coefficient arrays (src/flatsky_utils.c:366-427) with its parallel loop over rows: `cl` is a
possible result. The bands of the modes of a row are found inside the iteration, from the wave numbers of the row. -/
def FsAlm2clRuns (fs : FlatInfo) (b : FlatBins ℝ) (c : EllCuts) (a1 a2 : ℕ × ℕ → ℂ) (cl : ℕ → ℝ) : Prop :=
  ∃ (rows : ℕ → List ℤ) (s : (ℕ → ℝ) × (ℕ → ℕ)), (∀ iy < fs.ny, alm2clBands fs b c iy = .ok (rows iy)) ∧
    ParFor (List.range fs.ny)
      (fun iy => (List.range fs.nx).flatMap fun ix => alm2clActs fs.nx a1 a2 (ix, iy) ((rows iy).getD ix (-1)))
      (fun _ => 0, fun _ => 0) s ∧
    cl = tab b.nBands fun ib =>
      if s.2 ib ≤ 0 then 0 else s.1 ib * (4 * Real.pi * Real.pi / (fs.lx * fs.ly) / s.2 ib)

/-- The private updates in one row of the loop that counts modes (src/nmt_master_flat.c:173-250): `n_cells_thr[ik]++`. -/
def countAdds (nx : ℕ) (row : List ℤ) : List ((ℕ → ℕ) → (ℕ → ℕ)) :=
  (List.range nx).flatMap fun ix => if row.getD ix (-1) ≥ 0 then [incAt (row.getD ix (-1)).toNat 1] else []

/-- The private updates of one matrix in row `iy1` of the loop over pairs of modes (src/nmt_master_flat.c:289-459). Elements of the
matrix for which `coupFactor` is zero are not touched by the code; here zero is added to them. -/
noncomputable def coupAdds (f1 f2 : FlatField) (ncls : ℕ) (maskprod : ℕ × ℕ → ℝ) (rows rowsNocut : List (List ℤ))
    (iy1 : ℕ) : List ((ℕ × ℕ → ℝ) → (ℕ × ℕ → ℝ)) :=
  (List.range f1.fs.nx).flatMap fun ix1 =>
    if tableAt rows (ix1, iy1) ≥ 0 then
      (List.range f1.fs.ny).flatMap fun iy2 => (List.range f1.fs.nx).flatMap fun ix2 =>
        if tableAt rowsNocut (ix2, iy2) ≥ 0 then
          (List.range ncls).flatMap fun i => (List.range ncls).map fun j =>
            incAt (ncls * (tableAt rows (ix1, iy1)).toNat + i, ncls * (tableAt rowsNocut (ix2, iy2)).toNat + j)
              (coupTerm f1 f2 ncls maskprod i j (ix1, iy1) (ix2, iy2))
        else []
    else []

/-- `i_ring` for all modes (src/nmt_master_flat.c:207-209). -/
noncomputable def ringRows (fs : FlatInfo) : List (List ℤ) :=
  (List.range fs.ny).map fun iy => (List.range fs.nx).map fun ix => fs.ring ix iy

/-- The private updates of both matrices in row `iy1` (src/nmt_master_flat.c:289-459): those of the binned matrix and those of the matrix
for rings, listed one after the other. The arrays are private to the thread. -/
noncomputable def coupAdds2 (f1 f2 : FlatField) (ncls : ℕ) (maskprod : ℕ × ℕ → ℝ) (rows rowsNocut : List (List ℤ))
    (iy1 : ℕ) : List ((ℕ × ℕ → ℝ) × (ℕ × ℕ → ℝ) → (ℕ × ℕ → ℝ) × (ℕ × ℕ → ℝ)) :=
  (coupAdds f1 f2 ncls maskprod rows rowsNocut iy1).map (fun a s => (a s.1, s.2)) ++
    (coupAdds f1 f2 ncls maskprod rows (ringRows f1.fs) iy1).map (fun a s => (s.1, a s.2))

open Classical in
/-- `nmt_compute_coupling_matrix_flat` (src/nmt_master_flat.c:79-539) with its parallel regions: `w` is a possible result
of a call with fields on the same map, spins that fit `is_teb`, and a scheme with bands. Both regions have private arrays,
set to zero, that each thread adds to the shared array in a critical block (lines 244-249 and 461-470). The last loop
multiplies each row by its norm (lines 479-509). -/
def CouplingFlatRuns (f1 f2 : FlatField) (b : FlatBins ℝ) (c : EllCuts) (isTeb : Bool) (w : WspFlat) : Prop :=
  let fs := f1.fs
  let ncls := if isTeb then 7 else nmapsOf f1.spin * nmapsOf f2.spin
  let maskprod := halfProd fs.nx (fs.map2alm f1.mask) (fs.map2alm f2.mask)
  f1.fs = f2.fs ∧ (isTeb → f1.spin = 0 ∧ f2.spin ≠ 0) ∧ b.nBands ≠ 0 ∧
  ∃ (rows rowsNocut : List (List ℤ)) (q0 : ℕ → ℕ → ℕ) (n : (ℕ → ℕ) × (ℕ → ℕ → ℕ))
      (p0 : ℕ → (ℕ × ℕ → ℝ) × (ℕ × ℕ → ℝ)) (m : ((ℕ × ℕ → ℝ) × (ℕ × ℕ → ℝ)) × (ℕ → (ℕ × ℕ → ℝ) × (ℕ × ℕ → ℝ))),
    rows.length = fs.ny ∧ (∀ iy < fs.ny, couplingBands fs b c iy = .ok (rows.getD iy [])) ∧
    rowsNocut.length = fs.ny ∧ (∀ iy < fs.ny, couplingBandsNocut fs b iy = .ok (rowsNocut.getD iy [])) ∧
    ParRegion (List.range fs.ny) (fun t => [privSet t fun _ => 0])
      (fun t iy => (countAdds fs.nx (rows.getD iy [])).map (privUpd t)) (fun t => [privMerge t (· + ·)])
      (fun _ => 0, q0) n ∧
    ParRegion (List.range fs.ny) (fun t => [privSet t (fun _ => 0, fun _ => 0)])
      (fun t iy => (coupAdds2 f1 f2 ncls maskprod rows rowsNocut iy).map (privUpd t)) (fun t => [privMerge t (· + ·)])
      ((fun _ => 0, fun _ => 0), p0) m ∧
    w = {
      fs := fs, cuts := c, ncls := ncls, bin := b, isTeb := isTeb, nCells := tab b.nBands n.1
      binned := fun i b1 j b2 =>
        if i < ncls ∧ j < ncls ∧ b1 < b.nBands ∧ b2 < b.nBands then
          m.1.1 (ncls * b1 + i, ncls * b2 + j) *
            (if n.1 b1 > 0 then 4 * Real.pi * Real.pi / (fs.lx * fs.lx * fs.ly * fs.ly) / n.1 b1 else 0)
        else 0
      unbinned := fun i b1 j ir =>
        if i < ncls ∧ j < ncls ∧ b1 < b.nBands ∧ ir < fs.nEll then
          m.1.2 (ncls * b1 + i, ncls * ir + j) *
            (if n.1 b1 > 0 then 4 * Real.pi * Real.pi / (fs.lx * fs.lx * fs.ly * fs.ly) / n.1 b1 else 0)
        else 0
      rings := fs.rings
      lmax := b.ellf (b.nBands - 1)
      pure := (f1.pureE, f2.pureE, f1.pureB, f2.pureB) }

/-! ## Curved-sky coupling matrices -/

/-- The actions on one of the matrices for the pair `ll2`, `ll3` in the main loop (src/nmt_master.c:792-937): with the
Toeplitz approximation the element is set to zero, then terms are added for the multipoles of the mask, then without
purification the transposed element is copied. -/
noncomputable def pairActs (lmaxMask : ℕ) (pureAny : Bool) (lT : ℤ) (term : ℕ → ℕ → ℕ → ℝ) (ll2 ll3 : ℕ) :
    List ((ℕ × ℕ → ℝ) → (ℕ × ℕ → ℝ)) :=
  (if lT > 0 then [setAt (ll2, ll3) 0] else []) ++
  (rangeIncl (ldist ll2 ll3) (ll2 + ll3)).flatMap (fun l1 =>
    if l1 ≤ lmaxMask then [incAt (ll2, ll3) (term l1 ll2 ll3)] else []) ++
  (if ¬ pureAny ∧ ll2 ≠ ll3 then [copyAt (ll3, ll2) (ll2, ll3)] else [])

/-- The parallel main loop of `nmt_compute_master_coefficients` (src/nmt_master.c:764-937) for one of the matrices. -/
def MainRuns (lstart lmax lmaxMask : ℕ) (pureAny : Bool) (lT : ℤ) (lend : ℕ → ℕ) (term : ℕ → ℕ → ℕ → ℝ)
    (m m' : ℕ × ℕ → ℝ) : Prop :=
  ParFor (rangeIncl lstart lmax) (fun ll2 =>
    (rangeIncl (if pureAny then lstart else ll2) (lend ll2)).flatMap fun ll3 =>
      pairActs lmaxMask pureAny lT term ll2 ll3) m m'

/-- The parallel loop of `populate_toeplitz` that fills a matrix (src/nmt_master.c:359-391). -/
noncomputable def tplzActs (lstart lmax lt : ℕ) (entry : ℕ → ℕ → ℝ) (ll2 : ℕ) : List ((ℕ × ℕ → ℝ) → (ℕ × ℕ → ℝ)) :=
  (List.range (ll2 + 1)).flatMap fun ll3 : ℕ =>
    setAt (ll2, ll3) (tplzCol lstart lmax lt entry (toeplitzWrap ((ll2 : ℤ) + lt - ll3) ((lmax : ℤ) + 1)).toNat *
      Real.sqrt (tplzDiag lstart lmax entry ll2 * tplzDiag lstart lmax entry ll3)) ::
    (if ll3 ≠ ll2 then [copyAt (ll3, ll2) (ll2, ll3)] else [])

/-- One of the matrices of `nmt_compute_master_coefficients` (src/nmt_master.c:755-992) with its parallel loops; `term`
are the terms of the sums over the multipoles of the mask. The sums for the diagonal and the column used by
`populate_toeplitz` (lines 224-306), where every iteration adds to two elements of its own, are not split into actions. -/
noncomputable def CoefRuns (lstart lmax lmaxMask : ℕ) (pureAny : Bool) (lT lE dl : ℤ) (term : ℕ → ℕ → ℕ → ℝ)
    (x : ℕ × ℕ → ℝ) : Prop :=
  let entry := fun l2 l3 => sumMask lmaxMask l2 l3 fun l1 => term l1 l2 l3
  let lend := fun l2 : ℕ => (lendToeplitz l2 lT lE dl lmax).toNat
  if lT > 0 then
    ∃ m0 m1, ParFor (List.range (lmax + 1)) (tplzActs lstart lmax lT.toNat entry) (fun _ => 0) m0 ∧
      MainRuns lstart lmax lmaxMask pureAny lT lend term m0 m1 ∧
      x = (fillPairs lmax lT.toNat lE.toNat).foldl (fillStep lE.toNat) m1
  else MainRuns lstart lmax lmaxMask pureAny lT lend term (fun _ => 0) x

/-- The parallel loop that applies the coupling coefficients (src/nmt_master.c:1088-1134): `m` is a possible content of the
matrix after the loop. -/
def MatrixRuns (ncls lmax : ℕ) (cells : ℕ → ℕ → List ((ℕ × ℕ) × ℝ)) (m : ℕ × ℕ → ℝ) : Prop :=
  ParFor (List.range (lmax + 1)) (fun ll2 => (List.range (lmax + 1)).flatMap fun ll3 =>
    (cells ll2 ll3).map fun x => setAt (ncls * ll2 + x.1.1, ncls * ll3 + x.1.2) x.2) (fun _ => 0) m

end NaMaster
