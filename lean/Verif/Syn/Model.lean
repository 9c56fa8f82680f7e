import Verif.Par.Model
import Verif.Field.Model
import Verif.Flat.Bins

/-!
# Model of the simulations

Models `synfast_flat` and `synfast_spherical` (pymaster/utils.py:576-681,701-770), `synfast_new_flat`
(pymaster/namaster.i:383-432), `nmt_synfast_flat` (src/nmt_field_flat.c:522-580), `fs_synalm`
(src/flatsky_utils.c:470-602) and `fs_alm2map` (src/flatsky_utils.c:238-278).

The random generators are parameters: `gauss s n` is the result of the call number `n` of `rng_gauss` after
`init_rng(s)`, and numpy's global generator is a state that is passed on. Further parameters are the eigenvalue decomposition,
`fftw_plan_dft_c2r_2d`, `hp.synalm` and the spherical harmonic transforms.
-/

namespace NaMaster

open Finset Real

/-! ## Flat sky: coefficients -/

/-- The inputs of `fs_synalm` (src/flatsky_utils.c:470-471); `cells` and `beam` are the evaluations of the
`nmt_k_function`s. -/
structure SynAlm where
  fs : FlatInfo
  nmaps : ℕ
  cells : ℕ → ℝ → ℝ
  beam : ℕ → ℝ → ℝ

/-- The counter `icl` for the pair `(i, j)`, `i ≤ j`, of the loop over the upper triangle
(src/flatsky_utils.c:523-532). -/
def triIdx (n i j : ℕ) : ℕ := ∑ a ∈ range i, (n - a) + (j - i)

/-- The matrix `clmat` at wave number `k` (src/flatsky_utils.c:491-492,522-532). -/
noncomputable def SynAlm.clmat (A : SynAlm) (k : ℝ) : ℕ → ℕ → ℝ := fun i j =>
  1 / 2 * (1 / (2 * π / A.fs.lx * (2 * π / A.fs.ly))) * A.cells (triIdx A.nmaps (min i j) (max i j)) k

/-- The square root of `clmat` (src/flatsky_utils.c:535-548). -/
noncomputable def SynAlm.root (A : SynAlm) (E : Eigen) (k : ℝ) (i j : ℕ) : ℝ :=
  E.vecs A.nmaps (A.clmat k) i j *
    (if E.vals A.nmaps (A.clmat k) j ≤ 0 then 0 else √(E.vals A.nmaps (A.clmat k) j))

/-- `a_re + I*a_im` of map `i` at mode `(ix, iy)` (src/flatsky_utils.c:551-556); `z` are the pairs of random numbers, one
for each map. -/
noncomputable def SynAlm.coef (A : SynAlm) (E : Eigen) (z : ℕ → ℝ × ℝ) (k : ℕ × ℕ) (i : ℕ) : ℂ :=
  ⟨A.beam i (A.fs.kmod k.1 k.2) * ∑ j ∈ range A.nmaps, A.root E (A.fs.kmod k.1 k.2) i j * (z j).1,
   A.beam i (A.fs.kmod k.1 k.2) * ∑ j ∈ range A.nmaps, A.root E (A.fs.kmod k.1 k.2) i j * (z j).2⟩

/-- The stores for mode `(ix, iy)` of the values `a` of the maps (src/flatsky_utils.c:557-572). The index of an element is
`(map, ix, iy)`. -/
noncomputable def SynAlm.stores (A : SynAlm) (a : ℕ → ℂ) (k : ℕ × ℕ) : List ((ℕ × ℕ × ℕ) × ℂ) :=
  (List.range A.nmaps).flatMap fun i =>
    if k.1 = 0 then
      if k.2 > A.fs.ny / 2 then []
      else if k.2 = 0 then [((i, k.1, k.2), ((√2 * (a i).re : ℝ) : ℂ))]
      else [((i, k.1, k.2), a i), ((i, k.1, A.fs.ny - k.2), star (a i))]
    else [((i, k.1, k.2), a i)]

/-- The state of the parallel region of `fs_synalm`: the shared counter and array, and for each thread its number and the
number of calls of `rng_gauss`. -/
structure SynState where
  numthr : ℕ
  ithr : ℕ → ℕ
  calls : ℕ → ℕ
  alms : ℕ × ℕ × ℕ → ℂ

/-- What a thread does: the critical block with the creation of its generator, or the work on one mode. -/
inductive SynEvent where
  | arrive (t : ℕ)
  | mode (t : ℕ) (k : ℕ × ℕ)

/-- The effect of an event. `arrive` is the critical block (src/flatsky_utils.c:482-487) with the creation of the private
generator (lines 500-501); `seed+ithr` is converted to `unsigned int`, which is taken to be exact. `mode` is the body of
the loop over `ix` (lines 515-574): one call of `rng_gauss` for each map, also for modes that are not stored. The branch
`kmod<0` is never taken. -/
noncomputable def SynAlm.step (A : SynAlm) (E : Eigen) (gauss : ℤ → ℕ → ℝ × ℝ) (seed : ℤ) (s : SynState) : SynEvent → SynState
  | .arrive t => ⟨s.numthr + 1, Function.update s.ithr t s.numthr, Function.update s.calls t 0, s.alms⟩
  | .mode t k => ⟨s.numthr, s.ithr, Function.update s.calls t (s.calls t + A.nmaps),
      runWrites (A.stores (A.coef E (fun j => gauss (seed + s.ithr t) (s.calls t + j)) k) k) s.alms⟩

/-- The events of thread `t`, which gets the rows `rows` (src/flatsky_utils.c:481-575). -/
def SynAlm.prog (A : SynAlm) (t : ℕ) (rows : List ℕ) : List SynEvent :=
  .arrive t :: rows.flatMap fun iy => (List.range (A.fs.nx / 2 + 1)).map fun ix => .mode t (ix, iy)

/-- `fs_synalm` (src/flatsky_utils.c:470-602) executed with the distribution `sched` of the rows: `m` is a possible content
of the arrays at the end, `m0` is the content of the fresh memory. Without a `schedule` clause each thread does its rows in
increasing order. -/
def SynAlm.Runs (A : SynAlm) (E : Eigen) (gauss : ℤ → ℕ → ℝ × ℝ) (seed : ℤ) (sched : List (List ℕ))
    (m0 m : ℕ × ℕ × ℕ → ℂ) : Prop :=
  sched.flatten.Perm (List.range A.fs.ny) ∧ (∀ l ∈ sched, l.Pairwise (· < ·)) ∧
    ∃ tr i0 c0, Interleaving (sched.mapIdx fun t l => A.prog t l) tr ∧
      m = (tr.foldl (A.step E gauss seed) ⟨0, i0, c0, m0⟩).alms

/-! ## Flat sky: maps -/

/-- `fs_alm2map` for the maps of one field (src/flatsky_utils.c:238-278). The rotation is applied to the elements with
`ix <= nx/2`. -/
noncomputable def fsAlm2map (c2r : (ℕ × ℕ → ℂ) → ℕ × ℕ → ℝ) (fs : FlatInfo) (spin : ℕ) (alm : ℕ → ℕ × ℕ → ℂ) (c : ℕ)
    (p : ℕ × ℕ) : ℝ :=
  c2r (fun k => if spin = 0 then alm c k else
    if c = 0 then (eb2qu spin (fs.kx k.1) (fs.ky k.2) (alm 0 k, alm 1 k)).1
    else (eb2qu spin (fs.kx k.1) (fs.ky k.2) (alm 0 k, alm 1 k)).2) p * (2 * π / (fs.lx * fs.ly))

/-- The field to which map `m` belongs and its component, from the spins of the fields
(src/nmt_field_flat.c:543-551,567-575). -/
def locate : List ℕ → ℕ → Option (ℕ × ℕ × ℕ)
  | [], _ => none
  | s :: ss, m => if m < nmapsOf s then some (0, s, m) else (locate ss (m - nmapsOf s)).map fun x => (x.1 + 1, x.2)

/-- `nmt_k_function_alloc(nl,l,f,f[0],0.,0)` and its evaluation, for `l = 0, …, nl-1` (src/nmt_field_flat.c:547,556); for
less than two points the process ends. -/
noncomputable def synKfun (n : ℕ) (f : ℕ → ℝ) (k : ℝ) : ℝ :=
  match kFunction ((List.range n).map fun l : ℕ => ((l : ℝ), f l)) (f 0) 0 k with
  | .ok v => v
  | _ => 0

/-- The arguments of `synfast_flat` except the seed. -/
structure SynFlatArgs where
  fs : FlatInfo
  cls : Arr2 ℝ
  spins : List ℤ
  beam : Option (Arr2 ℝ)

/-- The number of maps (pymaster/utils.py:746). -/
def SynFlatArgs.nmaps (a : SynFlatArgs) : ℕ := (a.spins.map fun s => nmapsOf s.natAbs).sum

/-- The inputs of `fs_synalm` in a call of `synfast_flat` (pymaster/utils.py:753-766, src/nmt_field_flat.c:534-556). -/
noncomputable def SynFlatArgs.toAlm (a : SynFlatArgs) : SynAlm :=
  { fs := a.fs, nmaps := a.nmaps
    cells := fun i => synKfun a.cls.cols (a.cls.val i)
    beam := fun m => synKfun a.cls.cols fun l =>
      match a.beam, locate (a.spins.map Int.natAbs) m with
      | some b, some x => b.val x.1 l
      | _, _ => 1 }

/-- The maps from the coefficients (src/nmt_field_flat.c:567-575, pymaster/utils.py:768). -/
noncomputable def SynFlatArgs.maps (a : SynFlatArgs) (c2r : (ℕ × ℕ → ℂ) → ℕ × ℕ → ℝ) (m : ℕ × ℕ × ℕ → ℂ) (imap : ℕ)
    (p : ℕ × ℕ) : ℝ :=
  match locate (a.spins.map Int.natAbs) imap with
  | some x => fsAlm2map c2r a.fs x.2.1 (fun c k => m (imap - x.2.2 + c, k)) x.2.2 p
  | none => 0

open Classical in
/-- The checks of `synfast_flat` and `synfast_new_flat` (pymaster/utils.py:743-762, pymaster/namaster.i:401-406). Without
fields `cls[0]` raises `IndexError` (shown as `Err.key`); with one multipole the process ends. -/
noncomputable def SynFlatArgs.check (a : SynFlatArgs) : Outcome Unit :=
  if ∃ s ∈ a.spins, s < 0 then .raises .value
  else if a.nmaps * (a.nmaps + 1) / 2 ≠ a.cls.rows then .raises .value
  else if a.cls.rows = 0 then .raises .key
  else if (a.beam.any fun b => b.rows ≠ a.spins.length ∨ b.cols ≠ a.cls.cols) then .raises .value
  else if ¬ (a.fs.lx > 0 ∧ a.fs.ly > 0) then .raises .runtime
  else if a.cls.cols < 2 then .crash
  else .ok ()

/-- `synfast_flat` (pymaster/utils.py:701-770): `out` is a possible outcome of a call when the global generator of numpy is
in state `g`, the rows are distributed as in `sched`. A negative seed is replaced by a number from the global generator. -/
def SynfastFlatRuns {G : Type*} (randint : G → ℤ × G) (E : Eigen) (gauss : ℤ → ℕ → ℝ × ℝ)
    (c2r : (ℕ × ℕ → ℂ) → ℕ × ℕ → ℝ) (a : SynFlatArgs) (seed : ℤ) (g : G) (sched : List (List ℕ))
    (out : Outcome (ℕ → ℕ × ℕ → ℝ) × G) : Prop :=
  let r := if seed < 0 then randint g else (seed, g)
  out.2 = r.2 ∧
  match a.check with
  | .ok _ => ∃ m0 m, a.toAlm.Runs E gauss r.1 sched m0 m ∧ out.1 = .ok (a.maps c2r m)
  | .raises e => out.1 = .raises e
  | .crash => out.1 = .crash

/-! ## Curved sky -/

/-- The arguments of `synfast_spherical` except the seed; `shape` is the geometry of the map as found by `NmtMapInfo`
(pymaster/utils.py:616-632): whether it covers the sphere, and the default band limit. The final reversal of rows and columns
of the map array (pymaster/utils.py:672-679) is part of `Sht`. -/
structure SynSphArgs where
  covers : Bool
  lmaxInfo : ℕ
  lmax : Option ℕ
  cls : Arr2 ℝ
  spins : List ℤ
  beam : Option (Arr2 ℝ)

/-- The number of maps (pymaster/utils.py:642-644). -/
def SynSphArgs.nmaps (a : SynSphArgs) : ℕ := (a.spins.map fun s => nmapsOf s.natAbs).sum

/-- The band limit of the simulation (pymaster/utils.py:633-634,650-651). -/
def SynSphArgs.lm (a : SynSphArgs) : ℕ := min (a.cls.cols - 1) (a.lmax.getD a.lmaxInfo)

open Classical in
/-- `synfast_spherical` (pymaster/utils.py:576-681). `synalm` is `hp.synalm`, which draws from numpy's global generator. -/
noncomputable def synfastSpherical {G : Type*} (randint : G → ℤ × G) (synalm : Arr2 ℝ → ℕ → G → (ℕ → ℕ → ℕ → ℂ) × G)
    (S : Sht) (a : SynSphArgs) (seed : ℤ) (g : G) : Outcome MapStack × G :=
  let g := if seed < 0 then (randint g).2 else g
  if ¬ a.covers then (.raises .value, g)
  else if ∃ s ∈ a.spins, s < 0 then (.raises .value, g)
  else if a.nmaps * (a.nmaps + 1) / 2 ≠ a.cls.rows then (.raises .value, g)
  else if a.cls.rows = 0 then (.raises .key, g)
  else
    let r := synalm a.cls a.lm g
    if (a.beam.any fun b => b.rows ≠ a.spins.length ∨ (b.rows > 0 ∧ b.cols < a.lm + 1)) then (.raises .value, r.2)
    else
      let alms : ℕ → ℕ → ℕ → ℂ := fun m =>
        match a.beam, locate (a.spins.map Int.natAbs) m with
        | some b, some x => almxfl (r.1 m) (b.val x.1)
        | _, _ => r.1 m
      (.ok fun m p =>
        match locate (a.spins.map Int.natAbs) m with
        | some x => S.alm2map x.2.1 a.lm (fun c => if c < nmapsOf x.2.1 then alms (m - x.2.2 + c) else fun _ _ => 0) x.2.2 p
        | none => 0, r.2)

end NaMaster
