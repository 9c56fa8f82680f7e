import Verif.Master.Object
import Mathlib.Analysis.SpecialFunctions.Exp
import Mathlib.Analysis.SpecialFunctions.Log.Basic
import Mathlib.Analysis.Real.Pi.Bounds
import Mathlib.Analysis.SpecialFunctions.Sqrt

/-!
# Model of the coupling coefficients

Models `src/nmt_master.c:157-995`, `1043-1139`, `421-651`, the functions `drc3jj_000` (src/utils.c:82-132)
and `drc3jj` (src/utils.c:143-343) and the SWIG wrappers `comp_coupling_matrix`,
`comp_coupling_matrix_anisotropic` (namaster.i:434-490).

Numbers are real, rounding is not modelled. Spins and multipoles are natural numbers. The recursion inside
`drc3jj` is not modelled here: the Wigner symbols it computes are a parameter `W`; what is modelled is the
range of `l1`, the zeros for multipoles below the spin and the position in the output buffer. The parallel
loops write every element from one iteration only, so they are written in sequential order.
-/

namespace NaMaster

open Finset

/-- The symbols computed by the recursion of `drc3jj` (src/utils.c:143-343): `w l1 l2 l3 m2 m3` is the
Wigner 3j symbol with upper row `l1 l2 l3` and lower row `-m2-m3, m2, m3`. -/
structure Wigner where
  w : ℕ → ℕ → ℕ → ℤ → ℤ → ℝ

/-- Difference of two multipoles, `abs(l2-l3)`. -/
def ldist (l2 l3 : ℕ) : ℕ := (l2 - l3) + (l3 - l2)

/-- `l1min` of `drc3jj` (src/utils.c:155-169). -/
def drcMin (l2 l3 : ℕ) (m2 m3 : ℤ) : ℕ := max (ldist l2 l3) (m2 + m3).natAbs

/-- Output buffer of `drc3jj` (src/utils.c:143-343). -/
def drc3jj (W : Wigner) (l2 l3 : ℕ) (m2 m3 : ℤ) (j : ℕ) : ℝ :=
  if l2 < m2.natAbs ∨ l3 < m3.natAbs then 0 else W.w (drcMin l2 l3 m2 m3 + j) l2 l3 m2 m3

/-- The value taken from the buffer for multipole `l1`, e.g. `wss1=jss1 < 0 ? 0 : wigner_ss1[jss1]`
(src/nmt_master.c:846-853). -/
def wigAt (W : Wigner) (l1 l2 l3 : ℕ) (m2 m3 : ℤ) : ℝ :=
  if l1 < drcMin l2 l3 m2 m3 then 0 else drc3jj W l2 l3 m2 m3 (l1 - drcMin l2 l3 m2 m3)

/-- Logarithms of factorials by recursion (src/nmt_master.c:749-753). -/
noncomputable def logFac : ℕ → ℝ
  | 0 => 0
  | 1 => 0
  | n + 2 => logFac (n + 1) + Real.log ((n + 2 : ℕ) : ℝ)

/-- Size of the table `lfac` (src/nmt_master.c:747-748). -/
def lfacSize (lmax lmaxMask : ℕ) : ℕ := 3 * (max lmax lmaxMask + 1)

/-- Element `n` of the table `lfac`; elements beyond its end are what happens to be in memory, `junk`. -/
noncomputable def lfac (junk : ℕ → ℝ) (lmax lmaxMask n : ℕ) : ℝ :=
  if n < lfacSize lmax lmaxMask then logFac n else junk n

/-- Element of the output buffer of `drc3jj_000` for multipole `l1` (src/utils.c:82-132), with table `lf`. -/
noncomputable def drc000 (lf : ℕ → ℝ) (l1 l2 l3 : ℕ) : ℝ :=
  if l2 + l3 = ldist l2 l3 then (if Odd (ldist l2 l3) then -1 else 1) / Real.sqrt ((ldist l2 l3 : ℝ) + l2 + l3 + 1)
  else
    let J := l1 + l2 + l3
    if Odd J then 0
    else
      let g := J / 2
      (if Odd g then -1 else 1) *
        Real.exp (1 / 2 * (lf (J - 2 * l1) + lf (J - 2 * l2) + lf (J - 2 * l3) - lf (J + 1)) +
          (lf g - lf (g - l1) - lf (g - l2) - lf (g - l3)))

/-- The members of `nmt_master_calculator` set at src/nmt_master.c:660-709. -/
structure Calc where
  lmax : ℕ
  lmaxMask : ℕ
  s1 : ℕ
  s2 : ℕ
  pureAny : Bool
  teb : Bool

/-- src/nmt_master.c:660-697: the first spin is made non-zero if one of them is. -/
def Calc.make (lmax lmaxMask spin1 spin2 : ℕ) (pureAny teb : Bool) : Calc :=
  if spin1 = 0 then
    if spin2 = 0 then ⟨lmax, lmaxMask, 0, 0, pureAny, teb⟩ else ⟨lmax, lmaxMask, spin2, 0, pureAny, teb⟩
  else ⟨lmax, lmaxMask, spin1, spin2, pureAny, teb⟩

/-- `has_00` (src/nmt_master.c:699-709). -/
def Calc.has00 (c : Calc) : Bool := c.teb || (c.s1 == 0 && c.s2 == 0)

/-- `has_ss2` (src/nmt_master.c:760). -/
def Calc.hasSs2 (c : Calc) : Bool := c.s1 != 0 && c.s2 != 0 && !c.teb && c.s1 != c.s2

/-- `lstart` (src/nmt_master.c:758-762). -/
def Calc.lstart (c : Calc) : ℕ := if c.has00 then 0 else max c.s1 c.s2

/-- Sum over the multipoles of the mask: the loop and condition at src/nmt_master.c:836-838. -/
noncomputable def sumMask (lmaxMask l2 l3 : ℕ) (f : ℕ → ℝ) : ℝ :=
  ∑ l1 ∈ Icc (ldist l2 l3) (l2 + l3), if l1 ≤ lmaxMask then f l1 else 0

section entries
variable (W : Wigner) (lf : ℕ → ℝ) (c : Calc) (pcl : ℕ → ℝ)

/-- `wss1` (src/nmt_master.c:851). -/
def wss1 (l1 l2 l3 : ℕ) : ℝ := wigAt W l1 l2 l3 c.s1 (-c.s1)

/-- `wss2` (src/nmt_master.c:852). -/
def wss2 (l1 l2 l3 : ℕ) : ℝ := if c.hasSs2 then wigAt W l1 l2 l3 c.s2 (-c.s2) else wss1 W c l1 l2 l3

/-- `fac_12` (src/nmt_master.c:858-868). -/
noncomputable def fac12 (l1 l2 : ℕ) : ℝ :=
  if 1 < l2 then 2 * Real.sqrt (((l1 : ℝ) + 1) * l1 / (((l2 : ℝ) + 2) * ((l2 : ℝ) - 1))) else 0

/-- `fac_02` (src/nmt_master.c:858-868). -/
noncomputable def fac02 (l1 l2 : ℕ) : ℝ :=
  if 1 < l2 then
    if 1 < l1 then Real.sqrt (((l1 : ℝ) + 2) * ((l1 : ℝ) + 1) * l1 * ((l1 : ℝ) - 1) /
      (((l2 : ℝ) + 2) * ((l2 : ℝ) + 1) * l2 * ((l2 : ℝ) - 1))) else 0
  else 0

/-- `wss1+fac_12*w12+fac_02*w02` (src/nmt_master.c:855-892, 905); terms with the multipole out of range of
the buffer are zero. -/
noncomputable def wPure (l1 l2 l3 : ℕ) : ℝ :=
  wss1 W c l1 l2 l3 + fac12 l1 l2 * wigAt W l1 l2 l3 1 (-2) + fac02 l1 l2 * wigAt W l1 l2 l3 0 (-2)

/-- Element of `xi_00` (src/nmt_master.c:886-889). -/
noncomputable def entry00 (l2 l3 : ℕ) : ℝ :=
  sumMask c.lmaxMask l2 l3 fun l1 => pcl l1 * drc000 lf l1 l2 l3 * drc000 lf l1 l2 l3

/-- Element of `xi_0s[ip]` (src/nmt_master.c:890-900). -/
noncomputable def entry0s (ip l2 l3 : ℕ) : ℝ :=
  sumMask c.lmaxMask l2 l3 fun l1 =>
    (if ip = 0 then wss1 W c l1 l2 l3 else wPure W c l1 l2 l3) * (pcl l1 * drc000 lf l1 l2 l3)

/-- `wfac_ispure[ip]` for two fields with spin (src/nmt_master.c:901-910). -/
noncomputable def wfacSs (ip l1 l2 l3 : ℕ) : ℝ :=
  if ip = 0 then wss1 W c l1 l2 l3 * (wss2 W c l1 l2 l3 * pcl l1)
  else if ip = 1 then wPure W c l1 l2 l3 * (wss2 W c l1 l2 l3 * pcl l1)
  else wPure W c l1 l2 l3 * wPure W c l1 l2 l3 * pcl l1

/-- Element of `xi_pp[ip]` (src/nmt_master.c:901-920). -/
noncomputable def entryPP (ip l2 l3 : ℕ) : ℝ :=
  sumMask c.lmaxMask l2 l3 fun l1 => if Odd (l1 + l2 + l3) then 0 else wfacSs W c pcl ip l1 l2 l3

/-- Element of `xi_mm[ip]` (src/nmt_master.c:901-920). -/
noncomputable def entryMM (ip l2 l3 : ℕ) : ℝ :=
  sumMask c.lmaxMask l2 l3 fun l1 => if Odd (l1 + l2 + l3) then wfacSs W c pcl ip l1 l2 l3 else 0

end entries

/-- The integers `a, a+1, ..., b`. -/
def rangeIncl (a b : ℕ) : List ℕ := List.range' a (b + 1 - a)

/-- `lend_toeplitz` (src/nmt_master.c:167-183). -/
def lendToeplitz (l2 lT lE dl lmax : ℤ) : ℤ :=
  min (if lT > 0 then (if l2 ≤ lE then lmax else if l2 ≤ lT then l2 + dl else l2) else lmax) lmax

/-- `toeplitz_wrap` (src/nmt_master.c:157-165). -/
def toeplitzWrap (il n : ℤ) : ℤ := if il < 0 then il + n else if il ≥ n then il - n else il

/-- Main loop (src/nmt_master.c:787-937): assignments to one of the matrices, whose elements are sums
`entry`; without purification the transposed element is assigned as well. -/
def mainWrites (lstart lmax : ℕ) (pureAny : Bool) (lend : ℕ → ℕ) (entry : ℕ → ℕ → ℝ) :
    List ((ℕ × ℕ) × ℝ) :=
  (rangeIncl lstart lmax).flatMap fun ll2 =>
    (rangeIncl (if pureAny then lstart else ll2) (lend ll2)).flatMap fun ll3 =>
      ((ll2, ll3), entry ll2 ll3) ::
        (if ¬ pureAny ∧ ll2 ≠ ll3 then [((ll3, ll2), entry ll2 ll3)] else [])

/-- Diagonal computed by `populate_toeplitz` (src/nmt_master.c:236-320). -/
noncomputable def tplzDiag (lstart lmax : ℕ) (entry : ℕ → ℕ → ℝ) (l : ℕ) : ℝ :=
  if lstart ≤ l ∧ l ≤ lmax then |entry l l| else 0

/-- Column `lt` as correlation coefficient (src/nmt_master.c:322-357). -/
noncomputable def tplzCol (lstart lmax lt : ℕ) (entry : ℕ → ℕ → ℝ) (l : ℕ) : ℝ :=
  let d1 := tplzDiag lstart lmax entry l
  let d2 := tplzDiag lstart lmax entry lt
  if 0 < d1 ∧ 0 < d2 then (if lstart ≤ l ∧ l ≤ lmax then entry l lt else 0) / Real.sqrt (d1 * d2) else 0

/-- Assignments of `populate_toeplitz` (src/nmt_master.c:359-391). -/
noncomputable def tplzWrites (lstart lmax lt : ℕ) (entry : ℕ → ℕ → ℝ) : List ((ℕ × ℕ) × ℝ) :=
  (List.range (lmax + 1)).flatMap fun ll2 : ℕ => (List.range (ll2 + 1)).flatMap fun ll3 : ℕ =>
    let v := tplzCol lstart lmax lt entry (toeplitzWrap ((ll2 : ℤ) + lt - ll3) ((lmax : ℤ) + 1)).toNat *
      Real.sqrt (tplzDiag lstart lmax entry ll2 * tplzDiag lstart lmax entry ll3)
    ((ll2, ll3), v) :: (if ll3 ≠ ll2 then [((ll3, ll2), v)] else [])

/-- Pairs visited by the loop filling the lower triangle (src/nmt_master.c:940-942). -/
def fillPairs (lmax lT lE : ℕ) : List (ℕ × ℕ) :=
  (rangeIncl (lmax + lE - lT) lmax).flatMap fun l2 =>
    (rangeIncl lE (l2 + lT - lmax)).map fun l3 => (l2, l3)

/-- One step of that loop (src/nmt_master.c:945-958). -/
noncomputable def fillStep (lE : ℕ) (mat : ℕ × ℕ → ℝ) (p : ℕ × ℕ) : ℕ × ℕ → ℝ :=
  let l2 := p.1
  let l3 := p.2
  let lx := lE + l2 - l3
  let m := if mat (lx, lx) = 0 ∨ mat (lE, lE) = 0 then 0
    else mat (lx, lE) * Real.sqrt |mat (l2, l2) * mat (l3, l3) / (mat (lx, lx) * mat (lE, lE))|
  Function.update (Function.update mat (l2, l3) m) (l3, l2) m

/-- One of the matrices of `nmt_compute_master_coefficients` (src/nmt_master.c:755-992), given the sums. The
arrays have been set to zero by `my_calloc`; `populate_toeplitz` and the two Toeplitz loops run only for
`l_toeplitz>0`, in which case there is no purification (pymaster/utils.py:686-689). -/
noncomputable def coefTable (lstart lmax : ℕ) (pureAny : Bool) (lT lE dl : ℤ) (entry : ℕ → ℕ → ℝ) : ℕ × ℕ → ℝ :=
  let lend := fun l2 : ℕ => (lendToeplitz l2 lT lE dl lmax).toNat
  if lT > 0 then
    let m0 := runWrites (tplzWrites lstart lmax lT.toNat entry) (fun _ => 0)
    let m1 := runWrites (mainWrites lstart lmax pureAny lend entry) m0
    (fillPairs lmax lT.toNat lE.toNat).foldl (fillStep lE.toNat) m1
  else runWrites (mainWrites lstart lmax pureAny lend entry) (fun _ => 0)

/-- The arguments of `nmt_compute_coupling_matrix` (src/nmt_master.c:1043-1053) that determine the matrix;
`pcl` is the spectrum with the factor of line 1079. -/
structure CouplingArgs where
  spin1 : ℕ
  spin2 : ℕ
  lmaxMask : ℕ
  pe1 : Bool
  pb1 : Bool
  pe2 : Bool
  pb2 : Bool
  teb : Bool
  lT : ℤ
  lE : ℤ
  dl : ℤ
  /-- contents of memory behind the table of factorials -/
  junk : ℕ → ℝ

/-- `pure_any` (src/nmt_master.c:663). -/
def CouplingArgs.pureAny (a : CouplingArgs) : Bool := a.pe1 || a.pb1 || a.pe2 || a.pb2

/-- Number of spectra (src/nmt_master.c:1057-1065). -/
def CouplingArgs.ncls (a : CouplingArgs) : ℕ :=
  if a.teb then 7 else (if a.spin1 ≠ 0 then 2 else 1) * (if a.spin2 ≠ 0 then 2 else 1)

/-- The calculator made by `nmt_compute_master_coefficients`. -/
def CouplingArgs.calc (a : CouplingArgs) (lmax : ℕ) : Calc :=
  Calc.make lmax a.lmaxMask a.spin1 a.spin2 a.pureAny a.teb

/-- The four kinds of matrices of the calculator; the second argument is the purification index. -/
noncomputable def CouplingArgs.xi (W : Wigner) (a : CouplingArgs) (lmax : ℕ) (pcl : ℕ → ℝ) :
    (ℕ → ℕ → ℝ) × (ℕ → ℕ → ℕ → ℝ) × (ℕ → ℕ → ℕ → ℝ) × (ℕ → ℕ → ℕ → ℝ) :=
  let c := a.calc lmax
  let lf := lfac a.junk lmax a.lmaxMask
  let t := fun entry => fun l2 l3 => coefTable c.lstart lmax a.pureAny a.lT a.lE a.dl entry (l2, l3)
  (t (entry00 lf c pcl), fun ip => t (entry0s W lf c pcl ip), fun ip => t (entryPP W c pcl ip),
    fun ip => t (entryMM W c pcl ip))

/-- `int` value of a C flag. -/
def flag (b : Bool) : ℕ := if b then 1 else 0

/-- Assignments for one pair of multipoles (src/nmt_master.c:1101-1131): component of row and column and
value. -/
noncomputable def CouplingArgs.cells (W : Wigner) (a : CouplingArgs) (lmax : ℕ) (pcl : ℕ → ℝ) (ll2 ll3 : ℕ) :
    List ((ℕ × ℕ) × ℝ) :=
  let x := a.xi W lmax pcl
  let xi00 := x.1 ll2 ll3
  let xi0s := fun ip => x.2.1 ip ll2 ll3
  let xipp := fun ip => x.2.2.1 ip ll2 ll3
  let ximm := fun ip => x.2.2.2 ip ll2 ll3
  let fac : ℝ := (2 * ll3 + 1) * (if Odd (a.spin1 + a.spin2) then -1 else 1)
  let pe1 := flag a.pe1
  let pb1 := flag a.pb1
  let pe2 := flag a.pe2
  let pb2 := flag a.pb2
  if a.ncls = 1 then [((0, 0), fac * xi00)]
  else if a.ncls = 2 then [((0, 0), fac * xi0s (pe1 + pe2)), ((1, 1), fac * xi0s (pb1 + pb2))]
  else if a.ncls = 4 then
    [((0, 3), fac * ximm (pe1 + pe2)), ((1, 2), -fac * ximm (pe1 + pb2)), ((2, 1), -fac * ximm (pb1 + pe2)),
     ((3, 0), fac * ximm (pb1 + pb2)), ((0, 0), fac * xipp (pe1 + pe2)), ((1, 1), fac * xipp (pe1 + pb2)),
     ((2, 2), fac * xipp (pb1 + pe2)), ((3, 3), fac * xipp (pb1 + pb2))]
  else
    [((0, 0), fac * xi00), ((1, 1), fac * xi0s pe2), ((2, 2), fac * xi0s pb2),
     ((3, 6), fac * ximm (pe2 + pe2)), ((4, 5), -fac * ximm (pe2 + pb2)), ((5, 4), -fac * ximm (pb2 + pe2)),
     ((6, 3), fac * ximm (pb2 + pb2)), ((3, 3), fac * xipp (pe2 + pe2)), ((4, 4), fac * xipp (pe2 + pb2)),
     ((5, 5), fac * xipp (pb2 + pe2)), ((6, 6), fac * xipp (pb2 + pb2))]

/-- Assignments to `coupling_matrix_unbinned` for all pairs of multipoles. -/
def matrixWrites (ncls lmax : ℕ) (cells : ℕ → ℕ → List ((ℕ × ℕ) × ℝ)) : List ((ℕ × ℕ) × ℝ) :=
  (List.range (lmax + 1)).flatMap fun ll2 => (List.range (lmax + 1)).flatMap fun ll3 =>
    (cells ll2 ll3).map fun x => ((ncls * ll2 + x.1.1, ncls * ll3 + x.1.2), x.2)

/-- The unbinned coupling matrix (src/nmt_master.c:1086-1134). -/
noncomputable def CouplingArgs.matrix (W : Wigner) (a : CouplingArgs) (lmax : ℕ) (pcl : ℕ → ℝ) : ℕ → ℕ → ℝ :=
  fun i j => runWrites (matrixWrites a.ncls lmax (a.cells W lmax pcl)) (fun _ => 0) (i, j)

/-- `pcl_masks[l2]*(2*l2+1.)/(4*M_PI)` (src/nmt_master.c:1078-1079). -/
noncomputable def scalePcl (pcl : ℕ → ℝ) : ℕ → ℝ := fun l => pcl l * (2 * l + 1) / (4 * Real.pi)

/-- `nmt_compute_coupling_matrix` (src/nmt_master.c:1043-1139). An index 2 into `xi_0s`, which has two
elements, is an access outside an array. A mask band limit below that of the bandpowers makes the buffers for
Wigner symbols too small; `drc3jj`, `drc3jj_000` then call `report_error` in the parallel region
(src/utils.c:104-107,183-185), a `longjmp` across threads. -/
noncomputable def computeCouplingMatrix (W : Wigner) (a : CouplingArgs) (lmaxFields : ℕ) (pcl beam1 beam2 : ℕ → ℝ)
    (B : Bins ℝ) (normType : ℤ) (w2 : ℝ) : Outcome (Wsp ℝ) :=
  if a.teb ∧ ¬ (a.spin1 = 0 ∧ a.spin2 ≠ 0) then .raises .runtime
  else if B.ellMax > lmaxFields then .raises .runtime
  else if a.lmaxMask < B.ellMax ∧ (a.calc B.ellMax).lstart ≤ B.ellMax then .crash
  else if a.ncls = 2 ∧ (flag a.pe1 + flag a.pe2 = 2 ∨ flag a.pb1 + flag a.pb2 = 2) then .crash
  else
    let p := tab (a.lmaxMask + 1) (scalePcl pcl)
    .ok (buildWsp a.ncls lmaxFields a.lmaxMask a.teb normType w2 beam1 beam2 p (a.matrix W B.ellMax p) B)

/-- `comp_coupling_matrix` (namaster.i:470-490): lengths are checked, then the C function is called. -/
noncomputable def compCouplingMatrix (W : Wigner) (a : CouplingArgs) (lmaxFields : ℕ) (pcl beam1 beam2 : List ℝ)
    (B : Bins ℝ) (normType : ℤ) (w2 : ℝ) : Outcome (Wsp ℝ) :=
  if beam1.length ≠ lmaxFields + 1 ∨ beam2.length ≠ lmaxFields + 1 ∨ pcl.length ≠ a.lmaxMask + 1 then
    .raises .runtime
  else computeCouplingMatrix W a lmaxFields (fun l => pcl.getD l 0) (fun l => beam1.getD l 0)
    (fun l => beam2.getD l 0) B normType w2

/-! ## Anisotropic masks -/

/-- The nine mask spectra in the order of the parameters of `nmt_compute_coupling_matrix_anisotropic`
(src/nmt_master.c:424-432). -/
structure AnisoPcl where
  p00 : ℕ → ℝ
  p0e : ℕ → ℝ
  pe0 : ℕ → ℝ
  p0b : ℕ → ℝ
  pb0 : ℕ → ℝ
  pee : ℕ → ℝ
  peb : ℕ → ℝ
  pbe : ℕ → ℝ
  pbb : ℕ → ℝ

/-- Arguments of `nmt_compute_coupling_matrix_anisotropic` (src/nmt_master.c:421-437) that determine the
matrix. -/
structure AnisoArgs where
  spin1 : ℕ
  spin2 : ℕ
  aniso1 : Bool
  aniso2 : Bool
  lmaxMask : ℕ

/-- Number of spectra (src/nmt_master.c:440-444). -/
def AnisoArgs.ncls (a : AnisoArgs) : ℕ := (if a.spin1 ≠ 0 then 2 else 1) * (if a.spin2 ≠ 0 then 2 else 1)

/-- Spectrum copied if `cond`, with sign and factor (src/nmt_master.c:464-498). -/
noncomputable def anisoPcl (cond oddSign : Bool) (p : ℕ → ℝ) (l : ℕ) : ℝ :=
  (if cond then p l else 0) * ((if oddSign then -1 else 1) * ((2 * l + 1) / (4 * Real.pi)))

/-- Assignments for one pair of multipoles: each is the sum over `l1` of the added terms
(src/nmt_master.c:564-628). -/
noncomputable def AnisoArgs.cells (W : Wigner) (a : AnisoArgs) (p : AnisoPcl) (ll2 ll3 : ℕ) : List ((ℕ × ℕ) × ℝ) :=
  let o1 : Bool := a.spin1 % 2 == 1
  let o2 : Bool := a.spin2 % 2 == 1
  let o12 : Bool := (a.spin1 + a.spin2) % 2 == 1
  let both := a.aniso1 && a.aniso2
  let w1 := fun l1 => wigAt W l1 ll2 ll3 a.spin1 (-a.spin1)
  let w2 := fun l1 => wigAt W l1 ll2 ll3 a.spin2 (-a.spin2)
  let w1a := fun l1 => wigAt W l1 ll2 ll3 a.spin1 a.spin1
  let w2a := fun l1 => wigAt W l1 ll2 ll3 a.spin2 a.spin2
  let m00 := fun l1 => w1 l1 * w2 l1 * anisoPcl true false p.p00 l1
  let m0e := fun l1 => if a.aniso2 then w1 l1 * w2a l1 * anisoPcl a.aniso2 o2 p.p0e l1 else 0
  let m0b := fun l1 => if a.aniso2 then w1 l1 * w2a l1 * anisoPcl a.aniso2 o2 p.p0b l1 else 0
  let me0 := fun l1 => if a.aniso1 then w1a l1 * w2 l1 * anisoPcl a.aniso1 o1 p.pe0 l1 else 0
  let mb0 := fun l1 => if a.aniso1 then w1a l1 * w2 l1 * anisoPcl a.aniso1 o1 p.pb0 l1 else 0
  let mee := fun l1 => if both then w1a l1 * w2a l1 * anisoPcl both o12 p.pee l1 else 0
  let meb := fun l1 => if both then w1a l1 * w2a l1 * anisoPcl both o12 p.peb l1 else 0
  let mbe := fun l1 => if both then w1a l1 * w2a l1 * anisoPcl both o12 p.pbe l1 else 0
  let mbb := fun l1 => if both then w1a l1 * w2a l1 * anisoPcl both o12 p.pbb l1 else 0
  let fac : ℝ := 2 * ll3 + 1
  let sm := fun f : ℕ → ℝ => sumMask a.lmaxMask ll2 ll3 fun l1 => fac * f l1
  let ss := fun f g : ℕ → ℝ => sm fun l1 =>
    (if Odd (l1 + ll2 + ll3) then 0 else 1) * f l1 + (if Odd (l1 + ll2 + ll3) then 1 else 0) * g l1
  if a.spin1 = 0 ∧ a.spin2 ≠ 0 then
    [((0, 0), sm fun l => m00 l - m0e l), ((0, 1), sm fun l => -m0b l), ((1, 0), sm fun l => -m0b l),
     ((1, 1), sm fun l => m00 l + m0e l)]
  else if a.spin1 ≠ 0 ∧ a.spin2 = 0 then
    [((0, 0), sm fun l => m00 l - me0 l), ((0, 1), sm fun l => -mb0 l), ((1, 0), sm fun l => -mb0 l),
     ((1, 1), sm fun l => m00 l + me0 l)]
  else if a.spin1 ≠ 0 ∧ a.spin2 ≠ 0 then
    [((0, 0), ss (fun l => m00 l - m0e l - me0 l + mee l) (fun l => mbb l)),
     ((0, 1), ss (fun l => -m0b l + meb l) (fun l => -mb0 l - mbe l)),
     ((0, 2), ss (fun l => -mb0 l + mbe l) (fun l => -m0b l - meb l)),
     ((0, 3), ss (fun l => mbb l) (fun l => m00 l + m0e l + me0 l + mee l)),
     ((1, 0), ss (fun l => -m0b l + meb l) (fun l => mb0 l - mbe l)),
     ((1, 1), ss (fun l => m00 l + m0e l - me0 l - mee l) (fun l => -mbb l)),
     ((1, 2), ss (fun l => mbb l) (fun l => -m00 l + m0e l - me0 l + mee l)),
     ((1, 3), ss (fun l => -mb0 l - mbe l) (fun l => m0b l + meb l)),
     ((2, 0), ss (fun l => -mb0 l + mbe l) (fun l => m0b l - meb l)),
     ((2, 1), ss (fun l => mbb l) (fun l => -m00 l - m0e l + me0 l + mee l)),
     ((2, 2), ss (fun l => m00 l - m0e l + me0 l - mee l) (fun l => -mbb l)),
     ((2, 3), ss (fun l => -m0b l - meb l) (fun l => mb0 l + mbe l)),
     ((3, 0), ss (fun l => mbb l) (fun l => m00 l - m0e l - me0 l + mee l)),
     ((3, 1), ss (fun l => -mb0 l - mbe l) (fun l => -m0b l + meb l)),
     ((3, 2), ss (fun l => -m0b l - meb l) (fun l => -mb0 l + mbe l)),
     ((3, 3), ss (fun l => m00 l + m0e l + me0 l + mee l) (fun l => mbb l))]
  else []

/-- The unbinned matrix of `nmt_compute_coupling_matrix_anisotropic` (src/nmt_master.c:500-628); the loops start
at the larger spin. -/
noncomputable def AnisoArgs.matrix (W : Wigner) (a : AnisoArgs) (lmax : ℕ) (p : AnisoPcl) : ℕ → ℕ → ℝ :=
  fun i j => runWrites (matrixWrites a.ncls lmax (fun ll2 ll3 =>
    if max a.spin1 a.spin2 ≤ ll2 ∧ max a.spin1 a.spin2 ≤ ll3 then a.cells W p ll2 ll3 else [])) (fun _ => 0) (i, j)

/-- `comp_coupling_matrix_anisotropic` (namaster.i:434-467) called from `compute_coupling_matrix`
(pymaster/workspaces.py:311-319): the matrix, for spectra given by name. The wrapper passes its arguments
`fl00,fl0e,fl0b,fle0,flb0,...` by position to parameters ordered `00,0e,e0,0b,b0,...`. -/
noncomputable def compAnisoMatrix (W : Wigner) (a : AnisoArgs) (lmax : ℕ)
    (fl00 fl0e fl0b fle0 flb0 flee fleb flbe flbb : ℕ → ℝ) : ℕ → ℕ → ℝ :=
  a.matrix W lmax ⟨fl00, fl0e, fl0b, fle0, flb0, flee, fleb, flbe, flbb⟩

end NaMaster
