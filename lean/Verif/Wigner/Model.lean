import Verif.Coupling.Model

/-!
# The recursion for Wigner 3j symbols

`drc3jj` of src/utils.c:143-343 with its values, over the real numbers. Rounding is not modelled; the branches that
keep numbers away from overflow and underflow are. Its accesses to memory are the subject of
Verif/Coupling/Trace.lean.
-/

namespace NaMaster

/-- `huge` (src/utils.c:149). -/
noncomputable def drcHuge : ℝ := Real.sqrt (179 * 10 ^ 306 / 20)

/-- `srhuge` (src/utils.c:150). -/
noncomputable def drcSrhuge : ℝ := Real.sqrt drcHuge

/-- `tiny` (src/utils.c:151). -/
noncomputable def drcTiny : ℝ := 1 / drcHuge

/-- `srtiny` (src/utils.c:152). -/
noncomputable def drcSrtiny : ℝ := 1 / drcSrhuge

/-- Variables of the forward recursion (src/utils.c:193-247). `l1` is `l1min+lstep`. -/
structure DrcFwd where
  lstep : ℕ
  newfac : ℝ
  c1 : ℝ
  sum1 : ℝ
  sumfor : ℝ
  x : ℝ
  converging : Bool
  thr : ℕ → ℝ

/-- `if(fabs(thrcof[ii])<srtiny) thrcof[ii]=0; thrcof[ii]/=srhuge;` (src/utils.c:231-233 and 285-287). -/
noncomputable def drcFlush (v : ℝ) : ℝ := (if |v| < drcSrtiny then 0 else v) / drcSrhuge

/-- `newfac` of the forward recursion (src/utils.c:205-207). -/
noncomputable def drcFac (l2 l3 m1 l1 : ℝ) : ℝ :=
  let a1 := (l1 + l2 + l3 + 1) * (l1 - l2 + l3) * (l1 + l2 - l3) * (-l1 + l2 + l3 + 1)
  let a2 := (l1 + m1) * (l1 - m1)
  Real.sqrt (a1 * a2)

/-- `newfac` of the backward recursion (src/utils.c:267-269). -/
noncomputable def drcFacBack (l2 l3 m1 l1 : ℝ) : ℝ :=
  let a1s := (l1 + l2 + l3) * (l1 - l2 + l3 - 1) * (l1 + l2 - l3 - 1) * (-l1 + l2 + l3 + 2)
  let a2s := (l1 + m1 - 1) * (l1 - m1 - 1)
  Real.sqrt (a1s * a2s)

/-- `dv` (src/utils.c:210 and 271). -/
def drcDv (l2 l3 m1 m2 m3 l1 : ℝ) : ℝ := -l2 * (l2 + 1) * m1 + l3 * (l3 + 1) * m1 + l1 * (l1 - 1) * (m3 - m2)

/-- One pass of the forward recursion (src/utils.c:201-246). -/
noncomputable def drcFwdStep (l2 l3 m1 m2 m3 : ℝ) (l1min nfin : ℕ) (s : DrcFwd) : DrcFwd :=
  let lstep := s.lstep + 1
  let l1 : ℝ := ((l1min + lstep : ℕ) : ℝ)
  let oldfac := s.newfac
  let newfac := drcFac l2 l3 m1 l1
  let denom := (l1 - 1) * newfac
  let c1old := |s.c1|
  let c1 := if l1 > 1 then -(l1 + l1 - 1) * drcDv l2 l3 m1 m2 m3 l1 / denom else -(l1 + l1 - 1) * l1 * (m3 - m2) / newfac
  if lstep ≤ 1 then
    let x := drcSrtiny * c1
    { s with
      lstep := lstep, newfac := newfac, c1 := c1, x := x, thr := Function.update s.thr 1 x
      sum1 := s.sum1 + drcTiny * (l1 + l1 + 1) * c1 * c1 }
  else
    let c2 := -l1 * oldfac / denom
    let x := c1 * s.thr (lstep - 1) + c2 * s.thr (lstep - 2)
    let thr := Function.update s.thr lstep x
    let sumfor := s.sum1
    let sum1 := s.sum1 + (l1 + l1 + 1) * x * x
    if lstep < nfin - 1 then
      let conv := if c1old ≤ |c1| then false else s.converging
      if |x| ≥ drcSrhuge then
        { lstep := lstep, newfac := newfac, c1 := c1, sum1 := sum1 / drcHuge, sumfor := sumfor / drcHuge, x := x / drcSrhuge,
          converging := conv, thr := fun i => if i ≤ lstep then drcFlush (thr i) else thr i }
      else
        { lstep := lstep, newfac := newfac, c1 := c1, sum1 := sum1, sumfor := sumfor, x := x, converging := conv, thr := thr }
    else
      { lstep := lstep, newfac := newfac, c1 := c1, sum1 := sum1, sumfor := sumfor, x := x, converging := s.converging,
        thr := thr }

/-- `while((lstep<nfin-1)&&(converging))` (src/utils.c:200-247); the first argument bounds the number of passes, `nfin`
is always enough. -/
noncomputable def drcFwdLoop (l2 l3 m1 m2 m3 : ℝ) (l1min nfin : ℕ) : ℕ → DrcFwd → DrcFwd
  | 0, s => s
  | f + 1, s =>
    if s.lstep < nfin - 1 ∧ s.converging = true then
      drcFwdLoop l2 l3 m1 m2 m3 l1min nfin f (drcFwdStep l2 l3 m1 m2 m3 l1min nfin s)
    else s

/-- Variables of the backward recursion (src/utils.c:249-297). `l1` is `l1max+2-lstep`. -/
structure DrcBwd where
  lstep : ℕ
  newfac : ℝ
  sum2 : ℝ
  sumbac : ℝ
  y : ℝ
  thr : ℕ → ℝ

/-- One pass of the backward recursion (src/utils.c:263-296). -/
noncomputable def drcBwdStep (l2 l3 m1 m2 m3 : ℝ) (l1max nfin nstep2 : ℕ) (s : DrcBwd) : DrcBwd :=
  let lstep := s.lstep + 1
  let l1 : ℝ := (l1max : ℝ) + 2 - (lstep : ℕ)
  let oldfac := s.newfac
  let newfac := drcFacBack l2 l3 m1 l1
  let denom := l1 * newfac
  let c1 := -(l1 + l1 - 1) * drcDv l2 l3 m1 m2 m3 l1 / denom
  if lstep ≤ 1 then
    let y := drcSrtiny * c1
    { lstep := lstep, newfac := newfac, y := y, thr := Function.update s.thr (nfin - 2) y, sumbac := s.sum2,
      sum2 := s.sum2 + drcTiny * (l1 + l1 - 3) * c1 * c1 }
  else
    let c2 := -(l1 - 1) * oldfac / denom
    let y := c1 * s.thr (nfin - lstep) + c2 * s.thr (nfin + 1 - lstep)
    if lstep ≠ nstep2 - 1 then
      let thr := Function.update s.thr (nfin - lstep - 1) y
      let sumbac := s.sum2
      let sum2 := s.sum2 + (l1 + l1 - 3) * y * y
      if |y| ≥ drcSrhuge then
        { lstep := lstep, newfac := newfac, y := y, sum2 := sum2 / drcHuge, sumbac := sumbac / drcHuge,
          thr := fun i => if nfin - lstep - 1 ≤ i ∧ i ≤ nfin - 1 then drcFlush (thr i) else thr i }
      else { lstep := lstep, newfac := newfac, y := y, sum2 := sum2, sumbac := sumbac, thr := thr }
    else { s with lstep := lstep, newfac := newfac, y := y }

/-- `while(lstep<nstep2-1)` (src/utils.c:262-297); the first argument bounds the number of passes. -/
noncomputable def drcBwdLoop (l2 l3 m1 m2 m3 : ℝ) (l1max nfin nstep2 : ℕ) : ℕ → DrcBwd → DrcBwd
  | 0, s => s
  | f + 1, s =>
    if s.lstep < nstep2 - 1 then
      drcBwdLoop l2 l3 m1 m2 m3 l1max nfin nstep2 f (drcBwdStep l2 l3 m1 m2 m3 l1max nfin nstep2 s)
    else s

/-- Joining the two parts (src/utils.c:249-318): the array and `sumuni`. -/
noncomputable def drcJoin (l2 l3 m1 m2 m3 : ℝ) (l1max nfin : ℕ) (s : DrcFwd) : (ℕ → ℝ) × ℝ :=
  let x1 := s.x
  let x2 := s.thr (s.lstep - 1)
  let x3 := s.thr (s.lstep - 2)
  let nstep2 := nfin - s.lstep - 1 + 3
  let start : DrcBwd :=
    { lstep := 0, newfac := s.newfac, sum2 := drcTiny * (l1max + l1max + 1), sumbac := 0, y := 0,
      thr := Function.update s.thr (nfin - 1) drcSrtiny }
  let b := drcBwdLoop l2 l3 m1 m2 m3 l1max nfin nstep2 (nstep2 - 1) start
  let y3 := b.y
  let y2 := b.thr (nfin - b.lstep)
  let y1 := b.thr (nfin + 1 - b.lstep)
  let ratio := (x1 * y1 + x2 * y2 + x3 * y3) / (x1 * x1 + x2 * x2 + x3 * x3)
  let nlim := nfin - nstep2 + 1
  if |ratio| < 1 then
    let nlim := nlim + 1
    let ratio := 1 / ratio
    (fun i => if nlim - 1 ≤ i ∧ i < nfin then b.thr i * ratio else b.thr i, ratio * ratio * b.sumbac + s.sumfor)
  else
    (fun i => if i < nlim then b.thr i * ratio else b.thr i, ratio * ratio * s.sumfor + b.sumbac)

/-- Normalisation and sign (src/utils.c:320-339). -/
noncomputable def drcScale (sign2 : ℝ) (nfin : ℕ) (q : (ℕ → ℝ) × ℝ) : ℕ → ℝ :=
  let cnorm := 1 / Real.sqrt q.2
  let sign1 : ℝ := if q.1 (nfin - 1) < 0 then -1 else 1
  let cnorm := if sign1 * sign2 ≤ 0 then -cnorm else cnorm
  if |cnorm| ≥ 1 then fun i => if i < nfin then q.1 i * cnorm else q.1 i
  else
    let thresh := drcTiny / |cnorm|
    fun i => if i < nfin then (if |q.1 i| < thresh then 0 else q.1 i) * cnorm else q.1 i

/-- `drc3jj` (src/utils.c:143-343): the array `thrcof` after the call, `mem` before. `report_error` for an array that is
too small. -/
noncomputable def drcRun (mem : ℕ → ℝ) (il2 il3 : ℕ) (im2 im3 : ℤ) (size : ℕ) : Outcome (ℕ → ℝ) :=
  let im1 := -im2 - im3
  let sign2 : ℝ := if ((il2 : ℤ) + im2 - il3 + im3).natAbs % 2 = 0 then 1 else -1
  let l1max := il2 + il3
  let l1min := max ((il2 : ℤ) - il3).natAbs im1.natAbs
  if il2 < im2.natAbs ∨ il3 < im3.natAbs then
    .ok fun i => if i + l1min ≤ l1max then 0 else mem i
  else if l1max = l1min then
    .ok (Function.update mem 0 (sign2 / Real.sqrt (l1min + il2 + il3 + 1)))
  else
    let nfin := l1max - l1min + 1
    if size < nfin then .raises .runtime
    else
      let start : DrcFwd :=
        { lstep := 0, newfac := 0, c1 := 0, sum1 := ((l1min : ℝ) + l1min + 1) * drcTiny, sumfor := 0, x := 0, converging := true,
          thr := Function.update mem 0 drcSrtiny }
      let s := drcFwdLoop il2 il3 im1 im2 im3 l1min nfin (nfin - 1) start
      let q := if nfin > 2 then drcJoin il2 il3 im1 im2 im3 l1max nfin s else (s.thr, s.sum1)
      .ok (drcScale sign2 nfin q)

end NaMaster
