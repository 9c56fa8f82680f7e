import Verif.FlatUnits.Field
import Verif.FlatSym.Props
import Verif.Flat.PipelineProps
import Verif.Flat.CovarExchange
import Verif.Units.Covar

/-! # Units of the masks of flat fields: C99 -/

namespace NaMaster

open Real Finset

/-! ## Specification -/

/-- A workspace with the matrices multiplied by a number. -/
def WspFlat.rescale (k : ℝ) (w : WspFlat) : WspFlat :=
  { w with binned := fun i b1 j b2 => k * w.binned i b1 j b2, unbinned := fun i b1 j ir => k * w.unbinned i b1 j ir }

/-- The coefficients of a covariance multiplied by a number. -/
def CovWspFlat.rescale (k : ℝ) (c : CovWspFlat) : CovWspFlat := ⟨c.bin, c.x1122.rescale k, c.x1221.rescale k⟩

/-- The deprojection bias used by `compute_full_master_flat` for two fields (src/nmt_master_flat.c:937): what `deprojection_bias_flat` returns for them,
zero if this is not finite. -/
noncomputable def deprojOf (env : FlatEnv) (f1 f2 : FlatFieldObj) : FlatDeproj := fun _ _ b c ells guess i ib =>
  match deprojBiasFlatObjC env f1 f2 b c ells guess (f1.nmaps * f2.nmaps) with
  | .ok (some x) => x.val i ib
  | _ => 0

/-! ## Spectra -/

variable {env : FlatEnv}

theorem halfProd_scale (nx : ℕ) (x y : ℝ) (a1 a2 : ℕ × ℕ → ℂ) :
    halfProd nx (fun k => (x : ℂ) * a1 k) (fun k => (y : ℂ) * a2 k) = fun k => x * y * halfProd nx a1 a2 k := by
  funext k
  unfold halfProd
  simp only [Complex.re_ofReal_mul, Complex.im_ofReal_mul]
  ring

theorem maskprod_scale (fs : FlatInfo) (x y : ℝ) (m1 m2 : ℕ × ℕ → ℝ) :
    halfProd fs.nx (fs.map2alm fun p => x * m1 p) (fs.map2alm fun p => y * m2 p) = fun k => x * y * halfProd fs.nx (fs.map2alm m1) (fs.map2alm m2) k := by
  have e : ∀ (x : ℝ) (m : ℕ × ℕ → ℝ), (fs.map2alm fun p => x * m p) = fun k => (x : ℂ) * fs.map2alm m k :=
    fun x m => funext fun k => FlatMove.map2alm_smul fs x m k
  rw [e, e]
  exact halfProd_scale _ _ _ _ _

theorem coupTerm_scale (f1 f2 : FlatField) (n : ℕ) (k : ℝ) (mp : ℕ × ℕ → ℝ) (i j : ℕ) (k1 k2 : ℕ × ℕ) :
    coupTerm f1 f2 n (fun q => k * mp q) i j k1 k2 = k * coupTerm f1 f2 n mp i j k1 k2 := by
  unfold coupTerm
  dsimp only
  ring

theorem coupling_scale (x y : ℝ) (f1 f2 : FlatField) (b : FlatBins ℝ) (c : EllCuts) (isTeb : Bool) :
    couplingFlat (f1.rescale x) (f2.rescale y) b c isTeb = (couplingFlat f1 f2 b c isTeb).bind fun w => .ok (w.rescale (x * y)) := by
  have ht : ∀ n mp i j k1 k2, coupTerm (f1.rescale x) (f2.rescale y) n mp i j k1 k2 = coupTerm f1 f2 n mp i j k1 k2 := fun _ _ _ _ _ _ => rfl
  have hm : halfProd f1.fs.nx (f1.fs.map2alm (f1.rescale x).mask) (f1.fs.map2alm (f2.rescale y).mask) =
      fun k => x * y * halfProd f1.fs.nx (f1.fs.map2alm f1.mask) (f1.fs.map2alm f2.mask) k := maskprod_scale _ _ _ _ _
  unfold couplingFlat
  simp only [show (f1.rescale x).fs = f1.fs from rfl, show (f2.rescale y).fs = f2.fs from rfl, show (f1.rescale x).spin = f1.spin from rfl,
    show (f2.rescale y).spin = f2.spin from rfl, show (f1.rescale x).pureE = f1.pureE from rfl, show (f2.rescale y).pureE = f2.pureE from rfl,
    show (f1.rescale x).pureB = f1.pureB from rfl, show (f2.rescale y).pureB = f2.pureB from rfl, hm, ht, coupTerm_scale]
  by_cases h1 : f1.fs ≠ f2.fs
  · rw [if_pos (show (f1.rescale x).fs ≠ (f2.rescale y).fs from h1), if_pos h1]; rfl
  rw [if_neg (show ¬ (f1.rescale x).fs ≠ (f2.rescale y).fs from h1), if_neg h1]
  by_cases h2 : isTeb = true ∧ ¬ (f1.spin = 0 ∧ f2.spin ≠ 0)
  · rw [if_pos h2, if_pos h2]; rfl
  rw [if_neg h2, if_neg h2]
  by_cases h3 : b.nBands = 0
  · rw [if_pos h3, if_pos h3]; rfl
  rw [if_neg h3, if_neg h3]
  cases Outcome.all ((List.range f1.fs.ny).map fun iy => couplingBands f1.fs b c iy) with
  | raises e => rfl
  | crash => rfl
  | ok rows =>
    cases Outcome.all ((List.range f1.fs.ny).map fun iy => couplingBandsNocut f1.fs b iy) with
    | raises e => rfl
    | crash => rfl
    | ok rowsN =>
      dsimp only [Outcome.bind]
      unfold WspFlat.rescale
      simp only [← mul_sum, mul_assoc, mul_ite, mul_zero]

theorem clBand_scale (fs : FlatInfo) (rows : List (List ℤ)) (x y : ℝ) (a1 a2 : FlatAlms) (c d ib : ℕ) :
    clBand fs rows (scaleCoef x a1 c) (scaleCoef y a2 d) ib = x * y * clBand fs rows (a1 c) (a2 d) ib := by
  unfold clBand
  rw [show halfProd fs.nx (scaleCoef x a1 c) (scaleCoef y a2 d) = fun k => x * y * halfProd fs.nx (a1 c) (a2 d) k from halfProd_scale _ _ _ _ _]
  split_ifs
  · rw [mul_zero]
  · rw [← mul_sum, mul_assoc]

theorem fsAlm2cl_scale (fs : FlatInfo) (b : FlatBins ℝ) (cuts : EllCuts) (x y : ℝ) (a1 a2 : FlatAlms) (c d : ℕ) :
    fsAlm2cl fs b cuts (scaleCoef x a1 c) (scaleCoef y a2 d) = (fsAlm2cl fs b cuts (a1 c) (a2 d)).bind fun v => .ok fun ib => x * y * v ib := by
  unfold fsAlm2cl
  cases Outcome.all ((List.range fs.ny).map fun iy => alm2clBands fs b cuts iy) with
  | raises e => rfl
  | crash => rfl
  | ok rows =>
    dsimp only [Outcome.bind]
    congr 1
    rw [← tab_scale]
    congr 1
    funext ib
    exact clBand_scale fs rows x y a1 a2 c d ib

theorem all_map_scale {α β : Type*} (S : β → β) (g : α → Outcome β) (l : List α) :
    Outcome.all (l.map fun i => (g i).bind fun v => .ok (S v)) = (Outcome.all (l.map g)).bind fun vs => .ok (vs.map S) := by
  induction l with
  | nil => rfl
  | cons a l ih =>
    simp only [List.map_cons, Outcome.all]
    rw [ih]
    cases g a with
    | raises e => rfl
    | crash => rfl
    | ok v =>
      dsimp only [Outcome.bind]
      cases Outcome.all (l.map g) <;> rfl

theorem data_alms_scale (c : ℝ) (f : FlatFieldObj) : (f.rescale c).data.alms = scaleCoef c f.data.alms := by
  unfold FlatFieldObj.rescale FlatFieldObj.data
  dsimp only
  rcases f.alms with _ | (_ | A)
  · funext X k; exact (mul_zero _).symm
  · funext X k; exact (mul_zero _).symm
  · rfl

theorem of_scale (k : ℝ) (n m : ℕ) (f : ℕ → ℕ → ℝ) : Arr2.of n m (fun i j => k * f i j) = (Arr2.of n m f).scale k := by
  unfold Arr2.of Arr2.scale
  rw [tab2_scale]

theorem coupledC_scale (x y : ℝ) (f1 f2 : FlatFieldObj) (b : FlatBins ℝ) (c : EllCuts) (rows : ℕ) :
    coupledCellFlatC (f1.rescale x).data (f2.rescale y).data b c rows =
      (coupledCellFlatC f1.data f2.data b c rows).bind fun s => .ok (s.scale (x * y)) := by
  unfold coupledCellFlatC
  by_cases hm : f1.data.maskOnly ∨ f2.data.maskOnly
  · rw [if_pos hm, if_pos (show (f1.rescale x).data.maskOnly ∨ (f2.rescale y).data.maskOnly from hm)]; rfl
  rw [if_neg hm, if_neg (show ¬ ((f1.rescale x).data.maskOnly ∨ (f2.rescale y).data.maskOnly) from hm)]
  by_cases h : f1.data.fs ≠ f2.data.fs
  · rw [if_pos h, if_pos (show (f1.rescale x).data.fs ≠ (f2.rescale y).data.fs from h)]; rfl
  rw [if_neg h, if_neg (show ¬ (f1.rescale x).data.fs ≠ (f2.rescale y).data.fs from h)]
  unfold fsAlm2clAll
  rw [data_alms_scale, data_alms_scale]
  simp only [show (f1.rescale x).data.nmaps = f1.data.nmaps from rfl, show (f2.rescale y).data.nmaps = f2.data.nmaps from rfl,
    show (f1.rescale x).data.fs = f1.data.fs from rfl, fsAlm2cl_scale]
  by_cases hr : rows < f1.data.nmaps * f2.data.nmaps
  · rw [if_pos hr, if_pos hr]; rfl
  rw [if_neg hr, if_neg hr, all_map_scale (fun v ib => x * y * v ib)]
  cases Outcome.all ((List.range (f1.data.nmaps * f2.data.nmaps)).map fun i =>
      fsAlm2cl f1.data.fs b c (f1.data.alms (i / f2.data.nmaps)) (f2.data.alms (i % f2.data.nmaps))) with
  | raises e => rfl
  | crash => rfl
  | ok cls =>
    dsimp only [Outcome.bind]
    rw [← of_scale]
    congr 2
    funext i ib
    by_cases hi : i < cls.length
    · rw [List.getD_eq_getElem _ _ (by simpa using hi), List.getD_eq_getElem _ _ hi, List.getElem_map]
    · rw [List.getD_eq_default _ _ (by simpa using hi), List.getD_eq_default _ _ (by simpa using hi), mul_zero]

theorem coupled_scale_flat (x y : ℝ) (f1 f2 : FlatFieldObj) (b : FlatBins ℝ) (c : EllCuts) :
    coupledCellFlat (f1.rescale x).data (f2.rescale y).data b c = (coupledCellFlat f1.data f2.data b c).bind fun s => .ok (s.scale (x * y)) := by
  unfold coupledCellFlat
  rw [coupledC_scale]
  by_cases h1 : f1.data.fs.nx ≠ f2.data.fs.nx ∨ f1.data.fs.ny ≠ f2.data.fs.ny
  · rw [if_pos h1, if_pos (show (f1.rescale x).data.fs.nx ≠ (f2.rescale y).data.fs.nx ∨ (f1.rescale x).data.fs.ny ≠ (f2.rescale y).data.fs.ny from h1)]; rfl
  rw [if_neg h1, if_neg (show ¬ ((f1.rescale x).data.fs.nx ≠ (f2.rescale y).data.fs.nx ∨ (f1.rescale x).data.fs.ny ≠ (f2.rescale y).data.fs.ny) from h1)]
  by_cases h2 : f1.data.fs.lx ≠ f2.data.fs.lx ∨ f1.data.fs.ly ≠ f2.data.fs.ly
  · rw [if_pos h2, if_pos (show (f1.rescale x).data.fs.lx ≠ (f2.rescale y).data.fs.lx ∨ (f1.rescale x).data.fs.ly ≠ (f2.rescale y).data.fs.ly from h2)]; rfl
  rw [if_neg h2, if_neg (show ¬ ((f1.rescale x).data.fs.lx ≠ (f2.rescale y).data.fs.lx ∨ (f1.rescale x).data.fs.ly ≠ (f2.rescale y).data.fs.ly) from h2)]
  rfl

/-! ## Deprojection bias -/

theorem purifyGeneric_scale (h : env.Homogeneous) (x y : ℝ) (f : FlatFieldObj) (m : FlatMaps) :
    purifyGenericFlat env (f.rescale x) (scaleMaps y m) = scaleCoef (x * y) (purifyGenericFlat env f m) := by
  unfold purifyGenericFlat
  by_cases hp : f.base.pureB ≠ 0 ∨ f.base.pureE ≠ 0
  · rw [if_pos hp, if_pos (show (f.rescale x).base.pureB ≠ 0 ∨ (f.rescale x).base.pureE ≠ 0 from hp)]
    have : ((f.rescale x).aMask.getD fun _ => 0) = fun k => (x : ℂ) * (f.aMask.getD fun _ => 0) k := by
      unfold FlatFieldObj.rescale
      dsimp only
      cases f.aMask with
      | none => exact funext fun k => (mul_zero _).symm
      | some w => rfl
    rw [this]
    exact purifyFlatAlms_scale h f.base.fs _ _ x y f.base.mask _ m
  · rw [if_neg hp, if_neg (show ¬ ((f.rescale x).base.pureB ≠ 0 ∨ (f.rescale x).base.pureE ≠ 0) from hp)]
    rw [show (fun c p => scaleMaps y m c p * (f.rescale x).base.mask p) = scaleMaps (x * y) fun c p => m c p * f.base.mask p from by
      funext c p
      change y * m c p * (x * f.base.mask p) = x * y * (m c p * f.base.mask p)
      ring]
    exact fsMap2alm_scale _ _ _ _

theorem mix_scale (fs : FlatInfo) (n : ℕ) (G : ℕ → ℕ → ℝ → ℝ) (x : ℝ) (a : FlatAlms) : mixFlat fs n G (scaleCoef x a) = scaleCoef x (mixFlat fs n G a) := by
  funext d k
  unfold mixFlat scaleCoef
  rw [mul_sum]
  exact sum_congr rfl fun c _ => mul_assoc _ _ _

theorem flat_biasMap_scale (h : env.Homogeneous) (x y : ℝ) (f k : FlatFieldObj) (G : ℕ → ℕ → ℝ → ℝ) (t : FlatMaps) :
    biasMapFlat env (f.rescale x) (k.rescale y) G (scaleMaps x t) = scaleMaps (x * x) (biasMapFlat env f k G t) := by
  unfold biasMapFlat
  rw [show (fun c p => scaleMaps x t c p * (f.rescale x).base.mask p) = scaleMaps (x * x) fun c p => t c p * f.base.mask p from by
    funext c p
    change x * t c p * (x * f.base.mask p) = x * x * (t c p * f.base.mask p)
    ring]
  rw [fsMap2alm_scale, mix_scale, fsAlm2map_scale h]
  rfl

theorem flat_biasSums_scale (h : env.Homogeneous) {x y : ℝ} (hx : 0 < x) (hy : 0 < y) (f1 f2 : FlatFieldObj) (rows : List (List ℤ))
    (G : ℕ → ℕ → ℝ → ℝ) (M1 M2 : ℕ → ℕ → ℝ) (c d ib : ℕ) :
    biasFlatSums env (f1.rescale x) (f2.rescale y) rows G (fun i j => M1 i j / (x * x)) (fun i j => M2 i j / (y * y)) c d ib =
      x * y * biasFlatSums env f1 f2 rows G M1 M2 c d ib := by
  have ht : ∀ (z : ℝ) (f : FlatFieldObj), ((f.rescale z).temp.getD fun _ _ _ => 0) = fun i => scaleMaps z ((f.temp.getD fun _ _ _ => 0) i) := by
    intro z f
    unfold FlatFieldObj.rescale
    dsimp only
    cases f.temp with
    | none => funext i c p; simp [scaleMaps]
    | some T => rfl
  have ha : ∀ (z : ℝ) (f : FlatFieldObj), ((f.rescale z).aTemp.getD fun _ _ _ => 0) = fun i => scaleCoef z ((f.aTemp.getD fun _ _ _ => 0) i) := by
    intro z f
    unfold FlatFieldObj.rescale
    dsimp only
    cases f.aTemp with
    | none => funext i X k; exact (mul_zero _).symm
    | some T => rfl
  have hd : ∀ a b : FlatMaps, f1.base.fs.dot f1.nmaps (fun c p => scaleMaps (y * y) a c p * (f1.rescale x).base.mask p) (scaleMaps x b) =
      x * x * (y * y) * f1.base.fs.dot f1.nmaps (fun c p => a c p * f1.base.mask p) b := by
    intro a b
    rw [show (fun c p => scaleMaps (y * y) a c p * (f1.rescale x).base.mask p) = scaleMaps (y * y * x) fun c p => a c p * f1.base.mask p from by
      funext c p
      change y * y * a c p * (x * f1.base.mask p) = y * y * x * (a c p * f1.base.mask p)
      ring, flat_dot_scale]
    ring
  unfold biasFlatSums
  simp only [ht, ha, flat_biasMap_scale h, purifyGeneric_scale h, show (f1.rescale x).base.fs = f1.base.fs from rfl,
    show (f1.rescale x).nmaps = f1.nmaps from rfl, show (f1.rescale x).ntemp = f1.ntemp from rfl, show (f2.rescale y).ntemp = f2.ntemp from rfl,
    clBand_scale, hd]
  rw [mul_add, mul_sub, mul_sub, mul_zero]
  simp only [mul_sum]
  congr 1
  · congr 1
    · congr 1
      refine sum_congr rfl fun i _ => sum_congr rfl fun j _ => ?_
      field_simp
    · refine sum_congr rfl fun i _ => sum_congr rfl fun j _ => ?_
      field_simp
  · refine sum_congr rfl fun i _ => sum_congr rfl fun p _ => sum_congr rfl fun j _ => sum_congr rfl fun q _ => ?_
    field_simp

theorem biasC_scale (h : env.Homogeneous) {x y : ℝ} (hx : 0 < x) (hy : 0 < y) (f1 f2 : FlatFieldObj) (b : FlatBins ℝ) (c : EllCuts) (ells : List ℝ)
    (guess : ℕ → ℕ → ℝ) (rows : ℕ) : deprojBiasFlatObjC env (f1.rescale x) (f2.rescale y) b c ells guess rows =
      (deprojBiasFlatObjC env f1 f2 b c ells guess rows).bind fun s => .ok (s.map (Arr2.scale (x * y))) := by
  unfold deprojBiasFlatObjC
  simp only [show (f1.rescale x).lite = f1.lite from rfl, show (f2.rescale y).lite = f2.lite from rfl, show (f1.rescale x).nmaps = f1.nmaps from rfl,
    show (f2.rescale y).nmaps = f2.nmaps from rfl, show (f1.rescale x).base.fs = f1.base.fs from rfl, show (f2.rescale y).base.fs = f2.base.fs from rfl,
    show (f1.rescale x).ntemp = f1.ntemp from rfl, show (f2.rescale y).ntemp = f2.ntemp from rfl]
  by_cases h1 : f1.lite = true ∨ f2.lite = true
  · rw [if_pos h1, if_pos h1]; rfl
  rw [if_neg h1, if_neg h1]
  by_cases h2 : ¬ (2 ≤ ells.length ∧ ells.Pairwise (· < ·))
  · rw [if_pos h2, if_pos h2]; rfl
  rw [if_neg h2, if_neg h2]
  by_cases h3 : rows < f1.nmaps * f2.nmaps
  · rw [if_pos h3, if_pos h3]; rfl
  rw [if_neg h3, if_neg h3]
  by_cases h4 : f1.base.fs ≠ f2.base.fs
  · rw [if_pos (show (f1.rescale x).base.fs ≠ (f2.rescale y).base.fs from h4), if_pos h4]; rfl
  rw [if_neg (show ¬ (f1.rescale x).base.fs ≠ (f2.rescale y).base.fs from h4), if_neg h4]
  by_cases h5 : f1.ntemp = 0 ∧ f2.ntemp = 0
  · rw [if_pos h5, if_pos h5]
    simp only [Outcome.bind, Option.map_some, ← of_scale, mul_zero]
  rw [if_neg h5, if_neg h5]
  have hM : ∀ (z : ℝ) (f : FlatFieldObj), (f.rescale z).matrixM.getD (some fun _ _ => 0) =
      (f.matrixM.getD (some fun _ _ => 0)).map fun M i j => M i j / (z * z) := by
    intro z f
    unfold FlatFieldObj.rescale
    dsimp only
    cases f.matrixM with
    | none => simp
    | some M => rfl
  cases Outcome.all ((List.range f1.base.fs.ny).map fun iy => alm2clBands f1.base.fs b c iy) with
  | raises e => rfl
  | crash => rfl
  | ok tbl =>
    dsimp only [Outcome.bind]
    rw [hM, hM]
    cases f1.matrixM.getD (some fun _ _ => 0) with
    | none => rfl
    | some M1 =>
      cases f2.matrixM.getD (some fun _ _ => 0) with
      | none => rfl
      | some M2 =>
        simp only [Option.map_some, flat_biasSums_scale h hx hy, ← of_scale, mul_ite, mul_zero]

theorem bias_scale_flat (h : env.Homogeneous) {x y : ℝ} (hx : 0 < x) (hy : 0 < y) (f1 f2 : FlatFieldObj) (b : FlatBins ℝ) (c : EllCuts) (ells : List ℝ)
    (guess : Arr2 ℝ) : deprojBiasFlatObj env (f1.rescale x) (f2.rescale y) b c ells guess =
      (deprojBiasFlatObj env f1 f2 b c ells guess).bind fun s => .ok (s.map (Arr2.scale (x * y))) := by
  unfold deprojBiasFlatObj
  rw [biasC_scale h hx hy]
  simp only [show (f1.rescale x).nmaps = f1.nmaps from rfl, show (f2.rescale y).nmaps = f2.nmaps from rfl]
  by_cases h1 : guess.rows ≠ f1.nmaps * f2.nmaps
  · rw [if_pos h1, if_pos h1]; rfl
  rw [if_neg h1, if_neg h1]
  by_cases h2 : guess.cols ≠ ells.length
  · rw [if_pos h2, if_pos h2]; rfl
  rw [if_neg h2, if_neg h2]

theorem deprojOf_scale (h : env.Homogeneous) {x y : ℝ} (hx : 0 < x) (hy : 0 < y) (f1 f2 : FlatFieldObj) (d1 d2 e1 e2 : FlatFieldData) (b : FlatBins ℝ)
    (c : EllCuts) (ells : List ℝ) (guess : ℕ → ℕ → ℝ) (i ib : ℕ) : deprojOf env (f1.rescale x) (f2.rescale y) d1 d2 b c ells guess i ib =
      x * y * deprojOf env f1 f2 e1 e2 b c ells guess i ib := by
  unfold deprojOf
  rw [biasC_scale h hx hy]
  change (match Outcome.bind (deprojBiasFlatObjC env f1 f2 b c ells guess (f1.nmaps * f2.nmaps)) _ with
    | .ok (some x) => (x : Arr2 ℝ).val i ib
    | _ => 0) = _
  cases deprojBiasFlatObjC env f1 f2 b c ells guess (f1.nmaps * f2.nmaps) with
  | raises e => exact (mul_zero _).symm
  | crash => exact (mul_zero _).symm
  | ok o =>
    cases o with
    | none => exact (mul_zero _).symm
    | some x => rfl

/-! ## Bandpowers -/

theorem decoupleFlat_scale {L : LinAlg ℝ} (hL : L.Correct) {w : WspFlat} (hreg : Regular (w.ncls * w.bin.nBands) w.gslMatrix) {k : ℝ} (hk : k ≠ 0)
    (cl noise bias : Arr2 ℝ) (rows : ℕ) :
    decoupleFlatC L (w.rescale k) (cl.scale k) (noise.scale k) (bias.scale k) rows = decoupleFlatC L w cl noise bias rows := by
  unfold decoupleFlatC
  by_cases h : cl.rows < w.ncls ∨ noise.rows < w.ncls ∨ bias.rows < w.ncls ∨ rows < w.ncls
  · rw [if_pos h]
    exact if_pos h
  rw [if_neg h]
  refine (if_neg h).trans ?_
  congr 1
  unfold Arr2.of
  simp only [show (w.rescale k).ncls = w.ncls from rfl, show (w.rescale k).bin = w.bin from rfl]
  congr 1
  funext icl ib
  unfold tab2
  by_cases hi : icl < rows ∧ ib < w.bin.nBands
  · rw [if_pos hi, if_pos hi]
    dsimp only
    by_cases hc : icl < w.ncls
    · rw [if_pos hc, if_pos hc]
      refine solve_scale hL hreg hk (fun i hi => ?_) ?_
      · have hpos : 0 < w.ncls := by omega
        have h1 : i % w.ncls < w.ncls := Nat.mod_lt _ hpos
        have h2 : i / w.ncls < w.bin.nBands := Nat.div_lt_of_lt_mul hi
        have e : i = w.ncls * (i / w.ncls) + i % w.ncls := (Nat.div_add_mod _ _).symm
        rw [e, flatInput_apply w _ _ _ h1 h2]
        refine (flatInput_apply (w.rescale k) _ _ _ h1 h2).trans ?_
        change k * _ - k * _ - k * _ = _
        ring
      · calc w.ncls * ib + icl < w.ncls * ib + w.ncls := by omega
          _ = w.ncls * (ib + 1) := by ring
          _ ≤ w.ncls * w.bin.nBands := Nat.mul_le_mul_left _ hi.2
    · rw [if_neg hc, if_neg hc]
  · rw [if_neg hi, if_neg hi]

/-- **C99**, fields: when the mask is multiplied by a positive number (and with it maps and templates that are masked already), the constructor does what it
did before; the contents of the field are multiplied. -/
theorem C99_field (h : env.Homogeneous) (hE : env.eig.Correct) {c : ℝ} (hc : 0 < c) (a : FlatFieldArgs) :
    nmtFieldFlat env (a.rescale c) = (nmtFieldFlat env a).bind fun f => .ok (f.rescale c) :=
  nmtFieldFlat_scale h hE hc a

/-- **C99**: pseudo-spectra, deprojection bias and the matrices of workspaces are multiplied by both numbers. -/
theorem C99_spectra (h : env.Homogeneous) (hE : env.eig.Correct) {c1 c2 : ℝ} (hc1 : 0 < c1) (hc2 : 0 < c2) {a1 a2 : FlatFieldArgs} {f1 f2 : FlatFieldObj}
    (hf1 : nmtFieldFlat env a1 = .ok f1) (hf2 : nmtFieldFlat env a2 = .ok f2) (b : FlatBins ℝ) (c : EllCuts) (isTeb : Bool) (ells : List ℝ)
    (guess : Arr2 ℝ) :
    ∃ g1 g2, nmtFieldFlat env (a1.rescale c1) = .ok g1 ∧ nmtFieldFlat env (a2.rescale c2) = .ok g2 ∧
      coupledCellFlat g1.data g2.data b c = (coupledCellFlat f1.data f2.data b c).bind (fun s => .ok (s.scale (c1 * c2))) ∧
      deprojBiasFlatObj env g1 g2 b c ells guess = (deprojBiasFlatObj env f1 f2 b c ells guess).bind (fun s => .ok (s.map (Arr2.scale (c1 * c2)))) ∧
      couplingFlat g1.base g2.base b c isTeb = (couplingFlat f1.base f2.base b c isTeb).bind fun w => .ok (w.rescale (c1 * c2)) := by
  refine ⟨f1.rescale c1, f2.rescale c2, ?_, ?_, coupled_scale_flat _ _ _ _ _ _, bias_scale_flat h hc1 hc2 _ _ _ _ _ _, coupling_scale _ _ _ _ _ _ _⟩
  · rw [nmtFieldFlat_scale h hE hc1, hf1]; rfl
  · rw [nmtFieldFlat_scale h hE hc2, hf2]; rfl

open Classical in
/-- **C99**: the bandpowers of `compute_full_master_flat` do not change, with templates or without, purified or not. A noise pseudo-spectrum has to be
multiplied by both numbers, and so does a workspace (that of the fields with the new masks, `C99_spectra`). The binned coupling matrix can be inverted, if there is
one. -/
theorem C99_bandpowers {L : LinAlg ℝ} (hL : L.Correct) (h : env.Homogeneous) (hE : env.eig.Correct) {c1 c2 : ℝ} (hc1 : 0 < c1) (hc2 : 0 < c2)
    {a1 a2 : FlatFieldArgs} {f1 f2 : FlatFieldObj} (hf1 : nmtFieldFlat env a1 = .ok f1) (hf2 : nmtFieldFlat env a2 = .ok f2) (b : FlatBins ℝ) (c : EllCuts)
    (noise : Option (Arr2 ℝ)) (guess : Option (Arr2 ℝ × Option (List ℝ))) (workspace : Option (Option WspFlat))
    (hreg : ∀ w, pickWspFlat f1.data f2.data b c (workspace.bind id) = .ok w → Regular (w.ncls * w.bin.nBands) w.gslMatrix) :
    ∃ g1 g2, nmtFieldFlat env (a1.rescale c1) = .ok g1 ∧ nmtFieldFlat env (a2.rescale c2) = .ok g2 ∧
      fullMasterFlat L (deprojOf env g1 g2) g1.data g2.data b c (noise.map (Arr2.scale (c1 * c2))) guess
          (workspace.map (Option.map (WspFlat.rescale (c1 * c2)))) =
        fullMasterFlat L (deprojOf env f1 f2) f1.data f2.data b c noise guess workspace := by
  refine ⟨f1.rescale c1, f2.rescale c2, ?_, ?_, ?_⟩
  · rw [nmtFieldFlat_scale h hE hc1, hf1]; rfl
  · rw [nmtFieldFlat_scale h hE hc2, hf2]; rfl
  have hk : c1 * c2 ≠ 0 := (mul_pos hc1 hc2).ne'
  have hws : (workspace.map (Option.map (WspFlat.rescale (c1 * c2)))).bind id = (workspace.bind id).map (WspFlat.rescale (c1 * c2)) := by
    rcases workspace with _ | (_ | w) <;> rfl
  have hp : pickWspFlat (f1.rescale c1).data (f2.rescale c2).data b c ((workspace.bind id).map (WspFlat.rescale (c1 * c2))) =
      (pickWspFlat f1.data f2.data b c (workspace.bind id)).bind fun w => .ok (w.rescale (c1 * c2)) := by
    cases workspace.bind id with
    | none => exact coupling_scale c1 c2 f1.base f2.base b c false
    | some w =>
      unfold pickWspFlat
      simp only [Option.map_some]
      change (if f1.data.fs ≠ w.fs ∨ f2.data.fs ≠ w.fs then _ else if b.nBands ≠ w.bin.nBands then _ else _) = _
      by_cases h1 : f1.data.fs ≠ w.fs ∨ f2.data.fs ≠ w.fs
      · rw [if_pos h1, if_pos h1]; rfl
      rw [if_neg h1, if_neg h1]
      by_cases h2 : b.nBands ≠ w.bin.nBands
      · rw [if_pos h2, if_pos h2]; rfl
      rw [if_neg h2, if_neg h2]
      rfl
  have hb : ∀ ells gs rows, deprojBiasFlatC (deprojOf env (f1.rescale c1) (f2.rescale c2)) (f1.rescale c1).data (f2.rescale c2).data b c ells gs rows =
      (deprojBiasFlatC (deprojOf env f1 f2) f1.data f2.data b c ells gs rows).bind fun s => .ok (s.scale (c1 * c2)) := by
    intro ells gs rows
    unfold deprojBiasFlatC
    simp only [deprojOf_scale h hc1 hc2 f1 f2 _ _ f1.data f2.data]
    change (if f1.data.lite = true ∨ f2.data.lite = true then _ else if ¬ (2 ≤ ells.length ∧ ells.Pairwise (· < ·)) then _
      else if rows < f1.data.nmaps * f2.data.nmaps then _ else if f1.data.fs ≠ f2.data.fs then _ else Outcome.ok (Arr2.of rows b.nBands fun i ib =>
        if i < f1.data.nmaps * f2.data.nmaps then (if f1.data.ntemp = 0 ∧ f2.data.ntemp = 0 then 0
          else c1 * c2 * deprojOf env f1 f2 f1.data f2.data b c ells gs i ib) else 0)) = _
    by_cases h1 : f1.data.lite = true ∨ f2.data.lite = true
    · rw [if_pos h1, if_pos h1]; rfl
    rw [if_neg h1, if_neg h1]
    by_cases h2 : ¬ (2 ≤ ells.length ∧ ells.Pairwise (· < ·))
    · rw [if_pos h2, if_pos h2]; rfl
    rw [if_neg h2, if_neg h2]
    by_cases h3 : rows < f1.data.nmaps * f2.data.nmaps
    · rw [if_pos h3, if_pos h3]; rfl
    rw [if_neg h3, if_neg h3]
    by_cases h4 : f1.data.fs ≠ f2.data.fs
    · rw [if_pos h4, if_pos h4]; rfl
    rw [if_neg h4, if_neg h4]
    simp only [Outcome.bind, ← of_scale, mul_ite, mul_zero]
  have hpow : ∀ (cln : Arr2 ℝ) ells gs rows, powerSpectraFlatC L (deprojOf env (f1.rescale c1) (f2.rescale c2)) (f1.rescale c1).data (f2.rescale c2).data b c
      ((workspace.bind id).map (WspFlat.rescale (c1 * c2))) (cln.scale (c1 * c2)) ells gs rows =
      powerSpectraFlatC L (deprojOf env f1 f2) f1.data f2.data b c (workspace.bind id) cln ells gs rows := by
    intro cln ells gs rows
    unfold powerSpectraFlatC
    rw [hp]
    cases hw : pickWspFlat f1.data f2.data b c (workspace.bind id) with
    | raises e => rfl
    | crash => rfl
    | ok w =>
      simp only [Outcome.bind, hb, coupledC_scale]
      change Outcome.bind (Outcome.bind (coupledCellFlatC f1.data f2.data b c w.ncls) _) _ = Outcome.bind (coupledCellFlatC f1.data f2.data b c w.ncls) _
      cases coupledCellFlatC f1.data f2.data b c w.ncls with
      | raises e => rfl
      | crash => rfl
      | ok cl =>
        change Outcome.bind (Outcome.bind (deprojBiasFlatC (deprojOf env f1 f2) f1.data f2.data b c ells gs w.ncls) _) _ =
          Outcome.bind (deprojBiasFlatC (deprojOf env f1 f2) f1.data f2.data b c ells gs w.ncls) _
        cases deprojBiasFlatC (deprojOf env f1 f2) f1.data f2.data b c ells gs w.ncls with
        | raises e => rfl
        | crash => rfl
        | ok bias => exact decoupleFlat_scale hL (hreg w hw) hk cl cln bias rows
  have en : (noise.map (Arr2.scale (c1 * c2))).getD ⟨f1.data.nmaps * f2.data.nmaps, b.nBands, fun _ _ => 0⟩ =
      (noise.getD ⟨f1.data.nmaps * f2.data.nmaps, b.nBands, fun _ _ => 0⟩).scale (c1 * c2) := by
    cases noise with
    | none => simp [Arr2.scale]
    | some x => rfl
  have ea : (noise.map (Arr2.scale (c1 * c2))).any (fun a => a.rows ≠ f1.data.nmaps * f2.data.nmaps ∨ a.cols ≠ b.nBands) =
      noise.any (fun a => a.rows ≠ f1.data.nmaps * f2.data.nmaps ∨ a.cols ≠ b.nBands) := by cases noise <;> rfl
  unfold fullMasterFlat
  simp only [show (f1.rescale c1).data.nmaps = f1.data.nmaps from rfl, show (f2.rescale c2).data.nmaps = f2.data.nmaps from rfl,
    show (f1.rescale c1).data.fs = f1.data.fs from rfl, show (f2.rescale c2).data.fs = f2.data.fs from rfl, hws, en, ea, hpow]
  rfl

/-! ## Covariances -/

theorem covXi_scale (fs : FlatInfo) (n : ℕ) (rows : List (List ℤ)) (k : ℝ) (clm : ℕ × ℕ → ℝ) :
    covXiFlat fs n rows (fun q => k * clm q) = (covXiFlat fs n rows clm).rescale k := by
  have e : ∀ w, covXiSum fs rows (fun q => k * clm q) w = fun i j => k * covXiSum fs rows clm w i j := by
    intro w
    funext i j
    unfold covXiSum
    simp only [mul_assoc, ← mul_sum]
  unfold covXiFlat CovXi.rescale
  simp only [e, tab2_scale]

theorem covInit_scale_flat (x y z t : ℝ) (a1 a2 : FlatField) (ba : FlatBins ℝ) (b1 b2 : FlatField) (bb : Option (FlatBins ℝ)) :
    covInitFlat (a1.rescale x) (a2.rescale y) ba (some (b1.rescale z)) (some (b2.rescale t)) bb =
      (covInitFlat a1 a2 ba (some b1) (some b2) bb).bind fun cw => .ok (cw.rescale (x * y * (z * t))) := by
  have hm : ∀ (x1 x2 x3 x4 : ℝ) (m1 m2 m3 m4 : ℕ × ℕ → ℝ), covMaskProd a1.fs (fun p => x1 * m1 p) (fun p => x2 * m2 p) (fun p => x3 * m3 p)
      (fun p => x4 * m4 p) = fun q => x1 * x2 * (x3 * x4) * covMaskProd a1.fs m1 m2 m3 m4 q := by
    intro x1 x2 x3 x4 m1 m2 m3 m4
    unfold covMaskProd
    rw [show (fun p => x1 * m1 p * (x2 * m2 p)) = fun p => x1 * x2 * (m1 p * m2 p) from funext fun p => by ring,
      show (fun p => x3 * m3 p * (x4 * m4 p)) = fun p => x3 * x4 * (m3 p * m4 p) from funext fun p => by ring]
    exact maskprod_scale a1.fs _ _ _ _
  unfold covInitFlat
  simp only [Option.getD_some, show ∀ (r : ℝ) (f : FlatField), (f.rescale r).fs = f.fs from fun _ _ => rfl]
  by_cases h1 : a1.fs.nx ≠ a2.fs.nx ∨ a1.fs.ny ≠ a2.fs.ny ∨ a1.fs.nx ≠ b1.fs.nx ∨ a1.fs.ny ≠ b1.fs.ny ∨ a1.fs.nx ≠ b2.fs.nx ∨ a1.fs.ny ≠ b2.fs.ny
  · rw [if_pos h1, if_pos h1]; rfl
  rw [if_neg h1, if_neg h1]
  unfold covInitFlatC
  simp only [show ∀ (r : ℝ) (f : FlatField), (f.rescale r).fs = f.fs from fun _ _ => rfl]
  rw [if_neg h1, if_neg h1]
  by_cases h2 : ba.nBands ≠ (bb.getD ba).nBands
  · rw [if_pos h2, if_pos h2]; rfl
  rw [if_neg h2, if_neg h2]
  cases Outcome.all ((List.range a1.fs.ny).map fun iy => couplingBandsNocut a1.fs ba iy) with
  | raises e => rfl
  | crash => rfl
  | ok rows =>
    dsimp only [Outcome.bind]
    by_cases h3 : ∃ ib1 < ba.nBands, ∃ ib2 < ba.nBands, 2 ^ 31 ≤ nCells a1.fs rows ib1 * nCells a1.fs rows ib2
    · rw [if_pos h3, if_pos h3]
    rw [if_neg h3, if_neg h3]
    simp only [show ∀ (r : ℝ) (f : FlatField), (f.rescale r).mask = fun p => r * f.mask p from fun _ _ => rfl, hm, covXi_scale]
    unfold CovWspFlat.rescale
    rw [show x * z * (y * t) = x * y * (z * t) by ring, show x * t * (y * z) = x * y * (z * t) by ring]

theorem flatBinned_scale (junk : ℕ × ℕ → ℝ) (cw : CovWspFlat) (m : Maps) {na nb : ℕ} (s : CovCls ℝ) (hna : na = m.a * m.b) (hnb : nb = m.c * m.d)
    (h0 : 0 < m.a ∧ 0 < m.b ∧ 0 < m.c ∧ 0 < m.d) (k : ℝ) :
    ∀ i < na * cw.bin.nBands, ∀ j < nb * cw.bin.nBands, flatBinned junk (cw.rescale k) m na nb s i j = k * flatBinned junk cw m na nb s i j := by
  refine binned_ext hna hnb h0 fun bA hA bB hB ia h1 ib h2 ic h3 id h4 => ?_
  rw [flatBinned_apply junk cw m s hna hnb h1 h2 h3 h4 hA hB]
  refine (flatBinned_apply junk (cw.rescale k) m s hna hnb h1 h2 h3 h4 hA hB).trans ?_
  exact covElement_scale ⟨cw.bin.nBands, false, cw.x1122, cw.x1221⟩ m s ia ib ic id bA bB 1 k

theorem gaussian_scale_flat {L : LinAlg ℝ} (hL : L.Correct) (j : CovJunk ℝ) (cw : CovWspFlat) (a1 a2 b1 b2 : ℤ) (larr : List ℝ) (s : CovCls ℝ)
    (wa wb : WspFlat) {x y : ℝ} (hx : x ≠ 0) (hy : y ≠ 0) (hA : Regular (wa.ncls * wa.bin.nBands) wa.gslMatrix)
    (hB : Regular (wb.ncls * wb.bin.nBands) wb.gslMatrix) :
    gaussianCovarianceFlat L j (some (cw.rescale (x * y))) a1 a2 b1 b2 larr s (some (wa.rescale x)) (some (some (wb.rescale y))) =
      gaussianCovarianceFlat L j (some cw) a1 a2 b1 b2 larr s (some wa) (some (some wb)) := by
  unfold gaussianCovarianceFlat
  simp only [Option.getD_some]
  change (if wa.ncls ≠ nmaps a1 * nmaps a2 ∨ wb.ncls ≠ nmaps b1 * nmaps b2 then _ else _) = _
  refine if_congr Iff.rfl rfl (if_congr Iff.rfl rfl (if_congr Iff.rfl rfl ?_))
  change Outcome.bind (argoutArray (wa.ncls * cw.bin.nBands * (wb.ncls * cw.bin.nBands))) _ = _
  congr 1
  funext _
  change Outcome.bind _ (fun z => Outcome.ok (reshapeFlat (wa.ncls * cw.bin.nBands) (wb.ncls * cw.bin.nBands) z)) = _
  congr 1
  unfold covFlatC
  dsimp only
  change (if wa.bin.nBands ≠ cw.bin.nBands ∨ wb.bin.nBands ≠ cw.bin.nBands then _ else if wa.ncls ≠ (Maps.ofSpins a1 a2 b1 b2).a * (Maps.ofSpins a1 a2 b1 b2).b ∨
    wb.ncls ≠ (Maps.ofSpins a1 a2 b1 b2).c * (Maps.ofSpins a1 a2 b1 b2).d then _ else _) = _
  by_cases g1 : wa.bin.nBands ≠ cw.bin.nBands ∨ wb.bin.nBands ≠ cw.bin.nBands
  · rw [if_pos g1, if_pos g1]
  rw [if_neg g1, if_neg g1]
  by_cases g2 : wa.ncls ≠ (Maps.ofSpins a1 a2 b1 b2).a * (Maps.ofSpins a1 a2 b1 b2).b ∨ wb.ncls ≠ (Maps.ofSpins a1 a2 b1 b2).c * (Maps.ofSpins a1 a2 b1 b2).d
  · rw [if_pos g2, if_pos g2]
  rw [if_neg g2, if_neg g2]
  push Not at g1 g2
  change Outcome.bind (binSpectraFlat cw.bin larr s.ac) _ = _
  congr 1
  funext ac
  change Outcome.bind (binSpectraFlat cw.bin larr s.ad) _ = _
  congr 1
  funext ad
  change Outcome.bind (binSpectraFlat cw.bin larr s.bc) _ = _
  congr 1
  funext bc
  change Outcome.bind (binSpectraFlat cw.bin larr s.bd) _ = _
  congr 1
  funext bd
  congr 2
  rw [g1.1] at hA
  rw [g1.2] at hB
  change ((List.range (wa.ncls * cw.bin.nBands)).flatMap fun ii => (List.range (wb.ncls * cw.bin.nBands)).map fun jj => (ii * (wb.ncls * cw.bin.nBands) + jj,
    ∑ k ∈ range (wa.ncls * cw.bin.nBands), L.invert (wa.ncls * cw.bin.nBands) (fun i j => x * wa.gslMatrix i j) ii k *
      ∑ k' ∈ range (wb.ncls * cw.bin.nBands), flatBinned j.mat (cw.rescale (x * y)) (Maps.ofSpins a1 a2 b1 b2) wa.ncls wb.ncls ⟨ac, ad, bc, bd⟩ k k' *
        L.invert (wb.ncls * cw.bin.nBands) (fun i j => y * wb.gslMatrix i j) jj k')) =
    ((List.range (wa.ncls * cw.bin.nBands)).flatMap fun ii => (List.range (wb.ncls * cw.bin.nBands)).map fun jj => (ii * (wb.ncls * cw.bin.nBands) + jj,
    ∑ k ∈ range (wa.ncls * cw.bin.nBands), L.invert (wa.ncls * cw.bin.nBands) wa.gslMatrix ii k *
      ∑ k' ∈ range (wb.ncls * cw.bin.nBands), flatBinned j.mat cw (Maps.ofSpins a1 a2 b1 b2) wa.ncls wb.ncls ⟨ac, ad, bc, bd⟩ k k' *
        L.invert (wb.ncls * cw.bin.nBands) wb.gslMatrix jj k'))
  rw [List.flatMap, List.flatMap]
  congr 1
  refine List.map_congr_left fun ii hi => ?_
  refine List.map_congr_left fun jj hj => ?_
  rw [List.mem_range] at hi hj
  congr 1
  refine sum_congr rfl fun k hk => ?_
  rw [mem_range] at hk
  rw [invert_scale hL hA hx hi hk, mul_sum, mul_sum]
  refine sum_congr rfl fun k' hk' => ?_
  rw [mem_range] at hk'
  rw [invert_scale hL hB hy hj hk', flatBinned_scale j.mat cw (Maps.ofSpins a1 a2 b1 b2) ⟨ac, ad, bc, bd⟩ g2.1 g2.2
    ⟨nmaps_pos _, nmaps_pos _, nmaps_pos _, nmaps_pos _⟩ (x * y) k hk k' hk']
  field_simp

/-- **C99**, covariances: Gaussian covariances do not change when the masks of the four fields are multiplied by numbers other than zero, if the binned coupling
matrices of both workspaces can be inverted. -/
theorem C99_covariance {L : LinAlg ℝ} (hL : L.Correct) {x y z t : ℝ} (hx : x ≠ 0) (hy : y ≠ 0) (hz : z ≠ 0) (ht : t ≠ 0) (a1 a2 b1 b2 : FlatField)
    (ba : FlatBins ℝ) (bb : Option (FlatBins ℝ)) {cw : CovWspFlat} (hcw : covInitFlat a1 a2 ba (some b1) (some b2) bb = .ok cw) {Ba Bb : FlatBins ℝ}
    {ca cb : EllCuts} {ta tb : Bool} {wa wb : WspFlat} (hwa : couplingFlat a1 a2 Ba ca ta = .ok wa) (hwb : couplingFlat b1 b2 Bb cb tb = .ok wb)
    (hA : Regular (wa.ncls * wa.bin.nBands) wa.gslMatrix) (hB : Regular (wb.ncls * wb.bin.nBands) wb.gslMatrix) :
    ∃ cw' wa' wb', covInitFlat (a1.rescale x) (a2.rescale y) ba (some (b1.rescale z)) (some (b2.rescale t)) bb = .ok cw' ∧
      couplingFlat (a1.rescale x) (a2.rescale y) Ba ca ta = .ok wa' ∧ couplingFlat (b1.rescale z) (b2.rescale t) Bb cb tb = .ok wb' ∧
      ∀ (j : CovJunk ℝ) (s1 s2 s3 s4 : ℤ) (larr : List ℝ) (s : CovCls ℝ),
        gaussianCovarianceFlat L j (some cw') s1 s2 s3 s4 larr s (some wa') (some (some wb')) =
          gaussianCovarianceFlat L j (some cw) s1 s2 s3 s4 larr s (some wa) (some (some wb)) := by
  refine ⟨cw.rescale (x * y * (z * t)), wa.rescale (x * y), wb.rescale (z * t), ?_, ?_, ?_, fun j s1 s2 s3 s4 larr s => ?_⟩
  · rw [covInit_scale_flat, hcw]; rfl
  · rw [coupling_scale, hwa]; rfl
  · rw [coupling_scale, hwb]; rfl
  · exact gaussian_scale_flat hL j cw s1 s2 s3 s4 larr s wa wb (mul_ne_zero hx hy) (mul_ne_zero hz ht) hA hB

end NaMaster
