import Verif.Field.NoiseBias
import Verif.Field.BiasExample

/-! # C60: a case, and two disagreements -/

namespace NaMaster

open Finset

/-! ## Spectra of different components -/

/-- Analysis with two pixels: the sum of each map. -/
noncomputable def pairA : MapStack →ₗ[ℝ] Alms where
  toFun m := fun c l k => if l = 0 ∧ k = 0 then ((m c 0 + m c 1 : ℝ) : ℂ) else 0
  map_add' x y := by
    funext c l k
    simp only [Pi.add_apply]
    split_ifs
    · push_cast; ring
    · simp
  map_smul' r x := by
    funext c l k
    simp only [Pi.smul_apply, smul_eq_mul, RingHom.id_apply, Complex.real_smul]
    split_ifs
    · push_cast; ring
    · simp

/-- Two pixels and transforms that see the mean of each map. -/
noncomputable def pairEnv : FieldEnv where
  pix := ⟨2, fun _ => 1⟩
  sht := ⟨fun _ _ => pairA, fun _ _ => (0 : Alms →ₗ[ℝ] MapStack), id, id⟩
  eig := ⟨fun _ M _ => M 0 0, fun _ _ _ _ => 1⟩
  inv := fun _ _ => none
  lmaxDefault := 1

/-- A template whose first component is constant and whose second component vanishes in the first pixel. -/
noncomputable def tiltTempl : MapStack := fun c p => if c = 0 then 1 else if p = 0 then 0 else 1

/-- A field with spin 2 and this template. -/
noncomputable def pairArgs : FieldArgs where
  mask := fun _ => 1
  mask22 := none
  mask12 := none
  maps := none
  spin := none
  templates := some ⟨1, 2, 2, fun _ => tiltTempl⟩
  beam := none
  purifyE := false
  purifyB := false
  nIter := 0
  nIterMask := 0
  tol := 1e-3
  lmax := none
  lmaxMask := none
  maskedOnInput := false
  lite := false

/-- Noise in the first pixel, in one of the two components. -/
def oneSide (ω : Bool) : MapStack := fun c p => if p = 0 ∧ c = ω.toNat then 2 else 0

/-- Its variance. -/
def oneSideVar : ℕ → ℝ := fun p => if p = 0 then 2 else 0

theorem oneSide_white (w : ℕ → ℝ) (np : ℕ) (h : w 0 = 1) : WhiteNoise coinMean ⟨np, w⟩ 2 oneSideVar oneSide := by
  intro c hc p _ c' hc' p' _
  have key : coinMean (fun ω => oneSide ω c p * oneSide ω c' p') = if p = 0 ∧ p' = 0 ∧ c = c' then 2 else 0 := by
    simp only [coinMean, LinearMap.coe_mk, AddHom.coe_mk, oneSide, Bool.toNat_true, Bool.toNat_false]
    by_cases hp : p = 0 <;> by_cases hp' : p' = 0 <;> interval_cases c <;> interval_cases c' <;> simp [hp, hp'] <;> norm_num
  rw [key]
  unfold oneSideVar
  by_cases hp : p = 0
  · subst hp
    by_cases hp' : p' = 0
    · subst hp'
      by_cases hcc : c = c' <;> simp [hcc, h]
    · have h2 : ¬ (0 = p') := fun e => hp' e.symm
      simp [hp', h2]
  · simp [hp]

theorem pair_field (v : MapStack) : ∃ f, nmtField pairEnv (pairArgs.withMaps 2 2 v) = .ok f ∧ f.iM ≠ some none := by
  unfold nmtField fieldChecks fieldMasks mapChecks fieldFinish deproject pinvh spectralInverse
  norm_num [pairArgs, pairEnv, Outcome.bind, pickSpin, baseObj, FieldArgs.withMaps, tab2, Pix.dot, tiltTempl, sum_range_succ, maxUpTo]
  exact Option.some_ne_none _

theorem pair_bare (v : MapStack) : ∃ f, nmtField pairEnv (pairArgs.bare.withMaps 2 2 v) = .ok f := by
  unfold nmtField fieldChecks fieldMasks mapChecks fieldFinish
  simp [pairArgs, pairEnv, Outcome.bind, pickSpin, baseObj, FieldArgs.withMaps, FieldArgs.bare]

theorem pair_bias (v : MapStack) (f : FieldObj) (h : nmtField pairEnv (pairArgs.withMaps 2 2 v) = .ok f) (B : Arr2 ℝ)
    (hB : uncorrNoiseBias pairEnv 0 f 2 oneSideVar = .ok (some B)) : B.val 1 0 ≠ B.val 2 0 := by
  unfold nmtField fieldChecks fieldMasks mapChecks fieldFinish deproject pinvh spectralInverse at h
  norm_num [pairArgs, pairEnv, Outcome.bind, pickSpin, baseObj, FieldArgs.withMaps, tab2, Pix.dot, tiltTempl, sum_range_succ, maxUpTo] at h
  subst h
  unfold uncorrNoiseBias at hB
  norm_num [pairEnv, Pix.dot, tiltTempl, sum_range_succ, Sht.map2alm, jacobi, pairA, oneSideVar, alm2cl] at hB
  subst hB
  norm_num [Arr2.of, tab2, applyMask]

/-- C60: the returned off-diagonal spectra are not the mean effect of template removal: for a field with spin 2, one template and noise in
one of two pixels, the EB component of the bias is not the difference of the means. -/
theorem C60_eb_wrong : ∃ (env : FieldEnv) (a : FieldArgs) (var : ℕ → ℝ) (n : Bool → MapStack) (f g : Bool → FieldObj) (B : Arr2 ℝ)
    (F G : Bool → Arr2 ℝ), env.sht.AnalysisLinear ∧ IsoCall a ∧ a.purifyE = false ∧ a.purifyB = false ∧
    WhiteNoise coinMean env.pix 2 var n ∧
    (∀ ω, nmtField env (a.withMaps 2 env.pix.npix (n ω)) = .ok (f ω)) ∧
    (∀ ω, nmtField env (a.bare.withMaps 2 env.pix.npix (n ω)) = .ok (g ω)) ∧
    (∀ ω, uncorrNoiseBias env a.nIter (f ω) env.pix.npix var = .ok (some B)) ∧
    (∀ ω, computeCoupledCell ((f ω).view env.sht (.healpix 1)) ((f ω).view env.sht (.healpix 1)) true = .ok (some (F ω))) ∧
    (∀ ω, computeCoupledCell ((g ω).view env.sht (.healpix 1)) ((g ω).view env.sht (.healpix 1)) true = .ok (some (G ω))) ∧
    coinMean (fun ω => (F ω).val 1 0) ≠ coinMean (fun ω => (G ω).val 1 0) + B.val 1 0 := by
  choose f hf hq using fun ω => pair_field (oneSide ω)
  choose g hg using fun ω => pair_bare (oneSide ω)
  have hi : IsoCall pairArgs := ⟨rfl, rfl, rfl, rfl, by norm_num [pairArgs]⟩
  have hlin : pairEnv.sht.AnalysisLinear := fun s l => ⟨pairA, 0, LinearMap.id, rfl, rfl, rfl⟩
  have hw : WhiteNoise coinMean pairEnv.pix 2 oneSideVar oneSide := oneSide_white _ _ rfl
  obtain ⟨B, F, G, h1, h2, h3, -, -, h4, -⟩ := C60_mean coinMean pairEnv hlin (.healpix 1) pairArgs hi rfl rfl 2 1 rfl oneSideVar oneSide f g
    hf hg hq hw true
  refine ⟨pairEnv, pairArgs, oneSideVar, oneSide, f, g, B, F, G, hlin, hi, rfl, rfl, hw, hf, hg, h1, h2, h3, fun he => ?_⟩
  have h5 := h4 0 (by norm_num) 1 (by norm_num) 0 (by norm_num)
  norm_num at h5
  rw [he] at h5
  refine pair_bias _ _ (hf true) B (h1 true) ?_
  linarith

/-! ## Purified fields -/

/-- Analysis with one pixel: the value of the map at `l = 2`. -/
noncomputable def quadA : MapStack →ₗ[ℝ] Alms where
  toFun m := fun c l k => if l = 2 ∧ k = 0 then ((m c 0 : ℝ) : ℂ) else 0
  map_add' x y := by
    funext c l k
    simp only [Pi.add_apply]
    split_ifs
    · push_cast; ring
    · simp
  map_smul' r x := by
    funext c l k
    simp only [Pi.smul_apply, smul_eq_mul, RingHom.id_apply, Complex.real_smul]
    split_ifs
    · push_cast; ring
    · simp

/-- The inverse of this analysis. -/
noncomputable def quadB : Alms →ₗ[ℝ] MapStack where
  toFun a := fun c p => if c < 2 ∧ p < 1 then (a c 2 0).re else 0
  map_add' x y := by
    funext c p
    simp only [Pi.add_apply]
    split_ifs <;> simp
  map_smul' r x := by
    funext c p
    simp only [Pi.smul_apply, smul_eq_mul, RingHom.id_apply]
    split_ifs <;> simp

/-- One pixel, and transforms that are trivial for spin 1. -/
noncomputable def quadEnv : FieldEnv where
  pix := ⟨1, fun _ => 1⟩
  sht := ⟨fun s _ => if s = 1 then (0 : MapStack →ₗ[ℝ] Alms) else quadA, fun s _ => if s = 1 then (0 : Alms →ₗ[ℝ] MapStack) else quadB, id, id⟩
  eig := ⟨fun _ M _ => M 0 0, fun _ _ _ _ => 1⟩
  inv := fun _ _ => none
  lmaxDefault := 2

/-- A field with spin 2 and B-mode purification, and a template in the second component. -/
noncomputable def quadArgs : FieldArgs where
  mask := fun _ => 1
  mask22 := none
  mask12 := none
  maps := none
  spin := none
  templates := some ⟨1, 2, 1, fun _ c _ => if c = 0 then 0 else 1⟩
  beam := none
  purifyE := false
  purifyB := true
  nIter := 0
  nIterMask := 0
  tol := 1e-3
  lmax := none
  lmaxMask := none
  maskedOnInput := false
  lite := false

theorem fl_unit : flMask1 2 * flMask2 2 * flPure2 2 = 1 := by
  unfold flMask1 flMask2 flPure2
  norm_num
  rw [show (24 : ℝ) = 6 * 4 by norm_num, Real.sqrt_mul (by norm_num)]
  have h6 : Real.sqrt 6 ≠ 0 := by positivity
  have h4 : Real.sqrt 4 ≠ 0 := by positivity
  field_simp

theorem quad_field (v : MapStack) : ∃ f, nmtField quadEnv (quadArgs.withMaps 2 1 v) = .ok f ∧ f.iM ≠ some none := by
  unfold nmtField fieldChecks fieldMasks mapChecks fieldFinish deproject pinvh spectralInverse purifyO purify
  norm_num [quadArgs, quadEnv, Outcome.bind, pickSpin, baseObj, FieldArgs.withMaps, tab2, Pix.dot, sum_range_succ, maxUpTo, purifyAll, purify]
  exact Option.some_ne_none _

theorem quad_bare (v : MapStack) : ∃ f, nmtField quadEnv (quadArgs.bare.withMaps 2 1 v) = .ok f := by
  unfold nmtField fieldChecks fieldMasks mapChecks fieldFinish purifyO purify
  simp [quadArgs, quadEnv, Outcome.bind, pickSpin, baseObj, FieldArgs.withMaps, FieldArgs.bare]

theorem quad_pop (f : FieldObj) (h1 : f.mask = fun _ => 1) (h2 : f.lmax = 2) (h3 : f.lmaxMask = 2) (h4 : f.nIterMask = 0)
    (h5 : f.pureE = false) (h6 : f.pureB = true) (m : MapStack) (k : ℕ) :
    pop quadEnv.sht 0 f m 1 2 k = if k = 0 then ((2 * m 1 0 : ℝ) : ℂ) else 0 := by
  have hfl : ((flMask1 2 : ℂ) * flMask2 2 * flPure2 2) = 1 := by
    rw [← Complex.ofReal_mul, ← Complex.ofReal_mul, fl_unit, Complex.ofReal_one]
  unfold pop purifyIfNeeded FieldObj.getMaskAlms maskAlms purify
  simp only [h1, h2, h3, h4, h5, h6, quadEnv, Outcome.bind, Sht.map2alm, Sht.alm2map, jacobi, id, almxfl, spinProduct, single]
  simp [quadA, quadB, single, spinProduct, almxfl]
  by_cases hk : k = 0
  · simp only [hk, if_true]
    have e : ((flPure2 2 : ℂ) * (flMask2 2 * flMask1 2 * m 1 0)) = (flMask1 2 * flMask2 2 * flPure2 2) * m 1 0 := by ring
    rw [e, hfl]
    ring
  · simp [hk]

theorem quad_val (x : ℕ → ℕ → ℝ) : (Arr2.of (2 * 2) (2 + 1) x).val 3 2 = x 3 2 := by
  norm_num [Arr2.of, tab2]

theorem quad_cl (x : ℝ) (a b : ℕ → ℕ → ℂ) (y : ℝ) (ha : ∀ k, a 2 k = if k = 0 then (x : ℂ) else 0) (hb : ∀ k, b 2 k = if k = 0 then (y : ℂ) else 0) :
    alm2cl a b 2 = x * y / 5 := by
  unfold alm2cl
  simp [sum_range_succ, ha, hb]
  norm_num

theorem quad_iM (v : MapStack) (f : FieldObj) (h : nmtField quadEnv (quadArgs.withMaps 2 1 v) = .ok f) :
    f.iM.getD (some fun _ _ => 0) = some (tab2 1 1 fun _ _ => 1) := by
  unfold nmtField fieldChecks fieldMasks mapChecks fieldFinish deproject pinvh spectralInverse purifyO purify at h
  norm_num [quadArgs, quadEnv, Outcome.bind, pickSpin, baseObj, FieldArgs.withMaps, tab2, Pix.dot, sum_range_succ, maxUpTo, purifyAll, purify] at h
  subst h
  rfl

/-- C60: for purified fields the returned bias is not the mean effect of template removal either, not even for the BB spectrum: the
coefficients of the templates multiplied by the noise variance are not purified. -/
theorem C60_pure_wrong : ∃ (env : FieldEnv) (a : FieldArgs) (var : ℕ → ℝ) (n : Bool → MapStack) (f g : Bool → FieldObj) (B : Arr2 ℝ)
    (F G : Bool → Arr2 ℝ), env.sht.AnalysisLinear ∧ IsoCall a ∧ a.purifyB = true ∧
    WhiteNoise coinMean env.pix 2 var n ∧
    (∀ ω, nmtField env (a.withMaps 2 env.pix.npix (n ω)) = .ok (f ω)) ∧
    (∀ ω, nmtField env (a.bare.withMaps 2 env.pix.npix (n ω)) = .ok (g ω)) ∧
    (∀ ω, uncorrNoiseBias env a.nIter (f ω) env.pix.npix var = .ok (some B)) ∧
    (∀ ω, computeCoupledCell ((f ω).view env.sht (.healpix 1)) ((f ω).view env.sht (.healpix 1)) true = .ok (some (F ω))) ∧
    (∀ ω, computeCoupledCell ((g ω).view env.sht (.healpix 1)) ((g ω).view env.sht (.healpix 1)) true = .ok (some (G ω))) ∧
    coinMean (fun ω => (F ω).val 3 2) ≠ coinMean (fun ω => (G ω).val 3 2) + B.val 3 2 := by
  choose f hf _ using fun ω => quad_field (oneSide ω)
  choose g hg using fun ω => quad_bare (oneSide ω)
  have hi : IsoCall quadArgs := ⟨rfl, rfl, rfl, rfl, by norm_num [quadArgs]⟩
  have hlin : quadEnv.sht.AnalysisLinear := by
    intro s l
    by_cases hs : s = 1
    · exact ⟨0, 0, LinearMap.id, by simp [quadEnv, hs], by simp [quadEnv, hs], rfl⟩
    · exact ⟨quadA, quadB, LinearMap.id, by simp [quadEnv, hs], by simp [quadEnv, hs], rfl⟩
  have hw : WhiteNoise coinMean quadEnv.pix 2 oneSideVar oneSide := oneSide_white _ _ rfl
  have kf := fun ω => field_is quadEnv quadArgs hi 2 1 (oneSide ω) (f ω) (hf ω)
  have kg := fun ω => field_is quadEnv quadArgs.bare hi.bare 2 1 (oneSide ω) (g ω) (hg ω)
  have pf : ∀ ω m k, pop quadEnv.sht 0 (f ω) m 1 2 k = if k = 0 then ((2 * m 1 0 : ℝ) : ℂ) else 0 := fun ω m k =>
    quad_pop _ (kf ω).mask (kf ω).lmax (kf ω).lmaxMask (kf ω).nIterMask (kf ω).pureE (kf ω).pureB m k
  have pg : ∀ ω m k, pop quadEnv.sht 0 (g ω) m 1 2 k = if k = 0 then ((2 * m 1 0 : ℝ) : ℂ) else 0 := fun ω m k =>
    quad_pop _ (kg ω).mask (kg ω).lmax (kg ω).lmaxMask (kg ω).nIterMask (kg ω).pureE (kg ω).pureB m k
  have af := fun ω => ((kf ω).alm _ (quad_iM _ _ (hf ω))).2
  have ag := fun ω => ((kg ω).alm (fun _ _ => 0) (by rw [(kg ω).iMdet]; rfl)).2
  have eT : ∀ ω, (f ω).temp.getD (fun _ _ _ => 0) = fun i c p => quadArgs.rawTempl 2 1 i c p * quadArgs.mask p := fun ω => (kf ω).temp
  have nmf : ∀ ω, (f ω).nmaps = 2 := fun ω => (kf ω).nmaps
  have nmg : ∀ ω, (g ω).nmaps = 2 := fun ω => (kg ω).nmaps
  have lf : ∀ ω, (f ω).lmax = 2 := fun ω => (kf ω).lmax
  have lg : ∀ ω, (g ω).lmax = 2 := fun ω => (kg ω).lmax
  have nt : ∀ ω, (f ω).nTemp = 1 := fun ω => (kf ω).nTemp
  -- the bias
  have hB : ∀ ω, ∃ B, uncorrNoiseBias quadEnv quadArgs.nIter (f ω) quadEnv.pix.npix oneSideVar = .ok (some B) ∧ B.val 3 2 = 0 := by
    intro ω
    unfold uncorrNoiseBias
    rw [(kf ω).lite, if_neg (by simp), if_neg (by simp), nt ω, if_neg (by norm_num), quad_iM _ _ (hf ω)]
    refine ⟨_, rfl, ?_⟩
    rw [nmf ω, lf ω]
    rw [quad_val]
    simp only [sum_range_one, eT]
    have e1 : ∀ k, (f ω).almTemp.getD (fun _ _ _ _ => 0) 0 1 2 k = if k = 0 then ((2 : ℝ) : ℂ) else 0 := by
      intro k
      rw [(kf ω).almTemp 0 (by change 0 < 1; norm_num)]
      change pop quadEnv.sht 0 (f ω) _ 1 2 k = _
      rw [pf ω]
      simp [FieldArgs.rawTempl, quadArgs, tab2]
    have hs : (f ω).spin = 2 := (kf ω).spin
    have e2 : ∀ k, quadEnv.sht.map2alm (f ω).spin 2 quadArgs.nIter (fun c p => quadArgs.rawTempl 2 1 0 c p * quadArgs.mask p *
        ((f ω).mask p ^ 2 * oneSideVar p)) 1 2 k = if k = 0 then ((2 : ℝ) : ℂ) else 0 := by
      intro k
      rw [hs, (kf ω).mask]
      simp [Sht.map2alm, quadEnv, quadArgs, jacobi, quadA, FieldArgs.rawTempl, tab2, oneSideVar]
    norm_num [-Complex.ofReal_ofNat]
    rw [quad_cl 2 _ _ 2 e1 e2, quad_cl 2 _ _ 2 e1 e1, (kf ω).mask]
    norm_num [quadEnv, Pix.dot, quadArgs, FieldArgs.rawTempl, tab2, oneSideVar, sum_range_succ]
  have hsame : ∀ ω, uncorrNoiseBias quadEnv quadArgs.nIter (f ω) quadEnv.pix.npix oneSideVar =
      uncorrNoiseBias quadEnv quadArgs.nIter (f true) quadEnv.pix.npix oneSideVar := by
    intro ω
    have hp : pop quadEnv.sht 0 (f ω) = pop quadEnv.sht 0 (f true) := FieldIs.same (kf true) (kf ω) rfl rfl rfl rfl rfl rfl 0
    have ha : (f ω).almTemp.getD (fun _ _ _ _ => 0) 0 = (f true).almTemp.getD (fun _ _ _ _ => 0) 0 := by
      rw [(kf ω).almTemp 0 (by change 0 < 1; norm_num), (kf true).almTemp 0 (by change 0 < 1; norm_num)]
      change pop quadEnv.sht 0 (f ω) _ = pop quadEnv.sht 0 (f true) _
      rw [hp]
    unfold uncorrNoiseBias
    simp only [(kf _).lite, nt, nmf, lf, eT, quad_iM _ _ (hf _), (kf _).mask, (kf _).spin, sum_range_one, ha]
  obtain ⟨B, hB1, hB2⟩ := hB true
  refine ⟨quadEnv, quadArgs, oneSideVar, oneSide, f, g, B, _, _, hlin, hi, rfl, hw, hf, hg, fun ω => (hsame ω).trans hB1,
    fun ω => coupled_fields quadEnv (.healpix 1) (f ω) (f ω) true rfl rfl _ _ (af ω) (af ω),
    fun ω => coupled_fields quadEnv (.healpix 1) (g ω) (g ω) true rfl rfl _ _ (ag ω) (ag ω), ?_⟩
  have eF : ∀ ω, (Arr2.of ((f ω).nmaps * (f ω).nmaps) ((f ω).lmax + 1) fun k l =>
      alm2cl (pop quadEnv.sht quadArgs.nIter (f ω) (fun c p => tab2 2 1 (oneSide ω) c p -
        ∑ i ∈ range quadArgs.nTempl, (∑ j ∈ range quadArgs.nTempl, tab2 1 1 (fun _ _ => 1) i j * quadEnv.pix.dot 2
          (fun c p => quadArgs.rawTempl 2 1 j c p * quadArgs.mask p) (fun c p => tab2 2 1 (oneSide ω) c p * quadArgs.mask p)) *
          quadArgs.rawTempl 2 1 i c p) (k / (f ω).nmaps))
        (pop quadEnv.sht quadArgs.nIter (f ω) (fun c p => tab2 2 1 (oneSide ω) c p -
        ∑ i ∈ range quadArgs.nTempl, (∑ j ∈ range quadArgs.nTempl, tab2 1 1 (fun _ _ => 1) i j * quadEnv.pix.dot 2
          (fun c p => quadArgs.rawTempl 2 1 j c p * quadArgs.mask p) (fun c p => tab2 2 1 (oneSide ω) c p * quadArgs.mask p)) *
          quadArgs.rawTempl 2 1 i c p) (k % (f ω).nmaps)) l).val 3 2 = 0 := by
    intro ω
    rw [nmf ω, lf ω]
    rw [quad_val]
    have hz : ∀ k, pop quadEnv.sht quadArgs.nIter (f ω) (fun c p => tab2 2 1 (oneSide ω) c p -
        ∑ i ∈ range quadArgs.nTempl, (∑ j ∈ range quadArgs.nTempl, tab2 1 1 (fun _ _ => 1) i j * quadEnv.pix.dot 2
          (fun c p => quadArgs.rawTempl 2 1 j c p * quadArgs.mask p) (fun c p => tab2 2 1 (oneSide ω) c p * quadArgs.mask p)) *
          quadArgs.rawTempl 2 1 i c p) 1 2 k = if k = 0 then ((0 : ℝ) : ℂ) else 0 := by
      intro k
      change pop quadEnv.sht 0 (f ω) _ 1 2 k = _
      rw [pf ω]
      congr 2
      simp [FieldArgs.nTempl, FieldArgs.rawTempl, quadArgs, quadEnv, Pix.dot, tab2, sum_range_succ]
    norm_num
    rw [quad_cl 0 _ _ 0 hz hz]
    norm_num
  have eG : ∀ ω, (Arr2.of ((g ω).nmaps * (g ω).nmaps) ((g ω).lmax + 1) fun k l =>
      alm2cl (pop quadEnv.sht quadArgs.bare.nIter (g ω) (fun c p => tab2 2 1 (oneSide ω) c p -
        ∑ i ∈ range quadArgs.bare.nTempl, (∑ j ∈ range quadArgs.bare.nTempl, (fun _ _ => 0 : ℕ → ℕ → ℝ) i j * quadEnv.pix.dot 2
          (fun c p => quadArgs.bare.rawTempl 2 1 j c p * quadArgs.bare.mask p) (fun c p => tab2 2 1 (oneSide ω) c p * quadArgs.bare.mask p)) *
          quadArgs.bare.rawTempl 2 1 i c p) (k / (g ω).nmaps))
        (pop quadEnv.sht quadArgs.bare.nIter (g ω) (fun c p => tab2 2 1 (oneSide ω) c p -
        ∑ i ∈ range quadArgs.bare.nTempl, (∑ j ∈ range quadArgs.bare.nTempl, (fun _ _ => 0 : ℕ → ℕ → ℝ) i j * quadEnv.pix.dot 2
          (fun c p => quadArgs.bare.rawTempl 2 1 j c p * quadArgs.bare.mask p) (fun c p => tab2 2 1 (oneSide ω) c p * quadArgs.bare.mask p)) *
          quadArgs.bare.rawTempl 2 1 i c p) (k % (g ω).nmaps)) l).val 3 2 = if ω then 16 / 5 else 0 := by
    intro ω
    rw [nmg ω, lg ω]
    rw [quad_val]
    have hz : ∀ k, pop quadEnv.sht quadArgs.bare.nIter (g ω) (fun c p => tab2 2 1 (oneSide ω) c p -
        ∑ i ∈ range quadArgs.bare.nTempl, (∑ j ∈ range quadArgs.bare.nTempl, (fun _ _ => 0 : ℕ → ℕ → ℝ) i j * quadEnv.pix.dot 2
          (fun c p => quadArgs.bare.rawTempl 2 1 j c p * quadArgs.bare.mask p) (fun c p => tab2 2 1 (oneSide ω) c p * quadArgs.bare.mask p)) *
          quadArgs.bare.rawTempl 2 1 i c p) 1 2 k = if k = 0 then ((if ω then 4 else 0 : ℝ) : ℂ) else 0 := by
      intro k
      change pop quadEnv.sht 0 (g ω) _ 1 2 k = _
      rw [pg ω]
      congr 2
      simp only [FieldArgs.nTempl, FieldArgs.bare, oneSide, tab2, Option.map_none, Option.getD_none, sum_range_zero, sub_zero]
      cases ω <;> norm_num
    simp only [show (3 : ℕ) / 2 = 1 from rfl, show (3 : ℕ) % 2 = 1 from rfl]
    rw [quad_cl _ _ _ _ hz hz]
    cases ω <;> norm_num
  intro he
  have h1 : (fun ω => _) = fun _ : Bool => (0 : ℝ) := funext eF
  have h2 : (fun ω => _) = fun ω : Bool => (if ω then 16 / 5 else 0 : ℝ) := funext eG
  rw [hB2, h1, h2] at he
  norm_num [coinMean] at he

end NaMaster
