import Verif.Sky.AnyProps
import Verif.Sky.CatalogExample

/-! # Cases for C93 and C94

Two sources at the poles with a constant error of their values, and maps of four pixels of the same skies. -/

namespace NaMaster

open Finset MeasureTheory WignerSpec SkySpec CouplingSpec SkyExample PoleExample

namespace MixExample

/-- A constant error, different for the two sources. -/
noncomputable def noiseM (_ω : Fin 4) (_c i : ℕ) : ℝ := if i = 0 then 1 else 2

/-- The values. -/
noncomputable def valuesM (ω : Fin 4) : MapStack := fun c i => skyAt poleY 0 1 (sky4 ω) ((argsP none).at i) c + noiseM ω c i

theorem madeM : ∃ f : Fin 4 → CatObj, ∀ ω, nmtFieldCatalog poleHarm ((argsP none).withValues 1 (valuesM ω)) = .ok (f ω) :=
  Classical.axiomOfChoice (r := fun ω f => nmtFieldCatalog poleHarm ((argsP none).withValues 1 (valuesM ω)) = .ok f)
    fun ω => catalog_madeP none (valuesM ω)

/-- The catalogs. -/
noncomputable def catM : Fin 4 → CatObj := madeM.choose

theorem catalogsM : CatalogsOf poleHarm poleY (argsP none) 0 1 1 sky4 noiseM valuesM catM where
  harmonics := spherical 0
  transform := uses 0
  spin := rfl
  bandLimit := rfl
  maskBandLimit := rfl
  skyReal := fun ω c _ => coef_real _
  values := by
    intro ω c hc i hi
    unfold valuesM
    simp [argsP]
  made := madeM.choose_spec

theorem apartM : NoiseApart mu4 (ncomp 0) (argsP none).nsrc 0 1 noiseM sky4 := by
  have := probability4
  intro c _ i _ X hX q hq
  obtain rfl : X = 0 := by unfold ncomp at hX; simp at hX; exact hX
  refine ⟨Integrable.of_finite, ?_⟩
  rw [integral4]
  simp only [sky4_val]
  rcases modes_one hq with rfl | rfl | rfl | rfl <;> simp [vx, vy, vz, noiseM] <;> ring

theorem maskCatM (L : ℕ) (m : ℕ) : (catM 0).almMask L m = catMaskCoef poleY (argsP none) L m := catalogsM.maskCoef 0 L m

theorem maskCoefM : catMaskCoef poleY (argsP none) 0 0 = ((1 / Real.sqrt Real.pi : ℝ) : ℂ) := by
  have h : ∀ x, pointCoef poleY x 0 0 = ((1 / (2 * Real.sqrt Real.pi) : ℝ) : ℂ) := by
    intro x
    unfold pointCoef
    rw [conj_poleY, poleY_zero]
    rw [show (2 * ((0 : ℕ) : ℝ) + 1) / (4 * Real.pi) = (1 / 2) ^ 2 * Real.pi⁻¹ by push_cast; field_simp; norm_num, Real.sqrt_mul (by positivity),
      Real.sqrt_sq (by norm_num), Real.sqrt_inv, pow_zero]
    congr 1
    field_simp
  unfold catMaskCoef
  simp only [h]
  change ∑ i ∈ range 2, ((1 : ℝ) : ℂ) * _ = _
  rw [sum_range_succ, sum_range_one]
  have : ((Real.sqrt Real.pi : ℝ) : ℂ) ≠ 0 := by exact_mod_cast (Real.sqrt_pos.2 Real.pi_pos).ne'
  push_cast
  field_simp
  norm_num

theorem crossMask (a b : ℕ → ℕ → ℂ) (ha : a 0 0 = ((1 / Real.sqrt Real.pi : ℝ) : ℂ)) {L : ℕ}
    (hb : ∀ m ≤ L, b L m = if L = 0 ∧ m = 0 then ((Real.sqrt Real.pi : ℝ) : ℂ) else 0) : alm2cl a b L = if L = 0 then 1 else 0 := by
  have hs : Real.sqrt Real.pi ≠ 0 := (Real.sqrt_pos.2 Real.pi_pos).ne'
  unfold alm2cl
  by_cases h0 : L = 0
  · subst h0
    have hb0 : b 0 0 = ((Real.sqrt Real.pi : ℝ) : ℂ) := by rw [hb 0 le_rfl]; simp
    rw [sum_range_one, hb0, ha, Complex.conj_ofReal, ← Complex.ofReal_mul, Complex.ofReal_re]
    field_simp
    norm_num
  · rw [sum_eq_zero, if_neg h0]
    · simp
    · intro m hm
      rw [mem_range] at hm
      have hz : b L m = 0 := by rw [hb m (by omega), if_neg (fun h => h0 h.1)]
      rw [hz]
      simp

theorem maskCrossM (minfo : MapInfo) {L : ℕ} (hL : L ≤ 1) :
    maskSpectrum (catM 0).view ((field4 0).view tetra minfo) false L = if L = 0 then 1 else 0 := by
  unfold maskSpectrum
  simp only [Bool.false_eq_true, if_false, sub_zero]
  refine crossMask _ _ ?_ fun m hm => maskAlms4 0 hL hm
  exact (maskCatM 0 0).trans maskCoefM

/-- The workspace. -/
theorem wspM (minfo : MapInfo) : ∃ w, wspFromAny racah env4 minfo (.cat (catM 0)) (.map (field4 0)) false bins4 wargs4 = .ok w ∧
    Regular w.nBinned w.binned := by
  obtain ⟨r1, r2, r3, r4, r5, r6, r7, r8, r9, r10, -⟩ := fields4.facts 0
  obtain ⟨p1, p2, p3, -, p5, -, -, p8⟩ := catalogsM.facts 0
  have e : bins4.ellMax = 1 := rfl
  have hbc : (catM 0).beamList.length = 2 := by
    unfold CatObj.beamList
    rw [p5]; simp [argsP]
  have hbm : (field4 0).beamList.length = 2 := by
    unfold FieldObj.beamList
    rw [r10]; simp [args4]
  have ha : (AnyField.map (field4 0)).anisoAlms env4.sht = none := by
    change Option.map _ (field4 0).maskA = none
    rw [r4]; rfl
  have hex : ∃ w, wspFromAny racah env4 minfo (.cat (catM 0)) (.map (field4 0)) false bins4 wargs4 = .ok w := by
    unfold wspFromAny
    simp only [ha, show (AnyField.cat (catM 0)).anisoAlms env4.sht = none from rfl, Option.isSome_none, Bool.or_self, Bool.false_eq_true, false_and,
      if_false]
    rw [if_neg (by unfold isCompatible AnyField.view FieldObj.view CatObj.view; simp [p1, p2, r1, r2]),
      if_neg (by rw [e]; change ¬ (catM 0).lmax ≠ 1; rw [p1]; simp),
      show toeplitzSanity wargs4.lT wargs4.lE wargs4.dl bins4.ellMax _ = none from rfl]
    dsimp only
    unfold anyNormOf
    rw [if_pos (show wargs4.norm = "MASTER" from rfl)]
    simp only [Outcome.bind]
    unfold compCouplingMatrix computeCouplingMatrix
    have q1 : ((AnyField.cat (catM 0)).view env4.sht minfo).geom.lmax = 1 := p1
    have q2 : ((AnyField.cat (catM 0)).view env4.sht minfo).geom.lmaxMask = 1 := p2
    have q3 : (AnyField.cat (catM 0)).beamList.length = 2 := hbc
    have q4 : (AnyField.map (field4 0)).beamList.length = 2 := hbm
    rw [q1, q2]
    rw [if_neg (by simp [q2, q3, q4, anyCouplingArgs]), if_neg (by simp [anyCouplingArgs, wargs4]), if_neg (by rw [e]; omega),
      if_neg (by rw [e]; simp [anyCouplingArgs, q2]), if_neg (by simp [anyCouplingArgs, r6, r7, args4, flag, AnyField.pureE, AnyField.pureB])]
    exact ⟨_, rfl⟩
  obtain ⟨w, hw⟩ := hex
  refine ⟨w, hw, ?_⟩
  obtain ⟨hB, n, hn, hc⟩ := wsp_any rfl ha hw
  have hn0 : n.1 = 0 := by
    unfold anyNormOf at hn
    rw [if_pos (show wargs4.norm = "MASTER" from rfl)] at hn
    rw [← Outcome.ok.inj hn]
  have q1 : ((AnyField.cat (catM 0)).view env4.sht minfo).geom.lmax = 1 := p1
  have q2 : ((AnyField.cat (catM 0)).view env4.sht minfo).geom.lmaxMask = 1 := p2
  have hget : ∀ l, ((List.range (((AnyField.cat (catM 0)).view env4.sht minfo).geom.lmaxMask + 1)).map (maskSpectrum ((AnyField.cat (catM 0)).view env4.sht minfo)
      ((AnyField.map (field4 0)).view env4.sht minfo) false)).getD l 0 = if l = 0 then 1 else 0 := by
    intro l
    rw [q2]
    by_cases hl : l ≤ 1
    · rw [List.getD_eq_getElem _ _ (by simp; omega), List.getElem_map, List.getElem_range]
      exact maskCrossM minfo hl
    · rw [List.getD_eq_default _ _ (by simp; omega), if_neg (by omega)]
  have hs1 : (anyCouplingArgs env4.sht minfo (.cat (catM 0)) (.map (field4 0)) wargs4).spin1 = 0 := by
    change (catM 0).spin.toNat = 0; rw [p3]; rfl
  have hs2 : (anyCouplingArgs env4.sht minfo (.cat (catM 0)) (.map (field4 0)) wargs4).spin2 = 0 := by
    change (field4 0).spin.toNat = 0; rw [r3]; rfl
  have hplain : (anyCouplingArgs env4.sht minfo (.cat (catM 0)) (.map (field4 0)) wargs4).Plain := ⟨rfl, rfl, r6, r7, rfl, show (-1 : ℤ) ≤ 0 by norm_num⟩
  obtain ⟨U, hU, hv⟩ := C17_monopole C76_symmetric C76_monopole hplain hc (fun l hl => by rw [hget, if_neg hl])
  obtain ⟨-, -, -, p, U0, hbuild⟩ := comp_parts hc
  rw [show (anyCouplingArgs env4.sht minfo (.cat (catM 0)) (.map (field4 0)) wargs4).ncls = 1 by simp [CouplingArgs.ncls, hs1, hs2]; rfl] at hbuild
  have hw1 : w.ncls = 1 := by rw [hbuild]; rfl
  have hval := hv 1 1 0 0 le_rfl le_rfl (by omega) (by omega) (by rw [hs1, hs2]; omega)
  rw [hget, if_pos rfl, if_pos ⟨rfl, rfl⟩, hw1] at hval
  have hbin : w.binned 0 0 = 1 / (4 * Real.pi) := by
    have hb := binMatrix_apply 1 n.1 n.2 (tab (((AnyField.cat (catM 0)).view env4.sht minfo).geom.lmax + 1) fun l =>
        (AnyField.cat (catM 0)).beamList.getD l 0 * (AnyField.map (field4 0)).beamList.getD l 0) bins4 U
      (a := 0) (b := 0) (ib2 := 0) (ib3 := 0) (by norm_num) (by norm_num) (by simp [bins4, Bins.nBands]) (by simp [bins4, Bins.nBands])
    have hU' : U = tab2 (1 * (bins4.ellMax + 1)) (1 * (bins4.ellMax + 1)) U0 := by
      rw [hbuild] at hU
      exact (Option.some.inj hU).symm
    have : w.binned = binMatrix 1 n.1 n.2 (tab (((AnyField.cat (catM 0)).view env4.sht minfo).geom.lmax + 1) fun l =>
        (AnyField.cat (catM 0)).beamList.getD l 0 * (AnyField.map (field4 0)).beamList.getD l 0) bins4 U := by
      rw [hU', hbuild]; rfl
    rw [this]
    refine hb.trans ?_
    unfold binnedElement
    rw [if_pos hn0]
    have hbl : (AnyField.map (field4 0)).beamList.getD 1 0 = 1 := by
      change (field4 0).beamList.getD 1 0 = 1
      unfold FieldObj.beamList
      rw [r10]; simp [args4]
    have hbl' : (AnyField.cat (catM 0)).beamList.getD 1 0 = 1 := by
      change (catM 0).beamList.getD 1 0 = 1
      rw [p8 1 le_rfl]; simp [CatArgs.beamAt, argsP]
    simp only [bins4, Bins.band, List.getD_cons_zero, List.map_cons, List.map_nil, List.sum_cons, List.sum_nil]
    rw [hval, tab, if_pos (by rw [q1]; omega), hbl, hbl']
    norm_num
  unfold Regular Wsp.nBinned
  have hbn : w.bin.nBands = 1 := by rw [hbuild]; rfl
  rw [hw1, hbn]
  have : (toMat (1 * 1) w.binned).det = 1 / (4 * Real.pi) := by
    rw [show (toMat (1 * 1) w.binned).det = (toMat 1 w.binned).det from rfl, Matrix.det_fin_one]
    exact hbin
  rw [this]
  exact (one_div_ne_zero (by positivity)).isUnit

/-- The hypotheses of C93 are met: the bandpower of the dipole of the four skies is `π`, and its estimate from the sources and the maps has this
mean. -/
example (minfo : MapInfo) : ∃ (w : Wsp ℝ) (P D : Fin 4 → Arr2 ℝ),
    wspFromAny racah env4 minfo (.cat (catM 0)) (.map (field4 0)) false bins4 wargs4 = .ok w ∧
    (∀ ω, computeCoupledCell (catM ω).view ((field4 ω).view env4.sht minfo) false = .ok (some (P ω))) ∧
    (∀ ω, decoupleCell (exactLinAlg ℝ) w (P ω) none none = .ok (D ω)) ∧ ∫ ω, (D ω).val 0 0 ∂mu4 = Real.pi := by
  obtain ⟨C, hC, -, -, hC0, hC1⟩ := unbin4
  obtain ⟨w, hw, hreg⟩ := wspM minfo
  obtain ⟨P, D, hP, hD, -, hm⟩ := C93_catalog_map_unbiased mu4 (exactLinAlg ℝ) exactLinAlg_correct triangle4 minfo catalogsM fields4 bins4
    (by simp [WspSpec.Bounded, bins4]) (by simp [BinSpec.NoRepeats, bins4]) spec4 C rfl rfl hC
    (isotropic4 (by simp [ncomp, hC0]) (by simp [ncomp, hC1, CatArgs.beamAt, argsP, FieldArgs.beamAt, args4])) apartM wargs4 rfl (by decide) rfl
    (by simp [args4]) 0 w hw hreg
  exact ⟨w, P, D, hw, hP, hD, (hm 0 (by simp [spec4]) 0 (by simp [spec4])).2⟩

/-- The other order of the fields. -/
example (minfo : MapInfo) : ∃ (w : Wsp ℝ) (P : Fin 4 → Arr2 ℝ),
    wspFromAny racah env4 minfo (.map (field4 0)) (.cat (catM 0)) false bins4 wargs4 = .ok w ∧
    (∀ ω, computeCoupledCell ((field4 ω).view env4.sht minfo) (catM ω).view false = .ok (some (P ω))) ∧
    Integrable (fun ω => (P ω).val 0 1) mu4 := by
  obtain ⟨r1, r2, r3, r4, r5, r6, r7, r8, r9, r10, -⟩ := fields4.facts 0
  obtain ⟨p1, p2, p3, -, p5, -, -, p8⟩ := catalogsM.facts 0
  have e : bins4.ellMax = 1 := rfl
  have hbc : (catM 0).beamList.length = 2 := by
    unfold CatObj.beamList
    rw [p5]; simp [argsP]
  have hbm : (field4 0).beamList.length = 2 := by
    unfold FieldObj.beamList
    rw [r10]; simp [args4]
  have ha : (AnyField.map (field4 0)).anisoAlms env4.sht = none := by
    change Option.map _ (field4 0).maskA = none
    rw [r4]; rfl
  have hex : ∃ w, wspFromAny racah env4 minfo (.map (field4 0)) (.cat (catM 0)) false bins4 wargs4 = .ok w := by
    unfold wspFromAny
    simp only [ha, show (AnyField.cat (catM 0)).anisoAlms env4.sht = none from rfl, Option.isSome_none, Bool.or_self, Bool.false_eq_true, false_and,
      if_false]
    rw [if_neg (by unfold isCompatible AnyField.view FieldObj.view CatObj.view; simp [p1, p2, r1, r2]),
      if_neg (by rw [e]; change ¬ (field4 0).lmax ≠ 1; rw [r1]; simp),
      show toeplitzSanity wargs4.lT wargs4.lE wargs4.dl bins4.ellMax _ = none from rfl]
    dsimp only
    unfold anyNormOf
    rw [if_pos (show wargs4.norm = "MASTER" from rfl)]
    simp only [Outcome.bind]
    unfold compCouplingMatrix computeCouplingMatrix
    have q1 : ((AnyField.map (field4 0)).view env4.sht minfo).geom.lmax = 1 := r1
    have q2 : ((AnyField.map (field4 0)).view env4.sht minfo).geom.lmaxMask = 1 := r2
    have q3 : (AnyField.cat (catM 0)).beamList.length = 2 := hbc
    have q4 : (AnyField.map (field4 0)).beamList.length = 2 := hbm
    rw [q1, q2]
    rw [if_neg (by simp [q2, q3, q4, anyCouplingArgs]), if_neg (by simp [anyCouplingArgs, wargs4]), if_neg (by rw [e]; omega),
      if_neg (by rw [e]; simp [anyCouplingArgs, q2]), if_neg (by simp [anyCouplingArgs, r6, r7, args4, flag, AnyField.pureE, AnyField.pureB])]
    exact ⟨_, rfl⟩
  obtain ⟨w, hw⟩ := hex
  obtain ⟨C, hC, hCr, hCc, hC0, hC1⟩ := unbin4
  obtain ⟨P, U, R, hP, -, -, -, -, -, hv⟩ := C93_map_catalog_mean mu4 triangle4 minfo fields4 catalogsM C hCr hCc
    (isotropic4 (by simp [ncomp, hC0]) (by simp [ncomp, hC1, CatArgs.beamAt, argsP, FieldArgs.beamAt, args4])) apartM bins4 wargs4 rfl (by decide)
    0 w hw
  exact ⟨w, P, hw, hP, (hv 0 (by decide) 1 le_rfl).1⟩

/-- A case for C94: the catalog and the map are compatible and have a spectrum, but `compute_full_master` is an error. -/
example (minfo : MapInfo) : anyFullMaster (exactLinAlg ℝ) env4 3 minfo (.cat (catM 0)) (.map (field4 0)) false true
    (wspFromAny racah env4 minfo (.cat (catM 0)) (.map (field4 0)) false bins4 wargs4) none none none = .raises .value := by
  obtain ⟨r1, r2, r3, -⟩ := fields4.facts 0
  obtain ⟨p1, p2, p3, -⟩ := catalogsM.facts 0
  obtain ⟨C, hC, hCr, hCc, hC0, hC1⟩ := unbin4
  obtain ⟨w, hw, -⟩ := wspM minfo
  obtain ⟨P, U, R, hP, -⟩ := C93_catalog_map_mean mu4 triangle4 minfo catalogsM fields4 C hCr hCc
    (isotropic4 (by simp [ncomp, hC0]) (by simp [ncomp, hC1, CatArgs.beamAt, argsP, FieldArgs.beamAt, args4])) apartM bins4 wargs4 rfl (by decide)
    (by simp [args4]) 0 w hw
  obtain ⟨n, hn⟩ : ∃ n, (AnyField.cat (catM 0)).nmaps = .ok n := by
    obtain ⟨hA, -⟩ := catalog_ok poleHarm _ _ (catalogsM.made 0) _ rfl
    refine ⟨if (catM 0).spin = 0 then 1 else 2, ?_⟩
    change (match (catM 0).nmaps with | some n => Outcome.ok n | none => .raises .attribute) = _
    rw [hA]
  exact C94_value_error _ _ _ _ _ _ (Or.inl rfl) _ _ _ (by unfold isCompatible AnyField.view FieldObj.view CatObj.view; simp [p1, p2, r1, r2]) n _ hn rfl _ (hP 0)

end MixExample

end NaMaster
