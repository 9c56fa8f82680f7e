import Verif.Sky.TemplProps
import Verif.Sky.Example

/-! # A case for C86, and the true spectra as guess

The four pixels of `Sky/Example.lean`, a contaminant, and a beam of 1/2. -/

namespace NaMaster

open Finset MeasureTheory WignerSpec SkySpec CouplingSpec
open scoped ENNReal

namespace SkyExample

/-- One template, a dipole, and a beam. -/
noncomputable def argsT : FieldArgs := { args4 with templates := some ⟨1, 1, 4, fun _ c p => if c = 0 ∧ p < 4 then vz p else 0⟩, beam := some (2, fun _ => 1 / 2) }

theorem coef_add (u v : ℕ → ℝ) (l : ℕ) (m : ℤ) : coef (fun p => u p + v p) l m = coef u l m + coef v l m := by
  unfold coef
  simp only [mul_add, sum_add_distrib]
  split_ifs <;> (push_cast; ring)

theorem coef_smul (r : ℝ) (v : ℕ → ℝ) (l : ℕ) (m : ℤ) : coef (fun p => r * v p) l m = r * coef v l m := by
  have h : ∀ g : ℕ → ℝ, ∑ p ∈ range 4, g p * (r * v p) = r * ∑ p ∈ range 4, g p * v p := by
    intro g; rw [mul_sum]; exact sum_congr rfl fun p _ => by ring
  have h1 : ∑ p ∈ range 4, r * v p = r * ∑ p ∈ range 4, v p := by rw [mul_sum]
  unfold coef
  rw [h1, h, h, h]
  split_ifs <;> (push_cast; ring)

theorem linear4 : tetra.AnalysisLinear := by
  intro s lmax
  refine ⟨⟨⟨fun v c l m => if c = 0 ∧ l ≤ lmax then coef (v 0) l m else 0, ?_⟩, ?_⟩,
    ⟨⟨fun a c p => if c = 0 ∧ p < 4 then (1 / 4) * (a 0 0 0 / kappa + if 1 ≤ lmax then vz p * (a 0 1 0 / kappa) -
      (vx p * (a 0 1 1 / rho) + vy p * (Complex.I * a 0 1 1 / rho)) else 0 : ℂ).re else 0, ?_⟩, ?_⟩, LinearMap.id, rfl, rfl, rfl⟩
  · intro u v
    funext c l m
    simp only [Pi.add_apply]
    split_ifs
    · exact coef_add _ _ _ _
    · simp
  · intro r v
    funext c l m
    simp only [Pi.smul_apply, RingHom.id_apply, Complex.real_smul]
    split_ifs
    · exact coef_smul _ _ _ _
    · simp
  · intro u v
    funext c p
    simp only [Pi.add_apply]
    split_ifs
    · rw [← mul_add, ← Complex.add_re]; congr 2; ring
    · rw [← mul_add, ← Complex.add_re]; congr 2; ring
    · simp
  · intro r v
    funext c p
    simp only [Pi.smul_apply, smul_eq_mul, RingHom.id_apply, Complex.real_smul]
    have hr : ∀ z : ℂ, r * (1 / 4 * z.re) = 1 / 4 * ((r : ℂ) * z).re := by
      intro z; rw [Complex.re_ofReal_mul]; ring
    split_ifs
    · rw [hr]; congr 2; ring
    · rw [hr]; congr 2; ring
    · simp

theorem shaped4 : tetra.Shaped 4 := by
  intro s lmax a
  funext c p
  simp only [Sht.alm2map, tetra, id, tab2]
  split_ifs <;> first | rfl | (exfalso; omega)

/-- The analysis of four pixels is the adjoint of the synthesis. -/
theorem adjoint4 : AdjointOf env4.sht env4.pix 0 1 0 (fun x X l m => coef (tab2 1 4 x X) l m) where
  analysis := by
    intro x X hX l hl m hm
    have hX : X < 1 := hX
    obtain rfl : X = 0 := by omega
    change (if (0 : ℕ) = 0 ∧ l ≤ 1 then coef (tab2 1 4 x 0) l m else 0) = _
    rw [if_pos ⟨rfl, hl⟩]
  real := fun x X _ => coef_real _
  adjoint := by
    intro x a ha
    have ha := ha 0 (by decide)
    have a00 : ((a 0 0 0).re : ℂ) = a 0 0 0 := Complex.conj_eq_iff_re.1 (by have := ha 0 0; simpa using this.symm)
    have a10 : ((a 0 1 0).re : ℂ) = a 0 1 0 := Complex.conj_eq_iff_re.1 (by have := ha 1 0; simpa using this.symm)
    have a11 : a 0 1 (-1) = -(starRingEnd ℂ) (a 0 1 1) := by have := ha 1 1; simpa using this
    have hk : kappa ≠ 0 := by have := kappa_sq; intro h; rw [h] at this; norm_num at this; exact Real.pi_ne_zero (by linarith)
    have hr : rho ≠ 0 := by have := rho_sq; intro h; rw [h] at this; norm_num at this; exact Real.pi_ne_zero (by linarith)
    have hv : ∀ p < 4, env4.sht.alm2map 0 1 (fun X l m => a X l m) 0 p = 1 / 4 * ((a 0 0 0).re / kappa + vz p * ((a 0 1 0).re / kappa) -
        (vx p * ((a 0 1 1).re / rho) - vy p * ((a 0 1 1).im / rho))) := by
      intro p hp
      change (if (0 : ℕ) = 0 ∧ p < 4 then _ else _) = _
      rw [if_pos ⟨rfl, hp⟩, if_pos le_rfl]
      simp [Complex.div_ofReal_re]
      ring
    have hm : modes 1 = {(0, 0), (1, 0), (1, 1), (1, -1)} := by
      ext q
      constructor
      · intro h
        rcases modes_one h with rfl | rfl | rfl | rfl <;> simp
      · intro h
        simp only [mem_insert, mem_singleton] at h
        rcases h with rfl | rfl | rfl | rfl <;> rw [mem_skyModes] <;> simp
    have hd : env4.pix.dot (ncomp 0) x (env4.sht.alm2map 0 1 fun X l m => a X l m) = kappa * (∑ p ∈ range 4, x 0 p) * (a 0 0 0).re +
        kappa * (∑ p ∈ range 4, vz p * x 0 p) * (a 0 1 0).re -
        2 * rho * ((∑ p ∈ range 4, vx p * x 0 p) * (a 0 1 1).re - (∑ p ∈ range 4, vy p * x 0 p) * (a 0 1 1).im) := by
      have e1 : Real.pi / 4 / kappa = kappa := by rw [← kappa_sq]; field_simp
      have e2 : Real.pi / 4 / rho = 2 * rho := by rw [show Real.pi / 4 = 2 * rho ^ 2 by rw [rho_sq]; ring]; field_simp
      change ∑ c ∈ range 1, ∑ p ∈ range 4, x c p * env4.sht.alm2map 0 1 (fun X l m => a X l m) c p * Real.pi = _
      rw [sum_range_one, sum_congr rfl fun p hp => by rw [hv p (mem_range.1 hp)], mul_sum, mul_sum, sum_mul, sum_mul, sum_mul, sum_mul, ← sum_sub_distrib,
        mul_sum, ← sum_add_distrib, ← sum_sub_distrib]
      refine sum_congr rfl fun p _ => ?_
      linear_combination (x 0 p * (a 0 0 0).re + x 0 p * vz p * (a 0 1 0).re) * e1 - (x 0 p * (vx p * (a 0 1 1).re - vy p * (a 0 1 1).im)) * e2
    have ht : ∀ p ∈ range 4, tab2 1 4 x 0 p = x 0 p := fun p hp => tab2_of_lt _ (by omega) (mem_range.1 hp)
    have hs : ∀ g : ℕ → ℝ, ∑ p ∈ range 4, g p * tab2 1 4 x 0 p = ∑ p ∈ range 4, g p * x 0 p :=
      fun g => sum_congr rfl fun p hp => by rw [ht p hp]
    rw [show ((0 : ℕ) : ℤ) = 0 from rfl, hd, show ncomp 0 = 1 from rfl, sum_range_one, hm]
    simp only [coef, hs, sum_congr rfl ht]
    rw [sum_insert (by simp), sum_insert (by simp), sum_insert (by simp), sum_singleton]
    simp [a11, -Complex.ofReal_sum]
    rw [← a00, ← a10]
    generalize ∑ p ∈ range 4, x 0 p = S
    generalize ∑ p ∈ range 4, vz p * x 0 p = Z
    generalize ∑ p ∈ range 4, vx p * x 0 p = X
    generalize ∑ p ∈ range 4, vy p * x 0 p = Y
    apply Complex.ext <;> simp <;> ring

theorem probabilityT : IsProbabilityMeasure mu4 := probability4

theorem madeG : ∃ f : Fin 4 → FieldObj, ∀ ω, nmtField env4 (argsT.bare.withMaps 1 4 (map4 ω)) = .ok (f ω) := by
  apply Classical.axiomOfChoice (r := fun ω f => nmtField env4 (argsT.bare.withMaps 1 4 (map4 ω)) = .ok f)
  intro ω
  unfold nmtField fieldChecks fieldMasks mapChecks fieldFinish
  simp [argsT, FieldArgs.bare, args4, FieldArgs.withMaps, env4, Outcome.bind, pickSpin, baseObj]

/-- The maps with contaminants: three times the number of the sky times the template. -/
noncomputable def dirty4 (ω : Fin 4) : MapStack := fun c p => map4 ω c p + combine argsT.nTempl (fun _ => 3 * (ω : ℝ)) (argsT.rawTempl 1 4) c p

theorem madeF : ∃ f : Fin 4 → FieldObj, ∀ ω, nmtField env4 (argsT.withMaps 1 4 (dirty4 ω)) = .ok (f ω) := by
  apply Classical.axiomOfChoice (r := fun ω f => nmtField env4 (argsT.withMaps 1 4 (dirty4 ω)) = .ok f)
  intro ω
  have hp : ∀ E i n M, ∃ r, pinvh E i n M 1 = .ok r := by
    intro E i n M
    unfold pinvh
    rw [if_neg (by norm_num)]
    exact ⟨_, rfl⟩
  unfold nmtField fieldChecks fieldMasks mapChecks fieldFinish deproject
  simp [argsT, args4, FieldArgs.withMaps, env4, Outcome.bind, pickSpin, baseObj]
  generalize hg : pinvh _ _ _ _ _ = r
  obtain ⟨r', hr⟩ := hp _ _ _ _
  rw [hr] at hg
  subst hg
  cases r' <;> exact ⟨_, rfl⟩

/-- The fields. -/
noncomputable def fieldG : Fin 4 → FieldObj := madeG.choose
/-- The fields. -/
noncomputable def fieldF : Fin 4 → FieldObj := madeF.choose

theorem raw4 (c p : ℕ) : argsT.rawTempl 1 4 0 c p = if c = 0 ∧ p < 4 then vz p else 0 := by
  unfold FieldArgs.rawTempl tab2 argsT
  simp only [Option.map_some, Option.getD_some]
  split_ifs <;> first | rfl | (exfalso; omega)

theorem maskT (p : ℕ) : argsT.mask p = if p < 4 then 1 / 2 else 0 := rfl

theorem gram4 : gram env4.pix 1 (argsT.maskedTempl 1 4) 0 0 = Real.pi := by
  unfold gram Pix.dot FieldArgs.maskedTempl
  simp only [raw4, env4, sum_range_succ, sum_range_zero, maskT, vz]
  norm_num
  ring

theorem good4 : GoodTemplates env4.pix argsT 1 := by
  right
  have hn : argsT.nTempl = 1 := rfl
  have ep : ∀ lam x, EigenPair 1 (gram env4.pix 1 (argsT.maskedTempl 1 4)) lam x → lam = Real.pi := by
    rintro lam x ⟨⟨i, hi, hx⟩, h⟩
    obtain rfl : i = 0 := by omega
    have h0 := h 0 (by omega)
    unfold mulVecN at h0
    rw [sum_range_one, gram4] at h0
    exact (mul_right_cancel₀ hx h0).symm
  refine ⟨⟨⟨0, by omega, 0, by omega, ?_⟩, Real.pi, ⟨⟨fun _ => 1, ⟨0, by omega, one_ne_zero⟩, ?_⟩, ?_⟩, ?_⟩, ?_⟩
  · rw [show env4.pix.npix = 4 from rfl, gram4]; exact Real.pi_ne_zero
  · intro i hi
    obtain rfl : i = 0 := by omega
    unfold mulVecN
    rw [hn, sum_range_one]
    rw [show env4.pix.npix = 4 from rfl, gram4]
  · rintro lam ⟨x, hx⟩
    exact (ep lam x hx).le
  · intro lam x hx
    right
    rw [ep lam x hx]
    simp [argsT, args4]
  · intro z hz i hi
    obtain rfl : i = 0 := by omega
    have h := hz 0 (by omega) 0 (by decide)
    unfold combine FieldArgs.maskedTempl at h
    rw [hn, sum_range_one, show env4.pix.npix = 4 from rfl, raw4] at h
    simpa [vz, argsT, args4] using h

theorem shown4 (ω : Fin 4) : ∀ c < ncomp 0, ∀ p < env4.pix.npix, map4 ω c p = env4.sht.alm2map 0 1 (fun X l m => sky4 ω X l m) c p := by
  intro c hc p hp
  have hc : c < 1 := hc
  have hp : p < 4 := hp
  obtain rfl : c = 0 := by omega
  change _ = (if (0 : ℕ) = 0 ∧ p < 4 then _ else _)
  rw [if_pos ⟨rfl, hp⟩, if_pos le_rfl]
  have hk : kappa ≠ 0 := by have := kappa_sq; intro h; rw [h] at this; norm_num at this; exact Real.pi_ne_zero (by linarith)
  have hr : rho ≠ 0 := by have := rho_sq; intro h; rw [h] at this; norm_num at this; exact Real.pi_ne_zero (by linarith)
  simp only [sky4_val]
  simp [Complex.div_ofReal_re]
  field_simp
  unfold map4
  interval_cases p <;> fin_cases ω <;> simp [vx, vy, vz] <;> norm_num

theorem fieldsG : FieldsOf env4 argsT.bare 0 1 1 mask4 sky4 map4 fieldG where
  iso := ⟨rfl, rfl, rfl, rfl, by norm_num [args4, argsT, FieldArgs.bare]⟩
  bare := rfl
  spin := rfl
  bandLimit := rfl
  maskBandLimit := rfl
  maskCoefs := fields4.maskCoefs
  maskReal := fields4.maskReal
  skyReal := fields4.skyReal
  observed := fields4.observed
  made := madeG.choose_spec

theorem contaminated4 : ContaminatedFields env4 argsT 0 1 1 mask4 sky4 map4 (fun ω _ => 3 * (ω : ℝ)) fieldF fieldG where
  clean := fieldsG
  shown := shown4
  good := good4
  made := madeF.choose_spec

theorem maskAlmsG (ω : Fin 4) {l m : ℕ} (hl : l ≤ 1) (hm : m ≤ l) :
    (fieldG ω).getMaskAlms tetra l m = if l = 0 ∧ m = 0 then ((Real.sqrt Real.pi : ℝ) : ℂ) else 0 := by
  obtain ⟨-, p2, -, -, p5, -, -, p8, -⟩ := fieldsG.facts ω
  rw [← maskAlms4 ω hl hm]
  obtain ⟨-, q2, -, -, q5, -, -, q8, -⟩ := fields4.facts ω
  unfold FieldObj.getMaskAlms
  rw [p2, p5, p8, q2, q5, q8]
  rfl

theorem maskSpectrumG (minfo : MapInfo) {l : ℕ} (hl : l ≤ 1) :
    maskSpectrum ((fieldG 0).view tetra minfo) ((fieldG 0).view tetra minfo) true l = if l = 0 then Real.pi else 0 := by
  rw [← maskSpectrum4 minfo hl]
  unfold maskSpectrum FieldObj.view alm2cl
  simp only [if_true, sub_zero]
  congr 1
  refine sum_congr rfl fun m hm => ?_
  rw [mem_range] at hm
  rw [maskAlmsG 0 hl (by omega), maskAlms4 0 hl (by omega)]

theorem wspG (minfo : MapInfo) : ∃ w, wspFromFields racah env4 minfo (fieldG 0) (fieldG 0) true bins4 wargs4 = .ok w := by
  obtain ⟨p1, p2, p3, p4, p5, p6, p7, p8, p9, p10, -⟩ := fieldsG.facts 0
  unfold wspFromFields
  simp only [p4, p1, p2, Option.isSome_none, Bool.or_self, Bool.false_eq_true, false_and, if_false]
  have e : bins4.ellMax = 1 := rfl
  rw [if_neg (by unfold isCompatible FieldObj.view; simp), if_neg (by rw [e]; simp), show toeplitzSanity wargs4.lT wargs4.lE wargs4.dl bins4.ellMax _ = none from rfl]
  dsimp only
  unfold normOf
  rw [if_pos (show wargs4.norm = "MASTER" from rfl)]
  simp only [Outcome.bind]
  unfold compCouplingMatrix computeCouplingMatrix
  have hb : (fieldG 0).beamList.length = 2 := by
    unfold FieldObj.beamList
    rw [p10]; simp [argsT, FieldArgs.bare]
  rw [if_neg (by simp [hb, couplingArgsOf, p2]), if_neg (by simp [couplingArgsOf, wargs4]), if_neg (by rw [e]; omega),
    if_neg (by rw [e]; simp [couplingArgsOf, p2]), if_neg (by simp [couplingArgsOf, p6, p7, argsT, FieldArgs.bare, args4, flag])]
  exact ⟨_, rfl⟩

theorem binnedG (minfo : MapInfo) (w : Wsp ℝ) (hw : wspFromFields racah env4 minfo (fieldG 0) (fieldG 0) true bins4 wargs4 = .ok w) :
    w.ncls = 1 ∧ w.bin = bins4 ∧ w.binned 0 0 = 1 / 16 := by
  obtain ⟨p1, p2, p3, p4, p5, p6, p7, p8, p9, p10, -⟩ := fieldsG.facts 0
  obtain ⟨hB, n, hn, hc⟩ := wsp_iso p4 p4 hw
  have hn0 : n.1 = 0 := by
    unfold normOf at hn
    rw [if_pos (show wargs4.norm = "MASTER" from rfl)] at hn
    rw [← Outcome.ok.inj hn]
  have hget : ∀ l, ((List.range ((fieldG 0).lmaxMask + 1)).map (maskSpectrum ((fieldG 0).view env4.sht minfo) ((fieldG 0).view env4.sht minfo) true)).getD l 0 =
      if l = 0 then Real.pi else 0 := by
    intro l
    rw [p2]
    by_cases hl : l ≤ 1
    · rw [List.getD_eq_getElem _ _ (by simp; omega), List.getElem_map, List.getElem_range]
      exact maskSpectrumG minfo hl
    · rw [List.getD_eq_default _ _ (by simp; omega), if_neg (by omega)]
  have hplain : (couplingArgsOf (fieldG 0) (fieldG 0) wargs4).Plain := ⟨p6, p7, p6, p7, rfl, by decide⟩
  have hsp : max (couplingArgsOf (fieldG 0) (fieldG 0) wargs4).spin1 (couplingArgsOf (fieldG 0) (fieldG 0) wargs4).spin2 ≤ 1 := by
    simp [couplingArgsOf, p3]
  obtain ⟨U, hU, hv⟩ := C17_monopole C76_symmetric C76_monopole hplain hc (fun l hl => by rw [hget, if_neg hl])
  obtain ⟨-, -, -, p, U0, hbuild⟩ := comp_parts hc
  have hncls : (couplingArgsOf (fieldG 0) (fieldG 0) wargs4).ncls = 1 := by
    simp [CouplingArgs.ncls, couplingArgsOf, p3, wargs4]
  rw [hncls] at hbuild
  have hw1 : w.ncls = 1 := by rw [hbuild]; rfl
  have hval := hv 1 1 0 0 le_rfl le_rfl (by omega) (by omega) hsp
  rw [hget, if_pos rfl, if_pos ⟨rfl, rfl⟩, hw1] at hval
  refine ⟨hw1, by rw [hbuild]; rfl, ?_⟩
  have hb := binMatrix_apply 1 n.1 n.2 (tab ((fieldG 0).lmax + 1) fun l => (fieldG 0).beamList.getD l 0 * (fieldG 0).beamList.getD l 0) bins4 U
    (a := 0) (b := 0) (ib2 := 0) (ib3 := 0) (by norm_num) (by norm_num) (by simp [bins4, Bins.nBands]) (by simp [bins4, Bins.nBands])
  have hU' : U = tab2 (1 * (bins4.ellMax + 1)) (1 * (bins4.ellMax + 1)) U0 := by
    rw [hbuild] at hU
    exact (Option.some.inj hU).symm
  have : w.binned = binMatrix 1 n.1 n.2 (tab ((fieldG 0).lmax + 1) fun l => (fieldG 0).beamList.getD l 0 * (fieldG 0).beamList.getD l 0) bins4 U := by
    rw [hU', hbuild]; rfl
  rw [this]
  refine hb.trans ?_
  unfold binnedElement
  rw [if_pos hn0]
  have hbl : (fieldG 0).beamList.getD 1 0 = 1 / 2 := by
    unfold FieldObj.beamList
    rw [p10]; simp [argsT, FieldArgs.bare]
  simp only [bins4, Bins.band, List.getD_cons_zero, List.map_cons, List.map_nil, List.sum_cons, List.sum_nil]
  rw [hval, tab, if_pos (by rw [p1]; omega), hbl]
  have := Real.pi_ne_zero
  field_simp
  norm_num

theorem regularG {w : Wsp ℝ} (h1 : w.ncls = 1) (h2 : w.bin = bins4) (h3 : w.binned 0 0 = 1 / 16) : Regular w.nBinned w.binned := by
  unfold Regular Wsp.nBinned
  have hbn : w.bin.nBands = 1 := by rw [h2]; rfl
  rw [h1, hbn]
  have : (toMat (1 * 1) w.binned).det = 1 / 16 := by
    rw [show (toMat (1 * 1) w.binned).det = (toMat 1 w.binned).det from rfl, Matrix.det_fin_one]
    exact h3
  rw [this]
  norm_num

/-- The true spectrum: four times the spectrum of the maps, only the dipole. -/
noncomputable def specT : Arr2 ℝ := ⟨1, 1, fun _ _ => 4 * Real.pi⟩

/-- The spectrum of the maps. -/
noncomputable def guessT : Arr2 ℝ := ⟨1, 2, fun _ l => if l = 1 then Real.pi else 0⟩

theorem unbinT : ∃ C, unbinCells bins4 specT = .ok C ∧ C.rows = 1 ∧ C.cols = 2 ∧ C.val 0 0 = 0 ∧ C.val 0 1 = 4 * Real.pi := by
  refine ⟨_, by unfold unbinCells; rw [if_neg (by simp [specT, bins4, Bins.nBands])], rfl, rfl, ?_, ?_⟩
  · rw [Arr2.of]
    simp [tab2, unbinCls, unbinFrom, unbinBand, bins4, specT]
  · rw [Arr2.of]
    simp [tab2, unbinCls, unbinFrom, unbinBand, bins4, specT]

theorem beamT (l : ℕ) : argsT.beamAt l = 1 / 2 := rfl

/-- The hypotheses of C86 are met: the bandpower of the dipole of the four skies is `4π`, and its estimate from the masked, smoothed and contaminated
maps has this mean. -/
example (minfo : MapInfo) : ∃ D : Fin 4 → Arr2 ℝ,
    (∀ ω, fullMaster (exactLinAlg ℝ) env4 0 minfo (fieldF ω) (fieldF ω) true true
      (wspFromFields racah env4 minfo (fieldF ω) (fieldF ω) true bins4 wargs4) none none (some guessT) = .ok (some (D ω))) ∧
    ∫ ω, (D ω).val 0 0 ∂mu4 = 4 * Real.pi := by
  have := probability4
  obtain ⟨C, hC, -, -, hC0, hC1⟩ := unbinT
  obtain ⟨w, hw⟩ := wspG minfo
  obtain ⟨q1, q2, q3⟩ := binnedG minfo w hw
  obtain ⟨D, hD, -, hm⟩ := C86_unbiased_partial mu4 (exactLinAlg ℝ) exactLinAlg_correct env4 exactEigen_correct (fun _ _ => Real.pi_pos) triangle4 linear4
    shaped4 minfo argsT argsT 0 0 1 1 0 rfl rfl mask4 mask4 sky4 sky4 map4 map4 _ _ fieldF fieldF fieldG fieldG contaminated4 contaminated4 _ _ adjoint4
    adjoint4 bins4 (by simp [WspSpec.Bounded, bins4]) (by simp [BinSpec.NoRepeats, bins4]) specT C guessT rfl rfl hC rfl rfl
    (by
      intro k hk l hl
      have hk : k < 1 := hk
      obtain rfl : k = 0 := by omega
      rw [beamT]
      rcases (by omega : l = 0 ∨ l = 1) with rfl | rfl
      · rw [hC0]; simp [guessT]
      · rw [hC1]; simp [guessT]; ring)
    (isotropic4 (by simp [ncomp, hC0]) (by simp only [beamT, ncomp]; simp [hC1]; ring)) true (fun _ => ⟨rfl, rfl⟩) wargs4 rfl rfl (by decide)
    (by simp [argsT, args4]) 0 w (by rw [wsp_clean contaminated4 contaminated4]; exact hw) (regularG q1 q2 q3)
  exact ⟨D, hD, (hm 0 (by simp [specT]) 0 (by simp [specT])).2⟩

/-! ## The true spectra as guess -/

/-- The maps without the contaminant and without the component along the template. -/
noncomputable def clean4 (ω : Fin 4) : MapStack := fun c p => map4 ω c p - vz ω / 2 * argsT.rawTempl 1 4 0 c p

theorem dirty_clean (ω : Fin 4) : dirty4 ω = fun c p => clean4 ω c p + combine argsT.nTempl (fun _ => 3 * (ω : ℝ) + vz ω / 2) (argsT.rawTempl 1 4) c p := by
  funext c p
  unfold dirty4 clean4 combine
  rw [show argsT.nTempl = 1 from rfl, sum_range_one, sum_range_one]
  ring

theorem isClean (ω : Fin 4) : FieldIs env4 argsT 1 4 0 (clean4 ω) (fieldF ω) ∧ (fieldF ω).iM ≠ some none := by
  have h : nmtField env4 (argsT.withMaps 1 4 (dirty4 ω)) = .ok (fieldF ω) := madeF.choose_spec ω
  have k := field_is env4 argsT contaminated4.iso 1 4 (dirty4 ω) (fieldF ω) h
  rw [dirty_clean] at k
  exact FieldIs.clean exactEigen_correct (fun _ _ => Real.pi_pos) contaminated4.iso good4 k

theorem pop4 {a : FieldArgs} {v : MapStack} {f : FieldObj} (k : FieldIs env4 a 1 4 0 v f) (hl : f.lmax = 1) (h1 : a.purifyE = false)
    (h2 : a.purifyB = false) (hm : a.mask = args4.mask) (x : MapStack) {l m : ℕ} (h : l ≤ 1) :
    pop tetra 0 f x 0 l m = coef (fun p => x 0 p * args4.mask p) l m := by
  unfold pop purifyIfNeeded
  simp only [k.pureE, k.pureB, h1, h2, Bool.or_self, Bool.false_eq_true, if_false, k.mask, hm, hl]
  change (if (0 : ℕ) = 0 ∧ l ≤ 1 then coef _ l m else 0) = _
  rw [if_pos ⟨rfl, h⟩]
  rfl

/-- The coefficients of the deprojected field. -/
theorem almF (ω : Fin 4) : ∃ A : Alms, (fieldF ω).alm = some (some A) ∧ A 0 1 0 = 0 ∧ A 0 1 1 = -(rho : ℂ) * (vx ω - Complex.I * vy ω) := by
  obtain ⟨k, hq⟩ := isClean ω
  obtain ⟨Q, hQ⟩ : ∃ Q, (fieldF ω).iM.getD (some fun _ _ => 0) = some Q := by
    cases hq' : (fieldF ω).iM with
    | none => exact ⟨_, rfl⟩
    | some x =>
      cases x with
      | none => exact absurd hq' hq
      | some Q => exact ⟨Q, rfl⟩
  have hl : (fieldF ω).lmax = 1 := k.lmax
  have hd : env4.pix.dot 1 (fun c p => argsT.rawTempl 1 4 0 c p * argsT.mask p) (fun c p => tab2 1 4 (clean4 ω) c p * argsT.mask p) = 0 := by
    unfold Pix.dot
    rw [sum_range_one]
    simp only [raw4, env4, sum_range_succ, sum_range_zero, maskT, tab2, clean4, map4]
    fin_cases ω <;> norm_num [vz]
  have ha := (k.alm Q hQ).2
  simp only [show argsT.nTempl = 1 from rfl, sum_range_one, hd, mul_zero, zero_mul, sub_zero] at ha
  refine ⟨_, ha, ?_, ?_⟩ <;>
  · rw [show argsT.nIter = 0 from rfl, show env4.sht = tetra from rfl, pop4 k hl rfl rfl rfl _ le_rfl]
    unfold coef args4
    simp only [sum_range_succ, sum_range_zero, tab2, clean4, map4, raw4]
    fin_cases ω <;> norm_num [vx, vy, vz]

/-- The coefficients of the field of the clean map. -/
theorem almG (ω : Fin 4) : ∃ A : Alms, (fieldG ω).alm = some (some A) ∧ A 0 1 0 = (kappa * vz ω : ℝ) ∧
    A 0 1 1 = -(rho : ℂ) * (vx ω - Complex.I * vy ω) := by
  have k := field_is env4 argsT.bare fieldsG.iso 1 4 (map4 ω) (fieldG ω) (madeG.choose_spec ω)
  have hl : (fieldG ω).lmax = 1 := k.lmax
  have hi : (fieldG ω).iM = none := k.iMdet
  have ha := (k.alm _ (by rw [hi]; rfl)).2
  simp only [show argsT.bare.nTempl = 0 from rfl, sum_range_zero, sub_zero] at ha
  refine ⟨_, ha, ?_, ?_⟩ <;>
  · rw [show argsT.bare.nIter = 0 from rfl, show env4.sht = tetra from rfl, pop4 k hl rfl rfl rfl _ le_rfl]
    unfold coef args4
    simp only [sum_range_succ, sum_range_zero, tab2, map4]
    fin_cases ω <;> norm_num [vx, vy, vz]

theorem cl_dipole (A : Alms) (r x y : ℝ) (h0 : A 0 1 0 = (r : ℂ)) (h1 : A 0 1 1 = -(rho : ℂ) * (x - Complex.I * y)) :
    alm2cl (A 0) (A 0) 1 = (r ^ 2 + Real.pi / 4 * (x ^ 2 + y ^ 2)) / 3 := by
  unfold alm2cl
  have hr := rho_sq
  rw [sum_range_succ, sum_range_one, h0, h1]
  simp
  norm_num
  linear_combination (2 * (x ^ 2 + y ^ 2)) * hr

theorem vsq (ω : ℕ) : vx ω ^ 2 = 1 ∧ vy ω ^ 2 = 1 ∧ vz ω ^ 2 = 1 := by
  unfold vx vy vz
  refine ⟨?_, ?_, ?_⟩ <;> split_ifs <;> norm_num

theorem isotropicScaled {C : Arr2 ℝ} (h0 : C.val 0 0 = 0) (h1 : C.val 0 1 = 4 * Real.pi) :
    Isotropic ((4 : ℝ≥0∞) • mu4) 1 1 1 sky4 sky4 (fun _ _ l => C.val 0 l) := by
  have h := isotropic4 (C := fun _ _ l => C.val 0 l / 4) (by simp [h0]) (by simp [h1])
  have := probability4
  refine ⟨fun X hX Y hY q hq r hr => (h.integrable X hX Y hY q hq r hr).smul_measure (by norm_num), ?_⟩
  intro X hX Y hY q hq r hr
  rw [integral_smul_measure, h.covariance X hX Y hY q hq r hr]
  split_ifs
  · simp; ring
  · simp

end SkyExample

open SkyExample in
/-- C86: as documented, the guess spectra are the true ones. If there are beams, the bandpowers are then biased: here they have twice the true value. -/
theorem C86_beam_wrong (minfo : MapInfo) : ∃ (μ : Measure (Fin 4)) (env : FieldEnv) (a : FieldArgs) (wm : ℕ → ℤ → ℂ) (F : Fin 4 → ℕ → ℕ → ℤ → ℂ)
    (m : Fin 4 → MapStack) (z : Fin 4 → ℕ → ℝ) (f g : Fin 4 → FieldObj) (ya : MapStack → ℕ → ℕ → ℤ → ℂ) (B : Bins ℝ) (y C : Arr2 ℝ) (wa : WspArgs)
    (w : Wsp ℝ), IsProbabilityMeasure μ ∧ env.eig.Correct ∧ (∀ p < env.pix.npix, 0 < env.pix.w p) ∧ env.sht.ReadsTriangle ∧ env.sht.AnalysisLinear ∧
      env.sht.Shaped env.pix.npix ∧ ContaminatedFields env a 0 1 1 wm F m z f g ∧ AdjointOf env.sht env.pix 0 1 a.nIter ya ∧
      WspSpec.Bounded B B.ellMax ∧ BinSpec.NoRepeats B ∧ unbinCells B y = .ok C ∧
      Isotropic μ 1 1 1 F F (fun _ _ l => a.beamAt l * a.beamAt l * C.val 0 l) ∧
      wa.isTeb = false ∧ wa.norm = "MASTER" ∧ wa.lT ≤ 0 ∧
      wspFromFields racah env minfo (f 0) (f 0) true B wa = .ok w ∧ Regular w.nBinned w.binned ∧ 0 < y.val 0 0 ∧
      ∀ L : LinAlg ℝ, L.Correct → ∃ D : Fin 4 → Arr2 ℝ,
        (∀ ω, fullMaster L env a.nIter minfo (f ω) (f ω) true true (wspFromFields racah env minfo (f ω) (f ω) true B wa) none none (some C) =
          .ok (some (D ω))) ∧
        ∫ ω, (D ω).val 0 0 ∂μ = 2 * y.val 0 0 := by
  have hpr := probability4
  obtain ⟨C, hC, hCr, hCc, hC0, hC1⟩ := unbinT
  obtain ⟨w, hw⟩ := wspG minfo
  obtain ⟨q1, q2, q3⟩ := binnedG minfo w hw
  have hw' : wspFromFields racah env4 minfo (fieldF 0) (fieldF 0) true bins4 wargs4 = .ok w := by
    rw [wsp_clean contaminated4 contaminated4]; exact hw
  have hreg := regularG q1 q2 q3
  refine ⟨mu4, env4, argsT, mask4, sky4, map4, _, fieldF, fieldG, _, bins4, specT, C, wargs4, w, hpr, exactEigen_correct, fun _ _ => Real.pi_pos,
    triangle4, linear4, shaped4, contaminated4, adjoint4, by simp [WspSpec.Bounded, bins4], by simp [BinSpec.NoRepeats, bins4], hC,
    isotropic4 (by simp [hC0]) (by simp only [beamT]; rw [hC1]; ring), rfl, rfl, by decide, hw', hreg, by simp [specT, Real.pi_pos], ?_⟩
  intro L hL
  obtain ⟨E, hE⟩ := exists_mean ((4 : ℝ≥0∞) • mu4)
  have hI := isotropicScaled hC0 hC1
  have hcl : ∀ X < ncomp 0, ∀ Y < ncomp 0, ∀ l ≤ 1, (fun m n l => C.val (m * ncomp 0 + n) l) X Y l = C.val 0 l := by
    intro X hX Y hY l _
    have hX : X < 1 := hX
    have hY : Y < 1 := hY
    obtain rfl : X = 0 := by omega
    obtain rfl : Y = 0 := by omega
    rfl
  have hk : ∀ ω, FieldIs env4 argsT 1 4 0 (map4 ω) (fieldF ω) ∧ (fieldF ω).iM ≠ some none := fun ω =>
    FieldIs.clean exactEigen_correct (fun _ _ => Real.pi_pos) contaminated4.iso good4
      (field_is env4 argsT contaminated4.iso 1 4 _ (fieldF ω) (contaminated4.made ω))
  have hb : ∀ ω, FieldIs env4 argsT.bare 1 4 0 (map4 ω) (fieldG ω) := fun ω =>
    field_is env4 argsT.bare fieldsG.iso 1 4 (map4 ω) (fieldG ω) (madeG.choose_spec ω)
  have i12 := isoCov_of _ E hE env4 triangle4 adjoint4 adjoint4 (fun _ _ => Real.pi_pos) fieldsG.skyReal fieldsG.skyReal shown4 shown4 hI
    (fun m n l => C.val (m * ncomp 0 + n) l) hcl
  have i21 := isoCov_of _ E hE env4 triangle4 adjoint4 adjoint4 (fun _ _ => Real.pi_pos) fieldsG.skyReal fieldsG.skyReal shown4 shown4 hI
    (fun n m l => C.val (m * ncomp 0 + n) l) (fun X hX Y hY l hl => hcl Y hY X hX l hl)
  obtain ⟨bias, P, G, hbias, hP, hG, hbr, hbc, hmean⟩ := deproj_mean E env4 linear4 shaped4 minfo argsT argsT 0 rfl rfl 1 1 1 rfl rfl rfl map4 map4
    fieldF fieldF fieldG fieldG (fun ω => (hk ω).1) (fun ω => (hk ω).1) hb hb (fun ω => (hk ω).2) (fun ω => (hk ω).2) C hCr hCc i12 i21 true
  have fl : ∀ ω, (fieldF ω).lmax = 1 := fun ω => (hk ω).1.lmax
  have gl : ∀ ω, (fieldG ω).lmax = 1 := fun ω => (hb ω).lmax
  have hof : ∀ x : ℕ → ℕ → ℝ, (Arr2.of (1 * 1) (1 + 1) x).val 0 1 = x 0 1 := fun x => Arr2.of_val x (by omega) (by omega)
  have hPv : ∀ ω, (P ω).rows = 1 ∧ (P ω).cols = 2 ∧ (P ω).val 0 1 = Real.pi / 6 := by
    intro ω
    obtain ⟨A, hA, a0, a1⟩ := almF ω
    have h := (hP ω).symm.trans (coupled_fields env4 minfo (fieldF ω) (fieldF ω) true rfl rfl _ _ hA hA)
    have h := Option.some.inj (Outcome.ok.inj h)
    rw [(hk ω).1.nmaps, fl] at h
    rw [h]
    refine ⟨rfl, rfl, ?_⟩
    rw [hof, show (0 : ℕ) / 1 = 0 from rfl, show (0 : ℕ) % 1 = 0 from rfl, cl_dipole A 0 (vx ω) (vy ω) (by rw [a0]; simp) a1, (vsq ω).1, (vsq ω).2.1]
    ring
  have hGv : ∀ ω, (G ω).val 0 1 = Real.pi / 4 := by
    intro ω
    obtain ⟨A, hA, a0, a1⟩ := almG ω
    have h := (hG ω).symm.trans (coupled_fields env4 minfo (fieldG ω) (fieldG ω) true rfl rfl _ _ hA hA)
    have h := Option.some.inj (Outcome.ok.inj h)
    rw [(hb ω).nmaps, gl] at h
    rw [h]
    rw [hof, show (0 : ℕ) / 1 = 0 from rfl, show (0 : ℕ) % 1 = 0 from rfl, cl_dipole A (kappa * vz ω) (vx ω) (vy ω) a0 a1, (vsq ω).1, (vsq ω).2.1, mul_pow,
      (vsq ω).2.2, kappa_sq]
    ring
  have hc : ∀ r : ℝ, E (fun _ => r) = 4 * r := by
    intro r
    rw [hE _ (Integrable.smul_measure (integrable_const r) (by norm_num)), integral_smul_measure]
    simp
  have hB1 : bias.val 0 1 = -(Real.pi / 3) := by
    have h := hmean 0 (by norm_num) 1 le_rfl
    simp only [(hPv _).2.2, hGv, hc] at h
    linarith
  obtain ⟨D, -, -, hD, -, hm⟩ := full_mean mu4 L hL (lmaxMask := 1) (nIter := 0) (guess := C) (B := bins4) (wa := wargs4) (same := true) (w := w)
    (P := P) (bias := bias) (R := ⟨1, 2, fun k l => ∫ ω, ((P ω).val k l - bias.val k l) ∂mu4⟩) contaminated4 contaminated4 hCr hCc
    (by simp [WspSpec.Bounded, bins4]) 0 hw' q1 hreg hP hbias (fun ω => ⟨(hPv ω).1, (hPv ω).2.1⟩) hbr hbc
    (fun k _ l _ => ⟨Integrable.of_finite, rfl⟩)
  refine ⟨D, hD, ?_⟩
  rw [(hm 0 (by decide) 0 (by decide)).2]
  unfold decoupleCl
  have hs := hL.solve_spec _ _ (binnedInput w.ncls w.bin (fun k l => ∫ ω, ((P ω).val k l - bias.val k l) ∂mu4) (fun _ _ => 0) (fun _ _ => 0)) hreg 0
    (by unfold Wsp.nBinned; rw [q1, q2]; decide)
  unfold Wsp.nBinned at hs
  have hi := binnedInput_apply w.ncls w.bin (fun k l => ∫ ω, ((P ω).val k l - bias.val k l) ∂mu4) (fun _ _ => 0) (fun _ _ => 0) (icl := 0) (ib := 0)
    (by rw [q1]; norm_num) (by rw [q2]; decide)
  rw [q1, q2, show bins4.nBands = 1 from rfl] at hs ⊢
  rw [q1, q2, show 1 * 0 + 0 = 0 from rfl] at hi
  rw [show (1 * 1 : ℕ) = 1 from rfl, sum_range_one, q3] at hs
  rw [show 1 * 0 + 0 = 0 from rfl, show (1 * 1 : ℕ) = 1 from rfl]
  rw [hi] at hs
  dsimp only
  generalize L.solve 1 w.binned _ 0 = r at hs ⊢
  simp only [bins4, Bins.band, List.getD_cons_zero, List.map_cons, List.map_nil, List.sum_cons, List.sum_nil, (hPv _).2.2, hB1, integral_const] at hs
  simp [specT] at hs ⊢
  linarith

end NaMaster
