import Verif.SkyCov.Noise
import Verif.SkyCov.Example
import Verif.Sky.CatalogExample

/-! # Cases for C85

One pixel at the north pole, with noise given by dice. -/

namespace NaMaster

open Finset MeasureTheory WignerSpec SkySpec CouplingSpec CovSpec
open scoped ENNReal

namespace NoiseExample

open KnoxExample PoleExample

/-- The harmonics at the pixel. -/
noncomputable def yN (σ : ℤ) (l : ℕ) (m : ℤ) (_p : ℕ) : ℂ := poleY σ l m (0, 0)

theorem sphericalN (s : ℕ) : Spherical yN s where
  conj0 l m _ := (spherical s).conj0 l m (0, 0)
  conjs l m _ := (spherical s).conjs l m (0, 0)
  product σ hσ l m l' m' _ h h' := (spherical s).product σ hσ l m l' m' (0, 0) h h'

/-- The area of the pixel. -/
noncomputable def areaN (_p : ℕ) : ℝ := 4 * Real.pi

/-- The transforms: one pixel at the pole. -/
noncomputable def shtN : Sht where
  m2a s _ v c l m :=
    if s = 0 then (4 * Real.pi : ℝ) * (v 0 0 : ℂ) * poleY 0 l m (0, 0)
    else if c = 0 then
      ((4 * Real.pi : ℝ) * (v 0 0 + Complex.I * v 1 0) * poleY s l m (0, 0) + (4 * Real.pi : ℝ) * (v 0 0 - Complex.I * v 1 0) * poleY (-s) l m (0, 0)) / 2
    else ((4 * Real.pi : ℝ) * (v 0 0 + Complex.I * v 1 0) * poleY s l m (0, 0) - (4 * Real.pi : ℝ) * (v 0 0 - Complex.I * v 1 0) * poleY (-s) l m (0, 0)) /
      (2 * Complex.I)
  a2m _ _ _ _ _ := 0
  pad := id
  unpad := id

theorem pixelsN (s : ℕ) : PixelSums shtN 1 areaN yN s where
  weight := fun _ _ => by unfold areaN; positivity
  harmonics := sphericalN s
  scalar := by
    intro lmax v l _ m _
    rw [sum_range_one]
    unfold yN areaN
    rw [conj_poleY]
    unfold Sht.map2alm jacobi shtN
    dsimp only [id]
    rw [if_pos rfl]
  plus := by
    intro hs lmax v l _ m _
    have h : ¬ ((s : ℤ) = 0) := by exact_mod_cast hs
    unfold Sht.map2alm jacobi shtN
    dsimp only [id]
    rw [if_neg h, if_neg h, if_pos rfl, if_neg one_ne_zero, sum_range_one]
    unfold yN areaN
    rw [conj_poleY]
    have := Complex.I_ne_zero
    field_simp
    ring
  minus := by
    intro hs lmax v l _ m _
    have h : ¬ ((s : ℤ) = 0) := by exact_mod_cast hs
    unfold Sht.map2alm jacobi shtN
    dsimp only [id]
    rw [if_neg h, if_neg h, if_pos rfl, if_neg one_ne_zero, sum_range_one]
    unfold yN areaN
    rw [conj_poleY]
    have := Complex.I_ne_zero
    field_simp
    ring

/-- The environment. -/
noncomputable def envN : FieldEnv := ⟨⟨1, fun _ => 4 * Real.pi⟩, shtN, exactEigen, fun _ _ => none, 1⟩

/-- The maps: one die for each component. -/
noncomputable def mapN (ω : Three) : MapStack := fun c p => if p = 0 then (die ω c : ℝ) else 0

/-- The covariances: `4 pi / 3` per multipole. -/
noncomputable def levelN (_ _ : ℕ) : ℝ := 4 * Real.pi / 3

theorem whiteN (s : ℕ) : WhiteNoise mu3 1 areaN (fun _ => s) (fun _ => mapN) levelN where
  gauss := IsserlisOn.lin dice_gauss (s := fun t => {t.2.1}) (c := fun _ _ => 1)
    (fun t ht i hi => by
      rw [mem_singleton] at hi
      have h2 : t.2.1 < ncomp s := ht.2.1
      rcases ncomp_cases s with h | h <;> simp only [Set.mem_ofPred_eq] <;> omega)
    (fun t ht ω => by
      have h3 : t.2.2 < 1 := ht.2.2
      rw [sum_singleton, one_mul]
      unfold mapN
      rw [if_pos (by omega)]
      push_cast
      rfl)
  covariance := by
    intro i _ j _ c hc d hd p hp p' hp'
    obtain rfl : p = 0 := by omega
    obtain rfl : p' = 0 := by omega
    have e : ∫ ω, mapN ω c 0 * mapN ω d 0 ∂mu3 = if c = d then 1 / 3 else 0 := by
      have h := mean2 (i := c) (j := d) (by rcases ncomp_cases s with h | h <;> omega) (by rcases ncomp_cases s with h | h <;> omega)
      have h2 : ((∫ ω, mapN ω c 0 * mapN ω d 0 ∂mu3 : ℝ) : ℂ) = ∫ ω, (die ω c : ℂ) * (die ω d : ℂ) ∂mu3 := by
        rw [← integral_complex_ofReal]
        refine integral_congr_ae (Filter.Eventually.of_forall fun ω => ?_)
        unfold mapN
        simp
      rw [h] at h2
      have h3 := congrArg Complex.re h2
      rw [Complex.ofReal_re] at h3
      rw [h3]
      split_ifs <;> norm_num
    rw [e]
    have hp := Real.pi_ne_zero
    by_cases h : c = d
    · rw [if_pos h, if_pos ⟨rfl, h, rfl⟩]
      unfold levelN areaN
      field_simp
    · rw [if_neg h, if_neg (by tauto)]

/-- The arguments: the mask is 1 in the pixel, and the band limits are given. -/
noncomputable def argsN (s lmax lmaxMask : ℕ) : FieldArgs :=
  { SkyExample.args4 with mask := oneMask 1, spin := some s, lmax := some lmax, lmaxMask := some lmaxMask }

theorem plainN (s : ℕ) {lmax lmaxMask : ℕ} (h1 : 0 < lmax) (h2 : 0 < lmaxMask) :
    ∃ f : Three → FieldObj, PlainFields envN (argsN s lmax lmaxMask) s lmax lmaxMask mapN f := by
  have hm : ∃ f : Three → FieldObj, ∀ ω, nmtField envN ((argsN s lmax lmaxMask).withMaps (ncomp s) 1 (mapN ω)) = .ok (f ω) := by
    apply Classical.axiomOfChoice (r := fun ω f => nmtField envN ((argsN s lmax lmaxMask).withMaps (ncomp s) 1 (mapN ω)) = .ok f)
    intro ω
    unfold nmtField fieldChecks fieldMasks mapChecks fieldFinish
    by_cases h : s = 0
    · simp [argsN, SkyExample.args4, FieldArgs.withMaps, envN, Outcome.bind, pickSpin, baseObj, ncomp, h, h1.ne', h2.ne']
    · simp [argsN, SkyExample.args4, FieldArgs.withMaps, envN, Outcome.bind, pickSpin, baseObj, ncomp, h, h1.ne', h2.ne']
  obtain ⟨f, hf⟩ := hm
  exact ⟨f, ⟨rfl, rfl, rfl, rfl, by norm_num [argsN, SkyExample.args4]⟩, rfl, rfl, ⟨rfl, rfl⟩, by unfold spinOf argsN; rfl, rfl, rfl, hf⟩

section
variable {s lmax lmaxMask : ℕ} {f : Three → FieldObj}

theorem spectraN (hf : PlainFields envN (argsN s lmax lmaxMask) s lmax lmaxMask mapN f) (minfo : MapInfo) : ∃ P : Three → Arr2 ℝ,
    ∀ ω, computeCoupledCell ((f ω).view envN.sht minfo) ((f ω).view envN.sht minfo) true = .ok (some (P ω)) := by
  choose A hA _ using fun ω => plain_coefs hf (pixelsN s) ω
  exact ⟨_, fun ω => coupled_fields envN minfo _ _ true rfl rfl _ _ (hA ω) (hA ω)⟩

theorem covN (hf : PlainFields envN (argsN s lmax lmaxMask) s lmax lmaxMask mapN f) (h : lmax ≤ lmaxMask) (minfo : MapInfo) (junk : ℕ → ℝ)
    (ω : Three) : ∃ cw, cw.lmax = lmax ∧ cw.spin0Only = false ∧
    covCompute racah (fun _ => envN.sht) junk none ((f ω).covField minfo) ((f ω).covField minfo)
      (some ((f ω).covField minfo)) (some ((f ω).covField minfo)) 0 0 0 false = (some cw, .ok ()) := by
  obtain ⟨p1, p2, p4, p5, p8, -⟩ := plain_facts hf ω
  set F := (f ω).covField minfo with hF
  have hs2 : SameSky F F := ⟨minfoNe_self _, rfl, rfl⟩
  have ha : F.aniso = false := by
    rw [hF]
    unfold FieldObj.covField
    simp [p4]
  have hk : F.mask = some (oneMask 1) := congrArg some p5
  have hacc : Accepts F F F F 0 0 0 := ⟨⟨ha, ha, ha, ha⟩, ⟨hs2, hs2, hs2⟩, Or.inl (le_refl _)⟩
  have hc := covCompute_accepts racah (fun _ => envN.sht) junk none _ _ _ _ 0 0 0 false hacc
  have g1 : F.geom.lmax = lmax := p1
  have g2 : F.geom.lmaxMask = lmaxMask := p2
  rw [covCompute_masks racah (fun _ => envN.sht) junk _ _ _ _ 0 0 0 false hk hk hk hk, if_neg (by rw [g1, g2]; omega)] at hc
  exact ⟨_, g1, rfl, hc⟩

end

/-- The spectra of the noise. -/
noncomputable def clN (s lmax : ℕ) : Arr2 ℝ := ⟨ncomp s * ncomp s, lmax + 1, fun k _ => if k / ncomp s = k % ncomp s then 4 * Real.pi / 3 else 0⟩

theorem clN_true (s lmax : ℕ) : TrueSpectra ⟨clN s lmax, clN s lmax, clN s lmax, clN s lmax⟩ (fun _ => s) lmax (noiseSpectra (fun _ => s) levelN) := by
  have h : ∀ i j, HoldsSpectra (clN s lmax) s s lmax (noiseSpectra (fun _ => s) levelN i j) := by
    intro i j X _ Y hY l _
    unfold clN noiseSpectra levelN
    dsimp only
    rw [Nat.add_mul_div_left _ _ (by omega), Nat.div_eq_of_lt hY, zero_add, Nat.add_mul_mod_self_left, Nat.mod_eq_of_lt hY]
    exact if_congr (by simp) rfl rfl
  exact ⟨h _ _, h _ _, h _ _, h _ _⟩

/-- A workspace with one band with one multipole. -/
noncomputable def wspN (s l : ℕ) : Wsp ℝ :=
  ⟨ncomp s * ncomp s, l, l, l, false, 0, 0, fun _ => 1, fun _ => 1, some fun i j => if i = j then 1 else 0, ⟨l, [[⟨l, 1, 1⟩]]⟩, fun i j => if i = j then 1 else 0⟩

theorem boundedN (s l : ℕ) : WspSpec.Bounded (wspN s l).bin (wspN s l).bin.ellMax := by simp [WspSpec.Bounded, wspN]

theorem noRepeatsN (s l : ℕ) : BinSpec.NoRepeats (wspN s l).bin := by simp [BinSpec.NoRepeats, wspN]

theorem regularN (s l : ℕ) : Regular (wspN s l).nBinned (wspN s l).binned := by
  unfold Regular
  have : toMat (wspN s l).nBinned (wspN s l).binned = 1 := by
    ext i j
    rw [Matrix.one_apply]
    exact if_congr Fin.ext_iff.symm rfl rfl
  rw [this]
  simp

theorem acceptedN (s l : ℕ) (hl : l ≤ 2) {cw : CovWsp ℝ} (h1 : cw.lmax = l) (h2 : cw.spin0Only = false) (jk : CovJunk ℝ) (coupled : Bool) : ∃ Cov,
    gaussianCovariance (exactLinAlg ℝ) jk (some cw) s s s s ⟨clN s l, clN s l, clN s l, clN s l⟩ ⟨some (wspN s l), true⟩ (some ⟨some (wspN s l), true⟩)
      coupled = .ok Cov := by
  have hn : nmaps (s : ℤ) = ncomp s := nmaps_ncomp s
  refine (C29_accepts_iff rfl rfl (boundedN s l) (boundedN s l)).2 ⟨?_, ?_, ?_, ?_, ?_, ?_, ?_, ?_⟩
  · rw [hn]; rfl
  · rw [hn]; rfl
  · rw [hn]; exact ⟨rfl, rfl, rfl, rfl⟩
  · exact ⟨l + 1, by rw [h1], rfl, rfl, rfl, rfl⟩
  · rw [h1]; exact ⟨le_refl _, le_refl _⟩
  · intro h; rw [h2] at h; cases h
  · exact fun _ => ⟨rfl, rfl⟩
  · unfold covSize
    have hb : (wspN s l).bin.nBands = 1 := rfl
    have hcl : (wspN s l).ncls = ncomp s * ncomp s := rfl
    rw [hb, hcl, h1]
    interval_cases l <;> rcases ncomp_cases s with h | h <;> rw [h] <;> cases coupled <;> norm_num

/-- The spectrum of the mask. -/
theorem maskN (lmaxMask L : ℕ) (hL : L ≤ lmaxMask) : productSpectrum envN.sht lmaxMask 0 0 (oneMask 1) (oneMask 1) (oneMask 1) (oneMask 1) L =
    4 * Real.pi := by
  have h := productSpectrum_pixels (pixelsN 0) (oneMask 1) (oneMask 1) (oneMask 1) (oneMask 1) hL
  have hm : ∀ M : ℤ, pairMask yN 1 areaN (oneMask 1) (oneMask 1) L M = if M = 0 then ((4 * Real.pi * Real.sqrt ((2 * L + 1) / (4 * Real.pi)) : ℝ) : ℂ) else 0 := by
    intro M
    unfold pairMask
    rw [sum_range_one]
    unfold pointCoef yN areaN oneMask
    rw [conj_poleY]
    by_cases h0 : M = 0
    · rw [h0, poleY_zero]
      simp [side]
    · rw [poleY_scalar L h0, if_neg h0, mul_zero]
  simp only [hm] at h
  rw [sum_eq_single_of_mem 0 (by rw [mem_Icc]; omega)] at h
  · rw [if_pos rfl, Complex.conj_ofReal, ← Complex.ofReal_mul] at h
    have h2 : productSpectrum envN.sht lmaxMask 0 0 (oneMask 1) (oneMask 1) (oneMask 1) (oneMask 1) L =
        4 * Real.pi * Real.sqrt ((2 * L + 1) / (4 * Real.pi)) * (4 * Real.pi * Real.sqrt ((2 * L + 1) / (4 * Real.pi))) / (2 * L + 1) := by
      have := congrArg Complex.re h
      rw [Complex.ofReal_re] at this
      refine this.trans ?_
      rw [show ((2 : ℂ) * L + 1) = (((2 * L + 1 : ℝ)) : ℂ) by push_cast; ring, ← Complex.ofReal_div, Complex.ofReal_re]
    rw [h2]
    have hq := Real.mul_self_sqrt (show (0 : ℝ) ≤ (2 * L + 1) / (4 * Real.pi) by positivity)
    have hp := Real.pi_ne_zero
    calc _ = 16 * Real.pi ^ 2 * (Real.sqrt ((2 * L + 1) / (4 * Real.pi)) * Real.sqrt ((2 * L + 1) / (4 * Real.pi))) / (2 * L + 1) := by ring
      _ = _ := by rw [hq]; field_simp; norm_num
  · intro M _ hM
    rw [if_neg hM, zero_mul]

/-- Squares of the symbols for the multipole 1. -/
theorem coupling11 {Nw : ℕ} (hN : Nw = 1 ∨ Nw = 2) {pcl : ℕ → ℝ} (hp : ∀ L ≤ Nw, pcl L = 4 * Real.pi) :
    coupling racah 0 0 Nw pcl Even 1 1 = if Nw = 1 then 1 / 3 else 1 := by
  obtain ⟨h0, h1, h2⟩ := symbols11
  have hpi := Real.pi_ne_zero
  unfold coupling
  rcases hN with rfl | rfl
  · rw [sum_range_succ, sum_range_one, hp 0 (by norm_num), hp 1 (by norm_num)]
    simp only [h1, mul_zero, mul_assoc, ← sq, h0]
    norm_num
    field_simp
  · rw [sum_range_succ, sum_range_succ, sum_range_one, hp 0 (by norm_num), hp 1 (by norm_num), hp 2 (by norm_num)]
    simp only [h1, mul_zero, mul_assoc, ← sq, h0, h2]
    rw [if_pos (by decide), if_neg (by decide), if_pos (by decide), if_neg (by decide)]
    push_cast
    field_simp
    norm_num

/-- The odd part of the sum over symbols of spin 2 for the multipole 2. -/
theorem coupling22 {pcl : ℕ → ℝ} (hp : ∀ L ≤ 4, pcl L = 4 * Real.pi) : coupling racah 2 2 4 pcl Odd 2 2 = 1 / 2 := by
  have h1 := symbol_sum 2 2 2 2 (by norm_num) (by norm_num)
  have h2 := symbol_sum 2 2 2 (-2) (by norm_num) (by norm_num)
  rw [if_pos rfl] at h1
  rw [if_neg (by norm_num)] at h2
  have hpi := Real.pi_ne_zero
  have e : coupling racah 2 2 4 pcl Odd 2 2 = 1 / 2 * (∑ L ∈ range (2 + 2 + 1), (2 * (L : ℝ) + 1) * (wigner3j L 2 2 0 2 (-2) * wigner3j L 2 2 0 2 (-2)) -
      ∑ L ∈ range (2 + 2 + 1), (2 * (L : ℝ) + 1) * (wigner3j L 2 2 0 2 (-2) * wigner3j L 2 2 0 (-2) (- -2))) := by
    unfold coupling
    rw [← sum_sub_distrib, mul_sum]
    refine sum_congr rfl fun L hL => ?_
    have hr := wigner3j_reversal L 2 2 0 2 (-2)
    rw [neg_zero] at hr
    rw [hr, hp L (by rw [mem_range] at hL; omega), spin3j_racah]
    by_cases ho : Odd (L + 2 + 2)
    · rw [if_pos ho, ho.neg_one_pow]
      push_cast
      field_simp
      ring
    · rw [if_neg ho, (Nat.not_odd_iff_even.1 ho).neg_one_pow]
      ring
  rw [e, h1, h2]
  norm_num

/-- The variance of the pseudo-spectrum of scalar noise. -/
theorem varianceN {lmaxMask : ℕ} {f : Three → FieldObj} (hf : PlainFields envN (argsN 0 1 lmaxMask) 0 1 lmaxMask mapN f) {minfo : MapInfo}
    {P : Three → Arr2 ℝ} (hP : ∀ ω, computeCoupledCell ((f ω).view envN.sht minfo) ((f ω).view envN.sht minfo) true = .ok (some (P ω))) :
    covar mu3 (fun ω => (P ω).val 0 1) (fun ω => (P ω).val 0 1) = 32 * Real.pi ^ 2 / 9 := by
  obtain ⟨-, -, -, h⟩ := noise_covar (a := fun _ => argsN 0 1 lmaxMask) (s := fun _ => 0) (f := fun _ => f) (maps := fun _ => mapN) (fun _ _ => pixelsN 0) (fun _ _ => hf)
    (whiteN 0) hP hP (X := fun _ => 0) (fun _ _ => by norm_num [ncomp]) (l := 1) (l' := 1) le_rfl le_rfl (Nw := 2) le_rfl
  rw [if_pos ⟨rfl, rfl⟩, kernel_coupling (Or.inl rfl) (Or.inl rfl), if_pos ⟨rfl, rfl⟩,
    show productSpectrum envN.sht 2 0 0 (argsN 0 1 lmaxMask).mask (argsN 0 1 lmaxMask).mask (argsN 0 1 lmaxMask).mask (argsN 0 1 lmaxMask).mask =
      productSpectrum envN.sht 2 0 0 (oneMask 1) (oneMask 1) (oneMask 1) (oneMask 1) from rfl, coupling11 (Or.inr rfl) (fun L hL => maskN 2 L hL)] at h
  simp only [mul_zero, add_zero] at h
  unfold levelN at h
  norm_num at h
  linarith

/-- The hypotheses of C85 are met by scalar noise, with a mask with band limit 2: the covariance of the pseudo-spectrum at multipole 1, and of the bandpower, is
`32 pi^2 / 9`. -/
example (minfo : MapInfo) (junk : ℕ → ℝ) (jk : CovJunk ℝ) : ∃ (f : Three → FieldObj) (P D : Three → Arr2 ℝ) (cw : CovWsp ℝ) (Cov Cov' : Arr2 ℝ),
    PlainFields envN (argsN 0 1 2) 0 1 2 mapN f ∧
    (∀ ω, computeCoupledCell ((f ω).view envN.sht minfo) ((f ω).view envN.sht minfo) true = .ok (some (P ω))) ∧
    (∀ ω, decoupleCell (exactLinAlg ℝ) (wspN 0 1) (P ω) none none = .ok (D ω)) ∧
    gaussianCovariance (exactLinAlg ℝ) jk (some cw) 0 0 0 0 ⟨clN 0 1, clN 0 1, clN 0 1, clN 0 1⟩ ⟨some (wspN 0 1), true⟩ (some ⟨some (wspN 0 1), true⟩) true =
      .ok Cov ∧
    gaussianCovariance (exactLinAlg ℝ) jk (some cw) 0 0 0 0 ⟨clN 0 1, clN 0 1, clN 0 1, clN 0 1⟩ ⟨some (wspN 0 1), true⟩ (some ⟨some (wspN 0 1), true⟩) false =
      .ok Cov' ∧
    Cov.val 1 1 = covar mu3 (fun ω => (P ω).val 0 1) (fun ω => (P ω).val 0 1) ∧
    Cov'.val 0 0 = covar mu3 (fun ω => (D ω).val 0 0) (fun ω => (D ω).val 0 0) ∧
    covar mu3 (fun ω => (P ω).val 0 1) (fun ω => (P ω).val 0 1) = 32 * Real.pi ^ 2 / 9 := by
  obtain ⟨f, hf⟩ := plainN 0 (lmax := 1) (lmaxMask := 2) (by norm_num) (by norm_num)
  obtain ⟨P, hP⟩ := spectraN hf minfo
  obtain ⟨cw, c1, c2, hcw⟩ := covN hf (by norm_num) minfo junk (0, 0, 0)
  obtain ⟨Cov, hCov⟩ := acceptedN 0 1 (by norm_num) c1 c2 jk true
  obtain ⟨Cov', hCov'⟩ := acceptedN 0 1 (by norm_num) c1 c2 jk false
  have hrow : ∀ ω, (P ω).rows = (wspN 0 1).ncls ∧ (P ω).cols = 2 := by
    obtain ⟨_, _, -, -, h⟩ := plain_spectra hf hf (pixelsN 0) (pixelsN 0) hP
    exact fun ω => ⟨(h ω).1, (h ω).2.1⟩
  have hD := fun ω => decoupleCell_ok (exactLinAlg ℝ) (wspN 0 1) (P ω) (hrow ω).1 (by rw [(hrow ω).2]; exact le_refl _)
  refine ⟨f, P, _, cw, Cov, Cov', hf, hP, hD, hCov, hCov', ?_, ?_, varianceN hf hP⟩
  · have := C85_coupled_partial (a := fun _ => argsN 0 1 2) (s := fun _ => 0) (maps := fun _ => mapN) (f := fun _ => f) (ω0 := (0, 0, 0))
      (fun _ _ => pixelsN 0) (fun _ _ => hf) (whiteN 0) (fun _ _ => Or.inl rfl) hP hP (fun _ _ _ => rfl) rfl (le_refl _) hcw (clN_true 0 1) rfl rfl
      (boundedN 0 1) (boundedN 0 1) (noRepeatsN 0 1) (noRepeatsN 0 1) hCov (fun _ => 0) (fun _ _ => by norm_num [ncomp]) (by simp [NoMixing])
      (e := ⟨1, 1, 1⟩) (e' := ⟨1, 1, 1⟩) (by simp [wspN]) (by simp [wspN]) le_rfl
    simpa [wspN, ncomp] using this
  · exact C85_bandpowers_partial (a := fun _ => argsN 0 1 2) (s := fun _ => 0) (maps := fun _ => mapN) (f := fun _ => f) (ω0 := (0, 0, 0))
      (fun _ _ => pixelsN 0) (fun _ _ => hf) (whiteN 0) (fun _ _ => Or.inl rfl) ⟨0, by norm_num, rfl⟩ hP hP (fun _ _ _ => rfl) rfl (le_refl _) hcw (clN_true 0 1)
      exactLinAlg_correct rfl rfl (boundedN 0 1) (boundedN 0 1) (regularN 0 1) (regularN 0 1) hD hD hCov' (by simp [wspN])
      (k := 0) (k' := 0) (b := 0) (b' := 0) (by simp [wspN, ncomp]) (by simp [wspN, ncomp]) (by simp [wspN, Bins.nBands]) (by simp [wspN, Bins.nBands])

end NoiseExample

open NoiseExample KnoxExample

/-- C85 is false of the code with the default band limit of the masks, which is that of the maps: for white noise of a scalar in one pixel, band limit 1, and
the true spectra, the returned variance of the pseudo-spectrum at multipole 1 is a third of the true one. -/
theorem C85_default_wrong (minfo : MapInfo) (junk : ℕ → ℝ) (jk : CovJunk ℝ) : ∃ (Ω : Type) (_ : MeasurableSpace Ω) (μ : Measure Ω) (env : FieldEnv)
    (a : FieldArgs) (q : ℕ → ℝ) (Y : ℤ → ℕ → ℤ → ℕ → ℂ) (maps : Ω → MapStack) (f : Ω → FieldObj) (N : ℕ → ℕ → ℝ) (x : Arr2 ℝ) (w : Wsp ℝ) (ω0 : Ω)
    (P : Ω → Arr2 ℝ) (cw : CovWsp ℝ) (Cov : Arr2 ℝ),
    PixelSums env.sht env.pix.npix q Y 0 ∧ PlainFields env a 0 1 1 maps f ∧ WhiteNoise μ env.pix.npix q (fun _ => 0) (fun _ => maps) N ∧
    TrueSpectra ⟨x, x, x, x⟩ (fun _ => 0) 1 (noiseSpectra (fun _ => 0) N) ∧
    (∀ ω, computeCoupledCell ((f ω).view env.sht minfo) ((f ω).view env.sht minfo) true = .ok (some (P ω))) ∧
    covCompute racah (fun _ => env.sht) junk none ((f ω0).covField minfo) ((f ω0).covField minfo) (some ((f ω0).covField minfo))
      (some ((f ω0).covField minfo)) 0 0 0 false = (some cw, .ok ()) ∧
    gaussianCovariance (exactLinAlg ℝ) jk (some cw) 0 0 0 0 ⟨x, x, x, x⟩ ⟨some w, true⟩ (some ⟨some w, true⟩) true = .ok Cov ∧
    w.bin.bands = [[⟨1, 1, 1⟩]] ∧ w.ncls = 1 ∧
    0 < covar μ (fun ω => (P ω).val 0 1) (fun ω => (P ω).val 0 1) ∧ Cov.val 1 1 = covar μ (fun ω => (P ω).val 0 1) (fun ω => (P ω).val 0 1) / 3 := by
  obtain ⟨f, hf⟩ := plainN 0 (lmax := 1) (lmaxMask := 1) (by norm_num) (by norm_num)
  obtain ⟨P, hP⟩ := spectraN hf minfo
  obtain ⟨cw, c1, c2, hcw⟩ := covN hf le_rfl minfo junk (0, 0, 0)
  obtain ⟨Cov, hCov⟩ := acceptedN 0 1 (by norm_num) c1 c2 jk true
  have hv := varianceN hf hP
  refine ⟨Three, inferInstance, mu3, envN, argsN 0 1 1, areaN, yN, mapN, f, levelN, clN 0 1, wspN 0 1, (0, 0, 0), P, cw, Cov, pixelsN 0, hf, whiteN 0,
    clN_true 0 1, hP, hcw, hCov, rfl, rfl, ?_, ?_⟩
  · rw [hv]; positivity
  · obtain ⟨-, -, hu⟩ := noise_sums (a := fun _ => argsN 0 1 1) (s := fun _ => 0) (maps := fun _ => mapN) (f := fun _ => f) (ω0 := (0, 0, 0))
      (fun _ _ => hf) (fun _ _ _ => rfl) rfl (le_refl _) hcw (fun h => by cases h)
    obtain ⟨u1, u2⟩ := hu 1 le_rfl 1 le_rfl
    have hc := coupled_val (a1 := ((0 : ℕ) : ℤ)) (a2 := ((0 : ℕ) : ℤ)) (b1 := ((0 : ℕ) : ℤ)) (b2 := ((0 : ℕ) : ℤ)) rfl rfl (boundedN 0 1) (boundedN 0 1)
      (noRepeatsN 0 1) (noRepeatsN 0 1) hCov (ea := ⟨1, 1, 1⟩) (eb := ⟨1, 1, 1⟩) (by simp [wspN]) (by simp [wspN]) (ia := 0) (ib := 0) (ic := 0) (id := 0)
      (by simp [nmaps]) (by simp [nmaps]) (by simp [nmaps]) (by simp [nmaps])
    have he := element_noise (s := fun _ => 0) (X := fun _ => 0) cw (clN_true 0 1) (fun _ _ => by norm_num [ncomp]) (l := 1) (l' := 1) le_rfl le_rfl (1 * 1)
    have hk : ∀ L ≤ 1, productSpectrum envN.sht 1 0 0 (argsN 0 1 1).mask (argsN 0 1 1).mask (argsN 0 1 1).mask (argsN 0 1 1).mask L = 4 * Real.pi :=
      fun L hL => maskN 1 L hL
    have e1 := u1.xi00.trans (coupling11 (Or.inl rfl) hk)
    have e2 := u2.xi00.trans (coupling11 (Or.inl rfl) hk)
    have hc' : Cov.val 1 1 = 1 * 1 * (levelN 0 2 * levelN 1 3 * cw.x1122.xi00 1 1 + levelN 0 3 * levelN 1 2 * cw.x1221.xi00 1 1) := by
      simpa [wspN, ncomp, nmaps, codeXi] using hc.trans he
    rw [hc', e1, e2, hv]
    unfold levelN
    norm_num
    ring

/-- C85 is false of the code for EE and BB, also with masks with a high enough band limit: for white noise of a field of spin 2 in one pixel and the true
spectra, the covariance of the pseudo-spectra EE and BB at multipole 2 is positive, and the returned one negative and four times as large. -/
theorem C85_EE_BB_wrong (minfo : MapInfo) (junk : ℕ → ℝ) (jk : CovJunk ℝ) : ∃ (Ω : Type) (_ : MeasurableSpace Ω) (μ : Measure Ω) (env : FieldEnv)
    (a : FieldArgs) (q : ℕ → ℝ) (Y : ℤ → ℕ → ℤ → ℕ → ℂ) (maps : Ω → MapStack) (f : Ω → FieldObj) (N : ℕ → ℕ → ℝ) (x : Arr2 ℝ) (w : Wsp ℝ) (ω0 : Ω)
    (P : Ω → Arr2 ℝ) (cw : CovWsp ℝ) (Cov : Arr2 ℝ),
    PixelSums env.sht env.pix.npix q Y 2 ∧ PlainFields env a 2 2 4 maps f ∧ WhiteNoise μ env.pix.npix q (fun _ => 2) (fun _ => maps) N ∧
    TrueSpectra ⟨x, x, x, x⟩ (fun _ => 2) 2 (noiseSpectra (fun _ => 2) N) ∧
    (∀ ω, computeCoupledCell ((f ω).view env.sht minfo) ((f ω).view env.sht minfo) true = .ok (some (P ω))) ∧
    covCompute racah (fun _ => env.sht) junk none ((f ω0).covField minfo) ((f ω0).covField minfo) (some ((f ω0).covField minfo))
      (some ((f ω0).covField minfo)) 0 0 0 false = (some cw, .ok ()) ∧
    gaussianCovariance (exactLinAlg ℝ) jk (some cw) 2 2 2 2 ⟨x, x, x, x⟩ ⟨some w, true⟩ (some ⟨some w, true⟩) true = .ok Cov ∧
    w.bin.bands = [[⟨2, 1, 1⟩]] ∧ w.ncls = 4 ∧
    0 < covar μ (fun ω => (P ω).val 0 2) (fun ω => (P ω).val 3 2) ∧
    Cov.val (4 * 2 + 0) (4 * 2 + 3) = -4 * covar μ (fun ω => (P ω).val 0 2) (fun ω => (P ω).val 3 2) := by
  obtain ⟨f, hf⟩ := plainN 2 (lmax := 2) (lmaxMask := 4) (by norm_num) (by norm_num)
  obtain ⟨P, hP⟩ := spectraN hf minfo
  obtain ⟨cw, c1, c2, hcw⟩ := covN hf (by norm_num) minfo junk (0, 0, 0)
  obtain ⟨Cov, hCov⟩ := acceptedN 2 2 (by norm_num) c1 c2 jk true
  refine ⟨Three, inferInstance, mu3, envN, argsN 2 2 4, areaN, yN, mapN, f, levelN, clN 2 2, wspN 2 2, (0, 0, 0), P, cw, Cov, pixelsN 2, hf, whiteN 2,
    clN_true 2 2, hP, hcw, hCov, rfl, rfl, ?_, ?_⟩
  · obtain ⟨-, -, -, h⟩ := noise_covar (a := fun _ => argsN 2 2 4) (s := fun _ => 2) (f := fun _ => f) (maps := fun _ => mapN) (fun _ _ => pixelsN 2)
      (fun _ _ => hf) (whiteN 2) hP hP (X := fun i => if i < 2 then 0 else 1) (fun i _ => by split_ifs <;> norm_num [ncomp]) (l := 2) (l' := 2) le_rfl le_rfl
      (Nw := 4) le_rfl
    have hk : coupling racah 2 2 4 (productSpectrum envN.sht 4 0 0 (argsN 2 2 4).mask (argsN 2 2 4).mask (argsN 2 2 4).mask (argsN 2 2 4).mask) Odd 2 2 =
        1 / 2 := coupling22 fun L hL => maskN 4 L hL
    simp only [and_self, if_true, kernel_coupling (s1 := 2) (s2 := 2) (Or.inr rfl) (Or.inr rfl), hk] at h
    norm_num [ncomp, levelN] at h
    have hpi := Real.pi_pos
    nlinarith [h, mul_pos hpi hpi]
  · have := C85_mixing_wrong (a := fun _ => argsN 2 2 4) (s := fun _ => 2) (maps := fun _ => mapN) (f := fun _ => f) (ω0 := (0, 0, 0))
      (fun _ _ => pixelsN 2) (fun _ _ => hf) (whiteN 2) (fun _ _ => rfl) hP hP (fun _ _ _ => rfl) rfl (le_refl _) hcw (clN_true 2 2) rfl rfl
      (boundedN 2 2) (boundedN 2 2) (noRepeatsN 2 2) (noRepeatsN 2 2) hCov (c := 0) (c' := 1) (by norm_num) (by norm_num) (by norm_num)
      (e := ⟨2, 1, 1⟩) (e' := ⟨2, 1, 1⟩) (by simp [wspN]) (by simp [wspN]) le_rfl
    simpa [wspN, ncomp] using this

end NaMaster
