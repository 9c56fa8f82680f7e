import Verif.Sky.AnisoProps
import Verif.Sky.Example

/-! # Cases for C83

Spin 1, the four skies of `Sky.Example` as E-modes. The transforms of the masks are given by their coefficients, the transforms of the weighted
maps by exact products. -/

namespace NaMaster

open Finset MeasureTheory WignerSpec SkySpec CouplingSpec
open scoped ENNReal

namespace AnisoExample

open SkyExample

/-- Only one coefficient, with `m = 0`. -/
noncomputable def point (r : ℝ) (L0 : ℕ) (l : ℕ) (m : ℤ) : ℂ := if l = L0 ∧ m = 0 then (r : ℂ) else 0

/-- The skies: E-modes. -/
noncomputable def skyE (ω : Fin 4) (X : ℕ) (l : ℕ) (m : ℤ) : ℂ := if X = 0 then sky4 ω 0 l m else 0

/-- Coefficients of the spin part of the mask: E only. -/
noncomputable def spinPart (r : ℝ) (c : ℕ) : ℕ → ℤ → ℂ := if c = 0 then point r 2 else fun _ _ => 0

/-- Coefficients of positive spin of the weighted sky. -/
noncomputable def plusOf (w : ℕ → ℤ → ℂ) (wa F : ℕ → ℕ → ℤ → ℂ) (l : ℕ) (m : ℤ) : ℂ :=
  productCoef 1 0 1 2 1 w (fun l m => spinCoef 1 (F 0 l m) (F 1 l m)) l m +
    productCoef 1 2 (-1) 2 1 (fun l m => spinCoef 2 (wa 0 l m) (wa 1 l m)) (fun l m => spinCoef (-1) (F 0 l m) (F 1 l m)) l m

/-- Coefficients of negative spin of the weighted sky. -/
noncomputable def minusOf (w : ℕ → ℤ → ℂ) (wa F : ℕ → ℕ → ℤ → ℂ) (l : ℕ) (m : ℤ) : ℂ :=
  productCoef (-1) 0 (-1) 2 1 w (fun l m => spinCoef (-1) (F 0 l m) (F 1 l m)) l m +
    productCoef (-1) (-2) 1 2 1 (fun l m => spinCoef (-2) (wa 0 l m) (wa 1 l m)) (fun l m => spinCoef 1 (F 0 l m) (F 1 l m)) l m

/-- Components of the weighted sky. -/
noncomputable def weightedOf (w : ℕ → ℤ → ℂ) (wa F : ℕ → ℕ → ℤ → ℂ) : Alms := fun c l m =>
  if c = 0 then (minusOf w wa F l m - plusOf w wa F l m) / 2 else Complex.I * (plusOf w wa F l m + minusOf w wa F l m) / 2

/-- The transforms: linear in the maps. -/
noncomputable def sht83 (w : ℕ → ℤ → ℂ) (wa : ℕ → ℕ → ℤ → ℂ) : Sht where
  m2a s _ v c l m := if s = 0 then (v 0 0 : ℂ) * w l m else if s = 2 then 2 * (v 0 0 : ℂ) * wa c l m
    else ∑ ω : Fin 4, (2 / 3 : ℂ) * (v 0 ω : ℂ) * weightedOf w wa (skyE ω) c l m
  a2m _ _ _ _ _ := 0
  pad := id
  unpad := id

/-- The environment. -/
noncomputable def env83 (w : ℕ → ℤ → ℂ) (wa : ℕ → ℕ → ℤ → ℂ) : FieldEnv := ⟨⟨4, fun _ => Real.pi⟩, sht83 w wa, exactEigen, fun _ _ => none, 1⟩

theorem transform83 (w : ℕ → ℤ → ℂ) (wa : ℕ → ℕ → ℤ → ℂ) (s : ℤ) (n : ℕ) (v : MapStack) (c l m : ℕ) :
    (env83 w wa).sht.map2alm s n 0 v c l m = if s = 0 then (v 0 0 : ℂ) * w l m else if s = 2 then 2 * (v 0 0 : ℂ) * wa c l m
      else ∑ ω : Fin 4, (2 / 3 : ℂ) * (v 0 ω : ℂ) * weightedOf w wa (skyE ω) c l m := rfl

/-- The arguments: weights 3/2 and 1/2. -/
noncomputable def args83 : FieldArgs :=
  { args4 with mask := fun _ => 3 / 2, mask22 := some fun _ => 1 / 2, mask12 := some fun _ => 0, spin := some 1, lmaxMask := some 2 }

/-- The maps: one in one pixel. -/
noncomputable def map83 (ω : Fin 4) : MapStack := fun c p => if c = 0 ∧ p = ω then 1 else 0

theorem made83 (w : ℕ → ℤ → ℂ) (wa : ℕ → ℕ → ℤ → ℂ) :
    ∃ f : Fin 4 → FieldObj, ∀ ω, nmtField (env83 w wa) (args83.withMaps 2 4 (map83 ω)) = .ok (f ω) ∧ (f ω).spin = 1 := by
  apply Classical.axiomOfChoice (r := fun ω f => nmtField (env83 w wa) (args83.withMaps 2 4 (map83 ω)) = .ok f ∧ f.spin = 1)
  intro ω
  unfold nmtField fieldChecks fieldMasks mapChecks fieldFinish
  have h : ¬ ∃ p ∈ range (env83 w wa).pix.npix, (3 / 2 : ℝ) * (1 / 2) - 0 ^ 2 < -1e-5 * ((∑ p ∈ range (env83 w wa).pix.npix, ((3 / 2 : ℝ) + 1 / 2)) /
      (env83 w wa).pix.npix) := by
    push Not
    intro p _
    simp [env83]
    norm_num
  simp only [args83, FieldArgs.withMaps, args4, h, if_false]
  simp [env83, Outcome.bind, pickSpin, baseObj]

/-- The fields. -/
noncomputable def field83 (w : ℕ → ℤ → ℂ) (wa : ℕ → ℕ → ℤ → ℂ) : Fin 4 → FieldObj := (made83 w wa).choose

theorem map83_tab (ω : Fin 4) : tab2 2 4 (map83 ω) = map83 ω := by
  funext c p
  unfold tab2 map83
  by_cases h : c < 2 ∧ p < 4
  · rw [if_pos h]
  · rw [if_neg h, if_neg]
    have := ω.isLt
    omega

theorem sky4_real (ω : Fin 4) : RealCoefs (sky4 ω 0) := coef_real _

theorem fields83 (w : ℕ → ℤ → ℂ) (wa : ℕ → ℕ → ℤ → ℂ) (hw : RealCoefs w) (hwa : ∀ c < 2, RealCoefs (wa c)) :
    AnisoFieldsOf (env83 w wa) args83 (fun _ => 1 / 2) (fun _ => 0) 1 1 2 w wa skyE map83 (field83 w wa) where
  mask22 := rfl
  mask12 := rfl
  unmasked := rfl
  full := rfl
  spin := fun ω => ((made83 w wa).choose_spec ω).2
  bandLimit := rfl
  maskBandLimit := rfl
  maskCoefs := by
    intro L hL m hm
    refine (transform83 w wa _ _ _ _ _ _).trans ?_
    rw [if_pos rfl]
    unfold single args83
    norm_num
  maskCoefsA := by
    intro c hc L hL m hm
    refine (transform83 w wa _ _ _ _ _ _).trans ?_
    rw [if_neg (by norm_num), if_pos (by norm_num), if_pos rfl]
    unfold args83
    norm_num
  maskReal := hw
  maskRealA := hwa
  skyReal := by
    intro ω X _
    unfold skyE
    by_cases h : X = 0
    · simp only [h, if_true]; exact sky4_real ω
    · intro l m; simp [h]
  observed := by
    intro ω
    have key : ∀ c l m, (env83 w wa).sht.map2alm ((1 : ℕ) : ℤ) 1 args83.nIter (weighted args83.mask (fun _ => 1 / 2) (fun _ => 0)
        (tab2 2 (env83 w wa).pix.npix (map83 ω))) c l m = weightedOf w wa (skyE ω) c l m := by
      intro c l m
      refine (transform83 w wa _ _ _ _ _ _).trans ?_
      change (if (((1 : ℕ) : ℤ)) = 0 then _ else if (((1 : ℕ) : ℤ)) = 2 then _ else
        ∑ ω' : Fin 4, (2 / 3 : ℂ) * ((weighted (fun _ => 3 / 2) (fun _ => 1 / 2) (fun _ => 0) (tab2 2 4 (map83 ω)) 0 ω' : ℝ) : ℂ) *
          weightedOf w wa (skyE ω') c l m) = _
      rw [if_neg (by norm_num), if_neg (by norm_num), map83_tab, sum_eq_single ω]
      · unfold weighted map83
        simp
      · intro b _ hb
        unfold weighted map83
        have : ¬ (b : ℕ) = ω := fun h => hb (Fin.ext h)
        simp [this]
      · simp
    have hI : Complex.I * Complex.I = -1 := Complex.I_mul_I
    constructor
    · intro l hl m hm
      rw [key, key]
      change spinCoef 1 _ _ = plusOf w wa (skyE ω) l m
      unfold spinCoef weightedOf
      simp only [if_true, one_ne_zero, if_false, zero_lt_one]
      linear_combination (-(plusOf w wa (skyE ω) l m + minusOf w wa (skyE ω) l m) / 2) * hI
    · intro l hl m hm
      rw [key, key]
      change spinCoef (-1) _ _ = minusOf w wa (skyE ω) l m
      unfold spinCoef weightedOf
      simp only [if_true, one_ne_zero, if_false]
      rw [if_neg (by norm_num)]
      norm_num
      linear_combination (-(plusOf w wa (skyE ω) l m + minusOf w wa (skyE ω) l m) / 2) * hI
  made := fun ω => ((made83 w wa).choose_spec ω).1

theorem isotropicE {C : ℕ → ℕ → ℕ → ℝ} (h0 : C 0 0 0 = 0) (h1 : C 0 0 1 = Real.pi) (h2 : ∀ X Y l, X ≠ 0 ∨ Y ≠ 0 → C X Y l = 0) :
    Isotropic mu4 2 2 1 skyE skyE C := by
  have := probability4
  refine ⟨fun _ _ _ _ _ _ _ _ => Integrable.of_finite, ?_⟩
  intro X hX Y hY q hq r hr
  by_cases h : X = 0 ∧ Y = 0
  · obtain ⟨rfl, rfl⟩ := h
    exact (isotropic4 h0 h1).covariance 0 (by norm_num) 0 (by norm_num) q hq r hr
  · have hn : X ≠ 0 ∨ Y ≠ 0 := by omega
    rw [h2 X Y q.1 hn]
    have hz : ∀ ω, skyE ω X q.1 q.2 * (starRingEnd ℂ) (skyE ω Y r.1 r.2) = 0 := by
      intro ω
      unfold skyE
      rcases hn with hn | hn <;> simp [hn]
    simp [hz]

theorem point_real (r : ℝ) (L0 : ℕ) : RealCoefs (point r L0) := by
  intro l m
  unfold point
  by_cases h : l = L0 ∧ m = 0
  · obtain ⟨rfl, rfl⟩ := h; simp
  · rw [if_neg h, if_neg (by omega)]; simp

theorem spinPart_real (r : ℝ) (c : ℕ) : RealCoefs (spinPart r c) := by
  unfold spinPart
  split_ifs
  · exact point_real r 2
  · intro l m; simp

/-- The parts of the mask. -/
theorem maskPart_val (r0 : ℝ) (L0 : ℕ) (r : ℝ) (k : ℕ) : maskPart (point r0 L0) (spinPart r) k =
    if k = 0 then point r0 L0 else if k = 1 then point r 2 else fun _ _ => 0 := by
  unfold maskPart spinPart
  by_cases h0 : k = 0
  · simp [h0]
  · by_cases h1 : k = 1
    · simp [h1]
    · have : k - 1 ≠ 0 := by omega
      simp [h0, h1, this]

theorem alm2cl_point (r1 r2 : ℝ) (L1 L2 l : ℕ) : alm2cl (fun l m => point r1 L1 l m) (fun l m => point r2 L2 l m) l =
    if l = L1 ∧ l = L2 then r1 * r2 / (2 * l + 1) else 0 := by
  unfold alm2cl
  have h : ∀ m ∈ range (l + 1), (if m = 0 then (1 : ℝ) else 2) * (point r1 L1 l m * (starRingEnd ℂ) (point r2 L2 l m)).re =
      if m = 0 then (if l = L1 ∧ l = L2 then r1 * r2 else 0) else 0 := by
    intro m _
    unfold point
    by_cases h0 : m = 0
    · by_cases h1 : l = L1 <;> by_cases h2 : l = L2 <;> simp_all
    · simp [h0]
  rw [sum_congr rfl h, sum_ite_eq' (range (l + 1)) 0 (fun _ => if l = L1 ∧ l = L2 then r1 * r2 else 0), if_pos (by simp)]
  split_ifs <;> simp

/-- The cross-spectra of the parts of the mask. -/
theorem spectra83 (r0 : ℝ) (L0 : ℕ) (r : ℝ) {L : ℕ} (hL : L ≤ 2) (k j : ℕ) (hk : k < 3) (hj : j < 3) :
    maskSpectra (env83 (point r0 L0) (spinPart r)).sht (field83 (point r0 L0) (spinPart r) 0) (field83 (point r0 L0) (spinPart r) 0) k j L =
      if k = 2 ∨ j = 2 then 0 else
        if L = (if k = 0 then L0 else 2) ∧ L = (if j = 0 then L0 else 2) then (if k = 0 then r0 else r) * (if j = 0 then r0 else r) / (2 * L + 1) else 0 := by
  have hf := (fields83 _ _ (point_real r0 L0) (fun c _ => spinPart_real r c)).fieldFacts 0
  have hp := hf.parts
  have hc : maskSpectra (env83 (point r0 L0) (spinPart r)).sht (field83 (point r0 L0) (spinPart r) 0) (field83 (point r0 L0) (spinPart r) 0) k j L =
      alm2cl (fun l m => maskPart (point r0 L0) (spinPart r) k l m) (fun l m => maskPart (point r0 L0) (spinPart r) j l m) L := by
    unfold maskSpectra alm2cl
    congr 1
    refine sum_congr rfl fun m hm => ?_
    rw [mem_range] at hm
    rw [hp k hk L hL m (by omega), hp j hj L hL m (by omega)]
  rw [hc, maskPart_val, maskPart_val]
  by_cases h2 : k = 2 ∨ j = 2
  · rw [if_pos h2]
    unfold alm2cl
    rcases h2 with rfl | rfl <;> simp
  · rw [if_neg h2]
    have hk' : k = 0 ∨ k = 1 := by omega
    have hj' : j = 0 ∨ j = 1 := by omega
    rcases hk' with rfl | rfl <;> rcases hj' with rfl | rfl <;> simp [alm2cl_point]

theorem threej : wigner3j 1 2 1 1 (-2) 1 ^ 2 = 1 / 5 ∧ wigner3j 1 2 1 1 0 (-1) ^ 2 = 1 / 30 ∧ wigner3j 1 0 1 1 0 (-1) ^ 2 = 1 / 3 := by
  obtain ⟨i0, i1, i2, i3, i4⟩ := invFact_values
  have n1 : invFact (-1) = 0 := invFact_neg (by norm_num)
  have n2 : invFact (-2) = 0 := invFact_neg (by norm_num)
  unfold wigner3j
  refine ⟨?_, ?_, ?_⟩ <;> rw [if_pos (by unfold Allowed; norm_num)]
  all_goals
    norm_num only [Finset.sum_range_succ, Finset.sum_range_zero, Nat.cast_ofNat]
  all_goals
    norm_num [show fact 0 = 1 from rfl, show fact 1 = 1 from rfl, show fact 2 = 2 from rfl, show fact 3 = 6 from rfl, show fact 4 = 24 from rfl,
      show fact 5 = 120 from rfl, i0, i1, i2, i3, i4, n1, n2, mul_pow]

theorem partFac_vals : partFac 1 1 0 1 2 1 ^ 2 = 1 / 5 ∧ partFac 1 0 0 1 2 1 ^ 2 = 1 / 30 ∧ partFac 1 0 0 1 0 1 ^ 2 = 1 / 3 := by
  obtain ⟨h1, h2, h3⟩ := threej
  unfold partFac sfac
  refine ⟨?_, ?_, ?_⟩
  · rw [if_neg (by norm_num)]; norm_num [mul_pow]; norm_num at h1; exact h1
  · rw [if_pos rfl]; norm_num [mul_pow]; norm_num at h2; exact h2
  · rw [if_pos rfl]; norm_num [mul_pow]; norm_num at h3; exact h3

theorem partFac_comp (s k X l L l' : ℕ) : partFac s k X l L l' = partFac s k 0 l L l' := rfl

theorem triangle83 (w : ℕ → ℤ → ℂ) (wa : ℕ → ℕ → ℤ → ℂ) : (env83 w wa).sht.ReadsTriangle := by
  intro s lmax a b h
  rfl

theorem wsp83 (minfo : MapInfo) (w : ℕ → ℤ → ℂ) (wa : ℕ → ℕ → ℤ → ℂ) (hw : RealCoefs w) (hwa : ∀ c < 2, RealCoefs (wa c)) :
    ∃ W, wspFromFields racah (env83 w wa) minfo (field83 w wa 0) (field83 w wa 0) true bins4 wargs4 = .ok W := by
  have g := (fields83 w wa hw hwa).fieldFacts 0
  have hs : (field83 w wa 0).maskA.isSome = true := by rw [g.emaskA]; rfl
  unfold wspFromFields
  have e : bins4.ellMax = 1 := rfl
  simp only [hs, Bool.or_self, true_and, if_true]
  rw [if_neg (by unfold isCompatible FieldObj.view; simp), if_neg (by rw [e, g.elmax]; simp), if_neg (by decide),
    show toeplitzSanity wargs4.lT wargs4.lE wargs4.dl bins4.ellMax _ = none from rfl]
  dsimp only
  unfold normOf
  rw [if_pos (show wargs4.norm = "MASTER" from rfl)]
  simp only [Outcome.bind]
  rw [aniso_args _ _ _ _ _ (fun _ => rfl)]
  unfold compAnisoWsp
  have hb : (field83 w wa 0).beamList.length = 2 := by
    unfold FieldObj.beamList
    rw [g.ebeam]; simp [args83, args4]
  rw [if_neg (by simp [hb, g.elmax]), if_neg (by rw [e, g.elmax]; omega), if_neg (by rw [e]; simp [g.elmaxMask])]
  exact ⟨_, rfl⟩

/-- A spectrum with only the EE dipole. -/
noncomputable def specE : Arr2 ℝ := ⟨4, 1, fun k _ => if k = 0 then Real.pi else 0⟩

theorem unbinE : ∃ C, unbinCells bins4 specE = .ok C ∧ C.rows = 4 ∧ C.cols = 2 ∧ (∀ k < 4, C.val k 0 = 0) ∧ C.val 0 1 = Real.pi ∧
    ∀ k l, k ≠ 0 → C.val k l = 0 := by
  have hv : ∀ k l, k < 4 → l < 2 → (Arr2.of specE.rows (bins4.ellMax + 1) (fun a => unbinCls bins4 (specE.val a))).val k l = if l = 1 ∧ k = 0 then Real.pi else 0 := by
    intro k l hk hl
    unfold Arr2.of
    refine (tab2_of_lt (fun a => unbinCls bins4 (specE.val a)) (show k < 4 from hk) (show l < 1 + 1 from hl)).trans ?_
    obtain rfl | rfl : l = 0 ∨ l = 1 := by omega
    · simp [unbinCls, unbinFrom, unbinBand, bins4]
    · simp [unbinCls, unbinFrom, unbinBand, bins4, specE]
  refine ⟨_, by unfold unbinCells; rw [if_neg (by simp [specE, bins4, Bins.nBands])], rfl, rfl, ?_, ?_, ?_⟩
  · intro k hk
    refine (hv k 0 hk (by norm_num)).trans ?_
    simp
  · refine (hv 0 1 (by norm_num) (by norm_num)).trans ?_
    simp
  · intro k l hk
    by_cases h : k < 4 ∧ l < 2
    · refine (hv k l h.1 h.2).trans ?_
      simp [hk]
    · unfold Arr2.of tab2
      exact if_neg h

theorem kernel_point {h1 h2 : ℕ → ℕ → ℕ → ℕ → ℝ} {pcl : ℕ → ℝ} {L0 : ℕ} (hL : L0 ≤ 2) (hp : ∀ L ≤ 2, L ≠ L0 → pcl L = 0) (X Y X' Y' : ℕ) :
    kernelMatrix h1 h2 2 pcl 1 X Y 1 X' Y' = 3 * ((2 * L0 + 1) / (4 * Real.pi) * pcl L0 * h1 X 1 L0 1 * h2 Y 1 L0 1 * mixR X Y X' Y' (1 + L0 + 1)) := by
  unfold kernelMatrix
  rw [sum_eq_single_of_mem L0 (mem_range.2 (by omega))]
  · push_cast; norm_num
  · intro L hL hne
    rw [mem_range] at hL
    rw [hp L (by omega) hne]; ring

theorem kernel_none {h1 h2 : ℕ → ℕ → ℕ → ℕ → ℝ} {pcl : ℕ → ℝ} (hp : ∀ L ≤ 2, pcl L = 0) (X Y X' Y' : ℕ) :
    kernelMatrix h1 h2 2 pcl 1 X Y 1 X' Y' = 0 := by
  unfold kernelMatrix
  rw [sum_eq_zero, mul_zero]
  intro L hL
  rw [mem_range] at hL
  rw [hp L (by omega)]; ring

/-- The parts of the workspace. -/
theorem wsp83_parts (minfo : MapInfo) (w : ℕ → ℤ → ℂ) (wa : ℕ → ℕ → ℤ → ℂ) (hw : RealCoefs w) (hwa : ∀ c < 2, RealCoefs (wa c)) {W : Wsp ℝ}
    (h : wspFromFields racah (env83 w wa) minfo (field83 w wa 0) (field83 w wa 0) true bins4 wargs4 = .ok W) :
    ∃ (p : ℕ → ℝ), W = buildWsp 4 1 2 false 0 0 (fun l => (field83 w wa 0).beamList.getD l 0) (fun l => (field83 w wa 0).beamList.getD l 0) p
      (compAnisoMatrix racah ⟨1, 1, true, true, 2⟩ 1 (maskSpectra (env83 w wa).sht (field83 w wa 0) (field83 w wa 0) 0 0)
        (maskSpectra (env83 w wa).sht (field83 w wa 0) (field83 w wa 0) 0 1)
        (maskSpectra (env83 w wa).sht (field83 w wa 0) (field83 w wa 0) 0 2) (maskSpectra (env83 w wa).sht (field83 w wa 0) (field83 w wa 0) 1 0)
        (maskSpectra (env83 w wa).sht (field83 w wa 0) (field83 w wa 0) 2 0) (maskSpectra (env83 w wa).sht (field83 w wa 0) (field83 w wa 0) 1 1)
        (maskSpectra (env83 w wa).sht (field83 w wa 0) (field83 w wa 0) 1 2) (maskSpectra (env83 w wa).sht (field83 w wa 0) (field83 w wa 0) 2 1)
        (maskSpectra (env83 w wa).sht (field83 w wa 0) (field83 w wa 0) 2 2)) bins4 := by
  have g := (fields83 w wa hw hwa).fieldFacts 0
  have hs : (field83 w wa 0).maskA.isSome = true := by rw [g.emaskA]; rfl
  obtain ⟨-, n, hn, hc⟩ := wsp_aniso (Or.inl hs) h
  rw [aniso_args _ _ _ _ _ (fun _ => rfl)] at hc
  obtain ⟨-, -, hbuild⟩ := aniso_parts hc
  unfold normOf at hn
  rw [if_pos (show wargs4.norm = "MASTER" from rfl)] at hn
  obtain rfl := Outcome.ok.inj hn
  rw [hs, g.espin, g.elmax, g.elmaxMask] at hbuild
  exact ⟨_, hbuild⟩

theorem beam83 (w : ℕ → ℤ → ℂ) (wa : ℕ → ℕ → ℤ → ℂ) (hw : RealCoefs w) (hwa : ∀ c < 2, RealCoefs (wa c)) {l : ℕ} (hl : l < 2) :
    (field83 w wa 0).beamList.getD l 0 = 1 := by
  have g := (fields83 w wa hw hwa).fieldFacts 0
  unfold FieldObj.beamList
  rw [g.ebeam]
  obtain rfl | rfl : l = 0 ∨ l = 1 := by omega
  · simp [args83, args4, List.range_succ]
  · simp [args83, args4, List.range_succ]

end AnisoExample

open AnisoExample SkyExample in
/-- C83 fails for `NmtWorkspace.from_fields`: skies with a dipole of E-modes, an anisotropic mask with quadrupoles. The mean of the EE pseudo-spectrum
is not `couple_cell` of the true spectrum with the workspace made from the fields. -/
theorem C83_order_wrong (minfo : MapInfo) : ∃ (env : FieldEnv) (a : FieldArgs) (m22 m12 : ℕ → ℝ) (w : ℕ → ℤ → ℂ) (wa : ℕ → ℕ → ℤ → ℂ)
    (F : Fin 4 → ℕ → ℕ → ℤ → ℂ) (maps : Fin 4 → MapStack) (f : Fin 4 → FieldObj) (C : Arr2 ℝ) (B : Bins ℝ) (wargs : WspArgs) (W : Wsp ℝ)
    (P : Fin 4 → Arr2 ℝ) (U : ℕ → ℕ → ℝ) (R : Arr2 ℝ),
    env.sht.ReadsTriangle ∧ AnisoFieldsOf env a m22 m12 1 1 2 w wa F maps f ∧
      Isotropic mu4 2 2 1 F F (fun X Y l => a.beamAt l * a.beamAt l * C.val (2 * X + Y) l) ∧
      wspFromFields racah env minfo (f 0) (f 0) true B wargs = .ok W ∧
      (∀ ω, computeCoupledCell ((f ω).view env.sht minfo) ((f ω).view env.sht minfo) true = .ok (some (P ω))) ∧
      W.unbinned = some U ∧ coupleCell W U C = .ok R ∧ ∫ ω, (P ω).val 0 1 ∂mu4 ≠ R.val 0 1 := by
  have hw := point_real 1 2
  have hwa : ∀ c < 2, RealCoefs (spinPart 1 c) := fun c _ => spinPart_real 1 c
  have hF := fields83 _ _ hw hwa
  obtain ⟨C, hC, hCr, hCc, hC0, hC1, hC2⟩ := unbinE
  obtain ⟨W, hW⟩ := wsp83 minfo _ _ hw hwa
  obtain ⟨p, hb⟩ := wsp83_parts minfo _ _ hw hwa hW
  have hbeam : ∀ l, args83.beamAt l = 1 := by intro l; rfl
  have hI : Isotropic mu4 2 2 1 skyE skyE (fun X Y l => args83.beamAt l * args83.beamAt l * C.val (2 * X + Y) l) := by
    apply isotropicE
    · rw [hbeam, hC0 _ (by norm_num)]; ring
    · rw [hbeam, one_mul, one_mul]; exact hC1
    · intro X Y l h
      rw [hC2 _ _ (by omega)]; ring
  obtain ⟨P, hP, -, hmean⟩ := aniso_core (μ := mu4) (triangle83 (point 1 2) (spinPart 1)) minfo (Or.inr ⟨_, _, hF⟩) (Or.inr ⟨_, _, hF⟩) hI true 0
  have hl : W.lmax = 1 := by rw [hb]; rfl
  have hn : W.ncls = 4 := by rw [hb]; rfl
  obtain ⟨U, hU⟩ : ∃ U, W.unbinned = some U := by rw [hb]; exact ⟨_, rfl⟩
  refine ⟨_, _, _, _, _, _, _, _, _, C, bins4, wargs4, W, P, U, _, triangle83 _ _, hF, hI, hW, hP, hU,
    coupleCell_ok W U C (hCr.trans hn.symm) (by rw [hCc, hl]), ?_⟩
  have hm := (hmean 0 (by norm_num [ncomp]) 0 (by norm_num [ncomp]) 1 le_rfl).2
  rw [show ncomp 1 * 0 + 0 = 0 from rfl] at hm
  rw [hm]
  set S := maskSpectra (env83 (point 1 2) (spinPart 1)).sht (field83 (point 1 2) (spinPart 1) 0) (field83 (point 1 2) (spinPart 1) 0) with hS
  have hsp : ∀ k j, k < 3 → j < 3 → ∀ L ≤ 2, S k j L = if k = 2 ∨ j = 2 then 0 else if L = 2 then 1 / 5 else 0 := by
    intro k j hk hj L hL
    rw [hS, spectra83 1 2 1 hL k j hk hj]
    by_cases h2 : k = 2 ∨ j = 2
    · simp [h2]
    · by_cases hL2 : L = 2
      · subst hL2; simp [h2]; norm_num
      · simp [h2, hL2]
  have hmean' : ∑ l' ∈ range (1 + 1), ∑ X' ∈ range (ncomp 1), ∑ Y' ∈ range (ncomp 1), anisoKernel (ncomp 1) (ncomp 1) 1 1 2 S 1 0 0 l' X' Y' *
      (args83.beamAt l' * args83.beamAt l' * C.val (2 * X' + Y') l') = anisoKernel 2 2 1 1 2 S 1 0 0 1 0 0 * Real.pi := by
    simp only [hbeam, one_mul, show ncomp 1 = 2 from rfl, sum_range_succ, sum_range_zero, zero_add]
    simp [hC0, hC1, hC2]
  rw [hmean']
  -- the element of the matrix of the workspace
  let t : ℕ → ℕ → ℕ → ℝ := fun k j => if k = 0 ∧ j = 2 then S 1 0 else if k = 1 ∧ j = 0 then S 0 2 else S k j
  have hUv : U 4 4 = anisoKernel 2 2 1 1 2 t 1 0 0 1 0 0 := by
    have hU' := hU
    rw [hb] at hU'
    unfold buildWsp at hU'
    dsimp only at hU'
    rw [← Option.some.inj hU', tab2_of_lt _ (by decide) (by decide), C21_swapped]
    have := aniso_matrix_kernel ⟨1, 1, true, true, 2⟩ (by decide) (by decide) (by simp) (by simp) 1 t (by simp) (by simp) (l := 1) (l' := 1) (X := 0) (Y := 0)
      (X' := 0) (Y' := 0) le_rfl le_rfl (by decide) (by decide) (by decide) (by decide)
    rw [show (AnisoArgs.mk 1 1 true true 2).ncls = 4 by decide] at this
    simpa [t, ncomp] using this
  have hR : (Arr2.of W.ncls (W.lmax + 1) (coupleCl W.ncls W.lmax U W.beamProd C.val)).val 0 1 = U 4 4 * Real.pi := by
    rw [hn, hl]
    have hof : ∀ g : ℕ → ℕ → ℝ, (Arr2.of 4 (1 + 1) g).val 0 1 = g 0 1 := by
      intro g
      unfold Arr2.of
      exact tab2_of_lt g (show 0 < 4 by norm_num) (show 1 < 1 + 1 by norm_num)
    rw [hof]
    have hbp : W.beamProd 1 = 1 := by
      rw [hb]
      change tab (1 + 1) (fun l => _ * _) 1 = 1
      rw [tab_of_lt _ (by norm_num)]
      dsimp only
      rw [beam83 _ _ hw hwa (by norm_num), one_mul]
    unfold coupleCl
    simp only [sum_range_succ, sum_range_zero, zero_add]
    simp [hC0, hC1, hC2, hbp]
  refine fun hEq => ?_
  have hEq' : anisoKernel 2 2 1 1 2 S 1 0 0 1 0 0 * Real.pi = U 4 4 * Real.pi := hEq.trans hR
  rw [hUv] at hEq'
  have hEq2 := mul_right_cancel₀ Real.pi_ne_zero hEq'
  have z02 : ∀ L ≤ 2, S 0 2 L = 0 := by intro L hL; rw [hsp 0 2 (by norm_num) (by norm_num) L hL]; simp
  have e10 : ∀ L ≤ 2, L ≠ 2 → S 1 0 L = 0 := by intro L hL h2; rw [hsp 1 0 (by norm_num) (by norm_num) L hL]; simp [h2]
  have v10 : S 1 0 2 = 1 / 5 := by rw [hsp 1 0 (by norm_num) (by norm_num) 2 le_rfl]; simp
  unfold anisoKernel at hEq2
  simp only [sum_range_succ, sum_range_zero, zero_add] at hEq2
  simp only [t] at hEq2
  norm_num [turnIdx, turnSgn, kernel_none z02] at hEq2
  rw [kernel_point le_rfl e10, kernel_point le_rfl e10, v10] at hEq2
  norm_num [mixR] at hEq2
  obtain ⟨q1, q2, -⟩ := partFac_vals
  rcases hEq2 (by decide) with h | h
  · rw [h] at q1; norm_num at q1
  · rw [h] at q2; norm_num at q2

namespace AnisoExample

open SkyExample

/-- The mask for which the workspace is right: a constant and a quadrupole of the part with spin. -/
noncomputable def flat83 : ℕ → ℤ → ℂ := point (Real.sqrt (4 * Real.pi)) 0

theorem spectraFlat (k j : ℕ) (hk : k < 3) (hj : j < 3) {L : ℕ} (hL : L ≤ 2) :
    maskSpectra (env83 flat83 (spinPart 1)).sht (field83 flat83 (spinPart 1) 0) (field83 flat83 (spinPart 1) 0) k j L =
      if k = 0 ∧ j = 0 ∧ L = 0 then 4 * Real.pi else if k = 1 ∧ j = 1 ∧ L = 2 then 1 / 5 else 0 := by
  unfold flat83
  rw [spectra83 _ 0 1 hL k j hk hj]
  have hs : Real.sqrt (4 * Real.pi) * Real.sqrt (4 * Real.pi) = 4 * Real.pi := Real.mul_self_sqrt (by positivity)
  generalize Real.sqrt (4 * Real.pi) = q at hs
  have hk' : k = 0 ∨ k = 1 ∨ k = 2 := by omega
  have hj' : j = 0 ∨ j = 1 ∨ j = 2 := by omega
  have hL' : L = 0 ∨ L = 1 ∨ L = 2 := by omega
  rcases hk' with rfl | rfl | rfl <;> rcases hj' with rfl | rfl | rfl <;> rcases hL' with rfl | rfl | rfl <;> norm_num [hs]

/-- The matrix is diagonal. -/
theorem kernelFlat {X Y X' Y' : ℕ} (hX : X < 2) (hY : Y < 2) (hX' : X' < 2) (hY' : Y' < 2) :
    anisoKernel 2 2 1 1 2 (maskSpectra (env83 flat83 (spinPart 1)).sht (field83 flat83 (spinPart 1) 0) (field83 flat83 (spinPart 1) 0)) 1 X Y 1 X' Y' =
      if X = X' ∧ Y = Y' then 1 + (if X = Y then 1 else -1) * (3 / (20 * Real.pi)) else 0 := by
  set S := maskSpectra (env83 flat83 (spinPart 1)).sht (field83 flat83 (spinPart 1) 0) (field83 flat83 (spinPart 1) 0) with hS
  have hz : ∀ k j, k < 3 → j < 3 → ¬ (k = 0 ∧ j = 0) → ¬ (k = 1 ∧ j = 1) → ∀ L ≤ 2, S k j L = 0 := by
    intro k j hk hj h1 h2 L hL
    rw [hS, spectraFlat k j hk hj hL, if_neg (by tauto), if_neg (by tauto)]
  have h0 : ∀ L ≤ 2, L ≠ 0 → S 0 0 L = 0 := by
    intro L hL h
    rw [hS, spectraFlat 0 0 (by norm_num) (by norm_num) hL]; simp [h]
  have h1 : ∀ L ≤ 2, L ≠ 2 → S 1 1 L = 0 := by
    intro L hL h
    rw [hS, spectraFlat 1 1 (by norm_num) (by norm_num) hL]; simp [h]
  have v0 : S 0 0 0 = 4 * Real.pi := by rw [hS, spectraFlat 0 0 (by norm_num) (by norm_num) (by norm_num)]; simp
  have v1 : S 1 1 2 = 1 / 5 := by rw [hS, spectraFlat 1 1 (by norm_num) (by norm_num) (by norm_num)]; simp
  obtain ⟨q1, -, q3⟩ := partFac_vals
  unfold anisoKernel
  simp only [sum_range_succ, sum_range_zero, zero_add]
  rw [kernel_none (hz 0 1 (by norm_num) (by norm_num) (by norm_num) (by norm_num)), kernel_none (hz 0 2 (by norm_num) (by norm_num) (by norm_num) (by norm_num)),
    kernel_none (hz 1 0 (by norm_num) (by norm_num) (by norm_num) (by norm_num)), kernel_none (hz 1 2 (by norm_num) (by norm_num) (by norm_num) (by norm_num)),
    kernel_none (hz 2 0 (by norm_num) (by norm_num) (by norm_num) (by norm_num)), kernel_none (hz 2 1 (by norm_num) (by norm_num) (by norm_num) (by norm_num)),
    kernel_none (hz 2 2 (by norm_num) (by norm_num) (by norm_num) (by norm_num)), kernel_point (L0 := 0) (by norm_num) h0, kernel_point (L0 := 2) le_rfl h1, v0, v1,
    partFac_comp 1 0 X, partFac_comp 1 0 Y, partFac_comp 1 1 X, partFac_comp 1 1 Y]
  have hm : ∀ n, Even n → mixR X Y X' Y' n = if X = X' ∧ Y = Y' then 1 else 0 := by
    intro n hn
    unfold mixR
    simp [hn]
  have t0 : ∀ x, turnIdx 2 0 x = x := by intro x; unfold turnIdx; simp
  have t1 : ∀ x, turnIdx 2 1 x = x := by intro x; unfold turnIdx; simp
  have s0 : ∀ x, turnSgn 0 x = 1 := by intro x; unfold turnSgn; simp
  rw [t0, t0, t1, t1, s0, s0, hm _ (by decide), hm _ (by decide)]
  by_cases h : X = X' ∧ Y = Y'
  · obtain ⟨rfl, rfl⟩ := h
    have hsg : turnSgn 1 X * turnSgn 1 Y = if X = Y then 1 else -1 := by
      unfold turnSgn
      obtain rfl | rfl : X = 0 ∨ X = 1 := by omega
      · obtain rfl | rfl : Y = 0 ∨ Y = 1 := by omega
        · simp
        · simp
      · obtain rfl | rfl : Y = 0 ∨ Y = 1 := by omega
        · simp
        · simp
    rw [if_pos ⟨rfl, rfl⟩, if_pos ⟨rfl, rfl⟩, hsg]
    have hp := Real.pi_ne_zero
    set σ : ℝ := if X = Y then 1 else -1
    field_simp
    push_cast
    linear_combination (1200 * Real.pi) * q3 + 300 * σ * q1
  · rw [if_neg h, if_neg h]; ring

theorem regular83 (minfo : MapInfo) (W : Wsp ℝ)
    (h : wspFromFields racah (env83 flat83 (spinPart 1)) minfo (field83 flat83 (spinPart 1) 0) (field83 flat83 (spinPart 1) 0) true bins4 wargs4 = .ok W) :
    Regular W.nBinned W.binned := by
  have hw : RealCoefs flat83 := point_real _ _
  have hwa : ∀ c < 2, RealCoefs (spinPart 1 c) := fun c _ => spinPart_real 1 c
  obtain ⟨p, hb⟩ := wsp83_parts minfo _ _ hw hwa h
  have hW4 : W.ncls = 4 := by rw [hb]; rfl
  have hbn : W.bin.nBands = 1 := by rw [hb]; rfl
  have hent : ∀ x y, x < 4 → y < 4 → W.binned x y = if x = y then 1 + (if x / 2 = x % 2 then 1 else -1) * (3 / (20 * Real.pi)) else 0 := by
    intro x y hx hy
    set U0 := compAnisoMatrix racah ⟨1, 1, true, true, 2⟩ 1 (maskSpectra (env83 flat83 (spinPart 1)).sht (field83 flat83 (spinPart 1) 0) (field83 flat83 (spinPart 1) 0) 0 0)
        (maskSpectra (env83 flat83 (spinPart 1)).sht (field83 flat83 (spinPart 1) 0) (field83 flat83 (spinPart 1) 0) 0 1)
        (maskSpectra (env83 flat83 (spinPart 1)).sht (field83 flat83 (spinPart 1) 0) (field83 flat83 (spinPart 1) 0) 0 2)
        (maskSpectra (env83 flat83 (spinPart 1)).sht (field83 flat83 (spinPart 1) 0) (field83 flat83 (spinPart 1) 0) 1 0)
        (maskSpectra (env83 flat83 (spinPart 1)).sht (field83 flat83 (spinPart 1) 0) (field83 flat83 (spinPart 1) 0) 2 0)
        (maskSpectra (env83 flat83 (spinPart 1)).sht (field83 flat83 (spinPart 1) 0) (field83 flat83 (spinPart 1) 0) 1 1)
        (maskSpectra (env83 flat83 (spinPart 1)).sht (field83 flat83 (spinPart 1) 0) (field83 flat83 (spinPart 1) 0) 1 2)
        (maskSpectra (env83 flat83 (spinPart 1)).sht (field83 flat83 (spinPart 1) 0) (field83 flat83 (spinPart 1) 0) 2 1)
        (maskSpectra (env83 flat83 (spinPart 1)).sht (field83 flat83 (spinPart 1) 0) (field83 flat83 (spinPart 1) 0) 2 2) with hU0
    have hb1 : W.binned = binMatrix 4 0 0 (tab (1 + 1) fun l => (field83 flat83 (spinPart 1) 0).beamList.getD l 0 *
        (field83 flat83 (spinPart 1) 0).beamList.getD l 0) bins4 (tab2 (4 * (1 + 1)) (4 * (1 + 1)) U0) := by rw [hb]; rfl
    have happ := binMatrix_apply 4 0 0 (tab (1 + 1) fun l => (field83 flat83 (spinPart 1) 0).beamList.getD l 0 *
        (field83 flat83 (spinPart 1) 0).beamList.getD l 0) bins4 (tab2 (4 * (1 + 1)) (4 * (1 + 1)) U0)
      (a := x) (b := y) (ib2 := 0) (ib3 := 0) hx hy (by simp [bins4, Bins.nBands]) (by simp [bins4, Bins.nBands])
    rw [mul_zero, zero_add, zero_add] at happ
    rw [hb1, happ]
    unfold binnedElement
    rw [if_pos rfl]
    simp only [bins4, Bins.band, List.getD_cons_zero, List.map_cons, List.map_nil, List.sum_cons, List.sum_nil]
    rw [tab_of_lt _ (by norm_num), beam83 _ _ hw hwa (by norm_num), tab2_of_lt _ (by omega) (by omega)]
    have key := comp_kernel_agree ⟨1, 1, true, true, 2⟩ (by decide) (by decide) (by simp) (by simp) 1
      (maskSpectra (env83 flat83 (spinPart 1)).sht (field83 flat83 (spinPart 1) 0) (field83 flat83 (spinPart 1) 0)) (by simp) (by simp)
      (fun L hL => by rw [spectraFlat 0 2 (by norm_num) (by norm_num) hL, spectraFlat 1 0 (by norm_num) (by norm_num) hL]; simp)
      (l := 1) (l' := 1) (X := x / 2) (Y := x % 2) (X' := y / 2) (Y' := y % 2) le_rfl le_rfl (show x / 2 < 2 by omega) (show x % 2 < 2 by omega)
      (show y / 2 < 2 by omega) (show y % 2 < 2 by omega)
    rw [show (AnisoArgs.mk 1 1 true true 2).ncls = 4 by decide, show ncomp (AnisoArgs.mk 1 1 true true 2).spin2 = 2 from rfl, Nat.div_add_mod, Nat.div_add_mod, ← hU0] at key
    rw [key]
    dsimp only
    rw [kernelFlat (by omega) (by omega) (by omega) (by omega)]
    have e : (x / 2 = y / 2 ∧ x % 2 = y % 2) ↔ x = y := by omega
    rw [if_congr e rfl rfl]
    by_cases hxy : x = y
    · rw [if_pos hxy]; norm_num
    · rw [if_neg hxy]; norm_num
  unfold Regular Wsp.nBinned
  rw [hW4, hbn]
  change IsUnit (toMat 4 W.binned).det
  rw [isUnit_iff_ne_zero]
  have hd : toMat 4 W.binned = Matrix.diagonal fun i : Fin 4 => 1 + (if (i : ℕ) / 2 = (i : ℕ) % 2 then 1 else -1) * (3 / (20 * Real.pi)) := by
    ext i j
    unfold toMat
    rw [hent i j i.isLt j.isLt, Matrix.diagonal_apply]
    simp only [Fin.ext_iff]
  rw [hd, Matrix.det_diagonal, prod_ne_zero_iff]
  intro i _
  have h3 := Real.pi_gt_three
  have hlt : 3 / (20 * Real.pi) < 1 := by rw [div_lt_one (by positivity)]; linarith
  have hpos : 0 < 3 / (20 * Real.pi) := by positivity
  split_ifs
  · rw [one_mul]; positivity
  · linarith

/-- The hypotheses of C83 are met, with E-modes and an anisotropic mask: the mean of the four bandpowers is the true one. -/
example (minfo : MapInfo) : ∃ D : Fin 4 → Arr2 ℝ,
    (∀ ω, fullMaster (exactLinAlg ℝ) (env83 flat83 (spinPart 1)) 3 minfo (field83 flat83 (spinPart 1) ω) (field83 flat83 (spinPart 1) ω) true true
      (wspFromFields racah (env83 flat83 (spinPart 1)) minfo (field83 flat83 (spinPart 1) ω) (field83 flat83 (spinPart 1) ω) true bins4 wargs4)
        none none none = .ok (some (D ω))) ∧
    ∫ ω, (D ω).val 0 0 ∂mu4 = Real.pi ∧ ∫ ω, (D ω).val 3 0 ∂mu4 = 0 := by
  have hw : RealCoefs flat83 := point_real _ _
  have hwa : ∀ c < 2, RealCoefs (spinPart 1 c) := fun c _ => spinPart_real 1 c
  have hF := fields83 _ _ hw hwa
  have g := hF.fieldFacts 0
  obtain ⟨C, hC, hCr, hCc, hC0, hC1, hC2⟩ := unbinE
  obtain ⟨W, hW⟩ := wsp83 minfo _ _ hw hwa
  have hbeam : ∀ l, args83.beamAt l = 1 := by intro l; rfl
  have hI : Isotropic mu4 2 2 1 skyE skyE (fun X Y l => args83.beamAt l * args83.beamAt l * C.val (2 * X + Y) l) := by
    apply isotropicE
    · rw [hbeam, hC0 _ (by norm_num)]; ring
    · rw [hbeam, one_mul, one_mul]; exact hC1
    · intro X Y l h
      rw [hC2 _ _ (by omega)]; ring
  obtain ⟨D, hD, -, hm⟩ := C83_unbiased_partial mu4 (exactLinAlg ℝ) exactLinAlg_correct _ (triangle83 flat83 (spinPart 1)) minfo args83 args83 1 1 1 2
    flat83 flat83 (spinPart 1) (spinPart 1) skyE skyE map83 map83 _ _ (Or.inr ⟨_, _, hF⟩) (Or.inr ⟨_, _, hF⟩) (by decide) 0
    (Or.inl (by rw [g.emaskA]; rfl))
    (fun L hL => by rw [spectraFlat 0 2 (by norm_num) (by norm_num) hL, spectraFlat 1 0 (by norm_num) (by norm_num) hL]; simp)
    bins4 (by simp [WspSpec.Bounded, bins4]) (by simp [BinSpec.NoRepeats, bins4]) specE C rfl rfl hC hI true (fun _ => rfl) wargs4 rfl W hW
    (regular83 minfo W hW) 3
  refine ⟨D, hD, (hm 0 (by simp [specE]) 0 (by simp [specE])).2, ?_⟩
  rw [(hm 3 (by simp [specE]) 0 (by simp [specE])).2]
  simp [specE]

end AnisoExample

/-- C83: if one mask is anisotropic, the workspace does not depend on whether the other field is purified, although its pseudo-spectra do. -/
theorem C83_purification_ignored (W : Wigner) (env : FieldEnv) (minfo : MapInfo) (f1 f2 : FieldObj) (same : Bool) (B : Bins ℝ) (wa : WspArgs)
    (haniso : f1.maskA.isSome = true ∨ f2.maskA.isSome = true) (pe pb : Bool) :
    wspFromFields W env minfo { f1 with pureE := pe, pureB := pb } f2 same B wa = wspFromFields W env minfo f1 f2 same B wa := by
  have ha' : (f1.maskA.isSome || f2.maskA.isSome) = true := by simpa using haniso
  unfold wspFromFields
  simp only [ha', if_true, true_and]
  by_cases hT : wa.lT ≥ 0
  · rw [if_pos hT, if_pos hT]
    rfl
  · have ht : ∀ b, toeplitzSanity wa.lT wa.lE wa.dl B.ellMax b = none := by
      intro b
      unfold toeplitzSanity
      rw [if_neg (by omega)]
    rw [if_neg hT, if_neg hT, ht, ht]
    rfl

end NaMaster
