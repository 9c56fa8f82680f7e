import Verif.Sky.Props

/-! # A case for C81

Four pixels at the vertices of a tetrahedron, a constant mask, and four equally probable skies made of a dipole. -/

namespace NaMaster

open Finset MeasureTheory WignerSpec SkySpec CouplingSpec
open scoped ENNReal

namespace SkyExample

/-- The product with a constant function. -/
theorem product_const {Nw Nf : ℕ} {w g : ℕ → ℤ → ℂ} (hw : ∀ L M, (L, M) ≠ ((0, 0) : ℕ × ℤ) → w L M = 0) {l : ℕ} (hl : l ≤ Nf) {m : ℤ} (hm : |m| ≤ l) :
    productCoef 0 0 0 Nw Nf w g l m = w 0 0 / (Real.sqrt (4 * Real.pi) : ℝ) * g l m := by
  unfold productCoef
  have h0 : ((0, 0) : ℕ × ℤ) ∈ modes Nw := by rw [mem_skyModes]; simp
  rw [sum_eq_single_of_mem _ h0]
  swap
  · intro W _ hW
    refine sum_eq_zero fun q _ => ?_
    rw [hw W.1 W.2 hW]; simp
  have h1 : (l, m) ∈ modes Nf := by rw [mem_skyModes]; exact ⟨hl, hm⟩
  have hd : ∀ q : ℕ × ℤ, q ≠ (l, m) → gaunt 0 0 0 l m 0 0 q.1 q.2 = 0 := by
    intro q hq
    unfold gaunt
    by_cases ha : l = q.1
    · rw [wigner3j_sum_ne (m1 := -m) (m2 := 0) (m3 := q.2), mul_zero, zero_mul]
      intro h
      exact hq (Prod.ext ha.symm (by simp only; omega))
    · rw [wigner3j_not_allowed (m1 := -m), mul_zero, zero_mul]
      unfold Allowed
      intro h
      omega
  rw [sum_eq_single_of_mem _ h1]
  swap
  · intro q _ hq
    rw [hd q hq]; simp
  have hg : gaunt 0 0 0 l m 0 0 l m = 1 / Real.sqrt (4 * Real.pi) := by
    unfold gaunt
    have e1 := wigner3j_first 0 l l 0 (-m) m
    have e2 := wigner3j_first 0 l l 0 0 0
    have f1 := wigner3j_monopole l (-m) (by rwa [abs_neg])
    have f2 := wigner3j_monopole l 0 (by simp)
    rw [neg_neg] at f1
    rw [neg_zero] at f2
    rw [neg_zero, e1, e2, f1, f2]
    have hs : Real.sqrt ((2 * (l : ℝ) + 1) * (2 * ((0 : ℕ) : ℝ) + 1) * (2 * l + 1) / (4 * Real.pi)) = (2 * l + 1) / Real.sqrt (4 * Real.pi) := by
      rw [Nat.cast_zero, mul_zero, zero_add, mul_one, Real.sqrt_div (by positivity), Real.sqrt_mul_self (by positivity)]
    have hq : Real.sqrt (2 * (l : ℝ) + 1) * Real.sqrt (2 * l + 1) = 2 * l + 1 := Real.mul_self_sqrt (by positivity)
    have hsg : ((-1 : ℝ) ^ (0 + m)) * (-1) ^ ((l : ℤ) - -m) * (-1) ^ ((l : ℤ) - 0) = 1 := by
      rw [← zpow_add₀ (by norm_num), ← zpow_add₀ (by norm_num)]
      apply Even.neg_one_zpow
      exact ⟨m + l, by ring⟩
    have hev : ((-1 : ℝ) ^ (0 + l + l)) = 1 := by
      apply Even.neg_one_pow
      exact ⟨l, by ring⟩
    have h4 : Real.sqrt (4 * Real.pi) ≠ 0 := (Real.sqrt_pos.2 (by positivity)).ne'
    have h2 : Real.sqrt (2 * (l : ℝ) + 1) ≠ 0 := (Real.sqrt_pos.2 (by positivity)).ne'
    rw [hs, hev]
    field_simp
    linear_combination (2 * (l : ℝ) + 1) * hsg - hq
  rw [hg]
  push_cast
  ring

/-- Coordinates of the four pixels. -/
def vx (p : ℕ) : ℝ := if p = 0 ∨ p = 1 then 1 else -1
/-- Coordinates of the four pixels. -/
def vy (p : ℕ) : ℝ := if p = 0 ∨ p = 2 then 1 else -1
/-- Coordinates of the four pixels. -/
def vz (p : ℕ) : ℝ := if p = 0 ∨ p = 3 then 1 else -1

/-- Factor of the coefficients with `m = 0`. -/
noncomputable def kappa : ℝ := Real.sqrt Real.pi / 2
/-- Factor of the coefficients with `m = 1`. -/
noncomputable def rho : ℝ := Real.sqrt (Real.pi / 8)

theorem kappa_sq : kappa ^ 2 = Real.pi / 4 := by
  unfold kappa; rw [div_pow, Real.sq_sqrt Real.pi_pos.le]; norm_num

theorem rho_sq : rho ^ 2 = Real.pi / 8 := by
  unfold rho; rw [Real.sq_sqrt (by positivity)]

/-- The coefficients of a map: the sums over the pixels of the map times the spherical harmonics. -/
noncomputable def coef (v : ℕ → ℝ) (l : ℕ) (m : ℤ) : ℂ :=
  if l = 0 ∧ m = 0 then (kappa * ∑ p ∈ range 4, v p : ℝ)
  else if l = 1 ∧ m = 0 then (kappa * ∑ p ∈ range 4, vz p * v p : ℝ)
  else if l = 1 ∧ m = 1 then -(rho : ℂ) * ((∑ p ∈ range 4, vx p * v p : ℝ) - Complex.I * (∑ p ∈ range 4, vy p * v p : ℝ))
  else if l = 1 ∧ m = -1 then (rho : ℂ) * ((∑ p ∈ range 4, vx p * v p : ℝ) + Complex.I * (∑ p ∈ range 4, vy p * v p : ℝ))
  else 0

/-- The transforms up to `l = 1`. -/
noncomputable def tetra : Sht where
  m2a _ lmax v c l m := if c = 0 ∧ l ≤ lmax then coef (v 0) l m else 0
  a2m _ lmax a c p := if c = 0 ∧ p < 4 then (1 / 4) * (a 0 0 0 / kappa + if 1 ≤ lmax then vz p * (a 0 1 0 / kappa) -
    (vx p * (a 0 1 1 / rho) + vy p * (Complex.I * a 0 1 1 / rho)) else 0 : ℂ).re else 0
  pad := id
  unpad := id

/-- The environment. -/
noncomputable def env4 : FieldEnv := ⟨⟨4, fun _ => Real.pi⟩, tetra, exactEigen, fun _ _ => none, 1⟩

/-- The arguments: constant mask, spin 0. -/
noncomputable def args4 : FieldArgs where
  mask := fun p => if p < 4 then 1 / 2 else 0
  mask22 := none
  mask12 := none
  maps := none
  spin := none
  templates := none
  beam := none
  purifyE := false
  purifyB := false
  nIter := 0
  nIterMask := 0
  tol := 1
  lmax := none
  lmaxMask := none
  maskedOnInput := false
  lite := false

/-- Four equally probable skies. -/
noncomputable def mu4 : Measure (Fin 4) := (4⁻¹ : ℝ≥0∞) • Measure.count

/-- The map of a sky: 3/2 in one pixel, -1/2 in the others. -/
noncomputable def map4 (ω : Fin 4) : MapStack := fun c p => if c = 0 ∧ p < 4 then (if p = ω then 2 else 0) - 1 / 2 else 0

/-- The coefficients of a sky. -/
noncomputable def sky4 (ω : Fin 4) (X : ℕ) (l : ℕ) (m : ℤ) : ℂ := coef (map4 ω X) l m

/-- The coefficients of the mask. -/
noncomputable def mask4 (L : ℕ) (M : ℤ) : ℂ := coef args4.mask L M

theorem triangle4 : tetra.ReadsTriangle := by
  intro s lmax a b h
  unfold Sht.alm2map tetra
  funext c p
  dsimp only [id]
  by_cases h1 : 1 ≤ lmax
  · rw [h 0 0 (by omega) 0 le_rfl, h 0 1 h1 0 (by omega), h 0 1 h1 1 le_rfl]
  · simp only [if_neg h1]
    rw [h 0 0 (by omega) 0 le_rfl]

theorem integral4 (f : Fin 4 → ℂ) : ∫ ω, f ω ∂mu4 = (1 / 4) * (f 0 + f 1 + f 2 + f 3) := by
  unfold mu4
  rw [integral_smul_measure, integral_fintype Integrable.of_finite]
  simp [Fin.sum_univ_four]
  ring

theorem probability4 : IsProbabilityMeasure mu4 := by
  constructor
  unfold mu4
  simp [Measure.count_apply]
  exact ENNReal.inv_mul_cancel (by norm_num) (by norm_num)

theorem mask4_val (L : ℕ) (M : ℤ) : mask4 L M = if L = 0 ∧ M = 0 then ((Real.sqrt Real.pi : ℝ) : ℂ) else 0 := by
  unfold mask4 coef args4
  simp only [sum_range_succ, sum_range_zero, vx, vy, vz, kappa]
  norm_num

theorem sky4_val (ω : Fin 4) (l : ℕ) (m : ℤ) : sky4 ω 0 l m =
    if l = 1 ∧ m = 0 then ((2 * kappa * vz ω : ℝ) : ℂ)
    else if l = 1 ∧ m = 1 then -(2 * rho : ℝ) * ((vx ω : ℂ) - Complex.I * (vy ω : ℂ))
    else if l = 1 ∧ m = -1 then (2 * rho : ℝ) * ((vx ω : ℂ) + Complex.I * (vy ω : ℂ)) else 0 := by
  unfold sky4 coef map4
  fin_cases ω <;> simp only [sum_range_succ, sum_range_zero, vx, vy, vz] <;> norm_num <;>
    (split_ifs <;> first | omega | rfl | ring1)

theorem real4 {a : ℕ → ℤ → ℂ} (h0 : ∀ l m, ¬ (l = 0 ∧ m = 0) → ¬ (l = 1 ∧ m = 0) → ¬ (l = 1 ∧ m = 1) → ¬ (l = 1 ∧ m = -1) → a l m = 0)
    (h1 : (starRingEnd ℂ) (a 0 0) = a 0 0) (h2 : (starRingEnd ℂ) (a 1 0) = a 1 0) (h3 : a 1 (-1) = -(starRingEnd ℂ) (a 1 1)) : RealCoefs a := by
  intro l m
  by_cases c1 : l = 0 ∧ m = 0
  · obtain ⟨rfl, rfl⟩ := c1; simp [h1]
  by_cases c2 : l = 1 ∧ m = 0
  · obtain ⟨rfl, rfl⟩ := c2; simp [h2]
  by_cases c3 : l = 1 ∧ m = 1
  · obtain ⟨rfl, rfl⟩ := c3; simp [h3]
  by_cases c4 : l = 1 ∧ m = -1
  · obtain ⟨rfl, rfl⟩ := c4; simp [h3]
  rw [h0 l m c1 c2 c3 c4, h0 l (-m) (by omega) (by omega) (by omega) (by omega)]
  simp

theorem coef_real (v : ℕ → ℝ) : RealCoefs (coef v) := by
  apply real4
  · intro l m c1 c2 c3 c4
    unfold coef
    rw [if_neg c1, if_neg c2, if_neg c3, if_neg c4]
  · simp [coef]
  · simp [coef]
  · simp [coef, -Complex.ofReal_sum]

theorem made4 : ∃ f : Fin 4 → FieldObj, ∀ ω, nmtField env4 (args4.withMaps 1 4 (map4 ω)) = .ok (f ω) := by
  apply Classical.axiomOfChoice (r := fun ω f => nmtField env4 (args4.withMaps 1 4 (map4 ω)) = .ok f)
  intro ω
  unfold nmtField fieldChecks fieldMasks mapChecks fieldFinish
  simp [args4, FieldArgs.withMaps, env4, Outcome.bind, pickSpin, baseObj]

/-- The fields. -/
noncomputable def field4 : Fin 4 → FieldObj := made4.choose

theorem map4_tab (ω : Fin 4) : tab2 1 4 (map4 ω) = map4 ω := by
  funext c p
  unfold tab2 map4
  by_cases h : c < 1 ∧ p < 4
  · rw [if_pos h]
  · rw [if_neg h, if_neg (by omega)]

theorem fields4 : FieldsOf env4 args4 0 1 1 mask4 sky4 map4 field4 where
  iso := ⟨rfl, rfl, rfl, rfl, by norm_num [args4]⟩
  bare := rfl
  spin := rfl
  bandLimit := rfl
  maskBandLimit := rfl
  maskCoefs := by
    intro L hL m hm
    change (if (0 : ℕ) = 0 ∧ L ≤ 1 then coef (single args4.mask 0) L m else 0) = coef args4.mask L m
    rw [if_pos ⟨rfl, hL⟩]
    rfl
  maskReal := coef_real _
  skyReal := fun ω X _ => coef_real _
  observed := by
    intro ω
    refine ⟨⟨fun _ l hl m hm => ?_, fun h => absurd rfl h⟩, fun h => absurd h (by simp [args4]), fun h => absurd h (by simp [args4])⟩
    rw [product_const (fun L M h => by rw [mask4_val, if_neg]; rintro ⟨rfl, rfl⟩; exact h rfl) hl (by simp; exact_mod_cast hm)]
    change (if (0 : ℕ) = 0 ∧ l ≤ 1 then coef (fun p => tab2 (ncomp 0) 4 (map4 ω) 0 p * args4.mask p) l m else 0) = _
    rw [if_pos ⟨rfl, hl⟩, show ncomp 0 = 1 from rfl, map4_tab, mask4_val, if_pos ⟨rfl, rfl⟩]
    have hs : ((Real.sqrt Real.pi : ℝ) : ℂ) / (Real.sqrt (4 * Real.pi) : ℝ) = 1 / 2 := by
      rw [Real.sqrt_mul (by norm_num), show Real.sqrt 4 = 2 by rw [show (4 : ℝ) = 2 ^ 2 by norm_num, Real.sqrt_sq (by norm_num)]]
      have : ((Real.sqrt Real.pi : ℝ) : ℂ) ≠ 0 := by exact_mod_cast (Real.sqrt_pos.2 Real.pi_pos).ne'
      push_cast
      field_simp
    rw [hs]
    have hv : ∀ p ∈ range 4, map4 ω 0 p * args4.mask p = (1 / 2) * map4 ω 0 p := by
      intro p hp
      rw [mem_range] at hp
      unfold args4
      simp only [if_pos hp]
      ring
    have e1 : ∑ p ∈ range 4, map4 ω 0 p * args4.mask p = (1 / 2) * ∑ p ∈ range 4, map4 ω 0 p := by
      rw [mul_sum]; exact sum_congr rfl hv
    have e2 : ∀ g : ℕ → ℝ, ∑ p ∈ range 4, g p * (map4 ω 0 p * args4.mask p) = (1 / 2) * ∑ p ∈ range 4, g p * map4 ω 0 p := by
      intro g
      rw [mul_sum]; exact sum_congr rfl fun p hp => by rw [hv p hp]; ring
    unfold sky4 coef
    rw [e1, e2, e2, e2]
    split_ifs <;> (push_cast; ring)
  made := made4.choose_spec

/-- The spectrum: only the dipole. -/
noncomputable def spec4 : Arr2 ℝ := ⟨1, 1, fun _ _ => Real.pi⟩

/-- One band with the multipole 1. -/
def bins4 : Bins ℝ := ⟨1, [[⟨1, 1, 1⟩]]⟩

theorem unbin4 : ∃ C, unbinCells bins4 spec4 = .ok C ∧ C.rows = 1 ∧ C.cols = 2 ∧ C.val 0 0 = 0 ∧ C.val 0 1 = Real.pi := by
  refine ⟨_, by unfold unbinCells; rw [if_neg (by simp [spec4, bins4, Bins.nBands])], rfl, rfl, ?_, ?_⟩
  · rw [Arr2.of]
    simp [tab2, unbinCls, unbinFrom, unbinBand, bins4, spec4]
  · rw [Arr2.of]
    simp [tab2, unbinCls, unbinFrom, unbinBand, bins4, spec4]

theorem modes_one {q : ℕ × ℤ} (h : q ∈ modes 1) : q = (0, 0) ∨ q = (1, 0) ∨ q = (1, 1) ∨ q = (1, -1) := by
  rw [mem_skyModes, abs_le] at h
  obtain ⟨l, m⟩ := q
  simp only [Prod.mk.injEq] at h ⊢
  omega

theorem isotropic4 {C : ℕ → ℕ → ℕ → ℝ} (h0 : C 0 0 0 = 0) (h1 : C 0 0 1 = Real.pi) : Isotropic mu4 1 1 1 sky4 sky4 C := by
  have := probability4
  have hk : (kappa : ℂ) ^ 2 = (Real.pi : ℂ) / 4 := by exact_mod_cast congrArg Complex.ofReal kappa_sq
  have hr : (rho : ℂ) ^ 2 = (Real.pi : ℂ) / 8 := by exact_mod_cast congrArg Complex.ofReal rho_sq
  have hI : Complex.I ^ 2 = -1 := Complex.I_sq
  have h2 : (starRingEnd ℂ) 2 = 2 := map_ofNat _ 2
  refine ⟨fun _ _ _ _ _ _ _ _ => Integrable.of_finite, ?_⟩
  intro X hX Y hY q hq r hr'
  obtain rfl : X = 0 := by omega
  obtain rfl : Y = 0 := by omega
  rw [integral4]
  simp only [sky4_val]
  rcases modes_one hq with rfl | rfl | rfl | rfl <;> rcases modes_one hr' with rfl | rfl | rfl | rfl <;>
    simp [vx, vy, vz, h0, h1] <;> ring_nf <;> (try simp only [hk, hr, hI, h2]) <;> (try ring_nf)

/-- The remaining arguments. -/
def wargs4 : WspArgs := ⟨false, -1, -1, -1, "MASTER", fun _ => 0⟩

theorem maskAlms4 (ω : Fin 4) {l m : ℕ} (hl : l ≤ 1) (hm : m ≤ l) :
    (field4 ω).getMaskAlms tetra l m = if l = 0 ∧ m = 0 then ((Real.sqrt Real.pi : ℝ) : ℂ) else 0 := by
  obtain ⟨-, p2, -, -, p5, -, -, p8, -⟩ := fields4.facts ω
  unfold FieldObj.getMaskAlms
  rw [p2, p5, p8]
  have h := fields4.maskCoefs l hl m hm
  rw [mask4_val] at h
  have e : (l = 0 ∧ ((m : ℕ) : ℤ) = 0) ↔ (l = 0 ∧ m = 0) := by omega
  rw [if_congr e rfl rfl] at h
  exact h

theorem maskSpectrum4 (minfo : MapInfo) {l : ℕ} (hl : l ≤ 1) :
    maskSpectrum ((field4 0).view tetra minfo) ((field4 0).view tetra minfo) true l = if l = 0 then Real.pi else 0 := by
  unfold maskSpectrum FieldObj.view alm2cl
  simp only [if_true, sub_zero]
  have h : ∀ m ∈ range (l + 1), (if m = 0 then (1 : ℝ) else 2) * ((field4 0).getMaskAlms tetra l m *
      (starRingEnd ℂ) ((field4 0).getMaskAlms tetra l m)).re = if m = 0 then (if l = 0 then Real.pi else 0) else 0 := by
    intro m hm
    rw [mem_range] at hm
    rw [maskAlms4 0 hl (by omega)]
    by_cases h0 : m = 0
    · by_cases h1 : l = 0
      · simp [h0, h1, Complex.conj_ofReal, Real.mul_self_sqrt Real.pi_pos.le]
      · simp [h0, h1]
    · simp [h0]
  rw [sum_congr rfl h, sum_ite_eq' (range (l + 1)) 0 (fun _ => if l = 0 then Real.pi else 0), if_pos (by simp)]
  by_cases h1 : l = 0 <;> simp [h1]

theorem wsp4 (minfo : MapInfo) : ∃ w, wspFromFields racah env4 minfo (field4 0) (field4 0) true bins4 wargs4 = .ok w := by
  obtain ⟨p1, p2, p3, p4, p5, p6, p7, p8, p9, p10, -⟩ := fields4.facts 0
  unfold wspFromFields
  simp only [p4, p1, p2, Option.isSome_none, Bool.or_self, Bool.false_eq_true, false_and, if_false]
  have e : bins4.ellMax = 1 := rfl
  rw [if_neg (by unfold isCompatible FieldObj.view; simp), if_neg (by rw [e]; simp), show toeplitzSanity wargs4.lT wargs4.lE wargs4.dl bins4.ellMax _ = none from rfl]
  dsimp only
  unfold normOf
  rw [if_pos (show wargs4.norm = "MASTER" from rfl)]
  simp only [Outcome.bind]
  unfold compCouplingMatrix computeCouplingMatrix
  have hb : (field4 0).beamList.length = 2 := by
    unfold FieldObj.beamList
    rw [p10]; simp [args4]
  rw [if_neg (by simp [hb, couplingArgsOf, p2]), if_neg (by simp [couplingArgsOf, wargs4]), if_neg (by rw [e]; omega),
    if_neg (by rw [e]; simp [couplingArgsOf, p2]), if_neg (by simp [couplingArgsOf, p6, p7, args4, flag])]
  exact ⟨_, rfl⟩

theorem regular4 (minfo : MapInfo) (w : Wsp ℝ) (hw : wspFromFields racah env4 minfo (field4 0) (field4 0) true bins4 wargs4 = .ok w) :
    Regular w.nBinned w.binned := by
  obtain ⟨p1, p2, p3, p4, p5, p6, p7, p8, p9, p10, -⟩ := fields4.facts 0
  obtain ⟨hB, n, hn, hc⟩ := wsp_iso p4 p4 hw
  have hn0 : n.1 = 0 := by
    unfold normOf at hn
    rw [if_pos (show wargs4.norm = "MASTER" from rfl)] at hn
    rw [← Outcome.ok.inj hn]
  have hget : ∀ l, ((List.range ((field4 0).lmaxMask + 1)).map (maskSpectrum ((field4 0).view env4.sht minfo) ((field4 0).view env4.sht minfo) true)).getD l 0 =
      if l = 0 then Real.pi else 0 := by
    intro l
    rw [p2]
    by_cases hl : l ≤ 1
    · rw [List.getD_eq_getElem _ _ (by simp; omega), List.getElem_map, List.getElem_range]
      exact maskSpectrum4 minfo hl
    · rw [List.getD_eq_default _ _ (by simp; omega), if_neg (by omega)]
  have hplain : (couplingArgsOf (field4 0) (field4 0) wargs4).Plain := ⟨p6, p7, p6, p7, rfl, by decide⟩
  have hsp : max (couplingArgsOf (field4 0) (field4 0) wargs4).spin1 (couplingArgsOf (field4 0) (field4 0) wargs4).spin2 ≤ 1 := by
    simp [couplingArgsOf, p3]
  obtain ⟨U, hU, hv⟩ := C17_monopole C76_symmetric C76_monopole hplain hc (fun l hl => by rw [hget, if_neg hl])
  obtain ⟨-, -, -, p, U0, hbuild⟩ := comp_parts hc
  have hncls : (couplingArgsOf (field4 0) (field4 0) wargs4).ncls = 1 := by
    simp [CouplingArgs.ncls, couplingArgsOf, p3, wargs4]
  rw [hncls] at hbuild
  have hw1 : w.ncls = 1 := by rw [hbuild]; rfl
  have hval := hv 1 1 0 0 le_rfl le_rfl (by omega) (by omega) hsp
  rw [hget, if_pos rfl, if_pos ⟨rfl, rfl⟩, hw1] at hval
  have hbin : w.binned 0 0 = 1 / 4 := by
    have hb := binMatrix_apply 1 n.1 n.2 (tab ((field4 0).lmax + 1) fun l => (field4 0).beamList.getD l 0 * (field4 0).beamList.getD l 0) bins4 U
      (a := 0) (b := 0) (ib2 := 0) (ib3 := 0) (by norm_num) (by norm_num) (by simp [bins4, Bins.nBands]) (by simp [bins4, Bins.nBands])
    have hU' : U = tab2 (1 * (bins4.ellMax + 1)) (1 * (bins4.ellMax + 1)) U0 := by
      rw [hbuild] at hU
      exact (Option.some.inj hU).symm
    have : w.binned = binMatrix 1 n.1 n.2 (tab ((field4 0).lmax + 1) fun l => (field4 0).beamList.getD l 0 * (field4 0).beamList.getD l 0) bins4 U := by
      rw [hU', hbuild]; rfl
    rw [this]
    refine hb.trans ?_
    unfold binnedElement
    rw [if_pos hn0]
    have hbl : (field4 0).beamList.getD 1 0 = 1 := by
      unfold FieldObj.beamList
      rw [p10]; simp [args4]
    simp only [bins4, Bins.band, List.getD_cons_zero, List.map_cons, List.map_nil, List.sum_cons, List.sum_nil]
    rw [hval, tab, if_pos (by rw [p1]; omega), hbl]
    have := Real.pi_ne_zero
    field_simp
    norm_num
  unfold Regular Wsp.nBinned
  have hbn : w.bin.nBands = 1 := by rw [hbuild]; rfl
  rw [hw1, hbn]
  have : (toMat (1 * 1) w.binned).det = 1 / 4 := by
    rw [show (toMat (1 * 1) w.binned).det = (toMat 1 w.binned).det from rfl, Matrix.det_fin_one]
    exact hbin
  rw [this]
  norm_num

/-- The hypotheses of C81 are met: the bandpower of the dipole of the four skies is `π`, and its estimate from the masked maps has this
mean. -/
example (minfo : MapInfo) : ∃ D : Fin 4 → Arr2 ℝ,
    (∀ ω, fullMaster (exactLinAlg ℝ) env4 3 minfo (field4 ω) (field4 ω) true true
      (wspFromFields racah env4 minfo (field4 ω) (field4 ω) true bins4 wargs4) none none none = .ok (some (D ω))) ∧
    ∫ ω, (D ω).val 0 0 ∂mu4 = Real.pi := by
  obtain ⟨C, hC, -, -, hC0, hC1⟩ := unbin4
  obtain ⟨w, hw⟩ := wsp4 minfo
  obtain ⟨D, hD, -, hm⟩ := C81_unbiased mu4 (exactLinAlg ℝ) exactLinAlg_correct env4 triangle4 minfo args4 args4 0 0 1 1 mask4 mask4 sky4 sky4
    map4 map4 field4 field4 fields4 fields4 bins4 (by simp [WspSpec.Bounded, bins4]) (by simp [BinSpec.NoRepeats, bins4]) spec4 C rfl rfl hC
    (isotropic4 (by simp [ncomp, hC0]) (by simp [ncomp, hC1, FieldArgs.beamAt, args4])) true (fun _ => rfl) wargs4 rfl rfl (by decide)
    (by simp [args4]) 0 w hw (regular4 minfo w hw) 3
  exact ⟨D, hD, (hm 0 (by simp [spec4]) 0 (by simp [spec4])).2⟩

end SkyExample

end NaMaster
