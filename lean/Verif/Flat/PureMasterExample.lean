import Verif.Flat.PureMasterProps
import Verif.Flat.BiasExample
import Verif.Flat.CoupleWrong

/-! # C80: purified fields that meet the hypotheses, and a band with multipole 0 -/

namespace NaMaster

open Real Finset MeasureTheory
open scoped Classical ENNReal

namespace FlatPureExample

open FlatFieldExample

/-- A map of 5×3 square pixels. -/
noncomputable def fsG : FlatInfo := ⟨5, 3, 5, 3⟩

/-- Four equally likely phases. -/
noncomputable def μ4 : Measure (Fin 4) := (4⁻¹ : ℝ≥0∞) • Measure.count

/-- A sky of one E mode along x, with random phase. -/
noncomputable def skyX (ω : Fin 4) : FlatMaps := fun X p =>
  if X = 0 then 2 * (Complex.I ^ ω.val * Complex.exp (((2 * π * p.1 / 5 : ℝ) : ℂ) * Complex.I)).re else 0

/-- Its E and B modes. -/
noncomputable def modesX (ω : Fin 4) : ℕ → ℕ × ℕ → ℂ := fun X k =>
  if X = 0 ∧ k = (1, 0) then Complex.I ^ ω.val else if X = 0 ∧ k = (4, 0) then star (Complex.I ^ ω.val) else 0

/-- Its spectra. -/
noncomputable def specX : ℕ → ℕ → ℕ × ℕ → ℝ := fun X Y k => if X = 0 ∧ Y = 0 ∧ (k = (1, 0) ∨ k = (4, 0)) then 15 else 0

/-- A sky of one E mode along y, with random phase. -/
noncomputable def skyY (ω : Fin 4) : FlatMaps := fun X p =>
  if X = 0 then -(2 * (Complex.I ^ ω.val * Complex.exp (((2 * π * p.2 / 3 : ℝ) : ℂ) * Complex.I)).re) else 0

/-- Its E and B modes. -/
noncomputable def modesY (ω : Fin 4) : ℕ → ℕ × ℕ → ℂ := fun X k =>
  if X = 0 ∧ k = (0, 1) then Complex.I ^ ω.val else if X = 0 ∧ k = (0, 2) then star (Complex.I ^ ω.val) else 0

/-- Its spectra. -/
noncomputable def specY : ℕ → ℕ → ℕ × ℕ → ℝ := fun X Y k => if X = 0 ∧ Y = 0 ∧ (k = (0, 1) ∨ k = (0, 2)) then 15 else 0

/-- A field of spin 2 with purified E or B modes, and perhaps a template that is one in the first map. -/
noncomputable def argsG (e b t : Bool) : FlatFieldArgs where
  fs := fsG
  mask := maskE
  maps := none
  spin := none
  templates := if t then some ⟨1, 2, 5, 3, fun _ X _ => if X = 0 then 1 else 0⟩ else none
  beam := none
  purifyE := e
  purifyB := b
  tol := 1e-3
  maskedOnInput := false
  lite := false

theorem callG (e b t : Bool) : FlatCall (argsG e b t) := ⟨rfl, rfl⟩

theorem memG {k : ℕ × ℕ} : k ∈ fsG.modes ↔ k.1 < 5 ∧ k.2 < 3 := mem_modes

theorem prob4 : IsProbabilityMeasure μ4 := by
  constructor
  unfold μ4
  simp only [Measure.smul_apply, smul_eq_mul]
  rw [Measure.count_apply_finite _ (Set.toFinite _)]
  simp
  exact ENNReal.inv_mul_cancel (by simp) (by simp)

theorem integral4 {E : Type*} [NormedAddCommGroup E] [NormedSpace ℝ E] [CompleteSpace E] (g : Fin 4 → E) :
    ∫ ω, g ω ∂μ4 = (1 / 4 : ℝ) • (g 0 + g 1 + g 2 + g 3) := by
  unfold μ4
  rw [integral_smul_measure, integral_fintype (Integrable.of_finite)]
  simp [Fin.sum_univ_four]

theorem sumG (a b : ℕ × ℕ) (hab : a ≠ b) (ha : a ∈ fsG.modes) (hb : b ∈ fsG.modes) (g : ℕ × ℕ → ℂ)
    (hg : ∀ k ∈ fsG.modes, k ≠ a → k ≠ b → g k = 0) : ∑ k ∈ fsG.modes, g k = g a + g b := by
  have hsub : ({a, b} : Finset (ℕ × ℕ)) ⊆ fsG.modes := by
    intro p hp
    simp only [Finset.mem_insert, Finset.mem_singleton] at hp
    rcases hp with rfl | rfl <;> assumption
  rw [← Finset.sum_subset hsub, Finset.sum_pair hab]
  intro p hp hp'
  simp only [Finset.mem_insert, Finset.mem_singleton, not_or] at hp'
  exact hg p hp hp'.1 hp'.2

theorem phG (i j : ℕ) (p : ℕ × ℕ) : fsG.phase (i, j) p = 2 * π * (p.1 * i / 5 + p.2 * j / 3) := by
  simp only [FlatInfo.phase, fsG]
  push_cast
  ring

theorem exp_opp (x : ℝ) (n : ℕ) (y : ℝ) (h : y = 2 * π * n - x) : Complex.exp ((y : ℂ) * Complex.I) = star (Complex.exp ((x : ℂ) * Complex.I)) := by
  have : star (Complex.exp ((x : ℂ) * Complex.I)) = Complex.exp (-(x : ℂ) * Complex.I) := by
    change (starRingEnd ℂ) _ = _
    rw [← Complex.exp_conj]
    simp
  rw [this, Complex.exp_eq_exp_iff_exists_int]
  refine ⟨n, ?_⟩
  rw [h]
  push_cast
  ring

theorem two_re (z : ℂ) : ((2 * z.re : ℝ) : ℂ) = z + star z := by
  have := Complex.add_conj z
  push_cast
  rw [show star z = (starRingEnd ℂ) z from rfl, this]
  push_cast
  ring

/-- The modes of the mask. -/
theorem maskG_modes : HasModes fsG maskE fun k => (if k = (0, 0) then 2 else 0) + if k = (1, 0) ∨ k = (4, 0) then 1 / 2 else 0 := by
  intro p _
  simp only [add_mul]
  rw [Finset.sum_add_distrib]
  rw [sumG (1, 0) (4, 0) (by simp) (by simp [memG]) (by simp [memG]) (fun k => (if k = (1, 0) ∨ k = (4, 0) then 1 / 2 else 0) *
    Complex.exp (fsG.phase k p * Complex.I)) (by intro k _ h1 h2; simp [h1, h2])]
  rw [Finset.sum_congr rfl (fun k _ => show (if k = (0, 0) then (2 : ℂ) else 0) * Complex.exp (fsG.phase k p * Complex.I) =
    if k = (0, 0) then 2 * Complex.exp (fsG.phase k p * Complex.I) else 0 by split_ifs <;> simp), Finset.sum_ite_eq',
    if_pos (by simp [memG])]
  simp only [true_or, or_true, if_true, phG]
  rw [exp_opp (2 * π * (p.1 * (1 : ℕ) / 5 + p.2 * (0 : ℕ) / 3)) p.1 (2 * π * (p.1 * (4 : ℕ) / 5 + p.2 * (0 : ℕ) / 3)) (by push_cast; ring)]
  unfold maskE
  rw [← mul_add, ← two_re, Complex.exp_ofReal_mul_I_re]
  push_cast
  simp
  congr 1
  ring

theorem maskG_alm {k : ℕ × ℕ} (hk : k ∈ fsG.modes) : fsG.map2alm maskE k =
    ((if k = (0, 0) then 2 else 0) + if k = (1, 0) ∨ k = (4, 0) then 1 / 2 else 0) * ((15 / (2 * π) : ℝ) : ℂ) := by
  rw [map2alm_hasModes maskG_modes hk]
  norm_num [fsG]

theorem kyG0 : fsG.ky 0 = 0 := by simp [FlatInfo.ky, waveNum]

theorem kxG0 : fsG.kx 0 = 0 := by simp [FlatInfo.kx, waveNum]

theorem dirX {x y : ℝ} (hx : x ≠ 0) (hy : y = 0) : (modeDir x y).2 = 0 ∧ (modeDir x y).1 * (modeDir x y).1 = 1 := by
  have h1 := modeDir_mul x y
  have h2 := modeDir_unit x y
  subst hy
  have hs : √(x * x + 0 * 0) ≠ 0 := by
    rw [show x * x + (0 : ℝ) * 0 = x * x by ring]
    exact (Real.sqrt_pos.mpr (mul_self_pos.mpr hx)).ne'
  have h3 : (modeDir x 0).2 = 0 := by
    rcases mul_eq_zero.mp h1.2 with h | h
    · exact absurd h hs
    · exact h
  refine ⟨h3, ?_⟩
  rw [h3] at h2
  linarith

theorem skyX_modes (ω : Fin 4) : SkyHas fsG 2 (skyX ω) (modesX ω) := by
  have d1 := dirX (x := fsG.kx 1) (waveNum_ne_zero (by norm_num [fsG]) (by norm_num [fsG]) (by norm_num)) kyG0
  have d4 := dirX (x := fsG.kx 4) (waveNum_ne_zero (by norm_num [fsG]) (by norm_num [fsG]) (by norm_num)) kyG0
  have e1 : (((modeDir (fsG.kx 1) (fsG.ky 0)).1 : ℝ) : ℂ) * (((modeDir (fsG.kx 1) (fsG.ky 0)).1 : ℝ) : ℂ) = 1 := by exact_mod_cast d1.2
  have e4 : (((modeDir (fsG.kx 4) (fsG.ky 0)).1 : ℝ) : ℂ) * (((modeDir (fsG.kx 4) (fsG.ky 0)).1 : ℝ) : ℂ) = 1 := by exact_mod_cast d4.2
  unfold SkyHas
  rw [if_neg (by norm_num)]
  constructor
  · intro p _
    rw [sumG (1, 0) (4, 0) (by simp) (by simp [memG]) (by simp [memG]) _ (by intro k _ h1 h2; simp [modesX, h1, h2, eb2qu])]
    simp only [eb2qu_two, d1.1, d4.1, e1, e4, phG]
    rw [exp_opp (2 * π * (p.1 * (1 : ℕ) / 5 + p.2 * (0 : ℕ) / 3)) p.1 (2 * π * (p.1 * (4 : ℕ) / 5 + p.2 * (0 : ℕ) / 3)) (by push_cast; ring)]
    have hx : 2 * π * (p.1 * (1 : ℕ) / 5 + p.2 * (0 : ℕ) / 3) = 2 * π * p.1 / 5 := by push_cast; ring
    rw [hx]
    unfold skyX
    rw [if_pos rfl, two_re, star_mul']
    simp [modesX]
  · intro p _
    rw [sumG (1, 0) (4, 0) (by simp) (by simp [memG]) (by simp [memG]) _ (by intro k _ h1 h2; simp [modesX, h1, h2, eb2qu])]
    simp [eb2qu_two, d1.1, d4.1, modesX, skyX]

theorem skyY_modes (ω : Fin 4) : SkyHas fsG 2 (skyY ω) (modesY ω) := by
  have d1 := dirY kxG0 (y := fsG.ky 1) (waveNum_ne_zero (by norm_num [fsG]) (by norm_num [fsG]) (by norm_num))
  have d4 := dirY kxG0 (y := fsG.ky 2) (waveNum_ne_zero (by norm_num [fsG]) (by norm_num [fsG]) (by norm_num))
  have e1 : (((modeDir (fsG.kx 0) (fsG.ky 1)).2 : ℝ) : ℂ) * (((modeDir (fsG.kx 0) (fsG.ky 1)).2 : ℝ) : ℂ) = 1 := by exact_mod_cast d1.2
  have e4 : (((modeDir (fsG.kx 0) (fsG.ky 2)).2 : ℝ) : ℂ) * (((modeDir (fsG.kx 0) (fsG.ky 2)).2 : ℝ) : ℂ) = 1 := by exact_mod_cast d4.2
  unfold SkyHas
  rw [if_neg (by norm_num)]
  constructor
  · intro p _
    rw [sumG (0, 1) (0, 2) (by simp) (by simp [memG]) (by simp [memG]) _ (by intro k _ h1 h2; simp [modesY, h1, h2, eb2qu])]
    simp only [eb2qu_two, d1.1, d4.1, e1, e4, phG]
    rw [exp_opp (2 * π * (p.1 * (0 : ℕ) / 5 + p.2 * (1 : ℕ) / 3)) p.2 (2 * π * (p.1 * (0 : ℕ) / 5 + p.2 * (2 : ℕ) / 3)) (by push_cast; ring)]
    have hx : 2 * π * (p.1 * (0 : ℕ) / 5 + p.2 * (1 : ℕ) / 3) = 2 * π * p.2 / 3 := by push_cast; ring
    rw [hx]
    unfold skyY
    rw [if_pos rfl, Complex.ofReal_neg, two_re, star_mul']
    simp [modesY]
    ring
  · intro p _
    rw [sumG (0, 1) (0, 2) (by simp) (by simp [memG]) (by simp [memG]) _ (by intro k _ h1 h2; simp [modesY, h1, h2, eb2qu])]
    simp [eb2qu_two, d1.1, d4.1, modesY, skyY]

/-- The means of products of the phases. -/
theorem phases (x y : Bool) :
    (1 / 4 : ℝ) • (((if x then Complex.I ^ 0 else star (Complex.I ^ 0)) * star (if y then Complex.I ^ 0 else star (Complex.I ^ 0))) +
      ((if x then Complex.I ^ 1 else star (Complex.I ^ 1)) * star (if y then Complex.I ^ 1 else star (Complex.I ^ 1))) +
      ((if x then Complex.I ^ 2 else star (Complex.I ^ 2)) * star (if y then Complex.I ^ 2 else star (Complex.I ^ 2))) +
      ((if x then Complex.I ^ 3 else star (Complex.I ^ 3)) * star (if y then Complex.I ^ 3 else star (Complex.I ^ 3)))) =
      if x = y then (1 : ℂ) else 0 := by
  have h1 : star Complex.I = -Complex.I := Complex.conj_I
  have h2 : Complex.I * Complex.I = -1 := Complex.I_mul_I
  have h3 : Complex.I ^ 3 = -Complex.I := by rw [pow_succ, Complex.I_sq]; ring
  cases x <;> cases y <;> simp [h1, h3] <;> norm_num

theorem homX : Homogeneous μ4 fsG 2 2 modesX modesX specX := by
  have : IsProbabilityMeasure μ4 := prob4
  refine ⟨fun X _ Y _ k _ k' _ => Integrable.of_finite, fun X hX Y hY k hk k' hk' => ?_⟩
  rw [integral4]
  by_cases hz : (X = 0 ∧ (k = (1, 0) ∨ k = (4, 0))) ∧ Y = 0 ∧ (k' = (1, 0) ∨ k' = (4, 0))
  · obtain ⟨⟨rfl, h1⟩, rfl, h2⟩ := hz
    have e := phases (decide (k = (1, 0))) (decide (k' = (1, 0)))
    have m1 : ∀ ω : Fin 4, modesX ω 0 k = if decide (k = (1, 0)) = true then Complex.I ^ ω.val else star (Complex.I ^ ω.val) := by
      intro ω; rcases h1 with rfl | rfl <;> simp [modesX]
    have m2 : ∀ ω : Fin 4, modesX ω 0 k' = if decide (k' = (1, 0)) = true then Complex.I ^ ω.val else star (Complex.I ^ ω.val) := by
      intro ω; rcases h2 with rfl | rfl <;> simp [modesX]
    simp only [m1, m2]
    refine Eq.trans e ?_
    rcases h1 with rfl | rfl <;> rcases h2 with rfl | rfl <;> simp [specX, fsG] <;> norm_num
  · have h0 : ∀ ω, modesX ω X k * star (modesX ω Y k') = 0 := by
      intro ω
      rw [not_and_or] at hz
      rcases hz with hz | hz
      · have : modesX ω X k = 0 := by
          unfold modesX; rw [if_neg (fun h => hz ⟨h.1, Or.inl h.2⟩), if_neg (fun h => hz ⟨h.1, Or.inr h.2⟩)]
        rw [this, zero_mul]
      · have : modesX ω Y k' = 0 := by
          unfold modesX; rw [if_neg (fun h => hz ⟨h.1, Or.inl h.2⟩), if_neg (fun h => hz ⟨h.1, Or.inr h.2⟩)]
        rw [this, star_zero, mul_zero]
    simp only [h0]
    by_cases hkk : k = k'
    · subst hkk
      have : specX X Y k = 0 := if_neg fun h => hz ⟨⟨h.1, h.2.2⟩, h.2.1, h.2.2⟩
      simp [this]
    · simp [hkk]

theorem homY : Homogeneous μ4 fsG 2 2 modesY modesY specY := by
  have : IsProbabilityMeasure μ4 := prob4
  refine ⟨fun X _ Y _ k _ k' _ => Integrable.of_finite, fun X hX Y hY k hk k' hk' => ?_⟩
  rw [integral4]
  by_cases hz : (X = 0 ∧ (k = (0, 1) ∨ k = (0, 2))) ∧ Y = 0 ∧ (k' = (0, 1) ∨ k' = (0, 2))
  · obtain ⟨⟨rfl, h1⟩, rfl, h2⟩ := hz
    have e := phases (decide (k = (0, 1))) (decide (k' = (0, 1)))
    have m1 : ∀ ω : Fin 4, modesY ω 0 k = if decide (k = (0, 1)) = true then Complex.I ^ ω.val else star (Complex.I ^ ω.val) := by
      intro ω; rcases h1 with rfl | rfl <;> simp [modesY]
    have m2 : ∀ ω : Fin 4, modesY ω 0 k' = if decide (k' = (0, 1)) = true then Complex.I ^ ω.val else star (Complex.I ^ ω.val) := by
      intro ω; rcases h2 with rfl | rfl <;> simp [modesY]
    simp only [m1, m2]
    refine Eq.trans e ?_
    rcases h1 with rfl | rfl <;> rcases h2 with rfl | rfl <;> simp [specY, fsG] <;> norm_num
  · have h0 : ∀ ω, modesY ω X k * star (modesY ω Y k') = 0 := by
      intro ω
      rw [not_and_or] at hz
      rcases hz with hz | hz
      · have : modesY ω X k = 0 := by
          unfold modesY; rw [if_neg (fun h => hz ⟨h.1, Or.inl h.2⟩), if_neg (fun h => hz ⟨h.1, Or.inr h.2⟩)]
        rw [this, zero_mul]
      · have : modesY ω Y k' = 0 := by
          unfold modesY; rw [if_neg (fun h => hz ⟨h.1, Or.inl h.2⟩), if_neg (fun h => hz ⟨h.1, Or.inr h.2⟩)]
        rw [this, star_zero, mul_zero]
    simp only [h0]
    by_cases hkk : k = k'
    · subst hkk
      have : specY X Y k = 0 := if_neg fun h => hz ⟨⟨h.1, h.2.2⟩, h.2.1, h.2.2⟩
      simp [this]
    · simp [hkk]

theorem maskG_limited : BandLimited fsG 1 0 (fsG.map2alm maskE) := by
  intro k hk h
  rw [maskG_alm hk] at h
  by_cases h0 : k = (0, 0)
  · simp [h0]
  · by_cases h1 : k = (1, 0) ∨ k = (4, 0)
    · rcases h1 with rfl | rfl <;> simp [fsG]
    · simp [h0, h1] at h

theorem resolvedX (ω : Fin 4) : Resolved fsG maskE (modesX ω) := by
  refine ⟨1, 0, 1, 0, maskG_limited, ?_, ?_, by simp [fsG], by simp [fsG]⟩
  · intro k hk h
    by_cases h1 : k = (1, 0) ∨ k = (4, 0)
    · rcases h1 with rfl | rfl <;> simp [fsG]
    · rw [not_or] at h1; simp [modesX, h1.1, h1.2] at h
  · intro k hk h
    simp [modesX] at h

theorem resolvedY (ω : Fin 4) : Resolved fsG maskE (modesY ω) := by
  refine ⟨1, 0, 0, 1, maskG_limited, ?_, ?_, by simp [fsG], by simp [fsG]⟩
  · intro k hk h
    by_cases h1 : k = (0, 1) ∨ k = (0, 2)
    · rcases h1 with rfl | rfl <;> simp [fsG]
    · rw [not_or] at h1; simp [modesY, h1.1, h1.2] at h
  · intro k hk h
    simp [modesY] at h

theorem squareG : SquarePixels fsG := by norm_num [SquarePixels, fsG]

/-! ### Bands -/

theorem kmodG (k : ℕ × ℕ) : fsG.kmod k.1 k.2 = √(fsG.kx k.1 * fsG.kx k.1 + fsG.ky k.2 * fsG.ky k.2) := rfl

theorem casesG {k : ℕ × ℕ} (hk : k ∈ fsG.modes) : k = (0, 0) ∨ (k = (1, 0) ∨ k = (4, 0)) ∨ (k = (0, 1) ∨ k = (0, 2)) ∨
    ((2.2 : ℝ) ≤ fsG.kmod k.1 k.2 ∧ k ≠ (0, 0) ∧ k ≠ (1, 0) ∧ k ≠ (4, 0) ∧ k ≠ (0, 1) ∧ k ≠ (0, 2)) := by
  obtain ⟨x, y⟩ := k
  rw [memG] at hk
  simp only at hk
  have hpi := Real.pi_gt_d2
  have hb : ∀ z : ℝ, 2.2 ^ 2 ≤ z → 2.2 ≤ √z := fun z hz => by
    rw [← Real.sqrt_sq (show (0 : ℝ) ≤ 2.2 by norm_num)]
    exact Real.sqrt_le_sqrt hz
  obtain ⟨hx, hy⟩ := hk
  interval_cases x <;> interval_cases y <;> first
    | (left; rfl)
    | (right; left; left; rfl)
    | (right; left; right; rfl)
    | (right; right; left; left; rfl)
    | (right; right; left; right; rfl)
    | (right; right; right
       refine ⟨?_, by simp, by simp, by simp, by simp, by simp⟩
       rw [kmodG]
       apply hb
       simp only [FlatInfo.kx, FlatInfo.ky, waveNum, fsG]
       norm_num
       nlinarith)

theorem kmod00 : fsG.kmod 0 0 = 0 := kmod_zero fsG

theorem kmodX {k : ℕ × ℕ} (h : k = (1, 0) ∨ k = (4, 0)) : fsG.kmod k.1 k.2 = 2 * π / 5 := by
  rcases h with rfl | rfl
  · rw [kmodG]
    simp only [FlatInfo.kx, FlatInfo.ky, waveNum, fsG]
    norm_num
    rw [Real.sqrt_mul_self (by positivity)]
  · rw [kmodG]
    simp only [FlatInfo.kx, FlatInfo.ky, waveNum, fsG]
    norm_num
    rw [Real.sqrt_mul_self (by positivity)]

theorem kmodY {k : ℕ × ℕ} (h : k = (0, 1) ∨ k = (0, 2)) : fsG.kmod k.1 k.2 = 2 * π / 3 := by
  rcases h with rfl | rfl
  · rw [kmodG]
    simp only [FlatInfo.kx, FlatInfo.ky, waveNum, fsG]
    norm_num
    rw [Real.sqrt_mul_self (by positivity)]
  · rw [kmodG]
    simp only [FlatInfo.kx, FlatInfo.ky, waveNum, fsG]
    norm_num
    rw [Real.sqrt_mul_self (by positivity)]

/-- One band with the modes of the sky along y. -/
noncomputable def binsY : FlatBins ℝ := ⟨1, fun _ => 2, fun _ => 2.2⟩

theorem inY {k : ℕ × ℕ} (hk : k ∈ fsG.modes) (ib : ℕ) : InBand binsY ib (fsG.kmod k.1 k.2) ↔ ib = 0 ∧ (k = (0, 1) ∨ k = (0, 2)) := by
  have h1 := Real.pi_gt_d2
  have h2 := Real.pi_lt_d2
  unfold InBand binsY
  simp only [Nat.lt_one_iff]
  refine and_congr_right fun _ => ?_
  rcases casesG hk with rfl | h | h | h
  · simp [kmod00]
  · rw [kmodX h]
    constructor
    · intro hh; exfalso; linarith [hh.1]
    · rcases h with rfl | rfl <;> simp
  · rw [kmodY h]
    refine iff_of_true ⟨by linarith, by norm_num at *; linarith⟩ h
  · refine iff_of_false (fun hh => ?_) (fun hh => ?_)
    · exact absurd hh.2 (not_lt.2 h.1)
    · rcases hh with hh | hh
      · exact h.2.2.2.2.1 hh
      · exact h.2.2.2.2.2 hh

/-- A band with multipole 0, and one with the modes of the sky along x. -/
noncomputable def binsX : FlatBins ℝ := ⟨2, fun i => i, fun i => i + 1⟩

theorem inX {k : ℕ × ℕ} (hk : k ∈ fsG.modes) (ib : ℕ) :
    InBand binsX ib (fsG.kmod k.1 k.2) ↔ (ib = 0 ∧ k = (0, 0)) ∨ (ib = 1 ∧ (k = (1, 0) ∨ k = (4, 0))) := by
  have h1 := Real.pi_gt_d2
  have h2 := Real.pi_lt_d2
  unfold InBand binsX
  simp only
  by_cases hib : ib < 2
  swap
  · refine iff_of_false (fun h => hib h.1) ?_
    rintro (h | h) <;> omega
  interval_cases ib
  · rcases casesG hk with rfl | h | h | h
    · simp [kmod00]
    · rw [kmodX h]
      refine iff_of_false (fun hh => ?_) ?_
      · have := hh.2.2; norm_num at this; linarith
      · rcases h with rfl | rfl <;> simp
    · rw [kmodY h]
      refine iff_of_false (fun hh => ?_) ?_
      · have := hh.2.2; norm_num at this; linarith
      · rcases h with rfl | rfl <;> simp
    · refine iff_of_false (fun hh => ?_) ?_
      · have := hh.2.2; norm_num at this; linarith [h.1]
      · simp [h.2]
  · rcases casesG hk with rfl | h | h | h
    · simp [kmod00]
    · rw [kmodX h]
      refine iff_of_true ⟨by norm_num, ?_, ?_⟩ (Or.inr ⟨rfl, h⟩) <;> norm_num <;> linarith
    · rw [kmodY h]
      refine iff_of_false (fun hh => ?_) ?_
      · have := hh.2.2; norm_num at this; linarith
      · rcases h with rfl | rfl <;> simp
    · refine iff_of_false (fun hh => ?_) ?_
      · have := hh.2.2; norm_num at this; linarith [h.1]
      · simp [h.2]

theorem gaplessY : GaplessBands binsY :=
  { proper := fun i _ => by norm_num [binsY]
    ordered := fun i hi => by simp [binsY] at hi
    gapless := fun i hi => by simp [binsY] at hi }

theorem gaplessX : GaplessBands binsX :=
  { proper := fun i _ => by norm_num [binsX]
    ordered := fun i hi => by simp [binsX]
    gapless := fun i hi => by simp [binsX] }

theorem nyquistG (b : FlatBins ℝ) : NoNyquist fsG b := by
  intro k hk h
  simp only [fsG] at h
  omega

theorem skiesY (t : Bool) : FlatSkies μ4 (argsG false true t) (argsG false true t) 2 2 skyY skyY modesY modesY specY :=
  ⟨rfl, skyY_modes, skyY_modes, homY⟩

theorem schemeY (t : Bool) : FlatScheme (argsG false true t) (argsG false true t) 2 2 modesY modesY binsY defaultCuts where
  gapless := gaplessY
  some := by simp [binsY]
  cuts := symmetric_default _
  nyquist := Or.inr (nyquistG _)
  pure1 := fun _ => ⟨squareG, resolvedY⟩
  pure2 := fun _ => ⟨squareG, resolvedY⟩
  zero := fun _ ib h => by
    have := h.2.1
    norm_num [binsY] at this

/-! ### Fields -/

open FlatBiasExample (env2)

theorem env2_exact : env2.Exact := fun fs => ⟨stdC2r fs, rfl⟩

theorem fieldG (env : FlatEnv) (e b t : Bool) (ht : t = true → env = env2) (v : FlatMaps) :
    ∃ f, nmtFieldFlat env ((argsG e b t).withMaps 2 v) = .ok f ∧ f.matrixM ≠ some none ∧
    f.base = ⟨fsG, 2, maskE, fun _ => 1, if e then 1 else 0, if b then 1 else 0⟩ := by
  unfold nmtFieldFlat
  have h2 : flatSpin ((argsG e b t).withMaps 2 v) = .ok 2 := by simp [flatSpin, argsG, FlatFieldArgs.withMaps]
  have h3 : flatShapes ((argsG e b t).withMaps 2 v) = .ok () := by
    cases t <;> simp [flatShapes, argsG, FlatFieldArgs.withMaps, fsG]
  rw [if_neg (by simp only [argsG, FlatFieldArgs.withMaps, fsG]; norm_num), h2]
  simp only [Outcome.bind]
  rw [if_neg (by simp), h3]
  simp only [Outcome.bind]
  rw [if_neg (by simp only [argsG, fsG, FlatFieldArgs.withMaps]; norm_num)]
  simp only [flatBeam, argsG, Outcome.bind, FlatFieldArgs.withMaps]
  refine ⟨_, rfl, ?_, rfl⟩
  cases t
  · simp [flatAlloc]
  · have hg : 0 < flatGram fsG 2 1 (fun _ X p => (if X = 0 then 1 else 0) * maskE p) 0 0 := by
      unfold flatGram
      rw [tab2_of_lt _ one_pos one_pos]
      unfold FlatInfo.dot
      rw [Finset.sum_range_succ, Finset.sum_range_one]
      have hp : ∀ p ∈ fsG.modes, 0 < (if (0 : ℕ) = 0 then (1 : ℝ) else 0) * maskE p * ((if (0 : ℕ) = 0 then (1 : ℝ) else 0) * maskE p) * fsG.pixsize := by
        intro p _
        have : 0 < maskE p := by
          unfold maskE
          linarith [Real.neg_one_le_cos (2 * π * p.1 / 5)]
        have h2 : 0 < fsG.pixsize := by norm_num [FlatInfo.pixsize, fsG]
        simp
        positivity
      have h1 := Finset.sum_pos hp ⟨(0, 0), by simp [memG]⟩
      simpa [Finset.sum_mul] using h1
    have e1 : (fun (_ : ℕ) X p => (if X = 0 then (1 : ℝ) else 0) * maskE p) = fun (_ : ℕ) X p => if X = 0 then maskE p else 0 := by
      funext _ X p; split_ifs <;> simp
    rw [e1] at hg
    obtain rfl := ht rfl
    unfold flatAlloc
    simp [pinvC, spectralInverse, env2, maxUpTo, nmapsOf]
    exact fun _ => hg.ne'

/-- The base of the fields. -/
noncomputable def fG (e b : Bool) : FlatField := ⟨fsG, 2, maskE, fun _ => 1, if e then 1 else 0, if b then 1 else 0⟩

theorem flagsG (e b : Bool) : (fG e b).FlagsOk := by
  cases e <;> cases b <;> exact ⟨by simp [fG], by simp [fG], by simp [fG]⟩

theorem powerG {q : ℕ × ℕ} (hq : q ∈ fsG.modes) : maskPower fsG maskE maskE q =
    ((if q = (0, 0) then 2 else 0) + if q = (1, 0) ∨ q = (4, 0) then 1 / 2 else 0) ^ 2 * (15 / (2 * π)) ^ 2 := by
  unfold maskPower
  have : fsG.map2alm maskE q = ((((if q = (0, 0) then 2 else 0) + if q = (1, 0) ∨ q = (4, 0) then 1 / 2 else 0) * (15 / (2 * π)) : ℝ) : ℂ) := by
    rw [maskG_alm hq]
    push_cast
    split_ifs <;> simp
  rw [this, show star (((((if q = (0, 0) then 2 else 0) + if q = (1, 0) ∨ q = (4, 0) then 1 / 2 else 0) * (15 / (2 * π)) : ℝ) : ℂ)) = _ from
    Complex.conj_ofReal _, ← Complex.ofReal_mul, Complex.ofReal_re]
  ring

theorem reflectG (e b e' b' : Bool) : ReflectionSymmetric (fG e b) (fG e' b') := by
  intro q hq
  obtain ⟨x, y⟩ := q
  have hq' := memG.1 hq
  have hf : (fG e b).fs.flip (x, y) ∈ fsG.modes := by
    rw [memG]
    obtain ⟨h1, h2⟩ := hq'
    simp only at h1 h2
    interval_cases x <;> interval_cases y <;> simp [FlatInfo.flip, negIdx, fG, fsG]
  change maskPower fsG maskE maskE _ = maskPower fsG maskE maskE _
  rw [powerG hf, powerG hq]
  obtain ⟨h1, h2⟩ := hq'
  simp only at h1 h2
  interval_cases x <;> interval_cases y <;> simp [FlatInfo.flip, negIdx, fG, fsG]

theorem spectraY : BandSpectra (fG false true) (fG false true) binsY (fun X Y _ => if X = 0 ∧ Y = 0 then 15 else 0) specY := by
  intro X Y k hk
  have hk : k ∈ fsG.modes := hk
  refine ⟨fun ib hib => ?_, fun hn => ?_⟩
  · have := ((inY hk ib).1 hib).2
    simp [specY, this, fG]
  · have : ¬ (k = (0, 1) ∨ k = (0, 2)) := fun h => hn 0 ((inY hk 0).2 ⟨rfl, h⟩)
    simp [specY, this]

theorem modesBandY (ib : ℕ) (h : ib = 0) : bandModes fsG binsY defaultCuts ib = {(0, 1), (0, 2)} := by
  subst h
  ext k
  rw [mem_bandModes]
  simp only [Finset.mem_insert, Finset.mem_singleton]
  constructor
  · rintro ⟨h1, h2⟩
    exact ((inY h1 0).1 h2).2
  · intro h
    have hk : k ∈ fsG.modes := by rcases h with rfl | rfl <;> simp [memG]
    exact ⟨hk, (inY hk 0).2 ⟨rfl, h⟩⟩

theorem modesAllY : bandModesAll fsG binsY 0 = {(0, 1), (0, 2)} := by
  classical
  ext k
  unfold bandModesAll
  rw [Finset.mem_filter]
  simp only [Finset.mem_insert, Finset.mem_singleton]
  constructor
  · rintro ⟨h1, h2⟩
    exact ((inY h1 0).1 h2).2
  · intro h
    have hk : k ∈ fsG.modes := by rcases h with rfl | rfl <;> simp [memG]
    exact ⟨hk, (inY hk 0).2 ⟨rfl, h⟩⟩

/-- A mode is not mixed with itself. -/
theorem mix_self {k : ℕ × ℕ} (h : fsG.kmod k.1 k.2 ≠ 0) (e b : Bool) {X X' : ℕ} (hX : X < 2) (hX' : X' < 2) :
    (fG e b).mix k k X X' = if X = X' then 1 else 0 := by
  unfold FlatField.mix
  have h1 : (fG e b).fs.kmod k.1 k.2 / (fG e b).fs.kmod k.1 k.2 = 1 := div_self h
  rw [h1, sub_self]
  interval_cases X <;> interval_cases X' <;> simp [rotEB, fG]

theorem coupleY : ∃ d : ℝ, 0 < d ∧ ∀ X < 2, ∀ Y < 2, ∀ X' < 2, ∀ Y' < 2,
    trueCouplingPure (fG false true) (fG false true) binsY defaultCuts X Y 0 X' Y' 0 = if X = X' ∧ Y = Y' then d else 0 := by
  have hm : (fG false true).mask = maskE := rfl
  have hfs : (fG false true).fs = fsG := rfl
  have hbm : (fG false true).beam = fun _ => 1 := rfl
  have hpi := Real.pi_pos
  refine ⟨4 * π * π / (5 * 5 * 3 * 3) / 2 * (2 * (2 ^ 2 * (15 / (2 * π)) ^ 2)), by positivity, ?_⟩
  intro X hX Y hY X' hX' Y' hY'
  unfold trueCouplingPure
  rw [hm, hfs, modesBandY 0 rfl, modesAllY, hbm, Finset.sum_pair (by simp), Finset.sum_pair (by simp), Finset.sum_pair (by simp),
    Finset.card_pair (by simp)]
  have p1 : fsG.sub (0, 1) (0, 1) = (0, 0) := by simp [FlatInfo.sub, subIdx, fsG]
  have p2 : fsG.sub (0, 2) (0, 2) = (0, 0) := by simp [FlatInfo.sub, subIdx, fsG]
  have p3 : fsG.sub (0, 1) (0, 2) = (0, 2) := by simp [FlatInfo.sub, subIdx, fsG]
  have p4 : fsG.sub (0, 2) (0, 1) = (0, 1) := by simp [FlatInfo.sub, subIdx, fsG]
  rw [p1, p2, p3, p4, powerG (by simp [memG]), powerG (by simp [memG]), powerG (by simp [memG])]
  have q1 : fsG.kmod ((0, 1) : ℕ × ℕ).1 ((0, 1) : ℕ × ℕ).2 ≠ 0 := by rw [kmodY (Or.inl rfl)]; positivity
  have q2 : fsG.kmod ((0, 2) : ℕ × ℕ).1 ((0, 2) : ℕ × ℕ).2 ≠ 0 := by rw [kmodY (Or.inr rfl)]; positivity
  rw [mix_self q1 _ _ hX hX', mix_self q1 _ _ hY hY', mix_self q2 _ _ hX hX', mix_self q2 _ _ hY hY']
  have f1 : fsG.lx = 5 := rfl
  have f2 : fsG.ly = 3 := rfl
  rw [f1, f2]
  by_cases h1 : X = X' <;> by_cases h2 : Y = Y' <;> simp [h1, h2]
  ring

theorem regularY {W : WspFlat} (hW : couplingFlat (fG false true) (fG false true) binsY defaultCuts false = .ok W) :
    Regular (W.ncls * W.bin.nBands) W.gslMatrix := by
  obtain ⟨W', hW', h⟩ := C80_matrix_partial (fG false true) (fG false true) rfl (flagsG _ _) (flagsG _ _) binsY gaplessY (by simp [binsY])
    defaultCuts (by simp [fG, fsG]) (symmetric_default _) (Or.inr (nyquistG _)) (Or.inr fun ib hh => by
      have := hh.2.1
      norm_num [binsY] at this)
  rw [hW] at hW'
  cases hW'
  obtain ⟨-, -, h2, h3⟩ := couplingFlat_fits hW
  have h3 : W.ncls = 4 := h3
  obtain ⟨d, hd, hc⟩ := coupleY
  have hN : W.ncls * W.bin.nBands = 4 := by rw [h3, h2]; rfl
  rw [hN]
  have hmat : toMat 4 W.gslMatrix = d • (1 : Matrix (Fin 4) (Fin 4) ℝ) := by
    ext r s
    have hr := r.isLt
    have hs := s.isLt
    have := h (r / 2) (by simp only [nmapsOf, fG]; norm_num; omega) (r % 2) (by simp only [nmapsOf, fG]; norm_num; omega)
      (s / 2) (by simp only [nmapsOf, fG]; norm_num; omega) (s % 2) (by simp only [nmapsOf, fG]; norm_num; omega)
      (Or.inr (reflectG _ _ _ _)) 0 (by simp [binsY]) 0 (by simp [binsY])
    rw [hc _ (by omega) _ (by omega) _ (by omega) _ (by omega)] at this
    unfold WspFlat.coupling at this
    have hn : nmapsOf (fG false true).spin = 2 := rfl
    rw [hn, Nat.div_add_mod, Nat.div_add_mod] at this
    simp only [toMat, WspFlat.gslMatrix, h3, Nat.mod_eq_of_lt hr, Nat.mod_eq_of_lt hs, Nat.div_eq_of_lt hr, Nat.div_eq_of_lt hs]
    rw [this, Matrix.smul_apply, Matrix.one_apply]
    have : ((r : ℕ) / 2 = s / 2 ∧ (r : ℕ) % 2 = s % 2) ↔ r = s := by
      rw [Fin.ext_iff]; omega
    simp [this]
  unfold Regular
  rw [hmat, Matrix.det_smul, Matrix.det_one, mul_one, isUnit_iff_ne_zero]
  positivity

/-- A guess that is not zero at a multipole between two others. -/
theorem guessY {row : ℕ → ℕ → ℝ} {i : ℕ} (v : ℝ) {x y : ℝ} (hr : row i = fun j => if j = 1 then v else 0)
    (h : (x < 2 ∧ y = 0) ∨ (x = 2 * π / 3 ∧ y = v) ∨ (2.2 ≤ x ∧ y = 0)) :
    GuessAt [2, 2 * π / 3, 2.2] (row i) x y := by
  have hpi := Real.pi_gt_d2
  have hpi2 := Real.pi_lt_d2
  rw [hr]
  unfold GuessAt
  refine ⟨fun hx => ?_, fun hx => ?_, fun i hi h1 h2 => ?_⟩
  · simp at hx ⊢
    rcases h with h | h | h
    · exact h.2
    · exfalso; rw [h.1] at hx; linarith
    · exact h.2
  · simp at hx
    rcases h with h | h | h
    · exact h.2
    · exfalso; rw [h.1] at hx; norm_num at hx; linarith
    · exact h.2
  · have hi : i < 2 := by
      simp only [List.length_cons, List.length_nil] at hi
      omega
    interval_cases i
    · simp at h1 h2
      rcases h with h | h | h
      · linarith [h.1]
      · linarith [h.1]
      · norm_num at h; linarith [h.1]
    · simp at h1 h2
      rcases h with h | h | h
      · linarith [h.1]
      · simp [h.1, h.2]
      · linarith [h.1]

theorem regionX {ib : ℕ} : bandModes fsG binsX defaultCuts ib = if ib = 0 then {(0, 0)} else if ib = 1 then {(1, 0), (4, 0)} else ∅ := by
  ext k
  rw [mem_bandModes]
  constructor
  · rintro ⟨h1, h2⟩
    rcases (inX h1 ib).1 h2 with ⟨rfl, h⟩ | ⟨rfl, h⟩
    · simp [h]
    · simpa using h
  · intro h
    split_ifs at h with h0 h1
    · rw [Finset.mem_singleton] at h
      have hk : k ∈ fsG.modes := by rw [h]; simp [memG]
      exact ⟨hk, (inX hk ib).2 (Or.inl ⟨h0, h⟩)⟩
    · simp only [Finset.mem_insert, Finset.mem_singleton] at h
      have hk : k ∈ fsG.modes := by rcases h with rfl | rfl <;> simp [memG]
      exact ⟨hk, (inX hk ib).2 (Or.inr ⟨h1, h⟩)⟩
    · simp at h

/-- The bandpowers of the sky along x. -/
noncomputable def powersX : ℕ → ℕ → ℕ → ℝ := fun X Y ib => if X = 0 ∧ Y = 0 ∧ ib = 1 then 15 else 0

theorem spectraX (e b : Bool) : BandSpectra (fG e b) (fG e b) binsX powersX specX := by
  intro X Y k hk
  have hk : k ∈ fsG.modes := hk
  refine ⟨fun ib hib => ?_, fun hn => ?_⟩
  · rcases (inX hk ib).1 hib with ⟨rfl, rfl⟩ | ⟨rfl, h⟩
    · simp [specX, powersX, fG]
    · simp [specX, powersX, h, fG]
  · have : ¬ (k = (1, 0) ∨ k = (4, 0)) := fun h => hn 1 ((inX hk 1).2 (Or.inr ⟨rfl, h⟩))
    simp [specX, this]

theorem angleX {k : ℕ × ℕ} (h : k = (1, 0) ∨ k = (4, 0)) : cos (2 * (modeAngle fsG (0, 0) - modeAngle fsG k)) = 1 := by
  have h0 : modeAngle fsG (0, 0) = 0 := by simp [modeAngle, FlatInfo.kx, FlatInfo.ky, waveNum]
  have hp := Real.pi_pos
  rw [h0]
  rcases h with rfl | rfl
  · have : modeAngle fsG (1, 0) = 0 := by
      unfold modeAngle
      rw [kyG0, show fsG.kx 1 = 2 * π / 5 by simp only [FlatInfo.kx, waveNum, fsG]; norm_num]
      rw [Complex.ofReal_zero, zero_mul, add_zero]
      exact Complex.arg_ofReal_of_nonneg (by positivity)
    rw [this]
    simp
  · have : modeAngle fsG (4, 0) = π := by
      unfold modeAngle
      rw [kyG0, show fsG.kx 4 = -(2 * π / 5) by simp only [FlatInfo.kx, waveNum, fsG]; norm_num]
      rw [Complex.ofReal_zero, zero_mul, add_zero]
      exact Complex.arg_ofReal_of_neg (by linarith)
    rw [this, show 2 * (0 - π) = -(2 * π) by ring, Real.cos_neg, Real.cos_two_pi]

/-- The coefficient at multipole 0 of the purified field is not purified. -/
theorem zeroX (env : FlatEnv) (ω : Fin 4) : popFlat env (argsG true false false) 2 (skyX ω) 0 (0, 0) =
    ((15 / (4 * π) : ℝ) : ℂ) * (Complex.I ^ ω.val + star (Complex.I ^ ω.val)) := by
  unfold popFlat
  rw [if_pos (by simp [argsG])]
  unfold purifyFlatAlms
  simp only [pixMod_zero]
  rw [if_pos (by simp [argsG]), if_neg (by simp), if_neg (by simp), add_zero, add_zero]
  have hgoal : fsMap2alm (argsG true false false).fs 2 (fun c p => skyX ω c p * (argsG true false false).mask p) 0 (0, 0) =
      maskedAlm fsG 2 maskE (skyX ω) 0 (0, 0) := by
    unfold fsMap2alm maskedAlm
    simp [argsG, mul_comm]
  rw [hgoal, maskedAlm_eq 2 maskE (skyX ω) (modesX ω) (skyX_modes ω) (by simp [nmapsOf]), Finset.sum_product,
    sumG (1, 0) (4, 0) (by simp) (by simp [memG]) (by simp [memG]) _ (by
      intro k _ h1 h2
      exact Finset.sum_eq_zero fun X _ => by simp [modesX, h1, h2])]
  have hr : range (nmapsOf 2) = {0, 1} := by decide
  have s1 : fsG.sub (0, 0) (1, 0) = (4, 0) := by simp [FlatInfo.sub, subIdx, fsG]
  have s2 : fsG.sub (0, 0) (4, 0) = (1, 0) := by simp [FlatInfo.sub, subIdx, fsG]
  rw [hr, Finset.sum_pair (by simp), Finset.sum_pair (by simp)]
  simp only [s1, s2]
  have r1 : rotEB 2 (modeAngle fsG (0, 0) - modeAngle fsG (1, 0)) 0 0 = 1 := by
    have := angleX (k := (1, 0)) (Or.inl rfl)
    simpa [rotEB] using this
  have r2 : rotEB 2 (modeAngle fsG (0, 0) - modeAngle fsG (4, 0)) 0 0 = 1 := by
    have := angleX (k := (4, 0)) (Or.inr rfl)
    simpa [rotEB] using this
  rw [r1, r2, maskG_alm (by simp [memG]), maskG_alm (by simp [memG])]
  simp [modesX]
  ring

end FlatPureExample

open FlatPureExample in
/-- **C80**, false for bands with multipole 0: the coefficient of a purified field at multipole 0 is not purified, but the coupling matrix
says that it is, and that no other multipole contributes to it. For a sky with one E mode, a field with purified E modes, and a first band
that contains multipole 0, the coupling matrix times the bandpowers of the sky is 0 in this band, and the mean spectrum is not. All other
conditions of `C80_master_partial` hold. -/
theorem C80_zero_mode_wrong (env : FlatEnv) : ∃ (a : FlatFieldArgs) (s : Fin 4 → FlatMaps) (F : Fin 4 → ℕ → ℕ × ℕ → ℂ)
    (C : ℕ → ℕ → ℕ × ℕ → ℝ) (b : FlatBins ℝ) (c : EllCuts) (g : Fin 4 → FlatFieldObj) (Cb : ℕ → ℕ → ℕ → ℝ),
    FlatCall a ∧ IsProbabilityMeasure μ4 ∧ FlatSkies μ4 a a 2 2 s s F F C ∧ GaplessBands b ∧ SymmetricCuts a.fs c ∧ NoNyquist a.fs b ∧
    SquarePixels a.fs ∧ (∀ ω, Resolved a.fs a.mask (F ω)) ∧ (∀ ω, nmtFieldFlat env (a.bare.withMaps 2 (s ω)) = .ok (g ω)) ∧
    (∀ ω, BandSpectra (g ω).base (g ω).base b Cb C) ∧ (∀ ω, ReflectionSymmetric (g ω).base (g ω).base) ∧
    ∃ (W : WspFlat) (G : Fin 4 → Arr2 ℝ), (∀ ω, couplingFlat (g ω).base (g ω).base b c false = .ok W) ∧
      (∀ ω, coupledCellFlat (g ω).data (g ω).data b c = .ok (G ω)) ∧
      (∑ ib' ∈ range b.nBands, ∑ X' ∈ range 2, ∑ Y' ∈ range 2, W.binned 0 0 (2 * X' + Y') ib' * Cb X' Y' ib') = 0 ∧
      0 < ∫ ω, (G ω).val 0 0 ∂μ4 := by
  have hp : IsProbabilityMeasure μ4 := prob4
  have hpi := Real.pi_pos
  choose f hf _ hb using fun ω => fieldG env true false false (by simp) (skyX ω)
  have hb : ∀ ω, (f ω).base = fG true false := hb
  obtain ⟨W, hW, hn, hbin⟩ := couplingFlat_eq (fG true false) (fG true false) binsX gaplessX (by simp [binsX]) defaultCuts false rfl (by simp)
  have hn : W.ncls = 4 := hn
  choose G hG hsh hv using fun ω => coupled_values (callG true false false) (callG true false false) rfl (hf ω) (hf ω) binsX gaplessX
    (by simp [binsX]) defaultCuts
  refine ⟨argsG true false false, skyX, modesX, specX, binsX, defaultCuts, f, powersX, callG _ _ _, hp, ⟨rfl, skyX_modes, skyX_modes, homX⟩,
    gaplessX, symmetric_default _, nyquistG _, squareG, resolvedX, hf, fun ω => by rw [hb]; exact spectraX _ _,
    fun ω => by rw [hb]; exact reflectG _ _ _ _, W, G, fun ω => by rw [hb]; exact hW, hG, ?_, ?_⟩
  · have h2 : range binsX.nBands = {0, 1} := rfl
    have h3 : range 2 = {0, 1} := rfl
    rw [h2, h3, Finset.sum_pair (by simp), Finset.sum_pair (by simp), Finset.sum_pair (by simp), Finset.sum_pair (by simp),
      Finset.sum_pair (by simp), Finset.sum_pair (by simp), Finset.sum_pair (by simp)]
    have hz : W.binned 0 0 0 1 = 0 := by
      rw [hbin 0 (by omega) 0 (by omega) 0 (by simp [binsX]) 1 (by simp [binsX])]
      have e1 : bandModes (fG true false).fs binsX defaultCuts 0 = {(0, 0)} := regionX
      rw [e1, Finset.sum_singleton, hn, Finset.sum_eq_zero, zero_mul]
      intro k hk
      classical
      unfold bandModesAll at hk
      rw [Finset.mem_filter] at hk
      have hk0 : k ≠ (0, 0) := by
        rcases (inX hk.1 1).1 hk.2 with h | h
        · exact absurd h.1 (by norm_num)
        · rcases h.2 with h | h <;> rw [h] <;> simp
      simp [coupTerm, coupFactor, fG, FlatInfo.kratio, hk0]
    simp [powersX, hz]
  · have hval : ∀ ω, (G ω).val 0 0 = ((15 / (4 * π)) * (Complex.I ^ ω.val + star (Complex.I ^ ω.val)).re) ^ 2 * (4 * π * π / (5 * 3)) := by
      intro ω
      have e1 : bandModes (argsG true false false).fs binsX defaultCuts 0 = {(0, 0)} := regionX
      have e2 : (argsG true false false).spinFor 2 = 2 := rfl
      have e3 : (argsG true false false).fs.lx = 5 := rfl
      have e4 : (argsG true false false).fs.ly = 3 := rfl
      have := hv ω 0 (by norm_num) 0 (by norm_num) 0 (by simp [binsX])
      rw [e1, Finset.sum_singleton, Finset.card_singleton, e2, e3, e4] at this
      unfold halfProd at this
      have e5 : (ixHere (argsG true false false).fs.nx ((0, 0) : ℕ × ℕ).1, ((0, 0) : ℕ × ℕ).2) = (0, 0) := by simp [ixHere]
      rw [e5, zeroX] at this
      have hre : (Complex.I ^ ω.val + star (Complex.I ^ ω.val)).im = 0 := by
        rw [show star (Complex.I ^ ω.val) = (starRingEnd ℂ) (Complex.I ^ ω.val) from rfl, Complex.add_im, Complex.conj_im, add_neg_cancel]
      rw [Complex.re_ofReal_mul, Complex.im_ofReal_mul, hre] at this
      rw [show 2 * 0 + 0 = 0 from rfl] at this
      rw [this]
      push_cast
      ring
    rw [integral4]
    simp only [hval]
    simp [pow_succ]
    norm_num
    positivity

open FlatPureExample in
open FlatBiasExample (env2) in
/-- The E mode along y gives no spectra with B modes if these are purified, though the mask is not uniform. -/
example (ω : Fin 4) : ∃ g G, nmtFieldFlat env2 ((argsG false true false).withMaps 2 (skyY ω)) = .ok g ∧
    coupledCellFlat g.data g.data binsY defaultCuts = .ok G ∧ G.val 3 0 = 0 := by
  obtain ⟨g, hg, -, -⟩ := fieldG env2 false true false (by simp) (skyY ω)
  obtain ⟨G, hG, -, -, h⟩ := C80_no_leakage_partial env2 env2_exact _ _ (callG false true false) (callG false true false) rfl 2 2 _ _ g g hg hg
    (modesY ω) (skyY_modes ω) squareG (resolvedY ω) 1 (Or.inr ⟨rfl, rfl⟩) (by simp [modesY]) binsY gaplessY (by simp [binsY])
    (fun ib hh => by have := hh.2.1; norm_num [binsY] at this) defaultCuts
  exact ⟨g, G, hg, hG, h 1 (by norm_num) 0 (by simp [binsY])⟩

open FlatPureExample in
open FlatBiasExample (env2) in
/-- The mean pseudo-spectra of the same field are its coupling matrix times the bandpowers, and so is the matrix in terms of the sky. -/
example : ∃ (g : Fin 4 → FlatFieldObj) (W : WspFlat) (G : Fin 4 → Arr2 ℝ),
    (∀ ω, nmtFieldFlat env2 ((argsG false true false).withMaps 2 (skyY ω)) = .ok (g ω)) ∧
    (∀ ω, couplingFlat (g ω).base (g ω).base binsY defaultCuts false = .ok W) ∧
    (∀ ω, coupledCellFlat (g ω).data (g ω).data binsY defaultCuts = .ok (G ω)) ∧
    ∫ ω, (G ω).val 0 0 ∂μ4 = W.binned 0 0 0 0 * 15 ∧
    W.binned 0 0 0 0 = trueCouplingPure (fG false true) (fG false true) binsY defaultCuts 0 0 0 0 0 0 ∧
    ∫ ω, (G ω).val 0 0 ∂μ4 = trueCouplingPure (fG false true) (fG false true) binsY defaultCuts 0 0 0 0 0 0 * 15 := by
  have : IsProbabilityMeasure μ4 := prob4
  choose g hg _ hb using fun ω => fieldG env2 false true false (by simp) (skyY ω)
  have hb : ∀ ω, (g ω).base = fG false true := hb
  have hB : ∀ ω, BandSpectra (g ω).base (g ω).base binsY _ specY := fun ω => by rw [hb]; exact spectraY
  obtain ⟨W, G, hW, hG, h⟩ := C80_master_partial μ4 env2 env2_exact _ _ (callG false true false) (callG false true false) 2 2 skyY skyY modesY
    modesY specY (skiesY false) binsY defaultCuts (schemeY false) g g hg hg _ hB
  obtain ⟨G', hG', -, h'⟩ := C80_expectation_partial μ4 env2 env2_exact _ _ (callG false true false) (callG false true false) 2 2 skyY skyY
    modesY modesY specY (skiesY false) binsY defaultCuts (schemeY false) g g hg hg _ hB
  obtain ⟨W', hW', h''⟩ := C80_matrix_partial (fG false true) (fG false true) rfl (flagsG _ _) (flagsG _ _) binsY gaplessY (by simp [binsY])
    defaultCuts (by simp [fG, fsG]) (symmetric_default _) (Or.inr (nyquistG _)) (Or.inr fun ib hh => by
      have := hh.2.1
      norm_num [binsY] at this)
  have e1 : W' = W := by have := hW 0; rw [hb, hW'] at this; cases this; rfl
  have e2 : G' = G := by funext ω; have := hG ω; rw [hG'] at this; exact Outcome.ok.inj this
  subst e1 e2
  refine ⟨g, W', G', hg, hW, hG, ?_, ?_, ?_⟩
  · have := (h 0 (by norm_num) 0 (by norm_num) (Or.inr fun ω => by rw [hb]; exact reflectG _ _ _ _) 0 (by simp [binsY])).2
    simpa [binsY, Finset.sum_range_succ] using this
  · exact h'' 0 (by simp [nmapsOf, fG]) 0 (by simp [nmapsOf, fG]) 0 (by simp [nmapsOf, fG]) 0 (by simp [nmapsOf, fG]) (Or.inl (by simp)) 0
      (by simp [binsY]) 0 (by simp [binsY])
  · have := (h' 0 0 (by norm_num) 0 (by norm_num) 0 (by simp [binsY])).2
    rw [hb] at this
    simpa [binsY, Finset.sum_range_succ] using this

open FlatPureExample in
open FlatBiasExample (env2) in
/-- The E mode along y seen through the mask, for a field with purified B modes and a template: on average the pipeline returns the
spectrum of the sky, and no B modes. -/
example (L : LinAlg ℝ) (hL : L.Correct) : ∃ f : Fin 4 → FlatFieldObj,
    (∀ ω, nmtFieldFlat env2 ((argsG false true true).withMaps 2 (skyY ω)) = .ok (f ω)) ∧
    ∃ W bias, ∃ out : Fin 4 → Arr2 ℝ, (∀ ω, couplingFlat (f ω).base (f ω).base binsY defaultCuts false = .ok W) ∧
      (∀ ω, ((coupledCellFlat (f ω).data (f ω).data binsY defaultCuts).bind fun pcl =>
        decoupleCellFlat L (some W) pcl (some bias) none) = .ok (out ω)) ∧
      ∫ ω, (out ω).val 0 0 ∂μ4 = 15 ∧ ∫ ω, (out ω).val 3 0 ∂μ4 = 0 := by
  have : IsProbabilityMeasure μ4 := prob4
  have hpi := Real.pi_gt_d2
  have hpi2 := Real.pi_lt_d2
  choose f hf hq hb using fun ω => fieldG env2 false true true (fun _ => rfl) (skyY ω)
  have hb : ∀ ω, (f ω).base = fG false true := hb
  obtain ⟨W, hW, h⟩ := C80_decoupled_partial μ4 L hL env2 env2_exact _ _ (callG false true true) (callG false true true) 2 2 skyY skyY modesY
    modesY specY (skiesY true) binsY defaultCuts (schemeY true) f f hf hf hq hq _ (fun ω => by rw [hb]; exact spectraY)
    (Or.inr fun ω => by rw [hb]; exact reflectG _ _ _ _) [2, 2 * π / 3, 2.2] ⟨4, 3, fun i j => if i = 0 ∧ j = 1 then 15 else 0⟩
    (by simp) (by norm_num; refine ⟨by linarith, by linarith⟩) rfl rfl (by
      intro X hX Y hY k hk
      have hk : k ∈ fsG.modes := hk
      change GuessAt _ _ (fsG.kmod k.1 k.2) _
      refine guessY (row := fun i j => if i = 0 ∧ j = 1 then 15 else 0) (if X * 2 + Y = 0 then 15 else 0) (by
        funext j; interval_cases X <;> interval_cases Y <;> simp) ?_
      rcases casesG hk with rfl | h | h | h
      · left; rw [kmod00]; exact ⟨by norm_num, by simp [specY]⟩
      · left; rw [kmodX h]; exact ⟨by linarith, by rcases h with rfl | rfl <;> simp [specY]⟩
      · right; left; rw [kmodY h]; refine ⟨rfl, ?_⟩
        interval_cases X <;> interval_cases Y <;> simp [specY, h]
      · right; right; exact ⟨h.1, by simp [specY, h.2]⟩)
  have hr := regularY (W := W) (by have := hW 0; rwa [hb] at this)
  obtain ⟨bias, out, -, h2, -, h3⟩ := h hr
  refine ⟨f, hf, W, bias, out, hW, h2, ?_, ?_⟩
  · simpa using (h3 0 (by norm_num) 0 (by norm_num) 0 (by simp [binsY])).2
  · simpa using (h3 1 (by norm_num) 1 (by norm_num) 0 (by simp [binsY])).2

end NaMaster
