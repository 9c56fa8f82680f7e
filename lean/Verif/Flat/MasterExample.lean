import Verif.Flat.MasterProps
import Mathlib.MeasureTheory.Integral.Bochner.SumMeasure

/-!
# C58: a sky and a mask for which the flat-sky MASTER relation fails

Also shows that the hypotheses of the theorems of `MasterProps` can be met.
-/

namespace NaMaster

open Real Finset MeasureTheory
open scoped Classical ENNReal

namespace FlatExample

/-- A map of 4×4 pixels, with wave numbers 0, 1, 2, -1 along x and 0, 3/2, 3, -3/2 along y. -/
noncomputable def fs0 : FlatInfo := ⟨4, 4, 2 * π, 4 * π / 3⟩

/-- A mask of two pixels, not symmetric under reflections. -/
noncomputable def mask0 : ℕ × ℕ → ℝ := fun p => if p = (0, 0) ∨ p = (1, 1) then 1 else 0

/-- A spin-0 field. -/
noncomputable def fT : FlatField := ⟨fs0, 0, mask0, fun _ => 1, 0, 0⟩

/-- A spin-1 field. -/
noncomputable def fP : FlatField := ⟨fs0, 1, mask0, fun _ => 1, 0, 0⟩

/-- Two bands: from 0.5 to 1.4 and from 1.4 to 1.7. -/
noncomputable def b0 : FlatBins ℝ := ⟨2, fun i => [1 / 2, 7 / 5].getD i 0, fun i => [7 / 5, 17 / 10].getD i 0⟩

theorem b0_create : flatBinsCreate [1 / 2, 7 / 5] [7 / 5, 17 / 10] = .ok b0 := rfl

theorem b0_gapless : GaplessBands b0 := by
  refine ⟨⟨?_, ?_⟩, ?_⟩
  · intro i hi
    simp only [b0] at hi ⊢
    interval_cases i <;> simp <;> norm_num
  · intro i hi
    simp only [b0] at hi ⊢
    have : i = 0 := by omega
    subst this
    simp
  · intro i hi
    simp only [b0] at hi ⊢
    have : i = 0 := by omega
    subst this
    simp

theorem kx0 (i : ℕ) : fs0.kx i = if 2 * i ≤ 4 then (i : ℝ) else -(4 - i) := by
  simp only [FlatInfo.kx, fs0, waveNum]
  rw [div_self (by positivity)]
  simp

theorem ky0 (i : ℕ) : fs0.ky i = if 2 * i ≤ 4 then (i : ℝ) * (3 / 2) else -(4 - i) * (3 / 2) := by
  have h : 2 * π / (4 * π / 3) = 3 / 2 := by
    field_simp
    norm_num
  simp only [FlatInfo.ky, fs0, waveNum, h]
  simp

theorem inBand_sqrt (i : ℕ) (x : ℝ) : InBand b0 i (√x) ↔ (i = 0 ∧ 1 / 4 ≤ x ∧ x < 49 / 25) ∨
    (i = 1 ∧ 49 / 25 ≤ x ∧ x < 289 / 100) := by
  have e1 : (1 / 2 : ℝ) ≤ √x ↔ 1 / 4 ≤ x := by
    rw [Real.le_sqrt' (by norm_num)]; norm_num
  have e2 : √x < 7 / 5 ↔ x < 49 / 25 := by
    rw [Real.sqrt_lt' (by norm_num)]; norm_num
  have e3 : (7 / 5 : ℝ) ≤ √x ↔ 49 / 25 ≤ x := by
    rw [Real.le_sqrt' (by norm_num)]; norm_num
  have e4 : √x < 17 / 10 ↔ x < 289 / 100 := by
    rw [Real.sqrt_lt' (by norm_num)]; norm_num
  unfold InBand
  rcases i with _ | _ | i
  · rw [← e1, ← e2]
    simp [b0]
  · rw [← e3, ← e4]
    simp [b0]
  · simp [b0]

theorem mem_band0 (k : ℕ × ℕ) (hk : k ∈ fs0.modes) (i : ℕ) : InBand b0 i (fs0.kmod k.1 k.2) ↔
    (i = 0 ∧ (k = (1, 0) ∨ k = (3, 0))) ∨ (i = 1 ∧ (k = (0, 1) ∨ k = (0, 3))) := by
  rw [mem_modes] at hk
  obtain ⟨k1, k2⟩ := k
  have h1 : k1 < 4 := hk.1
  have h2 : k2 < 4 := hk.2
  unfold FlatInfo.kmod
  rw [inBand_sqrt, kx0, ky0]
  interval_cases k1 <;> interval_cases k2 <;> norm_num

theorem noNyquist0 : NoNyquist fs0 b0 := by
  intro k hk h ib hib
  rw [mem_band0 k hk] at hib
  have h : 2 * k.2 = 4 := h
  rcases hib with ⟨-, rfl | rfl⟩ | ⟨-, rfl | rfl⟩ <;> simp at h

theorem symmetric0 : SymmetricCuts fs0 defaultCuts := by
  intro iy _
  simp only [defaultCuts]
  constructor <;> intro h <;> linarith [h.1, h.2]

theorem modes0 (k : ℕ × ℕ) : k ∈ fs0.modes ↔ k.1 < 4 ∧ k.2 < 4 := mem_modes

theorem bandModesAll0 : bandModesAll fs0 b0 1 = {(0, 1), (0, 3)} := by
  ext k
  unfold bandModesAll
  rw [Finset.mem_filter]
  constructor
  · rintro ⟨h1, h2⟩
    rw [mem_band0 k h1] at h2
    simpa using h2
  · intro h
    have hk : k ∈ fs0.modes := by
      rw [modes0]
      simp only [Finset.mem_insert, Finset.mem_singleton] at h
      rcases h with rfl | rfl <;> simp
    refine ⟨hk, (mem_band0 k hk 1).2 (Or.inr ⟨rfl, by simpa using h⟩)⟩

theorem bandModes0 : bandModes fs0 b0 defaultCuts 0 = {(1, 0), (3, 0)} := by
  ext k
  unfold bandModes
  rw [Finset.mem_filter]
  constructor
  · rintro ⟨h1, -, h2⟩
    rw [mem_band0 k h1] at h2
    simpa using h2
  · intro h
    have hk : k ∈ fs0.modes := by
      rw [modes0]
      simp only [Finset.mem_insert, Finset.mem_singleton] at h
      rcases h with rfl | rfl <;> simp
    refine ⟨hk, C41_default _ _ _, (mem_band0 k hk 0).2 (Or.inl ⟨rfl, by simpa using h⟩)⟩

theorem dft0 (q : ℕ × ℕ) : fs0.dft mask0 q = 1 + Complex.exp (-(2 * π * (q.1 / 4 + q.2 / 4) : ℝ) * Complex.I) := by
  unfold FlatInfo.dft mask0
  have hsub : ({(0, 0), (1, 1)} : Finset (ℕ × ℕ)) ⊆ fs0.modes := by
    intro p hp
    rw [modes0]
    simp only [Finset.mem_insert, Finset.mem_singleton] at hp
    rcases hp with rfl | rfl <;> simp
  rw [← Finset.sum_subset hsub]
  · rw [Finset.sum_pair (by simp)]
    simp [FlatInfo.phase, fs0]
  · intro p _ hp
    simp only [Finset.mem_insert, Finset.mem_singleton] at hp
    simp [hp]

theorem maskPower0 (q : ℕ × ℕ) :
    maskPower fs0 mask0 mask0 q = (2 + 2 * cos (2 * π * (q.1 / 4 + q.2 / 4))) * (fs0.almNorm * fs0.almNorm) := by
  unfold maskPower FlatInfo.map2alm
  rw [dft0]
  set x : ℝ := 2 * π * (q.1 / 4 + q.2 / 4) with hx
  have h : Complex.exp (-(x : ℂ) * Complex.I) = ⟨cos x, -sin x⟩ := by
    apply Complex.ext
    · rw [show (-(x : ℂ) * Complex.I) = ((-x : ℝ) : ℂ) * Complex.I by push_cast; ring, Complex.exp_ofReal_mul_I_re]; simp
    · rw [show (-(x : ℂ) * Complex.I) = ((-x : ℝ) : ℂ) * Complex.I by push_cast; ring, Complex.exp_ofReal_mul_I_im]; simp
  rw [h]
  simp [Complex.mul_re, Complex.mul_im]
  linear_combination (fs0.almNorm * fs0.almNorm) * (sin_sq_add_cos_sq x)

theorem norm0 : fs0.almNorm = π / 12 := by
  unfold FlatInfo.almNorm fs0
  field_simp
  norm_num

theorem power0 : maskPower fs0 mask0 mask0 (1, 3) = 4 * (π / 12 * (π / 12)) ∧
    maskPower fs0 mask0 mask0 (1, 1) = 0 ∧ maskPower fs0 mask0 mask0 (3, 3) = 0 ∧
    maskPower fs0 mask0 mask0 (3, 1) = 4 * (π / 12 * (π / 12)) := by
  simp only [maskPower0, norm0]
  have c1 : cos (2 * π * (((1 : ℕ) : ℝ) / 4 + ((3 : ℕ) : ℝ) / 4)) = 1 := by
    rw [show 2 * π * (((1 : ℕ) : ℝ) / 4 + ((3 : ℕ) : ℝ) / 4) = 2 * π by push_cast; ring, cos_two_pi]
  have c2 : cos (2 * π * (((1 : ℕ) : ℝ) / 4 + ((1 : ℕ) : ℝ) / 4)) = -1 := by
    rw [show 2 * π * (((1 : ℕ) : ℝ) / 4 + ((1 : ℕ) : ℝ) / 4) = π by push_cast; ring, cos_pi]
  have c3 : cos (2 * π * (((3 : ℕ) : ℝ) / 4 + ((3 : ℕ) : ℝ) / 4)) = -1 := by
    rw [show 2 * π * (((3 : ℕ) : ℝ) / 4 + ((3 : ℕ) : ℝ) / 4) = π + 2 * π by push_cast; ring, cos_add_two_pi, cos_pi]
  have c4 : cos (2 * π * (((3 : ℕ) : ℝ) / 4 + ((1 : ℕ) : ℝ) / 4)) = 1 := by
    rw [show 2 * π * (((3 : ℕ) : ℝ) / 4 + ((1 : ℕ) : ℝ) / 4) = 2 * π by push_cast; ring, cos_two_pi]
  rw [c1, c2, c3, c4]
  refine ⟨by ring, by ring, by ring, by ring⟩

theorem q4 : √(4 : ℝ) = 2 := by
  rw [show (4 : ℝ) = 2 * 2 by norm_num, Real.sqrt_mul_self (by norm_num)]

theorem q9 : √(9 : ℝ) = 3 := by
  rw [show (9 : ℝ) = 3 * 3 by norm_num, Real.sqrt_mul_self (by norm_num)]

theorem angles0 : fs0.angles 1 (1, 0) = (1, 0) ∧ fs0.angles 1 (3, 0) = (-1, 0) ∧ fs0.angles 1 (0, 1) = (0, 1) ∧
    fs0.angles 1 (0, 3) = (0, -1) := by
  have s : √((3 : ℝ) / 2 * (3 / 2)) = 3 / 2 := Real.sqrt_mul_self (by norm_num)
  have a1 : fs0.kmod 1 0 = 1 := by simp [FlatInfo.kmod, kx0, ky0]
  have a2 : fs0.kmod 3 0 = 1 := by
    simp only [FlatInfo.kmod, kx0, ky0]; norm_num
  have a3 : fs0.kmod 0 1 = 3 / 2 := by
    simp [FlatInfo.kmod, kx0, ky0, s]
  have a4 : fs0.kmod 0 3 = 3 / 2 := by
    simp only [FlatInfo.kmod, kx0, ky0]
    norm_num
    rw [q4, q9]
  refine ⟨?_, ?_, ?_, ?_⟩ <;> unfold FlatInfo.angles
  · simp [a1, kx0, ky0, csRec]
  · simp only [a2, kx0, ky0, csRec]; norm_num
  · simp only [a3, kx0, ky0, csRec]; norm_num
  · simp only [a4, kx0, ky0, csRec]; norm_num

theorem rot0 (k1 k2 : ℕ × ℕ) : rotEB 1 (modeAngle fs0 k1 - modeAngle fs0 k2) 1 0 = fs0.sdiff 1 k1 k2 := by
  rw [sdiff_eq]
  simp [rotEB]

theorem trueCoupling0 : trueCoupling fT fP b0 defaultCuts 0 1 0 0 0 1 < 0 := by
  unfold trueCoupling
  simp only [fT, fP, bandModes0, bandModesAll0, rot0]
  rw [Finset.sum_pair (by simp), Finset.sum_pair (by simp), Finset.sum_pair (by simp)]
  have hp := power0
  have h1 : fs0.sub (1, 0) (0, 1) = (1, 3) := rfl
  have h2 : fs0.sub (1, 0) (0, 3) = (1, 1) := rfl
  have h3 : fs0.sub (3, 0) (0, 1) = (3, 3) := rfl
  have h4 : fs0.sub (3, 0) (0, 3) = (3, 1) := rfl
  have ha := angles0
  simp only [h1, h2, h3, h4, hp.1, hp.2.1, hp.2.2.1, hp.2.2.2, FlatInfo.sdiff, ha.1, ha.2.1, ha.2.2.1, ha.2.2.2]
  rw [show rotEB 0 (modeAngle fs0 (1, 0) - modeAngle fs0 (0, 1)) 0 0 = 1 by simp [rotEB],
    show rotEB 0 (modeAngle fs0 (3, 0) - modeAngle fs0 (0, 3)) 0 0 = 1 by simp [rotEB]]
  rw [Finset.card_pair (by simp)]
  have : 0 < 4 * π * π / (fs0.lx * fs0.lx * fs0.ly * fs0.ly) / ((2 : ℕ) : ℝ) := by
    unfold fs0
    positivity
  have h5 : 0 < π / 12 * (π / 12) := by positivity
  have := mul_pos this h5
  nlinarith

theorem coupling0 : ∃ W, couplingFlat fT fP b0 defaultCuts false = .ok W ∧ W.coupling fP 0 1 0 0 0 1 = 0 := by
  obtain ⟨W, hW, hn, hbin⟩ := couplingFlat_eq fT fP b0 b0_gapless (by simp [b0]) defaultCuts false rfl (by simp)
  have hn : W.ncls = nmapsOf fT.spin * nmapsOf fP.spin := by simpa using hn
  refine ⟨W, hW, ?_⟩
  unfold WspFlat.coupling
  rw [hbin _ (by rw [hn]; decide) _ (by rw [hn]; decide) 0 (by simp [b0]) 1 (by simp [b0]), hn]
  simp only [coupTerm_rot fT fP ⟨rfl, rfl, rfl, rfl⟩ _ 0 1 0 0 (by decide) (by decide) (by decide) (by decide)]
  simp only [fT, fP, bandModes0, bandModesAll0, rot0]
  rw [Finset.sum_pair (by simp), Finset.sum_pair (by simp), Finset.sum_pair (by simp)]
  have hl : 0 < fs0.lx := by unfold fs0; positivity
  have hp := power0
  have h1 : fs0.sub (1, 0) (0, 1) = (1, 3) := rfl
  have h2 : fs0.sub (1, 0) (0, 3) = (1, 1) := rfl
  have h3 : fs0.sub (3, 0) (0, 1) = (3, 3) := rfl
  have h4 : fs0.sub (3, 0) (0, 3) = (3, 1) := rfl
  have f3 : fs0.flip (3, 3) = (3, 1) := rfl
  have f4 : fs0.flip (3, 1) = (3, 3) := rfl
  have ha := angles0
  have e := fun q hq => halfProd_mask hl mask0 mask0 (k := q) hq
  rw [h1, h2, h3, h4, e (1, 3) (by rw [modes0]; simp), e (1, 1) (by rw [modes0]; simp), e (3, 3) (by rw [modes0]; simp),
    e (3, 1) (by rw [modes0]; simp), f3, f4]
  have n1 : 2 * ((1 : ℕ), (3 : ℕ)).1 ≤ fs0.nx := by decide
  have n2 : 2 * ((1 : ℕ), (1 : ℕ)).1 ≤ fs0.nx := by decide
  have n3 : ¬ 2 * ((3 : ℕ), (3 : ℕ)).1 ≤ fs0.nx := by decide
  have n4 : ¬ 2 * ((3 : ℕ), (1 : ℕ)).1 ≤ fs0.nx := by decide
  rw [if_pos n1, if_pos n2, if_neg n3, if_neg n4]
  have r0 : ∀ α, rotEB 0 α 0 0 = 1 := fun α => by simp [rotEB]
  simp only [hp.1, hp.2.1, hp.2.2.1, hp.2.2.2, FlatInfo.sdiff, ha.1, ha.2.1, ha.2.2.1, ha.2.2.2, r0]
  ring

/-! ## A random sky -/

/-- Four equally probable skies. -/
noncomputable def μ0 : Measure (Fin 4) := (4⁻¹ : ℝ≥0∞) • Measure.count

/-- The modes of the sky: one plane wave along y with one of four phases. -/
noncomputable def F0 (ω : Fin 4) (X : ℕ) (k : ℕ × ℕ) : ℂ :=
  if X = 0 then (if k = (0, 1) then Complex.I ^ (ω : ℕ) else if k = (0, 3) then (-Complex.I) ^ (ω : ℕ) else 0) else 0

/-- The map of spin 0. -/
noncomputable def mT (ω : Fin 4) (_ : ℕ) (p : ℕ × ℕ) : ℝ := 2 * (Complex.I ^ ((ω : ℕ) + p.2)).re

/-- The maps of spin 1. -/
noncomputable def mP (ω : Fin 4) (i : ℕ) (p : ℕ × ℕ) : ℝ := if i = 0 then 0 else 2 * (Complex.I ^ ((ω : ℕ) + p.2)).im

/-- The spectrum. -/
noncomputable def C0 (X Y : ℕ) (k : ℕ × ℕ) : ℝ :=
  if X = 0 ∧ Y = 0 ∧ (k = (0, 1) ∨ k = (0, 3)) then fs0.lx * fs0.ly else 0

/-- The bandpowers. -/
noncomputable def Cb0 (X Y ib : ℕ) : ℝ := if X = 0 ∧ Y = 0 ∧ ib = 1 then fs0.lx * fs0.ly else 0

theorem exp1 (p : ℕ × ℕ) : Complex.exp (fs0.phase (0, 1) p * Complex.I) = Complex.I ^ p.2 := by
  have h : Complex.I ^ p.2 = Complex.exp (p.2 * (π / 2 * Complex.I)) := by
    rw [Complex.exp_nat_mul, Complex.exp_pi_div_two_mul_I]
  rw [h]
  congr 1
  simp only [FlatInfo.phase, fs0]
  push_cast
  ring

theorem exp3 (p : ℕ × ℕ) : Complex.exp (fs0.phase (0, 3) p * Complex.I) = (-Complex.I) ^ p.2 := by
  have h : Complex.exp (3 * (π / 2 * Complex.I)) = -Complex.I := by
    rw [show (3 : ℂ) * (π / 2 * Complex.I) = ((3 : ℕ) : ℂ) * (π / 2 * Complex.I) by norm_num, Complex.exp_nat_mul,
      Complex.exp_pi_div_two_mul_I]
    rw [pow_succ, Complex.I_sq]; ring
  rw [← h, ← Complex.exp_nat_mul]
  congr 1
  simp only [FlatInfo.phase, fs0]
  push_cast
  ring

theorem sum_modes0 (g : ℕ × ℕ → ℂ) (hg : ∀ k, k ≠ (0, 1) → k ≠ (0, 3) → g k = 0) :
    ∑ k ∈ fs0.modes, g k = g (0, 1) + g (0, 3) := by
  have hsub : ({(0, 1), (0, 3)} : Finset (ℕ × ℕ)) ⊆ fs0.modes := by
    intro p hp
    rw [modes0]
    simp only [Finset.mem_insert, Finset.mem_singleton] at hp
    rcases hp with rfl | rfl <;> simp
  rw [← Finset.sum_subset hsub, Finset.sum_pair (by simp)]
  intro p _ hp
  simp only [Finset.mem_insert, Finset.mem_singleton, not_or] at hp
  exact hg p hp.1 hp.2

theorem conj_pow (n : ℕ) : (-Complex.I) ^ n = star (Complex.I ^ n) := by
  rw [star_pow]
  congr 1
  exact (Complex.conj_I).symm

theorem skyT (ω : Fin 4) : SkyHas fs0 0 (mT ω) (F0 ω) := by
  unfold SkyHas
  rw [if_pos rfl]
  intro p _
  rw [sum_modes0 _ (by intro k h1 h2; simp [F0, h1, h2]), exp1, exp3]
  simp only [F0, if_true]
  rw [if_neg (by simp), ← pow_add, ← pow_add, conj_pow]
  unfold mT
  have := Complex.add_conj (Complex.I ^ ((ω : ℕ) + p.2))
  rw [← this]
  rfl

theorem skyP (ω : Fin 4) : SkyHas fs0 1 (mP ω) (F0 ω) := by
  have d1 : modeDir (fs0.kx 0) (fs0.ky 1) = (0, 1) := by
    simp only [modeDir, kx0, ky0]
    norm_num
    rw [q4, q9]
    norm_num
  have d3 : modeDir (fs0.kx 0) (fs0.ky 3) = (0, -1) := by
    simp only [modeDir, kx0, ky0]
    norm_num
    rw [q4, q9]
    norm_num
  unfold SkyHas
  rw [if_neg (by norm_num)]
  constructor
  · intro p _
    rw [sum_modes0 _ (by intro k h1 h2; simp [F0, h1, h2, eb2qu])]
    simp [eb2qu, d1, d3, csRec, F0, mP]
  · intro p _
    rw [sum_modes0 _ (by intro k h1 h2; simp [F0, h1, h2, eb2qu]), exp1, exp3]
    simp only [eb2qu, d1, d3, csRec, F0, mP, sigOverall]
    norm_num
    have hI : ∀ z : ℂ, Complex.I * z * -1 + Complex.I * star z = 2 * z.im := by
      intro z
      apply Complex.ext <;> simp <;> ring
    have := hI (Complex.I ^ ((ω : ℕ) + p.2))
    rw [← conj_pow, pow_add, pow_add] at this
    rw [pow_add]
    linear_combination -this

theorem integral0 (g : Fin 4 → ℂ) : ∫ ω, g ω ∂μ0 = (g 0 + g 1 + g 2 + g 3) / 4 := by
  unfold μ0
  rw [integral_smul_measure, integral_fintype (Integrable.of_finite)]
  simp [Fin.sum_univ_four]
  ring

theorem homogeneous0 : Homogeneous μ0 fs0 (nmapsOf 0) (nmapsOf 1) F0 F0 C0 := by
  have : IsFiniteMeasure μ0 := by
    unfold μ0
    exact Measure.smul_finite _ (by simp)
  refine ⟨fun X _ Y _ k _ k' _ => Integrable.of_finite, ?_⟩
  intro X hX Y hY k _ k' _
  have hX : X = 0 := by simp [nmapsOf] at hX; exact hX
  subst hX
  rw [integral0]
  have hlx : fs0.lx ≠ 0 := by unfold fs0; positivity
  have hly : fs0.ly ≠ 0 := by unfold fs0; positivity
  by_cases hY0 : Y = 0
  · subst hY0
    have hc : ((C0 0 0 (0, 1) / (fs0.lx * fs0.ly) : ℝ) : ℂ) = 1 := by
      simp [C0, hlx, hly]
    have hc' : ((C0 0 0 (0, 3) / (fs0.lx * fs0.ly) : ℝ) : ℂ) = 1 := by
      simp [C0, hlx, hly]
    by_cases h1 : k = (0, 1)
    · subst h1
      by_cases h1' : k' = (0, 1)
      · subst h1'
        rw [if_pos rfl, hc]
        simp [F0, pow_succ]
        norm_num
      · rw [if_neg (Ne.symm h1')]
        by_cases h3' : k' = (0, 3)
        · subst h3'
          simp [F0, pow_succ]
        · simp [F0, h1', h3']
    · by_cases h3 : k = (0, 3)
      · subst h3
        by_cases h3' : k' = (0, 3)
        · subst h3'
          rw [if_pos rfl, hc']
          simp [F0, pow_succ]
          norm_num
        · rw [if_neg (Ne.symm h3')]
          by_cases h1' : k' = (0, 1)
          · subst h1'
            simp [F0, pow_succ]
          · simp [F0, h1', h3']
      · by_cases h : k = k'
        · simp [F0, C0, h1, h3]
        · simp [F0, C0, h1, h3]
  · simp [F0, C0, hY0]

theorem bandSpectra0 : BandSpectra fT fP b0 Cb0 C0 := by
  intro X Y k hk
  constructor
  · intro ib hib
    rw [show fT.fs = fs0 from rfl, mem_band0 k hk] at hib
    simp only [fT, fP, C0, Cb0, one_mul]
    rcases hib with ⟨rfl, rfl | rfl⟩ | ⟨rfl, rfl | rfl⟩ <;> simp
  · intro hn
    have h1 : k ≠ (0, 1) := fun h => hn 1 ((mem_band0 k hk 1).2 (Or.inr ⟨rfl, Or.inl h⟩))
    have h3 : k ≠ (0, 3) := fun h => hn 1 ((mem_band0 k hk 1).2 (Or.inr ⟨rfl, Or.inr h⟩))
    simp [C0, h1, h3]

theorem probability0 : IsProbabilityMeasure μ0 := by
  constructor
  unfold μ0
  simp [Measure.count_apply]
  exact ENNReal.inv_mul_cancel (by norm_num) (by norm_num)

end FlatExample

open FlatExample in
/-- C58 is false: for a mask of two pixels and a sky that is a plane wave with random phase, with equal temperature and E
modes, all hypotheses of `C58_expectation` hold, and the mean of the TB pseudo-spectrum computed is negative, while the
coupling matrix of the library times the bandpowers gives zero. -/
theorem C58_chiral_wrong : IsProbabilityMeasure μ0 ∧ flatBinsCreate [1 / 2, 7 / 5] [7 / 5, 17 / 10] = .ok b0 ∧
    NotPurified fT fP ∧ fT.spin = 0 ∧ fP.spin = 1 ∧ (∀ ω, SkyHas fs0 0 (mT ω) (F0 ω)) ∧ (∀ ω, SkyHas fs0 1 (mP ω) (F0 ω)) ∧
    Homogeneous μ0 fs0 1 2 F0 F0 C0 ∧ BandSpectra fT fP b0 Cb0 C0 ∧
    ∃ W, couplingFlat fT fP b0 defaultCuts false = .ok W ∧ ∃ pcl : Fin 4 → ℕ → ℝ,
      (∀ ω, fsAlm2cl fs0 b0 defaultCuts (maskedAlm fs0 0 mask0 (mT ω) 0) (maskedAlm fs0 1 mask0 (mP ω) 1) = .ok (pcl ω)) ∧
      ∫ ω, pcl ω 0 ∂μ0 < 0 ∧
      ∑ ib' ∈ range 2, ∑ X' ∈ range 1, ∑ Y' ∈ range 2, W.coupling fP 0 1 0 X' Y' ib' * Cb0 X' Y' ib' = 0 := by
  refine ⟨probability0, b0_create, ⟨rfl, rfl, rfl, rfl⟩, rfl, rfl, skyT, skyP, homogeneous0, bandSpectra0, ?_⟩
  obtain ⟨W, hW, hz⟩ := coupling0
  obtain ⟨pcl, hp, hE⟩ := C58_expectation μ0 fT fP b0 b0_gapless (by simp [b0]) defaultCuts
    (by simp only [fT, fs0]; positivity) symmetric0 (Or.inr noNyquist0) mT mP F0 F0 skyT skyP C0 homogeneous0 Cb0
    bandSpectra0 0 1 (by simp [nmapsOf, fT]) (by simp [nmapsOf, fP])
  have hsum : ∀ f : ℕ → ℕ → ℕ → ℝ, ∑ ib' ∈ range 2, ∑ X' ∈ range 1, ∑ Y' ∈ range 2, f X' Y' ib' * Cb0 X' Y' ib' =
      f 0 0 1 * (fs0.lx * fs0.ly) := by
    intro f
    simp [Finset.sum_range_succ, Cb0]
  refine ⟨W, hW, pcl, hp, ?_, ?_⟩
  · rw [(hE 0 (by simp [b0])).2]
    have h1 : nmapsOf fT.spin = 1 := rfl
    have h2 : nmapsOf fP.spin = 2 := rfl
    have h3 : b0.nBands = 2 := rfl
    rw [h1, h2, h3, hsum (fun X' Y' ib' => trueCoupling fT fP b0 defaultCuts 0 1 0 X' Y' ib')]
    have : 0 < fs0.lx * fs0.ly := by unfold fs0; positivity
    exact mul_neg_of_neg_of_pos trueCoupling0 this
  · rw [hsum (fun X' Y' ib' => W.coupling fP 0 1 0 X' Y' ib'), hz, zero_mul]

open FlatExample in
/-- The hypotheses of the theorems above are met by the example: here for the TE spectrum, in which the relation holds
for the same sky and mask. -/
example : ∃ W, couplingFlat fT fP b0 defaultCuts false = .ok W ∧ ∃ pcl : Fin 4 → ℕ → ℝ,
      (∀ ω, fsAlm2cl fs0 b0 defaultCuts (maskedAlm fs0 0 mask0 (mT ω) 0) (maskedAlm fs0 1 mask0 (mP ω) 0) = .ok (pcl ω)) ∧
      ∀ ib < 2, Integrable (fun ω => pcl ω ib) μ0 ∧ ∫ ω, pcl ω ib ∂μ0 =
        ∑ ib' ∈ range 2, ∑ X' ∈ range 1, ∑ Y' ∈ range 2, W.coupling fP 0 0 ib X' Y' ib' * Cb0 X' Y' ib' :=
  C58_master_partial μ0 fT fP rfl ⟨rfl, rfl, rfl, rfl⟩ b0 b0_gapless (by simp [b0]) defaultCuts
    (by simp only [fT, fs0]; positivity) symmetric0 (Or.inr noNyquist0) mT mP F0 F0 skyT skyP C0 homogeneous0 Cb0
    bandSpectra0 0 0 (by simp [nmapsOf, fT]) (by simp [nmapsOf, fP]) (Or.inl (by
      intro X' Y' ib' h
      unfold Cb0
      rw [if_neg]
      rintro ⟨rfl, rfl, -⟩
      simp at h))

end NaMaster
