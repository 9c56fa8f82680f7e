import Verif.Flat.BiasProps
import Verif.Flat.FieldExample
import Mathlib.MeasureTheory.Integral.Bochner.SumMeasure

/-! # A case of C71 -/

namespace NaMaster

open Real Finset MeasureTheory
open scoped Classical ENNReal

namespace FlatBiasExample

/-- Two pixels in a row. -/
noncomputable def fs2 : FlatInfo := ⟨2, 1, 1, 1⟩

/-- Exact transforms, and the eigenvalues and vectors of matrices of one element. -/
noncomputable def env2 : FlatEnv := ⟨fun fs => (FlatFieldExample.stdC2r fs).run, ⟨fun _ M _ => M 0 0, fun _ _ _ _ => 1⟩⟩

/-- A scalar field with one template, which is one in the first pixel. -/
noncomputable def args2 : FlatFieldArgs where
  fs := fs2
  mask := fun _ => 1
  maps := none
  spin := none
  templates := some ⟨1, 1, 2, 1, fun _ _ p => if p = (0, 0) then 1 else 0⟩
  beam := none
  purifyE := false
  purifyB := false
  tol := 1e-3
  maskedOnInput := false
  lite := false

/-- A constant map with random sign. -/
def sky2 (ω : Bool) : FlatMaps := fun _ _ => if ω then 1 else -1

/-- The modes of the sky. -/
noncomputable def modes2 (ω : Bool) : ℕ → ℕ × ℕ → ℂ := fun _ k => if k = (0, 0) then (if ω then 1 else -1) else 0

/-- The spectrum of the sky. -/
noncomputable def spec2 : ℕ → ℕ → ℕ × ℕ → ℝ := fun _ _ k => if k = (0, 0) then 1 else 0

/-- Both signs are equally likely. -/
noncomputable def μ2 : Measure Bool := (2⁻¹ : ℝ≥0∞) • Measure.count

/-- The best guess: one at multipole zero and zero from multipole one. -/
noncomputable def guess2 : Arr2 ℝ := ⟨1, 2, fun _ i => if i = 0 then 1 else 0⟩

/-- One band. -/
noncomputable def bins2 : FlatBins ℝ := ⟨1, fun _ => 0, fun _ => 1⟩

theorem prob2 : IsProbabilityMeasure μ2 := by
  constructor
  unfold μ2
  simp only [Measure.smul_apply, smul_eq_mul]
  rw [Measure.count_apply_finite _ (Set.toFinite _)]
  simp
  exact ENNReal.inv_mul_cancel (by simp) (by simp)

theorem mem2 {k : ℕ × ℕ} : k ∈ fs2.modes ↔ k = (0, 0) ∨ k = (1, 0) := by
  rw [mem_modes]
  obtain ⟨x, y⟩ := k
  simp only [fs2, Prod.mk.injEq]
  omega

theorem integral2 (g : Bool → ℂ) : ∫ ω, g ω ∂μ2 = (g true + g false) / 2 := by
  unfold μ2
  rw [integral_smul_measure, integral_fintype (Integrable.of_finite)]
  simp
  ring

theorem skyhas2 (ω : Bool) : SkyHas fs2 0 (sky2 ω) (modes2 ω) := by
  unfold SkyHas
  rw [if_pos rfl]
  intro p _
  rw [sum_eq_single (0, 0)]
  · simp only [modes2, sky2, FlatInfo.phase, fs2]
    cases ω <;> simp
  · intro k _ hk
    simp [modes2, hk]
  · intro h
    exact absurd (mem2.2 (Or.inl rfl)) h

theorem homogeneous2 : Homogeneous μ2 fs2 1 1 modes2 modes2 spec2 := by
  have : IsProbabilityMeasure μ2 := prob2
  refine ⟨fun X _ Y _ k _ k' _ => Integrable.of_finite, fun X _ Y _ k hk k' hk' => ?_⟩
  rw [integral2]
  rcases mem2.1 hk with rfl | rfl <;> rcases mem2.1 hk' with rfl | rfl <;> simp [modes2, spec2, fs2]

theorem guessAt2 : ∀ X < 1, ∀ Y < 1, ∀ k ∈ fs2.modes, GuessAt [0, 1] (guess2.val (X * 1 + Y)) (fs2.kmod k.1 k.2) (spec2 X Y k) := by
  intro X hX Y hY k hk
  have h2 : (1 : ℝ) < 2 * π := by linarith [Real.pi_gt_three]
  rcases mem2.1 hk with rfl | rfl
  · have : fs2.kmod 0 0 = 0 := by simp [FlatInfo.kmod, FlatInfo.kx, FlatInfo.ky, waveNum]
    rw [this]
    refine ⟨fun _ => by simp [spec2, guess2], fun h => by simp at h; linarith, fun i hi h1 h2 => ?_⟩
    simp only [List.length_cons, List.length_nil] at hi
    obtain rfl : i = 0 := by omega
    simp [spec2, guess2]
  · have : fs2.kmod 1 0 = 2 * π := by
      simp only [FlatInfo.kmod, FlatInfo.kx, FlatInfo.ky, waveNum, fs2]
      norm_num
      rw [Real.sqrt_mul_self (by positivity)]
    rw [this]
    refine ⟨fun h => by simp at h; linarith, fun _ => by simp [spec2], fun i hi h1 h3 => ?_⟩
    simp only [List.length_cons, List.length_nil] at hi
    obtain rfl : i = 0 := by omega
    simp at h3
    linarith

theorem field2 (v : FlatMaps) : ∃ f, nmtFieldFlat env2 (args2.withMaps 1 v) = .ok f ∧ f.matrixM ≠ some none := by
  unfold nmtFieldFlat
  have h2 : flatSpin (args2.withMaps 1 v) = .ok 0 := by simp [flatSpin, args2, FlatFieldArgs.withMaps]
  have h3 : flatShapes (args2.withMaps 1 v) = .ok () := by simp [flatShapes, args2, FlatFieldArgs.withMaps, fs2]
  rw [if_neg (by simp only [args2, FlatFieldArgs.withMaps, fs2]; norm_num), h2]
  simp only [Outcome.bind]
  rw [if_neg (by simp [args2, FlatFieldArgs.withMaps]), h3]
  simp only [Outcome.bind]
  rw [if_neg (by simp only [args2, fs2, FlatFieldArgs.withMaps]; norm_num)]
  simp only [flatBeam, args2, Outcome.bind, FlatFieldArgs.withMaps]
  refine ⟨_, rfl, ?_⟩
  have hg : flatGram fs2 1 1 (fun _ _ p => if p = (0, 0) then 1 else 0) 0 0 = 1 / 2 := by
    have hz : ((0, 0) : ℕ × ℕ) ∈ fs2.modes := mem2.2 (Or.inl rfl)
    have hp : fs2.pixsize = 1 / 2 := by simp [FlatInfo.pixsize, fs2]
    simp [flatGram, FlatInfo.dot, hz, hp, tab2_of_lt]
  unfold flatAlloc
  simp [pinvC, spectralInverse, env2, maxUpTo, nmapsOf]
  rw [hg]
  norm_num

theorem bare2 (v : FlatMaps) : ∃ f, nmtFieldFlat env2 (args2.bare.withMaps 1 v) = .ok f := by
  unfold nmtFieldFlat
  have h2 : flatSpin (args2.bare.withMaps 1 v) = .ok 0 := by simp [flatSpin, args2, FlatFieldArgs.withMaps, FlatFieldArgs.bare]
  have h3 : flatShapes (args2.bare.withMaps 1 v) = .ok () := by
    simp [flatShapes, args2, FlatFieldArgs.withMaps, FlatFieldArgs.bare, fs2]
  rw [if_neg (by simp only [args2, FlatFieldArgs.withMaps, FlatFieldArgs.bare, fs2]; norm_num), h2]
  simp only [Outcome.bind]
  rw [if_neg (by simp [args2, FlatFieldArgs.withMaps, FlatFieldArgs.bare]), h3]
  simp only [Outcome.bind]
  rw [if_neg (by simp only [args2, fs2, FlatFieldArgs.withMaps, FlatFieldArgs.bare]; norm_num)]
  simp [flatBeam, args2, Outcome.bind, FlatFieldArgs.withMaps, FlatFieldArgs.bare]

end FlatBiasExample

open FlatBiasExample

/-- The hypotheses of C71 are met: for a sky with one mode of random sign and a template in one of two pixels, the bias of the only band is
the difference of the means. -/
example (c : EllCuts) : ∃ (B : Arr2 ℝ) (f g : Bool → FlatFieldObj) (F G : Bool → Arr2 ℝ),
    (∀ ω, nmtFieldFlat env2 (args2.withMaps 1 (sky2 ω)) = .ok (f ω)) ∧
    (∀ ω, nmtFieldFlat env2 (args2.bare.withMaps 1 (sky2 ω)) = .ok (g ω)) ∧
    (∀ ω, deprojBiasFlatObj env2 (f ω) (f ω) bins2 c [0, 1] guess2 = .ok (some B)) ∧
    (∀ ω, coupledCellFlat (f ω).data (f ω).data bins2 c = .ok (F ω)) ∧
    (∀ ω, coupledCellFlat (g ω).data (g ω).data bins2 c = .ok (G ω)) ∧
    ∫ ω, (F ω).val 0 0 ∂μ2 = ∫ ω, (G ω).val 0 0 ∂μ2 + B.val 0 0 := by
  have := prob2
  choose f hf hq using fun ω => field2 (sky2 ω)
  choose g hg using fun ω => bare2 (sky2 ω)
  have hc : FlatCall args2 := ⟨rfl, rfl⟩
  obtain ⟨B, F, G, h1, h2, h3, -, -, h4⟩ := C71_mean μ2 env2 (fun fs => ⟨FlatFieldExample.stdC2r fs, rfl⟩) args2 args2 hc hc rfl 1 1 sky2 sky2
    modes2 modes2 spec2 skyhas2 skyhas2 homogeneous2 f f g g hf hf hg hg hq hq [0, 1] guess2 (by simp) (by simp) rfl rfl guessAt2 bins2
    (by simp [bins2]) c
  exact ⟨B, f, g, F, G, hf, hg, h1, h2, h3, (h4 0 (by norm_num) 0 (by simp [bins2])).2.2⟩

end NaMaster
