import Verif.Syn.PowerProps
import Mathlib.Probability.Independence.InfinitePi
import Mathlib.Probability.Independence.Integration
import Mathlib.Probability.Distributions.Gaussian.Real

/-! # Property C61: independent Gaussian random numbers, and a case of the theorem -/

namespace NaMaster

open Finset Real MeasureTheory ProbabilityTheory

/-- Independent standard Gaussian numbers. -/
noncomputable def gaussMeasure : Measure (ℤ × ℕ × Bool → ℝ) := Measure.infinitePi fun _ => gaussianReal 0 1

/-- The generator that returns the components of the point of the probability space. -/
def gaussGen (ω : ℤ × ℕ × Bool → ℝ) (s : ℤ) (n : ℕ) : ℝ × ℝ := (ω (s, n, false), ω (s, n, true))

instance : IsProbabilityMeasure gaussMeasure := by unfold gaussMeasure; infer_instance

theorem gauss_memLp (i : ℤ × ℕ × Bool) : MemLp (fun ω : ℤ × ℕ × Bool → ℝ => ω i) 2 gaussMeasure := by
  have h := memLp_id_gaussianReal' (μ := 0) (v := 1) 2 (by simp)
  rw [← Measure.infinitePi_map_eval (fun _ : ℤ × ℕ × Bool => gaussianReal 0 1) i] at h
  exact (memLp_map_measure_iff aestronglyMeasurable_id (measurable_pi_apply i).aemeasurable).mp h

theorem gauss_mean (i : ℤ × ℕ × Bool) : ∫ ω, ω i ∂gaussMeasure = 0 := by
  have h := integral_id_gaussianReal (μ := 0) (v := 1)
  rw [← Measure.infinitePi_map_eval (fun _ : ℤ × ℕ × Bool => gaussianReal 0 1) i, integral_map (measurable_pi_apply i).aemeasurable (by fun_prop)] at h
  exact h

theorem gauss_square (i : ℤ × ℕ × Bool) : ∫ ω, ω i * ω i ∂gaussMeasure = 1 := by
  have h := variance_id_gaussianReal (μ := 0) (v := 1)
  rw [variance_of_integral_eq_zero (by fun_prop) (by simp)] at h
  rw [← Measure.infinitePi_map_eval (fun _ : ℤ × ℕ × Bool => gaussianReal 0 1) i, integral_map (measurable_pi_apply i).aemeasurable (by fun_prop)] at h
  unfold gaussMeasure
  simpa [pow_two] using h

theorem gauss_indep {i j : ℤ × ℕ × Bool} (hij : i ≠ j) : ∫ ω, ω i * ω j ∂gaussMeasure = 0 := by
  have h := iIndepFun_infinitePi (P := fun _ : ℤ × ℕ × Bool => gaussianReal 0 1) (X := fun _ x => x) (fun _ => measurable_id)
  have h2 := h.indepFun hij
  have h3 := h2.integral_fun_mul_eq_mul_integral (measurable_pi_apply i).aestronglyMeasurable
    (measurable_pi_apply j).aestronglyMeasurable
  rw [show (Measure.infinitePi fun _ : ℤ × ℕ × Bool => gaussianReal 0 1) = gaussMeasure from rfl] at h3
  rw [h3, gauss_mean, zero_mul]

/-- Independent standard Gaussian numbers are white. -/
theorem gauss_white (seed : ℤ) (T : ℕ) : WhiteDraws gaussMeasure gaussGen seed T := by
  have e : ∀ (ω : ℤ × ℕ × Bool → ℝ) (x : ℕ × ℕ × Bool), drawOf (gaussGen ω) seed x = ω (seed + x.1, x.2.1, x.2.2) := by
    intro ω x
    unfold drawOf gaussGen
    obtain ⟨r, n, b⟩ := x
    cases b <;> rfl
  refine ⟨fun x y _ _ => ?_, fun x y _ _ => ?_⟩
  · simp only [e]
    exact (gauss_memLp _).integrable_mul (gauss_memLp _)
  · simp only [e]
    by_cases hxy : x = y
    · rw [if_pos hxy, hxy]; exact gauss_square _
    · rw [if_neg hxy]
      refine gauss_indep fun h => hxy ?_
      simp only [Prod.mk.injEq, add_right_inj, Nat.cast_inj] at h
      exact Prod.ext h.1 (Prod.ext h.2.1 h.2.2)

/-- A case: 3 x 5 pixels, a field of spin 0 and one of spin 2 with correlated spectra, two threads. -/
example (c : C2r ⟨3, 5, 1, 2⟩) (i0 c0 : ℕ → ℕ) (m0 : ℕ × ℕ × ℕ → ℂ) :
    let a : SynFlatArgs := ⟨⟨3, 5, 1, 2⟩, ⟨6, 100, fun r l => if r = 0 ∨ r = 1 ∨ r = 3 then l + 1 else 0⟩, [0, 2], none⟩
    let sched := [[0, 2, 3], [1, 4]]
    let tr := (sched.mapIdx fun t l => a.toAlm.prog t l).flatten
    ∃ F : (ℤ × ℕ × Bool → ℝ) → ℕ → ℕ → ℕ × ℕ → ℂ,
      (∀ ω, SynfastFlatRuns (fun _ : Unit => (0, ())) exactEigen (gaussGen ω) c.run a 3 () sched
        (.ok (synMaps a exactEigen c tr ⟨0, i0, c0, m0⟩ (gaussGen ω) 3), ())) ∧
      (∀ ω, SkyHas a.fs 2 (fun X => synMaps a exactEigen c tr ⟨0, i0, c0, m0⟩ (gaussGen ω) 3 (1 + X)) (F ω 1)) ∧
      Homogeneous gaussMeasure a.fs 1 2 (fun ω => F ω 0) (fun ω => F ω 1) fun X Y k =>
        tabSpec 100 (a.spec (0 + X) (1 + Y)) (a.fs.kmod k.1 k.2) *
          (tabSpec 100 (a.fieldBeam 0) (a.fs.kmod k.1 k.2) * tabSpec 100 (a.fieldBeam 1) (a.fs.kmod k.1 k.2)) := by
  intro a sched tr
  have hcheck : a.check = .ok () := by
    unfold SynFlatArgs.check
    rw [if_neg (by simp [a]), if_neg (by simp [a, SynFlatArgs.nmaps, nmapsOf]), if_neg (by simp [a]), if_neg (by simp [a]),
      if_neg (by simp [a]), if_neg (by simp [a])]
  have hpsd : ∀ l < a.cls.cols, PsdMat a.nmaps fun i j => a.spec i j l := by
    intro l _ x
    have hn : a.nmaps = 3 := by simp [a, SynFlatArgs.nmaps, nmapsOf]
    have hs : ∀ i < 3, ∀ j < 3, a.spec i j l = if i < 2 ∧ j < 2 then (l : ℝ) + 1 else 0 := by
      intro i hi j hj
      rw [spec_row a (by omega) (by omega), hn]
      interval_cases i <;> interval_cases j <;> simp [a, triIdx, Finset.sum_range_succ]
    rw [hn]
    simp only [Finset.sum_range_succ, Finset.sum_range_zero, hs 0 (by omega) 0 (by omega), hs 0 (by omega) 1 (by omega),
      hs 0 (by omega) 2 (by omega), hs 1 (by omega) 0 (by omega), hs 1 (by omega) 1 (by omega), hs 1 (by omega) 2 (by omega),
      hs 2 (by omega) 0 (by omega), hs 2 (by omega) 1 (by omega), hs 2 (by omega) 2 (by omega)]
    norm_num
    have : 0 ≤ ((l : ℝ) + 1) * ((x 0 + x 1) * (x 0 + x 1)) := mul_nonneg (by positivity) (mul_self_nonneg _)
    linarith
  have heven : ∀ f s, a.spins[f]? = some s → Even s ∨ ∀ X < nmapsOf s.natAbs, a.spec (a.first f + X) (a.first f + X) 0 = 0 := by
    intro f s hf
    left
    rcases f with _ | _ | f
    · simp [a] at hf; rw [← hf]; decide
    · simp [a] at hf; rw [← hf]; decide
    · simp [a] at hf
  obtain ⟨F, h1, h2, h3⟩ := C61_flat_partial (μ := gaussMeasure) (fun _ : Unit => (0, ())) exactEigen_correct a hcheck
    (by decide) (by decide) c hpsd heven (gauss := gaussGen) (seed := 3) (by norm_num) (sched := sched) (by decide) (by decide)
    (Interleaving.seq _) i0 c0 m0 (gauss_white _ _) ()
  exact ⟨F, h1, fun ω => h2 ω 1 2 rfl, h3 0 0 1 2 rfl rfl⟩

end NaMaster
