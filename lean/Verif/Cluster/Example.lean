import Verif.Cluster.Props
import Mathlib.MeasureTheory.Constructions.Pi
import Mathlib.MeasureTheory.Integral.Bochner.SumMeasure

/-! # An example for C87: sources at the poles -/

namespace NaMaster.ClusterExample

open Finset MeasureTheory ProbabilityTheory NaMaster.ClusterSpec

/-- The spherical harmonics of the dipole (up to conjugation, as in the transform), and constants at the other multipoles. -/
noncomputable def harm : Harm (ℝ × ℝ) where
  a := fun _ l m x =>
    if l = 1 then (if m = 0 then (Real.sqrt (3 / (4 * Real.pi)) * Real.cos x.1 : ℝ)
      else if m = 1 then (Real.sqrt (3 / (8 * Real.pi)) * Real.sin x.1 : ℝ) * Complex.exp (-(x.2 * Complex.I)) else 0)
    else if m = 0 then (Real.sqrt ((2 * l + 1) / (4 * Real.pi)) : ℝ) else 0
  b := fun _ _ _ _ => 0

theorem harm_normalised (l : ℕ) : harm.Normalised 0 l := by
  refine ⟨fun _ x => ?_, fun h => absurd rfl h, fun h => absurd rfl h, fun h => absurd rfl h⟩
  have hpi := Real.pi_pos
  unfold alm2cl
  by_cases hl : l = 1
  · subst hl
    rw [sum_range_succ, sum_range_one]
    simp only [harm, if_true, one_ne_zero, if_false]
    have e1 : (((Real.sqrt (3 / (4 * Real.pi)) * Real.cos x.1 : ℝ) : ℂ) * (starRingEnd ℂ) ((Real.sqrt (3 / (4 * Real.pi)) * Real.cos x.1 : ℝ) : ℂ)).re =
        3 / (4 * Real.pi) * Real.cos x.1 ^ 2 := by
      rw [Complex.conj_ofReal, ← Complex.ofReal_mul, Complex.ofReal_re]
      have := Real.mul_self_sqrt (show 0 ≤ 3 / (4 * Real.pi) by positivity)
      linear_combination Real.cos x.1 ^ 2 * this
    have e2 : ((((Real.sqrt (3 / (8 * Real.pi)) * Real.sin x.1 : ℝ) : ℂ) * Complex.exp (-(x.2 * Complex.I))) *
        (starRingEnd ℂ) (((Real.sqrt (3 / (8 * Real.pi)) * Real.sin x.1 : ℝ) : ℂ) * Complex.exp (-(x.2 * Complex.I)))).re = 3 / (8 * Real.pi) * Real.sin x.1 ^ 2 := by
      rw [Complex.mul_conj, Complex.ofReal_re, Complex.normSq_eq_norm_sq, norm_mul, Complex.norm_real]
      have h1 : ‖Complex.exp (-(x.2 * Complex.I))‖ = 1 := by
        have := Complex.norm_exp_ofReal_mul_I (-x.2)
        push_cast at this
        rw [← this]
        congr 2
        ring
      rw [h1, mul_one, Real.norm_eq_abs, sq_abs]
      have := Real.mul_self_sqrt (show 0 ≤ 3 / (8 * Real.pi) by positivity)
      linear_combination Real.sin x.1 ^ 2 * this
    rw [e1, e2]
    have := Real.sin_sq_add_cos_sq x.1
    field_simp
    push_cast
    linear_combination 24 * this
  · have e : ∀ m ∈ range (l + 1), (if m = 0 then (1 : ℝ) else 2) * (harm.a 0 l m x * (starRingEnd ℂ) (harm.a 0 l m x)).re =
        if m = 0 then (2 * l + 1) / (4 * Real.pi) else 0 := by
      intro m _
      simp only [harm, if_neg hl]
      by_cases hm : m = 0
      · simp only [if_pos hm]
        rw [Complex.conj_ofReal, ← Complex.ofReal_mul, Complex.ofReal_re, Real.mul_self_sqrt (by positivity), one_mul]
      · simp [if_neg hm]
    rw [sum_congr rfl e]
    simp only [sum_ite_eq', mem_range, Nat.succ_pos, if_true]
    field_simp

/-- A biased coin. -/
noncomputable def coin : Measure Bool := (3 / 4 : ENNReal) • Measure.dirac false + (1 / 4 : ENNReal) • Measure.dirac true

instance : IsProbabilityMeasure coin := by
  constructor
  simp only [coin, Measure.add_apply, Measure.smul_apply, measure_univ, smul_eq_mul, mul_one]
  rw [ENNReal.div_add_div_same]
  norm_num
  exact ENNReal.div_self (by norm_num) (by norm_num)

/-- North pole or south pole. -/
noncomputable def pole (b : Bool) : ℝ × ℝ := if b then (Real.pi, 0) else (0, 0)

theorem pole_meas : Measurable pole := measurable_of_finite _

/-- Four throws. -/
abbrev Throws := Fin 4 → Bool

noncomputable def μ : Measure Throws := Measure.pi fun _ => coin

instance : IsProbabilityMeasure μ := by unfold μ; infer_instance

/-- The distribution of a source. -/
noncomputable def ν : Measure (ℝ × ℝ) := coin.map pole

/-- The position given by throw `k`. -/
noncomputable def at_ (k : Fin 4) (ω : Throws) : ℝ × ℝ := pole (ω k)

theorem at_meas (k : Fin 4) : Measurable (at_ k) := pole_meas.comp (measurable_pi_apply k)

theorem at_law (k : Fin 4) : μ.map (at_ k) = ν := by
  unfold at_ ν
  have h := (measurePreserving_eval (fun _ : Fin 4 => coin) k).map_eq
  conv_rhs => rw [← h]
  rw [Measure.map_map pole_meas (measurable_pi_apply k)]
  rfl

theorem at_indep {k k' : Fin 4} (h : k ≠ k') : IndepFun (at_ k) (at_ k') μ :=
  (iIndepFun_pi (μ := fun _ : Fin 4 => coin) (X := fun _ => pole) fun _ => pole_meas.aemeasurable).indepFun h

theorem at_sphere (k : Fin 4) (ω : Throws) : (0 ≤ (at_ k ω).1 ∧ (at_ k ω).1 ≤ Real.pi) ∧ 0 ≤ (at_ k ω).2 ∧ (at_ k ω).2 ≤ 2 * Real.pi := by
  have := Real.pi_pos
  unfold at_ pole
  by_cases h : ω k = true
  · rw [if_pos h]; exact ⟨⟨this.le, le_refl _⟩, le_refl _, by positivity⟩
  · rw [if_neg h]; exact ⟨⟨le_refl _, this.le⟩, le_refl _, by positivity⟩

/-- The catalog that takes its positions from the throws `t i`. -/
theorem drawn {n : ℕ} (t : ℕ → Fin 4) : Drawn μ n (fun ω i => at_ (t i) ω) ν :=
  ⟨fun ω i _ => at_sphere (t i) ω, fun i _ => at_meas (t i), fun i _ => at_law (t i)⟩

theorem integral_ν (g : ℝ × ℝ → ℂ) (hg : Measurable g) : ∫ x, g x ∂ν = (3 / 4 : ℂ) * g (0, 0) + (1 / 4 : ℂ) * g (Real.pi, 0) := by
  unfold ν
  rw [integral_map pole_meas.aemeasurable hg.aestronglyMeasurable]
  unfold coin
  rw [integral_add_measure (by exact Integrable.of_finite.smul_measure (by finiteness)) (by exact Integrable.of_finite.smul_measure (by finiteness)),
    integral_smul_measure, integral_smul_measure, integral_dirac, integral_dirac]
  simp [pole]

theorem harm_meas (l m : ℕ) : Measurable (harm.a 0 l m) := by
  unfold harm
  by_cases h1 : l = 1 <;> by_cases h2 : m = 0 <;> by_cases h3 : m = 1 <;> simp only [h1, h2, h3, if_true, if_false, one_ne_zero, zero_ne_one] <;> fun_prop

theorem coefs (lmax : ℕ) : HasCoefs harm lmax ν := by
  intro l _ m _
  unfold ν
  rw [integrable_map_measure (harm_meas l m).aestronglyMeasurable pole_meas.aemeasurable]
  exact Integrable.of_finite

theorem power_dipole : power harm ν ν 1 = 1 / (16 * Real.pi) := by
  have hpi := Real.pi_pos
  have e0 : density harm ν 1 0 = ((Real.sqrt (3 / (4 * Real.pi)) / 2 : ℝ) : ℂ) := by
    unfold density
    rw [integral_ν _ (harm_meas 1 0)]
    simp only [harm, if_true, Real.cos_zero, Real.cos_pi]
    push_cast
    ring
  have e1 : density harm ν 1 1 = 0 := by
    unfold density
    rw [integral_ν _ (harm_meas 1 1)]
    simp [harm]
  unfold power alm2cl
  rw [sum_range_succ, sum_range_one, e0, e1]
  simp only [if_true, one_ne_zero, if_false, zero_mul, Complex.zero_re, mul_zero, add_zero, one_mul]
  rw [Complex.conj_ofReal, ← Complex.ofReal_mul, Complex.ofReal_re]
  have := Real.mul_self_sqrt (show 0 ≤ 3 / (4 * Real.pi) by positivity)
  have h2 : Real.sqrt (3 / (4 * Real.pi)) / 2 * (Real.sqrt (3 / (4 * Real.pi)) / 2) = 3 / (4 * Real.pi) / 4 := by linear_combination this / 4
  rw [h2]
  push_cast
  field_simp
  norm_num

/-- Catalogs with the given number of sources and weights 1, 2, ... -/
noncomputable def cat (n : ℕ) : CatArgs := ⟨2, n, fun _ _ => 0, n, fun i => i + 1, none, none, 1, none, none, false⟩

theorem total_ne {n : ℕ} (h : 0 < n) : total (cat n) ≠ 0 := by
  have : 0 < total (cat n) := sum_pos (fun i _ => by simp only [cat]; positivity) ⟨0, mem_range.2 h⟩
  exact this.ne'

theorem squares_pos {n : ℕ} (h : 0 < n) : 0 < squares (cat n) :=
  sum_pos (fun i _ => by simp only [cat]; positivity) ⟨0, mem_range.2 h⟩

/-- Throws 0 and 1 for the data, 2 and 3 for the randoms. -/
def low (i : ℕ) : Fin 4 := if i = 0 then 0 else 1

def high (i : ℕ) : Fin 4 := if i = 0 then 2 else 3

theorem low_high (i j : ℕ) : low i ≠ high j := by
  unfold low high; split_ifs <;> decide

theorem indep_two {t : ℕ → Fin 4} (h : t 0 ≠ t 1) : Indep μ 2 fun ω i => at_ (t i) ω := by
  intro i hi j hj hij
  have : t i ≠ t j := by
    have h1 : i = 0 ∨ i = 1 := by omega
    have h2 : j = 0 ∨ j = 1 := by omega
    rcases h1 with rfl | rfl <;> rcases h2 with rfl | rfl <;> first | exact absurd rfl hij | exact h | exact h.symm
  exact at_indep this

/-- Two sources and two randoms of the same density: the mean of the spectrum at multipole 1 is negative. -/
example : ∃ S : Throws → Arr2 ℝ, (∀ ω, ((nmtFieldClustering harm (placed (cat 2) fun i => at_ (low i) ω) (placed (cat 2) fun i => at_ (high i) ω) 1).bind
      fun v => computeCoupledCell v v true) = .ok (some (S ω))) ∧ ∫ ω, (S ω).val 0 1 ∂μ < 0 := by
  obtain ⟨S, h1, h2⟩ := C87_auto_wrong (H := harm) (cat 2) (cat 2) (total_ne (by norm_num)) (squares_pos (by norm_num)) 1 (fun ω i => at_ (low i) ω) (fun ω i => at_ (high i) ω) ν
    (drawn low) (drawn high) (indep_two (by decide)) (indep_two (by decide)) (fun i _ j _ => at_indep (low_high i j)) (coefs 1) fun l _ => harm_normalised l
  exact ⟨S, h1, h2 1 (le_refl _) (by rw [power_dipole]; have := Real.pi_pos; positivity)⟩

/-- Two catalogs of one source, with the same two randoms: the mean of their spectrum at multipole 1 is not zero. -/
example : ∃ S : Throws → Arr2 ℝ, (∀ ω, ((nmtFieldClustering harm (placed (cat 1) fun _ => at_ 0 ω) (placed (cat 2) fun i => at_ (high i) ω) 1).bind
      fun v => (nmtFieldClustering harm (placed (cat 1) fun _ => at_ 1 ω) (placed (cat 2) fun i => at_ (high i) ω) 1).bind
      fun w => computeCoupledCell v w false) = .ok (some (S ω))) ∧ ∫ ω, (S ω).val 0 1 ∂μ ≠ 0 := by
  have h0 : ∀ j, (0 : Fin 4) ≠ high j := fun j => by unfold high; split_ifs <;> decide
  have h1 : ∀ j, high j ≠ (1 : Fin 4) := fun j => by unfold high; split_ifs <;> decide
  obtain ⟨S, a, b⟩ := C87_shared_wrong (H := harm) (cat 1) (cat 1) (cat 2) (total_ne (by norm_num)) (total_ne (by norm_num)) (total_ne (by norm_num)) 1
    (fun ω _ => at_ 0 ω) (fun ω _ => at_ 1 ω) (fun ω i => at_ (high i) ω) ν (drawn fun _ => 0) (drawn fun _ => 1) (drawn high)
    (fun _ _ _ _ => at_indep (by decide)) (fun _ _ j _ => at_indep (h0 j)) (fun i _ _ _ => at_indep (h1 i)) (indep_two (by decide)) (coefs 1)
    fun l _ => harm_normalised l
  refine ⟨S, a, b 1 (le_refl _) ?_⟩
  rw [power_dipole]
  have := Real.pi_pos
  intro h
  field_simp at h
  norm_num at h

/-- With randoms of their own, the mean is zero. -/
example : ∃ S : Throws → Arr2 ℝ, (∀ ω, ((nmtFieldClustering harm (placed (cat 1) fun _ => at_ 0 ω) (placed (cat 1) fun _ => at_ 2 ω) 1).bind
      fun v => (nmtFieldClustering harm (placed (cat 1) fun _ => at_ 1 ω) (placed (cat 1) fun _ => at_ 3 ω) 1).bind
      fun w => computeCoupledCell v w false) = .ok (some (S ω))) ∧ ∫ ω, (S ω).val 0 1 ∂μ = 0 := by
  obtain ⟨S, a, b⟩ := C87_cross (H := harm) (cat 1) (cat 1) (cat 1) (cat 1) (total_ne (by norm_num)) (total_ne (by norm_num)) 1
    (fun ω _ => at_ 0 ω) (fun ω _ => at_ 2 ω) (fun ω _ => at_ 1 ω) (fun ω _ => at_ 3 ω) ν ν ν ν (drawn fun _ => 0) (drawn fun _ => 2) (drawn fun _ => 1) (drawn fun _ => 3)
    (fun _ _ _ _ => at_indep (by decide)) (fun _ _ _ _ => at_indep (by decide)) (fun _ _ _ _ => at_indep (by decide)) (fun _ _ _ _ => at_indep (by decide))
    (coefs 1) (coefs 1) (coefs 1) (coefs 1)
  refine ⟨S, a, ?_⟩
  rw [(b 1 (le_refl _)).2]
  unfold contrast alm2cl
  simp

end NaMaster.ClusterExample
