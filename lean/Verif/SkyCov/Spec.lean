import Verif.Sky.Spec
import Verif.Flat.CovarSpec

/-!
# Specification: Gaussian skies

The fourth moments of Gaussian random variables, and Gaussian skies that are statistically isotropic.
-/

namespace NaMaster.SkySpec

open Finset MeasureTheory

/-- Complex random variables `x i`, `i ∈ S`, with mean zero whose fourth moments are those of Gaussian variables (Isserlis). -/
structure IsserlisOn {Ω ι : Type*} [MeasurableSpace Ω] (μ : Measure Ω) (S : Set ι) (x : ι → Ω → ℂ) : Prop where
  int2 : ∀ i ∈ S, ∀ j ∈ S, Integrable (fun ω => x i ω * x j ω) μ
  int4 : ∀ i ∈ S, ∀ j ∈ S, ∀ k ∈ S, ∀ l ∈ S, Integrable (fun ω => x i ω * x j ω * (x k ω * x l ω)) μ
  fourth : ∀ i ∈ S, ∀ j ∈ S, ∀ k ∈ S, ∀ l ∈ S, ∫ ω, x i ω * x j ω * (x k ω * x l ω) ∂μ =
    (∫ ω, x i ω * x j ω ∂μ) * (∫ ω, x k ω * x l ω ∂μ) + (∫ ω, x i ω * x k ω ∂μ) * (∫ ω, x j ω * x l ω ∂μ) +
      (∫ ω, x i ω * x l ω ∂μ) * (∫ ω, x j ω * x k ω ∂μ)

/-- Four skies that are Gaussian and statistically isotropic: sky `i` has `n i` components with coefficients up to `N`, and `C i j X Y` is
the spectrum of component `X` of sky `i` with component `Y` of sky `j`. -/
structure GaussianSkies {Ω : Type*} [MeasurableSpace Ω] (μ : Measure Ω) (n : ℕ → ℕ) (N : ℕ) (F : ℕ → Ω → ℕ → ℕ → ℤ → ℂ)
    (C : ℕ → ℕ → ℕ → ℕ → ℕ → ℝ) : Prop where
  gauss : IsserlisOn μ {q : ℕ × ℕ × ℕ × ℤ | q.1 < 4 ∧ q.2.1 < n q.1 ∧ q.2.2 ∈ modes N} fun q ω => F q.1 ω q.2.1 q.2.2.1 q.2.2.2
  isotropic : ∀ i < 4, ∀ j < 4, Isotropic μ (n i) (n j) N (F i) (F j) (C i j)

end NaMaster.SkySpec
