import Verif.Flat.CovarModel
import Verif.Flat.MasterSpec
import Mathlib.MeasureTheory.Integral.Bochner.Basic

/-! # Specification of the covariance of flat-sky bandpowers of white noise -/

namespace NaMaster

open Real Finset MeasureTheory

/-- The covariance of white noise: pixel `p` of map `i` with pixel `q` of map `j`. -/
def whiteCov (σ : ℕ → ℕ → ℝ) (i j : ℕ) (p q : ℕ × ℕ) : ℝ := if p = q then σ i j else 0

/-- Four random maps are white Gaussian noise with covariances `σ i j` of their values at a pixel. Of being Gaussian only the
fourth moments matter: they are sums of products of second moments (Isserlis). -/
structure WhitePixels {Ω : Type*} [MeasurableSpace Ω] (μ : Measure Ω) (fs : FlatInfo) (f : ℕ → Ω → ℕ × ℕ → ℝ)
    (σ : ℕ → ℕ → ℝ) : Prop where
  int2 : ∀ i j, i < 4 → j < 4 → ∀ p ∈ fs.modes, ∀ q ∈ fs.modes, Integrable (fun ω => f i ω p * f j ω q) μ
  second : ∀ i j, i < 4 → j < 4 → ∀ p ∈ fs.modes, ∀ q ∈ fs.modes, ∫ ω, f i ω p * f j ω q ∂μ = whiteCov σ i j p q
  int4 : ∀ i j k l, i < 4 → j < 4 → k < 4 → l < 4 → ∀ p ∈ fs.modes, ∀ q ∈ fs.modes, ∀ r ∈ fs.modes, ∀ s ∈ fs.modes,
    Integrable (fun ω => f i ω p * f j ω q * (f k ω r * f l ω s)) μ
  fourth : ∀ i j k l, i < 4 → j < 4 → k < 4 → l < 4 → ∀ p ∈ fs.modes, ∀ q ∈ fs.modes, ∀ r ∈ fs.modes, ∀ s ∈ fs.modes,
    ∫ ω, f i ω p * f j ω q * (f k ω r * f l ω s) ∂μ =
      whiteCov σ i j p q * whiteCov σ k l r s + whiteCov σ i k p r * whiteCov σ j l q s + whiteCov σ i l p s * whiteCov σ j k q r

/-- The spectrum of white noise: the covariance of the pixels times the area of a pixel. -/
noncomputable def whiteSpectrum (fs : FlatInfo) (v : ℝ) : ℝ := v * (fs.lx * fs.ly / (fs.nx * fs.ny))

/-- The first spectrum of an array is constant. -/
def ConstSpectrum (s : Arr2 ℝ) (v : ℝ) : Prop := ∀ l < s.cols, s.val 0 l = v

/-- The covariance of two random variables. -/
noncomputable def covar {Ω : Type*} [MeasurableSpace Ω] (μ : Measure Ω) (x y : Ω → ℝ) : ℝ :=
  ∫ ω, x ω * y ω ∂μ - (∫ ω, x ω ∂μ) * ∫ ω, y ω ∂μ

end NaMaster
