import Verif.Flat.Coupling
import Verif.Flat.ModesProps
import Mathlib.MeasureTheory.Integral.Bochner.Basic
import Mathlib.MeasureTheory.Integral.Bochner.ContinuousLinearMap

/-!
# Specification of the flat-sky pseudo-spectrum of a random sky

A sky is given by its Fourier modes on the grid of wave vectors of the map: `f(p) = Σ_k F(k) exp(i k·p)`, and for
nonzero spin by its E and B modes. It is random; all sums over modes are finite.
-/

namespace NaMaster

open Real Finset MeasureTheory

/-- The real map `f` has the Fourier modes `F`. -/
def HasModes (fs : FlatInfo) (f : ℕ × ℕ → ℝ) (F : ℕ × ℕ → ℂ) : Prop :=
  ∀ p ∈ fs.modes, (f p : ℂ) = ∑ k ∈ fs.modes, F k * Complex.exp (fs.phase k p * Complex.I)

/-- The map (spin 0) or the two maps Q, U (nonzero spin) `m 0`, `m 1` have the modes `F 0`, or the E and B modes `F 0` and
`F 1`. -/
def SkyHas (fs : FlatInfo) (spin : ℕ) (m : ℕ → ℕ × ℕ → ℝ) (F : ℕ → ℕ × ℕ → ℂ) : Prop :=
  if spin = 0 then HasModes fs (m 0) (F 0)
  else HasModes fs (m 0) (fun k => (eb2qu spin (fs.kx k.1) (fs.ky k.2) (F 0 k, F 1 k)).1) ∧
    HasModes fs (m 1) (fun k => (eb2qu spin (fs.kx k.1) (fs.ky k.2) (F 0 k, F 1 k)).2)

/-- The Fourier coefficients of the masked maps as computed by the library: for `X = 0, 1` the E and B coefficients, and
the only coefficient for spin 0. -/
noncomputable def maskedAlm (fs : FlatInfo) (spin : ℕ) (mask : ℕ × ℕ → ℝ) (m : ℕ → ℕ × ℕ → ℝ) (X : ℕ) (k : ℕ × ℕ) : ℂ :=
  if spin = 0 then fs.map2alm (fun p => mask p * m 0 p) k
  else if X = 0 then (fs.map2almSpin spin (fun p => mask p * m 0 p) (fun p => mask p * m 1 p) k).1
  else (fs.map2almSpin spin (fun p => mask p * m 0 p) (fun p => mask p * m 1 p) k).2

/-- Two random skies on one probability space are statistically homogeneous with cross-spectra `C X Y k` (real): modes of
different wave vectors are uncorrelated, and the covariance of the modes of equal wave vectors is the spectrum divided by the
area of the map. -/
structure Homogeneous {Ω : Type*} [MeasurableSpace Ω] (μ : Measure Ω) (fs : FlatInfo) (n1 n2 : ℕ)
    (F1 F2 : Ω → ℕ → ℕ × ℕ → ℂ) (C : ℕ → ℕ → ℕ × ℕ → ℝ) : Prop where
  integrable : ∀ X < n1, ∀ Y < n2, ∀ k ∈ fs.modes, ∀ k' ∈ fs.modes, Integrable (fun ω => F1 ω X k * star (F2 ω Y k')) μ
  covariance : ∀ X < n1, ∀ Y < n2, ∀ k ∈ fs.modes, ∀ k' ∈ fs.modes,
    ∫ ω, F1 ω X k * star (F2 ω Y k') ∂μ = if k = k' then ((C X Y k / (fs.lx * fs.ly) : ℝ) : ℂ) else 0

/-- The direction of the wave vector of a mode; 0 for the mode at the origin. -/
noncomputable def modeAngle (fs : FlatInfo) (k : ℕ × ℕ) : ℝ := Complex.arg (fs.kx k.1 + fs.ky k.2 * Complex.I)

/-- The rotation of (E, B) by an angle; the trivial one for spin 0. -/
noncomputable def rotEB (spin : ℕ) (α : ℝ) (X X' : ℕ) : ℝ :=
  if spin = 0 then 1 else
  match X, X' with
  | 0, 0 => cos (spin * α)
  | 0, _ => -sin (spin * α)
  | _, 0 => sin (spin * α)
  | _, _ => cos (spin * α)

/-- The cross-spectrum of two masks at a mode of the grid. -/
noncomputable def maskPower (fs : FlatInfo) (mask1 mask2 : ℕ × ℕ → ℝ) (q : ℕ × ℕ) : ℝ :=
  (fs.map2alm mask1 q * star (fs.map2alm mask2 q)).re

open Classical in
/-- The modes that count in band `ib`. -/
noncomputable def bandModes (fs : FlatInfo) (b : FlatBins ℝ) (c : EllCuts) (ib : ℕ) : Finset (ℕ × ℕ) :=
  {k ∈ fs.modes | ¬ ModeCut fs c k.1 k.2 ∧ InBand b ib (fs.kmod k.1 k.2)}

open Classical in
/-- All modes with multipole in band `ib`. -/
noncomputable def bandModesAll (fs : FlatInfo) (b : FlatBins ℝ) (ib : ℕ) : Finset (ℕ × ℕ) :=
  {k ∈ fs.modes | InBand b ib (fs.kmod k.1 k.2)}

/-- The right coupling matrix: mean over the modes `k1` of band `ib` of the sum over the modes `k2` of band `ib'` of the
cross-spectrum of the masks at `k1 - k2`, the beams at `k2`, and the rotations of E and B between the two modes. -/
noncomputable def trueCoupling (f1 f2 : FlatField) (b : FlatBins ℝ) (c : EllCuts) (X Y ib X' Y' ib' : ℕ) : ℝ :=
  4 * π * π / (f1.fs.lx * f1.fs.lx * f1.fs.ly * f1.fs.ly) / #(bandModes f1.fs b c ib) *
    ∑ k1 ∈ bandModes f1.fs b c ib, ∑ k2 ∈ bandModesAll f1.fs b ib',
      maskPower f1.fs f1.mask f2.mask (f1.fs.sub k1 k2) *
        (f1.beam (f1.fs.kmod k2.1 k2.2) * f2.beam (f1.fs.kmod k2.1 k2.2)) *
        (rotEB f1.spin (modeAngle f1.fs k1 - modeAngle f1.fs k2) X X' *
          rotEB f2.spin (modeAngle f1.fs k1 - modeAngle f1.fs k2) Y Y')

/-- The ranges treat opposite wave numbers along y alike; the default ranges do. -/
def SymmetricCuts (fs : FlatInfo) (c : EllCuts) : Prop :=
  ∀ iy < fs.ny, (c.y0 ≤ fs.ky iy ∧ fs.ky iy ≤ c.y1) ↔
    (c.y0 ≤ fs.ky ((fs.ny - iy) % fs.ny) ∧ fs.ky ((fs.ny - iy) % fs.ny) ≤ c.y1)

/-- No mode of the highest wave number along y, for an even number of rows, lies in a band. -/
def NoNyquist (fs : FlatInfo) (b : FlatBins ℝ) : Prop :=
  ∀ k ∈ fs.modes, 2 * k.2 = fs.ny → ∀ ib, ¬ InBand b ib (fs.kmod k.1 k.2)

end NaMaster
