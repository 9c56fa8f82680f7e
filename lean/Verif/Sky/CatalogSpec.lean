import Verif.Sky.Spec
import Verif.Field.Spectra

/-!
# Specification: fields known at the positions of sources

Spherical harmonics at points of the sphere, the values of a field there, and noise of the sources.
-/

namespace NaMaster.SkySpec

open Finset MeasureTheory WignerSpec

/-- `Y s` and `Y (-s)` are the spherical harmonics of spin `s` and `-s`, and `Y 0` those of spin zero: complex conjugation relates opposite
spins and orders, and products are sums of harmonics of spin zero with the integrals of triple products as coefficients. A common factor of modulus
one of the harmonics of a spin does not matter, so the signs of the convention for E and B are included in `Y`. -/
structure Spherical {X : Type*} (Y : ℤ → ℕ → ℤ → X → ℂ) (s : ℕ) : Prop where
  conj0 : ∀ l m x, (starRingEnd ℂ) (Y 0 l m x) = (-1) ^ m * Y 0 l (-m) x
  conjs : ∀ l m x, (starRingEnd ℂ) (Y s l m x) = (-1) ^ m * Y (-s) l (-m) x
  product : ∀ σ : ℤ, σ = 0 ∨ σ = s ∨ σ = -s → ∀ (l : ℕ) (m : ℤ) (l' : ℕ) (m' : ℤ) (x : X), |m| ≤ l → |m'| ≤ l' →
    (starRingEnd ℂ) (Y σ l m x) * Y σ l' m' x =
      ∑ W ∈ modes (l + l'), (gaunt σ 0 σ l m W.1 W.2 l' m' : ℝ) * (starRingEnd ℂ) (Y 0 W.1 W.2 x)

/-- The transform of sources uses these harmonics: a source of value one of a scalar has the complex conjugate harmonics as coefficients, a
source of a field with spin contributes value times complex conjugate harmonics to `E + iB`, and with opposite spin to `E - iB`. -/
structure UsesHarmonics {X : Type*} (H : Harm X) (Y : ℤ → ℕ → ℤ → X → ℂ) (s : ℕ) : Prop where
  scalar : ∀ l (m : ℕ) x, H.a 0 l m x = (starRingEnd ℂ) (Y 0 l m x)
  plus : s ≠ 0 → ∀ l (m : ℕ) x, H.a s l m x - Complex.I * H.b s l m x = (starRingEnd ℂ) (Y s l m x)
  minus : s ≠ 0 → ∀ l (m : ℕ) x, H.a s l m x + Complex.I * H.b s l m x = (starRingEnd ℂ) (Y (-s) l m x)

/-- The value at `x` of component `c` of the field of spin `s` with coefficients `F` up to `N`. -/
noncomputable def skyAt {X : Type*} (Y : ℤ → ℕ → ℤ → X → ℂ) (s N : ℕ) (F : ℕ → ℕ → ℤ → ℂ) (x : X) (c : ℕ) : ℝ :=
  let z : ℂ := ∑ q ∈ modes N, (F 0 q.1 q.2 + if s = 0 then 0 else Complex.I * F 1 q.1 q.2) * Y s q.1 q.2 x
  if c = 0 then z.re else z.im

/-- The random values `g` (component, source) and `h` are not correlated, for the pairs of sources in `pairs`. -/
def Uncorrelated {Ω : Type*} [MeasurableSpace Ω] (μ : Measure Ω) (n1 n2 : ℕ) (pairs : ℕ → ℕ → Prop) (g h : Ω → ℕ → ℕ → ℝ) : Prop :=
  ∀ c < n1, ∀ d < n2, ∀ i j, pairs i j → Integrable (fun ω => g ω c i * h ω d j) μ ∧ ∫ ω, g ω c i * h ω d j ∂μ = 0

/-- Noise that is not correlated with the sky or the noise at the other source, for the pairs of sources in `pairs`. -/
structure NoiseFree {Ω : Type*} [MeasurableSpace Ω] (μ : Measure Ω) (n1 n2 : ℕ) (pairs : ℕ → ℕ → Prop) (sky1 noise1 sky2 noise2 : Ω → ℕ → ℕ → ℝ) :
    Prop where
  noise : Uncorrelated μ n1 n2 pairs noise1 noise2
  left : Uncorrelated μ n1 n2 pairs noise1 sky2
  right : Uncorrelated μ n1 n2 pairs sky1 noise2

end NaMaster.SkySpec
