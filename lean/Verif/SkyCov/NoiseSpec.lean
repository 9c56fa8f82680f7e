import Verif.SkyCov.Spec
import Verif.Sky.CatalogSpec
import Verif.Sky.Props

/-!
# Specification: white noise on the sphere

Transforms that are sums over the pixels, and maps of Gaussian noise that is independent in different pixels and components.
-/

namespace NaMaster.SkySpec

open Finset MeasureTheory

/-- Without iterations, the transforms of maps are sums over the pixels with weights `q` (their areas) and spherical harmonics `Y` at the centres of the
pixels: for scalars, and for `E + iB` and `E - iB` of fields of spin `s`. -/
structure PixelSums (S : Sht) (npix : ℕ) (q : ℕ → ℝ) (Y : ℤ → ℕ → ℤ → ℕ → ℂ) (s : ℕ) : Prop where
  weight : ∀ p < npix, q p ≠ 0
  harmonics : Spherical Y s
  scalar : ∀ lmax (v : MapStack), ∀ l ≤ lmax, ∀ m ≤ l,
    S.map2alm 0 lmax 0 v 0 l m = ∑ p ∈ range npix, (q p : ℂ) * (v 0 p : ℂ) * (starRingEnd ℂ) (Y 0 l m p)
  plus : s ≠ 0 → ∀ lmax (v : MapStack), ∀ l ≤ lmax, ∀ m ≤ l, S.map2alm s lmax 0 v 0 l m + Complex.I * S.map2alm s lmax 0 v 1 l m =
    ∑ p ∈ range npix, (q p : ℂ) * (v 0 p + Complex.I * v 1 p) * (starRingEnd ℂ) (Y s l m p)
  minus : s ≠ 0 → ∀ lmax (v : MapStack), ∀ l ≤ lmax, ∀ m ≤ l, S.map2alm s lmax 0 v 0 l m - Complex.I * S.map2alm s lmax 0 v 1 l m =
    ∑ p ∈ range npix, (q p : ℂ) * (v 0 p - Complex.I * v 1 p) * (starRingEnd ℂ) (Y (-s) l m p)

/-- Four maps of Gaussian white noise: values in different pixels, of different components, and of fields of different spin are independent; `N i j / q p` is
the covariance of maps `i` and `j` in pixel `p`, so that the spectra are `N i j` at all multipoles. -/
structure WhiteNoise {Ω : Type*} [MeasurableSpace Ω] (μ : Measure Ω) (npix : ℕ) (q : ℕ → ℝ) (s : ℕ → ℕ) (maps : ℕ → Ω → MapStack) (N : ℕ → ℕ → ℝ) :
    Prop where
  gauss : IsserlisOn μ {t : ℕ × ℕ × ℕ | t.1 < 4 ∧ t.2.1 < ncomp (s t.1) ∧ t.2.2 < npix} fun t ω => (maps t.1 ω t.2.1 t.2.2 : ℂ)
  covariance : ∀ i < 4, ∀ j < 4, ∀ c < ncomp (s i), ∀ d < ncomp (s j), ∀ p < npix, ∀ p' < npix,
    ∫ ω, maps i ω c p * maps j ω d p' ∂μ = if s i = s j ∧ c = d ∧ p = p' then N i j / q p else 0

/-- The spectra of white noise: of components of one kind, and the same at all multipoles. -/
def noiseSpectra (s : ℕ → ℕ) (N : ℕ → ℕ → ℝ) (i j X Y _l : ℕ) : ℝ := if s i = s j ∧ X = Y then N i j else 0

/-- Fields `f ω` of spin `s` made from maps, all with the same mask and the same other arguments `a`: isotropic masks, no templates, no purification, and
transforms without iterations. -/
structure PlainFields {Ω : Type*} (env : FieldEnv) (a : FieldArgs) (s lmax lmaxMask : ℕ) (maps : Ω → MapStack) (f : Ω → FieldObj) : Prop where
  iso : IsoCall a
  bare : a.templates = none
  mixed : (a.purifyE || a.purifyB) = false
  quick : a.nIter = 0 ∧ a.nIterMask = 0
  spin : spinOf (ncomp s) a.spin = s
  bandLimit : a.lmax.getD env.lmaxDefault = lmax
  maskBandLimit : a.lmaxMask.getD env.lmaxDefault = lmaxMask
  made : ∀ ω, nmtField env (a.withMaps (ncomp s) env.pix.npix (maps ω)) = .ok (f ω)

end NaMaster.SkySpec
