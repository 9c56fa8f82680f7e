import Verif.Wigner.Spec
import Verif.Field.Model
import Mathlib.Data.Int.Interval
import Mathlib.MeasureTheory.Integral.Bochner.Basic

/-!
# Specification: harmonic coefficients on the sphere

Harmonic coefficients of products of functions on the sphere, and random skies that are statistically isotropic.
-/

namespace NaMaster.SkySpec

open Finset MeasureTheory WignerSpec

/-- The indices `l ≤ N`, `-l ≤ m ≤ l` of spherical harmonics. -/
noncomputable def modes (N : ℕ) : Finset (ℕ × ℤ) := {q ∈ range (N + 1) ×ˢ Icc (-(N : ℤ)) N | |q.2| ≤ q.1}

/-- The integral over the sphere of `conj(Y_lm)` of spin `so`, `Y_LM` of spin `sw` and `Y_l'm'` of spin `sf`, for `so = sw + sf`. -/
noncomputable def gaunt (so sw sf : ℤ) (l : ℕ) (m : ℤ) (L : ℕ) (M : ℤ) (l' : ℕ) (m' : ℤ) : ℝ :=
  (-1) ^ (so + m) * Real.sqrt ((2 * l + 1) * (2 * L + 1) * (2 * l' + 1) / (4 * Real.pi)) *
    wigner3j l L l' (-m) M m' * wigner3j l L l' so (-sw) (-sf)

/-- The coefficient of spin `so` of the product of two functions: one of spin `sw` with coefficients `w` up to `Nw`, and one of spin
`sf` with coefficients `g` up to `Nf`. -/
noncomputable def productCoef (so sw sf : ℤ) (Nw Nf : ℕ) (w g : ℕ → ℤ → ℂ) (l : ℕ) (m : ℤ) : ℂ :=
  ∑ W ∈ modes Nw, ∑ q ∈ modes Nf, w W.1 W.2 * (gaunt so sw sf l m W.1 W.2 q.1 q.2 : ℝ) * g q.1 q.2

/-- Coefficients of components that are real: the scalar field, or E and B. -/
def RealCoefs (a : ℕ → ℤ → ℂ) : Prop := ∀ l m, a l (-m) = (-1) ^ m * (starRingEnd ℂ) (a l m)

/-- `A` are the components (E, B) of the product of a function with coefficients `w` and a field with components `F`. The functions of
positive spin have coefficients `E + iB`, those of negative spin `E - iB`. -/
structure ProductOf (so sw sf : ℤ) (Nw Nf lmax : ℕ) (w : ℕ → ℤ → ℂ) (F : ℕ → ℕ → ℤ → ℂ) (A : Alms) : Prop where
  plus : ∀ l ≤ lmax, ∀ m ≤ l, A 0 l m + Complex.I * A 1 l m =
    productCoef so sw sf Nw Nf w (fun l m => F 0 l m + Complex.I * F 1 l m) l m
  minus : ∀ l ≤ lmax, ∀ m ≤ l, A 0 l m - Complex.I * A 1 l m =
    productCoef (-so) (-sw) (-sf) Nw Nf w (fun l m => F 0 l m - Complex.I * F 1 l m) l m

/-- `A` are the coefficients of the product of a mask with coefficients `w` and a field of spin `s` with components `F`. -/
structure MaskedBy (s : ℕ) (Nw Nf lmax : ℕ) (w : ℕ → ℤ → ℂ) (F : ℕ → ℕ → ℤ → ℂ) (A : Alms) : Prop where
  scalar : s = 0 → ∀ l ≤ lmax, ∀ m ≤ l, A 0 l m = productCoef 0 0 0 Nw Nf w (F 0) l m
  spin : s ≠ 0 → ProductOf s 0 s Nw Nf lmax w F A

/-- The number of components of a field of spin `s`. -/
def ncomp (s : ℕ) : ℕ := if s = 0 then 1 else 2

/-- Random skies up to `Nf` that are statistically isotropic: coefficients of different harmonics are uncorrelated, the others have the
spectra `C` (component of the first, component of the second, multipole). -/
structure Isotropic {Ω : Type*} [MeasurableSpace Ω] (μ : Measure Ω) (n1 n2 Nf : ℕ) (F1 F2 : Ω → ℕ → ℕ → ℤ → ℂ) (C : ℕ → ℕ → ℕ → ℝ) :
    Prop where
  integrable : ∀ X < n1, ∀ Y < n2, ∀ q ∈ modes Nf, ∀ r ∈ modes Nf,
    Integrable (fun ω => F1 ω X q.1 q.2 * (starRingEnd ℂ) (F2 ω Y r.1 r.2)) μ
  covariance : ∀ X < n1, ∀ Y < n2, ∀ q ∈ modes Nf, ∀ r ∈ modes Nf,
    ∫ ω, F1 ω X q.1 q.2 * (starRingEnd ℂ) (F2 ω Y r.1 r.2) ∂μ = if q = r then (C X Y q.1 : ℂ) else 0

/-- First derivative of a mask with coefficients `w`: the E component of a function of spin 1. -/
noncomputable def gradCoef (w : ℕ → ℤ → ℂ) (L : ℕ) (M : ℤ) : ℂ := (-Real.sqrt (((L : ℝ) + 1) * L) : ℝ) * w L M

/-- Second derivative of a mask with coefficients `w`: the E component of a function of spin 2. -/
noncomputable def hessCoef (w : ℕ → ℤ → ℂ) (L : ℕ) (M : ℤ) : ℂ :=
  (Real.sqrt (((L : ℝ) + 2) * ((L : ℝ) + 1) * L * ((L : ℝ) - 1)) : ℝ) * w L M

/-- A pair (E, B) with the given E component. -/
def onlyE (a : ℕ → ℤ → ℂ) : Alms := fun c l m => if c = 0 then a l m else 0

/-- The product of the complex conjugate of `a` and `b`, where the two maps of a stack are real and imaginary part of a complex map. -/
noncomputable def conjProduct (a b : MapStack) : MapStack := fun c p =>
  let z := (starRingEnd ℂ) ((a 0 p : ℂ) + a 1 p * Complex.I) * ((b 0 p : ℂ) + b 1 p * Complex.I)
  if c = 0 then z.re else if c = 1 then z.im else 0

/-- Exactness of the transforms for one sky and one mask: the transforms of the products of the maps with the mask and (for purified
fields) with the maps of its derivatives are the coefficients of the products of the functions on the sphere. `w` are the coefficients of
the mask, `F` those of the sky of spin `s` the maps show. -/
structure Observed (S : Sht) (nIter s lmaxMask lmax : ℕ) (pure : Prop) (mask : ℕ → ℝ) (w : ℕ → ℤ → ℂ) (F : ℕ → ℕ → ℤ → ℂ)
    (maps : MapStack) : Prop where
  masked : MaskedBy s lmaxMask lmax lmax w F (S.map2alm s lmax nIter fun c p => maps c p * mask p)
  first : pure → ProductOf 1 (-1) 2 lmaxMask lmax lmax (gradCoef w) F
    (S.map2alm 1 lmax nIter (conjProduct (S.alm2map 1 lmaxMask (onlyE (gradCoef w))) maps))
  second : pure → ProductOf 0 (-2) 2 lmaxMask lmax lmax (hessCoef w) F
    (fun c => S.map2alm 0 lmax nIter (single (conjProduct (S.alm2map 2 lmaxMask (onlyE (hessCoef w))) maps c)) 0)

end NaMaster.SkySpec
