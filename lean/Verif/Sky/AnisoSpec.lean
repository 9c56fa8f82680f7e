import Verif.Sky.Spec

/-!
# Specification: fields with anisotropic masks

A symmetric matrix of weights acts on a field `P = Q + iU` of spin `s` as `P' = m P + A conj(P)`, where `m = (m11 + m22) / 2` is a function
without spin and `A = (m11 - m22) / 2 + i m12` a function of spin `2s`.
-/

namespace NaMaster.SkySpec

open Finset MeasureTheory WignerSpec

/-- The coefficient of a function of spin `σ ≠ 0` with components E and B, in the convention of the harmonic transforms of healpy and ducc.
(The function of spin `-σ` is the complex conjugate.) -/
noncomputable def spinCoef (σ : ℤ) (e b : ℂ) : ℂ := if 0 < σ then -(e + Complex.I * b) else -(-1) ^ σ * (e - Complex.I * b)

/-- `A` are the components (E, B) of the field `m P + A conj(P)`: `w` are the coefficients of `m`, `wa` the components of `A`, and `F`
those of the field `P` of spin `s`. -/
structure AnisoMaskedBy (s : ℕ) (Nw Nf lmax : ℕ) (w : ℕ → ℤ → ℂ) (wa F : ℕ → ℕ → ℤ → ℂ) (A : Alms) : Prop where
  plus : ∀ l ≤ lmax, ∀ m ≤ l, spinCoef s (A 0 l m) (A 1 l m) =
    productCoef s 0 s Nw Nf w (fun l m => spinCoef s (F 0 l m) (F 1 l m)) l m +
    productCoef s (2 * s) (-s) Nw Nf (fun l m => spinCoef (2 * s) (wa 0 l m) (wa 1 l m)) (fun l m => spinCoef (-s) (F 0 l m) (F 1 l m)) l m
  minus : ∀ l ≤ lmax, ∀ m ≤ l, spinCoef (-s) (A 0 l m) (A 1 l m) =
    productCoef (-s) 0 (-s) Nw Nf w (fun l m => spinCoef (-s) (F 0 l m) (F 1 l m)) l m +
    productCoef (-s) (-(2 * s)) s Nw Nf (fun l m => spinCoef (-(2 * s)) (wa 0 l m) (wa 1 l m)) (fun l m => spinCoef s (F 0 l m) (F 1 l m)) l m

/-- Maps of a field multiplied with a symmetric matrix of weights. -/
def weighted (m11 m22 m12 : ℕ → ℝ) (maps : MapStack) : MapStack := fun c p =>
  if c = 0 then m11 p * maps 0 p + m12 p * maps 1 p else if c = 1 then m12 p * maps 0 p + m22 p * maps 1 p else 0

end NaMaster.SkySpec
