import Verif.Field.CatalogProps
import Mathlib.Probability.Independence.Integration

/-! # Specification: catalogs of sources at random positions -/

namespace NaMaster.ClusterSpec

open Finset MeasureTheory ProbabilityTheory

/-- The catalog with sources at the positions `x` (colatitude and longitude). -/
def placed (a : CatArgs) (x : ℕ → ℝ × ℝ) : CatArgs :=
  { a with rows := 2, cols := a.nsrc, pos := fun k i => if k = 0 then (x i).1 else (x i).2 }

/-- Positions on the sphere. -/
def OnSphere (n : ℕ) (x : ℕ → ℝ × ℝ) : Prop :=
  ∀ i < n, (0 ≤ (x i).1 ∧ (x i).1 ≤ Real.pi) ∧ 0 ≤ (x i).2 ∧ (x i).2 ≤ 2 * Real.pi

/-- The positions of `n` sources are drawn from the distribution `ν`. -/
structure Drawn {Ω : Type*} [MeasurableSpace Ω] (μ : Measure Ω) (n : ℕ) (x : Ω → ℕ → ℝ × ℝ) (ν : Measure (ℝ × ℝ)) : Prop where
  sphere : ∀ ω, OnSphere n (x ω)
  meas : ∀ i < n, Measurable fun ω => x ω i
  law : ∀ i < n, μ.map (fun ω => x ω i) = ν

/-- The positions of different sources of a catalog are independent. -/
def Indep {Ω : Type*} [MeasurableSpace Ω] (μ : Measure Ω) (n : ℕ) (x : Ω → ℕ → ℝ × ℝ) : Prop :=
  ∀ i < n, ∀ j < n, i ≠ j → IndepFun (fun ω => x ω i) (fun ω => x ω j) μ

/-- The positions of the sources of two catalogs are independent. -/
def IndepOf {Ω : Type*} [MeasurableSpace Ω] (μ : Measure Ω) (n n' : ℕ) (x x' : Ω → ℕ → ℝ × ℝ) : Prop :=
  ∀ i < n, ∀ j < n', IndepFun (fun ω => x ω i) (fun ω => x' ω j) μ

/-- The coefficients of the density `ν`. -/
noncomputable def density (H : Harm (ℝ × ℝ)) (ν : Measure (ℝ × ℝ)) (l m : ℕ) : ℂ := ∫ x, H.a 0 l m x ∂ν

/-- The spectrum of two densities. -/
noncomputable def power (H : Harm (ℝ × ℝ)) (ν ν' : Measure (ℝ × ℝ)) (l : ℕ) : ℝ := alm2cl (density H ν) (density H ν') l

/-- The spectrum of the difference of two densities `ν1 - ν1'` with the difference of two others. -/
noncomputable def contrast (H : Harm (ℝ × ℝ)) (ν1 ν1' ν2 ν2' : Measure (ℝ × ℝ)) (l : ℕ) : ℝ :=
  alm2cl (fun l m => density H ν1 l m - density H ν1' l m) (fun l m => density H ν2 l m - density H ν2' l m) l

/-- The coefficients of a density exist. -/
def HasCoefs (H : Harm (ℝ × ℝ)) (lmax : ℕ) (ν : Measure (ℝ × ℝ)) : Prop := ∀ l ≤ lmax, ∀ m ≤ l, Integrable (H.a 0 l m) ν

/-- Sum of the weights. -/
noncomputable def total (a : CatArgs) : ℝ := ∑ i ∈ range a.nsrc, a.weights i

/-- Sum of the squares of the weights. -/
noncomputable def squares (a : CatArgs) : ℝ := ∑ i ∈ range a.nsrc, a.weights i ^ 2

end NaMaster.ClusterSpec
