import Verif.Coupling.Model

/-!
# Specification of the coupling coefficients
-/

namespace NaMaster.CouplingSpec

open Finset

/-- Triangle condition. -/
def Triangle (l1 l2 l3 : ℕ) : Prop := l1 ≤ l2 + l3 ∧ l2 ≤ l1 + l3 ∧ l3 ≤ l1 + l2

instance (l1 l2 l3 : ℕ) : Decidable (Triangle l1 l2 l3) := by unfold Triangle; infer_instance

/-- The Wigner 3j symbol with zero lower row, by its closed form. -/
noncomputable def zero3j (l1 l2 l3 : ℕ) : ℝ :=
  if Triangle l1 l2 l3 ∧ Even (l1 + l2 + l3) then
    let g := (l1 + l2 + l3) / 2
    (-1) ^ g * Real.sqrt (((l2 + l3 - l1).factorial * (l1 + l3 - l2).factorial * (l1 + l2 - l3).factorial : ℕ) /
      ((l1 + l2 + l3 + 1).factorial : ℝ)) *
      ((g.factorial : ℝ) / ((g - l1).factorial * (g - l2).factorial * (g - l3).factorial : ℕ))
  else 0

/-- The symbol with lower row `0, s, -s`, zero outside the triangle and below the spin. -/
noncomputable def spin3j (W : Wigner) (s l1 l2 l3 : ℕ) : ℝ :=
  if s = 0 then zero3j l1 l2 l3
  else if Triangle l1 l2 l3 ∧ s ≤ l2 ∧ s ≤ l3 then W.w l1 l2 l3 s (-s) else 0

/-- Symmetries of the Wigner 3j symbols used below: exchange of two columns and reversal of the lower row
both give the sign `(-1)^(l1+l2+l3)`. -/
structure Symmetric (W : Wigner) : Prop where
  exchange : ∀ l1 l2 l3 m2 m3, W.w l1 l3 l2 m3 m2 = (-1) ^ (l1 + l2 + l3) * W.w l1 l2 l3 m2 m3
  reversal : ∀ l1 l2 l3 m2 m3, W.w l1 l2 l3 (-m2) (-m3) = (-1) ^ (l1 + l2 + l3) * W.w l1 l2 l3 m2 m3

/-- The symbols with zero lower row computed by both routines agree. -/
def ZeroRow (W : Wigner) : Prop := ∀ l1 l2 l3, Triangle l1 l2 l3 → W.w l1 l2 l3 0 0 = zero3j l1 l2 l3

/-- Value of the symbols with `l1 = 0`. -/
def MonopoleValue (W : Wigner) : Prop :=
  ∀ l s : ℕ, s ≤ l → W.w 0 l l s (-s) = (-1) ^ (l + s) / Real.sqrt (2 * l + 1)

/-- The textbook sum: over mask multipoles with the selected parity of `l1+l2+l3`. -/
noncomputable def coupling (W : Wigner) (s1 s2 lmaxMask : ℕ) (pcl : ℕ → ℝ) (sel : ℕ → Prop) [DecidablePred sel]
    (l2 l3 : ℕ) : ℝ :=
  ∑ l1 ∈ range (lmaxMask + 1), if sel (l1 + l2 + l3) then
    (2 * l1 + 1) / (4 * Real.pi) * pcl l1 * spin3j W s1 l1 l2 l3 * spin3j W s2 l1 l2 l3 else 0

/-- Coupling matrix of two unpurified fields: multipole and component of row (`l2`, `a`) and column (`l3`,
`b`). Components are `0` for two scalars, `0E,0B` (or `E0,B0`), and `EE,EB,BE,BB`. -/
noncomputable def matrix (W : Wigner) (s1 s2 lmaxMask : ℕ) (pcl : ℕ → ℝ) (l2 a l3 b : ℕ) : ℝ :=
  (-1) ^ (s1 + s2) * (2 * l3 + 1) *
    (if s1 = 0 ∨ s2 = 0 then (if a = b then coupling W s1 s2 lmaxMask pcl (fun _ => True) l2 l3 else 0)
     else if a = b then coupling W s1 s2 lmaxMask pcl Even l2 l3
     else if (a, b) = (0, 3) ∨ (a, b) = (3, 0) then coupling W s1 s2 lmaxMask pcl Odd l2 l3
     else if (a, b) = (1, 2) ∨ (a, b) = (2, 1) then -coupling W s1 s2 lmaxMask pcl Odd l2 l3
     else 0)

/-- Number of components. -/
def ncls (s1 s2 : ℕ) : ℕ := (if s1 = 0 then 1 else 2) * (if s2 = 0 then 1 else 2)

end NaMaster.CouplingSpec
