import Mathlib.Analysis.SpecialFunctions.Pow.Real

/-!
# Specification of the Wigner 3j symbols

Racah's formula, as in Messiah, Quantum Mechanics, appendix C, equation C.21.
-/

namespace NaMaster.WignerSpec

open Finset

/-- Factorial of an integer that is not negative. -/
def fact (n : ℤ) : ℕ := n.toNat.factorial

/-- `1/n!`, which is zero for negative `n`. -/
noncomputable def invFact (n : ℤ) : ℝ := if n < 0 then 0 else 1 / fact n

/-- The conditions under which the symbol is not zero by definition: the triangle inequality, `|mᵢ| ≤ lᵢ`, and
`m1 + m2 + m3 = 0`. -/
def Allowed (l1 l2 l3 : ℕ) (m1 m2 m3 : ℤ) : Prop :=
  l1 ≤ l2 + l3 ∧ l2 ≤ l1 + l3 ∧ l3 ≤ l1 + l2 ∧ |m1| ≤ l1 ∧ |m2| ≤ l2 ∧ |m3| ≤ l3 ∧ m1 + m2 + m3 = 0

instance (l1 l2 l3 : ℕ) (m1 m2 m3 : ℤ) : Decidable (Allowed l1 l2 l3 m1 m2 m3) := by
  unfold Allowed; infer_instance

/-- The Wigner 3j symbol with upper row `l1 l2 l3` and lower row `m1 m2 m3`. -/
noncomputable def wigner3j (l1 l2 l3 : ℕ) (m1 m2 m3 : ℤ) : ℝ :=
  if Allowed l1 l2 l3 m1 m2 m3 then
    (-1) ^ ((l1 : ℤ) - l2 - m3) *
    Real.sqrt ((fact (l1 + l2 - l3) * fact (l1 - l2 + l3) * fact (-l1 + l2 + l3) : ℕ) / (fact (l1 + l2 + l3 + 1) : ℝ)) *
    Real.sqrt ((fact (l1 + m1) * fact (l1 - m1) * fact (l2 + m2) * fact (l2 - m2) * fact (l3 + m3) *
      fact (l3 - m3) : ℕ) : ℝ) *
    ∑ t ∈ range (l1 + l2 - l3 + 1), (-1) ^ t * (invFact t * invFact (l3 - l2 + t + m1) * invFact (l3 - l1 + t - m2) *
      invFact (l1 + l2 - l3 - t) * invFact (l1 - t - m1) * invFact (l2 - t + m2))
  else 0

end NaMaster.WignerSpec
