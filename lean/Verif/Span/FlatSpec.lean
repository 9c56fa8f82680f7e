import Verif.Flat.BiasProps
import Verif.FlatAngle.Field

/-! # Templates of flat-sky fields that span the same maps -/

namespace NaMaster

open Finset

/-- In all pixels, each of the `n'` maps `U'` is a linear combination of the `n` maps `U`. -/
def InSpanFlat (fs : FlatInfo) (nm n n' : ℕ) (U U' : ℕ → FlatMaps) : Prop :=
  ∀ i < n', ∃ z : ℕ → ℝ, ∀ c < nm, ∀ p ∈ fs.modes, U' i c p = combineFlat n z U c p

/-- Both sets of maps have the same linear combinations. -/
def EqualSpanFlat (fs : FlatInfo) (nm n n' : ℕ) (U U' : ℕ → FlatMaps) : Prop := InSpanFlat fs nm n n' U U' ∧ InSpanFlat fs nm n' n U' U

/-- Two calls of the constructor that differ in the templates only, where the templates, multiplied by the mask, span the same maps (or there are
none in both). Numbers of templates may differ. For purified fields, which depend also on what templates are outside of the mask, the templates
themselves span the same maps, and those of the first call are linearly independent inside the mask. In both calls the tolerance removes nothing that
is not zero. -/
structure SameSpanFlat (a a' : FlatFieldArgs) : Prop where
  rest : a' = { a with templates := a'.templates }
  span : (a.templates = none ∧ a'.templates = none) ∨
    ∃ t t', a.templates = some t ∧ a'.templates = some t' ∧ a.SeparatedTempl t ∧ a'.SeparatedTempl t' ∧
      (((a.purifyE || a.purifyB) = false ∧ EqualSpanFlat a.fs t.ncomp t.ntemp t'.ntemp (fun i => a.masked (t.val i)) (fun i => a.masked (t'.val i))) ∨
        (EqualSpanFlat a.fs t.ncomp t.ntemp t'.ntemp t.val t'.val ∧ a.IndependentTempl t))

end NaMaster
