import Verif.Sky.TemplLemmas

/-! # Templates that span the same maps -/

namespace NaMaster

open Finset

/-- In all pixels, each of the `n'` maps `U'` is a linear combination of the `n` maps `U`. -/
def InSpan (nm np n n' : ℕ) (U U' : ℕ → MapStack) : Prop :=
  ∀ i < n', ∃ z : ℕ → ℝ, ∀ c < nm, ∀ p < np, U' i c p = combine n z U c p

/-- Both sets of maps have the same linear combinations. -/
def EqualSpan (nm np n n' : ℕ) (U U' : ℕ → MapStack) : Prop := InSpan nm np n n' U U' ∧ InSpan nm np n' n U' U

/-- No linear combination of the maps vanishes in all pixels, except the trivial one. -/
def Independent (nm np n : ℕ) (T : ℕ → MapStack) : Prop :=
  ∀ z : ℕ → ℝ, (∀ c < nm, ∀ p < np, combine n z T c p = 0) → ∀ i < n, z i = 0

/-- Two calls of the constructor that differ in the templates only, where the templates, multiplied by the mask, span the same maps (or there are
none in both). Numbers of templates may differ. For purified fields, which depend also on what templates are outside of the mask, the templates
themselves span the same maps, and those of the first call are linearly independent inside the mask. In both calls the tolerance removes nothing that
is not zero. -/
structure SameSpan (P : Pix) (nc : ℕ) (a a' : FieldArgs) : Prop where
  rest : a' = { a with templates := a'.templates }
  span : (a.templates = none ∧ a'.templates = none) ∨
    (Separated P nc a.nTempl (a.maskedTempl nc P.npix) a.tol ∧ Separated P nc a'.nTempl (a'.maskedTempl nc P.npix) a.tol ∧
      (((a.purifyE || a.purifyB) = false ∧ EqualSpan nc P.npix a.nTempl a'.nTempl (a.maskedTempl nc P.npix) (a'.maskedTempl nc P.npix)) ∨
        (EqualSpan nc P.npix a.nTempl a'.nTempl (a.rawTempl nc P.npix) (a'.rawTempl nc P.npix) ∧
          Independent nc P.npix a.nTempl (a.maskedTempl nc P.npix))))

/-- Cutting off the padding is linear. -/
def Sht.UnpadLinear (S : Sht) : Prop := ∃ Z : MapStack →ₗ[ℝ] MapStack, S.unpad = Z

end NaMaster
