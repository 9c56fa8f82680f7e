import Verif.Covar.Model
import Verif.Bins.Spec
import Verif.Master.Spec

/-!
# Specification for Gaussian covariances

What a user has in mind: which inputs belong together, what exchanging the two power spectra means for the
inputs, and what rotations of the polarisation angle and reflections do to spectra.
-/

namespace NaMaster.CovSpec

open Finset

variable {K : Type*} [Field K]

/-- The multipole belongs to a band. -/
def InBand (B : Bins K) (l : ℕ) : Prop := ∃ e ∈ B.bands.flatten, e.ell = l

/-- `y` holds the spectra of a field with `m` maps with a field with `n` maps, `x` the same spectra with the fields in the
opposite order (component `p` of the first and `q` of the second field are in row `q + m*p`). -/
def Transposed (n m : ℕ) (x y : Arr2 K) : Prop :=
  y.rows = x.rows ∧ y.cols = x.cols ∧ ∀ p < n, ∀ q < m, ∀ l < x.cols, y.val (p + n * q) l = x.val (q + m * p) l

/-- `s'` are the input spectra after exchange of the pairs `(a1,a2)` and `(b1,b2)`. -/
structure Exchanged (a1 a2 b1 b2 : ℤ) (s s' : CovCls K) : Prop where
  ac : Transposed (nmaps a1) (nmaps b1) s.ac s'.ac
  ad : Transposed (nmaps a2) (nmaps b1) s.bc s'.ad
  bc : Transposed (nmaps a1) (nmaps b2) s.ad s'.bc
  bd : Transposed (nmaps a2) (nmaps b2) s.bd s'.bd

/-- Coefficients symmetric in the two multipoles. -/
def Symmetric (x : CovXi K) (lmax : ℕ) : Prop := ∀ l l', l ≤ lmax → l' ≤ lmax →
  x.xi00 l l' = x.xi00 l' l ∧ x.xi02 l l' = x.xi02 l' l ∧ x.xi22p l l' = x.xi22p l' l ∧ x.xi22m l l' = x.xi22m l' l

/-- Elements in question: all elements of a decoupled covariance; for a coupled one those with both multipoles in a
band. -/
def Covered (coupled : Bool) (a b : Wsp K) (i j : ℕ) : Prop :=
  coupled = true → InBand a.bin (i / a.ncls) ∧ InBand b.bin (j / b.ncls)

/-- No multipole is used twice by the bandpowers (needed only for coupled covariances, where the loops would write an
element repeatedly). -/
def Plain (coupled : Bool) (a b : Wsp K) : Prop :=
  coupled = true → BinSpec.NoRepeats a.bin ∧ BinSpec.NoRepeats b.bin

/-- Number of elements of the covariance matrix. -/
def covSize (cw : CovWsp K) (a b : Wsp K) (coupled : Bool) : ℕ :=
  if coupled then a.ncls * (cw.lmax + 1) * (b.ncls * (cw.lmax + 1)) else a.ncls * a.bin.nBands * (b.ncls * b.bin.nBands)

/-- Inputs that belong together: numbers of spectra as required by the spins, four spectra of equal length reaching the band
limit of the coefficients, bandpowers within that limit, no spin-0 coefficients for other spins, and unbinned matrices present
for coupled covariances; and a covariance matrix with less than 2^31 elements. -/
structure Consistent (cw : CovWsp K) (a1 a2 b1 b2 : ℤ) (s : CovCls K) (oa ob : Obj K) (a b : Wsp K) (coupled : Bool) :
    Prop where
  wspA : a.ncls = nmaps a1 * nmaps a2
  wspB : b.ncls = nmaps b1 * nmaps b2
  rows : s.ac.rows = nmaps a1 * nmaps b1 ∧ s.ad.rows = nmaps a1 * nmaps b2 ∧ s.bc.rows = nmaps a2 * nmaps b1 ∧
    s.bd.rows = nmaps a2 * nmaps b2
  length : ∃ n, cw.lmax + 1 ≤ n ∧ s.ac.cols = n ∧ s.ad.cols = n ∧ s.bc.cols = n ∧ s.bd.cols = n
  limit : a.bin.ellMax ≤ cw.lmax ∧ b.bin.ellMax ≤ cw.lmax
  spins : cw.spin0Only = true → a1 + a2 + b1 + b2 = 0
  matrices : coupled = true → oa.hasUnbinned = true ∧ ob.hasUnbinned = true
  small : covSize cw a b coupled < 2 ^ 31

/-- `r = x*p + y*q` for arrays of the same shape. -/
def IsComb (x y : K) (r p q : Arr2 K) : Prop :=
  p.rows = r.rows ∧ p.cols = r.cols ∧ q.rows = r.rows ∧ q.cols = r.cols ∧
    ∀ i j, r.val i j = x * p.val i j + y * q.val i j

/-- `s = x*p + y*q` in the spectra of one of the four fields. -/
inductive FieldComb (x y : K) (s p q : CovCls K) : Prop where
  | a1 (h1 : IsComb x y s.ac p.ac q.ac) (h2 : IsComb x y s.ad p.ad q.ad) (h3 : s.bc = p.bc ∧ s.bc = q.bc) (h4 : s.bd = p.bd ∧ s.bd = q.bd)
  | a2 (h1 : IsComb x y s.bc p.bc q.bc) (h2 : IsComb x y s.bd p.bd q.bd) (h3 : s.ac = p.ac ∧ s.ac = q.ac) (h4 : s.ad = p.ad ∧ s.ad = q.ad)
  | b1 (h1 : IsComb x y s.ac p.ac q.ac) (h2 : IsComb x y s.bc p.bc q.bc) (h3 : s.ad = p.ad ∧ s.ad = q.ad) (h4 : s.bd = p.bd ∧ s.bd = q.bd)
  | b2 (h1 : IsComb x y s.ad p.ad q.ad) (h2 : IsComb x y s.bd p.bd q.bd) (h3 : s.ac = p.ac ∧ s.ac = q.ac) (h4 : s.bc = p.bc ∧ s.bc = q.bc)

/-- Rotation of the pair (E,B) of a field, a factor for a scalar field: matrix element. With `c = cos`, `s = sin` of twice the
angle this is a rotation of the polarisation angle. -/
def rotMat (n : ℕ) (c s : K) (p q : ℕ) : K :=
  if n = 1 then 1
  else if p = q then c else if p = 0 then s else -s

/-- Spectra of fields with `n` and `m` maps after a rotation of the first field. -/
def rotFirst (n m : ℕ) (c s : K) (x : Arr2 K) : Arr2 K :=
  ⟨x.rows, x.cols, fun r l => ∑ p ∈ range n, rotMat n c s (r / m) p * x.val (r % m + m * p) l⟩

/-- Spectra after a rotation of the second field. -/
def rotSecond (m : ℕ) (c s : K) (x : Arr2 K) : Arr2 K :=
  ⟨x.rows, x.cols, fun r l => ∑ q ∈ range m, rotMat m c s (r % m) q * x.val (q + m * (r / m)) l⟩

/-- Sign of component `p` under a reflection: B changes sign. -/
def paritySign (p : ℕ) : K := if p = 0 then 1 else -1

/-- Spectra after a reflection of both fields; `m` is the number of maps of the second. -/
def reflect (m : ℕ) (x : Arr2 K) : Arr2 K :=
  ⟨x.rows, x.cols, fun r l => paritySign (r / m) * paritySign (r % m) * x.val r l⟩

/-- Spectra without correlations of B with E or with scalar fields. -/
def Unmixed (m : ℕ) (x : Arr2 K) : Prop :=
  ∀ r l, (r / m = 0 ∧ r % m ≠ 0) ∨ (r / m ≠ 0 ∧ r % m = 0) → x.val r l = 0

end NaMaster.CovSpec
