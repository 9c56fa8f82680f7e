import Verif.Bins.Model

/-!
# Specification of curved-sky bandpowers

Written without reference to the loops of the model: what a user expects of a
bandpower scheme built from arrays.
-/

namespace NaMaster.BinSpec

variable {K : Type*} [Field K] [LinearOrder K]

/-- The input entries that belong to band `b`: assigned to it and not above `lmax`. -/
def members (es : List (Entry K)) (lmax b : ℕ) : List (Entry K) :=
  es.filter (fun e => e.ell ≤ lmax ∧ e.bpw = (b : ℤ))

/-- Total input weight of band `b`. -/
def total (es : List (Entry K)) (lmax b : ℕ) : K := ((members es lmax b).map (·.w)).sum

/-- Band `b` lies between 0 and the largest index in use. -/
def Used (es : List (Entry K)) (lmax b : ℕ) : Prop :=
  b = 0 ∨ ∃ e ∈ es, e.ell ≤ lmax ∧ (b : ℤ) ≤ e.bpw

/-- Prefactors that are not positive count as 1. -/
def cleanF (f : K) : K := if 0 < f then f else 1

/-- The expected content of band `b`. -/
def bandOf (es : List (Entry K)) (lmax b : ℕ) : List (BandEntry K) :=
  (members es lmax b).map (fun e => ⟨e.ell, e.w / total es lmax b, cleanF e.f⟩)

/-- No multipole occurs twice in the scheme, neither within a band nor in two bands. -/
def NoRepeats {K : Type*} (B : Bins K) : Prop := (B.bands.flatten.map (·.ell)).Nodup

end NaMaster.BinSpec

namespace NaMaster.BinSpec

variable {K : Type*} [Field K] [LinearOrder K]

/-- Constant-width bands from multipole 2: band `b` holds the `nlb` multipoles from `2+b*nlb`, all with
weight `1/nlb`; there are `(lmax-1)/nlb` of them. `F` is the multipole prefactor. -/
def linear (lmax nlb : ℕ) (F : ℕ → K) : Bins K :=
  ⟨lmax, (List.range ((lmax - 1) / nlb)).map (fun b => (List.range' (2 + b * nlb) nlb).map
    (fun l => ⟨l, 1 / (nlb : K), F l⟩))⟩

/-- The multipole prefactor requested by the arguments `is_Dell` and `f_ell`. -/
def prefactor (twoPi : K) (isDell : Bool) (f_ell : Option (List K)) (l : ℕ) : K :=
  match f_ell with
  | some f => cleanF (f.getD l 1)
  | none => if isDell then (l : K) * ((l : K) + 1) / twoPi else 1

/-- Number of multipoles in the bands before band `b`. -/
def offset (edges : List (ℕ × ℕ)) (b : ℕ) : ℕ := ((edges.take b).map (fun p => p.2 - p.1)).sum

/-- Bands given by edges `[li,le)` and the prefactors `f` listed band after band. -/
def fromEdges (edges : List (ℕ × ℕ)) (lmax : ℕ) (f : List K) : Bins K :=
  ⟨lmax, edges.zipIdx.map (fun p =>
    (List.range' p.1.1 (p.1.2 - p.1.1)).zipWith
      (fun l x => ⟨l, 1 / ((p.1.2 - p.1.1 : ℕ) : K), cleanF x⟩) (f.drop (offset edges p.2)))⟩

end NaMaster.BinSpec
