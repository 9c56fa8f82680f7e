import Verif.Master.Object

/-!
# Specification for workspaces

What a user has in mind: a workspace is determined by its configuration and by the coupling matrix, the
two beams and the bandpowers given last.
-/

namespace NaMaster.WspSpec

variable {K : Type*} [Field K]

/-- Everything about a workspace that never changes. -/
structure Config (K : Type*) where
  ncls : ℕ
  lmax : ℕ
  lmaxFields : ℕ
  lmaxMask : ℕ
  isTeb : Bool
  normType : ℤ
  w2 : K
  pcl : ℕ → K

/-- The inputs that can be replaced. -/
structure Inputs (K : Type*) where
  beam1 : ℕ → K
  beam2 : ℕ → K
  matrix : ℕ → ℕ → K
  bins : Bins K

/-- The workspace built from scratch. -/
def build (c : Config K) (x : Inputs K) : Wsp K :=
  buildWsp c.ncls c.lmaxFields c.lmaxMask c.isTeb c.normType c.w2 x.beam1 x.beam2 c.pcl x.matrix x.bins

/-- Update calls. -/
inductive Update (K : Type*) where
  | beams (b1 b2 : Option (List K))
  | bins (B : Option (Bins K))
  | matrix (m : Arr2 K)

/-- The method call. -/
def Update.toOp : Update K → Op K
  | .beams b1 b2 => .updateBeams b1 b2
  | .bins B => .updateBins B
  | .matrix m => .updateMatrix m

/-- The kind of input an update replaces. -/
def Update.kind : Update K → ℕ
  | .beams _ _ => 0
  | .bins _ => 1
  | .matrix _ => 2

/-- An update is acceptable: beams reach the band limit of the fields, bandpowers have the same largest
multipole, and the matrix has the right shape. -/
def Acceptable (c : Config K) : Update K → Prop
  | .beams (some b1) (some b2) => c.lmaxFields < b1.length ∧ c.lmaxFields < b2.length
  | .beams _ _ => False
  | .bins (some B) => B.ellMax = c.lmax
  | .bins none => False
  | .matrix m => m.rows = c.ncls * (c.lmax + 1) ∧ m.cols = c.ncls * (c.lmax + 1)

/-- The inputs with the ones given by the update replaced. -/
def Inputs.replace (x : Inputs K) : Update K → Inputs K
  | .beams (some b1) (some b2) => { x with beam1 := fun l => b1.getD l 0, beam2 := fun l => b2.getD l 0 }
  | .bins (some B) => { x with bins := B }
  | .matrix m => { x with matrix := m.val }
  | _ => x

open Classical in
/-- The inputs in force after a sequence of update calls: unacceptable calls are ignored. -/
noncomputable def Inputs.latest (c : Config K) (x : Inputs K) (us : List (Update K)) : Inputs K :=
  us.foldl (fun x u => if Acceptable c u then x.replace u else x) x

/-- The multipoles of the bands do not exceed `lmax`. -/
def Bounded (B : Bins K) (lmax : ℕ) : Prop := ∀ b ∈ B.bands, ∀ e ∈ b, e.ell ≤ lmax

/-- Two objects cannot be told apart: every sequence of calls gets the same replies. -/
def Same (L : LinAlg K) (o o' : Obj K) : Prop := ∀ ops, Obj.replies L o ops = Obj.replies L o' ops

end NaMaster.WspSpec
