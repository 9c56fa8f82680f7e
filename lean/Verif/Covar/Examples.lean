import Verif.Covar.Props2
import Mathlib.Tactic.NormNum

/-! # Concrete cases for the theorems about Gaussian covariances -/

namespace NaMaster

open Finset CovSpec WspSpec

/-- A workspace with `n` spectra, the two bands of `exampleBins` and a coupling matrix with off-diagonal elements. -/
def exWsp (n : ℕ) : Wsp ℚ :=
  ⟨n, 6, 6, 6, false, 0, 0, fun _ => 1, fun _ => 1, some fun i j => if i = j then 2 else 0, exampleBins,
    fun i j => if i = j then 2 else 0⟩

def exObj (n : ℕ) : Obj ℚ := ⟨some (exWsp n), true⟩

/-- Coupling coefficients up to multipole 6, symmetric in the multipoles. -/
def exXi (u : ℚ) : CovXi ℚ :=
  ⟨fun l l' => u / (1 + l + l'), fun l l' => u / (2 + l + l'), fun l l' => u / (3 + l + l'), fun l l' => u / (4 + l + l')⟩

def exCw (spin0 : Bool) : CovWsp ℚ := ⟨6, spin0, exXi 1, exXi 2⟩

/-- Spectra of two spin-2 fields. -/
def exCl (rows : ℕ) : Arr2 ℚ := ⟨rows, 7, fun r l => l + (r / 2 + r % 2 : ℕ)⟩

def exCls : CovCls ℚ := ⟨exCl 4, exCl 4, exCl 4, exCl 4⟩

theorem exBounded (n : ℕ) : Bounded (exWsp n).bin (exWsp n).bin.ellMax := by
  simp [Bounded, exWsp, exampleBins]

theorem exNoRepeats (n : ℕ) : BinSpec.NoRepeats (exWsp n).bin := by
  simp [BinSpec.NoRepeats, exWsp, exampleBins]

theorem exConsistent (spin0 coupled : Bool) (h : spin0 = false) :
    Consistent (exCw spin0) 2 2 2 2 exCls (exObj 4) (exObj 4) (exWsp 4) (exWsp 4) coupled where
  wspA := by simp [exWsp, nmaps]
  wspB := by simp [exWsp, nmaps]
  rows := by simp [exCls, exCl, nmaps]
  length := ⟨7, by simp [exCw, exCls, exCl]⟩
  limit := by simp [exWsp, exampleBins, exCw]
  spins := by rw [h]; simp [exCw]
  matrices := by simp [exObj]
  small := by cases coupled <;> simp [covSize, exWsp, exCw, exampleBins, Bins.nBands]

theorem exSymmetric (u : ℚ) : Symmetric (exXi u) 6 := by
  intro l l' _ _
  simp only [exXi]
  refine ⟨?_, ?_, ?_, ?_⟩ <;> ring_nf

theorem exExchanged : Exchanged 2 2 2 2 exCls exCls := by
  have h : Transposed (nmaps 2) (nmaps 2) (exCl 4) (exCl 4) := by
    refine ⟨rfl, rfl, fun p hp q hq l _ => ?_⟩
    have hp : p < 2 := hp
    have hq : q < 2 := hq
    have e : (p + 2 * q) / 2 + (p + 2 * q) % 2 = (q + 2 * p) / 2 + (q + 2 * p) % 2 := by omega
    change (l : ℚ) + (((p + 2 * q) / 2 + (p + 2 * q) % 2 : ℕ) : ℚ) = l + (((q + 2 * p) / 2 + (q + 2 * p) % 2 : ℕ) : ℚ)
    rw [e]
  exact ⟨h, h, h, h⟩

theorem exInBand : InBand (exWsp 4).bin 4 := ⟨⟨4, 3 / 4, 5⟩, by simp [exWsp, exampleBins], rfl⟩

theorem exNotInBand : ¬ InBand (exWsp 4).bin 0 := by simp [InBand, exWsp, exampleBins]

theorem exRegular : Regular (exWsp 4).nBinned (exWsp 4).binned := by
  have : toMat (exWsp 4).nBinned (exWsp 4).binned = Matrix.diagonal fun _ => (2 : ℚ) := by
    ext i j
    simp [toMat, exWsp, Matrix.diagonal, Fin.ext_iff]
    rfl
  unfold Regular
  rw [this, Matrix.det_diagonal]
  simp

/-- C26, C28, C29: hypotheses of the theorems for two spin-2 fields and both kinds of covariances. -/
example (coupled : Bool) : ∃ (L : LinAlg ℚ) (jk : CovJunk ℚ) (C : Arr2 ℚ),
    gaussianCovariance L jk (some (exCw false)) 2 2 2 2 exCls (exObj 4) (some (exObj 4)) coupled = .ok C ∧
    Plain coupled (exWsp 4) (exWsp 4) ∧ Symmetric (exCw false).x1122 (exCw false).lmax ∧
    Symmetric (exCw false).x1221 (exCw false).lmax ∧ Exchanged 2 2 2 2 exCls exCls ∧
    Covered coupled (exWsp 4) (exWsp 4) 17 18 := by
  obtain ⟨C, hC⟩ := (C29_accepts_iff (L := exactLinAlg ℚ) (jk := ⟨fun _ => 0, fun _ => 0⟩) rfl rfl (exBounded 4) (exBounded 4)).2
    (exConsistent false coupled rfl)
  exact ⟨_, _, C, hC, fun _ => ⟨exNoRepeats 4, exNoRepeats 4⟩, exSymmetric 1, exSymmetric 2, exExchanged,
    fun _ => ⟨exInBand, exInBand⟩⟩

/-- C29: an inconsistent call. -/
example : ¬ Consistent (exCw true) 2 2 2 2 exCls (exObj 4) (exObj 4) (exWsp 4) (exWsp 4) true := fun h => by
  have := h.spins rfl
  omega

/-- C29: spectra combined linearly. -/
example : FieldComb 2 3 (⟨⟨4, 7, fun r l => 2 * (exCl 4).val r l + 3⟩, ⟨4, 7, fun r l => 2 * (exCl 4).val r l + 3⟩, exCl 4, exCl 4⟩ : CovCls ℚ)
    exCls ⟨⟨4, 7, fun _ _ => 1⟩, ⟨4, 7, fun _ _ => 1⟩, exCl 4, exCl 4⟩ := by
  refine .a1 ⟨rfl, rfl, rfl, rfl, fun _ _ => ?_⟩ ⟨rfl, rfl, rfl, rfl, fun _ _ => ?_⟩ ⟨rfl, rfl⟩ ⟨rfl, rfl⟩ <;> simp [exCls]

/-- C27: hypotheses. -/
example : ∃ (jk : CovJunk ℚ) (C D : Arr2 ℚ), (exactLinAlg ℚ).Correct ∧ Regular (exWsp 4).nBinned (exWsp 4).binned ∧
    BinSpec.NoRepeats (exWsp 4).bin ∧
    gaussianCovariance (exactLinAlg ℚ) jk (some (exCw false)) 2 2 2 2 exCls (exObj 4) (some (exObj 4)) true = .ok C ∧
    gaussianCovariance (exactLinAlg ℚ) jk (some (exCw false)) 2 2 2 2 exCls (exObj 4) (some (exObj 4)) false = .ok D := by
  obtain ⟨C, hC⟩ := (C29_accepts_iff (L := exactLinAlg ℚ) (jk := ⟨fun _ => 0, fun _ => 0⟩) rfl rfl (exBounded 4) (exBounded 4)).2
    (exConsistent false true rfl)
  obtain ⟨D, hD⟩ := (C29_accepts_iff (L := exactLinAlg ℚ) (jk := ⟨fun _ => 0, fun _ => 0⟩) rfl rfl (exBounded 4) (exBounded 4)).2
    (exConsistent false false rfl)
  exact ⟨_, C, D, exactLinAlg_correct, exRegular, exNoRepeats 4, hC, hD⟩

/-- C28: the monopole is in no band; the element for it can have any value. -/
example (v : ℚ) : ∃ (jk : CovJunk ℚ) (C : Arr2 ℚ),
    gaussianCovariance (exactLinAlg ℚ) jk (some (exCw false)) 2 2 2 2 exCls (exObj 4) (some (exObj 4)) true = .ok C ∧
    C.val 0 0 = v :=
  C28_uninitialised (la := 0) (lb := 0) (p := 0) (q := 0) rfl rfl (exBounded 4) (exBounded 4) (exConsistent false true rfl)
    (Nat.zero_le _) (Nat.zero_le _) (by simp [exWsp]) (by simp [exWsp]) (fun h => exNotInBand h.1) v

/-- C28: a scheme with all multipoles in a band. -/
example : ∀ l ≤ 2, InBand (⟨2, [[⟨0, 1, 1⟩], [⟨1, 1 / 2, 1⟩, ⟨2, 1 / 2, 1⟩]]⟩ : Bins ℚ) l := by
  intro l hl
  have : l = 0 ∨ l = 1 ∨ l = 2 := by omega
  rcases this with rfl | rfl | rfl <;> simp [InBand]

/-- C54: spectra without EB correlations. -/
example : Unmixed 2 (⟨4, 7, fun r l => if r = 0 then (l : ℚ) else if r = 3 then 1 else 0⟩ : Arr2 ℚ) := by
  intro r l h
  have h0 : r ≠ 0 := by omega
  have h3 : r ≠ 3 := by omega
  simp [h0, h3]

/-- C29 is not true of the code for negative spins: coefficients for spin 0 only are accepted for spins 2 and -2, because the
test is on the sum of the spins. -/
theorem C29_negative_spins_accepted (L : LinAlg ℚ) (jk : CovJunk ℚ) : ∃ C,
    gaussianCovariance L jk (some (exCw true)) 2 (-2) 2 (-2) exCls (exObj 4) (some (exObj 4)) false = .ok C :=
  (C29_accepts_iff rfl rfl (exBounded 4) (exBounded 4)).2
    { wspA := by simp [exWsp, nmaps]
      wspB := by simp [exWsp, nmaps]
      rows := by simp [exCls, exCl, nmaps]
      length := ⟨7, by simp [exCw, exCls, exCl]⟩
      limit := by simp [exWsp, exampleBins, exCw]
      spins := by simp
      matrices := by simp
      small := by simp [covSize, exWsp, exampleBins, Bins.nBands] }

/-- C29 is not true of the code for very large matrices: with 2^32 elements the output array is allocated too small. -/
theorem C29_large_crashes (L : LinAlg ℚ) (jk : CovJunk ℚ) (x : CovXi ℚ) :
    gaussianCovariance L jk (some ⟨65535, true, x, x⟩) 0 0 0 0
      (let c : Arr2 ℚ := ⟨1, 65536, fun _ _ => 1⟩; ⟨c, c, c, c⟩) (exObj 1) none true = .crash := by
  have h : argoutArray (1 * (65535 + 1) * (1 * (65535 + 1))) = .crash := by
    unfold argoutArray
    rw [if_neg (by norm_num), if_pos (by norm_num)]
  unfold gaussianCovariance
  simp only [Option.getD_none, exObj, exWsp, nmaps]
  norm_num [Obj.checkUnbinned, Outcome.bind]
  norm_num at h
  rw [h]

end NaMaster
