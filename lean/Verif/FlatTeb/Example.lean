import Verif.FlatTeb.Props
import Verif.FlatUnits.Example

/-! # Cases for C100 -/

namespace NaMaster

open Real Finset FlatFieldExample FlatPureExample

namespace FlatTebExample

/-- A scalar field with the mask of `fG`. -/
noncomputable def fT : FlatField := ⟨fsG, 0, maskE, fun _ => 1, 0, 0⟩

/-- A polarised field with purified B modes. -/
noncomputable abbrev fP : FlatField := fG false true

/-- Two fields on the map of the example with its mask that do not mix a mode with itself. -/
structure Simple (f1 f2 : FlatField) : Prop where
  fs1 : f1.fs = fsG
  fs2 : f2.fs = fsG
  mask1 : f1.mask = maskE
  mask2 : f2.mask = maskE
  beam1 : f1.beam = fun _ => 1
  beam2 : f2.beam = fun _ => 1
  flags1 : f1.FlagsOk
  flags2 : f2.FlagsOk
  mix1 : ∀ k : ℕ × ℕ, fsG.kmod k.1 k.2 ≠ 0 → ∀ X < nmapsOf f1.spin, ∀ X' < nmapsOf f1.spin, f1.mix k k X X' = if X = X' then 1 else 0
  mix2 : ∀ k : ℕ × ℕ, fsG.kmod k.1 k.2 ≠ 0 → ∀ X < nmapsOf f2.spin, ∀ X' < nmapsOf f2.spin, f2.mix k k X X' = if X = X' then 1 else 0

variable {f1 f2 : FlatField}

theorem Simple.reflect (h : Simple f1 f2) : ReflectionSymmetric f1 f2 := by
  have := reflectG false true false true
  unfold ReflectionSymmetric at this ⊢
  rw [h.fs1, h.mask1, h.mask2]
  exact this

theorem Simple.couple (h : Simple f1 f2) : ∃ d : ℝ, 0 < d ∧ ∀ X < nmapsOf f1.spin, ∀ Y < nmapsOf f2.spin, ∀ X' < nmapsOf f1.spin, ∀ Y' < nmapsOf f2.spin,
    trueCouplingPure f1 f2 binsY defaultCuts X Y 0 X' Y' 0 = if X = X' ∧ Y = Y' then d else 0 := by
  have hpi := Real.pi_pos
  refine ⟨4 * π * π / (5 * 5 * 3 * 3) / 2 * (2 * (2 ^ 2 * (15 / (2 * π)) ^ 2)), by positivity, ?_⟩
  intro X hX Y hY X' hX' Y' hY'
  unfold trueCouplingPure
  rw [h.mask1, h.mask2, h.fs1, modesBandY 0 rfl, modesAllY, h.beam1, h.beam2, Finset.sum_pair (by simp), Finset.sum_pair (by simp), Finset.sum_pair (by simp),
    Finset.card_pair (by simp)]
  have p1 : fsG.sub (0, 1) (0, 1) = (0, 0) := by simp [FlatInfo.sub, subIdx, fsG]
  have p2 : fsG.sub (0, 2) (0, 2) = (0, 0) := by simp [FlatInfo.sub, subIdx, fsG]
  have p3 : fsG.sub (0, 1) (0, 2) = (0, 2) := by simp [FlatInfo.sub, subIdx, fsG]
  have p4 : fsG.sub (0, 2) (0, 1) = (0, 1) := by simp [FlatInfo.sub, subIdx, fsG]
  rw [p1, p2, p3, p4, powerG (by simp [memG]), powerG (by simp [memG]), powerG (by simp [memG])]
  have q1 : fsG.kmod ((0, 1) : ℕ × ℕ).1 ((0, 1) : ℕ × ℕ).2 ≠ 0 := by rw [kmodY (Or.inl rfl)]; positivity
  have q2 : fsG.kmod ((0, 2) : ℕ × ℕ).1 ((0, 2) : ℕ × ℕ).2 ≠ 0 := by rw [kmodY (Or.inr rfl)]; positivity
  rw [h.mix1 _ q1 _ hX _ hX', h.mix2 _ q1 _ hY _ hY', h.mix1 _ q2 _ hX _ hX', h.mix2 _ q2 _ hY _ hY']
  have f1 : fsG.lx = 5 := rfl
  have f2 : fsG.ly = 3 := rfl
  rw [f1, f2]
  by_cases h1 : X = X' <;> by_cases h2 : Y = Y' <;> simp [h1, h2]
  ring

theorem Simple.regular (h : Simple f1 f2) : ∃ W, couplingFlat f1 f2 binsY defaultCuts false = .ok W ∧ Regular (W.ncls * W.bin.nBands) W.gslMatrix := by
  obtain ⟨W, hW, hm⟩ := C80_matrix_partial f1 f2 (h.fs1.trans h.fs2.symm) h.flags1 h.flags2 binsY gaplessY (by simp [binsY])
    defaultCuts (by rw [h.fs1]; simp [fsG]) (symmetric_default _) (Or.inr (by rw [h.fs1]; exact nyquistG _)) (Or.inr fun ib hh => by
      have := hh.2.1
      norm_num [binsY] at this)
  refine ⟨W, hW, ?_⟩
  obtain ⟨-, -, h2, h3⟩ := couplingFlat_fits hW
  obtain ⟨d, hd, hc⟩ := h.couple
  have hn2 : 0 < nmapsOf f2.spin := by unfold nmapsOf; split_ifs <;> norm_num
  have hN : W.ncls * W.bin.nBands = nmapsOf f1.spin * nmapsOf f2.spin := by rw [h3, h2]; exact mul_one _
  rw [hN]
  set n2 := nmapsOf f2.spin
  have hmat : toMat (nmapsOf f1.spin * n2) W.gslMatrix = d • (1 : Matrix (Fin _) (Fin _) ℝ) := by
    ext r s
    have hr := r.isLt
    have hs := s.isLt
    have dr : (r : ℕ) / n2 < nmapsOf f1.spin := Nat.div_lt_of_lt_mul (lt_of_lt_of_eq hr (mul_comm _ _))
    have ds : (s : ℕ) / n2 < nmapsOf f1.spin := Nat.div_lt_of_lt_mul (lt_of_lt_of_eq hs (mul_comm _ _))
    have mr : (r : ℕ) % n2 < n2 := Nat.mod_lt _ hn2
    have ms : (s : ℕ) % n2 < n2 := Nat.mod_lt _ hn2
    have := hm (r / n2) dr (r % n2) mr (s / n2) ds (s % n2) ms (Or.inr h.reflect) 0 (by simp [binsY]) 0 (by simp [binsY])
    rw [hc _ dr _ mr _ ds _ ms] at this
    unfold WspFlat.coupling at this
    rw [Nat.div_add_mod, Nat.div_add_mod] at this
    simp only [toMat, WspFlat.gslMatrix, h3]
    rw [Nat.mod_eq_of_lt hr, Nat.mod_eq_of_lt hs, Nat.div_eq_of_lt hr, Nat.div_eq_of_lt hs]
    rw [this, Matrix.smul_apply, Matrix.one_apply]
    have : ((r : ℕ) / n2 = s / n2 ∧ (r : ℕ) % n2 = s % n2) ↔ r = s := by
      rw [Fin.ext_iff]
      constructor
      · rintro ⟨h1, h2⟩
        rw [← Nat.div_add_mod (r : ℕ) n2, ← Nat.div_add_mod (s : ℕ) n2, h1, h2]
      · intro e; rw [e]; exact ⟨rfl, rfl⟩
    simp [this]
  unfold Regular
  rw [hmat, Matrix.det_smul, Matrix.det_one, mul_one, isUnit_iff_ne_zero]
  positivity

theorem mixT (k : ℕ × ℕ) (X : ℕ) (hX : X < nmapsOf fT.spin) (X' : ℕ) (hX' : X' < nmapsOf fT.spin) : fT.mix k k X X' = if X = X' then 1 else 0 := by
  simp only [nmapsOf, fT, if_true] at hX hX'
  obtain rfl : X = 0 := by omega
  obtain rfl : X' = 0 := by omega
  simp [FlatField.mix, FlatField.PureComp, fT, rotEB]

theorem mixP (k : ℕ × ℕ) (hk : fsG.kmod k.1 k.2 ≠ 0) (X : ℕ) (hX : X < nmapsOf fP.spin) (X' : ℕ) (hX' : X' < nmapsOf fP.spin) :
    fP.mix k k X X' = if X = X' then 1 else 0 := by
  simp only [nmapsOf, fG] at hX hX'
  exact mix_self hk _ _ (by simpa using hX) (by simpa using hX')

theorem flagsT : fT.FlagsOk := ⟨by simp [fT], by simp [fT], fun _ => ⟨rfl, rfl⟩⟩

theorem simpleTT : Simple fT fT := ⟨rfl, rfl, rfl, rfl, rfl, rfl, flagsT, flagsT, fun k _ => mixT k, fun k _ => mixT k⟩
theorem simpleTP : Simple fT fP := ⟨rfl, rfl, rfl, rfl, rfl, rfl, flagsT, flagsG _ _, fun k _ => mixT k, mixP⟩
theorem simplePP : Simple fP fP := ⟨rfl, rfl, rfl, rfl, rfl, rfl, flagsG _ _, flagsG _ _, mixP, mixP⟩

/-- An array of one band. -/
noncomputable def row (n : ℕ) (v : ℝ) : Arr2 ℝ := ⟨n, 1, fun _ _ => v⟩

/-- Temperature, and polarisation with purified B modes, with the same mask: the joint workspace returns the seven separate bandpowers. -/
example : ∃ w7 w1 w2 w4 D D1 D2 D4, couplingFlat fT fP binsY defaultCuts true = .ok w7 ∧ couplingFlat fT fT binsY defaultCuts false = .ok w1 ∧
    couplingFlat fT fP binsY defaultCuts false = .ok w2 ∧ couplingFlat fP fP binsY defaultCuts false = .ok w4 ∧
    decoupleCellFlat (exactLinAlg ℝ) (some w7) (stackTeb (row 1 3) (row 2 4) (row 4 5)) none none = .ok D ∧
    decoupleCellFlat (exactLinAlg ℝ) (some w1) (row 1 3) none none = .ok D1 ∧ decoupleCellFlat (exactLinAlg ℝ) (some w2) (row 2 4) none none = .ok D2 ∧
    decoupleCellFlat (exactLinAlg ℝ) (some w4) (row 4 5) none none = .ok D4 ∧ SameArray D (stackTeb D1 D2 D4) := by
  obtain ⟨w1, h1, r1⟩ := simpleTT.regular
  obtain ⟨w2, h2, r2⟩ := simpleTP.regular
  obtain ⟨w4, h4, r4⟩ := simplePP.regular
  obtain ⟨-, -, b1, n1⟩ := couplingFlat_fits h1
  obtain ⟨-, -, b2, n2⟩ := couplingFlat_fits h2
  obtain ⟨-, -, b4, n4⟩ := couplingFlat_fits h4
  obtain ⟨D1, d1⟩ := decouple_flat_ok (exactLinAlg ℝ) w1 (P := row 1 3) n1.symm (by rw [b1]; rfl)
  obtain ⟨D2, d2⟩ := decouple_flat_ok (exactLinAlg ℝ) w2 (P := row 2 4) n2.symm (by rw [b2]; rfl)
  obtain ⟨D4, d4⟩ := decouple_flat_ok (exactLinAlg ℝ) w4 (P := row 4 5) n4.symm (by rw [b4]; rfl)
  obtain ⟨w7, D, h7, hD, h⟩ := C100_joint_partial (exactLinAlg ℝ) exactLinAlg_correct (fT := fT) (fP := fP)
    ⟨rfl, rfl, by simp [fG], ⟨rfl, rfl⟩, fun p => (one_mul _).symm, fun l => (one_mul _).symm⟩ h1 h2 h4 r1 r2 r4 d1 d2 d4
  exact ⟨w7, w1, w2, w4, D, D1, D2, D4, h7, h1, h2, h4, hD, d1, d2, d4, h⟩

/-- With twice the mask for temperature, its spectrum comes out twice as large, and those of polarisation half as large. -/
example : ∃ w7 w1 w2 w4 D D1 D2 D4, couplingFlat (fT.rescale 2) fP binsY defaultCuts true = .ok w7 ∧
    couplingFlat (fT.rescale 2) (fT.rescale 2) binsY defaultCuts false = .ok w1 ∧
    couplingFlat (fT.rescale 2) fP binsY defaultCuts false = .ok w2 ∧ couplingFlat fP fP binsY defaultCuts false = .ok w4 ∧
    decoupleCellFlat (exactLinAlg ℝ) (some w7) (stackTeb (row 1 3) (row 2 4) (row 4 5)) none none = .ok D ∧
    decoupleCellFlat (exactLinAlg ℝ) (some w1) (row 1 3) none none = .ok D1 ∧ decoupleCellFlat (exactLinAlg ℝ) (some w2) (row 2 4) none none = .ok D2 ∧
    decoupleCellFlat (exactLinAlg ℝ) (some w4) (row 4 5) none none = .ok D4 ∧
    SameArray D (stackTeb (D1.scale 2) D2 (D4.scale 2⁻¹)) := by
  obtain ⟨v1, g1, s1⟩ := simpleTT.regular
  obtain ⟨v2, g2, s2⟩ := simpleTP.regular
  obtain ⟨w4, h4, r4⟩ := simplePP.regular
  have h1 : couplingFlat (fT.rescale 2) (fT.rescale 2) binsY defaultCuts false = .ok (v1.rescale (2 * 2)) := by rw [coupling_scale, g1]; rfl
  have h2 : couplingFlat (fT.rescale 2) (fP.rescale 1) binsY defaultCuts false = .ok (v2.rescale (2 * 1)) := by rw [coupling_scale, g2]; rfl
  rw [show fP.rescale 1 = fP from by unfold FlatField.rescale; simp] at h2
  have r1 : Regular ((v1.rescale (2 * 2)).ncls * (v1.rescale (2 * 2)).bin.nBands) (v1.rescale (2 * 2)).gslMatrix := regular_scale s1 (by norm_num)
  have r2 : Regular ((v2.rescale (2 * 1)).ncls * (v2.rescale (2 * 1)).bin.nBands) (v2.rescale (2 * 1)).gslMatrix := regular_scale s2 (by norm_num)
  generalize v1.rescale (2 * 2) = w1 at h1 r1
  generalize v2.rescale (2 * 1) = w2 at h2 r2
  obtain ⟨-, -, b1, n1⟩ := couplingFlat_fits h1
  obtain ⟨-, -, b2, n2⟩ := couplingFlat_fits h2
  obtain ⟨-, -, b4, n4⟩ := couplingFlat_fits h4
  obtain ⟨D1, d1⟩ := decouple_flat_ok (exactLinAlg ℝ) w1 (P := row 1 3) n1.symm (by rw [b1]; rfl)
  obtain ⟨D2, d2⟩ := decouple_flat_ok (exactLinAlg ℝ) w2 (P := row 2 4) n2.symm (by rw [b2]; rfl)
  obtain ⟨D4, d4⟩ := decouple_flat_ok (exactLinAlg ℝ) w4 (P := row 4 5) n4.symm (by rw [b4]; rfl)
  obtain ⟨w7, D, h7, hD, h⟩ := C100_factor_wrong (exactLinAlg ℝ) exactLinAlg_correct (fT := fT.rescale 2) (fP := fP) (c := 2) (d := 1)
    ⟨rfl, rfl, by simp [fG], ⟨rfl, rfl⟩, fun p => rfl, fun l => (one_mul _).symm⟩ (by norm_num) (by norm_num) h1 h2 h4 r1 r2 r4 d1 d2 d4
  rw [mul_one] at h
  exact ⟨w7, w1, w2, w4, D, D1, D2, D4, h7, h1, h2, h4, hD, d1, d2, d4, h⟩

end FlatTebExample

end NaMaster
