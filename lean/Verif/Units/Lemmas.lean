import Verif.Units.Bias
import Verif.Master.Props
import Verif.Field.MaskedProps

/-!
# Spectra and workspaces of fields whose masks have been multiplied by numbers
-/

namespace NaMaster

open Finset

theorem ok_of_bind {α β : Type*} {x : Outcome α} {g : α → Outcome β} {y : β} (h : x.bind g = .ok y) : ∃ a, x = .ok a ∧ g a = .ok y := by
  cases x with
  | ok a => exact ⟨a, rfl, h⟩
  | raises e => cases h
  | crash => cases h

theorem finish_maskA {env : FieldEnv} {a : FieldArgs} {o f : FieldObj} {m : MapStack} {t : Option TemplArg} (h : fieldFinish env a o m t = .ok f) :
    f.maskA = o.maskA := by
  unfold fieldFinish at h
  dsimp only at h
  obtain ⟨d, -, h⟩ := ok_of_bind h
  obtain ⟨r, -, h⟩ := ok_of_bind h
  obtain ⟨at', -, h⟩ := ok_of_bind h
  rw [← Outcome.ok.inj h]

theorem field_iso {env : FieldEnv} {a : FieldArgs} {f : FieldObj} (h1 : a.mask22 = none) (h2 : a.mask12 = none) (hf : nmtField env a = .ok f) :
    f.maskA = none := by
  have hm : fieldMasks env.pix a = .ok (a.mask, none) := by
    unfold fieldMasks
    rw [h1, h2]
  unfold nmtField at hf
  obtain ⟨pl, hpl, hf⟩ := ok_of_bind hf
  unfold fieldChecks at hpl
  rw [hm] at hpl
  simp only [Outcome.bind] at hpl
  by_cases k1 : a.lmax.getD env.lmaxDefault ≤ 0 ∨ a.lmaxMask.getD env.lmaxDefault ≤ 0
  · rw [if_pos k1] at hpl; cases hpl
  rw [if_neg k1] at hpl
  by_cases k2 : (a.beam.map fun b => (b.1 : ℤ)).any (fun n => n ≤ a.lmax.getD env.lmaxDefault) = true
  · rw [if_pos k2] at hpl; cases hpl
  rw [if_neg k2] at hpl
  cases hm : a.maps with
  | none =>
    rw [hm] at hpl
    cases hs : a.spin with
    | none => rw [hs] at hpl; cases hpl
    | some s =>
      rw [hs] at hpl
      dsimp only at hpl
      rw [if_neg (by simp)] at hpl
      rw [← Outcome.ok.inj hpl] at hf
      rw [← Outcome.ok.inj hf]
      rfl
  | some m =>
    rw [hm] at hpl
    obtain ⟨spin, v, t, rfl, -, -⟩ := mapChecks_obj hpl
    exact finish_maskA hf

theorem coupled_smul (S : Sht) (minfo : MapInfo) (c d : ℝ) (f1 f2 : FieldObj) (same : Bool) :
    computeCoupledCell ((f1.rescale c).view S minfo) ((f2.rescale d).view S minfo) same =
      (computeCoupledCell (f1.view S minfo) (f2.view S minfo) same).bind fun b => .ok (b.map (Arr2.scale (c * d))) := by
  unfold computeCoupledCell
  change (if isCompatible (f1.view S minfo).geom (f2.view S minfo).geom false = false then _ else _) = _
  by_cases h : isCompatible (f1.view S minfo).geom (f2.view S minfo).geom false = false
  · rw [if_pos h, if_pos h]; rfl
  rw [if_neg h, if_neg h]
  simp only [FieldObj.view, FieldObj.rescale]
  cases f1.alm with
  | none => rfl
  | some a =>
    cases f2.alm with
    | none => rfl
    | some b =>
      cases a with
      | none => rfl
      | some a =>
        cases b with
        | none => rfl
        | some b =>
          simp only [getOr, Option.map_some, Outcome.bind]
          congr 2
          unfold Arr2.of Arr2.scale
          rw [← tab2_scale]
          congr 2
          funext k l
          have es : ∀ (x : ℝ) (A : Alms) (k : ℕ), (x • A) k = x • A k := fun _ _ _ => rfl
          rw [es, es, alm2cl_smul]
          simp

theorem maskSpectrum_smul {S : Sht} (hS : S.Homogeneous) (minfo : MapInfo) {c d : ℝ} (f1 f2 : FieldObj) (same : Bool) (h : same = true → c = d) (l : ℕ) :
    maskSpectrum ((f1.rescale c).view S minfo) ((f2.rescale d).view S minfo) same l =
      c * d * maskSpectrum (f1.view S minfo) (f2.view S minfo) same l := by
  unfold maskSpectrum FieldObj.view
  dsimp only
  rw [getMaskAlms_smul hS, getMaskAlms_smul hS]
  cases same with
  | false => simp [alm2cl_smul]
  | true => simp [alm2cl_smul, h rfl]

theorem wsp_smul (W : Wigner) (env : FieldEnv) (hS : env.sht.Homogeneous) (minfo : MapInfo) {c d : ℝ} (hc : 0 < c) (hd : 0 < d) (f1 f2 : FieldObj)
    (h1 : f1.maskA = none) (h2 : f2.maskA = none) (same : Bool) (h : same = true → c = d) (B : Bins ℝ) (a : WspArgs) :
    wspFromFields W env minfo (f1.rescale c) (f2.rescale d) same B a =
      (wspFromFields W env minfo f1 f2 same B a).bind fun w => .ok (w.rescale (c * d)) := by
  unfold wspFromFields
  have e1 : (f1.rescale c).maskA = none := h1
  have e2 : (f2.rescale d).maskA = none := h2
  simp only [h1, h2, e1, e2, Option.isSome_none, Bool.or_self, Bool.false_eq_true, false_and, if_false]
  change (if isCompatible (f1.view env.sht minfo).geom (f2.view env.sht minfo).geom false = false then _ else if f1.lmax ≠ B.ellMax then _ else
    match toeplitzSanity a.lT a.lE a.dl B.ellMax (f1.pureE || f1.pureB || f2.pureE || f2.pureB) with
    | some e => _
    | none => _) = _
  by_cases k1 : isCompatible (f1.view env.sht minfo).geom (f2.view env.sht minfo).geom false = false
  · rw [if_pos k1, if_pos k1]; rfl
  rw [if_neg k1, if_neg k1]
  by_cases k2 : f1.lmax ≠ B.ellMax
  · rw [if_pos k2, if_pos k2]; rfl
  rw [if_neg k2, if_neg k2]
  cases toeplitzSanity a.lT a.lE a.dl B.ellMax (f1.pureE || f1.pureB || f2.pureE || f2.pureB) with
  | some e => rfl
  | none =>
    dsimp only
    have hn : normOf env.pix (f1.rescale c) (f2.rescale d) a.norm = (normOf env.pix f1 f2 a.norm).bind fun n => .ok (n.1, c * d * n.2) := by
      unfold normOf
      split_ifs
      · simp [Outcome.bind]
      · simp only [Outcome.bind]
        rw [show single (f1.rescale c).mask = c • single f1.mask from single_smul c _, show single (f2.rescale d).mask = d • single f2.mask from single_smul d _,
          dot_smul, mul_div_assoc]
      · rfl
    rw [hn]
    cases normOf env.pix f1 f2 a.norm with
    | raises e => rfl
    | crash => rfl
    | ok n =>
      simp only [Outcome.bind]
      have hm : maskSpectrum ((f1.rescale c).view env.sht minfo) ((f2.rescale d).view env.sht minfo) same =
          fun l => c * d * maskSpectrum (f1.view env.sht minfo) (f2.view env.sht minfo) same l := funext (maskSpectrum_smul hS minfo f1 f2 same h)
      rw [hm]
      exact compCouplingMatrix_scale W (couplingArgsOf f1 f2 a) f1.lmax _ f1.beamList f2.beamList B n.1 n.2 (mul_pos hc hd) _

theorem regular_scale {n : ℕ} {M : ℕ → ℕ → ℝ} (h : Regular n M) {k : ℝ} (hk : k ≠ 0) : Regular n fun i j => k * M i j := by
  unfold Regular at h ⊢
  have : toMat n (fun i j => k * M i j) = k • toMat n M := by
    ext i j
    simp [toMat]
  rw [this, Matrix.det_smul]
  exact (isUnit_iff_ne_zero.2 (pow_ne_zero _ hk)).mul h

theorem solve_scale {L : LinAlg ℝ} (hL : L.Correct) {n : ℕ} {M : ℕ → ℕ → ℝ} (h : Regular n M) {k : ℝ} (hk : k ≠ 0) {x y : ℕ → ℝ}
    (hxy : ∀ i < n, y i = k * x i) {i : ℕ} (hi : i < n) : L.solve n (fun i j => k * M i j) y i = L.solve n M x i := by
  refine hL.solve_eq (regular_scale h hk) _ _ (fun i hi => ?_) i hi
  simp only [mul_assoc]
  rw [← mul_sum, hL.solve_spec n M x h i hi, hxy i hi]

theorem invert_scale {L : LinAlg ℝ} (hL : L.Correct) {n : ℕ} {M : ℕ → ℕ → ℝ} (h : Regular n M) {k : ℝ} (hk : k ≠ 0) {i j : ℕ} (hi : i < n) (hj : j < n) :
    L.invert n (fun i j => k * M i j) i j = L.invert n M i j / k := by
  refine (regular_scale h hk).unique (fun i => L.invert n (fun i j => k * M i j) i j) (fun i => L.invert n M i j / k) (fun i hi => ?_) i hi
  rw [hL.invert_spec n _ (regular_scale h hk) i j hi hj, ← hL.invert_spec n M h i j hi hj]
  refine sum_congr rfl fun _ _ => ?_
  field_simp

theorem sub_scale (k : ℝ) (a b : Arr2 ℝ) : (a.scale k).sub (b.scale k) = (a.sub b).bind fun d => .ok (d.scale k) := by
  unfold Arr2.sub
  change (if a.rows ≠ b.rows ∨ a.cols ≠ b.cols then _ else _) = _
  split_ifs
  · rfl
  · simp only [Outcome.bind, Arr2.scale, mul_sub]

theorem subO_scale (k : ℝ) (a b : Option (Arr2 ℝ)) :
    subO (a.map (Arr2.scale k)) (b.map (Arr2.scale k)) = (subO a b).bind fun d => .ok (d.map (Arr2.scale k)) := by
  cases a with
  | none => rfl
  | some a =>
    cases b with
    | none => rfl
    | some b =>
      simp only [subO, Option.map_some, sub_scale]
      cases a.sub b <;> rfl

theorem decouple_scale {L : LinAlg ℝ} (hL : L.Correct) (w : Wsp ℝ) (h : Regular w.nBinned w.binned) {k : ℝ} (hk : k ≠ 0) (d : Arr2 ℝ) :
    decoupleCell L (w.rescale k) (d.scale k) none none = decoupleCell L w d none none := by
  by_cases hs : d.rows = w.ncls ∧ w.lmax + 1 ≤ d.cols
  · rw [decoupleCell_ok L w d hs.1 hs.2, decoupleCell_ok L (w.rescale k) (d.scale k) hs.1 hs.2]
    congr 1
    apply Arr2.of_congr
    intro a ib ha hib
    unfold decoupleCl
    refine solve_scale hL h hk (fun i hi => ?_) (flat_lt ha hib)
    have hpos : 0 < w.ncls := lt_of_le_of_lt (Nat.zero_le _) ha
    rw [← Nat.div_add_mod i w.ncls]
    have h1 : i % w.ncls < w.ncls := Nat.mod_lt _ hpos
    have h2 : i / w.ncls < w.bin.nBands := Nat.div_lt_of_lt_mul hi
    rw [binnedInput_apply w.ncls w.bin _ _ _ h1 h2]
    refine (binnedInput_apply w.ncls w.bin _ _ _ h1 h2).trans ?_
    rw [← List.sum_map_mul_left]
    congr 1
    refine List.map_congr_left fun e _ => ?_
    simp only [Arr2.scale]
    ring
  · have e : d.rows ≠ w.ncls ∨ d.cols < w.lmax + 1 := by
      by_cases h1 : d.rows = w.ncls
      · exact Or.inr (by have := fun h2 => hs ⟨h1, h2⟩; omega)
      · exact Or.inl h1
    unfold decoupleCell
    rw [if_pos e]
    exact if_pos e

end NaMaster
