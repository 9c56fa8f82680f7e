import Verif.Teb.Props
import Verif.Units.Example
import Verif.Sky.AnisoExample

/-! # Cases for C98

Four pixels and constant masks, band limits of 2. -/

namespace NaMaster

open Finset AnisoExample

namespace SkyExample

/-- A call of the constructor for a field without maps with a constant mask of `c / 2`. -/
noncomputable def argsC (c : ℝ) (s : ℤ) : FieldArgs :=
  { args4 with mask := fun p => c * args4.mask p, spin := some s, lmax := some 2, lmaxMask := some 2 }

/-- The field. -/
noncomputable def fieldC (c : ℝ) (s : ℤ) : FieldObj := baseObj (argsC c s) ((argsC c s).mask, none) 2 2 s

theorem madeC (c : ℝ) (s : ℤ) : nmtField env4 (argsC c s) = .ok (fieldC c s) := by
  unfold nmtField fieldChecks fieldMasks fieldC
  simp [argsC, args4, env4, Outcome.bind]

/-- The band of multipole 2. -/
def bins2 : Bins ℝ := ⟨2, [[⟨2, 1, 1⟩]]⟩

theorem maskAlmsC (c : ℝ) (s : ℤ) {l m : ℕ} (hl : l ≤ 2) :
    (fieldC c s).getMaskAlms env4.sht l m = if l = 0 ∧ m = 0 then ((c * Real.sqrt Real.pi : ℝ) : ℂ) else 0 := by
  have e1 : (fieldC c s).getMaskAlms env4.sht = c • (fieldC 1 s).getMaskAlms env4.sht := by
    rw [← getMaskAlms_smul homogeneous4]
    unfold FieldObj.getMaskAlms FieldObj.rescale fieldC baseObj argsC
    simp
  have e2 : (fieldC 1 s).getMaskAlms env4.sht l m = mask4 l m := by
    change (if (0 : ℕ) = 0 ∧ l ≤ 2 then coef (single (fun p => 1 * args4.mask p) 0) l m else 0) = coef args4.mask l m
    rw [if_pos ⟨rfl, hl⟩]
    rw [show single (fun p => 1 * args4.mask p) 0 = args4.mask from by funext p; exact one_mul _]
  rw [e1]
  change (c : ℝ) • (fieldC 1 s).getMaskAlms env4.sht l m = _
  rw [e2, mask4_val]
  by_cases h : l = 0 ∧ m = 0
  · rw [if_pos h, if_pos ⟨h.1, by exact_mod_cast h.2⟩]
    push_cast
    rfl
  · rw [if_neg h, if_neg (by rintro ⟨h1, h2⟩; exact h ⟨h1, by exact_mod_cast h2⟩)]
    simp

theorem maskSpectrumC (minfo : MapInfo) (c1 c2 : ℝ) (s1 s2 : ℤ) (same : Bool) (hsame : same = true → c1 = c2 ∧ s1 = s2) {l : ℕ} (hl : l ≤ 2) :
    maskSpectrum ((fieldC c1 s1).view env4.sht minfo) ((fieldC c2 s2).view env4.sht minfo) same l = if l = 0 then c1 * c2 * Real.pi else 0 := by
  unfold maskSpectrum FieldObj.view alm2cl
  simp only [ite_self, sub_zero]
  have hsel : (if same = true then (fieldC c1 s1).getMaskAlms env4.sht else (fieldC c2 s2).getMaskAlms env4.sht) = (fieldC c2 s2).getMaskAlms env4.sht := by
    by_cases e : same = true
    · rw [if_pos e, (hsame e).1, (hsame e).2]
    · rw [if_neg e]
  rw [hsel]
  have h : ∀ m ∈ range (l + 1), (if m = 0 then (1 : ℝ) else 2) * ((fieldC c1 s1).getMaskAlms env4.sht l m *
      (starRingEnd ℂ) ((fieldC c2 s2).getMaskAlms env4.sht l m)).re = if m = 0 then (if l = 0 then c1 * c2 * Real.pi else 0) else 0 := by
    intro m _
    rw [maskAlmsC c1 s1 hl, maskAlmsC c2 s2 hl]
    by_cases h0 : m = 0
    · by_cases h1 : l = 0
      · subst h0 h1
        simp only [and_self, if_true]
        rw [Complex.conj_ofReal, ← Complex.ofReal_mul, Complex.ofReal_re,
          one_mul, mul_mul_mul_comm, Real.mul_self_sqrt Real.pi_pos.le]
      · simp [h0, h1]
    · simp [h0]
  rw [sum_congr rfl h, sum_ite_eq' (range (l + 1)) 0 (fun _ => if l = 0 then c1 * c2 * Real.pi else 0), if_pos (by simp)]
  by_cases h1 : l = 0 <;> simp [h1]

theorem wspC (minfo : MapInfo) (c1 c2 : ℝ) (s1 s2 : ℤ) (same t : Bool) (ht : t = true → s1 = 0 ∧ 0 < s2) :
    ∃ w, wspFromFields racah env4 minfo (fieldC c1 s1) (fieldC c2 s2) same bins2 { wargs4 with isTeb := t } = .ok w := by
  unfold wspFromFields
  have p4 : ∀ c s, (fieldC c s).maskA = none := fun _ _ => rfl
  simp only [p4, Option.isSome_none, Bool.or_self, Bool.false_eq_true, false_and, if_false]
  rw [if_neg (by unfold isCompatible FieldObj.view; simp [fieldC, baseObj]), if_neg (by simp [fieldC, baseObj, bins2]),
    show toeplitzSanity wargs4.lT wargs4.lE wargs4.dl bins2.ellMax _ = none from rfl]
  dsimp only
  unfold normOf
  rw [if_pos (show wargs4.norm = "MASTER" from rfl)]
  simp only [Outcome.bind]
  unfold compCouplingMatrix computeCouplingMatrix
  have hb : ∀ c s, (fieldC c s).beamList.length = 3 := by
    intro c s
    unfold FieldObj.beamList
    simp [fieldC, baseObj, argsC, args4]
  rw [if_neg (by
      rw [hb, hb]
      simp [couplingArgsOf, fieldC, baseObj]), if_neg (by
      rintro ⟨h1, h2⟩
      obtain ⟨q1, q2⟩ := ht h1
      apply h2
      subst q1
      exact ⟨rfl, by change s2.toNat ≠ 0; omega⟩), if_neg (by simp [fieldC, baseObj, bins2]),
    if_neg (by simp [couplingArgsOf, fieldC, baseObj, bins2]), if_neg (by simp [couplingArgsOf, fieldC, baseObj, argsC, args4, flag])]
  exact ⟨_, rfl⟩

theorem beamC (c : ℝ) (s : ℤ) {l : ℕ} (hl : l ≤ 2) : (fieldC c s).beamList.getD l 0 = 1 := by
  rw [beamList_getD _ (by simp [fieldC, baseObj, argsC, args4]; omega)]
  rfl

theorem bounded2 : WspSpec.Bounded bins2 bins2.ellMax := by simp [WspSpec.Bounded, bins2]

theorem binnedC (minfo : MapInfo) (c1 c2 : ℝ) (s1 s2 : ℤ) (same : Bool) (hsame : same = true → c1 = c2 ∧ s1 = s2) (h1 : s1 ≤ 2) (h2 : s2 ≤ 2) {w : Wsp ℝ}
    (hw : wspFromFields racah env4 minfo (fieldC c1 s1) (fieldC c2 s2) same bins2 { wargs4 with isTeb := false } = .ok w) :
    w.bin = bins2 ∧ w.lmax = 2 ∧ w.ncls = (couplingArgsOf (fieldC c1 s1) (fieldC c2 s2) { wargs4 with isTeb := false }).ncls ∧
    ∀ x y, x < w.ncls → y < w.ncls → w.binned x y = if x = y then c1 * c2 / 4 else 0 := by
  obtain ⟨hB, n, hn, hc⟩ := wsp_iso rfl rfl hw
  rw [normOf_master rfl hn] at hc
  have hget : ∀ l, ((List.range ((fieldC c1 s1).lmaxMask + 1)).map
      (maskSpectrum ((fieldC c1 s1).view env4.sht minfo) ((fieldC c2 s2).view env4.sht minfo) same)).getD l 0 = if l = 0 then c1 * c2 * Real.pi else 0 := by
    intro l
    rw [show (fieldC c1 s1).lmaxMask = 2 from rfl]
    by_cases hl : l ≤ 2
    · rw [List.getD_eq_getElem _ _ (by simp; omega), List.getElem_map, List.getElem_range]
      exact maskSpectrumC minfo c1 c2 s1 s2 same hsame hl
    · rw [List.getD_eq_default _ _ (by simp; omega), if_neg (by omega)]
  obtain ⟨U, hU, hv⟩ := C17_monopole C76_symmetric C76_monopole ⟨rfl, rfl, rfl, rfl, rfl, by change (-1 : ℤ) ≤ 0; decide⟩ hc (fun l hl => by rw [hget, if_neg hl])
  obtain ⟨q1, q2, q3, q4⟩ := comp_binned hc hU bounded2
  refine ⟨q3, q2, q1, fun x y hx hy => ?_⟩
  have hb := q4 x y 0 0 (q1 ▸ hx) (q1 ▸ hy) (by simp [bins2, Bins.nBands]) (by simp [bins2, Bins.nBands])
  rw [mul_zero, zero_add, zero_add] at hb
  rw [hb]
  simp only [bins2, Bins.band, List.getD_cons_zero, List.map_cons, List.map_nil, List.sum_cons, List.sum_nil]
  have hval := hv 2 2 x y le_rfl le_rfl hx hy (by
    change max s1.toNat s2.toNat ≤ 2
    omega)
  rw [q1] at hval
  rw [hval, hget, if_pos rfl, beamC c1 s1 le_rfl, beamC c2 s2 le_rfl]
  have := Real.pi_ne_zero
  by_cases hxy : x = y
  · rw [if_pos ⟨rfl, hxy⟩, if_pos hxy]
    field_simp
    ring
  · rw [if_neg (fun h => hxy h.2), if_neg hxy]
    ring

theorem regularC {n : ℕ} {M : ℕ → ℕ → ℝ} {k : ℝ} (hk : k ≠ 0) (h : ∀ x y, x < n → y < n → M x y = if x = y then k else 0) : Regular n M := by
  apply regular_of_injective
  intro x hx i hi
  have := hx i hi
  rw [sum_congr rfl (g := fun j => if i = j then k * x j else 0) (fun j hj => by
    rw [h i j hi (mem_range.1 hj)]
    by_cases e : i = j
    · rw [if_pos e, if_pos e]
    · rw [if_neg e, if_neg e, zero_mul]), sum_ite_eq, if_pos (mem_range.2 hi)] at this
  exact (mul_eq_zero.1 this).resolve_left hk

theorem tebC (c : ℝ) : TebPair (fieldC c 0) (fieldC 1 2) 2 c 1 where
  isoT := rfl
  isoP := rfl
  spinT := rfl
  spinP := rfl
  pos := by norm_num
  notPure := ⟨rfl, rfl⟩
  pure := fun h => by simp [fieldC, baseObj, argsC, args4] at h
  lmax := rfl
  lmaxMask := rfl
  nIterMask := rfl
  mask := by
    unfold fieldC baseObj argsC
    simp
  beamLen := rfl
  beam := fun l => by rw [one_mul]; rfl

/-- `n` spectra with multipoles up to 2, all one. -/
def onesC (n : ℕ) : Arr2 ℝ := ⟨n, 3, fun _ _ => 1⟩

/-- The joint workspace and the separate ones, and the results for spectra of one. -/
theorem jointC (minfo : MapInfo) {c : ℝ} (hc : 0 < c) : ∃ (w7 w1 w2 w4 : Wsp ℝ) (D1 D2 D4 : Arr2 ℝ),
    (wspFromFields racah env4 minfo (fieldC c 0) (fieldC 1 2) false bins2 { wargs4 with isTeb := true } = .ok w7 ∧
      wspFromFields racah env4 minfo (fieldC c 0) (fieldC c 0) true bins2 { wargs4 with isTeb := false } = .ok w1 ∧
      wspFromFields racah env4 minfo (fieldC c 0) (fieldC 1 2) false bins2 { wargs4 with isTeb := false } = .ok w2 ∧
      wspFromFields racah env4 minfo (fieldC 1 2) (fieldC 1 2) true bins2 { wargs4 with isTeb := false } = .ok w4) ∧
    (Regular w1.nBinned w1.binned ∧ Regular w2.nBinned w2.binned ∧ Regular w4.nBinned w4.binned) ∧
    (decoupleCell (exactLinAlg ℝ) w1 (onesC 1) none none = .ok D1 ∧ decoupleCell (exactLinAlg ℝ) w2 (onesC 2) none none = .ok D2 ∧
      decoupleCell (exactLinAlg ℝ) w4 (onesC 4) none none = .ok D4) ∧ D1.val 0 0 ≠ 0 := by
  obtain ⟨w7, h7⟩ := wspC minfo c 1 0 2 false true (fun _ => ⟨rfl, by norm_num⟩)
  obtain ⟨w1, h1⟩ := wspC minfo c c 0 0 true false (by simp)
  obtain ⟨w2, h2⟩ := wspC minfo c 1 0 2 false false (by simp)
  obtain ⟨w4, h4⟩ := wspC minfo 1 1 2 2 true false (by simp)
  obtain ⟨x1, y1, z1, m1⟩ := binnedC minfo c c 0 0 true (fun _ => ⟨rfl, rfl⟩) (by norm_num) (by norm_num) h1
  obtain ⟨x2, y2, z2, m2⟩ := binnedC minfo c 1 0 2 false (by simp) (by norm_num) (by norm_num) h2
  obtain ⟨x4, y4, z4, m4⟩ := binnedC minfo 1 1 2 2 true (fun _ => ⟨rfl, rfl⟩) (by norm_num) (by norm_num) h4
  have n1 : w1.ncls = 1 := z1
  have n2 : w2.ncls = 2 := z2
  have n4 : w4.ncls = 4 := z4
  have hb : bins2.nBands = 1 := rfl
  have r1 : Regular w1.nBinned w1.binned := regularC (k := c * c / 4) (by positivity) (by unfold Wsp.nBinned; rw [x1, hb, mul_one]; exact m1)
  have r2 : Regular w2.nBinned w2.binned := regularC (k := c * 1 / 4) (by positivity) (by unfold Wsp.nBinned; rw [x2, hb, mul_one]; exact m2)
  have r4 : Regular w4.nBinned w4.binned := regularC (k := 1 * 1 / 4) (by norm_num) (by unfold Wsp.nBinned; rw [x4, hb, mul_one]; exact m4)
  have d1 := decoupleCell_ok (exactLinAlg ℝ) w1 (onesC 1) n1.symm (by rw [y1]; exact le_rfl)
  refine ⟨w7, w1, w2, w4, _, _, _, ⟨h7, h1, h2, h4⟩, ⟨r1, r2, r4⟩, ⟨d1, decoupleCell_ok _ w2 (onesC 2) n2.symm (by rw [y2]; exact le_rfl),
    decoupleCell_ok _ w4 (onesC 4) n4.symm (by rw [y4]; exact le_rfl)⟩, fun h0 => ?_⟩
  obtain ⟨-, -, -, -, hv⟩ := decouple_vec d1
  have hs := exactLinAlg_correct.solve_spec _ _ (binnedInput w1.ncls w1.bin (onesC 1).val (fun _ _ => 0) (fun _ _ => 0)) r1 0 (by
    unfold Wsp.nBinned; rw [n1, x1]; norm_num [hb])
  have hv0 := hv 0 (by omega) 0 (by rw [x1]; norm_num [hb])
  rw [h0] at hv0
  rw [show w1.nBinned = 1 by unfold Wsp.nBinned; rw [n1, x1, hb], sum_range_one] at hs
  rw [show w1.ncls * w1.bin.nBands = 1 by rw [n1, x1, hb], n1, x1] at hv0
  rw [n1, x1] at hs
  rw [show (1 * 0 + 0 : ℕ) = 0 from rfl] at hv0
  rw [← hv0, mul_zero] at hs
  have := binnedInput_apply 1 bins2 (onesC 1).val (fun _ _ => 0) (fun _ _ => 0) (show 0 < 1 by norm_num) (show 0 < bins2.nBands by norm_num [hb])
  rw [show (1 * 0 + 0 : ℕ) = 0 from rfl, ← hs] at this
  simp [onesC, bins2, Bins.band] at this

/-- The hypotheses of `C98_joint_partial` are met. -/
example (minfo : MapInfo) : ∃ (w7 w1 w2 w4 : Wsp ℝ) (D D1 D2 D4 : Arr2 ℝ), D1.val 0 0 ≠ 0 ∧
    decoupleCell (exactLinAlg ℝ) w1 (onesC 1) none none = .ok D1 ∧ decoupleCell (exactLinAlg ℝ) w2 (onesC 2) none none = .ok D2 ∧
    decoupleCell (exactLinAlg ℝ) w4 (onesC 4) none none = .ok D4 ∧
    decoupleCell (exactLinAlg ℝ) w7 (stackTeb (onesC 1) (onesC 2) (onesC 4)) none none = .ok D ∧ SameArray D (stackTeb D1 D2 D4) := by
  obtain ⟨w7, w1, w2, w4, D1, D2, D4, ⟨h7, h1, h2, h4⟩, ⟨r1, r2, r4⟩, ⟨d1, d2, d4⟩, hne⟩ := jointC minfo (c := 1) one_pos
  obtain ⟨D, hD, hs⟩ := C98_joint_partial (exactLinAlg ℝ) exactLinAlg_correct homogeneous4 (tebC 1) (by decide) bounded2 (by decide) rfl h7 h1 h2 h4 r1 r2 r4 d1 d2 d4
  exact ⟨w7, w1, w2, w4, D, D1, D2, D4, hne, d1, d2, d4, hD, hs⟩

/-- The hypotheses of `C98_factor_wrong` are met by masks of 1 and 1/2: the first bandpower of the joint workspace is twice that of the separate one. -/
example (minfo : MapInfo) : ∃ (w7 w1 : Wsp ℝ) (D D1 : Arr2 ℝ),
    decoupleCell (exactLinAlg ℝ) w1 (onesC 1) none none = .ok D1 ∧
    decoupleCell (exactLinAlg ℝ) w7 (stackTeb (onesC 1) (onesC 2) (onesC 4)) none none = .ok D ∧ D.val 0 0 = 2 * D1.val 0 0 ∧ D1.val 0 0 ≠ 0 := by
  obtain ⟨w7, w1, w2, w4, D1, D2, D4, ⟨h7, h1, h2, h4⟩, ⟨r1, r2, r4⟩, ⟨d1, d2, d4⟩, hne⟩ := jointC minfo (c := 2) two_pos
  obtain ⟨D, hD, s1, s2, s3⟩ := C98_factor_wrong (exactLinAlg ℝ) exactLinAlg_correct homogeneous4 (tebC 2) two_pos one_ne_zero bounded2 (by decide) rfl h7 h1 h2 h4
    r1 r2 r4 d1 d2 d4
  obtain ⟨-, -, -, hcol, -⟩ := decouple_vec d1
  obtain ⟨-, -, -, -⟩ := decouple_vec hD
  refine ⟨w7, w1, D, D1, d1, hD, ?_, hne⟩
  have hx := (binnedC minfo 2 2 0 0 true (fun _ => ⟨rfl, rfl⟩) (by norm_num) (by norm_num) h1).1
  rw [s3 0 (by rw [s1]; exact Nat.succ_pos 6) 0 (by rw [s2]; change 0 < D1.cols; rw [hcol, hx]; exact Nat.one_pos)]
  change (-1 : ℝ) ^ 2 * (2 * 1) * D1.val 0 0 = _
  norm_num

/-- The hypotheses of `C98_anisotropic_wrong` are met: a workspace is made for a field with an anisotropic mask. -/
example (minfo : MapInfo) : ∃ w, wspFromFields racah (env83 flat83 (spinPart 0)) minfo (field83 flat83 (spinPart 0) 0) (field83 flat83 (spinPart 0) 0) true bins4
      { wargs4 with isTeb := true } = .ok w ∧
    decoupleCell (exactLinAlg ℝ) w (stackTeb (onesC 1) (onesC 2) (onesC 4)) none none = .raises .value := by
  obtain ⟨w, hw⟩ := wsp83 minfo flat83 (spinPart 0) (point_real _ _) (fun c _ => spinPart_real 0 c)
  have hs : (field83 flat83 (spinPart 0) 0).maskA.isSome = true := by
    rw [((fields83 flat83 (spinPart 0) (point_real _ _) (fun c _ => spinPart_real 0 c)).fieldFacts 0).emaskA]; rfl
  obtain ⟨h1, h2⟩ := C98_anisotropic_wrong (W := racah) (env := env83 flat83 (spinPart 0)) (minfo := minfo) (B := bins4) (wa := wargs4)
    (field83 flat83 (spinPart 0) 0) (field83 flat83 (spinPart 0) 0) true (Or.inl hs)
  have hw' := h1.trans hw
  exact ⟨w, hw', (h2 w hw').2 _ _ _ _⟩

end SkyExample

end NaMaster
