import Verif.Angle.Props
import Verif.SkyCov.Example
import Verif.Field.NoiseBiasExample

/-! # Cases for C92

Fields of spin 1 on four pixels, with a mask that is 1 everywhere, and fields of spin 2 with a template. -/

namespace NaMaster

open Finset MeasureTheory SkySpec

namespace AngleExample

open KnoxExample SkyExample

theorem coef_turn (m : MapStack) (t : ℝ) (c l : ℕ) (k : ℤ) : coef (turnBy 2 t m c) l k = turnBy 2 t (fun c => coef (m c) l k) c := by
  unfold coef turnBy
  by_cases h0 : c = 0
  · simp only [h0, and_self, if_true, sum_range_succ, sum_range_zero, Pi.sub_apply, Pi.smul_apply, smul_eq_mul, Complex.real_smul]
    split_ifs <;> push_cast <;> ring
  · by_cases h1 : c = 1
    · simp only [h1, true_and, one_ne_zero, if_false, if_true, sum_range_succ, sum_range_zero, Pi.add_apply, Pi.smul_apply, smul_eq_mul, Complex.real_smul]
      split_ifs <;> push_cast <;> ring
    · simp only [h0, h1, and_false, if_false]

/-- The transforms on four pixels commute with rotations of the components. -/
theorem turnsK : envK.sht.Turns where
  anal s lmax t m _ := by
    funext c l k
    change (if l ≤ lmax ∧ s ≤ l then coef (turnBy 2 t m c) l k else 0) = _
    rw [coef_turn]
    unfold turnBy
    by_cases h : l ≤ lmax ∧ s ≤ l
    · rw [if_pos h]
      by_cases h0 : c = 0
      · simp only [h0, and_self, if_true, Pi.sub_apply, Pi.smul_apply]
        change _ = Real.cos t • (if l ≤ lmax ∧ s ≤ l then coef (m 0) l k else 0) - Real.sin t • (if l ≤ lmax ∧ s ≤ l then coef (m 1) l k else 0)
        rw [if_pos h, if_pos h]
      · by_cases h1 : c = 1
        · simp only [h1, true_and, one_ne_zero, if_false, if_true, Pi.add_apply, Pi.smul_apply]
          change _ = Real.sin t • (if l ≤ lmax ∧ s ≤ l then coef (m 0) l k else 0) + Real.cos t • (if l ≤ lmax ∧ s ≤ l then coef (m 1) l k else 0)
          rw [if_pos h, if_pos h]
        · simp only [h0, h1, and_false, if_false]
          change _ = (if l ≤ lmax ∧ s ≤ l then coef (m c) l k else 0)
          rw [if_pos h]
    · rw [if_neg h]
      have e : ∀ c, envK.sht.m2a s lmax m c l k = 0 := fun c => if_neg h
      by_cases h0 : c = 0
      · simp [h0, e]
      · by_cases h1 : c = 1
        · simp [h1, e]
        · simp [h0, h1, e]
  synth s lmax t a _ := by
    funext c p
    change (0 : ℝ) = _
    unfold turnBy
    have e : ∀ c, envK.sht.a2m s lmax a c p = 0 := fun c => rfl
    by_cases h0 : c = 0
    · simp [h0, e]
    · by_cases h1 : c = 1
      · simp [h1, e]
      · simp [h0, h1, e]
  pad _ _ := rfl
  unpad _ _ := rfl
  scalar l := ⟨⟨⟨envK.sht.m2a 0 l, fun x y => by
      funext c l' k
      change (if l' ≤ l ∧ (0 : ℤ) ≤ l' then coef (x c + y c) l' k else 0) = (if l' ≤ l ∧ (0 : ℤ) ≤ l' then coef (x c) l' k else 0) +
        if l' ≤ l ∧ (0 : ℤ) ≤ l' then coef (y c) l' k else 0
      by_cases h : l' ≤ l ∧ (0 : ℤ) ≤ l'
      · simp only [if_pos h, coef, sum_range_succ, sum_range_zero, Pi.add_apply]
        split_ifs <;> push_cast <;> ring
      · simp only [if_neg h, add_zero]⟩, fun r x => by
      funext c l' k
      change (if l' ≤ l ∧ (0 : ℤ) ≤ l' then coef (r • x c) l' k else 0) = (r : ℝ) • (if l' ≤ l ∧ (0 : ℤ) ≤ l' then coef (x c) l' k else 0)
      by_cases h : l' ≤ l ∧ (0 : ℤ) ≤ l'
      · simp only [if_pos h, coef, sum_range_succ, sum_range_zero, Pi.smul_apply, smul_eq_mul, Complex.real_smul]
        split_ifs <;> push_cast <;> ring
      · simp only [if_neg h, smul_zero]⟩, 0, LinearMap.id, rfl, rfl, rfl⟩

/-- The call that makes a field of spin 1. -/
noncomputable def callK (ω : Three) : FieldArgs := (argsK 1).withMaps (ncomp 1) 4 (map3 ω)

theorem evenK (ω : Three) : EvenCall (callK ω) := ⟨rfl, rfl, rfl⟩

theorem maskSpectrumK (minfo : MapInfo) (ω : Three) {l : ℕ} (hl : l ≤ 1) :
    maskSpectrum ((fieldK 1 ω).view envK.sht minfo) ((fieldK 1 ω).view envK.sht minfo) true l = if l = 0 then 4 * Real.pi else 0 := by
  obtain ⟨-, p2, -, -, p5, -, -, p8, -⟩ := (fieldsK (s := 1) le_rfl).facts ω
  have hA : ∀ m, m ≤ l → (fieldK 1 ω).getMaskAlms envK.sht l m = if l = 0 ∧ m = 0 then ((Real.sqrt (4 * Real.pi) : ℝ) : ℂ) else 0 := by
    intro m hm
    unfold FieldObj.getMaskAlms
    rw [p2, p5, p8]
    have h := (fieldsK (s := 1) le_rfl).maskCoefs l hl m hm
    rw [h]
    by_cases h0 : l = 0 ∧ m = 0
    · rw [if_pos h0, h0.1, h0.2]
      exact maskK_one.1
    · rw [if_neg h0]
      exact maskK_one.2 l m (by omega)
  unfold maskSpectrum FieldObj.view alm2cl
  simp only [if_true, sub_zero]
  have h : ∀ m ∈ range (l + 1), (if m = 0 then (1 : ℝ) else 2) * ((fieldK 1 ω).getMaskAlms envK.sht l m *
      (starRingEnd ℂ) ((fieldK 1 ω).getMaskAlms envK.sht l m)).re = if m = 0 then (if l = 0 then 4 * Real.pi else 0) else 0 := by
    intro m hm
    rw [mem_range] at hm
    rw [hA m (by omega)]
    by_cases h0 : m = 0
    · by_cases h1 : l = 0
      · rw [if_pos (show l = 0 ∧ m = 0 from ⟨h1, h0⟩), Complex.conj_ofReal, ← Complex.ofReal_mul, Real.mul_self_sqrt (by positivity),
          Complex.ofReal_re, if_pos h0, if_pos h0, if_pos h1, one_mul]
      · simp [h0, h1]
    · simp [h0]
  rw [sum_congr rfl h, sum_ite_eq' (range (l + 1)) 0 (fun _ => if l = 0 then 4 * Real.pi else 0), if_pos (by simp)]
  by_cases h1 : l = 0 <;> simp [h1]

theorem wspK_made (minfo : MapInfo) (ω : Three) : ∃ w, wspFromFields racah envK minfo (fieldK 1 ω) (fieldK 1 ω) true bins4 wargs4 = .ok w := by
  obtain ⟨p1, p2, p3, p4, p5, p6, p7, p8, p9, p10, -⟩ := (fieldsK (s := 1) le_rfl).facts ω
  unfold wspFromFields
  simp only [p4, p1, p2, Option.isSome_none, Bool.or_self, Bool.false_eq_true, false_and, if_false]
  have e : bins4.ellMax = 1 := rfl
  rw [if_neg (by unfold isCompatible FieldObj.view; simp), if_neg (by rw [e]; simp), show toeplitzSanity wargs4.lT wargs4.lE wargs4.dl bins4.ellMax _ = none from rfl]
  dsimp only
  unfold normOf
  rw [if_pos (show wargs4.norm = "MASTER" from rfl)]
  simp only [Outcome.bind]
  unfold compCouplingMatrix computeCouplingMatrix
  have hb : (fieldK 1 ω).beamList.length = 2 := by
    unfold FieldObj.beamList
    rw [p10]; simp [argsK, args4]
  rw [if_neg (by simp [hb, couplingArgsOf, p2]), if_neg (by simp [couplingArgsOf, wargs4]), if_neg (by rw [e]; omega),
    if_neg (by rw [e]; simp [couplingArgsOf, p2]), if_neg (by simp [couplingArgsOf, p6, p7, argsK, args4, flag])]
  exact ⟨_, rfl⟩

theorem wspK_regular (minfo : MapInfo) (ω : Three) (w : Wsp ℝ)
    (hw : wspFromFields racah envK minfo (fieldK 1 ω) (fieldK 1 ω) true bins4 wargs4 = .ok w) : Regular w.nBinned w.binned := by
  obtain ⟨p1, p2, p3, p4, p5, p6, p7, p8, p9, p10, -⟩ := (fieldsK (s := 1) le_rfl).facts ω
  obtain ⟨hB, n, hn, hc⟩ := wsp_iso p4 p4 hw
  have hn0 : n.1 = 0 := by
    unfold normOf at hn
    rw [if_pos (show wargs4.norm = "MASTER" from rfl)] at hn
    rw [← Outcome.ok.inj hn]
  have hget : ∀ l, ((List.range ((fieldK 1 ω).lmaxMask + 1)).map
      (maskSpectrum ((fieldK 1 ω).view envK.sht minfo) ((fieldK 1 ω).view envK.sht minfo) true)).getD l 0 = if l = 0 then 4 * Real.pi else 0 := by
    intro l
    rw [p2]
    by_cases hl : l ≤ 1
    · rw [List.getD_eq_getElem _ _ (by simp; omega), List.getElem_map, List.getElem_range]
      exact maskSpectrumK minfo ω hl
    · rw [List.getD_eq_default _ _ (by simp; omega), if_neg (by omega)]
  have hplain : (couplingArgsOf (fieldK 1 ω) (fieldK 1 ω) wargs4).Plain := ⟨p6, p7, p6, p7, rfl, show wargs4.lT ≤ 0 by decide⟩
  have hsp : max (couplingArgsOf (fieldK 1 ω) (fieldK 1 ω) wargs4).spin1 (couplingArgsOf (fieldK 1 ω) (fieldK 1 ω) wargs4).spin2 ≤ 1 := by
    simp [couplingArgsOf, p3]
  obtain ⟨U, hU, hv⟩ := C17_monopole C76_symmetric C76_monopole hplain hc (fun l hl => by rw [hget, if_neg hl])
  obtain ⟨-, -, -, p, U0, hbuild⟩ := comp_parts hc
  have hncls : (couplingArgsOf (fieldK 1 ω) (fieldK 1 ω) wargs4).ncls = 4 := by
    simp [CouplingArgs.ncls, couplingArgsOf, p3, wargs4]
  rw [hncls] at hbuild
  have hw1 : w.ncls = 4 := by rw [hbuild]; rfl
  have hw2 : w.bin = bins4 := by rw [hbuild]; rfl
  have hU' : U = tab2 (4 * (bins4.ellMax + 1)) (4 * (bins4.ellMax + 1)) U0 := by
    rw [hbuild] at hU
    exact (Option.some.inj hU).symm
  have hbin : w.binned = binMatrix 4 n.1 n.2 (tab ((fieldK 1 ω).lmax + 1) fun l => (fieldK 1 ω).beamList.getD l 0 * (fieldK 1 ω).beamList.getD l 0)
      bins4 U := by
    rw [hU', hbuild]; rfl
  have hbl : (fieldK 1 ω).beamList.getD 1 0 ≠ 0 := by
    unfold FieldObj.beamList
    rw [p10]; simp [argsK, args4]
  set β : ℝ := (fieldK 1 ω).beamList.getD 1 0 * (fieldK 1 ω).beamList.getD 1 0 with hβ
  have hval : ∀ x < 4, ∀ y < 4, w.binned x y = if x = y then β else 0 := by
    intro x hx y hy
    rw [hbin]
    have hb := binMatrix_apply 4 n.1 n.2 (tab ((fieldK 1 ω).lmax + 1) fun l => (fieldK 1 ω).beamList.getD l 0 * (fieldK 1 ω).beamList.getD l 0) bins4 U
      (a := x) (b := y) (ib2 := 0) (ib3 := 0) hx hy (by simp [bins4, Bins.nBands]) (by simp [bins4, Bins.nBands])
    rw [mul_zero, zero_add, zero_add] at hb
    rw [hb]
    unfold binnedElement
    rw [if_pos hn0]
    simp only [bins4, Bins.band, List.getD_cons_zero, List.map_cons, List.map_nil, List.sum_cons, List.sum_nil]
    have h1 := hv 1 1 x y le_rfl le_rfl (by omega) (by omega) hsp
    rw [hget, if_pos rfl, hw1] at h1
    rw [h1, tab, if_pos (show 1 < (fieldK 1 ω).lmax + 1 by rw [p1]; omega)]
    have := Real.pi_ne_zero
    by_cases hxy : x = y
    · rw [if_pos (show 1 = 1 ∧ x = y from ⟨rfl, hxy⟩), if_pos hxy]
      rw [div_self (by positivity)]
      simp only [hβ]
      ring
    · rw [if_neg (show ¬ (1 = 1 ∧ x = y) from fun h => hxy h.2), if_neg hxy]
      simp
  unfold Regular Wsp.nBinned
  have hbn : w.bin.nBands = 1 := by rw [hw2]; rfl
  rw [hw1, hbn]
  have hd : toMat (4 * 1) w.binned = Matrix.diagonal fun _ => β := by
    ext i j
    rw [Matrix.diagonal_apply]
    refine (hval i i.2 j j.2).trans (if_congr Fin.ext_iff.symm rfl rfl)
  rw [hd, Matrix.det_diagonal]
  have hβ0 : β ≠ 0 := mul_ne_zero hbl hbl
  rw [isUnit_iff_ne_zero, prod_const]
  exact pow_ne_zero _ hβ0

/-- The bandpowers exist. -/
theorem bandpowersK (minfo : MapInfo) (ω : Three) : ∃ r, fullMaster (exactLinAlg ℝ) envK 3 minfo (fieldK 1 ω) (fieldK 1 ω) true true
    (wspFromFields racah envK minfo (fieldK 1 ω) (fieldK 1 ω) true bins4 wargs4) none none none = .ok (some r) := by
  obtain ⟨w, hw⟩ := wspK_made minfo ω
  obtain ⟨D, -, -, hD, -⟩ := C81_bandpowers (0 : Measure Three) (exactLinAlg ℝ) exactLinAlg_correct envK (fun _ _ _ _ _ => rfl) minfo (argsK 1) (argsK 1)
    1 1 1 1 maskK maskK sky3 sky3 map3 map3 (fieldK 1) (fieldK 1) (fieldsK le_rfl) (fieldsK le_rfl) ⟨4, 2, fun _ _ => 0⟩ rfl rfl
    ⟨fun _ _ _ _ _ _ _ _ => by simp, fun _ _ _ _ _ _ _ _ => by simp⟩ true (fun _ => rfl) bins4 (by simp [WspSpec.Bounded, bins4]) wargs4 rfl
    (by decide) (by simp [argsK, args4]) ω w hw (wspK_regular minfo ω w hw) 3
  exact ⟨_, hD ω⟩

/-- The hypotheses of C92 are met by the random dipoles of C84, turned by 45 degrees. -/
example (minfo : MapInfo) (ω : Three) : ∃ r, envK.sht.Turns ∧ EvenCall (callK ω) ∧ nmtField envK (callK ω) = .ok (fieldK 1 ω) ∧ (fieldK 1 ω).nmaps = 2 ∧
    (∀ w, wspFromFields racah envK minfo (fieldK 1 ω) (fieldK 1 ω) true bins4 wargs4 = .ok w → Regular w.nBinned w.binned) ∧
    fullMaster (exactLinAlg ℝ) envK 3 minfo (fieldK 1 ω) (fieldK 1 ω) true true
      (wspFromFields racah envK minfo (fieldK 1 ω) (fieldK 1 ω) true bins4 wargs4) none none none = .ok (some r) ∧
    ∃ g1 g2 r', nmtField envK ((callK ω).turn (Real.pi / 4)) = .ok g1 ∧ nmtField envK ((callK ω).turn (Real.pi / 4)) = .ok g2 ∧
      fullMaster (exactLinAlg ℝ) envK 3 minfo g1 g2 true true (wspFromFields racah envK minfo g1 g2 true bins4 wargs4) none none none = .ok (some r') ∧
      r'.val 0 0 + r'.val 3 0 = r.val 0 0 + r.val 3 0 := by
  obtain ⟨r, hr⟩ := bandpowersK minfo ω
  have hf : nmtField envK (callK ω) = .ok (fieldK 1 ω) := (madeK 1).choose_spec ω
  have hn : (fieldK 1 ω).nmaps = 2 := by
    obtain ⟨-, -, -, -, -, -, -, -, p9, -⟩ := (fieldsK (s := 1) le_rfl).facts ω
    exact p9
  obtain ⟨g1, g2, r', h1, h2, h3, -, -, h4⟩ := C92_invariants racah (exactLinAlg ℝ) exactLinAlg_correct turnsK minfo (evenK ω) (evenK ω) hf hf hn hn
    (Real.pi / 4) true bins4 wargs4 (wspK_regular minfo ω) 3 r hr
  exact ⟨r, turnsK, evenK ω, hf, hn, wspK_regular minfo ω, hr, g1, g2, r', h1, h2, h3, (h4 0).1⟩

/-! ## A field with a template -/

theorem turns_pair : pairEnv.sht.Turns where
  anal s lmax t m _ := by
    funext c l k
    change (if l = 0 ∧ k = 0 then ((turnBy 2 t m c 0 + turnBy 2 t m c 1 : ℝ) : ℂ) else 0) = _
    have e : ∀ c, pairEnv.sht.m2a s lmax m c l k = if l = 0 ∧ k = 0 then ((m c 0 + m c 1 : ℝ) : ℂ) else 0 := fun _ => rfl
    unfold turnBy
    by_cases h : l = 0 ∧ k = 0
    · rw [if_pos h]
      simp only [if_pos h] at e
      by_cases h0 : c = 0
      · simp only [h0, and_self, if_true, Pi.sub_apply, Pi.smul_apply, e, smul_eq_mul, Complex.real_smul]
        push_cast; ring
      · by_cases h1 : c = 1
        · simp only [h1, true_and, one_ne_zero, if_false, if_true, Pi.add_apply, Pi.smul_apply, e, smul_eq_mul, Complex.real_smul]
          push_cast; ring
        · simp only [h0, h1, and_false, if_false, e]
    · rw [if_neg h]
      simp only [if_neg h] at e
      by_cases h0 : c = 0
      · simp [h0, e]
      · by_cases h1 : c = 1
        · simp [h1, e]
        · simp [h0, h1, e]
  synth s lmax t a _ := by
    funext c p
    change (0 : ℝ) = _
    unfold turnBy
    have e : ∀ c, pairEnv.sht.a2m s lmax a c p = 0 := fun c => rfl
    by_cases h0 : c = 0
    · simp [h0, e]
    · by_cases h1 : c = 1
      · simp [h1, e]
      · simp [h0, h1, e]
  pad _ _ := rfl
  unpad _ _ := rfl
  scalar l := ⟨pairA, 0, LinearMap.id, rfl, rfl, rfl⟩

/-- A field of spin 2 with one template, for C92 about fields and pseudo-spectra. -/
example (v : MapStack) : ∃ f, EvenCall (pairArgs.withMaps 2 2 v) ∧ nmtField pairEnv (pairArgs.withMaps 2 2 v) = .ok f ∧
    nmtField pairEnv ((pairArgs.withMaps 2 2 v).turn (Real.pi / 4)) = .ok (f.turn (Real.pi / 4)) := by
  obtain ⟨f, hf, -⟩ := pair_field v
  refine ⟨f, ⟨rfl, rfl, rfl⟩, hf, ?_⟩
  rw [C92_field pairEnv turns_pair _ _ ⟨rfl, rfl, rfl⟩, hf]
  rfl

/-! ## Purified fields -/

theorem turns_quad : quadEnv.sht.Turns where
  anal s lmax t m _ := by
    by_cases hs : s = 1
    · have e : ∀ m, quadEnv.sht.m2a s lmax m = 0 := fun m => by simp [quadEnv, hs]
      rw [e, e]
      funext c
      unfold turnBy
      by_cases h0 : c = 0
      · simp [h0]
      · by_cases h1 : c = 1
        · simp [h1]
        · simp [h0, h1]
    · have e : ∀ m, quadEnv.sht.m2a s lmax m = quadA m := fun m => by simp [quadEnv, hs]
      rw [e, e]
      funext c l k
      change (if l = 2 ∧ k = 0 then ((turnBy 2 t m c 0 : ℝ) : ℂ) else 0) = _
      have e : ∀ c, quadA m c l k = if l = 2 ∧ k = 0 then ((m c 0 : ℝ) : ℂ) else 0 := fun _ => rfl
      unfold turnBy
      by_cases h : l = 2 ∧ k = 0
      · rw [if_pos h]
        simp only [if_pos h] at e
        by_cases h0 : c = 0
        · simp [h0, e]
        · by_cases h1 : c = 1
          · simp [h1, e]
          · simp [h0, h1, e]
      · rw [if_neg h]
        simp only [if_neg h] at e
        by_cases h0 : c = 0
        · simp [h0, e]
        · by_cases h1 : c = 1
          · simp [h1, e]
          · simp [h0, h1, e]
  synth s lmax t a _ := by
    by_cases hs : s = 1
    · have e : ∀ m, quadEnv.sht.a2m s lmax m = 0 := fun m => by simp [quadEnv, hs]
      rw [e, e]
      funext c
      unfold turnBy
      by_cases h0 : c = 0
      · simp [h0]
      · by_cases h1 : c = 1
        · simp [h1]
        · simp [h0, h1]
    · have e : ∀ m, quadEnv.sht.a2m s lmax m = quadB m := fun m => by simp [quadEnv, hs]
      rw [e, e]
      funext c p
      change (if c < 2 ∧ p < 1 then (turnBy 2 t a c 2 0).re else 0) = _
      have e : ∀ c, quadB a c p = if c < 2 ∧ p < 1 then (a c 2 0).re else 0 := fun _ => rfl
      unfold turnBy
      by_cases h0 : c = 0
      · by_cases hp : p < 1 <;> simp [h0, e, hp, -Complex.ofReal_cos, -Complex.ofReal_sin]
      · by_cases h1 : c = 1
        · by_cases hp : p < 1 <;> simp [h1, e, hp, -Complex.ofReal_cos, -Complex.ofReal_sin]
        · simp [h0, h1, e]
  pad _ _ := rfl
  unpad _ _ := rfl
  scalar l := ⟨quadA, quadB, LinearMap.id, by simp [quadEnv], by simp [quadEnv], rfl⟩

/-- A field of spin 2 with one template whose E and B modes are both purified. -/
example (v : MapStack) : ∃ f, EvenCall ({ quadArgs with purifyE := true }.withMaps 2 1 v) ∧ nmtField quadEnv ({ quadArgs with purifyE := true }.withMaps 2 1 v) = .ok f ∧
    f.pureE = true ∧ f.pureB = true ∧
    nmtField quadEnv (({ quadArgs with purifyE := true }.withMaps 2 1 v).turn (Real.pi / 4)) = .ok (f.turn (Real.pi / 4)) := by
  have h : ∃ f, nmtField quadEnv ({ quadArgs with purifyE := true }.withMaps 2 1 v) = .ok f ∧ f.pureE = true ∧ f.pureB = true := by
    unfold nmtField fieldChecks fieldMasks mapChecks fieldFinish purifyO purifyAll purifyAll purify deproject pinvh spectralInverse
    norm_num [quadArgs, quadEnv, Outcome.bind, pickSpin, baseObj, FieldArgs.withMaps, tab2, Pix.dot, sum_range_succ, maxUpTo]
  obtain ⟨f, hf, hE, hB⟩ := h
  refine ⟨f, ⟨rfl, rfl, rfl⟩, hf, hE, hB, ?_⟩
  rw [C92_field quadEnv turns_quad _ _ ⟨rfl, rfl, rfl⟩, hf]
  rfl

theorem quad_pop_first (f : FieldObj) (h1 : f.mask = fun _ => 1) (h2 : f.lmax = 2) (h3 : f.lmaxMask = 2) (h4 : f.nIterMask = 0)
    (h5 : f.pureE = false) (h6 : f.pureB = true) (m : MapStack) (k : ℕ) :
    pop quadEnv.sht 0 f m 0 2 k = if k = 0 then ((m 0 0 : ℝ) : ℂ) else 0 := by
  unfold pop purifyIfNeeded FieldObj.getMaskAlms maskAlms purify
  simp only [h1, h2, h3, h4, h5, h6, quadEnv, Outcome.bind, Sht.map2alm, Sht.alm2map, jacobi, id, almxfl]
  simp [quadA]

/-- The spectra of a purified field with one pixel. -/
theorem quad_spectra (v : MapStack) : ∃ f F, nmtField quadEnv (quadArgs.bare.withMaps 2 1 v) = .ok f ∧
    computeCoupledCell (f.view quadEnv.sht (.healpix 1)) (f.view quadEnv.sht (.healpix 1)) true = .ok (some F) ∧
    F.val 0 2 = v 0 0 * v 0 0 / 5 ∧ F.val 3 2 = (2 * v 1 0) * (2 * v 1 0) / 5 := by
  obtain ⟨f, hf⟩ := quad_bare v
  have hi : IsoCall quadArgs := ⟨rfl, rfl, rfl, rfl, by norm_num [quadArgs]⟩
  have k := field_is quadEnv quadArgs.bare hi.bare 2 1 v f hf
  have ha := (k.alm (fun _ _ => 0) (by rw [k.iMdet]; rfl)).2
  refine ⟨f, _, hf, coupled_fields quadEnv (.healpix 1) f f true rfl rfl _ _ ha ha, ?_, ?_⟩
  · have n : f.nmaps = 2 := k.nmaps
    have l : f.lmax = 2 := k.lmax
    rw [n, l]
    have e : ∀ x : ℕ → ℕ → ℝ, (Arr2.of (2 * 2) (2 + 1) x).val 0 2 = x 0 2 := fun x => by norm_num [Arr2.of, tab2]
    rw [e]
    refine quad_cl _ _ _ _ (fun j => ?_) (fun j => ?_) <;>
    · refine (quad_pop_first f k.mask k.lmax k.lmaxMask k.nIterMask k.pureE k.pureB _ j).trans ?_
      simp [FieldArgs.nTempl, FieldArgs.bare, tab2]
  · have n : f.nmaps = 2 := k.nmaps
    have l : f.lmax = 2 := k.lmax
    rw [n, l, quad_val]
    refine quad_cl _ _ _ _ (fun j => ?_) (fun j => ?_) <;>
    · refine (quad_pop f k.mask k.lmax k.lmaxMask k.nIterMask k.pureE k.pureB _ j).trans ?_
      simp [FieldArgs.nTempl, FieldArgs.bare, tab2]

end AngleExample

open AngleExample in
/-- C92: turning the maps of a field with purified B modes and unpurified E modes does not turn its pseudo-spectra: here the sum of the `EE` and `BB`
pseudo-spectra changes. -/
theorem C92_pure_wrong : ∃ (env : FieldEnv) (a : FieldArgs) (t : ℝ) (f g : FieldObj) (F G : Arr2 ℝ), env.sht.Turns ∧ IsoCall a ∧ a.purifyB = true ∧
    a.purifyE = false ∧ nmtField env a = .ok f ∧ nmtField env (a.turn t) = .ok g ∧ F.rows = 4 ∧ G.rows = 4 ∧
    computeCoupledCell (f.view env.sht (.healpix 1)) (f.view env.sht (.healpix 1)) true = .ok (some F) ∧
    computeCoupledCell (g.view env.sht (.healpix 1)) (g.view env.sht (.healpix 1)) true = .ok (some G) ∧
    G.val 0 2 + G.val 3 2 ≠ F.val 0 2 + F.val 3 2 := by
  obtain ⟨f, F, h1, h2, h3, h4⟩ := quad_spectra fun c _ => if c = 1 then 1 else 0
  obtain ⟨g, G, k1, k2, k3, k4⟩ := quad_spectra (turnBy 2 (Real.pi / 2) fun c _ => if c = 1 then 1 else 0)
  have hi : IsoCall quadArgs := ⟨rfl, rfl, rfl, rfl, by norm_num [quadArgs]⟩
  have kf := field_is quadEnv quadArgs.bare hi.bare 2 1 _ f h1
  have kg := field_is quadEnv quadArgs.bare hi.bare 2 1 _ g k1
  have nf : f.nmaps = 2 := kf.nmaps
  have ng : g.nmaps = 2 := kg.nmaps
  refine ⟨quadEnv, quadArgs.bare.withMaps 2 1 fun c _ => if c = 1 then 1 else 0, Real.pi / 2, f, g, F, G, turns_quad, ⟨rfl, rfl, rfl, rfl, ?_⟩, rfl, rfl, h1,
    k1, ?_, ?_, h2, k2, ?_⟩
  · norm_num [quadArgs, FieldArgs.bare, FieldArgs.withMaps]
  · rw [coupled_rows h2]; change f.nmaps * f.nmaps = 4; rw [nf]
  · rw [coupled_rows k2]; change g.nmaps * g.nmaps = 4; rw [ng]
  · rw [h3, h4, k3, k4]
    unfold turnBy
    norm_num

end NaMaster
