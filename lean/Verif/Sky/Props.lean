import Verif.Sky.Pure
import Verif.Sky.Workspace
import Verif.Field.BiasProps

/-! # The MASTER relation on the sphere: C81 -/

namespace NaMaster

open Finset MeasureTheory WignerSpec SkySpec CouplingSpec

/-! ## Specification -/

/-- Transforms read only the coefficients with `l ≤ lmax` and `m ≤ l`. -/
def Sht.ReadsTriangle (S : Sht) : Prop := ∀ s lmax a b, (∀ c, ∀ l ≤ lmax, ∀ m ≤ l, a c l m = b c l m) → S.alm2map s lmax a = S.alm2map s lmax b

/-- The beam given to the constructor; one without beam. -/
def FieldArgs.beamAt (a : FieldArgs) (l : ℕ) : ℝ := (a.beam.map fun b => b.2 l).getD 1

/-- Fields `f ω` made from maps of the skies `F ω` of spin `s`, all with the same mask and the same other arguments `a`. The mask has
coefficients `w`; no templates. -/
structure FieldsOf {Ω : Type*} (env : FieldEnv) (a : FieldArgs) (s lmax lmaxMask : ℕ) (w : ℕ → ℤ → ℂ) (F : Ω → ℕ → ℕ → ℤ → ℂ)
    (maps : Ω → MapStack) (f : Ω → FieldObj) : Prop where
  iso : IsoCall a
  bare : a.templates = none
  spin : spinOf (ncomp s) a.spin = s
  bandLimit : a.lmax.getD env.lmaxDefault = lmax
  maskBandLimit : a.lmaxMask.getD env.lmaxDefault = lmaxMask
  maskCoefs : ∀ L ≤ lmaxMask, ∀ m ≤ L, maskAlms env.sht lmaxMask a.nIterMask a.mask L m = w L m
  maskReal : RealCoefs w
  skyReal : ∀ ω, ∀ X < ncomp s, RealCoefs (F ω X)
  observed : ∀ ω, Observed env.sht a.nIter s lmaxMask lmax (a.purifyE || a.purifyB) a.mask w (F ω) (tab2 (ncomp s) env.pix.npix (maps ω))
  made : ∀ ω, nmtField env (a.withMaps (ncomp s) env.pix.npix (maps ω)) = .ok (f ω)

/-! ## Lemmas -/

theorem field_rest (env : FieldEnv) (a : FieldArgs) (hi : IsoCall a) (ht : a.templates = none) (nc np : ℕ) (v : MapStack) (f : FieldObj)
    (h : nmtField env (a.withMaps nc np v) = .ok f) :
    f.maskA = none ∧ f.beam = a.beam.getD ((a.lmax.getD env.lmaxDefault + 1).toNat, fun _ => 1) ∧ ((a.purifyE || a.purifyB) = true → f.spin = 2) ∧
      0 < a.lmax.getD env.lmaxDefault := by
  unfold nmtField at h
  cases hP : fieldChecks env (a.withMaps nc np v) with
  | crash => rw [hP] at h; cases h
  | raises e => rw [hP] at h; cases h
  | ok P =>
    rw [hP] at h
    simp only [Outcome.bind] at h
    have hmk : fieldMasks env.pix (a.withMaps nc np v) = .ok (a.mask, none) := by
      unfold fieldMasks FieldArgs.withMaps
      simp only [hi.mask22, hi.mask12]
    unfold fieldChecks at hP
    rw [hmk] at hP
    simp only [Outcome.bind] at hP
    by_cases q1 : (a.withMaps nc np v).lmax.getD env.lmaxDefault ≤ 0 ∨ (a.withMaps nc np v).lmaxMask.getD env.lmaxDefault ≤ 0
    · rw [if_pos q1] at hP; cases hP
    rw [if_neg q1] at hP
    split_ifs at hP with q2
    simp only [FieldArgs.withMaps] at hP q1
    unfold mapChecks at hP
    by_cases q3 : nc ≠ 1 ∧ nc ≠ 2
    · rw [if_pos q3] at hP; cases hP
    rw [if_neg q3] at hP
    cases hps : pickSpin nc a.spin with
    | crash => simp only [hps] at hP; cases hP
    | raises e => simp only [hps] at hP; cases hP
    | ok sp =>
      simp only [hps, Outcome.bind] at hP
      split_ifs at hP with r1 r2 r3 r4 r5
      simp only [ht, Outcome.ok.injEq] at hP
      subst hP
      dsimp only at h
      unfold fieldFinish at h
      simp only [Option.isSome_none, Bool.false_eq_true, false_and, if_false, Outcome.bind] at h
      split at h
      · have := Outcome.ok.inj h
        subst this
        refine ⟨rfl, rfl, ?_, by omega⟩
        intro hp
        by_contra hc
        exact r2 ⟨hp, hc⟩
      · cases h
      · cases h

theorem linCoef_congr {n Nw Nf : ℕ} {h : ℕ → ℕ → ℕ → ℕ → ℝ} {w w' : ℕ → ℤ → ℂ} {F : ℕ → ℕ → ℤ → ℂ} {X l : ℕ} {m : ℤ}
    (f : ℕ → ℝ) (hw : ∀ L M, w' L M = (f L : ℝ) * w L M) :
    linCoef n Nw Nf h w' F X l m = linCoef n Nw Nf (fun X l L l' => f L * h X l L l') w F X l m := by
  unfold linCoef
  refine sum_congr rfl fun W _ => sum_congr rfl fun q _ => ?_
  rw [hw]
  push_cast
  ring

theorem linCoef_smul {n Nw Nf : ℕ} {h : ℕ → ℕ → ℕ → ℕ → ℝ} {w : ℕ → ℤ → ℂ} {F : ℕ → ℕ → ℤ → ℂ} {X l : ℕ} {m : ℤ} (r : ℕ → ℝ) :
    (r l : ℂ) * linCoef n Nw Nf h w F X l m = linCoef n Nw Nf (fun X l L l' => r l * h X l L l') w F X l m := by
  unfold linCoef
  rw [mul_sum]
  refine sum_congr rfl fun W _ => ?_
  rw [mul_sum]
  refine sum_congr rfl fun q _ => ?_
  push_cast
  ring

theorem linCoef_add {n Nw Nf : ℕ} {h h' : ℕ → ℕ → ℕ → ℕ → ℝ} {w : ℕ → ℤ → ℂ} {F : ℕ → ℕ → ℤ → ℂ} {X l : ℕ} {m : ℤ} :
    linCoef n Nw Nf h w F X l m + linCoef n Nw Nf h' w F X l m = linCoef n Nw Nf (fun X l L l' => h X l L l' + h' X l L l') w F X l m := by
  unfold linCoef
  rw [← sum_add_distrib]
  refine sum_congr rfl fun W _ => ?_
  rw [← sum_add_distrib]
  refine sum_congr rfl fun q _ => ?_
  push_cast
  ring

theorem linCoef_at {n Nw Nf : ℕ} {h h' : ℕ → ℕ → ℕ → ℕ → ℝ} {w : ℕ → ℤ → ℂ} {F : ℕ → ℕ → ℤ → ℂ} {X l : ℕ} {m : ℤ}
    (e : ∀ L l', h X l L l' = h' X l L l') : linCoef n Nw Nf h w F X l m = linCoef n Nw Nf h' w F X l m := by
  unfold linCoef
  simp only [e]

theorem hess_weight (L : ℕ) : Real.sqrt (((L : ℝ) + 2) * ((L : ℝ) + 1) * L * ((L : ℝ) - 1)) = flMask1 L * flMask2 L := by
  unfold flMask1 flMask2
  by_cases h : L < 2
  · rw [if_pos h, mul_zero]
    obtain rfl | rfl : L = 0 ∨ L = 1 := by omega
    · simp
    · simp
  · rw [if_neg h]
    have hL : (2 : ℝ) ≤ L := by exact_mod_cast (not_lt.1 h)
    rw [neg_mul_neg, ← Real.sqrt_mul (by positivity)]
    congr 1
    ring

/-- The products the code computes are those of complex maps. -/
theorem spinProduct_conj (a b : MapStack) : spinProduct a b = conjProduct a b := by
  funext c p
  unfold spinProduct conjProduct
  simp
  split_ifs <;> ring

/-- Coefficients of a field made from maps of a sky. -/
theorem pop_lin_coef {Ω : Type*} {env : FieldEnv} (hS : env.sht.ReadsTriangle) {a : FieldArgs} {s lmax lmaxMask : ℕ} {w : ℕ → ℤ → ℂ}
    {F : Ω → ℕ → ℕ → ℤ → ℂ} {maps : Ω → MapStack} {f : Ω → FieldObj} (h : FieldsOf env a s lmax lmaxMask w F maps f) (ω : Ω)
    {X l m : ℕ} (hX : X < ncomp s) (hl : l ≤ lmax) (hm : m ≤ l) :
    ∃ A, (f ω).alm = some (some A) ∧ A = pop env.sht a.nIter (f ω) (tab2 (ncomp s) env.pix.npix (maps ω)) ∧
      A X l m = linCoef (ncomp s) lmaxMask lmax (hfac s a.purifyE a.purifyB) w (F ω) X l m := by
  have k := field_is env a h.iso (ncomp s) env.pix.npix (maps ω) (f ω) (h.made ω)
  obtain ⟨-, -, k2, -⟩ := field_rest env a h.iso h.bare _ _ _ _ (h.made ω)
  have hn : a.nTempl = 0 := by unfold FieldArgs.nTempl; rw [h.bare]; rfl
  obtain ⟨-, hA⟩ := k.alm (fun _ _ => 0) (by rw [k.iMdet, h.bare]; rfl)
  simp only [hn, sum_range_zero, sub_zero] at hA
  refine ⟨_, hA, rfl, ?_⟩
  have el : (f ω).lmax = lmax := by rw [k.lmax, h.bandLimit]; rfl
  have em : (f ω).lmaxMask = lmaxMask := by rw [k.lmaxMask, h.maskBandLimit]; rfl
  have es : (f ω).spin = (s : ℤ) := by rw [k.spin, h.spin]
  have hobs := h.observed ω
  have e0 := masked_lin hobs.masked hX hl hm
  have hok := k.popOk (tab2 (ncomp s) env.pix.npix (maps ω))
  by_cases hp : (a.purifyE || a.purifyB) = true
  · have hs2 : s = 2 := by
      have := k2 hp
      rw [es] at this
      exact_mod_cast this
    unfold pop purifyIfNeeded at hok ⊢
    rw [k.pureE, k.pureB, if_pos hp] at hok ⊢
    unfold purify at hok ⊢
    rw [el, em, k.mask] at hok ⊢
    by_cases hlm : (a.purifyE || a.purifyB) = true ∧ lmax ≠ lmaxMask
    · simp only [if_pos hlm, Outcome.bind] at hok
      cases hok
    have hll : lmaxMask = lmax := by
      by_contra hc
      exact hlm ⟨hp, fun e => hc e.symm⟩
    simp only [if_neg hlm, Outcome.bind]
    have hwa : ∀ L ≤ lmaxMask, ∀ m ≤ L, (f ω).getMaskAlms env.sht L m = w L m := by
      unfold FieldObj.getMaskAlms
      rw [em, k.nIterMask, k.mask]
      exact h.maskCoefs
    have g1 : env.sht.alm2map 1 lmaxMask (fun c => if c = 0 then almxfl ((f ω).getMaskAlms env.sht) flMask1 else fun _ _ => 0) =
        env.sht.alm2map 1 lmaxMask (onlyE (gradCoef w)) := by
      apply hS
      intro c L hL m hm
      unfold onlyE gradCoef
      by_cases hc : c = 0
      · rw [if_pos hc, if_pos hc]
        unfold almxfl flMask1
        rw [hwa L hL m hm]
      · rw [if_neg hc, if_neg hc]
    have g2 : env.sht.alm2map 2 lmaxMask (fun c => if c = 0 then almxfl (almxfl ((f ω).getMaskAlms env.sht) flMask1) flMask2 else fun _ _ => 0) =
        env.sht.alm2map 2 lmaxMask (onlyE (hessCoef w)) := by
      apply hS
      intro c L hL m hm
      unfold onlyE hessCoef
      by_cases hc : c = 0
      · rw [if_pos hc, if_pos hc, hess_weight]
        unfold almxfl
        rw [hwa L hL m hm]
        push_cast
        ring
      · rw [if_neg hc, if_neg hc]
    rw [g1, g2]
    simp only [spinProduct_conj]
    have hX2 : X < 2 := by unfold ncomp at hX; split_ifs at hX <;> omega
    have e1 := product_lin (hobs.first hp) hX2 hl hm
    have e2 := product_lin (hobs.second hp) hX2 hl hm
    rw [linCoef_congr flMask1 (w := w) (w' := gradCoef w) (fun L M => rfl)] at e1
    rw [linCoef_congr (fun L => flMask1 L * flMask2 L) (w := w) (w' := hessCoef w) (fun L M => by unfold hessCoef; rw [hess_weight])] at e2
    subst hs2
    have e0' : env.sht.map2alm 2 lmaxMask a.nIter (fun c p => tab2 (ncomp 2) env.pix.npix (maps ω) c p * a.mask p) X l m =
        linCoef (ncomp 2) lmaxMask lmax (fun _ => sfac (2 : ℕ) 0 (2 : ℕ)) w (F ω) X l m := by
      rw [← e0, hll]; rfl
    by_cases hc : X = 0 ∧ a.purifyE = true ∨ X = 1 ∧ a.purifyB = true
    · rw [if_pos hc, e0']
      unfold almxfl
      rw [e1, e2, linCoef_smul, linCoef_smul, show ncomp 2 = 2 from rfl, linCoef_add, linCoef_add]
      apply linCoef_at
      intro L l'
      unfold hfac skyPureTerm
      rw [if_pos (by unfold isPure; rcases hc with ⟨rfl, hc⟩ | ⟨rfl, hc⟩ <;> simpa using hc)]
      ring
    · rw [if_neg hc, add_zero, e0']
      apply linCoef_at
      intro L l'
      unfold hfac
      rw [if_neg, add_zero]
      unfold isPure
      intro hq
      obtain rfl | rfl : X = 0 ∨ X = 1 := by omega
      · exact hc (Or.inl ⟨rfl, by simpa using hq⟩)
      · exact hc (Or.inr ⟨rfl, by simpa using hq⟩)
  · unfold pop purifyIfNeeded
    rw [k.pureE, k.pureB, if_neg hp]
    dsimp only
    rw [es, el, k.mask, e0]
    apply linCoef_at
    intro L l'
    unfold hfac
    rw [if_neg, add_zero]
    unfold isPure
    simp only [Bool.or_eq_true, not_or, Bool.not_eq_true] at hp
    split_ifs <;> simp [hp.1, hp.2]

/-! ## The workspace -/

theorem beamList_getD (f : FieldObj) {l : ℕ} (h : l < f.beam.1) : f.beamList.getD l 0 = f.beam.2 l := by
  unfold FieldObj.beamList
  rw [List.getD_eq_getElem?_getD, List.getElem?_map, List.getElem?_range h]
  rfl

theorem range_getD (g : ℕ → ℝ) {n l : ℕ} (h : l < n) : ((List.range n).map g).getD l 0 = g l := by
  rw [List.getD_eq_getElem?_getD, List.getElem?_map, List.getElem?_range h]
  rfl

/-- A workspace made from fields with isotropic masks. -/
theorem wsp_iso {W : Wigner} {env : FieldEnv} {minfo : MapInfo} {f1 f2 : FieldObj} {same : Bool} {B : Bins ℝ} {wa : WspArgs} {w : Wsp ℝ}
    (h1 : f1.maskA = none) (h2 : f2.maskA = none) (h : wspFromFields W env minfo f1 f2 same B wa = .ok w) :
    f1.lmax = B.ellMax ∧ ∃ n, normOf env.pix f1 f2 wa.norm = .ok n ∧
      compCouplingMatrix W (couplingArgsOf f1 f2 wa) f1.lmax ((List.range (f1.lmaxMask + 1)).map
        (maskSpectrum (f1.view env.sht minfo) (f2.view env.sht minfo) same)) f1.beamList f2.beamList B n.1 n.2 = .ok w := by
  unfold wspFromFields at h
  simp only [h1, h2, Option.isSome_none, Bool.or_self, Bool.false_eq_true, false_and, if_false] at h
  split_ifs at h with q1 q2
  refine ⟨not_not.1 q2, ?_⟩
  split at h
  · cases h
  · cases hn : normOf env.pix f1 f2 wa.norm with
    | crash => rw [hn] at h; cases h
    | raises e => rw [hn] at h; cases h
    | ok n =>
      rw [hn] at h
      exact ⟨n, rfl, h⟩

/-- The parts of a workspace returned by the C library. -/
theorem comp_parts {W : Wigner} {a : CouplingArgs} {lmaxFields : ℕ} {pcl beam1 beam2 : List ℝ} {B : Bins ℝ} {nt : ℤ} {w2 : ℝ} {w : Wsp ℝ}
    (h : compCouplingMatrix W a lmaxFields pcl beam1 beam2 B nt w2 = .ok w) :
    beam1.length = lmaxFields + 1 ∧ beam2.length = lmaxFields + 1 ∧ B.ellMax ≤ lmaxFields ∧ ∃ p U, w = buildWsp a.ncls lmaxFields a.lmaxMask a.teb nt w2
      (fun l => beam1.getD l 0) (fun l => beam2.getD l 0) p U B := by
  unfold compCouplingMatrix at h
  split_ifs at h with q1
  push Not at q1
  unfold computeCouplingMatrix at h
  split_ifs at h with q2 q3 q4 q5
  refine ⟨q1.1, q1.2.1, by omega, _, _, (Outcome.ok.inj h).symm⟩

theorem FieldsOf.facts {Ω : Type*} {env : FieldEnv} {a : FieldArgs} {s lmax lmaxMask : ℕ} {w : ℕ → ℤ → ℂ}
    {F : Ω → ℕ → ℕ → ℤ → ℂ} {maps : Ω → MapStack} {f : Ω → FieldObj} (h : FieldsOf env a s lmax lmaxMask w F maps f) (ω : Ω) :
    (f ω).lmax = lmax ∧ (f ω).lmaxMask = lmaxMask ∧ (f ω).spin = (s : ℤ) ∧ (f ω).maskA = none ∧ (f ω).mask = a.mask ∧
      (f ω).pureE = a.purifyE ∧ (f ω).pureB = a.purifyB ∧ (f ω).nIterMask = a.nIterMask ∧ (f ω).nmaps = ncomp s ∧
      (f ω).beam = a.beam.getD (lmax + 1, fun _ => 1) ∧ (a.purifyE || a.purifyB → s = 2) := by
  have k := field_is env a h.iso (ncomp s) env.pix.npix (maps ω) (f ω) (h.made ω)
  obtain ⟨k1, k3, k2, -⟩ := field_rest env a h.iso h.bare _ _ _ _ (h.made ω)
  refine ⟨by rw [k.lmax, h.bandLimit]; rfl, by rw [k.lmaxMask, h.maskBandLimit]; rfl, by rw [k.spin, h.spin], k1, k.mask, k.pureE, k.pureB,
    k.nIterMask, k.nmaps, ?_, ?_⟩
  · rw [k3, h.bandLimit]; rfl
  · intro hp
    have := k2 hp
    rw [k.spin, h.spin] at this
    exact_mod_cast this

/-- The workspace does not depend on the maps. -/
theorem wsp_same {Ω : Type*} {W : Wigner} {env : FieldEnv} {minfo : MapInfo} {a1 a2 : FieldArgs} {s1 s2 lmax lmaxMask : ℕ} {w1 w2 : ℕ → ℤ → ℂ}
    {F1 F2 : Ω → ℕ → ℕ → ℤ → ℂ} {m1 m2 : Ω → MapStack} {f1 f2 : Ω → FieldObj} (h1 : FieldsOf env a1 s1 lmax lmaxMask w1 F1 m1 f1)
    (h2 : FieldsOf env a2 s2 lmax lmaxMask w2 F2 m2 f2) (same : Bool) (B : Bins ℝ) (wa : WspArgs) (ω ω' : Ω) :
    wspFromFields W env minfo (f1 ω) (f2 ω) same B wa = wspFromFields W env minfo (f1 ω') (f2 ω') same B wa := by
  obtain ⟨p1, p2, p3, p4, p5, p6, p7, p8, p9, p10, -⟩ := h1.facts ω
  obtain ⟨q1, q2, q3, q4, q5, q6, q7, q8, q9, q10, -⟩ := h1.facts ω'
  obtain ⟨r1, r2, r3, r4, r5, r6, r7, r8, r9, r10, -⟩ := h2.facts ω
  obtain ⟨t1, t2, t3, t4, t5, t6, t7, t8, t9, t10, -⟩ := h2.facts ω'
  unfold wspFromFields couplingArgsOf normOf FieldObj.view FieldObj.beamList FieldObj.getMaskAlms maskSpectrum
  simp only [p1, p2, p3, p4, p5, p6, p7, p8, p10, q1, q2, q3, q4, q5, q6, q7, q8, q10, r1, r2, r3, r4, r5, r6, r7, r8, r10, t1, t2, t3, t4, t5,
    t6, t7, t8, t10, Option.isSome_none, Bool.or_self, Bool.false_eq_true, if_false]

/-! ## C81 -/

/-- C81: the mean of the pseudo-spectra computed from masked maps of statistically isotropic skies is the true spectrum passed through
the coupling matrix of the workspace made from the same fields (`couple_cell`), including beams and E/B purification. -/
theorem C81_mean {Ω : Type*} [MeasurableSpace Ω] (μ : Measure Ω) (env : FieldEnv) (hS : env.sht.ReadsTriangle) (minfo : MapInfo)
    (a1 a2 : FieldArgs) (s1 s2 lmax lmaxMask : ℕ) (w1 w2 : ℕ → ℤ → ℂ) (F1 F2 : Ω → ℕ → ℕ → ℤ → ℂ) (m1 m2 : Ω → MapStack)
    (f1 f2 : Ω → FieldObj) (h1 : FieldsOf env a1 s1 lmax lmaxMask w1 F1 m1 f1) (h2 : FieldsOf env a2 s2 lmax lmaxMask w2 F2 m2 f2)
    (C : Arr2 ℝ) (hr : C.rows = ncomp s1 * ncomp s2) (hc : C.cols = lmax + 1)
    (hI : Isotropic μ (ncomp s1) (ncomp s2) lmax F1 F2 fun X Y l => a1.beamAt l * a2.beamAt l * C.val (ncomp s2 * X + Y) l)
    (same : Bool) (hsame : same = true → f1 = f2) (B : Bins ℝ) (wa : WspArgs) (hteb : wa.isTeb = false) (hT : wa.lT ≤ 0)
    (hother : a2.purifyE || a2.purifyB → s1 = 0 ∨ s1 = 2) (ω0 : Ω) (w : Wsp ℝ)
    (hw : wspFromFields racah env minfo (f1 ω0) (f2 ω0) same B wa = .ok w) :
    ∃ (P : Ω → Arr2 ℝ) (U : ℕ → ℕ → ℝ) (R : Arr2 ℝ),
      (∀ ω, computeCoupledCell ((f1 ω).view env.sht minfo) ((f2 ω).view env.sht minfo) same = .ok (some (P ω))) ∧
      w.unbinned = some U ∧ coupleCell w U C = .ok R ∧
      (∀ ω, (P ω).rows = R.rows ∧ (P ω).cols = R.cols) ∧ R.rows = ncomp s1 * ncomp s2 ∧ R.cols = lmax + 1 ∧
      ∀ k < ncomp s1 * ncomp s2, ∀ l ≤ lmax, Integrable (fun ω => (P ω).val k l) μ ∧ ∫ ω, (P ω).val k l ∂μ = R.val k l := by
  obtain ⟨p1, p2, p3, p4, p5, p6, p7, p8, p9, p10, p11⟩ := h1.facts ω0
  obtain ⟨r1, r2, r3, r4, r5, r6, r7, r8, r9, r10, r11⟩ := h2.facts ω0
  obtain ⟨hB, n, -, hcomp⟩ := wsp_iso p4 r4 hw
  obtain ⟨hb1, hb2, -, p, U0, hbuild⟩ := comp_parts hcomp
  have hpair : (couplingArgsOf (f1 ω0) (f2 ω0) wa).PurePair := by
    unfold couplingArgsOf
    rw [p3, r3, p6, p7, r6, r7]
    refine ⟨hteb, ?_, ?_, ?_, hT⟩
    · intro h; exact p11 (by simpa using h)
    · intro h; exact r11 (by simpa using h)
    · intro h; exact hother (by simpa using h)
  obtain ⟨hncls, U, hU, hUv⟩ := matrix_kernel hpair hcomp
  have e1 : (couplingArgsOf (f1 ω0) (f2 ω0) wa).spin1 = s1 := by unfold couplingArgsOf; rw [p3]; rfl
  have e2 : (couplingArgsOf (f1 ω0) (f2 ω0) wa).spin2 = s2 := by unfold couplingArgsOf; rw [r3]; rfl
  rw [e1, e2] at hncls
  have hwl : w.lmax = lmax := by rw [hbuild]; change B.ellMax = lmax; rw [← hB, p1]
  have hbeam : ∀ l ≤ lmax, w.beamProd l = a1.beamAt l * a2.beamAt l := by
    intro l hl
    rw [hbuild]
    change tab ((f1 ω0).lmax + 1) (fun l => (f1 ω0).beamList.getD l 0 * (f2 ω0).beamList.getD l 0) l = _
    have hlen : ∀ f : FieldObj, f.beamList.length = f.beam.1 := by intro f; unfold FieldObj.beamList; simp
    rw [hlen, p1] at hb1
    rw [hlen, p1] at hb2
    rw [p1, tab_of_lt _ (by omega), beamList_getD _ (by omega), beamList_getD _ (by omega), p10, r10]
    unfold FieldArgs.beamAt
    congr 1
    · cases a1.beam <;> rfl
    · cases a2.beam <;> rfl
  choose A1 hA1 hA1p hA1v using fun ω => pop_lin_coef hS h1 ω (X := 0) (l := 0) (m := 0) (by unfold ncomp; split_ifs <;> omega) (Nat.zero_le _) le_rfl
  choose A2 hA2 hA2p hA2v using fun ω => pop_lin_coef hS h2 ω (X := 0) (l := 0) (m := 0) (by unfold ncomp; split_ifs <;> omega) (Nat.zero_le _) le_rfl
  have v1 : ∀ ω, ∀ X < ncomp s1, ∀ l ≤ lmax, ∀ m ≤ l, A1 ω X l m =
      linCoef (ncomp s1) lmaxMask lmax (hfac s1 a1.purifyE a1.purifyB) w1 (F1 ω) X l m := by
    intro ω X hX l hl m hm
    obtain ⟨A, hA, hAp, hv⟩ := pop_lin_coef hS h1 ω hX hl hm
    rw [← hv, hAp, hA1p]
  have v2 : ∀ ω, ∀ X < ncomp s2, ∀ l ≤ lmax, ∀ m ≤ l, A2 ω X l m =
      linCoef (ncomp s2) lmaxMask lmax (hfac s2 a2.purifyE a2.purifyB) w2 (F2 ω) X l m := by
    intro ω X hX l hl m hm
    obtain ⟨A, hA, hAp, hv⟩ := pop_lin_coef hS h2 ω hX hl hm
    rw [← hv, hAp, hA2p]
  have hP : ∀ ω, computeCoupledCell ((f1 ω).view env.sht minfo) ((f2 ω).view env.sht minfo) same =
      .ok (some (Arr2.of (ncomp s1 * ncomp s2) (lmax + 1) fun k l => alm2cl (A1 ω (k / ncomp s2)) (A2 ω (k % ncomp s2)) l)) := by
    intro ω
    obtain ⟨x1, x2, -, -, -, -, -, -, x9, -⟩ := h1.facts ω
    obtain ⟨y1, y2, -, -, -, -, -, -, y9, -⟩ := h2.facts ω
    rw [coupled_fields env minfo (f1 ω) (f2 ω) same (x1.trans y1.symm) (x2.trans y2.symm) _ _ (hA1 ω) (hA2 ω), x9, y9, x1]
  refine ⟨_, U, _, hP, hU, coupleCell_ok w U C (hr.trans hncls.symm) (by omega), ?_, hncls, by change w.lmax + 1 = _; rw [hwl], ?_⟩
  · intro ω
    refine ⟨hncls.symm, ?_⟩
    change lmax + 1 = w.lmax + 1
    rw [hwl]
  intro k hk l hl
  have hn2 : 0 < ncomp s2 := by unfold ncomp; split_ifs <;> omega
  have hX : k / ncomp s2 < ncomp s1 := Nat.div_lt_of_lt_mul (by rwa [mul_comm] at hk)
  have hY : k % ncomp s2 < ncomp s2 := Nat.mod_lt _ hn2
  have h2' : ∀ s X, X < ncomp s → X < 2 := by intro s X; unfold ncomp; split_ifs <;> omega
  have hcoefs1 : ∀ L ≤ lmaxMask, ∀ m ≤ L, (f1 ω0).getMaskAlms env.sht L m = w1 L m := by
    unfold FieldObj.getMaskAlms; rw [p2, p8, p5]; exact h1.maskCoefs
  have hcoefs2 : ∀ L ≤ lmaxMask, ∀ m ≤ L, (f2 ω0).getMaskAlms env.sht L m = w2 L m := by
    unfold FieldObj.getMaskAlms; rw [r2, r8, r5]; exact h2.maskCoefs
  obtain ⟨hint, hval⟩ := alm2cl_mean_real hI h1.skyReal h2.skyReal (Nw := lmaxMask) (h1 := hfac s1 a1.purifyE a1.purifyB)
    (h2 := hfac s2 a2.purifyE a2.purifyB) (fun X l L l' => hfac_triangle _ _ _ _) h1.maskReal h2.maskReal (A1 := A1) (A2 := A2)
    (h2' _ _ hX) (h2' _ _ hY) (fun ω => v1 ω _ hX l hl) (fun ω => v2 ω _ hY l hl) hcoefs1 hcoefs2
  have hof : ∀ (g : ℕ → ℕ → ℝ) (n : ℕ), n = ncomp s1 * ncomp s2 → (Arr2.of n (lmax + 1) g).val k l = g k l :=
    fun g n hn => tab2_of_lt _ (hn ▸ hk) (by omega)
  rw [hwl]
  simp only [hof _ _ rfl, hof _ _ hncls]
  refine ⟨hint, hval.trans ?_⟩
  unfold coupleCl
  refine sum_congr rfl fun l' hl' => ?_
  rw [mem_range] at hl'
  rw [hncls, mul_comm (ncomp s1) (ncomp s2), sum_flat]
  refine sum_congr rfl fun X' hX' => sum_congr rfl fun Y' hY' => ?_
  rw [mem_range] at hX' hY'
  rw [hbeam l' (by omega)]
  have hk' : k = ncomp s2 * (k / ncomp s2) + k % ncomp s2 := (Nat.div_add_mod _ _).symm
  have hUk := hUv l l' (k / ncomp s2) (k % ncomp s2) X' Y' (by omega) (by omega) (by rw [e1]; exact hX) (by rw [e2]; exact hY)
    (by rw [e1]; exact hX') (by rw [e2]; exact hY')
  rw [e1, e2, ← hk', hncls, mul_comm (ncomp s1) (ncomp s2)] at hUk
  rw [hUk]
  have hk1 : kernelMatrix (hfac s1 a1.purifyE a1.purifyB) (hfac s2 a2.purifyE a2.purifyB) lmaxMask
      (alm2cl ((f1 ω0).getMaskAlms env.sht) ((f2 ω0).getMaskAlms env.sht)) l (k / ncomp s2) (k % ncomp s2) l' X' Y' =
      kernelMatrix (hfac s1 (couplingArgsOf (f1 ω0) (f2 ω0) wa).pe1 (couplingArgsOf (f1 ω0) (f2 ω0) wa).pb1)
        (hfac s2 (couplingArgsOf (f1 ω0) (f2 ω0) wa).pe2 (couplingArgsOf (f1 ω0) (f2 ω0) wa).pb2)
        (couplingArgsOf (f1 ω0) (f2 ω0) wa).lmaxMask
        (fun l => (List.map (maskSpectrum ((f1 ω0).view env.sht minfo) ((f2 ω0).view env.sht minfo) same)
          (List.range ((f1 ω0).lmaxMask + 1))).getD l 0) l (k / ncomp s2) (k % ncomp s2) l' X' Y' := by
    unfold couplingArgsOf
    dsimp only
    rw [p6, p7, r6, r7, p2]
    unfold kernelMatrix
    congr 1
    refine sum_congr rfl fun L hL => ?_
    rw [mem_range] at hL
    dsimp only
    rw [range_getD _ hL]
    congr 4
    unfold maskSpectrum FieldObj.view
    dsimp only
    cases same with
    | false => simp
    | true => rw [hsame rfl]; simp
  rw [hk1]
  ring

/-- Decoupling commutes with the mean. -/
theorem decouple_mean {Ω : Type*} [MeasurableSpace Ω] (μ : Measure Ω) (L : LinAlg ℝ) (hL : L.Correct) (w : Wsp ℝ)
    (hreg : Regular w.nBinned w.binned) (P : Ω → Arr2 ℝ) (R : Arr2 ℝ)
    (hP : ∀ k < w.ncls, ∀ b ∈ w.bin.bands, ∀ e ∈ b, Integrable (fun ω => (P ω).val k e.ell) μ ∧ ∫ ω, (P ω).val k e.ell ∂μ = R.val k e.ell) {k b : ℕ}
    (hk : k < w.ncls) (hb : b < w.bin.nBands) :
    Integrable (fun ω => decoupleCl L w.ncls w.bin w.binned (P ω).val (fun _ _ => 0) (fun _ _ => 0) k b) μ ∧
    ∫ ω, decoupleCl L w.ncls w.bin w.binned (P ω).val (fun _ _ => 0) (fun _ _ => 0) k b ∂μ =
      decoupleCl L w.ncls w.bin w.binned R.val (fun _ _ => 0) (fun _ _ => 0) k b := by
  have hreg' : Regular (w.ncls * w.bin.nBands) w.binned := hreg
  unfold decoupleCl
  simp only [hL.solve_invert hreg' _ _ (flat_lt hk hb)]
  have key : ∀ j ∈ range (w.ncls * w.bin.nBands), Integrable (fun ω => binnedInput w.ncls w.bin (P ω).val (fun _ _ => 0) (fun _ _ => 0) j) μ ∧
      ∫ ω, binnedInput w.ncls w.bin (P ω).val (fun _ _ => 0) (fun _ _ => 0) j ∂μ =
        binnedInput w.ncls w.bin R.val (fun _ _ => 0) (fun _ _ => 0) j := by
    intro j hj
    rw [mem_range] at hj
    have hn : 0 < w.ncls := by by_contra h; simp [Nat.eq_zero_of_not_pos h] at hj
    have e : j = w.ncls * (j / w.ncls) + j % w.ncls := (Nat.div_add_mod _ _).symm
    rw [e]
    simp only [binnedInput_apply w.ncls w.bin _ _ _ (Nat.mod_lt j hn) (Nat.div_lt_of_lt_mul hj), sub_zero]
    have hm : ∀ e ∈ w.bin.band (j / w.ncls), ∃ b ∈ w.bin.bands, e ∈ b := by
      intro e he
      obtain ⟨b, hb, he'⟩ := band_mem he
      exact ⟨b, hb, he'⟩
    clear e
    revert hm
    induction w.bin.band (j / w.ncls) with
    | nil => intro _; simp
    | cons e t ih =>
      intro hm
      obtain ⟨i1, i2⟩ := ih fun e he => hm e (List.mem_cons_of_mem _ he)
      obtain ⟨b0, hb0, he0⟩ := hm e List.mem_cons_self
      obtain ⟨g1, g2⟩ := hP (j % w.ncls) (Nat.mod_lt j hn) b0 hb0 e he0
      simp only [List.map_cons, List.sum_cons]
      have g3 := (g1.mul_const e.f).mul_const e.w
      refine ⟨g3.add i1, ?_⟩
      rw [integral_add g3 i1, i2, integral_mul_const, integral_mul_const, g2]
  refine ⟨integrable_finsetSum _ fun j hj => (key j hj).1.const_mul _, ?_⟩
  rw [integral_finsetSum _ fun j hj => (key j hj).1.const_mul _]
  refine sum_congr rfl fun j hj => ?_
  rw [integral_const_mul, (key j hj).2]

/-- C81: the mean of the bandpowers returned by `compute_full_master` is the true spectrum convolved with the bandpower windows of the
workspace; the bands may be any. -/
theorem C81_bandpowers {Ω : Type*} [MeasurableSpace Ω] (μ : Measure Ω) (L : LinAlg ℝ) (hL : L.Correct) (env : FieldEnv)
    (hS : env.sht.ReadsTriangle) (minfo : MapInfo)
    (a1 a2 : FieldArgs) (s1 s2 lmax lmaxMask : ℕ) (w1 w2 : ℕ → ℤ → ℂ) (F1 F2 : Ω → ℕ → ℕ → ℤ → ℂ) (m1 m2 : Ω → MapStack)
    (f1 f2 : Ω → FieldObj) (h1 : FieldsOf env a1 s1 lmax lmaxMask w1 F1 m1 f1) (h2 : FieldsOf env a2 s2 lmax lmaxMask w2 F2 m2 f2)
    (C : Arr2 ℝ) (hr : C.rows = ncomp s1 * ncomp s2) (hc : C.cols = lmax + 1)
    (hI : Isotropic μ (ncomp s1) (ncomp s2) lmax F1 F2 fun X Y l => a1.beamAt l * a2.beamAt l * C.val (ncomp s2 * X + Y) l)
    (same : Bool) (hsame : same = true → f1 = f2) (B : Bins ℝ) (hell : WspSpec.Bounded B B.ellMax) (wa : WspArgs) (hteb : wa.isTeb = false)
    (hT : wa.lT ≤ 0) (hother : a2.purifyE || a2.purifyB → s1 = 0 ∨ s1 = 2) (ω0 : Ω) (w : Wsp ℝ)
    (hw : wspFromFields racah env minfo (f1 ω0) (f2 ω0) same B wa = .ok w) (hreg : Regular w.nBinned w.binned) (nIter : ℕ) :
    ∃ (D : Ω → Arr2 ℝ) (U : ℕ → ℕ → ℝ), w.unbinned = some U ∧
      (∀ ω, fullMaster L env nIter minfo (f1 ω) (f2 ω) same true (wspFromFields racah env minfo (f1 ω) (f2 ω) same B wa) none none none =
        .ok (some (D ω))) ∧
      (∀ ω, (D ω).rows = ncomp s1 * ncomp s2 ∧ (D ω).cols = B.nBands) ∧
      ∀ k < ncomp s1 * ncomp s2, ∀ b < B.nBands, Integrable (fun ω => (D ω).val k b) μ ∧
        ∫ ω, (D ω).val k b ∂μ = ∑ j ∈ range (ncomp s1 * ncomp s2), ∑ l ∈ range (lmax + 1), bandpowerWindows L w U k b j l * C.val j l := by
  obtain ⟨P, U, R, hP, hU, hR, hsh, hRr, hRc, hmean⟩ := C81_mean μ env hS minfo a1 a2 s1 s2 lmax lmaxMask w1 w2 F1 F2 m1 m2 f1 f2 h1 h2 C hr hc hI
    same hsame B wa hteb hT hother ω0 w hw
  obtain ⟨p1, -, -, p4, -⟩ := h1.facts ω0
  obtain ⟨-, -, -, r4, -⟩ := h2.facts ω0
  obtain ⟨hB, n, -, hcomp⟩ := wsp_iso p4 r4 hw
  obtain ⟨-, -, -, p, U0, hbuild⟩ := comp_parts hcomp
  have hwl : w.lmax = lmax := by rw [hbuild]; change B.ellMax = lmax; rw [← hB, p1]
  have hwb : w.bin = B := by rw [hbuild]; rfl
  have hncls : w.ncls = ncomp s1 * ncomp s2 := by
    unfold coupleCell at hR
    split_ifs at hR with q
    push Not at q
    rw [← q.1, hr]
  have hbd : WspSpec.Bounded w.bin w.lmax := by
    rw [hwb, hwl, ← p1, hB]; exact hell
  have hd : ∀ ω, decoupleCell L w (P ω) none none = .ok (Arr2.of w.ncls w.bin.nBands
      (decoupleCl L w.ncls w.bin w.binned (P ω).val (fun _ _ => 0) (fun _ _ => 0))) :=
    fun ω => decoupleCell_ok L w (P ω) (by rw [(hsh ω).1, hRr, hncls]) (by rw [(hsh ω).2, hRc, hwl])
  refine ⟨fun ω => Arr2.of w.ncls w.bin.nBands (decoupleCl L w.ncls w.bin w.binned (P ω).val (fun _ _ => 0) (fun _ _ => 0)), U, hU, ?_, ?_, ?_⟩
  · intro ω
    obtain ⟨x1, x2, -, -, -, -, -, -, x9, -⟩ := h1.facts ω
    obtain ⟨y1, y2, -, -, -, -, -, -, y9, -⟩ := h2.facts ω
    obtain ⟨n1, i1, l1⟩ := no_templates env _ (show (a1.withMaps (ncomp s1) env.pix.npix (m1 ω)).templates = none from h1.bare) (f1 ω) (h1.made ω)
    obtain ⟨n2, i2, l2⟩ := no_templates env _ (show (a2.withMaps (ncomp s2) env.pix.npix (m2 ω)).templates = none from h2.bare) (f2 ω) (h2.made ω)
    have hl1 : (f1 ω).lite = false := l1.trans h1.iso.full
    have hl2 : (f2 ω).lite = false := l2.trans h2.iso.full
    unfold fullMaster
    simp only [not_true_eq_false, false_and, if_false, view_compat env minfo _ _ _ (x1.trans y1.symm) (x2.trans y2.symm), Bool.true_eq_false,
      Option.any_none, Option.getD_none, Bool.false_eq_true]
    rw [hP ω]
    simp only [Outcome.bind]
    rw [bias_zero env nIter _ _ _ rfl rfl hl1 hl2 n1 n2 i1 i2]
    have hrows : (P ω).rows = (f1 ω).nmaps * (f2 ω).nmaps := by rw [(hsh ω).1, hRr, x9, y9]
    have hcols : (P ω).cols = (f1 ω).lmax + 1 := by rw [(hsh ω).2, hRc, x1]
    rw [wsp_same h1 h2 same B wa ω ω0, hw]
    simp only [pickWsp, subO, Arr2.sub, hrows, hcols, ne_eq, not_true_eq_false, or_self, if_false, Outcome.bind, sub_zero]
    have e : (⟨(f1 ω).nmaps * (f2 ω).nmaps, (f1 ω).lmax + 1, fun i j => (P ω).val i j⟩ : Arr2 ℝ) = P ω := by
      rw [← hrows, ← hcols]
    rw [e, hd]
  · intro ω
    exact ⟨hncls, by rw [← hwb]; rfl⟩
  · intro k hk b hb
    rw [← hwb] at hb
    rw [← hncls] at hk hmean
    rw [← hwl] at hmean
    obtain ⟨g1, g2⟩ := decouple_mean μ L hL w hreg P R (fun k hk b hb e he => hmean k hk e.ell (hbd b hb e he)) hk hb
    have hof : ∀ g : ℕ → ℕ → ℝ, (Arr2.of w.ncls w.bin.nBands g).val k b = g k b := fun g => tab2_of_lt _ hk hb
    simp only [hof]
    refine ⟨g1, g2.trans ?_⟩
    have h6 := C06_windows_describe_decoupling L hL w U hbd hreg C (by rw [hr, hncls]) (by omega)
    rw [hR] at h6
    simp only [Outcome.bind] at h6
    rw [decoupleCell_ok L w R (by rw [hRr, hncls]) (by omega)] at h6
    have h7 := congrArg (fun a => a.val k b) (Outcome.ok.inj h6)
    simp only [hof] at h7
    rw [h7, hncls, hwl]

/-- C81: with the MASTER normalisation, if the true spectrum is constant (up to the prefactor) in each band, the mean of the bandpowers
returned by `compute_full_master` is exactly the true one: the estimator is unbiased. -/
theorem C81_unbiased {Ω : Type*} [MeasurableSpace Ω] (μ : Measure Ω) (L : LinAlg ℝ) (hL : L.Correct) (env : FieldEnv)
    (hS : env.sht.ReadsTriangle) (minfo : MapInfo)
    (a1 a2 : FieldArgs) (s1 s2 lmax lmaxMask : ℕ) (w1 w2 : ℕ → ℤ → ℂ) (F1 F2 : Ω → ℕ → ℕ → ℤ → ℂ) (m1 m2 : Ω → MapStack)
    (f1 f2 : Ω → FieldObj) (h1 : FieldsOf env a1 s1 lmax lmaxMask w1 F1 m1 f1) (h2 : FieldsOf env a2 s2 lmax lmaxMask w2 F2 m2 f2)
    (B : Bins ℝ) (hell : WspSpec.Bounded B B.ellMax) (hnr : BinSpec.NoRepeats B) (y C : Arr2 ℝ) (hyr : y.rows = ncomp s1 * ncomp s2)
    (hyc : y.cols = B.nBands) (hC : unbinCells B y = .ok C)
    (hI : Isotropic μ (ncomp s1) (ncomp s2) lmax F1 F2 fun X Y l => a1.beamAt l * a2.beamAt l * C.val (ncomp s2 * X + Y) l)
    (same : Bool) (hsame : same = true → f1 = f2) (wa : WspArgs) (hteb : wa.isTeb = false) (hnorm : wa.norm = "MASTER")
    (hT : wa.lT ≤ 0) (hother : a2.purifyE || a2.purifyB → s1 = 0 ∨ s1 = 2) (ω0 : Ω) (w : Wsp ℝ)
    (hw : wspFromFields racah env minfo (f1 ω0) (f2 ω0) same B wa = .ok w) (hreg : Regular w.nBinned w.binned) (nIter : ℕ) :
    ∃ D : Ω → Arr2 ℝ,
      (∀ ω, fullMaster L env nIter minfo (f1 ω) (f2 ω) same true (wspFromFields racah env minfo (f1 ω) (f2 ω) same B wa) none none none =
        .ok (some (D ω))) ∧
      (∀ ω, (D ω).rows = y.rows ∧ (D ω).cols = y.cols) ∧
      ∀ k < y.rows, ∀ b < y.cols, Integrable (fun ω => (D ω).val k b) μ ∧ ∫ ω, (D ω).val k b ∂μ = y.val k b := by
  obtain ⟨p1, -, -, p4, -⟩ := h1.facts ω0
  obtain ⟨-, -, -, r4, -⟩ := h2.facts ω0
  obtain ⟨hB, n, hn, hcomp⟩ := wsp_iso p4 r4 hw
  obtain ⟨-, -, -, p, U0, hbuild⟩ := comp_parts hcomp
  have hC' : C.rows = ncomp s1 * ncomp s2 ∧ C.cols = lmax + 1 := by
    unfold unbinCells at hC
    rw [if_neg (by simp [hyc])] at hC
    rw [← Outcome.ok.inj hC]
    exact ⟨hyr, by change B.ellMax + 1 = _; rw [← hB, p1]⟩
  obtain ⟨D, U, hU, hD, hsh, hmean⟩ := C81_bandpowers μ L hL env hS minfo a1 a2 s1 s2 lmax lmaxMask w1 w2 F1 F2 m1 m2 f1 f2 h1 h2 C hC'.1 hC'.2 hI
    same hsame B hell wa hteb hT hother ω0 w hw hreg nIter
  refine ⟨D, hD, fun ω => by rw [hyr, hyc]; exact hsh ω, ?_⟩
  intro k hk b hb
  rw [hyr] at hk
  rw [hyc] at hb
  obtain ⟨g1, g2⟩ := hmean k hk b hb
  refine ⟨g1, g2.trans ?_⟩
  have hn0 : n.1 = 0 := by
    unfold normOf at hn
    rw [if_pos hnorm] at hn
    rw [← Outcome.ok.inj hn]
  set m := (couplingArgsOf (f1 ω0) (f2 ω0) wa).ncls * (B.ellMax + 1) with hm
  have hUe : U = tab2 m m U0 := by
    rw [hbuild] at hU
    exact (Option.some.inj hU).symm
  have htt : tab2 m m (tab2 m m U0) = tab2 m m U0 := by
    funext i j
    unfold tab2
    split_ifs <;> rfl
  have hwb : w = WspSpec.build ⟨(couplingArgsOf (f1 ω0) (f2 ω0) wa).ncls, B.ellMax, (f1 ω0).lmax, (couplingArgsOf (f1 ω0) (f2 ω0) wa).lmaxMask,
      (couplingArgsOf (f1 ω0) (f2 ω0) wa).teb, n.1, n.2, p⟩ ⟨fun l => (f1 ω0).beamList.getD l 0, fun l => (f2 ω0).beamList.getD l 0, U, B⟩ := by
    rw [hbuild]
    unfold WspSpec.build buildWsp
    simp only [← hm, hUe, htt]
  have hncls : w.ncls = ncomp s1 * ncomp s2 := by
    obtain ⟨P, U', R, -, -, hR, -⟩ := C81_mean μ env hS minfo a1 a2 s1 s2 lmax lmaxMask w1 w2 F1 F2 m1 m2 f1 f2 h1 h2 C hC'.1 hC'.2 hI
      same hsame B wa hteb hT hother ω0 w hw
    unfold coupleCell at hR
    split_ifs at hR with q
    push Not at q
    rw [← q.1, hC'.1]
  have hnc : (couplingArgsOf (f1 ω0) (f2 ω0) wa).ncls = ncomp s1 * ncomp s2 := by rw [← hncls, hbuild]; rfl
  have hwl : w.lmax = lmax := by rw [hbuild]; change B.ellMax = lmax; rw [← hB, p1]
  have hbin : w.bin = B := by rw [hbuild]; rfl
  have h7 := C07_master_exact L hL _ _ hn0 hell hnr (hwb ▸ hreg) y (hyr.trans hnc.symm) hyc
  rw [← hwb] at h7
  dsimp only at h7
  rw [hC] at h7
  change (coupleCell w U C).bind _ = _ at h7
  rw [C06_windows_describe_decoupling L hL w U (by rw [hbin, hwl, ← p1, hB]; exact hell) hreg C (by rw [hC'.1, hncls]) (by omega)] at h7
  have h8 := congrArg (fun a => a.val k b) (Outcome.ok.inj h7)
  rw [hncls, hbin, hyr, hyc, hwl] at h8
  have hof : ∀ g : ℕ → ℕ → ℝ, (Arr2.of (ncomp s1 * ncomp s2) B.nBands g).val k b = g k b := fun g => tab2_of_lt _ hk hb
  simp only [hof] at h8
  exact h8

end NaMaster
