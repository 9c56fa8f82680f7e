import Verif.SkyCov.Knox
import Verif.SkyCov.Decouple
import Verif.Sky.Props
import Verif.Covar.InitProps
import Verif.Wigner.Props

/-! # C84: covariances on the full sky -/

namespace NaMaster

open Finset MeasureTheory SkySpec WignerSpec CovSpec

namespace SkySpec

/-- `x` holds the spectra `C` of the components of a field of spin `s` with those of a field of spin `s'`. -/
def HoldsSpectra (x : Arr2 ℝ) (s s' lmax : ℕ) (C : ℕ → ℕ → ℕ → ℝ) : Prop :=
  ∀ X < ncomp s, ∀ Y < ncomp s', ∀ l ≤ lmax, x.val (Y + ncomp s' * X) l = C X Y l

/-- The spectra given to `gaussian_covariance` are the true ones. -/
structure TrueSpectra (x : CovCls ℝ) (s : ℕ → ℕ) (lmax : ℕ) (C : ℕ → ℕ → ℕ → ℕ → ℕ → ℝ) : Prop where
  ac : HoldsSpectra x.ac (s 0) (s 2) lmax (C 0 2)
  ad : HoldsSpectra x.ad (s 0) (s 3) lmax (C 0 3)
  bc : HoldsSpectra x.bc (s 1) (s 2) lmax (C 1 2)
  bd : HoldsSpectra x.bd (s 1) (s 3) lmax (C 1 3)

/-- A mask that is 1 in all pixels. -/
noncomputable def oneMask (npix : ℕ) (p : ℕ) : ℝ := if p < npix then 1 else 0

/-- Multipoles for which the coefficients of fields of spin 2 are those of all fields: any if all fields are scalars, otherwise those
not below 2 and the spins. -/
def HighMultipole (s : ℕ → ℕ) (l : ℕ) : Prop := (∀ i < 4, s i = 0) ∨ (2 ≤ l ∧ ∀ i < 4, s i ≤ l)

end SkySpec

theorem oneMask_sq (n p : ℕ) : oneMask n p * oneMask n p = oneMask n p := by unfold oneMask; split_ifs <;> norm_num

theorem nmaps_ncomp (s : ℕ) : nmaps (s : ℤ) = ncomp s := by
  unfold nmaps ncomp
  by_cases h : s = 0
  · subst h; rfl
  · rw [if_neg h, if_pos (by exact_mod_cast h)]

theorem ncomp_cases (s : ℕ) : ncomp s = 1 ∨ ncomp s = 2 := by unfold ncomp; split_ifs <;> simp

theorem ncomp_one {s : ℕ} : ncomp s = 1 ↔ s = 0 := by unfold ncomp; split_ifs with h <;> simp [h]

/-- The spectra computed from two fields, in terms of coefficients. -/
theorem pair_spectra {Ω : Type*} {env : FieldEnv} (hS : env.sht.ReadsTriangle) {minfo : MapInfo} {a1 a2 : FieldArgs} {s1 s2 lmax lmaxMask : ℕ}
    {w1 w2 : ℕ → ℤ → ℂ} {F1 F2 : Ω → ℕ → ℕ → ℤ → ℂ} {m1 m2 : Ω → MapStack} {f1 f2 : Ω → FieldObj}
    (h1 : FieldsOf env a1 s1 lmax lmaxMask w1 F1 m1 f1) (h2 : FieldsOf env a2 s2 lmax lmaxMask w2 F2 m2 f2) {same : Bool} {P : Ω → Arr2 ℝ}
    (hP : ∀ ω, computeCoupledCell ((f1 ω).view env.sht minfo) ((f2 ω).view env.sht minfo) same = .ok (some (P ω))) :
    ∃ A1 A2 : Ω → Alms,
      (∀ ω, ∀ X < ncomp s1, ∀ l ≤ lmax, ∀ m ≤ l, A1 ω X l m = linCoef (ncomp s1) lmaxMask lmax (hfac s1 a1.purifyE a1.purifyB) w1 (F1 ω) X l m) ∧
      (∀ ω, ∀ X < ncomp s2, ∀ l ≤ lmax, ∀ m ≤ l, A2 ω X l m = linCoef (ncomp s2) lmaxMask lmax (hfac s2 a2.purifyE a2.purifyB) w2 (F2 ω) X l m) ∧
      ∀ ω, (P ω).rows = ncomp s1 * ncomp s2 ∧ (P ω).cols = lmax + 1 ∧
        ∀ X < ncomp s1, ∀ Y < ncomp s2, ∀ l ≤ lmax, (P ω).val (Y + ncomp s2 * X) l = alm2cl (A1 ω X) (A2 ω Y) l := by
  choose A1 hA1 hA1p hA1v using fun ω => pop_lin_coef hS h1 ω (X := 0) (l := 0) (m := 0) (by unfold ncomp; split_ifs <;> omega) (Nat.zero_le _) le_rfl
  choose A2 hA2 hA2p hA2v using fun ω => pop_lin_coef hS h2 ω (X := 0) (l := 0) (m := 0) (by unfold ncomp; split_ifs <;> omega) (Nat.zero_le _) le_rfl
  refine ⟨A1, A2, ?_, ?_, ?_⟩
  · intro ω X hX l hl m hm
    obtain ⟨A, hA, hAp, hv⟩ := pop_lin_coef hS h1 ω hX hl hm
    rw [← hv, hAp, hA1p]
  · intro ω X hX l hl m hm
    obtain ⟨A, hA, hAp, hv⟩ := pop_lin_coef hS h2 ω hX hl hm
    rw [← hv, hAp, hA2p]
  · intro ω
    obtain ⟨x1, x2, -, -, -, -, -, -, x9, -⟩ := h1.facts ω
    obtain ⟨y1, y2, -, -, -, -, -, -, y9, -⟩ := h2.facts ω
    have e := hP ω
    rw [coupled_fields env minfo (f1 ω) (f2 ω) same (x1.trans y1.symm) (x2.trans y2.symm) _ _ (hA1 ω) (hA2 ω), x9, y9, x1] at e
    have e' := Option.some.inj (Outcome.ok.inj e)
    rw [← e']
    refine ⟨rfl, rfl, fun X hX Y hY l hl => ?_⟩
    have hk : Y + ncomp s2 * X < ncomp s1 * ncomp s2 := by
      calc Y + ncomp s2 * X < ncomp s2 + ncomp s2 * X := by omega
        _ = ncomp s2 * (X + 1) := by ring
        _ ≤ ncomp s2 * ncomp s1 := Nat.mul_le_mul_left _ hX
        _ = ncomp s1 * ncomp s2 := mul_comm _ _
    rw [Arr2.of_val _ hk (by omega), Nat.add_mul_div_left _ _ (by omega), Nat.div_eq_of_lt hY, zero_add, Nat.add_mul_mod_self_left, Nat.mod_eq_of_lt hY]

section
variable {Ω : Type*} [MeasurableSpace Ω] {μ : Measure Ω} {env : FieldEnv} {minfo : MapInfo} {a : ℕ → FieldArgs} {s : ℕ → ℕ} {lmax lmaxMask : ℕ}
  {w : ℕ → ℤ → ℂ} {F : ℕ → Ω → ℕ → ℕ → ℤ → ℂ} {maps : ℕ → Ω → MapStack} {f : ℕ → Ω → FieldObj} {C : ℕ → ℕ → ℕ → ℕ → ℕ → ℝ} {same same' : Bool}
  {P Q : Ω → Arr2 ℝ}

theorem full_covar (hS : env.sht.ReadsTriangle) (hf : ∀ i < 4, FieldsOf env (a i) (s i) lmax lmaxMask w (F i) (maps i) (f i))
    (hw : OneEverywhere w) (hG : GaussianSkies μ (fun i => ncomp (s i)) lmax F C)
    (hP : ∀ ω, computeCoupledCell ((f 0 ω).view env.sht minfo) ((f 1 ω).view env.sht minfo) same = .ok (some (P ω)))
    (hQ : ∀ ω, computeCoupledCell ((f 2 ω).view env.sht minfo) ((f 3 ω).view env.sht minfo) same' = .ok (some (Q ω)))
    (X : ℕ → ℕ) (hX : ∀ i < 4, X i < ncomp (s i)) {l l' : ℕ} (hl : l ≤ lmax) (hl' : l' ≤ lmax) :
    Integrable (fun ω => (P ω).val (X 1 + ncomp (s 1) * X 0) l) μ ∧ Integrable (fun ω => (Q ω).val (X 3 + ncomp (s 3) * X 2) l') μ ∧
    Integrable (fun ω => (P ω).val (X 1 + ncomp (s 1) * X 0) l * (Q ω).val (X 3 + ncomp (s 3) * X 2) l') μ ∧
    covar μ (fun ω => (P ω).val (X 1 + ncomp (s 1) * X 0) l) (fun ω => (Q ω).val (X 3 + ncomp (s 3) * X 2) l') =
      if l = l' ∧ ∀ i < 4, s i ≤ l then
        (C 0 2 (X 0) (X 2) l * C 1 3 (X 1) (X 3) l + C 0 3 (X 0) (X 3) l * C 1 2 (X 1) (X 2) l) / (2 * l + 1) else 0 := by
  obtain ⟨A0, A1, c0, c1, e1⟩ := pair_spectra hS (hf 0 (by norm_num)) (hf 1 (by norm_num)) hP
  obtain ⟨A2, A3, c2, c3, e2⟩ := pair_spectra hS (hf 2 (by norm_num)) (hf 3 (by norm_num)) hQ
  simp only [fun ω => (e1 ω).2.2 (X 0) (hX 0 (by norm_num)) (X 1) (hX 1 (by norm_num)) l hl,
    fun ω => (e2 ω).2.2 (X 2) (hX 2 (by norm_num)) (X 3) (hX 3 (by norm_num)) l' hl']
  let A : ℕ → Ω → ℕ → ℕ → ℂ := fun i ω => if i = 0 then A0 ω (X 0) else if i = 1 then A1 ω (X 1) else if i = 2 then A2 ω (X 2) else A3 ω (X 3)
  have hA : ∀ i < 4, ∀ ω, ∀ l ≤ lmax, ∀ m ≤ l, A i ω l m = if s i ≤ l then F i ω (X i) l m else 0 := by
    intro i hi ω l hl m hm
    have hm' : |(m : ℤ)| ≤ l := by rw [Nat.abs_cast]; exact_mod_cast hm
    have hXi := hX i hi
    obtain rfl | rfl | rfl | rfl : i = 0 ∨ i = 1 ∨ i = 2 ∨ i = 3 := by omega
    · exact (c0 ω (X 0) hXi l hl m hm).trans (full_linCoef hw _ hXi hl hm')
    · exact (c1 ω (X 1) hXi l hl m hm).trans (full_linCoef hw _ hXi hl hm')
    · exact (c2 ω (X 2) hXi l hl m hm).trans (full_linCoef hw _ hXi hl hm')
    · exact (c3 ω (X 3) hXi l hl m hm).trans (full_linCoef hw _ hXi hl hm')
  exact knox_truth hG (fun i hi ω X hX => (hf i hi).skyReal ω X hX) s X hX hA hl hl'

/-- C84: with masks that are 1 everywhere, the covariance of two pseudo-spectra of Gaussian isotropic skies is the textbook formula: zero for
different multipoles, otherwise the sum of two products of spectra over `2l+1`. -/
theorem C84_full_sky (hS : env.sht.ReadsTriangle) (hf : ∀ i < 4, FieldsOf env (a i) (s i) lmax lmaxMask w (F i) (maps i) (f i))
    (hw : OneEverywhere w) (hG : GaussianSkies μ (fun i => ncomp (s i)) lmax F C)
    (hP : ∀ ω, computeCoupledCell ((f 0 ω).view env.sht minfo) ((f 1 ω).view env.sht minfo) same = .ok (some (P ω)))
    (hQ : ∀ ω, computeCoupledCell ((f 2 ω).view env.sht minfo) ((f 3 ω).view env.sht minfo) same' = .ok (some (Q ω)))
    (X : ℕ → ℕ) (hX : ∀ i < 4, X i < ncomp (s i)) {l l' : ℕ} (hl : l ≤ lmax) (hl' : l' ≤ lmax) (hs : ∀ i < 4, s i ≤ l) :
    covar μ (fun ω => (P ω).val (X 1 + ncomp (s 1) * X 0) l) (fun ω => (Q ω).val (X 3 + ncomp (s 3) * X 2) l') =
      if l = l' then (C 0 2 (X 0) (X 2) l * C 1 3 (X 1) (X 3) l + C 0 3 (X 0) (X 3) l * C 1 2 (X 1) (X 2) l) / (2 * l + 1) else 0 := by
  rw [(full_covar hS hf hw hG hP hQ X hX hl hl').2.2.2]
  by_cases h : l = l'
  · rw [if_pos ⟨h, hs⟩, if_pos h]
  · rw [if_neg (fun h' => h h'.1), if_neg h]

/-! ## The coefficients -/

variable {S : Option MapInfo → Sht} {junk : ℕ → ℝ} {old : Option (CovWsp ℝ)} {lT lE dl : ℤ} {spin0 : Bool} {cw : CovWsp ℝ} {ω0 : Ω}

omit [MeasurableSpace Ω] in
theorem one_spectrum (hf : ∀ i < 4, FieldsOf env (a i) (s i) lmax lmaxMask w (F i) (maps i) (f i)) (hw : OneEverywhere w)
    (hmask : ∀ i < 4, (a i).mask = oneMask env.pix.npix) :
    productSpectrum env.sht lmaxMask (a 0).nIterMask (a 1).nIterMask (oneMask env.pix.npix) (oneMask env.pix.npix) (oneMask env.pix.npix) (oneMask env.pix.npix) 0 = 4 * Real.pi ∧
    ∀ L, 0 < L → L ≤ lmaxMask →
      productSpectrum env.sht lmaxMask (a 0).nIterMask (a 1).nIterMask (oneMask env.pix.npix) (oneMask env.pix.npix) (oneMask env.pix.npix) (oneMask env.pix.npix) L = 0 := by
  have h0 := (hf 0 (by norm_num)).maskCoefs
  have h1 := (hf 1 (by norm_num)).maskCoefs
  rw [hmask 0 (by norm_num)] at h0
  rw [hmask 1 (by norm_num)] at h1
  have hr := (hf 0 (by norm_num)).maskReal
  have e : ∀ L ≤ lmaxMask, (productSpectrum env.sht lmaxMask (a 0).nIterMask (a 1).nIterMask (oneMask env.pix.npix) (oneMask env.pix.npix) (oneMask env.pix.npix) (oneMask env.pix.npix) L : ℂ) =
      (∑ m ∈ Icc (-(L : ℤ)) L, w L m * (starRingEnd ℂ) (w L m)) / (2 * L + 1) := by
    intro L hL
    unfold productSpectrum
    simp only [oneMask_sq]
    exact alm2cl_full L (hr L) (hr L) (h0 L hL) (h1 L hL)
  have inj : ∀ x y : ℝ, (x : ℂ) = y → x = y := fun x y h => by exact_mod_cast h
  refine ⟨inj _ _ ?_, fun L hL hL' => inj _ _ ?_⟩
  · rw [e 0 (Nat.zero_le _)]
    simp only [Nat.cast_zero, neg_zero, Icc_self, sum_singleton]
    rw [hw.1, Complex.conj_ofReal, ← Complex.ofReal_mul, Real.mul_self_sqrt (by positivity)]
    simp
  · rw [e L hL', sum_eq_zero fun m _ => by rw [hw.2 L m (by omega), zero_mul]]
    simp

omit [MeasurableSpace Ω] in
theorem full_unmixing (hf : ∀ i < 4, FieldsOf env (a i) (s i) lmax lmaxMask w (F i) (maps i) (f i)) (hw : OneEverywhere w)
    (hmask : ∀ i < 4, (a i).mask = oneMask env.pix.npix) (hR : Respects S) (hSm : S (some minfo) = env.sht) (hT : lT ≤ 0)
    (hcw : covCompute racah S junk old ((f 0 ω0).covField minfo) ((f 1 ω0).covField minfo) (some ((f 2 ω0).covField minfo))
      (some ((f 3 ω0).covField minfo)) lT lE dl spin0 = (some cw, .ok ())) (hsp : spin0 = true → ∀ i < 4, s i = 0) :
    cw.lmax = lmax ∧ cw.spin0Only = spin0 ∧ ∀ l ≤ lmax, ∀ l' ≤ lmax, HighMultipole s l →
      Unmixing cw.x1122 (¬ ∀ i < 4, s i = 0) l l' (if l = l' then 1 / (2 * l + 1) else 0) ∧
      Unmixing cw.x1221 (¬ ∀ i < 4, s i = 0) l l' (if l = l' then 1 / (2 * l + 1) else 0) := by
  obtain ⟨p1, p2, p3, p4, p5, p6, p7, p8, -⟩ := (hf 0 (by norm_num)).facts ω0
  obtain ⟨-, -, -, -, q5, -, -, q8, -⟩ := (hf 1 (by norm_num)).facts ω0
  obtain ⟨-, -, -, -, r5, -, -, -, -⟩ := (hf 2 (by norm_num)).facts ω0
  obtain ⟨-, -, -, -, t5, -, -, -, -⟩ := (hf 3 (by norm_num)).facts ω0
  rw [hmask 0 (by norm_num)] at p5
  rw [hmask 1 (by norm_num)] at q5
  rw [hmask 2 (by norm_num)] at r5
  rw [hmask 3 (by norm_num)] at t5
  have hm : ((f 0 ω0).covField minfo).geom.minfo ≠ none := by unfold FieldObj.covField; simp
  have g1 : ((f 0 ω0).covField minfo).geom.lmax = lmax := p1
  have g2 : ((f 0 ω0).covField minfo).geom.lmaxMask = lmaxMask := p2
  have g3 : ((f 0 ω0).covField minfo).nIterMask = (a 0).nIterMask := p8
  have g4 : ((f 1 ω0).covField minfo).nIterMask = (a 1).nIterMask := q8
  have g5 : S ((f 0 ω0).covField minfo).geom.minfo = env.sht := hSm
  have k0 : ((f 0 ω0).covField minfo).mask = some (oneMask env.pix.npix) := congrArg some p5
  have k1 : ((f 1 ω0).covField minfo).mask = some (oneMask env.pix.npix) := congrArg some q5
  have k2 : ((f 2 ω0).covField minfo).mask = some (oneMask env.pix.npix) := congrArg some r5
  have k3 : ((f 3 ω0).covField minfo).mask = some (oneMask env.pix.npix) := congrArg some t5
  obtain ⟨o0, o1⟩ := one_spectrum hf hw hmask
  cases spin0 with
  | false =>
    obtain ⟨h1, h2, m1, m2, n1, n2, e1, e2, e3, e4, t1, t2⟩ := C68_textbook C76_symmetric hR hT hm hcw
    rw [k0] at e1
    rw [k1] at e2
    rw [k2] at e3
    rw [k3] at e4
    rw [← Option.some.inj e1, ← Option.some.inj e2, ← Option.some.inj e3, ← Option.some.inj e4, g2, g3, g4, g5] at t1 t2
    rw [g1] at h1
    refine ⟨h1, h2, fun l hl l' hl' hh => ?_⟩
    have unm : ∀ x, Textbook racah lmaxMask cw.lmax (productSpectrum env.sht lmaxMask (a 0).nIterMask (a 1).nIterMask (oneMask env.pix.npix) (oneMask env.pix.npix)
        (oneMask env.pix.npix) (oneMask env.pix.npix)) x → Unmixing x (¬ ∀ i < 4, s i = 0) l l' (if l = l' then 1 / (2 * l + 1) else 0) := by
      intro x hx
      obtain ⟨x1, x2, x3, x4⟩ := hx l l' (by omega) (by omega)
      rw [coupling_mono o0 o1] at x1 x2 x3 x4
      refine ⟨?_, fun hs => ?_, fun hs => ?_, fun hs => ?_⟩
      · rw [x1]
        by_cases e : l = l'
        · rw [if_pos ⟨e, Nat.zero_le _, Nat.zero_le _, trivial⟩, if_pos e]; norm_num
        · rw [if_neg (fun h => e h.1), if_neg e]
      · have h2 := (hh.resolve_left hs).1
        rw [x2]
        by_cases e : l = l'
        · rw [if_pos ⟨e, Nat.zero_le _, h2, trivial⟩, if_pos e]; norm_num
        · rw [if_neg (fun h => e h.1), if_neg e]
      · have h2 := (hh.resolve_left hs).1
        rw [x3]
        by_cases e : l = l'
        · rw [if_pos ⟨e, h2, h2, ⟨l, by ring⟩⟩, if_pos e]; norm_num
        · rw [if_neg (fun h => e h.1), if_neg e]
      · rw [x4, if_neg]
        rintro ⟨-, -, -, h⟩
        exact (Nat.not_odd_iff_even.2 ⟨l, by ring⟩) h
    exact ⟨unm _ t1, unm _ t2⟩
  | true =>
    obtain ⟨h1, h2, m1, m2, n1, n2, e1, e2, e3, e4, t⟩ := C68_textbook_spin0 C76_symmetric hR hT hm hcw
    rw [k0] at e1
    rw [k1] at e2
    rw [k2] at e3
    rw [k3] at e4
    rw [← Option.some.inj e1, ← Option.some.inj e2, ← Option.some.inj e3, ← Option.some.inj e4, g2, g3, g4, g5] at t
    rw [g1] at h1
    refine ⟨h1, h2, fun l hl l' hl' _ => ?_⟩
    obtain ⟨x1, x2⟩ := t l l' (by omega) (by omega)
    rw [coupling_mono o0 o1] at x1 x2
    have hv : (if l = l' ∧ 0 ≤ l ∧ 0 ≤ l ∧ True then (-1 : ℝ) ^ (0 + 0) / (2 * l + 1) else 0) = if l = l' then 1 / (2 * (l : ℝ) + 1) else 0 := by
      by_cases e : l = l'
      · rw [if_pos ⟨e, Nat.zero_le _, Nat.zero_le _, trivial⟩, if_pos e]; norm_num
      · rw [if_neg (fun h => e h.1), if_neg e]
    have hall := hsp rfl
    exact ⟨⟨x1.trans hv, fun h => absurd hall h, fun h => absurd hall h, fun h => absurd hall h⟩,
      ⟨x2.trans hv, fun h => absurd hall h, fun h => absurd hall h, fun h => absurd hall h⟩⟩

theorem spins_zero (h : ((s 0 : ℤ)) + s 1 + s 2 + s 3 = 0) : ∀ i < 4, s i = 0 := by
  intro i hi
  obtain rfl | rfl | rfl | rfl : i = 0 ∨ i = 1 ∨ i = 2 ∨ i = 3 := by omega
  all_goals omega

theorem four_comp {P : ℕ → Prop} : (∀ i < 4, P i) ↔ P 0 ∧ P 1 ∧ P 2 ∧ P 3 := by
  constructor
  · intro h; exact ⟨h 0 (by norm_num), h 1 (by norm_num), h 2 (by norm_num), h 3 (by norm_num)⟩
  · rintro ⟨h0, h1, h2, h3⟩ i hi
    obtain rfl | rfl | rfl | rfl : i = 0 ∨ i = 1 ∨ i = 2 ∨ i = 3 := by omega
    all_goals assumption

/-- The elements computed for full-sky masks. -/
theorem full_element (hu : ∀ l ≤ lmax, ∀ l' ≤ lmax, HighMultipole s l →
      Unmixing cw.x1122 (¬ ∀ i < 4, s i = 0) l l' (if l = l' then 1 / (2 * l + 1) else 0) ∧
      Unmixing cw.x1221 (¬ ∀ i < 4, s i = 0) l l' (if l = l' then 1 / (2 * l + 1) else 0)) {x : CovCls ℝ} (hx : TrueSpectra x s lmax C)
    (X : ℕ → ℕ) (hX : ∀ i < 4, X i < ncomp (s i)) {l l' : ℕ} (hl : l ≤ lmax) (hl' : l' ≤ lmax) (hh : HighMultipole s l) (pre : ℝ) :
    covElement cw (Maps.ofSpins (s 0) (s 1) (s 2) (s 3)) x (X 0) (X 1) (X 2) (X 3) l l' pre =
      pre * if l = l' then (C 0 2 (X 0) (X 2) l * C 1 3 (X 1) (X 3) l + C 0 3 (X 0) (X 3) l * C 1 2 (X 1) (X 2) l) / (2 * l + 1) else 0 := by
  obtain ⟨u1, u2⟩ := hu l hl l' hl' hh
  have hall : (¬ ∀ i < 4, s i = 0) = ¬ ((Maps.ofSpins (s 0) (s 1) (s 2) (s 3)).a = 1 ∧ (Maps.ofSpins (s 0) (s 1) (s 2) (s 3)).b = 1 ∧
      (Maps.ofSpins (s 0) (s 1) (s 2) (s 3)).c = 1 ∧ (Maps.ofSpins (s 0) (s 1) (s 2) (s 3)).d = 1) := by
    unfold Maps.ofSpins
    simp only [nmaps_ncomp, ncomp_one, four_comp]
  rw [hall] at u1 u2
  obtain ⟨x0, x1, x2, x3⟩ := four_comp.1 hX
  rw [covElement_unmixing cw _ x (X 0) (X 1) (X 2) (X 3) l l' pre _ _ (nmaps_cases _) (nmaps_cases _) (nmaps_cases _) (nmaps_cases _) u1 u2
    ((nmaps_ncomp (s 0)).symm ▸ x0 : X 0 < nmaps (s 0)) ((nmaps_ncomp (s 1)).symm ▸ x1 : X 1 < nmaps (s 1))
    ((nmaps_ncomp (s 2)).symm ▸ x2 : X 2 < nmaps (s 2)) ((nmaps_ncomp (s 3)).symm ▸ x3 : X 3 < nmaps (s 3))]
  by_cases e : l = l'
  · subst e
    simp only [if_true]
    unfold Maps.ofSpins
    simp only [nmaps_ncomp]
    rw [hx.ac _ x0 _ x2 l hl, hx.ad _ x0 _ x3 l hl, hx.bc _ x1 _ x2 l hl, hx.bd _ x1 _ x3 l hl]
    ring
  · rw [if_neg e, if_neg e]
    ring

variable {L : LinAlg ℝ} {jk : CovJunk ℝ} {x : CovCls ℝ} {oa ob : Obj ℝ} {wa wb : Wsp ℝ} {Cov : Arr2 ℝ}

/-- C84: with masks that are 1 everywhere, `gaussian_covariance` returns exactly the covariance of the pseudo-spectra (times the prefactors of
the bands). Missing: fields with spin at multipoles below 2 or below the spin. -/
theorem C84_coupled_partial (hS : env.sht.ReadsTriangle) (hf : ∀ i < 4, FieldsOf env (a i) (s i) lmax lmaxMask w (F i) (maps i) (f i))
    (hw : OneEverywhere w) (hmask : ∀ i < 4, (a i).mask = oneMask env.pix.npix) (hG : GaussianSkies μ (fun i => ncomp (s i)) lmax F C)
    (hP : ∀ ω, computeCoupledCell ((f 0 ω).view env.sht minfo) ((f 1 ω).view env.sht minfo) same = .ok (some (P ω)))
    (hQ : ∀ ω, computeCoupledCell ((f 2 ω).view env.sht minfo) ((f 3 ω).view env.sht minfo) same' = .ok (some (Q ω)))
    (hR : Respects S) (hSm : S (some minfo) = env.sht) (hT : lT ≤ 0)
    (hcw : covCompute racah S junk old ((f 0 ω0).covField minfo) ((f 1 ω0).covField minfo) (some ((f 2 ω0).covField minfo))
      (some ((f 3 ω0).covField minfo)) lT lE dl spin0 = (some cw, .ok ()))
    (hx : TrueSpectra x s lmax C) (hoa : oa.wsp = some wa) (hob : ob.wsp = some wb) (hA : WspSpec.Bounded wa.bin wa.bin.ellMax)
    (hB : WspSpec.Bounded wb.bin wb.bin.ellMax) (hna : BinSpec.NoRepeats wa.bin) (hnb : BinSpec.NoRepeats wb.bin)
    (hCov : gaussianCovariance L jk (some cw) (s 0) (s 1) (s 2) (s 3) x oa (some ob) true = .ok Cov)
    (X : ℕ → ℕ) (hX : ∀ i < 4, X i < ncomp (s i)) {e e' : BandEntry ℝ} (he : e ∈ wa.bin.bands.flatten) (he' : e' ∈ wb.bin.bands.flatten)
    (hh : HighMultipole s e.ell) :
    Cov.val (wa.ncls * e.ell + (X 1 + ncomp (s 1) * X 0)) (wb.ncls * e'.ell + (X 3 + ncomp (s 3) * X 2)) =
      e.f * e'.f * covar μ (fun ω => (P ω).val (X 1 + ncomp (s 1) * X 0) e.ell) (fun ω => (Q ω).val (X 3 + ncomp (s 3) * X 2) e'.ell) := by
  obtain ⟨hcon, -⟩ := call_result hoa hob hA hB hCov
  have hsp : spin0 = true → ∀ i < 4, s i = 0 := by
    intro h
    have h0 : cw.spin0Only = spin0 := by
      obtain ⟨-, -, _, _, _, _, -, -, -, -, rfl⟩ := covCompute_ok hcw
      rfl
    exact spins_zero (hcon.spins (h0.trans h))
  obtain ⟨hlm, -, hu⟩ := full_unmixing hf hw hmask hR hSm hT hcw hsp
  have hl : e.ell ≤ lmax := by have := hA.flat e he; have := hcon.limit.1; omega
  have hl' : e'.ell ≤ lmax := by have := hB.flat e' he'; have := hcon.limit.2; omega
  obtain ⟨x0, x1, x2, x3⟩ := four_comp.1 hX
  have hv := coupled_val hoa hob hA hB hna hnb hCov he he' (ia := X 0) (ib := X 1) (ic := X 2) (id := X 3) (by rwa [nmaps_ncomp]) (by rwa [nmaps_ncomp])
    (by rwa [nmaps_ncomp]) (by rwa [nmaps_ncomp])
  rw [nmaps_ncomp, nmaps_ncomp] at hv
  rw [hv, full_element hu hx X hX hl hl' hh, (full_covar hS hf hw hG hP hQ X hX hl hl').2.2.2]
  congr 1
  by_cases h : e.ell = e'.ell
  · rw [if_pos h, if_pos]
    refine ⟨h, ?_⟩
    rcases hh with h0 | h0
    · intro i hi; rw [h0 i hi]; exact Nat.zero_le _
    · exact h0.2
  · rw [if_neg h, if_neg (fun h' => h h'.1)]

theorem decoupleCell_val {L : LinAlg ℝ} {w : Wsp ℝ} {P D : Arr2 ℝ} (h : decoupleCell L w P none none = .ok D) {k b : ℕ} (hk : k < w.ncls)
    (hb : b < w.bin.nBands) : D.val k b = decoupleCl L w.ncls w.bin w.binned P.val (fun _ _ => 0) (fun _ _ => 0) k b := by
  have hr : P.rows = w.ncls ∧ w.lmax + 1 ≤ P.cols := by
    unfold decoupleCell at h
    by_cases q : P.rows ≠ w.ncls ∨ P.cols < w.lmax + 1
    · rw [if_pos q] at h; cases h
    · omega
  rw [decoupleCell_ok L w P hr.1 hr.2] at h
  rw [← Outcome.ok.inj h]
  exact Arr2.of_val _ hk hb

/-- C84: with masks that are 1 everywhere, `gaussian_covariance` returns exactly the covariance of the bandpowers decoupled with the two
workspaces. Missing: fields with spin and bands with multipoles below 2 or below the spin. -/
theorem C84_bandpowers_partial (hS : env.sht.ReadsTriangle) (hf : ∀ i < 4, FieldsOf env (a i) (s i) lmax lmaxMask w (F i) (maps i) (f i))
    (hw : OneEverywhere w) (hmask : ∀ i < 4, (a i).mask = oneMask env.pix.npix) (hG : GaussianSkies μ (fun i => ncomp (s i)) lmax F C)
    (hP : ∀ ω, computeCoupledCell ((f 0 ω).view env.sht minfo) ((f 1 ω).view env.sht minfo) same = .ok (some (P ω)))
    (hQ : ∀ ω, computeCoupledCell ((f 2 ω).view env.sht minfo) ((f 3 ω).view env.sht minfo) same' = .ok (some (Q ω)))
    (hR : Respects S) (hSm : S (some minfo) = env.sht) (hT : lT ≤ 0)
    (hcw : covCompute racah S junk old ((f 0 ω0).covField minfo) ((f 1 ω0).covField minfo) (some ((f 2 ω0).covField minfo))
      (some ((f 3 ω0).covField minfo)) lT lE dl spin0 = (some cw, .ok ()))
    (hx : TrueSpectra x s lmax C) (hL : L.Correct) (hoa : oa.wsp = some wa) (hob : ob.wsp = some wb)
    (hA : WspSpec.Bounded wa.bin wa.bin.ellMax) (hB : WspSpec.Bounded wb.bin wb.bin.ellMax)
    (hra : Regular wa.nBinned wa.binned) (hrb : Regular wb.nBinned wb.binned) {D E : Ω → Arr2 ℝ}
    (hD : ∀ ω, decoupleCell L wa (P ω) none none = .ok (D ω)) (hE : ∀ ω, decoupleCell L wb (Q ω) none none = .ok (E ω))
    (hCov : gaussianCovariance L jk (some cw) (s 0) (s 1) (s 2) (s 3) x oa (some ob) false = .ok Cov)
    (hh : ∀ e ∈ wa.bin.bands.flatten, HighMultipole s e.ell) {k k' b b' : ℕ} (hk : k < wa.ncls) (hk' : k' < wb.ncls) (hb : b < wa.bin.nBands)
    (hb' : b' < wb.bin.nBands) :
    Cov.val (wa.ncls * b + k) (wb.ncls * b' + k') = covar μ (fun ω => (D ω).val k b) (fun ω => (E ω).val k' b') := by
  obtain ⟨hcon, -⟩ := call_result hoa hob hA hB hCov
  have hsp : spin0 = true → ∀ i < 4, s i = 0 := by
    intro h
    have h0 : cw.spin0Only = spin0 := by
      obtain ⟨-, -, _, _, _, _, -, -, -, -, rfl⟩ := covCompute_ok hcw
      rfl
    exact spins_zero (hcon.spins (h0.trans h))
  obtain ⟨hlm, -, hu⟩ := full_unmixing hf hw hmask hR hSm hT hcw hsp
  have hl : ∀ e ∈ wa.bin.bands.flatten, e.ell ≤ lmax := fun e he => by have := hA.flat e he; have := hcon.limit.1; omega
  have hl' : ∀ e ∈ wb.bin.bands.flatten, e.ell ≤ lmax := fun e he => by have := hB.flat e he; have := hcon.limit.2; omega
  have pos : ∀ i, 0 < ncomp (s i) := fun i => by rcases ncomp_cases (s i) with h | h <;> omega
  simp only [fun ω => decoupleCell_val (hD ω) hk hb, fun ω => decoupleCell_val (hE ω) hk' hb']
  have comps : ∀ ia ib ic id : ℕ, ia < ncomp (s 0) → ib < ncomp (s 1) → ic < ncomp (s 2) → id < ncomp (s 3) →
      ∃ X : ℕ → ℕ, (∀ i < 4, X i < ncomp (s i)) ∧ X 0 = ia ∧ X 1 = ib ∧ X 2 = ic ∧ X 3 = id := by
    intro ia ib ic id h0 h1 h2 h3
    refine ⟨fun i => if i = 0 then ia else if i = 1 then ib else if i = 2 then ic else id, four_comp.2 ⟨?_, ?_, ?_, ?_⟩, rfl, rfl, rfl, rfl⟩
    all_goals simpa
  refine decoupled_exact hL hoa hob hA hB hra hrb hCov (fun ω => (P ω).val) (fun ω => (Q ω).val) ?_ ?_ ?_ hk hk' hb hb'
  · intro k hk e he
    rw [hcon.wspA, nmaps_ncomp, nmaps_ncomp] at hk
    obtain ⟨X, hX, x0, x1, -⟩ := comps (k / ncomp (s 1)) (k % ncomp (s 1)) 0 0 (Nat.div_lt_of_lt_mul (by rwa [mul_comm] at hk)) (Nat.mod_lt _ (pos 1))
      (pos 2) (pos 3)
    have := (full_covar hS hf hw hG hP hQ X hX (hl e he) (Nat.zero_le lmax)).1
    rwa [x0, x1, Nat.mod_add_div] at this
  · intro k hk e he
    rw [hcon.wspB, nmaps_ncomp, nmaps_ncomp] at hk
    obtain ⟨X, hX, -, -, x2, x3⟩ := comps 0 0 (k / ncomp (s 3)) (k % ncomp (s 3)) (pos 0) (pos 1) (Nat.div_lt_of_lt_mul (by rwa [mul_comm] at hk))
      (Nat.mod_lt _ (pos 3))
    have := (full_covar hS hf hw hG hP hQ X hX (Nat.zero_le lmax) (hl' e he)).2.1
    rwa [x2, x3, Nat.mod_add_div] at this
  · intro ia h0 ib h1 ic h2 id h3 e he e' he'
    rw [nmaps_ncomp] at h0 h1 h2 h3
    obtain ⟨X, hX, rfl, rfl, rfl, rfl⟩ := comps ia ib ic id h0 h1 h2 h3
    rw [nmaps_ncomp, nmaps_ncomp]
    obtain ⟨-, -, i3, hc⟩ := full_covar hS hf hw hG hP hQ X hX (hl e he) (hl' e' he')
    refine ⟨i3, ?_⟩
    rw [hc, full_element hu hx X hX (hl e he) (hl' e' he') (hh e he), one_mul]
    by_cases h : e.ell = e'.ell
    · rw [if_pos h, if_pos]
      refine ⟨h, ?_⟩
      rcases hh e he with h0 | h0
      · intro i hi; rw [h0 i hi]; exact Nat.zero_le _
      · exact h0.2
    · rw [if_neg h, if_neg (fun h' => h h'.1)]

end

/-! ## Multipoles below 2 -/

theorem coupling_low {W : Wigner} {M : ℕ} {pcl : ℕ → ℝ} {sel : ℕ → Prop} [DecidablePred sel] {l l' : ℕ} (hl : l < 2 ∨ l' < 2) :
    CouplingSpec.coupling W 2 2 M pcl sel l l' = 0 := by
  unfold CouplingSpec.coupling
  refine sum_eq_zero fun l1 _ => ?_
  have : CouplingSpec.spin3j W 2 l1 l l' = 0 := by
    unfold CouplingSpec.spin3j
    rw [if_neg (by norm_num), if_neg (by omega)]
  rw [this]
  simp

theorem at_low {x : CovXi ℝ} {l l' : ℕ} (hp : x.xi22p l l' = 0) (hm : x.xi22m l l' = 0) {ia iap ic icp ib ibp id idp : ℕ}
    (h1 : ia < 2) (h2 : ib < 2) (h3 : ic < 2) (h4 : id < 2) (h1' : iap < 2) (h2' : ibp < 2) (h3' : icp < 2) (h4' : idp < 2) :
    x.at l l' (covPair 2 2 2 2 ia iap ic icp ib ibp id idp) = 0 := by
  have key : ∀ p < 2, ∀ q < 2, ∀ p' < 2, ∀ q' < 2, covIndex 2 2 p q p' q' ∈ [1, 2, 3, 5] := by decide
  have e := key ia h1 ic h3 iap h1' icp h3'
  have f := key ib h2 id h4 ibp h2' idp h4'
  unfold covPair
  simp only [List.mem_cons, List.not_mem_nil, or_false] at e f
  rcases e with e | e | e | e <;> rcases f with f | f | f | f <;> rw [e, f] <;> simp [pairKind, CovXi.at, hp, hm]

/-- C84: for fields with spin and any masks, `gaussian_covariance` returns zero for pseudo-spectra at multipoles below 2. -/
theorem C84_low_zero {L : LinAlg ℝ} {jk : CovJunk ℝ} {x : CovCls ℝ} {oa ob : Obj ℝ} {wa wb : Wsp ℝ} {Cov : Arr2 ℝ} {W : Wigner}
    (hW : CouplingSpec.Symmetric W) {S : Option MapInfo → Sht} {junk : ℕ → ℝ} {old : Option (CovWsp ℝ)} {lT lE dl : ℤ} {spin0 : Bool} {cw : CovWsp ℝ}
    {fa1 fa2 fb1 fb2 : CovField} (hR : Respects S) (hT : lT ≤ 0) (hmap : fa1.geom.minfo ≠ none)
    (hcw : covCompute W S junk old fa1 fa2 (some fb1) (some fb2) lT lE dl spin0 = (some cw, .ok ())) {s : ℕ → ℕ} (hs : ∀ i < 4, s i ≠ 0)
    (hoa : oa.wsp = some wa) (hob : ob.wsp = some wb) (hA : WspSpec.Bounded wa.bin wa.bin.ellMax)
    (hB : WspSpec.Bounded wb.bin wb.bin.ellMax) (hna : BinSpec.NoRepeats wa.bin) (hnb : BinSpec.NoRepeats wb.bin)
    (hCov : gaussianCovariance L jk (some cw) (s 0) (s 1) (s 2) (s 3) x oa (some ob) true = .ok Cov) {e e' : BandEntry ℝ}
    (he : e ∈ wa.bin.bands.flatten) (he' : e' ∈ wb.bin.bands.flatten) (hl : e.ell < 2 ∨ e'.ell < 2) {k k' : ℕ} (hk : k < wa.ncls) (hk' : k' < wb.ncls) :
    Cov.val (wa.ncls * e.ell + k) (wb.ncls * e'.ell + k') = 0 := by
  obtain ⟨hcon, -⟩ := call_result hoa hob hA hB hCov
  have hsp : spin0 = false := by
    have h0 : cw.spin0Only = spin0 := by
      obtain ⟨-, -, _, _, _, _, -, -, -, -, rfl⟩ := covCompute_ok hcw
      rfl
    by_contra h
    rw [Bool.not_eq_false] at h
    exact hs 0 (by norm_num) (spins_zero (hcon.spins (h0.trans h)) 0 (by norm_num))
  subst hsp
  obtain ⟨h1, -, m1, m2, n1, n2, -, -, -, -, t1, t2⟩ := C68_textbook hW hR hT hmap hcw
  have hle : e.ell ≤ cw.lmax := by have := hA.flat e he; have := hcon.limit.1; omega
  have hle' : e'.ell ≤ cw.lmax := by have := hB.flat e' he'; have := hcon.limit.2; omega
  obtain ⟨-, -, a1, a2⟩ := t1 _ _ hle hle'
  obtain ⟨-, -, b1, b2⟩ := t2 _ _ hle hle'
  rw [coupling_low hl] at a1 a2 b1 b2
  have two : ∀ i < 4, nmaps (s i) = 2 := fun i hi => by
    rw [nmaps_ncomp]; unfold ncomp; rw [if_neg (hs i hi)]
  obtain ⟨n0, n1', n2', n3⟩ := four_comp.1 two
  have hk2 := hk
  have hk2' := hk'
  rw [hcon.wspA, n0, n1'] at hk2
  rw [hcon.wspB, n2', n3] at hk2'
  have hv := coupled_val hoa hob hA hB hna hnb hCov he he' (ia := k / 2) (ib := k % 2) (ic := k' / 2) (id := k' % 2) (by omega) (by omega) (by omega) (by omega)
  rw [n1', n3, Nat.mod_add_div, Nat.mod_add_div] at hv
  rw [hv]
  have hm : Maps.ofSpins (s 0) (s 1) (s 2) (s 3) = ⟨2, 2, 2, 2⟩ := by
    unfold Maps.ofSpins; rw [n0, n1', n2', n3]
  rw [hm]
  unfold covElement
  dsimp only
  refine sum_eq_zero fun i1 q1 => sum_eq_zero fun i2 q2 => sum_eq_zero fun i3 q3 => sum_eq_zero fun i4 q4 => ?_
  rw [mem_range] at q1 q2 q3 q4
  rw [at_low a1 a2 (by omega) (by omega) (by omega) (by omega) q1 q2 q3 q4, at_low b1 b2 (by omega) (by omega) (by omega) (by omega) q1 q2 q4 q3]
  ring

end NaMaster
