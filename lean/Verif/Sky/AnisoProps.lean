import Verif.Sky.AnisoMatrix
import Verif.Sky.Props

/-! # The MASTER relation for anisotropic masks: C83 -/

namespace NaMaster

open Finset MeasureTheory WignerSpec SkySpec CouplingSpec

/-! ## Specification -/

/-- Fields `f ω` made from maps of the skies `F ω` of spin `s`, all with the same anisotropic mask (`mask`, `mask_22`, `mask_12`) and the
same other arguments `a`. The part of the mask without spin has coefficients `w`, the part of spin `2s` has components `wa`. The
transform of the weighted maps is exact. -/
structure AnisoFieldsOf {Ω : Type*} (env : FieldEnv) (a : FieldArgs) (m22 m12 : ℕ → ℝ) (s lmax lmaxMask : ℕ) (w : ℕ → ℤ → ℂ)
    (wa : ℕ → ℕ → ℤ → ℂ) (F : Ω → ℕ → ℕ → ℤ → ℂ) (maps : Ω → MapStack) (f : Ω → FieldObj) : Prop where
  mask22 : a.mask22 = some m22
  mask12 : a.mask12 = some m12
  unmasked : a.maskedOnInput = false
  full : a.lite = false
  spin : ∀ ω, (f ω).spin = s
  bandLimit : a.lmax.getD env.lmaxDefault = lmax
  maskBandLimit : a.lmaxMask.getD env.lmaxDefault = lmaxMask
  maskCoefs : ∀ L ≤ lmaxMask, ∀ m ≤ L, env.sht.map2alm 0 lmaxMask a.nIterMask (single fun p => 0.5 * (a.mask p + m22 p)) 0 L m = w L m
  maskCoefsA : ∀ c < 2, ∀ L ≤ lmaxMask, ∀ m ≤ L, env.sht.map2alm (2 * s) lmaxMask a.nIterMask
    (fun c p => if c = 0 then 0.5 * (a.mask p - m22 p) else if c = 1 then m12 p else 0) c L m = wa c L m
  maskReal : RealCoefs w
  maskRealA : ∀ c < 2, RealCoefs (wa c)
  skyReal : ∀ ω, ∀ X < 2, RealCoefs (F ω X)
  observed : ∀ ω, AnisoMaskedBy s lmaxMask lmax lmax w wa (F ω)
    (env.sht.map2alm s lmax a.nIter (weighted a.mask m22 m12 (tab2 2 env.pix.npix (maps ω))))
  made : ∀ ω, nmtField env (a.withMaps 2 env.pix.npix (maps ω)) = .ok (f ω)

/-- Fields with an isotropic mask and without purification, or with an anisotropic mask. -/
def WeightedFieldsOf {Ω : Type*} (env : FieldEnv) (a : FieldArgs) (s lmax lmaxMask : ℕ) (w : ℕ → ℤ → ℂ)
    (wa : ℕ → ℕ → ℤ → ℂ) (F : Ω → ℕ → ℕ → ℤ → ℂ) (maps : Ω → MapStack) (f : Ω → FieldObj) : Prop :=
  (FieldsOf env a s lmax lmaxMask w F maps f ∧ (a.purifyE || a.purifyB) = false ∧ ∀ c L M, wa c L M = 0) ∨
    ∃ m22 m12, AnisoFieldsOf env a m22 m12 s lmax lmaxMask w wa F maps f

/-- The coefficients of the parts of the mask of a field: without spin, E and B. Zero if there is no such part. -/
noncomputable def FieldObj.maskPartAlms (S : Sht) (f : FieldObj) (k : ℕ) : ℕ → ℕ → ℂ :=
  if k = 0 then f.getMaskAlms S else ((f.maskA.map (f.getAnisoAlms S)).map fun a => a (k - 1)).getD fun _ _ => 0

/-- The cross-spectra of the parts of the masks of two fields. -/
noncomputable def maskSpectra (S : Sht) (f1 f2 : FieldObj) (k j : ℕ) : ℕ → ℝ := alm2cl (f1.maskPartAlms S k) (f2.maskPartAlms S j)

/-! ## Lemmas -/

/-- What is used about the fields. -/
structure FieldFacts (env : FieldEnv) (a : FieldArgs) (s lmax lmaxMask : ℕ) (w : ℕ → ℤ → ℂ) (wa : ℕ → ℕ → ℤ → ℂ) (F : ℕ → ℕ → ℤ → ℂ)
    (maskA : Option (ℕ → ℕ → ℝ)) (mask : ℕ → ℝ) (f : FieldObj) : Prop where
  elmax : f.lmax = lmax
  elmaxMask : f.lmaxMask = lmaxMask
  espin : f.spin = (s : ℤ)
  enmaps : f.nmaps = ncomp s
  ebeam : f.beam = a.beam.getD (lmax + 1, fun _ => 1)
  eiter : f.nIterMask = a.nIterMask
  emaskA : f.maskA = maskA
  emask : f.mask = mask
  epureE : f.pureE = a.purifyE
  epureB : f.pureB = a.purifyB
  aniso : f.maskA.isSome = true → s ≠ 0
  parts : ∀ k < 3, ∀ L ≤ lmaxMask, ∀ m ≤ L, f.maskPartAlms env.sht k L m = maskPart w wa k L m
  noTempl : f.nTemp = 0 ∧ f.iM = none ∧ f.lite = false
  coefs : ∃ A, f.alm = some (some A) ∧ ∀ X < ncomp s, ∀ l ≤ lmax, ∀ m ≤ l,
    A X l m = ∑ k ∈ range 3, linCoef (ncomp s) lmaxMask lmax (partFac s k) (maskPart w wa k) (turn (ncomp s) k F) X l m

theorem turn_zero (n : ℕ) (F : ℕ → ℕ → ℤ → ℂ) : turn n 0 F = F := by
  funext X l m
  unfold turn turnSgn turnIdx
  simp

theorem weighted_apply (a : FieldArgs) (m22 m12 : ℕ → ℝ) (np : ℕ) (v : MapStack) :
    applyMask (anisoMasks a m22 m12).1 (anisoMasks a m22 m12).2 (tab2 2 np v) = weighted a.mask m22 m12 (tab2 2 np v) := by
  funext c p
  unfold applyMask anisoMasks weighted
  dsimp only
  by_cases h0 : c = 0
  · subst h0; simp; ring
  by_cases h1 : c = 1
  · subst h1; simp; ring
  rw [if_neg h0, if_neg h1, if_neg h0, if_neg h1]
  have : tab2 2 np v c p = 0 := by unfold tab2; rw [if_neg (by omega)]
  rw [this]; ring

theorem FieldsOf.fieldFacts {Ω : Type*} {env : FieldEnv} (hS : env.sht.ReadsTriangle) {a : FieldArgs} {s lmax lmaxMask : ℕ} {w : ℕ → ℤ → ℂ}
    {wa : ℕ → ℕ → ℤ → ℂ} {F : Ω → ℕ → ℕ → ℤ → ℂ} {maps : Ω → MapStack} {f : Ω → FieldObj} (h : FieldsOf env a s lmax lmaxMask w F maps f)
    (hp : (a.purifyE || a.purifyB) = false) (hwa : ∀ c L M, wa c L M = 0) (ω : Ω) :
    FieldFacts env a s lmax lmaxMask w wa (F ω) none a.mask (f ω) := by
  obtain ⟨p1, p2, p3, p4, p5, p6, p7, p8, p9, p10, -⟩ := h.facts ω
  simp only [Bool.or_eq_false_iff] at hp
  have hwz : wa = fun _ _ _ => 0 := by funext c L M; exact hwa c L M
  refine ⟨p1, p2, p3, p9, p10, p8, p4, p5, p6, p7, ?_, ?_, ?_, ?_⟩
  · rw [p4]; intro h; cases h
  · intro k hk L hL m hm
    unfold FieldObj.maskPartAlms maskPart
    by_cases h0 : k = 0
    · rw [if_pos h0, if_pos h0]
      unfold FieldObj.getMaskAlms
      rw [p2, p8, p5]
      exact h.maskCoefs L hL m hm
    · rw [if_neg h0, if_neg h0, p4, hwz]
      rfl
  · obtain ⟨n1, i1, l1⟩ := no_templates env _ (show (a.withMaps (ncomp s) env.pix.npix (maps ω)).templates = none from h.bare) (f ω) (h.made ω)
    exact ⟨n1, i1, l1.trans h.iso.full⟩
  · obtain ⟨A0, hA0, hA0p, -⟩ := pop_lin_coef hS h ω (X := 0) (l := 0) (m := 0) (by unfold ncomp; split_ifs <;> omega) (Nat.zero_le _) le_rfl
    refine ⟨A0, hA0, fun X hX l hl m hm => ?_⟩
    obtain ⟨A, hA, hAp, hv⟩ := pop_lin_coef hS h ω hX hl hm
    rw [hA0p, ← hAp, hv, sum_range_succ, sum_range_succ, sum_range_one, hwz]
    have z : ∀ k, k ≠ 0 → linCoef (ncomp s) lmaxMask lmax (partFac s k) (maskPart w (fun _ _ _ => 0) k) (turn (ncomp s) k (F ω)) X l m = 0 := by
      intro k hk
      have : maskPart w (fun _ _ _ => 0) k = fun _ _ => 0 := by unfold maskPart; rw [if_neg hk]
      rw [this, linCoef_zero]
    rw [z 1 one_ne_zero, z 2 two_ne_zero, add_zero, add_zero, turn_zero]
    apply linCoef_at
    intro L l'
    unfold hfac partFac
    rw [if_pos rfl, if_neg, add_zero]
    unfold isPure
    rw [hp.1, hp.2]
    simp

theorem AnisoFieldsOf.fieldFacts {Ω : Type*} {env : FieldEnv} {a : FieldArgs} {m22 m12 : ℕ → ℝ} {s lmax lmaxMask : ℕ} {w : ℕ → ℤ → ℂ}
    {wa : ℕ → ℕ → ℤ → ℂ} {F : Ω → ℕ → ℕ → ℤ → ℂ} {maps : Ω → MapStack} {f : Ω → FieldObj}
    (h : AnisoFieldsOf env a m22 m12 s lmax lmaxMask w wa F maps f) (ω : Ω) :
    FieldFacts env a s lmax lmaxMask w wa (F ω) (anisoMasks a m22 m12).2 (anisoMasks a m22 m12).1 (f ω) := by
  have hc : AnisoCall (a.withMaps 2 env.pix.npix (maps ω)) ⟨2, env.pix.npix, maps ω⟩ m22 m12 := ⟨rfl, h.mask22, h.mask12⟩
  obtain ⟨hm, hn, hp, hE, hB, ht, s', hs', hf⟩ := aniso_ok hc (h.made ω)
  obtain ⟨n1, i1, l1⟩ := no_templates env _ ht (f ω) (h.made ω)
  unfold fieldFinish at hf
  have hi : (a.withMaps 2 env.pix.npix (maps ω)).maskedOnInput = false := h.unmasked
  have hl : (a.withMaps 2 env.pix.npix (maps ω)).lite = false := h.full
  simp only [hE, hB, hi, hl, Bool.or_self, Outcome.bind, Bool.false_eq_true, if_false, Option.isSome_none, false_and,
    Sht.map2almO, Option.map_some, Outcome.ok.injEq] at hf
  have hsp : (f ω).spin = s' := by rw [← hf]; rfl
  have hss : s' = s := by rw [← hsp, h.spin]
  subst hss
  have hs0 : s ≠ 0 := by intro q; exact hs' (by rw [q]; rfl)
  have hn2 : ncomp s = 2 := by unfold ncomp; rw [if_neg hs0]
  have elm : (f ω).lmax = lmax := by
    rw [← hf]
    change (a.lmax.getD env.lmaxDefault).toNat = lmax
    rw [h.bandLimit]; rfl
  have elmm : (f ω).lmaxMask = lmaxMask := by
    rw [← hf]
    change (a.lmaxMask.getD env.lmaxDefault).toNat = lmaxMask
    rw [h.maskBandLimit]; rfl
  have eit : (f ω).nIterMask = a.nIterMask := by rw [← hf]; rfl
  have emA : (f ω).maskA = (anisoMasks a m22 m12).2 := by rw [← hf]; rfl
  have em : (f ω).mask = (anisoMasks a m22 m12).1 := by rw [← hf]; rfl
  refine ⟨elm, elmm, h.spin ω, ?_, ?_, eit, emA, em, ?_, ?_, fun _ => hs0, ?_, ⟨n1, i1, l1.trans h.full⟩, ?_⟩
  · rw [← hf, hn2]
    change (if (s : ℤ) = 0 then 1 else 2) = 2
    rw [if_neg hs']
  · rw [← hf]
    change a.beam.getD ((a.lmax.getD env.lmaxDefault + 1).toNat, fun _ => 1) = _
    rw [h.bandLimit]; rfl
  · rw [← hf]; rfl
  · rw [← hf]; rfl
  · intro k hk L hL m hm
    unfold FieldObj.maskPartAlms maskPart
    by_cases h0 : k = 0
    · rw [if_pos h0, if_pos h0]
      unfold FieldObj.getMaskAlms maskAlms
      rw [elmm, eit, em]
      exact h.maskCoefs L hL m hm
    · rw [if_neg h0, if_neg h0, emA]
      change (f ω).getAnisoAlms env.sht _ (k - 1) L m = _
      unfold FieldObj.getAnisoAlms
      rw [elmm, eit, h.spin]
      exact h.maskCoefsA (k - 1) (by omega) L hL m hm
  · refine ⟨env.sht.map2alm s lmax a.nIter (weighted a.mask m22 m12 (tab2 2 env.pix.npix (maps ω))), ?_, ?_⟩
    · rw [← weighted_apply, ← elm, ← hf]
      rfl
    · intro X hX l hl m hm
      rw [hn2] at hX ⊢
      exact aniso_lin hs0 (h.observed ω) hX hl hm

theorem WeightedFieldsOf.fieldFacts {Ω : Type*} {env : FieldEnv} (hS : env.sht.ReadsTriangle) {a : FieldArgs} {s lmax lmaxMask : ℕ} {w : ℕ → ℤ → ℂ}
    {wa : ℕ → ℕ → ℤ → ℂ} {F : Ω → ℕ → ℕ → ℤ → ℂ} {maps : Ω → MapStack} {f : Ω → FieldObj}
    (h : WeightedFieldsOf env a s lmax lmaxMask w wa F maps f) :
    ∃ maskA mask, ∀ ω, FieldFacts env a s lmax lmaxMask w wa (F ω) maskA mask (f ω) := by
  rcases h with ⟨h, hp, hz⟩ | ⟨m22, m12, h⟩
  · exact ⟨_, _, h.fieldFacts hS hp hz⟩
  · exact ⟨_, _, h.fieldFacts⟩

theorem WeightedFieldsOf.real {Ω : Type*} {env : FieldEnv} {a : FieldArgs} {s lmax lmaxMask : ℕ} {w : ℕ → ℤ → ℂ}
    {wa : ℕ → ℕ → ℤ → ℂ} {F : Ω → ℕ → ℕ → ℤ → ℂ} {maps : Ω → MapStack} {f : Ω → FieldObj}
    (h : WeightedFieldsOf env a s lmax lmaxMask w wa F maps f) :
    (∀ k < 3, RealCoefs (maskPart w wa k)) ∧ ∀ ω, ∀ X < ncomp s, RealCoefs (F ω X) := by
  rcases h with ⟨h, hp, hz⟩ | ⟨m22, m12, h⟩
  · refine ⟨fun k _ => ?_, h.skyReal⟩
    unfold maskPart
    split_ifs
    · exact h.maskReal
    · intro l m; rw [hz, hz]; simp
  · refine ⟨fun k hk => ?_, fun ω X hX => h.skyReal ω X ?_⟩
    · unfold maskPart
      split_ifs with q
      · exact h.maskReal
      · exact h.maskRealA _ (by omega)
    · unfold ncomp at hX; split_ifs at hX <;> omega

theorem alm2cl_zero_left (b : ℕ → ℕ → ℂ) : alm2cl (fun _ _ => 0) b = fun _ => 0 := by
  funext l
  unfold alm2cl
  simp

theorem alm2cl_zero_right (b : ℕ → ℕ → ℂ) : alm2cl b (fun _ _ => 0) = fun _ => 0 := by
  funext l
  unfold alm2cl
  simp

theorem maskSpectra_none1 {S : Sht} {f1 f2 : FieldObj} (h : f1.maskA.isSome = false) {k j L : ℕ} (hk : k ≠ 0) : maskSpectra S f1 f2 k j L = 0 := by
  unfold maskSpectra FieldObj.maskPartAlms
  rw [if_neg hk, Option.isSome_eq_false_iff.1 h |> Option.isNone_iff_eq_none.1]
  change alm2cl (fun _ _ => 0) _ L = 0
  rw [alm2cl_zero_left]

theorem maskSpectra_none2 {S : Sht} {f1 f2 : FieldObj} (h : f2.maskA.isSome = false) {k j L : ℕ} (hj : j ≠ 0) : maskSpectra S f1 f2 k j L = 0 := by
  unfold maskSpectra
  have : f2.maskPartAlms S j = fun _ _ => 0 := by
    unfold FieldObj.maskPartAlms
    rw [if_neg hj, Option.isSome_eq_false_iff.1 h |> Option.isNone_iff_eq_none.1]
    rfl
  rw [this, alm2cl_zero_right]

/-- The arguments passed to the C library by the branch with anisotropic masks. -/
theorem aniso_args (W : Wigner) (S : Sht) (f1 f2 : FieldObj) (same : Bool) (hsame : same = true → f1 = f2) (B : Bins ℝ) (nt : ℤ) (w2 : ℝ) :
    anisoFromFields W S f1 f2 same B nt w2 =
      compAnisoWsp W ⟨f1.spin.toNat, f2.spin.toNat, f1.maskA.isSome, f2.maskA.isSome, f1.lmaxMask⟩ f1.lmax (maskSpectra S f1 f2 0 0)
        (maskSpectra S f1 f2 0 1) (maskSpectra S f1 f2 0 2) (maskSpectra S f1 f2 1 0) (maskSpectra S f1 f2 2 0) (maskSpectra S f1 f2 1 1)
        (maskSpectra S f1 f2 1 2) (maskSpectra S f1 f2 2 1) (maskSpectra S f1 f2 2 2) f1.beamList f2.beamList B nt w2 := by
  have h2 : (if same = true then f1.getMaskAlms S else f2.getMaskAlms S) = f2.getMaskAlms S := by
    split_ifs with h
    · rw [hsame h]
    · rfl
  unfold anisoFromFields maskSpectra FieldObj.maskPartAlms
  dsimp only
  rw [h2]
  cases h1 : f1.maskA <;> cases h2 : f2.maskA <;> simp [alm2cl_zero_left, alm2cl_zero_right]

theorem wsp_aniso {W : Wigner} {env : FieldEnv} {minfo : MapInfo} {f1 f2 : FieldObj} {same : Bool} {B : Bins ℝ} {wa : WspArgs} {w : Wsp ℝ}
    (ha : f1.maskA.isSome = true ∨ f2.maskA.isSome = true) (h : wspFromFields W env minfo f1 f2 same B wa = .ok w) :
    f1.lmax = B.ellMax ∧ ∃ n, normOf env.pix f1 f2 wa.norm = .ok n ∧ anisoFromFields W env.sht f1 f2 same B n.1 n.2 = .ok w := by
  have ha' : (f1.maskA.isSome || f2.maskA.isSome) = true := by simpa using ha
  unfold wspFromFields at h
  simp only [ha', if_true, true_and] at h
  split_ifs at h with q1 q2
  refine ⟨not_not.1 q2, ?_⟩
  split at h
  · cases h
  · cases hn : normOf env.pix f1 f2 wa.norm with
    | crash => rw [hn] at h; cases h
    | raises e => rw [hn] at h; cases h
    | ok n =>
      rw [hn] at h
      exact ⟨n, rfl, h⟩

theorem aniso_parts {W : Wigner} {a : AnisoArgs} {lmaxFields : ℕ} {p1 p2 p3 p4 p5 p6 p7 p8 p9 : ℕ → ℝ} {beam1 beam2 : List ℝ} {B : Bins ℝ}
    {nt : ℤ} {w2 : ℝ} {w : Wsp ℝ} (h : compAnisoWsp W a lmaxFields p1 p2 p3 p4 p5 p6 p7 p8 p9 beam1 beam2 B nt w2 = .ok w) :
    beam1.length = lmaxFields + 1 ∧ beam2.length = lmaxFields + 1 ∧ w = buildWsp a.ncls lmaxFields a.lmaxMask false nt w2
      (fun l => beam1.getD l 0) (fun l => beam2.getD l 0) (scalePcl p1) (compAnisoMatrix W a B.ellMax p1 p2 p3 p4 p5 p6 p7 p8 p9) B := by
  unfold compAnisoWsp at h
  split_ifs at h with q1 q2 q3
  push Not at q1
  exact ⟨q1.1, q1.2, (Outcome.ok.inj h).symm⟩

theorem anisoKernel_congr {n1 n2 s1 s2 Nw : ℕ} {pcl pcl' : ℕ → ℕ → ℕ → ℝ} (h : ∀ k j, ∀ L ≤ Nw, pcl k j L = pcl' k j L) (l X Y l' X' Y' : ℕ) :
    anisoKernel n1 n2 s1 s2 Nw pcl l X Y l' X' Y' = anisoKernel n1 n2 s1 s2 Nw pcl' l X Y l' X' Y' := by
  unfold anisoKernel kernelMatrix
  refine sum_congr rfl fun k _ => sum_congr rfl fun j _ => ?_
  congr 2
  refine sum_congr rfl fun L hL => ?_
  rw [mem_range] at hL
  rw [h k j L (by omega)]

theorem AnisoArgs.ncls_eq (a : AnisoArgs) : a.ncls = ncomp a.spin1 * ncomp a.spin2 := by
  unfold AnisoArgs.ncls ncomp
  by_cases h1 : a.spin1 = 0 <;> by_cases h2 : a.spin2 = 0 <;> simp [h1, h2]

theorem rowcol_lt {n1 n2 X Y : ℕ} (hX : X < n1) (hY : Y < n2) : n2 * X + Y < n1 * n2 := by
  calc n2 * X + Y < n2 * X + n2 := by omega
    _ = n2 * (X + 1) := by ring
    _ ≤ n2 * n1 := Nat.mul_le_mul_left _ hX
    _ = n1 * n2 := mul_comm _ _

/-- The matrix of the wrapper is the right one if the two spectra exchanged agree. -/
theorem comp_kernel_agree (a : AnisoArgs) (heven : Even (a.spin1 + a.spin2)) (hs : a.spin1 ≠ 0 ∨ a.spin2 ≠ 0)
    (h1 : a.aniso1 = true → a.spin1 ≠ 0) (h2 : a.aniso2 = true → a.spin2 ≠ 0) (lmax : ℕ) (pcl : ℕ → ℕ → ℕ → ℝ)
    (hz1 : a.aniso1 = false → ∀ k j L, k ≠ 0 → pcl k j L = 0) (hz2 : a.aniso2 = false → ∀ k j L, j ≠ 0 → pcl k j L = 0)
    (hag : ∀ L ≤ a.lmaxMask, pcl 0 2 L = pcl 1 0 L)
    {l l' X Y X' Y' : ℕ} (hl : l ≤ lmax) (hl' : l' ≤ lmax) (hX : X < ncomp a.spin1) (hY : Y < ncomp a.spin2) (hX' : X' < ncomp a.spin1)
    (hY' : Y' < ncomp a.spin2) :
    compAnisoMatrix racah a lmax (pcl 0 0) (pcl 0 1) (pcl 0 2) (pcl 1 0) (pcl 2 0) (pcl 1 1) (pcl 1 2) (pcl 2 1) (pcl 2 2)
      (a.ncls * l + (ncomp a.spin2 * X + Y)) (a.ncls * l' + (ncomp a.spin2 * X' + Y')) =
      anisoKernel (ncomp a.spin1) (ncomp a.spin2) a.spin1 a.spin2 a.lmaxMask pcl l X Y l' X' Y' := by
  have hx : ncomp a.spin2 * X + Y < a.ncls := by rw [a.ncls_eq]; exact rowcol_lt hX hY
  have hy : ncomp a.spin2 * X' + Y' < a.ncls := by rw [a.ncls_eq]; exact rowcol_lt hX' hY'
  -- the spectra with `0b` or `e0` replaced
  let q : ℕ → ℕ → ℕ → ℝ := fun k j => if k = 0 ∧ j = 2 then pcl 1 0 else pcl k j
  let r : ℕ → ℕ → ℕ → ℝ := fun k j => if k = 1 ∧ j = 0 then pcl 0 2 else pcl k j
  have hq : ∀ k j, ∀ L ≤ a.lmaxMask, q k j L = pcl k j L := by
    intro k j L hL
    dsimp only [q]
    split_ifs with h
    · rw [h.1, h.2, hag L hL]
    · rfl
  have hr : ∀ k j, ∀ L ≤ a.lmaxMask, r k j L = pcl k j L := by
    intro k j L hL
    dsimp only [r]
    split_ifs with h
    · rw [h.1, h.2, hag L hL]
    · rfl
  cases e1 : a.aniso1 with
  | false =>
    rw [C21_zero_b_ignored racah a e1 lmax _ _ _ (pcl 1 0) _ _ _ _ _ _ hl hl' hx hy, C21_agree_partial, ← anisoKernel_congr hq]
    refine Eq.trans ?_ (aniso_matrix_kernel a heven hs h1 h2 lmax q ?_ ?_ hl hl' hX hY hX' hY')
    · simp [q]
    · intro _ k j L hk
      dsimp only [q]
      rw [if_neg (by omega)]
      exact hz1 e1 k j L hk
    · intro e2 k j L hj
      dsimp only [q]
      split_ifs
      · exact hz1 e1 1 0 L one_ne_zero
      · exact hz2 e2 k j L hj
  | true =>
    cases e2 : a.aniso2 with
    | false =>
      rw [C21_e_zero_ignored racah a e2 lmax _ _ _ _ (pcl 0 2) _ _ _ _ _ hl hl' hx hy, C21_agree_partial, ← anisoKernel_congr hr]
      refine Eq.trans ?_ (aniso_matrix_kernel a heven hs h1 h2 lmax r ?_ ?_ hl hl' hX hY hX' hY')
      · simp [r]
      · intro e; rw [e1] at e; cases e
      · intro _ k j L hj
        dsimp only [r]
        rw [if_neg (by omega)]
        exact hz2 e2 k j L hj
    | true =>
      let t : ℕ → ℕ → ℕ → ℝ := fun k j => if k = 0 ∧ j = 2 then pcl 1 0 else if k = 1 ∧ j = 0 then pcl 0 2 else pcl k j
      have ht : ∀ k j, ∀ L ≤ a.lmaxMask, t k j L = pcl k j L := by
        intro k j L hL
        dsimp only [t]
        split_ifs with h h'
        · rw [h.1, h.2, hag L hL]
        · rw [h'.1, h'.2, hag L hL]
        · rfl
      rw [C21_swapped, ← anisoKernel_congr ht]
      refine Eq.trans ?_ (aniso_matrix_kernel a heven hs h1 h2 lmax t ?_ ?_ hl hl' hX hY hX' hY')
      · simp [t]
      · intro e; rw [e1] at e; cases e
      · intro e; rw [e2] at e; cases e

/-- Pseudo-spectra and their means, by the kernel. -/
theorem aniso_core {Ω : Type*} [MeasurableSpace Ω] {μ : Measure Ω} {env : FieldEnv} (hS : env.sht.ReadsTriangle) (minfo : MapInfo)
    {a1 a2 : FieldArgs} {s1 s2 lmax lmaxMask : ℕ} {w1 w2 : ℕ → ℤ → ℂ} {wa1 wa2 : ℕ → ℕ → ℤ → ℂ} {F1 F2 : Ω → ℕ → ℕ → ℤ → ℂ}
    {m1 m2 : Ω → MapStack} {f1 f2 : Ω → FieldObj} (h1 : WeightedFieldsOf env a1 s1 lmax lmaxMask w1 wa1 F1 m1 f1)
    (h2 : WeightedFieldsOf env a2 s2 lmax lmaxMask w2 wa2 F2 m2 f2) {C : ℕ → ℕ → ℕ → ℝ}
    (hI : Isotropic μ (ncomp s1) (ncomp s2) lmax F1 F2 C) (same : Bool) (ω0 : Ω) :
    ∃ P : Ω → Arr2 ℝ, (∀ ω, computeCoupledCell ((f1 ω).view env.sht minfo) ((f2 ω).view env.sht minfo) same = .ok (some (P ω))) ∧
      (∀ ω, (P ω).rows = ncomp s1 * ncomp s2 ∧ (P ω).cols = lmax + 1) ∧
      ∀ X < ncomp s1, ∀ Y < ncomp s2, ∀ l ≤ lmax, Integrable (fun ω => (P ω).val (ncomp s2 * X + Y) l) μ ∧
        ∫ ω, (P ω).val (ncomp s2 * X + Y) l ∂μ = ∑ l' ∈ range (lmax + 1), ∑ X' ∈ range (ncomp s1), ∑ Y' ∈ range (ncomp s2),
          anisoKernel (ncomp s1) (ncomp s2) s1 s2 lmaxMask (maskSpectra env.sht (f1 ω0) (f2 ω0)) l X Y l' X' Y' * C X' Y' l' := by
  obtain ⟨ma1, mm1, g1⟩ := h1.fieldFacts hS
  obtain ⟨ma2, mm2, g2⟩ := h2.fieldFacts hS
  obtain ⟨hw1, hF1⟩ := h1.real
  obtain ⟨hw2, hF2⟩ := h2.real
  choose A1 hA1 v1 using fun ω => (g1 ω).coefs
  choose A2 hA2 v2 using fun ω => (g2 ω).coefs
  refine ⟨fun ω => Arr2.of (ncomp s1 * ncomp s2) (lmax + 1) fun k l => alm2cl (A1 ω (k / ncomp s2)) (A2 ω (k % ncomp s2)) l, ?_, ?_, ?_⟩
  · intro ω
    rw [coupled_fields env minfo (f1 ω) (f2 ω) same ((g1 ω).elmax.trans (g2 ω).elmax.symm) ((g1 ω).elmaxMask.trans (g2 ω).elmaxMask.symm)
      _ _ (hA1 ω) (hA2 ω), (g1 ω).enmaps, (g2 ω).enmaps, (g1 ω).elmax]
  · intro ω
    exact ⟨rfl, rfl⟩
  · intro X hX Y hY l hl
    have h2' : ∀ s X, X < ncomp s → X < 2 := by intro s X; unfold ncomp; split_ifs <;> omega
    have hof : ∀ (g : ℕ → ℕ → ℝ), (Arr2.of (ncomp s1 * ncomp s2) (lmax + 1) g).val (ncomp s2 * X + Y) l = g (ncomp s2 * X + Y) l :=
      fun g => tab2_of_lt _ (rowcol_lt hX hY) (by omega)
    have hd : (ncomp s2 * X + Y) / ncomp s2 = X := by
      rw [Nat.mul_add_div (by omega), Nat.div_eq_of_lt hY, add_zero]
    have hm : (ncomp s2 * X + Y) % ncomp s2 = Y := by
      rw [Nat.mul_add_mod, Nat.mod_eq_of_lt hY]
    simp only [hof, hd, hm]
    exact aniso_mean hI hF1 hF2 hw1 hw2 (h2' _ _ hX) (h2' _ _ hY) (fun ω => v1 ω X hX l hl) (fun ω => v2 ω Y hY l hl)
      (g1 ω0).parts (g2 ω0).parts

/-! ## C83 -/

/-- C83: if at least one of the masks is anisotropic and the sum of the spins is even, the mean of the pseudo-spectra computed from weighted
maps of statistically isotropic skies is the true spectrum passed through the coupling matrix which the C library computes from the
cross-spectra of the parts of the masks, given in the right order. -/
theorem C83_mean {Ω : Type*} [MeasurableSpace Ω] (μ : Measure Ω) (env : FieldEnv) (hS : env.sht.ReadsTriangle) (minfo : MapInfo)
    (a1 a2 : FieldArgs) (s1 s2 lmax lmaxMask : ℕ) (w1 w2 : ℕ → ℤ → ℂ) (wa1 wa2 : ℕ → ℕ → ℤ → ℂ) (F1 F2 : Ω → ℕ → ℕ → ℤ → ℂ)
    (m1 m2 : Ω → MapStack) (f1 f2 : Ω → FieldObj) (h1 : WeightedFieldsOf env a1 s1 lmax lmaxMask w1 wa1 F1 m1 f1)
    (h2 : WeightedFieldsOf env a2 s2 lmax lmaxMask w2 wa2 F2 m2 f2) (heven : Even (s1 + s2)) (ω0 : Ω)
    (haniso : (f1 ω0).maskA.isSome = true ∨ (f2 ω0).maskA.isSome = true) (C : ℕ → ℕ → ℝ)
    (hI : Isotropic μ (ncomp s1) (ncomp s2) lmax F1 F2 fun X Y l => C (ncomp s2 * X + Y) l) (same : Bool) :
    ∃ P : Ω → Arr2 ℝ, (∀ ω, computeCoupledCell ((f1 ω).view env.sht minfo) ((f2 ω).view env.sht minfo) same = .ok (some (P ω))) ∧
      (∀ ω, (P ω).rows = ncomp s1 * ncomp s2 ∧ (P ω).cols = lmax + 1) ∧
      ∀ k < ncomp s1 * ncomp s2, ∀ l ≤ lmax, Integrable (fun ω => (P ω).val k l) μ ∧
        ∫ ω, (P ω).val k l ∂μ = ∑ l' ∈ range (lmax + 1), ∑ j ∈ range (ncomp s1 * ncomp s2),
          namedAnisoMatrix racah ⟨s1, s2, (f1 ω0).maskA.isSome, (f2 ω0).maskA.isSome, lmaxMask⟩ lmax
            (maskSpectra env.sht (f1 ω0) (f2 ω0) 0 0) (maskSpectra env.sht (f1 ω0) (f2 ω0) 0 1) (maskSpectra env.sht (f1 ω0) (f2 ω0) 0 2)
            (maskSpectra env.sht (f1 ω0) (f2 ω0) 1 0) (maskSpectra env.sht (f1 ω0) (f2 ω0) 2 0) (maskSpectra env.sht (f1 ω0) (f2 ω0) 1 1)
            (maskSpectra env.sht (f1 ω0) (f2 ω0) 1 2) (maskSpectra env.sht (f1 ω0) (f2 ω0) 2 1) (maskSpectra env.sht (f1 ω0) (f2 ω0) 2 2)
            (ncomp s1 * ncomp s2 * l + k) (ncomp s1 * ncomp s2 * l' + j) * C j l' := by
  obtain ⟨ma1, mm1, g1⟩ := h1.fieldFacts hS
  obtain ⟨ma2, mm2, g2⟩ := h2.fieldFacts hS
  obtain ⟨P, hP, hsh, hmean⟩ := aniso_core hS minfo h1 h2 hI same ω0
  refine ⟨P, hP, hsh, fun k hk l hl => ?_⟩
  have hn2 : 0 < ncomp s2 := by unfold ncomp; split_ifs <;> omega
  have hX : k / ncomp s2 < ncomp s1 := Nat.div_lt_of_lt_mul (by rwa [mul_comm] at hk)
  have hY : k % ncomp s2 < ncomp s2 := Nat.mod_lt _ hn2
  have hk' : ncomp s2 * (k / ncomp s2) + k % ncomp s2 = k := Nat.div_add_mod _ _
  obtain ⟨q1, q2⟩ := hmean _ hX _ hY l hl
  rw [hk'] at q1 q2
  refine ⟨q1, q2.trans ?_⟩
  refine sum_congr rfl fun l' hl' => ?_
  rw [mem_range] at hl'
  rw [mul_comm (ncomp s1) (ncomp s2), sum_flat]
  refine sum_congr rfl fun X' hX' => sum_congr rfl fun Y' hY' => ?_
  rw [mem_range] at hX' hY'
  have key := aniso_matrix_kernel ⟨s1, s2, (f1 ω0).maskA.isSome, (f2 ω0).maskA.isSome, lmaxMask⟩ heven
    (haniso.imp (g1 ω0).aniso (g2 ω0).aniso) (g1 ω0).aniso (g2 ω0).aniso lmax (maskSpectra env.sht (f1 ω0) (f2 ω0))
    (fun h k j L hk => maskSpectra_none1 h hk) (fun h k j L hj => maskSpectra_none2 h hj) hl (l' := l') (by omega) hX hY hX' hY'
  rw [AnisoArgs.ncls_eq] at key
  dsimp only at key
  rw [hk', mul_comm (ncomp s1) (ncomp s2)] at key
  rw [key]

/-- C83: the mean is `couple_cell` with the workspace made by `NmtWorkspace.from_fields` from the same fields, if the cross-spectra of the masks
`0B` (part without spin of the first mask, B of the second) and `E0` agree. Missing for the full claim: different spectra `0B` and `E0`,
see `C83_order_wrong`, and odd sums of spins, see `C20_odd_example`. -/
theorem C83_workspace_partial {Ω : Type*} [MeasurableSpace Ω] (μ : Measure Ω) (env : FieldEnv) (hS : env.sht.ReadsTriangle) (minfo : MapInfo)
    (a1 a2 : FieldArgs) (s1 s2 lmax lmaxMask : ℕ) (w1 w2 : ℕ → ℤ → ℂ) (wa1 wa2 : ℕ → ℕ → ℤ → ℂ) (F1 F2 : Ω → ℕ → ℕ → ℤ → ℂ)
    (m1 m2 : Ω → MapStack) (f1 f2 : Ω → FieldObj) (h1 : WeightedFieldsOf env a1 s1 lmax lmaxMask w1 wa1 F1 m1 f1)
    (h2 : WeightedFieldsOf env a2 s2 lmax lmaxMask w2 wa2 F2 m2 f2) (heven : Even (s1 + s2)) (ω0 : Ω)
    (haniso : (f1 ω0).maskA.isSome = true ∨ (f2 ω0).maskA.isSome = true)
    (hag : ∀ L ≤ lmaxMask, maskSpectra env.sht (f1 ω0) (f2 ω0) 0 2 L = maskSpectra env.sht (f1 ω0) (f2 ω0) 1 0 L)
    (C : Arr2 ℝ) (hr : C.rows = ncomp s1 * ncomp s2) (hc : C.cols = lmax + 1)
    (hI : Isotropic μ (ncomp s1) (ncomp s2) lmax F1 F2 fun X Y l => a1.beamAt l * a2.beamAt l * C.val (ncomp s2 * X + Y) l)
    (same : Bool) (hsame : same = true → f1 = f2) (B : Bins ℝ) (wa : WspArgs) (w : Wsp ℝ)
    (hw : wspFromFields racah env minfo (f1 ω0) (f2 ω0) same B wa = .ok w) :
    ∃ (P : Ω → Arr2 ℝ) (U : ℕ → ℕ → ℝ) (R : Arr2 ℝ),
      (∀ ω, computeCoupledCell ((f1 ω).view env.sht minfo) ((f2 ω).view env.sht minfo) same = .ok (some (P ω))) ∧
      w.unbinned = some U ∧ coupleCell w U C = .ok R ∧
      (∀ ω, (P ω).rows = R.rows ∧ (P ω).cols = R.cols) ∧ R.rows = ncomp s1 * ncomp s2 ∧ R.cols = lmax + 1 ∧
      ∀ k < ncomp s1 * ncomp s2, ∀ l ≤ lmax, Integrable (fun ω => (P ω).val k l) μ ∧ ∫ ω, (P ω).val k l ∂μ = R.val k l := by
  obtain ⟨ma1, mm1, g1⟩ := h1.fieldFacts hS
  obtain ⟨ma2, mm2, g2⟩ := h2.fieldFacts hS
  obtain ⟨hB, n, -, hcomp⟩ := wsp_aniso haniso hw
  rw [aniso_args _ _ _ _ _ (fun h => by rw [hsame h])] at hcomp
  obtain ⟨hb1, hb2, hbuild⟩ := aniso_parts hcomp
  rw [(g1 ω0).elmax] at hB
  set a : AnisoArgs := ⟨(f1 ω0).spin.toNat, (f2 ω0).spin.toNat, (f1 ω0).maskA.isSome, (f2 ω0).maskA.isSome, (f1 ω0).lmaxMask⟩ with ha
  have e1 : a.spin1 = s1 := by rw [ha]; dsimp only; rw [(g1 ω0).espin]; rfl
  have e2 : a.spin2 = s2 := by rw [ha]; dsimp only; rw [(g2 ω0).espin]; rfl
  have em : a.lmaxMask = lmaxMask := by rw [ha]; exact (g1 ω0).elmaxMask
  have hncls' : a.ncls = ncomp s1 * ncomp s2 := by rw [a.ncls_eq, e1, e2]
  have hncls : w.ncls = ncomp s1 * ncomp s2 := by rw [hbuild]; exact hncls'
  have hwl : w.lmax = lmax := by rw [hbuild]; exact hB.symm
  have hbeam : ∀ l ≤ lmax, w.beamProd l = a1.beamAt l * a2.beamAt l := by
    intro l hl
    rw [hbuild]
    change tab ((f1 ω0).lmax + 1) (fun l => (f1 ω0).beamList.getD l 0 * (f2 ω0).beamList.getD l 0) l = _
    have hlen : ∀ f : FieldObj, f.beamList.length = f.beam.1 := by intro f; unfold FieldObj.beamList; simp
    rw [hlen, (g1 ω0).elmax] at hb1
    rw [hlen, (g1 ω0).elmax] at hb2
    rw [(g1 ω0).elmax, tab_of_lt _ (by omega), beamList_getD _ (by omega), beamList_getD _ (by omega), (g1 ω0).ebeam, (g2 ω0).ebeam]
    unfold FieldArgs.beamAt
    congr 1
    · cases a1.beam <;> rfl
    · cases a2.beam <;> rfl
  obtain ⟨P, hP, hsh, hmean⟩ := aniso_core hS minfo h1 h2 hI same ω0
  obtain ⟨U, hU⟩ : ∃ U, w.unbinned = some U := by rw [hbuild]; exact ⟨_, rfl⟩
  have hUv : ∀ i j, i < a.ncls * (lmax + 1) → j < a.ncls * (lmax + 1) → U i j = compAnisoMatrix racah a lmax
      (maskSpectra env.sht (f1 ω0) (f2 ω0) 0 0) (maskSpectra env.sht (f1 ω0) (f2 ω0) 0 1) (maskSpectra env.sht (f1 ω0) (f2 ω0) 0 2)
      (maskSpectra env.sht (f1 ω0) (f2 ω0) 1 0) (maskSpectra env.sht (f1 ω0) (f2 ω0) 2 0) (maskSpectra env.sht (f1 ω0) (f2 ω0) 1 1)
      (maskSpectra env.sht (f1 ω0) (f2 ω0) 1 2) (maskSpectra env.sht (f1 ω0) (f2 ω0) 2 1) (maskSpectra env.sht (f1 ω0) (f2 ω0) 2 2) i j := by
    intro i j hi hj
    have hU' := hU
    rw [hbuild] at hU'
    unfold buildWsp at hU'
    dsimp only at hU'
    rw [← Option.some.inj hU', ← hB, tab2_of_lt _ hi hj]
  refine ⟨P, U, _, hP, hU, coupleCell_ok w U C (hr.trans hncls.symm) (by omega), ?_, hncls, by change w.lmax + 1 = _; rw [hwl], ?_⟩
  · intro ω
    refine ⟨(hsh ω).1.trans hncls.symm, (hsh ω).2.trans ?_⟩
    change lmax + 1 = w.lmax + 1
    rw [hwl]
  intro k hk l hl
  have hn2 : 0 < ncomp s2 := by unfold ncomp; split_ifs <;> omega
  have hX : k / ncomp s2 < ncomp s1 := Nat.div_lt_of_lt_mul (by rwa [mul_comm] at hk)
  have hY : k % ncomp s2 < ncomp s2 := Nat.mod_lt _ hn2
  have hk' : ncomp s2 * (k / ncomp s2) + k % ncomp s2 = k := Nat.div_add_mod _ _
  obtain ⟨q1, q2⟩ := hmean _ hX _ hY l hl
  rw [hk'] at q1 q2
  have hof : ∀ (g : ℕ → ℕ → ℝ) (n : ℕ), n = ncomp s1 * ncomp s2 → (Arr2.of n (lmax + 1) g).val k l = g k l :=
    fun g n hn => tab2_of_lt _ (hn ▸ hk) (by omega)
  rw [hwl, hof _ _ hncls]
  refine ⟨q1, q2.trans ?_⟩
  unfold coupleCl
  refine sum_congr rfl fun l' hl' => ?_
  rw [mem_range] at hl'
  rw [hncls, mul_comm (ncomp s1) (ncomp s2), sum_flat]
  refine sum_congr rfl fun X' hX' => sum_congr rfl fun Y' hY' => ?_
  rw [mem_range] at hX' hY'
  rw [hbeam l' (by omega)]
  have key := comp_kernel_agree a (by rw [e1, e2]; exact heven)
    (by rw [e1, e2]; exact haniso.imp (g1 ω0).aniso (g2 ω0).aniso) (by rw [e1]; exact (g1 ω0).aniso) (by rw [e2]; exact (g2 ω0).aniso) lmax
    (maskSpectra env.sht (f1 ω0) (f2 ω0)) (fun h k j L hk => maskSpectra_none1 h hk) (fun h k j L hj => maskSpectra_none2 h hj)
    (by rw [em]; exact hag) hl (l' := l') (by omega) (by rw [e1]; exact hX) (by rw [e2]; exact hY) (by rw [e1]; exact hX') (by rw [e2]; exact hY')
  have hin : ∀ {l k}, l < lmax + 1 → k < a.ncls → a.ncls * l + k < a.ncls * (lmax + 1) := by
    intro l k hl hk
    calc a.ncls * l + k < a.ncls * l + a.ncls := by omega
      _ = a.ncls * (l + 1) := by ring
      _ ≤ _ := Nat.mul_le_mul_left _ hl
  rw [← hUv _ _ (hin (by omega) (by rw [a.ncls_eq, e1, e2]; exact rowcol_lt hX hY)) (hin hl' (by rw [a.ncls_eq, e1, e2]; exact rowcol_lt hX' hY')),
    hncls', e1, e2, em, hk', mul_comm (ncomp s1) (ncomp s2)] at key
  rw [key]
  ring

/-- Decoupling spectra whose mean is `couple_cell` of the true spectrum, for any matrix. -/
theorem unbiased_build {Ω : Type*} [MeasurableSpace Ω] {μ : Measure Ω} (L : LinAlg ℝ) (hL : L.Correct) {ncls lmaxF lmaxM : ℕ} {teb : Bool}
    {nt : ℤ} {w2 : ℝ} {b1 b2 p : ℕ → ℝ} {U0 : ℕ → ℕ → ℝ} {B : Bins ℝ} {w : Wsp ℝ} (hbuild : w = buildWsp ncls lmaxF lmaxM teb nt w2 b1 b2 p U0 B)
    (hn0 : nt = 0) (hell : WspSpec.Bounded B B.ellMax) (hnr : BinSpec.NoRepeats B)
    (hreg : Regular w.nBinned w.binned) (y C R : Arr2 ℝ) (hyr : y.rows = w.ncls) (hyc : y.cols = B.nBands) (hC : unbinCells B y = .ok C)
    {U : ℕ → ℕ → ℝ} (hU : w.unbinned = some U) (hR : coupleCell w U C = .ok R) (P : Ω → Arr2 ℝ) (hsh : ∀ ω, (P ω).rows = R.rows ∧ (P ω).cols = R.cols)
    (hP : ∀ k < w.ncls, ∀ b ∈ B.bands, ∀ e ∈ b, Integrable (fun ω => (P ω).val k e.ell) μ ∧ ∫ ω, (P ω).val k e.ell ∂μ = R.val k e.ell) :
    ∃ D : Ω → Arr2 ℝ, (∀ ω, decoupleCell L w (P ω) none none = .ok (D ω)) ∧ (∀ ω, (D ω).rows = y.rows ∧ (D ω).cols = y.cols) ∧
      ∀ k < y.rows, ∀ b < y.cols, Integrable (fun ω => (D ω).val k b) μ ∧ ∫ ω, (D ω).val k b ∂μ = y.val k b := by
  set m := ncls * (B.ellMax + 1) with hm
  have hUe : U = tab2 m m U0 := by
    rw [hbuild] at hU
    exact (Option.some.inj hU).symm
  have htt : tab2 m m (tab2 m m U0) = tab2 m m U0 := by
    funext i j
    unfold tab2
    split_ifs <;> rfl
  have hwb : w = WspSpec.build ⟨ncls, B.ellMax, lmaxF, lmaxM, teb, nt, w2, p⟩ ⟨b1, b2, U, B⟩ := by
    rw [hbuild]
    unfold WspSpec.build buildWsp
    simp only [← hm, hUe, htt]
  have hnc : w.ncls = ncls := by rw [hbuild]; rfl
  have hbin : w.bin = B := by rw [hbuild]; rfl
  have h7 := C07_master_exact L hL _ _ hn0 hell hnr (hwb ▸ hreg) y (hyr.trans hnc) hyc
  rw [← hwb] at h7
  dsimp only at h7
  rw [hC] at h7
  change (coupleCell w U C).bind _ = _ at h7
  rw [hR] at h7
  simp only [Outcome.bind] at h7
  have hRs : R.rows = w.ncls ∧ R.cols = w.lmax + 1 := by
    unfold coupleCell at hR
    split_ifs at hR
    rw [← Outcome.ok.inj hR]
    exact ⟨rfl, rfl⟩
  rw [decoupleCell_ok L w R hRs.1 hRs.2.ge] at h7
  refine ⟨_, fun ω => decoupleCell_ok L w (P ω) ((hsh ω).1.trans hRs.1) (by rw [(hsh ω).2, hRs.2]), fun ω => ⟨hyr.symm, ?_⟩, ?_⟩
  · rw [hyc, ← hbin]; rfl
  intro k hk b hb
  rw [hyr] at hk
  rw [hyc, ← hbin] at hb
  obtain ⟨g1, g2⟩ := decouple_mean μ L hL w hreg P R (by rw [hbin]; exact hP) hk hb
  have hof : ∀ g : ℕ → ℕ → ℝ, (Arr2.of w.ncls w.bin.nBands g).val k b = g k b := fun g => tab2_of_lt _ hk hb
  simp only [hof]
  refine ⟨g1, g2.trans ?_⟩
  have h8 := congrArg (fun a => a.val k b) (Outcome.ok.inj h7)
  rw [hyr, hyc, ← hbin] at h8
  simp only [hof] at h8
  exact h8

/-- The workspace does not depend on the maps. -/
theorem wsp_same_facts {W : Wigner} {env : FieldEnv} {minfo : MapInfo} {a1 a2 : FieldArgs} {s1 s2 lmax lmaxMask : ℕ} {w1 w2 : ℕ → ℤ → ℂ}
    {wa1 wa2 F1 F2 F1' F2' : ℕ → ℕ → ℤ → ℂ} {f1 f2 f1' f2' : FieldObj} {ma1 ma2 : Option (ℕ → ℕ → ℝ)} {mm1 mm2 : ℕ → ℝ}
    (p : FieldFacts env a1 s1 lmax lmaxMask w1 wa1 F1 ma1 mm1 f1) (q : FieldFacts env a1 s1 lmax lmaxMask w1 wa1 F1' ma1 mm1 f1')
    (r : FieldFacts env a2 s2 lmax lmaxMask w2 wa2 F2 ma2 mm2 f2) (t : FieldFacts env a2 s2 lmax lmaxMask w2 wa2 F2' ma2 mm2 f2')
    (same : Bool) (B : Bins ℝ) (wa : WspArgs) :
    wspFromFields W env minfo f1 f2 same B wa = wspFromFields W env minfo f1' f2' same B wa := by
  unfold wspFromFields couplingArgsOf normOf anisoFromFields FieldObj.view FieldObj.beamList FieldObj.getMaskAlms FieldObj.getAnisoAlms maskSpectrum
  simp only [p.elmax, p.elmaxMask, p.espin, p.emaskA, p.emask, p.epureE, p.epureB, p.eiter, p.ebeam,
    q.elmax, q.elmaxMask, q.espin, q.emaskA, q.emask, q.epureE, q.epureB, q.eiter, q.ebeam,
    r.elmax, r.elmaxMask, r.espin, r.emaskA, r.emask, r.epureE, r.epureB, r.eiter, r.ebeam,
    t.elmax, t.elmaxMask, t.espin, t.emaskA, t.emask, t.epureE, t.epureB, t.eiter, t.ebeam]

/-- C83: with the MASTER normalisation, if the true spectrum is constant (up to the prefactor) in each band, the mean of the bandpowers returned
by `compute_full_master` for fields with anisotropic masks is exactly the true one, under the conditions of `C83_workspace_partial`. -/
theorem C83_unbiased_partial {Ω : Type*} [MeasurableSpace Ω] (μ : Measure Ω) (L : LinAlg ℝ) (hL : L.Correct) (env : FieldEnv)
    (hS : env.sht.ReadsTriangle) (minfo : MapInfo)
    (a1 a2 : FieldArgs) (s1 s2 lmax lmaxMask : ℕ) (w1 w2 : ℕ → ℤ → ℂ) (wa1 wa2 : ℕ → ℕ → ℤ → ℂ) (F1 F2 : Ω → ℕ → ℕ → ℤ → ℂ)
    (m1 m2 : Ω → MapStack) (f1 f2 : Ω → FieldObj) (h1 : WeightedFieldsOf env a1 s1 lmax lmaxMask w1 wa1 F1 m1 f1)
    (h2 : WeightedFieldsOf env a2 s2 lmax lmaxMask w2 wa2 F2 m2 f2) (heven : Even (s1 + s2)) (ω0 : Ω)
    (haniso : (f1 ω0).maskA.isSome = true ∨ (f2 ω0).maskA.isSome = true)
    (hag : ∀ L ≤ lmaxMask, maskSpectra env.sht (f1 ω0) (f2 ω0) 0 2 L = maskSpectra env.sht (f1 ω0) (f2 ω0) 1 0 L)
    (B : Bins ℝ) (hell : WspSpec.Bounded B B.ellMax) (hnr : BinSpec.NoRepeats B) (y C : Arr2 ℝ) (hyr : y.rows = ncomp s1 * ncomp s2)
    (hyc : y.cols = B.nBands) (hC : unbinCells B y = .ok C)
    (hI : Isotropic μ (ncomp s1) (ncomp s2) lmax F1 F2 fun X Y l => a1.beamAt l * a2.beamAt l * C.val (ncomp s2 * X + Y) l)
    (same : Bool) (hsame : same = true → f1 = f2) (wa : WspArgs) (hnorm : wa.norm = "MASTER") (w : Wsp ℝ)
    (hw : wspFromFields racah env minfo (f1 ω0) (f2 ω0) same B wa = .ok w) (hreg : Regular w.nBinned w.binned) (nIter : ℕ) :
    ∃ D : Ω → Arr2 ℝ,
      (∀ ω, fullMaster L env nIter minfo (f1 ω) (f2 ω) same true (wspFromFields racah env minfo (f1 ω) (f2 ω) same B wa) none none none =
        .ok (some (D ω))) ∧
      (∀ ω, (D ω).rows = y.rows ∧ (D ω).cols = y.cols) ∧
      ∀ k < y.rows, ∀ b < y.cols, Integrable (fun ω => (D ω).val k b) μ ∧ ∫ ω, (D ω).val k b ∂μ = y.val k b := by
  obtain ⟨ma1, mm1, g1⟩ := h1.fieldFacts hS
  obtain ⟨ma2, mm2, g2⟩ := h2.fieldFacts hS
  obtain ⟨hB, n, hn, hcomp⟩ := wsp_aniso haniso hw
  rw [aniso_args _ _ _ _ _ (fun h => by rw [hsame h])] at hcomp
  obtain ⟨-, -, hbuild⟩ := aniso_parts hcomp
  rw [(g1 ω0).elmax] at hB
  have hn0 : n.1 = 0 := by
    unfold normOf at hn
    rw [if_pos hnorm] at hn
    rw [← Outcome.ok.inj hn]
  have hC' : C.rows = ncomp s1 * ncomp s2 ∧ C.cols = lmax + 1 := by
    unfold unbinCells at hC
    rw [if_neg (by simp [hyc])] at hC
    rw [← Outcome.ok.inj hC]
    exact ⟨hyr, by change B.ellMax + 1 = _; rw [← hB]⟩
  obtain ⟨P, U, R, hP, hU, hR, hsh, hRr, hRc, hmean⟩ := C83_workspace_partial μ env hS minfo a1 a2 s1 s2 lmax lmaxMask w1 w2 wa1 wa2 F1 F2 m1 m2
    f1 f2 h1 h2 heven ω0 haniso hag C hC'.1 hC'.2 hI same hsame B wa w hw
  have hncls : w.ncls = ncomp s1 * ncomp s2 := by
    unfold coupleCell at hR
    split_ifs at hR with q
    push Not at q
    rw [← q.1, hC'.1]
  obtain ⟨D, hD, hDs, hDm⟩ := unbiased_build (μ := μ) L hL hbuild hn0 hell hnr hreg y C R (hyr.trans hncls.symm) hyc hC hU hR P hsh
    (fun k hk b hb e he => hmean k (by rw [← hncls]; exact hk) e.ell (by rw [hB]; exact hell b hb e he))
  refine ⟨D, fun ω => ?_, hDs, hDm⟩
  obtain ⟨n1, i1, l1⟩ := (g1 ω).noTempl
  obtain ⟨n2, i2, l2⟩ := (g2 ω).noTempl
  unfold fullMaster
  simp only [not_true_eq_false, false_and, if_false, view_compat env minfo _ _ _ ((g1 ω).elmax.trans (g2 ω).elmax.symm)
    ((g1 ω).elmaxMask.trans (g2 ω).elmaxMask.symm), Bool.true_eq_false, Option.any_none, Option.getD_none, Bool.false_eq_true]
  rw [hP ω]
  simp only [Outcome.bind]
  rw [bias_zero env nIter _ _ _ rfl rfl l1 l2 n1 n2 i1 i2]
  have hrows : (P ω).rows = (f1 ω).nmaps * (f2 ω).nmaps := by rw [(hsh ω).1, hRr, (g1 ω).enmaps, (g2 ω).enmaps]
  have hcols : (P ω).cols = (f1 ω).lmax + 1 := by rw [(hsh ω).2, hRc, (g1 ω).elmax]
  rw [wsp_same_facts (g1 ω) (g1 ω0) (g2 ω) (g2 ω0) same B wa, hw]
  simp only [pickWsp, subO, Arr2.sub, hrows, hcols, ne_eq, not_true_eq_false, or_self, if_false, Outcome.bind, sub_zero]
  have e : (⟨(f1 ω).nmaps * (f2 ω).nmaps, (f1 ω).lmax + 1, fun i j => (P ω).val i j⟩ : Arr2 ℝ) = P ω := by
    rw [← hrows, ← hcols]
  rw [e, hD]

end NaMaster
