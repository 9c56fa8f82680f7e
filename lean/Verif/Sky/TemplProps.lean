import Verif.Sky.TemplLemmas

/-! # Contaminant templates and the MASTER relation on the sphere: C86 -/

namespace NaMaster

open Finset MeasureTheory WignerSpec SkySpec CouplingSpec

/-! ## Specification -/

/-- Fields `f ω` made from maps of the skies `F ω` to which arbitrary amounts `z ω` of the templates of the call `a` are added. `g ω` are the fields
made from the clean maps with the same arguments but no templates. -/
structure ContaminatedFields {Ω : Type*} (env : FieldEnv) (a : FieldArgs) (s lmax lmaxMask : ℕ) (w : ℕ → ℤ → ℂ) (F : Ω → ℕ → ℕ → ℤ → ℂ)
    (sky : Ω → MapStack) (z : Ω → ℕ → ℝ) (f g : Ω → FieldObj) : Prop where
  clean : FieldsOf env a.bare s lmax lmaxMask w F sky g
  shown : ∀ ω, ∀ c < ncomp s, ∀ p < env.pix.npix, sky ω c p = env.sht.alm2map s lmax (fun X l m => F ω X l m) c p
  good : GoodTemplates env.pix a (ncomp s)
  made : ∀ ω, nmtField env (a.withMaps (ncomp s) env.pix.npix fun c p =>
    sky ω c p + combine a.nTempl (z ω) (a.rawTempl (ncomp s) env.pix.npix) c p) = .ok (f ω)

/-! ## Lemmas -/

theorem ContaminatedFields.iso {Ω : Type*} {env : FieldEnv} {a : FieldArgs} {s lmax lmaxMask : ℕ} {w : ℕ → ℤ → ℂ} {F : Ω → ℕ → ℕ → ℤ → ℂ}
    {sky : Ω → MapStack} {z : Ω → ℕ → ℝ} {f g : Ω → FieldObj} (h : ContaminatedFields env a s lmax lmaxMask w F sky z f g) : IsoCall a :=
  ⟨h.clean.iso.mask22, h.clean.iso.mask12, h.clean.iso.unmasked, h.clean.iso.full, h.clean.iso.tol⟩

/-- The workspace does not depend on the templates. -/
theorem wsp_clean {Ω : Type*} {W : Wigner} {env : FieldEnv} {minfo : MapInfo} {a1 a2 : FieldArgs} {s1 s2 lmax lmaxMask : ℕ} {w1 w2 : ℕ → ℤ → ℂ}
    {F1 F2 : Ω → ℕ → ℕ → ℤ → ℂ} {m1 m2 : Ω → MapStack} {z1 z2 : Ω → ℕ → ℝ} {f1 f2 g1 g2 : Ω → FieldObj}
    (h1 : ContaminatedFields env a1 s1 lmax lmaxMask w1 F1 m1 z1 f1 g1) (h2 : ContaminatedFields env a2 s2 lmax lmaxMask w2 F2 m2 z2 f2 g2)
    (same : Bool) (B : Bins ℝ) (wa : WspArgs) (ω : Ω) :
    wspFromFields W env minfo (f1 ω) (f2 ω) same B wa = wspFromFields W env minfo (g1 ω) (g2 ω) same B wa := by
  have key : ∀ {a : FieldArgs} {s : ℕ} {w : ℕ → ℤ → ℂ} {F : Ω → ℕ → ℕ → ℤ → ℂ} {m : Ω → MapStack} {z : Ω → ℕ → ℝ} {f g : Ω → FieldObj}
      (h : ContaminatedFields env a s lmax lmaxMask w F m z f g), (f ω).lmax = (g ω).lmax ∧ (f ω).lmaxMask = (g ω).lmaxMask ∧
        (f ω).spin = (g ω).spin ∧ (f ω).maskA = (g ω).maskA ∧ (f ω).mask = (g ω).mask ∧ (f ω).pureE = (g ω).pureE ∧ (f ω).pureB = (g ω).pureB ∧
        (f ω).nIterMask = (g ω).nIterMask ∧ (f ω).beam = (g ω).beam ∧ (f ω).nmaps = (g ω).nmaps := by
    intro a s w F m z f g h
    obtain ⟨p1, p2, p3, p4, p5, p6, p7, p8, p9, p10, -⟩ := h.clean.facts ω
    have k := field_is env a h.iso _ _ _ _ (h.made ω)
    obtain ⟨r1, r2⟩ := field_rest_any env a h.iso _ _ _ _ (h.made ω)
    have e1 : a.lmax.getD env.lmaxDefault = lmax := h.clean.bandLimit
    have e2 : a.lmaxMask.getD env.lmaxDefault = lmaxMask := h.clean.maskBandLimit
    have e3 : spinOf (ncomp s) a.spin = s := h.clean.spin
    refine ⟨by rw [k.lmax, p1, e1]; simp, by rw [k.lmaxMask, p2, e2]; simp, by rw [k.spin, p3, e3], by rw [r1, p4], by rw [k.mask, p5]; rfl,
      by rw [k.pureE, p6]; rfl, by rw [k.pureB, p7]; rfl, by rw [k.nIterMask, p8]; rfl, ?_, by rw [k.nmaps, p9]⟩
    rw [r2, p10, e1]; rfl
  obtain ⟨p1, p2, p3, p4, p5, p6, p7, p8, p9, -⟩ := key h1
  obtain ⟨q1, q2, q3, q4, q5, q6, q7, q8, q9, -⟩ := key h2
  unfold wspFromFields couplingArgsOf normOf anisoFromFields FieldObj.view FieldObj.beamList FieldObj.getMaskAlms FieldObj.getAnisoAlms maskSpectrum
  simp only [p1, p2, p3, p4, p5, p6, p7, p8, p9, q1, q2, q3, q4, q5, q6, q7, q8, q9]

/-! ## C86 -/

/-- C86: for fields with contaminated maps the mean of the pseudo-spectra minus the deprojection bias is the true spectrum passed through the
coupling matrix, if the spectra passed to `deprojection_bias` are those of the maps (the true spectra times the beams). -/
theorem C86_mean_partial {Ω : Type*} [MeasurableSpace Ω] (μ : Measure Ω) [IsProbabilityMeasure μ] (env : FieldEnv) (hE : env.eig.Correct)
    (hw : ∀ p < env.pix.npix, 0 < env.pix.w p) (hS : env.sht.ReadsTriangle) (hlin : env.sht.AnalysisLinear) (hsh : env.sht.Shaped env.pix.npix)
    (minfo : MapInfo) (a1 a2 : FieldArgs) (s1 s2 lmax lmaxMask nIter : ℕ) (hn1 : a1.nIter = nIter) (hn2 : a2.nIter = nIter)
    (w1 w2 : ℕ → ℤ → ℂ) (F1 F2 : Ω → ℕ → ℕ → ℤ → ℂ) (m1 m2 : Ω → MapStack) (z1 z2 : Ω → ℕ → ℝ) (f1 f2 g1 g2 : Ω → FieldObj)
    (h1 : ContaminatedFields env a1 s1 lmax lmaxMask w1 F1 m1 z1 f1 g1) (h2 : ContaminatedFields env a2 s2 lmax lmaxMask w2 F2 m2 z2 f2 g2)
    (y1 y2 : MapStack → ℕ → ℕ → ℤ → ℂ) (A1 : AdjointOf env.sht env.pix s1 lmax nIter y1) (A2 : AdjointOf env.sht env.pix s2 lmax nIter y2)
    (C guess : Arr2 ℝ) (hr : C.rows = ncomp s1 * ncomp s2) (hc : C.cols = lmax + 1) (hgr : guess.rows = ncomp s1 * ncomp s2)
    (hgc : guess.cols = lmax + 1)
    (hguess : ∀ k < ncomp s1 * ncomp s2, ∀ l ≤ lmax, guess.val k l = a1.beamAt l * a2.beamAt l * C.val k l)
    (hI : Isotropic μ (ncomp s1) (ncomp s2) lmax F1 F2 fun X Y l => a1.beamAt l * a2.beamAt l * C.val (ncomp s2 * X + Y) l)
    (same : Bool) (hsame : same = true → f1 = f2 ∧ g1 = g2) (B : Bins ℝ) (wa : WspArgs) (hteb : wa.isTeb = false) (hT : wa.lT ≤ 0)
    (hother : a2.purifyE || a2.purifyB → s1 = 0 ∨ s1 = 2) (ω0 : Ω) (w : Wsp ℝ)
    (hwsp : wspFromFields racah env minfo (f1 ω0) (f2 ω0) same B wa = .ok w) :
    ∃ (P : Ω → Arr2 ℝ) (bias : Arr2 ℝ) (U : ℕ → ℕ → ℝ) (R : Arr2 ℝ),
      (∀ ω, computeCoupledCell ((f1 ω).view env.sht minfo) ((f2 ω).view env.sht minfo) same = .ok (some (P ω))) ∧
      (∀ ω, deprojectionBias env nIter (isCompatible ((f1 ω).view env.sht minfo).geom ((f2 ω).view env.sht minfo).geom true)
        (f1 ω) (f2 ω) guess = .ok (some bias)) ∧
      w.unbinned = some U ∧ coupleCell w U C = .ok R ∧
      (∀ ω, (P ω).rows = R.rows ∧ (P ω).cols = R.cols) ∧ bias.rows = R.rows ∧ bias.cols = R.cols ∧
      R.rows = ncomp s1 * ncomp s2 ∧ R.cols = lmax + 1 ∧
      ∀ k < ncomp s1 * ncomp s2, ∀ l ≤ lmax, Integrable (fun ω => (P ω).val k l - bias.val k l) μ ∧
        ∫ ω, ((P ω).val k l - bias.val k l) ∂μ = R.val k l := by
  obtain ⟨E, hEx⟩ := exists_mean μ
  have : Nonempty Ω := ⟨ω0⟩
  have c1 := fun ω => FieldIs.clean hE hw h1.iso h1.good (field_is env a1 h1.iso _ _ _ _ (h1.made ω))
  have c2 := fun ω => FieldIs.clean hE hw h2.iso h2.good (field_is env a2 h2.iso _ _ _ _ (h2.made ω))
  have b1 := fun ω => field_is env a1.bare h1.clean.iso _ _ _ _ (h1.clean.made ω)
  have b2 := fun ω => field_is env a2.bare h2.clean.iso _ _ _ _ (h2.clean.made ω)
  have e1 : a1.lmax.getD env.lmaxDefault = lmax := h1.clean.bandLimit
  have e2 : a2.lmax.getD env.lmaxDefault = lmax := h2.clean.bandLimit
  have e3 : a1.lmaxMask.getD env.lmaxDefault = a2.lmaxMask.getD env.lmaxDefault := h1.clean.maskBandLimit.trans h2.clean.maskBandLimit.symm
  have sp1 : spinOf (ncomp s1) a1.spin = s1 := h1.clean.spin
  have sp2 : spinOf (ncomp s2) a2.spin = s2 := h2.clean.spin
  have hk : ∀ X < ncomp s1, ∀ Y < ncomp s2, X * ncomp s2 + Y < ncomp s1 * ncomp s2 := by
    intro X hX Y hY
    calc X * ncomp s2 + Y < X * ncomp s2 + ncomp s2 := by omega
      _ = (X + 1) * ncomp s2 := by ring
      _ ≤ ncomp s1 * ncomp s2 := Nat.mul_le_mul_right _ (by omega)
  have hcl : ∀ X < ncomp s1, ∀ Y < ncomp s2, ∀ l ≤ lmax, guess.val (X * ncomp s2 + Y) l = a1.beamAt l * a2.beamAt l * C.val (ncomp s2 * X + Y) l := by
    intro X hX Y hY l hl
    rw [hguess _ (hk X hX Y hY) l hl, mul_comm X]
  have i12 := isoCov_of μ E hEx env hS A1 A2 hw h1.clean.skyReal h2.clean.skyReal h1.shown h2.shown hI
    (fun m n l => guess.val (m * ncomp s2 + n) l) hcl
  have i21 := isoCov_of μ E hEx env hS A2 A1 hw h2.clean.skyReal h1.clean.skyReal h2.shown h1.shown (isotropic_swap hI)
    (fun n m l => guess.val (m * ncomp s2 + n) l) (fun X hX Y hY l hl => hcl Y hY X hX l hl)
  obtain ⟨bias, P, G, hbias, hP, hG, hbr, hbc, hmean⟩ := deproj_mean E env hlin hsh minfo a1 a2 nIter hn1 hn2 (ncomp s1) (ncomp s2) lmax e1 e2 e3
    m1 m2 f1 f2 g1 g2 (fun ω => (c1 ω).1) (fun ω => (c2 ω).1) b1 b2 (fun ω => (c1 ω).2) (fun ω => (c2 ω).2) guess hgr hgc
    (by rw [sp1, sp2]; exact i12) (by rw [sp1, sp2]; exact i21) same
  rw [wsp_clean h1 h2] at hwsp
  obtain ⟨P', U, R, hP', hU, hR, hsh', hRr, hRc, hmean'⟩ := C81_mean μ env hS minfo a1.bare a2.bare s1 s2 lmax lmaxMask w1 w2 F1 F2 m1 m2 g1 g2
    h1.clean h2.clean C hr hc hI same (fun h => (hsame h).2) B wa hteb hT hother ω0 w hwsp
  have hGP : G = P' := funext fun ω => Option.some.inj (Outcome.ok.inj ((hG ω).symm.trans (hP' ω)))
  subst hGP
  -- the spectra of the fields are integrable
  have hQex : ∀ (f : FieldObj), f.iM ≠ some none → ∃ Q, f.iM.getD (some fun _ _ => 0) = some Q := by
    intro f hf
    cases hq : f.iM with
    | none => exact ⟨_, rfl⟩
    | some x =>
      cases x with
      | none => exact absurd hq hf
      | some Q => exact ⟨Q, rfl⟩
  obtain ⟨Q1, hq1⟩ := hQex _ (c1 ω0).2
  obtain ⟨Q2, hq2⟩ := hQex _ (c2 ω0).2
  have hq1' : ∀ ω, (f1 ω).iM.getD (some fun _ _ => 0) = some Q1 := by
    intro ω; rw [(c1 ω).1.iMdet, ← (c1 ω0).1.iMdet]; exact hq1
  have hq2' : ∀ ω, (f2 ω).iM.getD (some fun _ _ => 0) = some Q2 := by
    intro ω; rw [(c2 ω).1.iMdet, ← (c2 ω0).1.iMdet]; exact hq2
  have fl1 : ∀ ω, (f1 ω).lmax = lmax := fun ω => by rw [(c1 ω).1.lmax, e1]; simp
  have fl2 : ∀ ω, (f2 ω).lmax = lmax := fun ω => by rw [(c2 ω).1.lmax, e2]; simp
  have fm : ∀ ω, (f1 ω).lmaxMask = (f2 ω).lmaxMask := fun ω => by rw [(c1 ω).1.lmaxMask, (c2 ω).1.lmaxMask, e3]
  set L1 := popL hlin a1.nIter (f1 ω0) ∘ₗ projL env.pix (ncomp s1) a1.nTempl Q1
    (fun j c p => a1.maskedTempl (ncomp s1) env.pix.npix j c p * a1.mask p) (a1.rawTempl (ncomp s1) env.pix.npix) with hL1
  set L2 := popL hlin a2.nIter (f2 ω0) ∘ₗ projL env.pix (ncomp s2) a2.nTempl Q2
    (fun j c p => a2.maskedTempl (ncomp s2) env.pix.npix j c p * a2.mask p) (a2.rawTempl (ncomp s2) env.pix.npix) with hL2
  have al1 : ∀ ω, (f1 ω).alm = some (some (L1 (tab2 (ncomp s1) env.pix.npix (m1 ω)))) := by
    intro ω
    rw [(c1 ω).1.almL hlin (hq1' ω)]
    congr 2
    change pop env.sht a1.nIter (f1 ω) _ = pop env.sht a1.nIter (f1 ω0) _
    rw [FieldIs.same (c1 ω0).1 (c1 ω).1 rfl rfl rfl rfl rfl rfl]
  have al2 : ∀ ω, (f2 ω).alm = some (some (L2 (tab2 (ncomp s2) env.pix.npix (m2 ω)))) := by
    intro ω
    rw [(c2 ω).1.almL hlin (hq2' ω)]
    congr 2
    change pop env.sht a2.nIter (f2 ω) _ = pop env.sht a2.nIter (f2 ω0) _
    rw [FieldIs.same (c2 ω0).1 (c2 ω).1 rfl rfl rfl rfl rfl rfl]
  have hPv : ∀ ω, P ω = Arr2.of (ncomp s1 * ncomp s2) (lmax + 1) fun k l =>
      alm2cl (L1 (tab2 (ncomp s1) env.pix.npix (m1 ω)) (k / ncomp s2)) (L2 (tab2 (ncomp s2) env.pix.npix (m2 ω)) (k % ncomp s2)) l := by
    intro ω
    have h := (hP ω).symm.trans (coupled_fields env minfo (f1 ω) (f2 ω) same ((fl1 ω).trans (fl2 ω).symm) (fm ω) _ _ (al1 ω) (al2 ω))
    rw [(c1 ω).1.nmaps, (c2 ω).1.nmaps, fl1] at h
    exact Option.some.inj (Outcome.ok.inj h)
  have hint : ∀ k < ncomp s1 * ncomp s2, ∀ l ≤ lmax, Integrable (fun ω => (P ω).val k l) μ := by
    intro k hk' l hl
    have hv : ∀ x : ℕ → ℕ → ℝ, (Arr2.of (ncomp s1 * ncomp s2) (lmax + 1) x).val k l = x k l := fun x => tab2_of_lt _ hk' (by omega)
    simp only [hPv, hv]
    exact cl_integrable μ _ _ _ m1 m2 (fun c hc p hp d hd q hq => pixels_integrable μ A1 A2 hw h1.clean.skyReal h2.clean.skyReal h1.shown h2.shown
      hI c p d q hc hp hd hq) L1 L2 _ _ l
  refine ⟨P, bias, U, R, hP, hbias, hU, hR, ?_, by rw [hbr, hRr], by rw [hbc, hRc], hRr, hRc, ?_⟩
  · intro ω
    rw [hPv ω, hRr, hRc]
    exact ⟨rfl, rfl⟩
  · intro k hk' l hl
    refine ⟨(hint k hk' l hl).sub (integrable_const _), ?_⟩
    rw [integral_sub (hint k hk' l hl) (integrable_const _), integral_const]
    have h3 := hmean k hk' l hl
    rw [hEx _ (hint k hk' l hl), hEx _ (hmean' k hk' l hl).1, (hmean' k hk' l hl).2] at h3
    rw [h3]
    simp

/-- The mean of the bandpowers of `compute_full_master`, given the means of the pseudo-spectra minus the deprojection bias. -/
theorem full_mean {Ω : Type*} [MeasurableSpace Ω] (μ : Measure Ω) (L : LinAlg ℝ) (hL : L.Correct) {env : FieldEnv} {minfo : MapInfo}
    {a1 a2 : FieldArgs} {s1 s2 lmax lmaxMask nIter : ℕ} {w1 w2 : ℕ → ℤ → ℂ} {F1 F2 : Ω → ℕ → ℕ → ℤ → ℂ} {m1 m2 : Ω → MapStack}
    {z1 z2 : Ω → ℕ → ℝ} {f1 f2 g1 g2 : Ω → FieldObj}
    (h1 : ContaminatedFields env a1 s1 lmax lmaxMask w1 F1 m1 z1 f1 g1) (h2 : ContaminatedFields env a2 s2 lmax lmaxMask w2 F2 m2 z2 f2 g2)
    {guess : Arr2 ℝ} (hgr : guess.rows = ncomp s1 * ncomp s2) (hgc : guess.cols = lmax + 1) {same : Bool} {B : Bins ℝ}
    (hell : WspSpec.Bounded B B.ellMax) {wa : WspArgs} (ω0 : Ω) {w : Wsp ℝ}
    (hwsp : wspFromFields racah env minfo (f1 ω0) (f2 ω0) same B wa = .ok w) (hncls : w.ncls = ncomp s1 * ncomp s2)
    (hreg : Regular w.nBinned w.binned) {P : Ω → Arr2 ℝ} {bias R : Arr2 ℝ}
    (hP : ∀ ω, computeCoupledCell ((f1 ω).view env.sht minfo) ((f2 ω).view env.sht minfo) same = .ok (some (P ω)))
    (hbias : ∀ ω, deprojectionBias env nIter (isCompatible ((f1 ω).view env.sht minfo).geom ((f2 ω).view env.sht minfo).geom true)
      (f1 ω) (f2 ω) guess = .ok (some bias))
    (hsh' : ∀ ω, (P ω).rows = ncomp s1 * ncomp s2 ∧ (P ω).cols = lmax + 1) (hbr : bias.rows = ncomp s1 * ncomp s2) (hbc : bias.cols = lmax + 1)
    (hmean : ∀ k < ncomp s1 * ncomp s2, ∀ l ≤ lmax, Integrable (fun ω => (P ω).val k l - bias.val k l) μ ∧
      ∫ ω, ((P ω).val k l - bias.val k l) ∂μ = R.val k l) :
    ∃ D : Ω → Arr2 ℝ, w.lmax = lmax ∧ w.bin = B ∧
      (∀ ω, fullMaster L env nIter minfo (f1 ω) (f2 ω) same true (wspFromFields racah env minfo (f1 ω) (f2 ω) same B wa) none none (some guess) =
        .ok (some (D ω))) ∧
      (∀ ω, (D ω).rows = ncomp s1 * ncomp s2 ∧ (D ω).cols = B.nBands) ∧
      ∀ k < ncomp s1 * ncomp s2, ∀ b < B.nBands, Integrable (fun ω => (D ω).val k b) μ ∧
        ∫ ω, (D ω).val k b ∂μ = decoupleCl L w.ncls w.bin w.binned R.val (fun _ _ => 0) (fun _ _ => 0) k b := by
  have hwg := hwsp
  rw [wsp_clean h1 h2] at hwg
  obtain ⟨p1, -, -, p4, -⟩ := h1.clean.facts ω0
  obtain ⟨-, -, -, r4, -⟩ := h2.clean.facts ω0
  obtain ⟨hB, n, -, hcomp⟩ := wsp_iso p4 r4 hwg
  obtain ⟨-, -, -, p, U0, hbuild⟩ := comp_parts hcomp
  have hwl : w.lmax = lmax := by rw [hbuild]; change B.ellMax = lmax; rw [← hB, p1]
  have hwb : w.bin = B := by rw [hbuild]; rfl
  have hbd : WspSpec.Bounded w.bin w.lmax := by
    rw [hwb, hwl, ← p1, hB]; exact hell
  set P' : Ω → Arr2 ℝ := fun ω => ⟨ncomp s1 * ncomp s2, lmax + 1, fun i j => (P ω).val i j - bias.val i j⟩ with hP'
  have hd : ∀ ω, decoupleCell L w (P' ω) none none = .ok (Arr2.of w.ncls w.bin.nBands
      (decoupleCl L w.ncls w.bin w.binned (P' ω).val (fun _ _ => 0) (fun _ _ => 0))) :=
    fun ω => decoupleCell_ok L w (P' ω) (by rw [hncls]) (by rw [hwl])
  refine ⟨fun ω => Arr2.of w.ncls w.bin.nBands (decoupleCl L w.ncls w.bin w.binned (P' ω).val (fun _ _ => 0) (fun _ _ => 0)), hwl, hwb, ?_, ?_, ?_⟩
  · intro ω
    have k1 := field_is env a1 h1.iso _ _ _ _ (h1.made ω)
    have k2 := field_is env a2 h2.iso _ _ _ _ (h2.made ω)
    have e1 : a1.lmax.getD env.lmaxDefault = lmax := h1.clean.bandLimit
    have e2 : a2.lmax.getD env.lmaxDefault = lmax := h2.clean.bandLimit
    have e3 : a1.lmaxMask.getD env.lmaxDefault = a2.lmaxMask.getD env.lmaxDefault := h1.clean.maskBandLimit.trans h2.clean.maskBandLimit.symm
    have fl1 : (f1 ω).lmax = lmax := by rw [k1.lmax, e1]; simp
    have fl2 : (f2 ω).lmax = lmax := by rw [k2.lmax, e2]; simp
    have fm : (f1 ω).lmaxMask = (f2 ω).lmaxMask := by rw [k1.lmaxMask, k2.lmaxMask, e3]
    have hb := hbias ω
    rw [view_compat env minfo _ _ _ (fl1.trans fl2.symm) fm] at hb
    unfold fullMaster
    simp only [not_true_eq_false, false_and, if_false, view_compat env minfo _ _ _ (fl1.trans fl2.symm) fm, Bool.true_eq_false,
      Option.any_none, Option.any_some, Option.getD_none, Option.getD_some, Bool.false_eq_true, hgr, hgc, k1.nmaps, k2.nmaps, fl1, ne_eq,
      not_true_eq_false, or_self, decide_false]
    rw [hP ω]
    simp only [Outcome.bind]
    rw [hb, wsp_clean h1 h2, wsp_same h1.clean h2.clean same B wa ω ω0, hwg]
    simp only [pickWsp, subO, Arr2.sub, (hsh' ω).1, (hsh' ω).2, hbr, hbc, ne_eq, not_true_eq_false, or_self, if_false, Outcome.bind, sub_zero]
    rw [show (⟨ncomp s1 * ncomp s2, lmax + 1, fun i j => (P ω).val i j - bias.val i j⟩ : Arr2 ℝ) = P' ω from rfl, hd]
  · intro ω
    exact ⟨hncls, by rw [← hwb]; rfl⟩
  · intro k hk b hb
    rw [← hwb] at hb
    rw [← hncls] at hk hmean
    rw [← hwl] at hmean
    obtain ⟨g1', g2'⟩ := decouple_mean μ L hL w hreg P' R (fun k hk b hb e he => hmean k hk e.ell (hbd b hb e he)) hk hb
    have hof : ∀ g : ℕ → ℕ → ℝ, (Arr2.of w.ncls w.bin.nBands g).val k b = g k b := fun g => tab2_of_lt _ hk hb
    simp only [hof]
    exact ⟨g1', g2'⟩

/-- C86: the mean of the bandpowers returned by `compute_full_master` for contaminated maps, given the templates, is the true spectrum convolved with
the bandpower windows of the workspace, if `cl_guess` are the spectra of the maps (the true spectra times the beams). -/
theorem C86_bandpowers_partial {Ω : Type*} [MeasurableSpace Ω] (μ : Measure Ω) [IsProbabilityMeasure μ] (L : LinAlg ℝ) (hL : L.Correct)
    (env : FieldEnv) (hE : env.eig.Correct)
    (hw : ∀ p < env.pix.npix, 0 < env.pix.w p) (hS : env.sht.ReadsTriangle) (hlin : env.sht.AnalysisLinear) (hsh : env.sht.Shaped env.pix.npix)
    (minfo : MapInfo) (a1 a2 : FieldArgs) (s1 s2 lmax lmaxMask nIter : ℕ) (hn1 : a1.nIter = nIter) (hn2 : a2.nIter = nIter)
    (w1 w2 : ℕ → ℤ → ℂ) (F1 F2 : Ω → ℕ → ℕ → ℤ → ℂ) (m1 m2 : Ω → MapStack) (z1 z2 : Ω → ℕ → ℝ) (f1 f2 g1 g2 : Ω → FieldObj)
    (h1 : ContaminatedFields env a1 s1 lmax lmaxMask w1 F1 m1 z1 f1 g1) (h2 : ContaminatedFields env a2 s2 lmax lmaxMask w2 F2 m2 z2 f2 g2)
    (y1 y2 : MapStack → ℕ → ℕ → ℤ → ℂ) (A1 : AdjointOf env.sht env.pix s1 lmax nIter y1) (A2 : AdjointOf env.sht env.pix s2 lmax nIter y2)
    (C guess : Arr2 ℝ) (hr : C.rows = ncomp s1 * ncomp s2) (hc : C.cols = lmax + 1) (hgr : guess.rows = ncomp s1 * ncomp s2)
    (hgc : guess.cols = lmax + 1)
    (hguess : ∀ k < ncomp s1 * ncomp s2, ∀ l ≤ lmax, guess.val k l = a1.beamAt l * a2.beamAt l * C.val k l)
    (hI : Isotropic μ (ncomp s1) (ncomp s2) lmax F1 F2 fun X Y l => a1.beamAt l * a2.beamAt l * C.val (ncomp s2 * X + Y) l)
    (same : Bool) (hsame : same = true → f1 = f2 ∧ g1 = g2) (B : Bins ℝ) (hell : WspSpec.Bounded B B.ellMax) (wa : WspArgs)
    (hteb : wa.isTeb = false) (hT : wa.lT ≤ 0)
    (hother : a2.purifyE || a2.purifyB → s1 = 0 ∨ s1 = 2) (ω0 : Ω) (w : Wsp ℝ)
    (hwsp : wspFromFields racah env minfo (f1 ω0) (f2 ω0) same B wa = .ok w) (hreg : Regular w.nBinned w.binned) :
    ∃ (D : Ω → Arr2 ℝ) (U : ℕ → ℕ → ℝ), w.unbinned = some U ∧
      (∀ ω, fullMaster L env nIter minfo (f1 ω) (f2 ω) same true (wspFromFields racah env minfo (f1 ω) (f2 ω) same B wa) none none (some guess) =
        .ok (some (D ω))) ∧
      (∀ ω, (D ω).rows = ncomp s1 * ncomp s2 ∧ (D ω).cols = B.nBands) ∧
      ∀ k < ncomp s1 * ncomp s2, ∀ b < B.nBands, Integrable (fun ω => (D ω).val k b) μ ∧
        ∫ ω, (D ω).val k b ∂μ = ∑ j ∈ range (ncomp s1 * ncomp s2), ∑ l ∈ range (lmax + 1), bandpowerWindows L w U k b j l * C.val j l := by
  obtain ⟨P, bias, U, R, hP, hbias, hU, hR, hsh', hbr, hbc, hRr, hRc, hmean⟩ := C86_mean_partial μ env hE hw hS hlin hsh minfo a1 a2 s1 s2 lmax
    lmaxMask nIter hn1 hn2 w1 w2 F1 F2 m1 m2 z1 z2 f1 f2 g1 g2 h1 h2 y1 y2 A1 A2 C guess hr hc hgr hgc hguess hI same hsame B wa hteb hT hother ω0 w
    hwsp
  have hncls : w.ncls = ncomp s1 * ncomp s2 := by
    unfold coupleCell at hR
    split_ifs at hR with q
    push Not at q
    rw [← q.1, hr]
  rw [hRr] at hsh' hbr
  rw [hRc] at hsh' hbc
  obtain ⟨D, hwl, hwb, hD, hs, hm⟩ := full_mean μ L hL h1 h2 hgr hgc hell ω0 hwsp hncls hreg hP hbias hsh' hbr hbc hmean
  refine ⟨D, U, hU, hD, hs, fun k hk b hb => ⟨(hm k hk b hb).1, (hm k hk b hb).2.trans ?_⟩⟩
  have hlm : B.ellMax = lmax := by
    obtain ⟨p1, -, -, p4, -⟩ := h1.clean.facts ω0
    obtain ⟨-, -, -, r4, -⟩ := h2.clean.facts ω0
    rw [wsp_clean h1 h2] at hwsp
    rw [← (wsp_iso p4 r4 hwsp).1, p1]
  have h6 := C06_windows_describe_decoupling L hL w U (by rw [hwb, hwl, ← hlm]; exact hell) hreg C (by rw [hr, hncls]) (by omega)
  rw [hR] at h6
  simp only [Outcome.bind] at h6
  rw [decoupleCell_ok L w R (by rw [hRr, hncls]) (by omega)] at h6
  have h7 := congrArg (fun a => a.val k b) (Outcome.ok.inj h6)
  rw [← hncls] at hk
  rw [← hwb] at hb
  have hof : ∀ g : ℕ → ℕ → ℝ, (Arr2.of w.ncls w.bin.nBands g).val k b = g k b := fun g => tab2_of_lt _ hk hb
  simp only [hof] at h7
  rw [h7, hncls, hwl]

/-- C86: if the true spectrum is constant in every band, the mean of the bandpowers returned by `compute_full_master` for contaminated maps is
exactly the true one, whatever the amounts of the contaminants, if `cl_guess` are the spectra of the maps (the true spectra times the beams). -/
theorem C86_unbiased_partial {Ω : Type*} [MeasurableSpace Ω] (μ : Measure Ω) [IsProbabilityMeasure μ] (L : LinAlg ℝ) (hL : L.Correct)
    (env : FieldEnv) (hE : env.eig.Correct)
    (hw : ∀ p < env.pix.npix, 0 < env.pix.w p) (hS : env.sht.ReadsTriangle) (hlin : env.sht.AnalysisLinear) (hsh : env.sht.Shaped env.pix.npix)
    (minfo : MapInfo) (a1 a2 : FieldArgs) (s1 s2 lmax lmaxMask nIter : ℕ) (hn1 : a1.nIter = nIter) (hn2 : a2.nIter = nIter)
    (w1 w2 : ℕ → ℤ → ℂ) (F1 F2 : Ω → ℕ → ℕ → ℤ → ℂ) (m1 m2 : Ω → MapStack) (z1 z2 : Ω → ℕ → ℝ) (f1 f2 g1 g2 : Ω → FieldObj)
    (h1 : ContaminatedFields env a1 s1 lmax lmaxMask w1 F1 m1 z1 f1 g1) (h2 : ContaminatedFields env a2 s2 lmax lmaxMask w2 F2 m2 z2 f2 g2)
    (y1 y2 : MapStack → ℕ → ℕ → ℤ → ℂ) (A1 : AdjointOf env.sht env.pix s1 lmax nIter y1) (A2 : AdjointOf env.sht env.pix s2 lmax nIter y2)
    (B : Bins ℝ) (hell : WspSpec.Bounded B B.ellMax) (hnr : BinSpec.NoRepeats B) (y C guess : Arr2 ℝ) (hyr : y.rows = ncomp s1 * ncomp s2)
    (hyc : y.cols = B.nBands) (hC : unbinCells B y = .ok C) (hgr : guess.rows = ncomp s1 * ncomp s2)
    (hgc : guess.cols = lmax + 1)
    (hguess : ∀ k < ncomp s1 * ncomp s2, ∀ l ≤ lmax, guess.val k l = a1.beamAt l * a2.beamAt l * C.val k l)
    (hI : Isotropic μ (ncomp s1) (ncomp s2) lmax F1 F2 fun X Y l => a1.beamAt l * a2.beamAt l * C.val (ncomp s2 * X + Y) l)
    (same : Bool) (hsame : same = true → f1 = f2 ∧ g1 = g2) (wa : WspArgs) (hteb : wa.isTeb = false)
    (hnorm : wa.norm = "MASTER") (hT : wa.lT ≤ 0)
    (hother : a2.purifyE || a2.purifyB → s1 = 0 ∨ s1 = 2) (ω0 : Ω) (w : Wsp ℝ)
    (hwsp : wspFromFields racah env minfo (f1 ω0) (f2 ω0) same B wa = .ok w) (hreg : Regular w.nBinned w.binned) :
    ∃ D : Ω → Arr2 ℝ,
      (∀ ω, fullMaster L env nIter minfo (f1 ω) (f2 ω) same true (wspFromFields racah env minfo (f1 ω) (f2 ω) same B wa) none none (some guess) =
        .ok (some (D ω))) ∧
      (∀ ω, (D ω).rows = y.rows ∧ (D ω).cols = y.cols) ∧
      ∀ k < y.rows, ∀ b < y.cols, Integrable (fun ω => (D ω).val k b) μ ∧ ∫ ω, (D ω).val k b ∂μ = y.val k b := by
  have hwg := hwsp
  rw [wsp_clean h1 h2] at hwg
  obtain ⟨p1, -, -, p4, -⟩ := h1.clean.facts ω0
  obtain ⟨-, -, -, r4, -⟩ := h2.clean.facts ω0
  have hB := (wsp_iso p4 r4 hwg).1
  have hC' : C.rows = ncomp s1 * ncomp s2 ∧ C.cols = lmax + 1 := by
    unfold unbinCells at hC
    rw [if_neg (by simp [hyc])] at hC
    rw [← Outcome.ok.inj hC]
    exact ⟨hyr, by change B.ellMax + 1 = _; rw [← hB, p1]⟩
  obtain ⟨D, U, hU, hD, hs, hm⟩ := C86_bandpowers_partial μ L hL env hE hw hS hlin hsh minfo a1 a2 s1 s2 lmax lmaxMask nIter hn1 hn2 w1 w2 F1 F2 m1 m2
    z1 z2 f1 f2 g1 g2 h1 h2 y1 y2 A1 A2 C guess hC'.1 hC'.2 hgr hgc hguess hI same hsame B hell wa hteb hT hother ω0 w hwsp hreg
  obtain ⟨D', hD', -, hm'⟩ := C81_unbiased μ L hL env hS minfo a1.bare a2.bare s1 s2 lmax lmaxMask w1 w2 F1 F2 m1 m2 g1 g2 h1.clean h2.clean
    B hell hnr y C hyr hyc hC hI same (fun h => (hsame h).2) wa hteb hnorm hT hother ω0 w hwg hreg nIter
  obtain ⟨D2, U2, hU2, hD2, -, hm2⟩ := C81_bandpowers μ L hL env hS minfo a1.bare a2.bare s1 s2 lmax lmaxMask w1 w2 F1 F2 m1 m2 g1 g2 h1.clean h2.clean
    C hC'.1 hC'.2 hI same (fun h => (hsame h).2) B hell wa hteb hT hother ω0 w hwg hreg nIter
  have e1 : D2 = D' := funext fun ω => Option.some.inj (Outcome.ok.inj ((hD2 ω).symm.trans (hD' ω)))
  have e2 : U2 = U := Option.some.inj (hU2.symm.trans hU)
  subst e1 e2
  refine ⟨D, hD, fun ω => by rw [hyr, hyc]; exact hs ω, fun k hk b hb => ?_⟩
  have hk' := hk
  have hb' := hb
  rw [hyr] at hk'
  rw [hyc] at hb'
  refine ⟨(hm k hk' b hb').1, (hm k hk' b hb').2.trans ?_⟩
  rw [← (hm2 k hk' b hb').2, (hm' k hk b hb).2]

end NaMaster
