import Verif.Units.Lemmas
import Verif.Sky.AnyLemmas

/-! # Cross-spectra of a catalog and a map: C93, C94 -/

namespace NaMaster

open Finset MeasureTheory WignerSpec SkySpec CouplingSpec

/-- The noise of sources (component, source) is not correlated with the coefficients of a sky of spin `s'`. -/
def NoiseApart {Ω : Type*} [MeasurableSpace Ω] (μ : Measure Ω) (n nsrc s' lmax : ℕ) (noise : Ω → ℕ → ℕ → ℝ) (F : Ω → ℕ → ℕ → ℤ → ℂ) : Prop :=
  ∀ c < n, ∀ i < nsrc, ∀ X < ncomp s', ∀ q ∈ modes lmax,
    Integrable (fun ω => (noise ω c i : ℂ) * F ω X q.1 q.2) μ ∧ ∫ ω, (noise ω c i : ℂ) * F ω X q.1 q.2 ∂μ = 0

section

variable {Ω : Type*} [MeasurableSpace Ω] {μ : Measure Ω} {H : Harm (ℝ × ℝ)} {Y : ℤ → ℕ → ℤ → ℝ × ℝ → ℂ} {env : FieldEnv} {minfo : MapInfo}
  {ac : CatArgs} {am : FieldArgs} {sc sm lmax lmaxMask : ℕ} {wm : ℕ → ℤ → ℂ} {Fc Fm : Ω → ℕ → ℕ → ℤ → ℂ} {noise : Ω → ℕ → ℕ → ℝ} {v : Ω → MapStack}
  {m : Ω → MapStack} {fc : Ω → CatObj} {fm : Ω → FieldObj}

theorem FieldsOf.beamVal (h : FieldsOf env am sm lmax lmaxMask wm Fm m fm) (ω : Ω) (hl : (fm ω).beamList.length = lmax + 1) {l : ℕ} (hle : l ≤ lmax) :
    (fm ω).beamList.getD l 0 = am.beamAt l := by
  have hlen : (fm ω).beamList.length = (fm ω).beam.1 := by unfold FieldObj.beamList; simp
  rw [hlen] at hl
  rw [beamList_getD _ (by omega), (h.facts ω).2.2.2.2.2.2.2.2.2.1]
  unfold FieldArgs.beamAt
  cases am.beam <;> rfl

/-- The coefficients of a map with the mask up to a larger multipole. -/
theorem FieldsOf.coef (hS : env.sht.ReadsTriangle) (h : FieldsOf env am sm lmax lmaxMask wm Fm m fm) {Nw : ℕ} (hN : lmaxMask ≤ Nw) (ω : Ω) :
    ∃ A, (fm ω).alm = some (some A) ∧ ∀ X < ncomp sm, ∀ l ≤ lmax, ∀ j ≤ l,
      A X l j = linCoef (ncomp sm) Nw lmax (hfac sm am.purifyE am.purifyB) (cutCoef lmaxMask wm) (Fm ω) X l j := by
  obtain ⟨A, hA, hAp, -⟩ := pop_lin_coef hS h ω (X := 0) (l := 0) (m := 0) (by unfold ncomp; split_ifs <;> omega) (Nat.zero_le _) le_rfl
  refine ⟨A, hA, ?_⟩
  intro X hX l hl j hj
  obtain ⟨A', hA', -, hv⟩ := pop_lin_coef hS h ω hX hl hj
  rw [hA] at hA'
  simp only [Option.some.injEq] at hA'
  rw [hA', hv, linCoef_cut hN]

theorem ncomp_pos (s : ℕ) : 0 < ncomp s := by unfold ncomp; split_ifs <;> omega

theorem ncomp_lt {s X : ℕ} (h : X < ncomp s) : X < 2 := by unfold ncomp at h; split_ifs at h <;> omega

/-- The spectra of the masks agree with those of the coefficients. -/
theorem mask_kernel (hc : CatalogsOf H Y ac sc lmax lmaxMask Fc noise v fc) (hm : FieldsOf env am sm lmax lmaxMask wm Fm m fm) (ω : Ω) {Nw : ℕ}
    (hN : lmaxMask ≤ Nw) :
    (∀ L ≤ Nw, ∀ j ≤ L, (fc ω).almMask L j = catMaskCoef Y ac L j) ∧
    (∀ L ≤ Nw, ∀ j ≤ L, (if L ≤ lmaxMask then (fm ω).getMaskAlms env.sht L j else 0) = cutCoef lmaxMask wm L j) := by
  obtain ⟨r1, r2, r3, r4, r5, r6, r7, r8, -⟩ := hm.facts ω
  refine ⟨fun L _ j _ => hc.maskCoef ω L j, ?_⟩
  intro L _ j hj
  unfold cutCoef
  split_ifs with hL
  · unfold FieldObj.getMaskAlms
    rw [r2, r8, r5]
    exact hm.maskCoefs L hL j hj
  · rfl

/-! ## C93 -/

/-- C93: the mean of the cross-spectrum of a catalog and a map is the true spectrum passed through the coupling matrix of the workspace made from
them, for any number and any weights of sources, any noise of the sources that is not correlated with the sky of the map, purified or ordinary
E and B modes of the map, any beams, and any band limit of the masks. -/
theorem C93_catalog_map_mean (μ : Measure Ω) (hS : env.sht.ReadsTriangle) (minfo : MapInfo)
    (h1 : CatalogsOf H Y ac sc lmax lmaxMask Fc noise v fc) (h2 : FieldsOf env am sm lmax lmaxMask wm Fm m fm)
    (C : Arr2 ℝ) (hr : C.rows = ncomp sc * ncomp sm) (hc : C.cols = lmax + 1)
    (hI : Isotropic μ (ncomp sc) (ncomp sm) lmax Fc Fm fun X Y l => ac.beamAt l * am.beamAt l * C.val (ncomp sm * X + Y) l)
    (hn : NoiseApart μ (ncomp sc) ac.nsrc sm lmax noise Fm)
    (B : Bins ℝ) (wa : WspArgs) (hteb : wa.isTeb = false) (hT : wa.lT ≤ 0) (hother : am.purifyE || am.purifyB → sc = 0 ∨ sc = 2) (ω0 : Ω) (w : Wsp ℝ)
    (hw : wspFromAny racah env minfo (.cat (fc ω0)) (.map (fm ω0)) false B wa = .ok w) :
    ∃ (P : Ω → Arr2 ℝ) (U : ℕ → ℕ → ℝ) (R : Arr2 ℝ),
      (∀ ω, computeCoupledCell (fc ω).view ((fm ω).view env.sht minfo) false = .ok (some (P ω))) ∧
      w.unbinned = some U ∧ coupleCell w U C = .ok R ∧
      (∀ ω, (P ω).rows = R.rows ∧ (P ω).cols = R.cols) ∧ R.rows = ncomp sc * ncomp sm ∧ R.cols = lmax + 1 ∧
      ∀ k < ncomp sc * ncomp sm, ∀ l ≤ lmax, Integrable (fun ω => (P ω).val k l) μ ∧ ∫ ω, (P ω).val k l ∂μ = R.val k l := by
  obtain ⟨p1, p2, p3, p4, p5, p6, p7, p8⟩ := h1.facts ω0
  obtain ⟨r1, r2, r3, r4, r5, r6, r7, r8, r9, r10, r11⟩ := h2.facts ω0
  obtain ⟨hB, n, -, hcomp⟩ := wsp_any rfl (by change Option.map _ (fm ω0).maskA = none; rw [r4]; rfl) hw
  change (fc ω0).lmax = B.ellMax at hB
  have hg : ((AnyField.cat (fc ω0)).view env.sht minfo).geom.lmax = lmax := p1
  have hgm : ((AnyField.cat (fc ω0)).view env.sht minfo).geom.lmaxMask = lmaxMask := p2
  rw [hg, hgm] at hcomp
  set ca := anyCouplingArgs env.sht minfo (.cat (fc ω0)) (.map (fm ω0)) wa with hca
  have e1 : ca.spin1 = sc := by rw [hca]; unfold anyCouplingArgs AnyField.spin; dsimp only; rw [p3]; rfl
  have e2 : ca.spin2 = sm := by rw [hca]; unfold anyCouplingArgs AnyField.spin; dsimp only; rw [r3]; rfl
  have hpe1 : ca.pe1 = false := rfl
  have hpb1 : ca.pb1 = false := rfl
  have hpe2 : ca.pe2 = am.purifyE := r6
  have hpb2 : ca.pb2 = am.purifyB := r7
  have hlm : ca.lmaxMask = lmaxMask := p2
  have hpair : ca.PurePair := by
    refine ⟨hteb, ?_, ?_, ?_, hT⟩
    · rw [hpe1, hpb1]; intro h; simp at h
    · rw [hpe2, hpb2, e2]; intro h; exact r11 (by simpa using h)
    · rw [hpe2, hpb2, e1]; intro h; exact hother (by simpa using h)
  obtain ⟨-, hb2, -⟩ := comp_parts hcomp
  obtain ⟨U, R, hU, hR, -, -, -, hRr, hRc, hRv⟩ := couple_kernel hpair hcomp (by rw [← hB, p1]) C (by rw [e1, e2]; exact hr) hc
  rw [e1, e2] at hRr hRv
  rw [hpe1, hpb1, hpe2, hpb2, hlm] at hRv
  set Nw := max lmaxMask (2 * lmax) with hNw
  choose A1 hA1 v1 using fun ω => h1.coef (Nw := Nw) (by omega) ω
  choose A2 hA2 v2 using fun ω => h2.coef hS (Nw := Nw) (by omega) ω
  have hP : ∀ ω, computeCoupledCell (fc ω).view ((fm ω).view env.sht minfo) false =
      .ok (some (Arr2.of (ncomp sc * ncomp sm) (lmax + 1) fun k l => alm2cl (A1 ω (k / ncomp sm)) (A2 ω (k % ncomp sm)) l)) := by
    intro ω
    obtain ⟨x1, x2, -, x4, -⟩ := h1.facts ω
    obtain ⟨y1, y2, -, -, -, -, -, -, y9, -⟩ := h2.facts ω
    rw [coupledCell_val _ _ false (A1 ω) (A2 ω) (by unfold CatObj.view; rw [hA1]; rfl) (hA2 ω)
      (by unfold isCompatible CatObj.view FieldObj.view; simp [x1, x2, y1, y2])]
    unfold CatObj.view FieldObj.view
    simp only [x1, y1, x4, y9, Option.getD_some, min_self, Bool.false_eq_true, if_false, ite_self, sub_zero]
  refine ⟨_, U, R, hP, hU, hR, fun ω => ⟨hRr.symm, hRc.symm⟩, hRr, hRc, ?_⟩
  intro k hk l hl
  have hX : k / ncomp sm < ncomp sc := Nat.div_lt_of_lt_mul (by rwa [mul_comm] at hk)
  have hY : k % ncomp sm < ncomp sm := Nat.mod_lt _ (ncomp_pos sm)
  have hof : ∀ g : ℕ → ℕ → ℝ, (Arr2.of (ncomp sc * ncomp sm) (lmax + 1) g).val k l = g k l := fun g => tab2_of_lt _ hk (by omega)
  simp only [hof]
  set X := k / ncomp sm
  set Z := k % ncomp sm
  have hk' : k = ncomp sm * X + Z := (Nat.div_add_mod _ _).symm
  rw [hk', hRv X hX Z hY l hl]
  obtain ⟨c1, c2⟩ := mask_kernel h1 h2 ω0 (Nw := Nw) (by omega)
  obtain ⟨g1, g2⟩ := alm2cl_mean_real hI h1.skyReal h2.skyReal (Nw := Nw) (h1 := hfac sc false false) (h2 := hfac sm am.purifyE am.purifyB)
    (fun X l L l' => hfac_triangle _ _ _ _) (catMask_real h1.harmonics ac) (cut_real (N := lmaxMask) h2.maskReal)
    (A1 := fun ω X l m => linCoef (ncomp sc) Nw lmax (hfac sc false false) (catMaskCoef Y ac) (Fc ω) X l m)
    (A2 := fun ω X l m => linCoef (ncomp sm) Nw lmax (hfac sm am.purifyE am.purifyB) (cutCoef lmaxMask wm) (Fm ω) X l m)
    (X := X) (Y := Z) (l := l) (ncomp_lt hX) (ncomp_lt hY) (fun ω m _ => rfl) (fun ω m _ => rfl) c1 c2
  obtain ⟨z1, z2⟩ := noise_mean (H := H) (N := Nw) hn (hfac sm am.purifyE am.purifyB) (cutCoef lmaxMask wm) X Z l
  have e : ∀ ω, alm2cl (A1 ω X) (A2 ω Z) l = alm2cl (fun l m => linCoef (ncomp sc) Nw lmax (hfac sc false false) (catMaskCoef Y ac) (Fc ω) X l m)
      (fun l m => linCoef (ncomp sm) Nw lmax (hfac sm am.purifyE am.purifyB) (cutCoef lmaxMask wm) (Fm ω) Z l m) l +
      alm2cl (noiseAlm H ac sc (noise ω) X) (fun l m => linCoef (ncomp sm) Nw lmax (hfac sm am.purifyE am.purifyB) (cutCoef lmaxMask wm) (Fm ω) Z l m) l := by
    intro ω
    rw [← alm2cl_add_left]
    exact alm2cl_congr_le (fun j hj => v1 ω X hX l hl j hj) (fun j hj => v2 ω Z hY l hl j hj)
  simp only [e]
  refine ⟨g1.add z1, ?_⟩
  rw [integral_add g1 z1, z2, add_zero, g2]
  refine sum_congr rfl fun l' hl' => sum_congr rfl fun X' _ => sum_congr rfl fun Y' _ => ?_
  rw [mem_range] at hl'
  rw [show (AnyField.cat (fc ω0)).beamList.getD l' 0 = ac.beamAt l' from p8 l' (by omega),
    show (AnyField.map (fm ω0)).beamList.getD l' 0 = am.beamAt l' from h2.beamVal ω0 hb2 (by omega)]
  congr 1
  refine kernel_cut (by omega) (fun L hL => ?_) (fun L hL => ?_) _ _ _ _ _ _
  · rw [range_getD _ (by omega)]
    unfold maskSpectrum
    simp only [Bool.false_eq_true, if_false, sub_zero]
    exact alm2cl_congr_le (fun j _ => rfl) (fun j _ => if_pos hL)
  · rw [alm2cl_congr_le (b' := fun _ _ => 0) (fun j _ => rfl) (fun j _ => if_neg (not_le.2 hL))]
    unfold alm2cl
    simp

/-- C93: the same for a map and a catalog. -/
theorem C93_map_catalog_mean (μ : Measure Ω) (hS : env.sht.ReadsTriangle) (minfo : MapInfo)
    (h1 : FieldsOf env am sm lmax lmaxMask wm Fm m fm) (h2 : CatalogsOf H Y ac sc lmax lmaxMask Fc noise v fc)
    (C : Arr2 ℝ) (hr : C.rows = ncomp sm * ncomp sc) (hc : C.cols = lmax + 1)
    (hI : Isotropic μ (ncomp sm) (ncomp sc) lmax Fm Fc fun X Y l => am.beamAt l * ac.beamAt l * C.val (ncomp sc * X + Y) l)
    (hn : NoiseApart μ (ncomp sc) ac.nsrc sm lmax noise Fm)
    (B : Bins ℝ) (wa : WspArgs) (hteb : wa.isTeb = false) (hT : wa.lT ≤ 0) (ω0 : Ω) (w : Wsp ℝ)
    (hw : wspFromAny racah env minfo (.map (fm ω0)) (.cat (fc ω0)) false B wa = .ok w) :
    ∃ (P : Ω → Arr2 ℝ) (U : ℕ → ℕ → ℝ) (R : Arr2 ℝ),
      (∀ ω, computeCoupledCell ((fm ω).view env.sht minfo) (fc ω).view false = .ok (some (P ω))) ∧
      w.unbinned = some U ∧ coupleCell w U C = .ok R ∧
      (∀ ω, (P ω).rows = R.rows ∧ (P ω).cols = R.cols) ∧ R.rows = ncomp sm * ncomp sc ∧ R.cols = lmax + 1 ∧
      ∀ k < ncomp sm * ncomp sc, ∀ l ≤ lmax, Integrable (fun ω => (P ω).val k l) μ ∧ ∫ ω, (P ω).val k l ∂μ = R.val k l := by
  obtain ⟨p1, p2, p3, p4, p5, p6, p7, p8⟩ := h2.facts ω0
  obtain ⟨r1, r2, r3, r4, r5, r6, r7, r8, r9, r10, r11⟩ := h1.facts ω0
  obtain ⟨hB, n, -, hcomp⟩ := wsp_any (by change Option.map _ (fm ω0).maskA = none; rw [r4]; rfl) rfl hw
  change (fm ω0).lmax = B.ellMax at hB
  have hg : ((AnyField.map (fm ω0)).view env.sht minfo).geom.lmax = lmax := r1
  have hgm : ((AnyField.map (fm ω0)).view env.sht minfo).geom.lmaxMask = lmaxMask := r2
  rw [hg, hgm] at hcomp
  set ca := anyCouplingArgs env.sht minfo (.map (fm ω0)) (.cat (fc ω0)) wa with hca
  have e1 : ca.spin1 = sm := by rw [hca]; unfold anyCouplingArgs AnyField.spin; dsimp only; rw [r3]; rfl
  have e2 : ca.spin2 = sc := by rw [hca]; unfold anyCouplingArgs AnyField.spin; dsimp only; rw [p3]; rfl
  have hpe2 : ca.pe2 = false := rfl
  have hpb2 : ca.pb2 = false := rfl
  have hpe1 : ca.pe1 = am.purifyE := r6
  have hpb1 : ca.pb1 = am.purifyB := r7
  have hlm : ca.lmaxMask = lmaxMask := r2
  have hpair : ca.PurePair := by
    refine ⟨hteb, ?_, ?_, ?_, hT⟩
    · rw [hpe1, hpb1, e1]; intro h; exact r11 (by simpa using h)
    · rw [hpe2, hpb2]; intro h; simp at h
    · rw [hpe2, hpb2]; intro h; simp at h
  obtain ⟨hb1, -⟩ := comp_parts hcomp
  obtain ⟨U, R, hU, hR, -, -, -, hRr, hRc, hRv⟩ := couple_kernel hpair hcomp (by rw [← hB, r1]) C (by rw [e1, e2]; exact hr) hc
  rw [e1, e2] at hRr hRv
  rw [hpe1, hpb1, hpe2, hpb2, hlm] at hRv
  set Nw := max lmaxMask (2 * lmax) with hNw
  choose A2 hA2 v2 using fun ω => h2.coef (Nw := Nw) (by omega) ω
  choose A1 hA1 v1 using fun ω => h1.coef hS (Nw := Nw) (by omega) ω
  have hP : ∀ ω, computeCoupledCell ((fm ω).view env.sht minfo) (fc ω).view false =
      .ok (some (Arr2.of (ncomp sm * ncomp sc) (lmax + 1) fun k l => alm2cl (A1 ω (k / ncomp sc)) (A2 ω (k % ncomp sc)) l)) := by
    intro ω
    obtain ⟨x1, x2, -, x4, -⟩ := h2.facts ω
    obtain ⟨y1, y2, -, -, -, -, -, -, y9, -⟩ := h1.facts ω
    rw [coupledCell_val _ _ false (A1 ω) (A2 ω) (hA1 ω) (by unfold CatObj.view; rw [hA2]; rfl)
      (by unfold isCompatible CatObj.view FieldObj.view; simp [x1, x2, y1, y2])]
    unfold CatObj.view FieldObj.view
    simp only [x1, y1, x4, y9, Option.getD_some, min_self, Bool.false_eq_true, ite_self, sub_zero]
  refine ⟨_, U, R, hP, hU, hR, fun ω => ⟨hRr.symm, hRc.symm⟩, hRr, hRc, ?_⟩
  intro k hk l hl
  have hX : k / ncomp sc < ncomp sm := Nat.div_lt_of_lt_mul (by rwa [mul_comm] at hk)
  have hY : k % ncomp sc < ncomp sc := Nat.mod_lt _ (ncomp_pos sc)
  have hof : ∀ g : ℕ → ℕ → ℝ, (Arr2.of (ncomp sm * ncomp sc) (lmax + 1) g).val k l = g k l := fun g => tab2_of_lt _ hk (by omega)
  simp only [hof]
  set X := k / ncomp sc
  set Z := k % ncomp sc
  have hk' : k = ncomp sc * X + Z := (Nat.div_add_mod _ _).symm
  rw [hk', hRv X hX Z hY l hl]
  obtain ⟨c2, c1⟩ := mask_kernel h2 h1 ω0 (Nw := Nw) (by omega)
  obtain ⟨g1, g2⟩ := alm2cl_mean_real hI h1.skyReal h2.skyReal (Nw := Nw) (h1 := hfac sm am.purifyE am.purifyB) (h2 := hfac sc false false)
    (fun X l L l' => hfac_triangle _ _ _ _) (cut_real (N := lmaxMask) h1.maskReal) (catMask_real h2.harmonics ac)
    (A1 := fun ω X l m => linCoef (ncomp sm) Nw lmax (hfac sm am.purifyE am.purifyB) (cutCoef lmaxMask wm) (Fm ω) X l m)
    (A2 := fun ω X l m => linCoef (ncomp sc) Nw lmax (hfac sc false false) (catMaskCoef Y ac) (Fc ω) X l m)
    (X := X) (Y := Z) (l := l) (ncomp_lt hX) (ncomp_lt hY) (fun ω m _ => rfl) (fun ω m _ => rfl) c1 c2
  obtain ⟨z1, z2⟩ := noise_mean (H := H) (N := Nw) hn (hfac sm am.purifyE am.purifyB) (cutCoef lmaxMask wm) Z X l
  have e : ∀ ω, alm2cl (A1 ω X) (A2 ω Z) l =
      alm2cl (fun l m => linCoef (ncomp sm) Nw lmax (hfac sm am.purifyE am.purifyB) (cutCoef lmaxMask wm) (Fm ω) X l m)
        (fun l m => linCoef (ncomp sc) Nw lmax (hfac sc false false) (catMaskCoef Y ac) (Fc ω) Z l m) l +
      alm2cl (noiseAlm H ac sc (noise ω) Z) (fun l m => linCoef (ncomp sm) Nw lmax (hfac sm am.purifyE am.purifyB) (cutCoef lmaxMask wm) (Fm ω) X l m) l := by
    intro ω
    rw [alm2cl_comm, alm2cl_comm (fun l m => linCoef (ncomp sm) Nw lmax (hfac sm am.purifyE am.purifyB) (cutCoef lmaxMask wm) (Fm ω) X l m),
      ← alm2cl_add_left]
    exact alm2cl_congr_le (fun j hj => v2 ω Z hY l hl j hj) (fun j hj => v1 ω X hX l hl j hj)
  simp only [e]
  refine ⟨g1.add z1, ?_⟩
  rw [integral_add g1 z1, z2, add_zero, g2]
  refine sum_congr rfl fun l' hl' => sum_congr rfl fun X' _ => sum_congr rfl fun Y' _ => ?_
  rw [mem_range] at hl'
  rw [show (AnyField.cat (fc ω0)).beamList.getD l' 0 = ac.beamAt l' from p8 l' (by omega),
    show (AnyField.map (fm ω0)).beamList.getD l' 0 = am.beamAt l' from h1.beamVal ω0 hb1 (by omega)]
  congr 1
  refine kernel_cut (by omega) (fun L hL => ?_) (fun L hL => ?_) _ _ _ _ _ _
  · rw [range_getD _ (by omega)]
    unfold maskSpectrum
    simp only [Bool.false_eq_true, if_false, sub_zero]
    exact alm2cl_congr_le (fun j _ => if_pos hL) (fun j _ => rfl)
  · rw [alm2cl_congr_le (a' := fun _ _ => 0) (fun j _ => if_neg (not_le.2 hL)) (fun j _ => rfl)]
    unfold alm2cl
    simp

/-- C93: the mean of the bandpowers of a catalog and a map is the true spectrum convolved with the bandpower windows of the workspace. -/
theorem C93_catalog_map_bandpowers (μ : Measure Ω) (L : LinAlg ℝ) (hL : L.Correct) (hS : env.sht.ReadsTriangle) (minfo : MapInfo)
    (h1 : CatalogsOf H Y ac sc lmax lmaxMask Fc noise v fc) (h2 : FieldsOf env am sm lmax lmaxMask wm Fm m fm)
    (C : Arr2 ℝ) (hr : C.rows = ncomp sc * ncomp sm) (hc : C.cols = lmax + 1)
    (hI : Isotropic μ (ncomp sc) (ncomp sm) lmax Fc Fm fun X Y l => ac.beamAt l * am.beamAt l * C.val (ncomp sm * X + Y) l)
    (hn : NoiseApart μ (ncomp sc) ac.nsrc sm lmax noise Fm) (B : Bins ℝ) (hell : WspSpec.Bounded B B.ellMax)
    (wa : WspArgs) (hteb : wa.isTeb = false) (hT : wa.lT ≤ 0) (hother : am.purifyE || am.purifyB → sc = 0 ∨ sc = 2) (ω0 : Ω) (w : Wsp ℝ)
    (hw : wspFromAny racah env minfo (.cat (fc ω0)) (.map (fm ω0)) false B wa = .ok w) (hreg : Regular w.nBinned w.binned) :
    ∃ (P D : Ω → Arr2 ℝ) (U : ℕ → ℕ → ℝ), w.unbinned = some U ∧
      (∀ ω, computeCoupledCell (fc ω).view ((fm ω).view env.sht minfo) false = .ok (some (P ω))) ∧
      (∀ ω, decoupleCell L w (P ω) none none = .ok (D ω)) ∧ (∀ ω, (D ω).rows = C.rows ∧ (D ω).cols = B.nBands) ∧
      ∀ k < C.rows, ∀ b < B.nBands, Integrable (fun ω => (D ω).val k b) μ ∧
        ∫ ω, (D ω).val k b ∂μ = ∑ j ∈ range C.rows, ∑ l ∈ range C.cols, bandpowerWindows L w U k b j l * C.val j l := by
  obtain ⟨P, U, R, hP, hU, hR, hsh, hRr, hRc, hv⟩ := C93_catalog_map_mean μ hS minfo h1 h2 C hr hc hI hn B wa hteb hT hother ω0 w hw
  obtain ⟨p1, -⟩ := h1.facts ω0
  obtain ⟨-, -, -, r4, -⟩ := h2.facts ω0
  obtain ⟨hB, n, -, hcomp⟩ := wsp_any rfl (by change Option.map _ (fm ω0).maskA = none; rw [r4]; rfl) hw
  change (fc ω0).lmax = B.ellMax at hB
  have hncls : w.ncls = ncomp sc * ncomp sm := by
    unfold coupleCell at hR
    split_ifs at hR with q
    push Not at q
    rw [← q.1, hr]
  obtain ⟨D, hD, hDs, hDv⟩ := windows_comp (μ := μ) L hL hcomp hell hreg C R (hr.trans hncls.symm) (by rw [hc, ← hB, p1]) hR P hsh (fun k hk b hb e he =>
    hv k (by rwa [hncls] at hk) e.ell (by have := hell b hb e he; rw [← hB, p1] at this; exact this))
  exact ⟨P, D, U, hU, hP, hD, hDs, hDv⟩

/-- C93: with the MASTER normalisation, the bandpowers of a catalog and a map are unbiased if the true spectrum is constant in each band. -/
theorem C93_catalog_map_unbiased (μ : Measure Ω) (L : LinAlg ℝ) (hL : L.Correct) (hS : env.sht.ReadsTriangle) (minfo : MapInfo)
    (h1 : CatalogsOf H Y ac sc lmax lmaxMask Fc noise v fc) (h2 : FieldsOf env am sm lmax lmaxMask wm Fm m fm)
    (B : Bins ℝ) (hell : WspSpec.Bounded B B.ellMax) (hnr : BinSpec.NoRepeats B)
    (y C : Arr2 ℝ) (hyr : y.rows = ncomp sc * ncomp sm) (hyc : y.cols = B.nBands) (hC : unbinCells B y = .ok C)
    (hI : Isotropic μ (ncomp sc) (ncomp sm) lmax Fc Fm fun X Y l => ac.beamAt l * am.beamAt l * C.val (ncomp sm * X + Y) l)
    (hn : NoiseApart μ (ncomp sc) ac.nsrc sm lmax noise Fm)
    (wa : WspArgs) (hteb : wa.isTeb = false) (hT : wa.lT ≤ 0) (hnorm : wa.norm = "MASTER") (hother : am.purifyE || am.purifyB → sc = 0 ∨ sc = 2) (ω0 : Ω) (w : Wsp ℝ)
    (hw : wspFromAny racah env minfo (.cat (fc ω0)) (.map (fm ω0)) false B wa = .ok w) (hreg : Regular w.nBinned w.binned) :
    ∃ P D : Ω → Arr2 ℝ,
      (∀ ω, computeCoupledCell (fc ω).view ((fm ω).view env.sht minfo) false = .ok (some (P ω))) ∧
      (∀ ω, decoupleCell L w (P ω) none none = .ok (D ω)) ∧ (∀ ω, (D ω).rows = y.rows ∧ (D ω).cols = y.cols) ∧
      ∀ k < y.rows, ∀ b < y.cols, Integrable (fun ω => (D ω).val k b) μ ∧ ∫ ω, (D ω).val k b ∂μ = y.val k b := by
  obtain ⟨p1, -⟩ := h1.facts ω0
  obtain ⟨-, -, -, r4, -⟩ := h2.facts ω0
  obtain ⟨hB, n, hn', hcomp⟩ := wsp_any rfl (by change Option.map _ (fm ω0).maskA = none; rw [r4]; rfl) hw
  change (fc ω0).lmax = B.ellMax at hB
  have hn0 : n.1 = 0 := by
    unfold anyNormOf at hn'
    rw [if_pos hnorm] at hn'
    rw [← Outcome.ok.inj hn']
  have hC' : C.rows = ncomp sc * ncomp sm ∧ C.cols = lmax + 1 := by
    unfold unbinCells at hC
    rw [if_neg (by simp [hyc])] at hC
    rw [← Outcome.ok.inj hC]
    exact ⟨hyr, by change B.ellMax + 1 = _; rw [← hB, p1]⟩
  obtain ⟨P, U, R, hP, hU, hR, hsh, hRr, hRc, hv⟩ := C93_catalog_map_mean μ hS minfo h1 h2 C hC'.1 hC'.2 hI hn B wa hteb hT hother ω0 w hw
  have hncls : w.ncls = ncomp sc * ncomp sm := by
    unfold coupleCell at hR
    split_ifs at hR with q
    push Not at q
    rw [← q.1, hC'.1]
  obtain ⟨D, hD, hDs, hDv⟩ := unbiased_comp (μ := μ) L hL hcomp hn0 hell hnr hreg y C R (hyr.trans hncls.symm) hyc hC hU hR P hsh (fun k hk b hb e he =>
    hv k (by rwa [hncls] at hk) e.ell (by have := hell b hb e he; rw [← hB, p1] at this; exact this))
  exact ⟨P, D, hP, hD, hDs, hDv⟩

/-- C93: the mean of the bandpowers of a map and a catalog is the true spectrum convolved with the bandpower windows of the workspace. -/
theorem C93_map_catalog_bandpowers (μ : Measure Ω) (L : LinAlg ℝ) (hL : L.Correct) (hS : env.sht.ReadsTriangle) (minfo : MapInfo)
    (h1 : FieldsOf env am sm lmax lmaxMask wm Fm m fm) (h2 : CatalogsOf H Y ac sc lmax lmaxMask Fc noise v fc)
    (C : Arr2 ℝ) (hr : C.rows = ncomp sm * ncomp sc) (hc : C.cols = lmax + 1)
    (hI : Isotropic μ (ncomp sm) (ncomp sc) lmax Fm Fc fun X Y l => am.beamAt l * ac.beamAt l * C.val (ncomp sc * X + Y) l)
    (hn : NoiseApart μ (ncomp sc) ac.nsrc sm lmax noise Fm) (B : Bins ℝ) (hell : WspSpec.Bounded B B.ellMax)
    (wa : WspArgs) (hteb : wa.isTeb = false) (hT : wa.lT ≤ 0) (ω0 : Ω) (w : Wsp ℝ)
    (hw : wspFromAny racah env minfo (.map (fm ω0)) (.cat (fc ω0)) false B wa = .ok w) (hreg : Regular w.nBinned w.binned) :
    ∃ (P D : Ω → Arr2 ℝ) (U : ℕ → ℕ → ℝ), w.unbinned = some U ∧
      (∀ ω, computeCoupledCell ((fm ω).view env.sht minfo) (fc ω).view false = .ok (some (P ω))) ∧
      (∀ ω, decoupleCell L w (P ω) none none = .ok (D ω)) ∧ (∀ ω, (D ω).rows = C.rows ∧ (D ω).cols = B.nBands) ∧
      ∀ k < C.rows, ∀ b < B.nBands, Integrable (fun ω => (D ω).val k b) μ ∧
        ∫ ω, (D ω).val k b ∂μ = ∑ j ∈ range C.rows, ∑ l ∈ range C.cols, bandpowerWindows L w U k b j l * C.val j l := by
  obtain ⟨P, U, R, hP, hU, hR, hsh, hRr, hRc, hv⟩ := C93_map_catalog_mean μ hS minfo h1 h2 C hr hc hI hn B wa hteb hT ω0 w hw
  obtain ⟨p1, -, -, r4, -⟩ := h1.facts ω0
  obtain ⟨hB, n, -, hcomp⟩ := wsp_any (by change Option.map _ (fm ω0).maskA = none; rw [r4]; rfl) rfl hw
  change (fm ω0).lmax = B.ellMax at hB
  have hncls : w.ncls = ncomp sm * ncomp sc := by
    unfold coupleCell at hR
    split_ifs at hR with q
    push Not at q
    rw [← q.1, hr]
  obtain ⟨D, hD, hDs, hDv⟩ := windows_comp (μ := μ) L hL hcomp hell hreg C R (hr.trans hncls.symm) (by rw [hc, ← hB, p1]) hR P hsh (fun k hk b hb e he =>
    hv k (by rwa [hncls] at hk) e.ell (by have := hell b hb e he; rw [← hB, p1] at this; exact this))
  exact ⟨P, D, U, hU, hP, hD, hDs, hDv⟩

/-- C93: with the MASTER normalisation, the bandpowers of a map and a catalog are unbiased if the true spectrum is constant in each band. -/
theorem C93_map_catalog_unbiased (μ : Measure Ω) (L : LinAlg ℝ) (hL : L.Correct) (hS : env.sht.ReadsTriangle) (minfo : MapInfo)
    (h1 : FieldsOf env am sm lmax lmaxMask wm Fm m fm) (h2 : CatalogsOf H Y ac sc lmax lmaxMask Fc noise v fc)
    (B : Bins ℝ) (hell : WspSpec.Bounded B B.ellMax) (hnr : BinSpec.NoRepeats B)
    (y C : Arr2 ℝ) (hyr : y.rows = ncomp sm * ncomp sc) (hyc : y.cols = B.nBands) (hC : unbinCells B y = .ok C)
    (hI : Isotropic μ (ncomp sm) (ncomp sc) lmax Fm Fc fun X Y l => am.beamAt l * ac.beamAt l * C.val (ncomp sc * X + Y) l)
    (hn : NoiseApart μ (ncomp sc) ac.nsrc sm lmax noise Fm)
    (wa : WspArgs) (hteb : wa.isTeb = false) (hT : wa.lT ≤ 0) (hnorm : wa.norm = "MASTER") (ω0 : Ω) (w : Wsp ℝ)
    (hw : wspFromAny racah env minfo (.map (fm ω0)) (.cat (fc ω0)) false B wa = .ok w) (hreg : Regular w.nBinned w.binned) :
    ∃ P D : Ω → Arr2 ℝ,
      (∀ ω, computeCoupledCell ((fm ω).view env.sht minfo) (fc ω).view false = .ok (some (P ω))) ∧
      (∀ ω, decoupleCell L w (P ω) none none = .ok (D ω)) ∧ (∀ ω, (D ω).rows = y.rows ∧ (D ω).cols = y.cols) ∧
      ∀ k < y.rows, ∀ b < y.cols, Integrable (fun ω => (D ω).val k b) μ ∧ ∫ ω, (D ω).val k b ∂μ = y.val k b := by
  obtain ⟨p1, -, -, r4, -⟩ := h1.facts ω0
  obtain ⟨hB, n, hn', hcomp⟩ := wsp_any (by change Option.map _ (fm ω0).maskA = none; rw [r4]; rfl) rfl hw
  change (fm ω0).lmax = B.ellMax at hB
  have hn0 : n.1 = 0 := by
    unfold anyNormOf at hn'
    rw [if_pos hnorm] at hn'
    rw [← Outcome.ok.inj hn']
  have hC' : C.rows = ncomp sm * ncomp sc ∧ C.cols = lmax + 1 := by
    unfold unbinCells at hC
    rw [if_neg (by simp [hyc])] at hC
    rw [← Outcome.ok.inj hC]
    exact ⟨hyr, by change B.ellMax + 1 = _; rw [← hB, p1]⟩
  obtain ⟨P, U, R, hP, hU, hR, hsh, hRr, hRc, hv⟩ := C93_map_catalog_mean μ hS minfo h1 h2 C hC'.1 hC'.2 hI hn B wa hteb hT ω0 w hw
  have hncls : w.ncls = ncomp sm * ncomp sc := by
    unfold coupleCell at hR
    split_ifs at hR with q
    push Not at q
    rw [← q.1, hC'.1]
  obtain ⟨D, hD, hDs, hDv⟩ := unbiased_comp (μ := μ) L hL hcomp hn0 hell hnr hreg y C R (hyr.trans hncls.symm) hyc hC hU hR P hsh (fun k hk b hb e he =>
    hv k (by rwa [hncls] at hk) e.ell (by have := hell b hb e he; rw [← hB, p1] at this; exact this))
  exact ⟨P, D, hP, hD, hDs, hDv⟩

end

/-! ## C94 -/

/-- C94 is false: `compute_full_master` never returns bandpowers if one of the fields is a catalog, whatever else is passed to it, although it only asks
for compatible multipoles and the catalog has no templates. -/
theorem C94_full_master_fails (L : LinAlg ℝ) (env : FieldEnv) (nIter : ℕ) (minfo : MapInfo) (f1 f2 : AnyField)
    (hcat : f1.isCatalog = true ∨ f2.isCatalog = true) (same hasBins : Bool) (ff : Outcome (Wsp ℝ)) (ws : Option (Wsp ℝ))
    (clNoise clGuess : Option (Arr2 ℝ)) (r : Option (Arr2 ℝ)) :
    anyFullMaster L env nIter minfo f1 f2 same hasBins ff ws clNoise clGuess ≠ .ok r := by
  have hl : f1.lite = true ∨ f2.lite = true := by
    rcases hcat with hc | hc
    · cases f1 with
      | map f => simp [AnyField.isCatalog] at hc
      | cat f => exact Or.inl rfl
    · cases f2 with
      | map f => simp [AnyField.isCatalog] at hc
      | cat f => exact Or.inr rfl
  have hb : ∀ g d, anyBias env nIter minfo f1 f2 g ≠ .ok d := by
    intro g d h
    unfold anyBias at h
    dsimp only at h
    simp only [if_pos hl] at h
    split_ifs at h
    obtain ⟨n1, -, h⟩ := ok_of_bind h
    obtain ⟨n2, -, h⟩ := ok_of_bind h
    rw [ite_self] at h
    cases h
  intro h
  unfold anyFullMaster at h
  dsimp only at h
  split_ifs at h
  obtain ⟨n1, -, h⟩ := ok_of_bind h
  obtain ⟨n2, -, h⟩ := ok_of_bind h
  split_ifs at h
  obtain ⟨p, -, h⟩ := ok_of_bind h
  obtain ⟨d, hd, -⟩ := ok_of_bind h
  exact hb _ _ hd

/-- C94 is false: for a catalog and any compatible field it is `ValueError`, even without guess of the spectra. -/
theorem C94_value_error (L : LinAlg ℝ) (env : FieldEnv) (nIter : ℕ) (minfo : MapInfo) (f1 f2 : AnyField)
    (hcat : f1.isCatalog = true ∨ f2.isCatalog = true) (same : Bool) (ff : Outcome (Wsp ℝ)) (ws : Option (Wsp ℝ))
    (hcomp : isCompatible (f1.view env.sht minfo).geom (f2.view env.sht minfo).geom false = true) (n1 n2 : ℕ) (hn1 : f1.nmaps = .ok n1)
    (hn2 : f2.nmaps = .ok n2) (p : Option (Arr2 ℝ)) (hp : computeCoupledCell (f1.view env.sht minfo) (f2.view env.sht minfo) same = .ok p) :
    anyFullMaster L env nIter minfo f1 f2 same true ff ws none none = .raises .value := by
  have hl : f1.lite = true ∨ f2.lite = true := by
    rcases hcat with hc | hc
    · cases f1 with
      | map f => simp [AnyField.isCatalog] at hc
      | cat f => exact Or.inl rfl
    · cases f2 with
      | map f => simp [AnyField.isCatalog] at hc
      | cat f => exact Or.inr rfl
  have hb : ∀ g, anyBias env nIter minfo f1 f2 g = .raises .value := by
    intro g
    unfold anyBias
    simp only [hn1, hn2, Outcome.bind]
    split_ifs <;> rfl
  unfold anyFullMaster
  simp only [hn1, hn2, hcomp, hp, hb, Outcome.bind, not_true_eq_false, false_and, if_false, Bool.true_eq_false, Option.any_none, Bool.false_eq_true]

end NaMaster
