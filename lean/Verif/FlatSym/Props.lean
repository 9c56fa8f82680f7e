import Verif.FlatSym.Field
import Verif.Flat.CovarModel

/-! # Moving maps over the periodic flat sky: C97 -/

namespace NaMaster

open Real Finset

variable {env : FlatEnv} {g : FlatMove}

/-! ## Spectra -/

/-- The product of two coefficients does not change. -/
theorem op_prod (fs : FlatInfo) (k : ℕ × ℕ) (a b : ℂ) :
    (g.op fs k a).re * (g.op fs k b).re + (g.op fs k a).im * (g.op fs k b).im = a.re * b.re + a.im * b.im := by
  have h : ∀ (u x y : ℂ), u.re * u.re + u.im * u.im = 1 → (u * x).re * (u * y).re + (u * x).im * (u * y).im = x.re * y.re + x.im * y.im := by
    intro u x y hu
    simp only [Complex.mul_re, Complex.mul_im]
    linear_combination (x.re * y.re + x.im * y.im) * hu
  have he : ∀ x : ℝ, (Complex.exp (x * Complex.I)).re * (Complex.exp (x * Complex.I)).re + (Complex.exp (x * Complex.I)).im * (Complex.exp (x * Complex.I)).im = 1 := by
    intro x
    rw [Complex.exp_ofReal_mul_I_re, Complex.exp_ofReal_mul_I_im]
    nlinarith [Real.sin_sq_add_cos_sq x]
  unfold FlatMove.op
  cases g.turn with
  | true =>
    simp only [if_true]
    rw [h _ _ _ (by rw [← Complex.ofReal_neg]; exact he _)]
    simp
  | false =>
    simp only [Bool.false_eq_true, if_false]
    exact h _ _ _ (he _)

theorem halfProd_move (fs : FlatInfo) (a1 a2 : ℕ × ℕ → ℂ) : halfProd fs.nx (fun k => g.op fs k (a1 k)) (fun k => g.op fs k (a2 k)) = halfProd fs.nx a1 a2 := by
  funext k
  unfold halfProd
  exact op_prod fs _ _ _

theorem maskprod_move (fs : FlatInfo) (m1 m2 : ℕ × ℕ → ℝ) :
    halfProd fs.nx (fs.map2alm fun p => m1 (g.pix fs p)) (fs.map2alm fun p => m2 (g.pix fs p)) = halfProd fs.nx (fs.map2alm m1) (fs.map2alm m2) := by
  have e : ∀ m : ℕ × ℕ → ℝ, (fs.map2alm fun p => m (g.pix fs p)) = fun k => g.op fs k (fs.map2alm m k) := fun m => funext fun k => g.map2alm_move fs m k
  rw [e, e]
  exact halfProd_move fs _ _

theorem coupling_move (f1 f2 : FlatField) (b : FlatBins ℝ) (c : EllCuts) (isTeb : Bool) :
    couplingFlat (f1.move g) (f2.move g) b c isTeb = couplingFlat f1 f2 b c isTeb := by
  unfold couplingFlat
  by_cases h : f1.fs = f2.fs
  · have hm : halfProd f1.fs.nx (f1.fs.map2alm (f1.move g).mask) (f1.fs.map2alm (f2.move g).mask) =
        halfProd f1.fs.nx (f1.fs.map2alm f1.mask) (f1.fs.map2alm f2.mask) := by
      have : (f2.move g).mask = fun p => f2.mask (g.pix f1.fs p) := by rw [h]; rfl
      rw [this]
      exact maskprod_move _ _ _
    simp only [show (f1.move g).fs = f1.fs from rfl, show (f2.move g).fs = f2.fs from rfl, show (f1.move g).spin = f1.spin from rfl,
      show (f2.move g).spin = f2.spin from rfl, hm, show (f1.move g).pureE = f1.pureE from rfl, show (f2.move g).pureE = f2.pureE from rfl,
      show (f1.move g).pureB = f1.pureB from rfl, show (f2.move g).pureB = f2.pureB from rfl]
    rfl
  · rw [if_pos (show (f1.move g).fs ≠ (f2.move g).fs from h), if_pos h]

theorem fsAlm2cl_move (fs : FlatInfo) (b : FlatBins ℝ) (c : EllCuts) (a1 a2 : ℕ × ℕ → ℂ) :
    fsAlm2cl fs b c (fun k => g.op fs k (a1 k)) (fun k => g.op fs k (a2 k)) = fsAlm2cl fs b c a1 a2 := by
  unfold fsAlm2cl
  rw [halfProd_move]

theorem clBand_move (fs : FlatInfo) (rows : List (List ℤ)) (a1 a2 : FlatAlms) (c d ib : ℕ) :
    clBand fs rows (g.coef fs a1 c) (g.coef fs a2 d) ib = clBand fs rows (a1 c) (a2 d) ib := by
  unfold clBand
  rw [show halfProd fs.nx (g.coef fs a1 c) (g.coef fs a2 d) = halfProd fs.nx (a1 c) (a2 d) from halfProd_move fs _ _]

theorem data_alms (f : FlatFieldObj) : (f.move g).data.alms = g.coef f.base.fs f.data.alms := by
  unfold FlatFieldObj.move FlatFieldObj.data
  dsimp only
  rcases f.alms with _ | (_ | A)
  · funext X k; exact (g.op_zero _ _).symm
  · funext X k; exact (g.op_zero _ _).symm
  · rfl

theorem coupledC_move (f1 f2 : FlatFieldObj) (b : FlatBins ℝ) (c : EllCuts) (rows : ℕ) :
    coupledCellFlatC (f1.move g).data (f2.move g).data b c rows = coupledCellFlatC f1.data f2.data b c rows := by
  unfold coupledCellFlatC
  by_cases hm : f1.data.maskOnly ∨ f2.data.maskOnly
  · rw [if_pos hm, if_pos (show (f1.move g).data.maskOnly ∨ (f2.move g).data.maskOnly from hm)]
  rw [if_neg hm, if_neg (show ¬ ((f1.move g).data.maskOnly ∨ (f2.move g).data.maskOnly) from hm)]
  by_cases h : f1.base.fs = f2.base.fs
  · rw [if_neg (not_not.2 (show (f1.move g).data.fs = (f2.move g).data.fs from h)), if_neg (not_not.2 (show f1.data.fs = f2.data.fs from h))]
    unfold fsAlm2clAll
    rw [data_alms, data_alms, ← h]
    simp only [show (f1.move g).data.nmaps = f1.data.nmaps from rfl, show (f2.move g).data.nmaps = f2.data.nmaps from rfl]
    have : ∀ i j, fsAlm2cl (f1.move g).data.fs b c (g.coef f1.base.fs f1.data.alms i) (g.coef f1.base.fs f2.data.alms j) =
        fsAlm2cl f1.data.fs b c (f1.data.alms i) (f2.data.alms j) := fun i j => fsAlm2cl_move f1.base.fs b c _ _
    simp only [this]
  · rw [if_pos (show (f1.move g).data.fs ≠ (f2.move g).data.fs from h), if_pos (show f1.data.fs ≠ f2.data.fs from h)]

theorem coupled_move_flat (f1 f2 : FlatFieldObj) (b : FlatBins ℝ) (c : EllCuts) :
    coupledCellFlat (f1.move g).data (f2.move g).data b c = coupledCellFlat f1.data f2.data b c := by
  unfold coupledCellFlat
  rw [coupledC_move]
  rfl

/-! ## Deprojection bias -/

/-- What the deprojection bias relies on: purified fields have spin 2 and keep the coefficients of their mask, unless they are `lite`. -/
structure FlatFieldObj.Sound (f : FlatFieldObj) : Prop where
  pure2 : (f.base.pureB ≠ 0 ∨ f.base.pureE ≠ 0) → f.base.spin = 2

theorem purifyGeneric_move (h : env.HasMove g) {f : FlatFieldObj} (hf : f.Sound) (m : FlatMaps) :
    purifyGenericFlat env (f.move g) (g.map f.base.fs f.base.spin m) = g.coef f.base.fs (purifyGenericFlat env f m) := by
  unfold purifyGenericFlat
  by_cases hp : f.base.pureB ≠ 0 ∨ f.base.pureE ≠ 0
  · rw [if_pos hp, if_pos (show (f.move g).base.pureB ≠ 0 ∨ (f.move g).base.pureE ≠ 0 from hp), hf.pure2 hp]
    have : ((f.move g).aMask.getD fun _ => 0) = fun k => g.op f.base.fs k ((f.aMask.getD fun _ => 0) k) := by
      unfold FlatFieldObj.move
      dsimp only
      cases f.aMask with
      | none => exact funext fun k => (g.op_zero _ _).symm
      | some w => rfl
    rw [this]
    exact purifyFlatAlms_move h f.base.fs _ _ f.base.mask _ m
  · rw [if_neg hp, if_neg (show ¬ ((f.move g).base.pureB ≠ 0 ∨ (f.move g).base.pureE ≠ 0) from hp)]
    rw [show (fun c p => g.map f.base.fs f.base.spin m c p * (f.move g).base.mask p) = g.map f.base.fs f.base.spin fun c p => m c p * f.base.mask p from
      flat_mask_move _ _ _ _]
    exact g.fsMap2alm_move _ _ _

theorem mix_move (fs : FlatInfo) (n : ℕ) (G : ℕ → ℕ → ℝ → ℝ) (a : FlatAlms) : mixFlat fs n G (g.coef fs a) = g.coef fs (mixFlat fs n G a) := by
  funext d k
  unfold mixFlat FlatMove.coef
  rw [g.op_sum]
  exact sum_congr rfl fun c _ => (g.op_real _ _ _ _).symm

theorem flat_biasMap_move (h : env.HasMove g) {f k : FlatFieldObj} (hfs : f.base.fs = k.base.fs) (G : ℕ → ℕ → ℝ → ℝ) (t : FlatMaps) :
    biasMapFlat env (f.move g) (k.move g) G (g.map f.base.fs f.base.spin t) = g.map k.base.fs k.base.spin (biasMapFlat env f k G t) := by
  unfold biasMapFlat
  rw [show (fun c p => g.map f.base.fs f.base.spin t c p * (f.move g).base.mask p) = g.map f.base.fs f.base.spin fun c p => t c p * f.base.mask p from
    flat_mask_move _ _ _ _]
  have e : fsMap2alm (f.move g).base.fs (f.move g).base.spin (g.map f.base.fs f.base.spin fun c p => t c p * f.base.mask p) =
      g.coef f.base.fs (fsMap2alm f.base.fs f.base.spin fun c p => t c p * f.base.mask p) := g.fsMap2alm_move _ _ _
  rw [e, show mixFlat (f.move g).base.fs (f.move g).nmaps G = mixFlat f.base.fs f.nmaps G from rfl, mix_move, hfs]
  exact fsAlm2map_move h k.base.fs k.base.spin _

theorem flat_biasSums_move (h : env.HasMove g) {f1 f2 : FlatFieldObj} (hfs : f1.base.fs = f2.base.fs) (s1 : f1.Sound) (s2 : f2.Sound) (rows : List (List ℤ))
    (G : ℕ → ℕ → ℝ → ℝ) (M1 M2 : ℕ → ℕ → ℝ) (c d ib : ℕ) :
    biasFlatSums env (f1.move g) (f2.move g) rows G M1 M2 c d ib = biasFlatSums env f1 f2 rows G M1 M2 c d ib := by
  have ht : ∀ f : FlatFieldObj, ((f.move g).temp.getD fun _ _ _ => 0) = fun i => g.map f.base.fs f.base.spin ((f.temp.getD fun _ _ _ => 0) i) := by
    intro f
    unfold FlatFieldObj.move
    dsimp only
    cases f.temp with
    | none => funext i c p; simp [FlatMove.map]
    | some T => rfl
  have ha : ∀ f : FlatFieldObj, ((f.move g).aTemp.getD fun _ _ _ => 0) = fun i => g.coef f.base.fs ((f.aTemp.getD fun _ _ _ => 0) i) := by
    intro f
    unfold FlatFieldObj.move
    dsimp only
    cases f.aTemp with
    | none => funext i X k; exact (g.op_zero _ _).symm
    | some T => rfl
  unfold biasFlatSums
  simp only [ht, ha, flat_biasMap_move h hfs, flat_biasMap_move h hfs.symm]
  have p1 : ∀ m, purifyGenericFlat env (f1.move g) (g.map f1.base.fs f1.base.spin m) = g.coef f1.base.fs (purifyGenericFlat env f1 m) :=
    purifyGeneric_move h s1
  have p2 : ∀ m, purifyGenericFlat env (f2.move g) (g.map f1.base.fs f2.base.spin m) = g.coef f1.base.fs (purifyGenericFlat env f2 m) := by
    rw [hfs]
    exact purifyGeneric_move h s2
  have d1 : ∀ a b : FlatMaps, f1.base.fs.dot f1.nmaps (fun c p => g.map f1.base.fs f1.base.spin a c p * (f1.move g).base.mask p)
      (g.map f1.base.fs f1.base.spin b) = f1.base.fs.dot f1.nmaps (fun c p => a c p * f1.base.mask p) b := by
    intro a b
    rw [show (fun c p => g.map f1.base.fs f1.base.spin a c p * (f1.move g).base.mask p) = g.map f1.base.fs f1.base.spin fun c p => a c p * f1.base.mask p from
      flat_mask_move _ _ _ _]
    exact flat_dot_move _ _ _ _ _
  simp only [p1, p2, ← hfs, show (f1.move g).base.fs = f1.base.fs from rfl, show (f1.move g).nmaps = f1.nmaps from rfl, clBand_move]
  simp only [d1, show (f1.move g).ntemp = f1.ntemp from rfl, show (f2.move g).ntemp = f2.ntemp from rfl]

theorem bias_move_flat (h : env.HasMove g) {f1 f2 : FlatFieldObj} (s1 : f1.Sound) (s2 : f2.Sound) (b : FlatBins ℝ) (c : EllCuts) (ells : List ℝ)
    (guess : Arr2 ℝ) : deprojBiasFlatObj env (f1.move g) (f2.move g) b c ells guess = deprojBiasFlatObj env f1 f2 b c ells guess := by
  unfold deprojBiasFlatObj deprojBiasFlatObjC
  by_cases hfs : f1.base.fs = f2.base.fs
  · simp only [flat_biasSums_move h hfs s1 s2]
    rfl
  · have h1 : f1.base.fs ≠ f2.base.fs := hfs
    have h2 : (f1.move g).base.fs ≠ (f2.move g).base.fs := hfs
    simp only [if_pos h1, if_pos h2]
    rfl

theorem sound_of_ok {a : FlatFieldArgs} {f : FlatFieldObj} (hf : nmtFieldFlat env a = .ok f) : f.Sound := by
  refine ⟨fun hp => ?_⟩
  cases hm : a.maps with
  | some m =>
    obtain ⟨spin, beam, -, -, hs, -, -, -, -, rfl⟩ := flat_ok hm hf
    refine hs ?_
    simp only [flatAlloc] at hp
    cases hE : a.purifyE <;> cases hB : a.purifyB <;> simp_all
  | none =>
    unfold nmtFieldFlat at hf
    by_cases h0 : a.fs.lx < 0 ∨ a.fs.ly < 0
    · rw [if_pos h0] at hf; cases hf
    rw [if_neg h0] at hf
    obtain ⟨spin, hsp, hf⟩ := bind_eq_ok hf
    by_cases hpp : (a.purifyE || a.purifyB) ∧ spin ≠ 2
    · rw [if_pos hpp] at hf; cases hf
    rw [if_neg hpp] at hf
    obtain ⟨u, -, hf⟩ := bind_eq_ok hf
    by_cases hl : ¬ (a.fs.lx > 0 ∧ a.fs.ly > 0)
    · rw [if_pos hl] at hf; cases hf
    rw [if_neg hl] at hf
    obtain ⟨beam, -, hf⟩ := bind_eq_ok hf
    rw [hm] at hf
    have hf := Outcome.ok.inj hf
    rw [← hf] at hp ⊢
    dsimp only at hp ⊢
    by_contra hne
    refine hpp ⟨?_, hne⟩
    cases hE : a.purifyE <;> cases hB : a.purifyB <;> simp_all

/-! ## C97 -/

/-- **C97**, fields: with mask, maps and templates moved the constructor does what it did before, and the contents of the field are moved. -/
theorem C97_field (h : env.HasMove g) (a : FlatFieldArgs) : nmtFieldFlat env (a.move g) = (nmtFieldFlat env a).bind fun f => .ok (f.move g) :=
  nmtFieldFlat_move h a

/-- **C97**: moving the masks, maps and templates of both fields over the periodic map changes neither pseudo-spectra nor the deprojection bias nor the
workspace. -/
theorem C97_spectra (h : env.HasMove g) {a1 a2 : FlatFieldArgs} {f1 f2 : FlatFieldObj} (hf1 : nmtFieldFlat env a1 = .ok f1)
    (hf2 : nmtFieldFlat env a2 = .ok f2) (b : FlatBins ℝ) (c : EllCuts) (isTeb : Bool) (ells : List ℝ) (guess : Arr2 ℝ) :
    ∃ g1 g2, nmtFieldFlat env (a1.move g) = .ok g1 ∧ nmtFieldFlat env (a2.move g) = .ok g2 ∧
      coupledCellFlat g1.data g2.data b c = coupledCellFlat f1.data f2.data b c ∧
      deprojBiasFlatObj env g1 g2 b c ells guess = deprojBiasFlatObj env f1 f2 b c ells guess ∧
      couplingFlat g1.base g2.base b c isTeb = couplingFlat f1.base f2.base b c isTeb := by
  refine ⟨f1.move g, f2.move g, ?_, ?_, coupled_move_flat _ _ _ _, bias_move_flat h (sound_of_ok hf1) (sound_of_ok hf2) _ _ _ _, coupling_move _ _ _ _ _⟩
  · rw [nmtFieldFlat_move h, hf1]; rfl
  · rw [nmtFieldFlat_move h, hf2]; rfl

/-- **C97**: nor the bandpowers of `compute_full_master_flat`, with or without a workspace. `D` is the deprojection bias of fields with templates, which
does not change (`C97_spectra`). -/
theorem C97_bandpowers (L : LinAlg ℝ) (D : FlatDeproj) (h : env.HasMove g) {a1 a2 : FlatFieldArgs} {f1 f2 : FlatFieldObj}
    (hf1 : nmtFieldFlat env a1 = .ok f1) (hf2 : nmtFieldFlat env a2 = .ok f2) (b : FlatBins ℝ) (c : EllCuts) (noise : Option (Arr2 ℝ))
    (guess : Option (Arr2 ℝ × Option (List ℝ))) (workspace : Option (Option WspFlat))
    (hD : ∀ g1 g2, nmtFieldFlat env (a1.move g) = .ok g1 → nmtFieldFlat env (a2.move g) = .ok g2 → ¬ (f1.ntemp = 0 ∧ f2.ntemp = 0) →
      D g1.data g2.data = D f1.data f2.data) :
    ∃ g1 g2, nmtFieldFlat env (a1.move g) = .ok g1 ∧ nmtFieldFlat env (a2.move g) = .ok g2 ∧
      fullMasterFlat L D g1.data g2.data b c noise guess workspace = fullMasterFlat L D f1.data f2.data b c noise guess workspace := by
  have e1 : nmtFieldFlat env (a1.move g) = .ok (f1.move g) := by rw [nmtFieldFlat_move h, hf1]; rfl
  have e2 : nmtFieldFlat env (a2.move g) = .ok (f2.move g) := by rw [nmtFieldFlat_move h, hf2]; rfl
  refine ⟨f1.move g, f2.move g, e1, e2, ?_⟩
  have hp : pickWspFlat (f1.move g).data (f2.move g).data b c = pickWspFlat f1.data f2.data b c := by
    funext w
    cases w with
    | none => exact coupling_move f1.base f2.base b c false
    | some w => rfl
  have hb : deprojBiasFlatC D (f1.move g).data (f2.move g).data b c = deprojBiasFlatC D f1.data f2.data b c := by
    funext ells gs rows
    unfold deprojBiasFlatC
    by_cases hn : f1.ntemp = 0 ∧ f2.ntemp = 0
    · have h1 : f1.data.ntemp = 0 ∧ f2.data.ntemp = 0 := hn
      have h2 : (f1.move g).data.ntemp = 0 ∧ (f2.move g).data.ntemp = 0 := hn
      simp only [if_pos h1, if_pos h2]
      rfl
    · rw [hD _ _ e1 e2 hn]
      rfl
  unfold fullMasterFlat powerSpectraFlatC
  simp only [hp, hb, coupledC_move]
  rfl

/-- **C97**, covariances: the coefficients of covariances do not change if all fields are moved. -/
theorem C97_covariance (a1 a2 : FlatField) (ba : FlatBins ℝ) (b1 b2 : Option FlatField) (bb : Option (FlatBins ℝ)) :
    covInitFlat (a1.move g) (a2.move g) ba (b1.map (FlatField.move g)) (b2.map (FlatField.move g)) bb = covInitFlat a1 a2 ba b1 b2 bb := by
  have hm : ∀ f : FlatField, a1.fs.nx = f.fs.nx → a1.fs.ny = f.fs.ny → (f.move g).mask = fun p => f.mask (g.pix a1.fs p) := by
    intro f hx hy
    funext p
    unfold FlatField.move FlatMove.pix
    rw [hx, hy]
  have hg : ∀ (o : Option FlatField) (f : FlatField), (o.map (FlatField.move g)).getD (f.move g) = (o.getD f).move g := by
    intro o f
    cases o <;> rfl
  unfold covInitFlat
  dsimp only
  rw [hg, hg]
  generalize b1.getD a1 = c1
  generalize b2.getD a2 = c2
  simp only [show ∀ f : FlatField, (f.move g).fs = f.fs from fun _ => rfl]
  by_cases h : a1.fs.nx ≠ a2.fs.nx ∨ a1.fs.ny ≠ a2.fs.ny ∨ a1.fs.nx ≠ c1.fs.nx ∨ a1.fs.ny ≠ c1.fs.ny ∨ a1.fs.nx ≠ c2.fs.nx ∨ a1.fs.ny ≠ c2.fs.ny
  · rw [if_pos h, if_pos h]
  rw [if_neg h, if_neg h]
  push Not at h
  obtain ⟨x2, y2, x3, y3, x4, y4⟩ := h
  unfold covInitFlatC
  rw [hm a1 rfl rfl, hm a2 x2 y2, hm c1 x3 y3, hm c2 x4 y4]
  have hc : ∀ m1 m2 m3 m4 : ℕ × ℕ → ℝ, covMaskProd a1.fs (fun p => m1 (g.pix a1.fs p)) (fun p => m2 (g.pix a1.fs p)) (fun p => m3 (g.pix a1.fs p))
      (fun p => m4 (g.pix a1.fs p)) = covMaskProd a1.fs m1 m2 m3 m4 := fun m1 m2 m3 m4 => maskprod_move a1.fs (fun p => m1 p * m2 p) fun p => m3 p * m4 p
  simp only [show ∀ f : FlatField, (f.move g).fs = f.fs from fun _ => rfl, hc]

end NaMaster
