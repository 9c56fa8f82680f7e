import Verif.Flat.BiasProps
import Verif.Flat.PipelineProps

/-! # Lemmas for the mean pseudo-spectra of purified flat-sky fields -/

namespace NaMaster

open Real Finset MeasureTheory
open scoped Classical

/-! ## Specification -/

/-- Component `X` (0 for E, 1 for B) of a field is purified. -/
def FlatField.PureComp (f : FlatField) (X : ℕ) : Prop := (X = 0 ∧ f.pureE = 1) ∨ (X = 1 ∧ f.pureB = 1)

/-- What component `X'` of mode `k2` of the sky contributes to component `X` of the coefficient of a field at mode `k1`, per
coefficient of the mask at `k1 - k2`: for a component that is not purified the rotation of E and B between the two modes, for a purified
one the square of the ratio of the wave numbers, and nothing from the other component. -/
noncomputable def FlatField.mix (f : FlatField) (k1 k2 : ℕ × ℕ) (X X' : ℕ) : ℝ :=
  if f.PureComp X then (if X' = X then (f.fs.kmod k2.1 k2.2 / f.fs.kmod k1.1 k1.2) ^ 2 else 0)
  else rotEB f.spin (modeAngle f.fs k1 - modeAngle f.fs k2) X X'

/-- The right coupling matrix of two fields that may be purified: as `trueCoupling`, with `FlatField.mix` in place of the rotations. -/
noncomputable def trueCouplingPure (f1 f2 : FlatField) (b : FlatBins ℝ) (c : EllCuts) (X Y ib X' Y' ib' : ℕ) : ℝ :=
  4 * π * π / (f1.fs.lx * f1.fs.lx * f1.fs.ly * f1.fs.ly) / #(bandModes f1.fs b c ib) *
    ∑ k1 ∈ bandModes f1.fs b c ib, ∑ k2 ∈ bandModesAll f1.fs b ib',
      maskPower f1.fs f1.mask f2.mask (f1.fs.sub k1 k2) *
        (f1.beam (f1.fs.kmod k2.1 k2.2) * f2.beam (f1.fs.kmod k2.1 k2.2)) * (f1.mix k1 k2 X X' * f2.mix k1 k2 Y Y')

/-- The flags of a field as the constructor sets them. -/
structure FlatField.FlagsOk (f : FlatField) : Prop where
  e : f.pureE ≤ 1
  b : f.pureB ≤ 1
  spin : f.spin ≠ 2 → f.pureE = 0 ∧ f.pureB = 0

/-! ## Means -/

/-- The mean of the product of two coefficients that are sums over the modes of two skies. -/
theorem mean_power_mix {Ω : Type*} [MeasurableSpace Ω] (μ : Measure Ω) (fs : FlatInfo) (n1 n2 : ℕ) (mask1 mask2 : ℕ × ℕ → ℝ)
    (F1 F2 : Ω → ℕ → ℕ × ℕ → ℂ) (C : ℕ → ℕ → ℕ × ℕ → ℝ) (hC : Homogeneous μ fs n1 n2 F1 F2 C) (k1 : ℕ × ℕ)
    (r1 r2 : ℕ × ℕ → ℕ → ℝ) (A1 A2 : Ω → ℂ)
    (h1 : ∀ ω, A1 ω = ∑ j ∈ fs.modes ×ˢ range n1, fs.map2alm mask1 (fs.sub k1 j.1) * r1 j.1 j.2 * F1 ω j.2 j.1)
    (h2 : ∀ ω, A2 ω = ∑ j ∈ fs.modes ×ˢ range n2, fs.map2alm mask2 (fs.sub k1 j.1) * r2 j.1 j.2 * F2 ω j.2 j.1) :
    Integrable (fun ω => (A1 ω * star (A2 ω)).re) μ ∧
    ∫ ω, (A1 ω * star (A2 ω)).re ∂μ = ∑ k2 ∈ fs.modes, ∑ X' ∈ range n1, ∑ Y' ∈ range n2,
        maskPower fs mask1 mask2 (fs.sub k1 k2) * (r1 k2 X' * r2 k2 Y') * (C X' Y' k2 / (fs.lx * fs.ly)) := by
  have hm := mean_product μ (fs.modes ×ˢ range n1) (fs.modes ×ˢ range n2)
    (fun j => fs.map2alm mask1 (fs.sub k1 j.1) * r1 j.1 j.2)
    (fun j => fs.map2alm mask2 (fs.sub k1 j.1) * r2 j.1 j.2)
    (fun j ω => F1 ω j.2 j.1) (fun j ω => F2 ω j.2 j.1) (by
      intro i hi j hj
      rw [Finset.mem_product, Finset.mem_range] at hi hj
      exact hC.integrable _ hi.2 _ hj.2 _ hi.1 _ hj.1)
  simp only [h1, h2]
  refine ⟨hm.1, hm.2.trans ?_⟩
  rw [Finset.sum_product, Complex.re_sum]
  refine Finset.sum_congr rfl fun k2 hk2 => ?_
  rw [Complex.re_sum]
  refine Finset.sum_congr rfl fun X' hX' => ?_
  rw [Finset.sum_product, Complex.re_sum, Finset.sum_eq_single k2]
  · rw [Complex.re_sum]
    refine Finset.sum_congr rfl fun Y' hY' => ?_
    rw [hC.covariance X' (Finset.mem_range.1 hX') Y' (Finset.mem_range.1 hY') k2 hk2 k2 hk2, if_pos rfl]
    unfold maskPower
    rw [star_mul']
    have hr : ∀ r : ℝ, star (r : ℂ) = (r : ℂ) := fun r => Complex.conj_ofReal r
    rw [hr]
    have : fs.map2alm mask1 (fs.sub k1 k2) * (r1 k2 X' : ℂ) * (star (fs.map2alm mask2 (fs.sub k1 k2)) * (r2 k2 Y' : ℂ)) *
        ((C X' Y' k2 / (fs.lx * fs.ly) : ℝ) : ℂ) =
        fs.map2alm mask1 (fs.sub k1 k2) * star (fs.map2alm mask2 (fs.sub k1 k2)) *
          ((r1 k2 X' * r2 k2 Y' * (C X' Y' k2 / (fs.lx * fs.ly)) : ℝ) : ℂ) := by
      push_cast
      ring
    rw [this, Complex.re_mul_ofReal]
    ring
  · intro k' hk' hne
    rw [Complex.re_sum]
    refine Finset.sum_eq_zero fun Y' hY' => ?_
    rw [hC.covariance X' (Finset.mem_range.1 hX') Y' (Finset.mem_range.1 hY') k2 hk2 k' hk', if_neg (Ne.symm hne)]
    simp
  · intro hn; exact absurd hk2 hn

/-! ## Coefficients at opposite modes -/

theorem fsMap2alm_masked (fs : FlatInfo) (spin : ℕ) (m : FlatMaps) (X : ℕ) (k : ℕ × ℕ) :
    fsMap2alm fs spin m X k = maskedAlm fs spin (fun _ => 1) (if spin = 0 then fun _ => m X else m) X k := by
  unfold fsMap2alm maskedAlm
  by_cases h : spin = 0
  · simp [h]
  · simp [h]

theorem fsMap2alm_half {fs : FlatInfo} (hl : 0 < fs.lx) (spin : ℕ) (m : FlatMaps) (X : ℕ)
    {k : ℕ × ℕ} (hk : k ∈ fs.modes) (hx : fs.nx < 2 * k.1) (hy : spin = 0 ∨ 2 * k.2 ≠ fs.ny) :
    fsMap2alm fs spin m X (fs.nx - k.1, k.2) = star (fsMap2alm fs spin m X (fs.flip k)) := by
  rw [fsMap2alm_masked, fsMap2alm_masked]
  exact maskedAlm_half hl spin _ _ X hk hx hy

theorem pixMod_half {fs : FlatInfo} {k : ℕ × ℕ} (hk : k ∈ fs.modes) (hx : fs.nx < 2 * k.1) :
    fs.pixMod (fs.nx - k.1, k.2) = fs.pixMod (fs.flip k) := by
  have hn : ((fs.nx - k.1, k.2) : ℕ × ℕ) = (negIdx fs.nx (fs.flip k).1, negIdx fs.ny (fs.flip k).2) := by
    unfold FlatInfo.flip
    simp only
    rw [negIdx_neg (mem_modes.1 hk).2, negIdx_of_pos (by omega)]
  rw [hn, pixMod_neg (flip_mem hk)]

theorem purify_half {fs : FlatInfo} (hl : 0 < fs.lx) (c2r : (ℕ × ℕ → ℂ) → ℕ × ℕ → ℝ) (pE pB : Bool) (mask : ℕ × ℕ → ℝ)
    (w : ℕ × ℕ → ℂ) (m : FlatMaps) (X : ℕ) {k : ℕ × ℕ} (hk : k ∈ fs.modes) (hx : fs.nx < 2 * k.1) (hy : 2 * k.2 ≠ fs.ny) :
    purifyFlatAlms c2r fs pE pB mask w m X (fs.nx - k.1, k.2) = star (purifyFlatAlms c2r fs pE pB mask w m X (fs.flip k)) := by
  have hr : ∀ r : ℝ, star (r : ℂ) = (r : ℂ) := fun r => Complex.conj_ofReal r
  have h2 : star (2 : ℂ) = 2 := by have := hr 2; push_cast at this; exact this
  unfold purifyFlatAlms
  simp only [fsMap2alm_half hl _ _ X hk hx (Or.inr hy), pixMod_half hk hx]
  split_ifs
  · rw [star_add, star_add, star_div₀, star_div₀, star_mul', hr, hr, h2]
  · rw [star_add, star_add, star_div₀, star_mul', hr, h2, star_zero]
  · rw [star_add, star_add, star_div₀, hr, star_zero]
  · rw [star_add, star_add, star_zero]
  · rfl

/-- The coefficients of a field, purified or not, at modes not of the highest wave number. -/
theorem popFlat_half {env : FlatEnv} {a : FlatFieldArgs} (hl : 0 < a.fs.lx) (sp : ℕ) (m : FlatMaps) (X : ℕ) {k : ℕ × ℕ}
    (hk : k ∈ a.fs.modes) (hx : a.fs.nx < 2 * k.1)
    (hy : (sp = 0 ∧ ¬ (a.purifyE = true ∨ a.purifyB = true)) ∨ 2 * k.2 ≠ a.fs.ny) :
    popFlat env a sp m X (a.fs.nx - k.1, k.2) = star (popFlat env a sp m X (a.fs.flip k)) := by
  unfold popFlat
  by_cases hp : a.purifyE = true ∨ a.purifyB = true
  · rw [if_pos hp]
    exact purify_half hl _ _ _ _ _ _ X hk hx (hy.resolve_left fun h => h.2 hp)
  · rw [if_neg hp]
    exact fsMap2alm_half hl _ _ X hk hx (hy.imp (·.1) id)

theorem halfProd_of_half {fs : FlatInfo} (A1 A2 : ℕ × ℕ → ℂ) {k : ℕ × ℕ}
    (h1 : fs.nx < 2 * k.1 → A1 (fs.nx - k.1, k.2) = star (A1 (fs.flip k)))
    (h2 : fs.nx < 2 * k.1 → A2 (fs.nx - k.1, k.2) = star (A2 (fs.flip k))) :
    halfProd fs.nx A1 A2 k = if 2 * k.1 ≤ fs.nx then (A1 k * star (A2 k)).re else (A1 (fs.flip k) * star (A2 (fs.flip k))).re := by
  unfold halfProd ixHere
  by_cases hx : 2 * k.1 ≤ fs.nx
  · simp only [if_pos hx]
    simp [Complex.mul_re]
  · simp only [if_neg hx]
    rw [h1 (by omega), h2 (by omega)]
    simp [Complex.mul_re]

/-- The coefficients of a field as a sum over the modes of the sky. -/
theorem popFlat_mix {env : FlatEnv} (henv : env.Exact) {a : FlatFieldArgs} (hlx : 0 < a.fs.lx) (hly : 0 < a.fs.ly) {sp : ℕ}
    (hp2 : a.purifyE = true ∨ a.purifyB = true → sp = 2) {m : FlatMaps} {F : ℕ → ℕ × ℕ → ℂ} (hF : SkyHas a.fs sp m F)
    (hpure : a.purifyE = true ∨ a.purifyB = true → SquarePixels a.fs ∧ Resolved a.fs a.mask F)
    (f : FlatField) (hfs : f.fs = a.fs) (hsp : f.spin = sp) (hE : f.pureE = 1 ↔ a.purifyE = true)
    (hB : f.pureB = 1 ↔ a.purifyB = true) {X : ℕ} (hX : X < nmapsOf sp)
    {k : ℕ × ℕ} (hk : k ∈ a.fs.modes) (h0 : (a.purifyE = true ∨ a.purifyB = true) → k ≠ (0, 0)) :
    popFlat env a sp m X k = ∑ j ∈ a.fs.modes ×ˢ range (nmapsOf sp),
      a.fs.map2alm a.mask (a.fs.sub k j.1) * f.mix k j.1 X j.2 * F j.2 j.1 := by
  by_cases hp : f.PureComp X
  · have hpp : a.purifyE = true ∨ a.purifyB = true := by
      rcases hp with h | h
      · exact Or.inl (hE.1 h.2)
      · exact Or.inr (hB.1 h.2)
    obtain rfl := hp2 hpp
    have hX' : (X = 0 ∧ a.purifyE = true) ∨ (X = 1 ∧ a.purifyB = true) :=
      hp.imp (fun h => ⟨h.1, hE.1 h.2⟩) fun h => ⟨h.1, hB.1 h.2⟩
    obtain ⟨hsq, hr⟩ := hpure hpp
    obtain ⟨c, hc⟩ := henv a.fs
    unfold popFlat
    rw [if_pos hpp, hc, pure_formula hlx hly hsq c (noNyquist_of_resolved hr) hF hk (h0 hpp) (noWrap_of_resolved hr hk) hX',
      Finset.sum_product]
    refine Finset.sum_congr rfl fun k2 _ => ?_
    rw [Finset.sum_eq_single X]
    · unfold FlatField.mix
      rw [if_pos hp, if_pos rfl, hfs]
    · intro X' _ hne
      unfold FlatField.mix
      rw [if_pos hp, if_neg hne]
      simp
    · intro h; exact absurd (Finset.mem_range.2 hX) h
  · have hm : ∀ k2 X', f.mix k k2 X X' = rotEB sp (modeAngle a.fs k - modeAngle a.fs k2) X X' := by
      intro k2 X'
      unfold FlatField.mix
      rw [if_neg hp, hfs, hsp]
    simp only [hm]
    rw [← maskedAlm_eq sp a.mask m F hF hX k]
    have hgoal : fsMap2alm a.fs sp (fun c p => m c p * a.mask p) X k = maskedAlm a.fs sp a.mask m X k := by
      unfold fsMap2alm maskedAlm
      by_cases hs : sp = 0
      · have : X = 0 := by simp only [nmapsOf, if_pos hs] at hX; omega
        subst this
        simp [hs, mul_comm]
      · simp [hs, mul_comm]
    rw [← hgoal]
    unfold popFlat
    by_cases hpp : a.purifyE = true ∨ a.purifyB = true
    · obtain rfl := hp2 hpp
      rw [if_pos hpp]
      have hn : ¬ ((X = 0 ∧ a.purifyE = true) ∨ (X = 1 ∧ a.purifyB = true)) := fun h =>
        hp (h.imp (fun h => ⟨h.1, hE.2 h.2⟩) fun h => ⟨h.1, hB.2 h.2⟩)
      unfold purifyFlatAlms
      simp only [if_neg hn]
    · rw [if_neg hpp]

/-! ## The coupling matrix of the library -/

theorem kratio_mix {fs : FlatInfo} {k1 : ℕ × ℕ} (h0 : k1 ≠ (0, 0)) (k2 : ℕ × ℕ) :
    fs.kratio k1 k2 = (fs.kmod k2.1 k2.2 / fs.kmod k1.1 k1.2) ^ 2 := by
  unfold FlatInfo.kratio
  simp only [h0, false_and, if_false]
  ring

theorem coupTerm_mix (f1 f2 : FlatField) (hfs : f1.fs = f2.fs) (hf1 : f1.FlagsOk) (hf2 : f2.FlagsOk)
    (mp : ℕ × ℕ → ℝ) (X Y X' Y' : ℕ) (hX : X < nmapsOf f1.spin) (hY : Y < nmapsOf f2.spin) (hX' : X' < nmapsOf f1.spin)
    (hY' : Y' < nmapsOf f2.spin) (k1 k2 : ℕ × ℕ) (h0 : k1 ≠ (0, 0) ∨ NotPurified f1 f2) :
    coupTerm f1 f2 (nmapsOf f1.spin * nmapsOf f2.spin) mp (nmapsOf f2.spin * X + Y) (nmapsOf f2.spin * X' + Y') k1 k2 =
      f1.beam (f1.fs.kmod k2.1 k2.2) * f2.beam (f1.fs.kmod k2.1 k2.2) * (f1.mix k1 k2 X X' * f2.mix k1 k2 Y Y') *
        mp (f1.fs.sub k1 k2) := by
  rcases h0 with h0 | hp
  · obtain ⟨fs, s1, mask1, beam1, pe1, pb1⟩ := f1
    obtain ⟨fs', s2, mask2, beam2, pe2, pb2⟩ := f2
    simp only at hfs
    subst hfs
    obtain ⟨he1, hb1, hs1⟩ := hf1
    obtain ⟨he2, hb2, hs2⟩ := hf2
    simp only at *
    unfold coupTerm FlatField.mix FlatField.PureComp
    simp only [cdiff_eq, sdiff_eq, kratio_mix h0]
    generalize (fs.kmod k2.1 k2.2 / fs.kmod k1.1 k1.2) ^ 2 = kr
    generalize modeAngle fs k1 - modeAngle fs k2 = α
    have hfac : coupFactor (nmapsOf s1 * nmapsOf s2) pe1 pb1 pe2 pb2
        (cos ((coupSpins (nmapsOf s1 * nmapsOf s2) s1 s2).1 * α)) (sin ((coupSpins (nmapsOf s1 * nmapsOf s2) s1 s2).1 * α))
        (cos ((coupSpins (nmapsOf s1 * nmapsOf s2) s1 s2).2 * α)) (sin ((coupSpins (nmapsOf s1 * nmapsOf s2) s1 s2).2 * α))
        kr (nmapsOf s2 * X + Y) (nmapsOf s2 * X' + Y') =
      (if X = 0 ∧ pe1 = 1 ∨ X = 1 ∧ pb1 = 1 then (if X' = X then kr else 0) else rotEB s1 α X X') *
      (if Y = 0 ∧ pe2 = 1 ∨ Y = 1 ∧ pb2 = 1 then (if Y' = Y then kr else 0) else rotEB s2 α Y Y') := by
      unfold rotEB
      by_cases h1 : s1 = 0 <;> by_cases h2 : s2 = 0
      · subst h1; subst h2
        obtain ⟨rfl, rfl⟩ := hs1 (by norm_num)
        obtain ⟨rfl, rfl⟩ := hs2 (by norm_num)
        simp only [nmapsOf, if_true] at *
        have : X = 0 := by omega
        have : Y = 0 := by omega
        have : X' = 0 := by omega
        have : Y' = 0 := by omega
        subst X; subst Y; subst X'; subst Y'
        simp [coupFactor]
      · subst h1
        obtain ⟨rfl, rfl⟩ := hs1 (by norm_num)
        simp only [nmapsOf, if_true, if_neg h2] at *
        have : X = 0 := by omega
        have : X' = 0 := by omega
        subst X; subst X'
        interval_cases pe2 <;> interval_cases pb2 <;> interval_cases Y <;> interval_cases Y' <;> simp [coupFactor, coupSpins, h2]
      · subst h2
        obtain ⟨rfl, rfl⟩ := hs2 (by norm_num)
        simp only [nmapsOf, if_true, if_neg h1] at *
        have : Y = 0 := by omega
        have : Y' = 0 := by omega
        subst Y; subst Y'
        interval_cases pe1 <;> interval_cases pb1 <;> interval_cases X <;> interval_cases X' <;> simp [coupFactor, coupSpins, h1]
      · simp only [nmapsOf, if_neg h1, if_neg h2] at *
        have hsp : coupSpins (2 * 2) s1 s2 = (s1, s2) := by simp [coupSpins, h1]
        rw [hsp]
        simp only
        generalize cos (s1 * α) = c1
        generalize sin (s1 * α) = d1
        generalize cos (s2 * α) = c2
        generalize sin (s2 * α) = d2
        clear hs1 hs2
        have q1 : pe1 = 1 ↔ ¬ pe1 = 0 := by omega
        have q2 : pb1 = 1 ↔ ¬ pb1 = 0 := by omega
        have q3 : pe2 = 1 ↔ ¬ pe2 = 0 := by omega
        have q4 : pb2 = 1 ↔ ¬ pb2 = 0 := by omega
        clear he1 hb1 he2 hb2
        interval_cases X <;> interval_cases X' <;> interval_cases Y <;> interval_cases Y' <;>
          simp [coupFactor, q1, q2, q3, q4] <;> split_ifs <;> simp
    rw [hfac]
    ring
  · rw [coupTerm_rot f1 f2 hp mp X Y X' Y' hX hY hX' hY' k1 k2]
    obtain ⟨p1, p2, p3, p4⟩ := hp
    unfold FlatField.mix FlatField.PureComp
    rw [if_neg (by simp [p1, p2]), if_neg (by simp [p3, p4]), hfs]

theorem mix_flip (f : FlatField) {k1 k2 : ℕ × ℕ} (h1 : k1 ∈ f.fs.modes) (h2 : k2 ∈ f.fs.modes)
    (hy : f.spin = 0 ∨ (2 * k1.2 ≠ f.fs.ny ∧ 2 * k2.2 ≠ f.fs.ny)) {X X' : ℕ} (hX : X < nmapsOf f.spin) (hX' : X' < nmapsOf f.spin) :
    f.mix (f.fs.flip k1) (f.fs.flip k2) X X' = (-1) ^ (X + X') * f.mix k1 k2 X X' := by
  unfold FlatField.mix
  have e1 : f.fs.kmod (f.fs.flip k1).1 (f.fs.flip k1).2 = f.fs.kmod k1.1 k1.2 := kmod_neg h1
  have e2 : f.fs.kmod (f.fs.flip k2).1 (f.fs.flip k2).2 = f.fs.kmod k2.1 k2.2 := kmod_neg h2
  rw [e1, e2, rotEB_flip f.spin h1 h2 hy hX hX']
  by_cases hp : f.PureComp X
  · rw [if_pos hp, if_pos hp]
    by_cases he : X' = X
    · subst he
      rw [if_pos rfl, ← two_mul, pow_mul]
      simp
    · rw [if_neg he, mul_zero]
  · rw [if_neg hp, if_neg hp]

end NaMaster
