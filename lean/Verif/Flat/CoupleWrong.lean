import Verif.Flat.CoupleProps

/-!
# C72: where `couple_cell` of flat workspaces is wrong

Fields of spin 0 with a mask that is one everywhere and without beams, so that the mean pseudo-spectrum is the mean of the spectrum over
the modes of the band.
-/

namespace NaMaster

open Real Finset MeasureTheory
open scoped ENNReal

/-- A field of spin 0 with full mask and without beam. -/
def fullField (fs : FlatInfo) : FlatField := ⟨fs, 0, fun _ => 1, fun _ => 1, 0, 0⟩

/-! ## Full masks -/

theorem dft_full {fs : FlatInfo} {q : ℕ × ℕ} (hq : q ∈ fs.modes) :
    fs.dft (fun _ => 1) q = if q = (0, 0) then ((fs.nx * fs.ny : ℕ) : ℂ) else 0 := by
  have hq' := mem_modes.1 hq
  have h0 : ((0, 0) : ℕ × ℕ) ∈ fs.modes := mem_modes.2 ⟨by dsimp only; omega, by dsimp only; omega⟩
  have := phase_orth hq h0
  simp only [eq_comm (a := ((0, 0) : ℕ × ℕ))] at this
  rw [← this]
  unfold FlatInfo.dft
  refine sum_congr rfl fun p _ => ?_
  simp [FlatInfo.phase]

theorem maskPower_full {fs : FlatInfo} {q : ℕ × ℕ} (hq : q ∈ fs.modes) :
    maskPower fs (fun _ => 1) (fun _ => 1) q = if q = (0, 0) then (fs.lx * fs.ly / (2 * π)) * (fs.lx * fs.ly / (2 * π)) else 0 := by
  unfold maskPower FlatInfo.map2alm
  rw [dft_full hq]
  by_cases h : q = (0, 0)
  · have hq' := mem_modes.1 hq
    have hx : (fs.nx : ℝ) ≠ 0 := by
      have : 0 < fs.nx := by omega
      positivity
    have hy : (fs.ny : ℝ) ≠ 0 := by
      have : 0 < fs.ny := by omega
      positivity
    rw [if_pos h, if_pos h]
    have : ((fs.nx * fs.ny : ℕ) : ℂ) * (fs.almNorm : ℂ) = ((fs.lx * fs.ly / (2 * π) : ℝ) : ℂ) := by
      rw [← Complex.ofReal_natCast, ← Complex.ofReal_mul]
      congr 1
      unfold FlatInfo.almNorm
      push_cast
      field_simp
    rw [this, Complex.star_def, Complex.conj_ofReal, ← Complex.ofReal_mul, Complex.ofReal_re]
  · rw [if_neg h, if_neg h]
    simp

theorem sub_zero_iff {fs : FlatInfo} {k1 k2 : ℕ × ℕ} (h1 : k1 ∈ fs.modes) (h2 : k2 ∈ fs.modes) : fs.sub k1 k2 = (0, 0) ↔ k1 = k2 := by
  rw [mem_modes] at h1 h2
  obtain ⟨a, b⟩ := k1
  obtain ⟨c, d⟩ := k2
  simp only [FlatInfo.sub, subIdx, Prod.mk.injEq] at *
  split_ifs <;> omega

theorem flip_zero_iff {fs : FlatInfo} {k : ℕ × ℕ} (h : k ∈ fs.modes) : fs.flip k = (0, 0) ↔ k = (0, 0) := by
  have key : ∀ k ∈ fs.modes, k = (0, 0) → fs.flip k = (0, 0) := by
    rintro k - rfl
    simp [FlatInfo.flip, negIdx]
  refine ⟨fun h' => ?_, key k h⟩
  have := key _ (flip_mem h) h'
  rwa [flip_flip h] at this

theorem halfMask_full {fs : FlatInfo} (hl : 0 < fs.lx) {k1 k2 : ℕ × ℕ} (h1 : k1 ∈ fs.modes) (h2 : k2 ∈ fs.modes) :
    halfProd fs.nx (fs.map2alm fun _ => 1) (fs.map2alm fun _ => 1) (fs.sub k1 k2) =
      if k1 = k2 then (fs.lx * fs.ly / (2 * π)) * (fs.lx * fs.ly / (2 * π)) else 0 := by
  have hs := sub_mem h1 h2
  rw [halfProd_mask hl _ _ hs, maskPower_full hs, maskPower_full (flip_mem hs)]
  simp only [flip_zero_iff hs, sub_zero_iff h1 h2, ite_self]

theorem coupTerm_full (fs : FlatInfo) (mp : ℕ × ℕ → ℝ) (k1 k2 : ℕ × ℕ) :
    coupTerm (fullField fs) (fullField fs) 1 mp 0 0 k1 k2 = mp (fs.sub k1 k2) := by
  simp [coupTerm, coupFactor, fullField]

theorem norm_full {fs : FlatInfo} (hx : 0 < fs.lx) (hy : 0 < fs.ly) (n : ℝ) :
    4 * π * π / (fs.lx * fs.lx * fs.ly * fs.ly) / n * ((fs.lx * fs.ly / (2 * π)) * (fs.lx * fs.ly / (2 * π))) = 1 / n := by
  by_cases hn : n = 0
  · simp [hn]
  · field_simp
    ring

theorem mem_bandModes {fs : FlatInfo} {b : FlatBins ℝ} {ib : ℕ} {k : ℕ × ℕ} :
    k ∈ bandModes fs b defaultCuts ib ↔ k ∈ fs.modes ∧ InBand b ib (fs.kmod k.1 k.2) := by
  classical
  unfold bandModes
  rw [Finset.mem_filter]
  exact and_congr_right fun _ => and_iff_right (C41_default fs k.1 k.2)

theorem band_sub {fs : FlatInfo} {b : FlatBins ℝ} {c : EllCuts} {ib : ℕ} {k : ℕ × ℕ} (hk : k ∈ bandModes fs b c ib) : k ∈ fs.modes := by
  classical
  unfold bandModes at hk
  rw [Finset.mem_filter] at hk
  exact hk.1

theorem symmetric_default (fs : FlatInfo) : SymmetricCuts fs defaultCuts := by
  intro iy _
  constructor <;> intro h <;> exfalso <;> have := h.1.trans h.2 <;> simp [defaultCuts] at this <;> linarith

/-- `couple_cell` for full masks. -/
theorem couple_full (fs : FlatInfo) (hx : 0 < fs.lx) (hy : 0 < fs.ly) (b : FlatBins ℝ) (hb : GaplessBands b) (h0 : 0 < b.nBands)
    {ells : List ℝ} {cl : Arr2 ℝ} (hr : cl.rows = 1) (hc : cl.cols = ells.length) (h2 : 2 ≤ ells.length) (hs : ells.Pairwise (· < ·)) :
    ∃ W out, couplingFlat (fullField fs) (fullField fs) b defaultCuts false = .ok W ∧ W.ncls = 1 ∧ W.bin = b ∧
      (∀ ib < b.nBands, ∀ ib' < b.nBands, W.binned 0 ib 0 ib' = 1 / #(bandModes fs b defaultCuts ib) *
        ∑ k1 ∈ bandModes fs b defaultCuts ib, ∑ k2 ∈ bandModesAll fs b ib', if k1 = k2 then 1 else 0) ∧
      coupleCellFlat (some W) ells cl = .ok out ∧ out.rows = 1 ∧ out.cols = b.nBands ∧
      ∀ ib < b.nBands, out.val 0 ib = 1 / #(bandModes fs b defaultCuts ib) *
        ∑ k ∈ bandModes fs b defaultCuts ib, ringAvg fs (propFun ells (cl.val 0)) k := by
  obtain ⟨W, hW, hn, hbin⟩ := couplingFlat_eq (fullField fs) (fullField fs) b hb h0 defaultCuts false rfl (by simp)
  have hn1 : W.ncls = 1 := by rw [hn]; rfl
  have hcn : coupTerm (fullField fs) (fullField fs) W.ncls = coupTerm (fullField fs) (fullField fs) 1 := by rw [hn1]
  obtain ⟨out, hout, hor, hoc, hv⟩ := couple_value (fullField fs) (fullField fs) b hb h0 defaultCuts false hW (hr.trans hn1.symm) hc h2 hs
  refine ⟨W, out, hW, hn1, (couplingFlat_fits hW).2.2.1, ?_, hout, hor.trans hn1, hoc, ?_⟩
  · intro ib hib ib' hib'
    rw [hbin 0 (by rw [hn1]; omega) 0 (by rw [hn1]; omega) ib hib ib' hib', hcn]
    have e : ∀ k1 ∈ bandModes fs b defaultCuts ib, ∀ k2 ∈ bandModesAll fs b ib',
        coupTerm (fullField fs) (fullField fs) 1 (halfProd fs.nx (fs.map2alm fun _ => 1) (fs.map2alm fun _ => 1)) 0 0 k1 k2 =
        (if k1 = k2 then 1 else 0) * ((fs.lx * fs.ly / (2 * π)) * (fs.lx * fs.ly / (2 * π))) := by
      intro k1 h1 k2 h2
      have h2' : k2 ∈ fs.modes := (bandModesAll_flip b ib' k2 h2).1
      rw [coupTerm_full, halfMask_full hx (band_sub h1) h2', ite_mul, one_mul, zero_mul]
    show (∑ k1 ∈ bandModes fs b defaultCuts ib, ∑ k2 ∈ bandModesAll fs b ib',
      coupTerm (fullField fs) (fullField fs) 1 (halfProd fs.nx (fs.map2alm fun _ => 1) (fs.map2alm fun _ => 1)) 0 0 k1 k2) *
        (4 * π * π / (fs.lx * fs.lx * fs.ly * fs.ly) / #(bandModes fs b defaultCuts ib)) = _
    rw [sum_congr rfl fun k1 h1 => sum_congr rfl fun k2 h2 => e k1 h1 k2 h2]
    simp only [← sum_mul]
    rw [← norm_full hx hy]
    ring
  · intro ib hib
    rw [hv 0 (by rw [hn1]; omega) ib hib, hcn, hn1, sum_range_one]
    have e : ∀ k1 ∈ bandModes fs b defaultCuts ib, ∑ k2 ∈ fs.modes,
        coupTerm (fullField fs) (fullField fs) 1 (halfProd fs.nx (fs.map2alm fun _ => 1) (fs.map2alm fun _ => 1)) 0 0 k1 k2 *
          ringAvg fs (propFun ells (cl.val 0)) k2 =
        ((fs.lx * fs.ly / (2 * π)) * (fs.lx * fs.ly / (2 * π))) * ringAvg fs (propFun ells (cl.val 0)) k1 := by
      intro k1 h1
      rw [sum_eq_single k1]
      · rw [coupTerm_full, halfMask_full hx (band_sub h1) (band_sub h1), if_pos rfl]
      · intro k2 h2 hne
        rw [coupTerm_full, halfMask_full hx (band_sub h1) h2, if_neg (Ne.symm hne), zero_mul]
      · intro h; exact absurd (band_sub h1) h
    show 4 * π * π / (fs.lx * fs.lx * fs.ly * fs.ly) / #(bandModes fs b defaultCuts ib) * (∑ k1 ∈ bandModes fs b defaultCuts ib, ∑ k2 ∈ fs.modes,
        coupTerm (fullField fs) (fullField fs) 1 (halfProd fs.nx (fs.map2alm fun _ => 1) (fs.map2alm fun _ => 1)) 0 0 k1 k2 *
          ringAvg fs (propFun ells (cl.val 0)) k2) = _
    rw [sum_congr rfl e, ← mul_sum, ← mul_assoc, norm_full hx hy]

/-- The mean pseudo-spectrum for full masks. -/
theorem mean_full {Ω : Type*} [MeasurableSpace Ω] (μ : Measure Ω) (fs : FlatInfo) (hx : 0 < fs.lx) (hy : 0 < fs.ly) (b : FlatBins ℝ)
    (hb : GaplessBands b) (h0 : 0 < b.nBands) (m : Ω → ℕ → ℕ × ℕ → ℝ) (F : Ω → ℕ → ℕ × ℕ → ℂ) (hm : ∀ ω, SkyHas fs 0 (m ω) (F ω))
    (S : ℕ × ℕ → ℝ) (hC : Homogeneous μ fs 1 1 F F fun _ _ => S) :
    ∃ pcl : Ω → ℕ → ℝ,
      (∀ ω, fsAlm2cl fs b defaultCuts (maskedAlm fs 0 (fun _ => 1) (m ω) 0) (maskedAlm fs 0 (fun _ => 1) (m ω) 0) = .ok (pcl ω)) ∧
      ∀ ib < b.nBands, ∫ ω, pcl ω ib ∂μ = 1 / #(bandModes fs b defaultCuts ib) * ∑ k ∈ bandModes fs b defaultCuts ib, S k := by
  obtain ⟨pcl, h1, h2⟩ := mean_pcl μ (fullField fs) (fullField fs) b hb h0 defaultCuts hx (symmetric_default fs) (Or.inl ⟨rfl, rfl⟩) m m F F
    hm hm _ hC 0 0 (by simp [nmapsOf, fullField]) (by simp [nmapsOf, fullField])
  refine ⟨pcl, h1, fun ib hib => (h2 ib hib).2.trans ?_⟩
  have hn : nmapsOf (fullField fs).spin = 1 := rfl
  rw [hn, sum_range_one, sum_range_one]
  have e : ∀ k1 ∈ bandModes fs b defaultCuts ib, ∑ k2 ∈ fs.modes, maskPower fs (fun _ => 1) (fun _ => 1) (fs.sub k1 k2) *
        (rotEB 0 (modeAngle fs k1 - modeAngle fs k2) 0 0 * rotEB 0 (modeAngle fs k1 - modeAngle fs k2) 0 0) * S k2 =
      ((fs.lx * fs.ly / (2 * π)) * (fs.lx * fs.ly / (2 * π))) * S k1 := by
    intro k1 hk1
    rw [sum_eq_single k1]
    · rw [maskPower_full (sub_mem (band_sub hk1) (band_sub hk1)), if_pos ((sub_zero_iff (band_sub hk1) (band_sub hk1)).2 rfl)]
      simp [rotEB]
    · intro k2 hk2 hne
      rw [maskPower_full (sub_mem (band_sub hk1) hk2), if_neg fun h => hne ((sub_zero_iff (band_sub hk1) hk2).1 h).symm]
      ring
    · intro h; exact absurd (band_sub hk1) h
  show 4 * π * π / (fs.lx * fs.lx * fs.ly * fs.ly) / #(bandModes fs b defaultCuts ib) * (∑ k1 ∈ bandModes fs b defaultCuts ib,
    ∑ k2 ∈ fs.modes, maskPower fs (fun _ => 1) (fun _ => 1) (fs.sub k1 k2) *
        (rotEB 0 (modeAngle fs k1 - modeAngle fs k2) 0 0 * rotEB 0 (modeAngle fs k1 - modeAngle fs k2) 0 0) * S k2) = _
  rw [sum_congr rfl e, ← mul_sum, ← mul_assoc, norm_full hx hy]

/-! ## Skies with a given spectrum -/

/-- The opposite mode. -/
def FlatInfo.opp (fs : FlatInfo) (k : ℕ × ℕ) : ℕ × ℕ := fs.sub (0, 0) k

theorem opp_mem {fs : FlatInfo} {k : ℕ × ℕ} (hk : k ∈ fs.modes) : fs.opp k ∈ fs.modes := by
  have := mem_modes.1 hk
  exact sub_mem (mem_modes.2 ⟨by dsimp only; omega, by dsimp only; omega⟩) hk

theorem opp_opp {fs : FlatInfo} {k : ℕ × ℕ} (hk : k ∈ fs.modes) : fs.opp (fs.opp k) = k := by
  rw [mem_modes] at hk
  obtain ⟨a, b⟩ := k
  simp only [FlatInfo.opp, FlatInfo.sub, subIdx, Prod.mk.injEq] at *
  constructor <;> split_ifs <;> omega

theorem opp_phase {fs : FlatInfo} {k : ℕ × ℕ} (hk : k ∈ fs.modes) (p : ℕ × ℕ) :
    Complex.exp (-(fs.phase (fs.opp k) p) * Complex.I) = Complex.exp (fs.phase k p * Complex.I) := by
  have := exp_sub_phase (k1 := (0, 0)) hk p
  rw [FlatInfo.opp, this]
  simp [FlatInfo.phase]

/-- The modes have the same wave number up to sign, and the same multipole. -/
theorem opp_kmod {fs : FlatInfo} {k : ℕ × ℕ} (hk : k ∈ fs.modes) : fs.kmod (fs.opp k).1 (fs.opp k).2 = fs.kmod k.1 k.2 := by
  have hk' := mem_modes.1 hk
  have h : ∀ {n i : ℕ}, i < n → subIdx n 0 i = negIdx n i := by
    intro n i hi
    unfold subIdx negIdx
    rcases Nat.eq_zero_or_pos i with rfl | h
    · simp
    · rw [if_pos h, Nat.mod_eq_of_lt (by omega)]
      omega
  unfold FlatInfo.opp FlatInfo.sub FlatInfo.kmod FlatInfo.kx FlatInfo.ky
  simp only
  rw [h hk'.1, h hk'.2, waveNum_neg_sq _ hk'.1, waveNum_neg_sq _ hk'.2]

/-- A random pixel. -/
abbrev Pixel (fs : FlatInfo) : Type := {p : ℕ × ℕ // p ∈ fs.modes}

instance (fs : FlatInfo) : MeasurableSpace (Pixel fs) := ⊤

/-- All pixels are equally probable. -/
noncomputable def pixelMeasure (fs : FlatInfo) : Measure (Pixel fs) := ((fs.nx * fs.ny : ℕ) : ℝ≥0∞)⁻¹ • Measure.count

/-- The modes of a profile around the random pixel. -/
noncomputable def pixelModes (fs : FlatInfo) (S : ℕ × ℕ → ℝ) (ω : Pixel fs) (_ : ℕ) (k : ℕ × ℕ) : ℂ :=
  ((√(S k / (fs.lx * fs.ly)) : ℝ) : ℂ) * Complex.exp (-(fs.phase k ω.1) * Complex.I)

/-- The map with these modes. -/
noncomputable def pixelSky (fs : FlatInfo) (S : ℕ × ℕ → ℝ) (ω : Pixel fs) (_ : ℕ) (p : ℕ × ℕ) : ℝ :=
  (∑ k ∈ fs.modes, pixelModes fs S ω 0 k * Complex.exp (fs.phase k p * Complex.I)).re

theorem card_modes (fs : FlatInfo) : #fs.modes = fs.nx * fs.ny := by simp [FlatInfo.modes]

theorem pixel_probability (fs : FlatInfo) (h1 : 0 < fs.nx) (h2 : 0 < fs.ny) : IsProbabilityMeasure (pixelMeasure fs) := by
  constructor
  unfold pixelMeasure
  rw [Measure.smul_apply, Measure.count_univ, smul_eq_mul]
  have : ENat.card (Pixel fs) = ((fs.nx * fs.ny : ℕ) : ℕ∞) := by
    rw [ENat.card_eq_coe_fintype_card, Fintype.card_coe, card_modes]
  rw [this]
  refine ENNReal.inv_mul_cancel ?_ ?_
  · exact_mod_cast (Nat.mul_pos h1 h2).ne'
  · exact ENNReal.natCast_ne_top _

theorem pixel_integral (fs : FlatInfo) (g : ℕ × ℕ → ℂ) :
    ∫ ω, g ω.1 ∂(pixelMeasure fs) = ((fs.nx * fs.ny : ℕ) : ℂ)⁻¹ * ∑ p ∈ fs.modes, g p := by
  unfold pixelMeasure
  rw [integral_smul_measure, integral_fintype (Integrable.of_finite)]
  have : ∑ ω : Pixel fs, (Measure.count : Measure (Pixel fs)).real {ω} • g ω.1 = ∑ p ∈ fs.modes, g p := by
    rw [← Finset.sum_coe_sort fs.modes g]
    refine sum_congr rfl fun ω _ => ?_
    simp [Measure.real]
  rw [this]
  simp

theorem star_exp (x : ℝ) : star (Complex.exp (-x * Complex.I)) = Complex.exp (x * Complex.I) := by
  rw [Complex.star_def, ← Complex.exp_conj]
  simp

theorem pixel_sky (fs : FlatInfo) (S : ℕ × ℕ → ℝ) (hS : ∀ k ∈ fs.modes, S (fs.opp k) = S k) (ω : Pixel fs) :
    SkyHas fs 0 (pixelSky fs S ω) (pixelModes fs S ω) := by
  unfold SkyHas
  rw [if_pos rfl]
  intro p hp
  unfold pixelSky
  refine Complex.conj_eq_iff_re.1 ?_
  rw [← Complex.star_def, star_sum]
  refine Finset.sum_nbij' fs.opp fs.opp (fun k hk => opp_mem hk) (fun k hk => opp_mem hk) (fun k hk => opp_opp hk)
    (fun k hk => opp_opp hk) fun k hk => ?_
  have e1 := opp_phase hk ω.1
  have e2 := opp_phase (opp_mem hk) p
  rw [opp_opp hk] at e2
  have e3 : star (Complex.exp (fs.phase k p * Complex.I)) = Complex.exp (-(fs.phase k p) * Complex.I) := by
    rw [← star_exp, star_star]
  unfold pixelModes
  rw [star_mul', star_mul', star_exp, e3, e1, e2, hS k hk, Complex.star_def, Complex.conj_ofReal]

/-- For every spectrum there is a sky which has it. -/
theorem pixel_homogeneous (fs : FlatInfo) (hx : 0 < fs.lx) (hy : 0 < fs.ly) (h1 : 0 < fs.nx) (h2 : 0 < fs.ny) (S : ℕ × ℕ → ℝ)
    (hS : ∀ k ∈ fs.modes, 0 ≤ S k) : Homogeneous (pixelMeasure fs) fs 1 1 (pixelModes fs S) (pixelModes fs S) fun _ _ => S := by
  have := pixel_probability fs h1 h2
  refine ⟨fun X _ Y _ k _ k' _ => Integrable.of_finite, ?_⟩
  intro X _ Y _ k hk k' hk'
  unfold pixelModes
  have e : ∀ ω : Pixel fs, ((√(S k / (fs.lx * fs.ly)) : ℝ) : ℂ) * Complex.exp (-(fs.phase k ω.1) * Complex.I) *
      star (((√(S k' / (fs.lx * fs.ly)) : ℝ) : ℂ) * Complex.exp (-(fs.phase k' ω.1) * Complex.I)) =
      (fun p => ((√(S k / (fs.lx * fs.ly)) : ℝ) : ℂ) * ((√(S k' / (fs.lx * fs.ly)) : ℝ) : ℂ) *
        (Complex.exp (fs.phase k' p * Complex.I) * Complex.exp (-(fs.phase k p) * Complex.I))) ω.1 := by
    intro ω
    rw [star_mul', star_exp, Complex.star_def, Complex.conj_ofReal]
    ring
  rw [integral_congr_ae (Filter.Eventually.of_forall e), pixel_integral fs fun p => ((√(S k / (fs.lx * fs.ly)) : ℝ) : ℂ) *
    ((√(S k' / (fs.lx * fs.ly)) : ℝ) : ℂ) * (Complex.exp (fs.phase k' p * Complex.I) * Complex.exp (-(fs.phase k p) * Complex.I)),
    ← mul_sum, phase_orth hk hk']
  have hn : ((fs.nx * fs.ny : ℕ) : ℂ) ≠ 0 := by exact_mod_cast (Nat.mul_pos h1 h2).ne'
  by_cases h : k = k'
  · subst h
    have hq : ((√(S k / (fs.lx * fs.ly)) : ℝ) : ℂ) * ((√(S k / (fs.lx * fs.ly)) : ℝ) : ℂ) = ((S k / (fs.lx * fs.ly) : ℝ) : ℂ) := by
      rw [← Complex.ofReal_mul, Real.mul_self_sqrt (div_nonneg (hS k hk) (by positivity))]
    rw [if_pos rfl, if_pos rfl, hq, mul_comm ((S k / (fs.lx * fs.ly) : ℝ) : ℂ), ← mul_assoc, inv_mul_cancel₀ hn, one_mul]
  · rw [if_neg h, if_neg fun h' => h h'.symm]
    simp

/-! ## The outermost ring -/

/-- **C72** is false: for every map there is a band with modes in it for which `couple_cell` predicts zero from the spectrum one, with
full masks and without beams. The mean pseudo-spectrum in that band is one, for every sky with this spectrum; there are such skies. -/
theorem C72_outermost_wrong (fs : FlatInfo) (hnx : 0 < fs.nx) (hny : 0 < fs.ny) (hx : 0 < fs.lx) (hy : 0 < fs.ly) :
    ∃ (b : FlatBins ℝ) (ells : List ℝ) (cl : Arr2 ℝ) (W : WspFlat) (out : Arr2 ℝ), GaplessBands b ∧ b.nBands = 1 ∧
      (∀ k ∈ fs.modes, GuessAt ells (cl.val 0) (fs.kmod k.1 k.2) 1) ∧
      couplingFlat (fullField fs) (fullField fs) b defaultCuts false = .ok W ∧ coupleCellFlat (some W) ells cl = .ok out ∧
      out.val 0 0 = 0 ∧
      (∀ (Ω : Type) [MeasurableSpace Ω] (μ : Measure Ω) (m : Ω → ℕ → ℕ × ℕ → ℝ) (F : Ω → ℕ → ℕ × ℕ → ℂ), (∀ ω, SkyHas fs 0 (m ω) (F ω)) →
        Homogeneous μ fs 1 1 F F (fun _ _ _ => 1) → ∃ pcl : Ω → ℕ → ℝ,
          (∀ ω, fsAlm2cl fs b defaultCuts (maskedAlm fs 0 (fun _ => 1) (m ω) 0) (maskedAlm fs 0 (fun _ => 1) (m ω) 0) = .ok (pcl ω)) ∧
          ∫ ω, pcl ω 0 ∂μ = 1) ∧
      ∃ (Ω : Type) (_ : MeasurableSpace Ω) (μ : Measure Ω) (m : Ω → ℕ → ℕ × ℕ → ℝ) (F : Ω → ℕ → ℕ × ℕ → ℂ), IsProbabilityMeasure μ ∧
        (∀ ω, SkyHas fs 0 (m ω) (F ω)) ∧ Homogeneous μ fs 1 1 F F (fun _ _ _ => 1) := by
  have hk0 : 0 ≤ fs.kmax := by unfold FlatInfo.kmax; positivity
  have hle := nEll_le hx hy
  set b : FlatBins ℝ := ⟨1, fun _ => fs.nEll * fs.dell, fun _ => fs.kmax + 1⟩ with hb
  have hgap : GaplessBands b := by
    refine ⟨⟨fun i _ => by simp only [hb]; linarith, ?_⟩, ?_⟩ <;> intro i hi <;> simp [hb] at hi
  have h0 : 0 < b.nBands := by simp [hb]
  set ells : List ℝ := [0, fs.kmax + 1] with hells
  set cl : Arr2 ℝ := ⟨1, 2, fun _ _ => 1⟩ with hcl
  have hs : ells.Pairwise (· < ·) := by
    simp only [hells, List.pairwise_cons, List.mem_cons, List.not_mem_nil, or_false, forall_eq]
    refine ⟨by linarith, by simp⟩
  obtain ⟨W, out, hW, -, -, -, hout, -, -, hv⟩ := couple_full fs hx hy b hgap h0 (ells := ells) (cl := cl) rfl rfl (by simp [hells]) hs
  have hcard : (#(bandModes fs b defaultCuts 0) : ℝ) ≠ 0 := by
    have : (fs.nx / 2, fs.ny / 2) ∈ bandModes fs b defaultCuts 0 := by
      rw [mem_bandModes]
      refine ⟨corner_mem hnx hny, ?_⟩
      rw [corner_kmax]
      exact ⟨h0, hle, by simp [hb]⟩
    exact_mod_cast (card_pos.2 ⟨_, this⟩).ne'
  refine ⟨b, ells, cl, W, out, hgap, rfl, ?_, hW, hout, ?_, ?_, ?_⟩
  · intro k hk
    have h1 := kmod_le_kmax hx hy hk
    refine ⟨fun _ => rfl, fun h => ?_, fun i _ _ _ => by simp [hcl]⟩
    simp [hells] at h
    linarith
  · rw [hv 0 h0]
    have : ∀ k ∈ bandModes fs b defaultCuts 0, ringAvg fs (propFun ells (cl.val 0)) k = 0 := by
      intro k hk
      rw [mem_bandModes] at hk
      unfold ringAvg
      rw [if_pos ((ring_neg_iff hx hy _ _).2 hk.2.2.1)]
    rw [sum_congr rfl this, sum_const_zero, mul_zero]
  · intro Ω _ μ m F hm hC
    obtain ⟨pcl, h1, h2⟩ := mean_full μ fs hx hy b hgap h0 m F hm (fun _ => 1) hC
    refine ⟨pcl, h1, ?_⟩
    rw [h2 0 h0, sum_const, nsmul_eq_mul, mul_one, one_div, inv_mul_cancel₀ hcard]
  · exact ⟨Pixel fs, inferInstance, pixelMeasure fs, pixelSky fs _, pixelModes fs _, pixel_probability fs hnx hny,
      pixel_sky fs (fun _ => 1) fun _ _ => rfl, pixel_homogeneous fs hx hy hnx hny _ fun _ _ => zero_le_one⟩

/-! ## Rings with several multipoles -/

namespace CoupleExample

/-- A map of 4 × 4 pixels, with integer wave numbers. -/
noncomputable def fs4 : FlatInfo := { nx := 4, ny := 4, lx := 2 * π, ly := 2 * π }

theorem lx_pos : 0 < fs4.lx := by simp only [fs4]; positivity
theorem ly_pos : 0 < fs4.ly := by simp only [fs4]; positivity

/-- The squared wave numbers. -/
def sqNum (i : ℕ) : ℕ := if i = 0 then 0 else if i = 2 then 4 else 1

theorem waveNum4 {i : ℕ} (hi : i < 4) : waveNum 4 (2 * π) i * waveNum 4 (2 * π) i = sqNum i := by
  have hp := Real.pi_ne_zero
  have h2 : 2 * π / (2 * π) = 1 := div_self (by positivity)
  interval_cases i <;> simp [waveNum, sqNum, h2] <;> norm_num [h2]

/-- The squared multipole of a mode. -/
def sqMod (k : ℕ × ℕ) : ℕ := sqNum k.1 + sqNum k.2

theorem kmod4 {k : ℕ × ℕ} (hk : k ∈ fs4.modes) : fs4.kmod k.1 k.2 = √(sqMod k) := by
  have := mem_modes.1 hk
  unfold FlatInfo.kmod FlatInfo.kx FlatInfo.ky
  congr 1
  rw [show fs4.nx = 4 from rfl, show fs4.ny = 4 from rfl, show fs4.lx = 2 * π from rfl, show fs4.ly = 2 * π from rfl,
    waveNum4 this.1, waveNum4 this.2]
  unfold sqMod
  push_cast
  ring

theorem sqMod_cases (k : ℕ × ℕ) : sqMod k = 0 ∨ sqMod k = 1 ∨ sqMod k = 2 ∨ sqMod k = 4 ∨ sqMod k = 5 ∨ sqMod k = 8 := by
  unfold sqMod sqNum
  split_ifs <;> simp

theorem dell4 : fs4.dell = 1 := by
  have h2 : 2 * π / (2 * π) = 1 := div_self (by positivity)
  simp [FlatInfo.dell, fs4, h2]

theorem kmax4 : fs4.kmax = √8 := by
  have h := corner_kmax (fs := fs4)
  rw [← h, kmod4 (k := (fs4.nx / 2, fs4.ny / 2)) (corner_mem (by simp [fs4]) (by simp [fs4]))]
  norm_num [sqMod, sqNum, fs4]

theorem nEll4 : fs4.nEll = 2 := by
  unfold FlatInfo.nEll
  rw [dell4, kmax4, div_one, Nat.floor_eq_iff (by positivity)]
  constructor
  · exact Real.le_sqrt_of_sq_le (by norm_num)
  · rw [Real.sqrt_lt' (by norm_num)]; norm_num

/-- Two bands inside the ring of multipoles from one to two. -/
noncomputable def b4 : FlatBins ℝ := ⟨2, fun i => if i = 0 then 1 / 2 else 6 / 5, fun i => if i = 0 then 6 / 5 else 3 / 2⟩

theorem b4_gapless : GaplessBands b4 := by
  refine ⟨⟨fun i hi => ?_, fun i hi => ?_⟩, fun i hi => ?_⟩
  · have : i = 0 ∨ i = 1 := by simp [b4] at hi; omega
    rcases this with rfl | rfl <;> norm_num [b4]
  · have : i = 0 := by simp [b4] at hi; omega
    subst this; norm_num [b4]
  · have : i = 0 := by simp [b4] at hi; omega
    subst this; norm_num [b4]

theorem inBand4 {k : ℕ × ℕ} (hk : k ∈ fs4.modes) (ib : ℕ) :
    InBand b4 ib (fs4.kmod k.1 k.2) ↔ (ib = 0 ∧ sqMod k = 1) ∨ (ib = 1 ∧ sqMod k = 2) := by
  unfold InBand
  rw [kmod4 hk]
  have hs : √(sqMod k : ℝ) ^ 2 = sqMod k := Real.sq_sqrt (by positivity)
  have hp := Real.sqrt_nonneg (sqMod k : ℝ)
  constructor
  · rintro ⟨h1, h2, h3⟩
    have : ib = 0 ∨ ib = 1 := by simp [b4] at h1; omega
    rcases this with rfl | rfl <;> simp only [b4] at h2 h3 <;> norm_num at h2 h3 <;>
      rcases sqMod_cases k with h | h | h | h | h | h <;> rw [h] at h2 h3 hs hp ⊢ <;> push_cast at h2 h3 hs hp <;>
      first | (norm_num; done) | (exfalso; nlinarith)
  · rintro (⟨rfl, h⟩ | ⟨rfl, h⟩) <;> rw [h]
    · refine ⟨by simp [b4], ?_, ?_⟩ <;> norm_num [b4]
    · refine ⟨by simp [b4], ?_, ?_⟩ <;> simp only [b4, one_ne_zero, if_false, Nat.cast_ofNat]
      · exact Real.le_sqrt_of_sq_le (by norm_num)
      · rw [Real.sqrt_lt' (by norm_num)]; norm_num

theorem ring4 {k : ℕ × ℕ} (hk : k ∈ fs4.modes) : fs4.ring k.1 k.2 = (1 : ℕ) ↔ sqMod k = 1 ∨ sqMod k = 2 := by
  rw [ring_iff lx_pos ly_pos, nEll4, dell4, kmod4 hk]
  have hs : √(sqMod k : ℝ) ^ 2 = sqMod k := Real.sq_sqrt (by positivity)
  have hp := Real.sqrt_nonneg (sqMod k : ℝ)
  constructor
  · rintro ⟨-, h2, h3⟩
    rcases sqMod_cases k with h | h | h | h | h | h <;> rw [h] at h2 h3 hs hp ⊢ <;> push_cast at h2 h3 hs hp <;>
      first | (norm_num; done) | (exfalso; nlinarith)
  · rintro (h | h) <;> rw [h]
    · refine ⟨by norm_num, ?_, ?_⟩ <;> norm_num
    · refine ⟨by norm_num, ?_, ?_⟩
      · rw [Nat.cast_one, one_mul]
        exact Real.le_sqrt_of_sq_le (by norm_num)
      · rw [Real.sqrt_lt' (by norm_num)]; norm_num

/-- The multipoles of the spectrum. -/
noncomputable def ells4 : List ℝ := [1, 7 / 5, 3 / 2]

/-- The spectrum: zero at multipole one, and one at multipole `√2`. -/
def row4 (i : ℕ) : ℝ := if i = 0 then 0 else 1

/-- Its values at the modes of the map. -/
def spec4 (k : ℕ × ℕ) : ℝ := if sqMod k = 2 then 1 else 0

theorem ells4_sorted : ells4.Pairwise (· < ·) := by
  simp only [ells4, List.pairwise_cons, List.mem_cons, List.not_mem_nil, or_false]
  norm_num

theorem guess4 {k : ℕ × ℕ} (hk : k ∈ fs4.modes) : GuessAt ells4 row4 (fs4.kmod k.1 k.2) (spec4 k) := by
  rw [kmod4 hk]
  have hs : √(sqMod k : ℝ) ^ 2 = sqMod k := Real.sq_sqrt (by positivity)
  have hp := Real.sqrt_nonneg (sqMod k : ℝ)
  unfold spec4
  refine ⟨fun h => ?_, fun h => ?_, fun i hi h1 h2 => ?_⟩
  · simp only [ells4, List.getD_cons_zero] at h
    rcases sqMod_cases k with h' | h' | h' | h' | h' | h' <;> rw [h'] at h hs hp ⊢ <;> push_cast at h hs hp <;>
      first | (norm_num [row4]; done) | (exfalso; nlinarith)
  · simp only [ells4, List.length_cons, List.length_nil, List.getD_cons_succ, List.getD_cons_zero] at h
    norm_num at h
    rcases sqMod_cases k with h' | h' | h' | h' | h' | h' <;> rw [h'] at h hs hp ⊢ <;> push_cast at h hs hp <;>
      first | (norm_num; done) | (exfalso; nlinarith)
  · have : i = 0 ∨ i = 1 := by simp [ells4] at hi; omega
    rcases this with rfl | rfl <;> simp only [ells4, List.getD_cons_succ, List.getD_cons_zero] at h1 h2 ⊢ <;>
      rcases sqMod_cases k with h' | h' | h' | h' | h' | h' <;> rw [h'] at h1 h2 hs hp ⊢ <;>
      push_cast at h1 h2 hs hp ⊢ <;> first | (norm_num [row4]; done) | (exfalso; nlinarith)

theorem modes4 : fs4.modes = range 4 ×ˢ range 4 := rfl

theorem bandModes4 {ib : ℕ} (hib : ib < 2) :
    bandModes fs4 b4 defaultCuts ib = {k ∈ range 4 ×ˢ range 4 | sqMod k = ib + 1} := by
  ext k
  rw [mem_bandModes, mem_filter, modes4]
  refine and_congr_right fun hk => ?_
  rw [inBand4 hk]
  omega

theorem bandModesAll4 {ib : ℕ} (hib : ib < 2) :
    bandModesAll fs4 b4 ib = {k ∈ range 4 ×ˢ range 4 | sqMod k = ib + 1} := by
  classical
  ext k
  unfold bandModesAll
  rw [mem_filter, mem_filter, modes4]
  refine and_congr_right fun hk => ?_
  rw [inBand4 hk]
  omega

theorem card4 {ib : ℕ} (hib : ib < 2) : #{k ∈ range 4 ×ˢ range 4 | sqMod k = ib + 1} = 4 := by
  interval_cases ib <;> decide

theorem ringMean4 : ringMean fs4.rings fs4 (propFun ells4 row4) 1 = 1 / 2 := by
  have hset : ({k ∈ fs4.modes | fs4.rings.index (fs4.kmod k.1 k.2) = (1 : ℕ)} : Finset (ℕ × ℕ)) =
      {k ∈ range 4 ×ˢ range 4 | sqMod k = 1 ∨ sqMod k = 2} := by
    ext k
    rw [mem_filter, mem_filter, modes4]
    exact and_congr_right fun hk => ring4 hk
  have hsum : ∑ k ∈ range 4 ×ˢ range 4 with (sqMod k = 1 ∨ sqMod k = 2), propFun ells4 row4 (fs4.kmod k.1 k.2) = 4 := by
    have e : ∀ k ∈ ({k ∈ range 4 ×ˢ range 4 | sqMod k = 1 ∨ sqMod k = 2} : Finset (ℕ × ℕ)),
        propFun ells4 row4 (fs4.kmod k.1 k.2) = spec4 k := fun k hk =>
      propFun_at (by simp [ells4]) ells4_sorted (guess4 (mem_filter.1 hk).1)
    rw [sum_congr rfl e]
    unfold spec4
    rw [Finset.sum_boole, filter_filter]
    have : #{k ∈ range 4 ×ˢ range 4 | (sqMod k = 1 ∨ sqMod k = 2) ∧ sqMod k = 2} = 4 := by decide
    rw [this]
    norm_num
  have hc : #{k ∈ range 4 ×ˢ range 4 | sqMod k = 1 ∨ sqMod k = 2} = 8 := by decide
  unfold ringMean
  simp only [hset, hsum, hc]
  norm_num

/-- Everything computed for this map. -/
theorem couple4 : ∃ W out, couplingFlat (fullField fs4) (fullField fs4) b4 defaultCuts false = .ok W ∧ W.ncls = 1 ∧ W.bin = b4 ∧
    (∀ ib < 2, ∀ ib' < 2, W.binned 0 ib 0 ib' = if ib = ib' then 1 else 0) ∧
    coupleCellFlat (some W) ells4 ⟨1, 3, fun _ => row4⟩ = .ok out ∧ out.rows = 1 ∧ out.cols = 2 ∧ ∀ ib < 2, out.val 0 ib = 1 / 2 := by
  obtain ⟨W, out, hW, hn, hb, hm, hout, hr, hc, hv⟩ := couple_full fs4 lx_pos ly_pos b4 b4_gapless (by simp [b4]) (ells := ells4)
    (cl := ⟨1, 3, fun _ => row4⟩) rfl rfl (by simp [ells4]) ells4_sorted
  refine ⟨W, out, hW, hn, hb, ?_, hout, hr, hc, ?_⟩
  · intro ib hib ib' hib'
    rw [hm ib hib ib' hib', bandModes4 hib, bandModesAll4 hib', card4 hib]
    have : ∑ k1 ∈ range 4 ×ˢ range 4 with sqMod k1 = ib + 1, ∑ k2 ∈ range 4 ×ˢ range 4 with sqMod k2 = ib' + 1,
        (if k1 = k2 then (1 : ℝ) else 0) = if ib = ib' then 4 else 0 := by
      simp only [Finset.sum_ite_eq]
      rw [Finset.sum_boole, filter_congr (q := fun _ => ib = ib') ?_]
      · by_cases h : ib = ib'
        · simp only [h, filter_true, if_true, card4 hib']
          norm_num
        · simp [h]
      · intro k hk
        rw [mem_filter] at hk ⊢
        have := hk.2
        constructor
        · intro h; have := h.2; omega
        · intro h; exact ⟨hk.1, by omega⟩
    rw [this]
    split_ifs <;> norm_num
  · intro ib hib
    rw [hv ib hib, bandModes4 hib, card4 hib]
    have : ∀ k ∈ ({k ∈ range 4 ×ˢ range 4 | sqMod k = ib + 1} : Finset (ℕ × ℕ)), ringAvg fs4 (propFun ells4 row4) k = 1 / 2 := by
      intro k hk
      rw [mem_filter] at hk
      have hr : fs4.ring k.1 k.2 = (1 : ℕ) := (ring4 hk.1).2 (by omega)
      unfold ringAvg
      rw [if_neg (by rw [hr]; decide), hr, Int.toNat_natCast, ringMean4]
    rw [sum_congr rfl this, sum_const, card4 hib]
    norm_num

end CoupleExample

open CoupleExample in
/-- **C72** is false: a spectrum that is zero at the only multipole of the first band, and one at that of the second band. Both lie in one
ring, and `couple_cell` predicts 1/2 for both bands, with full masks and without beams. The means of the pseudo-spectrum of every sky
with this spectrum are zero and one; there are such skies. -/
theorem C72_varying_wrong : ∃ (fs : FlatInfo) (b : FlatBins ℝ) (ells : List ℝ) (cl : Arr2 ℝ) (W : WspFlat) (out : Arr2 ℝ) (S : ℕ × ℕ → ℝ),
    GaplessBands b ∧ b.nBands = 2 ∧ (∀ k ∈ fs.modes, GuessAt ells (cl.val 0) (fs.kmod k.1 k.2) (S k)) ∧
    (∀ k ∈ fs.modes, OutermostRing fs k → S k = 0) ∧
    couplingFlat (fullField fs) (fullField fs) b defaultCuts false = .ok W ∧ coupleCellFlat (some W) ells cl = .ok out ∧
    out.val 0 0 = 1 / 2 ∧ out.val 0 1 = 1 / 2 ∧
    (∀ (Ω : Type) [MeasurableSpace Ω] (μ : Measure Ω) (m : Ω → ℕ → ℕ × ℕ → ℝ) (F : Ω → ℕ → ℕ × ℕ → ℂ), (∀ ω, SkyHas fs 0 (m ω) (F ω)) →
      Homogeneous μ fs 1 1 F F (fun _ _ => S) → ∃ pcl : Ω → ℕ → ℝ,
        (∀ ω, fsAlm2cl fs b defaultCuts (maskedAlm fs 0 (fun _ => 1) (m ω) 0) (maskedAlm fs 0 (fun _ => 1) (m ω) 0) = .ok (pcl ω)) ∧
        ∫ ω, pcl ω 0 ∂μ = 0 ∧ ∫ ω, pcl ω 1 ∂μ = 1) ∧
    ∃ (Ω : Type) (_ : MeasurableSpace Ω) (μ : Measure Ω) (m : Ω → ℕ → ℕ × ℕ → ℝ) (F : Ω → ℕ → ℕ × ℕ → ℂ), IsProbabilityMeasure μ ∧
      (∀ ω, SkyHas fs 0 (m ω) (F ω)) ∧ Homogeneous μ fs 1 1 F F (fun _ _ => S) := by
  obtain ⟨W, out, hW, -, -, -, hout, -, -, hv⟩ := couple4
  refine ⟨fs4, b4, ells4, ⟨1, 3, fun _ => row4⟩, W, out, spec4, b4_gapless, rfl, fun k hk => guess4 hk, ?_, hW, hout, hv 0 (by omega),
    hv 1 (by omega), ?_, ?_⟩
  · intro k hk ho
    rw [outermost_iff lx_pos ly_pos hk] at ho
    unfold spec4
    rw [if_neg fun h => ?_]
    have := (ring4 hk).2 (Or.inr h)
    rw [this] at ho
    exact absurd ho (by decide)
  · intro Ω _ μ m F hm hC
    obtain ⟨pcl, h1, h2⟩ := mean_full μ fs4 lx_pos ly_pos b4 b4_gapless (by simp [b4]) m F hm spec4 hC
    refine ⟨pcl, h1, ?_, ?_⟩
    · rw [h2 0 (by simp [b4]), bandModes4 (by omega)]
      have : ∀ k ∈ ({k ∈ range 4 ×ˢ range 4 | sqMod k = 0 + 1} : Finset (ℕ × ℕ)), spec4 k = 0 := by
        intro k hk
        have := (mem_filter.1 hk).2
        exact if_neg (by omega)
      rw [sum_congr rfl this, sum_const_zero, mul_zero]
    · rw [h2 1 (by simp [b4]), bandModes4 (by omega)]
      have : ∀ k ∈ ({k ∈ range 4 ×ˢ range 4 | sqMod k = 1 + 1} : Finset (ℕ × ℕ)), spec4 k = 1 := by
        intro k hk
        have := (mem_filter.1 hk).2
        exact if_pos (by omega)
      rw [sum_congr rfl this, sum_const, card4 (by omega)]
      norm_num
  · refine ⟨Pixel fs4, inferInstance, pixelMeasure fs4, pixelSky fs4 spec4, pixelModes fs4 spec4,
      pixel_probability fs4 (by simp [fs4]) (by simp [fs4]), pixel_sky fs4 spec4 ?_,
      pixel_homogeneous fs4 lx_pos ly_pos (by simp [fs4]) (by simp [fs4]) _ fun k _ => by unfold spec4; split_ifs <;> norm_num⟩
    intro k hk
    have : (sqMod (fs4.opp k) : ℝ) = sqMod k := by
      have h := opp_kmod hk
      rw [kmod4 hk, kmod4 (opp_mem hk)] at h
      exact (Real.sqrt_inj (by positivity) (by positivity)).1 h
    have : sqMod (fs4.opp k) = sqMod k := by exact_mod_cast this
    unfold spec4
    rw [this]

open CoupleExample in
/-- **C72** is false: bandpowers are not recovered by `decouple_cell` if two bands share a ring. The spectrum has the bandpowers zero and
one and is zero outside of the bands; the matrix is the identity, and the result is 1/2 for both bands. -/
theorem C72_split_ring_wrong (L : LinAlg ℝ) (hL : L.Correct) : ∃ (fs : FlatInfo) (b : FlatBins ℝ) (ells : List ℝ) (cl : Arr2 ℝ) (W : WspFlat)
    (out r : Arr2 ℝ), GaplessBands b ∧ b.nBands = 2 ∧
    (∀ k ∈ fs.modes, (∀ ib, InBand b ib (fs.kmod k.1 k.2) → GuessAt ells (cl.val 0) (fs.kmod k.1 k.2) (if ib = 0 then 0 else 1)) ∧
      ((∀ ib, ¬ InBand b ib (fs.kmod k.1 k.2)) → GuessAt ells (cl.val 0) (fs.kmod k.1 k.2) 0)) ∧
    couplingFlat (fullField fs) (fullField fs) b defaultCuts false = .ok W ∧ Regular (W.ncls * b.nBands) W.gslMatrix ∧
    coupleCellFlat (some W) ells cl = .ok out ∧ decoupleCellFlat L (some W) out none none = .ok r ∧
    r.val 0 0 = 1 / 2 ∧ r.val 0 1 = 1 / 2 := by
  obtain ⟨W, out, hW, hn, hb, hm, hout, hr, hc, hv⟩ := couple4
  have hreg : Regular (W.ncls * b4.nBands) W.gslMatrix := by
    unfold Regular
    have : toMat (W.ncls * b4.nBands) W.gslMatrix = 1 := by
      ext i j
      have h2 : W.ncls * b4.nBands = 2 := by rw [hn]; rfl
      have hi' : (i : ℕ) < 2 := lt_of_lt_of_eq i.2 h2
      have hj' : (j : ℕ) < 2 := lt_of_lt_of_eq j.2 h2
      simp only [toMat, WspFlat.gslMatrix, hn, Nat.mod_one, Nat.div_one]
      rw [hm _ hi' _ hj', Matrix.one_apply]
      simp [Fin.ext_iff]
    rw [this, Matrix.det_one]
    exact isUnit_one
  obtain ⟨r, hr', -, -, hsol⟩ := (C50_decouple L hL W out none none).1 ⟨by rw [hr, hn], by rw [hc, hb]; rfl, by simp, by simp⟩
  rw [hb] at hsol
  have hsol := hsol hreg
  have key : ∀ ib < 2, r.val 0 ib = 1 / 2 := by
    intro ib hib
    have h := hsol 0 (by omega) ib hib
    rw [hn] at h
    simp only [sum_range_one, Option.map_none, Option.getD_none, sub_zero] at h
    rw [hv ib hib, show b4.nBands = 2 from rfl, sum_eq_single_of_mem ib (mem_range.2 hib)] at h
    · rw [← h, hm ib hib ib hib, if_pos rfl, one_mul]
    · intro ib' hib' hne
      rw [hm ib hib ib' (mem_range.1 hib'), if_neg (Ne.symm hne), zero_mul]
  refine ⟨fs4, b4, ells4, ⟨1, 3, fun _ => row4⟩, W, out, r, b4_gapless, rfl, ?_, hW, hreg, hout, hr', key 0 (by omega), key 1 (by omega)⟩
  intro k hk
  have hg := guess4 hk
  constructor
  · intro ib hib
    have : (if ib = 0 then (0 : ℝ) else 1) = spec4 k := by
      unfold spec4
      rcases (inBand4 hk ib).1 hib with ⟨rfl, h⟩ | ⟨rfl, h⟩ <;> rw [h] <;> norm_num
    rw [this]
    exact hg
  · intro h
    have : spec4 k = 0 := by
      unfold spec4
      rw [if_neg fun h' => h 1 ((inBand4 hk 1).2 (Or.inr ⟨rfl, h'⟩))]
    rwa [this] at hg

/-! ## Cases meeting the hypotheses of the theorems -/

namespace CoupleExample

/-- One band that is a whole ring. -/
noncomputable def b5 : FlatBins ℝ := ⟨1, fun _ => 1, fun _ => 2⟩

theorem b5_gapless : GaplessBands b5 := by
  refine ⟨⟨fun i hi => by norm_num [b5], fun i hi => ?_⟩, fun i hi => ?_⟩ <;> simp [b5] at hi

noncomputable def ells5 : List ℝ := [1 / 2, 1, 3 / 2, 2]

/-- A spectrum that is three in the ring. -/
def row5 (i : ℕ) : ℝ := if i = 1 ∨ i = 2 then 3 else 0

def spec5 (k : ℕ × ℕ) : ℝ := if sqMod k = 1 ∨ sqMod k = 2 then 3 else 0

theorem ells5_sorted : ells5.Pairwise (· < ·) := by
  simp only [ells5, List.pairwise_cons, List.mem_cons, List.not_mem_nil, or_false]
  norm_num

theorem guess5 {k : ℕ × ℕ} (hk : k ∈ fs4.modes) : GuessAt ells5 row5 (fs4.kmod k.1 k.2) (spec5 k) := by
  rw [kmod4 hk]
  have hs : √(sqMod k : ℝ) ^ 2 = sqMod k := Real.sq_sqrt (by positivity)
  have hp := Real.sqrt_nonneg (sqMod k : ℝ)
  unfold spec5
  refine ⟨fun h => ?_, fun h => ?_, fun i hi h1 h2 => ?_⟩
  · simp only [ells5, List.getD_cons_zero] at h
    rcases sqMod_cases k with h' | h' | h' | h' | h' | h' <;> rw [h'] at h hs hp ⊢ <;> push_cast at h hs hp <;>
      first | (norm_num [row5]; done) | (exfalso; nlinarith)
  · simp only [ells5, List.length_cons, List.length_nil, List.getD_cons_succ, List.getD_cons_zero] at h
    norm_num at h
    rcases sqMod_cases k with h' | h' | h' | h' | h' | h' <;> rw [h'] at h hs hp ⊢ <;> push_cast at h hs hp <;>
      first | (norm_num; done) | (exfalso; nlinarith)
  · have : i = 0 ∨ i = 1 ∨ i = 2 := by simp [ells5] at hi; omega
    rcases this with rfl | rfl | rfl <;> simp only [ells5, List.getD_cons_succ, List.getD_cons_zero] at h1 h2 ⊢ <;>
      rcases sqMod_cases k with h' | h' | h' | h' | h' | h' <;> rw [h'] at h1 h2 hs hp ⊢ <;>
      push_cast at h1 h2 hs hp ⊢ <;> first | (norm_num [row5]; done) | (exfalso; nlinarith)

theorem inBand5 {k : ℕ × ℕ} (hk : k ∈ fs4.modes) (ib : ℕ) :
    InBand b5 ib (fs4.kmod k.1 k.2) ↔ ib = 0 ∧ (sqMod k = 1 ∨ sqMod k = 2) := by
  rw [← ring4 hk, ring_iff lx_pos ly_pos, nEll4, dell4]
  unfold InBand
  simp only [b5]
  norm_num

theorem ring5 : RingSpectrum fs4 spec5 := by
  have key : ∀ k ∈ fs4.modes, ∀ k' ∈ fs4.modes, ∀ n, InRing fs4 n (fs4.kmod k.1 k.2) → InRing fs4 n (fs4.kmod k'.1 k'.2) →
      fs4.ring k.1 k.2 = (1 : ℕ) → fs4.ring k'.1 k'.2 = (1 : ℕ) := by
    intro k hk k' hk' n h h' h1
    have h2 := (ring_iff lx_pos ly_pos k.1 k.2 1).1 h1
    rw [ring_iff lx_pos ly_pos]
    change (n : ℝ) * fs4.dell ≤ _ ∧ _ < ((n : ℝ) + 1) * fs4.dell at h h'
    rw [dell4] at *
    have h2' := h2.2
    rw [Nat.cast_one] at h2'
    have h3 : (n : ℝ) < 2 := by linarith [h.1, h2'.2]
    have h4 : (1 : ℝ) < n + 1 := by linarith [h.2, h2'.1]
    have h5 : n < 2 := by exact_mod_cast h3
    have h6 : 1 < n + 1 := by exact_mod_cast h4
    obtain rfl : n = 1 := by omega
    exact ⟨h2.1, h'⟩
  constructor
  · intro k hk k' hk' n h h'
    unfold spec5
    have : (sqMod k = 1 ∨ sqMod k = 2) ↔ (sqMod k' = 1 ∨ sqMod k' = 2) := by
      rw [← ring4 hk, ← ring4 hk']
      exact ⟨key k hk k' hk' n h h', key k' hk' k hk n h' h⟩
    simp only [this]
  · intro k hk ho
    rw [outermost_iff lx_pos ly_pos hk] at ho
    unfold spec5
    rw [if_neg fun h => ?_]
    have := (ring4 hk).2 h
    rw [this] at ho
    exact absurd ho (by decide)

theorem opp_sqMod {k : ℕ × ℕ} (hk : k ∈ fs4.modes) : sqMod (fs4.opp k) = sqMod k := by
  have h := opp_kmod hk
  rw [kmod4 hk, kmod4 (opp_mem hk)] at h
  exact_mod_cast (Real.sqrt_inj (by positivity) (by positivity)).1 h

end CoupleExample

open CoupleExample in
/-- Any mask, and a sky with the spectrum three in a ring of the map of 4 × 4 pixels. -/
example (mask : ℕ × ℕ → ℝ) : ∃ W out, couplingFlat ⟨fs4, 0, mask, fun _ => 1, 0, 0⟩ ⟨fs4, 0, mask, fun _ => 1, 0, 0⟩ b4 defaultCuts false = .ok W ∧
    coupleCellFlat (some W) ells5 ⟨1, 4, fun _ => row5⟩ = .ok out ∧ ∃ pcl : Pixel fs4 → ℕ → ℝ,
      (∀ ω, fsAlm2cl fs4 b4 defaultCuts (maskedAlm fs4 0 mask (pixelSky fs4 spec5 ω) 0)
        (maskedAlm fs4 0 mask (pixelSky fs4 spec5 ω) 0) = .ok (pcl ω)) ∧
      ∀ ib < 2, Integrable (fun ω => pcl ω ib) (pixelMeasure fs4) ∧ ∫ ω, pcl ω ib ∂(pixelMeasure fs4) = out.val 0 ib := by
  refine C72_mean_partial (pixelMeasure fs4) ⟨fs4, 0, mask, fun _ => 1, 0, 0⟩ ⟨fs4, 0, mask, fun _ => 1, 0, 0⟩ rfl ⟨rfl, rfl, rfl, rfl⟩ b4
    b4_gapless (by simp [b4]) defaultCuts lx_pos ly_pos (symmetric_default fs4) (Or.inl ⟨rfl, rfl⟩) (pixelSky fs4 spec5) (pixelSky fs4 spec5)
    (pixelModes fs4 spec5) (pixelModes fs4 spec5) (pixel_sky fs4 spec5 ?_) (pixel_sky fs4 spec5 ?_) (fun _ _ => spec5) ?_ ells5
    ⟨1, 4, fun _ => row5⟩ rfl rfl (by simp [ells5]) ells5_sorted (fun _ _ _ _ k hk => guess5 hk) (fun _ _ _ _ => ring5) 0 0
    (by simp [nmapsOf]) (by simp [nmapsOf]) (Or.inl ⟨?_, Or.inl ⟨rfl, rfl⟩⟩)
  · intro k hk; unfold spec5; rw [opp_sqMod hk]
  · intro k hk; unfold spec5; rw [opp_sqMod hk]
  · simp only [one_mul]
    exact pixel_homogeneous fs4 lx_pos ly_pos (by simp [fs4]) (by simp [fs4]) _ fun k _ => by unfold spec5; split_ifs <;> norm_num
  · intro X' hX' Y' hY' k _ ho
    simp only [nmapsOf, if_true] at hX' hY'
    obtain rfl : X' = 0 := by omega
    obtain rfl : Y' = 0 := by omega
    exact absurd ho (by decide)

open CoupleExample in
/-- Bandpowers of a band that is a whole ring. -/
example (L : LinAlg ℝ) (hL : L.Correct) : ∃ W out r, couplingFlat (fullField fs4) (fullField fs4) b5 defaultCuts false = .ok W ∧
    coupleCellFlat (some W) ells5 ⟨1, 4, fun _ => row5⟩ = .ok out ∧ decoupleCellFlat L (some W) out none none = .ok r ∧ r.val 0 0 = 3 := by
  obtain ⟨W, -, hW, hn, hb, hm, -⟩ := couple_full fs4 lx_pos ly_pos b5 b5_gapless (by simp [b5]) (ells := ells5)
    (cl := ⟨1, 4, fun _ => row5⟩) rfl rfl (by simp [ells5]) ells5_sorted
  have hB : bandModes fs4 b5 defaultCuts 0 = {k ∈ range 4 ×ˢ range 4 | sqMod k = 1 ∨ sqMod k = 2} := by
    ext k
    rw [mem_bandModes, mem_filter, modes4]
    refine and_congr_right fun hk => ?_
    rw [inBand5 hk]
    simp
  have hBA : bandModesAll fs4 b5 0 = {k ∈ range 4 ×ˢ range 4 | sqMod k = 1 ∨ sqMod k = 2} := by
    classical
    ext k
    unfold bandModesAll
    rw [mem_filter, mem_filter, modes4]
    refine and_congr_right fun hk => ?_
    rw [inBand5 hk]
    simp
  have h1 : W.binned 0 0 0 0 = 1 := by
    rw [hm 0 (by simp [b5]) 0 (by simp [b5]), hB, hBA]
    have hc : #{k ∈ range 4 ×ˢ range 4 | sqMod k = 1 ∨ sqMod k = 2} = 8 := by decide
    rw [sum_congr rfl fun k hk => by rw [Finset.sum_ite_eq, if_pos hk], sum_const, hc]
    norm_num
  have hreg : Regular (W.ncls * b5.nBands) W.gslMatrix := by
    unfold Regular
    have : toMat (W.ncls * b5.nBands) W.gslMatrix = 1 := by
      ext i j
      have h2 : W.ncls * b5.nBands = 1 := by rw [hn]; rfl
      have hi' : (i : ℕ) < 1 := lt_of_lt_of_eq i.2 h2
      have hj' : (j : ℕ) < 1 := lt_of_lt_of_eq j.2 h2
      have hi0 : (i : ℕ) = 0 := by omega
      have hj0 : (j : ℕ) = 0 := by omega
      simp only [toMat, WspFlat.gslMatrix, hi0, hj0, Nat.zero_mod, Nat.zero_div]
      rw [h1, Matrix.one_apply, if_pos (Fin.ext (hi0.trans hj0.symm))]
    rw [this, Matrix.det_one]
    exact isUnit_one
  have hd := dell4
  unfold FlatInfo.dell at hd
  obtain ⟨out, r, h2, h3, h4⟩ := C72_roundtrip_partial L hL (fullField fs4) (fullField fs4) b5 b5_gapless (by simp [b5]) defaultCuts
    lx_pos ly_pos false (fun ib _ => ⟨1, 2, by
      show _ = _ * min (2 * π / fs4.lx) (2 * π / fs4.ly)
      rw [hd]; norm_num [b5], by
      show _ = _ * min (2 * π / fs4.lx) (2 * π / fs4.ly)
      rw [hd]; norm_num [b5]⟩) (by
      intro k hk ho ib hib
      have h5 := (outermost_iff (fs := fs4) lx_pos ly_pos hk).1 ho
      have h6 := (ring4 hk).2 ((inBand5 hk ib).1 hib).2
      rw [h6] at h5
      exact absurd h5 (by decide)) hW hreg ells5 ⟨1, 4, fun _ => row5⟩ hn.symm rfl (by simp [ells5]) ells5_sorted (fun _ _ => 3) (by
      intro j _ k hk
      have hg := guess5 hk
      unfold spec5 at hg
      refine ⟨fun ib hib => ?_, fun h => ?_⟩
      · rwa [if_pos ((inBand5 hk ib).1 hib).2] at hg
      · rwa [if_neg fun h' => h 0 ((inBand5 hk 0).2 ⟨rfl, h'⟩)] at hg)
  exact ⟨W, out, r, hW, h2, h3, h4 0 (by omega) 0 (by simp [b5])⟩

end NaMaster
