import Verif.Flat.CoupleLemmas

/-!
# C72: what `couple_cell` of flat workspaces predicts

The method promises to predict the mean pseudo-spectrum of a sky with given spectra. The spectra are averaged over rings of multipoles
whose width is the smaller of the two spacings of the wave numbers, and the outermost ring is left out.
-/

namespace NaMaster

open Real Finset MeasureTheory

/-! ## Specification -/

/-- The multipole `l` lies in ring `n`. -/
def InRing (fs : FlatInfo) (n : ℕ) (l : ℝ) : Prop :=
  n * min (2 * π / fs.lx) (2 * π / fs.ly) ≤ l ∧ l < ((n : ℝ) + 1) * min (2 * π / fs.lx) (2 * π / fs.ly)

/-- The mode lies in the outermost ring of the map. -/
def OutermostRing (fs : FlatInfo) (k : ℕ × ℕ) : Prop :=
  ∃ n : ℕ, InRing fs n (fs.kmod k.1 k.2) ∧ ∀ k' ∈ fs.modes, fs.kmod k'.1 k'.2 < ((n : ℝ) + 1) * min (2 * π / fs.lx) (2 * π / fs.ly)

/-- A spectrum that is constant in each ring and zero in the outermost ring. -/
structure RingSpectrum (fs : FlatInfo) (S : ℕ × ℕ → ℝ) : Prop where
  const : ∀ k ∈ fs.modes, ∀ k' ∈ fs.modes, ∀ n, InRing fs n (fs.kmod k.1 k.2) → InRing fs n (fs.kmod k'.1 k'.2) → S k = S k'
  outer : ∀ k ∈ fs.modes, OutermostRing fs k → S k = 0

/-! ## Lemmas -/

theorem outermost_iff {fs : FlatInfo} (hx : 0 < fs.lx) (hy : 0 < fs.ly) {k : ℕ × ℕ} (hk : k ∈ fs.modes) :
    OutermostRing fs k ↔ fs.ring k.1 k.2 = -1 := by
  have hd := dell_pos hx hy
  have hk' := mem_modes.1 hk
  rw [ring_neg_iff hx hy]
  constructor
  · rintro ⟨n, ⟨h1, -⟩, h2⟩
    have h3 := h2 _ (corner_mem (fs := fs) (by omega) (by omega))
    simp only [corner_kmax] at h3
    have h4 : fs.nEll ≤ n := by
      by_contra h
      push Not at h
      exact absurd ((lt_nEll hx hy n).1 h) (not_le.2 h3)
    have h5 : (fs.nEll : ℝ) ≤ n := by exact_mod_cast h4
    exact le_trans (mul_le_mul_of_nonneg_right h5 hd.le) h1
  · intro h
    have h1 : fs.kmax < ((fs.nEll : ℝ) + 1) * fs.dell := by
      by_contra h'
      push Not at h'
      exact lt_irrefl _ ((lt_nEll hx hy fs.nEll).2 h')
    exact ⟨fs.nEll, ⟨h, lt_of_le_of_lt (kmod_le_kmax hx hy hk) h1⟩, fun k' hk' => lt_of_le_of_lt (kmod_le_kmax hx hy hk') h1⟩

theorem inRing_of_ring {fs : FlatInfo} (hx : 0 < fs.lx) (hy : 0 < fs.ly) {ix iy n : ℕ} (h : fs.ring ix iy = n) :
    InRing fs n (fs.kmod ix iy) := ((ring_iff hx hy ix iy n).1 h).2

/-- Averages over rings do not change a spectrum that is constant in rings and zero in the outermost one. -/
theorem ringAvg_ringSpectrum {fs : FlatInfo} (hx : 0 < fs.lx) (hy : 0 < fs.ly) {S : ℕ × ℕ → ℝ} (hS : RingSpectrum fs S) {g : ℝ → ℝ}
    (hg : ∀ k ∈ fs.modes, g (fs.kmod k.1 k.2) = S k) {k : ℕ × ℕ} (hk : k ∈ fs.modes) : ringAvg fs g k = S k := by
  by_cases h : fs.ring k.1 k.2 = -1
  · rw [hS.outer k hk ((outermost_iff hx hy hk).2 h)]
    unfold ringAvg
    rw [if_pos h]
  · obtain ⟨n, -, hn⟩ := (ring_cases fs k.1 k.2).resolve_left h
    refine ringAvg_eq hk h fun k' hk' hk'' => ?_
    rw [hg k' hk']
    exact hS.const k' hk' k hk n (inRing_of_ring hx hy (hk''.trans hn)) (inRing_of_ring hx hy hn)

/-- The mean of the pseudo-spectrum, mode by mode. -/
theorem mean_pcl {Ω : Type*} [MeasurableSpace Ω] (μ : Measure Ω) (f1 f2 : FlatField) (b : FlatBins ℝ)
    (hb : GaplessBands b) (h0 : 0 < b.nBands) (c : EllCuts) (hl : 0 < f1.fs.lx) (hc : SymmetricCuts f1.fs c)
    (hN : (f1.spin = 0 ∧ f2.spin = 0) ∨ NoNyquist f1.fs b) (m1 m2 : Ω → ℕ → ℕ × ℕ → ℝ) (F1 F2 : Ω → ℕ → ℕ × ℕ → ℂ)
    (h1 : ∀ ω, SkyHas f1.fs f1.spin (m1 ω) (F1 ω)) (h2 : ∀ ω, SkyHas f1.fs f2.spin (m2 ω) (F2 ω))
    (C : ℕ → ℕ → ℕ × ℕ → ℝ) (hC : Homogeneous μ f1.fs (nmapsOf f1.spin) (nmapsOf f2.spin) F1 F2 C) (X Y : ℕ)
    (hX : X < nmapsOf f1.spin) (hY : Y < nmapsOf f2.spin) :
    ∃ pcl : Ω → ℕ → ℝ,
      (∀ ω, fsAlm2cl f1.fs b c (maskedAlm f1.fs f1.spin f1.mask (m1 ω) X)
        (maskedAlm f1.fs f2.spin f2.mask (m2 ω) Y) = .ok (pcl ω)) ∧
      ∀ ib < b.nBands, Integrable (fun ω => pcl ω ib) μ ∧ ∫ ω, pcl ω ib ∂μ =
        4 * π * π / (f1.fs.lx * f1.fs.lx * f1.fs.ly * f1.fs.ly) / #(bandModes f1.fs b c ib) *
          ∑ X' ∈ range (nmapsOf f1.spin), ∑ Y' ∈ range (nmapsOf f2.spin), ∑ k1 ∈ bandModes f1.fs b c ib, ∑ k2 ∈ f1.fs.modes,
            maskPower f1.fs f1.mask f2.mask (f1.fs.sub k1 k2) *
              (rotEB f1.spin (modeAngle f1.fs k1 - modeAngle f1.fs k2) X X' *
                rotEB f2.spin (modeAngle f1.fs k1 - modeAngle f1.fs k2) Y Y') * C X' Y' k2 := by
  refine ⟨fun ω => _, fun ω => fsAlm2cl_eq f1.fs b hb h0 c _ _, ?_⟩
  intro ib hib
  simp only [tab_of_lt _ hib]
  set B := bandModes f1.fs b c ib with hB
  have hmp := fun k1 => mean_power μ f1.fs f1.spin f2.spin f1.mask f2.mask m1 m2 F1 F2 C h1 h2 hC hX hY k1
  have hsum : ∀ ω, ∑ k ∈ B, halfProd f1.fs.nx (maskedAlm f1.fs f1.spin f1.mask (m1 ω) X)
      (maskedAlm f1.fs f2.spin f2.mask (m2 ω) Y) k =
      ∑ k ∈ B, (maskedAlm f1.fs f1.spin f1.mask (m1 ω) X k * star (maskedAlm f1.fs f2.spin f2.mask (m2 ω) Y k)).re := by
    intro ω
    rw [← sum_reflect (fs := f1.fs) B (bandModes_flip b c hc ib) (fun k =>
      (maskedAlm f1.fs f1.spin f1.mask (m1 ω) X k * star (maskedAlm f1.fs f2.spin f2.mask (m2 ω) Y k)).re)]
    refine Finset.sum_congr rfl fun k hk => ?_
    exact halfProd_masked hl _ _ _ _ _ _ X Y (bandModes_flip b c hc ib k hk).1
      (hN.imp id fun h => bandModes_nyquist h hk)
  simp only [hsum]
  refine ⟨(integrable_finsetSum _ fun k _ => (hmp k).1).mul_const _, ?_⟩
  rw [integral_mul_const, integral_finsetSum _ fun k _ => (hmp k).1]
  simp only [(hmp _).2]
  have e1 : 4 * π * π / (f1.fs.lx * f1.fs.lx * f1.fs.ly * f1.fs.ly) / (#B : ℝ) =
      4 * π * π / (f1.fs.lx * f1.fs.ly) / #B / (f1.fs.lx * f1.fs.ly) := by
    simp only [div_eq_mul_inv, mul_inv]
    ring
  have e2 : ∑ X' ∈ range (nmapsOf f1.spin), ∑ Y' ∈ range (nmapsOf f2.spin), ∑ k1 ∈ B, ∑ k2 ∈ f1.fs.modes,
            maskPower f1.fs f1.mask f2.mask (f1.fs.sub k1 k2) *
              (rotEB f1.spin (modeAngle f1.fs k1 - modeAngle f1.fs k2) X X' *
                rotEB f2.spin (modeAngle f1.fs k1 - modeAngle f1.fs k2) Y Y') * C X' Y' k2 =
      ∑ k1 ∈ B, ∑ k2 ∈ f1.fs.modes, ∑ X' ∈ range (nmapsOf f1.spin), ∑ Y' ∈ range (nmapsOf f2.spin),
            maskPower f1.fs f1.mask f2.mask (f1.fs.sub k1 k2) *
              (rotEB f1.spin (modeAngle f1.fs k1 - modeAngle f1.fs k2) X X' *
                rotEB f2.spin (modeAngle f1.fs k1 - modeAngle f1.fs k2) Y Y') * C X' Y' k2 := by
    rw [sum_congr rfl fun X' _ => sum_comm (s := range (nmapsOf f2.spin)) (t := B), sum_comm]
    refine sum_congr rfl fun k1 _ => ?_
    rw [sum_congr rfl fun X' _ => sum_comm (s := range (nmapsOf f2.spin)) (t := f1.fs.modes), sum_comm]
  have e3 : ∀ a s l : ℝ, a / l * s = s / l * a := fun a s l => by ring
  rw [e1, e2, e3, sum_div]
  congr 1
  refine sum_congr rfl fun k1 _ => ?_
  rw [sum_div]
  refine sum_congr rfl fun k2 _ => ?_
  rw [sum_div]
  refine sum_congr rfl fun X' _ => ?_
  rw [sum_div]
  refine sum_congr rfl fun Y' _ => ?_
  ring

theorem sum_spectra (n1 n2 : ℕ) (g : ℕ → ℝ) :
    ∑ j ∈ range (n1 * n2), g j = ∑ X ∈ range n1, ∑ Y ∈ range n2, g (n2 * X + Y) := by
  rw [mul_comm, sum_flat]

/-- The half of the modes stored in C does not matter for sums over a band and all modes, with a spectrum `S` of either parity. -/
theorem halfMask_sum (f1 f2 : FlatField) (b : FlatBins ℝ) (c : EllCuts) (hl : 0 < f1.fs.lx)
    (hc : SymmetricCuts f1.fs c) (hN : (f1.spin = 0 ∧ f2.spin = 0) ∨ NoNyquist f1.fs b) {X Y X' Y' : ℕ} (hX : X < nmapsOf f1.spin)
    (hY : Y < nmapsOf f2.spin) (hX' : X' < nmapsOf f1.spin) (hY' : Y' < nmapsOf f2.spin) (S : ℕ × ℕ → ℝ)
    (hflip : ∀ k ∈ f1.fs.modes, S (f1.fs.flip k) = S k)
    (hpar : ((Odd (X + Y + X' + Y') → ∀ k ∈ f1.fs.modes, S k = 0) ∧
      ((f1.spin = 0 ∧ f2.spin = 0) ∨ ∀ k ∈ f1.fs.modes, 2 * k.2 = f1.fs.ny → S k = 0)) ∨ ReflectionSymmetric f1 f2) (ib : ℕ) :
    ∑ k1 ∈ bandModes f1.fs b c ib, ∑ k2 ∈ f1.fs.modes,
      f1.beam (f1.fs.kmod k2.1 k2.2) * f2.beam (f1.fs.kmod k2.1 k2.2) *
        (rotEB f1.spin (modeAngle f1.fs k1 - modeAngle f1.fs k2) X X' *
          rotEB f2.spin (modeAngle f1.fs k1 - modeAngle f1.fs k2) Y Y') *
        halfProd f1.fs.nx (f1.fs.map2alm f1.mask) (f1.fs.map2alm f2.mask) (f1.fs.sub k1 k2) * S k2 =
    ∑ k1 ∈ bandModes f1.fs b c ib, ∑ k2 ∈ f1.fs.modes, maskPower f1.fs f1.mask f2.mask (f1.fs.sub k1 k2) *
        (rotEB f1.spin (modeAngle f1.fs k1 - modeAngle f1.fs k2) X X' *
          rotEB f2.spin (modeAngle f1.fs k1 - modeAngle f1.fs k2) Y Y') *
        (f1.beam (f1.fs.kmod k2.1 k2.2) * f2.beam (f1.fs.kmod k2.1 k2.2) * S k2) := by
  have hB1 := bandModes_flip b c hc ib
  rcases hpar with ⟨hodd, hny⟩ | hs
  · by_cases hev : Even (X + Y + X' + Y')
    · have hrefl := sum_reflect_pair (fs := f1.fs) _ f1.fs.modes hB1 (fun k hk => ⟨hk, flip_mem hk⟩)
        (maskPower f1.fs f1.mask f2.mask) (fun k1 k2 =>
        f1.beam (f1.fs.kmod k2.1 k2.2) * f2.beam (f1.fs.kmod k2.1 k2.2) *
          (rotEB f1.spin (modeAngle f1.fs k1 - modeAngle f1.fs k2) X X' *
            rotEB f2.spin (modeAngle f1.fs k1 - modeAngle f1.fs k2) Y Y') * S k2) (by
        intro k1 hk1 k2 hk2
        have hm : f1.fs.kmod (f1.fs.flip k2).1 (f1.fs.flip k2).2 = f1.fs.kmod k2.1 k2.2 := kmod_neg hk2
        rw [hflip k2 hk2]
        by_cases h0 : S k2 = 0
        · rw [h0, mul_zero, mul_zero]
        have hy : (f1.spin = 0 ∧ f2.spin = 0) ∨ (2 * k1.2 ≠ f1.fs.ny ∧ 2 * k2.2 ≠ f1.fs.ny) := by
          rcases hN with h | h
          · exact Or.inl h
          · exact hny.imp id fun h' => ⟨bandModes_nyquist h hk1, fun h'' => h0 (h' k2 hk2 h'')⟩
        rw [hm, rotEB_flip _ (hB1 k1 hk1).1 hk2 (hy.imp (·.1) id) hX hX',
          rotEB_flip _ (hB1 k1 hk1).1 hk2 (hy.imp (·.2) id) hY hY']
        have hs : ((-1 : ℝ)) ^ (X + X') * (-1) ^ (Y + Y') = 1 := by
          rw [← pow_add]
          exact Even.neg_one_pow (by rwa [show X + X' + (Y + Y') = X + Y + X' + Y' by ring])
        linear_combination (f1.beam (f1.fs.kmod k2.1 k2.2) * f2.beam (f1.fs.kmod k2.1 k2.2) *
          (rotEB f1.spin (modeAngle f1.fs k1 - modeAngle f1.fs k2) X X' *
            rotEB f2.spin (modeAngle f1.fs k1 - modeAngle f1.fs k2) Y Y') * S k2) * hs)
      calc _ = _ := by
            refine Finset.sum_congr rfl fun k1 hk1 => Finset.sum_congr rfl fun k2 hk2 => ?_
            rw [halfProd_mask hl _ _ (sub_mem (hB1 k1 hk1).1 hk2), mul_right_comm]
        _ = _ := hrefl
        _ = _ := Finset.sum_congr rfl fun k1 _ => Finset.sum_congr rfl fun k2 _ => by ring
    · refine Finset.sum_congr rfl fun k1 hk1 => Finset.sum_congr rfl fun k2 hk2 => ?_
      rw [hodd (Nat.not_even_iff_odd.1 hev) k2 hk2]
      ring
  · refine Finset.sum_congr rfl fun k1 hk1 => Finset.sum_congr rfl fun k2 hk2 => ?_
    have h := sub_mem (hB1 k1 hk1).1 hk2
    rw [halfProd_mask hl _ _ h, hs _ h, ite_self]
    ring

/-! ## C72 -/

/-- **C72**, in part: `couple_cell` gives the mean pseudo-spectrum of a sky with the given spectra (interpolated between the multipoles)
and the beams of the fields, if the spectra are constant in each ring and zero in the outermost one. Missing: spectra that vary inside
rings (`C72_varying_wrong`) or do not vanish in the outermost ring (`C72_outermost_wrong`), and the cases missing in
`C58_master_partial`. -/
theorem C72_mean_partial {Ω : Type*} [MeasurableSpace Ω] (μ : Measure Ω) (f1 f2 : FlatField) (hfs : f1.fs = f2.fs)
    (hp : NotPurified f1 f2) (b : FlatBins ℝ) (hb : GaplessBands b) (h0 : 0 < b.nBands) (c : EllCuts) (hlx : 0 < f1.fs.lx)
    (hly : 0 < f1.fs.ly) (hc : SymmetricCuts f1.fs c) (hN : (f1.spin = 0 ∧ f2.spin = 0) ∨ NoNyquist f1.fs b)
    (m1 m2 : Ω → ℕ → ℕ × ℕ → ℝ) (F1 F2 : Ω → ℕ → ℕ × ℕ → ℂ)
    (h1 : ∀ ω, SkyHas f1.fs f1.spin (m1 ω) (F1 ω)) (h2 : ∀ ω, SkyHas f1.fs f2.spin (m2 ω) (F2 ω))
    (S : ℕ → ℕ → ℕ × ℕ → ℝ)
    (hC : Homogeneous μ f1.fs (nmapsOf f1.spin) (nmapsOf f2.spin) F1 F2 fun X Y k =>
      f1.beam (f1.fs.kmod k.1 k.2) * f2.beam (f1.fs.kmod k.1 k.2) * S X Y k)
    (ells : List ℝ) (cl : Arr2 ℝ) (hr : cl.rows = nmapsOf f1.spin * nmapsOf f2.spin) (hcl : cl.cols = ells.length)
    (he : 2 ≤ ells.length) (hes : ells.Pairwise (· < ·))
    (hS : ∀ X < nmapsOf f1.spin, ∀ Y < nmapsOf f2.spin, ∀ k ∈ f1.fs.modes,
      GuessAt ells (cl.val (nmapsOf f2.spin * X + Y)) (f1.fs.kmod k.1 k.2) (S X Y k))
    (hring : ∀ X < nmapsOf f1.spin, ∀ Y < nmapsOf f2.spin, RingSpectrum f1.fs (S X Y))
    (X Y : ℕ) (hX : X < nmapsOf f1.spin) (hY : Y < nmapsOf f2.spin)
    (hpar : ((∀ X' < nmapsOf f1.spin, ∀ Y' < nmapsOf f2.spin, ∀ k ∈ f1.fs.modes, Odd (X + Y + X' + Y') → S X' Y' k = 0) ∧
      ((f1.spin = 0 ∧ f2.spin = 0) ∨ ∀ X' < nmapsOf f1.spin, ∀ Y' < nmapsOf f2.spin, ∀ k ∈ f1.fs.modes, 2 * k.2 = f1.fs.ny →
        S X' Y' k = 0)) ∨ ReflectionSymmetric f1 f2) :
    ∃ W out, couplingFlat f1 f2 b c false = .ok W ∧ coupleCellFlat (some W) ells cl = .ok out ∧ ∃ pcl : Ω → ℕ → ℝ,
      (∀ ω, fsAlm2cl f1.fs b c (maskedAlm f1.fs f1.spin f1.mask (m1 ω) X)
        (maskedAlm f1.fs f2.spin f2.mask (m2 ω) Y) = .ok (pcl ω)) ∧
      ∀ ib < b.nBands, Integrable (fun ω => pcl ω ib) μ ∧ ∫ ω, pcl ω ib ∂μ = out.val (nmapsOf f2.spin * X + Y) ib := by
  obtain ⟨W, hW, -⟩ := couplingFlat_eq f1 f2 b hb h0 c false hfs (by simp)
  obtain ⟨-, -, -, hn⟩ := couplingFlat_fits hW
  obtain ⟨out, hout, -, -, hv⟩ := couple_value f1 f2 b hb h0 c false hW (hr.trans hn.symm) hcl he hes
  obtain ⟨pcl, hpcl, hE⟩ := mean_pcl μ f1 f2 b hb h0 c hlx hc hN m1 m2 F1 F2 h1 h2 _ hC X Y hX hY
  refine ⟨W, out, hW, hout, pcl, hpcl, fun ib hib => ⟨(hE ib hib).1, ?_⟩⟩
  rw [(hE ib hib).2, hv _ (by rw [hn]; exact idx_lt hX hY) ib hib, hn, sum_spectra]
  congr 1
  refine sum_congr rfl fun X' hX' => sum_congr rfl fun Y' hY' => ?_
  rw [mem_range] at hX' hY'
  have hprop : ∀ k ∈ f1.fs.modes, propFun ells (cl.val (nmapsOf f2.spin * X' + Y')) (f1.fs.kmod k.1 k.2) = S X' Y' k :=
    fun k hk => propFun_at he hes (hS X' hX' Y' hY' k hk)
  have hflip : ∀ k ∈ f1.fs.modes, S X' Y' (f1.fs.flip k) = S X' Y' k := by
    intro k hk
    have hm : f1.fs.kmod (f1.fs.flip k).1 (f1.fs.flip k).2 = f1.fs.kmod k.1 k.2 := kmod_neg hk
    rw [← hprop k hk, ← hprop _ (flip_mem hk), hm]
  have := halfMask_sum f1 f2 b c hlx hc hN hX hY hX' hY' (S X' Y') hflip
    (hpar.imp (fun h => ⟨fun ho k hk => h.1 X' hX' Y' hY' k hk ho, h.2.imp id fun h' k hk => h' X' hX' Y' hY' k hk⟩) id) ib
  rw [← this]
  refine sum_congr rfl fun k1 _ => sum_congr rfl fun k2 hk2 => ?_
  rw [coupTerm_rot f1 f2 hp _ X Y X' Y' hX hY hX' hY',
    ringAvg_ringSpectrum hlx hly (hring X' hX' Y' hY') hprop hk2]

/-- `couple_cell` accepts exactly the spectra whose number is that of the workspace and which are given at all multipoles. -/
theorem C72_shape (w : WspFlat) (ells : List ℝ) (he : 2 ≤ ells.length) (hes : ells.Pairwise (· < ·)) (cl : Arr2 ℝ) :
    (cl.rows = w.ncls ∧ cl.cols = ells.length → ∃ out, coupleCellFlat (some w) ells cl = .ok out ∧ out.rows = w.ncls ∧
      out.cols = w.bin.nBands) ∧
    (¬ (cl.rows = w.ncls ∧ cl.cols = ells.length) → coupleCellFlat (some w) ells cl = .raises .value) ∧
    coupleCellFlat none ells cl = .raises .attribute := by
  refine ⟨?_, ?_, rfl⟩
  · rintro ⟨h1, h2⟩
    unfold coupleCellFlat
    simp only
    rw [if_neg (by simp [h1, h2]), if_neg (by simp [he, hes])]
    exact ⟨_, rfl, rfl, rfl⟩
  · intro h
    unfold coupleCellFlat
    simp only
    rw [if_pos (by tauto)]

/-- **C72**, in part: `decouple_cell` recovers the bandpowers from which `couple_cell` started, if the bands consist of whole rings and
do not contain modes of the outermost one. Missing: other bands (`C72_split_ring_wrong`). -/
theorem C72_roundtrip_partial (L : LinAlg ℝ) (hL : L.Correct) (f1 f2 : FlatField) (b : FlatBins ℝ) (hb : GaplessBands b)
    (h0 : 0 < b.nBands) (c : EllCuts) (hlx : 0 < f1.fs.lx) (hly : 0 < f1.fs.ly) (isTeb : Bool)
    (hedge : ∀ ib < b.nBands, ∃ m n : ℕ, b.ell0 ib = m * min (2 * π / f1.fs.lx) (2 * π / f1.fs.ly) ∧
      b.ellf ib = n * min (2 * π / f1.fs.lx) (2 * π / f1.fs.ly))
    (hout : ∀ k ∈ f1.fs.modes, OutermostRing f1.fs k → ∀ ib, ¬ InBand b ib (f1.fs.kmod k.1 k.2))
    {W : WspFlat} (hW : couplingFlat f1 f2 b c isTeb = .ok W) (hreg : Regular (W.ncls * b.nBands) W.gslMatrix)
    (ells : List ℝ) (cl : Arr2 ℝ) (hr : cl.rows = W.ncls) (hcl : cl.cols = ells.length)
    (he : 2 ≤ ells.length) (hes : ells.Pairwise (· < ·)) (x : ℕ → ℕ → ℝ)
    (hx : ∀ j < W.ncls, ∀ k ∈ f1.fs.modes,
      (∀ ib, InBand b ib (f1.fs.kmod k.1 k.2) → GuessAt ells (cl.val j) (f1.fs.kmod k.1 k.2) (x j ib)) ∧
      ((∀ ib, ¬ InBand b ib (f1.fs.kmod k.1 k.2)) → GuessAt ells (cl.val j) (f1.fs.kmod k.1 k.2) 0)) :
    ∃ out r, coupleCellFlat (some W) ells cl = .ok out ∧ decoupleCellFlat L (some W) out none none = .ok r ∧
      ∀ j < W.ncls, ∀ ib < b.nBands, r.val j ib = x j ib := by
  obtain ⟨hfs, hbin, hn, -⟩ := couplingFlat_rings f1 f2 b hb h0 c isTeb hW
  have hd := dell_pos hlx hly
  have hnest : ∀ l l' : ℝ, ∀ n ib, InRing f1.fs n l → InRing f1.fs n l' → InBand b ib l → InBand b ib l' := by
    intro l l' n ib h1 h2 h3
    obtain ⟨p, q, hp, hq⟩ := hedge ib h3.1
    change _ = (p : ℝ) * f1.fs.dell at hp
    change _ = (q : ℝ) * f1.fs.dell at hq
    change (n : ℝ) * f1.fs.dell ≤ _ ∧ _ < ((n : ℝ) + 1) * f1.fs.dell at h1 h2
    have h4 := h3.2
    rw [hp, hq] at h4
    have h5 : (p : ℝ) < n + 1 := lt_of_mul_lt_mul_right (lt_of_le_of_lt h4.1 h1.2) hd.le
    have h6 : (n : ℝ) < q := lt_of_mul_lt_mul_right (lt_of_le_of_lt h1.1 h4.2) hd.le
    have h5' : (p : ℝ) ≤ n := by
      have : p < n + 1 := by exact_mod_cast h5
      exact_mod_cast Nat.lt_succ_iff.1 this
    have h6' : (n : ℝ) + 1 ≤ q := by
      have : n < q := by exact_mod_cast h6
      exact_mod_cast this
    refine ⟨h3.1, ?_, ?_⟩
    · rw [hp]; exact le_trans (mul_le_mul_of_nonneg_right h5' hd.le) h2.1
    · rw [hq]; exact lt_of_lt_of_le h2.2 (mul_le_mul_of_nonneg_right h6' hd.le)
  set S : ℕ → ℕ × ℕ → ℝ := fun j k => propFun ells (cl.val j) (f1.fs.kmod k.1 k.2) with hSdef
  have hSb : ∀ j < W.ncls, ∀ k ∈ f1.fs.modes, ∀ ib, InBand b ib (f1.fs.kmod k.1 k.2) → S j k = x j ib :=
    fun j hj k hk ib hib => propFun_at he hes ((hx j hj k hk).1 ib hib)
  have hSz : ∀ j < W.ncls, ∀ k ∈ f1.fs.modes, (∀ ib, ¬ InBand b ib (f1.fs.kmod k.1 k.2)) → S j k = 0 :=
    fun j hj k hk hib => propFun_at he hes ((hx j hj k hk).2 hib)
  have hring : ∀ j < W.ncls, RingSpectrum f1.fs (S j) := by
    intro j hj
    refine ⟨?_, fun k hk hk' => hSz j hj k hk (hout k hk hk')⟩
    intro k hk k' hk' n h1 h2
    by_cases hib : ∃ ib, InBand b ib (f1.fs.kmod k.1 k.2)
    · obtain ⟨ib, hib⟩ := hib
      rw [hSb j hj k hk ib hib, hSb j hj k' hk' ib (hnest _ _ n ib h1 h2 hib)]
    · push Not at hib
      rw [hSz j hj k hk hib, hSz j hj k' hk' fun ib h => hib ib (hnest _ _ n ib h2 h1 h)]
  obtain ⟨out, hout', hor, hoc, hv⟩ := couple_value f1 f2 b hb h0 c isTeb hW hr hcl he hes
  obtain ⟨r, hr', hrr, hrc, hsol⟩ := (C50_decouple L hL W out none none).1 ⟨hor, by rw [hoc, hbin], by simp, by simp⟩
  rw [hbin] at hsol
  have hsol := hsol hreg
  refine ⟨out, r, hout', hr', ?_⟩
  have hfs2 : f1.fs = f2.fs ∧ (isTeb → f1.spin = 0 ∧ f2.spin ≠ 0) := by
    unfold couplingFlat at hW
    by_cases hf : f1.fs ≠ f2.fs
    · rw [if_pos hf] at hW; cases hW
    rw [if_neg hf] at hW
    by_cases ht : isTeb = true ∧ ¬ (f1.spin = 0 ∧ f2.spin ≠ 0)
    · rw [if_pos ht] at hW; cases hW
    exact ⟨not_not.1 hf, fun h => by by_contra h'; exact ht ⟨h, h'⟩⟩
  obtain ⟨W', hW', -, hbin'⟩ := couplingFlat_eq f1 f2 b hb h0 c isTeb hfs2.1 hfs2.2
  obtain rfl : W' = W := by rw [hW] at hW'; cases hW'; rfl
  have hval : ∀ i < W'.ncls, ∀ ib < b.nBands, out.val i ib =
      ∑ ib' ∈ range b.nBands, ∑ j ∈ range W'.ncls, W'.binned i ib j ib' * x j ib' := by
    intro i hi ib hib
    rw [hv i hi ib hib]
    have e1 : ∀ j ∈ range W'.ncls, ∀ k1 ∈ bandModes f1.fs b c ib, ∑ k2 ∈ f1.fs.modes,
          coupTerm f1 f2 W'.ncls (halfProd f1.fs.nx (f1.fs.map2alm f1.mask) (f1.fs.map2alm f2.mask)) i j k1 k2 *
            ringAvg f1.fs (propFun ells (cl.val j)) k2 =
        ∑ ib' ∈ range b.nBands, (∑ k2 ∈ bandModesAll f1.fs b ib',
          coupTerm f1 f2 W'.ncls (halfProd f1.fs.nx (f1.fs.map2alm f1.mask) (f1.fs.map2alm f2.mask)) i j k1 k2) * x j ib' := by
      intro j hj k1 _
      rw [mem_range] at hj
      have e2 : ∀ k2 ∈ f1.fs.modes, ringAvg f1.fs (propFun ells (cl.val j)) k2 = S j k2 := fun k2 hk2 =>
        ringAvg_ringSpectrum hlx hly (hring j hj) (fun k _ => rfl) hk2
      rw [sum_congr rfl fun k2 hk2 => by rw [e2 k2 hk2], sum_modes_bands hb.toOrderedBands]
      · refine sum_congr rfl fun ib' _ => ?_
        rw [sum_mul]
        refine sum_congr rfl fun k2 hk2 => ?_
        classical
        unfold bandModesAll at hk2
        rw [Finset.mem_filter] at hk2
        rw [hSb j hj k2 hk2.1 ib' hk2.2]
      · intro k hk hk'
        rw [hSz j hj k hk hk', mul_zero]
    rw [sum_congr rfl fun j hj => sum_congr rfl fun k1 hk1 => e1 j hj k1 hk1]
    rw [sum_comm (s := range b.nBands), mul_sum]
    refine sum_congr rfl fun j hj => ?_
    rw [sum_comm, mul_sum]
    refine sum_congr rfl fun ib' hib' => ?_
    rw [hbin' i hi j (mem_range.1 hj) ib hib ib' (mem_range.1 hib'), ← sum_mul]
    ring
  have huniq := hreg.unique (fun s => r.val (s % W'.ncls) (s / W'.ncls)) (fun s => x (s % W'.ncls) (s / W'.ncls)) (by
    intro q hq
    obtain ⟨i, ib, hi, hib, rfl⟩ : ∃ i ib, i < W'.ncls ∧ ib < b.nBands ∧ q = W'.ncls * ib + i := by
      have hpos : 0 < W'.ncls := Nat.pos_of_ne_zero (by rintro h; rw [h] at hq; simp at hq)
      exact ⟨q % W'.ncls, q / W'.ncls, Nat.mod_lt _ hpos, Nat.div_lt_of_lt_mul hq, (Nat.div_add_mod _ _).symm⟩
    rw [sum_flat, sum_flat]
    have e3 : ∀ y : ℕ → ℕ → ℝ, ∑ ib' ∈ range b.nBands, ∑ j ∈ range W'.ncls, W'.gslMatrix (W'.ncls * ib + i) (W'.ncls * ib' + j) *
        y ((W'.ncls * ib' + j) % W'.ncls) ((W'.ncls * ib' + j) / W'.ncls) =
        ∑ ib' ∈ range b.nBands, ∑ j ∈ range W'.ncls, W'.binned i ib j ib' * y j ib' := by
      intro y
      refine sum_congr rfl fun ib' _ => sum_congr rfl fun j hj => ?_
      rw [mem_range] at hj
      rw [gslMatrix_apply W' ib ib' hi hj, pairIdx_mod hj, pairIdx_div hj]
    rw [e3, e3, hsol i hi ib hib, hval i hi ib hib]
    simp)
  intro j hj ib hib
  have := huniq (W'.ncls * ib + j) (flat_lt hj hib)
  simpa only [pairIdx_mod hj, pairIdx_div hj] using this

end NaMaster
