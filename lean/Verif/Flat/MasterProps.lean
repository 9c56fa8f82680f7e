import Verif.Flat.MasterLemmas2

/-!
# C58: the flat-sky MASTER relation
-/

namespace NaMaster

open Real Finset MeasureTheory
open scoped Classical

/-! ## The modes of the loops -/

theorem all_rows {n m : ℕ} (f : ℕ → Outcome (List ℤ)) (R : ℕ → ℕ → ℤ → Prop)
    (h : ∀ iy, ∃ t, f iy = .ok t ∧ List.Forall₂ (fun ix r => R ix iy r) (List.range n) t) :
    ∃ rows, Outcome.all ((List.range m).map f) = .ok rows ∧ ∀ ix < n, ∀ iy < m, R ix iy (tableAt rows (ix, iy)) := by
  have key : ∀ ys : List ℕ, ∃ rows, Outcome.all (ys.map f) = .ok rows ∧ rows.length = ys.length ∧
      ∀ i (hi : i < ys.length), ∀ ix < n, R ix (ys[i]) (tableAt rows (ix, i)) := by
    intro ys
    induction ys with
    | nil => exact ⟨[], rfl, rfl, fun i hi => absurd hi (by simp)⟩
    | cons y ys ih =>
      obtain ⟨rows, h1, h2, h3⟩ := ih
      obtain ⟨t, ht, hf⟩ := h y
      refine ⟨t :: rows, ?_, by simp [h2], ?_⟩
      · simp only [List.map_cons, Outcome.all, ht, h1, Outcome.bind]
      · intro i hi ix hix
        rcases i with _ | i
        · simp only [tableAt, List.getD_cons_zero, List.getElem_cons_zero]
          have hl := hf.length_eq
          rw [List.length_range] at hl
          have := List.Forall₂.get hf (i := ix) (by simpa using hix) (by omega)
          simp only [List.get_eq_getElem, List.getElem_range] at this
          rw [List.getD_eq_getElem?_getD, List.getElem?_eq_getElem (by omega)]
          exact this
        · have := h3 i (by simpa using hi) ix hix
          simpa [tableAt] using this
  obtain ⟨rows, h1, -, h3⟩ := key (List.range m)
  refine ⟨rows, h1, fun ix hix iy hiy => ?_⟩
  have := h3 iy (by simpa using hiy) ix hix
  simpa using this

theorem rightBand_iff {b : FlatBins ℝ} (hb : OrderedBands b) {l : ℝ} {r : ℤ} (h : RightBand b l r) (ib : ℕ) :
    r = ib ↔ InBand b ib l := by
  constructor
  · rintro rfl
    rcases h with ⟨i, hi, h⟩ | ⟨h, _⟩
    · have : ib = i := by exact_mod_cast h
      rw [this]; exact hi
    · exact absurd h (by omega)
  · intro hi
    exact C40_unique b hb l r ib h (Or.inl ⟨ib, hi, rfl⟩)

theorem filter_band {fs : FlatInfo} {b : FlatBins ℝ} (hb : OrderedBands b) {c : EllCuts} {rows : List (List ℤ)}
    (h : ∀ ix < fs.nx, ∀ iy < fs.ny, RightModeBand fs b c ix iy (tableAt rows (ix, iy))) (ib : ℕ) :
    {k ∈ fs.modes | tableAt rows k = ib} = bandModes fs b c ib := by
  unfold bandModes
  refine Finset.filter_congr fun k hk => ?_
  rw [mem_modes] at hk
  rcases h k.1 hk.1 k.2 hk.2 with ⟨h1, h2⟩ | ⟨h1, h2⟩
  · have : tableAt rows k = -1 := h2
    constructor
    · intro h3; exfalso; omega
    · intro h3; exact absurd h1 h3.1
  · have := rightBand_iff hb h2 ib
    exact this.trans ⟨fun h => ⟨h1, h⟩, fun h => h.2⟩

theorem filter_band_all {fs : FlatInfo} {b : FlatBins ℝ} (hb : OrderedBands b) {rows : List (List ℤ)}
    (h : ∀ ix < fs.nx, ∀ iy < fs.ny, RightBand b (fs.kmod ix iy) (tableAt rows (ix, iy))) (ib : ℕ) :
    {k ∈ fs.modes | tableAt rows k = ib} = bandModesAll fs b ib := by
  unfold bandModesAll
  refine Finset.filter_congr fun k hk => ?_
  rw [mem_modes] at hk
  exact rightBand_iff hb (h k.1 hk.1 k.2 hk.2) ib

theorem fsAlm2cl_eq (fs : FlatInfo) (b : FlatBins ℝ) (hb : GaplessBands b) (h0 : 0 < b.nBands) (c : EllCuts)
    (a1 a2 : ℕ × ℕ → ℂ) : fsAlm2cl fs b c a1 a2 = .ok (tab b.nBands fun ib =>
      (∑ k ∈ bandModes fs b c ib, halfProd fs.nx a1 a2 k) * (4 * π * π / (fs.lx * fs.ly) / #(bandModes fs b c ib))) := by
  obtain ⟨rows, h1, h2⟩ := all_rows (n := fs.nx) (m := fs.ny) (fun iy => alm2clBands fs b c iy)
    (fun ix iy r => RightModeBand fs b c ix iy r) (fun iy => by
      obtain ⟨t, ht, -, hf⟩ := C41_same_modes_partial fs b hb h0 c iy
      exact ⟨t, ht, hf⟩)
  unfold fsAlm2cl
  rw [h1]
  simp only [Outcome.bind]
  congr 2
  funext ib
  unfold nCells
  have hfb := filter_band hb.toOrderedBands h2 ib
  rw [hfb]
  by_cases hn : #(bandModes fs b c ib) ≤ 0
  · rw [if_pos hn]
    have : #(bandModes fs b c ib) = 0 := by omega
    rw [this]
    simp
  · rw [if_neg hn]

theorem couplingFlat_eq (f1 f2 : FlatField) (b : FlatBins ℝ) (hb : GaplessBands b) (h0 : 0 < b.nBands) (c : EllCuts)
    (isTeb : Bool) (hfs : f1.fs = f2.fs) (ht : isTeb → f1.spin = 0 ∧ f2.spin ≠ 0) :
    ∃ W, couplingFlat f1 f2 b c isTeb = .ok W ∧
      W.ncls = (if isTeb then 7 else nmapsOf f1.spin * nmapsOf f2.spin) ∧
      ∀ i < W.ncls, ∀ j < W.ncls, ∀ b1 < b.nBands, ∀ b2 < b.nBands, W.binned i b1 j b2 =
        (∑ k1 ∈ bandModes f1.fs b c b1, ∑ k2 ∈ bandModesAll f1.fs b b2,
          coupTerm f1 f2 W.ncls (halfProd f1.fs.nx (f1.fs.map2alm f1.mask) (f1.fs.map2alm f2.mask)) i j k1 k2) *
        (4 * π * π / (f1.fs.lx * f1.fs.lx * f1.fs.ly * f1.fs.ly) / #(bandModes f1.fs b c b1)) := by
  obtain ⟨rows, h1, h2⟩ := all_rows (n := f1.fs.nx) (m := f1.fs.ny) (fun iy => couplingBands f1.fs b c iy)
    (fun ix iy r => RightModeBand f1.fs b c ix iy r) (fun iy => by
      obtain ⟨t, -, ht, hf⟩ := C41_same_modes_partial f1.fs b hb h0 c iy
      exact ⟨t, ht, hf⟩)
  obtain ⟨rowsN, h3, h4⟩ := all_rows (n := f1.fs.nx) (m := f1.fs.ny) (fun iy => couplingBandsNocut f1.fs b iy)
    (fun ix iy r => RightBand b (f1.fs.kmod ix iy) r) (fun iy => C41_nocut_partial f1.fs b hb h0 iy)
  unfold couplingFlat
  rw [if_neg (by simpa using hfs), if_neg (by intro h; exact h.2 (ht h.1)), if_neg (by omega)]
  simp only [h1, h3, Outcome.bind]
  refine ⟨_, rfl, rfl, ?_⟩
  intro i hi j hj b1 hb1 b2 hb2
  simp only at hi hj ⊢
  rw [if_pos ⟨hi, hj, hb1, hb2⟩]
  have hfb := filter_band hb.toOrderedBands h2 b1
  have hfb2 := filter_band_all hb.toOrderedBands h4 b2
  unfold nCells
  rw [hfb, hfb2]
  congr 1
  by_cases hn : #(bandModes f1.fs b c b1) > 0
  · rw [if_pos hn]
  · rw [if_neg hn]
    have : #(bandModes f1.fs b c b1) = 0 := by omega
    rw [this]; simp

/-! ## The mean of the pseudo-spectra -/

/-- The spectra of the sky: constant in each band apart from the beams, and zero outside the bands. -/
def BandSpectra (f1 f2 : FlatField) (b : FlatBins ℝ) (Cb : ℕ → ℕ → ℕ → ℝ) (C : ℕ → ℕ → ℕ × ℕ → ℝ) : Prop :=
  ∀ X Y, ∀ k ∈ f1.fs.modes,
    (∀ ib, InBand b ib (f1.fs.kmod k.1 k.2) →
      C X Y k = f1.beam (f1.fs.kmod k.1 k.2) * f2.beam (f1.fs.kmod k.1 k.2) * Cb X Y ib) ∧
    ((∀ ib, ¬ InBand b ib (f1.fs.kmod k.1 k.2)) → C X Y k = 0)

theorem sum_modes_bands {fs : FlatInfo} {b : FlatBins ℝ} (hb : OrderedBands b) (g : ℕ × ℕ → ℝ)
    (hg : ∀ k ∈ fs.modes, (∀ ib, ¬ InBand b ib (fs.kmod k.1 k.2)) → g k = 0) :
    ∑ k ∈ fs.modes, g k = ∑ ib ∈ range b.nBands, ∑ k ∈ bandModesAll fs b ib, g k := by
  have hu : ∀ (k : ℕ × ℕ) i j, InBand b i (fs.kmod k.1 k.2) → InBand b j (fs.kmod k.1 k.2) → i = j := by
    intro k i j hi hj
    exact_mod_cast C40_unique b hb _ _ _ (Or.inl ⟨i, hi, rfl⟩) (Or.inl ⟨j, hj, rfl⟩)
  unfold bandModesAll
  simp only [Finset.sum_filter]
  rw [Finset.sum_comm]
  refine Finset.sum_congr rfl fun k hk => ?_
  by_cases h : ∃ ib, InBand b ib (fs.kmod k.1 k.2)
  · obtain ⟨ib, hib⟩ := h
    rw [Finset.sum_eq_single ib]
    · rw [if_pos hib]
    · intro j _ hj
      rw [if_neg fun h => hj (hu k j ib h hib)]
    · intro hn
      exact absurd (Finset.mem_range.2 hib.1) hn
  · push Not at h
    rw [hg k hk h, Finset.sum_eq_zero]
    intro ib _
    rw [if_neg (h ib)]

/-- The computed pseudo-spectrum of two masked homogeneous skies is on average the right coupling matrix times the
bandpowers. -/
theorem C58_expectation {Ω : Type*} [MeasurableSpace Ω] (μ : Measure Ω) (f1 f2 : FlatField) (b : FlatBins ℝ)
    (hb : GaplessBands b) (h0 : 0 < b.nBands) (c : EllCuts) (hl : 0 < f1.fs.lx) (hc : SymmetricCuts f1.fs c)
    (hN : (f1.spin = 0 ∧ f2.spin = 0) ∨ NoNyquist f1.fs b) (m1 m2 : Ω → ℕ → ℕ × ℕ → ℝ) (F1 F2 : Ω → ℕ → ℕ × ℕ → ℂ)
    (h1 : ∀ ω, SkyHas f1.fs f1.spin (m1 ω) (F1 ω)) (h2 : ∀ ω, SkyHas f1.fs f2.spin (m2 ω) (F2 ω))
    (C : ℕ → ℕ → ℕ × ℕ → ℝ) (hC : Homogeneous μ f1.fs (nmapsOf f1.spin) (nmapsOf f2.spin) F1 F2 C)
    (Cb : ℕ → ℕ → ℕ → ℝ) (hCb : BandSpectra f1 f2 b Cb C) (X Y : ℕ) (hX : X < nmapsOf f1.spin)
    (hY : Y < nmapsOf f2.spin) :
    ∃ pcl : Ω → ℕ → ℝ,
      (∀ ω, fsAlm2cl f1.fs b c (maskedAlm f1.fs f1.spin f1.mask (m1 ω) X)
        (maskedAlm f1.fs f2.spin f2.mask (m2 ω) Y) = .ok (pcl ω)) ∧
      ∀ ib < b.nBands, Integrable (fun ω => pcl ω ib) μ ∧ ∫ ω, pcl ω ib ∂μ =
        ∑ ib' ∈ range b.nBands, ∑ X' ∈ range (nmapsOf f1.spin), ∑ Y' ∈ range (nmapsOf f2.spin),
          trueCoupling f1 f2 b c X Y ib X' Y' ib' * Cb X' Y' ib' := by
  refine ⟨fun ω => _, fun ω => fsAlm2cl_eq f1.fs b hb h0 c _ _, ?_⟩
  intro ib hib
  simp only [tab_of_lt _ hib]
  set B := bandModes f1.fs b c ib with hB
  have hmp := fun k1 => mean_power μ f1.fs f1.spin f2.spin f1.mask f2.mask m1 m2 F1 F2 C h1 h2 hC hX hY k1
  have hsum : ∀ ω, ∑ k ∈ B, halfProd f1.fs.nx (maskedAlm f1.fs f1.spin f1.mask (m1 ω) X)
      (maskedAlm f1.fs f2.spin f2.mask (m2 ω) Y) k =
      ∑ k ∈ B, (maskedAlm f1.fs f1.spin f1.mask (m1 ω) X k * star (maskedAlm f1.fs f2.spin f2.mask (m2 ω) Y k)).re := by
    intro ω
    rw [← sum_reflect (fs := f1.fs) B (bandModes_flip b c hc ib) (fun k =>
      (maskedAlm f1.fs f1.spin f1.mask (m1 ω) X k * star (maskedAlm f1.fs f2.spin f2.mask (m2 ω) Y k)).re)]
    refine Finset.sum_congr rfl fun k hk => ?_
    exact halfProd_masked hl _ _ _ _ _ _ X Y (bandModes_flip b c hc ib k hk).1
      (hN.imp id fun h => bandModes_nyquist h hk)
  simp only [hsum]
  refine ⟨(integrable_finsetSum _ fun k _ => (hmp k).1).mul_const _, ?_⟩
  rw [integral_mul_const, integral_finsetSum _ fun k _ => (hmp k).1]
  simp only [(hmp _).2]
  have hsplit : ∀ k1, ∑ k2 ∈ f1.fs.modes, ∑ X' ∈ range (nmapsOf f1.spin), ∑ Y' ∈ range (nmapsOf f2.spin),
        maskPower f1.fs f1.mask f2.mask (f1.fs.sub k1 k2) *
          (rotEB f1.spin (modeAngle f1.fs k1 - modeAngle f1.fs k2) X X' *
            rotEB f2.spin (modeAngle f1.fs k1 - modeAngle f1.fs k2) Y Y') * (C X' Y' k2 / (f1.fs.lx * f1.fs.ly)) =
      ∑ ib' ∈ range b.nBands, ∑ X' ∈ range (nmapsOf f1.spin), ∑ Y' ∈ range (nmapsOf f2.spin),
        ∑ k2 ∈ bandModesAll f1.fs b ib', maskPower f1.fs f1.mask f2.mask (f1.fs.sub k1 k2) *
          (f1.beam (f1.fs.kmod k2.1 k2.2) * f2.beam (f1.fs.kmod k2.1 k2.2)) *
          (rotEB f1.spin (modeAngle f1.fs k1 - modeAngle f1.fs k2) X X' *
            rotEB f2.spin (modeAngle f1.fs k1 - modeAngle f1.fs k2) Y Y') * (Cb X' Y' ib' / (f1.fs.lx * f1.fs.ly)) := by
    intro k1
    rw [sum_modes_bands hb.toOrderedBands]
    · refine Finset.sum_congr rfl fun ib' _ => ?_
      rw [Finset.sum_comm]
      refine Finset.sum_congr rfl fun X' _ => ?_
      rw [Finset.sum_comm]
      refine Finset.sum_congr rfl fun Y' _ => Finset.sum_congr rfl fun k2 hk2 => ?_
      unfold bandModesAll at hk2
      rw [Finset.mem_filter] at hk2
      rw [(hCb X' Y' k2 hk2.1).1 ib' hk2.2]
      ring
    · intro k hk hn
      refine Finset.sum_eq_zero fun X' _ => Finset.sum_eq_zero fun Y' _ => ?_
      rw [(hCb X' Y' k hk).2 hn]
      simp
  simp only [hsplit]
  rw [Finset.sum_comm, Finset.sum_mul]
  refine Finset.sum_congr rfl fun ib' _ => ?_
  rw [Finset.sum_comm, Finset.sum_mul]
  refine Finset.sum_congr rfl fun X' _ => ?_
  rw [Finset.sum_comm, Finset.sum_mul]
  refine Finset.sum_congr rfl fun Y' _ => ?_
  unfold trueCoupling
  rw [← hB]
  simp only [← Finset.sum_mul]
  rw [mul_assoc (4 * π * π / _ / _)]
  have e1 : 4 * π * π / (f1.fs.lx * f1.fs.lx * f1.fs.ly * f1.fs.ly) / (#B : ℝ) =
      4 * π * π / (f1.fs.lx * f1.fs.ly) / #B / (f1.fs.lx * f1.fs.ly) := by
    simp only [div_eq_mul_inv, mul_inv]
    ring
  rw [e1]
  ring

/-! ## The coupling matrix of the library -/

theorem coupFactor_rot (s1 s2 : ℕ) {fs : FlatInfo} (k1 k2 : ℕ × ℕ) (kr : ℝ) (X Y X' Y' : ℕ) (hX : X < nmapsOf s1)
    (hY : Y < nmapsOf s2) (hX' : X' < nmapsOf s1) (hY' : Y' < nmapsOf s2) :
    coupFactor (nmapsOf s1 * nmapsOf s2) 0 0 0 0 (fs.cdiff (coupSpins (nmapsOf s1 * nmapsOf s2) s1 s2).1 k1 k2)
      (fs.sdiff (coupSpins (nmapsOf s1 * nmapsOf s2) s1 s2).1 k1 k2)
      (fs.cdiff (coupSpins (nmapsOf s1 * nmapsOf s2) s1 s2).2 k1 k2)
      (fs.sdiff (coupSpins (nmapsOf s1 * nmapsOf s2) s1 s2).2 k1 k2) kr (nmapsOf s2 * X + Y) (nmapsOf s2 * X' + Y') =
    rotEB s1 (modeAngle fs k1 - modeAngle fs k2) X X' * rotEB s2 (modeAngle fs k1 - modeAngle fs k2) Y Y' := by
  simp only [cdiff_eq, sdiff_eq]
  unfold rotEB
  by_cases h1 : s1 = 0 <;> by_cases h2 : s2 = 0
  · subst h1; subst h2
    simp only [nmapsOf, if_true] at *
    have : X = 0 := by omega
    have : Y = 0 := by omega
    have : X' = 0 := by omega
    have : Y' = 0 := by omega
    subst X; subst Y; subst X'; subst Y'
    simp [coupFactor]
  · subst h1
    simp only [nmapsOf, if_true, if_neg h2] at *
    have : X = 0 := by omega
    have : X' = 0 := by omega
    subst X; subst X'
    interval_cases Y <;> interval_cases Y' <;> simp [coupFactor, coupSpins, h2]
  · subst h2
    simp only [nmapsOf, if_true, if_neg h1] at *
    have : Y = 0 := by omega
    have : Y' = 0 := by omega
    subst Y; subst Y'
    interval_cases X <;> interval_cases X' <;> simp [coupFactor, coupSpins, h1]
  · simp only [nmapsOf, if_neg h1, if_neg h2] at *
    interval_cases X <;> interval_cases X' <;> interval_cases Y <;> interval_cases Y' <;>
      simp [coupFactor, coupSpins, h1, h2]

/-- The masks' cross-spectrum does not change under a reflection of the wave vectors. -/
def ReflectionSymmetric (f1 f2 : FlatField) : Prop :=
  ∀ q ∈ f1.fs.modes, maskPower f1.fs f1.mask f2.mask (f1.fs.flip q) = maskPower f1.fs f1.mask f2.mask q

theorem coupTerm_rot (f1 f2 : FlatField) (hp : f1.pureE = 0 ∧ f1.pureB = 0 ∧ f2.pureE = 0 ∧ f2.pureB = 0)
    (mp : ℕ × ℕ → ℝ) (X Y X' Y' : ℕ) (hX : X < nmapsOf f1.spin) (hY : Y < nmapsOf f2.spin) (hX' : X' < nmapsOf f1.spin)
    (hY' : Y' < nmapsOf f2.spin) (k1 k2 : ℕ × ℕ) :
    coupTerm f1 f2 (nmapsOf f1.spin * nmapsOf f2.spin) mp (nmapsOf f2.spin * X + Y) (nmapsOf f2.spin * X' + Y') k1 k2 =
      f1.beam (f1.fs.kmod k2.1 k2.2) * f2.beam (f1.fs.kmod k2.1 k2.2) *
        (rotEB f1.spin (modeAngle f1.fs k1 - modeAngle f1.fs k2) X X' *
          rotEB f2.spin (modeAngle f1.fs k1 - modeAngle f1.fs k2) Y Y') * mp (f1.fs.sub k1 k2) := by
  unfold coupTerm
  simp only [hp.1, hp.2.1, hp.2.2.1, hp.2.2.2]
  rw [coupFactor_rot f1.spin f2.spin k1 k2 _ X Y X' Y' hX hY hX' hY']
  ring

theorem rotEB_flip {fs : FlatInfo} (spin : ℕ) {k1 k2 : ℕ × ℕ} (h1 : k1 ∈ fs.modes) (h2 : k2 ∈ fs.modes)
    (hy : spin = 0 ∨ (2 * k1.2 ≠ fs.ny ∧ 2 * k2.2 ≠ fs.ny)) {X X' : ℕ} (hX : X < nmapsOf spin) (hX' : X' < nmapsOf spin) :
    rotEB spin (modeAngle fs (fs.flip k1) - modeAngle fs (fs.flip k2)) X X' =
      (-1) ^ (X + X') * rotEB spin (modeAngle fs k1 - modeAngle fs k2) X X' := by
  by_cases hs : spin = 0
  · simp only [nmapsOf, if_pos hs] at hX hX'
    have : X = 0 := by omega
    have : X' = 0 := by omega
    subst X; subst X'
    simp [rotEB, hs]
  · obtain ⟨hy1, hy2⟩ := hy.resolve_left hs
    have hc := cdiff_flip spin h1 h2 hy1 hy2
    simp only [cdiff_eq, sdiff_eq] at hc
    simp only [nmapsOf, if_neg hs] at hX hX'
    unfold rotEB
    rw [if_neg hs, if_neg hs]
    interval_cases X <;> interval_cases X' <;> simp [hc.1, hc.2]

/-- The element of the matrix of the library that couples the spectrum of components `X'`, `Y'` in band `ib'` to that of
components `X`, `Y` in band `ib`. -/
noncomputable def WspFlat.coupling (W : WspFlat) (f2 : FlatField) (X Y ib X' Y' ib' : ℕ) : ℝ :=
  W.binned (nmapsOf f2.spin * X + Y) ib (nmapsOf f2.spin * X' + Y') ib'

/-- The fields are not purified. -/
def NotPurified (f1 f2 : FlatField) : Prop := f1.pureE = 0 ∧ f1.pureB = 0 ∧ f2.pureE = 0 ∧ f2.pureB = 0

theorem idx_lt {n1 n2 X Y : ℕ} (hX : X < n1) (hY : Y < n2) : n2 * X + Y < n1 * n2 := by
  calc n2 * X + Y < n2 * X + n2 := by omega
    _ = n2 * (X + 1) := by ring
    _ ≤ n2 * n1 := Nat.mul_le_mul_left _ (by omega)
    _ = n1 * n2 := by ring

/-- The coupling matrix of the library is the right one for all pairs of spectra of equal parity (TT to TT; TE to TE; EE
to EE, BB; EB to EB, BE; …), for all masks. Missing in general: the pairs of opposite parity (see
`C58_chiral_wrong`), ranges that are not symmetric, and modes of the highest wave number. -/
theorem C58_matrix_even_partial (f1 f2 : FlatField) (hfs : f1.fs = f2.fs) (hp : NotPurified f1 f2) (b : FlatBins ℝ)
    (hb : GaplessBands b) (h0 : 0 < b.nBands) (c : EllCuts) (hl : 0 < f1.fs.lx) (hc : SymmetricCuts f1.fs c)
    (hN : (f1.spin = 0 ∧ f2.spin = 0) ∨ NoNyquist f1.fs b) :
    ∃ W, couplingFlat f1 f2 b c false = .ok W ∧ ∀ X < nmapsOf f1.spin, ∀ Y < nmapsOf f2.spin, ∀ X' < nmapsOf f1.spin,
      ∀ Y' < nmapsOf f2.spin, Even (X + Y + X' + Y') → ∀ ib < b.nBands, ∀ ib' < b.nBands,
        W.coupling f2 X Y ib X' Y' ib' = trueCoupling f1 f2 b c X Y ib X' Y' ib' := by
  obtain ⟨W, hW, hn, hbin⟩ := couplingFlat_eq f1 f2 b hb h0 c false hfs (by simp)
  simp only [Bool.false_eq_true, if_false] at hn
  refine ⟨W, hW, ?_⟩
  intro X hX Y hY X' hX' Y' hY' hev ib hib ib' hib'
  unfold WspFlat.coupling
  rw [hbin _ (by rw [hn]; exact idx_lt hX hY) _ (by rw [hn]; exact idx_lt hX' hY') ib hib ib' hib', hn]
  simp only [coupTerm_rot f1 f2 hp _ X Y X' Y' hX hY hX' hY']
  unfold trueCoupling
  rw [mul_comm]
  congr 1
  have hB1 := bandModes_flip b c hc ib
  have hB2 := bandModesAll_flip (fs := f1.fs) b ib'
  have hrefl := sum_reflect_pair (fs := f1.fs) _ _ hB1 hB2 (maskPower f1.fs f1.mask f2.mask) (fun k1 k2 =>
    f1.beam (f1.fs.kmod k2.1 k2.2) * f2.beam (f1.fs.kmod k2.1 k2.2) *
        (rotEB f1.spin (modeAngle f1.fs k1 - modeAngle f1.fs k2) X X' *
          rotEB f2.spin (modeAngle f1.fs k1 - modeAngle f1.fs k2) Y Y')) (by
      intro k1 hk1 k2 hk2
      have hm : f1.fs.kmod (f1.fs.flip k2).1 (f1.fs.flip k2).2 = f1.fs.kmod k2.1 k2.2 := kmod_neg (hB2 k2 hk2).1
      have hy : (f1.spin = 0 ∧ f2.spin = 0) ∨ (2 * k1.2 ≠ f1.fs.ny ∧ 2 * k2.2 ≠ f1.fs.ny) :=
        hN.imp id fun h => ⟨bandModes_nyquist h hk1, bandModesAll_nyquist h hk2⟩
      rw [hm, rotEB_flip _ (hB1 k1 hk1).1 (hB2 k2 hk2).1 (hy.imp (·.1) id) hX hX',
        rotEB_flip _ (hB1 k1 hk1).1 (hB2 k2 hk2).1 (hy.imp (·.2) id) hY hY']
      have hs : ((-1 : ℝ)) ^ (X + X') * (-1) ^ (Y + Y') = 1 := by
        rw [← pow_add]
        exact Even.neg_one_pow (by rwa [show X + X' + (Y + Y') = X + Y + X' + Y' by ring])
      linear_combination (f1.beam (f1.fs.kmod k2.1 k2.2) * f2.beam (f1.fs.kmod k2.1 k2.2) *
        (rotEB f1.spin (modeAngle f1.fs k1 - modeAngle f1.fs k2) X X' *
          rotEB f2.spin (modeAngle f1.fs k1 - modeAngle f1.fs k2) Y Y')) * hs)
  calc _ = _ := by
        refine Finset.sum_congr rfl fun k1 hk1 => Finset.sum_congr rfl fun k2 hk2 => ?_
        rw [halfProd_mask hl _ _ (sub_mem (hB1 k1 hk1).1 (hB2 k2 hk2).1)]
    _ = _ := hrefl
    _ = _ := Finset.sum_congr rfl fun k1 _ => Finset.sum_congr rfl fun k2 _ => by ring

/-- The coupling matrix of the library is the right one for all pairs of spectra, all ranges and bands without gaps, if the
cross-spectrum of the masks is symmetric under reflections. Missing: other masks (see `C58_chiral_wrong`). -/
theorem C58_matrix_symmetric_partial (f1 f2 : FlatField) (hfs : f1.fs = f2.fs) (hp : NotPurified f1 f2) (b : FlatBins ℝ)
    (hb : GaplessBands b) (h0 : 0 < b.nBands) (c : EllCuts) (hl : 0 < f1.fs.lx) (hs : ReflectionSymmetric f1 f2) :
    ∃ W, couplingFlat f1 f2 b c false = .ok W ∧ ∀ X < nmapsOf f1.spin, ∀ Y < nmapsOf f2.spin, ∀ X' < nmapsOf f1.spin,
      ∀ Y' < nmapsOf f2.spin, ∀ ib < b.nBands, ∀ ib' < b.nBands,
        W.coupling f2 X Y ib X' Y' ib' = trueCoupling f1 f2 b c X Y ib X' Y' ib' := by
  obtain ⟨W, hW, hn, hbin⟩ := couplingFlat_eq f1 f2 b hb h0 c false hfs (by simp)
  simp only [Bool.false_eq_true, if_false] at hn
  refine ⟨W, hW, ?_⟩
  intro X hX Y hY X' hX' Y' hY' ib hib ib' hib'
  unfold WspFlat.coupling
  rw [hbin _ (by rw [hn]; exact idx_lt hX hY) _ (by rw [hn]; exact idx_lt hX' hY') ib hib ib' hib', hn]
  simp only [coupTerm_rot f1 f2 hp _ X Y X' Y' hX hY hX' hY']
  unfold trueCoupling
  rw [mul_comm]
  congr 1
  refine Finset.sum_congr rfl fun k1 hk1 => Finset.sum_congr rfl fun k2 hk2 => ?_
  have h1 : k1 ∈ f1.fs.modes := by unfold bandModes at hk1; exact (Finset.mem_filter.1 hk1).1
  have h2 : k2 ∈ f1.fs.modes := by unfold bandModesAll at hk2; exact (Finset.mem_filter.1 hk2).1
  rw [halfProd_mask hl _ _ (sub_mem h1 h2), hs _ (sub_mem h1 h2), ite_self]
  ring

/-- The MASTER relation: the mean of the computed pseudo-spectrum is the coupling matrix of the library times the
bandpowers, if spectra of the sky of parity opposite to the one computed vanish, or if the masks are symmetric. Missing:
other skies and masks together (see `C58_chiral_wrong`); ranges that are not symmetric; bands containing modes of the
highest wave number, for nonzero spin; bands with gaps; purified fields. -/
theorem C58_master_partial {Ω : Type*} [MeasurableSpace Ω] (μ : Measure Ω) (f1 f2 : FlatField) (hfs : f1.fs = f2.fs)
    (hp : NotPurified f1 f2) (b : FlatBins ℝ) (hb : GaplessBands b) (h0 : 0 < b.nBands) (c : EllCuts) (hl : 0 < f1.fs.lx)
    (hc : SymmetricCuts f1.fs c) (hN : (f1.spin = 0 ∧ f2.spin = 0) ∨ NoNyquist f1.fs b)
    (m1 m2 : Ω → ℕ → ℕ × ℕ → ℝ) (F1 F2 : Ω → ℕ → ℕ × ℕ → ℂ)
    (h1 : ∀ ω, SkyHas f1.fs f1.spin (m1 ω) (F1 ω)) (h2 : ∀ ω, SkyHas f1.fs f2.spin (m2 ω) (F2 ω))
    (C : ℕ → ℕ → ℕ × ℕ → ℝ) (hC : Homogeneous μ f1.fs (nmapsOf f1.spin) (nmapsOf f2.spin) F1 F2 C)
    (Cb : ℕ → ℕ → ℕ → ℝ) (hCb : BandSpectra f1 f2 b Cb C) (X Y : ℕ) (hX : X < nmapsOf f1.spin)
    (hY : Y < nmapsOf f2.spin)
    (hpar : (∀ X' Y' ib', Odd (X + Y + X' + Y') → Cb X' Y' ib' = 0) ∨ ReflectionSymmetric f1 f2) :
    ∃ W, couplingFlat f1 f2 b c false = .ok W ∧ ∃ pcl : Ω → ℕ → ℝ,
      (∀ ω, fsAlm2cl f1.fs b c (maskedAlm f1.fs f1.spin f1.mask (m1 ω) X)
        (maskedAlm f1.fs f2.spin f2.mask (m2 ω) Y) = .ok (pcl ω)) ∧
      ∀ ib < b.nBands, Integrable (fun ω => pcl ω ib) μ ∧ ∫ ω, pcl ω ib ∂μ =
        ∑ ib' ∈ range b.nBands, ∑ X' ∈ range (nmapsOf f1.spin), ∑ Y' ∈ range (nmapsOf f2.spin),
          W.coupling f2 X Y ib X' Y' ib' * Cb X' Y' ib' := by
  obtain ⟨pcl, hpcl, hE⟩ := C58_expectation μ f1 f2 b hb h0 c hl hc hN m1 m2 F1 F2 h1 h2 C hC Cb hCb X Y hX hY
  have key : ∃ W, couplingFlat f1 f2 b c false = .ok W ∧ ∀ X' < nmapsOf f1.spin, ∀ Y' < nmapsOf f2.spin,
      ∀ ib < b.nBands, ∀ ib' < b.nBands,
        W.coupling f2 X Y ib X' Y' ib' * Cb X' Y' ib' = trueCoupling f1 f2 b c X Y ib X' Y' ib' * Cb X' Y' ib' := by
    rcases hpar with hpar | hpar
    · obtain ⟨W, hW, h⟩ := C58_matrix_even_partial f1 f2 hfs hp b hb h0 c hl hc hN
      refine ⟨W, hW, fun X' hX' Y' hY' ib hib ib' hib' => ?_⟩
      rcases Nat.even_or_odd (X + Y + X' + Y') with he | ho
      · rw [h X hX Y hY X' hX' Y' hY' he ib hib ib' hib']
      · rw [hpar X' Y' ib' ho, mul_zero, mul_zero]
    · obtain ⟨W, hW, h⟩ := C58_matrix_symmetric_partial f1 f2 hfs hp b hb h0 c hl hpar
      exact ⟨W, hW, fun X' hX' Y' hY' ib hib ib' hib' => by rw [h X hX Y hY X' hX' Y' hY' ib hib ib' hib']⟩
  obtain ⟨W, hW, h⟩ := key
  refine ⟨W, hW, pcl, hpcl, fun ib hib => ⟨(hE ib hib).1, (hE ib hib).2.trans ?_⟩⟩
  refine Finset.sum_congr rfl fun ib' hib' => Finset.sum_congr rfl fun X' hX' => Finset.sum_congr rfl fun Y' hY' => ?_
  rw [Finset.mem_range] at hib' hX' hY'
  exact (h X' hX' Y' hY' ib hib ib' hib').symm

end NaMaster
