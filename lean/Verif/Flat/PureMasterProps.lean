import Verif.Flat.PureMasterLemmas

/-! # C80: mean spectra of purified flat-sky fields -/

namespace NaMaster

open Real Finset MeasureTheory
open scoped Classical

/-! ## Specification of the calls -/

/-- The call asks for purification. -/
def FlatFieldArgs.Purifies (a : FlatFieldArgs) : Prop := a.purifyE = true ∨ a.purifyB = true

/-- Two random skies with given spectra, for two constructor calls with the same geometry. -/
structure FlatSkies {Ω : Type*} [MeasurableSpace Ω] (μ : Measure Ω) (a1 a2 : FlatFieldArgs) (n1 n2 : ℕ) (s1 s2 : Ω → FlatMaps)
    (F1 F2 : Ω → ℕ → ℕ × ℕ → ℂ) (C : ℕ → ℕ → ℕ × ℕ → ℝ) : Prop where
  fs : a1.fs = a2.fs
  sky1 : ∀ ω, SkyHas a1.fs (a1.spinFor n1) (s1 ω) (F1 ω)
  sky2 : ∀ ω, SkyHas a1.fs (a2.spinFor n2) (s2 ω) (F2 ω)
  cov : Homogeneous μ a1.fs n1 n2 F1 F2 C

/-- The bands and ranges for which the mean spectra are known: bands without gaps, symmetric ranges, no modes of the highest wave number
unless both fields have spin 0; and for purified fields square pixels, skies and masks without power at the highest wave numbers, and
no band that contains multipole 0. -/
structure FlatScheme {Ω : Type*} (a1 a2 : FlatFieldArgs) (n1 n2 : ℕ) (F1 F2 : Ω → ℕ → ℕ × ℕ → ℂ) (b : FlatBins ℝ) (c : EllCuts) :
    Prop where
  gapless : GaplessBands b
  some : 0 < b.nBands
  cuts : SymmetricCuts a1.fs c
  nyquist : (a1.spinFor n1 = 0 ∧ a2.spinFor n2 = 0) ∨ NoNyquist a1.fs b
  pure1 : a1.Purifies → SquarePixels a1.fs ∧ ∀ ω, Resolved a1.fs a1.mask (F1 ω)
  pure2 : a2.Purifies → SquarePixels a1.fs ∧ ∀ ω, Resolved a1.fs a2.mask (F2 ω)
  zero : a1.Purifies ∨ a2.Purifies → ∀ ib, ¬ InBand b ib 0

/-! ## Lemmas on the objects -/

theorem flat_base {env : FlatEnv} {a : FlatFieldArgs} {nc : ℕ} {v : FlatMaps} {f : FlatFieldObj}
    (h : nmtFieldFlat env (a.withMaps nc v) = .ok f) : ∃ beam, flatBeam a.beam = .ok beam ∧
      f.base = ⟨a.fs, a.spinFor nc, a.mask, beam, if a.purifyE then 1 else 0, if a.purifyB then 1 else 0⟩ ∧ f.base.FlagsOk := by
  obtain ⟨sp, beam, hs, hn, hp, hsh, hx, hy, hb, rfl⟩ := flat_ok (m := ⟨nc, a.fs.nx, a.fs.ny, v⟩) rfl h
  obtain rfl := flatSpin_for hs
  refine ⟨beam, hb, rfl, ?_, ?_, ?_⟩
  · change (if a.purifyE = true then 1 else 0 : ℕ) ≤ 1
    split_ifs <;> omega
  · change (if a.purifyB = true then 1 else 0 : ℕ) ≤ 1
    split_ifs <;> omega
  · intro h2
    have hnp : ¬ (a.purifyE = true ∨ a.purifyB = true) := fun h => h2 (hp h)
    push Not at hnp
    exact ⟨if_neg hnp.1, if_neg hnp.2⟩

/-- What the coupling matrix is computed from depends neither on the maps nor on the templates. -/
theorem flat_base_eq {env : FlatEnv} {a a' : FlatFieldArgs} (ha : a'.bare = a.bare) {nc : ℕ} {v v' : FlatMaps} {f f' : FlatFieldObj}
    (h : nmtFieldFlat env (a.withMaps nc v) = .ok f) (h' : nmtFieldFlat env (a'.withMaps nc v') = .ok f') : f.base = f'.base := by
  obtain ⟨beam, h1, h2, -⟩ := flat_base h
  obtain ⟨beam', h1', h2', -⟩ := flat_base h'
  unfold FlatFieldArgs.bare at ha
  injection ha with e1 e2 e3 e4 e5 e6 e7 e8
  rw [h2, h2']
  rw [e6, h1] at h1'
  unfold FlatFieldArgs.spinFor
  simp_all

theorem bare_alms {env : FlatEnv} {a : FlatFieldArgs} (hc : FlatCall a) {nc : ℕ} {v : FlatMaps} {g : FlatFieldObj}
    (h : nmtFieldFlat env (a.bare.withMaps nc v) = .ok g) : g.alms = some (some (popFlat env a (a.spinFor nc) v)) := by
  have hb : FlatCall a.bare := ⟨hc.unmasked, hc.full⟩
  have hi := (flat_is hb h).2
  have := hi.alms (fun _ _ => 0) (by rw [hi.matrix]; rfl)
  have hz : a.bare.nTempl = 0 := rfl
  rw [this, hz, range_zero, sum_empty, sub_zero]
  rfl

/-- The call without templates succeeds if the one with templates does. -/
theorem bare_ok {env : FlatEnv} {a : FlatFieldArgs} {nc : ℕ} {v : FlatMaps} {f : FlatFieldObj}
    (h : nmtFieldFlat env (a.withMaps nc v) = .ok f) : ∃ g, nmtFieldFlat env (a.bare.withMaps nc v) = .ok g := by
  obtain ⟨sp, beam, hs, hn, hp, -, hx, hy, hb, -⟩ := flat_ok (m := ⟨nc, a.fs.nx, a.fs.ny, v⟩) rfl h
  have hx' : 0 < a.fs.lx := hx
  have hy' : 0 < a.fs.ly := hy
  have hs' : flatSpin (a.bare.withMaps nc v) = .ok sp := hs
  have hsh : flatShapes (a.bare.withMaps nc v) = .ok () := by
    unfold flatShapes FlatFieldArgs.bare FlatFieldArgs.withMaps
    simp
  have hp' : ¬ ((a.purifyE || a.purifyB) = true ∧ sp ≠ 2) := fun h => h.2 (hp ((Bool.or_eq_true _ _).mp h.1))
  unfold nmtFieldFlat
  have e1 : (a.bare.withMaps nc v).fs = a.fs := rfl
  have e2 : (a.bare.withMaps nc v).purifyE = a.purifyE := rfl
  have e3 : (a.bare.withMaps nc v).purifyB = a.purifyB := rfl
  have e4 : flatBeam (a.bare.withMaps nc v).beam = .ok beam := hb
  rw [e1, hs', hsh, e2, e3, e4, if_neg (by push Not; exact ⟨hx'.le, hy'.le⟩)]
  simp only [Outcome.bind]
  rw [if_neg hp', if_neg (by push Not; exact ⟨hx', hy'⟩)]
  exact ⟨_, rfl⟩

theorem coupledCellFlat_shape {f1 f2 : FlatFieldData} {b : FlatBins ℝ} {c : EllCuts} {cl : Arr2 ℝ}
    (h : coupledCellFlat f1 f2 b c = .ok cl) : cl.rows = f1.nmaps * f2.nmaps ∧ cl.cols = b.nBands := by
  unfold coupledCellFlat at h
  split_ifs at h
  exact coupledCellFlatC_shape h

theorem flag_iff (p : Bool) : (if p = true then 1 else 0 : ℕ) = 1 ↔ p = true := by cases p <;> simp

theorem kmod_zero (fs : FlatInfo) : fs.kmod 0 0 = 0 := by
  simp [FlatInfo.kmod, FlatInfo.kx, FlatInfo.ky, waveNum]

/-- The spectra of two fields without templates, from the coefficients of the fields. -/
theorem coupled_values {env : FlatEnv} {a1 a2 : FlatFieldArgs} (hc1 : FlatCall a1) (hc2 : FlatCall a2) (hfs : a1.fs = a2.fs) {n1 n2 : ℕ}
    {v1 v2 : FlatMaps} {g1 g2 : FlatFieldObj} (hg1 : nmtFieldFlat env (a1.bare.withMaps n1 v1) = .ok g1)
    (hg2 : nmtFieldFlat env (a2.bare.withMaps n2 v2) = .ok g2) (b : FlatBins ℝ) (hb : GaplessBands b) (h0 : 0 < b.nBands) (c : EllCuts) :
    ∃ G, coupledCellFlat g1.data g2.data b c = .ok G ∧ (G.rows = n1 * n2 ∧ G.cols = b.nBands) ∧
      ∀ X < n1, ∀ Y < n2, ∀ ib < b.nBands, G.val (n2 * X + Y) ib =
        (∑ k ∈ bandModes a1.fs b c ib, halfProd a1.fs.nx (popFlat env a1 (a1.spinFor n1) v1 X) (popFlat env a2 (a2.spinFor n2) v2 Y) k) *
          (4 * π * π / (a1.fs.lx * a1.fs.ly) / #(bandModes a1.fs b c ib)) := by
  have hb1 : FlatCall a1.bare := ⟨hc1.unmasked, hc1.full⟩
  have hb2 : FlatCall a2.bare := ⟨hc2.unmasked, hc2.full⟩
  obtain ⟨beam1, -, hbase1, hfl1⟩ := flat_base hg1
  obtain ⟨beam2, -, hbase2, hfl2⟩ := flat_base hg2
  obtain ⟨hn1, hi1⟩ := flat_is hb1 hg1
  obtain ⟨hn2, hi2⟩ := flat_is hb2 hg2
  have hn2p : 0 < n2 := by rw [hn2]; exact pos_nmapsOf _
  have hcoup : coupledCellFlat g1.data g2.data b c = .ok (Arr2.of (n1 * n2) b.nBands fun i ib =>
      tab b.nBands (fun ib => (∑ k ∈ bandModes a1.fs b c ib, halfProd a1.fs.nx (popFlat env a1 (a1.spinFor n1) v1 (i / n2))
        (popFlat env a2 (a2.spinFor n2) v2 (i % n2)) k) *
        (4 * π * π / (a1.fs.lx * a1.fs.ly) / #(bandModes a1.fs b c ib))) ib) := by
    unfold coupledCellFlat coupledCellFlatC fsAlm2clAll
    have e1 : g1.data.fs = a1.fs := by change g1.base.fs = _; rw [hbase1]; rfl
    have e2 : g2.data.fs = a1.fs := by change g2.base.fs = _; rw [hbase2]; exact hfs.symm
    have e3 : g1.data.nmaps = n1 := by change nmapsOf g1.base.spin = _; rw [hbase1]; exact hn1.symm
    have e4 : g2.data.nmaps = n2 := by change nmapsOf g2.base.spin = _; rw [hbase2]; exact hn2.symm
    have e5 : g1.data.maskOnly = false := hi1.maskOnly
    have e6 : g2.data.maskOnly = false := hi2.maskOnly
    have e7 : g1.data.alms = popFlat env a1 (a1.spinFor n1) v1 := by
      unfold FlatFieldObj.data
      simp only [bare_alms hc1 hg1]
      rfl
    have e8 : g2.data.alms = popFlat env a2 (a2.spinFor n2) v2 := by
      unfold FlatFieldObj.data
      simp only [bare_alms hc2 hg2]
      rfl
    rw [e1, e2, e3, e4, e5, e6, e7, e8, if_neg (by simp), if_neg (by simp), if_neg (by simp), if_neg (by simp), if_neg (by omega),
      all_ok _ _ _ (fun i _ => fsAlm2cl_eq a1.fs b hb h0 c _ _)]
    simp only [Outcome.bind]
    congr 1
    apply Arr2.of_congr
    intro i j hi hj
    rw [List.getD_eq_getElem?_getD, List.getElem?_eq_getElem (by simpa using hi)]
    simp
  refine ⟨_, hcoup, ⟨rfl, rfl⟩, ?_⟩
  intro X hX Y hY ib hib
  have hXY : n2 * X + Y < n1 * n2 := idx_lt hX hY
  simp only [Arr2.of]
  rw [tab2_of_lt _ hXY hib, tab_of_lt _ hib, pairIdx_mod hY, pairIdx_div hY]

/-! ## The mean of the pseudo-spectra -/

/-- C80: the spectra returned by `compute_coupled_cell_flat` for fields without templates, purified or not, are on average the right
coupling matrix times the bandpowers, if no band contains multipole 0. Missing: the bands, ranges, skies and masks excluded by
`FlatScheme`. -/
theorem C80_expectation_partial {Ω : Type*} [MeasurableSpace Ω] (μ : Measure Ω) [IsProbabilityMeasure μ] (env : FlatEnv) (hE : env.Exact)
    (a1 a2 : FlatFieldArgs) (hc1 : FlatCall a1) (hc2 : FlatCall a2) (n1 n2 : ℕ) (s1 s2 : Ω → FlatMaps)
    (F1 F2 : Ω → ℕ → ℕ × ℕ → ℂ) (C : ℕ → ℕ → ℕ × ℕ → ℝ) (hS : FlatSkies μ a1 a2 n1 n2 s1 s2 F1 F2 C)
    (b : FlatBins ℝ) (c : EllCuts) (hB : FlatScheme a1 a2 n1 n2 F1 F2 b c) (g1 g2 : Ω → FlatFieldObj)
    (hg1 : ∀ ω, nmtFieldFlat env (a1.bare.withMaps n1 (s1 ω)) = .ok (g1 ω))
    (hg2 : ∀ ω, nmtFieldFlat env (a2.bare.withMaps n2 (s2 ω)) = .ok (g2 ω))
    (Cb : ℕ → ℕ → ℕ → ℝ) (hCb : ∀ ω, BandSpectra (g1 ω).base (g2 ω).base b Cb C) :
    ∃ G : Ω → Arr2 ℝ, (∀ ω, coupledCellFlat (g1 ω).data (g2 ω).data b c = .ok (G ω)) ∧
      (∀ ω, (G ω).rows = n1 * n2 ∧ (G ω).cols = b.nBands) ∧
      ∀ ω0, ∀ X < n1, ∀ Y < n2, ∀ ib < b.nBands, Integrable (fun ω => (G ω).val (n2 * X + Y) ib) μ ∧
        ∫ ω, (G ω).val (n2 * X + Y) ib ∂μ = ∑ ib' ∈ range b.nBands, ∑ X' ∈ range n1, ∑ Y' ∈ range n2,
          trueCouplingPure (g1 ω0).base (g2 ω0).base b c X Y ib X' Y' ib' * Cb X' Y' ib' := by
  obtain ⟨ω1⟩ := nonempty_of_isProbabilityMeasure μ
  have hb1 : FlatCall a1.bare := ⟨hc1.unmasked, hc1.full⟩
  have hb2 : FlatCall a2.bare := ⟨hc2.unmasked, hc2.full⟩
  obtain ⟨beam1, -, hbase1, hfl1⟩ := flat_base (hg1 ω1)
  obtain ⟨beam2, -, hbase2, hfl2⟩ := flat_base (hg2 ω1)
  have hall1 : ∀ ω, (g1 ω).base = (g1 ω1).base := fun ω => flat_base_eq rfl (hg1 ω) (hg1 ω1)
  have hall2 : ∀ ω, (g2 ω).base = (g2 ω1).base := fun ω => flat_base_eq rfl (hg2 ω) (hg2 ω1)
  obtain ⟨hn1, hi1⟩ := flat_is hb1 (hg1 ω1)
  obtain ⟨hn2, hi2⟩ := flat_is hb2 (hg2 ω1)
  have hsp1 : a1.bare.spinFor n1 = a1.spinFor n1 := rfl
  have hsp2 : a2.bare.spinFor n2 = a2.spinFor n2 := rfl
  rw [hsp1] at hn1 hi1
  rw [hsp2] at hn2 hi2
  set sp1 := a1.spinFor n1 with hsp1'
  set sp2 := a2.spinFor n2 with hsp2'
  set f1 := (g1 ω1).base with hf1
  set f2 := (g2 ω1).base with hf2
  set fs := a1.fs with hfs
  have hlx : 0 < fs.lx := hi1.lx
  have hly : 0 < fs.ly := hi1.ly
  have hfs2 : a2.fs = fs := hS.fs.symm
  have hf1fs : f1.fs = fs := by rw [hbase1]; rfl
  have hf2fs : f2.fs = fs := by rw [hbase2]; exact hfs2
  have hf1s : f1.spin = sp1 := by rw [hbase1]; rfl
  have hf2s : f2.spin = sp2 := by rw [hbase2]; rfl
  have hf1m : f1.mask = a1.mask := by rw [hbase1]; rfl
  have hf2m : f2.mask = a2.mask := by rw [hbase2]; rfl
  have hn2p : 0 < n2 := by rw [hn2]; exact pos_nmapsOf _
  set A1 : Ω → FlatAlms := fun ω => popFlat env a1 sp1 (s1 ω) with hA1
  set A2 : Ω → FlatAlms := fun ω => popFlat env a2 sp2 (s2 ω) with hA2
  choose G hG hshape hv using fun ω => coupled_values hc1 hc2 hS.fs (hg1 ω) (hg2 ω) b hB.gapless hB.some c
  refine ⟨G, hG, hshape, ?_⟩
  intro ω0 X hX Y hY ib hib
  rw [hall1 ω0, hall2 ω0]
  have hval : ∀ ω, (G ω).val (n2 * X + Y) ib =
      (∑ k ∈ bandModes fs b c ib, halfProd fs.nx (A1 ω X) (A2 ω Y) k) * (4 * π * π / (fs.lx * fs.ly) / #(bandModes fs b c ib)) :=
    fun ω => hv ω X hX Y hY ib hib
  simp only [hval]
  set B := bandModes fs b c ib with hBdef
  -- modes of the band
  have hmem : ∀ k ∈ B, k ∈ fs.modes ∧ InBand b ib (fs.kmod k.1 k.2) := by
    intro k hk
    rw [hBdef] at hk
    unfold bandModes at hk
    rw [Finset.mem_filter] at hk
    exact ⟨hk.1, hk.2.2⟩
  have hz : ∀ k ∈ B, (a1.Purifies ∨ a2.Purifies) → k ≠ (0, 0) := by
    intro k hk hp h
    have := (hmem k hk).2
    rw [h] at this
    simp only [kmod_zero] at this
    exact hB.zero hp ib this
  have hp1 : a1.Purifies → sp1 = 2 := hi1.pure2
  have hp2 : a2.Purifies → sp2 = 2 := hi2.pure2
  have hny : ∀ k ∈ B, ((sp1 = 0 ∧ ¬ a1.Purifies) ∧ (sp2 = 0 ∧ ¬ a2.Purifies)) ∨ 2 * k.2 ≠ fs.ny := by
    intro k hk
    rcases hB.nyquist with h | h
    · exact Or.inl ⟨⟨h.1, fun hp => by have := hp1 hp; omega⟩, h.2, fun hp => by have := hp2 hp; omega⟩
    · exact Or.inr (bandModes_nyquist h hk)
  have hsum : ∀ ω, ∑ k ∈ B, halfProd fs.nx (A1 ω X) (A2 ω Y) k = ∑ k ∈ B, (A1 ω X k * star (A2 ω Y k)).re := by
    intro ω
    rw [← sum_reflect (fs := fs) B (bandModes_flip b c hB.cuts ib) (fun k => (A1 ω X k * star (A2 ω Y k)).re)]
    refine Finset.sum_congr rfl fun k hk => halfProd_of_half _ _ (fun hx => ?_) fun hx => ?_
    · exact popFlat_half hlx sp1 (s1 ω) X (hmem k hk).1 hx ((hny k hk).imp (·.1) id)
    · have := popFlat_half (env := env) (a := a2) (by rw [hfs2]; exact hlx) sp2 (s2 ω) Y (by rw [hfs2]; exact (hmem k hk).1)
        (by rw [hfs2]; exact hx) (by rw [hfs2]; exact (hny k hk).imp (·.2) id)
      rw [hfs2] at this
      exact this
  simp only [hsum]
  have hmp : ∀ k1 ∈ B, Integrable (fun ω => (A1 ω X k1 * star (A2 ω Y k1)).re) μ ∧
      ∫ ω, (A1 ω X k1 * star (A2 ω Y k1)).re ∂μ = ∑ k2 ∈ fs.modes, ∑ X' ∈ range n1, ∑ Y' ∈ range n2,
        maskPower fs a1.mask a2.mask (fs.sub k1 k2) * (f1.mix k1 k2 X X' * f2.mix k1 k2 Y Y') * (C X' Y' k2 / (fs.lx * fs.ly)) := by
    intro k1 hk1
    refine mean_power_mix μ fs n1 n2 a1.mask a2.mask F1 F2 C hS.cov k1 _ _ _ _ (fun ω => ?_) fun ω => ?_
    · have := popFlat_mix hE (a := a1) hlx hly hp1 (hS.sky1 ω) (fun hp => ⟨(hB.pure1 hp).1, (hB.pure1 hp).2 ω⟩) f1 hf1fs hf1s
        (by rw [hbase1]; exact flag_iff _)
        (by rw [hbase1]; exact flag_iff _)
        (X := X) (by rw [← hn1]; exact hX) (hmem k1 hk1).1 (fun hp => hz k1 hk1 (Or.inl hp))
      rw [← hn1] at this
      exact this
    · have := popFlat_mix hE (a := a2) (by rw [hfs2]; exact hlx) (by rw [hfs2]; exact hly) hp2
        (F := F2 ω) (m := s2 ω) (by rw [hfs2]; exact hS.sky2 ω)
        (fun hp => ⟨by rw [hfs2]; exact (hB.pure2 hp).1, by rw [hfs2]; exact (hB.pure2 hp).2 ω⟩) f2 (by rw [hf2fs, hfs2]) hf2s
        (by rw [hbase2]; exact flag_iff _)
        (by rw [hbase2]; exact flag_iff _)
        (X := Y) (by rw [← hn2]; exact hY) (by rw [hfs2]; exact (hmem k1 hk1).1) (fun hp => hz k1 hk1 (Or.inr hp))
      rw [← hn2, hfs2] at this
      exact this
  refine ⟨(integrable_finsetSum _ fun k hk => (hmp k hk).1).mul_const _, ?_⟩
  rw [integral_mul_const, integral_finsetSum _ fun k hk => (hmp k hk).1, Finset.sum_congr rfl fun k hk => (hmp k hk).2]
  have hCb' := hCb ω1
  have hsplit : ∀ k1, ∑ k2 ∈ fs.modes, ∑ X' ∈ range n1, ∑ Y' ∈ range n2,
        maskPower fs a1.mask a2.mask (fs.sub k1 k2) * (f1.mix k1 k2 X X' * f2.mix k1 k2 Y Y') * (C X' Y' k2 / (fs.lx * fs.ly)) =
      ∑ ib' ∈ range b.nBands, ∑ X' ∈ range n1, ∑ Y' ∈ range n2,
        ∑ k2 ∈ bandModesAll fs b ib', maskPower fs a1.mask a2.mask (fs.sub k1 k2) *
          (f1.beam (fs.kmod k2.1 k2.2) * f2.beam (fs.kmod k2.1 k2.2)) *
          (f1.mix k1 k2 X X' * f2.mix k1 k2 Y Y') * (Cb X' Y' ib' / (fs.lx * fs.ly)) := by
    intro k1
    rw [sum_modes_bands hB.gapless.toOrderedBands]
    · refine Finset.sum_congr rfl fun ib' _ => ?_
      rw [Finset.sum_comm]
      refine Finset.sum_congr rfl fun X' _ => ?_
      rw [Finset.sum_comm]
      refine Finset.sum_congr rfl fun Y' _ => Finset.sum_congr rfl fun k2 hk2 => ?_
      unfold bandModesAll at hk2
      rw [Finset.mem_filter] at hk2
      have := (hCb' X' Y' k2 (by rw [← hf1, hf1fs]; exact hk2.1)).1 ib' (by rw [← hf1, hf1fs]; exact hk2.2)
      rw [← hf1, ← hf2, hf1fs] at this
      rw [this]
      ring
    · intro k hk hn
      refine Finset.sum_eq_zero fun X' _ => Finset.sum_eq_zero fun Y' _ => ?_
      rw [(hCb' X' Y' k (by rw [← hf1, hf1fs]; exact hk)).2 (by rw [← hf1, hf1fs]; exact hn)]
      simp
  simp only [hsplit]
  rw [Finset.sum_comm, Finset.sum_mul]
  refine Finset.sum_congr rfl fun ib' _ => ?_
  rw [Finset.sum_comm, Finset.sum_mul]
  refine Finset.sum_congr rfl fun X' _ => ?_
  rw [Finset.sum_comm, Finset.sum_mul]
  refine Finset.sum_congr rfl fun Y' _ => ?_
  unfold trueCouplingPure
  rw [hf1fs, hf1m, hf2m, ← hBdef]
  simp only [← Finset.sum_mul]
  rw [mul_assoc (4 * π * π / _ / _)]
  have e1 : 4 * π * π / (fs.lx * fs.lx * fs.ly * fs.ly) / (#B : ℝ) =
      4 * π * π / (fs.lx * fs.ly) / #B / (fs.lx * fs.ly) := by
    simp only [div_eq_mul_inv, mul_inv]
    ring
  rw [e1]
  ring

/-! ## The coupling matrix of the library -/

/-- C80: the coupling matrix of the library, for fields purified or not, is the right one for the pairs of spectra of equal parity, and for
all pairs if the cross-spectrum of the masks is symmetric under reflections. Missing: as for C58; and, for purified fields, bands
containing multipole 0 (see `C80_zero_mode_wrong`). -/
theorem C80_matrix_partial (f1 f2 : FlatField) (hfs : f1.fs = f2.fs) (hf1 : f1.FlagsOk) (hf2 : f2.FlagsOk) (b : FlatBins ℝ)
    (hb : GaplessBands b) (h0 : 0 < b.nBands) (c : EllCuts) (hl : 0 < f1.fs.lx) (hc : SymmetricCuts f1.fs c)
    (hN : (f1.spin = 0 ∧ f2.spin = 0) ∨ NoNyquist f1.fs b) (hz : NotPurified f1 f2 ∨ ∀ ib, ¬ InBand b ib 0) :
    ∃ W, couplingFlat f1 f2 b c false = .ok W ∧ ∀ X < nmapsOf f1.spin, ∀ Y < nmapsOf f2.spin, ∀ X' < nmapsOf f1.spin,
      ∀ Y' < nmapsOf f2.spin, Even (X + Y + X' + Y') ∨ ReflectionSymmetric f1 f2 → ∀ ib < b.nBands, ∀ ib' < b.nBands,
        W.coupling f2 X Y ib X' Y' ib' = trueCouplingPure f1 f2 b c X Y ib X' Y' ib' := by
  obtain ⟨W, hW, hn, hbin⟩ := couplingFlat_eq f1 f2 b hb h0 c false hfs (by simp)
  simp only [Bool.false_eq_true, if_false] at hn
  refine ⟨W, hW, ?_⟩
  intro X hX Y hY X' hX' Y' hY' hpar ib hib ib' hib'
  unfold WspFlat.coupling
  rw [hbin _ (by rw [hn]; exact idx_lt hX hY) _ (by rw [hn]; exact idx_lt hX' hY') ib hib ib' hib', hn]
  unfold trueCouplingPure
  rw [mul_comm]
  congr 1
  have hB1 := bandModes_flip b c hc ib
  have hB2 := bandModesAll_flip (fs := f1.fs) b ib'
  have hz1 : ∀ k1 ∈ bandModes f1.fs b c ib, k1 ≠ (0, 0) ∨ NotPurified f1 f2 := by
    intro k1 hk1
    rcases hz with h | h
    · exact Or.inr h
    · refine Or.inl fun h00 => ?_
      unfold bandModes at hk1
      rw [Finset.mem_filter, h00] at hk1
      have := hk1.2.2
      simp only [kmod_zero] at this
      exact h ib this
  have hstep : ∀ k1 ∈ bandModes f1.fs b c ib, ∀ k2 ∈ bandModesAll f1.fs b ib',
      coupTerm f1 f2 (nmapsOf f1.spin * nmapsOf f2.spin) (halfProd f1.fs.nx (f1.fs.map2alm f1.mask) (f1.fs.map2alm f2.mask))
        (nmapsOf f2.spin * X + Y) (nmapsOf f2.spin * X' + Y') k1 k2 =
      f1.beam (f1.fs.kmod k2.1 k2.2) * f2.beam (f1.fs.kmod k2.1 k2.2) * (f1.mix k1 k2 X X' * f2.mix k1 k2 Y Y') *
        (if 2 * (f1.fs.sub k1 k2).1 ≤ f1.fs.nx then maskPower f1.fs f1.mask f2.mask (f1.fs.sub k1 k2)
        else maskPower f1.fs f1.mask f2.mask (f1.fs.flip (f1.fs.sub k1 k2))) := by
    intro k1 hk1 k2 hk2
    rw [coupTerm_mix f1 f2 hfs hf1 hf2 _ X Y X' Y' hX hY hX' hY' k1 k2 (hz1 k1 hk1),
      halfProd_mask hl _ _ (sub_mem (hB1 k1 hk1).1 (hB2 k2 hk2).1)]
  rw [Finset.sum_congr rfl fun k1 hk1 => Finset.sum_congr rfl fun k2 hk2 => hstep k1 hk1 k2 hk2]
  rcases hpar with hpar | hs
  · have hrefl := sum_reflect_pair (fs := f1.fs) _ _ hB1 hB2 (maskPower f1.fs f1.mask f2.mask) (fun k1 k2 =>
      f1.beam (f1.fs.kmod k2.1 k2.2) * f2.beam (f1.fs.kmod k2.1 k2.2) * (f1.mix k1 k2 X X' * f2.mix k1 k2 Y Y')) (by
        intro k1 hk1 k2 hk2
        have hm : f1.fs.kmod (f1.fs.flip k2).1 (f1.fs.flip k2).2 = f1.fs.kmod k2.1 k2.2 := kmod_neg (hB2 k2 hk2).1
        have hy : (f1.spin = 0 ∧ f2.spin = 0) ∨ (2 * k1.2 ≠ f1.fs.ny ∧ 2 * k2.2 ≠ f1.fs.ny) :=
          hN.imp id fun h => ⟨bandModes_nyquist h hk1, bandModesAll_nyquist h hk2⟩
        have e2 := mix_flip f2 (k1 := k1) (k2 := k2) (by rw [← hfs]; exact (hB1 k1 hk1).1) (by rw [← hfs]; exact (hB2 k2 hk2).1)
          (by rw [← hfs]; exact hy.imp (·.2) id) hY hY'
        rw [← hfs] at e2
        rw [hm, mix_flip f1 (hB1 k1 hk1).1 (hB2 k2 hk2).1 (hy.imp (·.1) id) hX hX', e2]
        have hs : ((-1 : ℝ)) ^ (X + X') * (-1) ^ (Y + Y') = 1 := by
          rw [← pow_add]
          exact Even.neg_one_pow (by rwa [show X + X' + (Y + Y') = X + Y + X' + Y' by ring])
        linear_combination (f1.beam (f1.fs.kmod k2.1 k2.2) * f2.beam (f1.fs.kmod k2.1 k2.2) *
          (f1.mix k1 k2 X X' * f2.mix k1 k2 Y Y')) * hs)
    exact hrefl.trans (Finset.sum_congr rfl fun k1 _ => Finset.sum_congr rfl fun k2 _ => by ring)
  · refine Finset.sum_congr rfl fun k1 hk1 => Finset.sum_congr rfl fun k2 hk2 => ?_
    rw [hs _ (sub_mem (hB1 k1 hk1).1 (hB2 k2 hk2).1), ite_self]
    ring

theorem matrix_call {Ω : Type*} [MeasurableSpace Ω] {μ : Measure Ω} {env : FlatEnv}
    {a1 a2 : FlatFieldArgs} (hc1 : FlatCall a1) (hc2 : FlatCall a2) {n1 n2 : ℕ} {s1 s2 : Ω → FlatMaps}
    {F1 F2 : Ω → ℕ → ℕ × ℕ → ℂ} {C : ℕ → ℕ → ℕ × ℕ → ℝ} (hS : FlatSkies μ a1 a2 n1 n2 s1 s2 F1 F2 C)
    {b : FlatBins ℝ} {c : EllCuts} (hB : FlatScheme a1 a2 n1 n2 F1 F2 b c) {v1 v2 : FlatMaps} {g1 g2 : FlatFieldObj}
    (hg1 : nmtFieldFlat env (a1.bare.withMaps n1 v1) = .ok g1) (hg2 : nmtFieldFlat env (a2.bare.withMaps n2 v2) = .ok g2) :
    ∃ W, couplingFlat g1.base g2.base b c false = .ok W ∧ (∀ X < n1, ∀ Y < n2, ∀ X' < n1, ∀ Y' < n2,
      Even (X + Y + X' + Y') ∨ ReflectionSymmetric g1.base g2.base → ∀ ib < b.nBands, ∀ ib' < b.nBands,
        W.coupling g2.base X Y ib X' Y' ib' = trueCouplingPure g1.base g2.base b c X Y ib X' Y' ib') ∧ W.ncls = n1 * n2 ∧
      nmapsOf g1.base.spin = n1 ∧ nmapsOf g2.base.spin = n2 := by
  have hb1 : FlatCall a1.bare := ⟨hc1.unmasked, hc1.full⟩
  have hb2 : FlatCall a2.bare := ⟨hc2.unmasked, hc2.full⟩
  obtain ⟨beam1, -, hbase1, hfl1⟩ := flat_base hg1
  obtain ⟨beam2, -, hbase2, hfl2⟩ := flat_base hg2
  obtain ⟨hn1, hi1⟩ := flat_is hb1 hg1
  obtain ⟨hn2, hi2⟩ := flat_is hb2 hg2
  have e1 : g1.base.fs = a1.fs := hi1.fs
  have e2 : g2.base.fs = a2.fs := hi2.fs
  have e3 : g1.base.spin = a1.spinFor n1 := hi1.spin
  have e4 : g2.base.spin = a2.spinFor n2 := hi2.spin
  have hs1 : nmapsOf g1.base.spin = n1 := by rw [e3]; exact hn1.symm
  have hs2 : nmapsOf g2.base.spin = n2 := by rw [e4]; exact hn2.symm
  have hfs : g1.base.fs = g2.base.fs := by rw [e1, e2, hS.fs]
  obtain ⟨W, hW, hM⟩ := C80_matrix_partial g1.base g2.base hfs hfl1 hfl2 b hB.gapless hB.some c
    (by rw [e1]; exact hi1.lx) (by rw [e1]; exact hB.cuts) (by rw [e1, e3, e4]; exact hB.nyquist) (by
      by_cases hp : a1.Purifies ∨ a2.Purifies
      · exact Or.inr (hB.zero hp)
      · left
        unfold FlatFieldArgs.Purifies at hp
        push Not at hp
        rw [hbase1, hbase2]
        exact ⟨if_neg hp.1.1, if_neg hp.1.2, if_neg hp.2.1, if_neg hp.2.2⟩)
  obtain ⟨W', hW', hn, -⟩ := couplingFlat_eq g1.base g2.base b hB.gapless hB.some c false hfs (by simp)
  have hWW : W = W' := by rw [hW] at hW'; cases hW'; rfl
  subst hWW
  simp only [Bool.false_eq_true, if_false] at hn
  rw [hs1, hs2] at hM hn
  exact ⟨W, hW, hM, hn, hs1, hs2⟩

/-! ## Decoupling -/

/-- Decoupling spectra whose mean is the coupling matrix times some bandpowers, plus a bias that is passed to `decouple_cell`, gives the
bandpowers on average. -/
theorem decoupled_mean {Ω : Type*} [MeasurableSpace Ω] (μ : Measure Ω) [IsProbabilityMeasure μ] (L : LinAlg ℝ) (hL : L.Correct)
    (W : WspFlat) (hreg : Regular (W.ncls * W.bin.nBands) W.gslMatrix) (F : Ω → Arr2 ℝ) (bias : Option (Arr2 ℝ))
    (hF : ∀ ω, (F ω).rows = W.ncls ∧ (F ω).cols = W.bin.nBands) 
    (hbs : ∀ B, bias = some B → B.rows = W.ncls ∧ B.cols = W.bin.nBands)
    (D : ℕ → ℕ → ℝ)
    (hm : ∀ i < W.ncls, ∀ ib < W.bin.nBands, Integrable (fun ω => (F ω).val i ib) μ ∧
      ∫ ω, (F ω).val i ib ∂μ = ∑ ib' ∈ range W.bin.nBands, ∑ j ∈ range W.ncls,
        W.gslMatrix (W.ncls * ib + i) (W.ncls * ib' + j) * D j ib' + (bias.map (·.val i ib)).getD 0) :
    ∃ out : Ω → Arr2 ℝ, (∀ ω, decoupleCellFlat L (some W) (F ω) bias none = .ok (out ω)) ∧
      ∀ i < W.ncls, ∀ ib < W.bin.nBands, Integrable (fun ω => (out ω).val i ib) μ ∧ ∫ ω, (out ω).val i ib ∂μ = D i ib := by
  set N := W.ncls * W.bin.nBands with hN
  set B : Arr2 ℝ := bias.getD ⟨W.ncls, W.bin.nBands, fun _ _ => 0⟩ with hBdef
  have hBv : ∀ i ib, (bias.map (·.val i ib)).getD 0 = B.val i ib := by
    intro i ib
    rw [hBdef]
    cases bias <;> rfl
  simp only [hBv] at hm
  have hout : ∀ ω, decoupleCellFlat L (some W) (F ω) bias none = .ok (Arr2.of W.ncls W.bin.nBands fun icl ib2 =>
      if icl < W.ncls then L.solve N W.gslMatrix (flatInput W (F ω).val (fun _ _ => 0) B.val) (W.ncls * ib2 + icl) else 0) := by
    intro ω
    unfold decoupleCellFlat decoupleFlatC
    cases hb : bias with
    | none =>
      simp only
      rw [if_neg (by simp [hF ω]), if_neg (by simp), if_neg (by simp), if_neg (by simp [hF ω]), if_neg (by simp [hF ω]), hBdef, hb]
      rfl
    | some B' =>
      obtain ⟨hbr, hbc⟩ := hbs B' hb
      simp only
      rw [if_neg (by simp [hF ω]), if_neg (by simp [hbr, hbc]), if_neg (by simp), if_neg (by simp [hF ω, hbr, hbc]),
        if_neg (by simp [hF ω, hbr]), hBdef, hb]
      rfl
  refine ⟨_, hout, ?_⟩
  intro i hi ib hib
  have hval : ∀ ω, (Arr2.of W.ncls W.bin.nBands fun icl ib2 =>
      if icl < W.ncls then L.solve N W.gslMatrix (flatInput W (F ω).val (fun _ _ => 0) B.val) (W.ncls * ib2 + icl) else 0).val i ib =
      ∑ ib2 ∈ range W.bin.nBands, ∑ j ∈ range W.ncls, L.invert N W.gslMatrix (W.ncls * ib + i) (W.ncls * ib2 + j) *
        ((F ω).val j ib2 - B.val j ib2) := by
    intro ω
    simp only [Arr2.of]
    rw [tab2_of_lt _ hi hib, if_pos hi, hL.solve_invert hreg _ _ (flat_lt hi hib), hN, sum_flat]
    refine Finset.sum_congr rfl fun ib2 hib2 => Finset.sum_congr rfl fun j hj => ?_
    rw [Finset.mem_range] at hib2 hj
    rw [flatInput_apply W _ _ _ hj hib2]
    ring
  simp only [hval]
  have hint0 : ∀ ib2 < W.bin.nBands, ∀ j < W.ncls, Integrable (fun ω => (F ω).val j ib2 - B.val j ib2) μ := fun ib2 hib2 j hj =>
    (hm j hj ib2 hib2).1.sub (integrable_const _)
  have hint : ∀ ib2 ∈ range W.bin.nBands, ∀ j ∈ range W.ncls, Integrable (fun ω =>
      L.invert N W.gslMatrix (W.ncls * ib + i) (W.ncls * ib2 + j) * ((F ω).val j ib2 - B.val j ib2)) μ := fun ib2 hib2 j hj =>
    (hint0 ib2 (Finset.mem_range.1 hib2) j (Finset.mem_range.1 hj)).const_mul _
  refine ⟨integrable_finsetSum _ fun ib2 hib2 => integrable_finsetSum _ fun j hj => hint ib2 hib2 j hj, ?_⟩
  rw [integral_finsetSum _ fun ib2 hib2 => integrable_finsetSum _ fun j hj => hint ib2 hib2 j hj]
  have hmean : ∀ ib2 ∈ range W.bin.nBands, ∫ ω, ∑ j ∈ range W.ncls,
      L.invert N W.gslMatrix (W.ncls * ib + i) (W.ncls * ib2 + j) * ((F ω).val j ib2 - B.val j ib2) ∂μ =
      ∑ j ∈ range W.ncls, L.invert N W.gslMatrix (W.ncls * ib + i) (W.ncls * ib2 + j) *
        ∑ s ∈ range N, W.gslMatrix (W.ncls * ib2 + j) s * D (s % W.ncls) (s / W.ncls) := by
    intro ib2 hib2
    rw [integral_finsetSum _ fun j hj => hint ib2 hib2 j hj]
    refine Finset.sum_congr rfl fun j hj => ?_
    rw [Finset.mem_range] at hib2 hj
    rw [integral_const_mul, integral_sub (hm j hj ib2 hib2).1 (integrable_const _), (hm j hj ib2 hib2).2]
    congr 1
    rw [integral_const, hN, sum_flat]
    simp only [probReal_univ, one_smul, add_sub_cancel_right]
    refine Finset.sum_congr rfl fun ib' _ => Finset.sum_congr rfl fun j' hj' => ?_
    rw [Finset.mem_range] at hj'
    rw [pairIdx_mod hj', pairIdx_div hj']
  rw [Finset.sum_congr rfl hmean, ← sum_flat W.ncls W.bin.nBands fun r =>
    L.invert N W.gslMatrix (W.ncls * ib + i) r * ∑ s ∈ range N, W.gslMatrix r s * D (s % W.ncls) (s / W.ncls), ← hN,
    ← hL.solve_invert hreg (fun r => ∑ s ∈ range N, W.gslMatrix r s * D (s % W.ncls) (s / W.ncls)) _ (flat_lt hi hib),
    hL.solve_eq hreg (fun s => D (s % W.ncls) (s / W.ncls)) _ (fun _ _ => rfl) _ (flat_lt hi hib), pairIdx_mod hi, pairIdx_div hi]

theorem trueCoupling_sum (W : WspFlat) (f1 f2 : FlatField) (b : FlatBins ℝ) (c : EllCuts) (hWb : W.bin = b)
    (hn : W.ncls = nmapsOf f1.spin * nmapsOf f2.spin) (Cb : ℕ → ℕ → ℕ → ℝ) {i ib : ℕ} (hi : i < W.ncls)
    (hM : ∀ X' < nmapsOf f1.spin, ∀ Y' < nmapsOf f2.spin, ∀ ib' < b.nBands,
      W.coupling f2 (i / nmapsOf f2.spin) (i % nmapsOf f2.spin) ib X' Y' ib' =
        trueCouplingPure f1 f2 b c (i / nmapsOf f2.spin) (i % nmapsOf f2.spin) ib X' Y' ib') :
    ∑ ib' ∈ range W.bin.nBands, ∑ j ∈ range W.ncls, W.gslMatrix (W.ncls * ib + i) (W.ncls * ib' + j) *
        Cb (j / nmapsOf f2.spin) (j % nmapsOf f2.spin) ib' =
      ∑ ib' ∈ range b.nBands, ∑ X' ∈ range (nmapsOf f1.spin), ∑ Y' ∈ range (nmapsOf f2.spin),
        trueCouplingPure f1 f2 b c (i / nmapsOf f2.spin) (i % nmapsOf f2.spin) ib X' Y' ib' * Cb X' Y' ib' := by
  rw [hWb]
  refine Finset.sum_congr rfl fun ib' hib' => ?_
  rw [Finset.mem_range] at hib'
  have hr : range W.ncls = range (nmapsOf f1.spin * nmapsOf f2.spin) := by rw [hn]
  rw [hr, sum_pairs]
  refine Finset.sum_congr rfl fun X' hX' => Finset.sum_congr rfl fun Y' hY' => ?_
  rw [Finset.mem_range] at hX' hY'
  have hXY : nmapsOf f2.spin * X' + Y' < W.ncls := by rw [hn]; exact idx_lt hX' hY'
  rw [pairIdx_mod hY', pairIdx_div hY', ← hM X' hX' Y' hY' ib' hib', gslMatrix_apply W ib ib' hi hXY]
  unfold WspFlat.coupling
  rw [Nat.div_add_mod]

/-! ## C80 -/

/-- C80: the MASTER relation for fields purified or not. The mean of the spectra returned by `compute_coupled_cell_flat` for fields without
templates is the coupling matrix of the library times the bandpowers, if the spectra of the sky of parity opposite to the one
computed vanish, or if the masks are symmetric. Missing: other skies and masks together (see `C58_chiral_wrong`); the bands, ranges,
skies and masks excluded by `FlatScheme`. -/
theorem C80_master_partial {Ω : Type*} [MeasurableSpace Ω] (μ : Measure Ω) [IsProbabilityMeasure μ] (env : FlatEnv) (hE : env.Exact)
    (a1 a2 : FlatFieldArgs) (hc1 : FlatCall a1) (hc2 : FlatCall a2) (n1 n2 : ℕ) (s1 s2 : Ω → FlatMaps)
    (F1 F2 : Ω → ℕ → ℕ × ℕ → ℂ) (C : ℕ → ℕ → ℕ × ℕ → ℝ) (hS : FlatSkies μ a1 a2 n1 n2 s1 s2 F1 F2 C)
    (b : FlatBins ℝ) (c : EllCuts) (hB : FlatScheme a1 a2 n1 n2 F1 F2 b c) (g1 g2 : Ω → FlatFieldObj)
    (hg1 : ∀ ω, nmtFieldFlat env (a1.bare.withMaps n1 (s1 ω)) = .ok (g1 ω))
    (hg2 : ∀ ω, nmtFieldFlat env (a2.bare.withMaps n2 (s2 ω)) = .ok (g2 ω))
    (Cb : ℕ → ℕ → ℕ → ℝ) (hCb : ∀ ω, BandSpectra (g1 ω).base (g2 ω).base b Cb C) :
    ∃ (W : WspFlat) (G : Ω → Arr2 ℝ), (∀ ω, couplingFlat (g1 ω).base (g2 ω).base b c false = .ok W) ∧
      (∀ ω, coupledCellFlat (g1 ω).data (g2 ω).data b c = .ok (G ω)) ∧
      ∀ X < n1, ∀ Y < n2,
        (∀ X' Y' ib', Odd (X + Y + X' + Y') → Cb X' Y' ib' = 0) ∨ (∀ ω, ReflectionSymmetric (g1 ω).base (g2 ω).base) →
        ∀ ib < b.nBands, Integrable (fun ω => (G ω).val (n2 * X + Y) ib) μ ∧
          ∫ ω, (G ω).val (n2 * X + Y) ib ∂μ = ∑ ib' ∈ range b.nBands, ∑ X' ∈ range n1, ∑ Y' ∈ range n2,
            W.binned (n2 * X + Y) ib (n2 * X' + Y') ib' * Cb X' Y' ib' := by
  obtain ⟨ω1⟩ := nonempty_of_isProbabilityMeasure μ
  obtain ⟨G, hG, -, hmean⟩ := C80_expectation_partial μ env hE a1 a2 hc1 hc2 n1 n2 s1 s2 F1 F2 C hS b c hB g1 g2 hg1 hg2 Cb hCb
  obtain ⟨W, hW, hM, -, hs1, hs2⟩ := matrix_call hc1 hc2 hS hB (hg1 ω1) (hg2 ω1)
  have hall1 : ∀ ω, (g1 ω).base = (g1 ω1).base := fun ω => flat_base_eq rfl (hg1 ω) (hg1 ω1)
  have hall2 : ∀ ω, (g2 ω).base = (g2 ω1).base := fun ω => flat_base_eq rfl (hg2 ω) (hg2 ω1)
  refine ⟨W, G, fun ω => by rw [hall1, hall2]; exact hW, hG, ?_⟩
  intro X hX Y hY hpar ib hib
  refine ⟨(hmean ω1 X hX Y hY ib hib).1, (hmean ω1 X hX Y hY ib hib).2.trans ?_⟩
  refine Finset.sum_congr rfl fun ib' hib' => Finset.sum_congr rfl fun X' hX' => Finset.sum_congr rfl fun Y' hY' => ?_
  rw [Finset.mem_range] at hib' hX' hY'
  rcases Nat.even_or_odd (X + Y + X' + Y') with he | ho
  · rw [← hM X hX Y hY X' hX' Y' hY' (Or.inl he) ib hib ib' hib']
    unfold WspFlat.coupling
    rw [hs2]
  · rcases hpar with h | h
    · rw [h X' Y' ib' ho, mul_zero, mul_zero]
    · rw [← hM X hX Y hY X' hX' Y' hY' (Or.inr (h ω1)) ib hib ib' hib']
      unfold WspFlat.coupling
      rw [hs2]

/-- C80: the flat-sky pipeline is unbiased. For fields with or without templates, purified or not, subtracting the deprojection bias of the
right best guess and decoupling gives the bandpowers on average; both step by step and with `compute_full_master_flat`. This holds if
the coupling matrix is invertible, and both fields have spin 0 or the masks are symmetric. `D` is what the model of
`compute_full_master_flat` calls for the bias of fields with templates; it is assumed to agree with `deprojection_bias_flat`.
Missing: other masks; the bands, ranges, skies and masks excluded by `FlatScheme`. -/
theorem C80_decoupled_partial {Ω : Type*} [MeasurableSpace Ω] (μ : Measure Ω) [IsProbabilityMeasure μ] (L : LinAlg ℝ) (hL : L.Correct)
    (env : FlatEnv) (hE : env.Exact) (a1 a2 : FlatFieldArgs) (hc1 : FlatCall a1) (hc2 : FlatCall a2) (n1 n2 : ℕ) (s1 s2 : Ω → FlatMaps)
    (F1 F2 : Ω → ℕ → ℕ × ℕ → ℂ) (C : ℕ → ℕ → ℕ × ℕ → ℝ) (hS : FlatSkies μ a1 a2 n1 n2 s1 s2 F1 F2 C)
    (b : FlatBins ℝ) (c : EllCuts) (hB : FlatScheme a1 a2 n1 n2 F1 F2 b c) (f1 f2 : Ω → FlatFieldObj)
    (hf1 : ∀ ω, nmtFieldFlat env (a1.withMaps n1 (s1 ω)) = .ok (f1 ω))
    (hf2 : ∀ ω, nmtFieldFlat env (a2.withMaps n2 (s2 ω)) = .ok (f2 ω))
    (hQ1 : ∀ ω, (f1 ω).matrixM ≠ some none) (hQ2 : ∀ ω, (f2 ω).matrixM ≠ some none)
    (Cb : ℕ → ℕ → ℕ → ℝ) (hCb : ∀ ω, BandSpectra (f1 ω).base (f2 ω).base b Cb C)
    (hsym : (a1.spinFor n1 = 0 ∧ a2.spinFor n2 = 0) ∨ ∀ ω, ReflectionSymmetric (f1 ω).base (f2 ω).base)
    (ells : List ℝ) (guess : Arr2 ℝ) (hl2 : 2 ≤ ells.length) (hls : ells.Pairwise (· < ·)) (hgr : guess.rows = n1 * n2)
    (hgc : guess.cols = ells.length)
    (hguess : ∀ X < n1, ∀ Y < n2, ∀ k ∈ a1.fs.modes, GuessAt ells (guess.val (X * n2 + Y)) (a1.fs.kmod k.1 k.2) (C X Y k)) :
    ∃ W, (∀ ω, couplingFlat (f1 ω).base (f2 ω).base b c false = .ok W) ∧ (Regular (W.ncls * W.bin.nBands) W.gslMatrix →
      ∃ (bias : Arr2 ℝ) (out : Ω → Arr2 ℝ), (∀ ω, deprojBiasFlatObj env (f1 ω) (f2 ω) b c ells guess = .ok (some bias)) ∧
        (∀ ω, ((coupledCellFlat (f1 ω).data (f2 ω).data b c).bind fun pcl => decoupleCellFlat L (some W) pcl (some bias) none) =
          .ok (out ω)) ∧
        (∀ D : FlatDeproj, (∀ ω, deprojBiasFlat D (f1 ω).data (f2 ω).data b c ells guess = .ok bias) →
          ∀ ω, fullMasterFlat L D (f1 ω).data (f2 ω).data b c none (some (guess, some ells)) none = .ok (out ω)) ∧
        ∀ X < n1, ∀ Y < n2, ∀ ib < b.nBands, Integrable (fun ω => (out ω).val (n2 * X + Y) ib) μ ∧
          ∫ ω, (out ω).val (n2 * X + Y) ib ∂μ = Cb X Y ib) := by
  obtain ⟨ω1⟩ := nonempty_of_isProbabilityMeasure μ
  -- the same fields without templates
  choose g1 hg1 using fun ω => bare_ok (hf1 ω)
  choose g2 hg2 using fun ω => bare_ok (hf2 ω)
  have hfg1 : ∀ ω, (f1 ω).base = (g1 ω1).base := fun ω => flat_base_eq (a := a1) (a' := a1.bare) rfl (hf1 ω) (hg1 ω1)
  have hfg2 : ∀ ω, (f2 ω).base = (g2 ω1).base := fun ω => flat_base_eq (a := a2) (a' := a2.bare) rfl (hf2 ω) (hg2 ω1)
  have hall1 : ∀ ω, (g1 ω).base = (g1 ω1).base := fun ω => flat_base_eq rfl (hg1 ω) (hg1 ω1)
  have hall2 : ∀ ω, (g2 ω).base = (g2 ω1).base := fun ω => flat_base_eq rfl (hg2 ω) (hg2 ω1)
  have hCg : ∀ ω, BandSpectra (g1 ω).base (g2 ω).base b Cb C := by
    intro ω
    rw [hall1, hall2, ← hfg1 ω, ← hfg2 ω]
    exact hCb ω
  obtain ⟨G, hG, hGs, hmean⟩ := C80_expectation_partial μ env hE a1 a2 hc1 hc2 n1 n2 s1 s2 F1 F2 C hS b c hB g1 g2 hg1 hg2 Cb hCg
  obtain ⟨W, hW, hM, hWn, hs1, hs2⟩ := matrix_call hc1 hc2 hS hB (hg1 ω1) (hg2 ω1)
  obtain ⟨bias, F, G', hbias, hF, hG', hbr, hbc, hmean'⟩ := C71_mean μ env hE a1 a2 hc1 hc2 hS.fs n1 n2 s1 s2 F1 F2 C hS.sky1 hS.sky2
    hS.cov f1 f2 g1 g2 hf1 hf2 hg1 hg2 hQ1 hQ2 ells guess hl2 hls hgr hgc hguess b hB.some c
  have hGG : G' = G := funext fun ω => by
    have := hG' ω
    rw [hG ω] at this
    exact (Outcome.ok.inj this).symm
  rw [hGG] at hmean'
  have hWb : W.bin = b := (couplingFlat_fits hW).2.2.1
  have hWf : ∀ ω, couplingFlat (f1 ω).base (f2 ω).base b c false = .ok W := fun ω => by rw [hfg1, hfg2]; exact hW
  refine ⟨W, hWf, fun hreg => ?_⟩
  have hFs : ∀ ω, (F ω).rows = W.ncls ∧ (F ω).cols = W.bin.nBands := by
    intro ω
    have := coupledCellFlat_shape (hF ω)
    rw [this.1, this.2, hWn, hWb]
    refine ⟨?_, rfl⟩
    change nmapsOf (f1 ω).base.spin * nmapsOf (f2 ω).base.spin = _
    rw [hfg1, hfg2, hs1, hs2]
  have hn2p : 0 < n2 := by rw [← hs2]; exact pos_nmapsOf _
  have hlt : ∀ i < n1 * n2, i / n2 < n1 ∧ i % n2 < n2 := fun i hi =>
    ⟨Nat.div_lt_of_lt_mul (by rwa [mul_comm]), Nat.mod_lt _ hn2p⟩
  obtain ⟨out, hout, hm⟩ := decoupled_mean μ L hL W hreg F (some bias) hFs
    (fun B hB => by cases hB; exact ⟨by rw [hbr, hWn], by rw [hbc, hWb]⟩) (fun j ib => Cb (j / n2) (j % n2) ib) (by
      intro i hi ib hib
      rw [hWn] at hi
      rw [hWb] at hib
      obtain ⟨h1, h2, h3⟩ := hmean' i hi ib hib
      refine ⟨h1, ?_⟩
      have hi' := hlt i hi
      have h4 := (hmean ω1 _ hi'.1 _ hi'.2 ib hib).2
      rw [Nat.div_add_mod] at h4
      rw [h3, h4]
      have := trueCoupling_sum W (g1 ω1).base (g2 ω1).base b c hWb (by rw [hWn, hs1, hs2]) Cb (i := i) (ib := ib) (by rw [hWn]; exact hi)
        (by
          intro X' hX' Y' hY' ib' hib'
          rw [hs1] at hX'
          rw [hs2] at hY' ⊢
          refine hM _ hi'.1 _ hi'.2 X' hX' Y' hY' ?_ ib hib ib' hib'
          rcases hsym with ⟨e1, e2⟩ | h
          · left
            have hn1' : n1 = 1 := by rw [← hs1, (flat_base (hg1 ω1)).choose_spec.2.1]; exact if_pos e1
            have hn2' : n2 = 1 := by rw [← hs2, (flat_base (hg2 ω1)).choose_spec.2.1]; exact if_pos e2
            have : i / n2 + i % n2 + X' + Y' = 0 := by
              have h1 := Nat.lt_one_iff.1 (hi'.1.trans_eq hn1')
              have h2 := Nat.lt_one_iff.1 (hi'.2.trans_eq hn2')
              rw [h1, h2]
              omega
            rw [this]; exact Even.zero
          · right
            have := h ω1
            rw [hfg1, hfg2] at this
            exact this)
      rw [hs1, hs2] at this
      rw [this]
      rfl)
  refine ⟨bias, out, hbias, fun ω => ?_, fun D hD ω => ?_, ?_⟩
  · rw [hF ω]
    exact hout ω
  · have hnm1 : (f1 ω).data.nmaps = n1 := by change nmapsOf (f1 ω).base.spin = _; rw [hfg1, hs1]
    have hnm2 : (f2 ω).data.nmaps = n2 := by change nmapsOf (f2 ω).base.spin = _; rw [hfg2, hs2]
    have hfs : (f1 ω).data.fs = (f2 ω).data.fs := by
      change (f1 ω).base.fs = (f2 ω).base.fs
      rw [(flat_base (hf1 ω)).choose_spec.2.1, (flat_base (hf2 ω)).choose_spec.2.1]
      exact hS.fs
    rw [C50_sequential L D _ _ b c none guess ells ⟨by simp, by rw [hnm1, hnm2]; exact hgr, hgc⟩ hfs none (Or.inl rfl)]
    have e : couplingFlat (f1 ω).data.toFlatField (f2 ω).data.toFlatField b c false = .ok W := hWf ω
    rw [e]
    simp only [Outcome.bind, hF ω, hD ω]
    exact hout ω
  · intro X hX Y hY ib hib
    have := hm (n2 * X + Y) (by rw [hWn]; exact idx_lt hX hY) ib (by rw [hWb]; exact hib)
    simp only [pairIdx_mod hY, pairIdx_div hY] at this
    exact this

/-! ## No leakage -/

/-- C80: if a component of a field is purified and the sky has no modes of this component, all spectra of this component returned by
`compute_coupled_cell_flat` are zero, for every sky, not only on average, and whatever the other field is. Missing: the skies, masks and
pixels for which purification is not exact (see C63), fields with templates, bands that contain multipole 0. -/
theorem C80_no_leakage_partial (env : FlatEnv) (hE : env.Exact) (a1 a2 : FlatFieldArgs) (hc1 : FlatCall a1) (hc2 : FlatCall a2)
    (hfs : a1.fs = a2.fs) (n1 n2 : ℕ) (s1 s2 : FlatMaps) (g1 g2 : FlatFieldObj)
    (hg1 : nmtFieldFlat env (a1.bare.withMaps n1 s1) = .ok g1) (hg2 : nmtFieldFlat env (a2.bare.withMaps n2 s2) = .ok g2)
    (F : ℕ → ℕ × ℕ → ℂ) (hF : SkyHas a1.fs 2 s1 F) (hsq : SquarePixels a1.fs) (hr : Resolved a1.fs a1.mask F)
    (X : ℕ) (hX : a1.Pure X) (hz : ∀ k ∈ a1.fs.modes, F X k = 0)
    (b : FlatBins ℝ) (hb : GaplessBands b) (h0 : 0 < b.nBands) (hb0 : ∀ ib, ¬ InBand b ib 0) (c : EllCuts) :
    ∃ G, coupledCellFlat g1.data g2.data b c = .ok G ∧ n2 * X < G.rows ∧ G.cols = b.nBands ∧
      ∀ Y < n2, ∀ ib < b.nBands, G.val (n2 * X + Y) ib = 0 := by
  obtain ⟨G, hG, ⟨hrow, hcol⟩, hv⟩ := coupled_values hc1 hc2 hfs hg1 hg2 b hb h0 c
  have hb1 : FlatCall a1.bare := ⟨hc1.unmasked, hc1.full⟩
  have hb2 : FlatCall a2.bare := ⟨hc2.unmasked, hc2.full⟩
  obtain ⟨hn1, hi1⟩ := flat_is hb1 hg1
  obtain ⟨hn2, -⟩ := flat_is hb2 hg2
  have hpp : a1.purifyE = true ∨ a1.purifyB = true := hX.imp (·.2) (·.2)
  have hsp : a1.spinFor n1 = 2 := hi1.pure2 hpp
  have hn1' : n1 = 2 := by
    rw [hn1]
    change nmapsOf (a1.spinFor n1) = 2
    rw [hsp]
    rfl
  have hX2 : X < n1 := by rcases hX with h | h <;> omega
  have hn2p : 0 < n2 := by rw [hn2]; exact pos_nmapsOf _
  refine ⟨G, hG, ?_, hcol, ?_⟩
  · have := idx_lt hX2 hn2p
    rw [hrow]
    omega
  intro Y hY ib hib
  rw [hv X hX2 Y hY ib hib, Finset.sum_eq_zero, zero_mul]
  intro k hk
  have hk1 : k ∈ a1.fs.modes ∧ InBand b ib (a1.fs.kmod k.1 k.2) := by
    classical
    unfold bandModes at hk
    rw [Finset.mem_filter] at hk
    exact ⟨hk.1, hk.2.2⟩
  have hkm := mem_modes.1 hk1.1
  have hk0 : k ≠ (0, 0) := by
    intro h
    have := hk1.2
    rw [h] at this
    simp only [kmod_zero] at this
    exact hb0 ib this
  have hix : (ixHere a1.fs.nx k.1, k.2) ∈ a1.fs.modes := by
    rw [mem_modes]
    unfold ixHere
    split_ifs <;> exact ⟨by simp only; omega, hkm.2⟩
  have hi0 : (ixHere a1.fs.nx k.1, k.2) ≠ (0, 0) := by
    intro h
    rw [Prod.mk.injEq] at h
    unfold ixHere at h
    refine hk0 (Prod.ext ?_ h.2)
    have := h.1
    split_ifs at this <;> simp only <;> omega
  have hA : popFlat env a1 (a1.spinFor n1) s1 X (ixHere a1.fs.nx k.1, k.2) = 0 := by
    obtain ⟨cc, hcc⟩ := hE a1.fs
    rw [hsp]
    unfold popFlat
    rw [if_pos hpp, hcc, pure_formula (fs := a1.fs) hi1.lx hi1.ly hsq cc (noNyquist_of_resolved hr) hF hix hi0 (noWrap_of_resolved hr hix) hX]
    exact Finset.sum_eq_zero fun k' hk' => by rw [hz k' hk', mul_zero]
  unfold halfProd
  rw [hA]
  simp

end NaMaster
