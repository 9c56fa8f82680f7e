import Verif.Syn.PowerExample

/-! # Where property C61 fails, and property C62 (different seeds) -/

namespace NaMaster

open Finset Real MeasureTheory

theorem phase_orth {fs : FlatInfo} {k q : ℕ × ℕ} (hk : k ∈ fs.modes) (hq : q ∈ fs.modes) :
    ∑ p ∈ fs.modes, Complex.exp (fs.phase q p * Complex.I) * Complex.exp (-(fs.phase k p) * Complex.I) =
      if q = k then ((fs.nx * fs.ny : ℕ) : ℂ) else 0 := by
  have h1 : ∀ p, Complex.exp (fs.phase q p * Complex.I) * Complex.exp (-(fs.phase k p) * Complex.I) =
      Complex.exp (-(fs.phase (fs.sub k q) p) * Complex.I) := by
    intro p
    rw [exp_sub_phase hq p, mul_comm]
  simp only [h1]
  have hs := sub_mem hk hq
  have h2 : ∑ p ∈ fs.modes, Complex.exp (-(fs.phase (fs.sub k q) p) * Complex.I) =
      star (∑ p ∈ fs.modes, Complex.exp (fs.phase (fs.sub k q) p * Complex.I)) := by
    rw [star_sum]
    refine Finset.sum_congr rfl fun p _ => ?_
    have : star (Complex.exp (fs.phase (fs.sub k q) p * Complex.I)) = Complex.exp (star ((fs.phase (fs.sub k q) p : ℂ) * Complex.I)) :=
      (Complex.exp_conj _).symm
    rw [this]
    congr 1
    have e1 : star ((fs.phase (fs.sub k q) p : ℝ) : ℂ) = ((fs.phase (fs.sub k q) p : ℝ) : ℂ) := Complex.conj_ofReal _
    have e2 : star Complex.I = -Complex.I := Complex.conj_I
    rw [star_mul', e1, e2]
    ring
  rw [h2, phase_sum hs]
  have hiff : fs.sub k q = (0, 0) ↔ q = k := by
    rw [mem_modes] at hk hq
    unfold FlatInfo.sub subIdx
    simp only [Prod.mk.injEq]
    constructor
    · rintro ⟨a, b⟩
      apply Prod.ext
      · split_ifs at a <;> omega
      · split_ifs at b <;> omega
    · rintro rfl
      simp
  by_cases h : q = k
  · rw [if_pos (hiff.mpr h), if_pos h]; simp
  · rw [if_neg (fun hh => h (hiff.mp hh)), if_neg h, star_zero]

/-- The modes of a map are unique. -/
theorem hasModes_unique {fs : FlatInfo} {f : ℕ × ℕ → ℝ} {F F' : ℕ × ℕ → ℂ} (h : HasModes fs f F) (h' : HasModes fs f F')
    {k : ℕ × ℕ} (hk : k ∈ fs.modes) : F k = F' k := by
  have key : ∀ {F : ℕ × ℕ → ℂ}, HasModes fs f F →
      ∑ p ∈ fs.modes, (f p : ℂ) * Complex.exp (-(fs.phase k p) * Complex.I) = F k * ((fs.nx * fs.ny : ℕ) : ℂ) := by
    intro F h
    rw [Finset.sum_congr rfl fun p hp => by rw [h p hp, Finset.sum_mul], Finset.sum_comm]
    have : ∀ q ∈ fs.modes, ∑ p ∈ fs.modes, F q * Complex.exp (fs.phase q p * Complex.I) * Complex.exp (-(fs.phase k p) * Complex.I) =
        if q = k then F q * ((fs.nx * fs.ny : ℕ) : ℂ) else 0 := by
      intro q hq
      simp only [mul_assoc]
      rw [← Finset.mul_sum, phase_orth hk hq]
      split_ifs <;> simp
    rw [Finset.sum_congr rfl this, Finset.sum_ite_eq', if_pos hk]
  have h1 := (key h).symm.trans (key h')
  have hk' := mem_modes.mp hk
  have hN : ((fs.nx * fs.ny : ℕ) : ℂ) ≠ 0 := by
    have h2 : fs.nx ≠ 0 := by omega
    have h3 : fs.ny ≠ 0 := by omega
    exact_mod_cast Nat.mul_ne_zero h2 h3
  exact mul_right_cancel₀ hN h1

/-- The modes of the real part of the transform of any array. -/
theorem hasModes_std {fs : FlatInfo} (h : 0 < fs.ny) (a : ℕ × ℕ → ℂ) :
    HasModes fs ((C2r.std fs h).run a) fun k => (fullArr fs a k + star (fullArr fs a (negMode fs k))) / 2 := by
  intro p hp
  show ((∑ k ∈ fs.modes, fullArr fs a k * Complex.exp (fs.phase k p * Complex.I)).re : ℂ) = _
  rw [Complex.re_eq_add_conj, _root_.map_sum]
  have e : ∑ k ∈ fs.modes, (starRingEnd ℂ) (fullArr fs a k * Complex.exp (fs.phase k p * Complex.I)) =
      ∑ k ∈ fs.modes, star (fullArr fs a (negMode fs k)) * Complex.exp (fs.phase k p * Complex.I) := by
    refine Finset.sum_nbij' (negMode fs) (negMode fs) (fun k hk => negIdx_mem hk) (fun k hk => negIdx_mem hk)
      (fun k hk => negMode_negMode hk) (fun k hk => negMode_negMode hk) ?_
    intro k hk
    rw [negMode_negMode hk, map_mul]
    congr 1
    rw [← Complex.exp_conj]
    have hk' := mem_modes.mp hk
    obtain ⟨m1, h1⟩ := negIdx_phase hk'.1 p.1
    obtain ⟨m2, h2⟩ := negIdx_phase hk'.2 p.2
    have : (fs.phase (negMode fs k) p : ℝ) = -fs.phase k p + (m1 + m2 : ℤ) * (2 * π) := by
      unfold FlatInfo.phase negMode
      push_cast
      rw [h1, h2]
      ring
    rw [this, map_mul, Complex.conj_ofReal, Complex.conj_I]
    push_cast
    rw [show (-(fs.phase k p : ℂ) + ((m1 : ℂ) + m2) * (2 * π)) * Complex.I =
      fs.phase k p * -Complex.I + ((m1 + m2 : ℤ) : ℂ) * (2 * π * Complex.I) by push_cast; ring, Complex.exp_add, Complex.exp_int_mul_two_pi_mul_I,
      mul_one]
  rw [e, ← Finset.sum_add_distrib, Finset.sum_div]
  exact Finset.sum_congr rfl fun k _ => by ring

/-- The map of one field of spin 0 from the coefficients. -/
theorem maps_single {a : SynFlatArgs} (hsp : a.spins = [0]) (c : C2r a.fs) {m : ℕ × ℕ × ℕ → ℂ} {v : ℕ → ℕ → ℕ → ℂ}
    (hm : ∀ i < a.nmaps, ∀ ix ≤ a.fs.nx / 2, ∀ iy < a.fs.ny, m (i, ix, iy) = a.toAlm.cell v i ix iy) :
    a.maps c.run m 0 = fun p => c.run (fun k => a.toAlm.cell v 0 k.1 k.2) p * (2 * π / (a.fs.lx * a.fs.ly)) := by
  rw [maps_congr a c (m' := fun x => a.toAlm.cell v x.1 x.2.1 x.2.2) hm]
  funext p
  unfold SynFlatArgs.maps
  rw [hsp]
  simp [locate, nmapsOf, fsAlm2map]

theorem nmaps_single {a : SynFlatArgs} (hsp : a.spins = [0]) : a.nmaps = 1 := by simp [SynFlatArgs.nmaps, hsp, nmapsOf]

/-- The coefficients of an execution. -/
theorem alms_values (a : SynFlatArgs) (E : Eigen) (gauss : ℤ → ℕ → ℝ × ℝ) (seed : ℤ) {sched : List (List ℕ)}
    (hperm : sched.flatten.Perm (List.range a.fs.ny)) {tr : List SynEvent}
    (hint : Interleaving (sched.mapIdx fun t l => a.toAlm.prog t l) tr) (i0 c0 : ℕ → ℕ) (m0 : ℕ × ℕ × ℕ → ℂ) :
    ∀ i < a.nmaps, ∀ ix ≤ a.fs.nx / 2, ∀ iy < a.fs.ny,
      (tr.foldl (a.toAlm.step E gauss seed) ⟨0, i0, c0, m0⟩).alms (i, ix, iy) =
        a.toAlm.cell (synValues a.toAlm E gauss seed sched (a.toAlm.rankOf E gauss seed tr i0 c0 m0)) i ix iy := by
  refine (syn_formula_trace a.toAlm E gauss seed hperm hint).2.2 _ ?_
  intro t l pos iy hl hp ix _
  unfold synValues
  rw [place_eq (hperm.nodup_iff.mpr List.nodup_range) hl hp]

/-- The value of one map. -/
theorem value_single {a : SynFlatArgs} (hsp : a.spins = [0]) (E : Eigen) (gauss : ℤ → ℕ → ℝ × ℝ) (seed : ℤ) (sched : List (List ℕ))
    (rank : ℕ → ℕ) (ix iy : ℕ) : synValues a.toAlm E gauss seed sched rank ix iy 0 =
      ((a.toAlm.beam 0 (a.fs.kmod ix iy) * a.toAlm.root E (a.fs.kmod ix iy) 0 0 : ℝ) : ℂ) *
        ((drawOf gauss seed (drawIdx a.toAlm sched rank ((ix, iy), 0, false)) : ℝ) +
          Complex.I * (drawOf gauss seed (drawIdx a.toAlm sched rank ((ix, iy), 0, true)) : ℝ)) := by
  have hn : a.toAlm.nmaps = 1 := nmaps_single hsp
  have hfs : a.toAlm.fs = a.fs := rfl
  unfold synValues SynAlm.coef
  simp only [hn, sum_range_one, hfs]
  apply Complex.ext
  · simp [drawOf, drawIdx, hn, hfs]; ring
  · simp [drawOf, drawIdx, hn, hfs]; ring

/-- **C61 fails** for an even number of pixels along x: the mode with the highest wave number along x and wave number zero along y
of one field of spin 0 has only half of the requested power. Here the c2r transform takes the real part of the sum over the
modes. -/
theorem C61_nyquist_wrong {Ω : Type*} [MeasurableSpace Ω] {μ : Measure Ω} {E : Eigen} (hE : E.Correct) (a : SynFlatArgs)
    (hcheck : a.check = .ok ()) (hsp : a.spins = [0]) (hx0 : 0 < a.fs.nx) (hx : Even a.fs.nx) (hy : 0 < a.fs.ny)
    (hpos : ∀ l < a.cls.cols, 0 ≤ a.spec 0 0 l) {gauss : Ω → ℤ → ℕ → ℝ × ℝ} {seed : ℤ} {sched : List (List ℕ)}
    (hperm : sched.flatten.Perm (List.range a.fs.ny)) {tr : List SynEvent}
    (hint : Interleaving (sched.mapIdx fun t l => a.toAlm.prog t l) tr) (i0 c0 : ℕ → ℕ) (m0 : ℕ × ℕ × ℕ → ℂ)
    (hw : WhiteDraws μ gauss seed sched.length) (F : Ω → ℕ × ℕ → ℂ)
    (hF : ∀ ω, HasModes a.fs (synMaps a E (C2r.std a.fs hy) tr ⟨0, i0, c0, m0⟩ (gauss ω) seed 0) (F ω)) :
    ∫ ω, F ω (a.fs.nx / 2, 0) * star (F ω (a.fs.nx / 2, 0)) ∂μ =
      ((1 / 2 * (tabSpec a.cls.cols (a.spec 0 0) (a.fs.kmod (a.fs.nx / 2) 0) *
        (tabSpec a.cls.cols (a.fieldBeam 0) (a.fs.kmod (a.fs.nx / 2) 0) * tabSpec a.cls.cols (a.fieldBeam 0) (a.fs.kmod (a.fs.nx / 2) 0))) /
          (a.fs.lx * a.fs.ly) : ℝ) : ℂ) := by
  obtain ⟨hn, hlx, hly⟩ := check_ok hcheck
  have hnm := nmaps_single hsp
  obtain ⟨n, hnx⟩ := hx
  have hhalf : a.fs.nx / 2 = n := by omega
  rw [hhalf]
  have hk : (n, 0) ∈ a.fs.modes := mem_modes.mpr ⟨by simp only; omega, hy⟩
  have hneg : negMode a.fs (n, 0) = (n, 0) := by
    unfold negMode
    rw [negIdx_of_pos (by simp only; omega)]
    simp [negIdx]
    omega
  set rank : Ω → ℕ → ℕ := fun ω => a.toAlm.rankOf E (gauss ω) seed tr i0 c0 m0 with hrank
  have hfn : ∀ ω, F ω (n, 0) = ((2 * π / (a.fs.lx * a.fs.ly) * (a.toAlm.beam 0 (a.fs.kmod n 0) * a.toAlm.root E (a.fs.kmod n 0) 0 0) *
      drawOf (gauss ω) seed (drawIdx a.toAlm sched (rank ω) ((n, 0), 0, false)) : ℝ) : ℂ) := by
    intro ω
    have h1 := hF ω
    unfold synMaps at h1
    rw [maps_single hsp _ (alms_values a E (gauss ω) seed hperm hint i0 c0 m0)] at h1
    have h2 := hasModes_unique h1 (hasModes_smul (hasModes_std hy _) _) hk
    rw [h2, hneg]
    have h3 : fullArr a.fs (fun k => a.toAlm.cell (synValues a.toAlm E (gauss ω) seed sched (rank ω)) 0 k.1 k.2) (n, 0) =
        synValues a.toAlm E (gauss ω) seed sched (rank ω) n 0 0 := by
      unfold fullArr SynAlm.cell
      simp only
      rw [if_pos (by omega), if_pos (by omega)]
    rw [h3, value_single hsp]
    have hr0 : ∀ x : ℝ, star (x : ℂ) = x := fun x => Complex.conj_ofReal x
    have hI : star Complex.I = -Complex.I := Complex.conj_I
    simp only [star_mul', star_add, hr0, hI]
    push_cast
    ring
  rcases isEmpty_or_nonempty Ω with hΩ | ⟨⟨ω0⟩⟩
  · exfalso
    have hT : 0 < sched.length := by
      rcases Nat.eq_zero_or_pos sched.length with h | h
      · have := List.eq_nil_of_length_eq_zero h
        rw [this] at hperm
        have hl := hperm.length_eq
        simp at hl
        omega
      · exact h
    have h2 := hw.cov (0, 0, false) (0, 0, false) hT hT
    have : μ = 0 := Subsingleton.elim _ _
    rw [this] at h2
    simp at h2
  have hconst : ∀ ω, rank ω = rank ω0 := fun ω => rankOf_eq a.toAlm E _ _ seed tr i0 c0 m0
  set d := drawIdx a.toAlm sched (rank ω0) ((n, 0), 0, false) with hd
  have hdl : d.1 < sched.length := by
    refine drawIdx_lt hperm ((syn_formula_trace a.toAlm E (gauss ω0) seed (m0 := m0) (i0 := i0) (c0 := c0) hperm hint).1) ?_
    have e1 : a.toAlm.fs = a.fs := rfl
    have e2 : a.toAlm.nmaps = 1 := hnm
    simp only [drawSet, mem_product, mem_range, e1, e2, mem_univ, and_true]
    omega
  have hint2 : ∀ ω, F ω (n, 0) * star (F ω (n, 0)) =
      (((2 * π / (a.fs.lx * a.fs.ly) * (a.toAlm.beam 0 (a.fs.kmod n 0) * a.toAlm.root E (a.fs.kmod n 0) 0 0)) ^ 2 *
        (drawOf (gauss ω) seed d * drawOf (gauss ω) seed d) : ℝ) : ℂ) := by
    intro ω
    rw [hfn, hconst, ← hd]
    have hr0 : ∀ x : ℝ, star (x : ℂ) = x := fun x => Complex.conj_ofReal x
    rw [hr0]
    push_cast
    ring
  simp only [hint2]
  rw [show ∫ ω, (((2 * π / (a.fs.lx * a.fs.ly) * (a.toAlm.beam 0 (a.fs.kmod n 0) * a.toAlm.root E (a.fs.kmod n 0) 0 0)) ^ 2 *
        (drawOf (gauss ω) seed d * drawOf (gauss ω) seed d) : ℝ) : ℂ) ∂μ = ((∫ ω, (2 * π / (a.fs.lx * a.fs.ly) * (a.toAlm.beam 0 (a.fs.kmod n 0) *
          a.toAlm.root E (a.fs.kmod n 0) 0 0)) ^ 2 * (drawOf (gauss ω) seed d * drawOf (gauss ω) seed d) ∂μ : ℝ) : ℂ) from integral_ofReal]
  rw [integral_const_mul, hw.cov d d hdl hdl, if_pos rfl, mul_one]
  congr 1
  have hkm : 0 ≤ a.fs.kmod n 0 := Real.sqrt_nonneg _
  have hf0 : a.spins[0]? = some 0 := by rw [hsp]; rfl
  have hb : a.toAlm.beam 0 (a.fs.kmod n 0) = tabSpec a.cls.cols (a.fieldBeam 0) (a.fs.kmod n 0) := by
    rw [← synKfun_tab hn _ hkm]
    have := (first_lt a hf0 (c := 0) (by simp [nmapsOf])).1
    simp only [SynFlatArgs.first, List.take_zero, List.map_nil, List.sum_nil, Nat.zero_add] at this
    simp only [SynFlatArgs.toAlm, this]
    congr 1
    funext l
    unfold SynFlatArgs.fieldBeam
    cases a.beam <;> rfl
  have hc : a.toAlm.clmat (a.fs.kmod n 0) 0 0 = 1 / 2 * (1 / (2 * π / a.fs.lx * (2 * π / a.fs.ly))) *
      tabSpec a.cls.cols (a.spec 0 0) (a.fs.kmod n 0) := by
    rw [← synKfun_tab hn _ hkm]
    unfold SynAlm.clmat
    simp only [SynFlatArgs.toAlm]
    congr 2
    funext l
    exact (spec_row a (by omega) (by omega) l).symm
  have hpsd : PsdMat a.toAlm.nmaps (a.toAlm.clmat (a.fs.kmod n 0)) := by
    refine clmat_psd a hn hlx hly (fun l hl x => ?_) _
    rw [hnm]
    simp only [sum_range_one]
    have h1 := hpos l hl
    rw [spec_row a (by omega) (by omega)] at h1
    rw [hnm] at h1
    have h2 := mul_nonneg (mul_self_nonneg (x 0)) h1
    linarith
  have hroot := root_sq hE a.toAlm hpsd (i := 0) (j := 0) (by show 0 < a.nmaps; omega) (by show 0 < a.nmaps; omega)
  have hnm' : a.toAlm.nmaps = 1 := hnm
  rw [hnm', sum_range_one, hc] at hroot
  have hpi := Real.pi_pos.ne'
  have : (2 * π / (a.fs.lx * a.fs.ly) * (a.toAlm.beam 0 (a.fs.kmod n 0) * a.toAlm.root E (a.fs.kmod n 0) 0 0)) ^ 2 =
      (2 * π / (a.fs.lx * a.fs.ly)) ^ 2 * (a.toAlm.beam 0 (a.fs.kmod n 0) * a.toAlm.beam 0 (a.fs.kmod n 0)) *
        (a.toAlm.root E (a.fs.kmod n 0) 0 0 * a.toAlm.root E (a.fs.kmod n 0) 0 0) := by ring
  rw [this, hroot, hb]
  field_simp

/-- A case: 4 x 3 pixels, one thread, independent Gaussian numbers, constant spectrum 1 up to multipole 99; the power is 1/2. -/
example (i0 c0 : ℕ → ℕ) (m0 : ℕ × ℕ × ℕ → ℂ) (F : (ℤ × ℕ × Bool → ℝ) → ℕ × ℕ → ℂ) :
    let a : SynFlatArgs := ⟨⟨4, 3, 1, 1⟩, ⟨1, 100, fun _ _ => 1⟩, [0], none⟩
    let tr := ([[0, 1, 2]].mapIdx fun t l => a.toAlm.prog t l).flatten
    (∀ ω, HasModes a.fs (synMaps a exactEigen (C2r.std a.fs (by decide)) tr ⟨0, i0, c0, m0⟩ (gaussGen ω) 5 0) (F ω)) →
      ∫ ω, F ω (2, 0) * star (F ω (2, 0)) ∂gaussMeasure = 1 / 2 := by
  intro a tr hF
  have hcheck : a.check = .ok () := by
    unfold SynFlatArgs.check
    rw [if_neg (by simp [a]), if_neg (by simp [a, SynFlatArgs.nmaps, nmapsOf]), if_neg (by simp [a]), if_neg (by simp [a]),
      if_neg (by simp [a]), if_neg (by simp [a])]
  have h := C61_nyquist_wrong exactEigen_correct a hcheck rfl (by decide) (by decide) (by decide)
    (fun l _ => by simp [a, SynFlatArgs.spec]) (sched := [[0, 1, 2]]) (by decide) (Interleaving.seq _) i0 c0 m0 (gauss_white 5 1) F hF
  have hfl : ⌊a.fs.kmod (a.fs.nx / 2) 0⌋₊ + 1 < 100 := by
    have h1 : a.fs.kmod (a.fs.nx / 2) 0 < 99 := by
      simp only [a, FlatInfo.kmod, FlatInfo.kx, FlatInfo.ky, waveNum]
      norm_num
      rw [Real.sqrt_mul_self (by positivity)]
      have := Real.pi_lt_four
      linarith
    have h0 : 0 ≤ a.fs.kmod (a.fs.nx / 2) 0 := Real.sqrt_nonneg _
    have := (Nat.floor_lt h0).mpr (by exact_mod_cast h1 : a.fs.kmod (a.fs.nx / 2) 0 < (99 : ℕ))
    omega
  have ht : ∀ f : ℕ → ℝ, (∀ l, f l = 1) → tabSpec a.cls.cols f (a.fs.kmod (a.fs.nx / 2) 0) = 1 := by
    intro f hf
    unfold tabSpec
    rw [if_pos hfl, hf, hf]
    ring
  rw [ht _ (fun l => by simp [a, SynFlatArgs.spec]), ht _ (fun l => by simp [a, SynFlatArgs.fieldBeam])] at h
  have h2 : ((a.fs.nx / 2, 0) : ℕ × ℕ) = (2, 0) := by norm_num [a]
  rw [h2] at h
  refine h.trans ?_
  simp [a]

/-- **C61 fails** from the last tabulated multipole on: the modes of a simulated map of spin 0 with `kmod ≥ n_ell - 1` are zero,
whatever the spectrum tabulated at the multipole `n_ell - 1` is. -/
theorem C61_last_wrong (E : Eigen) (a : SynFlatArgs) (hcheck : a.check = .ok ()) (hsp : a.spins = [0]) (hx : Odd a.fs.nx)
    (hy : Odd a.fs.ny) (c : C2r a.fs) (gauss : ℤ → ℕ → ℝ × ℝ) (seed : ℤ) {sched : List (List ℕ)}
    (hperm : sched.flatten.Perm (List.range a.fs.ny)) {tr : List SynEvent}
    (hint : Interleaving (sched.mapIdx fun t l => a.toAlm.prog t l) tr) (i0 c0 : ℕ → ℕ) (m0 : ℕ × ℕ × ℕ → ℂ) {F : ℕ × ℕ → ℂ}
    (hF : HasModes a.fs (synMaps a E c tr ⟨0, i0, c0, m0⟩ gauss seed 0) F) {k : ℕ × ℕ} (hk : k ∈ a.fs.modes)
    (hlast : ((a.cls.cols - 1 : ℕ) : ℝ) ≤ a.fs.kmod k.1 k.2) : F k = 0 := by
  obtain ⟨hn, hlx, hly⟩ := check_ok hcheck
  unfold synMaps at hF
  rw [maps_single hsp _ (alms_values a E gauss seed hperm hint i0 c0 m0)] at hF
  rw [hasModes_unique hF (hasModes_smul (c.exact _ (cell_herm a.toAlm _ 0 hx hy)) _) hk]
  have hb : a.toAlm.beam 0 (a.fs.kmod k.1 k.2) = 0 := by
    simp only [SynFlatArgs.toAlm]
    rw [synKfun_eq hn, if_neg, if_pos hlast]
    have : (0 : ℝ) < ((a.cls.cols - 1 : ℕ) : ℝ) := by exact_mod_cast (by omega : 0 < a.cls.cols - 1)
    linarith
  have hkm : a.fs.kmod (repMode a.fs k).1 (repMode a.fs k).2 = a.fs.kmod k.1 k.2 := kmod_repMode hk
  have hfull := full_cell (A := a.toAlm) hx hy (synValues a.toAlm E gauss seed sched (a.toAlm.rankOf E gauss seed tr i0 c0 m0)) 0 hk
  have hfs : a.toAlm.fs = a.fs := rfl
  rw [hfs] at hfull
  rw [hfull]
  by_cases h0 : k = (0, 0)
  · have : a.fs.kmod k.1 k.2 = 0 := by rw [h0]; simp [FlatInfo.kmod, FlatInfo.kx, FlatInfo.ky, waveNum]
    rw [this] at hlast
    have h1 : (0 : ℝ) < ((a.cls.cols - 1 : ℕ) : ℝ) := by exact_mod_cast (by omega : 0 < a.cls.cols - 1)
    linarith
  · rw [if_neg h0, value_single hsp, hkm, hb]
    simp

/-- A case: 3 x 3 pixels with lengths 2π, spectrum 1 at the multipoles 0 and 1; the mode (1, 0) has multipole 1 and vanishes. -/
example (c : C2r ⟨3, 3, 2 * π, 2 * π⟩) (gauss : ℤ → ℕ → ℝ × ℝ) (i0 c0 : ℕ → ℕ) (m0 : ℕ × ℕ × ℕ → ℂ) (F : ℕ × ℕ → ℂ) :
    let a : SynFlatArgs := ⟨⟨3, 3, 2 * π, 2 * π⟩, ⟨1, 2, fun _ _ => 1⟩, [0], none⟩
    let tr := ([[0, 1, 2]].mapIdx fun t l => a.toAlm.prog t l).flatten
    HasModes a.fs (synMaps a exactEigen c tr ⟨0, i0, c0, m0⟩ gauss 0 0) F → F (1, 0) = 0 := by
  intro a tr hF
  have hcheck : a.check = .ok () := by
    unfold SynFlatArgs.check
    rw [if_neg (by simp [a]), if_neg (by simp [a, SynFlatArgs.nmaps, nmapsOf]), if_neg (by simp [a]), if_neg (by simp [a]),
      if_neg (by simp [a, Real.pi_pos]), if_neg (by simp [a])]
  refine C61_last_wrong exactEigen a hcheck rfl (by decide) (by decide) c gauss 0 (sched := [[0, 1, 2]]) (by decide)
    (Interleaving.seq _) i0 c0 m0 hF (mem_modes.mpr ⟨by decide, by decide⟩) ?_
  have hpi := Real.pi_pos.ne'
  simp only [a, FlatInfo.kmod, FlatInfo.kx, FlatInfo.ky, waveNum]
  norm_num [hpi]

/-- **C62 fails**: different seeds. With two threads there are executions with the seeds `seed` and `seed + 1` in which all modes
of the rows of one of the threads (and columns `0 < ix ≤ nx/2`) agree. -/
theorem C62_flat_wrong {G : Type*} (randint : G → ℤ × G) (E : Eigen) (gauss : ℤ → ℕ → ℝ × ℝ) (a : SynFlatArgs)
    (hcheck : a.check = .ok ()) (hsp : a.spins = [0]) (hx : Odd a.fs.nx) (hy : Odd a.fs.ny) (c : C2r a.fs) {seed : ℤ}
    (hseed : 0 ≤ seed) {rows rows' : List ℕ} (hperm : (rows ++ rows').Perm (List.range a.fs.ny)) (hsort : rows.Pairwise (· < ·))
    (hsort' : rows'.Pairwise (· < ·)) (g : G) :
    ∃ maps maps' : ℕ → ℕ × ℕ → ℝ,
      SynfastFlatRuns randint E gauss c.run a seed g [rows, rows'] (.ok maps, g) ∧
      SynfastFlatRuns randint E gauss c.run a (seed + 1) g [rows, rows'] (.ok maps', g) ∧
      ∀ F F', HasModes a.fs (maps 0) F → HasModes a.fs (maps' 0) F' →
        ∀ k ∈ a.fs.modes, 0 < k.1 → 2 * k.1 ≤ a.fs.nx → k.2 ∈ rows' → F k = F' k := by
  have hflat : [rows, rows'].flatten.Perm (List.range a.fs.ny) := by simpa using hperm
  have hsorted : ∀ l ∈ [rows, rows'], l.Pairwise (· < ·) := by
    intro l hl
    simp only [List.mem_cons, List.not_mem_nil, or_false] at hl
    rcases hl with rfl | rfl
    · exact hsort
    · exact hsort'
  obtain ⟨tr, h1, h2⟩ := exists_first a.toAlm (sched := [rows, rows']) (t := 0) (l := rows) rfl
  obtain ⟨tr', h1', h2'⟩ := exists_first a.toAlm (sched := [rows, rows']) (t := 1) (l := rows') rfl
  set z : ℕ × ℕ × ℕ → ℂ := fun _ => 0
  have r0 := rank_first a.toAlm E gauss seed (m0 := z) (i0 := fun _ => 0) (c0 := fun _ => 0) (t := 0) (l := rows) rfl h2
  have r1' := rank_first a.toAlm E gauss (seed + 1) (m0 := z) (i0 := fun _ => 0) (c0 := fun _ => 0) (t := 1) (l := rows') rfl h2'
  have hf := syn_formula_trace a.toAlm E gauss seed (m0 := z) (i0 := fun _ => 0) (c0 := fun _ => 0) hflat h1
  have r1 : a.toAlm.rankOf E gauss seed (.arrive 0 :: tr) (fun _ => 0) (fun _ => 0) z 1 = 1 := by
    have h3 := hf.1 1 (by simp)
    have h4 := fun h => hf.2.1 1 (by simp) 0 (by simp) h
    simp only [List.length_cons, List.length_nil] at h3
    rw [r0] at h4
    by_contra hne
    have h5 := h4 (by omega)
    omega
  have hrun : ∀ (s : ℤ) (hs : 0 ≤ s) {tr : List SynEvent} (h : Interleaving ([rows, rows'].mapIdx fun t l => a.toAlm.prog t l) tr),
      SynfastFlatRuns randint E gauss c.run a s g [rows, rows']
        (.ok (synMaps a E c tr ⟨0, fun _ => 0, fun _ => 0, z⟩ gauss s), g) := by
    intro s hs tr h
    unfold SynfastFlatRuns
    rw [if_neg (not_lt.mpr hs), hcheck]
    exact ⟨rfl, z, _, ⟨hflat, hsorted, tr, _, _, h, rfl⟩, rfl⟩
  refine ⟨_, _, hrun seed hseed h1, hrun (seed + 1) (by omega) h1', ?_⟩
  intro F F' hF hF' k hk hk0 hkx hrow
  unfold synMaps at hF hF'
  rw [maps_single hsp _ (alms_values a E gauss _ hflat h1 _ _ z)] at hF
  rw [maps_single hsp _ (alms_values a E gauss _ hflat h1' _ _ z)] at hF'
  rw [hasModes_unique hF (hasModes_smul (c.exact _ (cell_herm a.toAlm _ 0 hx hy)) _) hk,
    hasModes_unique hF' (hasModes_smul (c.exact _ (cell_herm a.toAlm _ 0 hx hy)) _) hk]
  congr 1
  unfold fullArr SynAlm.cell
  simp only [if_pos hkx, if_pos hk0.ne']
  obtain ⟨pos, hp, hpe⟩ := List.mem_iff_getElem.mp hrow
  have hplace : place [rows, rows'] k.2 = (1, pos) :=
    place_eq (hflat.nodup_iff.mpr List.nodup_range) (l := rows') rfl (by rw [List.getElem?_eq_getElem hp, hpe])
  unfold synValues
  rw [hplace, r1, r1']
  simp

/-- A case: 3 x 3 pixels, rows 0 and 1 for one thread, row 2 for the other. -/
example (gauss : ℤ → ℕ → ℝ × ℝ) (c : C2r ⟨3, 3, 1, 1⟩) :
    ∃ maps maps' : ℕ → ℕ × ℕ → ℝ,
      SynfastFlatRuns (fun _ : Unit => (0, ())) exactEigen gauss c.run ⟨⟨3, 3, 1, 1⟩, ⟨1, 2, fun _ _ => 1⟩, [0], none⟩ 7 ()
        [[0, 1], [2]] (.ok maps, ()) ∧
      SynfastFlatRuns (fun _ : Unit => (0, ())) exactEigen gauss c.run ⟨⟨3, 3, 1, 1⟩, ⟨1, 2, fun _ _ => 1⟩, [0], none⟩ 8 ()
        [[0, 1], [2]] (.ok maps', ()) ∧
      ∀ F F', HasModes ⟨3, 3, 1, 1⟩ (maps 0) F → HasModes ⟨3, 3, 1, 1⟩ (maps' 0) F' → F (1, 2) = F' (1, 2) := by
  have hcheck : (SynFlatArgs.mk ⟨3, 3, 1, 1⟩ ⟨1, 2, fun _ _ => 1⟩ [0] none).check = .ok () := by
    unfold SynFlatArgs.check
    rw [if_neg (by simp), if_neg (by simp [SynFlatArgs.nmaps, nmapsOf]), if_neg (by simp), if_neg (by simp), if_neg (by simp),
      if_neg (by simp)]
  obtain ⟨maps, maps', h1, h2, h3⟩ := C62_flat_wrong (fun _ : Unit => (0, ())) exactEigen gauss _ hcheck rfl (by decide) (by decide) c
    (seed := 7) (by norm_num) (rows := [0, 1]) (rows' := [2]) (by decide) (by decide) (by decide) ()
  exact ⟨maps, maps', h1, h2, fun F F' hF hF' => h3 F F' hF hF' (1, 2) (mem_modes.mpr ⟨by decide, by decide⟩) (by decide) (by decide)
    (by decide)⟩

end NaMaster
