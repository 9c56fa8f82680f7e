import Verif.Syn.Power3

/-!
# Property C61: the spectra of flat-sky simulations

The requested spectra are those of the arguments: `cls` lists the spectra of the pairs of maps in the order of `upperPairs`,
tabulated at integer multipoles; `beam` has one row for each field.
-/

namespace NaMaster

open Finset Real MeasureTheory

/-- The tabulated cross-spectrum of two maps. -/
def SynFlatArgs.spec (a : SynFlatArgs) (i j l : ℕ) : ℝ := a.cls.val ((upperPairs a.nmaps).idxOf (min i j, max i j)) l

/-- The number of the first map of a field. -/
def SynFlatArgs.first (a : SynFlatArgs) (f : ℕ) : ℕ := ((a.spins.take f).map fun s => nmapsOf s.natAbs).sum

/-- The tabulated beam of a field. -/
def SynFlatArgs.fieldBeam (a : SynFlatArgs) (f l : ℕ) : ℝ :=
  match a.beam with
  | some b => b.val f l
  | none => 1

theorem spec_row (a : SynFlatArgs) {i j : ℕ} (hi : i < a.nmaps) (hj : j < a.nmaps) (l : ℕ) :
    a.spec i j l = a.cls.val (triIdx a.nmaps (min i j) (max i j)) l := by
  have h := upperPairs_at (n := a.nmaps) (i := min i j) (j := max i j) (min_le_max) (max_lt hi hj)
  obtain ⟨hr, he⟩ := List.getElem?_eq_some_iff.mp h
  unfold SynFlatArgs.spec
  rw [← he, (upperPairs_nodup a.nmaps).idxOf_getElem]

theorem first_lt (a : SynFlatArgs) {f c : ℕ} {s : ℤ} (hf : a.spins[f]? = some s) (hc : c < nmapsOf s.natAbs) :
    locate (a.spins.map Int.natAbs) (a.first f + c) = some (f, s.natAbs, c) ∧ a.first f + c < a.nmaps := by
  have h1 : (a.spins.map Int.natAbs)[f]? = some s.natAbs := by rw [List.getElem?_map, hf]; rfl
  have h2 := locate_at h1 hc
  have h3 : (((a.spins.map Int.natAbs).take f).map nmapsOf).sum = a.first f := by
    unfold SynFlatArgs.first
    rw [← List.map_take, List.map_map]
    rfl
  rw [h3] at h2
  obtain ⟨-, -, h4, -⟩ := locate_some h2
  rw [← nmaps_eq] at h4
  exact ⟨h2, by omega⟩

theorem check_ok {a : SynFlatArgs} (h : a.check = .ok ()) : 2 ≤ a.cls.cols ∧ 0 < a.fs.lx ∧ 0 < a.fs.ly := by
  unfold SynFlatArgs.check at h
  split_ifs at h with h1 h2 h3 h4 h5 h6
  exact ⟨by omega, h5.1, h5.2⟩

/-- The maps of an execution in which the threads act in the order `tr`. -/
noncomputable def synMaps (a : SynFlatArgs) (E : Eigen) (c : C2r a.fs) (tr : List SynEvent) (s0 : SynState)
    (gauss : ℤ → ℕ → ℝ × ℝ) (seed : ℤ) : ℕ → ℕ × ℕ → ℝ :=
  a.maps c.run (tr.foldl (a.toAlm.step E gauss seed) s0).alms

/-- The maps of a field have the modes computed from the random numbers. -/
theorem syn_sky (a : SynFlatArgs) (hx : Odd a.fs.nx) (hy : Odd a.fs.ny) (hlx : 0 < a.fs.lx) (hly : 0 < a.fs.ly) (c : C2r a.fs)
    {m : ℕ × ℕ × ℕ → ℂ} {v : ℕ → ℕ → ℕ → ℂ}
    (hm : ∀ i < a.nmaps, ∀ ix ≤ a.fs.nx / 2, ∀ iy < a.fs.ny, m (i, ix, iy) = a.toAlm.cell v i ix iy) {f : ℕ} {s : ℤ}
    (hf : a.spins[f]? = some s) (h0 : Even s ∨ ∀ X < nmapsOf s.natAbs, v 0 0 (a.first f + X) = 0) :
    SkyHas a.fs s.natAbs (fun X => a.maps c.run m (a.first f + X)) (fun X k => ((2 * π / (a.fs.lx * a.fs.ly) : ℝ) : ℂ) *
      fullArr a.fs (fun k => a.toAlm.cell v (a.first f + X) k.1 k.2) k) := by
  rw [maps_congr a c (m' := fun x => a.toAlm.cell v x.1 x.2.1 x.2.2) hm]
  have hloc : ∀ X < nmapsOf s.natAbs, a.maps c.run (fun x => a.toAlm.cell v x.1 x.2.1 x.2.2) (a.first f + X) =
      fsAlm2map c.run a.fs s.natAbs (fun c k => a.toAlm.cell v (a.first f + c) k.1 k.2) X := by
    intro X hX
    funext p
    unfold SynFlatArgs.maps
    rw [(first_lt a hf hX).1]
    simp only [Nat.add_sub_cancel]
  unfold SkyHas
  by_cases hs : s.natAbs = 0
  · rw [if_pos hs]
    have h1 : nmapsOf s.natAbs = 1 := by rw [hs]; rfl
    simp only [hloc 0 (by omega)]
    unfold fsAlm2map
    simp only [if_pos hs]
    exact hasModes_smul (c.exact _ (cell_herm a.toAlm v _ hx hy)) _
  · rw [if_neg hs]
    have h2 : nmapsOf s.natAbs = 2 := by unfold nmapsOf; rw [if_neg hs]
    have hrot := rot_full hx hy hlx hly s.natAbs (cell_herm a.toAlm v (a.first f + 0) hx hy) (cell_herm a.toAlm v (a.first f + 1) hx hy)
      (by
        rcases h0 with h | h
        · exact Or.inl (Int.natAbs_even.mpr h)
        · right
          have e0 := h 0 (by omega)
          have e1 := h 1 (by omega)
          rw [Nat.add_zero] at e0
          simp [SynAlm.cell, e0, e1])
    simp only at hrot
    obtain ⟨r1, r2, r3⟩ := hrot
    simp only [hloc 0 (by omega), hloc 1 (by omega)]
    unfold fsAlm2map
    simp only [if_neg hs, if_true, one_ne_zero, if_false, eb2qu_smul]
    exact ⟨hasModes_congr (hasModes_smul (c.exact _ r1) _) fun k hk => by rw [← (r3 k hk).1],
      hasModes_congr (hasModes_smul (c.exact _ r2) _) fun k hk => by rw [← (r3 k hk).2]⟩

/-- **C61**, in part: maps with odd numbers of pixels along both axes. The matrix of the spectra at every multipole is
positive semidefinite, and the spectra of fields with odd spin vanish at multipole zero. The random numbers are uncorrelated with
unit variance, and the order `tr` in which the threads act does not depend on them. Then the result is a possible result of
`synfast_flat`, every field has Fourier modes as in `SkyHas`, and the modes of all pairs of fields are homogeneous with the
requested spectra, multiplied by the beams of both fields. Missing: even numbers of pixels, for which the statement is false
(`C61_nyquist_wrong`), and the last tabulated multipole, where the spectrum is zero (`C61_last_wrong`). -/
theorem C61_flat_partial {Ω G : Type*} [MeasurableSpace Ω] {μ : Measure Ω} (randint : G → ℤ × G) {E : Eigen} (hE : E.Correct)
    (a : SynFlatArgs) (hcheck : a.check = .ok ()) (hx : Odd a.fs.nx) (hy : Odd a.fs.ny) (c : C2r a.fs)
    (hpsd : ∀ l < a.cls.cols, PsdMat a.nmaps fun i j => a.spec i j l)
    (hodd : ∀ f s, a.spins[f]? = some s → Even s ∨ ∀ X < nmapsOf s.natAbs, a.spec (a.first f + X) (a.first f + X) 0 = 0)
    {gauss : Ω → ℤ → ℕ → ℝ × ℝ} {seed : ℤ} (hseed : 0 ≤ seed) {sched : List (List ℕ)}
    (hperm : sched.flatten.Perm (List.range a.fs.ny)) (hsort : ∀ l ∈ sched, l.Pairwise (· < ·)) {tr : List SynEvent}
    (hint : Interleaving (sched.mapIdx fun t l => a.toAlm.prog t l) tr) (i0 c0 : ℕ → ℕ) (m0 : ℕ × ℕ × ℕ → ℂ)
    (hw : WhiteDraws μ gauss seed sched.length) (g : G) :
    ∃ F : Ω → ℕ → ℕ → ℕ × ℕ → ℂ,
      (∀ ω, SynfastFlatRuns randint E (gauss ω) c.run a seed g sched (.ok (synMaps a E c tr ⟨0, i0, c0, m0⟩ (gauss ω) seed), g)) ∧
      (∀ ω f s, a.spins[f]? = some s →
        SkyHas a.fs s.natAbs (fun X => synMaps a E c tr ⟨0, i0, c0, m0⟩ (gauss ω) seed (a.first f + X)) (F ω f)) ∧
      ∀ f s f' s', a.spins[f]? = some s → a.spins[f']? = some s' →
        Homogeneous μ a.fs (nmapsOf s.natAbs) (nmapsOf s'.natAbs) (fun ω => F ω f) (fun ω => F ω f') fun X Y k =>
          tabSpec a.cls.cols (a.spec (a.first f + X) (a.first f' + Y)) (a.fs.kmod k.1 k.2) *
            (tabSpec a.cls.cols (a.fieldBeam f) (a.fs.kmod k.1 k.2) * tabSpec a.cls.cols (a.fieldBeam f') (a.fs.kmod k.1 k.2)) := by
  obtain ⟨hn, hlx, hly⟩ := check_ok hcheck
  have hpsd' : ∀ k, PsdMat a.toAlm.nmaps (a.toAlm.clmat k) := by
    refine clmat_psd a hn hlx hly fun l hl x => ?_
    refine (hpsd l hl x).trans_eq (Finset.sum_congr rfl fun i hi => Finset.sum_congr rfl fun j hj => ?_)
    simp only [spec_row a (mem_range.mp hi) (mem_range.mp hj)]
  set rank : Ω → ℕ → ℕ := fun ω => a.toAlm.rankOf E (gauss ω) seed tr i0 c0 m0 with hrank
  have hformula := fun ω => syn_formula_trace a.toAlm E (gauss ω) seed (m0 := m0) (i0 := i0) (c0 := c0) hperm hint
  simp only at hformula
  have hall : ∀ ω, ∀ i < a.nmaps, ∀ ix ≤ a.fs.nx / 2, ∀ iy < a.fs.ny,
      (tr.foldl (a.toAlm.step E (gauss ω) seed) ⟨0, i0, c0, m0⟩).alms (i, ix, iy) =
        a.toAlm.cell (synValues a.toAlm E (gauss ω) seed sched (rank ω)) i ix iy := by
    intro ω
    refine (hformula ω).2.2 _ ?_
    intro t l pos iy hl hp ix _
    unfold synValues
    rw [place_eq (hperm.nodup_iff.mpr List.nodup_range) hl hp]
  refine ⟨fun ω f X k => ((2 * π / (a.fs.lx * a.fs.ly) : ℝ) : ℂ) *
    fullArr a.fs (fun k => a.toAlm.cell (synValues a.toAlm E (gauss ω) seed sched (rank ω)) (a.first f + X) k.1 k.2) k, ?_, ?_, ?_⟩
  · intro ω
    unfold SynfastFlatRuns
    rw [if_neg (not_lt.mpr hseed), hcheck]
    exact ⟨rfl, m0, _, ⟨hperm, hsort, tr, i0, c0, hint, rfl⟩, rfl⟩
  · intro ω f s hf
    refine syn_sky a hx hy hlx hly c (hall ω) hf ?_
    refine (hodd f s hf).imp id fun h X hX => ?_
    have hlt := (first_lt a hf hX).2
    have hk0 : a.toAlm.fs.kmod 0 0 = 0 := by simp [FlatInfo.kmod, FlatInfo.kx, FlatInfo.ky, waveNum]
    have hcl : a.toAlm.clmat 0 (a.first f + X) (a.first f + X) = 0 := by
      have h1 := h X hX
      rw [spec_row a hlt hlt] at h1
      unfold SynAlm.clmat
      have : a.toAlm.cells (triIdx a.toAlm.nmaps (min (a.first f + X) (a.first f + X)) (max (a.first f + X) (a.first f + X))) 0 = 0 := by
        simp only [SynFlatArgs.toAlm]
        rw [synKfun_zero hn]
        exact h1
      rw [this, mul_zero]
    unfold synValues SynAlm.coef
    simp only [hk0]
    have hz : ∀ j ∈ range a.toAlm.nmaps, a.toAlm.root E 0 (a.first f + X) j = 0 := fun j hj =>
      root_zero hE a.toAlm (hpsd' 0) hlt hcl (mem_range.mp hj)
    apply Complex.ext
    · simp only [Complex.zero_re]
      rw [Finset.sum_eq_zero fun j hj => by rw [hz j hj, zero_mul], mul_zero]
    · simp only [Complex.zero_im]
      rw [Finset.sum_eq_zero fun j hj => by rw [hz j hj, zero_mul], mul_zero]
  · intro f s f' s' hf hf'
    rcases isEmpty_or_nonempty Ω with hΩ | ⟨⟨ω0⟩⟩
    · refine ⟨fun X _ Y _ k _ k' _ => ?_, fun X hX Y hY k hk k' hk' => ?_⟩
      · have : μ = 0 := Subsingleton.elim _ _
        rw [this]; exact integrable_zero_measure
      · exfalso
        have h1 := hw.cov (0, 0, false) (0, 0, false)
        have hT : 0 < sched.length := by
          rcases Nat.eq_zero_or_pos sched.length with h | h
          · have := List.eq_nil_of_length_eq_zero h
            rw [this] at hperm
            have hl := hperm.length_eq
            simp at hl
            have := hy.pos
            omega
          · exact h
        have h2 := h1 hT hT
        have : μ = 0 := Subsingleton.elim _ _
        rw [this] at h2
        simp at h2
    have hconst : ∀ ω, rank ω = rank ω0 := fun ω => rankOf_eq a.toAlm E _ _ seed tr i0 c0 m0
    simp only [hconst]
    have hcov : ∀ X < nmapsOf s.natAbs, ∀ Y < nmapsOf s'.natAbs, ∀ k ∈ a.fs.modes, ∀ k' ∈ a.fs.modes, _ := fun X hX Y hY k hk k' hk' =>
      syn_cov (μ := μ) (A := a.toAlm) hx hy hE hpsd' hperm (hformula ω0).1 (hformula ω0).2.1 hw (first_lt a hf hX).2
        (first_lt a hf' hY).2 (k := k) (k' := k') hk hk'
    have hr0 : ∀ x : ℝ, star (x : ℂ) = x := fun x => Complex.conj_ofReal x
    have hprod : ∀ (r : ℝ) (x y : ℂ), ((r : ℝ) : ℂ) * x * star (((r : ℝ) : ℂ) * y) = ((r * r : ℝ) : ℂ) * (x * star y) := by
      intro r x y
      rw [star_mul', hr0]
      push_cast
      ring
    refine ⟨fun X hX Y hY k hk k' hk' => ?_, fun X hX Y hY k hk k' hk' => ?_⟩
    · simp only [hprod]
      exact (hcov X hX Y hY k hk k' hk').1.const_mul _
    · simp only [hprod]
      rw [integral_const_mul]
      refine (congrArg _ (hcov X hX Y hY k hk k' hk').2).trans ?_
      by_cases hkk : k = k'
      · rw [if_pos hkk, if_pos hkk, ← Complex.ofReal_mul]
        congr 1
        have hkm : 0 ≤ a.fs.kmod k.1 k.2 := Real.sqrt_nonneg _
        have hb : ∀ {f : ℕ} {s : ℤ}, a.spins[f]? = some s → ∀ X < nmapsOf s.natAbs,
            a.toAlm.beam (a.first f + X) (a.fs.kmod k.1 k.2) = tabSpec a.cls.cols (a.fieldBeam f) (a.fs.kmod k.1 k.2) := by
          intro f s hf X hX
          rw [← synKfun_tab hn _ hkm]
          simp only [SynFlatArgs.toAlm, (first_lt a hf hX).1]
          congr 1
          funext l
          unfold SynFlatArgs.fieldBeam
          cases a.beam <;> rfl
        have hc : a.toAlm.clmat (a.fs.kmod k.1 k.2) (a.first f + X) (a.first f' + Y) =
            1 / 2 * (1 / (2 * π / a.fs.lx * (2 * π / a.fs.ly))) *
              tabSpec a.cls.cols (a.spec (a.first f + X) (a.first f' + Y)) (a.fs.kmod k.1 k.2) := by
          rw [← synKfun_tab hn _ hkm]
          unfold SynAlm.clmat
          simp only [SynFlatArgs.toAlm]
          congr 2
          funext l
          exact (spec_row a (first_lt a hf hX).2 (first_lt a hf' hY).2 l).symm
        show 2 * π / (a.fs.lx * a.fs.ly) * (2 * π / (a.fs.lx * a.fs.ly)) * (2 * (a.toAlm.clmat (a.fs.kmod k.1 k.2) (a.first f + X) (a.first f' + Y) *
          (a.toAlm.beam (a.first f + X) (a.fs.kmod k.1 k.2) * a.toAlm.beam (a.first f' + Y) (a.fs.kmod k.1 k.2)))) = _
        rw [hb hf X hX, hb hf' Y hY, hc]
        have hpi := Real.pi_pos.ne'
        field_simp
      · rw [if_neg hkk, if_neg hkk, mul_zero]

end NaMaster
