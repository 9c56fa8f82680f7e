import Verif.Syn.Props

/-! # Property C44 fails for flat-sky simulations with two threads -/

namespace NaMaster

open Finset Real

theorem synKfun_zero {n : ℕ} (hn : 2 ≤ n) (f : ℕ → ℝ) : synKfun n f 0 = f 0 := by
  obtain ⟨n, rfl⟩ := Nat.exists_eq_add_of_le' hn
  have hsplit : (List.range (n + 2)).map (fun l : ℕ => ((l : ℝ), f l)) =
      (((0 : ℕ) : ℝ), f 0) :: (((0 + 1 : ℕ) : ℝ), f (0 + 1)) :: (List.range n).map fun l : ℕ => (((l + 1 + 1 : ℕ) : ℝ), f (l + 1 + 1)) := by
    rw [List.range_succ_eq_map, List.range_succ_eq_map]
    simp [Function.comp_def]
  have hpw : List.Pairwise (fun a b : ℝ × ℝ => a.1 < b.1) ((List.range (n + 2)).map fun l : ℕ => ((l : ℝ), f l)) := by
    rw [List.pairwise_map]
    exact List.pairwise_lt_range.imp fun h => by simpa using h
  unfold synKfun
  rw [hsplit] at hpw ⊢
  unfold kFunction
  simp only
  rw [if_pos hpw, if_pos (by simp)]

/-- For maps with odd numbers of pixels the coefficients are those of a real map. -/
theorem cell_herm (A : SynAlm) (a : ℕ → ℕ → ℕ → ℂ) (i : ℕ) (hx : Odd A.fs.nx) (hy : Odd A.fs.ny) :
    HermHalf A.fs fun k => A.cell a i k.1 k.2 := by
  intro k hk hk1
  rw [mem_modes] at hk
  obtain ⟨nx', hx⟩ := hx
  obtain ⟨ny', hy⟩ := hy
  have h0 : k.1 = 0 := by omega
  simp only [h0]
  unfold SynAlm.cell
  simp only [ne_eq, not_true, if_false]
  rcases Nat.eq_zero_or_pos k.2 with h2 | h2
  · have : negIdx A.fs.ny k.2 = 0 := by rw [h2]; simp [negIdx]
    rw [this, if_pos rfl, if_pos h2]
    exact (Complex.conj_ofReal _).symm
  · rw [negIdx_of_pos h2, if_neg (show ¬ A.fs.ny - k.2 = 0 by omega), if_neg (show ¬ k.2 = 0 by omega)]
    by_cases h3 : 2 * k.2 < A.fs.ny
    · rw [if_neg (by omega), if_pos h3]
      have : A.fs.ny - (A.fs.ny - k.2) = k.2 := by omega
      rw [this]
    · rw [if_pos (by omega), if_neg h3, star_star]

/-- The sum of the pixels of a simulated map of spin 0 with odd numbers of pixels. -/
theorem map_sum (a : SynFlatArgs) (c : C2r a.fs) (hsp : a.spins = [0]) (hx : Odd a.fs.nx) (hy : Odd a.fs.ny)
    {m : ℕ × ℕ × ℕ → ℂ} {v : ℕ → ℕ → ℕ → ℂ}
    (hm : ∀ i < a.nmaps, ∀ ix ≤ a.fs.nx / 2, ∀ iy < a.fs.ny, m (i, ix, iy) = a.toAlm.cell v i ix iy) :
    ∑ p ∈ a.fs.modes, a.maps c.run m 0 p = (a.fs.nx * a.fs.ny : ℕ) * (√2 * (v 0 0 0).re) * (2 * π / (a.fs.lx * a.fs.ly)) := by
  have hx0 : 0 < a.fs.nx := hx.pos
  have hy0 : 0 < a.fs.ny := hy.pos
  have e1 : ∀ p, a.maps c.run m 0 p =
      c.run (fun k => a.toAlm.cell v 0 k.1 k.2) p * (2 * π / (a.fs.lx * a.fs.ly)) := by
    intro p
    rw [maps_congr a c (m' := fun x => a.toAlm.cell v x.1 x.2.1 x.2.2) hm]
    unfold SynFlatArgs.maps
    rw [hsp]
    simp [locate, nmapsOf, fsAlm2map]
  simp only [e1]
  rw [← Finset.sum_mul]
  congr 1
  have h2 := hasModes_sum (c.exact _ (cell_herm a.toAlm v 0 hx hy)) hx0 hy0
  have h3 : fullArr a.fs (fun k => a.toAlm.cell v 0 k.1 k.2) (0, 0) = ((√2 * (v 0 0 0).re : ℝ) : ℂ) := by
    simp [fullArr, SynAlm.cell]
  rw [h3] at h2
  exact_mod_cast h2

/-- **C44 fails** for `synfast_flat` with more than one thread. Take a map with odd numbers of pixels and at least two rows,
one field of spin 0 whose spectrum does not vanish at zero, and two threads that share the rows. If the first random numbers
for the seeds `seed` and `seed + 1` differ, there are two executions of the same call, in the same state of the global
generator and with the same distribution of the rows, with different maps. -/
theorem C44_flat_wrong {G : Type*} (randint : G → ℤ × G) {E : Eigen} (hE : E.Correct) {gauss : ℤ → ℕ → ℝ × ℝ} (fs : FlatInfo)
    (hx : Odd fs.nx) (hy : Odd fs.ny) (hny : 2 ≤ fs.ny) (hlx : 0 < fs.lx) (hly : 0 < fs.ly) (c : C2r fs) (cls : Arr2 ℝ)
    (hrow : cls.rows = 1) (hcol : 2 ≤ cls.cols) (hcl : 0 < cls.val 0 0) {seed : ℤ} (hs : 0 ≤ seed)
    (hg : (gauss seed 0).1 ≠ (gauss (seed + 1) 0).1) (g : G) :
    ∃ (sched : List (List ℕ)) (out out' : Outcome (ℕ → ℕ × ℕ → ℝ) × G), sched.length = 2 ∧
      SynfastFlatRuns randint E gauss c.run ⟨fs, cls, [0], none⟩ seed g sched out ∧
      SynfastFlatRuns randint E gauss c.run ⟨fs, cls, [0], none⟩ seed g sched out' ∧ out.1 ≠ out'.1 := by
  set a : SynFlatArgs := ⟨fs, cls, [0], none⟩ with ha
  have hnm : a.nmaps = 1 := by simp [ha, SynFlatArgs.nmaps, nmapsOf]
  have hcheck : a.check = .ok () := by
    unfold SynFlatArgs.check
    rw [if_neg (by simp [ha]), if_neg (by rw [hnm]; simp [ha, hrow]), if_neg (by simp [ha, hrow]), if_neg (by simp [ha]),
      if_neg (by simp [ha, hlx, hly]), if_neg (by simp only [ha]; omega)]
  obtain ⟨n, hn⟩ := Nat.exists_eq_add_of_le' hny
  set h := (fs.ny + 1) / 2 with hh
  set sched : List (List ℕ) := [List.range h, List.range' h (fs.ny - h)] with hsched
  have hperm : sched.flatten.Perm (List.range a.toAlm.fs.ny) := by
    have : sched.flatten = List.range fs.ny := by
      simp only [hsched, List.flatten_cons, List.flatten_nil, List.append_nil]
      rw [List.range_eq_range', List.range_eq_range']
      have := List.range'_append (s := 0) (m := h) (n := fs.ny - h) (step := 1)
      simp only [Nat.one_mul, Nat.zero_add] at this
      rw [this]
      congr 1
      omega
    rw [this]
    exact List.Perm.refl _
  have hsorted : ∀ l ∈ sched, l.Pairwise (· < ·) := by
    intro l hl
    simp only [hsched, List.mem_cons, List.not_mem_nil, or_false] at hl
    rcases hl with rfl | rfl
    · exact List.pairwise_lt_range
    · exact List.pairwise_lt_range'
  -- an execution in which thread `t` is first
  have hrun : ∀ t < 2, ∃ m, a.toAlm.Runs E gauss seed sched (fun _ => 0) m ∧ ∃ rank : ℕ → ℕ, rank t = 0 ∧
      (∀ t < 2, rank t < 2) ∧ (∀ t < 2, ∀ t' < 2, rank t = rank t' → t = t') ∧
      ∀ i < a.nmaps, ∀ ix ≤ a.fs.nx / 2, ∀ iy < a.fs.ny,
        m (i, ix, iy) = a.toAlm.cell (synValues a.toAlm E gauss seed sched rank) i ix iy := by
    intro t ht
    obtain ⟨l, hl⟩ : ∃ l, sched[t]? = some l := ⟨_, List.getElem?_eq_getElem (by simpa [hsched] using ht)⟩
    obtain ⟨tr, h1, h2⟩ := exists_first a.toAlm hl
    have h3 := syn_formula_trace a.toAlm E gauss seed (m0 := fun _ => 0) (i0 := fun _ => 0) (c0 := fun _ => 0) hperm h1
    refine ⟨_, ⟨hperm, hsorted, _, fun _ => 0, fun _ => 0, h1, rfl⟩, _, rank_first a.toAlm E gauss seed (m0 := fun _ => 0) (i0 := fun _ => 0) (c0 := fun _ => 0) hl h2, ?_, ?_, ?_⟩
    · exact h3.1
    · exact h3.2.1
    · refine h3.2.2 _ ?_
      intro t l pos iy hl hp ix _
      unfold synValues
      rw [place_eq (hperm.nodup_iff.mpr List.nodup_range) hl hp]
  obtain ⟨m, hr, rank, r0, -, -, hm⟩ := hrun 0 (by omega)
  obtain ⟨m', hr', rank', r0', rlt', rinj', hm'⟩ := hrun 1 (by omega)
  have r1' : rank' 0 = 1 := by
    have h1 := rlt' 0 (by omega)
    have h2 : rank' 0 ≠ rank' 1 := fun h => absurd (rinj' 0 (by omega) 1 (by omega) h) (by omega)
    omega
  refine ⟨sched, (.ok (a.maps c.run m), g), (.ok (a.maps c.run m'), g), by simp [hsched], ?_, ?_, ?_⟩
  · unfold SynfastFlatRuns
    rw [if_neg (not_lt.mpr hs), hcheck]
    exact ⟨rfl, _, _, hr, rfl⟩
  · unfold SynfastFlatRuns
    rw [if_neg (not_lt.mpr hs), hcheck]
    exact ⟨rfl, _, _, hr', rfl⟩
  · intro heq
    simp only [Outcome.ok.injEq] at heq
    have hsum := map_sum a c rfl hx hy hm
    rw [heq, map_sum a c rfl hx hy hm'] at hsum
    have hpos : (0 : ℝ) < 2 * π / (fs.lx * fs.ly) := by positivity
    have hn0 : ((fs.nx * fs.ny : ℕ) : ℝ) ≠ 0 := by
      have := hx.pos
      have := hy.pos
      positivity
    have h1 := mul_right_cancel₀ hpos.ne' hsum
    have h2 := mul_left_cancel₀ hn0 h1
    have h3 := mul_left_cancel₀ (by positivity : √2 ≠ 0) h2
    -- the values of the mode at the origin
    have hp : place sched 0 = (0, 0) :=
      place_eq (hperm.nodup_iff.mpr List.nodup_range) (l := List.range h) (by simp [hsched])
        (by rw [List.getElem?_range (by omega)])
    have hk : fs.kmod 0 0 = 0 := by simp [FlatInfo.kmod, FlatInfo.kx, FlatInfo.ky, waveNum]
    have hbeam : a.toAlm.beam 0 0 = 1 := by simp only [SynFlatArgs.toAlm]; exact synKfun_zero hcol _
    have hval : ∀ rank : ℕ → ℕ, (synValues a.toAlm E gauss seed sched rank 0 0 0).re =
        a.toAlm.root E 0 0 0 * (gauss (seed + rank 0) 0).1 := by
      intro rank
      have hk' : a.toAlm.fs.kmod 0 0 = 0 := hk
      have hn' : a.toAlm.nmaps = 1 := hnm
      simp only [synValues, SynAlm.coef, hp, hk', hn', hbeam, sum_range_one]
      simp
    rw [hval, hval, r0, r1'] at h3
    have hcl0 : a.toAlm.clmat 0 0 0 > 0 := by
      have : a.toAlm.cells 0 0 = cls.val 0 0 := synKfun_zero hcol _
      have e : a.toAlm.clmat 0 0 0 = 1 / 2 * (1 / (2 * π / fs.lx * (2 * π / fs.ly))) * cls.val 0 0 := by
        simp only [SynAlm.clmat, min_self, max_self, triIdx, range_zero, sum_empty, Nat.sub_self, Nat.zero_add, this]
        rfl
      rw [e]
      positivity
    have hroot : a.toAlm.root E 0 0 0 ≠ 0 := by
      have hn' : a.toAlm.nmaps = 1 := hnm
      have hsym : SymmMat 1 (a.toAlm.clmat 0) := by
        intro i hi j hj
        obtain rfl : i = 0 := by omega
        obtain rfl : j = 0 := by omega
        rfl
      obtain ⟨q1, q2, -⟩ := hE 1 (a.toAlm.clmat 0) hsym
      have p1 := q1 0 (by omega) 0 (by omega)
      have p2 := q2 0 (by omega) 0 (by omega)
      simp only [sum_range_one, if_true] at p1 p2
      have hv : E.vecs 1 (a.toAlm.clmat 0) 0 0 ≠ 0 := fun h => by rw [h] at p2; simp at p2
      have hl := mul_right_cancel₀ hv p1
      unfold SynAlm.root
      rw [hn', ← hl, if_neg (not_le.mpr hcl0)]
      exact mul_ne_zero hv (Real.sqrt_ne_zero'.mpr hcl0)
    exact hg (by
      have := mul_left_cancel₀ hroot h3
      simpa using this.symm)

/-- A case: 3 x 3 pixels, a constant spectrum, a generator whose first number is its seed. -/
example (g : Unit) : ∃ (sched : List (List ℕ)) (out out' : Outcome (ℕ → ℕ × ℕ → ℝ) × Unit), sched.length = 2 ∧
    SynfastFlatRuns (fun _ => (0, ())) exactEigen (fun s _ => ((s : ℝ), 0)) (C2r.std ⟨3, 3, 1, 1⟩ (by norm_num)).run
      ⟨⟨3, 3, 1, 1⟩, ⟨1, 2, fun _ _ => 1⟩, [0], none⟩ 7 g sched out ∧
    SynfastFlatRuns (fun _ => (0, ())) exactEigen (fun s _ => ((s : ℝ), 0)) (C2r.std ⟨3, 3, 1, 1⟩ (by norm_num)).run
      ⟨⟨3, 3, 1, 1⟩, ⟨1, 2, fun _ _ => 1⟩, [0], none⟩ 7 g sched out' ∧ out.1 ≠ out'.1 :=
  C44_flat_wrong _ exactEigen_correct ⟨3, 3, 1, 1⟩ (by decide) (by decide) (by norm_num) (by norm_num) (by norm_num) _ _ rfl
    (le_refl _) (by norm_num) (by norm_num) (by norm_num) g

end NaMaster
