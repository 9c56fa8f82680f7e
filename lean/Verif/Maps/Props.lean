import Verif.Maps.Lemmas3

set_option linter.unusedSectionVars false

/-! # Properties of curved-sky pixelisations: C31, C32, C33, C34, C35, C46, C55 -/

namespace NaMaster

open Finset

/-! ## C31: HEALPix map sizes -/

/-- C31: both searches for the resolution end, for every length (the model's bound on the number of iterations is
never reached). -/
theorem C31_search_terminates (len nldout : ℕ) : pyNside len ≠ none ∧ apoNside nldout len ≠ none := by
  constructor
  · rcases pySearch_spec len 17 1 (by norm_num) (by norm_num) with ⟨k, _, _, _, h⟩ | ⟨_, h⟩ <;>
    · intro h'; rw [pyNside] at h'; norm_num at h; rw [h] at h'; cases h'
  · unfold apoNside
    split_ifs
    · rcases cSearch_spec len 18 0 (by norm_num) (by norm_num) with ⟨k, _, _, _, h⟩ | ⟨_, h⟩ <;>
      · intro h'; norm_num at h; rw [h] at h'; cases h'
    · simp

/-- C31, all but the resolution `nside = 1`. The full statement has `0 ≤ k`; it is false for `k = 0`, see
`C31_smallest_rejected`. A map is accepted exactly if it has `12*4^k` pixels with `1 ≤ k ≤ 16`, then `nside = 2^k`;
otherwise `ValueError` is raised. -/
theorem C31_sizes_partial (len : ℕ) :
    (∀ n, pyNside len = some (.ok n) ↔ ∃ k, 1 ≤ k ∧ k ≤ 16 ∧ len = 12 * 4 ^ k ∧ n = 2 ^ k) ∧
    ((¬ ∃ k, 1 ≤ k ∧ k ≤ 16 ∧ len = 12 * 4 ^ k) ↔ pyNside len = some (.raises .value)) := by
  have key := pySearch_spec len 17 1 (by norm_num) (by norm_num)
  rw [pow_one] at key
  change (∃ k, _ ∧ _ ∧ _ ∧ pyNside len = _) ∨ (_ ∧ pyNside len = _) at key
  rcases key with ⟨k, h1, h2, h3, h⟩ | ⟨h1, h⟩
  · refine ⟨fun n => ?_, ?_⟩
    · rw [h]
      constructor
      · intro e; injection e with e; injection e with e
        exact ⟨k, h1, h2, h3, e.symm⟩
      · rintro ⟨k', _, _, h3', rfl⟩
        rw [four_pow_inj (h3.symm.trans h3')]
    · rw [h]
      constructor
      · intro hn; exact absurd ⟨k, h1, h2, h3⟩ hn
      · intro e; injection e with e; cases e
  · refine ⟨fun n => ?_, ?_⟩
    · rw [h]
      constructor
      · intro e; injection e with e; cases e
      · rintro ⟨k', a, b, h3', rfl⟩
        exact absurd h3' (h1 k' a b)
    · rw [h]
      constructor
      · intro _; rfl
      · rintro _ ⟨k', a, b, h3'⟩
        exact absurd h3' (h1 k' a b)

example : pyNside 196608 = some (.ok 128) :=
  ((C31_sizes_partial 196608).1 128).2 ⟨7, by norm_num⟩

/-- C31 is false for the coarsest HEALPix resolution: a map with 12 pixels (`nside = 1`) is rejected by python, while
the C code called by the apodisation functions accepts it. -/
theorem C31_smallest_rejected :
    12 = 12 * 4 ^ 0 ∧ pyNside 12 = some (.raises .value) ∧ apoNside 12 12 = some (.ok 1) := by
  refine ⟨rfl, (C31_sizes_partial 12).2.1 ?_, ?_⟩
  · rintro ⟨k, hk, _, h⟩
    have : 4 ^ 1 ≤ 4 ^ k := Nat.pow_le_pow_right (by norm_num) hk
    omega
  · simp [apoNside, cSearch]

/-- C31 for the masks given to the C apodisation function: accepted exactly if the output has the length of the input and
this is `12*4^k` with `k ≤ 17`; otherwise `RuntimeError` is raised. Every HEALPix size whose length is a C `int`
(`k ≤ 13`) is among these. -/
theorem C31_c_sizes (nldout len : ℕ) :
    (∀ n, apoNside nldout len = some (.ok n) ↔ nldout = len ∧ ∃ k, k ≤ 17 ∧ len = 12 * 4 ^ k ∧ n = 2 ^ k) ∧
    (¬ (nldout = len ∧ ∃ k, k ≤ 17 ∧ len = 12 * 4 ^ k) ↔ apoNside nldout len = some (.raises .runtime)) := by
  have key := cSearch_spec len 18 0 (by norm_num) (by norm_num)
  rw [pow_zero] at key
  unfold apoNside
  by_cases hl : nldout = len
  · rw [if_pos hl]
    rcases key with ⟨k, h1, h2, h3, h⟩ | ⟨h1, h⟩
    · refine ⟨fun n => ?_, ?_⟩
      · rw [h]
        constructor
        · intro e; injection e with e; injection e with e
          exact ⟨hl, k, h2, h3, e.symm⟩
        · rintro ⟨_, k', _, h3', rfl⟩
          rw [four_pow_inj (h3.symm.trans h3')]
      · rw [h]
        constructor
        · intro hn; exact absurd ⟨hl, k, h2, h3⟩ hn
        · intro e; injection e with e; cases e
    · refine ⟨fun n => ?_, ?_⟩
      · rw [h]
        constructor
        · intro e; injection e with e; cases e
        · rintro ⟨_, k', b, h3', rfl⟩
          exact absurd h3' (h1 k' (by omega) b)
      · rw [h]
        constructor
        · intro _; rfl
        · rintro _ ⟨_, k', b, h3'⟩
          exact absurd h3' (h1 k' (by omega) b)
  · rw [if_neg hl]
    refine ⟨fun n => ⟨fun e => ?_, fun e => absurd e.1 hl⟩, fun _ => rfl, fun _ e => hl e.1⟩
    injection e with e; cases e

example : apoNside 48 48 = some (.ok 2) := ((C31_c_sizes 48 48).1 2).2 ⟨rfl, 1, by norm_num⟩
example : apoNside 48 50 = some (.raises .runtime) := (C31_c_sizes 48 50).2.1 (by simp)

/-! ## C32: rings -/

/-- C32: python and both C functions agree on the first pixel, the last pixel and the number of pixels of every ring. -/
theorem C32_agree (nside i : ℕ) (hn : 1 ≤ nside) (hi : i + 1 ≤ 4 * nside - 1) :
    (ringLimits nside (i + 1)).1 = pyOffset nside i ∧
    (ringLimits nside (i + 1)).2 + 1 = pyOffset nside i + pyNphi nside i ∧
    (inRingGeom nside (i + 1)).1 = pyOffset nside i ∧
    (inRingGeom nside (i + 1)).2.1 + 1 = pyOffset nside i + pyNphi nside i ∧
    (inRingGeom nside (i + 1)).2.2.1 = pyNphi nside i := by
  obtain ⟨h1, h2, h3⟩ := inRingGeom_eq nside (i + 1)
  have h4 := pyOffset_eq nside hn i hi
  have h5 := ring_len nside i hn hi
  rw [h1, h2, h3, h5, ← h4]
  refine ⟨rfl, by ring, rfl, by ring, by ring⟩

/-- C32: the rings are consecutive, the first starts at pixel 0, the last ends at the last pixel, none is empty. -/
theorem C32_consecutive (nside : ℕ) (hn : 1 ≤ nside) :
    (ringLimits nside 1).1 = 0 ∧ (ringLimits nside (4 * nside - 1)).2 = 12 * nside * nside - 1 ∧
    ∀ r : ℕ, 1 ≤ r → r < 4 * nside - 1 →
      (ringLimits nside (r + 1)).1 = (ringLimits nside r).2 + 1 ∧ (ringLimits nside r).1 ≤ (ringLimits nside r).2 := by
  refine ⟨ring_first _ (by omega), ring_last _ (by omega), fun r h1 h2 => ⟨ring_next _ _ (by omega) (by omega), ?_⟩⟩
  obtain ⟨i, rfl⟩ : ∃ i, r = i + 1 := ⟨r - 1, by omega⟩
  have := ring_len nside i hn (by omega)
  have hp : 1 ≤ pyNphi nside i := by unfold pyNphi northring; split_ifs <;> omega
  push_cast at this ⊢
  omega

/-- C32: every pixel belongs to exactly one ring. -/
theorem C32_partition (nside p : ℕ) (hn : 1 ≤ nside) (hp : p < 12 * nside * nside) :
    ∃! r : ℕ, (1 ≤ r ∧ r ≤ 4 * nside - 1) ∧
      (ringLimits nside r).1 ≤ (p : ℤ) ∧ (p : ℤ) ≤ (ringLimits nside r).2 := by
  rw [← pyOffset_total nside hn] at hp
  have conv : ∀ i, i + 1 ≤ 4 * nside - 1 →
      (((ringLimits nside (i + 1)).1 ≤ (p : ℤ) ∧ (p : ℤ) ≤ (ringLimits nside (i + 1)).2) ↔
        (∑ j ∈ range i, pyNphi nside j ≤ p ∧ p < ∑ j ∈ range (i + 1), pyNphi nside j)) := by
    intro i hi
    obtain ⟨h1, h2, _⟩ := C32_agree nside i hn hi
    have h3 : ∑ j ∈ range i, pyNphi nside j = pyOffset nside i := rfl
    rw [sum_range_succ, h3, h1]
    constructor <;> rintro ⟨a, b⟩ <;> constructor <;> omega
  obtain ⟨i, h1, h2, h3⟩ := exists_block (pyNphi nside) (4 * nside - 1) p hp
  refine ⟨i + 1, ⟨⟨by omega, by omega⟩, ?_⟩, ?_⟩
  · have := (conv i (by omega)).2 ⟨h2, h3⟩
    push_cast; exact this
  · rintro r ⟨⟨hr1, hr2⟩, hr⟩
    obtain ⟨j, rfl⟩ : ∃ j, r = j + 1 := ⟨r - 1, by omega⟩
    push_cast at hr
    have := (conv j (by omega)).1 hr
    rw [block_unique _ this.1 this.2 h2 h3]

example : ∃! r : ℕ, (1 ≤ r ∧ r ≤ 4 * 4 - 1) ∧ (ringLimits (4 : ℕ) r).1 ≤ ((100 : ℕ) : ℤ) ∧
    ((100 : ℕ) : ℤ) ≤ (ringLimits (4 : ℕ) r).2 := C32_partition 4 100 (by norm_num) (by norm_num)

/-- C32: python and the C code place every ring at the same height, and its first pixel at the same azimuth. In C a ring
of `nr` pixels with shift `k/2` has its pixels at azimuths `(j + k/2) * 2π/nr` (src/healpix_extra.c:341-342). -/
theorem C32_positions (nside i : ℕ) (hn : 1 ≤ nside) (hi : i + 1 ≤ 4 * nside - 1) :
    Real.cos (pyTheta nside i) = ringZ nside (i + 1) ∧ 0 ≤ pyTheta nside i ∧ pyTheta nside i ≤ Real.pi ∧
    pyPhi0 nside i =
      ((inRingGeom nside (i + 1)).2.2.2 : ℝ) / 2 * (2 * Real.pi / ((inRingGeom nside (i + 1)).2.2.1 : ℝ)) :=
  ⟨cos_pyTheta nside i hn hi, (pyTheta_range nside i).1, (pyTheta_range nside i).2, pyPhi0_eq nside i hn hi⟩

example : pyPhi0 4 1 = Real.pi / 8 ∧ pyPhi0 4 8 = 0 := by
  constructor <;> norm_num [pyPhi0, northring]

/-- C32: the ring number computed from a height is the ring at that height. The bound on `nside` is that of python. -/
theorem C32_ring_number (nside r : ℕ) (hn : 1 ≤ nside) (hN : nside ≤ 65536) (h1 : 1 ≤ r) (h2 : r ≤ 4 * nside - 1) :
    heRingNum nside (ringZ nside r) = r := heRingNum_ringZ nside r hn hN h1 h2

/-- C32: ring numbers never decrease towards the south, so the rings between two heights are those between the two ring
numbers. -/
theorem C32_ring_number_mono (nside r : ℕ) (hn : 1 ≤ nside) (hN : nside ≤ 65536) (h1 : 1 ≤ r)
    (h2 : r ≤ 4 * nside - 1) (zmin zmax : ℝ) (ha : -1 ≤ zmin) (hb : zmax ≤ 1)
    (hz : zmin ≤ ringZ nside r ∧ ringZ nside r ≤ zmax) :
    heRingNum nside zmax ≤ r ∧ (r : ℤ) ≤ heRingNum nside zmin := by
  rw [← heRingNum_ringZ nside r hn hN h1 h2]
  obtain ⟨h3, h4⟩ := ringZ_range nside r hn h1 h2
  exact ⟨heRingNum_anti nside hn hN h3 hz.2 hb, heRingNum_anti nside hn hN ha hz.1 h4⟩

example : heRingNum 4 1 ≤ (3 : ℕ) ∧ ((3 : ℕ) : ℤ) ≤ heRingNum 4 0 :=
  C32_ring_number_mono 4 3 (by norm_num) (by norm_num) (by norm_num) (by norm_num) 0 1 (by norm_num)
    (by norm_num) (by norm_num [ringZ])

/-! ## C33: harmonic coefficients -/

/-- C33: `(l, m) ↦ mstart[m] + l` numbers the pairs `0 ≤ m ≤ l ≤ lmax` from `0` to `nelem - 1`, each number once. -/
theorem C33_bijection (lmax : ℕ) :
    Set.BijOn (fun q : ℕ × ℕ => mstart lmax q.2 + q.1) {q | q.2 ≤ q.1 ∧ q.1 ≤ lmax} {k | k < nelem lmax} := by
  have pos : ∀ q : ℕ × ℕ, q.2 ≤ q.1 ∧ q.1 ≤ lmax →
      ∑ k ∈ range q.2, (lmax + 1 - k) ≤ mstart lmax q.2 + q.1 ∧
      mstart lmax q.2 + q.1 < ∑ k ∈ range (q.2 + 1), (lmax + 1 - k) := by
    rintro ⟨l, m⟩ ⟨h1, h2⟩
    simp only at h1 h2 ⊢
    have := mstart_block lmax m (by omega)
    rw [sum_range_succ, ← this]
    omega
  refine ⟨?_, ?_, ?_⟩
  · rintro q hq
    have h := pos q hq
    have : ∑ k ∈ range (q.2 + 1), (lmax + 1 - k) ≤ ∑ k ∈ range (lmax + 1), (lmax + 1 - k) :=
      psum_mono _ (by have := hq.1; have := hq.2; omega)
    rw [← nelem_block] at this
    exact lt_of_lt_of_le h.2 this
  · rintro ⟨l, m⟩ hq ⟨l', m'⟩ hq' he
    simp only at he
    have h1 := pos _ hq
    have h2 := pos _ hq'
    simp only at h1 h2
    rw [he] at h1
    have hm : m = m' := block_unique _ h1.1 h1.2 h2.1 h2.2
    subst hm
    have : l = l' := by omega
    rw [this]
  · intro k hk
    rw [Set.mem_setOf_eq, nelem_block] at hk
    obtain ⟨m, h1, h2, h3⟩ := exists_block _ _ _ hk
    have hb := mstart_block lmax m (by omega)
    rw [sum_range_succ, ← hb] at h3
    rw [← hb] at h2
    exact ⟨(k - mstart lmax m, m), ⟨by simp only; omega, by simp only; omega⟩, by simp only; omega⟩

/-- C33: the number of coefficients. -/
theorem C33_count (lmax : ℕ) : nelem lmax = (lmax + 1) * (lmax + 2) / 2 := by
  have := nelem_two lmax
  omega

example : mstart 3 2 = 5 ∧ nelem 3 = 10 := ⟨rfl, C33_count 3⟩

/-! ## C34: reshaping of CAR maps -/

section
variable {K : Type*} [CommSemiring K]

/-- C34: padding keeps the pixels of every ring and only adds zeros after them. -/
theorem C34_pad (nring nxShort nxFull : ℕ) (m : ℕ × (ℕ → K)) (hm : m.1 = nring * nxShort) (hx : nxShort ≤ nxFull) :
    ∃ p, padMap nring nxShort nxFull m = .ok p ∧ p.1 = nring * nxFull ∧
      ∀ r < nring, ∀ j < nxFull, p.2 (r * nxFull + j) = if j < nxShort then m.2 (r * nxShort + j) else 0 := by
  unfold padMap
  rw [if_neg (by simpa using hm), if_neg (by omega)]
  refine ⟨_, rfl, rfl, fun r hr j hj => ?_⟩
  simp only
  rw [tab_of_lt _ (flat_bound hr hj), flat_div hj, flat_mod hj]

/-- C34: un-padding a padded map returns the map. -/
theorem C34_unpad_pad (nring nxShort nxFull : ℕ) (m : ℕ × (ℕ → K)) (hm : m.1 = nring * nxShort)
    (hx : nxShort ≤ nxFull) :
    ∃ p u, padMap nring nxShort nxFull m = .ok p ∧ unpadMap nring nxShort nxFull p = .ok u ∧
      u.1 = m.1 ∧ ∀ i < m.1, u.2 i = m.2 i := by
  obtain ⟨p, h1, h2, h3⟩ := C34_pad nring nxShort nxFull m hm hx
  refine ⟨p, (nring * nxShort, tab (nring * nxShort) fun q => p.2 (q / nxShort * nxFull + q % nxShort)), h1, ?_, ?_, ?_⟩
  · unfold unpadMap
    rw [if_neg (by simpa using h2), if_neg (by rw [min_eq_left hx]; simp)]
  · exact hm.symm
  · intro i hi
    rw [hm] at hi
    have hx0 : 0 < nxShort := by
      rcases Nat.eq_zero_or_pos nxShort with h | h
      · rw [h, mul_zero] at hi; omega
      · exact h
    have hmod : i % nxShort < nxShort := Nat.mod_lt _ hx0
    have hdiv : i / nxShort < nring := Nat.div_lt_of_lt_mul (by rw [mul_comm]; exact hi)
    simp only
    rw [tab_of_lt _ hi, h3 _ hdiv _ (by omega), if_pos hmod, mul_comm, Nat.div_add_mod]

/-- C34: padding an un-padded map erases what lies outside the map and keeps the rest. -/
theorem C34_pad_unpad (nring nxShort nxFull : ℕ) (m : ℕ × (ℕ → K)) (hm : m.1 = nring * nxFull)
    (hx : nxShort ≤ nxFull) :
    ∃ u p, unpadMap nring nxShort nxFull m = .ok u ∧ padMap nring nxShort nxFull u = .ok p ∧ p.1 = m.1 ∧
      ∀ r < nring, ∀ j < nxFull, p.2 (r * nxFull + j) = if j < nxShort then m.2 (r * nxFull + j) else 0 := by
  obtain ⟨p, h1, h2, h3⟩ := C34_pad nring nxShort nxFull
    (nring * nxShort, tab (nring * nxShort) fun q => m.2 (q / nxShort * nxFull + q % nxShort)) rfl hx
  refine ⟨_, p, ?_, h1, by rw [h2, hm], ?_⟩
  · unfold unpadMap
    rw [if_neg (by simpa using hm), if_neg (by rw [min_eq_left hx]; simp)]
  · intro r hr j hj
    rw [h3 r hr j hj]
    by_cases h : j < nxShort
    · rw [if_pos h, if_pos h]
      simp only
      rw [tab_of_lt _ (flat_bound hr h), flat_div h, flat_mod h]
    · rw [if_neg h, if_neg h]

/-- C34: maps of the wrong size are rejected. -/
theorem C34_wrong_size (ny nx rows cols : ℕ) (ft fp : Bool) (m : ℕ → ℕ → K) (h : ¬ (rows = ny ∧ cols = nx)) :
    reformMap ny nx ft fp rows cols m = .raises .value := by
  unfold reformMap; rw [if_neg h]

/-- C34: reordering puts every pixel of the map in exactly one place: pixel `(i, j)` goes to row `ny-1-i` if the rows are
reversed, to column `nx-1-j` if the columns are, and each position of the result receives exactly one pixel. -/
theorem C34_reform (ny nx : ℕ) (ft fp : Bool) (m : ℕ → ℕ → K) :
    ∃ v, reformMap ny nx ft fp ny nx m = .ok v ∧
      (∀ i < ny, ∀ j < nx,
        v ((if ft then ny - 1 - i else i) * nx + (if fp then nx - 1 - j else j)) = m i j) ∧
      Set.BijOn (fun q : ℕ × ℕ => (if ft then ny - 1 - q.1 else q.1) * nx + (if fp then nx - 1 - q.2 else q.2))
        {q | q.1 < ny ∧ q.2 < nx} {p | p < ny * nx} := by
  have hf : ∀ (b : Bool) (n i : ℕ), i < n → (if b then n - 1 - i else i) < n := by
    intro b n i h; cases b <;> simp <;> omega
  have hff : ∀ (b : Bool) (n i : ℕ), i < n →
      (if b then n - 1 - (if b then n - 1 - i else i) else (if b then n - 1 - i else i)) = i := by
    intro b n i h; cases b <;> simp; omega
  obtain ⟨v, hv⟩ : ∃ v, reformMap ny nx ft fp ny nx m = .ok v := by
    unfold reformMap; rw [if_pos ⟨rfl, rfl⟩]; exact ⟨_, rfl⟩
  refine ⟨v, hv, fun i hi j hj => ?_, ?_, ?_, ?_⟩
  · rw [reform_at hv (hf ft ny i hi) (hf fp nx j hj), hff ft ny i hi, hff fp nx j hj]
  · rintro ⟨i, j⟩ ⟨hi, hj⟩
    exact flat_bound (hf ft ny i hi) (hf fp nx j hj)
  · rintro ⟨i, j⟩ ⟨hi, hj⟩ ⟨i', j'⟩ ⟨hi', hj'⟩ h
    simp only at h hi hj hi' hj'
    have a := congrArg (· / nx) h
    have b := congrArg (· % nx) h
    simp only [flat_div (hf fp nx j hj), flat_div (hf fp nx j' hj')] at a
    simp only [flat_mod (hf fp nx j hj), flat_mod (hf fp nx j' hj')] at b
    have ei : i = i' := by rw [← hff ft ny i hi, a, hff ft ny i' hi']
    have ej : j = j' := by rw [← hff fp nx j hj, b, hff fp nx j' hj']
    rw [ei, ej]
  · intro p hp
    rw [Set.mem_setOf_eq] at hp
    have hx0 : 0 < nx := by
      rcases Nat.eq_zero_or_pos nx with h | h
      · rw [h, mul_zero] at hp; omega
      · exact h
    have hmod : p % nx < nx := Nat.mod_lt _ hx0
    have hdiv : p / nx < ny := Nat.div_lt_of_lt_mul (by rw [mul_comm]; exact hp)
    refine ⟨(if ft then ny - 1 - p / nx else p / nx, if fp then nx - 1 - p % nx else p % nx),
      ⟨hf _ _ _ hdiv, hf _ _ _ hmod⟩, ?_⟩
    simp only
    rw [hff ft ny _ hdiv, hff fp nx _ hmod, mul_comm, Nat.div_add_mod]

/-- C34: reordering twice restores the order of the pixels. -/
theorem C34_reform_twice (ny nx : ℕ) (ft fp : Bool) (m : ℕ → ℕ → K) :
    ∃ v u, reformMap ny nx ft fp ny nx m = .ok v ∧
      reformMap ny nx ft fp ny nx (fun i j => v (i * nx + j)) = .ok u ∧
      ∀ i < ny, ∀ j < nx, u (i * nx + j) = m i j := by
  obtain ⟨v, hv, _⟩ := C34_reform ny nx ft fp m
  obtain ⟨u, hu, _⟩ := C34_reform ny nx ft fp (fun i j => v (i * nx + j))
  refine ⟨v, u, hv, hu, fun i hi j hj => ?_⟩
  have hf : ∀ (b : Bool) (n i : ℕ), i < n → (if b then n - 1 - i else i) < n := by
    intro b n i h; cases b <;> simp <;> omega
  have hff : ∀ (b : Bool) (n i : ℕ), i < n →
      (if b then n - 1 - (if b then n - 1 - i else i) else (if b then n - 1 - i else i)) = i := by
    intro b n i h; cases b <;> simp; omega
  rw [reform_at hu hi hj, reform_at hv (hf ft ny i hi) (hf fp nx j hj), hff ft ny i hi, hff fp nx j hj]

/-- C34: the dot product of two reordered maps is the sum over the pixels of the original maps, each with the weight of
the ring it goes to. In particular it does not depend on the order of the pixels within a ring. -/
theorem C34_dot_reform (ny nx : ℕ) (ft fp : Bool) (w : ℕ → K) (m1 m2 : ℕ → ℕ → K) (v1 v2 : ℕ → K)
    (h1 : reformMap ny nx ft fp ny nx m1 = .ok v1) (h2 : reformMap ny nx ft fp ny nx m2 = .ok v2) :
    dotMap ny nx w v1 v2 =
      ∑ i ∈ range ny, ∑ j ∈ range nx, w (if ft then ny - 1 - i else i) * (m1 i j * m2 i j) := by
  have step : dotMap ny nx w v1 v2 = ∑ i ∈ range ny, ∑ j ∈ range nx,
      w i * (m1 (if ft then ny - 1 - i else i) (if fp then nx - 1 - j else j) *
        m2 (if ft then ny - 1 - i else i) (if fp then nx - 1 - j else j)) := by
    unfold dotMap timesWeight
    rw [sum_flat_map]
    refine sum_congr rfl fun i hi => sum_congr rfl fun j hj => ?_
    rw [mem_range] at hi hj
    rw [flat_div hj]
    simp only
    rw [reform_at h1 hi hj, reform_at h2 hi hj]; ring
  rw [step]
  have cols : ∀ i, ∑ j ∈ range nx, w i * (m1 (if ft then ny - 1 - i else i) (if fp then nx - 1 - j else j) *
        m2 (if ft then ny - 1 - i else i) (if fp then nx - 1 - j else j)) =
      ∑ j ∈ range nx, w i * (m1 (if ft then ny - 1 - i else i) j * m2 (if ft then ny - 1 - i else i) j) := by
    intro i
    cases fp
    · rfl
    · exact sum_range_reflect (fun j => w i * (m1 (if ft then ny - 1 - i else i) j *
        m2 (if ft then ny - 1 - i else i) j)) nx
  rw [sum_congr rfl fun i _ => cols i]
  cases ft
  · rfl
  · rw [← sum_range_reflect]
    refine sum_congr rfl fun i hi => sum_congr rfl fun j _ => ?_
    rw [mem_range] at hi
    have : ny - 1 - (ny - 1 - i) = i := by omega
    simp only [if_true, this]

/-- C34: dot products are symmetric and bilinear (CAR maps). -/
theorem C34_dot_bilinear (nring nx : ℕ) (w m1 m2 m3 : ℕ → K) (a b : K) :
    dotMap nring nx w m1 m2 = dotMap nring nx w m2 m1 ∧
    dotMap nring nx w (fun p => a * m1 p + b * m2 p) m3 =
      a * dotMap nring nx w m1 m3 + b * dotMap nring nx w m2 m3 := by
  constructor
  · unfold dotMap timesWeight
    exact sum_congr rfl fun p _ => by ring
  · unfold dotMap timesWeight
    rw [mul_sum, mul_sum, ← sum_add_distrib]
    exact sum_congr rfl fun p _ => by ring

/-- C34: dot products are symmetric and bilinear, and unaffected by the order of the pixels (HEALPix maps). -/
theorem C34_dot_bilinear_healpix (npix : ℕ) (w : K) (m1 m2 m3 : ℕ → K) (a b : K) (σ : Equiv.Perm ℕ)
    (hσ : ∀ p, p < npix ↔ σ p < npix) :
    dotMapHpx npix w m1 m2 = dotMapHpx npix w m2 m1 ∧
    dotMapHpx npix w (fun p => a * m1 p + b * m2 p) m3 = a * dotMapHpx npix w m1 m3 + b * dotMapHpx npix w m2 m3 ∧
    dotMapHpx npix w (m1 ∘ σ) (m2 ∘ σ) = dotMapHpx npix w m1 m2 := by
  refine ⟨?_, ?_, ?_⟩
  · unfold dotMapHpx
    exact sum_congr rfl fun p _ => by ring
  · unfold dotMapHpx
    rw [mul_sum, mul_sum, ← sum_add_distrib]
    exact sum_congr rfl fun p _ => by ring
  · unfold dotMapHpx
    exact Finset.sum_equiv σ (by simpa using hσ) (fun _ _ => rfl)

end

/-- A 2×3 map with reversed columns, padded to rings of 4 pixels. -/
example : ∃ v p, reformMap 2 3 false true 2 3 (fun i j => (10 * i + j : ℚ)) = .ok v ∧
    padMap 2 3 4 (6, v) = .ok p ∧ p.2 4 = 12 ∧ p.2 7 = 0 := by
  refine ⟨_, _, rfl, rfl, ?_, ?_⟩ <;> norm_num [tab]

/-! ## C55: accepted CAR geometries fit on the sphere -/

/-- C55: for every accepted CAR geometry with at least one row, a full ring has at least as many pixels as the map, and
the rows of the map are rows of the full-sky grid: the slice of the quadrature weights taken for them is within
the table (`nthFull` entries), so every row gets its weight. -/
theorem C55_fits (w : Wcs) (ny nx : ℕ) (hy : 1 ≤ ny) (ft fp : Bool) (a b c d e : ℝ) (nxFull iTheta0 nthFull : ℤ)
    (h : carInfo w ny nx = .ok (.car ny nx ft fp a b c d e nxFull iTheta0 nthFull)) :
    (nx : ℤ) ≤ nxFull ∧ 0 ≤ iTheta0 ∧ iTheta0 + ny ≤ nthFull := by
  obtain ⟨hra, hdec, hr, ht0, ht1, hw, he⟩ := carInfo_ok h
  injection he with _ _ _ _ e1 e2 e3 e4 e5 e6 e7 e8
  have htm := car_theta_max (w := w) hy
  rw [← e1] at ht0 htm e7
  rw [htm] at ht1
  rw [← e4] at e7 e8 ht1
  have hpi := Real.pi_pos
  have hdpos : 0 < d := by rw [e4, abs_radians]; exact radians_pos (abs_pos.mpr hdec)
  rw [e6, e7, e8]
  refine ⟨?_, ?_, ?_⟩
  · have hrpos : 0 < |w.dRa| := abs_pos.mpr hra
    have hx : 2 * Real.pi / |radians w.dRa| = 360 / |w.dRa| := by
      rw [abs_radians]; unfold radians; field_simp; ring
    rw [hx] at hr ⊢
    rw [abs_mul, Nat.abs_cast] at hw
    have h1 : (nx : ℝ) ≤ 360 / |w.dRa| + 0.1 := by
      rw [← sub_nonneg] at hw ⊢
      have : 360 / |w.dRa| + 0.1 - nx = (360 + 0.1 * |w.dRa| - nx * |w.dRa|) / |w.dRa| := by field_simp
      rw [this]; positivity
    have h0 : 0 ≤ 360 / |w.dRa| + 0.5 := by positivity
    rw [cTrunc_of_nonneg h0, Int.le_floor]
    push_cast
    linarith
  · rw [cTrunc_of_nonneg (by positivity)]
    apply Int.floor_nonneg.mpr; positivity
  · rw [cTrunc_of_nonneg (by positivity), cTrunc_of_nonneg (by positivity)]
    have hle : a / d + ((ny:ℝ) - 1) ≤ Real.pi / d := by
      rw [← sub_nonneg] at ht1 ⊢
      have : Real.pi / d - (a / d + ((ny:ℝ) - 1)) = (Real.pi - (a + (ny - 1) * d)) / d := by field_simp
      rw [this]; positivity
    have h2 : ⌊a / d + 0.5⌋ + ((ny : ℤ) - 1) ≤ ⌊Real.pi / d + 0.5⌋ := by
      have : ⌊a / d + 0.5⌋ + ((ny : ℤ) - 1) = ⌊a / d + 0.5 + (((ny : ℤ) - 1 : ℤ) : ℝ)⌋ := by
        rw [Int.floor_add_intCast]
      rw [this]
      apply Int.floor_mono
      push_cast; linarith
    omega

/-- C55: hence padding never fails for maps of an accepted geometry. -/
theorem C55_padding_succeeds {K : Type*} [CommSemiring K] (w : Wcs) (ny nx : ℕ) (hy : 1 ≤ ny) (ft fp : Bool)
    (a b c d e : ℝ) (nxFull iTheta0 nthFull : ℤ)
    (h : carInfo w ny nx = .ok (.car ny nx ft fp a b c d e nxFull iTheta0 nthFull))
    (m : ℕ × (ℕ → K)) (hm : m.1 = ny * nx) :
    ∃ p, padMap ny nx nxFull.toNat m = .ok p := by
  obtain ⟨h1, _⟩ := C55_fits w ny nx hy ft fp a b c d e nxFull iTheta0 nthFull h
  obtain ⟨p, hp, _⟩ := C34_pad ny nx nxFull.toNat m hm (by omega)
  exact ⟨p, hp⟩

/-- A WCS with pixels of one degree: 181 rows from the south pole, 360 columns of decreasing right ascension. -/
noncomputable def exWcs : Wcs := ⟨true, -1, 1, 180, 0, 1, 91⟩

theorem exWcs_ok : ∃ ft fp a b c d e f i n, carInfo exWcs 181 360 = .ok (.car 181 360 ft fp a b c d e f i n) := by
  have hpi := Real.pi_pos
  have r1 : radians (-1) = -(Real.pi / 180) := by unfold radians; ring
  have r2 : radians 1 = Real.pi / 180 := by unfold radians; ring
  have a1 : |radians (-1)| = Real.pi / 180 := by rw [r1, abs_neg, abs_of_pos (by positivity)]
  have a2 : |radians 1| = Real.pi / 180 := by rw [r2, abs_of_pos (by positivity)]
  have q1 : 2 * Real.pi / (Real.pi / 180) = 360 := by field_simp; norm_num
  have q2 : Real.pi / (Real.pi / 180) = 180 := by field_simp
  have d0 : exWcs.dec 0 = -90 := by norm_num [Wcs.dec, exWcs]
  have d1 : exWcs.dec ((181 : ℕ) - 1) = 90 := by norm_num [Wcs.dec, exWcs]
  unfold carInfo
  simp only
  have eRa : exWcs.dRa = -1 := rfl
  have eDec : exWcs.dDec = 1 := rfl
  have ed0 : exWcs.dec0 = 0 := rfl
  have eC : exWcs.car = true := rfl
  rw [eRa, eDec, ed0, eC, a1, a2, q1, q2, d0, d1]
  rw [if_neg (by simp), if_neg (by norm_num), if_neg (by push Not; exact ⟨by positivity, by positivity⟩)]
  have h360 : (round (360:ℝ) : ℝ) = 360 := by
    have : round (360:ℝ) = 360 := by exact_mod_cast round_natCast (α := ℝ) 360
    rw [this]; norm_num
  have h180 : (round (180:ℝ) : ℝ) = 180 := by
    have : round (180:ℝ) = 180 := by exact_mod_cast round_natCast (α := ℝ) 180
    rw [this]; norm_num
  rw [h360, h180, if_neg (by norm_num)]
  rw [if_neg, if_neg (by norm_num)]
  · exact ⟨_, _, _, _, _, _, _, _, _, _, rfl⟩
  · rw [max_eq_right (by norm_num), min_eq_left (by norm_num)]
    unfold radians
    push Not
    constructor <;> norm_num <;> linarith

example : ∃ ft fp a b c d e f i n, carInfo exWcs 181 360 = .ok (.car 181 360 ft fp a b c d e f i n) ∧
    ((360 : ℕ) : ℤ) ≤ f ∧ 0 ≤ i ∧ i + (181 : ℕ) ≤ n := by
  obtain ⟨ft, fp, a, b, c, d, e, f, i, n, h⟩ := exWcs_ok
  exact ⟨ft, fp, a, b, c, d, e, f, i, n, h, C55_fits exWcs 181 360 (by norm_num) ft fp a b c d e f i n h⟩

/-! ## C35: compatibility -/

/-- C35: comparison of geometries is an equivalence relation. -/
theorem C35_geometry_equivalence : Equivalence (fun a b : MapInfo => a.eq b = true) := by
  refine ⟨fun a => ?_, fun {a b} h => ?_, fun {a b c} h k => ?_⟩
  · cases a <;> simp [MapInfo.eq]
  · cases a <;> cases b <;> simp_all [MapInfo.eq]
  · cases a <;> cases b <;> cases c <;> simp_all [MapInfo.eq]

/-- C35: compatibility of fields, strict or not, is an equivalence relation, also when some of the fields are catalogs
without geometry. -/
theorem C35_field_equivalence (strict : Bool) :
    Equivalence (fun f g : FieldGeom => isCompatible f g strict = true) := by
  have E := C35_geometry_equivalence
  have key : ∀ f g, isCompatible f g strict = true ↔
      (strict = true → minfoNe f.minfo g.minfo = false) ∧ f.lmaxMask = g.lmaxMask ∧ f.lmax = g.lmax := by
    intro f g
    unfold isCompatible
    cases strict <;> cases hm : minfoNe f.minfo g.minfo <;> by_cases h1 : f.lmaxMask = g.lmaxMask <;>
      by_cases h2 : f.lmax = g.lmax <;> simp [h1, h2]
  have ne : ∀ a b, minfoNe a b = false ↔ (a = none ∧ b = none) ∨ ∃ x y, a = some x ∧ b = some y ∧ x.eq y = true := by
    intro a b; cases a <;> cases b <;> simp [minfoNe]
  refine ⟨fun f => ?_, fun {f g} h => ?_, fun {f g k} h h' => ?_⟩
  · rw [key]
    refine ⟨fun _ => ?_, rfl, rfl⟩
    rw [ne]
    cases hf : f.minfo with
    | none => left; exact ⟨rfl, rfl⟩
    | some x => right; exact ⟨x, x, rfl, rfl, E.refl x⟩
  · rw [key] at h ⊢
    refine ⟨fun hs => ?_, h.2.1.symm, h.2.2.symm⟩
    have := h.1 hs
    rw [ne] at this ⊢
    rcases this with ⟨a, b⟩ | ⟨x, y, a, b, c⟩
    · left; exact ⟨b, a⟩
    · right; exact ⟨y, x, b, a, E.symm c⟩
  · rw [key] at h h' ⊢
    refine ⟨fun hs => ?_, h.2.1.trans h'.2.1, h.2.2.trans h'.2.2⟩
    have a := h.1 hs
    have b := h'.1 hs
    rw [ne] at a b ⊢
    rcases a with ⟨a1, a2⟩ | ⟨x, y, a1, a2, a3⟩ <;> rcases b with ⟨b1, b2⟩ | ⟨x', y', b1, b2, b3⟩
    · left; exact ⟨a1, b2⟩
    · rw [a2] at b1; cases b1
    · rw [a2] at b1; cases b1
    · rw [a2] at b1; cases b1
      right; exact ⟨x, y', a1, b2, E.trans a3 b3⟩

/-- C35: strict compatibility implies non-strict compatibility; both require equal band limits, and strict compatibility
requires both or none of the fields to have a geometry. -/
theorem C35_strict_implies (f g : FieldGeom) (h : isCompatible f g true = true) :
    isCompatible f g false = true ∧ f.lmax = g.lmax ∧ f.lmaxMask = g.lmaxMask ∧
      (f.minfo = none ↔ g.minfo = none) := by
  unfold isCompatible at h ⊢
  cases hf : f.minfo <;> cases hg : g.minfo <;> by_cases h1 : f.lmaxMask = g.lmaxMask <;>
      by_cases h2 : f.lmax = g.lmax <;> simp_all [minfoNe]

example : isCompatible ⟨none, 10, 20⟩ ⟨none, 10, 20⟩ true = true ∧
    isCompatible ⟨some (.healpix 4), 10, 20⟩ ⟨none, 10, 20⟩ true = false ∧
    isCompatible ⟨some (.healpix 4), 10, 20⟩ ⟨none, 10, 20⟩ false = true := by
  simp [isCompatible, minfoNe]

/-- C35: what compatibility of CAR geometries is for. If two geometries compare equal, then after reordering their maps
have the same pixels in the same places: entry `i*nx+j` of both reordered maps comes from pixels with the same
declination and right ascension — even if the axes of the two maps run in opposite directions. -/
theorem C35_same_sky {K : Type*} [Zero K] (w w' : Wcs) (ny nx ny' nx' : ℕ) (a a' : MapInfo)
    (h : carInfo w ny nx = .ok a) (h' : carInfo w' ny' nx' = .ok a') (he : a.eq a' = true) :
    ny' = ny ∧ nx' = nx ∧ ∀ i < ny, ∀ j < nx, ∃ i0 < ny, ∃ j0 < nx, ∃ i1 < ny, ∃ j1 < nx,
      w.dec i0 = w'.dec i1 ∧ w.ra j0 = w'.ra j1 ∧
      ∀ m m' : ℕ → ℕ → K, ∀ v v' : ℕ → K,
        reformMap ny nx (decide (w.dDec > 0)) (decide (w.dRa < 0)) ny nx m = .ok v →
        reformMap ny nx (decide (w'.dDec > 0)) (decide (w'.dRa < 0)) ny nx m' = .ok v' →
        v (i * nx + j) = m i0 j0 ∧ v' (i * nx + j) = m' i1 j1 := by
  obtain ⟨_, _, _, _, _, _, e⟩ := carInfo_ok h
  obtain ⟨_, _, _, _, _, _, e'⟩ := carInfo_ok h'
  rw [e, e'] at he
  simp only [MapInfo.eq, decide_eq_true_eq] at he
  obtain ⟨_, hx, hy, h1, _, h2, h3, h4⟩ := he
  subst hx hy
  have hf : ∀ (b : Bool) (n i : ℕ), i < n → (if b then n - 1 - i else i) < n := by
    intro b n i h; cases b <;> simp <;> omega
  have rinj : ∀ x y : ℝ, radians x = radians y → x = y := by
    intro x y hxy
    unfold radians at hxy
    exact mul_right_cancel₀ (by positivity) hxy
  refine ⟨rfl, rfl, fun i hi j hj => ⟨_, hf (decide (w.dDec > 0)) ny i hi, _, hf (decide (w.dRa < 0)) nx j hj,
    _, hf (decide (w'.dDec > 0)) ny i hi, _, hf (decide (w'.dRa < 0)) nx j hj, ?_, ?_, ?_⟩⟩
  · have p := (car_positions (w := w) hi hj).1
    have p' := (car_positions (w := w') hi hj).1
    rw [h1, h3, ← p'] at p
    have := rinj _ _ p
    linarith
  · have p := (car_positions (w := w) hi hj).2
    have p' := (car_positions (w := w') hi hj).2
    simp only [decide_eq_true_eq] at p p' ⊢
    rw [h2, h4, ← p'] at p
    exact rinj _ _ p
  · intro m m' v v' hv hv'
    exact ⟨reform_at hv hi hj, reform_at hv' hi hj⟩

/-- The geometry of `exWcs` with rows from north to south compares equal to it. -/
noncomputable def exWcs' : Wcs := ⟨true, -1, -1, 180, 0, 1, 91⟩

theorem exWcs'_ok : ∃ a a', carInfo exWcs 181 360 = .ok a ∧ carInfo exWcs' 181 360 = .ok a' ∧ a.eq a' = true := by
  obtain ⟨ft, fp, a, b, c, d, e, f, i, n, h⟩ := exWcs_ok
  have hpi := Real.pi_pos
  have r1 : radians (-1) = -(Real.pi / 180) := by unfold radians; ring
  have r2 : radians 1 = Real.pi / 180 := by unfold radians; ring
  have a1 : |radians (-1)| = Real.pi / 180 := by rw [r1, abs_neg, abs_of_pos (by positivity)]
  have q1 : 2 * Real.pi / (Real.pi / 180) = 360 := by field_simp; norm_num
  have q2 : Real.pi / (Real.pi / 180) = 180 := by field_simp
  have d0 : exWcs'.dec 0 = 90 := by norm_num [Wcs.dec, exWcs']
  have d1 : exWcs'.dec ((181 : ℕ) - 1) = -90 := by norm_num [Wcs.dec, exWcs']
  have c0 : exWcs.dec 0 = -90 := by norm_num [Wcs.dec, exWcs]
  have c1 : exWcs.dec ((181 : ℕ) - 1) = 90 := by norm_num [Wcs.dec, exWcs]
  obtain ⟨ha⟩ : ∃ x, carInfo exWcs' 181 360 = .ok x := by
    unfold carInfo
    simp only
    have eRa : exWcs'.dRa = -1 := rfl
    have eDec : exWcs'.dDec = -1 := rfl
    have ed0 : exWcs'.dec0 = 0 := rfl
    have eC : exWcs'.car = true := rfl
    rw [eRa, eDec, ed0, eC, a1, q1, q2, d0, d1]
    rw [if_neg (by simp), if_neg (by norm_num), if_neg (by push Not; exact ⟨by positivity, by positivity⟩)]
    have h360 : (round (360:ℝ) : ℝ) = 360 := by
      have : round (360:ℝ) = 360 := by exact_mod_cast round_natCast (α := ℝ) 360
      rw [this]; norm_num
    have h180 : (round (180:ℝ) : ℝ) = 180 := by
      have : round (180:ℝ) = 180 := by exact_mod_cast round_natCast (α := ℝ) 180
      rw [this]; norm_num
    rw [h360, h180, if_neg (by norm_num)]
    rw [if_neg, if_neg (by norm_num)]
    · exact ⟨_, rfl⟩
    · rw [max_eq_left (by norm_num), min_eq_right (by norm_num)]
      unfold radians
      push Not
      constructor <;> norm_num <;> linarith
  rename_i hx
  refine ⟨_, _, h, hx, ?_⟩
  obtain ⟨_, _, _, _, _, _, ea⟩ := carInfo_ok h
  obtain ⟨_, _, _, _, _, _, eb⟩ := carInfo_ok hx
  rw [ea, eb]
  have eRa : exWcs.dRa = -1 := rfl
  have eDec : exWcs.dDec = 1 := rfl
  have eRa' : exWcs'.dRa = -1 := rfl
  have eDec' : exWcs'.dDec = -1 := rfl
  have era : exWcs.ra = exWcs'.ra := rfl
  simp only [MapInfo.eq, decide_eq_true_eq]
  rw [eRa, eDec, eRa', eDec', c0, c1, d0, d1, era, abs_radians, abs_radians, abs_neg, max_comm, min_comm]
  simp

/-! ## C46: global parameters -/

/-- What C46 asks of the global parameters. -/
def ParamsValid (haveDucc : Bool) (p : Params) : Prop :=
  (p.shtCalculator = "healpy" ∨ (p.shtCalculator = "ducc" ∧ haveDucc = true)) ∧
  0 ≤ p.nIterDefault ∧ 0 ≤ p.nIterMaskDefault ∧
  ∃ t : ℝ, p.tolPinvDefault = .real t ∧ 0 ≤ t ∧ t ≤ 1

/-- C46: a rejected call changes nothing. -/
theorem C46_rejected_unchanged (haveDucc : Bool) (p : Params) (c : ParamCall) (e : Err)
    (h : (p.call haveDucc c).2 = some e) : (p.call haveDucc c).1 = p := by
  cases c with
  | shtCalculator name =>
    simp only [Params.call] at h ⊢
    split_ifs at h ⊢ <;> simp_all
  | nIter n mask =>
    cases n <;> simp only [Params.call, PyNum.lt, PyNum.toInt] at h ⊢
    case real x =>
      by_cases hx : x < 0
      · simp [hx]
      · simp [hx] at h
  | tolPinv tol =>
    cases tol <;> simp only [Params.call, PyNum.lt, PyNum.gt] at h ⊢
    case real x =>
      by_cases hx : x > 1
      · simp [hx]
      · by_cases hx0 : x < 0
        · simp [hx, hx0]
        · simp [hx, hx0] at h
    case nan => simp at h

/-- C46: an accepted call stores its argument in the parameter it names and changes no other. -/
theorem C46_accepted (haveDucc : Bool) (p : Params) :
    (∀ name, (p.call haveDucc (.shtCalculator name)).2 = none →
      (p.call haveDucc (.shtCalculator name)).1 = { p with shtCalculator := name }) ∧
    (∀ n mask, (p.call haveDucc (.nIter n mask)).2 = none → ∃ x : ℝ, n = .real x ∧ 0 ≤ x ∧
      (p.call haveDucc (.nIter n mask)).1 =
        if mask then { p with nIterMaskDefault := ⌊x⌋ } else { p with nIterDefault := ⌊x⌋ }) ∧
    (∀ tol, (p.call haveDucc (.tolPinv tol)).2 = none →
      (p.call haveDucc (.tolPinv tol)).1 = { p with tolPinvDefault := tol }) := by
  refine ⟨fun name h => ?_, fun n mask h => ?_, fun tol h => ?_⟩
  · simp only [Params.call] at h ⊢
    split_ifs at h ⊢
    rfl
  · cases n <;> simp only [Params.call, PyNum.lt, PyNum.toInt] at h ⊢
    case real x =>
      by_cases hx : x < 0
      · simp [hx] at h
      · have hx' := not_lt.mp hx
        refine ⟨x, rfl, hx', ?_⟩
        simp [hx, cTrunc_of_nonneg hx']
    all_goals simp at h
  · cases tol <;> simp only [Params.call, PyNum.lt, PyNum.gt] at h ⊢
    case real x =>
      by_cases hx : x > 1
      · simp [hx] at h
      · by_cases hx0 : x < 0
        · simp [hx, hx0] at h
        · simp [hx, hx0]
    all_goals simp at h

/-- C46, for histories in which `NaN` is never given as tolerance. The full statement has no such condition; it is false,
see `C46_nan_tolerance`. -/
theorem C46_valid_partial (haveDucc : Bool) (cs : List ParamCall) (hnan : ∀ c ∈ cs, c ≠ .tolPinv .nan) :
    ParamsValid haveDucc ((Params.init haveDucc).calls haveDucc cs) := by
  have step : ∀ p c, ParamsValid haveDucc p → c ≠ .tolPinv .nan → ParamsValid haveDucc (p.call haveDucc c).1 := by
    intro p c hp hc
    cases hr : (p.call haveDucc c).2 with
    | some e => rw [C46_rejected_unchanged haveDucc p c e hr]; exact hp
    | none =>
      obtain ⟨a1, a2, a3⟩ := C46_accepted haveDucc p
      obtain ⟨h1, h2, h3, h4⟩ := hp
      cases c with
      | shtCalculator name =>
        rw [a1 name hr]
        refine ⟨?_, h2, h3, h4⟩
        simp only [Params.call] at hr
        by_cases m : name ∉ ["ducc", "healpy"]
        · rw [if_pos m] at hr; cases hr
        · rw [if_neg m] at hr
          by_cases d : name = "ducc" ∧ ¬ haveDucc
          · rw [if_pos d] at hr; cases hr
          · simp only [List.mem_cons, List.not_mem_nil, or_false, not_not] at m
            simp only
            rcases m with m | m
            · right
              refine ⟨m, ?_⟩
              cases haveDucc
              · exact absurd ⟨m, by simp⟩ d
              · rfl
            · left; exact m
      | nIter n mask =>
        obtain ⟨x, _, hx, e⟩ := a2 n mask hr
        rw [e]
        have := Int.floor_nonneg.mpr hx
        cases mask
        · exact ⟨h1, this, h3, h4⟩
        · exact ⟨h1, h2, this, h4⟩
      | tolPinv tol =>
        rw [a3 tol hr]
        refine ⟨h1, h2, h3, ?_⟩
        simp only
        cases tol <;> simp only [Params.call, PyNum.lt, PyNum.gt] at hr
        case real x =>
          by_cases hx : x > 1
          · simp [hx] at hr
          · by_cases hx0 : x < 0
            · simp [hx, hx0] at hr
            · exact ⟨x, rfl, not_lt.mp hx0, not_lt.mp hx⟩
        case nan => exact absurd rfl hc
        all_goals simp at hr
  have gen : ∀ cs p, ParamsValid haveDucc p → (∀ c ∈ cs, c ≠ .tolPinv .nan) → ParamsValid haveDucc (p.calls haveDucc cs) := by
    intro cs
    induction cs with
    | nil => intro p hp _; exact hp
    | cons c cs ih =>
      intro p hp h
      exact ih _ (step p c hp (h c (by simp))) (fun c' hc' => h c' (by simp [hc']))
  refine gen cs _ ⟨?_, by simp [Params.init], by simp [Params.init], 1e-10, rfl, by norm_num, by norm_num⟩ hnan
  cases haveDucc <;> simp [Params.init]

example : ParamsValid false ((Params.init false).calls false
    [.shtCalculator "ducc", .nIter (.real 2.5) true, .tolPinv (.real 3), .nIter .nan false, .tolPinv .other]) :=
  C46_valid_partial false _ (by simp)

/-- C46 is false for `NaN`: it is neither greater than 1 nor less than 0, so it is accepted as tolerance. -/
theorem C46_nan_tolerance (haveDucc : Bool) :
    ((Params.init haveDucc).call haveDucc (.tolPinv .nan)).2 = none ∧
    ¬ ParamsValid haveDucc ((Params.init haveDucc).calls haveDucc [.tolPinv .nan]) := by
  refine ⟨rfl, fun h => ?_⟩
  obtain ⟨t, ht, _⟩ := h.2.2.2
  simp [Params.calls, Params.call, PyNum.gt, PyNum.lt] at ht

end NaMaster
