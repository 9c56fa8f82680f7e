import Verif.Maps.ApoLemmas
import Mathlib.Data.List.Perm.Basic

/-! # Curved-sky apodisation: C43 -/

namespace NaMaster

open Real

/-- C43: `he_query_disc` never writes outside its pixel list, also if it ends with an error: with a list of `lenlist0`
elements of which half is announced, as in the apodisation functions, every index written is in range. -/
theorem C43_query_writes (nside : ℕ) (hn : 1 ≤ nside) (cth0 phi0 reff cosang : ℝ) (lenlist0 : ℤ) (h0 : 0 ≤ lenlist0) :
    ∀ i ∈ discTrace (fun iz => (discWidth nside cth0 phi0 cosang iz).map fun dphi =>
        heInRing nside iz phi0 dphi (lenlist0 / 2)) (lenlist0 / 2) (discRings nside cth0 reff) 0,
      0 ≤ i ∧ i < lenlist0 := by
  intro i hi
  have := discTrace_range (by omega) (by
    intro r hr l hl
    obtain ⟨a, b⟩ := discRings_range nside hn cth0 reff hr
    match hw : discWidth nside cth0 phi0 cosang r with
    | none => rw [hw] at hl; cases hl
    | some d =>
      rw [hw] at hl
      injection hl with hl
      exact (C47_only_ring nside r hn a b phi0 d (lenlist0 / 2) l hl).2.1) (le_refl 0) (by omega) i hi
  omega

/-- C43: `he_query_disc` writes each element of the first half of its list at most once, from the first on, and exactly as
many as it reports: the pixels of later rings, which pass through the second half, never replace those found before. -/
theorem C43_query_once (nside : ℕ) (cth0 phi radius : ℝ) (cap : ℤ) (hc : 0 ≤ cap) :
    ∃ n : ℕ, (discTrace (fun iz => (discWidth nside cth0 (wrapPhi phi) (Real.cos (radiusEff nside radius)) iz).map
        fun dphi => heInRing nside iz (wrapPhi phi) dphi cap) cap (discRings nside cth0 (radiusEff nside radius)) 0).filter
          (fun i => decide (i < cap)) = (List.range n).map (fun k : ℕ => (k : ℤ)) ∧
      ∀ l, heQueryDisc nside cth0 phi radius cap = .ok l → l.length = n := by
  obtain ⟨n, h1, h2⟩ := discTrace_result (query := fun iz => (discWidth nside cth0 (wrapPhi phi)
    (Real.cos (radiusEff nside radius)) iz).map fun dphi => heInRing nside iz (wrapPhi phi) dphi cap) (cap := cap)
    (rings := discRings nside cth0 (radiusEff nside radius)) (acc := []) (by simpa using hc)
  refine ⟨n, ?_, fun l h => ?_⟩
  · simp only [List.length_nil, Nat.cast_zero] at h1
    rw [h1]
    unfold consec
    simp
  · unfold heQueryDisc at h
    simp only at h
    split_ifs at h
    rw [h2 l h]
    simp

/-- C43: the pixels found by `he_query_disc` are pixels of the map, so the masks are read and written inside their
bounds, and the list is not longer than announced. -/
theorem C43_query_pixels (nside : ℕ) (hn : 1 ≤ nside) (cth0 phi radius : ℝ) (cap : ℤ) (hc : 0 ≤ cap) (l : List ℤ)
    (h : heQueryDisc nside cth0 phi radius cap = .ok l) :
    (l.length : ℤ) ≤ cap ∧ ∀ p ∈ l, 0 ≤ p ∧ p < 12 * nside * nside := by
  obtain ⟨_, _, h⟩ := heQueryDisc_ok h
  refine ⟨discLoop_length (by simpa using hc) h, fun p hp => ?_⟩
  obtain ⟨_, _, hl⟩ := discLoop_ok h
  rcases hl p hp with hp | ⟨r, hr, l', hq, hp⟩
  · cases hp
  obtain ⟨a, b⟩ := discRings_range nside hn _ _ hr
  unfold ringQuery at hq
  match hw : discWidth nside cth0 (wrapPhi phi) (cos (radiusEff nside radius)) r with
  | none => rw [hw] at hq; cases hq
  | some d =>
    rw [hw] at hq
    injection hq with hq
    obtain ⟨j, hj, rfl⟩ := (C47_only_ring nside r hn a b _ d cap l' hq).2.2.2 p hp
    have := pixNumber_lt nside r j hn a b hj
    constructor
    · positivity
    · exact_mod_cast this

/-- A query that finds pixels: the whole map around any point. -/
example : ∃ l, heQueryDisc 1 0.3 1 0.5 12 = .ok l :=
  heQueryDisc_total 1 (le_refl 1) 0.3 1 0.5 12 (by norm_num) (by linarith [pi_gt_three]) (by norm_num)

/-! ## Results of the C functions -/

/-- Both weight functions at once: what the C apodisation does to a mask with `aposize > 0`. -/
theorem apodizeCX_cases (nside : ℕ) (vec : ℕ → ℝ × ℝ × ℝ) (mask : ℕ → ℝ) (aposize : ℝ) (c2 : Bool) (order : List ℕ)
    (ho : order.Perm (List.range (12 * nside * nside))) :
    let len := lenList (12 * nside * nside) 1.2 (aposize * π / 180)
    let fac := apoFac nside vec mask (aposize * π / 180) c2 len
    apodizeCX nside vec mask aposize c2 order =
      if len > 2 ^ 31 - 1 then .crash
      else if len < 2 then .raises .runtime
      else open Classical in if ∃ ip < 12 * nside * nside, fac ip = none then .crash
      else .ok (tab (12 * nside * nside) fun p => mask p * (fac p).getD 1) := by
  intro len fac
  unfold apodizeCX
  simp only
  by_cases c1 : lenList (12 * nside * nside) 1.2 (aposize * π / 180) > 2 ^ 31 - 1
  · rw [if_pos c1, if_pos c1]
  rw [if_neg c1, if_neg c1]
  by_cases c2' : lenList (12 * nside * nside) 1.2 (aposize * π / 180) < 2
  · rw [if_pos c2', if_pos c2']
  rw [if_neg c2', if_neg c2']
  have hnd : order.Nodup := ho.nodup_iff.2 List.nodup_range
  have hmem : ∀ p, p ∈ order ↔ p < 12 * nside * nside := fun p => by rw [ho.mem_iff, List.mem_range]
  rcases apoLoop_fac fac (fun s ip => apoStepCX_eq nside vec mask (aposize * π / 180) c2 len s ip) order hnd
    (tab (12 * nside * nside) mask) with ⟨⟨ip, hip, hn⟩, h⟩ | ⟨hall, h⟩
  · rw [if_pos ⟨ip, (hmem ip).1 hip, hn⟩]; exact h
  · rw [if_neg (by rintro ⟨ip, hip, hn⟩; exact hall ip ((hmem ip).2 hip) hn)]
    rw [show apoLoop _ _ _ = _ from h]
    congr 1
    funext p
    simp only [hmem]
    by_cases hp : p < 12 * nside * nside
    · rw [if_pos hp, tab_of_lt _ hp, tab_of_lt _ hp]
    · rw [if_neg hp]
      unfold tab
      rw [if_neg hp, if_neg hp]

/-- The same for the "Smooth" apodisation. -/
theorem apodizeSmooth_cases (nside : ℕ) (vec : ℕ → ℝ × ℝ × ℝ) (mask : ℕ → ℝ) (aposize : ℝ) (order : List ℕ)
    (ho : order.Perm (List.range (12 * nside * nside))) :
    let len := lenList (12 * nside * nside) 2.5 (aposize * π / 180)
    let zs := zeroedBy nside vec mask (aposize * π / 180) len
    apodizeSmooth nside vec mask aposize order =
      if len > 2 ^ 31 - 1 then .crash
      else if len < 2 then .raises .runtime
      else open Classical in if ∃ ip < 12 * nside * nside, zs ip = none then .crash
      else .ok fun p => if ∃ ip < 12 * nside * nside, ∃ l, zs ip = some l ∧ ∃ q ∈ l, q.toNat = p then 0 else
        tab (12 * nside * nside) mask p := by
  intro len zs
  unfold apodizeSmooth
  simp only
  by_cases c1 : lenList (12 * nside * nside) 2.5 (aposize * π / 180) > 2 ^ 31 - 1
  · rw [if_pos c1, if_pos c1]
  rw [if_neg c1, if_neg c1]
  by_cases c2' : lenList (12 * nside * nside) 2.5 (aposize * π / 180) < 2
  · rw [if_pos c2', if_pos c2']
  rw [if_neg c2', if_neg c2']
  have hmem : ∀ p, p ∈ order ↔ p < 12 * nside * nside := fun p => by rw [ho.mem_iff, List.mem_range]
  rcases apoLoop_zero zs (fun s ip => apoStepSmooth_eq nside vec mask (aposize * π / 180) len s ip) order
    (tab (12 * nside * nside) mask) with ⟨⟨ip, hip, hn⟩, h⟩ | ⟨hall, h⟩
  · rw [if_pos ⟨ip, (hmem ip).1 hip, hn⟩]; exact h
  · rw [if_neg (by rintro ⟨ip, hip, hn⟩; exact hall ip ((hmem ip).2 hip) hn)]
    rw [show apoLoop _ _ _ = _ from h]
    simp only [hmem]

/-- Number of pixels of an accepted mask. -/
theorem apoNside_len {len nside : ℕ} (h : apoNside len len = some (.ok nside)) :
    12 * nside * nside = len ∧ 1 ≤ nside ∧ nside ≤ 2 ^ 17 := by
  obtain ⟨_, k, hk, e, rfl⟩ := ((C31_c_sizes len len).1 nside).1 h
  refine ⟨?_, Nat.one_le_two_pow, Nat.pow_le_pow_right (by norm_num) hk⟩
  rw [e, show (4:ℕ) = 2 * 2 by norm_num, mul_pow, mul_assoc]

theorem apoNside_pow (k : ℕ) (hk : k ≤ 17) : apoNside (12 * 4 ^ k) (12 * 4 ^ k) = some (.ok (2 ^ k)) :=
  ((C31_c_sizes _ _).1 _).2 ⟨rfl, k, hk, rfl, rfl⟩

/-! ## C43 -/

/-- The outcome does not depend on the processing order (C functions). -/
theorem nmtApodize_order (nside : ℕ) (vec : ℕ → ℝ × ℝ × ℝ) (mask : ℕ → ℝ) (aposize : ℝ) (apotype : String)
    (o1 o2 : List ℕ) (h1 : o1.Perm (List.range (12 * nside * nside))) (h2 : o2.Perm (List.range (12 * nside * nside))) :
    nmtApodize nside vec mask aposize apotype o1 = nmtApodize nside vec mask aposize apotype o2 := by
  unfold nmtApodize
  rw [apodizeCX_cases nside vec mask aposize false o1 h1, apodizeCX_cases nside vec mask aposize false o2 h2,
    apodizeCX_cases nside vec mask aposize true o1 h1, apodizeCX_cases nside vec mask aposize true o2 h2,
    apodizeSmooth_cases nside vec mask aposize o1 h1, apodizeSmooth_cases nside vec mask aposize o2 h2]

/-- C43: the outcome of `mask_apodization` does not depend on the order in which pixels are processed. -/
theorem C43_order (vec : ℕ → ℕ → ℝ × ℝ × ℝ) (smooth : ℕ → ℝ → (ℕ → ℝ) → ℕ → ℝ) (len : ℕ) (mask : ℕ → ℝ)
    (aposize : ℝ) (apotype : String) (o1 o2 : List ℕ) (h1 : o1.Perm (List.range len)) (h2 : o2.Perm (List.range len)) :
    maskApodization vec smooth len mask aposize apotype o1 = maskApodization vec smooth len mask aposize apotype o2 := by
  unfold maskApodization
  by_cases hT : apotype ∉ ["C1", "C2", "Smooth"]
  · rw [if_pos hT, if_pos hT]
  · rw [if_neg hT, if_neg hT]
    match hn : apoNside len len with
    | some (.ok nside) =>
      simp only
      obtain ⟨e, _⟩ := apoNside_len hn
      rw [nmtApodize_order nside (vec nside) mask aposize apotype o1 o2 (by rwa [e]) (by rwa [e])]
    | some (.raises _) => rfl
    | some .crash => rfl
    | none => rfl

/-- Result of the C function for C1 and C2. -/
theorem nmtApodize_CX (nside : ℕ) (vec : ℕ → ℝ × ℝ × ℝ) (mask : ℕ → ℝ) (aposize : ℝ) (apotype : String)
    (ht : apotype = "C1" ∨ apotype = "C2") (order : List ℕ) (ho : order.Perm (List.range (12 * nside * nside)))
    (m : ℕ → ℝ) (h : nmtApodize nside vec mask aposize apotype order = .ok m) (p : ℕ) (hp : p < 12 * nside * nside) :
    ∃ f, 0 ≤ f ∧ f ≤ 1 ∧ (mask p ≤ 0 → f = 1) ∧ m p = mask p * f := by
  have key : ∀ c2, apodizeCX nside vec mask aposize c2 order = .ok m →
      ∃ f, 0 ≤ f ∧ f ≤ 1 ∧ (mask p ≤ 0 → f = 1) ∧ m p = mask p * f := by
    intro c2 h
    rw [apodizeCX_cases nside vec mask aposize c2 order ho] at h
    by_cases c1 : lenList (12 * nside * nside) 1.2 (aposize * π / 180) > 2 ^ 31 - 1
    · rw [if_pos c1] at h; cases h
    rw [if_neg c1] at h
    by_cases c2' : lenList (12 * nside * nside) 1.2 (aposize * π / 180) < 2
    · rw [if_pos c2'] at h; cases h
    rw [if_neg c2'] at h
    by_cases c3 : ∃ ip < 12 * nside * nside, apoFac nside vec mask (aposize * π / 180) c2
        (lenList (12 * nside * nside) 1.2 (aposize * π / 180)) ip = none
    · rw [if_pos c3] at h; cases h
    rw [if_neg c3] at h
    injection h with h
    rw [← h, tab_of_lt _ hp]
    push Not at c3
    obtain ⟨f, hf⟩ := Option.ne_none_iff_exists'.1 (c3 p hp)
    obtain ⟨a, b, c⟩ := apoFac_range hf
    exact ⟨f, a, b, c, by rw [hf]; rfl⟩
  unfold nmtApodize at h
  by_cases c1 : aposize < 0
  · rw [if_pos c1] at h; cases h
  rw [if_neg c1] at h
  by_cases c2 : aposize = 0
  · rw [if_pos c2] at h
    injection h with h
    exact ⟨1, by norm_num, le_refl 1, fun _ => rfl, by rw [← h, tab_of_lt _ hp, mul_one]⟩
  rw [if_neg c2] at h
  rcases ht with rfl | rfl
  · rw [if_pos rfl] at h; exact key _ h
  · rw [if_neg (by decide), if_pos rfl] at h; exact key _ h

/-- C43 for the types "C1" and "C2". The full statement is about "Smooth" too; there the result is the output of a
harmonic smoothing times the mask, and the smoothing is not modelled, so only `C43_zeros` is proved.
The result is between zero and the input where the input is not negative, and equals the input where that is zero or
negative. -/
theorem C43_bounds_partial (vec : ℕ → ℕ → ℝ × ℝ × ℝ) (smooth : ℕ → ℝ → (ℕ → ℝ) → ℕ → ℝ) (len : ℕ) (mask : ℕ → ℝ)
    (aposize : ℝ) (apotype : String) (ht : apotype = "C1" ∨ apotype = "C2") (order : List ℕ)
    (ho : order.Perm (List.range len)) (m : ℕ → ℝ)
    (h : maskApodization vec smooth len mask aposize apotype order = .ok m) (p : ℕ) (hp : p < len) :
    (0 ≤ mask p → 0 ≤ m p ∧ m p ≤ mask p) ∧ (mask p ≤ 0 → m p = mask p) := by
  unfold maskApodization at h
  rw [if_neg (by rcases ht with rfl | rfl <;> decide)] at h
  match hn : apoNside len len with
  | some (.ok nside) =>
    rw [hn] at h
    simp only at h
    obtain ⟨e, _⟩ := apoNside_len hn
    match hm : nmtApodize nside (vec nside) mask aposize apotype order with
    | .ok m' =>
      rw [hm] at h
      unfold Outcome.bind at h
      simp only at h
      rw [if_pos (by rcases ht with rfl | rfl <;> decide)] at h
      injection h with h
      subst h
      obtain ⟨f, f0, f1, fz, hf⟩ := nmtApodize_CX nside (vec nside) mask aposize apotype ht order (by rwa [e]) m' hm p
        (by rwa [e])
      rw [hf]
      exact ⟨fun h0 => ⟨mul_nonneg h0 f0, mul_le_of_le_one_right h0 f1⟩, fun h0 => by rw [fz h0, mul_one]⟩
    | .raises _ => rw [hm] at h; cases h
    | .crash => rw [hm] at h; cases h
  | some (.raises _) => rw [hn] at h; cases h
  | some .crash => rw [hn] at h; cases h
  | none => rw [hn] at h; cases h

/-- C43: the result is zero where the input is zero, for every type. -/
theorem C43_zeros (vec : ℕ → ℕ → ℝ × ℝ × ℝ) (smooth : ℕ → ℝ → (ℕ → ℝ) → ℕ → ℝ) (len : ℕ) (mask : ℕ → ℝ)
    (aposize : ℝ) (apotype : String) (order : List ℕ)
    (ho : order.Perm (List.range len)) (m : ℕ → ℝ)
    (h : maskApodization vec smooth len mask aposize apotype order = .ok m) (p : ℕ) (hp : p < len) (hz : mask p = 0) :
    m p = 0 := by
  by_cases ht : apotype = "C1" ∨ apotype = "C2"
  · rw [(C43_bounds_partial vec smooth len mask aposize apotype ht order ho m h p hp).2 hz.le, hz]
  · unfold maskApodization at h
    by_cases hT : apotype ∉ ["C1", "C2", "Smooth"]
    · rw [if_pos hT] at h; cases h
    rw [if_neg hT] at h
    have hs : apotype = "Smooth" := by
      simp only [List.mem_cons, List.not_mem_nil, or_false, not_not] at hT
      tauto
    subst hs
    match hn : apoNside len len with
    | some (.ok nside) =>
      rw [hn] at h
      simp only at h
      match hm : nmtApodize nside (vec nside) mask aposize "Smooth" order with
      | .ok m' =>
        rw [hm] at h
        unfold Outcome.bind at h
        simp only at h
        rw [if_neg (by simp)] at h
        match hk : pyNside len with
        | some (.ok n) =>
          rw [hk] at h
          injection h with h
          rw [← h, tab_of_lt _ hp, hz, mul_zero]
        | some (.raises _) => rw [hk] at h; cases h
        | some .crash => rw [hk] at h; cases h
        | none => rw [hk] at h; cases h
      | .raises _ => rw [hm] at h; cases h
      | .crash => rw [hm] at h; cases h
    | some (.raises _) => rw [hn] at h; cases h
    | some .crash => rw [hn] at h; cases h
    | none => rw [hn] at h; cases h

/-- C43: zero scale returns the input for the types "C1" and "C2"; negative scales raise `RuntimeError`; unknown types
raise `ValueError`; lengths that are not those of a map raise `RuntimeError`. The full statement has zero scale for
"Smooth" too; that is false, see `C43_smooth_zero_scale`. -/
theorem C43_arguments_partial (vec : ℕ → ℕ → ℝ × ℝ × ℝ) (smooth : ℕ → ℝ → (ℕ → ℝ) → ℕ → ℝ) (mask : ℕ → ℝ)
    (aposize : ℝ) (apotype : String) (order : List ℕ) :
    (∀ k ≤ 17, (apotype = "C1" ∨ apotype = "C2") → aposize = 0 →
      maskApodization vec smooth (12 * 4 ^ k) mask aposize apotype order = .ok (tab (12 * 4 ^ k) mask)) ∧
    (∀ k ≤ 17, apotype ∈ ["C1", "C2", "Smooth"] → aposize < 0 →
      maskApodization vec smooth (12 * 4 ^ k) mask aposize apotype order = .raises .runtime) ∧
    (∀ len, apotype ∉ ["C1", "C2", "Smooth"] →
      maskApodization vec smooth len mask aposize apotype order = .raises .value) ∧
    (∀ len, apotype ∈ ["C1", "C2", "Smooth"] → (¬ ∃ k ≤ 17, len = 12 * 4 ^ k) →
      maskApodization vec smooth len mask aposize apotype order = .raises .runtime) := by
  refine ⟨?_, ?_, ?_, ?_⟩
  · rintro k hk ht rfl
    unfold maskApodization
    rw [if_neg (by rcases ht with rfl | rfl <;> decide), apoNside_pow k hk]
    simp only [nmtApodize, lt_irrefl, if_false, if_true, Outcome.bind]
    rw [if_pos (by rcases ht with rfl | rfl <;> decide)]
    rw [(apoNside_len (apoNside_pow k hk)).1]
  · intro k hk ht h0
    unfold maskApodization
    rw [if_neg (not_not.2 ht), apoNside_pow k hk]
    simp only [nmtApodize, if_pos h0, Outcome.bind]
  · intro len ht
    unfold maskApodization
    rw [if_pos ht]
  · intro len ht hl
    unfold maskApodization
    rw [if_neg (not_not.2 ht), ((C31_c_sizes len len).2.1 (by rintro ⟨_, h⟩; exact hl h))]

/-- C43 is false for "Smooth" with zero scale, where the smoothing kernel is one: if smoothing with it returns the map
itself, as an exact transform does, the result is the square of the mask instead of the mask. -/
theorem C43_smooth_zero_scale (vec : ℕ → ℕ → ℝ × ℝ × ℝ) (smooth : ℕ → ℝ → (ℕ → ℝ) → ℕ → ℝ)
    (hs : ∀ n m, smooth n 0 m = m) (k : ℕ) (hk1 : 1 ≤ k) (hk : k ≤ 16) (mask : ℕ → ℝ) (order : List ℕ) :
    maskApodization vec smooth (12 * 4 ^ k) mask 0 "Smooth" order = .ok (tab (12 * 4 ^ k) fun p => mask p ^ 2) := by
  unfold maskApodization
  rw [if_neg (by decide), apoNside_pow k (by omega)]
  have hp : pyNside (12 * 4 ^ k) = some (.ok (2 ^ k)) :=
    ((C31_sizes_partial _).1 _).2 ⟨k, hk1, hk, rfl, rfl⟩
  simp only [nmtApodize, lt_irrefl, if_false, if_true, Outcome.bind, hp, ne_eq, not_true_eq_false]
  congr 1
  apply tab_congr
  intro p hp'
  rw [hs, (apoNside_len (apoNside_pow k (by omega))).1, tab_of_lt _ hp', sq]

/-- A mask of 48 pixels equal to one half becomes one quarter. -/
example : ∃ m, maskApodization (fun _ _ => 0) (fun _ _ m => m) 48 (fun _ => 1 / 2) 0 "Smooth" (List.range 48) = .ok m ∧
    m 7 = 1 / 4 := by
  refine ⟨_, C43_smooth_zero_scale _ _ (fun _ _ => rfl) 1 (le_refl 1) (by norm_num) _ _, ?_⟩
  rw [tab_of_lt _ (by norm_num)]; norm_num

/-- C43: a scale above 150 degrees neither returns nor raises: the search radius is rejected inside the parallel region. -/
theorem C43_large_scale (vec : ℕ → ℕ → ℝ × ℝ × ℝ) (smooth : ℕ → ℝ → (ℕ → ℝ) → ℕ → ℝ) (k : ℕ) (hk : k ≤ 17)
    (mask : ℕ → ℝ) (aposize : ℝ) (h1 : 150 < aposize) (h2 : aposize ≤ 180) (apotype : String)
    (ht : apotype = "C1" ∨ apotype = "C2") (order : List ℕ)
    (ho : order.Perm (List.range (12 * 4 ^ k))) (p : ℕ) (hp : p < 12 * 4 ^ k) (hm : 0 < mask p) :
    maskApodization vec smooth (12 * 4 ^ k) mask aposize apotype order = .crash := by
  have hpi := pi_pos
  obtain ⟨e, hn, _⟩ := apoNside_len (apoNside_pow k hk)
  rw [← e] at ho hp
  have key : ∀ c2, apodizeCX (2 ^ k) (vec (2 ^ k)) mask aposize c2 order = .crash := by
    intro c2
    rw [apodizeCX_cases _ _ _ _ _ _ ho]
    split_ifs with c1 c2' c3
    · rfl
    · exfalso
      have hcos : cos (1.2 * (aposize * π / 180)) ≤ 0 := by
        rw [show 1.2 * (aposize * π / 180) = 1.2 * (aposize * π / 180) - π + π by ring, cos_add_pi, neg_nonpos]
        refine cos_nonneg_of_neg_pi_div_two_le_of_le ?_ ?_ <;> nlinarith
      have hnp : (1:ℝ) ≤ ((12 * 2 ^ k * 2 ^ k : ℕ) : ℝ) := by exact_mod_cast (by omega : 1 ≤ 12 * 2 ^ k * 2 ^ k)
      unfold lenList at c2'
      rw [cTrunc_of_nonneg (by nlinarith)] at c2'
      have : (2:ℤ) ≤ ⌊4 * ((12 * 2 ^ k * 2 ^ k : ℕ) : ℝ) * (1 - cos (1.2 * (aposize * π / 180)))⌋ := by
        rw [Int.le_floor]; push_cast at *; nlinarith
      omega
    · rfl
    · exfalso
      apply c3
      refine ⟨p, hp, ?_⟩
      unfold apoFac
      rw [if_pos hm]
      have : heQueryDisc (2 ^ k) (vec (2 ^ k) p).2.2 (vecPhi (vec (2 ^ k) p)) (1.2 * (aposize * π / 180))
          (lenList (12 * 2 ^ k * 2 ^ k) 1.2 (aposize * π / 180) / 2) = .raises .runtime := by
        unfold heQueryDisc
        simp only
        rw [if_pos (Or.inr (by nlinarith))]
      rw [this]
  unfold maskApodization
  rw [if_neg (by rcases ht with rfl | rfl <;> decide), apoNside_pow k hk]
  simp only
  unfold nmtApodize
  rw [if_neg (by linarith), if_neg (by linarith), key, key]
  rcases ht with rfl | rfl
  · rw [if_pos rfl]; rfl
  · rw [if_neg (by decide), if_pos rfl]; rfl

example (mask : ℕ → ℝ) (h : mask 5 = 1) :
    maskApodization (fun _ _ => 0) (fun _ _ m => m) 48 mask 160 "C1" (List.range 48) = .crash :=
  C43_large_scale _ _ 1 (by norm_num) mask 160 (by norm_num) (by norm_num) "C1" (Or.inl rfl) _ (List.Perm.refl _) 5
    (by norm_num) (by rw [h]; norm_num)

end NaMaster
