import Verif.Bins.Lemmas3
import Mathlib.Algebra.Order.Ring.Rat
import Mathlib.Data.Rat.Defs
import Mathlib.Tactic.NormNum

/-!
# Properties C01-C05: curved-sky bandpowers
-/

set_option linter.unusedSectionVars false

namespace NaMaster

open BinSpec

variable {K : Type*} [Field K] [LinearOrder K] [IsStrictOrderedRing K]

/-! ## C01 -/

/-- C01: `from_lmax_linear` succeeds and gives exactly the bands of width `nlb` from multipole 2 if
`nlb+1 <= lmax`, and raises otherwise. -/
theorem C01_from_lmax_linear (twoPi : K) (hpi : 0 < twoPi) (lmax nlb : ℕ) (hn : 1 ≤ nlb)
    (isDell : Bool) (f_ell : Option (List K)) (hf : ∀ f ∈ f_ell, f.length = lmax + 1) :
    (nlb + 1 ≤ lmax → fromLmaxLinear twoPi lmax nlb isDell f_ell =
      .ok (linear lmax nlb (prefactor twoPi isDell f_ell))) ∧
    (¬ nlb + 1 ≤ lmax → ∃ e, fromLmaxLinear twoPi lmax nlb isDell f_ell = .error e) := by
  have key : ∃ F : ℕ → K, fromLmaxLinear twoPi lmax nlb isDell f_ell =
      binsCreate (linEntries lmax nlb F) lmax ∧
      ∀ l, 2 ≤ l → l ≤ lmax → cleanF (F l) = prefactor twoPi isDell f_ell l := by
    unfold fromLmaxLinear nmtBin
    simp only [List.length_range, Option.getD_some]
    rw [linearBpws_eq _ _ hn]
    cases f_ell with
    | some f =>
      refine ⟨fun l => f.getD l 1, ?_, ?_⟩
      · simp only [Option.isNone_some, Bool.false_eq_true, and_false, if_false, Option.getD_some]
        have e1 := list_eq_map_range (lmax + 1) f (hf f rfl) 1
        have e2 := replicate_eq_map_range (lmax + 1) (1 : K)
        have := mkEntries_range (lmax + 1) (linBpw lmax nlb) (fun _ => (1 : K)) (fun l => f.getD l 1)
        rw [← e1, ← e2] at this
        rw [this]
        rfl
      · intro l _ _; rfl
    | none =>
      cases isDell with
      | true =>
        refine ⟨fun l => ((l : K) * ((l : K) + 1)) / twoPi, ?_, ?_⟩
        · simp only [Option.isNone_none, and_true, if_true, Option.getD_some]
          have e2 := replicate_eq_map_range (lmax + 1) (1 : K)
          have := mkEntries_range (lmax + 1) (linBpw lmax nlb) (fun _ => (1 : K))
            (fun l => ((l : K) * ((l : K) + 1)) / twoPi)
          rw [← e2] at this
          unfold dellFactor
          rw [this]; rfl
        · intro l h2 _
          simp only [prefactor, if_true, cleanF]
          rw [if_pos]
          have : (0 : K) < (l : K) := by exact_mod_cast (by omega : 0 < l)
          positivity
      | false =>
        refine ⟨fun _ => 1, ?_, ?_⟩
        · simp only [Option.isNone_none, Bool.false_eq_true, false_and, if_false, Option.getD_none]
          have e2 := replicate_eq_map_range (lmax + 1) (1 : K)
          have := mkEntries_range (lmax + 1) (linBpw lmax nlb) (fun _ => (1 : K)) (fun _ => (1 : K))
          rw [← e2] at this
          rw [this]; rfl
        · intro l _ _
          simp [prefactor, cleanF]
  obtain ⟨F, hF, hc⟩ := key
  rw [hF]
  refine ⟨fun h => ?_, fun h => create_linEntries_error _ _ _ hn h⟩
  rw [create_linEntries_ok _ _ _ hn h]
  congr 1
  unfold linear
  congr 1
  apply List.map_congr_left
  intro b hb
  have hb : b < (lmax - 1) / nlb := by simpa using hb
  have h1 : (b + 1) * nlb ≤ lmax - 1 := by
    have : b + 1 ≤ (lmax - 1) / nlb := hb
    rwa [Nat.le_div_iff_mul_le (by omega)] at this
  rw [Nat.add_mul, one_mul] at h1
  apply List.map_congr_left
  intro l hl
  rw [List.mem_range'_1] at hl
  have := hc l (by omega) (by omega)
  simp only [this]

example : ∃ B, fromLmaxLinear (6 : ℚ) 10 4 false none = .ok B ∧ B.nBands = 2 := by
  refine ⟨_, (C01_from_lmax_linear (6 : ℚ) (by norm_num) 10 4 (by norm_num) false none (by simp)).1
    (by norm_num), ?_⟩
  simp [linear, Bins.nBands]

/-- C01: `from_nside_linear(nside, nlb)` is `from_lmax_linear(3*nside-1, nlb)`. -/
theorem C01_from_nside_linear (twoPi : K) (nside nlb : ℕ) (isDell : Bool) (f_ell : Option (List K)) :
    fromNsideLinear twoPi nside nlb isDell f_ell =
      fromLmaxLinear twoPi (3 * nside - 1) nlb isDell f_ell := rfl

/-- C01: which multipole lies in which band: number of bands, membership, order, weights. -/
theorem C01_layout (lmax nlb : ℕ) (hn : 1 ≤ nlb) (F : ℕ → K) :
    (linear lmax nlb F).nBands = (lmax - 1) / nlb ∧
    ∀ b < (lmax - 1) / nlb,
      ((linear lmax nlb F).band b).length = nlb ∧
      (∀ j < nlb, ∀ e, ((linear lmax nlb F).band b)[j]? = some e →
        e.ell = 2 + b * nlb + j ∧ e.w = 1 / (nlb : K) ∧ e.f = F e.ell) ∧
      ∀ e ∈ (linear lmax nlb F).band b, 2 ≤ e.ell ∧ e.ell ≤ lmax := by
  refine ⟨by simp [linear, Bins.nBands], ?_⟩
  intro b hb
  have hband : (linear lmax nlb F).band b =
      (List.range' (2 + b * nlb) nlb).map (fun l => ⟨l, 1 / (nlb : K), F l⟩) := by
    unfold Bins.band linear
    rw [List.getD_eq_getElem?_getD]
    simp [hb]
  have h1 : (b + 1) * nlb ≤ lmax - 1 := by
    have : b + 1 ≤ (lmax - 1) / nlb := hb
    rwa [Nat.le_div_iff_mul_le (by omega)] at this
  rw [Nat.add_mul, one_mul] at h1
  rw [hband]
  refine ⟨by simp, ?_, ?_⟩
  · intro j hj e he
    rw [List.getElem?_map, List.getElem?_range' hj] at he
    simp only [Option.map_some, Option.some.injEq] at he
    rw [← he]
    simp
  · intro e he
    obtain ⟨l, hl, rfl⟩ := List.mem_map.1 he
    rw [List.mem_range'_1] at hl
    exact ⟨by simp only; omega, by simp only; omega⟩

/-- C01: a multipole is in some band exactly if it is at least 2 and below the end of the last complete band. -/
theorem C01_covered (lmax nlb : ℕ) (hn : 1 ≤ nlb) (F : ℕ → K) (l : ℕ) :
    (∃ b < (linear lmax nlb F).nBands, ∃ e ∈ (linear lmax nlb F).band b, e.ell = l) ↔
      2 ≤ l ∧ l < 2 + ((lmax - 1) / nlb) * nlb := by
  have hband : ∀ b < (lmax - 1) / nlb, (linear lmax nlb F).band b =
      (List.range' (2 + b * nlb) nlb).map (fun l => ⟨l, 1 / (nlb : K), F l⟩) := by
    intro b hb
    unfold Bins.band linear
    rw [List.getD_eq_getElem?_getD]
    simp [hb]
  have hN : (linear lmax nlb F).nBands = (lmax - 1) / nlb := by simp [linear, Bins.nBands]
  rw [hN]
  constructor
  · rintro ⟨b, hb, e, he, rfl⟩
    rw [hband b hb] at he
    obtain ⟨l, hl, rfl⟩ := List.mem_map.1 he
    rw [List.mem_range'_1] at hl
    have : (b + 1) * nlb ≤ ((lmax - 1) / nlb) * nlb := Nat.mul_le_mul_right _ hb
    rw [Nat.add_mul, one_mul] at this
    exact ⟨by simp only; omega, by simp only; omega⟩
  · rintro ⟨h2, h3⟩
    have h4 : (l - 2) / nlb < (lmax - 1) / nlb := by
      rw [Nat.div_lt_iff_lt_mul (by omega)]; omega
    refine ⟨(l - 2) / nlb, h4, ⟨l, 1 / (nlb : K), F l⟩, ?_, rfl⟩
    rw [hband _ h4, List.mem_map]
    refine ⟨l, ?_, rfl⟩
    rw [List.mem_range'_1]
    have h5 := Nat.div_mul_le_self (l - 2) nlb
    have h6 := Nat.lt_div_mul_add (a := l - 2) (b := nlb) (by omega)
    omega

/-- C01: the python constructor agrees with the C constructor of constant-width bands. -/
theorem C01_agrees_with_constant (twoPi : K) (hpi : 0 < twoPi) (lmax nlb : ℕ) (hn : 1 ≤ nlb)
    (h : nlb + 1 ≤ lmax) (isDell : Bool) :
    fromLmaxLinear twoPi lmax nlb isDell none = .ok (binsConstant twoPi nlb lmax isDell) := by
  rw [(C01_from_lmax_linear twoPi hpi lmax nlb hn isDell none (by simp)).1 h]
  congr 1
  unfold linear binsConstant
  congr 1
  apply List.map_congr_left
  intro b _
  rw [List.range'_eq_map_range, List.map_map]
  apply List.map_congr_left
  intro j _
  simp [prefactor]

example : (1 : ℕ) ≤ 4 ∧ 4 + 1 ≤ 10 := by norm_num

/-! ## C02 -/

/-- C02: complete description of a successful construction. -/
theorem C02_create_ok (es : List (Entry K)) (lmax : ℕ) (B : Bins K) :
    binsCreate es lmax = .ok B ↔
      (∀ b, Used es lmax b → 0 < total es lmax b) ∧ B.ellMax = lmax ∧
      (∀ b, b < B.nBands ↔ Used es lmax b) ∧ ∀ b < B.nBands, B.band b = bandOf es lmax b := by
  rw [binsCreate_ok]
  constructor
  · rintro ⟨h1, rfl⟩
    refine ⟨fun b hb => h1 b ((lt_countBands _ _ _).2 hb), rfl, ?_, ?_⟩
    · intro b; rw [← lt_countBands]; simp [Bins.nBands]
    · intro b hb
      have hb : b < countBands es lmax := by simpa [Bins.nBands] using hb
      unfold Bins.band
      rw [List.getD_eq_getElem?_getD]
      simp [hb]
  · rintro ⟨h1, h2, h3, h4⟩
    refine ⟨fun b hb => h1 b ((lt_countBands _ _ _).1 hb), ?_⟩
    have hN : B.nBands = countBands es lmax := by
      apply eq_of_forall_lt_iff
      intro c; rw [h3, lt_countBands]
    obtain ⟨L, bands⟩ := B
    simp only [Bins.nBands] at hN h2 h4
    congr 1
    apply List.ext_getElem
    · simp [hN]
    · intro b hb1 hb2
      have := h4 b hb1
      unfold Bins.band at this
      rw [List.getD_eq_getElem?_getD] at this
      simp only [hb1, List.getElem?_eq_getElem, Option.getD_some] at this
      rw [this]; simp

/-- C02: the constructor raises exactly if some band in use has non-positive total weight. -/
theorem C02_fails_iff (es : List (Entry K)) (lmax : ℕ) :
    (∃ e, binsCreate es lmax = .error e) ↔ ∃ b, Used es lmax b ∧ total es lmax b ≤ 0 := by
  constructor
  · rintro ⟨e, he⟩
    by_contra hne
    push Not at hne
    have := (binsCreate_ok es lmax ⟨lmax, (List.range (countBands es lmax)).map (bandOf es lmax)⟩).2
      ⟨fun b hb => hne b ((lt_countBands _ _ _).1 hb), rfl⟩
    rw [he] at this; cases this
  · rintro ⟨b, hb, h0⟩
    cases hB : binsCreate es lmax with
    | error e => exact ⟨e, rfl⟩
    | ok B =>
      exact absurd (((C02_create_ok es lmax B).1 hB).1 b hb) (not_lt.2 h0)

/-- C02: an empty band below the largest index makes the constructor fail. -/
theorem C02_empty_band_fails (es : List (Entry K)) (lmax b : ℕ) (hu : Used es lmax b)
    (he : members es lmax b = []) : ∃ e, binsCreate es lmax = .error e := by
  rw [C02_fails_iff]
  exact ⟨b, hu, by simp [total, he]⟩

/-- C02: weights add up to one in every band. -/
theorem C02_weights_sum_one (es : List (Entry K)) (lmax : ℕ) (B : Bins K)
    (h : binsCreate es lmax = .ok B) (b : ℕ) (hb : b < B.nBands) :
    ((B.band b).map (·.w)).sum = 1 := by
  obtain ⟨h1, _, h3, h4⟩ := (C02_create_ok es lmax B).1 h
  rw [h4 b hb]
  have hpos := h1 b ((h3 b).1 hb)
  unfold bandOf
  rw [List.map_map]
  have : ((fun x : BandEntry K => x.w) ∘ fun e : Entry K =>
      (⟨e.ell, e.w / total es lmax b, cleanF e.f⟩ : BandEntry K)) =
      fun e : Entry K => e.w * (total es lmax b)⁻¹ := by
    funext e; simp [div_eq_mul_inv]
  rw [this, List.sum_map_mul_right]
  exact mul_inv_cancel₀ hpos.ne'

/-- C02: prefactors stored in a scheme are positive, multipoles do not exceed `lmax`. -/
theorem C02_entries (es : List (Entry K)) (lmax : ℕ) (B : Bins K)
    (h : binsCreate es lmax = .ok B) (b : ℕ) (hb : b < B.nBands) (x : BandEntry K)
    (hx : x ∈ B.band b) : 0 < x.f ∧ x.ell ≤ B.ellMax := by
  obtain ⟨h1, h2, h3, h4⟩ := (C02_create_ok es lmax B).1 h
  rw [h4 b hb] at hx
  obtain ⟨e, he, rfl⟩ := List.mem_map.1 hx
  have := (List.mem_filter.1 he).2
  simp only [decide_eq_true_eq] at this
  refine ⟨?_, by rw [h2]; exact this.1⟩
  simp only [cleanF]
  split_ifs with hf
  · exact hf
  · exact one_pos

/-- C02: entries with negative band index or multipole above `lmax` have no influence. -/
theorem C02_ignored (es : List (Entry K)) (lmax : ℕ) (B : Bins K) :
    binsCreate es lmax = .ok B ↔
      binsCreate (es.filter (fun e => e.ell ≤ lmax ∧ 0 ≤ e.bpw)) lmax = .ok B := by
  set es' := es.filter (fun e => e.ell ≤ lmax ∧ 0 ≤ e.bpw) with hes
  have hm : ∀ b, members es' lmax b = members es lmax b := by
    intro b
    unfold members
    rw [hes, List.filter_filter]
    apply List.filter_congr
    intro e _
    simp only [← Bool.decide_and]
    apply decide_eq_decide.2
    constructor
    · rintro ⟨h1, _⟩; exact h1
    · rintro ⟨h1, h2⟩; exact ⟨⟨h1, h2⟩, h1, by omega⟩
  have hu : ∀ b, Used es' lmax b ↔ Used es lmax b := by
    intro b
    unfold Used
    rw [hes]
    constructor
    · rintro (h | ⟨e, he, h⟩)
      · exact Or.inl h
      · exact Or.inr ⟨e, (List.mem_filter.1 he).1, h⟩
    · rintro (h | ⟨e, he, h⟩)
      · exact Or.inl h
      · exact Or.inr ⟨e, List.mem_filter.2 ⟨he, by
          simp only [decide_eq_true_eq]; exact ⟨h.1, by omega⟩⟩, h⟩
  have ht : ∀ b, total es' lmax b = total es lmax b := by
    intro b; unfold total; rw [hm]
  have hbo : ∀ b, bandOf es' lmax b = bandOf es lmax b := by
    intro b; unfold bandOf; rw [hm, ht]
  rw [C02_create_ok, C02_create_ok]
  simp only [hu, ht, hbo]

/-- C02: multiplying all weights of each band by a positive constant changes nothing. -/
theorem C02_rescale (es : List (Entry K)) (lmax : ℕ) (c : ℤ → K) (hc : ∀ b, 0 < c b) (B : Bins K) :
    binsCreate (es.map (fun e => { e with w := c e.bpw * e.w })) lmax = .ok B ↔
      binsCreate es lmax = .ok B := by
  set es' := es.map (fun e => { e with w := c e.bpw * e.w }) with hes
  have hm : ∀ b, members es' lmax b =
      (members es lmax b).map (fun e => { e with w := c e.bpw * e.w }) := by
    intro b
    unfold members
    rw [hes, List.filter_map]
    rfl
  have hu : ∀ b, Used es' lmax b ↔ Used es lmax b := by
    intro b
    unfold Used
    rw [hes]
    simp only [List.mem_map]
    constructor
    · rintro (h | ⟨e, ⟨e', he', rfl⟩, h⟩)
      · exact Or.inl h
      · exact Or.inr ⟨e', he', h⟩
    · rintro (h | ⟨e, he, h⟩)
      · exact Or.inl h
      · exact Or.inr ⟨_, ⟨e, he, rfl⟩, h⟩
  have ht : ∀ b, total es' lmax b = c b * total es lmax b := by
    intro b
    unfold total
    rw [hm, List.map_map, ← List.sum_map_mul_left]
    congr 1
    apply List.map_congr_left
    intro e he
    have := (List.mem_filter.1 he).2
    simp only [decide_eq_true_eq] at this
    simp [this.2]
  have hbo : ∀ b, bandOf es' lmax b = bandOf es lmax b := by
    intro b
    unfold bandOf
    rw [ht, hm, List.map_map]
    apply List.map_congr_left
    intro e he
    have := (List.mem_filter.1 he).2
    simp only [decide_eq_true_eq] at this
    simp only [Function.comp_apply, this.2]
    rw [mul_div_mul_left _ _ (hc _).ne']
  rw [C02_create_ok, C02_create_ok]
  simp only [hu, ht, hbo]
  constructor
  · rintro ⟨h1, h2⟩
    exact ⟨fun b hb => (mul_pos_iff_of_pos_left (hc b)).1 (h1 b hb), h2⟩
  · rintro ⟨h1, h2⟩
    exact ⟨fun b hb => (mul_pos_iff_of_pos_left (hc b)).2 (h1 b hb), h2⟩

/-- A non-trivial scheme used as witness: two bands, unordered input, ignored entries. -/
def exampleEntries : List (Entry ℚ) :=
  [⟨3, 1, 2, 1⟩, ⟨2, 0, 1, 0⟩, ⟨4, 0, 3, 5⟩, ⟨9, 7, 1, 1⟩, ⟨5, -1, 1, 1⟩]

/-- The scheme built from `exampleEntries` with `lmax = 6`. -/
def exampleBins : Bins ℚ := ⟨6, [[⟨2, 1 / 4, 1⟩, ⟨4, 3 / 4, 5⟩], [⟨3, 1, 1⟩]]⟩

theorem exampleBins_ok : binsCreate exampleEntries 6 = .ok exampleBins := by
  have e2 : Int.toNat 2 = 2 := rfl
  norm_num [binsCreate, exampleEntries, countBands, placeEntry, normaliseFrom, exampleBins,
    List.modify, List.modifyTailIdx, List.modifyTailIdx.go, e2, List.replicate]

example : ∃ es : List (Entry ℚ), ∃ b, Used es 6 b ∧ total es 6 b ≤ 0 :=
  ⟨[⟨3, 1, 1, 1⟩], 0, Or.inl rfl, by simp [total, members]⟩

/-! ## C03 -/

/-- C03: `from_edges` without explicit prefactor array. -/
theorem C03_from_edges (twoPi : K) (ini fin : List ℕ)
    (hlen : ini.length = fin.length) (hne : ini ≠ []) (hlt : ∀ p ∈ ini.zip fin, p.1 < p.2)
    (isDell : Bool) (f_ell : Option (List K))
    (hf : ∀ f ∈ f_ell, f.length = ((ini.zip fin).map (fun p => p.2 - p.1)).sum) :
    ∃ (lmax : ℕ) (f : List K),
      NaMaster.fromEdges twoPi ini fin isDell f_ell =
        .ok (BinSpec.fromEdges (ini.zip fin) lmax f) ∧
      fin.max? = some (lmax + 1) ∧
      f.length = ((ini.zip fin).map (fun p => p.2 - p.1)).sum ∧
      (∀ g, f_ell = some g → f = g) ∧
      (f_ell = none → isDell = false → ∀ x ∈ f, x = 1) ∧
      (f_ell = none → isDell = true → f = dellFactor twoPi
        ((ini.zip fin).flatMap (fun p => List.range' p.1 (p.2 - p.1)))) := by
  set edges := ini.zip fin with hedges
  have hEne : edges ≠ [] := by
    rw [hedges]
    intro h
    rw [List.zip_eq_nil_iff] at h
    rcases h with h | h
    · exact hne h
    · apply hne
      apply List.length_eq_zero_iff.1
      rw [hlen, h]; rfl
  have hells : ∀ ib, (edgeLists (K := K) ib edges).1 =
      edges.flatMap (fun p => List.range' p.1 (p.2 - p.1)) := by
    clear hlt hEne hf
    intro ib
    induction edges generalizing ib with
    | nil => simp [edgeLists]
    | cons p t ih =>
      obtain ⟨li, le⟩ := p
      simp only [edgeLists, List.flatMap_cons]
      rw [ih]
  -- largest multipole
  have hmax : ∃ lmax, (edges.flatMap (fun p => List.range' p.1 (p.2 - p.1))).max? = some lmax ∧
      fin.max? = some (lmax + 1) ∧ ∀ p ∈ edges, p.2 ≤ lmax + 1 := by
    have hfne : fin ≠ [] := by
      intro h; apply hne; apply List.length_eq_zero_iff.1; rw [hlen, h]; rfl
    have hfin : fin = edges.map (·.2) := by
      rw [hedges]; exact (List.map_snd_zip (by omega)).symm
    obtain ⟨M, hM⟩ := Option.isSome_iff_exists.1 (List.isSome_max?_of_ne_nil hfne)
    rw [List.max?_eq_some_iff] at hM
    obtain ⟨hM1, hM2⟩ := hM
    rw [hfin] at hM1
    obtain ⟨p, hp, hpM⟩ := List.mem_map.1 hM1
    have hplt := hlt p hp
    refine ⟨M - 1, ?_, ?_, ?_⟩
    · rw [List.max?_eq_some_iff]
      constructor
      · rw [List.mem_flatMap]
        exact ⟨p, hp, by rw [List.mem_range'_1]; omega⟩
      · intro b hb
        obtain ⟨q, hq, hbq⟩ := List.mem_flatMap.1 hb
        rw [List.mem_range'_1] at hbq
        have := hM2 q.2 (by rw [hfin]; exact List.mem_map.2 ⟨q, hq, rfl⟩)
        omega
    · rw [List.max?_eq_some_iff]
      have : M - 1 + 1 = M := by omega
      rw [this, hfin]
      exact ⟨hM1, by rw [← hfin]; exact hM2⟩
    · intro q hq
      have := hM2 q.2 (by rw [hfin]; exact List.mem_map.2 ⟨q, hq, rfl⟩)
      omega
  obtain ⟨lmax, hl1, hl2, hl3⟩ := hmax
  have hany : edges.any (fun p => p.1 = p.2) = false := by
    rw [List.any_eq_false]
    intro p hp
    have := hlt p hp
    simp only [decide_eq_true_eq]; omega
  have hlens := edgeLists_length (K := K) 0 edges
  -- core statement for any prefactor list
  have core : ∀ f : List K, f.length = (edges.map (fun p => p.2 - p.1)).sum →
      nmtBin (edgeLists (K := K) 0 edges).2.1 (edgeLists (K := K) 0 edges).1 (some lmax)
        (some (edgeLists (K := K) 0 edges).2.2) (some f) = .ok (BinSpec.fromEdges edges lmax f) := by
    intro f hf
    unfold nmtBin mkEntries
    simp only [Option.getD_some]
    rw [if_pos ⟨hlens.1, hlens.2.1, by rw [hf, hlens.2.2]⟩]
    simp only
    rw [edge_zip 0 edges f hf]
    have hpos : ∀ k (hk : k < edges.length), (offset edges k) + (edges[k].2 - edges[k].1) ≤ f.length := by
      intro k hk
      rw [hf]
      unfold offset
      have e1 : edges = edges.take (k + 1) ++ edges.drop (k + 1) := (List.take_append_drop _ _).symm
      have e2 : edges.take (k + 1) = edges.take k ++ [edges[k]] := by
        rw [List.take_succ_eq_append_getElem hk]
      conv_rhs => rw [e1, e2]
      simp only [List.map_append, List.sum_append, List.map_cons, List.map_nil, List.sum_cons,
        List.sum_nil]
      omega
    have hmem : ∀ k (hk : k < edges.length), members (edgeEntries 0 edges f) lmax k =
        edgePiece k edges[k] (f.drop (offset edges k)) := by
      intro k hk
      have := members_edgeEntries lmax 0 k edges f hl3 hk
      simpa using this
    have hplen : ∀ k (hk : k < edges.length),
        (edgePiece k edges[k] (f.drop (offset edges k))).length = edges[k].2 - edges[k].1 := by
      intro k hk
      have := hpos k hk
      simp only [edgePiece, List.length_zipWith, List.length_range', List.length_drop]
      omega
    have htot : ∀ k (hk : k < edges.length), total (edgeEntries 0 edges f) lmax k = 1 := by
      intro k hk
      unfold total
      rw [hmem k hk]
      have hw : ∀ x ∈ (edgePiece k edges[k] (f.drop (offset edges k))).map (·.w),
          x = 1 / ((edges[k].2 - edges[k].1 : ℕ) : K) := by
        intro x hx
        obtain ⟨e, he, rfl⟩ := List.mem_map.1 hx
        unfold edgePiece at he
        rw [List.mem_iff_getElem] at he
        obtain ⟨i, hi, rfl⟩ := he
        simp
      rw [List.eq_replicate_of_mem hw, List.sum_replicate, List.length_map, hplen k hk]
      have := hlt edges[k] (List.getElem_mem hk)
      rw [nsmul_eq_mul, mul_one_div_cancel]
      have h0 : edges[k].2 - edges[k].1 ≠ 0 := by omega
      exact_mod_cast h0
    have hcount : countBands (edgeEntries 0 edges f) lmax = edges.length := by
      apply eq_of_forall_lt_iff
      intro c
      rw [lt_countBands]
      unfold Used
      constructor
      · rintro (rfl | ⟨e, he, _, h2⟩)
        · exact List.length_pos_iff.2 hEne
        · have := mem_edgeEntries_lt _ _ _ _ he
          omega
      · intro hc
        right
        have h1 := hplen c hc
        have h2 := hlt edges[c] (List.getElem_mem hc)
        have h3 : 0 < (edgePiece c edges[c] (f.drop (offset edges c))).length := by omega
        obtain ⟨e, he⟩ := List.exists_mem_of_length_pos h3
        have h4 := he
        rw [← hmem c hc] at h4
        have h5 := List.mem_filter.1 h4
        simp only [decide_eq_true_eq] at h5
        exact ⟨e, h5.1, h5.2.1, by omega⟩
    rw [binsCreate_ok]
    refine ⟨?_, ?_⟩
    · intro b hb
      rw [hcount] at hb
      rw [htot b hb]; exact one_pos
    · rw [hcount]
      unfold BinSpec.fromEdges
      congr 1
      apply List.ext_getElem
      · simp
      · intro k h1 h2
        have hk : k < edges.length := by simpa using h2
        simp only [List.getElem_map, List.getElem_zipIdx, List.getElem_range, Nat.zero_add]
        unfold bandOf
        rw [htot k hk, hmem k hk]
        unfold edgePiece
        rw [List.map_zipWith]
        simp
  unfold NaMaster.fromEdges
  simp only [← hedges, hany, Bool.false_eq_true, if_false]
  rw [hells 0]
  rw [hl1]
  simp only
  rw [← hells 0]
  cases f_ell with
  | some g =>
    refine ⟨lmax, g, ?_, hl2, hf g rfl, ?_, by simp, by simp⟩
    · simpa using core g (hf g rfl)
    · rintro g' h; injection h
  | none =>
    cases isDell with
    | true =>
      refine ⟨lmax, dellFactor twoPi (edges.flatMap (fun p => List.range' p.1 (p.2 - p.1))), ?_, hl2,
        ?_, by simp, by simp, by simp [hells]⟩
      · simp only [Option.isNone_none, and_true, if_true]
        rw [← hells 0]
        apply core
        rw [dellFactor, List.length_map]; exact hlens.2.2
      · rw [dellFactor, List.length_map, ← hells 0]; exact hlens.2.2
    | false =>
      refine ⟨lmax, List.replicate (edgeLists (K := K) 0 edges).1.length 1, ?_, hl2, ?_, by simp, ?_,
        by simp⟩
      · simp only [Option.isNone_none, Bool.false_eq_true, false_and, if_false]
        have := core (List.replicate (edgeLists (K := K) 0 edges).1.length 1)
          (by rw [List.length_replicate]; exact hlens.2.2)
        rw [← this]; rfl
      · rw [List.length_replicate]; exact hlens.2.2
      · intro _ _ x hx
        exact (List.mem_replicate.1 hx).2

example : ∀ p ∈ [2, 6].zip [6, 11], p.1 < p.2 := by decide

/-- C03: reading of the specification: band `b` holds exactly the multipoles from `ell_ini[b]` up to
but excluding `ell_end[b]`, in order, all with the same weight. -/
theorem C03_layout (edges : List (ℕ × ℕ)) (lmax : ℕ) (f : List K)
    (hf : f.length = (edges.map (fun p => p.2 - p.1)).sum) (b : ℕ) (hb : b < edges.length) :
    (BinSpec.fromEdges edges lmax f).nBands = edges.length ∧
    ((BinSpec.fromEdges edges lmax f).band b).map (·.ell) =
      List.range' edges[b].1 (edges[b].2 - edges[b].1) ∧
    ∀ e ∈ (BinSpec.fromEdges edges lmax f).band b,
      e.w = 1 / ((edges[b].2 - edges[b].1 : ℕ) : K) := by
  have hpos : (offset edges b) + (edges[b].2 - edges[b].1) ≤ f.length := by
    rw [hf]
    unfold offset
    have e1 : edges = edges.take (b + 1) ++ edges.drop (b + 1) := (List.take_append_drop _ _).symm
    have e2 : edges.take (b + 1) = edges.take b ++ [edges[b]] := by
      rw [List.take_succ_eq_append_getElem hb]
    conv_rhs => rw [e1, e2]
    simp only [List.map_append, List.sum_append, List.map_cons, List.map_nil, List.sum_cons,
      List.sum_nil]
    omega
  have hband : (BinSpec.fromEdges edges lmax f).band b =
      (List.range' edges[b].1 (edges[b].2 - edges[b].1)).zipWith
        (fun l x => ⟨l, 1 / ((edges[b].2 - edges[b].1 : ℕ) : K), cleanF x⟩)
        (f.drop (offset edges b)) := by
    unfold Bins.band BinSpec.fromEdges
    rw [List.getD_eq_getElem?_getD]
    simp [hb]
  refine ⟨by simp [BinSpec.fromEdges, Bins.nBands], ?_, ?_⟩
  · rw [hband]
    apply List.ext_getElem
    · simp; omega
    · intro i h1 h2
      simp
  · intro e he
    rw [hband, List.mem_iff_getElem] at he
    obtain ⟨i, hi, rfl⟩ := he
    simp

/-! ## C04 -/

/-- C04: size check of `bin_cell`. -/
theorem C04_bin_cell_shape (B : Bins K) (cl : List K) :
    (cl.length ≠ B.ellMax + 1 → binCell B cl = .error .value) ∧
    (cl.length = B.ellMax + 1 → ∃ out, binCell B cl = .ok out ∧ out.length = B.nBands ∧
      ∀ b < B.nBands, out.getD b 0 =
        ((B.band b).map (fun e => e.w * e.f * cl.getD e.ell 0)).sum) := by
  unfold binCell
  constructor
  · intro h; rw [if_pos h]
  · intro h
    rw [if_neg (not_not.2 h)]
    refine ⟨_, rfl, by simp, ?_⟩
    intro b hb
    rw [List.getD_eq_getElem?_getD]
    simp [hb, binCls]

/-- C04: binning is linear. -/
theorem C04_linear (B : Bins K) (a c : K) (x y : ℕ → K) (b : ℕ) :
    binCls B (fun l => a * x l + c * y l) b = a * binCls B x b + c * binCls B y b := by
  unfold binCls
  rw [← List.sum_map_mul_left, ← List.sum_map_mul_left, ← List.sum_map_add]
  congr 1
  apply List.map_congr_left
  intro e _
  ring

/-- C04: only multipoles inside the band matter. -/
theorem C04_local (B : Bins K) (x y : ℕ → K) (b : ℕ) (h : ∀ e ∈ B.band b, x e.ell = y e.ell) :
    binCls B x b = binCls B y b := by
  unfold binCls
  congr 1
  apply List.map_congr_left
  intro e he
  rw [h e he]

theorem weighted_bounds (l : List (BandEntry K)) (x : BandEntry K → K) (lo hi : K)
    (hw : ∀ e ∈ l, 0 ≤ e.w) (hx : ∀ e ∈ l, lo ≤ x e ∧ x e ≤ hi) :
    lo * (l.map (·.w)).sum ≤ (l.map (fun e => e.w * x e)).sum ∧
      (l.map (fun e => e.w * x e)).sum ≤ hi * (l.map (·.w)).sum := by
  induction l with
  | nil => simp
  | cons a t ih =>
    have iht := ih (fun e he => hw e (by simp [he])) (fun e he => hx e (by simp [he]))
    have hwa := hw a (by simp)
    have hxa := hx a (by simp)
    simp only [List.map_cons, List.sum_cons]
    constructor
    · nlinarith [mul_le_mul_of_nonneg_left hxa.1 hwa]
    · nlinarith [mul_le_mul_of_nonneg_left hxa.2 hwa]

/-- C04: with unit prefactors and non-negative weights the bandpower lies between the smallest and the
largest value of the spectrum in the band. -/
theorem C04_average_bounds (es : List (Entry K)) (lmax : ℕ) (B : Bins K)
    (h : binsCreate es lmax = .ok B) (hw : ∀ e ∈ es, 0 ≤ e.w) (hf : ∀ e ∈ es, e.f = 1)
    (b : ℕ) (hb : b < B.nBands) (cl : ℕ → K) (lo hi : K)
    (hcl : ∀ e ∈ B.band b, lo ≤ cl e.ell ∧ cl e.ell ≤ hi) :
    lo ≤ binCls B cl b ∧ binCls B cl b ≤ hi := by
  obtain ⟨h1, _, h3, h4⟩ := (C02_create_ok es lmax B).1 h
  have hsum := C02_weights_sum_one es lmax B h b hb
  have hpos := h1 b ((h3 b).1 hb)
  have hent : ∀ x ∈ B.band b, 0 ≤ x.w ∧ x.f = 1 := by
    intro x hx
    rw [h4 b hb] at hx
    obtain ⟨e, he, rfl⟩ := List.mem_map.1 hx
    have he' := (List.mem_filter.1 he).1
    refine ⟨div_nonneg (hw e he') hpos.le, ?_⟩
    simp [cleanF, hf e he']
  have := weighted_bounds (B.band b) (fun e => cl e.ell) lo hi (fun e he => (hent e he).1) hcl
  rw [hsum, mul_one, mul_one] at this
  have e1 : binCls B cl b = ((B.band b).map (fun e => e.w * cl e.ell)).sum := by
    unfold binCls
    congr 1
    apply List.map_congr_left
    intro e he
    rw [(hent e he).2, mul_one]
  rw [e1]; exact this

/-- C04: a constant spectrum is reproduced. -/
theorem C04_constant (es : List (Entry K)) (lmax : ℕ) (B : Bins K)
    (h : binsCreate es lmax = .ok B) (hf : ∀ e ∈ es, e.f = 1)
    (b : ℕ) (hb : b < B.nBands) (c : K) : binCls B (fun _ => c) b = c := by
  obtain ⟨_, _, _, h4⟩ := (C02_create_ok es lmax B).1 h
  have hsum := C02_weights_sum_one es lmax B h b hb
  unfold binCls
  have : (B.band b).map (fun e => e.w * e.f * c) = (B.band b).map (fun e => e.w * c) := by
    apply List.map_congr_left
    intro x hx
    rw [h4 b hb] at hx
    obtain ⟨e, he, rfl⟩ := List.mem_map.1 hx
    have he' := (List.mem_filter.1 he).1
    simp [cleanF, hf e he']
  rw [this, List.sum_map_mul_right, hsum, one_mul]

/-- C04: effective multipoles lie within the band. -/
theorem C04_effective_ell (es : List (Entry K)) (lmax : ℕ) (B : Bins K)
    (h : binsCreate es lmax = .ok B) (hw : ∀ e ∈ es, 0 ≤ e.w)
    (b : ℕ) (hb : b < B.nBands) (lo hi : ℕ)
    (hl : ∀ e ∈ B.band b, lo ≤ e.ell ∧ e.ell ≤ hi) :
    (lo : K) ≤ ellEff B b ∧ ellEff B b ≤ (hi : K) := by
  obtain ⟨h1, _, h3, h4⟩ := (C02_create_ok es lmax B).1 h
  have hsum := C02_weights_sum_one es lmax B h b hb
  have hpos := h1 b ((h3 b).1 hb)
  have hent : ∀ x ∈ B.band b, 0 ≤ x.w := by
    intro x hx
    rw [h4 b hb] at hx
    obtain ⟨e, he, rfl⟩ := List.mem_map.1 hx
    exact div_nonneg (hw e (List.mem_filter.1 he).1) hpos.le
  have := weighted_bounds (B.band b) (fun e => (e.ell : K)) lo hi hent
    (fun e he => ⟨by exact_mod_cast (hl e he).1, by exact_mod_cast (hl e he).2⟩)
  rw [hsum, mul_one, mul_one] at this
  have e1 : ellEff B b = ((B.band b).map (fun e => e.w * (e.ell : K))).sum := by
    unfold ellEff
    congr 1
    apply List.map_congr_left
    intro e _
    exact mul_comm _ _
  rw [e1]; exact this

example : ∃ B, binsCreate exampleEntries 6 = .ok B ∧ (∀ e ∈ exampleEntries, 0 ≤ e.w) ∧ 0 < B.nBands :=
  ⟨exampleBins, exampleBins_ok, by simp [exampleEntries], by decide⟩

/-! ## C05 -/

/-- C05: value of the unbinned spectrum on the multipoles of band `b`. -/
theorem C05_unbin_inside (B : Bins K) (hB : NoRepeats B) (x : ℕ → K) (b : ℕ) (hb : b < B.nBands)
    (e : BandEntry K) (he : e ∈ B.band b) : unbinCls B x e.ell = x b / e.f := by
  unfold unbinCls
  have hb' : b < B.bands.length := hb
  have he' : e ∈ B.bands[b] := by
    unfold Bins.band at he
    rw [List.getD_eq_getElem?_getD] at he
    simpa [hb'] using he
  have := unbinFrom_mem x 0 B.bands (fun _ => 0) b hb' e he' hB
  simpa using this

/-- C05: the unbinned spectrum vanishes outside all bands (repeated multipoles allowed). -/
theorem C05_unbin_outside (B : Bins K) (x : ℕ → K) (l : ℕ)
    (h : ∀ band ∈ B.bands, ∀ e ∈ band, e.ell ≠ l) : unbinCls B x l = 0 := by
  unfold unbinCls
  rw [unbinFrom_notMem]
  intro hl
  obtain ⟨e, he, rfl⟩ := List.mem_map.1 hl
  obtain ⟨band, hband, he⟩ := List.mem_flatten.1 he
  exact h band hband e he rfl

/-- C05: binning inverts unbinning. -/
theorem C05_bin_unbin (es : List (Entry K)) (lmax : ℕ) (B : Bins K)
    (h : binsCreate es lmax = .ok B) (hB : NoRepeats B) (x : ℕ → K) (b : ℕ) (hb : b < B.nBands) :
    binCls B (unbinCls B x) b = x b := by
  have hsum := C02_weights_sum_one es lmax B h b hb
  unfold binCls
  have : (B.band b).map (fun e => e.w * e.f * unbinCls B x e.ell) =
      (B.band b).map (fun e => e.w * x b) := by
    apply List.map_congr_left
    intro e he
    rw [C05_unbin_inside B hB x b hb e he]
    have := (C02_entries es lmax B h b hb e he).1.ne'
    field_simp
  rw [this, List.sum_map_mul_right, hsum, one_mul]

/-- C05 at the level of the python methods: `bin_cell(unbin_cell(x))` returns `x`. -/
theorem C05_bin_cell_unbin_cell (es : List (Entry K)) (lmax : ℕ) (B : Bins K)
    (h : binsCreate es lmax = .ok B) (hB : NoRepeats B) (x : List K) :
    (x.length ≠ B.nBands → unbinCell B x = .error .value) ∧
    (x.length = B.nBands → ∃ y, unbinCell B x = .ok y ∧ y.length = B.ellMax + 1 ∧
      binCell B y = .ok x) := by
  unfold unbinCell
  constructor
  · intro hx; rw [if_pos hx]
  · intro hx
    rw [if_neg (not_not.2 hx)]
    refine ⟨_, rfl, by simp, ?_⟩
    unfold binCell
    rw [if_neg (by simp)]
    congr 1
    apply List.ext_getElem
    · simp [hx]
    · intro b h1 h2
      have hb : b < B.nBands := by simpa using h1
      simp only [List.getElem_map, List.getElem_range]
      have := C05_bin_unbin es lmax B h hB (fun i => x.getD i 0) b hb
      rw [C04_local B _ (unbinCls B (fun i => x.getD i 0)) b, this]
      · simp [h2]
      · intro e he
        have := (C02_entries es lmax B h b hb e he).2
        rw [List.getD_eq_getElem?_getD]
        simp [Nat.lt_succ_of_le this]

/-- C05: `unbin ∘ bin` is idempotent. -/
theorem C05_idempotent (es : List (Entry K)) (lmax : ℕ) (B : Bins K)
    (h : binsCreate es lmax = .ok B) (hB : NoRepeats B) (cl : ℕ → K) :
    unbinCls B (binCls B (unbinCls B (binCls B cl))) = unbinCls B (binCls B cl) := by
  have key : ∀ x y : ℕ → K, (∀ b < B.nBands, x b = y b) → unbinCls B x = unbinCls B y := by
    intro x y hxy
    funext l
    by_cases hl : ∀ band ∈ B.bands, ∀ e ∈ band, e.ell ≠ l
    · rw [C05_unbin_outside B x l hl, C05_unbin_outside B y l hl]
    · push Not at hl
      obtain ⟨band, hband, e, he, rfl⟩ := hl
      obtain ⟨b, hb, rfl⟩ := List.mem_iff_getElem.1 hband
      have he' : e ∈ B.band b := by
        unfold Bins.band; rw [List.getD_eq_getElem?_getD]; simpa [hb] using he
      rw [C05_unbin_inside B hB x b hb e he', C05_unbin_inside B hB y b hb e he', hxy b hb]
  exact key _ _ (fun b hb => C05_bin_unbin es lmax B h hB _ b hb)

example : ∃ B, binsCreate exampleEntries 6 = .ok B ∧ NoRepeats B ∧ B.nBands = 2 :=
  ⟨exampleBins, exampleBins_ok, by simp [NoRepeats, exampleBins], rfl⟩

/-- C05: the round trip fails for the accepted overlapping bands `[2,4)` and `[3,5)`. -/
theorem C05_overlap_counterexample :
    ∃ (es : List (Entry ℚ)) (B : Bins ℚ), binsCreate es 4 = .ok B ∧
      binCls B (unbinCls B (fun b => (b : ℚ))) 0 ≠ 0 := by
  refine ⟨[⟨2, 0, 1, 1⟩, ⟨3, 0, 1, 1⟩, ⟨3, 1, 1, 1⟩, ⟨4, 1, 1, 1⟩],
    ⟨4, [[⟨2, 1 / 2, 1⟩, ⟨3, 1 / 2, 1⟩], [⟨3, 1 / 2, 1⟩, ⟨4, 1 / 2, 1⟩]]⟩, ?_, ?_⟩
  · have e2 : Int.toNat 2 = 2 := rfl
    norm_num [binsCreate, countBands, placeEntry, normaliseFrom, List.modify, List.modifyTailIdx,
      List.modifyTailIdx.go, e2, List.replicate]
  · norm_num [binCls, unbinCls, unbinFrom, unbinBand, Bins.band, Function.update]

end NaMaster
