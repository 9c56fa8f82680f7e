import Verif.Maps.DiscProps
import Verif.Files.Lemmas

/-! # Lemmas about disc queries and the apodisation loops -/

namespace NaMaster

open Real

/-- Query of one ring inside `he_query_disc`. -/
noncomputable def ringQuery (nside : ℕ) (cth0 phi0 cosang : ℝ) (cap : ℤ) (iz : ℕ) : Option (Outcome (List ℤ)) :=
  (discWidth nside cth0 phi0 cosang iz).map fun dphi => heInRing nside iz phi0 dphi cap

theorem heQueryDisc_ok {nside : ℕ} {cth0 phi radius : ℝ} {cap : ℤ} {l : List ℤ}
    (h : heQueryDisc nside cth0 phi radius cap = .ok l) :
    0 ≤ radius ∧ radius ≤ π ∧
    discLoop (ringQuery nside cth0 (wrapPhi phi) (cos (radiusEff nside radius)) cap) cap
      (discRings nside cth0 (radiusEff nside radius)) [] = .ok l := by
  unfold heQueryDisc at h
  simp only at h
  by_cases hr : radius < 0 ∨ radius > π
  · rw [if_pos hr] at h; cases h
  · rw [if_neg hr] at h
    push Not at hr
    exact ⟨hr.1, hr.2, h⟩

/-- Number of a pixel is below the number of pixels. -/
theorem pixNumber_lt (nside r j : ℕ) (hn : 1 ≤ nside) (h1 : 1 ≤ r) (h2 : r ≤ 4 * nside - 1)
    (hj : j < pyNphi nside (r - 1)) : pixNumber nside r j < 12 * nside * nside := by
  obtain ⟨_, g2, _, g4, _⟩ := ring_geom nside r hn h1 h2
  obtain ⟨t1, t2, _⟩ := ring_tables nside r hn h1 h2
  unfold pixNumber
  have : ((pyOffset nside (r - 1) + j : ℕ) : ℤ) < ((12 * nside * nside : ℕ) : ℤ) := by
    push_cast; rw [← t1]; omega
  exact_mod_cast this

theorem discLoop_length {query : ℕ → Option (Outcome (List ℤ))} {cap : ℤ} : ∀ {rings : List ℕ} {acc l : List ℤ},
    (acc.length : ℤ) ≤ cap → discLoop query cap rings acc = .ok l → (l.length : ℤ) ≤ cap := by
  intro rings
  induction rings with
  | nil => intro acc l ha h; unfold discLoop at h; injection h with h; subst h; exact ha
  | cons r rings ih =>
    intro acc l ha h
    unfold discLoop at h
    match hq : query r with
    | none => rw [hq] at h; exact ih ha h
    | some (.ok l') =>
      rw [hq] at h
      simp only at h
      by_cases c : cap < (acc.length : ℤ) + l'.length
      · rw [if_pos c] at h; cases h
      · rw [if_neg c] at h
        exact ih (by rw [List.length_append]; push_cast; omega) h
    | some (.raises e) => rw [hq] at h; cases h
    | some .crash => rw [hq] at h; cases h

theorem discTrace_range {query : ℕ → Option (Outcome (List ℤ))} {cap : ℤ} (hcap : 0 ≤ cap) : ∀ {rings : List ℕ}
    {ilist : ℤ}, (∀ r ∈ rings, ∀ l, query r = some (.ok l) → (l.length : ℤ) ≤ cap) → 0 ≤ ilist → ilist ≤ cap →
    ∀ i ∈ discTrace query cap rings ilist, 0 ≤ i ∧ i < 2 * cap := by
  intro rings
  induction rings with
  | nil => intro ilist _ _ _ i hi; unfold discTrace at hi; cases hi
  | cons r rings ih =>
    intro ilist hq h0 h1 i hi
    unfold discTrace at hi
    have hq' : ∀ r ∈ rings, ∀ l, query r = some (.ok l) → (l.length : ℤ) ≤ cap :=
      fun r' hr' => hq r' (List.mem_cons_of_mem _ hr')
    match e : query r with
    | none => rw [e] at hi; exact ih hq' h0 h1 i hi
    | some (.ok l) =>
      rw [e] at hi
      simp only at hi
      have hl := hq r List.mem_cons_self l e
      rw [List.mem_append] at hi
      rcases hi with hi | hi
      · rw [mem_consec] at hi; omega
      · by_cases c : cap < ilist + l.length
        · rw [if_pos c] at hi; cases hi
        · rw [if_neg c, List.mem_append] at hi
          rcases hi with hi | hi
          · rw [mem_consec] at hi; omega
          · exact ih hq' (by omega) (by omega) i hi
    | some (.raises x) => rw [e] at hi; cases hi
    | some .crash => rw [e] at hi; cases hi

theorem consec_filter_lt {a c : ℤ} {n : ℕ} (h : a + n ≤ c) : (consec a n).filter (fun i => decide (i < c)) = consec a n := by
  rw [List.filter_eq_self]
  intro i hi
  rw [mem_consec] at hi
  simp only [decide_eq_true_eq]
  omega

theorem consec_filter_ge {c : ℤ} {n : ℕ} : (consec c n).filter (fun i => decide (i < c)) = [] := by
  rw [List.filter_eq_nil_iff]
  intro i hi
  rw [mem_consec] at hi
  simp only [decide_eq_true_eq]
  omega

theorem consec_append (a : ℤ) (m n : ℕ) : consec a m ++ consec (a + m) n = consec a ((m + n : ℕ) : ℤ) := by
  unfold consec
  rw [Int.toNat_natCast, Int.toNat_natCast, Int.toNat_natCast, List.range_add, List.map_append, List.map_map]
  congr 1
  apply List.map_congr_left
  intro k _
  simp only [Function.comp]
  push_cast
  ring

/-- The writes to the first half are to consecutive elements, and there are as many as pixels found. -/
theorem discTrace_result {query : ℕ → Option (Outcome (List ℤ))} {cap : ℤ} : ∀ {rings : List ℕ} {acc : List ℤ},
    (acc.length : ℤ) ≤ cap →
    ∃ n : ℕ, (discTrace query cap rings acc.length).filter (fun i => decide (i < cap)) = consec acc.length n ∧
      ∀ l, discLoop query cap rings acc = .ok l → l.length = acc.length + n := by
  intro rings
  induction rings with
  | nil =>
    intro acc ha
    refine ⟨0, rfl, fun l h => ?_⟩
    unfold discLoop at h
    injection h with h
    rw [← h, add_zero]
  | cons r rings ih =>
    intro acc ha
    unfold discTrace discLoop
    match e : query r with
    | none => exact ih ha
    | some (.ok l') =>
      simp only
      rw [List.filter_append, consec_filter_ge, List.nil_append]
      by_cases c : cap < (acc.length : ℤ) + l'.length
      · rw [if_pos c, if_pos c]
        exact ⟨0, rfl, fun l h => by cases h⟩
      · rw [if_neg c, if_neg c, List.filter_append, consec_filter_lt (by omega)]
        obtain ⟨n, h1, h2⟩ := ih (acc := acc ++ l') (by rw [List.length_append]; push_cast; omega)
        rw [List.length_append] at h1 h2
        rw [Nat.cast_add] at h1
        refine ⟨l'.length + n, ?_, fun l h => by rw [h2 l h]; omega⟩
        rw [h1, consec_append]
    | some (.raises x) => exact ⟨0, rfl, fun l h => by cases h⟩
    | some .crash => exact ⟨0, rfl, fun l h => by cases h⟩

/-- Every ring query succeeds if there is room for the whole map, and then so does the disc query. -/
theorem heQueryDisc_total (nside : ℕ) (hn : 1 ≤ nside) (cth0 phi radius : ℝ) (cap : ℤ) (h0 : 0 ≤ radius)
    (h1 : radius ≤ π) (hcap : ((12 * nside * nside : ℕ) : ℤ) ≤ cap) :
    ∃ l, heQueryDisc nside cth0 phi radius cap = .ok l := by
  unfold heQueryDisc
  simp only
  rw [if_neg (by push Not; exact ⟨h0, h1⟩)]
  have hsum : ((discRings nside cth0 (radiusEff nside radius)).map fun r => ((pyNphi nside (r - 1) : ℕ) : ℤ)).sum ≤
      ((12 * nside * nside : ℕ) : ℤ) := by
    have hnd := discRings_nodup nside cth0 (radiusEff nside radius)
    have hr := fun r h => discRings_range nside hn cth0 (radiusEff nside radius) (r := r) h
    generalize discRings nside cth0 (radiusEff nside radius) = rings at *
    have e1 : (rings.map fun r => ((pyNphi nside (r - 1) : ℕ) : ℤ)).sum =
        ∑ r ∈ rings.toFinset, ((pyNphi nside (r - 1) : ℕ) : ℤ) := (List.sum_toFinset _ hnd).symm
    rw [e1]
    have hsub : rings.toFinset ⊆ (Finset.range (4 * nside - 1)).map ⟨(· + 1), add_left_injective 1⟩ := by
      intro r hr'
      rw [List.mem_toFinset] at hr'
      obtain ⟨a, b⟩ := hr r hr'
      rw [Finset.mem_map]
      exact ⟨r - 1, by rw [Finset.mem_range]; omega, by simp; omega⟩
    refine (Finset.sum_le_sum_of_subset_of_nonneg hsub (fun _ _ _ => by positivity)).trans ?_
    rw [Finset.sum_map]
    have := pyOffset_total nside hn
    unfold pyOffset at this
    simp only [Function.Embedding.coeFn_mk, Nat.add_sub_cancel]
    rw [← this]
    push_cast
    exact le_refl _
  have hq : ∀ r ∈ discRings nside cth0 (radiusEff nside radius), ∀ o,
      ringQuery nside cth0 (wrapPhi phi) (cos (radiusEff nside radius)) cap r = some o →
      ∃ l, o = .ok l ∧ (l.length : ℤ) ≤ ((pyNphi nside (r - 1) : ℕ) : ℤ) := by
    intro r hr o ho
    obtain ⟨a, b⟩ := discRings_range nside hn cth0 (radiusEff nside radius) hr
    obtain ⟨_, g2, g3, _, _⟩ := ring_geom nside r hn a b
    obtain ⟨t1, t2, _⟩ := ring_tables nside r hn a b
    unfold ringQuery at ho
    match hw : discWidth nside cth0 (wrapPhi phi) (cos (radiusEff nside radius)) r with
    | none => rw [hw] at ho; cases ho
    | some d =>
      rw [hw] at ho
      injection ho with ho
      have hle : ((pyNphi nside (r - 1) : ℕ) : ℤ) ≤ cap := by
        refine le_trans ?_ (hsum.trans hcap)
        have : ((pyNphi nside (r - 1) : ℕ) : ℤ) ∈
            (discRings nside cth0 (radiusEff nside radius)).map fun r => ((pyNphi nside (r - 1) : ℕ) : ℤ) :=
          List.mem_map.2 ⟨r, hr, rfl⟩
        exact List.single_le_sum (by
          intro x hx
          obtain ⟨y, _, rfl⟩ := List.mem_map.1 hx
          positivity) _ this
      obtain ⟨l, hl⟩ := heInRing_ok (nside := nside) (iz := r) (phi0 := wrapPhi phi) (dphi := d) (cap := cap) g2
        (by omega) (by rw [t2]; exact hle)
      have := C47_only_ring nside r hn a b (wrapPhi phi) d cap l hl
      exact ⟨l, by rw [← ho]; exact hl, by exact_mod_cast this.2.2.1⟩
  exact discLoop_total (query := ringQuery nside cth0 (wrapPhi phi) (cos (radiusEff nside radius)) cap)
    (fun r => ((pyNphi nside (r - 1) : ℕ) : ℤ)) (fun _ _ => by positivity) hq (by simpa using hsum.trans hcap)

/-! ## Weight function -/

theorem apoF_range (c2 : Bool) (x : ℝ) (h0 : 0 ≤ x) (h1 : x ≤ 1) : 0 ≤ apoF c2 x ∧ apoF c2 x ≤ 1 := by
  have hpi := pi_pos
  unfold apoF
  split_ifs
  · have := cos_le_one (x * π)
    have := neg_one_le_cos (x * π)
    constructor <;> linarith
  · have a : sin (x * 2 * π) / (2 * π) ≤ x := by
      rw [div_le_iff₀ (by positivity)]
      have := sin_le (x := x * 2 * π) (by positivity)
      linarith
    have b : -(1 - x) ≤ sin (x * 2 * π) / (2 * π) := by
      rw [le_div_iff₀ (by positivity)]
      have e : sin ((1 - x) * 2 * π) = - sin (x * 2 * π) := by
        rw [show (1 - x) * 2 * π = 2 * π - x * 2 * π by ring, sin_two_pi_sub]
      have := sin_le (x := (1 - x) * 2 * π) (mul_nonneg (by linarith) hpi.le)
      linarith
    constructor <;> linarith

/-! ## Loops -/

/-- Factor applied to pixel `ip` by the C1 and C2 apodisations, independent of the values written before. -/
noncomputable def apoFac (nside : ℕ) (vec : ℕ → ℝ × ℝ × ℝ) (mask : ℕ → ℝ) (aporad : ℝ) (c2 : Bool) (lenlist0 : ℤ)
    (ip : ℕ) : Option ℝ :=
  if mask ip > 0 then
    match heQueryDisc nside (vec ip).2.2 (vecPhi (vec ip)) (1.2 * aporad) (lenlist0 / 2) with
    | .ok l =>
      if nearestZero vec mask (vec ip) l < 1 - cos aporad then
        some (if nearestZero vec mask (vec ip) l ≤ 0 then 0 else
          apoF c2 (sqrt (nearestZero vec mask (vec ip) l * (1 / (1 - cos aporad)))))
      else some 1
    | _ => none
  else some 1

theorem update_mul_one (out : ℕ → ℝ) (ip : ℕ) : Function.update out ip (out ip * 1) = out := by
  rw [mul_one, Function.update_eq_self]

theorem apoStepCX_eq (nside : ℕ) (vec : ℕ → ℝ × ℝ × ℝ) (mask : ℕ → ℝ) (aporad : ℝ) (c2 : Bool) (lenlist0 : ℤ)
    (out : ℕ → ℝ) (ip : ℕ) :
    apoStepCX nside vec mask aporad c2 lenlist0 out ip =
      match apoFac nside vec mask aporad c2 lenlist0 ip with
      | some f => .ok (Function.update out ip (out ip * f))
      | none => .crash := by
  unfold apoStepCX apoFac
  by_cases h : mask ip > 0
  · rw [if_pos h, if_pos h]
    match heQueryDisc nside (vec ip).2.2 (vecPhi (vec ip)) (1.2 * aporad) (lenlist0 / 2) with
    | .ok l =>
      simp only
      by_cases c : nearestZero vec mask (vec ip) l < 1 - cos aporad
      · rw [if_pos c, if_pos c]
      · rw [if_neg c, if_neg c]; simp only; rw [update_mul_one]
    | .raises e => rfl
    | .crash => rfl
  · rw [if_neg h, if_neg h]; simp only; rw [update_mul_one]

/-- A loop whose iteration `ip` multiplies element `ip` by a factor that depends on `ip` only. -/
theorem apoLoop_fac {step : (ℕ → ℝ) → ℕ → Outcome (ℕ → ℝ)} (fac : ℕ → Option ℝ)
    (hstep : ∀ s ip, step s ip = match fac ip with
      | some f => .ok (Function.update s ip (s ip * f))
      | none => .crash) : ∀ (order : List ℕ), order.Nodup → ∀ s : ℕ → ℝ,
    ((∃ ip ∈ order, fac ip = none) ∧ apoLoop step order s = .crash) ∨
    ((∀ ip ∈ order, fac ip ≠ none) ∧
      apoLoop step order s = .ok fun p => if p ∈ order then s p * (fac p).getD 1 else s p) := by
  intro order
  induction order with
  | nil => intro _ s; right; exact ⟨by simp, by simp [apoLoop]⟩
  | cons ip rest ih =>
    intro hnd s
    rw [List.nodup_cons] at hnd
    unfold apoLoop
    rw [hstep]
    match hf : fac ip with
    | none => left; exact ⟨⟨ip, List.mem_cons_self, hf⟩, rfl⟩
    | some f =>
      simp only [Outcome.bind]
      rcases ih hnd.2 (Function.update s ip (s ip * f)) with ⟨⟨q, hq, hn⟩, h⟩ | ⟨hall, h⟩
      · left; exact ⟨⟨q, List.mem_cons_of_mem _ hq, hn⟩, h⟩
      · right
        refine ⟨?_, ?_⟩
        · intro q hq
          rcases List.mem_cons.1 hq with rfl | hq
          · rw [hf]; simp
          · exact hall q hq
        · rw [h]
          congr 1
          funext p
          by_cases hp : p = ip
          · subst hp
            rw [if_neg hnd.1, if_pos List.mem_cons_self, Function.update_self, hf]
            rfl
          · rw [Function.update_of_ne hp]
            simp only [List.mem_cons, hp, false_or]

/-- Pixels set to zero by iteration `ip` of the "Smooth" apodisation. -/
noncomputable def zeroedBy (nside : ℕ) (vec : ℕ → ℝ × ℝ × ℝ) (mask : ℕ → ℝ) (aporad : ℝ) (lenlist0 : ℤ)
    (ip : ℕ) : Option (List ℤ) :=
  if mask ip ≤ 0 then
    match heQueryDisc nside (vec ip).2.2 (vecPhi (vec ip)) (2.5 * aporad) (lenlist0 / 2) with
    | .ok l => some l
    | _ => none
  else some []

theorem foldl_zero (l : List ℤ) : ∀ (o : ℕ → ℝ),
    l.foldl (fun (o : ℕ → ℝ) ip2 => Function.update o ip2.toNat (o ip2.toNat * 0)) o =
      fun p => if ∃ q ∈ l, q.toNat = p then 0 else o p := by
  induction l with
  | nil => intro o; simp
  | cons a l ih =>
    intro o
    rw [List.foldl_cons, ih]
    funext p
    by_cases h : ∃ q ∈ l, q.toNat = p
    · rw [if_pos h, if_pos (by obtain ⟨q, hq, e⟩ := h; exact ⟨q, List.mem_cons_of_mem _ hq, e⟩)]
    · rw [if_neg h]
      by_cases e : a.toNat = p
      · rw [if_pos ⟨a, List.mem_cons_self, e⟩, ← e, Function.update_self, mul_zero]
      · rw [if_neg, Function.update_of_ne (Ne.symm e)]
        rintro ⟨q, hq, e'⟩
        rcases List.mem_cons.1 hq with rfl | hq
        · exact e e'
        · exact h ⟨q, hq, e'⟩

theorem apoStepSmooth_eq (nside : ℕ) (vec : ℕ → ℝ × ℝ × ℝ) (mask : ℕ → ℝ) (aporad : ℝ) (lenlist0 : ℤ)
    (out : ℕ → ℝ) (ip : ℕ) :
    apoStepSmooth nside vec mask aporad lenlist0 out ip =
      match zeroedBy nside vec mask aporad lenlist0 ip with
      | some l => .ok fun p => if ∃ q ∈ l, q.toNat = p then 0 else out p
      | none => .crash := by
  unfold apoStepSmooth zeroedBy
  by_cases h : mask ip ≤ 0
  · rw [if_pos h, if_pos h]
    match heQueryDisc nside (vec ip).2.2 (vecPhi (vec ip)) (2.5 * aporad) (lenlist0 / 2) with
    | .ok l => simp only [foldl_zero]
    | .raises e => rfl
    | .crash => rfl
  · rw [if_neg h, if_neg h]; simp

open Classical in
/-- A loop whose iterations set pixels to zero. -/
theorem apoLoop_zero {step : (ℕ → ℝ) → ℕ → Outcome (ℕ → ℝ)} (zs : ℕ → Option (List ℤ))
    (hstep : ∀ s ip, step s ip = match zs ip with
      | some l => .ok fun p => if ∃ q ∈ l, q.toNat = p then 0 else s p
      | none => .crash) : ∀ (order : List ℕ) (s : ℕ → ℝ),
    ((∃ ip ∈ order, zs ip = none) ∧ apoLoop step order s = .crash) ∨
    ((∀ ip ∈ order, zs ip ≠ none) ∧
      apoLoop step order s = .ok fun p =>
        if ∃ ip ∈ order, ∃ l, zs ip = some l ∧ ∃ q ∈ l, q.toNat = p then 0 else s p) := by
  intro order
  induction order with
  | nil => intro s; right; exact ⟨by simp, by simp [apoLoop]⟩
  | cons ip rest ih =>
    intro s
    unfold apoLoop
    rw [hstep]
    match hf : zs ip with
    | none => left; exact ⟨⟨ip, List.mem_cons_self, hf⟩, rfl⟩
    | some l =>
      simp only [Outcome.bind]
      rcases ih (fun p => if ∃ q ∈ l, q.toNat = p then 0 else s p) with ⟨⟨q, hq, hn⟩, h⟩ | ⟨hall, h⟩
      · left; exact ⟨⟨q, List.mem_cons_of_mem _ hq, hn⟩, h⟩
      · right
        refine ⟨?_, ?_⟩
        · intro q hq
          rcases List.mem_cons.1 hq with rfl | hq
          · rw [hf]; simp
          · exact hall q hq
        · rw [h]
          congr 1
          funext p
          by_cases c : ∃ ip ∈ rest, ∃ l, zs ip = some l ∧ ∃ q ∈ l, q.toNat = p
          · obtain ⟨a, b, c'⟩ := c
            rw [if_pos ⟨a, b, c'⟩, if_pos ⟨a, List.mem_cons_of_mem _ b, c'⟩]
          · rw [if_neg c]
            by_cases d : ∃ q ∈ l, q.toNat = p
            · rw [if_pos d, if_pos ⟨ip, List.mem_cons_self, l, hf, d⟩]
            · rw [if_neg d, if_neg]
              rintro ⟨a, b, l', hl', e⟩
              rcases List.mem_cons.1 b with rfl | b
              · rw [hf] at hl'; injection hl' with hl'; subst hl'; exact d e
              · exact c ⟨a, b, l', hl', e⟩

/-! ## Nearest zero -/

theorem nearestZero_spec (vec : ℕ → ℝ × ℝ × ℝ) (mask : ℕ → ℝ) (v0 : ℝ × ℝ × ℝ) (l : List ℤ) :
    (∀ q ∈ l, mask q.toNat ≤ 0 → nearestZero vec mask v0 l ≤ x2sep v0 (vec q.toNat)) ∧
    (nearestZero vec mask v0 l = 1000 ∨
      ∃ q ∈ l, mask q.toNat ≤ 0 ∧ nearestZero vec mask v0 l = x2sep v0 (vec q.toNat)) := by
  unfold nearestZero
  generalize (1000:ℝ) = x
  suffices H : ∀ x : ℝ,
      (l.foldl (fun x2dist ip2 => if mask ip2.toNat ≤ 0 then
        let x2 := x2sep v0 (vec ip2.toNat); if x2 < x2dist then x2 else x2dist else x2dist) x ≤ x ∧
      ∀ q ∈ l, mask q.toNat ≤ 0 → l.foldl (fun x2dist ip2 => if mask ip2.toNat ≤ 0 then
        let x2 := x2sep v0 (vec ip2.toNat); if x2 < x2dist then x2 else x2dist else x2dist) x ≤ x2sep v0 (vec q.toNat)) ∧
      (l.foldl (fun x2dist ip2 => if mask ip2.toNat ≤ 0 then
        let x2 := x2sep v0 (vec ip2.toNat); if x2 < x2dist then x2 else x2dist else x2dist) x = x ∨
      ∃ q ∈ l, mask q.toNat ≤ 0 ∧ l.foldl (fun x2dist ip2 => if mask ip2.toNat ≤ 0 then
        let x2 := x2sep v0 (vec ip2.toNat); if x2 < x2dist then x2 else x2dist else x2dist) x = x2sep v0 (vec q.toNat)) from
    ⟨(H x).1.2, (H x).2⟩
  induction l with
  | nil => intro x; simp
  | cons a l ih =>
    intro x
    simp only [List.foldl_cons]
    by_cases ha : mask a.toNat ≤ 0
    · rw [if_pos ha]
      by_cases c : x2sep v0 (vec a.toNat) < x
      · simp only [if_pos c]
        obtain ⟨⟨i1, i2⟩, i3⟩ := ih (x2sep v0 (vec a.toNat))
        refine ⟨⟨i1.trans c.le, ?_⟩, ?_⟩
        · intro q hq hm
          rcases List.mem_cons.1 hq with rfl | hq
          · exact i1
          · exact i2 q hq hm
        · right
          rcases i3 with i3 | ⟨q, hq, hm, e⟩
          · exact ⟨a, List.mem_cons_self, ha, i3⟩
          · exact ⟨q, List.mem_cons_of_mem _ hq, hm, e⟩
      · simp only [if_neg c]
        obtain ⟨⟨i1, i2⟩, i3⟩ := ih x
        refine ⟨⟨i1, ?_⟩, ?_⟩
        · intro q hq hm
          rcases List.mem_cons.1 hq with rfl | hq
          · exact i1.trans (not_lt.1 c)
          · exact i2 q hq hm
        · rcases i3 with i3 | ⟨q, hq, hm, e⟩
          · exact Or.inl i3
          · exact Or.inr ⟨q, List.mem_cons_of_mem _ hq, hm, e⟩
    · rw [if_neg ha]
      obtain ⟨⟨i1, i2⟩, i3⟩ := ih x
      refine ⟨⟨i1, ?_⟩, ?_⟩
      · intro q hq hm
        rcases List.mem_cons.1 hq with rfl | hq
        · exact absurd hm ha
        · exact i2 q hq hm
      · rcases i3 with i3 | ⟨q, hq, hm, e⟩
        · exact Or.inl i3
        · exact Or.inr ⟨q, List.mem_cons_of_mem _ hq, hm, e⟩

theorem apoFac_range {nside : ℕ} {vec : ℕ → ℝ × ℝ × ℝ} {mask : ℕ → ℝ} {aporad : ℝ} {c2 : Bool} {lenlist0 : ℤ}
    {ip : ℕ} {f : ℝ} (h : apoFac nside vec mask aporad c2 lenlist0 ip = some f) :
    0 ≤ f ∧ f ≤ 1 ∧ (mask ip ≤ 0 → f = 1) := by
  unfold apoFac at h
  by_cases hm : mask ip > 0
  · rw [if_pos hm] at h
    refine (fun (x : 0 ≤ f ∧ f ≤ 1) => ⟨x.1, x.2, fun c => absurd hm (not_lt.2 c)⟩) ?_
    match hq : heQueryDisc nside (vec ip).2.2 (vecPhi (vec ip)) (1.2 * aporad) (lenlist0 / 2) with
    | .ok l =>
      rw [hq] at h
      simp only at h
      generalize nearestZero vec mask (vec ip) l = x at h
      by_cases c : x < 1 - cos aporad
      · rw [if_pos c] at h
        injection h with h
        rw [← h]
        by_cases c0 : x ≤ 0
        · rw [if_pos c0]; norm_num
        · rw [if_neg c0]
          push Not at c0
          apply apoF_range _ _ (sqrt_nonneg _)
          rw [sqrt_le_one, mul_one_div, div_le_one (by linarith)]
          exact c.le
      · rw [if_neg c] at h; injection h with h; rw [← h]; norm_num
    | .raises e => rw [hq] at h; cases h
    | .crash => rw [hq] at h; cases h
  · rw [if_neg hm] at h; injection h with h; rw [← h]; norm_num

end NaMaster
