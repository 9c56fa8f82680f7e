import Verif.Maps.DiscLemmas
import Verif.Maps.Props

/-! # Auxiliary results on disc queries -/

namespace NaMaster

open Real

/-! ## The list of a disc -/

theorem discLoop_ok {query : ℕ → Option (Outcome (List ℤ))} {cap : ℤ} : ∀ {rings : List ℕ} {acc l : List ℤ},
    discLoop query cap rings acc = .ok l →
    acc ⊆ l ∧ (∀ r ∈ rings, ∀ o, query r = some o → ∃ l', o = .ok l' ∧ l' ⊆ l) ∧
    (∀ p ∈ l, p ∈ acc ∨ ∃ r ∈ rings, ∃ l', query r = some (.ok l') ∧ p ∈ l') := by
  intro rings
  induction rings with
  | nil =>
    intro acc l h
    unfold discLoop at h
    injection h with h
    subst h
    exact ⟨fun _ h => h, by simp, fun p hp => Or.inl hp⟩
  | cons r rings ih =>
    intro acc l h
    unfold discLoop at h
    cases hq : query r with
    | none =>
      rw [hq] at h
      obtain ⟨a, b, c⟩ := ih h
      refine ⟨a, ?_, ?_⟩
      · intro r' hr' o ho
        rcases List.mem_cons.mp hr' with e | e
        · subst e; rw [hq] at ho; cases ho
        · exact b r' e o ho
      · intro p hp
        rcases c p hp with e | ⟨r', e, l', x, y⟩
        · exact Or.inl e
        · exact Or.inr ⟨r', List.mem_cons_of_mem _ e, l', x, y⟩
    | some o =>
      rw [hq] at h
      cases o with
      | ok l1 =>
        simp only at h
        split_ifs at h with hc
        obtain ⟨a, b, c⟩ := ih h
        refine ⟨fun p hp => a (List.mem_append_left _ hp), ?_, ?_⟩
        · intro r' hr' o ho
          rcases List.mem_cons.mp hr' with e | e
          · subst e
            rw [hq] at ho
            injection ho with ho
            exact ⟨l1, ho.symm, fun p hp => a (List.mem_append_right _ hp)⟩
          · exact b r' e o ho
        · intro p hp
          rcases c p hp with e | ⟨r', e, l', x, y⟩
          · rcases List.mem_append.mp e with e | e
            · exact Or.inl e
            · exact Or.inr ⟨r, List.mem_cons_self, l1, hq, e⟩
          · exact Or.inr ⟨r', List.mem_cons_of_mem _ e, l', x, y⟩
      | raises e => cases h
      | crash => cases h

/-- With room for all pixels the loop ends without error. -/
theorem discLoop_total {query : ℕ → Option (Outcome (List ℤ))} {cap : ℤ} (size : ℕ → ℤ) : ∀ {rings : List ℕ}
    {acc : List ℤ},
    (∀ r ∈ rings, 0 ≤ size r) →
    (∀ r ∈ rings, ∀ o, query r = some o → ∃ l, o = .ok l ∧ (l.length : ℤ) ≤ size r) →
    (acc.length : ℤ) + (rings.map size).sum ≤ cap → ∃ l, discLoop query cap rings acc = .ok l := by
  intro rings
  induction rings with
  | nil => intro acc _ _ _; exact ⟨acc, rfl⟩
  | cons r rings ih =>
    intro acc h0 hq hs
    have hpos : 0 ≤ (rings.map size).sum := List.sum_nonneg (by
      intro x hx
      obtain ⟨r', hr', rfl⟩ := List.mem_map.mp hx
      exact h0 r' (List.mem_cons_of_mem _ hr'))
    rw [List.map_cons, List.sum_cons] at hs
    unfold discLoop
    cases h : query r with
    | none =>
      have := h0 r List.mem_cons_self
      exact ih (fun r' h' => h0 r' (List.mem_cons_of_mem _ h')) (fun r' h' => hq r' (List.mem_cons_of_mem _ h'))
        (by omega)
    | some o =>
      obtain ⟨l, rfl, hl⟩ := hq r List.mem_cons_self o h
      simp only
      rw [if_neg (by omega)]
      exact ih (fun r' h' => h0 r' (List.mem_cons_of_mem _ h')) (fun r' h' => hq r' (List.mem_cons_of_mem _ h'))
        (by rw [List.length_append]; push_cast; omega)

theorem discRings_range (nside : ℕ) (hn : 1 ≤ nside) (cth0 reff : ℝ) {r : ℕ} (h : r ∈ discRings nside cth0 reff) :
    1 ≤ r ∧ r ≤ 4 * nside - 1 := by
  unfold discRings at h
  simp only at h
  rw [List.mem_range'_1] at h
  generalize heRingNum nside (if arcsin cth0 + reff ≥ 0.5 * π then 1 else sin (arcsin cth0 + reff)) = a at h
  generalize heRingNum nside (if arcsin cth0 - reff ≤ -0.5 * π then -1 else sin (arcsin cth0 - reff)) = b at h
  split_ifs at h <;> omega

theorem discRings_nodup (nside : ℕ) (cth0 reff : ℝ) : (discRings nside cth0 reff).Nodup := by
  unfold discRings
  exact List.nodup_range' (step := 1)

/-- Every ring whose latitude is within the disc is visited. -/
theorem discRings_mem (nside : ℕ) (hn : 1 ≤ nside) (hN : nside ≤ 65536) (cth0 reff : ℝ)
    {r : ℕ} (h1 : 1 ≤ r) (h2 : r ≤ 4 * nside - 1)
    (hlat : |arcsin (ringZ nside r) - arcsin cth0| ≤ reff) : r ∈ discRings nside cth0 reff := by
  obtain ⟨hz1, hz2⟩ := ringZ_range nside r hn h1 h2
  have hs := sin_arcsin hz1 hz2
  have hle := arcsin_le_pi_div_two (ringZ nside r)
  have hge := neg_pi_div_two_le_arcsin (ringZ nside r)
  rw [abs_le] at hlat
  have hmax : ringZ nside r ≤ (if arcsin cth0 + reff ≥ 0.5 * π then 1 else sin (arcsin cth0 + reff)) := by
    split_ifs with h
    · exact hz2
    · rw [← hs]
      apply sin_le_sin_of_le_of_le_pi_div_two hge (by linarith) (by linarith)
  have hmax1 : (if arcsin cth0 + reff ≥ 0.5 * π then 1 else sin (arcsin cth0 + reff)) ≤ 1 := by
    split_ifs
    · exact le_refl _
    · exact sin_le_one _
  have hmin : (if arcsin cth0 - reff ≤ -0.5 * π then -1 else sin (arcsin cth0 - reff)) ≤ ringZ nside r := by
    split_ifs with h
    · exact hz1
    · rw [← hs]
      apply sin_le_sin_of_le_of_le_pi_div_two (by linarith) hle (by linarith)
  have hmin1 : -1 ≤ (if arcsin cth0 - reff ≤ -0.5 * π then -1 else sin (arcsin cth0 - reff)) := by
    split_ifs
    · exact le_refl _
    · exact neg_one_le_sin _
  have key := C32_ring_number_mono nside r hn hN h1 h2 _ _ hmin1 hmax1 ⟨hmin, hmax⟩
  unfold discRings
  simp only
  rw [List.mem_range'_1]
  generalize heRingNum nside (if arcsin cth0 + reff ≥ 0.5 * π then 1 else sin (arcsin cth0 + reff)) = a at *
  generalize heRingNum nside (if arcsin cth0 - reff ≤ -0.5 * π then -1 else sin (arcsin cth0 - reff)) = b at *
  split_ifs <;> omega

/-! ## Angles -/

/-- An angle whose cosine is at least that of `d` is within `d` of a multiple of `2π`. -/
theorem exists_turn {x d : ℝ} (h0 : 0 ≤ d) (h1 : d ≤ π) (h : cos d ≤ cos x) : ∃ k : ℤ, |x + 2 * π * k| ≤ d := by
  have hpi := pi_pos
  refine ⟨-round (x / (2 * π)), ?_⟩
  have hr := abs_sub_round (x / (2 * π))
  have hx : |x + 2 * π * ((-round (x / (2 * π)) : ℤ) : ℝ)| ≤ π := by
    have e : x + 2 * π * ((-round (x / (2 * π)) : ℤ) : ℝ) = 2 * π * (x / (2 * π) - round (x / (2 * π))) := by
      push_cast; field_simp; ring
    rw [e, abs_mul, abs_of_pos (by positivity)]
    nlinarith
  have hc : cos |x + 2 * π * ((-round (x / (2 * π)) : ℤ) : ℝ)| = cos x := by
    rw [cos_abs, mul_comm (2 * π), cos_add_int_mul_two_pi]
  by_contra hne
  push Not at hne
  have := cos_lt_cos_of_nonneg_of_le_pi h0 hx hne
  rw [hc] at this
  linarith

theorem ringZ_strict (n r : ℕ) (hn : 1 ≤ n) (h1 : 1 ≤ r) (h2 : r ≤ 4 * n - 1) : ringZ n r * ringZ n r < 1 := by
  have hn0 : (0:ℝ) < n := by exact_mod_cast (by omega : 0 < n)
  have hr0 : (1:ℝ) ≤ r := by exact_mod_cast h1
  have hr1 : (r:ℝ) + 1 ≤ 4 * n := by exact_mod_cast (by omega : r + 1 ≤ 4 * n)
  have main : -1 < ringZ n r ∧ ringZ n r < 1 := by
    unfold ringZ
    by_cases a : r < n
    · rw [if_pos a]
      have hlt : (r:ℝ) + 1 ≤ n := by exact_mod_cast a
      have e1 : 0 < (r:ℝ) * r * (1 / (3 * (n:ℝ) * n)) := by positivity
      have e2 : (r:ℝ) * r * (1 / (3 * (n:ℝ) * n)) < 1 := by
        rw [mul_one_div, div_lt_one (by positivity)]; nlinarith
      constructor <;> linarith
    · rw [if_neg a]
      by_cases b : r ≤ 3 * n
      · rw [if_pos b]
        have hge : (n:ℝ) ≤ r := by exact_mod_cast (by omega : n ≤ r)
        have hle : (r:ℝ) ≤ 3 * n := by exact_mod_cast b
        rw [mul_div_assoc']
        constructor
        · rw [lt_div_iff₀ (by positivity)]; linarith
        · rw [div_lt_one (by positivity)]; linarith
      · rw [if_neg b]
        have hlt : 3 * (n:ℝ) + 1 ≤ r := by exact_mod_cast (by omega : 3 * n + 1 ≤ r)
        have hpos : 0 < 4 * (n:ℝ) - r := by linarith
        have e1 : 0 < (4 * (n:ℝ) - r) * (4 * n - r) * (1 / (3 * (n:ℝ) * n)) := by positivity
        have e2 : (4 * (n:ℝ) - r) * (4 * n - r) * (1 / (3 * (n:ℝ) * n)) < 1 := by
          rw [mul_one_div, div_lt_one (by positivity)]; nlinarith
        constructor <;> linarith
  nlinarith [main.1, main.2]

/-- Cosine of the separation of two points given by their heights and the difference of their azimuths. -/
noncomputable def cosSep (z z0 dphi : ℝ) : ℝ := z * z0 + sqrt (1 - z * z) * sqrt (1 - z0 * z0) * cos dphi

/-- Difference of latitudes is at most the separation. -/
theorem lat_of_sep {z z0 dphi d : ℝ} (hz : z * z < 1) (hz0 : z0 * z0 < 1) (hd0 : 0 ≤ d) (hd : d ≤ π)
    (h : cos d ≤ cosSep z z0 dphi) : |arcsin z - arcsin z0| ≤ d := by
  have a1 : -1 ≤ z ∧ z ≤ 1 := by constructor <;> nlinarith
  have a2 : -1 ≤ z0 ∧ z0 ≤ 1 := by constructor <;> nlinarith
  have hc : cos (arcsin z - arcsin z0) = z * z0 + sqrt (1 - z * z) * sqrt (1 - z0 * z0) := by
    rw [cos_sub, sin_arcsin a1.1 a1.2, sin_arcsin a2.1 a2.2, cos_arcsin, cos_arcsin, sq, sq]; ring
  have hle : cos d ≤ cos |arcsin z - arcsin z0| := by
    rw [cos_abs, hc]
    have : sqrt (1 - z * z) * sqrt (1 - z0 * z0) * cos dphi ≤ sqrt (1 - z * z) * sqrt (1 - z0 * z0) :=
      mul_le_of_le_one_right (by positivity) (cos_le_one _)
    unfold cosSep at h
    linarith
  have b1 := arcsin_le_pi_div_two z
  have b2 := neg_pi_div_two_le_arcsin z
  have b3 := arcsin_le_pi_div_two z0
  have b4 := neg_pi_div_two_le_arcsin z0
  have hx : |arcsin z - arcsin z0| ≤ π := by rw [abs_le]; constructor <;> linarith
  by_contra hne
  push Not at hne
  have := cos_lt_cos_of_nonneg_of_le_pi hd0 hx hne
  linarith

/-- Width of the disc on a ring that contains a point of the disc. -/
theorem discWidth_of_sep {nside r : ℕ} {z0 phi0 cosang delta : ℝ} (hz : ringZ nside r * ringZ nside r < 1)
    (hz0 : z0 * z0 < 1) (h : cosang ≤ cosSep (ringZ nside r) z0 delta) :
    ∃ dphi, discWidth nside z0 phi0 cosang r = some dphi ∧ 0 ≤ dphi ∧ dphi ≤ π ∧ cos dphi ≤ cos delta := by
  have hac : 0 < (1 - z0 * z0) * (1 - ringZ nside r * ringZ nside r) := mul_pos (by linarith) (by linarith)
  have hs : 0 < sqrt ((1 - z0 * z0) * (1 - ringZ nside r * ringZ nside r)) := sqrt_pos.mpr hac
  have hq : (cosang - ringZ nside r * z0) / sqrt ((1 - z0 * z0) * (1 - ringZ nside r * ringZ nside r)) ≤ cos delta := by
    rw [div_le_iff₀ hs, sqrt_mul (by linarith)]
    unfold cosSep at h
    nlinarith
  unfold discWidth
  simp only
  have hne : ¬ (z0 = 1 ∨ (1 - z0 * z0) * (1 - ringZ nside r * ringZ nside r) = 0) := by
    rintro (e | e)
    · rw [e] at hz0; linarith
    · linarith
  rw [if_neg hne]
  split_ifs with h1 h2
  · rw [abs_le] at h1
    exact ⟨_, rfl, arccos_nonneg _, arccos_le_pi _, by rw [cos_arccos h1.1 h1.2]; exact hq⟩
  · exfalso
    apply h1
    rw [abs_le]
    have := neg_one_le_cos phi0
    have := cos_le_one delta
    constructor <;> linarith
  · exact ⟨π, rfl, pi_pos.le, le_refl _, by rw [cos_pi]; exact neg_one_le_cos _⟩

theorem wrapPhi_turn (phi : ℝ) : ∃ k : ℤ, wrapPhi phi = phi + k * (2 * π) := by
  unfold wrapPhi
  split_ifs
  · exact ⟨-⌈phi / (2 * π) - 1⌉, by push_cast; ring⟩
  · exact ⟨⌈-phi / (2 * π)⌉, by push_cast; ring⟩
  · exact ⟨0, by push_cast; ring⟩

theorem cos_sub_wrapPhi (x phi : ℝ) : cos (x - wrapPhi phi) = cos (x - phi) := by
  obtain ⟨k, hk⟩ := wrapPhi_turn phi
  rw [hk, ← sub_sub]
  have : x - phi - k * (2 * π) = x - phi + ((-k : ℤ) : ℝ) * (2 * π) := by push_cast; ring
  rw [this, cos_add_int_mul_two_pi]

end NaMaster
