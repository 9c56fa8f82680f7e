import Verif.Maps.NearestProps

/-! # C47 for discs centred on a pole -/

namespace NaMaster

open Real

/-- C47: the disc around a pole (`s = 1` north, `s = -1` south) consists of exactly the pixels with centres within the radius, enlarged by
the allowance for the size of pixels. (Discs around other points: `C47_complete_partial`, `C47_wrong`.) -/
theorem C47_disc_at_pole (nside : ℕ) (hn : 1 ≤ nside) (hN : nside ≤ 65536) (s : ℝ) (hs : s = 1 ∨ s = -1) (phi radius : ℝ) (cap : ℤ) (l : List ℤ)
    (h : heQueryDisc nside s phi radius cap = .ok l) (hr : radius + 1.071 * π / (4 * nside) ≤ π) (r j : ℕ) (h1 : 1 ≤ r)
    (h2 : r ≤ 4 * nside - 1) (hj : j < pyNphi nside (r - 1)) :
    (pixNumber nside r j : ℤ) ∈ l ↔ cos (radius + 1.071 * π / (4 * nside)) ≤ s * cos (pyTheta nside (r - 1)) := by
  obtain ⟨h0, -, hl⟩ := heQueryDisc_ok h
  obtain ⟨-, hsub, hall⟩ := discLoop_ok hl
  have ec := (sin_pyTheta nside r hn h1 h2).1
  have hs2 : s * s = 1 := by rcases hs with rfl | rfl <;> norm_num
  have hd : ∀ iz, discWidth nside s (wrapPhi phi) (cos (radiusEff nside radius)) iz =
      if cos (radiusEff nside radius) - ringZ nside iz * s > 0 then none else some π := by
    intro iz
    unfold discWidth
    simp only
    rw [if_pos (Or.inr (by rw [hs2]; ring))]
  rw [ec]
  change _ ↔ cos (radiusEff nside radius) ≤ _
  constructor
  · intro hp
    rcases hall _ hp with hp | ⟨r', hr', l', hq, hp⟩
    · cases hp
    obtain ⟨a, b⟩ := discRings_range nside hn _ _ hr'
    unfold ringQuery at hq
    rw [hd] at hq
    by_cases hb : cos (radiusEff nside radius) - ringZ nside r' * s > 0
    · rw [if_pos hb] at hq; cases hq
    rw [if_neg hb] at hq
    injection hq with hq
    obtain ⟨-, -, -, hm⟩ := C47_only_ring nside r' hn a b _ _ _ _ hq
    obtain ⟨j', hj', e⟩ := hm _ hp
    obtain ⟨rfl, -⟩ := pixNumber_inj hn h1 h2 hj a b hj' (by exact_mod_cast e)
    push Not at hb
    linarith [mul_comm s (ringZ nside r)]
  · intro hc
    have hR0 : 0 ≤ radiusEff nside radius := by unfold radiusEff; positivity
    have hR : radiusEff nside radius ≤ π := hr
    have hmem : r ∈ discRings nside s (radiusEff nside radius) := by
      refine discRings_mem nside hn hN _ _ h1 h2 ?_
      have hz := ringZ_range nside r hn h1 h2
      have hle := arcsin_le_pi_div_two (ringZ nside r)
      have hge := neg_pi_div_two_le_arcsin (ringZ nside r)
      by_contra hlt
      push Not at hlt
      have key : s * ringZ nside r < cos (radiusEff nside radius) := by
        rcases hs with rfl | rfl
        · rw [arcsin_one, abs_of_nonpos (by linarith)] at hlt
          have := cos_lt_cos_of_nonneg_of_le_pi hR0 (by linarith : π / 2 - arcsin (ringZ nside r) ≤ π) (by linarith)
          rw [cos_pi_div_two_sub, sin_arcsin hz.1 hz.2] at this
          linarith
        · rw [arcsin_neg_one, abs_of_nonneg (by linarith)] at hlt
          have := cos_lt_cos_of_nonneg_of_le_pi hR0 (by linarith : arcsin (ringZ nside r) + π / 2 ≤ π) (by linarith)
          rw [cos_add_pi_div_two, sin_arcsin hz.1 hz.2] at this
          linarith
      linarith
    obtain ⟨l', hl', hsl⟩ := hsub r hmem (heInRing nside r (wrapPhi phi) π cap) (by
      unfold ringQuery
      rw [hd, if_neg (by push Not; linarith [mul_comm s (ringZ nside r)])]
      rfl)
    apply hsl
    obtain ⟨_, g2, g3, _, _⟩ := ring_geom nside r hn h1 h2
    obtain ⟨t1, t2, _⟩ := ring_tables nside r hn h1 h2
    obtain ⟨-, -, -, d⟩ := heInRing_all hl' (by norm_num) g2 (by omega)
    have en : (pixNumber nside r j : ℤ) = (inRingGeom nside r).1 + j := by
      unfold pixNumber; rw [t1]; push_cast; rfl
    rw [en, d, t2]
    omega

/-- For 48 pixels and a radius of 60 degrees around the north pole, the first pixel is listed and the last is not. -/
example : ∃ l, heQueryDisc 2 1 0 (π / 3) 48 = .ok l ∧ (0 : ℤ) ∈ l ∧ (47 : ℤ) ∉ l := by
  have hpi := pi_pos
  obtain ⟨l, hl⟩ := heQueryDisc_total 2 (by norm_num) 1 0 (π / 3) 48 (by positivity) (by linarith) (by norm_num)
  have key := C47_disc_at_pole 2 (by norm_num) (by norm_num) 1 (Or.inl rfl) 0 (π / 3) 48 l hl (by norm_num; linarith)
  have e1 := (sin_pyTheta 2 1 (by norm_num) (by norm_num) (by norm_num)).1
  have e7 := (sin_pyTheta 2 7 (by norm_num) (by norm_num) (by norm_num)).1
  have z1 : ringZ 2 1 = 11 / 12 := by norm_num [ringZ]
  have z7 : ringZ 2 7 = -(11 / 12) := by norm_num [ringZ]
  have p1 : pixNumber 2 1 0 = 0 := by simp [pixNumber, pyOffset]
  have p7 : pixNumber 2 7 3 = 47 := by simp [pixNumber, pyOffset, pyNphi, northring, Finset.sum_range_succ]
  refine ⟨l, hl, ?_, ?_⟩
  · have := (key 1 0 (by norm_num) (by norm_num) (by simp [pyNphi, northring])).2
    rw [p1, e1, z1] at this
    refine this ?_
    have h3 : cos (π / 3 + 1.071 * π / (4 * (2 : ℕ))) ≤ cos (π / 3) :=
      cos_le_cos_of_nonneg_of_le_pi (by positivity) (by norm_num; linarith) (by norm_num; positivity)
    rw [cos_pi_div_three] at h3
    linarith
  · intro h
    have := (key 7 3 (by norm_num) (by norm_num) (by simp [pyNphi, northring])).1
    rw [p7, e7, z7] at this
    have h2 := this h
    have h3 : 0 < cos (π / 3 + 1.071 * π / (4 * (2 : ℕ))) := by
      refine cos_pos_of_mem_Ioo ⟨?_, ?_⟩ <;> norm_num <;> linarith
    linarith

end NaMaster
