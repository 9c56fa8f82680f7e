import Verif.Maps.DiscLemmas2

/-! # Properties of ring and disc queries: C47 and the query part of C43 -/

namespace NaMaster

open Real

/-! ## Specification -/

/-- Azimuth of pixel `j` of ring `r`, from the tables used for harmonic transforms. -/
noncomputable def pixAzimuth (nside r j : ℕ) : ℝ := pyPhi0 nside (r - 1) + j * (2 * π / pyNphi nside (r - 1))

/-- Number of pixel `j` of ring `r`. -/
def pixNumber (nside r j : ℕ) : ℕ := pyOffset nside (r - 1) + j

/-- `phi` is within `dphi` of `phi0`, up to full turns. -/
def AzimuthWithin (phi0 dphi phi : ℝ) : Prop := ∃ k : ℤ, |phi - phi0 + 2 * π * k| ≤ dphi

/-- The half-widths for which a ring of `nr` pixels is listed correctly: the gap left on the other side is wider than a
pixel, or the whole ring is asked for. -/
def WidthOk (nr : ℕ) (dphi : ℝ) : Prop := dphi < π * (1 - 1 / nr) ∨ |dphi - π| < 1e-6

/-- The tables in terms of the numbers used by `he_in_ring`. -/
theorem ring_tables (nside r : ℕ) (hn : 1 ≤ nside) (h1 : 1 ≤ r) (h2 : r ≤ 4 * nside - 1) :
    (inRingGeom nside r).1 = pyOffset nside (r - 1) ∧ (inRingGeom nside r).2.2.1 = pyNphi nside (r - 1) ∧
    ∀ j : ℕ, pixAzimuth nside r j =
      (j + 0.5 * ((inRingGeom nside r).2.2.2 : ℝ)) * (2 * π / ((inRingGeom nside r).2.2.1 : ℝ)) := by
  obtain ⟨i, rfl⟩ : ∃ i, r = i + 1 := ⟨r - 1, by omega⟩
  obtain ⟨_, _, a, _, b⟩ := C32_agree nside i hn h2
  obtain ⟨_, _, _, c⟩ := C32_positions nside i hn h2
  have e : ((i + 1 : ℕ) : ℤ) = (i : ℤ) + 1 := by push_cast; rfl
  rw [e]
  refine ⟨a, b, fun j => ?_⟩
  unfold pixAzimuth
  rw [Nat.add_sub_cancel, c, b]
  push_cast
  ring

/-! ## C47 -/

/-- C47: a ring query lists pixels of the ring only, each once, and no more than there is room for. -/
theorem C47_only_ring (nside r : ℕ) (hn : 1 ≤ nside) (h1 : 1 ≤ r) (h2 : r ≤ 4 * nside - 1) (phi0 dphi : ℝ)
    (cap : ℤ) (l : List ℤ) (h : heInRing nside r phi0 dphi cap = .ok l) :
    l.Nodup ∧ (l.length : ℤ) ≤ cap ∧ l.length ≤ pyNphi nside (r - 1) ∧
    ∀ p ∈ l, ∃ j < pyNphi nside (r - 1), p = (pixNumber nside r j : ℤ) := by
  obtain ⟨_, g2, g3, _, _⟩ := ring_geom nside r hn h1 h2
  obtain ⟨t1, t2, _⟩ := ring_tables nside r hn h1 h2
  have conv : ∀ p, (∃ j : ℤ, p = (inRingGeom nside r).1 + j ∧ 0 ≤ j ∧ j < (inRingGeom nside r).2.2.1) →
      ∃ j < pyNphi nside (r - 1), p = (pixNumber nside r j : ℤ) := by
    rintro p ⟨j, rfl, j0, j1⟩
    rw [t2] at j1
    refine ⟨j.toNat, by omega, ?_⟩
    unfold pixNumber
    rw [t1]; push_cast; omega
  by_cases hta : |dphi - π| < 1e-6
  · obtain ⟨a, b, c, d⟩ := heInRing_all h hta g2 (by omega)
    rw [t2] at c
    refine ⟨a, b, by omega, fun p hp => conv p ⟨p - (inRingGeom nside r).1, by ring, ?_⟩⟩
    apply (d _).1
    rwa [add_sub_cancel]
  · obtain ⟨a, b, c, d⟩ := heInRing_mem h hta g2 (by omega) rfl rfl
    rw [t2] at c
    refine ⟨a, b, by omega, fun p hp => conv p ⟨p - (inRingGeom nside r).1, by ring, ?_⟩⟩
    apply ((d _).1 _).1
    rwa [add_sub_cancel]

/-- C47, for half-widths outside a narrow window. The full statement has no `WidthOk`; without it, it is false, see
`C47_wrong`. Every pixel whose centre is in the range is listed. -/
theorem C47_complete_partial (nside r : ℕ) (hn : 1 ≤ nside) (h1 : 1 ≤ r) (h2 : r ≤ 4 * nside - 1) (phi0 dphi : ℝ)
    (hw : WidthOk (pyNphi nside (r - 1)) dphi)
    (cap : ℤ) (l : List ℤ) (h : heInRing nside r phi0 dphi cap = .ok l)
    (j : ℕ) (hj : j < pyNphi nside (r - 1)) (hin : AzimuthWithin phi0 dphi (pixAzimuth nside r j)) :
    (pixNumber nside r j : ℤ) ∈ l := by
  obtain ⟨_, g2, g3, _, _⟩ := ring_geom nside r hn h1 h2
  obtain ⟨t1, t2, t3⟩ := ring_tables nside r hn h1 h2
  have hpi := pi_pos
  have en : (pixNumber nside r j : ℤ) = (inRingGeom nside r).1 + j := by
    unfold pixNumber; rw [t1]; push_cast; rfl
  rw [en]
  by_cases hta : |dphi - π| < 1e-6
  · obtain ⟨a, b, c, d⟩ := heInRing_all h hta g2 (by omega)
    rw [d, t2]; omega
  · have hd : dphi < π * (1 - 1 / pyNphi nside (r - 1)) := hw.resolve_right hta
    obtain ⟨L, H, eL, eH, l1, l2, u1, u2, _⟩ := in_ring_ends (inRingGeom nside r).2.2.1
      (0.5 * (inRingGeom nside r).2.2.2) phi0 dphi
    obtain ⟨a, b, c, d⟩ := heInRing_mem h hta g2 (by omega) eL eH
    rw [d]
    obtain ⟨k, hk⟩ := hin
    rw [t3 j] at hk
    have hnr : (0:ℝ) < ((inRingGeom nside r).2.2.1 : ℝ) := by exact_mod_cast (by omega : 0 < (inRingGeom nside r).2.2.1)
    have hnr' : ((pyNphi nside (r - 1) : ℕ) : ℝ) = ((inRingGeom nside r).2.2.1 : ℝ) := by rw [t2]; norm_cast
    rw [hnr'] at hd
    generalize (inRingGeom nside r).2.2.1 = nr at *
    generalize ((inRingGeom nside r).2.2.2 : ℝ) = ks at *
    -- the position of the pixel counted from the start of the ring, with turns
    have hjn : (j : ℤ) < nr := by rw [t2]; exact_mod_cast hj
    rw [abs_le] at hk
    have e1 : ((j:ℝ) + 0.5 * ks) * (2 * π / nr) = ((j + 0.5 * ks) * 2 * π) / nr := by ring
    have q1 : nr * (phi0 - dphi) / (2 * π) - 0.5 * ks ≤ ((j + nr * k : ℤ) : ℝ) := by
      rw [sub_le_iff_le_add, div_le_iff₀ (by positivity)]
      have := hk.1
      rw [e1] at this
      have h' : phi0 - dphi - 2 * π * k ≤ (j + 0.5 * ks) * 2 * π / nr := by linarith
      rw [le_div_iff₀ hnr] at h'
      push_cast; nlinarith
    have q2 : ((j + nr * k : ℤ) : ℝ) ≤ nr * (phi0 + dphi) / (2 * π) - 0.5 * ks := by
      rw [le_sub_iff_add_le, le_div_iff₀ (by positivity)]
      have := hk.2
      rw [e1] at this
      have h' : (j + 0.5 * ks) * 2 * π / nr ≤ phi0 + dphi - 2 * π * k := by linarith
      rw [div_le_iff₀ hnr] at h'
      push_cast; nlinarith
    have hLt : L ≤ j + nr * k := by
      have : (L:ℝ) < ((j + nr * k : ℤ) : ℝ) + 1 := by linarith
      have : L < j + nr * k + 1 := by exact_mod_cast this
      omega
    have htH : j + nr * k ≤ H := by
      have : ((j + nr * k : ℤ) : ℝ) < (H:ℝ) + 1 := by linarith
      have : j + nr * k < H + 1 := by exact_mod_cast this
      omega
    have hlen : H - L < nr := by
      have hgap : nr * (phi0 + dphi) / (2 * π) - nr * (phi0 - dphi) / (2 * π) < nr - 1 := by
        have : nr * (phi0 + dphi) / (2 * π) - nr * (phi0 - dphi) / (2 * π) = nr * dphi / π := by field_simp; ring
        rw [this, div_lt_iff₀ hpi]
        have h' : π * (1 - 1 / nr) = (π * (nr - 1)) / nr := by field_simp
        rw [h', lt_div_iff₀ hnr] at hd
        nlinarith
      have : ((H - L : ℤ) : ℝ) < nr := by push_cast; linarith
      exact_mod_cast this
    have key := cyclic_mem (by omega : 0 < nr) hLt htH hlen
    have em : (j + nr * k) % nr = j := by
      rw [Int.add_mul_emod_self_left, Int.emod_eq_of_lt (by omega) hjn]
    rw [em] at key
    refine ⟨⟨by omega, hjn⟩, ?_⟩
    rcases le_or_gt (L % nr) (H % nr) with c | c
    · left; exact ⟨c, key.1 c⟩
    · right; exact ⟨c, key.2 c⟩

/-- C47: nothing far from the range is listed: unless the whole ring is asked for, every listed pixel is within half a
pixel of the range. -/
theorem C47_tight (nside r : ℕ) (hn : 1 ≤ nside) (h1 : 1 ≤ r) (h2 : r ≤ 4 * nside - 1) (phi0 dphi : ℝ)
    (hd : 0 ≤ dphi) (hta : ¬ |dphi - π| < 1e-6) (cap : ℤ) (l : List ℤ) (h : heInRing nside r phi0 dphi cap = .ok l)
    (j : ℕ) (hj : (pixNumber nside r j : ℤ) ∈ l) :
    AzimuthWithin phi0 (dphi + π / pyNphi nside (r - 1)) (pixAzimuth nside r j) := by
  obtain ⟨_, g2, g3, _, _⟩ := ring_geom nside r hn h1 h2
  obtain ⟨t1, t2, t3⟩ := ring_tables nside r hn h1 h2
  have hpi := pi_pos
  have en : (pixNumber nside r j : ℤ) = (inRingGeom nside r).1 + j := by
    unfold pixNumber; rw [t1]; push_cast; rfl
  rw [en] at hj
  obtain ⟨L, H, eL, eH, l1, l2, u1, u2, e0⟩ := in_ring_ends (inRingGeom nside r).2.2.1
      (0.5 * (inRingGeom nside r).2.2.2) phi0 dphi
  obtain ⟨a, b, c, d⟩ := heInRing_mem h hta g2 (by omega) eL eH
  rw [d] at hj
  have hnr : (0:ℝ) < ((inRingGeom nside r).2.2.1 : ℝ) := by exact_mod_cast (by omega : 0 < (inRingGeom nside r).2.2.1)
  have hnr' : ((pyNphi nside (r - 1) : ℕ) : ℝ) = ((inRingGeom nside r).2.2.1 : ℝ) := by rw [t2]; norm_cast
  unfold AzimuthWithin
  rw [t3 j, hnr']
  generalize (inRingGeom nside r).2.2.1 = nr at *
  generalize ((inRingGeom nside r).2.2.2 : ℝ) = ks at *
  have hLH : L ≤ H := by
    rcases eq_or_lt_of_le hd with z | z
    · rw [e0 z.symm]
    · have hgap : nr * (phi0 + dphi) / (2 * π) - nr * (phi0 - dphi) / (2 * π) = nr * dphi / π := by field_simp; ring
      have hpos : 0 < nr * dphi / π := by positivity
      have : (L:ℝ) < H + 1 := by linarith
      have : L < H + 1 := by exact_mod_cast this
      omega
  obtain ⟨k, k1, k2⟩ := cyclic_sound (by omega : 0 < nr) hLH hj.1.1 hj.1.2 hj.2
  refine ⟨k, ?_⟩
  have k1' : (L:ℝ) ≤ j + nr * k := by exact_mod_cast k1
  have k2' : (j:ℝ) + nr * k ≤ H := by exact_mod_cast k2
  have e : ((j:ℝ) + 0.5 * ks) * (2 * π / nr) - phi0 + 2 * π * k = ((j + 0.5 * ks + nr * k) * 2 * π - nr * phi0) / nr := by
    field_simp; ring
  have e2 : dphi + π / nr = (nr * dphi + π) / nr := by field_simp
  have m1 : nr * (phi0 - dphi) / (2 * π) ≤ j + nr * k + 0.5 * ks + 1 / 2 := by linarith
  have m2 : j + nr * k + 0.5 * ks - 1 / 2 ≤ nr * (phi0 + dphi) / (2 * π) := by linarith
  rw [div_le_iff₀ (by positivity)] at m1
  rw [le_div_iff₀ (by positivity)] at m2
  rw [e, e2, abs_div, abs_of_pos hnr, div_le_div_iff_of_pos_right hnr, abs_le]
  constructor <;> nlinarith

/-- C47 is false. If the range is centred on a pixel of the ring and leaves out less than one pixel on the opposite side,
the only pixel listed is that opposite pixel — the one farthest from the centre — instead of (nearly) the whole
ring. -/
theorem C47_wrong (nside r : ℕ) (hn : 1 ≤ nside) (h1 : 1 ≤ r) (h2 : r ≤ 4 * nside - 1) (j : ℕ)
    (hj : j < pyNphi nside (r - 1)) (dphi : ℝ) (hlo : π * (1 - 1 / pyNphi nside (r - 1)) < dphi)
    (hhi : dphi ≤ π - 1e-6) (cap : ℤ) (hcap : (pyNphi nside (r - 1) : ℤ) ≤ cap) :
    heInRing nside r (pixAzimuth nside r j) dphi cap =
      .ok [(pixNumber nside r ((j + pyNphi nside (r - 1) / 2) % pyNphi nside (r - 1)) : ℤ)] := by
  obtain ⟨_, g2, g3, _, _⟩ := ring_geom nside r hn h1 h2
  obtain ⟨t1, t2, t3⟩ := ring_tables nside r hn h1 h2
  have hpi := pi_pos
  have hta : ¬ |dphi - π| < 1e-6 := by
    rw [abs_sub_comm, abs_of_nonneg (by linarith)]; linarith
  obtain ⟨l, hl⟩ := heInRing_ok (nside := nside) (iz := r) (phi0 := pixAzimuth nside r j) (dphi := dphi) (cap := cap) g2 (by omega)
    (by rw [t2]; exact hcap)
  have heven : ∃ m : ℕ, pyNphi nside (r - 1) = 2 * m := by
    unfold pyNphi; split_ifs
    · exact ⟨2 * northring nside (r - 1 + 1), by ring⟩
    · exact ⟨2 * nside, by ring⟩
  obtain ⟨m, hm⟩ := heven
  obtain ⟨L, H, eL, eH, l1, l2, u1, u2, _⟩ := in_ring_ends (inRingGeom nside r).2.2.1
      (0.5 * (inRingGeom nside r).2.2.2) (pixAzimuth nside r j) dphi
  obtain ⟨a, b, c, d⟩ := heInRing_mem hl hta g2 (by omega) eL eH
  have hm4 : 4 ≤ 2 * m := by rw [← hm]; rw [t2] at g3; exact_mod_cast g3
  rw [hm] at hlo hj hcap ⊢
  have t2' : (inRingGeom nside r).2.2.1 = 2 * (m : ℤ) := by rw [t2, hm]; push_cast; rfl
  have hmr : (0:ℝ) < m := by exact_mod_cast (by omega : 0 < m)
  rw [t2'] at l1 l2 u1 u2 eL eH d c
  rw [t3 j, t2'] at l1 l2 u1 u2
  generalize ((inRingGeom nside r).2.2.2 : ℝ) = ks at *
  push_cast at l1 l2 u1 u2 hlo
  have x1 : (m:ℝ) - 1 / 2 < m * dphi / π := by
    rw [lt_div_iff₀ hpi]
    have : π * (1 - 1 / (2 * (m:ℝ))) = π * (2 * m - 1) / (2 * m) := by field_simp
    rw [this, div_lt_iff₀ (by positivity)] at hlo
    nlinarith
  have x2 : m * dphi / π < m := by
    rw [div_lt_iff₀ hpi]; nlinarith
  have eu : 2 * (m:ℝ) * ((j + 0.5 * ks) * (2 * π / (2 * m)) - dphi) / (2 * π) - 0.5 * ks = j - m * dphi / π := by
    field_simp; ring
  have ev : 2 * (m:ℝ) * ((j + 0.5 * ks) * (2 * π / (2 * m)) + dphi) / (2 * π) - 0.5 * ks = j + m * dphi / π := by
    field_simp; ring
  rw [eu] at l1 l2
  rw [ev] at u1 u2
  have hL : L = j - m := by
    have c1 : ((L : ℤ) : ℝ) < ((j - m + 1 : ℤ) : ℝ) := by push_cast; linarith
    have c2 : ((j - m - 1 : ℤ) : ℝ) < ((L : ℤ) : ℝ) := by push_cast; linarith
    have c1' : L < j - m + 1 := by exact_mod_cast c1
    have c2' : (j : ℤ) - m - 1 < L := by exact_mod_cast c2
    omega
  have hH : H = j + m := by
    have c1 : ((H : ℤ) : ℝ) < ((j + m + 1 : ℤ) : ℝ) := by push_cast; linarith
    have c2 : ((j + m - 1 : ℤ) : ℝ) < ((H : ℤ) : ℝ) := by push_cast; linarith
    have c1' : H < j + m + 1 := by exact_mod_cast c1
    have c2' : (j : ℤ) + m - 1 < H := by exact_mod_cast c2
    omega
  have hmod : L % (2 * (m:ℤ)) = H % (2 * (m:ℤ)) := by
    rw [hL, hH]
    have : (j : ℤ) + m = (j - m) + 2 * (m:ℤ) * 1 := by ring
    rw [this, Int.add_mul_emod_self_left]
  rw [hmod] at d
  have hHm : H % (2 * (m:ℤ)) = ((j + m) % (2 * m) : ℕ) := by rw [hH]; push_cast; rfl
  -- the list has exactly one element
  have h0 : 0 ≤ H % (2 * (m:ℤ)) := Int.emod_nonneg _ (by omega)
  have h1' : H % (2 * (m:ℤ)) < 2 * (m:ℤ) := Int.emod_lt_of_pos _ (by omega)
  have hmem : ∀ p : ℤ, p ∈ l ↔ p = (inRingGeom nside r).1 + H % (2 * (m:ℤ)) := by
    intro p
    have := d (p - (inRingGeom nside r).1)
    rw [add_sub_cancel] at this
    rw [this]
    constructor
    · rintro ⟨_, ⟨_, x, y⟩ | ⟨x, _⟩⟩
      · omega
      · omega
    · intro e
      refine ⟨⟨by omega, by omega⟩, Or.inl ⟨le_refl _, by omega, by omega⟩⟩
  have hsing : l = [(inRingGeom nside r).1 + H % (2 * (m:ℤ))] := by
    match l, a, hmem with
    | [], _, hmem => exact absurd ((hmem _).2 rfl) (by simp)
    | [x], _, hmem => rw [(hmem x).1 (by simp)]
    | x :: y :: t, a, hmem =>
      exfalso
      have hx := (hmem x).1 (by simp)
      have hy := (hmem y).1 (by simp)
      rw [List.nodup_cons] at a
      exact a.1 (by rw [hx, hy]; simp)
  rw [hl, hsing, hHm]
  unfold pixNumber
  rw [t1, Nat.mul_div_cancel_left m (by norm_num)]
  push_cast
  rfl

/-- The first ring of the coarsest map, centred on its first pixel: only the opposite pixel (number 2) is listed,
although pixels 0, 1 and 3 are in the range and pixel 2 is not. -/
example : heInRing (1 : ℕ) (1 : ℕ) (pixAzimuth 1 1 0) (0.8 * π) 12 = .ok [2] ∧
    AzimuthWithin (pixAzimuth 1 1 0) (0.8 * π) (pixAzimuth 1 1 0) ∧
    AzimuthWithin (pixAzimuth 1 1 0) (0.8 * π) (pixAzimuth 1 1 1) := by
  have hpi := pi_gt_three
  have e : pyNphi 1 0 = 4 := by simp [pyNphi, northring]
  refine ⟨?_, ⟨0, ?_⟩, ⟨0, ?_⟩⟩
  · have := C47_wrong 1 1 (by norm_num) (by norm_num) (by norm_num) 0 (by rw [e]; norm_num) (0.8 * π)
      (by rw [e]; push_cast; nlinarith) (by nlinarith) 12 (by rw [e]; norm_num)
    rw [this, e]
    simp [pixNumber, pyOffset]
  · simp; positivity
  · have : pixAzimuth 1 1 1 - pixAzimuth 1 1 0 = π / 2 := by
      unfold pixAzimuth; rw [e]; push_cast; ring
    rw [this, abs_of_pos (by positivity)]
    norm_num; nlinarith

/-- A range of a third of the ring around its second pixel contains that pixel. -/
example (l : List ℤ) (h : heInRing (1 : ℕ) (1 : ℕ) (pixAzimuth 1 1 1) (π / 3) 12 = .ok l) : (1 : ℤ) ∈ l := by
  have hpi := pi_pos
  have e : pyNphi 1 0 = 4 := by simp [pyNphi, northring]
  have := C47_complete_partial 1 1 (by norm_num) (by norm_num) (by norm_num) (pixAzimuth 1 1 1) (π / 3)
    (Or.inl (by rw [e]; push_cast; nlinarith)) 12 l h 1 (by rw [e]; norm_num) ⟨0, by simp; positivity⟩
  simpa [pixNumber, pyOffset] using this

end NaMaster
