import Verif.Maps.Disc
import Verif.Maps.Lemmas3
import Mathlib.Analysis.Real.Pi.Bounds

/-! # Auxiliary results on pixel queries -/

namespace NaMaster

open Real

/-! ## Rounding and cyclic ranges -/

theorem cNint_near (x : ℝ) : x - 1 / 2 ≤ cNint x ∧ (cNint x : ℝ) ≤ x + 1 / 2 := by
  unfold cNint
  by_cases h : x > 0
  · rw [if_pos h, cTrunc_of_nonneg (by linarith)]
    have h1 := Int.floor_le (x + 0.5)
    have h2 := Int.lt_floor_add_one (x + 0.5)
    constructor <;> linarith
  · rw [if_neg h]
    by_cases h' : x < 0
    · rw [if_pos h']
      unfold cTrunc
      rw [if_neg (by linarith)]
      have h1 := Int.le_ceil (x - 0.5)
      have h2 := Int.ceil_lt_add_one (x - 0.5)
      constructor <;> linarith
    · rw [if_neg h']
      have : x = 0 := by linarith
      rw [this]; norm_num

theorem cModu_eq (a n : ℤ) (hn : 0 < n) : cModu a n = a % n := by
  unfold cModu
  simp only
  by_cases ha : 0 ≤ a
  · rw [Int.tmod_eq_emod_of_nonneg ha, if_neg (not_lt.mpr (Int.emod_nonneg _ hn.ne'))]
  · have hneg : Int.tmod a n = -((-a) % n) := by
      rw [← Int.tmod_eq_emod_of_nonneg (by omega : 0 ≤ -a), Int.neg_tmod, neg_neg]
    have h0 := Int.emod_nonneg (-a) hn.ne'
    have h1 := Int.emod_lt_of_pos (-a) hn
    rw [hneg]
    by_cases hz : (-a) % n = 0
    · rw [hz, neg_zero, if_neg (lt_irrefl _)]
      have : n ∣ -a := Int.dvd_of_emod_eq_zero hz
      exact (Int.emod_eq_zero_of_dvd (Int.dvd_neg.mp this)).symm
    · rw [if_pos (by omega)]
      have hd := Int.mul_ediv_add_emod (-a) n
      have hd' : ∀ q r : ℤ, n * q + r = -a → 0 ≤ r → r < n → r ≠ 0 → -r + n = a % n := by
        intro q r e e0 e1 e2
        have : a = (n - r) + n * (-q - 1) := by linarith
        rw [this, Int.add_mul_emod_self_left, Int.emod_eq_of_lt (by omega) (by omega)]
        ring
      exact hd' _ _ hd h0 h1 hz

theorem quot_le {a c l j n : ℤ} (h : a * n + l ≤ c * n + j) (hl : 0 ≤ l) (hj : j < n) (hn : 0 < n) : a ≤ c := by
  by_contra hc
  have : c + 1 ≤ a := by omega
  nlinarith

/-- Integers between two others that are less than `n` apart have residues in the cyclic range between the residues. -/
theorem cyclic_mem {n L H t : ℤ} (hn : 0 < n) (h1 : L ≤ t) (h2 : t ≤ H) (hlen : H - L < n) :
    (L % n ≤ H % n → L % n ≤ t % n ∧ t % n ≤ H % n) ∧
    (H % n < L % n → L % n ≤ t % n ∨ t % n ≤ H % n) := by
  have eL := Int.ediv_mul_add_emod L n
  have eH := Int.ediv_mul_add_emod H n
  have et := Int.ediv_mul_add_emod t n
  have l0 := Int.emod_nonneg L hn.ne'
  have l1 := Int.emod_lt_of_pos L hn
  have j0 := Int.emod_nonneg H hn.ne'
  have j1 := Int.emod_lt_of_pos H hn
  have t0 := Int.emod_nonneg t hn.ne'
  have t1 := Int.emod_lt_of_pos t hn
  generalize L / n = a at *
  generalize H / n = b at *
  generalize t / n = c at *
  generalize L % n = l at *
  generalize H % n = h at *
  generalize t % n = j at *
  have hac : a ≤ c := quot_le (by rw [eL, et]; exact h1) l0 t1 hn
  have hcb : c ≤ b := quot_le (by rw [eH, et]; exact h2) t0 j1 hn
  constructor
  · intro hlh
    have hba : b = a := by
      by_contra hne
      have : a + 1 ≤ b := by omega
      nlinarith
    have hca : c = a := by omega
    subst hba hca
    constructor <;> nlinarith
  · intro hhl
    have hba : b ≤ a + 1 := by
      by_contra hne
      have : a + 2 ≤ b := by omega
      nlinarith
    rcases (by omega : c = a ∨ c = b) with e | e
    · left; subst e; nlinarith
    · right; subst e; nlinarith

/-- Residues in the cyclic range are residues of integers in between. -/
theorem cyclic_sound {n L H j : ℤ} (hn : 0 < n) (hLH : L ≤ H) (j0 : 0 ≤ j) (j1 : j < n)
    (hj : (L % n ≤ H % n ∧ L % n ≤ j ∧ j ≤ H % n) ∨ (H % n < L % n ∧ (L % n ≤ j ∨ j ≤ H % n))) :
    ∃ k : ℤ, L ≤ j + n * k ∧ j + n * k ≤ H := by
  have eL := Int.ediv_mul_add_emod L n
  have eH := Int.ediv_mul_add_emod H n
  have l0 := Int.emod_nonneg L hn.ne'
  have l1 := Int.emod_lt_of_pos L hn
  have h0 := Int.emod_nonneg H hn.ne'
  have h1 := Int.emod_lt_of_pos H hn
  generalize L / n = a at *
  generalize H / n = b at *
  generalize L % n = l at *
  generalize H % n = h at *
  have hab : a ≤ b := quot_le (by rw [eL, eH]; exact hLH) l0 h1 hn
  rcases hj with ⟨_, c, d⟩ | ⟨c, d | d⟩
  · exact ⟨a, by nlinarith, by nlinarith⟩
  · have : a + 1 ≤ b := by
      by_contra hne
      have : b = a := by omega
      subst this; nlinarith
    exact ⟨a, by nlinarith, by nlinarith⟩
  · have : a + 1 ≤ b := by
      by_contra hne
      have : b = a := by omega
      subst this; nlinarith
    exact ⟨b, by nlinarith, by nlinarith⟩

/-! ## Consecutive integers -/

theorem mem_consec {first n p : ℤ} : p ∈ consec first n ↔ first ≤ p ∧ p < first + n := by
  unfold consec
  rw [List.mem_map]
  constructor
  · rintro ⟨k, hk, rfl⟩
    rw [List.mem_range] at hk
    omega
  · rintro ⟨h1, h2⟩
    exact ⟨(p - first).toNat, by rw [List.mem_range]; omega, by omega⟩

theorem consec_nodup (first n : ℤ) : (consec first n).Nodup := by
  unfold consec
  apply List.Nodup.map _ List.nodup_range
  intro a b h
  simpa using h

theorem consec_length (first n : ℤ) : ((consec first n).length : ℤ) = max n 0 := by
  unfold consec
  rw [List.length_map, List.length_range]
  omega

/-! ## Rings -/

theorem ring_geom (n r : ℕ) (hn : 1 ≤ n) (h1 : 1 ≤ r) (h2 : r ≤ 4 * n - 1) :
    0 ≤ (inRingGeom n r).1 ∧ (inRingGeom n r).2.1 = (inRingGeom n r).1 + (inRingGeom n r).2.2.1 - 1 ∧
    4 ≤ (inRingGeom n r).2.2.1 ∧ (inRingGeom n r).2.1 < 12 * n * n ∧
    ((inRingGeom n r).2.2.2 = 0 ∨ (inRingGeom n r).2.2.2 = 1) := by
  obtain ⟨i, rfl⟩ : ∃ i, r = i + 1 := ⟨r - 1, by omega⟩
  have e : ((i + 1 : ℕ) : ℤ) = (i : ℤ) + 1 := by push_cast; rfl
  rw [e]
  obtain ⟨g1, g2, g3⟩ := inRingGeom_eq n (i + 1)
  have o := pyOffset_eq n hn i h2
  have l := ring_len n i hn h2
  have hp : 4 ≤ pyNphi n i := by unfold pyNphi northring; split_ifs <;> omega
  have ht : pyOffset n i + pyNphi n i ≤ 12 * n * n := by
    rw [← pyOffset_total n hn]
    have : pyOffset n i + pyNphi n i = pyOffset n (i + 1) := by unfold pyOffset; rw [Finset.sum_range_succ]
    rw [this]
    exact psum_mono _ (by omega)
  have ht' : (pyOffset n i : ℤ) + pyNphi n i ≤ 12 * n * n := by exact_mod_cast ht
  rw [g1, g2, g3, l, ← o]
  refine ⟨by omega, by ring, by omega, by omega, ?_⟩
  unfold inRingGeom
  simp only
  split_ifs
  · simp only; omega
  · right; rfl
  · right; rfl

/-- The numbers `L'`, `H'` of the first and last listed pixel, before reduction to `0, …, nr-1`. -/
theorem in_ring_ends (nr : ℤ) (shift phi0 dphi : ℝ) :
    ∃ L H : ℤ,
      cNint (nr * wrapTrunc (phi0 - dphi) / (2 * π) - shift) % nr = L % nr ∧
      cNint (nr * wrapTrunc (phi0 + dphi) / (2 * π) - shift) % nr = H % nr ∧
      nr * (phi0 - dphi) / (2 * π) - shift - 1 / 2 ≤ L ∧ (L : ℝ) ≤ nr * (phi0 - dphi) / (2 * π) - shift + 1 / 2 ∧
      nr * (phi0 + dphi) / (2 * π) - shift - 1 / 2 ≤ H ∧ (H : ℝ) ≤ nr * (phi0 + dphi) / (2 * π) - shift + 1 / 2 ∧
      (dphi = 0 → L = H) := by
  have hpi := Real.pi_pos
  have key : ∀ x : ℝ, nr * wrapTrunc x / (2 * π) - shift =
      (nr * x / (2 * π) - shift) - ((nr * cTrunc (x / (2 * π)) : ℤ) : ℝ) := by
    intro x
    unfold wrapTrunc
    push_cast
    field_simp
    ring
  refine ⟨cNint (nr * wrapTrunc (phi0 - dphi) / (2 * π) - shift) + nr * cTrunc ((phi0 - dphi) / (2 * π)),
    cNint (nr * wrapTrunc (phi0 + dphi) / (2 * π) - shift) + nr * cTrunc ((phi0 + dphi) / (2 * π)), ?_, ?_, ?_⟩
  · rw [Int.add_mul_emod_self_left]
  · rw [Int.add_mul_emod_self_left]
  · have a := cNint_near (nr * wrapTrunc (phi0 - dphi) / (2 * π) - shift)
    have b := cNint_near (nr * wrapTrunc (phi0 + dphi) / (2 * π) - shift)
    have ka := key (phi0 - dphi)
    have kb := key (phi0 + dphi)
    push_cast at ka kb ⊢
    refine ⟨by linarith [a.1], by linarith [a.2], by linarith [b.1], by linarith [b.2], ?_⟩
    intro h0
    rw [h0, sub_zero, add_zero]

/-- What `he_in_ring` returns, when it does not take the whole ring. -/
theorem heInRing_mem {nside iz : ℤ} {phi0 dphi : ℝ} {cap : ℤ} {l : List ℤ}
    (h : heInRing nside iz phi0 dphi cap = .ok l) (hta : ¬ |dphi - π| < 1e-6)
    (hg : (inRingGeom nside iz).2.1 = (inRingGeom nside iz).1 + (inRingGeom nside iz).2.2.1 - 1)
    (hnr : 0 < (inRingGeom nside iz).2.2.1) {A B : ℤ}
    (hA : cNint ((inRingGeom nside iz).2.2.1 * wrapTrunc (phi0 - dphi) / (2 * π) -
      0.5 * (inRingGeom nside iz).2.2.2) % (inRingGeom nside iz).2.2.1 = A)
    (hB : cNint ((inRingGeom nside iz).2.2.1 * wrapTrunc (phi0 + dphi) / (2 * π) -
      0.5 * (inRingGeom nside iz).2.2.2) % (inRingGeom nside iz).2.2.1 = B) :
    l.Nodup ∧ (l.length : ℤ) ≤ cap ∧ (l.length : ℤ) ≤ (inRingGeom nside iz).2.2.1 ∧
    ∀ j : ℤ, (inRingGeom nside iz).1 + j ∈ l ↔ (0 ≤ j ∧ j < (inRingGeom nside iz).2.2.1) ∧
      ((A ≤ B ∧ A ≤ j ∧ j ≤ B) ∨ (B < A ∧ (A ≤ j ∨ j ≤ B))) := by
  have A0 : 0 ≤ A := hA ▸ Int.emod_nonneg _ hnr.ne'
  have A1 : A < (inRingGeom nside iz).2.2.1 := hA ▸ Int.emod_lt_of_pos _ hnr
  have B0 : 0 ≤ B := hB ▸ Int.emod_nonneg _ hnr.ne'
  have B1 : B < (inRingGeom nside iz).2.2.1 := hB ▸ Int.emod_lt_of_pos _ hnr
  unfold heInRing at h
  simp only at h
  rw [if_neg hta, cModu_eq _ _ hnr, cModu_eq _ _ hnr, hA, hB, hg] at h
  generalize (inRingGeom nside iz).1 = p1 at *
  generalize (inRingGeom nside iz).2.2.1 = nr at *
  by_cases hAB : A > B
  · rw [if_pos hAB] at h
    split_ifs at h with hc
    injection h with h
    subst h
    refine ⟨?_, ?_, ?_, ?_⟩
    · apply List.Nodup.append (consec_nodup _ _) (consec_nodup _ _)
      intro p hp hq
      rw [mem_consec] at hp hq
      omega
    · rw [List.length_append]; push_cast; rw [consec_length, consec_length]; omega
    · rw [List.length_append]; push_cast; rw [consec_length, consec_length]; omega
    · intro j
      rw [List.mem_append, mem_consec, mem_consec]
      omega
  · rw [if_neg hAB] at h
    split_ifs at h with hc
    injection h with h
    subst h
    refine ⟨consec_nodup _ _, ?_, ?_, ?_⟩
    · rw [consec_length]; omega
    · rw [consec_length]; omega
    · intro j
      rw [mem_consec]
      omega

/-- What `he_in_ring` returns, when it takes the whole ring. -/
theorem heInRing_all {nside iz : ℤ} {phi0 dphi : ℝ} {cap : ℤ} {l : List ℤ}
    (h : heInRing nside iz phi0 dphi cap = .ok l) (hta : |dphi - π| < 1e-6)
    (hg : (inRingGeom nside iz).2.1 = (inRingGeom nside iz).1 + (inRingGeom nside iz).2.2.1 - 1)
    (hnr : 0 < (inRingGeom nside iz).2.2.1) :
    l.Nodup ∧ (l.length : ℤ) ≤ cap ∧ (l.length : ℤ) ≤ (inRingGeom nside iz).2.2.1 ∧
    ∀ j : ℤ, (inRingGeom nside iz).1 + j ∈ l ↔ (0 ≤ j ∧ j < (inRingGeom nside iz).2.2.1) := by
  unfold heInRing at h
  simp only at h
  rw [if_pos hta, hg] at h
  split_ifs at h with hc
  injection h with h
  subst h
  refine ⟨consec_nodup _ _, ?_, ?_, ?_⟩
  · rw [consec_length]; omega
  · rw [consec_length]; omega
  · intro j; rw [mem_consec]; omega

/-- Enough room: no error. -/
theorem heInRing_ok {nside iz : ℤ} {phi0 dphi : ℝ} {cap : ℤ}
    (hg : (inRingGeom nside iz).2.1 = (inRingGeom nside iz).1 + (inRingGeom nside iz).2.2.1 - 1)
    (hnr : 0 < (inRingGeom nside iz).2.2.1) (hcap : (inRingGeom nside iz).2.2.1 ≤ cap) :
    ∃ l, heInRing nside iz phi0 dphi cap = .ok l := by
  unfold heInRing
  simp only
  rw [cModu_eq _ _ hnr, cModu_eq _ _ hnr, hg]
  have A0 := Int.emod_nonneg (cNint ((inRingGeom nside iz).2.2.1 * wrapTrunc (phi0 - dphi) / (2 * π) -
      0.5 * (inRingGeom nside iz).2.2.2)) hnr.ne'
  have A1 := Int.emod_lt_of_pos (cNint ((inRingGeom nside iz).2.2.1 * wrapTrunc (phi0 - dphi) / (2 * π) -
      0.5 * (inRingGeom nside iz).2.2.2)) hnr
  have B0 := Int.emod_nonneg (cNint ((inRingGeom nside iz).2.2.1 * wrapTrunc (phi0 + dphi) / (2 * π) -
      0.5 * (inRingGeom nside iz).2.2.2)) hnr.ne'
  have B1 := Int.emod_lt_of_pos (cNint ((inRingGeom nside iz).2.2.1 * wrapTrunc (phi0 + dphi) / (2 * π) -
      0.5 * (inRingGeom nside iz).2.2.2)) hnr
  split_ifs <;> first | exact ⟨_, rfl⟩ | omega

end NaMaster
