import Verif.Maps.Lemmas
import Mathlib.Tactic.Positivity

/-! # Auxiliary results on the positions of HEALPix rings -/

namespace NaMaster

open Finset

theorem cos_two_arcsin {x : ℝ} (h1 : -1 ≤ x) (h2 : x ≤ 1) : Real.cos (2 * Real.arcsin x) = 1 - 2 * x ^ 2 := by
  rw [Real.cos_two_mul, Real.cos_sq', Real.sin_arcsin h1 h2]; ring

theorem cap_arg_le (n k : ℕ) (h : k < n) : (k : ℝ) / (Real.sqrt 6 * n) ≤ 1 := by
  have hn : (0:ℝ) < n := by exact_mod_cast (by omega : 0 < n)
  have h6 : (1:ℝ) ≤ Real.sqrt 6 := Real.one_le_sqrt.mpr (by norm_num)
  rw [div_le_one (by positivity)]
  have : (k:ℝ) ≤ n := by exact_mod_cast h.le
  nlinarith

theorem cap_arg_sq (n k : ℕ) (hn : 1 ≤ n) :
    ((k : ℝ) / (Real.sqrt 6 * n)) ^ 2 = (k:ℝ) * k * (1 / (3 * (n:ℝ) * n)) / 2 := by
  have hn : (n:ℝ) ≠ 0 := by exact_mod_cast (by omega : n ≠ 0)
  rw [div_pow, mul_pow, Real.sq_sqrt (by norm_num)]
  field_simp; ring

theorem northring_cast (n i : ℕ) (hn : 1 ≤ n) (h2 : i + 1 ≤ 4 * n - 1) :
    (northring n (i + 1) : ℝ) = if i + 1 > 2 * n then 4 * (n:ℝ) - (i + 1) else i + 1 := by
  unfold northring
  by_cases h : i + 1 > 2 * n
  · rw [if_pos h, if_pos h, Nat.cast_sub (by omega)]; push_cast; ring
  · rw [if_neg h, if_neg h]; push_cast; ring

theorem cos_pyTheta (n i : ℕ) (hn : 1 ≤ n) (h2 : i + 1 ≤ 4 * n - 1) :
    Real.cos (pyTheta n i) = ringZ n (i + 1) := by
  have hn0 : (0:ℝ) < n := by exact_mod_cast (by omega : 0 < n)
  have hn1 : (n:ℝ) ≠ 0 := hn0.ne'
  have hc := northring_cast n i hn h2
  unfold pyTheta ringZ
  simp only
  by_cases hs : i + 1 > 2 * n
  · rw [if_pos hs] at hc
    have hne : northring n (i + 1) ≠ i + 1 := by unfold northring; rw [if_pos hs]; omega
    rw [if_pos hne, Real.cos_pi_sub, if_neg (show ¬ (i + 1 < n) by omega)]
    by_cases hcap : northring n (i + 1) < n
    · have : ¬ (i + 1 ≤ 3 * n) := by unfold northring at hcap; rw [if_pos hs] at hcap; omega
      rw [if_pos hcap, if_neg this, cos_two_arcsin _ (cap_arg_le n _ hcap), cap_arg_sq n _ hn, hc]
      · push_cast; ring
      · exact le_trans (by norm_num) (show (0:ℝ) ≤ _ by positivity)
    · have : i + 1 ≤ 3 * n := by unfold northring at hcap; rw [if_pos hs] at hcap; omega
      have hc1 : (i:ℝ) + 1 ≤ 3 * n := by exact_mod_cast this
      have hc2 : 2 * (n:ℝ) ≤ i + 1 := by exact_mod_cast hs.le
      have e : (2 * (n:ℝ) - northring n (i + 1)) * (8 * n / (12 * n * n)) = -((2 * (n:ℝ) - (i + 1)) * (2 / (3 * n))) := by
        rw [hc]; field_simp; ring
      rw [if_neg hcap, if_pos this, e, Real.cos_arccos]
      · push_cast; ring
      · rw [← sub_nonneg]; have : -((2 * (n:ℝ) - (i + 1)) * (2 / (3 * n))) - -1 = ((i:ℝ) + 1 - 2 * n + 1.5 * n) * (2 / (3 * n)) := by
          field_simp; ring
        rw [this]; apply mul_nonneg (by linarith) (by positivity)
      · rw [← sub_nonneg]; have : 1 - -((2 * (n:ℝ) - (i + 1)) * (2 / (3 * n))) = (3.5 * n - ((i:ℝ) + 1)) * (2 / (3 * n)) := by
          field_simp; ring
        rw [this]; apply mul_nonneg (by linarith) (by positivity)
  · rw [if_neg hs] at hc
    have hne : ¬ northring n (i + 1) ≠ i + 1 := by unfold northring; rw [if_neg hs]; simp
    have hne' : northring n (i + 1) = i + 1 := by simpa using hne
    rw [if_neg hne]
    by_cases hcap : northring n (i + 1) < n
    · rw [if_pos hcap, if_pos (by omega), cos_two_arcsin _ (cap_arg_le n _ hcap), cap_arg_sq n _ hn, hc]
      · push_cast; ring
      · exact le_trans (by norm_num) (show (0:ℝ) ≤ _ by positivity)
    · have hc1 : (n:ℝ) ≤ i + 1 := by exact_mod_cast (by omega : n ≤ i + 1)
      have hc2 : (i:ℝ) + 1 ≤ 2 * n := by exact_mod_cast (by omega : i + 1 ≤ 2 * n)
      have e : (2 * (n:ℝ) - northring n (i + 1)) * (8 * n / (12 * n * n)) = (2 * (n:ℝ) - (i + 1)) * (2 / (3 * n)) := by
        rw [hc]; field_simp; ring
      rw [if_neg hcap, if_neg (by omega), if_pos (by omega), e, Real.cos_arccos]
      · push_cast; ring
      · exact le_trans (by norm_num) (show (0:ℝ) ≤ _ from mul_nonneg (by linarith) (by positivity))
      · rw [← sub_nonneg]; have : 1 - (2 * (n:ℝ) - (i + 1)) * (2 / (3 * n)) = ((i:ℝ) + 1 - 0.5 * n) * (2 / (3 * n)) := by
          field_simp; ring
        rw [this]; apply mul_nonneg (by linarith) (by positivity)

theorem pyTheta_range (n i : ℕ) : 0 ≤ pyTheta n i ∧ pyTheta n i ≤ Real.pi := by
  unfold pyTheta
  simp only
  have key : ∀ th : ℝ, (0 ≤ th ∧ th ≤ Real.pi) → ∀ b : Prop, [Decidable b] →
      0 ≤ (if b then Real.pi - th else th) ∧ (if b then Real.pi - th else th) ≤ Real.pi := by
    intro th h b _
    split_ifs
    · constructor <;> linarith [h.1, h.2]
    · exact h
  apply key
  split_ifs with h
  · constructor
    · have : 0 ≤ Real.arcsin ((northring n (i + 1) : ℝ) / (Real.sqrt 6 * n)) :=
        Real.arcsin_nonneg.mpr (by positivity)
      linarith
    · have := Real.arcsin_le_pi_div_two ((northring n (i + 1) : ℝ) / (Real.sqrt 6 * n))
      linarith
  · exact ⟨Real.arccos_nonneg _, Real.arccos_le_pi _⟩

theorem pyPhi0_eq (n i : ℕ) (hn : 1 ≤ n) (h2 : i + 1 ≤ 4 * n - 1) :
    pyPhi0 n i = ((inRingGeom n (i + 1)).2.2.2 : ℝ) / 2 * (2 * Real.pi / ((inRingGeom n (i + 1)).2.2.1 : ℝ)) := by
  have hn1 : (n:ℝ) ≠ 0 := by exact_mod_cast (by omega : n ≠ 0)
  have hc := northring_cast n i hn h2
  unfold pyPhi0 inRingGeom
  simp only
  by_cases a : (n:ℤ) ≤ i + 1 ∧ (i:ℤ) + 1 ≤ 3 * n
  · have hnr : ¬ northring n (i + 1) < n := by unfold northring; split_ifs <;> omega
    rw [if_pos a, if_neg hnr]
    simp only
    by_cases hs : i + 1 > 2 * n
    · have e : northring n (i + 1) - n = 3 * n - (i + 1) := by unfold northring; rw [if_pos hs]; omega
      rw [e]
      by_cases hp : (3 * n - (i + 1)) % 2 = 0
      · have : ((i:ℤ) + 1 - n + 1) % 2 = 1 := by omega
        rw [if_pos hp, this]; push_cast; field_simp
      · have : ((i:ℤ) + 1 - n + 1) % 2 = 0 := by omega
        rw [if_neg hp, this]; push_cast; simp
    · have e : northring n (i + 1) - n = i + 1 - n := by unfold northring; rw [if_neg hs]
      rw [e]
      by_cases hp : (i + 1 - n) % 2 = 0
      · have : ((i:ℤ) + 1 - n + 1) % 2 = 1 := by omega
        rw [if_pos hp, this]; push_cast; field_simp
      · have : ((i:ℤ) + 1 - n + 1) % 2 = 0 := by omega
        rw [if_neg hp, this]; push_cast; simp
  · have hnr : northring n (i + 1) < n := by unfold northring; split_ifs <;> omega
    have hpos : (0:ℝ) < northring n (i + 1) := by
      have : 0 < northring n (i + 1) := by unfold northring; split_ifs <;> omega
      exact_mod_cast this
    rw [if_neg a, if_pos hnr]
    by_cases b : (i:ℤ) + 1 < n
    · rw [if_neg (by omega)] at hc
      rw [if_pos b]
      simp only
      rw [hc] at hpos ⊢
      push_cast; field_simp
    · rw [if_pos (by omega)] at hc
      rw [if_neg b]
      simp only
      rw [hc] at hpos ⊢
      have hne := hpos.ne'
      push_cast; field_simp

theorem inRingGeom_eq (n r : ℤ) :
    (inRingGeom n r).1 = (ringLimits n r).1 ∧ (inRingGeom n r).2.1 = (ringLimits n r).2 ∧
    (inRingGeom n r).2.2.1 = (ringLimits n r).2 - (ringLimits n r).1 + 1 := by
  unfold inRingGeom ringLimits
  split_ifs <;> refine ⟨rfl, rfl, ?_⟩ <;> simp only <;> ring

/-! ## Ring numbers -/

theorem cTrunc_half (k : ℕ) : cTrunc ((k:ℝ) + 0.5) = k := by
  unfold cTrunc
  rw [if_pos (by positivity), Int.floor_eq_iff]
  constructor
  · push_cast; linarith
  · push_cast; linarith

theorem cTrunc_of_nonneg {x : ℝ} (h : 0 ≤ x) : cTrunc x = ⌊x⌋ := by
  unfold cTrunc; rw [if_pos h]

theorem ringZ_range (n r : ℕ) (hn : 1 ≤ n) (h1 : 1 ≤ r) (h2 : r ≤ 4 * n - 1) :
    -1 ≤ ringZ n r ∧ ringZ n r ≤ 1 := by
  obtain ⟨i, rfl⟩ : ∃ i, r = i + 1 := ⟨r - 1, by omega⟩
  rw [← cos_pyTheta n i hn h2]
  exact ⟨Real.neg_one_le_cos _, Real.cos_le_one _⟩

theorem heRingNum_ringZ (n r : ℕ) (hn : 1 ≤ n) (hN : n ≤ 65536) (h1 : 1 ≤ r) (h2 : r ≤ 4 * n - 1) :
    heRingNum n (ringZ n r) = r := by
  have hn0 : (0:ℝ) < n := by exact_mod_cast (by omega : 0 < n)
  have hN0 : (n:ℝ) ≤ 65536 := by exact_mod_cast hN
  have hr0 : (1:ℝ) ≤ r := by exact_mod_cast h1
  unfold heRingNum
  simp only
  -- the square root for a squared height
  have hsqrt : ∀ k : ℝ, 0 ≤ k → Real.sqrt (3 * (k * k * (1 / (3 * (n:ℝ) * n)))) = k / n := by
    intro k hk
    have : 3 * (k * k * (1 / (3 * (n:ℝ) * n))) = (k / n) ^ 2 := by field_simp
    rw [this, Real.sqrt_sq (by positivity)]
  by_cases a : r < n
  · have hz : ringZ n r = 1 - (r:ℝ) * r * (1 / (3 * (n:ℝ) * n)) := by unfold ringZ; rw [if_pos a]
    have hlt : (r:ℝ) < n := by exact_mod_cast a
    have hlt1 : (r:ℝ) + 1 ≤ n := by exact_mod_cast a
    have hgt : (0.66666666:ℝ) < ringZ n r := by
      rw [hz]
      have : (r:ℝ) * r * (1 / (3 * (n:ℝ) * n)) < 1 / 3 := by
        rw [mul_one_div, div_lt_iff₀ (by positivity)]
        nlinarith
      linarith
    rw [if_neg (by linarith), if_pos hgt]
    have e : (n:ℝ) * Real.sqrt (3 * (1 - ringZ n r)) = r := by
      rw [hz]
      have : (1:ℝ) - (1 - (r:ℝ) * r * (1 / (3 * (n:ℝ) * n))) = r * r * (1 / (3 * (n:ℝ) * n)) := by ring
      rw [this, hsqrt _ (by positivity)]; field_simp
    rw [e, cTrunc_half, if_neg (by omega)]
  · by_cases b : r ≤ 3 * n
    · have hz : ringZ n r = (2 * (n:ℝ) - r) * (2 / (3 * (n:ℝ))) := by unfold ringZ; rw [if_neg a, if_pos b]
      have hge : (n:ℝ) ≤ r := by exact_mod_cast (by omega : n ≤ r)
      have hle : (r:ℝ) ≤ 3 * n := by exact_mod_cast b
      have heq : (n:ℝ) * (2 - 1.5 * ringZ n r) = r := by rw [hz]; field_simp; ring
      -- at most one of the outer branches is taken, only for the first and last equatorial rings
      by_cases hn1 : r = n
      · have hz1 : ringZ n r = 2 / 3 := by rw [hz, hn1]; field_simp; ring
        rw [hz1, if_neg (by norm_num), if_pos (by norm_num)]
        have : Real.sqrt (3 * (1 - 2 / 3)) = 1 := by norm_num
        rw [this, mul_one, cTrunc_half, if_neg (by omega), hn1]
      · by_cases hn3 : r = 3 * n
        · have hz1 : ringZ n r = -(2 / 3) := by rw [hz, hn3]; push_cast; field_simp; ring
          rw [hz1, if_pos (by norm_num)]
          have : Real.sqrt (3 * (1 + -(2 / 3))) = 1 := by norm_num
          rw [this, mul_one, cTrunc_half, if_neg (by omega), hn3]; push_cast; ring
        · have hge1 : (n:ℝ) + 1 ≤ r := by exact_mod_cast (by omega : n + 1 ≤ r)
          have hle1 : (r:ℝ) + 1 ≤ 3 * n := by exact_mod_cast (by omega : r + 1 ≤ 3 * n)
          have h3n : (0:ℝ) < 3 * n := by positivity
          have hup : ¬ ringZ n r > 0.66666666 := by
            rw [hz, not_lt, mul_div_assoc', div_le_iff₀ h3n]; nlinarith
          have hlo : ¬ ringZ n r < -0.66666666 := by
            rw [hz, not_lt, mul_div_assoc', le_div_iff₀ h3n]; nlinarith
          rw [if_neg hlo, if_neg hup, heq, cTrunc_half]
    · have hz : ringZ n r = -1 + (4 * (n:ℝ) - r) * (4 * n - r) * (1 / (3 * (n:ℝ) * n)) := by
        unfold ringZ; rw [if_neg a, if_neg b]
      have hlt1 : 3 * (n:ℝ) + 1 ≤ r := by exact_mod_cast (by omega : 3 * n + 1 ≤ r)
      have hle : (r:ℝ) + 1 ≤ 4 * n := by exact_mod_cast (by omega : r + 1 ≤ 4 * n)
      have hlo : ringZ n r < -0.66666666 := by
        rw [hz]
        have : (4 * (n:ℝ) - r) * (4 * n - r) * (1 / (3 * (n:ℝ) * n)) < 1 / 3 := by
          rw [mul_one_div, div_lt_iff₀ (by positivity)]
          nlinarith
        linarith
      rw [if_pos hlo]
      have e : (n:ℝ) * Real.sqrt (3 * (1 + ringZ n r)) = ((4 * n - r : ℕ) : ℝ) := by
        rw [hz]
        have : (1:ℝ) + (-1 + (4 * (n:ℝ) - r) * (4 * n - r) * (1 / (3 * (n:ℝ) * n))) =
          (4 * (n:ℝ) - r) * (4 * n - r) * (1 / (3 * (n:ℝ) * n)) := by ring
        rw [this, hsqrt _ (by linarith), Nat.cast_sub (by omega)]; push_cast; field_simp
      rw [e, cTrunc_half, if_neg (by omega)]
      omega

/-- Ring numbers do not increase with the height. -/
theorem heRingNum_anti (n : ℕ) (hn : 1 ≤ n) (hN : n ≤ 65536) {y z : ℝ} (hy : -1 ≤ y) (hyz : y ≤ z) (hz : z ≤ 1) :
    heRingNum n z ≤ heRingNum n y := by
  have hn0 : (1:ℝ) ≤ n := by exact_mod_cast hn
  have hN0 : (n:ℝ) ≤ 65536 := by exact_mod_cast hN
  -- the three pieces
  have mid : ∀ x : ℝ, -1 ≤ x → x ≤ 1 → cTrunc ((n:ℝ) * (2 - 1.5 * x) + 0.5) = ⌊(n:ℝ) * (2 - 1.5 * x) + 0.5⌋ := by
    intro x h1 h2
    apply cTrunc_of_nonneg
    have : 0 ≤ 2 - 1.5 * x := by linarith
    positivity
  have capf : ∀ x : ℝ, cTrunc ((n:ℝ) * Real.sqrt x + 0.5) = ⌊(n:ℝ) * Real.sqrt x + 0.5⌋ := by
    intro x; apply cTrunc_of_nonneg; positivity
  have one : ∀ a b : ℤ, a ≤ b → (if a = 0 then 1 else a) ≤ (if b = 0 then 1 else b) ∨ a < 0 := by
    intro a b h; by_cases ha : a < 0
    · right; exact ha
    · left; split_ifs <;> omega
  have fl0 : ∀ x : ℝ, 0 ≤ ⌊(n:ℝ) * Real.sqrt x + 0.5⌋ := by
    intro x; apply Int.floor_nonneg.mpr; positivity
  have sq_bound : ∀ x : ℝ, x ≤ 1.00000002 → Real.sqrt x ≤ 1.00000001 := by
    intro x h; rw [Real.sqrt_le_left (by norm_num)]; norm_num; linarith
  -- cap value is at most n
  have capn : ∀ x : ℝ, x ≤ 1.00000002 →
      (if ⌊(n:ℝ) * Real.sqrt x + 0.5⌋ = 0 then 1 else ⌊(n:ℝ) * Real.sqrt x + 0.5⌋) ≤ (n:ℤ) ∧
      1 ≤ (if ⌊(n:ℝ) * Real.sqrt x + 0.5⌋ = 0 then 1 else ⌊(n:ℝ) * Real.sqrt x + 0.5⌋) := by
    intro x h
    have h1 := sq_bound x h
    have h2 : ⌊(n:ℝ) * Real.sqrt x + 0.5⌋ < (n:ℤ) + 1 := by
      rw [Int.floor_lt]; push_cast; nlinarith
    have h3 := fl0 x
    constructor <;> split_ifs <;> omega
  have midlo : ∀ x : ℝ, -0.66666666 ≤ x → ⌊(n:ℝ) * (2 - 1.5 * x) + 0.5⌋ ≤ 3 * (n:ℤ) := by
    intro x h
    have : ⌊(n:ℝ) * (2 - 1.5 * x) + 0.5⌋ < 3 * (n:ℤ) + 1 := by
      rw [Int.floor_lt]; push_cast; nlinarith
    omega
  have midhi : ∀ x : ℝ, x ≤ 0.66666666 → (n:ℤ) ≤ ⌊(n:ℝ) * (2 - 1.5 * x) + 0.5⌋ := by
    intro x h
    rw [Int.le_floor]; push_cast; nlinarith
  unfold heRingNum
  simp only [capf]
  by_cases z1 : z < -0.66666666
  · have y1 : y < -0.66666666 := by linarith
    rw [if_pos z1, if_pos y1]
    have hs : ⌊(n:ℝ) * Real.sqrt (3 * (1 + y)) + 0.5⌋ ≤ ⌊(n:ℝ) * Real.sqrt (3 * (1 + z)) + 0.5⌋ := by
      apply Int.floor_mono
      have := Real.sqrt_le_sqrt (show 3 * (1 + y) ≤ 3 * (1 + z) by linarith)
      nlinarith
    rcases one _ _ hs with h | h
    · omega
    · have := fl0 (3 * (1 + y)); omega
  · rw [if_neg z1]
    by_cases y1 : y < -0.66666666
    · rw [if_pos y1]
      have h1 := capn (3 * (1 + y)) (by linarith)
      by_cases z2 : z > 0.66666666
      · rw [if_pos z2]
        have h2 := capn (3 * (1 - z)) (by linarith)
        omega
      · rw [if_neg z2, mid z (by linarith) hz]
        have := midlo z (by linarith)
        omega
    · rw [if_neg y1]
      by_cases z2 : z > 0.66666666
      · rw [if_pos z2]
        by_cases y2 : y > 0.66666666
        · rw [if_pos y2]
          have hs : ⌊(n:ℝ) * Real.sqrt (3 * (1 - z)) + 0.5⌋ ≤ ⌊(n:ℝ) * Real.sqrt (3 * (1 - y)) + 0.5⌋ := by
            apply Int.floor_mono
            have := Real.sqrt_le_sqrt (show 3 * (1 - z) ≤ 3 * (1 - y) by linarith)
            nlinarith
          rcases one _ _ hs with h | h
          · exact h
          · have := fl0 (3 * (1 - z)); omega
        · rw [if_neg y2, mid y hy (by linarith)]
          have h2 := capn (3 * (1 - z)) (by linarith)
          have := midhi y (by linarith)
          omega
      · rw [if_neg z2, if_neg (by linarith), mid z (by linarith) hz, mid y hy (by linarith)]
        apply Int.floor_mono
        nlinarith

end NaMaster
