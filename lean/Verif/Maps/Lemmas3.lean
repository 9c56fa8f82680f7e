import Verif.Maps.Lemmas2

set_option linter.unusedSectionVars false

/-! # Auxiliary results on CAR maps -/

namespace NaMaster

open Finset

section
variable {K : Type*}

theorem flat_div {nx i j : ℕ} (hj : j < nx) : (i * nx + j) / nx = i := by
  rw [mul_comm, Nat.mul_add_div (by omega), Nat.div_eq_of_lt hj, add_zero]

theorem flat_mod {nx i j : ℕ} (hj : j < nx) : (i * nx + j) % nx = j := by
  rw [mul_comm, Nat.mul_add_mod, Nat.mod_eq_of_lt hj]

theorem flat_bound {ny nx i j : ℕ} (hi : i < ny) (hj : j < nx) : i * nx + j < ny * nx := by
  calc i * nx + j < i * nx + nx := by omega
    _ = (i + 1) * nx := by ring
    _ ≤ ny * nx := Nat.mul_le_mul_right _ hi

/-- Sum over a flattened array. -/
theorem sum_flat_map [AddCommMonoid K] (nx : ℕ) (f : ℕ → K) : ∀ ny,
    ∑ p ∈ range (ny * nx), f p = ∑ i ∈ range ny, ∑ j ∈ range nx, f (i * nx + j) := by
  intro ny
  induction ny with
  | zero => simp
  | succ ny ih =>
    rw [sum_range_succ, ← ih, Nat.succ_mul, Finset.sum_range_add]

theorem reform_at [Zero K] {ny nx : ℕ} {ft fp : Bool} {m : ℕ → ℕ → K} {v : ℕ → K}
    (h : reformMap ny nx ft fp ny nx m = .ok v) {i j : ℕ} (hi : i < ny) (hj : j < nx) :
    v (i * nx + j) = m (if ft then ny - 1 - i else i) (if fp then nx - 1 - j else j) := by
  unfold reformMap at h
  rw [if_pos ⟨rfl, rfl⟩] at h
  injection h with h
  rw [← h, tab_of_lt _ (flat_bound hi hj), flat_div hj, flat_mod hj]
  cases ft <;> cases fp <;> rfl

theorem carInfo_ok {w : Wcs} {ny nx : ℕ} {a : MapInfo} (h : carInfo w ny nx = .ok a) :
    w.dRa ≠ 0 ∧ w.dDec ≠ 0 ∧
    abs (round (2 * Real.pi / |radians w.dRa|) - 2 * Real.pi / |radians w.dRa|) ≤ 0.01 ∧
    0 ≤ radians (90 - max (w.dec 0) (w.dec (ny - 1))) ∧
    radians (90 - min (w.dec 0) (w.dec (ny - 1))) ≤ Real.pi ∧
    |nx * w.dRa| ≤ 360 + 0.1 * |w.dRa| ∧
    a = .car ny nx (decide (w.dDec > 0)) (decide (w.dRa < 0))
      (radians (90 - max (w.dec 0) (w.dec (ny - 1)))) (radians (90 - min (w.dec 0) (w.dec (ny - 1))))
      (radians (w.ra (if decide (w.dRa < 0) then nx - 1 else 0))) |radians w.dDec| |radians w.dRa|
      (cTrunc (2 * Real.pi / |radians w.dRa| + 0.5))
      (cTrunc (radians (90 - max (w.dec 0) (w.dec (ny - 1))) / |radians w.dDec| + 0.5))
      (cTrunc (Real.pi / |radians w.dDec| + 0.5) + 1) := by
  unfold carInfo at h
  simp only at h
  by_cases h1 : ¬ (w.car = true)
  · rw [if_pos h1] at h; cases h
  rw [if_neg h1] at h
  by_cases h2 : |w.dec0| > 1e-3
  · rw [if_pos h2] at h; cases h
  rw [if_neg h2] at h
  by_cases h3 : |radians w.dRa| = 0 ∨ |radians w.dDec| = 0
  · rw [if_pos h3] at h; cases h
  rw [if_neg h3] at h
  by_cases h4 : abs (round (2 * Real.pi / |radians w.dRa|) - 2 * Real.pi / |radians w.dRa|) > 0.01 ∨
      abs (round (Real.pi / |radians w.dDec|) - Real.pi / |radians w.dDec|) > 0.01
  · rw [if_pos h4] at h; cases h
  rw [if_neg h4] at h
  by_cases h5 : radians (90 - max (w.dec 0) (w.dec (ny - 1))) < 0 ∨
      radians (90 - min (w.dec 0) (w.dec (ny - 1))) > Real.pi
  · rw [if_pos h5] at h; cases h
  rw [if_neg h5] at h
  by_cases h6 : |nx * w.dRa| > 360 + 0.1 * |w.dRa|
  · rw [if_pos h6] at h; cases h
  rw [if_neg h6] at h
  injection h with h
  push Not at h3 h4 h5 h6
  refine ⟨fun e => h3.1 (by rw [e]; simp [radians]), fun e => h3.2 (by rw [e]; simp [radians]), h4.1, h5.1, h5.2,
    h6, h.symm⟩

theorem abs_radians (x : ℝ) : |radians x| = radians |x| := by
  unfold radians
  rw [abs_mul, abs_of_pos (by positivity : (0:ℝ) < Real.pi / 180)]

theorem radians_pos {x : ℝ} (h : 0 < x) : 0 < radians x := by unfold radians; positivity

/-- Colatitude and azimuth of the pixels after reordering. -/
theorem car_positions {w : Wcs} {ny nx : ℕ} {i j : ℕ} (hi : i < ny) (hj : j < nx) :
    radians (90 - w.dec ((if decide (w.dDec > 0) then ny - 1 - i else i : ℕ) : ℝ)) =
      radians (90 - max (w.dec 0) (w.dec (ny - 1))) + i * |radians w.dDec| ∧
    radians (w.ra ((if decide (w.dRa < 0) then nx - 1 - j else j : ℕ) : ℝ)) =
      radians (w.ra (if decide (w.dRa < 0) then nx - 1 else 0)) + j * |radians w.dRa| := by
  have hi' : (1:ℝ) ≤ ny := by exact_mod_cast (by omega : 1 ≤ ny)
  have hj' : (1:ℝ) ≤ nx := by exact_mod_cast (by omega : 1 ≤ nx)
  constructor
  · rw [abs_radians]
    by_cases h : w.dDec > 0
    · have e : ((ny - 1 - i : ℕ) : ℝ) = ny - 1 - i := by
        rw [Nat.cast_sub (by omega), Nat.cast_sub (by omega)]; push_cast; ring
      have hm : max (w.dec 0) (w.dec (ny - 1)) = w.dec (ny - 1) := by
        apply max_eq_right; unfold Wcs.dec; nlinarith
      rw [if_pos (by simpa using h), e, hm, abs_of_pos h]
      unfold Wcs.dec radians; ring
    · have hm : max (w.dec 0) (w.dec (ny - 1)) = w.dec 0 := by
        apply max_eq_left; unfold Wcs.dec; push Not at h; nlinarith
      rw [if_neg (by simpa using h), hm, abs_of_nonpos (not_lt.mp h)]
      unfold Wcs.dec radians; ring
  · rw [abs_radians]
    by_cases h : w.dRa < 0
    · have e : ((nx - 1 - j : ℕ) : ℝ) = nx - 1 - j := by
        rw [Nat.cast_sub (by omega), Nat.cast_sub (by omega)]; push_cast; ring
      rw [if_pos (by simpa using h), if_pos (by simpa using h), e, abs_of_neg h]
      unfold Wcs.ra radians; ring
    · rw [if_neg (by simpa using h), if_neg (by simpa using h), abs_of_nonneg (not_lt.mp h)]
      unfold Wcs.ra radians; ring

theorem car_theta_max {w : Wcs} {ny : ℕ} (hy : 1 ≤ ny) :
    radians (90 - min (w.dec 0) (w.dec (ny - 1))) =
      radians (90 - max (w.dec 0) (w.dec (ny - 1))) + (ny - 1) * |radians w.dDec| := by
  have hi' : (1:ℝ) ≤ ny := by exact_mod_cast hy
  rw [abs_radians]
  by_cases h : w.dDec > 0
  · have hle : w.dec 0 ≤ w.dec (ny - 1) := by unfold Wcs.dec; nlinarith
    rw [max_eq_right hle, min_eq_left hle, abs_of_pos h]
    unfold Wcs.dec radians; ring
  · have hle : w.dec (ny - 1) ≤ w.dec 0 := by unfold Wcs.dec; push Not at h; nlinarith
    rw [max_eq_left hle, min_eq_right hle, abs_of_nonpos (not_lt.mp h)]
    unfold Wcs.dec radians; ring

end

end NaMaster
