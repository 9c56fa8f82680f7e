import Verif.Flat.MasterSpec
import Mathlib.Algebra.BigOperators.Ring.Finset
import Mathlib.Tactic.Positivity

/-! # Lemmas for the flat-sky pseudo-spectrum -/

namespace NaMaster

open Real Finset MeasureTheory

theorem mem_modes {fs : FlatInfo} {k : ℕ × ℕ} : k ∈ fs.modes ↔ k.1 < fs.nx ∧ k.2 < fs.ny := by
  simp [FlatInfo.modes]

theorem subIdx_lt {n i j : ℕ} (hi : i < n) (hj : j < n) : subIdx n i j < n := by
  unfold subIdx; split_ifs <;> omega

theorem sub_mem {fs : FlatInfo} {k1 k2 : ℕ × ℕ} (h1 : k1 ∈ fs.modes) (h2 : k2 ∈ fs.modes) : fs.sub k1 k2 ∈ fs.modes := by
  rw [mem_modes] at *
  exact ⟨subIdx_lt h1.1 h2.1, subIdx_lt h1.2 h2.2⟩

theorem subIdx_phase {n i j : ℕ} (hn : 0 < n) (hj : j < n) (p : ℕ) :
    ∃ m : ℤ, (p : ℝ) * (subIdx n i j : ℕ) / n = p * i / n - p * j / n + m := by
  have hn' : (n : ℝ) ≠ 0 := by positivity
  unfold subIdx
  split_ifs with h
  · refine ⟨p, ?_⟩
    rw [Nat.cast_sub (by omega)]
    push_cast
    field_simp
    ring
  · refine ⟨0, ?_⟩
    rw [Nat.cast_sub (by omega)]
    push_cast
    field_simp
    ring

theorem exp_sub_phase {fs : FlatInfo} {k1 k2 : ℕ × ℕ} (h2 : k2 ∈ fs.modes) (p : ℕ × ℕ) :
    Complex.exp (-(fs.phase (fs.sub k1 k2) p) * Complex.I) =
      Complex.exp (-(fs.phase k1 p) * Complex.I) * Complex.exp (fs.phase k2 p * Complex.I) := by
  rw [mem_modes] at h2
  obtain ⟨m1, h1⟩ := subIdx_phase (i := k1.1) (by omega) h2.1 p.1
  obtain ⟨m2, h2⟩ := subIdx_phase (i := k1.2) (by omega) h2.2 p.2
  rw [← Complex.exp_add, Complex.exp_eq_exp_iff_exists_int]
  refine ⟨-(m1 + m2), ?_⟩
  have : fs.phase (fs.sub k1 k2) p = fs.phase k1 p - fs.phase k2 p + (m1 + m2) * (2 * π) := by
    unfold FlatInfo.phase FlatInfo.sub
    simp only [h1, h2]
    ring
  rw [this]
  push_cast
  ring

/-- Multiplication with a mask mixes modes. -/
theorem dft_mul {fs : FlatInfo} (mask f : ℕ × ℕ → ℝ) (F : ℕ × ℕ → ℂ) (hf : HasModes fs f F) (k1 : ℕ × ℕ) :
    fs.dft (fun p => mask p * f p) k1 = ∑ k2 ∈ fs.modes, F k2 * fs.dft mask (fs.sub k1 k2) := by
  unfold FlatInfo.dft
  simp only [Finset.mul_sum]
  rw [Finset.sum_comm]
  refine Finset.sum_congr rfl fun p hp => ?_
  push_cast
  rw [hf p hp, Finset.mul_sum, Finset.sum_mul]
  refine Finset.sum_congr rfl fun k2 hk2 => ?_
  rw [exp_sub_phase hk2 p]
  ring

/-- The index of the opposite mode. -/
def negIdx (n i : ℕ) : ℕ := (n - i) % n

theorem negIdx_lt {n i : ℕ} (hn : 0 < n) : negIdx n i < n := Nat.mod_lt _ hn

theorem negIdx_neg {n i : ℕ} (hi : i < n) : negIdx n (negIdx n i) = i := by
  unfold negIdx
  rcases Nat.eq_zero_or_pos i with rfl | h
  · simp
  · rw [Nat.mod_eq_of_lt (by omega : n - i < n), Nat.mod_eq_of_lt (by omega)]; omega

theorem negIdx_of_pos {n i : ℕ} (hi : 0 < i) : negIdx n i = n - i := by
  unfold negIdx
  rcases Nat.eq_zero_or_pos n with rfl | h
  · simp
  · exact Nat.mod_eq_of_lt (by omega)

theorem negIdx_phase {n i : ℕ} (hi : i < n) (p : ℕ) : ∃ m : ℤ, (p : ℝ) * (negIdx n i : ℕ) / n = -(p * i / n) + m := by
  have hn' : (n : ℝ) ≠ 0 := by have : 0 < n := by omega
                               positivity
  rcases Nat.eq_zero_or_pos i with rfl | h
  · exact ⟨0, by simp [negIdx]⟩
  · rw [negIdx_of_pos h]
    refine ⟨p, ?_⟩
    rw [Nat.cast_sub (by omega)]
    push_cast
    field_simp
    ring

/-- The transform of a real map at the opposite mode. -/
theorem dft_neg {fs : FlatInfo} (f : ℕ × ℕ → ℝ) {k : ℕ × ℕ} (hk : k ∈ fs.modes) :
    fs.dft f (negIdx fs.nx k.1, negIdx fs.ny k.2) = star (fs.dft f k) := by
  unfold FlatInfo.dft
  rw [star_sum]
  refine Finset.sum_congr rfl fun p _ => ?_
  rw [mem_modes] at hk
  obtain ⟨m1, h1⟩ := negIdx_phase hk.1 p.1
  obtain ⟨m2, h2⟩ := negIdx_phase hk.2 p.2
  rw [star_mul']
  have hs : star ((f p : ℂ)) = (f p : ℂ) := Complex.conj_ofReal _
  rw [hs]
  congr 1
  have : star (Complex.exp (-(fs.phase k p) * Complex.I)) = Complex.exp (fs.phase k p * Complex.I) := by
    rw [Complex.star_def, ← Complex.exp_conj]
    simp
  rw [this, Complex.exp_eq_exp_iff_exists_int]
  refine ⟨-(m1 + m2), ?_⟩
  have : fs.phase (negIdx fs.nx k.1, negIdx fs.ny k.2) p = -fs.phase k p + (m1 + m2) * (2 * π) := by
    unfold FlatInfo.phase
    simp only [h1, h2]
    ring
  rw [this]
  push_cast
  ring

theorem map2alm_neg {fs : FlatInfo} (f : ℕ × ℕ → ℝ) {k : ℕ × ℕ} (hk : k ∈ fs.modes) :
    fs.map2alm f (negIdx fs.nx k.1, negIdx fs.ny k.2) = star (fs.map2alm f k) := by
  unfold FlatInfo.map2alm
  rw [dft_neg f hk, star_mul']
  congr 1
  exact (Complex.conj_ofReal _).symm

/-! ## Wave numbers of opposite modes -/

theorem waveNum_neg {n i : ℕ} (l : ℝ) (hi : i < n) (hny : 2 * i ≠ n) : waveNum n l (negIdx n i) = -waveNum n l i := by
  rcases Nat.eq_zero_or_pos i with rfl | h
  · simp [negIdx, waveNum]
  · rw [negIdx_of_pos h]
    unfold waveNum
    by_cases h2 : 2 * i ≤ n
    · rw [if_pos h2, if_neg (by omega), Nat.cast_sub (by omega)]
      ring
    · rw [if_neg h2, if_pos (by omega), Nat.cast_sub (by omega)]
      ring

theorem waveNum_neg_sq {n i : ℕ} (l : ℝ) (hi : i < n) :
    waveNum n l (negIdx n i) * waveNum n l (negIdx n i) = waveNum n l i * waveNum n l i := by
  by_cases h : 2 * i = n
  · have : negIdx n i = i := by
      rw [negIdx_of_pos (by omega)]; omega
    rw [this]
  · rw [waveNum_neg l hi h]; ring

theorem kmod_neg {fs : FlatInfo} {k : ℕ × ℕ} (hk : k ∈ fs.modes) : fs.kmod k.1 (negIdx fs.ny k.2) = fs.kmod k.1 k.2 := by
  rw [mem_modes] at hk
  unfold FlatInfo.kmod FlatInfo.ky
  rw [waveNum_neg_sq _ hk.2]

theorem kx_ne_zero {fs : FlatInfo} {ix : ℕ} (hl : 0 < fs.lx) (h : fs.nx < 2 * ix) (hi : ix < fs.nx) : fs.kx ix ≠ 0 := by
  unfold FlatInfo.kx waveNum
  rw [if_neg (by omega)]
  have : (ix : ℝ) < fs.nx := by exact_mod_cast hi
  have h1 : 0 < (fs.nx : ℝ) - ix := by linarith
  have h2 : 0 < 2 * π / fs.lx := by positivity
  have := mul_pos h1 h2
  intro h0
  linarith

/-! ## Angles -/

theorem modeDir_angle (fs : FlatInfo) (k : ℕ × ℕ) :
    modeDir (fs.kx k.1) (fs.ky k.2) = (cos (modeAngle fs k), sin (modeAngle fs k)) := by
  unfold modeDir modeAngle
  set z : ℂ := fs.kx k.1 + fs.ky k.2 * Complex.I with hz
  have hre : z.re = fs.kx k.1 := by simp [hz]
  have him : z.im = fs.ky k.2 := by simp [hz]
  have hn : ‖z‖ = √(fs.kx k.1 * fs.kx k.1 + fs.ky k.2 * fs.ky k.2) := by
    rw [Complex.norm_def, Complex.normSq_apply, hre, him]
  by_cases h0 : fs.kx k.1 * fs.kx k.1 + fs.ky k.2 * fs.ky k.2 ≤ 0
  · simp only [if_pos h0]
    have hx : fs.kx k.1 = 0 := by nlinarith [mul_self_nonneg (fs.kx k.1), mul_self_nonneg (fs.ky k.2)]
    have hy : fs.ky k.2 = 0 := by nlinarith [mul_self_nonneg (fs.kx k.1), mul_self_nonneg (fs.ky k.2)]
    have : z = 0 := by rw [hz, hx, hy]; simp
    rw [this]; simp
  · simp only [if_neg h0]
    have hzn : z ≠ 0 := by
      intro h
      rw [h] at hn
      simp only [norm_zero] at hn
      exact (Real.sqrt_pos.2 (not_le.1 h0)).ne hn
    rw [Complex.cos_arg hzn, Complex.sin_arg, hn, hre, him]
    simp [div_eq_mul_inv]

theorem angles_eq (fs : FlatInfo) (spin : ℕ) (k : ℕ × ℕ) :
    fs.angles spin k = (cos (spin * modeAngle fs k), sin (spin * modeAngle fs k)) := by
  have h : fs.angles spin k = csRec (modeDir (fs.kx k.1) (fs.ky k.2)).1 (modeDir (fs.kx k.1) (fs.ky k.2)).2 spin := by
    unfold FlatInfo.angles modeDir FlatInfo.kmod
    by_cases h0 : fs.kx k.1 * fs.kx k.1 + fs.ky k.2 * fs.ky k.2 ≤ 0
    · have h1 : √(fs.kx k.1 * fs.kx k.1 + fs.ky k.2 * fs.ky k.2) = 0 := Real.sqrt_eq_zero_of_nonpos h0
      simp only [h1, if_pos h0, gt_iff_lt, lt_irrefl, if_false]
    · simp only [if_neg h0, gt_iff_lt, Real.sqrt_pos.2 (not_le.1 h0), if_true, mul_one_div]
  rw [h, modeDir_angle, csRec_angle]

theorem cdiff_eq (fs : FlatInfo) (spin : ℕ) (k1 k2 : ℕ × ℕ) :
    fs.cdiff spin k1 k2 = cos (spin * (modeAngle fs k1 - modeAngle fs k2)) := by
  unfold FlatInfo.cdiff
  rw [angles_eq, angles_eq, mul_sub, cos_sub]

theorem sdiff_eq (fs : FlatInfo) (spin : ℕ) (k1 k2 : ℕ × ℕ) :
    fs.sdiff spin k1 k2 = sin (spin * (modeAngle fs k1 - modeAngle fs k2)) := by
  unfold FlatInfo.sdiff
  rw [angles_eq, angles_eq, mul_sub, sin_sub]

/-! ## Coefficients of masked maps -/

theorem qu2eb_eb2qu (fs : FlatInfo) (spin : ℕ) (hs : spin ≠ 0) (k1 k2 : ℕ × ℕ) (a : ℂ × ℂ) :
    qu2eb spin (fs.kx k1.1) (fs.ky k1.2) (eb2qu spin (fs.kx k2.1) (fs.ky k2.2) a) =
      (rotEB spin (modeAngle fs k1 - modeAngle fs k2) 0 0 * a.1 + rotEB spin (modeAngle fs k1 - modeAngle fs k2) 0 1 * a.2,
        rotEB spin (modeAngle fs k1 - modeAngle fs k2) 1 0 * a.1 +
          rotEB spin (modeAngle fs k1 - modeAngle fs k2) 1 1 * a.2) := by
  have hg := sig_mul spin
  obtain ⟨e, b⟩ := a
  simp only [qu2eb, eb2qu, modeDir_angle, csRec_angle, rotEB, if_neg hs]
  rw [mul_sub (spin : ℝ), cos_sub, sin_sub]
  push_cast
  generalize sigOverall spin * Complex.I ^ spin = g at *
  generalize sigOverall spin * (-Complex.I) ^ spin = g' at *
  ext
  · simp only
    linear_combination (Complex.cos (spin * modeAngle fs k1) * (Complex.cos (spin * modeAngle fs k2) * e +
        Complex.sin (spin * modeAngle fs k2) * b) - Complex.sin (spin * modeAngle fs k1) *
        (-Complex.sin (spin * modeAngle fs k2) * e + Complex.cos (spin * modeAngle fs k2) * b)) * hg
  · simp only
    linear_combination (Complex.sin (spin * modeAngle fs k1) * (Complex.cos (spin * modeAngle fs k2) * e +
        Complex.sin (spin * modeAngle fs k2) * b) + Complex.cos (spin * modeAngle fs k1) *
        (-Complex.sin (spin * modeAngle fs k2) * e + Complex.cos (spin * modeAngle fs k2) * b)) * hg

theorem qu2eb_sum (spin : ℕ) (kx ky : ℝ) {ι : Type*} (s : Finset ι) (w : ι → ℂ) (a : ι → ℂ × ℂ) :
    qu2eb spin kx ky (∑ i ∈ s, w i * (a i).1, ∑ i ∈ s, w i * (a i).2) =
      (∑ i ∈ s, w i * (qu2eb spin kx ky (a i)).1, ∑ i ∈ s, w i * (qu2eb spin kx ky (a i)).2) := by
  simp only [qu2eb]
  ext
  · simp only [Finset.sum_mul, Finset.mul_sum, ← Finset.sum_sub_distrib]
    exact Finset.sum_congr rfl fun i _ => by ring
  · simp only [Finset.sum_mul, Finset.mul_sum, ← Finset.sum_add_distrib]
    exact Finset.sum_congr rfl fun i _ => by ring

theorem map2alm_mul {fs : FlatInfo} (mask f : ℕ × ℕ → ℝ) (F : ℕ × ℕ → ℂ) (hf : HasModes fs f F) (k1 : ℕ × ℕ) :
    fs.map2alm (fun p => mask p * f p) k1 = ∑ k2 ∈ fs.modes, fs.map2alm mask (fs.sub k1 k2) * F k2 := by
  unfold FlatInfo.map2alm
  rw [dft_mul mask f F hf k1, Finset.sum_mul]
  exact Finset.sum_congr rfl fun i _ => by ring

/-- The coefficients of the masked maps in terms of the modes of the sky. -/
theorem maskedAlm_eq {fs : FlatInfo} (spin : ℕ) (mask : ℕ × ℕ → ℝ) (m : ℕ → ℕ × ℕ → ℝ) (F : ℕ → ℕ × ℕ → ℂ)
    (h : SkyHas fs spin m F) {X : ℕ} (hX : X < nmapsOf spin) (k1 : ℕ × ℕ) :
    maskedAlm fs spin mask m X k1 = ∑ j ∈ fs.modes ×ˢ range (nmapsOf spin),
      fs.map2alm mask (fs.sub k1 j.1) * rotEB spin (modeAngle fs k1 - modeAngle fs j.1) X j.2 * F j.2 j.1 := by
  unfold SkyHas at h
  unfold maskedAlm
  by_cases hs : spin = 0
  · rw [if_pos hs] at h ⊢
    rw [map2alm_mul mask (m 0) (F 0) h, Finset.sum_product]
    refine Finset.sum_congr rfl fun k _ => ?_
    simp [nmapsOf, hs, rotEB]
  · rw [if_neg hs] at h ⊢
    have hn : nmapsOf spin = 2 := by simp [nmapsOf, hs]
    rw [hn] at hX ⊢
    have hkey : fs.map2almSpin spin (fun p => mask p * m 0 p) (fun p => mask p * m 1 p) k1 =
        (∑ k2 ∈ fs.modes, fs.map2alm mask (fs.sub k1 k2) *
            (rotEB spin (modeAngle fs k1 - modeAngle fs k2) 0 0 * F 0 k2 +
              rotEB spin (modeAngle fs k1 - modeAngle fs k2) 0 1 * F 1 k2),
          ∑ k2 ∈ fs.modes, fs.map2alm mask (fs.sub k1 k2) *
            (rotEB spin (modeAngle fs k1 - modeAngle fs k2) 1 0 * F 0 k2 +
              rotEB spin (modeAngle fs k1 - modeAngle fs k2) 1 1 * F 1 k2)) := by
      unfold FlatInfo.map2almSpin
      rw [map2alm_mul mask (m 0) _ h.1, map2alm_mul mask (m 1) _ h.2,
        qu2eb_sum spin (fs.kx k1.1) (fs.ky k1.2) fs.modes (fun k2 => fs.map2alm mask (fs.sub k1 k2))
          (fun k2 => eb2qu spin (fs.kx k2.1) (fs.ky k2.2) (F 0 k2, F 1 k2))]
      simp only [qu2eb_eb2qu fs spin hs]
    rw [hkey, Finset.sum_product]
    rcases (by omega : X = 0 ∨ X = 1) with rfl | rfl
    · rw [if_pos rfl]
      refine Finset.sum_congr rfl fun k _ => ?_
      rw [Finset.sum_range_succ, Finset.sum_range_one]
      ring
    · rw [if_neg (by norm_num)]
      refine Finset.sum_congr rfl fun k _ => ?_
      rw [Finset.sum_range_succ, Finset.sum_range_one]
      ring

end NaMaster
