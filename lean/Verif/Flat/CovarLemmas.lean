import Verif.Flat.CovarSpec
import Verif.Flat.MasterProps
import Verif.Syn.Power

/-! # Lemmas for flat-sky covariances -/

namespace NaMaster

open Real Finset MeasureTheory

/-! ## Quadratic forms of white noise -/

/-- A quadratic form in two maps. -/
def quadForm (fs : FlatInfo) (A : ℕ × ℕ → ℕ × ℕ → ℝ) (f g : ℕ × ℕ → ℝ) : ℝ := ∑ p ∈ fs.modes, ∑ q ∈ fs.modes, A p q * (f p * g q)

theorem integral_sum2 {Ω ι : Type*} [MeasurableSpace Ω] {μ : Measure Ω} (S : Finset ι) (A : ι → ι → ℝ) (g : Ω → ι → ι → ℝ)
    (h : ∀ p ∈ S, ∀ q ∈ S, Integrable (fun ω => g ω p q) μ) :
    Integrable (fun ω => ∑ p ∈ S, ∑ q ∈ S, A p q * g ω p q) μ ∧
    ∫ ω, ∑ p ∈ S, ∑ q ∈ S, A p q * g ω p q ∂μ = ∑ p ∈ S, ∑ q ∈ S, A p q * ∫ ω, g ω p q ∂μ := by
  have h1 : ∀ p ∈ S, ∀ q ∈ S, Integrable (fun ω => A p q * g ω p q) μ := fun p hp q hq => (h p hp q hq).const_mul _
  refine ⟨integrable_finsetSum _ fun p hp => integrable_finsetSum _ fun q hq => h1 p hp q hq, ?_⟩
  rw [integral_finsetSum _ fun p hp => integrable_finsetSum _ fun q hq => h1 p hp q hq]
  refine sum_congr rfl fun p hp => ?_
  rw [integral_finsetSum _ fun q hq => h1 p hp q hq]
  exact sum_congr rfl fun q hq => integral_const_mul _ _

/-- The covariance of two quadratic forms of white noise. -/
theorem quad_covar {Ω : Type*} [MeasurableSpace Ω] {μ : Measure Ω} {fs : FlatInfo} {f : ℕ → Ω → ℕ × ℕ → ℝ} {σ : ℕ → ℕ → ℝ}
    (h : WhitePixels μ fs f σ) (A B : ℕ × ℕ → ℕ × ℕ → ℝ) :
    Integrable (fun ω => quadForm fs A (f 0 ω) (f 1 ω)) μ ∧ Integrable (fun ω => quadForm fs B (f 2 ω) (f 3 ω)) μ ∧
    Integrable (fun ω => quadForm fs A (f 0 ω) (f 1 ω) * quadForm fs B (f 2 ω) (f 3 ω)) μ ∧
    covar μ (fun ω => quadForm fs A (f 0 ω) (f 1 ω)) (fun ω => quadForm fs B (f 2 ω) (f 3 ω)) =
      σ 0 2 * σ 1 3 * (∑ p ∈ fs.modes, ∑ q ∈ fs.modes, A p q * B p q) +
      σ 0 3 * σ 1 2 * ∑ p ∈ fs.modes, ∑ q ∈ fs.modes, A p q * B q p := by
  obtain ⟨i1, e1⟩ := integral_sum2 (μ := μ) fs.modes A (fun ω p q => f 0 ω p * f 1 ω q)
    (fun p hp q hq => h.int2 0 1 (by omega) (by omega) p hp q hq)
  obtain ⟨i2, e2⟩ := integral_sum2 (μ := μ) fs.modes B (fun ω p q => f 2 ω p * f 3 ω q)
    (fun p hp q hq => h.int2 2 3 (by omega) (by omega) p hp q hq)
  have hp : ∀ ω, quadForm fs A (f 0 ω) (f 1 ω) * quadForm fs B (f 2 ω) (f 3 ω) =
      ∑ p ∈ fs.modes, ∑ q ∈ fs.modes, A p q * ∑ r ∈ fs.modes, ∑ s ∈ fs.modes, B r s * (f 0 ω p * f 1 ω q * (f 2 ω r * f 3 ω s)) := by
    intro ω
    unfold quadForm
    rw [sum_mul]
    refine sum_congr rfl fun p _ => ?_
    rw [sum_mul]
    refine sum_congr rfl fun q _ => ?_
    rw [mul_assoc]
    congr 1
    rw [mul_sum]
    refine sum_congr rfl fun r _ => ?_
    rw [mul_sum]
    exact sum_congr rfl fun s _ => by ring
  have hin : ∀ p ∈ fs.modes, ∀ q ∈ fs.modes, _ := fun p hp q hq =>
    integral_sum2 (μ := μ) fs.modes B (fun ω r s => f 0 ω p * f 1 ω q * (f 2 ω r * f 3 ω s))
      (fun r hr s hs => h.int4 0 1 2 3 (by omega) (by omega) (by omega) (by omega) p hp q hq r hr s hs)
  obtain ⟨i3, e3⟩ := integral_sum2 (μ := μ) fs.modes A
    (fun ω p q => ∑ r ∈ fs.modes, ∑ s ∈ fs.modes, B r s * (f 0 ω p * f 1 ω q * (f 2 ω r * f 3 ω s))) (fun p hp q hq => (hin p hp q hq).1)
  refine ⟨i1, i2, ?_, ?_⟩
  · simp only [hp]; exact i3
  unfold covar
  simp only [hp]
  rw [e3]
  unfold quadForm
  rw [e1, e2, sum_mul, ← sum_sub_distrib, mul_sum, mul_sum, ← sum_add_distrib]
  refine sum_congr rfl fun p hp => ?_
  rw [sum_mul, ← sum_sub_distrib, mul_sum, mul_sum, ← sum_add_distrib]
  refine sum_congr rfl fun q hq => ?_
  rw [(hin p hp q hq).2, h.second 0 1 (by omega) (by omega) p hp q hq]
  have e : ∀ r ∈ fs.modes, ∀ s ∈ fs.modes, B r s * ∫ ω, f 0 ω p * f 1 ω q * (f 2 ω r * f 3 ω s) ∂μ =
      whiteCov σ 0 1 p q * (B r s * ∫ ω, f 2 ω r * f 3 ω s ∂μ) +
      (if p = r then (if q = s then σ 0 2 * σ 1 3 * B r s else 0) else 0) +
      (if p = s then (if q = r then σ 0 3 * σ 1 2 * B r s else 0) else 0) := by
    intro r hr s hs
    rw [h.fourth 0 1 2 3 (by omega) (by omega) (by omega) (by omega) p hp q hq r hr s hs,
      h.second 2 3 (by omega) (by omega) r hr s hs]
    unfold whiteCov
    split_ifs <;> ring
  rw [sum_congr rfl fun r hr => sum_congr rfl fun s hs => e r hr s hs]
  simp only [sum_add_distrib, ← mul_sum]
  have g1 : ∑ r ∈ fs.modes, ∑ s ∈ fs.modes, (if p = r then (if q = s then σ 0 2 * σ 1 3 * B r s else 0) else 0) =
      σ 0 2 * σ 1 3 * B p q := by
    rw [sum_eq_single p, sum_eq_single q]
    · simp
    · intro s _ hs; rw [if_neg (Ne.symm hs)]; simp
    · intro hn; exact absurd hq hn
    · intro r _ hr
      exact sum_eq_zero fun s _ => if_neg (Ne.symm hr)
    · intro hn; exact absurd hp hn
  have g2 : ∑ r ∈ fs.modes, ∑ s ∈ fs.modes, (if p = s then (if q = r then σ 0 3 * σ 1 2 * B r s else 0) else 0) =
      σ 0 3 * σ 1 2 * B q p := by
    rw [sum_eq_single q, sum_eq_single p]
    · simp
    · intro s _ hs; rw [if_neg (Ne.symm hs)]
    · intro hn; exact absurd hp hn
    · intro r _ hr
      exact sum_eq_zero fun s _ => by rw [if_neg (Ne.symm hr)]; simp
    · intro hn; exact absurd hq hn
  rw [g1, g2]
  ring

/-! ## Sums over modes -/

/-- The kernel of a set of modes. -/
noncomputable def modeKernel (fs : FlatInfo) (B : Finset (ℕ × ℕ)) (p q : ℕ × ℕ) : ℝ :=
  ∑ k ∈ B, cos (fs.phase k p - fs.phase k q)

theorem modeKernel_symm (fs : FlatInfo) (B : Finset (ℕ × ℕ)) (p q : ℕ × ℕ) : modeKernel fs B q p = modeKernel fs B p q := by
  unfold modeKernel
  exact sum_congr rfl fun k _ => by rw [← cos_neg, neg_sub]

theorem exp_pair_re (x y : ℝ) : (Complex.exp (-(x : ℂ) * Complex.I) * star (Complex.exp (-(y : ℂ) * Complex.I))).re = cos (x - y) := by
  have h : star (Complex.exp (-(y : ℂ) * Complex.I)) = Complex.exp (y * Complex.I) := by
    rw [Complex.star_def, ← Complex.exp_conj]
    simp
  rw [h, ← Complex.exp_add, show -(x : ℂ) * Complex.I + y * Complex.I = ((y - x : ℝ) : ℂ) * Complex.I by push_cast; ring,
    Complex.exp_ofReal_mul_I_re, ← cos_neg, neg_sub]

/-- The product of two transforms at a mode, as a sum over pairs of pixels. -/
theorem dft_power {fs : FlatInfo} (g1 g2 : ℕ × ℕ → ℝ) (k : ℕ × ℕ) : (fs.dft g1 k * star (fs.dft g2 k)).re =
    ∑ p ∈ fs.modes, ∑ q ∈ fs.modes, cos (fs.phase k p - fs.phase k q) * (g1 p * g2 q) := by
  unfold FlatInfo.dft
  rw [star_sum, sum_mul_sum, Complex.re_sum]
  refine sum_congr rfl fun p _ => ?_
  rw [Complex.re_sum]
  refine sum_congr rfl fun q _ => ?_
  rw [star_mul', ← exp_pair_re]
  have hs : star ((g2 q : ℂ)) = (g2 q : ℂ) := Complex.conj_ofReal _
  rw [hs, show ((g1 p : ℂ) * Complex.exp (-(fs.phase k p) * Complex.I)) * ((g2 q : ℂ) * star (Complex.exp (-(fs.phase k q) * Complex.I))) =
    ((g1 p * g2 q : ℝ) : ℂ) * (Complex.exp (-(fs.phase k p) * Complex.I) * star (Complex.exp (-(fs.phase k q) * Complex.I))) by
      push_cast; ring, Complex.re_ofReal_mul, mul_comm]

theorem maskPower_eq {fs : FlatInfo} (g1 g2 : ℕ × ℕ → ℝ) (k : ℕ × ℕ) : maskPower fs g1 g2 k =
    fs.almNorm ^ 2 * ∑ p ∈ fs.modes, ∑ q ∈ fs.modes, cos (fs.phase k p - fs.phase k q) * (g1 p * g2 q) := by
  rw [← dft_power]
  unfold maskPower FlatInfo.map2alm
  have hs : star ((fs.almNorm : ℂ)) = (fs.almNorm : ℂ) := Complex.conj_ofReal _
  rw [star_mul', hs, show fs.dft g1 k * (fs.almNorm : ℂ) * (star (fs.dft g2 k) * (fs.almNorm : ℂ)) =
    ((fs.almNorm ^ 2 : ℝ) : ℂ) * (fs.dft g1 k * star (fs.dft g2 k)) by push_cast; ring, Complex.re_ofReal_mul]

/-- A set of modes that contains with each mode the ones with opposite wave number along y, and with opposite wave vector. -/
structure SymModes (fs : FlatInfo) (B : Finset (ℕ × ℕ)) : Prop where
  mem : ∀ k ∈ B, k ∈ fs.modes
  flip : ∀ k ∈ B, fs.flip k ∈ B
  neg : ∀ k ∈ B, negMode fs k ∈ B

open Classical in
theorem bandModesAll_sym (fs : FlatInfo) (b : FlatBins ℝ) (ib : ℕ) : SymModes fs (bandModesAll fs b ib) := by
  refine ⟨fun k hk => (bandModesAll_flip b ib k hk).1, fun k hk => (bandModesAll_flip b ib k hk).2, fun k hk => ?_⟩
  unfold bandModesAll at *
  rw [Finset.mem_filter] at *
  refine ⟨negIdx_mem hk.1, ?_⟩
  rw [kmod_negMode hk.1]
  exact hk.2

/-- The sum of the products of two transforms over a symmetric set of modes, as read from half-complex arrays. -/
theorem power_sum {fs : FlatInfo} (hl : 0 < fs.lx) {B : Finset (ℕ × ℕ)} (hB : SymModes fs B) (g1 g2 : ℕ × ℕ → ℝ) :
    ∑ k ∈ B, halfProd fs.nx (fs.map2alm g1) (fs.map2alm g2) k = fs.almNorm ^ 2 * quadForm fs (modeKernel fs B) g1 g2 := by
  rw [sum_congr rfl fun k hk => halfProd_mask hl g1 g2 (hB.mem k hk),
    sum_reflect B (fun k hk => ⟨hB.mem k hk, hB.flip k hk⟩), sum_congr rfl fun k _ => maskPower_eq g1 g2 k, ← mul_sum]
  congr 1
  unfold quadForm modeKernel
  rw [sum_comm]
  refine sum_congr rfl fun p _ => ?_
  rw [sum_comm]
  exact sum_congr rfl fun q _ => by rw [sum_mul]

theorem phase_negMode {fs : FlatInfo} {k : ℕ × ℕ} (hk : k ∈ fs.modes) (p : ℕ × ℕ) :
    ∃ m : ℤ, fs.phase (negMode fs k) p = -fs.phase k p + m * (2 * π) := by
  rw [mem_modes] at hk
  obtain ⟨m1, h1⟩ := negIdx_phase hk.1 p.1
  obtain ⟨m2, h2⟩ := negIdx_phase hk.2 p.2
  refine ⟨m1 + m2, ?_⟩
  unfold FlatInfo.phase negMode
  simp only [h1, h2]
  push_cast
  ring

theorem sin_kernel {fs : FlatInfo} {B : Finset (ℕ × ℕ)} (hB : SymModes fs B) (p q : ℕ × ℕ) :
    ∑ k ∈ B, sin (fs.phase k p - fs.phase k q) = 0 := by
  have h : ∑ k ∈ B, sin (fs.phase k p - fs.phase k q) = ∑ k ∈ B, -sin (fs.phase k p - fs.phase k q) := by
    refine sum_nbij' (negMode fs) (negMode fs) hB.neg hB.neg (fun k hk => negMode_negMode (hB.mem k hk))
      (fun k hk => negMode_negMode (hB.mem k hk)) fun k hk => ?_
    obtain ⟨m1, h1⟩ := phase_negMode (hB.mem k hk) p
    obtain ⟨m2, h2⟩ := phase_negMode (hB.mem k hk) q
    rw [h1, h2, show -fs.phase k p + m1 * (2 * π) - (-fs.phase k q + m2 * (2 * π)) =
      -(fs.phase k p - fs.phase k q) + ((m1 - m2 : ℤ) : ℝ) * (2 * π) by push_cast; ring, sin_add_int_mul_two_pi, sin_neg, neg_neg]
  rw [sum_neg_distrib] at h
  linarith

theorem phase_sub {fs : FlatInfo} {k1 k2 : ℕ × ℕ} (h2 : k2 ∈ fs.modes) (p : ℕ × ℕ) :
    ∃ m : ℤ, fs.phase (fs.sub k1 k2) p = fs.phase k1 p - fs.phase k2 p + m * (2 * π) := by
  rw [mem_modes] at h2
  obtain ⟨m1, h1⟩ := subIdx_phase (i := k1.1) (by omega) h2.1 p.1
  obtain ⟨m2, h2⟩ := subIdx_phase (i := k1.2) (by omega) h2.2 p.2
  refine ⟨m1 + m2, ?_⟩
  unfold FlatInfo.phase FlatInfo.sub
  simp only [h1, h2]
  push_cast
  ring

theorem cos_sub_phase {fs : FlatInfo} {k1 k2 : ℕ × ℕ} (h2 : k2 ∈ fs.modes) (p q : ℕ × ℕ) :
    cos (fs.phase (fs.sub k1 k2) p - fs.phase (fs.sub k1 k2) q) =
      cos (fs.phase k1 p - fs.phase k1 q) * cos (fs.phase k2 p - fs.phase k2 q) +
      sin (fs.phase k1 p - fs.phase k1 q) * sin (fs.phase k2 p - fs.phase k2 q) := by
  obtain ⟨m1, e1⟩ := phase_sub (k1 := k1) h2 p
  obtain ⟨m2, e2⟩ := phase_sub (k1 := k1) h2 q
  rw [e1, e2, ← cos_sub, show fs.phase k1 p - fs.phase k2 p + m1 * (2 * π) - (fs.phase k1 q - fs.phase k2 q + m2 * (2 * π)) =
      fs.phase k1 p - fs.phase k1 q - (fs.phase k2 p - fs.phase k2 q) + ((m1 - m2 : ℤ) : ℝ) * (2 * π) by push_cast; ring,
    cos_add_int_mul_two_pi]

/-- The sum over pairs of modes of the product of two transforms at their difference. -/
theorem pair_sum {fs : FlatInfo} (hl : 0 < fs.lx) {B1 B2 : Finset (ℕ × ℕ)} (h1 : SymModes fs B1) (h2 : SymModes fs B2)
    (u v : ℕ × ℕ → ℝ) :
    ∑ k1 ∈ B1, ∑ k2 ∈ B2, halfProd fs.nx (fs.map2alm u) (fs.map2alm v) (fs.sub k1 k2) =
      fs.almNorm ^ 2 * ∑ p ∈ fs.modes, ∑ q ∈ fs.modes, u p * v q * (modeKernel fs B1 p q * modeKernel fs B2 p q) := by
  have hr := sum_reflect_pair B1 B2 (fun k hk => ⟨h1.mem k hk, h1.flip k hk⟩) (fun k hk => ⟨h2.mem k hk, h2.flip k hk⟩)
    (maskPower fs u v) (fun _ _ => 1) (fun _ _ _ _ => rfl)
  simp only [one_mul] at hr
  rw [sum_congr rfl fun k1 hk1 => sum_congr rfl fun k2 hk2 =>
    halfProd_mask hl u v (sub_mem (h1.mem k1 hk1) (h2.mem k2 hk2)), hr,
    sum_congr rfl fun k1 _ => sum_congr rfl fun k2 _ => maskPower_eq u v (fs.sub k1 k2)]
  simp only [← mul_sum]
  congr 1
  have hk : ∀ p q, ∑ k1 ∈ B1, ∑ k2 ∈ B2, cos (fs.phase (fs.sub k1 k2) p - fs.phase (fs.sub k1 k2) q) =
      modeKernel fs B1 p q * modeKernel fs B2 p q := by
    intro p q
    rw [sum_congr rfl fun k1 _ => sum_congr rfl fun k2 hk2 => cos_sub_phase (k1 := k1) (h2.mem k2 hk2) p q]
    simp only [sum_add_distrib, ← mul_sum]
    rw [sin_kernel h2]
    unfold modeKernel
    simp [sum_mul]
  calc _ = ∑ p ∈ fs.modes, ∑ q ∈ fs.modes, ∑ k1 ∈ B1, ∑ k2 ∈ B2,
        cos (fs.phase (fs.sub k1 k2) p - fs.phase (fs.sub k1 k2) q) * (u p * v q) := by
        rw [sum_congr rfl fun k1 _ => sum_comm, sum_comm]
        refine sum_congr rfl fun p _ => ?_
        rw [sum_congr rfl fun k1 _ => sum_comm, sum_comm]
    _ = _ := by
        refine sum_congr rfl fun p _ => sum_congr rfl fun q _ => ?_
        rw [← hk]
        simp only [mul_sum]
        exact sum_congr rfl fun _ _ => sum_congr rfl fun _ _ => mul_comm _ _

end NaMaster
