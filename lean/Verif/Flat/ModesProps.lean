import Verif.Flat.Modes
import Mathlib.Analysis.SpecialFunctions.Complex.Circle
import Mathlib.Tactic.LinearCombination

/-! # Fourier modes of flat maps: C41 and C48 -/

namespace NaMaster

open Real

/-! ## Specification -/

/-- The mode is removed by the ranges given by the user: one of its wave numbers lies in the range of this axis. -/
def ModeCut (fs : FlatInfo) (c : EllCuts) (ix iy : ℕ) : Prop :=
  (c.x0 ≤ fs.kx ix ∧ fs.kx ix ≤ c.x1) ∨ (c.y0 ≤ fs.ky iy ∧ fs.ky iy ≤ c.y1)

/-- `r` is the right band of the mode: none if it is removed, and else the one containing its multipole. -/
def RightModeBand (fs : FlatInfo) (b : FlatBins ℝ) (c : EllCuts) (ix iy : ℕ) (r : ℤ) : Prop :=
  (ModeCut fs c ix iy ∧ r = -1) ∨ (¬ ModeCut fs c ix iy ∧ RightBand b (fs.kmod ix iy) r)

/-! ## Lemmas -/

theorem forall₂_functional {α β : Type*} {R : α → β → Prop} (hf : ∀ a b b', R a b → R a b' → b = b') {l : List α}
    {m m' : List β} (h : List.Forall₂ R l m) (h' : List.Forall₂ R l m') : m = m' := by
  induction h generalizing m' with
  | nil => cases h'; rfl
  | cons h _ ih =>
    cases h' with
    | cons g gs => rw [hf _ _ _ h g, ih gs]

theorem rightModeBand_functional (fs : FlatInfo) (b : FlatBins ℝ) (hb : OrderedBands b) (c : EllCuts) (iy : ℕ) (ix : ℕ)
    (r r' : ℤ) (h : RightModeBand fs b c ix iy r) (h' : RightModeBand fs b c ix iy r') : r = r' := by
  rcases h with ⟨h1, rfl⟩ | ⟨h1, h2⟩ <;> rcases h' with ⟨h1', rfl⟩ | ⟨h1', h2'⟩
  · rfl
  · exact absurd h1 h1'
  · exact absurd h1' h1
  · exact C40_unique b hb _ _ _ h2 h2'

theorem alm2clRow_right (fs : FlatInfo) (b : FlatBins ℝ) (hb : GaplessBands b) (h0 : 0 < b.nBands) (c : EllCuts) (iy : ℕ)
    (hy : ¬ (c.y0 ≤ fs.ky iy ∧ fs.ky iy ≤ c.y1)) (xs : List ℕ) (ik : ℤ) (hk : ik < b.nBands) :
    ∃ t, alm2clRow fs b c iy ik xs = .ok t ∧ List.Forall₂ (fun ix r => RightModeBand fs b c ix iy r) xs t := by
  induction xs generalizing ik with
  | nil => exact ⟨[], rfl, .nil⟩
  | cons ix xs ih =>
    unfold alm2clRow
    by_cases hx : fs.kx ix ≥ c.x0 ∧ fs.kx ix ≤ c.x1
    · obtain ⟨t, h1, h2⟩ := ih ik hk
      rw [if_pos hx, h1]
      exact ⟨-1 :: t, rfl, .cons (Or.inl ⟨Or.inl hx, rfl⟩) h2⟩
    · rw [if_neg hx]
      obtain ⟨r, h1, h2⟩ := C40_search_partial b hb h0 (fs.kmod ix iy) ik hk
      obtain ⟨r', h3, _, h4⟩ := searchFast_total b (fs.kmod ix iy) ik h0 hk
      have : r = r' := by rw [h1] at h3; injection h3
      subst this
      obtain ⟨t, h5, h6⟩ := ih r h4
      rw [h1]
      simp only [Outcome.bind, h5]
      exact ⟨_, rfl, .cons (Or.inr ⟨fun h => h.elim hx hy, h2⟩) h6⟩

theorem RightBand.ge {b : FlatBins ℝ} {l : ℝ} {r : ℤ} (h : RightBand b l r) : r ≥ 0 ∨ r = -1 := by
  rcases h with ⟨i, _, rfl⟩ | ⟨rfl, _⟩
  · left; omega
  · right; rfl

theorem cutBand_right (fs : FlatInfo) (b : FlatBins ℝ) (c : EllCuts) (iy ix : ℕ) (r : ℤ)
    (h : RightBand b (fs.kmod ix iy) r) : RightModeBand fs b c ix iy (cutBand fs c iy ix r) := by
  unfold cutBand
  by_cases hc : (fs.ky iy ≤ c.y1 ∧ fs.ky iy ≥ c.y0) ∨ (fs.kx ix ≤ c.x1 ∧ fs.kx ix ≥ c.x0)
  · rw [if_pos hc]
    left
    refine ⟨?_, rfl⟩
    rcases hc with hc | hc
    · exact Or.inr ⟨hc.2, hc.1⟩
    · exact Or.inl ⟨hc.2, hc.1⟩
  · rw [if_neg hc]
    right
    refine ⟨fun hm => hc ?_, ?_⟩
    · rcases hm with hm | hm
      · exact Or.inr ⟨hm.2, hm.1⟩
      · exact Or.inl ⟨hm.2, hm.1⟩
    · rcases h.ge with hr | hr
      · rw [if_pos hr]; exact h
      · subst hr; exact h

theorem forall₂_zipWith_right {α β : Type*} {R : α → β → Prop} {S : α → β → Prop} (f : α → β → β)
    (h : ∀ a b, R a b → S a (f a b)) {l : List α} {m : List β} (hr : List.Forall₂ R l m) :
    List.Forall₂ S l (List.zipWith f l m) := by
  induction hr with
  | nil => exact .nil
  | cons h1 _ ih => exact .cons (h _ _ h1) ih

/-! ## C41 -/

/-- C41, bands without gaps: in the pseudo-spectrum and in the coupling matrix each mode is assigned to the same band:
to none if it is removed by the ranges, and else to the one containing its multipole. Missing: for bands with gaps the
claim is false (`C41_gap_wrong`), unless no mode is removed (`C41_no_cut`). -/
theorem C41_same_modes_partial (fs : FlatInfo) (b : FlatBins ℝ) (hb : GaplessBands b) (h0 : 0 < b.nBands) (c : EllCuts)
    (iy : ℕ) : ∃ t : List ℤ, alm2clBands fs b c iy = .ok t ∧ couplingBands fs b c iy = .ok t ∧
      List.Forall₂ (fun ix r => RightModeBand fs b c ix iy r) (List.range fs.nx) t := by
  have hcoup : ∃ t, couplingBands fs b c iy = .ok t ∧
      List.Forall₂ (fun ix r => RightModeBand fs b c ix iy r) (List.range fs.nx) t := by
    obtain ⟨rs, h1, h2⟩ := C40_history_partial b hb h0 ((List.range fs.nx).map fun ix => fs.kmod ix iy) 0
      (by exact_mod_cast h0)
    unfold couplingBands couplingBandsNocut
    rw [h1]
    refine ⟨_, rfl, ?_⟩
    rw [List.forall₂_map_left_iff] at h2
    exact forall₂_zipWith_right _ (fun ix r h => cutBand_right fs b c iy ix r h) h2
  obtain ⟨t, h1, h2⟩ := hcoup
  have halm : ∃ t, alm2clBands fs b c iy = .ok t ∧
      List.Forall₂ (fun ix r => RightModeBand fs b c ix iy r) (List.range fs.nx) t := by
    unfold alm2clBands
    by_cases hy : fs.ky iy ≥ c.y0 ∧ fs.ky iy ≤ c.y1
    · rw [if_pos hy]
      refine ⟨_, rfl, ?_⟩
      rw [List.forall₂_iff_get]
      refine ⟨by simp, fun i _ _ => ?_⟩
      left
      exact ⟨Or.inr hy, by simp⟩
    · rw [if_neg hy]
      exact alm2clRow_right fs b hb h0 c iy hy _ 0 (by exact_mod_cast h0)
  obtain ⟨t', h1', h2'⟩ := halm
  have : t' = t := forall₂_functional (fun ix r r' => rightModeBand_functional fs b hb.toOrderedBands c iy ix r r') h2' h2
  subst this
  exact ⟨t', h1', h1, h2⟩

/-- C41, bands without gaps: the modes that the coupling matrix takes signal from, for which the ranges do not count, are
assigned to the band containing their multipole. -/
theorem C41_nocut_partial (fs : FlatInfo) (b : FlatBins ℝ) (hb : GaplessBands b) (h0 : 0 < b.nBands) (iy : ℕ) :
    ∃ t : List ℤ, couplingBandsNocut fs b iy = .ok t ∧
      List.Forall₂ (fun ix r => RightBand b (fs.kmod ix iy) r) (List.range fs.nx) t := by
  obtain ⟨rs, h1, h2⟩ := C40_history_partial b hb h0 ((List.range fs.nx).map fun ix => fs.kmod ix iy) 0
    (by exact_mod_cast h0)
  rw [List.forall₂_map_left_iff] at h2
  exact ⟨rs, h1, h2⟩

theorem alm2clRow_no_cut (fs : FlatInfo) (b : FlatBins ℝ) (c : EllCuts) (iy : ℕ) (xs : List ℕ)
    (hx : ∀ ix ∈ xs, ¬ (fs.kx ix ≥ c.x0 ∧ fs.kx ix ≤ c.x1)) (ik : ℤ) :
    alm2clRow fs b c iy ik xs = searchLoop b ik (xs.map fun ix => fs.kmod ix iy) := by
  induction xs generalizing ik with
  | nil => rfl
  | cons ix xs ih =>
    unfold alm2clRow searchLoop
    rw [if_neg (hx ix (by simp))]
    simp only [ih (fun i hi => hx i (List.mem_cons_of_mem _ hi))]
    rfl

/-- C41: for any bands, also with gaps or in the wrong order, the pseudo-spectrum and the coupling matrix use the same
modes in each band if the ranges remove no mode of the row. -/
theorem C41_no_cut (fs : FlatInfo) (b : FlatBins ℝ) (c : EllCuts) (iy : ℕ)
    (hc : ∀ ix, ix < fs.nx → ¬ ModeCut fs c ix iy) (hn : 0 < fs.nx) :
    alm2clBands fs b c iy = couplingBands fs b c iy := by
  have hy : ¬ (fs.ky iy ≥ c.y0 ∧ fs.ky iy ≤ c.y1) := fun h => hc 0 hn (Or.inr h)
  unfold alm2clBands couplingBands couplingBandsNocut
  rw [if_neg hy, alm2clRow_no_cut fs b c iy _ (fun ix hix h => hc ix (List.mem_range.1 hix) (Or.inl h))]
  rcases Nat.eq_zero_or_pos b.nBands with h0 | h0
  · obtain ⟨m, hm⟩ : ∃ m, fs.nx = m + 1 := ⟨fs.nx - 1, by omega⟩
    rw [hm, List.range_succ_eq_map]
    simp only [List.map_cons]
    unfold searchLoop searchFast
    simp [h0, Outcome.bind]
  · obtain ⟨rs, h1, h2, h3⟩ := C40_in_range b h0 ((List.range fs.nx).map fun ix => fs.kmod ix iy) 0
      (by exact_mod_cast h0)
    rw [h1]
    simp only [Outcome.bind]
    congr 1
    refine List.ext_getElem (by simp [h2]) fun i hi hi' => ?_
    simp only [List.getElem_zipWith, List.getElem_range]
    have hin : i < fs.nx := by simpa [h2] using hi
    unfold cutBand
    have hm := hc i hin
    have hneg : ¬ ((fs.ky iy ≤ c.y1 ∧ fs.ky iy ≥ c.y0) ∨ (fs.kx i ≤ c.x1 ∧ fs.kx i ≥ c.x0)) := by
      intro h
      rcases h with h | h
      · exact hm (Or.inr ⟨h.2, h.1⟩)
      · exact hm (Or.inl ⟨h.2, h.1⟩)
    rw [if_neg hneg]
    have := h3 rs[i] (List.getElem_mem _)
    by_cases hr : rs[i] ≥ 0
    · rw [if_pos hr]
    · rw [if_neg hr]; omega

/-- C41: the default ranges remove no mode. -/
theorem C41_default (fs : FlatInfo) (ix iy : ℕ) : ¬ ModeCut fs defaultCuts ix iy := by
  intro h
  simp only [ModeCut, defaultCuts] at h
  rcases h with h | h <;> linarith [h.1, h.2]

theorem kx_unit (nx ny ix : ℕ) (ly : ℝ) : FlatInfo.kx ⟨nx, ny, 2 * π, ly⟩ ix = if 2 * ix ≤ nx then (ix : ℝ) else -((nx : ℝ) - ix) := by
  simp only [FlatInfo.kx, waveNum]
  rw [div_self (by positivity)]
  simp

theorem kmod_line (ix : ℕ) :
    FlatInfo.kmod ⟨4, 1, 2 * π, 2 * π⟩ ix 0 = |if 2 * ix ≤ 4 then (ix : ℝ) else -((4 : ℕ) - ix : ℝ)| := by
  have hy : FlatInfo.ky ⟨4, 1, 2 * π, 2 * π⟩ 0 = 0 := by simp [FlatInfo.ky, waveNum]
  simp only [FlatInfo.kmod, kx_unit, hy, mul_zero, add_zero]
  rw [Real.sqrt_mul_self_eq_abs]

/-- C41 is false for bands with gaps: with the bands [0,1/2) and [3/2,5/2) and the modes of multipoles between 1/2 and
5/2 along x removed, the mode (-1,0) counts in the second band for the pseudo-spectrum and in the first for the
coupling matrix. It lies in no band. -/
theorem C41_gap_wrong : ∃ (fs : FlatInfo) (b : FlatBins ℝ) (c : EllCuts), flatBinsCreate [0, 3 / 2] [1 / 2, 5 / 2] = .ok b ∧
    OrderedBands b ∧ alm2clBands fs b c 0 = .ok [0, -1, -1, 1] ∧ couplingBands fs b c 0 = .ok [0, -1, -1, 0] := by
  refine ⟨⟨4, 1, 2 * π, 2 * π⟩, _, ⟨1 / 2, 5 / 2, 1, -1⟩, rfl, ⟨?_, ?_⟩, ?_, ?_⟩
  · intro i hi
    rcases i with _ | _ | i
    · simp
    · simp; norm_num
    · exact absurd hi (by simp)
  · intro i hi
    rcases i with _ | i
    · simp; norm_num
    · exact absurd hi (by simp)
  · have hk := kmod_line
    have hy : FlatInfo.ky ⟨4, 1, 2 * π, 2 * π⟩ 0 = 0 := by simp [FlatInfo.ky, waveNum]
    unfold alm2clBands
    rw [hy, if_neg (by norm_num)]
    simp only [List.range_succ, List.range_zero, List.nil_append, List.cons_append]
    unfold alm2clRow
    simp only [hk, kx_unit]
    norm_num [alm2clRow, searchFast, searchBack, searchForward, Outcome.bind, hk, kx_unit]
  · have hk := kmod_line
    have hy : FlatInfo.ky ⟨4, 1, 2 * π, 2 * π⟩ 0 = 0 := by simp [FlatInfo.ky, waveNum]
    unfold couplingBands couplingBandsNocut
    simp only [List.range_succ, List.range_zero, List.nil_append, List.cons_append, List.map_cons, List.map_nil]
    norm_num [searchLoop, searchFast, searchBack, searchForward, Outcome.bind, hk, kx_unit, cutBand, hy]

section examples

-- a 4 × 1 map and the bands [0,1), [1,3): the modes 0, 1, 2 and -1 along x
example : alm2clBands ⟨4, 1, 2 * π, 2 * π⟩ ⟨2, fun i => i, fun i => 2 * i + 1⟩ ⟨3 / 2, 5 / 2, 1, -1⟩ 0 = .ok [0, 1, -1, 1] := by
  have hk := kmod_line
  have hy : FlatInfo.ky ⟨4, 1, 2 * π, 2 * π⟩ 0 = 0 := by simp [FlatInfo.ky, waveNum]
  unfold alm2clBands
  rw [hy, if_neg (by norm_num)]
  simp only [List.range_succ, List.range_zero, List.nil_append, List.cons_append]
  norm_num [alm2clRow, searchFast, searchBack, searchForward, Outcome.bind, hk, kx_unit]

example : GaplessBands (⟨2, fun i => i, fun i => 2 * i + 1⟩ : FlatBins ℝ) where
  proper i hi := by
    have : (0 : ℝ) ≤ i := Nat.cast_nonneg i
    simp only; linarith
  ordered i hi := by
    have : i = 0 := by simp only at hi; omega
    subst this; simp
  gapless i hi := by
    have : i = 0 := by simp only at hi; omega
    subst this; simp

end examples

/-! ## C48 -/

theorem csRec_norm {c s : ℝ} (h : c * c + s * s = 1) (n : ℕ) :
    (csRec c s n).1 * (csRec c s n).1 + (csRec c s n).2 * (csRec c s n).2 = 1 := by
  induction n with
  | zero => simp [csRec]
  | succ n ih =>
    simp only [csRec]
    linear_combination (c * c + s * s) * ih + h

theorem modeDir_norm (kx ky : ℝ) :
    (modeDir kx ky).1 * (modeDir kx ky).1 + (modeDir kx ky).2 * (modeDir kx ky).2 = 1 := by
  unfold modeDir
  by_cases h : kx * kx + ky * ky ≤ 0
  · simp [h]
  · simp only [if_neg h]
    have hs : √(kx * kx + ky * ky) * √(kx * kx + ky * ky) = kx * kx + ky * ky :=
      Real.mul_self_sqrt (not_le.1 h).le
    have hp : kx * kx + ky * ky ≠ 0 := (not_le.1 h).ne'
    have hq : √(kx * kx + ky * ky) ≠ 0 := (Real.sqrt_pos.2 (not_le.1 h)).ne'
    have : (√(kx * kx + ky * ky))⁻¹ * (√(kx * kx + ky * ky))⁻¹ * (kx * kx + ky * ky) = 1 := by
      rw [← mul_inv, hs, inv_mul_cancel₀ hp]
    simp only [one_div]
    linear_combination this

theorem sig_mul (spin : ℕ) :
    (sigOverall spin * Complex.I ^ spin) * (sigOverall spin * (-Complex.I) ^ spin) = 1 := by
  have h1 : sigOverall spin * sigOverall spin = 1 := by unfold sigOverall; split_ifs <;> simp
  have h2 : Complex.I ^ spin * (-Complex.I) ^ spin = 1 := by
    rw [← mul_pow]; simp
  linear_combination (Complex.I ^ spin * (-Complex.I) ^ spin) * h1 + h2

/-- C48: for every spin and mode the transformations between Q, U and E, B are inverse to each other. -/
theorem C48_inverse (spin : ℕ) (kx ky : ℝ) (a : ℂ × ℂ) :
    eb2qu spin kx ky (qu2eb spin kx ky a) = a ∧ qu2eb spin kx ky (eb2qu spin kx ky a) = a := by
  have hn := csRec_norm (modeDir_norm kx ky) spin
  have hn : ((csRec (modeDir kx ky).1 (modeDir kx ky).2 spin).1 : ℂ) * (csRec (modeDir kx ky).1 (modeDir kx ky).2 spin).1 +
      (csRec (modeDir kx ky).1 (modeDir kx ky).2 spin).2 * (csRec (modeDir kx ky).1 (modeDir kx ky).2 spin).2 = 1 := by
    exact_mod_cast hn
  have hs := sig_mul spin
  obtain ⟨q, u⟩ := a
  simp only [qu2eb, eb2qu, Prod.mk.injEq]
  generalize ((csRec (modeDir kx ky).1 (modeDir kx ky).2 spin).1 : ℂ) = c at *
  generalize ((csRec (modeDir kx ky).1 (modeDir kx ky).2 spin).2 : ℂ) = s at *
  generalize sigOverall spin * Complex.I ^ spin = g at *
  generalize sigOverall spin * (-Complex.I) ^ spin = g' at *
  refine ⟨⟨?_, ?_⟩, ?_, ?_⟩
  · linear_combination g * g' * q * hn + q * hs
  · linear_combination g * g' * u * hn + u * hs
  · linear_combination g * g' * q * hn + q * hs
  · linear_combination g * g' * u * hn + u * hs

/-- C48: both transformations are linear. -/
theorem C48_linear (spin : ℕ) (kx ky : ℝ) (x y : ℂ) (a b : ℂ × ℂ) :
    qu2eb spin kx ky (x • a + y • b) = x • qu2eb spin kx ky a + y • qu2eb spin kx ky b ∧
      eb2qu spin kx ky (x • a + y • b) = x • eb2qu spin kx ky a + y • eb2qu spin kx ky b := by
  constructor
  · ext <;> simp [qu2eb] <;> ring
  · ext <;> simp [eb2qu] <;> ring

theorem normSq_sig (spin : ℕ) : Complex.normSq (sigOverall spin * Complex.I ^ spin) = 1 := by
  rw [map_mul, map_pow, Complex.normSq_I, one_pow, mul_one]
  unfold sigOverall
  split_ifs <;> simp

/-- C48: the transformation preserves the total power of each mode. -/
theorem C48_power (spin : ℕ) (kx ky : ℝ) (a : ℂ × ℂ) :
    Complex.normSq (qu2eb spin kx ky a).1 + Complex.normSq (qu2eb spin kx ky a).2 =
      Complex.normSq a.1 + Complex.normSq a.2 := by
  have hn := csRec_norm (modeDir_norm kx ky) spin
  have hz : ∀ z, Complex.normSq (sigOverall spin * Complex.I ^ spin * z) = Complex.normSq z := by
    intro z; rw [map_mul, normSq_sig, one_mul]
  simp only [qu2eb, hz]
  generalize (csRec (modeDir kx ky).1 (modeDir kx ky).2 spin).1 = c at *
  generalize (csRec (modeDir kx ky).1 (modeDir kx ky).2 spin).2 = s at *
  simp only [Complex.normSq_apply, Complex.add_re, Complex.add_im, Complex.sub_re, Complex.sub_im, Complex.re_mul_ofReal,
    Complex.im_mul_ofReal]
  linear_combination (a.1.re * a.1.re + a.1.im * a.1.im + a.2.re * a.2.re + a.2.im * a.2.im) * hn

/-- The recurrence gives the cosine and the sine of the multiple angle. -/
theorem csRec_angle (φ : ℝ) (n : ℕ) : csRec (cos φ) (sin φ) n = (cos (n * φ), sin (n * φ)) := by
  induction n with
  | zero => simp [csRec]
  | succ n ih =>
    simp only [csRec, ih]
    rw [Nat.cast_succ, add_mul, one_mul, cos_add, sin_add]

/-- C48: the angle is the one of the wave vector: for a mode of modulus `k` and direction `φ`, a pattern of pure E type,
`Q = cos(sφ)`, `U = -sin(sφ)` has no B coefficient, and has the E coefficient `-i^s`. -/
theorem C48_angle (spin : ℕ) (hs : spin ≠ 0) (k φ : ℝ) (hk : 0 < k) :
    qu2eb spin (k * cos φ) (k * sin φ) (cos (spin * φ), -sin (spin * φ)) = (-Complex.I ^ spin, 0) := by
  have hd : modeDir (k * cos φ) (k * sin φ) = (cos φ, sin φ) := by
    unfold modeDir
    have h2 : k * cos φ * (k * cos φ) + k * sin φ * (k * sin φ) = k * k := by
      linear_combination k * k * sin_sq_add_cos_sq φ
    simp only [h2]
    rw [if_neg (not_le.2 (mul_pos hk hk)), Real.sqrt_mul_self hk.le]
    ext <;> simp <;> field_simp
  have hcs : (Complex.cos (spin * φ)) ^ 2 + (Complex.sin (spin * φ)) ^ 2 = 1 := Complex.cos_sq_add_sin_sq _
  ext
  · simp only [qu2eb, hd, csRec_angle, sigOverall, if_neg hs]
    push_cast
    linear_combination -Complex.I ^ spin * hcs
  · simp only [qu2eb, hd, csRec_angle, sigOverall, if_neg hs]
    push_cast
    ring

/-- C48: real maps have real E and B maps: if the Q and U coefficients of two opposite modes are complex conjugate, so
are the E and B coefficients. -/
theorem C48_real (spin : ℕ) (kx ky : ℝ) (hk : kx ≠ 0 ∨ ky ≠ 0) (q u : ℂ) :
    qu2eb spin (-kx) (-ky) (star q, star u) =
      (star (qu2eb spin kx ky (q, u)).1, star (qu2eb spin kx ky (q, u)).2) := by
  have hd : modeDir (-kx) (-ky) = (-(modeDir kx ky).1, -(modeDir kx ky).2) := by
    unfold modeDir
    have hpos : 0 < kx * kx + ky * ky := by
      rcases hk with h | h
      · have := mul_self_pos.2 h; nlinarith [mul_self_nonneg ky]
      · have := mul_self_pos.2 h; nlinarith [mul_self_nonneg kx]
    have h1 : -kx * -kx + -ky * -ky = kx * kx + ky * ky := by ring
    simp only [h1, if_neg (not_le.2 hpos)]
    simp only [neg_mul]
  have hrec : ∀ (c s : ℝ) (n : ℕ), csRec (-c) (-s) n = ((-1) ^ n * (csRec c s n).1, (-1) ^ n * (csRec c s n).2) := by
    intro c s n
    induction n with
    | zero => simp [csRec]
    | succ n ih =>
      simp only [csRec, ih, pow_succ]
      ext <;> simp <;> ring
  have hsig : star (sigOverall spin * Complex.I ^ spin) = (-1) ^ spin * (sigOverall spin * Complex.I ^ spin) := by
    have h1 : star (sigOverall spin) = sigOverall spin := by unfold sigOverall; split_ifs <;> simp
    have h2 : star (Complex.I ^ spin) = (-1) ^ spin * Complex.I ^ spin := by
      rw [star_pow, ← mul_pow]
      simp
    rw [star_mul', h1, h2]
    ring
  ext
  · simp only [qu2eb, hd, hrec]
    rw [star_mul', hsig]
    simp
    ring
  · simp only [qu2eb, hd, hrec]
    rw [star_mul', hsig]
    simp
    ring

section examples

-- spin 2 and the mode (3,4): E and B of Q = 1, U = i
example : qu2eb 2 3 4 (1, Complex.I) = (-(7 : ℂ) / 25 - 24 / 25 * Complex.I, 24 / 25 - 7 / 25 * Complex.I) := by
  have h : modeDir 3 4 = (3 / 5, 4 / 5) := by
    unfold modeDir
    have : √((3 : ℝ) * 3 + 4 * 4) = 5 := by
      rw [show (3 : ℝ) * 3 + 4 * 4 = 5 * 5 by norm_num, Real.sqrt_mul_self (by norm_num)]
    simp only [this]
    norm_num
  ext <;> simp [qu2eb, h, csRec, sigOverall] <;> ring_nf

end examples

end NaMaster
