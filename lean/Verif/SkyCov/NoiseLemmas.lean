import Verif.SkyCov.NoiseSpec
import Verif.SkyCov.Props
import Verif.Sky.CatalogLemmas

/-! # Lemmas for white noise on the sphere -/

namespace NaMaster

open Finset MeasureTheory SkySpec WignerSpec CovSpec
open Complex (I)

local notation "conj" => starRingEnd ℂ

/-! ## The coefficients of a pixel -/

/-- The coefficient of component `X` of a map with value 1 of component `c` in one pixel. -/
noncomputable def kern (Y : ℤ → ℕ → ℤ → ℕ → ℂ) (s X c l : ℕ) (m : ℤ) (p : ℕ) : ℂ :=
  if X = c then (conj (Y s l m p) + conj (Y (-s) l m p)) / 2
  else if X = 0 then I * (conj (Y s l m p) - conj (Y (-s) l m p)) / 2
  else -I * (conj (Y s l m p) - conj (Y (-s) l m p)) / 2

theorem neg_one_zpow_neg' (m : ℤ) : ((-1 : ℂ) ^ (-m)) = (-1) ^ m := by rw [zpow_neg, ← inv_zpow]; norm_num

theorem conj_minus {Y : ℤ → ℕ → ℤ → ℕ → ℂ} {s : ℕ} (hY : Spherical Y s) (l : ℕ) (m : ℤ) (p : ℕ) :
    conj (Y (-s) l m p) = (-1) ^ m * Y s l (-m) p := by
  have h := hY.conjs l (-m) p
  rw [neg_neg, neg_one_zpow_neg'] at h
  have h2 := congrArg conj h
  rw [Complex.conj_conj, map_mul, map_zpow₀, map_neg, map_one] at h2
  rw [h2, ← mul_assoc, ← mul_zpow]
  norm_num

theorem kern_real {Y : ℤ → ℕ → ℤ → ℕ → ℂ} {s : ℕ} (hY : Spherical Y s) (X c : ℕ) (p : ℕ) : RealCoefs (fun l m => kern Y s X c l m p) := by
  intro l m
  have h1 := hY.conjs l (-m) p
  have h2 := conj_minus hY l (-m) p
  rw [neg_neg, neg_one_zpow_neg'] at h1 h2
  have h3 : conj (2 : ℂ) = 2 := map_ofNat _ 2
  dsimp only
  unfold kern
  rw [h1, h2]
  split_ifs <;> simp [h3] <;> ring

theorem sfac_odd {l L l' : ℕ} (h : ¬ Even (l + L + l')) : sfac (0 : ℕ) 0 (0 : ℕ) l L l' = 0 := by
  have := sfac_neg 0 0 0 l L l'
  rw [(Nat.not_even_iff_odd.1 h).neg_one_pow] at this
  simp only [neg_zero] at this
  simp only [Nat.cast_zero]
  linarith

/-- Sums over the components of products of these coefficients. -/
theorem kern_sum {Y : ℤ → ℕ → ℤ → ℕ → ℂ} {s : ℕ} (hY : Spherical Y s) {X X' : ℕ} (hX : X < ncomp s) (hX' : X' < ncomp s) {N l l' : ℕ} (hN : l + l' ≤ N)
    {m m' : ℤ} (hm : |m| ≤ l) (hm' : |m'| ≤ l') (p : ℕ) :
    ∑ c ∈ range (ncomp s), kern Y s X c l m p * conj (kern Y s X' c l' m' p) =
      linFac N (fun _ => sfac s 0 s) (pointCoef Y p) X l m X' (l', m') := by
  have hp := product_modes hY (Or.inr (Or.inl rfl)) hN hm hm' p
  have hq := product_modes hY (Or.inr (Or.inr rfl)) hN hm hm' p
  unfold linFac
  dsimp only
  by_cases hs : s = 0
  · subst hs
    have hn : ncomp 0 = 1 := rfl
    rw [hn] at hX hX' ⊢
    obtain rfl : X = 0 := by omega
    obtain rfl : X' = 0 := by omega
    rw [sum_range_one]
    unfold kern
    simp only [if_true, Nat.cast_zero, neg_zero] at *
    rw [show (conj (Y 0 l m p) + conj (Y 0 l m p)) / 2 * conj ((conj (Y 0 l' m' p) + conj (Y 0 l' m' p)) / 2) = conj (Y 0 l m p) * Y 0 l' m' p by
      rw [← two_mul, ← two_mul, mul_div_cancel_left₀ _ two_ne_zero, mul_div_cancel_left₀ _ two_ne_zero, Complex.conj_conj], hp]
    refine sum_congr rfl fun W _ => ?_
    rw [gaunt_eq]
    unfold mixc
    rw [if_pos rfl]
    by_cases he : Even (l + W.1 + l')
    · rw [if_pos he, mul_one]
    · have := sfac_odd he
      simp only [Nat.cast_zero] at this
      rw [this]
      simp
  · have hn : ncomp s = 2 := by unfold ncomp; rw [if_neg hs]
    rw [hn] at hX hX' ⊢
    have hq' : conj (Y (-s) l m p) * Y (-s) l' m' p =
        ∑ W ∈ modes N, (-1) ^ (l + W.1 + l') * (pointCoef Y p W.1 W.2 * (mfac l m W.1 W.2 l' m' * sfac s 0 s l W.1 l' : ℝ)) := by
      rw [hq]
      refine sum_congr rfl fun W _ => ?_
      rw [gaunt_eq]
      have := sfac_neg s 0 s l W.1 l'
      rw [neg_zero] at this
      rw [this]
      push_cast
      ring
    have hp' : conj (Y s l m p) * Y s l' m' p = ∑ W ∈ modes N, pointCoef Y p W.1 W.2 * (mfac l m W.1 W.2 l' m' * sfac s 0 s l W.1 l' : ℝ) := by
      rw [hp]
      exact sum_congr rfl fun W _ => by rw [gaunt_eq]
    have key : ∀ u v : ℂ, ∑ W ∈ modes N, (u + v * (-1) ^ (l + W.1 + l')) * (pointCoef Y p W.1 W.2 * (mfac l m W.1 W.2 l' m' * sfac s 0 s l W.1 l' : ℝ)) =
        u * (conj (Y s l m p) * Y s l' m' p) + v * (conj (Y (-s) l m p) * Y (-s) l' m' p) := by
      intro u v
      rw [hp', hq', mul_sum, mul_sum, ← sum_add_distrib]
      exact sum_congr rfl fun W _ => by ring
    have hI := Complex.I_mul_I
    have h2c : conj (2 : ℂ) = 2 := map_ofNat _ 2
    rw [sum_range_succ, sum_range_one]
    obtain rfl | rfl : X = 0 ∨ X = 1 := by omega
    · obtain rfl | rfl : X' = 0 ∨ X' = 1 := by omega
      · trans (1 / 2 * (conj (Y s l m p) * Y s l' m' p) + 1 / 2 * (conj (Y (-s) l m p) * Y (-s) l' m' p))
        · simp [kern, h2c]
          linear_combination -((conj (Y s l m p) - conj (Y (-s) l m p)) * (Y s l' m' p - Y (-s) l' m' p) / 4) * hI
        · rw [← key]
          refine sum_congr rfl fun W _ => ?_
          unfold mixc
          rw [if_pos rfl]
          by_cases he : Even (l + W.1 + l')
          · rw [if_pos he, he.neg_one_pow]; ring
          · rw [if_neg he, (Nat.not_even_iff_odd.1 he).neg_one_pow]; ring
      · trans (I / 2 * (conj (Y s l m p) * Y s l' m' p) + (-I / 2) * (conj (Y (-s) l m p) * Y (-s) l' m' p))
        · simp [kern, h2c]
          ring
        · rw [← key]
          refine sum_congr rfl fun W _ => ?_
          unfold mixc
          rw [if_neg zero_ne_one]
          by_cases he : Even (l + W.1 + l')
          · rw [if_pos he, he.neg_one_pow]; ring
          · rw [if_neg he, if_pos rfl, (Nat.not_even_iff_odd.1 he).neg_one_pow]; ring
    · obtain rfl | rfl : X' = 0 ∨ X' = 1 := by omega
      · trans (-I / 2 * (conj (Y s l m p) * Y s l' m' p) + (I / 2) * (conj (Y (-s) l m p) * Y (-s) l' m' p))
        · simp [kern, h2c]
          ring
        · rw [← key]
          refine sum_congr rfl fun W _ => ?_
          unfold mixc
          rw [if_neg one_ne_zero]
          by_cases he : Even (l + W.1 + l')
          · rw [if_pos he, he.neg_one_pow]; ring
          · rw [if_neg he, if_neg one_ne_zero, (Nat.not_even_iff_odd.1 he).neg_one_pow]; ring
      · trans (1 / 2 * (conj (Y s l m p) * Y s l' m' p) + 1 / 2 * (conj (Y (-s) l m p) * Y (-s) l' m' p))
        · simp [kern, h2c]
          linear_combination -((conj (Y s l m p) - conj (Y (-s) l m p)) * (Y s l' m' p - Y (-s) l' m' p) / 4) * hI
        · rw [← key]
          refine sum_congr rfl fun W _ => ?_
          unfold mixc
          rw [if_pos rfl]
          by_cases he : Even (l + W.1 + l')
          · rw [if_pos he, he.neg_one_pow]; ring
          · rw [if_neg he, (Nat.not_even_iff_odd.1 he).neg_one_pow]; ring

/-! ## The coefficients of a masked map -/

/-- The coefficients of a map `v` times a mask. -/
noncomputable def noiseCoef (Y : ℤ → ℕ → ℤ → ℕ → ℂ) (npix : ℕ) (q mask : ℕ → ℝ) (s X : ℕ) (v : MapStack) (l : ℕ) (m : ℤ) : ℂ :=
  ∑ c ∈ range (ncomp s), ∑ p ∈ range npix, (q p * mask p : ℝ) * kern Y s X c l m p * (v c p : ℂ)

theorem noiseCoef_real {Y : ℤ → ℕ → ℤ → ℕ → ℂ} {s : ℕ} (hY : Spherical Y s) (npix : ℕ) (q mask : ℕ → ℝ) (X : ℕ) (v : MapStack) :
    RealCoefs (noiseCoef Y npix q mask s X v) := by
  intro l m
  unfold noiseCoef
  rw [_root_.map_sum, mul_sum]
  refine sum_congr rfl fun c _ => ?_
  rw [_root_.map_sum, mul_sum]
  refine sum_congr rfl fun p _ => ?_
  have := kern_real hY X c p l m
  dsimp only at this
  rw [this, map_mul, map_mul, Complex.conj_ofReal, Complex.conj_ofReal]
  ring

/-- The transform of a masked map. -/
theorem pixel_coef {S : Sht} {npix : ℕ} {q : ℕ → ℝ} {Y : ℤ → ℕ → ℤ → ℕ → ℂ} {s : ℕ} (h : PixelSums S npix q Y s) (mask : ℕ → ℝ) (v : MapStack)
    {X lmax l m : ℕ} (hX : X < ncomp s) (hl : l ≤ lmax) (hm : m ≤ l) :
    S.map2alm s lmax 0 (fun c p => tab2 (ncomp s) npix v c p * mask p) X l m = noiseCoef Y npix q mask s X v l m := by
  have ht : ∀ c < ncomp s, ∀ p < npix, tab2 (ncomp s) npix v c p = v c p := by
    intro c hc p hp
    unfold tab2
    rw [if_pos ⟨hc, hp⟩]
  unfold noiseCoef
  by_cases hs : s = 0
  · subst hs
    have hn : ncomp 0 = 1 := rfl
    obtain rfl : X = 0 := by omega
    simp only [Nat.cast_zero]
    rw [h.scalar _ _ l hl m hm, hn, sum_range_one]
    refine sum_congr rfl fun p hp => ?_
    rw [mem_range] at hp
    rw [← hn, ht 0 (by omega) p hp]
    unfold kern
    simp only [if_true, Nat.cast_zero, neg_zero]
    push_cast
    ring
  · have hn : ncomp s = 2 := by unfold ncomp; rw [if_neg hs]
    have hp := h.plus hs lmax (fun c p => tab2 (ncomp s) npix v c p * mask p) l hl m hm
    have hq := h.minus hs lmax (fun c p => tab2 (ncomp s) npix v c p * mask p) l hl m hm
    have hI := Complex.I_mul_I
    set A0 := S.map2alm s lmax 0 (fun c p => tab2 (ncomp s) npix v c p * mask p) 0 l m
    set A1 := S.map2alm s lmax 0 (fun c p => tab2 (ncomp s) npix v c p * mask p) 1 l m
    conv_rhs => rw [hn, sum_range_succ, sum_range_one, ← sum_add_distrib]
    rw [hn] at hX
    obtain rfl | rfl : X = 0 ∨ X = 1 := by omega
    · have e : A0 = ((A0 + I * A1) + (A0 - I * A1)) / 2 := by ring
      change A0 = _
      rw [e, hp, hq, ← sum_add_distrib, sum_div]
      refine sum_congr rfl fun p hp => ?_
      rw [mem_range] at hp
      rw [ht 0 (by omega) p hp, ht 1 (by omega) p hp]
      simp only [kern, if_true, if_neg zero_ne_one]
      push_cast
      ring
    · have e : A1 = -I * ((A0 + I * A1) - (A0 - I * A1)) / 2 := by linear_combination A1 * hI
      change A1 = _
      rw [e, hp, hq, ← sum_sub_distrib, mul_sum, sum_div]
      refine sum_congr rfl fun p hp => ?_
      rw [mem_range] at hp
      rw [ht 0 (by omega) p hp, ht 1 (by omega) p hp]
      simp only [kern, if_true, if_neg one_ne_zero]
      push_cast
      linear_combination (-(q p * mask p * v 1 p * (conj (Y s l m p) + conj (Y (-s) l m p)) / 2 : ℂ)) * hI

/-- The coefficients of the product of two masks. -/
noncomputable def pairMask (Y : ℤ → ℕ → ℤ → ℕ → ℂ) (npix : ℕ) (q m1 m2 : ℕ → ℝ) (L : ℕ) (M : ℤ) : ℂ :=
  ∑ p ∈ range npix, (q p * (m1 p * m2 p) : ℝ) * pointCoef Y p L M

theorem pairMask_real {Y : ℤ → ℕ → ℤ → ℕ → ℂ} {s : ℕ} (hY : Spherical Y s) (npix : ℕ) (q m1 m2 : ℕ → ℝ) : RealCoefs (pairMask Y npix q m1 m2) := by
  intro l m
  unfold pairMask
  rw [_root_.map_sum, mul_sum]
  refine sum_congr rfl fun p _ => ?_
  rw [pointCoef_real hY p l m, map_mul, Complex.conj_ofReal]
  ring

/-- The spectrum computed by the code for two products of masks. -/
theorem productSpectrum_pixels {S : Sht} {npix : ℕ} {q : ℕ → ℝ} {Y : ℤ → ℕ → ℤ → ℕ → ℂ} {s : ℕ} (h : PixelSums S npix q Y s) (m1 m2 m3 m4 : ℕ → ℝ)
    {lmaxMask L : ℕ} (hL : L ≤ lmaxMask) : ((productSpectrum S lmaxMask 0 0 m1 m2 m3 m4 L : ℝ) : ℂ) =
      (∑ M ∈ Icc (-(L : ℤ)) L, pairMask Y npix q m1 m2 L M * conj (pairMask Y npix q m3 m4 L M)) / (2 * L + 1) := by
  have e : ∀ m1 m2 : ℕ → ℝ, ∀ M ≤ L, maskAlms S lmaxMask 0 (fun p => m1 p * m2 p) L M = pairMask Y npix q m1 m2 L M := by
    intro m1 m2 M hM
    unfold maskAlms pairMask pointCoef
    rw [h.scalar _ _ L hL M hM]
    refine sum_congr rfl fun p _ => ?_
    unfold single
    rw [if_pos rfl]
    push_cast
    ring
  unfold productSpectrum
  exact alm2cl_full L (pairMask_real h.harmonics npix q m1 m2 L) (pairMask_real h.harmonics npix q m3 m4 L) (e m1 m2) (e m3 m4)

/-! ## Moments of the noise -/

section
variable {Ω : Type*} [MeasurableSpace Ω] {μ : Measure Ω} {npix : ℕ} {q : ℕ → ℝ} {Y : ℤ → ℕ → ℤ → ℕ → ℂ} {s : ℕ → ℕ} {maps : ℕ → Ω → MapStack}
  {N : ℕ → ℕ → ℝ}

theorem noise_moment (hW : WhiteNoise μ npix q s maps N) (hq : ∀ p < npix, q p ≠ 0) (hY : ∀ i < 4, Spherical Y (s i)) (mask : ℕ → ℕ → ℝ) {i j : ℕ}
    (hi : i < 4) (hj : j < 4) {X X' : ℕ} (hX : X < ncomp (s i)) (hX' : X' < ncomp (s j)) {Nw l l' : ℕ} (hN : l + l' ≤ Nw) {m m' : ℤ} (hm : |m| ≤ l)
    (hm' : |m'| ≤ l') :
    ∫ ω, noiseCoef Y npix q (mask i) (s i) X (maps i ω) l m * conj (noiseCoef Y npix q (mask j) (s j) X' (maps j ω) l' m') ∂μ =
      if s i = s j then (N i j : ℂ) * linFac Nw (fun _ => sfac (s i) 0 (s i)) (pairMask Y npix q (mask i) (mask j)) X l m X' (l', m') else 0 := by
  have e : ∀ ω, noiseCoef Y npix q (mask i) (s i) X (maps i ω) l m * conj (noiseCoef Y npix q (mask j) (s j) X' (maps j ω) l' m') =
      ∑ c ∈ range (ncomp (s i)), ∑ p ∈ range npix, ∑ d ∈ range (ncomp (s j)), ∑ p' ∈ range npix,
        ((q p * mask i p : ℝ) * kern Y (s i) X c l m p * ((q p' * mask j p' : ℝ) * conj (kern Y (s j) X' d l' m' p'))) *
          ((maps i ω c p * maps j ω d p' : ℝ) : ℂ) := by
    intro ω
    unfold noiseCoef
    rw [_root_.map_sum, sum_mul]
    refine sum_congr rfl fun c _ => ?_
    rw [sum_mul]
    refine sum_congr rfl fun p _ => ?_
    rw [mul_sum]
    refine sum_congr rfl fun d _ => ?_
    rw [_root_.map_sum, mul_sum]
    refine sum_congr rfl fun p' _ => ?_
    rw [map_mul, map_mul, Complex.conj_ofReal, Complex.conj_ofReal, Complex.ofReal_mul (maps i ω c p)]
    ring
  have int : ∀ c ∈ range (ncomp (s i)), ∀ p ∈ range npix, ∀ d ∈ range (ncomp (s j)), ∀ p' ∈ range npix, ∀ z : ℂ,
      Integrable (fun ω => z * ((maps i ω c p * maps j ω d p' : ℝ) : ℂ)) μ := by
    intro c hc p hp d hd p' hp' z
    have := hW.gauss.int2 (i, c, p) ⟨hi, mem_range.1 hc, mem_range.1 hp⟩ (j, d, p') ⟨hj, mem_range.1 hd, mem_range.1 hp'⟩
    dsimp only at this
    simp only [Complex.ofReal_mul]
    exact this.const_mul z
  simp only [e]
  rw [integral_finsetSum _ fun c hc => integrable_finsetSum _ fun p hp => integrable_finsetSum _ fun d hd => integrable_finsetSum _ fun p' hp' =>
    int c hc p hp d hd p' hp' _]
  have step : ∀ c ∈ range (ncomp (s i)), ∫ ω, ∑ p ∈ range npix, ∑ d ∈ range (ncomp (s j)), ∑ p' ∈ range npix,
        ((q p * mask i p : ℝ) * kern Y (s i) X c l m p * ((q p' * mask j p' : ℝ) * conj (kern Y (s j) X' d l' m' p'))) *
          ((maps i ω c p * maps j ω d p' : ℝ) : ℂ) ∂μ =
      ∑ p ∈ range npix, if s i = s j then (N i j : ℂ) * ((q p * (mask i p * mask j p) : ℝ) * (kern Y (s i) X c l m p * conj (kern Y (s i) X' c l' m' p))) else 0 := by
    intro c hc
    rw [integral_finsetSum _ fun p hp => integrable_finsetSum _ fun d hd => integrable_finsetSum _ fun p' hp' => int c hc p hp d hd p' hp' _]
    refine sum_congr rfl fun p hp => ?_
    rw [integral_finsetSum _ fun d hd => integrable_finsetSum _ fun p' hp' => int c hc p hp d hd p' hp' _]
    have inner : ∀ d ∈ range (ncomp (s j)), ∫ ω, ∑ p' ∈ range npix,
        ((q p * mask i p : ℝ) * kern Y (s i) X c l m p * ((q p' * mask j p' : ℝ) * conj (kern Y (s j) X' d l' m' p'))) *
          ((maps i ω c p * maps j ω d p' : ℝ) : ℂ) ∂μ =
        if s i = s j ∧ c = d then (N i j : ℂ) * ((q p * (mask i p * mask j p) : ℝ) * (kern Y (s i) X c l m p * conj (kern Y (s j) X' d l' m' p))) else 0 := by
      intro d hd
      rw [integral_finsetSum _ fun p' hp' => int c hc p hp d hd p' hp' _]
      have val : ∀ p' ∈ range npix, ∫ ω, ((q p * mask i p : ℝ) * kern Y (s i) X c l m p * ((q p' * mask j p' : ℝ) * conj (kern Y (s j) X' d l' m' p'))) *
          ((maps i ω c p * maps j ω d p' : ℝ) : ℂ) ∂μ = ((q p * mask i p : ℝ) * kern Y (s i) X c l m p *
            ((q p' * mask j p' : ℝ) * conj (kern Y (s j) X' d l' m' p'))) * ((if s i = s j ∧ c = d ∧ p = p' then N i j / q p else 0 : ℝ) : ℂ) := by
        intro p' hp'
        rw [integral_const_mul, integral_complex_ofReal, hW.covariance i hi j hj c (mem_range.1 hc) d (mem_range.1 hd) p (mem_range.1 hp) p' (mem_range.1 hp')]
      rw [sum_congr rfl val]
      by_cases h : s i = s j ∧ c = d
      · rw [if_pos h, sum_eq_single_of_mem p hp]
        · rw [if_pos ⟨h.1, h.2, rfl⟩]
          have hqp : (q p : ℂ) ≠ 0 := by exact_mod_cast hq p (mem_range.1 hp)
          push_cast
          field_simp
        · intro p' _ hne
          rw [if_neg (fun h => hne h.2.2.symm), Complex.ofReal_zero, mul_zero]
      · rw [if_neg h]
        refine sum_eq_zero fun p' _ => ?_
        rw [if_neg (fun h' => h ⟨h'.1, h'.2.1⟩), Complex.ofReal_zero, mul_zero]
    rw [sum_congr rfl inner]
    by_cases h : s i = s j
    · rw [if_pos h, sum_eq_single_of_mem c (h ▸ hc)]
      · rw [if_pos ⟨h, rfl⟩, h]
      · intro d _ hne
        rw [if_neg (fun h => hne h.2.symm)]
    · rw [if_neg h]
      exact sum_eq_zero fun d _ => if_neg fun h' => h h'.1
  rw [sum_congr rfl step]
  by_cases h : s i = s j
  · simp only [if_pos h]
    rw [sum_comm]
    have hs := fun p => kern_sum (hY i hi) hX (h ▸ hX') hN hm hm' p
    have hlin : linFac Nw (fun _ => sfac (s i) 0 (s i)) (pairMask Y npix q (mask i) (mask j)) X l m X' (l', m') =
        ∑ p ∈ range npix, ((q p * (mask i p * mask j p) : ℝ) : ℂ) * linFac Nw (fun _ => sfac (s i) 0 (s i)) (pointCoef Y p) X l m X' (l', m') := by
      unfold linFac pairMask
      simp only [mul_sum, sum_mul]
      rw [sum_comm]
      exact sum_congr rfl fun p _ => sum_congr rfl fun W _ => by ring
    rw [hlin, mul_sum]
    refine sum_congr rfl fun p _ => ?_
    rw [← hs p, mul_sum, mul_sum]
  · simp only [if_neg h, sum_const_zero]

end

end NaMaster
