import Verif.Sky.AnisoSpec
import Verif.Sky.Pure

/-! # Means of spectra of fields with anisotropic masks -/

namespace NaMaster

open Finset MeasureTheory WignerSpec SkySpec CouplingSpec
open Complex (I)

local notation "conj" => starRingEnd ℂ

/-! ## Linear form of the coefficients -/

/-- The coefficients of the three parts of the mask: without spin, E and B. -/
def maskPart (w : ℕ → ℤ → ℂ) (wa : ℕ → ℕ → ℤ → ℂ) (k : ℕ) : ℕ → ℤ → ℂ := if k = 0 then w else wa (k - 1)

/-- The component of the sky that takes the place of component `X`. -/
def turnIdx (n k X : ℕ) : ℕ := if k = 2 ∧ n = 2 then 1 - X else X

/-- Its sign. -/
def turnSgn (k X : ℕ) : ℝ := if k = 1 ∧ X = 1 then -1 else 1

/-- The components that each part of the mask acts on. -/
noncomputable def turn (n k : ℕ) (F : ℕ → ℕ → ℤ → ℂ) : ℕ → ℕ → ℤ → ℂ := fun X l m => (turnSgn k X : ℂ) * F (turnIdx n k X) l m

/-- The factors of each part. -/
noncomputable def partFac (s k : ℕ) : ℕ → ℕ → ℕ → ℕ → ℝ := fun _ l L l' =>
  if k = 0 then sfac s 0 s l L l' else -(-1) ^ s * sfac s (2 * s) (-s) l L l'

theorem turnIdx_lt {n k X : ℕ} (h : X < n) : turnIdx n k X < n := by unfold turnIdx; split_ifs <;> omega

theorem turnIdx_turn {n k X : ℕ} (h : X < n) : turnIdx n k (turnIdx n k X) = X := by unfold turnIdx; split_ifs <;> omega

theorem turn_real {n k : ℕ} {F : ℕ → ℕ → ℤ → ℂ} (hF : ∀ X < n, RealCoefs (F X)) : ∀ X < n, RealCoefs (turn n k F X) := by
  intro X hX l m
  unfold turn
  rw [hF _ (turnIdx_lt hX), map_mul, Complex.conj_ofReal]
  ring

theorem linCoef_zero (n Nw Nf : ℕ) (h : ℕ → ℕ → ℕ → ℕ → ℝ) (F : ℕ → ℕ → ℤ → ℂ) (X l : ℕ) (m : ℤ) :
    linCoef n Nw Nf h (fun _ _ => 0) F X l m = 0 := by
  unfold linCoef
  simp

theorem spin_plus {s : ℕ} (hs : s ≠ 0) (e b : ℂ) : spinCoef s e b = -(e + I * b) := by
  unfold spinCoef; rw [if_pos (by exact_mod_cast Nat.pos_of_ne_zero hs)]

theorem spin_minus {s : ℕ} (hs : s ≠ 0) (e b : ℂ) : spinCoef (-s) e b = -(-1) ^ s * (e - I * b) := by
  unfold spinCoef
  have : 0 < s := Nat.pos_of_ne_zero hs
  rw [if_neg (by omega), zpow_neg, ← inv_zpow, zpow_natCast]
  norm_num

theorem spin_plus2 {s : ℕ} (hs : s ≠ 0) (e b : ℂ) : spinCoef (2 * s) e b = -(e + I * b) := by
  have := spin_plus (s := 2 * s) (by omega) e b
  push_cast at this
  exact this

theorem spin_minus2 {s : ℕ} (hs : s ≠ 0) (e b : ℂ) : spinCoef (-(2 * s)) e b = -(e - I * b) := by
  have := spin_minus (s := 2 * s) (by omega) e b
  push_cast at this
  rw [this, pow_mul]
  norm_num

theorem neg_one_sq_c (s : ℕ) : ((-1 : ℂ)) ^ s * (-1) ^ s = 1 := by rw [← mul_pow]; norm_num

/-- One term of the sums. -/
theorem aniso_term0 (ε g0 ga w e b f0 f1 σ : ℂ) (hσ : σ * σ = 1) :
    ((w * g0 * (-(f0 + I * f1)) + -(e + I * b) * ga * (-σ * (f0 - I * f1))) +
      σ * (w * (ε * g0) * (-σ * (f0 - I * f1)) + -(e - I * b) * (ε * ga) * (-(f0 + I * f1)))) / (-2) =
      w * g0 * ((1 + ε) / 2 * f0 + (1 - ε) / 2 * I * f1) +
      (-σ * ga) * ((1 + ε) / 2 * (e * f0 + b * f1) + (1 - ε) / 2 * I * (b * f0 - e * f1)) := by
  have hI : I * I = -1 := Complex.I_mul_I
  linear_combination (w * ε * g0 * (f0 - I * f1) / 2) * hσ + (ga * σ * b * f1 * (1 + ε) / 2) * hI

/-- One term of the sums. -/
theorem aniso_term1 (ε g0 ga w e b f0 f1 σ : ℂ) (hσ : σ * σ = 1) :
    I * ((w * g0 * (-(f0 + I * f1)) + -(e + I * b) * ga * (-σ * (f0 - I * f1))) -
      σ * (w * (ε * g0) * (-σ * (f0 - I * f1)) + -(e - I * b) * (ε * ga) * (-(f0 + I * f1)))) / 2 =
      w * g0 * ((1 + ε) / 2 * f1 - (1 - ε) / 2 * I * f0) +
      (-σ * ga) * ((1 + ε) / 2 * (b * f0 - e * f1) - (1 - ε) / 2 * I * (e * f0 + b * f1)) := by
  have hI : I * I = -1 := Complex.I_mul_I
  linear_combination (I * w * ε * g0 * (f0 - I * f1) / 2) * hσ + (-w * g0 * f1 * (1 + ε) / 2 + ga * σ * (b * f0 - e * f1) * (1 + ε) / 2 -
    I * ga * σ * b * f1 * (1 - ε) / 2) * hI

/-- The components of a field with an anisotropic mask are of the linear form. -/
theorem aniso_lin {s Nw Nf lmax : ℕ} (hs : s ≠ 0) {w : ℕ → ℤ → ℂ} {wa F : ℕ → ℕ → ℤ → ℂ} {A : Alms} (h : AnisoMaskedBy s Nw Nf lmax w wa F A)
    {X : ℕ} (hX : X < 2) {l : ℕ} (hl : l ≤ lmax) {m : ℕ} (hm : m ≤ l) :
    A X l m = ∑ k ∈ range 3, linCoef 2 Nw Nf (partFac s k) (maskPart w wa k) (turn 2 k F) X l m := by
  have e1 := h.plus l hl m hm
  have e2 := h.minus l hl m hm
  simp only [spin_plus hs, spin_minus hs, spin_plus2 hs, spin_minus2 hs] at e1 e2
  set P := productCoef s 0 s Nw Nf w (fun l m => -(F 0 l m + I * F 1 l m)) l m +
    productCoef s (2 * s) (-s) Nw Nf (fun l m => -(wa 0 l m + I * wa 1 l m)) (fun l m => -(-1) ^ s * (F 0 l m - I * F 1 l m)) l m with hP
  set Q := productCoef (-s) 0 (-s) Nw Nf w (fun l m => -(-1) ^ s * (F 0 l m - I * F 1 l m)) l m +
    productCoef (-s) (-(2 * s)) s Nw Nf (fun l m => -(wa 0 l m - I * wa 1 l m)) (fun l m => -(F 0 l m + I * F 1 l m)) l m with hQ
  have hI : I * I = -1 := Complex.I_mul_I
  have hσ := neg_one_sq_c s
  have hA : A X l m = if X = 0 then (P + (-1) ^ s * Q) / (-2) else I * (P - (-1) ^ s * Q) / 2 := by
    obtain rfl | rfl : X = 0 ∨ X = 1 := by omega
    · rw [if_pos rfl, ← e1, ← e2]
      linear_combination -((A 0 l m - I * A 1 l m) / 2) * hσ
    · rw [if_neg (by omega), ← e1, ← e2]
      linear_combination (-I * (A 0 l m - I * A 1 l m) / 2) * hσ + (A 1 l m) * hI
  have hPs : P = ∑ W ∈ modes Nw, ∑ q ∈ modes Nf, (w W.1 W.2 * ((mfac l m W.1 W.2 q.1 q.2 * sfac s 0 s l W.1 q.1 : ℝ) : ℂ) *
        (-(F 0 q.1 q.2 + I * F 1 q.1 q.2)) + -(wa 0 W.1 W.2 + I * wa 1 W.1 W.2) *
        ((mfac l m W.1 W.2 q.1 q.2 * sfac s (2 * s) (-s) l W.1 q.1 : ℝ) : ℂ) * (-(-1) ^ s * (F 0 q.1 q.2 - I * F 1 q.1 q.2))) := by
    rw [hP]
    unfold productCoef
    rw [← sum_add_distrib]
    refine sum_congr rfl fun W _ => ?_
    rw [← sum_add_distrib]
    refine sum_congr rfl fun q _ => ?_
    rw [gaunt_eq, gaunt_eq]
  have hQs : Q = ∑ W ∈ modes Nw, ∑ q ∈ modes Nf, (w W.1 W.2 * ((-1 : ℂ) ^ (l + W.1 + q.1) *
        ((mfac l m W.1 W.2 q.1 q.2 * sfac s 0 s l W.1 q.1 : ℝ) : ℂ)) * (-(-1) ^ s * (F 0 q.1 q.2 - I * F 1 q.1 q.2)) +
        -(wa 0 W.1 W.2 - I * wa 1 W.1 W.2) * ((-1 : ℂ) ^ (l + W.1 + q.1) *
        ((mfac l m W.1 W.2 q.1 q.2 * sfac s (2 * s) (-s) l W.1 q.1 : ℝ) : ℂ)) * (-(F 0 q.1 q.2 + I * F 1 q.1 q.2))) := by
    rw [hQ]
    unfold productCoef
    rw [← sum_add_distrib]
    refine sum_congr rfl fun W _ => ?_
    rw [← sum_add_distrib]
    refine sum_congr rfl fun q _ => ?_
    have g1 := sfac_neg (s : ℤ) 0 s l W.1 q.1
    have g2 := sfac_neg (s : ℤ) (2 * s) (-s) l W.1 q.1
    rw [neg_zero] at g1
    rw [neg_neg] at g2
    rw [gaunt_eq, gaunt_eq, g1, g2]
    push_cast
    ring
  have hmixe : ∀ n, Even n → mixc 0 0 n = 1 ∧ mixc 0 1 n = 0 ∧ mixc 1 0 n = 0 ∧ mixc 1 1 n = 1 := by
    intro n hn; unfold mixc; simp [hn]
  have hmixo : ∀ n, ¬ Even n → mixc 0 0 n = 0 ∧ mixc 0 1 n = I ∧ mixc 1 0 n = -I ∧ mixc 1 1 n = 0 := by
    intro n hn; unfold mixc; simp [hn]
  rw [hA, hPs, hQs, sum_range_succ, sum_range_succ, sum_range_one]
  unfold linCoef
  obtain rfl | rfl : X = 0 ∨ X = 1 := by omega
  · rw [if_pos rfl, mul_sum, ← sum_add_distrib, sum_div, ← sum_add_distrib, ← sum_add_distrib]
    refine sum_congr rfl fun W _ => ?_
    rw [mul_sum, ← sum_add_distrib, sum_div, ← sum_add_distrib, ← sum_add_distrib]
    refine sum_congr rfl fun q _ => ?_
    rw [aniso_term0 _ _ _ _ _ _ _ _ _ hσ]
    simp only [sum_range_two', turn, turnSgn, turnIdx, partFac, maskPart]
    by_cases hn : Even (l + W.1 + q.1)
    · obtain ⟨a, b, -, -⟩ := hmixe _ hn
      rw [a, b, hn.neg_one_pow]
      simp
      ring
    · obtain ⟨a, b, -, -⟩ := hmixo _ hn
      rw [a, b, (Nat.not_even_iff_odd.mp hn).neg_one_pow]
      simp
      ring
  · rw [if_neg (by omega), mul_sum, ← sum_sub_distrib, mul_sum, sum_div, ← sum_add_distrib, ← sum_add_distrib]
    refine sum_congr rfl fun W _ => ?_
    rw [mul_sum, ← sum_sub_distrib, mul_sum, sum_div, ← sum_add_distrib, ← sum_add_distrib]
    refine sum_congr rfl fun q _ => ?_
    rw [aniso_term1 _ _ _ _ _ _ _ _ _ hσ]
    simp only [sum_range_two', turn, turnSgn, turnIdx, partFac, maskPart]
    by_cases hn : Even (l + W.1 + q.1)
    · obtain ⟨-, -, a, b⟩ := hmixe _ hn
      rw [a, b, hn.neg_one_pow]
      simp
      ring
    · obtain ⟨-, -, a, b⟩ := hmixo _ hn
      rw [a, b, (Nat.not_even_iff_odd.mp hn).neg_one_pow]
      simp
      ring

/-! ## Means -/

theorem alm2cl_sum {n1 n2 l : ℕ} {a b : ℕ → ℕ → ℂ} {a' b' : ℕ → ℕ → ℕ → ℂ} (ha : ∀ m ≤ l, a l m = ∑ k ∈ range n1, a' k l m)
    (hb : ∀ m ≤ l, b l m = ∑ k ∈ range n2, b' k l m) : alm2cl a b l = ∑ k ∈ range n1, ∑ j ∈ range n2, alm2cl (a' k) (b' j) l := by
  unfold alm2cl
  simp only [← sum_div]
  congr 1
  have e : ∀ m ∈ range (l + 1), (if m = 0 then (1 : ℝ) else 2) * (a l m * conj (b l m)).re =
      ∑ k ∈ range n1, ∑ j ∈ range n2, (if m = 0 then (1 : ℝ) else 2) * (a' k l m * conj (b' j l m)).re := by
    intro m hm
    rw [mem_range] at hm
    rw [ha m (by omega), hb m (by omega), map_sum, sum_mul_sum, Complex.re_sum, mul_sum]
    refine sum_congr rfl fun k _ => ?_
    rw [Complex.re_sum, mul_sum]
  rw [sum_congr rfl e, sum_comm]
  refine sum_congr rfl fun k _ => ?_
  rw [sum_comm]

theorem turn_isotropic {Ω : Type*} [MeasurableSpace Ω] {μ : Measure Ω} {n1 n2 Nf : ℕ} {F1 F2 : Ω → ℕ → ℕ → ℤ → ℂ} {C : ℕ → ℕ → ℕ → ℝ}
    (hI : Isotropic μ n1 n2 Nf F1 F2 C) (k j : ℕ) : Isotropic μ n1 n2 Nf (fun ω => turn n1 k (F1 ω)) (fun ω => turn n2 j (F2 ω))
      fun X Y l => turnSgn k X * turnSgn j Y * C (turnIdx n1 k X) (turnIdx n2 j Y) l := by
  have e : ∀ X Y (q r : ℕ × ℤ) ω, turn n1 k (F1 ω) X q.1 q.2 * conj (turn n2 j (F2 ω) Y r.1 r.2) =
      (turnSgn k X * turnSgn j Y : ℝ) * (F1 ω (turnIdx n1 k X) q.1 q.2 * conj (F2 ω (turnIdx n2 j Y) r.1 r.2)) := by
    intro X Y q r ω
    unfold turn
    rw [map_mul, Complex.conj_ofReal]
    push_cast
    ring
  constructor
  · intro X hX Y hY q hq r hr
    simp only [e]
    exact (hI.integrable _ (turnIdx_lt hX) _ (turnIdx_lt hY) q hq r hr).const_mul _
  · intro X hX Y hY q hq r hr
    simp only [e]
    rw [integral_const_mul, hI.covariance _ (turnIdx_lt hX) _ (turnIdx_lt hY) q hq r hr]
    split_ifs
    · push_cast; ring
    · simp

/-- The matrix of two fields with anisotropic masks; `pcl` are the spectra of the parts of the masks. -/
noncomputable def anisoKernel (n1 n2 s1 s2 Nw : ℕ) (pcl : ℕ → ℕ → ℕ → ℝ) (l X Y l' X' Y' : ℕ) : ℝ :=
  ∑ k ∈ range 3, ∑ j ∈ range 3, turnSgn k (turnIdx n1 k X') * turnSgn j (turnIdx n2 j Y') *
    kernelMatrix (partFac s1 k) (partFac s2 j) Nw (pcl k j) l X Y l' (turnIdx n1 k X') (turnIdx n2 j Y')

theorem partFac_triangle (s k : ℕ) : ∀ X l L l', ¬ Triangle L l l' → partFac s k X l L l' = 0 := by
  intro X l L l' h
  unfold partFac
  rw [sfac_triangle h, sfac_triangle h, mul_zero, ite_self]

theorem sum_turn {n k : ℕ} (f : ℕ → ℝ) : ∑ X ∈ range n, f X = ∑ X ∈ range n, f (turnIdx n k X) := by
  refine (sum_bij' (fun X _ => turnIdx n k X) (fun X _ => turnIdx n k X) ?_ ?_ ?_ ?_ ?_).symm
  · intro X hX; rw [mem_range] at *; exact turnIdx_lt hX
  · intro X hX; rw [mem_range] at *; exact turnIdx_lt hX
  · intro X hX; rw [mem_range] at hX; exact turnIdx_turn hX
  · intro X hX; rw [mem_range] at hX; exact turnIdx_turn hX
  · intro X hX; rfl

theorem aniso_mean {Ω : Type*} [MeasurableSpace Ω] {μ : Measure Ω} {n1 n2 Nf : ℕ} {F1 F2 : Ω → ℕ → ℕ → ℤ → ℂ} {C : ℕ → ℕ → ℕ → ℝ}
    (hI : Isotropic μ n1 n2 Nf F1 F2 C) (hF1 : ∀ ω, ∀ X < n1, RealCoefs (F1 ω X)) (hF2 : ∀ ω, ∀ X < n2, RealCoefs (F2 ω X))
    {Nw s1 s2 : ℕ} {w1 w2 : ℕ → ℤ → ℂ} {wa1 wa2 : ℕ → ℕ → ℤ → ℂ} (hw1 : ∀ k < 3, RealCoefs (maskPart w1 wa1 k))
    (hw2 : ∀ k < 3, RealCoefs (maskPart w2 wa2 k)) {A1 A2 : Ω → Alms} {W1 W2 : ℕ → ℕ → ℕ → ℂ} {X Y l : ℕ} (hX : X < 2) (hY : Y < 2)
    (hA1 : ∀ ω, ∀ m ≤ l, A1 ω X l m = ∑ k ∈ range 3, linCoef n1 Nw Nf (partFac s1 k) (maskPart w1 wa1 k) (turn n1 k (F1 ω)) X l m)
    (hA2 : ∀ ω, ∀ m ≤ l, A2 ω Y l m = ∑ k ∈ range 3, linCoef n2 Nw Nf (partFac s2 k) (maskPart w2 wa2 k) (turn n2 k (F2 ω)) Y l m)
    (hW1 : ∀ k < 3, ∀ L ≤ Nw, ∀ m ≤ L, W1 k L m = maskPart w1 wa1 k L m) (hW2 : ∀ k < 3, ∀ L ≤ Nw, ∀ m ≤ L, W2 k L m = maskPart w2 wa2 k L m) :
    Integrable (fun ω => alm2cl (A1 ω X) (A2 ω Y) l) μ ∧
    ∫ ω, alm2cl (A1 ω X) (A2 ω Y) l ∂μ = ∑ l' ∈ range (Nf + 1), ∑ X' ∈ range n1, ∑ Y' ∈ range n2,
      anisoKernel n1 n2 s1 s2 Nw (fun k j => alm2cl (W1 k) (W2 j)) l X Y l' X' Y' * C X' Y' l' := by
  let B1 : ℕ → Ω → Alms := fun k ω X l m => linCoef n1 Nw Nf (partFac s1 k) (maskPart w1 wa1 k) (turn n1 k (F1 ω)) X l m
  let B2 : ℕ → Ω → Alms := fun k ω X l m => linCoef n2 Nw Nf (partFac s2 k) (maskPart w2 wa2 k) (turn n2 k (F2 ω)) X l m
  have hsum : ∀ ω, alm2cl (A1 ω X) (A2 ω Y) l = ∑ k ∈ range 3, ∑ j ∈ range 3, alm2cl (B1 k ω X) (B2 j ω Y) l := fun ω =>
    alm2cl_sum (a' := fun k => B1 k ω X) (b' := fun k => B2 k ω Y) (hA1 ω) (hA2 ω)
  have key : ∀ k ∈ range 3, ∀ j ∈ range 3, _ := fun k hk j hj => alm2cl_mean_real (turn_isotropic hI k j) (fun ω => turn_real (hF1 ω))
    (fun ω => turn_real (hF2 ω)) (Nw := Nw) (h1 := partFac s1 k) (h2 := partFac s2 j) (partFac_triangle s1 k) (hw1 k (mem_range.1 hk))
    (hw2 j (mem_range.1 hj)) (A1 := B1 k) (A2 := B2 j) (l := l) hX hY (fun ω m hm => rfl) (fun ω m hm => rfl) (hW1 k (mem_range.1 hk))
    (hW2 j (mem_range.1 hj))
  simp only [hsum]
  refine ⟨integrable_finsetSum _ fun k hk => integrable_finsetSum _ fun j hj => (key k hk j hj).1, ?_⟩
  rw [integral_finsetSum _ fun k hk => integrable_finsetSum _ fun j hj => (key k hk j hj).1]
  have e : ∀ k ∈ range 3, ∫ ω, ∑ j ∈ range 3, alm2cl (B1 k ω X) (B2 j ω Y) l ∂μ = ∑ j ∈ range 3, ∑ l' ∈ range (Nf + 1),
      ∑ X' ∈ range n1, ∑ Y' ∈ range n2, turnSgn k (turnIdx n1 k X') * turnSgn j (turnIdx n2 j Y') *
        kernelMatrix (partFac s1 k) (partFac s2 j) Nw (alm2cl (W1 k) (W2 j)) l X Y l' (turnIdx n1 k X') (turnIdx n2 j Y') * C X' Y' l' := by
    intro k hk
    rw [integral_finsetSum _ fun j hj => (key k hk j hj).1]
    refine sum_congr rfl fun j hj => ?_
    rw [(key k hk j hj).2]
    refine sum_congr rfl fun l' _ => ?_
    rw [sum_turn (k := k)]
    refine sum_congr rfl fun X' hX' => ?_
    rw [sum_turn (k := j)]
    refine sum_congr rfl fun Y' hY' => ?_
    rw [turnIdx_turn (mem_range.1 hX'), turnIdx_turn (mem_range.1 hY')]
    ring
  rw [sum_congr rfl e]
  unfold anisoKernel
  simp only [sum_mul]
  have e2 : ∀ k ∈ range 3, ∀ f : ℕ → ℕ → ℕ → ℕ → ℝ, ∑ j ∈ range 3, ∑ l' ∈ range (Nf + 1), ∑ X' ∈ range n1, ∑ Y' ∈ range n2, f j l' X' Y' =
      ∑ l' ∈ range (Nf + 1), ∑ X' ∈ range n1, ∑ Y' ∈ range n2, ∑ j ∈ range 3, f j l' X' Y' := by
    intro k _ f
    rw [sum_comm]
    refine sum_congr rfl fun l' _ => ?_
    rw [sum_comm]
    refine sum_congr rfl fun X' _ => ?_
    rw [sum_comm]
  rw [sum_congr rfl fun k hk => e2 k hk _, sum_comm]
  refine sum_congr rfl fun l' _ => ?_
  rw [sum_comm]
  refine sum_congr rfl fun X' _ => ?_
  rw [sum_comm]

end NaMaster
