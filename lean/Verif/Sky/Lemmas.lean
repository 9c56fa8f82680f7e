import Verif.Sky.Spec
import Verif.Wigner.RowNorm
import Verif.Field.Spectra

/-! # Lemmas on coefficients of masked fields -/

namespace NaMaster

open Finset MeasureTheory WignerSpec SkySpec
open Complex (I)

local notation "conj" => starRingEnd ℂ

theorem mem_skyModes {N : ℕ} {q : ℕ × ℤ} : q ∈ modes N ↔ q.1 ≤ N ∧ |q.2| ≤ q.1 := by
  unfold modes
  rw [mem_filter, mem_product, mem_range, mem_Icc]
  simp only [abs_le]
  omega

theorem sum_modes {M : Type*} [AddCommMonoid M] (N : ℕ) (f : ℕ × ℤ → M) :
    ∑ q ∈ modes N, f q = ∑ l ∈ range (N + 1), ∑ m ∈ Icc (-(l : ℤ)) l, f (l, m) := by
  rw [sum_sigma']
  symm
  apply sum_bij (fun (x : (_ : ℕ) × ℤ) _ => (x.1, x.2))
  · rintro ⟨l, m⟩ h
    rw [mem_sigma, mem_range, mem_Icc] at h
    rw [mem_skyModes, abs_le]
    dsimp only at h ⊢
    omega
  · rintro ⟨l, m⟩ _ ⟨l', m'⟩ _ h
    simp only [Prod.mk.injEq] at h
    obtain ⟨rfl, rfl⟩ := h
    rfl
  · rintro ⟨l, m⟩ h
    rw [mem_skyModes, abs_le] at h
    refine ⟨⟨l, m⟩, ?_, rfl⟩
    rw [mem_sigma, mem_range, mem_Icc]
    dsimp only at h ⊢
    omega
  · intro _ _; rfl

/-- Changing the sign of `m`. -/
theorem sum_modes_neg {M : Type*} [AddCommMonoid M] (N : ℕ) (f : ℕ × ℤ → M) :
    ∑ q ∈ modes N, f q = ∑ q ∈ modes N, f (q.1, -q.2) := by
  apply sum_bij' (fun q _ => (q.1, -q.2)) (fun q _ => (q.1, -q.2))
  case hi => intro q h; rw [mem_skyModes] at h ⊢; simpa using h
  case hj => intro q h; rw [mem_skyModes] at h ⊢; simpa using h
  all_goals intro q _; simp

theorem sum_Icc_neg {M : Type*} [AddCommMonoid M] (l : ℕ) (f : ℤ → M) :
    ∑ m ∈ Icc (-(l : ℤ)) l, f (-m) = ∑ m ∈ Icc (-(l : ℤ)) l, f m := by
  apply sum_bij' (fun m _ => -m) (fun m _ => -m)
  case hi => intro q h; rw [mem_Icc] at h ⊢; omega
  case hj => intro q h; rw [mem_Icc] at h ⊢; omega
  all_goals intro q _; simp

/-! ## Spectra as sums over all `m` -/

/-- The sum over `m ≥ 0` with weights is the sum over all `m`. -/
theorem alm2cl_full {a b : ℕ → ℤ → ℂ} {a' b' : ℕ → ℕ → ℂ} (l : ℕ) (ha : ∀ m, a l (-m) = (-1) ^ m * conj (a l m))
    (hb : ∀ m, b l (-m) = (-1) ^ m * conj (b l m)) (ha' : ∀ m ≤ l, a' l m = a l m) (hb' : ∀ m ≤ l, b' l m = b l m) :
    (alm2cl a' b' l : ℂ) = (∑ m ∈ Icc (-(l : ℤ)) l, a l m * conj (b l m)) / (2 * l + 1) := by
  have hsign : ∀ m : ℤ, ((-1 : ℂ) ^ m) * ((-1) ^ m) = 1 := by
    intro m
    rw [← mul_zpow]; norm_num
  have hconj : ∀ m : ℤ, conj ((-1 : ℂ) ^ m) = (-1) ^ m := by intro m; simp
  have hneg : ∀ m, a l (-m) * conj (b l (-m)) = conj (a l m * conj (b l m)) := by
    intro m
    rw [ha, hb]
    simp only [map_mul, hconj]
    rw [mul_mul_mul_comm, hsign, one_mul]
  have key : ∀ n : ℕ, ∑ m ∈ Icc (-(n : ℤ)) n, a l m * conj (b l m) =
      ((∑ m ∈ range (n + 1), (if m = 0 then 1 else 2) * (a l m * conj (b l m)).re : ℝ) : ℂ) := by
    intro n
    induction n with
    | zero =>
      have h0 := hneg 0
      rw [neg_zero] at h0
      have him := Complex.conj_eq_iff_real.mp h0.symm
      obtain ⟨r, hr⟩ := him
      simp only [Nat.cast_zero, neg_zero, Icc_self, sum_singleton, zero_add, range_one, if_true, one_mul]
      rw [hr, Complex.ofReal_re]
    | succ n ih =>
      have hs : Icc (-((n + 1 : ℕ) : ℤ)) ((n + 1 : ℕ) : ℤ) = insert (-((n + 1 : ℕ) : ℤ)) (insert ((n + 1 : ℕ) : ℤ) (Icc (-(n : ℤ)) n)) := by
        ext x
        simp only [mem_Icc, mem_insert]
        omega
      rw [hs, sum_insert (by simp only [mem_Icc, mem_insert]; omega), sum_insert (by simp only [mem_Icc]; omega), ih, sum_range_succ _ (n + 1),
        if_neg (Nat.succ_ne_zero n), hneg, ← add_assoc]
      push_cast
      rw [add_comm, add_comm (conj _), Complex.add_conj]
      push_cast
      ring
  rw [key]
  unfold alm2cl
  push_cast
  congr 1
  apply sum_congr rfl
  intro m hm
  rw [mem_range] at hm
  rw [ha' m (by omega), hb' m (by omega)]

/-! ## Linear form of the coefficients -/

/-- The part of the integral that depends on `m`. -/
noncomputable def mfac (l : ℕ) (m : ℤ) (L : ℕ) (M : ℤ) (l' : ℕ) (m' : ℤ) : ℝ :=
  (-1) ^ m * Real.sqrt ((2 * l + 1) * (2 * L + 1) * (2 * l' + 1) / (4 * Real.pi)) * wigner3j l L l' (-m) M m'

/-- The part that depends on the spins. -/
noncomputable def sfac (so sw sf : ℤ) (l L l' : ℕ) : ℝ := (-1) ^ so * wigner3j l L l' so (-sw) (-sf)

theorem gaunt_eq (so sw sf : ℤ) (l : ℕ) (m : ℤ) (L : ℕ) (M : ℤ) (l' : ℕ) (m' : ℤ) :
    gaunt so sw sf l m L M l' m' = mfac l m L M l' m' * sfac so sw sf l L l' := by
  unfold gaunt mfac sfac
  rw [zpow_add₀ (by norm_num)]
  ring

theorem sfac_neg (so sw sf : ℤ) (l L l' : ℕ) : sfac (-so) (-sw) (-sf) l L l' = (-1) ^ (l + L + l') * sfac so sw sf l L l' := by
  unfold sfac
  rw [wigner3j_reversal, zpow_neg, ← inv_zpow]
  norm_num
  ring

theorem mfac_neg (l : ℕ) (m : ℤ) (L : ℕ) (M : ℤ) (l' : ℕ) (m' : ℤ) :
    mfac l (-m) L (-M) l' (-m') = (-1) ^ (l + L + l') * mfac l m L M l' m' := by
  unfold mfac
  rw [wigner3j_reversal, zpow_neg, ← inv_zpow]
  norm_num
  ring

theorem mfac_zero {l : ℕ} {m : ℤ} {L : ℕ} {M : ℤ} {l' : ℕ} {m' : ℤ} (h : m ≠ M + m') : mfac l m L M l' m' = 0 := by
  unfold mfac
  rw [wigner3j_sum_ne (by omega), mul_zero]

/-- How the components mix: not at all if the sum of the multipoles is even, E with B if it is odd. -/
noncomputable def mixc (X X' n : ℕ) : ℂ :=
  if X = X' then (if Even n then 1 else 0) else if Even n then 0 else if X = 0 then I else -I

theorem conj_mixc (X X' n : ℕ) : conj (mixc X X' n) = (-1) ^ n * mixc X X' n := by
  unfold mixc
  by_cases hn : Even n
  · rw [if_pos hn, if_pos hn, hn.neg_one_pow]
    split_ifs <;> simp
  · rw [if_neg hn, if_neg hn, (Nat.not_even_iff_odd.mp hn).neg_one_pow]
    split_ifs <;> simp

/-- Coefficients of a masked field with `n` components, where `h` are factors that do not depend on `m`. -/
noncomputable def linCoef (n Nw Nf : ℕ) (h : ℕ → ℕ → ℕ → ℕ → ℝ) (w : ℕ → ℤ → ℂ) (F : ℕ → ℕ → ℤ → ℂ) (X l : ℕ) (m : ℤ) : ℂ :=
  ∑ W ∈ modes Nw, ∑ q ∈ modes Nf, w W.1 W.2 * (mfac l m W.1 W.2 q.1 q.2 * h X l W.1 q.1 : ℝ) *
    ∑ X' ∈ range n, mixc X X' (l + W.1 + q.1) * F X' q.1 q.2

theorem sum_range_two' {M : Type*} [AddCommMonoid M] (f : ℕ → M) : ∑ i ∈ range 2, f i = f 0 + f 1 := by
  rw [sum_range_succ, sum_range_one]

theorem neg_one_even {n : ℕ} (h : Even n) : (((-1 : ℝ) ^ n : ℝ) : ℂ) = 1 := by rw [h.neg_one_pow]; simp

theorem neg_one_odd {n : ℕ} (h : ¬ Even n) : (((-1 : ℝ) ^ n : ℝ) : ℂ) = -1 := by
  rw [(Nat.not_even_iff_odd.mp h).neg_one_pow]; simp

/-- The components of a product are of the linear form. -/
theorem product_lin {so sw sf : ℤ} {Nw Nf lmax : ℕ} {w : ℕ → ℤ → ℂ} {F : ℕ → ℕ → ℤ → ℂ} {A : Alms}
    (h : ProductOf so sw sf Nw Nf lmax w F A) {X : ℕ} (hX : X < 2) {l : ℕ} (hl : l ≤ lmax) {m : ℕ} (hm : m ≤ l) :
    A X l m = linCoef 2 Nw Nf (fun _ => sfac so sw sf) w F X l m := by
  have e1 := h.plus l hl m hm
  have e2 := h.minus l hl m hm
  set P := productCoef so sw sf Nw Nf w (fun l m => F 0 l m + I * F 1 l m) l m with hP
  set Q := productCoef (-so) (-sw) (-sf) Nw Nf w (fun l m => F 0 l m - I * F 1 l m) l m with hQ
  have hI : I * I = -1 := Complex.I_mul_I
  have hA : A X l m = if X = 0 then (P + Q) / 2 else (-I) * (P - Q) / 2 := by
    obtain rfl | rfl : X = 0 ∨ X = 1 := by omega
    · rw [if_pos rfl, ← e1, ← e2]; ring
    · rw [if_neg (by omega), ← e1, ← e2]
      linear_combination (A 1 l m) * hI
  rw [hA, hP, hQ]
  unfold productCoef linCoef
  obtain rfl | rfl : X = 0 ∨ X = 1 := by omega
  · rw [if_pos rfl, ← sum_add_distrib, sum_div]
    apply sum_congr rfl; intro W _
    rw [← sum_add_distrib, sum_div]
    apply sum_congr rfl; intro q _
    rw [gaunt_eq, gaunt_eq, sfac_neg, sum_range_two']
    unfold mixc
    by_cases hn : Even (l + W.1 + q.1)
    · simp only [if_pos hn]
      push_cast
      rw [hn.neg_one_pow]
      simp
      ring
    · simp only [if_neg hn]
      push_cast
      rw [(Nat.not_even_iff_odd.mp hn).neg_one_pow]
      simp
      ring
  · rw [if_neg (by omega), ← sum_sub_distrib, mul_sum, sum_div]
    apply sum_congr rfl; intro W _
    rw [← sum_sub_distrib, mul_sum, sum_div]
    apply sum_congr rfl; intro q _
    rw [gaunt_eq, gaunt_eq, sfac_neg, sum_range_two']
    unfold mixc
    by_cases hn : Even (l + W.1 + q.1)
    · simp only [if_pos hn]
      push_cast
      rw [hn.neg_one_pow]
      simp
      linear_combination -(w W.1 W.2 * (mfac l m W.1 W.2 q.1 q.2 * sfac so sw sf l W.1 q.1) * F 1 q.1 q.2) * hI
    · simp only [if_neg hn]
      push_cast
      rw [(Nat.not_even_iff_odd.mp hn).neg_one_pow]
      simp
      ring

theorem scalar_lin {Nw Nf lmax : ℕ} {w : ℕ → ℤ → ℂ} {F : ℕ → ℕ → ℤ → ℂ} {A : Alms}
    (h : MaskedBy 0 Nw Nf lmax w F A) {X : ℕ} (hX : X < 1) {l : ℕ} (hl : l ≤ lmax) {m : ℕ} (hm : m ≤ l) :
    A X l m = linCoef 1 Nw Nf (fun _ => sfac 0 0 0) w F X l m := by
  obtain rfl : X = 0 := by omega
  rw [h.scalar rfl l hl m hm]
  unfold productCoef linCoef
  apply sum_congr rfl; intro W _
  apply sum_congr rfl; intro q _
  rw [gaunt_eq, sum_range_one]
  unfold mixc
  rw [if_pos rfl]
  by_cases hn : Even (l + W.1 + q.1)
  · rw [if_pos hn, one_mul]
  · rw [if_neg hn]
    have : sfac 0 0 0 l W.1 q.1 = 0 := by
      have e := sfac_neg 0 0 0 l W.1 q.1
      rw [(Nat.not_even_iff_odd.mp hn).neg_one_pow, neg_zero] at e
      linarith
    rw [this]
    simp

/-- Both cases. -/
theorem masked_lin {s Nw Nf lmax : ℕ} {w : ℕ → ℤ → ℂ} {F : ℕ → ℕ → ℤ → ℂ} {A : Alms}
    (h : MaskedBy s Nw Nf lmax w F A) {X : ℕ} (hX : X < ncomp s) {l : ℕ} (hl : l ≤ lmax) {m : ℕ} (hm : m ≤ l) :
    A X l m = linCoef (ncomp s) Nw Nf (fun _ => sfac s 0 s) w F X l m := by
  by_cases hs : s = 0
  · subst hs
    exact scalar_lin h hX hl hm
  · unfold ncomp at hX ⊢
    rw [if_neg hs] at hX ⊢
    exact product_lin (h.spin hs) hX hl hm

/-- The coefficients of a masked field are those of real components. -/
theorem linCoef_real (n Nw Nf : ℕ) (h : ℕ → ℕ → ℕ → ℕ → ℝ) {w : ℕ → ℤ → ℂ} {F : ℕ → ℕ → ℤ → ℂ} (hw : RealCoefs w)
    (hF : ∀ X < n, RealCoefs (F X)) (X : ℕ) : RealCoefs (linCoef n Nw Nf h w F X) := by
  intro l m
  unfold linCoef
  rw [map_sum, mul_sum, sum_modes_neg]
  apply sum_congr rfl; intro W _
  rw [map_sum, mul_sum, sum_modes_neg]
  apply sum_congr rfl; intro q _
  dsimp only
  by_cases hm : m = W.2 + q.2
  swap
  · rw [mfac_zero (m := -m) (by omega), mfac_zero hm]
    simp
  rw [mfac_neg, map_mul, map_mul, map_sum, Complex.conj_ofReal, hw, mul_sum, mul_sum, mul_sum]
  apply sum_congr rfl; intro X' hX'
  rw [mem_range] at hX'
  rw [map_mul, conj_mixc, hF X' hX', hm, zpow_add₀ (by norm_num)]
  push_cast
  ring

end NaMaster
