import Verif.Wigner.Model
import Verif.Wigner.Orthogonal

/-!
# Lemmas on the recursion for Wigner 3j symbols
-/

namespace NaMaster

open Finset WignerSpec

theorem drcHuge_gt : 1 < drcHuge := by
  unfold drcHuge
  rw [show (1 : ℝ) = Real.sqrt 1 by simp]
  apply Real.sqrt_lt_sqrt (by norm_num)
  have : (1 : ℝ) ≤ 10 ^ 306 := one_le_pow₀ (by norm_num)
  generalize (10 : ℝ) ^ 306 = X at *
  linarith

theorem drcSrhuge_gt : 1 < drcSrhuge := by
  unfold drcSrhuge
  rw [show (1 : ℝ) = Real.sqrt 1 by simp]
  exact Real.sqrt_lt_sqrt (by norm_num) drcHuge_gt

theorem drcSrhuge_sq : drcSrhuge * drcSrhuge = drcHuge :=
  Real.mul_self_sqrt (by linarith [drcHuge_gt])

theorem drcSrtiny_pos : 0 < drcSrtiny := by
  unfold drcSrtiny; have := drcSrhuge_gt; positivity

theorem drcSrtiny_lt : drcSrtiny < drcSrhuge := by
  have := drcSrhuge_gt
  unfold drcSrtiny
  rw [div_lt_iff₀ (by linarith)]
  nlinarith

theorem drcTiny_eq : drcTiny = drcSrtiny * drcSrtiny := by
  unfold drcTiny drcSrtiny
  rw [← drcSrhuge_sq]
  have := drcSrhuge_gt
  field_simp

theorem drcTiny_div : drcSrtiny / drcSrhuge = drcTiny := by
  rw [drcTiny_eq]; unfold drcSrtiny; have := drcSrhuge_gt; field_simp

theorem drcTiny_pos : 0 < drcTiny := by
  rw [drcTiny_eq]; have := drcSrtiny_pos; positivity

/-- The stored number is the scaled symbol, or zero in place of a symbol below `tiny`. -/
def Near (σ v w : ℝ) : Prop := v = σ * w ∨ (v = 0 ∧ |w| < drcTiny)

/-- Rescaling keeps the stored numbers near the symbols. -/
theorem near_flush {σ v w ws : ℝ} (h : Near σ v w) (hb : drcSrhuge ≤ |σ * ws|) (h1 : |ws| ≤ 1) :
    Near (σ / drcSrhuge) (drcFlush v) w := by
  have hs := drcSrhuge_gt
  unfold drcFlush
  rcases h with h | ⟨h, hw⟩
  · by_cases hf : |v| < drcSrtiny
    · right
      rw [if_pos hf, zero_div]
      refine ⟨rfl, ?_⟩
      rw [h, abs_mul] at hf
      rw [abs_mul] at hb
      have hσ : 0 < |σ| := by
        rcases (abs_nonneg σ).eq_or_lt with e | e
        · rw [← e, zero_mul] at hb; linarith
        · exact e
      have hσ' : drcSrhuge ≤ |σ| := by nlinarith [abs_nonneg ws]
      rw [← drcTiny_div, lt_div_iff₀ (by linarith)]
      nlinarith [abs_nonneg w]
    · left
      rw [if_neg hf, h]; ring
  · right
    rw [h]
    simp [hw, drcSrtiny_pos]

/-- Rescaling keeps symbols that are not much smaller than the current one. -/
theorem exact_flush {σ v w ws : ℝ} (h : v = σ * w) (hb : drcSrhuge ≤ |σ * ws|) (hj : w ≠ 0 → drcTiny * |ws| ≤ |w|) :
    drcFlush v = σ / drcSrhuge * w := by
  have hs := drcSrhuge_gt
  unfold drcFlush
  by_cases hf : |v| < drcSrtiny
  · rw [if_pos hf]
    by_cases hw : w = 0
    · rw [hw]; simp
    · exfalso
      have := hj hw
      rw [h, abs_mul] at hf
      rw [abs_mul] at hb
      have h1 : |σ| * (drcTiny * |ws|) ≤ |σ| * |w| := mul_le_mul_of_nonneg_left this (abs_nonneg σ)
      have h2 : drcTiny * drcSrhuge ≤ drcTiny * (|σ| * |ws|) := mul_le_mul_of_nonneg_left hb drcTiny_pos.le
      have h3 : drcTiny * drcSrhuge = drcSrtiny := by rw [← drcTiny_div]; field_simp
      nlinarith
  · rw [if_neg hf, h]; ring

/-- Smallest `l1`. -/
def drcLow (l2 l3 : ℕ) (m2 m3 : ℤ) : ℕ := max ((l2 : ℤ) - l3).natAbs (-m2 - m3).natAbs

/-- Element `i` of the exact result. -/
noncomputable def drcW (l2 l3 : ℕ) (m2 m3 : ℤ) (i : ℕ) : ℝ := wcol l2 l3 m2 m3 (drcLow l2 l3 m2 m3 + i)

/-- Number of values. -/
def drcN (l2 l3 : ℕ) (m2 m3 : ℤ) : ℕ := l2 + l3 - drcLow l2 l3 m2 m3 + 1

theorem drcLow_le {l2 l3 : ℕ} {m2 m3 : ℤ} (h2 : |m2| ≤ l2) (h3 : |m3| ≤ l3) : drcLow l2 l3 m2 m3 ≤ l2 + l3 := by
  unfold drcLow; rw [abs_le] at h2 h3; omega

theorem recA_pos (l2 l3 : ℕ) (m1 : ℤ) (j : ℕ) (h1 : ((l2 : ℤ) - l3).natAbs < j) (h2 : m1.natAbs < j) (h3 : j ≤ l2 + l3) :
    0 < recA l2 l3 m1 j := by
  unfold recA
  apply Real.sqrt_pos.mpr
  have p1 : (0 : ℝ) < j + l2 + l3 + 1 := by positivity
  have p2 : (0 : ℝ) < j - l2 + l3 := by have : 0 < (j : ℤ) - l2 + l3 := by omega
                                        exact_mod_cast this
  have p3 : (0 : ℝ) < j + l2 - l3 := by have : 0 < (j : ℤ) + l2 - l3 := by omega
                                        exact_mod_cast this
  have p4 : (0 : ℝ) < -j + l2 + l3 + 1 := by have : 0 < -(j : ℤ) + l2 + l3 + 1 := by omega
                                             exact_mod_cast this
  have p5 : (0 : ℝ) < j + m1 := by have : 0 < (j : ℤ) + m1 := by omega
                                   exact_mod_cast this
  have p6 : (0 : ℝ) < j - m1 := by have : 0 < (j : ℤ) - m1 := by omega
                                   exact_mod_cast this
  positivity

theorem drcFac_eq (l2 l3 m1 x : ℝ) : drcFac l2 l3 m1 x = recA l2 l3 m1 x := rfl

theorem drcFacBack_eq (l2 l3 m1 x : ℝ) : drcFacBack l2 l3 m1 x = recA l2 l3 m1 (x - 1) := by
  unfold drcFacBack recA
  dsimp only
  congr 1
  ring

/-- The factor `c1` of the forward recursion. -/
noncomputable def fwdC1 (l2 l3 m1 m2 m3 l1 : ℝ) : ℝ :=
  if l1 > 1 then -(l1 + l1 - 1) * drcDv l2 l3 m1 m2 m3 l1 / ((l1 - 1) * drcFac l2 l3 m1 l1)
  else -(l1 + l1 - 1) * l1 * (m3 - m2) / drcFac l2 l3 m1 l1

section
variable {l2 l3 : ℕ} {m2 m3 : ℤ}

/-- The first step up. -/
theorem drcW_one (h2 : |m2| ≤ l2) (h3 : |m3| ≤ l3) (hn : 2 ≤ drcN l2 l3 m2 m3) :
    drcW l2 l3 m2 m3 1 = fwdC1 l2 l3 (-m2 - m3) m2 m3 ((drcLow l2 l3 m2 m3 + 1 : ℕ) : ℝ) * drcW l2 l3 m2 m3 0 := by
  have hlow := drcLow_le h2 h3
  set b := drcLow l2 l3 m2 m3 with hb
  have hb' : b = max ((l2 : ℤ) - l3).natAbs (-m2 - m3).natAbs := hb
  unfold drcN at hn
  rw [← hb] at hn
  have hA := recA_pos l2 l3 (-m2 - m3) (b + 1) (by omega) (by omega) (by omega)
  unfold drcW fwdC1
  rw [← hb, drcFac_eq, add_zero]
  rcases Nat.eq_zero_or_pos b with h0 | hp
  · have e1 : l2 = l3 := by omega
    have e2 : m3 = -m2 := by omega
    subst e1; subst e2
    have hl : 0 < l2 := by omega
    have r := wcol_rec_zero l2 m2 hl h2
    rw [h0] at hA ⊢
    push_cast at hA ⊢
    rw [if_neg (by norm_num)]
    norm_num at hA ⊢
    field_simp
    linear_combination r
  · obtain ⟨j, hj⟩ : ∃ j, b = j + 1 := ⟨b - 1, by omega⟩
    have r := wcol_rec l2 l3 m2 m3 j (by omega) (by omega) (by omega) (by omega) (by omega)
    have z : wcol l2 l3 m2 m3 j = 0 := by
      apply wcol_zero
      unfold Allowed
      simp only [abs_le]
      omega
    rw [z, mul_zero, add_zero] at r
    rw [hj] at hA ⊢
    push_cast at hA ⊢
    rw [if_pos (by have : (0 : ℝ) ≤ j := by positivity
                   linarith)]
    have q : (0 : ℝ) < (j : ℝ) + 1 := by positivity
    unfold recB at r
    rw [show (j : ℝ) + 1 + 1 = j + 2 by ring] at hA ⊢
    rw [show (j : ℝ) + 2 - 1 = j + 1 by ring]
    unfold drcDv
    field_simp
    linear_combination r

/-- The recursion up. -/
theorem drcW_up (h2 : |m2| ≤ l2) (h3 : |m3| ≤ l3) {k : ℕ} (hk : k + 2 < drcN l2 l3 m2 m3) :
    drcW l2 l3 m2 m3 (k + 2) = fwdC1 l2 l3 (-m2 - m3) m2 m3 ((drcLow l2 l3 m2 m3 + (k + 2) : ℕ) : ℝ) * drcW l2 l3 m2 m3 (k + 1) +
      -((drcLow l2 l3 m2 m3 + (k + 2) : ℕ) : ℝ) * recA l2 l3 (-m2 - m3) ((drcLow l2 l3 m2 m3 + (k + 1) : ℕ) : ℝ) /
        ((((drcLow l2 l3 m2 m3 + (k + 2) : ℕ) : ℝ) - 1) * drcFac l2 l3 (-m2 - m3) ((drcLow l2 l3 m2 m3 + (k + 2) : ℕ) : ℝ)) *
        drcW l2 l3 m2 m3 k := by
  have hlow := drcLow_le h2 h3
  set b := drcLow l2 l3 m2 m3 with hb
  have hb' : b = max ((l2 : ℤ) - l3).natAbs (-m2 - m3).natAbs := hb
  unfold drcN at hk
  rw [← hb] at hk
  have hA := recA_pos l2 l3 (-m2 - m3) (b + (k + 2)) (by omega) (by omega) (by omega)
  have r := wcol_rec l2 l3 m2 m3 (b + k) (by omega) (by omega) (by omega) (by omega) (by omega)
  unfold drcW fwdC1
  rw [← hb, drcFac_eq]
  have q : (0 : ℝ) < (b : ℝ) + k + 1 := by positivity
  rw [if_pos (by push_cast; linarith)]
  rw [show b + k + 2 = b + (k + 2) by ring, show b + k + 1 = b + (k + 1) by ring] at r
  unfold recB at r
  unfold drcDv
  push_cast at hA r ⊢
  rw [show (b : ℝ) + k + 2 = b + (k + 2) by ring, show (b : ℝ) + k + 1 = b + (k + 1) by ring] at r
  generalize recA l2 l3 (-m2 - m3) (b + (k + 2)) = A2 at *
  generalize recA l2 l3 (-m2 - m3) (b + (k + 1)) = A1 at *
  generalize wcol l2 l3 m2 m3 (b + (k + 2)) = w2 at *
  generalize wcol l2 l3 m2 m3 (b + (k + 1)) = w1 at *
  generalize wcol l2 l3 m2 m3 (b + k) = w0 at *
  have q' : (b : ℝ) + (k + 2) - 1 ≠ 0 := by
    have : (b : ℝ) + (k + 2) - 1 = b + k + 1 := by ring
    rw [this]; exact q.ne'
  field_simp
  linear_combination r

/-- The first step down. -/
theorem drcW_last (h2 : |m2| ≤ l2) (h3 : |m3| ≤ l3) (hn : 2 ≤ drcN l2 l3 m2 m3) {L : ℝ} (hL : L = ((l2 + l3 : ℕ) : ℝ) + 1) :
    drcW l2 l3 m2 m3 (drcN l2 l3 m2 m3 - 2) =
      -(L + L - 1) * drcDv l2 l3 (-m2 - m3) m2 m3 L / (L * drcFacBack l2 l3 (-m2 - m3) L) * drcW l2 l3 m2 m3 (drcN l2 l3 m2 m3 - 1) := by
  have hlow := drcLow_le h2 h3
  unfold drcW
  set b := drcLow l2 l3 m2 m3 with hb
  have hb' : b = max ((l2 : ℤ) - l3).natAbs (-m2 - m3).natAbs := hb
  have hN : drcN l2 l3 m2 m3 = l2 + l3 - b + 1 := rfl
  rw [hN] at hn ⊢
  have e1 : b + (l2 + l3 - b + 1 - 1) = l2 + l3 := by omega
  obtain ⟨j, hj⟩ : ∃ j, l2 + l3 = j + 1 := ⟨l2 + l3 - 1, by omega⟩
  have e2 : b + (l2 + l3 - b + 1 - 2) = j := by omega
  have hA := recA_pos l2 l3 (-m2 - m3) (l2 + l3) (by omega) (by omega) (by omega)
  have r := wcol_rec l2 l3 m2 m3 j (by omega) (by omega) (by omega) (by omega) (by omega)
  have z : wcol l2 l3 m2 m3 (j + 2) = 0 := by
    apply wcol_zero
    unfold Allowed
    omega
  rw [z, mul_zero, zero_add] at r
  rw [e1, e2, drcFacBack_eq, hL, hj]
  rw [hj] at hA
  have q : (0 : ℝ) < (j : ℝ) + 2 := by positivity
  unfold recB at r
  unfold drcDv
  push_cast at hA r ⊢
  rw [show (j : ℝ) + 1 + 1 - 1 = j + 1 by ring, show (j : ℝ) + 1 + 1 = j + 2 by ring]
  generalize recA l2 l3 (-m2 - m3) (j + 1) = A1 at *
  field_simp
  linear_combination r

/-- The recursion down. -/
theorem drcW_down (h2 : |m2| ≤ l2) (h3 : |m3| ≤ l3) {k : ℕ} (hk2 : 2 ≤ k) (hk : k + 1 ≤ drcN l2 l3 m2 m3) {L : ℝ}
    (hL : L = ((l2 + l3 : ℕ) : ℝ) + 2 - k) :
    drcW l2 l3 m2 m3 (drcN l2 l3 m2 m3 - k - 1) =
      -(L + L - 1) * drcDv l2 l3 (-m2 - m3) m2 m3 L / (L * drcFacBack l2 l3 (-m2 - m3) L) * drcW l2 l3 m2 m3 (drcN l2 l3 m2 m3 - k) +
      -(L - 1) * drcFacBack l2 l3 (-m2 - m3) (L + 1) / (L * drcFacBack l2 l3 (-m2 - m3) L) * drcW l2 l3 m2 m3 (drcN l2 l3 m2 m3 + 1 - k) := by
  have hlow := drcLow_le h2 h3
  unfold drcW
  set b := drcLow l2 l3 m2 m3 with hb
  have hb' : b = max ((l2 : ℤ) - l3).natAbs (-m2 - m3).natAbs := hb
  have hN : drcN l2 l3 m2 m3 = l2 + l3 - b + 1 := rfl
  rw [hN] at hk ⊢
  obtain ⟨j, hj⟩ : ∃ j, l2 + l3 = j + k := ⟨l2 + l3 - k, by omega⟩
  have e0 : b + (l2 + l3 - b + 1 - k - 1) = j := by omega
  have e1 : b + (l2 + l3 - b + 1 - k) = j + 1 := by omega
  have e2 : b + (l2 + l3 - b + 1 + 1 - k) = j + 2 := by omega
  have hA := recA_pos l2 l3 (-m2 - m3) (j + 1) (by omega) (by omega) (by omega)
  have r := wcol_rec l2 l3 m2 m3 j (by omega) (by omega) (by omega) (by omega) (by omega)
  have hL' : L = j + 2 := by rw [hL, hj]; push_cast; ring
  rw [e0, e1, e2, drcFacBack_eq, drcFacBack_eq, hL']
  have q : (0 : ℝ) < (j : ℝ) + 2 := by positivity
  unfold recB at r
  unfold drcDv
  push_cast at hA r ⊢
  rw [show (j : ℝ) + 2 + 1 - 1 = j + 2 by ring, show (j : ℝ) + 2 - 1 = j + 1 by ring]
  generalize recA l2 l3 (-m2 - m3) (j + 2) = A2 at *
  generalize recA l2 l3 (-m2 - m3) (j + 1) = A1 at *
  generalize wcol l2 l3 m2 m3 (j + 2) = w2 at *
  generalize wcol l2 l3 m2 m3 (j + 1) = w1 at *
  generalize wcol l2 l3 m2 m3 j = w0 at *
  field_simp
  linear_combination r

/-- Normalisation. -/
theorem drcW_norm (h2 : |m2| ≤ l2) (h3 : |m3| ≤ l3) :
    ∑ i ∈ range (drcN l2 l3 m2 m3), (2 * ((drcLow l2 l3 m2 m3 + i : ℕ) : ℝ) + 1) * (drcW l2 l3 m2 m3 i) ^ 2 = 1 := by
  have hlow := drcLow_le h2 h3
  refine Eq.trans ?_ (wcol_norm l2 l3 m2 m3 h2 h3)
  unfold drcW drcN
  set b := drcLow l2 l3 m2 m3 with hb
  have hb' : b = max ((l2 : ℤ) - l3).natAbs (-m2 - m3).natAbs := hb
  have e : l2 + l3 + 1 = b + (l2 + l3 - b + 1) := by omega
  conv_rhs => rw [e, sum_range_add]
  rw [eq_comm, add_eq_right]
  apply sum_eq_zero
  intro j hj
  rw [mem_range] at hj
  rw [wcol_zero (by unfold Allowed; simp only [abs_le]; omega)]
  ring

theorem drcW_le_one (h2 : |m2| ≤ l2) (h3 : |m3| ≤ l3) {i : ℕ} (hi : i < drcN l2 l3 m2 m3) : |drcW l2 l3 m2 m3 i| ≤ 1 := by
  rw [← sq_le_one_iff_abs_le_one, ← drcW_norm h2 h3]
  have := single_le_sum (f := fun i => (2 * ((drcLow l2 l3 m2 m3 + i : ℕ) : ℝ) + 1) * (drcW l2 l3 m2 m3 i) ^ 2) (s := range (drcN l2 l3 m2 m3))
    (by intro i _; positivity) (mem_range.mpr hi)
  refine le_trans ?_ this
  have : (0 : ℝ) ≤ ((drcLow l2 l3 m2 m3 + i : ℕ) : ℝ) := by positivity
  nlinarith [sq_nonneg (drcW l2 l3 m2 m3 i)]

/-- The value at the largest `l1`. -/
theorem drcW_top (h2 : |m2| ≤ l2) (h3 : |m3| ≤ l3) :
    ∃ r : ℝ, 0 < r ∧ drcW l2 l3 m2 m3 (drcN l2 l3 m2 m3 - 1) = (-1) ^ ((l2 : ℤ) - l3 + m2 + m3) * r := by
  have hlow := drcLow_le h2 h3
  obtain ⟨r, hr, h⟩ := wcol_top_sign l2 l3 m2 m3 h2 h3
  refine ⟨r, hr, ?_⟩
  unfold drcW drcN
  rw [show drcLow l2 l3 m2 m3 + (l2 + l3 - drcLow l2 l3 m2 m3 + 1 - 1) = l2 + l3 by omega, h]

theorem drcW_top_ne (h2 : |m2| ≤ l2) (h3 : |m3| ≤ l3) : drcW l2 l3 m2 m3 (drcN l2 l3 m2 m3 - 1) ≠ 0 := by
  obtain ⟨r, hr, h⟩ := drcW_top h2 h3
  rw [h]
  exact mul_ne_zero (zpow_ne_zero _ (by norm_num)) hr.ne'

/-- Two consecutive symbols are not both zero. -/
theorem drcW_pair (h2 : |m2| ≤ l2) (h3 : |m3| ≤ l3) {i : ℕ} (hi : i + 1 < drcN l2 l3 m2 m3)
    (h0 : drcW l2 l3 m2 m3 i = 0) : drcW l2 l3 m2 m3 (i + 1) ≠ 0 := by
  intro h1
  have hall : ∀ k, i + 1 + k < drcN l2 l3 m2 m3 → drcW l2 l3 m2 m3 (i + k) = 0 ∧ drcW l2 l3 m2 m3 (i + 1 + k) = 0 := by
    intro k
    induction k with
    | zero => intro _; exact ⟨h0, h1⟩
    | succ k ih =>
      intro hk
      obtain ⟨a, b⟩ := ih (by omega)
      refine ⟨by rw [show i + (k + 1) = i + 1 + k by ring]; exact b, ?_⟩
      have := drcW_up h2 h3 (k := i + k) (by omega)
      rw [show i + 1 + (k + 1) = i + k + 2 by ring, this, a, show i + k + 1 = i + 1 + k by ring, b]
      ring
  have := (hall (drcN l2 l3 m2 m3 - 1 - (i + 1)) (by omega)).2
  rw [show i + 1 + (drcN l2 l3 m2 m3 - 1 - (i + 1)) = drcN l2 l3 m2 m3 - 1 by omega] at this
  exact drcW_top_ne h2 h3 this

theorem drcW_zero_ne (h2 : |m2| ≤ l2) (h3 : |m3| ≤ l3) : drcW l2 l3 m2 m3 0 ≠ 0 := by
  intro h0
  by_cases hn : 2 ≤ drcN l2 l3 m2 m3
  · have h1 := drcW_one h2 h3 hn
    rw [h0, mul_zero] at h1
    exact drcW_pair h2 h3 (i := 0) (by omega) h0 h1
  · have hN : drcN l2 l3 m2 m3 = 1 := by unfold drcN at hn ⊢; omega
    apply drcW_top_ne h2 h3
    rw [hN]; exact h0

end

end NaMaster
