import Verif.Coupling.Lemmas
import Verif.Coupling.Spec

/-!
# Lemmas on Wigner symbols in the model
-/

namespace NaMaster

open Finset CouplingSpec

theorem triangle_iff {l1 l2 l3 : ℕ} : Triangle l1 l2 l3 ↔ ldist l2 l3 ≤ l1 ∧ l1 ≤ l2 + l3 := by
  unfold Triangle ldist; omega

theorem triangle_comm {l1 l2 l3 : ℕ} : Triangle l1 l2 l3 ↔ Triangle l1 l3 l2 := by
  unfold Triangle; omega

theorem zero3j_comm (l1 l2 l3 : ℕ) : zero3j l1 l3 l2 = zero3j l1 l2 l3 := by
  unfold zero3j
  have e : l1 + l3 + l2 = l1 + l2 + l3 := by ring
  rw [e]
  by_cases h : Triangle l1 l2 l3 ∧ Even (l1 + l2 + l3)
  · rw [if_pos h, if_pos ⟨triangle_comm.1 h.1, h.2⟩]
    simp only
    rw [add_comm l3 l2]
    congr 2
    · congr 2
      push_cast; ring
    · push_cast; ring
  · rw [if_neg h, if_neg (fun h' => h ⟨triangle_comm.1 h'.1, h'.2⟩)]

theorem neg_one_pow_eq (n : ℕ) : ((-1 : ℝ)) ^ n = if Odd n then -1 else 1 := by
  by_cases h : Odd n
  · rw [if_pos h, h.neg_one_pow]
  · rw [if_neg h, (Nat.not_odd_iff_even.1 h).neg_one_pow]

/-- The closed form of the symbols with zero lower row, for multipoles in the table of factorials. -/
theorem drc000_eq (junk : ℕ → ℝ) (lmax lmaxMask l1 l2 l3 : ℕ) (ht : Triangle l1 l2 l3)
    (hJ : l1 + l2 + l3 + 1 < lfacSize lmax lmaxMask) :
    drc000 (lfac junk lmax lmaxMask) l1 l2 l3 = zero3j l1 l2 l3 := by
  have hlf : ∀ n, n ≤ l1 + l2 + l3 + 1 → lfac junk lmax lmaxMask n = Real.log (n.factorial : ℝ) := by
    intro n hn
    unfold lfac
    rw [if_pos (lt_of_le_of_lt hn hJ), logFac_eq]
  have fpos : ∀ n : ℕ, (0 : ℝ) < (n.factorial : ℝ) := fun n => by exact_mod_cast Nat.factorial_pos n
  unfold drc000 zero3j
  by_cases hs : l2 + l3 = ldist l2 l3
  · have h0 : (l2 = 0 ∨ l3 = 0) ∧ l1 = l2 + l3 := by
      have := triangle_iff.1 ht
      unfold ldist at hs this
      omega
    have hc : Triangle l1 l2 l3 ∧ Even (l1 + l2 + l3) := ⟨ht, ⟨l2 + l3, by omega⟩⟩
    rw [if_pos hs, if_pos hc]
    simp only
    have hg : (l1 + l2 + l3) / 2 = l2 + l3 := by omega
    rw [hg, ← hs, neg_one_pow_eq]
    have e1 : l2 + l3 - l1 = 0 := by omega
    have e4 : l2 + l3 - l1 = 0 := by omega
    have hfac : (l1 + l2 + l3 + 1).factorial = (2 * (l2 + l3) + 1) * (2 * (l2 + l3)).factorial := by
      have : l1 + l2 + l3 + 1 = 2 * (l2 + l3) + 1 := by omega
      rw [this, Nat.factorial_succ]
    have hprod : (l1 + l3 - l2).factorial * (l1 + l2 - l3).factorial = (2 * (l2 + l3)).factorial := by
      rcases h0.1 with h | h
      · subst h
        have a1 : l1 + l3 - 0 = 2 * (0 + l3) := by omega
        have a2 : l1 + 0 - l3 = 0 := by omega
        rw [a1, a2]; simp
      · subst h
        have a1 : l1 + l2 - 0 = 2 * (l2 + 0) := by omega
        have a2 : l1 + 0 - l2 = 0 := by omega
        rw [a1, a2]; simp
    have hg2 : (l2 + l3 - l1).factorial * (l2 + l3 - l2).factorial * (l2 + l3 - l3).factorial = (l2 + l3).factorial := by
      rw [e1]
      rcases h0.1 with h | h <;> subst h <;> simp
    rw [mul_assoc (l2 + l3 - l1).factorial, hprod, hfac, hg2, e1]
    have p1 := fpos (2 * (l2 + l3))
    have p2 := fpos (l2 + l3)
    rw [div_self p2.ne', mul_one]
    push_cast
    rw [Nat.factorial_zero]
    have : ((1 : ℕ) : ℝ) * ((2 * (l2 + l3)).factorial : ℝ) / ((2 * ((l2 : ℝ) + l3) + 1) * ((2 * (l2 + l3)).factorial : ℝ)) =
        1 / (2 * ((l2 : ℝ) + l3) + 1) := by
      field_simp
      push_cast; ring
    rw [this, Real.sqrt_div zero_le_one, Real.sqrt_one]
    have : (l2 : ℝ) + l3 + l2 + l3 + 1 = 2 * ((l2 : ℝ) + l3) + 1 := by ring
    rw [this]
    by_cases ho : Odd (l2 + l3)
    · rw [if_pos ho]; ring
    · rw [if_neg ho]; ring
  · rw [if_neg hs]
    simp only
    by_cases ho : Odd (l1 + l2 + l3)
    · rw [if_pos ho, if_neg (fun h => Nat.not_even_iff_odd.2 ho h.2)]
    · have he := Nat.not_odd_iff_even.1 ho
      have hc : Triangle l1 l2 l3 ∧ Even (l1 + l2 + l3) := ⟨ht, he⟩
      rw [if_neg ho, if_pos hc, neg_one_pow_eq]
      obtain ⟨g, hg⟩ := he
      have hg' : (l1 + l2 + l3) / 2 = g := by omega
      unfold Triangle at ht
      rw [hg']
      have b1 : l1 + l2 + l3 - 2 * l1 = l2 + l3 - l1 := by omega
      have b2 : l1 + l2 + l3 - 2 * l2 = l1 + l3 - l2 := by omega
      have b3 : l1 + l2 + l3 - 2 * l3 = l1 + l2 - l3 := by omega
      rw [b1, b2, b3, hlf _ (by omega), hlf _ (by omega), hlf _ (by omega), hlf _ (by omega), hlf _ (by omega),
        hlf _ (by omega), hlf _ (by omega), hlf _ (by omega)]
      rw [mul_assoc]
      congr 1
      rw [Real.exp_add]
      congr 1
      · have q : (0 : ℝ) < ((l2 + l3 - l1).factorial * (l1 + l3 - l2).factorial * (l1 + l2 - l3).factorial : ℕ) /
            ((l1 + l2 + l3 + 1).factorial : ℝ) := by
          push_cast
          have := fpos (l2 + l3 - l1); have := fpos (l1 + l3 - l2); have := fpos (l1 + l2 - l3)
          have := fpos (l1 + l2 + l3 + 1)
          positivity
        rw [one_div, inv_mul_eq_div, Real.exp_half, ← Real.exp_log q, Real.log_div, Nat.cast_mul, Nat.cast_mul,
          Real.log_mul, Real.log_mul]
        · exact (fpos _).ne'
        · exact (fpos _).ne'
        · exact mul_ne_zero (fpos _).ne' (fpos _).ne'
        · exact (fpos _).ne'
        · push_cast; exact mul_ne_zero (mul_ne_zero (fpos _).ne' (fpos _).ne') (fpos _).ne'
        · exact (fpos _).ne'
      · rw [Real.exp_sub, Real.exp_sub, Real.exp_sub, Real.exp_log (fpos _), Real.exp_log (fpos _),
          Real.exp_log (fpos _), Real.exp_log (fpos _)]
        push_cast
        rw [div_div, div_div, ← mul_assoc]

theorem drcMin_zero (l2 l3 : ℕ) (m : ℤ) : drcMin l2 l3 m (-m) = ldist l2 l3 := by
  unfold drcMin; simp

/-- The buffer value for lower row `0, s, -s`. -/
theorem wigAt_spin (W : Wigner) (l1 l2 l3 s : ℕ) (hs : s ≠ 0) (h : l1 ≤ l2 + l3) :
    wigAt W l1 l2 l3 s (-s) = spin3j W s l1 l2 l3 := by
  unfold wigAt spin3j drc3jj
  rw [drcMin_zero, if_neg hs]
  simp only [Int.natAbs_natCast, Int.natAbs_neg]
  by_cases h1 : l1 < ldist l2 l3
  · rw [if_pos h1, if_neg]
    rw [triangle_iff]; omega
  · rw [if_neg h1]
    by_cases h2 : l2 < s ∨ l3 < s
    · rw [if_pos h2, if_neg]; omega
    · rw [if_neg h2, if_pos ⟨triangle_iff.2 ⟨by omega, h⟩, by omega, by omega⟩]
      congr 1
      omega

theorem spin3j_comm (W : Wigner) (hW : Symmetric W) (s l1 l2 l3 : ℕ) :
    spin3j W s l1 l3 l2 = spin3j W s l1 l2 l3 := by
  unfold spin3j
  by_cases hs : s = 0
  · rw [if_pos hs, if_pos hs, zero3j_comm]
  · rw [if_neg hs, if_neg hs]
    by_cases h : Triangle l1 l2 l3 ∧ s ≤ l2 ∧ s ≤ l3
    · rw [if_pos h, if_pos ⟨triangle_comm.1 h.1, h.2.2, h.2.1⟩]
      have e1 := hW.exchange l1 l2 l3 (-s) s
      have e2 := hW.reversal l1 l2 l3 s (-s)
      rw [neg_neg] at e2
      rw [e1, e2, ← mul_assoc, ← pow_add, ← two_mul, pow_mul]
      norm_num
    · rw [if_neg h, if_neg]
      rintro ⟨a, b, c⟩
      exact h ⟨triangle_comm.1 a, c, b⟩

theorem spin3j_zero (W : Wigner) {s l1 l2 l3 : ℕ} (h : ¬ Triangle l1 l2 l3) : spin3j W s l1 l2 l3 = 0 := by
  unfold spin3j zero3j
  by_cases hs : s = 0
  · rw [if_pos hs, if_neg (fun h' => h h'.1)]
  · rw [if_neg hs, if_neg (fun h' => h h'.1)]

/-- The loop over `l1` covers all multipoles of the mask that contribute. -/
theorem sumMask_eq (M l2 l3 : ℕ) (f g : ℕ → ℝ) (hz : ∀ l1, ¬ Triangle l1 l2 l3 → g l1 = 0)
    (h : ∀ l1, l1 ≤ M → Triangle l1 l2 l3 → f l1 = g l1) :
    sumMask M l2 l3 f = ∑ l1 ∈ range (M + 1), g l1 := by
  unfold sumMask
  rw [← Finset.sum_filter]
  symm
  rw [← Finset.sum_subset (s₁ := (Icc (ldist l2 l3) (l2 + l3)).filter (· ≤ M))]
  · apply Finset.sum_congr rfl
    intro l1 hl
    rw [Finset.mem_filter, Finset.mem_Icc] at hl
    exact (h l1 hl.2 (triangle_iff.2 hl.1)).symm
  · intro l1 hl
    rw [Finset.mem_filter] at hl
    rw [Finset.mem_range]; omega
  · intro l1 hl hn
    apply hz
    intro ht
    apply hn
    rw [Finset.mem_filter, Finset.mem_Icc]
    rw [Finset.mem_range] at hl
    exact ⟨triangle_iff.1 ht, by omega⟩

end NaMaster
