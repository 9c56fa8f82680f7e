import Verif.Wigner.DrcJoin
import Verif.Wigner.Bounds

/-!
# C75: the recursion computes the Wigner 3j symbols
-/

namespace NaMaster

open WignerSpec

/-- Smallest `l1` for which the symbol need not vanish. -/
def lowestL1 (l2 l3 : ℕ) (m2 m3 : ℤ) : ℕ := max ((l2 : ℤ) - l3).natAbs (m2 + m3).natAbs

theorem drcLow_eq (l2 l3 : ℕ) (m2 m3 : ℤ) : drcLow l2 l3 m2 m3 = lowestL1 l2 l3 m2 m3 := by
  unfold drcLow lowestL1; omega

/-- What a call for `l2 l3 m2 m3` should leave in an array that held `mem`: from the lowest `l1` on, the symbols,
except that symbols below `10^-153` may be replaced by zero; nothing else changes. -/
def SymbolsIn (mem out : ℕ → ℝ) (l2 l3 : ℕ) (m2 m3 : ℤ) : Prop :=
  (∀ l1, lowestL1 l2 l3 m2 m3 ≤ l1 → l1 ≤ l2 + l3 →
    out (l1 - lowestL1 l2 l3 m2 m3) = wigner3j l1 l2 l3 (-m2 - m3) m2 m3 ∨
    (out (l1 - lowestL1 l2 l3 m2 m3) = 0 ∧ |wigner3j l1 l2 l3 (-m2 - m3) m2 m3| < 1 / 10 ^ 153)) ∧
  ∀ i, l2 + l3 < lowestL1 l2 l3 m2 m3 + i → out i = mem i

/-- The same without exceptions: every symbol, exactly. -/
def ExactSymbolsIn (mem out : ℕ → ℝ) (l2 l3 : ℕ) (m2 m3 : ℤ) : Prop :=
  (∀ l1, lowestL1 l2 l3 m2 m3 ≤ l1 → l1 ≤ l2 + l3 →
    out (l1 - lowestL1 l2 l3 m2 m3) = wigner3j l1 l2 l3 (-m2 - m3) m2 m3) ∧
  ∀ i, l2 + l3 < lowestL1 l2 l3 m2 m3 + i → out i = mem i

theorem drcHuge_big : (10 : ℝ) ^ 153 < drcHuge := by
  unfold drcHuge
  apply Real.lt_sqrt_of_sq_lt
  rw [← pow_mul]
  have : (0 : ℝ) < 10 ^ 306 := by positivity
  generalize (10 : ℝ) ^ 306 = B at *
  linarith

theorem drcTiny_small : drcTiny < 1 / 10 ^ 153 := by
  unfold drcTiny
  exact one_div_lt_one_div_of_lt (by positivity) drcHuge_big

theorem drcTiny_sq : drcTiny ^ 2 * (179 * 10 ^ 306) = 20 := by
  unfold drcTiny drcHuge
  rw [div_pow, Real.sq_sqrt (by positivity)]
  norm_num

section
variable {l2 l3 : ℕ} {m2 m3 : ℤ}

theorem symbolsIn_of {mem out : ℕ → ℝ} (h2 : |m2| ≤ l2) (h3 : |m3| ≤ l3)
    (h : ∀ i, i < drcN l2 l3 m2 m3 → Near 1 (out i) (drcW l2 l3 m2 m3 i)) (h' : ∀ i, drcN l2 l3 m2 m3 ≤ i → out i = mem i) :
    SymbolsIn mem out l2 l3 m2 m3 := by
  have hlow := drcLow_le h2 h3
  unfold SymbolsIn
  rw [← drcLow_eq]
  refine ⟨?_, ?_⟩
  · intro l1 a b
    have := h (l1 - drcLow l2 l3 m2 m3) (by unfold drcN; omega)
    unfold drcW wcol at this
    rw [show drcLow l2 l3 m2 m3 + (l1 - drcLow l2 l3 m2 m3) = l1 by omega] at this
    rcases this with e | ⟨e, w⟩
    · left; rw [e, one_mul]
    · right; exact ⟨e, w.trans drcTiny_small⟩
  · intro i hi
    exact h' i (by unfold drcN; omega)

theorem exactSymbolsIn_of {mem out : ℕ → ℝ} (h2 : |m2| ≤ l2) (h3 : |m3| ≤ l3)
    (h : ∀ i, i < drcN l2 l3 m2 m3 → out i = drcW l2 l3 m2 m3 i) (h' : ∀ i, drcN l2 l3 m2 m3 ≤ i → out i = mem i) :
    ExactSymbolsIn mem out l2 l3 m2 m3 := by
  have hlow := drcLow_le h2 h3
  unfold ExactSymbolsIn
  rw [← drcLow_eq]
  refine ⟨?_, ?_⟩
  · intro l1 a b
    have := h (l1 - drcLow l2 l3 m2 m3) (by unfold drcN; omega)
    unfold drcW wcol at this
    rwa [show drcLow l2 l3 m2 m3 + (l1 - drcLow l2 l3 m2 m3) = l1 by omega] at this
  · intro i hi
    exact h' i (by unfold drcN; omega)

/-- A single symbol. -/
theorem drcRun_one (mem : ℕ → ℝ) (h2 : |m2| ≤ l2) (h3 : |m3| ≤ l3) (hn : drcN l2 l3 m2 m3 = 1) (size : ℕ) :
    ∃ out, drcRun mem l2 l3 m2 m3 size = .ok out ∧
      (∀ i, i < drcN l2 l3 m2 m3 → out i = drcW l2 l3 m2 m3 i) ∧ ∀ i, drcN l2 l3 m2 m3 ≤ i → out i = mem i := by
  have hlow := drcLow_le h2 h3
  have hl : l2 + l3 = drcLow l2 l3 m2 m3 := by unfold drcN at hn; omega
  have key : drcRun mem l2 l3 m2 m3 size = .ok (Function.update mem 0
      ((-1) ^ ((l2 : ℤ) + m2 - l3 + m3) / Real.sqrt ((drcLow l2 l3 m2 m3 : ℝ) + l2 + l3 + 1))) := by
    rw [← sign2_eq]
    unfold drcRun
    dsimp only
    rw [if_neg (by simp only [abs_le] at h2 h3; omega)]
    change (if l2 + l3 = drcLow l2 l3 m2 m3 then _ else _) = _
    rw [if_pos hl]
    rfl
  refine ⟨_, key, ?_, ?_⟩
  · intro i hi
    have hi0 : i = 0 := by omega
    subst hi0
    rw [Function.update_self]
    obtain ⟨r, hr, ht⟩ := drcW_top h2 h3
    have hnorm := drcW_norm h2 h3
    rw [hn] at ht hnorm
    rw [Finset.sum_range_one] at hnorm
    rw [ht] at hnorm ⊢
    rw [show (l2 : ℤ) - l3 + m2 + m3 = (l2 : ℤ) + m2 - l3 + m3 by ring] at *
    rw [mul_pow, neg_one_sq, one_mul, add_zero] at hnorm
    have hs : (drcLow l2 l3 m2 m3 : ℝ) + l2 + l3 + 1 = 2 * (drcLow l2 l3 m2 m3 : ℝ) + 1 := by
      rw [← hl]; push_cast; ring
    rw [hs, div_eq_mul_inv]
    congr 1
    have hp : (0 : ℝ) < 2 * (drcLow l2 l3 m2 m3 : ℝ) + 1 := by positivity
    rw [← Real.sqrt_inv, Real.sqrt_eq_iff_mul_self_eq (by positivity) hr.le]
    field_simp
    linarith
  · intro i hi
    rw [Function.update_of_ne (by omega)]

theorem drcRun_any (mem : ℕ → ℝ) (h2 : |m2| ≤ l2) (h3 : |m3| ≤ l3) (size : ℕ) (hs : drcN l2 l3 m2 m3 ≤ size)
    (htop : drcTiny ≤ |drcW l2 l3 m2 m3 (drcN l2 l3 m2 m3 - 1)|)
    (hj : ¬DrcNoJump l2 l3 m2 m3 → drcTiny < |drcW l2 l3 m2 m3 0| ∧ drcTiny < |drcW l2 l3 m2 m3 (drcN l2 l3 m2 m3 - 1)|) :
    ∃ out, drcRun mem l2 l3 m2 m3 size = .ok out ∧ SymbolsIn mem out l2 l3 m2 m3 ∧
      (DrcStrict l2 l3 m2 m3 → ExactSymbolsIn mem out l2 l3 m2 m3) := by
  by_cases hn : 2 ≤ drcN l2 l3 m2 m3
  · obtain ⟨out, e, a, b, c⟩ := drcRun_many mem h2 h3 hn size hs htop hj
    exact ⟨out, e, symbolsIn_of h2 h3 a b, fun h => exactSymbolsIn_of h2 h3 (c h) b⟩
  · obtain ⟨out, e, a, b⟩ := drcRun_one mem h2 h3 (by unfold drcN at hn ⊢; omega) size
    exact ⟨out, e, symbolsIn_of h2 h3 (fun i hi => Or.inl (by rw [a i hi, one_mul])) b, fun _ => exactSymbolsIn_of h2 h3 a b⟩

theorem pow_le_of {x : ℝ} (hx : 1 ≤ x) {a b : ℕ} (h : a ≤ b) {w : ℝ} (hw : 0 ≤ w) (h1 : 1 ≤ x ^ a * w) : 1 ≤ x ^ b * w :=
  h1.trans (mul_le_mul_of_nonneg_right (pow_le_pow_right₀ hx h) hw)

theorem base_le {a b : ℕ} (h : a ≤ b) (k : ℕ) {w : ℝ} (hw : 0 ≤ w) (h1 : 1 ≤ (2 * (a : ℝ) + 1) ^ k * w) :
    1 ≤ (2 * (b : ℝ) + 1) ^ k * w := by
  refine h1.trans (mul_le_mul_of_nonneg_right (pow_le_pow_left₀ (by positivity) ?_ _) hw)
  have : (a : ℝ) ≤ b := by exact_mod_cast h
  linarith

theorem one_le_base (n : ℕ) : (1 : ℝ) ≤ 2 * (n : ℝ) + 1 := by
  have : (0 : ℝ) ≤ n := by positivity
  linarith

theorem sign_sq (n : ℕ) : ((-1 : ℝ) ^ n) ^ 2 = 1 := by
  rw [← pow_mul, mul_comm, pow_mul]; norm_num

/-- Lower bound on the symbol of the lowest `l1`. -/
theorem low_lower (h2 : |m2| ≤ l2) (h3 : |m3| ≤ l3) :
    1 ≤ (2 * ((l2 + l3 : ℕ) : ℝ) + 1) ^ (2 * (m2.natAbs + m3.natAbs) + 3) * (drcW l2 l3 m2 m3 0) ^ 2 := by
  have h2' := h2
  have h3' := h3
  rw [abs_le] at h2' h3'
  unfold drcW
  rw [add_zero]
  set b := drcLow l2 l3 m2 m3 with hb
  have hb' : b = max ((l2 : ℤ) - l3).natAbs (-m2 - m3).natAbs := hb
  have hx := one_le_base (l2 + l3)
  by_cases hc : (b : ℤ) = -m2 - m3 ∨ (b : ℤ) = m2 + m3
  · rcases hc with hc | hc
    · have := edge_sq_lower l2 l3 m2 m3 h2 h3 b hc (by omega) (by omega)
      exact pow_le_of hx (by omega) (sq_nonneg _) this
    · have := edge_sq_lower l2 l3 (-m2) (-m3) (by rwa [abs_neg]) (by rwa [abs_neg]) b (by omega) (by omega) (by omega)
      have e : wcol l2 l3 (-m2) (-m3) b = (-1) ^ (b + l2 + l3) * wcol l2 l3 m2 m3 b := by
        unfold wcol
        rw [← wigner3j_reversal]; congr 1; ring
      rw [e, mul_pow, sign_sq, one_mul, Int.natAbs_neg, Int.natAbs_neg] at this
      exact pow_le_of hx (by omega) (sq_nonneg _) this
  · rcases le_total l3 l2 with hl | hl
    · have hbl : b + l3 = l2 := by omega
      have t := top_sq_lower b l3 (-m2 - m3) m3 (by rw [abs_le]; omega) h3
      have e : wcol b l3 (-m2 - m3) m3 (b + l3) = (-1) ^ (b + l2 + l3) * wcol l2 l3 m2 m3 b := by
        unfold wcol
        rw [← wigner3j_first, hbl]; congr 1; ring
      rw [e, mul_pow, sign_sq, one_mul] at t
      exact pow_le_of hx (by omega) (sq_nonneg _) (base_le (by omega) _ (sq_nonneg _) t)
    · have hbl : b + l2 = l3 := by omega
      have t := top_sq_lower b l2 (-m2 - m3) m2 (by rw [abs_le]; omega) h2
      have e : wcol b l2 (-m2 - m3) m2 (b + l2) = wcol l2 l3 m2 m3 b := by
        unfold wcol
        rw [show -(-m2 - m3) - m2 = m3 by ring, hbl, wigner3j_first, wigner3j_exchange b l2 l3, ← mul_assoc, ← pow_add,
          show b + l3 + l2 + (b + l2 + l3) = 2 * (b + l2 + l3) by ring, pow_mul]
        norm_num
      rw [e] at t
      exact pow_le_of hx (by omega) (sq_nonneg _) (base_le (by omega) _ (sq_nonneg _) t)

/-- Lower bound on the symbol of the largest `l1`. -/
theorem top_lower (h2 : |m2| ≤ l2) (h3 : |m3| ≤ l3) :
    1 ≤ (2 * ((l2 + l3 : ℕ) : ℝ) + 1) ^ (2 * (m2.natAbs + m3.natAbs) + 3) * (drcW l2 l3 m2 m3 (drcN l2 l3 m2 m3 - 1)) ^ 2 := by
  have hlow := drcLow_le h2 h3
  have t := top_sq_lower l2 l3 m2 m3 h2 h3
  unfold drcW drcN
  rw [show drcLow l2 l3 m2 m3 + (l2 + l3 - drcLow l2 l3 m2 m3 + 1 - 1) = l2 + l3 by omega]
  exact pow_le_of (one_le_base _) (by omega) (sq_nonneg _) t

theorem drcTiny_lt_srtiny : drcTiny < drcSrtiny := by
  rw [drcTiny_eq]
  have h1 := drcSrtiny_pos
  have h2 : drcSrtiny < 1 := by
    unfold drcSrtiny
    rw [div_lt_one (by linarith [drcSrhuge_gt])]
    exact drcSrhuge_gt
  nlinarith

theorem srtiny_le_of {X : ℕ} {w : ℝ} (hX : X ≤ 10 ^ 153) (h : 1 ≤ (X : ℝ) * w ^ 2) : drcSrtiny ≤ |w| := by
  have ht := drcSrtiny_pos
  have hs := drcTiny_small
  apply le_of_sq_le_sq _ (abs_nonneg w)
  rw [sq_abs, sq, ← drcTiny_eq]
  have hX' : (X : ℝ) ≤ 10 ^ 153 := by exact_mod_cast hX
  have hP : (0 : ℝ) < 10 ^ 153 := by positivity
  generalize (10 : ℝ) ^ 153 = B at *
  have h1 : 1 ≤ B * w ^ 2 := h.trans (mul_le_mul_of_nonneg_right hX' (sq_nonneg w))
  have h2 : 1 / B ≤ w ^ 2 := by rw [div_le_iff₀ hP]; linarith
  linarith

theorem tiny_lt_of {X : ℕ} {w : ℝ} (hX : 20 * X < 179 * 10 ^ 306) (h : 1 ≤ (X : ℝ) * w ^ 2) : drcTiny < |w| := by
  have ht := drcTiny_pos
  have hs := drcTiny_sq
  apply lt_of_pow_lt_pow_left₀ 2 (abs_nonneg w)
  rw [sq_abs]
  have hX' : (20 : ℝ) * X < 179 * 10 ^ 306 := by exact_mod_cast hX
  generalize (179 : ℝ) * 10 ^ 306 = B at *
  have hB : 0 < B := by
    have : (0 : ℝ) ≤ X := by positivity
    linarith
  have hXp : (0 : ℝ) < X := by
    by_contra hn
    have : (X : ℝ) = 0 := le_antisymm (not_lt.mp hn) (by positivity)
    rw [this, zero_mul] at h
    linarith
  have h1 : drcTiny ^ 2 * X < 1 := by
    have : drcTiny ^ 2 * (20 * X) < drcTiny ^ 2 * B := mul_lt_mul_of_pos_left hX' (by positivity)
    linarith
  have h2 : drcTiny ^ 2 * X < w ^ 2 * X := by linarith
  exact lt_of_mul_lt_mul_right h2 hXp.le

end

/-- **C75**: with an array large enough, a call leaves the Wigner 3j symbols in it, as given by Racah's formula, whenever
the multipoles and the lower row are not so large that `(2(l2+l3)+1)^(2(|m2|+|m3|)+3)` exceeds the range of doubles. -/
theorem C75_symbols (mem : ℕ → ℝ) (l2 l3 : ℕ) (m2 m3 : ℤ) (size : ℕ) (h2 : |m2| ≤ l2) (h3 : |m3| ≤ l3)
    (hs : l2 + l3 < lowestL1 l2 l3 m2 m3 + size)
    (hX : 20 * (2 * (l2 + l3) + 1) ^ (2 * (m2.natAbs + m3.natAbs) + 3) < 179 * 10 ^ 306) :
    ∃ out, drcRun mem l2 l3 m2 m3 size = .ok out ∧ SymbolsIn mem out l2 l3 m2 m3 := by
  have hlow := drcLow_le h2 h3
  rw [← drcLow_eq] at hs
  have a := tiny_lt_of (w := drcW l2 l3 m2 m3 0) hX (by have := low_lower h2 h3; push_cast at this ⊢; exact this)
  have b := tiny_lt_of (w := drcW l2 l3 m2 m3 (drcN l2 l3 m2 m3 - 1)) hX (by have := top_lower h2 h3; push_cast at this ⊢; exact this)
  obtain ⟨out, e, s, -⟩ := drcRun_any mem h2 h3 size (by unfold drcN; omega) b.le (fun _ => ⟨a, b⟩)
  exact ⟨out, e, s⟩

/-- **C75**: if that number is at most `10^153` the symbols are exact: nothing is rescaled or replaced by zero. -/
theorem C75_exact (mem : ℕ → ℝ) (l2 l3 : ℕ) (m2 m3 : ℤ) (size : ℕ) (h2 : |m2| ≤ l2) (h3 : |m3| ≤ l3)
    (hs : l2 + l3 < lowestL1 l2 l3 m2 m3 + size)
    (hX : (2 * (l2 + l3) + 1) ^ (2 * (m2.natAbs + m3.natAbs) + 3) ≤ 10 ^ 153) :
    ∃ out, drcRun mem l2 l3 m2 m3 size = .ok out ∧ ExactSymbolsIn mem out l2 l3 m2 m3 := by
  have hlow := drcLow_le h2 h3
  have a := srtiny_le_of (w := drcW l2 l3 m2 m3 0) hX (by have := low_lower h2 h3; push_cast at this ⊢; exact this)
  have b := srtiny_le_of (w := drcW l2 l3 m2 m3 (drcN l2 l3 m2 m3 - 1)) hX (by have := top_lower h2 h3; push_cast at this ⊢; exact this)
  have hst := drcTiny_lt_srtiny
  rw [← drcLow_eq] at hs
  obtain ⟨out, e, -, s⟩ := drcRun_any mem h2 h3 size (by unfold drcN; omega) (hst.trans_le b).le
    (fun _ => ⟨hst.trans_le a, hst.trans_le b⟩)
  exact ⟨out, e, s ⟨a, b⟩⟩

/-- **C75**: in particular for all multipoles of 32 bits and the lower rows that fields of spin up to 3 need. -/
theorem C75_exact_spins (mem : ℕ → ℝ) (l2 l3 : ℕ) (m2 m3 : ℤ) (size : ℕ) (h2 : |m2| ≤ l2) (h3 : |m3| ≤ l3)
    (hs : l2 + l3 < lowestL1 l2 l3 m2 m3 + size) (hL : l2 + l3 < 2 ^ 31) (hM : m2.natAbs + m3.natAbs ≤ 6) :
    ∃ out, drcRun mem l2 l3 m2 m3 size = .ok out ∧ ExactSymbolsIn mem out l2 l3 m2 m3 := by
  apply C75_exact mem l2 l3 m2 m3 size h2 h3 hs
  calc (2 * (l2 + l3) + 1) ^ (2 * (m2.natAbs + m3.natAbs) + 3)
      ≤ (2 ^ 32) ^ (2 * (m2.natAbs + m3.natAbs) + 3) := Nat.pow_le_pow_left (by omega) _
    _ ≤ (2 ^ 32) ^ 15 := Nat.pow_le_pow_right (by norm_num) (by omega)
    _ ≤ 10 ^ 153 := by norm_num

/-- **C75**: for the spins in use, nothing is asked of the multipoles but that `2(l2+l3)+1` fits in 32 bits. -/
theorem C75_symbols_spins (mem : ℕ → ℝ) (l2 l3 : ℕ) (m2 m3 : ℤ) (size : ℕ) (h2 : |m2| ≤ l2) (h3 : |m3| ≤ l3)
    (hs : l2 + l3 < lowestL1 l2 l3 m2 m3 + size) (hL : l2 + l3 < 2 ^ 31) (hM : m2.natAbs + m3.natAbs ≤ 14) :
    ∃ out, drcRun mem l2 l3 m2 m3 size = .ok out ∧ SymbolsIn mem out l2 l3 m2 m3 := by
  apply C75_symbols mem l2 l3 m2 m3 size h2 h3 hs
  calc 20 * (2 * (l2 + l3) + 1) ^ (2 * (m2.natAbs + m3.natAbs) + 3)
      ≤ 20 * (2 ^ 32) ^ (2 * (m2.natAbs + m3.natAbs) + 3) := Nat.mul_le_mul_left _ (Nat.pow_le_pow_left (by omega) _)
    _ ≤ 20 * (2 ^ 32) ^ 31 := Nat.mul_le_mul_left _ (Nat.pow_le_pow_right (by norm_num) (by omega))
    _ < 179 * 10 ^ 306 := by
      rw [show (306 : ℕ) = 153 * 2 by norm_num, pow_mul]
      norm_num

/-- **C75**: a lower row that no symbol allows gives zeros, which are the values of the symbols. -/
theorem C75_not_allowed (mem : ℕ → ℝ) (l2 l3 : ℕ) (m2 m3 : ℤ) (size : ℕ) (h : (l2 : ℤ) < |m2| ∨ (l3 : ℤ) < |m3|) :
    ∃ out, drcRun mem l2 l3 m2 m3 size = .ok out ∧ SymbolsIn mem out l2 l3 m2 m3 := by
  have hl : max ((l2 : ℤ) - l3).natAbs (-m2 - m3).natAbs = lowestL1 l2 l3 m2 m3 := drcLow_eq l2 l3 m2 m3
  refine ⟨fun i => if i + lowestL1 l2 l3 m2 m3 ≤ l2 + l3 then 0 else mem i, ?_, ?_, ?_⟩
  · unfold drcRun
    dsimp only
    rw [if_pos (by simp only [lt_abs] at h; omega), hl]
  · intro l1 a b
    left
    dsimp only
    rw [if_pos (by omega)]
    unfold wigner3j
    rw [if_neg (by unfold Allowed; omega)]
  · intro i hi
    dsimp only
    rw [if_neg (by omega)]

/-- **C75**: an array that is too small is an error. -/
theorem C75_too_small (mem : ℕ → ℝ) (l2 l3 : ℕ) (m2 m3 : ℤ) (size : ℕ) (h2 : |m2| ≤ l2) (h3 : |m3| ≤ l3)
    (hs : lowestL1 l2 l3 m2 m3 + size ≤ l2 + l3) (hpos : lowestL1 l2 l3 m2 m3 < l2 + l3) :
    drcRun mem l2 l3 m2 m3 size = .raises .runtime := by
  rw [← drcLow_eq] at hs hpos
  unfold drcRun
  dsimp only
  rw [if_neg (by simp only [abs_le] at h2 h3; omega)]
  change (if l2 + l3 = drcLow l2 l3 m2 m3 then _ else if size < drcN l2 l3 m2 m3 then _ else _) = _
  rw [if_neg (by omega), if_pos (by unfold drcN; omega)]

/-- **C75**: where intermediate numbers are rescaled to avoid overflow, the result is still right, provided no symbol is
`10^153` times smaller than one next to it or next but one, and the last symbol is not that small itself. -/
theorem C75_rescaled (mem : ℕ → ℝ) (l2 l3 : ℕ) (m2 m3 : ℤ) (size : ℕ) (h2 : |m2| ≤ l2) (h3 : |m3| ≤ l3)
    (hs : l2 + l3 < lowestL1 l2 l3 m2 m3 + size)
    (hlast : 1 / 10 ^ 153 ≤ |wigner3j (l2 + l3) l2 l3 (-m2 - m3) m2 m3|)
    (hjump : ∀ l l', l ≤ l' + 2 → l' ≤ l + 2 → l ≤ l2 + l3 → wigner3j l' l2 l3 (-m2 - m3) m2 m3 ≠ 0 →
      |wigner3j l l2 l3 (-m2 - m3) m2 m3| ≤ 10 ^ 153 * |wigner3j l' l2 l3 (-m2 - m3) m2 m3|) :
    ∃ out, drcRun mem l2 l3 m2 m3 size = .ok out ∧ SymbolsIn mem out l2 l3 m2 m3 := by
  have hlow := drcLow_le h2 h3
  rw [← drcLow_eq] at hs
  have ht := drcTiny_small
  have hp := drcTiny_pos
  suffices hany : drcTiny ≤ |drcW l2 l3 m2 m3 (drcN l2 l3 m2 m3 - 1)| ∧ (¬DrcNoJump l2 l3 m2 m3 →
      drcTiny < |drcW l2 l3 m2 m3 0| ∧ drcTiny < |drcW l2 l3 m2 m3 (drcN l2 l3 m2 m3 - 1)|) by
    obtain ⟨out, e, s, -⟩ := drcRun_any mem h2 h3 size (by unfold drcN; omega) hany.1 hany.2
    exact ⟨out, e, s⟩
  constructor
  · unfold drcW drcN wcol
    rw [show drcLow l2 l3 m2 m3 + (l2 + l3 - drcLow l2 l3 m2 m3 + 1 - 1) = l2 + l3 by omega]
    exact ht.le.trans hlast
  · intro hn
    exfalso
    apply hn
    intro i k hi hk a b hne
    have := hjump (drcLow l2 l3 m2 m3 + i) (drcLow l2 l3 m2 m3 + k) (by omega) (by omega) (by unfold drcN at hi; omega) hne
    change |drcW l2 l3 m2 m3 i| ≤ 10 ^ 153 * |drcW l2 l3 m2 m3 k| at this
    have hk0 := abs_nonneg (drcW l2 l3 m2 m3 k)
    have hT : drcTiny * 10 ^ 153 ≤ 1 := by
      have := mul_le_mul_of_nonneg_right ht.le (by positivity : (0 : ℝ) ≤ 10 ^ 153)
      rwa [one_div_mul_cancel (by positivity)] at this
    calc drcTiny * |drcW l2 l3 m2 m3 i| ≤ drcTiny * (10 ^ 153 * |drcW l2 l3 m2 m3 k|) := mul_le_mul_of_nonneg_left this hp.le
      _ = (drcTiny * 10 ^ 153) * |drcW l2 l3 m2 m3 k| := by ring
      _ ≤ 1 * |drcW l2 l3 m2 m3 k| := mul_le_mul_of_nonneg_right hT hk0
      _ = _ := one_mul _

/-- The symbols with upper row `l1 1 1` and zero lower row meet the conditions on neighbouring symbols. -/
example (mem : ℕ → ℝ) : ∃ out, drcRun mem 1 1 0 0 3 = .ok out ∧ SymbolsIn mem out 1 1 0 0 := by
  have hN : drcN 1 1 0 0 = 3 := by unfold drcN drcLow; norm_num
  have hlw : drcLow 1 1 0 0 = 0 := by unfold drcLow; norm_num
  have h0 := low_lower (l2 := 1) (l3 := 1) (m2 := 0) (m3 := 0) (by norm_num) (by norm_num)
  have ht := top_lower (l2 := 1) (l3 := 1) (m2 := 0) (m3 := 0) (by norm_num) (by norm_num)
  rw [hN] at ht
  unfold drcW wcol at h0 ht
  rw [hlw] at h0 ht
  norm_num at h0 ht
  have big : ∀ w : ℝ, 1 ≤ 125 * w ^ 2 → 1 / 12 ≤ |w| := by
    intro w hw
    apply le_of_sq_le_sq _ (abs_nonneg _)
    rw [sq_abs]; nlinarith
  have b0 := big _ h0
  have bt := big _ ht
  have P : (12 : ℝ) ≤ 10 ^ 153 := le_trans (by norm_num : (12 : ℝ) ≤ 10 ^ 2) (pow_le_pow_right₀ (by norm_num) (by norm_num))
  apply C75_rescaled mem 1 1 0 0 3 (by norm_num) (by norm_num) (by unfold lowestL1; norm_num)
  · rw [show -(0 : ℤ) - 0 = 0 by norm_num]
    exact (one_div_le_one_div_of_le (by norm_num) P).trans bt
  · intro l l' a b c hne
    have hle : |wigner3j l 1 1 (-0 - 0) 0 0| ≤ 1 := by
      have := drcW_le_one (l2 := 1) (l3 := 1) (m2 := 0) (m3 := 0) (by norm_num) (by norm_num) (i := l) (by rw [hN]; omega)
      unfold drcW wcol at this
      rwa [hlw, zero_add] at this
    have hl' : l' ≤ 2 := by
      by_contra hc
      apply hne
      unfold wigner3j
      rw [if_neg (by unfold Allowed; omega)]
    have hge : 1 / 12 ≤ |wigner3j l' 1 1 (-0 - 0) 0 0| := by
      rw [show -(0 : ℤ) - 0 = 0 by norm_num] at hne ⊢
      obtain rfl | rfl | rfl : l' = 0 ∨ l' = 1 ∨ l' = 2 := by omega
      · exact b0
      · exfalso
        apply hne
        have := wigner3j_exchange 1 1 1 0 0 0
        norm_num at this
        linarith
      · exact bt
    calc _ ≤ (1 : ℝ) := hle
      _ = 12 * (1 / 12) := by norm_num
      _ ≤ _ := mul_le_mul P hge (by norm_num) (by linarith)

/-- The same, exactly. -/
example (mem : ℕ → ℝ) : ∃ out, drcRun mem 3000 2500 2 (-2) 12000 = .ok out ∧ ExactSymbolsIn mem out 3000 2500 2 (-2) :=
  C75_exact_spins mem 3000 2500 2 (-2) 12000 (by norm_num) (by norm_num) (by unfold lowestL1; norm_num) (by norm_num) (by norm_num)

example (mem : ℕ → ℝ) : ∃ out, drcRun mem 30 20 8 (-9) 61 = .ok out ∧ ExactSymbolsIn mem out 30 20 8 (-9) :=
  C75_exact mem 30 20 8 (-9) 61 (by norm_num) (by norm_num) (by unfold lowestL1; norm_num) (by norm_num)

/-- The rows used for two spin-2 fields at `l2 = 3000`, `l3 = 2500`. -/
example (mem : ℕ → ℝ) : ∃ out, drcRun mem 3000 2500 2 (-2) 12000 = .ok out ∧ SymbolsIn mem out 3000 2500 2 (-2) :=
  C75_symbols_spins mem 3000 2500 2 (-2) 12000 (by norm_num) (by norm_num) (by unfold lowestL1; norm_num) (by norm_num) (by norm_num)

/-- Spins above the multipole. -/
example (mem : ℕ → ℝ) : ∃ out, drcRun mem 1 3 2 (-2) 10 = .ok out ∧ SymbolsIn mem out 1 3 2 (-2) :=
  C75_not_allowed mem 1 3 2 (-2) 10 (by norm_num)

example (mem : ℕ → ℝ) : drcRun mem 5 4 2 (-2) 8 = .raises .runtime :=
  C75_too_small mem 5 4 2 (-2) 8 (by norm_num) (by norm_num) (by unfold lowestL1; norm_num) (by unfold lowestL1; norm_num)

end NaMaster
