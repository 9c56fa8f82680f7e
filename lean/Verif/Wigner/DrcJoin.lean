import Verif.Wigner.DrcLoops

/-!
# Joining, normalising and the whole recursion
-/

namespace NaMaster

open Finset WignerSpec

section
variable {l2 l3 : ℕ} {m2 m3 : ℤ}

/-- The unnormalised array: the symbols times `c`, with `c²` as the sum. -/
structure Joined (mem : ℕ → ℝ) (l2 l3 : ℕ) (m2 m3 : ℤ) (q : (ℕ → ℝ) × ℝ) (c : ℝ) : Prop where
  ne : c ≠ 0
  near : ∀ i, i < drcN l2 l3 m2 m3 → Near c (q.1 i) (drcW l2 l3 m2 m3 i)
  rest : ∀ i, drcN l2 l3 m2 m3 ≤ i → q.1 i = mem i
  sum : q.2 = c ^ 2
  strict : DrcStrict l2 l3 m2 m3 → |c| ≤ 1 ∧ ∀ i, i < drcN l2 l3 m2 m3 → q.1 i = c * drcW l2 l3 m2 m3 i

theorem Near.mul {σ v w r : ℝ} (h : Near σ v w) : Near (σ * r) (v * r) w := by
  rcases h with h | ⟨h, hw⟩
  · left; rw [h]; ring
  · right; exact ⟨by rw [h, zero_mul], hw⟩

theorem drcP_sum (h2 : |m2| ≤ l2) (h3 : |m3| ≤ l3) : ∑ i ∈ range (drcN l2 l3 m2 m3), drcP l2 l3 m2 m3 i = 1 := drcW_norm h2 h3

theorem join_of (mem : ℕ → ℝ) (h2 : |m2| ≤ l2) (h3 : |m3| ≤ l3) (hn : 3 ≤ drcN l2 l3 m2 m3)
    (hj : ¬DrcNoJump l2 l3 m2 m3 → drcTiny < |drcW l2 l3 m2 m3 (drcN l2 l3 m2 m3 - 1)|)
    {s : DrcFwd} {σ : ℝ} (H : FwdInv mem l2 l3 m2 m3 s σ) (hs : 2 ≤ s.lstep) :
    ∃ c, Joined mem l2 l3 m2 m3 (drcJoin l2 l3 (-m2 - m3 : ℤ) m2 m3 (l2 + l3) (drcN l2 l3 m2 m3) s) c := by
  obtain ⟨ne, small, lo, hi, fac, hx, sum1, sumfor, exact, near, rest, conv, strict⟩ := H
  set n := drcN l2 l3 m2 m3 with hN
  obtain ⟨p, hp⟩ : ∃ p, s.lstep = p + 2 := ⟨s.lstep - 2, by omega⟩
  unfold drcJoin
  dsimp only
  set nstep2 := n - s.lstep - 1 + 3 with hns
  have B0 := bwdInv_start (l2 := l2) (l3 := l3) (m2 := m2) (m3 := m3) s.thr h2 h3 hn s.newfac nstep2 hj
  rw [← hN] at B0
  obtain ⟨s', τ, B, hs', b1, b2, b3, b4⟩ := bwdInv_loop s.thr h2 h3 (nstep2 := nstep2) (by omega) (by omega) (nstep2 - 2) _ _ B0
    (by rw [drcBwdStep_lstep]; dsimp only; omega) (by rw [drcBwdStep_lstep]; dsimp only; omega)
  rw [← hN] at b1 b2 b3 b4
  obtain ⟨tne, tsmall, tlo, thi, tfac, tsum2, tsumbac, texact, tnear, trest, tstrict⟩ := B
  rw [← hN] at thi tsum2 tsumbac texact tnear trest tstrict
  have hloop : ∀ st : DrcBwd, st.lstep = 0 → drcBwdLoop l2 l3 (-m2 - m3 : ℤ) m2 m3 (l2 + l3) n nstep2 (nstep2 - 1) st =
      drcBwdLoop l2 l3 (-m2 - m3 : ℤ) m2 m3 (l2 + l3) n nstep2 (nstep2 - 2)
        (drcBwdStep l2 l3 (-m2 - m3 : ℤ) m2 m3 (l2 + l3) n nstep2 st) := by
    intro st h0
    rw [show nstep2 - 1 = (nstep2 - 2) + 1 by omega]
    conv_lhs => unfold drcBwdLoop
    rw [if_pos (by omega)]
  rw [← hloop _ rfl] at b1 b2 b3 b4
  rw [b1, b2, b3, b4, hx]
  rw [show n - (nstep2 - 1) = p + 1 by omega, show n + 1 - (nstep2 - 1) = p + 2 by omega, show n - nstep2 = p by omega,
    hp, show p + 2 - 1 = p + 1 by omega, show p + 2 - 2 = p by omega]
  rw [hs', show n - (nstep2 - 2) = p + 2 by omega] at tsumbac
  rw [exact (p + 1) (by omega) (by omega), exact p (by omega) (by omega), texact (p + 1) (by omega) (by omega) (by omega),
    texact (p + 2) (by omega) (by omega) (by omega)]
  have hpos : 0 < drcW l2 l3 m2 m3 (p + 2) ^ 2 + drcW l2 l3 m2 m3 (p + 1) ^ 2 + drcW l2 l3 m2 m3 p ^ 2 := by
    by_cases h0 : drcW l2 l3 m2 m3 p = 0
    · have := drcW_pair h2 h3 (i := p) (by omega) h0
      positivity
    · positivity
  have hr : (σ * drcW l2 l3 m2 m3 (p + 2) * (τ * drcW l2 l3 m2 m3 (p + 2)) + σ * drcW l2 l3 m2 m3 (p + 1) * (τ * drcW l2 l3 m2 m3 (p + 1)) +
      σ * drcW l2 l3 m2 m3 p * (τ * drcW l2 l3 m2 m3 p)) / (σ * drcW l2 l3 m2 m3 (p + 2) * (σ * drcW l2 l3 m2 m3 (p + 2)) +
      σ * drcW l2 l3 m2 m3 (p + 1) * (σ * drcW l2 l3 m2 m3 (p + 1)) + σ * drcW l2 l3 m2 m3 p * (σ * drcW l2 l3 m2 m3 p)) = τ / σ := by
    rw [div_eq_div_iff (by
      rw [show σ * drcW l2 l3 m2 m3 (p + 2) * (σ * drcW l2 l3 m2 m3 (p + 2)) +
      σ * drcW l2 l3 m2 m3 (p + 1) * (σ * drcW l2 l3 m2 m3 (p + 1)) + σ * drcW l2 l3 m2 m3 p * (σ * drcW l2 l3 m2 m3 p) =
        σ ^ 2 * (drcW l2 l3 m2 m3 (p + 2) ^ 2 + drcW l2 l3 m2 m3 (p + 1) ^ 2 + drcW l2 l3 m2 m3 p ^ 2) by ring]
      exact mul_ne_zero (pow_ne_zero _ ne) hpos.ne') ne]
    ring
  rw [hr]
  have hsum : ∑ i ∈ range (p + 2), drcP l2 l3 m2 m3 i + ∑ i ∈ Ico (p + 2) n, drcP l2 l3 m2 m3 i = 1 := by
    rw [sum_range_add_sum_Ico _ (by omega), hN]; exact drcP_sum h2 h3
  have sf := sumfor hs
  rw [hp] at sf
  have tb : s'.thr = fun i => s'.thr i := rfl
  by_cases hlt : |τ / σ| < 1
  · rw [if_pos hlt]
    refine ⟨σ, ⟨ne, ?_, ?_, ?_, ?_⟩⟩
    · intro i hi1
      dsimp only
      by_cases hi2 : p + 1 ≤ i
      · rw [if_pos ⟨by omega, hi1⟩]
        have := (tnear i (by omega) hi1).mul (r := 1 / (τ / σ))
        rwa [show τ * (1 / (τ / σ)) = σ by field_simp] at this
      · rw [if_neg (by omega), trest i (by omega)]
        exact near i (by omega)
    · intro i hi1
      dsimp only
      rw [if_neg (by omega), trest i (by omega)]
      exact rest i (by omega)
    · dsimp only
      rw [tsumbac, sf]
      calc 1 / (τ / σ) * (1 / (τ / σ)) * (τ ^ 2 * ∑ i ∈ Ico (p + 2) n, drcP l2 l3 m2 m3 i) + σ ^ 2 * ∑ i ∈ range (p + 2), drcP l2 l3 m2 m3 i
          = σ ^ 2 * (∑ i ∈ range (p + 2), drcP l2 l3 m2 m3 i + ∑ i ∈ Ico (p + 2) n, drcP l2 l3 m2 m3 i) := by field_simp; ring
        _ = σ ^ 2 := by rw [hsum, mul_one]
    · intro hst
      refine ⟨(strict hst).1, ?_⟩
      intro i hi1
      dsimp only
      by_cases hi2 : p + 1 ≤ i
      · rw [if_pos ⟨by omega, hi1⟩, (tstrict hst).2 i (by omega) hi1]
        field_simp
      · rw [if_neg (by omega), trest i (by omega)]
        exact (strict hst).2 i (by omega)
  · rw [if_neg hlt]
    refine ⟨τ, ⟨tne, ?_, ?_, ?_, ?_⟩⟩
    · intro i hi1
      dsimp only
      by_cases hi2 : p + 1 ≤ i
      · rw [if_neg (by omega)]
        exact tnear i (by omega) hi1
      · rw [if_pos (by omega), trest i (by omega)]
        have := (near i (by omega)).mul (r := τ / σ)
        rwa [show σ * (τ / σ) = τ by field_simp] at this
    · intro i hi1
      dsimp only
      rw [if_neg (by omega), trest i (by omega)]
      exact rest i (by omega)
    · dsimp only
      rw [tsumbac, sf]
      calc τ / σ * (τ / σ) * (σ ^ 2 * ∑ i ∈ range (p + 2), drcP l2 l3 m2 m3 i) + τ ^ 2 * ∑ i ∈ Ico (p + 2) n, drcP l2 l3 m2 m3 i
          = τ ^ 2 * (∑ i ∈ range (p + 2), drcP l2 l3 m2 m3 i + ∑ i ∈ Ico (p + 2) n, drcP l2 l3 m2 m3 i) := by field_simp
        _ = τ ^ 2 := by rw [hsum, mul_one]
    · intro hst
      refine ⟨(tstrict hst).1, ?_⟩
      intro i hi1
      dsimp only
      by_cases hi2 : p + 1 ≤ i
      · rw [if_neg (by omega)]
        exact (tstrict hst).2 i (by omega) hi1
      · rw [if_pos (by omega), trest i (by omega), (strict hst).2 i (by omega)]
        field_simp

theorem sign2_eq (k : ℤ) : (if k.natAbs % 2 = 0 then (1 : ℝ) else -1) = (-1) ^ k := by
  by_cases h : k.natAbs % 2 = 0
  · rw [if_pos h, Even.neg_one_zpow (by rw [Int.even_iff]; omega)]
  · rw [if_neg h, Odd.neg_one_zpow (by rw [Int.odd_iff]; omega)]

theorem zpow_cases (k : ℤ) : ((-1 : ℝ)) ^ k = 1 ∨ ((-1 : ℝ)) ^ k = -1 := by
  rcases Int.even_or_odd k with h | h
  · left; exact h.neg_one_zpow
  · right; exact h.neg_one_zpow

/-- Normalisation and sign. -/
theorem scale_of (mem : ℕ → ℝ) (h2 : |m2| ≤ l2) (h3 : |m3| ≤ l3)
    (htop : drcTiny ≤ |drcW l2 l3 m2 m3 (drcN l2 l3 m2 m3 - 1)|) {q : (ℕ → ℝ) × ℝ} {c : ℝ} (H : Joined mem l2 l3 m2 m3 q c)
    (hn : 1 ≤ drcN l2 l3 m2 m3) :
    (∀ i, i < drcN l2 l3 m2 m3 → Near 1 (drcScale ((-1) ^ ((l2 : ℤ) + m2 - l3 + m3)) (drcN l2 l3 m2 m3) q i) (drcW l2 l3 m2 m3 i)) ∧
    (∀ i, drcN l2 l3 m2 m3 ≤ i → drcScale ((-1) ^ ((l2 : ℤ) + m2 - l3 + m3)) (drcN l2 l3 m2 m3) q i = mem i) ∧
    (DrcStrict l2 l3 m2 m3 → ∀ i, i < drcN l2 l3 m2 m3 →
      drcScale ((-1) ^ ((l2 : ℤ) + m2 - l3 + m3)) (drcN l2 l3 m2 m3) q i = drcW l2 l3 m2 m3 i) := by
  obtain ⟨ne, near, rest, sum, strict⟩ := H
  set n := drcN l2 l3 m2 m3 with hN
  have top : q.1 (n - 1) = c * drcW l2 l3 m2 m3 (n - 1) := by
    rcases near (n - 1) (by omega) with h | ⟨_, h⟩
    · exact h
    · linarith
  obtain ⟨r, hr, hw⟩ := drcW_top (l2 := l2) (l3 := l3) (m2 := m2) (m3 := m3) h2 h3
  rw [← hN] at hw
  rw [show (l2 : ℤ) - l3 + m2 + m3 = (l2 : ℤ) + m2 - l3 + m3 by ring] at hw
  have hc : (if (if q.1 (n - 1) < 0 then (-1 : ℝ) else 1) * (-1) ^ ((l2 : ℤ) + m2 - l3 + m3) ≤ 0 then -(1 / Real.sqrt q.2) else 1 / Real.sqrt q.2) = 1 / c := by
    rw [sum, Real.sqrt_sq_eq_abs, top, hw]
    rcases lt_or_gt_of_ne ne with hc | hc
    · rw [abs_of_neg hc]
      have : c * r < 0 := mul_neg_of_neg_of_pos hc hr
      rcases zpow_cases ((l2 : ℤ) + m2 - l3 + m3) with e | e <;> rw [e]
      · rw [if_pos (show c * (1 * r) < 0 by linarith), if_pos (by norm_num), one_div, one_div, inv_neg, neg_neg]
      · rw [if_neg (show ¬ c * (-1 * r) < 0 by linarith), if_pos (by norm_num), one_div, one_div, inv_neg, neg_neg]
    · rw [abs_of_pos hc]
      have : 0 < c * r := mul_pos hc hr
      rcases zpow_cases ((l2 : ℤ) + m2 - l3 + m3) with e | e <;> rw [e]
      · rw [if_neg (show ¬ c * (1 * r) < 0 by linarith), if_neg (by norm_num)]
      · rw [if_pos (show c * (-1 * r) < 0 by linarith), if_neg (by norm_num)]
  unfold drcScale
  dsimp only
  rw [hc]
  have e1 : c * (1 / c) = 1 := by field_simp
  by_cases h1 : |1 / c| ≥ 1
  · rw [if_pos h1]
    refine ⟨?_, ?_, ?_⟩
    · intro i hi
      rw [if_pos hi]
      have := (near i hi).mul (r := 1 / c)
      rwa [e1] at this
    · intro i hi
      rw [if_neg (by omega)]; exact rest i hi
    · intro hst i hi
      rw [if_pos hi, (strict hst).2 i hi]
      field_simp
  · rw [if_neg h1]
    refine ⟨?_, ?_, fun hst => absurd ?_ h1⟩
    · intro i hi
      rw [if_pos hi]
      by_cases hf : |q.1 i| < drcTiny / |1 / c|
      · rw [if_pos hf, zero_mul]
        right
        refine ⟨rfl, ?_⟩
        rcases near i hi with h | ⟨_, h⟩
        · have hcp : 0 < |c| := abs_pos.mpr ne
          rw [h, abs_mul, one_div, abs_inv, div_inv_eq_mul, mul_comm] at hf
          exact lt_of_mul_lt_mul_right hf hcp.le
        · exact h
      · rw [if_neg hf]
        have := (near i hi).mul (r := 1 / c)
        rwa [e1] at this
    · intro i hi
      rw [if_neg (by omega)]; exact rest i hi
    · rw [one_div, abs_inv]
      exact (one_le_inv₀ (abs_pos.mpr ne)).mpr (strict hst).1

theorem joined_two (mem : ℕ → ℝ) (h2 : |m2| ≤ l2) (h3 : |m3| ≤ l3) (hN : drcN l2 l3 m2 m3 = 2) {s : DrcFwd} {σ : ℝ}
    (F : FwdInv mem l2 l3 m2 m3 s σ) : Joined mem l2 l3 m2 m3 (s.thr, s.sum1) σ := by
  have h1 := F.lo
  have h4 := F.hi
  refine ⟨F.ne, fun i hi => F.near i (by omega), fun i hi => F.rest i (by omega), ?_,
    fun hst => ⟨(F.strict hst).1, fun i hi => (F.strict hst).2 i (by omega)⟩⟩
  dsimp only
  rw [F.sum1, show s.lstep + 1 = drcN l2 l3 m2 m3 by omega, drcP_sum h2 h3, mul_one]

/-- The whole recursion, for arrays of at least two symbols. -/
theorem drcRun_many (mem : ℕ → ℝ) (h2 : |m2| ≤ l2) (h3 : |m3| ≤ l3) (hn : 2 ≤ drcN l2 l3 m2 m3) (size : ℕ) (hs : drcN l2 l3 m2 m3 ≤ size)
    (htop : drcTiny ≤ |drcW l2 l3 m2 m3 (drcN l2 l3 m2 m3 - 1)|)
    (hj : ¬DrcNoJump l2 l3 m2 m3 → drcTiny < |drcW l2 l3 m2 m3 0| ∧ drcTiny < |drcW l2 l3 m2 m3 (drcN l2 l3 m2 m3 - 1)|) :
    ∃ out, drcRun mem l2 l3 m2 m3 size = .ok out ∧
      (∀ i, i < drcN l2 l3 m2 m3 → Near 1 (out i) (drcW l2 l3 m2 m3 i)) ∧ (∀ i, drcN l2 l3 m2 m3 ≤ i → out i = mem i) ∧
      (DrcStrict l2 l3 m2 m3 → ∀ i, i < drcN l2 l3 m2 m3 → out i = drcW l2 l3 m2 m3 i) := by
  have hlow := drcLow_le h2 h3
  have key : drcRun mem l2 l3 m2 m3 size = .ok (drcScale ((-1) ^ ((l2 : ℤ) + m2 - l3 + m3)) (drcN l2 l3 m2 m3)
      (if drcN l2 l3 m2 m3 > 2 then drcJoin l2 l3 (-m2 - m3 : ℤ) m2 m3 (l2 + l3) (drcN l2 l3 m2 m3)
        (drcFwdLoop l2 l3 (-m2 - m3 : ℤ) m2 m3 (drcLow l2 l3 m2 m3) (drcN l2 l3 m2 m3) (drcN l2 l3 m2 m3 - 1)
          { lstep := 0, newfac := 0, c1 := 0, sum1 := ((drcLow l2 l3 m2 m3 : ℝ) + drcLow l2 l3 m2 m3 + 1) * drcTiny, sumfor := 0, x := 0,
            converging := true, thr := Function.update mem 0 drcSrtiny })
       else
        ((drcFwdLoop l2 l3 (-m2 - m3 : ℤ) m2 m3 (drcLow l2 l3 m2 m3) (drcN l2 l3 m2 m3) (drcN l2 l3 m2 m3 - 1)
          { lstep := 0, newfac := 0, c1 := 0, sum1 := ((drcLow l2 l3 m2 m3 : ℝ) + drcLow l2 l3 m2 m3 + 1) * drcTiny, sumfor := 0, x := 0,
            converging := true, thr := Function.update mem 0 drcSrtiny }).thr,
         (drcFwdLoop l2 l3 (-m2 - m3 : ℤ) m2 m3 (drcLow l2 l3 m2 m3) (drcN l2 l3 m2 m3) (drcN l2 l3 m2 m3 - 1)
          { lstep := 0, newfac := 0, c1 := 0, sum1 := ((drcLow l2 l3 m2 m3 : ℝ) + drcLow l2 l3 m2 m3 + 1) * drcTiny, sumfor := 0, x := 0,
            converging := true, thr := Function.update mem 0 drcSrtiny }).sum1))) := by
    rw [← sign2_eq]
    unfold drcRun
    dsimp only
    rw [if_neg (by simp only [abs_le] at h2 h3; omega)]
    change (if l2 + l3 = drcLow l2 l3 m2 m3 then _ else if size < drcN l2 l3 m2 m3 then _ else _) = _
    rw [if_neg (by unfold drcN at hn; omega), if_neg (by omega)]
    rfl
  rw [key]
  have F1 := fwdInv_start (l2 := l2) (l3 := l3) (m2 := m2) (m3 := m3) mem h2 h3 hn (fun h => (hj h).1)
  obtain ⟨σ, F, hF⟩ := fwdInv_loop mem h2 h3 (drcN l2 l3 m2 m3 - 2) _ _ F1 (by rw [drcFwdStep_lstep]; dsimp only; omega)
  have hloop : ∀ st : DrcFwd, st.lstep = 0 → st.converging = true →
      drcFwdLoop l2 l3 (-m2 - m3 : ℤ) m2 m3 (drcLow l2 l3 m2 m3) (drcN l2 l3 m2 m3) (drcN l2 l3 m2 m3 - 1) st =
      drcFwdLoop l2 l3 (-m2 - m3 : ℤ) m2 m3 (drcLow l2 l3 m2 m3) (drcN l2 l3 m2 m3) (drcN l2 l3 m2 m3 - 2)
        (drcFwdStep l2 l3 (-m2 - m3 : ℤ) m2 m3 (drcLow l2 l3 m2 m3) (drcN l2 l3 m2 m3) st) := by
    intro st e1 e2
    rw [show drcN l2 l3 m2 m3 - 1 = (drcN l2 l3 m2 m3 - 2) + 1 by omega]
    conv_lhs => unfold drcFwdLoop
    rw [if_pos ⟨by omega, e2⟩]
  rw [← hloop _ rfl rfl] at F hF
  by_cases h3n : drcN l2 l3 m2 m3 > 2
  · obtain ⟨c, J⟩ := join_of mem h2 h3 (by omega) (fun h => (hj h).2) F (by omega)
    have S := scale_of mem h2 h3 htop J (by omega)
    rw [if_pos h3n]
    exact ⟨_, rfl, S⟩
  · rw [if_neg h3n]
    have hN2 : drcN l2 l3 m2 m3 = 2 := by omega
    exact ⟨_, rfl, scale_of mem h2 h3 htop (joined_two mem h2 h3 hN2 F) (by omega)⟩

end

end NaMaster
