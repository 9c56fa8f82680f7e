import Verif.Wigner.DrcLemmas

/-!
# The two loops of the recursion for Wigner 3j symbols
-/

namespace NaMaster

open Finset WignerSpec

section
variable {l2 l3 : ℕ} {m2 m3 : ℤ}

/-- No symbol that is not zero is smaller than `tiny` times one with `l1` at a distance of at most two. -/
def DrcNoJump (l2 l3 : ℕ) (m2 m3 : ℤ) : Prop :=
  ∀ i k, i < drcN l2 l3 m2 m3 → k < drcN l2 l3 m2 m3 → i ≤ k + 2 → k ≤ i + 2 → drcW l2 l3 m2 m3 k ≠ 0 →
    drcTiny * |drcW l2 l3 m2 m3 i| ≤ |drcW l2 l3 m2 m3 k|

/-- The first and the last symbol are not small. -/
def DrcStrict (l2 l3 : ℕ) (m2 m3 : ℤ) : Prop :=
  drcSrtiny ≤ |drcW l2 l3 m2 m3 0| ∧ drcSrtiny ≤ |drcW l2 l3 m2 m3 (drcN l2 l3 m2 m3 - 1)|

theorem strict_start {w : ℝ} (h : drcSrtiny ≤ |w|) : |drcSrtiny / w| ≤ 1 := by
  have h1 := drcSrtiny_pos
  rw [abs_div, abs_of_pos h1]
  exact div_le_one_of_le₀ h (abs_nonneg w)

theorem small_start {w : ℝ} (h : drcTiny < |w|) : |drcSrtiny / w| < drcSrhuge := by
  have h1 := drcSrtiny_pos
  have h2 := drcTiny_pos
  have h3 := drcSrhuge_gt
  rw [abs_div, abs_of_pos h1, div_lt_iff₀ (by linarith)]
  rw [← drcTiny_div, div_lt_iff₀ (by linarith)] at h
  linarith

theorem small_not {σ w : ℝ} (h : |σ| < drcSrhuge) (hw : |w| ≤ 1) (hb : drcSrhuge ≤ |σ * w|) : False := by
  rw [abs_mul] at hb
  have := mul_le_mul_of_nonneg_left hw (abs_nonneg σ)
  linarith

/-- Contribution of element `i` to the normalisation. -/
noncomputable def drcP (l2 l3 : ℕ) (m2 m3 : ℤ) (i : ℕ) : ℝ :=
  (2 * ((drcLow l2 l3 m2 m3 + i : ℕ) : ℝ) + 1) * (drcW l2 l3 m2 m3 i) ^ 2

/-- State of the forward loop: the numbers are the symbols times `σ`. -/
structure FwdInv (mem : ℕ → ℝ) (l2 l3 : ℕ) (m2 m3 : ℤ) (s : DrcFwd) (σ : ℝ) : Prop where
  ne : σ ≠ 0
  small : ¬DrcNoJump l2 l3 m2 m3 → |σ| < drcSrhuge
  lo : 1 ≤ s.lstep
  hi : s.lstep < drcN l2 l3 m2 m3
  fac : s.newfac = recA l2 l3 (-m2 - m3) ((drcLow l2 l3 m2 m3 + s.lstep : ℕ) : ℝ)
  x : s.x = σ * drcW l2 l3 m2 m3 s.lstep
  sum1 : s.sum1 = σ ^ 2 * ∑ i ∈ range (s.lstep + 1), drcP l2 l3 m2 m3 i
  sumfor : 2 ≤ s.lstep → s.sumfor = σ ^ 2 * ∑ i ∈ range s.lstep, drcP l2 l3 m2 m3 i
  exact : ∀ i, i ≤ s.lstep → s.lstep ≤ i + 2 → s.thr i = σ * drcW l2 l3 m2 m3 i
  near : ∀ i, i ≤ s.lstep → Near σ (s.thr i) (drcW l2 l3 m2 m3 i)
  rest : ∀ i, s.lstep < i → s.thr i = mem i
  conv : s.converging = false → 2 ≤ s.lstep
  strict : DrcStrict l2 l3 m2 m3 → |σ| ≤ 1 ∧ ∀ i, i ≤ s.lstep → s.thr i = σ * drcW l2 l3 m2 m3 i

/-- The first pass of the forward loop. -/
theorem fwdInv_start (mem : ℕ → ℝ) (h2 : |m2| ≤ l2) (h3 : |m3| ≤ l3) (hn : 2 ≤ drcN l2 l3 m2 m3)
    (hj : ¬DrcNoJump l2 l3 m2 m3 → drcTiny < |drcW l2 l3 m2 m3 0|) :
    FwdInv mem l2 l3 m2 m3 (drcFwdStep l2 l3 (-m2 - m3 : ℤ) m2 m3 (drcLow l2 l3 m2 m3) (drcN l2 l3 m2 m3)
      { lstep := 0, newfac := 0, c1 := 0, sum1 := ((drcLow l2 l3 m2 m3 : ℝ) + drcLow l2 l3 m2 m3 + 1) * drcTiny, sumfor := 0, x := 0,
        converging := true, thr := Function.update mem 0 drcSrtiny }) (drcSrtiny / drcW l2 l3 m2 m3 0) := by
  have w0 := drcW_zero_ne h2 h3
  have w1 := drcW_one h2 h3 hn
  have ht := drcSrtiny_pos
  unfold fwdC1 at w1
  unfold drcFwdStep
  dsimp only
  rw [if_pos (by norm_num), zero_add]
  push_cast at w1 ⊢
  set c1 : ℝ := (if (drcLow l2 l3 m2 m3 : ℝ) + 1 > 1 then _ else _) with hc1
  have hc : drcSrtiny * c1 = drcSrtiny / drcW l2 l3 m2 m3 0 * drcW l2 l3 m2 m3 1 := by
    rw [w1]; field_simp
  have hc' : c1 = drcW l2 l3 m2 m3 1 / drcW l2 l3 m2 m3 0 := by
    rw [w1]; field_simp
  refine ⟨div_ne_zero ht.ne' w0, fun h => small_start (hj h), le_refl _, by dsimp only; omega, ?_, hc, ?_, by intro h; exfalso; revert h; norm_num, ?_, ?_, ?_, by simp, ?_⟩
  · rw [drcFac_eq]; push_cast; rfl
  · dsimp only
    rw [sum_range_succ, sum_range_succ, sum_range_zero]
    unfold drcP
    rw [hc', drcTiny_eq]
    push_cast
    field_simp
    ring
  · intro i hi _
    rcases Nat.le_one_iff_eq_zero_or_eq_one.mp hi with rfl | rfl
    · simp; field_simp
    · simpa using hc
  · intro i hi
    left
    rcases Nat.le_one_iff_eq_zero_or_eq_one.mp hi with rfl | rfl
    · simp; field_simp
    · simpa using hc
  · intro i hi
    dsimp only at hi
    dsimp only
    rw [Function.update_of_ne (by omega), Function.update_of_ne (by omega)]
  · intro hst
    refine ⟨strict_start hst.1, ?_⟩
    intro i hi
    rcases Nat.le_one_iff_eq_zero_or_eq_one.mp hi with rfl | rfl
    · simp; field_simp
    · simpa using hc

theorem fwdInv_step (mem : ℕ → ℝ) (h2 : |m2| ≤ l2) (h3 : |m3| ≤ l3) {s : DrcFwd} {σ : ℝ}
    (H : FwdInv mem l2 l3 m2 m3 s σ) (hs : s.lstep < drcN l2 l3 m2 m3 - 1) :
    ∃ σ', FwdInv mem l2 l3 m2 m3 (drcFwdStep l2 l3 (-m2 - m3 : ℤ) m2 m3 (drcLow l2 l3 m2 m3) (drcN l2 l3 m2 m3) s) σ' := by
  obtain ⟨ne, small, lo, hi, fac, hx, sum1, sumfor, exact, near, rest, conv, strict⟩ := H
  obtain ⟨k, hk⟩ : ∃ k, s.lstep = k + 1 := ⟨s.lstep - 1, by omega⟩
  have up := drcW_up h2 h3 (k := k) (by omega)
  have sh := drcSrhuge_gt
  unfold fwdC1 at up
  unfold drcFwdStep
  dsimp only
  rw [if_neg (by omega)]
  simp only [hk] at lo hi fac hx sum1 sumfor exact near rest conv strict hs ⊢
  simp only [show k + 1 + 1 = k + 2 by ring] at lo hi fac hx sum1 sumfor exact near rest conv strict hs up ⊢
  rw [show k + 2 - 1 = k + 1 by omega, show k + 2 - 2 = k by omega]
  set l1 : ℝ := ((drcLow l2 l3 m2 m3 + (k + 2) : ℕ) : ℝ) with hl1
  push_cast at fac up ⊢
  have hk1 : s.thr (k + 1) = σ * drcW l2 l3 m2 m3 (k + 1) := exact _ le_rfl (by omega)
  have hk0 : s.thr k = σ * drcW l2 l3 m2 m3 k := exact _ (by omega) (by omega)
  have hxx : (if l1 > 1 then -(l1 + l1 - 1) * drcDv l2 l3 (-m2 - m3) m2 m3 l1 / ((l1 - 1) * drcFac l2 l3 (-m2 - m3) l1)
      else -(l1 + l1 - 1) * l1 * (m3 - m2) / drcFac l2 l3 (-m2 - m3) l1) * s.thr (k + 1) +
      -l1 * s.newfac / ((l1 - 1) * drcFac l2 l3 (-m2 - m3) l1) * s.thr k = σ * drcW l2 l3 m2 m3 (k + 2) := by
    rw [hk1, hk0, up, fac]; ring
  generalize hX : (if l1 > 1 then -(l1 + l1 - 1) * drcDv l2 l3 (-m2 - m3) m2 m3 l1 / ((l1 - 1) * drcFac l2 l3 (-m2 - m3) l1)
      else -(l1 + l1 - 1) * l1 * (m3 - m2) / drcFac l2 l3 (-m2 - m3) l1) * s.thr (k + 1) +
      -l1 * s.newfac / ((l1 - 1) * drcFac l2 l3 (-m2 - m3) l1) * s.thr k = X at hxx ⊢
  have hs1 : s.sum1 + (l1 + l1 + 1) * X * X = σ ^ 2 * ∑ i ∈ range (k + 3), drcP l2 l3 m2 m3 i := by
    rw [sum_range_succ, sum1, hxx]
    unfold drcP
    rw [← hl1]; ring
  have hfac : drcFac l2 l3 (-m2 - m3) l1 = recA l2 l3 (-m2 - m3) ((drcLow l2 l3 m2 m3 : ℝ) + (k + 2)) := by
    rw [drcFac_eq, hl1]; push_cast; rfl
  have thrE : ∀ i, i ≤ k + 2 → k + 2 ≤ i + 2 → Function.update s.thr (k + 2) X i = σ * drcW l2 l3 m2 m3 i := by
    intro i h1 h2'
    by_cases e : i = k + 2
    · subst e; rw [Function.update_self, hxx]
    · rw [Function.update_of_ne e]; exact exact i (by omega) (by omega)
  have thrN : ∀ i, i ≤ k + 2 → Near σ (Function.update s.thr (k + 2) X i) (drcW l2 l3 m2 m3 i) := by
    intro i h1
    by_cases e : i = k + 2
    · subst e; left; rw [Function.update_self, hxx]
    · rw [Function.update_of_ne e]; exact near i (by omega)
  have thrS : DrcStrict l2 l3 m2 m3 → |σ| ≤ 1 ∧ ∀ i, i ≤ k + 2 → Function.update s.thr (k + 2) X i = σ * drcW l2 l3 m2 m3 i := by
    intro hst
    refine ⟨(strict hst).1, fun i h1 => ?_⟩
    by_cases e : i = k + 2
    · subst e; rw [Function.update_self, hxx]
    · rw [Function.update_of_ne e]; exact (strict hst).2 i (by omega)
  have thrR : ∀ i, k + 2 < i → Function.update s.thr (k + 2) X i = mem i := by
    intro i h1
    rw [Function.update_of_ne (by omega)]; exact rest i (by omega)
  by_cases hlt : k + 2 < drcN l2 l3 m2 m3 - 1
  · rw [if_pos hlt]
    by_cases hb : |X| ≥ drcSrhuge
    · rw [if_pos hb]
      have hb' : drcSrhuge ≤ |σ * drcW l2 l3 m2 m3 (k + 2)| := by rw [← hxx]; exact hb
      have hj : DrcNoJump l2 l3 m2 m3 := by
        by_contra h
        exact small_not (small h) (drcW_le_one h2 h3 (by omega)) hb'
      refine ⟨σ / drcSrhuge, ⟨div_ne_zero ne (by linarith), fun h => absurd hj h, by simp, by dsimp only; omega, by simpa using hfac, ?_, ?_, ?_, ?_, ?_, ?_, by simp, fun hst => absurd hb' fun hb'' =>
        small_not (lt_of_le_of_lt (strict hst).1 sh) (drcW_le_one h2 h3 (by omega)) hb''⟩⟩
      · dsimp only; rw [hxx]; ring
      · dsimp only; rw [hs1, ← drcSrhuge_sq]; field_simp
      · intro _; dsimp only; rw [sum1, ← drcSrhuge_sq]; field_simp
      · intro i hi1 hi2
        dsimp only at hi1 hi2 ⊢
        rw [if_pos hi1]
        exact exact_flush (thrE i hi1 hi2) hb' (fun hne => hj (k + 2) i (by omega) (by omega) (by omega) (by omega) hne)
      · intro i hi1
        dsimp only at hi1 ⊢
        rw [if_pos hi1]
        exact near_flush (thrN i hi1) hb' (drcW_le_one h2 h3 (by omega))
      · intro i hi1
        dsimp only at hi1 ⊢
        rw [if_neg (by omega)]
        exact thrR i hi1
    · rw [if_neg hb]
      exact ⟨σ, ⟨ne, small, by simp, by dsimp only; omega, by simpa using hfac, hxx, hs1, fun _ => sum1, thrE, thrN, thrR, by simp, thrS⟩⟩
  · rw [if_neg hlt]
    exact ⟨σ, ⟨ne, small, by simp, by dsimp only; omega, by simpa using hfac, hxx, hs1, fun _ => sum1, thrE, thrN, thrR, by simp, thrS⟩⟩

theorem drcFwdStep_lstep (a b c d e : ℝ) (p q : ℕ) (s : DrcFwd) : (drcFwdStep a b c d e p q s).lstep = s.lstep + 1 := by
  unfold drcFwdStep
  dsimp only
  split_ifs <;> rfl

theorem fwdInv_loop (mem : ℕ → ℝ) (h2 : |m2| ≤ l2) (h3 : |m3| ≤ l3) :
    ∀ (f : ℕ) (s : DrcFwd) (σ : ℝ), FwdInv mem l2 l3 m2 m3 s σ → drcN l2 l3 m2 m3 - 1 ≤ s.lstep + f →
    ∃ σ', FwdInv mem l2 l3 m2 m3 (drcFwdLoop l2 l3 (-m2 - m3 : ℤ) m2 m3 (drcLow l2 l3 m2 m3) (drcN l2 l3 m2 m3) f s) σ' ∧
      ((drcFwdLoop l2 l3 (-m2 - m3 : ℤ) m2 m3 (drcLow l2 l3 m2 m3) (drcN l2 l3 m2 m3) f s).lstep = drcN l2 l3 m2 m3 - 1 ∨
        2 ≤ (drcFwdLoop l2 l3 (-m2 - m3 : ℤ) m2 m3 (drcLow l2 l3 m2 m3) (drcN l2 l3 m2 m3) f s).lstep) := by
  intro f
  induction f with
  | zero =>
    intro s σ H hf
    refine ⟨σ, H, Or.inl ?_⟩
    have := H.hi
    unfold drcFwdLoop
    omega
  | succ f ih =>
    intro s σ H hf
    unfold drcFwdLoop
    by_cases hc : s.lstep < drcN l2 l3 m2 m3 - 1 ∧ s.converging = true
    · rw [if_pos hc]
      obtain ⟨σ', H'⟩ := fwdInv_step mem h2 h3 H hc.1
      exact ih _ σ' H' (by rw [drcFwdStep_lstep]; omega)
    · rw [if_neg hc]
      refine ⟨σ, H, ?_⟩
      by_cases hl : s.lstep < drcN l2 l3 m2 m3 - 1
      · right
        apply H.conv
        cases hcv : s.converging
        · rfl
        · exact absurd ⟨hl, hcv⟩ hc
      · left
        have := H.hi
        omega

/-- State of the backward loop after `k` stored values: the numbers from index `nfin-1-k` on are the symbols times `τ`. -/
structure BwdInv (old : ℕ → ℝ) (l2 l3 : ℕ) (m2 m3 : ℤ) (s : DrcBwd) (τ : ℝ) : Prop where
  ne : τ ≠ 0
  small : ¬DrcNoJump l2 l3 m2 m3 → |τ| < drcSrhuge
  lo : 1 ≤ s.lstep
  hi : s.lstep < drcN l2 l3 m2 m3
  fac : s.newfac = drcFacBack l2 l3 (-m2 - m3) (((l2 + l3 : ℕ) : ℝ) + 2 - s.lstep)
  sum2 : s.sum2 = τ ^ 2 * ∑ i ∈ Ico (drcN l2 l3 m2 m3 - 1 - s.lstep) (drcN l2 l3 m2 m3), drcP l2 l3 m2 m3 i
  sumbac : s.sumbac = τ ^ 2 * ∑ i ∈ Ico (drcN l2 l3 m2 m3 - s.lstep) (drcN l2 l3 m2 m3), drcP l2 l3 m2 m3 i
  exact : ∀ i, drcN l2 l3 m2 m3 - 1 - s.lstep ≤ i → i ≤ drcN l2 l3 m2 m3 - 1 - s.lstep + 2 → i < drcN l2 l3 m2 m3 → s.thr i = τ * drcW l2 l3 m2 m3 i
  near : ∀ i, drcN l2 l3 m2 m3 - 1 - s.lstep ≤ i → i < drcN l2 l3 m2 m3 → Near τ (s.thr i) (drcW l2 l3 m2 m3 i)
  rest : ∀ i, i < drcN l2 l3 m2 m3 - 1 - s.lstep ∨ drcN l2 l3 m2 m3 ≤ i → s.thr i = old i
  strict : DrcStrict l2 l3 m2 m3 → |τ| ≤ 1 ∧ ∀ i, drcN l2 l3 m2 m3 - 1 - s.lstep ≤ i → i < drcN l2 l3 m2 m3 → s.thr i = τ * drcW l2 l3 m2 m3 i

theorem drcLow_add (h2 : |m2| ≤ l2) (h3 : |m3| ≤ l3) {i k : ℕ} (h : i + k + 1 = drcN l2 l3 m2 m3) :
    ((drcLow l2 l3 m2 m3 + i : ℕ) : ℝ) = ((l2 + l3 : ℕ) : ℝ) - k := by
  have := drcLow_le h2 h3
  unfold drcN at h
  have e : drcLow l2 l3 m2 m3 + i + k = l2 + l3 := by omega
  rw [← e]; push_cast; ring

theorem bwdInv_start (old : ℕ → ℝ) (h2 : |m2| ≤ l2) (h3 : |m3| ≤ l3) (hn : 3 ≤ drcN l2 l3 m2 m3) (nf : ℝ) (nstep2 : ℕ)
    (hj : ¬DrcNoJump l2 l3 m2 m3 → drcTiny < |drcW l2 l3 m2 m3 (drcN l2 l3 m2 m3 - 1)|) :
    BwdInv old l2 l3 m2 m3 (drcBwdStep l2 l3 (-m2 - m3 : ℤ) m2 m3 (l2 + l3) (drcN l2 l3 m2 m3) nstep2
      { lstep := 0, newfac := nf, sum2 := drcTiny * (((l2 + l3 : ℕ) : ℝ) + ((l2 + l3 : ℕ) : ℝ) + 1), sumbac := 0, y := 0,
        thr := Function.update old (drcN l2 l3 m2 m3 - 1) drcSrtiny }) (drcSrtiny / drcW l2 l3 m2 m3 (drcN l2 l3 m2 m3 - 1)) := by
  have wt := drcW_top_ne h2 h3
  have ht := drcSrtiny_pos
  have hla := drcW_last h2 h3 (by omega) (L := ((l2 + l3 : ℕ) : ℝ) + 1) rfl
  have la1 := drcLow_add h2 h3 (i := drcN l2 l3 m2 m3 - 1) (k := 0) (by omega)
  have la2 := drcLow_add h2 h3 (i := drcN l2 l3 m2 m3 - 2) (k := 1) (by omega)
  unfold drcBwdStep
  dsimp only
  rw [if_pos (by norm_num), zero_add]
  rw [show ((l2 + l3 : ℕ) : ℝ) + 2 - ((1 : ℕ) : ℝ) = ((l2 + l3 : ℕ) : ℝ) + 1 by push_cast; ring]
  set L : ℝ := ((l2 + l3 : ℕ) : ℝ) + 1 with hL
  rw [show (((-m2 - m3 : ℤ)) : ℝ) = -m2 - m3 by push_cast; ring]
  set c1 : ℝ := -(L + L - 1) * drcDv l2 l3 (-m2 - m3) m2 m3 L / (L * drcFacBack l2 l3 (-m2 - m3) L) with hc1
  have hc : drcSrtiny * c1 = drcSrtiny / drcW l2 l3 m2 m3 (drcN l2 l3 m2 m3 - 1) * drcW l2 l3 m2 m3 (drcN l2 l3 m2 m3 - 2) := by
    rw [hla]; field_simp
  have hc' : c1 = drcW l2 l3 m2 m3 (drcN l2 l3 m2 m3 - 2) / drcW l2 l3 m2 m3 (drcN l2 l3 m2 m3 - 1) := by
    rw [hla]; field_simp
  have E : ∀ i, drcN l2 l3 m2 m3 - 1 - 1 ≤ i → i < drcN l2 l3 m2 m3 →
      Function.update (Function.update old (drcN l2 l3 m2 m3 - 1) drcSrtiny) (drcN l2 l3 m2 m3 - 2) (drcSrtiny * c1) i =
        drcSrtiny / drcW l2 l3 m2 m3 (drcN l2 l3 m2 m3 - 1) * drcW l2 l3 m2 m3 i := by
    intro i ha hb
    by_cases e : i = drcN l2 l3 m2 m3 - 2
    · rw [e, Function.update_self, hc]
    · have e' : i = drcN l2 l3 m2 m3 - 1 := by omega
      rw [Function.update_of_ne e, e', Function.update_self]
      field_simp
  have s1 : ∑ i ∈ Ico (drcN l2 l3 m2 m3 - 1) (drcN l2 l3 m2 m3), drcP l2 l3 m2 m3 i = drcP l2 l3 m2 m3 (drcN l2 l3 m2 m3 - 1) := by
    have : drcN l2 l3 m2 m3 = drcN l2 l3 m2 m3 - 1 + 1 := by omega
    conv_lhs => rw [this]
    simp
  have s2 : ∑ i ∈ Ico (drcN l2 l3 m2 m3 - 1 - 1) (drcN l2 l3 m2 m3), drcP l2 l3 m2 m3 i =
      drcP l2 l3 m2 m3 (drcN l2 l3 m2 m3 - 2) + drcP l2 l3 m2 m3 (drcN l2 l3 m2 m3 - 1) := by
    rw [sum_eq_sum_Ico_succ_bot (by omega), show drcN l2 l3 m2 m3 - 1 - 1 + 1 = drcN l2 l3 m2 m3 - 1 by omega, s1,
      show drcN l2 l3 m2 m3 - 1 - 1 = drcN l2 l3 m2 m3 - 2 by omega]
  refine ⟨div_ne_zero ht.ne' wt, fun h => small_start (hj h), le_refl _, by dsimp only; omega, ?_, ?_, ?_, ?_, ?_, ?_, fun hst => ⟨strict_start hst.2, E⟩⟩
  · dsimp only; congr 1; rw [hL]; push_cast; ring
  · dsimp only
    rw [s2]
    unfold drcP
    rw [la1, la2, hc', drcTiny_eq, hL]
    push_cast
    field_simp
    ring
  · dsimp only
    rw [s1]
    unfold drcP
    rw [la1, drcTiny_eq]
    push_cast
    field_simp
    ring
  · intro i ha _ hb; exact E i ha hb
  · intro i ha hb; left; exact E i ha hb
  · intro i hi1
    dsimp only at hi1 ⊢
    rw [Function.update_of_ne (by omega), Function.update_of_ne (by omega)]

theorem bwdInv_step (old : ℕ → ℝ) (h2 : |m2| ≤ l2) (h3 : |m3| ≤ l3) {s : DrcBwd} {τ : ℝ} {nstep2 : ℕ}
    (H : BwdInv old l2 l3 m2 m3 s τ) (hs : s.lstep + 1 < nstep2 - 1) (hn : nstep2 ≤ drcN l2 l3 m2 m3) :
    ∃ τ', BwdInv old l2 l3 m2 m3 (drcBwdStep l2 l3 (-m2 - m3 : ℤ) m2 m3 (l2 + l3) (drcN l2 l3 m2 m3) nstep2 s) τ' := by
  obtain ⟨ne, small, lo, hi, fac, sum2, sumbac, exact, near, rest, strict⟩ := H
  have sh := drcSrhuge_gt
  have la := drcLow_add h2 h3 (i := drcN l2 l3 m2 m3 - 1 - (s.lstep + 1)) (k := s.lstep + 1) (by omega)
  have down := drcW_down h2 h3 (k := s.lstep + 1) (by omega) (by omega) (L := ((l2 + l3 : ℕ) : ℝ) + 2 - ((s.lstep + 1 : ℕ) : ℝ)) rfl
  unfold drcBwdStep
  dsimp only
  rw [if_neg (by omega), if_pos (by omega)]
  rw [show drcN l2 l3 m2 m3 - (s.lstep + 1) - 1 = drcN l2 l3 m2 m3 - 1 - (s.lstep + 1) by omega] at *
  set q := drcN l2 l3 m2 m3 - 1 - (s.lstep + 1) with hq
  have fac' : s.newfac = drcFacBack l2 l3 (-m2 - m3) (((l2 + l3 : ℕ) : ℝ) + 2 - ((s.lstep + 1 : ℕ) : ℝ) + 1) := by
    rw [fac]; congr 1; push_cast; ring
  set L : ℝ := ((l2 + l3 : ℕ) : ℝ) + 2 - ((s.lstep + 1 : ℕ) : ℝ) with hL
  rw [show (((-m2 - m3 : ℤ)) : ℝ) = -m2 - m3 by push_cast; ring]
  have t1 : s.thr (drcN l2 l3 m2 m3 - (s.lstep + 1)) = τ * drcW l2 l3 m2 m3 (drcN l2 l3 m2 m3 - (s.lstep + 1)) :=
    exact _ (by omega) (by omega) (by omega)
  have t0 : s.thr (drcN l2 l3 m2 m3 + 1 - (s.lstep + 1)) = τ * drcW l2 l3 m2 m3 (drcN l2 l3 m2 m3 + 1 - (s.lstep + 1)) :=
    exact _ (by omega) (by omega) (by omega)
  have hyy : -(L + L - 1) * drcDv l2 l3 (-m2 - m3) m2 m3 L / (L * drcFacBack l2 l3 (-m2 - m3) L) * s.thr (drcN l2 l3 m2 m3 - (s.lstep + 1)) +
      -(L - 1) * s.newfac / (L * drcFacBack l2 l3 (-m2 - m3) L) * s.thr (drcN l2 l3 m2 m3 + 1 - (s.lstep + 1)) = τ * drcW l2 l3 m2 m3 q := by
    rw [t1, t0, down, fac']; ring
  generalize hY : -(L + L - 1) * drcDv l2 l3 (-m2 - m3) m2 m3 L / (L * drcFacBack l2 l3 (-m2 - m3) L) * s.thr (drcN l2 l3 m2 m3 - (s.lstep + 1)) +
      -(L - 1) * s.newfac / (L * drcFacBack l2 l3 (-m2 - m3) L) * s.thr (drcN l2 l3 m2 m3 + 1 - (s.lstep + 1)) = Y at hyy ⊢
  have e2 : ∑ i ∈ Ico q (drcN l2 l3 m2 m3), drcP l2 l3 m2 m3 i =
      drcP l2 l3 m2 m3 q + ∑ i ∈ Ico (drcN l2 l3 m2 m3 - 1 - s.lstep) (drcN l2 l3 m2 m3), drcP l2 l3 m2 m3 i := by
    rw [sum_eq_sum_Ico_succ_bot (by omega), show q + 1 = drcN l2 l3 m2 m3 - 1 - s.lstep by omega]
  have hs2 : s.sum2 + (L + L - 3) * Y * Y = τ ^ 2 * ∑ i ∈ Ico q (drcN l2 l3 m2 m3), drcP l2 l3 m2 m3 i := by
    rw [e2, sum2, hyy]
    unfold drcP
    rw [la, hL]; push_cast; ring
  have hsb : s.sum2 = τ ^ 2 * ∑ i ∈ Ico (drcN l2 l3 m2 m3 - (s.lstep + 1)) (drcN l2 l3 m2 m3), drcP l2 l3 m2 m3 i := by
    rw [sum2, show drcN l2 l3 m2 m3 - (s.lstep + 1) = drcN l2 l3 m2 m3 - 1 - s.lstep by omega]
  have thrE : ∀ i, q ≤ i → i ≤ q + 2 → i < drcN l2 l3 m2 m3 → Function.update s.thr q Y i = τ * drcW l2 l3 m2 m3 i := by
    intro i ha hb hc
    by_cases e : i = q
    · rw [e, Function.update_self, hyy]
    · rw [Function.update_of_ne e]; exact exact i (by omega) (by omega) hc
  have thrN : ∀ i, q ≤ i → i < drcN l2 l3 m2 m3 → Near τ (Function.update s.thr q Y i) (drcW l2 l3 m2 m3 i) := by
    intro i ha hc
    by_cases e : i = q
    · left; rw [e, Function.update_self, hyy]
    · rw [Function.update_of_ne e]; exact near i (by omega) hc
  have thrS : DrcStrict l2 l3 m2 m3 → |τ| ≤ 1 ∧
      ∀ i, q ≤ i → i < drcN l2 l3 m2 m3 → Function.update s.thr q Y i = τ * drcW l2 l3 m2 m3 i := by
    intro hst
    refine ⟨(strict hst).1, fun i ha hc => ?_⟩
    by_cases e : i = q
    · rw [e, Function.update_self, hyy]
    · rw [Function.update_of_ne e]; exact (strict hst).2 i (by omega) hc
  have thrR : ∀ i, i < q ∨ drcN l2 l3 m2 m3 ≤ i → Function.update s.thr q Y i = old i := by
    intro i h1
    rw [Function.update_of_ne (by omega)]; exact rest i (by omega)
  by_cases hb : |Y| ≥ drcSrhuge
  · rw [if_pos hb]
    have hb' : drcSrhuge ≤ |τ * drcW l2 l3 m2 m3 q| := by rw [← hyy]; exact hb
    have hj : DrcNoJump l2 l3 m2 m3 := by
      by_contra h
      exact small_not (small h) (drcW_le_one h2 h3 (by omega)) hb'
    refine ⟨τ / drcSrhuge, ⟨div_ne_zero ne (by linarith), fun h => absurd hj h, by simp, by dsimp only; omega, rfl, ?_, ?_, ?_, ?_, ?_, fun hst => absurd hb' fun hb'' =>
        small_not (lt_of_le_of_lt (strict hst).1 sh) (drcW_le_one h2 h3 (by omega)) hb''⟩⟩
    · dsimp only; rw [hs2, ← drcSrhuge_sq, hq]; field_simp
    · dsimp only; rw [hsb, ← drcSrhuge_sq]; field_simp
    · intro i ha hb1 hc
      dsimp only at ha hb1 ⊢
      rw [← hq] at ha hb1
      rw [if_pos ⟨ha, by omega⟩]
      exact exact_flush (thrE i ha hb1 hc) hb' (fun hne => hj q i (by omega) (by omega) (by omega) (by omega) hne)
    · intro i ha hc
      dsimp only at ha ⊢
      rw [← hq] at ha
      rw [if_pos ⟨ha, by omega⟩]
      exact near_flush (thrN i ha hc) hb' (drcW_le_one h2 h3 (by omega))
    · intro i ha
      dsimp only at ha ⊢
      rw [← hq] at ha
      rw [if_neg (by omega)]
      exact thrR i ha
  · rw [if_neg hb]
    exact ⟨τ, ⟨ne, small, by simp, by dsimp only; omega, rfl, hs2, hsb, thrE, thrN, thrR, thrS⟩⟩

theorem drcBwdStep_lstep (a b c d e : ℝ) (p q r : ℕ) (s : DrcBwd) : (drcBwdStep a b c d e p q r s).lstep = s.lstep + 1 := by
  unfold drcBwdStep
  dsimp only
  split_ifs <;> rfl

/-- The backward loop: the state before its last pass, and the number computed in the last pass. -/
theorem bwdInv_loop (old : ℕ → ℝ) (h2 : |m2| ≤ l2) (h3 : |m3| ≤ l3) {nstep2 : ℕ} (h3n : 3 ≤ nstep2)
    (hn : nstep2 ≤ drcN l2 l3 m2 m3) :
    ∀ (f : ℕ) (s : DrcBwd) (τ : ℝ), BwdInv old l2 l3 m2 m3 s τ → s.lstep + 1 ≤ nstep2 - 1 → s.lstep + f = nstep2 - 1 →
    ∃ (s' : DrcBwd) (τ' : ℝ), BwdInv old l2 l3 m2 m3 s' τ' ∧ s'.lstep = nstep2 - 2 ∧
      (drcBwdLoop l2 l3 (-m2 - m3 : ℤ) m2 m3 (l2 + l3) (drcN l2 l3 m2 m3) nstep2 f s).lstep = nstep2 - 1 ∧
      (drcBwdLoop l2 l3 (-m2 - m3 : ℤ) m2 m3 (l2 + l3) (drcN l2 l3 m2 m3) nstep2 f s).thr = s'.thr ∧
      (drcBwdLoop l2 l3 (-m2 - m3 : ℤ) m2 m3 (l2 + l3) (drcN l2 l3 m2 m3) nstep2 f s).sumbac = s'.sumbac ∧
      (drcBwdLoop l2 l3 (-m2 - m3 : ℤ) m2 m3 (l2 + l3) (drcN l2 l3 m2 m3) nstep2 f s).y = τ' * drcW l2 l3 m2 m3 (drcN l2 l3 m2 m3 - nstep2) := by
  intro f
  induction f with
  | zero => intro s τ _ h4 h5; omega
  | succ f ih =>
    intro s τ H h4 h5
    unfold drcBwdLoop
    rw [if_pos (by omega)]
    by_cases hl : s.lstep + 1 < nstep2 - 1
    · obtain ⟨τ', H'⟩ := bwdInv_step old h2 h3 H hl hn
      exact ih _ τ' H' (by rw [drcBwdStep_lstep]; omega) (by rw [drcBwdStep_lstep]; omega)
    · have hf : f = 0 := by omega
      subst hf
      unfold drcBwdLoop
      refine ⟨s, τ, H, by omega, by rw [drcBwdStep_lstep]; omega, ?_⟩
      obtain ⟨ne, small, lo, hi, fac, sum2, sumbac, exact, near, rest, strict⟩ := H
      have down := drcW_down h2 h3 (k := s.lstep + 1) (by omega) (by omega) (L := ((l2 + l3 : ℕ) : ℝ) + 2 - ((s.lstep + 1 : ℕ) : ℝ)) rfl
      unfold drcBwdStep
      dsimp only
      rw [if_neg (by omega), if_neg (by omega)]
      refine ⟨rfl, rfl, ?_⟩
      dsimp only
      have fac' : s.newfac = drcFacBack l2 l3 (-m2 - m3) (((l2 + l3 : ℕ) : ℝ) + 2 - ((s.lstep + 1 : ℕ) : ℝ) + 1) := by
        rw [fac]; congr 1; push_cast; ring
      rw [show (((-m2 - m3 : ℤ)) : ℝ) = -m2 - m3 by push_cast; ring]
      rw [exact (drcN l2 l3 m2 m3 - (s.lstep + 1)) (by omega) (by omega) (by omega),
        exact (drcN l2 l3 m2 m3 + 1 - (s.lstep + 1)) (by omega) (by omega) (by omega),
        show drcN l2 l3 m2 m3 - nstep2 = drcN l2 l3 m2 m3 - (s.lstep + 1) - 1 by omega, down, fac']
      ring

end

end NaMaster
