import Verif.Coupling.Lemmas2
import Verif.Master.Lemmas
import Mathlib.Tactic.IntervalCases

/-!
# The coupling matrix returned by the wrapper, element by element
-/

namespace NaMaster

open Finset CouplingSpec

theorem tab_lt {n i : ℕ} (f : ℕ → ℝ) (h : i < n) : tab n f i = f i := by unfold tab; rw [if_pos h]

theorem tab2_lt {n m i j : ℕ} (f : ℕ → ℕ → ℝ) (h : i < n) (h' : j < m) : tab2 n m f i j = f i j := by
  unfold tab2; rw [if_pos ⟨h, h'⟩]

/-- The mask spectrum as used by the C code. -/
noncomputable def usedPcl (lmaxMask : ℕ) (pcl : List ℝ) : ℕ → ℝ :=
  tab (lmaxMask + 1) (scalePcl fun l => pcl.getD l 0)

theorem usedPcl_apply {lmaxMask l : ℕ} (pcl : List ℝ) (h : l ≤ lmaxMask) :
    usedPcl lmaxMask pcl l = (2 * l + 1) / (4 * Real.pi) * pcl.getD l 0 := by
  unfold usedPcl
  rw [tab_lt _ (by omega)]
  unfold scalePcl
  ring

theorem CouplingArgs.cells_lt (W : Wigner) (a : CouplingArgs) (lmax : ℕ) (pcl : ℕ → ℝ) (l2 l3 : ℕ)
    (w : (ℕ × ℕ) × ℝ) (hw : w ∈ a.cells W lmax pcl l2 l3) : w.1.1 < a.ncls ∧ w.1.2 < a.ncls := by
  unfold CouplingArgs.cells at hw
  simp only at hw
  by_cases h1 : a.ncls = 1
  · rw [if_pos h1, List.mem_singleton] at hw
    subst hw; rw [h1]; exact ⟨by norm_num, by norm_num⟩
  · rw [if_neg h1] at hw
    by_cases h2 : a.ncls = 2
    · rw [if_pos h2] at hw
      rw [h2]
      simp only [List.mem_cons, List.not_mem_nil, or_false] at hw
      rcases hw with h | h <;> subst h <;> exact ⟨by norm_num, by norm_num⟩
    · rw [if_neg h2] at hw
      by_cases h4 : a.ncls = 4
      · rw [if_pos h4] at hw
        rw [h4]
        simp only [List.mem_cons, List.not_mem_nil, or_false] at hw
        rcases hw with h | h | h | h | h | h | h | h <;> subst h <;> exact ⟨by norm_num, by norm_num⟩
      · rw [if_neg h4] at hw
        have h7 : a.ncls = 7 := by
          unfold CouplingArgs.ncls at h1 h2 h4 ⊢
          by_cases ht : a.teb
          · rw [if_pos ht]
          · rw [if_neg ht] at h1 h2 h4
            exfalso
            by_cases e1 : a.spin1 ≠ 0 <;> by_cases e2 : a.spin2 ≠ 0 <;> simp_all
        rw [h7]
        simp only [List.mem_cons, List.not_mem_nil, or_false] at hw
        rcases hw with h | h | h | h | h | h | h | h | h | h | h <;> subst h <;> exact ⟨by norm_num, by norm_num⟩

/-- What a successful call of the wrapper returns. -/
theorem comp_ok {W : Wigner} {a : CouplingArgs} {lmaxFields : ℕ} {pcl beam1 beam2 : List ℝ} {B : Bins ℝ}
    {nt : ℤ} {w2 : ℝ} {w : Wsp ℝ}
    (h : compCouplingMatrix W a lmaxFields pcl beam1 beam2 B nt w2 = .ok w) :
    (a.teb → a.spin1 = 0 ∧ a.spin2 ≠ 0) ∧ w.ncls = a.ncls ∧ w.lmax = B.ellMax ∧
    ∃ U, w.unbinned = some U ∧ ∀ l2 l3 x y, l2 ≤ B.ellMax → l3 ≤ B.ellMax → x < a.ncls → y < a.ncls →
      U (a.ncls * l2 + x) (a.ncls * l3 + y) =
        runWrites (a.cells W B.ellMax (usedPcl a.lmaxMask pcl) l2 l3) (fun _ => 0) (x, y) := by
  unfold compCouplingMatrix at h
  split at h
  · exact absurd h (by simp)
  · unfold computeCouplingMatrix at h
    split at h
    · exact absurd h (by simp)
    · rename_i hteb
      split at h
      · exact absurd h (by simp)
      · split at h
        · exact absurd h (by simp)
        · split at h
          · exact absurd h (by simp)
          · simp only [Outcome.ok.injEq] at h
            subst h
            refine ⟨fun ht => ?_, rfl, rfl, _, rfl, ?_⟩
            · by_contra hc; exact hteb ⟨ht, hc⟩
            · intro l2 l3 x y h2 h3 hx hy
              have b2 : a.ncls * l2 + x < a.ncls * (B.ellMax + 1) := by
                calc a.ncls * l2 + x < a.ncls * l2 + a.ncls := by omega
                  _ = a.ncls * (l2 + 1) := by ring
                  _ ≤ _ := Nat.mul_le_mul_left _ (by omega)
              have b3 : a.ncls * l3 + y < a.ncls * (B.ellMax + 1) := by
                calc a.ncls * l3 + y < a.ncls * l3 + a.ncls := by omega
                  _ = a.ncls * (l3 + 1) := by ring
                  _ ≤ _ := Nat.mul_le_mul_left _ (by omega)
              rw [tab2_lt _ b2 b3]
              exact matrix_apply _ _ _ (a.cells_lt W _ _) h2 h3 hx hy

/-! ## Sums as in the specification -/

theorem coupling_comm {W : Wigner} (hW : Symmetric W) (s1 s2 M : ℕ) (pcl : ℕ → ℝ) (sel : ℕ → Prop)
    [DecidablePred sel] (l2 l3 : ℕ) : coupling W s1 s2 M pcl sel l3 l2 = coupling W s1 s2 M pcl sel l2 l3 := by
  unfold coupling
  apply Finset.sum_congr rfl
  intro l1 _
  have : l1 + l3 + l2 = l1 + l2 + l3 := by ring
  rw [this, spin3j_comm W hW s1, spin3j_comm W hW s2]

theorem coupling_swap (W : Wigner) (s1 s2 M : ℕ) (pcl : ℕ → ℝ) (sel : ℕ → Prop) [DecidablePred sel] (l2 l3 : ℕ) :
    coupling W s2 s1 M pcl sel l2 l3 = coupling W s1 s2 M pcl sel l2 l3 := by
  unfold coupling
  apply Finset.sum_congr rfl
  intro l1 _
  split <;> ring

theorem coupling_below (W : Wigner) (s1 s2 M : ℕ) (pcl : ℕ → ℝ) (sel : ℕ → Prop) [DecidablePred sel] (l2 l3 : ℕ)
    (h : l2 < max s1 s2 ∨ l3 < max s1 s2) : coupling W s1 s2 M pcl sel l2 l3 = 0 := by
  unfold coupling
  apply Finset.sum_eq_zero
  intro l1 _
  have hz : ∀ s, (l2 < s ∨ l3 < s) → spin3j W s l1 l2 l3 = 0 := by
    intro s hs
    unfold spin3j
    rw [if_neg (by omega), if_neg (by omega)]
  have : (l2 < s1 ∨ l3 < s1) ∨ (l2 < s2 ∨ l3 < s2) := by omega
  split
  · rcases this with h | h
    · rw [hz s1 h]; ring
    · rw [hz s2 h]; ring
  · rfl

section entries
variable (W : Wigner) (junk : ℕ → ℝ) (c : Calc) (lmax M : ℕ) (pcl : List ℝ) {l2 l3 : ℕ}

theorem entry00_eq (hM : c.lmaxMask = M) (h2 : l2 ≤ lmax) (h3 : l3 ≤ lmax) :
    entry00 (lfac junk lmax M) c (usedPcl M pcl) l2 l3 =
      coupling W 0 0 M (fun l => pcl.getD l 0) (fun _ => True) l2 l3 := by
  unfold entry00 coupling
  rw [hM]
  apply sumMask_eq
  · intro l1 ht
    rw [if_pos trivial, spin3j_zero W ht]; ring
  · intro l1 hl ht
    rw [if_pos trivial, usedPcl_apply _ hl, drc000_eq]
    · unfold spin3j; rw [if_pos rfl]
    · exact ht
    · unfold lfacSize; omega

theorem entry0s_eq (hs : c.s1 ≠ 0) (hM : c.lmaxMask = M) (h2 : l2 ≤ lmax) (h3 : l3 ≤ lmax) :
    entry0s W (lfac junk lmax M) c (usedPcl M pcl) 0 l2 l3 =
      coupling W 0 c.s1 M (fun l => pcl.getD l 0) (fun _ => True) l2 l3 := by
  unfold entry0s coupling
  rw [hM]
  apply sumMask_eq
  · intro l1 ht
    rw [if_pos trivial, spin3j_zero W ht]; ring
  · intro l1 hl ht
    rw [if_pos trivial, if_pos rfl, usedPcl_apply _ hl, drc000_eq]
    · unfold wss1
      rw [wigAt_spin _ _ _ _ _ hs (triangle_iff.1 ht).2]
      have : spin3j W 0 l1 l2 l3 = zero3j l1 l2 l3 := by unfold spin3j; rw [if_pos rfl]
      rw [this]; ring
    · exact ht
    · unfold lfacSize; omega

/-- Spin of the second symbol in the sums for two fields with spin. -/
def Calc.sTwo (c : Calc) : ℕ := if c.hasSs2 then c.s2 else c.s1

theorem wss2_eq (hs : c.s1 ≠ 0) {l1 : ℕ} (h : l1 ≤ l2 + l3) : wss2 W c l1 l2 l3 = spin3j W c.sTwo l1 l2 l3 := by
  unfold wss2 Calc.sTwo wss1
  by_cases hh : c.hasSs2
  · rw [if_pos hh, if_pos hh, wigAt_spin _ _ _ _ _ _ h]
    unfold Calc.hasSs2 at hh
    simp only [Bool.and_eq_true, bne_iff_ne] at hh
    exact hh.1.1.2
  · rw [if_neg hh, if_neg hh, wigAt_spin _ _ _ _ _ hs h]

theorem entryPP_eq (hs : c.s1 ≠ 0) (hM : c.lmaxMask = M) :
    entryPP W c (usedPcl M pcl) 0 l2 l3 = coupling W c.s1 c.sTwo M (fun l => pcl.getD l 0) Even l2 l3 := by
  unfold entryPP coupling
  rw [hM]
  apply sumMask_eq
  · intro l1 ht
    rw [spin3j_zero W ht]; split <;> ring
  · intro l1 hl ht
    by_cases ho : Odd (l1 + l2 + l3)
    · rw [if_pos ho, if_neg (Nat.not_even_iff_odd.2 ho)]
    · rw [if_neg ho, if_pos (Nat.not_odd_iff_even.1 ho)]
      unfold wfacSs
      rw [if_pos rfl, usedPcl_apply _ hl, wss2_eq W c hs (triangle_iff.1 ht).2]
      unfold wss1
      rw [wigAt_spin _ _ _ _ _ hs (triangle_iff.1 ht).2]
      ring

theorem entryMM_eq (hs : c.s1 ≠ 0) (hM : c.lmaxMask = M) :
    entryMM W c (usedPcl M pcl) 0 l2 l3 = coupling W c.s1 c.sTwo M (fun l => pcl.getD l 0) Odd l2 l3 := by
  unfold entryMM coupling
  rw [hM]
  apply sumMask_eq
  · intro l1 ht
    rw [spin3j_zero W ht]; split <;> ring
  · intro l1 hl ht
    by_cases ho : Odd (l1 + l2 + l3)
    · rw [if_pos ho, if_pos ho]
      unfold wfacSs
      rw [if_pos rfl, usedPcl_apply _ hl, wss2_eq W c hs (triangle_iff.1 ht).2]
      unfold wss1
      rw [wigAt_spin _ _ _ _ _ hs (triangle_iff.1 ht).2]
      ring
    · rw [if_neg ho, if_neg ho]

end entries

/-! ## Assignments for one pair of multipoles -/

theorem cells_one (W : Wigner) (a : CouplingArgs) (lmax : ℕ) (pcl : ℕ → ℝ) (l2 l3 : ℕ) (h : a.ncls = 1) :
    runWrites (a.cells W lmax pcl l2 l3) (fun _ => 0) (0, 0) =
      (2 * l3 + 1) * (if Odd (a.spin1 + a.spin2) then -1 else 1) * (a.xi W lmax pcl).1 l2 l3 := by
  unfold CouplingArgs.cells
  simp only [if_pos h]
  simp [runWrites]

theorem cells_two (W : Wigner) (a : CouplingArgs) (lmax : ℕ) (pcl : ℕ → ℝ) (l2 l3 x y : ℕ) (h : a.ncls = 2)
    (hx : x < 2) (hy : y < 2) :
    runWrites (a.cells W lmax pcl l2 l3) (fun _ => 0) (x, y) =
      if x = y then (2 * l3 + 1) * (if Odd (a.spin1 + a.spin2) then -1 else 1) *
        (a.xi W lmax pcl).2.1 (if x = 0 then flag a.pe1 + flag a.pe2 else flag a.pb1 + flag a.pb2) l2 l3 else 0 := by
  unfold CouplingArgs.cells
  rw [if_neg (by omega), if_pos h]
  interval_cases x <;> interval_cases y <;> simp [runWrites]

theorem cells_four (W : Wigner) (a : CouplingArgs) (lmax : ℕ) (pcl : ℕ → ℝ) (l2 l3 x y : ℕ) (h : a.ncls = 4)
    (hx : x < 4) (hy : y < 4) :
    runWrites (a.cells W lmax pcl l2 l3) (fun _ => 0) (x, y) =
      (2 * l3 + 1) * (if Odd (a.spin1 + a.spin2) then -1 else 1) *
        (let ip := (if x < 2 then flag a.pe1 else flag a.pb1) + (if x % 2 = 0 then flag a.pe2 else flag a.pb2)
         if x = y then (a.xi W lmax pcl).2.2.1 ip l2 l3
         else if (x, y) = (0, 3) ∨ (x, y) = (3, 0) then (a.xi W lmax pcl).2.2.2 ip l2 l3
         else if (x, y) = (1, 2) ∨ (x, y) = (2, 1) then -(a.xi W lmax pcl).2.2.2 ip l2 l3
         else 0) := by
  unfold CouplingArgs.cells
  rw [if_neg (by omega), if_neg (by omega), if_pos h]
  interval_cases x <;> interval_cases y <;> simp [runWrites]

end NaMaster
