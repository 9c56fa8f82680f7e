import Verif.Coupling.Props3

/-!
# Exchange of the two fields (C52) for isotropic masks
-/

namespace NaMaster

open Finset CouplingSpec

/-- The two fields exchanged. -/
def CouplingArgs.swap (a : CouplingArgs) : CouplingArgs :=
  { a with spin1 := a.spin2, spin2 := a.spin1, pe1 := a.pe2, pb1 := a.pb2, pe2 := a.pe1, pb2 := a.pb1 }

theorem swap_pureAny (a : CouplingArgs) : a.swap.pureAny = a.pureAny := by
  unfold CouplingArgs.pureAny CouplingArgs.swap
  cases a.pe1 <;> cases a.pb1 <;> cases a.pe2 <;> cases a.pb2 <;> rfl

theorem swap_calc (a : CouplingArgs) (lmax : ℕ) (h : a.spin1 = a.spin2 ∨ a.spin1 = 0 ∨ a.spin2 = 0) :
    a.swap.calc lmax = a.calc lmax := by
  unfold CouplingArgs.calc
  rw [swap_pureAny]
  unfold CouplingArgs.swap Calc.make
  simp only
  by_cases h1 : a.spin1 = 0
  · by_cases h2 : a.spin2 = 0
    · rw [if_pos h2, if_pos h1, if_pos h1, if_pos h2]
    · rw [if_neg h2, if_pos h1, if_neg h2, h1]
  · by_cases h2 : a.spin2 = 0
    · rw [if_pos h2, if_neg h1, if_neg h1, h2]
    · rw [if_neg h2, if_neg h1]
      have : a.spin1 = a.spin2 := by tauto
      rw [this]

theorem swap_xi (W : Wigner) (a : CouplingArgs) (ht : a.teb = false) (lmax : ℕ) (pcl : ℕ → ℝ)
    (h : a.pureAny = false ∨ a.spin1 = a.spin2 ∨ a.spin1 = 0 ∨ a.spin2 = 0) :
    (a.swap.xi W lmax pcl).1 = (a.xi W lmax pcl).1 ∧
    (∀ ip, (a.spin1 = 0 ∨ a.spin2 = 0) → (a.swap.xi W lmax pcl).2.1 ip = (a.xi W lmax pcl).2.1 ip) ∧
    (∀ ip, (a.pureAny = false → ip = 0) → (a.swap.xi W lmax pcl).2.2.1 ip = (a.xi W lmax pcl).2.2.1 ip) ∧
    (∀ ip, (a.pureAny = false → ip = 0) → (a.swap.xi W lmax pcl).2.2.2 ip = (a.xi W lmax pcl).2.2.2 ip) := by
  by_cases hs : a.spin1 = a.spin2 ∨ a.spin1 = 0 ∨ a.spin2 = 0
  · unfold CouplingArgs.xi
    rw [swap_calc a lmax hs, swap_pureAny]
    exact ⟨rfl, fun _ _ => rfl, fun _ _ => rfl, fun _ _ => rfl⟩
  · push Not at hs
    obtain ⟨hne, h1, h2⟩ := hs
    have hp : a.pureAny = false := by tauto
    have hM : (a.swap.calc lmax).lmaxMask = (a.calc lmax).lmaxMask := by
      rw [calc_lmaxMask, calc_lmaxMask]; rfl
    have hl : (a.swap.calc lmax).lstart = (a.calc lmax).lstart := by
      rw [lstart_plain (show a.swap.teb = false from ht), lstart_plain ht]; exact max_comm _ _
    have hc : a.calc lmax = ⟨lmax, a.lmaxMask, a.spin1, a.spin2, a.pureAny, a.teb⟩ := by
      unfold CouplingArgs.calc Calc.make; rw [if_neg h1]
    have hc' : a.swap.calc lmax = ⟨lmax, a.lmaxMask, a.spin2, a.spin1, a.pureAny, a.teb⟩ := by
      unfold CouplingArgs.calc Calc.make; rw [swap_pureAny]; unfold CouplingArgs.swap; simp only; rw [if_neg h2]
    have hw : ∀ l1 l2 l3, wfacSs W (a.swap.calc lmax) pcl 0 l1 l2 l3 = wfacSs W (a.calc lmax) pcl 0 l1 l2 l3 := by
      intro l1 l2 l3
      have k1 : (Calc.mk lmax a.lmaxMask a.spin1 a.spin2 a.pureAny a.teb).hasSs2 = true := by
        unfold Calc.hasSs2; simp [h1, h2, ht, hne]
      have k2 : (Calc.mk lmax a.lmaxMask a.spin2 a.spin1 a.pureAny a.teb).hasSs2 = true := by
        unfold Calc.hasSs2; simp [h1, h2, ht, Ne.symm hne]
      unfold wfacSs
      rw [if_pos rfl, if_pos rfl, hc, hc']
      unfold wss2
      rw [k1, k2, if_pos rfl, if_pos rfl]
      unfold wss1
      ring
    have e00 : entry00 (lfac a.swap.junk lmax a.swap.lmaxMask) (a.swap.calc lmax) pcl =
        entry00 (lfac a.junk lmax a.lmaxMask) (a.calc lmax) pcl := by
      funext l2 l3
      unfold entry00
      rw [hM]; rfl
    have epp : entryPP W (a.swap.calc lmax) pcl 0 = entryPP W (a.calc lmax) pcl 0 := by
      funext l2 l3
      unfold entryPP
      rw [hM]
      congr 1
      funext l1
      rw [hw]
    have emm : entryMM W (a.swap.calc lmax) pcl 0 = entryMM W (a.calc lmax) pcl 0 := by
      funext l2 l3
      unfold entryMM
      rw [hM]
      congr 1
      funext l1
      rw [hw]
    refine ⟨?_, fun ip hi => by tauto, fun ip hi => ?_, fun ip hi => ?_⟩
    · unfold CouplingArgs.xi
      simp only
      rw [e00, hl, swap_pureAny]; rfl
    · rw [hi hp]
      unfold CouplingArgs.xi
      simp only
      rw [epp, hl, swap_pureAny]; rfl
    · rw [hi hp]
      unfold CouplingArgs.xi
      simp only
      rw [emm, hl, swap_pureAny]; rfl

/-- **C52** (isotropic masks). Exchanging the two fields permutes the components of the matrix, if no field is
purified, or the spins are equal, or one of them is zero; with or without Toeplitz approximation. Missing for
the full claim: purified spin-2 field with a field of another non-zero spin, where it fails, see
`C52_purified_wrong`. -/
theorem C52_exchange_partial {W : Wigner} {a : CouplingArgs} (hteb : a.teb = false)
    (hs : a.pureAny = false ∨ a.spin1 = a.spin2 ∨ a.spin1 = 0 ∨ a.spin2 = 0) {lmaxFields : ℕ}
    {pcl b1 b2 b3 b4 : List ℝ} {B : Bins ℝ} {n1 n2 : ℤ} {v1 v2 : ℝ} {w w' : Wsp ℝ}
    (h : compCouplingMatrix W a lmaxFields pcl b1 b2 B n1 v1 = .ok w)
    (h' : compCouplingMatrix W a.swap lmaxFields pcl b3 b4 B n2 v2 = .ok w') :
    w'.ncls = w.ncls ∧ ∃ U U', w.unbinned = some U ∧ w'.unbinned = some U' ∧
      ∀ l2 l3 x y, l2 ≤ B.ellMax → l3 ≤ B.ellMax → x < w.ncls → y < w.ncls →
        U' (w.ncls * l2 + swapComp w.ncls x) (w.ncls * l3 + swapComp w.ncls y) =
          U (w.ncls * l2 + x) (w.ncls * l3 + y) := by
  obtain ⟨-, hn, -, U, hU, hv⟩ := comp_ok h
  obtain ⟨-, hn', -, U', hU', hv'⟩ := comp_ok h'
  have hnn : a.swap.ncls = a.ncls := by
    unfold CouplingArgs.ncls
    rw [show a.swap.teb = a.teb from rfl, hteb]
    simp only [Bool.false_eq_true, if_false]
    exact Nat.mul_comm _ _
  refine ⟨by rw [hn, hn', hnn], U, U', hU, hU', ?_⟩
  rw [hn]
  intro l2 l3 x y h2 h3 hx hy
  have hsx : ∀ x, x < a.ncls → swapComp a.ncls x < a.ncls := by
    intro x hx
    unfold swapComp
    split
    · rename_i h4
      rw [h4] at hx ⊢
      split <;> [omega; split <;> omega]
    · exact hx
  have q := hv' l2 l3 (swapComp a.ncls x) (swapComp a.ncls y) h2 h3 (by rw [hnn]; exact hsx x hx)
    (by rw [hnn]; exact hsx y hy)
  rw [hnn] at q
  rw [q, hv l2 l3 x y h2 h3 hx hy]
  have hM : a.swap.lmaxMask = a.lmaxMask := rfl
  obtain ⟨x1, x2, x3, x4⟩ := swap_xi W a hteb B.ellMax (usedPcl a.lmaxMask pcl) hs
  have hsg : (if Odd (a.swap.spin1 + a.swap.spin2) then (-1 : ℝ) else 1) =
      if Odd (a.spin1 + a.spin2) then (-1 : ℝ) else 1 := by
    rw [show a.swap.spin1 + a.swap.spin2 = a.spin1 + a.spin2 from Nat.add_comm _ _]
  have hip : a.pureAny = false → flag a.pe1 = 0 ∧ flag a.pb1 = 0 ∧ flag a.pe2 = 0 ∧ flag a.pb2 = 0 := by
    unfold CouplingArgs.pureAny flag
    cases a.pe1 <;> cases a.pb1 <;> cases a.pe2 <;> cases a.pb2 <;> simp
  rw [hM]
  rcases ncls_cases a with hc | hc | hc | hc
  · rw [hc] at hx hy ⊢
    have hx0 : x = 0 := by omega
    have hy0 : y = 0 := by omega
    subst hx0; subst hy0
    have e : swapComp 1 0 = 0 := rfl
    rw [e, cells_one _ _ _ _ _ _ (hnn.trans hc), cells_one _ _ _ _ _ _ hc, x1, hsg]
  · rw [hc] at hx hy ⊢
    have e : ∀ x, swapComp 2 x = x := fun x => rfl
    have hz : a.spin1 = 0 ∨ a.spin2 = 0 := by
      by_contra hcon
      push Not at hcon
      unfold CouplingArgs.ncls at hc
      simp [hteb, hcon.1, hcon.2] at hc
    rw [e, e, cells_two _ _ _ _ _ _ _ _ (hnn.trans hc) hx hy, cells_two _ _ _ _ _ _ _ _ hc hx hy, hsg, x2 _ hz,
      show flag a.swap.pe1 + flag a.swap.pe2 = flag a.pe1 + flag a.pe2 from Nat.add_comm _ _,
      show flag a.swap.pb1 + flag a.swap.pb2 = flag a.pb1 + flag a.pb2 from Nat.add_comm _ _]
  · have hx' := hsx x hx
    have hy' := hsx y hy
    rw [hc] at hx hy hx' hy' ⊢
    rw [cells_four _ _ _ _ _ _ _ _ (hnn.trans hc) hx' hy', cells_four _ _ _ _ _ _ _ _ hc hx hy, hsg]
    simp only
    have f1 : flag a.swap.pe1 = flag a.pe2 := rfl
    have f2 : flag a.swap.pb1 = flag a.pb2 := rfl
    have f3 : flag a.swap.pe2 = flag a.pe1 := rfl
    have f4 : flag a.swap.pb2 = flag a.pb1 := rfl
    rw [f1, f2, f3, f4]
    rw [x3, x4]
    · congr 1
      interval_cases x <;> interval_cases y <;> simp [swapComp, Nat.add_comm]
    · intro hp
      obtain ⟨g1, g2, g3, g4⟩ := hip hp
      rw [g1, g2, g3, g4]; simp
    · intro hp
      obtain ⟨g1, g2, g3, g4⟩ := hip hp
      rw [g1, g2, g3, g4]; simp
  · exfalso
    unfold CouplingArgs.ncls at hc
    rw [hteb] at hc
    by_cases e1 : a.spin1 ≠ 0 <;> by_cases e2 : a.spin2 ≠ 0 <;> simp [e1, e2] at hc

/-- Purified spin-2 field and spin-1 field. -/
def mixedArgs : CouplingArgs := ⟨2, 1, 3, true, false, false, false, false, -1, -1, -1, fun _ => 7⟩

theorem mixed_ok (W : Wigner) (a : CouplingArgs) (ha : a = mixedArgs ∨ a = mixedArgs.swap) :
    ∃ w, compCouplingMatrix W a 3 [0, 0, 1, 0] [1, 1, 1, 1] [1, 1, 1, 1] pairBins 0 1 = .ok w := by
  unfold compCouplingMatrix computeCouplingMatrix
  have e : pairBins.ellMax = 3 := rfl
  rw [if_neg, if_neg, if_neg, if_neg, if_neg]
  · exact ⟨_, rfl⟩
  · rcases ha with h | h <;> subst h <;> decide
  · rw [e]
    rcases ha with h | h <;> subst h <;> decide
  · rw [e]; omega
  · rcases ha with h | h <;> subst h <;> decide
  · rcases ha with h | h <;> subst h <;> simp [mixedArgs, CouplingArgs.swap]

/-- **C52** fails for a purified spin-2 field and a spin-1 field: the terms for purification are added to the symbol
of the first field, whichever is purified. The two conditions hold for the Wigner symbols. -/
theorem C52_purified_wrong (W : Wigner) (h1 : W.w 2 2 2 1 (-1) ≠ W.w 2 2 2 2 (-2))
    (h2 : Real.sqrt 6 * W.w 2 2 2 1 (-2) + W.w 2 2 2 0 (-2) ≠ 0) :
    ∃ w w' U U', compCouplingMatrix W mixedArgs 3 [0, 0, 1, 0] [1, 1, 1, 1] [1, 1, 1, 1] pairBins 0 1 = .ok w ∧
      compCouplingMatrix W mixedArgs.swap 3 [0, 0, 1, 0] [1, 1, 1, 1] [1, 1, 1, 1] pairBins 0 1 = .ok w' ∧
      w.unbinned = some U ∧ w'.unbinned = some U' ∧ U' (4 * 2) (4 * 2) ≠ U (4 * 2) (4 * 2) := by
  obtain ⟨w, h⟩ := mixed_ok W mixedArgs (Or.inl rfl)
  obtain ⟨w', h'⟩ := mixed_ok W mixedArgs.swap (Or.inr rfl)
  obtain ⟨-, -, -, U, hU, hv⟩ := comp_ok h
  obtain ⟨-, -, -, U', hU', hv'⟩ := comp_ok h'
  refine ⟨w, w', U, U', h, h', hU, hU', ?_⟩
  have e3 : pairBins.ellMax = 3 := rfl
  have c : mixedArgs.ncls = 4 := by decide
  have c' : mixedArgs.swap.ncls = 4 := by decide
  have q := hv 2 2 0 0 (by rw [e3]; omega) (by rw [e3]; omega) (by omega) (by omega)
  have q' := hv' 2 2 0 0 (by rw [e3]; omega) (by rw [e3]; omega) (by omega) (by omega)
  rw [c, cells_four _ _ _ _ _ _ _ _ c (by omega) (by omega)] at q
  rw [c', cells_four _ _ _ _ _ _ _ _ c' (by omega) (by omega)] at q'
  have hsg : (if Odd (mixedArgs.spin1 + mixedArgs.spin2) then (-1 : ℝ) else 1) = -1 := if_pos (by decide)
  have hsg' : (if Odd (mixedArgs.swap.spin1 + mixedArgs.swap.spin2) then (-1 : ℝ) else 1) = -1 := if_pos (by decide)
  simp only at q q'
  rw [hsg] at q
  rw [hsg'] at q'
  have k : flag mixedArgs.pe1 + flag mixedArgs.pe2 = 1 := by decide
  have k' : flag mixedArgs.swap.pe1 + flag mixedArgs.swap.pe2 = 1 := by decide
  simp only [Nat.ofNat_pos, if_true, k, k', Nat.zero_mod, add_zero] at q q'
  have hu : ∀ l, l ≤ 3 → usedPcl 3 [0, 0, 1, 0] l = if l = 2 then 5 / (4 * Real.pi) else 0 := by
    intro l hl
    rw [usedPcl_apply _ hl]
    interval_cases l <;> norm_num
  have hx : ∀ c : Calc, c.lmaxMask = 3 → entryPP W c (usedPcl 3 [0, 0, 1, 0]) 1 2 2 =
      wPure W c 2 2 2 * (wss2 W c 2 2 2 * (5 / (4 * Real.pi))) := by
    intro c hc
    unfold entryPP sumMask
    rw [hc, Finset.sum_eq_single 2]
    · beta_reduce
      rw [if_pos (show 2 ≤ 3 by omega), if_neg (show ¬ Odd (2 + 2 + 2) by decide)]
      unfold wfacSs
      rw [if_neg (by omega), if_pos rfl, hu 2 (by omega), if_pos rfl]
    · intro l1 _ hl
      by_cases hl3 : l1 ≤ 3
      · rw [if_pos hl3]
        unfold wfacSs
        beta_reduce
        rw [if_neg (show ¬ (1 = 0) by omega), if_pos (show 1 = 1 from rfl), hu l1 hl3, if_neg hl]
        simp
      · rw [if_neg hl3]
    · intro hn
      exfalso; apply hn; decide
  have t : ∀ a : CouplingArgs, a = mixedArgs ∨ a = mixedArgs.swap →
      (a.xi W pairBins.ellMax (usedPcl a.lmaxMask [0, 0, 1, 0])).2.2.1 1 2 2 =
        wPure W (a.calc 3) 2 2 2 * (wss2 W (a.calc 3) 2 2 2 * (5 / (4 * Real.pi))) := by
    intro a ha
    have hm : a.lmaxMask = 3 := by rcases ha with h | h <;> subst h <;> rfl
    have hp : a.pureAny = true := by rcases ha with h | h <;> subst h <;> rfl
    have hT : a.lT ≤ 0 := by rcases ha with h | h <;> subst h <;> decide
    have hst : (a.calc 3).lstart = 2 := by rcases ha with h | h <;> subst h <;> decide
    unfold CouplingArgs.xi
    simp only
    rw [e3, coefTable_plain _ _ _ _ _ _ _ hT (by omega) (by omega), hst, hm, hp]
    rw [if_pos ⟨le_refl _, le_refl _⟩, if_pos rfl, hx _ (by rw [calc_lmaxMask, hm])]
  rw [t _ (Or.inl rfl)] at q
  rw [t _ (Or.inr rfl)] at q'
  have a1 : wigAt W 2 2 2 1 (-2) = W.w 2 2 2 1 (-2) := by unfold wigAt drc3jj drcMin ldist; norm_num
  have a0 : wigAt W 2 2 2 0 (-2) = W.w 2 2 2 0 (-2) := by unfold wigAt drc3jj drcMin ldist; norm_num
  have b1 : wigAt W 2 2 2 (1 : ℕ) (-(1 : ℕ)) = W.w 2 2 2 1 (-1) := by unfold wigAt drc3jj drcMin ldist; norm_num
  have b2 : wigAt W 2 2 2 (2 : ℕ) (-(2 : ℕ)) = W.w 2 2 2 2 (-2) := by unfold wigAt drc3jj drcMin ldist; norm_num
  have f12 : fac12 2 2 = Real.sqrt 6 := by
    unfold fac12
    rw [if_pos (by omega)]
    have : (((2 : ℕ) : ℝ) + 1) * ((2 : ℕ) : ℝ) / ((((2 : ℕ) : ℝ) + 2) * (((2 : ℕ) : ℝ) - 1)) = 6 / 2 ^ 2 := by norm_num
    rw [this, Real.sqrt_div (by norm_num), Real.sqrt_sq (by norm_num)]
    ring
  have f02 : fac02 2 2 = 1 := by
    unfold fac02
    rw [if_pos (by omega), if_pos (by omega)]
    rw [div_self (by norm_num), Real.sqrt_one]
  have w1 : wPure W (mixedArgs.calc 3) 2 2 2 = W.w 2 2 2 2 (-2) + (Real.sqrt 6 * W.w 2 2 2 1 (-2) + W.w 2 2 2 0 (-2)) := by
    unfold wPure wss1
    rw [f12, f02, a1, a0, show (mixedArgs.calc 3).s1 = 2 by decide, b2]; ring
  have w1' : wPure W (mixedArgs.swap.calc 3) 2 2 2 =
      W.w 2 2 2 1 (-1) + (Real.sqrt 6 * W.w 2 2 2 1 (-2) + W.w 2 2 2 0 (-2)) := by
    unfold wPure wss1
    rw [f12, f02, a1, a0, show (mixedArgs.swap.calc 3).s1 = 1 by decide, b1]; ring
  have w2 : wss2 W (mixedArgs.calc 3) 2 2 2 = W.w 2 2 2 1 (-1) := by
    unfold wss2
    rw [if_pos (by decide), show (mixedArgs.calc 3).s2 = 1 by decide, b1]
  have w2' : wss2 W (mixedArgs.swap.calc 3) 2 2 2 = W.w 2 2 2 2 (-2) := by
    unfold wss2
    rw [if_pos (by decide), show (mixedArgs.swap.calc 3).s2 = 2 by decide, b2]
  rw [w1, w2] at q
  rw [w1', w2'] at q'
  change U' (4 * 2 + 0) (4 * 2 + 0) ≠ U (4 * 2 + 0) (4 * 2 + 0)
  intro heq
  rw [q, q'] at heq
  have hpi := Real.pi_ne_zero
  have h5 : (5 / (4 * Real.pi)) ≠ 0 := by positivity
  have hmul : (Real.sqrt 6 * W.w 2 2 2 1 (-2) + W.w 2 2 2 0 (-2)) * (W.w 2 2 2 2 (-2) - W.w 2 2 2 1 (-1)) = 0 := by
    have h5' : ((2 * ((2 : ℕ) : ℝ) + 1) * -1 * (5 / (4 * Real.pi))) ≠ 0 := by
      apply mul_ne_zero _ h5; norm_num
    apply mul_left_cancel₀ h5'
    rw [mul_zero]
    linarith
  rcases mul_eq_zero.1 hmul with h | h
  · exact h2 h
  · exact h1 (by linarith)

/-- The conditions of `C52_purified_wrong` can be met. -/
example : ∃ W : Wigner, W.w 2 2 2 1 (-1) ≠ W.w 2 2 2 2 (-2) ∧
    Real.sqrt 6 * W.w 2 2 2 1 (-2) + W.w 2 2 2 0 (-2) ≠ 0 := by
  refine ⟨⟨fun _ _ _ m2 _ => if m2 = 2 then 2 else 1⟩, by norm_num, ?_⟩
  have : 0 < Real.sqrt 6 := by positivity
  norm_num
  positivity

end NaMaster
