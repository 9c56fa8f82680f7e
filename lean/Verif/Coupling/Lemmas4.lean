import Verif.Coupling.Props

/-!
# Lemmas: vanishing coefficients, joint T-E-B matrix, linearity
-/

namespace NaMaster

open Finset CouplingSpec

theorem cells_seven (W : Wigner) (a : CouplingArgs) (lmax : ℕ) (pcl : ℕ → ℝ) (l2 l3 x y : ℕ) (h : a.ncls = 7)
    (hx : x < 7) (hy : y < 7) :
    runWrites (a.cells W lmax pcl l2 l3) (fun _ => 0) (x, y) =
      (2 * l3 + 1) * (if Odd (a.spin1 + a.spin2) then -1 else 1) *
        (if x = 0 ∧ y = 0 then (a.xi W lmax pcl).1 l2 l3
         else if x < 3 ∨ y < 3 then
           if x = y then (a.xi W lmax pcl).2.1 (if x = 1 then flag a.pe2 else flag a.pb2) l2 l3 else 0
         else
           let ip := (if x < 5 then flag a.pe2 else flag a.pb2) + (if x % 2 = 1 then flag a.pe2 else flag a.pb2)
           if x = y then (a.xi W lmax pcl).2.2.1 ip l2 l3
           else if (x, y) = (3, 6) ∨ (x, y) = (6, 3) then (a.xi W lmax pcl).2.2.2 ip l2 l3
           else if (x, y) = (4, 5) ∨ (x, y) = (5, 4) then -(a.xi W lmax pcl).2.2.2 ip l2 l3
           else 0) := by
  unfold CouplingArgs.cells
  rw [if_neg (by omega), if_neg (by omega), if_neg (by omega)]
  interval_cases x <;> interval_cases y <;> simp [runWrites]

theorem ncls_cases (a : CouplingArgs) : a.ncls = 1 ∨ a.ncls = 2 ∨ a.ncls = 4 ∨ a.ncls = 7 := by
  unfold CouplingArgs.ncls
  by_cases ht : a.teb
  · rw [if_pos ht]; simp
  · rw [if_neg ht]
    by_cases e1 : a.spin1 ≠ 0 <;> by_cases e2 : a.spin2 ≠ 0 <;> simp [e1, e2]

/-! ## Below the spin -/

theorem wigAt_below (W : Wigner) (l1 l2 l3 : ℕ) (m2 m3 : ℤ) (h : l2 < m2.natAbs ∨ l3 < m3.natAbs) :
    wigAt W l1 l2 l3 m2 m3 = 0 := by
  unfold wigAt drc3jj
  rw [if_pos h, ite_self]

/-- If the initial value and every assigned value have a property, so has the result. -/
theorem runWrites_all {ι K : Type*} [DecidableEq ι] (ws : List (ι × K)) (init : ι → K) (i : ι) (P : K → Prop)
    (h0 : P (init i)) (h : ∀ w ∈ ws, w.1 = i → P w.2) : P (runWrites ws init i) := by
  unfold runWrites
  induction ws generalizing init with
  | nil => exact h0
  | cons a t ih =>
    rw [List.foldl_cons]
    apply ih
    · by_cases hi : i = a.1
      · subst hi
        simpa using h a List.mem_cons_self rfl
      · simpa [Function.update_of_ne hi] using h0
    · exact fun w hw => h w (List.mem_cons_of_mem _ hw)

/-- Pairs of multipoles and values assigned by the main loop. -/
theorem mem_mainWrites {lstart lmax : ℕ} {pureAny : Bool} {lend : ℕ → ℕ} {entry : ℕ → ℕ → ℝ}
    {w : (ℕ × ℕ) × ℝ} (hw : w ∈ mainWrites lstart lmax pureAny lend entry) :
    ∃ a b, lstart ≤ a ∧ a ≤ lmax ∧ lstart ≤ b ∧ b ≤ lend a ∧ (pureAny = false → a ≤ b) ∧ w.2 = entry a b ∧
      (w.1 = (a, b) ∨ (pureAny = false ∧ w.1 = (b, a))) := by
  unfold mainWrites at hw
  rw [List.mem_flatMap] at hw
  obtain ⟨a, ha, hw⟩ := hw
  rw [List.mem_flatMap] at hw
  obtain ⟨b, hb, hw⟩ := hw
  rw [mem_rangeIncl] at ha hb
  have hb' : lstart ≤ b ∧ (pureAny = false → a ≤ b) := by
    have := hb.1
    cases pureAny
    · simp at this; exact ⟨by omega, fun _ => this⟩
    · simp at this; exact ⟨this, by simp⟩
  refine ⟨a, b, ha.1, ha.2, hb'.1, hb.2, hb'.2, ?_⟩
  rw [List.mem_cons] at hw
  rcases hw with e | hw
  · subst e; exact ⟨rfl, Or.inl rfl⟩
  · by_cases hc : ¬ pureAny = true ∧ a ≠ b
    · rw [if_pos hc, List.mem_singleton] at hw
      subst hw; exact ⟨rfl, Or.inr ⟨by simpa using hc.1, rfl⟩⟩
    · rw [if_neg hc] at hw
      exact absurd hw List.not_mem_nil

/-- Pairs of multipoles and values assigned by the Toeplitz approximation. -/
theorem mem_tplzWrites {lstart lmax lt : ℕ} {entry : ℕ → ℕ → ℝ} {w : (ℕ × ℕ) × ℝ}
    (hw : w ∈ tplzWrites lstart lmax lt entry) :
    ∃ a b, a ≤ lmax ∧ b ≤ a ∧
      w.2 = tplzCol lstart lmax lt entry (toeplitzWrap ((a : ℤ) + lt - b) ((lmax : ℤ) + 1)).toNat *
        Real.sqrt (tplzDiag lstart lmax entry a * tplzDiag lstart lmax entry b) ∧
      (w.1 = (a, b) ∨ w.1 = (b, a)) := by
  unfold tplzWrites at hw
  rw [List.mem_flatMap] at hw
  obtain ⟨a, ha, hw⟩ := hw
  rw [List.mem_flatMap] at hw
  obtain ⟨b, hb, hw⟩ := hw
  rw [List.mem_range] at ha hb
  refine ⟨a, b, by omega, by omega, ?_⟩
  rw [List.mem_cons] at hw
  rcases hw with e | hw
  · subst e; exact ⟨rfl, Or.inl rfl⟩
  · by_cases hc : b ≠ a
    · rw [if_pos hc, List.mem_singleton] at hw
      subst hw; exact ⟨rfl, Or.inr rfl⟩
    · rw [if_neg hc] at hw
      exact absurd hw List.not_mem_nil

/-- The value assigned by one step of the filling loop. -/
noncomputable def fillValue (lE : ℕ) (mat : ℕ × ℕ → ℝ) (p : ℕ × ℕ) : ℝ :=
  if mat (lE + p.1 - p.2, lE + p.1 - p.2) = 0 ∨ mat (lE, lE) = 0 then 0
  else mat (lE + p.1 - p.2, lE) * Real.sqrt |mat (p.1, p.1) * mat (p.2, p.2) /
    (mat (lE + p.1 - p.2, lE + p.1 - p.2) * mat (lE, lE))|

theorem fillStep_apply (lE : ℕ) (mat : ℕ × ℕ → ℝ) (p : ℕ × ℕ) (i j : ℕ) :
    fillStep lE mat p (i, j) =
      if (i = p.1 ∧ j = p.2) ∨ (i = p.2 ∧ j = p.1) then fillValue lE mat p else mat (i, j) := by
  have e : fillStep lE mat p = Function.update (Function.update mat (p.1, p.2) (fillValue lE mat p)) (p.2, p.1)
    (fillValue lE mat p) := rfl
  rw [e]
  by_cases h2 : (i, j) = (p.2, p.1)
  · rw [h2, Function.update_self]
    rw [Prod.mk.injEq] at h2
    rw [if_pos (Or.inr h2)]
  · rw [Function.update_of_ne h2]
    by_cases h1 : (i, j) = (p.1, p.2)
    · rw [h1, Function.update_self]
      rw [Prod.mk.injEq] at h1
      rw [if_pos (Or.inl h1)]
    · rw [Function.update_of_ne h1, if_neg]
      rw [Prod.mk.injEq] at h1 h2
      tauto

/-- The table vanishes in rows and columns of multipoles for which all sums vanish or which are before the
start of the loops. -/
theorem coefTable_zero (lstart lmax : ℕ) (pureAny : Bool) (lT lE dl : ℤ) (entry : ℕ → ℕ → ℝ) (Z : ℕ → Prop)
    (hZ : ∀ l, Z l → l < lstart ∨ ∀ l', entry l l' = 0 ∧ entry l' l = 0) (l2 l3 : ℕ) (h : Z l2 ∨ Z l3) :
    coefTable lstart lmax pureAny lT lE dl entry (l2, l3) = 0 := by
  have hmain : ∀ (lend : ℕ → ℕ) (init : ℕ × ℕ → ℝ), (∀ i j, Z i ∨ Z j → init (i, j) = 0) →
      ∀ i j, Z i ∨ Z j → runWrites (mainWrites lstart lmax pureAny lend entry) init (i, j) = 0 := by
    intro lend init hinit i j hij
    apply runWrites_all _ _ _ (fun v => v = 0) (hinit i j hij)
    intro w hw hi
    obtain ⟨a, b, ha, -, hb, -, -, hv, hp⟩ := mem_mainWrites hw
    have key : ∀ l, Z l → (l = a ∨ l = b) → entry a b = 0 := by
      intro l hl hab
      rcases hZ l hl with h1 | h1
      · omega
      · rcases hab with e | e
        · subst e; exact (h1 b).1
        · subst e; exact (h1 a).2
    change w.2 = 0
    rw [hv]
    rw [hi] at hp
    simp only [Prod.mk.injEq] at hp
    rcases hp with hp | ⟨-, hp⟩
    · rcases hij with h | h
      · exact key i h (Or.inl hp.1)
      · exact key j h (Or.inr hp.2)
    · rcases hij with h | h
      · exact key i h (Or.inr hp.1)
      · exact key j h (Or.inl hp.2)
  unfold coefTable
  simp only
  by_cases hT : lT > 0
  · rw [if_pos hT]
    have hdiag : ∀ l, Z l → tplzDiag lstart lmax entry l = 0 := by
      intro l hl
      unfold tplzDiag
      rcases hZ l hl with h1 | h1
      · rw [if_neg (by omega)]
      · rw [(h1 l).1]; simp
    have htp : ∀ i j, Z i ∨ Z j → runWrites (tplzWrites lstart lmax lT.toNat entry) (fun _ => 0) (i, j) = 0 := by
      intro i j hij
      refine runWrites_all (ι := ℕ × ℕ) (K := ℝ) (tplzWrites lstart lmax lT.toNat entry) (fun _ => 0) (i, j)
        (fun v => v = 0) rfl (fun w hw hi => ?_)
      obtain ⟨a, b, -, -, hv, hp⟩ := mem_tplzWrites hw
      rw [hv]
      rw [hi] at hp
      simp only [Prod.mk.injEq] at hp
      have : tplzDiag lstart lmax entry a * tplzDiag lstart lmax entry b = 0 := by
        rcases hp with hp | hp
        · rcases hij with h | h
          · rw [← hp.1, hdiag i h, zero_mul]
          · rw [← hp.2, hdiag j h, mul_zero]
        · rcases hij with h | h
          · rw [← hp.1, hdiag i h, mul_zero]
          · rw [← hp.2, hdiag j h, zero_mul]
      rw [this, Real.sqrt_zero, mul_zero]
    have hfill : ∀ (ps : List (ℕ × ℕ)) (mat : ℕ × ℕ → ℝ), (∀ i j, Z i ∨ Z j → mat (i, j) = 0) →
        ∀ i j, Z i ∨ Z j → ps.foldl (fillStep lE.toNat) mat (i, j) = 0 := by
      intro ps
      induction ps with
      | nil => intro mat hm; exact hm
      | cons p t ih =>
        intro mat hm
        rw [List.foldl_cons]
        apply ih
        intro i j hij
        have hval : ∀ x y, Z x ∨ Z y → (x = p.1 ∧ y = p.2) ∨ (x = p.2 ∧ y = p.1) →
            mat (p.1, p.1) * mat (p.2, p.2) = 0 := by
          intro x y hxy hp
          have : Z p.1 ∨ Z p.2 := by
            rcases hp with ⟨e1, e2⟩ | ⟨e1, e2⟩
            · rwa [e1, e2] at hxy
            · rw [e1, e2] at hxy; exact hxy.symm
          rcases this with h | h
          · rw [hm p.1 p.1 (Or.inl h), zero_mul]
          · rw [hm p.2 p.2 (Or.inl h), mul_zero]
        have hm0 : ∀ x y, Z x ∨ Z y → (x = p.1 ∧ y = p.2) ∨ (x = p.2 ∧ y = p.1) →
            fillValue lE.toNat mat p = 0 := by
          intro x y hxy hp
          unfold fillValue
          rw [hval x y hxy hp]
          simp
        rw [fillStep_apply]
        by_cases hp : (i = p.1 ∧ j = p.2) ∨ (i = p.2 ∧ j = p.1)
        · rw [if_pos hp, hm0 i j hij hp]
        · rw [if_neg hp, hm i j hij]
    exact hfill _ _ (hmain _ _ htp) _ _ h
  · rw [if_neg hT]
    exact hmain _ _ (fun _ _ _ => rfl) _ _ h

/-! ## Sums below the spin -/

section below
variable (W : Wigner) (lf : ℕ → ℝ) (c : Calc) (pcl : ℕ → ℝ) {l2 l3 : ℕ}

theorem wss1_below (h : l2 < c.s1 ∨ l3 < c.s1) (l1 : ℕ) : wss1 W c l1 l2 l3 = 0 := by
  unfold wss1
  apply wigAt_below
  simpa using h

theorem wPure_below (hs : c.s1 = 2) (h : l2 < 2 ∨ l3 < 2) (l1 : ℕ) : wPure W c l1 l2 l3 = 0 := by
  unfold wPure
  rw [wss1_below W c (by rw [hs]; exact h)]
  by_cases h3 : l3 < 2
  · rw [wigAt_below W _ _ _ _ _ (Or.inr (by simpa using h3)), wigAt_below W _ _ _ _ _ (Or.inr (by simpa using h3))]
    ring
  · have h2 : ¬ 1 < l2 := by omega
    unfold fac12 fac02
    rw [if_neg h2, if_neg h2]
    ring

theorem sumMask_zero (M : ℕ) (f : ℕ → ℝ) (h : ∀ l1, f l1 = 0) : sumMask M l2 l3 f = 0 := by
  unfold sumMask
  apply Finset.sum_eq_zero
  intro l1 _
  rw [h l1, ite_self]

theorem entry0s_below (ip : ℕ) (hp : ip = 0 ∨ c.s1 = 2) (h : l2 < c.s1 ∨ l3 < c.s1) :
    entry0s W lf c pcl ip l2 l3 = 0 := by
  unfold entry0s
  apply sumMask_zero
  intro l1
  by_cases h0 : ip = 0
  · rw [if_pos h0, wss1_below W c h, zero_mul]
  · have h2 := hp.resolve_left h0
    rw [if_neg h0, wPure_below W c h2 (by rw [← h2]; exact h), zero_mul]

theorem wfacSs_below (ip : ℕ) (hp : ip = 0 ∨ c.s1 = 2) (h : l2 < c.s1 ∨ l3 < c.s1) (l1 : ℕ) :
    wfacSs W c pcl ip l1 l2 l3 = 0 := by
  unfold wfacSs
  by_cases h0 : ip = 0
  · rw [if_pos h0, wss1_below W c h, zero_mul]
  · have h2 := hp.resolve_left h0
    rw [if_neg h0, wPure_below W c h2 (by rw [← h2]; exact h)]
    simp

theorem entryPP_below (ip : ℕ) (hp : ip = 0 ∨ c.s1 = 2) (h : l2 < c.s1 ∨ l3 < c.s1) :
    entryPP W c pcl ip l2 l3 = 0 := by
  unfold entryPP
  apply sumMask_zero
  intro l1
  rw [wfacSs_below W c pcl ip hp h, ite_self]

theorem entryMM_below (ip : ℕ) (hp : ip = 0 ∨ c.s1 = 2) (h : l2 < c.s1 ∨ l3 < c.s1) :
    entryMM W c pcl ip l2 l3 = 0 := by
  unfold entryMM
  apply sumMask_zero
  intro l1
  rw [wfacSs_below W c pcl ip hp h, ite_self]

end below

end NaMaster
