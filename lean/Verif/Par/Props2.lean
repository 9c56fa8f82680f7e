import Verif.Par.Props

/-!
# C45 for curved-sky coupling matrices
-/

namespace NaMaster

open Finset

theorem sum_rangeIncl (a b : ℕ) (f : ℕ → ℝ) : ((rangeIncl a b).map f).sum = ∑ x ∈ Icc a b, f x := by
  rw [← List.sum_toFinset f (nodup_rangeIncl a b)]
  refine sum_congr (Finset.ext fun x => ?_) fun _ _ => rfl
  rw [List.mem_toFinset, mem_rangeIncl, mem_Icc]

theorem run_incs (k : ℕ × ℕ) (l : List ℕ) (p : ℕ → Prop) [DecidablePred p] (v : ℕ → ℝ) (m : ℕ × ℕ → ℝ) :
    runActs (l.flatMap fun i => if p i then [incAt k (v i)] else []) m =
      Function.update m k (m k + (l.map fun i => if p i then v i else 0).sum) := by
  induction l generalizing m with
  | nil => simp [runActs_nil]
  | cons i l ih =>
    rw [List.flatMap_cons, runActs_append, ih, List.map_cons, List.sum_cons]
    by_cases h : p i
    · rw [if_pos h, if_pos h]
      simp [runActs, incAt, add_assoc]
    · rw [if_neg h, if_neg h, runActs_nil, zero_add]

/-- The assignments for a pair of multipoles in the sequential model. -/
def pairWrites (pureAny : Bool) (entry : ℕ → ℕ → ℝ) (p : ℕ × ℕ) : List ((ℕ × ℕ) × ℝ) :=
  ((p.1, p.2), entry p.1 p.2) :: (if ¬ pureAny ∧ p.1 ≠ p.2 then [((p.2, p.1), entry p.1 p.2)] else [])

theorem run_pair (lmaxMask : ℕ) (pureAny : Bool) (lT : ℤ) (term : ℕ → ℕ → ℕ → ℝ) (p : ℕ × ℕ) (m : ℕ × ℕ → ℝ)
    (h0 : lT > 0 ∨ m p = 0) :
    runActs (pairActs lmaxMask pureAny lT term p.1 p.2) m =
      runWrites (pairWrites pureAny (fun l2 l3 => sumMask lmaxMask l2 l3 fun l1 => term l1 l2 l3) p) m := by
  unfold pairActs pairWrites
  rw [runActs_append, runActs_append, run_incs, sum_rangeIncl]
  have hm : Function.update (runActs (if lT > 0 then [setAt (p.1, p.2) 0] else []) m) (p.1, p.2)
      (runActs (if lT > 0 then [setAt (p.1, p.2) 0] else []) m (p.1, p.2) +
        ∑ x ∈ Icc (ldist p.1 p.2) (p.1 + p.2), if x ≤ lmaxMask then term x p.1 p.2 else 0) =
      Function.update m p (sumMask lmaxMask p.1 p.2 fun l1 => term l1 p.1 p.2) := by
    unfold sumMask
    by_cases hT : lT > 0
    · rw [if_pos hT]
      simp [runActs, setAt]
    · rw [if_neg hT, runActs_nil]
      rcases h0 with h0 | h0
      · exact absurd h0 hT
      · rw [show (p.1, p.2) = p from rfl, h0, zero_add]
  rw [hm]
  by_cases hc : ¬ pureAny = true ∧ p.1 ≠ p.2
  · rw [if_pos hc, if_pos hc]
    simp [runActs, runWrites, copyAt]
  · rw [if_neg hc, if_neg hc]
    rfl

theorem run_pairs (lmaxMask : ℕ) (pureAny : Bool) (lT : ℤ) (term : ℕ → ℕ → ℕ → ℝ) (L : List (ℕ × ℕ))
    (hL : L.Pairwise fun p q => q ≠ p ∧ (pureAny = false → q ≠ p.swap)) (m : ℕ × ℕ → ℝ)
    (h0 : lT > 0 ∨ ∀ p ∈ L, m p = 0) :
    runActs (L.flatMap fun p => pairActs lmaxMask pureAny lT term p.1 p.2) m =
      runWrites (L.flatMap (pairWrites pureAny fun l2 l3 => sumMask lmaxMask l2 l3 fun l1 => term l1 l2 l3)) m := by
  induction L generalizing m with
  | nil => rfl
  | cons p L ih =>
    rw [List.flatMap_cons, List.flatMap_cons, runActs_append,
      run_pair _ _ _ _ _ _ (h0.imp id fun h => h p List.mem_cons_self)]
    have : ∀ ws ws' : List ((ℕ × ℕ) × ℝ), runWrites (ws ++ ws') m = runWrites ws' (runWrites ws m) :=
      fun ws ws' => List.foldl_append
    rw [this]
    refine ih (List.pairwise_cons.1 hL).2 _ (h0.imp id fun h q hq => ?_)
    rw [runWrites_notMem]
    · exact h q (List.mem_cons_of_mem _ hq)
    · obtain ⟨h1, h2⟩ := (List.pairwise_cons.1 hL).1 q hq
      intro w hw
      unfold pairWrites at hw
      rcases List.mem_cons.1 hw with rfl | hw
      · exact fun e => h1 e.symm
      · by_cases hc : ¬ pureAny = true ∧ p.1 ≠ p.2
        · rw [if_pos hc] at hw
          rw [List.mem_singleton.1 hw]
          exact fun e => h2 (by simpa using hc.1) e.symm
        · rw [if_neg hc] at hw
          simp at hw

theorem mainPairs_nodup (lstart lmax : ℕ) (f g : ℕ → ℕ) :
    ((rangeIncl lstart lmax).flatMap fun a => (rangeIncl (f a) (g a)).map fun b => (a, b)).Nodup := by
  rw [List.nodup_flatMap]
  refine ⟨fun a _ => (nodup_rangeIncl _ _).map fun x y h => (Prod.mk.inj h).2, ?_⟩
  refine (nodup_rangeIncl lstart lmax).imp fun {a b} hab => ?_
  intro x hx hy
  obtain ⟨_, -, rfl⟩ := List.mem_map.1 hx
  obtain ⟨_, -, h⟩ := List.mem_map.1 hy
  exact hab (Prod.mk.inj h).1.symm

theorem main_seq {lstart lmax lmaxMask : ℕ} {pureAny : Bool} {lT : ℤ} {lend : ℕ → ℕ} {term : ℕ → ℕ → ℕ → ℝ}
    {m m' : ℕ × ℕ → ℝ} (h : MainRuns lstart lmax lmaxMask pureAny lT lend term m m') (h0 : lT > 0 ∨ ∀ p, m p = 0) :
    m' = runWrites (mainWrites lstart lmax pureAny lend fun l2 l3 => sumMask lmaxMask l2 l3 fun l1 => term l1 l2 l3) m := by
  have hs := ParFor.eq_seq_of_owner h (nodup_rangeIncl _ _) (fun k => if pureAny then k.1 else min k.1 k.2) (by
    intro ll2 _ a ha
    obtain ⟨ll3, h3, ha⟩ := List.mem_flatMap.1 ha
    have hown : (if pureAny then ll2 else min ll2 ll3) = ll2 := by
      by_cases hp : pureAny = true
      · rw [if_pos hp]
      · rw [if_neg hp] at h3 ⊢
        have := (mem_rangeIncl.1 h3).1
        omega
    have one : ∀ a : (ℕ × ℕ → ℝ) → (ℕ × ℕ → ℝ), LocalTo (· = (ll2, ll3)) a → LocalTo (fun k => (if pureAny then k.1 else min k.1 k.2) = ll2) a :=
      fun a hl => hl.mono fun k hk => by rw [hk]; exact hown
    unfold pairActs at ha
    rcases List.mem_append.1 ha with ha | ha
    · rcases List.mem_append.1 ha with ha | ha
      · by_cases hT : lT > 0
        · rw [if_pos hT] at ha
          rw [List.mem_singleton.1 ha]
          exact one _ (setAt_local _ _)
        · rw [if_neg hT] at ha
          simp at ha
      · obtain ⟨l1, -, ha⟩ := List.mem_flatMap.1 ha
        by_cases hm : l1 ≤ lmaxMask
        · rw [if_pos hm] at ha
          rw [List.mem_singleton.1 ha]
          exact one _ (incAt_local _ _)
        · rw [if_neg hm] at ha
          simp at ha
    · by_cases hc : ¬ pureAny = true ∧ ll2 ≠ ll3
      · rw [if_pos hc] at ha
        rw [List.mem_singleton.1 ha]
        refine (copyAt_local _ _).mono fun k hk => ?_
        rw [if_neg hc.1] at hown ⊢
        rcases hk with rfl | rfl
        · show min ll3 ll2 = ll2
          rw [min_comm]; exact hown
        · exact hown
      · rw [if_neg hc] at ha
        simp at ha)
  rw [hs]
  have e1 : ((rangeIncl lstart lmax).flatMap fun ll2 => (rangeIncl (if pureAny then lstart else ll2) (lend ll2)).flatMap fun ll3 =>
      pairActs lmaxMask pureAny lT term ll2 ll3) =
      ((rangeIncl lstart lmax).flatMap fun ll2 => (rangeIncl (if pureAny then lstart else ll2) (lend ll2)).map fun ll3 =>
        (ll2, ll3)).flatMap fun p => pairActs lmaxMask pureAny lT term p.1 p.2 := by
    rw [List.flatMap_assoc]
    refine congrArg (fun f => List.flatMap f _) (funext fun ll2 => ?_)
    rw [List.flatMap_map]
  have e2 : mainWrites lstart lmax pureAny lend (fun l2 l3 => sumMask lmaxMask l2 l3 fun l1 => term l1 l2 l3) =
      ((rangeIncl lstart lmax).flatMap fun ll2 => (rangeIncl (if pureAny then lstart else ll2) (lend ll2)).map fun ll3 =>
        (ll2, ll3)).flatMap (pairWrites pureAny fun l2 l3 => sumMask lmaxMask l2 l3 fun l1 => term l1 l2 l3) := by
    unfold mainWrites
    rw [List.flatMap_assoc]
    refine congrArg (fun f => List.flatMap f _) (funext fun ll2 => ?_)
    rw [List.flatMap_map]
    rfl
  rw [e1, e2]
  refine run_pairs _ _ _ _ _ ?_ _ (h0.imp id fun h p _ => h p)
  refine (mainPairs_nodup lstart lmax _ lend).imp_of_mem fun {p q} hp hq hne => ⟨hne.symm, fun hpure e => ?_⟩
  obtain ⟨a, -, ha⟩ := List.mem_flatMap.1 hp
  obtain ⟨b, hb, rfl⟩ := List.mem_map.1 ha
  obtain ⟨a', -, ha'⟩ := List.mem_flatMap.1 hq
  obtain ⟨b', hb', rfl⟩ := List.mem_map.1 ha'
  have h1 := (mem_rangeIncl.1 hb).1
  have h2 := (mem_rangeIncl.1 hb').1
  rw [hpure] at h1 h2
  simp only [Bool.false_eq_true, if_false] at h1 h2
  simp only [Prod.swap_prod_mk, Prod.mk.injEq] at e
  exact hne (by rw [Prod.mk.injEq]; omega)

theorem tplz_seq {lstart lmax lt : ℕ} {entry : ℕ → ℕ → ℝ} {m m' : ℕ × ℕ → ℝ}
    (h : ParFor (List.range (lmax + 1)) (tplzActs lstart lmax lt entry) m m') :
    m' = runWrites (tplzWrites lstart lmax lt entry) m := by
  have hs := ParFor.eq_seq_of_owner h List.nodup_range (fun k => max k.1 k.2) (by
    intro ll2 _ a ha
    obtain ⟨ll3, h3, ha⟩ := List.mem_flatMap.1 ha
    have h3' := List.mem_range.1 h3
    rcases List.mem_cons.1 ha with rfl | ha
    · exact (setAt_local _ _).mono fun k hk => by rw [hk]; show max ll2 ll3 = ll2; omega
    · by_cases hc : ll3 ≠ ll2
      · rw [if_pos hc] at ha
        rw [List.mem_singleton.1 ha]
        refine (copyAt_local _ _).mono fun k hk => ?_
        rcases hk with rfl | rfl
        · show max ll3 ll2 = ll2; omega
        · show max ll2 ll3 = ll2; omega
      · rw [if_neg hc] at ha
        simp at ha)
  rw [hs]
  unfold tplzWrites tplzActs
  have gen : ∀ (L : List ℕ) (A : ℕ → List ((ℕ × ℕ → ℝ) → (ℕ × ℕ → ℝ))) (B : ℕ → List ((ℕ × ℕ) × ℝ)),
      (∀ i m, runActs (A i) m = runWrites (B i) m) → ∀ m, runActs (L.flatMap A) m = runWrites (L.flatMap B) m := by
    intro L A B hAB
    induction L with
    | nil => intro m; rfl
    | cons i L ih =>
      intro m
      rw [List.flatMap_cons, List.flatMap_cons, runActs_append, hAB, ih]
      exact (List.foldl_append).symm
  refine gen _ _ _ (fun ll2 m => gen _ _ _ (fun ll3 m => ?_) m) m
  by_cases hc : ll3 ≠ ll2
  · simp only [if_pos hc]
    simp [runActs, runWrites, setAt, copyAt]
  · simp only [if_neg hc]
    rfl

/-- One matrix of coefficients, in every execution of the parallel loops. -/
theorem coef_runs {lstart lmax lmaxMask : ℕ} {pureAny : Bool} {lT lE dl : ℤ} {term : ℕ → ℕ → ℕ → ℝ} {x : ℕ × ℕ → ℝ}
    (h : CoefRuns lstart lmax lmaxMask pureAny lT lE dl term x) :
    x = coefTable lstart lmax pureAny lT lE dl fun l2 l3 => sumMask lmaxMask l2 l3 fun l1 => term l1 l2 l3 := by
  unfold CoefRuns at h
  unfold coefTable
  by_cases hT : lT > 0
  · simp only [if_pos hT] at h ⊢
    obtain ⟨m0, m1, h1, h2, rfl⟩ := h
    rw [main_seq h2 (Or.inl hT), tplz_seq h1]
  · simp only [if_neg hT] at h ⊢
    exact main_seq h (Or.inr fun _ => rfl)

/-- C45: the coupling coefficients of a curved-sky calculation. Every execution of the parallel loops, with or without
purification and Toeplitz approximation, computes the coefficients of the sequential model. -/
theorem C45_coefficients (W : Wigner) (a : CouplingArgs) (lmax : ℕ) (pcl : ℕ → ℝ) {x : ℕ × ℕ → ℝ} :
    let c := a.calc lmax
    let lf := lfac a.junk lmax a.lmaxMask
    (CoefRuns c.lstart lmax c.lmaxMask a.pureAny a.lT a.lE a.dl
        (fun l1 l2 l3 => pcl l1 * drc000 lf l1 l2 l3 * drc000 lf l1 l2 l3) x →
      ∀ l2 l3, x (l2, l3) = (a.xi W lmax pcl).1 l2 l3) ∧
    (∀ ip, CoefRuns c.lstart lmax c.lmaxMask a.pureAny a.lT a.lE a.dl
        (fun l1 l2 l3 => (if ip = 0 then wss1 W c l1 l2 l3 else wPure W c l1 l2 l3) * (pcl l1 * drc000 lf l1 l2 l3)) x →
      ∀ l2 l3, x (l2, l3) = (a.xi W lmax pcl).2.1 ip l2 l3) ∧
    (∀ ip, CoefRuns c.lstart lmax c.lmaxMask a.pureAny a.lT a.lE a.dl
        (fun l1 l2 l3 => if Odd (l1 + l2 + l3) then 0 else wfacSs W c pcl ip l1 l2 l3) x →
      ∀ l2 l3, x (l2, l3) = (a.xi W lmax pcl).2.2.1 ip l2 l3) ∧
    (∀ ip, CoefRuns c.lstart lmax c.lmaxMask a.pureAny a.lT a.lE a.dl
        (fun l1 l2 l3 => if Odd (l1 + l2 + l3) then wfacSs W c pcl ip l1 l2 l3 else 0) x →
      ∀ l2 l3, x (l2, l3) = (a.xi W lmax pcl).2.2.2 ip l2 l3) := by
  refine ⟨fun h l2 l3 => ?_, fun ip h l2 l3 => ?_, fun ip h l2 l3 => ?_, fun ip h l2 l3 => ?_⟩ <;>
    exact congrFun (coef_runs h) (l2, l3)

theorem cells_row_lt (W : Wigner) (a : CouplingArgs) (lmax : ℕ) (pcl : ℕ → ℝ) (ll2 ll3 : ℕ) :
    ∀ x ∈ a.cells W lmax pcl ll2 ll3, x.1.1 < a.ncls := by
  have hn : a.ncls = 1 ∨ a.ncls = 2 ∨ a.ncls = 4 ∨ a.ncls = 7 := by
    unfold CouplingArgs.ncls
    by_cases ht : a.teb = true
    · rw [if_pos ht]; simp
    · rw [if_neg ht]; split_ifs <;> simp
  intro x hx
  unfold CouplingArgs.cells at hx
  rcases hn with h | h | h | h <;> simp only [h] at hx ⊢ <;> norm_num at hx
  · rw [hx]; norm_num
  · rcases hx with rfl | rfl <;> norm_num
  · rcases hx with rfl | rfl | rfl | rfl | rfl | rfl | rfl | rfl <;> norm_num
  · rcases hx with rfl | rfl | rfl | rfl | rfl | rfl | rfl | rfl | rfl | rfl | rfl <;> norm_num

/-- C45: the curved-sky coupling matrix. -/
theorem C45_matrix (W : Wigner) (a : CouplingArgs) (lmax : ℕ) (pcl : ℕ → ℝ) {m : ℕ × ℕ → ℝ}
    (h : MatrixRuns a.ncls lmax (a.cells W lmax pcl) m) (i j : ℕ) : m (i, j) = a.matrix W lmax pcl i j := by
  have hs := ParFor.eq_seq_of_owner h List.nodup_range (fun k => k.1 / a.ncls) (by
    intro ll2 _ f hf
    obtain ⟨ll3, -, hf⟩ := List.mem_flatMap.1 hf
    obtain ⟨x, hx, rfl⟩ := List.mem_map.1 hf
    refine (setAt_local _ _).mono fun k hk => ?_
    have hlt := cells_row_lt W a lmax pcl ll2 ll3 x hx
    rw [hk]
    show (a.ncls * ll2 + x.1.1) / a.ncls = ll2
    rw [Nat.mul_add_div (by omega), Nat.div_eq_of_lt hlt, add_zero])
  rw [hs]
  unfold CouplingArgs.matrix matrixWrites
  rw [← runActs_setAt]
  simp only [List.map_flatMap, List.map_map]
  rfl

end NaMaster
