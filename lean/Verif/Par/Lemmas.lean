import Verif.Par.Model
import Mathlib.Algebra.BigOperators.Group.List.Basic
import Mathlib.Algebra.BigOperators.Pi
import Mathlib.Algebra.Group.Pi.Lemmas

/-!
# Lemmas about parallel executions
-/

namespace NaMaster

open Finset

section general
variable {S : Type*}

/-- Two actions commute. -/
def ActsCommute (a b : S → S) : Prop := ∀ s, a (b s) = b (a s)

theorem ActsCommute.symm {a b : S → S} (h : ActsCommute a b) : ActsCommute b a := fun s => (h s).symm

theorem runActs_append (l l' : List (S → S)) (s : S) : runActs (l ++ l') s = runActs l' (runActs l s) := List.foldl_append

theorem runActs_cons (a : S → S) (l : List (S → S)) (s : S) : runActs (a :: l) s = runActs l (a s) := rfl

theorem runActs_nil (s : S) : runActs [] s = s := rfl

theorem runActs_comm {a : S → S} {l : List (S → S)} (h : ∀ b ∈ l, ActsCommute a b) (s : S) :
    runActs l (a s) = a (runActs l s) := by
  induction l generalizing s with
  | nil => rfl
  | cons b l ih =>
    rw [runActs_cons, runActs_cons, ← h b List.mem_cons_self s]
    exact ih (fun b hb => h b (List.mem_cons_of_mem _ hb)) _

theorem runActs_comm_list {l l' : List (S → S)} (h : ∀ a ∈ l, ∀ b ∈ l', ActsCommute a b) (s : S) :
    runActs l (runActs l' s) = runActs l' (runActs l s) := by
  induction l generalizing s with
  | nil => rfl
  | cons a l ih =>
    rw [runActs_cons, runActs_cons, ← runActs_comm (h a List.mem_cons_self)]
    exact ih (fun a ha => h a (List.mem_cons_of_mem _ ha)) _

theorem runActs_flatMap {ι : Type*} (l : List ι) (f : ι → List (S → S)) (s : S) :
    runActs (l.flatMap f) s = l.foldl (fun s i => runActs (f i) s) s := by
  induction l generalizing s with
  | nil => rfl
  | cons i l ih => rw [List.flatMap_cons, runActs_append, List.foldl_cons, ih]

/-- If actions of different threads commute, every interleaving has the effect of running one thread after the other. -/
theorem Interleaving.run_eq {ps : List (List (S → S))} {tr : List (S → S)} (h : Interleaving ps tr)
    (hc : ∀ i j : ℕ, i ≠ j → ∀ p q, ps[i]? = some p → ps[j]? = some q → ∀ a ∈ p, ∀ b ∈ q, ActsCommute a b) (s : S) :
    runActs tr s = runActs ps.flatten s := by
  induction h generalizing s with
  | nil h => rw [List.flatten_eq_nil_iff.2 h]
  | @cons ps a p tr i h h' ih =>
    have hi : i < ps.length := by
      by_contra hn
      rw [List.getElem?_eq_none (not_lt.1 hn)] at h
      exact absurd h (by simp)
    have hget : ps[i] = a :: p := by rw [List.getElem?_eq_getElem hi] at h; exact Option.some.inj h
    have e1 : ps = ps.take i ++ (a :: p) :: ps.drop (i + 1) := by
      rw [← hget, List.getElem_cons_drop, List.take_append_drop]
    have e2 : ps.set i p = ps.take i ++ p :: ps.drop (i + 1) := List.set_eq_take_append_cons_drop.trans (if_pos hi)
    rw [runActs_cons, ih _ (a s)]
    · have hb : ∀ b ∈ (ps.take i).flatten, ActsCommute a b := by
        intro b hb
        obtain ⟨q, hq, hbq⟩ := List.mem_flatten.1 hb
        obtain ⟨j, hj, hjq⟩ := List.getElem_of_mem hq
        have hji : j < i := by rw [List.length_take] at hj; omega
        refine hc i j (by omega) (a :: p) q h ?_ a List.mem_cons_self b hbq
        rw [← hjq, List.getElem_take, List.getElem?_eq_getElem]
      have e3 : ps.flatten = (ps.take i).flatten ++ (a :: p ++ (ps.drop (i + 1)).flatten) := by
        conv_lhs => rw [e1]
        rw [List.flatten_append, List.flatten_cons]
      have e4 : (ps.set i p).flatten = (ps.take i).flatten ++ (p ++ (ps.drop (i + 1)).flatten) := by
        rw [e2, List.flatten_append, List.flatten_cons]
      rw [e3, e4, runActs_append, runActs_append (ps.take i).flatten, runActs_comm hb]
      rfl
    · intro i' j' hij p' q' hp' hq' a' ha' b' hb'
      have key : ∀ (k : ℕ) r, (ps.set i p)[k]? = some r → ∃ r', ps[k]? = some r' ∧ ∀ x ∈ r, x ∈ r' := by
        intro k r hk
        rw [List.getElem?_set] at hk
        by_cases hki : i = k
        · rw [if_pos hki, if_pos (by omega)] at hk
          refine ⟨a :: p, by rw [← hki]; exact h, fun x hx => ?_⟩
          rw [← Option.some.inj hk] at hx
          exact List.mem_cons_of_mem _ hx
        · rw [if_neg hki] at hk
          exact ⟨r, hk, fun x hx => hx⟩
      obtain ⟨r1, h1, m1⟩ := key i' p' hp'
      obtain ⟨r2, h2, m2⟩ := key j' q' hq'
      exact hc i' j' hij r1 r2 h1 h2 a' (m1 a' ha') b' (m2 b' hb')

theorem foldl_runActs_perm {ι : Type*} {l l' : List ι} (hp : l.Perm l') (f : ι → List (S → S))
    (hc : ∀ i ∈ l, ∀ j ∈ l, i ≠ j → ∀ a ∈ f i, ∀ b ∈ f j, ActsCommute a b) (s : S) :
    runActs (l.flatMap f) s = runActs (l'.flatMap f) s := by
  rw [runActs_flatMap, runActs_flatMap]
  refine hp.foldl_eq' ?_ s
  intro i hi j hj s
  by_cases h : i = j
  · rw [h]
  · exact (runActs_comm_list (fun a ha b hb => (hc i hi j hj h a ha b hb).symm.symm) s).symm

/-- A parallel loop whose iterations commute has the effect of the sequential loop. -/
theorem ParFor.eq_seq {its : List ℕ} {body : ℕ → List (S → S)} {s s' : S} (h : ParFor its body s s') (hn : its.Nodup)
    (hc : ∀ i ∈ its, ∀ j ∈ its, i ≠ j → ∀ a ∈ body i, ∀ b ∈ body j, ActsCommute a b) :
    s' = runActs (its.flatMap body) s := by
  obtain ⟨sched, tr, hp, hi, rfl⟩ := h
  have hm : (sched.mapIdx fun _ l => [] ++ l.flatMap body ++ []) = sched.map fun l => l.flatMap body := by
    rw [List.mapIdx_eq_zipIdx_map]
    simp only [List.nil_append, List.append_nil]
    rw [show (fun x : List ℕ × ℕ => List.flatMap body x.1) = (fun l => List.flatMap body l) ∘ Prod.fst from rfl,
      ← List.map_map, List.zipIdx_map_fst]
  have hnd : sched.flatten.Nodup := hp.nodup_iff.2 hn
  rw [hm] at hi
  rw [hi.run_eq]
  · rw [← foldl_runActs_perm hp body, List.flatMap_def, List.map_flatten]
    · rw [List.flatten_flatten, List.map_map]
      congr 1
    · intro i hi j hj hij
      exact hc i (hp.subset hi) j (hp.subset hj) hij
  · intro i j hij p q hpi hqj a ha b hb
    rw [List.getElem?_map] at hpi hqj
    obtain ⟨l1, e1, rfl⟩ := Option.map_eq_some_iff.1 hpi
    obtain ⟨l2, e2, rfl⟩ := Option.map_eq_some_iff.1 hqj
    obtain ⟨x, hx, hax⟩ := List.mem_flatMap.1 ha
    obtain ⟨y, hy, hby⟩ := List.mem_flatMap.1 hb
    have m1 : l1 ∈ sched := List.mem_of_getElem? e1
    have m2 : l2 ∈ sched := List.mem_of_getElem? e2
    refine hc x (hp.subset (List.mem_flatten.2 ⟨l1, m1, hx⟩)) y (hp.subset (List.mem_flatten.2 ⟨l2, m2, hy⟩)) ?_ a hax b hby
    rintro rfl
    have hd := (List.nodup_flatten.1 hnd).2
    rw [List.pairwise_iff_getElem] at hd
    obtain ⟨g1, k1⟩ := List.getElem?_eq_some_iff.1 e1
    obtain ⟨g2, k2⟩ := List.getElem?_eq_some_iff.1 e2
    rcases Nat.lt_or_gt_of_ne hij with hlt | hlt
    · exact (hd i j g1 g2 hlt) (k1 ▸ hx) (k2 ▸ hy)
    · exact (hd j i g2 g1 hlt) (k2 ▸ hy) (k1 ▸ hx)

end general

section reduce
variable {σ π : Type*}

theorem privSet_eq (t : ℕ) (v : π) : (privSet t v : σ × (ℕ → π) → σ × (ℕ → π)) = privUpd t fun _ => v := rfl

theorem privUpd_comm {t t' : ℕ} (h : t ≠ t') (f g : π → π) :
    ActsCommute (privUpd t f : σ × (ℕ → π) → σ × (ℕ → π)) (privUpd t' g) := by
  intro s
  unfold privUpd
  simp only [Function.update_of_ne h, Function.update_of_ne h.symm]
  rw [Function.update_comm h]

theorem privUpd_merge_comm {t t' : ℕ} (h : t ≠ t') (f : π → π) (g : σ → π → σ) :
    ActsCommute (privUpd t f : σ × (ℕ → π) → σ × (ℕ → π)) (privMerge t' g) := by
  intro s
  unfold privUpd privMerge
  simp only [Function.update_of_ne h.symm]

theorem privMerge_comm (t t' : ℕ) (g : σ → π → σ) (hg : ∀ s p q, g (g s p) q = g (g s q) p) :
    ActsCommute (privMerge t g : σ × (ℕ → π) → σ × (ℕ → π)) (privMerge t' g) := by
  intro s
  unfold privMerge
  simp only [hg]

variable {M N : Type*} [AddCommMonoid M] [AddCommMonoid N]

/-- The program of a thread in a reduction. -/
def redProg (φ : M → N) (cs : ℕ → List M) (t : ℕ) (l : List ℕ) : List (N × (ℕ → M) → N × (ℕ → M)) :=
  [privSet t 0] ++ l.flatMap (fun i => (cs i).map fun m => privUpd t (· + m)) ++ [privMerge t fun s p => s + φ p]

theorem mem_redProg {φ : M → N} {cs : ℕ → List M} {t : ℕ} {l : List ℕ} {a : N × (ℕ → M) → N × (ℕ → M)}
    (h : a ∈ redProg φ cs t l) : (∃ f, a = privUpd t f) ∨ a = privMerge t fun s p => s + φ p := by
  unfold redProg at h
  rcases List.mem_append.1 h with h | h
  · rcases List.mem_append.1 h with h | h
    · exact Or.inl ⟨fun _ => 0, (List.mem_singleton.1 h).trans (privSet_eq t 0)⟩
    · obtain ⟨i, -, hi⟩ := List.mem_flatMap.1 h
      obtain ⟨m, -, rfl⟩ := List.mem_map.1 hi
      exact Or.inl ⟨_, rfl⟩
  · exact Or.inr (List.mem_singleton.1 h)

theorem redProg_comm {φ : M → N} {cs : ℕ → List M} {t t' : ℕ} (ht : t ≠ t') {l l' : List ℕ}
    {a b : N × (ℕ → M) → N × (ℕ → M)} (ha : a ∈ redProg φ cs t l) (hb : b ∈ redProg φ cs t' l') : ActsCommute a b := by
  rcases mem_redProg ha with ⟨f, rfl⟩ | rfl <;> rcases mem_redProg hb with ⟨g, rfl⟩ | rfl
  · exact privUpd_comm ht f g
  · exact privUpd_merge_comm ht f _
  · exact (privUpd_merge_comm ht.symm g _).symm
  · exact privMerge_comm t t' _ fun s p q => add_right_comm _ _ _

omit [AddCommMonoid N] in
theorem run_privAdds (t : ℕ) (l : List M) (s : N × (ℕ → M)) :
    runActs (l.map fun m => (privUpd t (· + m) : N × (ℕ → M) → N × (ℕ → M))) s =
      (s.1, Function.update s.2 t (s.2 t + l.sum)) := by
  induction l generalizing s with
  | nil => simp [runActs_nil]
  | cons m l ih =>
    rw [List.map_cons, runActs_cons, ih]
    simp [privUpd, add_assoc]

theorem run_redProg (φ : M → N) (cs : ℕ → List M) (t : ℕ) (l : List ℕ) (s : N × (ℕ → M)) :
    (runActs (redProg φ cs t l) s).1 = s.1 + φ (l.flatMap cs).sum := by
  unfold redProg
  rw [runActs_append, runActs_append]
  have : (l.flatMap fun i => (cs i).map fun m => (privUpd t (· + m) : N × (ℕ → M) → N × (ℕ → M))) =
      (l.flatMap cs).map fun m => privUpd t (· + m) := by rw [List.map_flatMap]
  rw [this, run_privAdds]
  simp [runActs, privSet, privMerge]

theorem run_redThreads (φ : M →+ N) (cs : ℕ → List M) (sched : List (List ℕ)) (k : ℕ) (s : N × (ℕ → M)) :
    (runActs (sched.mapIdx fun t l => redProg φ cs (t + k) l).flatten s).1 = s.1 + φ (sched.flatten.flatMap cs).sum := by
  induction sched generalizing k s with
  | nil => simp [runActs_nil]
  | cons l sched ih =>
    rw [List.mapIdx_cons, List.flatten_cons, runActs_append]
    have : (fun i => (fun t l => redProg φ cs (t + k) l) (i + 1)) = fun t l => redProg φ cs (t + (k + 1)) l := by
      funext i l
      show redProg φ cs (i + 1 + k) l = _
      rw [add_right_comm, add_assoc]
    rw [this, ih, run_redProg, List.flatten_cons, List.flatMap_append, List.sum_append, map_add, add_assoc]

/-- A reduction with private accumulators gives the sum over all iterations. -/
theorem ParRegion.reduce (φ : M →+ N) {its : List ℕ} {cs : ℕ → List M} {s s' : N × (ℕ → M)}
    (h : ParRegion its (fun t => [privSet t 0]) (fun t i => (cs i).map fun m => privUpd t (· + m))
      (fun t => [privMerge t fun s p => s + φ p]) s s') : s'.1 = s.1 + φ (its.flatMap cs).sum := by
  obtain ⟨sched, tr, hp, hi, rfl⟩ := h
  change Interleaving (sched.mapIdx fun t l => redProg φ cs t l) tr at hi
  rw [hi.run_eq]
  · have := run_redThreads φ cs sched 0 s
    simp only [add_zero] at this
    rw [this, ((hp.flatMap_right cs).sum_eq)]
  · intro i j hij p q hpi hqj a ha b hb
    rw [List.getElem?_mapIdx] at hpi hqj
    obtain ⟨l1, -, rfl⟩ := Option.map_eq_some_iff.1 hpi
    obtain ⟨l2, -, rfl⟩ := Option.map_eq_some_iff.1 hqj
    exact redProg_comm hij ha hb

end reduce

section arrays
variable {ι K : Type*} [DecidableEq ι]

theorem incAt_eq [AddCommMonoid K] (k : ι) (v : K) : incAt k v = fun m : ι → K => m + Pi.single k v := by
  funext m i
  unfold incAt
  by_cases h : i = k
  · subst h; simp
  · simp [Function.update_of_ne h, Pi.single_eq_of_ne h]

/-- An action on an array that reads and writes only elements with property `P`. -/
def LocalTo (P : ι → Prop) (a : (ι → K) → (ι → K)) : Prop :=
  (∀ m k, ¬ P k → a m k = m k) ∧ ∀ m m', (∀ k, P k → m k = m' k) → ∀ k, P k → a m k = a m' k

omit [DecidableEq ι] in
theorem LocalTo.comm {P Q : ι → Prop} {a b : (ι → K) → (ι → K)} (ha : LocalTo P a) (hb : LocalTo Q b)
    (hd : ∀ k, ¬ (P k ∧ Q k)) : ActsCommute a b := by
  intro m
  funext k
  by_cases hp : P k
  · have hq : ¬ Q k := fun h => hd k ⟨hp, h⟩
    rw [hb.1 _ k hq]
    exact ha.2 _ _ (fun j hj => hb.1 _ j fun h => hd j ⟨hj, h⟩) k hp
  · rw [ha.1 _ k hp]
    by_cases hq : Q k
    · exact (hb.2 _ _ (fun j hj => ha.1 _ j fun h => hd j ⟨h, hj⟩) k hq).symm
    · rw [hb.1 _ k hq, hb.1 _ k hq, ha.1 _ k hp]

omit [DecidableEq ι] in
theorem LocalTo.mono {P Q : ι → Prop} {a : (ι → K) → (ι → K)} (h : LocalTo P a) (hpq : ∀ k, P k → Q k) : LocalTo Q a := by
  refine ⟨fun m k hk => h.1 m k fun hp => hk (hpq k hp), fun m m' e k hk => ?_⟩
  by_cases hp : P k
  · exact h.2 m m' (fun j hj => e j (hpq j hj)) k hp
  · rw [h.1 m k hp, h.1 m' k hp, e k hk]

theorem setAt_local (k : ι) (v : K) : LocalTo (· = k) (setAt k v) := by
  refine ⟨fun m j hj => Function.update_of_ne hj _ _, fun m m' e j hj => ?_⟩
  rw [hj]; simp [setAt]

theorem incAt_local [Add K] (k : ι) (v : K) : LocalTo (· = k) (incAt k v) := by
  refine ⟨fun m j hj => Function.update_of_ne hj _ _, fun m m' e j hj => ?_⟩
  rw [hj]; simp [incAt, e k rfl]

theorem copyAt_local (k k' : ι) : LocalTo (fun j => j = k ∨ j = k') (copyAt k k' : (ι → K) → (ι → K)) := by
  refine ⟨fun m j hj => Function.update_of_ne (fun h => hj (Or.inl h)) _ _, fun m m' e j hj => ?_⟩
  unfold copyAt
  rcases eq_or_ne j k with rfl | h
  · simp [e k' (Or.inr rfl)]
  · rw [Function.update_of_ne h, Function.update_of_ne h, e j hj]

theorem runActs_setAt (ws : List (ι × K)) (m : ι → K) :
    runActs (ws.map fun w => setAt w.1 w.2) m = runWrites ws m := by
  unfold runActs runWrites
  rw [List.foldl_map]
  rfl

/-- A parallel loop in which every iteration works on elements it owns has the effect of the sequential loop. -/
theorem ParFor.eq_seq_of_owner {its : List ℕ} {body : ℕ → List ((ι → K) → (ι → K))} {m m' : ι → K}
    (h : ParFor its body m m') (hn : its.Nodup) (own : ι → ℕ)
    (hl : ∀ i ∈ its, ∀ a ∈ body i, LocalTo (fun k => own k = i) a) : m' = runActs (its.flatMap body) m :=
  h.eq_seq hn fun i hi j hj hij a ha b hb =>
    (hl i hi a ha).comm (hl j hj b hb) fun _ hk => hij (hk.1.symm.trans hk.2)

end arrays

end NaMaster
