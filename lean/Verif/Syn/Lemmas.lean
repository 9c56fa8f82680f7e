import Verif.Syn.Model
import Verif.Par.Lemmas
import Mathlib.Tactic.Ring
import Mathlib.Tactic.Linarith
import Mathlib.Data.List.GetD

/-! # Lemmas for the simulations: what an execution of `fs_synalm` computes -/

namespace NaMaster

open Finset Real

variable (A : SynAlm) (E : Eigen) (gauss : ℤ → ℕ → ℝ × ℝ) (seed : ℤ)

/-- The modes of the rows in the order in which a thread visits them. -/
def SynAlm.modesOf (rows : List ℕ) : List (ℕ × ℕ) :=
  rows.flatMap fun iy => (List.range (A.fs.nx / 2 + 1)).map fun ix => (ix, iy)

/-- The remaining program of a thread: everything (`none`) or the modes from number `d` on. -/
def SynAlm.rest (t : ℕ) (rows : List ℕ) : Option ℕ → List SynEvent
  | none => A.prog t rows
  | some d => ((A.modesOf rows).drop d).map (.mode t)

theorem prog_eq (t : ℕ) (rows : List ℕ) : A.prog t rows = .arrive t :: (A.modesOf rows).map (.mode t) := by
  simp [SynAlm.prog, SynAlm.modesOf, List.map_flatMap, Function.comp_def]

/-- The number of the generator, the number of the first call and the mode, for each mode event of a trace. -/
noncomputable def SynAlm.logOf : List SynEvent → SynState → List (ℕ × ℕ × (ℕ × ℕ))
  | [], _ => []
  | .arrive t :: tr, s => SynAlm.logOf tr (A.step E gauss seed s (.arrive t))
  | .mode t k :: tr, s => (s.ithr t, s.calls t, k) :: SynAlm.logOf tr (A.step E gauss seed s (.mode t k))

/-- The stores belonging to an entry of the log. -/
noncomputable def SynAlm.storesOf (e : ℕ × ℕ × (ℕ × ℕ)) : List ((ℕ × ℕ × ℕ) × ℂ) :=
  A.stores (A.coef E (fun j => gauss (seed + e.1) (e.2.1 + j)) e.2.2) e.2.2

theorem runWrites_cat {ι K : Type*} [DecidableEq ι] (l l' : List (ι × K)) (m : ι → K) :
    runWrites (l ++ l') m = runWrites l' (runWrites l m) := List.foldl_append

theorem alms_eq_log (tr : List SynEvent) (s : SynState) :
    (tr.foldl (A.step E gauss seed) s).alms =
      runWrites ((A.logOf E gauss seed tr s).flatMap (A.storesOf E gauss seed)) s.alms := by
  induction tr generalizing s with
  | nil => rfl
  | cons e tr ih =>
    rw [List.foldl_cons, ih]
    cases e with
    | arrive t => rfl
    | mode t k =>
      simp only [SynAlm.logOf, List.flatMap_cons]
      rw [runWrites_cat]
      rfl

/-- What happens in an interleaving. -/
theorem trace_log {ps : List (List SynEvent)} {tr : List SynEvent} (h : Interleaving ps tr) (rows : ℕ → List ℕ) :
    ∀ (D : ℕ → Option ℕ) (s : SynState), (∀ t < ps.length, ps[t]? = some (A.rest t (rows t) (D t))) →
      (∀ t d, D t = some d → s.calls t = d * A.nmaps) →
      (∀ t < ps.length, D t ≠ none → s.ithr t < s.numthr) →
      (∀ t < ps.length, ∀ t' < ps.length, D t ≠ none → D t' ≠ none → s.ithr t = s.ithr t' → t = t') →
      let s' := tr.foldl (A.step E gauss seed) s
      (∀ t, D t ≠ none → s'.ithr t = s.ithr t) ∧
      (∀ t < ps.length, s'.ithr t < s'.numthr) ∧
      (∀ t < ps.length, ∀ t' < ps.length, s'.ithr t = s'.ithr t' → t = t') ∧
      s'.numthr = s.numthr + ((range ps.length).filter fun t => D t = none).card ∧
      (∀ e, e ∈ A.logOf E gauss seed tr s ↔ ∃ t < ps.length, ∃ d, (D t).getD 0 ≤ d ∧
        ∃ k, (A.modesOf (rows t))[d]? = some k ∧ e = (s'.ithr t, d * A.nmaps, k)) := by
  induction h with
  | @nil ps hp =>
    intro D s hps hc hlt hinj
    have hD : ∀ t < ps.length, ∃ d, D t = some d ∧ (A.modesOf (rows t)).length ≤ d := by
      intro t ht
      have h1 := hps t ht
      have h2 := hp _ (List.mem_of_getElem? h1)
      cases hd : D t with
      | none => rw [hd] at h2; simp [SynAlm.rest, prog_eq] at h2
      | some d =>
        rw [hd] at h2
        simp only [SynAlm.rest, List.map_eq_nil_iff, List.drop_eq_nil_iff] at h2
        exact ⟨d, rfl, h2⟩
    have hne : ∀ t < ps.length, D t ≠ none := fun t ht => by obtain ⟨d, h, -⟩ := hD t ht; simp [h]
    refine ⟨fun _ _ => rfl, fun t ht => hlt t ht (hne t ht), fun t ht t' ht' => hinj t ht t' ht' (hne t ht) (hne t' ht'), ?_, ?_⟩
    · rw [Finset.filter_eq_empty_iff.mpr fun t ht => hne t (Finset.mem_range.mp ht)]
      rfl
    · intro e
      simp only [SynAlm.logOf, List.not_mem_nil, false_iff]
      rintro ⟨t, ht, d, hd, k, hk, -⟩
      obtain ⟨d', h1, h2⟩ := hD t ht
      rw [h1, Option.getD_some] at hd
      rw [List.getElem?_eq_none (by omega)] at hk
      exact absurd hk (by simp)
  | @cons ps a p tr i hi htr ih =>
    intro D s hps hc hlt hinj
    have hlen : i < ps.length := by
      by_contra hcon
      rw [List.getElem?_eq_none (by omega)] at hi
      exact absurd hi (by simp)
    have hpi : A.rest i (rows i) (D i) = a :: p := by
      have := hps i hlen
      rw [hi] at this
      exact (Option.some.inj this).symm
    have hset : ∀ (D' : ℕ → Option ℕ), (∀ t, t ≠ i → D' t = D t) → p = A.rest i (rows i) (D' i) →
        ∀ t < (ps.set i p).length, (ps.set i p)[t]? = some (A.rest t (rows t) (D' t)) := by
      intro D' h1 h2 t ht
      rw [List.length_set] at ht
      by_cases hti : t = i
      · subst hti
        rw [List.getElem?_set_self hlen, h2]
      · rw [List.getElem?_set_ne (Ne.symm hti), hps t ht, h1 t hti]
    have hD' : ∀ (d : ℕ) (t : ℕ), t ≠ i → Function.update D i (some d) t = D t := fun d t ht => Function.update_of_ne ht _ _
    cases hd : D i with
    | none =>
      rw [hd] at hpi
      simp only [SynAlm.rest, prog_eq, List.cons.injEq] at hpi
      obtain ⟨rfl, hp⟩ := hpi
      have key := ih (Function.update D i (some 0)) (A.step E gauss seed s (.arrive i))
        (hset _ (hD' 0) (by simp [SynAlm.rest, ← hp])) ?_ ?_ ?_
      · simp only [List.length_set] at key
        obtain ⟨k1, k2, k3, k4, k5⟩ := key
        refine ⟨fun t ht => ?_, k2, k3, ?_, fun e => ?_⟩
        · have hti : t ≠ i := fun h => ht (h ▸ hd)
          rw [List.foldl_cons, k1 t (by rw [hD' 0 t hti]; exact ht)]
          exact Function.update_of_ne hti _ _
        · rw [List.foldl_cons, k4]
          have : (range ps.length).filter (fun t => D t = none) =
              insert i ((range ps.length).filter fun t => Function.update D i (some 0) t = none) := by
            ext t
            simp only [Finset.mem_filter, Finset.mem_range, Finset.mem_insert]
            by_cases hti : t = i
            · subst hti; simp [hd, hlen]
            · rw [hD' 0 t hti]; simp [hti]
          rw [this, Finset.card_insert_of_notMem (by simp)]
          simp only [SynAlm.step]
          ring
        · rw [List.foldl_cons]
          simp only [SynAlm.logOf]
          rw [k5]
          refine exists_congr fun t => and_congr_right fun ht => exists_congr fun d => and_congr_left fun _ => ?_
          by_cases hti : t = i
          · subst hti; simp [hd]
          · rw [hD' 0 t hti]
      · intro t d htd
        by_cases hti : t = i
        · subst hti
          rw [Function.update_self, Option.some.injEq] at htd
          subst htd
          simp [SynAlm.step]
        · rw [hD' 0 t hti] at htd
          simp only [SynAlm.step]
          rw [Function.update_of_ne hti, hc t d htd]
      · intro t ht htd
        rw [List.length_set] at ht
        simp only [SynAlm.step]
        by_cases hti : t = i
        · subst hti; simp
        · rw [hD' 0 t hti] at htd
          rw [Function.update_of_ne hti]
          exact Nat.lt_succ_of_lt (hlt t ht htd)
      · intro t ht t' ht' h1 h2 h3
        rw [List.length_set] at ht ht'
        simp only [SynAlm.step] at h3
        by_cases hti : t = i
        · by_cases hti' : t' = i
          · rw [hti, hti']
          · subst hti
            rw [hD' 0 t' hti'] at h2
            rw [Function.update_self, Function.update_of_ne hti'] at h3
            have := hlt t' ht' h2
            omega
        · rw [hD' 0 t hti] at h1
          by_cases hti' : t' = i
          · subst hti'
            rw [Function.update_self, Function.update_of_ne hti] at h3
            have := hlt t ht h1
            omega
          · rw [hD' 0 t' hti'] at h2
            rw [Function.update_of_ne hti, Function.update_of_ne hti'] at h3
            exact hinj t ht t' ht' h1 h2 h3
    | some d =>
      rw [hd] at hpi
      simp only [SynAlm.rest] at hpi
      have hdl : d < (A.modesOf (rows i)).length := by
        by_contra hcon
        rw [List.drop_eq_nil_of_le (by omega)] at hpi
        simp at hpi
      rw [List.drop_eq_getElem_cons hdl, List.map_cons, List.cons.injEq] at hpi
      obtain ⟨rfl, hp⟩ := hpi
      have hne : D i ≠ none := by simp [hd]
      have hnone : ∀ t, Function.update D i (some (d + 1)) t = none ↔ D t = none := by
        intro t
        by_cases hti : t = i
        · subst hti; simp [hd]
        · rw [hD' _ t hti]
      have key := ih (Function.update D i (some (d + 1))) (A.step E gauss seed s (.mode i (A.modesOf (rows i))[d]))
        (hset _ (hD' _) (by simp [SynAlm.rest, ← hp])) ?_ ?_ ?_
      · simp only [List.length_set, ne_eq, hnone] at key
        obtain ⟨k1, k2, k3, k4, k5⟩ := key
        refine ⟨k1, k2, k3, k4, fun e => ?_⟩
        rw [List.foldl_cons]
        simp only [SynAlm.logOf, List.mem_cons]
        rw [k5]
        constructor
        · rintro (rfl | ⟨t, ht, d', hd', k, hk, rfl⟩)
          · exact ⟨i, hlen, d, by simp [hd], _, List.getElem?_eq_getElem hdl, by
              rw [k1 i hne, hc i d hd]; rfl⟩
          · refine ⟨t, ht, d', ?_, k, hk, rfl⟩
            by_cases hti : t = i
            · subst hti
              rw [Function.update_self, Option.getD_some] at hd'
              rw [hd, Option.getD_some]; omega
            · rwa [hD' _ t hti] at hd'
        · rintro ⟨t, ht, d', hd', k, hk, rfl⟩
          by_cases hti : t = i
          · subst hti
            rw [hd, Option.getD_some] at hd'
            rcases Nat.lt_or_ge d d' with hlt' | hge
            · exact Or.inr ⟨t, ht, d', by rw [Function.update_self, Option.getD_some]; omega, k, hk, rfl⟩
            · obtain rfl : d' = d := by omega
              left
              rw [List.getElem?_eq_getElem hdl, Option.some.injEq] at hk
              rw [k1 t hne, hc t d' hd, ← hk]; rfl
          · exact Or.inr ⟨t, ht, d', by rw [hD' _ t hti]; exact hd', k, hk, rfl⟩
      · intro t d' htd
        simp only [SynAlm.step]
        by_cases hti : t = i
        · subst hti
          rw [Function.update_self, Option.some.injEq] at htd
          rw [Function.update_self, hc t d hd, ← htd]; ring
        · rw [hD' _ t hti] at htd
          rw [Function.update_of_ne hti, hc t d' htd]
      · intro t ht htd
        rw [List.length_set] at ht
        exact hlt t ht (fun h => htd ((hnone t).mpr h))
      · intro t ht t' ht' h1 h2 h3
        rw [List.length_set] at ht ht'
        exact hinj t ht t' ht' (fun h => h1 ((hnone t).mpr h)) (fun h => h2 ((hnone t').mpr h)) h3

end NaMaster
