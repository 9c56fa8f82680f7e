import Verif.Syn.PowerWrong

/-! # Property C62: which generators a simulation uses -/

namespace NaMaster

open Finset Real

/-- **C62**, in part: with `T` threads the result of a simulation depends only on the generators with the seeds
`seed, …, seed + T - 1`: every outcome with one family of generators is an outcome with any other family that has the same
generators there. So seeds that differ by at least the number of threads share no random numbers. Missing: seeds that are closer,
for which the statement is false (`C62_flat_wrong`). -/
theorem C62_flat_partial {G : Type*} (randint : G → ℤ × G) (E : Eigen) (gauss gauss' : ℤ → ℕ → ℝ × ℝ) (a : SynFlatArgs)
    (c : C2r a.fs) {seed : ℤ} (hseed : 0 ≤ seed) {sched : List (List ℕ)}
    (hsame : ∀ s, seed ≤ s → s < seed + sched.length → gauss s = gauss' s) {g : G} {out : Outcome (ℕ → ℕ × ℕ → ℝ) × G}
    (h : SynfastFlatRuns randint E gauss c.run a seed g sched out) : SynfastFlatRuns randint E gauss' c.run a seed g sched out := by
  unfold SynfastFlatRuns at h ⊢
  rw [if_neg (not_lt.mpr hseed)] at h ⊢
  refine ⟨h.1, ?_⟩
  have h2 := h.2
  cases hc : a.check with
  | ok u =>
    rw [hc] at h2
    obtain ⟨m0, m, ⟨hperm, hsort, tr, i0, c0, hint, rfl⟩, hout⟩ := h2
    refine ⟨m0, _, ⟨hperm, hsort, tr, i0, c0, hint, rfl⟩, hout.trans (congrArg Outcome.ok (maps_congr a c ?_))⟩
    intro i hi ix hix iy hiy
    simp only
    rw [alms_values a E gauss seed hperm hint i0 c0 m0 i hi ix hix iy hiy,
      alms_values a E gauss' seed hperm hint i0 c0 m0 i hi ix hix iy hiy, rankOf_eq a.toAlm E gauss' gauss seed tr i0 c0 m0]
    have hv : ∀ ix, ∀ iy < a.fs.ny, synValues a.toAlm E gauss seed sched (a.toAlm.rankOf E gauss seed tr i0 c0 m0) ix iy =
        synValues a.toAlm E gauss' seed sched (a.toAlm.rankOf E gauss seed tr i0 c0 m0) ix iy := by
      intro ix iy hiy
      unfold synValues
      obtain ⟨l, hl, -⟩ := place_mem hperm hiy
      have hr := (syn_formula_trace a.toAlm E gauss seed (m0 := m0) (i0 := i0) (c0 := c0) hperm hint).1 _
        (List.getElem?_eq_some_iff.mp hl).1
      rw [hsame _ (by omega) (by omega)]
    unfold SynAlm.cell
    have hfs : a.toAlm.fs = a.fs := rfl
    rw [hv ix iy hiy, hv 0 0 (by omega), hv 0 iy hiy]
    by_cases h0 : iy = 0
    · simp [h0]
    · rw [hv 0 (a.toAlm.fs.ny - iy) (by rw [hfs]; omega)]
  | raises e => rw [hc] at h2; exact h2
  | crash => rw [hc] at h2; exact h2

/-- A case: one thread; only the generator with the given seed matters. -/
example (gauss : ℤ → ℕ → ℝ × ℝ) (c : C2r ⟨3, 3, 1, 1⟩) (out : Outcome (ℕ → ℕ × ℕ → ℝ) × Unit)
    (h : SynfastFlatRuns (fun _ : Unit => (0, ())) exactEigen gauss c.run ⟨⟨3, 3, 1, 1⟩, ⟨1, 2, fun _ _ => 1⟩, [0], none⟩ 7 ()
      [[0, 1, 2]] out) :
    SynfastFlatRuns (fun _ : Unit => (0, ())) exactEigen (fun s => if s = 7 then gauss 7 else fun _ => (0, 0)) c.run
      ⟨⟨3, 3, 1, 1⟩, ⟨1, 2, fun _ _ => 1⟩, [0], none⟩ 7 () [[0, 1, 2]] out :=
  C62_flat_partial _ exactEigen gauss _ ⟨⟨3, 3, 1, 1⟩, ⟨1, 2, fun _ _ => 1⟩, [0], none⟩ c (by norm_num)
    (fun s h1 h2 => by
      have : s = 7 := by simp at h2; omega
      simp [this]) h

end NaMaster
