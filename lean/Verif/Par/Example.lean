import Verif.Par.Props2
import Mathlib.Tactic.NormNum

/-!
# Executions exist

The theorems about parallel loops speak about every possible execution. Here it is shown that every region has an execution,
also with an interleaving that is not the sequential one.
-/

namespace NaMaster

theorem Interleaving.nils {α : Type*} (n : ℕ) : Interleaving (List.replicate n ([] : List α)) [] :=
  .nil fun _ h => (List.mem_replicate.mp h).2

theorem Interleaving.single {α : Type*} (p : List α) : Interleaving [p] p := by
  induction p with
  | nil => exact .nil (by simp)
  | cons a p ih => exact .cons 0 rfl (by simpa using ih)

/-- Every parallel region can be executed, for example by one thread. -/
theorem ParRegion.exists_run {S : Type*} (its : List ℕ) (pre : ℕ → List (S → S)) (body : ℕ → ℕ → List (S → S))
    (post : ℕ → List (S → S)) (s : S) : ∃ s', ParRegion its pre body post s s' :=
  ⟨_, [its], _, by simp, by simpa using Interleaving.single _, rfl⟩

/-- The hypotheses of the theorems on scalar products and products of maps can be met for all maps. -/
example (npix : ℕ) (pixsize : ℝ) (mp1 mp2 : ℕ → ℝ) : ∃ r, FsMapDotRuns npix pixsize mp1 mp2 r := by
  obtain ⟨s, h⟩ := ParRegion.exists_run (List.range npix) (fun t => [privSet t 0])
    (fun t ip => [privUpd t (· + mp1 ip * mp2 ip)]) (fun t => [privMerge t (· + ·)]) ((0 : ℝ), fun _ => (0 : ℝ))
  exact ⟨_, _, s, h, rfl⟩

example (npix : ℕ) (mp1 mp2 m0 : ℕ → ℝ) : ∃ m, MapProductRuns npix mp1 mp2 m0 m :=
  ParRegion.exists_run _ _ _ _ _

example (lstart lmax lmaxMask : ℕ) (pureAny : Bool) (lT lE dl : ℤ) (term : ℕ → ℕ → ℕ → ℝ) :
    ∃ x, CoefRuns lstart lmax lmaxMask pureAny lT lE dl term x := by
  unfold CoefRuns
  by_cases h : lT > 0
  · simp only [if_pos h]
    obtain ⟨m0, h0⟩ := ParRegion.exists_run (List.range (lmax + 1)) (fun _ => [])
      (fun _ => tplzActs lstart lmax lT.toNat fun l2 l3 => sumMask lmaxMask l2 l3 fun l1 => term l1 l2 l3) (fun _ => [])
      (fun _ => 0)
    obtain ⟨m1, h1⟩ := ParRegion.exists_run (rangeIncl lstart lmax) (fun _ => []) (fun _ ll2 =>
      (rangeIncl (if pureAny then lstart else ll2) (lendToeplitz ll2 lT lE dl lmax).toNat).flatMap fun ll3 =>
        pairActs lmaxMask pureAny lT term ll2 ll3) (fun _ => []) m0
    exact ⟨_, m0, m1, h0, h1, rfl⟩
  · simp only [if_neg h]
    exact ParRegion.exists_run _ _ _ _ _

/-- Two threads share three pixels: the first thread takes pixels 2 and 0, the second pixel 1, and the second thread adds its
part between the two pixels of the first. -/
example : FsMapDotRuns 3 2 (fun i => i + 1) (fun i => i + 3) 52 := by
  refine ⟨fun _ => 7, (26, Function.update (Function.update (fun _ => 7) 0 18) 1 8), ⟨[[2, 0], [1]],
    [privSet 1 0, privSet 0 0, privUpd 0 (· + ((2 : ℕ) + 1) * ((2 : ℕ) + 3)), privUpd 1 (· + ((1 : ℕ) + 1) * ((1 : ℕ) + 3)),
      privMerge 1 (· + ·), privUpd 0 (· + ((0 : ℕ) + 1) * ((0 : ℕ) + 3)), privMerge 0 (· + ·)], by decide, ?_, ?_⟩, by norm_num⟩
  · exact .cons 1 rfl (.cons 0 rfl (.cons 0 rfl (.cons 1 rfl (.cons 1 rfl (.cons 0 rfl (.cons 0 rfl (.nil (by simp))))))))
  · simp only [runActs, List.foldl, privSet, privUpd, privMerge]
    refine Prod.ext (by norm_num [Function.update]) (funext fun t => ?_)
    rcases t with _ | _ | t <;> norm_num [Function.update]

/-- Two rows of a matrix filled by two threads, the second thread first. -/
example : MapProductRuns 2 (fun i => i + 1) (fun i => i + 3) (fun _ => 9) (fun i => if i = 0 then 3 else if i = 1 then 8 else 9) := by
  refine ⟨[[0], [1]], [setAt 1 (((1 : ℕ) + 1) * ((1 : ℕ) + 3)), setAt 0 (((0 : ℕ) + 1) * ((0 : ℕ) + 3))], by decide, ?_, ?_⟩
  · exact .cons 1 rfl (.cons 0 rfl (.nil (by simp)))
  · funext i
    rcases i with _ | _ | i <;> norm_num [runActs, setAt, Function.update]

end NaMaster
