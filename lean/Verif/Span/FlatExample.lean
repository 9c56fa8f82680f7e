import Verif.Span.FlatProps
import Verif.FlatAngle.Example

/-! # A case for C105 -/

namespace NaMaster

open Real Finset FlatFieldExample

namespace FlatSpanExample

/-- Factors of the two templates. -/
def fac2 (i : ℕ) : ℝ := if i = 0 then 3 else -1

/-- Two templates that are multiples of the same map. -/
def templD : FlatTemplArg := ⟨2, 2, 5, 5, fun i _ _ => fac2 i⟩

/-- The template of `argsT`. -/
def templT : FlatTemplArg := ⟨1, 2, 5, 5, fun _ _ _ => 1⟩

/-- The field with B modes purified, with two templates instead of one. -/
noncomputable def argsD : FlatFieldArgs := { argsT true with templates := some templD }

theorem gramD (i j : ℕ) : argsD.gram templD i j = fac2 i * fac2 j * (argsT true).gram templT 0 0 := by
  have e : ∀ k c p, argsD.masked (templD.val k) c p = fac2 k * (argsT true).masked (templT.val 0) c p := by
    intro k c p
    simp [FlatFieldArgs.masked, argsD, argsT, argsE, templD, templT]
  unfold FlatFieldArgs.gram flatIntegral
  simp only [e]
  rw [← mul_assoc, mul_sum]
  congr 1
  change ∑ c ∈ range 2, _ = ∑ c ∈ range 2, _
  refine sum_congr rfl fun c _ => ?_
  rw [mul_sum]
  change ∑ p ∈ (argsT true).fs.modes, _ = ∑ p ∈ (argsT true).fs.modes, _
  exact sum_congr rfl fun p _ => by ring

theorem gramT0 : 0 < (argsT true).gram templT 0 0 := gramT_pos true

/-- The eigenvalues of the matrix of the two templates. -/
theorem pairD {lam : ℝ} {x : ℕ → ℝ} (h : EigenPair 2 (argsD.gram templD) lam x) : lam = 0 ∨ lam = 10 * (argsT true).gram templT 0 0 := by
  obtain ⟨⟨k, hk, hx⟩, he⟩ := h
  have h0 := he 0 (by norm_num)
  have h1 := he 1 (by norm_num)
  simp only [mulVecN, sum_range_succ, sum_range_zero, zero_add, gramD] at h0 h1
  simp only [fac2, if_true, one_ne_zero, if_false] at h0 h1
  set G := (argsT true).gram templT 0 0
  by_cases hl : lam = 0
  · exact Or.inl hl
  right
  have hs : lam * (x 0 + 3 * x 1) = 0 := by linarith
  have hs : x 0 + 3 * x 1 = 0 := by
    rcases mul_eq_zero.1 hs with h | h
    · exact absurd h hl
    · exact h
  have hx1 : x 1 ≠ 0 := by
    intro h
    have h' : x 0 = 0 := by rw [h] at hs; linarith
    have : k = 0 ∨ k = 1 := by omega
    rcases this with rfl | rfl
    · exact hx h'
    · exact hx h
  have e : x 0 = -3 * x 1 := by linarith
  rw [e] at h1
  have : (lam - 10 * G) * x 1 = 0 := by linarith
  rcases mul_eq_zero.1 this with h | h
  · linarith
  · exact absurd h hx1

theorem separatedD : argsD.SeparatedTempl templD := by
  have hG := gramT0
  refine ⟨⟨0, by simp [templD], 0, by simp [templD], ?_⟩, 10 * (argsT true).gram templT 0 0, ⟨⟨fac2, ⟨0, by simp [templD], by simp [fac2]⟩, ?_⟩, ?_⟩, ?_⟩
  · rw [gramD]
    simp only [fac2, if_true]
    positivity
  · intro i _
    change ∑ j ∈ range 2, argsD.gram templD i j * fac2 j = _
    rw [sum_range_succ, sum_range_one, gramD, gramD, show fac2 0 = 3 from rfl, show fac2 1 = -1 by simp [fac2]]
    ring
  · rintro lam ⟨x, hx⟩
    rcases pairD hx with h | h <;> rw [h]
    positivity
  · intro lam x hx
    rcases pairD hx with h | h
    · exact Or.inl h
    · right
      rw [h]
      have : argsD.tol ≤ 1 := by simp only [argsD, argsT]; norm_num
      nlinarith

theorem sameSpanD : SameSpanFlat (argsT true) argsD where
  rest := rfl
  span := by
    right
    refine ⟨templT, templD, rfl, rfl, separatedT true, separatedD, Or.inr ⟨⟨?_, ?_⟩, independentT true⟩⟩
    · intro i _
      refine ⟨fun _ => fac2 i, fun c _ p _ => ?_⟩
      change fac2 i = ∑ j ∈ range 1, fac2 i * 1
      simp
    · intro i _
      refine ⟨fun _ => 1 / 2, fun c _ p _ => ?_⟩
      change (1 : ℝ) = ∑ j ∈ range 2, 1 / 2 * fac2 j
      rw [sum_range_succ, sum_range_one, show fac2 0 = 3 from rfl, show fac2 1 = -1 by simp [fac2]]
      norm_num

theorem argsD_ok : ∃ f, nmtFieldFlat stdEnv argsD = .ok f := by
  unfold nmtFieldFlat
  rw [if_neg (by simp [argsD, argsT, argsE, fsE])]
  have h2 : flatSpin argsD = .ok 2 := by simp [flatSpin, argsD, argsT, argsE]
  rw [h2]
  simp only [Outcome.bind]
  rw [if_neg (by simp)]
  have h3 : flatShapes argsD = .ok () := by simp [flatShapes, argsD, argsT, argsE, fsE, templD]
  rw [h3]
  simp only
  rw [if_neg (by simp [argsD, argsT, argsE, fsE])]
  simp [flatBeam, argsD, argsT, argsE]

theorem callT : FlatCall (argsT true) := ⟨rfl, rfl⟩

theorem tolT : 0 < (argsT true).tol := by simp only [argsT]; norm_num

end FlatSpanExample

open FlatSpanExample

/-- The hypotheses of C105 are met by a field with purified B modes: with one template, and with two multiples of it, coefficients, bias and bandpowers
are the same. -/
example (b : FlatBins ℝ) (c : EllCuts) (ells : List ℝ) (guess : Arr2 ℝ) : ∃ f f' A A', nmtFieldFlat stdEnv (argsT true) = .ok f ∧
    nmtFieldFlat stdEnv argsD = .ok f' ∧ f.ntemp = 1 ∧ f'.ntemp = 2 ∧ f.alms = some (some A) ∧ f'.alms = some (some A') ∧ A' 0 = A 0 ∧ A' 1 = A 1 ∧
    deprojBiasFlatObj stdEnv f' f' b c ells guess = deprojBiasFlatObj stdEnv f f b c ells guess ∧
    fullMasterFlat (exactLinAlg ℝ) (deprojOf stdEnv f' f') f'.data f'.data b c none (some (guess, some ells)) none =
      fullMasterFlat (exactLinAlg ℝ) (deprojOf stdEnv f f) f.data f.data b c none (some (guess, some ells)) none := by
  obtain ⟨f, hf⟩ := argsT_ok stdEnv true
  obtain ⟨f', hf'⟩ := argsD_ok
  have hf : nmtFieldFlat stdEnv ((argsT true).withMaps 2 (skyE)) = .ok f := hf
  have hf' : nmtFieldFlat stdEnv (argsD.withMaps 2 (skyE)) = .ok f' := hf'
  obtain ⟨A, A', e, e', h⟩ := C105_field exactEigen_correct callT tolT sameSpanD hf hf'
  exact ⟨f, f', A, A', hf, hf', (flat_is callT hf).2.ntemp, (flat_is (a := argsD) ⟨rfl, rfl⟩ hf').2.ntemp, e, e', h 0 (by norm_num), h 1 (by norm_num),
    (C105_spectra exactEigen_correct stdEnv_linear callT callT tolT tolT sameSpanD sameSpanD hf hf hf' hf' b c ells guess).2.1,
    C105_bandpowers (exactLinAlg ℝ) exactEigen_correct stdEnv_linear callT callT tolT tolT sameSpanD sameSpanD hf hf hf' hf' b c none _ none⟩

end NaMaster
