import Verif.FlatUnits.Props
import Verif.Flat.PureMasterExample
import Verif.Flat.CovarProps

/-! # Cases for C99 -/

namespace NaMaster

open Real Finset FlatFieldExample

/-- The inverse transform that sums over all modes is homogeneous. -/
theorem stdEnv_homogeneous : stdEnv.Homogeneous := by
  intro fs c a p
  change (stdC2r fs).run _ p = c * (stdC2r fs).run a p
  unfold stdC2r
  by_cases hy : 0 < fs.ny
  · simp only [dif_pos hy]
    change (∑ k ∈ fs.modes, fullArr fs (fun k => (c : ℂ) * a k) k * Complex.exp (fs.phase k p * Complex.I)).re =
      c * (∑ k ∈ fs.modes, fullArr fs a k * Complex.exp (fs.phase k p * Complex.I)).re
    rw [Complex.re_sum, Complex.re_sum, mul_sum]
    refine sum_congr rfl fun k _ => ?_
    have : fullArr fs (fun k => (c : ℂ) * a k) k = (c : ℂ) * fullArr fs a k := by
      unfold fullArr
      split_ifs
      · rfl
      · rw [star_mul']
        congr 1
        exact Complex.conj_ofReal c
    rw [this, mul_assoc, Complex.re_ofReal_mul]
  · simp only [dif_neg hy, mul_zero]

namespace FlatUnitsExample

open FlatPureExample

theorem fieldH (v : FlatMaps) : ∃ f, nmtFieldFlat stdEnv ((argsG false true true).withMaps 2 v) = .ok f ∧ f.base = fG false true := by
  unfold nmtFieldFlat
  have h2 : flatSpin ((argsG false true true).withMaps 2 v) = .ok 2 := by simp [flatSpin, argsG, FlatFieldArgs.withMaps]
  have h3 : flatShapes ((argsG false true true).withMaps 2 v) = .ok () := by simp [flatShapes, argsG, FlatFieldArgs.withMaps, fsG]
  rw [if_neg (by simp only [argsG, FlatFieldArgs.withMaps, fsG]; norm_num), h2]
  simp only [Outcome.bind]
  rw [if_neg (by simp), h3]
  simp only [Outcome.bind]
  rw [if_neg (by simp only [argsG, fsG, FlatFieldArgs.withMaps]; norm_num)]
  simp only [flatBeam, argsG, Outcome.bind, FlatFieldArgs.withMaps]
  exact ⟨_, rfl, rfl⟩

theorem couplingH : ∃ W, couplingFlat (fG false true) (fG false true) binsY defaultCuts false = .ok W ∧ Regular (W.ncls * W.bin.nBands) W.gslMatrix := by
  obtain ⟨W, hW, -⟩ := C80_matrix_partial (fG false true) (fG false true) rfl (flagsG _ _) (flagsG _ _) binsY gaplessY (by simp [binsY])
    defaultCuts (by simp [fG, fsG]) (symmetric_default _) (Or.inr (nyquistG _)) (Or.inr fun ib hh => by
      have := hh.2.1
      norm_num [binsY] at this)
  exact ⟨W, hW, regularY hW⟩

theorem smallH : SmallBands fsG binsY := by
  intro i _ j _
  have h : ∀ i, #(bandModesAll fsG binsY i) ≤ 15 := by
    intro i
    classical
    have hs : bandModesAll fsG binsY i ⊆ range 5 ×ˢ range 3 := by
      intro k hk
      have := memG.1 ((Finset.filter_subset _ _ : bandModesAll fsG binsY i ⊆ fsG.modes) hk)
      rw [Finset.mem_product, Finset.mem_range, Finset.mem_range]
      exact this
    have hc := Finset.card_le_card hs
    simpa using hc
  have := Nat.mul_le_mul (h i) (h j)
  omega

/-- A polarised field with purified B modes and a template: bandpowers are the same if its mask is given in percent, with deprojection bias and noise. -/
example (v : FlatMaps) (ells : List ℝ) (guess noise : Arr2 ℝ) : ∃ f g, nmtFieldFlat stdEnv ((argsG false true true).withMaps 2 v) = .ok f ∧
    nmtFieldFlat stdEnv (((argsG false true true).withMaps 2 v).rescale 100) = .ok g ∧ g.base.mask = (fun p => 100 * maskE p) ∧
    fullMasterFlat (exactLinAlg ℝ) (deprojOf stdEnv g g) g.data g.data binsY defaultCuts (some (noise.scale (100 * 100))) (some (guess, some ells)) none =
      fullMasterFlat (exactLinAlg ℝ) (deprojOf stdEnv f f) f.data f.data binsY defaultCuts (some noise) (some (guess, some ells)) none := by
  obtain ⟨f, hf, hb⟩ := fieldH v
  obtain ⟨g, g', h1, h2, h⟩ := C99_bandpowers exactLinAlg_correct stdEnv_homogeneous exactEigen_correct (c1 := 100) (c2 := 100) (by norm_num) (by norm_num)
    hf hf binsY defaultCuts (some noise) (some (guess, some ells)) none (fun w hw => by
      change couplingFlat f.base f.base binsY defaultCuts false = .ok w at hw
      rw [hb] at hw
      exact regularY hw)
  obtain rfl := Outcome.ok.inj (h1.symm.trans h2)
  have h3 := C99_field stdEnv_homogeneous exactEigen_correct (c := 100) (by norm_num) ((argsG false true true).withMaps 2 v)
  rw [h1, hf] at h3
  refine ⟨f, g, hf, h1, ?_, h⟩
  rw [Outcome.ok.inj h3]
  change (fun p => 100 * f.base.mask p) = _
  rw [hb]
  rfl

/-- Maps that have been multiplied by the mask change with it. -/
example (v : FlatMaps) : ((({argsG false true true with maskedOnInput := true} : FlatFieldArgs).withMaps 2 v).rescale 100).maps =
    some ⟨2, 5, 3, fun X p => 100 * v X p⟩ := by
  simp [FlatFieldArgs.rescale, FlatFieldArgs.withMaps, inputUnits, argsG, fsG]
  rfl

/-- Covariances of the polarised field with masks in four different units. -/
example (j : CovJunk ℝ) (larr : List ℝ) (s : CovCls ℝ) : ∃ cw cw' wa wa' wb',
    covInitFlat (fG false true) (fG false true) binsY (some (fG false true)) (some (fG false true)) none = .ok cw ∧
    covInitFlat ((fG false true).rescale 2) ((fG false true).rescale 3) binsY (some ((fG false true).rescale 5)) (some ((fG false true).rescale 7)) none = .ok cw' ∧
    couplingFlat (fG false true) (fG false true) binsY defaultCuts false = .ok wa ∧
    couplingFlat ((fG false true).rescale 2) ((fG false true).rescale 3) binsY defaultCuts false = .ok wa' ∧
    couplingFlat ((fG false true).rescale 5) ((fG false true).rescale 7) binsY defaultCuts false = .ok wb' ∧
    gaussianCovarianceFlat (exactLinAlg ℝ) j (some cw') 2 2 2 2 larr s (some wa') (some (some wb')) =
      gaussianCovarianceFlat (exactLinAlg ℝ) j (some cw) 2 2 2 2 larr s (some wa) (some (some wa)) := by
  obtain ⟨cw, hcw, -⟩ := covInitFlat_eq (fG false true) (fG false true) (fG false true) (fG false true) rfl rfl rfl binsY gaplessY (by simp [binsY]) none rfl smallH
  obtain ⟨w, hw, hr⟩ := couplingH
  obtain ⟨cw', wa', wb', h1, h2, h3, h⟩ := C99_covariance (exactLinAlg_correct (K := ℝ)) (x := 2) (y := 3) (z := 5) (t := 7) (by norm_num) (by norm_num)
    (by norm_num) (by norm_num) _ _ _ _ _ _ hcw hw hw hr hr
  exact ⟨cw, cw', w, wa', wb', hcw, h1, hw, h2, h3, h j 2 2 2 2 larr s⟩

end FlatUnitsExample

end NaMaster
