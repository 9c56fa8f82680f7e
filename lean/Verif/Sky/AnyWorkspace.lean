import Verif.Sky.AnyExample

/-! # Which workspaces exist for a catalog and a map: C93

The pixelisation of the map plays no role, and the FKP normalisation is refused. -/

namespace NaMaster

/-- A workspace is made whenever the checks pass. -/
theorem any_made (W : Wigner) (env : FieldEnv) (minfo : MapInfo) (f1 f2 : AnyField) (B : Bins ℝ) (wa : WspArgs)
    (h1 : f1.anisoAlms env.sht = none) (h2 : f2.anisoAlms env.sht = none)
    (hl : (f1.view env.sht minfo).geom.lmax = (f2.view env.sht minfo).geom.lmax)
    (hm : (f1.view env.sht minfo).geom.lmaxMask = (f2.view env.sht minfo).geom.lmaxMask)
    (hB : (f1.view env.sht minfo).geom.lmax = B.ellMax) (hle : B.ellMax ≤ (f1.view env.sht minfo).geom.lmaxMask)
    (b1 : f1.beamList.length = B.ellMax + 1) (b2 : f2.beamList.length = B.ellMax + 1) (hteb : wa.isTeb = false) (hT : wa.lT ≤ 0)
    (hp : f1.pureE = false ∧ f1.pureB = false ∨ f2.pureE = false ∧ f2.pureB = false) :
    (∃ w, wspFromAny W env minfo f1 f2 false B { wa with norm := "MASTER" } = .ok w) ∧
    (anyNormOf env.pix f1 f2 false "FKP" = .raises .value → wspFromAny W env minfo f1 f2 false B { wa with norm := "FKP" } = .raises .value) := by
  have hc : isCompatible (f1.view env.sht minfo).geom (f2.view env.sht minfo).geom false ≠ false := by
    unfold isCompatible
    simp [hl, hm]
  have ht : ∀ p, toeplitzSanity wa.lT wa.lE wa.dl B.ellMax p = none := by
    intro p
    unfold toeplitzSanity
    rw [if_neg (by omega)]
  constructor
  · unfold wspFromAny
    simp only [h1, h2, Option.isSome_none, Bool.or_self, Bool.false_eq_true, false_and, if_false]
    rw [if_neg hc, if_neg (by rw [hB]; simp), ht]
    dsimp only
    unfold anyNormOf
    rw [if_pos rfl]
    simp only [Outcome.bind]
    unfold compCouplingMatrix computeCouplingMatrix
    rw [if_neg (by rw [b1, b2, hB]; simp [anyCouplingArgs]), if_neg (by simp [anyCouplingArgs, hteb]), if_neg (by rw [hB]; omega),
      if_neg (by intro q; have := q.1; simp only [anyCouplingArgs] at this; omega)]
    rw [if_neg (by
      rintro ⟨-, q⟩
      simp only [anyCouplingArgs] at q
      have f0 : flag false = 0 := rfl
      have f1' : ∀ b, flag b ≤ 1 := by intro b; cases b <;> simp [flag]
      have := f1' f1.pureE
      have := f1' f1.pureB
      have := f1' f2.pureE
      have := f1' f2.pureB
      rcases hp with ⟨p1, p2⟩ | ⟨p1, p2⟩ <;> rw [p1, p2, f0] at q <;> omega)]
    exact ⟨_, rfl⟩
  · intro hn
    unfold wspFromAny
    simp only [h1, h2, Option.isSome_none, Bool.or_self, Bool.false_eq_true, false_and, if_false]
    rw [if_neg hc, if_neg (by rw [hB]; simp), ht]
    dsimp only
    rw [hn]
    rfl

/-- C93: a catalog and a map with the same band limits, beams that reach the band limit and bandpowers with the same band limit have a
workspace with the MASTER normalisation, in both orders and for any pixelisation; the FKP normalisation raises ValueError. -/
theorem C93_workspace (W : Wigner) (env : FieldEnv) (minfo : MapInfo) (c : CatObj) (f : FieldObj) (hA : f.maskA = none) (hl : f.lmax = c.lmax)
    (hm : f.lmaxMask = c.lmaxMask) (hle : c.lmax ≤ c.lmaxMask) (hc : c.beam.1 = c.lmax + 1) (hf : f.beam.1 = c.lmax + 1) (B : Bins ℝ)
    (hB : B.ellMax = c.lmax) (wa : WspArgs) (hteb : wa.isTeb = false) (hT : wa.lT ≤ 0) :
    (∃ w, wspFromAny W env minfo (.cat c) (.map f) false B { wa with norm := "MASTER" } = .ok w) ∧
    (∃ w, wspFromAny W env minfo (.map f) (.cat c) false B { wa with norm := "MASTER" } = .ok w) ∧
    wspFromAny W env minfo (.cat c) (.map f) false B { wa with norm := "FKP" } = .raises .value ∧
    wspFromAny W env minfo (.map f) (.cat c) false B { wa with norm := "FKP" } = .raises .value := by
  have ha : (AnyField.map f).anisoAlms env.sht = none := by
    change Option.map _ f.maskA = none
    rw [hA]; rfl
  have bc : (AnyField.cat c).beamList.length = B.ellMax + 1 := by
    change c.beamList.length = _
    unfold CatObj.beamList
    rw [List.length_map, List.length_range, hc, hB]
  have bf : (AnyField.map f).beamList.length = B.ellMax + 1 := by
    change f.beamList.length = _
    unfold FieldObj.beamList
    rw [List.length_map, List.length_range, hf, hB]
  obtain ⟨x1, x2⟩ := any_made W env minfo (.cat c) (.map f) B wa rfl ha hl.symm hm.symm hB.symm (by rw [hB]; exact hle) bc bf hteb hT (Or.inl ⟨rfl, rfl⟩)
  obtain ⟨y1, y2⟩ := any_made W env minfo (.map f) (.cat c) B wa ha rfl hl hm (hl.trans hB.symm) (by rw [hB]; exact hle.trans_eq hm.symm) bf bc hteb hT
    (Or.inr ⟨rfl, rfl⟩)
  refine ⟨x1, y1, x2 ?_, y2 ?_⟩ <;> unfold anyNormOf <;> rw [if_neg (by decide), if_pos rfl]
  · rfl

namespace MixExample

open SkyExample PoleExample

/-- The catalog and the map of the examples of C93. -/
example (minfo : MapInfo) : (∃ w, wspFromAny racah env4 minfo (.cat (catM 0)) (.map (field4 0)) false bins4 { wargs4 with norm := "MASTER" } = .ok w) ∧
    wspFromAny racah env4 minfo (.cat (catM 0)) (.map (field4 0)) false bins4 { wargs4 with norm := "FKP" } = .raises .value := by
  obtain ⟨r1, r2, r3, r4, r5, r6, r7, r8, r9, r10, -⟩ := fields4.facts 0
  obtain ⟨p1, p2, p3, -, p5, -, -, p8⟩ := catalogsM.facts 0
  obtain ⟨h1, -, h2, -⟩ := C93_workspace racah env4 minfo (catM 0) (field4 0) r4 (by rw [r1, p1]) (by rw [r2, p2]) (by rw [p1, p2])
    (by rw [p5, p1]; simp [argsP]) (by rw [r10, p1]; simp [args4]) bins4 p1.symm wargs4 rfl (by decide)
  exact ⟨h1, h2⟩

end MixExample

end NaMaster
