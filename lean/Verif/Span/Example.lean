import Verif.Span.Props
import Verif.Sky.TemplExample

/-! # A case for C104

The four pixels of `Sky/Example.lean` with the dipole as template, and with two multiples of it, one of which is redundant. -/

namespace NaMaster

open Finset

namespace SkyExample

/-- Factors of the dipole. -/
def fac (i : ℕ) : ℝ := if i = 0 then 3 else -1

/-- Two templates: three times the dipole, and minus the dipole. -/
noncomputable def argsD : FieldArgs := { argsT with templates := some ⟨2, 1, 4, fun i c p => if c = 0 ∧ p < 4 then fac i * vz p else 0⟩ }

theorem madeD (v : MapStack) : ∃ f, nmtField env4 (argsD.withMaps 1 4 v) = .ok f := by
  have hp : ∀ E i n M, ∃ r, pinvh E i n M 1 = .ok r := by
    intro E i n M
    unfold pinvh
    rw [if_neg (by norm_num)]
    exact ⟨_, rfl⟩
  unfold nmtField fieldChecks fieldMasks mapChecks fieldFinish deproject
  simp [argsD, argsT, args4, FieldArgs.withMaps, env4, Outcome.bind, pickSpin, baseObj]
  generalize hg : pinvh _ _ _ _ _ = r
  obtain ⟨r', hr⟩ := hp _ _ _ _
  rw [hr] at hg
  subst hg
  cases r' <;> exact ⟨_, rfl⟩

theorem rawD (i c p : ℕ) : argsD.rawTempl 1 4 i c p = fac i * argsT.rawTempl 1 4 0 c p := by
  rw [raw4]
  unfold FieldArgs.rawTempl tab2 argsD
  simp only [Option.map_some, Option.getD_some]
  split_ifs <;> first | rfl | (exfalso; omega) | simp

theorem gramD (i j : ℕ) : gram env4.pix 1 (argsD.maskedTempl 1 4) i j = fac i * fac j * Real.pi := by
  rw [← gram4]
  unfold gram Pix.dot FieldArgs.maskedTempl
  simp only [rawD, mul_sum]
  exact sum_congr rfl fun c _ => sum_congr rfl fun p _ => by
    rw [show argsD.mask = argsT.mask from rfl]; ring

theorem pairD {lam : ℝ} {x : ℕ → ℝ} (h : EigenPair 2 (gram env4.pix 1 (argsD.maskedTempl 1 4)) lam x) : lam = 0 ∨ lam = 10 * Real.pi := by
  obtain ⟨⟨i, hi, hx⟩, h⟩ := h
  have h0 := h 0 (by omega)
  have h1 := h 1 (by omega)
  unfold mulVecN at h0 h1
  rw [sum_range_succ, sum_range_one, gramD, gramD] at h0 h1
  simp only [fac, if_true, one_ne_zero, if_false] at h0 h1
  by_cases hl : lam = 0
  · exact Or.inl hl
  · right
    have e : x 0 = -3 * x 1 := mul_left_cancel₀ hl (by linarith)
    have hx1 : x 1 ≠ 0 := by
      intro h1
      rcases (by omega : i = 0 ∨ i = 1) with rfl | rfl
      · exact hx (by rw [e, h1, mul_zero])
      · exact hx h1
    rw [e] at h1
    exact mul_right_cancel₀ hx1 (by linarith)

theorem separatedD : Separated env4.pix 1 argsD.nTempl (argsD.maskedTempl 1 4) argsT.tol := by
  have hn : argsD.nTempl = 2 := rfl
  rw [hn]
  have hpi := Real.pi_pos
  refine ⟨⟨0, by omega, 0, by omega, ?_⟩, 10 * Real.pi, ⟨⟨fac, ⟨0, by omega, by norm_num [fac]⟩, ?_⟩, ?_⟩, ?_⟩
  · rw [gramD]
    norm_num [fac, Real.pi_ne_zero]
  · intro i hi
    unfold mulVecN
    rw [sum_range_succ, sum_range_one, gramD, gramD, show fac 0 = 3 from rfl, show fac 1 = -1 from rfl]
    ring
  · rintro lam ⟨x, hx⟩
    rcases pairD hx with h | h <;> rw [h]
    positivity
  · intro lam x hx
    rcases pairD hx with h | h
    · exact Or.inl h
    · right
      rw [h]
      simp [argsT, args4]

theorem sameSpanD : SameSpan env4.pix 1 argsT argsD where
  rest := rfl
  span := by
    right
    obtain h | ⟨h, -⟩ := good4
    · cases h
    refine ⟨h, separatedD, Or.inl ⟨rfl, ?_, ?_⟩⟩
    · intro i hi
      refine ⟨fun _ => fac i, fun c _ p _ => ?_⟩
      unfold combine FieldArgs.maskedTempl
      rw [show argsT.nTempl = 1 from rfl, sum_range_one, show env4.pix.npix = 4 from rfl, rawD, show argsD.mask = argsT.mask from rfl]
      ring
    · intro i hi
      obtain rfl : i = 0 := by
        have hi : i < 1 := hi
        omega
      refine ⟨fun j => if j = 0 then 1 / 2 else 1 / 2, fun c _ p _ => ?_⟩
      unfold combine FieldArgs.maskedTempl
      rw [show argsD.nTempl = 2 from rfl, sum_range_succ, sum_range_one, show env4.pix.npix = 4 from rfl, rawD, rawD,
        show argsD.mask = argsT.mask from rfl]
      norm_num [fac]
      ring

theorem unpad4 : env4.sht.UnpadLinear := ⟨LinearMap.id, rfl⟩

/-- The hypotheses of C104 are met. With the two templates the coefficient along the dipole is removed, as with one template; without templates it is
not zero. Bandpowers are the same with one and with two templates. -/
example (minfo : MapInfo) (ω : Fin 4) : ∃ f A A', nmtField env4 (argsD.withMaps 1 4 (dirty4 ω)) = .ok f ∧ f.nTemp = 2 ∧ (fieldF ω).nTemp = 1 ∧
    f.alm = some (some A) ∧ A 0 1 0 = 0 ∧ A 0 1 1 = -(rho : ℂ) * (vx ω - Complex.I * vy ω) ∧ (fieldG ω).alm = some (some A') ∧
    A' 0 1 0 = (kappa * vz ω : ℝ) ∧
    fullMaster (exactLinAlg ℝ) env4 0 minfo f f true true (wspFromFields racah env4 minfo f f true bins4 wargs4) none none (some guessT) =
      fullMaster (exactLinAlg ℝ) env4 0 minfo (fieldF ω) (fieldF ω) true true
        (wspFromFields racah env4 minfo (fieldF ω) (fieldF ω) true bins4 wargs4) none none (some guessT) := by
  obtain ⟨f, hf⟩ := madeD (dirty4 ω)
  have hF : nmtField env4 (argsT.withMaps 1 4 (dirty4 ω)) = .ok (fieldF ω) := madeF.choose_spec ω
  have iD : IsoCall argsD := ⟨rfl, rfl, rfl, rfl, contaminated4.iso.tol⟩
  obtain ⟨A, hA, a0, a1⟩ := almF ω
  obtain ⟨A', hA', b0, -⟩ := almG ω
  have h := C104_field exactEigen_correct linear4 (fun _ _ => Real.pi_pos) contaminated4.iso sameSpanD hF hf
  exact ⟨f, A, A', hf, (field_is env4 argsD iD 1 4 _ f hf).nTemp, (field_is env4 argsT contaminated4.iso 1 4 _ _ hF).nTemp, h.1.trans hA, a0, a1, hA', b0,
    C104_bandpowers racah (exactLinAlg ℝ) exactEigen_correct linear4 unpad4 (fun _ _ => Real.pi_pos) minfo contaminated4.iso contaminated4.iso sameSpanD
      sameSpanD hF hF hf hf true true 0 bins4 wargs4 none none (some guessT)⟩

end SkyExample

end NaMaster
