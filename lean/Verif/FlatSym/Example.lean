import Verif.FlatSym.Props
import Verif.Flat.FieldExample

/-! # Cases for C97 -/

namespace NaMaster

open Real Finset FlatFieldExample

theorem mirror_exp {fs : FlatInfo} {k : ℕ × ℕ} (hk : k ∈ fs.modes) (h2 : ¬ 2 * k.1 ≤ fs.nx) (p : ℕ × ℕ) :
    Complex.exp (fs.phase (fs.nx - k.1, negIdx fs.ny k.2) p * Complex.I) = Complex.exp (-(fs.phase k p) * Complex.I) := by
  rw [mem_modes] at hk
  rw [Complex.exp_eq_exp_iff_exists_int]
  obtain ⟨m1, h1⟩ := negIdx_phase hk.1 p.1
  obtain ⟨m2, h3⟩ := negIdx_phase hk.2 p.2
  rw [negIdx_of_pos (by omega)] at h1
  refine ⟨m1 + m2, ?_⟩
  have : fs.phase (fs.nx - k.1, negIdx fs.ny k.2) p = -fs.phase k p + (m1 + m2) * (2 * π) := by
    unfold FlatInfo.phase
    dsimp only
    rw [h1, h3]
    ring
  rw [this]
  push_cast
  ring

theorem flat_star_exp (x : ℝ) : star (Complex.exp (x * Complex.I)) = Complex.exp (-x * Complex.I) := by
  rw [show star (Complex.exp (x * Complex.I)) = Complex.exp (star ((x : ℂ) * Complex.I)) from (Complex.exp_conj _).symm]
  congr 1
  simp

theorem flat_star_exp' (x : ℝ) : star (Complex.exp (-x * Complex.I)) = Complex.exp (x * Complex.I) := by
  have := flat_star_exp (-x)
  push_cast at this
  rw [this, neg_neg]

theorem fullArr_op (g : FlatMove) {fs : FlatInfo} (a : ℕ × ℕ → ℂ) {k : ℕ × ℕ} (hk : k ∈ fs.modes) :
    fullArr fs (fun k => g.op fs k (a k)) k = g.op fs k (fullArr fs a k) := by
  unfold fullArr
  by_cases h2 : 2 * k.1 ≤ fs.nx
  · rw [if_pos h2, if_pos h2]
  · rw [if_neg h2, if_neg h2]
    have e := mirror_exp hk h2 g.t
    have e' : Complex.exp (-(fs.phase (fs.nx - k.1, negIdx fs.ny k.2) g.t) * Complex.I) = Complex.exp (fs.phase k g.t * Complex.I) := by
      rw [← flat_star_exp, e, flat_star_exp']
    unfold FlatMove.op
    cases g.turn with
    | true =>
      simp only [if_true]
      rw [star_mul', flat_star_exp', e]
    | false =>
      simp only [Bool.false_eq_true, if_false]
      rw [star_mul', flat_star_exp, e']

/-- The inverse transform that sums over all modes commutes with all movements. -/
theorem stdEnv_moves (g : FlatMove) : stdEnv.HasMove g := by
  constructor
  · intro fs a p
    change (stdC2r fs).run _ p = (stdC2r fs).run a (g.pix fs p)
    unfold stdC2r
    by_cases hy : 0 < fs.ny
    · simp only [dif_pos hy]
      change (∑ k ∈ fs.modes, fullArr fs (fun k => g.op fs k (a k)) k * Complex.exp (fs.phase k p * Complex.I)).re =
        (∑ k ∈ fs.modes, fullArr fs a k * Complex.exp (fs.phase k (g.pix fs p) * Complex.I)).re
      rw [Complex.re_sum, Complex.re_sum]
      refine sum_congr rfl fun k hk => ?_
      have hx : 0 < fs.nx := by rw [mem_modes] at hk; omega
      rw [fullArr_op g a hk, g.pix_exp fs hx hy k p]
      unfold FlatMove.op
      cases g.turn with
      | true =>
        simp only [if_true]
        rw [← flat_star_exp (fs.phase k p), ← flat_star_exp (fs.phase k g.t)]
        simp only [Complex.mul_re, Complex.mul_im, Complex.star_def, Complex.conj_re, Complex.conj_im]
        ring
      | false =>
        simp only [Bool.false_eq_true, if_false]
        congr 1
        ring
    · simp only [dif_neg hy]
  · intro fs a p
    change (stdC2r fs).run _ p = -(stdC2r fs).run a p
    unfold stdC2r
    by_cases hy : 0 < fs.ny
    · simp only [dif_pos hy]
      change (∑ k ∈ fs.modes, fullArr fs (fun k => -a k) k * Complex.exp (fs.phase k p * Complex.I)).re =
        -(∑ k ∈ fs.modes, fullArr fs a k * Complex.exp (fs.phase k p * Complex.I)).re
      rw [Complex.re_sum, Complex.re_sum, ← sum_neg_distrib]
      refine sum_congr rfl fun k hk => ?_
      have : fullArr fs (fun k => -a k) k = -fullArr fs a k := by
        unfold fullArr
        split_ifs <;> simp
      rw [this, neg_mul, Complex.neg_re]
    · simp only [dif_neg hy, neg_zero]

/-- A field with purified B modes, turned by 180 degrees and moved by 1 and 2 pixels: the mask changes, spectra and coupling matrices do not. -/
example (b : FlatBins ℝ) (L : LinAlg ℝ) (D : FlatDeproj) : ∃ f g1, nmtFieldFlat stdEnv (argsE 1 1) = .ok f ∧
    nmtFieldFlat stdEnv ((argsE 1 1).move ⟨(1, 2), true⟩) = .ok g1 ∧ g1.base.mask (0, 0) = f.base.mask (1, 2) ∧ g1.base.mask (0, 0) ≠ f.base.mask (0, 0) ∧
    coupledCellFlat g1.data g1.data b defaultCuts = coupledCellFlat f.data f.data b defaultCuts ∧
    couplingFlat g1.base g1.base b defaultCuts false = couplingFlat f.base f.base b defaultCuts false ∧
    fullMasterFlat L D g1.data g1.data b defaultCuts none none none = fullMasterFlat L D f.data f.data b defaultCuts none none none := by
  obtain ⟨f, hf⟩ := argsE_ok stdEnv (lx := 1) (ly := 1) one_pos one_pos
  obtain ⟨g1, g2, h1, h2, e1, -, e3⟩ := C97_spectra (stdEnv_moves ⟨(1, 2), true⟩) hf hf b defaultCuts false [] ⟨0, 0, fun _ _ => 0⟩
  have hg : g1 = g2 := Outcome.ok.inj (h1.symm.trans h2)
  subst hg
  obtain ⟨spin, beam, -, -, -, -, -, -, -, hfe⟩ := flat_ok (m := ⟨2, 5, 5, skyE⟩) rfl hf
  have hg1 : g1 = f.move ⟨(1, 2), true⟩ := by
    have := C97_field (stdEnv_moves ⟨(1, 2), true⟩) (argsE 1 1)
    rw [hf, h1] at this
    exact Outcome.ok.inj this
  have hmask : f.base.mask = maskE := by rw [hfe]; rfl
  have hfs : f.base.fs = fsE 1 1 := by rw [hfe]; rfl
  have hm : g1.base.mask (0, 0) = f.base.mask (1, 2) := by
    rw [hg1]
    change f.base.mask (FlatMove.pix ⟨(1, 2), true⟩ f.base.fs (0, 0)) = _
    rw [hfs]
    rfl
  obtain ⟨k1, k2, q1, q2, q3⟩ := C97_bandpowers L D (stdEnv_moves ⟨(1, 2), true⟩) hf hf b defaultCuts none none none
    (fun _ _ _ _ h => absurd (by rw [hfe]; exact ⟨rfl, rfl⟩) h)
  rw [← Outcome.ok.inj (h1.symm.trans q1), ← Outcome.ok.inj (h1.symm.trans q2)] at q3
  refine ⟨f, g1, hf, h1, hm, ?_, e1, e3, q3⟩
  rw [hm, hmask]
  unfold maskE
  intro h
  have hc : cos (2 * π / 5) = 1 := by
    norm_num at h
    linarith
  have : cos (2 * π / 5) < cos 0 := Real.cos_lt_cos_of_nonneg_of_le_pi le_rfl (by linarith [Real.pi_pos]) (by positivity)
  rw [Real.cos_zero] at this
  linarith

/-- Two templates, maps of spin 1, and a movement along one axis. -/
example : ∃ f, nmtFieldFlat stdEnv { argsE 1 1 with spin := some 1, purifyB := false, templates := some ⟨1, 2, 5, 5, fun _ c p => c + p.1⟩ } = .ok f ∧
    nmtFieldFlat stdEnv (FlatFieldArgs.move ⟨(3, 0), false⟩
      { argsE 1 1 with spin := some 1, purifyB := false, templates := some ⟨1, 2, 5, 5, fun _ c p => c + p.1⟩ }) = .ok (f.move ⟨(3, 0), false⟩) := by
  have h : ∃ f, nmtFieldFlat stdEnv { argsE 1 1 with spin := some 1, purifyB := false, templates := some ⟨1, 2, 5, 5, fun _ c p => c + p.1⟩ } = .ok f := by
    simp only [nmtFieldFlat, flatSpin, flatShapes, flatBeam, argsE, fsE, Outcome.bind]
    norm_num
  obtain ⟨f, hf⟩ := h
  refine ⟨f, hf, ?_⟩
  rw [C97_field (stdEnv_moves _), hf]
  rfl

/-- Covariances of fields with masks moved by two pixels. -/
example (b : FlatBins ℝ) : covInitFlat (FlatField.move ⟨(2, 0), false⟩ ⟨fsE 1 1, 0, maskE, fun _ => 1, 0, 0⟩) (FlatField.move ⟨(2, 0), false⟩
    ⟨fsE 1 1, 0, maskE, fun _ => 1, 0, 0⟩) b none none none = covInitFlat ⟨fsE 1 1, 0, maskE, fun _ => 1, 0, 0⟩ ⟨fsE 1 1, 0, maskE, fun _ => 1, 0, 0⟩ b none none none :=
  C97_covariance _ _ b none none none

end NaMaster
