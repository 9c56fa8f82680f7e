import Verif.Flat.FieldProps

/-! # C63: a purified field with leakage, and fields that meet the hypotheses of the theorems -/

namespace NaMaster

open Real Finset

namespace FlatFieldExample

/-- A map of 5×5 pixels. -/
noncomputable def fsE (lx ly : ℝ) : FlatInfo := ⟨5, 5, lx, ly⟩

/-- A smooth mask. -/
noncomputable def maskE : ℕ × ℕ → ℝ := fun p => 2 + cos (2 * π * p.1 / 5)

/-- A sky of one E mode along y and no B modes. -/
noncomputable def skyE : FlatMaps := fun X p => if X = 0 then -(2 * cos (2 * π * p.2 / 5)) else 0

/-- The E and B modes of the sky. -/
noncomputable def modesE : ℕ → ℕ × ℕ → ℂ := fun X k => if X = 0 ∧ (k = (0, 1) ∨ k = (0, 4)) then 1 else 0

/-- The arguments: a field of spin 2 whose B modes are purified. -/
noncomputable def argsE (lx ly : ℝ) : FlatFieldArgs where
  fs := fsE lx ly
  mask := maskE
  maps := some ⟨2, 5, 5, skyE⟩
  spin := none
  templates := none
  beam := none
  purifyE := false
  purifyB := true
  tol := 0
  maskedOnInput := false
  lite := false

/-- An exact inverse transform for all maps. -/
noncomputable def stdC2r (fs : FlatInfo) : C2r fs :=
  if h : 0 < fs.ny then C2r.std fs h else
    { run := fun _ _ => 0
      reads := fun _ _ _ => rfl
      exact := fun a _ p hp => by
        rw [mem_modes] at hp
        omega }

/-- An environment with exact transforms. -/
noncomputable def stdEnv : FlatEnv := ⟨fun fs => (stdC2r fs).run, exactEigen⟩

theorem stdEnv_exact : stdEnv.Exact := fun fs => ⟨stdC2r fs, rfl⟩

theorem memE {lx ly : ℝ} {k : ℕ × ℕ} : k ∈ (fsE lx ly).modes ↔ k.1 < 5 ∧ k.2 < 5 := mem_modes

theorem sum2 {lx ly : ℝ} (a b : ℕ × ℕ) (hab : a ≠ b) (ha : a ∈ (fsE lx ly).modes) (hb : b ∈ (fsE lx ly).modes) (g : ℕ × ℕ → ℂ)
    (hg : ∀ k ∈ (fsE lx ly).modes, k ≠ a → k ≠ b → g k = 0) : ∑ k ∈ (fsE lx ly).modes, g k = g a + g b := by
  have hsub : ({a, b} : Finset (ℕ × ℕ)) ⊆ (fsE lx ly).modes := by
    intro p hp
    simp only [Finset.mem_insert, Finset.mem_singleton] at hp
    rcases hp with rfl | rfl <;> assumption
  rw [← Finset.sum_subset hsub, Finset.sum_pair hab]
  intro p hp hp'
  simp only [Finset.mem_insert, Finset.mem_singleton, not_or] at hp'
  exact hg p hp hp'.1 hp'.2

theorem exp_four (n : ℕ) : Complex.exp ((2 * π * (n * 4 / 5 : ℝ) : ℝ) * Complex.I) =
    Complex.exp (-((2 * π * n / 5 : ℝ) : ℂ) * Complex.I) := by
  rw [Complex.exp_eq_exp_iff_exists_int]
  refine ⟨n, ?_⟩
  push_cast
  ring

theorem cos_exp (x : ℝ) : ((cos x : ℝ) : ℂ) = 1 / 2 * Complex.exp (x * Complex.I) + 1 / 2 * Complex.exp (-(x : ℂ) * Complex.I) := by
  rw [Complex.ofReal_cos, Complex.cos]
  ring

theorem phaseX1 (lx ly : ℝ) (p : ℕ × ℕ) : Complex.exp ((fsE lx ly).phase (1, 0) p * Complex.I) =
    Complex.exp (((2 * π * p.1 / 5 : ℝ) : ℂ) * Complex.I) := by
  congr 2
  simp only [FlatInfo.phase, fsE]
  push_cast
  ring

theorem phaseX4 (lx ly : ℝ) (p : ℕ × ℕ) : Complex.exp ((fsE lx ly).phase (4, 0) p * Complex.I) =
    Complex.exp (-((2 * π * p.1 / 5 : ℝ) : ℂ) * Complex.I) := by
  rw [← exp_four]
  congr 2
  simp only [FlatInfo.phase, fsE]
  push_cast
  ring

theorem phaseY1 (lx ly : ℝ) (p : ℕ × ℕ) : Complex.exp ((fsE lx ly).phase (0, 1) p * Complex.I) =
    Complex.exp (((2 * π * p.2 / 5 : ℝ) : ℂ) * Complex.I) := by
  congr 2
  simp only [FlatInfo.phase, fsE]
  push_cast
  ring

theorem phaseY4 (lx ly : ℝ) (p : ℕ × ℕ) : Complex.exp ((fsE lx ly).phase (0, 4) p * Complex.I) =
    Complex.exp (-((2 * π * p.2 / 5 : ℝ) : ℂ) * Complex.I) := by
  rw [← exp_four]
  congr 2
  simp only [FlatInfo.phase, fsE]
  push_cast
  ring

theorem phase00 (lx ly : ℝ) (p : ℕ × ℕ) : Complex.exp ((fsE lx ly).phase (0, 0) p * Complex.I) = 1 := by
  simp [FlatInfo.phase, fsE]

/-- The modes of the mask. -/
theorem maskE_modes (lx ly : ℝ) : HasModes (fsE lx ly) maskE
    fun k => (if k = (0, 0) then 2 else 0) + if k = (1, 0) ∨ k = (4, 0) then 1 / 2 else 0 := by
  intro p _
  simp only [add_mul]
  rw [Finset.sum_add_distrib]
  rw [sum2 (1, 0) (4, 0) (by simp) (by simp [memE]) (by simp [memE]) (fun k => (if k = (1, 0) ∨ k = (4, 0) then 1 / 2 else 0) *
    Complex.exp ((fsE lx ly).phase k p * Complex.I)) (by intro k _ h1 h2; simp [h1, h2])]
  rw [Finset.sum_congr rfl (fun k _ => show (if k = (0, 0) then (2 : ℂ) else 0) * Complex.exp ((fsE lx ly).phase k p * Complex.I) =
    if k = (0, 0) then 2 * Complex.exp ((fsE lx ly).phase k p * Complex.I) else 0 by split_ifs <;> simp), Finset.sum_ite_eq',
    if_pos (by simp [memE])]
  simp only [true_or, or_true, if_true, phaseX1, phaseX4, phase00]
  unfold maskE
  rw [Complex.ofReal_add, cos_exp]
  simp

theorem maskE_alm (lx ly : ℝ) {k : ℕ × ℕ} (hk : k ∈ (fsE lx ly).modes) : (fsE lx ly).map2alm maskE k =
    ((if k = (0, 0) then 2 else 0) + if k = (1, 0) ∨ k = (4, 0) then 1 / 2 else 0) * ((lx * ly / (2 * π) : ℝ) : ℂ) :=
  map2alm_hasModes (maskE_modes lx ly) hk

/-- The direction of a wave vector along y. -/
theorem dirY {x y : ℝ} (hx : x = 0) (hy : y ≠ 0) : (modeDir x y).1 = 0 ∧ (modeDir x y).2 * (modeDir x y).2 = 1 := by
  have h1 := modeDir_mul x y
  have h2 := modeDir_unit x y
  subst hx
  have hs : √(0 * 0 + y * y) ≠ 0 := by
    rw [show (0 : ℝ) * 0 + y * y = y * y by ring]
    exact (Real.sqrt_pos.mpr (mul_self_pos.mpr hy)).ne'
  have h3 : (modeDir 0 y).1 = 0 := by
    rcases mul_eq_zero.mp h1.1 with h | h
    · exact absurd h hs
    · exact h
  refine ⟨h3, ?_⟩
  rw [h3] at h2
  linarith

theorem kx00 (lx ly : ℝ) : (fsE lx ly).kx 0 = 0 := by simp [FlatInfo.kx, waveNum]

theorem ky_ne {lx ly : ℝ} (hly : 0 < ly) {i : ℕ} (hi : i < 5) (h0 : i ≠ 0) : (fsE lx ly).ky i ≠ 0 :=
  waveNum_ne_zero hly hi h0

theorem skyE_modes (lx ly : ℝ) (hly : 0 < ly) : SkyHas (fsE lx ly) 2 skyE modesE := by
  have d1 := dirY (kx00 lx ly) (ky_ne (lx := lx) hly (i := 1) (by norm_num) (by norm_num))
  have d4 := dirY (kx00 lx ly) (ky_ne (lx := lx) hly (i := 4) (by norm_num) (by norm_num))
  have e1 : (((modeDir ((fsE lx ly).kx 0) ((fsE lx ly).ky 1)).2 : ℝ) : ℂ) * (((modeDir ((fsE lx ly).kx 0) ((fsE lx ly).ky 1)).2 : ℝ) : ℂ) = 1 := by
    exact_mod_cast d1.2
  have e4 : (((modeDir ((fsE lx ly).kx 0) ((fsE lx ly).ky 4)).2 : ℝ) : ℂ) * (((modeDir ((fsE lx ly).kx 0) ((fsE lx ly).ky 4)).2 : ℝ) : ℂ) = 1 := by
    exact_mod_cast d4.2
  unfold SkyHas
  rw [if_neg (by norm_num)]
  constructor
  · intro p _
    rw [sum2 (0, 1) (0, 4) (by simp) (by simp [memE]) (by simp [memE]) _
      (by intro k _ h1 h2; simp [modesE, h1, h2, eb2qu])]
    simp only [eb2qu_two, d1.1, d4.1, e1, e4, phaseY1, phaseY4]
    simp [modesE, skyE]
    have := cos_exp (2 * π * p.2 / 5)
    push_cast at this ⊢
    rw [this]
    ring
  · intro p _
    rw [sum2 (0, 1) (0, 4) (by simp) (by simp [memE]) (by simp [memE]) _
      (by intro k _ h1 h2; simp [modesE, h1, h2, eb2qu])]
    simp [eb2qu_two, d1.1, d4.1, modesE, skyE]

theorem resolvedE (lx ly : ℝ) : Resolved (fsE lx ly) maskE modesE := by
  refine ⟨1, 0, 0, 1, ?_, ?_, ?_, by simp [fsE], by simp [fsE]⟩
  · intro k hk h
    rw [maskE_alm lx ly hk] at h
    by_cases h0 : k = (0, 0)
    · simp [h0]
    · by_cases h1 : k = (1, 0) ∨ k = (4, 0)
      · rcases h1 with rfl | rfl <;> simp [fsE]
      · simp [h0, h1] at h
  · intro k hk h
    by_cases h1 : k = (0, 1) ∨ k = (0, 4)
    · rcases h1 with rfl | rfl <;> simp [fsE]
    · simp [modesE, h1] at h
  · intro k hk h
    simp [modesE] at h

theorem argsE_ok (env : FlatEnv) {lx ly : ℝ} (hlx : 0 < lx) (hly : 0 < ly) : ∃ f, nmtFieldFlat env (argsE lx ly) = .ok f := by
  unfold nmtFieldFlat
  have h1 : ¬ ((argsE lx ly).fs.lx < 0 ∨ (argsE lx ly).fs.ly < 0) := by
    simp only [argsE, fsE]
    push Not
    exact ⟨hlx.le, hly.le⟩
  rw [if_neg h1]
  have h2 : flatSpin (argsE lx ly) = .ok 2 := by simp [flatSpin, argsE]
  rw [h2]
  simp only [Outcome.bind]
  rw [if_neg (by simp)]
  have h3 : flatShapes (argsE lx ly) = .ok () := by simp [flatShapes, argsE, fsE]
  rw [h3]
  simp only [Outcome.bind]
  rw [if_neg (by simp only [argsE, fsE]; push Not; exact ⟨hlx, hly⟩)]
  simp [flatBeam, argsE, Outcome.bind]

end FlatFieldExample

open FlatFieldExample

/-- The hypotheses of the theorems of C63 are met: square pixels, a smooth mask and a sky of E modes. All B coefficients at
nonzero wave vectors vanish. -/
example : ∃ f, nmtFieldFlat stdEnv (argsE 1 1) = .ok f ∧ ∃ A, f.alms = some (some A) ∧ ∀ k ∈ (fsE 1 1).modes, k ≠ (0, 0) → A 1 k = 0 := by
  obtain ⟨f, hf⟩ := argsE_ok stdEnv (lx := 1) (ly := 1) one_pos one_pos
  exact ⟨f, hf, C63_no_leakage_partial stdEnv stdEnv_exact (argsE 1 1) _ f rfl rfl rfl hf rfl modesE (skyE_modes 1 1 one_pos)
    (resolvedE 1 1) 1 (Or.inr ⟨rfl, rfl⟩) fun k _ => by simp [modesE]⟩

/-- **C63 is false** for pixels that are not square: for 5×5 pixels of 1/5 by 2/5, a smooth mask and a sky of one E mode, with
exact transforms, the purified field has nonzero B coefficients. -/
theorem C63_rectangular_wrong (env : FlatEnv) (henv : env.Exact) :
    SkyHas (fsE 1 2) 2 skyE modesE ∧ (∀ k, modesE 1 k = 0) ∧ Resolved (fsE 1 2) maskE modesE ∧
      ∃ f, nmtFieldFlat env (argsE 1 2) = .ok f ∧ ∃ A, f.alms = some (some A) ∧ A 1 (1, 1) ≠ 0 := by
  have hsky := skyE_modes 1 2 two_pos
  refine ⟨hsky, fun k => by simp [modesE], resolvedE 1 2, ?_⟩
  obtain ⟨f, hf⟩ := argsE_ok env (lx := 1) (ly := 2) one_pos two_pos
  refine ⟨f, hf, _, flat_pure_alms rfl rfl rfl hf (Or.inr rfl), ?_⟩
  obtain ⟨c, hc⟩ := henv (fsE 1 2)
  show purifyFlatAlms (env.c2r (fsE 1 2)) (fsE 1 2) false true maskE ((fsE 1 2).map2alm maskE) skyE 1 (1, 1) ≠ 0
  rw [hc]
  have wx : (fsE 1 2).kx 1 = 2 * π := by simp [FlatInfo.kx, waveNum, fsE]
  have wy : (fsE 1 2).ky 1 = π := by simp [FlatInfo.ky, waveNum, fsE]
  have w0 : (fsE 1 2).kx 0 = 0 := kx00 1 2
  have w0' : (fsE 1 2).ky 0 = 0 := by simp [FlatInfo.ky, waveNum]
  have hpi := Real.pi_pos
  have hP : (fsE 1 2).pixMod (1, 1) = √2 * (2 * π / 5) := by
    unfold FlatInfo.pixMod waveNum fsE
    norm_num
    rw [show 2 * π / 5 * (2 * π / 5) + 2 * π / 5 * (2 * π / 5) = 2 * (2 * π / 5) ^ 2 by ring, Real.sqrt_mul (by norm_num),
      Real.sqrt_sq (by positivity)]
  have hPq : (fsE 1 2).pixMod (1, 0) = 2 * π / 5 := by
    unfold FlatInfo.pixMod waveNum fsE
    norm_num
    rw [show 2 * π / 5 * (2 * π / 5) = (2 * π / 5) ^ 2 by ring, Real.sqrt_sq (by positivity)]
  have d1 := deriv_hasModes (fs := fsE 1 2) (by norm_num [fsE]) (by norm_num [fsE]) c (noNyquist_of_resolved (resolvedE 1 2))
    (s := 1) (by norm_num)
  have d2 := deriv_hasModes (fs := fsE 1 2) (by norm_num [fsE]) (by norm_num [fsE]) c (noNyquist_of_resolved (resolvedE 1 2))
    (s := 2) (by norm_num)
  have hq : ((1, 0) : ℕ × ℕ) ∈ (fsE 1 2).modes := by simp [memE]
  rw [pure_sum c.run hsky (by rw [hP]; positivity) (Or.inr ⟨rfl, rfl⟩)]
  simp only [one_ne_zero, if_false]
  set w1 := fsAlm2map c.run (fsE 1 2) 1 (walmXLpower (fsE 1 2) ((fsE 1 2).map2alm maskE) 1) with hw1
  set w2 := fsAlm2map c.run (fsE 1 2) 2 (walmXLpower (fsE 1 2) ((fsE 1 2).map2alm maskE) 2) with hw2
  rw [sum2 (0, 1) (0, 4) (by simp) (by simp [memE]) (by simp [memE])]
  rotate_left
  · intro k _ h1 h2
    have z : ∀ X, quModes (fsE 1 2) modesE X k = 0 := by
      intro X; simp [quModes, modesE, h1, h2, eb2qu]
    simp [pureTerm, z, qu2eb]
  have s1 : (fsE 1 2).sub (1, 1) (0, 1) = (1, 0) := rfl
  have s4 : (fsE 1 2).sub (1, 1) (0, 4) = (1, 2) := rfl
  have hq2 : ((1, 2) : ℕ × ℕ) ∈ (fsE 1 2).modes := by simp [memE]
  have W4 : (fsE 1 2).map2alm maskE (1, 2) = 0 := by rw [maskE_alm 1 2 hq2]; simp
  have t4 : (pureTerm (fsE 1 2) maskE w1 w2 (quModes (fsE 1 2) modesE) (1, 1) (0, 4)).2 = 0 := by
    unfold pureTerm
    simp only [s4]
    rw [d1.1 _ hq2, d1.2 _ hq2, d2.1 _ hq2, d2.2 _ hq2]
    simp [walmXLpower, W4, eb2qu, qu2eb]
  rw [t4, add_zero]
  have dy := dirY w0 (by rw [wy]; exact hpi.ne' : (fsE 1 2).ky 1 ≠ 0)
  have Q : quModes (fsE 1 2) modesE 0 (0, 1) = -1 := by
    have e1 : (((modeDir ((fsE 1 2).kx 0) ((fsE 1 2).ky 1)).2 : ℝ) : ℂ) * (((modeDir ((fsE 1 2).kx 0) ((fsE 1 2).ky 1)).2 : ℝ) : ℂ) = 1 := by
      exact_mod_cast dy.2
    simp [quModes, eb2qu_two, modesE, dy.1, e1]
  have U : quModes (fsE 1 2) modesE 1 (0, 1) = 0 := by
    simp [quModes, eb2qu_two, modesE, dy.1]
  have dq : modeDir ((fsE 1 2).kx 1) ((fsE 1 2).ky 0) = (1, 0) := by
    have h : (0 : ℝ) < 2 * π := by positivity
    unfold modeDir
    rw [wx, w0', if_neg (by nlinarith), show 2 * π * (2 * π) + 0 * 0 = (2 * π) ^ 2 by ring, Real.sqrt_sq h.le, mul_one_div,
      div_self h.ne', zero_mul]
  have h5 : (0 : ℝ) < √5 := Real.sqrt_pos.mpr (by norm_num)
  have d11 : modeDir ((fsE 1 2).kx 1) ((fsE 1 2).ky 1) = (2 / √5, 1 / √5) := by
    unfold modeDir
    rw [wx, wy, if_neg (by nlinarith), show 2 * π * (2 * π) + π * π = 5 * π ^ 2 by ring, Real.sqrt_mul (by norm_num), Real.sqrt_sq hpi.le]
    ext <;> (simp only; field_simp)
  set W : ℂ := (fsE 1 2).map2alm maskE (1, 0) with hW
  have hW0 : W ≠ 0 := by
    rw [hW, maskE_alm 1 2 hq]
    have : ((1 * 2 / (2 * π) : ℝ) : ℂ) ≠ 0 := by
      rw [Complex.ofReal_ne_zero]; positivity
    simpa using this
  have t1 : (pureTerm (fsE 1 2) maskE w1 w2 (quModes (fsE 1 2) modesE) (1, 1) (0, 1)).2 = W * ((-(4 / 5) + 2 / (√2 * √5) : ℝ) : ℂ) := by
    unfold pureTerm
    simp only [s1]
    rw [d1.1 _ hq, d1.2 _ hq, d2.1 _ hq, d2.2 _ hq, Q, U, qu2eb_two, qu2eb_one, eb2qu_one, eb2qu_two, hP]
    simp only [dq, d11, walmXLpower, if_true, hPq, ← hW]
    have h5' : ((√5 : ℝ) : ℂ) * ((√5 : ℝ) : ℂ) = 5 := by
      rw [← Complex.ofReal_mul, Real.mul_self_sqrt (by norm_num)]; norm_num
    have h5n : ((√5 : ℝ) : ℂ) ≠ 0 := by rw [Complex.ofReal_ne_zero]; exact h5.ne'
    have h2n : ((√2 : ℝ) : ℂ) ≠ 0 := by
      rw [Complex.ofReal_ne_zero]; exact (Real.sqrt_pos.mpr (by norm_num)).ne'
    have hpn : (π : ℂ) ≠ 0 := by rw [Complex.ofReal_ne_zero]; exact hpi.ne'
    push_cast
    generalize ((√5 : ℝ) : ℂ) = r5 at *
    generalize ((√2 : ℝ) : ℂ) = r2 at *
    field_simp
    linear_combination (exp := 1) (-(40 * (π : ℂ) ^ 2 * r2 * W * r5)) * Complex.I_sq + 16 * (π : ℂ) ^ 2 * r2 ^ 2 * W * h5'
  rw [t1]
  refine mul_ne_zero hW0 ?_
  rw [Complex.ofReal_ne_zero]
  intro h
  have h10 : √2 * √5 = 5 / 2 := by
    have h2 : (0 : ℝ) < √2 := Real.sqrt_pos.mpr (by norm_num)
    field_simp at h
    linarith
  have : √2 * √5 * (√2 * √5) = 5 / 2 * (5 / 2) := by rw [h10]
  rw [show √2 * √5 * (√2 * √5) = (√2 * √2) * (√5 * √5) by ring, Real.mul_self_sqrt (by norm_num), Real.mul_self_sqrt (by norm_num)] at this
  norm_num at this

end NaMaster
