import Verif.Field.BiasProps

/-! # A case of C59 -/

namespace NaMaster

open Finset

/-- Analysis with two pixels: the sum of the first map. -/
noncomputable def monoA : MapStack →ₗ[ℝ] Alms where
  toFun m := fun c l k => if c = 0 ∧ l = 0 ∧ k = 0 then ((m 0 0 + m 0 1 : ℝ) : ℂ) else 0
  map_add' x y := by
    funext c l k
    simp only [Pi.add_apply]
    split_ifs
    · push_cast; ring
    · simp
  map_smul' r x := by
    funext c l k
    simp only [Pi.smul_apply, smul_eq_mul, RingHom.id_apply, Complex.real_smul]
    split_ifs
    · push_cast; ring
    · simp

/-- Synthesis of a constant map. -/
noncomputable def monoB : Alms →ₗ[ℝ] MapStack where
  toFun a := fun c p => if c < 1 ∧ p < 2 then (a 0 0 0).re else 0
  map_add' x y := by
    funext c p
    simp only [Pi.add_apply]
    split_ifs <;> simp
  map_smul' r x := by
    funext c p
    simp only [Pi.smul_apply, smul_eq_mul, RingHom.id_apply]
    split_ifs <;> simp

/-- Two pixels and transforms that see the mean of the map. -/
noncomputable def monoEnv : FieldEnv where
  pix := ⟨2, fun _ => 1⟩
  sht := ⟨fun _ _ => monoA, fun _ _ => monoB, id, id⟩
  eig := ⟨fun _ M _ => M 0 0, fun _ _ _ _ => 1⟩
  inv := fun _ _ => none
  lmaxDefault := 1

/-- A scalar field with one template, which is one in the first pixel. -/
noncomputable def monoArgs : FieldArgs where
  mask := fun _ => 1
  mask22 := none
  mask12 := none
  maps := none
  spin := none
  templates := some ⟨1, 1, 2, fun _ => twoMap 1 0⟩
  beam := none
  purifyE := false
  purifyB := false
  nIter := 0
  nIterMask := 0
  tol := 1e-3
  lmax := none
  lmaxMask := none
  maskedOnInput := false
  lite := false

/-- A constant map with random sign. -/
def coin (ω : Bool) : MapStack := fun _ _ => if ω then 1 else -1

/-- The mean over the two signs. -/
noncomputable def coinMean : (Bool → ℝ) →ₗ[ℝ] ℝ where
  toFun f := (f true + f false) / 2
  map_add' f g := by simp only [Pi.add_apply]; ring
  map_smul' r f := by simp only [Pi.smul_apply, smul_eq_mul, RingHom.id_apply]; ring

/-- The spectrum of the signal. -/
noncomputable def monoGuess : Arr2 ℝ := ⟨1, 2, fun _ l => if l = 0 then 1 else 0⟩

theorem mono_field (v : MapStack) : ∃ f, nmtField monoEnv (monoArgs.withMaps 1 2 v) = .ok f ∧ f.iM ≠ some none := by
  unfold nmtField fieldChecks fieldMasks mapChecks fieldFinish deproject pinvh spectralInverse
  norm_num [monoArgs, monoEnv, Outcome.bind, pickSpin, baseObj, FieldArgs.withMaps, tab2, Pix.dot, twoMap, sum_range_succ, maxUpTo]
  exact Option.some_ne_none _

theorem mono_bare (v : MapStack) : ∃ f, nmtField monoEnv (monoArgs.bare.withMaps 1 2 v) = .ok f := by
  unfold nmtField fieldChecks fieldMasks mapChecks fieldFinish
  simp [monoArgs, monoEnv, Outcome.bind, pickSpin, baseObj, FieldArgs.withMaps, FieldArgs.bare]

theorem mono_cov (cl : ℕ → ℕ → ℕ → ℝ) (hcl : cl 0 0 0 = 1) : IsoCov coinMean monoEnv 0 1 0 0 1 1 cl coin coin := by
  intro x c hc p hp
  obtain rfl : c = 0 := by omega
  have hp' : p < 2 := hp
  simp only [coinMean, LinearMap.coe_mk, AddHom.coe_mk, coin, Pix.dot, monoEnv, sum_range_succ, sum_range_zero, Sht.alm2map, Sht.map2alm,
    jacobi, id, mixCl, almxfl, monoA, monoB, tab2, hp', hcl]
  norm_num
  ring

/-- C59 for this field: the bias is not zero. -/
example : ∃ (B : Arr2 ℝ) (f g : Bool → FieldObj) (F G : Bool → Arr2 ℝ),
    (∀ ω, nmtField monoEnv (monoArgs.withMaps 1 2 (coin ω)) = .ok (f ω)) ∧
    (∀ ω, nmtField monoEnv (monoArgs.bare.withMaps 1 2 (coin ω)) = .ok (g ω)) ∧
    (∀ ω, deprojectionBias monoEnv 0 true (f ω) (f ω) monoGuess = .ok (some B)) ∧
    (∀ ω, computeCoupledCell ((f ω).view monoEnv.sht (.healpix 1)) ((f ω).view monoEnv.sht (.healpix 1)) true = .ok (some (F ω))) ∧
    (∀ ω, computeCoupledCell ((g ω).view monoEnv.sht (.healpix 1)) ((g ω).view monoEnv.sht (.healpix 1)) true = .ok (some (G ω))) ∧
    coinMean (fun ω => (F ω).val 0 0) = coinMean (fun ω => (G ω).val 0 0) + B.val 0 0 := by
  choose f hf hq using fun ω => mono_field (coin ω)
  choose g hg using fun ω => mono_bare (coin ω)
  have hi : IsoCall monoArgs := ⟨rfl, rfl, rfl, rfl, by norm_num [monoArgs]⟩
  obtain ⟨B, F, G, h1, h2, h3, -, -, h4⟩ := C59_mean coinMean monoEnv
    (fun s l => ⟨monoA, monoB, LinearMap.id, rfl, rfl, rfl⟩)
    (fun s l a => by
      funext c p
      simp only [Sht.alm2map, monoEnv, monoB, LinearMap.coe_mk, AddHom.coe_mk, id, tab2]
      split_ifs <;> first | rfl | (exfalso; omega))
    (.healpix 1) monoArgs monoArgs hi hi 0 rfl rfl 1 1 1 rfl rfl rfl coin coin f f g g hf hf hg hg hq hq monoGuess rfl rfl
    (mono_cov _ rfl) (mono_cov _ rfl) true
  refine ⟨B, f, g, F, G, hf, hg, fun ω => ?_, h2, h3, h4 0 (by norm_num) 0 (by norm_num)⟩
  rw [← h1 ω, view_compat _ _ _ _ _ rfl rfl]

end NaMaster
