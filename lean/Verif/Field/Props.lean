import Verif.Field.DeprojProps
import Mathlib.Algebra.Module.LinearMap.End
import Mathlib.Tactic.Module

/-!
# C38: iterative harmonic transforms; C51: anisotropic masks
-/

namespace NaMaster

open Finset

/-! ## C38 -/

section
variable {V W : Type*} [AddCommGroup V] [AddCommGroup W] [Module ℝ V] [Module ℝ W]

theorem jacobi_linear (A : V →ₗ[ℝ] W) (B : W →ₗ[ℝ] V) (s t : ℝ) (x y : V) (n : ℕ) :
    jacobi A B (s • x + t • y) n = s • jacobi A B x n + t • jacobi A B y n := by
  induction n with
  | zero => simp only [jacobi, map_add, map_smul]
  | succ n ih =>
    simp only [jacobi, ih, map_add, map_smul, map_sub]
    module

theorem jacobi_error (A : V →ₗ[ℝ] W) (B : W →ₗ[ℝ] V) (a : W) (n : ℕ) :
    jacobi A B (B a) n = a - ((1 - A ∘ₗ B) ^ (n + 1) : W →ₗ[ℝ] W) a := by
  induction n with
  | zero => simp only [jacobi, zero_add, pow_one, LinearMap.sub_apply, Module.End.one_apply, LinearMap.comp_apply, sub_sub_cancel]
  | succ n ih =>
    have h : ((1 - A ∘ₗ B) ^ (n + 1 + 1) : W →ₗ[ℝ] W) a = ((1 - A ∘ₗ B) ^ (n + 1) : W →ₗ[ℝ] W) a -
        A (B (((1 - A ∘ₗ B) ^ (n + 1) : W →ₗ[ℝ] W) a)) := by
      rw [pow_succ' (1 - A ∘ₗ B) (n + 1)]
      simp only [Module.End.mul_apply, LinearMap.sub_apply, Module.End.one_apply, LinearMap.comp_apply]
    simp only [jacobi, ih, h, map_sub]
    module

end

/-- The transforms of the backend for spin `s` and band limit `lmax` are the linear maps `A` (analysis) and `B` (synthesis),
and padding is linear. -/
structure LinearSht (S : Sht) (s : ℤ) (lmax : ℕ) (A : MapStack →ₗ[ℝ] Alms) (B : Alms →ₗ[ℝ] MapStack) (Z : MapStack →ₗ[ℝ] MapStack) :
    Prop where
  anal : S.m2a s lmax = A
  synth : S.a2m s lmax = B
  pad : S.pad = Z

/-- C38: `map2alm` is linear, for every number of iterations. -/
theorem C38_linear (S : Sht) (s : ℤ) (lmax : ℕ) (A : MapStack →ₗ[ℝ] Alms) (B : Alms →ₗ[ℝ] MapStack) (Z : MapStack →ₗ[ℝ] MapStack)
    (h : LinearSht S s lmax A B Z) (n : ℕ) (x y : ℝ) (m1 m2 : MapStack) :
    S.map2alm s lmax n (x • m1 + y • m2) = x • S.map2alm s lmax n m1 + y • S.map2alm s lmax n m2 := by
  unfold Sht.map2alm
  rw [h.anal, h.synth, h.pad, map_add, map_smul, map_smul, jacobi_linear]

/-- C38: for a map with coefficients `a` the error after `n` iterations is the `n+1`-th power of one minus analysis after
synthesis, applied to `a`. -/
theorem C38_error (S : Sht) (s : ℤ) (lmax : ℕ) (A : MapStack →ₗ[ℝ] Alms) (B : Alms →ₗ[ℝ] MapStack) (Z : MapStack →ₗ[ℝ] MapStack)
    (h : LinearSht S s lmax A B Z) (n : ℕ) (m : MapStack) (a : Alms) (hm : S.pad m = B a) :
    S.map2alm s lmax n m = a - ((1 - A ∘ₗ B) ^ (n + 1) : Alms →ₗ[ℝ] Alms) a := by
  unfold Sht.map2alm
  rw [h.anal, h.synth, hm, jacobi_error]

/-- C38: if analysis inverts synthesis the coefficients are exact, for every number of iterations. -/
theorem C38_exact (S : Sht) (s : ℤ) (lmax : ℕ) (A : MapStack →ₗ[ℝ] Alms) (B : Alms →ₗ[ℝ] MapStack) (Z : MapStack →ₗ[ℝ] MapStack)
    (h : LinearSht S s lmax A B Z) (n : ℕ) (m : MapStack) (a : Alms) (hm : S.pad m = B a) (hAB : ∀ b, A (B b) = b) :
    S.map2alm s lmax n m = a := by
  rw [C38_error S s lmax A B Z h n m a hm]
  have h0 : (1 - A ∘ₗ B : Alms →ₗ[ℝ] Alms) = 0 := by
    ext1 b
    simp [hAB]
  rw [h0, zero_pow (by omega), LinearMap.zero_apply, sub_zero]

/-- A transform with a quadrature error: synthesis copies the real parts of the coefficients with `m = 0`, analysis returns half
the map. -/
noncomputable def halfA : MapStack →ₗ[ℝ] Alms where
  toFun m := fun c l mm => if mm = 0 then ((m c l / 2 : ℝ) : ℂ) else 0
  map_add' x y := by
    funext c l mm
    by_cases h : mm = 0
    · simp [h, add_div]
    · simp [h]
  map_smul' r x := by
    funext c l mm
    by_cases h : mm = 0
    · simp [h, mul_div_assoc]
    · simp [h]

/-- The synthesis of the example. -/
noncomputable def halfB : Alms →ₗ[ℝ] MapStack where
  toFun a := fun c p => (a c p 0).re
  map_add' x y := by funext c p; simp
  map_smul' r x := by funext c p; simp

/-- The hypotheses of the C38 theorems are met by a transform with an error of one half: after three iterations the
coefficients are wrong by one part in sixteen. -/
example : ∃ S : Sht, LinearSht S 0 2 halfA halfB LinearMap.id ∧
    S.map2alm 0 2 3 (halfB fun _ _ mm => if mm = 0 then 1 else 0) 0 1 0 = 15 / 16 := by
  refine ⟨⟨fun _ _ => halfA, fun _ _ => halfB, id, id⟩, ⟨rfl, rfl, rfl⟩, ?_⟩
  simp only [Sht.map2alm, jacobi, halfA, halfB, LinearMap.coe_mk, AddHom.coe_mk, id, Pi.sub_apply]
  norm_num

/-! ## C51 -/

/-- A constructor call with maps and an anisotropic mask. -/
structure AnisoCall (a : FieldArgs) (m : StackArg) (m22 m12 : ℕ → ℝ) : Prop where
  maps : a.maps = some m
  mask22 : a.mask22 = some m22
  mask12 : a.mask12 = some m12

/-- The isotropic and anisotropic components of the mask. -/
noncomputable def anisoMasks (a : FieldArgs) (m22 m12 : ℕ → ℝ) : (ℕ → ℝ) × Option (ℕ → ℕ → ℝ) :=
  (fun p => 0.5 * (a.mask p + m22 p), some fun c p => if c = 0 then 0.5 * (a.mask p - m22 p) else if c = 1 then m12 p else 0)

/-- Mean over the sky of the trace of the weight matrix. -/
noncomputable def meanTrace (P : Pix) (a : FieldArgs) (m22 : ℕ → ℝ) : ℝ := (∑ p ∈ range P.npix, (a.mask p + m22 p)) / P.npix

theorem fieldMasks_aniso {P : Pix} {a : FieldArgs} {m22 m12 : ℕ → ℝ} {mk : (ℕ → ℝ) × Option (ℕ → ℕ → ℝ)} (h22 : a.mask22 = some m22)
    (h12 : a.mask12 = some m12) (h : fieldMasks P a = .ok mk) : mk = anisoMasks a m22 m12 ∧
      ∀ p < P.npix, -1e-5 * meanTrace P a m22 ≤ a.mask p * m22 p - m12 p ^ 2 := by
  unfold fieldMasks at h
  rw [h22, h12] at h
  simp only at h
  split_ifs at h with h1
  simp only [Outcome.ok.injEq] at h
  refine ⟨h.symm, fun p hp => ?_⟩
  push Not at h1
  exact h1 p (mem_range.2 hp)

theorem aniso_ok {env : FieldEnv} {a : FieldArgs} {m : StackArg} {m22 m12 : ℕ → ℝ} {f : FieldObj} (hc : AnisoCall a m m22 m12)
    (h : nmtField env a = .ok f) : fieldMasks env.pix a = .ok (anisoMasks a m22 m12) ∧ m.ncomp = 2 ∧ m.npix = env.pix.npix ∧
      a.purifyE = false ∧ a.purifyB = false ∧ a.templates = none ∧ ∃ s ≠ 0, fieldFinish env a
        (baseObj a (anisoMasks a m22 m12) (a.lmax.getD env.lmaxDefault) (a.lmaxMask.getD env.lmaxDefault) s)
        (tab2 m.ncomp m.npix m.val) none = .ok f := by
  unfold nmtField at h
  rcases hf : fieldChecks env a with pl | e | _
  · rw [hf] at h
    unfold fieldChecks at hf
    rcases hm : fieldMasks env.pix a with mk | e | _
    · obtain ⟨rfl, _⟩ := fieldMasks_aniso hc.mask22 hc.mask12 hm
      rw [hm] at hf
      simp only [Outcome.bind, hc.maps] at hf
      split_ifs at hf with h1 h2
      unfold mapChecks at hf
      rcases hs : pickSpin m.ncomp a.spin with s | e | _
      · rw [hs] at hf
        have hsome : (anisoMasks a m22 m12).2.isSome = true := rfl
        simp only [Outcome.bind, hsome, true_and] at hf
        split_ifs at hf with g1 g2 g3 g4 g5 g6
        have hte : a.templates = none := by
          rcases ht : a.templates with _ | t
          · rfl
          · rw [ht] at g6; simp at g6
        rw [hte] at hf
        simp only [Outcome.ok.injEq] at hf
        rw [← hf] at h
        simp only [Outcome.bind] at h
        have hp := pickSpin_ok hs (by omega)
        refine ⟨rfl, ?_, by omega, ?_, ?_, hte, s, g4, h⟩
        · rw [← hp.2, if_neg g4]
        · simp only [Bool.or_eq_true, not_or] at g5; simpa using g5.1
        · simp only [Bool.or_eq_true, not_or] at g5; simpa using g5.2
      · rw [hs] at hf; simp only [Outcome.bind] at hf; split_ifs at hf
      · rw [hs] at hf; simp only [Outcome.bind] at hf; split_ifs at hf
    · rw [hm] at hf; simp [Outcome.bind] at hf
    · rw [hm] at hf; simp [Outcome.bind] at hf
  · rw [hf] at h; simp [Outcome.bind] at h
  · rw [hf] at h; simp [Outcome.bind] at h

/-- C51: the maps of a field with an anisotropic mask are, in every pixel, the product of the input maps with the symmetric
matrix of the masks. -/
theorem C51_product (env : FieldEnv) (a : FieldArgs) (m : StackArg) (m22 m12 : ℕ → ℝ) (f : FieldObj) (hc : AnisoCall a m m22 m12)
    (hl : a.lite = false) (hi : a.maskedOnInput = false) (h : nmtField env a = .ok f) :
    ∃ r, f.maps = some (some r) ∧ f.alm = some (some (env.sht.map2alm f.spin f.lmax a.nIter r)) ∧ ∀ p < m.npix,
      r 0 p = a.mask p * m.val 0 p + m12 p * m.val 1 p ∧ r 1 p = m12 p * m.val 0 p + m22 p * m.val 1 p := by
  obtain ⟨hm, hn, hp, hE, hB, ht, s, hs, hf⟩ := aniso_ok hc h
  unfold fieldFinish at hf
  simp only [hE, hB, hi, hl, Bool.or_self, Outcome.bind, Bool.false_eq_true, if_false, Option.isSome_none, false_and,
    Sht.map2almO, Option.map_some, Outcome.ok.injEq] at hf
  refine ⟨_, by rw [← hf], by rw [← hf], ?_⟩
  intro p hpp
  simp only [applyMask, baseObj, anisoMasks, hn]
  rw [tab2_of_lt _ (by norm_num) hpp, tab2_of_lt _ (by norm_num) hpp]
  constructor
  · norm_num; ring
  · norm_num; ring

/-- C51: for every accepted anisotropic mask and every pixel, trace times quadratic form of the weight matrix is not below
minus the tolerance; in pixels where the check also passes with tolerance zero it is not negative. -/
theorem C51_form (env : FieldEnv) (a : FieldArgs) (m : StackArg) (m22 m12 : ℕ → ℝ) (f : FieldObj) (hc : AnisoCall a m m22 m12)
    (h : nmtField env a = .ok f) (p : ℕ) (hp : p < env.pix.npix) (q u : ℝ) :
    -(1e-5 * meanTrace env.pix a m22) * (q ^ 2 + u ^ 2) ≤
      (a.mask p + m22 p) * (a.mask p * q ^ 2 + 2 * m12 p * q * u + m22 p * u ^ 2) ∧
    (0 ≤ a.mask p * m22 p - m12 p ^ 2 → 0 ≤ (a.mask p + m22 p) * (a.mask p * q ^ 2 + 2 * m12 p * q * u + m22 p * u ^ 2)) := by
  have h1 := (fieldMasks_aniso hc.mask22 hc.mask12 (aniso_ok hc h).1).2 p hp
  have hch : (a.mask p + m22 p) * (a.mask p * q ^ 2 + 2 * m12 p * q * u + m22 p * u ^ 2) =
      (a.mask p * q + m12 p * u) ^ 2 + (m12 p * q + m22 p * u) ^ 2 + (a.mask p * m22 p - m12 p ^ 2) * (q ^ 2 + u ^ 2) := by ring
  rw [hch]
  have hq : 0 ≤ q ^ 2 + u ^ 2 := by positivity
  constructor
  · nlinarith [sq_nonneg (a.mask p * q + m12 p * u), sq_nonneg (m12 p * q + m22 p * u), mul_le_mul_of_nonneg_right h1 hq]
  · intro hdet; positivity

/-- C51: combinations that are not supported are rejected: one component missing, scalar fields, purification, templates. -/
theorem C51_rejects (env : FieldEnv) (a : FieldArgs) :
    ((a.mask22.isSome ≠ a.mask12.isSome) → nmtField env a = .raises .value) ∧
    (∀ m m22 m12 f, AnisoCall a m m22 m12 → nmtField env a = .ok f →
      f.spin ≠ 0 ∧ a.purifyE = false ∧ a.purifyB = false ∧ a.templates = none) := by
  constructor
  · intro hne
    have : fieldMasks env.pix a = .raises .value := by
      unfold fieldMasks
      rcases h22 : a.mask22 with _ | m22 <;> rcases h12 : a.mask12 with _ | m12
      · exact absurd (by rw [h22, h12]) hne
      · rfl
      · rfl
      · exact absurd (by rw [h22, h12]; rfl) hne
    unfold nmtField fieldChecks
    rw [this]
    rfl
  · intro m m22 m12 f hc h
    obtain ⟨hm, hn, hp, hE, hB, ht, s, hs, hf⟩ := aniso_ok hc h
    refine ⟨?_, hE, hB, ht⟩
    unfold fieldFinish at hf
    simp only [hE, hB, Bool.or_self, Outcome.bind, Bool.false_eq_true, if_false, Option.isSome_none, false_and,
      Outcome.ok.injEq] at hf
    rw [← hf]
    exact hs

/-- A field with an anisotropic mask, the same in both pixels. -/
noncomputable def anisoArgs (m11 m22 m12 : ℝ) : FieldArgs :=
  { twoArgs ⟨2, 2, fun c p => if c = 0 then (if p = 0 then 1 else 2) else 3⟩ ⟨0, 0, 0, fun _ _ _ => 0⟩ with
    mask := fun _ => m11, mask22 := some fun _ => m22, mask12 := some fun _ => m12, templates := none }

theorem aniso_accept (m11 m22 m12 : ℝ) (h : -1e-5 * (m11 + m22) ≤ m11 * m22 - m12 ^ 2) :
    ∃ f, nmtField twoPix (anisoArgs m11 m22 m12) = .ok f := by
  have hmean : meanTrace twoPix.pix (anisoArgs m11 m22 m12) (fun _ => m22) = m11 + m22 := by
    simp [meanTrace, anisoArgs, twoPix, sum_range_succ]; ring
  have hm : fieldMasks twoPix.pix (anisoArgs m11 m22 m12) = .ok (anisoMasks (anisoArgs m11 m22 m12) (fun _ => m22) fun _ => m12) := by
    unfold fieldMasks
    have h22 : (anisoArgs m11 m22 m12).mask22 = some fun _ => m22 := rfl
    have h12 : (anisoArgs m11 m22 m12).mask12 = some fun _ => m12 := rfl
    rw [h22, h12]
    simp only
    rw [if_neg]
    · rfl
    · rintro ⟨p, _, hp⟩
      have hp' : m11 * m22 - m12 ^ 2 < -1e-5 * meanTrace twoPix.pix (anisoArgs m11 m22 m12) (fun _ => m22) := hp
      rw [hmean] at hp'
      linarith
  unfold nmtField fieldChecks
  rw [hm]
  simp only [Outcome.bind, anisoArgs, twoArgs, twoPix, mapChecks, pickSpin, anisoMasks]
  norm_num
  unfold fieldFinish
  simp [Outcome.bind]

/-- The hypotheses of the C51 theorems are met by a mask with correlated components. -/
example : ∃ f r, nmtField twoPix (anisoArgs 2 1 1) = .ok f ∧ f.maps = some (some r) ∧ r 0 1 = 7 ∧ r 1 1 = 5 := by
  obtain ⟨f, hf⟩ := aniso_accept 2 1 1 (by norm_num)
  obtain ⟨r, h1, _, h2⟩ := C51_product twoPix (anisoArgs 2 1 1) _ (fun _ => 1) (fun _ => 1) f ⟨rfl, rfl, rfl⟩ rfl rfl hf
  refine ⟨f, r, hf, h1, ?_, ?_⟩
  · rw [(h2 1 (by norm_num)).1]; norm_num [anisoArgs]
  · rw [(h2 1 (by norm_num)).2]; norm_num

/-- The check of C51 depends on the units of the masks: the same weight matrix, with eigenvalues of opposite signs and similar
size, is rejected in one unit and accepted in a unit a million times larger. -/
theorem C51_units_wrong : (∃ f, nmtField twoPix (anisoArgs 1e-6 1e-6 2e-6) = .ok f) ∧
    nmtField twoPix (anisoArgs 1 1 2) = .raises .value ∧
    (1e-6 * (1 : ℝ) ^ 2 + 2 * 2e-6 * 1 * (-1) + 1e-6 * (-1) ^ 2 = -2e-6) := by
  refine ⟨aniso_accept _ _ _ (by norm_num), ?_, by norm_num⟩
  have hm : fieldMasks twoPix.pix (anisoArgs 1 1 2) = .raises .value := by
    unfold fieldMasks
    have h22 : (anisoArgs 1 1 2).mask22 = some fun _ => 1 := rfl
    have h12 : (anisoArgs 1 1 2).mask12 = some fun _ => 2 := rfl
    rw [h22, h12]
    simp only
    rw [if_pos]
    exact ⟨0, by simp [twoPix], by norm_num [anisoArgs, twoPix, sum_range_succ]⟩
  unfold nmtField fieldChecks
  rw [hm]
  rfl

end NaMaster
