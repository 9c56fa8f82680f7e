import Verif.Flat.PurifyProps

/-! # Properties of flat-sky fields: purification (C63) -/

namespace NaMaster

open Real Finset

/-! ## Specification -/

/-- The inverse transform is exact on coefficients of real maps. -/
def FlatEnv.Exact (env : FlatEnv) : Prop := ∀ fs, ∃ c : C2r fs, env.c2r fs = c.run

/-- Component `X` (0 for E, 1 for B) is to be purified. -/
def FlatFieldArgs.Pure (a : FlatFieldArgs) (X : ℕ) : Prop := (X = 0 ∧ a.purifyE = true) ∨ (X = 1 ∧ a.purifyB = true)

/-! ## The constructor -/

theorem bind_eq_ok {α β : Type*} {o : Outcome α} {f : α → Outcome β} {b : β} (h : o.bind f = .ok b) : ∃ a, o = .ok a ∧ f a = .ok b := by
  cases o with
  | ok a => exact ⟨a, rfl, h⟩
  | raises e => simp [Outcome.bind] at h
  | crash => simp [Outcome.bind] at h

/-- What is known about a successful call with maps. -/
theorem flat_ok {env : FlatEnv} {a : FlatFieldArgs} {f : FlatFieldObj} {m : FlatStackArg} (hm : a.maps = some m)
    (h : nmtFieldFlat env a = .ok f) : ∃ spin beam, flatSpin a = .ok spin ∧ m.ncomp = nmapsOf spin ∧
      ((a.purifyE = true ∨ a.purifyB = true) → spin = 2) ∧ flatShapes a = .ok () ∧ 0 < a.fs.lx ∧ 0 < a.fs.ly ∧
      flatBeam a.beam = .ok beam ∧
      f = flatAlloc env ⟨a.fs, spin, a.mask, beam, if a.purifyE then 1 else 0, if a.purifyB then 1 else 0⟩ m.val
        (a.templates.map fun t => (t.ntemp, t.val)) a.tol a.maskedOnInput a.lite := by
  unfold nmtFieldFlat at h
  by_cases h0 : a.fs.lx < 0 ∨ a.fs.ly < 0
  · rw [if_pos h0] at h; cases h
  rw [if_neg h0] at h
  obtain ⟨spin, hs, h⟩ := bind_eq_ok h
  by_cases hp : (a.purifyE || a.purifyB) ∧ spin ≠ 2
  · rw [if_pos hp] at h; cases h
  rw [if_neg hp] at h
  obtain ⟨u, hsh, h⟩ := bind_eq_ok h
  by_cases hl : ¬ (a.fs.lx > 0 ∧ a.fs.ly > 0)
  · rw [if_pos hl] at h; cases h
  rw [if_neg hl] at h
  push Not at hl
  obtain ⟨beam, hb, h⟩ := bind_eq_ok h
  refine ⟨spin, beam, hs, ?_, ?_, hsh, hl.1, hl.2, hb, ?_⟩
  · unfold flatSpin at hs
    rw [hm] at hs
    simp only at hs
    unfold nmapsOf
    by_cases h1 : m.ncomp ≠ 1 ∧ m.ncomp ≠ 2
    · rw [if_pos h1] at hs; cases hs
    rw [if_neg h1] at hs
    cases hsp : a.spin with
    | none =>
      rw [hsp] at hs
      have hs := Outcome.ok.inj hs
      by_cases h2 : m.ncomp = 1
      · rw [if_pos h2] at hs; subst hs; simpa using h2
      · rw [if_neg h2] at hs; subst hs; simp; omega
    | some s =>
      rw [hsp] at hs
      simp only at hs
      by_cases h2 : (s ≠ 0 ∧ m.ncomp = 1) ∨ (s = 0 ∧ m.ncomp ≠ 1)
      · rw [if_pos h2] at hs; cases hs
      rw [if_neg h2] at hs
      have hs := Outcome.ok.inj hs
      subst hs
      split_ifs with h3 <;> omega
  · intro hpp
    by_contra hne
    exact hp ⟨by simpa using hpp, hne⟩
  · rw [hm] at h
    simp only [Outcome.ok.injEq] at h
    exact h.symm

/-- The coefficients of a purified field without templates. -/
theorem flat_pure_alms {env : FlatEnv} {a : FlatFieldArgs} {f : FlatFieldObj} {m : FlatStackArg} (hm : a.maps = some m)
    (ht : a.templates = none) (hi : a.maskedOnInput = false) (h : nmtFieldFlat env a = .ok f)
    (hp : a.purifyE = true ∨ a.purifyB = true) :
    f.alms = some (some (purifyFlatAlms (env.c2r a.fs) a.fs a.purifyE a.purifyB a.mask (a.fs.map2alm a.mask) m.val)) := by
  obtain ⟨spin, beam, -, -, -, -, -, -, -, rfl⟩ := flat_ok hm h
  have e1 : ((if a.purifyE then 1 else 0 : ℕ) == 1) = a.purifyE := by cases a.purifyE <;> rfl
  have e2 : ((if a.purifyB then 1 else 0 : ℕ) == 1) = a.purifyB := by cases a.purifyB <;> rfl
  have e3 : (a.purifyE || a.purifyB) = true := by simpa using hp
  unfold flatAlloc
  simp only [e1, e2, e3, if_true, ht, hi, Option.map_none, Option.getD_none, gt_iff_lt, lt_irrefl, if_false, Option.map_some,
    purifyFlat, Bool.false_eq_true, id]
  have : removeTempl 0 (fun _ => 0) (fun _ _ _ => 0) m.val = m.val := by
    funext c p; simp [removeTempl]
  rw [this]

/-! ## C63 -/

/-- **C63**, in part: square pixels, and a mask and a sky that together are resolved by the map. The coefficients of a purified
component at every nonzero wave vector `k` are the sum over the modes `k'` of the same component of the sky, multiplied by the
coefficient of the mask at `k - k'` and `|k'|^2/|k|^2`: they contain nothing of the other component. Missing: pixels that are
not square (`C63_rectangular_wrong`). -/
theorem C63_pure_partial (env : FlatEnv) (henv : env.Exact) (a : FlatFieldArgs) (m : FlatStackArg) (f : FlatFieldObj)
    (hm : a.maps = some m) (ht : a.templates = none) (hi : a.maskedOnInput = false) (h : nmtFieldFlat env a = .ok f)
    (hsq : SquarePixels a.fs) (F : ℕ → ℕ × ℕ → ℂ) (hF : SkyHas a.fs 2 m.val F) (hr : Resolved a.fs a.mask F) (X : ℕ) (hX : a.Pure X) :
    ∃ A, f.alms = some (some A) ∧ ∀ k ∈ a.fs.modes, k ≠ (0, 0) → A X k =
      ∑ k' ∈ a.fs.modes, a.fs.map2alm a.mask (a.fs.sub k k') *
        (((a.fs.kmod k'.1 k'.2 / a.fs.kmod k.1 k.2) ^ 2 : ℝ) : ℂ) * F X k' := by
  obtain ⟨c, hc⟩ := henv a.fs
  obtain ⟨-, -, -, -, -, -, hlx, hly, -, -⟩ := flat_ok hm h
  refine ⟨_, flat_pure_alms hm ht hi h (by rcases hX with h | h <;> simp [h.2]), fun k hk h0 => ?_⟩
  rw [hc]
  exact pure_formula hlx hly hsq c (noNyquist_of_resolved hr) hF hk h0 (noWrap_of_resolved hr hk) hX

/-- **C63**, in part: no leakage. If the sky has no modes of a purified component, all coefficients of that component at nonzero
wave vectors vanish, whatever the other component is. Missing: as for `C63_pure_partial`. -/
theorem C63_no_leakage_partial (env : FlatEnv) (henv : env.Exact) (a : FlatFieldArgs) (m : FlatStackArg) (f : FlatFieldObj)
    (hm : a.maps = some m) (ht : a.templates = none) (hi : a.maskedOnInput = false) (h : nmtFieldFlat env a = .ok f)
    (hsq : SquarePixels a.fs) (F : ℕ → ℕ × ℕ → ℂ) (hF : SkyHas a.fs 2 m.val F) (hr : Resolved a.fs a.mask F) (X : ℕ) (hX : a.Pure X)
    (hz : ∀ k ∈ a.fs.modes, F X k = 0) : ∃ A, f.alms = some (some A) ∧ ∀ k ∈ a.fs.modes, k ≠ (0, 0) → A X k = 0 := by
  obtain ⟨A, hA, hk⟩ := C63_pure_partial env henv a m f hm ht hi h hsq F hF hr X hX
  refine ⟨A, hA, fun k hk' h0 => ?_⟩
  rw [hk k hk' h0]
  exact Finset.sum_eq_zero fun k' hk' => by rw [hz k' hk', mul_zero]

/-- **C63**: a component that is not to be purified has the coefficients it has in a field without purification. -/
theorem C63_other_component (env : FlatEnv) (a : FlatFieldArgs) (m : FlatStackArg) (f f' : FlatFieldObj)
    (hm : a.maps = some m) (ht : a.templates = none) (hi : a.maskedOnInput = false) (h : nmtFieldFlat env a = .ok f)
    (h' : nmtFieldFlat env { a with purifyE := false, purifyB := false } = .ok f') (X : ℕ) (hn : ¬ a.Pure X) :
    ∃ A A', f.alms = some (some A) ∧ f'.alms = some (some A') ∧ ∀ k, A X k = A' X k := by
  by_cases hp : a.purifyE = true ∨ a.purifyB = true
  · obtain ⟨spin, beam, hs, -, hsp, -, -, -, -, -⟩ := flat_ok hm h
    obtain rfl := hsp hp
    obtain ⟨spin', beam', hs', -, -, -, -, -, -, rfl⟩ := flat_ok (a := { a with purifyE := false, purifyB := false }) hm h'
    have : spin' = 2 := by
      have e : flatSpin { a with purifyE := false, purifyB := false } = flatSpin a := rfl
      rw [e, hs] at hs'
      exact (Outcome.ok.inj hs').symm
    subst this
    refine ⟨_, fsMap2alm a.fs 2 (fun c p => m.val c p * a.mask p), flat_pure_alms hm ht hi h hp, ?_, ?_⟩
    · unfold flatAlloc
      simp only [ht, hi, Option.map_none, Option.getD_none, gt_iff_lt, lt_irrefl, if_false, Option.map_some, Bool.false_eq_true,
        Nat.reduceBEq, Bool.or_self]
      congr 2
      congr 1
      funext c p; simp [removeTempl]
    · intro k
      unfold purifyFlatAlms
      exact if_neg hn
  · push Not at hp
    have : ({ a with purifyE := false, purifyB := false } : FlatFieldArgs) = a := by
      cases a; simp_all
    rw [this, h] at h'
    obtain rfl := Outcome.ok.inj h'
    obtain ⟨spin, beam, -, -, -, -, -, -, -, rfl⟩ := flat_ok hm h
    have : ∃ A, (flatAlloc env ⟨a.fs, spin, a.mask, beam, if a.purifyE then 1 else 0, if a.purifyB then 1 else 0⟩ m.val
        (a.templates.map fun t => (t.ntemp, t.val)) a.tol a.maskedOnInput a.lite).alms = some (some A) := by
      unfold flatAlloc
      simp only [ht, Option.map_none, Option.getD_none, gt_iff_lt, lt_irrefl, if_false, Option.map_some]
      split_ifs <;> exact ⟨_, rfl⟩
    obtain ⟨A, hA⟩ := this
    exact ⟨A, A, hA, hA, fun _ => rfl⟩

end NaMaster
