import Verif.Field.Model

/-! # Property C65, curved sky: maps that are masked on input -/

namespace NaMaster

open Finset

/-! ## Specification -/

/-- The call with maps and templates multiplied by the mask beforehand, and `masked_on_input=True`. `w` and `wA` are the
isotropic and anisotropic parts of the mask. -/
def FieldArgs.premasked (a : FieldArgs) (w : ℕ → ℝ) (wA : Option (ℕ → ℕ → ℝ)) : FieldArgs :=
  { a with
    maps := a.maps.map fun m => { m with val := applyMask w wA m.val }
    templates := a.templates.map fun t => { t with val := fun i c p => t.val i c p * w p }
    maskedOnInput := true }

/-! ## Lemmas -/

theorem fieldMasks_premasked (P : Pix) (a : FieldArgs) (w : ℕ → ℝ) (wA : Option (ℕ → ℕ → ℝ)) :
    fieldMasks P (a.premasked w wA) = fieldMasks P a := rfl

theorem baseObj_premasked (a : FieldArgs) (w : ℕ → ℝ) (wA : Option (ℕ → ℕ → ℝ)) (mk : (ℕ → ℝ) × Option (ℕ → ℕ → ℝ)) (l lm : ℤ) :
    baseObj (a.premasked w wA) mk l lm = baseObj a mk l lm := rfl

/-- Tabulating commutes with masking. -/
theorem tab2_applyMask (w : ℕ → ℝ) (wA : Option (ℕ → ℕ → ℝ)) (nc np : ℕ) (hA : wA.isSome → nc = 2) (v : MapStack) :
    tab2 nc np (applyMask w wA v) = applyMask w wA (tab2 nc np v) := by
  funext c p
  cases wA with
  | none =>
    simp only [applyMask, tab2]
    split_ifs <;> simp
  | some ma =>
    have : nc = 2 := hA rfl
    subst this
    simp only [applyMask, tab2]
    by_cases hp : p < np
    · by_cases h0 : c = 0
      · simp [h0, hp]
      · by_cases h1 : c = 1
        · simp [h1, hp]
        · have : ¬ c < 2 := by omega
          simp [h0, h1, this]
    · simp [hp]

theorem tab2_mask_mul (w : ℕ → ℝ) (nc np : ℕ) (v : MapStack) : (tab2 nc np fun c p => v c p * w p) = fun c p => tab2 nc np v c p * w p := by
  funext c p
  simp only [tab2]
  split_ifs <;> simp

/-- The plan of a call with maps masked beforehand. -/
def FieldPlan.premask (w : ℕ → ℝ) (wA : Option (ℕ → ℕ → ℝ)) : FieldPlan → FieldPlan
  | .maskOnly o => .maskOnly o
  | .withMaps o m t => .withMaps o (applyMask w wA m) (t.map fun t => { t with val := fun i c p => t.val i c p * w p })

theorem pickSpin_nmaps {n : ℕ} {s : Option ℤ} {r : ℤ} (h : pickSpin n s = .ok r) (hn : n = 1 ∨ n = 2) (hr : r ≠ 0) : n = 2 := by
  unfold pickSpin at h
  cases s with
  | none =>
    have h := Outcome.ok.inj h
    by_cases h1 : n = 1
    · rw [if_pos h1] at h; exact absurd h.symm hr
    · omega
  | some s =>
    simp only at h
    by_cases h1 : (s ≠ 0 ∧ n = 1) ∨ (s = 0 ∧ n ≠ 1)
    · rw [if_pos h1] at h; cases h
    · rw [if_neg h1] at h
      have h := Outcome.ok.inj h
      subst h
      omega

theorem mapChecks_premasked (npix : ℕ) (a : FieldArgs) (w : ℕ → ℝ) (wA : Option (ℕ → ℕ → ℝ)) (o : ℤ → FieldObj) (m : StackArg) :
    mapChecks npix (a.premasked w wA) wA.isSome o { m with val := applyMask w wA m.val } =
      (mapChecks npix a wA.isSome o m).bind fun pl => .ok (pl.premask w wA) := by
  unfold mapChecks
  by_cases h1 : m.ncomp ≠ 1 ∧ m.ncomp ≠ 2
  · rw [if_pos h1, if_pos h1]; rfl
  rw [if_neg h1, if_neg h1]
  have hs : (a.premasked w wA).spin = a.spin := rfl
  rw [hs]
  cases hsp : pickSpin m.ncomp a.spin with
  | raises e => rfl
  | crash => rfl
  | ok spin =>
    simp only [Outcome.bind]
    have e1 : (a.premasked w wA).purifyE = a.purifyE := rfl
    have e2 : (a.premasked w wA).purifyB = a.purifyB := rfl
    rw [e1, e2]
    by_cases h2 : m.npix ≠ npix
    · rw [if_pos h2, if_pos h2]
    rw [if_neg h2, if_neg h2]
    by_cases h3 : (a.purifyE || a.purifyB) = true ∧ spin ≠ 2
    · rw [if_pos h3, if_pos h3]
    rw [if_neg h3, if_neg h3]
    by_cases h4 : wA.isSome = true ∧ spin = 0
    · rw [if_pos h4, if_pos h4]
    rw [if_neg h4, if_neg h4]
    by_cases h5 : wA.isSome = true ∧ (a.purifyE || a.purifyB) = true
    · rw [if_pos h5, if_pos h5]
    rw [if_neg h5, if_neg h5]
    have ht : (a.premasked w wA).templates = a.templates.map fun t => { t with val := fun i c p => t.val i c p * w p } := rfl
    rw [ht]
    have hnc : wA.isSome → m.ncomp = 2 := fun hA => pickSpin_nmaps hsp (by omega) (fun h0 => h4 ⟨hA, h0⟩)
    cases htt : a.templates with
    | none =>
      simp only [Option.map_none, Option.isSome_none, Bool.false_eq_true, and_false, if_false, FieldPlan.premask]
      rw [tab2_applyMask _ _ _ _ hnc]
    | some t =>
      simp only [Option.map_some, Option.isSome_some, and_true]
      by_cases h6 : wA.isSome = true
      · rw [if_pos h6, if_pos h6]
      rw [if_neg h6, if_neg h6]
      by_cases h7 : t.ntemp = 0
      · rw [if_pos h7, if_pos h7]
      rw [if_neg h7, if_neg h7]
      by_cases h8 : t.ncomp ≠ m.ncomp
      · rw [if_pos h8, if_pos h8]
      rw [if_neg h8, if_neg h8]
      by_cases h9 : t.npix ≠ npix
      · rw [if_pos h9, if_pos h9]
      rw [if_neg h9, if_neg h9]
      simp only [FieldPlan.premask, Option.map_some, tab2_mask_mul]
      rw [tab2_applyMask _ _ _ _ hnc]

theorem mapChecks_obj {npix : ℕ} {a : FieldArgs} {aniso : Bool} {o : ℤ → FieldObj} {m : StackArg} {pl : FieldPlan}
    (h : mapChecks npix a aniso o m = .ok pl) : ∃ spin v t, pl = .withMaps (o spin) v t ∧ (∀ c p, ¬ p < npix → v c p = 0) ∧
      (∀ t', t = some t' → ∀ i c p, ¬ p < npix → t'.val i c p = 0) := by
  unfold mapChecks at h
  by_cases h1 : m.ncomp ≠ 1 ∧ m.ncomp ≠ 2
  · rw [if_pos h1] at h; cases h
  rw [if_neg h1] at h
  cases hsp : pickSpin m.ncomp a.spin with
  | raises e => rw [hsp] at h; cases h
  | crash => rw [hsp] at h; cases h
  | ok spin =>
    rw [hsp] at h
    simp only [Outcome.bind] at h
    by_cases h2 : m.npix ≠ npix
    · rw [if_pos h2] at h; cases h
    rw [if_neg h2] at h
    by_cases h3 : (a.purifyE || a.purifyB) = true ∧ spin ≠ 2
    · rw [if_pos h3] at h; cases h
    rw [if_neg h3] at h
    by_cases h4 : aniso = true ∧ spin = 0
    · rw [if_pos h4] at h; cases h
    rw [if_neg h4] at h
    by_cases h5 : aniso = true ∧ (a.purifyE || a.purifyB) = true
    · rw [if_pos h5] at h; cases h
    rw [if_neg h5] at h
    by_cases h6 : aniso = true ∧ a.templates.isSome = true
    · rw [if_pos h6] at h; cases h
    rw [if_neg h6] at h
    push Not at h2
    have hv : ∀ c p, ¬ p < npix → tab2 m.ncomp m.npix m.val c p = 0 := by
      intro c p hp
      unfold tab2
      rw [if_neg (fun hh => hp (h2 ▸ hh.2))]
    cases htt : a.templates with
    | none =>
      rw [htt] at h
      exact ⟨spin, _, none, (Outcome.ok.inj h).symm, hv, fun t' ht' => by cases ht'⟩
    | some t =>
      rw [htt] at h
      simp only at h
      by_cases h7 : t.ntemp = 0
      · rw [if_pos h7] at h; cases h
      rw [if_neg h7] at h
      by_cases h8 : t.ncomp ≠ m.ncomp
      · rw [if_pos h8] at h; cases h
      rw [if_neg h8] at h
      by_cases h9 : t.npix ≠ npix
      · rw [if_pos h9] at h; cases h
      rw [if_neg h9] at h
      push Not at h9
      refine ⟨spin, _, _, (Outcome.ok.inj h).symm, hv, ?_⟩
      intro t' ht' i c p hp
      obtain rfl := Option.some.inj ht'
      simp only [tab2]
      rw [if_neg (fun hh => hp (h9 ▸ hh.2))]

theorem fieldChecks_premasked (env : FieldEnv) (a : FieldArgs) (mk : (ℕ → ℝ) × Option (ℕ → ℕ → ℝ)) (hmk : fieldMasks env.pix a = .ok mk) :
    fieldChecks env (a.premasked mk.1 mk.2) = (fieldChecks env a).bind fun pl => .ok (pl.premask mk.1 mk.2) := by
  unfold fieldChecks
  rw [fieldMasks_premasked, hmk]
  simp only [Outcome.bind, baseObj_premasked]
  have e1 : (a.premasked mk.1 mk.2).lmax = a.lmax := rfl
  have e2 : (a.premasked mk.1 mk.2).lmaxMask = a.lmaxMask := rfl
  have e3 : (a.premasked mk.1 mk.2).beam = a.beam := rfl
  have e4 : (a.premasked mk.1 mk.2).spin = a.spin := rfl
  have e5 : (a.premasked mk.1 mk.2).maps = a.maps.map fun m => { m with val := applyMask mk.1 mk.2 m.val } := rfl
  rw [e1, e2, e3, e4, e5]
  by_cases h1 : a.lmax.getD env.lmaxDefault ≤ 0 ∨ a.lmaxMask.getD env.lmaxDefault ≤ 0
  · rw [if_pos h1, if_pos h1]
  rw [if_neg h1, if_neg h1]
  by_cases h2 : (a.beam.map fun b => (b.1 : ℤ)).any (fun n => n ≤ a.lmax.getD env.lmaxDefault) = true
  · rw [if_pos h2, if_pos h2]
  rw [if_neg h2, if_neg h2]
  cases hm : a.maps with
  | none =>
    simp only [Option.map_none]
    cases a.spin with
    | none => rfl
    | some s =>
      simp only
      split_ifs <;> rfl
  | some m =>
    simp only [Option.map_some]
    exact mapChecks_premasked _ _ _ _ _ _

/-- Steps after the checks, without purification. -/
theorem fieldFinish_premasked (env : FieldEnv) (a : FieldArgs) (o : FieldObj) (m0 : MapStack) (t0 : Option TemplArg)
    (hi : a.maskedOnInput = false) (hp : a.purifyE = false ∧ a.purifyB = false) :
    fieldFinish env (a.premasked o.mask o.maskA) o (applyMask o.mask o.maskA m0)
        (t0.map fun t => { t with val := fun i c p => t.val i c p * o.mask p }) = fieldFinish env a o m0 t0 := by
  unfold fieldFinish
  cases t0 with
  | none =>
    simp only [FieldArgs.premasked, hi, hp.1, hp.2, Bool.or_self, Bool.false_eq_true, if_false, if_true, Option.map_none, Outcome.bind,
      Option.isSome_none, false_and]
  | some t =>
    simp only [FieldArgs.premasked, hi, hp.1, hp.2, Bool.or_self, Bool.false_eq_true, if_false, if_true, Option.map_some,
      Option.getD_some, Option.isSome_some, true_and]
    unfold deproject
    cases hP : pinvh env.eig env.inv t.ntemp (tab2 t.ntemp t.ntemp fun i j => env.pix.dot o.nmaps
        (fun c p => t.val j c p * o.mask p) (fun c p => t.val i c p * o.mask p)) a.tol with
    | raises e => simp only [hP, Outcome.bind]
    | crash => simp only [hP, Outcome.bind]
    | ok P => cases P <;> simp only [hP, Outcome.bind]

theorem unmask_mul {w : ℕ → ℝ} {n : ℕ} (hw : ∀ p < n, 0 < w p) {m : MapStack} (hm : ∀ c p, ¬ p < n → m c p = 0) :
    unmask w (fun c p => m c p * w p) = m := by
  funext c p
  unfold unmask
  by_cases hp : p < n
  · rw [if_pos (hw p hp), mul_div_assoc, div_self (hw p hp).ne', mul_one]
  · simp [hm c p hp]

/-- Steps after the checks, for a mask that is positive everywhere. -/
theorem fieldFinish_premasked_pos (env : FieldEnv) (a : FieldArgs) (o : FieldObj) (m0 : MapStack) (t0 : Option TemplArg)
    (hi : a.maskedOnInput = false) (hA : o.maskA = none) (n : ℕ) (hw : ∀ p < n, 0 < o.mask p) (hm : ∀ c p, ¬ p < n → m0 c p = 0)
    (ht : ∀ t, t0 = some t → ∀ i c p, ¬ p < n → t.val i c p = 0) :
    fieldFinish env (a.premasked o.mask o.maskA) o (applyMask o.mask o.maskA m0)
        (t0.map fun t => { t with val := fun i c p => t.val i c p * o.mask p }) = fieldFinish env a o m0 t0 := by
  unfold fieldFinish
  cases t0 with
  | none =>
    simp only [FieldArgs.premasked, hi, hA, applyMask, Bool.false_eq_true, if_false, if_true, Option.map_none,
      Option.isSome_none, false_and, unmask_mul hw hm, id]
  | some t =>
    have ht' : (fun i => unmask o.mask fun c p => t.val i c p * o.mask p) = t.val := by
      funext i
      exact unmask_mul hw (ht t rfl i)
    simp only [FieldArgs.premasked, hi, hA, applyMask, Bool.false_eq_true, if_false, if_true, Option.map_some,
      Option.getD_some, Option.isSome_some, true_and, unmask_mul hw hm, id, ht']

/-- A call depends on the maps only through the elements of the array. -/
theorem nmtField_congr (env : FieldEnv) (a : FieldArgs) (m : StackArg) (v : MapStack) (hm : a.maps = some m)
    (hv : ∀ c < m.ncomp, ∀ p < m.npix, v c p = m.val c p) : nmtField env { a with maps := some { m with val := v } } = nmtField env a := by
  have ht : tab2 m.ncomp m.npix v = tab2 m.ncomp m.npix m.val := by
    funext c p
    unfold tab2
    by_cases h : c < m.ncomp ∧ p < m.npix
    · rw [if_pos h, if_pos h, hv c h.1 p h.2]
    · rw [if_neg h, if_neg h]
  have hc : fieldChecks env { a with maps := some { m with val := v } } = fieldChecks env a := by
    unfold fieldChecks
    rw [hm]
    have : ∀ b o, mapChecks env.pix.npix { a with maps := some { m with val := v } } b o { m with val := v } =
        mapChecks env.pix.npix a b o m := by
      intro b o
      unfold mapChecks
      simp only [ht]
    simp only [this]
    rfl
  unfold nmtField
  rw [hc]
  rfl

theorem fieldMasks_maskA {pl : FieldPlan} {env : FieldEnv} {a : FieldArgs} {mk : (ℕ → ℝ) × Option (ℕ → ℕ → ℝ)} (hmk : fieldMasks env.pix a = .ok mk)
    (h : fieldChecks env a = .ok pl) : (∃ o, pl = .maskOnly o ∧ a.maps = none) ∨ ∃ o v t, pl = .withMaps o v t ∧ o.mask = mk.1 ∧ o.maskA = mk.2 ∧
      (∀ c p, ¬ p < env.pix.npix → v c p = 0) ∧ (∀ t', t = some t' → ∀ i c p, ¬ p < env.pix.npix → t'.val i c p = 0) := by
  unfold fieldChecks at h
  rw [hmk] at h
  simp only [Outcome.bind] at h
  by_cases h1 : a.lmax.getD env.lmaxDefault ≤ 0 ∨ a.lmaxMask.getD env.lmaxDefault ≤ 0
  · rw [if_pos h1] at h; cases h
  rw [if_neg h1] at h
  by_cases h2 : (a.beam.map fun b => (b.1 : ℤ)).any (fun n => n ≤ a.lmax.getD env.lmaxDefault) = true
  · rw [if_pos h2] at h; cases h
  rw [if_neg h2] at h
  cases hm : a.maps with
  | none =>
    rw [hm] at h
    left
    cases hs : a.spin with
    | none => rw [hs] at h; cases h
    | some s =>
      rw [hs] at h
      simp only at h
      by_cases h3 : s = 0 ∧ mk.2.isSome = true
      · rw [if_pos h3] at h; cases h
      · rw [if_neg h3] at h
        exact ⟨_, (Outcome.ok.inj h).symm, rfl⟩
  | some m =>
    rw [hm] at h
    obtain ⟨spin, v, t, rfl, hv, ht⟩ := mapChecks_obj h
    exact Or.inr ⟨_, v, t, rfl, rfl, rfl, hv, ht⟩

/-! ## C65 -/

/-- **C65**, curved sky, fields that are not purified: passing maps and templates that were multiplied by the mask, with
`masked_on_input=True`, has the same outcome as passing the maps and templates themselves. The mask may be anisotropic. -/
theorem C65_masked_input (env : FieldEnv) (a : FieldArgs) (w : ℕ → ℝ) (wA : Option (ℕ → ℕ → ℝ)) (hw : fieldMasks env.pix a = .ok (w, wA))
    (hi : a.maskedOnInput = false) (hp : a.purifyE = false ∧ a.purifyB = false) :
    nmtField env (a.premasked w wA) = nmtField env a := by
  unfold nmtField
  rw [fieldChecks_premasked env a (w, wA) hw]
  cases h : fieldChecks env a with
  | raises e => rfl
  | crash => rfl
  | ok pl =>
    simp only [Outcome.bind]
    rcases fieldMasks_maskA hw h with ⟨o, rfl, -⟩ | ⟨o, v, t, rfl, h1, h2, -, -⟩
    · rfl
    · simp only at h1 h2
      subst h1 h2
      exact fieldFinish_premasked env a o v t hi hp

/-- **C65**, curved sky, fields that are not purified: maps that agree after multiplication with the mask give the same field. In
particular the pixels in which an isotropic mask vanishes do not matter. -/
theorem C65_only_masked_maps (env : FieldEnv) (a : FieldArgs) (m : StackArg) (v : MapStack) (w : ℕ → ℝ) (wA : Option (ℕ → ℕ → ℝ))
    (hw : fieldMasks env.pix a = .ok (w, wA)) (hm : a.maps = some m) (hi : a.maskedOnInput = false)
    (hp : a.purifyE = false ∧ a.purifyB = false)
    (hv : ∀ c < m.ncomp, ∀ p < m.npix, applyMask w wA v c p = applyMask w wA m.val c p) :
    nmtField env { a with maps := some { m with val := v } } = nmtField env a := by
  rw [← C65_masked_input env a w wA hw hi hp, ← C65_masked_input env { a with maps := some { m with val := v } } w wA hw hi hp]
  exact nmtField_congr env (a.premasked w wA) { m with val := applyMask w wA m.val } (applyMask w wA v)
    (by simp [FieldArgs.premasked, hm]) hv

/-- **C65**, curved sky, in part: the outcome is also the same with purification if the isotropic mask is positive in every pixel.
Missing: masks that vanish somewhere (`C65_purified_wrong`). -/
theorem C65_masked_input_purified_partial (env : FieldEnv) (a : FieldArgs) (hA : a.mask22 = none ∧ a.mask12 = none)
    (hi : a.maskedOnInput = false) (hw : ∀ p < env.pix.npix, 0 < a.mask p) : nmtField env (a.premasked a.mask none) = nmtField env a := by
  have hmk : fieldMasks env.pix a = .ok (a.mask, none) := by unfold fieldMasks; rw [hA.1, hA.2]
  unfold nmtField
  rw [fieldChecks_premasked env a (a.mask, none) hmk]
  cases h : fieldChecks env a with
  | raises e => rfl
  | crash => rfl
  | ok pl =>
    simp only [Outcome.bind]
    rcases fieldMasks_maskA hmk h with ⟨o, rfl, -⟩ | ⟨o, v, t, rfl, h1, h2, hv, ht⟩
    · rfl
    · simp only at h1 h2
      have := fieldFinish_premasked_pos env a o v t hi h2 env.pix.npix (by rw [h1]; exact hw) hv ht
      rw [h1, h2] at this
      exact this

end NaMaster
