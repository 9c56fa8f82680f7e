import Verif.Field.SpectraLemmas
import Verif.Field.DeprojProps

/-! # Properties of lightweight fields: C49 -/

namespace NaMaster

open Finset

/-! ## Specification -/

/-- The field that keeps only what lightweight fields have: no maps, no templates, no coefficients of templates. -/
def FieldObj.lightened (f : FieldObj) : FieldObj := { f with lite := true, maps := none, temp := none, almTemp := none }

/-! ## Lemmas -/

theorem purify_cases (S : Sht) (lmax lmaxMask nIter : ℕ) (mask : ℕ → ℝ) (am : ℕ → ℕ → ℂ) (pe pb : Bool) :
    (∀ m, ∃ r, purify S lmax lmaxMask nIter mask am pe pb m = .ok r) ∨
    (∀ m, purify S lmax lmaxMask nIter mask am pe pb m = .raises .value) := by
  by_cases h : (pe || pb) = true ∧ lmax ≠ lmaxMask
  · right; intro m; unfold purify; rw [if_pos h]
  · left; intro m; unfold purify; simp only [if_neg h]; exact ⟨_, rfl⟩

theorem purifyAll_ok (S : Sht) (lmax lmaxMask nIter : ℕ) (mask : ℕ → ℝ) (am : ℕ → ℕ → ℂ) (pe pb : Bool)
    (h : ∀ m, ∃ r, purify S lmax lmaxMask nIter mask am pe pb m = .ok r) (T : ℕ → MapStack) (n : ℕ) :
    ∃ r, purifyAll S lmax lmaxMask nIter mask am pe pb T n = .ok r := by
  induction n with
  | zero => exact ⟨_, rfl⟩
  | succ n ih =>
    obtain ⟨r, hr⟩ := ih
    obtain ⟨s, hs⟩ := h (T n)
    unfold purifyAll
    rw [hr, hs]
    exact ⟨_, rfl⟩

/-- Steps 4 to 8 of the constructor for lightweight fields. -/
theorem fieldFinish_lite (env : FieldEnv) (a : FieldArgs) (o : FieldObj) (maps : MapStack) (t : Option TemplArg) :
    fieldFinish env { a with lite := true } { o with lite := true } maps t =
      (fieldFinish env { a with lite := false } { o with lite := false } maps t).bind fun f => .ok f.lightened := by
  have fin : ∀ d : Deproj,
      ((if (a.purifyE || a.purifyB) = true then purifyO env.sht o.lmax o.lmaxMask a.nIter o.mask
          (maskAlms env.sht o.lmaxMask a.nIterMask o.mask) a.purifyE a.purifyB d.mapsU
        else Outcome.ok (env.sht.map2almO o.spin o.lmax a.nIter d.maps, d.maps)) = .raises .value) ∨
      ∃ r, (if (a.purifyE || a.purifyB) = true then purifyO env.sht o.lmax o.lmaxMask a.nIter o.mask
          (maskAlms env.sht o.lmaxMask a.nIterMask o.mask) a.purifyE a.purifyB d.mapsU
        else Outcome.ok (env.sht.map2almO o.spin o.lmax a.nIter d.maps, d.maps)) = .ok r ∧ ∀ (T T' : ℕ → MapStack) n, ∃ q,
          (if (a.purifyE || a.purifyB) = true then purifyAll env.sht o.lmax o.lmaxMask a.nIter o.mask
            (maskAlms env.sht o.lmaxMask a.nIterMask o.mask) a.purifyE a.purifyB T n
          else Outcome.ok fun i => env.sht.map2alm o.spin o.lmax a.nIter (T' i)) = .ok q := by
    intro d
    by_cases hp : (a.purifyE || a.purifyB) = true
    · simp only [hp, if_true]
      rcases purify_cases env.sht o.lmax o.lmaxMask a.nIter o.mask (maskAlms env.sht o.lmaxMask a.nIterMask o.mask) a.purifyE a.purifyB
        with h | h
      · right
        obtain ⟨r, hr⟩ := h (d.mapsU.getD fun _ _ => 0)
        unfold purifyO
        rw [hr]
        exact ⟨_, rfl, fun T _ n => purifyAll_ok _ _ _ _ _ _ _ _ h T n⟩
      · left; unfold purifyO; rw [h]; rfl
    · right
      simp only [hp, Bool.false_eq_true, if_false]
      exact ⟨_, rfl, fun _ _ _ => ⟨_, rfl⟩⟩
  unfold fieldFinish
  cases t with
  | none =>
    simp only [Outcome.bind, Option.isSome_none, Bool.false_eq_true, false_and, if_false]
    rcases fin ⟨some (if a.maskedOnInput = true then maps else applyMask o.mask o.maskA maps),
      some ((if a.maskedOnInput = true then unmask o.mask else id) maps), none, none⟩ with h | ⟨r, hr, -⟩
    · simp only [h]
    · simp only [hr]; rfl
  | some t =>
    simp only [Option.map_some, Option.getD_some]
    generalize deproject _ _ _ _ _ _ _ _ = D
    cases D with
    | crash => rfl
    | raises e => rfl
    | ok d =>
      simp only [Outcome.bind, Option.isSome_some, not_true_eq_false, and_false, if_false, Bool.false_eq_true, not_false_eq_true,
        and_self, if_true]
      rcases fin d with h | ⟨r, hr, hq⟩
      · simp only [h]
      · obtain ⟨q, hq⟩ := hq (fun i => (if a.maskedOnInput = true then unmask o.mask else id) (t.val i))
          (fun i => if a.maskedOnInput = true then t.val i else fun c p => t.val i c p * o.mask p) t.ntemp
        simp only [hr, hq]; rfl

theorem mapChecks_lite (npix : ℕ) (a : FieldArgs) (b aniso : Bool) (o : ℤ → FieldObj) (m : StackArg) :
    mapChecks npix { a with lite := b } aniso (fun s => { o s with lite := b }) m = (mapChecks npix a aniso o m).bind fun
      | .maskOnly o => .ok (.maskOnly { o with lite := b })
      | .withMaps o m t => .ok (.withMaps { o with lite := b } m t) := by
  unfold mapChecks
  by_cases h : m.ncomp ≠ 1 ∧ m.ncomp ≠ 2
  · rw [if_pos h, if_pos h]; rfl
  rw [if_neg h, if_neg h]
  cases pickSpin m.ncomp a.spin with
  | crash => rfl
  | raises e => rfl
  | ok s =>
    simp only [Outcome.bind]
    cases a.templates with
    | none => simp only; split_ifs <;> rfl
    | some t => simp only; split_ifs <;> rfl

/-- The checks of the constructor for lightweight fields. -/
theorem fieldChecks_lite (env : FieldEnv) (a : FieldArgs) (b : Bool) :
    fieldChecks env { a with lite := b } = (fieldChecks env a).bind fun
      | .maskOnly o => .ok (.maskOnly { o with lite := b })
      | .withMaps o m t => .ok (.withMaps { o with lite := b } m t) := by
  unfold fieldChecks
  have e : fieldMasks env.pix { a with lite := b } = fieldMasks env.pix a := rfl
  rw [e]
  cases fieldMasks env.pix a with
  | crash => rfl
  | raises e => rfl
  | ok mk =>
    simp only [Outcome.bind]
    split_ifs <;> try rfl
    cases a.maps with
    | none =>
      simp only
      cases a.spin with
      | none => rfl
      | some s => simp only; split_ifs <;> rfl
    | some m =>
      simp only
      exact mapChecks_lite env.pix.npix a b mk.2.isSome
        (baseObj a mk (a.lmax.getD env.lmaxDefault) (a.lmaxMask.getD env.lmaxDefault)) m

theorem mapChecks_maps (npix : ℕ) (a : FieldArgs) (aniso : Bool) (o : ℤ → FieldObj) (m : StackArg) (o' : FieldObj) :
    mapChecks npix a aniso o m ≠ .ok (.maskOnly o') := by
  unfold mapChecks
  by_cases h : m.ncomp ≠ 1 ∧ m.ncomp ≠ 2
  · rw [if_pos h]; intro h; cases h
  rw [if_neg h]
  cases pickSpin m.ncomp a.spin with
  | crash => intro h; cases h
  | raises e => intro h; cases h
  | ok s =>
    simp only [Outcome.bind]
    cases a.templates with
    | none => simp only; split_ifs <;> (intro h; cases h)
    | some t => simp only; split_ifs <;> (intro h; cases h)

/-! ## C49 -/

/-- C49: the lightweight field has the same coefficients, mask, band limits and pseudo-inverse as the complete one, and the
constructor fails for the same arguments. -/
theorem C49_construct (env : FieldEnv) (a : FieldArgs) :
    nmtField env { a with lite := true } = (nmtField env { a with lite := false }).bind fun f =>
      .ok { f with lite := true, maps := none, temp := none, almTemp := none } := by
  unfold nmtField
  rw [fieldChecks_lite env a true, fieldChecks_lite env a false]
  cases hP : fieldChecks env a with
  | crash => rfl
  | raises e => rfl
  | ok P =>
    cases P with
    | maskOnly o =>
      have : o.maps = none ∧ o.temp = none ∧ o.almTemp = none := by
        unfold fieldChecks at hP
        cases hm : fieldMasks env.pix a with
        | crash => rw [hm] at hP; cases hP
        | raises e => rw [hm] at hP; cases hP
        | ok mk =>
          rw [hm] at hP
          simp only [Outcome.bind] at hP
          split_ifs at hP
          cases hmaps : a.maps with
          | none =>
            rw [hmaps] at hP
            simp only at hP
            cases hs : a.spin with
            | none => rw [hs] at hP; cases hP
            | some s =>
              rw [hs] at hP
              simp only at hP
              split_ifs at hP
              simp only [Outcome.ok.injEq, FieldPlan.maskOnly.injEq] at hP
              subst hP; exact ⟨rfl, rfl, rfl⟩
          | some m =>
            rw [hmaps] at hP
            simp only at hP
            exact absurd hP (mapChecks_maps _ _ _ _ _ _)
      obtain ⟨h1, h2, h3⟩ := this
      simp only [Outcome.bind]
      rw [← h1, ← h2, ← h3]
    | withMaps o m t =>
      simp only [Outcome.bind]
      exact fieldFinish_lite env a o m t

/-- C49: `compute_coupled_cell` and the mask spectrum give the same for lightweight fields. -/
theorem C49_coupled (env : FieldEnv) (minfo : MapInfo) (a1 a2 : FieldArgs) (f1 f2 g1 g2 : FieldObj)
    (h1 : nmtField env { a1 with lite := true } = .ok f1) (h2 : nmtField env { a2 with lite := true } = .ok f2)
    (k1 : nmtField env { a1 with lite := false } = .ok g1) (k2 : nmtField env { a2 with lite := false } = .ok g2) (same : Bool) :
    computeCoupledCell (f1.view env.sht minfo) (f2.view env.sht minfo) same =
      computeCoupledCell (g1.view env.sht minfo) (g2.view env.sht minfo) same ∧
    maskSpectrum (f1.view env.sht minfo) (f2.view env.sht minfo) same =
      maskSpectrum (g1.view env.sht minfo) (g2.view env.sht minfo) same := by
  rw [C49_construct, k1] at h1
  rw [C49_construct, k2] at h2
  simp only [Outcome.bind, Outcome.ok.injEq] at h1 h2
  subst h1; subst h2
  exact ⟨rfl, rfl⟩

/-- C49 is false: `compute_full_master` never returns a result for lightweight fields, with or without templates. -/
theorem C49_full_master_wrong (L : LinAlg ℝ) (env : FieldEnv) (nIter : ℕ) (minfo : MapInfo) (f1 f2 : FieldObj)
    (h : f1.lite = true ∨ f2.lite = true) (same hasBins : Bool) (ff : Outcome (Wsp ℝ)) (w : Option (Wsp ℝ))
    (noise guess : Option (Arr2 ℝ)) (r : Option (Arr2 ℝ)) :
    fullMaster L env nIter minfo f1 f2 same hasBins ff w noise guess ≠ .ok r := by
  have hb : ∀ c g, deprojectionBias env nIter c f1 f2 g = .raises .value := by
    intro c g
    unfold deprojectionBias
    split_ifs <;> rfl
  unfold fullMaster
  simp only
  split_ifs <;> try (intro h; cases h; done)
  cases computeCoupledCell (f1.view env.sht minfo) (f2.view env.sht minfo) same with
  | crash => intro h; cases h
  | raises e => intro h; cases h
  | ok p => simp only [Outcome.bind, hb]; intro h; cases h

theorem minfo_eq_self (m : MapInfo) : m.eq m = true := by
  cases m with
  | healpix n => simp [MapInfo.eq]
  | car => unfold MapInfo.eq; simp

/-- Without templates the bias is zero. -/
theorem bias_zero (env : FieldEnv) (nIter : ℕ) (f1 f2 : FieldObj) (guess : Arr2 ℝ) (hr : guess.rows = f1.nmaps * f2.nmaps)
    (hc : guess.cols = f1.lmax + 1) (h1 : f1.lite = false) (h2 : f2.lite = false) (t1 : f1.nTemp = 0) (t2 : f2.nTemp = 0)
    (i1 : f1.iM = none) (i2 : f2.iM = none) :
    deprojectionBias env nIter true f1 f2 guess = .ok (some ⟨f1.nmaps * f2.nmaps, f1.lmax + 1, fun _ _ => 0⟩) := by
  unfold deprojectionBias
  rw [if_neg (by simp), if_neg (by rw [hr, hc]; simp), if_neg (by rw [h1, h2]; simp)]
  simp only [t1, t2, purifyIfNeededAll, Outcome.bind, i1, i2, Option.getD_none, biasSums, sum_range_zero, sub_zero, add_zero]
  have : Arr2.of (K := ℝ) (f1.nmaps * f2.nmaps) (f1.lmax + 1) (fun _ _ => 0) = ⟨f1.nmaps * f2.nmaps, f1.lmax + 1, fun _ _ => 0⟩ := by
    simp only [Arr2.of, Arr2.mk.injEq, true_and]
    funext i j
    unfold tab2; split_ifs <;> rfl
  rw [this]

/-- The attributes of a field made without templates. -/
theorem no_templates (env : FieldEnv) (a : FieldArgs) (ht : a.templates = none) (f : FieldObj) (h : nmtField env a = .ok f) :
    f.nTemp = 0 ∧ f.iM = none ∧ f.lite = a.lite := by
  unfold nmtField at h
  cases hP : fieldChecks env a with
  | crash => rw [hP] at h; cases h
  | raises e => rw [hP] at h; cases h
  | ok P =>
    rw [hP] at h
    simp only [Outcome.bind] at h
    unfold fieldChecks at hP
    cases hm : fieldMasks env.pix a with
    | crash => rw [hm] at hP; cases hP
    | raises e => rw [hm] at hP; cases hP
    | ok mk =>
      rw [hm] at hP
      simp only [Outcome.bind] at hP
      split_ifs at hP
      cases hmaps : a.maps with
      | none =>
        rw [hmaps] at hP
        simp only at hP
        cases hs : a.spin with
        | none => rw [hs] at hP; cases hP
        | some s =>
          rw [hs] at hP
          simp only at hP
          split_ifs at hP
          simp only [Outcome.ok.injEq] at hP
          subst hP
          simp only [Outcome.ok.injEq] at h
          subst h; exact ⟨rfl, rfl, rfl⟩
      | some m =>
        rw [hmaps] at hP
        simp only at hP
        unfold mapChecks at hP
        by_cases hn : m.ncomp ≠ 1 ∧ m.ncomp ≠ 2
        · rw [if_pos hn] at hP; cases hP
        rw [if_neg hn] at hP
        cases hps : pickSpin m.ncomp a.spin with
        | crash => rw [hps] at hP; cases hP
        | raises e => rw [hps] at hP; cases hP
        | ok s =>
          rw [hps, ht] at hP
          simp only [Outcome.bind] at hP
          split_ifs at hP
          simp only [Outcome.ok.injEq] at hP
          subst hP
          simp only at h
          unfold fieldFinish at h
          simp only [Outcome.bind, Option.isSome_none, Bool.false_eq_true, false_and, if_false] at h
          generalize hD : (if (a.purifyE || a.purifyB) = true then _ else _ : Outcome (Option Alms × Option MapStack)) = D at h
          cases D with
          | crash => cases h
          | raises e => cases h
          | ok r =>
            simp only [Outcome.ok.injEq] at h
            subst h; exact ⟨rfl, rfl, rfl⟩

/-- C49, what holds: for fields without templates, decoupling the spectra of the lightweight fields gives the result of
`compute_full_master` for the complete ones. The full statement has `compute_full_master` on both sides; it is false, see
`C49_full_master_wrong`. -/
theorem C49_decoupled_partial (L : LinAlg ℝ) (env : FieldEnv) (nIter : ℕ) (minfo : MapInfo) (a1 a2 : FieldArgs) (f1 f2 g1 g2 : FieldObj)
    (t1 : a1.templates = none) (t2 : a2.templates = none)
    (h1 : nmtField env { a1 with lite := true } = .ok f1) (h2 : nmtField env { a2 with lite := true } = .ok f2)
    (k1 : nmtField env { a1 with lite := false } = .ok g1) (k2 : nmtField env { a2 with lite := false } = .ok g2)
    (same hasBins : Bool) (ff : Outcome (Wsp ℝ)) (w : Wsp ℝ) (cl r : Arr2 ℝ)
    (hcl : computeCoupledCell (f1.view env.sht minfo) (f2.view env.sht minfo) same = .ok (some cl))
    (hr : decoupleCell L w cl none none = .ok r) :
    fullMaster L env nIter minfo g1 g2 same hasBins ff (some w) none none = .ok (some r) := by
  obtain ⟨n1, i1, l1⟩ := no_templates env _ (by simpa using t1) g1 k1
  obtain ⟨n2, i2, l2⟩ := no_templates env _ (by simpa using t2) g2 k2
  simp only at l1 l2
  rw [(C49_coupled env minfo a1 a2 f1 f2 g1 g2 h1 h2 k1 k2 same).1] at hcl
  have hcomp : isCompatible (g1.view env.sht minfo).geom (g2.view env.sht minfo).geom false = true := by
    by_contra hn
    unfold computeCoupledCell at hcl
    rw [if_pos (by simpa using hn)] at hcl
    cases hcl
  have hstrict : isCompatible (g1.view env.sht minfo).geom (g2.view env.sht minfo).geom true = true := by
    rw [← hcomp]
    unfold isCompatible FieldObj.view
    simp [minfoNe, minfo_eq_self]
  have hrows : cl.rows = g1.nmaps * g2.nmaps ∧ cl.cols = g1.lmax + 1 := by
    have hl : g1.lmax = g2.lmax := by
      unfold isCompatible FieldObj.view at hcomp
      by_contra hne
      simp [hne] at hcomp
    unfold computeCoupledCell at hcl
    rw [if_neg (by rw [hcomp]; simp)] at hcl
    cases ha1 : (g1.view env.sht minfo).alm with
    | none => rw [ha1] at hcl; cases hcl
    | some x1 =>
      cases ha2 : (g2.view env.sht minfo).alm with
      | none => rw [ha1, ha2] at hcl; cases hcl
      | some x2 =>
        rw [ha1, ha2] at hcl
        cases x1 with
        | none => cases hcl
        | some x1 =>
          cases x2 with
          | none => cases hcl
          | some x2 =>
            simp only [getOr, Outcome.bind, Outcome.ok.injEq, Option.some.injEq] at hcl
            subst hcl
            simp only [Arr2.of, FieldObj.view]
            simp [hl]
  unfold fullMaster
  simp only [Option.isNone_some, Bool.false_eq_true, and_false, if_false, hcomp, Bool.true_eq_false, Option.any_none,
    Option.getD_none]
  rw [hcl]
  simp only [Outcome.bind]
  rw [hstrict, bias_zero env nIter g1 g2 _ rfl rfl l1 l2 n1 n2 i1 i2]
  simp only [pickWsp, subO, Arr2.sub, hrows.1, hrows.2, ne_eq, not_true_eq_false, or_self, if_false, Outcome.bind, sub_zero]
  have e : (⟨g1.nmaps * g2.nmaps, g1.lmax + 1, fun i j => cl.val i j⟩ : Arr2 ℝ) = cl := by
    cases cl; simp only at hrows; obtain ⟨rfl, rfl⟩ := hrows; rfl
  rw [e, hr]

/-! ## Examples -/

/-- Arguments without templates. -/
noncomputable def bareArgs (lite : Bool) : FieldArgs :=
  { twoArgs ⟨1, 2, twoMap 3 4⟩ ⟨2, 1, 2, depTempl⟩ with templates := none, lite := lite }

theorem plain_ok (lite : Bool) : ∃ f, nmtField twoPix (bareArgs lite) = .ok f ∧ f.lite = lite := by
  unfold nmtField fieldChecks fieldMasks mapChecks fieldFinish
  simp [bareArgs, twoArgs, twoPix, Outcome.bind, pickSpin, baseObj]

/-- A lightweight field for which `compute_full_master` fails, and the complete field made from the same arguments. -/
example : ∃ f g, nmtField twoPix { bareArgs false with lite := true } = .ok f ∧
    nmtField twoPix { bareArgs true with lite := false } = .ok g ∧ f.lite = true ∧
    ∀ L n minfo same hb ff w noise guess r, fullMaster L twoPix n minfo f g same hb ff w noise guess ≠ .ok r := by
  obtain ⟨f, hf, hl⟩ := plain_ok true
  obtain ⟨g, hg, -⟩ := plain_ok false
  exact ⟨f, g, hf, hg, hl, fun L n minfo same hb ff w noise guess r =>
    C49_full_master_wrong L twoPix n minfo f g (Or.inl hl) same hb ff w noise guess r⟩

end NaMaster
