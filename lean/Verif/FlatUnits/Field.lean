import Verif.FlatSym.Field
import Verif.Units.Field
import Verif.Units.Matrix

/-!
# Flat fields with masks in other units
-/

namespace NaMaster

open Real Finset

/-! ## Specification -/

/-- Maps multiplied by a number. -/
def scaleMaps (c : ℝ) (m : FlatMaps) : FlatMaps := fun i p => c * m i p

/-- Coefficients multiplied by a number. -/
noncomputable def scaleCoef (c : ℝ) (a : FlatAlms) : FlatAlms := fun X k => (c : ℂ) * a X k

/-- The inverse transform of coefficients multiplied by a number. -/
def FlatEnv.Homogeneous (env : FlatEnv) : Prop := ∀ fs (c : ℝ) a p, env.c2r fs (fun k => (c : ℂ) * a k) p = c * env.c2r fs a p

/-- The maps passed to the constructor when the mask is multiplied by a number: those that are masked already are multiplied as well. -/
def inputUnits (masked : Bool) (c : ℝ) (m : FlatMaps) : FlatMaps := if masked then scaleMaps c m else m

/-- The same call of the constructor with the mask multiplied by a number. -/
def FlatFieldArgs.rescale (c : ℝ) (a : FlatFieldArgs) : FlatFieldArgs :=
  { a with
    mask := fun p => c * a.mask p
    maps := a.maps.map fun m => { m with val := inputUnits a.maskedOnInput c m.val }
    templates := a.templates.map fun T => { T with val := fun i => inputUnits a.maskedOnInput c (T.val i) } }

/-- The part of a field used for coupling matrices and covariances, with the mask multiplied by a number. -/
def FlatField.rescale (c : ℝ) (f : FlatField) : FlatField := { f with mask := fun p => c * f.mask p }

/-- The contents of a field with the mask multiplied by a number. -/
noncomputable def FlatFieldObj.rescale (c : ℝ) (f : FlatFieldObj) : FlatFieldObj :=
  { f with
    base := f.base.rescale c
    maps := f.maps.map (Option.map (scaleMaps c))
    temp := f.temp.map fun T i => scaleMaps c (T i)
    alms := f.alms.map (Option.map (scaleCoef c))
    aTemp := f.aTemp.map fun T i => scaleCoef c (T i)
    aMask := f.aMask.map fun w k => (c : ℂ) * w k
    matrixM := f.matrixM.map (Option.map fun M i j => M i j / (c * c)) }

/-! ## Transforms -/

theorem scaleMaps_one (m : FlatMaps) : scaleMaps 1 m = m := by
  funext i p
  exact one_mul _

theorem scaleMaps_mul (x y : ℝ) (m : FlatMaps) : scaleMaps x (scaleMaps y m) = scaleMaps (x * y) m := by
  funext i p
  exact (mul_assoc _ _ _).symm

theorem qu2eb_scale (s : ℕ) (kx ky : ℝ) (c a b : ℂ) : qu2eb s kx ky (c * a, c * b) = (c * (qu2eb s kx ky (a, b)).1, c * (qu2eb s kx ky (a, b)).2) := by
  unfold qu2eb
  ext <;> dsimp only <;> ring

theorem eb2qu_scale (s : ℕ) (kx ky : ℝ) (c a b : ℂ) : eb2qu s kx ky (c * a, c * b) = (c * (eb2qu s kx ky (a, b)).1, c * (eb2qu s kx ky (a, b)).2) := by
  unfold eb2qu
  ext <;> dsimp only <;> ring

theorem fsMap2alm_scale (fs : FlatInfo) (s : ℕ) (c : ℝ) (m : FlatMaps) : fsMap2alm fs s (scaleMaps c m) = scaleCoef c (fsMap2alm fs s m) := by
  funext X k
  have e : ∀ i, fs.map2alm (scaleMaps c m i) k = (c : ℂ) * fs.map2alm (m i) k := fun i => FlatMove.map2alm_smul fs c (m i) k
  unfold fsMap2alm scaleCoef
  by_cases hs : s = 0
  · simp only [if_pos hs]
    exact e X
  · simp only [if_neg hs]
    unfold FlatInfo.map2almSpin
    rw [e, e, qu2eb_scale]
    split_ifs <;> rfl

variable {env : FlatEnv}

theorem fsAlm2map_scale (h : env.Homogeneous) (fs : FlatInfo) (s : ℕ) (c : ℝ) (a : FlatAlms) :
    fsAlm2map (env.c2r fs) fs s (scaleCoef c a) = scaleMaps c (fsAlm2map (env.c2r fs) fs s a) := by
  funext i p
  unfold fsAlm2map scaleMaps scaleCoef
  rw [← mul_assoc]
  congr 1
  by_cases h0 : s = 0
  · simp only [if_pos h0]
    exact h fs c (a i) p
  · simp only [if_neg h0, eb2qu_scale]
    by_cases hc : i = 0
    · simp only [if_pos hc]
      exact h fs c _ p
    · simp only [if_neg hc]
      exact h fs c _ p

/-! ## Purification -/

theorem walm_scale (fs : FlatInfo) (c : ℝ) (w : ℕ × ℕ → ℂ) (n : ℕ) : walmXLpower fs (fun k => (c : ℂ) * w k) n = scaleCoef c (walmXLpower fs w n) := by
  funext X k
  unfold walmXLpower scaleCoef
  by_cases hX : X = 0
  · simp only [if_pos hX]; ring
  · simp only [if_neg hX]; ring

theorem flat_spinProduct_scale (x y : ℝ) (w m : FlatMaps) : spinProductFlat (scaleMaps x w) (scaleMaps y m) = scaleMaps (x * y) (spinProductFlat w m) := by
  funext c p
  unfold spinProductFlat scaleMaps
  by_cases hX : c = 0
  · simp only [if_pos hX]; ring
  · simp only [if_neg hX]; ring

theorem purifyFlatAlms_scale (h : env.Homogeneous) (fs : FlatInfo) (pE pB : Bool) (x y : ℝ) (mask : ℕ × ℕ → ℝ) (w : ℕ × ℕ → ℂ) (m : FlatMaps) :
    purifyFlatAlms (env.c2r fs) fs pE pB (fun p => x * mask p) (fun k => (x : ℂ) * w k) (scaleMaps y m) =
      scaleCoef (x * y) (purifyFlatAlms (env.c2r fs) fs pE pB mask w m) := by
  unfold purifyFlatAlms
  dsimp only
  have e0 : (fun c p => scaleMaps y m c p * (x * mask p)) = scaleMaps (x * y) fun c p => m c p * mask p := by
    funext c p
    unfold scaleMaps
    ring
  have e2 : ∀ v : FlatMaps, (fun c p => -1 * scaleMaps (x * y) v c p) = scaleMaps (x * y) fun c p => -1 * v c p := by
    intro v
    funext c p
    unfold scaleMaps
    ring
  rw [walm_scale, walm_scale, fsAlm2map_scale h, fsAlm2map_scale h, flat_spinProduct_scale, flat_spinProduct_scale, e0, e2, fsMap2alm_scale, fsMap2alm_scale,
    fsMap2alm_scale]
  funext X k
  unfold scaleCoef
  dsimp only
  split_ifs <;> ring

theorem purifyFlat_scale (h : env.Homogeneous) (fs : FlatInfo) (pE pB : Bool) (c : ℝ) (mask : ℕ × ℕ → ℝ) (w : ℕ × ℕ → ℂ) (m : FlatMaps) :
    purifyFlat (env.c2r fs) fs pE pB (fun p => c * mask p) (fun k => (c : ℂ) * w k) m =
      (scaleCoef c (purifyFlat (env.c2r fs) fs pE pB mask w m).1, scaleMaps c (purifyFlat (env.c2r fs) fs pE pB mask w m).2) := by
  have e := purifyFlatAlms_scale h fs pE pB c 1 mask w m
  rw [scaleMaps_one, mul_one] at e
  unfold purifyFlat
  dsimp only
  rw [e, fsAlm2map_scale h]

/-! ## Templates -/

theorem flat_dot_scale (fs : FlatInfo) (nm : ℕ) (x y : ℝ) (a b : FlatMaps) : fs.dot nm (scaleMaps x a) (scaleMaps y b) = x * y * fs.dot nm a b := by
  unfold FlatInfo.dot scaleMaps
  rw [mul_sum]
  refine sum_congr rfl fun c _ => ?_
  rw [← mul_assoc, mul_sum]
  congr 1
  exact sum_congr rfl fun p _ => by ring

theorem removeTempl_scale (c : ℝ) (nt : ℕ) (al : ℕ → ℝ) (T : ℕ → FlatMaps) (m : FlatMaps) :
    removeTempl nt al (fun i => scaleMaps c (T i)) (scaleMaps c m) = scaleMaps c (removeTempl nt al T m) := by
  funext i p
  unfold removeTempl scaleMaps
  rw [mul_sub, mul_sum]
  congr 1
  exact sum_congr rfl fun i _ => by ring

theorem unmaskFlat_scale {c : ℝ} (hc : 0 < c) (mask : ℕ × ℕ → ℝ) (m : FlatMaps) :
    unmaskFlat (fun p => c * mask p) (scaleMaps c m) = unmaskFlat mask m := by
  funext i p
  unfold unmaskFlat scaleMaps
  by_cases h : mask p > 0
  · rw [if_pos (mul_pos hc h), if_pos h, mul_div_mul_left _ _ hc.ne']
  · rw [if_neg (fun h' => h (pos_of_mul_pos_right h' hc.le)), if_neg h]

theorem gram_scale (fs : FlatInfo) (nm nt : ℕ) (c : ℝ) (T : ℕ → FlatMaps) :
    flatGram fs nm nt (fun i => scaleMaps c (T i)) = fun i j => c * c * flatGram fs nm nt T i j := by
  unfold flatGram
  rw [← tab2_scale]
  congr 1
  funext i j
  rw [flat_dot_scale, flat_dot_scale]
  split_ifs <;> rfl

theorem flatGram_symm (fs : FlatInfo) (nm nt : ℕ) (T : ℕ → FlatMaps) : SymmMat nt (flatGram fs nm nt T) := by
  intro i hi j hj
  unfold flatGram tab2
  rw [if_pos ⟨hi, hj⟩, if_pos ⟨hj, hi⟩]
  dsimp only
  by_cases h : i ≤ j
  · by_cases h' : j ≤ i
    · obtain rfl : i = j := le_antisymm h h'
      rfl
    · rw [if_pos h, if_neg h']
  · rw [if_neg h, if_pos (by omega)]

theorem alphas_scale (fs : FlatInfo) (nm nt : ℕ) {c : ℝ} (hc : 0 < c) (P : ℕ → ℕ → ℝ) (T : ℕ → FlatMaps) (m : FlatMaps) :
    flatAlphas fs nm nt (fun i j => P i j / (c * c)) (fun i => scaleMaps c (T i)) (scaleMaps c m) = flatAlphas fs nm nt P T m := by
  funext i
  unfold flatAlphas
  refine sum_congr rfl fun j _ => ?_
  rw [flat_dot_scale]
  field_simp

open Classical in
/-- The pseudo-inverse of a matrix multiplied by a positive number. -/
theorem pinvC_scaled {E : Eigen} {n : ℕ} {M : ℕ → ℕ → ℝ} {k : ℝ} (hE : E.Correct) (hs : SymmMat n M) (hk : 0 < k) (hn : 0 < n) (tol : ℝ) :
    pinvC E n (fun i j => k * M i j) tol = (pinvC E n M tol).map fun P i j => P i j / k := by
  unfold pinvC spectralInverse
  have hm := max_scaled hE hs hk hn
  have hlt : ∀ x : ℝ, k * x < tol * (k * maxUpTo (E.vals n M) (n - 1)) ↔ x < tol * maxUpTo (E.vals n M) (n - 1) := by
    intro x
    rw [mul_left_comm, mul_lt_mul_iff_right₀ hk]
  have hcond : (∃ r ∈ range n, ¬ E.vals n (fun i j => k * M i j) r < tol * maxUpTo (E.vals n fun i j => k * M i j) (n - 1) ∧
      E.vals n (fun i j => k * M i j) r = 0) ↔ ∃ r ∈ range n, ¬ E.vals n M r < tol * maxUpTo (E.vals n M) (n - 1) ∧ E.vals n M r = 0 := by
    rw [hm]
    constructor
    · rintro ⟨r, hr, h1, h2⟩
      obtain ⟨j, hj, e⟩ := vals_scaled hE hs hk r (mem_range.1 hr)
      rw [e, hlt] at h1
      rw [e] at h2
      exact ⟨j, mem_range.2 hj, h1, (mul_eq_zero.1 h2).resolve_left hk.ne'⟩
    · rintro ⟨r, hr, h1, h2⟩
      obtain ⟨j, hj, e⟩ := vals_unscaled hE hs k r (mem_range.1 hr)
      refine ⟨j, mem_range.2 hj, ?_, ?_⟩
      · rw [e, hlt]
        exact h1
      · rw [e, h2, mul_zero]
  by_cases h : ∃ r ∈ range n, ¬ E.vals n M r < tol * maxUpTo (E.vals n M) (n - 1) ∧ E.vals n M r = 0
  · rw [if_pos (hcond.2 h), if_pos h]
    rfl
  · rw [if_neg (fun h' => h (hcond.1 h')), if_neg h]
    simp only [Option.map_some]
    congr 1
    funext i j
    unfold tab2
    split_ifs with hij
    · have := calculus_scaled hE hs hk (fun x => (if ¬ x < tol * maxUpTo (E.vals n M) (n - 1) then 1 / x else 0) / k)
        (fun x => if ¬ x < tol * maxUpTo (E.vals n fun i j => k * M i j) (n - 1) then 1 / x else 0) (by
          intro x
          rw [hm]
          by_cases hx : x < tol * maxUpTo (E.vals n M) (n - 1)
          · rw [if_neg (not_not.2 ((hlt x).2 hx)), if_neg (not_not.2 hx), zero_div]
          · rw [if_pos (fun h => hx ((hlt x).1 h)), if_pos hx, div_div, mul_comm]) i j hij.1 hij.2
      dsimp only
      rw [this, sum_div]
      exact sum_congr rfl fun r _ => by ring
    · rw [zero_div]

/-! ## The constructor -/

theorem flatAlloc_scale (h : env.Homogeneous) (hE : env.eig.Correct) {c : ℝ} (hc : 0 < c) (base : FlatField) (m : FlatMaps)
    (T : Option (ℕ × (ℕ → FlatMaps))) (tol : ℝ) (masked lite : Bool) :
    flatAlloc env (base.rescale c) (inputUnits masked c m) (T.map fun x => (x.1, fun i => inputUnits masked c (x.2 i))) tol masked lite =
      (flatAlloc env base m T tol masked lite).rescale c := by
  have hz : (fun _ _ _ => 0 : ℕ → FlatMaps) = fun i => inputUnits masked c ((fun _ _ _ => 0 : ℕ → FlatMaps) i) := by
    funext i X p
    cases masked <;> simp [inputUnits, scaleMaps]
  have hnt : ((T.map fun x => (x.1, fun i => inputUnits masked c (x.2 i))).map Prod.fst).getD 0 = (T.map Prod.fst).getD 0 := by cases T <;> rfl
  have htv : ((T.map fun x => (x.1, fun i => inputUnits masked c (x.2 i))).map Prod.snd).getD (fun _ _ _ => 0) =
      fun i => inputUnits masked c (((T.map Prod.snd).getD fun _ _ _ => 0) i) := by
    cases T with
    | none => exact hz
    | some x => rfl
  have hmask : ∀ v : FlatMaps, (if masked = true then inputUnits masked c v else fun i p => inputUnits masked c v i p * (c * base.mask p)) =
      scaleMaps c (if masked = true then v else fun i p => v i p * base.mask p) := by
    intro v
    cases masked with
    | true => rfl
    | false =>
      funext i p
      change v i p * (c * base.mask p) = c * (v i p * base.mask p)
      ring
  have hunm : ∀ v : FlatMaps, (if masked = true then unmaskFlat (fun p => c * base.mask p) else id) (inputUnits masked c v) =
      (if masked = true then unmaskFlat base.mask else id) v := by
    intro v
    cases masked with
    | true => exact unmaskFlat_scale hc _ _
    | false => rfl
  have hM : ∀ (nt nm : ℕ) (S : ℕ → FlatMaps), (if nt > 0 then some (pinvC env.eig nt (flatGram base.fs nm nt fun i => scaleMaps c (S i)) tol) else none) =
      (if nt > 0 then some (pinvC env.eig nt (flatGram base.fs nm nt S) tol) else none).map (Option.map fun M i j => M i j / (c * c)) := by
    intro nt nm S
    by_cases hn : nt > 0
    · rw [if_pos hn, if_pos hn, gram_scale, pinvC_scaled hE (flatGram_symm _ _ _ _) (mul_pos hc hc) hn]
      rfl
    · rw [if_neg hn, if_neg hn]
      rfl
  have hw : base.fs.map2alm (fun p => c * base.mask p) = fun k => (c : ℂ) * base.fs.map2alm base.mask k :=
    funext fun k => FlatMove.map2alm_smul base.fs c base.mask k
  unfold flatAlloc
  simp only [FlatField.rescale, hnt, htv, hmask, hunm, hM, hw, removeTempl_scale]
  generalize (T.map Prod.fst).getD 0 = nt
  generalize ((T.map Prod.snd).getD fun _ _ _ => 0) = tv
  generalize (if nt > 0 then some (pinvC env.eig nt (flatGram base.fs (nmapsOf base.spin) nt fun i =>
    if masked = true then tv i else fun c p => tv i c p * base.mask p) tol) else none) = M
  have hmul : ∀ v : FlatMaps, (fun i p => v i p * (c * base.mask p)) = scaleMaps c fun i p => v i p * base.mask p := by
    intro v
    funext i p
    unfold scaleMaps
    ring
  unfold FlatFieldObj.rescale
  rcases Bool.eq_false_or_eq_true (base.pureE == 1 || base.pureB == 1) with hpp | hpp
  · simp only [hpp, if_true, not_true, or_false]
    rcases M with _ | (_ | P) <;> cases lite <;> by_cases hn : nt = 0 <;>
      simp [hn, FlatField.rescale, purifyFlat_scale h, alphas_scale _ _ _ hc]
    all_goals exact funext fun i => hmul _
  · simp only [hpp, Bool.false_eq_true, if_false, not_false_iff, or_true, if_true]
    rcases M with _ | (_ | P) <;> cases lite <;> by_cases hn : nt = 0 <;>
      simp [hn, FlatField.rescale, fsMap2alm_scale, alphas_scale _ _ _ hc]

theorem nmtFieldFlat_scale (h : env.Homogeneous) (hE : env.eig.Correct) {c : ℝ} (hc : 0 < c) (a : FlatFieldArgs) :
    nmtFieldFlat env (a.rescale c) = (nmtFieldFlat env a).bind fun f => .ok (f.rescale c) := by
  have hs : flatSpin (a.rescale c) = flatSpin a := by
    unfold flatSpin FlatFieldArgs.rescale
    cases a.maps <;> rfl
  have hsh : flatShapes (a.rescale c) = flatShapes a := by
    unfold flatShapes FlatFieldArgs.rescale
    cases a.maps <;> cases a.templates <;> rfl
  unfold nmtFieldFlat
  rw [hs, hsh]
  simp only [show (a.rescale c).fs = a.fs from rfl, show (a.rescale c).purifyE = a.purifyE from rfl, show (a.rescale c).purifyB = a.purifyB from rfl,
    show (a.rescale c).beam = a.beam from rfl]
  by_cases h0 : a.fs.lx < 0 ∨ a.fs.ly < 0
  · rw [if_pos h0, if_pos h0]; rfl
  rw [if_neg h0, if_neg h0]
  cases flatSpin a with
  | raises e => rfl
  | crash => rfl
  | ok spin =>
    dsimp only [Outcome.bind]
    by_cases hp : (a.purifyE || a.purifyB) ∧ spin ≠ 2
    · rw [if_pos hp, if_pos hp]
    rw [if_neg hp, if_neg hp]
    cases flatShapes a with
    | raises e => rfl
    | crash => rfl
    | ok u =>
      dsimp only
      by_cases hl : ¬ (a.fs.lx > 0 ∧ a.fs.ly > 0)
      · rw [if_pos hl, if_pos hl]
      rw [if_neg hl, if_neg hl]
      cases flatBeam a.beam with
      | raises e => rfl
      | crash => rfl
      | ok beam =>
        dsimp only
        cases hm : a.maps with
        | none =>
          have : (a.rescale c).maps = none := by unfold FlatFieldArgs.rescale; rw [hm]; rfl
          rw [this]
          rfl
        | some m =>
          have : (a.rescale c).maps = some { m with val := inputUnits a.maskedOnInput c m.val } := by
            unfold FlatFieldArgs.rescale
            rw [hm]
            rfl
          rw [this]
          dsimp only
          congr 1
          rw [← flatAlloc_scale h hE hc]
          have ht : (a.rescale c).templates.map (fun t => (t.ntemp, t.val)) =
              (a.templates.map fun t => (t.ntemp, t.val)).map fun x => (x.1, fun i => inputUnits a.maskedOnInput c (x.2 i)) := by
            unfold FlatFieldArgs.rescale
            cases a.templates <;> rfl
          rw [ht]
          rfl

end NaMaster
