import Verif.Angle.Matrix
import Verif.FlatUnits.Props

/-!
# Flat fields whose polarisation angle has been turned
-/

namespace NaMaster

open Real Finset

/-! ## Specification -/

/-- The `n` components of `w` are those of `v` turned by the angle `t`. -/
def TurnedBy {V : Type*} [AddCommGroup V] [Module ℝ V] (n : ℕ) (t : ℝ) (v w : ℕ → V) : Prop := ∀ c < n, w c = turnBy n t v c

/-- The inverse transform is linear. -/
def FlatEnv.Linear (env : FlatEnv) : Prop :=
  ∀ fs (x y : ℝ) a b p, env.c2r fs (fun k => (x : ℂ) * a k + (y : ℂ) * b k) p = x * env.c2r fs a p + y * env.c2r fs b p

/-- The same call of the constructor with maps and templates turned by the angle `t`. -/
noncomputable def FlatFieldArgs.turn (t : ℝ) (a : FlatFieldArgs) : FlatFieldArgs :=
  { a with
    maps := a.maps.map fun m => { m with val := turnBy m.ncomp t m.val }
    templates := a.templates.map fun T => { T with val := fun i => turnBy T.ncomp t (T.val i) } }

/-- The contents of `g` are those of `f` with maps, templates and their coefficients turned by the angle `t`. -/
structure FlatTurned (t : ℝ) (f g : FlatFieldObj) : Prop where
  base : g.base = f.base
  lite : g.lite = f.lite
  maskOnly : g.maskOnly = f.maskOnly
  nmaps : g.nmaps = f.nmaps
  ntemp : g.ntemp = f.ntemp
  maps : Option.Rel (Option.Rel (TurnedBy f.nmaps t)) f.maps g.maps
  temp : Option.Rel (fun T U => ∀ i, TurnedBy f.nmaps t (T i) (U i)) f.temp g.temp
  alms : Option.Rel (Option.Rel (TurnedBy f.nmaps t)) f.alms g.alms
  aTemp : Option.Rel (fun T U => ∀ i, TurnedBy f.nmaps t (T i) (U i)) f.aTemp g.aTemp
  aMask : g.aMask = f.aMask
  matrixM : g.matrixM = f.matrixM

/-- The same exception, or results that are related. -/
def Outcome.Related {α β : Type*} (R : α → β → Prop) : Outcome α → Outcome β → Prop
  | .ok a, .ok b => R a b
  | .raises e, .raises e' => e = e'
  | .crash, .crash => True
  | _, _ => False

/-! ## Lemmas -/

section
variable {V : Type*} [AddCommGroup V] [Module ℝ V]

theorem TurnedBy.one {t : ℝ} {v w : ℕ → V} : TurnedBy 1 t v w ↔ w 0 = v 0 := by
  unfold TurnedBy
  simp only [turn_of_ne (show (1 : ℕ) ≠ 2 by norm_num)]
  constructor
  · exact fun h => h 0 (by norm_num)
  · intro h c hc
    obtain rfl : c = 0 := by omega
    exact h

theorem TurnedBy.two {t : ℝ} {v w : ℕ → V} : TurnedBy 2 t v w ↔
    w 0 = cos t • v 0 - sin t • v 1 ∧ w 1 = sin t • v 0 + cos t • v 1 := by
  unfold TurnedBy
  constructor
  · intro h
    exact ⟨by rw [h 0 (by norm_num)]; simp [turnBy], by rw [h 1 (by norm_num)]; simp [turnBy]⟩
  · rintro ⟨h0, h1⟩ c hc
    interval_cases c
    · rw [h0]; simp [turnBy]
    · rw [h1]; simp [turnBy]

theorem TurnedBy.zero (n : ℕ) (t : ℝ) : TurnedBy n t (fun _ => (0 : V)) fun _ => 0 := fun c _ => (turnBy_zero n t c).symm

end

theorem nmapsOf_cases (s : ℕ) : (s = 0 ∧ nmapsOf s = 1) ∨ (s ≠ 0 ∧ nmapsOf s = 2) := by
  unfold nmapsOf
  by_cases h : s = 0
  · exact Or.inl ⟨h, by rw [if_pos h]⟩
  · exact Or.inr ⟨h, by rw [if_neg h]⟩

theorem flat_map2alm_xy (fs : FlatInfo) (x y : ℝ) (a b : ℕ × ℕ → ℝ) (k : ℕ × ℕ) :
    fs.map2alm (x • a + y • b) k = (x : ℂ) * fs.map2alm a k + (y : ℂ) * fs.map2alm b k := by
  unfold FlatInfo.map2alm FlatInfo.dft
  simp only [Pi.add_apply, Pi.smul_apply, smul_eq_mul]
  push_cast
  rw [← mul_assoc, ← mul_assoc, ← add_mul, mul_sum, mul_sum, ← sum_add_distrib]
  congr 1
  exact sum_congr rfl fun p _ => by ring

theorem sub_as_add {V : Type*} [AddCommGroup V] [Module ℝ V] (x y : ℝ) (a b : V) : x • a - y • b = x • a + (-y) • b := by module

theorem fsMap2alm_turned {fs : FlatInfo} {s : ℕ} {t : ℝ} {m m' : FlatMaps} (h : TurnedBy (nmapsOf s) t m m') :
    TurnedBy (nmapsOf s) t (fsMap2alm fs s m) (fsMap2alm fs s m') := by
  rcases nmapsOf_cases s with ⟨hs, hn⟩ | ⟨hs, hn⟩
  · rw [hn, TurnedBy.one] at h ⊢
    funext k
    unfold fsMap2alm
    rw [if_pos hs, if_pos hs, h]
  · rw [hn, TurnedBy.two] at h ⊢
    rw [sub_as_add] at h
    constructor
    · funext k
      simp only [fsMap2alm, if_neg hs, if_true, Pi.sub_apply, Pi.smul_apply, Complex.real_smul, one_ne_zero, if_false]
      unfold FlatInfo.map2almSpin
      rw [h.1, h.2, flat_map2alm_xy, flat_map2alm_xy]
      unfold qu2eb
      dsimp only
      push_cast
      ring
    · funext k
      simp only [fsMap2alm, if_neg hs, if_true, Pi.add_apply, Pi.smul_apply, Complex.real_smul, one_ne_zero, if_false]
      unfold FlatInfo.map2almSpin
      rw [h.1, h.2, flat_map2alm_xy, flat_map2alm_xy]
      unfold qu2eb
      dsimp only
      push_cast
      ring

/-- Two maps transformed as scalars. -/
theorem fsScalars_turned {fs : FlatInfo} {t : ℝ} {m m' : FlatMaps} (h : TurnedBy 2 t m m') : TurnedBy 2 t (fsMap2alm fs 0 m) (fsMap2alm fs 0 m') := by
  rw [TurnedBy.two] at h ⊢
  rw [sub_as_add] at h
  constructor
  · funext k
    simp only [fsMap2alm, if_true, Pi.sub_apply, Pi.smul_apply, Complex.real_smul]
    rw [h.1, flat_map2alm_xy]
    push_cast
    ring
  · funext k
    simp only [fsMap2alm, if_true, Pi.add_apply, Pi.smul_apply, Complex.real_smul]
    rw [h.2, flat_map2alm_xy]

variable {env : FlatEnv}

theorem fsAlm2map_turned (hl : env.Linear) {fs : FlatInfo} {s : ℕ} {t : ℝ} {a a' : FlatAlms} (h : TurnedBy (nmapsOf s) t a a') :
    TurnedBy (nmapsOf s) t (fsAlm2map (env.c2r fs) fs s a) (fsAlm2map (env.c2r fs) fs s a') := by
  rcases nmapsOf_cases s with ⟨hs, hn⟩ | ⟨hs, hn⟩
  · rw [hn, TurnedBy.one] at h ⊢
    funext p
    unfold fsAlm2map
    simp only [if_pos hs, h]
  · rw [hn, TurnedBy.two] at h ⊢
    have key : ∀ (x y : ℝ) (u v : ℕ × ℕ → ℂ) (w : ℕ × ℕ → ℂ) p, (∀ k, w k = (x : ℂ) * u k + (y : ℂ) * v k) →
        env.c2r fs w p = x * env.c2r fs u p + y * env.c2r fs v p := by
      intro x y u v w p hw
      rw [← hl fs x y u v p]
      congr 1
      exact funext hw
    constructor
    · funext p
      simp only [fsAlm2map, if_neg hs, if_true, one_ne_zero, if_false, Pi.sub_apply, Pi.smul_apply, smul_eq_mul]
      rw [key (cos t) (-sin t) (fun k => (eb2qu s (fs.kx k.1) (fs.ky k.2) (a 0 k, a 1 k)).1) (fun k => (eb2qu s (fs.kx k.1) (fs.ky k.2) (a 0 k, a 1 k)).2)
        _ p (fun k => by
          rw [h.1, h.2]
          simp only [Pi.sub_apply, Pi.add_apply, Pi.smul_apply, Complex.real_smul]
          unfold eb2qu
          dsimp only
          push_cast
          ring)]
      ring
    · funext p
      simp only [fsAlm2map, if_neg hs, if_true, one_ne_zero, if_false, Pi.add_apply, Pi.smul_apply, smul_eq_mul]
      rw [key (sin t) (cos t) (fun k => (eb2qu s (fs.kx k.1) (fs.ky k.2) (a 0 k, a 1 k)).1) (fun k => (eb2qu s (fs.kx k.1) (fs.ky k.2) (a 0 k, a 1 k)).2)
        _ p (fun k => by
          rw [h.1, h.2]
          simp only [Pi.sub_apply, Pi.add_apply, Pi.smul_apply, Complex.real_smul]
          unfold eb2qu
          dsimp only
          push_cast
          ring)]
      ring

/-- Linear operations on each component. -/
theorem TurnedBy.map {V W : Type} [AddCommGroup V] [Module ℝ V] [AddCommGroup W] [Module ℝ W] {n : ℕ} {t : ℝ} {v w : ℕ → V}
    (h : TurnedBy n t v w) (F : V →ₗ[ℝ] W) : TurnedBy n t (fun c => F (v c)) fun c => F (w c) := by
  intro c hc
  obtain ⟨x, y, i, j, e⟩ := turn_comb n t c
  dsimp only
  rw [h c hc, e, e, map_add, map_smul, map_smul]

/-- Multiplication by the mask. -/
theorem masked_turned {n : ℕ} {t : ℝ} {m m' : FlatMaps} (h : TurnedBy n t m m') (w : ℕ × ℕ → ℝ) :
    TurnedBy n t (fun c p => m c p * w p : FlatMaps) (fun c p => m' c p * w p : FlatMaps) :=
  h.map (W := ℕ × ℕ → ℝ)
    { toFun := fun f p => f p * w p
      map_add' := fun f g => by funext p; exact add_mul _ _ _
      map_smul' := fun x f => by funext p; exact mul_assoc _ _ _ }

theorem neg_turned {n : ℕ} {t : ℝ} {m m' : FlatMaps} (h : TurnedBy n t m m') :
    TurnedBy n t (fun c p => -1 * m c p : FlatMaps) (fun c p => -1 * m' c p : FlatMaps) := by
  have := masked_turned h fun _ => -1
  simpa only [mul_comm] using this

theorem unmaskFlat_turned {n : ℕ} {t : ℝ} {m m' : FlatMaps} (h : TurnedBy n t m m') (w : ℕ × ℕ → ℝ) : TurnedBy n t (unmaskFlat w m) (unmaskFlat w m') := by
  classical
  have e : ∀ m : FlatMaps, unmaskFlat w m = fun c p => m c p * (if w p > 0 then (w p)⁻¹ else 0) := by
    intro m
    funext c p
    unfold unmaskFlat
    by_cases hp : w p > 0
    · rw [if_pos hp, if_pos hp, div_eq_mul_inv]
    · rw [if_neg hp, if_neg hp, mul_zero]
  rw [e, e]
  exact masked_turned h _

theorem flat_dot_turned {fs : FlatInfo} {n : ℕ} {t : ℝ} {a a' b b' : FlatMaps} (ha : TurnedBy n t a a') (hb : TurnedBy n t b b') :
    fs.dot n a' b' = fs.dot n a b := by
  by_cases h2 : n = 2
  · subst h2
    rw [TurnedBy.two] at ha hb
    unfold FlatInfo.dot
    simp only [sum_range_succ, sum_range_zero, zero_add]
    rw [ha.1, ha.2, hb.1, hb.2, ← add_mul, ← add_mul, ← sum_add_distrib, ← sum_add_distrib]
    congr 1
    refine sum_congr rfl fun p _ => ?_
    simp only [Pi.sub_apply, Pi.add_apply, Pi.smul_apply, smul_eq_mul]
    linear_combination (a 0 p * b 0 p + a 1 p * b 1 p) * Real.sin_sq_add_cos_sq t
  · unfold FlatInfo.dot
    refine sum_congr rfl fun c hc => ?_
    rw [ha c (mem_range.1 hc), hb c (mem_range.1 hc), turn_of_ne h2, turn_of_ne h2]

theorem removeTempl_turned {n : ℕ} {t : ℝ} {m m' : FlatMaps} (h : TurnedBy n t m m') {T T' : ℕ → FlatMaps} (hT : ∀ i, TurnedBy n t (T i) (T' i)) (k : ℕ)
    (x : ℕ → ℝ) : TurnedBy n t (removeTempl k x T m) (removeTempl k x T' m') := by
  intro c hc
  obtain ⟨y, z, i, j, e⟩ := turn_comb n t c
  funext p
  rw [e]
  unfold removeTempl
  rw [h c hc, e]
  have : ∀ i', T' i' c p = y * T i' i p + z * T i' j p := by
    intro i'
    rw [hT i' c hc, e]
    rfl
  simp only [this, Pi.add_apply, Pi.smul_apply, smul_eq_mul, mul_sub, mul_add, sum_add_distrib, mul_sum]
  have e1 : ∀ i' ∈ range k, x i' * (y * T i' i p) = y * (x i' * T i' i p) := fun _ _ => by ring
  have e2 : ∀ i' ∈ range k, x i' * (z * T i' j p) = z * (x i' * T i' j p) := fun _ _ => by ring
  rw [sum_congr rfl e1, sum_congr rfl e2]
  ring

theorem spinProductFlat_turned {t : ℝ} {m m' : FlatMaps} (h : TurnedBy 2 t m m') (w : FlatMaps) :
    TurnedBy 2 t (spinProductFlat w m) (spinProductFlat w m') := by
  rw [TurnedBy.two] at h ⊢
  constructor
  · funext p
    simp only [spinProductFlat, if_true, one_ne_zero, if_false, Pi.sub_apply, Pi.smul_apply, smul_eq_mul, h.1, h.2, Pi.add_apply]
    ring
  · funext p
    simp only [spinProductFlat, if_true, one_ne_zero, if_false, Pi.sub_apply, Pi.smul_apply, smul_eq_mul, h.1, h.2, Pi.add_apply]
    ring

theorem purifyFlatAlms_turned {t : ℝ} (fs : FlatInfo) (c2r : (ℕ × ℕ → ℂ) → ℕ × ℕ → ℝ) (pE pB : Bool) (hp : pE = pB) (mask : ℕ × ℕ → ℝ) (w : ℕ × ℕ → ℂ)
    {m m' : FlatMaps} (h : TurnedBy 2 t m m') : TurnedBy 2 t (purifyFlatAlms c2r fs pE pB mask w m) (purifyFlatAlms c2r fs pE pB mask w m') := by
  subst hp
  have h0 := fsMap2alm_turned (fs := fs) (s := 2) (masked_turned h mask)
  have h1 := fsMap2alm_turned (fs := fs) (s := 1) (spinProductFlat_turned h (fsAlm2map c2r fs 1 (walmXLpower fs w 1)))
  have h2 := fsScalars_turned (fs := fs) (neg_turned (spinProductFlat_turned h (fsAlm2map c2r fs 2 (walmXLpower fs w 2))))
  rw [show nmapsOf 2 = 2 from rfl, TurnedBy.two] at h0
  rw [show nmapsOf 1 = 2 from rfl, TurnedBy.two] at h1
  rw [TurnedBy.two] at h2 ⊢
  unfold purifyFlatAlms
  rw [h0.1, h0.2, h1.1, h1.2, h2.1, h2.2]
  cases pE with
  | false => exact ⟨funext fun k => by simp, funext fun k => by simp⟩
  | true =>
    constructor
    · funext k
      simp only [and_true, true_or, or_true, if_true, one_ne_zero, Pi.sub_apply, Pi.smul_apply, Complex.real_smul]
      by_cases q1 : fs.pixMod k > 0 <;> by_cases q2 : fs.pixMod k ^ 2 > 0 <;> simp only [q1, q2, if_true, if_false] <;> ring
    · funext k
      simp only [and_true, true_or, or_true, if_true, one_ne_zero, Pi.add_apply, Pi.smul_apply, Complex.real_smul]
      by_cases q1 : fs.pixMod k > 0 <;> by_cases q2 : fs.pixMod k ^ 2 > 0 <;> simp only [q1, q2, if_true, if_false] <;> ring

theorem purifyFlat_turned (hl : env.Linear) {t : ℝ} (fs : FlatInfo) (pE pB : Bool) (hp : pE = pB) (mask : ℕ × ℕ → ℝ) (w : ℕ × ℕ → ℂ) {m m' : FlatMaps}
    (h : TurnedBy 2 t m m') : TurnedBy 2 t (purifyFlat (env.c2r fs) fs pE pB mask w m).1 (purifyFlat (env.c2r fs) fs pE pB mask w m').1 ∧
      TurnedBy 2 t (purifyFlat (env.c2r fs) fs pE pB mask w m).2 (purifyFlat (env.c2r fs) fs pE pB mask w m').2 := by
  have h1 := purifyFlatAlms_turned fs (env.c2r fs) pE pB hp mask w h
  exact ⟨h1, fsAlm2map_turned hl (s := 2) h1⟩

theorem gram_turned {fs : FlatInfo} {n : ℕ} {t : ℝ} (k : ℕ) {T T' : ℕ → FlatMaps} (hT : ∀ i, TurnedBy n t (T i) (T' i)) :
    flatGram fs n k T' = flatGram fs n k T := by
  unfold flatGram
  congr 1
  funext i j
  rw [flat_dot_turned (hT i) (hT j), flat_dot_turned (hT j) (hT i)]

theorem alphas_turned {fs : FlatInfo} {n : ℕ} {t : ℝ} (k : ℕ) (P : ℕ → ℕ → ℝ) {T T' : ℕ → FlatMaps} (hT : ∀ i, TurnedBy n t (T i) (T' i)) {m m' : FlatMaps}
    (h : TurnedBy n t m m') : flatAlphas fs n k P T' m' = flatAlphas fs n k P T m := by
  funext i
  unfold flatAlphas
  exact sum_congr rfl fun j _ => by rw [flat_dot_turned (hT j) h]

/-! ## The constructor -/

theorem flatAlloc_turned (hl : env.Linear) (t : ℝ) (base : FlatField) (hp : (base.pureE == 1) = (base.pureB == 1))
    (hs : (base.pureE == 1 || base.pureB == 1) = true → base.spin = 2) {m m' : FlatMaps} (h : TurnedBy (nmapsOf base.spin) t m m') (nt : ℕ)
    {T T' : ℕ → FlatMaps} (hT : ∀ i, TurnedBy (nmapsOf base.spin) t (T i) (T' i)) (o : Bool) (tol : ℝ) (masked lite : Bool) :
    FlatTurned t (flatAlloc env base m (if o then some (nt, T) else none) tol masked lite)
      (flatAlloc env base m' (if o then some (nt, T') else none) tol masked lite) := by
  have hmsk : ∀ {v v' : FlatMaps}, TurnedBy (nmapsOf base.spin) t v v' → TurnedBy (nmapsOf base.spin) t
      (if masked = true then v else fun c p => v c p * base.mask p) (if masked = true then v' else fun c p => v' c p * base.mask p) := by
    intro v v' hv
    cases masked with
    | true => exact hv
    | false => exact masked_turned hv _
  have hunm : ∀ {v v' : FlatMaps}, TurnedBy (nmapsOf base.spin) t v v' → TurnedBy (nmapsOf base.spin) t
      ((if masked = true then unmaskFlat base.mask else id) v) ((if masked = true then unmaskFlat base.mask else id) v') := by
    intro v v' hv
    cases masked with
    | true => exact unmaskFlat_turned hv _
    | false => exact hv
  obtain ⟨nt', S, S', hS, hn, e1, e2⟩ : ∃ (nt' : ℕ) (S S' : ℕ → FlatMaps), (∀ i, TurnedBy (nmapsOf base.spin) t (S i) (S' i)) ∧
      (((if o = true then some (nt, T) else none).map Prod.fst).getD 0 = nt' ∧ ((if o = true then some (nt, T') else none).map Prod.fst).getD 0 = nt') ∧
      ((if o = true then some (nt, T) else none).map Prod.snd).getD (fun _ _ _ => 0) = S ∧
      ((if o = true then some (nt, T') else none).map Prod.snd).getD (fun _ _ _ => 0) = S' := by
    cases o with
    | true => exact ⟨nt, T, T', hT, ⟨rfl, rfl⟩, rfl, rfl⟩
    | false => exact ⟨0, _, _, fun i => TurnedBy.zero _ _, ⟨rfl, rfl⟩, rfl, rfl⟩
  have hG := gram_turned (fs := base.fs) nt' fun i => hmsk (hS i)
  unfold flatAlloc
  simp only [hn.1, hn.2, e1, e2, hG]
  generalize (if nt' > 0 then some (pinvC env.eig nt' (flatGram base.fs (nmapsOf base.spin) nt' fun i =>
    if masked = true then S i else fun c p => S i c p * base.mask p) tol) else none) = M
  have hal := fun P => alphas_turned (fs := base.fs) nt' P (fun i => hmsk (hS i)) (hmsk h)
  have hU := removeTempl_turned (hunm h) (fun i => hunm (hS i)) nt'
  have hK := removeTempl_turned (hmsk h) (fun i => hmsk (hS i)) nt'
  have hpure : (base.pureE == 1 || base.pureB == 1) = true → ∀ {v v' : FlatMaps}, TurnedBy (nmapsOf base.spin) t v v' →
      TurnedBy (nmapsOf base.spin) t (purifyFlat (env.c2r base.fs) base.fs (base.pureE == 1) (base.pureB == 1) base.mask (base.fs.map2alm base.mask) v).1
        (purifyFlat (env.c2r base.fs) base.fs (base.pureE == 1) (base.pureB == 1) base.mask (base.fs.map2alm base.mask) v').1 ∧
      TurnedBy (nmapsOf base.spin) t (purifyFlat (env.c2r base.fs) base.fs (base.pureE == 1) (base.pureB == 1) base.mask (base.fs.map2alm base.mask) v).2
        (purifyFlat (env.c2r base.fs) base.fs (base.pureE == 1) (base.pureB == 1) base.mask (base.fs.map2alm base.mask) v').2 := by
    intro hpp v v' r
    rw [hs hpp] at r ⊢
    exact purifyFlat_turned hl base.fs _ _ hp base.mask _ r
  refine ⟨rfl, rfl, rfl, rfl, rfl, ?_, ?_, ?_, ?_, rfl, rfl⟩
  · cases lite with
    | true => exact Option.Rel.none
    | false =>
      refine Option.Rel.some ?_
      rcases Bool.eq_false_or_eq_true (base.pureE == 1 || base.pureB == 1) with hpp | hpp
      · simp only [hpp, if_true]
        rcases M with _ | (_ | P)
        · exact Option.Rel.some (hpure hpp (hU _)).2
        · exact Option.Rel.none
        · simp only [Option.map_some, hal]
          exact Option.Rel.some (hpure hpp (hU _)).2
      · simp only [hpp, Bool.false_eq_true, if_false]
        rcases M with _ | (_ | P)
        · exact Option.Rel.some (hK _)
        · exact Option.Rel.none
        · simp only [Option.map_some, hal]
          exact Option.Rel.some (hK _)
  · by_cases hz : lite = true ∨ nt' = 0
    · simp only [if_pos hz]; exact Option.Rel.none
    · simp only [if_neg hz]
      refine Option.Rel.some fun i => ?_
      rcases Bool.eq_false_or_eq_true (base.pureE == 1 || base.pureB == 1) with hpp | hpp
      · simp only [hpp, if_true]
        exact masked_turned (hunm (hS i)) _
      · simp only [hpp, Bool.false_eq_true, if_false]
        exact hmsk (hS i)
  · refine Option.Rel.some ?_
    rcases Bool.eq_false_or_eq_true (base.pureE == 1 || base.pureB == 1) with hpp | hpp
    · simp only [hpp, if_true]
      rcases M with _ | (_ | P)
      · exact Option.Rel.some (hpure hpp (hU _)).1
      · exact Option.Rel.none
      · simp only [Option.map_some, hal]
        exact Option.Rel.some (hpure hpp (hU _)).1
    · simp only [hpp, Bool.false_eq_true, if_false]
      rcases M with _ | (_ | P)
      · exact Option.Rel.some (fsMap2alm_turned (hK _))
      · exact Option.Rel.none
      · simp only [Option.map_some, hal]
        exact Option.Rel.some (fsMap2alm_turned (hK _))
  · by_cases hz : lite = true ∨ nt' = 0
    · simp only [if_pos hz]; exact Option.Rel.none
    · simp only [if_neg hz]
      refine Option.Rel.some fun i => ?_
      rcases Bool.eq_false_or_eq_true (base.pureE == 1 || base.pureB == 1) with hpp | hpp
      · simp only [hpp, if_true]
        exact (hpure hpp (hunm (hS i))).1
      · simp only [hpp, Bool.false_eq_true, if_false]
        exact fsMap2alm_turned (hmsk (hS i))

/-- Turned maps are valid for the spin of the field. -/
theorem flatSpin_comp {a : FlatFieldArgs} {s : ℕ} (h : flatSpin a = .ok s) {m : FlatStackArg} (hm : a.maps = some m) : m.ncomp = nmapsOf s := by
  unfold flatSpin at h
  rw [hm] at h
  dsimp only at h
  by_cases h0 : m.ncomp ≠ 1 ∧ m.ncomp ≠ 2
  · rw [if_pos h0] at h; cases h
  rw [if_neg h0] at h
  have hc : m.ncomp = 1 ∨ m.ncomp = 2 := by omega
  cases hsp : a.spin with
  | none =>
    rw [hsp] at h
    dsimp only at h
    rw [← Outcome.ok.inj h]
    rcases hc with hc | hc <;> simp [hc, nmapsOf]
  | some s' =>
    rw [hsp] at h
    dsimp only at h
    by_cases h1 : (s' ≠ 0 ∧ m.ncomp = 1) ∨ (s' = 0 ∧ m.ncomp ≠ 1)
    · rw [if_pos h1] at h; cases h
    rw [if_neg h1] at h
    rw [← Outcome.ok.inj h]
    unfold nmapsOf
    by_cases hz : s' = 0
    · rw [if_pos hz]; omega
    · rw [if_neg hz]; omega

theorem nmtFieldFlat_turned (hl : env.Linear) (t : ℝ) (a : FlatFieldArgs) (hp : a.purifyE = a.purifyB) :
    Outcome.Related (FlatTurned t) (nmtFieldFlat env a) (nmtFieldFlat env (a.turn t)) := by
  have hs : flatSpin (a.turn t) = flatSpin a := by
    unfold flatSpin FlatFieldArgs.turn
    cases a.maps <;> rfl
  have hsh : flatShapes (a.turn t) = flatShapes a := by
    unfold flatShapes FlatFieldArgs.turn
    cases a.maps <;> cases a.templates <;> rfl
  unfold nmtFieldFlat
  rw [hs, hsh]
  simp only [show (a.turn t).fs = a.fs from rfl, show (a.turn t).purifyE = a.purifyE from rfl, show (a.turn t).purifyB = a.purifyB from rfl,
    show (a.turn t).beam = a.beam from rfl, show (a.turn t).mask = a.mask from rfl, show (a.turn t).tol = a.tol from rfl,
    show (a.turn t).maskedOnInput = a.maskedOnInput from rfl, show (a.turn t).lite = a.lite from rfl]
  by_cases h0 : a.fs.lx < 0 ∨ a.fs.ly < 0
  · rw [if_pos h0, if_pos h0]; exact rfl
  rw [if_neg h0, if_neg h0]
  cases hsp : flatSpin a with
  | raises e => exact rfl
  | crash => exact trivial
  | ok spin =>
    dsimp only [Outcome.bind]
    by_cases hpp : (a.purifyE || a.purifyB) ∧ spin ≠ 2
    · rw [if_pos hpp, if_pos hpp]; exact rfl
    rw [if_neg hpp, if_neg hpp]
    cases hshp : flatShapes a with
    | raises e => exact rfl
    | crash => exact trivial
    | ok u =>
      dsimp only
      by_cases hl' : ¬ (a.fs.lx > 0 ∧ a.fs.ly > 0)
      · rw [if_pos hl', if_pos hl']; exact rfl
      rw [if_neg hl', if_neg hl']
      cases flatBeam a.beam with
      | raises e => exact rfl
      | crash => exact trivial
      | ok beam =>
        dsimp only
        cases hm : a.maps with
        | none =>
          have : (a.turn t).maps = none := by unfold FlatFieldArgs.turn; rw [hm]; rfl
          rw [this]
          exact ⟨rfl, rfl, rfl, rfl, rfl, .none, .none, .none, .none, rfl, rfl⟩
        | some m =>
          have : (a.turn t).maps = some { m with val := turnBy m.ncomp t m.val } := by
            unfold FlatFieldArgs.turn
            rw [hm]
            rfl
          rw [this]
          dsimp only
          have hcomp := flatSpin_comp hsp hm
          have hspin : ((if a.purifyE = true then 1 else 0) == 1 || (if a.purifyB = true then 1 else 0) == 1) = true → spin = 2 := by
            intro h
            by_contra hne
            refine hpp ⟨?_, hne⟩
            cases h1 : a.purifyE <;> cases h2 : a.purifyB <;> simp_all
          have hpeq : ((if a.purifyE = true then 1 else 0) == 1) = ((if a.purifyB = true then 1 else 0) == 1) := by rw [hp]
          have hval : TurnedBy (nmapsOf spin) t m.val (turnBy m.ncomp t m.val) := by rw [hcomp]; exact fun c _ => rfl
          cases ht : a.templates with
          | none =>
            have ht' : (a.turn t).templates = none := by unfold FlatFieldArgs.turn; rw [ht]; rfl
            rw [ht']
            exact flatAlloc_turned hl t ⟨a.fs, spin, a.mask, beam, if a.purifyE then 1 else 0, if a.purifyB then 1 else 0⟩ hpeq hspin hval 0
              (T := fun _ _ => 0) (T' := fun _ _ => 0) (fun _ => TurnedBy.zero _ _) false a.tol a.maskedOnInput a.lite
          | some T =>
            have ht' : (a.turn t).templates = some { T with val := fun i => turnBy T.ncomp t (T.val i) } := by
              unfold FlatFieldArgs.turn; rw [ht]; rfl
            rw [ht']
            have hTc : T.ncomp = m.ncomp := by
              unfold flatShapes at hshp
              rw [hm, ht] at hshp
              dsimp only at hshp
              by_contra hne
              rw [if_pos hne] at hshp
              split_ifs at hshp
            exact flatAlloc_turned hl t ⟨a.fs, spin, a.mask, beam, if a.purifyE then 1 else 0, if a.purifyB then 1 else 0⟩ hpeq hspin hval T.ntemp
              (T := T.val) (T' := fun i => turnBy T.ncomp t (T.val i)) (fun i c _ => by rw [hTc, hcomp]) true a.tol a.maskedOnInput a.lite

end NaMaster
