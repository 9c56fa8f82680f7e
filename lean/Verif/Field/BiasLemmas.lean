import Verif.Field.LiteProps
import Verif.Field.Props

/-! # Lemmas about deprojected coefficients and their mean spectra -/

namespace NaMaster

open Finset

/-- A constructor call without anisotropic mask, for a complete field with unmasked input maps. -/
structure IsoCall (a : FieldArgs) : Prop where
  mask22 : a.mask22 = none
  mask12 : a.mask12 = none
  unmasked : a.maskedOnInput = false
  full : a.lite = false
  tol : 0 < a.tol

/-- The same call with given maps. -/
def FieldArgs.withMaps (a : FieldArgs) (nc np : ℕ) (v : MapStack) : FieldArgs := { a with maps := some ⟨nc, np, v⟩ }

/-- The same call without templates. -/
def FieldArgs.bare (a : FieldArgs) : FieldArgs := { a with templates := none }

/-- Number of templates. -/
def FieldArgs.nTempl (a : FieldArgs) : ℕ := (a.templates.map TemplArg.ntemp).getD 0

/-- Templates, not masked. -/
def FieldArgs.rawTempl (a : FieldArgs) (nc np i : ℕ) : MapStack := tab2 nc np ((a.templates.map TemplArg.val).getD (fun _ _ _ => 0) i)

/-- Analysis is linear for every spin and band limit. -/
def Sht.AnalysisLinear (S : Sht) : Prop := ∀ s lmax, ∃ A B Z, LinearSht S s lmax A B Z

/-- Synthesis returns maps with the right shape. -/
def Sht.Shaped (S : Sht) (np : ℕ) : Prop := ∀ s lmax a, S.alm2map s lmax a = tab2 (if s = 0 then 1 else 2) np (S.alm2map s lmax a)

theorem map2alm_lin {S : Sht} (h : S.AnalysisLinear) (s : ℤ) (lmax n : ℕ) (x y : ℝ) (m1 m2 : MapStack) :
    S.map2alm s lmax n (x • m1 + y • m2) = x • S.map2alm s lmax n m1 + y • S.map2alm s lmax n m2 := by
  obtain ⟨A, B, Z, hL⟩ := h s lmax
  exact C38_linear S s lmax A B Z hL n x y m1 m2

/-- The coefficients of a map after masking or purification; zero if purification fails. -/
noncomputable def pop (S : Sht) (nIter : ℕ) (f : FieldObj) (mp : MapStack) : Alms :=
  match purifyIfNeeded S nIter f mp with
  | .ok a => a
  | _ => 0

theorem pop_lin {S : Sht} (h : S.AnalysisLinear) (nIter : ℕ) (f : FieldObj) (x y : ℝ) (m1 m2 : MapStack) :
    pop S nIter f (x • m1 + y • m2) = x • pop S nIter f m1 + y • pop S nIter f m2 := by
  unfold pop purifyIfNeeded
  have hm : ∀ w : ℕ → ℝ, (fun c p => (x • m1 + y • m2) c p * w p) = x • (fun c p => m1 c p * w p) + y • fun c p => m2 c p * w p := by
    intro w; funext c p
    simp only [Pi.add_apply, Pi.smul_apply, smul_eq_mul]; ring
  have hsp : ∀ w, spinProduct w (x • m1 + y • m2) = x • spinProduct w m1 + y • spinProduct w m2 := by
    intro w; funext c p
    simp only [spinProduct, Pi.add_apply, Pi.smul_apply, smul_eq_mul]
    split_ifs <;> ring
  have hsi : ∀ w c, single (spinProduct w (x • m1 + y • m2) c) = x • single (spinProduct w m1 c) + y • single (spinProduct w m2 c) := by
    intro w c; rw [hsp]; funext c' p
    simp only [single, Pi.add_apply, Pi.smul_apply, smul_eq_mul]
    split_ifs <;> ring
  by_cases hp : (f.pureE || f.pureB) = true
  · simp only [hp, if_true]
    unfold purify
    by_cases hl : (f.pureE || f.pureB) = true ∧ f.lmax ≠ f.lmaxMask
    · simp only [if_pos hl, Outcome.bind]; simp
    · simp only [if_neg hl, Outcome.bind]
      simp only [hm, map2alm_lin h, hsi]
      rw [hsp, map2alm_lin h]
      funext c l m
      simp only [Pi.add_apply, Pi.smul_apply, Complex.real_smul, almxfl]
      split_ifs <;> ring
  · simp only [hp, Bool.false_eq_true, if_false]
    rw [hm, map2alm_lin h]

/-- `pop` as a linear map. -/
noncomputable def popL {S : Sht} (h : S.AnalysisLinear) (nIter : ℕ) (f : FieldObj) : MapStack →ₗ[ℝ] Alms where
  toFun := pop S nIter f
  map_add' x y := by simpa using pop_lin h nIter f 1 1 x y
  map_smul' r x := by simpa using pop_lin h nIter f r 0 x 0

/-- Spectra with a fixed field are linear in the other one. -/
noncomputable def clL (a : ℕ → ℕ → ℂ) (l b : ℕ) : Alms →ₗ[ℝ] ℝ where
  toFun x := alm2cl a (x b) l
  map_add' x y := alm2cl_add_right a (x b) (y b) l
  map_smul' r x := by
    have := alm2cl_smul_right r a (x b) l
    simp only [RingHom.id_apply, smul_eq_mul]
    rw [← this]
    rfl

/-- Scalar products with a fixed map are linear. -/
noncomputable def dotL (P : Pix) (nm : ℕ) (a : MapStack) : MapStack →ₗ[ℝ] ℝ where
  toFun x := P.dot nm a x
  map_add' x y := dot_add x y a
  map_smul' r x := by
    simp only [Pix.dot, Pi.smul_apply, smul_eq_mul, RingHom.id_apply, mul_sum]
    exact sum_congr rfl fun c _ => sum_congr rfl fun p _ => by ring

/-- The map that is one in one pixel. -/
def delta (c p : ℕ) : MapStack := fun c' p' => if c' = c ∧ p' = p then 1 else 0

theorem tab2_delta (nm np : ℕ) (s : MapStack) : tab2 nm np s = ∑ c ∈ range nm, ∑ p ∈ range np, s c p • delta c p := by
  funext c' p'
  simp only [Finset.sum_apply, Pi.smul_apply, delta, smul_eq_mul, mul_ite, mul_one, mul_zero]
  unfold tab2
  by_cases h : c' < nm ∧ p' < np
  · rw [if_pos h, sum_eq_single_of_mem c' (mem_range.2 h.1), sum_eq_single_of_mem p' (mem_range.2 h.2)]
    · simp
    · intro p _ hp; rw [if_neg]; rintro ⟨_, rfl⟩; exact hp rfl
    · intro c _ hc
      exact sum_eq_zero fun p _ => if_neg (by rintro ⟨rfl, _⟩; exact hc rfl)
  · rw [if_neg h]
    symm
    refine sum_eq_zero fun c hc => sum_eq_zero fun p hp => if_neg ?_
    rintro ⟨rfl, rfl⟩
    exact h ⟨mem_range.1 hc, mem_range.1 hp⟩

/-- The mean of a linear function of maps with finitely many pixels. -/
theorem mean_linear {Ω : Type*} (E : (Ω → ℝ) →ₗ[ℝ] ℝ) (φ : MapStack →ₗ[ℝ] ℝ) (nm np : ℕ) (s : Ω → MapStack) (X : Ω → ℝ)
    (M : MapStack) (hM : M = tab2 nm np M) (h : ∀ c < nm, ∀ p < np, E (fun ω => s ω c p * X ω) = M c p) :
    E (fun ω => X ω * φ (tab2 nm np (s ω))) = φ M := by
  rw [hM]
  have e : (fun ω => X ω * φ (tab2 nm np (s ω))) = ∑ c ∈ range nm, ∑ p ∈ range np, φ (delta c p) • fun ω => s ω c p * X ω := by
    funext ω
    rw [tab2_delta]
    simp only [map_sum, map_smul, Finset.sum_apply, Pi.smul_apply, smul_eq_mul, mul_sum]
    exact sum_congr rfl fun c _ => sum_congr rfl fun p _ => by ring
  rw [e, tab2_delta]
  simp only [map_sum, map_smul, smul_eq_mul]
  refine sum_congr rfl fun c hc => sum_congr rfl fun p hp => ?_
  rw [h c (mem_range.1 hc) p (mem_range.1 hp)]; ring

/-- Spectrum of two fields from each of which a combination of other fields is subtracted. -/
theorem alm2cl_expand (X Y : ℕ → ℕ → ℂ) (n m : ℕ) (α β : ℕ → ℝ) (A B : ℕ → ℕ → ℕ → ℂ) (l : ℕ) :
    alm2cl (fun l k => X l k - ∑ i ∈ range n, (α i : ℂ) * A i l k) (fun l k => Y l k - ∑ s ∈ range m, (β s : ℂ) * B s l k) l =
      alm2cl X Y l - (∑ i ∈ range n, α i * alm2cl (A i) Y l) - (∑ s ∈ range m, β s * alm2cl X (B s) l) +
        ∑ i ∈ range n, ∑ s ∈ range m, α i * β s * alm2cl (A i) (B s) l := by
  rw [alm2cl_sub_left, alm2cl_sub_right, alm2cl_sub_right, alm2cl_sum_left, alm2cl_sum_left, alm2cl_sum_right]
  simp only [alm2cl_smul_left, alm2cl_smul_right]
  have : ∀ i ∈ range n, α i * alm2cl (A i) (fun l k => ∑ s ∈ range m, (β s : ℂ) * B s l k) l =
      ∑ s ∈ range m, α i * β s * alm2cl (A i) (B s) l := by
    intro i _
    rw [alm2cl_sum_right, mul_sum]
    exact sum_congr rfl fun s _ => by rw [alm2cl_smul_right]; ring
  rw [sum_congr rfl this]
  ring

/-! ## Fields made by the constructor -/

theorem spectralInverse_symm {n : ℕ} {w : ℕ → ℝ} {v : ℕ → ℕ → ℝ} {good : ℕ → Prop} [DecidablePred good] {Q : ℕ → ℕ → ℝ}
    (h : spectralInverse n w v good = some Q) (i j : ℕ) : Q i j = Q j i := by
  unfold spectralInverse at h
  split_ifs at h
  simp only [Option.some.injEq] at h
  subst h
  unfold tab2
  by_cases hij : i < n ∧ j < n
  · rw [if_pos hij, if_pos hij.symm]
    exact sum_congr rfl fun k _ => by ring
  · rw [if_neg hij, if_neg fun hji => hij hji.symm]

theorem purifyAll_val (S : Sht) (lmax lmaxMask nIter : ℕ) (mask : ℕ → ℝ) (am : ℕ → ℕ → ℂ) (pe pb : Bool) (T : ℕ → MapStack) (n : ℕ)
    (r : ℕ → Alms) (h : purifyAll S lmax lmaxMask nIter mask am pe pb T n = .ok r) (i : ℕ) (hi : i < n) :
    ∃ q, purify S lmax lmaxMask nIter mask am pe pb (T i) = .ok q ∧ r i = q.1 := by
  induction n generalizing r with
  | zero => omega
  | succ n ih =>
    unfold purifyAll at h
    cases hr : purifyAll S lmax lmaxMask nIter mask am pe pb T n with
    | crash => rw [hr] at h; cases h
    | raises e => rw [hr] at h; cases h
    | ok g =>
      rw [hr] at h
      cases hs : purify S lmax lmaxMask nIter mask am pe pb (T n) with
      | crash => rw [hs] at h; cases h
      | raises e => rw [hs] at h; cases h
      | ok q =>
        rw [hs] at h
        simp only [Outcome.bind, Outcome.ok.injEq] at h
        subst h
        by_cases hin : i = n
        · subst hin; exact ⟨q, hs, by simp⟩
        · obtain ⟨q', h1, h2⟩ := ih g hr (by omega)
          exact ⟨q', h1, by rw [Function.update_of_ne hin, h2]⟩

theorem purifyIfNeededAll_val (S : Sht) (nIter : ℕ) (f : FieldObj) (hok : ∀ m, purifyIfNeeded S nIter f m = .ok (pop S nIter f m))
    (T : ℕ → MapStack) (n : ℕ) : ∃ r, purifyIfNeededAll S nIter f T n = .ok r ∧ ∀ i < n, r i = pop S nIter f (T i) := by
  induction n with
  | zero => exact ⟨_, rfl, fun i hi => by omega⟩
  | succ n ih =>
    obtain ⟨g, hg, hv⟩ := ih
    unfold purifyIfNeededAll
    rw [hg, hok]
    refine ⟨_, rfl, fun i hi => ?_⟩
    by_cases hin : i = n
    · subst hin; simp
    · rw [Function.update_of_ne hin, hv i (by omega)]

/-- What the constructor returns for isotropic masks: the attributes the spectra and the bias depend on. `base` does not depend on
the maps. -/
structure FieldIs (env : FieldEnv) (a : FieldArgs) (nc np : ℕ) (sp : ℤ) (v : MapStack) (f : FieldObj) : Prop where
  spin : f.spin = sp
  nmaps : f.nmaps = nc
  hnc : nc = if sp = 0 then 1 else 2
  hnp : np = env.pix.npix
  mask : f.mask = a.mask
  lmax : f.lmax = (a.lmax.getD env.lmaxDefault).toNat
  lmaxMask : f.lmaxMask = (a.lmaxMask.getD env.lmaxDefault).toNat
  nIterMask : f.nIterMask = a.nIterMask
  pureE : f.pureE = a.purifyE
  pureB : f.pureB = a.purifyB
  lite : f.lite = false
  nTemp : f.nTemp = a.nTempl
  temp : f.temp.getD (fun _ _ _ => 0) = fun i c p => a.rawTempl nc np i c p * a.mask p
  popOk : ∀ m, purifyIfNeeded env.sht a.nIter f m = .ok (pop env.sht a.nIter f m)
  almTemp : ∀ i < a.nTempl, f.almTemp.getD (fun _ _ _ _ => 0) i = pop env.sht a.nIter f (a.rawTempl nc np i)
  alm : ∀ Q, f.iM.getD (some fun _ _ => 0) = some Q → (∀ i j, Q i j = Q j i) ∧ f.alm = some (some (pop env.sht a.nIter f fun c p => tab2 nc np v c p -
    ∑ i ∈ range a.nTempl, (∑ j ∈ range a.nTempl, Q i j * env.pix.dot nc (fun c p => a.rawTempl nc np j c p * a.mask p)
      (fun c p => tab2 nc np v c p * a.mask p)) * a.rawTempl nc np i c p))
  iMdet : f.iM = (a.templates.map fun _ => match pinvh env.eig env.inv a.nTempl (tab2 a.nTempl a.nTempl fun i j => env.pix.dot nc
    (fun c p => a.rawTempl nc np j c p * a.mask p) (fun c p => a.rawTempl nc np i c p * a.mask p)) a.tol with
    | .ok x => x
    | _ => none)

theorem purifyIfNeeded_congr (S : Sht) (nIter : ℕ) (f g : FieldObj) (h1 : f.pureE = g.pureE) (h2 : f.pureB = g.pureB) (h3 : f.mask = g.mask)
    (h4 : f.lmax = g.lmax) (h5 : f.lmaxMask = g.lmaxMask) (h6 : f.nIterMask = g.nIterMask) (h7 : f.spin = g.spin) :
    purifyIfNeeded S nIter f = purifyIfNeeded S nIter g := by
  funext m
  unfold purifyIfNeeded FieldObj.getMaskAlms
  rw [h1, h2, h3, h4, h5, h6, h7]

theorem pop_congr (S : Sht) (nIter : ℕ) (f g : FieldObj) (h : purifyIfNeeded S nIter f = purifyIfNeeded S nIter g) :
    pop S nIter f = pop S nIter g := by
  funext m
  unfold pop
  rw [h]

theorem popOk_of (S : Sht) (nIter : ℕ) (o : FieldObj) (m : MapStack) (r : Alms) (h : purifyIfNeeded S nIter o m = .ok r) (m' : MapStack) :
    purifyIfNeeded S nIter o m' = .ok (pop S nIter o m') := by
  have : ∃ r', purifyIfNeeded S nIter o m' = .ok r' := by
    unfold purifyIfNeeded at h ⊢
    by_cases hp : (o.pureE || o.pureB) = true
    · simp only [hp, if_true] at h ⊢
      rcases purify_cases S o.lmax o.lmaxMask nIter o.mask (o.getMaskAlms S) o.pureE o.pureB with k | k
      · obtain ⟨r', hr'⟩ := k m'
        rw [hr']; exact ⟨_, rfl⟩
      · rw [k] at h; cases h
    · simp only [hp, Bool.false_eq_true, if_false]; exact ⟨_, rfl⟩
  obtain ⟨r', hr'⟩ := this
  unfold pop
  rw [hr']

theorem step_none (S : Sht) (nIter : ℕ) (o : FieldObj) (r : Option Alms × Option MapStack)
    (h : (if (o.pureE || o.pureB) = true then purifyO S o.lmax o.lmaxMask nIter o.mask (o.getMaskAlms S) o.pureE o.pureB none
      else Outcome.ok (S.map2almO o.spin o.lmax nIter none, none)) = .ok r) :
    ∀ m, purifyIfNeeded S nIter o m = .ok (pop S nIter o m) := by
  by_cases hp : (o.pureE || o.pureB) = true
  · simp only [hp, if_true] at h
    unfold purifyO at h
    cases hq : purify S o.lmax o.lmaxMask nIter o.mask (o.getMaskAlms S) o.pureE o.pureB (Option.getD none fun _ _ => 0) with
    | crash => rw [hq] at h; cases h
    | raises e => rw [hq] at h; cases h
    | ok q =>
      refine popOk_of S nIter o (Option.getD none fun _ _ => 0) q.1 ?_
      unfold purifyIfNeeded
      simp only [hp, if_true, hq, Outcome.bind]
  · refine popOk_of S nIter o (fun _ _ => 0) (S.map2alm o.spin o.lmax nIter fun c p => 0 * o.mask p) ?_
    unfold purifyIfNeeded
    simp only [hp, Bool.false_eq_true, if_false]

theorem step_some (S : Sht) (nIter : ℕ) (o : FieldObj) (U M : MapStack) (hM : M = fun c p => U c p * o.mask p) (r : Option Alms × Option MapStack)
    (h : (if (o.pureE || o.pureB) = true then purifyO S o.lmax o.lmaxMask nIter o.mask (o.getMaskAlms S) o.pureE o.pureB (some U)
      else Outcome.ok (S.map2almO o.spin o.lmax nIter (some M), some M)) = .ok r) :
    purifyIfNeeded S nIter o U = .ok (pop S nIter o U) ∧ r.1 = some (pop S nIter o U) := by
  by_cases hp : (o.pureE || o.pureB) = true
  · simp only [hp, if_true] at h
    unfold purifyO at h
    cases hq : purify S o.lmax o.lmaxMask nIter o.mask (o.getMaskAlms S) o.pureE o.pureB (Option.getD (some U) fun _ _ => 0) with
    | crash => rw [hq] at h; cases h
    | raises e => rw [hq] at h; cases h
    | ok q =>
      have e : purifyIfNeeded S nIter o U = .ok q.1 := by
        unfold purifyIfNeeded
        simp only [Option.getD_some] at hq
        simp only [hp, if_true, hq, Outcome.bind]
      have e2 : pop S nIter o U = q.1 := by unfold pop; rw [e]
      rw [hq] at h
      simp only [Outcome.bind, Outcome.ok.injEq] at h
      rw [e, e2, ← h]
      exact ⟨rfl, rfl⟩
  · have e : purifyIfNeeded S nIter o U = .ok (S.map2alm o.spin o.lmax nIter M) := by
      unfold purifyIfNeeded
      simp only [hp, Bool.false_eq_true, if_false, hM]
    have e2 : pop S nIter o U = S.map2alm o.spin o.lmax nIter M := by unfold pop; rw [e]
    simp only [hp, Bool.false_eq_true, if_false, Outcome.ok.injEq] at h
    rw [e, e2, ← h]
    exact ⟨rfl, rfl⟩

theorem step_templ (S : Sht) (nIter : ℕ) (o : FieldObj) (U T : ℕ → MapStack) (hT : ∀ i, T i = fun c p => U i c p * o.mask p) (n : ℕ)
    (r : ℕ → Alms)
    (h : (if (o.pureE || o.pureB) = true then purifyAll S o.lmax o.lmaxMask nIter o.mask (o.getMaskAlms S) o.pureE o.pureB U n
      else Outcome.ok fun i => S.map2alm o.spin o.lmax nIter (T i)) = .ok r) (i : ℕ) (hi : i < n) : r i = pop S nIter o (U i) := by
  by_cases hp : (o.pureE || o.pureB) = true
  · simp only [hp, if_true] at h
    obtain ⟨q, h1, h2⟩ := purifyAll_val _ _ _ _ _ _ _ _ _ _ _ h i hi
    rw [h2]
    unfold pop purifyIfNeeded
    simp only [hp, if_true, h1, Outcome.bind]
  · simp only [hp, Bool.false_eq_true, if_false, Outcome.ok.injEq] at h
    rw [← h]
    unfold pop purifyIfNeeded
    simp only [hp, Bool.false_eq_true, if_false, hT]

/-- The last steps of the constructor without templates. -/
theorem finish_none (env : FieldEnv) (a : FieldArgs) (hi : IsoCall a) (ht : a.templates = none) (nc : ℕ) (v : MapStack) (sp : ℤ)
    (hnc : nc = if sp = 0 then 1 else 2) (m : StackArg) (f : FieldObj)
    (h : fieldFinish env { a with maps := some m } (baseObj { a with maps := some m } (a.mask, none) (a.lmax.getD env.lmaxDefault)
      (a.lmaxMask.getD env.lmaxDefault) sp) (tab2 nc env.pix.npix v) none = .ok f) : FieldIs env a nc env.pix.npix sp v f := by
  unfold fieldFinish at h
  set o := baseObj { a with maps := some m } (a.mask, none) (a.lmax.getD env.lmaxDefault) (a.lmaxMask.getD env.lmaxDefault) sp with ho
  have hn : a.nTempl = 0 := by unfold FieldArgs.nTempl; rw [ht]; rfl
  simp only [Outcome.bind, hi.unmasked, Bool.false_eq_true, if_false, Option.isSome_none, false_and, id] at h
  have hmk : applyMask o.mask o.maskA (tab2 nc env.pix.npix v) = fun c p => tab2 nc env.pix.npix v c p * o.mask p := rfl
  rw [hmk] at h
  generalize hD : (if (a.purifyE || a.purifyB) = true then _ else _ : Outcome (Option Alms × Option MapStack)) = D at h
  cases D with
  | crash => cases h
  | raises e => cases h
  | ok r =>
    obtain ⟨h1, h2⟩ := step_some env.sht a.nIter o (tab2 nc env.pix.npix v) _ rfl r hD
    simp only [Outcome.ok.injEq] at h
    have hpc : purifyIfNeeded env.sht a.nIter f = purifyIfNeeded env.sht a.nIter o := by
      subst h; exact purifyIfNeeded_congr _ _ _ _ rfl rfl rfl rfl rfl rfl rfl
    have hpop := pop_congr _ _ _ _ hpc
    refine ⟨?_, ?_, hnc, rfl, ?_, ?_, ?_, ?_, ?_, ?_, ?_, ?_, ?_, ?_, ?_, ?_, ?_⟩
    · subst h; rfl
    · subst h; exact hnc.symm
    · subst h; rfl
    · subst h; rfl
    · subst h; rfl
    · subst h; rfl
    · subst h; rfl
    · subst h; rfl
    · subst h; exact hi.full
    · subst h; exact hn.symm
    · subst h
      funext i c p
      unfold FieldArgs.rawTempl
      rw [ht]
      simp only [Option.getD_none, Option.map_none]
      unfold tab2
      split_ifs <;> simp
    · intro m'
      rw [hpc, hpop]
      exact popOk_of _ _ _ _ _ h1 m'
    · intro i hi'; rw [hn] at hi'; omega
    · intro Q hQ
      rw [hpop]
      subst h
      simp only [Option.getD_none, Option.some.injEq] at hQ
      subst hQ
      refine ⟨fun _ _ => rfl, ?_⟩
      rw [hn]
      simp only [sum_range_zero, sub_zero, h2]
    · subst h; rw [ht]; rfl

/-- The last steps of the constructor with templates. -/
theorem finish_some (env : FieldEnv) (a : FieldArgs) (hi : IsoCall a) (t : TemplArg) (ht : a.templates = some t) (nc : ℕ) (v : MapStack)
    (sp : ℤ) (hnc : nc = if sp = 0 then 1 else 2) (m : StackArg) (f : FieldObj)
    (h : fieldFinish env { a with maps := some m } (baseObj { a with maps := some m } (a.mask, none) (a.lmax.getD env.lmaxDefault)
      (a.lmaxMask.getD env.lmaxDefault) sp) (tab2 nc env.pix.npix v) (some { t with val := fun i => tab2 nc env.pix.npix (t.val i) }) =
      .ok f) : FieldIs env a nc env.pix.npix sp v f := by
  unfold fieldFinish at h
  set o := baseObj { a with maps := some m } (a.mask, none) (a.lmax.getD env.lmaxDefault) (a.lmaxMask.getD env.lmaxDefault) sp with ho
  have hn : a.nTempl = t.ntemp := by unfold FieldArgs.nTempl; rw [ht]; rfl
  have hr : ∀ i, a.rawTempl nc env.pix.npix i = tab2 nc env.pix.npix (t.val i) := by
    intro i; unfold FieldArgs.rawTempl; rw [ht]; rfl
  have hom : o.nmaps = nc := by rw [hnc]; rfl
  simp only [hi.unmasked, Bool.false_eq_true, if_false, Option.isSome_some, true_and, id, Option.map_some, Option.getD_some,
    hi.full, not_false_eq_true, if_true, hom] at h
  have hmk : applyMask o.mask o.maskA (tab2 nc env.pix.npix v) = fun c p => tab2 nc env.pix.npix v c p * o.mask p := rfl
  rw [hmk] at h
  unfold deproject at h
  simp only at h
  cases hI : pinvh env.eig env.inv t.ntemp (tab2 t.ntemp t.ntemp fun i j => env.pix.dot nc
      (fun c p => tab2 nc env.pix.npix (t.val j) c p * o.mask p) (fun c p => tab2 nc env.pix.npix (t.val i) c p * o.mask p)) a.tol with
  | crash => rw [hI] at h; cases h
  | raises e => rw [hI] at h; cases h
  | ok iM =>
    rw [hI] at h
    simp only [Outcome.bind] at h
    have hdet : (match pinvh env.eig env.inv a.nTempl (tab2 a.nTempl a.nTempl fun i j => env.pix.dot nc
        (fun c p => a.rawTempl nc env.pix.npix j c p * a.mask p) (fun c p => a.rawTempl nc env.pix.npix i c p * a.mask p)) a.tol with
        | .ok x => x
        | _ => none) = iM := by
      simp only [hn, hr]
      rw [show a.mask = o.mask from rfl, hI]
    cases iM with
    | none =>
      simp only at h
      generalize hD : (if (a.purifyE || a.purifyB) = true then _ else _ : Outcome (Option Alms × Option MapStack)) = D at h
      cases D with
      | crash => cases h
      | raises e => cases h
      | ok r =>
        have h1 := step_none env.sht a.nIter o r hD
        simp only at h
        generalize hD2 : (if (a.purifyE || a.purifyB) = true then _ else _ : Outcome (ℕ → Alms)) = D2 at h
        cases D2 with
        | crash => cases h
        | raises e => cases h
        | ok q =>
          have hq := step_templ env.sht a.nIter o (fun i => tab2 nc env.pix.npix (t.val i)) _ (fun i => rfl) t.ntemp q hD2
          simp only [Outcome.ok.injEq] at h
          have hpc : purifyIfNeeded env.sht a.nIter f = purifyIfNeeded env.sht a.nIter o := by
            subst h; exact purifyIfNeeded_congr _ _ _ _ rfl rfl rfl rfl rfl rfl rfl
          have hpop := pop_congr _ _ _ _ hpc
          refine ⟨?_, ?_, hnc, rfl, ?_, ?_, ?_, ?_, ?_, ?_, ?_, ?_, ?_, ?_, ?_, ?_, ?_⟩
          · subst h; rfl
          · subst h; rfl
          · subst h; rfl
          · subst h; rfl
          · subst h; rfl
          · subst h; rfl
          · subst h; rfl
          · subst h; rfl
          · subst h; exact hi.full
          · subst h; exact hn.symm
          · subst h
            funext i c p
            rw [hr]; rfl
          · intro m'; rw [hpc, hpop]; exact h1 m'
          · intro i hi'
            rw [hpop, hr]
            subst h
            exact hq i (by omega)
          · intro Q hQ
            subst h
            simp at hQ
          · rw [hdet]; subst h; rw [ht]; rfl
    | some P =>
      simp only at h
      generalize hD : (if (a.purifyE || a.purifyB) = true then _ else _ : Outcome (Option Alms × Option MapStack)) = D at h
      cases D with
      | crash => cases h
      | raises e => cases h
      | ok r =>
        obtain ⟨h1, h2⟩ := step_some env.sht a.nIter o _ _ (by
          funext c p
          rw [sub_mul, sum_mul]
          congr 1
          exact sum_congr rfl fun i _ => by ring) r hD
        simp only at h
        generalize hD2 : (if (a.purifyE || a.purifyB) = true then _ else _ : Outcome (ℕ → Alms)) = D2 at h
        cases D2 with
        | crash => cases h
        | raises e => cases h
        | ok q =>
          have hq := step_templ env.sht a.nIter o (fun i => tab2 nc env.pix.npix (t.val i)) _ (fun i => rfl) t.ntemp q hD2
          simp only [Outcome.ok.injEq] at h
          have hpc : purifyIfNeeded env.sht a.nIter f = purifyIfNeeded env.sht a.nIter o := by
            subst h; exact purifyIfNeeded_congr _ _ _ _ rfl rfl rfl rfl rfl rfl rfl
          have hpop := pop_congr _ _ _ _ hpc
          refine ⟨?_, ?_, hnc, rfl, ?_, ?_, ?_, ?_, ?_, ?_, ?_, ?_, ?_, ?_, ?_, ?_, ?_⟩
          · subst h; rfl
          · subst h; rfl
          · subst h; rfl
          · subst h; rfl
          · subst h; rfl
          · subst h; rfl
          · subst h; rfl
          · subst h; rfl
          · subst h; exact hi.full
          · subst h; exact hn.symm
          · subst h
            funext i c p
            rw [hr]; rfl
          · intro m'; rw [hpc, hpop]; exact popOk_of _ _ _ _ _ h1 m'
          · intro i hi'
            rw [hpop, hr]
            subst h
            exact hq i (by omega)
          · intro Q hQ
            rw [hpop]
            subst h
            simp only [Option.getD_some, Option.some.injEq] at hQ
            subst hQ
            refine ⟨?_, ?_⟩
            · unfold pinvh at hI
              rw [if_neg (not_le.2 hi.tol)] at hI
              simp only [Outcome.ok.injEq] at hI
              exact fun i j => spectralInverse_symm hI i j
            · simp only [h2, hn, hr, Option.some.injEq]
              congr 1
              funext c p
              congr 1
              refine sum_congr rfl fun i hi' => ?_
              rw [tab_of_lt _ (mem_range.1 hi')]
              rfl
          · rw [hdet]; subst h; rw [ht]; rfl

/-- The constructor for isotropic masks. -/
theorem field_is (env : FieldEnv) (a : FieldArgs) (hi : IsoCall a) (nc np : ℕ) (v : MapStack) (f : FieldObj)
    (h : nmtField env (a.withMaps nc np v) = .ok f) : FieldIs env a nc np (spinOf nc a.spin) v f := by
  unfold nmtField at h
  cases hP : fieldChecks env (a.withMaps nc np v) with
  | crash => rw [hP] at h; cases h
  | raises e => rw [hP] at h; cases h
  | ok P =>
    rw [hP] at h
    simp only [Outcome.bind] at h
    have hmk : fieldMasks env.pix (a.withMaps nc np v) = .ok (a.mask, none) := by
      unfold fieldMasks FieldArgs.withMaps
      simp only [hi.mask22, hi.mask12]
    unfold fieldChecks at hP
    rw [hmk] at hP
    simp only [Outcome.bind] at hP
    by_cases q1 : (a.withMaps nc np v).lmax.getD env.lmaxDefault ≤ 0 ∨ (a.withMaps nc np v).lmaxMask.getD env.lmaxDefault ≤ 0
    · rw [if_pos q1] at hP; cases hP
    rw [if_neg q1] at hP
    split_ifs at hP with q2
    simp only [FieldArgs.withMaps] at hP
    unfold mapChecks at hP
    by_cases q3 : nc ≠ 1 ∧ nc ≠ 2
    · rw [if_pos q3] at hP; cases hP
    rw [if_neg q3] at hP
    cases hps : pickSpin nc a.spin with
    | crash => simp only [hps] at hP; cases hP
    | raises e => simp only [hps] at hP; cases hP
    | ok sp =>
      obtain ⟨hs1, hs2⟩ := pickSpin_ok hps (by omega)
      simp only [hps, Outcome.bind] at hP
      split_ifs at hP with r1 r2 r3 r4 r5
      cases ht : a.templates with
      | none =>
        simp only [ht, Outcome.ok.injEq] at hP
        subst hP
        have hnp : np = env.pix.npix := by omega
        subst hnp
        rw [← hs1]
        exact finish_none env a hi ht nc v sp hs2.symm _ f h
      | some t =>
        simp only [ht] at hP
        split_ifs at hP with r6 r7 r8
        simp only [Outcome.ok.injEq] at hP
        subst hP
        have hnp : np = env.pix.npix := by omega
        subst hnp
        rw [← hs1]
        have e1 : t.ncomp = nc := by omega
        have e2 : t.npix = env.pix.npix := by omega
        rw [e1, e2] at h
        exact finish_some env a hi t ht nc v sp hs2.symm _ f h

end NaMaster
