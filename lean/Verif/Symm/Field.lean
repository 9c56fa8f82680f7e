import Verif.Angle.Props

/-!
# Fields moved by a symmetry of the pixel grid
-/

namespace NaMaster

open Finset

/-! ## Specification -/

/-- A rotation or reflection of the sphere that takes pixels to pixels. `perm` gives the pixel whose contents each pixel gets, `padPerm` the same for
padded maps, and `mirror` says whether the orientation changes. `coefOne` is what happens to the coefficients of a scalar: it is linear, treats
multipoles separately and preserves power spectra. -/
structure GridSym where
  perm : Equiv.Perm ℕ
  padPerm : Equiv.Perm ℕ
  mirror : Bool
  coefOne : (ℕ → ℕ → ℂ) → ℕ → ℕ → ℂ
  add : ∀ a b, coefOne (a + b) = coefOne a + coefOne b
  scale : ∀ a (f : ℕ → ℝ), coefOne (almxfl a f) = almxfl (coefOne a) f
  cl : ∀ a b l, alm2cl (coefOne a) (coefOne b) l = alm2cl a b l

/-- The second component of a field with two components (`U` or `B`) changes sign if the orientation changes. -/
def GridSym.sg (g : GridSym) (n c : ℕ) : ℝ := if g.mirror = true ∧ n = 2 ∧ c = 1 then -1 else 1

/-- Maps with `n` components moved. -/
def GridSym.map (g : GridSym) (n : ℕ) (v : MapStack) : MapStack := fun c p => g.sg n c * v c (g.perm p)

/-- Padded maps with `n` components moved. -/
def GridSym.padMap (g : GridSym) (n : ℕ) (v : MapStack) : MapStack := fun c p => g.sg n c * v c (g.padPerm p)

/-- Coefficients with `n` components moved. -/
noncomputable def GridSym.coef (g : GridSym) (n : ℕ) (a : Alms) : Alms := fun c => g.sg n c • g.coefOne (a c)

/-- Number of components of a field. -/
def comps (s : ℤ) : ℕ := if s = 0 then 1 else 2

/-- The transforms and the padding of maps commute with the symmetry, and the transforms of scalars are linear. Pixels and their weights are taken to
pixels with the same weight. -/
structure FieldEnv.HasSym (env : FieldEnv) (g : GridSym) : Prop where
  anal : ∀ s l m, env.sht.m2a s l (g.padMap (comps s) m) = g.coef (comps s) (env.sht.m2a s l m)
  synth : ∀ s l a, env.sht.a2m s l (g.coef (comps s) a) = g.padMap (comps s) (env.sht.a2m s l a)
  pad : ∀ n m, env.sht.pad (g.map n m) = g.padMap n (env.sht.pad m)
  unpad : ∀ n m, env.sht.unpad (g.padMap n m) = g.map n (env.sht.unpad m)
  scalar : ∀ l, ∃ A B Z, LinearSht env.sht 0 l A B Z
  pixels : ∀ p, g.perm p < env.pix.npix ↔ p < env.pix.npix
  weights : ∀ p, env.pix.w (g.perm p) = env.pix.w p

/-- The same call of the constructor with mask, maps and templates moved. -/
noncomputable def FieldArgs.move (g : GridSym) (a : FieldArgs) : FieldArgs :=
  { a with
    mask := fun p => a.mask (g.perm p)
    maps := a.maps.map fun m => { m with val := g.map m.ncomp m.val }
    templates := a.templates.map fun T => { T with val := fun i => g.map T.ncomp (T.val i) } }

/-- Calls with an isotropic mask. -/
structure IsoMask (a : FieldArgs) : Prop where
  iso22 : a.mask22 = none
  iso12 : a.mask12 = none

/-- The attributes of a field moved by the symmetry. -/
noncomputable def FieldObj.move (g : GridSym) (f : FieldObj) : FieldObj :=
  { f with
    mask := fun p => f.mask (g.perm p)
    alm := f.alm.map (Option.map (g.coef f.nmaps))
    maps := f.maps.map (Option.map (g.map f.nmaps))
    temp := f.temp.map fun T i => g.map f.nmaps (T i)
    almTemp := f.almTemp.map fun T i => g.coef f.nmaps (T i) }

/-! ## Lemmas -/

namespace GridSym

variable (g : GridSym)

theorem sg_sq (n c : ℕ) : g.sg n c * g.sg n c = 1 := by
  unfold sg
  split_ifs <;> norm_num

theorem sg_one (c : ℕ) : g.sg 1 c = 1 := if_neg (by omega)

theorem sg_zero (n : ℕ) : g.sg n 0 = 1 := if_neg (by omega)

theorem smul_one (x : ℝ) (a : ℕ → ℕ → ℂ) : g.coefOne (x • a) = x • g.coefOne a := by
  have h := g.scale a fun _ => x
  have e : ∀ b : ℕ → ℕ → ℂ, almxfl b (fun _ => x) = x • b := by
    intro b
    funext l m
    simp [almxfl]
  rw [e, e] at h
  exact h

theorem coefOne_zero : g.coefOne 0 = 0 := by
  have h := g.smul_one 0 0
  simpa using h

theorem coefOne_sub (a b : ℕ → ℕ → ℂ) : g.coefOne (a - b) = g.coefOne a - g.coefOne b := by
  have e : a - b = a + (-1 : ℝ) • b := by module
  rw [e, g.add, g.smul_one]
  module

theorem coefOne_sum {ι : Type*} (s : Finset ι) (a : ι → ℕ → ℕ → ℂ) : g.coefOne (∑ i ∈ s, a i) = ∑ i ∈ s, g.coefOne (a i) := by
  classical
  induction s using Finset.induction_on with
  | empty => simpa using g.coefOne_zero
  | insert i s hi ih => rw [sum_insert hi, sum_insert hi, g.add, ih]

theorem coef_sub (n : ℕ) (a b : Alms) : g.coef n (a - b) = g.coef n a - g.coef n b := by
  funext c
  simp only [coef, Pi.sub_apply, coefOne_sub, smul_sub]

theorem coef_zero (n : ℕ) : g.coef n (fun _ _ _ => 0) = fun _ _ _ => 0 := by
  funext c
  have : g.coefOne (fun _ _ => 0) = 0 := g.coefOne_zero
  simp only [coef, this, smul_zero]
  rfl

theorem padMap_sub (n : ℕ) (a b : MapStack) : g.padMap n (a - b) = g.padMap n a - g.padMap n b := by
  funext c p
  simp only [padMap, Pi.sub_apply]
  ring

theorem map_zero (n : ℕ) : g.map n (fun _ _ => 0) = fun _ _ => 0 := by
  funext c p
  simp [map]

end GridSym

variable {env : FieldEnv} {g : GridSym}

theorem transform_move (h : env.HasSym g) {n : ℕ} {s : ℤ} (hs : n = comps s) (l k : ℕ) (m : MapStack) :
    env.sht.map2alm s l k (g.map n m) = g.coef n (env.sht.map2alm s l k m) := by
  subst hs
  unfold Sht.map2alm
  rw [h.pad]
  exact jacobi_turn (fun v => h.anal s l v) (fun w => h.synth s l w) (g.padMap_sub _) (g.coef_sub _) _ _

theorem synthesis_move (h : env.HasSym g) {n : ℕ} {s : ℤ} (hs : n = comps s) (l : ℕ) (a : Alms) :
    env.sht.alm2map s l (g.coef n a) = g.map n (env.sht.alm2map s l a) := by
  subst hs
  unfold Sht.alm2map
  rw [h.synth, h.unpad]

theorem single_move (m : ℕ → ℝ) : single (fun p => m (g.perm p)) = g.map 1 (single m) := by
  funext c p
  simp only [single, GridSym.map, g.sg_one, one_mul]

theorem maskAlms_move (h : env.HasSym g) (lm k : ℕ) (w : ℕ → ℝ) :
    maskAlms env.sht lm k (fun p => w (g.perm p)) = g.coefOne (maskAlms env.sht lm k w) := by
  unfold maskAlms
  rw [single_move, transform_move h (n := 1) (s := 0) rfl]
  simp only [GridSym.coef, g.sg_one, one_smul]

theorem dot_move (h : env.HasSym g) (n : ℕ) (a b : MapStack) : env.pix.dot n (g.map n a) (g.map n b) = env.pix.dot n a b := by
  unfold Pix.dot
  refine sum_congr rfl fun c _ => ?_
  refine Finset.sum_equiv g.perm (fun p => ?_) fun p _ => ?_
  · rw [mem_range, mem_range, h.pixels]
  · simp only [GridSym.map]
    rw [h.weights]
    linear_combination (a c (g.perm p) * b c (g.perm p) * env.pix.w p) * g.sg_sq n c

theorem mask_move (n : ℕ) (m : MapStack) (w : ℕ → ℝ) : (fun c p => g.map n m c p * w (g.perm p) : MapStack) = g.map n fun c p => m c p * w p := by
  funext c p
  simp only [GridSym.map]
  ring

theorem unmask_move (n : ℕ) (m : MapStack) (w : ℕ → ℝ) : unmask (fun p => w (g.perm p)) (g.map n m) = g.map n (unmask w m) := by
  funext c p
  by_cases h : 0 < w (g.perm p)
  · simp only [unmask, GridSym.map, if_pos h]; ring
  · simp only [unmask, GridSym.map, if_neg h]

theorem tab2_move (h : env.HasSym g) (k n : ℕ) (v : MapStack) : tab2 k env.pix.npix (g.map n v) = g.map n (tab2 k env.pix.npix v) := by
  funext c p
  by_cases hk : c < k <;> by_cases hp : p < env.pix.npix
  · simp [tab2, GridSym.map, hk, hp, h.pixels]
  · simp [tab2, GridSym.map, hp, h.pixels]
  · simp [tab2, GridSym.map, hk]
  · simp [tab2, GridSym.map, hk]

theorem clean_move (n : ℕ) (m : MapStack) (k : ℕ) (x : ℕ → ℝ) (T : ℕ → MapStack) :
    (fun c p => g.map n m c p - ∑ i ∈ range k, x i * g.map n (T i) c p : MapStack) = g.map n fun c p => m c p - ∑ i ∈ range k, x i * T i c p := by
  funext c p
  simp only [GridSym.map, mul_sub, mul_sum]
  congr 1
  exact sum_congr rfl fun i _ => by ring

/-- The deprojected maps moved. -/
noncomputable def Deproj.move (g : GridSym) (n : ℕ) (d : Deproj) : Deproj := ⟨d.maps.map (g.map n), d.mapsU.map (g.map n), d.iM, d.alphas⟩

theorem deproject_move (h : env.HasSym g) (nm nt : ℕ) (tol : ℝ) (T : ℕ → MapStack) (m : MapStack) (TU : ℕ → MapStack) (mU : MapStack) :
    deproject env nm nt tol (fun i => g.map nm (T i)) (g.map nm m) (fun i => g.map nm (TU i)) (g.map nm mU) =
      (deproject env nm nt tol T m TU mU).bind fun d => .ok (d.move g nm) := by
  unfold deproject
  simp only [dot_move h]
  cases pinvh env.eig env.inv nt (tab2 nt nt fun i j => env.pix.dot nm (T j) (T i)) tol with
  | raises e => rfl
  | crash => rfl
  | ok iM =>
    cases iM with
    | none => rfl
    | some P =>
      simp only [Outcome.bind, Deproj.move, Option.map_some]
      rw [clean_move, clean_move]

/-- The templates moved. -/
noncomputable def TemplArg.move (g : GridSym) (n : ℕ) (T : TemplArg) : TemplArg := { T with val := fun i => g.map n (T.val i) }

theorem spinProduct_move (w m : MapStack) : spinProduct (g.map 2 w) (g.map 2 m) = g.map 2 (spinProduct w m) := by
  funext c p
  have h := g.sg_sq 2 1
  by_cases h0 : c = 0
  · subst h0
    simp only [spinProduct, GridSym.map, if_true, g.sg_zero, one_mul]
    linear_combination (w 1 (g.perm p) * m 1 (g.perm p)) * h
  by_cases h1 : c = 1
  · subst h1
    simp only [spinProduct, GridSym.map, one_ne_zero, if_false, if_true, g.sg_zero, one_mul]
    ring
  · simp only [spinProduct, GridSym.map, h0, h1, if_false, mul_zero]

theorem scalar_move (h : env.HasSym g) (l k : ℕ) (m : MapStack) (c : ℕ) :
    env.sht.map2alm 0 l k (single (g.map 2 m c)) 0 = g.coef 2 (fun c => env.sht.map2alm 0 l k (single (m c)) 0) c := by
  obtain ⟨A, B, Z, hL⟩ := h.scalar l
  have e : single (g.map 2 m c) = g.sg 2 c • g.map 1 (single (m c)) + (0 : ℝ) • g.map 1 (single (m c)) := by
    funext d p
    simp only [single, GridSym.map, g.sg_one, Pi.add_apply, Pi.smul_apply, smul_eq_mul]
    split_ifs <;> ring
  rw [e, C38_linear env.sht 0 l A B Z hL k _ _, zero_smul, add_zero, transform_move h (n := 1) (s := 0) rfl]
  simp only [GridSym.coef, Pi.smul_apply, g.sg_one, one_smul]

theorem gradient_move (f : ℕ → ℝ) (am : ℕ → ℕ → ℂ) : (fun c => if c = 0 then almxfl (g.coefOne am) f else fun _ _ => 0 : Alms) =
    g.coef 2 fun c => if c = 0 then almxfl am f else fun _ _ => 0 := by
  funext c
  by_cases h0 : c = 0
  · subst h0
    simp only [GridSym.coef, if_true, g.sg_zero, one_smul, g.scale]
  · have : g.coefOne (fun _ _ => 0) = 0 := g.coefOne_zero
    simp only [GridSym.coef, if_neg h0, this, smul_zero]
    rfl

theorem purify_move (h : env.HasSym g) (lmax lmaxMask nIter : ℕ) (mask : ℕ → ℝ) (am : ℕ → ℕ → ℂ) (pe pb : Bool)
    (m : MapStack) : purify env.sht lmax lmaxMask nIter (fun p => mask (g.perm p)) (g.coefOne am) pe pb (g.map 2 m) =
      (purify env.sht lmax lmaxMask nIter mask am pe pb m).bind fun r => .ok (g.coef 2 r.1, g.map 2 r.2) := by
  unfold purify
  dsimp only
  by_cases hl : (pe || pb) = true ∧ lmax ≠ lmaxMask
  · rw [if_pos hl, if_pos hl]; rfl
  rw [if_neg hl, if_neg hl]
  simp only [Outcome.bind]
  have s1 : (2 : ℕ) = comps 1 := rfl
  have s2 : (2 : ℕ) = comps 2 := rfl
  have g2 := gradient_move (g := g) flMask2 (almxfl am flMask1)
  rw [g.scale] at g2
  rw [mask_move, transform_move h s2, gradient_move, synthesis_move h s1, spinProduct_move, transform_move h s1, g2, synthesis_move h s2, spinProduct_move]
  simp only [scalar_move h]
  set A := env.sht.map2alm 2 lmaxMask nIter fun c p => m c p * mask p
  set Q1 := env.sht.map2alm 1 lmax nIter (spinProduct (env.sht.alm2map 1 lmaxMask fun c => if c = 0 then almxfl am flMask1 else fun _ _ => 0) m)
  set Q2 : Alms := fun c => env.sht.map2alm 0 lmax nIter
    (single (spinProduct (env.sht.alm2map 2 lmaxMask fun c => if c = 0 then almxfl (almxfl am flMask1) flMask2 else fun _ _ => 0) m c)) 0
  have key : (fun c l k => g.coef 2 A c l k + if (c = 0 ∧ pe = true) ∨ (c = 1 ∧ pb = true) then almxfl (g.coef 2 Q1 c) flPure1 l k +
      almxfl (g.coef 2 Q2 c) flPure2 l k else 0 : Alms) = g.coef 2 fun c l k => A c l k + if (c = 0 ∧ pe = true) ∨ (c = 1 ∧ pb = true) then
        almxfl (Q1 c) flPure1 l k + almxfl (Q2 c) flPure2 l k else 0 := by
    funext c
    change _ = g.sg 2 c • g.coefOne (fun l k => A c l k + if (c = 0 ∧ pe = true) ∨ (c = 1 ∧ pb = true) then
      almxfl (Q1 c) flPure1 l k + almxfl (Q2 c) flPure2 l k else 0)
    by_cases hc : (c = 0 ∧ pe = true) ∨ (c = 1 ∧ pb = true)
    · simp only [if_pos hc]
      have e : g.coefOne (fun l k => A c l k + (almxfl (Q1 c) flPure1 l k + almxfl (Q2 c) flPure2 l k)) =
          g.coefOne (A c) + (almxfl (g.coefOne (Q1 c)) flPure1 + almxfl (g.coefOne (Q2 c)) flPure2) := by
        rw [← g.scale, ← g.scale, ← g.add, ← g.add]
        rfl
      rw [e]
      funext l k
      simp only [GridSym.coef, almxfl, Pi.add_apply, Pi.smul_apply, Complex.real_smul]
      ring
    · simp only [if_neg hc, add_zero]
      rfl
  rw [key, synthesis_move h s2]

theorem purifyO_move (h : env.HasSym g) (lmax lmaxMask nIter : ℕ) (mask : ℕ → ℝ) (am : ℕ → ℕ → ℂ) (pe pb : Bool)
    (m : Option MapStack) : purifyO env.sht lmax lmaxMask nIter (fun p => mask (g.perm p)) (g.coefOne am) pe pb (m.map (g.map 2)) =
      (purifyO env.sht lmax lmaxMask nIter mask am pe pb m).bind fun r => .ok (r.1.map (g.coef 2), r.2.map (g.map 2)) := by
  unfold purifyO
  have e : (m.map (g.map 2)).getD (fun _ _ => 0) = g.map 2 (m.getD fun _ _ => 0) := by
    cases m with
    | none => exact (g.map_zero 2).symm
    | some m => rfl
  rw [e, purify_move h]
  cases purify env.sht lmax lmaxMask nIter mask am pe pb (m.getD fun _ _ => 0) with
  | raises e => rfl
  | crash => rfl
  | ok r => cases m <;> rfl

theorem purifyAll_move (h : env.HasSym g) (lmax lmaxMask nIter : ℕ) (mask : ℕ → ℝ) (am : ℕ → ℕ → ℂ) (pe pb : Bool)
    (T : ℕ → MapStack) (k : ℕ) : purifyAll env.sht lmax lmaxMask nIter (fun p => mask (g.perm p)) (g.coefOne am) pe pb (fun i => g.map 2 (T i)) k =
      (purifyAll env.sht lmax lmaxMask nIter mask am pe pb T k).bind fun r => .ok fun i => g.coef 2 (r i) := by
  induction k with
  | zero =>
    simp only [purifyAll, Outcome.bind]
    congr 1
    funext i
    exact (g.coef_zero 2).symm
  | succ k ih =>
    unfold purifyAll
    rw [ih, purify_move h]
    cases purifyAll env.sht lmax lmaxMask nIter mask am pe pb T k with
    | raises e => rfl
    | crash => rfl
    | ok f =>
      cases purify env.sht lmax lmaxMask nIter mask am pe pb (T k) with
      | raises e => rfl
      | crash => rfl
      | ok r =>
        simp only [Outcome.bind]
        congr 1
        funext i
        by_cases hi : i = k
        · subst hi; simp
        · simp [Function.update_of_ne hi]

theorem finish_move (h : env.HasSym g) (a : FieldArgs) (o : FieldObj) (ho : o.maskA = none)
    (hs : o.nmaps = comps o.spin) (hp2 : (a.purifyE || a.purifyB) = true → o.nmaps = 2)
    (maps : MapStack) (templ : Option TemplArg) :
    fieldFinish env (a.move g) (o.move g) (g.map o.nmaps maps) (templ.map (TemplArg.move g o.nmaps)) =
      (fieldFinish env a o maps templ).bind fun f => .ok (f.move g) := by
  unfold fieldFinish
  have e0 : (a.move g).maskedOnInput = a.maskedOnInput := rfl
  have e1 : (a.move g).purifyE = a.purifyE := rfl
  have e2 : (a.move g).purifyB = a.purifyB := rfl
  have e3 : (o.move g).mask = fun p => o.mask (g.perm p) := rfl
  have e4 : (o.move g).maskA = o.maskA := rfl
  have e5 : (o.move g).nmaps = o.nmaps := rfl
  have e6 : (o.move g).lmax = o.lmax := rfl
  have e7 : (o.move g).lmaxMask = o.lmaxMask := rfl
  have e8 : (o.move g).spin = o.spin := rfl
  have u1 : (if a.maskedOnInput = true then unmask (fun p => o.mask (g.perm p)) else id) (g.map o.nmaps maps) =
      g.map o.nmaps ((if a.maskedOnInput = true then unmask o.mask else id) maps) := by
    split_ifs
    · exact unmask_move _ _ _
    · rfl
  have u2 : (if a.maskedOnInput = true then g.map o.nmaps maps else applyMask (fun p => o.mask (g.perm p)) o.maskA (g.map o.nmaps maps)) =
      g.map o.nmaps (if a.maskedOnInput = true then maps else applyMask o.mask o.maskA maps) := by
    split_ifs
    · rfl
    · rw [ho]; exact mask_move _ _ _
  have u3 : ((templ.map (TemplArg.move g o.nmaps)).map TemplArg.val).getD (fun _ _ _ => 0) =
      fun i => g.map o.nmaps ((templ.map TemplArg.val).getD (fun _ _ _ => 0) i) := by
    cases templ with
    | some T => rfl
    | none =>
      funext i
      exact (g.map_zero _).symm
  have u4 : ((templ.map (TemplArg.move g o.nmaps)).map TemplArg.ntemp).getD 0 = (templ.map TemplArg.ntemp).getD 0 := by cases templ <;> rfl
  have u5 : (templ.map (TemplArg.move g o.nmaps)).isSome = templ.isSome := by cases templ <;> rfl
  have u6 : ∀ m : ℕ → MapStack, (fun i => (if a.maskedOnInput = true then unmask (fun p => o.mask (g.perm p)) else id) (g.map o.nmaps (m i))) =
      fun i => g.map o.nmaps ((if a.maskedOnInput = true then unmask o.mask else id) (m i)) := by
    intro m
    funext i
    split_ifs
    · exact unmask_move _ _ _
    · rfl
  have u7 : ∀ m : ℕ → MapStack, (fun i => if a.maskedOnInput = true then g.map o.nmaps (m i) else fun c p => g.map o.nmaps (m i) c p * o.mask (g.perm p)) =
      fun i => g.map o.nmaps (if a.maskedOnInput = true then m i else fun c p => m i c p * o.mask p) := by
    intro m
    funext i
    split_ifs
    · rfl
    · exact mask_move _ _ _
  dsimp only
  rw [e0, e1, e2]
  simp only [e3, e4, e5, e6, e7, e8]
  rw [u1, u2, u3, u4, u5, u6, u7]
  have el : (a.move g).lite = a.lite := rfl
  have en : (a.move g).nIter = a.nIter := rfl
  have em : (a.move g).nIterMask = a.nIterMask := rfl
  have et : (a.move g).tol = a.tol := rfl
  rw [el, en, em, et, maskAlms_move h]
  refine bind_related (Deproj.move g o.nmaps) (FieldObj.move g) ?_ fun d _ => ?_
  · cases templ with
    | none => rfl
    | some T => exact deproject_move h o.nmaps T.ntemp a.tol _ _ _ _
  refine bind_related (fun r => (r.1.map (g.coef o.nmaps), r.2.map (g.map o.nmaps))) (FieldObj.move g) ?_ fun r _ => ?_
  · by_cases hp : (a.purifyE || a.purifyB) = true
    · rw [if_pos hp, if_pos hp, hp2 hp]
      exact purifyO_move h _ _ _ _ _ _ _ _
    · rw [if_neg hp, if_neg hp]
      simp only [Outcome.bind, Deproj.move, Sht.map2almO, Option.map_map]
      congr 2
      cases d.maps with
      | none => rfl
      | some m => simp only [Option.map_some, Function.comp]; rw [transform_move h hs]
  refine bind_related (Option.map fun T i => g.coef o.nmaps (T i)) (FieldObj.move g) ?_ fun at' _ => ?_
  · by_cases hl : templ.isSome = true ∧ ¬ a.lite = true
    · rw [if_pos hl, if_pos hl]
      by_cases hp : (a.purifyE || a.purifyB) = true
      · rw [if_pos hp, if_pos hp, hp2 hp, purifyAll_move h]
        cases purifyAll env.sht o.lmax o.lmaxMask a.nIter o.mask (maskAlms env.sht o.lmaxMask a.nIterMask o.mask) a.purifyE a.purifyB
          (fun i => (if a.maskedOnInput = true then unmask o.mask else id) ((templ.map TemplArg.val).getD (fun _ _ _ => 0) i))
          ((templ.map TemplArg.ntemp).getD 0) <;> rfl
      · rw [if_neg hp, if_neg hp]
        simp only [Outcome.bind, Option.map_some]
        refine congrArg Outcome.ok (congrArg some (funext fun i => ?_))
        rw [congrFun (u7 ((templ.map TemplArg.val).getD fun _ _ _ => 0)) i, transform_move h hs]
    · rw [if_neg hl, if_neg hl]; rfl
  simp only [Outcome.bind, FieldObj.move, Deproj.move, Option.map_some]
  congr 2
  · split_ifs <;> rfl
  · split_ifs <;> rfl

/-- The plan of the constructor moved. -/
noncomputable def FieldPlan.move (g : GridSym) : FieldPlan → FieldPlan
  | .maskOnly o => .maskOnly (o.move g)
  | .withMaps o m T => .withMaps (o.move g) (g.map o.nmaps m) (T.map (TemplArg.move g o.nmaps))

theorem mapChecks_move (h : env.HasSym g) (a : FieldArgs) (o o' : ℤ → FieldObj) (ho : ∀ s, (o s).nmaps = if s = 0 then 1 else 2) (ho' : ∀ s, o' s = (o s).move g)
    (m : StackArg) : mapChecks env.pix.npix (a.move g) false o' { m with val := g.map m.ncomp m.val } =
      (mapChecks env.pix.npix a false o m).bind fun pl => .ok (pl.move g) := by
  unfold mapChecks
  change (if m.ncomp ≠ 1 ∧ m.ncomp ≠ 2 then _ else (pickSpin m.ncomp a.spin).bind _) = _
  by_cases h1 : m.ncomp ≠ 1 ∧ m.ncomp ≠ 2
  · rw [if_pos h1, if_pos h1]; rfl
  rw [if_neg h1, if_neg h1]
  cases hp : pickSpin m.ncomp a.spin with
  | raises e => rfl
  | crash => rfl
  | ok s =>
    have hn : (o s).nmaps = m.ncomp := by
      rw [ho]
      unfold pickSpin at hp
      cases hsp : a.spin with
      | none =>
        rw [hsp] at hp
        rw [← Outcome.ok.inj hp]
        by_cases h : m.ncomp = 1
        · simp [h]
        · rw [if_neg h, if_neg (by norm_num)]; omega
      | some s' =>
        rw [hsp] at hp
        dsimp only at hp
        split_ifs at hp with h
        rw [← Outcome.ok.inj hp]
        push Not at h
        by_cases h0 : s' = 0
        · rw [if_pos h0, h.2 h0]
        · rw [if_neg h0]; have := h.1 h0; omega
    simp only [Outcome.bind]
    have e1 : (a.move g).purifyE = a.purifyE := rfl
    have e2 : (a.move g).purifyB = a.purifyB := rfl
    have e3 : (a.move g).templates = a.templates.map fun T => { T with val := fun i => g.map T.ncomp (T.val i) } := rfl
    rw [e1, e2, e3]
    simp only [Bool.false_eq_true, false_and, if_false]
    by_cases k1 : m.npix ≠ env.pix.npix
    · rw [if_pos k1, if_pos k1]
    rw [if_neg k1, if_neg k1]
    push Not at k1
    by_cases k2 : (a.purifyE || a.purifyB) = true ∧ s ≠ 2
    · rw [if_pos k2, if_pos k2]
    rw [if_neg k2, if_neg k2]
    cases a.templates with
    | none =>
      simp only [Option.map_none, FieldPlan.move, hn]
      rw [k1, tab2_move h, ho']
    | some T =>
      simp only [Option.map_some]
      by_cases q1 : T.ntemp = 0
      · rw [if_pos q1, if_pos q1]
      rw [if_neg q1, if_neg q1]
      by_cases q2 : T.ncomp ≠ m.ncomp
      · rw [if_pos q2, if_pos q2]
      rw [if_neg q2, if_neg q2]
      by_cases q3 : T.npix ≠ env.pix.npix
      · rw [if_pos q3, if_pos q3]
      rw [if_neg q3, if_neg q3]
      push Not at q3
      simp only [FieldPlan.move, hn, Option.map_some, TemplArg.move]
      rw [not_not.1 q2, k1, q3, ho']
      simp only [tab2_move h]

theorem mapChecks_spin {npix : ℕ} {a : FieldArgs} {o : ℤ → FieldObj} {m : StackArg} {pl : FieldPlan} (h : mapChecks npix a false o m = .ok pl) :
    ∃ s v t, pl = .withMaps (o s) v t ∧ ((a.purifyE || a.purifyB) = true → s = 2) := by
  unfold mapChecks at h
  by_cases h1 : m.ncomp ≠ 1 ∧ m.ncomp ≠ 2
  · rw [if_pos h1] at h; cases h
  rw [if_neg h1] at h
  cases hs : pickSpin m.ncomp a.spin with
  | raises e => rw [hs] at h; cases h
  | crash => rw [hs] at h; cases h
  | ok s =>
    rw [hs] at h
    simp only [Outcome.bind] at h
    by_cases h2 : m.npix ≠ npix
    · rw [if_pos h2] at h; cases h
    rw [if_neg h2] at h
    by_cases h3 : (a.purifyE || a.purifyB) = true ∧ s ≠ 2
    · rw [if_pos h3] at h; cases h
    rw [if_neg h3] at h
    push Not at h3
    simp only [Bool.false_eq_true, false_and, if_false] at h
    cases ht : a.templates with
    | none =>
      rw [ht] at h
      exact ⟨s, _, none, (Outcome.ok.inj h).symm, h3⟩
    | some t =>
      rw [ht] at h
      dsimp only at h
      split_ifs at h
      exact ⟨s, _, _, (Outcome.ok.inj h).symm, h3⟩

theorem nmtField_move (h : env.HasSym g) (a : FieldArgs) (ha : IsoMask a) :
    nmtField env (a.move g) = (nmtField env a).bind fun f => .ok (f.move g) := by
  have hm : fieldMasks env.pix a = .ok (a.mask, none) := by
    unfold fieldMasks
    rw [ha.iso22, ha.iso12]
  have hm' : fieldMasks env.pix (a.move g) = .ok (fun p => a.mask (g.perm p), none) := by
    unfold fieldMasks
    have e1 : (a.move g).mask22 = none := ha.iso22
    have e2 : (a.move g).mask12 = none := ha.iso12
    rw [e1, e2]
    rfl
  have hb : ∀ l lm s, baseObj (a.move g) (fun p => a.mask (g.perm p), none) l lm s = (baseObj a (a.mask, none) l lm s).move g := fun _ _ _ => rfl
  have hck : fieldChecks env (a.move g) = (fieldChecks env a).bind fun pl => .ok (pl.move g) := by
    unfold fieldChecks
    rw [hm, hm']
    simp only [Outcome.bind]
    change (if a.lmax.getD env.lmaxDefault ≤ 0 ∨ a.lmaxMask.getD env.lmaxDefault ≤ 0 then _ else if (a.beam.map fun b => (b.1 : ℤ)).any
      (fun n => n ≤ a.lmax.getD env.lmaxDefault) = true then _ else _) = _
    by_cases h1 : a.lmax.getD env.lmaxDefault ≤ 0 ∨ a.lmaxMask.getD env.lmaxDefault ≤ 0
    · rw [if_pos h1, if_pos h1]
    rw [if_neg h1, if_neg h1]
    by_cases h2 : (a.beam.map fun b => (b.1 : ℤ)).any (fun n => n ≤ a.lmax.getD env.lmaxDefault) = true
    · rw [if_pos h2, if_pos h2]
    rw [if_neg h2, if_neg h2]
    have e1 : (a.move g).maps = a.maps.map fun m => { m with val := g.map m.ncomp m.val } := rfl
    have e2 : (a.move g).spin = a.spin := rfl
    rw [e1, e2]
    cases a.maps with
    | none =>
      cases a.spin with
      | none => rfl
      | some s =>
        simp only [Option.map_none]
        rw [if_neg (by simp), if_neg (by simp)]
        rfl
    | some m => exact mapChecks_move h a (fun s => baseObj a (a.mask, none) _ _ s) _ (fun _ => rfl) (fun s => hb _ _ s) m
  unfold nmtField
  have key : ∀ pl, fieldChecks env a = .ok pl → match pl with
      | .maskOnly o => True
      | .withMaps o m T => o.maskA = none ∧ o.nmaps = comps o.spin ∧ ((a.purifyE || a.purifyB) = true → o.nmaps = 2) := by
    intro pl hpl
    unfold fieldChecks at hpl
    rw [hm] at hpl
    simp only [Outcome.bind] at hpl
    split_ifs at hpl
    cases hmaps : a.maps with
    | none =>
      rw [hmaps] at hpl
      cases hsp : a.spin with
      | none => rw [hsp] at hpl; cases hpl
      | some s =>
        rw [hsp] at hpl
        dsimp only at hpl
        rw [if_neg (by simp)] at hpl
        rw [← Outcome.ok.inj hpl]
        trivial
    | some mm =>
      rw [hmaps] at hpl
      obtain ⟨s, v, t', e, hs⟩ := mapChecks_spin hpl
      rw [e]
      refine ⟨rfl, rfl, fun hp => ?_⟩
      simp only [baseObj, hs hp]
      norm_num
  refine bind_related (FieldPlan.move g) (FieldObj.move g) hck fun pl hpl => ?_
  have key := key pl hpl
  cases pl with
  | maskOnly o => rfl
  | withMaps o m T => exact finish_move h a o key.1 key.2.1 key.2.2 m T

end NaMaster
