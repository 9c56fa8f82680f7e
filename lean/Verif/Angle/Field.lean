import Verif.Field.Props
import Verif.Units.Lemmas
import Mathlib.Analysis.SpecialFunctions.Trigonometric.Basic

/-!
# Fields whose polarisation angle has been turned
-/

namespace NaMaster

open Finset

/-! ## Specification -/

/-- A quantity with `n` components turned by the angle `t`. For two components `(x, y)` this is the rotation `x + i y ↦ exp(i t) (x + i y)`;
a quantity with one component stays as it is. -/
noncomputable def turnBy {V : Type*} [AddCommGroup V] [Module ℝ V] (n : ℕ) (t : ℝ) (v : ℕ → V) : ℕ → V := fun c =>
  if n = 2 ∧ c = 0 then Real.cos t • v 0 - Real.sin t • v 1
  else if n = 2 ∧ c = 1 then Real.sin t • v 0 + Real.cos t • v 1 else v c

/-- The transforms of fields with a spin and the padding of maps commute with rotations of the two components, and the transforms of scalars are
linear. -/
structure Sht.Turns (S : Sht) : Prop where
  anal : ∀ s l (t : ℝ) m, s ≠ 0 → S.m2a s l (turnBy 2 t m) = turnBy 2 t (S.m2a s l m)
  synth : ∀ s l (t : ℝ) a, s ≠ 0 → S.a2m s l (turnBy 2 t a) = turnBy 2 t (S.a2m s l a)
  pad : ∀ (t : ℝ) m, S.pad (turnBy 2 t m) = turnBy 2 t (S.pad m)
  unpad : ∀ (t : ℝ) m, S.unpad (turnBy 2 t m) = turnBy 2 t (S.unpad m)
  scalar : ∀ l, ∃ A B Z, LinearSht S 0 l A B Z

/-- The same call of the constructor with maps and templates turned by the angle `t`. -/
noncomputable def FieldArgs.turn (t : ℝ) (a : FieldArgs) : FieldArgs :=
  { a with
    maps := a.maps.map fun m => { m with val := NaMaster.turnBy m.ncomp t m.val }
    templates := a.templates.map fun T => { T with val := fun i => NaMaster.turnBy T.ncomp t (T.val i) } }

/-- Calls with an isotropic mask, where either both or none of E and B modes are purified. -/
structure EvenCall (a : FieldArgs) : Prop where
  iso22 : a.mask22 = none
  iso12 : a.mask12 = none
  pure : a.purifyE = a.purifyB

/-- The attributes of a field whose maps and templates have been turned. -/
noncomputable def FieldObj.turn (t : ℝ) (f : FieldObj) : FieldObj :=
  { f with
    alm := f.alm.map (Option.map (NaMaster.turnBy f.nmaps t))
    maps := f.maps.map (Option.map (NaMaster.turnBy f.nmaps t))
    temp := f.temp.map fun T i => NaMaster.turnBy f.nmaps t (T i)
    almTemp := f.almTemp.map fun T i => NaMaster.turnBy f.nmaps t (T i) }

/-! ## Lemmas -/

section
variable {V : Type*} [AddCommGroup V] [Module ℝ V]

theorem turn_of_ne {n : ℕ} (h : n ≠ 2) (t : ℝ) (v : ℕ → V) : turnBy n t v = v := by
  funext c
  simp [turnBy, h]

theorem turn_sub (n : ℕ) (t : ℝ) (v w : ℕ → V) : turnBy n t (v - w) = turnBy n t v - turnBy n t w := by
  funext c
  simp only [turnBy, Pi.sub_apply]
  split_ifs
  · module
  · module
  · rfl

theorem jacobi_turn {V W : Type*} [AddCommGroup V] [AddCommGroup W] {A : V → W} {B : W → V} {T : V → V} {T' : W → W} (hA : ∀ v, A (T v) = T' (A v))
    (hB : ∀ w, B (T' w) = T (B w)) (hT : ∀ a b, T (a - b) = T a - T b) (hT' : ∀ a b, T' (a - b) = T' a - T' b) (m : V) (n : ℕ) :
    jacobi A B (T m) n = T' (jacobi A B m n) := by
  induction n with
  | zero => exact hA m
  | succ n ih => rw [jacobi, ih, hB, ← hT, hA, ← hT', jacobi]

end

theorem transform_turn {S : Sht} (h : S.Turns) {n : ℕ} {s : ℤ} (hs : n = 2 → s ≠ 0) (l k : ℕ) (t : ℝ) (m : MapStack) :
    S.map2alm s l k (turnBy n t m) = turnBy n t (S.map2alm s l k m) := by
  by_cases h2 : n = 2
  · subst h2
    unfold Sht.map2alm
    rw [h.pad]
    exact jacobi_turn (fun v => h.anal s l t v (hs rfl)) (fun w => h.synth s l t w (hs rfl)) (turn_sub 2 t) (turn_sub 2 t) _ _
  · rw [turn_of_ne h2, turn_of_ne h2]

theorem synthesis_turn {S : Sht} (h : S.Turns) {n : ℕ} {s : ℤ} (hs : n = 2 → s ≠ 0) (l : ℕ) (t : ℝ) (a : Alms) :
    S.alm2map s l (turnBy n t a) = turnBy n t (S.alm2map s l a) := by
  by_cases h2 : n = 2
  · subst h2
    unfold Sht.alm2map
    rw [h.synth s l t a (hs rfl), h.unpad]
  · rw [turn_of_ne h2, turn_of_ne h2]

theorem dot_turn (P : Pix) (n : ℕ) (t : ℝ) (a b : MapStack) : P.dot n (turnBy n t a) (turnBy n t b) = P.dot n a b := by
  by_cases h2 : n = 2
  · subst h2
    unfold Pix.dot
    simp only [sum_range_succ, sum_range_zero, zero_add]
    rw [← sum_add_distrib, ← sum_add_distrib]
    refine sum_congr rfl fun p _ => ?_
    simp only [turnBy, Pi.sub_apply, Pi.add_apply, Pi.smul_apply, smul_eq_mul, true_and, if_true, one_ne_zero, if_false]
    linear_combination (a 0 p * b 0 p * P.w p + a 1 p * b 1 p * P.w p) * Real.sin_sq_add_cos_sq t
  · rw [turn_of_ne h2, turn_of_ne h2]

theorem mask_turn (n : ℕ) (t : ℝ) (m : MapStack) (w : ℕ → ℝ) : (fun c p => turnBy n t m c p * w p : MapStack) = turnBy n t fun c p => m c p * w p := by
  funext c p
  simp only [turnBy]
  split_ifs
  · simp only [Pi.sub_apply, Pi.smul_apply, smul_eq_mul]; ring
  · simp only [Pi.add_apply, Pi.smul_apply, smul_eq_mul]; ring
  · rfl

theorem unmask_turn (n : ℕ) (t : ℝ) (m : MapStack) (w : ℕ → ℝ) : unmask w (turnBy n t m) = turnBy n t (unmask w m) := by
  funext c p
  by_cases h : 0 < w p
  · simp only [unmask, if_pos h]
    simp only [turnBy]
    split_ifs
    · simp only [Pi.sub_apply, Pi.smul_apply, smul_eq_mul, unmask, if_pos h]; ring
    · simp only [Pi.add_apply, Pi.smul_apply, smul_eq_mul, unmask, if_pos h]; ring
    · simp only [unmask, if_pos h]
  · simp only [unmask, if_neg h]
    simp only [turnBy]
    split_ifs
    · simp only [Pi.sub_apply, Pi.smul_apply, smul_eq_mul, unmask, if_neg h]
    · simp only [Pi.add_apply, Pi.smul_apply, smul_eq_mul, unmask, if_neg h]
    · simp only [unmask, if_neg h]

theorem tab2_turn (n np : ℕ) (t : ℝ) (v : MapStack) : tab2 n np (turnBy n t v) = turnBy n t (tab2 n np v) := by
  by_cases h2 : n = 2
  · subst h2
    funext c p
    by_cases h0 : c = 0
    · subst h0
      by_cases hp : p < np <;> simp [turnBy, tab2, hp]
    by_cases h1 : c = 1
    · subst h1
      by_cases hp : p < np <;> simp [turnBy, tab2, hp]
    · simp [turnBy, tab2, h0, h1]
  · rw [turn_of_ne h2, turn_of_ne h2]

theorem clean_turn (n : ℕ) (t : ℝ) (m : MapStack) (k : ℕ) (x : ℕ → ℝ) (T : ℕ → MapStack) :
    (fun c p => turnBy n t m c p - ∑ i ∈ range k, x i * turnBy n t (T i) c p : MapStack) = turnBy n t fun c p => m c p - ∑ i ∈ range k, x i * T i c p := by
  funext c p
  simp only [turnBy]
  split_ifs
  · simp only [Pi.sub_apply, Pi.smul_apply, smul_eq_mul, mul_sub, sum_sub_distrib, mul_sum]
    simp only [mul_left_comm (x _)]
    ring
  · simp only [Pi.add_apply, Pi.smul_apply, smul_eq_mul, mul_sub, mul_add, sum_add_distrib, mul_sum]
    simp only [mul_left_comm (x _)]
    ring
  · rfl

/-- The deprojected maps turned. -/
noncomputable def Deproj.turn (n : ℕ) (t : ℝ) (d : Deproj) : Deproj :=
  ⟨d.maps.map (NaMaster.turnBy n t), d.mapsU.map (NaMaster.turnBy n t), d.iM, d.alphas⟩

theorem deproject_turn (env : FieldEnv) (nm nt : ℕ) (tol t : ℝ) (T : ℕ → MapStack) (m : MapStack) (TU : ℕ → MapStack) (mU : MapStack) :
    deproject env nm nt tol (fun i => turnBy nm t (T i)) (turnBy nm t m) (fun i => turnBy nm t (TU i)) (turnBy nm t mU) =
      (deproject env nm nt tol T m TU mU).bind fun d => .ok (d.turn nm t) := by
  unfold deproject
  simp only [dot_turn]
  cases pinvh env.eig env.inv nt (tab2 nt nt fun i j => env.pix.dot nm (T j) (T i)) tol with
  | raises e => rfl
  | crash => rfl
  | ok iM =>
    cases iM with
    | none => rfl
    | some P =>
      simp only [Outcome.bind, Deproj.turn, Option.map_some]
      rw [clean_turn, clean_turn]

/-- The templates turned. -/
noncomputable def TemplArg.turn (n : ℕ) (t : ℝ) (T : TemplArg) : TemplArg := { T with val := fun i => NaMaster.turnBy n t (T.val i) }

theorem spinProduct_turn (w m : MapStack) (t : ℝ) : spinProduct w (turnBy 2 t m) = turnBy 2 t (spinProduct w m) := by
  funext c p
  by_cases h0 : c = 0
  · subst h0
    simp only [spinProduct, turnBy, true_and, if_true, one_ne_zero, if_false, Pi.sub_apply, Pi.add_apply, Pi.smul_apply, smul_eq_mul]
    ring
  by_cases h1 : c = 1
  · subst h1
    simp only [spinProduct, turnBy, true_and, if_true, one_ne_zero, if_false, Pi.sub_apply, Pi.add_apply, Pi.smul_apply, smul_eq_mul]
    ring
  · simp only [spinProduct, turnBy, h0, h1, and_false, if_false]

theorem scalar_turn {S : Sht} (h : S.Turns) (l k : ℕ) (t : ℝ) (m : MapStack) :
    (fun c => S.map2alm 0 l k (single (turnBy 2 t m c)) 0 : Alms) = turnBy 2 t fun c => S.map2alm 0 l k (single (m c)) 0 := by
  obtain ⟨A, B, Z, hL⟩ := h.scalar l
  have hlin : ∀ x y : ℝ, ∀ a b : ℕ → ℝ, S.map2alm 0 l k (single (x • a + y • b)) 0 = x • S.map2alm 0 l k (single a) 0 + y • S.map2alm 0 l k (single b) 0 := by
    intro x y a b
    have e : single (x • a + y • b) = x • single a + y • single b := by
      funext c p
      simp only [single, Pi.add_apply, Pi.smul_apply, smul_eq_mul]
      split_ifs <;> ring
    rw [e, C38_linear S 0 l A B Z hL k x y]
    rfl
  funext c
  by_cases h0 : c = 0
  · subst h0
    simp only [turnBy, true_and, if_true]
    rw [sub_eq_add_neg, ← neg_smul, hlin, neg_smul, ← sub_eq_add_neg]
  by_cases h1 : c = 1
  · subst h1
    simp only [turnBy, true_and, if_true, one_ne_zero, if_false]
    rw [hlin]
  · simp only [turnBy, h0, h1, and_false, if_false]

theorem purify_turn {S : Sht} (h : S.Turns) (n : ℕ) (t : ℝ) (lmax lmaxMask nIter : ℕ) (mask : ℕ → ℝ) (am : ℕ → ℕ → ℂ) {pe pb : Bool} (hp : pe = pb)
    (m : MapStack) : purify S lmax lmaxMask nIter mask am pe pb (turnBy n t m) =
      (purify S lmax lmaxMask nIter mask am pe pb m).bind fun r => .ok (turnBy n t r.1, turnBy n t r.2) := by
  by_cases hn : n = 2
  swap
  · simp only [turn_of_ne hn]
    cases purify S lmax lmaxMask nIter mask am pe pb m <;> rfl
  subst hn hp
  unfold purify
  dsimp only
  by_cases hl : (pe || pe) = true ∧ lmax ≠ lmaxMask
  · rw [if_pos hl, if_pos hl]; rfl
  rw [if_neg hl, if_neg hl]
  simp only [Outcome.bind]
  rw [mask_turn, transform_turn h (n := 2) (s := 2) (by norm_num), spinProduct_turn, spinProduct_turn, transform_turn h (n := 2) (s := 1) (by norm_num)]
  have e2 := scalar_turn h lmax nIter t (spinProduct (S.alm2map 2 lmaxMask fun c => if c = 0 then almxfl (almxfl am flMask1) flMask2 else fun _ _ => 0) m)
  set A := S.map2alm 2 lmaxMask nIter fun c p => m c p * mask p
  set Q1 := S.map2alm 1 lmax nIter (spinProduct (S.alm2map 1 lmaxMask fun c => if c = 0 then almxfl am flMask1 else fun _ _ => 0) m)
  set Q2 : Alms := fun c => S.map2alm 0 lmax nIter
    (single (spinProduct (S.alm2map 2 lmaxMask fun c => if c = 0 then almxfl (almxfl am flMask1) flMask2 else fun _ _ => 0) m c)) 0
  have e3 : ∀ c, S.map2alm 0 lmax nIter (single (turnBy 2 t (spinProduct (S.alm2map 2 lmaxMask fun c => if c = 0 then almxfl (almxfl am flMask1) flMask2
      else fun _ _ => 0) m) c)) 0 = turnBy 2 t Q2 c := fun c => congrFun e2 c
  have key : (fun c l k => turnBy 2 t A c l k + if (c = 0 ∧ pe = true) ∨ (c = 1 ∧ pe = true) then almxfl (turnBy 2 t Q1 c) flPure1 l k +
      almxfl (turnBy 2 t Q2 c) flPure2 l k else 0 : Alms) = turnBy 2 t fun c l k => A c l k + if (c = 0 ∧ pe = true) ∨ (c = 1 ∧ pe = true) then
        almxfl (Q1 c) flPure1 l k + almxfl (Q2 c) flPure2 l k else 0 := by
    funext c l k
    cases pe with
    | false => simp
    | true =>
      by_cases h0 : c = 0
      · subst h0
        simp only [turnBy, almxfl, true_and, and_true, true_or, or_true, if_true, Pi.sub_apply, Pi.smul_apply, Complex.real_smul]
        ring
      by_cases h1 : c = 1
      · subst h1
        simp only [turnBy, almxfl, true_and, and_true, or_true, true_or, if_true, one_ne_zero, if_false, Pi.add_apply, Pi.smul_apply, Complex.real_smul]
        ring
      · simp only [turnBy, h0, h1, and_false, false_and, or_self, if_false]
  simp only [e3]
  rw [key, synthesis_turn h (n := 2) (s := 2) (by norm_num)]

theorem purifyO_turn {S : Sht} (h : S.Turns) (n : ℕ) (t : ℝ) (lmax lmaxMask nIter : ℕ) (mask : ℕ → ℝ) (am : ℕ → ℕ → ℂ) {pe pb : Bool} (hp : pe = pb)
    (m : Option MapStack) : purifyO S lmax lmaxMask nIter mask am pe pb (m.map (turnBy n t)) =
      (purifyO S lmax lmaxMask nIter mask am pe pb m).bind fun r => .ok (r.1.map (turnBy n t), r.2.map (turnBy n t)) := by
  unfold purifyO
  cases m with
  | none =>
    simp only [Option.map_none]
    cases purify S lmax lmaxMask nIter mask am pe pb ((none : Option MapStack).getD fun _ _ => 0) <;> rfl
  | some m =>
    simp only [Option.map_some, Option.getD_some]
    rw [purify_turn h n t _ _ _ _ _ hp]
    cases purify S lmax lmaxMask nIter mask am pe pb m <;> rfl

theorem purifyAll_turn {S : Sht} (h : S.Turns) (n : ℕ) (t : ℝ) (lmax lmaxMask nIter : ℕ) (mask : ℕ → ℝ) (am : ℕ → ℕ → ℂ) {pe pb : Bool} (hp : pe = pb)
    (T : ℕ → MapStack) (k : ℕ) : purifyAll S lmax lmaxMask nIter mask am pe pb (fun i => turnBy n t (T i)) k =
      (purifyAll S lmax lmaxMask nIter mask am pe pb T k).bind fun r => .ok fun i => turnBy n t (r i) := by
  induction k with
  | zero =>
    simp only [purifyAll, Outcome.bind]
    congr 1
    funext i c l k
    simp only [turnBy]
    split_ifs <;> simp
  | succ k ih =>
    unfold purifyAll
    rw [ih, purify_turn h n t _ _ _ _ _ hp]
    cases purifyAll S lmax lmaxMask nIter mask am pe pb T k with
    | raises e => rfl
    | crash => rfl
    | ok g =>
      cases purify S lmax lmaxMask nIter mask am pe pb (T k) with
      | raises e => rfl
      | crash => rfl
      | ok r =>
        simp only [Outcome.bind]
        congr 1
        funext i
        by_cases hi : i = k
        · subst hi; simp
        · simp [Function.update_of_ne hi]

theorem finish_turn (env : FieldEnv) (hS : env.sht.Turns) (t : ℝ) (a : FieldArgs) (ha : EvenCall a) (o : FieldObj) (ho : o.maskA = none)
    (hs : o.nmaps = 2 → o.spin ≠ 0) (maps : MapStack) (templ : Option TemplArg) :
    fieldFinish env (a.turn t) o (turnBy o.nmaps t maps) (templ.map (TemplArg.turn o.nmaps t)) =
      (fieldFinish env a o maps templ).bind fun f => .ok (f.turn t) := by
  unfold fieldFinish
  have e0 : (a.turn t).maskedOnInput = a.maskedOnInput := rfl
  have e1 : (a.turn t).purifyE = a.purifyE := rfl
  have e2 : (a.turn t).purifyB = a.purifyB := rfl
  have u1 : (if a.maskedOnInput = true then unmask o.mask else id) (turnBy o.nmaps t maps) =
      turnBy o.nmaps t ((if a.maskedOnInput = true then unmask o.mask else id) maps) := by
    split_ifs
    · exact unmask_turn _ _ _ _
    · rfl
  have u2 : (if a.maskedOnInput = true then turnBy o.nmaps t maps else applyMask o.mask o.maskA (turnBy o.nmaps t maps)) =
      turnBy o.nmaps t (if a.maskedOnInput = true then maps else applyMask o.mask o.maskA maps) := by
    split_ifs
    · rfl
    · rw [ho]; exact mask_turn _ _ _ _
  have u3 : ((templ.map (TemplArg.turn o.nmaps t)).map TemplArg.val).getD (fun _ _ _ => 0) =
      fun i => turnBy o.nmaps t ((templ.map TemplArg.val).getD (fun _ _ _ => 0) i) := by
    cases templ with
    | some T => rfl
    | none =>
      funext i c p
      simp only [Option.map_none, Option.getD_none, turnBy]
      split_ifs <;> simp
  have u4 : ((templ.map (TemplArg.turn o.nmaps t)).map TemplArg.ntemp).getD 0 = (templ.map TemplArg.ntemp).getD 0 := by cases templ <;> rfl
  have u5 : (templ.map (TemplArg.turn o.nmaps t)).isSome = templ.isSome := by cases templ <;> rfl
  have u6 : ∀ m : ℕ → MapStack, (fun i => (if a.maskedOnInput = true then unmask o.mask else id) (turnBy o.nmaps t (m i))) =
      fun i => turnBy o.nmaps t ((if a.maskedOnInput = true then unmask o.mask else id) (m i)) := by
    intro m
    funext i
    split_ifs
    · exact unmask_turn _ _ _ _
    · rfl
  have u7 : ∀ m : ℕ → MapStack, (fun i => if a.maskedOnInput = true then turnBy o.nmaps t (m i) else fun c p => turnBy o.nmaps t (m i) c p * o.mask p) =
      fun i => turnBy o.nmaps t (if a.maskedOnInput = true then m i else fun c p => m i c p * o.mask p) := by
    intro m
    funext i
    split_ifs
    · rfl
    · exact mask_turn _ _ _ _
  dsimp only
  rw [e0, e1, e2, u1, u2, u3, u4, u5, u6, u7]
  have el : (a.turn t).lite = a.lite := rfl
  have en : (a.turn t).nIter = a.nIter := rfl
  have em : (a.turn t).nIterMask = a.nIterMask := rfl
  rw [el, en, em]
  refine bind_related (Deproj.turn o.nmaps t) (FieldObj.turn t) ?_ fun d _ => ?_
  · cases templ with
    | none => rfl
    | some T => exact deproject_turn env o.nmaps T.ntemp a.tol t _ _ _ _
  refine bind_related (fun r => (r.1.map (turnBy o.nmaps t), r.2.map (turnBy o.nmaps t))) (FieldObj.turn t) ?_ fun r _ => ?_
  · by_cases hp : (a.purifyE || a.purifyB) = true
    · rw [if_pos hp, if_pos hp]
      exact purifyO_turn hS _ _ _ _ _ _ _ ha.pure _
    · rw [if_neg hp, if_neg hp]
      simp only [Outcome.bind, Deproj.turn, Sht.map2almO, Option.map_map]
      congr 2
      cases d.maps with
      | none => rfl
      | some m => simp only [Option.map_some, Function.comp]; rw [transform_turn hS hs]
  refine bind_related (Option.map fun T i => turnBy o.nmaps t (T i)) (FieldObj.turn t) ?_ fun at' _ => ?_
  · by_cases hl : templ.isSome = true ∧ ¬ a.lite = true
    · rw [if_pos hl, if_pos hl]
      by_cases hp : (a.purifyE || a.purifyB) = true
      · rw [if_pos hp, if_pos hp, purifyAll_turn hS _ _ _ _ _ _ _ ha.pure]
        cases purifyAll env.sht o.lmax o.lmaxMask a.nIter o.mask (maskAlms env.sht o.lmaxMask a.nIterMask o.mask) a.purifyE a.purifyB
          (fun i => (if a.maskedOnInput = true then unmask o.mask else id) ((templ.map TemplArg.val).getD (fun _ _ _ => 0) i))
          ((templ.map TemplArg.ntemp).getD 0) <;> rfl
      · rw [if_neg hp, if_neg hp]
        simp only [Outcome.bind, Option.map_some]
        refine congrArg Outcome.ok (congrArg some (funext fun i => ?_))
        rw [congrFun (u7 ((templ.map TemplArg.val).getD fun _ _ _ => 0)) i, transform_turn hS hs]
    · rw [if_neg hl, if_neg hl]; rfl
  simp only [Outcome.bind, FieldObj.turn, Deproj.turn, Option.map_some]
  congr 2
  · split_ifs <;> rfl
  · split_ifs <;> rfl

/-- The plan of the constructor turned. -/
noncomputable def FieldPlan.turn (t : ℝ) : FieldPlan → FieldPlan
  | .maskOnly o => .maskOnly o
  | .withMaps o m T => .withMaps o (NaMaster.turnBy o.nmaps t m) (T.map (TemplArg.turn o.nmaps t))

theorem mapChecks_turn (npix : ℕ) (t : ℝ) (a : FieldArgs) (o : ℤ → FieldObj) (ho : ∀ s, (o s).nmaps = if s = 0 then 1 else 2) (m : StackArg) :
    mapChecks npix (a.turn t) false o { m with val := turnBy m.ncomp t m.val } = (mapChecks npix a false o m).bind fun pl => .ok (pl.turn t) := by
  unfold mapChecks
  change (if m.ncomp ≠ 1 ∧ m.ncomp ≠ 2 then _ else (pickSpin m.ncomp a.spin).bind _) = _
  by_cases h1 : m.ncomp ≠ 1 ∧ m.ncomp ≠ 2
  · rw [if_pos h1, if_pos h1]; rfl
  rw [if_neg h1, if_neg h1]
  cases hp : pickSpin m.ncomp a.spin with
  | raises e => rfl
  | crash => rfl
  | ok s =>
    have hn : (o s).nmaps = m.ncomp := by
      rw [ho]
      unfold pickSpin at hp
      cases hsp : a.spin with
      | none =>
        rw [hsp] at hp
        rw [← Outcome.ok.inj hp]
        by_cases h : m.ncomp = 1
        · simp [h]
        · rw [if_neg h, if_neg (by norm_num)]; omega
      | some s' =>
        rw [hsp] at hp
        dsimp only at hp
        split_ifs at hp with h
        rw [← Outcome.ok.inj hp]
        push Not at h
        by_cases h0 : s' = 0
        · rw [if_pos h0, h.2 h0]
        · rw [if_neg h0]; have := h.1 h0; omega
    simp only [Outcome.bind]
    have e1 : (a.turn t).purifyE = a.purifyE := rfl
    have e2 : (a.turn t).purifyB = a.purifyB := rfl
    have e3 : (a.turn t).templates = a.templates.map fun T => { T with val := fun i => turnBy T.ncomp t (T.val i) } := rfl
    rw [e1, e2, e3]
    simp only [Bool.false_eq_true, false_and, if_false]
    by_cases k1 : m.npix ≠ npix
    · rw [if_pos k1, if_pos k1]
    rw [if_neg k1, if_neg k1]
    by_cases k2 : (a.purifyE || a.purifyB) = true ∧ s ≠ 2
    · rw [if_pos k2, if_pos k2]
    rw [if_neg k2, if_neg k2]
    cases a.templates with
    | none =>
      simp only [Option.map_none, FieldPlan.turn, hn]
      rw [tab2_turn]
    | some T =>
      simp only [Option.map_some]
      by_cases q1 : T.ntemp = 0
      · rw [if_pos q1, if_pos q1]
      rw [if_neg q1, if_neg q1]
      by_cases q2 : T.ncomp ≠ m.ncomp
      · rw [if_pos q2, if_pos q2]
      rw [if_neg q2, if_neg q2]
      by_cases q3 : T.npix ≠ npix
      · rw [if_pos q3, if_pos q3]
      rw [if_neg q3, if_neg q3]
      simp only [FieldPlan.turn, hn, Option.map_some, TemplArg.turn]
      rw [not_not.1 q2]
      simp only [tab2_turn]

theorem nmtField_turn (env : FieldEnv) (hS : env.sht.Turns) (t : ℝ) (a : FieldArgs) (ha : EvenCall a) :
    nmtField env (a.turn t) = (nmtField env a).bind fun f => .ok (f.turn t) := by
  have hm : fieldMasks env.pix a = .ok (a.mask, none) := by
    unfold fieldMasks
    rw [ha.iso22, ha.iso12]
  have hm' : fieldMasks env.pix (a.turn t) = .ok (a.mask, none) := by
    unfold fieldMasks
    have e1 : (a.turn t).mask22 = none := ha.iso22
    have e2 : (a.turn t).mask12 = none := ha.iso12
    rw [e1, e2]
    rfl
  have hb : ∀ l lm s, baseObj (a.turn t) (a.mask, none) l lm s = baseObj a (a.mask, none) l lm s := fun _ _ _ => rfl
  have hck : fieldChecks env (a.turn t) = (fieldChecks env a).bind fun pl => .ok (pl.turn t) := by
    unfold fieldChecks
    rw [hm, hm']
    simp only [Outcome.bind]
    change (if a.lmax.getD env.lmaxDefault ≤ 0 ∨ a.lmaxMask.getD env.lmaxDefault ≤ 0 then _ else if (a.beam.map fun b => (b.1 : ℤ)).any
      (fun n => n ≤ a.lmax.getD env.lmaxDefault) = true then _ else _) = _
    by_cases h1 : a.lmax.getD env.lmaxDefault ≤ 0 ∨ a.lmaxMask.getD env.lmaxDefault ≤ 0
    · rw [if_pos h1, if_pos h1]
    rw [if_neg h1, if_neg h1]
    by_cases h2 : (a.beam.map fun b => (b.1 : ℤ)).any (fun n => n ≤ a.lmax.getD env.lmaxDefault) = true
    · rw [if_pos h2, if_pos h2]
    rw [if_neg h2, if_neg h2]
    have e1 : (a.turn t).maps = a.maps.map fun m => { m with val := turnBy m.ncomp t m.val } := rfl
    have e2 : (a.turn t).spin = a.spin := rfl
    rw [e1, e2]
    cases a.maps with
    | none =>
      cases a.spin with
      | none => rfl
      | some s =>
        simp only [Option.map_none]
        rw [if_neg (by simp), if_neg (by simp)]
        rfl
    | some m => exact mapChecks_turn env.pix.npix t a (fun s => baseObj a (a.mask, none) _ _ s) (fun _ => rfl) m
  unfold nmtField
  have key : ∀ pl, fieldChecks env a = .ok pl → match pl with
      | .maskOnly o => o.alm = none ∧ o.maps = none ∧ o.temp = none ∧ o.almTemp = none
      | .withMaps o m T => o.maskA = none ∧ (o.nmaps = 2 → o.spin ≠ 0) := by
    intro pl hpl
    unfold fieldChecks at hpl
    rw [hm] at hpl
    simp only [Outcome.bind] at hpl
    split_ifs at hpl
    cases hmaps : a.maps with
    | none =>
      rw [hmaps] at hpl
      cases hsp : a.spin with
      | none => rw [hsp] at hpl; cases hpl
      | some s =>
        rw [hsp] at hpl
        dsimp only at hpl
        rw [if_neg (by simp)] at hpl
        rw [← Outcome.ok.inj hpl]
        exact ⟨rfl, rfl, rfl, rfl⟩
    | some mm =>
      rw [hmaps] at hpl
      obtain ⟨s, v, t', e, -⟩ := mapChecks_plan hpl
      rw [e]
      refine ⟨rfl, fun h2 h0 => ?_⟩
      simp only [baseObj] at h2 h0
      rw [if_pos h0] at h2
      cases h2
  refine bind_related (FieldPlan.turn t) (FieldObj.turn t) hck fun pl hpl => ?_
  have key := key pl hpl
  cases pl with
  | maskOnly o =>
    obtain ⟨k1, k2, k3, k4⟩ := key
    simp only [FieldPlan.turn, Outcome.bind, FieldObj.turn, k1, k2, k3, k4, Option.map_none]
    congr 1
    cases o
    simp only at k1 k2 k3 k4
    subst k1 k2 k3 k4
    rfl
  | withMaps o m T => exact finish_turn env hS t a ha o key.1 key.2 m T

end NaMaster
