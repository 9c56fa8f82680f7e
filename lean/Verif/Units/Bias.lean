import Verif.Units.Matrix

/-!
# Deprojection bias for masks that have been multiplied by numbers
-/

namespace NaMaster

open Finset

/-- An array multiplied by a number. -/
def Arr2.scale (k : ℝ) (a : Arr2 ℝ) : Arr2 ℝ := ⟨a.rows, a.cols, fun i j => k * a.val i j⟩

theorem alm2cl_smul (x y : ℝ) (a b : ℕ → ℕ → ℂ) (l : ℕ) : alm2cl (x • a) (y • b) l = x * y * alm2cl a b l := by
  unfold alm2cl
  rw [mul_div_assoc', mul_sum]
  congr 1
  refine sum_congr rfl fun m _ => ?_
  simp only [Pi.smul_apply, Complex.real_smul, map_mul, Complex.conj_ofReal]
  have : (x : ℂ) * a l m * (↑y * (starRingEnd ℂ) (b l m)) = ((x * y : ℝ) : ℂ) * (a l m * (starRingEnd ℂ) (b l m)) := by push_cast; ring
  rw [this, Complex.re_ofReal_mul]
  ring

theorem purify_maps_smul {S : Sht} (h : S.Homogeneous) (lmax lm n : ℕ) (c : ℝ) (mask : ℕ → ℝ) (am : ℕ → ℕ → ℂ) (pe pb : Bool) (maps : MapStack) :
    purify S lmax lm n mask am pe pb (c • maps) = (purify S lmax lm n mask am pe pb maps).bind fun r => .ok (scalePair c r) := by
  unfold purify
  dsimp only
  have e1 : (fun k p => (c • maps) k p * mask p : MapStack) = c • fun k p => maps k p * mask p := by
    funext k p; simp only [Pi.smul_apply, smul_eq_mul]; ring
  rw [e1, transform_smul h, spinProduct_smul', transform_smul h, spinProduct_smul']
  split_ifs
  · rfl
  · simp only [Outcome.bind, scalePair]
    have key : ∀ X Y : Alms, ∀ Z : MapStack, (fun k l m => (c • X) k l m + if (k = 0 ∧ pe = true) ∨ (k = 1 ∧ pb = true) then
        almxfl ((c • Y) k) flPure1 l m + almxfl (S.map2alm 0 lmax n (single ((c • Z) k)) 0) flPure2 l m else 0 : Alms) =
        c • fun k l m => X k l m + if (k = 0 ∧ pe = true) ∨ (k = 1 ∧ pb = true) then
        almxfl (Y k) flPure1 l m + almxfl (S.map2alm 0 lmax n (single (Z k)) 0) flPure2 l m else 0 := by
      intro X Y Z
      funext k l m
      rw [single_comp, transform_smul h]
      simp only [Pi.smul_apply, almxfl, Complex.real_smul]
      split_ifs <;> ring
    rw [key, alm2map_smul h]

theorem getMaskAlms_smul {S : Sht} (h : S.Homogeneous) (c : ℝ) (f : FieldObj) : (f.rescale c).getMaskAlms S = c • f.getMaskAlms S :=
  maskAlms_smul h _ _ _ _

theorem purifyIfNeeded_smul {S : Sht} (h : S.Homogeneous) (n : ℕ) (c x : ℝ) (f : FieldObj) (m : MapStack) :
    purifyIfNeeded S n (f.rescale c) (x • m) = (purifyIfNeeded S n f m).bind fun r => .ok ((c * x) • r) := by
  unfold purifyIfNeeded
  change (if (f.pureE || f.pureB) = true then _ else _) = _
  split_ifs
  · rw [getMaskAlms_smul h, show (f.rescale c).mask = fun p => c * f.mask p from rfl, purify_smul h, purify_maps_smul h]
    change Outcome.bind (Outcome.bind (Outcome.bind (purify S f.lmax f.lmaxMask n f.mask (f.getMaskAlms S) f.pureE f.pureB m) _) _) _ = _
    cases purify S f.lmax f.lmaxMask n f.mask (f.getMaskAlms S) f.pureE f.pureB m with
    | raises e => rfl
    | crash => rfl
    | ok r =>
      simp only [Outcome.bind, scalePair]
      rw [smul_smul]
  · simp only [Outcome.bind]
    rw [← transform_smul h]
    congr 2
    funext k p
    simp only [FieldObj.rescale, Pi.smul_apply, smul_eq_mul]
    ring

theorem purifyIfNeededAll_smul {S : Sht} (h : S.Homogeneous) (n : ℕ) (c x : ℝ) (f : FieldObj) (m : ℕ → MapStack) (k : ℕ) :
    purifyIfNeededAll S n (f.rescale c) (fun j => x • m j) k = (purifyIfNeededAll S n f m k).bind fun r => .ok fun j => (c * x) • r j := by
  induction k with
  | zero =>
    simp only [purifyIfNeededAll, Outcome.bind]
    congr 1
    funext i a l m
    simp
  | succ k ih =>
    unfold purifyIfNeededAll
    rw [ih, purifyIfNeeded_smul h]
    cases purifyIfNeededAll S n f m k with
    | raises e => rfl
    | crash => rfl
    | ok g =>
      cases purifyIfNeeded S n f (m k) with
      | raises e => rfl
      | crash => rfl
      | ok r =>
        simp only [Outcome.bind]
        congr 1
        funext i
        by_cases hi : i = k
        · subst hi; simp
        · simp [Function.update_of_ne hi]

theorem biasMap_smul {S : Sht} (h : S.Homogeneous) (n : ℕ) (c d : ℝ) (f g : FieldObj) (cl : ℕ → ℕ → ℕ → ℝ) (t : MapStack) :
    biasMap S n (f.rescale c) (g.rescale d) cl (c • t) = c ^ 2 • biasMap S n f g cl t := by
  unfold biasMap
  have e1 : (fun k p => (c • t) k p * (f.rescale c).mask p : MapStack) = c ^ 2 • fun k p => t k p * f.mask p := by
    funext k p
    simp only [FieldObj.rescale, Pi.smul_apply, smul_eq_mul]
    ring
  rw [e1, transform_smul h]
  change S.alm2map g.spin g.lmax (mixCl f.nmaps g.nmaps cl (c ^ 2 • S.map2alm f.spin f.lmax n fun k p => t k p * f.mask p)) = _
  rw [← alm2map_smul h]
  congr 1
  funext i l m
  simp only [mixCl, Pi.smul_apply, almxfl, Complex.real_smul]
  split_ifs
  · rw [mul_sum]
    exact sum_congr rfl fun _ _ => by ring
  · rw [mul_zero]

theorem getD_smul_stack (c : ℝ) (t : Option (ℕ → MapStack)) :
    (t.map fun t i => c • t i).getD (fun _ _ _ => 0) = fun i => c • t.getD (fun _ _ _ => 0) i := by
  cases t with
  | none => funext i k p; simp
  | some t => rfl

theorem getD_smul_alms (c : ℝ) (t : Option (ℕ → Alms)) :
    (t.map fun t i => c • t i).getD (fun _ _ _ _ => 0) = fun i => c • t.getD (fun _ _ _ _ => 0) i := by
  cases t with
  | none => funext i k l m; simp
  | some t => rfl

theorem getD_smul_mat (c : ℝ) (t : Option (Option (ℕ → ℕ → ℝ))) :
    (t.map (Option.map fun P i j => P i j / c ^ 2)).getD (some fun _ _ => 0) = (t.getD (some fun _ _ => 0)).map fun P i j => P i j / c ^ 2 := by
  cases t with
  | none => simp
  | some t => rfl

theorem biasSums_smul (env : FieldEnv) (hS : env.sht.Homogeneous) (n : ℕ) {c d : ℝ} (hc : 0 < c) (hd : 0 < d) (f1 f2 : FieldObj)
    (cl : ℕ → ℕ → ℕ → ℝ) (t1 t2 : ℕ → MapStack) (at1 at2 : ℕ → Alms) (iM1 iM2 : ℕ → ℕ → ℝ) (almF almG : ℕ → Alms) (a b l : ℕ) :
    biasSums env n (f1.rescale c) (f2.rescale d) cl (fun i => c • t1 i) (fun i => d • t2 i) (fun i => c • at1 i) (fun i => d • at2 i)
      (fun i j => iM1 i j / c ^ 2) (fun i j => iM2 i j / d ^ 2) (fun j => (d * c ^ 2) • almF j) (fun j => (c * d ^ 2) • almG j) a b l =
      c * d * biasSums env n f1 f2 cl t1 t2 at1 at2 iM1 iM2 almF almG a b l := by
  unfold biasSums
  dsimp only
  have hp : ∀ j r, (env.pix.dot (f1.rescale c).nmaps (c • t1 j) fun k p =>
      biasMap env.sht n (f2.rescale d) (f1.rescale c) (fun n m => cl m n) (d • t2 r) k p * (f1.rescale c).mask p) =
      c ^ 2 * d ^ 2 * env.pix.dot f1.nmaps (t1 j) fun k p => biasMap env.sht n f2 f1 (fun n m => cl m n) (t2 r) k p * f1.mask p := by
    intro j r
    rw [biasMap_smul hS]
    have e : (fun k p => (d ^ 2 • biasMap env.sht n f2 f1 (fun n m => cl m n) (t2 r)) k p * (f1.rescale c).mask p : MapStack) =
        (c * d ^ 2) • fun k p => biasMap env.sht n f2 f1 (fun n m => cl m n) (t2 r) k p * f1.mask p := by
      funext k p
      simp only [FieldObj.rescale, Pi.smul_apply, smul_eq_mul]
      ring
    rw [e, dot_smul]
    change c * (c * d ^ 2) * env.pix.dot f1.nmaps _ _ = _
    ring
  simp only [hp]
  have es : ∀ (x : ℝ) (A : Alms) (k : ℕ), (x • A) k = x • A k := fun _ _ _ => rfl
  simp only [es, alm2cl_smul]
  rw [mul_add, mul_sub, mul_sub, mul_zero]
  change 0 - (∑ i ∈ range f1.nTemp, ∑ j ∈ range f1.nTemp, _) - (∑ i ∈ range f2.nTemp, ∑ j ∈ range f2.nTemp, _) +
    (∑ i ∈ range f1.nTemp, ∑ j ∈ range f1.nTemp, ∑ r ∈ range f2.nTemp, ∑ s ∈ range f2.nTemp, _) = _
  have hc' := hc.ne'
  have hd' := hd.ne'
  congr 1
  · congr 1
    · congr 1
      rw [mul_sum]
      refine sum_congr rfl fun i _ => ?_
      rw [mul_sum]
      refine sum_congr rfl fun j _ => ?_
      field_simp
    · rw [mul_sum]
      refine sum_congr rfl fun i _ => ?_
      rw [mul_sum]
      refine sum_congr rfl fun j _ => ?_
      field_simp
  · rw [mul_sum]
    refine sum_congr rfl fun i _ => ?_
    rw [mul_sum]
    refine sum_congr rfl fun j _ => ?_
    rw [mul_sum]
    refine sum_congr rfl fun r _ => ?_
    rw [mul_sum]
    refine sum_congr rfl fun s _ => ?_
    field_simp

theorem bias_smul (env : FieldEnv) (hS : env.sht.Homogeneous) (n : ℕ) {c d : ℝ} (hc : 0 < c) (hd : 0 < d) (compat : Bool) (f1 f2 : FieldObj)
    (guess : Arr2 ℝ) : deprojectionBias env n compat (f1.rescale c) (f2.rescale d) guess =
      (deprojectionBias env n compat f1 f2 guess).bind fun b => .ok (b.map (Arr2.scale (c * d))) := by
  unfold deprojectionBias
  by_cases h1 : compat = false
  · rw [if_pos h1, if_pos h1]; rfl
  rw [if_neg h1, if_neg h1]
  change (if guess.rows ≠ f1.nmaps * f2.nmaps ∨ guess.cols ≠ f1.lmax + 1 then _ else if f1.lite = true ∨ f2.lite = true then _ else _) = _
  by_cases h2 : guess.rows ≠ f1.nmaps * f2.nmaps ∨ guess.cols ≠ f1.lmax + 1
  · rw [if_pos h2, if_pos h2]; rfl
  rw [if_neg h2, if_neg h2]
  by_cases h3 : f1.lite = true ∨ f2.lite = true
  · rw [if_pos h3, if_pos h3]; rfl
  rw [if_neg h3, if_neg h3]
  dsimp only
  have e1 : (f1.rescale c).temp.getD (fun _ _ _ => 0) = fun i => c • f1.temp.getD (fun _ _ _ => 0) i := getD_smul_stack c _
  have e2 : (f2.rescale d).temp.getD (fun _ _ _ => 0) = fun i => d • f2.temp.getD (fun _ _ _ => 0) i := getD_smul_stack d _
  have e3 : (f1.rescale c).almTemp.getD (fun _ _ _ _ => 0) = fun i => c • f1.almTemp.getD (fun _ _ _ _ => 0) i := getD_smul_alms c _
  have e4 : (f2.rescale d).almTemp.getD (fun _ _ _ _ => 0) = fun i => d • f2.almTemp.getD (fun _ _ _ _ => 0) i := getD_smul_alms d _
  have e5 : (f1.rescale c).iM.getD (some fun _ _ => 0) = (f1.iM.getD (some fun _ _ => 0)).map fun P i j => P i j / c ^ 2 := getD_smul_mat c _
  have e6 : (f2.rescale d).iM.getD (some fun _ _ => 0) = (f2.iM.getD (some fun _ _ => 0)).map fun P i j => P i j / d ^ 2 := getD_smul_mat d _
  have e7 : (f2.rescale d).nmaps = f2.nmaps := rfl
  have e8 : (f1.rescale c).nmaps = f1.nmaps := rfl
  rw [e1, e2, e3, e4, e5, e6]
  simp only [biasMap_smul hS, e7, e8]
  rw [purifyIfNeededAll_smul hS, purifyIfNeededAll_smul hS]
  change Outcome.bind (Outcome.bind (purifyIfNeededAll env.sht n f2 (fun j => biasMap env.sht n f1 f2 (fun m n l => guess.val (m * f2.nmaps + n) l)
    (f1.temp.getD (fun _ _ _ => 0) j)) f1.nTemp) _) _ = _
  cases purifyIfNeededAll env.sht n f2 (fun j => biasMap env.sht n f1 f2 (fun m n l => guess.val (m * f2.nmaps + n) l)
    (f1.temp.getD (fun _ _ _ => 0) j)) f1.nTemp with
  | raises e => rfl
  | crash => rfl
  | ok almF =>
    simp only [Outcome.bind]
    change Outcome.bind (Outcome.bind (purifyIfNeededAll env.sht n f1 (fun j => biasMap env.sht n f2 f1 (fun n m l => guess.val (m * f2.nmaps + n) l)
      (f2.temp.getD (fun _ _ _ => 0) j)) f2.nTemp) _) _ = _
    cases purifyIfNeededAll env.sht n f1 (fun j => biasMap env.sht n f2 f1 (fun n m l => guess.val (m * f2.nmaps + n) l)
      (f2.temp.getD (fun _ _ _ => 0) j)) f2.nTemp with
    | raises e => rfl
    | crash => rfl
    | ok almG =>
      simp only [Outcome.bind]
      cases f1.iM.getD (some fun _ _ => 0) with
      | none => rfl
      | some P1 =>
        cases f2.iM.getD (some fun _ _ => 0) with
        | none => rfl
        | some P2 =>
          simp only [Option.map_some]
          congr 2
          unfold Arr2.of Arr2.scale
          rw [← tab2_scale]
          congr 2
          funext k l
          exact biasSums_smul env hS n hc hd f1 f2 _ _ _ _ _ P1 P2 almF almG _ _ l

end NaMaster
