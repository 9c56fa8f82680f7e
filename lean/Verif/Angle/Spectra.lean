import Verif.Angle.Field
import Verif.Field.SpectraLemmas

/-!
# Pseudo-spectra and deprojection bias of fields whose polarisation angle has been turned
-/

namespace NaMaster

open Finset

/-- Spectra of fields with `n1` and `n2` components, in rows `n2*i+j`, turned by `t1` in the component `i` of the first and by `t2` in the component `j`
of the second field. -/
noncomputable def Arr2.turn (n1 n2 : ℕ) (t1 t2 : ℝ) (X : Arr2 ℝ) : Arr2 ℝ :=
  ⟨X.rows, X.cols, fun k l => if k < X.rows then
    NaMaster.turnBy n1 t1 (fun i => NaMaster.turnBy n2 t2 fun j => X.val (i * n2 + j)) (k / n2) (k % n2) l else 0⟩

section
variable {V : Type*} [AddCommGroup V] [Module ℝ V]

theorem turn_pi {ι : Type*} (n : ℕ) (t : ℝ) (v : ℕ → ι → V) (c : ℕ) (x : ι) : turnBy n t v c x = turnBy n t (fun i => v i x) c := by
  simp only [turnBy]
  split_ifs <;> rfl

theorem turn_comm (n m : ℕ) (t s : ℝ) (v : ℕ → ℕ → V) (i j : ℕ) :
    turnBy n t (fun i => turnBy m s (v i)) i j = turnBy m s (fun j => turnBy n t (fun i => v i j) i) j := by
  rw [turn_pi]
  simp only [turnBy]
  split_ifs <;> module

theorem turnBy_zero (n : ℕ) (t : ℝ) (c : ℕ) : turnBy n t (fun _ => (0 : V)) c = 0 := by
  simp only [turnBy]
  split_ifs <;> simp

end

/-- A turned quantity is a combination of two components. -/
theorem turn_comb (n : ℕ) (t : ℝ) (c : ℕ) : ∃ (x y : ℝ) (i j : ℕ), ∀ {V : Type} [AddCommGroup V] [Module ℝ V] (v : ℕ → V),
    turnBy n t v c = x • v i + y • v j := by
  by_cases h0 : n = 2 ∧ c = 0
  · exact ⟨Real.cos t, -Real.sin t, 0, 1, fun v => by simp only [turnBy, if_pos h0]; module⟩
  by_cases h1 : n = 2 ∧ c = 1
  · exact ⟨Real.sin t, Real.cos t, 0, 1, fun v => by simp only [turnBy, if_neg h0, if_pos h1]⟩
  · exact ⟨1, 0, c, c, fun v => by simp only [turnBy, if_neg h0, if_neg h1]; module⟩

theorem alm2cl_comb (x y z w : ℝ) (a b c d : ℕ → ℕ → ℂ) (l : ℕ) : alm2cl (x • a + y • b) (z • c + w • d) l =
    x * z * alm2cl a c l + x * w * alm2cl a d l + (y * z * alm2cl b c l + y * w * alm2cl b d l) := by
  have e1 : ∀ u v w : ℕ → ℕ → ℂ, alm2cl (u + v) w l = alm2cl u w l + alm2cl v w l := fun u v w => alm2cl_add_left u v w l
  have e2 : ∀ u v w : ℕ → ℕ → ℂ, alm2cl u (v + w) l = alm2cl u v l + alm2cl u w l := fun u v w => alm2cl_add_right u v w l
  rw [e1, e2, e2, alm2cl_smul, alm2cl_smul, alm2cl_smul, alm2cl_smul]

theorem alm2cl_turn (n1 n2 : ℕ) (t1 t2 : ℝ) (a b : Alms) (i j l : ℕ) : alm2cl (turnBy n1 t1 a i) (turnBy n2 t2 b j) l =
    turnBy n1 t1 (fun i => turnBy n2 t2 fun j => alm2cl (a i) (b j)) i j l := by
  obtain ⟨x, y, p, q, h1⟩ := turn_comb n1 t1 i
  obtain ⟨z, w, r, s, h2⟩ := turn_comb n2 t2 j
  rw [h1, h2, h1, Pi.add_apply, Pi.smul_apply, Pi.smul_apply, h2, h2, alm2cl_comb]
  simp only [Pi.add_apply, Pi.smul_apply, smul_eq_mul]
  ring

theorem turn2_of {n1 n2 : ℕ} (h1 : n1 = 1 ∨ n1 = 2) (h2 : n2 = 1 ∨ n2 = 2) (t1 t2 : ℝ) (c : ℕ) (f : ℕ → ℕ → ℝ) :
    (Arr2.of (n1 * n2) c f).turn n1 n2 t1 t2 =
      Arr2.of (n1 * n2) c fun k l => turnBy n1 t1 (fun i => turnBy n2 t2 fun j => f (i * n2 + j)) (k / n2) (k % n2) l := by
  unfold Arr2.of Arr2.turn
  congr 1
  funext k l
  simp only [turn_pi]
  by_cases hk : k < n1 * n2
  · rw [if_pos hk]
    by_cases hl : l < c
    · rw [tab2_of_lt _ hk hl]
      rcases h1 with rfl | rfl <;> rcases h2 with rfl | rfl <;> interval_cases k <;> simp [turnBy, tab2, hl]
    · have e : ∀ x, tab2 (n1 * n2) c f x l = 0 := fun x => by simp [tab2, hl]
      simp only [e, turnBy_zero]
      simp [tab2, hl]
  · rw [if_neg hk]
    simp [tab2, hk]

theorem turn2_entry {n1 n2 : ℕ} (X : Arr2 ℝ) (hX : X.rows = n1 * n2) (t1 t2 : ℝ) {i j : ℕ} (hi : i < n1) (hj : j < n2) (l : ℕ) :
    (X.turn n1 n2 t1 t2).val (i * n2 + j) l = turnBy n1 t1 (fun i => turnBy n2 t2 fun j => X.val (i * n2 + j)) i j l := by
  have hk : i * n2 + j < X.rows := by
    rw [hX]
    have := Nat.mul_le_mul_right n2 hi
    rw [Nat.succ_mul] at this
    omega
  have hp : 0 < n2 := by omega
  simp only [Arr2.turn]
  rw [if_pos hk]
  rw [show (i * n2 + j) / n2 = i by rw [mul_comm, Nat.mul_add_div hp, Nat.div_eq_of_lt hj, add_zero],
    show (i * n2 + j) % n2 = j by rw [mul_comm, Nat.mul_add_mod, Nat.mod_eq_of_lt hj]]

theorem coupled_turn (S : Sht) (minfo : MapInfo) (t1 t2 : ℝ) (f1 f2 : FieldObj) (h1 : f1.nmaps = 1 ∨ f1.nmaps = 2) (h2 : f2.nmaps = 1 ∨ f2.nmaps = 2)
    (same : Bool) : computeCoupledCell ((f1.turn t1).view S minfo) ((f2.turn t2).view S minfo) same =
      (computeCoupledCell (f1.view S minfo) (f2.view S minfo) same).bind fun b => .ok (b.map (Arr2.turn f1.nmaps f2.nmaps t1 t2)) := by
  unfold computeCoupledCell
  change (if isCompatible (f1.view S minfo).geom (f2.view S minfo).geom false = false then _ else _) = _
  by_cases h : isCompatible (f1.view S minfo).geom (f2.view S minfo).geom false = false
  · rw [if_pos h, if_pos h]; rfl
  rw [if_neg h, if_neg h]
  simp only [FieldObj.view, FieldObj.turn]
  cases f1.alm with
  | none => rfl
  | some a =>
    cases f2.alm with
    | none => rfl
    | some b =>
      cases a with
      | none => rfl
      | some a =>
        cases b with
        | none => rfl
        | some b =>
          simp only [Option.map_some, getOr, Outcome.bind, ite_self, sub_zero]
          rw [turn2_of h1 h2]
          congr 2
          refine Arr2.of_congr fun k l hk _ => ?_
          rw [alm2cl_turn]
          have hn2 : 0 < f2.nmaps := by omega
          have e : ∀ i j, j < f2.nmaps → (i * f2.nmaps + j) / f2.nmaps = i ∧ (i * f2.nmaps + j) % f2.nmaps = j := by
            intro i j hj
            exact ⟨by rw [mul_comm, Nat.mul_add_div hn2, Nat.div_eq_of_lt hj, add_zero], by rw [mul_comm, Nat.mul_add_mod, Nat.mod_eq_of_lt hj]⟩
          simp only [turn_pi]
          have hkm : k % f2.nmaps < f2.nmaps := Nat.mod_lt _ hn2
          congr 1
          funext i
          rcases h2 with h2 | h2
          · rw [turn_of_ne (by omega), turn_of_ne (by omega), (e i _ hkm).1, (e i _ hkm).2]
          · simp only [turnBy, (e i 0 (by omega)).1, (e i 0 (by omega)).2, (e i 1 (by omega)).1, (e i 1 (by omega)).2, (e i _ hkm).1, (e i _ hkm).2]

/-! ## Deprojection bias -/

/-- Fields with one map and spin zero or two maps and another spin, where either both or none of E and B modes are purified. -/
structure EvenField (f : FieldObj) : Prop where
  comps : f.nmaps = 1 ∨ f.nmaps = 2
  spin : f.nmaps = 2 → f.spin ≠ 0
  pure : f.pureE = f.pureB

theorem mixCl_turn_left {k : ℕ} (hk : k = 1 ∨ k = 2) (n' : ℕ) (t : ℝ) (cl : ℕ → ℕ → ℕ → ℝ) (a : Alms) :
    mixCl k n' (fun m n => turnBy k t (fun i => cl i n) m) (turnBy k t a) = mixCl k n' cl a := by
  funext n l m
  unfold mixCl
  split_ifs
  · rcases hk with rfl | rfl
    · simp [turnBy]
    · simp only [sum_range_succ, sum_range_zero, zero_add, almxfl, turnBy, true_and, if_true, one_ne_zero, if_false, Pi.sub_apply, Pi.add_apply,
        Pi.smul_apply, smul_eq_mul, Complex.real_smul]
      push_cast
      linear_combination ((cl 0 n l : ℂ) * a 0 l m + (cl 1 n l : ℂ) * a 1 l m) * Complex.sin_sq_add_cos_sq (t : ℂ)
  · rfl

theorem mixCl_turn_right (k : ℕ) {n' : ℕ} (hn : n' = 1 ∨ n' = 2) (t : ℝ) (cl : ℕ → ℕ → ℕ → ℝ) (a : Alms) :
    mixCl k n' (fun m => turnBy n' t (cl m)) a = turnBy n' t (mixCl k n' cl a) := by
  rcases hn with rfl | rfl
  · rw [turn_of_ne (by norm_num)]
    simp only [turn_of_ne (show (1 : ℕ) ≠ 2 by norm_num)]
  · funext n l m
    by_cases h0 : n = 0
    · subst h0
      simp only [mixCl, turnBy, true_and, if_true, Pi.sub_apply, Pi.smul_apply, smul_eq_mul, Complex.real_smul, almxfl]
      rw [if_pos (by norm_num), if_pos (by norm_num), if_pos (by norm_num), mul_sum, mul_sum, ← sum_sub_distrib]
      refine sum_congr rfl fun i _ => ?_
      push_cast
      ring
    by_cases h1 : n = 1
    · subst h1
      simp only [mixCl, turnBy, true_and, if_true, one_ne_zero, if_false, Pi.add_apply, Pi.smul_apply, smul_eq_mul, Complex.real_smul, almxfl]
      rw [if_pos (by norm_num), if_pos (by norm_num), if_pos (by norm_num), mul_sum, mul_sum, ← sum_add_distrib]
      refine sum_congr rfl fun i _ => ?_
      push_cast
      ring
    · simp only [mixCl, turnBy, h0, h1, and_false, if_false]

theorem mixCl_congr {k n' : ℕ} {cl cl' : ℕ → ℕ → ℕ → ℝ} (h : ∀ m < k, ∀ n < n', cl m n = cl' m n) (a : Alms) : mixCl k n' cl a = mixCl k n' cl' a := by
  funext n l m
  unfold mixCl
  split_ifs with hn
  · refine sum_congr rfl fun i hi => ?_
    rw [h i (mem_range.1 hi) n hn]
  · rfl

theorem biasMap_turn {S : Sht} (h : S.Turns) (n : ℕ) {f g f' g' : FieldObj} (hf : EvenField f) (hg : EvenField g) (tf tg : ℝ)
    (ef : f'.spin = f.spin ∧ f'.lmax = f.lmax ∧ f'.nmaps = f.nmaps ∧ f'.mask = f.mask) (eg : g'.spin = g.spin ∧ g'.lmax = g.lmax ∧ g'.nmaps = g.nmaps)
    {cl cl' : ℕ → ℕ → ℕ → ℝ} (hcl : ∀ m < f.nmaps, ∀ k < g.nmaps, cl' m k = turnBy f.nmaps tf (fun i => turnBy g.nmaps tg (cl i)) m k) (t : MapStack) :
    biasMap S n f' g' cl' (turnBy f.nmaps tf t) = turnBy g.nmaps tg (biasMap S n f g cl t) := by
  unfold biasMap
  rw [ef.1, ef.2.1, ef.2.2.1, ef.2.2.2, eg.1, eg.2.1, eg.2.2, mask_turn, transform_turn h hf.spin, ← synthesis_turn h hg.spin, ← mixCl_turn_right _ hg.comps]
  congr 1
  rw [← mixCl_turn_left hf.comps g.nmaps tf (fun m => turnBy g.nmaps tg (cl m))]
  refine mixCl_congr (fun m hm k hk => ?_) _
  rw [hcl m hm k hk, turn_pi]

theorem purifyIfNeeded_turn {S : Sht} (h : S.Turns) (n : ℕ) {f f' : FieldObj} (hf : EvenField f) (t : ℝ)
    (ef : f'.spin = f.spin ∧ f'.lmax = f.lmax ∧ f'.pureE = f.pureE ∧ f'.pureB = f.pureB ∧ f'.mask = f.mask ∧
      f'.lmaxMask = f.lmaxMask ∧ f'.nIterMask = f.nIterMask) (m : MapStack) :
    purifyIfNeeded S n f' (turnBy f.nmaps t m) = (purifyIfNeeded S n f m).bind fun r => .ok (turnBy f.nmaps t r) := by
  unfold purifyIfNeeded
  have hg : f'.getMaskAlms S = f.getMaskAlms S := by
    unfold FieldObj.getMaskAlms
    rw [ef.2.2.2.2.1, ef.2.2.2.2.2.1, ef.2.2.2.2.2.2]
  rw [ef.1, ef.2.1, ef.2.2.1, ef.2.2.2.1, ef.2.2.2.2.1, ef.2.2.2.2.2.1, hg]
  by_cases hp : (f.pureE || f.pureB) = true
  · rw [if_pos hp, if_pos hp, purify_turn h _ _ _ _ _ _ _ hf.pure]
    cases purify S f.lmax f.lmaxMask n f.mask (f.getMaskAlms S) f.pureE f.pureB m <;> rfl
  · rw [if_neg hp, if_neg hp]
    simp only [Outcome.bind]
    rw [mask_turn, transform_turn h hf.spin]

theorem purifyIfNeededAll_turn {S : Sht} (h : S.Turns) (n : ℕ) {f f' : FieldObj} (hf : EvenField f) (t : ℝ)
    (ef : f'.spin = f.spin ∧ f'.lmax = f.lmax ∧ f'.pureE = f.pureE ∧ f'.pureB = f.pureB ∧ f'.mask = f.mask ∧
      f'.lmaxMask = f.lmaxMask ∧ f'.nIterMask = f.nIterMask) (m : ℕ → MapStack) (k : ℕ) :
    purifyIfNeededAll S n f' (fun j => turnBy f.nmaps t (m j)) k = (purifyIfNeededAll S n f m k).bind fun r => .ok fun j => turnBy f.nmaps t (r j) := by
  induction k with
  | zero =>
    simp only [purifyIfNeededAll, Outcome.bind]
    congr 1
    funext i a
    exact (turnBy_zero _ _ _).symm
  | succ k ih =>
    unfold purifyIfNeededAll
    rw [ih, purifyIfNeeded_turn h n hf t ef]
    cases purifyIfNeededAll S n f m k with
    | raises e => rfl
    | crash => rfl
    | ok g =>
      cases purifyIfNeeded S n f (m k) with
      | raises e => rfl
      | crash => rfl
      | ok r =>
        simp only [Outcome.bind]
        congr 1
        funext i
        by_cases hi : i = k
        · subst hi; simp
        · simp [Function.update_of_ne hi]

theorem getD_turn_stack (n : ℕ) (t : ℝ) (T : Option (ℕ → MapStack)) :
    (T.map fun T i => turnBy n t (T i)).getD (fun _ _ _ => 0) = fun i => turnBy n t (T.getD (fun _ _ _ => 0) i) := by
  cases T with
  | none => funext i k; exact (turnBy_zero n t k).symm
  | some T => rfl

theorem getD_turn_alms (n : ℕ) (t : ℝ) (T : Option (ℕ → Alms)) :
    (T.map fun T i => turnBy n t (T i)).getD (fun _ _ _ _ => 0) = fun i => turnBy n t (T.getD (fun _ _ _ _ => 0) i) := by
  cases T with
  | none => funext i k; exact (turnBy_zero n t k).symm
  | some T => rfl

theorem biasSums_turn (env : FieldEnv) (hS : env.sht.Turns) (n : ℕ) {f1 f2 : FieldObj} (h1 : EvenField f1) (h2 : EvenField f2) (s1 s2 : ℝ)
    {cl cl' : ℕ → ℕ → ℕ → ℝ} (hcl : ∀ m < f1.nmaps, ∀ k < f2.nmaps, cl' m k = turnBy f1.nmaps s1 (fun i => turnBy f2.nmaps s2 (cl i)) m k)
    (t1 t2 : ℕ → MapStack) (at1 at2 : ℕ → Alms) (iM1 iM2 : ℕ → ℕ → ℝ) (almF almG : ℕ → Alms) (a b l : ℕ) :
    biasSums env n (f1.turn s1) (f2.turn s2) cl' (fun i => turnBy f1.nmaps s1 (t1 i)) (fun i => turnBy f2.nmaps s2 (t2 i)) (fun i => turnBy f1.nmaps s1 (at1 i))
      (fun i => turnBy f2.nmaps s2 (at2 i)) iM1 iM2 (fun j => turnBy f2.nmaps s2 (almF j)) (fun j => turnBy f1.nmaps s1 (almG j)) a b l =
      turnBy f1.nmaps s1 (fun a => turnBy f2.nmaps s2 fun b => biasSums env n f1 f2 cl t1 t2 at1 at2 iM1 iM2 almF almG a b) a b l := by
  have hp : ∀ j r, (env.pix.dot (f1.turn s1).nmaps (turnBy f1.nmaps s1 (t1 j)) fun k p =>
      biasMap env.sht n (f2.turn s2) (f1.turn s1) (fun n m => cl' m n) (turnBy f2.nmaps s2 (t2 r)) k p * (f1.turn s1).mask p) =
      env.pix.dot f1.nmaps (t1 j) fun k p => biasMap env.sht n f2 f1 (fun n m => cl m n) (t2 r) k p * f1.mask p := by
    intro j r
    rw [biasMap_turn hS n h2 h1 s2 s1 (f' := f2.turn s2) (g' := f1.turn s1) ⟨rfl, rfl, rfl, rfl⟩ ⟨rfl, rfl, rfl⟩ (cl := fun n m => cl m n)
      (fun m hm k hk => by rw [hcl k hk m hm, turn_comm]; exact (turn_pi _ _ _ _ _).symm)]
    have em : (f1.turn s1).mask = f1.mask := rfl
    have en : (f1.turn s1).nmaps = f1.nmaps := rfl
    rw [em, en, mask_turn, dot_turn]
  obtain ⟨x, y, p, q, e1⟩ := turn_comb f1.nmaps s1 a
  obtain ⟨z, w, r, s, e2⟩ := turn_comb f2.nmaps s2 b
  rw [e1, Pi.add_apply, Pi.smul_apply, Pi.smul_apply, e2, e2]
  simp only [Pi.add_apply, Pi.smul_apply, smul_eq_mul]
  unfold biasSums
  dsimp only
  simp only [hp]
  simp only [e1, e2, alm2cl_comb]
  change 0 - (∑ i ∈ range f1.nTemp, ∑ j ∈ range f1.nTemp, _) - (∑ i ∈ range f2.nTemp, ∑ j ∈ range f2.nTemp, _) +
    (∑ i ∈ range f1.nTemp, ∑ j ∈ range f1.nTemp, ∑ r ∈ range f2.nTemp, ∑ s ∈ range f2.nTemp, _) = _
  have G2 : ∀ (N : ℕ) (c A B C D : ℕ → ℕ → ℝ), ∑ i ∈ range N, ∑ j ∈ range N, c i j * (x * z * A i j + x * w * B i j + (y * z * C i j + y * w * D i j)) =
      x * z * (∑ i ∈ range N, ∑ j ∈ range N, c i j * A i j) + x * w * (∑ i ∈ range N, ∑ j ∈ range N, c i j * B i j) +
        (y * z * (∑ i ∈ range N, ∑ j ∈ range N, c i j * C i j) + y * w * ∑ i ∈ range N, ∑ j ∈ range N, c i j * D i j) := by
    intro N c A B C D
    simp only [mul_sum, ← sum_add_distrib]
    exact sum_congr rfl fun i _ => sum_congr rfl fun j _ => by ring
  have G4 : ∀ (N M : ℕ) (c A B C D : ℕ → ℕ → ℕ → ℕ → ℝ), ∑ i ∈ range N, ∑ j ∈ range N, ∑ r ∈ range M, ∑ s ∈ range M,
      c i j r s * (x * z * A i j r s + x * w * B i j r s + (y * z * C i j r s + y * w * D i j r s)) =
      x * z * (∑ i ∈ range N, ∑ j ∈ range N, ∑ r ∈ range M, ∑ s ∈ range M, c i j r s * A i j r s) +
        x * w * (∑ i ∈ range N, ∑ j ∈ range N, ∑ r ∈ range M, ∑ s ∈ range M, c i j r s * B i j r s) +
        (y * z * (∑ i ∈ range N, ∑ j ∈ range N, ∑ r ∈ range M, ∑ s ∈ range M, c i j r s * C i j r s) +
          y * w * ∑ i ∈ range N, ∑ j ∈ range N, ∑ r ∈ range M, ∑ s ∈ range M, c i j r s * D i j r s) := by
    intro N M c A B C D
    simp only [mul_sum, ← sum_add_distrib]
    exact sum_congr rfl fun i _ => sum_congr rfl fun j _ => sum_congr rfl fun r _ => sum_congr rfl fun s _ => by ring
  rw [G2, G2, G4]
  ring

theorem bias_turn (env : FieldEnv) (hS : env.sht.Turns) (n : ℕ) (compat : Bool) {f1 f2 : FieldObj} (h1 : EvenField f1) (h2 : EvenField f2) (s1 s2 : ℝ)
    (guess : Arr2 ℝ) : deprojectionBias env n compat (f1.turn s1) (f2.turn s2) (guess.turn f1.nmaps f2.nmaps s1 s2) =
      (deprojectionBias env n compat f1 f2 guess).bind fun b => .ok (b.map (Arr2.turn f1.nmaps f2.nmaps s1 s2)) := by
  unfold deprojectionBias
  by_cases k1 : compat = false
  · rw [if_pos k1, if_pos k1]; rfl
  rw [if_neg k1, if_neg k1]
  change (if guess.rows ≠ f1.nmaps * f2.nmaps ∨ guess.cols ≠ f1.lmax + 1 then _ else if f1.lite = true ∨ f2.lite = true then _ else _) = _
  by_cases k2 : guess.rows ≠ f1.nmaps * f2.nmaps ∨ guess.cols ≠ f1.lmax + 1
  · rw [if_pos k2, if_pos k2]; rfl
  rw [if_neg k2, if_neg k2]
  by_cases k3 : f1.lite = true ∨ f2.lite = true
  · rw [if_pos k3, if_pos k3]; rfl
  rw [if_neg k3, if_neg k3]
  dsimp only
  push Not at k2
  have e1 : (f1.turn s1).temp.getD (fun _ _ _ => 0) = fun i => turnBy f1.nmaps s1 (f1.temp.getD (fun _ _ _ => 0) i) := getD_turn_stack _ _ _
  have e2 : (f2.turn s2).temp.getD (fun _ _ _ => 0) = fun i => turnBy f2.nmaps s2 (f2.temp.getD (fun _ _ _ => 0) i) := getD_turn_stack _ _ _
  have e3 : (f1.turn s1).almTemp.getD (fun _ _ _ _ => 0) = fun i => turnBy f1.nmaps s1 (f1.almTemp.getD (fun _ _ _ _ => 0) i) := getD_turn_alms _ _ _
  have e4 : (f2.turn s2).almTemp.getD (fun _ _ _ _ => 0) = fun i => turnBy f2.nmaps s2 (f2.almTemp.getD (fun _ _ _ _ => 0) i) := getD_turn_alms _ _ _
  have e5 : (f2.turn s2).nmaps = f2.nmaps := rfl
  have e6 : (f1.turn s1).nmaps = f1.nmaps := rfl
  have e7 : (f2.turn s2).nTemp = f2.nTemp := rfl
  have e8 : (f1.turn s1).nTemp = f1.nTemp := rfl
  have e9 : (f2.turn s2).iM = f2.iM := rfl
  have e10 : (f1.turn s1).iM = f1.iM := rfl
  have e11 : (f1.turn s1).lmax = f1.lmax := rfl
  have hcl : ∀ m < f1.nmaps, ∀ k < f2.nmaps, (fun m n l => (guess.turn f1.nmaps f2.nmaps s1 s2).val (m * f2.nmaps + n) l) m k =
      turnBy f1.nmaps s1 (fun i => turnBy f2.nmaps s2 ((fun m n l => guess.val (m * f2.nmaps + n) l) i)) m k := by
    intro m hm k hk
    funext l
    exact turn2_entry guess k2.1 s1 s2 hm hk l
  have b1 : ∀ T : MapStack, biasMap env.sht n (f1.turn s1) (f2.turn s2) (fun m n l => (guess.turn f1.nmaps f2.nmaps s1 s2).val (m * f2.nmaps + n) l)
      (turnBy f1.nmaps s1 T) = turnBy f2.nmaps s2 (biasMap env.sht n f1 f2 (fun m n l => guess.val (m * f2.nmaps + n) l) T) := fun T =>
    biasMap_turn hS n h1 h2 s1 s2 ⟨rfl, rfl, rfl, rfl⟩ ⟨rfl, rfl, rfl⟩ hcl T
  have b2 : ∀ T : MapStack, biasMap env.sht n (f2.turn s2) (f1.turn s1) (fun n m l => (guess.turn f1.nmaps f2.nmaps s1 s2).val (m * f2.nmaps + n) l)
      (turnBy f2.nmaps s2 T) = turnBy f1.nmaps s1 (biasMap env.sht n f2 f1 (fun n m l => guess.val (m * f2.nmaps + n) l) T) := fun T =>
    biasMap_turn hS n h2 h1 s2 s1 ⟨rfl, rfl, rfl, rfl⟩ ⟨rfl, rfl, rfl⟩ (fun m hm k hk => by
      refine (hcl k hk m hm).trans ?_
      rw [turn_comm]
      exact (turn_pi _ _ _ _ _).symm) T
  rw [e1, e2, e3, e4]
  simp only [e5, e6, e7, e8, e9, e10, e11]
  simp only [b1, b2]
  rw [purifyIfNeededAll_turn hS n h2 s2 (f' := f2.turn s2) ⟨rfl, rfl, rfl, rfl, rfl, rfl, rfl⟩, purifyIfNeededAll_turn hS n h1 s1 (f' := f1.turn s1) ⟨rfl, rfl, rfl, rfl, rfl, rfl, rfl⟩]
  cases purifyIfNeededAll env.sht n f2 (fun j => biasMap env.sht n f1 f2 (fun m n l => guess.val (m * f2.nmaps + n) l)
    (f1.temp.getD (fun _ _ _ => 0) j)) f1.nTemp with
  | raises e => rfl
  | crash => rfl
  | ok almF =>
    simp only [Outcome.bind]
    cases purifyIfNeededAll env.sht n f1 (fun j => biasMap env.sht n f2 f1 (fun n m l => guess.val (m * f2.nmaps + n) l)
      (f2.temp.getD (fun _ _ _ => 0) j)) f2.nTemp with
    | raises e => rfl
    | crash => rfl
    | ok almG =>
      simp only [Outcome.bind]
      cases f1.iM.getD (some fun _ _ => 0) with
      | none => rfl
      | some P1 =>
        cases f2.iM.getD (some fun _ _ => 0) with
        | none => rfl
        | some P2 =>
          simp only [Option.map_some]
          congr 2
          rw [turn2_of h1.comps h2.comps]
          refine Arr2.of_congr fun k l hk _ => ?_
          rw [biasSums_turn env hS n h1 h2 s1 s2 hcl]
          have hn2 : 0 < f2.nmaps := by have := h2.comps; omega
          have hkm : k % f2.nmaps < f2.nmaps := Nat.mod_lt _ hn2
          have e : ∀ i j, j < f2.nmaps → (i * f2.nmaps + j) / f2.nmaps = i ∧ (i * f2.nmaps + j) % f2.nmaps = j := by
            intro i j hj
            exact ⟨by rw [mul_comm, Nat.mul_add_div hn2, Nat.div_eq_of_lt hj, add_zero], by rw [mul_comm, Nat.mul_add_mod, Nat.mod_eq_of_lt hj]⟩
          simp only [turn_pi]
          congr 1
          funext i
          rcases h2.comps with h2 | h2
          · rw [turn_of_ne (by omega), turn_of_ne (by omega), (e i _ hkm).1, (e i _ hkm).2]
          · simp only [turnBy, (e i 0 (by omega)).1, (e i 0 (by omega)).2, (e i 1 (by omega)).1, (e i 1 (by omega)).2, (e i _ hkm).1, (e i _ hkm).2]

end NaMaster
