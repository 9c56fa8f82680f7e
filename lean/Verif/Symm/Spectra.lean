import Verif.Symm.Field

/-!
# Pseudo-spectra and deprojection bias of fields moved by a symmetry of the pixel grid
-/

namespace NaMaster

open Finset

/-- Sign of the row `k = n2*i+j` of spectra of fields with `n1` and `n2` components: negative for mirror images if exactly one of `i` and `j` is the
second of two components (`TB`, `EB`, `BE` or `BT`). -/
def GridSym.rowSign (g : GridSym) (n1 n2 k : ℕ) : ℝ := g.sg n1 (k / n2) * g.sg n2 (k % n2)

/-- Spectra with these signs. -/
def Arr2.flip (g : GridSym) (n1 n2 : ℕ) (X : Arr2 ℝ) : Arr2 ℝ := ⟨X.rows, X.cols, fun k l => g.rowSign n1 n2 k * X.val k l⟩

variable {env : FieldEnv} {g : GridSym}

theorem flip_of (n1 n2 r c : ℕ) (f : ℕ → ℕ → ℝ) : (Arr2.of r c f).flip g n1 n2 = Arr2.of r c fun k l => g.rowSign n1 n2 k * f k l := by
  unfold Arr2.of Arr2.flip
  congr 1
  funext k l
  simp only [tab2]
  split_ifs
  · rfl
  · exact mul_zero _

theorem alm2cl_move (n1 n2 : ℕ) (a b : Alms) (i j l : ℕ) : alm2cl (g.coef n1 a i) (g.coef n2 b j) l = g.sg n1 i * g.sg n2 j * alm2cl (a i) (b j) l := by
  unfold GridSym.coef
  rw [alm2cl_smul, g.cl]

theorem coupled_move (S : Sht) (minfo : MapInfo) (f1 f2 : FieldObj) (same : Bool) :
    computeCoupledCell ((f1.move g).view S minfo) ((f2.move g).view S minfo) same =
      (computeCoupledCell (f1.view S minfo) (f2.view S minfo) same).bind fun b => .ok (b.map (Arr2.flip g f1.nmaps f2.nmaps)) := by
  unfold computeCoupledCell
  change (if isCompatible (f1.view S minfo).geom (f2.view S minfo).geom false = false then _ else _) = _
  by_cases h : isCompatible (f1.view S minfo).geom (f2.view S minfo).geom false = false
  · rw [if_pos h, if_pos h]; rfl
  rw [if_neg h, if_neg h]
  simp only [FieldObj.view, FieldObj.move]
  cases f1.alm with
  | none => rfl
  | some a =>
    cases f2.alm with
    | none => rfl
    | some b =>
      cases a with
      | none => rfl
      | some a =>
        cases b with
        | none => rfl
        | some b =>
          simp only [Option.map_some, getOr, Outcome.bind, ite_self, sub_zero]
          rw [flip_of]
          congr 2
          refine Arr2.of_congr fun k l hk _ => ?_
          rw [alm2cl_move]
          rfl

/-! ## Deprojection bias -/

/-- Fields with one map and spin zero or two maps and another spin, where purified fields have two maps. -/
structure SymField (f : FieldObj) : Prop where
  comps : f.nmaps = comps f.spin
  pure : (f.pureE || f.pureB) = true → f.nmaps = 2

theorem SymField.one_two {f : FieldObj} (h : SymField f) : f.nmaps = 1 ∨ f.nmaps = 2 := by
  rw [h.comps]
  unfold NaMaster.comps
  split_ifs <;> simp

theorem mixCl_move (k n' : ℕ) {cl cl' : ℕ → ℕ → ℕ → ℝ} (hcl : ∀ m < k, ∀ n < n', ∀ l, cl' m n l = g.sg k m * g.sg n' n * cl m n l) (a : Alms) :
    mixCl k n' cl' (g.coef k a) = g.coef n' (mixCl k n' cl a) := by
  funext n
  have e : g.coef n' (mixCl k n' cl a) n = g.sg n' n • g.coefOne (mixCl k n' cl a n) := rfl
  rw [e]
  by_cases hn : n < n'
  · have e2 : mixCl k n' cl a n = ∑ i ∈ range k, almxfl (a i) (cl i n) := by
      funext l m
      simp only [mixCl, if_pos hn, Finset.sum_apply]
    rw [e2, g.coefOne_sum]
    funext l m
    simp only [mixCl, if_pos hn, g.scale, Pi.smul_apply, Finset.sum_apply, smul_sum]
    refine sum_congr rfl fun i hi => ?_
    have h := g.sg_sq k i
    simp only [almxfl, GridSym.coef, Pi.smul_apply, Complex.real_smul]
    rw [hcl i (mem_range.1 hi) n hn]
    push_cast
    have h' : (g.sg k i : ℂ) * g.sg k i = 1 := by exact_mod_cast h
    linear_combination ((g.sg n' n : ℂ) * cl i n l * g.coefOne (a i) l m) * h'
  · have e2 : mixCl k n' cl a n = 0 := by
      funext l m
      simp only [mixCl, if_neg hn]
      rfl
    rw [e2, g.coefOne_zero, smul_zero]
    funext l m
    simp only [mixCl, if_neg hn]
    rfl

theorem getMaskAlms_move (h : env.HasSym g) (f : FieldObj) : (f.move g).getMaskAlms env.sht = g.coefOne (f.getMaskAlms env.sht) := maskAlms_move h _ _ _

theorem biasMap_move (h : env.HasSym g) (n : ℕ) {f f' : FieldObj} (hf : SymField f) (hf' : SymField f') {cl cl' : ℕ → ℕ → ℕ → ℝ}
    (hcl : ∀ m < f.nmaps, ∀ k < f'.nmaps, ∀ l, cl' m k l = g.sg f.nmaps m * g.sg f'.nmaps k * cl m k l) (t : MapStack) :
    biasMap env.sht n (f.move g) (f'.move g) cl' (g.map f.nmaps t) = g.map f'.nmaps (biasMap env.sht n f f' cl t) := by
  unfold biasMap
  have e1 : (f.move g).mask = fun p => f.mask (g.perm p) := rfl
  have e2 : (f.move g).spin = f.spin := rfl
  have e3 : (f.move g).lmax = f.lmax := rfl
  have e4 : (f.move g).nmaps = f.nmaps := rfl
  have e5 : (f'.move g).spin = f'.spin := rfl
  have e6 : (f'.move g).lmax = f'.lmax := rfl
  have e7 : (f'.move g).nmaps = f'.nmaps := rfl
  rw [e1, e2, e3, e4, e5, e6, e7, mask_move, transform_move h hf.comps, mixCl_move _ _ hcl, synthesis_move h hf'.comps]

theorem purifyIfNeeded_move (h : env.HasSym g) (n : ℕ) {f : FieldObj} (hf : SymField f) (m : MapStack) :
    purifyIfNeeded env.sht n (f.move g) (g.map f.nmaps m) = (purifyIfNeeded env.sht n f m).bind fun r => .ok (g.coef f.nmaps r) := by
  unfold purifyIfNeeded
  rw [getMaskAlms_move h]
  change (if (f.pureE || f.pureB) = true then (purify env.sht f.lmax f.lmaxMask n (fun p => f.mask (g.perm p)) _ f.pureE f.pureB _).bind _ else
    Outcome.ok (env.sht.map2alm f.spin f.lmax n fun c p => g.map f.nmaps m c p * f.mask (g.perm p))) = _
  by_cases hp : (f.pureE || f.pureB) = true
  · rw [if_pos hp, if_pos hp, hf.pure hp, purify_move h]
    cases purify env.sht f.lmax f.lmaxMask n f.mask (f.getMaskAlms env.sht) f.pureE f.pureB m <;> rfl
  · rw [if_neg hp, if_neg hp]
    simp only [Outcome.bind]
    rw [mask_move, transform_move h hf.comps]

theorem purifyIfNeededAll_move (h : env.HasSym g) (n : ℕ) {f : FieldObj} (hf : SymField f) (m : ℕ → MapStack) (k : ℕ) :
    purifyIfNeededAll env.sht n (f.move g) (fun j => g.map f.nmaps (m j)) k =
      (purifyIfNeededAll env.sht n f m k).bind fun r => .ok fun j => g.coef f.nmaps (r j) := by
  induction k with
  | zero =>
    simp only [purifyIfNeededAll, Outcome.bind]
    congr 1
    funext i
    exact (g.coef_zero _).symm
  | succ k ih =>
    unfold purifyIfNeededAll
    rw [ih, purifyIfNeeded_move h n hf]
    cases purifyIfNeededAll env.sht n f m k with
    | raises e => rfl
    | crash => rfl
    | ok q =>
      cases purifyIfNeeded env.sht n f (m k) with
      | raises e => rfl
      | crash => rfl
      | ok r =>
        simp only [Outcome.bind]
        congr 1
        funext i
        by_cases hi : i = k
        · subst hi; simp
        · simp [Function.update_of_ne hi]

theorem getD_move_stack (n : ℕ) (T : Option (ℕ → MapStack)) :
    (T.map fun T i => g.map n (T i)).getD (fun _ _ _ => 0) = fun i => g.map n (T.getD (fun _ _ _ => 0) i) := by
  cases T with
  | none => funext i; exact (g.map_zero n).symm
  | some T => rfl

theorem getD_move_alms (n : ℕ) (T : Option (ℕ → Alms)) :
    (T.map fun T i => g.coef n (T i)).getD (fun _ _ _ _ => 0) = fun i => g.coef n (T.getD (fun _ _ _ _ => 0) i) := by
  cases T with
  | none => funext i; exact (g.coef_zero n).symm
  | some T => rfl

theorem biasSums_move (h : env.HasSym g) (n : ℕ) {f1 f2 : FieldObj} (h1 : SymField f1) (h2 : SymField f2)
    {cl cl' : ℕ → ℕ → ℕ → ℝ} (hcl : ∀ m < f1.nmaps, ∀ k < f2.nmaps, ∀ l, cl' m k l = g.sg f1.nmaps m * g.sg f2.nmaps k * cl m k l)
    (t1 t2 : ℕ → MapStack) (at1 at2 : ℕ → Alms) (iM1 iM2 : ℕ → ℕ → ℝ) (almF almG : ℕ → Alms) (a b l : ℕ) :
    biasSums env n (f1.move g) (f2.move g) cl' (fun i => g.map f1.nmaps (t1 i)) (fun i => g.map f2.nmaps (t2 i)) (fun i => g.coef f1.nmaps (at1 i))
      (fun i => g.coef f2.nmaps (at2 i)) iM1 iM2 (fun j => g.coef f2.nmaps (almF j)) (fun j => g.coef f1.nmaps (almG j)) a b l =
      g.sg f1.nmaps a * g.sg f2.nmaps b * biasSums env n f1 f2 cl t1 t2 at1 at2 iM1 iM2 almF almG a b l := by
  have hp : ∀ j r, (env.pix.dot (f1.move g).nmaps (g.map f1.nmaps (t1 j)) fun k p =>
      biasMap env.sht n (f2.move g) (f1.move g) (fun n m => cl' m n) (g.map f2.nmaps (t2 r)) k p * (f1.move g).mask p) =
      env.pix.dot f1.nmaps (t1 j) fun k p => biasMap env.sht n f2 f1 (fun n m => cl m n) (t2 r) k p * f1.mask p := by
    intro j r
    rw [biasMap_move h n h2 h1 (cl := fun n m => cl m n) (fun m hm k hk l => by rw [hcl k hk m hm]; ring)]
    have em : (f1.move g).mask = fun p => f1.mask (g.perm p) := rfl
    have en : (f1.move g).nmaps = f1.nmaps := rfl
    rw [em, en, mask_move, dot_move h]
  unfold biasSums
  dsimp only
  simp only [hp, alm2cl_move]
  change 0 - (∑ i ∈ range f1.nTemp, ∑ j ∈ range f1.nTemp, _) - (∑ i ∈ range f2.nTemp, ∑ j ∈ range f2.nTemp, _) +
    (∑ i ∈ range f1.nTemp, ∑ j ∈ range f1.nTemp, ∑ r ∈ range f2.nTemp, ∑ s ∈ range f2.nTemp, _) = _
  have G2 : ∀ (N : ℕ) (x : ℝ) (c A : ℕ → ℕ → ℝ), ∑ i ∈ range N, ∑ j ∈ range N, c i j * (x * A i j) = x * ∑ i ∈ range N, ∑ j ∈ range N, c i j * A i j := by
    intro N x c A
    simp only [mul_sum]
    exact sum_congr rfl fun i _ => sum_congr rfl fun j _ => by ring
  have G4 : ∀ (N M : ℕ) (x : ℝ) (c A : ℕ → ℕ → ℕ → ℕ → ℝ), ∑ i ∈ range N, ∑ j ∈ range N, ∑ r ∈ range M, ∑ s ∈ range M, c i j r s * (x * A i j r s) =
      x * ∑ i ∈ range N, ∑ j ∈ range N, ∑ r ∈ range M, ∑ s ∈ range M, c i j r s * A i j r s := by
    intro N M x c A
    simp only [mul_sum]
    exact sum_congr rfl fun i _ => sum_congr rfl fun j _ => sum_congr rfl fun r _ => sum_congr rfl fun s _ => by ring
  rw [G2, G2, G4]
  ring

theorem flip_entry {n1 n2 : ℕ} (X : Arr2 ℝ) {i j : ℕ} (hj : j < n2) (l : ℕ) :
    (X.flip g n1 n2).val (i * n2 + j) l = g.sg n1 i * g.sg n2 j * X.val (i * n2 + j) l := by
  have hp : 0 < n2 := by omega
  simp only [Arr2.flip, GridSym.rowSign]
  rw [show (i * n2 + j) / n2 = i by rw [mul_comm, Nat.mul_add_div hp, Nat.div_eq_of_lt hj, add_zero],
    show (i * n2 + j) % n2 = j by rw [mul_comm, Nat.mul_add_mod, Nat.mod_eq_of_lt hj]]

theorem bias_move (h : env.HasSym g) (n : ℕ) (compat : Bool) {f1 f2 : FieldObj} (h1 : SymField f1) (h2 : SymField f2)
    (guess : Arr2 ℝ) : deprojectionBias env n compat (f1.move g) (f2.move g) (guess.flip g f1.nmaps f2.nmaps) =
      (deprojectionBias env n compat f1 f2 guess).bind fun b => .ok (b.map (Arr2.flip g f1.nmaps f2.nmaps)) := by
  unfold deprojectionBias
  by_cases k1 : compat = false
  · rw [if_pos k1, if_pos k1]; rfl
  rw [if_neg k1, if_neg k1]
  change (if guess.rows ≠ f1.nmaps * f2.nmaps ∨ guess.cols ≠ f1.lmax + 1 then _ else if f1.lite = true ∨ f2.lite = true then _ else _) = _
  by_cases k2 : guess.rows ≠ f1.nmaps * f2.nmaps ∨ guess.cols ≠ f1.lmax + 1
  · rw [if_pos k2, if_pos k2]; rfl
  rw [if_neg k2, if_neg k2]
  by_cases k3 : f1.lite = true ∨ f2.lite = true
  · rw [if_pos k3, if_pos k3]; rfl
  rw [if_neg k3, if_neg k3]
  dsimp only
  have e1 : (f1.move g).temp.getD (fun _ _ _ => 0) = fun i => g.map f1.nmaps (f1.temp.getD (fun _ _ _ => 0) i) := getD_move_stack _ _
  have e2 : (f2.move g).temp.getD (fun _ _ _ => 0) = fun i => g.map f2.nmaps (f2.temp.getD (fun _ _ _ => 0) i) := getD_move_stack _ _
  have e3 : (f1.move g).almTemp.getD (fun _ _ _ _ => 0) = fun i => g.coef f1.nmaps (f1.almTemp.getD (fun _ _ _ _ => 0) i) := getD_move_alms _ _
  have e4 : (f2.move g).almTemp.getD (fun _ _ _ _ => 0) = fun i => g.coef f2.nmaps (f2.almTemp.getD (fun _ _ _ _ => 0) i) := getD_move_alms _ _
  have e5 : (f2.move g).nmaps = f2.nmaps := rfl
  have e6 : (f1.move g).nmaps = f1.nmaps := rfl
  have e7 : (f2.move g).nTemp = f2.nTemp := rfl
  have e8 : (f1.move g).nTemp = f1.nTemp := rfl
  have e9 : (f2.move g).iM = f2.iM := rfl
  have e10 : (f1.move g).iM = f1.iM := rfl
  have e11 : (f1.move g).lmax = f1.lmax := rfl
  have hcl : ∀ m < f1.nmaps, ∀ k < f2.nmaps, ∀ l, (fun m n l => (guess.flip g f1.nmaps f2.nmaps).val (m * f2.nmaps + n) l) m k l =
      g.sg f1.nmaps m * g.sg f2.nmaps k * (fun m n l => guess.val (m * f2.nmaps + n) l) m k l := fun m _ k hk l => flip_entry guess hk l
  have b1 : ∀ T : MapStack, biasMap env.sht n (f1.move g) (f2.move g) (fun m n l => (guess.flip g f1.nmaps f2.nmaps).val (m * f2.nmaps + n) l)
      (g.map f1.nmaps T) = g.map f2.nmaps (biasMap env.sht n f1 f2 (fun m n l => guess.val (m * f2.nmaps + n) l) T) := fun T =>
    biasMap_move h n h1 h2 hcl T
  have b2 : ∀ T : MapStack, biasMap env.sht n (f2.move g) (f1.move g) (fun n m l => (guess.flip g f1.nmaps f2.nmaps).val (m * f2.nmaps + n) l)
      (g.map f2.nmaps T) = g.map f1.nmaps (biasMap env.sht n f2 f1 (fun n m l => guess.val (m * f2.nmaps + n) l) T) := fun T =>
    biasMap_move h n h2 h1 (fun m hm k hk l => by
      refine (hcl k hk m hm l).trans ?_
      ring) T
  rw [e1, e2, e3, e4]
  simp only [e5, e6, e7, e8, e9, e10, e11]
  simp only [b1, b2]
  rw [purifyIfNeededAll_move h n h2, purifyIfNeededAll_move h n h1]
  cases purifyIfNeededAll env.sht n f2 (fun j => biasMap env.sht n f1 f2 (fun m n l => guess.val (m * f2.nmaps + n) l)
    (f1.temp.getD (fun _ _ _ => 0) j)) f1.nTemp with
  | raises e => rfl
  | crash => rfl
  | ok almF =>
    simp only [Outcome.bind]
    cases purifyIfNeededAll env.sht n f1 (fun j => biasMap env.sht n f2 f1 (fun n m l => guess.val (m * f2.nmaps + n) l)
      (f2.temp.getD (fun _ _ _ => 0) j)) f2.nTemp with
    | raises e => rfl
    | crash => rfl
    | ok almG =>
      simp only [Outcome.bind]
      cases f1.iM.getD (some fun _ _ => 0) with
      | none => rfl
      | some P1 =>
        cases f2.iM.getD (some fun _ _ => 0) with
        | none => rfl
        | some P2 =>
          simp only [Option.map_some]
          congr 2
          rw [flip_of]
          refine Arr2.of_congr fun k l hk _ => ?_
          rw [biasSums_move h n h1 h2 hcl]
          rfl

/-! ## Workspaces -/

theorem wsp_move (h : env.HasSym g) (W : Wigner) (minfo : MapInfo) (f1 f2 : FieldObj) (i1 : f1.maskA = none) (i2 : f2.maskA = none) (same : Bool) (B : Bins ℝ)
    (wa : WspArgs) : wspFromFields W env minfo (f1.move g) (f2.move g) same B wa = wspFromFields W env minfo f1 f2 same B wa := by
  have hm : maskSpectrum ((f1.move g).view env.sht minfo) ((f2.move g).view env.sht minfo) same =
      maskSpectrum (f1.view env.sht minfo) (f2.view env.sht minfo) same := by
    funext l
    unfold maskSpectrum
    have v1 : ((f1.move g).view env.sht minfo).almMask = g.coefOne (f1.view env.sht minfo).almMask := getMaskAlms_move h f1
    have v2 : ((f2.move g).view env.sht minfo).almMask = g.coefOne (f2.view env.sht minfo).almMask := getMaskAlms_move h f2
    rw [v1, v2]
    cases same with
    | true =>
      simp only [if_true, g.cl]
      rfl
    | false => simp only [Bool.false_eq_true, if_false, g.cl]
  have hn : normOf env.pix (f1.move g) (f2.move g) wa.norm = normOf env.pix f1 f2 wa.norm := by
    unfold normOf
    have e1 : (f1.move g).mask = fun p => f1.mask (g.perm p) := rfl
    have e2 : (f2.move g).mask = fun p => f2.mask (g.perm p) := rfl
    rw [e1, e2, single_move, single_move, dot_move h]
  have j1 : (f1.move g).maskA = none := i1
  have j2 : (f2.move g).maskA = none := i2
  unfold wspFromFields
  dsimp only
  rw [hm, hn]
  simp only [i1, i2, j1, j2, Option.isSome_none, Bool.or_self, Bool.false_eq_true, false_and, if_false]
  rfl

end NaMaster
