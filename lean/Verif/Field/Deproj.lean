import Verif.Field.Pinv

/-!
# Properties of template deprojection
-/

namespace NaMaster

open Finset

/-! ## Specification -/

/-- The input map or template after multiplication with the mask (unless it was masked already). -/
def maskedInput (a : FieldArgs) (nc np : ℕ) (val : MapStack) : MapStack := fun c p =>
  if c < nc ∧ p < np then (if a.maskedOnInput then val c p else val c p * a.mask p) else 0

/-- Matrix of the scalar products of the templates. -/
def gram (P : Pix) (nm : ℕ) (T : ℕ → MapStack) (i j : ℕ) : ℝ := P.dot nm (T i) (T j)

/-- `Q` is a generalised inverse: `M Q M = M`. -/
def GenInv (n : ℕ) (M Q : ℕ → ℕ → ℝ) : Prop :=
  ∀ i < n, ∀ j < n, ∑ k ∈ range n, ∑ l ∈ range n, M i k * Q k l * M l j = M i j

/-- Linear combination of templates. -/
def combine (nt : ℕ) (c : ℕ → ℝ) (T : ℕ → MapStack) : MapStack := fun k p => ∑ i ∈ range nt, c i * T i k p

/-- A constructor call with maps and templates, without purification. -/
structure TemplateCall (a : FieldArgs) (m : StackArg) (t : TemplArg) : Prop where
  maps : a.maps = some m
  templates : a.templates = some t
  noE : a.purifyE = false
  noB : a.purifyB = false

/-- The masked templates of a call. -/
def FieldArgs.templ (a : FieldArgs) (t : TemplArg) (i : ℕ) : MapStack := maskedInput a t.ncomp t.npix (t.val i)

/-! ## Lemmas about scalar products -/

section
variable {P : Pix} {nm nt : ℕ}

theorem dot_comm (a b : MapStack) : P.dot nm a b = P.dot nm b a := by
  unfold Pix.dot
  exact sum_congr rfl fun c _ => sum_congr rfl fun p _ => by ring

theorem dot_combine (z : ℕ → ℝ) (T : ℕ → MapStack) (b : MapStack) :
    P.dot nm (combine nt z T) b = ∑ i ∈ range nt, z i * P.dot nm (T i) b := by
  unfold Pix.dot combine
  simp only [sum_mul, mul_sum]
  rw [show (∑ c ∈ range nm, ∑ p ∈ range P.npix, ∑ i ∈ range nt, z i * T i c p * b c p * P.w p) =
    ∑ c ∈ range nm, ∑ i ∈ range nt, ∑ p ∈ range P.npix, z i * T i c p * b c p * P.w p from
    sum_congr rfl fun c _ => sum_comm, sum_comm]
  exact sum_congr rfl fun i _ => sum_congr rfl fun c _ => sum_congr rfl fun p _ => by ring

theorem dot_sub (a b d : MapStack) : P.dot nm (fun c p => a c p - b c p) d = P.dot nm a d - P.dot nm b d := by
  unfold Pix.dot
  simp only [← sum_sub_distrib]
  exact sum_congr rfl fun c _ => sum_congr rfl fun p _ => by ring

theorem dot_add (a b d : MapStack) : P.dot nm d (fun c p => a c p + b c p) = P.dot nm d a + P.dot nm d b := by
  unfold Pix.dot
  simp only [← sum_add_distrib]
  exact sum_congr rfl fun c _ => sum_congr rfl fun p _ => by ring

theorem dot_congr {a b a' b' : MapStack} (h : ∀ c < nm, ∀ p < P.npix, a c p = a' c p)
    (h' : ∀ c < nm, ∀ p < P.npix, b c p = b' c p) : P.dot nm a b = P.dot nm a' b' := by
  unfold Pix.dot
  exact sum_congr rfl fun c hc => sum_congr rfl fun p hp => by
    rw [h c (mem_range.1 hc) p (mem_range.1 hp), h' c (mem_range.1 hc) p (mem_range.1 hp)]

/-- A combination of templates with zero norm vanishes where the weight is not zero. -/
theorem null_combine (hw : ∀ p < P.npix, 0 ≤ P.w p) (T : ℕ → MapStack) (z : ℕ → ℝ)
    (hz : ∀ i < nt, ∑ j ∈ range nt, gram P nm T i j * z j = 0) (c p : ℕ) (hc : c < nm) (hp : p < P.npix) :
    combine nt z T c p ^ 2 * P.w p = 0 := by
  have h0 : P.dot nm (combine nt z T) (combine nt z T) = 0 := by
    rw [dot_combine]
    refine sum_eq_zero fun i hi => ?_
    rw [dot_comm, dot_combine]
    rw [show ∑ j ∈ range nt, z j * P.dot nm (T j) (T i) = ∑ j ∈ range nt, gram P nm T i j * z j from
      sum_congr rfl fun j _ => by unfold gram; rw [dot_comm (T j)]; ring]
    rw [hz i (mem_range.1 hi), mul_zero]
  unfold Pix.dot at h0
  have hnn : ∀ c ∈ range nm, 0 ≤ ∑ p ∈ range P.npix, combine nt z T c p * combine nt z T c p * P.w p := fun c _ =>
    sum_nonneg fun p hp => mul_nonneg (mul_self_nonneg _) (hw p (mem_range.1 hp))
  have h1 := (sum_eq_zero_iff_of_nonneg hnn).1 h0 c (mem_range.2 hc)
  have h2 := (sum_eq_zero_iff_of_nonneg fun p hp => mul_nonneg (mul_self_nonneg _) (hw p (mem_range.1 hp))).1 h1 p
    (mem_range.2 hp)
  rw [pow_two]; exact h2

theorem null_dot (hw : ∀ p < P.npix, 0 ≤ P.w p) (T : ℕ → MapStack) (z : ℕ → ℝ)
    (hz : ∀ i < nt, ∑ j ∈ range nt, gram P nm T i j * z j = 0) (b : MapStack) : P.dot nm (combine nt z T) b = 0 := by
  unfold Pix.dot
  refine sum_eq_zero fun c hc => sum_eq_zero fun p hp => ?_
  have h := null_combine hw T z hz c p (mem_range.1 hc) (mem_range.1 hp)
  rcases mul_eq_zero.1 h with h | h
  · rw [pow_eq_zero_iff (by norm_num)] at h; rw [h, zero_mul, zero_mul]
  · rw [h, mul_zero]

/-- The coefficients of the templates in the projection of a map. -/
def projCoef (P : Pix) (nm nt : ℕ) (Q : ℕ → ℕ → ℝ) (T : ℕ → MapStack) (b : MapStack) : ℕ → ℝ :=
  tab nt fun i => ∑ j ∈ range nt, Q i j * P.dot nm (T j) b

/-- The deprojected map. -/
def projOut (P : Pix) (nm nt : ℕ) (Q : ℕ → ℕ → ℝ) (T : ℕ → MapStack) (b : MapStack) : MapStack := fun c p =>
  b c p - ∑ i ∈ range nt, projCoef P nm nt Q T b i * T i c p

theorem gram_symm (T : ℕ → MapStack) (i j : ℕ) : gram P nm T i j = gram P nm T j i := dot_comm _ _

/-- The projection reproduces the scalar products with the templates. -/
theorem gen_inv_dot (hw : ∀ p < P.npix, 0 ≤ P.w p) (T : ℕ → MapStack) (Q : ℕ → ℕ → ℝ)
    (hQ : GenInv nt (gram P nm T) Q) (b : MapStack) (c : ℕ → ℝ) :
    ∑ i ∈ range nt, c i * P.dot nm (T i) b =
      ∑ i ∈ range nt, ∑ k ∈ range nt, ∑ l ∈ range nt, c i * gram P nm T i k * Q k l * P.dot nm (T l) b := by
  -- z = c - Qᵀ G c
  have hz : ∀ i < nt, ∑ j ∈ range nt, gram P nm T i j *
      (c j - ∑ k ∈ range nt, ∑ l ∈ range nt, c l * gram P nm T l k * Q k j) = 0 := by
    intro i hi
    simp only [mul_sub, sum_sub_distrib, mul_sum]
    rw [sub_eq_zero]
    have h1 : ∀ l ∈ range nt, ∑ j ∈ range nt, ∑ k ∈ range nt, gram P nm T i j * (c l * gram P nm T l k * Q k j) =
        gram P nm T i l * c l := by
      intro l hl
      rw [gram_symm T i l, ← hQ l (mem_range.1 hl) i hi, sum_comm, sum_mul]
      refine sum_congr rfl fun k _ => ?_
      rw [sum_mul]
      refine sum_congr rfl fun j _ => ?_
      rw [gram_symm T i j]; ring
    rw [← sum_congr rfl h1, sum_comm]
    refine sum_congr rfl fun j _ => ?_
    rw [sum_comm]
  have h := null_dot hw T _ hz b
  rw [dot_combine] at h
  simp only [sub_mul, sum_sub_distrib, sum_mul] at h
  rw [sub_eq_zero] at h
  rw [h]
  rw [sum_comm]
  rw [show (∑ k ∈ range nt, ∑ j ∈ range nt, ∑ l ∈ range nt, c l * gram P nm T l k * Q k j * P.dot nm (T j) b) =
    ∑ k ∈ range nt, ∑ l ∈ range nt, ∑ j ∈ range nt, c l * gram P nm T l k * Q k j * P.dot nm (T j) b from
    sum_congr rfl fun k _ => sum_comm, sum_comm]

theorem projOut_orth (hw : ∀ p < P.npix, 0 ≤ P.w p) (T : ℕ → MapStack) (Q : ℕ → ℕ → ℝ)
    (hQ : GenInv nt (gram P nm T) Q) (b : MapStack) (i : ℕ) (hi : i < nt) : P.dot nm (projOut P nm nt Q T b) (T i) = 0 := by
  have h1 : P.dot nm (projOut P nm nt Q T b) (T i) =
      P.dot nm b (T i) - P.dot nm (combine nt (projCoef P nm nt Q T b) T) (T i) := dot_sub _ _ _
  rw [h1, dot_combine, sub_eq_zero]
  have h := gen_inv_dot hw T Q hQ b (fun j => if j = i then 1 else 0)
  simp only [ite_mul, one_mul, zero_mul] at h
  rw [sum_ite_eq', if_pos (mem_range.2 hi)] at h
  rw [dot_comm, h]
  have h2 : ∀ x ∈ range nt, (∑ k ∈ range nt, ∑ l ∈ range nt,
      if x = i then gram P nm T x k * Q k l * P.dot nm (T l) b else 0) =
      if x = i then ∑ k ∈ range nt, ∑ l ∈ range nt, gram P nm T i k * Q k l * P.dot nm (T l) b else 0 := by
    intro x _
    by_cases hx : x = i
    · simp only [hx, if_true]
    · simp only [hx, if_false, sum_const_zero]
  rw [sum_congr rfl h2, sum_ite_eq', if_pos (mem_range.2 hi)]
  refine sum_congr rfl fun k hk => ?_
  unfold projCoef
  rw [tab_of_lt _ (mem_range.1 hk), sum_mul]
  refine sum_congr rfl fun l _ => ?_
  unfold gram
  rw [dot_comm (T i)]; ring

/-- Combinations of templates are removed. -/
theorem projOut_span (hw : ∀ p < P.npix, 0 < P.w p) (T : ℕ → MapStack) (Q : ℕ → ℕ → ℝ)
    (hQ : GenInv nt (gram P nm T) Q) (z : ℕ → ℝ) (c p : ℕ) (hc : c < nm) (hp : p < P.npix) :
    projOut P nm nt Q T (combine nt z T) c p = 0 := by
  have hz : ∀ i < nt, ∑ j ∈ range nt, gram P nm T i j * (z j - projCoef P nm nt Q T (combine nt z T) j) = 0 := by
    intro i hi
    have h0 := projOut_orth (fun p hp => le_of_lt (hw p hp)) T Q hQ (combine nt z T) i hi
    have h1 : P.dot nm (projOut P nm nt Q T (combine nt z T)) (T i) = P.dot nm (combine nt z T) (T i) -
      P.dot nm (combine nt (projCoef P nm nt Q T (combine nt z T)) T) (T i) := dot_sub _ _ _
    rw [h1, dot_combine, dot_combine] at h0
    rw [← h0, ← sum_sub_distrib]
    refine sum_congr rfl fun j _ => ?_
    unfold gram
    rw [dot_comm (T i)]; ring
  have h := null_combine (fun p hp => le_of_lt (hw p hp)) T _ hz c p hc hp
  rcases mul_eq_zero.1 h with h | h
  · rw [pow_eq_zero_iff (by norm_num)] at h
    rw [← h]
    unfold projOut combine
    rw [← sum_sub_distrib]
    exact sum_congr rfl fun i _ => by ring
  · exact absurd h (ne_of_gt (hw p hp))

theorem projOut_add (T : ℕ → MapStack) (Q : ℕ → ℕ → ℝ) (b d : MapStack) (c p : ℕ) :
    projOut P nm nt Q T (fun k q => b k q + d k q) c p = projOut P nm nt Q T b c p + projOut P nm nt Q T d c p := by
  unfold projOut projCoef
  have h : ∀ i ∈ range nt, tab nt (fun i => ∑ j ∈ range nt, Q i j * P.dot nm (T j) (fun k q => b k q + d k q)) i * T i c p =
      tab nt (fun i => ∑ j ∈ range nt, Q i j * P.dot nm (T j) b) i * T i c p +
      tab nt (fun i => ∑ j ∈ range nt, Q i j * P.dot nm (T j) d) i * T i c p := by
    intro i hi
    rw [tab_of_lt _ (mem_range.1 hi), tab_of_lt _ (mem_range.1 hi), tab_of_lt _ (mem_range.1 hi), ← add_mul,
      ← sum_add_distrib]
    congr 1
    exact sum_congr rfl fun j _ => by rw [dot_add]; ring
  rw [sum_congr rfl h, sum_add_distrib]
  ring

end

/-! ## The constructor -/

/-- What the constructor checks for calls with templates. -/
structure Checks (env : FieldEnv) (a : FieldArgs) (m : StackArg) (t : TemplArg) : Prop where
  iso22 : a.mask22 = none
  iso12 : a.mask12 = none
  lmax : ¬ (a.lmax.getD env.lmaxDefault ≤ 0 ∨ a.lmaxMask.getD env.lmaxDefault ≤ 0)
  beam : ¬ ((a.beam.map fun b => (b.1 : ℤ)).any (fun n => n ≤ a.lmax.getD env.lmaxDefault)) = true
  ncomp : m.ncomp = 1 ∨ m.ncomp = 2
  spin : ∃ s, pickSpin m.ncomp a.spin = .ok s
  npix : m.npix = env.pix.npix
  ntemp : t.ntemp ≠ 0
  tcomp : t.ncomp = m.ncomp
  tpix : t.npix = env.pix.npix

/-- The spin of the field made from `n` maps. -/
def spinOf (n : ℕ) (s : Option ℤ) : ℤ := s.getD (if n = 1 then 0 else 2)

theorem pickSpin_ok {n : ℕ} {s : Option ℤ} {r : ℤ} (h : pickSpin n s = .ok r) (hn : n = 1 ∨ n = 2) :
    r = spinOf n s ∧ (if r = 0 then 1 else 2) = n := by
  unfold pickSpin at h
  unfold spinOf
  rcases s with _ | s
  · simp only [Outcome.ok.injEq] at h
    subst h
    rcases hn with rfl | rfl <;> simp
  · simp only at h
    split_ifs at h with h1
    simp only [Outcome.ok.injEq] at h
    subst h
    refine ⟨rfl, ?_⟩
    rcases hn with rfl | rfl
    · by_cases h0 : s = 0
      · simp [h0]
      · exact absurd (Or.inl ⟨h0, rfl⟩) h1
    · by_cases h0 : s = 0
      · exact absurd (Or.inr ⟨h0, by norm_num⟩) h1
      · simp [h0]

/-- The object made from the result of the deprojection. -/
noncomputable def templateField (env : FieldEnv) (a : FieldArgs) (m : StackArg) (t : TemplArg) (d : Deproj) : FieldObj :=
  let lmax := a.lmax.getD env.lmaxDefault
  let spin := spinOf m.ncomp a.spin
  ⟨a.lite, a.mask, none, lmax.toNat, (a.lmaxMask.getD env.lmaxDefault).toNat, a.beam.getD ((lmax + 1).toNat, fun _ => 1),
    a.nIter, a.nIterMask, false, false, spin, m.ncomp, some (env.sht.map2almO spin lmax.toNat a.nIter d.maps),
    if a.lite then none else some d.maps, t.ntemp, if a.lite then none else some (a.templ t),
    if a.lite then none else some fun i => env.sht.map2alm spin lmax.toNat a.nIter (a.templ t i), some d.iM, some d.alphas⟩

theorem maskedInput_eq (a : FieldArgs) (nc np : ℕ) (val : MapStack) :
    (if a.maskedOnInput = true then tab2 nc np val else fun c p => tab2 nc np val c p * a.mask p) =
      maskedInput a nc np val := by
  funext c p
  unfold maskedInput tab2
  by_cases h : c < nc ∧ p < np <;> by_cases h' : a.maskedOnInput = true <;> simp [h, h']

/-- The object before the maps are looked at. -/
def templateObj (env : FieldEnv) (a : FieldArgs) (m : StackArg) : FieldObj :=
  baseObj a (a.mask, none) (a.lmax.getD env.lmaxDefault) (a.lmaxMask.getD env.lmaxDefault) (spinOf m.ncomp a.spin)

theorem fieldChecks_eq (env : FieldEnv) {a : FieldArgs} {m : StackArg} {t : TemplArg} (hc : TemplateCall a m t)
    (hk : Checks env a m t) : fieldChecks env a = .ok (.withMaps (templateObj env a m) (tab2 m.ncomp m.npix m.val)
      (some { t with val := fun i => tab2 t.ncomp t.npix (t.val i) })) := by
  obtain ⟨s, hs⟩ := hk.spin
  obtain ⟨hs1, hs2⟩ := pickSpin_ok hs hk.ncomp
  have hnc : ¬ (m.ncomp ≠ 1 ∧ m.ncomp ≠ 2) := by have := hk.ncomp; omega
  unfold fieldChecks fieldMasks
  simp only [hk.iso22, hk.iso12, Outcome.bind]
  rw [if_neg hk.lmax, if_neg hk.beam]
  simp only [hc.maps]
  unfold mapChecks
  rw [if_neg hnc]
  simp only [hs, Outcome.bind, hc.templates]
  rw [if_neg (by rw [hk.npix]; simp), if_neg (by rw [hc.noE, hc.noB]; simp), if_neg (by simp), if_neg (by simp), if_neg (by simp),
    if_neg hk.ntemp, if_neg (by rw [hk.tcomp]; simp), if_neg (by rw [hk.tpix]; simp), hs1]
  rfl

theorem nmtField_eq (env : FieldEnv) {a : FieldArgs} {m : StackArg} {t : TemplArg} (hc : TemplateCall a m t)
    (hk : Checks env a m t) : ∃ (tU : ℕ → MapStack) (mU : MapStack), nmtField env a =
      (deproject env m.ncomp t.ntemp a.tol (a.templ t) (maskedInput a m.ncomp m.npix m.val) tU mU).bind fun d =>
        .ok (templateField env a m t d) := by
  obtain ⟨s, hs⟩ := hk.spin
  obtain ⟨hs1, hs2⟩ := pickSpin_ok hs hk.ncomp
  refine ⟨fun i => (if a.maskedOnInput then unmask a.mask else id) (tab2 t.ncomp t.npix (t.val i)),
    (if a.maskedOnInput then unmask a.mask else id) (tab2 m.ncomp m.npix m.val), ?_⟩
  unfold nmtField
  rw [fieldChecks_eq env hc hk]
  simp only [Outcome.bind]
  unfold fieldFinish
  have h0 : (templateObj env a m).mask = a.mask := rfl
  have h0' : (templateObj env a m).maskA = none := rfl
  have h0'' : (templateObj env a m).nmaps = m.ncomp := by rw [← hs2, hs1]; rfl
  have h1 : (fun i => if a.maskedOnInput = true then tab2 t.ncomp t.npix (t.val i) else
      fun c p => tab2 t.ncomp t.npix (t.val i) c p * a.mask p) = a.templ t := by
    funext i; exact maskedInput_eq a _ _ _
  simp only [hc.noE, hc.noB, Bool.or_self, Option.map_some, Option.getD_some, Option.isSome_some, true_and, Bool.false_eq_true,
    if_false, applyMask, h0, h0', h0'']
  rw [h1, maskedInput_eq a m.ncomp m.npix m.val]
  generalize deproject env m.ncomp t.ntemp a.tol (a.templ t) (maskedInput a m.ncomp m.npix m.val) _ _ = D
  have hn : (if spinOf m.ncomp a.spin = 0 then 1 else 2) = m.ncomp := by rw [← hs1]; exact hs2
  rcases D with d | e | _
  · by_cases hl : a.lite = true
    · simp only [hl, not_true, if_false, Outcome.bind, if_true, templateField, templateObj, baseObj, hc.noE, hc.noB, hn]
    · simp only [hl, not_false_iff, if_true, if_false, Outcome.bind, templateField, templateObj, baseObj, hc.noE, hc.noB, hn,
        Bool.false_eq_true, fun i => congrFun h1 i]
  · rfl
  · rfl

theorem mapChecks_ok {npix : ℕ} {a : FieldArgs} {aniso : Bool} {o : ℤ → FieldObj} {m : StackArg} {t : TemplArg} {pl : FieldPlan}
    (ht : a.templates = some t) (h : mapChecks npix a aniso o m = .ok pl) :
    aniso = false ∧ (m.ncomp = 1 ∨ m.ncomp = 2) ∧ (∃ s, pickSpin m.ncomp a.spin = .ok s) ∧ m.npix = npix ∧ t.ntemp ≠ 0 ∧
      t.ncomp = m.ncomp ∧ t.npix = npix := by
  unfold mapChecks at h
  rcases hs : pickSpin m.ncomp a.spin with s | e | _
  · rw [hs] at h
    simp only [Outcome.bind, ht] at h
    split_ifs at h with h1 h2 h3 h4 h5 h6 h7 h8 h9
    refine ⟨?_, by omega, ⟨s, rfl⟩, by omega, h7, by omega, by omega⟩
    by_contra hne
    exact h6 ⟨by simpa using hne, rfl⟩
  · rw [hs] at h; simp only [Outcome.bind] at h; split_ifs at h
  · rw [hs] at h; simp only [Outcome.bind] at h; split_ifs at h

theorem fieldMasks_iso {P : Pix} {a : FieldArgs} {mk : (ℕ → ℝ) × Option (ℕ → ℕ → ℝ)} (hm : fieldMasks P a = .ok mk)
    (hiso : mk.2.isSome = false) : a.mask22 = none ∧ a.mask12 = none := by
  unfold fieldMasks at hm
  rcases h22 : a.mask22 with _ | m22 <;> rcases h12 : a.mask12 with _ | m12 <;> rw [h22, h12] at hm
  · exact ⟨rfl, rfl⟩
  · simp at hm
  · simp at hm
  · simp only at hm
    split_ifs at hm
    simp only [Outcome.ok.injEq] at hm
    rw [← hm] at hiso
    simp at hiso

theorem checks_of_ok (env : FieldEnv) {a : FieldArgs} {m : StackArg} {t : TemplArg} {f : FieldObj} (hc : TemplateCall a m t)
    (h : nmtField env a = .ok f) : Checks env a m t := by
  unfold nmtField at h
  rcases hf : fieldChecks env a with pl | e | _
  · unfold fieldChecks at hf
    rcases hm : fieldMasks env.pix a with mk | e | _
    · rw [hm] at hf
      simp only [Outcome.bind, hc.maps] at hf
      split_ifs at hf with h1 h2
      obtain ⟨g1, g2, g3, g4, g5, g6, g7⟩ := mapChecks_ok hc.templates hf
      obtain ⟨i1, i2⟩ := fieldMasks_iso hm g1
      exact ⟨i1, i2, h1, h2, g2, g3, g4, g5, g6, g7⟩
    · rw [hm] at hf; simp [Outcome.bind] at hf
    · rw [hm] at hf; simp [Outcome.bind] at hf
  · rw [hf] at h; simp [Outcome.bind] at h
  · rw [hf] at h; simp [Outcome.bind] at h

theorem deproject_some {env : FieldEnv} {nm nt : ℕ} {tol : ℝ} {T : ℕ → MapStack} {b : MapStack} {tU : ℕ → MapStack}
    {mU : MapStack} {d : Deproj} {Q : ℕ → ℕ → ℝ} (h : deproject env nm nt tol T b tU mU = .ok d) (hd : d.iM = some Q) :
    pinvh env.eig env.inv nt (tab2 nt nt (gram env.pix nm T)) tol = .ok (some Q) ∧
    d.maps = some (projOut env.pix nm nt Q T b) ∧ d.alphas = some (projCoef env.pix nm nt Q T b) := by
  have hg : (tab2 nt nt fun i j => env.pix.dot nm (T j) (T i)) = tab2 nt nt (gram env.pix nm T) :=
    tab2_congr fun i j _ _ => dot_comm _ _
  unfold deproject at h
  simp only [hg] at h
  rcases hp : pinvh env.eig env.inv nt (tab2 nt nt (gram env.pix nm T)) tol with o | e | _
  · rw [hp] at h
    rcases o with _ | Q'
    · simp only [Outcome.bind, Outcome.ok.injEq] at h
      rw [← h] at hd; simp at hd
    · simp only [Outcome.bind, Outcome.ok.injEq] at h
      rw [← h] at hd
      simp only [Option.some.injEq] at hd
      subst hd
      rw [← h]
      exact ⟨rfl, rfl, rfl⟩
  · rw [hp] at h; simp [Outcome.bind] at h
  · rw [hp] at h; simp [Outcome.bind] at h

theorem deproject_of_pinv {env : FieldEnv} {nm nt : ℕ} {tol : ℝ} {T : ℕ → MapStack} (b : MapStack) (tU : ℕ → MapStack)
    (mU : MapStack) {Q : ℕ → ℕ → ℝ} (h : pinvh env.eig env.inv nt (tab2 nt nt (gram env.pix nm T)) tol = .ok (some Q)) :
    ∃ u, deproject env nm nt tol T b tU mU =
      .ok ⟨some (projOut env.pix nm nt Q T b), u, some Q, some (projCoef env.pix nm nt Q T b)⟩ := by
  have hg : (tab2 nt nt fun i j => env.pix.dot nm (T j) (T i)) = tab2 nt nt (gram env.pix nm T) :=
    tab2_congr fun i j _ _ => dot_comm _ _
  unfold deproject
  simp only [hg]
  rw [h]
  exact ⟨_, rfl⟩

/-- What a successful call with a finite pseudo-inverse returned. -/
theorem templ_call_ok (env : FieldEnv) {a : FieldArgs} {m : StackArg} {t : TemplArg} {f : FieldObj} {Q : ℕ → ℕ → ℝ}
    (hc : TemplateCall a m t) (h : nmtField env a = .ok f) (hQ : f.iM = some (some Q)) :
    Checks env a m t ∧ pinvh env.eig env.inv t.ntemp (tab2 t.ntemp t.ntemp (gram env.pix m.ncomp (a.templ t))) a.tol = .ok (some Q) ∧
    ∃ u al, f = templateField env a m t
      ⟨some (projOut env.pix m.ncomp t.ntemp Q (a.templ t) (maskedInput a m.ncomp m.npix m.val)), u, some Q, al⟩ := by
  have hk := checks_of_ok env hc h
  obtain ⟨tU, mU, he⟩ := nmtField_eq env hc hk
  rw [h] at he
  rcases hd : deproject env m.ncomp t.ntemp a.tol (a.templ t) (maskedInput a m.ncomp m.npix m.val) tU mU with d | e | _
  · rw [hd] at he
    simp only [Outcome.bind, Outcome.ok.injEq] at he
    have hiM : d.iM = some Q := by
      have : f.iM = some d.iM := by rw [he]; rfl
      rw [hQ] at this
      exact (Option.some.inj this).symm
    obtain ⟨h1, h2, _⟩ := deproject_some hd hiM
    refine ⟨hk, h1, d.mapsU, d.alphas, ?_⟩
    rw [he, ← h2, ← hiM]
  · rw [hd] at he; simp [Outcome.bind] at he
  · rw [hd] at he; simp [Outcome.bind] at he

theorem templ_call_of (env : FieldEnv) {a : FieldArgs} {m : StackArg} {t : TemplArg} {Q : ℕ → ℕ → ℝ}
    (hc : TemplateCall a m t) (hk : Checks env a m t)
    (hp : pinvh env.eig env.inv t.ntemp (tab2 t.ntemp t.ntemp (gram env.pix m.ncomp (a.templ t))) a.tol = .ok (some Q)) :
    ∃ u al, nmtField env a = .ok (templateField env a m t
      ⟨some (projOut env.pix m.ncomp t.ntemp Q (a.templ t) (maskedInput a m.ncomp m.npix m.val)), u, some Q, al⟩) := by
  obtain ⟨tU, mU, he⟩ := nmtField_eq env hc hk
  obtain ⟨u, hd⟩ := deproject_of_pinv (maskedInput a m.ncomp m.npix m.val) tU mU hp
  exact ⟨u, _, by rw [he, hd]; rfl⟩

end NaMaster
