import Verif.Span.Lemmas

/-! # The deprojection bias of fields with templates of the same span -/

namespace NaMaster

open Finset

theorem popOk_iter {S : Sht} {n : ℕ} (n' : ℕ) {f : FieldObj} (h : ∀ m, purifyIfNeeded S n f m = .ok (pop S n f m)) (m : MapStack) :
    purifyIfNeeded S n' f m = .ok (pop S n' f m) := by
  have h := h m
  unfold pop
  unfold purifyIfNeeded purify at h ⊢
  by_cases hp : (f.pureE || f.pureB) = true
  · simp only [hp, if_true, true_and] at h ⊢
    by_cases hl : f.lmax ≠ f.lmaxMask
    · rw [if_pos hl] at h; cases h
    · simp only [if_neg hl, Outcome.bind]
  · simp only [hp, Bool.false_eq_true, if_false]

theorem mixCl_lin (k n' : ℕ) (cl : ℕ → ℕ → ℕ → ℝ) (x y : ℝ) (a b : Alms) :
    mixCl k n' cl (x • a + y • b) = x • mixCl k n' cl a + y • mixCl k n' cl b := by
  funext n l m
  simp only [mixCl, Pi.add_apply, Pi.smul_apply, Complex.real_smul, almxfl]
  split_ifs
  · rw [mul_sum, mul_sum, ← sum_add_distrib]
    exact sum_congr rfl fun i _ => by ring
  · simp

theorem biasMap_lin {S : Sht} (h : S.AnalysisLinear) (hu : S.UnpadLinear) (nIter : ℕ) (f g : FieldObj) (cl : ℕ → ℕ → ℕ → ℝ) (x y : ℝ) (t1 t2 : MapStack) :
    biasMap S nIter f g cl (x • t1 + y • t2) = x • biasMap S nIter f g cl t1 + y • biasMap S nIter f g cl t2 := by
  unfold biasMap Sht.alm2map
  have hm : (fun c p => (x • t1 + y • t2) c p * f.mask p) = x • (fun c p => t1 c p * f.mask p) + y • fun c p => t2 c p * f.mask p := by
    funext c p
    simp only [Pi.add_apply, Pi.smul_apply, smul_eq_mul]; ring
  obtain ⟨A, B, Z, hL⟩ := h g.spin g.lmax
  obtain ⟨Y, hY⟩ := hu
  rw [hm, map2alm_lin h, mixCl_lin, hL.synth, hY, map_add, map_smul, map_smul, map_add, map_smul, map_smul]

/-- `biasMap` as a linear map. -/
noncomputable def biasL {S : Sht} (h : S.AnalysisLinear) (hu : S.UnpadLinear) (nIter : ℕ) (f g : FieldObj) (cl : ℕ → ℕ → ℕ → ℝ) : MapStack →ₗ[ℝ] MapStack where
  toFun := biasMap S nIter f g cl
  map_add' x y := by simpa using biasMap_lin h hu nIter f g cl 1 1 x y
  map_smul' r x := by simpa using biasMap_lin h hu nIter f g cl r 0 x 0

/-- The spectrum as a bilinear form. -/
noncomputable def clB (a b l : ℕ) : Alms →ₗ[ℝ] Alms →ₗ[ℝ] ℝ :=
  LinearMap.mk₂ ℝ (fun x y => alm2cl (x a) (y b) l) (fun x x' y => alm2cl_add_left (x a) (x' a) (y b) l)
    (fun r x y => alm2cl_smul_left r (x a) (y b) l) (fun x y y' => alm2cl_add_right (x a) (y b) (y' b) l)
    fun r x y => alm2cl_smul_right r (x a) (y b) l

/-- The templates of a field object. -/
def FieldObj.tmpl (f : FieldObj) : ℕ → MapStack := f.temp.getD fun _ _ _ => 0

/-- The coefficients of the templates of a field object. -/
def FieldObj.tmplAlm (f : FieldObj) : ℕ → Alms := f.almTemp.getD fun _ _ _ _ => 0

/-- Two field objects that have the same attributes and remove the same from every map. -/
structure SpanAlike (env : FieldEnv) (nIter : ℕ) (f f' : FieldObj) (Q Q' : ℕ → ℕ → ℝ) : Prop where
  spin : f'.spin = f.spin
  nmaps : f'.nmaps = f.nmaps
  mask : f'.mask = f.mask
  lmax : f'.lmax = f.lmax
  lite : f'.lite = f.lite
  pur : purifyIfNeeded env.sht nIter f' = purifyIfNeeded env.sht nIter f
  ok : ∀ m, purifyIfNeeded env.sht nIter f m = .ok (pop env.sht nIter f m)
  iM : f.iM.getD (some fun _ _ => 0) = some Q
  iM' : f'.iM.getD (some fun _ _ => 0) = some Q'
  symm : ∀ i j, Q i j = Q j i
  symm' : ∀ i j, Q' i j = Q' j i
  shape : ∀ j < f.nTemp, f.tmpl j = tab2 f.nmaps env.pix.npix (f.tmpl j)
  shape' : ∀ j < f'.nTemp, f'.tmpl j = tab2 f.nmaps env.pix.npix (f'.tmpl j)
  removal : ∀ x, removed env.pix f.nmaps f.nTemp Q f.tmpl f.tmplAlm x = removed env.pix f.nmaps f'.nTemp Q' f'.tmpl f'.tmplAlm x

/-- The value of the deprojection bias. -/
noncomputable def biasVal (env : FieldEnv) (nIter : ℕ) (f1 f2 : FieldObj) (cl : ℕ → ℕ → ℕ → ℝ) (Q1 Q2 : ℕ → ℕ → ℝ) (a b l : ℕ) : ℝ :=
  biasSums env nIter f1 f2 cl f1.tmpl f2.tmpl f1.tmplAlm f2.tmplAlm Q1 Q2
    (fun j => pop env.sht nIter f2 (biasMap env.sht nIter f1 f2 cl (f1.tmpl j)))
    (fun j => pop env.sht nIter f1 (biasMap env.sht nIter f2 f1 (fun n m => cl m n) (f2.tmpl j))) a b l

theorem bias_eq (env : FieldEnv) (nIter : ℕ) (compat : Bool) (f1 f2 : FieldObj) (guess : Arr2 ℝ) (Q1 Q2 : ℕ → ℕ → ℝ)
    (o1 : ∀ m, purifyIfNeeded env.sht nIter f1 m = .ok (pop env.sht nIter f1 m)) (o2 : ∀ m, purifyIfNeeded env.sht nIter f2 m = .ok (pop env.sht nIter f2 m))
    (q1 : f1.iM.getD (some fun _ _ => 0) = some Q1) (q2 : f2.iM.getD (some fun _ _ => 0) = some Q2) :
    deprojectionBias env nIter compat f1 f2 guess =
      if compat = false then .raises .value
      else if guess.rows ≠ f1.nmaps * f2.nmaps ∨ guess.cols ≠ f1.lmax + 1 then .raises .value
      else if f1.lite ∨ f2.lite then .raises .value
      else .ok (some (Arr2.of (f1.nmaps * f2.nmaps) (f1.lmax + 1) fun k l =>
        biasVal env nIter f1 f2 (fun m n l => guess.val (m * f2.nmaps + n) l) Q1 Q2 (k / f2.nmaps) (k % f2.nmaps) l)) := by
  unfold deprojectionBias
  obtain ⟨r1, hr1, v1⟩ := purifyIfNeededAll_val env.sht nIter f2 o2
    (fun j => biasMap env.sht nIter f1 f2 (fun m n l => guess.val (m * f2.nmaps + n) l) (f1.tmpl j)) f1.nTemp
  obtain ⟨r2, hr2, v2⟩ := purifyIfNeededAll_val env.sht nIter f1 o1
    (fun j => biasMap env.sht nIter f2 f1 (fun n m l => guess.val (m * f2.nmaps + n) l) (f2.tmpl j)) f2.nTemp
  dsimp only
  unfold FieldObj.tmpl at hr1 hr2
  rw [hr1, hr2, q1, q2]
  simp only [Outcome.bind]
  split_ifs
  · rfl
  · rfl
  · rfl
  · congr 3
    funext k l
    unfold biasVal biasSums
    dsimp only
    have e1 : ∀ i ∈ range f1.nTemp, ∀ j ∈ range f1.nTemp, Q1 i j * alm2cl ((f1.almTemp.getD fun _ _ _ _ => 0) i (k / f2.nmaps)) (r1 j (k % f2.nmaps)) l =
        Q1 i j * alm2cl (f1.tmplAlm i (k / f2.nmaps)) (pop env.sht nIter f2 (biasMap env.sht nIter f1 f2 (fun m n l => guess.val (m * f2.nmaps + n) l) (f1.tmpl j)) (k % f2.nmaps)) l :=
      fun i _ j hj => by rw [v1 j (mem_range.1 hj)]; rfl
    have e2 : ∀ i ∈ range f2.nTemp, ∀ j ∈ range f2.nTemp, Q2 i j * alm2cl (r2 j (k / f2.nmaps)) ((f2.almTemp.getD fun _ _ _ _ => 0) i (k % f2.nmaps)) l =
        Q2 i j * alm2cl (pop env.sht nIter f1 (biasMap env.sht nIter f2 f1 (fun n m l => guess.val (m * f2.nmaps + n) l) (f2.tmpl j)) (k / f2.nmaps)) (f2.tmplAlm i (k % f2.nmaps)) l :=
      fun i _ j hj => by rw [v2 j (mem_range.1 hj)]; rfl
    rw [sum_congr rfl fun i hi => sum_congr rfl fun j hj => e1 i hi j hj, sum_congr rfl fun i hi => sum_congr rfl fun j hj => e2 i hi j hj]
    rfl

theorem biasVal_same (env : FieldEnv) (hlin : env.sht.AnalysisLinear) (hun : env.sht.UnpadLinear) (hw : ∀ p < env.pix.npix, 0 < env.pix.w p) (nIter : ℕ)
    {f1 f2 f1' f2' : FieldObj} {Q1 Q2 Q1' Q2' : ℕ → ℕ → ℝ} (h1 : SpanAlike env nIter f1 f1' Q1 Q1') (h2 : SpanAlike env nIter f2 f2' Q2 Q2')
    (cl : ℕ → ℕ → ℕ → ℝ) (a b l : ℕ) : biasVal env nIter f1' f2' cl Q1' Q2' a b l = biasVal env nIter f1 f2 cl Q1 Q2 a b l := by
  have p1 : pop env.sht nIter f1' = pop env.sht nIter f1 := pop_congr _ _ _ _ h1.pur
  have p2 : pop env.sht nIter f2' = pop env.sht nIter f2 := pop_congr _ _ _ _ h2.pur
  have m1 : ∀ c, biasMap env.sht nIter f1' f2' c = biasMap env.sht nIter f1 f2 c := by
    intro c; funext t; unfold biasMap; rw [h1.spin, h1.nmaps, h1.mask, h1.lmax, h2.spin, h2.nmaps, h2.lmax]
  have m2 : ∀ c, biasMap env.sht nIter f2' f1' c = biasMap env.sht nIter f2 f1 c := by
    intro c; funext t; unfold biasMap; rw [h2.spin, h2.nmaps, h2.mask, h2.lmax, h1.spin, h1.nmaps, h1.lmax]
  unfold biasVal biasSums
  dsimp only
  rw [p1, p2, m1, m2, h1.nmaps, h1.mask]
  have t1 := sums_same hw h1.shape h1.shape' h1.removal
    ((clB a b l).compl₂ (popL hlin nIter f2 ∘ₗ biasL hlin hun nIter f1 f2 cl))
  have t2 := sums_same hw h2.shape h2.shape' h2.removal
    ((clB a b l).flip.compl₂ (popL hlin nIter f1 ∘ₗ biasL hlin hun nIter f2 f1 fun n m => cl m n))
  -- products of the templates
  let D : MapStack →ₗ[ℝ] MapStack →ₗ[ℝ] ℝ := LinearMap.mk₂ ℝ (fun x y => env.pix.dot f1.nmaps x fun c p =>
      biasMap env.sht nIter f2 f1 (fun n m => cl m n) y c p * f1.mask p)
    (fun x x' y => by rw [dot_comm, show x + x' = fun c p => x c p + x' c p from rfl, dot_add, dot_comm, dot_comm _ x'])
    (fun r x y => by
      simp only [Pix.dot, Pi.smul_apply, smul_eq_mul, mul_sum]
      exact sum_congr rfl fun c _ => sum_congr rfl fun p _ => by ring)
    (fun x y y' => by
      have e := (biasL hlin hun nIter f2 f1 fun n m => cl m n).map_add y y'
      change biasMap env.sht nIter f2 f1 (fun n m => cl m n) (y + y') = _ + _ at e
      rw [e, ← dot_add]
      congr 1
      funext c p
      exact add_mul _ _ _)
    (fun r x y => by
      have e := (biasL hlin hun nIter f2 f1 fun n m => cl m n).map_smul r y
      change biasMap env.sht nIter f2 f1 (fun n m => cl m n) (r • y) = r • _ at e
      rw [e]
      simp only [Pix.dot, Pi.smul_apply, smul_eq_mul, mul_sum]
      exact sum_congr rfl fun c _ => sum_congr rfl fun p _ => by
        change x c p * (r * biasMap env.sht nIter f2 f1 (fun n m => cl m n) y c p * f1.mask p) * env.pix.w p = _
        ring)
  have t3 : ∀ (y : MapStack) (v : Alms), ∑ i ∈ range f1.nTemp, ∑ j ∈ range f1.nTemp, Q1 i j * (D (f1.tmpl j) y * alm2cl (f1.tmplAlm i a) (v b) l) =
      ∑ i ∈ range f1'.nTemp, ∑ j ∈ range f1'.nTemp, Q1' i j * (D (f1'.tmpl j) y * alm2cl (f1'.tmplAlm i a) (v b) l) := by
    intro y v
    have h := sums_same hw h1.shape h1.shape' h1.removal ((LinearMap.mul ℝ ℝ).compl₁₂ ((clB a b l).flip v) (D.flip y))
    have e : ∀ x t, ((LinearMap.mul ℝ ℝ).compl₁₂ ((clB a b l).flip v) (D.flip y)) x t = D t y * alm2cl (x a) (v b) l := by
      intro x t
      rw [mul_comm]; rfl
    simpa only [e] using h
  have t4 : ∀ (x : MapStack) (u : Alms), ∑ s ∈ range f2.nTemp, ∑ r ∈ range f2.nTemp, Q2 s r * (D x (f2.tmpl r) * alm2cl (u a) (f2.tmplAlm s b) l) =
      ∑ s ∈ range f2'.nTemp, ∑ r ∈ range f2'.nTemp, Q2' s r * (D x (f2'.tmpl r) * alm2cl (u a) (f2'.tmplAlm s b) l) := by
    intro x u
    have h := sums_same hw h2.shape h2.shape' h2.removal ((LinearMap.mul ℝ ℝ).compl₁₂ ((clB a b l) u) (D x))
    have e : ∀ v t, ((LinearMap.mul ℝ ℝ).compl₁₂ ((clB a b l) u) (D x)) v t = D x t * alm2cl (u a) (v b) l := by
      intro v t
      rw [mul_comm]; rfl
    simpa only [e] using h
  have r4 : ∀ (n1 n2 : ℕ) (R1 R2 : ℕ → ℕ → ℝ) (X Y : ℕ → MapStack) (U V : ℕ → Alms), (∀ i j, R2 i j = R2 j i) →
      ∑ i ∈ range n1, ∑ j ∈ range n1, ∑ r ∈ range n2, ∑ s ∈ range n2, R1 i j * R2 r s * D (X j) (Y r) * alm2cl (U i a) (V s b) l =
      ∑ i ∈ range n1, ∑ j ∈ range n1, R1 i j * ∑ s ∈ range n2, ∑ r ∈ range n2, R2 s r * (D (X j) (Y r) * alm2cl (U i a) (V s b) l) := by
    intro n1 n2 R1 R2 X Y U V hR
    refine sum_congr rfl fun i _ => sum_congr rfl fun j _ => ?_
    rw [sum_comm, mul_sum]
    refine sum_congr rfl fun s _ => ?_
    rw [mul_sum]
    exact sum_congr rfl fun r _ => by rw [hR r s]; ring
  have r4' : ∀ (n1 n2 : ℕ) (R1 R2 : ℕ → ℕ → ℝ) (X Y : ℕ → MapStack) (U V : ℕ → Alms),
      ∑ i ∈ range n1, ∑ j ∈ range n1, R1 i j * ∑ s ∈ range n2, ∑ r ∈ range n2, R2 s r * (D (X j) (Y r) * alm2cl (U i a) (V s b) l) =
      ∑ s ∈ range n2, ∑ r ∈ range n2, R2 s r * ∑ i ∈ range n1, ∑ j ∈ range n1, R1 i j * (D (X j) (Y r) * alm2cl (U i a) (V s b) l) := by
    intro n1 n2 R1 R2 X Y U V
    simp only [mul_sum]
    rw [sum_congr rfl fun i (_ : i ∈ range n1) => sum_comm, sum_comm]
    refine sum_congr rfl fun s _ => ?_
    rw [sum_congr rfl fun i (_ : i ∈ range n1) => sum_congr rfl fun j (_ : j ∈ range n1) => rfl]
    rw [sum_congr rfl fun i (_ : i ∈ range n1) => sum_comm, sum_comm]
    exact sum_congr rfl fun r _ => sum_congr rfl fun i _ => sum_congr rfl fun j _ => by ring
  have q1 : ∑ i ∈ range f1'.nTemp, ∑ j ∈ range f1'.nTemp, ∑ r ∈ range f2'.nTemp, ∑ s ∈ range f2'.nTemp,
        Q1' i j * Q2' r s * D (f1'.tmpl j) (f2'.tmpl r) * alm2cl (f1'.tmplAlm i a) (f2'.tmplAlm s b) l =
      ∑ i ∈ range f1.nTemp, ∑ j ∈ range f1.nTemp, ∑ r ∈ range f2.nTemp, ∑ s ∈ range f2.nTemp,
        Q1 i j * Q2 r s * D (f1.tmpl j) (f2.tmpl r) * alm2cl (f1.tmplAlm i a) (f2.tmplAlm s b) l := by
    rw [r4 _ _ _ _ _ _ _ _ h2.symm', r4 _ _ _ _ _ _ _ _ h2.symm]
    rw [sum_congr rfl fun i (_ : i ∈ range f1'.nTemp) => sum_congr rfl fun j (_ : j ∈ range f1'.nTemp) => by
      rw [← t4 (f1'.tmpl j) (f1'.tmplAlm i)]]
    rw [r4', r4']
    exact sum_congr rfl fun s _ => sum_congr rfl fun r _ => by rw [t3]
  refine congrArg₂ (· + ·) (congrArg₂ (· - ·) (congrArg₂ (· - ·) rfl t1.symm) t2.symm) q1

theorem bias_same (env : FieldEnv) (hlin : env.sht.AnalysisLinear) (hun : env.sht.UnpadLinear) (hw : ∀ p < env.pix.npix, 0 < env.pix.w p) (nIter : ℕ)
    {f1 f2 f1' f2' : FieldObj} {Q1 Q2 Q1' Q2' : ℕ → ℕ → ℝ} (h1 : SpanAlike env nIter f1 f1' Q1 Q1') (h2 : SpanAlike env nIter f2 f2' Q2 Q2')
    (compat : Bool) (guess : Arr2 ℝ) : deprojectionBias env nIter compat f1' f2' guess = deprojectionBias env nIter compat f1 f2 guess := by
  have o : ∀ {f f' : FieldObj} {Q Q' : ℕ → ℕ → ℝ}, SpanAlike env nIter f f' Q Q' → ∀ m, purifyIfNeeded env.sht nIter f' m = .ok (pop env.sht nIter f' m) := by
    intro f f' Q Q' h m
    rw [h.pur, h.ok, pop_congr _ _ _ _ h.pur]
  rw [bias_eq env nIter compat f1' f2' guess Q1' Q2' (o h1) (o h2) h1.iM' h2.iM', bias_eq env nIter compat f1 f2 guess Q1 Q2 h1.ok h2.ok h1.iM h2.iM]
  rw [h1.nmaps, h2.nmaps, h1.lmax, h1.lite, h2.lite]
  congr 6
  funext k l
  rw [biasVal_same env hlin hun hw nIter h1 h2]

end NaMaster
