import Verif.Field.Deproj

/-!
# C36: template deprojection is exact
-/

namespace NaMaster

open Finset

/-- C36: the maps of a field are orthogonal to each of its (masked) templates, for every number of templates, linearly
dependent or not, if the computed pseudo-inverse of the matrix of their scalar products is a generalised inverse. -/
theorem C36_orthogonal (env : FieldEnv) (hw : ∀ p < env.pix.npix, 0 ≤ env.pix.w p) (a : FieldArgs) (m : StackArg)
    (t : TemplArg) (f : FieldObj) (Q : ℕ → ℕ → ℝ) (hc : TemplateCall a m t) (hl : a.lite = false)
    (h : nmtField env a = .ok f) (hf : f.iM = some (some Q)) (hQ : GenInv t.ntemp (gram env.pix m.ncomp (a.templ t)) Q) :
    ∃ r, f.maps = some (some r) ∧ ∀ i < t.ntemp, env.pix.dot m.ncomp r (a.templ t i) = 0 := by
  obtain ⟨hk, hp, u, al, he⟩ := templ_call_ok env hc h hf
  refine ⟨projOut env.pix m.ncomp t.ntemp Q (a.templ t) (maskedInput a m.ncomp m.npix m.val), ?_,
    fun i hi => projOut_orth hw _ _ hQ _ i hi⟩
  rw [he]
  simp [templateField, hl]

/-- C36: adding any linear combination of the templates to the input map does not change the maps or the harmonic
coefficients of the field. -/
theorem C36_invariant (env : FieldEnv) (hw : ∀ p < env.pix.npix, 0 < env.pix.w p) (a : FieldArgs) (m : StackArg)
    (t : TemplArg) (f : FieldObj) (Q : ℕ → ℕ → ℝ) (hc : TemplateCall a m t)
    (h : nmtField env a = .ok f) (hf : f.iM = some (some Q)) (hQ : GenInv t.ntemp (gram env.pix m.ncomp (a.templ t)) Q)
    (z : ℕ → ℝ) :
    ∃ f', nmtField env { a with maps := some { m with val := fun c p => m.val c p + combine t.ntemp z t.val c p } } = .ok f' ∧
      f'.maps = f.maps ∧ f'.alm = f.alm := by
  obtain ⟨hk, hp, u, al, he⟩ := templ_call_ok env hc h hf
  set m' : StackArg := { m with val := fun c p => m.val c p + combine t.ntemp z t.val c p } with hm'
  set a' : FieldArgs := { a with maps := some m' } with ha'
  have hc' : TemplateCall a' m' t := ⟨rfl, hc.templates, hc.noE, hc.noB⟩
  have hk' : Checks env a' m' t := ⟨hk.iso22, hk.iso12, hk.lmax, hk.beam, hk.ncomp, hk.spin, hk.npix, hk.ntemp, hk.tcomp, hk.tpix⟩
  have hp' : pinvh env.eig env.inv t.ntemp (tab2 t.ntemp t.ntemp (gram env.pix m'.ncomp (a'.templ t))) a'.tol = .ok (some Q) := hp
  obtain ⟨u', al', hok⟩ := templ_call_of env hc' hk' hp'
  have hmap : projOut env.pix m'.ncomp t.ntemp Q (a'.templ t) (maskedInput a' m'.ncomp m'.npix m'.val) =
      projOut env.pix m.ncomp t.ntemp Q (a.templ t) (maskedInput a m.ncomp m.npix m.val) := by
    have hT : a'.templ t = a.templ t := rfl
    have hin : maskedInput a' m'.ncomp m'.npix m'.val = fun c p =>
        maskedInput a m.ncomp m.npix m.val c p + combine t.ntemp z (a.templ t) c p := by
      funext c p
      unfold maskedInput combine FieldArgs.templ maskedInput
      simp only [hm', ha', combine, hk.tcomp, hk.tpix, hk.npix]
      by_cases hcp : c < m.ncomp ∧ p < env.pix.npix
      · simp only [hcp, if_true, and_self]
        by_cases hmi : a.maskedOnInput = true
        · simp only [hmi, if_true]
        · simp only [hmi, if_false, Bool.false_eq_true, add_mul, sum_mul]
          congr 1
          exact sum_congr rfl fun i _ => by ring
      · simp [hcp]
    rw [hT, hin]
    funext c p
    have hnc : m'.ncomp = m.ncomp := rfl
    rw [hnc, projOut_add]
    by_cases hcp : c < m.ncomp ∧ p < env.pix.npix
    · rw [projOut_span hw _ _ hQ z c p hcp.1 hcp.2, add_zero]
    · have hz : ∀ i, a.templ t i c p = 0 := by
        intro i
        unfold FieldArgs.templ maskedInput
        rw [hk.tcomp, hk.tpix, if_neg hcp]
      have : projOut env.pix m.ncomp t.ntemp Q (a.templ t) (combine t.ntemp z (a.templ t)) c p = 0 := by
        unfold projOut combine
        simp [hz]
      rw [this, add_zero]
  refine ⟨_, hok, ?_, ?_⟩
  · rw [he, hmap]; rfl
  · rw [he, hmap]; rfl

/-- C36: a map that is a linear combination of the templates gives zero maps. -/
theorem C36_span (env : FieldEnv) (hw : ∀ p < env.pix.npix, 0 < env.pix.w p) (a : FieldArgs) (m : StackArg)
    (t : TemplArg) (f : FieldObj) (Q : ℕ → ℕ → ℝ) (hc : TemplateCall a m t) (hl : a.lite = false)
    (h : nmtField env a = .ok f) (hf : f.iM = some (some Q)) (hQ : GenInv t.ntemp (gram env.pix m.ncomp (a.templ t)) Q)
    (z : ℕ → ℝ) (hz : ∀ c < m.ncomp, ∀ p < m.npix, m.val c p = combine t.ntemp z t.val c p) :
    f.maps = some (some fun _ _ => 0) := by
  obtain ⟨hk, hp, u, al, he⟩ := templ_call_ok env hc h hf
  have hin : maskedInput a m.ncomp m.npix m.val = combine t.ntemp z (a.templ t) := by
    funext c p
    unfold maskedInput combine FieldArgs.templ maskedInput
    rw [hk.tcomp, hk.tpix, hk.npix]
    by_cases hcp : c < m.ncomp ∧ p < env.pix.npix
    · simp only [hcp, if_true, and_self]
      rw [hz c hcp.1 p (by rw [hk.npix]; exact hcp.2)]
      unfold combine
      by_cases hmi : a.maskedOnInput = true
      · simp only [hmi, if_true]
      · simp only [hmi, if_false, Bool.false_eq_true, sum_mul]
        exact sum_congr rfl fun i _ => by ring
    · simp [hcp]
  have hmap : projOut env.pix m.ncomp t.ntemp Q (a.templ t) (maskedInput a m.ncomp m.npix m.val) = fun _ _ => 0 := by
    rw [hin]
    funext c p
    by_cases hcp : c < m.ncomp ∧ p < env.pix.npix
    · exact projOut_span hw _ _ hQ z c p hcp.1 hcp.2
    · have hz : ∀ i, a.templ t i c p = 0 := by
        intro i
        unfold FieldArgs.templ maskedInput
        rw [hk.tcomp, hk.tpix, if_neg hcp]
      unfold projOut combine
      simp [hz]
  rw [he]
  simp only [templateField, hl, hmap]
  rfl

/-- C36: deprojecting the same (masked) templates from the maps of the field again changes nothing. -/
theorem C36_idempotent (env : FieldEnv) (hw : ∀ p < env.pix.npix, 0 ≤ env.pix.w p) (a : FieldArgs) (m : StackArg)
    (t : TemplArg) (f : FieldObj) (Q : ℕ → ℕ → ℝ) (hc : TemplateCall a m t) (hl : a.lite = false)
    (h : nmtField env a = .ok f) (hf : f.iM = some (some Q)) (hQ : GenInv t.ntemp (gram env.pix m.ncomp (a.templ t)) Q) :
    ∃ r f', f.maps = some (some r) ∧
      nmtField env { a with maps := some { m with val := r }, templates := some { t with val := a.templ t }, maskedOnInput := true } =
        .ok f' ∧ f'.maps = f.maps ∧ f'.alm = f.alm := by
  obtain ⟨hk, hp, u, al, he⟩ := templ_call_ok env hc h hf
  set r := projOut env.pix m.ncomp t.ntemp Q (a.templ t) (maskedInput a m.ncomp m.npix m.val) with hr
  set m' : StackArg := { m with val := r } with hm'
  set t' : TemplArg := { t with val := a.templ t } with ht'
  set a' : FieldArgs := { a with maps := some m', templates := some t', maskedOnInput := true } with ha'
  have hc' : TemplateCall a' m' t' := ⟨rfl, rfl, hc.noE, hc.noB⟩
  have hk' : Checks env a' m' t' := ⟨hk.iso22, hk.iso12, hk.lmax, hk.beam, hk.ncomp, hk.spin, hk.npix, hk.ntemp, hk.tcomp, hk.tpix⟩
  have hT : a'.templ t' = a.templ t := by
    funext i c p
    change (if c < t.ncomp ∧ p < t.npix then (if true = true then a.templ t i c p else _) else 0) = a.templ t i c p
    unfold FieldArgs.templ maskedInput
    by_cases hcp : c < t.ncomp ∧ p < t.npix
    · simp [hcp]
    · simp [hcp]
  have hp' : pinvh env.eig env.inv t'.ntemp (tab2 t'.ntemp t'.ntemp (gram env.pix m'.ncomp (a'.templ t'))) a'.tol = .ok (some Q) := by
    rw [hT]; exact hp
  obtain ⟨u', al', hok⟩ := templ_call_of env hc' hk' hp'
  have hin : maskedInput a' m'.ncomp m'.npix m'.val = r := by
    funext c p
    change (if c < m.ncomp ∧ p < m.npix then (if true = true then r c p else _) else 0) = r c p
    by_cases hcp : c < m.ncomp ∧ p < m.npix
    · simp [hcp]
    · rw [if_neg hcp, hr]
      unfold projOut FieldArgs.templ maskedInput
      rw [hk.npix] at hcp ⊢
      simp [hk.tcomp, hk.tpix, hcp]
  have hmap : projOut env.pix m'.ncomp t'.ntemp Q (a'.templ t') (maskedInput a' m'.ncomp m'.npix m'.val) = r := by
    rw [hT, hin]
    funext c p
    change r c p - ∑ i ∈ range t.ntemp, projCoef env.pix m.ncomp t.ntemp Q (a.templ t) r i * a.templ t i c p = r c p
    have h0 : ∀ i ∈ range t.ntemp, projCoef env.pix m.ncomp t.ntemp Q (a.templ t) r i * a.templ t i c p = 0 := by
      intro i hi
      unfold projCoef
      rw [tab_of_lt _ (mem_range.1 hi), sum_eq_zero fun j hj => by
        rw [dot_comm, hr, projOut_orth hw _ _ hQ _ j (mem_range.1 hj), mul_zero], zero_mul]
    rw [sum_eq_zero h0, sub_zero]
  refine ⟨r, _, ?_, hok, ?_, ?_⟩
  · rw [he]; simp only [templateField, hl]; rfl
  · rw [he, hmap]; rfl
  · rw [he, hmap]; rfl

/-! ## Which pseudo-inverse is computed -/

theorem gram_psd (P : Pix) (hw : ∀ p < P.npix, 0 ≤ P.w p) (nm nt : ℕ) (T : ℕ → MapStack) :
    PsdMat nt (tab2 nt nt (gram P nm T)) := by
  intro x
  have h : ∑ i ∈ range nt, ∑ j ∈ range nt, x i * tab2 nt nt (gram P nm T) i j * x j =
      P.dot nm (combine nt x T) (combine nt x T) := by
    rw [dot_combine]
    refine sum_congr rfl fun i hi => ?_
    rw [dot_comm, dot_combine, mul_sum]
    refine sum_congr rfl fun j hj => ?_
    rw [tab2_of_lt _ (mem_range.1 hi) (mem_range.1 hj)]
    unfold gram
    rw [dot_comm (T i)]; ring
  rw [h]
  unfold Pix.dot
  exact sum_nonneg fun c _ => sum_nonneg fun p hp => mul_nonneg (mul_self_nonneg _) (hw p (mem_range.1 hp))

theorem gram_tab_symm (P : Pix) (nm nt : ℕ) (T : ℕ → MapStack) : SymmMat nt (tab2 nt nt (gram P nm T)) := by
  intro i hi j hj
  rw [tab2_of_lt _ hi hj, tab2_of_lt _ hj hi, gram_symm]

/-- If every eigenvalue is zero or at least the tolerance times the largest one, the computed matrix is a generalised
inverse. -/
theorem pinv_gen_inv (E : Eigen) (hE : E.Correct) (inv : ℕ → (ℕ → ℕ → ℝ) → Option (ℕ → ℕ → ℝ)) (n : ℕ) (M : ℕ → ℕ → ℝ)
    (tol top : ℝ) (hs : SymmMat n M) (hp : PsdMat n M) (hne : ∃ i < n, ∃ j < n, M i j ≠ 0) (h0 : 0 < tol)
    (ht : TopEigenvalue n M top) (hgap : ∀ lam x, EigenPair n M lam x → lam = 0 ∨ tol * top ≤ lam) :
    ∃ Q, pinvh E inv n M tol = .ok (some Q) ∧ pinvC E n M tol = some Q ∧ GenInv n M Q := by
  obtain ⟨e1, e2⟩ := pinv_eq hE hs hp hne inv h0 ht
  refine ⟨_, e1, e2, ?_⟩
  intro i hi j hj
  have hcol : ∑ k ∈ range n, ∑ l ∈ range n, M i k * spectralMat E n M
      (fun k => if tol * top ≤ E.vals n M k then 1 / E.vals n M k else 0) k l * M l j =
      mulVecN n M (mulVecN n (spectralMat E n M fun k => if tol * top ≤ E.vals n M k then 1 / E.vals n M k else 0)
        (fun l => M l j)) i := by
    unfold mulVecN
    refine sum_congr rfl fun k _ => ?_
    rw [mul_sum]
    exact sum_congr rfl fun l _ => by ring
  have htop := top_pos hE hs hp hne ht
  have hc : ∀ k < n, eigCoef E n M (fun l => M l j) k = E.vals n M k * E.vecs n M j k := by
    intro k hk
    unfold eigCoef
    rw [← (hE n M hs).1 k hk j hj]
    exact sum_congr rfl fun l hl => by simp only [hs l (mem_range.1 hl) j hj]; ring
  rw [show (∑ k ∈ range n, ∑ l ∈ range n, M i k * spectralMat E n M
      (fun k => if tol * top ≤ E.vals n M k then 1 / E.vals n M k else 0) k l * M l j) = _ from hcol]
  rw [mulVecN_congr (y := fun i => ∑ k ∈ range n, E.vecs n M i k * (if E.vals n M k = 0 then 0 else E.vecs n M j k))]
  · unfold mulVecN
    simp only [mul_sum]
    rw [sum_comm, spectral_sum hE hs i j hi hj]
    refine sum_congr rfl fun k hk => ?_
    have h1 : ∑ x ∈ range n, M i x * (E.vecs n M x k * if E.vals n M k = 0 then 0 else E.vecs n M j k) =
        (∑ x ∈ range n, M i x * E.vecs n M x k) * if E.vals n M k = 0 then 0 else E.vecs n M j k := by
      rw [sum_mul]; exact sum_congr rfl fun x _ => by ring
    rw [h1, (hE n M hs).1 k (mem_range.1 hk) i hi]
    by_cases hz : E.vals n M k = 0
    · simp [hz]
    · simp [hz]
  · intro l hl
    rw [spectralMat_mul _ _ l hl]
    refine sum_congr rfl fun k hk => ?_
    rw [hc k (mem_range.1 hk)]
    rcases hgap _ _ (column_pair hE hs k (mem_range.1 hk)) with hz | hz
    · simp [hz]
    · have hpos : 0 < E.vals n M k := lt_of_lt_of_le (by positivity) hz
      rw [if_pos hz, if_neg (ne_of_gt hpos)]
      field_simp

/-- The scalar products of the templates are separated by the tolerance: the matrix is not zero and its eigenvalues are zero
or at least the tolerance times the largest one. -/
def Separated (P : Pix) (nm nt : ℕ) (T : ℕ → MapStack) (tol : ℝ) : Prop :=
  (∃ i < nt, ∃ j < nt, gram P nm T i j ≠ 0) ∧
  ∃ top, TopEigenvalue nt (gram P nm T) top ∧ ∀ lam x, EigenPair nt (gram P nm T) lam x → lam = 0 ∨ tol * top ≤ lam

theorem eigenPair_tab {n : ℕ} {M : ℕ → ℕ → ℝ} {lam : ℝ} {x : ℕ → ℝ} : EigenPair n (tab2 n n M) lam x ↔ EigenPair n M lam x := by
  unfold EigenPair
  have h : ∀ i < n, mulVecN n (tab2 n n M) x i = mulVecN n M x i := fun i hi =>
    sum_congr rfl fun j hj => by rw [tab2_of_lt _ hi (mem_range.1 hj)]
  constructor
  · rintro ⟨h1, h2⟩; exact ⟨h1, fun i hi => by rw [← h i hi]; exact h2 i hi⟩
  · rintro ⟨h1, h2⟩; exact ⟨h1, fun i hi => by rw [h i hi]; exact h2 i hi⟩

theorem genInv_tab {n : ℕ} {M Q : ℕ → ℕ → ℝ} (h : GenInv n (tab2 n n M) Q) : GenInv n M Q := by
  intro i hi j hj
  have := h i hi j hj
  rw [tab2_of_lt _ hi hj] at this
  rw [← this]
  exact sum_congr rfl fun k hk => sum_congr rfl fun l hl => by
    rw [tab2_of_lt _ hi (mem_range.1 hk), tab2_of_lt _ (mem_range.1 hl) hj]

/-- C36: the constructor does compute a generalised inverse, so that the preceding theorems apply, if the tolerance is
positive and the scalar products of the templates are separated by it. -/
theorem C36_pinv_partial (env : FieldEnv) (hE : env.eig.Correct) (hw : ∀ p < env.pix.npix, 0 ≤ env.pix.w p) (a : FieldArgs)
    (m : StackArg) (t : TemplArg) (hc : TemplateCall a m t) (hk : Checks env a m t) (h0 : 0 < a.tol)
    (hsep : Separated env.pix m.ncomp t.ntemp (a.templ t) a.tol) :
    ∃ f Q, nmtField env a = .ok f ∧ f.iM = some (some Q) ∧ GenInv t.ntemp (gram env.pix m.ncomp (a.templ t)) Q := by
  obtain ⟨⟨i, hi, j, hj, hne⟩, top, ht, hgap⟩ := hsep
  obtain ⟨Q, hp, _, hQ⟩ := pinv_gen_inv env.eig hE env.inv t.ntemp (tab2 t.ntemp t.ntemp (gram env.pix m.ncomp (a.templ t))) a.tol top
    (gram_tab_symm _ _ _ _) (gram_psd _ hw _ _ _) ⟨i, hi, j, hj, by rw [tab2_of_lt _ hi hj]; exact hne⟩ h0
    (by unfold TopEigenvalue at ht ⊢; simpa only [eigenPair_tab] using ht)
    (fun lam x hx => hgap lam x (eigenPair_tab.1 hx))
  obtain ⟨u, al, hok⟩ := templ_call_of env hc hk hp
  exact ⟨_, Q, hok, rfl, genInv_tab hQ⟩

/-- C36 fails for templates that vanish inside the mask: the maps of the field are not finite, whatever the map. -/
theorem C36_zero_template_wrong (env : FieldEnv) (hE : env.eig.Correct) (a : FieldArgs) (m : StackArg) (t : TemplArg)
    (hc : TemplateCall a m t) (hk : Checks env a m t) (hl : a.lite = false) (h0 : 0 < a.tol)
    (hz : ∀ i < t.ntemp, ∀ c < m.ncomp, ∀ p < m.npix, a.templ t i c p = 0) :
    ∃ f, nmtField env a = .ok f ∧ f.maps = some none ∧ f.alm = some none := by
  obtain ⟨tU, mU, he⟩ := nmtField_eq env hc hk
  have hM : (tab2 t.ntemp t.ntemp fun i j => env.pix.dot m.ncomp (a.templ t j) (a.templ t i)) = fun _ _ => 0 := by
    funext i j
    unfold tab2
    split_ifs with h
    · unfold Pix.dot
      refine sum_eq_zero fun c hc => sum_eq_zero fun p hp => ?_
      rw [hz i h.1 c (mem_range.1 hc) p (by rw [hk.npix]; exact mem_range.1 hp)]
      ring
    · rfl
  have hd : deproject env m.ncomp t.ntemp a.tol (a.templ t) (maskedInput a m.ncomp m.npix m.val) tU mU =
      .ok ⟨none, none, none, none⟩ := by
    unfold deproject
    simp only [hM]
    rw [(C37_zero_wrong env.eig hE env.inv t.ntemp (Nat.pos_of_ne_zero hk.ntemp) a.tol h0).1]
    rfl
  refine ⟨_, by rw [he, hd]; rfl, ?_, ?_⟩
  · simp [templateField, hl]
  · rfl

/-! ## Examples -/

/-- Two pixels of weight one, transforms that return zero. -/
noncomputable def twoPix : FieldEnv where
  pix := ⟨2, fun _ => 1⟩
  sht := ⟨fun _ _ _ _ _ _ => 0, fun _ _ _ _ _ => 0, id, id⟩
  eig := exactEigen
  inv := fun _ _ => none
  lmaxDefault := 5

/-- A scalar map with two pixels. -/
def twoMap (x y : ℝ) : MapStack := fun _ p => if p = 0 then x else y

/-- A call with a scalar map and two templates, mask `(1, 1/2)` and the default tolerance. -/
noncomputable def twoArgs (m : StackArg) (t : TemplArg) : FieldArgs where
  mask := fun p => if p = 0 then 1 else 1 / 2
  mask22 := none
  mask12 := none
  maps := some m
  spin := none
  templates := some t
  beam := none
  purifyE := false
  purifyB := false
  nIter := 3
  nIterMask := 3
  tol := 1e-10
  lmax := none
  lmaxMask := none
  maskedOnInput := false
  lite := false

theorem twoChecks (v : MapStack) (T : ℕ → MapStack) : TemplateCall (twoArgs ⟨1, 2, v⟩ ⟨2, 1, 2, T⟩) ⟨1, 2, v⟩ ⟨2, 1, 2, T⟩ ∧
    Checks twoPix (twoArgs ⟨1, 2, v⟩ ⟨2, 1, 2, T⟩) ⟨1, 2, v⟩ ⟨2, 1, 2, T⟩ := by
  refine ⟨⟨rfl, rfl, rfl, rfl⟩, ⟨rfl, rfl, ?_, ?_, Or.inl rfl, ⟨0, rfl⟩, rfl, ?_, rfl, rfl⟩⟩
  · simp [twoArgs, twoPix]
  · simp [twoArgs]
  · simp

/-- Two linearly dependent templates. -/
def depTempl : ℕ → MapStack := fun i => if i = 0 then twoMap 1 0 else twoMap 2 0

theorem dep_separated : Separated twoPix.pix 1 2 ((twoArgs ⟨1, 2, twoMap 3 4⟩ ⟨2, 1, 2, depTempl⟩).templ ⟨2, 1, 2, depTempl⟩) 1e-10 := by
  have hg : ∀ i j, i < 2 → j < 2 → gram twoPix.pix 1 ((twoArgs ⟨1, 2, twoMap 3 4⟩ ⟨2, 1, 2, depTempl⟩).templ ⟨2, 1, 2, depTempl⟩) i j =
      (if i = 0 then 1 else 2) * (if j = 0 then 1 else 2) := by
    intro i j hi hj
    interval_cases i <;> interval_cases j <;>
      norm_num [gram, Pix.dot, FieldArgs.templ, maskedInput, twoArgs, depTempl, twoMap, twoPix, sum_range_succ]
  have hpair : ∀ lam x, EigenPair 2 (gram twoPix.pix 1 ((twoArgs ⟨1, 2, twoMap 3 4⟩ ⟨2, 1, 2, depTempl⟩).templ ⟨2, 1, 2, depTempl⟩)) lam x →
      lam = 0 ∨ lam = 5 := by
    rintro lam x ⟨⟨i, hi, hne⟩, he⟩
    have h0 := he 0 (by norm_num)
    have h1 := he 1 (by norm_num)
    simp only [mulVecN, sum_range_succ, range_zero, sum_empty, hg _ _ (show (0:ℕ) < 2 by norm_num) (show (0:ℕ) < 2 by norm_num),
      hg _ _ (show (0:ℕ) < 2 by norm_num) (show (1:ℕ) < 2 by norm_num), hg _ _ (show (1:ℕ) < 2 by norm_num) (show (0:ℕ) < 2 by norm_num),
      hg _ _ (show (1:ℕ) < 2 by norm_num) (show (1:ℕ) < 2 by norm_num)] at h0 h1
    norm_num at h0 h1
    have h2 : lam * (2 * x 0 - x 1) = 0 := by linarith
    rcases mul_eq_zero.1 h2 with h | h
    · exact Or.inl h
    · right
      have hx1 : x 1 = 2 * x 0 := by linarith
      have hx0 : x 0 ≠ 0 := by
        interval_cases i
        · exact hne
        · rw [hx1] at hne; intro h; rw [h] at hne; simp at hne
      have h3 : (5 - lam) * x 0 = 0 := by rw [hx1] at h0; linarith
      rcases mul_eq_zero.1 h3 with h | h
      · linarith
      · exact absurd h hx0
  refine ⟨⟨0, by norm_num, 0, by norm_num, by rw [hg 0 0 (by norm_num) (by norm_num)]; norm_num⟩, 5, ⟨⟨fun i => if i = 0 then 1 else 2,
    ⟨0, by norm_num, by norm_num⟩, fun i hi => ?_⟩, ?_⟩, ?_⟩
  · simp only [mulVecN, sum_range_succ, range_zero, sum_empty, hg i 0 hi (by norm_num), hg i 1 hi (by norm_num)]
    interval_cases i <;> norm_num
  · rintro lam ⟨x, hx⟩
    rcases hpair lam x hx with h | h <;> rw [h] <;> norm_num
  · intro lam x hx
    rcases hpair lam x hx with h | h
    · exact Or.inl h
    · right; rw [h]; norm_num

/-- The hypotheses of the C36 theorems are met by a field with two linearly dependent templates. -/
example : ∃ f Q r, nmtField twoPix (twoArgs ⟨1, 2, twoMap 3 4⟩ ⟨2, 1, 2, depTempl⟩) = .ok f ∧ f.iM = some (some Q) ∧
    f.maps = some (some r) ∧ r 0 0 = 0 := by
  obtain ⟨hc, hk⟩ := twoChecks (twoMap 3 4) depTempl
  obtain ⟨f, Q, h1, h2, h3⟩ := C36_pinv_partial twoPix exactEigen_correct (fun _ _ => zero_le_one) _ _ _ hc hk
    (by norm_num [twoArgs]) dep_separated
  obtain ⟨r, h4, h5⟩ := C36_orthogonal twoPix (fun _ _ => zero_le_one) _ _ _ f Q hc rfl h1 h2 h3
  refine ⟨f, Q, r, h1, h2, h4, ?_⟩
  have h := h5 0 (by norm_num)
  norm_num [Pix.dot, FieldArgs.templ, maskedInput, twoArgs, depTempl, twoMap, twoPix, sum_range_succ] at h
  exact h

/-- A template of amplitude one, and one in units a million times larger, in different pixels. -/
noncomputable def smallTempl : ℕ → MapStack := fun i => if i = 0 then twoMap 1 0 else twoMap 0 2e-6

theorem small_gram (i j : ℕ) (hi : i < 2) (hj : j < 2) : gram twoPix.pix 1
      ((twoArgs ⟨1, 2, twoMap 0 1⟩ ⟨2, 1, 2, smallTempl⟩).templ ⟨2, 1, 2, smallTempl⟩) i j =
    if i = j then (if i = 0 then 1 else 1e-12) else 0 := by
  interval_cases i <;> interval_cases j <;>
    norm_num [gram, Pix.dot, FieldArgs.templ, maskedInput, twoArgs, smallTempl, twoMap, twoPix, sum_range_succ]

/-- C36 fails for templates of very different amplitudes and the default tolerance: here the two templates are linearly
independent and the map is a multiple of the second one, but it is not changed at all. -/
theorem C36_small_template_wrong : ∃ (env : FieldEnv) (a : FieldArgs) (m : StackArg) (t : TemplArg) (f : FieldObj) (r : MapStack),
    env.eig.Correct ∧ (∀ p < env.pix.npix, 0 < env.pix.w p) ∧ TemplateCall a m t ∧ a.tol = 1e-10 ∧
    nmtField env a = .ok f ∧ f.maps = some (some r) ∧
    (∀ z, (∀ c < 1, ∀ p < 2, combine t.ntemp z (a.templ t) c p = 0) → ∀ i < t.ntemp, z i = 0) ∧
    (∀ c < 1, ∀ p < 2, m.val c p = combine t.ntemp (fun i => if i = 1 then 500000 else 0) t.val c p) ∧
    (∀ c < 1, ∀ p < 2, r c p = maskedInput a m.ncomp m.npix m.val c p) ∧ r 0 1 = 1 / 2 := by
  obtain ⟨hc, hk⟩ := twoChecks (twoMap 0 1) smallTempl
  set a := twoArgs ⟨1, 2, twoMap 0 1⟩ ⟨2, 1, 2, smallTempl⟩ with ha
  set t : TemplArg := ⟨2, 1, 2, smallTempl⟩ with ht
  have hpair : ∀ lam x, EigenPair 2 (tab2 2 2 (gram twoPix.pix 1 (a.templ t))) lam x → lam ≤ 1 := by
    intro lam x hx
    rw [eigenPair_tab] at hx
    obtain ⟨⟨i, hi, hne⟩, he⟩ := hx
    have h := he i hi
    rw [show mulVecN 2 (gram twoPix.pix 1 (a.templ t)) x i = (if i = 0 then 1 else 1e-12) * x i by
      simp only [mulVecN, sum_range_succ, range_zero, sum_empty]
      rw [small_gram i 0 hi (by norm_num), small_gram i 1 hi (by norm_num)]
      interval_cases i <;> norm_num] at h
    have h' := mul_right_cancel₀ hne h
    rw [← h']
    split_ifs <;> norm_num
  have htop : TopEigenvalue 2 (tab2 2 2 (gram twoPix.pix 1 (a.templ t))) 1 := by
    refine ⟨⟨fun i => if i = 0 then 1 else 0, ?_⟩, fun lam ⟨x, hx⟩ => hpair lam x hx⟩
    rw [eigenPair_tab]
    refine ⟨⟨0, by norm_num, by norm_num⟩, fun i hi => ?_⟩
    simp only [mulVecN, sum_range_succ, range_zero, sum_empty]
    rw [small_gram i 0 hi (by norm_num), small_gram i 1 hi (by norm_num)]
    interval_cases i <;> norm_num
  have hsmall : EigenPair 2 (tab2 2 2 (gram twoPix.pix 1 (a.templ t))) 1e-12 (fun i => if i = 1 then 1 else 0) := by
    rw [eigenPair_tab]
    refine ⟨⟨1, by norm_num, by norm_num⟩, fun i hi => ?_⟩
    simp only [mulVecN, sum_range_succ, range_zero, sum_empty]
    rw [small_gram i 0 hi (by norm_num), small_gram i 1 hi (by norm_num)]
    interval_cases i <;> norm_num
  obtain ⟨Q, hp, _, _, _, hq⟩ := C37_pinv_partial exactEigen exactEigen_correct (fun _ _ => none) 2
    (tab2 2 2 (gram twoPix.pix 1 (a.templ t))) 1e-10 1 (gram_tab_symm _ _ _ _) (gram_psd _ (fun _ _ => zero_le_one) _ _ _)
    ⟨0, by norm_num, 0, by norm_num, by
      rw [tab2_of_lt _ (by norm_num) (by norm_num), small_gram 0 0 (by norm_num) (by norm_num)]; norm_num⟩
    (by norm_num) (by norm_num) htop
  have hQ1 : ∀ i < 2, Q i 1 = 0 := by
    intro i hi
    have h := (hq _ _ hsmall).2 (by norm_num) i hi
    simpa [mulVecN, sum_range_succ] using h
  obtain ⟨u, al, hok⟩ := templ_call_of twoPix hc hk hp
  have hdot : twoPix.pix.dot 1 (a.templ t 0) (maskedInput a 1 2 (twoMap 0 1)) = 0 := by
    norm_num [Pix.dot, FieldArgs.templ, maskedInput, twoArgs, smallTempl, twoMap, twoPix, sum_range_succ, ha, ht]
  have hout : ∀ c p, projOut twoPix.pix 1 2 Q (a.templ t) (maskedInput a 1 2 (twoMap 0 1)) c p =
      maskedInput a 1 2 (twoMap 0 1) c p := by
    intro c p
    unfold projOut
    rw [sub_eq_self]
    refine sum_eq_zero fun i hi => ?_
    unfold projCoef
    rw [tab_of_lt _ (mem_range.1 hi)]
    simp only [sum_range_succ, range_zero, sum_empty]
    rw [hdot, hQ1 i (mem_range.1 hi)]
    ring
  refine ⟨twoPix, a, ⟨1, 2, twoMap 0 1⟩, t, _, _, exactEigen_correct, fun _ _ => one_pos, hc, rfl, hok, rfl, ?_, ?_,
    fun c _ p _ => hout c p, ?_⟩
  · intro z hz i hi
    have h0 := hz 0 (by norm_num) 0 (by norm_num)
    have h1 := hz 0 (by norm_num) 1 (by norm_num)
    norm_num [combine, FieldArgs.templ, maskedInput, twoArgs, smallTempl, twoMap, sum_range_succ, ha, ht] at h0 h1
    change i < 2 at hi
    interval_cases i
    · exact h0
    · exact h1
  · intro c hc p hp
    interval_cases c
    interval_cases p <;> norm_num [combine, smallTempl, twoMap, sum_range_succ, ht]
  · have := hout 0 1
    rw [this]
    norm_num [maskedInput, twoArgs, twoMap, ha]

/-- The hypotheses of `C36_zero_template_wrong` are met by templates that vanish in both pixels. -/
example : ∃ f, nmtField twoPix (twoArgs ⟨1, 2, twoMap 3 4⟩ ⟨2, 1, 2, fun _ _ _ => 0⟩) = .ok f ∧ f.maps = some none :=  by
  obtain ⟨hc, hk⟩ := twoChecks (twoMap 3 4) (fun _ _ _ => 0)
  obtain ⟨f, h1, h2, _⟩ := C36_zero_template_wrong twoPix exactEigen_correct _ _ _ hc hk rfl (by norm_num [twoArgs])
    (fun i _ c _ p _ => by simp [FieldArgs.templ, maskedInput])
  exact ⟨f, h1, h2⟩

end NaMaster
