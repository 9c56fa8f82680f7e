import Verif.Flat.FieldExample
import Verif.Field.DeprojProps

/-! # Property C64: template deprojection of flat-sky fields -/

namespace NaMaster

open Real Finset

/-! ## Specification -/

/-- The maps or a template after multiplication with the mask, unless they were masked on input. -/
def FlatFieldArgs.masked (a : FlatFieldArgs) (m : FlatMaps) : FlatMaps := fun c p =>
  if a.maskedOnInput then m c p else m c p * a.mask p

/-- A linear combination of templates. -/
def combineFlat (nt : ℕ) (z : ℕ → ℝ) (T : ℕ → FlatMaps) : FlatMaps := fun c p => ∑ i ∈ range nt, z i * T i c p

/-- The integral over the patch of the scalar product of two stacks of maps. -/
noncomputable def flatIntegral (fs : FlatInfo) (nm : ℕ) (a b : FlatMaps) : ℝ :=
  (∑ c ∈ range nm, ∑ p ∈ fs.modes, a c p * b c p) * (fs.lx * fs.ly / (fs.nx * fs.ny))

/-- The matrix of the scalar products of the masked templates. -/
noncomputable def FlatFieldArgs.gram (a : FlatFieldArgs) (t : FlatTemplArg) (i j : ℕ) : ℝ :=
  flatIntegral a.fs t.ncomp (a.masked (t.val i)) (a.masked (t.val j))

/-- The eigenvalues of the matrix of the templates are separated by the tolerance: the matrix is not zero and its eigenvalues are
zero or at least the tolerance times the largest one. -/
def FlatFieldArgs.SeparatedTempl (a : FlatFieldArgs) (t : FlatTemplArg) : Prop :=
  (∃ i < t.ntemp, ∃ j < t.ntemp, a.gram t i j ≠ 0) ∧
  ∃ top, TopEigenvalue t.ntemp (a.gram t) top ∧ ∀ lam x, EigenPair t.ntemp (a.gram t) lam x → lam = 0 ∨ a.tol * top ≤ lam

/-- The masked templates are linearly independent. -/
def FlatFieldArgs.IndependentTempl (a : FlatFieldArgs) (t : FlatTemplArg) : Prop :=
  ∀ z : ℕ → ℝ, (∀ c < t.ncomp, ∀ p ∈ a.fs.modes, combineFlat t.ntemp z (fun i => a.masked (t.val i)) c p = 0) → ∀ i < t.ntemp, z i = 0

/-! ## Flat maps as stacks of pixels -/

/-- The pixels of a flat map. -/
noncomputable def flatPix (fs : FlatInfo) : Pix := ⟨fs.nx * fs.ny, fun _ => fs.pixsize⟩

theorem dot_integral (fs : FlatInfo) (nm : ℕ) (a b : FlatMaps) : fs.dot nm a b = flatIntegral fs nm a b := by
  unfold FlatInfo.dot flatIntegral FlatInfo.pixsize
  rw [sum_mul]

theorem flatPix_pos {fs : FlatInfo} (hx : 0 < fs.lx) (hy : 0 < fs.ly) : ∀ p < (flatPix fs).npix, 0 < (flatPix fs).w p := by
  intro p hp
  have hp : p < fs.nx * fs.ny := hp
  have hn : 0 < fs.nx * fs.ny := by omega
  have h1 : (0 : ℝ) < fs.nx := by exact_mod_cast Nat.pos_of_mul_pos_right hn
  have h2 : (0 : ℝ) < fs.ny := by exact_mod_cast Nat.pos_of_mul_pos_left hn
  show 0 < fs.lx * fs.ly / (fs.nx * fs.ny)
  positivity

theorem flatPix_nonneg {fs : FlatInfo} (hx : 0 < fs.lx) (hy : 0 < fs.ly) : ∀ p < (flatPix fs).npix, 0 ≤ (flatPix fs).w p :=
  fun p hp => (flatPix_pos hx hy p hp).le

/-- A stack of flat maps as a stack of arrays. -/
def toStack (fs : FlatInfo) (m : FlatMaps) : MapStack := fun c p => m c (p % fs.nx, p / fs.nx)

theorem sum_pixels (fs : FlatInfo) (g : ℕ × ℕ → ℝ) : ∑ p ∈ fs.modes, g p = ∑ p ∈ range (fs.nx * fs.ny), g (p % fs.nx, p / fs.nx) := by
  symm
  refine Finset.sum_nbij' (fun p => (p % fs.nx, p / fs.nx)) (fun k => k.1 + fs.nx * k.2) ?_ ?_ ?_ ?_ ?_
  · intro p hp
    rw [mem_range] at hp
    have hx : 0 < fs.nx := by
      by_contra h
      have h : fs.nx = 0 := by omega
      rw [h] at hp
      simp at hp
    rw [mem_modes]
    exact ⟨Nat.mod_lt _ hx, (Nat.div_lt_iff_lt_mul hx).mpr (by rw [mul_comm]; exact hp)⟩
  · intro k hk
    rw [mem_modes] at hk
    rw [mem_range]
    calc k.1 + fs.nx * k.2 < fs.nx + fs.nx * k.2 := by omega
      _ = fs.nx * (k.2 + 1) := by ring
      _ ≤ fs.nx * fs.ny := Nat.mul_le_mul_left _ hk.2
  · intro p hp
    exact Nat.mod_add_div p fs.nx
  · intro k hk
    rw [mem_modes] at hk
    have hx : 0 < fs.nx := by omega
    ext
    · simp [Nat.add_mul_mod_self_left, Nat.mod_eq_of_lt hk.1]
    · simp only
      rw [Nat.add_mul_div_left _ _ hx, Nat.div_eq_of_lt hk.1, zero_add]
  · intro p _; rfl

theorem pixel_code {fs : FlatInfo} {p : ℕ × ℕ} (hp : p ∈ fs.modes) :
    p.1 + fs.nx * p.2 < fs.nx * fs.ny ∧ ((p.1 + fs.nx * p.2) % fs.nx, (p.1 + fs.nx * p.2) / fs.nx) = p := by
  rw [mem_modes] at hp
  have hx : 0 < fs.nx := by omega
  refine ⟨?_, ?_⟩
  · calc p.1 + fs.nx * p.2 < fs.nx + fs.nx * p.2 := by omega
      _ = fs.nx * (p.2 + 1) := by ring
      _ ≤ fs.nx * fs.ny := Nat.mul_le_mul_left _ hp.2
  · ext
    · simp [Nat.add_mul_mod_self_left, Nat.mod_eq_of_lt hp.1]
    · simp only
      rw [Nat.add_mul_div_left _ _ hx, Nat.div_eq_of_lt hp.1, zero_add]

theorem flat_dot (fs : FlatInfo) (nm : ℕ) (a b : FlatMaps) :
    fs.dot nm a b = (flatPix fs).dot nm (toStack fs a) (toStack fs b) := by
  unfold FlatInfo.dot Pix.dot flatPix toStack
  refine Finset.sum_congr rfl fun c _ => ?_
  rw [sum_pixels, sum_mul]

theorem removeTempl_proj (fs : FlatInfo) (nm nt : ℕ) (P : ℕ → ℕ → ℝ) (T : ℕ → FlatMaps) (m : FlatMaps) :
    toStack fs (removeTempl nt (flatAlphas fs nm nt P T m) T m) =
      projOut (flatPix fs) nm nt P (fun i => toStack fs (T i)) (toStack fs m) := by
  funext c p
  unfold projOut removeTempl projCoef
  simp only [toStack]
  congr 1
  refine Finset.sum_congr rfl fun i hi => ?_
  rw [tab_of_lt _ (mem_range.mp hi)]
  congr 1
  unfold flatAlphas
  exact Finset.sum_congr rfl fun j _ => by rw [flat_dot]

theorem gram_flat (a : FlatFieldArgs) (t : FlatTemplArg) :
    a.gram t = NaMaster.gram (flatPix a.fs) t.ncomp fun i => toStack a.fs (a.masked (t.val i)) := by
  funext i j
  unfold FlatFieldArgs.gram NaMaster.gram
  rw [← dot_integral, flat_dot]

theorem flatGram_tab (a : FlatFieldArgs) (t : FlatTemplArg) :
    flatGram a.fs t.ncomp t.ntemp (fun i => a.masked (t.val i)) = tab2 t.ntemp t.ntemp (a.gram t) := by
  unfold flatGram
  congr 1
  funext i j
  unfold FlatFieldArgs.gram
  rw [← dot_integral]
  split_ifs
  · rfl
  · rw [flat_dot, flat_dot, dot_comm]

/-! ## The constructor with templates -/

/-- The maps without the mask: divided by it if they were masked on input. -/
noncomputable def FlatFieldArgs.unmasked (a : FlatFieldArgs) (m : FlatMaps) : FlatMaps :=
  if a.maskedOnInput then unmaskFlat a.mask m else m

/-- The coefficients of the templates, given the inverse of their matrix. -/
noncomputable def FlatFieldArgs.coefs (a : FlatFieldArgs) (t : FlatTemplArg) (P : ℕ → ℕ → ℝ) (m : FlatMaps) : ℕ → ℝ :=
  flatAlphas a.fs t.ncomp t.ntemp P (fun i => a.masked (t.val i)) (a.masked m)

/-- The object made by the constructor with templates. -/
theorem flat_templ {env : FlatEnv} {a : FlatFieldArgs} {f : FlatFieldObj} {m : FlatStackArg} {t : FlatTemplArg}
    (hm : a.maps = some m) (ht : a.templates = some t) (h : nmtFieldFlat env a = .ok f) :
    ∃ spin, flatSpin a = .ok spin ∧ m.ncomp = nmapsOf spin ∧ t.ncomp = m.ncomp ∧ 0 < t.ntemp ∧
      ((a.purifyE = true ∨ a.purifyB = true) → spin = 2) ∧
      f.matrixM = some (pinvC env.eig t.ntemp (tab2 t.ntemp t.ntemp (a.gram t)) a.tol) ∧ f.lite = a.lite ∧
      (pinvC env.eig t.ntemp (tab2 t.ntemp t.ntemp (a.gram t)) a.tol = none → f.alms = some none) ∧
      ∀ P, pinvC env.eig t.ntemp (tab2 t.ntemp t.ntemp (a.gram t)) a.tol = some P →
        ((a.purifyE || a.purifyB) = false →
          f.alms = some (some (fsMap2alm a.fs spin (removeTempl t.ntemp (a.coefs t P m.val) (fun i => a.masked (t.val i)) (a.masked m.val)))) ∧
          f.maps = if a.lite then none else
            some (some (removeTempl t.ntemp (a.coefs t P m.val) (fun i => a.masked (t.val i)) (a.masked m.val)))) ∧
        ((a.purifyE || a.purifyB) = true →
          f.alms = some (some (purifyFlat (env.c2r a.fs) a.fs a.purifyE a.purifyB a.mask (a.fs.map2alm a.mask)
            (removeTempl t.ntemp (a.coefs t P m.val) (fun i => a.unmasked (t.val i)) (a.unmasked m.val))).1) ∧
          f.maps = if a.lite then none else some (some (purifyFlat (env.c2r a.fs) a.fs a.purifyE a.purifyB a.mask (a.fs.map2alm a.mask)
            (removeTempl t.ntemp (a.coefs t P m.val) (fun i => a.unmasked (t.val i)) (a.unmasked m.val))).2)) := by
  obtain ⟨spin, beam, hs, hn, hp, hsh, -, -, -, rfl⟩ := flat_ok hm h
  have hsh' : t.ncomp = m.ncomp ∧ 0 < t.ntemp := by
    unfold flatShapes at hsh
    rw [hm, ht] at hsh
    simp only at hsh
    by_cases h1 : m.nx ≠ a.fs.nx ∨ m.ny ≠ a.fs.ny
    · rw [if_pos h1] at hsh; cases hsh
    rw [if_neg h1] at hsh
    by_cases h2 : t.ntemp = 0
    · rw [if_pos h2] at hsh; cases hsh
    rw [if_neg h2] at hsh
    by_cases h3 : t.ncomp ≠ m.ncomp
    · rw [if_pos h3] at hsh; cases hsh
    exact ⟨not_not.mp h3, Nat.pos_of_ne_zero h2⟩
  have hmsk : ∀ x : FlatMaps, (if a.maskedOnInput = true then x else fun c p => x c p * a.mask p) = a.masked x := by
    intro x
    unfold FlatFieldArgs.masked
    by_cases hi : a.maskedOnInput = true <;> simp [hi]
  have hunm : ∀ x : FlatMaps, (if a.maskedOnInput = true then unmaskFlat a.mask else id) x = a.unmasked x := by
    intro x
    unfold FlatFieldArgs.unmasked
    by_cases hi : a.maskedOnInput = true <;> simp [hi]
  have hM : (flatAlloc env ⟨a.fs, spin, a.mask, beam, if a.purifyE then 1 else 0, if a.purifyB then 1 else 0⟩ m.val
        (a.templates.map fun t => (t.ntemp, t.val)) a.tol a.maskedOnInput a.lite).matrixM =
      some (pinvC env.eig t.ntemp (tab2 t.ntemp t.ntemp (a.gram t)) a.tol) := by
    unfold flatAlloc
    simp only [ht, Option.map_some, Option.getD_some, hmsk, gt_iff_lt, hsh'.2, if_true]
    rw [← flatGram_tab, ← hn, hsh'.1]
  have e1 : ((if a.purifyE then 1 else 0 : ℕ) == 1) = a.purifyE := by cases a.purifyE <;> rfl
  have e2 : ((if a.purifyB then 1 else 0 : ℕ) == 1) = a.purifyB := by cases a.purifyB <;> rfl
  refine ⟨spin, hs, hn, hsh'.1, hsh'.2, hp, hM, rfl, fun hN => ?_, fun P hP => ?_⟩
  · have hM' : pinvC env.eig t.ntemp (flatGram a.fs m.ncomp t.ntemp fun i => a.masked (t.val i)) a.tol = none := by
      rw [← hN, ← flatGram_tab, hsh'.1]
    unfold flatAlloc
    simp only [ht, Option.map_some, Option.getD_some, hmsk, gt_iff_lt, hsh'.2, if_true, hM', ← hn]
    split_ifs <;> rfl
  have hM' : pinvC env.eig t.ntemp (flatGram a.fs m.ncomp t.ntemp fun i => a.masked (t.val i)) a.tol = some P := by
    rw [← hP, ← flatGram_tab, hsh'.1]
  refine ⟨fun hpu => ?_, fun hpu => ?_⟩
  · unfold flatAlloc FlatFieldArgs.coefs
    simp only [ht, Option.map_some, Option.getD_some, hmsk, hunm, gt_iff_lt, hsh'.2, if_true, e1, e2, hpu, hM', hsh'.1, ← hn,
      Bool.false_eq_true, if_false]
    refine ⟨?_, ?_⟩ <;> first | rfl | trivial
  · unfold flatAlloc FlatFieldArgs.coefs
    simp only [ht, Option.map_some, Option.getD_some, hmsk, hunm, gt_iff_lt, hsh'.2, if_true, e1, e2, hpu, hM', hsh'.1, ← hn]
    refine ⟨?_, ?_⟩ <;> first | rfl | trivial

/-- A call with other values of the maps is accepted too. -/
theorem flat_ok_of {env : FlatEnv} {a : FlatFieldArgs} {f : FlatFieldObj} {m : FlatStackArg} (hm : a.maps = some m)
    (h : nmtFieldFlat env a = .ok f) (v : FlatMaps) : ∃ f', nmtFieldFlat env { a with maps := some { m with val := v } } = .ok f' := by
  unfold nmtFieldFlat at h ⊢
  by_cases h0 : a.fs.lx < 0 ∨ a.fs.ly < 0
  · rw [if_pos h0] at h; cases h
  rw [if_neg h0] at h
  obtain ⟨spin, hs, h⟩ := bind_eq_ok h
  have hs' : flatSpin { a with maps := some { m with val := v } } = .ok spin := by
    rw [← hs]; unfold flatSpin; simp only [hm]
  by_cases hp : (a.purifyE || a.purifyB) ∧ spin ≠ 2
  · rw [if_pos hp] at h; cases h
  rw [if_neg hp] at h
  obtain ⟨u, hsh, h⟩ := bind_eq_ok h
  have hsh' : flatShapes { a with maps := some { m with val := v } } = .ok u := by
    rw [← hsh]; unfold flatShapes; simp only [hm]; cases a.templates <;> rfl
  by_cases hl : ¬ (a.fs.lx > 0 ∧ a.fs.ly > 0)
  · rw [if_pos hl] at h; cases h
  rw [if_neg hl] at h
  obtain ⟨beam, hb, h⟩ := bind_eq_ok h
  rw [if_neg h0, hs']
  simp only [Outcome.bind]
  rw [if_neg hp, hsh']
  simp only [Outcome.bind]
  rw [if_neg hl, hb]
  exact ⟨_, rfl⟩

theorem flat_genInv {env : FlatEnv} (hE : env.eig.Correct) {a : FlatFieldArgs} {t : FlatTemplArg} (hx : 0 < a.fs.lx)
    (hy : 0 < a.fs.ly) (h0 : 0 < a.tol)
    (hsep : a.SeparatedTempl t) :
    ∃ P, pinvC env.eig t.ntemp (tab2 t.ntemp t.ntemp (a.gram t)) a.tol = some P ∧ GenInv t.ntemp (a.gram t) P := by
  obtain ⟨⟨i, hi, j, hj, hne⟩, top, ht, hgap⟩ := hsep
  obtain ⟨Q, _, hp, hQ⟩ := pinv_gen_inv env.eig hE (fun _ _ => none) t.ntemp (tab2 t.ntemp t.ntemp (a.gram t)) a.tol top
    (by rw [gram_flat]; exact gram_tab_symm _ _ _ _) (by rw [gram_flat]; exact gram_psd _ (flatPix_nonneg hx hy) _ _ _)
    ⟨i, hi, j, hj, by rw [tab2_of_lt _ hi hj]; exact hne⟩ h0
    (by unfold TopEigenvalue at ht ⊢; simpa only [eigenPair_tab] using ht)
    (fun lam x hx => hgap lam x (eigenPair_tab.1 hx))
  exact ⟨Q, hp, genInv_tab hQ⟩

theorem map2alm_congr {fs : FlatInfo} {f g : ℕ × ℕ → ℝ} (h : ∀ p ∈ fs.modes, f p = g p) (k : ℕ × ℕ) : fs.map2alm f k = fs.map2alm g k := by
  unfold FlatInfo.map2alm FlatInfo.dft
  congr 1
  exact Finset.sum_congr rfl fun p hp => by rw [h p hp]

theorem fsMap2alm_congr {fs : FlatInfo} {spin : ℕ} {f g : FlatMaps} (h : ∀ c < nmapsOf spin, ∀ p ∈ fs.modes, f c p = g c p) (X : ℕ)
    (hX : X < nmapsOf spin) (k : ℕ × ℕ) : fsMap2alm fs spin f X k = fsMap2alm fs spin g X k := by
  unfold fsMap2alm
  by_cases hs : spin = 0
  · rw [if_pos hs, if_pos hs]
    exact map2alm_congr (h X hX) k
  · have hn : nmapsOf spin = 2 := by simp [nmapsOf, hs]
    rw [hn] at h
    rw [if_neg hs, if_neg hs]
    unfold FlatInfo.map2almSpin
    rw [map2alm_congr (h 0 (by norm_num)), map2alm_congr (h 1 (by norm_num))]

theorem masked_combine (a : FlatFieldArgs) (m : FlatMaps) (nt : ℕ) (z : ℕ → ℝ) (T : ℕ → FlatMaps) :
    a.masked (fun c p => m c p + combineFlat nt z T c p) = fun c p => a.masked m c p + combineFlat nt z (fun i => a.masked (T i)) c p := by
  funext c p
  unfold FlatFieldArgs.masked combineFlat
  by_cases h : a.maskedOnInput = true
  · simp [h]
  · simp only [h, Bool.false_eq_true, if_false, add_mul, sum_mul]
    congr 1
    exact Finset.sum_congr rfl fun i _ => by ring

theorem unmasked_combine (a : FlatFieldArgs) (m : FlatMaps) (nt : ℕ) (z : ℕ → ℝ) (T : ℕ → FlatMaps) :
    a.unmasked (fun c p => m c p + combineFlat nt z T c p) = fun c p => a.unmasked m c p + combineFlat nt z (fun i => a.unmasked (T i)) c p := by
  funext c p
  unfold FlatFieldArgs.unmasked combineFlat
  by_cases h : a.maskedOnInput = true
  · simp only [h, if_true, unmaskFlat]
    by_cases hp : a.mask p > 0
    · simp only [if_pos hp, add_div, sum_div]
      congr 1
      exact Finset.sum_congr rfl fun i _ => by ring
    · simp [if_neg hp]
  · simp [h]

/-! ## C64 -/

/-- **C64**, in part: the maps of a field that is not purified are orthogonal to every masked template. Missing: templates whose
matrix has nonzero eigenvalues below the tolerance, or vanishes (`C64_zero_template_wrong`). -/
theorem C64_orthogonal_partial (env : FlatEnv) (hE : env.eig.Correct) (a : FlatFieldArgs) (m : FlatStackArg) (t : FlatTemplArg)
    (f : FlatFieldObj) (hm : a.maps = some m) (ht : a.templates = some t) (h : nmtFieldFlat env a = .ok f)
    (hp : a.purifyE = false ∧ a.purifyB = false) (hl : a.lite = false) (h0 : 0 < a.tol) (hsep : a.SeparatedTempl t) :
    ∃ r, f.getMaps = .ok (some r) ∧ ∀ i < t.ntemp, flatIntegral a.fs t.ncomp r (a.masked (t.val i)) = 0 := by
  obtain ⟨spin, -, hn, hc, hnt, -, -, hlite, -, hall⟩ := flat_templ hm ht h
  obtain ⟨-, -, -, -, -, -, hx, hy, -, -⟩ := flat_ok hm h
  obtain ⟨P, hP, hg⟩ := flat_genInv hE hx hy h0 hsep
  obtain ⟨-, hmaps⟩ := (hall P hP).1 (by simp [hp])
  refine ⟨removeTempl t.ntemp (a.coefs t P m.val) (fun i => a.masked (t.val i)) (a.masked m.val), ?_, fun i hi => ?_⟩
  rotate_left
  · rw [← dot_integral, flat_dot, FlatFieldArgs.coefs, removeTempl_proj]
    rw [gram_flat] at hg
    exact projOut_orth (flatPix_nonneg hx hy) _ _ hg _ i hi
  · unfold FlatFieldObj.getMaps
    rw [hlite, hl, hmaps, hl]
    rfl

/-- **C64**, in part: adding a combination of the templates to the input maps does not change the maps and the coefficients of a
field that is not purified. Missing: as for `C64_orthogonal_partial`. -/
theorem C64_invariant_partial (env : FlatEnv) (hE : env.eig.Correct) (a : FlatFieldArgs) (m : FlatStackArg) (t : FlatTemplArg)
    (f : FlatFieldObj) (hm : a.maps = some m) (ht : a.templates = some t) (h : nmtFieldFlat env a = .ok f)
    (hp : a.purifyE = false ∧ a.purifyB = false) (h0 : 0 < a.tol) (hsep : a.SeparatedTempl t) (z : ℕ → ℝ) :
    ∃ f' A A', nmtFieldFlat env { a with maps := some { m with val := fun c p => m.val c p + combineFlat t.ntemp z t.val c p } } = .ok f' ∧
      f.alms = some (some A) ∧ f'.alms = some (some A') ∧ (∀ X < m.ncomp, ∀ k, A' X k = A X k) ∧
      (a.lite = false → ∃ r r', f.getMaps = .ok (some r) ∧ f'.getMaps = .ok (some r') ∧
        ∀ c < m.ncomp, ∀ p ∈ a.fs.modes, r' c p = r c p) := by
  obtain ⟨f', h'⟩ := flat_ok_of hm h fun c p => m.val c p + combineFlat t.ntemp z t.val c p
  obtain ⟨spin, hs, hn, hc, hnt, -, -, hlite, -, hall⟩ := flat_templ hm ht h
  obtain ⟨spin', hs', -, -, -, -, -, hlite', -, hall'⟩ := flat_templ (a := { a with maps := some { m with val := fun c p => m.val c p + combineFlat t.ntemp z t.val c p } }) rfl ht h'
  have hss : spin' = spin := by
    have : flatSpin { a with maps := some { m with val := fun c p => m.val c p + combineFlat t.ntemp z t.val c p } } = flatSpin a := by
      unfold flatSpin; rw [hm]
    rw [this, hs] at hs'
    exact (Outcome.ok.inj hs').symm
  subst hss
  obtain ⟨-, -, -, -, -, -, hx, hy, -, -⟩ := flat_ok hm h
  obtain ⟨P, hP, hg⟩ := flat_genInv hE hx hy h0 hsep
  obtain ⟨halm, hmaps⟩ := (hall P hP).1 (by simp [hp])
  obtain ⟨halm', hmaps'⟩ := (hall' P hP).1 (by simp [hp])
  have key : ∀ c < m.ncomp, ∀ p ∈ a.fs.modes,
      removeTempl t.ntemp (a.coefs t P fun c p => m.val c p + combineFlat t.ntemp z t.val c p) (fun i => a.masked (t.val i))
        (a.masked fun c p => m.val c p + combineFlat t.ntemp z t.val c p) c p =
      removeTempl t.ntemp (a.coefs t P m.val) (fun i => a.masked (t.val i)) (a.masked m.val) c p := by
    intro c hc' p hp'
    obtain ⟨hlt, hpp⟩ := pixel_code hp'
    have e : ∀ v : FlatMaps, removeTempl t.ntemp (a.coefs t P v) (fun i => a.masked (t.val i)) (a.masked v) c p =
        projOut (flatPix a.fs) t.ncomp t.ntemp P (fun i => toStack a.fs (a.masked (t.val i))) (toStack a.fs (a.masked v)) c
          (p.1 + a.fs.nx * p.2) := by
      intro v
      rw [← removeTempl_proj]
      unfold toStack
      rw [hpp]
      rfl
    rw [e, e, masked_combine]
    have : toStack a.fs (fun c p => a.masked m.val c p + combineFlat t.ntemp z (fun i => a.masked (t.val i)) c p) =
        fun c p => toStack a.fs (a.masked m.val) c p + combine t.ntemp z (fun i => toStack a.fs (a.masked (t.val i))) c p := rfl
    rw [this, projOut_add]
    rw [gram_flat] at hg
    rw [projOut_span (flatPix_pos hx hy) _ _ hg z c _ (by rw [hc]; exact hc') hlt, add_zero]
  refine ⟨f', _, _, h', halm, halm', ?_, ?_⟩
  · intro X hX k
    exact fsMap2alm_congr (fun c hc' p hp' => key c (by rw [hn]; exact hc') p hp') X (by rw [← hn]; exact hX) k
  · intro hl
    refine ⟨_, _, ?_, ?_, key⟩
    · unfold FlatFieldObj.getMaps
      rw [hlite, hl, hmaps, hl]
      rfl
    · unfold FlatFieldObj.getMaps
      rw [hlite', show ({ a with maps := some { m with val := fun c p => m.val c p + combineFlat t.ntemp z t.val c p } } : FlatFieldArgs).lite = false from hl,
        hmaps', show ({ a with maps := some { m with val := fun c p => m.val c p + combineFlat t.ntemp z t.val c p } } : FlatFieldArgs).lite = false from hl]
      rfl

/-- **C64**, in part: the same for a purified field, if the masked templates are linearly independent. Missing: linearly dependent
templates, for which the pixels outside the mask matter (see C65). -/
theorem C64_purified_partial (env : FlatEnv) (hE : env.eig.Correct) (a : FlatFieldArgs) (m : FlatStackArg) (t : FlatTemplArg)
    (f : FlatFieldObj) (hm : a.maps = some m) (ht : a.templates = some t) (h : nmtFieldFlat env a = .ok f)
    (hp : a.purifyE = true ∨ a.purifyB = true) (h0 : 0 < a.tol) (hsep : a.SeparatedTempl t) (hind : a.IndependentTempl t) (z : ℕ → ℝ) :
    ∃ f', nmtFieldFlat env { a with maps := some { m with val := fun c p => m.val c p + combineFlat t.ntemp z t.val c p } } = .ok f' ∧
      (∃ A, f.alms = some (some A)) ∧ f'.alms = f.alms ∧ f'.maps = f.maps := by
  obtain ⟨f', h'⟩ := flat_ok_of hm h fun c p => m.val c p + combineFlat t.ntemp z t.val c p
  obtain ⟨spin, hs, hn, hc, hnt, -, -, hlite, -, hall⟩ := flat_templ hm ht h
  obtain ⟨spin', hs', -, -, -, -, -, hlite', -, hall'⟩ := flat_templ (a := { a with maps := some { m with val := fun c p => m.val c p + combineFlat t.ntemp z t.val c p } }) rfl ht h'
  obtain ⟨-, -, -, -, -, -, hx, hy, -, -⟩ := flat_ok hm h
  obtain ⟨P, hP, hg⟩ := flat_genInv hE hx hy h0 hsep
  obtain ⟨halm, hmaps⟩ := (hall P hP).2 (by simpa using hp)
  obtain ⟨halm', hmaps'⟩ := (hall' P hP).2 (by simpa using hp)
  have hco : ∀ i < t.ntemp, a.coefs t P (fun c p => m.val c p + combineFlat t.ntemp z t.val c p) i = a.coefs t P m.val i + z i := by
    have hadd : ∀ i, a.coefs t P (fun c p => m.val c p + combineFlat t.ntemp z t.val c p) i = a.coefs t P m.val i +
        projCoef (flatPix a.fs) t.ncomp t.ntemp P (fun i => toStack a.fs (a.masked (t.val i)))
          (combine t.ntemp z (fun i => toStack a.fs (a.masked (t.val i)))) i ∨ ¬ i < t.ntemp := by
      intro i
      by_cases hi : i < t.ntemp
      · left
        unfold FlatFieldArgs.coefs flatAlphas projCoef
        rw [tab_of_lt _ hi, ← Finset.sum_add_distrib]
        refine Finset.sum_congr rfl fun j _ => ?_
        rw [flat_dot, flat_dot, masked_combine]
        have : toStack a.fs (fun c p => a.masked m.val c p + combineFlat t.ntemp z (fun i => a.masked (t.val i)) c p) =
          fun c p => toStack a.fs (a.masked m.val) c p + combine t.ntemp z (fun i => toStack a.fs (a.masked (t.val i))) c p := rfl
        rw [this, dot_add]
        ring
      · exact Or.inr hi
    have hz : ∀ i < t.ntemp, z i - projCoef (flatPix a.fs) t.ncomp t.ntemp P (fun i => toStack a.fs (a.masked (t.val i)))
        (combine t.ntemp z (fun i => toStack a.fs (a.masked (t.val i)))) i = 0 := by
      refine hind (fun i => z i - projCoef (flatPix a.fs) t.ncomp t.ntemp P (fun i => toStack a.fs (a.masked (t.val i)))
        (combine t.ntemp z (fun i => toStack a.fs (a.masked (t.val i)))) i) ?_
      intro c hc' p hp'
      obtain ⟨hlt, hpp⟩ := pixel_code hp'
      rw [gram_flat] at hg
      have := projOut_span (flatPix_pos hx hy) _ _ hg z c _ hc' hlt
      rw [← this]
      unfold projOut combineFlat combine
      rw [← Finset.sum_sub_distrib]
      refine Finset.sum_congr rfl fun i _ => ?_
      simp only [toStack]
      rw [hpp]
      ring
    intro i hi
    rcases hadd i with h | h
    · rw [h]
      linarith [hz i hi]
    · exact absurd hi h
  have hU : removeTempl t.ntemp (a.coefs t P fun c p => m.val c p + combineFlat t.ntemp z t.val c p) (fun i => a.unmasked (t.val i))
        (a.unmasked fun c p => m.val c p + combineFlat t.ntemp z t.val c p) =
      removeTempl t.ntemp (a.coefs t P m.val) (fun i => a.unmasked (t.val i)) (a.unmasked m.val) := by
    funext c p
    rw [unmasked_combine]
    unfold removeTempl
    rw [Finset.sum_congr rfl fun i hi => by rw [hco i (mem_range.mp hi), add_mul], Finset.sum_add_distrib]
    unfold combineFlat
    ring
  refine ⟨f', h', ⟨_, halm⟩, ?_, ?_⟩
  · rw [halm', halm]
    exact congrArg (fun x => some (some (purifyFlat (env.c2r a.fs) a.fs a.purifyE a.purifyB a.mask (a.fs.map2alm a.mask) x).1)) hU
  · rw [hmaps', hmaps]
    exact congrArg (fun x => if a.lite then none else
      some (some (purifyFlat (env.c2r a.fs) a.fs a.purifyE a.purifyB a.mask (a.fs.map2alm a.mask) x).2)) hU

/-- **C64 is false** for templates that vanish inside the mask: the coefficients of the field are not finite, whatever the maps. -/
theorem C64_zero_template_wrong (env : FlatEnv) (hE : env.eig.Correct) (a : FlatFieldArgs) (m : FlatStackArg) (t : FlatTemplArg)
    (f : FlatFieldObj) (hm : a.maps = some m) (ht : a.templates = some t) (h : nmtFieldFlat env a = .ok f)
    (h0 : 0 < a.tol) (hz : ∀ i < t.ntemp, ∀ c < t.ncomp, ∀ p ∈ a.fs.modes, a.masked (t.val i) c p = 0) : f.alms = some none := by
  obtain ⟨spin, -, -, -, hnt, -, -, -, hN, -⟩ := flat_templ hm ht h
  apply hN
  have : tab2 t.ntemp t.ntemp (a.gram t) = fun _ _ => 0 := by
    funext i j
    unfold tab2
    split_ifs with hij
    · unfold FlatFieldArgs.gram flatIntegral
      rw [Finset.sum_eq_zero fun c hc => Finset.sum_eq_zero fun p hp => by rw [hz i hij.1 c (mem_range.mp hc) p hp, zero_mul], zero_mul]
    · rfl
  rw [this]
  exact (C37_zero_wrong env.eig hE (fun _ _ => none) t.ntemp hnt a.tol h0).2

/-! ## Example -/

namespace FlatFieldExample

/-- A field with one template. -/
noncomputable def argsT (pB : Bool) : FlatFieldArgs :=
  { argsE 1 1 with templates := some ⟨1, 2, 5, 5, fun _ _ _ => 1⟩, purifyB := pB, tol := 1e-10 }

theorem gramT (pB : Bool) (i j : ℕ) : (argsT pB).gram ⟨1, 2, 5, 5, fun _ _ _ => 1⟩ i j =
    (argsT pB).gram ⟨1, 2, 5, 5, fun _ _ _ => 1⟩ 0 0 := rfl

theorem gramT_pos (pB : Bool) : 0 < (argsT pB).gram ⟨1, 2, 5, 5, fun _ _ _ => 1⟩ 0 0 := by
  unfold FlatFieldArgs.gram flatIntegral
  have hpos : ∀ c ∈ range 2, 0 < ∑ p ∈ (argsT pB).fs.modes,
      (argsT pB).masked (fun _ _ => 1) c p * (argsT pB).masked (fun _ _ => 1) c p := by
    intro c _
    refine Finset.sum_pos (fun p _ => ?_) ⟨(0, 0), by rw [mem_modes]; simp [argsT, argsE, fsE]⟩
    have : 0 < maskE p := by
      unfold maskE
      linarith [Real.neg_one_le_cos (2 * π * p.1 / 5)]
    simp only [FlatFieldArgs.masked, argsT, argsE, Bool.false_eq_true, if_false, one_mul]
    positivity
  exact mul_pos (Finset.sum_pos hpos ⟨0, by simp⟩) (by simp only [argsT, argsE, fsE]; norm_num)

theorem separatedT (pB : Bool) : (argsT pB).SeparatedTempl ⟨1, 2, 5, 5, fun _ _ _ => 1⟩ := by
  have hg := gramT_pos pB
  refine ⟨⟨0, by simp, 0, by simp, hg.ne'⟩, (argsT pB).gram ⟨1, 2, 5, 5, fun _ _ _ => 1⟩ 0 0, ⟨⟨fun _ => 1, ⟨0, by simp, by simp⟩, ?_⟩, ?_⟩, ?_⟩
  · intro i _
    simp [mulVecN, gramT pB i 0]
  · rintro lam ⟨x, ⟨k, hk, hx⟩, he⟩
    have hk : k = 0 := by simpa using hk
    subst hk
    have := he 0 (by simp)
    simp only [mulVecN, sum_range_one] at this
    exact le_of_eq (mul_right_cancel₀ hx this).symm
  · rintro lam x ⟨⟨k, hk, hx⟩, he⟩
    have hk : k = 0 := by simpa using hk
    subst hk
    have := he 0 (by simp)
    simp only [mulVecN, sum_range_one] at this
    right
    rw [← mul_right_cancel₀ hx this]
    have : (argsT pB).tol ≤ 1 := by simp only [argsT]; norm_num
    nlinarith

theorem independentT (pB : Bool) : (argsT pB).IndependentTempl ⟨1, 2, 5, 5, fun _ _ _ => 1⟩ := by
  intro z hz i hi
  have hi : i = 0 := by simpa using hi
  subst hi
  have := hz 0 (by simp) (0, 0) (by rw [mem_modes]; simp [argsT, argsE, fsE])
  simp [combineFlat, FlatFieldArgs.masked, argsT, argsE, maskE] at this
  rcases this with h | h
  · exact h
  · norm_num at h

theorem argsT_ok (env : FlatEnv) (pB : Bool) : ∃ f, nmtFieldFlat env (argsT pB) = .ok f := by
  unfold nmtFieldFlat
  rw [if_neg (by simp [argsT, argsE, fsE])]
  have h2 : flatSpin (argsT pB) = .ok 2 := by simp [flatSpin, argsT, argsE]
  rw [h2]
  simp only [Outcome.bind]
  rw [if_neg (by simp)]
  have h3 : flatShapes (argsT pB) = .ok () := by simp [flatShapes, argsT, argsE, fsE]
  rw [h3]
  simp only [Outcome.bind]
  rw [if_neg (by simp [argsT, argsE, fsE])]
  simp [flatBeam, argsT, argsE, Outcome.bind]

end FlatFieldExample

open FlatFieldExample

/-- The hypotheses of the theorems are met by a field with one template. -/
example : ∃ f, nmtFieldFlat stdEnv (argsT false) = .ok f ∧ ∃ r, f.getMaps = .ok (some r) ∧
    flatIntegral (fsE 1 1) 2 r ((argsT false).masked fun _ _ => 1) = 0 := by
  obtain ⟨f, hf⟩ := argsT_ok stdEnv false
  obtain ⟨r, hr, h⟩ := C64_orthogonal_partial stdEnv exactEigen_correct (argsT false) _ _ f rfl rfl hf ⟨rfl, rfl⟩ rfl
    (by simp only [argsT]; norm_num) (separatedT false)
  exact ⟨f, hf, r, hr, h 0 (by simp)⟩

/-- The hypotheses for purified fields are met. -/
example (z : ℕ → ℝ) : ∃ f f', nmtFieldFlat stdEnv (argsT true) = .ok f ∧ nmtFieldFlat stdEnv { argsT true with
    maps := some ⟨2, 5, 5, fun c p => skyE c p + combineFlat 1 z (fun _ _ _ => 1) c p⟩ } = .ok f' ∧ f'.alms = f.alms := by
  obtain ⟨f, hf⟩ := argsT_ok stdEnv true
  obtain ⟨f', hf', -, h, -⟩ := C64_purified_partial stdEnv exactEigen_correct (argsT true) _ _ f rfl rfl hf (Or.inr rfl)
    (by simp only [argsT]; norm_num) (separatedT true) (independentT true) z
  exact ⟨f, f', hf, hf', h⟩

end NaMaster
