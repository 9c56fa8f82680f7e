import Verif.Flat.FieldDeproj
import Verif.Field.MaskedProps
import Verif.Field.Props

/-! # Property C65, flat sky: maps that are masked on input -/

namespace NaMaster

open Real Finset

/-! ## Specification -/

/-- The call with maps and templates multiplied by the mask beforehand, and `masked_on_input=True`. -/
def FlatFieldArgs.premasked (a : FlatFieldArgs) : FlatFieldArgs :=
  { a with
    maps := a.maps.map fun m => { m with val := fun c p => m.val c p * a.mask p }
    templates := a.templates.map fun t => { t with val := fun i c p => t.val i c p * a.mask p }
    maskedOnInput := true }

/-! ## Lemmas -/

/-- Every map has modes: its coefficients up to a factor. -/
theorem hasModes_map2alm {fs : FlatInfo} (hlx : fs.lx ≠ 0) (hly : fs.ly ≠ 0) (f : ℕ × ℕ → ℝ) :
    HasModes fs f fun k => fs.map2alm f k * ((2 * π / (fs.lx * fs.ly) : ℝ) : ℂ) := by
  intro p hp
  have hsym : ∀ k q, fs.phase k q = fs.phase q k := by
    intro k q
    unfold FlatInfo.phase
    ring
  have h1 : ∀ k ∈ fs.modes, fs.map2alm f k * ((2 * π / (fs.lx * fs.ly) : ℝ) : ℂ) * Complex.exp (fs.phase k p * Complex.I) =
      ∑ q ∈ fs.modes, (f q : ℂ) * ((fs.almNorm * (2 * π / (fs.lx * fs.ly)) : ℝ) : ℂ) *
        (Complex.exp (fs.phase p k * Complex.I) * Complex.exp (-(fs.phase q k) * Complex.I)) := by
    intro k _
    unfold FlatInfo.map2alm FlatInfo.dft
    rw [Finset.sum_mul, Finset.sum_mul, Finset.sum_mul]
    refine Finset.sum_congr rfl fun q _ => ?_
    rw [hsym k q, hsym k p]
    push_cast
    ring
  rw [Finset.sum_congr rfl h1, Finset.sum_comm]
  have h2 : ∀ q ∈ fs.modes, ∑ k ∈ fs.modes, (f q : ℂ) * ((fs.almNorm * (2 * π / (fs.lx * fs.ly)) : ℝ) : ℂ) *
        (Complex.exp (fs.phase p k * Complex.I) * Complex.exp (-(fs.phase q k) * Complex.I)) = if p = q then (f q : ℂ) else 0 := by
    intro q hq
    rw [← Finset.mul_sum, phase_orth hq hp]
    by_cases h : p = q
    · rw [if_pos h, if_pos h]
      have hp' := mem_modes.mp hp
      have hx : (fs.nx : ℂ) ≠ 0 := by exact_mod_cast (by omega : fs.nx ≠ 0)
      have hy : (fs.ny : ℂ) ≠ 0 := by exact_mod_cast (by omega : fs.ny ≠ 0)
      have hpi : (π : ℂ) ≠ 0 := by exact_mod_cast Real.pi_ne_zero
      have hl : (fs.lx : ℂ) ≠ 0 := by exact_mod_cast hlx
      have hl' : (fs.ly : ℂ) ≠ 0 := by exact_mod_cast hly
      unfold FlatInfo.almNorm
      push_cast
      field_simp
    · rw [if_neg h, if_neg h, mul_zero]
  rw [Finset.sum_congr rfl h2, Finset.sum_ite_eq, if_pos hp]

theorem flatSpin_premasked (a : FlatFieldArgs) : flatSpin a.premasked = flatSpin a := by
  unfold flatSpin FlatFieldArgs.premasked
  cases a.maps <;> rfl

theorem flatShapes_premasked (a : FlatFieldArgs) : flatShapes a.premasked = flatShapes a := by
  unfold flatShapes FlatFieldArgs.premasked
  cases a.maps <;> cases a.templates <;> rfl

/-- The two calls differ only in the last step. -/
theorem flat_premasked (env : FlatEnv) (a : FlatFieldArgs)
    (h : ∀ spin beam m, a.maps = some m →
      flatAlloc env ⟨a.fs, spin, a.mask, beam, if a.purifyE then 1 else 0, if a.purifyB then 1 else 0⟩ (fun c p => m.val c p * a.mask p)
        (a.premasked.templates.map fun t => (t.ntemp, t.val)) a.tol true a.lite =
      flatAlloc env ⟨a.fs, spin, a.mask, beam, if a.purifyE then 1 else 0, if a.purifyB then 1 else 0⟩ m.val
        (a.templates.map fun t => (t.ntemp, t.val)) a.tol a.maskedOnInput a.lite) :
    nmtFieldFlat env a.premasked = nmtFieldFlat env a := by
  unfold nmtFieldFlat
  rw [flatSpin_premasked, flatShapes_premasked]
  have e : a.premasked.maps = a.maps.map fun m => { m with val := fun c p => m.val c p * a.mask p } := rfl
  rw [e]
  cases hm : a.maps with
  | none => rfl
  | some m =>
    have h' := fun spin beam => h spin beam m hm
    simp only [Option.map_some]
    have e1 : a.premasked.fs = a.fs := rfl
    have e2 : a.premasked.mask = a.mask := rfl
    have e3 : a.premasked.purifyE = a.purifyE := rfl
    have e4 : a.premasked.purifyB = a.purifyB := rfl
    have e5 : a.premasked.tol = a.tol := rfl
    have e6 : a.premasked.lite = a.lite := rfl
    have e7 : a.premasked.maskedOnInput = true := rfl
    have e8 : a.premasked.beam = a.beam := rfl
    simp only [e1, e2, e3, e4, e5, e6, e7, e8, h']

/-! ## C65 -/

/-- **C65**, flat sky, fields that are not purified: passing maps and templates that were multiplied by the mask, with
`masked_on_input=True`, has the same outcome as passing the maps and templates themselves. -/
theorem C65_flat_masked_input (env : FlatEnv) (a : FlatFieldArgs) (hi : a.maskedOnInput = false)
    (hp : a.purifyE = false ∧ a.purifyB = false) : nmtFieldFlat env a.premasked = nmtFieldFlat env a := by
  refine flat_premasked env a fun spin beam m hm => ?_
  unfold flatAlloc
  have e : a.premasked.templates = a.templates.map fun t => { t with val := fun i c p => t.val i c p * a.mask p } := rfl
  rw [e]
  cases ht : a.templates with
  | none =>
    simp only [hp.1, hp.2, hi, Option.map_none, Option.getD_none, Bool.false_eq_true, if_false, if_true, Nat.reduceBEq, Bool.or_self,
      zero_mul, gt_iff_lt, lt_irrefl, Option.map_some, or_true]
  | some t =>
    simp only [hp.1, hp.2, hi, Option.map_some, Option.getD_some, Bool.false_eq_true, if_false, if_true, Nat.reduceBEq, Bool.or_self]

/-- **C65**, flat sky, fields that are not purified: what is in the pixels where the mask vanishes does not matter. -/
theorem C65_flat_only_masked_maps (env : FlatEnv) (a : FlatFieldArgs) (m : FlatStackArg) (f : FlatFieldObj) (v : FlatMaps)
    (hm : a.maps = some m) (hi : a.maskedOnInput = false) (hp : a.purifyE = false ∧ a.purifyB = false)
    (h : nmtFieldFlat env a = .ok f) (hv : ∀ c < m.ncomp, ∀ p ∈ a.fs.modes, a.mask p ≠ 0 → v c p = m.val c p)
    (A : FlatAlms) (hA : f.alms = some (some A)) :
    ∃ f' A', nmtFieldFlat env { a with maps := some { m with val := v } } = .ok f' ∧ f'.alms = some (some A') ∧
      ∀ X < m.ncomp, ∀ k, A' X k = A X k := by
  obtain ⟨f', h'⟩ := flat_ok_of hm h v
  obtain ⟨spin, beam, hs, hn, -, -, -, -, -, hf⟩ := flat_ok hm h
  obtain ⟨spin', beam', hs', -, -, -, -, -, -, hf'⟩ := flat_ok (a := { a with maps := some { m with val := v } }) rfl h'
  have hss : spin' = spin := by
    have : flatSpin { a with maps := some { m with val := v } } = flatSpin a := by unfold flatSpin; rw [hm]
    rw [this, hs] at hs'
    exact (Outcome.ok.inj hs').symm
  subst hss
  have hv' : ∀ c < m.ncomp, ∀ p ∈ a.fs.modes, v c p * a.mask p = m.val c p * a.mask p := by
    intro c hc p hp'
    by_cases h0 : a.mask p = 0
    · rw [h0, mul_zero, mul_zero]
    · rw [hv c hc p hp' h0]
  have hd : ∀ P (T : ℕ → FlatMaps) nt, flatAlphas a.fs (nmapsOf spin') nt P T (fun c p => v c p * a.mask p) =
      flatAlphas a.fs (nmapsOf spin') nt P T (fun c p => m.val c p * a.mask p) := by
    intro P T nt
    funext i
    unfold flatAlphas FlatInfo.dot
    refine Finset.sum_congr rfl fun j _ => ?_
    congr 1
    refine Finset.sum_congr rfl fun c hc => congrArg (· * a.fs.pixsize) (Finset.sum_congr rfl fun p hp' => ?_)
    simp only
    rw [hv' c (by rw [hn]; exact mem_range.mp hc) p hp']
  have hr : ∀ nt al T, ∀ X < m.ncomp, ∀ k, fsMap2alm a.fs spin' (removeTempl nt al T fun c p => v c p * a.mask p) X k =
      fsMap2alm a.fs spin' (removeTempl nt al T fun c p => m.val c p * a.mask p) X k := by
    intro nt al T X hX k
    refine fsMap2alm_congr (fun c hc p hp' => ?_) X (by rw [← hn]; exact hX) k
    unfold removeTempl
    simp only
    rw [hv' c (by rw [hn]; exact hc) p hp']
  have e1 : ((if a.purifyE then 1 else 0 : ℕ) == 1) = false := by rw [hp.1]; rfl
  have e2 : ((if a.purifyB then 1 else 0 : ℕ) == 1) = false := by rw [hp.2]; rfl
  rw [hf] at hA
  unfold flatAlloc at hA
  simp only [e1, e2, hi, Bool.or_self, Bool.false_eq_true, if_false, Option.some.injEq, Option.map_map, Option.map_eq_some_iff,
    Function.comp] at hA
  obtain ⟨al, hal, hA⟩ := hA
  refine ⟨f', fsMap2alm a.fs spin' (removeTempl ((a.templates.map (Prod.fst ∘ fun t => (t.ntemp, t.val))).getD 0) al
    (fun i c p => ((a.templates.map (Prod.snd ∘ fun t => (t.ntemp, t.val))).getD fun _ _ _ => 0) i c p * a.mask p)
    fun c p => v c p * a.mask p), h', ?_, ?_⟩
  · rw [hf']
    unfold flatAlloc
    simp only [e1, e2, hi, Bool.or_self, Bool.false_eq_true, if_false, Option.some.injEq, Option.map_map, Option.map_eq_some_iff,
      Function.comp]
    refine ⟨al, ?_, rfl⟩
    rw [← hal]
    simp only [hd]
  · intro X hX k
    rw [← hA]
    exact hr _ _ _ X hX k

theorem purifyFlatAlms_congr {c2r : (ℕ × ℕ → ℂ) → ℕ × ℕ → ℝ} {fs : FlatInfo} {pE pB : Bool} {mask : ℕ × ℕ → ℝ} {walm : ℕ × ℕ → ℂ}
    {f g : FlatMaps} (h : ∀ c < 2, ∀ p ∈ fs.modes, f c p = g c p) (X : ℕ) (hX : X < 2) (k : ℕ × ℕ) :
    purifyFlatAlms c2r fs pE pB mask walm f X k = purifyFlatAlms c2r fs pE pB mask walm g X k := by
  have h0 := h 0 (by norm_num)
  have h1 := h 1 (by norm_num)
  have ha : fsMap2alm fs 2 (fun c p => f c p * mask p) X k = fsMap2alm fs 2 (fun c p => g c p * mask p) X k :=
    fsMap2alm_congr (fun c hc p hp => by rw [h c (by simpa [nmapsOf] using hc) p hp]) X (by simpa [nmapsOf] using hX) k
  have hs : ∀ w : FlatMaps, ∀ c, ∀ p ∈ fs.modes, spinProductFlat w f c p = spinProductFlat w g c p := by
    intro w c p hp
    unfold spinProductFlat
    rw [h0 p hp, h1 p hp]
  have hb : ∀ w : FlatMaps, fsMap2alm fs 1 (spinProductFlat w f) X k = fsMap2alm fs 1 (spinProductFlat w g) X k := fun w =>
    fsMap2alm_congr (fun c _ p hp => hs w c p hp) X (by simpa [nmapsOf] using hX) k
  have hc : ∀ w : FlatMaps, fsMap2alm fs 0 (fun c p => -1 * spinProductFlat w f c p) X k =
      fsMap2alm fs 0 (fun c p => -1 * spinProductFlat w g c p) X k := by
    intro w
    unfold fsMap2alm
    rw [if_pos rfl, if_pos rfl]
    exact map2alm_congr (fun p hp => by simp only [hs w X p hp]) k
  unfold purifyFlatAlms
  simp only [ha, hb, hc]

/-- **C65**, flat sky, in part: the coefficients are also the same with purification if the mask is positive in every pixel.
Missing: masks that vanish somewhere (`C65_purified_wrong`). -/
theorem C65_flat_masked_input_purified_partial (env : FlatEnv) (a : FlatFieldArgs) (m : FlatStackArg) (f : FlatFieldObj)
    (hm : a.maps = some m) (hi : a.maskedOnInput = false) (h : nmtFieldFlat env a = .ok f) (hw : ∀ p ∈ a.fs.modes, 0 < a.mask p)
    (A : FlatAlms) (hA : f.alms = some (some A)) :
    ∃ f' A', nmtFieldFlat env a.premasked = .ok f' ∧ f'.alms = some (some A') ∧ ∀ X < m.ncomp, ∀ k, A' X k = A X k := by
  by_cases hp : a.purifyE = true ∨ a.purifyB = true
  swap
  · push Not at hp
    refine ⟨f, A, ?_, hA, fun _ _ _ => rfl⟩
    rw [C65_flat_masked_input env a hi (by simpa using hp), h]
  obtain ⟨spin, beam, hs, hn, hsp, hsh, hlx, hly, hb, hf⟩ := flat_ok hm h
  have hf' : nmtFieldFlat env a.premasked = .ok (flatAlloc env ⟨a.fs, spin, a.mask, beam, if a.purifyE then 1 else 0,
      if a.purifyB then 1 else 0⟩ (fun c p => m.val c p * a.mask p) (a.premasked.templates.map fun t => (t.ntemp, t.val)) a.tol true a.lite) := by
    unfold nmtFieldFlat
    rw [if_neg (show ¬ (a.premasked.fs.lx < 0 ∨ a.premasked.fs.ly < 0) by
      show ¬ (a.fs.lx < 0 ∨ a.fs.ly < 0)
      push Not
      exact ⟨hlx.le, hly.le⟩), flatSpin_premasked, hs]
    simp only [Outcome.bind]
    rw [if_neg (by rw [hsp hp]; simp), flatShapes_premasked, hsh]
    simp only
    rw [if_neg (show ¬ ¬ (a.premasked.fs.lx > 0 ∧ a.premasked.fs.ly > 0) from not_not.mpr ⟨hlx, hly⟩),
      show a.premasked.beam = a.beam from rfl, hb, show a.premasked.maps = some { m with val := fun c p => m.val c p * a.mask p } by
        simp [FlatFieldArgs.premasked, hm]]
    rfl
  have hs2 : spin = 2 := hsp hp
  subst hs2
  have hn2 : m.ncomp = 2 := by simpa [nmapsOf] using hn
  have e1 : ((if a.purifyE then 1 else 0 : ℕ) == 1) = a.purifyE := by cases a.purifyE <;> rfl
  have e2 : ((if a.purifyB then 1 else 0 : ℕ) == 1) = a.purifyB := by cases a.purifyB <;> rfl
  have e3 : (a.purifyE || a.purifyB) = true := by simpa using hp
  have hu : ∀ (x : FlatMaps) c, ∀ p ∈ a.fs.modes, unmaskFlat a.mask (fun c p => x c p * a.mask p) c p = x c p := by
    intro x c p hp'
    unfold unmaskFlat
    rw [if_pos (hw p hp'), mul_div_assoc, div_self (hw p hp').ne', mul_one]
  rw [hf] at hA
  unfold flatAlloc at hA
  simp only [e1, e2, e3, hi, Bool.false_eq_true, if_false, if_true, Option.some.injEq, Option.map_map, Option.map_eq_some_iff,
    Function.comp, purifyFlat, id] at hA
  obtain ⟨al, hal, hA⟩ := hA
  have hT : a.premasked.templates.map (fun t => (t.ntemp, t.val)) =
      a.templates.map fun t => (t.ntemp, fun i c p => t.val i c p * a.mask p) := by
    unfold FlatFieldArgs.premasked
    cases a.templates <;> rfl
  refine ⟨_, purifyFlatAlms (env.c2r a.fs) a.fs a.purifyE a.purifyB a.mask (a.fs.map2alm a.mask)
    (removeTempl ((a.templates.map (Prod.fst ∘ fun t => (t.ntemp, fun i c p => t.val i c p * a.mask p))).getD 0) al
      (fun i => unmaskFlat a.mask ((a.templates.map (Prod.snd ∘ fun t => (t.ntemp, fun i c p => t.val i c p * a.mask p))).getD (fun _ _ _ => 0) i))
      (unmaskFlat a.mask fun c p => m.val c p * a.mask p)), hf', ?_, ?_⟩
  · unfold flatAlloc
    simp only [e1, e2, e3, hT, if_true, Option.some.injEq, Option.map_map, Option.map_eq_some_iff, Function.comp, purifyFlat]
    refine ⟨al, ?_, rfl⟩
    rw [← hal]
    cases a.templates with
    | none => rfl
    | some t => rfl
  · intro X hX k
    rw [← hA]
    refine purifyFlatAlms_congr (fun c _ p hp' => ?_) X (by rw [← hn2]; exact hX) k
    unfold removeTempl
    rw [hu _ c p hp']
    congr 1
    cases a.templates with
    | none => simp
    | some t =>
      simp only [Option.map_some, Option.getD_some, Function.comp]
      exact Finset.sum_congr rfl fun i _ => by rw [hu _ c p hp']

/-- **C65**, flat sky, purified fields without templates whose maps are given multiplied by the mask: what the arrays contain in
pixels where the mask is not positive does not matter. -/
theorem C65_flat_masked_pixels (env : FlatEnv) (a : FlatFieldArgs) (m : FlatStackArg) (v : FlatMaps) (hm : a.maps = some m)
    (hi : a.maskedOnInput = true) (hp : a.purifyE = true ∨ a.purifyB = true) (ht : a.templates = none)
    (hv : ∀ c p, 0 < a.mask p → v c p = m.val c p) :
    nmtFieldFlat env { a with maps := some { m with val := v } } = nmtFieldFlat env a := by
  have hs : flatSpin { a with maps := some { m with val := v } } = flatSpin a := by unfold flatSpin; rw [hm]
  have hsh : flatShapes { a with maps := some { m with val := v } } = flatShapes a := by unfold flatShapes; rw [hm, ht]
  have e1 : ((if a.purifyE then 1 else 0 : ℕ) == 1) = a.purifyE := by cases a.purifyE <;> rfl
  have e2 : ((if a.purifyB then 1 else 0 : ℕ) == 1) = a.purifyB := by cases a.purifyB <;> rfl
  have e3 : (a.purifyE || a.purifyB) = true := by simpa using hp
  have hu : unmaskFlat a.mask v = unmaskFlat a.mask m.val := by
    funext c p
    unfold unmaskFlat
    by_cases h : a.mask p > 0
    · rw [if_pos h, if_pos h, hv c p h]
    · rw [if_neg h, if_neg h]
  unfold nmtFieldFlat
  rw [hs, hsh, hm]
  unfold flatAlloc
  simp only [e1, e2, e3, hi, ht, hu, if_true, Option.map_none, Option.getD_none, gt_iff_lt, lt_irrefl, if_false, Option.map_some, or_true]

/-- **C65**, flat sky, the templates of a field that is not lightweight: `get_templates` returns the templates multiplied by the mask.
Templates given so are returned as they are where the mask is positive; elsewhere those of a purified field are zero. -/
theorem C65_flat_templates (env : FlatEnv) (a : FlatFieldArgs) (m : FlatStackArg) (t : FlatTemplArg) (hm : a.maps = some m)
    (ht : a.templates = some t) (hn : t.ntemp ≠ 0) (hl : a.lite = false) (f : FlatFieldObj) (hf : nmtFieldFlat env a = .ok f) :
    ∃ T, f.getTemplates = .ok (t.ntemp, T) ∧ ∀ i c p,
      (a.maskedOnInput = false → T i c p = t.val i c p * a.mask p) ∧
      (a.maskedOnInput = true → 0 < a.mask p → T i c p = t.val i c p) ∧
      (a.maskedOnInput = true → a.mask p ≤ 0 → a.purifyE = true ∨ a.purifyB = true → T i c p = 0) := by
  obtain ⟨spin, beam, -, -, -, -, -, -, -, rfl⟩ := flat_ok hm hf
  have e1 : ((if a.purifyE then 1 else 0 : ℕ) == 1) = a.purifyE := by cases a.purifyE <;> rfl
  have e2 : ((if a.purifyB then 1 else 0 : ℕ) == 1) = a.purifyB := by cases a.purifyB <;> rfl
  unfold FlatFieldObj.getTemplates flatAlloc
  simp only [e1, e2, ht, hl, hn, Option.map_some, Option.getD_some, Bool.false_eq_true, if_false, or_self]
  refine ⟨_, rfl, fun i c p => ⟨fun h => ?_, fun h hp => ?_, fun h hp hq => ?_⟩⟩
  · simp only [h, Bool.false_eq_true, if_false, id]
    split_ifs <;> rfl
  · simp only [h, if_true, unmaskFlat]
    split_ifs
    · dsimp only
      rw [if_pos hp]
      exact div_mul_cancel₀ _ hp.ne'
    · rfl
  · have e3 : (a.purifyE || a.purifyB) = true := by simpa using hq
    simp only [h, e3, if_true, unmaskFlat]
    rw [if_neg (not_lt.2 hp), zero_mul]

namespace FlatFieldExample

/-- Three pixels in a row. -/
noncomputable def fsZ : FlatInfo := ⟨3, 1, 1, 1⟩

/-- A mask that vanishes in all pixels but one. -/
noncomputable def maskZ : ℕ × ℕ → ℝ := fun p => if p = (0, 0) then 1 else 0

/-- A map of Q that vanishes where the mask does not. -/
noncomputable def skyZ : FlatMaps := fun X p => if X = 0 ∧ p = (1, 0) then 1 else 0

/-- A field whose E modes are purified. -/
noncomputable def argsZ (v : FlatMaps) : FlatFieldArgs where
  fs := fsZ
  mask := maskZ
  maps := some ⟨2, 3, 1, v⟩
  spin := none
  templates := none
  beam := none
  purifyE := true
  purifyB := false
  tol := 0
  maskedOnInput := false
  lite := false

theorem argsZ_ok (env : FlatEnv) (v : FlatMaps) : ∃ f, nmtFieldFlat env (argsZ v) = .ok f := by
  unfold nmtFieldFlat
  rw [if_neg (by simp [argsZ, fsZ])]
  have h2 : flatSpin (argsZ v) = .ok 2 := by simp [flatSpin, argsZ]
  rw [h2]
  simp only [Outcome.bind]
  rw [if_neg (by simp)]
  have h3 : flatShapes (argsZ v) = .ok () := by simp [flatShapes, argsZ, fsZ]
  rw [h3]
  simp only [Outcome.bind]
  rw [if_neg (by simp [argsZ, fsZ])]
  simp [flatBeam, argsZ, Outcome.bind]

theorem modesZ : fsZ.modes = {(0, 0), (1, 0), (2, 0)} := by
  ext k
  rw [mem_modes]
  simp only [fsZ, Finset.mem_insert, Finset.mem_singleton, Prod.ext_iff]
  omega

theorem sumZ (g : ℕ × ℕ → ℂ) : ∑ k ∈ fsZ.modes, g k = g (0, 0) + g (1, 0) + g (2, 0) := by
  rw [modesZ, Finset.sum_insert (by simp), Finset.sum_insert (by simp), Finset.sum_singleton, add_assoc]

/-- The transform of a map with one nonzero pixel. -/
theorem map2alm_pixel {fs : FlatInfo} {f : ℕ × ℕ → ℝ} {q : ℕ × ℕ} (hq : q ∈ fs.modes) (h : ∀ p, p ≠ q → f p = 0) (k : ℕ × ℕ) :
    fs.map2alm f k = f q * Complex.exp (-(fs.phase k q) * Complex.I) * fs.almNorm := by
  unfold FlatInfo.map2alm FlatInfo.dft
  rw [Finset.sum_eq_single q (fun p _ hp => by rw [h p hp]; simp) (fun hn => absurd hq hn)]

theorem pixModZ : fsZ.pixMod (0, 0) = 0 ∧ fsZ.pixMod (1, 0) = 2 * π / 3 ∧ fsZ.pixMod (2, 0) = 2 * π / 3 := by
  have hpi := Real.pi_pos
  refine ⟨pixMod_zero _, ?_, ?_⟩
  · unfold FlatInfo.pixMod waveNum fsZ
    norm_num
    rw [show 2 * π / 3 * (2 * π / 3) = (2 * π / 3) ^ 2 by ring, Real.sqrt_sq (by positivity)]
  · unfold FlatInfo.pixMod waveNum fsZ
    norm_num
    rw [show 2 * π / 3 * (2 * π / 3) = (2 * π / 3) ^ 2 by ring, Real.sqrt_sq (by positivity)]

theorem dirX {x y : ℝ} (hy : y = 0) (hx : x ≠ 0) : (modeDir x y).2 = 0 ∧ (modeDir x y).1 * (modeDir x y).1 = 1 := by
  have h1 := modeDir_mul x y
  have h2 := modeDir_unit x y
  subst hy
  have hs : √(x * x + 0 * 0) ≠ 0 := by
    rw [show x * x + (0 : ℝ) * 0 = x * x by ring]
    exact (Real.sqrt_pos.mpr (mul_self_pos.mpr hx)).ne'
  have h3 : (modeDir x 0).2 = 0 := by
    rcases mul_eq_zero.mp h1.2 with h | h
    · exact absurd h hs
    · exact h
  refine ⟨h3, ?_⟩
  rw [h3] at h2
  linarith

/-- The second derivative of the mask does not vanish in the second pixel. -/
theorem laplaceZ (c : C2r fsZ) : fsAlm2map c.run fsZ 2 (walmXLpower fsZ (fsZ.map2alm maskZ) 2) 0 (1, 0) = 4 * π ^ 2 / 27 := by
  have hny : NoNyquistPower fsZ maskZ := by
    intro k hk h
    rw [mem_modes] at hk
    simp only [fsZ] at h hk
    omega
  have d := (deriv_hasModes (fs := fsZ) (by norm_num [fsZ]) (by norm_num [fsZ]) c hny (s := 2) (by norm_num)).1
  set w := fsAlm2map c.run fsZ 2 (walmXLpower fsZ (fsZ.map2alm maskZ) 2) 0 with hw
  have hm := hasModes_map2alm (fs := fsZ) (by norm_num [fsZ]) (by norm_num [fsZ]) w (1, 0) (by simp [modesZ])
  have hmem : ∀ i < 3, ((i, 0) : ℕ × ℕ) ∈ fsZ.modes := by intro i hi; rw [mem_modes]; simp only [fsZ]; omega
  have ky : fsZ.ky 0 = 0 := by simp [FlatInfo.ky, waveNum]
  have kx1 : (modeDir (fsZ.kx 1) (fsZ.ky 0)).2 = 0 ∧ (modeDir (fsZ.kx 1) (fsZ.ky 0)).1 * (modeDir (fsZ.kx 1) (fsZ.ky 0)).1 = 1 := dirX ky (waveNum_ne_zero (l := fsZ.lx) (by norm_num [fsZ]) (n := fsZ.nx) (i := 1) (by norm_num [fsZ]) (by norm_num) : fsZ.kx 1 ≠ 0)
  have kx2 : (modeDir (fsZ.kx 2) (fsZ.ky 0)).2 = 0 ∧ (modeDir (fsZ.kx 2) (fsZ.ky 0)).1 * (modeDir (fsZ.kx 2) (fsZ.ky 0)).1 = 1 := dirX ky (waveNum_ne_zero (l := fsZ.lx) (by norm_num [fsZ]) (n := fsZ.nx) (i := 2) (by norm_num [fsZ]) (by norm_num) : fsZ.kx 2 ≠ 0)
  have e1 : (((modeDir (fsZ.kx 1) (fsZ.ky 0)).1 : ℝ) : ℂ) * (((modeDir (fsZ.kx 1) (fsZ.ky 0)).1 : ℝ) : ℂ) = 1 := by exact_mod_cast kx1.2
  have e2 : (((modeDir (fsZ.kx 2) (fsZ.ky 0)).1 : ℝ) : ℂ) * (((modeDir (fsZ.kx 2) (fsZ.ky 0)).1 : ℝ) : ℂ) = 1 := by exact_mod_cast kx2.2
  have hmask : ∀ k, fsZ.map2alm maskZ k = ((1 / (6 * π) : ℝ) : ℂ) := by
    intro k
    rw [map2alm_pixel (hmem 0 (by norm_num)) (fun p hp => by simp [maskZ, hp])]
    simp only [maskZ, if_true, FlatInfo.phase, FlatInfo.almNorm, fsZ]
    norm_num
    ring
  simp only [sumZ] at hm
  rw [d _ (hmem 0 (by norm_num)), d _ (hmem 1 (by norm_num)), d _ (hmem 2 (by norm_num)), eb2qu_two, eb2qu_two, eb2qu_two] at hm
  simp only [kx1.1, kx2.1, e1, e2, walmXLpower, if_true, pixModZ, hmask] at hm
  have p1 : fsZ.phase (1, 0) (1, 0) = 2 * π / 3 := by simp [FlatInfo.phase, fsZ]; ring
  have p2 : fsZ.phase (2, 0) (1, 0) = 2 * π - 2 * π / 3 := by simp [FlatInfo.phase, fsZ]; ring
  rw [p1, p2] at hm
  have hsum : Complex.exp (((2 * π - 2 * π / 3 : ℝ) : ℂ) * Complex.I) = Complex.exp (-((2 * π / 3 : ℝ) : ℂ) * Complex.I) := by
    rw [Complex.exp_eq_exp_iff_exists_int]
    exact ⟨1, by push_cast; ring⟩
  have hcos := cos_exp (2 * π / 3)
  have hc : cos (2 * π / 3) = -(1 / 2) := by
    rw [show 2 * π / 3 = π - π / 3 by ring, Real.cos_pi_sub, Real.cos_pi_div_three]
  rw [hc] at hcos
  rw [hsum] at hm
  have hpi : (π : ℂ) ≠ 0 := by exact_mod_cast Real.pi_ne_zero
  have hl : fsZ.lx = 1 ∧ fsZ.ly = 1 := ⟨rfl, rfl⟩
  rw [hl.1, hl.2] at hm
  generalize Complex.exp (((2 * π / 3 : ℝ) : ℂ) * Complex.I) = u at *
  generalize Complex.exp (-((2 * π / 3 : ℝ) : ℂ) * Complex.I) = u' at *
  have : (w (1, 0) : ℂ) = ((4 * π ^ 2 / 27 : ℝ) : ℂ) := by
    rw [hm]
    push_cast at hcos ⊢
    field_simp
    linear_combination (432 * (π : ℂ) ^ 2) * hcos
  exact_mod_cast this

end FlatFieldExample

open FlatFieldExample

/-- **C65 is false** for purified fields. The mask vanishes in the only pixel with signal. With `masked_on_input=True` and the
product of map and mask, or with the signal set to zero, the coefficient of the purified component at the first wave vector
vanishes; with the map itself it does not. -/
theorem C65_purified_wrong (env : FlatEnv) (henv : env.Exact) : (∀ c p, maskZ p ≠ 0 → skyZ c p = 0) ∧
    ∃ f f' f'' A A' A'', nmtFieldFlat env (argsZ skyZ) = .ok f ∧ nmtFieldFlat env (argsZ skyZ).premasked = .ok f' ∧
      nmtFieldFlat env (argsZ fun _ _ => 0) = .ok f'' ∧ f.alms = some (some A) ∧ f'.alms = some (some A') ∧ f''.alms = some (some A'') ∧
      A 0 (1, 0) ≠ 0 ∧ A' 0 (1, 0) = 0 ∧ A'' 0 (1, 0) = 0 := by
  have hz : ∀ c p, skyZ c p * maskZ p = 0 := by
    intro c p
    unfold skyZ maskZ
    by_cases h : p = (0, 0)
    · simp [h]
    · simp [h]
  refine ⟨fun c p hp => (mul_eq_zero.mp (hz c p)).resolve_right hp, ?_⟩
  obtain ⟨f, hf⟩ := argsZ_ok env skyZ
  obtain ⟨f'', hf''⟩ := argsZ_ok env fun _ _ => 0
  have h0 : ∀ (cc : (ℕ × ℕ → ℂ) → ℕ × ℕ → ℝ) w k, purifyFlatAlms cc fsZ true false maskZ w (fun _ _ => 0) 0 k = 0 := by
    intro cc w k
    have z : ∀ k, fsZ.map2alm (fun _ => 0) k = 0 := fun k => by simp [FlatInfo.map2alm, FlatInfo.dft]
    have z' : ∀ w : FlatMaps, spinProductFlat w (fun _ _ => 0) = fun _ _ => 0 := by
      intro w
      funext c p
      simp [spinProductFlat]
    simp [purifyFlatAlms, fsMap2alm, z', FlatInfo.map2almSpin, z, qu2eb_two, qu2eb_one]
  have hf' : ∃ f', nmtFieldFlat env (argsZ skyZ).premasked = .ok f' ∧
      f'.alms = some (some (purifyFlatAlms (env.c2r fsZ) fsZ true false maskZ (fsZ.map2alm maskZ) fun _ _ => 0)) := by
    obtain ⟨spin, beam, hs, -, hsp, hsh, -, -, hb, -⟩ := flat_ok (a := argsZ skyZ) rfl hf
    have h2 := hsp (Or.inl rfl)
    subst h2
    unfold nmtFieldFlat
    rw [if_neg (by simp [FlatFieldArgs.premasked, argsZ, fsZ]), flatSpin_premasked, hs]
    simp only [Outcome.bind]
    rw [if_neg (by simp), flatShapes_premasked, hsh]
    simp only
    rw [if_neg (by simp [FlatFieldArgs.premasked, argsZ, fsZ]), show (argsZ skyZ).premasked.beam = (argsZ skyZ).beam from rfl, hb]
    refine ⟨_, rfl, ?_⟩
    have hu : removeTempl 0 (fun _ => 0) (fun _ => unmaskFlat maskZ fun _ _ => 0) (unmaskFlat maskZ fun c p => skyZ c p * maskZ p) =
        fun _ _ => 0 := by
      funext c p
      simp [removeTempl, unmaskFlat, hz]
    simp only [flatAlloc, FlatFieldArgs.premasked, argsZ, Option.map_none, Option.getD_none, if_true, gt_iff_lt, lt_irrefl, if_false,
      Option.map_some, purifyFlat, Bool.false_eq_true]
    simp
    rw [hu]
  obtain ⟨f', hf', hA'⟩ := hf'
  have hA := flat_pure_alms (a := argsZ skyZ) rfl rfl rfl hf (Or.inl rfl)
  have hA'' := flat_pure_alms (a := argsZ fun _ _ => 0) rfl rfl rfl hf'' (Or.inl rfl)
  refine ⟨f, f', f'', _, _, _, hf, hf', hf'', hA, hA', hA'', ?_, h0 _ _ _, h0 _ _ _⟩
  obtain ⟨c, hc⟩ := henv fsZ
  show purifyFlatAlms (env.c2r fsZ) fsZ true false maskZ (fsZ.map2alm maskZ) skyZ 0 (1, 0) ≠ 0
  rw [hc]
  have hq : ((1, 0) : ℕ × ℕ) ∈ fsZ.modes := by simp [modesZ]
  have hpi := Real.pi_pos
  have hL := laplaceZ c
  set w1 := fsAlm2map c.run fsZ 1 (walmXLpower fsZ (fsZ.map2alm maskZ) 1) with hw1
  set w2 := fsAlm2map c.run fsZ 2 (walmXLpower fsZ (fsZ.map2alm maskZ) 2) with hw2
  have ky : fsZ.ky 0 = 0 := by simp [FlatInfo.ky, waveNum]
  have dq : modeDir (fsZ.kx 1) (fsZ.ky 0) = (1, 0) := by
    have h : (0 : ℝ) < 2 * π := by positivity
    have wx : fsZ.kx 1 = 2 * π := by simp [FlatInfo.kx, waveNum, fsZ]
    unfold modeDir
    rw [wx, ky, if_neg (by nlinarith), show 2 * π * (2 * π) + 0 * 0 = (2 * π) ^ 2 by ring, Real.sqrt_sq h.le, mul_one_div,
      div_self h.ne', zero_mul]
  set e : ℂ := Complex.exp (-(fsZ.phase (1, 0) (1, 0)) * Complex.I) * fsZ.almNorm with he
  have he0 : e ≠ 0 := by
    refine mul_ne_zero (Complex.exp_ne_zero _) ?_
    rw [Complex.ofReal_ne_zero]
    unfold FlatInfo.almNorm
    simp only [fsZ]
    positivity
  have hS : ∀ (w : FlatMaps) X p, p ≠ (1, 0) → spinProductFlat w skyZ X p = 0 := by
    intro w X p hp
    simp [spinProductFlat, skyZ, hp]
  have hQ : ∀ w : FlatMaps, fsZ.map2alm (spinProductFlat w skyZ 0) (1, 0) = w 0 (1, 0) * e := by
    intro w
    rw [map2alm_pixel hq (fun p hp => hS w 0 p hp), he]
    simp [spinProductFlat, skyZ, mul_assoc]
  have hQ' : ∀ w : FlatMaps, fsZ.map2alm (fun p => -1 * spinProductFlat w skyZ 0 p) (1, 0) = -w 0 (1, 0) * e := by
    intro w
    rw [map2alm_pixel hq (fun p hp => by rw [hS w 0 p hp, mul_zero]), he]
    simp [spinProductFlat, skyZ, mul_assoc]
  have hM : ∀ X, fsZ.map2alm (fun p => skyZ X p * maskZ p) (1, 0) = 0 := by
    intro X
    simp [hz, FlatInfo.map2alm, FlatInfo.dft]
  have hval : purifyFlatAlms c.run fsZ true false maskZ (fsZ.map2alm maskZ) skyZ 0 (1, 0) =
      e * (((-(4 * π ^ 2 / 27) / (2 * π / 3) ^ 2 : ℝ) : ℂ) + ((-(2 * w1 0 (1, 0) / (2 * π / 3)) : ℝ) : ℂ) * Complex.I) := by
    unfold purifyFlatAlms
    simp only [← hw1, ← hw2, true_and, true_or, if_true, pixModZ, fsMap2alm, FlatInfo.map2almSpin, OfNat.ofNat_ne_zero, if_false,
      one_ne_zero, qu2eb_two, qu2eb_one, hM, dq, hQ, hQ', hL]
    rw [if_pos (by positivity), if_pos (by positivity)]
    push_cast
    ring
  rw [hval]
  refine mul_ne_zero he0 fun h => ?_
  have := congrArg Complex.re h
  simp only [Complex.add_re, Complex.ofReal_re, Complex.mul_re, Complex.I_re, Complex.I_im, Complex.ofReal_im, mul_zero, zero_mul, sub_zero,
    add_zero, Complex.zero_re] at this
  have h1 : 4 * π ^ 2 / 27 / (2 * π / 3) ^ 2 > 0 := by positivity
  rw [neg_div] at this
  linarith

/-- Curved sky: an anisotropic mask, with maps masked beforehand. -/
example : ∃ f w wA, fieldMasks twoPix.pix (anisoArgs 2 1 1) = .ok (w, some wA) ∧ nmtField twoPix (anisoArgs 2 1 1) = .ok f ∧
    nmtField twoPix ((anisoArgs 2 1 1).premasked w (some wA)) = .ok f := by
  obtain ⟨f, hf⟩ := aniso_accept 2 1 1 (by norm_num)
  have hm : fieldMasks twoPix.pix (anisoArgs 2 1 1) = .ok (anisoMasks (anisoArgs 2 1 1) (fun _ => 1) fun _ => 1) := by
    unfold fieldMasks
    have h22 : (anisoArgs 2 1 1).mask22 = some fun _ => 1 := rfl
    have h12 : (anisoArgs 2 1 1).mask12 = some fun _ => 1 := rfl
    rw [h22, h12]
    simp only
    rw [if_neg]
    · rfl
    · rintro ⟨p, _, hp⟩
      norm_num [anisoArgs, twoPix, sum_range_succ] at hp
  refine ⟨f, _, _, hm, hf, ?_⟩
  rw [C65_masked_input _ _ _ _ hm rfl ⟨rfl, rfl⟩, hf]

/-- Flat sky: a field that is not purified, with a pixel that is masked. -/
example : ∃ f, nmtFieldFlat stdEnv { argsZ skyZ with purifyE := false } = .ok f ∧
    nmtFieldFlat stdEnv ({ argsZ skyZ with purifyE := false } : FlatFieldArgs).premasked = .ok f := by
  have : ∃ f, nmtFieldFlat stdEnv { argsZ skyZ with purifyE := false } = .ok f := by
    unfold nmtFieldFlat
    rw [if_neg (by simp [argsZ, fsZ])]
    have h2 : flatSpin { argsZ skyZ with purifyE := false } = .ok 2 := by simp [flatSpin, argsZ]
    rw [h2]
    simp only [Outcome.bind]
    rw [if_neg (by simp)]
    have h3 : flatShapes { argsZ skyZ with purifyE := false } = .ok () := by simp [flatShapes, argsZ, fsZ]
    rw [h3]
    simp only [Outcome.bind]
    rw [if_neg (by simp [argsZ, fsZ])]
    simp [flatBeam, argsZ, Outcome.bind]
  obtain ⟨f, hf⟩ := this
  exact ⟨f, hf, by rw [C65_flat_masked_input stdEnv _ rfl ⟨rfl, rfl⟩, hf]⟩

/-- Flat sky: a purified field with a mask that vanishes in two of three pixels, one of which contains signal. -/
example : ∃ f, nmtFieldFlat stdEnv { argsZ skyZ with maskedOnInput := true } = .ok f ∧
    nmtFieldFlat stdEnv { argsZ fun _ _ => 0 with maskedOnInput := true } = .ok f := by
  have : ∃ f, nmtFieldFlat stdEnv { argsZ skyZ with maskedOnInput := true } = .ok f := by
    unfold nmtFieldFlat
    rw [if_neg (by simp [argsZ, fsZ])]
    have h2 : flatSpin { argsZ skyZ with maskedOnInput := true } = .ok 2 := by simp [flatSpin, argsZ]
    rw [h2]
    simp only [Outcome.bind]
    rw [if_neg (by simp)]
    have h3 : flatShapes { argsZ skyZ with maskedOnInput := true } = .ok () := by simp [flatShapes, argsZ, fsZ]
    rw [h3]
    simp only
    rw [if_neg (by simp [argsZ, fsZ])]
    simp [flatBeam, argsZ]
  obtain ⟨f, hf⟩ := this
  refine ⟨f, hf, ?_⟩
  rw [← hf]
  refine C65_flat_masked_pixels stdEnv { argsZ skyZ with maskedOnInput := true } ⟨2, 3, 1, skyZ⟩ (fun _ _ => 0) rfl rfl (Or.inl rfl) rfl ?_
  intro c p hp
  have h0 : 0 < maskZ p := hp
  unfold maskZ at h0
  show (0 : ℝ) = skyZ c p
  unfold skyZ
  by_cases h : p = (0, 0)
  · simp [h]
  · rw [if_neg h] at h0
    exact absurd h0 (lt_irrefl _)

/-- The hypotheses of `C65_flat_templates` are met: a template that is not zero where the mask is. -/
example : ∃ f T, nmtFieldFlat stdEnv { argsZ skyZ with maskedOnInput := true, templates := some ⟨1, 2, 3, 1, fun _ _ _ => 1⟩ } = .ok f ∧
    f.getTemplates = .ok (1, T) ∧ T 0 0 (0, 0) = 1 ∧ T 0 0 (1, 0) = 0 := by
  have : ∃ f, nmtFieldFlat stdEnv { argsZ skyZ with maskedOnInput := true, templates := some ⟨1, 2, 3, 1, fun _ _ _ => 1⟩ } = .ok f := by
    unfold nmtFieldFlat
    rw [if_neg (by simp [argsZ, fsZ])]
    have h2 : flatSpin { argsZ skyZ with maskedOnInput := true, templates := some ⟨1, 2, 3, 1, fun _ _ _ => 1⟩ } = .ok 2 := by simp [flatSpin, argsZ]
    rw [h2]
    simp only [Outcome.bind]
    rw [if_neg (by simp)]
    have h3 : flatShapes { argsZ skyZ with maskedOnInput := true, templates := some ⟨1, 2, 3, 1, fun _ _ _ => 1⟩ } = .ok () := by
      simp [flatShapes, argsZ, fsZ]
    rw [h3]
    simp only
    rw [if_neg (by simp [argsZ, fsZ])]
    simp [flatBeam, argsZ]
  obtain ⟨f, hf⟩ := this
  obtain ⟨T, h1, h2⟩ := C65_flat_templates stdEnv _ _ _ rfl rfl one_ne_zero rfl f hf
  exact ⟨f, T, hf, h1, (h2 0 0 (0, 0)).2.1 rfl (by simp [argsZ, maskZ]), (h2 0 0 (1, 0)).2.2 rfl (by simp [argsZ, maskZ]) (Or.inl rfl)⟩

/-- Flat sky: a purified field with a positive mask. -/
example : ∃ f f' A A', nmtFieldFlat stdEnv (argsE 1 1) = .ok f ∧ nmtFieldFlat stdEnv (argsE 1 1).premasked = .ok f' ∧
    f.alms = some (some A) ∧ f'.alms = some (some A') ∧ ∀ X < 2, ∀ k, A' X k = A X k := by
  obtain ⟨f, hf⟩ := argsE_ok stdEnv (lx := 1) (ly := 1) one_pos one_pos
  have hA := flat_pure_alms (a := argsE 1 1) rfl rfl rfl hf (Or.inr rfl)
  obtain ⟨f', A', h1, h2, h3⟩ := C65_flat_masked_input_purified_partial stdEnv (argsE 1 1) _ f rfl rfl hf
    (fun p _ => by
      show 0 < maskE p
      unfold maskE
      have := Real.neg_one_le_cos (2 * π * p.1 / 5)
      linarith) _ hA
  exact ⟨f, f', _, A', hf, h1, hA, h2, h3⟩

end NaMaster
