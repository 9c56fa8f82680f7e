import Verif.Flat.BiasCov
import Verif.Field.BiasLemmas
import Verif.Flat.PipelineProps
import Mathlib.LinearAlgebra.Basis.VectorSpace

/-! # Lemmas about deprojected flat-sky coefficients and their spectra -/

namespace NaMaster

open Real Finset MeasureTheory

/-! ## Specification of the calls -/

/-- A constructor call for a complete field with maps that are not masked on input. -/
structure FlatCall (a : FlatFieldArgs) : Prop where
  unmasked : a.maskedOnInput = false
  full : a.lite = false

/-- The same call with given maps. -/
def FlatFieldArgs.withMaps (a : FlatFieldArgs) (nc : ℕ) (v : FlatMaps) : FlatFieldArgs := { a with maps := some ⟨nc, a.fs.nx, a.fs.ny, v⟩ }

/-- The same call without templates. -/
def FlatFieldArgs.bare (a : FlatFieldArgs) : FlatFieldArgs := { a with templates := none }

/-- The spin: the argument, or 0 for one map and 2 for two. -/
def FlatFieldArgs.spinFor (a : FlatFieldArgs) (nc : ℕ) : ℕ := a.spin.getD (if nc = 1 then 0 else 2)

/-! ## Linear operations -/

/-- Number of templates. -/
def FlatFieldArgs.nTempl (a : FlatFieldArgs) : ℕ := (a.templates.map FlatTemplArg.ntemp).getD 0

/-- The templates. -/
def FlatFieldArgs.rawTempl (a : FlatFieldArgs) : ℕ → FlatMaps := (a.templates.map FlatTemplArg.val).getD fun _ _ _ => 0

/-- The coefficients of maps after masking or purification. -/
noncomputable def popFlat (env : FlatEnv) (a : FlatFieldArgs) (sp : ℕ) (m : FlatMaps) : FlatAlms :=
  if a.purifyE = true ∨ a.purifyB = true then
    purifyFlatAlms (env.c2r a.fs) a.fs a.purifyE a.purifyB a.mask (a.fs.map2alm a.mask) m
  else fsMap2alm a.fs sp fun c p => m c p * a.mask p

theorem flat_map2alm_lin (fs : FlatInfo) (x y : ℝ) (f g : ℕ × ℕ → ℝ) (k : ℕ × ℕ) :
    fs.map2alm (fun p => x * f p + y * g p) k = x * fs.map2alm f k + y * fs.map2alm g k := by
  unfold FlatInfo.map2alm FlatInfo.dft
  have : ∑ p ∈ fs.modes, ((x * f p + y * g p : ℝ) : ℂ) * Complex.exp (-(fs.phase k p) * Complex.I) =
      x * (∑ p ∈ fs.modes, (f p : ℂ) * Complex.exp (-(fs.phase k p) * Complex.I)) +
        y * ∑ p ∈ fs.modes, (g p : ℂ) * Complex.exp (-(fs.phase k p) * Complex.I) := by
    rw [mul_sum, mul_sum, ← sum_add_distrib]
    refine sum_congr rfl fun p _ => ?_
    push_cast
    ring
  rw [this]
  ring

theorem fsMap2alm_lin (fs : FlatInfo) (s : ℕ) (x y : ℝ) (m n l : FlatMaps) (hl : ∀ c p, l c p = x * m c p + y * n c p) (X : ℕ) (k : ℕ × ℕ) :
    fsMap2alm fs s l X k = x * fsMap2alm fs s m X k + y * fsMap2alm fs s n X k := by
  have e : ∀ c, l c = fun p => x * m c p + y * n c p := fun c => funext fun p => hl c p
  unfold fsMap2alm FlatInfo.map2almSpin qu2eb
  simp only [e, flat_map2alm_lin]
  split_ifs <;> ring

theorem popFlat_lin (env : FlatEnv) (a : FlatFieldArgs) (sp : ℕ) (x y : ℝ) (m1 m2 : FlatMaps) :
    popFlat env a sp (x • m1 + y • m2) = x • popFlat env a sp m1 + y • popFlat env a sp m2 := by
  funext X k
  simp only [Pi.add_apply, Pi.smul_apply, Complex.real_smul]
  unfold popFlat
  by_cases hp : a.purifyE = true ∨ a.purifyB = true
  · simp only [if_pos hp]
    unfold purifyFlatAlms
    have h1 := fsMap2alm_lin a.fs 2 x y (fun c p => m1 c p * a.mask p) (fun c p => m2 c p * a.mask p)
      (fun c p => (x • m1 + y • m2) c p * a.mask p) (fun c p => by simp; ring) X k
    have hsp : ∀ w c p, spinProductFlat w (x • m1 + y • m2) c p = x * spinProductFlat w m1 c p + y * spinProductFlat w m2 c p := by
      intro w c p
      simp only [spinProductFlat, Pi.add_apply, Pi.smul_apply, smul_eq_mul]
      split_ifs <;> ring
    have h2 := fsMap2alm_lin a.fs 1 x y _ _ _ (hsp (fsAlm2map (env.c2r a.fs) a.fs 1 (walmXLpower a.fs (a.fs.map2alm a.mask) 1))) X k
    have h3 := fsMap2alm_lin a.fs 0 x y (fun c p => -1 * spinProductFlat (fsAlm2map (env.c2r a.fs) a.fs 2
        (walmXLpower a.fs (a.fs.map2alm a.mask) 2)) m1 c p) (fun c p => -1 * spinProductFlat (fsAlm2map (env.c2r a.fs) a.fs 2
        (walmXLpower a.fs (a.fs.map2alm a.mask) 2)) m2 c p) (fun c p => -1 * spinProductFlat (fsAlm2map (env.c2r a.fs) a.fs 2
        (walmXLpower a.fs (a.fs.map2alm a.mask) 2)) (x • m1 + y • m2) c p) (fun c p => by rw [hsp]; ring) X k
    rw [h1, h2, h3]
    split_ifs <;> ring
  · simp only [if_neg hp]
    exact fsMap2alm_lin a.fs sp x y _ _ _ (fun c p => by simp; ring) X k

/-- `popFlat` as a linear map. -/
noncomputable def popFlatL (env : FlatEnv) (a : FlatFieldArgs) (sp : ℕ) : FlatMaps →ₗ[ℝ] FlatAlms where
  toFun := popFlat env a sp
  map_add' x y := by simpa using popFlat_lin env a sp 1 1 x y
  map_smul' r x := by simpa using popFlat_lin env a sp r 0 x 0

theorem flat_dft_congr {fs : FlatInfo} {f g : ℕ × ℕ → ℝ} (h : ∀ p ∈ fs.modes, f p = g p) (k : ℕ × ℕ) : fs.map2alm f k = fs.map2alm g k := by
  unfold FlatInfo.map2alm FlatInfo.dft
  rw [sum_congr rfl fun p hp => by rw [h p hp]]

theorem fsMap2alm_pix {fs : FlatInfo} {s : ℕ} {m n : FlatMaps} (h : ∀ c < nmapsOf s, ∀ p ∈ fs.modes, m c p = n c p) {X : ℕ}
    (hX : X < nmapsOf s) (k : ℕ × ℕ) : fsMap2alm fs s m X k = fsMap2alm fs s n X k := by
  rw [fsMap2alm_rot fs s m hX, fsMap2alm_rot fs s n hX]
  exact sum_congr rfl fun c hc => by rw [flat_dft_congr (h c (mem_range.1 hc))]

/-- The coefficients depend on the pixels of the maps only. -/
theorem popFlat_congr (env : FlatEnv) {a : FlatFieldArgs} {sp : ℕ} (h2 : (a.purifyE = true ∨ a.purifyB = true) → sp = 2) {m n : FlatMaps}
    (h : ∀ c < nmapsOf sp, ∀ p ∈ a.fs.modes, m c p = n c p) {X : ℕ} (hX : X < nmapsOf sp) (k : ℕ × ℕ) :
    popFlat env a sp m X k = popFlat env a sp n X k := by
  unfold popFlat
  by_cases hp : a.purifyE = true ∨ a.purifyB = true
  · obtain rfl := h2 hp
    simp only [if_pos hp]
    have hn : nmapsOf 2 = 2 := rfl
    rw [hn] at h hX
    unfold purifyFlatAlms
    have e1 : fsMap2alm a.fs 2 (fun c p => m c p * a.mask p) X k = fsMap2alm a.fs 2 (fun c p => n c p * a.mask p) X k :=
      fsMap2alm_pix (fun c hc p hp => by rw [h c hc p hp]) hX k
    have hsp : ∀ w c, ∀ p ∈ a.fs.modes, spinProductFlat w m c p = spinProductFlat w n c p := by
      intro w c p hp
      unfold spinProductFlat
      rw [h 0 (by norm_num) p hp, h 1 (by norm_num) p hp]
    have e2 : ∀ w, fsMap2alm a.fs 1 (spinProductFlat w m) X k = fsMap2alm a.fs 1 (spinProductFlat w n) X k := fun w =>
      fsMap2alm_pix (fun c _ p hp => hsp w c p hp) hX k
    have e3 : ∀ w, fsMap2alm a.fs 0 (fun c p => -1 * spinProductFlat w m c p) X k =
        fsMap2alm a.fs 0 (fun c p => -1 * spinProductFlat w n c p) X k := by
      intro w
      unfold fsMap2alm
      simp only [if_true]
      exact flat_dft_congr (fun p hp => by rw [hsp w X p hp]) k
    rw [e1, e2, e3]
  · simp only [if_neg hp]
    exact fsMap2alm_pix (fun c hc p hp => by rw [h c hc p hp]) hX k

/-! ## Spectra -/

theorem halfProd_swap (nx : ℕ) (a1 a2 : ℕ × ℕ → ℂ) (k : ℕ × ℕ) : halfProd nx a1 a2 k = halfProd nx a2 a1 k := by
  unfold halfProd
  ring

theorem clBand_comm (fs : FlatInfo) (rows : List (List ℤ)) (a1 a2 : ℕ × ℕ → ℂ) (ib : ℕ) : clBand fs rows a1 a2 ib = clBand fs rows a2 a1 ib := by
  unfold clBand
  simp only [halfProd_swap fs.nx a1 a2]

/-- Spectra with a fixed field are linear in the other one. -/
noncomputable def clFlatL (fs : FlatInfo) (rows : List (List ℤ)) (a : ℕ × ℕ → ℂ) (ib d : ℕ) : FlatAlms →ₗ[ℝ] ℝ where
  toFun x := clBand fs rows a (x d) ib
  map_add' x y := by
    unfold clBand
    by_cases h : nCells fs rows ib ≤ 0
    · simp only [if_pos h, add_zero]
    · simp only [if_neg h]
      rw [← add_mul, ← sum_add_distrib]
      congr 1
      refine sum_congr rfl fun k _ => ?_
      unfold halfProd
      simp only [Pi.add_apply, Complex.add_re, Complex.add_im]
      ring
  map_smul' r x := by
    unfold clBand
    by_cases h : nCells fs rows ib ≤ 0
    · simp only [if_pos h, smul_zero]
    · simp only [if_neg h, RingHom.id_apply, smul_eq_mul]
      rw [← mul_assoc, mul_sum]
      congr 1
      refine sum_congr rfl fun k _ => ?_
      unfold halfProd
      simp only [Pi.smul_apply, Complex.real_smul, Complex.re_ofReal_mul, Complex.im_ofReal_mul]
      ring

/-- Spectrum of two fields from each of which a combination of other fields is subtracted. -/
theorem clBand_expand (fs : FlatInfo) (rows : List (List ℤ)) (X Y : FlatAlms) (n m : ℕ) (α β : ℕ → ℝ) (A B : ℕ → FlatAlms) (ib c d : ℕ) :
    clBand fs rows ((X - ∑ i ∈ range n, α i • A i) c) ((Y - ∑ s ∈ range m, β s • B s) d) ib =
      clBand fs rows (X c) (Y d) ib - (∑ i ∈ range n, α i * clBand fs rows (A i c) (Y d) ib) -
        (∑ s ∈ range m, β s * clBand fs rows (X c) (B s d) ib) +
        ∑ i ∈ range n, ∑ s ∈ range m, α i * β s * clBand fs rows (A i c) (B s d) ib := by
  have hR : ∀ (a : ℕ × ℕ → ℂ), clBand fs rows a ((Y - ∑ s ∈ range m, β s • B s) d) ib =
      clBand fs rows a (Y d) ib - ∑ s ∈ range m, β s * clBand fs rows a (B s d) ib := by
    intro a
    have := (clFlatL fs rows a ib d).map_sub Y (∑ s ∈ range m, β s • B s)
    rw [_root_.map_sum] at this
    simp only [map_smul, smul_eq_mul] at this
    exact this
  have hL : ∀ (a : ℕ × ℕ → ℂ), clBand fs rows ((X - ∑ i ∈ range n, α i • A i) c) a ib =
      clBand fs rows (X c) a ib - ∑ i ∈ range n, α i * clBand fs rows (A i c) a ib := by
    intro a
    rw [clBand_comm]
    simp only [clBand_comm fs rows _ a]
    have := (clFlatL fs rows a ib c).map_sub X (∑ i ∈ range n, α i • A i)
    rw [_root_.map_sum] at this
    simp only [map_smul, smul_eq_mul] at this
    exact this
  rw [hL, hR]
  simp only [hR, mul_sub, sum_sub_distrib, mul_sum]
  have : ∑ i ∈ range n, ∑ s ∈ range m, α i * (β s * clBand fs rows (A i c) (B s d) ib) =
      ∑ i ∈ range n, ∑ s ∈ range m, α i * β s * clBand fs rows (A i c) (B s d) ib :=
    sum_congr rfl fun i _ => sum_congr rfl fun s _ => by ring
  rw [this]
  ring

/-- Scalar products with a fixed map are linear. -/
noncomputable def flatDotL (fs : FlatInfo) (nm : ℕ) (a : FlatMaps) : FlatMaps →ₗ[ℝ] ℝ where
  toFun x := fs.dot nm a x
  map_add' x y := by
    simp only [FlatInfo.dot, Pi.add_apply, mul_add, sum_add_distrib, add_mul]
  map_smul' r x := by
    simp only [FlatInfo.dot, Pi.smul_apply, smul_eq_mul, RingHom.id_apply, mul_sum, sum_mul]
    exact sum_congr rfl fun c _ => sum_congr rfl fun p _ => by ring

/-- The map that is one in one pixel. -/
def flatDelta (c : ℕ) (p : ℕ × ℕ) : FlatMaps := fun c' p' => if c' = c ∧ p' = p then 1 else 0

open Classical in
/-- Maps set to zero outside of the pixels. -/
noncomputable def cutMaps (fs : FlatInfo) (nm : ℕ) (s : FlatMaps) : FlatMaps := fun c p => if c < nm ∧ p ∈ fs.modes then s c p else 0

theorem cutMaps_delta (fs : FlatInfo) (nm : ℕ) (s : FlatMaps) : cutMaps fs nm s = ∑ c ∈ range nm, ∑ p ∈ fs.modes, s c p • flatDelta c p := by
  funext c' p'
  simp only [Finset.sum_apply, Pi.smul_apply, flatDelta, smul_eq_mul, mul_ite, mul_one, mul_zero]
  unfold cutMaps
  by_cases h : c' < nm ∧ p' ∈ fs.modes
  · rw [if_pos h, sum_eq_single_of_mem c' (mem_range.2 h.1), sum_eq_single_of_mem p' h.2]
    · simp
    · intro p _ hp; rw [if_neg]; rintro ⟨_, rfl⟩; exact hp rfl
    · intro c _ hc
      exact sum_eq_zero fun p _ => if_neg (by rintro ⟨rfl, _⟩; exact hc rfl)
  · rw [if_neg h]
    symm
    refine sum_eq_zero fun c hc => sum_eq_zero fun p hp => if_neg ?_
    rintro ⟨rfl, rfl⟩
    exact h ⟨mem_range.1 hc, hp⟩

/-- A linear function of maps depends on the pixels only. -/
def PixLocal (fs : FlatInfo) (nm : ℕ) (φ : FlatMaps →ₗ[ℝ] ℝ) : Prop := ∀ m n, (∀ c < nm, ∀ p ∈ fs.modes, m c p = n c p) → φ m = φ n

theorem PixLocal.expand {fs : FlatInfo} {nm : ℕ} {φ : FlatMaps →ₗ[ℝ] ℝ} (h : PixLocal fs nm φ) (m : FlatMaps) :
    φ m = ∑ c ∈ range nm, ∑ p ∈ fs.modes, m c p * φ (flatDelta c p) := by
  have e : φ m = φ (cutMaps fs nm m) := h _ _ fun c hc p hp => by unfold cutMaps; rw [if_pos ⟨hc, hp⟩]
  rw [e, cutMaps_delta]
  simp only [_root_.map_sum, map_smul, smul_eq_mul]

/-- The mean of a linear function of maps. -/
theorem flat_mean_linear {Ω : Type*} (E : (Ω → ℝ) →ₗ[ℝ] ℝ) {fs : FlatInfo} {nm : ℕ} {φ : FlatMaps →ₗ[ℝ] ℝ} (hφ : PixLocal fs nm φ)
    (s : Ω → FlatMaps) (X : Ω → ℝ) (M : FlatMaps) (h : ∀ c < nm, ∀ p ∈ fs.modes, E (fun ω => s ω c p * X ω) = M c p) :
    E (fun ω => X ω * φ (s ω)) = φ M := by
  have e : (fun ω => X ω * φ (s ω)) = ∑ c ∈ range nm, ∑ p ∈ fs.modes, φ (flatDelta c p) • fun ω => s ω c p * X ω := by
    funext ω
    rw [hφ.expand]
    simp only [Finset.sum_apply, Pi.smul_apply, smul_eq_mul, mul_sum]
    exact sum_congr rfl fun c _ => sum_congr rfl fun p _ => by ring
  rw [e, hφ.expand M]
  simp only [_root_.map_sum, map_smul, smul_eq_mul]
  refine sum_congr rfl fun c hc => sum_congr rfl fun p hp => ?_
  rw [h c (mem_range.1 hc) p hp]; ring

/-! ## Integrals -/

/-- A linear functional on all functions that is the integral on the integrable ones. -/
theorem exists_mean {Ω : Type*} [MeasurableSpace Ω] (μ : Measure Ω) :
    ∃ E : (Ω → ℝ) →ₗ[ℝ] ℝ, ∀ f : Ω → ℝ, Integrable f μ → E f = ∫ ω, f ω ∂μ := by
  let V : Submodule ℝ (Ω → ℝ) :=
    { carrier := {f | Integrable f μ}
      add_mem' := fun h1 h2 => Integrable.add h1 h2
      zero_mem' := integrable_zero _ _ _
      smul_mem' := fun r _ h => Integrable.smul r h }
  let I : V →ₗ[ℝ] ℝ :=
    { toFun := fun f => ∫ ω, f.1 ω ∂μ
      map_add' := fun f g => integral_add f.2 g.2
      map_smul' := fun r f => by
        have := integral_smul (μ := μ) r f.1
        simpa using this }
  obtain ⟨E, hE⟩ := I.exists_extend
  refine ⟨E, fun f hf => ?_⟩
  have := congrArg (fun L => L ⟨f, hf⟩) hE
  exact this

/-! ## Fields made by the constructor -/

/-- What the constructor returns for a complete field with maps not masked on input: the attributes the spectra and the bias
depend on. -/
structure FlatIs (env : FlatEnv) (a : FlatFieldArgs) (sp : ℕ) (v : FlatMaps) (f : FlatFieldObj) : Prop where
  fs : f.base.fs = a.fs
  spin : f.base.spin = sp
  mask : f.base.mask = a.mask
  nmaps : f.nmaps = nmapsOf sp
  lite : f.lite = false
  maskOnly : f.maskOnly = false
  ntemp : f.ntemp = a.nTempl
  lx : 0 < a.fs.lx
  ly : 0 < a.fs.ly
  pure2 : (a.purifyE = true ∨ a.purifyB = true) → sp = 2
  pop : ∀ m, purifyGenericFlat env f m = popFlat env a sp m
  temp : ∀ i < a.nTempl, f.temp.getD (fun _ _ _ => 0) i = fun c p => a.rawTempl i c p * a.mask p
  aTemp : ∀ i < a.nTempl, f.aTemp.getD (fun _ _ _ => 0) i = popFlat env a sp (a.rawTempl i)
  matrix : f.matrixM = if a.nTempl > 0 then some (pinvC env.eig a.nTempl (flatGram a.fs (nmapsOf sp) a.nTempl fun i c p =>
    a.rawTempl i c p * a.mask p) a.tol) else none
  alms : ∀ Q, f.matrixM.getD (some fun _ _ => 0) = some Q → f.alms = some (some (popFlat env a sp (v - ∑ i ∈ range a.nTempl,
    (∑ j ∈ range a.nTempl, Q i j * a.fs.dot (nmapsOf sp) (fun c p => a.rawTempl j c p * a.mask p) fun c p => v c p * a.mask p) •
      a.rawTempl i)))

theorem flatSpin_for {a : FlatFieldArgs} {nc sp : ℕ} {v : FlatMaps} (h : flatSpin (a.withMaps nc v) = .ok sp) : sp = a.spinFor nc := by
  unfold flatSpin FlatFieldArgs.withMaps at h
  unfold FlatFieldArgs.spinFor
  simp only at h
  by_cases h1 : nc ≠ 1 ∧ nc ≠ 2
  · rw [if_pos h1] at h; cases h
  rw [if_neg h1] at h
  cases hs : a.spin with
  | none =>
    rw [hs] at h
    exact (Outcome.ok.inj h).symm
  | some s =>
    rw [hs] at h
    simp only at h
    by_cases h2 : s ≠ 0 ∧ nc = 1 ∨ s = 0 ∧ nc ≠ 1
    · rw [if_pos h2] at h; cases h
    · rw [if_neg h2] at h
      exact (Outcome.ok.inj h).symm

theorem flat_alloc_is {env : FlatEnv} {a : FlatFieldArgs} (hc : FlatCall a) {sp : ℕ} {v : FlatMaps} {beam : ℝ → ℝ} {pe pb : ℕ}
    (e1 : (pe == 1) = a.purifyE) (e2 : (pb == 1) = a.purifyB) (e3 : pe ≠ 0 ↔ a.purifyE = true) (e4 : pb ≠ 0 ↔ a.purifyB = true)
    (hx : 0 < a.fs.lx) (hy : 0 < a.fs.ly) (hp : (a.purifyE = true ∨ a.purifyB = true) → sp = 2) :
    FlatIs env a sp v (flatAlloc env ⟨a.fs, sp, a.mask, beam, pe, pb⟩ v (a.templates.map fun t => (t.ntemp, t.val)) a.tol
      a.maskedOnInput a.lite) := by
  have ent : ((a.templates.map fun t => (t.ntemp, t.val)).map Prod.fst).getD 0 = a.nTempl := by
    unfold FlatFieldArgs.nTempl; cases a.templates <;> rfl
  have etv : ((a.templates.map fun t => (t.ntemp, t.val)).map Prod.snd).getD (fun _ _ _ => 0) = a.rawTempl := by
    unfold FlatFieldArgs.rawTempl; cases a.templates <;> rfl
  have hfull := hc.full
  have hunm := hc.unmasked
  refine ⟨rfl, rfl, rfl, rfl, hfull, rfl, ent, hx, hy, hp, ?_, ?_, ?_, ?_, ?_⟩
  · intro m
    unfold purifyGenericFlat popFlat flatAlloc
    simp only [e1, e2]
    by_cases hpu : a.purifyE = true ∨ a.purifyB = true
    · rw [if_pos hpu, if_pos (by rw [e3, e4]; exact hpu.symm)]
      have : (a.purifyE || a.purifyB) = true := by simpa using hpu
      simp [this, hfull]
    · rw [if_neg hpu, if_neg (by rw [e3, e4]; exact fun h => hpu h.symm)]
  · intro i hi
    unfold flatAlloc
    simp only [ent, etv, hfull, hunm, Bool.false_eq_true, false_or, if_false, id]
    rw [if_neg (by omega)]
    simp only [Option.getD_some, ite_self]
  · intro i hi
    unfold flatAlloc popFlat
    simp only [ent, etv, hfull, hunm, Bool.false_eq_true, false_or, if_false, id, e1, e2]
    rw [if_neg (by omega)]
    simp only [Option.getD_some, Bool.or_eq_true]
    rfl
  · unfold flatAlloc
    simp only [ent, etv, hunm, Bool.false_eq_true, if_false]
  · intro Q hQ
    unfold flatAlloc at hQ ⊢
    simp only [ent, etv, hfull, hunm, Bool.false_eq_true, false_or, if_false, id, e1, e2] at hQ ⊢
    unfold popFlat
    have hrem : ∀ (α : ℕ → ℝ), removeTempl a.nTempl α a.rawTempl v = v - ∑ i ∈ range a.nTempl, α i • a.rawTempl i := by
      intro α; funext c p
      simp [removeTempl]
    have hremM : ∀ (α : ℕ → ℝ), (removeTempl a.nTempl α (fun i c p => a.rawTempl i c p * a.mask p) fun c p => v c p * a.mask p) =
        fun c p => (v - ∑ i ∈ range a.nTempl, α i • a.rawTempl i) c p * a.mask p := by
      intro α; funext c p
      simp only [removeTempl, Pi.sub_apply, Finset.sum_apply, Pi.smul_apply, smul_eq_mul, sub_mul, sum_mul]
      congr 1
      exact sum_congr rfl fun i _ => by ring
    by_cases hnt : a.nTempl > 0
    · simp only [if_pos hnt, Option.getD_some] at hQ ⊢
      rw [hQ]
      simp only [Option.map_some]
      by_cases hpu : a.purifyE = true ∨ a.purifyB = true
      · have : (a.purifyE || a.purifyB) = true := by simpa using hpu
        simp only [this, if_true, if_pos hpu, hrem, Option.map_some]
        rfl
      · have : (a.purifyE || a.purifyB) = false := by
          cases h1 : a.purifyE <;> cases h2 : a.purifyB <;> simp_all
        simp only [this, Bool.false_eq_true, if_false, if_neg hpu, hremM, Option.map_some]
        rfl
    · have hnt0 : a.nTempl = 0 := by omega
      have h00 : ¬ (0 : ℕ) > 0 := by omega
      have hr0 : ∀ α T (m : FlatMaps), removeTempl 0 α T m = m := by
        intro α T m; funext c p; simp [removeTempl]
      simp only [hnt0, range_zero, sum_empty, sub_zero, h00, if_false, Option.map_some, hr0]
      by_cases hpu : a.purifyE = true ∨ a.purifyB = true
      · have : (a.purifyE || a.purifyB) = true := by simpa using hpu
        simp only [this, if_true, if_pos hpu, Option.map_some]
        rfl
      · have : (a.purifyE || a.purifyB) = false := by
          cases h1 : a.purifyE <;> cases h2 : a.purifyB <;> simp_all
        simp only [this, Bool.false_eq_true, if_false, if_neg hpu, Option.map_some]

theorem flat_is {env : FlatEnv} {a : FlatFieldArgs} (hc : FlatCall a) {nc : ℕ} {v : FlatMaps} {f : FlatFieldObj}
    (h : nmtFieldFlat env (a.withMaps nc v) = .ok f) : nc = nmapsOf (a.spinFor nc) ∧ FlatIs env a (a.spinFor nc) v f := by
  obtain ⟨sp, beam, hs, hn, hp, hsh, hx, hy, hb, rfl⟩ := flat_ok (m := ⟨nc, a.fs.nx, a.fs.ny, v⟩) rfl h
  obtain rfl := flatSpin_for hs
  refine ⟨hn, flat_alloc_is hc ?_ ?_ ?_ ?_ hx hy hp⟩
  · change ((if a.purifyE = true then 1 else 0 : ℕ) == 1) = a.purifyE
    cases a.purifyE <;> rfl
  · change ((if a.purifyB = true then 1 else 0 : ℕ) == 1) = a.purifyB
    cases a.purifyB <;> rfl
  · change (if a.purifyE = true then 1 else 0 : ℕ) ≠ 0 ↔ _
    cases a.purifyE <;> simp
  · change (if a.purifyB = true then 1 else 0 : ℕ) ≠ 0 ↔ _
    cases a.purifyB <;> simp

/-! ## Bands of the modes -/

theorem alm2clRow_total (fs : FlatInfo) (b : FlatBins ℝ) (h0 : 0 < b.nBands) (c : EllCuts) (iy : ℕ) (xs : List ℕ) (ik : ℤ)
    (hk : ik < b.nBands) : ∃ t, alm2clRow fs b c iy ik xs = .ok t := by
  induction xs generalizing ik with
  | nil => exact ⟨[], rfl⟩
  | cons ix xs ih =>
    unfold alm2clRow
    by_cases hx : fs.kx ix ≥ c.x0 ∧ fs.kx ix ≤ c.x1
    · obtain ⟨t, h1⟩ := ih ik hk
      rw [if_pos hx, h1]
      exact ⟨_, rfl⟩
    · rw [if_neg hx]
      obtain ⟨r, h3, _, h4⟩ := searchFast_total b (fs.kmod ix iy) ik h0 hk
      obtain ⟨t, h5⟩ := ih r h4
      rw [h3]
      simp only [Outcome.bind, h5]
      exact ⟨_, rfl⟩

theorem outcomeAll_total {α β : Type*} (f : α → Outcome β) (l : List α) (h : ∀ a ∈ l, ∃ b, f a = .ok b) : ∃ r, Outcome.all (l.map f) = .ok r := by
  induction l with
  | nil => exact ⟨[], rfl⟩
  | cons a l ih =>
    obtain ⟨b, hb⟩ := h a (by simp)
    obtain ⟨r, hr⟩ := ih fun x hx => h x (by simp [hx])
    exact ⟨b :: r, by simp [Outcome.all, hb, hr, Outcome.bind]⟩

theorem alm2clTable_total (fs : FlatInfo) (b : FlatBins ℝ) (h0 : 0 < b.nBands) (c : EllCuts) :
    ∃ r, Outcome.all ((List.range fs.ny).map fun iy => alm2clBands fs b c iy) = .ok r := by
  refine outcomeAll_total _ _ fun iy _ => ?_
  unfold alm2clBands
  split_ifs
  · exact ⟨_, rfl⟩
  · exact alm2clRow_total fs b h0 c iy _ 0 (by omega)

theorem coupled_flat_objs (f g : FlatFieldObj) (b : FlatBins ℝ) (c : EllCuts) (rows : List (List ℤ))
    (hrows : Outcome.all ((List.range f.base.fs.ny).map fun iy => alm2clBands f.base.fs b c iy) = .ok rows)
    (hfs : f.base.fs = g.base.fs) (hm1 : f.maskOnly = false) (hm2 : g.maskOnly = false) (x y : FlatAlms) (hx : f.alms = some (some x))
    (hy : g.alms = some (some y)) (n1 n2 : ℕ) (hn1 : n1 = nmapsOf f.base.spin) (hn2 : n2 = nmapsOf g.base.spin) :
    coupledCellFlat f.data g.data b c = .ok (Arr2.of (n1 * n2) b.nBands fun i ib =>
      if i < n1 * n2 then clBand f.base.fs rows (x (i / n2)) (y (i % n2)) ib else 0) := by
  have e1 : f.data.fs = f.base.fs := rfl
  have e2 : g.data.fs = g.base.fs := rfl
  have e3 : f.data.nmaps = n1 := hn1.symm
  have e4 : g.data.nmaps = n2 := hn2.symm
  have e5 : f.data.alms = x := by unfold FlatFieldObj.data; rw [hx]; rfl
  have e6 : g.data.alms = y := by unfold FlatFieldObj.data; rw [hy]; rfl
  unfold coupledCellFlat
  rw [e1, e2, hfs, if_neg (by simp), if_neg (by simp)]
  unfold coupledCellFlatC
  rw [e1, e2, hfs, if_neg (by show ¬ (f.maskOnly = true ∨ g.maskOnly = true); simp [hm1, hm2]), if_neg (by simp)]
  unfold fsAlm2clAll
  rw [e1, e3, e4, e5, e6, if_neg (lt_irrefl _)]
  have hall : Outcome.all ((List.range (n1 * n2)).map fun i => fsAlm2cl f.base.fs b c (x (i / n2)) (y (i % n2))) =
      .ok ((List.range (n1 * n2)).map fun i => tab b.nBands (clBand f.base.fs rows (x (i / n2)) (y (i % n2)))) := by
    refine all_ok _ (fun i => tab b.nBands (clBand f.base.fs rows (x (i / n2)) (y (i % n2)))) _ fun i _ => ?_
    unfold fsAlm2cl
    rw [hrows]
    rfl
  rw [hall]
  simp only [Outcome.bind]
  congr 1
  refine Arr2.of_congr fun i ib hi hib => ?_
  · rw [if_pos hi]
    rw [List.getD_eq_getElem?_getD, List.getElem?_map, List.getElem?_range hi]
    simp only [Option.map_some, Option.getD_some]
    rw [← hfs]
    exact tab_of_lt (clBand f.base.fs rows (x (i / n2)) (y (i % n2))) hib

end NaMaster
