import Verif.Span.FlatSpec
import Verif.Span.Lemmas

/-! # What is removed from flat maps depends on the span of the templates only -/

namespace NaMaster

open Real Finset

theorem code_mem {fs : FlatInfo} {p : ℕ} (hp : p < fs.nx * fs.ny) : (p % fs.nx, p / fs.nx) ∈ fs.modes := by
  have hx : 0 < fs.nx := by
    by_contra h
    have h : fs.nx = 0 := by omega
    rw [h] at hp
    simp at hp
  rw [mem_modes]
  exact ⟨Nat.mod_lt _ hx, (Nat.div_lt_iff_lt_mul hx).mpr (by rw [mul_comm]; exact hp)⟩

theorem InSpanFlat.stack {fs : FlatInfo} {nm n n' : ℕ} {U U' : ℕ → FlatMaps} (h : InSpanFlat fs nm n n' U U') :
    InSpan nm (flatPix fs).npix n n' (fun i => toStack fs (U i)) fun i => toStack fs (U' i) := by
  intro i hi
  obtain ⟨z, hz⟩ := h i hi
  exact ⟨z, fun c hc p hp => hz c hc _ (code_mem hp)⟩

/-- Coefficients of the templates in a map. -/
noncomputable def flatCoef (fs : FlatInfo) (nm n : ℕ) (Q : ℕ → ℕ → ℝ) (T : ℕ → FlatMaps) (x : FlatMaps) (i : ℕ) : ℝ :=
  ∑ j ∈ range n, Q i j * fs.dot nm (T j) x

theorem flatCoef_stack (fs : FlatInfo) (nm n : ℕ) (Q : ℕ → ℕ → ℝ) (T : ℕ → FlatMaps) (x : FlatMaps) :
    tcoef (flatPix fs) nm n Q (fun i => toStack fs (T i)) (toStack fs x) = flatCoef fs nm n Q T x := by
  funext i
  unfold tcoef flatCoef
  simp only [flat_dot]

section
variable {fs : FlatInfo} {nm n n' : ℕ} {Q Q' : ℕ → ℕ → ℝ}

theorem removed_masked_flat (hx : 0 < fs.lx) (hy : 0 < fs.ly) {T T' : ℕ → FlatMaps}
    (hQ : GenInv n (gram (flatPix fs) nm fun i => toStack fs (T i)) Q) (hQ' : GenInv n' (gram (flatPix fs) nm fun i => toStack fs (T' i)) Q')
    (h : EqualSpanFlat fs nm n n' T T') (x : FlatMaps) {c : ℕ} (hc : c < nm) {p : ℕ × ℕ} (hp : p ∈ fs.modes) :
    combineFlat n (flatCoef fs nm n Q T x) T c p = combineFlat n' (flatCoef fs nm n' Q' T' x) T' c p := by
  obtain ⟨h1, h2⟩ := pixel_code hp
  have := removed_masked (flatPix_pos hx hy) hQ hQ' ⟨h.1.stack, h.2.stack⟩ (toStack fs x) c _ hc h1
  rw [flatCoef_stack, flatCoef_stack] at this
  unfold combine toStack at this
  dsimp only at this
  rw [h2] at this
  exact this

theorem removed_raw_flat (hx : 0 < fs.lx) (hy : 0 < fs.ly) {U U' : ℕ → FlatMaps} {m : ℕ × ℕ → ℝ}
    (hQ : GenInv n (gram (flatPix fs) nm fun i => toStack fs fun c p => U i c p * m p) Q)
    (hQ' : GenInv n' (gram (flatPix fs) nm fun i => toStack fs fun c p => U' i c p * m p) Q')
    (h : EqualSpanFlat fs nm n n' U U')
    (hi : ∀ z : ℕ → ℝ, (∀ c < nm, ∀ p ∈ fs.modes, combineFlat n z (fun i c p => U i c p * m p) c p = 0) → ∀ i < n, z i = 0)
    (x : FlatMaps) {c : ℕ} (hc : c < nm) {p : ℕ × ℕ} (hp : p ∈ fs.modes) :
    combineFlat n (flatCoef fs nm n Q (fun i c p => U i c p * m p) x) U c p =
      combineFlat n' (flatCoef fs nm n' Q' (fun i c p => U' i c p * m p) x) U' c p := by
  obtain ⟨h1, h2⟩ := pixel_code hp
  have ind : Independent nm (flatPix fs).npix n fun i c p => toStack fs (U i) c p * m (p % fs.nx, p / fs.nx) := by
    intro z hz
    refine hi z fun c hc p hp => ?_
    obtain ⟨h1, h2⟩ := pixel_code hp
    have := hz c hc _ h1
    unfold combine toStack at this
    dsimp only at this
    rw [h2] at this
    exact this
  have := removed_raw (U := fun i => toStack fs (U i)) (U' := fun i => toStack fs (U' i)) (m := fun p => m (p % fs.nx, p / fs.nx)) (flatPix_pos hx hy) hQ hQ' ⟨h.1.stack, h.2.stack⟩ ind (toStack fs x) c _ hc h1
  have e : ∀ (k : ℕ) (R : ℕ → ℕ → ℝ) (W : ℕ → FlatMaps), tcoef (flatPix fs) nm k R (fun i c p => toStack fs (W i) c p * m (p % fs.nx, p / fs.nx))
      (toStack fs x) = flatCoef fs nm k R (fun i c p => W i c p * m p) x := fun k R W => flatCoef_stack fs nm k R (fun i c p => W i c p * m p) x
  rw [e, e] at this
  unfold combine toStack at this
  dsimp only at this
  rw [h2] at this
  exact this

theorem dot_flatDelta (T : FlatMaps) {c : ℕ} (hc : c < nm) {p : ℕ × ℕ} (hp : p ∈ fs.modes) : fs.dot nm T (flatDelta c p) = T c p * fs.pixsize := by
  unfold FlatInfo.dot
  rw [sum_eq_single_of_mem c (mem_range.2 hc)]
  · congr 1
    rw [sum_eq_single_of_mem p hp]
    · simp [flatDelta]
    · intro q _ hq; simp [flatDelta, hq]
  · intro d _ hd
    rw [sum_eq_zero, zero_mul]
    intro q _; simp [flatDelta, hd]

/-- Sums over pairs of templates with the pseudo-inverse are sums over pixels of what is removed from the map that is one in the pixel. -/
theorem flat_sums_removed (hpx : ∀ p ∈ fs.modes, fs.pixsize ≠ 0) (T : ℕ → FlatMaps) (V : ℕ → FlatAlms) (φ : FlatMaps → FlatAlms →ₗ[ℝ] ℝ)
    (ψ : FlatAlms → FlatMaps →ₗ[ℝ] ℝ) (h : ∀ v y, φ y v = ψ v y) (hloc : ∀ v, PixLocal fs nm (ψ v)) :
    ∑ i ∈ range n, ∑ j ∈ range n, Q i j * φ (T j) (V i) =
      ∑ c ∈ range nm, ∑ p ∈ fs.modes, fs.pixsize⁻¹ * φ (flatDelta c p) (∑ i ∈ range n, flatCoef fs nm n Q T (flatDelta c p) i • V i) := by
  have e2 : ∀ c ∈ range nm, ∀ p ∈ fs.modes, fs.pixsize⁻¹ * φ (flatDelta c p) (∑ i ∈ range n, flatCoef fs nm n Q T (flatDelta c p) i • V i) =
      ∑ i ∈ range n, ∑ j ∈ range n, Q i j * (T j c p * φ (flatDelta c p) (V i)) := by
    intro c hc p hp
    simp only [_root_.map_sum, map_smul, smul_eq_mul, mul_sum, flatCoef, sum_mul]
    refine sum_congr rfl fun i _ => sum_congr rfl fun j _ => ?_
    rw [dot_flatDelta _ (mem_range.1 hc) hp]
    have := hpx p hp
    field_simp
  rw [sum_congr rfl fun c hc => sum_congr rfl fun p hp => e2 c hc p hp]
  have e1 : ∀ i ∈ range n, ∀ j ∈ range n, Q i j * φ (T j) (V i) =
      ∑ c ∈ range nm, ∑ p ∈ fs.modes, Q i j * (T j c p * φ (flatDelta c p) (V i)) := by
    intro i _ j _
    rw [h, (hloc (V i)).expand]
    simp only [mul_sum, h]
  rw [sum_congr rfl fun i hi => sum_congr rfl fun j hj => e1 i hi j hj]
  rw [sum_congr rfl fun i _ => sum_comm, sum_comm]
  refine sum_congr rfl fun c _ => ?_
  rw [sum_congr rfl fun i (_ : i ∈ range n) =>
    (sum_comm (s := range n) (t := fs.modes) (f := fun j p => Q i j * (T j c p * φ (flatDelta c p) (V i)))), sum_comm]

/-- Two sets of templates with coefficients such that the same is removed from the coefficients of each map. -/
def SameRemoved (fs : FlatInfo) (nm n n' : ℕ) (Q Q' : ℕ → ℕ → ℝ) (T T' : ℕ → FlatMaps) (V V' : ℕ → FlatAlms) : Prop :=
  ∀ x, ∀ X < nm, (∑ i ∈ range n, flatCoef fs nm n Q T x i • V i) X = (∑ i ∈ range n', flatCoef fs nm n' Q' T' x i • V' i) X

theorem flat_sums_same (hpx : ∀ p ∈ fs.modes, fs.pixsize ≠ 0) {T T' : ℕ → FlatMaps} {V V' : ℕ → FlatAlms}
    (hr : SameRemoved fs nm n n' Q Q' T T' V V') (φ : FlatMaps → FlatAlms →ₗ[ℝ] ℝ)
    (ψ : FlatAlms → FlatMaps →ₗ[ℝ] ℝ) (h : ∀ v y, φ y v = ψ v y) (hloc : ∀ v, PixLocal fs nm (ψ v))
    (hv : ∀ y v v', (∀ X < nm, v X = v' X) → φ y v = φ y v') :
    ∑ i ∈ range n, ∑ j ∈ range n, Q i j * φ (T j) (V i) = ∑ i ∈ range n', ∑ j ∈ range n', Q' i j * φ (T' j) (V' i) := by
  rw [flat_sums_removed hpx T V φ ψ h hloc, flat_sums_removed hpx T' V' φ ψ h hloc]
  exact sum_congr rfl fun c _ => sum_congr rfl fun p _ => by rw [hv _ _ _ (hr (flatDelta c p))]

end

/-! ## Maps of the bias -/

theorem fsAlm2map_lin {env : FlatEnv} (hl : env.Linear) (gs fs : FlatInfo) (s : ℕ) (x y : ℝ) (a b l : FlatAlms) (h : ∀ c k, l c k = x * a c k + y * b c k)
    (c : ℕ) (p : ℕ × ℕ) :
    fsAlm2map (env.c2r gs) fs s l c p = x * fsAlm2map (env.c2r gs) fs s a c p + y * fsAlm2map (env.c2r gs) fs s b c p := by
  unfold fsAlm2map
  rw [← mul_assoc, ← mul_assoc, ← add_mul, ← hl]
  congr 2
  funext k
  unfold eb2qu
  simp only [h]
  split_ifs <;> ring

/-- `biasMapFlat` as a linear map. -/
noncomputable def biasMapFlatL {env : FlatEnv} (hl : env.Linear) (f h : FlatFieldObj) (g : ℕ → ℕ → ℝ → ℝ) : FlatMaps →ₗ[ℝ] FlatMaps := by
  have e : ∀ (x y : ℝ) (m n : FlatMaps), biasMapFlat env f h g (x • m + y • n) = x • biasMapFlat env f h g m + y • biasMapFlat env f h g n := by
    intro x y m n
    funext c p
    simp only [Pi.add_apply, Pi.smul_apply, smul_eq_mul]
    refine fsAlm2map_lin hl _ _ _ x y _ _ _ (fun d k => ?_) c p
    unfold mixFlat
    rw [mul_sum, mul_sum, ← sum_add_distrib]
    refine sum_congr rfl fun c _ => ?_
    rw [fsMap2alm_lin f.base.fs f.base.spin x y (fun c p => m c p * f.base.mask p) (fun c p => n c p * f.base.mask p) _
      (fun c p => by simp only [Pi.add_apply, Pi.smul_apply, smul_eq_mul]; ring)]
    ring
  exact
    { toFun := biasMapFlat env f h g
      map_add' := fun x y => by simpa using e 1 1 x y
      map_smul' := fun r x => by simpa using e r 0 x 0 }

theorem biasMapFlatL_apply {env : FlatEnv} (hl : env.Linear) (f h : FlatFieldObj) (g : ℕ → ℕ → ℝ → ℝ) (m : FlatMaps) :
    biasMapFlatL hl f h g m = biasMapFlat env f h g m := rfl

theorem biasMapFlat_pix (env : FlatEnv) {f : FlatFieldObj} (h : FlatFieldObj) (g : ℕ → ℕ → ℝ → ℝ) (hn : f.nmaps = nmapsOf f.base.spin) {x y : FlatMaps}
    (hxy : ∀ c < f.nmaps, ∀ p ∈ f.base.fs.modes, x c p = y c p) : biasMapFlat env f h g x = biasMapFlat env f h g y := by
  unfold biasMapFlat
  congr 1
  funext d k
  unfold mixFlat
  refine sum_congr rfl fun c hc => ?_
  rw [mem_range, hn] at hc
  rw [hn] at hxy
  rw [fsMap2alm_pix (fun c hc p hp => by rw [hxy c hc p hp]) hc k]

/-- The bias for two components, from what it depends on. -/
noncomputable def biasFrom (fs : FlatInfo) (rows : List (List ℤ)) (nm1 n1 n2 : ℕ) (mask1 : ℕ × ℕ → ℝ) (P1 P2 : FlatMaps → FlatAlms) (B1 B2 : FlatMaps → FlatMaps)
    (T1 T2 : ℕ → FlatMaps) (V1 V2 : ℕ → FlatAlms) (Q1 Q2 : ℕ → ℕ → ℝ) (c d ib : ℕ) : ℝ :=
  0 - (∑ i ∈ range n2, ∑ j ∈ range n2, clBand fs rows (P1 (B2 (T2 j)) c) (V2 i d) ib * Q2 i j)
    - (∑ i ∈ range n1, ∑ j ∈ range n1, clBand fs rows (V1 i c) (P2 (B1 (T1 j)) d) ib * Q1 i j)
    + ∑ i ∈ range n1, ∑ p ∈ range n2, ∑ j ∈ range n1, ∑ q ∈ range n2,
      clBand fs rows (V1 i c) (V2 p d) ib * fs.dot nm1 (fun c p => B2 (T2 q) c p * mask1 p) (T1 j) * Q1 i j * Q2 p q

section
variable {fs : FlatInfo} {nm1 nm2 n1 n2 n1' n2' : ℕ} {Q1 Q2 Q1' Q2' : ℕ → ℕ → ℝ} {T1 T2 T1' T2' : ℕ → FlatMaps} {V1 V2 V1' V2' : ℕ → FlatAlms}

theorem biasFrom_same (hpx : ∀ p ∈ fs.modes, fs.pixsize ≠ 0) (rows : List (List ℤ)) (mask1 : ℕ × ℕ → ℝ) (P1 P2 : FlatMaps →ₗ[ℝ] FlatAlms)
    (B1 B2 : FlatMaps →ₗ[ℝ] FlatMaps) (l1 : ∀ x y : FlatMaps, (∀ c < nm1, ∀ p ∈ fs.modes, x c p = y c p) → B1 x = B1 y)
    (l2 : ∀ x y : FlatMaps, (∀ c < nm2, ∀ p ∈ fs.modes, x c p = y c p) → B2 x = B2 y) (h1 : SameRemoved fs nm1 n1 n1' Q1 Q1' T1 T1' V1 V1')
    (h2 : SameRemoved fs nm2 n2 n2' Q2 Q2' T2 T2' V2 V2') {c d : ℕ} (hc : c < nm1) (hd : d < nm2) (ib : ℕ) :
    biasFrom fs rows nm1 n1 n2 mask1 P1 P2 B1 B2 T1 T2 V1 V2 Q1 Q2 c d ib =
      biasFrom fs rows nm1 n1' n2' mask1 P1 P2 B1 B2 T1' T2' V1' V2' Q1' Q2' c d ib := by
  have hdot : ∀ (x t : FlatMaps), fs.dot nm1 (fun c p => x c p * mask1 p) t = flatDotL fs nm1 (fun c p => t c p * mask1 p) x := by
    intro x t
    rw [flat_dot_comm, flat_dot_mask]
    rfl
  have s2 := flat_sums_same hpx h2 (fun y => clFlatL fs rows (P1 (B2 y) c) ib d) (fun v => clFlatL fs rows (v d) ib c ∘ₗ P1 ∘ₗ B2)
    (fun v y => clBand_comm _ _ _ _ _) (fun v x y h => by
      change clFlatL fs rows (v d) ib c (P1 (B2 x)) = clFlatL fs rows (v d) ib c (P1 (B2 y))
      rw [l2 x y h]) (fun y v v' h => by
      change clBand _ _ _ (v d) _ = clBand _ _ _ (v' d) _
      rw [h d hd])
  have s1 := flat_sums_same hpx h1 (fun y => clFlatL fs rows (P2 (B1 y) d) ib c) (fun v => clFlatL fs rows (v c) ib d ∘ₗ P2 ∘ₗ B1)
    (fun v y => clBand_comm _ _ _ _ _) (fun v x y h => by
      change clFlatL fs rows (v c) ib d (P2 (B1 x)) = clFlatL fs rows (v c) ib d (P2 (B1 y))
      rw [l1 x y h]) (fun y v v' h => by
      change clBand _ _ _ (v c) _ = clBand _ _ _ (v' c) _
      rw [h c hc])
  -- the last sum, changed in the first field and then in the second
  have s3 := flat_sums_same hpx h1
    (fun y => ∑ p ∈ range n2, ∑ q ∈ range n2, (fs.dot nm1 (fun c p => B2 (T2 q) c p * mask1 p) y * Q2 p q) • clFlatL fs rows (V2 p d) ib c)
    (fun v => ∑ p ∈ range n2, ∑ q ∈ range n2, (clBand fs rows (v c) (V2 p d) ib * Q2 p q) • flatDotL fs nm1 (fun c p => B2 (T2 q) c p * mask1 p))
    (fun v y => by
      simp only [LinearMap.sum_apply, LinearMap.smul_apply, smul_eq_mul]
      refine sum_congr rfl fun p _ => sum_congr rfl fun q _ => ?_
      change _ * clBand fs rows (V2 p d) (v c) ib = _ * fs.dot nm1 _ y
      rw [clBand_comm]; ring)
    (fun v x y h => by
      simp only [LinearMap.sum_apply, LinearMap.smul_apply, smul_eq_mul]
      exact sum_congr rfl fun p _ => sum_congr rfl fun q _ => by rw [flatDotL_local fs nm1 _ x y h])
    (fun y v v' h => by
      simp only [LinearMap.sum_apply, LinearMap.smul_apply, smul_eq_mul]
      refine sum_congr rfl fun p _ => sum_congr rfl fun q _ => ?_
      change _ * clBand fs rows (V2 p d) (v c) ib = _ * clBand fs rows (V2 p d) (v' c) ib
      rw [h c hc])
  have s4 := flat_sums_same hpx h2
    (fun y => ∑ i ∈ range n1', ∑ j ∈ range n1', (fs.dot nm1 (fun c p => B2 y c p * mask1 p) (T1' j) * Q1' i j) • clFlatL fs rows (V1' i c) ib d)
    (fun v => ∑ i ∈ range n1', ∑ j ∈ range n1', (clBand fs rows (V1' i c) (v d) ib * Q1' i j) • (flatDotL fs nm1 (fun c p => T1' j c p * mask1 p) ∘ₗ B2))
    (fun v y => by
      simp only [LinearMap.sum_apply, LinearMap.smul_apply, smul_eq_mul, LinearMap.comp_apply, hdot]
      refine sum_congr rfl fun i _ => sum_congr rfl fun j _ => ?_
      change _ * clBand fs rows (V1' i c) (v d) ib = _
      ring)
    (fun v x y h => by
      simp only [LinearMap.sum_apply, LinearMap.smul_apply, smul_eq_mul, LinearMap.comp_apply]
      rw [l2 x y h])
    (fun y v v' h => by
      simp only [LinearMap.sum_apply, LinearMap.smul_apply, smul_eq_mul]
      refine sum_congr rfl fun i _ => sum_congr rfl fun j _ => ?_
      change _ * clBand fs rows (V1' i c) (v d) ib = _ * clBand fs rows (V1' i c) (v' d) ib
      rw [h d hd])
  simp only [LinearMap.sum_apply, LinearMap.smul_apply, smul_eq_mul] at s3 s4
  have cl : ∀ (a : ℕ × ℕ → ℂ) (e : ℕ) (v : FlatAlms), clFlatL fs rows a ib e v = clBand fs rows a (v e) ib := fun _ _ _ => rfl
  simp only [cl] at s1 s2 s3 s4
  have q3 : ∀ (k1 k2 : ℕ) (A : ℕ → ℕ → ℝ) (D : ℕ → ℕ → ℝ) (R1 R2 : ℕ → ℕ → ℝ),
      ∑ i ∈ range k1, ∑ p ∈ range k2, ∑ j ∈ range k1, ∑ q ∈ range k2, A i p * D j q * R1 i j * R2 p q =
        ∑ i ∈ range k1, ∑ j ∈ range k1, R1 i j * ∑ p ∈ range k2, ∑ q ∈ range k2, D j q * R2 p q * A i p := by
    intro k1 k2 A D R1 R2
    refine sum_congr rfl fun i _ => ?_
    rw [sum_comm]
    refine sum_congr rfl fun j _ => ?_
    simp only [mul_sum]
    exact sum_congr rfl fun p _ => sum_congr rfl fun q _ => by ring
  have q4 : ∀ (k1 k2 : ℕ) (A : ℕ → ℕ → ℝ) (D : ℕ → ℕ → ℝ) (R1 R2 : ℕ → ℕ → ℝ),
      ∑ i ∈ range k1, ∑ j ∈ range k1, R1 i j * ∑ p ∈ range k2, ∑ q ∈ range k2, D j q * R2 p q * A i p =
        ∑ p ∈ range k2, ∑ q ∈ range k2, R2 p q * ∑ i ∈ range k1, ∑ j ∈ range k1, D j q * R1 i j * A i p := by
    intro k1 k2 A D R1 R2
    simp only [mul_sum]
    rw [sum_congr rfl fun i (_ : i ∈ range k1) => (sum_comm (s := range k1) (t := range k2))]
    rw [sum_comm]
    refine sum_congr rfl fun p _ => ?_
    rw [sum_congr rfl fun i (_ : i ∈ range k1) => (sum_comm (s := range k1) (t := range k2))]
    rw [sum_comm]
    exact sum_congr rfl fun q _ => sum_congr rfl fun i _ => sum_congr rfl fun j _ => by ring
  simp only [clBand_comm fs rows (P2 _ d) _ ib] at s1
  simp only [clBand_comm fs rows (V2 _ d) _ ib] at s3
  have q2 : ∀ (k : ℕ) (A R : ℕ → ℕ → ℝ), ∑ i ∈ range k, ∑ j ∈ range k, A i j * R i j = ∑ i ∈ range k, ∑ j ∈ range k, R i j * A i j :=
    fun k A R => sum_congr rfl fun i _ => sum_congr rfl fun j _ => mul_comm _ _
  unfold biasFrom
  rw [q2 n2, q2 n1, q2 n2', q2 n1', s1, s2]
  congr 1
  rw [q3 n1 n2 (fun i p => clBand fs rows (V1 i c) (V2 p d) ib) (fun j q => fs.dot nm1 (fun c p => B2 (T2 q) c p * mask1 p) (T1 j)),
    q3 n1' n2' (fun i p => clBand fs rows (V1' i c) (V2' p d) ib) (fun j q => fs.dot nm1 (fun c p => B2 (T2' q) c p * mask1 p) (T1' j)), s3,
    q4 n1' n2 (fun i p => clBand fs rows (V1' i c) (V2 p d) ib) (fun j q => fs.dot nm1 (fun c p => B2 (T2 q) c p * mask1 p) (T1' j)), s4,
    q4 n1' n2' (fun i p => clBand fs rows (V1' i c) (V2' p d) ib) (fun j q => fs.dot nm1 (fun c p => B2 (T2' q) c p * mask1 p) (T1' j))]

end

end NaMaster
