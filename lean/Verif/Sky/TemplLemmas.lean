import Verif.Sky.Props
import Verif.Field.DeprojProps

/-! # Lemmas about random skies, deprojected fields and their mean spectra -/

namespace NaMaster

open Finset MeasureTheory WignerSpec SkySpec CouplingSpec

/-! ## Specification -/

/-- Analysis is the adjoint of synthesis: scalar products with a synthesised map are scalar products with its coefficients. `y x` are the
coefficients of the map `x`, also those with negative `m`. -/
structure SkySpec.AdjointOf (S : Sht) (P : Pix) (s lmax nIter : ℕ) (y : MapStack → ℕ → ℕ → ℤ → ℂ) : Prop where
  analysis : ∀ x, ∀ X < ncomp s, ∀ l ≤ lmax, ∀ m ≤ l, S.map2alm s lmax nIter (tab2 (ncomp s) P.npix x) X l m = y x X l m
  real : ∀ x, ∀ X < ncomp s, RealCoefs (y x X)
  adjoint : ∀ x (a : ℕ → ℕ → ℤ → ℂ), (∀ X < ncomp s, RealCoefs (a X)) →
    (P.dot (ncomp s) x (S.alm2map s lmax fun X l m => a X l m) : ℂ) =
      ∑ X ∈ range (ncomp s), ∑ q ∈ modes lmax, (starRingEnd ℂ) (y x X q.1 q.2) * a X q.1 q.2

/-- Templates multiplied by the mask. -/
def FieldArgs.maskedTempl (a : FieldArgs) (nc np i : ℕ) : MapStack := fun c p => a.rawTempl nc np i c p * a.mask p

/-- No templates, or templates that are linearly independent inside the mask and not removed by the tolerance. -/
def GoodTemplates (P : Pix) (a : FieldArgs) (nc : ℕ) : Prop :=
  a.templates = none ∨ Separated P nc a.nTempl (a.maskedTempl nc P.npix) a.tol ∧
    ∀ z : ℕ → ℝ, (∀ c < nc, ∀ p < P.npix, combine a.nTempl z (a.maskedTempl nc P.npix) c p = 0) → ∀ i < a.nTempl, z i = 0

/-! ## Means -/

/-- The integral extends to a linear function of all functions. -/
theorem exists_mean {Ω : Type*} [MeasurableSpace Ω] (μ : Measure Ω) :
    ∃ E : (Ω → ℝ) →ₗ[ℝ] ℝ, ∀ g : Ω → ℝ, Integrable g μ → E g = ∫ ω, g ω ∂μ := by
  let V : Submodule ℝ (Ω → ℝ) := {
    carrier := {g | Integrable g μ}
    add_mem' := fun h1 h2 => Integrable.add h1 h2
    zero_mem' := integrable_zero _ _ _
    smul_mem' := fun c _ h => Integrable.smul c h }
  let I : V →ₗ[ℝ] ℝ := {
    toFun := fun g => ∫ ω, g.1 ω ∂μ
    map_add' := fun g h => integral_add g.2 h.2
    map_smul' := fun c g => integral_const_mul c _ }
  obtain ⟨E, hE⟩ := LinearMap.exists_extend I
  refine ⟨E, fun g hg => ?_⟩
  exact LinearMap.congr_fun hE ⟨g, hg⟩

theorem dot_delta (P : Pix) {n c p : ℕ} (M : MapStack) (hc : c < n) (hp : p < P.npix) : P.dot n (delta c p) M = M c p * P.w p := by
  unfold Pix.dot delta
  rw [sum_eq_single_of_mem c (mem_range.2 hc), sum_eq_single_of_mem p (mem_range.2 hp)]
  · simp
  · intro q _ hq; simp [hq]
  · intro d _ hd; exact sum_eq_zero fun q _ => by simp [hd]

theorem adjoint_conj {S : Sht} {P : Pix} {s lmax nIter : ℕ} {y : MapStack → ℕ → ℕ → ℤ → ℂ} (A : AdjointOf S P s lmax nIter y) (x : MapStack)
    (a : ℕ → ℕ → ℤ → ℂ) (ha : ∀ X < ncomp s, RealCoefs (a X)) :
    (P.dot (ncomp s) x (S.alm2map s lmax fun X l m => a X l m) : ℂ) =
      ∑ X ∈ range (ncomp s), ∑ q ∈ modes lmax, y x X q.1 q.2 * (starRingEnd ℂ) (a X q.1 q.2) := by
  have h := congrArg (starRingEnd ℂ) (A.adjoint x a ha)
  rw [Complex.conj_ofReal] at h
  rw [h]
  simp only [map_sum, map_mul, Complex.conj_conj]

/-- Products of scalar products with two random maps: integrability and mean. -/
theorem mean_dots {Ω : Type*} [MeasurableSpace Ω] (μ : Measure Ω) {S : Sht} {P : Pix} {s1 s2 lmax nIter : ℕ} {y1 y2 : MapStack → ℕ → ℕ → ℤ → ℂ}
    (A1 : AdjointOf S P s1 lmax nIter y1) (A2 : AdjointOf S P s2 lmax nIter y2) {F1 F2 : Ω → ℕ → ℕ → ℤ → ℂ} {m1 m2 : Ω → MapStack}
    (r1 : ∀ ω, ∀ X < ncomp s1, RealCoefs (F1 ω X)) (r2 : ∀ ω, ∀ X < ncomp s2, RealCoefs (F2 ω X))
    (v1 : ∀ ω, ∀ c < ncomp s1, ∀ p < P.npix, m1 ω c p = S.alm2map s1 lmax (fun X l m => F1 ω X l m) c p)
    (v2 : ∀ ω, ∀ c < ncomp s2, ∀ p < P.npix, m2 ω c p = S.alm2map s2 lmax (fun X l m => F2 ω X l m) c p) {C : ℕ → ℕ → ℕ → ℝ}
    (hI : Isotropic μ (ncomp s1) (ncomp s2) lmax F1 F2 C) (x1 x2 : MapStack) :
    Integrable (fun ω => P.dot (ncomp s1) x1 (m1 ω) * P.dot (ncomp s2) x2 (m2 ω)) μ ∧
      ((∫ ω, P.dot (ncomp s1) x1 (m1 ω) * P.dot (ncomp s2) x2 (m2 ω) ∂μ : ℝ) : ℂ) =
        ∑ X ∈ range (ncomp s1), ∑ Y ∈ range (ncomp s2), ∑ q ∈ modes lmax,
          (starRingEnd ℂ) (y1 x1 X q.1 q.2) * y2 x2 Y q.1 q.2 * (C X Y q.1 : ℂ) := by
  have d1 : ∀ ω, (P.dot (ncomp s1) x1 (m1 ω) : ℂ) = ∑ X ∈ range (ncomp s1), ∑ q ∈ modes lmax, (starRingEnd ℂ) (y1 x1 X q.1 q.2) * F1 ω X q.1 q.2 := by
    intro ω
    rw [← A1.adjoint x1 (F1 ω) (r1 ω)]
    exact congrArg _ (dot_congr (fun _ _ _ _ => rfl) fun c hc p hp => v1 ω c hc p hp)
  have d2 : ∀ ω, (P.dot (ncomp s2) x2 (m2 ω) : ℂ) = ∑ Y ∈ range (ncomp s2), ∑ r ∈ modes lmax, y2 x2 Y r.1 r.2 * (starRingEnd ℂ) (F2 ω Y r.1 r.2) := by
    intro ω
    rw [← adjoint_conj A2 x2 (F2 ω) (r2 ω)]
    exact congrArg _ (dot_congr (fun _ _ _ _ => rfl) fun c hc p hp => v2 ω c hc p hp)
  have e : ∀ ω, ((P.dot (ncomp s1) x1 (m1 ω) * P.dot (ncomp s2) x2 (m2 ω) : ℝ) : ℂ) = ∑ X ∈ range (ncomp s1), ∑ Y ∈ range (ncomp s2),
      ∑ q ∈ modes lmax, ∑ r ∈ modes lmax, (starRingEnd ℂ) (y1 x1 X q.1 q.2) * y2 x2 Y r.1 r.2 * (F1 ω X q.1 q.2 * (starRingEnd ℂ) (F2 ω Y r.1 r.2)) := by
    intro ω
    push_cast
    rw [d1, d2, sum_mul_sum]
    refine sum_congr rfl fun X _ => sum_congr rfl fun Y _ => ?_
    rw [sum_mul_sum]
    exact sum_congr rfl fun q _ => sum_congr rfl fun r _ => by ring
  have i0 : ∀ X ∈ range (ncomp s1), ∀ Y ∈ range (ncomp s2), ∀ q ∈ modes lmax, ∀ r ∈ modes lmax,
      Integrable (fun ω => (starRingEnd ℂ) (y1 x1 X q.1 q.2) * y2 x2 Y r.1 r.2 * (F1 ω X q.1 q.2 * (starRingEnd ℂ) (F2 ω Y r.1 r.2))) μ :=
    fun X hX Y hY q hq r hr => (hI.integrable X (mem_range.1 hX) Y (mem_range.1 hY) q hq r hr).const_mul _
  have i1 : Integrable (fun ω => ((P.dot (ncomp s1) x1 (m1 ω) * P.dot (ncomp s2) x2 (m2 ω) : ℝ) : ℂ)) μ := by
    simp only [e]
    exact integrable_finsetSum _ fun X hX => integrable_finsetSum _ fun Y hY => integrable_finsetSum _ fun q hq =>
      integrable_finsetSum _ fun r hr => i0 X hX Y hY q hq r hr
  refine ⟨?_, ?_⟩
  · have := i1.re
    simpa using this
  · rw [← integral_complex_ofReal]
    simp only [e]
    rw [integral_finsetSum _ fun X hX => integrable_finsetSum _ fun Y hY => integrable_finsetSum _ fun q hq =>
      integrable_finsetSum _ fun r hr => i0 X hX Y hY q hq r hr]
    refine sum_congr rfl fun X hX => ?_
    rw [integral_finsetSum _ fun Y hY => integrable_finsetSum _ fun q hq => integrable_finsetSum _ fun r hr => i0 X hX Y hY q hq r hr]
    refine sum_congr rfl fun Y hY => ?_
    rw [integral_finsetSum _ fun q hq => integrable_finsetSum _ fun r hr => i0 X hX Y hY q hq r hr]
    refine sum_congr rfl fun q hq => ?_
    rw [integral_finsetSum _ fun r hr => i0 X hX Y hY q hq r hr, sum_eq_single_of_mem q hq]
    · rw [integral_const_mul, hI.covariance X (mem_range.1 hX) Y (mem_range.1 hY) q hq q hq, if_pos rfl]
    · intro r hr hne
      rw [integral_const_mul, hI.covariance X (mem_range.1 hX) Y (mem_range.1 hY) q hq r hr, if_neg hne.symm, mul_zero]

/-- Products of pixels of two random maps are integrable. -/
theorem pixels_integrable {Ω : Type*} [MeasurableSpace Ω] (μ : Measure Ω) {S : Sht} {P : Pix} {s1 s2 lmax nIter : ℕ}
    {y1 y2 : MapStack → ℕ → ℕ → ℤ → ℂ} (A1 : AdjointOf S P s1 lmax nIter y1) (A2 : AdjointOf S P s2 lmax nIter y2) (hw : ∀ p < P.npix, 0 < P.w p)
    {F1 F2 : Ω → ℕ → ℕ → ℤ → ℂ} {m1 m2 : Ω → MapStack} (r1 : ∀ ω, ∀ X < ncomp s1, RealCoefs (F1 ω X)) (r2 : ∀ ω, ∀ X < ncomp s2, RealCoefs (F2 ω X))
    (v1 : ∀ ω, ∀ c < ncomp s1, ∀ p < P.npix, m1 ω c p = S.alm2map s1 lmax (fun X l m => F1 ω X l m) c p)
    (v2 : ∀ ω, ∀ c < ncomp s2, ∀ p < P.npix, m2 ω c p = S.alm2map s2 lmax (fun X l m => F2 ω X l m) c p) {C : ℕ → ℕ → ℕ → ℝ}
    (hI : Isotropic μ (ncomp s1) (ncomp s2) lmax F1 F2 C) (c p d q : ℕ) (hc : c < ncomp s1) (hp : p < P.npix) (hd : d < ncomp s2) (hq : q < P.npix) :
    Integrable (fun ω => m1 ω c p * m2 ω d q) μ := by
  have h := (mean_dots μ A1 A2 r1 r2 v1 v2 hI (delta c p) (delta d q)).1
  have e : (fun ω => m1 ω c p * m2 ω d q) = fun ω => (P.w p * P.w q)⁻¹ * (P.dot (ncomp s1) (delta c p) (m1 ω) * P.dot (ncomp s2) (delta d q) (m2 ω)) := by
    funext ω
    rw [dot_delta P _ hc hp, dot_delta P _ hd hq]
    have := (hw p hp).ne'
    have := (hw q hq).ne'
    field_simp
  rw [e]
  exact h.const_mul _

/-- Statistically isotropic skies have isotropic pixel covariances. -/
theorem isoCov_of {Ω : Type*} [MeasurableSpace Ω] (μ : Measure Ω) (E : (Ω → ℝ) →ₗ[ℝ] ℝ) (hE : ∀ g : Ω → ℝ, Integrable g μ → E g = ∫ ω, g ω ∂μ)
    (env : FieldEnv) (hS : env.sht.ReadsTriangle) {s1 s2 lmax nIter : ℕ} {y1 y2 : MapStack → ℕ → ℕ → ℤ → ℂ}
    (A1 : AdjointOf env.sht env.pix s1 lmax nIter y1) (A2 : AdjointOf env.sht env.pix s2 lmax nIter y2)
    (hw : ∀ p < env.pix.npix, 0 < env.pix.w p) {F1 F2 : Ω → ℕ → ℕ → ℤ → ℂ} {m1 m2 : Ω → MapStack}
    (r1 : ∀ ω, ∀ X < ncomp s1, RealCoefs (F1 ω X)) (r2 : ∀ ω, ∀ X < ncomp s2, RealCoefs (F2 ω X))
    (v1 : ∀ ω, ∀ c < ncomp s1, ∀ p < env.pix.npix, m1 ω c p = env.sht.alm2map s1 lmax (fun X l m => F1 ω X l m) c p)
    (v2 : ∀ ω, ∀ c < ncomp s2, ∀ p < env.pix.npix, m2 ω c p = env.sht.alm2map s2 lmax (fun X l m => F2 ω X l m) c p) {C : ℕ → ℕ → ℕ → ℝ}
    (hI : Isotropic μ (ncomp s1) (ncomp s2) lmax F1 F2 C) (cl : ℕ → ℕ → ℕ → ℝ)
    (hcl : ∀ X < ncomp s1, ∀ Y < ncomp s2, ∀ l ≤ lmax, cl X Y l = C X Y l) :
    IsoCov E env nIter lmax s1 s2 (ncomp s1) (ncomp s2) cl m1 m2 := by
  intro x c hc p hp
  have hwp := (hw p hp).ne'
  obtain ⟨h1, h2⟩ := mean_dots μ A1 A2 r1 r2 v1 v2 hI x (delta c p)
  have e : (fun ω => m2 ω c p * env.pix.dot (ncomp s1) x (m1 ω)) = fun ω => (env.pix.w p)⁻¹ *
      (env.pix.dot (ncomp s1) x (m1 ω) * env.pix.dot (ncomp s2) (delta c p) (m2 ω)) := by
    funext ω
    rw [dot_delta env.pix _ hc hp]
    field_simp
  rw [e, hE _ (h1.const_mul _), integral_const_mul]
  set a : ℕ → ℕ → ℤ → ℂ := fun Y l m => if Y < ncomp s2 then ∑ X ∈ range (ncomp s1), y1 x X l m * (C X Y l : ℂ) else 0 with ha
  have har : ∀ Y < ncomp s2, RealCoefs (a Y) := by
    intro Y hY l m
    simp only [ha, if_pos hY, map_sum, map_mul, Complex.conj_ofReal, mul_sum]
    exact sum_congr rfl fun X hX => by rw [A1.real x X (mem_range.1 hX)]; ring
  have hmap : env.sht.alm2map s2 lmax (mixCl (ncomp s1) (ncomp s2) cl (env.sht.map2alm s1 lmax nIter (tab2 (ncomp s1) env.pix.npix x))) =
      env.sht.alm2map s2 lmax fun Y l m => a Y l m := by
    apply hS
    intro Y l hl m hm
    unfold mixCl almxfl
    simp only [ha]
    split_ifs with hY
    · refine sum_congr rfl fun X hX => ?_
      rw [A1.analysis x X (mem_range.1 hX) l hl m hm, hcl X (mem_range.1 hX) Y hY l hl, mul_comm]
    · rfl
  rw [hmap]
  have h3 := adjoint_conj A2 (delta c p) a har
  rw [dot_delta env.pix _ hc hp] at h3
  have h4 : (env.pix.dot (ncomp s2) (delta c p) (env.sht.alm2map s2 lmax fun Y l m => a Y l m) : ℂ) =
      ((∫ ω, env.pix.dot (ncomp s1) x (m1 ω) * env.pix.dot (ncomp s2) (delta c p) (m2 ω) ∂μ : ℝ) : ℂ) := by
    rw [h2, adjoint_conj A2 (delta c p) a har]
    refine Eq.trans ?_ sum_comm
    refine sum_congr rfl fun Y hY => ?_
    refine Eq.trans ?_ sum_comm
    refine sum_congr rfl fun q _ => ?_
    simp only [ha, if_pos (mem_range.1 hY), map_sum, map_mul, Complex.conj_ofReal, mul_sum]
    exact sum_congr rfl fun X _ => by ring
  have h5 := Complex.ofReal_injective h4
  rw [← h5, dot_delta env.pix _ hc hp]
  field_simp

/-- The exchanged pair is isotropic with the exchanged spectra. -/
theorem isotropic_swap {Ω : Type*} [MeasurableSpace Ω] {μ : Measure Ω} {n1 n2 N : ℕ} {F1 F2 : Ω → ℕ → ℕ → ℤ → ℂ} {C : ℕ → ℕ → ℕ → ℝ}
    (h : Isotropic μ n1 n2 N F1 F2 C) : Isotropic μ n2 n1 N F2 F1 fun Y X l => C X Y l := by
  have e : ∀ X Y (q r : ℕ × ℤ), (fun ω => F2 ω Y q.1 q.2 * (starRingEnd ℂ) (F1 ω X r.1 r.2)) =
      fun ω => (starRingEnd ℂ) (F1 ω X r.1 r.2 * (starRingEnd ℂ) (F2 ω Y q.1 q.2)) := by
    intro X Y q r
    funext ω
    rw [map_mul, Complex.conj_conj, mul_comm]
  constructor
  · intro Y hY X hX q hq r hr
    rw [e]
    exact (Complex.conjLIE.toContinuousLinearEquiv.toContinuousLinearMap.integrable_comp (h.integrable X hX Y hY r hr q hq))
  · intro Y hY X hX q hq r hr
    rw [e, integral_conj, h.covariance X hX Y hY r hr q hq]
    by_cases hqr : q = r
    · subst hqr; simp
    · rw [if_neg hqr, if_neg (Ne.symm hqr), map_zero]

/-! ## Spectra of linear functions of maps -/

/-- Coefficients that are linear in maps with integrable products have integrable spectra. -/
theorem cl_integrable {Ω : Type*} [MeasurableSpace Ω] (μ : Measure Ω) (n1 n2 np : ℕ) (m1 m2 : Ω → MapStack)
    (h : ∀ c < n1, ∀ p < np, ∀ d < n2, ∀ q < np, Integrable (fun ω => m1 ω c p * m2 ω d q) μ) (L1 L2 : MapStack →ₗ[ℝ] Alms) (c d l : ℕ) :
    Integrable (fun ω => alm2cl (L1 (tab2 n1 np (m1 ω)) c) (L2 (tab2 n2 np (m2 ω)) d) l) μ := by
  have e : (fun ω => alm2cl (L1 (tab2 n1 np (m1 ω)) c) (L2 (tab2 n2 np (m2 ω)) d) l) = fun ω => ∑ i ∈ range n2, ∑ q ∈ range np,
      ∑ j ∈ range n1, ∑ p ∈ range np, m1 ω j p * m2 ω i q * alm2cl (L2 (delta i q) d) (L1 (delta j p) c) l := by
    funext ω
    have h1 : ∀ x : ℕ → ℕ → ℂ, alm2cl x (L2 (tab2 n2 np (m2 ω)) d) l = ∑ i ∈ range n2, ∑ q ∈ range np, m2 ω i q * alm2cl x (L2 (delta i q) d) l := by
      intro x
      change clL x l d (L2 _) = ∑ i ∈ range n2, ∑ q ∈ range np, m2 ω i q * clL x l d (L2 _)
      rw [tab2_delta]
      simp only [_root_.map_sum, map_smul, smul_eq_mul]
    have h2 : ∀ x : ℕ → ℕ → ℂ, alm2cl x (L1 (tab2 n1 np (m1 ω)) c) l = ∑ i ∈ range n1, ∑ q ∈ range np, m1 ω i q * alm2cl x (L1 (delta i q) c) l := by
      intro x
      change clL x l c (L1 _) = ∑ i ∈ range n1, ∑ q ∈ range np, m1 ω i q * clL x l c (L1 _)
      rw [tab2_delta]
      simp only [_root_.map_sum, map_smul, smul_eq_mul]
    rw [h1]
    refine sum_congr rfl fun i _ => sum_congr rfl fun q _ => ?_
    rw [alm2cl_comm, h2, mul_sum]
    refine sum_congr rfl fun j _ => ?_
    rw [mul_sum]
    exact sum_congr rfl fun p _ => by ring
  rw [e]
  exact integrable_finsetSum _ fun i hi => integrable_finsetSum _ fun q hq => integrable_finsetSum _ fun j hj =>
    integrable_finsetSum _ fun p hp => (h j (mem_range.1 hj) p (mem_range.1 hp) i (mem_range.1 hi) q (mem_range.1 hq)).mul_const _

/-- Deprojection as a linear function of the map. -/
noncomputable def projL (P : Pix) (nc nt : ℕ) (Q : ℕ → ℕ → ℝ) (T U : ℕ → MapStack) : MapStack →ₗ[ℝ] MapStack :=
  LinearMap.id - ∑ i ∈ range nt, (∑ j ∈ range nt, Q i j • dotL P nc (T j)).smulRight (U i)

theorem FieldIs.almL {env : FieldEnv} (hlin : env.sht.AnalysisLinear) {a : FieldArgs} {nc : ℕ} {sp : ℤ} {v : MapStack} {f : FieldObj}
    (h : FieldIs env a nc env.pix.npix sp v f) {Q : ℕ → ℕ → ℝ} (hQ : f.iM.getD (some fun _ _ => 0) = some Q) :
    f.alm = some (some ((popL hlin a.nIter f ∘ₗ projL env.pix nc a.nTempl Q (fun j c p => a.maskedTempl nc env.pix.npix j c p * a.mask p)
      (a.rawTempl nc env.pix.npix)) (tab2 nc env.pix.npix v))) := by
  rw [(h.alm Q hQ).2]
  congr 2
  change pop env.sht a.nIter f _ = pop env.sht a.nIter f _
  congr 1
  funext c p
  simp only [projL, LinearMap.sub_apply, LinearMap.id_apply, Pi.sub_apply, LinearMap.sum_apply, LinearMap.smulRight_apply, Finset.sum_apply,
    Pi.smul_apply, LinearMap.smul_apply, smul_eq_mul]
  congr 1
  refine sum_congr rfl fun i _ => ?_
  congr 1
  refine sum_congr rfl fun j _ => ?_
  congr 1
  exact dot_mask' _ _ _ _ _

/-! ## Contaminants are removed -/

theorem projCoef_self {P : Pix} {nm nt : ℕ} (hw : ∀ p < P.npix, 0 < P.w p) (T : ℕ → MapStack) (Q : ℕ → ℕ → ℝ) (hQ : GenInv nt (gram P nm T) Q)
    (hind : ∀ z : ℕ → ℝ, (∀ c < nm, ∀ p < P.npix, combine nt z T c p = 0) → ∀ i < nt, z i = 0) (z : ℕ → ℝ) {i : ℕ} (hi : i < nt) :
    ∑ j ∈ range nt, Q i j * P.dot nm (T j) (combine nt z T) = z i := by
  have h := hind (fun i => z i - projCoef P nm nt Q T (combine nt z T) i) (by
    intro c hc p hp
    rw [← projOut_span hw T Q hQ z c p hc hp]
    unfold projOut combine
    rw [← sum_sub_distrib]
    exact sum_congr rfl fun i _ => by ring) i hi
  unfold projCoef at h
  rw [tab_of_lt _ hi] at h
  linarith

/-- The attributes do not depend on contaminants. -/
theorem FieldIs.clean {env : FieldEnv} (hE : env.eig.Correct) (hw : ∀ p < env.pix.npix, 0 < env.pix.w p) {a : FieldArgs} (hi : IsoCall a) {nc : ℕ}
    (hg : GoodTemplates env.pix a nc) {sp : ℤ} {v : MapStack} {z : ℕ → ℝ} {f : FieldObj}
    (h : FieldIs env a nc env.pix.npix sp (fun c p => v c p + combine a.nTempl z (a.rawTempl nc env.pix.npix) c p) f) :
    FieldIs env a nc env.pix.npix sp v f ∧ f.iM ≠ some none := by
  set np := env.pix.npix with hnp
  rcases hg with hn | ⟨hsep, hind⟩
  · have h0 : a.nTempl = 0 := by unfold FieldArgs.nTempl; rw [hn]; rfl
    have e : (fun c p => v c p + combine a.nTempl z (a.rawTempl nc np) c p) = v := by
      funext c p; unfold combine; rw [h0]; simp
    rw [e] at h
    refine ⟨h, ?_⟩
    rw [h.iMdet, hn]
    simp
  · obtain ⟨⟨i0, hi0, j0, hj0, hne⟩, top, ht, hgap⟩ := hsep
    obtain ⟨Q, hp, _, hQ⟩ := pinv_gen_inv env.eig hE env.inv a.nTempl (tab2 a.nTempl a.nTempl (gram env.pix nc (a.maskedTempl nc np))) a.tol top
      (gram_tab_symm _ _ _ _) (gram_psd _ (fun p hp => (hw p hp).le) _ _ _) ⟨i0, hi0, j0, hj0, by rw [tab2_of_lt _ hi0 hj0]; exact hne⟩ hi.tol
      (by unfold TopEigenvalue at ht ⊢; simpa only [eigenPair_tab] using ht) (fun lam x hx => hgap lam x (eigenPair_tab.1 hx))
    have hQ := genInv_tab hQ
    obtain ⟨t, hts⟩ : ∃ t, a.templates = some t := by
      cases hts : a.templates with
      | none => unfold FieldArgs.nTempl at hi0; rw [hts] at hi0; simp at hi0
      | some t => exact ⟨t, rfl⟩
    have hsw : (fun i j => env.pix.dot nc (fun c p => a.rawTempl nc np j c p * a.mask p) (fun c p => a.rawTempl nc np i c p * a.mask p)) =
        gram env.pix nc (a.maskedTempl nc np) := by
      funext i j; exact dot_comm _ _
    have hiM : f.iM = some (some Q) := by
      rw [h.iMdet, hts, hsw, hp]; rfl
    refine ⟨?_, by rw [hiM]; simp⟩
    refine ⟨h.spin, h.nmaps, h.hnc, h.hnp, h.mask, h.lmax, h.lmaxMask, h.nIterMask, h.pureE, h.pureB, h.lite, h.nTemp, h.temp, h.popOk, h.almTemp,
      ?_, h.iMdet⟩
    intro Q' hQ'
    have hQQ : Q' = Q := by
      rw [hiM] at hQ'
      exact (Option.some.inj hQ').symm
    subst hQQ
    obtain ⟨g1, g2⟩ := h.alm Q' hQ'
    refine ⟨g1, g2.trans ?_⟩
    congr 3
    funext c p
    have hd : ∀ j, env.pix.dot nc (fun c p => a.rawTempl nc np j c p * a.mask p)
        (fun c p => tab2 nc np (fun c p => v c p + combine a.nTempl z (a.rawTempl nc np) c p) c p * a.mask p) =
        env.pix.dot nc (fun c p => a.rawTempl nc np j c p * a.mask p) (fun c p => tab2 nc np v c p * a.mask p) +
        env.pix.dot nc (a.maskedTempl nc np j) (combine a.nTempl z (a.maskedTempl nc np)) := by
      intro j
      rw [show a.maskedTempl nc np j = fun c p => a.rawTempl nc np j c p * a.mask p from rfl, ← dot_add]
      refine dot_congr (fun _ _ _ _ => rfl) fun c hc p hp => ?_
      rw [tab2_of_lt _ hc hp, tab2_of_lt _ hc hp, add_mul]
      congr 1
      unfold combine FieldArgs.maskedTempl
      rw [sum_mul]
      exact sum_congr rfl fun i _ => by ring
    have hs : ∀ i ∈ range a.nTempl, (∑ j ∈ range a.nTempl, Q' i j * env.pix.dot nc (fun c p => a.rawTempl nc np j c p * a.mask p)
        (fun c p => tab2 nc np (fun c p => v c p + combine a.nTempl z (a.rawTempl nc np) c p) c p * a.mask p)) * a.rawTempl nc np i c p =
        (∑ j ∈ range a.nTempl, Q' i j * env.pix.dot nc (fun c p => a.rawTempl nc np j c p * a.mask p)
          (fun c p => tab2 nc np v c p * a.mask p)) * a.rawTempl nc np i c p + z i * a.rawTempl nc np i c p := by
      intro i hi'
      simp only [hd, mul_add, sum_add_distrib, add_mul]
      rw [projCoef_self hw _ Q' hQ hind z (mem_range.1 hi')]
    rw [sum_congr rfl hs, sum_add_distrib]
    by_cases hcp : c < nc ∧ p < np
    · rw [tab2_of_lt _ hcp.1 hcp.2, tab2_of_lt _ hcp.1 hcp.2]
      unfold combine
      ring
    · have hz : ∀ x : MapStack, tab2 nc np x c p = 0 := fun x => by unfold tab2; rw [if_neg hcp]
      have hr : ∀ i, a.rawTempl nc np i c p = 0 := fun i => hz _
      simp only [hz, hr, mul_zero, sum_const_zero, sub_zero, add_zero]

/-! ## Attributes the workspace depends on -/

theorem bind_parts {α β : Type*} {x : Outcome α} {g : α → Outcome β} {y : β} (h : x.bind g = .ok y) : ∃ a, x = .ok a ∧ g a = .ok y := by
  cases x with
  | crash => cases h
  | raises e => cases h
  | ok a => exact ⟨a, rfl, h⟩

theorem finish_rest {env : FieldEnv} {a : FieldArgs} {o : FieldObj} {m : MapStack} {t : Option TemplArg} {f : FieldObj}
    (h : fieldFinish env a o m t = .ok f) : f.maskA = o.maskA ∧ f.beam = o.beam := by
  unfold fieldFinish at h
  obtain ⟨d, -, h⟩ := bind_parts h
  obtain ⟨r, -, h⟩ := bind_parts h
  obtain ⟨q, -, h⟩ := bind_parts h
  rw [← Outcome.ok.inj h]
  exact ⟨rfl, rfl⟩

theorem field_rest_any (env : FieldEnv) (a : FieldArgs) (hi : IsoCall a) (nc np : ℕ) (v : MapStack) (f : FieldObj)
    (h : nmtField env (a.withMaps nc np v) = .ok f) :
    f.maskA = none ∧ f.beam = a.beam.getD ((a.lmax.getD env.lmaxDefault + 1).toNat, fun _ => 1) := by
  unfold nmtField at h
  cases hP : fieldChecks env (a.withMaps nc np v) with
  | crash => rw [hP] at h; cases h
  | raises e => rw [hP] at h; cases h
  | ok P =>
    rw [hP] at h
    simp only [Outcome.bind] at h
    have hmk : fieldMasks env.pix (a.withMaps nc np v) = .ok (a.mask, none) := by
      unfold fieldMasks FieldArgs.withMaps
      simp only [hi.mask22, hi.mask12]
    unfold fieldChecks at hP
    rw [hmk] at hP
    simp only [Outcome.bind] at hP
    by_cases q1 : (a.withMaps nc np v).lmax.getD env.lmaxDefault ≤ 0 ∨ (a.withMaps nc np v).lmaxMask.getD env.lmaxDefault ≤ 0
    · rw [if_pos q1] at hP; cases hP
    rw [if_neg q1] at hP
    split_ifs at hP with q2
    simp only [FieldArgs.withMaps] at hP q1
    unfold mapChecks at hP
    by_cases q3 : nc ≠ 1 ∧ nc ≠ 2
    · rw [if_pos q3] at hP; cases hP
    rw [if_neg q3] at hP
    cases hps : pickSpin nc a.spin with
    | crash => simp only [hps] at hP; cases hP
    | raises e => simp only [hps] at hP; cases hP
    | ok sp =>
      simp only [hps, Outcome.bind] at hP
      split_ifs at hP with r1 r2 r3 r4 r5
      cases ht : a.templates with
      | none =>
        simp only [ht, Outcome.ok.injEq] at hP
        subst hP
        exact finish_rest h
      | some t =>
        simp only [ht] at hP
        split_ifs at hP with r6 r7 r8
        simp only [Outcome.ok.injEq] at hP
        subst hP
        exact finish_rest h

end NaMaster
