import Verif.Covar.InitProps
import Verif.Flat.CovarSpec
import Mathlib.MeasureTheory.Integral.Bochner.Basic

/-! # C69: signs of the covariances between E and B spectra; C70: coupled covariances and bandpowers -/

namespace NaMaster

open Finset MeasureTheory CovSpec

/-! ## Specification -/

/-- Random variables with mean zero whose fourth moments are those of Gaussian variables (Isserlis). -/
structure Isserlis {Ω ι : Type*} [MeasurableSpace Ω] (μ : Measure Ω) (x : ι → Ω → ℝ) : Prop where
  int2 : ∀ i j, Integrable (fun ω => x i ω * x j ω) μ
  int4 : ∀ i j k l, Integrable (fun ω => x i ω * x j ω * (x k ω * x l ω)) μ
  fourth : ∀ i j k l, ∫ ω, x i ω * x j ω * (x k ω * x l ω) ∂μ =
    (∫ ω, x i ω * x j ω ∂μ) * (∫ ω, x k ω * x l ω ∂μ) + (∫ ω, x i ω * x k ω ∂μ) * (∫ ω, x j ω * x l ω ∂μ) +
      (∫ ω, x i ω * x l ω ∂μ) * (∫ ω, x j ω * x k ω ∂μ)

/-- Real (`false`) or imaginary (`true`) part of a coefficient. -/
def almPart (a : Alms) (i : ℕ × ℕ × ℕ × Bool) : ℝ := if i.2.2.2 then (a i.1 i.2.1 i.2.2.1).im else (a i.1 i.2.1 i.2.2.1).re

/-- A Gaussian random field: an object for every outcome of chance, with the same geometry, without noise bias to subtract, and
with finite coefficients of `nc` components that are Gaussian. The mask and the pixelisation are included in the coefficients, so
nothing is assumed about them. -/
structure GaussianField {Ω : Type*} [MeasurableSpace Ω] (μ : Measure Ω) (nc lmax : ℕ) (f : Ω → FieldView) (a : Ω → Alms) : Prop where
  alm : ∀ ω, (f ω).alm = some (some (a ω))
  ncomp : ∀ ω, (f ω).ncomp = nc
  lmax : ∀ ω, (f ω).geom.lmax = lmax
  noise : ∀ ω, (f ω).noiseF = 0
  gauss : Isserlis μ fun i ω => almPart (a ω) i

/-! ## Covariances of squares -/

section
variable {Ω ι : Type*} [MeasurableSpace Ω] {μ : Measure Ω} {x : ι → Ω → ℝ}

theorem covar_squares (h : Isserlis μ x) (s t : Finset ι) (w v : ι → ℝ) :
    covar μ (fun ω => ∑ i ∈ s, w i * (x i ω * x i ω)) (fun ω => ∑ j ∈ t, v j * (x j ω * x j ω)) =
      ∑ i ∈ s, ∑ j ∈ t, w i * v j * (2 * (∫ ω, x i ω * x j ω ∂μ) ^ 2) := by
  unfold covar
  have e1 : ∀ (s : Finset ι) (w : ι → ℝ), ∫ ω, ∑ i ∈ s, w i * (x i ω * x i ω) ∂μ = ∑ i ∈ s, w i * ∫ ω, x i ω * x i ω ∂μ := by
    intro s w
    rw [integral_finsetSum _ fun i _ => (h.int2 i i).const_mul _]
    exact sum_congr rfl fun i _ => integral_const_mul _ _
  have e2 : (fun ω => (∑ i ∈ s, w i * (x i ω * x i ω)) * ∑ j ∈ t, v j * (x j ω * x j ω)) =
      fun ω => ∑ i ∈ s, ∑ j ∈ t, w i * v j * (x i ω * x i ω * (x j ω * x j ω)) := by
    funext ω
    rw [sum_mul_sum]
    exact sum_congr rfl fun i _ => sum_congr rfl fun j _ => by ring
  rw [e1, e1, e2, integral_finsetSum _ fun i _ => integrable_finsetSum _ fun j _ => (h.int4 i i j j).const_mul _, sum_mul_sum,
    ← sum_sub_distrib]
  refine sum_congr rfl fun i _ => ?_
  rw [integral_finsetSum _ fun j _ => (h.int4 i i j j).const_mul _, ← sum_sub_distrib]
  refine sum_congr rfl fun j _ => ?_
  rw [integral_const_mul, h.fourth]
  ring

theorem covar_squares_nonneg (h : Isserlis μ x) (s t : Finset ι) (w v : ι → ℝ) (hw : ∀ i ∈ s, 0 ≤ w i) (hv : ∀ j ∈ t, 0 ≤ v j) :
    0 ≤ covar μ (fun ω => ∑ i ∈ s, w i * (x i ω * x i ω)) (fun ω => ∑ j ∈ t, v j * (x j ω * x j ω)) := by
  rw [covar_squares h]
  exact sum_nonneg fun i hi => sum_nonneg fun j hj => mul_nonneg (mul_nonneg (hw i hi) (hv j hj)) (by positivity)

end

/-- An automatic spectrum as weighted sum of squares. -/
theorem alm2cl_squares (a : Alms) (c l : ℕ) : alm2cl (a c) (a c) l =
    ∑ i ∈ (range (l + 1) ×ˢ (univ : Finset Bool)).image fun mb => (c, l, mb.1, mb.2),
      (if i.2.2.1 = 0 then 1 else 2) / (2 * (l : ℝ) + 1) * (almPart a i * almPart a i) := by
  rw [sum_image (by
    rintro ⟨m, b⟩ _ ⟨m', b'⟩ _ h
    simp only [Prod.mk.injEq, true_and] at h
    rw [h.1, h.2]), sum_product]
  unfold alm2cl
  rw [sum_div]
  refine sum_congr rfl fun m _ => ?_
  rw [Fintype.sum_bool, Complex.mul_conj, Complex.ofReal_re, Complex.normSq_apply]
  simp only [almPart, if_true, Bool.false_eq_true, if_false]
  ring

/-- Automatic pseudo-spectra of a Gaussian field. -/
theorem auto_spectrum {Ω : Type*} [MeasurableSpace Ω] {μ : Measure Ω} {nc lmax : ℕ} {f : Ω → FieldView} {a : Ω → Alms}
    (hf : GaussianField μ nc lmax f a) (ω : Ω) : ∃ P, computeCoupledCell (f ω) (f ω) true = .ok (some P) ∧
      ∀ c < nc, ∀ l ≤ lmax, P.val (c * nc + c) l = alm2cl (a ω c) (a ω c) l := by
  unfold computeCoupledCell
  have hc : isCompatible (f ω).geom (f ω).geom false = true := by simp [isCompatible]
  rw [hc, if_neg (by simp)]
  unfold getOr
  rw [hf.alm, hf.ncomp, hf.lmax, hf.noise]
  refine ⟨_, rfl, fun c hc l hl => ?_⟩
  rw [Arr2.of_val _ (by nlinarith) (by rw [min_self]; omega)]
  have h1 : (c * nc + c) / nc = c := by
    rw [Nat.mul_comm, Nat.mul_add_div (by omega), Nat.div_eq_of_lt hc, Nat.add_zero]
  have h2 : (c * nc + c) % nc = c := by rw [Nat.mul_comm, Nat.mul_add_mod, Nat.mod_eq_of_lt hc]
  rw [h1, h2]
  simp

/-- C69: the automatic pseudo-spectra computed from one Gaussian field never have a negative covariance. -/
theorem C69_true_nonneg {Ω : Type*} [MeasurableSpace Ω] {μ : Measure Ω} {nc lmax : ℕ} {f : Ω → FieldView} {a : Ω → Alms}
    (hf : GaussianField μ nc lmax f a) : ∃ P : Ω → Arr2 ℝ, (∀ ω, computeCoupledCell (f ω) (f ω) true = .ok (some (P ω))) ∧
      ∀ c < nc, ∀ c' < nc, ∀ l ≤ lmax, ∀ l' ≤ lmax,
        0 ≤ covar μ (fun ω => (P ω).val (c * nc + c) l) (fun ω => (P ω).val (c' * nc + c') l') := by
  choose P h1 h2 using auto_spectrum hf
  refine ⟨P, h1, fun c hc c' hc' l hl l' hl' => ?_⟩
  simp only [h2 _ c hc l hl, h2 _ c' hc' l' hl', alm2cl_squares]
  refine covar_squares_nonneg hf.gauss _ _ (fun i => (if i.2.2.1 = 0 then 1 else 2) / (2 * (l : ℝ) + 1))
    (fun i => (if i.2.2.1 = 0 then 1 else 2) / (2 * (l' : ℝ) + 1)) (fun i _ => ?_) fun i _ => ?_
  · split <;> positivity
  · split <;> positivity

/-! ## Elements of the computed covariance -/

section elements
variable {K : Type*} [Field K] (cw : CovWsp K) (cl : Arr2 K) (la lb : ℕ) (pre : K)

/-- EE with BB. -/
theorem element_EE_BB (h2 : (2 : K) ≠ 0) (hm : Unmixed 2 cl) : covElement cw ⟨2, 2, 2, 2⟩ ⟨cl, cl, cl, cl⟩ 0 0 1 1 la lb pre =
    -((cw.x1122.xi22m la lb + cw.x1221.xi22m la lb) * ((cl.val 0 la + cl.val 3 la) * (cl.val 0 lb + cl.val 3 lb)) * pre) := by
  have h1 : ∀ l, cl.val 1 l = 0 := fun l => hm 1 l (by simp)
  have h3 : ∀ l, cl.val 2 l = 0 := fun l => hm 2 l (by simp)
  simp [covElement, sum_range_succ, covPair, covIndex, covarIndices, pairKind, CovXi.at, h1, h3]
  field_simp
  ring

/-- EE with EE. -/
theorem element_EE_EE (h2 : (2 : K) ≠ 0) (hm : Unmixed 2 cl) : covElement cw ⟨2, 2, 2, 2⟩ ⟨cl, cl, cl, cl⟩ 0 0 0 0 la lb pre =
    (cw.x1122.xi22p la lb + cw.x1221.xi22p la lb) * (cl.val 0 la * cl.val 0 lb) * pre := by
  have h1 : ∀ l, cl.val 1 l = 0 := fun l => hm 1 l (by simp)
  have h3 : ∀ l, cl.val 2 l = 0 := fun l => hm 2 l (by simp)
  simp [covElement, sum_range_succ, covPair, covIndex, covarIndices, pairKind, CovXi.at, h1, h3]
  refine Or.inl ?_
  field_simp
  ring

/-- BB with BB. -/
theorem element_BB_BB (h2 : (2 : K) ≠ 0) (hm : Unmixed 2 cl) : covElement cw ⟨2, 2, 2, 2⟩ ⟨cl, cl, cl, cl⟩ 1 1 1 1 la lb pre =
    (cw.x1122.xi22p la lb + cw.x1221.xi22p la lb) * (cl.val 3 la * cl.val 3 lb) * pre := by
  have h1 : ∀ l, cl.val 1 l = 0 := fun l => hm 1 l (by simp)
  have h3 : ∀ l, cl.val 2 l = 0 := fun l => hm 2 l (by simp)
  simp [covElement, sum_range_succ, covPair, covIndex, covarIndices, pairKind, CovXi.at, h1, h3]
  refine Or.inl ?_
  field_simp
  ring

/-- TT with TT. -/
theorem element_TT_TT (h2 : (2 : K) ≠ 0) : covElement cw ⟨1, 1, 1, 1⟩ ⟨cl, cl, cl, cl⟩ 0 0 0 0 la lb pre =
    (cw.x1122.xi00 la lb + cw.x1221.xi00 la lb) * (cl.val 0 la * cl.val 0 lb) * pre := by
  simp [covElement, sum_range_succ, covPair, covIndex, pairKind, CovXi.at]
  refine Or.inl ?_
  field_simp
  ring

end elements

section signs
variable {W : Wigner} {S : Option MapInfo → Sht} {junk : ℕ → ℝ} {old : Option (CovWsp ℝ)} {f : CovField} {lT lE dl : ℤ}
  {cw : CovWsp ℝ} {L : LinAlg ℝ} {jk : CovJunk ℝ} {cl : Arr2 ℝ} {o : Obj ℝ} {a : Wsp ℝ} {C : Arr2 ℝ}

theorem coupling_pos {s M : ℕ} {sel : ℕ → Prop} [DecidablePred sel] {p : ℕ → ℝ} (h : ∀ l, 0 ≤ p l) {l l' l1 : ℕ} (hM : l1 ≤ M)
    (hs : sel (l1 + l + l')) (h1 : p l1 ≠ 0) (h2 : CouplingSpec.spin3j W s l1 l l' ≠ 0) :
    0 < CouplingSpec.coupling W s s M p sel l l' := by
  unfold CouplingSpec.coupling
  refine sum_pos' (fun k _ => ?_) ⟨l1, mem_range.2 (by omega), ?_⟩
  · split
    · rw [mul_assoc]
      exact mul_nonneg (mul_nonneg (by positivity) (h k)) (mul_self_nonneg _)
    · exact le_refl _
  · rw [if_pos hs, mul_assoc]
    have : 0 < p l1 := lt_of_le_of_ne (h l1) h1.symm
    exact mul_pos (mul_pos (by positivity) this) (mul_self_pos.2 h2)

/-- C69 is false of the code: for one spin-2 field without EB correlation, the covariance of EE at `l` with BB at `l'` is
computed with a negative value whenever the mask mixes E and B between these multipoles (there is a third multipole, with an odd sum of the three,
at which the squared mask has power and the Wigner symbol does not vanish). -/
theorem C69_EE_BB_negative (hW : CouplingSpec.Symmetric W) (hS : Respects S) (hT : lT ≤ 0) (hmap : f.geom.minfo ≠ none)
    (hcw : covCompute W S junk old f f none none lT lE dl false = (some cw, .ok ()))
    (ho : o.wsp = some a) (hA : WspSpec.Bounded a.bin a.bin.ellMax) (hN : BinSpec.NoRepeats a.bin)
    (hC : gaussianCovariance L jk (some cw) 2 2 2 2 ⟨cl, cl, cl, cl⟩ o none true = .ok C) (hm : Unmixed 2 cl)
    {e e' : BandEntry ℝ} (he : e ∈ a.bin.bands.flatten) (he' : e' ∈ a.bin.bands.flatten) (hf : 0 < e.f * e'.f)
    (hp : 0 < cl.val 0 e.ell + cl.val 3 e.ell) (hp' : 0 < cl.val 0 e'.ell + cl.val 3 e'.ell)
    {m : ℕ → ℝ} (hmask : f.mask = some m) {l1 : ℕ} (hl1 : l1 ≤ f.geom.lmaxMask) (hodd : Odd (l1 + e.ell + e'.ell))
    (hpow : productSpectrum (S f.geom.minfo) f.geom.lmaxMask f.nIterMask f.nIterMask m m m m l1 ≠ 0)
    (hw : CouplingSpec.spin3j W 2 l1 e.ell e'.ell ≠ 0) :
    C.val (4 * e.ell + 0) (4 * e'.ell + 3) < 0 := by
  have hC' : gaussianCovariance L jk (some cw) 2 2 2 2 ⟨cl, cl, cl, cl⟩ o (some o) true = .ok C := hC
  have hv := coupled_val ho ho hA hA hN hN hC' he he' (ia := 0) (ib := 0) (ic := 1) (id := 1) (by simp [nmaps]) (by simp [nmaps])
    (by simp [nmaps]) (by simp [nmaps])
  have hr := (call_result ho ho hA hA hC').1
  have hn : a.ncls = 4 := by rw [hr.wspA]; simp [nmaps]
  have hb : e.ell ≤ cw.lmax := (hA.flat e he).trans hr.limit.1
  have hb' : e'.ell ≤ cw.lmax := (hA.flat e' he').trans hr.limit.1
  have e1 : nmaps 2 = 2 := rfl
  have e2 : Maps.ofSpins 2 2 2 2 = ⟨2, 2, 2, 2⟩ := rfl
  rw [hn, e1, e2, element_EE_BB _ _ _ _ _ two_ne_zero hm] at hv
  have hv' : C.val (4 * e.ell + 0) (4 * e'.ell + 3) = _ := hv
  rw [hv']
  have h' : covCompute W S junk old f f (some f) (some f) lT lE dl false = (some cw, .ok ()) := hcw
  obtain ⟨hx, -⟩ := C68_nonneg hW hS hT hmap hcw
  obtain ⟨-, -, m1, m2, n1, n2, t1, t2, t3, t4, t, -⟩ := C68_textbook hW hS hT hmap h'
  rw [hmask] at t1 t2 t3 t4
  rw [← Option.some.inj t1, ← Option.some.inj t2, ← Option.some.inj t3, ← Option.some.inj t4] at t
  have hpos : 0 < cw.x1122.xi22m e.ell e'.ell := by
    rw [(t _ _ hb hb').2.2.2]
    exact coupling_pos (fun l => alm2cl_self_nonneg _ l) hl1 hodd hpow hw
  rw [← hx, neg_lt_zero]
  exact mul_pos (mul_pos (by linarith) (mul_pos hp hp')) hf

/-- C69: while for every Gaussian random field the covariance of these elements of its pseudo-spectrum is not negative. -/
theorem C69_EE_BB_wrong (hW : CouplingSpec.Symmetric W) (hS : Respects S) (hT : lT ≤ 0) (hmap : f.geom.minfo ≠ none)
    (hcw : covCompute W S junk old f f none none lT lE dl false = (some cw, .ok ()))
    (ho : o.wsp = some a) (hA : WspSpec.Bounded a.bin a.bin.ellMax) (hN : BinSpec.NoRepeats a.bin)
    (hC : gaussianCovariance L jk (some cw) 2 2 2 2 ⟨cl, cl, cl, cl⟩ o none true = .ok C) (hm : Unmixed 2 cl)
    {e e' : BandEntry ℝ} (he : e ∈ a.bin.bands.flatten) (he' : e' ∈ a.bin.bands.flatten) (hf : 0 < e.f * e'.f)
    (hp : 0 < cl.val 0 e.ell + cl.val 3 e.ell) (hp' : 0 < cl.val 0 e'.ell + cl.val 3 e'.ell)
    {m : ℕ → ℝ} (hmask : f.mask = some m) {l1 : ℕ} (hl1 : l1 ≤ f.geom.lmaxMask) (hodd : Odd (l1 + e.ell + e'.ell))
    (hpow : productSpectrum (S f.geom.minfo) f.geom.lmaxMask f.nIterMask f.nIterMask m m m m l1 ≠ 0)
    (hw : CouplingSpec.spin3j W 2 l1 e.ell e'.ell ≠ 0)
    {Ω : Type*} [MeasurableSpace Ω] {μ : Measure Ω} {F : Ω → FieldView} {alm : Ω → Alms} (hF : GaussianField μ 2 f.geom.lmax F alm) :
    ∃ P : Ω → Arr2 ℝ, (∀ ω, computeCoupledCell (F ω) (F ω) true = .ok (some (P ω))) ∧
      C.val (4 * e.ell + 0) (4 * e'.ell + 3) < 0 ∧ 0 ≤ covar μ (fun ω => (P ω).val 0 e.ell) (fun ω => (P ω).val 3 e'.ell) := by
  obtain ⟨P, h1, h2⟩ := C69_true_nonneg hF
  have hC' : gaussianCovariance L jk (some cw) 2 2 2 2 ⟨cl, cl, cl, cl⟩ o (some o) true = .ok C := hC
  have hr := (call_result ho ho hA hA hC').1
  have hlm : cw.lmax = f.geom.lmax :=
    (C68_textbook hW hS hT hmap (show covCompute W S junk old f f (some f) (some f) lT lE dl false = (some cw, .ok ()) from hcw)).1
  refine ⟨P, h1, C69_EE_BB_negative hW hS hT hmap hcw ho hA hN hC hm he he' hf hp hp' hmask hl1 hodd hpow hw, ?_⟩
  exact h2 0 (by omega) 1 (by omega) e.ell (hlm ▸ (hA.flat e he).trans hr.limit.1) e'.ell (hlm ▸ (hA.flat e' he').trans hr.limit.1)

/-- C69: the covariances of EE with EE and of BB with BB are not negative. Missing: EE with BB, where the sign is wrong. -/
theorem C69_nonneg_partial (hW : CouplingSpec.Symmetric W) (hS : Respects S) (hT : lT ≤ 0) (hmap : f.geom.minfo ≠ none)
    (hcw : covCompute W S junk old f f none none lT lE dl false = (some cw, .ok ()))
    (ho : o.wsp = some a) (hA : WspSpec.Bounded a.bin a.bin.ellMax) (hN : BinSpec.NoRepeats a.bin)
    (hC : gaussianCovariance L jk (some cw) 2 2 2 2 ⟨cl, cl, cl, cl⟩ o none true = .ok C) (hm : Unmixed 2 cl)
    (hp : ∀ l, 0 ≤ cl.val 0 l ∧ 0 ≤ cl.val 3 l)
    {e e' : BandEntry ℝ} (he : e ∈ a.bin.bands.flatten) (he' : e' ∈ a.bin.bands.flatten) (hf : 0 ≤ e.f * e'.f) :
    0 ≤ C.val (4 * e.ell + 0) (4 * e'.ell + 0) ∧ 0 ≤ C.val (4 * e.ell + 3) (4 * e'.ell + 3) := by
  have hC' : gaussianCovariance L jk (some cw) 2 2 2 2 ⟨cl, cl, cl, cl⟩ o (some o) true = .ok C := hC
  have hr := (call_result ho ho hA hA hC').1
  have hn : a.ncls = 4 := by rw [hr.wspA]; simp [nmaps]
  have hb : e.ell ≤ cw.lmax := (hA.flat e he).trans hr.limit.1
  have hb' : e'.ell ≤ cw.lmax := (hA.flat e' he').trans hr.limit.1
  have e1 : nmaps 2 = 2 := rfl
  have e2 : Maps.ofSpins 2 2 2 2 = ⟨2, 2, 2, 2⟩ := rfl
  obtain ⟨hx, hx'⟩ := C68_nonneg hW hS hT hmap hcw
  have hpp := (hx' _ _ hb hb').2.1
  constructor
  · have hv := coupled_val ho ho hA hA hN hN hC' he he' (ia := 0) (ib := 0) (ic := 0) (id := 0) (by simp [nmaps]) (by simp [nmaps])
      (by simp [nmaps]) (by simp [nmaps])
    rw [hn, e1, e2, element_EE_EE _ _ _ _ _ two_ne_zero hm, ← hx] at hv
    have hv' : C.val (4 * e.ell + 0) (4 * e'.ell + 0) = _ := hv
    rw [hv']
    exact mul_nonneg (mul_nonneg (by linarith) (mul_nonneg (hp _).1 (hp _).1)) hf
  · have hv := coupled_val ho ho hA hA hN hN hC' he he' (ia := 1) (ib := 1) (ic := 1) (id := 1) (by simp [nmaps]) (by simp [nmaps])
      (by simp [nmaps]) (by simp [nmaps])
    rw [hn, e1, e2, element_BB_BB _ _ _ _ _ two_ne_zero hm, ← hx] at hv
    have hv' : C.val (4 * e.ell + 3) (4 * e'.ell + 3) = _ := hv
    rw [hv']
    exact mul_nonneg (mul_nonneg (by linarith) (mul_nonneg (hp _).2 (hp _).2)) hf

/-- C69: for a scalar field no element is negative. -/
theorem C69_scalar_nonneg (hW : CouplingSpec.Symmetric W) (hS : Respects S) (hT : lT ≤ 0) (hmap : f.geom.minfo ≠ none)
    (hcw : covCompute W S junk old f f none none lT lE dl false = (some cw, .ok ()))
    (ho : o.wsp = some a) (hA : WspSpec.Bounded a.bin a.bin.ellMax) (hN : BinSpec.NoRepeats a.bin)
    (hC : gaussianCovariance L jk (some cw) 0 0 0 0 ⟨cl, cl, cl, cl⟩ o none true = .ok C) (hp : ∀ l, 0 ≤ cl.val 0 l)
    {e e' : BandEntry ℝ} (he : e ∈ a.bin.bands.flatten) (he' : e' ∈ a.bin.bands.flatten) (hf : 0 ≤ e.f * e'.f) :
    0 ≤ C.val e.ell e'.ell := by
  have hC' : gaussianCovariance L jk (some cw) 0 0 0 0 ⟨cl, cl, cl, cl⟩ o (some o) true = .ok C := hC
  have hr := (call_result ho ho hA hA hC').1
  have hn : a.ncls = 1 := by rw [hr.wspA]; simp [nmaps]
  have hb : e.ell ≤ cw.lmax := (hA.flat e he).trans hr.limit.1
  have hb' : e'.ell ≤ cw.lmax := (hA.flat e' he').trans hr.limit.1
  have e1 : nmaps 0 = 1 := rfl
  have e2 : Maps.ofSpins 0 0 0 0 = ⟨1, 1, 1, 1⟩ := rfl
  obtain ⟨hx, hx'⟩ := C68_nonneg hW hS hT hmap hcw
  have hpp := (hx' _ _ hb hb').1
  have hv := coupled_val ho ho hA hA hN hN hC' he he' (ia := 0) (ib := 0) (ic := 0) (id := 0) (by simp [nmaps]) (by simp [nmaps])
    (by simp [nmaps]) (by simp [nmaps])
  rw [hn, e1, e2, element_TT_TT _ _ _ _ _ two_ne_zero, ← hx] at hv
  simp only [one_mul, Nat.mul_zero, Nat.add_zero] at hv
  have hv' : C.val e.ell e'.ell = _ := hv
  rw [hv']
  exact mul_nonneg (mul_nonneg (by linarith) (mul_nonneg (hp _) (hp _))) hf

end signs

/-! ## Coupled covariances and bandpowers -/

section scheme
variable {K : Type*} [Field K] {L L' : LinAlg K} {jk jk' : CovJunk K} {cw : CovWsp K} {a1 a2 b1 b2 : ℤ} {s : CovCls K}
  {oa ob oa' ob' : Obj K} {a b a' b' : Wsp K} {C C' : Arr2 K}

/-- C70: coupled covariances of the same fields with different bandpowers are equal up to the factors `f_ell` of the bandpowers, at all multipoles
in bands of both. -/
theorem C70_factors (hoa : oa.wsp = some a) (hob : ob.wsp = some b) (hA : WspSpec.Bounded a.bin a.bin.ellMax)
    (hB : WspSpec.Bounded b.bin b.bin.ellMax) (hna : BinSpec.NoRepeats a.bin) (hnb : BinSpec.NoRepeats b.bin)
    (h : gaussianCovariance L jk (some cw) a1 a2 b1 b2 s oa (some ob) true = .ok C)
    (hoa' : oa'.wsp = some a') (hob' : ob'.wsp = some b') (hA' : WspSpec.Bounded a'.bin a'.bin.ellMax)
    (hB' : WspSpec.Bounded b'.bin b'.bin.ellMax) (hna' : BinSpec.NoRepeats a'.bin) (hnb' : BinSpec.NoRepeats b'.bin)
    (h' : gaussianCovariance L' jk' (some cw) a1 a2 b1 b2 s oa' (some ob') true = .ok C')
    {ea eb ea' eb' : BandEntry K} (hea : ea ∈ a.bin.bands.flatten) (heb : eb ∈ b.bin.bands.flatten)
    (hea' : ea' ∈ a'.bin.bands.flatten) (heb' : eb' ∈ b'.bin.bands.flatten) (hl : ea'.ell = ea.ell) (hl' : eb'.ell = eb.ell)
    {i j : ℕ} (hi : i < a.ncls) (hj : j < b.ncls) :
    C'.val (a.ncls * ea.ell + i) (b.ncls * eb.ell + j) * (ea.f * eb.f) =
      C.val (a.ncls * ea.ell + i) (b.ncls * eb.ell + j) * (ea'.f * eb'.f) := by
  have hr := (call_result hoa hob hA hB h).1
  have hr' := (call_result hoa' hob' hA' hB' h').1
  have na : a'.ncls = a.ncls := hr'.wspA.trans hr.wspA.symm
  have nb : b'.ncls = b.ncls := hr'.wspB.trans hr.wspB.symm
  have pos : ∀ x : ℤ, 0 < nmaps x := fun x => by unfold nmaps; split <;> omega
  obtain ⟨p, q, hp, hq, e1⟩ := split_row (i := i) hr.wspA (pos _) (pos _)
  obtain ⟨p', q', hp', hq', e2⟩ := split_row (i := j) hr.wspB (pos _) (pos _)
  rw [Nat.div_eq_of_lt hi, Nat.mul_zero, Nat.zero_add] at e1
  rw [Nat.div_eq_of_lt hj, Nat.mul_zero, Nat.zero_add] at e2
  have v := coupled_val hoa hob hA hB hna hnb h hea heb hp hq hp' hq'
  have v' := coupled_val hoa' hob' hA' hB' hna' hnb' h' hea' heb' hp hq hp' hq'
  rw [na, nb, hl, hl'] at v'
  rw [e1, e2, v, v', covElement_eq, covElement_eq]
  ring

/-- C70: if the factors are the same (as for all schemes without `is_Dell` or `f_ell`) coupled covariances do not depend on the bandpowers.
Missing: other factors; there the values differ although pseudo-spectra do not depend on bandpowers. -/
theorem C70_same_partial (hoa : oa.wsp = some a) (hob : ob.wsp = some b) (hA : WspSpec.Bounded a.bin a.bin.ellMax)
    (hB : WspSpec.Bounded b.bin b.bin.ellMax) (hna : BinSpec.NoRepeats a.bin) (hnb : BinSpec.NoRepeats b.bin)
    (h : gaussianCovariance L jk (some cw) a1 a2 b1 b2 s oa (some ob) true = .ok C)
    (hoa' : oa'.wsp = some a') (hob' : ob'.wsp = some b') (hA' : WspSpec.Bounded a'.bin a'.bin.ellMax)
    (hB' : WspSpec.Bounded b'.bin b'.bin.ellMax) (hna' : BinSpec.NoRepeats a'.bin) (hnb' : BinSpec.NoRepeats b'.bin)
    (h' : gaussianCovariance L' jk' (some cw) a1 a2 b1 b2 s oa' (some ob') true = .ok C')
    (hf : ∀ w ∈ [a, b, a', b'], ∀ e ∈ w.bin.bands.flatten, e.f = 1)
    {l l' : ℕ} (hl : CovSpec.InBand a.bin l ∧ CovSpec.InBand a'.bin l) (hl' : CovSpec.InBand b.bin l' ∧ CovSpec.InBand b'.bin l')
    {i j : ℕ} (hi : i < a.ncls) (hj : j < b.ncls) :
    C'.val (a.ncls * l + i) (b.ncls * l' + j) = C.val (a.ncls * l + i) (b.ncls * l' + j) := by
  obtain ⟨⟨ea, hea, rfl⟩, ea', hea', ha⟩ := hl
  obtain ⟨⟨eb, heb, rfl⟩, eb', heb', hb⟩ := hl'
  have := C70_factors hoa hob hA hB hna hnb h hoa' hob' hA' hB' hna' hnb' h' hea heb hea' heb' ha hb hi hj
  rw [hf a (by simp) ea hea, hf b (by simp) eb heb, hf a' (by simp) ea' hea', hf b' (by simp) eb' heb'] at this
  simpa using this

end scheme

end NaMaster
