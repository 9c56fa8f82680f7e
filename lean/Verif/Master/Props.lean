import Verif.Master.Spec
import Verif.Master.Lemmas
import Verif.Bins.Props
import Mathlib.LinearAlgebra.Matrix.Determinant.Basic
import Mathlib.Tactic.FieldSimp

/-!
# Properties C06-C12: coupling, decoupling, updates
-/

set_option linter.unusedSectionVars false

namespace NaMaster

open Finset WspSpec

variable {K : Type*} [Field K]

/-! ## The assumptions on the external linear algebra can be met -/

/-- Linear algebra by the exact inverse matrix. -/
noncomputable def exactLinAlg (K : Type*) [Field K] : LinAlg K where
  solve n M y := fun i => if h : i < n then ((toMat n M)⁻¹.mulVec (fun j => y j)) ⟨i, h⟩ else 0
  invert n M := fun i j => if h : i < n ∧ j < n then (toMat n M)⁻¹ ⟨i, h.1⟩ ⟨j, h.2⟩ else 0

theorem exactLinAlg_correct : (exactLinAlg K).Correct where
  solve_spec n M y h i hi := by
    have h1 := congrFun (Matrix.mulVec_mulVec (fun j : Fin n => y j) (toMat n M) (toMat n M)⁻¹) ⟨i, hi⟩
    rw [Matrix.mul_nonsing_inv _ h, Matrix.one_mulVec] at h1
    rw [← h1, Finset.sum_range]
    unfold exactLinAlg
    simp only [Matrix.mulVec, dotProduct, toMat, Fin.is_lt, dite_true]
  invert_spec n M h i j hi hj := by
    have h1 := congrFun (congrFun (Matrix.mul_nonsing_inv (toMat n M) h) ⟨i, hi⟩) ⟨j, hj⟩
    rw [Matrix.mul_apply, Matrix.one_apply] at h1
    rw [Finset.sum_range]
    simp only [Fin.mk.injEq] at h1
    rw [← h1]
    unfold exactLinAlg
    simp only [toMat, Fin.is_lt, hj, and_self, dite_true]

/-- Witness for the hypotheses below: a workspace with one spectrum and the two bands of `exampleBins`. -/
def exampleConfig : Config ℚ := ⟨1, 6, 6, 6, false, 0, 0, fun l => l⟩

/-- A coupling matrix with off-diagonal elements and a decreasing beam. -/
def exampleInputs : Inputs ℚ :=
  ⟨fun l => 1 / (l + 1), fun _ => 2, fun i j => if i = j then 3 else if i = j + 1 then 1 else 0, exampleBins⟩

theorem example_regular : Regular (build exampleConfig exampleInputs).nBinned
    (build exampleConfig exampleInputs).binned := by
  unfold Regular
  have h : (build exampleConfig exampleInputs).nBinned = 2 := rfl
  have e : ∀ i j, i < 2 → j < 2 → (build exampleConfig exampleInputs).binned i j =
      binnedElement 1 0 0 (build exampleConfig exampleInputs).beamProd exampleBins
        (tab2 7 7 exampleInputs.matrix) 0 0 i j := by
    intro i j hi hj
    have := binMatrix_apply 1 0 0 (build exampleConfig exampleInputs).beamProd exampleBins
      (tab2 7 7 exampleInputs.matrix) (a := 0) (b := 0) (ib2 := i) (ib3 := j) (by omega) (by omega) hi hj
    simp only [Nat.one_mul, Nat.add_zero] at this
    rw [← this]; rfl
  rw [h, Matrix.det_fin_two]
  unfold toMat
  simp only [Fin.val_zero, Fin.val_one]
  rw [e 0 0 (by omega) (by omega), e 0 1 (by omega) (by omega), e 1 0 (by omega) (by omega),
    e 1 1 (by omega) (by omega)]
  norm_num [binnedElement, exampleBins, Bins.band, tab2, tab, build, buildWsp, exampleInputs, exampleConfig]

/-! ## C06 -/

theorem coupleCell_ok (w : Wsp K) (U : ℕ → ℕ → K) (cl : Arr2 K) (hr : cl.rows = w.ncls)
    (hc : w.lmax + 1 ≤ cl.cols) :
    coupleCell w U cl = .ok (Arr2.of w.ncls (w.lmax + 1) (coupleCl w.ncls w.lmax U w.beamProd cl.val)) := by
  unfold coupleCell
  rw [if_neg]
  rintro (h | h)
  · exact h hr
  · omega

theorem decoupleCell_ok (L : LinAlg K) (w : Wsp K) (cl : Arr2 K) (hr : cl.rows = w.ncls)
    (hc : w.lmax + 1 ≤ cl.cols) :
    decoupleCell L w cl none none = .ok (Arr2.of w.ncls w.bin.nBands
      (decoupleCl L w.ncls w.bin w.binned cl.val (fun _ _ => 0) (fun _ _ => 0))) := by
  unfold decoupleCell
  rw [if_neg (by rintro (h | h); exacts [h hr, by omega])]
  simp only [Option.any_none, Bool.false_eq_true, if_false, Option.getD_none]
  rw [if_neg]
  simp only [ne_eq, not_true_eq_false, false_or, not_or, Decidable.not_not]
  exact ⟨hr, by omega⟩

theorem band_mem {B : Bins K} {ib : ℕ} {e : BandEntry K} (he : e ∈ B.band ib) : ∃ b ∈ B.bands, e ∈ b := by
  unfold Bins.band at he
  rw [List.getD_eq_getElem?_getD] at he
  by_cases h : ib < B.bands.length
  · simp only [h, List.getElem?_eq_getElem, Option.getD_some] at he
    exact ⟨_, List.getElem_mem h, he⟩
  · simp [List.getElem?_eq_none (not_lt.1 h)] at he

/-- C06: decoupling a coupled spectrum is the contraction of the bandpower windows with the spectrum. -/
theorem C06_windows_describe_decoupling (L : LinAlg K) (hL : L.Correct) (w : Wsp K) (U : ℕ → ℕ → K)
    (hell : Bounded w.bin w.lmax) (hreg : Regular w.nBinned w.binned) (cl : Arr2 K)
    (hr : cl.rows = w.ncls) (hc : w.lmax + 1 ≤ cl.cols) :
    (coupleCell w U cl).bind (fun pcl => decoupleCell L w pcl none none) =
      .ok (Arr2.of w.ncls w.bin.nBands (fun a ib => ∑ b ∈ range w.ncls, ∑ l ∈ range (w.lmax + 1),
        bandpowerWindows L w U a ib b l * cl.val b l)) := by
  rw [coupleCell_ok w U cl hr hc]
  simp only [Outcome.bind]
  rw [decoupleCell_ok L w _ rfl le_rfl]
  congr 1
  apply Arr2.of_congr
  intro a ib ha hib
  unfold decoupleCl
  have hreg' : Regular (w.ncls * w.bin.nBands) w.binned := hreg
  rw [hL.solve_invert hreg' _ _ (flat_lt ha hib)]
  have h1 : ∀ b ∈ range w.ncls, ∀ l ∈ range (w.lmax + 1), bandpowerWindows L w U a ib b l * cl.val b l =
      ∑ k ∈ range (w.ncls * w.bin.nBands), L.invert (w.ncls * w.bin.nBands) w.binned (w.ncls * ib + a) k *
        (coupledBin w.ncls w.lmax w.bin U w.beamProd (k, w.ncls * l + b) * cl.val b l) := by
    intro b hb l hl
    rw [bandpowerWindows_apply L w U ha hib (mem_range.1 hb) (mem_range.1 hl), Finset.sum_mul]
    exact Finset.sum_congr rfl (fun _ _ => by ring)
  rw [Finset.sum_congr rfl (fun b hb => Finset.sum_congr rfl (h1 b hb))]
  rw [Finset.sum_congr rfl (fun b _ => Finset.sum_comm), Finset.sum_comm]
  apply Finset.sum_congr rfl
  intro k hk
  simp only [← Finset.mul_sum]
  congr 1
  -- the coupled and binned spectrum
  obtain ⟨c, jb, hc', hjb, rfl⟩ : ∃ c jb, c < w.ncls ∧ jb < w.bin.nBands ∧ k = w.ncls * jb + c := by
    have hk' := mem_range.1 hk
    have hpos : 0 < w.ncls := by
      rcases Nat.eq_zero_or_pos w.ncls with h | h
      · simp [h] at hk'
      · exact h
    exact ⟨k % w.ncls, k / w.ncls, Nat.mod_lt _ hpos, Nat.div_lt_of_lt_mul hk', (Nat.div_add_mod k _).symm⟩
  rw [binnedInput_apply _ _ _ _ _ hc' hjb]
  have h2 : ∀ b ∈ range w.ncls, ∀ l ∈ range (w.lmax + 1),
      coupledBin w.ncls w.lmax w.bin U w.beamProd (w.ncls * jb + c, w.ncls * l + b) * cl.val b l =
      ((w.bin.band jb).map (fun e => U (w.ncls * e.ell + c) (w.ncls * l + b) * w.beamProd l * (e.f * e.w) *
        cl.val b l)).sum := by
    intro b hb l hl
    rw [coupledBin_apply _ _ _ _ _ hc' hjb (mem_range.1 hb) (mem_range.1 hl), List.sum_map_mul_right]
  rw [Finset.sum_congr rfl (fun b hb => Finset.sum_congr rfl (h2 b hb))]
  have h3 : ∀ e ∈ w.bin.band jb, e.ell < w.lmax + 1 := by
    intro e he
    obtain ⟨b, hb, he'⟩ := band_mem he
    exact Nat.lt_succ_of_le (hell b hb e he')
  generalize w.bin.band jb = band at h3
  induction band with
  | nil => simp
  | cons e t ih =>
    simp only [List.map_cons, List.sum_cons, Finset.sum_add_distrib]
    rw [← ih (fun e' he' => h3 e' (List.mem_cons_of_mem _ he'))]
    congr 1
    have h4 := h3 e List.mem_cons_self
    simp only [Arr2.of, tab2, hc', h4, and_self, if_true, sub_zero]
    unfold coupleCl
    rw [Finset.sum_comm, Finset.sum_mul, Finset.sum_mul]
    apply Finset.sum_congr rfl
    intro b _
    rw [Finset.sum_mul, Finset.sum_mul]
    apply Finset.sum_congr rfl
    intro l _
    ring

example : ∃ (L : LinAlg ℚ) (w : Wsp ℚ) (U : ℕ → ℕ → ℚ) (cl : Arr2 ℚ), L.Correct ∧ w.unbinned = some U ∧
    Bounded w.bin w.lmax ∧ Regular w.nBinned w.binned ∧ cl.rows = w.ncls ∧ w.lmax + 1 ≤ cl.cols ∧
    w.bin.nBands = 2 :=
  ⟨exactLinAlg ℚ, build exampleConfig exampleInputs, _, ⟨1, 7, fun _ l => l⟩, exactLinAlg_correct, rfl,
    by simp [Bounded, build, buildWsp, exampleInputs, exampleBins], example_regular, rfl, le_rfl, rfl⟩

/-! ## C07 -/

/-- C07: with the MASTER normalisation the estimator returns the bandpowers of a spectrum that is
constant (up to the prefactor) in each band. -/
theorem C07_master_exact (L : LinAlg K) (hL : L.Correct) (c : Config K) (x : Inputs K)
    (hnorm : c.normType = 0) (hell : Bounded x.bins x.bins.ellMax) (hnr : BinSpec.NoRepeats x.bins)
    (hreg : Regular (build c x).nBinned (build c x).binned) (y : Arr2 K) (hr : y.rows = c.ncls)
    (hc : y.cols = x.bins.nBands) :
    ((unbinCells x.bins y).bind fun cl => (coupleCell (build c x) x.matrix cl).bind fun pcl =>
      decoupleCell L (build c x) pcl none none) = .ok (Arr2.of y.rows y.cols y.val) := by
  unfold unbinCells
  rw [if_neg (by simp [hc])]
  simp only [Outcome.bind]
  rw [coupleCell_ok _ _ _ (by exact hr) (by exact le_rfl)]
  simp only
  rw [decoupleCell_ok L _ _ rfl le_rfl]
  rw [hr, hc]
  congr 1
  apply Arr2.of_congr
  intro a ib ha hib
  change a < c.ncls at ha
  change ib < x.bins.nBands at hib
  unfold decoupleCl
  have key : ∀ i, i < (build c x).nBinned →
      ∑ j ∈ range (build c x).nBinned, (build c x).binned i j * y.val (j % c.ncls) (j / c.ncls) =
      binnedInput c.ncls x.bins (Arr2.of c.ncls (x.bins.ellMax + 1) (coupleCl c.ncls x.bins.ellMax x.matrix
        (build c x).beamProd (Arr2.of c.ncls (x.bins.ellMax + 1) fun a => unbinCls x.bins (y.val a)).val)).val
        (fun _ _ => 0) (fun _ _ => 0) i := by
    intro i hi
    change i < c.ncls * x.bins.nBands at hi
    have hpos : 0 < c.ncls := by omega
    obtain ⟨a', jb, ha', hjb, rfl⟩ : ∃ a' jb, a' < c.ncls ∧ jb < x.bins.nBands ∧ i = c.ncls * jb + a' :=
      ⟨i % c.ncls, i / c.ncls, Nat.mod_lt _ hpos, Nat.div_lt_of_lt_mul hi, (Nat.div_add_mod i _).symm⟩
    rw [binnedInput_apply _ _ _ _ _ ha' hjb]
    change ∑ j ∈ range (c.ncls * x.bins.nBands), _ = _
    rw [sum_flat]
    have h1 : ∀ kb ∈ range x.bins.nBands, ∀ b ∈ range c.ncls,
        (build c x).binned (c.ncls * jb + a') (c.ncls * kb + b) *
          y.val ((c.ncls * kb + b) % c.ncls) ((c.ncls * kb + b) / c.ncls) =
        ((x.bins.band jb).map (fun e2 => ((x.bins.band kb).map (fun e3 =>
          x.matrix (c.ncls * e2.ell + a') (c.ncls * e3.ell + b) * (build c x).beamProd e3.ell * (e2.f * e2.w) *
            (y.val b kb / e3.f))).sum)).sum := by
      intro kb hkb b hb
      have hb' := mem_range.1 hb
      have hkb' := mem_range.1 hkb
      rw [Nat.mul_add_mod, Nat.mod_eq_of_lt hb', Nat.mul_add_div hpos, Nat.div_eq_of_lt hb', add_zero]
      have e1 : (build c x).binned (c.ncls * jb + a') (c.ncls * kb + b) =
          binnedElement c.ncls c.normType c.w2 (build c x).beamProd x.bins
            (tab2 (c.ncls * (x.bins.ellMax + 1)) (c.ncls * (x.bins.ellMax + 1)) x.matrix) a' b jb kb :=
        binMatrix_apply _ _ _ _ _ _ ha' hb' hjb hkb'
      rw [e1]
      unfold binnedElement
      rw [if_pos hnorm, ← List.sum_map_mul_right]
      congr 1
      apply List.map_congr_left
      intro e2 he2
      rw [← List.sum_map_mul_right]
      congr 1
      apply List.map_congr_left
      intro e3 he3
      obtain ⟨b2, hb2, he2'⟩ := band_mem he2
      obtain ⟨b3, hb3, he3'⟩ := band_mem he3
      rw [tab2_of_lt _ (flat_lt ha' (Nat.lt_succ_of_le (hell b2 hb2 e2 he2')))
        (flat_lt hb' (Nat.lt_succ_of_le (hell b3 hb3 e3 he3')))]
      ring
    rw [Finset.sum_congr rfl (fun kb hkb => Finset.sum_congr rfl (h1 kb hkb))]
    have h3 : ∀ e ∈ x.bins.band jb, e.ell < x.bins.ellMax + 1 := by
      intro e he
      obtain ⟨b, hb, he'⟩ := band_mem he
      exact Nat.lt_succ_of_le (hell b hb e he')
    generalize x.bins.band jb = band at h3
    induction band with
    | nil => simp
    | cons e t ih =>
      simp only [List.map_cons, List.sum_cons, Finset.sum_add_distrib]
      rw [ih (fun e' he' => h3 e' (List.mem_cons_of_mem _ he'))]
      congr 1
      have h4 := h3 e List.mem_cons_self
      simp only [Arr2.of, tab2_of_lt _ ha' h4, sub_zero]
      unfold coupleCl
      rw [Finset.sum_comm, Finset.sum_comm (s := range (x.bins.ellMax + 1))]
      rw [mul_assoc, Finset.sum_mul]
      apply Finset.sum_congr rfl
      intro b hb
      have h5 : ∑ l2 ∈ range (x.bins.ellMax + 1), x.matrix (c.ncls * e.ell + a') (c.ncls * l2 + b) *
          (build c x).beamProd l2 * tab2 c.ncls (x.bins.ellMax + 1) (fun a => unbinCls x.bins (y.val a)) b l2 =
          ∑ l2 ∈ range (x.bins.ellMax + 1), (x.matrix (c.ncls * e.ell + a') (c.ncls * l2 + b) *
          (build c x).beamProd l2) * unbinCls x.bins (y.val b) l2 := by
        apply Finset.sum_congr rfl
        intro l hl
        rw [tab2_of_lt _ (mem_range.1 hb) (mem_range.1 hl)]
      rw [h5, sum_unbinCls x.bins (y.val b) _ _ hnr
        (fun b hb e he => Nat.lt_succ_of_le (hell b hb e he)), Finset.sum_mul]
      apply Finset.sum_congr rfl
      intro kb _
      rw [← List.sum_map_mul_right]
      congr 1
      apply List.map_congr_left
      intro e3 _
      ring
  have := hL.solve_eq hreg (fun j => y.val (j % c.ncls) (j / c.ncls)) _ key (c.ncls * ib + a) (flat_lt ha hib)
  have e2 : (c.ncls * ib + a) % c.ncls = a := by rw [Nat.mul_add_mod, Nat.mod_eq_of_lt ha]
  have e3 : (c.ncls * ib + a) / c.ncls = ib := by
    rw [Nat.mul_add_div (by omega), Nat.div_eq_of_lt ha, add_zero]
  simp only [e2, e3] at this
  rw [← this]
  rfl

example : ∃ (L : LinAlg ℚ) (c : Config ℚ) (x : Inputs ℚ) (y : Arr2 ℚ), L.Correct ∧ c.normType = 0 ∧
    Bounded x.bins x.bins.ellMax ∧ BinSpec.NoRepeats x.bins ∧
    Regular (build c x).nBinned (build c x).binned ∧ y.rows = c.ncls ∧ y.cols = x.bins.nBands :=
  ⟨exactLinAlg ℚ, exampleConfig, exampleInputs, ⟨1, 2, fun _ l => l + 1⟩, exactLinAlg_correct, rfl,
    by simp [Bounded, exampleInputs, exampleBins], by simp [BinSpec.NoRepeats, exampleInputs, exampleBins],
    example_regular, rfl, rfl⟩

end NaMaster
