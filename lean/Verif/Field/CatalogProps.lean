import Verif.Field.SpectraLemmas
import Mathlib.Analysis.Real.Pi.Bounds

/-! # Properties of the noise subtracted from spectra of catalogs: C39 -/

namespace NaMaster

open Finset

variable {X : Type*}

/-! ## Specification -/

/-- The harmonics give the pair kernel one at zero separation for spin `s` and multipole `l`. A unit scalar source has the spectrum
`1/(4π)` with itself. A source of a field with spin has the same power `1/(8π)` in both components, whatever the orientation, and no
power in the cross spectrum. This holds for spherical harmonics with `l ≥ |s|` by the addition theorem. -/
structure Harm.Normalised (H : Harm X) (s : ℤ) (l : ℕ) : Prop where
  scalar : s = 0 → ∀ x, alm2cl (fun l m => H.a 0 l m x) (fun l m => H.a 0 l m x) l = 1 / (4 * Real.pi)
  aa : s ≠ 0 → ∀ x, alm2cl (fun l m => H.a s l m x) (fun l m => H.a s l m x) l = 1 / (8 * Real.pi)
  bb : s ≠ 0 → ∀ x, alm2cl (fun l m => H.b s l m x) (fun l m => H.b s l m x) l = 1 / (8 * Real.pi)
  ab : s ≠ 0 → ∀ x, alm2cl (fun l m => H.a s l m x) (fun l m => H.b s l m x) l = 0

/-- What a source `(x, q, u)` of one catalog and a source `(x', q', u')` of another contribute to the spectrum of components `c`, `d`. -/
noncomputable def pairTerm (H : Harm X) (s s' : ℤ) (c d l : ℕ) (x : X) (q u : ℝ) (x' : X) (q' u' : ℝ) : ℝ :=
  alm2cl (H.source s x q u c) (H.source s' x' q' u' d) l

/-- Positions of the sources of a catalog. -/
def CatArgs.at (a : CatArgs) (i : ℕ) : ℝ × ℝ := (a.pos 0 i, a.pos 1 i)

/-- Weighted field values of the sources. -/
def CatArgs.value (a : CatArgs) (f : StackArg) (c i : ℕ) : ℝ := if a.weighted then f.val c i else f.val c i * a.weights i

/-- The catalog of data and randoms together: the randoms have negative weights, normalised to the total weight of the data. -/
noncomputable def bothWeight (d r : CatArgs) (i : ℕ) : ℝ :=
  if i < d.nsrc then d.weights i
  else -(r.weights (i - d.nsrc) * ((∑ i ∈ range d.nsrc, d.weights i) / ∑ i ∈ range r.nsrc, r.weights i))

/-- Positions in the catalog of data and randoms together. -/
def bothAt (d r : CatArgs) (i : ℕ) : ℝ × ℝ := if i < d.nsrc then d.at i else r.at (i - d.nsrc)

/-! ## Lemmas -/

theorem source_self (H : Harm X) (s : ℤ) (l : ℕ) (h : H.Normalised s l) (x : X) (q u : ℝ) (c d nm : ℕ)
    (hnm : nm = if s = 0 then 1 else 2) (hc : c < nm) (hd : d < nm) :
    pairTerm H s s c d l x q u x q u =
      if c = d then (∑ k ∈ range nm, (if k = 0 then q else u) ^ 2) / (4 * Real.pi * nm) else 0 := by
  unfold pairTerm
  by_cases hs : s = 0
  · subst hs
    rw [if_pos rfl] at hnm
    subst hnm
    obtain rfl : c = 0 := by omega
    obtain rfl : d = 0 := by omega
    have e : H.source 0 x q u 0 = fun l m => (q : ℂ) * (fun l m => H.a 0 l m x) l m := by
      funext l m; simp [Harm.source]
    rw [e, alm2cl_smul_left, alm2cl_smul_right, h.scalar rfl]
    simp only [if_pos, sum_range_one, Nat.cast_one, mul_one]
    ring
  · rw [if_neg hs] at hnm
    subst hnm
    have e0 : H.source s x q u 0 = fun l m => (fun l m => (q : ℂ) * (fun l m => H.a s l m x) l m) l m +
        (fun l m => (u : ℂ) * (fun l m => H.b s l m x) l m) l m := by
      funext l m; simp [Harm.source, hs]
    have e1 : H.source s x q u 1 = fun l m => (fun l m => (u : ℂ) * (fun l m => H.a s l m x) l m) l m -
        (fun l m => (q : ℂ) * (fun l m => H.b s l m x) l m) l m := by
      funext l m; simp [Harm.source, hs]
    have hba : alm2cl (fun l m => H.b s l m x) (fun l m => H.a s l m x) l = 0 := by rw [alm2cl_comm, h.ab hs]
    have hpi := Real.pi_ne_zero
    have key : (∑ k ∈ range 2, (if k = 0 then q else u) ^ 2) = q ^ 2 + u ^ 2 := by
      rw [sum_range_succ, sum_range_one]; simp
    rw [key]
    rcases (by omega : c = 0 ∨ c = 1) with rfl | rfl <;> rcases (by omega : d = 0 ∨ d = 1) with rfl | rfl
    · rw [e0, alm2cl_add_left, alm2cl_add_right, alm2cl_add_right]
      simp only [alm2cl_smul_left, alm2cl_smul_right]
      rw [h.aa hs, h.bb hs, h.ab hs, hba]
      simp only [if_true]
      push_cast; field_simp; ring
    · rw [e0, e1, alm2cl_add_left, alm2cl_sub_right, alm2cl_sub_right]
      simp only [alm2cl_smul_left, alm2cl_smul_right]
      rw [h.aa hs, h.bb hs, h.ab hs, hba, if_neg (by norm_num)]
      ring
    · rw [e0, e1, alm2cl_sub_left, alm2cl_add_right, alm2cl_add_right]
      simp only [alm2cl_smul_left, alm2cl_smul_right]
      rw [h.aa hs, h.bb hs, h.ab hs, hba, if_neg (by norm_num)]
      ring
    · rw [e1, alm2cl_sub_left, alm2cl_sub_right, alm2cl_sub_right]
      simp only [alm2cl_smul_left, alm2cl_smul_right]
      rw [h.aa hs, h.bb hs, h.ab hs, hba]
      simp only [if_true]
      push_cast; field_simp; ring

theorem catalog_pairs (H : Harm X) (s s' : ℤ) (n n' : ℕ) (pos pos' : ℕ → X) (val val' : MapStack) (c d l : ℕ) :
    alm2cl (catalog2alm H s n pos val c) (catalog2alm H s' n' pos' val' d) l =
      ∑ i ∈ range n, ∑ j ∈ range n', pairTerm H s s' c d l (pos i) (val 0 i) (val 1 i) (pos' j) (val' 0 j) (val' 1 j) := by
  unfold pairTerm catalog2alm
  rw [alm2cl_sum_left]
  exact sum_congr rfl fun i _ => alm2cl_sum_right _ _ _ _

theorem catalog_self (H : Harm X) (s : ℤ) (n : ℕ) (pos : ℕ → X) (val : MapStack) (c d l nm : ℕ) (h : H.Normalised s l)
    (hnm : nm = if s = 0 then 1 else 2) (hc : c < nm) (hd : d < nm) :
    alm2cl (catalog2alm H s n pos val c) (catalog2alm H s n pos val d) l -
        (if c = d then (∑ k ∈ range nm, ∑ i ∈ range n, val k i ^ 2) / (4 * Real.pi * nm) else 0) =
      ∑ i ∈ range n, ∑ j ∈ (range n).erase i,
        pairTerm H s s c d l (pos i) (val 0 i) (val 1 i) (pos j) (val 0 j) (val 1 j) := by
  rw [catalog_pairs, sum_all_pairs, add_sub_assoc, add_eq_left, sub_eq_zero]
  rw [sum_congr rfl fun i _ => source_self H s l h (pos i) (val 0 i) (val 1 i) c d nm hnm hc hd]
  by_cases hcd : c = d
  · simp only [if_pos hcd]
    rw [← sum_div]
    congr 1
    rw [sum_comm]
    refine sum_congr rfl fun k hk => sum_congr rfl fun i _ => ?_
    have hk' := mem_range.1 hk
    have : k < 2 := by rw [hnm] at hk'; split_ifs at hk' <;> omega
    rcases (by omega : k = 0 ∨ k = 1) with rfl | rfl <;> simp
  · simp only [if_neg hcd, sum_const_zero]

/-- What the constructor returns. -/
theorem catalog_ok (H : Harm (ℝ × ℝ)) (a : CatArgs) (f : CatObj) (h : nmtFieldCatalog H a = .ok f) (fl : StackArg)
    (hfl : a.field = some fl) :
    f.nmaps = some (if f.spin = 0 then 1 else 2) ∧ f.lmax = a.lmax ∧
    f.alm = some (catalog2alm H f.spin a.nsrc a.at (a.value fl)) ∧
    f.noiseF = (∑ c ∈ range (if f.spin = 0 then 1 else 2), ∑ i ∈ range a.nsrc, a.value fl c i ^ 2) /
      (4 * Real.pi * ((if f.spin = 0 then 1 else 2 : ℕ) : ℝ)) := by
  unfold nmtFieldCatalog at h
  rw [hfl] at h
  by_cases h1 : positionsOk a.rows a.cols a.nsrc a.pos
  · simp only [h1, not_true_eq_false, if_false] at h
    by_cases h2 : (a.beam.any fun b => decide (b.1 ≤ a.lmax)) = true
    · rw [if_pos h2] at h; cases h
    · rw [if_neg h2] at h
      by_cases h3 : fl.ncomp ≠ (if a.spin.getD (if fl.ncomp = 1 then 0 else 2) = 0 then 1 else 2) ∨ fl.npix ≠ a.nsrc
      · rw [if_pos h3] at h; cases h
      · rw [if_neg h3] at h
        simp only [Outcome.ok.injEq] at h
        subst h; exact ⟨rfl, rfl, rfl, rfl⟩
  · simp only [h1, not_false_eq_true, if_true] at h; cases h

theorem catalog_mask (H : Harm (ℝ × ℝ)) (a : CatArgs) (f : CatObj) (h : nmtFieldCatalog H a = .ok f) :
    f.almMask = catalog2alm H 0 a.nsrc a.at (single a.weights) 0 ∧
    f.noiseW = (∑ i ∈ range a.nsrc, a.weights i ^ 2) / (4 * Real.pi) := by
  unfold nmtFieldCatalog at h
  by_cases h1 : positionsOk a.rows a.cols a.nsrc a.pos
  · simp only [h1, not_true_eq_false, if_false] at h
    by_cases h2 : (a.beam.any fun b => decide (b.1 ≤ a.lmax)) = true
    · rw [if_pos h2] at h; cases h
    · rw [if_neg h2] at h
      cases hf : a.field with
      | none =>
        rw [hf] at h
        cases hs : a.spin with
        | none => rw [hs] at h; cases h
        | some s =>
          rw [hs] at h
          simp only [Outcome.ok.injEq] at h
          subst h; exact ⟨rfl, rfl⟩
      | some fl =>
        rw [hf] at h
        simp only at h
        by_cases h3 : fl.ncomp ≠ (if a.spin.getD (if fl.ncomp = 1 then 0 else 2) = 0 then 1 else 2) ∨ fl.npix ≠ a.nsrc
        · rw [if_pos h3] at h; cases h
        · rw [if_neg h3] at h
          simp only [Outcome.ok.injEq] at h
          subst h; exact ⟨rfl, rfl⟩
  · simp only [h1, not_false_eq_true, if_true] at h; cases h

/-- The spectrum of two views with the same band limits. -/
theorem coupledCell_val (v w : FieldView) (same : Bool) (av aw : Alms) (hv : v.alm = some (some av)) (hw : w.alm = some (some aw))
    (hc : isCompatible v.geom w.geom false = true) :
    computeCoupledCell v w same = .ok (some (Arr2.of (v.ncomp * w.ncomp) (min v.geom.lmax w.geom.lmax + 1) fun k l =>
      alm2cl (av (k / w.ncomp)) (aw (k % w.ncomp)) l -
        if k / w.ncomp = k % w.ncomp then (if same then v.noiseF else 0) else 0)) := by
  unfold computeCoupledCell
  rw [if_neg (by rw [hc]; simp), hv, hw]
  rfl

/-! ## C39 -/

/-- C39: the spectrum of a catalog field with itself contains the pairs of different sources, and nothing else. -/
theorem C39_catalog (H : Harm (ℝ × ℝ)) (a : CatArgs) (f : CatObj) (h : nmtFieldCatalog H a = .ok f) (fl : StackArg)
    (hfl : a.field = some fl) (nm : ℕ) (hnm : nm = if f.spin = 0 then 1 else 2) :
    ∃ r : Arr2 ℝ, computeCoupledCell f.view f.view true = .ok (some r) ∧ r.rows = nm * nm ∧ r.cols = a.lmax + 1 ∧
      ∀ l ≤ a.lmax, H.Normalised f.spin l → ∀ c < nm, ∀ d < nm, r.val (c * nm + d) l =
        ∑ i ∈ range a.nsrc, ∑ j ∈ (range a.nsrc).erase i, pairTerm H f.spin f.spin c d l
          (a.at i) (a.value fl 0 i) (a.value fl 1 i) (a.at j) (a.value fl 0 j) (a.value fl 1 j) := by
  obtain ⟨e1, e2, e3, e4⟩ := catalog_ok H a f h fl hfl
  rw [← hnm] at e1 e4
  have ev : f.view.ncomp = nm := by unfold CatObj.view; simp [e1]
  have hcomp : isCompatible f.view.geom f.view.geom false = true := by unfold isCompatible; simp
  refine ⟨_, coupledCell_val _ _ true _ _ (by unfold CatObj.view; rw [e3]; rfl) (by unfold CatObj.view; rw [e3]; rfl) hcomp, ?_, ?_, ?_⟩
  · simp only [Arr2.of]; rw [ev]
  · simp only [Arr2.of]; unfold CatObj.view; simp [e2]
  intro l hl hN c hc d hd
  have hnm0 : 0 < nm := by omega
  simp only [Arr2.of, ev]
  rw [tab2_of_lt _ (by nlinarith) (by unfold CatObj.view; simp [e2]; omega)]
  have k1 : (c * nm + d) / nm = c := by rw [mul_comm, Nat.mul_add_div hnm0, Nat.div_eq_of_lt hd, add_zero]
  have k2 : (c * nm + d) % nm = d := by rw [mul_comm, Nat.mul_add_mod, Nat.mod_eq_of_lt hd]
  rw [k1, k2]
  simp only [if_true]
  rw [show f.view.noiseF = f.noiseF from rfl, e4]
  exact catalog_self H f.spin a.nsrc a.at (a.value fl) c d l nm hN hnm hc hd

/-- C39: nothing is subtracted from the spectrum of two different field objects, even if they are made from the same catalog: it
contains all pairs. -/
theorem C39_different (H : Harm (ℝ × ℝ)) (a a' : CatArgs) (f f' : CatObj) (h : nmtFieldCatalog H a = .ok f)
    (h' : nmtFieldCatalog H a' = .ok f') (fl fl' : StackArg) (hfl : a.field = some fl) (hfl' : a'.field = some fl')
    (hcomp : isCompatible f.view.geom f'.view.geom false = true) (nm nm' : ℕ) (hnm : nm = if f.spin = 0 then 1 else 2)
    (hnm' : nm' = if f'.spin = 0 then 1 else 2) :
    ∃ r : Arr2 ℝ, computeCoupledCell f.view f'.view false = .ok (some r) ∧ r.rows = nm * nm' ∧ r.cols = min a.lmax a'.lmax + 1 ∧
      ∀ l ≤ a.lmax, l ≤ a'.lmax → ∀ c < nm, ∀ d < nm', r.val (c * nm' + d) l =
        ∑ i ∈ range a.nsrc, ∑ j ∈ range a'.nsrc, pairTerm H f.spin f'.spin c d l
          (a.at i) (a.value fl 0 i) (a.value fl 1 i) (a'.at j) (a'.value fl' 0 j) (a'.value fl' 1 j) := by
  obtain ⟨e1, e2, e3, e4⟩ := catalog_ok H a f h fl hfl
  obtain ⟨e1', e2', e3', e4'⟩ := catalog_ok H a' f' h' fl' hfl'
  rw [← hnm] at e1
  rw [← hnm'] at e1'
  have ev : f.view.ncomp = nm := by unfold CatObj.view; simp [e1]
  have ev' : f'.view.ncomp = nm' := by unfold CatObj.view; simp [e1']
  refine ⟨_, coupledCell_val _ _ false _ _ (by unfold CatObj.view; rw [e3]; rfl) (by unfold CatObj.view; rw [e3']; rfl) hcomp, ?_, ?_, ?_⟩
  · simp only [Arr2.of]; rw [ev, ev']
  · simp only [Arr2.of]; unfold CatObj.view; simp [e2, e2']
  intro l hl hl' c hc d hd
  have hnm0 : 0 < nm' := by omega
  simp only [Arr2.of, ev, ev']
  rw [tab2_of_lt _ (by nlinarith) (by unfold CatObj.view; simp [e2, e2']; omega)]
  have k1 : (c * nm' + d) / nm' = c := by rw [mul_comm, Nat.mul_add_div hnm0, Nat.div_eq_of_lt hd, add_zero]
  have k2 : (c * nm' + d) % nm' = d := by rw [mul_comm, Nat.mul_add_mod, Nat.mod_eq_of_lt hd]
  rw [k1, k2]
  simp only [Bool.false_eq_true, if_false, ite_self, sub_zero]
  exact catalog_pairs H f.spin f'.spin a.nsrc a'.nsrc a.at a'.at (a.value fl) (a'.value fl') c d l

/-- C39: the mask spectrum passed to the coupling matrix of a catalog with itself contains the pairs of different sources only. -/
theorem C39_mask (H : Harm (ℝ × ℝ)) (a : CatArgs) (f : CatObj) (h : nmtFieldCatalog H a = .ok f) (l : ℕ) (hN : H.Normalised 0 l) :
    maskSpectrum f.view f.view true l = ∑ i ∈ range a.nsrc, ∑ j ∈ (range a.nsrc).erase i,
      pairTerm H 0 0 0 0 l (a.at i) (a.weights i) 0 (a.at j) (a.weights j) 0 := by
  obtain ⟨e1, e2⟩ := catalog_mask H a f h
  have key := catalog_self H 0 a.nsrc a.at (single a.weights) 0 0 l 1 hN (by simp) (by norm_num) (by norm_num)
  unfold maskSpectrum CatObj.view
  simp only [if_true]
  rw [e1, e2]
  simp only [single, if_pos, sum_range_one, Nat.cast_one, mul_one, one_ne_zero, if_false] at key
  exact key

theorem catalog_both (H : Harm (ℝ × ℝ)) (d r : CatArgs) (l m : ℕ) :
    catalog2alm H 0 (d.nsrc + r.nsrc) (bothAt d r) (single (bothWeight d r)) 0 l m =
      catalog2alm H 0 d.nsrc d.at (single d.weights) 0 l m - catalog2alm H 0 r.nsrc r.at (single fun i => r.weights i *
        ((∑ i ∈ range d.nsrc, d.weights i) / ∑ i ∈ range r.nsrc, r.weights i)) 0 l m := by
  unfold catalog2alm
  rw [sum_range_add, sub_eq_add_neg, ← sum_neg_distrib]
  congr 1
  · refine sum_congr rfl fun i hi => ?_
    simp only [single, bothAt, bothWeight, if_pos (mem_range.1 hi)]
  · refine sum_congr rfl fun i _ => ?_
    have : ¬ d.nsrc + i < d.nsrc := by omega
    simp only [single, bothAt, bothWeight, if_neg this, Nat.add_sub_cancel_left, Harm.source, if_true]
    push_cast; ring

/-- C39: for a clustering field, which is the difference between data and randoms, the spectrum with itself contains the pairs of
different sources of the catalog of data and randoms together, and the mask spectrum the pairs of different randoms. -/
theorem C39_clustering (H : Harm (ℝ × ℝ)) (d r : CatArgs) (lmax : ℕ) (v : FieldView) (h : nmtFieldClustering H d r lmax = .ok v) :
    ∃ s : Arr2 ℝ, computeCoupledCell v v true = .ok (some s) ∧ s.rows = 1 ∧ s.cols = lmax + 1 ∧
      ∀ l ≤ lmax, H.Normalised 0 l →
        (s.val 0 l = ∑ i ∈ range (d.nsrc + r.nsrc), ∑ j ∈ (range (d.nsrc + r.nsrc)).erase i,
          pairTerm H 0 0 0 0 l (bothAt d r i) (bothWeight d r i) 0 (bothAt d r j) (bothWeight d r j) 0) ∧
        maskSpectrum v v true l = ∑ i ∈ range r.nsrc, ∑ j ∈ (range r.nsrc).erase i,
          pairTerm H 0 0 0 0 l (r.at i) (bothWeight d r (d.nsrc + i)) 0 (r.at j) (bothWeight d r (d.nsrc + j)) 0 := by
  unfold nmtFieldClustering at h
  by_cases h1 : positionsOk d.rows d.cols d.nsrc d.pos
  swap
  · simp only [h1, not_false_eq_true, if_true] at h; cases h
  by_cases h2 : positionsOk r.rows r.cols r.nsrc r.pos
  swap
  · simp only [h1, h2, not_true_eq_false, not_false_eq_true, if_true, if_false] at h; cases h
  simp only [h1, h2, not_true_eq_false, if_false, Outcome.ok.injEq] at h
  subst h
  refine ⟨_, coupledCell_val _ _ true _ _ rfl rfl (by unfold isCompatible; simp), rfl, by simp [Arr2.of], ?_⟩
  intro l hl hN
  constructor
  · simp only [Arr2.of]
    rw [tab2_of_lt _ (by norm_num) (by simp; omega)]
    have key := catalog_self H 0 (d.nsrc + r.nsrc) (bothAt d r) (single (bothWeight d r)) 0 0 l 1 hN (by simp) (by norm_num)
      (by norm_num)
    simp only [single, if_pos, sum_range_one, Nat.cast_one, mul_one, one_ne_zero, if_false] at key
    rw [← key]
    simp only [Nat.zero_div, Nat.zero_mod, if_true]
    congr 1
    · exact alm2cl_congr (fun m => (catalog_both H d r l m).symm) (fun m => (catalog_both H d r l m).symm)
    · rw [sum_range_add, add_div]
      congr 1
      · congr 1
        exact sum_congr rfl fun i hi => by simp only [bothWeight, if_pos (mem_range.1 hi)]
      · congr 1
        rw [mul_sum]
        refine sum_congr rfl fun i _ => ?_
        have : ¬ d.nsrc + i < d.nsrc := by omega
        simp only [bothWeight, if_neg this, Nat.add_sub_cancel_left]; ring
  · set al := (∑ i ∈ range d.nsrc, d.weights i) / ∑ i ∈ range r.nsrc, r.weights i with hal
    have key := catalog_self H 0 r.nsrc r.at (single fun i => bothWeight d r (d.nsrc + i)) 0 0 l 1 hN (by simp) (by norm_num)
      (by norm_num)
    simp only [single, if_pos, sum_range_one, Nat.cast_one, mul_one, one_ne_zero, if_false] at key
    rw [← key]
    unfold maskSpectrum
    simp only [if_true]
    have hw : ∀ i, bothWeight d r (d.nsrc + i) = -(r.weights i * al) := by
      intro i
      have : ¬ d.nsrc + i < d.nsrc := by omega
      simp only [bothWeight, if_neg this, Nat.add_sub_cancel_left]; rfl
    have hneg : ∀ m, catalog2alm H 0 r.nsrc r.at (single fun i => r.weights i * al) 0 l m =
        ((-1 : ℝ) : ℂ) * catalog2alm H 0 r.nsrc r.at (fun c p => if c = 0 then bothWeight d r (d.nsrc + p) else 0) 0 l m := by
      intro m
      unfold catalog2alm
      rw [mul_sum]
      refine sum_congr rfl fun i _ => ?_
      simp only [single, Harm.source, if_true, hw]
      push_cast; ring
    congr 1
    · refine (alm2cl_congr (b' := fun l m => ((-1 : ℝ) : ℂ) * catalog2alm H 0 r.nsrc r.at
          (fun c p => if c = 0 then bothWeight d r (d.nsrc + p) else 0) 0 l m)
        (a' := fun l m => ((-1 : ℝ) : ℂ) * catalog2alm H 0 r.nsrc r.at
          (fun c p => if c = 0 then bothWeight d r (d.nsrc + p) else 0) 0 l m) hneg hneg).trans ?_
      rw [alm2cl_smul_left, alm2cl_smul_right]
      ring_nf; rfl
    · congr 1
      rw [mul_sum]
      refine sum_congr rfl fun i _ => ?_
      rw [hw]; ring

/-- C39 is false below the spin. The harmonics of spin `s` are zero for `l < |s|`, so that no pair of sources contributes, but the noise is
subtracted there too and the spectrum is minus the noise. -/
theorem C39_low_l_wrong (H : Harm (ℝ × ℝ)) (a : CatArgs) (f : CatObj) (h : nmtFieldCatalog H a = .ok f) (fl : StackArg)
    (hfl : a.field = some fl) (hs : f.spin ≠ 0) (l : ℕ) (hl : l ≤ a.lmax)
    (hz : ∀ m x, H.a f.spin l m x = 0 ∧ H.b f.spin l m x = 0) :
    (∀ c d x q u x' q' u', pairTerm H f.spin f.spin c d l x q u x' q' u' = 0) ∧
    ∃ r : Arr2 ℝ, computeCoupledCell f.view f.view true = .ok (some r) ∧
      r.val 0 l = -((∑ i ∈ range a.nsrc, (a.value fl 0 i ^ 2 + a.value fl 1 i ^ 2)) / (8 * Real.pi)) ∧ r.val 3 l = r.val 0 l := by
  have hp : ∀ c d x q u x' q' u', pairTerm H f.spin f.spin c d l x q u x' q' u' = 0 := by
    intro c d x q u x' q' u'
    unfold pairTerm alm2cl
    rw [sum_eq_zero, zero_div]
    intro m _
    have : H.source f.spin x q u c l m = 0 := by
      unfold Harm.source; rw [if_neg hs, (hz m x).1, (hz m x).2]; simp
    rw [this]; simp
  refine ⟨hp, ?_⟩
  obtain ⟨e1, e2, e3, e4⟩ := catalog_ok H a f h fl hfl
  rw [if_neg hs] at e1 e4
  have ev : f.view.ncomp = 2 := by unfold CatObj.view; simp [e1]
  have hcomp : isCompatible f.view.geom f.view.geom false = true := by unfold isCompatible; simp
  have hlm : l < min f.view.geom.lmax f.view.geom.lmax + 1 := by unfold CatObj.view; simp [e2]; omega
  have hN : f.noiseF = (∑ i ∈ range a.nsrc, (a.value fl 0 i ^ 2 + a.value fl 1 i ^ 2)) / (8 * Real.pi) := by
    rw [e4, sum_range_succ, sum_range_one, ← sum_add_distrib]
    congr 1
    push_cast; ring
  refine ⟨_, coupledCell_val _ _ true _ _ (by unfold CatObj.view; rw [e3]; rfl) (by unfold CatObj.view; rw [e3]; rfl) hcomp, ?_, ?_⟩
  · simp only [Arr2.of, ev]
    rw [tab2_of_lt _ (by norm_num) hlm, catalog_pairs]
    simp only [hp, sum_const_zero, Nat.zero_div, Nat.zero_mod, if_true, zero_sub]
    rw [show f.view.noiseF = f.noiseF from rfl, hN]
  · simp only [Arr2.of, ev]
    rw [tab2_of_lt _ (by norm_num) hlm, tab2_of_lt _ (by norm_num) hlm, catalog_pairs, catalog_pairs]
    simp only [hp, sum_const_zero, Nat.zero_div, Nat.zero_mod, if_true, zero_sub]

/-! ## Example -/

/-- Harmonics with all power in `m = 0`, normalised for every multipole not below the spin. -/
noncomputable def flatHarm : Harm (ℝ × ℝ) where
  a s l m _ := if m = 0 then (if s = 0 then (Real.sqrt ((2 * l + 1) / (4 * Real.pi)) : ℂ)
    else if (l : ℤ) < |s| then 0 else (Real.sqrt ((2 * l + 1) / (8 * Real.pi)) : ℂ)) else 0
  b s l m _ := if m = 0 then (if s = 0 ∨ (l : ℤ) < |s| then 0 else Complex.I * (Real.sqrt ((2 * l + 1) / (8 * Real.pi)) : ℂ)) else 0

theorem alm2cl_m0 (a b : ℕ → ℕ → ℂ) (l : ℕ) (h : ∀ m, m ≠ 0 → a l m = 0) :
    alm2cl a b l = (a l 0 * (starRingEnd ℂ) (b l 0)).re / (2 * l + 1) := by
  unfold alm2cl
  rw [sum_eq_single_of_mem 0 (mem_range.2 (by omega)) fun m _ hm => by rw [h m hm]; simp]
  simp

/-- The assumption holds for these harmonics. -/
theorem flatHarm_normalised (s : ℤ) (l : ℕ) (hl : |s| ≤ l) : flatHarm.Normalised s l := by
  have hp := Real.pi_pos
  have h4 : (0 : ℝ) ≤ (2 * l + 1) / (4 * Real.pi) := by positivity
  have h8 : (0 : ℝ) ≤ (2 * l + 1) / (8 * Real.pi) := by positivity
  have hn : ¬ ((l : ℤ) < |s|) := by omega
  have hl0 : (2 * (l : ℝ) + 1) ≠ 0 := by positivity
  constructor
  · intro _ x
    rw [alm2cl_m0 _ _ _ fun m hm => by simp [flatHarm, hm]]
    simp only [flatHarm, if_true, Complex.conj_ofReal, ← Complex.ofReal_mul, Complex.ofReal_re]
    rw [Real.mul_self_sqrt h4]; field_simp
  · intro hs x
    rw [alm2cl_m0 _ _ _ fun m hm => by simp [flatHarm, hm]]
    simp only [flatHarm, if_true, if_neg hs, if_neg hn, Complex.conj_ofReal, ← Complex.ofReal_mul, Complex.ofReal_re]
    rw [Real.mul_self_sqrt h8]; field_simp
  · intro hs x
    rw [alm2cl_m0 _ _ _ fun m hm => by simp [flatHarm, hm]]
    simp only [flatHarm, if_true, hs, hn, or_self, if_false, map_mul, Complex.conj_ofReal, Complex.conj_I]
    rw [show Complex.I * (Real.sqrt ((2 * l + 1) / (8 * Real.pi)) : ℂ) * (-Complex.I * (Real.sqrt ((2 * l + 1) / (8 * Real.pi)) : ℂ)) =
      ((Real.sqrt ((2 * l + 1) / (8 * Real.pi)) * Real.sqrt ((2 * l + 1) / (8 * Real.pi)) : ℝ) : ℂ) by
        push_cast; linear_combination (-(Real.sqrt ((2 * l + 1) / (8 * Real.pi)) : ℂ) ^ 2) * Complex.I_sq]
    rw [Complex.ofReal_re, Real.mul_self_sqrt h8]; field_simp
  · intro hs x
    rw [alm2cl_m0 _ _ _ fun m hm => by simp [flatHarm, hm]]
    simp [flatHarm, hs, hn]

/-- Two sources with spin-2 values. -/
noncomputable def twoCat : CatArgs :=
  ⟨2, 2, fun c i => if c = 0 then 1 else i, 2, fun i => i + 1, some ⟨2, 2, fun c i => if c = 0 then 1 else 3 * i⟩, some 2, 4, none, none, false⟩

theorem twoCat_ok : ∃ f, nmtFieldCatalog flatHarm twoCat = .ok f ∧ f.spin = 2 := by
  have h : positionsOk twoCat.rows twoCat.cols twoCat.nsrc twoCat.pos := by
    have := Real.pi_gt_three
    refine ⟨rfl, rfl, ?_, ?_⟩ <;> intro i hi <;> simp only [twoCat] at hi ⊢
    · exact ⟨by simp, by simp; linarith⟩
    · have : (i : ℝ) ≤ 1 := by exact_mod_cast (by omega : i ≤ 1)
      exact ⟨by simp, by simp; linarith⟩
  unfold nmtFieldCatalog
  simp only [h, not_true_eq_false, if_false]
  refine ⟨_, rfl, rfl⟩

/-- The two sources of `twoCat` give four pair terms in the sum over pairs of different sources; below the spin the spectrum is
minus the noise, which is not zero. -/
example : ∃ f r, nmtFieldCatalog flatHarm twoCat = .ok f ∧ computeCoupledCell f.view f.view true = .ok (some r) ∧
    r.val 0 1 = -(41 / (8 * Real.pi)) := by
  obtain ⟨f, hf, hs⟩ := twoCat_ok
  obtain ⟨-, r, h1, h2, -⟩ := C39_low_l_wrong flatHarm twoCat f hf _ rfl (by rw [hs]; norm_num) 1 (by norm_num [twoCat])
    (by intro m x; rw [hs]; simp [flatHarm])
  refine ⟨f, r, hf, h1, ?_⟩
  rw [h2]
  congr 2
  simp only [twoCat, CatArgs.value, sum_range_succ]
  norm_num

/-- The same catalog at a multipole not below the spin. -/
example : ∃ f r, nmtFieldCatalog flatHarm twoCat = .ok f ∧ computeCoupledCell f.view f.view true = .ok (some r) ∧
    r.val 0 3 = ∑ i ∈ range 2, ∑ j ∈ (range 2).erase i, pairTerm flatHarm 2 2 0 0 3
      (twoCat.at i) (i + 1) ((3 * i) * (i + 1)) (twoCat.at j) (j + 1) ((3 * j) * (j + 1)) := by
  obtain ⟨f, hf, hs⟩ := twoCat_ok
  obtain ⟨r, h1, -, -, h2⟩ := C39_catalog flatHarm twoCat f hf _ rfl 2 (by rw [hs]; norm_num)
  refine ⟨f, r, hf, h1, ?_⟩
  have := h2 3 (by norm_num [twoCat]) (by rw [hs]; exact flatHarm_normalised 2 3 (by norm_num)) 0 (by norm_num) 0 (by norm_num)
  simp only [zero_mul, add_zero] at this
  rw [this, hs]
  refine sum_congr rfl fun i _ => sum_congr rfl fun j _ => ?_
  simp [twoCat, CatArgs.value]

end NaMaster
