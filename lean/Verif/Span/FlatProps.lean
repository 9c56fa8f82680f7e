import Verif.Span.FlatLemmas
import Verif.FlatUnits.Props

/-! # C105: template deprojection of flat-sky fields depends on the span of the templates only -/

namespace NaMaster

open Real Finset

/-- Field objects made with two sets of templates, and what they have in common. -/
structure FlatAlike (env : FlatEnv) (a a' : FlatFieldArgs) (sp : ℕ) (v : FlatMaps) (f f' : FlatFieldObj) (Q Q' : ℕ → ℕ → ℝ) : Prop where
  k : FlatIs env a sp v f
  k' : FlatIs env a' sp v f'
  q : f.matrixM.getD (some fun _ _ => 0) = some Q
  q' : f'.matrixM.getD (some fun _ _ => 0) = some Q'
  pop : popFlat env a' sp = popFlat env a sp
  zero : a'.nTempl = 0 ↔ a.nTempl = 0
  mask : a'.mask = a.mask
  fs : a'.fs = a.fs
  base : f'.base = f.base
  rem : SameRemoved a.fs (nmapsOf sp) a.nTempl a'.nTempl Q Q' (fun i c p => a.rawTempl i c p * a.mask p) (fun i c p => a'.rawTempl i c p * a'.mask p)
    (fun i => popFlat env a sp (a.rawTempl i)) fun i => popFlat env a' sp (a'.rawTempl i)

section
variable {env : FlatEnv} {a a' : FlatFieldArgs} {nc sp : ℕ} {v : FlatMaps} {f f' : FlatFieldObj}

/-- A finite pseudo-inverse of templates whose scalar products are separated by the tolerance. -/
theorem FlatIs.genInv (hE : env.eig.Correct) (hc : FlatCall a) (h0 : 0 < a.tol) {t : FlatTemplArg} (ht : a.templates = some t)
    (hn : t.ncomp = nmapsOf sp) (hpos : 0 < t.ntemp) (hsep : a.SeparatedTempl t) (k : FlatIs env a sp v f) :
    ∃ Q, f.matrixM = some (some Q) ∧ GenInv t.ntemp (gram (flatPix a.fs) (nmapsOf sp) fun i => toStack a.fs fun c p => t.val i c p * a.mask p) Q := by
  obtain ⟨Q, e, hQ⟩ := flat_genInv hE k.lx k.ly h0 hsep
  have hm : ∀ x : FlatMaps, a.masked x = fun c p => x c p * a.mask p := by
    intro x; unfold FlatFieldArgs.masked; simp [hc.unmasked]
  have n1 : a.nTempl = t.ntemp := by unfold FlatFieldArgs.nTempl; rw [ht]; rfl
  have n2 : a.rawTempl = t.val := by unfold FlatFieldArgs.rawTempl; rw [ht]; rfl
  refine ⟨Q, ?_, ?_⟩
  · rw [k.matrix, n1, n2, if_pos hpos, ← hn, ← e, ← flatGram_tab]
    simp only [hm]
  · rw [gram_flat, hn] at hQ
    simp only [hm] at hQ
    exact hQ

theorem popFlat_removed (a : FlatFieldArgs) (sp n : ℕ) (z : ℕ → ℝ) (U : ℕ → FlatMaps) :
    ∑ i ∈ range n, z i • popFlat env a sp (U i) = popFlat env a sp (combineFlat n z U) := by
  have e : combineFlat n z U = ∑ i ∈ range n, z i • U i := by
    funext c p; simp [combineFlat]
  rw [e]
  have := _root_.map_sum (popFlatL env a sp) (fun i => z i • U i) (range n)
  simp only [map_smul] at this
  exact this.symm

theorem flat_base_same (hs : SameSpanFlat a a') (hf : nmtFieldFlat env (a.withMaps nc v) = .ok f) (hf' : nmtFieldFlat env (a'.withMaps nc v) = .ok f') :
    f'.base = f.base := by
  obtain ⟨spin, beam, e1, -, -, -, -, -, e2, e3⟩ := flat_ok rfl hf
  obtain ⟨spin', beam', e1', -, -, -, -, -, e2', e3'⟩ := flat_ok rfl hf'
  have s : flatSpin (a'.withMaps nc v) = flatSpin (a.withMaps nc v) := by rw [hs.rest]; rfl
  have b : (a'.withMaps nc v).beam = (a.withMaps nc v).beam := by rw [hs.rest]; rfl
  rw [s, e1] at e1'
  rw [b, e2] at e2'
  cases e1'
  cases e2'
  rw [e3, e3']
  have m : (⟨(a'.withMaps nc v).fs, spin, (a'.withMaps nc v).mask, beam, if (a'.withMaps nc v).purifyE then 1 else 0,
      if (a'.withMaps nc v).purifyB then 1 else 0⟩ : FlatField) = ⟨(a.withMaps nc v).fs, spin, (a.withMaps nc v).mask, beam,
      if (a.withMaps nc v).purifyE then 1 else 0, if (a.withMaps nc v).purifyB then 1 else 0⟩ := by rw [hs.rest]; rfl
  exact m

/-- Both calls make field objects that remove the same. -/
theorem flat_alike_of (hE : env.eig.Correct) (hc : FlatCall a) (h0 : 0 < a.tol) (hs : SameSpanFlat a a')
    (hf : nmtFieldFlat env (a.withMaps nc v) = .ok f) (hf' : nmtFieldFlat env (a'.withMaps nc v) = .ok f') :
    nc = nmapsOf (a.spinFor nc) ∧ ∃ Q Q', FlatAlike env a a' (a.spinFor nc) v f f' Q Q' := by
  have hr := hs.rest
  have hc' : FlatCall a' := by rw [hr]; exact ⟨hc.unmasked, hc.full⟩
  obtain ⟨hn, k⟩ := flat_is hc hf
  obtain ⟨-, k'⟩ := flat_is hc' hf'
  have rs : a'.spinFor nc = a.spinFor nc := by rw [hr]; rfl
  rw [rs] at k'
  have rm : a'.mask = a.mask := by rw [hr]
  have rf : a'.fs = a.fs := by rw [hr]
  have rt : a'.tol = a.tol := by rw [hr]
  have rp : popFlat env a' (a.spinFor nc) = popFlat env a (a.spinFor nc) := by
    funext x; rw [hr]; rfl
  refine ⟨hn, ?_⟩
  set sp := a.spinFor nc with hsp
  rcases hs.span with ⟨ht, ht'⟩ | ⟨t, t', ht, ht', hsep, hsep', hspan⟩
  · have z : a.nTempl = 0 := by unfold FlatFieldArgs.nTempl; rw [ht]; rfl
    have z' : a'.nTempl = 0 := by unfold FlatFieldArgs.nTempl; rw [ht']; rfl
    refine ⟨fun _ _ => 0, fun _ _ => 0, k, k', by rw [k.matrix, z]; rfl, by rw [k'.matrix, z']; rfl, rp, by rw [z, z'], rm, rf, flat_base_same hs hf hf', ?_⟩
    intro x X _
    rw [z, z']
    simp
  obtain ⟨_, -, -, c1, c2, -⟩ := flat_templ (a := a.withMaps nc v) rfl ht hf
  obtain ⟨_, -, -, c1', c2', -⟩ := flat_templ (a := a'.withMaps nc v) rfl ht' hf'
  have c1 : t.ncomp = nmapsOf sp := c1.trans hn
  have c1' : t'.ncomp = nmapsOf sp := c1'.trans hn
  obtain ⟨Q, q, hQ⟩ := k.genInv hE hc h0 ht c1 c2 hsep
  obtain ⟨Q', q', hQ'⟩ := k'.genInv hE hc' (by rw [rt]; exact h0) ht' c1' c2' hsep'
  have n1 : a.nTempl = t.ntemp := by unfold FlatFieldArgs.nTempl; rw [ht]; rfl
  have n2 : a.rawTempl = t.val := by unfold FlatFieldArgs.rawTempl; rw [ht]; rfl
  have n1' : a'.nTempl = t'.ntemp := by unfold FlatFieldArgs.nTempl; rw [ht']; rfl
  have n2' : a'.rawTempl = t'.val := by unfold FlatFieldArgs.rawTempl; rw [ht']; rfl
  have hm : ∀ x : FlatMaps, a.masked x = fun c p => x c p * a.mask p := by
    intro x; unfold FlatFieldArgs.masked; simp [hc.unmasked]
  refine ⟨Q, Q', k, k', by rw [q]; rfl, by rw [q']; rfl, rp, by rw [n1, n1']; omega, rm, rf, flat_base_same hs hf hf', ?_⟩
  rw [rm, rf] at hQ'
  intro x X hX
  rw [rp, rm, n1, n2, n1', n2', popFlat_removed, popFlat_removed]
  funext l
  rcases hspan with ⟨hplain, hspn⟩ | ⟨hspn, hind⟩
  · rw [c1] at hspn
    simp only [hm] at hspn
    have hp : ¬ (a.purifyE = true ∨ a.purifyB = true) := by
      intro h; rcases h with h | h <;> simp [h] at hplain
    have hmul : ∀ (n : ℕ) (z : ℕ → ℝ) (U : ℕ → FlatMaps) (c : ℕ) (p : ℕ × ℕ), combineFlat n z U c p * a.mask p =
        combineFlat n z (fun i c p => U i c p * a.mask p) c p := by
      intro n z U c p
      unfold combineFlat
      rw [sum_mul]
      exact sum_congr rfl fun i _ => by ring
    unfold popFlat
    rw [if_neg hp, if_neg hp]
    refine fsMap2alm_pix (fun c hc p hp => ?_) hX l
    rw [hmul, hmul]
    exact removed_masked_flat k.lx k.ly hQ hQ' hspn x hc hp
  · rw [c1] at hspn
    unfold FlatFieldArgs.IndependentTempl at hind
    rw [c1] at hind
    simp only [hm] at hind
    exact popFlat_congr env k.pure2 (fun c hc p hp => removed_raw_flat k.lx k.ly hQ hQ' hspn hind x hc hp) hX l

/-- The coefficients of both field objects. -/
theorem FlatAlike.alms {Q Q' : ℕ → ℕ → ℝ} (h : FlatAlike env a a' sp v f f' Q Q') :
    ∃ A A', f.alms = some (some A) ∧ f'.alms = some (some A') ∧ ∀ X < nmapsOf sp, A' X = A X := by
  refine ⟨_, _, h.k.alms Q h.q, h.k'.alms Q' h.q', fun X hX => ?_⟩
  rw [popFlat_expand, popFlat_expand, Pi.sub_apply, Pi.sub_apply, h.pop]
  have := h.rem (fun c p => v c p * a.mask p) X hX
  rw [h.pop] at this
  unfold flatCoef at this
  rw [h.fs, h.mask]
  rw [h.mask] at this
  rw [this]

end

section
variable {env : FlatEnv} {a1 a2 a1' a2' : FlatFieldArgs} {n1 n2 sp1 sp2 : ℕ} {v1 v2 : FlatMaps} {f1 f2 f1' f2' : FlatFieldObj}
  {Q1 Q2 Q1' Q2' : ℕ → ℕ → ℝ}

theorem biasFlatSums_from (k1 : FlatIs env a1 sp1 v1 f1) (k2 : FlatIs env a2 sp2 v2 f2) (rows : List (List ℤ)) (g : ℕ → ℕ → ℝ → ℝ) (c d ib : ℕ) :
    biasFlatSums env f1 f2 rows g Q1 Q2 c d ib = biasFrom a1.fs rows (nmapsOf sp1) a1.nTempl a2.nTempl a1.mask (popFlat env a1 sp1) (popFlat env a2 sp2)
      (biasMapFlat env f1 f2 g) (biasMapFlat env f2 f1 fun d c => g c d) (fun i c p => a1.rawTempl i c p * a1.mask p)
      (fun i c p => a2.rawTempl i c p * a2.mask p) (fun i => popFlat env a1 sp1 (a1.rawTempl i)) (fun i => popFlat env a2 sp2 (a2.rawTempl i)) Q1 Q2 c d ib := by
  unfold biasFlatSums biasFrom
  simp only [k1.fs, k1.ntemp, k2.ntemp, k1.nmaps, k1.mask, k1.pop, k2.pop]
  have hA : ∀ i ∈ range a2.nTempl, ∀ j ∈ range a2.nTempl,
      clBand a1.fs rows (popFlat env a1 sp1 (biasMapFlat env f2 f1 (fun d c => g c d) (f2.temp.getD (fun _ _ _ => 0) j)) c)
        (f2.aTemp.getD (fun _ _ _ => 0) i d) ib * Q2 i j =
      clBand a1.fs rows (popFlat env a1 sp1 (biasMapFlat env f2 f1 (fun d c => g c d) fun c p => a2.rawTempl j c p * a2.mask p) c)
        (popFlat env a2 sp2 (a2.rawTempl i) d) ib * Q2 i j := by
    intro i hi j hj
    rw [k2.aTemp i (mem_range.1 hi), k2.temp j (mem_range.1 hj)]
  have hB : ∀ i ∈ range a1.nTempl, ∀ j ∈ range a1.nTempl,
      clBand a1.fs rows (f1.aTemp.getD (fun _ _ _ => 0) i c)
        (popFlat env a2 sp2 (biasMapFlat env f1 f2 g (f1.temp.getD (fun _ _ _ => 0) j)) d) ib * Q1 i j =
      clBand a1.fs rows (popFlat env a1 sp1 (a1.rawTempl i) c)
        (popFlat env a2 sp2 (biasMapFlat env f1 f2 g fun c p => a1.rawTempl j c p * a1.mask p) d) ib * Q1 i j := by
    intro i hi j hj
    rw [k1.aTemp i (mem_range.1 hi), k1.temp j (mem_range.1 hj)]
  have hD : ∀ i ∈ range a1.nTempl, ∀ p ∈ range a2.nTempl, ∀ j ∈ range a1.nTempl, ∀ q ∈ range a2.nTempl,
      clBand a1.fs rows (f1.aTemp.getD (fun _ _ _ => 0) i c) (f2.aTemp.getD (fun _ _ _ => 0) p d) ib *
        a1.fs.dot (nmapsOf sp1) (fun c p => biasMapFlat env f2 f1 (fun d c => g c d) (f2.temp.getD (fun _ _ _ => 0) q) c p * a1.mask p)
          (f1.temp.getD (fun _ _ _ => 0) j) * Q1 i j * Q2 p q =
      clBand a1.fs rows (popFlat env a1 sp1 (a1.rawTempl i) c) (popFlat env a2 sp2 (a2.rawTempl p) d) ib *
        a1.fs.dot (nmapsOf sp1) (fun c p => biasMapFlat env f2 f1 (fun d c => g c d) (fun c p => a2.rawTempl q c p * a2.mask p) c p * a1.mask p)
          (fun c p => a1.rawTempl j c p * a1.mask p) * Q1 i j * Q2 p q := by
    intro i hi p hp j hj q hq
    rw [k1.aTemp i (mem_range.1 hi), k2.aTemp p (mem_range.1 hp), k2.temp q (mem_range.1 hq), k1.temp j (mem_range.1 hj)]
  rw [sum_congr rfl fun i hi => sum_congr rfl fun j hj => hA i hi j hj, sum_congr rfl fun i hi => sum_congr rfl fun j hj => hB i hi j hj,
    sum_congr rfl fun i hi => sum_congr rfl fun p hp => sum_congr rfl fun j hj => sum_congr rfl fun q hq => hD i hi p hp j hj q hq]

theorem FlatAlike.nmaps (h : FlatAlike env a1 a1' sp1 v1 f1 f1' Q1 Q1') : f1'.nmaps = f1.nmaps := by rw [h.k.nmaps, h.k'.nmaps]

theorem biasMapFlat_alike (h1 : FlatAlike env a1 a1' sp1 v1 f1 f1' Q1 Q1') (h2 : FlatAlike env a2 a2' sp2 v2 f2 f2' Q2 Q2') (g : ℕ → ℕ → ℝ → ℝ) :
    biasMapFlat env f1' f2' g = biasMapFlat env f1 f2 g := by
  funext t
  unfold biasMapFlat
  rw [h1.base, h2.base, h1.nmaps]

theorem biasFlatSums_span (hl : env.Linear) (h1 : FlatAlike env a1 a1' sp1 v1 f1 f1' Q1 Q1') (h2 : FlatAlike env a2 a2' sp2 v2 f2 f2' Q2 Q2')
    (hfs : a2.fs = a1.fs) (rows : List (List ℤ)) (g : ℕ → ℕ → ℝ → ℝ) {c d : ℕ} (hc : c < nmapsOf sp1) (hd : d < nmapsOf sp2) (ib : ℕ) :
    biasFlatSums env f1' f2' rows g Q1' Q2' c d ib = biasFlatSums env f1 f2 rows g Q1 Q2 c d ib := by
  rw [biasFlatSums_from h1.k h2.k, biasFlatSums_from h1.k' h2.k', biasMapFlat_alike h1 h2, biasMapFlat_alike h2 h1, h1.fs]
  have r1 := h1.rem
  have r2 := h2.rem
  rw [hfs] at r2
  rw [h1.pop] at r1 ⊢
  rw [h2.pop] at r2 ⊢
  rw [h1.mask] at r1 ⊢
  have l1 : ∀ x y : FlatMaps, (∀ c < nmapsOf sp1, ∀ p ∈ a1.fs.modes, x c p = y c p) → biasMapFlat env f1 f2 g x = biasMapFlat env f1 f2 g y :=
    fun x y h => biasMapFlat_pix env f2 g (by rw [h1.k.nmaps, h1.k.spin]) (by rw [h1.k.nmaps, h1.k.fs]; exact h)
  have l2 : ∀ x y : FlatMaps, (∀ c < nmapsOf sp2, ∀ p ∈ a1.fs.modes, x c p = y c p) →
      biasMapFlat env f2 f1 (fun d c => g c d) x = biasMapFlat env f2 f1 (fun d c => g c d) y :=
    fun x y h => biasMapFlat_pix env f1 _ (by rw [h2.k.nmaps, h2.k.spin]) (by rw [h2.k.nmaps, h2.k.fs, hfs]; exact h)
  exact (biasFrom_same (fun p hp => (flatPix_pos h1.k.lx h1.k.ly _ (pixel_code hp).1).ne') rows a1.mask (popFlatL env a1 sp1) (popFlatL env a2 sp2)
    (biasMapFlatL hl f1 f2 g) (biasMapFlatL hl f2 f1 fun d c => g c d) l1 l2 r1 r2 hc hd ib).symm

open Classical in
theorem biasC_span (hl : env.Linear) (h1 : FlatAlike env a1 a1' sp1 v1 f1 f1' Q1 Q1') (h2 : FlatAlike env a2 a2' sp2 v2 f2 f2' Q2 Q2')
    (b : FlatBins ℝ) (c : EllCuts) (ells : List ℝ) (guess : ℕ → ℕ → ℝ) (rows : ℕ) :
    deprojBiasFlatObjC env f1' f2' b c ells guess rows = deprojBiasFlatObjC env f1 f2 b c ells guess rows := by
  unfold deprojBiasFlatObjC
  have z : (f1'.ntemp = 0 ∧ f2'.ntemp = 0) = (f1.ntemp = 0 ∧ f2.ntemp = 0) := by
    rw [h1.k.ntemp, h2.k.ntemp, h1.k'.ntemp, h2.k'.ntemp, h1.zero, h2.zero]
  simp only [h1.k.lite, h2.k.lite, h1.k'.lite, h2.k'.lite, h1.nmaps, h2.nmaps, h1.base, h2.base, z, h1.q, h1.q', h2.q, h2.q']
  by_cases hfs : f1.base.fs ≠ f2.base.fs
  · simp only [if_pos hfs]
  have hfs' : a2.fs = a1.fs := by rw [← h1.k.fs, ← h2.k.fs]; exact (not_not.1 hfs).symm
  have hn2 : 0 < f2.nmaps := by
    rw [h2.k.nmaps]; unfold nmapsOf; split_ifs <;> norm_num
  have e : ∀ tbl : List (List ℤ), (Arr2.of rows b.nBands fun i ib => if i < f1.nmaps * f2.nmaps then
      biasFlatSums env f1' f2' tbl (fun c d => propFun ells (guess (c * f2.nmaps + d))) Q1' Q2' (i / f2.nmaps) (i % f2.nmaps) ib else 0) =
      Arr2.of rows b.nBands fun i ib => if i < f1.nmaps * f2.nmaps then
        biasFlatSums env f1 f2 tbl (fun c d => propFun ells (guess (c * f2.nmaps + d))) Q1 Q2 (i / f2.nmaps) (i % f2.nmaps) ib else 0 := by
    intro tbl
    refine Arr2.of_congr fun i ib _ _ => ?_
    by_cases hi : i < f1.nmaps * f2.nmaps
    · rw [if_pos hi, if_pos hi]
      refine biasFlatSums_span hl h1 h2 hfs' tbl _ ?_ ?_ ib
      · rw [← h1.k.nmaps]; exact Nat.div_lt_of_lt_mul (by rw [mul_comm]; exact hi)
      · rw [← h2.k.nmaps]; exact Nat.mod_lt _ hn2
    · rw [if_neg hi, if_neg hi]
  simp only [e]

theorem fsAlm2clAll_span {g1 g2 g1' g2' : FlatFieldData} (b1 : g1'.toFlatField = g1.toFlatField) (b2 : g2'.toFlatField = g2.toFlatField)
    (x1 : ∀ X < g1.nmaps, g1'.alms X = g1.alms X) (x2 : ∀ X < g2.nmaps, g2'.alms X = g2.alms X) (b : FlatBins ℝ) (c : EllCuts) (rows : ℕ) :
    fsAlm2clAll g1' g2' b c rows = fsAlm2clAll g1 g2 b c rows := by
  have m1 : g1'.nmaps = g1.nmaps := congrArg (fun g : FlatField => nmapsOf g.spin) b1
  have m2 : g2'.nmaps = g2.nmaps := congrArg (fun g : FlatField => nmapsOf g.spin) b2
  have e1 : g1'.fs = g1.fs := congrArg FlatField.fs b1
  unfold fsAlm2clAll
  rw [m1, m2, e1]
  congr 3
  refine List.map_congr_left fun i hi => ?_
  rw [List.mem_range] at hi
  have hn : 0 < g2.nmaps := by
    rcases Nat.eq_zero_or_pos g2.nmaps with h | h
    · rw [h, mul_zero] at hi; omega
    · exact h
  rw [x1 _ (Nat.div_lt_of_lt_mul (by rw [mul_comm]; exact hi)), x2 _ (Nat.mod_lt _ hn)]

theorem FlatAlike.data (h : FlatAlike env a1 a1' sp1 v1 f1 f1' Q1 Q1') : f1'.data.toFlatField = f1.data.toFlatField ∧
    ∀ X < f1.data.nmaps, f1'.data.alms X = f1.data.alms X := by
  refine ⟨h.base, fun X hX => ?_⟩
  have hX : X < nmapsOf sp1 := by rw [← h.k.spin]; exact hX
  obtain ⟨A, A', e, e', h⟩ := h.alms
  unfold FlatFieldObj.data
  rw [e, e']
  exact h X hX

open Classical in
theorem coupledC_span (h1 : FlatAlike env a1 a1' sp1 v1 f1 f1' Q1 Q1') (h2 : FlatAlike env a2 a2' sp2 v2 f2 f2' Q2 Q2')
    (b : FlatBins ℝ) (c : EllCuts) (rows : ℕ) : coupledCellFlatC f1'.data f2'.data b c rows = coupledCellFlatC f1.data f2.data b c rows := by
  have e1 : f1'.data.fs = f1.data.fs := congrArg FlatField.fs h1.base
  have e2 : f2'.data.fs = f2.data.fs := congrArg FlatField.fs h2.base
  have o1 : f1'.data.maskOnly = f1.data.maskOnly := h1.k'.maskOnly.trans h1.k.maskOnly.symm
  have o2 : f2'.data.maskOnly = f2.data.maskOnly := h2.k'.maskOnly.trans h2.k.maskOnly.symm
  unfold coupledCellFlatC
  rw [fsAlm2clAll_span h1.data.1 h2.data.1 h1.data.2 h2.data.2, e1, e2, o1, o2]

/-- **C105**, fields: the coefficients of a flat-sky field do not depend on which templates are given, how many, in which order and units, as long as
they span the same maps. -/
theorem C105_field (hE : env.eig.Correct) (hc : FlatCall a1) (h0 : 0 < a1.tol) (hs : SameSpanFlat a1 a1')
    (hf : nmtFieldFlat env (a1.withMaps n1 v1) = .ok f1) (hf' : nmtFieldFlat env (a1'.withMaps n1 v1) = .ok f1') :
    ∃ A A', f1.alms = some (some A) ∧ f1'.alms = some (some A') ∧ ∀ X < n1, A' X = A X := by
  obtain ⟨hn, Q, Q', h⟩ := flat_alike_of hE hc h0 hs hf hf'
  obtain ⟨A, A', e, e', k⟩ := h.alms
  exact ⟨A, A', e, e', fun X hX => k X (by rw [← hn]; exact hX)⟩

/-- **C105**, spectra: pseudo-spectra and the deprojection bias of flat-sky fields do not depend on which templates are given, as long as they span the
same maps. -/
theorem C105_spectra (hE : env.eig.Correct) (hl : env.Linear) (c1 : FlatCall a1) (c2 : FlatCall a2) (t1 : 0 < a1.tol) (t2 : 0 < a2.tol)
    (s1 : SameSpanFlat a1 a1') (s2 : SameSpanFlat a2 a2')
    (hf1 : nmtFieldFlat env (a1.withMaps n1 v1) = .ok f1) (hf2 : nmtFieldFlat env (a2.withMaps n2 v2) = .ok f2)
    (hf1' : nmtFieldFlat env (a1'.withMaps n1 v1) = .ok f1') (hf2' : nmtFieldFlat env (a2'.withMaps n2 v2) = .ok f2')
    (b : FlatBins ℝ) (c : EllCuts) (ells : List ℝ) (guess : Arr2 ℝ) :
    coupledCellFlat f1'.data f2'.data b c = coupledCellFlat f1.data f2.data b c ∧
      deprojBiasFlatObj env f1' f2' b c ells guess = deprojBiasFlatObj env f1 f2 b c ells guess ∧
      deprojBiasFlatObj env f1 f2 b c ells guess ≠ .ok none := by
  obtain ⟨-, Q1, Q1', h1⟩ := flat_alike_of hE c1 t1 s1 hf1 hf1'
  obtain ⟨-, Q2, Q2', h2⟩ := flat_alike_of hE c2 t2 s2 hf2 hf2'
  have e1 : f1'.data.fs = f1.data.fs := congrArg FlatField.fs h1.base
  have e2 : f2'.data.fs = f2.data.fs := congrArg FlatField.fs h2.base
  have m1 : f1'.data.nmaps = f1.data.nmaps := congrArg (fun g : FlatField => nmapsOf g.spin) h1.base
  have m2 : f2'.data.nmaps = f2.data.nmaps := congrArg (fun g : FlatField => nmapsOf g.spin) h2.base
  refine ⟨?_, ?_, ?_⟩
  · unfold coupledCellFlat
    rw [e1, e2, m1, m2, coupledC_span h1 h2]
  · unfold deprojBiasFlatObj
    rw [h1.nmaps, h2.nmaps, biasC_span hl h1 h2]
  · unfold deprojBiasFlatObj deprojBiasFlatObjC
    rw [h1.q, h2.q]
    split_ifs <;> try simp
    cases Outcome.all ((List.range f1.base.fs.ny).map fun iy => alm2clBands f1.base.fs b c iy) <;> simp [Outcome.bind]

/-- **C105**, bandpowers: what `compute_full_master_flat` returns, with its own or a given workspace, does not depend on which templates are given, as
long as they span the same maps. -/
theorem C105_bandpowers (L : LinAlg ℝ) (hE : env.eig.Correct) (hl : env.Linear) (c1 : FlatCall a1) (c2 : FlatCall a2) (t1 : 0 < a1.tol) (t2 : 0 < a2.tol)
    (s1 : SameSpanFlat a1 a1') (s2 : SameSpanFlat a2 a2')
    (hf1 : nmtFieldFlat env (a1.withMaps n1 v1) = .ok f1) (hf2 : nmtFieldFlat env (a2.withMaps n2 v2) = .ok f2)
    (hf1' : nmtFieldFlat env (a1'.withMaps n1 v1) = .ok f1') (hf2' : nmtFieldFlat env (a2'.withMaps n2 v2) = .ok f2')
    (b : FlatBins ℝ) (c : EllCuts) (noise : Option (Arr2 ℝ)) (guess : Option (Arr2 ℝ × Option (List ℝ))) (workspace : Option (Option WspFlat)) :
    fullMasterFlat L (deprojOf env f1' f2') f1'.data f2'.data b c noise guess workspace =
      fullMasterFlat L (deprojOf env f1 f2) f1.data f2.data b c noise guess workspace := by
  obtain ⟨-, Q1, Q1', h1⟩ := flat_alike_of hE c1 t1 s1 hf1 hf1'
  obtain ⟨-, Q2, Q2', h2⟩ := flat_alike_of hE c2 t2 s2 hf2 hf2'
  have e1 : f1'.data.fs = f1.data.fs := congrArg FlatField.fs h1.base
  have e2 : f2'.data.fs = f2.data.fs := congrArg FlatField.fs h2.base
  have m1 : f1'.data.nmaps = f1.data.nmaps := congrArg (fun g : FlatField => nmapsOf g.spin) h1.base
  have m2 : f2'.data.nmaps = f2.data.nmaps := congrArg (fun g : FlatField => nmapsOf g.spin) h2.base
  have l1 : f1'.data.lite = f1.data.lite := h1.k'.lite.trans h1.k.lite.symm
  have l2 : f2'.data.lite = f2.data.lite := h2.k'.lite.trans h2.k.lite.symm
  have hD : deprojOf env f1' f2' = deprojOf env f1 f2 := by
    funext d1 d2 b c ells guess i ib
    unfold deprojOf
    rw [h1.nmaps, h2.nmaps, biasC_span hl h1 h2]
  have hp : ∀ w0, pickWspFlat f1'.data f2'.data b c w0 = pickWspFlat f1.data f2.data b c w0 := by
    intro w0
    cases w0 with
    | none => unfold pickWspFlat; rw [h1.data.1, h2.data.1]
    | some w => unfold pickWspFlat; rw [e1, e2]
  have z : (f1'.data.ntemp = 0 ∧ f2'.data.ntemp = 0) = (f1.data.ntemp = 0 ∧ f2.data.ntemp = 0) := by
    change (f1'.ntemp = 0 ∧ f2'.ntemp = 0) = (f1.ntemp = 0 ∧ f2.ntemp = 0)
    rw [h1.k.ntemp, h2.k.ntemp, h1.k'.ntemp, h2.k'.ntemp, h1.zero, h2.zero]
  have hb : ∀ ells guess rows, deprojBiasFlatC (deprojOf env f1' f2') f1'.data f2'.data b c ells guess rows =
      deprojBiasFlatC (deprojOf env f1 f2) f1.data f2.data b c ells guess rows := by
    intro ells guess rows
    unfold deprojBiasFlatC
    rw [hD, m1, m2, l1, l2, e1, e2]
    simp only [z]
    rfl
  have hps : ∀ w0 noise ells guess rows, powerSpectraFlatC L (deprojOf env f1' f2') f1'.data f2'.data b c w0 noise ells guess rows =
      powerSpectraFlatC L (deprojOf env f1 f2) f1.data f2.data b c w0 noise ells guess rows := by
    intro w0 noise ells guess rows
    unfold powerSpectraFlatC
    simp only [hp, coupledC_span h1 h2, hb]
  unfold fullMasterFlat
  simp only [hps, e1, e2, m1, m2]

end

end NaMaster
