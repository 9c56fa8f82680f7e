import Verif.Units.Props
import Verif.Covar.InitModel
import Verif.Covar.Props

/-!
# C91: covariances do not depend on the units of the masks
-/

namespace NaMaster

open Finset

/-- Coefficients multiplied by a number. -/
def CovXi.rescale (k : ℝ) (x : CovXi ℝ) : CovXi ℝ :=
  ⟨fun i j => k * x.xi00 i j, fun i j => k * x.xi02 i j, fun i j => k * x.xi22p i j, fun i j => k * x.xi22m i j⟩

/-- All coefficients multiplied by a number. -/
def CovWsp.rescale (k : ℝ) (c : CovWsp ℝ) : CovWsp ℝ := ⟨c.lmax, c.spin0Only, c.x1122.rescale k, c.x1221.rescale k⟩

theorem xi_scale (W : Wigner) (a : CouplingArgs) (lmax : ℕ) (pcl : ℕ → ℝ) {k : ℝ} (hk : 0 < k) :
    (a.xi W lmax fun l => k * pcl l) = (fun i j => k * (a.xi W lmax pcl).1 i j, fun p i j => k * (a.xi W lmax pcl).2.1 p i j,
      fun p i j => k * (a.xi W lmax pcl).2.2.1 p i j, fun p i j => k * (a.xi W lmax pcl).2.2.2 p i j) := by
  unfold CouplingArgs.xi
  dsimp only
  simp only [entry00_scale, entry0s_scale, entryPP_scale, entryMM_scale, coefTable_scale hk]

theorem covInit_scale (W : Wigner) (junk : ℕ → ℝ) (p1 p2 : ℕ → ℝ) (n lmax lmaxMask : ℕ) (lT lE dl : ℤ) (b : Bool) {k : ℝ} (hk : 0 < k) :
    covInit W junk ((List.range n).map fun l => k * p1 l) ((List.range n).map fun l => k * p2 l) lmax lmaxMask lT lE dl b =
      (covInit W junk ((List.range n).map p1) ((List.range n).map p2) lmax lmaxMask lT lE dl b).bind fun c => .ok (c.rescale k) := by
  unfold covInit
  simp only [List.length_map]
  split_ifs with h1 h2 h3
  · rfl
  · rfl
  all_goals
    simp only [Outcome.bind]
    have hp : ∀ p : ℕ → ℝ, (tab (lmaxMask + 1) fun l : ℕ => ((List.range n).map fun l => k * p l).getD l 0 * ((l : ℝ) + 1 / 2) / (2 * Real.pi)) =
        fun l => k * tab (lmaxMask + 1) (fun l : ℕ => ((List.range n).map p).getD l 0 * ((l : ℝ) + 1 / 2) / (2 * Real.pi)) l := by
      intro p
      rw [← tab_scale]
      congr 1
      funext l
      have : ((List.range n).map fun l => k * p l).getD l 0 = k * ((List.range n).map p).getD l 0 := by
        by_cases hl : l < n
        · rw [List.getD_eq_getElem _ _ (by simpa using hl), List.getD_eq_getElem _ _ (by simpa using hl), List.getElem_map, List.getElem_map]
        · rw [List.getD_eq_default _ _ (by simpa using hl), List.getD_eq_default _ _ (by simpa using hl), mul_zero]
      rw [this]
      ring
    rw [hp, hp]
    rw [xi_scale W _ lmax _ hk, xi_scale W _ lmax _ hk]
    rfl

theorem maskProdCl_scale {S : Option MapInfo → Sht} {minfo : MapInfo} (hS : (S (some minfo)).Homogeneous) (f1 g1 f2 g2 : FieldObj) (a b c d : ℝ) :
    maskProdCl S ((f1.rescale a).covField minfo) ((g1.rescale b).covField minfo) ((f2.rescale c).covField minfo) ((g2.rescale d).covField minfo) =
      .ok ((List.range (f1.lmaxMask + 1)).map fun l => a * b * (c * d) * alm2cl (prodAlms S (f1.covField minfo) (g1.covField minfo) f1.mask g1.mask)
        (prodAlms S (f2.covField minfo) (g2.covField minfo) f2.mask g2.mask) l) := by
  have hp : ∀ (f g : FieldObj) (x y : ℝ), prodAlms S ((f.rescale x).covField minfo) ((g.rescale y).covField minfo) (f.rescale x).mask (g.rescale y).mask =
      (x * y) • prodAlms S (f.covField minfo) (g.covField minfo) f.mask g.mask := by
    intro f g x y
    unfold prodAlms
    rw [← maskAlms_smul (S := S (f.covField minfo).geom.minfo) hS]
    simp only [FieldObj.rescale, FieldObj.covField]
    congr 1
    funext p
    ring
  unfold maskProdCl
  change Outcome.ok ((List.range (f1.lmaxMask + 1)).map (alm2cl (prodAlms S _ _ (f1.rescale a).mask (g1.rescale b).mask)
    (prodAlms S _ _ (f2.rescale c).mask (g2.rescale d).mask))) = _
  rw [hp, hp]
  congr 2
  funext l
  exact alm2cl_smul _ _ _ _ _

theorem covCompute_scale (W : Wigner) {S : Option MapInfo → Sht} {minfo : MapInfo} (hS : (S (some minfo)).Homogeneous) (junk : ℕ → ℝ)
    (f1 f2 g1 g2 : FieldObj) {a b c d : ℝ} (ha : 0 < a) (hb : 0 < b) (hc : 0 < c) (hd : 0 < d) (lT lE dl : ℤ) (s0 : Bool) (cw : CovWsp ℝ)
    (h : covCompute W S junk none (f1.covField minfo) (f2.covField minfo) (some (g1.covField minfo)) (some (g2.covField minfo)) lT lE dl s0 = (some cw, .ok ())) :
    covCompute W S junk none ((f1.rescale a).covField minfo) ((f2.rescale b).covField minfo) (some ((g1.rescale c).covField minfo))
      (some ((g2.rescale d).covField minfo)) lT lE dl s0 = (some (cw.rescale (a * b * (c * d))), .ok ()) := by
  unfold covCompute at h ⊢
  simp only [Option.getD_some] at h ⊢
  change (if (f1.maskA.isSome || f2.maskA.isSome || g1.maskA.isSome || g2.maskA.isSome) = true then _ else
    if (!(isCompatible (f1.covField minfo).geom (f2.covField minfo).geom true && isCompatible (f1.covField minfo).geom (g1.covField minfo).geom true &&
      isCompatible (f1.covField minfo).geom (g2.covField minfo).geom true)) = true then _ else
    match toeplitzSanity lT lE dl f1.lmax ((f1.covField minfo).pureAny || (g1.covField minfo).pureAny) with
    | some e => _
    | none => _) = _
  change (if (f1.maskA.isSome || f2.maskA.isSome || g1.maskA.isSome || g2.maskA.isSome) = true then _ else
    if (!(isCompatible (f1.covField minfo).geom (f2.covField minfo).geom true && isCompatible (f1.covField minfo).geom (g1.covField minfo).geom true &&
      isCompatible (f1.covField minfo).geom (g2.covField minfo).geom true)) = true then _ else
    match toeplitzSanity lT lE dl f1.lmax ((f1.covField minfo).pureAny || (g1.covField minfo).pureAny) with
    | some e => _
    | none => _) = _ at h
  by_cases k1 : (f1.maskA.isSome || f2.maskA.isSome || g1.maskA.isSome || g2.maskA.isSome) = true
  · rw [if_pos k1] at h; cases h
  rw [if_neg k1] at h ⊢
  by_cases k2 : (!(isCompatible (f1.covField minfo).geom (f2.covField minfo).geom true && isCompatible (f1.covField minfo).geom (g1.covField minfo).geom true &&
      isCompatible (f1.covField minfo).geom (g2.covField minfo).geom true)) = true
  · rw [if_pos k2] at h; cases h
  rw [if_neg k2] at h ⊢
  cases ht : toeplitzSanity lT lE dl f1.lmax ((f1.covField minfo).pureAny || (g1.covField minfo).pureAny) with
  | some e => rw [ht] at h; cases h
  | none =>
    rw [ht] at h
    dsimp only at h ⊢
    rw [maskProdCl_scale hS, maskProdCl_scale hS]
    simp only [Outcome.bind]
    have e2 : a * d * (b * c) = a * b * (c * d) := by ring
    have e1 : a * c * (b * d) = a * b * (c * d) := by ring
    rw [e1, e2]
    have hm : ∀ f1 g1 f2 g2 : FieldObj, maskProdCl S (f1.covField minfo) (g1.covField minfo) (f2.covField minfo) (g2.covField minfo) =
        .ok ((List.range (f1.lmaxMask + 1)).map (alm2cl (prodAlms S (f1.covField minfo) (g1.covField minfo) f1.mask g1.mask)
          (prodAlms S (f2.covField minfo) (g2.covField minfo) f2.mask g2.mask))) := fun _ _ _ _ => rfl
    rw [hm, hm] at h
    simp only [Outcome.bind] at h
    have key := covInit_scale W junk (alm2cl (prodAlms S (f1.covField minfo) (g1.covField minfo) f1.mask g1.mask)
      (prodAlms S (f2.covField minfo) (g2.covField minfo) f2.mask g2.mask)) (alm2cl (prodAlms S (f1.covField minfo) (g2.covField minfo) f1.mask g2.mask)
      (prodAlms S (f2.covField minfo) (g1.covField minfo) f2.mask g1.mask)) (f1.lmaxMask + 1) f1.lmax f1.lmaxMask lT lE dl s0
      (mul_pos (mul_pos ha hb) (mul_pos hc hd))
    change (match covInit W junk _ _ f1.lmax f1.lmaxMask lT lE dl s0 with
      | .ok cw => (some cw, Outcome.ok ())
      | .raises e => (none, .raises e)
      | .crash => (none, .crash)) = _
    rw [key]
    change (match covInit W junk _ _ f1.lmax f1.lmaxMask lT lE dl s0 with
      | .ok cw => (some cw, Outcome.ok ())
      | .raises e => (none, .raises e)
      | .crash => (none, .crash)) = _ at h
    revert h
    cases covInit W junk _ _ f1.lmax f1.lmaxMask lT lE dl s0 with
    | ok x =>
      intro h
      simp only [Prod.mk.injEq, Option.some.injEq, and_true] at h
      subst h
      rfl
    | raises e => intro h; cases h
    | crash => intro h; cases h

theorem covElement_scale (cw : CovWsp ℝ) (m : Maps) (s : CovCls ℝ) (ia ib ic id la lb : ℕ) (pre k : ℝ) :
    covElement (cw.rescale k) m s ia ib ic id la lb pre = k * covElement cw m s ia ib ic id la lb pre := by
  have hx : ∀ (x : CovXi ℝ) i, (x.rescale k).at la lb i = k * x.at la lb i := by
    intro x i
    unfold CovXi.at CovXi.rescale
    split <;> simp
  unfold covElement
  simp only [mul_sum]
  refine sum_congr rfl fun _ _ => sum_congr rfl fun _ _ => sum_congr rfl fun _ _ => sum_congr rfl fun _ _ => ?_
  change ((cw.x1122.rescale k).at _ _ _ * _ + (cw.x1221.rescale k).at _ _ _ * _) * pre = _
  rw [hx, hx]
  ring

theorem covBinned_scale (junk : ℕ × ℕ → ℝ) (cw : CovWsp ℝ) (m : Maps) (wa wb : Wsp ℝ) (s : CovCls ℝ) (hna : wa.ncls = m.a * m.b)
    (hnb : wb.ncls = m.c * m.d) (h0 : 0 < m.a ∧ 0 < m.b ∧ 0 < m.c ∧ 0 < m.d) (x y k : ℝ) :
    ∀ i < wa.ncls * wa.bin.nBands, ∀ j < wb.ncls * wb.bin.nBands,
      covBinned junk (cw.rescale k) m (wa.rescale x) (wb.rescale y) s i j = k * covBinned junk cw m wa wb s i j := by
  refine binned_ext hna hnb h0 fun bA hA bB hB ia h1 ib h2 ic h3 id h4 => ?_
  rw [covBinned_apply junk cw m wa wb s hna hnb h1 h2 h3 h4 hA hB]
  refine (covBinned_apply junk (cw.rescale k) m (wa.rescale x) (wb.rescale y) s hna hnb h1 h2 h3 h4 hA hB).trans ?_
  change binnedSum _ _ _ _ _ _ _ (wa.bin.band bA) (wb.bin.band bB) = _
  unfold binnedSum
  simp only [covElement_scale, ← List.sum_map_mul_left]

theorem gaussian_scale {L : LinAlg ℝ} (hL : L.Correct) (j : CovJunk ℝ) (cw : CovWsp ℝ) (a1 a2 b1 b2 : ℤ) (s : CovCls ℝ) {oa ob oa' ob' : Obj ℝ}
    {wa wb : Wsp ℝ} {x y : ℝ} (hx : x ≠ 0) (hy : y ≠ 0) (ha : oa.wsp = some wa) (hb : ob.wsp = some wb) (ha' : oa'.wsp = some (wa.rescale x))
    (hb' : ob'.wsp = some (wb.rescale y)) (hA : Regular wa.nBinned wa.binned) (hB : Regular wb.nBinned wb.binned) :
    gaussianCovariance L j (some (cw.rescale (x * y))) a1 a2 b1 b2 s oa' (some ob') false =
      gaussianCovariance L j (some cw) a1 a2 b1 b2 s oa (some ob) false := by
  unfold gaussianCovariance
  simp only [Option.getD_some, ha, hb, ha', hb']
  change (if wa.ncls ≠ nmaps a1 * nmaps a2 ∨ wb.ncls ≠ nmaps b1 * nmaps b2 then _ else _) = _
  by_cases g1 : wa.ncls ≠ nmaps a1 * nmaps a2 ∨ wb.ncls ≠ nmaps b1 * nmaps b2
  · rw [if_pos g1, if_pos g1]
  rw [if_neg g1, if_neg g1]
  refine if_congr Iff.rfl rfl (if_congr Iff.rfl rfl ?_)
  simp only [Bool.false_eq_true, if_false]
  change Outcome.bind (argoutArray (wa.ncls * wa.bin.nBands * (wb.ncls * wb.bin.nBands))) _ = _
  congr 1
  funext _
  refine if_congr Iff.rfl ?_ rfl
  change Outcome.bind _ (fun z => Outcome.ok (reshapeFlat (wa.ncls * wa.bin.nBands) (wb.ncls * wb.bin.nBands) z)) = _
  congr 1
  unfold covDecoupledC
  change Outcome.bind (covChecks cw a1 a2 b1 b2 wa wb) _ = _
  congr 1
  funext _
  change (if covInside cw (Maps.ofSpins a1 a2 b1 b2) wa wb s = true then _ else _) = _
  refine if_congr Iff.rfl ?_ rfl
  dsimp only
  congr 2
  push Not at g1
  change ((List.range (wa.ncls * wa.bin.nBands)).flatMap fun ii => (List.range (wb.ncls * wb.bin.nBands)).map fun jj => (ii * (wb.ncls * wb.bin.nBands) + jj,
    ∑ k ∈ range (wa.ncls * wa.bin.nBands), L.invert (wa.ncls * wa.bin.nBands) (fun i j => x * wa.binned i j) ii k *
      ∑ k' ∈ range (wb.ncls * wb.bin.nBands), covBinned j.mat (cw.rescale (x * y)) (Maps.ofSpins a1 a2 b1 b2) (wa.rescale x) (wb.rescale y) s k k' *
        L.invert (wb.ncls * wb.bin.nBands) (fun i j => y * wb.binned i j) jj k')) = _
  rw [List.flatMap, List.flatMap]
  congr 1
  refine List.map_congr_left fun ii hi => ?_
  refine List.map_congr_left fun jj hj => ?_
  rw [List.mem_range] at hi hj
  congr 1
  refine sum_congr rfl fun k hk => ?_
  rw [mem_range] at hk
  have hA' : Regular (wa.ncls * wa.bin.nBands) wa.binned := hA
  have hB' : Regular (wb.ncls * wb.bin.nBands) wb.binned := hB
  rw [invert_scale hL hA' hx hi hk, mul_sum, mul_sum]
  refine sum_congr rfl fun k' hk' => ?_
  rw [mem_range] at hk'
  rw [invert_scale hL hB' hy hj hk', covBinned_scale j.mat cw (Maps.ofSpins a1 a2 b1 b2) wa wb s g1.1 g1.2
    ⟨nmaps_pos _, nmaps_pos _, nmaps_pos _, nmaps_pos _⟩ x y (x * y) k hk k' hk']
  field_simp

/-- **C91**, covariances: multiplying the masks of the four fields by positive numbers does not change decoupled Gaussian covariances, if the two
coupling matrices can be inverted. The arguments are those of `from_fields` for the covariance and for both workspaces. -/
theorem C91_covariance (W : Wigner) {L : LinAlg ℝ} (hL : L.Correct) {env : FieldEnv} (hE : env.eig.Correct) (hS : env.sht.Homogeneous) {minfo : MapInfo}
    {S : Option MapInfo → Sht} (hSht : S (some minfo) = env.sht) {a1 a2 b1 b2 : FieldArgs} {f1 f2 g1 g2 : FieldObj} (ha1 : PlainCall a1) (ha2 : PlainCall a2)
    (hb1 : PlainCall b1) (hb2 : PlainCall b2) (hf1 : nmtField env a1 = .ok f1) (hf2 : nmtField env a2 = .ok f2) (hg1 : nmtField env b1 = .ok g1)
    (hg2 : nmtField env b2 = .ok g2) {c1 c2 d1 d2 : ℝ} (hc1 : 0 < c1) (hc2 : 0 < c2) (hd1 : 0 < d1) (hd2 : 0 < d2) (sa sb : Bool)
    (hsa : sa = true → c1 = c2) (hsb : sb = true → d1 = d2) (Ba Bb : Bins ℝ) (pa pb : WspArgs) (wa wb : Wsp ℝ)
    (hwa : wspFromFields W env minfo f1 f2 sa Ba pa = .ok wa) (hwb : wspFromFields W env minfo g1 g2 sb Bb pb = .ok wb)
    (hA : Regular wa.nBinned wa.binned) (hB : Regular wb.nBinned wb.binned) (junk : ℕ → ℝ) (lT lE dl : ℤ) (spin0 : Bool) (cw : CovWsp ℝ)
    (hcw : covCompute W S junk none (f1.covField minfo) (f2.covField minfo) (some (g1.covField minfo)) (some (g2.covField minfo)) lT lE dl spin0 =
      (some cw, .ok ())) :
    ∃ f1' f2' g1' g2' wa' wb' cw', nmtField env (a1.rescale c1) = .ok f1' ∧ nmtField env (a2.rescale c2) = .ok f2' ∧
      nmtField env (b1.rescale d1) = .ok g1' ∧ nmtField env (b2.rescale d2) = .ok g2' ∧ wspFromFields W env minfo f1' f2' sa Ba pa = .ok wa' ∧
      wspFromFields W env minfo g1' g2' sb Bb pb = .ok wb' ∧
      covCompute W S junk none (f1'.covField minfo) (f2'.covField minfo) (some (g1'.covField minfo)) (some (g2'.covField minfo)) lT lE dl spin0 =
        (some cw', .ok ()) ∧
      ∀ (jk : CovJunk ℝ) (s1 s2 s3 s4 : ℤ) (s : CovCls ℝ) (oa ob oa' ob' : Obj ℝ), oa.wsp = some wa → ob.wsp = some wb → oa'.wsp = some wa' →
        ob'.wsp = some wb' →
        gaussianCovariance L jk (some cw') s1 s2 s3 s4 s oa' (some ob') false = gaussianCovariance L jk (some cw) s1 s2 s3 s4 s oa (some ob) false := by
  refine ⟨f1.rescale c1, f2.rescale c2, g1.rescale d1, g2.rescale d2, wa.rescale (c1 * c2), wb.rescale (d1 * d2), cw.rescale (c1 * c2 * (d1 * d2)),
    ?_, ?_, ?_, ?_, ?_, ?_, ?_, ?_⟩
  · rw [nmtField_smul env hE hS hc1 a1 ha1, hf1]; rfl
  · rw [nmtField_smul env hE hS hc2 a2 ha2, hf2]; rfl
  · rw [nmtField_smul env hE hS hd1 b1 hb1, hg1]; rfl
  · rw [nmtField_smul env hE hS hd2 b2 hb2, hg2]; rfl
  · rw [wsp_smul W env hS minfo hc1 hc2 f1 f2 (field_iso ha1.iso22 ha1.iso12 hf1) (field_iso ha2.iso22 ha2.iso12 hf2) sa hsa Ba pa, hwa]; rfl
  · rw [wsp_smul W env hS minfo hd1 hd2 g1 g2 (field_iso hb1.iso22 hb1.iso12 hg1) (field_iso hb2.iso22 hb2.iso12 hg2) sb hsb Bb pb, hwb]; rfl
  · exact covCompute_scale W (by rw [hSht]; exact hS) junk f1 f2 g1 g2 hc1 hc2 hd1 hd2 lT lE dl spin0 cw hcw
  · intro jk s1 s2 s3 s4 s oa ob oa' ob' h1 h2 h3 h4
    exact gaussian_scale hL jk cw s1 s2 s3 s4 s (mul_pos hc1 hc2).ne' (mul_pos hd1 hd2).ne' h1 h2 h3 h4 hA hB

end NaMaster
