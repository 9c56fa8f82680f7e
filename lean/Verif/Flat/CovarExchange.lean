import Verif.Flat.CovarExample

/-! # Flat-sky covariances: exchange of the two power spectra (C67) -/

namespace NaMaster

open Real Finset NaMaster.CovSpec

theorem halfProd_comm (nx : ℕ) (a1 a2 : ℕ × ℕ → ℂ) (k : ℕ × ℕ) : halfProd nx a1 a2 k = halfProd nx a2 a1 k := by
  unfold halfProd; ring

/-- The coefficients do not change when the two pairs of fields are exchanged. -/
theorem covInitFlat_exchange (a1 a2 b1 b2 : FlatField) (h2 : a2.fs = a1.fs) (h3 : b1.fs = a1.fs) (h4 : b2.fs = a1.fs) (b : FlatBins ℝ) :
    covInitFlat b1 b2 b (some a1) (some a2) (some b) = covInitFlat a1 a2 b (some b1) (some b2) (some b) := by
  have e1 : covMaskProd a1.fs b1.mask a1.mask b2.mask a2.mask = covMaskProd a1.fs a1.mask b1.mask a2.mask b2.mask := by
    unfold covMaskProd
    simp only [mul_comm (b1.mask _), mul_comm (b2.mask _)]
  have e2 : covMaskProd a1.fs b1.mask a2.mask b2.mask a1.mask = covMaskProd a1.fs a1.mask b2.mask a2.mask b1.mask := by
    funext k
    unfold covMaskProd
    rw [halfProd_comm]
    simp only [mul_comm (b1.mask _), mul_comm (b2.mask _)]
  unfold covInitFlat covInitFlatC
  simp only [Option.getD_some, h2, h3, h4, ne_eq, not_true_eq_false, or_self, if_false, e1, e2]

theorem maskPower_swap {fs : FlatInfo} {k1 k2 : ℕ × ℕ} (h1 : k1 ∈ fs.modes) (h2 : k2 ∈ fs.modes) (u v : ℕ × ℕ → ℝ) :
    maskPower fs u v (fs.sub k1 k2) = maskPower fs u v (fs.sub k2 k1) := by
  rw [maskPower_eq, maskPower_eq]
  congr 1
  refine sum_congr rfl fun p _ => sum_congr rfl fun q _ => ?_
  rw [cos_sub_phase h2, cos_sub_phase h1]
  ring

/-- Symmetry of the coefficients, for weights that do not change under reflections. -/
theorem xiForm_symm {fs : FlatInfo} (hl : 0 < fs.lx) (b : FlatBins ℝ) (u v : ℕ × ℕ → ℝ) (w : ℕ × ℕ → ℕ × ℕ → ℝ) (i j : ℕ)
    (hw : ∀ i j, ∀ k1 ∈ bandModesAll fs b i, ∀ k2 ∈ bandModesAll fs b j, w (fs.flip k1) (fs.flip k2) = w k1 k2)
    (hs : ∀ k1 k2, w k1 k2 = w k2 k1) : xiForm fs b u v w i j = xiForm fs b u v w j i := by
  have key : ∀ i j, ∑ k1 ∈ bandModesAll fs b i, ∑ k2 ∈ bandModesAll fs b j,
      halfProd fs.nx (fs.map2alm u) (fs.map2alm v) (fs.sub k1 k2) * w k1 k2 =
      ∑ k1 ∈ bandModesAll fs b i, ∑ k2 ∈ bandModesAll fs b j, w k1 k2 * maskPower fs u v (fs.sub k1 k2) := by
    intro i j
    have s1 := bandModesAll_sym fs b i
    have s2 := bandModesAll_sym fs b j
    rw [← sum_reflect_pair _ _ (fun k hk => ⟨s1.mem k hk, s1.flip k hk⟩) (fun k hk => ⟨s2.mem k hk, s2.flip k hk⟩) _ w (hw i j)]
    refine sum_congr rfl fun k1 hk1 => sum_congr rfl fun k2 hk2 => ?_
    rw [halfProd_mask hl u v (sub_mem (s1.mem k1 hk1) (s2.mem k2 hk2)), mul_comm]
  unfold xiForm
  rw [key i j, key j i, sum_comm, mul_comm (#(bandModesAll fs b i) : ℝ)]
  congr 1
  refine sum_congr rfl fun k1 hk1 => sum_congr rfl fun k2 hk2 => ?_
  rw [hs k2 k1, maskPower_swap ((bandModesAll_sym fs b i).mem k2 hk2) ((bandModesAll_sym fs b j).mem k1 hk1)]

theorem cdiff_comm (fs : FlatInfo) (k1 k2 : ℕ × ℕ) : fs.cdiff 2 k1 k2 = fs.cdiff 2 k2 k1 := by
  rw [cdiff_eq, cdiff_eq, ← cos_neg]; congr 1; ring

theorem sdiff_comm (fs : FlatInfo) (k1 k2 : ℕ × ℕ) : fs.sdiff 2 k1 k2 = -fs.sdiff 2 k2 k1 := by
  rw [sdiff_eq, sdiff_eq, ← sin_neg]; congr 1; ring

open Classical in
/-- The coefficients are symmetric, if no mode of the highest wave number along y lies in a band. -/
theorem rightXi_symm {fs : FlatInfo} (hl : 0 < fs.lx) {b : FlatBins ℝ} (hN : NoNyquist fs b) (h0 : 0 < b.nBands) {x : CovXi ℝ} {u v : ℕ × ℕ → ℝ}
    (h : RightXi fs b x u v) : Symmetric x (b.nBands - 1) := by
  have hy : ∀ i, ∀ k ∈ bandModesAll fs b i, k ∈ fs.modes ∧ 2 * k.2 ≠ fs.ny := by
    intro i k hk
    unfold bandModesAll at hk
    rw [Finset.mem_filter] at hk
    exact ⟨hk.1, fun hy => hN k hk.1 hy i hk.2⟩
  have hc : ∀ i j, ∀ k1 ∈ bandModesAll fs b i, ∀ k2 ∈ bandModesAll fs b j,
      fs.cdiff 2 (fs.flip k1) (fs.flip k2) = fs.cdiff 2 k1 k2 ∧ fs.sdiff 2 (fs.flip k1) (fs.flip k2) = -fs.sdiff 2 k1 k2 :=
    fun i j k1 h1 k2 h2 => cdiff_flip 2 (hy i k1 h1).1 (hy j k2 h2).1 (hy i k1 h1).2 (hy j k2 h2).2
  intro l l' hl1 hl2
  have e1 : l < b.nBands := by omega
  have e2 : l' < b.nBands := by omega
  rw [h.xi00 l e1 l' e2, h.xi00 l' e2 l e1, h.xi02 l e1 l' e2, h.xi02 l' e2 l e1, h.xi22p l e1 l' e2, h.xi22p l' e2 l e1,
    h.xi22m l e1 l' e2, h.xi22m l' e2 l e1]
  refine ⟨xiForm_symm hl b u v _ l l' (fun _ _ _ _ _ _ => rfl) fun _ _ => rfl,
    xiForm_symm hl b u v _ l l' (fun i j k1 h1 k2 h2 => (hc i j k1 h1 k2 h2).1) fun k1 k2 => cdiff_comm fs k1 k2,
    xiForm_symm hl b u v _ l l' (fun i j k1 h1 k2 h2 => by rw [(hc i j k1 h1 k2 h2).1]) fun k1 k2 => by rw [cdiff_comm fs k1 k2],
    xiForm_symm hl b u v _ l l' (fun i j k1 h1 k2 h2 => by rw [(hc i j k1 h1 k2 h2).2]; ring) fun k1 k2 => by rw [sdiff_comm fs k1 k2]; ring⟩

/-! ## Binned spectra -/

theorem binRow_ok (b : FlatBins ℝ) {larr : List ℝ} (hl : GoodEllsFlat larr) {cls : List ℝ} (hc : cls.length = larr.length) (ib : ℕ) :
    ∃ v, binRowFlat b larr cls ib = .ok v := by
  obtain ⟨h2, hp⟩ := hl
  match larr, cls, hc with
  | l0 :: l1 :: ls, c0 :: c1 :: cs, hc =>
    have hpair : List.Pairwise (fun a b : ℝ × ℝ => a.1 < b.1) ((l0 :: l1 :: ls).zip (c0 :: c1 :: cs)) := by
      have : (((l0 :: l1 :: ls).zip (c0 :: c1 :: cs)).map Prod.fst).Pairwise (· < ·) := by
        rw [List.map_fst_zip (by omega)]; exact hp
      exact List.pairwise_map.1 this
    unfold binRowFlat
    simp only [List.zip_cons_cons] at hpair ⊢
    unfold kFunction
    simp only
    rw [if_pos hpair]
    exact ⟨_, rfl⟩
  | [l0], _, _ => simp at h2
  | [], _, _ => simp at h2
  | _ :: _ :: _, [], hc => simp at hc
  | _ :: _ :: _, [_], hc => simp at hc

/-- The row `i` of an array, as a list. -/
def Arr2.row (s : Arr2 ℝ) (i : ℕ) : List ℝ := (List.range s.cols).map fun l => s.val i l

/-- The binned values exist and depend on the row only. -/
theorem binSpectra_ok (b : FlatBins ℝ) {larr : List ℝ} (hl : GoodEllsFlat larr) :
    ∃ v : List ℝ → ℕ → ℝ, (∀ cls ib, cls.length = larr.length → binRowFlat b larr cls ib = .ok (v cls ib)) ∧
      ∀ s : Arr2 ℝ, s.cols = larr.length → binSpectraFlat b larr s = .ok (Arr2.of s.rows b.nBands fun i ib => v (s.row i) ib) := by
  have h : ∀ (cls : List ℝ) (ib : ℕ), ∃ v, cls.length = larr.length → binRowFlat b larr cls ib = .ok v := by
    intro cls ib
    by_cases hc : cls.length = larr.length
    · obtain ⟨v, hv⟩ := binRow_ok b hl hc ib
      exact ⟨v, fun _ => hv⟩
    · exact ⟨0, fun h => absurd h hc⟩
  choose v hv using h
  refine ⟨v, hv, fun s hs => ?_⟩
  unfold binSpectraFlat
  rw [all_ok _ (fun i => (List.range b.nBands).map fun ib => v (s.row i) ib) _ (fun i _ => ?_)]
  · simp only [Outcome.bind]
    congr 1
    apply Arr2.of_congr
    intro i j hi hj
    simp [List.getD_eq_getElem?_getD, hi, hj]
  · exact all_ok _ _ _ fun ib _ => hv _ ib (by simpa using hs)

/-! ## The whole computation -/

theorem covInitFlat_large (a1 a2 b1 b2 : FlatField) (h2 : a2.fs = a1.fs) (h3 : b1.fs = a1.fs) (h4 : b2.fs = a1.fs) (b : FlatBins ℝ)
    (hb : GaplessBands b) (h0 : 0 < b.nBands) (hs : ¬ SmallBands a1.fs b) :
    covInitFlat a1 a2 b (some b1) (some b2) (some b) = .crash := C66_overflow_wrong a1 a2 b1 b2 h2 h3 h4 b hb h0 hs

/-- Inputs of `gaussian_covariance_flat` that belong together. -/
structure ConsistentFlat (cw : CovWspFlat) (a1 a2 b1 b2 : ℤ) (larr : List ℝ) (s : CovCls ℝ) (a b : WspFlat) : Prop where
  wspA : a.ncls = nmaps a1 * nmaps a2
  wspB : b.ncls = nmaps b1 * nmaps b2
  rows : s.ac.rows = nmaps a1 * nmaps b1 ∧ s.ad.rows = nmaps a1 * nmaps b2 ∧ s.bc.rows = nmaps a2 * nmaps b1 ∧
    s.bd.rows = nmaps a2 * nmaps b2
  cols : s.ac.cols = larr.length ∧ s.ad.cols = larr.length ∧ s.bc.cols = larr.length ∧ s.bd.cols = larr.length
  ells : GoodEllsFlat larr
  bands : a.bin.nBands = cw.bin.nBands ∧ b.bin.nBands = cw.bin.nBands
  small : a.ncls * cw.bin.nBands * (b.ncls * cw.bin.nBands) < 2 ^ 31

/-- The array of coupled covariances. -/
noncomputable def flatBinned (junk : ℕ × ℕ → ℝ) (cw : CovWspFlat) (m : Maps) (na nb : ℕ) (s : CovCls ℝ) (i k : ℕ) : ℝ :=
  runWrites (flatCovWrites cw m na nb s) junk (i, k)

theorem flatBinned_apply (junk : ℕ × ℕ → ℝ) (cw : CovWspFlat) (m : Maps) {na nb : ℕ} (s : CovCls ℝ) (hna : na = m.a * m.b)
    (hnb : nb = m.c * m.d) {ia ib ic id bA bB : ℕ} (h1 : ia < m.a) (h2 : ib < m.b) (h3 : ic < m.c) (h4 : id < m.d)
    (hA : bA < cw.bin.nBands) (hB : bB < cw.bin.nBands) :
    flatBinned junk cw m na nb s (na * bA + (ib + m.b * ia)) (nb * bB + (id + m.d * ic)) =
      covElement ⟨cw.bin.nBands, false, cw.x1122, cw.x1221⟩ m s ia ib ic id bA bB 1 := by
  unfold flatBinned
  apply runWrites_mem
  · unfold flatCovWrites
    simp only [List.mem_flatMap, List.mem_map, List.mem_range]
    exact ⟨bA, hA, bB, hB, (ia, ib, ic, id), mem_quads.2 ⟨h1, h2, h3, h4⟩, rfl⟩
  · intro w hw hi
    unfold flatCovWrites at hw
    simp only [List.mem_flatMap, List.mem_map, List.mem_range] at hw
    obtain ⟨bA', hA', bB', hB', ⟨ia', ib', ic', id'⟩, hq, rfl⟩ := hw
    obtain ⟨g1, g2, g3, g4⟩ := mem_quads.1 hq
    simp only [Prod.mk.injEq] at hi
    have e1 := flat_inj (n := na) (by rw [hna]; exact comp_lt g1 g2) (by rw [hna]; exact comp_lt h1 h2) hi.1
    have e2 := flat_inj (n := nb) (by rw [hnb]; exact comp_lt g3 g4) (by rw [hnb]; exact comp_lt h3 h4) hi.2
    have f1 := flat_inj (n := m.b) (a := ib') (a' := ib) (b := ia') (b' := ia) g2 h2 (by omega)
    have f2 := flat_inj (n := m.d) (a := id') (a' := id) (b := ic') (b' := ic) g4 h4 (by omega)
    rw [f1.1, f1.2, f2.1, f2.2, e1.2, e2.2]

/-- The binned spectra, as functions of the input spectra. -/
noncomputable def binVals (b : FlatBins ℝ) (v : List ℝ → ℕ → ℝ) (s : Arr2 ℝ) : Arr2 ℝ := Arr2.of s.rows b.nBands fun i ib => v (s.row i) ib

/-- The result for inputs that belong together. -/
theorem gaussFlat_eq (b : FlatBins ℝ) {larr : List ℝ} (hl : GoodEllsFlat larr) :
    ∃ v : List ℝ → ℕ → ℝ, (∀ cls ib, cls.length = larr.length → binRowFlat b larr cls ib = .ok (v cls ib)) ∧ ∀ (L : LinAlg ℝ) (j : CovJunk ℝ) (cw : CovWspFlat), cw.bin = b → ∀ (a1 a2 b1 b2 : ℤ) (s : CovCls ℝ) (wa wb : WspFlat),
      ConsistentFlat cw a1 a2 b1 b2 larr s wa wb →
      ∃ C, gaussianCovarianceFlat L j (some cw) a1 a2 b1 b2 larr s (some wa) (some (some wb)) = .ok C ∧
        C.rows = wa.ncls * b.nBands ∧ C.cols = wb.ncls * b.nBands ∧ ∀ i < wa.ncls * b.nBands, ∀ k < wb.ncls * b.nBands, C.val i k =
          ∑ r ∈ range (wa.ncls * b.nBands), L.invert (wa.ncls * b.nBands) wa.gslMatrix i r * ∑ t ∈ range (wb.ncls * b.nBands),
            flatBinned j.mat cw (Maps.ofSpins a1 a2 b1 b2) wa.ncls wb.ncls ⟨binVals b v s.ac, binVals b v s.ad, binVals b v s.bc, binVals b v s.bd⟩ r t *
              L.invert (wb.ncls * b.nBands) wb.gslMatrix k t := by
  obtain ⟨v, hv0, hv⟩ := binSpectra_ok b hl
  refine ⟨v, hv0, fun L j cw hcw a1 a2 b1 b2 s wa wb h => ?_⟩
  obtain ⟨r1, r2, r3, r4⟩ := h.rows
  obtain ⟨c1, c2, c3, c4⟩ := h.cols
  unfold gaussianCovarianceFlat
  simp only [Option.getD_some]
  rw [if_neg (by simp [h.wspA, h.wspB]), if_neg (by simp [r1, r2, r3, r4]), if_neg (by simp [h.cols])]
  unfold covFlatC
  rw [argoutArray_small h.small]
  simp only [Outcome.bind]
  rw [if_neg (by simp [h.bands]), if_neg (by simp [h.wspA, h.wspB, Maps.ofSpins]), hcw, hv _ c1, hv _ c2, hv _ c3, hv _ c4]
  refine ⟨_, rfl, rfl, rfl, fun i hi k hk => ?_⟩
  simp only [reshapeFlat, Arr2.of]
  rw [tab2_of_lt _ hi hk, decoupled_out _ _ _ _ hi hk]
  rfl

/-- Binning commutes with transposing. -/
theorem binVals_transposed {b : FlatBins ℝ} {v : List ℝ → ℕ → ℝ} {n m : ℕ} {x y : Arr2 ℝ} (hn : x.rows = n * m) (h : Transposed n m x y) :
    Transposed n m (binVals b v x) (binVals b v y) := by
  refine ⟨h.1, rfl, fun p hp q hq l hl => ?_⟩
  have hl' : l < b.nBands := hl
  have e1 : p + n * q < y.rows := by
    rw [h.1, hn, Nat.mul_comm n m]; exact comp_lt hq hp
  have e2 : q + m * p < x.rows := by rw [hn]; exact comp_lt hp hq
  unfold binVals
  rw [Arr2.of_val _ e1 hl', Arr2.of_val _ e2 hl']
  congr 1
  unfold Arr2.row
  rw [h.2.1]
  exact List.map_congr_left fun l hl => h.2.2 p hp q hq l (List.mem_range.1 hl)

/-- C67: exchanging the two power spectra, computed anew or from the same coefficients, transposes the covariance. Missing: bands that
contain modes of the highest wave number along y of maps with an even number of rows, if a field has spin. -/
theorem C67_exchange_partial (L : LinAlg ℝ) (j j' : CovJunk ℝ) (F : ℕ → FlatField) (fs : FlatInfo) (hfs : ∀ i < 4, (F i).fs = fs)
    (hlx : 0 < fs.lx) (b : FlatBins ℝ) (hb : GaplessBands b) (h0 : 0 < b.nBands) (hN : NoNyquist fs b)
    {cw : CovWspFlat} (hcw : covInitFlat (F 0) (F 1) b (some (F 2)) (some (F 3)) (some b) = .ok cw)
    (a1 a2 b1 b2 : ℤ) {larr : List ℝ} {s s' : CovCls ℝ} (hs : Exchanged a1 a2 b1 b2 s s') {wa wb : WspFlat}
    (hc : ConsistentFlat cw a1 a2 b1 b2 larr s wa wb) :
    covInitFlat (F 2) (F 3) b (some (F 0)) (some (F 1)) (some b) = .ok cw ∧
    ∃ C C', gaussianCovarianceFlat L j (some cw) a1 a2 b1 b2 larr s (some wa) (some (some wb)) = .ok C ∧
      gaussianCovarianceFlat L j' (some cw) b1 b2 a1 a2 larr s' (some wb) (some (some wa)) = .ok C' ∧
      C.rows = wa.ncls * b.nBands ∧ C.cols = wb.ncls * b.nBands ∧ C'.rows = C.cols ∧ C'.cols = C.rows ∧
      ∀ i < C.rows, ∀ k < C.cols, C'.val k i = C.val i k := by
  have f0 := hfs 0 (by omega)
  have f1 := hfs 1 (by omega)
  have f2 := hfs 2 (by omega)
  have f3 := hfs 3 (by omega)
  refine ⟨by rw [covInitFlat_exchange (F 0) (F 1) (F 2) (F 3) (by rw [f1, f0]) (by rw [f2, f0]) (by rw [f3, f0]), hcw], ?_⟩
  have hsmall : SmallBands (F 0).fs b := by
    by_contra hsb
    have := covInitFlat_large (F 0) (F 1) (F 2) (F 3) (by rw [f1, f0]) (by rw [f2, f0]) (by rw [f3, f0]) b hb h0 hsb
    rw [this] at hcw
    cases hcw
  obtain ⟨cw', hcw', hbin, hx1, hx2⟩ := covInitFlat_eq (F 0) (F 1) (F 2) (F 3) (by rw [f1, f0]) (by rw [f2, f0]) (by rw [f3, f0]) b hb h0 (some b) rfl hsmall
  rw [hcw] at hcw'
  obtain rfl : cw = cw' := by injection hcw'
  rw [f0] at hx1 hx2
  have y1 := rightXi_symm hlx hN h0 hx1
  have y2 := rightXi_symm hlx hN h0 hx2
  obtain ⟨v, -, hv⟩ := gaussFlat_eq b hc.ells
  have hc' : ConsistentFlat cw b1 b2 a1 a2 larr s' wb wa := by
    obtain ⟨r1, r2, r3, r4⟩ := hc.rows
    obtain ⟨c1, c2, c3, c4⟩ := hc.cols
    refine ⟨hc.wspB, hc.wspA, ⟨?_, ?_, ?_, ?_⟩, ⟨?_, ?_, ?_, ?_⟩, hc.ells, hc.bands.symm, by rw [Nat.mul_comm]; exact hc.small⟩
    · rw [hs.ac.1, r1, Nat.mul_comm]
    · rw [hs.ad.1, r3, Nat.mul_comm]
    · rw [hs.bc.1, r2, Nat.mul_comm]
    · rw [hs.bd.1, r4, Nat.mul_comm]
    · rw [hs.ac.2.1, c1]
    · rw [hs.ad.2.1, c3]
    · rw [hs.bc.2.1, c2]
    · rw [hs.bd.2.1, c4]
  obtain ⟨C, hC, hCr, hCc, hCv⟩ := hv L j cw hbin a1 a2 b1 b2 s wa wb hc
  obtain ⟨C', hC', hCr', hCc', hCv'⟩ := hv L j' cw hbin b1 b2 a1 a2 s' wb wa hc'
  refine ⟨C, C', hC, hC', hCr, hCc, by rw [hCr', hCc], by rw [hCc', hCr], fun i hi k hk => ?_⟩
  rw [hCr] at hi
  rw [hCc] at hk
  rw [hCv i hi k hk, hCv' k hk i hi]
  have hbn : ∀ k < wa.ncls * b.nBands, ∀ k' < wb.ncls * b.nBands,
      flatBinned j.mat cw (Maps.ofSpins a1 a2 b1 b2) wa.ncls wb.ncls ⟨binVals b v s.ac, binVals b v s.ad, binVals b v s.bc, binVals b v s.bd⟩ k k' =
      flatBinned j'.mat cw (Maps.ofSpins b1 b2 a1 a2) wb.ncls wa.ncls ⟨binVals b v s'.ac, binVals b v s'.ad, binVals b v s'.bc, binVals b v s'.bd⟩ k' k := by
    refine binned_ext (f := fun k k' => flatBinned j.mat cw (Maps.ofSpins a1 a2 b1 b2) wa.ncls wb.ncls ⟨binVals b v s.ac, binVals b v s.ad, binVals b v s.bc, binVals b v s.bd⟩ k k')
      (g := fun k k' => flatBinned j'.mat cw (Maps.ofSpins b1 b2 a1 a2) wb.ncls wa.ncls ⟨binVals b v s'.ac, binVals b v s'.ad, binVals b v s'.bc, binVals b v s'.bd⟩ k' k) hc.wspA hc.wspB
      ⟨nmaps_pos a1, nmaps_pos a2, nmaps_pos b1, nmaps_pos b2⟩ fun bA hbA bB hbB ia g1 ib g2 ic g3 id g4 => ?_
    refine (flatBinned_apply j.mat cw (Maps.ofSpins a1 a2 b1 b2) _ hc.wspA hc.wspB g1 g2 g3 g4 (by rw [hbin]; exact hbA) (by rw [hbin]; exact hbB)).trans
      (Eq.trans ?_ (flatBinned_apply j'.mat cw (Maps.ofSpins b1 b2 a1 a2) _ hc.wspB hc.wspA g3 g4 g1 g2 (by rw [hbin]; exact hbB) (by rw [hbin]; exact hbA)).symm)
    obtain ⟨r1, r2, r3, r4⟩ := hc.rows
    exact (covElement_exchange ⟨b.nBands - 1, false, cw.x1122, cw.x1221⟩ (Maps.ofSpins a1 a2 b1 b2) (Maps.ofSpins_valid _ _ _ _)
      ⟨binVals b v s.ac, binVals b v s.ad, binVals b v s.bc, binVals b v s.bd⟩ ⟨binVals b v s'.ac, binVals b v s'.ad, binVals b v s'.bc, binVals b v s'.bd⟩
      (binVals_transposed r1 hs.ac) (binVals_transposed r3 hs.ad) (binVals_transposed r2 hs.bc) (binVals_transposed r4 hs.bd)
      (Nat.sub_lt h0 one_pos) (Nat.sub_lt h0 one_pos) (Nat.sub_lt h0 one_pos) (Nat.sub_lt h0 one_pos) y1 y2 g1 g2 g3 g4
      (Nat.le_sub_one_of_lt hbA) (Nat.le_sub_one_of_lt hbB) 1).symm
  simp only [mul_sum]
  rw [sum_comm]
  refine sum_congr rfl fun r hr => sum_congr rfl fun t ht => ?_
  rw [hbn r (mem_range.1 hr) t (mem_range.1 ht)]
  ring

/-- C67: the covariance of a power spectrum with itself is a symmetric matrix. The input spectra are those of two fields with
each other: the automatic spectra are symmetric in their components, and those of the second field with the first are those of the
first with the second, transposed. Missing: as above. -/
theorem C67_symmetric_partial (L : LinAlg ℝ) (j : CovJunk ℝ) (f g : FlatField) (hfg : g.fs = f.fs)
    (hlx : 0 < f.fs.lx) (b : FlatBins ℝ) (hb : GaplessBands b) (h0 : 0 < b.nBands) (hN : NoNyquist f.fs b)
    {cw : CovWspFlat} (hcw : covInitFlat f g b none none none = .ok cw)
    (a1 a2 : ℤ) {larr : List ℝ} {s : CovCls ℝ} (hs : Exchanged a1 a2 a1 a2 s s) {w : WspFlat}
    (hc : ConsistentFlat cw a1 a2 a1 a2 larr s w w) :
    ∃ C, gaussianCovarianceFlat L j (some cw) a1 a2 a1 a2 larr s (some w) none = .ok C ∧
      C.rows = w.ncls * b.nBands ∧ C.cols = w.ncls * b.nBands ∧ ∀ i < C.rows, ∀ k < C.rows, C.val k i = C.val i k := by
  have hF : ∀ i < 4, (if i % 2 = 0 then f else g).fs = f.fs := by
    intro i _
    by_cases h : i % 2 = 0
    · rw [if_pos h]
    · rw [if_neg h, hfg]
  obtain ⟨-, C, C', h1, h2, h3, h4, h5, h6, h7⟩ := C67_exchange_partial L j j (fun i => if i % 2 = 0 then f else g) f.fs hF hlx b hb h0 hN
    (cw := cw) hcw a1 a2 a1 a2 hs hc
  rw [h1] at h2
  obtain rfl : C = C' := by injection h2
  exact ⟨C, h1, h3, h4, fun i hi k hk => h7 i hi k (by rw [h4, ← h3]; exact hk)⟩

open CovFlatExample in
/-- The hypotheses can be met: temperature and polarisation, with spectra that are not constant. -/
example : ∃ (f g : FlatField) (b : FlatBins ℝ) (cw : CovWspFlat) (s : CovCls ℝ) (w : WspFlat), g.fs = f.fs ∧ 0 < f.fs.lx ∧ GaplessBands b ∧
    0 < b.nBands ∧ NoNyquist f.fs b ∧ covInitFlat f g b none none none = .ok cw ∧ Exchanged 0 2 0 2 s s ∧
    ConsistentFlat cw 0 2 0 2 [0, 1] s w w ∧ s.bd.val 1 1 ≠ 0 := by
  have hN : NoNyquist fs bBoth := by
    intro k hk hy
    rw [mem_modes] at hk
    simp only [fs] at hy
    omega
  obtain ⟨cw, hcw, hbin, -, -⟩ := covInitFlat_eq (field mask) (field fun _ => 1) (field mask) (field fun _ => 1) rfl rfl rfl bBoth
    (oneBand_gapless (by norm_num)) (by simp [bBoth, oneBand]) (some bBoth) rfl small
  have hnb : cw.bin.nBands = 1 := by rw [hbin]; rfl
  refine ⟨field mask, field fun _ => 1, bBoth, cw, ⟨Arr2.of 1 2 fun _ l => l + 1, Arr2.of 2 2 fun i l => i + l, Arr2.of 2 2 fun i l => i + l,
    Arr2.of 4 2 fun i l => ((i / 2 + i % 2 : ℕ) : ℝ) + 2 * l⟩, ⟨fs, defaultCuts, 2, bBoth, false, fun _ => 0, fun _ _ _ _ => 1, fun _ _ _ _ => 1, fs.rings, 0, (0, 0, 0, 0)⟩, rfl,
    by simp only [field, fs]; positivity, oneBand_gapless (by norm_num), by simp [bBoth, oneBand], hN, hcw, ?_, ?_, ?_⟩
  · have e0 : nmaps 0 = 1 := rfl
    have e2 : nmaps 2 = 2 := rfl
    refine ⟨⟨rfl, rfl, ?_⟩, ⟨rfl, rfl, ?_⟩, ⟨rfl, rfl, ?_⟩, ⟨rfl, rfl, ?_⟩⟩
    all_goals
      intro p hp q hq l hl
      first | rw [e0] at hp | rw [e2] at hp
      first | rw [e0] at hq | rw [e2] at hq
      change l < 2 at hl
      try simp only [e0, e2]
      interval_cases p <;> interval_cases q <;> rw [Arr2.of_val _ (by norm_num) hl] <;> try rw [Arr2.of_val _ (by norm_num) hl]
      all_goals norm_num
  · exact ⟨rfl, rfl, ⟨rfl, rfl, rfl, rfl⟩, ⟨rfl, rfl, rfl, rfl⟩, goodElls, ⟨hnb.symm, hnb.symm⟩, by simp only [hnb]; norm_num⟩
  · rw [Arr2.of_val _ (by norm_num) (by norm_num)]
    norm_num

end NaMaster
