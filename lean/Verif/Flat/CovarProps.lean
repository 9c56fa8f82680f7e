import Verif.Flat.CovarLemmas
import Verif.Flat.PipelineProps
import Verif.Covar.Lemmas
import Verif.Covar.Props

/-! # Properties of flat-sky covariances (C66) -/

namespace NaMaster

open Real Finset MeasureTheory

/-! ## The coefficients -/

/-- A coefficient with the sums over the right modes. -/
noncomputable def xiForm (fs : FlatInfo) (b : FlatBins ℝ) (u v : ℕ × ℕ → ℝ) (w : ℕ × ℕ → ℕ × ℕ → ℝ) (i j : ℕ) : ℝ :=
  (∑ k1 ∈ bandModesAll fs b i, ∑ k2 ∈ bandModesAll fs b j,
    halfProd fs.nx (fs.map2alm u) (fs.map2alm v) (fs.sub k1 k2) * w k1 k2) *
    (4 * π * π / (fs.lx * fs.lx * fs.ly * fs.ly) / (#(bandModesAll fs b i) * #(bandModesAll fs b j)))

/-- The products of the numbers of modes of two bands are below 2^31. -/
def SmallBands (fs : FlatInfo) (b : FlatBins ℝ) : Prop :=
  ∀ i < b.nBands, ∀ j < b.nBands, #(bandModesAll fs b i) * #(bandModesAll fs b j) < 2 ^ 31

/-- The coefficients are the right ones. -/
structure RightXi (fs : FlatInfo) (b : FlatBins ℝ) (x : CovXi ℝ) (u v : ℕ × ℕ → ℝ) : Prop where
  xi00 : ∀ i < b.nBands, ∀ j < b.nBands, x.xi00 i j = xiForm fs b u v (fun _ _ => 1) i j
  xi02 : ∀ i < b.nBands, ∀ j < b.nBands, x.xi02 i j = xiForm fs b u v (fun k1 k2 => fs.cdiff 2 k1 k2) i j
  xi22p : ∀ i < b.nBands, ∀ j < b.nBands, x.xi22p i j = xiForm fs b u v (fun k1 k2 => fs.cdiff 2 k1 k2 * fs.cdiff 2 k1 k2) i j
  xi22m : ∀ i < b.nBands, ∀ j < b.nBands, x.xi22m i j = xiForm fs b u v (fun k1 k2 => fs.sdiff 2 k1 k2 * fs.sdiff 2 k1 k2) i j

theorem covXiFlat_right {fs : FlatInfo} {b : FlatBins ℝ} {rows : List (List ℤ)} (u v : ℕ × ℕ → ℝ)
    (h : ∀ ib : ℕ, ({k ∈ fs.modes | tableAt rows k = ib} : Finset (ℕ × ℕ)) = bandModesAll fs b ib) :
    RightXi fs b (covXiFlat fs b.nBands rows (halfProd fs.nx (fs.map2alm u) (fs.map2alm v))) u v := by
  have key : ∀ (w : ℕ × ℕ → ℕ × ℕ → ℝ) (i j : ℕ),
      covXiSum fs rows (halfProd fs.nx (fs.map2alm u) (fs.map2alm v)) w i j = xiForm fs b u v w i j := by
    intro w i j
    unfold covXiSum xiForm nCells
    rw [h i, h j]
    congr 1
    by_cases hn : #(bandModesAll fs b i) * #(bandModesAll fs b j) > 0
    · rw [if_pos hn]; push_cast; rfl
    · rw [if_neg hn]
      have : #(bandModesAll fs b i) * #(bandModesAll fs b j) = 0 := by omega
      have h2 : ((#(bandModesAll fs b i) : ℝ) * #(bandModesAll fs b j)) = 0 := by exact_mod_cast this
      rw [h2]; simp
  constructor <;> intro i hi j hj <;> unfold covXiFlat <;> simp only [tab2_of_lt _ hi hj, key]

/-- The computation of the coefficients. -/
theorem covInitFlat_eq (a1 a2 b1 b2 : FlatField) (h2 : a2.fs = a1.fs) (h3 : b1.fs = a1.fs) (h4 : b2.fs = a1.fs) (b : FlatBins ℝ)
    (hb : GaplessBands b) (h0 : 0 < b.nBands) (bb : Option (FlatBins ℝ)) (hbb : (bb.getD b).nBands = b.nBands)
    (hs : SmallBands a1.fs b) :
    ∃ cw, covInitFlat a1 a2 b (some b1) (some b2) bb = .ok cw ∧ cw.bin = b ∧
      RightXi a1.fs b cw.x1122 (fun p => a1.mask p * b1.mask p) (fun p => a2.mask p * b2.mask p) ∧
      RightXi a1.fs b cw.x1221 (fun p => a1.mask p * b2.mask p) (fun p => a2.mask p * b1.mask p) := by
  obtain ⟨rows, e1, e2⟩ := all_rows (n := a1.fs.nx) (m := a1.fs.ny) (fun iy => couplingBandsNocut a1.fs b iy)
    (fun ix iy r => RightBand b (a1.fs.kmod ix iy) r) (fun iy => C41_nocut_partial a1.fs b hb h0 iy)
  have hf := filter_band_all hb.toOrderedBands e2
  unfold covInitFlat covInitFlatC
  simp only [Option.getD_some, h2, h3, h4, ne_eq, not_true_eq_false, or_self, if_false, hbb, e1, Outcome.bind]
  rw [if_neg (by
    rintro ⟨i, hi, j, hj, hle⟩
    unfold nCells at hle
    rw [hf i, hf j] at hle
    exact absurd (hs i hi j hj) (by omega))]
  exact ⟨_, rfl, rfl, covXiFlat_right _ _ hf, covXiFlat_right _ _ hf⟩

/-- Maps of the same numbers of pixels. -/
def SameGrid (f g : FlatField) : Prop := f.fs.nx = g.fs.nx ∧ f.fs.ny = g.fs.ny

/-- C29, flat sky: coefficients are computed only for four fields on the same grid of pixels and for bandpowers of the same
number of bands. Otherwise there is an exception. Fields and bandpowers that are not given are those of the first spectrum. -/
theorem C29_flat_rejects (a1 a2 : FlatField) (ba : FlatBins ℝ) (b1 b2 : Option FlatField) (bb : Option (FlatBins ℝ)) :
    (¬ (SameGrid a1 a2 ∧ SameGrid a1 (b1.getD a1) ∧ SameGrid a1 (b2.getD a2)) → covInitFlat a1 a2 ba b1 b2 bb = .raises .value) ∧
    (SameGrid a1 a2 → SameGrid a1 (b1.getD a1) → SameGrid a1 (b2.getD a2) → ba.nBands ≠ (bb.getD ba).nBands →
      covInitFlat a1 a2 ba b1 b2 bb = .raises .runtime) := by
  unfold SameGrid
  constructor
  · intro h
    unfold covInitFlat
    dsimp only
    rw [if_pos (by tauto)]
  · intro h1 h2 h3 h4
    unfold covInitFlat
    dsimp only
    rw [if_neg (by tauto)]
    unfold covInitFlatC
    rw [if_neg (by tauto), if_pos h4]

/-! ## Binned spectra -/

theorem interpLin_const (pts : List (ℝ × ℝ)) (v : ℝ) (hne : pts ≠ []) (h : ∀ p ∈ pts, p.2 = v) (x : ℝ) : interpLin pts x = v := by
  induction pts with
  | nil => exact absurd rfl hne
  | cons p t ih =>
    cases t with
    | nil => exact h p (by simp)
    | cons q ps =>
      rw [interpLin]
      by_cases hx : x < q.1
      · rw [if_pos hx, h p (by simp), h q (by simp)]; ring
      · rw [if_neg hx]
        exact ih (by simp) fun r hr => h r (by simp [hr])

/-- Multipoles that can be interpolated. -/
def GoodEllsFlat (larr : List ℝ) : Prop := 2 ≤ larr.length ∧ larr.Pairwise (· < ·)

theorem binRow_const (b : FlatBins ℝ) {larr : List ℝ} (hl : GoodEllsFlat larr) {cls : List ℝ} (hc : cls.length = larr.length) (v : ℝ)
    (h : ∀ x ∈ cls, x = v) (ib : ℕ) : binRowFlat b larr cls ib = .ok v := by
  obtain ⟨h2, hp⟩ := hl
  match larr, cls, hc with
  | l0 :: l1 :: ls, c0 :: c1 :: cs, hc =>
    have hpair : List.Pairwise (fun a b : ℝ × ℝ => a.1 < b.1) ((l0 :: l1 :: ls).zip (c0 :: c1 :: cs)) := by
      have : (((l0 :: l1 :: ls).zip (c0 :: c1 :: cs)).map Prod.fst).Pairwise (· < ·) := by
        rw [List.map_fst_zip (by omega)]; exact hp
      exact List.pairwise_map.1 this
    have hz : ∀ p ∈ (l0 :: l1 :: ls).zip (c0 :: c1 :: cs), p.2 = v := fun p hp' => h _ (List.of_mem_zip hp').2
    unfold binRowFlat
    simp only [List.zip_cons_cons] at hpair hz ⊢
    unfold kFunction
    simp only
    rw [if_pos hpair]
    have e1 : (c0 :: c1 :: cs).headD 0 = v := h _ (by simp)
    have e2 : (c0 :: c1 :: cs).getLastD 0 = v := by
      rw [List.getLastD_cons]
      exact h _ (by rw [List.getLastD_eq_getLast?]; cases hcs : (c1 :: cs).getLast? with
        | none => simp at hcs
        | some y => simpa using Or.inr (List.mem_of_getLast? hcs))
    have e3 := interpLin_const _ v (by simp) hz (1 / 2 * (b.ell0 ib + b.ellf ib))
    rw [e1, e2, e3]
    simp
  | [l0], _, _ => simp at h2
  | [], _, _ => simp at h2
  | _ :: _ :: _, [], hc => simp at hc
  | _ :: _ :: _, [_], hc => simp at hc

theorem binSpectra_const (b : FlatBins ℝ) {larr : List ℝ} (hl : GoodEllsFlat larr) {s : Arr2 ℝ} (hr : s.rows = 1) (hc : s.cols = larr.length)
    {v : ℝ} (hv : ConstSpectrum s v) : binSpectraFlat b larr s = .ok (Arr2.of 1 b.nBands fun _ _ => v) := by
  unfold binSpectraFlat
  rw [hr, all_ok _ (fun _ => (List.range b.nBands).map fun _ => v) _ (fun i hi => ?_)]
  · simp only [Outcome.bind]
    congr 1
    apply Arr2.of_congr
    intro i j hi hj
    have : i = 0 := by omega
    subst this
    simp [List.getD_eq_getElem?_getD, hj]
  · have : i = 0 := by simpa using hi
    subst this
    refine all_ok _ (fun _ => v) _ fun ib _ => ?_
    refine binRow_const b hl (by simpa using hc) v ?_ ib
    intro x hx
    obtain ⟨l, hl', rfl⟩ := List.mem_map.1 hx
    exact hv l (List.mem_range.1 hl')

/-! ## Bandpowers of spin-0 fields as quadratic forms -/

/-- The bandpower of the masked maps as a quadratic form of the maps. `S` are the modes of the bands. -/
noncomputable def bandForm (fs : FlatInfo) (S : ℕ → Finset (ℕ × ℕ)) (m1 m2 : ℕ × ℕ → ℝ) (ib : ℕ) (p q : ℕ × ℕ) : ℝ :=
  4 * π * π / (fs.lx * fs.ly) / #(S ib) * fs.almNorm ^ 2 * (modeKernel fs (S ib) p q * (m1 p * m2 q))

/-- No mode is removed. -/
def NoCuts (fs : FlatInfo) (c : EllCuts) : Prop := ∀ k ∈ fs.modes, ¬ ModeCut fs c k.1 k.2

open Classical in
theorem bandModes_nocut {fs : FlatInfo} {c : EllCuts} (hc : NoCuts fs c) (b : FlatBins ℝ) (ib : ℕ) :
    bandModes fs b c ib = bandModesAll fs b ib := by
  unfold bandModes bandModesAll
  exact filter_congr fun k hk => by simp [hc k hk]

theorem spin0_band {fs : FlatInfo} (hl : 0 < fs.lx) (b : FlatBins ℝ) (hb : GaplessBands b) (h0 : 0 < b.nBands) {c : EllCuts}
    {S : ℕ → Finset (ℕ × ℕ)} (hS : ∀ ib, bandModes fs b c ib = S ib ∧ SymModes fs (S ib)) (m1 m2 g1 g2 : ℕ × ℕ → ℝ) :
    fsAlm2cl fs b c (fs.map2alm fun p => m1 p * g1 p) (fs.map2alm fun p => m2 p * g2 p) =
      .ok (tab b.nBands fun ib => quadForm fs (bandForm fs S m1 m2 ib) g1 g2) := by
  rw [fsAlm2cl_eq fs b hb h0]
  congr 2
  funext ib
  rw [(hS ib).1, power_sum hl (hS ib).2]
  unfold quadForm bandForm
  rw [mul_sum, sum_mul]
  refine sum_congr rfl fun p _ => ?_
  rw [mul_sum, sum_mul]
  exact sum_congr rfl fun q _ => by ring

theorem quadForm_sum {fs : FlatInfo} (n : ℕ) (α : ℕ → ℝ) (A : ℕ → ℕ × ℕ → ℕ × ℕ → ℝ) (f g : ℕ × ℕ → ℝ) :
    ∑ r ∈ range n, α r * quadForm fs (A r) f g = quadForm fs (fun p q => ∑ r ∈ range n, α r * A r p q) f g := by
  unfold quadForm
  simp only [mul_sum, sum_mul]
  rw [sum_comm]
  refine sum_congr rfl fun p _ => ?_
  rw [sum_comm]
  exact sum_congr rfl fun q _ => sum_congr rfl fun r _ => by ring

/-- Decoupled bandpowers of two spin-0 fields. -/
theorem spin0_decoupled {L : LinAlg ℝ} (hL : L.Correct) (f1 f2 : FlatField) (hs1 : f1.spin = 0) (hs2 : f2.spin = 0)
    (hfs : f2.fs = f1.fs) (hl : 0 < f1.fs.lx) (b : FlatBins ℝ) (hb : GaplessBands b) (h0 : 0 < b.nBands) {c : EllCuts}
    {S : ℕ → Finset (ℕ × ℕ)} (hS : ∀ ib, bandModes f1.fs b c ib = S ib ∧ SymModes f1.fs (S ib)) (w : WspFlat) (hw : w.ncls = 1) (hwb : w.bin.nBands = b.nBands) (hreg : Regular b.nBands w.gslMatrix)
    (m1 m2 : ℕ → ℕ × ℕ → ℝ) :
    ∃ A, ((coupledCellFlat (f1.withMaps m1) (f2.withMaps m2) b c).bind fun cl => decoupleCellFlat L (some w) cl none none) = .ok A ∧
      ∀ i < b.nBands, A.val 0 i = quadForm f1.fs
        (fun p q => ∑ r ∈ range b.nBands, L.invert b.nBands w.gslMatrix i r * bandForm f1.fs S f1.mask f2.mask r p q) (m1 0) (m2 0) := by
  have hn1 : (f1.withMaps m1).nmaps = 1 := by simp [FlatField.withMaps, FlatFieldData.nmaps, nmapsOf, hs1]
  have hn2 : (f2.withMaps m2).nmaps = 1 := by simp [FlatField.withMaps, FlatFieldData.nmaps, nmapsOf, hs2]
  have e1 : (f1.withMaps m1).fs = f1.fs := rfl
  have e2 : (f2.withMaps m2).fs = f1.fs := hfs
  have hcl : coupledCellFlat (f1.withMaps m1) (f2.withMaps m2) b c = .ok (Arr2.of 1 b.nBands fun _ ib =>
      tab b.nBands (fun ib => quadForm f1.fs (bandForm f1.fs S f1.mask f2.mask ib) (m1 0) (m2 0)) ib) := by
    unfold coupledCellFlat coupledCellFlatC fsAlm2clAll
    rw [hn1, hn2, e1, e2, if_neg (by simp), if_neg (by simp), if_neg (by simp [FlatField.withMaps]), if_neg (by simp), if_neg (by omega),
      all_ok _ (fun _ => tab b.nBands fun ib => quadForm f1.fs (bandForm f1.fs S f1.mask f2.mask ib) (m1 0) (m2 0)) _ (fun i hi => by
        rw [← spin0_band hl b hb h0 hS f1.mask f2.mask (m1 0) (m2 0)]
        have g1 : (f1.withMaps m1).alms (i / 1) = f1.fs.map2alm fun p => f1.mask p * m1 0 p := by
          funext k; simp [FlatField.withMaps, maskedAlm, hs1]
        have g2 : (f2.withMaps m2).alms (i % 1) = f1.fs.map2alm fun p => f2.mask p * m2 0 p := by
          funext k; simp [FlatField.withMaps, maskedAlm, hs2, hfs]
        rw [g1, g2])]
    simp only [Outcome.bind]
    congr 1
    apply Arr2.of_congr
    intro i j hi hj
    have : i = 0 := by omega
    subst this
    simp
  rw [hcl]
  simp only [Outcome.bind]
  unfold decoupleCellFlat decoupleFlatC
  simp only
  rw [if_neg (by simp [Arr2.of, hw, hwb]), if_neg (by simp), if_neg (by simp), if_neg (by simp [Arr2.of, hw, hwb]),
    if_neg (by simp [Arr2.of, hw])]
  refine ⟨_, rfl, fun i hi => ?_⟩
  simp only [Arr2.of]
  have hi' : i < w.bin.nBands := by rw [hwb]; exact hi
  have h01 : 0 < w.ncls := by omega
  rw [tab2_of_lt _ h01 hi', if_pos h01]
  have hN : w.ncls * w.bin.nBands = b.nBands := by rw [hw, hwb, one_mul]
  have hI : w.ncls * i + 0 = i := by rw [hw]; omega
  rw [hI, hN, hL.solve_invert hreg _ _ hi, ← quadForm_sum]
  refine sum_congr rfl fun r hr => ?_
  rw [mem_range] at hr
  have hr' : r < w.bin.nBands := by rw [hwb]; exact hr
  have hR : r = w.ncls * r + 0 := by rw [hw]; omega
  rw [show flatInput w _ _ _ r = _ from (congrArg _ hR).trans (flatInput_apply w _ _ _ h01 hr'), tab2_of_lt _ (by omega) hr, tab_of_lt _ hr]
  simp only [Option.getD_none]
  ring

/-! ## The covariance of bandpowers of white noise -/

/-- The covariance of two quadratic forms of white noise, from `quad_covar`. -/
def whiteBil (fs : FlatInfo) (s1 s2 : ℝ) (A B : ℕ × ℕ → ℕ × ℕ → ℝ) : ℝ :=
  s1 * (∑ p ∈ fs.modes, ∑ q ∈ fs.modes, A p q * B p q) + s2 * ∑ p ∈ fs.modes, ∑ q ∈ fs.modes, A p q * B q p

theorem whiteBil_sum {fs : FlatInfo} (s1 s2 : ℝ) (n m : ℕ) (α β : ℕ → ℝ) (A B : ℕ → ℕ × ℕ → ℕ × ℕ → ℝ) :
    whiteBil fs s1 s2 (fun p q => ∑ r ∈ range n, α r * A r p q) (fun p q => ∑ t ∈ range m, β t * B t p q) =
      ∑ r ∈ range n, α r * ∑ t ∈ range m, whiteBil fs s1 s2 (A r) (B t) * β t := by
  unfold whiteBil
  have key : ∀ X Y : ℕ → ℕ × ℕ → ℕ × ℕ → ℝ, ∑ p ∈ fs.modes, ∑ q ∈ fs.modes,
      (∑ r ∈ range n, α r * X r p q) * (∑ t ∈ range m, β t * Y t p q) =
      ∑ r ∈ range n, ∑ t ∈ range m, α r * (∑ p ∈ fs.modes, ∑ q ∈ fs.modes, X r p q * Y t p q) * β t := by
    intro X Y
    have h1 : ∀ r ∈ range n, ∀ t ∈ range m, α r * (∑ p ∈ fs.modes, ∑ q ∈ fs.modes, X r p q * Y t p q) * β t =
        ∑ p ∈ fs.modes, ∑ q ∈ fs.modes, α r * X r p q * (β t * Y t p q) := by
      intro r _ t _
      rw [mul_sum, sum_mul]
      refine sum_congr rfl fun p _ => ?_
      rw [mul_sum, sum_mul]
      exact sum_congr rfl fun q _ => by ring
    rw [sum_congr rfl fun r hr => sum_congr rfl fun t ht => h1 r hr t ht]
    simp only [sum_mul_sum]
    refine ((sum_congr rfl fun p _ => sum_comm).trans sum_comm).trans ?_
    refine sum_congr rfl fun r _ => ?_
    exact (sum_congr rfl fun p _ => sum_comm).trans sum_comm
  have fin : ∀ S1 S2 : ℕ → ℕ → ℝ, s1 * (∑ r ∈ range n, ∑ t ∈ range m, α r * S1 r t * β t) +
      s2 * ∑ r ∈ range n, ∑ t ∈ range m, α r * S2 r t * β t = ∑ r ∈ range n, α r * ∑ t ∈ range m, (s1 * S1 r t + s2 * S2 r t) * β t := by
    intro S1 S2
    simp only [mul_sum, ← sum_add_distrib]
    exact sum_congr rfl fun r _ => sum_congr rfl fun t _ => by ring
  rw [key A B, key A fun t p q => B t q p]
  exact fin (fun r t => ∑ p ∈ fs.modes, ∑ q ∈ fs.modes, A r p q * B t p q) (fun r t => ∑ p ∈ fs.modes, ∑ q ∈ fs.modes, A r p q * B t q p)

/-- The coefficients give the covariance of the pseudo-spectra. -/
theorem whiteBil_band {fs : FlatInfo} (hl : 0 < fs.lx) (b : FlatBins ℝ) (m1 m2 m3 m4 : ℕ × ℕ → ℝ)
    (v02 v13 v03 v12 : ℝ) (i k : ℕ) :
    whiteBil fs (v02 * v13) (v03 * v12) (bandForm fs (bandModesAll fs b) m1 m2 i) (bandForm fs (bandModesAll fs b) m3 m4 k) =
      xiForm fs b (fun p => m1 p * m3 p) (fun p => m2 p * m4 p) (fun _ _ => 1) i k * (whiteSpectrum fs v02 * whiteSpectrum fs v13) +
      xiForm fs b (fun p => m1 p * m4 p) (fun p => m2 p * m3 p) (fun _ _ => 1) i k * (whiteSpectrum fs v03 * whiteSpectrum fs v12) := by
  have hx : ∀ u v : ℕ × ℕ → ℝ, ∀ s t : ℝ, xiForm fs b u v (fun _ _ => 1) i k * (whiteSpectrum fs s * whiteSpectrum fs t) =
      s * t * ∑ p ∈ fs.modes, ∑ q ∈ fs.modes,
        (4 * π * π / (fs.lx * fs.ly) / #(bandModesAll fs b i) * fs.almNorm ^ 2 * modeKernel fs (bandModesAll fs b i) p q) *
        (4 * π * π / (fs.lx * fs.ly) / #(bandModesAll fs b k) * fs.almNorm ^ 2 * modeKernel fs (bandModesAll fs b k) p q) * (u p * v q) := by
    intro u v s t
    unfold xiForm whiteSpectrum
    simp only [mul_one]
    rw [pair_sum hl (bandModesAll_sym fs b i) (bandModesAll_sym fs b k)]
    have e : ∀ X : ℝ, fs.almNorm ^ 2 * X * (4 * π * π / (fs.lx * fs.lx * fs.ly * fs.ly) / (#(bandModesAll fs b i) * #(bandModesAll fs b k))) *
        (s * (fs.lx * fs.ly / (fs.nx * fs.ny)) * (t * (fs.lx * fs.ly / (fs.nx * fs.ny)))) =
        s * t * (4 * π * π / (fs.lx * fs.ly) / #(bandModesAll fs b i) * fs.almNorm ^ 2 *
          (4 * π * π / (fs.lx * fs.ly) / #(bandModesAll fs b k) * fs.almNorm ^ 2)) * X := by
      intro X
      unfold FlatInfo.almNorm
      have hpi := pi_ne_zero
      have h2 : 4 * π * π * (fs.lx * fs.ly / (2 * π * fs.nx * fs.ny)) ^ 2 = (fs.lx * fs.ly / (fs.nx * fs.ny)) ^ 2 := by
        rw [show fs.lx * fs.ly / (2 * π * fs.nx * fs.ny) = fs.lx * fs.ly / (fs.nx * fs.ny) / (2 * π) by
          rw [div_div]; congr 1; ring]
        field_simp
        ring
      set a := fs.lx * fs.ly / (2 * π * fs.nx * fs.ny)
      set d := fs.lx * fs.ly / ((fs.nx : ℝ) * fs.ny)
      have h3 : ∀ y : ℝ, 4 * π * π * y * a ^ 2 = d ^ 2 * y := fun y => by rw [← h2]; ring
      simp only [div_eq_mul_inv, mul_inv]
      linear_combination (s * t * X * (fs.lx⁻¹ * fs.lx⁻¹ * fs.ly⁻¹ * fs.ly⁻¹ * ((#(bandModesAll fs b i) : ℝ)⁻¹ * (#(bandModesAll fs b k) : ℝ)⁻¹))
        * (4 * π * π * a ^ 2)) * -h2
    rw [e, mul_assoc]
    congr 1
    rw [mul_sum]
    refine sum_congr rfl fun p _ => ?_
    rw [mul_sum]
    exact sum_congr rfl fun q _ => by ring
  rw [hx, hx]
  unfold whiteBil bandForm
  congr 1 <;> congr 1
  · exact sum_congr rfl fun p _ => sum_congr rfl fun q _ => by ring
  · exact sum_congr rfl fun p _ => sum_congr rfl fun q _ => by
      rw [modeKernel_symm fs (bandModesAll fs b k) p q]; ring

/-- The element of the covariance of spin-0 fields. -/
theorem covElement_spin0 {cw : CovWspFlat} {n : ℕ} (v1 v2 v3 v4 : ℝ) {i k : ℕ} (hi : i < n) (hk : k < n) :
    covElement ⟨n, false, cw.x1122, cw.x1221⟩ ⟨1, 1, 1, 1⟩ ⟨Arr2.of 1 n fun _ _ => v1, Arr2.of 1 n fun _ _ => v2,
      Arr2.of 1 n fun _ _ => v3, Arr2.of 1 n fun _ _ => v4⟩ 0 0 0 0 i k 1 = cw.x1122.xi00 i k * (v1 * v4) + cw.x1221.xi00 i k * (v2 * v3) := by
  have h0 : (0 : ℕ) < 1 := by omega
  simp only [covElement, sum_range_one, Arr2.of, mul_zero, add_zero, tab2_of_lt _ h0 hi, tab2_of_lt _ h0 hk]
  have : covPair 1 1 1 1 0 0 0 0 0 0 0 0 = 0 := by decide
  rw [this]
  simp only [CovXi.at]
  ring

/-- The result of `gaussian_covariance_flat` for spin-0 fields and constant spectra. -/
theorem gaussFlat_spin0 (L : LinAlg ℝ) (j : CovJunk ℝ) (cw : CovWspFlat) {larr : List ℝ} (hl : GoodEllsFlat larr) {s : CovCls ℝ}
    {v1 v2 v3 v4 : ℝ} (hr : s.ac.rows = 1 ∧ s.ad.rows = 1 ∧ s.bc.rows = 1 ∧ s.bd.rows = 1)
    (hc : s.ac.cols = larr.length ∧ s.ad.cols = larr.length ∧ s.bc.cols = larr.length ∧ s.bd.cols = larr.length)
    (hv : ConstSpectrum s.ac v1 ∧ ConstSpectrum s.ad v2 ∧ ConstSpectrum s.bc v3 ∧ ConstSpectrum s.bd v4)
    (wa wb : WspFlat) (ha : wa.ncls = 1) (hb : wb.ncls = 1) (hab : wa.bin.nBands = cw.bin.nBands) (hbb : wb.bin.nBands = cw.bin.nBands)
    (hn : cw.bin.nBands * cw.bin.nBands < 2 ^ 31) :
    ∃ C, gaussianCovarianceFlat L j (some cw) 0 0 0 0 larr s (some wa) (some (some wb)) = .ok C ∧
      C.rows = cw.bin.nBands ∧ C.cols = cw.bin.nBands ∧ ∀ i < cw.bin.nBands, ∀ k < cw.bin.nBands, C.val i k =
        ∑ r ∈ range cw.bin.nBands, L.invert cw.bin.nBands wa.gslMatrix i r * ∑ t ∈ range cw.bin.nBands,
          (cw.x1122.xi00 r t * (v1 * v4) + cw.x1221.xi00 r t * (v2 * v3)) * L.invert cw.bin.nBands wb.gslMatrix k t := by
  have hm : Maps.ofSpins 0 0 0 0 = ⟨1, 1, 1, 1⟩ := rfl
  have hn0 : nmaps 0 = 1 := rfl
  unfold gaussianCovarianceFlat
  simp only [Option.getD_some]
  rw [hn0, ha, hb, if_neg (by simp), if_neg (by simp [hr]), if_neg (by simp [hc])]
  unfold covFlatC
  rw [argoutArray_small (by simpa using hn)]
  simp only [Outcome.bind, hm, ha, hb]
  rw [if_neg (by simp [hab, hbb]), if_neg (by simp), binSpectra_const _ hl hr.1 hc.1 hv.1, binSpectra_const _ hl hr.2.1 hc.2.1 hv.2.1,
    binSpectra_const _ hl hr.2.2.1 hc.2.2.1 hv.2.2.1, binSpectra_const _ hl hr.2.2.2 hc.2.2.2 hv.2.2.2]
  simp only [one_mul]
  refine ⟨_, rfl, rfl, rfl, fun i hi k hk => ?_⟩
  simp only [reshapeFlat, Arr2.of]
  rw [tab2_of_lt _ hi hk, decoupled_out _ _ _ _ hi hk]
  refine sum_congr rfl fun r hr => ?_
  congr 1
  refine sum_congr rfl fun t ht => ?_
  congr 1
  rw [mem_range] at hr ht
  rw [← covElement_spin0 v1 v2 v3 v4 hr ht]
  apply runWrites_mem
  · unfold flatCovWrites
    simp only [List.mem_flatMap, List.mem_map, List.mem_range]
    exact ⟨r, hr, t, ht, (0, 0, 0, 0), mem_quads.2 (by simp), by simp; rfl⟩
  · intro w hw hi
    unfold flatCovWrites at hw
    simp only [List.mem_flatMap, List.mem_map, List.mem_range] at hw
    obtain ⟨r', hr', t', ht', ⟨ia, ib, ic, id⟩, hq, rfl⟩ := hw
    obtain ⟨g1, g2, g3, g4⟩ := mem_quads.1 hq
    simp only at g1 g2 g3 g4
    obtain rfl : ia = 0 := by omega
    obtain rfl : ib = 0 := by omega
    obtain rfl : ic = 0 := by omega
    obtain rfl : id = 0 := by omega
    simp only [one_mul, mul_zero, add_zero, Prod.mk.injEq] at hi
    obtain ⟨rfl, rfl⟩ := hi
    rfl

/-- The four spectra of white noise, as expected by `gaussian_covariance_flat` at the multipoles `larr`. -/
structure WhiteSpectra (fs : FlatInfo) (σ : ℕ → ℕ → ℝ) (larr : List ℝ) (s : CovCls ℝ) : Prop where
  rows : s.ac.rows = 1 ∧ s.ad.rows = 1 ∧ s.bc.rows = 1 ∧ s.bd.rows = 1
  cols : s.ac.cols = larr.length ∧ s.ad.cols = larr.length ∧ s.bc.cols = larr.length ∧ s.bd.cols = larr.length
  vals : ConstSpectrum s.ac (whiteSpectrum fs (σ 0 2)) ∧ ConstSpectrum s.ad (whiteSpectrum fs (σ 0 3)) ∧
    ConstSpectrum s.bc (whiteSpectrum fs (σ 1 2)) ∧ ConstSpectrum s.bd (whiteSpectrum fs (σ 1 3))

/-- C66 for white noise without cuts: `gaussian_covariance_flat` gives exactly the covariance of the bandpowers that the
library computes from maps of white Gaussian noise with arbitrary masks, for fields of spin 0. The four maps may be
correlated in any way within a pixel, the fields may have any masks, and the workspaces any invertible matrices for the
bands. Missing: cuts of multipoles, which the covariance ignores (`C66_cuts_wrong`), bands with so many modes that a product
of their numbers exceeds the range of `int` (`C66_overflow_wrong`), and fields with nonzero spin or spectra that are not
constant, for which the method is an approximation. -/
theorem C66_white_partial {Ω : Type*} [MeasurableSpace Ω] (μ : Measure Ω) (L : LinAlg ℝ) (hL : L.Correct) (j : CovJunk ℝ)
    (F : ℕ → FlatField) (hspin : ∀ i < 4, (F i).spin = 0) (fs : FlatInfo) (hfs : ∀ i < 4, (F i).fs = fs) (hlx : 0 < fs.lx)
    (b : FlatBins ℝ) (hb : GaplessBands b) (h0 : 0 < b.nBands) (hn : b.nBands * b.nBands < 2 ^ 31) (hs : SmallBands fs b)
    (c : EllCuts) (hc : NoCuts fs c) (f : ℕ → Ω → ℕ × ℕ → ℝ) (σ : ℕ → ℕ → ℝ) (hw : WhitePixels μ fs f σ)
    (wa wb : WspFlat) (ha : wa.ncls = 1 ∧ wa.bin = b ∧ Regular b.nBands wa.gslMatrix)
    (hb' : wb.ncls = 1 ∧ wb.bin = b ∧ Regular b.nBands wb.gslMatrix)
    (larr : List ℝ) (hl : GoodEllsFlat larr) (s : CovCls ℝ) (hS : WhiteSpectra fs σ larr s) :
    ∃ cw C, ∃ A B : Ω → Arr2 ℝ,
      covInitFlat (F 0) (F 1) b (some (F 2)) (some (F 3)) (some b) = .ok cw ∧
      gaussianCovarianceFlat L j (some cw) 0 0 0 0 larr s (some wa) (some (some wb)) = .ok C ∧
      (∀ ω, ((coupledCellFlat ((F 0).withMaps fun _ => f 0 ω) ((F 1).withMaps fun _ => f 1 ω) b c).bind fun cl =>
        decoupleCellFlat L (some wa) cl none none) = .ok (A ω)) ∧
      (∀ ω, ((coupledCellFlat ((F 2).withMaps fun _ => f 2 ω) ((F 3).withMaps fun _ => f 3 ω) b c).bind fun cl =>
        decoupleCellFlat L (some wb) cl none none) = .ok (B ω)) ∧
      C.rows = b.nBands ∧ C.cols = b.nBands ∧
      ∀ i < b.nBands, ∀ k < b.nBands, C.val i k = covar μ (fun ω => (A ω).val 0 i) fun ω => (B ω).val 0 k := by
  obtain ⟨ha1, ha2, ha3⟩ := ha
  obtain ⟨hb1, hb2, hb3⟩ := hb'
  have f0 := hfs 0 (by omega)
  have f1 := hfs 1 (by omega)
  have f2 := hfs 2 (by omega)
  have f3 := hfs 3 (by omega)
  obtain ⟨cw, hcw, hbin, hx1, hx2⟩ := covInitFlat_eq (F 0) (F 1) (F 2) (F 3) (by rw [f1, f0]) (by rw [f2, f0]) (by rw [f3, f0]) b hb h0
    (some b) rfl (by rw [f0]; exact hs)
  obtain ⟨C, hC, hCr, hCc, hCv⟩ := gaussFlat_spin0 L j cw hl hS.rows hS.cols hS.vals wa wb ha1 hb1 (by rw [ha2, hbin]) (by rw [hb2, hbin])
    (by rw [hbin]; exact hn)
  have hSa : ∀ ib, bandModes fs b c ib = bandModesAll fs b ib ∧ SymModes fs (bandModesAll fs b ib) :=
    fun ib => ⟨bandModes_nocut hc b ib, bandModesAll_sym fs b ib⟩
  have hA := fun ω => spin0_decoupled hL (F 0) (F 1) (hspin 0 (by omega)) (hspin 1 (by omega)) (by rw [f1, f0]) (by rw [f0]; exact hlx) b hb h0
    (by rw [f0]; exact hSa) wa ha1 (by rw [ha2]) ha3 (fun _ => f 0 ω) (fun _ => f 1 ω)
  have hB := fun ω => spin0_decoupled hL (F 2) (F 3) (hspin 2 (by omega)) (hspin 3 (by omega)) (by rw [f3, f2]) (by rw [f2]; exact hlx) b hb h0
    (by rw [f2]; exact hSa) wb hb1 (by rw [hb2]) hb3 (fun _ => f 2 ω) (fun _ => f 3 ω)
  choose A hA1 hA2 using hA
  choose B hB1 hB2 using hB
  refine ⟨cw, C, A, B, hcw, hC, hA1, hB1, by rw [hCr, hbin], by rw [hCc, hbin], fun i hi k hk => ?_⟩
  rw [hbin] at hCv
  rw [hCv i hi k hk]
  simp only [hA2 _ i hi, hB2 _ k hk, f0, f2]
  have hq := (quad_covar hw (fun p q => ∑ r ∈ range b.nBands, L.invert b.nBands wa.gslMatrix i r * bandForm fs (bandModesAll fs b) (F 0).mask (F 1).mask r p q)
    (fun p q => ∑ t ∈ range b.nBands, L.invert b.nBands wb.gslMatrix k t * bandForm fs (bandModesAll fs b) (F 2).mask (F 3).mask t p q)).2.2.2
  rw [hq]
  have hbil := whiteBil_sum (fs := fs) (σ 0 2 * σ 1 3) (σ 0 3 * σ 1 2) b.nBands b.nBands (fun r => L.invert b.nBands wa.gslMatrix i r)
    (fun t => L.invert b.nBands wb.gslMatrix k t) (fun r => bandForm fs (bandModesAll fs b) (F 0).mask (F 1).mask r)
    (fun t => bandForm fs (bandModesAll fs b) (F 2).mask (F 3).mask t)
  unfold whiteBil at hbil
  rw [hbil]
  refine sum_congr rfl fun r hr => ?_
  congr 1
  refine sum_congr rfl fun t ht => ?_
  congr 1
  rw [mem_range] at hr ht
  have hband := whiteBil_band hlx b (F 0).mask (F 1).mask (F 2).mask (F 3).mask (σ 0 2) (σ 1 3) (σ 0 3) (σ 1 2) r t
  unfold whiteBil at hband
  rw [hband, hx1.xi00 r hr t ht, hx2.xi00 r hr t ht, f0]

end NaMaster
