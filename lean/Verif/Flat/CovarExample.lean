import Verif.Flat.CovarProps
import Mathlib.MeasureTheory.Integral.Bochner.SumMeasure

/-! # Flat-sky covariances: an example, and where they are wrong (C66) -/

namespace NaMaster

open Real Finset MeasureTheory

namespace CovFlatExample

/-- Two pixels in a row; the wave numbers are 0 and 1. -/
noncomputable def fs : FlatInfo := ⟨2, 1, 2 * π, 2 * π⟩

theorem mem_fs (k : ℕ × ℕ) : k ∈ fs.modes ↔ k = (0, 0) ∨ k = (1, 0) := by
  rw [mem_modes]
  obtain ⟨x, y⟩ := k
  simp only [fs, Prod.mk.injEq]
  omega

theorem modes_eq : fs.modes = {(0, 0), (1, 0)} := by
  ext k
  rw [mem_fs]
  simp

theorem kmod0 : fs.kmod 0 0 = 0 := by
  simp [FlatInfo.kmod, FlatInfo.kx, FlatInfo.ky, waveNum]

theorem kx1 : fs.kx 1 = 1 := by
  simp only [FlatInfo.kx, waveNum, fs]
  rw [div_self (by positivity)]
  simp

theorem kmod1 : fs.kmod 1 0 = 1 := by
  unfold FlatInfo.kmod
  rw [kx1]
  simp [FlatInfo.ky, waveNum]

/-- One throw of a die with faces 1, -1, 0, 0, 0, 0 for each pixel. Its fourth moment is three times the square of its
variance, as for Gaussian variables. -/
abbrev Dice := Fin 6 × Fin 6

noncomputable def μ : Measure Dice := (1 / 36 : ENNReal) • Measure.count

def face (i : Fin 6) : ℤ := if i = 0 then 1 else if i = 1 then -1 else 0

/-- The values at the two pixels. -/
def dice (ω : Dice) (p : ℕ × ℕ) : ℤ := if p.1 = 0 then face ω.1 else face ω.2

theorem int_all (g : Dice → ℝ) : Integrable g μ := by
  unfold μ
  exact Integrable.of_finite.smul_measure (by simp)

theorem integral_eq (g : Dice → ℝ) : ∫ ω, g ω ∂μ = 1 / 36 * ∑ ω, g ω := by
  unfold μ
  rw [integral_smul_measure, integral_fintype Integrable.of_finite]
  simp

/-- The same white noise for all four maps. -/
def noise (_ : ℕ) (ω : Dice) (p : ℕ × ℕ) : ℝ := dice ω p

noncomputable def σ (_ _ : ℕ) : ℝ := 1 / 3

theorem white : WhitePixels μ fs noise σ := by
  have h2 : ∀ x < 2, ∀ y < 2, ∑ ω : Dice, dice ω (x, 0) * dice ω (y, 0) = if x = y then 12 else 0 := by decide
  have h4 : ∀ x < 2, ∀ y < 2, ∀ z < 2, ∀ t < 2, ∑ ω : Dice, dice ω (x, 0) * dice ω (y, 0) * (dice ω (z, 0) * dice ω (t, 0)) =
      4 * ((if x = y then 1 else 0) * (if z = t then 1 else 0) + (if x = z then 1 else 0) * (if y = t then 1 else 0) +
        (if x = t then 1 else 0) * (if y = z then 1 else 0)) := by decide
  have hm : ∀ p ∈ fs.modes, ∃ x < 2, p = (x, 0) := by
    intro p hp
    rw [mem_fs] at hp
    rcases hp with rfl | rfl
    · exact ⟨0, by omega, rfl⟩
    · exact ⟨1, by omega, rfl⟩
  refine ⟨fun _ _ _ _ _ _ _ _ => int_all _, ?_, fun _ _ _ _ _ _ _ _ _ _ _ _ _ _ _ _ => int_all _, ?_⟩
  · intro i j _ _ p hp q hq
    obtain ⟨x, hx, rfl⟩ := hm p hp
    obtain ⟨y, hy, rfl⟩ := hm q hq
    rw [integral_eq]
    have := h2 x hx y hy
    have h' : ∑ ω : Dice, noise i ω (x, 0) * noise j ω (y, 0) = if x = y then 12 else 0 := by
      unfold noise
      exact_mod_cast this
    rw [h']
    unfold whiteCov σ
    by_cases hxy : x = y
    · simp [hxy]; norm_num
    · simp [hxy]
  · intro i j k l _ _ _ _ p hp q hq r hr s hs
    obtain ⟨x, hx, rfl⟩ := hm p hp
    obtain ⟨y, hy, rfl⟩ := hm q hq
    obtain ⟨z, hz, rfl⟩ := hm r hr
    obtain ⟨t, ht, rfl⟩ := hm s hs
    rw [integral_eq]
    have := h4 x hx y hy z hz t ht
    have h' : ∑ ω : Dice, noise i ω (x, 0) * noise j ω (y, 0) * (noise k ω (z, 0) * noise l ω (t, 0)) =
      4 * ((if x = y then 1 else 0) * (if z = t then 1 else 0) + (if x = z then 1 else 0) * (if y = t then 1 else 0) +
        (if x = t then 1 else 0) * (if y = z then 1 else 0)) := by
      unfold noise
      exact_mod_cast this
    rw [h']
    unfold whiteCov σ
    have e : ∀ a b : ℕ, (if (a, 0) = (b, 0) then (1 / 3 : ℝ) else 0) = 1 / 3 * if a = b then 1 else 0 := by
      intro a b
      by_cases hab : a = b <;> simp [hab]
    simp only [e]
    ring

/-! ## Bands -/

/-- A single band. -/
def oneBand (lo hi : ℝ) : FlatBins ℝ := ⟨1, fun _ => lo, fun _ => hi⟩

theorem oneBand_gapless {lo hi : ℝ} (h : lo < hi) : GaplessBands (oneBand lo hi) := by
  refine ⟨⟨fun _ _ => h, ?_⟩, ?_⟩ <;> intro i hi <;> simp [oneBand] at hi

/-- The band with wave number 0. -/
noncomputable def bLow : FlatBins ℝ := oneBand 0 (1 / 2)

/-- The band with wave number 1. -/
noncomputable def bHigh : FlatBins ℝ := oneBand (1 / 2) 2

/-- The band with both. -/
noncomputable def bBoth : FlatBins ℝ := oneBand 0 2

theorem mem_all (lo hi : ℝ) (k : ℕ × ℕ) : k ∈ bandModesAll fs (oneBand lo hi) 0 ↔
    (k = (0, 0) ∧ lo ≤ 0 ∧ 0 < hi) ∨ (k = (1, 0) ∧ lo ≤ 1 ∧ 1 < hi) := by
  classical
  unfold bandModesAll
  rw [Finset.mem_filter, mem_fs]
  constructor
  · rintro ⟨rfl | rfl, h⟩
    · simp only [kmod0, InBand, oneBand] at h; exact Or.inl ⟨rfl, h.2⟩
    · simp only [kmod1, InBand, oneBand] at h; exact Or.inr ⟨rfl, h.2⟩
  · rintro (⟨rfl, h⟩ | ⟨rfl, h⟩)
    · exact ⟨Or.inl rfl, by simp only [kmod0, InBand, oneBand]; exact ⟨by omega, h⟩⟩
    · exact ⟨Or.inr rfl, by simp only [kmod1, InBand, oneBand]; exact ⟨by omega, h⟩⟩

theorem all_low : bandModesAll fs bLow 0 = {(0, 0)} := by
  ext k
  rw [bLow, mem_all]
  simp only [mem_singleton]
  constructor
  · rintro (h | h)
    · exact h.1
    · norm_num at h
  · rintro rfl; norm_num

theorem all_high : bandModesAll fs bHigh 0 = {(1, 0)} := by
  ext k
  rw [bHigh, mem_all]
  simp only [mem_singleton]
  constructor
  · rintro (h | h)
    · norm_num at h
    · exact h.1
  · rintro rfl; norm_num

theorem all_both : bandModesAll fs bBoth 0 = {(0, 0), (1, 0)} := by
  ext k
  rw [bBoth, mem_all]
  simp only [mem_singleton, mem_insert]
  norm_num

theorem nocuts : NoCuts fs defaultCuts := by
  rintro k - (⟨h1, h2⟩ | ⟨h1, h2⟩) <;> simp only [defaultCuts] at h1 h2 <;> linarith

theorem small {lo hi : ℝ} : SmallBands fs (oneBand lo hi) := by
  intro i _ j _
  have h : ∀ i, #(bandModesAll fs (oneBand lo hi) i) ≤ 2 := by
    intro i
    classical
    have hs : bandModesAll fs (oneBand lo hi) i ⊆ fs.modes := Finset.filter_subset _ _
    have hc := Finset.card_le_card hs
    rw [modes_eq] at hc
    simpa using hc
  have := Nat.mul_le_mul (h i) (h j)
  omega

/-- A field with the given mask. -/
noncomputable def field (m : ℕ × ℕ → ℝ) : FlatField := ⟨fs, 0, m, fun _ => 1, 0, 0⟩

/-- A mask that is not constant. -/
noncomputable def mask : ℕ × ℕ → ℝ := fun p => if p = (0, 0) then 1 else 1 / 2

/-- A workspace with one band. -/
noncomputable def wsp (b : FlatBins ℝ) (v : ℝ) : WspFlat := ⟨fs, defaultCuts, 1, b, false, fun _ => 0, fun _ _ _ _ => v, fun _ _ _ _ => 0, fs.rings, 0, (0, 0, 0, 0)⟩

theorem wsp_regular (b : FlatBins ℝ) {v : ℝ} (hv : v ≠ 0) : Regular 1 (wsp b v).gslMatrix := by
  unfold Regular
  rw [Matrix.det_fin_one, isUnit_iff_ne_zero]
  exact hv

/-- The spectra of the noise, at two multipoles. -/
noncomputable def spectrum : Arr2 ℝ := Arr2.of 1 2 fun _ _ => whiteSpectrum fs (1 / 3)

noncomputable def spectra : CovCls ℝ := ⟨spectrum, spectrum, spectrum, spectrum⟩

theorem goodElls : GoodEllsFlat [0, 1] := by
  refine ⟨by simp, by simp⟩

theorem whiteSpectra : WhiteSpectra fs σ [0, 1] spectra := by
  have hv : ConstSpectrum spectrum (whiteSpectrum fs (1 / 3)) := by
    intro l hl
    unfold spectrum
    simp only [Arr2.of]
    exact tab2_of_lt _ (by omega) hl
  exact ⟨⟨rfl, rfl, rfl, rfl⟩, ⟨rfl, rfl, rfl, rfl⟩, ⟨hv, hv, hv, hv⟩⟩

/-- The hypotheses of `C66_white_partial` can be met: noise in two pixels with different weights. -/
example (L : LinAlg ℝ) (hL : L.Correct) (j : CovJunk ℝ) :=
  C66_white_partial μ L hL j (fun _ => field mask) (fun _ _ => rfl) fs (fun _ _ => rfl) (by simp only [fs]; positivity) bBoth
    (oneBand_gapless (by norm_num)) (by simp [bBoth, oneBand]) (by simp [bBoth, oneBand]) small defaultCuts nocuts noise σ white
    (wsp bBoth 2) (wsp bBoth 3) ⟨rfl, rfl, wsp_regular _ (by norm_num)⟩ ⟨rfl, rfl, wsp_regular _ (by norm_num)⟩ [0, 1] goodElls
    spectra whiteSpectra

/-! ## Where the covariance is wrong -/

theorem kernel0 (p q : ℕ × ℕ) : modeKernel fs {(0, 0)} p q = 1 := by
  simp [modeKernel, FlatInfo.phase]

theorem kernel1 (p q : ℕ × ℕ) : modeKernel fs {(1, 0)} p q = cos (π * p.1 - π * q.1) := by
  simp only [modeKernel, FlatInfo.phase, sum_singleton, fs]
  congr 1
  push_cast
  ring

/-- The covariance of single bandpowers of the noise without mask. -/
theorem bil_one (S T : Finset (ℕ × ℕ)) : whiteBil fs (1 / 3 * (1 / 3)) (1 / 3 * (1 / 3))
    (bandForm fs (fun _ => S) (fun _ => 1) (fun _ => 1) 0) (bandForm fs (fun _ => T) (fun _ => 1) (fun _ => 1) 0) =
    2 / 9 * (π ^ 4 / (#S * #T)) * ∑ p ∈ fs.modes, ∑ q ∈ fs.modes, modeKernel fs S p q * modeKernel fs T p q := by
  have ha : fs.almNorm = π := by
    simp only [FlatInfo.almNorm, fs]
    have := pi_ne_zero
    field_simp
    norm_num
  have hp : 4 * π * π / (fs.lx * fs.ly) = 1 := by
    simp only [fs]
    have := pi_ne_zero
    field_simp
    norm_num
  unfold whiteBil bandForm
  rw [ha, hp]
  have e1 : ∀ p q, 1 / (#S : ℝ) * π ^ 2 * (modeKernel fs S p q * (1 * 1)) * (1 / (#T : ℝ) * π ^ 2 * (modeKernel fs T p q * (1 * 1))) =
      π ^ 4 / (#S * #T) * (modeKernel fs S p q * modeKernel fs T p q) := by
    intro p q
    simp only [div_eq_mul_inv, mul_inv]
    ring
  simp only [modeKernel_symm fs T _ _, e1, ← mul_sum]
  ring

/-- Any set of these modes is symmetric. -/
theorem sym_sub {B : Finset (ℕ × ℕ)} (h : ∀ k ∈ B, k ∈ fs.modes) : SymModes fs B := by
  have hm : ∀ k ∈ B, fs.flip k = k ∧ negMode fs k = k := by
    intro k hk
    rcases (mem_fs k).1 (h k hk) with rfl | rfl <;> constructor <;> rfl
  exact ⟨h, fun k hk => by rw [(hm k hk).1]; exact hk, fun k hk => by rw [(hm k hk).2]; exact hk⟩

theorem invert_ne {L : LinAlg ℝ} (hL : L.Correct) {M : ℕ → ℕ → ℝ} (h : Regular 1 M) : L.invert 1 M 0 0 ≠ 0 := by
  intro h0
  have := hL.invert_spec 1 M h 0 0 (by omega) (by omega)
  simp [h0] at this

/-- A workspace for one band and two spin-0 fields. -/
def OneWsp (w : WspFlat) (b : FlatBins ℝ) : Prop := w.ncls = 1 ∧ w.bin = b ∧ Regular 1 w.gslMatrix

/-- The spectrum of two maps of the noise without mask, in one band. -/
theorem one_chain {L : LinAlg ℝ} (hL : L.Correct) {lo hi : ℝ} (hlt : lo < hi) (c : EllCuts) {w : WspFlat} (hw : OneWsp w (oneBand lo hi))
    (i k : ℕ) (ω : Dice) :
    ∃ A, ((coupledCellFlat ((field fun _ => 1).withMaps fun _ => noise i ω) ((field fun _ => 1).withMaps fun _ => noise k ω)
      (oneBand lo hi) c).bind fun cl => decoupleCellFlat L (some w) cl none none) = .ok A ∧
      A.val 0 0 = quadForm fs (fun p q => ∑ r ∈ range 1, L.invert 1 w.gslMatrix 0 r *
        bandForm fs (bandModes fs (oneBand lo hi) c) (fun _ => 1) (fun _ => 1) r p q) (noise i ω) (noise k ω) := by
  classical
  obtain ⟨A, h1, h2⟩ := spin0_decoupled hL (field fun _ => 1) (field fun _ => 1) rfl rfl rfl
    (by simp only [field, fs]; positivity) (oneBand lo hi) (oneBand_gapless hlt) (by simp [oneBand]) (c := c)
    (S := bandModes fs (oneBand lo hi) c)
    (fun ib => ⟨rfl, sym_sub fun k hk => (Finset.mem_filter.1 hk).1⟩) w hw.1 (by rw [hw.2.1]) hw.2.2
    (fun _ => noise i ω) (fun _ => noise k ω)
  exact ⟨A, h1, h2 0 (by simp [oneBand])⟩

/-- The covariance of two such spectra. -/
theorem one_covar (x y : ℝ) (S T : ℕ → Finset (ℕ × ℕ)) :
    covar μ (fun ω => quadForm fs (fun p q => ∑ r ∈ range 1, x * bandForm fs S (fun _ => 1) (fun _ => 1) r p q) (noise 0 ω) (noise 1 ω))
      (fun ω => quadForm fs (fun p q => ∑ r ∈ range 1, y * bandForm fs T (fun _ => 1) (fun _ => 1) r p q) (noise 2 ω) (noise 3 ω)) =
    x * y * (2 / 9 * (π ^ 4 / (#(S 0) * #(T 0))) * ∑ p ∈ fs.modes, ∑ q ∈ fs.modes, modeKernel fs (S 0) p q * modeKernel fs (T 0) p q) := by
  rw [(quad_covar white _ _).2.2.2]
  have h := whiteBil_sum (fs := fs) (1 / 3 * (1 / 3)) (1 / 3 * (1 / 3)) 1 1 (fun _ => x) (fun _ => y)
    (fun r => bandForm fs S (fun _ => 1) (fun _ => 1) r) (fun r => bandForm fs T (fun _ => 1) (fun _ => 1) r)
  rw [← bil_one]
  unfold whiteBil at h
  simp only [sum_range_one] at h ⊢
  unfold σ
  rw [h]
  unfold whiteBil bandForm
  ring

/-- What the library gives for the covariance of two such spectra: the second binning does not matter. -/
theorem one_code (L : LinAlg ℝ) (j : CovJunk ℝ) {lo hi : ℝ} (hlt : lo < hi) {b2 : FlatBins ℝ} (hb2 : b2.nBands = 1) {wa wb : WspFlat}
    (ha : OneWsp wa (oneBand lo hi)) (hb : OneWsp wb b2) :
    ∃ cw C, covInitFlat (field fun _ => 1) (field fun _ => 1) (oneBand lo hi) (some (field fun _ => 1)) (some (field fun _ => 1)) (some b2) =
        .ok cw ∧
      gaussianCovarianceFlat L j (some cw) 0 0 0 0 [0, 1] spectra (some wa) (some (some wb)) = .ok C ∧
      C.val 0 0 = L.invert 1 wa.gslMatrix 0 0 * L.invert 1 wb.gslMatrix 0 0 *
        (2 / 9 * (π ^ 4 / (#(bandModesAll fs (oneBand lo hi) 0) * #(bandModesAll fs (oneBand lo hi) 0))) *
          ∑ p ∈ fs.modes, ∑ q ∈ fs.modes, modeKernel fs (bandModesAll fs (oneBand lo hi) 0) p q *
            modeKernel fs (bandModesAll fs (oneBand lo hi) 0) p q) := by
  obtain ⟨cw, hcw, hbin, hx1, hx2⟩ := covInitFlat_eq (field fun _ => 1) (field fun _ => 1) (field fun _ => 1) (field fun _ => 1) rfl rfl rfl
    (oneBand lo hi) (oneBand_gapless hlt) (by simp [oneBand]) (some b2) hb2 small
  have hcn : cw.bin.nBands = 1 := by rw [hbin]; rfl
  obtain ⟨C, hC, -, -, hCv⟩ := gaussFlat_spin0 L j cw goodElls whiteSpectra.rows whiteSpectra.cols whiteSpectra.vals wa wb ha.1 hb.1
    (by rw [ha.2.1, hbin]) (by rw [hb.2.1, hb2, hcn]) (by rw [hcn]; norm_num)
  refine ⟨cw, C, hcw, hC, ?_⟩
  rw [hcn] at hCv
  rw [hCv 0 (by omega) 0 (by omega)]
  simp only [sum_range_one]
  rw [hx1.xi00 0 (by simp [oneBand]) 0 (by simp [oneBand]), hx2.xi00 0 (by simp [oneBand]) 0 (by simp [oneBand])]
  have h := whiteBil_band (fs := fs) (by simp only [fs]; positivity) (oneBand lo hi) (fun _ => 1) (fun _ => 1) (fun _ => 1) (fun _ => 1)
    (1 / 3) (1 / 3) (1 / 3) (1 / 3) 0 0
  have h' : whiteBil fs (1 / 3 * (1 / 3)) (1 / 3 * (1 / 3)) (bandForm fs (bandModesAll fs (oneBand lo hi)) (fun _ => 1) (fun _ => 1) 0)
      (bandForm fs (bandModesAll fs (oneBand lo hi)) (fun _ => 1) (fun _ => 1) 0) = _ :=
    bil_one (bandModesAll fs (oneBand lo hi) 0) (bandModesAll fs (oneBand lo hi) 0)
  rw [h'] at h
  rw [h]
  simp only [field, σ]
  ring

end CovFlatExample

open CovFlatExample

/-- C66 is false with cuts of multipoles: the spectra leave the modes out, the covariance does not. With one of two modes
removed, the covariance is half the true one, whatever the workspace. -/
theorem C66_cuts_wrong (L : LinAlg ℝ) (hL : L.Correct) (j : CovJunk ℝ) (wa wb : WspFlat) (ha : OneWsp wa bBoth) (hb : OneWsp wb bBoth) :
    ∃ c : EllCuts, ∃ cw C, ∃ A B : Dice → Arr2 ℝ,
      covInitFlat (field fun _ => 1) (field fun _ => 1) bBoth (some (field fun _ => 1)) (some (field fun _ => 1)) (some bBoth) = .ok cw ∧
      gaussianCovarianceFlat L j (some cw) 0 0 0 0 [0, 1] spectra (some wa) (some (some wb)) = .ok C ∧
      (∀ ω, ((coupledCellFlat ((field fun _ => 1).withMaps fun _ => noise 0 ω) ((field fun _ => 1).withMaps fun _ => noise 1 ω) bBoth c).bind
        fun cl => decoupleCellFlat L (some wa) cl none none) = .ok (A ω)) ∧
      (∀ ω, ((coupledCellFlat ((field fun _ => 1).withMaps fun _ => noise 2 ω) ((field fun _ => 1).withMaps fun _ => noise 3 ω) bBoth c).bind
        fun cl => decoupleCellFlat L (some wb) cl none none) = .ok (B ω)) ∧
      covar μ (fun ω => (A ω).val 0 0) (fun ω => (B ω).val 0 0) ≠ 0 ∧
      C.val 0 0 = 1 / 2 * covar μ (fun ω => (A ω).val 0 0) fun ω => (B ω).val 0 0 := by
  have hcut : bandModes fs bBoth ⟨1 / 2, 2, 1, -1⟩ 0 = {(0, 0)} := by
    classical
    ext k
    unfold bandModes
    rw [Finset.mem_filter, mem_fs, mem_singleton]
    constructor
    · rintro ⟨rfl | rfl, h, -⟩
      · rfl
      · exact absurd (Or.inl ⟨by rw [kx1]; norm_num, by rw [kx1]; norm_num⟩) h
    · rintro rfl
      refine ⟨Or.inl rfl, ?_, by norm_num [bBoth, oneBand], ?_⟩
      · rintro (⟨h, -⟩ | ⟨h1, h2⟩)
        · simp only [FlatInfo.kx, waveNum, fs] at h; norm_num at h
        · simp only at h1 h2; linarith
      · rw [kmod0]; norm_num [bBoth, oneBand]
  obtain ⟨cw, C, h1, h2, h3⟩ := one_code L j (lo := 0) (hi := 2) (by norm_num) (b2 := bBoth) rfl ha hb
  choose A hA1 hA2 using fun ω => one_chain hL (lo := 0) (hi := 2) (by norm_num) ⟨1 / 2, 2, 1, -1⟩ ha 0 1 ω
  choose B hB1 hB2 using fun ω => one_chain hL (lo := 0) (hi := 2) (by norm_num) ⟨1 / 2, 2, 1, -1⟩ hb 2 3 ω
  have hcov : covar μ (fun ω => (A ω).val 0 0) (fun ω => (B ω).val 0 0) =
      L.invert 1 wa.gslMatrix 0 0 * L.invert 1 wb.gslMatrix 0 0 * (8 / 9 * π ^ 4) := by
    simp only [hA2, hB2, sum_range_one]
    have := one_covar (L.invert 1 wa.gslMatrix 0 0) (L.invert 1 wb.gslMatrix 0 0) (bandModes fs bBoth ⟨1 / 2, 2, 1, -1⟩)
      (bandModes fs bBoth ⟨1 / 2, 2, 1, -1⟩)
    simp only [sum_range_one] at this
    refine this.trans ?_
    rw [hcut]
    simp only [kernel0, modes_eq, card_singleton]
    rw [sum_pair (by simp), sum_pair (by simp)]
    push_cast
    ring
  refine ⟨⟨1 / 2, 2, 1, -1⟩, cw, C, A, B, h1, h2, hA1, hB1, ?_, ?_⟩
  · rw [hcov]
    have := invert_ne hL ha.2.2
    have := invert_ne hL hb.2.2
    have := pi_ne_zero
    positivity
  · rw [hcov, h3]
    have hk : ∀ p q, modeKernel fs {(0, 0), (1, 0)} p q = 1 + cos (π * p.1 - π * q.1) := by
      intro p q
      rw [← kernel1, ← kernel0 p q]
      unfold modeKernel
      rw [sum_pair (by simp)]
      simp
    have hb' : bandModesAll fs (oneBand 0 2) 0 = {(0, 0), (1, 0)} := all_both
    rw [hb']
    simp only [hk, modes_eq]
    rw [sum_pair (by simp), sum_pair (by simp), sum_pair (by simp), card_pair (by simp)]
    simp
    norm_num
    ring

/-- C66 is false for two different binnings: the one of the second pair of fields is ignored. The library gives a covariance
for the spectra in two different bands, which in truth are not correlated. -/
theorem C66_bands_wrong (L : LinAlg ℝ) (hL : L.Correct) (j : CovJunk ℝ) (wa wb : WspFlat) (ha : OneWsp wa bLow) (hb : OneWsp wb bHigh) :
    ∃ cw C, ∃ A B : Dice → Arr2 ℝ,
      covInitFlat (field fun _ => 1) (field fun _ => 1) bLow (some (field fun _ => 1)) (some (field fun _ => 1)) (some bHigh) = .ok cw ∧
      gaussianCovarianceFlat L j (some cw) 0 0 0 0 [0, 1] spectra (some wa) (some (some wb)) = .ok C ∧
      (∀ ω, ((coupledCellFlat ((field fun _ => 1).withMaps fun _ => noise 0 ω) ((field fun _ => 1).withMaps fun _ => noise 1 ω) bLow
        defaultCuts).bind fun cl => decoupleCellFlat L (some wa) cl none none) = .ok (A ω)) ∧
      (∀ ω, ((coupledCellFlat ((field fun _ => 1).withMaps fun _ => noise 2 ω) ((field fun _ => 1).withMaps fun _ => noise 3 ω) bHigh
        defaultCuts).bind fun cl => decoupleCellFlat L (some wb) cl none none) = .ok (B ω)) ∧
      covar μ (fun ω => (A ω).val 0 0) (fun ω => (B ω).val 0 0) = 0 ∧ C.val 0 0 ≠ 0 := by
  obtain ⟨cw, C, h1, h2, h3⟩ := one_code L j (lo := 0) (hi := 1 / 2) (by norm_num) (b2 := bHigh) rfl ha hb
  choose A hA1 hA2 using fun ω => one_chain hL (lo := 0) (hi := 1 / 2) (by norm_num) defaultCuts ha 0 1 ω
  choose B hB1 hB2 using fun ω => one_chain hL (lo := 1 / 2) (hi := 2) (by norm_num) defaultCuts hb 2 3 ω
  refine ⟨cw, C, A, B, h1, h2, hA1, hB1, ?_, ?_⟩
  · simp only [hA2, hB2, sum_range_one]
    have := one_covar (L.invert 1 wa.gslMatrix 0 0) (L.invert 1 wb.gslMatrix 0 0) (bandModes fs bLow defaultCuts)
      (bandModes fs bHigh defaultCuts)
    simp only [sum_range_one] at this
    refine this.trans ?_
    rw [bandModes_nocut nocuts, bandModes_nocut nocuts, all_low, all_high]
    simp only [kernel0, kernel1, modes_eq]
    rw [sum_pair (by simp), sum_pair (by simp), sum_pair (by simp)]
    simp
  · rw [h3]
    have hb' : bandModesAll fs (oneBand 0 (1 / 2)) 0 = {(0, 0)} := all_low
    rw [hb']
    simp only [kernel0, modes_eq, card_singleton]
    rw [sum_pair (by simp), sum_pair (by simp)]
    refine mul_ne_zero (mul_ne_zero (invert_ne hL ha.2.2) (invert_ne hL hb.2.2)) ?_
    have := pi_ne_zero
    positivity

example : OneWsp (wsp bLow 2) bLow ∧ OneWsp (wsp bHigh 3) bHigh ∧ OneWsp (wsp bBoth 2) bBoth :=
  ⟨⟨rfl, rfl, wsp_regular _ (by norm_num)⟩, ⟨rfl, rfl, wsp_regular _ (by norm_num)⟩, ⟨rfl, rfl, wsp_regular _ (by norm_num)⟩⟩

/-- C66 is false for large maps: if the product of the numbers of modes in two bands reaches 2^31, the behaviour of the
computation is undefined. -/
theorem C66_overflow_wrong (a1 a2 b1 b2 : FlatField) (h2 : a2.fs = a1.fs) (h3 : b1.fs = a1.fs) (h4 : b2.fs = a1.fs) (b : FlatBins ℝ)
    (hb : GaplessBands b) (h0 : 0 < b.nBands) (hs : ¬ SmallBands a1.fs b) :
    covInitFlat a1 a2 b (some b1) (some b2) (some b) = .crash := by
  obtain ⟨rows, e1, e2⟩ := all_rows (n := a1.fs.nx) (m := a1.fs.ny) (fun iy => couplingBandsNocut a1.fs b iy)
    (fun ix iy r => RightBand b (a1.fs.kmod ix iy) r) (fun iy => C41_nocut_partial a1.fs b hb h0 iy)
  have hf := filter_band_all hb.toOrderedBands e2
  unfold covInitFlat covInitFlatC
  simp only [Option.getD_some, h2, h3, h4, ne_eq, not_true_eq_false, or_self, if_false, e1, Outcome.bind]
  unfold SmallBands at hs
  push Not at hs
  obtain ⟨i, hi, k, hk, hle⟩ := hs
  rw [if_pos]
  refine ⟨i, hi, k, hk, ?_⟩
  unfold nCells
  rw [hf i, hf k]
  exact hle

set_option maxRecDepth 4000 in
/-- The hypotheses can be met: a map of 217×217 pixels and a single band. -/
example : ¬ SmallBands ⟨217, 217, 1, 1⟩ (oneBand 0 10000) := by
  intro h
  have hc : #(bandModesAll ⟨217, 217, 1, 1⟩ (oneBand 0 10000) 0) = 217 * 217 := by
    classical
    have : bandModesAll ⟨217, 217, 1, 1⟩ (oneBand 0 10000) 0 = (⟨217, 217, 1, 1⟩ : FlatInfo).modes := by
      unfold bandModesAll
      rw [Finset.filter_eq_self]
      intro k hk
      have hw : ∀ i < 217, |waveNum 217 1 i| ≤ 217 * (2 * π) := by
        intro i hi
        unfold waveNum
        have hi' : (i : ℝ) < 217 := by exact_mod_cast hi
        have hi0 : (0 : ℝ) ≤ i := Nat.cast_nonneg i
        split_ifs
        · rw [div_one, abs_of_nonneg (by positivity)]
          nlinarith [pi_pos]
        · rw [div_one, abs_le]
          constructor <;> push_cast <;> nlinarith [pi_pos]
      rw [mem_modes] at hk
      refine ⟨by simp [oneBand], Real.sqrt_nonneg _, ?_⟩
      have h1 := hw k.1 hk.1
      have h2 := hw k.2 hk.2
      unfold FlatInfo.kmod FlatInfo.kx FlatInfo.ky
      simp only [oneBand]
      rw [Real.sqrt_lt' (by norm_num)]
      have hpi := pi_lt_d2
      have hb : 217 * (2 * π) < 2000 := by nlinarith
      rw [← abs_mul_abs_self (waveNum 217 1 k.1), ← abs_mul_abs_self (waveNum 217 1 k.2)]
      nlinarith [abs_nonneg (waveNum 217 1 k.1), abs_nonneg (waveNum 217 1 k.2)]
    rw [this]
    simp [FlatInfo.modes]
  have := h 0 (by simp [oneBand]) 0 (by simp [oneBand])
  rw [hc] at this
  norm_num at this

open CovFlatExample in
/-- The hypotheses of `C29_flat_rejects` are met: bandpowers with one band and with two. -/
example (h : ℕ → ℝ) : covInitFlat (field fun _ => 1) (field fun _ => 1) bLow none none (some ⟨2, h, h⟩) = .raises .runtime :=
  (C29_flat_rejects _ _ _ _ _ _).2 ⟨rfl, rfl⟩ ⟨rfl, rfl⟩ ⟨rfl, rfl⟩ (by simp [bLow, oneBand])

end NaMaster
