import Verif.Flat.CovarExchange

/-! # Flat-sky covariances that are not symmetric (C67) -/

namespace NaMaster

open Real Finset NaMaster.CovSpec

namespace CovNyquist

/-- Three columns and four rows of pixels. The wave numbers are 0, ±2 along x and 0, ±1, 2 along y. -/
noncomputable def fs : FlatInfo := ⟨3, 4, π, 2 * π⟩

theorem kx_val : fs.kx 0 = 0 ∧ fs.kx 1 = 2 ∧ fs.kx 2 = -2 := by
  have h := pi_ne_zero
  refine ⟨?_, ?_, ?_⟩ <;> simp only [FlatInfo.kx, waveNum, fs] <;> norm_num <;> field_simp

theorem ky_val : fs.ky 0 = 0 ∧ fs.ky 1 = 1 ∧ fs.ky 2 = 2 ∧ fs.ky 3 = -1 := by
  have h := pi_ne_zero
  refine ⟨?_, ?_, ?_, ?_⟩ <;> simp only [FlatInfo.ky, waveNum, fs] <;> norm_num
  all_goals field_simp

/-- Two bands: from 2.1 to 2.5 and from 2.5 to 3. -/
noncomputable def bands : FlatBins ℝ := ⟨2, fun i => if i = 0 then 21 / 10 else 5 / 2, fun i => if i = 0 then 5 / 2 else 3⟩

theorem bands_gapless : GaplessBands bands := by
  refine ⟨⟨?_, ?_⟩, ?_⟩ <;> intro i hi <;> simp only [bands] at hi ⊢
  · have : i = 0 ∨ i = 1 := by omega
    rcases this with rfl | rfl <;> norm_num
  · have : i = 0 := by omega
    subst this; norm_num
  · have : i = 0 := by omega
    subst this; norm_num

/-- The squares of the wave vectors. -/
theorem kmod_sq (i j : ℕ) : fs.kmod i j = √(fs.kx i * fs.kx i + fs.ky j * fs.ky j) := rfl

theorem low : bandModesAll fs bands 0 = {(1, 1), (1, 3), (2, 1), (2, 3)} := by
  classical
  obtain ⟨x0, x1, x2⟩ := kx_val
  obtain ⟨y0, y1, y2, y3⟩ := ky_val
  ext ⟨i, j⟩
  unfold bandModesAll
  rw [Finset.mem_filter, mem_modes]
  simp only [InBand, bands, kmod_sq, if_true, Real.le_sqrt' (show (0 : ℝ) < 21 / 10 by norm_num), Real.sqrt_lt' (show (0 : ℝ) < 5 / 2 by norm_num)]
  constructor
  · rintro ⟨⟨hi, hj⟩, -, h1, h2⟩
    simp only [fs] at hi hj
    interval_cases i <;> interval_cases j <;> simp only [x0, x1, x2, y0, y1, y2, y3] at h1 h2 <;>
      first | (exfalso; norm_num at h1; done) | (exfalso; norm_num at h2; done) | simp
  · intro h
    simp only [mem_insert, mem_singleton, Prod.mk.injEq] at h
    rcases h with ⟨rfl, rfl⟩ | ⟨rfl, rfl⟩ | ⟨rfl, rfl⟩ | ⟨rfl, rfl⟩ <;> simp only [x0, x1, x2, y0, y1, y2, y3] <;> norm_num [fs]

theorem high : bandModesAll fs bands 1 = {(1, 2), (2, 2)} := by
  classical
  obtain ⟨x0, x1, x2⟩ := kx_val
  obtain ⟨y0, y1, y2, y3⟩ := ky_val
  ext ⟨i, j⟩
  unfold bandModesAll
  rw [Finset.mem_filter, mem_modes]
  simp only [InBand, bands, kmod_sq, one_ne_zero, if_false, Real.le_sqrt' (show (0 : ℝ) < 5 / 2 by norm_num), Real.sqrt_lt' (show (0 : ℝ) < 3 by norm_num)]
  constructor
  · rintro ⟨⟨hi, hj⟩, -, h1, h2⟩
    simp only [fs] at hi hj
    interval_cases i <;> interval_cases j <;> simp only [x0, x1, x2, y0, y1, y2, y3] at h1 h2 <;>
      first | (exfalso; norm_num at h1; done) | (exfalso; norm_num at h2; done) | simp
  · intro h
    simp only [mem_insert, mem_singleton, Prod.mk.injEq] at h
    rcases h with ⟨rfl, rfl⟩ | ⟨rfl, rfl⟩ <;> simp only [x0, x1, x2, y0, y1, y2, y3] <;> norm_num [fs]

theorem small : SmallBands fs bands := by
  intro i hi j hj
  have h : ∀ i < 2, #(bandModesAll fs bands i) ≤ 4 := by
    intro i hi
    have : i = 0 ∨ i = 1 := by omega
    rcases this with rfl | rfl
    · rw [low]; decide
    · rw [high]; decide
  have := Nat.mul_le_mul (h i hi) (h j hj)
  omega

/-- Cosine and sine of twice the angle of a mode. -/
theorem angle (i j : ℕ) (h : 0 < fs.kx i * fs.kx i + fs.ky j * fs.ky j) : fs.angles 2 (i, j) =
    ((fs.kx i * fs.kx i - fs.ky j * fs.ky j) / (fs.kx i * fs.kx i + fs.ky j * fs.ky j),
      2 * fs.kx i * fs.ky j / (fs.kx i * fs.kx i + fs.ky j * fs.ky j)) := by
  have hs : √(fs.kx i * fs.kx i + fs.ky j * fs.ky j) * √(fs.kx i * fs.kx i + fs.ky j * fs.ky j) = fs.kx i * fs.kx i + fs.ky j * fs.ky j :=
    Real.mul_self_sqrt h.le
  have hp : 0 < √(fs.kx i * fs.kx i + fs.ky j * fs.ky j) := Real.sqrt_pos.2 h
  unfold FlatInfo.angles
  rw [if_pos (by rw [kmod_sq]; exact hp), kmod_sq]
  simp only [csRec]
  generalize √(fs.kx i * fs.kx i + fs.ky j * fs.ky j) = r at *
  rw [← hs]
  ext
  · simp only; field_simp; ring
  · simp only; field_simp; ring

theorem angles : fs.angles 2 (1, 1) = (3 / 5, 4 / 5) ∧ fs.angles 2 (1, 3) = (3 / 5, -(4 / 5)) ∧ fs.angles 2 (2, 1) = (3 / 5, -(4 / 5)) ∧
    fs.angles 2 (2, 3) = (3 / 5, 4 / 5) ∧ fs.angles 2 (1, 2) = (0, 1) ∧ fs.angles 2 (2, 2) = (0, -1) := by
  obtain ⟨x0, x1, x2⟩ := kx_val
  obtain ⟨y0, y1, y2, y3⟩ := ky_val
  refine ⟨?_, ?_, ?_, ?_, ?_, ?_⟩ <;> rw [angle _ _ (by simp only [x1, x2, y1, y2, y3]; norm_num)] <;>
    simp only [x1, x2, y1, y2, y3] <;> norm_num

/-- The mask: two pixels, next to each other along a diagonal. -/
noncomputable def mask : ℕ × ℕ → ℝ := fun p => if p = (0, 0) ∨ p = (1, 1) then 1 else 0

theorem mask_sq (p : ℕ × ℕ) : mask p * mask p = mask p := by
  unfold mask; split_ifs <;> norm_num

theorem mask_sum (g : ℕ × ℕ → ℝ) : ∑ p ∈ fs.modes, g p * mask p = g (0, 0) + g (1, 1) := by
  have h : ∑ p ∈ fs.modes, g p * mask p = ∑ p ∈ ({(0, 0), (1, 1)} : Finset (ℕ × ℕ)), g p * mask p := by
    symm
    refine sum_subset ?_ ?_
    · intro p hp
      simp only [mem_insert, mem_singleton] at hp
      rcases hp with rfl | rfl <;> rw [mem_modes] <;> simp [fs]
    · intro p _ hp
      simp only [mem_insert, mem_singleton] at hp
      simp [mask, hp]
  rw [h, sum_pair (by decide)]
  simp [mask]

theorem power (k : ℕ × ℕ) : maskPower fs mask mask k = fs.almNorm ^ 2 * (2 + 2 * cos (fs.phase k (1, 1))) := by
  rw [maskPower_eq]
  congr 1
  have e : ∀ p, ∑ q ∈ fs.modes, cos (fs.phase k p - fs.phase k q) * (mask p * mask q) =
      (cos (fs.phase k p) + cos (fs.phase k p - fs.phase k (1, 1))) * mask p := by
    intro p
    have := mask_sum fun q => cos (fs.phase k p - fs.phase k q) * mask p
    simp only [mul_assoc] at this ⊢
    rw [this]
    have h0 : fs.phase k (0, 0) = 0 := by simp [FlatInfo.phase]
    rw [h0, sub_zero]
    ring
  simp only [e]
  rw [mask_sum]
  have h0 : fs.phase k (0, 0) = 0 := by simp [FlatInfo.phase]
  rw [h0, zero_sub, cos_neg, sub_self, cos_zero]
  ring

/-- The power of the mask as it is read. -/
noncomputable def H (k : ℕ × ℕ) : ℝ := halfProd fs.nx (fs.map2alm mask) (fs.map2alm mask) k

theorem H_two (y : ℕ) : H (2, y) = H (1, y) := rfl

theorem H_eq (x y : ℕ) (hx : x ≤ 1) (hy : y < 4) : H (x, y) = fs.almNorm ^ 2 * (2 + 2 * cos (2 * π * (x / 3 + y / 4))) := by
  unfold H
  rw [halfProd_mask (by simp only [fs]; positivity) _ _ (by rw [mem_modes]; simp only [fs]; omega), if_pos (by simp only [fs]; omega), power]
  simp [FlatInfo.phase, fs]

theorem H_zero : H (0, 1) = H (0, 3) := by
  rw [H_eq 0 1 (by omega) (by omega), H_eq 0 3 (by omega) (by omega)]
  have : (2 * π * (((0 : ℕ) : ℝ) / 3 + ((3 : ℕ) : ℝ) / 4)) = 2 * π - 2 * π * (((0 : ℕ) : ℝ) / 3 + ((1 : ℕ) : ℝ) / 4) := by push_cast; ring
  rw [this, cos_two_pi_sub]

/-- The power of the mask is not symmetric along y. -/
theorem H_ne : H (1, 1) ≠ H (1, 3) := by
  rw [H_eq 1 1 (by omega) (by omega), H_eq 1 3 (by omega) (by omega)]
  intro h
  have hn : fs.almNorm ^ 2 ≠ 0 := by
    have : 0 < fs.almNorm := by simp only [FlatInfo.almNorm, fs]; positivity
    positivity
  have h1 := mul_left_cancel₀ hn h
  have e1 : (2 * π * (((1 : ℕ) : ℝ) / 3 + ((1 : ℕ) : ℝ) / 4)) = 2 * π / 3 + π / 2 := by push_cast; ring
  have e2 : (2 * π * (((1 : ℕ) : ℝ) / 3 + ((3 : ℕ) : ℝ) / 4)) = 2 * π / 3 - π / 2 + 2 * π := by push_cast; ring
  rw [e1, e2, cos_add_two_pi, cos_add_pi_div_two, cos_sub_pi_div_two] at h1
  have hpos : 0 < sin (2 * π / 3) := sin_pos_of_pos_of_lt_pi (by positivity) (by linarith [pi_pos])
  linarith

theorem xi_ne : xiForm fs bands mask mask (fun k1 k2 => fs.cdiff 2 k1 k2) 0 1 ≠ xiForm fs bands mask mask (fun k1 k2 => fs.cdiff 2 k1 k2) 1 0 := by
  intro h
  unfold xiForm at h
  have hc : (#(bandModesAll fs bands 0) : ℝ) = 4 ∧ (#(bandModesAll fs bands 1) : ℝ) = 2 := by
    rw [low, high]; constructor <;> norm_num
  rw [mul_comm (#(bandModesAll fs bands 1) : ℝ)] at h
  have hp : 4 * π * π / (fs.lx * fs.lx * fs.ly * fs.ly) / (#(bandModesAll fs bands 0) * #(bandModesAll fs bands 1)) ≠ 0 := by
    rw [hc.1, hc.2]
    simp only [fs]
    positivity
  have h1 := mul_right_cancel₀ hp h
  have hH : ∀ k, halfProd fs.nx (fs.map2alm mask) (fs.map2alm mask) k = H k := fun _ => rfl
  obtain ⟨a1, a2, a3, a4, a5, a6⟩ := angles
  simp only [hH, low, high] at h1
  rw [sum_insert (by decide), sum_insert (by decide), sum_insert (by decide), sum_singleton, sum_pair (by decide), sum_pair (by decide),
    sum_pair (by decide), sum_pair (by decide), sum_pair (by decide)] at h1
  rw [sum_insert (by decide), sum_insert (by decide), sum_insert (by decide), sum_singleton, sum_insert (by decide), sum_insert (by decide), sum_insert (by decide), sum_singleton] at h1
  simp only [FlatInfo.cdiff, a1, a2, a3, a4, a5, a6, FlatInfo.sub, subIdx, show fs.nx = 3 from rfl, show fs.ny = 4 from rfl] at h1
  norm_num at h1
  have e1 := H_two 1
  have e3 := H_two 3
  have e0 := H_zero
  rw [e1, e3, e0] at h1
  exact H_ne (by linarith)

/-- A field with this mask and the given spin. -/
noncomputable def field (s : ℕ) : FlatField := ⟨fs, s, mask, fun _ => 1, 0, 0⟩

/-- A workspace without coupling for temperature and polarisation. -/
noncomputable def wsp : WspFlat :=
  ⟨fs, defaultCuts, 2, bands, false, fun _ => 0, fun i b j c => if i = j ∧ b = c then 1 else 0, fun _ _ _ _ => 0, fs.rings, 0, (0, 0, 0, 0)⟩

theorem wsp_matrix (i j : ℕ) : wsp.gslMatrix i j = if i = j then 1 else 0 := by
  simp only [WspFlat.gslMatrix, wsp]
  congr 1
  rw [eq_iff_iff]
  omega

theorem wsp_regular : Regular 4 wsp.gslMatrix := by
  unfold Regular
  have : toMat 4 wsp.gslMatrix = 1 := by
    ext i j
    rw [Matrix.one_apply]
    simp only [toMat, Matrix.of_apply, wsp_matrix, Fin.ext_iff]
  rw [this]
  simp

theorem wsp_invert {L : LinAlg ℝ} (hL : L.Correct) {i j : ℕ} (hi : i < 4) (hj : j < 4) : L.invert 4 wsp.gslMatrix i j = if i = j then 1 else 0 := by
  rw [← hL.invert_spec 4 _ wsp_regular i j hi hj, sum_eq_single_of_mem i (mem_range.2 hi)]
  · rw [wsp_matrix, if_pos rfl, one_mul]
  · intro k _ hk
    rw [wsp_matrix, if_neg hk.symm, zero_mul]

/-- Constant spectra of temperature and of E and B modes, without correlations. -/
noncomputable def spectra : CovCls ℝ := ⟨Arr2.of 1 2 fun _ _ => 1, Arr2.of 2 2 fun _ _ => 0, Arr2.of 2 2 fun _ _ => 0,
  Arr2.of 4 2 fun i _ => if i = 0 ∨ i = 3 then 1 else 0⟩

theorem goodElls : GoodEllsFlat [0, 1] := ⟨by simp, by simp⟩

theorem exchanged : Exchanged 0 2 0 2 spectra spectra := by
  have e0 : nmaps 0 = 1 := rfl
  have e2 : nmaps 2 = 2 := rfl
  refine ⟨⟨rfl, rfl, ?_⟩, ⟨rfl, rfl, ?_⟩, ⟨rfl, rfl, ?_⟩, ⟨rfl, rfl, ?_⟩⟩
  all_goals
    intro p hp q hq l hl
    first | rw [e0] at hp | rw [e2] at hp
    first | rw [e0] at hq | rw [e2] at hq
    change l < 2 at hl
    simp only [spectra]
    try simp only [e0, e2]
    interval_cases p <;> interval_cases q <;> rw [Arr2.of_val _ (by norm_num) hl] <;> try rw [Arr2.of_val _ (by norm_num) hl]
    all_goals norm_num

theorem consistent {cw : CovWspFlat} (h : cw.bin = bands) : ConsistentFlat cw 0 2 0 2 [0, 1] spectra wsp wsp := by
  have hnb : cw.bin.nBands = 2 := by rw [h]; rfl
  exact ⟨rfl, rfl, ⟨rfl, rfl, rfl, rfl⟩, ⟨rfl, rfl, rfl, rfl⟩, goodElls, ⟨hnb.symm, hnb.symm⟩, by rw [hnb]; norm_num [wsp]⟩

/-- The binned values of a constant row. -/
theorem binVals_const {v : List ℝ → ℕ → ℝ} (hv : ∀ cls ib, cls.length = [0, 1].length → binRowFlat bands [0, 1] cls ib = .ok (v cls ib))
    {n : ℕ} (g : ℕ → ℝ) {i : ℕ} (hi : i < n) {ib : ℕ} (hb : ib < 2) : (binVals bands v (Arr2.of n 2 fun i _ => g i)).val i ib = g i := by
  unfold binVals
  rw [Arr2.of_val _ (by exact hi) (by exact hb)]
  have hl : ((Arr2.of n 2 fun i _ => g i).row i).length = [(0 : ℝ), 1].length := by simp [Arr2.row, Arr2.of]
  have h1 := hv _ ib hl
  rw [binRow_const bands goodElls hl (g i) ?_ ib] at h1
  · exact (Outcome.ok.inj h1).symm
  · intro x hx
    obtain ⟨l, hl', rfl⟩ := List.mem_map.1 hx
    exact Arr2.of_val _ hi (List.mem_range.1 hl')

end CovNyquist

open CovNyquist in
/-- C67: the covariance of the spectra of temperature with polarisation is not symmetric: one of the two bands consists of modes of the highest wave
number along y. All other hypotheses of `C67_symmetric_partial` hold. -/
theorem C67_nyquist_wrong : ∃ (f g : FlatField) (b : FlatBins ℝ) (cw : CovWspFlat) (s : CovCls ℝ) (w : WspFlat),
    g.fs = f.fs ∧ 0 < f.fs.lx ∧ GaplessBands b ∧ 0 < b.nBands ∧ covInitFlat f g b none none none = .ok cw ∧ Exchanged 0 2 0 2 s s ∧
    ConsistentFlat cw 0 2 0 2 [0, 1] s w w ∧ Regular 4 w.gslMatrix ∧ ∀ (L : LinAlg ℝ), L.Correct → ∀ (j : CovJunk ℝ),
    ∃ C, gaussianCovarianceFlat L j (some cw) 0 2 0 2 [0, 1] s (some w) none = .ok C ∧ C.rows = 4 ∧ C.cols = 4 ∧ C.val 0 2 ≠ C.val 2 0 := by
  obtain ⟨cw, hcw, hbin, hx, -⟩ := covInitFlat_eq (field 0) (field 2) (field 0) (field 2) rfl rfl rfl bands bands_gapless (by simp [bands])
    none rfl small
  refine ⟨field 0, field 2, bands, cw, spectra, wsp, rfl, by simp only [field, fs]; positivity, bands_gapless, by simp [bands], hcw, exchanged,
    consistent hbin, wsp_regular, fun L hL j => ?_⟩
  obtain ⟨v, hv0, hv⟩ := gaussFlat_eq bands goodElls
  obtain ⟨C, h1, h2, h3, h4⟩ := hv L j cw hbin 0 2 0 2 spectra wsp wsp (consistent hbin)
  refine ⟨C, h1, h2, h3, ?_⟩
  have hn : wsp.ncls * bands.nBands = 4 := rfl
  rw [hn] at h4
  have hd : ∀ i < 4, ∀ k < 4, C.val i k = flatBinned j.mat cw (Maps.ofSpins 0 2 0 2) 2 2
      ⟨binVals bands v spectra.ac, binVals bands v spectra.ad, binVals bands v spectra.bc, binVals bands v spectra.bd⟩ i k := by
    intro i hi k hk
    rw [h4 i hi k hk, sum_eq_single_of_mem i (mem_range.2 hi), sum_eq_single_of_mem k (mem_range.2 hk), wsp_invert hL hi hi, wsp_invert hL hk hk]
    · simp only [if_true, one_mul, mul_one]; rfl
    · intro t ht hne
      rw [wsp_invert hL hk (mem_range.1 ht), if_neg hne.symm, mul_zero]
    · intro t ht hne
      rw [wsp_invert hL hi (mem_range.1 ht), if_neg hne.symm, zero_mul]
  have key : ∀ bA < 2, ∀ bB < 2, C.val (2 * bA) (2 * bB) = cw.x1122.xi02 bA bB := by
    intro bA hA bB hB
    rw [hd _ (by omega) _ (by omega)]
    have hnb : cw.bin.nBands = 2 := by rw [hbin]; rfl
    have := flatBinned_apply j.mat cw (Maps.ofSpins 0 2 0 2)
      ⟨binVals bands v spectra.ac, binVals bands v spectra.ad, binVals bands v spectra.bc, binVals bands v spectra.bd⟩
      (na := 2) (nb := 2) rfl rfl (ia := 0) (ib := 0) (ic := 0) (id := 0) (by decide) (by decide) (by decide) (by decide)
      (by rw [hnb]; exact hA) (by rw [hnb]; exact hB)
    simp only [Nat.mul_zero, Nat.add_zero] at this
    rw [this]
    unfold covElement
    have m1 : (Maps.ofSpins 0 2 0 2).a = 1 := rfl
    have m2 : (Maps.ofSpins 0 2 0 2).b = 2 := rfl
    have m3 : (Maps.ofSpins 0 2 0 2).c = 1 := rfl
    have m4 : (Maps.ofSpins 0 2 0 2).d = 2 := rfl
    simp only [m1, m2, m3, m4, sum_range_succ, sum_range_zero]
    have ac : ∀ ib < 2, (binVals bands v spectra.ac).val 0 ib = 1 := fun ib h => binVals_const hv0 (n := 1) (fun _ => 1) (by omega) h
    have ad : ∀ i < 2, ∀ ib < 2, (binVals bands v spectra.ad).val i ib = 0 := fun i hi ib h => binVals_const hv0 (n := 2) (fun _ => 0) hi h
    have bc : ∀ i < 2, ∀ ib < 2, (binVals bands v spectra.bc).val i ib = 0 := fun i hi ib h => binVals_const hv0 (n := 2) (fun _ => 0) hi h
    have bd : ∀ i < 4, ∀ ib < 2, (binVals bands v spectra.bd).val i ib = if i = 0 ∨ i = 3 then 1 else 0 :=
      fun i hi ib h => binVals_const hv0 (n := 4) (fun i => if i = 0 ∨ i = 3 then 1 else 0) hi h
    norm_num [ac bA hA, ac bB hB, ad 0 (by omega) bA hA, ad 0 (by omega) bB hB, ad 1 (by omega) bA hA, ad 1 (by omega) bB hB,
      bc 0 (by omega) bA hA, bc 0 (by omega) bB hB, bc 1 (by omega) bA hA, bc 1 (by omega) bB hB,
      bd 0 (by omega) bA hA, bd 0 (by omega) bB hB, bd 1 (by omega) bA hA, bd 1 (by omega) bB hB,
      bd 2 (by omega) bA hA, bd 2 (by omega) bB hB, bd 3 (by omega) bA hA, bd 3 (by omega) bB hB, covPair, covIndex, covarIndices, pairKind, CovXi.at]
  rw [key 0 (by omega) 1 (by omega), key 1 (by omega) 0 (by omega), hx.xi02 0 (by simp [bands]) 1 (by simp [bands]),
    hx.xi02 1 (by simp [bands]) 0 (by simp [bands])]
  simp only [field, mask_sq]
  exact xi_ne

end NaMaster
