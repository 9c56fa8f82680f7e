import Verif.Flat.MasterLemmas

/-! # Lemmas for the flat-sky pseudo-spectrum: means and reflections -/

namespace NaMaster

open Real Finset MeasureTheory
open scoped Classical

/-! ## Mean power of a mode -/

theorem mean_product {Ω ι κ : Type*} [MeasurableSpace Ω] (μ : Measure Ω) (J1 : Finset ι) (J2 : Finset κ) (A1 : ι → ℂ)
    (A2 : κ → ℂ) (G1 : ι → Ω → ℂ) (G2 : κ → Ω → ℂ)
    (h : ∀ i ∈ J1, ∀ j ∈ J2, Integrable (fun ω => G1 i ω * star (G2 j ω)) μ) :
    Integrable (fun ω => ((∑ i ∈ J1, A1 i * G1 i ω) * star (∑ j ∈ J2, A2 j * G2 j ω)).re) μ ∧
    ∫ ω, ((∑ i ∈ J1, A1 i * G1 i ω) * star (∑ j ∈ J2, A2 j * G2 j ω)).re ∂μ =
      (∑ i ∈ J1, ∑ j ∈ J2, A1 i * star (A2 j) * ∫ ω, G1 i ω * star (G2 j ω) ∂μ).re := by
  have hexp : ∀ ω, (∑ i ∈ J1, A1 i * G1 i ω) * star (∑ j ∈ J2, A2 j * G2 j ω) =
      ∑ i ∈ J1, ∑ j ∈ J2, A1 i * star (A2 j) * (G1 i ω * star (G2 j ω)) := by
    intro ω
    rw [star_sum, Finset.sum_mul_sum]
    refine Finset.sum_congr rfl fun i _ => Finset.sum_congr rfl fun j _ => ?_
    rw [star_mul']
    ring
  have hint : ∀ i ∈ J1, ∀ j ∈ J2, Integrable (fun ω => A1 i * star (A2 j) * (G1 i ω * star (G2 j ω))) μ :=
    fun i hi j hj => (h i hi j hj).const_mul _
  have hint2 : ∀ i ∈ J1, Integrable (fun ω => ∑ j ∈ J2, A1 i * star (A2 j) * (G1 i ω * star (G2 j ω))) μ :=
    fun i hi => integrable_finsetSum _ (fun j hj => hint i hi j hj)
  have hall : Integrable (fun ω => ∑ i ∈ J1, ∑ j ∈ J2, A1 i * star (A2 j) * (G1 i ω * star (G2 j ω))) μ :=
    integrable_finsetSum _ hint2
  simp only [hexp]
  refine ⟨hall.re, ?_⟩
  have := integral_re (𝕜 := ℂ) hall
  simp only [RCLike.re_to_complex] at this
  rw [this]
  congr 1
  rw [integral_finsetSum _ hint2]
  refine Finset.sum_congr rfl fun i hi => ?_
  rw [integral_finsetSum _ (hint i hi)]
  refine Finset.sum_congr rfl fun j hj => ?_
  rw [integral_const_mul]

/-- Mean over the sky of the product of two masked coefficients. -/
theorem mean_power {Ω : Type*} [MeasurableSpace Ω] (μ : Measure Ω) (fs : FlatInfo) (s1 s2 : ℕ) (mask1 mask2 : ℕ × ℕ → ℝ)
    (m1 m2 : Ω → ℕ → ℕ × ℕ → ℝ) (F1 F2 : Ω → ℕ → ℕ × ℕ → ℂ) (C : ℕ → ℕ → ℕ × ℕ → ℝ)
    (h1 : ∀ ω, SkyHas fs s1 (m1 ω) (F1 ω)) (h2 : ∀ ω, SkyHas fs s2 (m2 ω) (F2 ω))
    (hC : Homogeneous μ fs (nmapsOf s1) (nmapsOf s2) F1 F2 C) {X Y : ℕ} (hX : X < nmapsOf s1) (hY : Y < nmapsOf s2)
    (k1 : ℕ × ℕ) :
    Integrable (fun ω => (maskedAlm fs s1 mask1 (m1 ω) X k1 * star (maskedAlm fs s2 mask2 (m2 ω) Y k1)).re) μ ∧
    ∫ ω, (maskedAlm fs s1 mask1 (m1 ω) X k1 * star (maskedAlm fs s2 mask2 (m2 ω) Y k1)).re ∂μ =
      ∑ k2 ∈ fs.modes, ∑ X' ∈ range (nmapsOf s1), ∑ Y' ∈ range (nmapsOf s2),
        maskPower fs mask1 mask2 (fs.sub k1 k2) *
          (rotEB s1 (modeAngle fs k1 - modeAngle fs k2) X X' * rotEB s2 (modeAngle fs k1 - modeAngle fs k2) Y Y') *
          (C X' Y' k2 / (fs.lx * fs.ly)) := by
  have hm := mean_product μ (fs.modes ×ˢ range (nmapsOf s1)) (fs.modes ×ˢ range (nmapsOf s2))
    (fun j => fs.map2alm mask1 (fs.sub k1 j.1) * rotEB s1 (modeAngle fs k1 - modeAngle fs j.1) X j.2)
    (fun j => fs.map2alm mask2 (fs.sub k1 j.1) * rotEB s2 (modeAngle fs k1 - modeAngle fs j.1) Y j.2)
    (fun j ω => F1 ω j.2 j.1) (fun j ω => F2 ω j.2 j.1) (by
      intro i hi j hj
      rw [Finset.mem_product, Finset.mem_range] at hi hj
      exact hC.integrable _ hi.2 _ hj.2 _ hi.1 _ hj.1)
  simp only [maskedAlm_eq s1 mask1 _ _ (h1 _) hX, maskedAlm_eq s2 mask2 _ _ (h2 _) hY]
  refine ⟨hm.1, hm.2.trans ?_⟩
  rw [Finset.sum_product, Complex.re_sum]
  refine Finset.sum_congr rfl fun k2 hk2 => ?_
  rw [Complex.re_sum]
  refine Finset.sum_congr rfl fun X' hX' => ?_
  rw [Finset.sum_product, Complex.re_sum, Finset.sum_eq_single k2]
  · rw [Complex.re_sum]
    refine Finset.sum_congr rfl fun Y' hY' => ?_
    rw [hC.covariance X' (Finset.mem_range.1 hX') Y' (Finset.mem_range.1 hY') k2 hk2 k2 hk2, if_pos rfl]
    unfold maskPower
    rw [star_mul']
    have hr : ∀ r : ℝ, star (r : ℂ) = (r : ℂ) := fun r => Complex.conj_ofReal r
    rw [hr]
    have : fs.map2alm mask1 (fs.sub k1 k2) * (rotEB s1 (modeAngle fs k1 - modeAngle fs k2) X X' : ℂ) *
        (star (fs.map2alm mask2 (fs.sub k1 k2)) * (rotEB s2 (modeAngle fs k1 - modeAngle fs k2) Y Y' : ℂ)) *
        ((C X' Y' k2 / (fs.lx * fs.ly) : ℝ) : ℂ) =
        fs.map2alm mask1 (fs.sub k1 k2) * star (fs.map2alm mask2 (fs.sub k1 k2)) *
          ((rotEB s1 (modeAngle fs k1 - modeAngle fs k2) X X' * rotEB s2 (modeAngle fs k1 - modeAngle fs k2) Y Y' *
            (C X' Y' k2 / (fs.lx * fs.ly)) : ℝ) : ℂ) := by
      push_cast
      ring
    rw [this, Complex.re_mul_ofReal]
    ring
  · intro k' hk' hne
    rw [Complex.re_sum]
    refine Finset.sum_eq_zero fun Y' hY' => ?_
    rw [hC.covariance X' (Finset.mem_range.1 hX') Y' (Finset.mem_range.1 hY') k2 hk2 k' hk', if_neg (Ne.symm hne)]
    simp
  · intro hn; exact absurd hk2 hn

/-! ## Reflection of the second axis -/

/-- The mode with opposite wave number along y. -/
def FlatInfo.flip (fs : FlatInfo) (k : ℕ × ℕ) : ℕ × ℕ := (k.1, negIdx fs.ny k.2)

theorem flip_mem {fs : FlatInfo} {k : ℕ × ℕ} (hk : k ∈ fs.modes) : fs.flip k ∈ fs.modes := by
  rw [mem_modes] at *
  exact ⟨hk.1, negIdx_lt (by omega)⟩

theorem flip_flip {fs : FlatInfo} {k : ℕ × ℕ} (hk : k ∈ fs.modes) : fs.flip (fs.flip k) = k := by
  rw [mem_modes] at hk
  unfold FlatInfo.flip
  simp only [negIdx_neg hk.2]

theorem maskedAlm_half {fs : FlatInfo} (hl : 0 < fs.lx) (spin : ℕ) (mask : ℕ × ℕ → ℝ) (m : ℕ → ℕ × ℕ → ℝ) (X : ℕ)
    {k : ℕ × ℕ} (hk : k ∈ fs.modes) (hx : fs.nx < 2 * k.1) (hy : spin = 0 ∨ 2 * k.2 ≠ fs.ny) :
    maskedAlm fs spin mask m X (fs.nx - k.1, k.2) = star (maskedAlm fs spin mask m X (fs.flip k)) := by
  have hf := flip_mem hk
  have hk' := mem_modes.1 hk
  have hn : ((fs.nx - k.1, k.2) : ℕ × ℕ) = (negIdx fs.nx (fs.flip k).1, negIdx fs.ny (fs.flip k).2) := by
    unfold FlatInfo.flip
    simp only
    rw [negIdx_neg hk'.2, negIdx_of_pos (by omega)]
  unfold maskedAlm
  by_cases hs : spin = 0
  · rw [if_pos hs, if_pos hs, hn, map2alm_neg _ hf]
  · have hy' := hy.resolve_left hs
    rw [if_neg hs, if_neg hs]
    have hkey : fs.map2almSpin spin (fun p => mask p * m 0 p) (fun p => mask p * m 1 p) (fs.nx - k.1, k.2) =
        (star (fs.map2almSpin spin (fun p => mask p * m 0 p) (fun p => mask p * m 1 p) (fs.flip k)).1,
          star (fs.map2almSpin spin (fun p => mask p * m 0 p) (fun p => mask p * m 1 p) (fs.flip k)).2) := by
      unfold FlatInfo.map2almSpin
      rw [hn, map2alm_neg _ hf, map2alm_neg _ hf]
      have hx1 : fs.kx (negIdx fs.nx (fs.flip k).1) = -fs.kx (fs.flip k).1 := by
        unfold FlatInfo.kx FlatInfo.flip
        exact waveNum_neg _ hk'.1 (by omega)
      have hy1 : fs.ky (negIdx fs.ny (fs.flip k).2) = -fs.ky (fs.flip k).2 := by
        unfold FlatInfo.ky FlatInfo.flip
        simp only [negIdx_neg hk'.2]
        rw [waveNum_neg _ hk'.2 hy', neg_neg]
      simp only [hx1, hy1]
      exact C48_real spin _ _ (Or.inl (kx_ne_zero hl hx hk'.1)) _ _
    rw [hkey]
    by_cases h0 : X = 0
    · rw [if_pos h0, if_pos h0]
    · rw [if_neg h0, if_neg h0]

theorem halfProd_masked {fs : FlatInfo} (hl : 0 < fs.lx) (s1 s2 : ℕ) (mask1 mask2 : ℕ × ℕ → ℝ)
    (m1 m2 : ℕ → ℕ × ℕ → ℝ) (X Y : ℕ) {k : ℕ × ℕ} (hk : k ∈ fs.modes) (hy : (s1 = 0 ∧ s2 = 0) ∨ 2 * k.2 ≠ fs.ny) :
    halfProd fs.nx (maskedAlm fs s1 mask1 m1 X) (maskedAlm fs s2 mask2 m2 Y) k =
      if 2 * k.1 ≤ fs.nx then (maskedAlm fs s1 mask1 m1 X k * star (maskedAlm fs s2 mask2 m2 Y k)).re
      else (maskedAlm fs s1 mask1 m1 X (fs.flip k) * star (maskedAlm fs s2 mask2 m2 Y (fs.flip k))).re := by
  unfold halfProd ixHere
  by_cases hx : 2 * k.1 ≤ fs.nx
  · simp only [if_pos hx]
    simp [Complex.mul_re]
  · simp only [if_neg hx]
    rw [maskedAlm_half hl s1 mask1 m1 X hk (by omega) (hy.imp (·.1) id),
      maskedAlm_half hl s2 mask2 m2 Y hk (by omega) (hy.imp (·.2) id)]
    simp [Complex.mul_re]

theorem halfProd_mask {fs : FlatInfo} (hl : 0 < fs.lx) (mask1 mask2 : ℕ × ℕ → ℝ) {k : ℕ × ℕ} (hk : k ∈ fs.modes) :
    halfProd fs.nx (fs.map2alm mask1) (fs.map2alm mask2) k =
      if 2 * k.1 ≤ fs.nx then maskPower fs mask1 mask2 k else maskPower fs mask1 mask2 (fs.flip k) := by
  have := halfProd_masked (fs := fs) hl 0 0 (fun _ => 1) (fun _ => 1) (fun _ => mask1) (fun _ => mask2) 0 0 hk
    (Or.inl ⟨rfl, rfl⟩)
  have e1 : maskedAlm fs 0 (fun _ => 1) (fun _ => mask1) 0 = fs.map2alm mask1 := by
    funext k
    simp [maskedAlm]
  have e2 : maskedAlm fs 0 (fun _ => 1) (fun _ => mask2) 0 = fs.map2alm mask2 := by
    funext k
    simp [maskedAlm]
  rw [e1, e2] at this
  exact this

/-- Reading the modes of half of the columns at the reflected modes does not change a sum over a set of modes that is
symmetric. -/
theorem sum_reflect {fs : FlatInfo} (B : Finset (ℕ × ℕ)) (hB : ∀ k ∈ B, k ∈ fs.modes ∧ fs.flip k ∈ B) (g : ℕ × ℕ → ℝ) :
    ∑ k ∈ B, (if 2 * k.1 ≤ fs.nx then g k else g (fs.flip k)) = ∑ k ∈ B, g k := by
  have h1 : ∀ k, (fs.flip k).1 = k.1 := fun k => rfl
  refine Finset.sum_nbij' (fun k => if 2 * k.1 ≤ fs.nx then k else fs.flip k)
    (fun k => if 2 * k.1 ≤ fs.nx then k else fs.flip k) ?_ ?_ ?_ ?_ ?_
  · intro k hk
    by_cases hx : 2 * k.1 ≤ fs.nx
    · rw [if_pos hx]; exact hk
    · rw [if_neg hx]; exact (hB k hk).2
  · intro k hk
    by_cases hx : 2 * k.1 ≤ fs.nx
    · rw [if_pos hx]; exact hk
    · rw [if_neg hx]; exact (hB k hk).2
  · intro k hk
    by_cases hx : 2 * k.1 ≤ fs.nx
    · simp only [if_pos hx]
    · simp only [if_neg hx, h1, flip_flip (hB k hk).1]
  · intro k hk
    by_cases hx : 2 * k.1 ≤ fs.nx
    · simp only [if_pos hx]
    · simp only [if_neg hx, h1, flip_flip (hB k hk).1]
  · intro k hk
    by_cases hx : 2 * k.1 ≤ fs.nx
    · simp only [if_pos hx]
    · simp only [if_neg hx]

theorem subIdx_negIdx {n i j : ℕ} (hi : i < n) (hj : j < n) :
    subIdx n (negIdx n i) (negIdx n j) = negIdx n (subIdx n i j) := by
  rcases Nat.eq_zero_or_pos i with rfl | h1 <;> rcases Nat.eq_zero_or_pos j with rfl | h2
  · simp [subIdx, negIdx]
  · have : negIdx n 0 = 0 := by simp [negIdx]
    rw [this, negIdx_of_pos h2]
    unfold subIdx
    rw [if_pos (by omega), if_pos h2, negIdx_of_pos (by omega)]
    omega
  · have : negIdx n 0 = 0 := by simp [negIdx]
    rw [this, negIdx_of_pos h1]
    unfold subIdx
    rw [if_neg (by omega), if_neg (by omega), negIdx_of_pos (by omega)]
    omega
  · rw [negIdx_of_pos h1, negIdx_of_pos h2]
    unfold subIdx
    by_cases h : i < j
    · rw [if_neg (by omega), if_pos h, negIdx_of_pos (by omega)]; omega
    · rcases Nat.eq_zero_or_pos (i - j) with h0 | h0
      · have : i = j := by omega
        subst this
        simp [negIdx]
      · rw [if_pos (by omega), if_neg h, negIdx_of_pos h0]; omega

theorem sub_flip {fs : FlatInfo} {k1 k2 : ℕ × ℕ} (h1 : k1 ∈ fs.modes) (h2 : k2 ∈ fs.modes) :
    fs.sub (fs.flip k1) (fs.flip k2) = fs.flip (fs.sub k1 k2) := by
  rw [mem_modes] at *
  unfold FlatInfo.sub FlatInfo.flip
  simp only [subIdx_negIdx h1.2 h2.2]

/-- The same for sums over pairs of modes of a function of their difference, with weights that do not change if both modes
are reflected. -/
theorem sum_reflect_pair {fs : FlatInfo} (B1 B2 : Finset (ℕ × ℕ)) (h1 : ∀ k ∈ B1, k ∈ fs.modes ∧ fs.flip k ∈ B1)
    (h2 : ∀ k ∈ B2, k ∈ fs.modes ∧ fs.flip k ∈ B2) (g : ℕ × ℕ → ℝ) (e : ℕ × ℕ → ℕ × ℕ → ℝ)
    (he : ∀ k1 ∈ B1, ∀ k2 ∈ B2, e (fs.flip k1) (fs.flip k2) = e k1 k2) :
    ∑ k1 ∈ B1, ∑ k2 ∈ B2, e k1 k2 *
        (if 2 * (fs.sub k1 k2).1 ≤ fs.nx then g (fs.sub k1 k2) else g (fs.flip (fs.sub k1 k2))) =
      ∑ k1 ∈ B1, ∑ k2 ∈ B2, e k1 k2 * g (fs.sub k1 k2) := by
  rw [← Finset.sum_product', ← Finset.sum_product']
  have hfst : ∀ k k', (fs.sub (fs.flip k) (fs.flip k')).1 = (fs.sub k k').1 := fun k k' => rfl
  set σ : (ℕ × ℕ) × (ℕ × ℕ) → (ℕ × ℕ) × (ℕ × ℕ) :=
    fun p => if 2 * (fs.sub p.1 p.2).1 ≤ fs.nx then p else (fs.flip p.1, fs.flip p.2) with hσ
  have hmem : ∀ p ∈ B1 ×ˢ B2, σ p ∈ B1 ×ˢ B2 := by
    intro p hp
    rw [Finset.mem_product] at hp
    simp only [hσ]
    by_cases hx : 2 * (fs.sub p.1 p.2).1 ≤ fs.nx
    · rw [if_pos hx]; exact Finset.mem_product.2 hp
    · rw [if_neg hx]; exact Finset.mem_product.2 ⟨(h1 _ hp.1).2, (h2 _ hp.2).2⟩
  have hinv : ∀ p ∈ B1 ×ˢ B2, σ (σ p) = p := by
    intro p hp
    rw [Finset.mem_product] at hp
    simp only [hσ]
    by_cases hx : 2 * (fs.sub p.1 p.2).1 ≤ fs.nx
    · simp only [if_pos hx]
    · simp only [if_neg hx, hfst, flip_flip (h1 _ hp.1).1, flip_flip (h2 _ hp.2).1]
  refine Finset.sum_nbij' σ σ hmem hmem hinv hinv ?_
  intro p hp
  rw [Finset.mem_product] at hp
  simp only [hσ]
  by_cases hx : 2 * (fs.sub p.1 p.2).1 ≤ fs.nx
  · simp only [if_pos hx]
  · simp only [if_neg hx]
    rw [he _ hp.1 _ hp.2, sub_flip (h1 _ hp.1).1 (h2 _ hp.2).1]

/-! ## Reflection of angles -/

theorem csRec_conj (c s : ℝ) (n : ℕ) : csRec c (-s) n = ((csRec c s n).1, -(csRec c s n).2) := by
  induction n with
  | zero => simp [csRec]
  | succ n ih =>
    simp only [csRec, ih]
    ext <;> simp
    ring

theorem angles_flip {fs : FlatInfo} (spin : ℕ) {k : ℕ × ℕ} (hk : k ∈ fs.modes) (hy : 2 * k.2 ≠ fs.ny) :
    fs.angles spin (fs.flip k) = ((fs.angles spin k).1, -(fs.angles spin k).2) := by
  have hk' := mem_modes.1 hk
  have hm : fs.kmod (fs.flip k).1 (fs.flip k).2 = fs.kmod k.1 k.2 := kmod_neg hk
  have hky : fs.ky (fs.flip k).2 = -fs.ky k.2 := by
    unfold FlatInfo.ky FlatInfo.flip
    exact waveNum_neg _ hk'.2 hy
  have hkx : (fs.flip k).1 = k.1 := rfl
  unfold FlatInfo.angles
  rw [hm, hky, hkx]
  by_cases h0 : fs.kmod k.1 k.2 > 0
  · rw [if_pos h0, if_pos h0, neg_div, csRec_conj]
  · rw [if_neg h0, if_neg h0]
    have h1 : csRec 1 0 spin = csRec 1 (-0) spin := by rw [neg_zero]
    conv_lhs => rw [h1, csRec_conj]

theorem cdiff_flip {fs : FlatInfo} (spin : ℕ) {k1 k2 : ℕ × ℕ} (h1 : k1 ∈ fs.modes) (h2 : k2 ∈ fs.modes)
    (hy1 : 2 * k1.2 ≠ fs.ny) (hy2 : 2 * k2.2 ≠ fs.ny) :
    fs.cdiff spin (fs.flip k1) (fs.flip k2) = fs.cdiff spin k1 k2 ∧
      fs.sdiff spin (fs.flip k1) (fs.flip k2) = -fs.sdiff spin k1 k2 := by
  unfold FlatInfo.cdiff FlatInfo.sdiff
  rw [angles_flip spin h1 hy1, angles_flip spin h2 hy2]
  constructor <;> simp only <;> ring

/-! ## Symmetric sets of modes -/

theorem bandModesAll_flip {fs : FlatInfo} (b : FlatBins ℝ) (ib : ℕ) :
    ∀ k ∈ bandModesAll fs b ib, k ∈ fs.modes ∧ fs.flip k ∈ bandModesAll fs b ib := by
  intro k hk
  unfold bandModesAll at *
  rw [Finset.mem_filter] at *
  refine ⟨hk.1, flip_mem hk.1, ?_⟩
  have hm : fs.kmod (fs.flip k).1 (fs.flip k).2 = fs.kmod k.1 k.2 := kmod_neg hk.1
  rw [hm]; exact hk.2

theorem bandModes_flip {fs : FlatInfo} (b : FlatBins ℝ) (c : EllCuts) (hc : SymmetricCuts fs c) (ib : ℕ) :
    ∀ k ∈ bandModes fs b c ib, k ∈ fs.modes ∧ fs.flip k ∈ bandModes fs b c ib := by
  intro k hk
  unfold bandModes at *
  rw [Finset.mem_filter] at *
  refine ⟨hk.1, flip_mem hk.1, fun hm => hk.2.1 ?_, ?_⟩
  · rcases hm with h | h
    · exact Or.inl h
    · exact Or.inr ((hc k.2 (mem_modes.1 hk.1).2).2 h)
  · have hm : fs.kmod (fs.flip k).1 (fs.flip k).2 = fs.kmod k.1 k.2 := kmod_neg hk.1
    rw [hm]; exact hk.2.2

theorem bandModes_nyquist {fs : FlatInfo} {b : FlatBins ℝ} (hn : NoNyquist fs b) {c : EllCuts} {ib : ℕ} {k : ℕ × ℕ}
    (hk : k ∈ bandModes fs b c ib) : 2 * k.2 ≠ fs.ny := by
  unfold bandModes at hk
  rw [Finset.mem_filter] at hk
  exact fun h => hn k hk.1 h ib hk.2.2

theorem bandModesAll_nyquist {fs : FlatInfo} {b : FlatBins ℝ} (hn : NoNyquist fs b) {ib : ℕ} {k : ℕ × ℕ}
    (hk : k ∈ bandModesAll fs b ib) : 2 * k.2 ≠ fs.ny := by
  unfold bandModesAll at hk
  rw [Finset.mem_filter] at hk
  exact fun h => hn k hk.1 h ib hk.2

end NaMaster
