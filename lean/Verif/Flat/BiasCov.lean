import Verif.Flat.BiasModel
import Verif.Flat.FieldMasked
import Verif.Flat.MasterLemmas2

/-! # The covariance of the pixels of homogeneous flat skies -/

namespace NaMaster

open Real Finset MeasureTheory

/-- The rotation from E and B to Q and U at a mode; one for spin 0. -/
noncomputable def rotQU (fs : FlatInfo) (spin : ℕ) (k : ℕ × ℕ) (c Y : ℕ) : ℂ :=
  if spin = 0 then 1
  else if c = 0 then (if Y = 0 then (eb2qu spin (fs.kx k.1) (fs.ky k.2) (1, 0)).1 else (eb2qu spin (fs.kx k.1) (fs.ky k.2) (0, 1)).1)
  else (if Y = 0 then (eb2qu spin (fs.kx k.1) (fs.ky k.2) (1, 0)).2 else (eb2qu spin (fs.kx k.1) (fs.ky k.2) (0, 1)).2)

theorem star_sigOverall (s : ℕ) : star (sigOverall s) = sigOverall s := by
  unfold sigOverall
  split_ifs <;> simp

/-- The modes of the pixels of a sky. -/
theorem skyHas_pixels {fs : FlatInfo} {spin : ℕ} {m : ℕ → ℕ × ℕ → ℝ} {F : ℕ → ℕ × ℕ → ℂ} (h : SkyHas fs spin m F) {c : ℕ}
    (hc : c < nmapsOf spin) : HasModes fs (m c) fun k => ∑ Y ∈ range (nmapsOf spin), rotQU fs spin k c Y * F Y k := by
  unfold SkyHas at h
  unfold nmapsOf rotQU at *
  by_cases hs : spin = 0
  · simp only [hs, if_true] at *
    obtain rfl : c = 0 := by omega
    simpa using h
  · simp only [if_neg hs] at *
    rcases (by omega : c = 0 ∨ c = 1) with rfl | rfl
    · refine hasModes_congr h.1 fun k _ => ?_
      rw [Finset.sum_range_succ, Finset.sum_range_one]
      simp only [if_true, one_ne_zero, if_false, eb2qu]
      ring
    · refine hasModes_congr h.2 fun k _ => ?_
      rw [Finset.sum_range_succ, Finset.sum_range_one]
      simp only [if_true, one_ne_zero, if_false, eb2qu]
      ring

/-- Synthesis in terms of the rotation. -/
theorem fsAlm2map_rot (c2r : (ℕ × ℕ → ℂ) → ℕ × ℕ → ℝ) (fs : FlatInfo) (spin : ℕ) (alm : FlatAlms) {c : ℕ} (hc : c < nmapsOf spin)
    (p : ℕ × ℕ) : fsAlm2map c2r fs spin alm c p =
      c2r (fun k => ∑ Y ∈ range (nmapsOf spin), rotQU fs spin k c Y * alm Y k) p * (2 * π / (fs.lx * fs.ly)) := by
  unfold fsAlm2map
  congr 2
  funext k
  unfold nmapsOf rotQU at *
  by_cases hs : spin = 0
  · simp only [hs, if_true] at *
    obtain rfl : c = 0 := by omega
    simp
  · simp only [if_neg hs] at *
    rw [Finset.sum_range_succ, Finset.sum_range_one]
    rcases (by omega : c = 0 ∨ c = 1) with rfl | rfl
    · simp only [if_true, one_ne_zero, if_false, eb2qu]
      ring
    · simp only [if_true, one_ne_zero, if_false, eb2qu]
      ring

/-- Analysis in terms of the rotation. -/
theorem fsMap2alm_rot (fs : FlatInfo) (spin : ℕ) (x : FlatMaps) {X : ℕ} (hX : X < nmapsOf spin) (k : ℕ × ℕ) :
    fsMap2alm fs spin x X k = ∑ c ∈ range (nmapsOf spin), star (rotQU fs spin k c X) * fs.map2alm (x c) k := by
  unfold fsMap2alm
  unfold nmapsOf rotQU at *
  by_cases hs : spin = 0
  · simp only [hs, if_true] at *
    obtain rfl : X = 0 := by omega
    simp
  · simp only [if_neg hs] at *
    rw [Finset.sum_range_succ, Finset.sum_range_one]
    have hst : star (sigOverall spin * (-Complex.I) ^ spin) = sigOverall spin * Complex.I ^ spin := by
      rw [star_mul', star_sigOverall, star_pow]
      congr 2
      simp
    have hr : ∀ r : ℝ, star (r : ℂ) = (r : ℂ) := fun r => Complex.conj_ofReal r
    rcases (by omega : X = 0 ∨ X = 1) with rfl | rfl
    · simp only [if_true, one_ne_zero, if_false, eb2qu, FlatInfo.map2almSpin, qu2eb]
      rw [star_mul' (sigOverall spin * (-Complex.I) ^ spin), star_mul' (sigOverall spin * (-Complex.I) ^ spin), hst]
      simp only [one_mul, zero_mul, add_zero, star_neg, neg_mul, hr]
      ring
    · simp only [if_true, one_ne_zero, if_false, eb2qu, FlatInfo.map2almSpin, qu2eb]
      rw [star_mul' (sigOverall spin * (-Complex.I) ^ spin), star_mul' (sigOverall spin * (-Complex.I) ^ spin), hst]
      simp only [one_mul, zero_mul, zero_add, neg_zero, hr]
      ring

/-- The modes of a real map at opposite wave vectors. -/
theorem hasModes_neg {fs : FlatInfo} {f : ℕ × ℕ → ℝ} {F : ℕ × ℕ → ℂ} (h : HasModes fs f F) {k : ℕ × ℕ} (hk : k ∈ fs.modes) :
    F (negIdx fs.nx k.1, negIdx fs.ny k.2) = star (F k) := by
  have hN : HasModes ⟨fs.nx, fs.ny, 1, 1⟩ f F := h
  have hk1 : k ∈ (⟨fs.nx, fs.ny, 1, 1⟩ : FlatInfo).modes := hk
  have h1 := map2alm_neg (fs := ⟨fs.nx, fs.ny, 1, 1⟩) f hk1
  rw [map2alm_hasModes hN hk1, map2alm_hasModes hN (negIdx_mem hk1), star_mul'] at h1
  have hr : star (((1 : ℝ) * 1 / (2 * π) : ℝ) : ℂ) = (((1 : ℝ) * 1 / (2 * π) : ℝ) : ℂ) := Complex.conj_ofReal _
  simp only [hr] at h1
  refine mul_right_cancel₀ ?_ h1
  rw [Complex.ofReal_ne_zero]
  have := Real.pi_pos
  positivity

/-- The inverse transform of an array that holds the modes of a real map is that map. -/
theorem c2r_of_hasModes {fs : FlatInfo} (c : C2r fs) {f : ℕ × ℕ → ℝ} {F : ℕ × ℕ → ℂ} (h : HasModes fs f F) {p : ℕ × ℕ}
    (hp : p ∈ fs.modes) : c.run F p = f p := by
  have hcol : ∀ k ∈ fs.modes, (k.1 = 0 ∨ 2 * k.1 = fs.nx) → negIdx fs.nx k.1 = k.1 := by
    intro k hk h
    rw [mem_modes] at hk
    rcases h with h | h
    · rw [h]; simp [negIdx]
    · rw [negIdx_of_pos (by omega)]; omega
  have herm : HermHalf fs F := by
    intro k hk hk0
    have := hasModes_neg h hk
    rwa [hcol k hk hk0] at this
  have h1 := c.exact F herm p hp
  have h2 := h p hp
  have : (c.run F p : ℂ) = (f p : ℂ) := by
    rw [h1, h2]
    refine Finset.sum_congr rfl fun k hk => ?_
    congr 1
    unfold fullArr
    by_cases h3 : 2 * k.1 ≤ fs.nx
    · rw [if_pos h3]
    · rw [if_neg h3]
      have := hasModes_neg h hk
      rw [negIdx_of_pos (n := fs.nx) (i := k.1) (by omega)] at this
      rw [this, star_star]
  exact_mod_cast this

/-- Exchange of the two skies. -/
theorem Homogeneous.swap {Ω : Type*} [MeasurableSpace Ω] {μ : Measure Ω} {fs : FlatInfo} {n1 n2 : ℕ} {F1 F2 : Ω → ℕ → ℕ × ℕ → ℂ}
    {C : ℕ → ℕ → ℕ × ℕ → ℝ} (h : Homogeneous μ fs n1 n2 F1 F2 C) : Homogeneous μ fs n2 n1 F2 F1 fun Y X => C X Y := by
  have e : ∀ Y X k k', (fun ω => F2 ω Y k * star (F1 ω X k')) = fun ω => (starRingEnd ℂ) (F1 ω X k' * star (F2 ω Y k)) := by
    intro Y X k k'
    funext ω
    rw [← Complex.star_def, star_mul', star_star, mul_comm]
  constructor
  · intro Y hY X hX k hk k' hk'
    rw [e]
    exact (LinearIsometryEquiv.integrable_comp_iff Complex.conjLIE).mpr (h.integrable X hX Y hY k' hk' k hk)
  · intro Y hY X hX k hk k' hk'
    rw [e, integral_conj, h.covariance X hX Y hY k' hk' k hk]
    by_cases hkk : k = k'
    · rw [if_pos hkk, if_pos hkk.symm, hkk]
      exact Complex.conj_ofReal _
    · rw [if_neg hkk, if_neg (Ne.symm hkk)]
      simp

/-- The covariance of two pixels. -/
theorem pixel_cov {Ω : Type*} [MeasurableSpace Ω] (μ : Measure Ω) {fs : FlatInfo} {s1 s2 : ℕ} {m1 m2 : Ω → ℕ → ℕ × ℕ → ℝ}
    {F1 F2 : Ω → ℕ → ℕ × ℕ → ℂ} {C : ℕ → ℕ → ℕ × ℕ → ℝ} (h1 : ∀ ω, SkyHas fs s1 (m1 ω) (F1 ω)) (h2 : ∀ ω, SkyHas fs s2 (m2 ω) (F2 ω))
    (hC : Homogeneous μ fs (nmapsOf s1) (nmapsOf s2) F1 F2 C) {c d : ℕ} (hc : c < nmapsOf s1) (hd : d < nmapsOf s2) {p q : ℕ × ℕ}
    (hp : p ∈ fs.modes) (hq : q ∈ fs.modes) :
    Integrable (fun ω => m1 ω c p * m2 ω d q) μ ∧
    ((∫ ω, m1 ω c p * m2 ω d q ∂μ : ℝ) : ℂ) = ∑ k ∈ fs.modes, ∑ X ∈ range (nmapsOf s1), ∑ Y ∈ range (nmapsOf s2),
      rotQU fs s1 k c X * star (rotQU fs s2 k d Y) * ((C X Y k / (fs.lx * fs.ly) : ℝ) : ℂ) *
        (Complex.exp (fs.phase k p * Complex.I) * Complex.exp (-(fs.phase k q) * Complex.I)) := by
  have e1 : ∀ ω, (m1 ω c p : ℂ) = ∑ j ∈ fs.modes ×ˢ range (nmapsOf s1),
      rotQU fs s1 j.1 c j.2 * Complex.exp (fs.phase j.1 p * Complex.I) * F1 ω j.2 j.1 := by
    intro ω
    rw [skyHas_pixels (h1 ω) hc p hp, Finset.sum_product]
    refine Finset.sum_congr rfl fun k _ => ?_
    rw [Finset.sum_mul]
    exact Finset.sum_congr rfl fun X _ => by ring
  have e2 : ∀ ω, (m2 ω d q : ℂ) = ∑ j ∈ fs.modes ×ˢ range (nmapsOf s2),
      rotQU fs s2 j.1 d j.2 * Complex.exp (fs.phase j.1 q * Complex.I) * F2 ω j.2 j.1 := by
    intro ω
    rw [skyHas_pixels (h2 ω) hd q hq, Finset.sum_product]
    refine Finset.sum_congr rfl fun k _ => ?_
    rw [Finset.sum_mul]
    exact Finset.sum_congr rfl fun X _ => by ring
  have hint : ∀ i ∈ fs.modes ×ˢ range (nmapsOf s1), ∀ j ∈ fs.modes ×ˢ range (nmapsOf s2),
      Integrable (fun ω => F1 ω i.2 i.1 * star (F2 ω j.2 j.1)) μ := by
    intro i hi j hj
    rw [Finset.mem_product, Finset.mem_range] at hi hj
    exact hC.integrable _ hi.2 _ hj.2 _ hi.1 _ hj.1
  have hprod : ∀ ω, ((m1 ω c p * m2 ω d q : ℝ) : ℂ) = ∑ i ∈ fs.modes ×ˢ range (nmapsOf s1), ∑ j ∈ fs.modes ×ˢ range (nmapsOf s2),
      rotQU fs s1 i.1 c i.2 * Complex.exp (fs.phase i.1 p * Complex.I) *
        star (rotQU fs s2 j.1 d j.2 * Complex.exp (fs.phase j.1 q * Complex.I)) * (F1 ω i.2 i.1 * star (F2 ω j.2 j.1)) := by
    intro ω
    have hst : (m2 ω d q : ℂ) = star (m2 ω d q : ℂ) := (Complex.conj_ofReal _).symm
    rw [Complex.ofReal_mul, hst, e1, e2, star_sum, Finset.sum_mul_sum]
    refine Finset.sum_congr rfl fun i _ => Finset.sum_congr rfl fun j _ => ?_
    simp only [star_mul']
    ring
  have hall : Integrable (fun ω => ((m1 ω c p * m2 ω d q : ℝ) : ℂ)) μ := by
    simp only [hprod]
    exact integrable_finsetSum _ fun i hi => integrable_finsetSum _ fun j hj => (hint i hi j hj).const_mul _
  refine ⟨?_, ?_⟩
  · have := hall.re
    simpa using this
  · rw [← integral_complex_ofReal]
    simp only [hprod]
    rw [integral_finsetSum _ fun i hi => integrable_finsetSum _ fun j hj => (hint i hi j hj).const_mul _]
    rw [Finset.sum_product]
    refine Finset.sum_congr rfl fun k hk => Finset.sum_congr rfl fun X hX => ?_
    rw [integral_finsetSum _ fun j hj => (hint (k, X) (Finset.mem_product.mpr ⟨hk, hX⟩) j hj).const_mul _, Finset.sum_product,
      Finset.sum_eq_single k]
    · refine Finset.sum_congr rfl fun Y hY => ?_
      rw [integral_const_mul, hC.covariance X (Finset.mem_range.1 hX) Y (Finset.mem_range.1 hY) k hk k hk, if_pos rfl, star_mul']
      have : star (Complex.exp (fs.phase k q * Complex.I)) = Complex.exp (-(fs.phase k q) * Complex.I) := by
        rw [Complex.star_def, ← Complex.exp_conj]
        simp
      rw [this]
      ring
    · intro k' hk' hne
      refine Finset.sum_eq_zero fun Y hY => ?_
      rw [integral_const_mul, hC.covariance X (Finset.mem_range.1 hX) Y (Finset.mem_range.1 hY) k hk k' hk', if_neg (Ne.symm hne), mul_zero]
    · intro hn; exact absurd hk hn

/-- The covariance of the first sky with the second one, contracted with a map, is obtained by multiplying the coefficients of the map by
the spectra. -/
theorem cov_contract {Ω : Type*} [MeasurableSpace Ω] (μ : Measure Ω) {fs : FlatInfo} (hlx : 0 < fs.lx) (hly : 0 < fs.ly) (c2r : C2r fs)
    {s1 s2 : ℕ} {m1 m2 : Ω → ℕ → ℕ × ℕ → ℝ} {F1 F2 : Ω → ℕ → ℕ × ℕ → ℂ} {g : ℕ → ℕ → ℝ → ℝ}
    (h1 : ∀ ω, SkyHas fs s1 (m1 ω) (F1 ω)) (h2 : ∀ ω, SkyHas fs s2 (m2 ω) (F2 ω))
    (hC : Homogeneous μ fs (nmapsOf s1) (nmapsOf s2) F1 F2 fun X Y k => g X Y (fs.kmod k.1 k.2)) (x : FlatMaps) {c : ℕ}
    (hc : c < nmapsOf s1) {p : ℕ × ℕ} (hp : p ∈ fs.modes) :
    ∫ ω, m1 ω c p * fs.dot (nmapsOf s2) x (m2 ω) ∂μ =
      fsAlm2map c2r.run fs s1 (mixFlat fs (nmapsOf s2) (fun d c => g c d) (fsMap2alm fs s2 x)) c p := by
  set A := fs.lx * fs.ly with hA
  have hA0 : A ≠ 0 := by positivity
  have hint : ∀ d ∈ range (nmapsOf s2), ∀ r ∈ fs.modes, ∀ p' ∈ fs.modes,
      Integrable (fun ω => x d r * fs.pixsize * (m1 ω c p' * m2 ω d r)) μ := fun d hd r hr p' hp' =>
    (pixel_cov μ h1 h2 hC hc (Finset.mem_range.1 hd) hp' hr).1.const_mul _
  set h : ℕ × ℕ → ℝ := fun p => ∑ d ∈ range (nmapsOf s2), ∑ r ∈ fs.modes, x d r * fs.pixsize * ∫ ω, m1 ω c p * m2 ω d r ∂μ with hh
  have hval : ∫ ω, m1 ω c p * fs.dot (nmapsOf s2) x (m2 ω) ∂μ = h p := by
    have e : ∀ ω, m1 ω c p * fs.dot (nmapsOf s2) x (m2 ω) = ∑ d ∈ range (nmapsOf s2), ∑ r ∈ fs.modes, x d r * fs.pixsize *
        (m1 ω c p * m2 ω d r) := by
      intro ω
      unfold FlatInfo.dot
      rw [Finset.mul_sum]
      refine Finset.sum_congr rfl fun d _ => ?_
      rw [Finset.sum_mul, Finset.mul_sum]
      exact Finset.sum_congr rfl fun r _ => by ring
    simp only [e]
    rw [integral_finsetSum _ fun d hd => integrable_finsetSum _ fun r hr => hint d hd r hr p hp]
    refine Finset.sum_congr rfl fun d hd => ?_
    rw [integral_finsetSum _ fun r hr => hint d hd r hr p hp]
    exact Finset.sum_congr rfl fun r hr => integral_const_mul _ _
  rw [hval, fsAlm2map_rot _ _ _ _ hc]
  set G : ℕ × ℕ → ℂ := fun k => ∑ X ∈ range (nmapsOf s1), rotQU fs s1 k c X *
    mixFlat fs (nmapsOf s2) (fun d c => g c d) (fsMap2alm fs s2 x) X k with hG
  have hmodes : HasModes fs (fun p => h p * (A / (2 * π))) G := by
    intro p' hp'
    have hk0 := mem_modes.mp hp'
    have hnx : (fs.nx : ℂ) ≠ 0 := by exact_mod_cast (by omega : fs.nx ≠ 0)
    have hny : (fs.ny : ℂ) ≠ 0 := by exact_mod_cast (by omega : fs.ny ≠ 0)
    have hpi : (π : ℂ) ≠ 0 := by exact_mod_cast Real.pi_ne_zero
    have hAc : (A : ℂ) ≠ 0 := by exact_mod_cast hA0
    simp only [hh]
    rw [Complex.ofReal_mul, Complex.ofReal_sum]
    have e3 : ∀ d ∈ range (nmapsOf s2), ((∑ r ∈ fs.modes, x d r * fs.pixsize * ∫ ω, m1 ω c p' * m2 ω d r ∂μ : ℝ) : ℂ) =
        ∑ k ∈ fs.modes, ∑ X ∈ range (nmapsOf s1), ∑ Y ∈ range (nmapsOf s2), rotQU fs s1 k c X * star (rotQU fs s2 k d Y) *
          ((g X Y (fs.kmod k.1 k.2) / A : ℝ) : ℂ) * (fs.pixsize : ℂ) * fs.dft (x d) k * Complex.exp (fs.phase k p' * Complex.I) := by
      intro d hd
      rw [Complex.ofReal_sum]
      have : ∀ r ∈ fs.modes, ((x d r * fs.pixsize * ∫ ω, m1 ω c p' * m2 ω d r ∂μ : ℝ) : ℂ) = ∑ k ∈ fs.modes,
          ∑ X ∈ range (nmapsOf s1), ∑ Y ∈ range (nmapsOf s2), rotQU fs s1 k c X * star (rotQU fs s2 k d Y) *
          ((g X Y (fs.kmod k.1 k.2) / A : ℝ) : ℂ) * (fs.pixsize : ℂ) * Complex.exp (fs.phase k p' * Complex.I) *
          (x d r * Complex.exp (-(fs.phase k r) * Complex.I)) := by
        intro r hr
        rw [Complex.ofReal_mul, (pixel_cov μ h1 h2 hC hc (Finset.mem_range.1 hd) hp' hr).2]
        simp only [Finset.mul_sum]
        refine Finset.sum_congr rfl fun k _ => Finset.sum_congr rfl fun X _ => Finset.sum_congr rfl fun Y _ => ?_
        rw [hA]
        push_cast
        ring
      rw [Finset.sum_congr rfl this, Finset.sum_comm]
      refine Finset.sum_congr rfl fun k _ => ?_
      rw [Finset.sum_comm]
      refine Finset.sum_congr rfl fun X _ => ?_
      rw [Finset.sum_comm]
      refine Finset.sum_congr rfl fun Y _ => ?_
      rw [← Finset.mul_sum]
      change _ * fs.dft (x d) k = _
      ring
    rw [Finset.sum_congr rfl e3, Finset.sum_comm, Finset.sum_mul]
    refine Finset.sum_congr rfl fun k _ => ?_
    simp only [hG, mixFlat]
    rw [Finset.sum_comm, Finset.sum_mul, Finset.sum_mul]
    refine Finset.sum_congr rfl fun X _ => ?_
    rw [Finset.sum_comm, Finset.sum_mul, Finset.mul_sum, Finset.sum_mul]
    refine Finset.sum_congr rfl fun Y hY => ?_
    rw [fsMap2alm_rot fs s2 x (Finset.mem_range.1 hY), Finset.sum_mul, Finset.sum_mul, Finset.mul_sum, Finset.sum_mul]
    refine Finset.sum_congr rfl fun d _ => ?_
    unfold FlatInfo.map2alm FlatInfo.almNorm FlatInfo.pixsize
    rw [← hA]
    push_cast
    field_simp
  rw [c2r_of_hasModes c2r hmodes hp]
  have hpi := Real.pi_ne_zero
  rw [← hA]
  field_simp

end NaMaster
