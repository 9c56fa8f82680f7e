import Verif.Flat.FieldModel
import Verif.Syn.PowerWrong

/-! # Lemmas for the purification of flat-sky fields -/

namespace NaMaster

open Real Finset

/-- The coefficients of a map with given modes. -/
theorem map2alm_hasModes {fs : FlatInfo} {f : ℕ × ℕ → ℝ} {F : ℕ × ℕ → ℂ} (h : HasModes fs f F) {k : ℕ × ℕ} (hk : k ∈ fs.modes) :
    fs.map2alm f k = F k * ((fs.lx * fs.ly / (2 * π) : ℝ) : ℂ) := by
  unfold FlatInfo.map2alm FlatInfo.dft FlatInfo.almNorm
  have hs : ∑ p ∈ fs.modes, (f p : ℂ) * Complex.exp (-(fs.phase k p) * Complex.I) = F k * ((fs.nx * fs.ny : ℕ) : ℂ) := by
    rw [Finset.sum_congr rfl fun p hp => by rw [h p hp, Finset.sum_mul], Finset.sum_comm]
    have : ∀ q ∈ fs.modes, ∑ p ∈ fs.modes, F q * Complex.exp (fs.phase q p * Complex.I) * Complex.exp (-(fs.phase k p) * Complex.I) =
        if q = k then F q * ((fs.nx * fs.ny : ℕ) : ℂ) else 0 := by
      intro q hq
      simp only [mul_assoc]
      rw [← Finset.mul_sum, phase_orth hk hq]
      split_ifs <;> simp
    rw [Finset.sum_congr rfl this, Finset.sum_ite_eq', if_pos hk]
  rw [hs]
  have hk' := mem_modes.mp hk
  have h2 : (fs.nx : ℂ) ≠ 0 := by exact_mod_cast (by omega : fs.nx ≠ 0)
  have h3 : (fs.ny : ℂ) ≠ 0 := by exact_mod_cast (by omega : fs.ny ≠ 0)
  have hpi : (π : ℂ) ≠ 0 := by exact_mod_cast Real.pi_ne_zero
  push_cast
  field_simp

/-- The map has no power at the highest wave number along an axis with an even number of pixels. -/
def NoNyquistPower (fs : FlatInfo) (f : ℕ × ℕ → ℝ) : Prop :=
  ∀ k ∈ fs.modes, (2 * k.1 = fs.nx ∨ 2 * k.2 = fs.ny) → fs.map2alm f k = 0

theorem pixMod_neg {fs : FlatInfo} {k : ℕ × ℕ} (hk : k ∈ fs.modes) :
    fs.pixMod (negIdx fs.nx k.1, negIdx fs.ny k.2) = fs.pixMod k := by
  rw [mem_modes] at hk
  unfold FlatInfo.pixMod
  simp only
  rw [waveNum_neg_sq _ hk.1, waveNum_neg_sq _ hk.2]

theorem k_zero {fs : FlatInfo} (hlx : 0 < fs.lx) (hly : 0 < fs.ly) {k : ℕ × ℕ} (hk : k ∈ fs.modes) (hx : fs.kx k.1 = 0)
    (hy : fs.ky k.2 = 0) : k = (0, 0) := by
  rw [mem_modes] at hk
  by_contra hne
  rcases Nat.eq_zero_or_pos k.1 with h3 | h3
  · rcases Nat.eq_zero_or_pos k.2 with h4 | h4
    · exact hne (Prod.ext h3 h4)
    · exact waveNum_ne_zero hly hk.2 h4.ne' hy
  · exact waveNum_ne_zero hlx hk.1 h3.ne' hx

theorem pixMod_zero (fs : FlatInfo) : fs.pixMod (0, 0) = 0 := by
  unfold FlatInfo.pixMod waveNum
  simp

/-- The rotated coefficients of the derivatives of the mask at opposite modes. -/
theorem deriv_neg {fs : FlatInfo} (hlx : 0 < fs.lx) (hly : 0 < fs.ly) {mask : ℕ × ℕ → ℝ} (hm : NoNyquistPower fs mask) {s : ℕ}
    (hs : s ≠ 0) {k : ℕ × ℕ} (hk : k ∈ fs.modes) (k' : ℕ × ℕ) (hk' : k' = (negIdx fs.nx k.1, negIdx fs.ny k.2)) :
    eb2qu s (fs.kx k'.1) (fs.ky k'.2)
        (walmXLpower fs (fs.map2alm mask) s 0 k', walmXLpower fs (fs.map2alm mask) s 1 k') =
      (star (eb2qu s (fs.kx k.1) (fs.ky k.2) (walmXLpower fs (fs.map2alm mask) s 0 k, walmXLpower fs (fs.map2alm mask) s 1 k)).1,
        star (eb2qu s (fs.kx k.1) (fs.ky k.2) (walmXLpower fs (fs.map2alm mask) s 0 k, walmXLpower fs (fs.map2alm mask) s 1 k)).2) := by
  subst hk'
  have hr : ∀ r : ℝ, star (r : ℂ) = (r : ℂ) := fun r => Complex.conj_ofReal r
  have e0 : walmXLpower fs (fs.map2alm mask) s 0 (negIdx fs.nx k.1, negIdx fs.ny k.2) =
      star (walmXLpower fs (fs.map2alm mask) s 0 k) := by
    unfold walmXLpower
    simp only [if_true]
    rw [map2alm_neg _ hk, pixMod_neg hk, star_mul', star_neg, hr]
  have e1 : walmXLpower fs (fs.map2alm mask) s 1 (negIdx fs.nx k.1, negIdx fs.ny k.2) =
      star (walmXLpower fs (fs.map2alm mask) s 1 k) := by
    simp [walmXLpower]
  rw [e0, e1]
  by_cases hn : 2 * k.1 = fs.nx ∨ 2 * k.2 = fs.ny
  · have h0 : walmXLpower fs (fs.map2alm mask) s 0 k = 0 := by
      unfold walmXLpower
      rw [if_pos rfl, hm k hk hn]; simp
    have h1 : walmXLpower fs (fs.map2alm mask) s 1 k = 0 := by simp [walmXLpower]
    simp [h0, h1, eb2qu]
  · push Not at hn
    have hk2 := mem_modes.mp hk
    have hx : fs.kx (negIdx fs.nx k.1) = -fs.kx k.1 := waveNum_neg _ hk2.1 hn.1
    have hy : fs.ky (negIdx fs.ny k.2) = -fs.ky k.2 := waveNum_neg _ hk2.2 hn.2
    simp only [hx, hy]
    refine eb2qu_conj s _ _ (walmXLpower fs (fs.map2alm mask) s 0 k, walmXLpower fs (fs.map2alm mask) s 1 k) ?_
    by_cases h00 : fs.kx k.1 = 0 ∧ fs.ky k.2 = 0
    · right; right
      have := k_zero hlx hly hk h00.1 h00.2
      subst this
      simp [walmXLpower, pixMod_zero, hs]
    · exact Or.inl h00

/-- The derivative of the mask has the modes with which it was made. -/
theorem deriv_hasModes {fs : FlatInfo} (hlx : 0 < fs.lx) (hly : 0 < fs.ly) (c : C2r fs) {mask : ℕ × ℕ → ℝ}
    (hm : NoNyquistPower fs mask) {s : ℕ} (hs : s ≠ 0) :
    (∀ q ∈ fs.modes, fs.map2alm (fsAlm2map c.run fs s (walmXLpower fs (fs.map2alm mask) s) 0) q =
      (eb2qu s (fs.kx q.1) (fs.ky q.2) (walmXLpower fs (fs.map2alm mask) s 0 q, 0)).1) ∧
    (∀ q ∈ fs.modes, fs.map2alm (fsAlm2map c.run fs s (walmXLpower fs (fs.map2alm mask) s) 1) q =
      (eb2qu s (fs.kx q.1) (fs.ky q.2) (walmXLpower fs (fs.map2alm mask) s 0 q, 0)).2) := by
  have hz : ∀ q, walmXLpower fs (fs.map2alm mask) s 1 q = 0 := fun q => by simp [walmXLpower]
  set A : ℕ × ℕ → ℂ × ℂ := fun k => eb2qu s (fs.kx k.1) (fs.ky k.2)
    (walmXLpower fs (fs.map2alm mask) s 0 k, walmXLpower fs (fs.map2alm mask) s 1 k) with hA
  have hneg : ∀ k ∈ fs.modes, ∀ k', k' = (negIdx fs.nx k.1, negIdx fs.ny k.2) → A k' = (star (A k).1, star (A k).2) :=
    fun k hk k' hk' => deriv_neg hlx hly hm hs hk k' hk'
  have hcol : ∀ k ∈ fs.modes, (k.1 = 0 ∨ 2 * k.1 = fs.nx) → negIdx fs.nx k.1 = k.1 := by
    intro k hk h
    rw [mem_modes] at hk
    rcases h with h | h
    · rw [h]; simp [negIdx]
    · rw [negIdx_of_pos (by omega)]; omega
  have herm1 : HermHalf fs fun k => (A k).1 := by
    intro k hk h
    simp only
    rw [hneg k hk (k.1, negIdx fs.ny k.2) (by rw [hcol k hk h])]
  have herm2 : HermHalf fs fun k => (A k).2 := by
    intro k hk h
    simp only
    rw [hneg k hk (k.1, negIdx fs.ny k.2) (by rw [hcol k hk h])]
  have hfull : ∀ k ∈ fs.modes, fullArr fs (fun k => (A k).1) k = (A k).1 ∧ fullArr fs (fun k => (A k).2) k = (A k).2 := by
    intro k hk
    unfold fullArr
    by_cases h : 2 * k.1 ≤ fs.nx
    · simp only [if_pos h, and_self]
    · simp only [if_neg h]
      have := hneg k hk (fs.nx - k.1, negIdx fs.ny k.2) (by rw [negIdx_of_pos (n := fs.nx) (i := k.1) (by omega)])
      rw [this]
      simp
  have key : ∀ r : ℂ, r * ((2 * π / (fs.lx * fs.ly) : ℝ) : ℂ) * ((fs.lx * fs.ly / (2 * π) : ℝ) : ℂ) = r := by
    intro r
    rw [mul_assoc, ← Complex.ofReal_mul]
    have : 2 * π / (fs.lx * fs.ly) * (fs.lx * fs.ly / (2 * π)) = 1 := by
      have := Real.pi_ne_zero
      field_simp
    rw [this]; simp
  constructor
  · intro q hq
    have h1 : HasModes fs (fsAlm2map c.run fs s (walmXLpower fs (fs.map2alm mask) s) 0) fun k =>
        (A k).1 * ((2 * π / (fs.lx * fs.ly) : ℝ) : ℂ) := by
      unfold fsAlm2map
      simp only [if_neg hs, if_true]
      have := hasModes_smul (c.exact _ herm1) (2 * π / (fs.lx * fs.ly))
      refine hasModes_congr this fun k hk => ?_
      rw [(hfull k hk).1, mul_comm]
    rw [map2alm_hasModes h1 hq, key]
    simp only [hA, hz]
  · intro q hq
    have h1 : HasModes fs (fsAlm2map c.run fs s (walmXLpower fs (fs.map2alm mask) s) 1) fun k =>
        (A k).2 * ((2 * π / (fs.lx * fs.ly) : ℝ) : ℂ) := by
      unfold fsAlm2map
      simp only [if_neg hs, one_ne_zero, if_false]
      have := hasModes_smul (c.exact _ herm2) (2 * π / (fs.lx * fs.ly))
      refine hasModes_congr this fun k hk => ?_
      rw [(hfull k hk).2, mul_comm]
    rw [map2alm_hasModes h1 hq, key]
    simp only [hA, hz]

/-! ## One mode of the sky and one mode of the mask -/

theorem csRec_one' (c s : ℝ) : csRec c s 1 = (c, s) := by simp [csRec]

theorem csRec_two (c s : ℝ) : csRec c s 2 = (c * c - s * s, s * c + c * s) := by simp [csRec]

theorem qu2eb_one (kx ky : ℝ) (a : ℂ × ℂ) : qu2eb 1 kx ky a =
    (-Complex.I * (a.1 * (modeDir kx ky).1 - a.2 * (modeDir kx ky).2), -Complex.I * (a.1 * (modeDir kx ky).2 + a.2 * (modeDir kx ky).1)) := by
  simp [qu2eb, csRec_one', sigOverall]

theorem eb2qu_one (kx ky : ℝ) (a : ℂ × ℂ) : eb2qu 1 kx ky a =
    (Complex.I * (a.1 * (modeDir kx ky).1 + a.2 * (modeDir kx ky).2), Complex.I * (-a.1 * (modeDir kx ky).2 + a.2 * (modeDir kx ky).1)) := by
  simp [eb2qu, csRec_one', sigOverall]

theorem qu2eb_two (kx ky : ℝ) (a : ℂ × ℂ) : qu2eb 2 kx ky a =
    (a.1 * ((modeDir kx ky).1 * (modeDir kx ky).1 - (modeDir kx ky).2 * (modeDir kx ky).2) -
        a.2 * (2 * (modeDir kx ky).1 * (modeDir kx ky).2),
      a.1 * (2 * (modeDir kx ky).1 * (modeDir kx ky).2) +
        a.2 * ((modeDir kx ky).1 * (modeDir kx ky).1 - (modeDir kx ky).2 * (modeDir kx ky).2)) := by
  have h : (-1 : ℂ) * Complex.I ^ 2 = 1 := by rw [Complex.I_sq]; ring
  unfold qu2eb sigOverall
  simp only [csRec_two, if_neg (by norm_num : ¬ (2 : ℕ) = 0), h]
  push_cast
  ext <;> ring

theorem eb2qu_two (kx ky : ℝ) (a : ℂ × ℂ) : eb2qu 2 kx ky a =
    (a.1 * ((modeDir kx ky).1 * (modeDir kx ky).1 - (modeDir kx ky).2 * (modeDir kx ky).2) +
        a.2 * (2 * (modeDir kx ky).1 * (modeDir kx ky).2),
      -a.1 * (2 * (modeDir kx ky).1 * (modeDir kx ky).2) +
        a.2 * ((modeDir kx ky).1 * (modeDir kx ky).1 - (modeDir kx ky).2 * (modeDir kx ky).2)) := by
  have h : (-1 : ℂ) * (-Complex.I) ^ 2 = 1 := by rw [neg_sq, Complex.I_sq]; ring
  unfold eb2qu sigOverall
  simp only [csRec_two, if_neg (by norm_num : ¬ (2 : ℕ) = 0), h]
  push_cast
  ext <;> ring

theorem modeDir_mul (kx ky : ℝ) : √(kx * kx + ky * ky) * (modeDir kx ky).1 = kx ∧ √(kx * kx + ky * ky) * (modeDir kx ky).2 = ky := by
  unfold modeDir
  by_cases h : kx * kx + ky * ky ≤ 0
  · have hx : kx = 0 := by nlinarith [mul_self_nonneg kx, mul_self_nonneg ky]
    have hy : ky = 0 := by nlinarith [mul_self_nonneg kx, mul_self_nonneg ky]
    subst hx; subst hy
    simp
  · simp only [if_neg h]
    have := (Real.sqrt_pos.2 (not_le.1 h)).ne'
    generalize √(kx * kx + ky * ky) = r at *
    constructor <;> field_simp

theorem modeDir_unit (kx ky : ℝ) : (modeDir kx ky).1 ^ 2 + (modeDir kx ky).2 ^ 2 = 1 := by
  unfold modeDir
  by_cases h : kx * kx + ky * ky ≤ 0
  · simp [if_pos h]
  · simp only [if_neg h]
    have h1 := Real.sq_sqrt (not_le.1 h).le
    have := (Real.sqrt_pos.2 (not_le.1 h)).ne'
    generalize √(kx * kx + ky * ky) = r at *
    field_simp
    linarith

/-- The purification of one mode: mode `k2` of the sky, mode `q` of the mask with coefficient `W`, mode `k1` of the result, with
`k1 = q + k2`; `P` is the modulus of the wave vector in some units. -/
theorem pure_term (k1x k1y qx qy k2x k2y K1 Kq K2 h : ℝ) (e b W : ℂ) (hx : k1x = qx + k2x) (hy : k1y = qy + k2y)
    (hK1 : K1 = √(k1x * k1x + k1y * k1y)) (hKq : Kq = √(qx * qx + qy * qy)) (hK2 : K2 = √(k2x * k2x + k2y * k2y)) (h1 : K1 ≠ 0)
    (hh : h ≠ 0) (Q U : ℂ) (hQU : eb2qu 2 k2x k2y (e, b) = (Q, U)) (w0 w1 v0 v1 : ℂ)
    (hw : eb2qu 1 qx qy (-W * ((h * Kq : ℝ) : ℂ), 0) = (w0, w1))
    (hv : eb2qu 2 qx qy (-W * (((h * Kq) ^ 2 : ℝ) : ℂ), 0) = (v0, v1)) :
    W * (qu2eb 2 k1x k1y (Q, U)).1 + 2 * (qu2eb 1 k1x k1y (w0 * Q + w1 * U, w0 * U - w1 * Q)).1 / ((h * K1 : ℝ) : ℂ) +
        (-1 * (v0 * Q + v1 * U)) / (((h * K1) ^ 2 : ℝ) : ℂ) = W * (((K2 / K1) ^ 2 : ℝ) : ℂ) * e ∧
      W * (qu2eb 2 k1x k1y (Q, U)).2 + 2 * (qu2eb 1 k1x k1y (w0 * Q + w1 * U, w0 * U - w1 * Q)).2 / ((h * K1 : ℝ) : ℂ) +
        (-1 * (v0 * U - v1 * Q)) / (((h * K1) ^ 2 : ℝ) : ℂ) = W * (((K2 / K1) ^ 2 : ℝ) : ℂ) * b := by
  have m1 := modeDir_mul k1x k1y
  have mq := modeDir_mul qx qy
  have m2 := modeDir_mul k2x k2y
  have u2 := modeDir_unit k2x k2y
  rw [← hK1] at m1
  rw [← hKq] at mq
  rw [← hK2] at m2
  rw [eb2qu_two] at hQU hv
  rw [eb2qu_one] at hw
  rw [qu2eb_two, qu2eb_one]
  generalize (modeDir k1x k1y).1 = c1 at *
  generalize (modeDir k1x k1y).2 = s1 at *
  generalize (modeDir qx qy).1 = cq at *
  generalize (modeDir qx qy).2 = sq at *
  generalize (modeDir k2x k2y).1 = c2 at *
  generalize (modeDir k2x k2y).2 = s2 at *
  obtain ⟨rfl, rfl⟩ := Prod.mk.inj hQU
  obtain ⟨rfl, rfl⟩ := Prod.mk.inj hw
  obtain ⟨rfl, rfl⟩ := Prod.mk.inj hv
  have e1 : c1 = Kq / K1 * cq + K2 / K1 * c2 := by field_simp; linarith [m1.1, mq.1, m2.1]
  have e2 : s1 = Kq / K1 * sq + K2 / K1 * s2 := by field_simp; linarith [m1.2, mq.2, m2.2]
  have hr : ∀ z : ℂ, 2 * z / ((h * K1 : ℝ) : ℂ) * ((h * Kq : ℝ) : ℂ) = 2 * z * ((Kq / K1 : ℝ) : ℂ) := by
    intro z
    have a1 : (h : ℂ) ≠ 0 := by exact_mod_cast hh
    have a2 : (K1 : ℂ) ≠ 0 := by exact_mod_cast h1
    push_cast
    field_simp
  have hr2 : ∀ z : ℂ, z * (((h * Kq) ^ 2 : ℝ) : ℂ) / (((h * K1) ^ 2 : ℝ) : ℂ) = z * ((Kq / K1 : ℝ) : ℂ) ^ 2 := by
    intro z
    have a1 : (h : ℂ) ≠ 0 := by exact_mod_cast hh
    have a2 : (K1 : ℂ) ≠ 0 := by exact_mod_cast h1
    push_cast
    field_simp
  have hσ : (((K2 / K1) ^ 2 : ℝ) : ℂ) = ((K2 / K1 : ℝ) : ℂ) ^ 2 := by push_cast; ring
  rw [hσ]
  have c1' : (c1 : ℂ) = ((Kq / K1 : ℝ) : ℂ) * cq + ((K2 / K1 : ℝ) : ℂ) * c2 := by rw [e1]; push_cast; ring
  have s1' : (s1 : ℂ) = ((Kq / K1 : ℝ) : ℂ) * sq + ((K2 / K1 : ℝ) : ℂ) * s2 := by rw [e2]; push_cast; ring
  have u2' : (c2 : ℂ) ^ 2 + (s2 : ℂ) ^ 2 = 1 := by exact_mod_cast u2
  have hI : Complex.I * Complex.I = -1 := Complex.I_mul_I
  generalize ((K2 / K1 : ℝ) : ℂ) = σ at *
  generalize hρ : ((Kq / K1 : ℝ) : ℂ) = ρ at *
  generalize ((h * Kq : ℝ) : ℂ) = P at *
  generalize (((h * Kq) ^ 2 : ℝ) : ℂ) = P2 at *
  generalize (((h * K1) ^ 2 : ℝ) : ℂ) = D2 at *
  generalize ((h * K1 : ℝ) : ℂ) = D at *
  simp only [zero_mul, add_zero]
  generalize (c1 : ℂ) = C1 at *
  generalize (s1 : ℂ) = S1 at *
  generalize (cq : ℂ) = Cq at *
  generalize (sq : ℂ) = Sq at *
  generalize (c2 : ℂ) = C2 at *
  generalize (s2 : ℂ) = S2 at *
  subst c1' s1'
  generalize hQ : e * (C2 * C2 - S2 * S2) + b * (2 * C2 * S2) = Q
  generalize hU : -e * (2 * C2 * S2) + b * (C2 * C2 - S2 * S2) = U
  constructor
  · have t1 := hr (-Complex.I * ((Complex.I * (-W * Cq) * Q + Complex.I * (W * Sq) * U) * (ρ * Cq + σ * C2) -
      (Complex.I * (-W * Cq) * U - Complex.I * (W * Sq) * Q) * (ρ * Sq + σ * S2)))
    have t2 := hr2 (-1 * (-W * (Cq * Cq - Sq * Sq) * Q + W * (2 * Cq * Sq) * U))
    subst hQ hU
    linear_combination t1 + t2 + W * e * σ ^ 2 * (C2 ^ 2 + S2 ^ 2 + 1) * u2' +
      2 * ρ * (-((-W * Cq * (e * (C2 * C2 - S2 * S2) + b * (2 * C2 * S2)) + W * Sq * (-e * (2 * C2 * S2) + b * (C2 * C2 - S2 * S2))) *
        (ρ * Cq + σ * C2) - (-W * Cq * (-e * (2 * C2 * S2) + b * (C2 * C2 - S2 * S2)) -
          W * Sq * (e * (C2 * C2 - S2 * S2) + b * (2 * C2 * S2))) * (ρ * Sq + σ * S2))) * hI
  · have t1 := hr (-Complex.I * ((Complex.I * (-W * Cq) * Q + Complex.I * (W * Sq) * U) * (ρ * Sq + σ * S2) +
      (Complex.I * (-W * Cq) * U - Complex.I * (W * Sq) * Q) * (ρ * Cq + σ * C2)))
    have t2 := hr2 (-1 * (-W * (Cq * Cq - Sq * Sq) * U - W * (2 * Cq * Sq) * Q))
    subst hQ hU
    linear_combination t1 + t2 + W * b * σ ^ 2 * (C2 ^ 2 + S2 ^ 2 + 1) * u2' +
      2 * ρ * (-((-W * Cq * (e * (C2 * C2 - S2 * S2) + b * (2 * C2 * S2)) + W * Sq * (-e * (2 * C2 * S2) + b * (C2 * C2 - S2 * S2))) *
        (ρ * Sq + σ * S2) + (-W * Cq * (-e * (2 * C2 * S2) + b * (C2 * C2 - S2 * S2)) -
          W * Sq * (e * (C2 * C2 - S2 * S2) + b * (2 * C2 * S2))) * (ρ * Cq + σ * C2))) * hI

end NaMaster
