import Verif.Flat.PurifyLemmas

/-!
# Property C63: purified flat-sky fields

A sky of spin 2 has E and B modes `F 0`, `F 1` (`SkyHas`). The coefficients of a purified field are those of a mask times its
derivatives with the sky.
-/

namespace NaMaster

open Real Finset

/-! ## Specification -/

/-- The pixels are squares. -/
def SquarePixels (fs : FlatInfo) : Prop := fs.lx / fs.nx = fs.ly / fs.ny

/-- The modes `G` vanish beyond the `bx`-th along x and the `by'`-th along y, in both directions. -/
def BandLimited (fs : FlatInfo) (bx by' : ℕ) (G : ℕ × ℕ → ℂ) : Prop :=
  ∀ k ∈ fs.modes, G k ≠ 0 → (k.1 ≤ bx ∨ fs.nx ≤ k.1 + bx) ∧ (k.2 ≤ by' ∨ fs.ny ≤ k.2 + by')

/-- The wave vectors in the product of the mask and the sky are resolved by the pixels: both have limited bandwidth, and the sums of the limits are below the
highest wave number of the map. -/
def Resolved (fs : FlatInfo) (mask : ℕ × ℕ → ℝ) (F : ℕ → ℕ × ℕ → ℂ) : Prop :=
  ∃ ax ay bx by', BandLimited fs ax ay (fs.map2alm mask) ∧ BandLimited fs bx by' (F 0) ∧ BandLimited fs bx by' (F 1) ∧
    2 * (ax + bx) < fs.nx ∧ 2 * (ay + by') < fs.ny

/-! ## Lemmas -/

/-- The difference of the wave vectors of two modes is the wave vector of the difference, where mask and sky do not vanish. -/
def NoWrap (fs : FlatInfo) (mask : ℕ × ℕ → ℝ) (F : ℕ → ℕ × ℕ → ℂ) (k1 : ℕ × ℕ) : Prop :=
  ∀ k2 ∈ fs.modes, fs.map2alm mask (fs.sub k1 k2) ≠ 0 → ¬ (F 0 k2 = 0 ∧ F 1 k2 = 0) →
    fs.kx k1.1 = fs.kx (fs.sub k1 k2).1 + fs.kx k2.1 ∧ fs.ky k1.2 = fs.ky (fs.sub k1 k2).2 + fs.ky k2.2

theorem waveNum_add {n : ℕ} (l : ℝ) {i1 i2 a b : ℕ} (h1 : i1 < n) (h2 : i2 < n) (hq : subIdx n i1 i2 ≤ a ∨ n ≤ subIdx n i1 i2 + a)
    (hb : i2 ≤ b ∨ n ≤ i2 + b) (hab : 2 * (a + b) < n) : waveNum n l i1 = waveNum n l (subIdx n i1 i2) + waveNum n l i2 := by
  unfold subIdx at *
  unfold waveNum
  have hc : ∀ x y : ℕ, y ≤ x → ((x - y : ℕ) : ℝ) = x - y := fun x y h => Nat.cast_sub h
  by_cases h : i1 < i2
  · simp only [if_pos h] at *
    rw [show (i1 + n - i2 : ℕ) = (i1 + n) - i2 from rfl]
    by_cases hA : 2 * (i1 + n - i2) ≤ n
    · rw [if_pos hA, hc _ _ (by omega), if_pos (by omega), if_neg (by omega)]
      push_cast; ring
    · rw [if_neg hA, hc _ _ (by omega)]
      by_cases hB : 2 * i2 ≤ n
      · rw [if_pos hB, if_pos (by omega)]
        push_cast; ring
      · rw [if_neg hB, if_neg (by omega)]
        push_cast; ring
  · simp only [if_neg h] at *
    by_cases hA : 2 * (i1 - i2) ≤ n
    · rw [if_pos hA, hc _ _ (by omega)]
      by_cases hB : 2 * i2 ≤ n
      · rw [if_pos hB, if_pos (by omega)]
        ring
      · rw [if_neg hB, if_neg (by omega)]
        ring
    · rw [if_neg hA, hc _ _ (by omega), if_neg (by omega), if_pos (by omega)]
      ring

theorem noWrap_of_resolved {fs : FlatInfo} {mask : ℕ × ℕ → ℝ} {F : ℕ → ℕ × ℕ → ℂ} (h : Resolved fs mask F) {k1 : ℕ × ℕ}
    (hk1 : k1 ∈ fs.modes) : NoWrap fs mask F k1 := by
  obtain ⟨ax, ay, bx, b_y, hm, h0, h1, hx, hy⟩ := h
  intro k2 hk2 hW hF
  have hq := hm _ (sub_mem hk1 hk2) hW
  have hs : (k2.1 ≤ bx ∨ fs.nx ≤ k2.1 + bx) ∧ (k2.2 ≤ b_y ∨ fs.ny ≤ k2.2 + b_y) := by
    by_cases h : F 0 k2 = 0
    · exact h1 k2 hk2 fun h' => hF ⟨h, h'⟩
    · exact h0 k2 hk2 h
  rw [mem_modes] at hk1 hk2
  exact ⟨waveNum_add _ hk1.1 hk2.1 hq.1 hs.1 hx, waveNum_add _ hk1.2 hk2.2 hq.2 hs.2 hy⟩

theorem noNyquist_of_resolved {fs : FlatInfo} {mask : ℕ × ℕ → ℝ} {F : ℕ → ℕ × ℕ → ℂ} (h : Resolved fs mask F) :
    NoNyquistPower fs mask := by
  obtain ⟨ax, ay, bx, b_y, hm, h0, h1, hx, hy⟩ := h
  intro k hk hn
  by_contra hne
  have := hm k hk hne
  rw [mem_modes] at hk
  omega

theorem map2alm_add {fs : FlatInfo} (f g : ℕ × ℕ → ℝ) (k : ℕ × ℕ) :
    fs.map2alm (fun p => f p + g p) k = fs.map2alm f k + fs.map2alm g k := by
  unfold FlatInfo.map2alm FlatInfo.dft
  push_cast
  simp only [add_mul, Finset.sum_add_distrib]

theorem map2alm_sub {fs : FlatInfo} (f g : ℕ × ℕ → ℝ) (k : ℕ × ℕ) :
    fs.map2alm (fun p => f p - g p) k = fs.map2alm f k - fs.map2alm g k := by
  unfold FlatInfo.map2alm FlatInfo.dft
  push_cast
  simp only [sub_mul, Finset.sum_sub_distrib]

theorem map2alm_smul {fs : FlatInfo} (r : ℝ) (f : ℕ × ℕ → ℝ) (k : ℕ × ℕ) :
    fs.map2alm (fun p => r * f p) k = r * fs.map2alm f k := by
  unfold FlatInfo.map2alm FlatInfo.dft
  push_cast
  rw [← mul_assoc, Finset.mul_sum]
  congr 1
  exact Finset.sum_congr rfl fun p _ => by ring

theorem pixMod_square {fs : FlatInfo} (hlx : 0 < fs.lx) (hly : 0 < fs.ly) (hsq : SquarePixels fs) {k : ℕ × ℕ} (hk : k ∈ fs.modes) :
    fs.pixMod k = fs.lx / fs.nx * fs.kmod k.1 k.2 := by
  rw [mem_modes] at hk
  have hnx : (0 : ℝ) < fs.nx := by exact_mod_cast (by omega : 0 < fs.nx)
  have hny : (0 : ℝ) < fs.ny := by exact_mod_cast (by omega : 0 < fs.ny)
  have hx : waveNum fs.nx fs.nx k.1 = fs.lx / fs.nx * fs.kx k.1 := by
    unfold FlatInfo.kx waveNum
    split_ifs <;> field_simp
  have hy : waveNum fs.ny fs.ny k.2 = fs.lx / fs.nx * fs.ky k.2 := by
    rw [hsq]
    unfold FlatInfo.ky waveNum
    split_ifs <;> field_simp
  unfold FlatInfo.pixMod FlatInfo.kmod
  rw [hx, hy]
  have hh : (0 : ℝ) ≤ fs.lx / fs.nx := by positivity
  generalize fs.lx / fs.nx = h at *
  rw [show h * fs.kx k.1 * (h * fs.kx k.1) + h * fs.ky k.2 * (h * fs.ky k.2) =
    h ^ 2 * (fs.kx k.1 * fs.kx k.1 + fs.ky k.2 * fs.ky k.2) by ring, Real.sqrt_mul (sq_nonneg h), Real.sqrt_sq hh]

theorem kmod_pos {fs : FlatInfo} (hlx : 0 < fs.lx) (hly : 0 < fs.ly) {k : ℕ × ℕ} (hk : k ∈ fs.modes) (h0 : k ≠ (0, 0)) :
    0 < fs.kmod k.1 k.2 := by
  unfold FlatInfo.kmod
  rw [Real.sqrt_pos]
  by_contra hc
  push Not at hc
  have h1 := mul_self_nonneg (fs.kx k.1)
  have h2 := mul_self_nonneg (fs.ky k.2)
  exact h0 (k_zero hlx hly hk (mul_self_eq_zero.mp (by linarith)) (mul_self_eq_zero.mp (by linarith)))

theorem qu2eb_add (spin : ℕ) (kx ky : ℝ) (a b : ℂ × ℂ) :
    qu2eb spin kx ky (a.1 + b.1, a.2 + b.2) = ((qu2eb spin kx ky a).1 + (qu2eb spin kx ky b).1,
      (qu2eb spin kx ky a).2 + (qu2eb spin kx ky b).2) := by
  unfold qu2eb
  ext <;> (simp only; ring)

theorem qu2eb_sum' (spin : ℕ) (kx ky : ℝ) {ι : Type*} (s : Finset ι) (a b : ι → ℂ) :
    qu2eb spin kx ky (∑ i ∈ s, a i, ∑ i ∈ s, b i) =
      (∑ i ∈ s, (qu2eb spin kx ky (a i, b i)).1, ∑ i ∈ s, (qu2eb spin kx ky (a i, b i)).2) := by
  have := qu2eb_sum spin kx ky s (fun _ => 1) fun i => (a i, b i)
  simpa using this

/-- The coefficients of the product of a pair of maps with a spin mask. -/
theorem spinProduct_alm {fs : FlatInfo} (w m : FlatMaps) (M : ℕ → ℕ × ℕ → ℂ) (h0 : HasModes fs (m 0) (M 0))
    (h1 : HasModes fs (m 1) (M 1)) (k1 : ℕ × ℕ) :
    fs.map2alm (spinProductFlat w m 0) k1 = ∑ k2 ∈ fs.modes,
        (fs.map2alm (w 0) (fs.sub k1 k2) * M 0 k2 + fs.map2alm (w 1) (fs.sub k1 k2) * M 1 k2) ∧
      fs.map2alm (spinProductFlat w m 1) k1 = ∑ k2 ∈ fs.modes,
        (fs.map2alm (w 0) (fs.sub k1 k2) * M 1 k2 - fs.map2alm (w 1) (fs.sub k1 k2) * M 0 k2) := by
  constructor
  · have : spinProductFlat w m 0 = fun p => w 0 p * m 0 p + w 1 p * m 1 p := by funext p; simp [spinProductFlat]
    rw [this, map2alm_add, map2alm_mul _ _ _ h0, map2alm_mul _ _ _ h1, Finset.sum_add_distrib]
  · have : spinProductFlat w m 1 = fun p => w 0 p * m 1 p - w 1 p * m 0 p := by funext p; simp [spinProductFlat]
    rw [this, map2alm_sub, map2alm_mul _ _ _ h0, map2alm_mul _ _ _ h1, Finset.sum_sub_distrib]

/-- The contribution of mode `k2` of the sky to the two purified components at mode `k1`; `M` are the modes of Q and U, `w1` and
`w2` the derivatives of the mask. -/
noncomputable def pureTerm (fs : FlatInfo) (mask : ℕ × ℕ → ℝ) (w1 w2 : FlatMaps) (M : ℕ → ℕ × ℕ → ℂ) (k1 k2 : ℕ × ℕ) : ℂ × ℂ :=
  let a := qu2eb 2 (fs.kx k1.1) (fs.ky k1.2) (M 0 k2, M 1 k2)
  let b := qu2eb 1 (fs.kx k1.1) (fs.ky k1.2)
    (fs.map2alm (w1 0) (fs.sub k1 k2) * M 0 k2 + fs.map2alm (w1 1) (fs.sub k1 k2) * M 1 k2,
      fs.map2alm (w1 0) (fs.sub k1 k2) * M 1 k2 - fs.map2alm (w1 1) (fs.sub k1 k2) * M 0 k2)
  (fs.map2alm mask (fs.sub k1 k2) * a.1 + 2 * b.1 / (fs.pixMod k1 : ℂ) +
      (-1 * (fs.map2alm (w2 0) (fs.sub k1 k2) * M 0 k2 + fs.map2alm (w2 1) (fs.sub k1 k2) * M 1 k2)) /
        ((fs.pixMod k1 ^ 2 : ℝ) : ℂ),
    fs.map2alm mask (fs.sub k1 k2) * a.2 + 2 * b.2 / (fs.pixMod k1 : ℂ) +
      (-1 * (fs.map2alm (w2 0) (fs.sub k1 k2) * M 1 k2 - fs.map2alm (w2 1) (fs.sub k1 k2) * M 0 k2)) /
        ((fs.pixMod k1 ^ 2 : ℝ) : ℂ))

/-- The modes of Q and U. -/
noncomputable def quModes (fs : FlatInfo) (F : ℕ → ℕ × ℕ → ℂ) (X : ℕ) (k : ℕ × ℕ) : ℂ :=
  if X = 0 then (eb2qu 2 (fs.kx k.1) (fs.ky k.2) (F 0 k, F 1 k)).1 else (eb2qu 2 (fs.kx k.1) (fs.ky k.2) (F 0 k, F 1 k)).2

/-- The coefficients of purified components as a sum over the modes of the sky, for all pixels. -/
theorem pure_sum {fs : FlatInfo} (c2r : (ℕ × ℕ → ℂ) → ℕ × ℕ → ℝ) {pE pB : Bool}
    {mask : ℕ × ℕ → ℝ} {m : FlatMaps} {F : ℕ → ℕ × ℕ → ℂ} (hF : SkyHas fs 2 m F) {k1 : ℕ × ℕ} (hPpos : 0 < fs.pixMod k1) {X : ℕ}
    (hX : (X = 0 ∧ pE = true) ∨ (X = 1 ∧ pB = true)) :
    purifyFlatAlms c2r fs pE pB mask (fs.map2alm mask) m X k1 =
      ∑ k2 ∈ fs.modes, (if X = 0 then (pureTerm fs mask (fsAlm2map c2r fs 1 (walmXLpower fs (fs.map2alm mask) 1))
        (fsAlm2map c2r fs 2 (walmXLpower fs (fs.map2alm mask) 2)) (quModes fs F) k1 k2).1
        else (pureTerm fs mask (fsAlm2map c2r fs 1 (walmXLpower fs (fs.map2alm mask) 1))
        (fsAlm2map c2r fs 2 (walmXLpower fs (fs.map2alm mask) 2)) (quModes fs F) k1 k2).2) := by
  unfold SkyHas at hF
  rw [if_neg (by norm_num)] at hF
  obtain ⟨hQ, hU⟩ := hF
  set w1 := fsAlm2map c2r fs 1 (walmXLpower fs (fs.map2alm mask) 1) with hw1
  set w2 := fsAlm2map c2r fs 2 (walmXLpower fs (fs.map2alm mask) 2) with hw2
  set M : ℕ → ℕ × ℕ → ℂ := quModes fs F with hM
  have sp1 := spinProduct_alm w1 m M hQ hU k1
  have sp2 := spinProduct_alm w2 m M hQ hU k1
  have hneg : ∀ X, fs.map2alm (fun p => -1 * spinProductFlat w2 m X p) k1 = -1 * fs.map2alm (spinProductFlat w2 m X) k1 := by
    intro X
    have := map2alm_smul (fs := fs) (-1) (spinProductFlat w2 m X) k1
    push_cast at this
    exact this
  have t0 : ∀ X, fs.map2alm (fun p => m X p * mask p) k1 = fs.map2alm (fun p => mask p * m X p) k1 := by
    intro X; congr 1; funext p; ring
  have e0 : fs.map2almSpin 2 (fun p => m 0 p * mask p) (fun p => m 1 p * mask p) k1 =
      (∑ k2 ∈ fs.modes, fs.map2alm mask (fs.sub k1 k2) * (qu2eb 2 (fs.kx k1.1) (fs.ky k1.2) (M 0 k2, M 1 k2)).1,
        ∑ k2 ∈ fs.modes, fs.map2alm mask (fs.sub k1 k2) * (qu2eb 2 (fs.kx k1.1) (fs.ky k1.2) (M 0 k2, M 1 k2)).2) := by
    unfold FlatInfo.map2almSpin
    rw [t0, t0, map2alm_mul mask (m 0) _ hQ, map2alm_mul mask (m 1) _ hU]
    exact qu2eb_sum 2 (fs.kx k1.1) (fs.ky k1.2) fs.modes (fun k2 => fs.map2alm mask (fs.sub k1 k2)) fun k2 => (M 0 k2, M 1 k2)
  have e1 := qu2eb_sum' 1 (fs.kx k1.1) (fs.ky k1.2) fs.modes
    (fun k2 => fs.map2alm (w1 0) (fs.sub k1 k2) * M 0 k2 + fs.map2alm (w1 1) (fs.sub k1 k2) * M 1 k2)
    (fun k2 => fs.map2alm (w1 0) (fs.sub k1 k2) * M 1 k2 - fs.map2alm (w1 1) (fs.sub k1 k2) * M 0 k2)
  rw [← sp1.1, ← sp1.2] at e1
  have hif : ∀ z : ℂ, (if fs.pixMod k1 > 0 then z else 0) = z := fun z => if_pos hPpos
  have hif2 : ∀ z : ℂ, (if fs.pixMod k1 ^ 2 > 0 then z else 0) = z := fun z => if_pos (by positivity)
  unfold purifyFlatAlms
  simp only [if_pos hX, hif, hif2, ← hw1, ← hw2]
  rcases hX with ⟨rfl, -⟩ | ⟨rfl, -⟩
  · unfold fsMap2alm
    simp only [if_true, if_neg (by norm_num : ¬ (2 : ℕ) = 0), if_neg (by norm_num : ¬ (1 : ℕ) = 0)]
    rw [e0, hneg, sp2.1, show fs.map2almSpin 1 (spinProductFlat w1 m 0) (spinProductFlat w1 m 1) k1 = _ from e1]
    simp only
    rw [Finset.mul_sum, Finset.mul_sum, Finset.sum_div, Finset.sum_div, ← Finset.sum_add_distrib, ← Finset.sum_add_distrib]
    rfl
  · unfold fsMap2alm
    simp only [if_true, if_neg (by norm_num : ¬ (2 : ℕ) = 0), if_neg (by norm_num : ¬ (1 : ℕ) = 0)]
    rw [e0, hneg, sp2.2, show fs.map2almSpin 1 (spinProductFlat w1 m 0) (spinProductFlat w1 m 1) k1 = _ from e1]
    simp only
    rw [Finset.mul_sum, Finset.mul_sum, Finset.sum_div, Finset.sum_div, ← Finset.sum_add_distrib, ← Finset.sum_add_distrib]
    rfl

/-- The coefficients of purified components. -/
theorem pure_formula {fs : FlatInfo} (hlx : 0 < fs.lx) (hly : 0 < fs.ly) (hsq : SquarePixels fs) (c : C2r fs) {pE pB : Bool}
    {mask : ℕ × ℕ → ℝ} (hm : NoNyquistPower fs mask) {m : FlatMaps} {F : ℕ → ℕ × ℕ → ℂ} (hF : SkyHas fs 2 m F) {k1 : ℕ × ℕ}
    (hk1 : k1 ∈ fs.modes) (h0 : k1 ≠ (0, 0)) (hw : NoWrap fs mask F k1) {X : ℕ} (hX : (X = 0 ∧ pE = true) ∨ (X = 1 ∧ pB = true)) :
    purifyFlatAlms c.run fs pE pB mask (fs.map2alm mask) m X k1 =
      ∑ k2 ∈ fs.modes, fs.map2alm mask (fs.sub k1 k2) * (((fs.kmod k2.1 k2.2 / fs.kmod k1.1 k1.2) ^ 2 : ℝ) : ℂ) * F X k2 := by
  have hnx : (0 : ℝ) < fs.nx := by exact_mod_cast (by have := (mem_modes.mp hk1).1; omega : 0 < fs.nx)
  have hK1 := kmod_pos hlx hly hk1 h0
  have hP1 := pixMod_square hlx hly hsq hk1
  have hh : fs.lx / fs.nx ≠ 0 := by positivity
  have hPpos : 0 < fs.pixMod k1 := by rw [hP1]; positivity
  have d1 := deriv_hasModes hlx hly c hm (s := 1) (by norm_num)
  have d2 := deriv_hasModes hlx hly c hm (s := 2) (by norm_num)
  rw [pure_sum c.run hF hPpos hX]
  set w1 := fsAlm2map c.run fs 1 (walmXLpower fs (fs.map2alm mask) 1) with hw1
  set w2 := fsAlm2map c.run fs 2 (walmXLpower fs (fs.map2alm mask) 2) with hw2
  have hterm : ∀ k2 ∈ fs.modes, pureTerm fs mask w1 w2 (quModes fs F) k1 k2 =
      (fs.map2alm mask (fs.sub k1 k2) * (((fs.kmod k2.1 k2.2 / fs.kmod k1.1 k1.2) ^ 2 : ℝ) : ℂ) * F 0 k2,
        fs.map2alm mask (fs.sub k1 k2) * (((fs.kmod k2.1 k2.2 / fs.kmod k1.1 k1.2) ^ 2 : ℝ) : ℂ) * F 1 k2) := by
    intro k2 hk2
    have hq := sub_mem hk1 hk2
    unfold pureTerm
    simp only
    rw [d1.1 _ hq, d1.2 _ hq, d2.1 _ hq, d2.2 _ hq]
    by_cases hW : fs.map2alm mask (fs.sub k1 k2) = 0
    · have z : ∀ s, walmXLpower fs (fs.map2alm mask) s 0 (fs.sub k1 k2) = 0 := by
        intro s; simp [walmXLpower, hW]
      simp [z, hW, eb2qu, qu2eb]
    · by_cases hFz : F 0 k2 = 0 ∧ F 1 k2 = 0
      · have z : ∀ X, quModes fs F X k2 = 0 := by
          intro X; simp [quModes, hFz.1, hFz.2, eb2qu]
        simp [z, hFz.1, hFz.2, qu2eb]
      · obtain ⟨hx, hy⟩ := hw k2 hk2 hW hFz
        have := pure_term (fs.kx k1.1) (fs.ky k1.2) (fs.kx (fs.sub k1 k2).1) (fs.ky (fs.sub k1 k2).2) (fs.kx k2.1) (fs.ky k2.2)
          (fs.kmod k1.1 k1.2) (fs.kmod (fs.sub k1 k2).1 (fs.sub k1 k2).2) (fs.kmod k2.1 k2.2) (fs.lx / fs.nx) (F 0 k2) (F 1 k2)
          (fs.map2alm mask (fs.sub k1 k2)) hx hy rfl rfl rfl hK1.ne' hh (quModes fs F 0 k2) (quModes fs F 1 k2) rfl _ _ _ _ rfl rfl
        rw [← hP1, ← pixMod_square hlx hly hsq hq] at this
        unfold walmXLpower
        simp only [if_true, pow_one]
        exact Prod.ext this.1 this.2
  refine Finset.sum_congr rfl fun k2 hk2 => ?_
  rw [hterm k2 hk2]
  rcases hX with ⟨rfl, -⟩ | ⟨rfl, -⟩
  · rw [if_pos rfl]
  · rw [if_neg one_ne_zero]

end NaMaster
