import Verif.SkyCov.NoiseLemmas

/-! # C85: covariances of white noise -/

namespace NaMaster

open Finset MeasureTheory SkySpec WignerSpec CovSpec

local notation "conj" => starRingEnd ℂ

/-! ## The covariance of the pseudo-spectra -/

/-- Sums of products of moments. -/
theorem moment_sum (s s' : ℕ) {Nw : ℕ} {w w' : ℕ → ℤ → ℂ} {pcl : ℕ → ℝ}
    (hp : ∀ L ≤ Nw, (pcl L : ℂ) = (∑ M ∈ Icc (-(L : ℤ)) L, w L M * conj (w' L M)) / (2 * L + 1)) {X Y X' Y' : ℕ} (hX : X < 2) (hY : Y < 2) (l l' : ℕ) :
    ∑ m ∈ Icc (-(l : ℤ)) l, ∑ m' ∈ Icc (-(l' : ℤ)) l', linFac Nw (fun _ => sfac s 0 s) w X l m X' (l', m') *
        conj (linFac Nw (fun _ => sfac s' 0 s') w' Y l m Y' (l', m')) =
      (2 * l + 1) * (kernelMatrix (fun _ => sfac s 0 s) (fun _ => sfac s' 0 s') Nw pcl l X Y l' X' Y' : ℝ) := by
  have h := linFac_sum (X' + 1) (Y' + 1) Nw l' (h1 := fun _ => sfac s 0 s) (h2 := fun _ => sfac s' 0 s') (fun _ l L l' => sfac_triangle) w w'
    (fun a b c => if a = X' ∧ b = Y' ∧ c = l' then 1 else 0) X Y l
  have hL : ∀ m, ∑ q ∈ modes l', ∑ a ∈ range (X' + 1), ∑ b ∈ range (Y' + 1), linFac Nw (fun _ => sfac s 0 s) w X l m a q *
      conj (linFac Nw (fun _ => sfac s' 0 s') w' Y l m b q) * (((if a = X' ∧ b = Y' ∧ q.1 = l' then 1 else 0 : ℝ)) : ℂ) =
      ∑ m' ∈ Icc (-(l' : ℤ)) l', linFac Nw (fun _ => sfac s 0 s) w X l m X' (l', m') * conj (linFac Nw (fun _ => sfac s' 0 s') w' Y l m Y' (l', m')) := by
    intro m
    rw [sum_modes, sum_eq_single_of_mem l' (mem_range.2 (Nat.lt_succ_self _))]
    · refine sum_congr rfl fun m' _ => ?_
      rw [sum_eq_single_of_mem X' (mem_range.2 (Nat.lt_succ_self _)), sum_eq_single_of_mem Y' (mem_range.2 (Nat.lt_succ_self _))]
      · simp
      · intro b _ hb; simp [hb]
      · intro a _ ha; simp [ha]
    · intro k _ hk
      refine sum_eq_zero fun m' _ => sum_eq_zero fun a _ => sum_eq_zero fun b _ => ?_
      simp [hk]
  rw [sum_congr rfl fun m _ => hL m] at h
  rw [h, sum_eq_single_of_mem l' (mem_range.2 (Nat.lt_succ_self _)), sum_eq_single_of_mem X' (mem_range.2 (Nat.lt_succ_self _)),
    sum_eq_single_of_mem Y' (mem_range.2 (Nat.lt_succ_self _))]
  · unfold kernelMatrix
    simp only [and_self, if_true, Complex.ofReal_one, one_mul]
    rw [Complex.ofReal_mul, Complex.ofReal_sum, mul_sum, mul_sum]
    refine sum_congr rfl fun L hL => ?_
    rw [mem_range] at hL
    have hne : (2 * (L : ℂ) + 1) ≠ 0 := by exact_mod_cast (by omega : (2 * L + 1 : ℕ) ≠ 0)
    have e := hp L (by omega)
    rw [eq_div_iff hne] at e
    rw [← e, mixR_eq hX hY]
    push_cast
    ring
  · intro b _ hb; simp [hb]
  · intro a _ ha; exact sum_eq_zero fun b _ => by simp [ha]
  · intro k _ hk; exact sum_eq_zero fun a _ => sum_eq_zero fun b _ => by simp [hk]

section
variable {Ω : Type*} [MeasurableSpace Ω] {μ : Measure Ω} {npix : ℕ} {q : ℕ → ℝ} {Y : ℤ → ℕ → ℤ → ℕ → ℂ} {s : ℕ → ℕ} {maps : ℕ → Ω → MapStack}
  {N : ℕ → ℕ → ℝ}

/-- The covariance of spectra of white noise. -/
theorem noise_truth (hW : WhiteNoise μ npix q s maps N) (hq : ∀ p < npix, q p ≠ 0) (hY : ∀ i < 4, Spherical Y (s i)) (mask : ℕ → ℕ → ℝ)
    {X : ℕ → ℕ} (hX : ∀ i < 4, X i < ncomp (s i)) {A : ℕ → Ω → ℕ → ℕ → ℂ} {lmax : ℕ}
    (hA : ∀ i < 4, ∀ ω, ∀ l ≤ lmax, ∀ m ≤ l, A i ω l m = noiseCoef Y npix q (mask i) (s i) (X i) (maps i ω) l m) {l l' Nw : ℕ} (hl : l ≤ lmax)
    (hl' : l' ≤ lmax) (hN : l + l' ≤ Nw) {p1 p2 : ℕ → ℝ}
    (hp1 : ∀ L ≤ Nw, (p1 L : ℂ) =
      (∑ M ∈ Icc (-(L : ℤ)) L, pairMask Y npix q (mask 0) (mask 2) L M * conj (pairMask Y npix q (mask 1) (mask 3) L M)) / (2 * L + 1))
    (hp2 : ∀ L ≤ Nw, (p2 L : ℂ) =
      (∑ M ∈ Icc (-(L : ℤ)) L, pairMask Y npix q (mask 0) (mask 3) L M * conj (pairMask Y npix q (mask 1) (mask 2) L M)) / (2 * L + 1)) :
    Integrable (fun ω => alm2cl (A 0 ω) (A 1 ω) l) μ ∧ Integrable (fun ω => alm2cl (A 2 ω) (A 3 ω) l') μ ∧
    Integrable (fun ω => alm2cl (A 0 ω) (A 1 ω) l * alm2cl (A 2 ω) (A 3 ω) l') μ ∧
    (2 * l' + 1) * covar μ (fun ω => alm2cl (A 0 ω) (A 1 ω) l) (fun ω => alm2cl (A 2 ω) (A 3 ω) l') =
      (if s 0 = s 2 ∧ s 1 = s 3 then N 0 2 * N 1 3 * kernelMatrix (fun _ => sfac (s 0) 0 (s 0)) (fun _ => sfac (s 1) 0 (s 1)) Nw p1 l (X 0) (X 1) l' (X 2) (X 3)
        else 0) +
      (if s 0 = s 3 ∧ s 1 = s 2 then N 0 3 * N 1 2 * kernelMatrix (fun _ => sfac (s 0) 0 (s 0)) (fun _ => sfac (s 1) 0 (s 1)) Nw p2 l (X 0) (X 1) l' (X 3) (X 2)
        else 0) := by
  set α : ℕ → Ω → ℕ → ℤ → ℂ := fun i ω l m => noiseCoef Y npix q (mask i) (s i) (X i) (maps i ω) l m with hα
  have hr : ∀ i < 4, ∀ ω, RealCoefs (α i ω) := fun i hi ω => noiseCoef_real (hY i hi) _ _ _ _ _
  have hg : IsserlisOn μ (quadIndex lmax) fun t ω => α t.1 ω t.2.1 t.2.2 := by
    refine IsserlisOn.lin hW.gauss (s := fun t => ((range (ncomp (s t.1))) ×ˢ (range npix)).map ⟨fun r => (t.1, r), fun _ _ h => (Prod.mk.inj h).2⟩)
      (c := fun t r => (q r.2.2 * mask t.1 r.2.2 : ℝ) * kern Y (s t.1) (X t.1) r.2.1 t.2.1 t.2.2 r.2.2) ?_ ?_
    · rintro ⟨i, l, m⟩ ⟨hi, hq⟩ r hr
      rw [mem_map] at hr
      obtain ⟨⟨c, p⟩, hcp, rfl⟩ := hr
      rw [mem_product, mem_range, mem_range] at hcp
      exact ⟨hi, hcp.1, hcp.2⟩
    · rintro ⟨i, l, m⟩ _ ω
      rw [sum_map, sum_product]
      rfl
  obtain ⟨i1, i2, i3, hc⟩ := covar_alm2cl hr hg hA hl hl'
  refine ⟨i1, i2, i3, ?_⟩
  have hlast : ∀ x y : ℝ, (x : ℂ) = y → x = y := fun x y h => by exact_mod_cast h
  apply hlast
  rw [Complex.ofReal_mul, hc]
  have lt2 : ∀ i < 4, X i < 2 := by
    intro i hi
    have := hX i hi
    rcases ncomp_cases (s i) with h | h <;> omega
  have hE : ∀ i < 4, ∀ j < 4, ∀ m ∈ Icc (-(l : ℤ)) l, ∀ m' ∈ Icc (-(l' : ℤ)) l', ∫ ω, α i ω l m * conj (α j ω l' m') ∂μ =
      if s i = s j then (N i j : ℂ) * linFac Nw (fun _ => sfac (s i) 0 (s i)) (pairMask Y npix q (mask i) (mask j)) (X i) l m (X j) (l', m') else 0 := by
    intro i hi j hj m hm m' hm'
    rw [mem_Icc] at hm hm'
    exact noise_moment hW hq hY mask hi hj (hX i hi) (hX j hj) hN (abs_le.2 hm) (abs_le.2 hm')
  have term : ∀ i < 4, ∀ j < 4, ∀ i' < 4, ∀ j' < 4, ∀ p : ℕ → ℝ, (∀ L ≤ Nw, (p L : ℂ) =
        (∑ M ∈ Icc (-(L : ℤ)) L, pairMask Y npix q (mask i) (mask j) L M * conj (pairMask Y npix q (mask i') (mask j') L M)) / (2 * L + 1)) →
      ∑ m ∈ Icc (-(l : ℤ)) l, ∑ m' ∈ Icc (-(l' : ℤ)) l', (∫ ω, α i ω l m * conj (α j ω l' m') ∂μ) * conj (∫ ω, α i' ω l m * conj (α j' ω l' m') ∂μ) =
      (2 * l + 1) * ((if s i = s j ∧ s i' = s j' then N i j * N i' j' *
        kernelMatrix (fun _ => sfac (s i) 0 (s i)) (fun _ => sfac (s i') 0 (s i')) Nw p l (X i) (X i') l' (X j) (X j') else 0 : ℝ) : ℂ) := by
    intro i hi j hj i' hi' j' hj' p hp
    rw [sum_congr rfl fun m hm => sum_congr rfl fun m' hm' => by rw [hE i hi j hj m hm m' hm', hE i' hi' j' hj' m hm m' hm']]
    by_cases h1 : s i = s j
    swap
    · simp [h1]
    by_cases h2 : s i' = s j'
    swap
    · simp [h2]
    simp only [if_pos h1, if_pos h2, if_pos (And.intro h1 h2)]
    have := moment_sum (s i) (s i') hp (X' := X j) (Y' := X j') (lt2 i hi) (lt2 i' hi') l l'
    rw [Complex.ofReal_mul, Complex.ofReal_mul]
    rw [show ((2 * (l : ℂ) + 1) * ((N i j : ℂ) * (N i' j' : ℂ) * (kernelMatrix (fun _ => sfac (s i) 0 (s i)) (fun _ => sfac (s i') 0 (s i')) Nw p l (X i) (X i') l'
      (X j) (X j') : ℝ))) = (N i j : ℂ) * (N i' j' : ℂ) * ((2 * (l : ℂ) + 1) * (kernelMatrix (fun _ => sfac (s i) 0 (s i)) (fun _ => sfac (s i') 0 (s i')) Nw p l
      (X i) (X i') l' (X j) (X j') : ℝ)) by ring, ← this, mul_sum]
    refine sum_congr rfl fun m _ => ?_
    rw [mul_sum]
    refine sum_congr rfl fun m' _ => ?_
    rw [map_mul, Complex.conj_ofReal]
    ring
  simp only [sum_add_distrib]
  rw [term 0 (by norm_num) 2 (by norm_num) 1 (by norm_num) 3 (by norm_num) p1 hp1, term 0 (by norm_num) 3 (by norm_num) 1 (by norm_num) 2 (by norm_num) p2 hp2]
  have h1 : (2 * (l : ℂ) + 1) ≠ 0 := by exact_mod_cast (by omega : (2 * l + 1 : ℕ) ≠ 0)
  have h2 : (2 * (l' : ℂ) + 1) ≠ 0 := by exact_mod_cast (by omega : (2 * l' + 1 : ℕ) ≠ 0)
  rw [Complex.ofReal_add]
  push_cast
  field_simp

end

/-! ## The fields -/

section
variable {Ω : Type*} {env : FieldEnv} {a : FieldArgs} {s lmax lmaxMask : ℕ} {maps : Ω → MapStack} {f : Ω → FieldObj}

theorem plain_facts (h : PlainFields env a s lmax lmaxMask maps f) (ω : Ω) :
    (f ω).lmax = lmax ∧ (f ω).lmaxMask = lmaxMask ∧ (f ω).maskA = none ∧ (f ω).mask = a.mask ∧ (f ω).nIterMask = 0 ∧ (f ω).nmaps = ncomp s := by
  have k := field_is env a h.iso (ncomp s) env.pix.npix (maps ω) (f ω) (h.made ω)
  obtain ⟨k1, -, -, -⟩ := field_rest env a h.iso h.bare _ _ _ _ (h.made ω)
  exact ⟨by rw [k.lmax, h.bandLimit]; rfl, by rw [k.lmaxMask, h.maskBandLimit]; rfl, k1, k.mask, k.nIterMask.trans h.quick.2, k.nmaps⟩

theorem plain_coefs {q : ℕ → ℝ} {Y : ℤ → ℕ → ℤ → ℕ → ℂ} (h : PlainFields env a s lmax lmaxMask maps f) (hS : PixelSums env.sht env.pix.npix q Y s) (ω : Ω) :
    ∃ A, (f ω).alm = some (some A) ∧ ∀ X < ncomp s, ∀ l ≤ lmax, ∀ m ≤ l, A X l m = noiseCoef Y env.pix.npix q a.mask s X (maps ω) l m := by
  have k := field_is env a h.iso (ncomp s) env.pix.npix (maps ω) (f ω) (h.made ω)
  have hn : a.nTempl = 0 := by unfold FieldArgs.nTempl; rw [h.bare]; rfl
  obtain ⟨-, hA⟩ := k.alm (fun _ _ => 0) (by rw [k.iMdet, h.bare]; rfl)
  simp only [hn, sum_range_zero, sub_zero] at hA
  refine ⟨_, hA, fun X hX l hl m hm => ?_⟩
  have el : (f ω).lmax = lmax := by rw [k.lmax, h.bandLimit]; rfl
  have es : (f ω).spin = (s : ℤ) := by rw [k.spin, h.spin]
  unfold pop purifyIfNeeded
  rw [k.pureE, k.pureB, if_neg (by rw [h.mixed]; simp)]
  dsimp only
  rw [es, el, k.mask, h.quick.1]
  exact pixel_coef hS a.mask (maps ω) hX hl hm

end

/-- The spectra computed from two fields, in terms of coefficients. -/
theorem plain_spectra {Ω : Type*} {env : FieldEnv} {minfo : MapInfo} {a1 a2 : FieldArgs} {s1 s2 lmax lmaxMask : ℕ}
    {m1 m2 : Ω → MapStack} {f1 f2 : Ω → FieldObj} {q : ℕ → ℝ} {Y : ℤ → ℕ → ℤ → ℕ → ℂ}
    (h1 : PlainFields env a1 s1 lmax lmaxMask m1 f1) (h2 : PlainFields env a2 s2 lmax lmaxMask m2 f2) (hS1 : PixelSums env.sht env.pix.npix q Y s1)
    (hS2 : PixelSums env.sht env.pix.npix q Y s2) {same : Bool} {P : Ω → Arr2 ℝ}
    (hP : ∀ ω, computeCoupledCell ((f1 ω).view env.sht minfo) ((f2 ω).view env.sht minfo) same = .ok (some (P ω))) :
    ∃ A1 A2 : Ω → Alms,
      (∀ ω, ∀ X < ncomp s1, ∀ l ≤ lmax, ∀ m ≤ l, A1 ω X l m = noiseCoef Y env.pix.npix q a1.mask s1 X (m1 ω) l m) ∧
      (∀ ω, ∀ X < ncomp s2, ∀ l ≤ lmax, ∀ m ≤ l, A2 ω X l m = noiseCoef Y env.pix.npix q a2.mask s2 X (m2 ω) l m) ∧
      ∀ ω, (P ω).rows = ncomp s1 * ncomp s2 ∧ (P ω).cols = lmax + 1 ∧
        ∀ X < ncomp s1, ∀ Y < ncomp s2, ∀ l ≤ lmax, (P ω).val (Y + ncomp s2 * X) l = alm2cl (A1 ω X) (A2 ω Y) l := by
  choose A1 hA1 hA1v using fun ω => plain_coefs h1 hS1 ω
  choose A2 hA2 hA2v using fun ω => plain_coefs h2 hS2 ω
  refine ⟨A1, A2, hA1v, hA2v, fun ω => ?_⟩
  obtain ⟨x1, x2, -, -, -, x9⟩ := plain_facts h1 ω
  obtain ⟨y1, y2, -, -, -, y9⟩ := plain_facts h2 ω
  have e := hP ω
  rw [coupled_fields env minfo (f1 ω) (f2 ω) same (x1.trans y1.symm) (x2.trans y2.symm) _ _ (hA1 ω) (hA2 ω), x9, y9, x1] at e
  have e' := Option.some.inj (Outcome.ok.inj e)
  rw [← e']
  refine ⟨rfl, rfl, fun X hX Y hY l hl => ?_⟩
  have hk : Y + ncomp s2 * X < ncomp s1 * ncomp s2 := by
    calc Y + ncomp s2 * X < ncomp s2 + ncomp s2 * X := by omega
      _ = ncomp s2 * (X + 1) := by ring
      _ ≤ ncomp s2 * ncomp s1 := Nat.mul_le_mul_left _ hX
      _ = ncomp s1 * ncomp s2 := mul_comm _ _
  rw [Arr2.of_val _ hk (by omega), Nat.add_mul_div_left _ _ (by omega), Nat.div_eq_of_lt hY, zero_add, Nat.add_mul_mod_self_left, Nat.mod_eq_of_lt hY]

end NaMaster
