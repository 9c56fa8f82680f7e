import Verif.Maps.ApoProps

/-! # The apodised mask as a function of the nearest masked pixel: C56 -/

namespace NaMaster

open Real

/-! ## Specification -/

/-- Unit vector to pixel `j` of ring `r`. -/
noncomputable def pixVec (nside r j : ℕ) : ℝ × ℝ × ℝ :=
  (sin (pyTheta nside (r - 1)) * cos (pixAzimuth nside r j), sin (pyTheta nside (r - 1)) * sin (pixAzimuth nside r j),
    cos (pyTheta nside (r - 1)))

/-- What is assumed of the positions returned by the HEALPix library: they are those of the tables. -/
def HealpixPositions (nside : ℕ) (vec : ℕ → ℝ × ℝ × ℝ) : Prop :=
  ∀ r j, 1 ≤ r → r ≤ 4 * nside - 1 → j < pyNphi nside (r - 1) → vec (pixNumber nside r j) = pixVec nside r j

/-- One minus the cosine of the angle between two unit vectors. -/
def oneMinusCos (u v : ℝ × ℝ × ℝ) : ℝ := 1 - (u.1 * v.1 + u.2.1 * v.2.1 + u.2.2 * v.2.2)

/-- The two weight functions of the documentation. -/
noncomputable def taper (c2 : Bool) (x : ℝ) : ℝ :=
  if c2 then (1 - cos (π * x)) / 2 else x - sin (2 * π * x) / (2 * π)

/-- `v` is the value documented for pixel `p`: that of the mask, multiplied by the weight function of
`sqrt((1-cos θ)/(1-cos θ*))` if the nearest masked pixel is at an angle `θ` smaller than the scale `θ*`. -/
def ApodisedTo (npix : ℕ) (vec : ℕ → ℝ × ℝ × ℝ) (mask : ℕ → ℝ) (scale : ℝ) (c2 : Bool) (p : ℕ) (v : ℝ) : Prop :=
  (mask p ≤ 0 → v = mask p) ∧
  (0 < mask p → (∀ q < npix, mask q ≤ 0 → 1 - cos scale ≤ oneMinusCos (vec p) (vec q)) → v = mask p) ∧
  (0 < mask p → ∀ q < npix, mask q ≤ 0 → oneMinusCos (vec p) (vec q) < 1 - cos scale →
    (∀ q' < npix, mask q' ≤ 0 → oneMinusCos (vec p) (vec q) ≤ oneMinusCos (vec p) (vec q')) →
    v = mask p * taper c2 (sqrt (oneMinusCos (vec p) (vec q) / (1 - cos scale))))

/-- No ring meets the disc of radius `reff` around a point at height `z` in an arc that leaves out less than a pixel. -/
def DiscWidthsOk (nside : ℕ) (z reff : ℝ) : Prop :=
  ∀ r, 1 ≤ r → r ≤ 4 * nside - 1 → ∀ d, 0 ≤ d → d ≤ π →
    cos reff = cos (pyTheta nside (r - 1)) * z + sin (pyTheta nside (r - 1)) * sqrt (1 - z * z) * cos d →
    WidthOk (pyNphi nside (r - 1)) d

/-! ## Lemmas -/

/-- Every pixel is some pixel of some ring. -/
theorem exists_pixNumber (nside p : ℕ) (hn : 1 ≤ nside) (hp : p < 12 * nside * nside) :
    ∃ r j, 1 ≤ r ∧ r ≤ 4 * nside - 1 ∧ j < pyNphi nside (r - 1) ∧ pixNumber nside r j = p := by
  obtain ⟨r, ⟨⟨h1, h2⟩, h3, h4⟩, _⟩ := C32_partition nside p hn hp
  obtain ⟨i, rfl⟩ : ∃ i, r = i + 1 := ⟨r - 1, by omega⟩
  obtain ⟨a, b, _⟩ := C32_agree nside i hn h2
  push_cast at h3 h4
  rw [a] at h3
  exact ⟨i + 1, p - pyOffset nside i, h1, h2, by simp only [Nat.add_sub_cancel]; omega, by
    unfold pixNumber; simp only [Nat.add_sub_cancel]; omega⟩

theorem pixNumber_inj {nside r j r' j' : ℕ} (hn : 1 ≤ nside) (h1 : 1 ≤ r) (h2 : r ≤ 4 * nside - 1)
    (hj : j < pyNphi nside (r - 1)) (h1' : 1 ≤ r') (h2' : r' ≤ 4 * nside - 1)
    (hj' : j' < pyNphi nside (r' - 1)) (e : pixNumber nside r j = pixNumber nside r' j') : r = r' ∧ j = j' := by
  have hp := pixNumber_lt nside r j hn h1 h2 hj
  obtain ⟨x, _, hx⟩ := C32_partition nside (pixNumber nside r j) hn hp
  have conv : ∀ r j, 1 ≤ r → r ≤ 4 * nside - 1 → j < pyNphi nside (r - 1) →
      (1 ≤ r ∧ r ≤ 4 * nside - 1) ∧ (ringLimits nside r).1 ≤ (pixNumber nside r j : ℤ) ∧
      (pixNumber nside r j : ℤ) ≤ (ringLimits nside r).2 := by
    intro r j h1 h2 hj
    obtain ⟨i, rfl⟩ : ∃ i, r = i + 1 := ⟨r - 1, by omega⟩
    obtain ⟨a, b, _⟩ := C32_agree nside i hn h2
    push_cast
    rw [a]
    unfold pixNumber
    simp only [Nat.add_sub_cancel] at hj ⊢
    push_cast
    refine ⟨⟨trivial, h2⟩, by omega, by omega⟩
  have e1 := hx r (conv r j h1 h2 hj)
  have e2 := hx r' (by rw [e]; exact conv r' j' h1' h2' hj')
  have er : r = r' := e1.trans e2.symm
  subst er
  refine ⟨rfl, ?_⟩
  unfold pixNumber at e
  omega

/-- Positions with the assumed property exist. -/
theorem healpixPositions_exists (nside : ℕ) (hn : 1 ≤ nside) : ∃ vec, HealpixPositions nside vec := by
  classical
  refine ⟨fun p => if h : ∃ rj : ℕ × ℕ, (1 ≤ rj.1 ∧ rj.1 ≤ 4 * nside - 1 ∧ rj.2 < pyNphi nside (rj.1 - 1)) ∧
    pixNumber nside rj.1 rj.2 = p then pixVec nside h.choose.1 h.choose.2 else 0, ?_⟩
  intro r j h1 h2 hj
  have hex : ∃ rj : ℕ × ℕ, (1 ≤ rj.1 ∧ rj.1 ≤ 4 * nside - 1 ∧ rj.2 < pyNphi nside (rj.1 - 1)) ∧
    pixNumber nside rj.1 rj.2 = pixNumber nside r j := ⟨(r, j), ⟨h1, h2, hj⟩, rfl⟩
  simp only
  rw [dif_pos hex]
  obtain ⟨⟨a, b, c⟩, d⟩ := hex.choose_spec
  obtain ⟨e1, e2⟩ := pixNumber_inj hn a b c h1 h2 hj d
  rw [e1, e2]

theorem sin_pyTheta (nside r : ℕ) (hn : 1 ≤ nside) (h1 : 1 ≤ r) (h2 : r ≤ 4 * nside - 1) :
    cos (pyTheta nside (r - 1)) = ringZ nside r ∧
    sin (pyTheta nside (r - 1)) = sqrt (1 - ringZ nside r * ringZ nside r) ∧ 0 < sin (pyTheta nside (r - 1)) := by
  have hc := cos_pyTheta nside (r - 1) hn (by omega)
  rw [show r - 1 + 1 = r by omega] at hc
  obtain ⟨a, b⟩ := pyTheta_range nside (r - 1)
  have hs : sin (pyTheta nside (r - 1)) = sqrt (1 - ringZ nside r * ringZ nside r) := by
    rw [← hc, ← sq, ← sin_sq, sqrt_sq (sin_nonneg_of_nonneg_of_le_pi a b)]
  have := ringZ_strict nside r hn h1 h2
  exact ⟨hc, hs, by rw [hs]; exact sqrt_pos.2 (by linarith)⟩

theorem oneMinusCos_pix (nside r j r' j' : ℕ) :
    oneMinusCos (pixVec nside r j) (pixVec nside r' j') =
      1 - (cos (pyTheta nside (r' - 1)) * cos (pyTheta nside (r - 1)) +
        sin (pyTheta nside (r' - 1)) * sin (pyTheta nside (r - 1)) * cos (pixAzimuth nside r' j' - pixAzimuth nside r j)) := by
  unfold oneMinusCos pixVec
  simp only
  rw [cos_sub]
  ring

theorem x2sep_eq (u v : ℝ × ℝ × ℝ) : x2sep u v = oneMinusCos u v := by
  unfold x2sep oneMinusCos; ring

theorem apoF_eq (c2 : Bool) (x : ℝ) : apoF c2 x = taper c2 x := by
  unfold apoF taper
  split_ifs
  · rw [mul_comm x π]; ring
  · rw [show x * 2 * π = 2 * π * x by ring]

/-- The azimuth computed from a position is that of the pixel up to turns. -/
theorem cos_sub_vecPhi (nside r j : ℕ) (hn : 1 ≤ nside) (h1 : 1 ≤ r) (h2 : r ≤ 4 * nside - 1) (x : ℝ) :
    cos (x - vecPhi (pixVec nside r j)) = cos (x - pixAzimuth nside r j) := by
  obtain ⟨_, _, hs⟩ := sin_pyTheta nside r hn h1 h2
  set s := sin (pyTheta nside (r - 1)) with hs_def
  set a := pixAzimuth nside r j with ha
  have hre : (⟨s * cos a, s * sin a⟩ : ℂ) = (s : ℂ) * (Complex.cos a + Complex.sin a * Complex.I) := by
    rw [← Complex.ofReal_cos, ← Complex.ofReal_sin]
    apply Complex.ext <;> simp [-Complex.ofReal_cos, -Complex.ofReal_sin]
  have hnorm : ‖(⟨s * cos a, s * sin a⟩ : ℂ)‖ = s := by
    rw [hre, norm_mul, Complex.norm_real, Real.norm_of_nonneg hs.le, Complex.norm_cos_add_sin_mul_I, mul_one]
  have hne : (⟨s * cos a, s * sin a⟩ : ℂ) ≠ 0 := by
    rw [← norm_pos_iff, hnorm]; exact hs
  have hcos : cos (Complex.arg ⟨s * cos a, s * sin a⟩) = cos a := by
    rw [Complex.cos_arg hne, hnorm]; simp only; rw [mul_div_cancel_left₀ _ hs.ne']
  have hsin : sin (Complex.arg ⟨s * cos a, s * sin a⟩) = sin a := by
    rw [Complex.sin_arg, hnorm]; simp only; rw [mul_div_cancel_left₀ _ hs.ne']
  have hv : ∀ y, (y = Complex.arg ⟨s * cos a, s * sin a⟩ ∨ y = Complex.arg ⟨s * cos a, s * sin a⟩ + 2 * π) →
      cos (x - y) = cos (x - a) := by
    intro y hy
    have : cos y = cos a ∧ sin y = sin a := by
      rcases hy with rfl | rfl
      · exact ⟨hcos, hsin⟩
      · rw [cos_add_two_pi, sin_add_two_pi]; exact ⟨hcos, hsin⟩
    rw [cos_sub, cos_sub, this.1, this.2]
  apply hv
  unfold vecPhi pixVec
  simp only
  rw [← hs_def, ← ha]
  split_ifs
  · right; rfl
  · left; rfl

/-- Every pixel within the search radius is found. -/
theorem query_complete (nside : ℕ) (hn : 1 ≤ nside) (hN : nside ≤ 65536) (r j : ℕ) (h1 : 1 ≤ r)
    (h2 : r ≤ 4 * nside - 1) (radius : ℝ) (cap : ℤ) (l : List ℤ)
    (hq : heQueryDisc nside (pixVec nside r j).2.2 (vecPhi (pixVec nside r j)) radius cap = .ok l)
    (hr : radiusEff nside radius ≤ π) (hr0 : 0 ≤ radiusEff nside radius)
    (hw : DiscWidthsOk nside (cos (pyTheta nside (r - 1))) (radiusEff nside radius))
    (r' j' : ℕ) (h1' : 1 ≤ r') (h2' : r' ≤ 4 * nside - 1) (hj' : j' < pyNphi nside (r' - 1))
    (hsep : oneMinusCos (pixVec nside r j) (pixVec nside r' j') ≤ 1 - cos (radiusEff nside radius)) :
    (pixNumber nside r' j' : ℤ) ∈ l := by
  obtain ⟨_, _, hl⟩ := heQueryDisc_ok hq
  obtain ⟨_, hrings, _⟩ := discLoop_ok hl
  obtain ⟨c0, s0, _⟩ := sin_pyTheta nside r hn h1 h2
  obtain ⟨c1, s1, p1⟩ := sin_pyTheta nside r' hn h1' h2'
  have z0s := ringZ_strict nside r hn h1 h2
  have zs := ringZ_strict nside r' hn h1' h2'
  have ez : (pixVec nside r j).2.2 = ringZ nside r := by rw [← c0]; rfl
  rw [ez] at hrings
  set reff := radiusEff nside radius with hreff
  set phi0 := wrapPhi (vecPhi (pixVec nside r j)) with hphi0
  have hdelta : cos (pixAzimuth nside r' j' - phi0) = cos (pixAzimuth nside r' j' - pixAzimuth nside r j) := by
    rw [hphi0, cos_sub_wrapPhi, cos_sub_vecPhi nside r j hn h1 h2]
  have hcs : cos reff ≤ cosSep (ringZ nside r') (ringZ nside r) (pixAzimuth nside r' j' - phi0) := by
    rw [oneMinusCos_pix, c0, c1, s0, s1] at hsep
    unfold cosSep
    rw [hdelta]
    linarith
  have hmem : r' ∈ discRings nside (ringZ nside r) reff :=
    discRings_mem nside hn hN _ _ h1' h2' (lat_of_sep zs z0s hr0 hr hcs)
  obtain ⟨d, hd, d0, d1, d2⟩ := discWidth_of_sep (phi0 := phi0) zs z0s hcs
  obtain ⟨l', hl', hsub⟩ := hrings r' hmem _ (by
    show ringQuery nside (ringZ nside r) phi0 (cos reff) cap r' = some (heInRing nside r' phi0 d cap)
    unfold ringQuery
    rw [hd]; rfl)
  apply hsub
  refine C47_complete_partial nside r' hn h1' h2' phi0 d ?_ cap l' hl' j' hj' (exists_turn d0 d1 d2)
  -- the width is not in the bad window
  by_cases hdpi : d = π
  · right; rw [hdpi]; norm_num
  refine hw r' h1' h2' d d0 d1 ?_
  have hac : 0 < (1 - ringZ nside r * ringZ nside r) * (1 - ringZ nside r' * ringZ nside r') :=
    mul_pos (by linarith) (by linarith)
  unfold discWidth at hd
  simp only at hd
  rw [if_neg (by
    rintro (h | h)
    · rw [h] at z0s; linarith
    · exact hac.ne' h)] at hd
  by_cases hle : |(cos reff - ringZ nside r' * ringZ nside r) /
      sqrt ((1 - ringZ nside r * ringZ nside r) * (1 - ringZ nside r' * ringZ nside r'))| ≤ 1
  · rw [if_pos hle] at hd
    injection hd with hd
    rw [abs_le] at hle
    rw [← hd, cos_arccos hle.1 hle.2, c0, c1, s1, sqrt_mul (by linarith)]
    have a1 : sqrt (1 - ringZ nside r * ringZ nside r) ≠ 0 := (sqrt_pos.2 (by linarith)).ne'
    have a2 : sqrt (1 - ringZ nside r' * ringZ nside r') ≠ 0 := (sqrt_pos.2 (by linarith)).ne'
    have : sqrt (1 - ringZ nside r' * ringZ nside r') * sqrt (1 - ringZ nside r * ringZ nside r) *
        ((cos reff - ringZ nside r' * ringZ nside r) /
          (sqrt (1 - ringZ nside r * ringZ nside r) * sqrt (1 - ringZ nside r' * ringZ nside r'))) =
        cos reff - ringZ nside r' * ringZ nside r := by
      rw [mul_comm (sqrt (1 - ringZ nside r' * ringZ nside r')), mul_div_cancel₀ _ (mul_ne_zero a1 a2)]
    rw [this]; ring
  · rw [if_neg hle] at hd
    split_ifs at hd
    injection hd with hd
    exact absurd hd.symm hdpi

/-! ## C56 -/

/-- Value written by the C function. -/
theorem apoFac_apodised (nside : ℕ) (hn : 1 ≤ nside) (hN : nside ≤ 65536) (vec : ℕ → ℝ × ℝ × ℝ)
    (hv : HealpixPositions nside vec) (mask : ℕ → ℝ) (aporad : ℝ) (ha : 0 < aporad) (c2 : Bool) (lenlist0 : ℤ)
    (r j : ℕ) (h1 : 1 ≤ r) (h2 : r ≤ 4 * nside - 1) (hj : j < pyNphi nside (r - 1))
    (hr : radiusEff nside (1.2 * aporad) ≤ π)
    (hw : DiscWidthsOk nside (cos (pyTheta nside (r - 1))) (radiusEff nside (1.2 * aporad)))
    (f : ℝ) (hf : apoFac nside vec mask aporad c2 lenlist0 (pixNumber nside r j) = some f) :
    ApodisedTo (12 * nside * nside) vec mask aporad c2 (pixNumber nside r j) (mask (pixNumber nside r j) * f) := by
  have hpi := pi_pos
  have hn0 : (0:ℝ) < nside := by exact_mod_cast (by omega : 0 < nside)
  have hle : aporad ≤ radiusEff nside (1.2 * aporad) := by
    unfold radiusEff
    have : 0 < 1.071 * π / (4 * (nside:ℝ)) := by positivity
    linarith
  have hvp := hv r j h1 h2 hj
  set p := pixNumber nside r j with hp
  refine ⟨fun h0 => by rw [(apoFac_range hf).2.2 h0, mul_one], fun hm hfar => ?_, fun hm q hq hmq hlt hnear => ?_⟩ <;>
    · unfold apoFac at hf
      rw [if_pos hm] at hf
      match hd : heQueryDisc nside (vec p).2.2 (vecPhi (vec p)) (1.2 * aporad) (lenlist0 / 2) with
      | .raises e => rw [hd] at hf; cases hf
      | .crash => rw [hd] at hf; cases hf
      | .ok l =>
        rw [hd] at hf
        simp only at hf
        obtain ⟨n1, n2⟩ := nearestZero_spec vec mask (vec p) l
        have hcap : ∀ q' ∈ l, 0 ≤ q' ∧ q'.toNat < 12 * nside * nside := by
          intro q' hq'
          obtain ⟨_, _, hl⟩ := heQueryDisc_ok hd
          obtain ⟨_, _, hl⟩ := discLoop_ok hl
          rcases hl q' hq' with hq' | ⟨r', hr', l', hq'', hm'⟩
          · cases hq'
          obtain ⟨a, b⟩ := discRings_range nside hn _ _ hr'
          unfold ringQuery at hq''
          match hw' : discWidth nside (vec p).2.2 (wrapPhi (vecPhi (vec p)))
              (cos (radiusEff nside (1.2 * aporad))) r' with
          | none => rw [hw'] at hq''; cases hq''
          | some d =>
            rw [hw'] at hq''
            injection hq'' with hq''
            obtain ⟨j', hj', rfl⟩ := (C47_only_ring nside r' hn a b _ d _ l' hq'').2.2.2 q' hm'
            have := pixNumber_lt nside r' j' hn a b hj'
            exact ⟨by positivity, by simpa using this⟩
        rw [hvp] at hd
        have cont : ∀ q' < 12 * nside * nside, oneMinusCos (vec p) (vec q') < 1 - cos aporad → (q' : ℤ) ∈ l := by
          intro q' hq' hs
          obtain ⟨r', j', a, b, c, e⟩ := exists_pixNumber nside q' hn hq'
          rw [← e, hv r' j' a b c, hvp] at hs
          rw [← e]
          refine query_complete nside hn hN r j h1 h2 (1.2 * aporad) _ l hd hr (by linarith) hw r' j' a b c ?_
          have := cos_le_cos_of_nonneg_of_le_pi ha.le hr hle
          linarith
        have hthr : 1 - cos aporad ≤ 2 := by linarith [neg_one_le_cos aporad]
        first
        | -- no masked pixel within the scale
          have hge : ¬ nearestZero vec mask (vec p) l < 1 - cos aporad := by
            rcases n2 with e | ⟨q', hq', hm', e⟩
            · rw [e]; linarith
            · rw [e, x2sep_eq, not_lt]; exact hfar _ (hcap q' hq').2 hm'
          rw [if_neg hge] at hf
          injection hf with hf
          rw [← hf, mul_one]
        | -- the nearest masked pixel is listed
          have hx : nearestZero vec mask (vec p) l = oneMinusCos (vec p) (vec q) := by
            have hin := n1 q (cont q hq hlt) (by simpa using hmq)
            rw [x2sep_eq, Int.toNat_natCast] at hin
            rcases n2 with e | ⟨q', hq', hm', e⟩
            · rw [e] at hin; linarith
            · refine le_antisymm hin ?_
              rw [e, x2sep_eq]
              exact hnear _ (hcap q' hq').2 hm'
          rw [hx, if_pos hlt] at hf
          injection hf with hf
          rw [← hf]
          congr 1
          by_cases hz : oneMinusCos (vec p) (vec q) ≤ 0
          · rw [if_pos hz, sqrt_eq_zero_of_nonpos (div_nonpos_of_nonpos_of_nonneg hz (by linarith [cos_le_one aporad]))]
            unfold taper
            split_ifs <;> simp
          · rw [if_neg hz, apoF_eq, mul_one_div]

/-- C56 under a condition on the search disc. The full statement has neither `hr` nor `hw`; without `hw` it is false, see
`C56_wrong`. -/
theorem C56_nearest_partial (vec : ℕ → ℕ → ℝ × ℝ × ℝ) (smooth : ℕ → ℝ → (ℕ → ℝ) → ℕ → ℝ) (k : ℕ) (hk : k ≤ 16)
    (hv : HealpixPositions (2 ^ k) (vec (2 ^ k))) (mask : ℕ → ℝ) (aposize : ℝ) (ha : 0 < aposize) (c2 : Bool)
    (order : List ℕ) (ho : order.Perm (List.range (12 * 4 ^ k))) (m : ℕ → ℝ)
    (h : maskApodization vec smooth (12 * 4 ^ k) mask aposize (if c2 then "C2" else "C1") order = .ok m)
    (r j : ℕ) (h1 : 1 ≤ r) (h2 : r ≤ 4 * 2 ^ k - 1) (hj : j < pyNphi (2 ^ k) (r - 1))
    (hr : 1.2 * (aposize * π / 180) + 1.071 * π / (4 * 2 ^ k) ≤ π)
    (hw : DiscWidthsOk (2 ^ k) (cos (pyTheta (2 ^ k) (r - 1)))
      (1.2 * (aposize * π / 180) + 1.071 * π / (4 * 2 ^ k))) :
    ApodisedTo (12 * 4 ^ k) (vec (2 ^ k)) mask (aposize * π / 180) c2 (pixNumber (2 ^ k) r j)
      (m (pixNumber (2 ^ k) r j)) := by
  obtain ⟨e, hn, _⟩ := apoNside_len (apoNside_pow k (by omega))
  have hN : 2 ^ k ≤ 65536 := by
    calc 2 ^ k ≤ 2 ^ 16 := Nat.pow_le_pow_right (by norm_num) hk
      _ = 65536 := by norm_num
  have hre : radiusEff (2 ^ k) (1.2 * (aposize * π / 180)) =
      1.2 * (aposize * π / 180) + 1.071 * π / (4 * 2 ^ k) := by unfold radiusEff; push_cast; rfl
  unfold maskApodization at h
  rw [if_neg (by cases c2 <;> decide), apoNside_pow k (by omega)] at h
  simp only at h
  have hcx : nmtApodize (2 ^ k) (vec (2 ^ k)) mask aposize (if c2 then "C2" else "C1") order =
      apodizeCX (2 ^ k) (vec (2 ^ k)) mask aposize c2 order := by
    unfold nmtApodize
    rw [if_neg (by linarith), if_neg ha.ne']
    cases c2
    · rw [if_pos (by decide)]
    · rw [if_neg (by decide), if_pos (by decide)]
  rw [hcx, apodizeCX_cases _ _ _ _ _ _ (by rwa [e])] at h
  have hp := pixNumber_lt (2 ^ k) r j hn h1 h2 hj
  by_cases c1 : lenList (12 * 2 ^ k * 2 ^ k) 1.2 (aposize * π / 180) > 2 ^ 31 - 1
  · rw [if_pos c1] at h; cases h
  rw [if_neg c1] at h
  by_cases c2' : lenList (12 * 2 ^ k * 2 ^ k) 1.2 (aposize * π / 180) < 2
  · rw [if_pos c2'] at h; cases h
  rw [if_neg c2'] at h
  by_cases c3 : ∃ ip < 12 * 2 ^ k * 2 ^ k, apoFac (2 ^ k) (vec (2 ^ k)) mask (aposize * π / 180) c2
      (lenList (12 * 2 ^ k * 2 ^ k) 1.2 (aposize * π / 180)) ip = none
  · rw [if_pos c3] at h; cases h
  rw [if_neg c3] at h
  unfold Outcome.bind at h
  simp only at h
  rw [if_pos (by cases c2 <;> decide)] at h
  injection h with h
  push Not at c3
  obtain ⟨f, hf⟩ := Option.ne_none_iff_exists'.1 (c3 _ hp)
  rw [← h, tab_of_lt _ hp, hf, ← e]
  exact apoFac_apodised (2 ^ k) hn hN _ hv mask _ (by positivity) c2 _ r j h1 h2 hj (by rw [hre]; exact hr)
    (by rw [hre]; exact hw) f hf

/-- Away from the poles there is no bad width. -/
theorem discWidthsOk_away (nside : ℕ) (z reff : ℝ) (hz : |z| < cos reff) : DiscWidthsOk nside z reff := by
  have hpi := pi_pos
  intro r h1 h2 d d0 d1 e
  left
  have hzc : cos (pyTheta nside (r - 1)) * z ≤ |z| := by
    calc cos (pyTheta nside (r - 1)) * z ≤ |cos (pyTheta nside (r - 1)) * z| := le_abs_self _
      _ = |cos (pyTheta nside (r - 1))| * |z| := abs_mul _ _
      _ ≤ 1 * |z| := mul_le_mul_of_nonneg_right (abs_cos_le_one _) (abs_nonneg z)
      _ = |z| := one_mul _
  have hs : 0 ≤ sin (pyTheta nside (r - 1)) * sqrt (1 - z * z) :=
    mul_nonneg (sin_nonneg_of_nonneg_of_le_pi (pyTheta_range _ _).1 (pyTheta_range _ _).2) (sqrt_nonneg _)
  have hd : d < π / 2 := by
    by_contra hc
    push Not at hc
    have := cos_nonpos_of_pi_div_two_le_of_le hc (by linarith)
    nlinarith
  have hnr : 4 ≤ pyNphi nside (r - 1) := by
    unfold pyNphi northring; split_ifs <;> omega
  have : (1:ℝ) / pyNphi nside (r - 1) ≤ 1 / 4 :=
    one_div_le_one_div_of_le (by norm_num) (by exact_mod_cast hnr)
  nlinarith

/-- C56 for the pixels whose search disc (of radius 1.2 times the scale plus about a pixel) does not reach the poles. The
full statement is about all pixels; it is false, see `C56_wrong`. -/
theorem C56_away_from_poles_partial (vec : ℕ → ℕ → ℝ × ℝ × ℝ) (smooth : ℕ → ℝ → (ℕ → ℝ) → ℕ → ℝ) (k : ℕ) (hk : k ≤ 16)
    (hv : HealpixPositions (2 ^ k) (vec (2 ^ k))) (mask : ℕ → ℝ) (aposize : ℝ) (ha : 0 < aposize) (c2 : Bool)
    (order : List ℕ) (ho : order.Perm (List.range (12 * 4 ^ k))) (m : ℕ → ℝ)
    (h : maskApodization vec smooth (12 * 4 ^ k) mask aposize (if c2 then "C2" else "C1") order = .ok m)
    (r j : ℕ) (h1 : 1 ≤ r) (h2 : r ≤ 4 * 2 ^ k - 1) (hj : j < pyNphi (2 ^ k) (r - 1))
    (hr : 1.2 * (aposize * π / 180) + 1.071 * π / (4 * 2 ^ k) ≤ π / 2)
    (hz : |cos (pyTheta (2 ^ k) (r - 1))| < cos (1.2 * (aposize * π / 180) + 1.071 * π / (4 * 2 ^ k))) :
    ApodisedTo (12 * 4 ^ k) (vec (2 ^ k)) mask (aposize * π / 180) c2 (pixNumber (2 ^ k) r j)
      (m (pixNumber (2 ^ k) r j)) :=
  C56_nearest_partial vec smooth k hk hv mask aposize ha c2 order ho m h r j h1 h2 hj (by linarith [pi_pos])
    (discWidthsOk_away _ _ _ hz)

/-- `vecPhi` of the first pixel of the second ring of the map with 48 pixels. -/
theorem vecPhi_witness : wrapPhi (vecPhi (pixVec 2 2 0)) = pixAzimuth 2 2 0 ∧ pixAzimuth 2 2 0 = π / 8 := by
  have hpi := pi_pos
  obtain ⟨_, _, hs⟩ := sin_pyTheta 2 2 (by norm_num) (by norm_num) (by norm_num)
  have hz : pixAzimuth 2 2 0 = π / 8 := by norm_num [pixAzimuth, pyPhi0, northring]
  refine ⟨?_, hz⟩
  have harg : Complex.arg ⟨sin (pyTheta 2 (2 - 1)) * cos (pixAzimuth 2 2 0), sin (pyTheta 2 (2 - 1)) * sin (pixAzimuth 2 2 0)⟩
      = pixAzimuth 2 2 0 := by
    have := Complex.arg_mul_cos_add_sin_mul_I hs (θ := pixAzimuth 2 2 0) ⟨by rw [hz]; linarith, by rw [hz]; linarith⟩
    refine Eq.trans ?_ this
    congr 1
    rw [← Complex.ofReal_cos, ← Complex.ofReal_sin]
    apply Complex.ext <;> simp [-Complex.ofReal_cos, -Complex.ofReal_sin]
  have h1 : vecPhi (pixVec 2 2 0) = pixAzimuth 2 2 0 := by
    unfold vecPhi pixVec
    simp only
    rw [harg, if_neg (by rw [hz]; linarith [show 0 < π / 8 by positivity])]
  rw [h1]
  unfold wrapPhi
  rw [if_neg (by rw [hz]; linarith), if_neg (by rw [hz]; linarith [show 0 < π / 8 by positivity])]

/-- C56 is false. On the map with 48 pixels let all pixels be one except number 5. Its neighbour number 4 is on the same
ring, at less than the scale `aposize` (59 degrees), and should be tapered. It is returned unchanged, because the
query of the ring (see `C47_wrong`) lists only the pixel on the other side of the pole. -/
theorem C56_wrong (vec : ℕ → ℕ → ℝ × ℝ × ℝ) (smooth : ℕ → ℝ → (ℕ → ℝ) → ℕ → ℝ) (hv : HealpixPositions 2 (vec 2)) :
    ∃ aposize m, 0 < aposize ∧
      maskApodization vec smooth 48 (fun p => if p = 5 then 0 else 1) aposize "C2" (List.range 48) = .ok m ∧
      oneMinusCos (vec 2 4) (vec 2 5) < 1 - cos (aposize * π / 180) ∧ m 4 = 1 ∧
      ¬ ApodisedTo 48 (vec 2) (fun p => if p = 5 then 0 else 1) (aposize * π / 180) true 4 (m 4) := by
  have hpi := pi_pos
  set mask : ℕ → ℝ := fun p => if p = 5 then 0 else 1 with hmask
  set reff : ℝ := arccos (4 / 9 - 5 / 9 * 0.96) with hreff
  set aporad : ℝ := (reff - 1.071 * π / (4 * 2)) / 1.2 with haporad
  have hre1 : π / 2 ≤ reff := by
    rw [hreff, ← arccos_zero]; exact arccos_le_arccos (by norm_num)
  have hre2 : reff ≤ π := arccos_le_pi _
  have hcosre : cos reff = 4 / 9 - 5 / 9 * 0.96 := cos_arccos (by norm_num) (by norm_num)
  have h12 : 1.2 * aporad = reff - 1.071 * π / (4 * 2) := by rw [haporad]; ring
  have hreffE : radiusEff 2 (1.2 * aporad) = reff := by unfold radiusEff; rw [h12]; push_cast; ring
  have hap1 : π / 4 ≤ aporad := by linarith
  have hap2 : aporad ≤ π := by linarith
  have hdeg : aporad * 180 / π * π / 180 = aporad := by field_simp
  have hap0 : 0 < aporad := by linarith [show 0 < π / 4 by positivity]
  have hposd : 0 < aporad * 180 / π := by positivity
  have e48 : 12 * 2 * 2 = 48 := by norm_num
  have hcos12 : cos (1.2 * aporad) ≤ 1 / 2 := by
    rw [← cos_pi_div_three]
    exact cos_le_cos_of_nonneg_of_le_pi (by positivity) (by linarith) (by linarith)
  have hlen : 96 ≤ lenList 48 1.2 aporad ∧ lenList 48 1.2 aporad ≤ 384 := by
    unfold lenList
    have := neg_one_le_cos (1.2 * aporad)
    rw [cTrunc_of_nonneg (by push_cast; nlinarith)]
    constructor
    · rw [Int.le_floor]; push_cast; nlinarith
    · rw [← Int.lt_add_one_iff, Int.floor_lt]; push_cast; nlinarith
  have hz2 : ringZ 2 2 = 2 / 3 := by norm_num [ringZ]
  have n1 : pyNphi 2 1 = 8 := by simp [pyNphi, northring]
  have p4 : pixNumber 2 2 0 = 4 := by simp [pixNumber, pyOffset, pyNphi, northring]
  have p5 : pixNumber 2 2 1 = 5 := by simp [pixNumber, pyOffset, pyNphi, northring]
  have p8 : pixNumber 2 2 4 = 8 := by simp [pixNumber, pyOffset, pyNphi, northring]
  have v4 : vec 2 4 = pixVec 2 2 0 := by rw [← p4]; exact hv 2 0 (by norm_num) (by norm_num) (by rw [n1]; norm_num)
  have v5 : vec 2 5 = pixVec 2 2 1 := by rw [← p5]; exact hv 2 1 (by norm_num) (by norm_num) (by rw [n1]; norm_num)
  obtain ⟨c0, s0, _⟩ := sin_pyTheta 2 2 (by norm_num) (by norm_num) (by norm_num)
  rw [hz2] at c0 s0
  have hss : sin (pyTheta 2 (2 - 1)) * sin (pyTheta 2 (2 - 1)) = 5 / 9 := by
    rw [s0, mul_self_sqrt (by norm_num)]; norm_num
  have hsep : oneMinusCos (vec 2 4) (vec 2 5) = 5 / 9 * (1 - cos (π / 4)) := by
    rw [v4, v5, oneMinusCos_pix, c0, hss]
    have : pixAzimuth 2 2 1 - pixAzimuth 2 2 0 = π / 4 := by
      unfold pixAzimuth; rw [show 2 - 1 = 1 by norm_num, n1]; push_cast; ring
    rw [this]; ring
  have hsep0 : 0 ≤ oneMinusCos (vec 2 4) (vec 2 5) := by rw [hsep]; nlinarith [cos_le_one (π / 4)]
  have hcosap : cos aporad ≤ cos (π / 4) := cos_le_cos_of_nonneg_of_le_pi (by positivity) hap2 hap1
  have hc4 : cos (π / 4) < 1 := by
    rw [cos_pi_div_four]
    have : sqrt 2 < 2 := by rw [sqrt_lt' (by norm_num)]; norm_num
    linarith
  have hlt : oneMinusCos (vec 2 4) (vec 2 5) < 1 - cos aporad := by rw [hsep]; nlinarith
  -- the disc around pixel 4 does not list pixel 5
  obtain ⟨w1, w2⟩ := vecPhi_witness
  have hz4 : (vec 2 4).2.2 = 2 / 3 := by rw [v4]; exact c0
  have hquery : ∀ l, heQueryDisc 2 (vec 2 4).2.2 (vecPhi (vec 2 4)) (1.2 * aporad) (lenList 48 1.2 aporad / 2) = .ok l →
      (5 : ℤ) ∉ l := by
    intro l hl hmem
    rw [hz4, v4] at hl
    obtain ⟨_, _, hl⟩ := heQueryDisc_ok hl
    obtain ⟨_, _, hl⟩ := discLoop_ok hl
    rcases hl 5 hmem with hm | ⟨r, hr, l', hq, hm⟩
    · cases hm
    obtain ⟨a, b⟩ := discRings_range 2 (by norm_num) _ _ hr
    rw [hreffE, w1] at hq
    unfold ringQuery at hq
    match hw : discWidth 2 (2 / 3) (pixAzimuth 2 2 0) (cos reff) r with
    | none => rw [hw] at hq; cases hq
    | some d =>
      rw [hw] at hq
      injection hq with hq
      obtain ⟨j, hj, e⟩ := (C47_only_ring 2 r (by norm_num) a b _ d _ l' hq).2.2.2 5 hm
      have e' : pixNumber 2 2 1 = pixNumber 2 r j := by rw [p5]; exact_mod_cast e
      obtain ⟨er, _⟩ := pixNumber_inj (by norm_num) (by norm_num) (by norm_num) (by rw [show 2 - 1 = 1 by norm_num, n1]; norm_num)
        a b hj e'
      subst er
      -- the width on the pixel's own ring
      have hd : d = arccos (-0.96) := by
        unfold discWidth at hw
        simp only at hw
        rw [hz2, hcosre, if_neg (by norm_num)] at hw
        have hq' : (4 / 9 - 5 / 9 * 0.96 - 2 / 3 * (2 / 3)) / sqrt ((1 - 2 / 3 * (2 / 3)) * (1 - 2 / 3 * (2 / 3))) =
            (-0.96 : ℝ) := by
          rw [sqrt_mul_self (by norm_num)]; norm_num
        rw [hq', if_pos (by norm_num [abs_le])] at hw
        injection hw with hw
        exact hw.symm
      have d1 : π * (1 - 1 / (pyNphi 2 (2 - 1) : ℕ)) < d := by
        rw [show 2 - 1 = 1 by norm_num, n1, hd]
        have hlo : cos (π * (1 - 1 / ((8:ℕ):ℝ))) > -0.96 := by
          rw [show π * (1 - 1 / ((8:ℕ):ℝ)) = π - π / 8 by push_cast; ring, cos_pi_sub, cos_pi_div_eight]
          have h2 : sqrt 2 < 1.5 := by rw [sqrt_lt' (by norm_num)]; norm_num
          have : sqrt (2 + sqrt 2) < 1.92 := by
            rw [sqrt_lt' (by norm_num)]; linarith
          linarith
        by_contra hc
        push Not at hc
        have := cos_le_cos_of_nonneg_of_le_pi (arccos_nonneg (-0.96)) (by push_cast; nlinarith) hc
        rw [cos_arccos (by norm_num) (by norm_num)] at this
        linarith
      have d2 : d ≤ π - 1e-6 := by
        rw [hd, show (-0.96 : ℝ) = -(0.96) by norm_num, arccos_neg]
        have : (1e-6 : ℝ) ≤ arccos 0.96 := by
          by_contra hc
          push Not at hc
          have h1 := cos_le_cos_of_nonneg_of_le_pi (arccos_nonneg 0.96) (by linarith [pi_gt_three]) hc.le
          rw [cos_arccos (by norm_num) (by norm_num)] at h1
          have h2 := one_sub_sq_div_two_le_cos (x := (1e-6:ℝ))
          norm_num at h1 h2
          linarith
        linarith
      have hcase := C47_wrong 2 2 (by norm_num) (by norm_num) (by norm_num) 0
        (by rw [show 2 - 1 = 1 by norm_num, n1]; norm_num) d d1 d2 (lenList 48 1.2 aporad / 2)
        (by rw [show 2 - 1 = 1 by norm_num, n1]; push_cast; omega)
      rw [show (2 - 1 : ℕ) = 1 by norm_num, n1] at hcase
      have hq'' : l' = [8] := by
        have := hq.symm.trans hcase
        injection this with this
      rw [hq''] at hm
      simp at hm
  -- all queries succeed
  have hfac : ∀ ip < 12 * 2 * 2, apoFac 2 (vec 2) mask aporad true (lenList (12 * 2 * 2) 1.2 aporad) ip ≠ none := by
    intro ip _
    unfold apoFac
    split_ifs
    · obtain ⟨l, hl⟩ := heQueryDisc_total 2 (by norm_num) (vec 2 ip).2.2 (vecPhi (vec 2 ip)) (1.2 * aporad)
        (lenList (12 * 2 * 2) 1.2 aporad / 2) (by linarith) (by linarith) (by rw [e48]; push_cast; omega)
      rw [hl]
      simp only
      split_ifs <;> simp
    · simp
  have hfac4 : apoFac 2 (vec 2) mask aporad true (lenList (12 * 2 * 2) 1.2 aporad) 4 = some 1 := by
    unfold apoFac
    rw [if_pos (by simp [hmask])]
    obtain ⟨l, hl⟩ := heQueryDisc_total 2 (by norm_num) (vec 2 4).2.2 (vecPhi (vec 2 4)) (1.2 * aporad)
        (lenList (12 * 2 * 2) 1.2 aporad / 2) (by linarith) (by linarith) (by rw [e48]; push_cast; omega)
    rw [hl]
    simp only
    have h5 := hquery l (by rw [e48] at hl; exact hl)
    obtain ⟨_, hlist⟩ := C43_query_pixels 2 (by norm_num) _ _ _ _ (by rw [e48]; omega) l hl
    rcases (nearestZero_spec (vec 2) mask (vec 2 4) l).2 with e | ⟨q, hq, hmq, _⟩
    · rw [e, if_neg (by linarith [neg_one_le_cos aporad])]
    · exfalso
      have hq5 : q.toNat = 5 := by
        by_contra hne
        simp only [hmask, if_neg hne] at hmq
        norm_num at hmq
      have := (hlist q hq).1
      exact h5 (by rw [show (5:ℤ) = q by omega]; exact hq)
  refine ⟨aporad * 180 / π, tab 48 fun p => mask p * ((apoFac 2 (vec 2) mask aporad true
    (lenList (12 * 2 * 2) 1.2 aporad) p).getD 1), hposd, ?_, ?_, ?_, ?_⟩
  · unfold maskApodization
    have ha := apoNside_pow 1 (by norm_num)
    norm_num at ha
    rw [if_neg (by decide), ha]
    simp only
    have hpos : 0 < aporad * 180 / π := hposd
    have : nmtApodize 2 (vec 2) mask (aporad * 180 / π) "C2" (List.range 48) =
        apodizeCX 2 (vec 2) mask (aporad * 180 / π) true (List.range 48) := by
      unfold nmtApodize
      rw [if_neg (by linarith), if_neg hpos.ne', if_neg (by decide), if_pos rfl]
    rw [this, apodizeCX_cases _ _ _ _ _ _ (by rw [e48]), hdeg, if_neg (by rw [e48]; omega), if_neg (by rw [e48]; omega),
      if_neg (by push Not; exact hfac)]
    rfl
  · rw [hdeg]; exact hlt
  · rw [tab_of_lt _ (by norm_num), hfac4]; simp [hmask]
  · rw [tab_of_lt _ (by norm_num), hfac4, hdeg]
    rintro ⟨_, _, h3⟩
    have := h3 (by simp [hmask]) 5 (by norm_num) (by simp [hmask]) hlt (by
      intro q' _ hq'
      have : q' = 5 := by
        by_contra hne
        simp only [hmask, if_neg hne] at hq'
        norm_num at hq'
      rw [this])
    simp only [hmask, taper, Option.getD_some] at this
    norm_num at this
    set x := sqrt (oneMinusCos (vec 2 4) (vec 2 5) / (1 - cos aporad)) with hx
    have hx0 : 0 ≤ x := sqrt_nonneg _
    have hx1 : x < 1 := by
      rw [hx, sqrt_lt' (by norm_num), one_pow, div_lt_one (by linarith)]; exact hlt
    have hcc : cos π < cos (π * x) := cos_lt_cos_of_nonneg_of_le_pi (mul_nonneg hpi.le hx0) (le_refl π)
      (by calc π * x < π * 1 := mul_lt_mul_of_pos_left hx1 hpi
            _ = π := mul_one π)
    rw [cos_pi] at hcc
    linarith

/-- Positions as assumed exist. -/
example : ∃ vec : ℕ → ℕ → ℝ × ℝ × ℝ, HealpixPositions 2 (vec 2) := by
  obtain ⟨v, hv⟩ := healpixPositions_exists 2 (by norm_num)
  exact ⟨fun _ => v, hv⟩

/-- The equator of that map, with a scale of ten degrees, is away from the poles. -/
example : 1.2 * (10 * π / 180) + 1.071 * π / (4 * 2 ^ 1) ≤ π / 2 ∧
    |cos (pyTheta (2 ^ 1) (4 - 1))| < cos (1.2 * (10 * π / 180) + 1.071 * π / (4 * 2 ^ 1)) := by
  have hpi := pi_pos
  refine ⟨by linarith, ?_⟩
  rw [show (2 ^ 1 : ℕ) = 2 by norm_num, (sin_pyTheta 2 4 (by norm_num) (by norm_num) (by norm_num)).1]
  have : ringZ 2 4 = 0 := by norm_num [ringZ]
  rw [this, abs_zero]
  exact cos_pos_of_mem_Ioo ⟨by linarith, by linarith⟩

end NaMaster
