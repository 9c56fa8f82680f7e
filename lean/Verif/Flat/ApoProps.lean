import Verif.Flat.Apo
import Verif.Maps.NearestProps

/-! # C42: the flat-sky apodised mask as a function of the nearest masked pixel -/

namespace NaMaster

open Real

/-! ## Specification -/

/-- Distance between the centres of two pixels. -/
noncomputable def flatDist (fs : FlatInfo) (p q : ℕ × ℕ) : ℝ :=
  √((((q.1 : ℝ) - p.1) * (fs.lx / fs.nx)) ^ 2 + (((q.2 : ℝ) - p.2) * (fs.ly / fs.ny)) ^ 2)

/-- Value of a map of rows at pixel `(x, y)`. -/
def FlatInfo.at {α : Type*} (fs : FlatInfo) (m : ℕ → α) (p : ℕ × ℕ) : α := m (p.1 + fs.nx * p.2)

/-- The pixel is in the map. -/
def FlatInfo.Has (fs : FlatInfo) (p : ℕ × ℕ) : Prop := p.1 < fs.nx ∧ p.2 < fs.ny

/-- `v` is the value documented for pixel `p`: that of the mask, multiplied by the weight function of the distance to the
nearest masked pixel divided by the scale if that distance is smaller than the scale. -/
def FlatApodisedTo (fs : FlatInfo) (mask : ℕ → ℝ) (scale : ℝ) (c2 : Bool) (p : ℕ × ℕ) (v : ℝ) : Prop :=
  (fs.at mask p ≤ 0 → v = fs.at mask p) ∧
  (0 < fs.at mask p → (∀ q, fs.Has q → fs.at mask q ≤ 0 → scale ≤ flatDist fs p q) → v = fs.at mask p) ∧
  (0 < fs.at mask p → ∀ q, fs.Has q → fs.at mask q ≤ 0 → flatDist fs p q < scale →
    (∀ q', fs.Has q' → fs.at mask q' ≤ 0 → flatDist fs p q ≤ flatDist fs p q') →
    v = fs.at mask p * taper c2 (flatDist fs p q / scale))

/-! ## Lemmas -/

/-- The loop with `continue` and `break` visits the offsets whose pixel is in the map. -/
theorem scanRange_eq {α : Type*} (n np i : ℕ) (f : ℕ → ℕ → α → α) : ∀ (ks : List ℕ), ks.Pairwise (· < ·) → ∀ a,
    scanRange n np i f ks a =
      (ks.filter fun k => decide (np ≤ i + k ∧ i + k < n + np)).foldl (fun a k => f k (i + k - np) a) a := by
  intro ks
  induction ks with
  | nil => intro _ a; rfl
  | cons k ks ih =>
    intro hp a
    rw [List.pairwise_cons] at hp
    unfold scanRange
    by_cases h1 : (i : ℤ) + k - np < 0
    · rw [if_pos h1, ih hp.2, List.filter_cons_of_neg]
      simp only [decide_eq_true_eq]; omega
    · rw [if_neg h1]
      by_cases h2 : (i : ℤ) + k - np ≥ n
      · rw [if_pos h2, List.filter_eq_nil_iff.2]
        · rfl
        · intro x hx
          simp only [decide_eq_true_eq]
          rcases List.mem_cons.1 hx with rfl | hx
          · omega
          · have := hp.1 x hx; omega
      · rw [if_neg h2, ih hp.2, List.filter_cons_of_pos, List.foldl_cons]
        simp only [decide_eq_true_eq]; omega

/-- `g r` is the smallest of `r` and the numbers in `S`. -/
def MinStep (g : ℝ → ℝ) (S : Set ℝ) : Prop := ∀ r, g r ≤ r ∧ (∀ s ∈ S, g r ≤ s) ∧ (g r = r ∨ g r ∈ S)

theorem foldl_minStep {ι : Type*} (g : ι → ℝ → ℝ) (S : ι → Set ℝ) (h : ∀ i, MinStep (g i) (S i)) (l : List ι) :
    MinStep (fun r => l.foldl (fun r i => g i r) r) {s | ∃ i ∈ l, s ∈ S i} := by
  induction l with
  | nil => intro r; exact ⟨le_refl _, (by rintro s ⟨i, hi, _⟩; cases hi), Or.inl rfl⟩
  | cons i l ih =>
    intro r
    obtain ⟨a1, a2, a3⟩ := h i r
    obtain ⟨b1, b2, b3⟩ := ih (g i r)
    simp only [List.foldl_cons] at *
    refine ⟨b1.trans a1, ?_, ?_⟩
    · rintro s ⟨j, hj, hs⟩
      rcases List.mem_cons.1 hj with rfl | hj
      · exact b1.trans (a2 s hs)
      · exact b2 s ⟨j, hj, hs⟩
    · rcases b3 with b3 | ⟨j, hj, hs⟩
      · rw [b3]
        rcases a3 with a3 | a3
        · exact Or.inl a3
        · exact Or.inr ⟨i, List.mem_cons_self, a3⟩
      · exact Or.inr ⟨j, List.mem_cons_of_mem _ hj, hs⟩

/-- The smallest distance found is that of the masked pixels in the patch. -/
theorem flatRmin_spec (fs : FlatInfo) (mask : ℕ → ℝ) (dx dy : ℝ) (nxp nyp ix iy : ℕ) :
    let D := fun q : ℕ × ℕ => √((((q.1 : ℝ) - ix) * dx) ^ 2 + (((q.2 : ℝ) - iy) * dy) ^ 2)
    let P := fun q : ℕ × ℕ => fs.Has q ∧ fs.at mask q ≤ 0 ∧ q.1 ≤ ix + nxp ∧ ix ≤ q.1 + nxp ∧ q.2 ≤ iy + nyp ∧ iy ≤ q.2 + nyp
    flatRmin fs mask dx dy nxp nyp ix iy ≤ 100000 ∧ (∀ q, P q → flatRmin fs mask dx dy nxp nyp ix iy ≤ D q) ∧
      (flatRmin fs mask dx dy nxp nyp ix iy = 100000 ∨ ∃ q, P q ∧ flatRmin fs mask dx dy nxp nyp ix iy = D q) := by
  intro D P
  have hsort : ∀ n, (List.range n).Pairwise (· < ·) := fun n => List.pairwise_lt_range
  have hD : ∀ ixx iyy, nxp ≤ ix + ixx → nyp ≤ iy + iyy →
      patchDist dx dy nxp nyp ixx iyy = D (ix + ixx - nxp, iy + iyy - nyp) := by
    intro ixx iyy h1 h2
    unfold patchDist
    simp only [D]
    push_cast [Nat.cast_sub h1, Nat.cast_sub h2]
    congr 1
    ring
  have hin : ∀ iyy jy, MinStep (fun r => scanRange fs.nx nxp ix (fun ixx jx r =>
      if mask (jx + fs.nx * jy) ≤ 0 then
        (if patchDist dx dy nxp nyp ixx iyy < r then patchDist dx dy nxp nyp ixx iyy else r)
      else r) (List.range (2 * nxp + 1)) r)
      {s | ∃ ixx ∈ (List.range (2 * nxp + 1)).filter fun k => decide (nxp ≤ ix + k ∧ ix + k < fs.nx + nxp),
        s ∈ {s | mask ((ix + ixx - nxp) + fs.nx * jy) ≤ 0 ∧ s = patchDist dx dy nxp nyp ixx iyy}} := by
    intro iyy jy
    have := foldl_minStep (fun ixx r => if mask ((ix + ixx - nxp) + fs.nx * jy) ≤ 0 then
        (if patchDist dx dy nxp nyp ixx iyy < r then patchDist dx dy nxp nyp ixx iyy else r) else r)
      (fun ixx => {s | mask ((ix + ixx - nxp) + fs.nx * jy) ≤ 0 ∧ s = patchDist dx dy nxp nyp ixx iyy}) (by
        intro ixx r
        simp only
        by_cases hm : mask ((ix + ixx - nxp) + fs.nx * jy) ≤ 0
        · rw [if_pos hm]
          by_cases hr : patchDist dx dy nxp nyp ixx iyy < r
          · rw [if_pos hr]
            exact ⟨hr.le, by rintro s ⟨_, rfl⟩; exact le_refl _, Or.inr ⟨hm, rfl⟩⟩
          · rw [if_neg hr]
            exact ⟨le_refl _, by rintro s ⟨_, rfl⟩; exact not_lt.1 hr, Or.inl rfl⟩
        · rw [if_neg hm]
          exact ⟨le_refl _, by rintro s ⟨h, _⟩; exact absurd h hm, Or.inl rfl⟩)
      ((List.range (2 * nxp + 1)).filter fun k => decide (nxp ≤ ix + k ∧ ix + k < fs.nx + nxp))
    simp only [scanRange_eq fs.nx nxp ix _ _ (hsort _)]
    exact this
  have hout := foldl_minStep (fun iyy r => scanRange fs.nx nxp ix (fun ixx jx r =>
      if mask (jx + fs.nx * (iy + iyy - nyp)) ≤ 0 then
        (if patchDist dx dy nxp nyp ixx iyy < r then patchDist dx dy nxp nyp ixx iyy else r)
      else r) (List.range (2 * nxp + 1)) r) _ (fun iyy => hin iyy (iy + iyy - nyp))
      ((List.range (2 * nyp + 1)).filter fun k => decide (nyp ≤ iy + k ∧ iy + k < fs.ny + nyp)) 100000
  unfold flatRmin
  rw [scanRange_eq fs.ny nyp iy _ _ (hsort _) 100000]
  obtain ⟨h1, h2, h3⟩ := hout
  refine ⟨h1, ?_, ?_⟩
  · rintro ⟨qx, qy⟩ ⟨hq, hm, a1, a2, a3, a4⟩
    simp only at a1 a2 a3 a4
    refine h2 _ ⟨qy + nyp - iy, ?_, qx + nxp - ix, ?_, ?_, ?_⟩
    · rw [List.mem_filter, List.mem_range, decide_eq_true_eq]
      have := hq.2
      simp only at this
      omega
    · rw [List.mem_filter, List.mem_range, decide_eq_true_eq]
      have := hq.1
      simp only at this
      omega
    · rw [show ix + (qx + nxp - ix) - nxp = qx by omega, show iy + (qy + nyp - iy) - nyp = qy by omega]
      exact hm
    · rw [hD _ _ (by omega) (by omega), show ix + (qx + nxp - ix) - nxp = qx by omega,
        show iy + (qy + nyp - iy) - nyp = qy by omega]
  · rcases h3 with h3 | ⟨iyy, hy, ixx, hx, hm, he⟩
    · exact Or.inl h3
    · rw [List.mem_filter, List.mem_range, decide_eq_true_eq] at hx hy
      refine Or.inr ⟨(ix + ixx - nxp, iy + iyy - nyp), ⟨⟨?_, ?_⟩, hm, ?_, ?_, ?_, ?_⟩, ?_⟩
      · simp only; omega
      · simp only; omega
      · simp only; omega
      · simp only; omega
      · simp only; omega
      · simp only; omega
      · rw [← hD _ _ (by omega) (by omega)]
        exact he

open Classical in
/-- Factor applied to pixel `ip`. -/
noncomputable def flatFac (fs : FlatInfo) (mask : ℕ → ℝ) (aporad : ℝ) (c2 : Bool) (ip : ℕ) : ℝ :=
  if mask ip > 0 then
    if flatRmin fs mask (fs.lx / fs.nx) (fs.lx / fs.nx) (patchSize aporad (fs.lx / fs.nx))
        (patchSize aporad (fs.lx / fs.nx)) (ip % fs.nx) (ip / fs.nx) < aporad then
      (if flatRmin fs mask (fs.lx / fs.nx) (fs.lx / fs.nx) (patchSize aporad (fs.lx / fs.nx))
        (patchSize aporad (fs.lx / fs.nx)) (ip % fs.nx) (ip / fs.nx) < 0 then 0 else
        apoF c2 (flatRmin fs mask (fs.lx / fs.nx) (fs.lx / fs.nx) (patchSize aporad (fs.lx / fs.nx))
          (patchSize aporad (fs.lx / fs.nx)) (ip % fs.nx) (ip / fs.nx) * (1 / aporad)))
    else 1
  else 1

theorem apodizeFlatCX_eq (fs : FlatInfo) (mask : ℕ → ℝ) (aposize : ℝ) (c2 : Bool) (order : List ℕ)
    (ho : order.Perm (List.range (fs.nx * fs.ny))) :
    apodizeFlatCX fs mask aposize c2 order =
      .ok (tab (fs.nx * fs.ny) fun p => mask p * flatFac fs mask (aposize * π / 180) c2 p) := by
  have hstep : ∀ s ip, apoStepFlat fs mask (aposize * π / 180) c2 s ip =
      match some (flatFac fs mask (aposize * π / 180) c2 ip) with
      | some f => .ok (Function.update s ip (s ip * f))
      | none => .crash := by
    intro s ip
    unfold apoStepFlat flatFac
    by_cases h : mask ip > 0
    · simp only [if_pos h]
      split_ifs with h1 h2
      · rfl
      · rfl
      · rw [update_mul_one]
    · simp only [if_neg h]
      rw [update_mul_one]
  unfold apodizeFlatCX
  have hnd : order.Nodup := ho.nodup_iff.2 List.nodup_range
  rcases apoLoop_fac (fun ip => some (flatFac fs mask (aposize * π / 180) c2 ip)) hstep order hnd
    (tab (fs.nx * fs.ny) mask) with ⟨⟨_, _, h⟩, _⟩ | ⟨_, h⟩
  · cases h
  · rw [h]
    congr 1
    funext p
    have hm : p ∈ order ↔ p < fs.nx * fs.ny := by rw [ho.mem_iff, List.mem_range]
    by_cases hp : p < fs.nx * fs.ny
    · rw [if_pos (hm.2 hp), tab_of_lt _ hp, tab_of_lt _ hp]; rfl
    · rw [if_neg (fun h => hp (hm.1 h))]
      simp [tab, hp]

theorem patch_contains {r d : ℝ} (hr : 0 < r) (hd : 0 < d) {i j : ℕ} (h : |((j : ℝ) - i) * d| < r) :
    j ≤ i + patchSize r d ∧ i ≤ j + patchSize r d := by
  rw [abs_lt] at h
  have hle : r / d ≤ 1.2 * r / d := by
    apply div_le_div_of_nonneg_right _ hd.le
    norm_num; linarith
  have h1 : (j : ℝ) - i < r / d := by rw [lt_div_iff₀ hd]; exact h.2
  have h2 : (i : ℝ) - j < r / d := by rw [lt_div_iff₀ hd]; nlinarith [h.1]
  have hx : ∀ m n : ℕ, (n : ℝ) - m < r / d → n ≤ m + patchSize r d := by
    intro m n h
    by_contra hc
    have hc' : patchSize r d + 1 ≤ n - m := by omega
    have hmn : m ≤ n := by omega
    have := (Nat.le_floor_iff' (a := 1.2 * r / d) (n := n - m) (by omega)).2 (by
      rw [Nat.cast_sub hmn]; linarith)
    unfold patchSize at hc'
    omega
  exact ⟨hx i j h1, hx j i h2⟩

/-! ## C42 -/

/-- The factor by which a pixel is multiplied lies between 0 and 1. -/
theorem flatFac_range (fs : FlatInfo) (mask : ℕ → ℝ) (aporad : ℝ) (ha : 0 < aporad) (c2 : Bool) (ip : ℕ) :
    0 ≤ flatFac fs mask aporad c2 ip ∧ flatFac fs mask aporad c2 ip ≤ 1 := by
  unfold flatFac
  split_ifs with h1 h2 h3
  · simp
  · refine apoF_range c2 _ (mul_nonneg (not_lt.1 h3) (by positivity)) ?_
    rw [mul_one_div, div_le_one ha]
    exact h2.le
  · simp
  · simp

/-- Whatever the pixels, C1 and C2 apodisation multiply every pixel by a number between 0 and 1, keep masked pixels, and
the result does not depend on the order in which threads visit the pixels. -/
theorem C42_bounds (smooth : FlatInfo → ℝ → (ℕ → ℝ) → ℕ → ℝ) (fs : FlatInfo) (mask : ℕ → ℝ) (aposize : ℝ) (hx : 0 < fs.lx)
    (hy : 0 < fs.ly) (hn : 0 < fs.ny) (ha : 0 < aposize) (apotype : String) (ht : apotype = "C1" ∨ apotype = "C2") :
    ∃ m, (∀ order : List ℕ, order.Perm (List.range (fs.nx * fs.ny)) →
        maskApodizationFlat smooth 2 fs mask aposize apotype order = .ok m) ∧
      ∀ p < fs.nx * fs.ny, (∃ f, 0 ≤ f ∧ f ≤ 1 ∧ m p = mask p * f) ∧ (mask p ≤ 0 → m p = mask p) := by
  have key : ∀ c2, ∀ p < fs.nx * fs.ny,
      (∃ f, 0 ≤ f ∧ f ≤ 1 ∧ tab (fs.nx * fs.ny) (fun p => mask p * flatFac fs mask (aposize * π / 180) c2 p) p = mask p * f) ∧
      (mask p ≤ 0 → tab (fs.nx * fs.ny) (fun p => mask p * flatFac fs mask (aposize * π / 180) c2 p) p = mask p) := by
    intro c2 p hp
    rw [tab_of_lt _ hp]
    have hr := flatFac_range fs mask (aposize * π / 180) (by positivity) c2 p
    refine ⟨⟨_, hr.1, hr.2, rfl⟩, fun h => ?_⟩
    unfold flatFac
    rw [if_neg (not_lt.2 h), mul_one]
  rcases ht with rfl | rfl
  · refine ⟨_, fun order ho => ?_, key false⟩
    unfold maskApodizationFlat nmtApodizeFlat
    rw [if_neg (by simp), if_neg (by omega), if_neg (not_not.2 hx), if_neg (not_not.2 hy), if_neg (by linarith),
      if_neg ha.ne', if_pos rfl, apodizeFlatCX_eq fs mask aposize false order ho]
  · refine ⟨_, fun order ho => ?_, key true⟩
    unfold maskApodizationFlat nmtApodizeFlat
    rw [if_neg (by simp), if_neg (by omega), if_neg (not_not.2 hx), if_neg (not_not.2 hy), if_neg (by linarith),
      if_neg ha.ne', if_neg (by decide), if_pos rfl, apodizeFlatCX_eq fs mask aposize true order ho]

/-- For square pixels and scales up to 100000 radians every pixel gets the documented value. Missing: other pixels, for
which this is false, see `C42_aspect_wrong`. -/
theorem C42_nearest_partial (smooth : FlatInfo → ℝ → (ℕ → ℝ) → ℕ → ℝ) (fs : FlatInfo) (hsq : fs.lx / fs.nx = fs.ly / fs.ny)
    (mask : ℕ → ℝ) (aposize : ℝ) (hx : 0 < fs.lx) (hy : 0 < fs.ly) (ha : 0 < aposize) (ha' : aposize * π / 180 ≤ 100000)
    (c2 : Bool) (order : List ℕ) (ho : order.Perm (List.range (fs.nx * fs.ny))) (m : ℕ → ℝ)
    (h : maskApodizationFlat smooth 2 fs mask aposize (if c2 then "C2" else "C1") order = .ok m) (p : ℕ × ℕ) (hp : fs.Has p) :
    FlatApodisedTo fs mask (aposize * π / 180) c2 p (fs.at m p) := by
  have hnx : 0 < fs.nx := by have := hp.1; omega
  have hny : 0 < fs.ny := by have := hp.2; omega
  have hm : m = tab (fs.nx * fs.ny) fun p => mask p * flatFac fs mask (aposize * π / 180) c2 p := by
    unfold maskApodizationFlat nmtApodizeFlat at h
    rw [if_neg (by simp), if_neg (by omega), if_neg (not_not.2 hx), if_neg (not_not.2 hy), if_neg (by linarith),
      if_neg ha.ne'] at h
    cases c2 with
    | false =>
      rw [if_pos (by simp)] at h
      rw [apodizeFlatCX_eq fs mask aposize false order ho] at h
      injection h with h
      exact h.symm
    | true =>
      rw [if_neg (by simp), if_pos (by simp)] at h
      rw [apodizeFlatCX_eq fs mask aposize true order ho] at h
      injection h with h
      exact h.symm
  have hr : 0 < aposize * π / 180 := by positivity
  set R := aposize * π / 180 with hR
  obtain ⟨px, py⟩ := p
  have hpx : px < fs.nx := hp.1
  have hpy : py < fs.ny := hp.2
  have hlt : px + fs.nx * py < fs.nx * fs.ny := by
    calc px + fs.nx * py < fs.nx + fs.nx * py := by omega
      _ = fs.nx * (py + 1) := by ring
      _ ≤ fs.nx * fs.ny := Nat.mul_le_mul_left _ hpy
  have hmod : (px + fs.nx * py) % fs.nx = px := by
    rw [Nat.add_mul_mod_self_left, Nat.mod_eq_of_lt hpx]
  have hdiv : (px + fs.nx * py) / fs.nx = py := by
    rw [Nat.add_mul_div_left _ _ hnx, Nat.div_eq_of_lt hpx, zero_add]
  have hd : 0 < fs.lx / fs.nx := by positivity
  obtain ⟨s1, s2, s3⟩ := flatRmin_spec fs mask (fs.lx / fs.nx) (fs.lx / fs.nx) (patchSize R (fs.lx / fs.nx))
    (patchSize R (fs.lx / fs.nx)) px py
  set rmin := flatRmin fs mask (fs.lx / fs.nx) (fs.lx / fs.nx) (patchSize R (fs.lx / fs.nx))
    (patchSize R (fs.lx / fs.nx)) px py with hrm
  have hD : ∀ q : ℕ × ℕ, √((((q.1 : ℝ) - px) * (fs.lx / fs.nx)) ^ 2 + (((q.2 : ℝ) - py) * (fs.lx / fs.nx)) ^ 2) =
      flatDist fs (px, py) q := by
    intro q
    unfold flatDist
    rw [← hsq]
  simp only [hD] at s2 s3
  have hin : ∀ q, fs.Has q → fs.at mask q ≤ 0 → flatDist fs (px, py) q < R → rmin ≤ flatDist fs (px, py) q := by
    intro q hq hm0 hlt'
    have hxle : |((q.1 : ℝ) - px) * (fs.lx / fs.nx)| ≤ flatDist fs (px, py) q := by
      unfold flatDist
      exact Real.abs_le_sqrt (by nlinarith [sq_nonneg (((q.2 : ℝ) - py) * (fs.ly / fs.ny))])
    have hyle : |((q.2 : ℝ) - py) * (fs.lx / fs.nx)| ≤ flatDist fs (px, py) q := by
      unfold flatDist
      rw [hsq]
      exact Real.abs_le_sqrt (by nlinarith [sq_nonneg (((q.1 : ℝ) - px) * (fs.ly / fs.ny))])
    have c1 := patch_contains hr hd (lt_of_le_of_lt hxle hlt')
    have c2 := patch_contains hr hd (lt_of_le_of_lt hyle hlt')
    exact s2 q ⟨hq, hm0, c1.1, c1.2, c2.1, c2.2⟩
  have hval : fs.at m (px, py) = mask (px + fs.nx * py) * flatFac fs mask R c2 (px + fs.nx * py) := by
    unfold FlatInfo.at
    rw [hm, tab_of_lt _ hlt]
  have hfac : 0 < mask (px + fs.nx * py) → flatFac fs mask R c2 (px + fs.nx * py) =
      if rmin < R then (if rmin < 0 then 0 else apoF c2 (rmin * (1 / R))) else 1 := by
    intro hpos
    unfold flatFac
    rw [if_pos hpos, hmod, hdiv]
  refine ⟨?_, ?_, ?_⟩
  · intro h0
    rw [hval]
    have h0 : mask (px + fs.nx * py) ≤ 0 := h0
    unfold flatFac
    rw [if_neg (not_lt.2 h0), mul_one]
    rfl
  · intro h0 hfar
    rw [hval, hfac h0, if_neg]
    · rw [mul_one]; rfl
    · rw [not_lt]
      rcases s3 with s3 | ⟨q, hq, he⟩
      · rw [s3]; exact ha'
      · rw [he]; exact hfar q hq.1 hq.2.1
  · intro h0 q hq hm0 hlt' hmin
    have hle := hin q hq hm0 hlt'
    have heq : rmin = flatDist fs (px, py) q := by
      refine le_antisymm hle ?_
      rcases s3 with s3 | ⟨q', hq', he⟩
      · rw [s3]; exact (hlt'.le.trans ha')
      · rw [he]; exact hmin q' hq'.1 hq'.2.1
    rw [hval, hfac h0, if_pos (by rw [heq]; exact hlt'), if_neg (by rw [heq]; exact not_lt.2 (Real.sqrt_nonneg _)), heq,
      apoF_eq, mul_one_div]
    rfl

/-- Scale zero returns the mask, whatever the type; negative scales raise `RuntimeError`; unknown types raise `RuntimeError`
if the scale is not zero; arrays without two axes raise `ValueError`. The full statement has unknown types raise for every
scale; that is false, as the first part shows. -/
theorem C42_arguments_partial (smooth : FlatInfo → ℝ → (ℕ → ℝ) → ℕ → ℝ) (fs : FlatInfo) (mask : ℕ → ℝ) (aposize : ℝ)
    (apotype : String) (order : List ℕ) :
    (0 < fs.lx → 0 < fs.ly → 0 < fs.ny → aposize = 0 →
      maskApodizationFlat smooth 2 fs mask aposize apotype order = .ok (tab (fs.nx * fs.ny) mask)) ∧
    (0 < fs.ny → aposize < 0 → maskApodizationFlat smooth 2 fs mask aposize apotype order = .raises .runtime) ∧
    (0 < fs.ny → aposize ≠ 0 → apotype ∉ ["C1", "C2", "Smooth"] →
      maskApodizationFlat smooth 2 fs mask aposize apotype order = .raises .runtime) ∧
    (∀ ndim ≠ 2, maskApodizationFlat smooth ndim fs mask aposize apotype order = .raises .value) := by
  refine ⟨?_, ?_, ?_, ?_⟩
  · intro hx hy hn ha
    unfold maskApodizationFlat nmtApodizeFlat
    rw [if_neg (by simp), if_neg (by omega), if_neg (not_not.2 hx), if_neg (not_not.2 hy), if_neg (by linarith), if_pos ha]
  · intro hn ha
    unfold maskApodizationFlat nmtApodizeFlat
    rw [if_neg (by simp), if_neg (by omega), if_pos ha]
    simp
  · intro hn ha ht
    simp only [List.mem_cons, List.not_mem_nil, or_false, not_or] at ht
    unfold maskApodizationFlat nmtApodizeFlat
    rw [if_neg (by simp), if_neg (by omega), if_neg ha, if_neg ht.1, if_neg ht.2.1, if_neg ht.2.2]
    simp
  · intro ndim h
    unfold maskApodizationFlat
    rw [if_pos h]

/-- The type "Smooth" keeps masked pixels masked. -/
theorem C42_smooth_zeros (smooth : FlatInfo → ℝ → (ℕ → ℝ) → ℕ → ℝ) (fs : FlatInfo) (mask : ℕ → ℝ) (aposize : ℝ)
    (order : List ℕ) (m : ℕ → ℝ) (h : maskApodizationFlat smooth 2 fs mask aposize "Smooth" order = .ok m) (p : ℕ)
    (hp : p < fs.nx * fs.ny) (h0 : mask p = 0) : m p = 0 := by
  unfold maskApodizationFlat nmtApodizeFlat at h
  split_ifs at h
  all_goals first
    | (cases h; rw [tab_of_lt _ hp]; exact h0)
    | (exact absurd ‹"Smooth" = "C1"› (by decide))
    | (exact absurd ‹"Smooth" = "C2"› (by decide))
    | (unfold apodizeFlatSmooth at h
       match he : apoLoop (apoStepFlatSmooth fs mask (aposize * π / 180)) order (tab (fs.nx * fs.ny) mask) with
       | .ok o =>
         rw [he] at h
         simp only [Outcome.bind] at h
         cases h
         rw [tab_of_lt _ hp, h0, zero_mul]
       | .raises e => rw [he] at h; cases h
       | .crash => rw [he] at h; cases h)

/-! ## The mask that is smoothed -/

/-- A step that sets some pixels to zero and keeps the others. -/
def ZeroesOn (g : (ℕ → ℝ) → ℕ → ℝ) (Z : ℕ → Prop) : Prop := ∀ o p, (Z p → g o p = 0) ∧ (¬ Z p → g o p = o p)

theorem zeroesOn_foldl {α : Type*} (f : α → (ℕ → ℝ) → ℕ → ℝ) (Z : α → ℕ → Prop) : ∀ (ks : List α),
    (∀ k ∈ ks, ZeroesOn (f k) (Z k)) → ZeroesOn (fun o => ks.foldl (fun o k => f k o) o) (fun p => ∃ k ∈ ks, Z k p) := by
  intro ks
  induction ks with
  | nil => intro _ o p; exact ⟨fun ⟨_, h, _⟩ => absurd h (List.not_mem_nil), fun _ => rfl⟩
  | cons k ks ih =>
    intro h o p
    have h1 := h k List.mem_cons_self o p
    have h2 := ih (fun k' hk' => h k' (List.mem_cons_of_mem _ hk')) (f k o) p
    dsimp only at h2
    rw [show (fun o => (k :: ks).foldl (fun o k => f k o) o) o = ks.foldl (fun o k => f k o) (f k o) from rfl]
    constructor
    · rintro ⟨k', hk', hz⟩
      by_cases c : ∃ k'' ∈ ks, Z k'' p
      · exact h2.1 c
      · rw [h2.2 c]
        rcases List.mem_cons.1 hk' with rfl | hk'
        · exact h1.1 hz
        · exact absurd ⟨k', hk', hz⟩ c
    · intro c
      rw [h2.2 (fun ⟨k', hk', hz⟩ => c ⟨k', List.mem_cons_of_mem _ hk', hz⟩)]
      exact h1.2 (fun hz => c ⟨k, List.mem_cons_self, hz⟩)

theorem ZeroesOn.congr {g g' : (ℕ → ℝ) → ℕ → ℝ} {Z Z' : ℕ → Prop} (h : ZeroesOn g Z) (hg : ∀ o, g' o = g o)
    (hz : ∀ p, Z' p ↔ Z p) : ZeroesOn g' Z' := by
  intro o p
  rw [hg, hz]
  exact h o p

open Classical in
/-- What one masked pixel sets to zero. -/
noncomputable def smoothStep (fs : FlatInfo) (xthr d : ℝ) (out : ℕ → ℝ) (ip : ℕ) : ℕ → ℝ :=
  scanRange fs.ny (patchSize xthr d) (ip / fs.nx) (fun iyy jy o =>
      scanRange fs.nx (patchSize xthr d) (ip % fs.nx) (fun ixx jx o =>
        if patchDist d d (patchSize xthr d) (patchSize xthr d) ixx iyy ≤ xthr then
          Function.update o (jx + fs.nx * jy) (o (jx + fs.nx * jy) * 0)
        else o) (List.range (2 * patchSize xthr d + 1)) o) (List.range (2 * patchSize xthr d + 1)) out

theorem smoothStep_zeroes (fs : FlatInfo) (xthr d : ℝ) (hr : 0 < xthr) (hd : 0 < d) (ix iy : ℕ) (hx : ix < fs.nx) :
    ZeroesOn (fun o => smoothStep fs xthr d o (ix + fs.nx * iy))
      (fun p => ∃ q, fs.Has q ∧ p = q.1 + fs.nx * q.2 ∧
        √((((q.1 : ℝ) - ix) * d) ^ 2 + (((q.2 : ℝ) - iy) * d) ^ 2) ≤ xthr) := by
  classical
  have hmod : (ix + fs.nx * iy) % fs.nx = ix := by
    rw [Nat.add_mul_mod_self_left, Nat.mod_eq_of_lt hx]
  have hdiv : (ix + fs.nx * iy) / fs.nx = iy := by
    rw [Nat.add_mul_div_left _ _ (by omega), Nat.div_eq_of_lt hx, zero_add]
  set N := patchSize xthr d with hN
  have inner : ∀ iyy jy, ZeroesOn (fun o => scanRange fs.nx N ix (fun ixx jx o =>
        if patchDist d d N N ixx iyy ≤ xthr then
          Function.update o (jx + fs.nx * jy) (o (jx + fs.nx * jy) * 0)
        else o) (List.range (2 * N + 1)) o)
      (fun p => ∃ ixx ∈ (List.range (2 * N + 1)).filter fun k => decide (N ≤ ix + k ∧ ix + k < fs.nx + N),
        patchDist d d N N ixx iyy ≤ xthr ∧ p = ix + ixx - N + fs.nx * jy) := by
    intro iyy jy
    refine (zeroesOn_foldl (fun ixx o => if patchDist d d N N ixx iyy ≤ xthr then
          Function.update o (ix + ixx - N + fs.nx * jy) (o (ix + ixx - N + fs.nx * jy) * 0)
        else o) (fun ixx p => patchDist d d N N ixx iyy ≤ xthr ∧ p = ix + ixx - N + fs.nx * jy) _ ?_).congr
        (fun o => scanRange_eq _ _ _ _ _ List.pairwise_lt_range o) (fun p => Iff.rfl)
    intro k _ o p
    by_cases c : patchDist d d N N k iyy ≤ xthr
    · simp only [if_pos c]
      constructor
      · rintro ⟨-, rfl⟩
        rw [Function.update_self, mul_zero]
      · intro h
        rw [Function.update_of_ne (fun e => h ⟨c, e⟩)]
    · simp only [if_neg c]
      exact ⟨fun h => absurd h.1 c, fun _ => trivial⟩
  unfold smoothStep
  rw [hmod, hdiv, ← hN]
  refine (zeroesOn_foldl (fun iyy o => scanRange fs.nx N ix (fun ixx jx o =>
        if patchDist d d N N ixx iyy ≤ xthr then
          Function.update o (jx + fs.nx * (iy + iyy - N)) (o (jx + fs.nx * (iy + iyy - N)) * 0)
        else o) (List.range (2 * N + 1)) o) _ _ (fun iyy _ => inner iyy (iy + iyy - N))).congr
      (fun o => scanRange_eq _ _ _ _ _ List.pairwise_lt_range o) (fun p => ?_)
  have hD : ∀ i k, N ≤ i + k → (((i + k - N : ℕ) : ℝ) - i) = (k : ℝ) - N := by
    intro i k h
    rw [Nat.cast_sub h]
    push_cast
    ring
  have hE : ∀ k k' : ℕ, patchDist d d N N k k' = √((((k : ℝ) - N) * d) ^ 2 + (((k' : ℝ) - N) * d) ^ 2) := by
    intro k k'
    unfold patchDist
    simp only [sq]
  constructor
  · rintro ⟨⟨qx, qy⟩, ⟨h1, h2⟩, rfl, h3⟩
    simp only at h1 h2 h3
    have key : ∀ a b : ℝ, √(a ^ 2 + b ^ 2) ≤ xthr → |a| < 1.1 * xthr := by
      intro a b h
      have : |a| ≤ √(a ^ 2 + b ^ 2) := by
        rw [← Real.sqrt_sq_eq_abs]
        exact Real.sqrt_le_sqrt (by nlinarith [sq_nonneg b])
      norm_num
      linarith
    have kk : ∀ i j : ℕ, |((j : ℝ) - i) * d| < 1.1 * xthr → j ≤ i + N ∧ i ≤ j + N := by
      intro i j h
      have mono : ∀ m : ℕ, ((m : ℝ)) * d < 1.1 * xthr → m ≤ N := by
        intro m hm
        rw [hN, patchSize]
        apply Nat.le_floor
        rw [le_div_iff₀ hd]
        refine hm.le.trans ?_
        norm_num
        linarith
      rw [abs_lt] at h
      constructor
      · rcases le_total j i with hji | hji
        · omega
        · have := mono (j - i) (by rw [Nat.cast_sub hji]; exact h.2)
          omega
      · rcases le_total i j with hji | hji
        · omega
        · have := mono (i - j) (by rw [Nat.cast_sub hji]; nlinarith [h.1])
          omega
    obtain ⟨a1, a2⟩ := kk ix qx (key _ _ h3)
    obtain ⟨b1, b2⟩ := kk iy qy (key _ (((qx : ℝ) - ix) * d) (by rw [add_comm]; exact h3))
    refine ⟨qy + N - iy, ?_, qx + N - ix, ?_, ?_, ?_⟩
    · rw [List.mem_filter, List.mem_range, decide_eq_true_eq]; omega
    · rw [List.mem_filter, List.mem_range, decide_eq_true_eq]; omega
    · rw [hE, ← hD ix _ (by omega), ← hD iy _ (by omega), show ix + (qx + N - ix) - N = qx by omega,
        show iy + (qy + N - iy) - N = qy by omega]
      exact h3
    · rw [show ix + (qx + N - ix) - N = qx by omega, show iy + (qy + N - iy) - N = qy by omega]
  · rintro ⟨iyy, hy, ixx, hx', h, rfl⟩
    rw [List.mem_filter, List.mem_range, decide_eq_true_eq] at hy hx'
    refine ⟨(ix + ixx - N, iy + iyy - N), ⟨?_, ?_⟩, rfl, ?_⟩
    · simp only; omega
    · simp only; omega
    · simp only
      rw [hD ix _ (by omega), hD iy _ (by omega), ← hE]
      exact h

theorem apoLoop_smooth (fs : FlatInfo) (mask : ℕ → ℝ) (aporad : ℝ) (order : List ℕ) : ∀ o,
    apoLoop (apoStepFlatSmooth fs mask aporad) order o =
      .ok (order.foldl (fun o ip => if mask ip ≤ 0 then smoothStep fs (2.5 * aporad) (fs.lx / fs.nx) o ip else o) o) := by
  induction order with
  | nil => intro o; rfl
  | cons ip order ih =>
    intro o
    unfold apoLoop
    have : apoStepFlatSmooth fs mask aporad o ip =
        .ok (if mask ip ≤ 0 then smoothStep fs (2.5 * aporad) (fs.lx / fs.nx) o ip else o) := by
      unfold apoStepFlatSmooth smoothStep
      by_cases c : mask ip ≤ 0
      · simp only [if_pos c]
      · simp only [if_neg c]
    rw [this, List.foldl_cons]
    exact ih _

/-- `g` is the mask with the holes grown: zero where a masked pixel lies within 2.5 scales, the mask elsewhere. -/
def GrownMask (fs : FlatInfo) (mask : ℕ → ℝ) (scale : ℝ) (g : ℕ → ℝ) : Prop :=
  ∀ p, fs.Has p →
    ((∃ q, fs.Has q ∧ fs.at mask q ≤ 0 ∧ flatDist fs p q ≤ 2.5 * scale) → fs.at g p = 0) ∧
    ((∀ q, fs.Has q → fs.at mask q ≤ 0 → 2.5 * scale < flatDist fs p q) → fs.at g p = fs.at mask p)

/-- For square pixels the type "Smooth" returns the mask multiplied by the smoothed mask with grown holes, in whatever order
threads visit the pixels. Missing: other pixels, whose distances are wrong as in `C42_aspect_wrong`. -/
theorem C42_smooth_partial (smooth : FlatInfo → ℝ → (ℕ → ℝ) → ℕ → ℝ) (fs : FlatInfo) (hsq : fs.lx / fs.nx = fs.ly / fs.ny)
    (mask : ℕ → ℝ) (aposize : ℝ) (hx : 0 < fs.lx) (hy : 0 < fs.ly) (hnx : 0 < fs.nx) (hny : 0 < fs.ny) (ha : 0 < aposize)
    (order : List ℕ) (ho : order.Perm (List.range (fs.nx * fs.ny))) :
    ∃ g m, maskApodizationFlat smooth 2 fs mask aposize "Smooth" order = .ok m ∧
      GrownMask fs mask (aposize * π / 180) g ∧
      ∀ p, fs.Has p → fs.at m p = fs.at mask p * fs.at (smooth fs (aposize * π / 180) g) p := by
  have hpos : ∀ p, fs.Has p → p.1 + fs.nx * p.2 < fs.nx * fs.ny := by
    intro p hp
    calc p.1 + fs.nx * p.2 < fs.nx + fs.nx * p.2 := by have := hp.1; omega
      _ = fs.nx * (p.2 + 1) := by ring
      _ ≤ fs.nx * fs.ny := Nat.mul_le_mul_left _ hp.2
  have hd : 0 < fs.lx / fs.nx := div_pos hx (by exact_mod_cast hnx)
  have hinj : ∀ p q, fs.Has p → fs.Has q → p.1 + fs.nx * p.2 = q.1 + fs.nx * q.2 → p = q := by
    intro p q hp hq h
    have h1 : p.1 = q.1 := by
      have := congrArg (· % fs.nx) h
      simp only [Nat.add_mul_mod_self_left] at this
      rwa [Nat.mod_eq_of_lt hp.1, Nat.mod_eq_of_lt hq.1] at this
    have h2 : p.2 = q.2 := by
      rw [h1] at h
      exact Nat.eq_of_mul_eq_mul_left hnx (by omega)
    exact Prod.ext h1 h2
  unfold maskApodizationFlat nmtApodizeFlat
  rw [if_neg (by simp), if_neg (by omega), if_neg (not_not.2 hx), if_neg (not_not.2 hy), if_neg (by linarith),
    if_neg ha.ne', if_neg (by decide), if_neg (by decide), if_pos rfl]
  unfold apodizeFlatSmooth
  rw [apoLoop_smooth]
  refine ⟨order.foldl (fun o ip => if mask ip ≤ 0 then smoothStep fs (2.5 * (aposize * π / 180)) (fs.lx / fs.nx) o ip
    else o) (tab (fs.nx * fs.ny) mask), _, rfl, fun p hp => ?_, fun p hp => ?_⟩
  swap
  · unfold FlatInfo.at
    rw [tab_of_lt _ (hpos p hp)]
  set R := aposize * π / 180
  have hR : 0 < R := by positivity
  have hz := zeroesOn_foldl (fun ip o => if mask ip ≤ 0 then smoothStep fs (2.5 * R) (fs.lx / fs.nx) o ip else o)
    (fun ip p => mask ip ≤ 0 ∧ ∃ q, fs.Has q ∧ p = q.1 + fs.nx * q.2 ∧
        √((((q.1 : ℝ) - (ip % fs.nx : ℕ)) * (fs.lx / fs.nx)) ^ 2 + (((q.2 : ℝ) - (ip / fs.nx : ℕ)) * (fs.lx / fs.nx)) ^ 2)
          ≤ 2.5 * R) order (by
      intro ip _ o p
      by_cases c : mask ip ≤ 0
      · simp only [if_pos c]
        have := smoothStep_zeroes fs (2.5 * R) (fs.lx / fs.nx) (by positivity) hd (ip % fs.nx) (ip / fs.nx)
          (Nat.mod_lt _ hnx) o p
        simp only [Nat.mod_add_div] at this
        exact ⟨fun h => this.1 h.2, fun h => this.2 (fun h' => h ⟨c, h'⟩)⟩
      · simp only [if_neg c]
        exact ⟨fun h => absurd h.1 c, fun _ => trivial⟩) (tab (fs.nx * fs.ny) mask) (p.1 + fs.nx * p.2)
  have hdist : ∀ q, √((((p.1 : ℝ) - q.1) * (fs.lx / fs.nx)) ^ 2 + (((p.2 : ℝ) - q.2) * (fs.lx / fs.nx)) ^ 2) =
      flatDist fs p q := by
    intro q
    unfold flatDist
    rw [← hsq]
    congr 1
    ring
  constructor
  · rintro ⟨q, hq, hm, hdq⟩
    refine hz.1 ⟨q.1 + fs.nx * q.2, ho.mem_iff.2 (List.mem_range.2 (hpos q hq)), hm, p, hp, rfl, ?_⟩
    rw [Nat.add_mul_mod_self_left, Nat.mod_eq_of_lt hq.1, Nat.add_mul_div_left _ _ hnx, Nat.div_eq_of_lt hq.1, zero_add,
      hdist]
    exact hdq
  · intro h
    refine (hz.2 ?_).trans (tab_of_lt _ (hpos p hp))
    rintro ⟨ip, hip, hm, q, hq, he, hdq⟩
    rw [← hinj p q hp hq he, hdist (ip % fs.nx, ip / fs.nx)] at hdq
    have hlt := List.mem_range.1 (ho.mem_iff.1 hip)
    have := h (ip % fs.nx, ip / fs.nx) ⟨Nat.mod_lt _ hnx, Nat.div_lt_of_lt_mul hlt⟩ (by
      unfold FlatInfo.at
      simp only [Nat.mod_add_div]
      exact hm)
    linarith

/-- Two pixels at a distance of one scale: the hole is grown over the unmasked one. -/
example : ∃ g m, maskApodizationFlat (fun _ _ f => f) 2 ⟨2, 1, 2, 1⟩ (fun p => (p : ℝ)) (180 / π) "Smooth" [0, 1] = .ok m ∧
    GrownMask ⟨2, 1, 2, 1⟩ (fun p => (p : ℝ)) (180 / π * π / 180) g ∧ g 1 = 0 := by
  obtain ⟨g, m, h1, h2, -⟩ := C42_smooth_partial (fun _ _ f => f) ⟨2, 1, 2, 1⟩ (by norm_num) (fun p => (p : ℝ)) (180 / π)
    (by norm_num) (by norm_num) (by norm_num) (by norm_num) (by positivity) [0, 1] (List.Perm.refl _)
  refine ⟨g, m, h1, h2, (h2 (1, 0) ⟨by norm_num, by norm_num⟩).1 ⟨(0, 0), ⟨by norm_num, by norm_num⟩, ?_, ?_⟩⟩
  · simp [FlatInfo.at]
  · have hpi := pi_pos.ne'
    unfold flatDist
    rw [show 180 / π * π / 180 = 1 by field_simp]
    rw [Real.sqrt_le_iff]
    norm_num

/-! ## Rectangular pixels -/

namespace FlatApoExample

/-- A map of 1×2 pixels of size 1×10. -/
noncomputable def fsA : FlatInfo := ⟨1, 2, 1, 20⟩

/-- The first pixel is masked. -/
noncomputable def maskA : ℕ → ℝ := fun p => if p = 0 then 0 else 1

theorem patchA : patchSize 2 1 = 2 := by
  unfold patchSize
  rw [Nat.floor_eq_iff (by norm_num)]
  norm_num

theorem rminA : flatRmin fsA maskA 1 1 2 2 0 1 = 1 := by
  obtain ⟨-, h2, h3⟩ := flatRmin_spec fsA maskA 1 1 2 2 0 1
  refine le_antisymm ?_ ?_
  · refine (h2 (0, 0) ⟨⟨by decide, by decide⟩, ?_, by decide, by decide, by decide, by decide⟩).trans ?_
    · simp [FlatInfo.at, maskA]
    · norm_num
  · rcases h3 with h3 | ⟨⟨qx, qy⟩, ⟨⟨a, b⟩, hm, -⟩, he⟩
    · rw [h3]; norm_num
    · rw [he]
      have a : qx < 1 := a
      have b : qy < 2 := b
      have hx : qx = 0 := by omega
      subst hx
      interval_cases qy
      · norm_num
      · exfalso
        simp [FlatInfo.at, fsA, maskA] at hm
        linarith

end FlatApoExample

open FlatApoExample in
/-- C42 is false for pixels that are not square: two pixels of size 1×10 (radians) one above the other, the first masked, are
10 apart; with a scale of 2 the second pixel is multiplied by 1/2 instead of keeping its value. -/
theorem C42_aspect_wrong (smooth : FlatInfo → ℝ → (ℕ → ℝ) → ℕ → ℝ) :
    ∃ m, maskApodizationFlat smooth 2 fsA maskA (360 / π) "C2" [0, 1] = .ok m ∧ fsA.Has (0, 1) ∧ fsA.at maskA (0, 1) = 1 ∧
      (∀ q, fsA.Has q → fsA.at maskA q ≤ 0 → flatDist fsA (0, 1) q = 10) ∧ fsA.at m (0, 1) = 1 / 2 ∧
      ¬ FlatApodisedTo fsA maskA (360 / π * π / 180) true (0, 1) (fsA.at m (0, 1)) := by
  have hpi := pi_pos
  have hR : 360 / π * π / 180 = 2 := by
    rw [div_mul_cancel₀ _ hpi.ne']; norm_num
  have hrun : maskApodizationFlat smooth 2 fsA maskA (360 / π) "C2" [0, 1] =
      .ok (tab (fsA.nx * fsA.ny) fun p => maskA p * flatFac fsA maskA (360 / π * π / 180) true p) := by
    unfold maskApodizationFlat nmtApodizeFlat
    rw [if_neg (by simp), if_neg (by decide), if_neg (by simp [fsA]), if_neg (by simp [fsA]),
      if_neg (not_lt.2 (by positivity)), if_neg (by positivity), if_neg (by decide), if_pos rfl,
      apodizeFlatCX_eq fsA maskA (360 / π) true [0, 1] (by decide)]
  have hv : fsA.at (tab (fsA.nx * fsA.ny) fun p => maskA p * flatFac fsA maskA (360 / π * π / 180) true p) (0, 1) = 1 / 2 := by
    unfold FlatInfo.at
    rw [tab_of_lt _ (by decide), hR]
    have hidx : ((0 : ℕ), (1 : ℕ)).1 + fsA.nx * ((0 : ℕ), (1 : ℕ)).2 = 1 := rfl
    rw [hidx]
    have hd : fsA.lx / (fsA.nx : ℝ) = 1 := by simp [fsA]
    unfold flatFac
    rw [hd, patchA, show 1 % fsA.nx = 0 from rfl, show 1 / fsA.nx = 1 from rfl, rminA, if_pos (by simp [maskA]),
      if_pos (by norm_num), if_neg (by norm_num)]
    simp only [maskA, apoF, if_true]
    rw [if_neg (by norm_num), show (1 : ℝ) * (1 / 2) * π = π / 2 by ring, cos_pi_div_two]
    norm_num
  have h1 : fsA.at maskA (0, 1) = 1 := by simp [FlatInfo.at, fsA, maskA]
  have hdist : ∀ q, fsA.Has q → fsA.at maskA q ≤ 0 → flatDist fsA (0, 1) q = 10 := by
    rintro ⟨qx, qy⟩ ⟨a, b⟩ hm
    have a : qx < 1 := a
    have b : qy < 2 := b
    have hx : qx = 0 := by omega
    subst hx
    interval_cases qy
    · unfold flatDist fsA
      norm_num
      rw [show (100 : ℝ) = 10 ^ 2 by norm_num, Real.sqrt_sq (by norm_num)]
    · exfalso
      rw [h1] at hm
      linarith
  refine ⟨_, hrun, ⟨by decide, by decide⟩, h1, hdist, hv, ?_⟩
  rintro ⟨-, h, -⟩
  have := h (by rw [h1]; norm_num) (by
    intro q hq hm
    rw [hdist q hq hm, hR]; norm_num)
  rw [hv, h1] at this
  norm_num at this

/-- The hypotheses of `C42_nearest_partial` can be met: two square pixels, the first masked. -/
example (smooth : FlatInfo → ℝ → (ℕ → ℝ) → ℕ → ℝ) : ∃ m,
    maskApodizationFlat smooth 2 ⟨1, 2, 1, 2⟩ FlatApoExample.maskA 90 "C1" [1, 0] = .ok m ∧
    FlatApodisedTo ⟨1, 2, 1, 2⟩ FlatApoExample.maskA (90 * π / 180) false (0, 1) (FlatInfo.at ⟨1, 2, 1, 2⟩ m (0, 1)) := by
  obtain ⟨m, h, -⟩ := C42_bounds smooth ⟨1, 2, 1, 2⟩ FlatApoExample.maskA 90 (by norm_num) (by norm_num) (by norm_num)
    (by norm_num) "C1" (Or.inl rfl)
  have hm := h [1, 0] (by decide)
  refine ⟨m, hm, C42_nearest_partial smooth ⟨1, 2, 1, 2⟩ (by norm_num) _ 90 (by norm_num) (by norm_num) (by norm_num) ?_
    false [1, 0] (by decide) m hm (0, 1) ⟨by decide, by decide⟩⟩
  have := pi_le_four
  linarith

end NaMaster
