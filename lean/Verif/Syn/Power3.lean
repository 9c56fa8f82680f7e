import Verif.Syn.Power2

/-! # Lemmas for property C61: from coefficients to maps -/

namespace NaMaster

open Finset Real MeasureTheory

/-! ## Specification of the requested spectra -/

/-- The pairs of maps in the order in which the spectra are given: rows of the upper triangle. -/
def upperPairs (n : ℕ) : List (ℕ × ℕ) := (List.range n).flatMap fun i => (List.range (n - i)).map fun d => (i, i + d)

/-- The spectrum tabulated at the multipoles `0, …, n-1`, continued linearly between them, and by zero from the last one on. -/
noncomputable def tabSpec (n : ℕ) (f : ℕ → ℝ) (k : ℝ) : ℝ :=
  if ⌊k⌋₊ + 1 < n then f ⌊k⌋₊ + (k - ⌊k⌋₊) * (f (⌊k⌋₊ + 1) - f ⌊k⌋₊) else 0

theorem flatMap_range_getElem? {α : Type*} (g : ℕ → List α) {n i d : ℕ} (hi : i < n) (hd : d < (g i).length) :
    ((List.range n).flatMap g)[∑ a ∈ range i, (g a).length + d]? = (g i)[d]? := by
  have hlen : ∀ n, ((List.range n).flatMap g).length = ∑ a ∈ range n, (g a).length := by
    intro n
    induction n with
    | zero => simp
    | succ n ih => rw [List.range_succ, List.flatMap_append, List.length_append, ih, Finset.sum_range_succ]; simp
  induction n with
  | zero => omega
  | succ n ih =>
    rw [List.range_succ, List.flatMap_append]
    rcases Nat.lt_or_ge i n with h | h
    · rw [List.getElem?_append_left, ih h]
      rw [hlen]
      calc _ < ∑ a ∈ range i, (g a).length + (g i).length := by omega
        _ = ∑ a ∈ range (i + 1), (g a).length := (Finset.sum_range_succ _ _).symm
        _ ≤ _ := Finset.sum_le_sum_of_subset (by intro x; simp only [mem_range]; omega)
    · obtain rfl : i = n := by omega
      rw [List.getElem?_append_right (by rw [hlen]; omega), hlen]
      simp

theorem upperPairs_at {n i j : ℕ} (hij : i ≤ j) (hj : j < n) : (upperPairs n)[triIdx n i j]? = some (i, j) := by
  unfold upperPairs triIdx
  have := flatMap_range_getElem? (fun i => (List.range (n - i)).map fun d => (i, i + d)) (n := n) (i := i) (d := j - i)
    (by omega) (by simp; omega)
  simp only [List.length_map, List.length_range] at this
  rw [this, List.getElem?_map, List.getElem?_range (by omega)]
  simp
  omega

theorem upperPairs_mem {n r i j : ℕ} (h : (upperPairs n)[r]? = some (i, j)) : i ≤ j ∧ j < n := by
  have := List.mem_of_getElem? h
  simp only [upperPairs, List.mem_flatMap, List.mem_range, List.mem_map, Prod.mk.injEq] at this
  obtain ⟨a, ha, d, hd, rfl, rfl⟩ := this
  omega

theorem upperPairs_nodup (n : ℕ) : (upperPairs n).Nodup := by
  unfold upperPairs
  rw [List.nodup_flatMap]
  refine ⟨fun i _ => ?_, ?_⟩
  · exact List.Nodup.map (fun a b h => by simpa using h) List.nodup_range
  · refine List.nodup_range.imp ?_
    intro a b hab x hx hy
    simp only [List.mem_map, List.mem_range] at hx hy
    obtain ⟨_, _, rfl⟩ := hx
    obtain ⟨_, _, h⟩ := hy
    exact hab (Prod.mk.inj h).1.symm

theorem upperPairs_idx {n r i j : ℕ} (h : (upperPairs n)[r]? = some (i, j)) : r = triIdx n i j := by
  obtain ⟨h1, h2⟩ := upperPairs_mem h
  have h3 := upperPairs_at h1 h2
  have hr := (List.getElem?_eq_some_iff.mp h).1
  exact (List.getElem?_inj hr (upperPairs_nodup n)).mp (h.trans h3.symm)

/-- The interpolation of the library is the specified one. -/
theorem interp_range (f : ℕ → ℝ) (m : ℕ) : ∀ (s : ℕ) (k : ℝ), (s : ℝ) ≤ k → k < (s + m : ℕ) →
    interpLin ((List.range' s (m + 1)).map fun l : ℕ => ((l : ℝ), f l)) k = f ⌊k⌋₊ + (k - ⌊k⌋₊) * (f (⌊k⌋₊ + 1) - f ⌊k⌋₊) := by
  induction m with
  | zero => intro s k h1 h2; simp at h2; linarith
  | succ m ih =>
    intro s k h1 h2
    rw [List.range'_succ, List.range'_succ]
    simp only [List.map_cons]
    unfold interpLin
    by_cases h : k < ((s + 1 : ℕ) : ℝ)
    · simp only [if_pos h]
      have hf : ⌊k⌋₊ = s := by
        rw [Nat.floor_eq_iff (le_trans (Nat.cast_nonneg _) h1)]
        exact ⟨h1, by push_cast at h; exact h⟩
      rw [hf]
      push_cast
      rw [add_sub_cancel_left, div_one]
    · simp only [if_neg h]
      have := ih (s + 1) k (not_lt.mp h) (by rw [show s + 1 + m = s + (m + 1) by ring]; exact h2)
      rw [List.range'_succ] at this
      simpa using this

theorem synKfun_tab {n : ℕ} (hn : 2 ≤ n) (f : ℕ → ℝ) {k : ℝ} (hk : 0 ≤ k) : synKfun n f k = tabSpec n f k := by
  rw [synKfun_eq hn]
  unfold tabSpec
  by_cases h0 : k ≤ 0
  · obtain rfl : k = 0 := le_antisymm h0 hk
    rw [if_pos (le_refl _)]
    simp
    omega
  · rw [if_neg h0]
    by_cases h1 : ((n - 1 : ℕ) : ℝ) ≤ k
    · rw [if_pos h1, if_neg]
      have := Nat.le_floor h1
      omega
    · rw [if_neg h1, if_pos]
      · obtain ⟨m, rfl⟩ := Nat.exists_eq_add_of_le' (by omega : 1 ≤ n)
        rw [List.range_eq_range']
        refine interp_range f m 0 k (by simpa using hk) ?_
        push Not at h1
        simpa using h1
      · have := (Nat.floor_lt hk).mpr (not_le.mp h1)
        omega

/-! ## Positive spectra -/

theorem clmat_psd (a : SynFlatArgs) (hn : 2 ≤ a.cls.cols) (hlx : 0 < a.fs.lx) (hly : 0 < a.fs.ly)
    (hpsd : ∀ l < a.cls.cols, PsdMat a.nmaps fun i j => a.cls.val (triIdx a.nmaps (min i j) (max i j)) l) (k : ℝ) :
    PsdMat a.toAlm.nmaps (a.toAlm.clmat k) := by
  intro x
  have e : ∑ i ∈ range a.nmaps, ∑ j ∈ range a.nmaps, x i * a.toAlm.clmat k i j * x j =
      1 / 2 * (1 / (2 * π / a.fs.lx * (2 * π / a.fs.ly))) *
        synKfun a.cls.cols (fun l => ∑ q ∈ range a.nmaps ×ˢ range a.nmaps,
          (x q.1 * x q.2) * a.cls.val (triIdx a.nmaps (min q.1 q.2) (max q.1 q.2)) l) k := by
    rw [synKfun_sum hn, Finset.mul_sum, Finset.sum_product]
    refine Finset.sum_congr rfl fun i _ => Finset.sum_congr rfl fun j _ => ?_
    simp only [SynAlm.clmat, SynFlatArgs.toAlm]
    ring
  have h0 : 0 ≤ synKfun a.cls.cols (fun l => ∑ q ∈ range a.nmaps ×ˢ range a.nmaps,
      (x q.1 * x q.2) * a.cls.val (triIdx a.nmaps (min q.1 q.2) (max q.1 q.2)) l) k := by
    refine synKfun_nonneg hn (fun l hl => ?_) k
    have := hpsd l hl x
    rw [Finset.sum_product]
    refine this.trans_eq (Finset.sum_congr rfl fun i _ => Finset.sum_congr rfl fun j _ => ?_)
    ring
  show 0 ≤ ∑ i ∈ range a.nmaps, ∑ j ∈ range a.nmaps, x i * a.toAlm.clmat k i j * x j
  rw [e]
  positivity

/-- A vanishing spectrum gives vanishing coefficients. -/
theorem root_zero {E : Eigen} (hE : E.Correct) (A : SynAlm) {k : ℝ} (hp : PsdMat A.nmaps (A.clmat k)) {i : ℕ} (hi : i < A.nmaps)
    (h0 : A.clmat k i i = 0) {j : ℕ} (hj : j < A.nmaps) : A.root E k i j = 0 := by
  have h := root_sq hE A hp hi hi
  rw [h0] at h
  have h1 := (Finset.sum_eq_zero_iff_of_nonneg fun l _ => mul_self_nonneg _).mp h j (mem_range.mpr hj)
  exact mul_self_eq_zero.mp h1

/-! ## Rotation -/

theorem waveNum_ne_zero {n i : ℕ} {l : ℝ} (hl : 0 < l) (hi : i < n) (h0 : i ≠ 0) : waveNum n l i ≠ 0 := by
  unfold waveNum
  have h1 : 0 < 2 * π / l := by positivity
  by_cases h : 2 * i ≤ n
  · rw [if_pos h]
    have : (0 : ℝ) < i := by positivity
    positivity
  · rw [if_neg h]
    have h2 : (i : ℝ) < n := by exact_mod_cast hi
    have h3 : 0 < (n : ℝ) - i := by linarith
    exact mul_ne_zero (neg_ne_zero.mpr h3.ne') h1.ne'

/-- E and B coefficients of real fields: the rotated coefficients are those of real maps. -/
theorem rot_full {fs : FlatInfo} (hx : Odd fs.nx) (hy : Odd fs.ny) (hlx : 0 < fs.lx) (hly : 0 < fs.ly) (s : ℕ) {a b : ℕ × ℕ → ℂ}
    (ha : HermHalf fs a) (hb : HermHalf fs b) (h0 : Even s ∨ (a (0, 0) = 0 ∧ b (0, 0) = 0)) :
    let q := fun k : ℕ × ℕ => eb2qu s (fs.kx k.1) (fs.ky k.2) (a k, b k)
    (HermHalf fs fun k => (q k).1) ∧ (HermHalf fs fun k => (q k).2) ∧
      ∀ k ∈ fs.modes, fullArr fs (fun k => (q k).1) k = (eb2qu s (fs.kx k.1) (fs.ky k.2) (fullArr fs a k, fullArr fs b k)).1 ∧
        fullArr fs (fun k => (q k).2) k = (eb2qu s (fs.kx k.1) (fs.ky k.2) (fullArr fs a k, fullArr fs b k)).2 := by
  intro q
  have hneg : ∀ k ∈ fs.modes, ∀ z : ℂ × ℂ, (k = (0, 0) → Even s ∨ z = (0, 0)) →
      eb2qu s (fs.kx (negIdx fs.nx k.1)) (fs.ky (negIdx fs.ny k.2)) (star z.1, star z.2) =
        (star (eb2qu s (fs.kx k.1) (fs.ky k.2) z).1, star (eb2qu s (fs.kx k.1) (fs.ky k.2) z).2) := by
    intro k hk z hz
    have hk' := mem_modes.mp hk
    have e1 : fs.kx (negIdx fs.nx k.1) = -fs.kx k.1 := waveNum_neg _ hk'.1 (by obtain ⟨x, hx⟩ := hx; omega)
    have e2 : fs.ky (negIdx fs.ny k.2) = -fs.ky k.2 := waveNum_neg _ hk'.2 (by obtain ⟨y, hy⟩ := hy; omega)
    rw [e1, e2]
    refine eb2qu_conj s _ _ z ?_
    by_cases hk0 : k = (0, 0)
    · exact Or.inr (hz hk0)
    · left
      rintro ⟨h1, h2⟩
      apply hk0
      by_contra hne
      rcases Nat.eq_zero_or_pos k.1 with h3 | h3
      · rcases Nat.eq_zero_or_pos k.2 with h4 | h4
        · exact hne (Prod.ext h3 h4)
        · exact waveNum_ne_zero hly hk'.2 h4.ne' h2
      · exact waveNum_ne_zero hlx hk'.1 h3.ne' h1
  have hz0 : ∀ k : ℕ × ℕ, k = (0, 0) → Even s ∨ (a k, b k) = (0, 0) := by
    rintro k rfl
    exact h0.imp id fun h => by rw [h.1, h.2]
  have hherm : ∀ k ∈ fs.modes, (k.1 = 0 ∨ 2 * k.1 = fs.nx) → q (k.1, negIdx fs.ny k.2) = (star (q k).1, star (q k).2) := by
    intro k hk hc
    have hc0 : k.1 = 0 := by
      obtain ⟨x, hx⟩ := hx
      omega
    have e1 : negIdx fs.nx k.1 = k.1 := by rw [hc0]; simp [negIdx]
    have := hneg k hk (a k, b k) (hz0 k)
    rw [e1] at this
    simp only [q]
    rw [ha k hk hc, hb k hk hc]
    exact this
  refine ⟨fun k hk hc => ?_, fun k hk hc => ?_, ?_⟩
  · simp only; rw [hherm k hk hc]
  · simp only; rw [hherm k hk hc]
  · intro k hk
    have hk' := mem_modes.mp hk
    unfold fullArr
    by_cases h : 2 * k.1 ≤ fs.nx
    · simp only [if_pos h]
      exact ⟨rfl, rfl⟩
    · simp only [if_neg h]
      have e1 : fs.nx - k.1 = negIdx fs.nx k.1 := (negIdx_of_pos (by omega)).symm
      have hk2 := negIdx_mem hk
      have := hneg _ hk2 (a (negIdx fs.nx k.1, negIdx fs.ny k.2), b (negIdx fs.nx k.1, negIdx fs.ny k.2)) (hz0 _)
      simp only [negIdx_neg hk'.1, negIdx_neg hk'.2] at this
      rw [e1, this]
      exact ⟨rfl, rfl⟩

theorem eb2qu_smul (s : ℕ) (kx ky : ℝ) (r : ℂ) (a b : ℂ) :
    eb2qu s kx ky (r * a, r * b) = (r * (eb2qu s kx ky (a, b)).1, r * (eb2qu s kx ky (a, b)).2) := by
  unfold eb2qu
  ext <;> simp <;> ring

theorem hasModes_smul {fs : FlatInfo} {f : ℕ × ℕ → ℝ} {F : ℕ × ℕ → ℂ} (h : HasModes fs f F) (r : ℝ) :
    HasModes fs (fun p => f p * r) (fun k => (r : ℂ) * F k) := by
  intro p hp
  push_cast
  rw [h p hp, Finset.sum_mul]
  exact Finset.sum_congr rfl fun k _ => by ring

theorem hasModes_congr {fs : FlatInfo} {f : ℕ × ℕ → ℝ} {F F' : ℕ × ℕ → ℂ} (h : HasModes fs f F) (hF : ∀ k ∈ fs.modes, F k = F' k) :
    HasModes fs f F' := by
  intro p hp
  rw [h p hp]
  exact Finset.sum_congr rfl fun k hk => by rw [hF k hk]

/-- The place of the maps of a field. -/
theorem locate_at {ss : List ℕ} {f s c : ℕ} (h : ss[f]? = some s) (hc : c < nmapsOf s) :
    locate ss (((ss.take f).map nmapsOf).sum + c) = some (f, s, c) := by
  induction ss generalizing f with
  | nil => simp at h
  | cons s' ss ih =>
    unfold locate
    cases f with
    | zero =>
      simp only [List.getElem?_cons_zero, Option.some.injEq] at h
      subst h
      simp [hc]
    | succ f =>
      simp only [List.getElem?_cons_succ] at h
      simp only [List.take_succ_cons, List.map_cons, List.sum_cons]
      rw [if_neg (by omega), show nmapsOf s' + ((ss.take f).map nmapsOf).sum + c - nmapsOf s' = ((ss.take f).map nmapsOf).sum + c by omega,
        ih h]
      rfl

end NaMaster
