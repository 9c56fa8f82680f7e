import Verif.Flat.MasterLemmas
import Mathlib.RingTheory.RootsOfUnity.Complex
import Mathlib.Algebra.Field.GeomSum

/-!
# The inverse transform of half-complex arrays

`fftw_plan_dft_c2r_2d` is specified for arrays that are the transform of a real map. Its result for other arrays is
implementation dependent and is left open.
-/

namespace NaMaster

open Finset Real

/-- The full array given by its elements with `ix <= nx/2`. -/
noncomputable def fullArr (fs : FlatInfo) (a : ℕ × ℕ → ℂ) (k : ℕ × ℕ) : ℂ :=
  if 2 * k.1 ≤ fs.nx then a k else star (a (fs.nx - k.1, negIdx fs.ny k.2))

/-- The elements with `ix <= nx/2` are those of the transform of a real map: the columns that are their own mirror images are
conjugate symmetric. -/
def HermHalf (fs : FlatInfo) (a : ℕ × ℕ → ℂ) : Prop :=
  ∀ k ∈ fs.modes, (k.1 = 0 ∨ 2 * k.1 = fs.nx) → a (k.1, negIdx fs.ny k.2) = star (a k)

/-- `fftw_plan_dft_c2r_2d` with `fftw_execute` for maps of one size. -/
structure C2r (fs : FlatInfo) where
  run : (ℕ × ℕ → ℂ) → ℕ × ℕ → ℝ
  reads : ∀ a b, (∀ ix ≤ fs.nx / 2, ∀ iy < fs.ny, a (ix, iy) = b (ix, iy)) → run a = run b
  exact : ∀ a, HermHalf fs a → HasModes fs (run a) (fullArr fs a)

theorem negIdx_mem {fs : FlatInfo} {k : ℕ × ℕ} (hk : k ∈ fs.modes) : (negIdx fs.nx k.1, negIdx fs.ny k.2) ∈ fs.modes := by
  rw [mem_modes] at *
  exact ⟨negIdx_lt (by omega), negIdx_lt (by omega)⟩

theorem fullArr_neg {fs : FlatInfo} {a : ℕ × ℕ → ℂ} (ha : HermHalf fs a) {k : ℕ × ℕ} (hk : k ∈ fs.modes) :
    fullArr fs a (negIdx fs.nx k.1, negIdx fs.ny k.2) = star (fullArr fs a k) := by
  have hk' := mem_modes.mp hk
  unfold fullArr
  simp only
  rcases Nat.eq_zero_or_pos k.1 with h0 | hpos
  · have h1 : negIdx fs.nx k.1 = 0 := by rw [h0]; simp [negIdx]
    rw [h1, if_pos (by omega), if_pos (by omega)]
    have := ha k hk (Or.inl h0)
    rw [h0] at this
    exact this
  · rw [negIdx_of_pos hpos]
    by_cases h2 : 2 * k.1 = fs.nx
    · have h3 : fs.nx - k.1 = k.1 := by omega
      rw [h3, if_pos (by omega), if_pos (by omega)]
      exact ha k hk (Or.inr h2)
    · by_cases h4 : 2 * k.1 ≤ fs.nx
      · rw [if_neg (by omega), if_pos h4, negIdx_neg hk'.2]
        have : fs.nx - (fs.nx - k.1) = k.1 := by omega
        rw [this]
      · rw [if_pos (by omega), if_neg h4, star_star]

/-- The sum of the modes of a Hermitian array is real. -/
theorem herm_sum_real {fs : FlatInfo} {a : ℕ × ℕ → ℂ} (ha : HermHalf fs a) (p : ℕ × ℕ) :
    ((∑ k ∈ fs.modes, fullArr fs a k * Complex.exp (fs.phase k p * Complex.I)).re : ℂ) =
      ∑ k ∈ fs.modes, fullArr fs a k * Complex.exp (fs.phase k p * Complex.I) := by
  rw [← Complex.conj_eq_iff_re, map_sum]
  refine Finset.sum_nbij' (fun k => (negIdx fs.nx k.1, negIdx fs.ny k.2)) (fun k => (negIdx fs.nx k.1, negIdx fs.ny k.2))
    (fun k hk => negIdx_mem hk) (fun k hk => negIdx_mem hk) ?_ ?_ ?_
  · intro k hk
    rw [mem_modes] at hk
    simp only [negIdx_neg hk.1, negIdx_neg hk.2]
  · intro k hk
    rw [mem_modes] at hk
    simp only [negIdx_neg hk.1, negIdx_neg hk.2]
  · intro k hk
    rw [map_mul, fullArr_neg ha hk]
    congr 1
    rw [← Complex.exp_conj, Complex.exp_eq_exp_iff_exists_int]
    rw [mem_modes] at hk
    obtain ⟨m1, h1⟩ := negIdx_phase hk.1 p.1
    obtain ⟨m2, h2⟩ := negIdx_phase hk.2 p.2
    refine ⟨-(m1 + m2), ?_⟩
    have : fs.phase (negIdx fs.nx k.1, negIdx fs.ny k.2) p = -fs.phase k p + (m1 + m2) * (2 * π) := by
      unfold FlatInfo.phase
      simp only [h1, h2]
      ring
    rw [this]
    simp only [map_mul, Complex.conj_ofReal, Complex.conj_I]
    push_cast
    ring

/-- Such a transform exists. -/
noncomputable def C2r.std (fs : FlatInfo) (h : 0 < fs.ny) : C2r fs where
  run a p := (∑ k ∈ fs.modes, fullArr fs a k * Complex.exp (fs.phase k p * Complex.I)).re
  reads a b hab := by
    funext p
    congr 1
    refine Finset.sum_congr rfl fun k hk => ?_
    rw [mem_modes] at hk
    congr 1
    unfold fullArr
    by_cases h2 : 2 * k.1 ≤ fs.nx
    · rw [if_pos h2, if_pos h2]
      exact hab k.1 (by omega) k.2 hk.2
    · rw [if_neg h2, if_neg h2, hab _ (by omega) _ (negIdx_lt h)]
  exact a ha p _ := herm_sum_real ha p

theorem phase_sum_axis {n i : ℕ} (hi : i < n) :
    ∑ p ∈ range n, Complex.exp ((2 * π * (p * i / n : ℝ) : ℝ) * Complex.I) = if i = 0 then (n : ℂ) else 0 := by
  have hn : n ≠ 0 := by omega
  have hn' : (n : ℂ) ≠ 0 := by exact_mod_cast hn
  by_cases h : i = 0
  · subst h; simp
  · rw [if_neg h]
    set z := Complex.exp (2 * π * Complex.I * (i / n)) with hz
    have h1 : ∀ p : ℕ, Complex.exp ((2 * π * (p * i / n : ℝ) : ℝ) * Complex.I) = z ^ p := by
      intro p
      rw [hz, ← Complex.exp_nat_mul]
      congr 1
      push_cast
      ring
    simp only [h1]
    have hz1 : z ≠ 1 := by
      intro hcon
      rw [hz, Complex.exp_eq_one_iff] at hcon
      obtain ⟨m, hm⟩ := hcon
      have h2 : (2 * π * Complex.I : ℂ) ≠ 0 := Complex.two_pi_I_ne_zero
      have h3 : ((i : ℂ) / n) = m := by
        apply mul_left_cancel₀ h2
        rw [hm]; ring
      rw [div_eq_iff hn'] at h3
      have h4 : (i : ℤ) = m * n := by exact_mod_cast h3
      have h5 : (n : ℤ) ∣ i := ⟨m, by rw [h4]; ring⟩
      have h6 : n ∣ i := by exact_mod_cast h5
      exact absurd (Nat.le_of_dvd (by omega) h6) (by omega)
    rw [geom_sum_eq hz1]
    have : z ^ n = 1 := by
      rw [hz, ← Complex.exp_nat_mul, Complex.exp_eq_one_iff]
      exact ⟨i, by field_simp; push_cast; ring⟩
    rw [this, sub_self, zero_div]

theorem phase_sum {fs : FlatInfo} {k : ℕ × ℕ} (hk : k ∈ fs.modes) :
    ∑ p ∈ fs.modes, Complex.exp (fs.phase k p * Complex.I) = if k = (0, 0) then ((fs.nx * fs.ny : ℕ) : ℂ) else 0 := by
  rw [mem_modes] at hk
  unfold FlatInfo.modes
  have h1 : ∀ p : ℕ × ℕ, Complex.exp (fs.phase k p * Complex.I) =
      Complex.exp ((2 * π * (p.1 * k.1 / fs.nx : ℝ) : ℝ) * Complex.I) *
        Complex.exp ((2 * π * (p.2 * k.2 / fs.ny : ℝ) : ℝ) * Complex.I) := by
    intro p
    rw [← Complex.exp_add]
    congr 1
    unfold FlatInfo.phase
    push_cast
    ring
  simp only [h1]
  rw [Finset.sum_product]
  simp only [← Finset.mul_sum]
  rw [← Finset.sum_mul, phase_sum_axis hk.1, phase_sum_axis hk.2]
  obtain ⟨x, y⟩ := k
  by_cases hx : x = 0 <;> by_cases hy : y = 0 <;> simp [hx, hy]

/-- The sum of the pixels is the mode at the origin. -/
theorem hasModes_sum {fs : FlatInfo} {f : ℕ × ℕ → ℝ} {F : ℕ × ℕ → ℂ} (h : HasModes fs f F) (hx : 0 < fs.nx) (hy : 0 < fs.ny) :
    ((∑ p ∈ fs.modes, f p : ℝ) : ℂ) = (fs.nx * fs.ny : ℕ) * F (0, 0) := by
  push_cast
  rw [Finset.sum_congr rfl fun p hp => h p hp, Finset.sum_comm]
  simp only [← Finset.mul_sum]
  rw [Finset.sum_congr rfl fun k hk => by rw [phase_sum hk]]
  simp only [mul_ite, mul_zero]
  rw [Finset.sum_ite_eq' fs.modes (0, 0), if_pos (mem_modes.mpr ⟨hx, hy⟩)]
  push_cast
  ring

end NaMaster
