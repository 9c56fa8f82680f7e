import Verif.Syn.Interp
import Verif.Flat.MasterLemmas2

/-! # Lemmas for property C61: the spectra of simulated maps -/

namespace NaMaster

open Finset Real MeasureTheory

/-! ## Random numbers -/

/-- The random number with index `n` of the generator `seed + r`: its first (`false`) or second (`true`) component. -/
def drawOf (gauss : ℤ → ℕ → ℝ × ℝ) (seed : ℤ) (x : ℕ × ℕ × Bool) : ℝ :=
  if x.2.2 then (gauss (seed + x.1) x.2.1).2 else (gauss (seed + x.1) x.2.1).1

/-- The random numbers of the generators with seeds `seed, …, seed + T - 1` are uncorrelated and have mean square 1. -/
structure WhiteDraws {Ω : Type*} [MeasurableSpace Ω] (μ : Measure Ω) (gauss : Ω → ℤ → ℕ → ℝ × ℝ) (seed : ℤ) (T : ℕ) : Prop where
  integrable : ∀ x y : ℕ × ℕ × Bool, x.1 < T → y.1 < T → Integrable (fun ω => drawOf (gauss ω) seed x * drawOf (gauss ω) seed y) μ
  cov : ∀ x y : ℕ × ℕ × Bool, x.1 < T → y.1 < T →
    ∫ ω, drawOf (gauss ω) seed x * drawOf (gauss ω) seed y ∂μ = if x = y then 1 else 0

/-- Covariance of linear combinations of uncorrelated numbers. -/
theorem lin_cov {Ω ι : Type*} [MeasurableSpace Ω] {μ : Measure Ω} [DecidableEq ι] (S : Finset ι) (y : Ω → ι → ℝ) (L M : ι → ℂ)
    (hi : ∀ a ∈ S, ∀ b ∈ S, Integrable (fun ω => y ω a * y ω b) μ)
    (hc : ∀ a ∈ S, ∀ b ∈ S, ∫ ω, y ω a * y ω b ∂μ = if a = b then 1 else 0) :
    Integrable (fun ω => (∑ a ∈ S, L a * (y ω a : ℂ)) * star (∑ a ∈ S, M a * (y ω a : ℂ))) μ ∧
    ∫ ω, (∑ a ∈ S, L a * (y ω a : ℂ)) * star (∑ a ∈ S, M a * (y ω a : ℂ)) ∂μ = ∑ a ∈ S, L a * star (M a) := by
  have e : ∀ ω, (∑ a ∈ S, L a * (y ω a : ℂ)) * star (∑ a ∈ S, M a * (y ω a : ℂ)) =
      ∑ a ∈ S, ∑ b ∈ S, (L a * star (M b)) * ((y ω a * y ω b : ℝ) : ℂ) := by
    intro ω
    rw [star_sum, Finset.sum_mul_sum]
    refine Finset.sum_congr rfl fun a _ => Finset.sum_congr rfl fun b _ => ?_
    have : star ((y ω b : ℝ) : ℂ) = ((y ω b : ℝ) : ℂ) := Complex.conj_ofReal _
    rw [star_mul', this]
    push_cast
    ring
  have hint : ∀ a ∈ S, ∀ b ∈ S, Integrable (fun ω => (L a * star (M b)) * ((y ω a * y ω b : ℝ) : ℂ)) μ :=
    fun a ha b hb => ((hi a ha b hb).ofReal).const_mul _
  simp only [e]
  refine ⟨integrable_finset_sum _ fun a ha => integrable_finset_sum _ fun b hb => hint a ha b hb, ?_⟩
  rw [integral_finset_sum _ fun a ha => integrable_finset_sum _ fun b hb => hint a ha b hb]
  refine Finset.sum_congr rfl fun a ha => ?_
  rw [integral_finset_sum _ fun b hb => hint a ha b hb]
  have e2 : ∀ b ∈ S, ∫ ω, (L a * star (M b)) * ((y ω a * y ω b : ℝ) : ℂ) ∂μ = if a = b then L a * star (M b) else 0 := by
    intro b hb
    have e3 : ∫ ω, ((y ω a * y ω b : ℝ) : ℂ) ∂μ = ((∫ ω, y ω a * y ω b ∂μ : ℝ) : ℂ) := integral_ofReal
    rw [integral_const_mul, e3, hc a ha b hb]
    split_ifs <;> simp
  rw [Finset.sum_congr rfl e2, Finset.sum_ite_eq, if_pos ha]

/-! ## The square root of the spectra -/

theorem clmat_symm (A : SynAlm) (k : ℝ) : SymmMat A.nmaps (A.clmat k) := by
  intro i _ j _
  unfold SynAlm.clmat
  rw [min_comm, max_comm]

theorem root_sq {E : Eigen} (hE : E.Correct) (A : SynAlm) {k : ℝ} (hp : PsdMat A.nmaps (A.clmat k)) {i j : ℕ} (hi : i < A.nmaps)
    (hj : j < A.nmaps) : ∑ l ∈ range A.nmaps, A.root E k i l * A.root E k j l = A.clmat k i j := by
  rw [spectral_sum hE (clmat_symm A k) i j hi hj]
  refine Finset.sum_congr rfl fun l hl => ?_
  have h0 := vals_nonneg hE (clmat_symm A k) hp l (Finset.mem_range.mp hl)
  unfold SynAlm.root
  by_cases h : E.vals A.nmaps (A.clmat k) l ≤ 0
  · have h1 : E.vals A.nmaps (A.clmat k) l = 0 := le_antisymm h h0
    rw [if_pos h, h1]; ring
  · rw [if_neg h]
    have := Real.mul_self_sqrt h0
    calc _ = (√(E.vals A.nmaps (A.clmat k) l) * √(E.vals A.nmaps (A.clmat k) l)) * E.vecs A.nmaps (A.clmat k) i l *
        E.vecs A.nmaps (A.clmat k) j l := by ring
      _ = _ := by rw [this]

/-! ## Representatives of opposite modes -/

/-- The mode is one of those for which random numbers are stored unconjugated. -/
def posMode (fs : FlatInfo) (k : ℕ × ℕ) : Prop := (0 < k.1 ∧ 2 * k.1 ≤ fs.nx) ∨ (k.1 = 0 ∧ 0 < k.2 ∧ 2 * k.2 < fs.ny)

instance (fs : FlatInfo) (k : ℕ × ℕ) : Decidable (posMode fs k) := by unfold posMode; infer_instance

/-- The opposite mode. -/
def negMode (fs : FlatInfo) (k : ℕ × ℕ) : ℕ × ℕ := (negIdx fs.nx k.1, negIdx fs.ny k.2)

/-- The mode whose random numbers are used for mode `k`. -/
def repMode (fs : FlatInfo) (k : ℕ × ℕ) : ℕ × ℕ := if k = (0, 0) ∨ posMode fs k then k else negMode fs k

theorem negIdx_cases {n i : ℕ} (hi : i < n) : negIdx n i = if i = 0 then 0 else n - i := by
  split_ifs with h
  · subst h; simp [negIdx]
  · exact negIdx_of_pos (Nat.pos_of_ne_zero h)

/-- For odd numbers of pixels one of two opposite modes is marked. -/
theorem posMode_neg {fs : FlatInfo} (hx : Odd fs.nx) (hy : Odd fs.ny) {k : ℕ × ℕ} (hk : k ∈ fs.modes) (h0 : k ≠ (0, 0)) :
    posMode fs (negMode fs k) ↔ ¬ posMode fs k := by
  obtain ⟨x, hx⟩ := hx
  obtain ⟨y, hy⟩ := hy
  rw [mem_modes] at hk
  unfold posMode negMode
  rw [negIdx_cases hk.1, negIdx_cases hk.2]
  have h0' : k.1 ≠ 0 ∨ k.2 ≠ 0 := by
    by_contra hcon
    push Not at hcon
    exact h0 (Prod.ext hcon.1 hcon.2)
  simp only
  split_ifs <;> omega

theorem negMode_negMode {fs : FlatInfo} {k : ℕ × ℕ} (hk : k ∈ fs.modes) : negMode fs (negMode fs k) = k := by
  rw [mem_modes] at hk
  unfold negMode
  simp only [negIdx_neg hk.1, negIdx_neg hk.2]

theorem negMode_zero (fs : FlatInfo) : negMode fs (0, 0) = (0, 0) := by simp [negMode, negIdx]

theorem repMode_half {fs : FlatInfo} (hx : Odd fs.nx) (hy : Odd fs.ny) {k : ℕ × ℕ} (hk : k ∈ fs.modes) :
    (repMode fs k).1 ≤ fs.nx / 2 ∧ (repMode fs k).2 < fs.ny := by
  have hk' := mem_modes.mp hk
  unfold repMode
  by_cases h : k = (0, 0) ∨ posMode fs k
  · rw [if_pos h]
    rcases h with h | h
    · rw [h]; exact ⟨Nat.zero_le _, hy.pos⟩
    · unfold posMode at h
      exact ⟨by omega, hk'.2⟩
  · rw [if_neg h]
    push Not at h
    have := (posMode_neg hx hy hk h.1).mpr h.2
    refine ⟨?_, negIdx_lt (by omega)⟩
    unfold posMode at this
    omega

/-- Two modes use the same random numbers only if they are equal or opposite. -/
theorem repMode_eq {fs : FlatInfo} (hx : Odd fs.nx) (hy : Odd fs.ny) {k k' : ℕ × ℕ} (hk : k ∈ fs.modes) (hk' : k' ∈ fs.modes)
    (h : repMode fs k = repMode fs k') : k = k' ∨
      (k ≠ (0, 0) ∧ k' ≠ (0, 0) ∧ (posMode fs k ↔ ¬ posMode fs k')) := by
  by_cases hkk : k = k'
  · exact Or.inl hkk
  right
  have hinj : negMode fs k = negMode fs k' → k = k' := fun e => by
    rw [← negMode_negMode hk, ← negMode_negMode hk', e]
  have hz : ∀ q ∈ fs.modes, negMode fs q = (0, 0) → q = (0, 0) := fun q hq e => by
    rw [← negMode_negMode hq, e, negMode_zero]
  unfold repMode at h
  by_cases h1 : k = (0, 0) ∨ posMode fs k
  · rw [if_pos h1] at h
    by_cases h2 : k' = (0, 0) ∨ posMode fs k'
    · rw [if_pos h2] at h; exact absurd h hkk
    · rw [if_neg h2] at h
      push Not at h2
      have hk0 : k ≠ (0, 0) := fun e => h2.1 (hz k' hk' (by rw [← h, e]))
      have hp : posMode fs k := h1.resolve_left hk0
      exact ⟨hk0, h2.1, by simp [hp, h2.2]⟩
  · rw [if_neg h1] at h
    push Not at h1
    by_cases h2 : k' = (0, 0) ∨ posMode fs k'
    · rw [if_pos h2] at h
      have hk0 : k' ≠ (0, 0) := fun e => h1.1 (hz k hk (by rw [h, e]))
      have hp : posMode fs k' := h2.resolve_left hk0
      exact ⟨h1.1, hk0, by simp [hp, h1.2]⟩
    · rw [if_neg h2] at h; exact absurd (hinj h) hkk

theorem kmod_negMode {fs : FlatInfo} {k : ℕ × ℕ} (hk : k ∈ fs.modes) :
    fs.kmod (negMode fs k).1 (negMode fs k).2 = fs.kmod k.1 k.2 := by
  rw [mem_modes] at hk
  unfold FlatInfo.kmod FlatInfo.kx FlatInfo.ky negMode
  rw [waveNum_neg_sq _ hk.1, waveNum_neg_sq _ hk.2]

theorem kmod_repMode {fs : FlatInfo} {k : ℕ × ℕ} (hk : k ∈ fs.modes) :
    fs.kmod (repMode fs k).1 (repMode fs k).2 = fs.kmod k.1 k.2 := by
  unfold repMode
  split_ifs
  · rfl
  · exact kmod_negMode hk

/-- The full array of simulated coefficients. -/
theorem full_cell {A : SynAlm} (hx : Odd A.fs.nx) (hy : Odd A.fs.ny) (v : ℕ → ℕ → ℕ → ℂ) (i : ℕ) {k : ℕ × ℕ} (hk : k ∈ A.fs.modes) :
    fullArr A.fs (fun k => A.cell v i k.1 k.2) k =
      if k = (0, 0) then ((√2 * (v 0 0 i).re : ℝ) : ℂ)
      else if posMode A.fs k then v (repMode A.fs k).1 (repMode A.fs k).2 i
      else star (v (repMode A.fs k).1 (repMode A.fs k).2 i) := by
  obtain ⟨x, hx⟩ := hx
  obtain ⟨y, hy⟩ := hy
  rw [mem_modes] at hk
  by_cases h0 : k = (0, 0)
  · subst h0; simp [fullArr, SynAlm.cell]
  · have h0' : k.1 ≠ 0 ∨ k.2 ≠ 0 := by
      by_contra hcon
      push Not at hcon
      exact h0 (Prod.ext hcon.1 hcon.2)
    rw [if_neg h0]
    unfold fullArr repMode
    by_cases hp : posMode A.fs k
    · rw [if_pos hp, if_pos (Or.inr hp)]
      unfold posMode at hp
      rw [if_pos (by omega)]
      unfold SynAlm.cell
      by_cases h1 : k.1 = 0
      · simp only []
        rw [if_neg (by omega), if_neg (by omega), if_pos (by omega), h1]
      · simp only []
        rw [if_pos h1]
    · have hrep : ¬ (k = (0, 0) ∨ posMode A.fs k) := not_or.mpr ⟨h0, hp⟩
      rw [if_neg hp, if_neg hrep]
      clear hrep
      unfold posMode at hp
      unfold SynAlm.cell negMode
      simp only [negIdx_cases hk.1, negIdx_cases hk.2]
      by_cases h1 : k.1 = 0
      · have h2 : k.2 ≠ 0 := by omega
        simp only [h1, h2, if_true, if_false, ne_eq, not_true_eq_false, Nat.mul_zero, Nat.zero_le]
        rw [if_neg (by omega)]
      · have h2 : ¬ 2 * k.1 ≤ A.fs.nx := by omega
        have h3 : A.fs.nx - k.1 ≠ 0 := by omega
        simp only [h1, h2, h3, if_false, ne_eq, not_false_eq_true, if_true]

end NaMaster
