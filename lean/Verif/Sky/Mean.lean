import Verif.Sky.Lemmas
import Mathlib.MeasureTheory.Function.L1Space.Integrable

/-! # Mean spectra of masked fields -/

namespace NaMaster

open Finset MeasureTheory WignerSpec SkySpec
open Complex (I)

local notation "conj" => starRingEnd ℂ

/-- The sum over the lower row. -/
theorem mfac_row (l l' L L' : ℕ) (M M' : ℤ) :
    ∑ m ∈ Icc (-(l : ℤ)) l, ∑ m' ∈ Icc (-(l' : ℤ)) l', mfac l m L M l' m' * mfac l m L' M' l' m' =
      if L = L' ∧ M = M' ∧ CouplingSpec.Triangle L l l' ∧ |M| ≤ L then (2 * l + 1) * (2 * l' + 1) / (4 * Real.pi) else 0 := by
  have hs : ∀ m m', mfac l m L M l' m' * mfac l m L' M' l' m' =
      Real.sqrt ((2 * l + 1) * (2 * L + 1) * (2 * l' + 1) / (4 * Real.pi)) * (-1) ^ (L + l + l') *
      (Real.sqrt ((2 * l + 1) * (2 * L' + 1) * (2 * l' + 1) / (4 * Real.pi)) * (-1) ^ (L' + l + l')) *
        (wigner3j L l l' M (-m) m' * wigner3j L' l l' M' (-m) m') := by
    intro m m'
    unfold mfac
    rw [wigner3j_first L l l', wigner3j_first L' l l']
    have : ((-1 : ℝ) ^ m) * (-1) ^ m = 1 := by rw [← mul_zpow]; norm_num
    linear_combination Real.sqrt ((2 * l + 1) * (2 * L + 1) * (2 * l' + 1) / (4 * Real.pi)) * (-1) ^ (L + l + l') *
      (Real.sqrt ((2 * l + 1) * (2 * L' + 1) * (2 * l' + 1) / (4 * Real.pi)) * (-1) ^ (L' + l + l')) *
        (wigner3j L l l' M (-m) m' * wigner3j L' l l' M' (-m) m') * this
  simp only [hs, ← mul_sum]
  rw [sum_Icc_neg l (fun m => ∑ m' ∈ Icc (-(l' : ℤ)) l', wigner3j L l l' M m m' * wigner3j L' l l' M' m m'), wigner3j_row]
  by_cases h : L = L' ∧ M = M' ∧ CouplingSpec.Triangle L l l' ∧ |M| ≤ L
  · rw [if_pos h, if_pos h]
    obtain ⟨rfl, -⟩ := h
    rw [mul_mul_mul_comm, Real.mul_self_sqrt (by positivity), sign_mul_self]
    have : (2 * (L : ℝ) + 1) ≠ 0 := by positivity
    field_simp
  · rw [if_neg h, if_neg h, mul_zero]

/-- The coefficient of one harmonic of the sky in the linear form. -/
noncomputable def linFac (Nw : ℕ) (h : ℕ → ℕ → ℕ → ℕ → ℝ) (w : ℕ → ℤ → ℂ) (X l : ℕ) (m : ℤ) (X' : ℕ) (q : ℕ × ℤ) : ℂ :=
  ∑ W ∈ modes Nw, w W.1 W.2 * (mfac l m W.1 W.2 q.1 q.2 * h X l W.1 q.1 : ℝ) * mixc X X' (l + W.1 + q.1)

theorem linCoef_eq (n Nw Nf : ℕ) (h : ℕ → ℕ → ℕ → ℕ → ℝ) (w : ℕ → ℤ → ℂ) (F : ℕ → ℕ → ℤ → ℂ) (X l : ℕ) (m : ℤ) :
    linCoef n Nw Nf h w F X l m = ∑ q ∈ modes Nf, ∑ X' ∈ range n, linFac Nw h w X l m X' q * F X' q.1 q.2 := by
  unfold linCoef linFac
  rw [sum_comm]
  apply sum_congr rfl; intro q _
  simp only [mul_sum, sum_mul]
  rw [sum_comm]
  apply sum_congr rfl; intro X' _
  apply sum_congr rfl; intro W _
  ring

section

variable {Ω : Type*} [MeasurableSpace Ω] {μ : Measure Ω} {n1 n2 Nf : ℕ} {F1 F2 : Ω → ℕ → ℕ → ℤ → ℂ} {C : ℕ → ℕ → ℕ → ℝ}

/-- The mean of a product of two coefficients. -/
theorem linCoef_mean (hI : Isotropic μ n1 n2 Nf F1 F2 C) (N1 N2 : ℕ) (h1 h2 : ℕ → ℕ → ℕ → ℕ → ℝ) (w1 w2 : ℕ → ℤ → ℂ) (X Y l : ℕ) (m : ℤ) :
    Integrable (fun ω => linCoef n1 N1 Nf h1 w1 (F1 ω) X l m * conj (linCoef n2 N2 Nf h2 w2 (F2 ω) Y l m)) μ ∧
    ∫ ω, linCoef n1 N1 Nf h1 w1 (F1 ω) X l m * conj (linCoef n2 N2 Nf h2 w2 (F2 ω) Y l m) ∂μ =
      ∑ q ∈ modes Nf, ∑ X' ∈ range n1, ∑ Y' ∈ range n2,
        linFac N1 h1 w1 X l m X' q * conj (linFac N2 h2 w2 Y l m Y' q) * (C X' Y' q.1 : ℂ) := by
  have e : ∀ ω, linCoef n1 N1 Nf h1 w1 (F1 ω) X l m * conj (linCoef n2 N2 Nf h2 w2 (F2 ω) Y l m) =
      ∑ q ∈ modes Nf, ∑ X' ∈ range n1, ∑ r ∈ modes Nf, ∑ Y' ∈ range n2,
        linFac N1 h1 w1 X l m X' q * conj (linFac N2 h2 w2 Y l m Y' r) * (F1 ω X' q.1 q.2 * conj (F2 ω Y' r.1 r.2)) := by
    intro ω
    rw [linCoef_eq, linCoef_eq]
    rw [sum_mul]
    apply sum_congr rfl; intro q _
    rw [sum_mul]
    apply sum_congr rfl; intro X' _
    rw [map_sum, mul_sum]
    apply sum_congr rfl; intro r _
    rw [map_sum, mul_sum]
    apply sum_congr rfl; intro Y' _
    rw [map_mul]
    ring
  simp only [e]
  have i4 : ∀ q ∈ modes Nf, ∀ X' ∈ range n1, ∀ r ∈ modes Nf, ∀ Y' ∈ range n2, Integrable (fun ω =>
      linFac N1 h1 w1 X l m X' q * conj (linFac N2 h2 w2 Y l m Y' r) * (F1 ω X' q.1 q.2 * conj (F2 ω Y' r.1 r.2))) μ :=
    fun q hq X' hX r hr Y' hY => (hI.integrable X' (mem_range.mp hX) Y' (mem_range.mp hY) q hq r hr).const_mul _
  have i3 := fun q hq X' hX r hr => integrable_finset_sum (μ := μ) (range n2) fun Y' hY => i4 q hq X' hX r hr Y' hY
  have i2 := fun q hq X' hX => integrable_finset_sum (μ := μ) (modes Nf) fun r hr => i3 q hq X' hX r hr
  have i1 := fun q hq => integrable_finset_sum (μ := μ) (range n1) fun X' hX => i2 q hq X' hX
  refine ⟨integrable_finset_sum _ i1, ?_⟩
  rw [integral_finset_sum _ i1]
  apply sum_congr rfl; intro q hq
  rw [integral_finset_sum _ (i2 q hq)]
  apply sum_congr rfl; intro X' hX
  rw [integral_finset_sum _ (i3 q hq X' hX), sum_eq_single_of_mem q hq]
  · rw [integral_finset_sum _ (i4 q hq X' hX q hq)]
    apply sum_congr rfl; intro Y' hY
    rw [integral_const_mul, hI.covariance X' (mem_range.mp hX) Y' (mem_range.mp hY) q hq q hq, if_pos rfl]
  · intro r hr hne
    rw [integral_finset_sum _ (i4 q hq X' hX r hr)]
    apply sum_eq_zero; intro Y' hY
    rw [integral_const_mul, hI.covariance X' (mem_range.mp hX) Y' (mem_range.mp hY) q hq r hr, if_neg hne.symm, mul_zero]

end

/-- The sum over `m` of these means. -/
theorem linFac_sum (n1 n2 Nw Nf : ℕ) {h1 h2 : ℕ → ℕ → ℕ → ℕ → ℝ} (hz : ∀ X l L l', ¬ CouplingSpec.Triangle L l l' → h1 X l L l' = 0)
    (w1 w2 : ℕ → ℤ → ℂ) (C : ℕ → ℕ → ℕ → ℝ) (X Y l : ℕ) :
    ∑ m ∈ Icc (-(l : ℤ)) l, ∑ q ∈ modes Nf, ∑ X' ∈ range n1, ∑ Y' ∈ range n2,
      linFac Nw h1 w1 X l m X' q * conj (linFac Nw h2 w2 Y l m Y' q) * (C X' Y' q.1 : ℂ) =
    ∑ l' ∈ range (Nf + 1), ∑ X' ∈ range n1, ∑ Y' ∈ range n2, (C X' Y' l' : ℂ) * ∑ L ∈ range (Nw + 1),
      (∑ M ∈ Icc (-(L : ℤ)) L, w1 L M * conj (w2 L M)) * ((2 * l + 1) * (2 * l' + 1) / (4 * Real.pi) * h1 X l L l' * h2 Y l L l' : ℝ) *
        (mixc X X' (l + L + l') * conj (mixc Y Y' (l + L + l'))) := by
  have e1 : ∀ m, ∑ q ∈ modes Nf, ∑ X' ∈ range n1, ∑ Y' ∈ range n2,
      linFac Nw h1 w1 X l m X' q * conj (linFac Nw h2 w2 Y l m Y' q) * (C X' Y' q.1 : ℂ) =
      ∑ l' ∈ range (Nf + 1), ∑ m' ∈ Icc (-(l' : ℤ)) l', ∑ X' ∈ range n1, ∑ Y' ∈ range n2, (C X' Y' l' : ℂ) *
        ∑ W ∈ modes Nw, ∑ V ∈ modes Nw, w1 W.1 W.2 * conj (w2 V.1 V.2) * (h1 X l W.1 l' * h2 Y l V.1 l' : ℝ) *
          (mixc X X' (l + W.1 + l') * conj (mixc Y Y' (l + V.1 + l'))) * (mfac l m W.1 W.2 l' m' * mfac l m V.1 V.2 l' m' : ℝ) := by
    intro m
    rw [sum_modes]
    apply sum_congr rfl; intro l' _
    apply sum_congr rfl; intro m' _
    apply sum_congr rfl; intro X' _
    apply sum_congr rfl; intro Y' _
    rw [mul_comm]
    congr 1
    unfold linFac
    rw [map_sum, sum_mul]
    apply sum_congr rfl; intro W _
    rw [mul_sum]
    apply sum_congr rfl; intro V _
    simp only [map_mul, Complex.conj_ofReal]
    push_cast
    ring
  simp only [e1]
  rw [sum_comm]
  apply sum_congr rfl; intro l' _
  have e2 : ∀ (X' Y' : ℕ), ∑ m ∈ Icc (-(l : ℤ)) l, ∑ m' ∈ Icc (-(l' : ℤ)) l', (C X' Y' l' : ℂ) *
        ∑ W ∈ modes Nw, ∑ V ∈ modes Nw, w1 W.1 W.2 * conj (w2 V.1 V.2) * (h1 X l W.1 l' * h2 Y l V.1 l' : ℝ) *
          (mixc X X' (l + W.1 + l') * conj (mixc Y Y' (l + V.1 + l'))) * (mfac l m W.1 W.2 l' m' * mfac l m V.1 V.2 l' m' : ℝ) =
      (C X' Y' l' : ℂ) * ∑ L ∈ range (Nw + 1),
      (∑ M ∈ Icc (-(L : ℤ)) L, w1 L M * conj (w2 L M)) * ((2 * l + 1) * (2 * l' + 1) / (4 * Real.pi) * h1 X l L l' * h2 Y l L l' : ℝ) *
        (mixc X X' (l + L + l') * conj (mixc Y Y' (l + L + l'))) := by
    intro X' Y'
    simp only [← mul_sum]
    congr 1
    have swap : ∑ m ∈ Icc (-(l : ℤ)) l, ∑ m' ∈ Icc (-(l' : ℤ)) l',
        ∑ W ∈ modes Nw, ∑ V ∈ modes Nw, w1 W.1 W.2 * conj (w2 V.1 V.2) * (h1 X l W.1 l' * h2 Y l V.1 l' : ℝ) *
          (mixc X X' (l + W.1 + l') * conj (mixc Y Y' (l + V.1 + l'))) * (mfac l m W.1 W.2 l' m' * mfac l m V.1 V.2 l' m' : ℝ) =
        ∑ W ∈ modes Nw, ∑ V ∈ modes Nw, w1 W.1 W.2 * conj (w2 V.1 V.2) * (h1 X l W.1 l' * h2 Y l V.1 l' : ℝ) *
          (mixc X X' (l + W.1 + l') * conj (mixc Y Y' (l + V.1 + l'))) *
          ((∑ m ∈ Icc (-(l : ℤ)) l, ∑ m' ∈ Icc (-(l' : ℤ)) l', mfac l m W.1 W.2 l' m' * mfac l m V.1 V.2 l' m' : ℝ) : ℂ) := by
      have s1 : ∀ m, ∑ m' ∈ Icc (-(l' : ℤ)) l', ∑ W ∈ modes Nw, ∑ V ∈ modes Nw,
          w1 W.1 W.2 * conj (w2 V.1 V.2) * (h1 X l W.1 l' * h2 Y l V.1 l' : ℝ) *
          (mixc X X' (l + W.1 + l') * conj (mixc Y Y' (l + V.1 + l'))) * (mfac l m W.1 W.2 l' m' * mfac l m V.1 V.2 l' m' : ℝ) =
          ∑ W ∈ modes Nw, ∑ V ∈ modes Nw, ∑ m' ∈ Icc (-(l' : ℤ)) l',
          w1 W.1 W.2 * conj (w2 V.1 V.2) * (h1 X l W.1 l' * h2 Y l V.1 l' : ℝ) *
          (mixc X X' (l + W.1 + l') * conj (mixc Y Y' (l + V.1 + l'))) * (mfac l m W.1 W.2 l' m' * mfac l m V.1 V.2 l' m' : ℝ) := by
        intro m
        rw [sum_comm]
        apply sum_congr rfl; intro W _
        rw [sum_comm]
      simp only [s1]
      rw [sum_comm]
      apply sum_congr rfl; intro W _
      rw [sum_comm]
      apply sum_congr rfl; intro V _
      push_cast
      simp only [mul_sum]
    rw [swap]
    have single : ∀ W ∈ modes Nw, ∑ V ∈ modes Nw, w1 W.1 W.2 * conj (w2 V.1 V.2) * (h1 X l W.1 l' * h2 Y l V.1 l' : ℝ) *
          (mixc X X' (l + W.1 + l') * conj (mixc Y Y' (l + V.1 + l'))) *
          ((∑ m ∈ Icc (-(l : ℤ)) l, ∑ m' ∈ Icc (-(l' : ℤ)) l', mfac l m W.1 W.2 l' m' * mfac l m V.1 V.2 l' m' : ℝ) : ℂ) =
        w1 W.1 W.2 * conj (w2 W.1 W.2) * ((2 * l + 1) * (2 * l' + 1) / (4 * Real.pi) * h1 X l W.1 l' * h2 Y l W.1 l' : ℝ) *
          (mixc X X' (l + W.1 + l') * conj (mixc Y Y' (l + W.1 + l'))) := by
      intro W hW
      rw [sum_eq_single_of_mem W hW]
      · rw [mfac_row]
        by_cases ht : CouplingSpec.Triangle W.1 l l'
        · rw [if_pos ⟨rfl, rfl, ht, (mem_skyModes.mp hW).2⟩]
          push_cast
          ring
        · rw [hz X l W.1 l' ht]
          simp
      · intro V hV hne
        rw [mfac_row, if_neg, Complex.ofReal_zero, mul_zero]
        rintro ⟨a, b, -⟩
        exact hne (Prod.ext a.symm b.symm)
    rw [sum_congr rfl single, sum_modes]
    apply sum_congr rfl; intro L _
    rw [sum_mul, sum_mul]
  have e3 : ∀ g : ℤ → ℤ → ℕ → ℕ → ℂ, ∑ m ∈ Icc (-(l : ℤ)) l, ∑ m' ∈ Icc (-(l' : ℤ)) l', ∑ X' ∈ range n1, ∑ Y' ∈ range n2, g m m' X' Y' =
      ∑ X' ∈ range n1, ∑ Y' ∈ range n2, ∑ m ∈ Icc (-(l : ℤ)) l, ∑ m' ∈ Icc (-(l' : ℤ)) l', g m m' X' Y' := by
    intro g
    have s1 : ∀ m, ∑ m' ∈ Icc (-(l' : ℤ)) l', ∑ X' ∈ range n1, ∑ Y' ∈ range n2, g m m' X' Y' =
        ∑ X' ∈ range n1, ∑ Y' ∈ range n2, ∑ m' ∈ Icc (-(l' : ℤ)) l', g m m' X' Y' := by
      intro m
      rw [sum_comm]
      apply sum_congr rfl; intro X' _
      rw [sum_comm]
    simp only [s1]
    rw [sum_comm]
    apply sum_congr rfl; intro X' _
    rw [sum_comm]
  rw [e3]
  apply sum_congr rfl; intro X' _
  apply sum_congr rfl; intro Y' _
  exact e2 X' Y'

/-- The mean of the spectrum of two masked fields. -/
theorem alm2cl_mean {Ω : Type*} [MeasurableSpace Ω] {μ : Measure Ω} {n1 n2 Nf : ℕ} {F1 F2 : Ω → ℕ → ℕ → ℤ → ℂ} {C : ℕ → ℕ → ℕ → ℝ}
    (hI : Isotropic μ n1 n2 Nf F1 F2 C) (hF1 : ∀ ω, ∀ X < n1, RealCoefs (F1 ω X)) (hF2 : ∀ ω, ∀ X < n2, RealCoefs (F2 ω X))
    {Nw : ℕ} {h1 h2 : ℕ → ℕ → ℕ → ℕ → ℝ} (hz : ∀ X l L l', ¬ CouplingSpec.Triangle L l l' → h1 X l L l' = 0)
    {w1 w2 : ℕ → ℤ → ℂ} (hw1 : RealCoefs w1) (hw2 : RealCoefs w2) {A1 A2 : Ω → Alms} {W1 W2 : ℕ → ℕ → ℂ}
    {X Y l : ℕ} (hA1 : ∀ ω, ∀ m ≤ l, A1 ω X l m = linCoef n1 Nw Nf h1 w1 (F1 ω) X l m)
    (hA2 : ∀ ω, ∀ m ≤ l, A2 ω Y l m = linCoef n2 Nw Nf h2 w2 (F2 ω) Y l m)
    (hW1 : ∀ L ≤ Nw, ∀ m ≤ L, W1 L m = w1 L m) (hW2 : ∀ L ≤ Nw, ∀ m ≤ L, W2 L m = w2 L m) :
    Integrable (fun ω => alm2cl (A1 ω X) (A2 ω Y) l) μ ∧
    ((∫ ω, alm2cl (A1 ω X) (A2 ω Y) l ∂μ : ℝ) : ℂ) = ∑ l' ∈ range (Nf + 1), ∑ X' ∈ range n1, ∑ Y' ∈ range n2, (C X' Y' l' : ℂ) *
      ∑ L ∈ range (Nw + 1), ((2 * l' + 1) * ((2 * L + 1) / (4 * Real.pi) * alm2cl W1 W2 L * h1 X l L l' * h2 Y l L l') : ℝ) *
        (mixc X X' (l + L + l') * conj (mixc Y Y' (l + L + l'))) := by
  have hcl : ∀ ω, (alm2cl (A1 ω X) (A2 ω Y) l : ℂ) = (∑ m ∈ Icc (-(l : ℤ)) l,
      linCoef n1 Nw Nf h1 w1 (F1 ω) X l m * conj (linCoef n2 Nw Nf h2 w2 (F2 ω) Y l m)) / (2 * l + 1) := fun ω =>
    alm2cl_full l (linCoef_real n1 Nw Nf h1 hw1 (hF1 ω) X l) (linCoef_real n2 Nw Nf h2 hw2 (hF2 ω) Y l) (hA1 ω) (hA2 ω)
  have hint : Integrable (fun ω => (alm2cl (A1 ω X) (A2 ω Y) l : ℂ)) μ := by
    simp only [hcl]
    exact (integrable_finset_sum _ fun m _ => (linCoef_mean hI Nw Nw h1 h2 w1 w2 X Y l m).1).div_const _
  refine ⟨by simpa using hint.re, ?_⟩
  rw [← integral_complex_ofReal]
  simp only [hcl]
  rw [integral_div, integral_finset_sum _ fun m _ => (linCoef_mean hI Nw Nw h1 h2 w1 w2 X Y l m).1,
    sum_congr rfl fun m _ => (linCoef_mean hI Nw Nw h1 h2 w1 w2 X Y l m).2, linFac_sum n1 n2 Nw Nf hz, sum_div]
  have hl : (2 * (l : ℂ) + 1) ≠ 0 := by exact_mod_cast (by omega : (2 * l + 1 : ℕ) ≠ 0)
  apply sum_congr rfl; intro l' _
  rw [sum_div]
  apply sum_congr rfl; intro X' _
  rw [sum_div]
  apply sum_congr rfl; intro Y' _
  rw [mul_div_assoc, sum_div]
  congr 1
  apply sum_congr rfl; intro L hL
  rw [mem_range] at hL
  have hL' : (2 * (L : ℂ) + 1) ≠ 0 := by exact_mod_cast (by omega : (2 * L + 1 : ℕ) ≠ 0)
  have hm := alm2cl_full L (hw1 L) (hw2 L) (hW1 L (by omega)) (hW2 L (by omega))
  rw [eq_div_iff hL'] at hm
  rw [← hm]
  push_cast
  have hpi : (Real.pi : ℂ) ≠ 0 := by exact_mod_cast Real.pi_ne_zero
  field_simp

end NaMaster
