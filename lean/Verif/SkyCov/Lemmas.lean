import Verif.SkyCov.Spec
import Verif.Sky.Lemmas

/-! # The covariance of spectra of Gaussian coefficients -/

namespace NaMaster

open Finset MeasureTheory SkySpec

local notation "conj" => starRingEnd ℂ

section
variable {Ω : Type*} [MeasurableSpace Ω] {μ : Measure Ω}

theorem sum_prod4 {ι : Type*} (A B C D : Finset ι) (f g : ι → ι → ℂ) : (∑ i ∈ A, ∑ j ∈ B, f i j) * (∑ p ∈ C, ∑ q ∈ D, g p q) =
    ∑ i ∈ A, ∑ j ∈ B, ∑ p ∈ C, ∑ q ∈ D, f i j * g p q := by
  rw [sum_mul]
  refine sum_congr rfl fun i _ => ?_
  rw [sum_mul]
  refine sum_congr rfl fun j _ => ?_
  rw [mul_sum]
  exact sum_congr rfl fun p _ => mul_sum _ _ _

/-- Linear combinations of Gaussian variables are Gaussian. -/
theorem IsserlisOn.lin {ι κ : Type*} {S : Set ι} {x : ι → Ω → ℂ} (h : IsserlisOn μ S x) {T : Set κ} {y : κ → Ω → ℂ} {s : κ → Finset ι} {c : κ → ι → ℂ}
    (hs : ∀ k ∈ T, ∀ i ∈ s k, i ∈ S) (hy : ∀ k ∈ T, ∀ ω, y k ω = ∑ i ∈ s k, c k i * x i ω) : IsserlisOn μ T y := by
  have e2 : ∀ k ∈ T, ∀ l ∈ T, (fun ω => y k ω * y l ω) = fun ω => ∑ i ∈ s k, ∑ j ∈ s l, c k i * c l j * (x i ω * x j ω) := by
    intro k hk l hl
    funext ω
    rw [hy k hk, hy l hl, sum_mul_sum]
    exact sum_congr rfl fun i _ => sum_congr rfl fun j _ => by ring
  have i2 : ∀ k ∈ T, ∀ l ∈ T, ∀ i ∈ s k, ∀ j ∈ s l, Integrable (fun ω => c k i * c l j * (x i ω * x j ω)) μ :=
    fun k hk l hl i hi j hj => (h.int2 i (hs k hk i hi) j (hs l hl j hj)).const_mul _
  have m2 : ∀ k ∈ T, ∀ l ∈ T, ∫ ω, y k ω * y l ω ∂μ = ∑ i ∈ s k, ∑ j ∈ s l, c k i * c l j * ∫ ω, x i ω * x j ω ∂μ := by
    intro k hk l hl
    rw [e2 k hk l hl, integral_finsetSum _ fun i hi => integrable_finsetSum _ fun j hj => i2 k hk l hl i hi j hj]
    refine sum_congr rfl fun i hi => ?_
    rw [integral_finsetSum _ fun j hj => i2 k hk l hl i hi j hj]
    exact sum_congr rfl fun j _ => integral_const_mul _ _
  have e4 : ∀ k ∈ T, ∀ l ∈ T, ∀ m ∈ T, ∀ n ∈ T, (fun ω => y k ω * y l ω * (y m ω * y n ω)) = fun ω =>
      ∑ i ∈ s k, ∑ j ∈ s l, ∑ p ∈ s m, ∑ q ∈ s n, c k i * c l j * (c m p * c n q) * (x i ω * x j ω * (x p ω * x q ω)) := by
    intro k hk l hl m hm n hn
    funext ω
    rw [show y k ω * y l ω = _ from congrFun (e2 k hk l hl) ω, show y m ω * y n ω = _ from congrFun (e2 m hm n hn) ω, sum_prod4]
    exact sum_congr rfl fun i _ => sum_congr rfl fun j _ => sum_congr rfl fun p _ => sum_congr rfl fun q _ => by ring
  have i4 : ∀ k ∈ T, ∀ l ∈ T, ∀ m ∈ T, ∀ n ∈ T, ∀ i ∈ s k, ∀ j ∈ s l, ∀ p ∈ s m, ∀ q ∈ s n,
      Integrable (fun ω => c k i * c l j * (c m p * c n q) * (x i ω * x j ω * (x p ω * x q ω))) μ :=
    fun k hk l hl m hm n hn i hi j hj p hp q hq =>
      (h.int4 i (hs k hk i hi) j (hs l hl j hj) p (hs m hm p hp) q (hs n hn q hq)).const_mul _
  refine ⟨fun k hk l hl => ?_, fun k hk l hl m hm n hn => ?_, fun k hk l hl m hm n hn => ?_⟩
  · rw [e2 k hk l hl]
    exact integrable_finsetSum _ fun i hi => integrable_finsetSum _ fun j hj => i2 k hk l hl i hi j hj
  · rw [e4 k hk l hl m hm n hn]
    exact integrable_finsetSum _ fun i hi => integrable_finsetSum _ fun j hj => integrable_finsetSum _ fun p hp => integrable_finsetSum _ fun q hq =>
      i4 k hk l hl m hm n hn i hi j hj p hp q hq
  · rw [m2 k hk l hl, m2 m hm n hn, m2 k hk m hm, m2 l hl n hn, m2 k hk n hn, m2 l hl m hm, e4 k hk l hl m hm n hn,
      integral_finsetSum _ fun i hi => integrable_finsetSum _ fun j hj => integrable_finsetSum _ fun p hp => integrable_finsetSum _ fun q hq =>
        i4 k hk l hl m hm n hn i hi j hj p hp q hq]
    have r1 : (∑ i ∈ s k, ∑ j ∈ s l, c k i * c l j * ∫ ω, x i ω * x j ω ∂μ) * (∑ p ∈ s m, ∑ q ∈ s n, c m p * c n q * ∫ ω, x p ω * x q ω ∂μ) =
        ∑ i ∈ s k, ∑ j ∈ s l, ∑ p ∈ s m, ∑ q ∈ s n, c k i * c l j * (c m p * c n q) * ((∫ ω, x i ω * x j ω ∂μ) * ∫ ω, x p ω * x q ω ∂μ) := by
      rw [sum_prod4]
      exact sum_congr rfl fun i _ => sum_congr rfl fun j _ => sum_congr rfl fun p _ => sum_congr rfl fun q _ => by ring
    have r2 : (∑ i ∈ s k, ∑ p ∈ s m, c k i * c m p * ∫ ω, x i ω * x p ω ∂μ) * (∑ j ∈ s l, ∑ q ∈ s n, c l j * c n q * ∫ ω, x j ω * x q ω ∂μ) =
        ∑ i ∈ s k, ∑ j ∈ s l, ∑ p ∈ s m, ∑ q ∈ s n, c k i * c l j * (c m p * c n q) * ((∫ ω, x i ω * x p ω ∂μ) * ∫ ω, x j ω * x q ω ∂μ) := by
      rw [sum_prod4]
      refine sum_congr rfl fun i _ => ?_
      rw [sum_comm]
      exact sum_congr rfl fun j _ => sum_congr rfl fun p _ => sum_congr rfl fun q _ => by ring
    have r3 : (∑ i ∈ s k, ∑ q ∈ s n, c k i * c n q * ∫ ω, x i ω * x q ω ∂μ) * (∑ j ∈ s l, ∑ p ∈ s m, c l j * c m p * ∫ ω, x j ω * x p ω ∂μ) =
        ∑ i ∈ s k, ∑ j ∈ s l, ∑ p ∈ s m, ∑ q ∈ s n, c k i * c l j * (c m p * c n q) * ((∫ ω, x i ω * x q ω ∂μ) * ∫ ω, x j ω * x p ω ∂μ) := by
      rw [sum_prod4]
      refine sum_congr rfl fun i _ => ?_
      rw [sum_comm]
      refine sum_congr rfl fun j _ => ?_
      rw [sum_comm]
      exact sum_congr rfl fun p _ => sum_congr rfl fun q _ => by ring
    rw [r1, r2, r3, ← sum_add_distrib, ← sum_add_distrib]
    refine sum_congr rfl fun i hi => ?_
    rw [integral_finsetSum _ fun j hj => integrable_finsetSum _ fun p hp => integrable_finsetSum _ fun q hq => i4 k hk l hl m hm n hn i hi j hj p hp q hq,
      ← sum_add_distrib, ← sum_add_distrib]
    refine sum_congr rfl fun j hj => ?_
    rw [integral_finsetSum _ fun p hp => integrable_finsetSum _ fun q hq => i4 k hk l hl m hm n hn i hi j hj p hp q hq, ← sum_add_distrib, ← sum_add_distrib]
    refine sum_congr rfl fun p hp => ?_
    rw [integral_finsetSum _ fun q hq => i4 k hk l hl m hm n hn i hi j hj p hp q hq, ← sum_add_distrib, ← sum_add_distrib]
    refine sum_congr rfl fun q hq => ?_
    rw [integral_const_mul, h.fourth i (hs k hk i hi) j (hs l hl j hj) p (hs m hm p hp) q (hs n hn q hq)]
    ring

/-- Four random sets of coefficients. -/
def quadIndex (N : ℕ) : Set (ℕ × ℕ × ℤ) := {q | q.1 < 4 ∧ q.2 ∈ modes N}

/-- The covariance of two spectra of Gaussian coefficients. -/
theorem covar_alm2cl {N : ℕ} {α : ℕ → Ω → ℕ → ℤ → ℂ} (hr : ∀ i < 4, ∀ ω, RealCoefs (α i ω))
    (hg : IsserlisOn μ (quadIndex N) fun q ω => α q.1 ω q.2.1 q.2.2) {A : ℕ → Ω → ℕ → ℕ → ℂ}
    (hA : ∀ i < 4, ∀ ω, ∀ l ≤ N, ∀ m ≤ l, A i ω l m = α i ω l m) {l l' : ℕ} (hl : l ≤ N) (hl' : l' ≤ N) :
    Integrable (fun ω => alm2cl (A 0 ω) (A 1 ω) l) μ ∧ Integrable (fun ω => alm2cl (A 2 ω) (A 3 ω) l') μ ∧
    Integrable (fun ω => alm2cl (A 0 ω) (A 1 ω) l * alm2cl (A 2 ω) (A 3 ω) l') μ ∧
    ((covar μ (fun ω => alm2cl (A 0 ω) (A 1 ω) l) (fun ω => alm2cl (A 2 ω) (A 3 ω) l') : ℝ) : ℂ) =
      (∑ m ∈ Icc (-(l : ℤ)) l, ∑ m' ∈ Icc (-(l' : ℤ)) l',
        ((∫ ω, α 0 ω l m * conj (α 2 ω l' m') ∂μ) * conj (∫ ω, α 1 ω l m * conj (α 3 ω l' m') ∂μ) +
          (∫ ω, α 0 ω l m * conj (α 3 ω l' m') ∂μ) * conj (∫ ω, α 1 ω l m * conj (α 2 ω l' m') ∂μ))) / ((2 * l + 1) * (2 * l' + 1)) := by
  have hsq : ∀ m : ℤ, ((-1 : ℂ) ^ m) * ((-1) ^ m) = 1 := by
    intro m
    rw [← mul_zpow]; norm_num
  have hc : ∀ i < 4, ∀ ω k (m : ℤ), conj (α i ω k m) = (-1) ^ m * α i ω k (-m) := by
    intro i hi ω k m
    rw [hr i hi ω k m, ← mul_assoc, hsq, one_mul]
  have hmem : ∀ i < 4, ∀ k ≤ N, ∀ m ∈ Icc (-(k : ℤ)) k, (i, k, m) ∈ quadIndex N := by
    intro i hi k hk m hm
    rw [mem_Icc] at hm
    refine ⟨hi, ?_⟩
    rw [mem_skyModes]
    exact ⟨hk, abs_le.2 hm⟩
  have hneg : ∀ {k : ℕ} {m : ℤ}, m ∈ Icc (-(k : ℤ)) k → -m ∈ Icc (-(k : ℤ)) k := by
    intro k m hm
    rw [mem_Icc] at hm ⊢
    omega
  have hp : ∀ ω, (alm2cl (A 0 ω) (A 1 ω) l : ℂ) = ∑ m ∈ Icc (-(l : ℤ)) l, (-1) ^ m / (2 * l + 1) * (α 0 ω l m * α 1 ω l (-m)) := by
    intro ω
    rw [alm2cl_full l (hr 0 (by norm_num) ω l) (hr 1 (by norm_num) ω l) (fun m hm => hA 0 (by norm_num) ω l hl m hm)
      (fun m hm => hA 1 (by norm_num) ω l hl m hm), sum_div]
    refine sum_congr rfl fun m _ => ?_
    rw [hc 1 (by norm_num)]
    ring
  have hq : ∀ ω, (alm2cl (A 2 ω) (A 3 ω) l' : ℂ) = ∑ m ∈ Icc (-(l' : ℤ)) l', (-1) ^ m / (2 * l' + 1) * (α 2 ω l' m * α 3 ω l' (-m)) := by
    intro ω
    rw [alm2cl_full l' (hr 2 (by norm_num) ω l') (hr 3 (by norm_num) ω l') (fun m hm => hA 2 (by norm_num) ω l' hl' m hm)
      (fun m hm => hA 3 (by norm_num) ω l' hl' m hm), sum_div]
    refine sum_congr rfl fun m _ => ?_
    rw [hc 3 (by norm_num)]
    ring
  have ip : ∀ m ∈ Icc (-(l : ℤ)) l, Integrable (fun ω => (-1 : ℂ) ^ m / (2 * l + 1) * (α 0 ω l m * α 1 ω l (-m))) μ := fun m hm =>
    (hg.int2 (0, l, m) (hmem 0 (by norm_num) l hl m hm) (1, l, -m) (hmem 1 (by norm_num) l hl _ (hneg hm))).const_mul _
  have iq : ∀ m ∈ Icc (-(l' : ℤ)) l', Integrable (fun ω => (-1 : ℂ) ^ m / (2 * l' + 1) * (α 2 ω l' m * α 3 ω l' (-m))) μ := fun m hm =>
    (hg.int2 (2, l', m) (hmem 2 (by norm_num) l' hl' m hm) (3, l', -m) (hmem 3 (by norm_num) l' hl' _ (hneg hm))).const_mul _
  have ipq : ∀ m ∈ Icc (-(l : ℤ)) l, ∀ m' ∈ Icc (-(l' : ℤ)) l', Integrable (fun ω => (-1 : ℂ) ^ m / (2 * l + 1) * ((-1) ^ m' / (2 * l' + 1)) *
      (α 0 ω l m * α 1 ω l (-m) * (α 2 ω l' m' * α 3 ω l' (-m')))) μ := fun m hm m' hm' =>
    (hg.int4 (0, l, m) (hmem 0 (by norm_num) l hl m hm) (1, l, -m) (hmem 1 (by norm_num) l hl _ (hneg hm))
      (2, l', m') (hmem 2 (by norm_num) l' hl' m' hm') (3, l', -m') (hmem 3 (by norm_num) l' hl' _ (hneg hm'))).const_mul _
  have hpq : ∀ ω, ((alm2cl (A 0 ω) (A 1 ω) l * alm2cl (A 2 ω) (A 3 ω) l' : ℝ) : ℂ) = ∑ m ∈ Icc (-(l : ℤ)) l, ∑ m' ∈ Icc (-(l' : ℤ)) l',
      (-1) ^ m / (2 * l + 1) * ((-1) ^ m' / (2 * l' + 1)) * (α 0 ω l m * α 1 ω l (-m) * (α 2 ω l' m' * α 3 ω l' (-m'))) := by
    intro ω
    rw [Complex.ofReal_mul, hp, hq, sum_mul_sum]
    exact sum_congr rfl fun m _ => sum_congr rfl fun m' _ => by ring
  have Ip : Integrable (fun ω => (alm2cl (A 0 ω) (A 1 ω) l : ℂ)) μ := by
    simp only [hp]; exact integrable_finsetSum _ ip
  have Iq : Integrable (fun ω => (alm2cl (A 2 ω) (A 3 ω) l' : ℂ)) μ := by
    simp only [hq]; exact integrable_finsetSum _ iq
  have Ipq : Integrable (fun ω => ((alm2cl (A 0 ω) (A 1 ω) l * alm2cl (A 2 ω) (A 3 ω) l' : ℝ) : ℂ)) μ := by
    simp only [hpq]
    exact integrable_finsetSum _ fun m hm => integrable_finsetSum _ fun m' hm' => ipq m hm m' hm'
  refine ⟨by simpa using Ip.re, by simpa using Iq.re, ?_, ?_⟩
  · have := Ipq.re
    simpa only [RCLike.ofReal_re, Complex.ofReal_re, RCLike.re_to_complex] using this
  unfold covar
  rw [Complex.ofReal_sub, Complex.ofReal_mul, ← integral_complex_ofReal, ← integral_complex_ofReal, ← integral_complex_ofReal]
  simp only [hpq, hp, hq]
  rw [integral_finsetSum _ fun m hm => integrable_finsetSum _ fun m' hm' => ipq m hm m' hm', integral_finsetSum _ ip, integral_finsetSum _ iq, sum_mul_sum,
    ← sum_sub_distrib, sum_div]
  refine sum_congr rfl fun m hm => ?_
  rw [integral_finsetSum _ fun m' hm' => ipq m hm m' hm', ← sum_sub_distrib, sum_add_distrib, ← sum_Icc_neg l' (fun m' => (∫ ω, α 0 ω l m * conj (α 2 ω l' m') ∂μ) * conj (∫ ω, α 1 ω l m * conj (α 3 ω l' m') ∂μ)),
    ← sum_add_distrib, sum_div]
  have key : ∀ m' ∈ Icc (-(l' : ℤ)) l', ∫ ω, (-1 : ℂ) ^ m / (2 * l + 1) * ((-1) ^ m' / (2 * l' + 1)) *
        (α 0 ω l m * α 1 ω l (-m) * (α 2 ω l' m' * α 3 ω l' (-m'))) ∂μ -
      (∫ ω, (-1 : ℂ) ^ m / (2 * l + 1) * (α 0 ω l m * α 1 ω l (-m)) ∂μ) * ∫ ω, (-1 : ℂ) ^ m' / (2 * l' + 1) * (α 2 ω l' m' * α 3 ω l' (-m')) ∂μ =
      (-1 : ℂ) ^ m / (2 * l + 1) * ((-1) ^ m' / (2 * l' + 1)) * ((∫ ω, α 0 ω l m * α 2 ω l' m' ∂μ) * (∫ ω, α 1 ω l (-m) * α 3 ω l' (-m') ∂μ) +
        (∫ ω, α 0 ω l m * α 3 ω l' (-m') ∂μ) * (∫ ω, α 1 ω l (-m) * α 2 ω l' m' ∂μ)) := by
    intro m' hm'
    have h4 := hg.fourth (0, l, m) (hmem 0 (by norm_num) l hl m hm) (1, l, -m) (hmem 1 (by norm_num) l hl _ (hneg hm))
      (2, l', m') (hmem 2 (by norm_num) l' hl' m' hm') (3, l', -m') (hmem 3 (by norm_num) l' hl' _ (hneg hm'))
    dsimp only at h4
    rw [integral_const_mul, integral_const_mul, integral_const_mul, h4]
    ring
  rw [sum_congr rfl key]
  have x1 : ∀ i < 4, ∀ j < 4, ∀ m', ∫ ω, α i ω l m * conj (α j ω l' m') ∂μ = (-1) ^ m' * ∫ ω, α i ω l m * α j ω l' (-m') ∂μ := by
    intro i _ j hj m'
    rw [← integral_const_mul]
    refine integral_congr_ae (Filter.Eventually.of_forall fun ω => ?_)
    dsimp only
    rw [hc j hj]; ring
  have x2 : ∀ i < 4, ∀ j < 4, ∀ m', conj (∫ ω, α i ω l m * conj (α j ω l' m') ∂μ) = (-1) ^ m * ∫ ω, α i ω l (-m) * α j ω l' m' ∂μ := by
    intro i hi j _ m'
    rw [← integral_conj, ← integral_const_mul]
    refine integral_congr_ae (Filter.Eventually.of_forall fun ω => ?_)
    dsimp only
    rw [map_mul, Complex.conj_conj, hc i hi]; ring
  refine sum_congr rfl fun m' _ => ?_
  rw [x1 0 (by norm_num) 2 (by norm_num), x2 1 (by norm_num) 3 (by norm_num), x1 0 (by norm_num) 3 (by norm_num), x2 1 (by norm_num) 2 (by norm_num), neg_neg]
  have hz : ((-1 : ℂ) ^ (-m')) = (-1) ^ m' := by rw [zpow_neg, ← inv_zpow]; norm_num
  rw [hz]
  field_simp

end

end NaMaster
