import Verif.SkyCov.Lemmas
import Verif.Sky.Pure
import Verif.Wigner.SumRules
import Verif.Wigner.ZeroRow
import Verif.Coupling.Spec
import Verif.Covar.Lemmas2

/-! # Full-sky covariances -/

namespace NaMaster

open Finset MeasureTheory SkySpec WignerSpec

local notation "conj" => starRingEnd ℂ

namespace SkySpec

/-- The coefficients of the function that is 1 everywhere. -/
def OneEverywhere (w : ℕ → ℤ → ℂ) : Prop := w 0 0 = (Real.sqrt (4 * Real.pi) : ℝ) ∧ ∀ L M, ¬ (L = 0 ∧ M = 0) → w L M = 0

end SkySpec

/-! ## Coefficients -/

theorem mfac_mono_ne {l l' : ℕ} {m m' : ℤ} (h : ¬ (l' = l ∧ m' = m)) : mfac l m 0 0 l' m' = 0 := by
  by_cases hm : m = 0 + m'
  · unfold mfac
    rw [wigner3j_not_allowed, mul_zero]
    unfold Allowed
    omega
  · exact mfac_zero hm

theorem hfac_mono (s : ℕ) (pe pb : Bool) (X l l' : ℕ) : hfac s pe pb X l 0 l' = sfac s 0 s l 0 l' := by
  unfold hfac
  have : skyPureTerm l 0 l' = 0 := by unfold skyPureTerm flMask1; simp
  rw [this]
  simp

theorem mono_factor (s l : ℕ) (m : ℤ) (hm : |m| ≤ l) :
    Real.sqrt (4 * Real.pi) * (mfac l m 0 0 l m * sfac s 0 s l 0 l) = if s ≤ l then 1 else 0 := by
  unfold mfac sfac
  have e1 : wigner3j l 0 l (-m) 0 m = (-1) ^ (0 + l + l) * wigner3j 0 l l 0 (-m) (- -m) := by rw [neg_neg]; exact wigner3j_first 0 l l 0 (-m) m
  by_cases hs : s ≤ l
  · have e2 : wigner3j l 0 l s (-0) (-(s : ℤ)) = (-1) ^ (0 + l + l) * wigner3j 0 l l 0 s (-s) := by rw [neg_zero]; exact wigner3j_first 0 l l 0 s (-s)
    rw [if_pos hs, e2, Nat.cast_zero, e1, wigner3j_monopole l (-m) (by rwa [abs_neg]), wigner3j_monopole l s (by rw [Nat.abs_cast]; exact_mod_cast hs)]
    have hev : ((-1 : ℝ)) ^ (0 + l + l) = 1 := Even.neg_one_pow ⟨l, by ring⟩
    have hp : Real.sqrt (4 * Real.pi) ≠ 0 := Real.sqrt_ne_zero'.2 (by positivity)
    have h2 : Real.sqrt ((2 * l + 1) * (2 * 0 + 1) * (2 * l + 1) / (4 * Real.pi)) = (2 * l + 1) / Real.sqrt (4 * Real.pi) := by
      rw [Real.sqrt_div (by positivity)]
      congr 1
      rw [show ((2 * (l : ℝ) + 1) * (2 * 0 + 1) * (2 * l + 1)) = (2 * l + 1) * (2 * l + 1) by ring, Real.sqrt_mul_self (by positivity)]
    have h3 : Real.sqrt (2 * (l : ℝ) + 1) * Real.sqrt (2 * l + 1) = 2 * l + 1 := Real.mul_self_sqrt (by positivity)
    have h4 : ((-1 : ℝ) ^ m) * (-1) ^ ((l : ℤ) - -m) * ((-1) ^ (s : ℤ) * (-1) ^ ((l : ℤ) - s)) = 1 := by
      rw [← zpow_add₀ (by norm_num), ← zpow_add₀ (by norm_num), ← zpow_add₀ (by norm_num)]
      exact Even.neg_one_zpow ⟨m + l, by ring⟩
    have hq : Real.sqrt (2 * (l : ℝ) + 1) ≠ 0 := Real.sqrt_ne_zero'.2 (by positivity)
    rw [hev, h2]
    calc _ = ((-1 : ℝ) ^ m * (-1) ^ ((l : ℤ) - -m) * ((-1) ^ (s : ℤ) * (-1) ^ ((l : ℤ) - s))) *
          ((2 * l + 1) / (Real.sqrt (2 * (l : ℝ) + 1) * Real.sqrt (2 * l + 1))) * (Real.sqrt (4 * Real.pi) / Real.sqrt (4 * Real.pi)) := by
          field_simp
      _ = 1 := by rw [h4, h3, div_self hp, div_self (by positivity)]; norm_num
  · rw [if_neg hs, wigner3j_not_allowed (m1 := (s : ℤ)) (by unfold Allowed; simp only [abs_le]; omega)]
    ring

/-- With a mask that is 1 everywhere the coefficients of a field are those of the sky. -/
theorem full_linCoef {n Nw Nf s : ℕ} {pe pb : Bool} {w : ℕ → ℤ → ℂ} (hw : OneEverywhere w) (F : ℕ → ℕ → ℤ → ℂ) {X l : ℕ} {m : ℤ} (hX : X < n)
    (hl : l ≤ Nf) (hm : |m| ≤ l) : linCoef n Nw Nf (hfac s pe pb) w F X l m = if s ≤ l then F X l m else 0 := by
  unfold linCoef
  rw [sum_eq_single_of_mem (0, 0) (mem_skyModes.2 ⟨Nat.zero_le _, by simp⟩), sum_eq_single_of_mem (l, m) (mem_skyModes.2 ⟨hl, hm⟩),
    sum_eq_single_of_mem X (mem_range.2 hX)]
  · dsimp only
    have hmix : mixc X X (l + 0 + l) = 1 := by
      unfold mixc
      rw [if_pos rfl, if_pos ⟨l, by ring⟩]
    rw [hmix, hw.1, hfac_mono, one_mul, ← Complex.ofReal_mul, mono_factor s l m hm]
    split_ifs <;> simp
  · intro X' _ hne
    unfold mixc
    rw [if_neg (Ne.symm hne), if_pos ⟨l, by ring⟩, zero_mul]
  · rintro ⟨l', m'⟩ _ hne
    dsimp only
    rw [mfac_mono_ne (by rintro ⟨rfl, rfl⟩; exact hne rfl)]
    simp
  · rintro ⟨L, M⟩ _ hne
    refine sum_eq_zero fun q _ => ?_
    dsimp only
    rw [hw.2 L M (by rintro ⟨rfl, rfl⟩; exact hne rfl)]
    simp

/-! ## The covariance of the spectra -/

section
variable {Ω : Type*} [MeasurableSpace Ω] {μ : Measure Ω}

theorem knox_truth {n : ℕ → ℕ} {N : ℕ} {F : ℕ → Ω → ℕ → ℕ → ℤ → ℂ} {C : ℕ → ℕ → ℕ → ℕ → ℕ → ℝ} (hG : GaussianSkies μ n N F C)
    (hreal : ∀ i < 4, ∀ ω, ∀ X < n i, RealCoefs (F i ω X)) (s X : ℕ → ℕ) (hX : ∀ i < 4, X i < n i) {A : ℕ → Ω → ℕ → ℕ → ℂ}
    (hA : ∀ i < 4, ∀ ω, ∀ l ≤ N, ∀ m ≤ l, A i ω l m = if s i ≤ l then F i ω (X i) l m else 0) {l l' : ℕ} (hl : l ≤ N) (hl' : l' ≤ N) :
    Integrable (fun ω => alm2cl (A 0 ω) (A 1 ω) l) μ ∧ Integrable (fun ω => alm2cl (A 2 ω) (A 3 ω) l') μ ∧
    Integrable (fun ω => alm2cl (A 0 ω) (A 1 ω) l * alm2cl (A 2 ω) (A 3 ω) l') μ ∧
    covar μ (fun ω => alm2cl (A 0 ω) (A 1 ω) l) (fun ω => alm2cl (A 2 ω) (A 3 ω) l') =
      if l = l' ∧ ∀ i < 4, s i ≤ l then
        (C 0 2 (X 0) (X 2) l * C 1 3 (X 1) (X 3) l + C 0 3 (X 0) (X 3) l * C 1 2 (X 1) (X 2) l) / (2 * l + 1) else 0 := by
  set α : ℕ → Ω → ℕ → ℤ → ℂ := fun i ω l m => if s i ≤ l then F i ω (X i) l m else 0 with hα
  have hr : ∀ i < 4, ∀ ω, RealCoefs (α i ω) := by
    intro i hi ω l m
    simp only [hα]
    by_cases h : s i ≤ l
    · simp only [if_pos h]; exact hreal i hi ω _ (hX i hi) l m
    · simp only [if_neg h]; simp
  have hg : IsserlisOn μ (quadIndex N) fun q ω => α q.1 ω q.2.1 q.2.2 := by
    refine IsserlisOn.lin hG.gauss (s := fun q => {(q.1, X q.1, q.2.1, q.2.2)}) (c := fun q _ => if s q.1 ≤ q.2.1 then 1 else 0) ?_ ?_
    · rintro ⟨i, l, m⟩ ⟨hi, hq⟩ r hr
      rw [mem_singleton] at hr
      subst hr
      exact ⟨hi, hX i hi, hq⟩
    · rintro ⟨i, l, m⟩ _ ω
      rw [sum_singleton]
      simp only [hα]
      split_ifs <;> simp
  obtain ⟨i1, i2, i3, hc⟩ := covar_alm2cl hr hg hA hl hl'
  refine ⟨i1, i2, i3, ?_⟩
  have hE : ∀ i < 4, ∀ j < 4, ∀ m ∈ Icc (-(l : ℤ)) l, ∀ m' ∈ Icc (-(l' : ℤ)) l', ∫ ω, α i ω l m * conj (α j ω l' m') ∂μ =
      if (s i ≤ l ∧ s j ≤ l) ∧ l = l' ∧ m = m' then (C i j (X i) (X j) l : ℂ) else 0 := by
    intro i hi j hj m hm m' hm'
    rw [mem_Icc] at hm hm'
    simp only [hα]
    by_cases h1 : s i ≤ l
    swap
    · simp [h1]
    by_cases h2 : s j ≤ l'
    swap
    · rw [if_neg (by rintro ⟨⟨-, h⟩, rfl, -⟩; exact h2 h)]
      simp [h2]
    simp only [if_pos h1, if_pos h2]
    have := (hG.isotropic i hi j hj).covariance (X i) (hX i hi) (X j) (hX j hj) (l, m) (mem_skyModes.2 ⟨hl, abs_le.2 hm⟩) (l', m')
      (mem_skyModes.2 ⟨hl', abs_le.2 hm'⟩)
    dsimp only at this
    rw [this]
    by_cases h3 : l = l' ∧ m = m'
    · obtain ⟨rfl, rfl⟩ := h3
      rw [if_pos rfl, if_pos ⟨⟨h1, h2⟩, rfl, rfl⟩]
    · rw [if_neg (by simpa using h3), if_neg (fun h => h3 h.2)]
  have hlast : ∀ x y : ℝ, (x : ℂ) = y → x = y := fun x y h => by exact_mod_cast h
  apply hlast
  rw [hc]
  have q0 : (0 : ℕ) < 4 := by norm_num
  have q1 : (1 : ℕ) < 4 := by norm_num
  have q2 : (2 : ℕ) < 4 := by norm_num
  have q3 : (3 : ℕ) < 4 := by norm_num
  by_cases h : l = l' ∧ ∀ i < 4, s i ≤ l
  · rw [if_pos h]
    obtain ⟨rfl, hs⟩ := h
    have hsum : ∀ m ∈ Icc (-(l : ℤ)) l, ∑ m' ∈ Icc (-(l : ℤ)) l,
        ((∫ ω, α 0 ω l m * conj (α 2 ω l m') ∂μ) * conj (∫ ω, α 1 ω l m * conj (α 3 ω l m') ∂μ) +
          (∫ ω, α 0 ω l m * conj (α 3 ω l m') ∂μ) * conj (∫ ω, α 1 ω l m * conj (α 2 ω l m') ∂μ)) =
        ((C 0 2 (X 0) (X 2) l * C 1 3 (X 1) (X 3) l + C 0 3 (X 0) (X 3) l * C 1 2 (X 1) (X 2) l : ℝ) : ℂ) := by
      intro m hm
      rw [sum_eq_single_of_mem m hm]
      · rw [hE 0 q0 2 q2 m hm m hm, hE 1 q1 3 q3 m hm m hm, hE 0 q0 3 q3 m hm m hm, hE 1 q1 2 q2 m hm m hm, if_pos ⟨⟨hs 0 q0, hs 2 q2⟩, rfl, rfl⟩,
          if_pos ⟨⟨hs 1 q1, hs 3 q3⟩, rfl, rfl⟩, if_pos ⟨⟨hs 0 q0, hs 3 q3⟩, rfl, rfl⟩, if_pos ⟨⟨hs 1 q1, hs 2 q2⟩, rfl, rfl⟩, Complex.conj_ofReal,
          Complex.conj_ofReal]
        push_cast
        rfl
      · intro m' hm' hne
        rw [hE 0 q0 2 q2 m hm m' hm', hE 0 q0 3 q3 m hm m' hm', if_neg (fun h => hne h.2.2.symm), if_neg (fun h => hne h.2.2.symm)]
        simp
    rw [sum_congr rfl hsum, sum_const, Int.card_Icc, nsmul_eq_mul, show ((l : ℤ) + 1 - -l).toNat = 2 * l + 1 by omega]
    have hne : (2 * (l : ℂ) + 1) ≠ 0 := by exact_mod_cast (by omega : (2 * l + 1 : ℕ) ≠ 0)
    push_cast
    field_simp
  · rw [if_neg h, Complex.ofReal_zero]
    rw [sum_eq_zero fun m hm => sum_eq_zero fun m' hm' => ?_, zero_div]
    rw [hE 0 q0 2 q2 m hm m' hm', hE 1 q1 3 q3 m hm m' hm', hE 0 q0 3 q3 m hm m' hm', hE 1 q1 2 q2 m hm m' hm']
    have hz : ∀ i j i' j', ({i, j, i', j'} : Finset ℕ) = {0, 1, 2, 3} →
        (if (s i ≤ l ∧ s j ≤ l) ∧ l = l' ∧ m = m' then (C i j (X i) (X j) l : ℂ) else 0) *
        conj (if (s i' ≤ l ∧ s j' ≤ l) ∧ l = l' ∧ m = m' then (C i' j' (X i') (X j') l : ℂ) else 0) = 0 := by
      intro i j i' j' hset
      by_cases ha : (s i ≤ l ∧ s j ≤ l) ∧ l = l' ∧ m = m'
      swap
      · rw [if_neg ha, zero_mul]
      by_cases hb : (s i' ≤ l ∧ s j' ≤ l) ∧ l = l' ∧ m = m'
      swap
      · rw [if_neg hb, map_zero, mul_zero]
      exfalso
      apply h
      refine ⟨ha.2.1, fun k hk => ?_⟩
      have : k ∈ ({i, j, i', j'} : Finset ℕ) := by
        rw [hset]
        simp only [mem_insert, mem_singleton]
        omega
      simp only [mem_insert, mem_singleton] at this
      rcases this with rfl | rfl | rfl | rfl
      · exact ha.1.1
      · exact ha.1.2
      · exact hb.1.1
      · exact hb.1.2
    rw [hz 0 2 1 3 (by decide), hz 0 3 1 2 (by decide), add_zero]

end

/-! ## The coefficients of the code -/

theorem coupling_mono {s1 s2 M : ℕ} {pcl : ℕ → ℝ} (h0 : pcl 0 = 4 * Real.pi) (h : ∀ L, 0 < L → L ≤ M → pcl L = 0) (sel : ℕ → Prop) [DecidablePred sel]
    (l l' : ℕ) : CouplingSpec.coupling racah s1 s2 M pcl sel l l' =
      if l = l' ∧ s1 ≤ l ∧ s2 ≤ l ∧ sel (2 * l) then (-1 : ℝ) ^ (s1 + s2) / (2 * l + 1) else 0 := by
  unfold CouplingSpec.coupling
  rw [sum_eq_single_of_mem 0 (mem_range.2 (Nat.succ_pos _))]
  swap
  · intro L hL hne
    rw [mem_range] at hL
    rw [h L (by omega) (by omega)]
    simp
  rw [h0, spin3j_racah, spin3j_racah]
  have hz : ∀ s : ℕ, ¬ (l = l' ∧ s ≤ l) → wigner3j 0 l l' 0 s (-s) = 0 := by
    intro s hs
    apply wigner3j_not_allowed
    unfold Allowed
    simp only [abs_le]
    omega
  by_cases hc : l = l' ∧ s1 ≤ l ∧ s2 ≤ l
  · obtain ⟨rfl, h1, h2⟩ := hc
    rw [show 0 + l + l = 2 * l by ring]
    by_cases hs : sel (2 * l)
    · rw [if_pos hs, if_pos ⟨rfl, h1, h2, hs⟩, wigner3j_monopole l s1 (by rw [Nat.abs_cast]; exact_mod_cast h1),
        wigner3j_monopole l s2 (by rw [Nat.abs_cast]; exact_mod_cast h2)]
      have h3 : Real.sqrt (2 * (l : ℝ) + 1) * Real.sqrt (2 * l + 1) = 2 * l + 1 := Real.mul_self_sqrt (by positivity)
      have hpi : Real.pi ≠ 0 := Real.pi_ne_zero
      have h4 : ((-1 : ℝ)) ^ ((l : ℤ) - s1) * (-1) ^ ((l : ℤ) - s2) = (-1) ^ (s1 + s2) := by
        rw [← zpow_add₀ (by norm_num), ← zpow_natCast]
        push_cast
        have h5 : ((-1 : ℝ)) ^ ((l : ℤ) - s1 + (l - s2)) * (-1) ^ ((s1 : ℤ) + s2) = 1 := by
          rw [← zpow_add₀ (by norm_num)]
          exact Even.neg_one_zpow ⟨l, by ring⟩
        have h6 : ((-1 : ℝ)) ^ ((s1 : ℤ) + s2) * (-1) ^ ((s1 : ℤ) + s2) = 1 := by rw [← mul_zpow]; norm_num
        linear_combination ((-1 : ℝ)) ^ ((s1 : ℤ) + s2) * h5 - ((-1 : ℝ)) ^ ((l : ℤ) - s1 + (l - s2)) * h6
      rw [mul_assoc, div_mul_div_comm, h3, h4]
      push_cast
      field_simp
      norm_num
    · rw [if_neg hs, if_neg (fun h => hs h.2.2.2)]
  · rw [if_neg (c := l = l' ∧ s1 ≤ l ∧ s2 ≤ l ∧ sel (2 * l)) (fun h => hc ⟨h.1, h.2.1, h.2.2.1⟩)]
    by_cases h1 : l = l' ∧ s1 ≤ l
    · rw [hz s2 (fun h2 => hc ⟨h1.1, h1.2, h2.2⟩)]
      simp
    · rw [hz s1 h1]
      simp

theorem covIndex_low {n m p q p' q' : ℕ} (hn : n = 1 ∨ n = 2) (hm : m = 1 ∨ m = 2) (hp : p < n) (hq : q < m) (hp' : p' < n)
    (hq' : q' < m) : (p = p' ∧ q = q' → covIndex n m p q p' q' = if n = 1 ∨ m = 1 then 0 else 1) ∧
      (¬ (p = p' ∧ q = q') → covIndex n m p q p' q' ∈ [2, 3, 5] ) := by
  rcases hn with rfl | rfl <;> rcases hm with rfl | rfl <;> interval_cases p <;> interval_cases q <;> interval_cases p' <;>
    interval_cases q' <;> decide

/-- Coefficients that do not mix components: for all kinds of pairs the same number `v`, and no mixing. -/
structure Unmixing (x : CovXi ℝ) (spin : Prop) (l l' : ℕ) (v : ℝ) : Prop where
  xi00 : x.xi00 l l' = v
  xi02 : spin → x.xi02 l l' = v
  xi22p : spin → x.xi22p l l' = v
  xi22m : spin → x.xi22m l l' = 0

theorem at_unmixing {x : CovXi ℝ} {l l' : ℕ} {v : ℝ} {na nc nb nd ia iap ic icp ib ibp id idp : ℕ} (ha : na = 1 ∨ na = 2) (hb : nb = 1 ∨ nb = 2)
    (hc : nc = 1 ∨ nc = 2) (hd : nd = 1 ∨ nd = 2) (hx : Unmixing x (¬ (na = 1 ∧ nb = 1 ∧ nc = 1 ∧ nd = 1)) l l' v)
    (h1 : ia < na) (h2 : ib < nb) (h3 : ic < nc) (h4 : id < nd) (h1' : iap < na) (h2' : ibp < nb) (h3' : icp < nc) (h4' : idp < nd) :
    x.at l l' (covPair na nc nb nd ia iap ic icp ib ibp id idp) = if (ia = iap ∧ ic = icp) ∧ ib = ibp ∧ id = idp then v else 0 := by
  obtain ⟨e1, e2⟩ := covIndex_low ha hc h1 h3 h1' h3'
  obtain ⟨f1, f2⟩ := covIndex_low hb hd h2 h4 h2' h4'
  unfold covPair
  by_cases hs : na = 1 ∧ nb = 1 ∧ nc = 1 ∧ nd = 1
  · obtain ⟨rfl, rfl, rfl, rfl⟩ := hs
    rw [if_pos (by omega), e1 (by omega), f1 (by omega)]
    exact hx.xi00
  by_cases p1 : ia = iap ∧ ic = icp
  · by_cases p2 : ib = ibp ∧ id = idp
    · rw [if_pos ⟨p1, p2⟩, e1 p1, f1 p2]
      by_cases c1 : na = 1 ∨ nc = 1
      · rw [if_pos c1]
        by_cases c2 : nb = 1 ∨ nd = 1
        · rw [if_pos c2]; exact hx.xi00
        · rw [if_neg c2]; exact hx.xi02 hs
      · rw [if_neg c1]
        by_cases c2 : nb = 1 ∨ nd = 1
        · rw [if_pos c2]; exact hx.xi02 hs
        · rw [if_neg c2]; exact hx.xi22p hs
    · rw [if_neg (fun h => p2 h.2), e1 p1]
      have := f2 p2
      simp only [List.mem_cons, List.not_mem_nil, or_false] at this
      rcases this with h | h | h <;> rw [h] <;> split_ifs <;> rfl
  · rw [if_neg (fun h => p1 h.1)]
    have h := e2 p1
    simp only [List.mem_cons, List.not_mem_nil, or_false] at h
    by_cases p2 : ib = ibp ∧ id = idp
    · rw [f1 p2]
      rcases h with h | h | h <;> rw [h] <;> split_ifs <;> rfl
    · have g := f2 p2
      simp only [List.mem_cons, List.not_mem_nil, or_false] at g
      have z := hx.xi22m hs
      rcases h with h | h | h <;> rcases g with g | g | g <;> rw [h, g] <;> simp [pairKind, CovXi.at, z]

/-- The element of the covariance for such coefficients. -/
theorem covElement_unmixing (cw : CovWsp ℝ) (m : Maps) (s : CovCls ℝ) (ia ib ic id l l' : ℕ) (pre v v' : ℝ) (ha : m.a = 1 ∨ m.a = 2)
    (hb : m.b = 1 ∨ m.b = 2) (hc : m.c = 1 ∨ m.c = 2) (hd : m.d = 1 ∨ m.d = 2)
    (hx : Unmixing cw.x1122 (¬ (m.a = 1 ∧ m.b = 1 ∧ m.c = 1 ∧ m.d = 1)) l l' v)
    (hx' : Unmixing cw.x1221 (¬ (m.a = 1 ∧ m.b = 1 ∧ m.c = 1 ∧ m.d = 1)) l l' v') (h1 : ia < m.a) (h2 : ib < m.b) (h3 : ic < m.c) (h4 : id < m.d) :
    covElement cw m s ia ib ic id l l' pre =
      (v * (1 / 2 * (s.ac.val (ic + m.c * ia) l * s.bd.val (id + m.d * ib) l' + s.ac.val (ic + m.c * ia) l' * s.bd.val (id + m.d * ib) l)) +
        v' * (1 / 2 * (s.ad.val (id + m.d * ia) l * s.bc.val (ic + m.c * ib) l' + s.ad.val (id + m.d * ia) l' * s.bc.val (ic + m.c * ib) l))) * pre := by
  unfold covElement
  dsimp only
  have hx'2 : Unmixing cw.x1221 (¬ (m.a = 1 ∧ m.b = 1 ∧ m.d = 1 ∧ m.c = 1)) l l' v' := by
    have e : (m.a = 1 ∧ m.b = 1 ∧ m.d = 1 ∧ m.c = 1) = (m.a = 1 ∧ m.b = 1 ∧ m.c = 1 ∧ m.d = 1) := by
      apply propext; tauto
    rw [e]; exact hx'
  rw [sum_eq_single_of_mem ia (mem_range.2 h1), sum_eq_single_of_mem ib (mem_range.2 h2), sum_eq_single_of_mem ic (mem_range.2 h3),
    sum_eq_single_of_mem id (mem_range.2 h4)]
  · rw [at_unmixing ha hb hc hd hx h1 h2 h3 h4 h1 h2 h3 h4, at_unmixing ha hb hd hc hx'2 h1 h2 h4 h3 h1 h2 h4 h3, if_pos ⟨⟨rfl, rfl⟩, rfl, rfl⟩,
      if_pos ⟨⟨rfl, rfl⟩, rfl, rfl⟩]
  · intro j hj hne
    rw [mem_range] at hj
    rw [at_unmixing ha hb hc hd hx h1 h2 h3 h4 h1 h2 h3 hj, at_unmixing ha hb hd hc hx'2 h1 h2 h4 h3 h1 h2 hj h3,
      if_neg (fun h => hne h.2.2.symm), if_neg (fun h => hne h.1.2.symm)]
    ring
  · intro j hj hne
    rw [mem_range] at hj
    refine sum_eq_zero fun j' hj' => ?_
    rw [mem_range] at hj'
    rw [at_unmixing ha hb hc hd hx h1 h2 h3 h4 h1 h2 hj hj', at_unmixing ha hb hd hc hx'2 h1 h2 h4 h3 h1 h2 hj' hj,
      if_neg (fun h => hne h.1.2.symm), if_neg (fun h => hne h.2.2.symm)]
    ring
  · intro j hj hne
    rw [mem_range] at hj
    refine sum_eq_zero fun k hk => sum_eq_zero fun k' hk' => ?_
    rw [mem_range] at hk hk'
    rw [at_unmixing ha hb hc hd hx h1 h2 h3 h4 h1 hj hk hk', at_unmixing ha hb hd hc hx'2 h1 h2 h4 h3 h1 hj hk' hk,
      if_neg (fun h => hne h.2.1.symm), if_neg (fun h => hne h.2.1.symm)]
    ring
  · intro j hj hne
    rw [mem_range] at hj
    refine sum_eq_zero fun p hp => sum_eq_zero fun k hk => sum_eq_zero fun k' hk' => ?_
    rw [mem_range] at hk hk' hp
    rw [at_unmixing ha hb hc hd hx h1 h2 h3 h4 hj hp hk hk', at_unmixing ha hb hd hc hx'2 h1 h2 h4 h3 hj hp hk' hk,
      if_neg (fun h => hne h.1.1.symm), if_neg (fun h => hne h.1.1.symm)]
    ring

end NaMaster
