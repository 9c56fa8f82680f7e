import Verif.Sky.CatalogSpec
import Verif.Sky.CatalogModel
import Verif.Sky.Props
import Verif.Field.CatalogProps

/-! # Lemmas for C82 -/

namespace NaMaster

open Finset MeasureTheory WignerSpec SkySpec CouplingSpec

local notation "conj" => starRingEnd ℂ

section point

variable {X : Type*} {H : Harm X} {Y : ℤ → ℕ → ℤ → X → ℂ} {s : ℕ}

/-- The coefficients of a source of weight one. -/
noncomputable def pointCoef (Y : ℤ → ℕ → ℤ → X → ℂ) (x : X) (L : ℕ) (M : ℤ) : ℂ := conj (Y 0 L M x)

theorem pointCoef_real (hY : Spherical Y s) (x : X) : RealCoefs (pointCoef Y x) := by
  intro l m
  unfold pointCoef
  rw [hY.conj0, neg_neg, Complex.conj_conj, zpow_neg, ← inv_zpow]
  norm_num

theorem gaunt_above {so sw sf : ℤ} {l L l' : ℕ} {m M m' : ℤ} (h : l + l' < L) : gaunt so sw sf l m L M l' m' = 0 := by
  unfold gaunt
  rw [wigner3j_not_allowed (m1 := -m), mul_zero, zero_mul]
  unfold Allowed
  intro h
  omega

theorem product_modes (hY : Spherical Y s) {σ : ℤ} (hσ : σ = 0 ∨ σ = s ∨ σ = -s) {N l l' : ℕ} (hN : l + l' ≤ N) {m m' : ℤ} (hm : |m| ≤ l) (hm' : |m'| ≤ l')
    (x : X) : conj (Y σ l m x) * Y σ l' m' x = ∑ W ∈ modes N, pointCoef Y x W.1 W.2 * (gaunt σ 0 σ l m W.1 W.2 l' m' : ℝ) := by
  rw [hY.product σ hσ l m l' m' x hm hm']
  have hsub : modes (l + l') ⊆ modes N := by
    intro q hq
    rw [mem_skyModes] at hq ⊢
    exact ⟨hq.1.trans hN, hq.2⟩
  rw [← sum_subset hsub]
  · exact sum_congr rfl fun W _ => mul_comm _ _
  · intro W hW hn
    rw [mem_skyModes] at hW hn
    rw [gaunt_above (by by_contra h; exact hn ⟨by omega, hW.2⟩)]
    simp

theorem product_value (hY : Spherical Y s) {σ : ℤ} (hσ : σ = 0 ∨ σ = s ∨ σ = -s) {Nw N l : ℕ} (hl : l ≤ N) (hN : 2 * N ≤ Nw) {m : ℤ} (hm : |m| ≤ l)
    (x : X) (g : ℕ → ℤ → ℂ) :
    (∑ q ∈ modes N, g q.1 q.2 * Y σ q.1 q.2 x) * conj (Y σ l m x) = productCoef σ 0 σ Nw N (pointCoef Y x) g l m := by
  unfold productCoef
  rw [sum_comm, sum_mul]
  refine sum_congr rfl fun q hq => ?_
  rw [mem_skyModes] at hq
  rw [show g q.1 q.2 * Y σ q.1 q.2 x * conj (Y σ l m x) = g q.1 q.2 * (conj (Y σ l m x) * Y σ q.1 q.2 x) by ring,
    product_modes hY hσ (by omega : l + q.1 ≤ Nw) hm hq.2, mul_sum]
  exact sum_congr rfl fun W _ => by ring

/-- The coefficients of a source with the value of the sky are those of the product of the sky and a mask that is the source. -/
theorem source_masked (hY : Spherical Y s) (hH : UsesHarmonics H Y s) {Nw N : ℕ} (hN : 2 * N ≤ Nw) (x : X) {F : ℕ → ℕ → ℤ → ℂ}
    (hF : ∀ c < ncomp s, RealCoefs (F c)) :
    MaskedBy s Nw N N (pointCoef Y x) F (H.source s x (skyAt Y s N F x 0) (skyAt Y s N F x 1)) where
  scalar := by
    rintro rfl l hl m hm
    have hz : ((skyAt Y 0 N F x 0 : ℝ) : ℂ) = ∑ q ∈ modes N, F 0 q.1 q.2 * Y 0 q.1 q.2 x := by
      unfold skyAt
      simp only [if_true, add_zero, Nat.cast_zero]
      apply Complex.conj_eq_iff_re.1
      rw [map_sum, sum_modes_neg]
      refine sum_congr rfl fun q _ => ?_
      rw [map_mul, hY.conj0]
      have h0 := hF 0 (by unfold ncomp; simp) q.1 (-q.2)
      rw [neg_neg] at h0
      rw [neg_neg, h0, zpow_neg, ← inv_zpow]
      norm_num
      ring
    unfold Harm.source
    simp only [Nat.cast_zero, if_true]
    rw [hz, hH.scalar, product_value hY (Or.inl rfl) hl hN (by rw [Nat.abs_cast]; exact_mod_cast hm)]
  spin := by
    intro hs
    have hs' : (s : ℤ) ≠ 0 := by exact_mod_cast hs
    set z : ℂ := ∑ q ∈ modes N, (F 0 q.1 q.2 + Complex.I * F 1 q.1 q.2) * Y s q.1 q.2 x with hzd
    have e0 : skyAt Y s N F x 0 = z.re := by unfold skyAt; simp [hs, hzd]
    have e1 : skyAt Y s N F x 1 = z.im := by unfold skyAt; simp [hs, hzd]
    rw [e0, e1]
    have hzc : conj z = ∑ q ∈ modes N, (F 0 q.1 q.2 - Complex.I * F 1 q.1 q.2) * Y (-s) q.1 q.2 x := by
      rw [hzd, map_sum, sum_modes_neg]
      refine sum_congr rfl fun q _ => ?_
      have hn : ncomp s = 2 := by unfold ncomp; rw [if_neg hs]
      have h0 := hF 0 (by omega) q.1 q.2
      have h1 := hF 1 (by omega) q.1 q.2
      rw [map_mul, hY.conjs, neg_neg, map_add, map_mul, Complex.conj_I, h0, h1]
      have hp : ((-1 : ℂ) ^ (-q.2)) = (-1) ^ q.2 := by rw [zpow_neg, ← inv_zpow]; norm_num
      have hsq : ((-1 : ℂ) ^ q.2) * (-1) ^ q.2 = 1 := by rw [← mul_zpow]; norm_num
      simp only [map_mul, map_zpow₀, map_neg, map_one, Complex.conj_conj, hp]
      linear_combination (F 0 q.1 q.2 - Complex.I * F 1 q.1 q.2) * Y (-s) q.1 q.2 x * hsq
    have hc : ((z.re : ℝ) : ℂ) + Complex.I * (z.im : ℝ) = z := by rw [mul_comm]; exact Complex.re_add_im z
    have hc' : ((z.re : ℝ) : ℂ) - Complex.I * (z.im : ℝ) = conj z := by
      rw [← hc]; simp [Complex.conj_ofReal]; ring
    constructor
    · intro l hl m hm
      rw [← product_value hY (Or.inr (Or.inl rfl)) hl hN (by rw [Nat.abs_cast]; exact_mod_cast hm), ← hzd, ← hH.plus hs]
      unfold Harm.source
      simp only [if_neg hs', if_true, one_ne_zero, if_false]
      linear_combination ((z.im : ℝ) * H.b s l m x : ℂ) * Complex.I_sq + (H.a s l m x - Complex.I * H.b s l m x) * hc
    · intro l hl m hm
      rw [neg_zero, ← product_value hY (Or.inr (Or.inr rfl)) hl hN (by rw [Nat.abs_cast]; exact_mod_cast hm), ← hzc, ← hH.minus hs]
      unfold Harm.source
      simp only [if_neg hs', if_true, one_ne_zero, if_false]
      linear_combination ((z.im : ℝ) * H.b s l m x : ℂ) * Complex.I_sq + (H.a s l m x + Complex.I * H.b s l m x) * hc'

/-- The terms of pairs are bilinear in the values. -/
theorem pair_expand (H : Harm X) (s s' : ℕ) (c d l : ℕ) (x x' : X) (v v' : ℕ → ℝ) :
    pairTerm H s s' c d l x (v 0) (v 1) x' (v' 0) (v' 1) = ∑ e ∈ range (ncomp s), ∑ e' ∈ range (ncomp s'), v e * v' e' *
      pairTerm H s s' c d l x (if e = 0 then 1 else 0) (if e = 0 then 0 else 1) x' (if e' = 0 then 1 else 0) (if e' = 0 then 0 else 1) := by
  have hsrc : ∀ (s : ℕ) (x : X) (v : ℕ → ℝ) (c : ℕ), H.source s x (v 0) (v 1) c = fun l m => ∑ e ∈ range (ncomp s),
      ((v e : ℝ) : ℂ) * H.source s x (if e = 0 then 1 else 0) (if e = 0 then 0 else 1) c l m := by
    intro s x v c
    funext l m
    unfold Harm.source ncomp
    by_cases hs : s = 0
    · subst hs
      by_cases hc : c = 0 <;> simp [hc]
    · have hs' : (s : ℤ) ≠ 0 := by exact_mod_cast hs
      rw [if_neg hs, sum_range_two']
      by_cases hc : c = 0
      · simp [hs, hc]
      · by_cases hc1 : c = 1
        · simp [hs, hc1]; ring
        · simp [hs, hc, hc1]
  unfold pairTerm
  rw [hsrc s x v c, hsrc s' x' v' d, alm2cl_sum_left]
  refine sum_congr rfl fun e _ => ?_
  rw [alm2cl_sum_right]
  refine sum_congr rfl fun e' _ => ?_
  rw [alm2cl_smul_left, alm2cl_smul_right]
  ring

end point

section mean

variable {Ω : Type*} [MeasurableSpace Ω] {μ : Measure Ω} {X : Type*} {H : Harm X} {Y : ℤ → ℕ → ℤ → X → ℂ} {s1 s2 : ℕ}

theorem integral_four {f g h k : Ω → ℝ} (hf : Integrable f μ) (hg : Integrable g μ) (hh : Integrable h μ) (hk : Integrable k μ) :
    ∫ ω, (f ω + g ω + h ω + k ω) ∂μ = ∫ ω, f ω ∂μ + ∫ ω, g ω ∂μ + ∫ ω, h ω ∂μ + ∫ ω, k ω ∂μ := by
  rw [integral_add (f := fun ω => f ω + g ω + h ω) ((hf.add hg).add hh) hk, integral_add (f := fun ω => f ω + g ω) (hf.add hg) hh, integral_add hf hg]

/-- Terms of pairs without correlation have mean zero. -/
theorem pair_zero {pairs : ℕ → ℕ → Prop} {g h : Ω → ℕ → ℕ → ℝ} (hu : Uncorrelated μ (ncomp s1) (ncomp s2) pairs g h) {i j : ℕ} (hij : pairs i j)
    (c d l : ℕ) (x x' : X) :
    Integrable (fun ω => pairTerm H s1 s2 c d l x (g ω 0 i) (g ω 1 i) x' (h ω 0 j) (h ω 1 j)) μ ∧
    ∫ ω, pairTerm H s1 s2 c d l x (g ω 0 i) (g ω 1 i) x' (h ω 0 j) (h ω 1 j) ∂μ = 0 := by
  have e : ∀ ω, pairTerm H s1 s2 c d l x (g ω 0 i) (g ω 1 i) x' (h ω 0 j) (h ω 1 j) = _ :=
    fun ω => pair_expand H s1 s2 c d l x x' (fun e => g ω e i) (fun e => h ω e j)
  simp only [e]
  have i1 : ∀ a ∈ range (ncomp s1), ∀ b ∈ range (ncomp s2), Integrable (fun ω => g ω a i * h ω b j *
      pairTerm H s1 s2 c d l x (if a = 0 then 1 else 0) (if a = 0 then 0 else 1) x' (if b = 0 then 1 else 0) (if b = 0 then 0 else 1)) μ :=
    fun a ha b hb => (hu a (mem_range.1 ha) b (mem_range.1 hb) i j hij).1.mul_const _
  refine ⟨integrable_finsetSum _ fun a ha => integrable_finsetSum _ (i1 a ha), ?_⟩
  rw [integral_finsetSum _ fun a ha => integrable_finsetSum _ (i1 a ha)]
  refine sum_eq_zero fun a ha => ?_
  rw [integral_finsetSum _ (i1 a ha)]
  refine sum_eq_zero fun b hb => ?_
  rw [integral_mul_const, (hu a (mem_range.1 ha) b (mem_range.1 hb) i j hij).2, zero_mul]

/-- Terms of pairs are additive in the values. -/
theorem pair_add (H : Harm X) (s s' : ℕ) (c d l : ℕ) (x x' : X) (p p' : ℝ) (v n v' n' : ℕ → ℝ) :
    pairTerm H s s' c d l x (p * (v 0 + n 0)) (p * (v 1 + n 1)) x' (p' * (v' 0 + n' 0)) (p' * (v' 1 + n' 1)) =
      p * p' * (pairTerm H s s' c d l x (v 0) (v 1) x' (v' 0) (v' 1) + pairTerm H s s' c d l x (n 0) (n 1) x' (n' 0) (n' 1) +
        pairTerm H s s' c d l x (n 0) (n 1) x' (v' 0) (v' 1) + pairTerm H s s' c d l x (v 0) (v 1) x' (n' 0) (n' 1)) := by
  rw [pair_expand H s s' c d l x x' (fun e => p * (v e + n e)) (fun e => p' * (v' e + n' e)), pair_expand H s s' c d l x x' v v',
    pair_expand H s s' c d l x x' n n', pair_expand H s s' c d l x x' n v', pair_expand H s s' c d l x x' v n', ← sum_add_distrib,
    ← sum_add_distrib, ← sum_add_distrib, mul_sum]
  refine sum_congr rfl fun e _ => ?_
  rw [← sum_add_distrib, ← sum_add_distrib, ← sum_add_distrib, mul_sum]
  exact sum_congr rfl fun e' _ => by ring

/-- The mean of the term of a pair. -/
theorem pair_mean {N Nw : ℕ} {F1 F2 : Ω → ℕ → ℕ → ℤ → ℂ} {C : ℕ → ℕ → ℕ → ℝ} (hI : Isotropic μ (ncomp s1) (ncomp s2) N F1 F2 C)
    (hF1 : ∀ ω, ∀ c < ncomp s1, RealCoefs (F1 ω c)) (hF2 : ∀ ω, ∀ c < ncomp s2, RealCoefs (F2 ω c)) (hY1 : Spherical Y s1) (hY2 : Spherical Y s2)
    (hH1 : UsesHarmonics H Y s1) (hH2 : UsesHarmonics H Y s2) (hN : 2 * N ≤ Nw) (pos1 pos2 : ℕ → X) {pairs : ℕ → ℕ → Prop}
    {n1 n2 : Ω → ℕ → ℕ → ℝ}
    (hn : NoiseFree μ (ncomp s1) (ncomp s2) pairs (fun ω c i => skyAt Y s1 N (F1 ω) (pos1 i) c) n1 (fun ω c i => skyAt Y s2 N (F2 ω) (pos2 i) c) n2)
    (p1 p2 : ℕ → ℝ) {i j : ℕ} (hij : pairs i j) {c d : ℕ} (hc : c < ncomp s1) (hd : d < ncomp s2) {l : ℕ} (hl : l ≤ N) :
    let v1 : Ω → ℕ → ℝ := fun ω e => p1 i * (skyAt Y s1 N (F1 ω) (pos1 i) e + n1 ω e i)
    let v2 : Ω → ℕ → ℝ := fun ω e => p2 j * (skyAt Y s2 N (F2 ω) (pos2 j) e + n2 ω e j)
    Integrable (fun ω => pairTerm H s1 s2 c d l (pos1 i) (v1 ω 0) (v1 ω 1) (pos2 j) (v2 ω 0) (v2 ω 1)) μ ∧
    ∫ ω, pairTerm H s1 s2 c d l (pos1 i) (v1 ω 0) (v1 ω 1) (pos2 j) (v2 ω 0) (v2 ω 1) ∂μ =
      ∑ l' ∈ range (N + 1), ∑ X' ∈ range (ncomp s1), ∑ Y' ∈ range (ncomp s2),
        kernelMatrix (hfac s1 false false) (hfac s2 false false) Nw
          (fun L => pairTerm H 0 0 0 0 L (pos1 i) (p1 i) 0 (pos2 j) (p2 j) 0) l c d l' X' Y' * C X' Y' l' := by
  intro v1 v2
  have h2' : ∀ s X, X < ncomp s → X < 2 := by intro s X; unfold ncomp; split_ifs <;> omega
  have hfa : ∀ s : ℕ, (fun _ => sfac s 0 s) = hfac s false false := by
    intro s; funext X l L l'; unfold hfac isPure; simp
  have hsc : ∀ x L (m : ℕ), H.source 0 x 1 0 0 L m = pointCoef Y x L m := by
    intro x L m
    unfold Harm.source pointCoef
    rw [← hH1.scalar]
    simp
  obtain ⟨hint, hval⟩ := alm2cl_mean_real hI hF1 hF2 (Nw := Nw) (h1 := hfac s1 false false) (h2 := hfac s2 false false)
    (fun X l L l' => hfac_triangle _ _ _ _) (pointCoef_real hY1 (pos1 i)) (pointCoef_real hY1 (pos2 j))
    (A1 := fun ω => H.source s1 (pos1 i) (skyAt Y s1 N (F1 ω) (pos1 i) 0) (skyAt Y s1 N (F1 ω) (pos1 i) 1))
    (A2 := fun ω => H.source s2 (pos2 j) (skyAt Y s2 N (F2 ω) (pos2 j) 0) (skyAt Y s2 N (F2 ω) (pos2 j) 1)) (h2' _ _ hc) (h2' _ _ hd)
    (fun ω m hm => by rw [← hfa]; exact masked_lin (source_masked hY1 hH1 hN (pos1 i) (hF1 ω)) hc hl hm)
    (fun ω m hm => by rw [← hfa]; exact masked_lin (source_masked hY2 hH2 hN (pos2 j) (hF2 ω)) hd hl hm)
    (W1 := H.source 0 (pos1 i) 1 0 0) (W2 := H.source 0 (pos2 j) 1 0 0) (fun L _ m _ => hsc _ L m) (fun L _ m _ => hsc _ L m)
  obtain ⟨z1, z1'⟩ := pair_zero (H := H) hn.noise hij c d l (pos1 i) (pos2 j)
  obtain ⟨z2, z2'⟩ := pair_zero (H := H) hn.left hij c d l (pos1 i) (pos2 j)
  obtain ⟨z3, z3'⟩ := pair_zero (H := H) hn.right hij c d l (pos1 i) (pos2 j)
  have e : ∀ ω, pairTerm H s1 s2 c d l (pos1 i) (v1 ω 0) (v1 ω 1) (pos2 j) (v2 ω 0) (v2 ω 1) = _ := fun ω =>
    pair_add H s1 s2 c d l (pos1 i) (pos2 j) (p1 i) (p2 j) (fun e => skyAt Y s1 N (F1 ω) (pos1 i) e) (fun e => n1 ω e i)
      (fun e => skyAt Y s2 N (F2 ω) (pos2 j) e) (fun e => n2 ω e j)
  simp only [e]
  have hint' : Integrable (fun ω => pairTerm H s1 s2 c d l (pos1 i) (skyAt Y s1 N (F1 ω) (pos1 i) 0) (skyAt Y s1 N (F1 ω) (pos1 i) 1)
    (pos2 j) (skyAt Y s2 N (F2 ω) (pos2 j) 0) (skyAt Y s2 N (F2 ω) (pos2 j) 1)) μ := hint
  refine ⟨(((hint'.add z1).add z2).add z3).const_mul _, ?_⟩
  rw [integral_const_mul, integral_four hint' z1 z2 z3]
  rw [z1', z2', z3', add_zero, add_zero, add_zero]
  have hv' : ∫ ω, pairTerm H s1 s2 c d l (pos1 i) (skyAt Y s1 N (F1 ω) (pos1 i) 0) (skyAt Y s1 N (F1 ω) (pos1 i) 1)
    (pos2 j) (skyAt Y s2 N (F2 ω) (pos2 j) 0) (skyAt Y s2 N (F2 ω) (pos2 j) 1) ∂μ = _ := hval
  rw [hv', mul_sum]
  refine sum_congr rfl fun l' _ => ?_
  rw [mul_sum]
  refine sum_congr rfl fun X' _ => ?_
  rw [mul_sum]
  refine sum_congr rfl fun Y' _ => ?_
  rw [← mul_assoc]
  congr 1
  unfold kernelMatrix
  rw [mul_left_comm, mul_sum]
  congr 1
  refine sum_congr rfl fun L _ => ?_
  have hp : pairTerm H 0 0 0 0 L (pos1 i) (p1 i) 0 (pos2 j) (p2 j) 0 = p1 i * p2 j * alm2cl (H.source 0 (pos1 i) 1 0 0) (H.source 0 (pos2 j) 1 0 0) L := by
    have := pair_expand H 0 0 0 0 L (pos1 i) (pos2 j) (fun e => if e = 0 then p1 i else 0) (fun e => if e = 0 then p2 j else 0)
    simp only [Nat.cast_zero, if_true, one_ne_zero, if_false] at this
    rw [this]
    unfold ncomp
    simp [pairTerm]
  dsimp only
  rw [hp]
  ring

end mean

/-- The kernel is linear in the mask spectrum. -/
theorem kernel_pairs {ι : Type*} (S : Finset ι) (h1 h2 : ℕ → ℕ → ℕ → ℕ → ℝ) (Nw : ℕ) (p : ι → ℕ → ℝ) (l X Y l' X' Y' : ℕ) :
    ∑ i ∈ S, kernelMatrix h1 h2 Nw (p i) l X Y l' X' Y' = kernelMatrix h1 h2 Nw (fun L => ∑ i ∈ S, p i L) l X Y l' X' Y' := by
  unfold kernelMatrix
  rw [← mul_sum, sum_comm]
  congr 1
  refine sum_congr rfl fun L _ => ?_
  simp only [mul_sum, sum_mul]

/-- `couple_cell` in terms of the kernel. -/
theorem couple_kernel {a : CouplingArgs} (ha : a.PurePair) {lmax : ℕ} {pcl beam1 beam2 : List ℝ} {B : Bins ℝ} {nt : ℤ} {w2 : ℝ} {w : Wsp ℝ}
    (h : compCouplingMatrix racah a lmax pcl beam1 beam2 B nt w2 = .ok w) (hB : B.ellMax = lmax) (C : Arr2 ℝ)
    (hr : C.rows = ncomp a.spin1 * ncomp a.spin2) (hc : C.cols = lmax + 1) :
    ∃ (U : ℕ → ℕ → ℝ) (R : Arr2 ℝ), w.unbinned = some U ∧ coupleCell w U C = .ok R ∧ w.ncls = ncomp a.spin1 * ncomp a.spin2 ∧ w.lmax = lmax ∧ w.bin = B ∧
      R.rows = ncomp a.spin1 * ncomp a.spin2 ∧ R.cols = lmax + 1 ∧
      ∀ X < ncomp a.spin1, ∀ Y < ncomp a.spin2, ∀ l ≤ lmax, R.val (ncomp a.spin2 * X + Y) l =
        ∑ l' ∈ range (lmax + 1), ∑ X' ∈ range (ncomp a.spin1), ∑ Y' ∈ range (ncomp a.spin2),
          kernelMatrix (hfac a.spin1 a.pe1 a.pb1) (hfac a.spin2 a.pe2 a.pb2) a.lmaxMask (fun l => pcl.getD l 0) l X Y l' X' Y' *
            (beam1.getD l' 0 * beam2.getD l' 0 * C.val (ncomp a.spin2 * X' + Y') l') := by
  obtain ⟨hncls, U, hU, hUv⟩ := matrix_kernel ha h
  obtain ⟨hb1, hb2, -, p, U0, hbuild⟩ := comp_parts h
  have hwl : w.lmax = lmax := by rw [hbuild]; exact hB
  refine ⟨U, _, hU, coupleCell_ok w U C (hr.trans hncls.symm) (by omega), hncls, hwl, by rw [hbuild]; rfl, hncls, by change w.lmax + 1 = _; rw [hwl], ?_⟩
  intro X hX Y hY l hl
  have hlt : ncomp a.spin2 * X + Y < w.ncls := by
    rw [hncls]; nlinarith
  have hof : ∀ g : ℕ → ℕ → ℝ, (Arr2.of w.ncls (w.lmax + 1) g).val (ncomp a.spin2 * X + Y) l = g (ncomp a.spin2 * X + Y) l :=
    fun g => tab2_of_lt _ hlt (by omega)
  rw [hof]
  unfold coupleCl
  rw [hwl]
  refine sum_congr rfl fun l' hl' => ?_
  rw [mem_range] at hl'
  rw [show (range w.ncls) = range (ncomp a.spin2 * ncomp a.spin1) by rw [hncls, mul_comm], sum_flat]
  refine sum_congr rfl fun X' hX' => sum_congr rfl fun Y' hY' => ?_
  rw [mem_range] at hX' hY'
  rw [hUv l l' X Y X' Y' (by omega) (by omega) hX hY hX' hY']
  have hbeam : w.beamProd l' = beam1.getD l' 0 * beam2.getD l' 0 := by
    rw [hbuild]
    exact tab_of_lt (fun l => beam1.getD l 0 * beam2.getD l 0) hl'
  rw [hbeam]
  ring

end NaMaster
