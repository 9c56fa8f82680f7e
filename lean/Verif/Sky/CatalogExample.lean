import Verif.Sky.CatalogProps
import Verif.Sky.Example

/-! # Cases for C82

Sources at the poles of the sphere. -/

namespace NaMaster

open Finset MeasureTheory WignerSpec SkySpec CouplingSpec
open scoped ENNReal

namespace PoleExample

/-- One at the north pole, and -1 at the south pole. -/
noncomputable def side (x : ℝ × ℝ) : ℤ := if x.1 = 0 then 1 else -1

theorem side_cases (x : ℝ × ℝ) : side x = 1 ∨ side x = -1 := by unfold side; split_ifs <;> simp

/-- A sign depending on the spin. -/
noncomputable def phase (σ : ℤ) : ℝ := if 0 < σ then (-1) ^ σ else 1

theorem phase_sq (σ : ℤ) : phase σ * phase σ = 1 := by
  unfold phase
  split_ifs
  · rw [← mul_zpow]; norm_num
  · norm_num

/-- Spherical harmonics at the poles. Points that are not at the north pole count as the south pole. -/
noncomputable def poleY (σ : ℤ) (l : ℕ) (m : ℤ) (x : ℝ × ℝ) : ℂ :=
  if m = -(side x * σ) ∧ |m| ≤ l then ((phase σ * (side x : ℝ) ^ l * Real.sqrt ((2 * l + 1) / (4 * Real.pi)) : ℝ) : ℂ) else 0

theorem phase_neg (s : ℕ) : phase s = (-1) ^ (s : ℤ) * phase (-s) := by
  unfold phase
  rw [if_neg (show ¬ (0 : ℤ) < -s by omega)]
  by_cases h : s = 0
  · simp [h]
  · rw [if_pos (by omega), mul_one]

/-- The symbols with the multipole in the second place. -/
theorem symbol_second (l L l' : ℕ) (a b c d : ℤ) :
    wigner3j l L l' a 0 b * wigner3j l L l' c 0 d = wigner3j L l l' 0 a b * wigner3j L l l' 0 c d := by
  rw [wigner3j_first L l l' 0 a b, wigner3j_first L l l' 0 c d]
  have : ((-1 : ℝ) ^ (L + l + l')) * (-1) ^ (L + l + l') = 1 := sign_mul_self _
  linear_combination (wigner3j L l l' 0 a b * wigner3j L l l' 0 c d) * this

theorem side_symbol (x : ℝ × ℝ) (l L l' : ℕ) (σ : ℤ) :
    (side x : ℝ) ^ L * wigner3j L l l' 0 σ (-σ) = (side x : ℝ) ^ (l + l') * wigner3j L l l' 0 (side x * σ) (-(side x * σ)) := by
  rcases side_cases x with h | h
  · rw [h]; simp
  · rw [h]
    have e := wigner3j_reversal L l l' 0 σ (-σ)
    rw [show (-1 : ℤ) * σ = -σ by ring, show -(0 : ℤ) = 0 from rfl] at *
    rw [e]
    push_cast
    have : ((-1 : ℝ) ^ (l + l')) * (-1) ^ (L + l + l') = (-1) ^ L := by
      rw [← pow_add, show l + l' + (L + l + l') = L + 2 * (l + l') by ring, pow_add, pow_mul]
      norm_num
    linear_combination (-wigner3j L l l' 0 σ (-σ)) * this

/-- Sums over the multipole of products of symbols. -/
theorem symbol_sum (l l' : ℕ) (a b : ℤ) (ha : |a| ≤ l) (ha' : |a| ≤ l') :
    ∑ L ∈ range (l + l' + 1), (2 * (L : ℝ) + 1) * (wigner3j L l l' 0 a (-a) * wigner3j L l l' 0 b (-b)) = if a = b then 1 else 0 := by
  have hw : ∀ c L, wigner3j L l l' 0 c (-c) = wrow l l' L 0 c := by
    intro c L
    unfold wrow wcol
    congr 1 <;> ring
  by_cases h : a = b
  · rw [if_pos h, ← h]
    refine Eq.trans ?_ (wcol_norm l l' a (-a) ha (by rwa [abs_neg]))
    refine sum_congr rfl fun L _ => ?_
    unfold wcol
    rw [show -a - -a = (0 : ℤ) by ring, sq]
  · rw [if_neg h]
    by_cases hb : |b| ≤ l
    · simp only [hw]
      exact wcol_orthogonal l l' 0 a b h ha hb
    · apply sum_eq_zero
      intro L _
      rw [wigner3j_not_allowed (m2 := b), mul_zero, mul_zero]
      unfold Allowed
      tauto

theorem conj_poleY (σ : ℤ) (l : ℕ) (m : ℤ) (x : ℝ × ℝ) : (starRingEnd ℂ) (poleY σ l m x) = poleY σ l m x := by
  unfold poleY
  split_ifs
  · exact Complex.conj_ofReal _
  · simp

/-- The poles of the sphere: the assumptions on spherical harmonics hold for every spin. -/
theorem spherical (s : ℕ) : Spherical poleY s where
  conj0 l m x := by
    rw [conj_poleY]
    unfold poleY
    rw [abs_neg]
    by_cases h : m = 0
    · subst h; simp
    · rw [if_neg (by simp [h]), if_neg (by simp [h])]; simp
  conjs l m x := by
    rw [conj_poleY]
    unfold poleY
    rw [abs_neg]
    have e : (-m = -(side x * -(s : ℤ)) ∧ |m| ≤ (l : ℤ)) ↔ (m = -(side x * s) ∧ |m| ≤ (l : ℤ)) := by
      rw [mul_neg, neg_neg]
      constructor <;> rintro ⟨h1, h2⟩ <;> exact ⟨by omega, h2⟩
    rw [if_congr e rfl rfl]
    by_cases h : m = -(side x * s) ∧ |m| ≤ (l : ℤ)
    · rw [if_pos h, if_pos h, phase_neg]
      have : ((-1 : ℂ) ^ m) = (-1) ^ (s : ℤ) := by
        rw [h.1]
        rcases side_cases x with h' | h' <;> rw [h']
        · rw [one_mul, zpow_neg, ← inv_zpow]; norm_num
        · simp
      rw [this]
      push_cast
      ring
    · rw [if_neg h, if_neg h, mul_zero]
  product σ _ l m l' m' x hm hm' := by
    rw [conj_poleY]
    have hR : ∑ W ∈ modes (l + l'), ((gaunt σ 0 σ l m W.1 W.2 l' m' : ℝ) : ℂ) * (starRingEnd ℂ) (poleY 0 W.1 W.2 x) =
        ((∑ L ∈ range (l + l' + 1), gaunt σ 0 σ l m L 0 l' m' * ((side x : ℝ) ^ L * Real.sqrt ((2 * L + 1) / (4 * Real.pi))) : ℝ) : ℂ) := by
      rw [sum_modes, Complex.ofReal_sum]
      refine sum_congr rfl fun L _ => ?_
      rw [sum_eq_single_of_mem 0 (by rw [mem_Icc]; omega)]
      · rw [conj_poleY]
        unfold poleY phase
        simp
      · intro M _ hM
        rw [conj_poleY]
        unfold poleY
        rw [if_neg (by simp [hM]), mul_zero]
    rw [hR]
    by_cases hmm : m = m'
    swap
    · have hz : ∀ L, gaunt σ 0 σ l m L 0 l' m' = 0 := by
        intro L
        unfold gaunt
        rw [wigner3j_sum_ne (m1 := -m) (by omega), mul_zero, zero_mul]
      simp only [hz, zero_mul, sum_const_zero, Complex.ofReal_zero]
      unfold poleY
      by_cases h1 : m = -(side x * σ)
      · rw [if_neg (show ¬ (m' = -(side x * σ) ∧ |m'| ≤ (l' : ℤ)) by rintro ⟨h, -⟩; omega), mul_zero]
      · rw [if_neg (show ¬ (m = -(side x * σ) ∧ |m| ≤ (l : ℤ)) by tauto), zero_mul]
    subst hmm
    have hterm : ∀ L, gaunt σ 0 σ l m L 0 l' m * ((side x : ℝ) ^ L * Real.sqrt ((2 * L + 1) / (4 * Real.pi))) =
        (-1) ^ (σ + m) * (side x : ℝ) ^ (l + l') * Real.sqrt ((2 * l + 1) / (4 * Real.pi)) * Real.sqrt ((2 * l' + 1) / (4 * Real.pi)) *
          ((2 * (L : ℝ) + 1) * (wigner3j L l l' 0 (-m) (- -m) * wigner3j L l l' 0 (side x * σ) (-(side x * σ)))) := by
      intro L
      have hs : Real.sqrt ((2 * l + 1) * (2 * L + 1) * (2 * l' + 1) / (4 * Real.pi)) * Real.sqrt ((2 * L + 1) / (4 * Real.pi)) =
          (2 * (L : ℝ) + 1) * (Real.sqrt ((2 * l + 1) / (4 * Real.pi)) * Real.sqrt ((2 * l' + 1) / (4 * Real.pi))) := by
        rw [← Real.sqrt_mul (by positivity), ← Real.sqrt_mul (by positivity)]
        rw [show ((2 * (l : ℝ) + 1) * (2 * L + 1) * (2 * l' + 1) / (4 * Real.pi)) * ((2 * L + 1) / (4 * Real.pi)) =
          (2 * (L : ℝ) + 1) ^ 2 * ((2 * l + 1) / (4 * Real.pi) * ((2 * l' + 1) / (4 * Real.pi))) by ring]
        rw [Real.sqrt_mul (by positivity), Real.sqrt_sq (by positivity)]
      have h1 := symbol_second l L l' (-m) m σ (-σ)
      have h2 := side_symbol x l L l' σ
      unfold gaunt
      rw [neg_zero, neg_neg]
      calc _ = (-1) ^ (σ + m) * (Real.sqrt ((2 * l + 1) * (2 * L + 1) * (2 * l' + 1) / (4 * Real.pi)) * Real.sqrt ((2 * L + 1) / (4 * Real.pi))) *
            (wigner3j l L l' (-m) 0 m * wigner3j l L l' σ 0 (-σ)) * (side x : ℝ) ^ L := by ring
        _ = (-1) ^ (σ + m) * (Real.sqrt ((2 * l + 1) * (2 * L + 1) * (2 * l' + 1) / (4 * Real.pi)) * Real.sqrt ((2 * L + 1) / (4 * Real.pi))) *
            wigner3j L l l' 0 (-m) m * ((side x : ℝ) ^ L * wigner3j L l l' 0 σ (-σ)) := by rw [h1]; ring
        _ = _ := by rw [hs, h2]; ring
    rw [sum_congr rfl fun L _ => hterm L, ← mul_sum, symbol_sum l l' (-m) (side x * σ) (by rwa [abs_neg]) (by rwa [abs_neg])]
    unfold poleY
    by_cases h1 : m = -(side x * σ)
    · rw [if_pos ⟨h1, hm⟩, if_pos ⟨h1, hm'⟩, if_pos (by omega)]
      have hsg : ((-1 : ℝ) ^ (σ + m)) = 1 := by
        apply Even.neg_one_zpow
        rw [h1]
        rcases side_cases x with h' | h' <;> rw [h']
        · simp
        · exact ⟨σ, by ring⟩
      rw [hsg, ← Complex.ofReal_mul]
      congr 1
      rw [pow_add]
      linear_combination ((side x : ℝ) ^ l * (side x : ℝ) ^ l' * Real.sqrt ((2 * l + 1) / (4 * Real.pi)) * Real.sqrt ((2 * l' + 1) / (4 * Real.pi))) *
        phase_sq σ
    · rw [if_neg (show ¬ (m = -(side x * σ) ∧ |m| ≤ (l : ℤ)) by tauto), if_neg (show ¬ -m = side x * σ by omega)]
      simp

/-- The transform with these harmonics. -/
noncomputable def poleHarm : Harm (ℝ × ℝ) where
  a s l m x := if s = 0 then poleY 0 l m x else (poleY s l m x + poleY (-s) l m x) / 2
  b s l m x := (poleY (-s) l m x - poleY s l m x) / (2 * Complex.I)

theorem uses (s : ℕ) : UsesHarmonics poleHarm poleY s where
  scalar l m x := by rw [conj_poleY]; rfl
  plus hs l m x := by
    rw [conj_poleY]
    unfold poleHarm
    dsimp only
    rw [if_neg (by exact_mod_cast hs)]
    have := Complex.I_ne_zero
    field_simp
    ring
  minus hs l m x := by
    rw [conj_poleY]
    unfold poleHarm
    dsimp only
    rw [if_neg (by exact_mod_cast hs)]
    have := Complex.I_ne_zero
    field_simp
    ring

theorem poleY_zero (l : ℕ) (x : ℝ × ℝ) : poleY 0 l 0 x = (((side x : ℝ) ^ l * Real.sqrt ((2 * l + 1) / (4 * Real.pi)) : ℝ) : ℂ) := by
  unfold poleY phase
  simp

theorem poleY_scalar (l : ℕ) {m : ℤ} (hm : m ≠ 0) (x : ℝ × ℝ) : poleY 0 l m x = 0 := by
  unfold poleY
  rw [if_neg (by simp [hm])]

/-- The product of two sources of a scalar. -/
theorem pole_pair (l : ℕ) (x x' : ℝ × ℝ) (q q' u u' : ℝ) :
    pairTerm poleHarm 0 0 0 0 l x q u x' q' u' = (side x : ℝ) ^ l * (side x' : ℝ) ^ l * q * q' / (4 * Real.pi) := by
  unfold pairTerm
  have hsrc : ∀ (y : ℝ × ℝ) (p r : ℝ) (m : ℕ), poleHarm.source 0 y p r 0 l m = (p : ℂ) * poleY 0 l m y := by
    intro y p r m
    unfold Harm.source poleHarm
    simp
  rw [alm2cl_m0 _ _ _ fun m hm => by rw [hsrc, poleY_scalar l (by exact_mod_cast hm), mul_zero]]
  rw [hsrc, hsrc, Nat.cast_zero, poleY_zero, poleY_zero, ← Complex.ofReal_mul, ← Complex.ofReal_mul, Complex.conj_ofReal, ← Complex.ofReal_mul,
    Complex.ofReal_re]
  have h := Real.mul_self_sqrt (show (0 : ℝ) ≤ (2 * l + 1) / (4 * Real.pi) by positivity)
  have hp := Real.pi_ne_zero
  rw [div_eq_div_iff (by positivity) (by positivity)]
  calc _ = (side x : ℝ) ^ l * (side x' : ℝ) ^ l * q * q' * (Real.sqrt ((2 * l + 1) / (4 * Real.pi)) * Real.sqrt ((2 * l + 1) / (4 * Real.pi))) *
        (4 * Real.pi) := by ring
    _ = _ := by rw [h]; field_simp

theorem side_sq (x : ℝ × ℝ) (l : ℕ) : (side x : ℝ) ^ l * (side x : ℝ) ^ l = 1 := by
  rw [← mul_pow]
  rcases side_cases x with h | h <;> rw [h] <;> norm_num

theorem normalised (l : ℕ) : poleHarm.Normalised 0 l := by
  refine ⟨fun _ x => ?_, fun h => absurd rfl h, fun h => absurd rfl h, fun h => absurd rfl h⟩
  have h := pole_pair l x x 1 1 0 0
  unfold pairTerm at h
  have hsrc : poleHarm.source 0 x 1 0 0 = fun l m => poleHarm.a 0 l m x := by
    funext l m
    unfold Harm.source
    simp
  rw [hsrc] at h
  rw [h, side_sq]
  ring

/-! ## Two sources -/

/-- Two sources, one at each pole, with equal weights; `lmax` is one. -/
noncomputable def argsP (maskLimit : Option ℕ) : CatArgs where
  rows := 2
  cols := 2
  pos c i := if c = 0 ∧ i = 1 then Real.pi else 0
  nsrc := 2
  weights _ := 1
  field := none
  spin := some 0
  lmax := 1
  lmaxMask := maskLimit
  beam := none
  weighted := false

/-- The noise: not zero, not correlated between the sources. -/
noncomputable def noiseP (ω : Fin 4) (_c i : ℕ) : ℝ := if i = 0 then SkyExample.vx ω else SkyExample.vy ω

/-- The values. -/
noncomputable def valuesP (ml : Option ℕ) (ω : Fin 4) : MapStack := fun c i => skyAt poleY 0 1 (SkyExample.sky4 ω) ((argsP ml).at i) c + noiseP ω c i

theorem catalog_madeP (ml : Option ℕ) (v : MapStack) : ∃ f, nmtFieldCatalog poleHarm ((argsP ml).withValues 1 v) = .ok f := by
  have hp := Real.pi_pos
  have h1 : positionsOk 2 2 2 (argsP ml).pos := by
    refine ⟨rfl, rfl, fun i _ => ?_, fun i _ => ?_⟩
    · unfold argsP
      simp only [true_and]
      split_ifs <;> constructor <;> linarith
    · unfold argsP
      norm_num
      linarith
  have h1' : positionsOk ((argsP ml).withValues 1 (v)).rows ((argsP ml).withValues 1 (v)).cols
    ((argsP ml).withValues 1 (v)).nsrc ((argsP ml).withValues 1 (v)).pos := h1
  unfold nmtFieldCatalog
  rw [if_neg (not_not.2 h1')]
  dsimp only
  rw [if_neg (by simp [CatArgs.withValues, argsP])]
  simp only [CatArgs.withValues, argsP]
  exact ⟨_, if_neg (by simp)⟩

theorem madeP (ml : Option ℕ) : ∃ f : Fin 4 → CatObj, ∀ ω, nmtFieldCatalog poleHarm ((argsP ml).withValues 1 (valuesP ml ω)) = .ok (f ω) :=
  Classical.axiomOfChoice (r := fun ω f => nmtFieldCatalog poleHarm ((argsP ml).withValues 1 (valuesP ml ω)) = .ok f)
    fun ω => catalog_madeP ml (valuesP ml ω)

/-- The catalogs. -/
noncomputable def catP (ml : Option ℕ) : Fin 4 → CatObj := (madeP ml).choose

theorem catalogsP (ml : Option ℕ) : CatalogsOf poleHarm poleY (argsP ml) 0 1 (ml.getD 1) SkyExample.sky4 noiseP (valuesP ml) (catP ml) where
  harmonics := spherical 0
  transform := uses 0
  spin := rfl
  bandLimit := rfl
  maskBandLimit := rfl
  skyReal := fun ω c _ => SkyExample.coef_real _
  values := by
    intro ω c hc i hi
    unfold valuesP
    simp [argsP]
  made := (madeP ml).choose_spec

theorem sideP (ml : Option ℕ) {i : ℕ} (hi : i < 2) : (side ((argsP ml).at i) : ℝ) = if i = 0 then 1 else -1 := by
  have hp := Real.pi_ne_zero
  obtain rfl | rfl : i = 0 ∨ i = 1 := by omega
  · simp [side, CatArgs.at, argsP]
  · simp [side, CatArgs.at, argsP, hp]

/-- The sky at the poles. -/
theorem skyP (ml : Option ℕ) (ω : Fin 4) {i : ℕ} (hi : i < 2) : skyAt poleY 0 1 (SkyExample.sky4 ω) ((argsP ml).at i) 0 =
    2 * SkyExample.kappa * SkyExample.vz ω * (if i = 0 then 1 else -1) * Real.sqrt (3 / (4 * Real.pi)) := by
  unfold skyAt
  simp only [if_true, add_zero]
  rw [sum_eq_single_of_mem ((1, 0) : ℕ × ℤ) (by rw [mem_skyModes]; simp)]
  · dsimp only
    rw [SkyExample.sky4_val, if_pos ⟨rfl, rfl⟩, Nat.cast_zero, poleY_zero, ← Complex.ofReal_mul, Complex.ofReal_re, pow_one, sideP ml hi]
    norm_num
  · intro q _ hq
    by_cases hm : q.2 = 0
    · rw [SkyExample.sky4_val, if_neg, if_neg, if_neg, zero_mul]
      · omega
      · omega
      · rintro ⟨h1, h2⟩; exact hq (Prod.ext h1 h2)
    · rw [Nat.cast_zero, poleY_scalar _ hm, mul_zero]

theorem integralR (f : Fin 4 → ℝ) : ∫ ω, f ω ∂SkyExample.mu4 = (1 / 4) * (f 0 + f 1 + f 2 + f 3) := by
  unfold SkyExample.mu4
  rw [integral_smul_measure, integral_fintype Integrable.of_finite]
  simp [Fin.sum_univ_four]

theorem noiseFreeP (ml : Option ℕ) : NoiseFree SkyExample.mu4 (ncomp 0) (ncomp 0) (fun i j => i < 2 ∧ j < 2 ∧ i ≠ j)
    (fun ω c i => skyAt poleY 0 1 (SkyExample.sky4 ω) ((argsP ml).at i) c) noiseP
    (fun ω c i => skyAt poleY 0 1 (SkyExample.sky4 ω) ((argsP ml).at i) c) noiseP := by
  have := SkyExample.probability4
  have h1 : ∀ c, c < ncomp 0 → c = 0 := by intro c hc; unfold ncomp at hc; simp at hc; exact hc
  constructor
  all_goals
    intro c hc d hd i j hij
    obtain rfl := h1 c hc
    obtain rfl := h1 d hd
    refine ⟨Integrable.of_finite, ?_⟩
    rw [integralR]
    obtain ⟨hi, hj, hne⟩ := hij
    try simp only [skyP ml _ hi, skyP ml _ hj]
    obtain ⟨rfl, rfl⟩ | ⟨rfl, rfl⟩ : (i = 0 ∧ j = 1) ∨ (i = 1 ∧ j = 0) := by omega
    all_goals
      simp [noiseP, SkyExample.vx, SkyExample.vy, SkyExample.vz]
      try ring

theorem maskP (ml : Option ℕ) {L : ℕ} : maskSpectrum (catP ml 0).view (catP ml 0).view true L = 2 * (-1) ^ L / (4 * Real.pi) := by
  have h := C39_mask poleHarm _ (catP ml 0) ((catalogsP ml).made 0) L (normalised L)
  rw [h]
  change ∑ i ∈ range 2, ∑ j ∈ (range 2).erase i, pairTerm poleHarm 0 0 0 0 L ((argsP ml).at i) 1 _ ((argsP ml).at j) 1 _ = _
  have e0 : (range 2).erase 0 = {1} := by decide
  have e1 : (range 2).erase 1 = {0} := by decide
  rw [sum_range_succ, sum_range_one, e0, e1, sum_singleton, sum_singleton, pole_pair, pole_pair, sideP ml (by norm_num : 0 < 2),
    sideP ml (by norm_num : 1 < 2)]
  simp
  ring

/-- Squares of symbols. -/
theorem symbols11 : spin3j racah 0 0 1 1 ^ 2 = 1 / 3 ∧ spin3j racah 0 1 1 1 = 0 ∧ spin3j racah 0 2 1 1 ^ 2 = 2 / 15 := by
  have h0 : spin3j racah 0 0 1 1 ^ 2 = 1 / 3 := by
    rw [spin3j_racah]
    have := wigner3j_monopole 1 0 (by simp)
    simp only [Nat.cast_zero, neg_zero] at this ⊢
    rw [this, div_pow, Real.sq_sqrt (by norm_num)]
    norm_num
  have h1 : spin3j racah 0 1 1 1 = 0 := by
    rw [spin3j_racah]
    have := wigner3j_reversal 1 1 1 0 0 0
    simp only [Nat.cast_zero, neg_zero] at this ⊢
    norm_num at this
    linarith
  refine ⟨h0, h1, ?_⟩
  have h := sum_firstL 1 1 0 2 (by norm_num) (by norm_num) le_rfl
  rw [sum_range_succ, sum_range_succ, sum_range_one] at h
  rw [h1] at h
  push_cast at h
  linarith

/-- The element of the matrix for the dipole, with the mask up to 1 or up to 2. -/
theorem elementP {N : ℕ} (hN : N = 1 ∨ N = 2) : CouplingSpec.matrix racah 0 0 N (fun L => 2 * (-1) ^ L / (4 * Real.pi)) 1 0 1 0 =
    (if N = 1 then 2 else 6) / (16 * Real.pi ^ 2) := by
  obtain ⟨h0, h1, h2⟩ := symbols11
  have hp := Real.pi_ne_zero
  unfold CouplingSpec.matrix CouplingSpec.coupling
  rcases hN with rfl | rfl
  · rw [sum_range_succ, sum_range_one]
    simp only [h1, if_true, true_or, mul_zero, add_zero, mul_assoc, ← sq, h0]
    push_cast
    field_simp
    norm_num
  · rw [sum_range_succ, sum_range_succ, sum_range_one]
    simp only [h1, if_true, true_or, mul_zero, add_zero, mul_assoc, ← sq, h0, h2]
    push_cast
    field_simp
    norm_num

theorem wspP (ml : Option ℕ) (hN : ml.getD 1 = 1 ∨ ml.getD 1 = 2) :
    ∃ w, wspFromCatalogs racah (catP ml 0) (catP ml 0) true SkyExample.bins4 SkyExample.wargs4 = .ok w ∧ w.ncls = 1 ∧
      ∃ U, w.unbinned = some U ∧ U 1 1 = (if ml.getD 1 = 1 then 2 else 6) / (16 * Real.pi ^ 2) ∧
        Regular w.nBinned w.binned := by
  obtain ⟨p1, p2, p3, -, p5, -, -, p8⟩ := (catalogsP ml).facts 0
  have e : SkyExample.bins4.ellMax = 1 := rfl
  have hb : (catP ml 0).beamList.length = 2 := by
    unfold CatObj.beamList
    rw [p5]; simp [argsP]
  have hex : ∃ w, wspFromCatalogs racah (catP ml 0) (catP ml 0) true SkyExample.bins4 SkyExample.wargs4 = .ok w := by
    unfold wspFromCatalogs
    rw [if_neg (by unfold isCompatible CatObj.view; simp), if_neg (by rw [e, p1]; simp),
      show toeplitzSanity SkyExample.wargs4.lT SkyExample.wargs4.lE SkyExample.wargs4.dl SkyExample.bins4.ellMax _ = none from rfl]
    dsimp only
    unfold catNormOf
    rw [if_pos (show SkyExample.wargs4.norm = "MASTER" from rfl)]
    simp only [Outcome.bind]
    unfold compCouplingMatrix computeCouplingMatrix
    rw [p1, p2]
    rw [if_neg (by simp [hb, catCouplingArgs, p2]), if_neg (by simp [catCouplingArgs, SkyExample.wargs4]), if_neg (by rw [e]; omega),
      if_neg (by rw [e]; simp [catCouplingArgs, p2]; rcases hN with h | h <;> omega), if_neg (by simp [catCouplingArgs, flag])]
    exact ⟨_, rfl⟩
  obtain ⟨w, hw⟩ := hex
  obtain ⟨hB, n, hn, hc⟩ := wsp_catalogs hw
  have hn0 : n.1 = 0 := by
    unfold catNormOf at hn
    rw [if_pos (show SkyExample.wargs4.norm = "MASTER" from rfl)] at hn
    rw [← Outcome.ok.inj hn]
  have hs1 : (catCouplingArgs (catP ml 0) (catP ml 0) SkyExample.wargs4).spin1 = 0 := by unfold catCouplingArgs; rw [p3]; rfl
  have hs2 : (catCouplingArgs (catP ml 0) (catP ml 0) SkyExample.wargs4).spin2 = 0 := by unfold catCouplingArgs; rw [p3]; rfl
  obtain ⟨hncls, U, hU, hv⟩ := C76_matrix ⟨rfl, rfl, rfl, rfl, rfl, show (-1 : ℤ) ≤ 0 by norm_num⟩ hc
  rw [hs1, hs2] at hncls hv
  have hw1 : w.ncls = 1 := by rw [hncls]; rfl
  have hval := hv 1 1 0 0 le_rfl le_rfl (by omega) (by omega)
  rw [hw1] at hval
  have hU11 : U 1 1 = (if ml.getD 1 = 1 then 2 else 6) / (16 * Real.pi ^ 2) := by
    rw [← elementP hN]
    refine hval.trans ?_
    rw [show (catCouplingArgs (catP ml 0) (catP ml 0) SkyExample.wargs4).lmaxMask = ml.getD 1 from p2, p2]
    unfold CouplingSpec.matrix CouplingSpec.coupling
    congr 1
    simp only [true_or, if_true]
    refine sum_congr rfl fun L hL => ?_
    rw [range_getD _ (by rw [mem_range] at hL; omega), maskP]
  refine ⟨w, hw, hw1, U, hU, hU11, ?_⟩
  obtain ⟨-, -, -, p, U0, hbuild⟩ := comp_parts hc
  rw [show (catCouplingArgs (catP ml 0) (catP ml 0) SkyExample.wargs4).ncls = 1 by simp [CouplingArgs.ncls, hs1, hs2]; rfl] at hbuild
  have hbin : w.binned 0 0 = U 1 1 := by
    have hb := binMatrix_apply 1 n.1 n.2 (tab ((catP ml 0).lmax + 1) fun l => (catP ml 0).beamList.getD l 0 * (catP ml 0).beamList.getD l 0) SkyExample.bins4 U
      (a := 0) (b := 0) (ib2 := 0) (ib3 := 0) (by norm_num) (by norm_num) (by simp [SkyExample.bins4, Bins.nBands]) (by simp [SkyExample.bins4, Bins.nBands])
    have hU' : U = tab2 (1 * (SkyExample.bins4.ellMax + 1)) (1 * (SkyExample.bins4.ellMax + 1)) U0 := by
      rw [hbuild] at hU
      exact (Option.some.inj hU).symm
    have : w.binned = binMatrix 1 n.1 n.2 (tab ((catP ml 0).lmax + 1) fun l => (catP ml 0).beamList.getD l 0 * (catP ml 0).beamList.getD l 0) SkyExample.bins4 U := by
      rw [hU', hbuild]; rfl
    rw [this]
    refine hb.trans ?_
    unfold binnedElement
    rw [if_pos hn0]
    simp only [SkyExample.bins4, Bins.band, List.getD_cons_zero, List.map_cons, List.map_nil, List.sum_cons, List.sum_nil]
    rw [tab, if_pos (by rw [p1]; omega), p8 1 le_rfl]
    simp [CatArgs.beamAt, argsP]
  have hpos : U 1 1 ≠ 0 := by
    rw [hU11]
    have := Real.pi_pos
    split_ifs <;> positivity
  unfold Regular Wsp.nBinned
  have hbn : w.bin.nBands = 1 := by rw [hbuild]; rfl
  rw [hw1, hbn]
  have : (toMat (1 * 1) w.binned).det = U 1 1 := by
    rw [show (toMat (1 * 1) w.binned).det = (toMat 1 w.binned).det from rfl, Matrix.det_fin_one]
    exact hbin
  rw [this]
  exact hpos.isUnit

/-- The mean of the spectrum at the poles. -/
theorem spectrumP (ml : Option ℕ) : ∃ P : Fin 4 → Arr2 ℝ, (∀ ω, computeCoupledCell (catP ml ω).view (catP ml ω).view true = .ok (some (P ω))) ∧
    (∀ ω, (P ω).rows = 1 ∧ (P ω).cols = 2) ∧ ∫ ω, (P ω).val 0 1 ∂SkyExample.mu4 = 3 / (8 * Real.pi) := by
  choose P hP hPr hPc hPv using fun ω => C39_catalog poleHarm _ (catP ml ω) ((catalogsP ml).made ω) ⟨1, 2, valuesP ml ω⟩ rfl 1
    (by rw [((catalogsP ml).facts ω).2.2.1]; simp)
  refine ⟨P, hP, fun ω => ⟨hPr ω, hPc ω⟩, ?_⟩
  have e0 : (range 2).erase 0 = {1} := by decide
  have e1 : (range 2).erase 1 = {0} := by decide
  have hv : ∀ ω, (P ω).val 0 1 = -2 * ((valuesP ml ω 0 0) * (valuesP ml ω 0 1)) / (4 * Real.pi) := by
    intro ω
    have hs := ((catalogsP ml).facts ω).2.2.1
    refine (hPv ω 1 le_rfl (by rw [hs]; exact normalised 1) 0 (by norm_num) 0 (by norm_num)).trans ?_
    change ∑ i ∈ range 2, ∑ j ∈ (range 2).erase i, _ = _
    rw [sum_range_succ, sum_range_one, e0, e1, sum_singleton, sum_singleton, hs]
    have hval : ∀ c i, ((argsP ml).withValues (ncomp 0) (valuesP ml ω)).value ⟨1, 2, valuesP ml ω⟩ c i = valuesP ml ω c i := by
      intro c i
      simp [CatArgs.value, CatArgs.withValues, argsP]
    rw [hval, hval, hval, hval]
    change pairTerm poleHarm 0 0 0 0 1 ((argsP ml).at 0) _ _ ((argsP ml).at 1) _ _ + pairTerm poleHarm 0 0 0 0 1 ((argsP ml).at 1) _ _ ((argsP ml).at 0) _ _ = _
    rw [pole_pair, pole_pair, sideP ml (by norm_num : 0 < 2), sideP ml (by norm_num : 1 < 2)]
    norm_num
    ring
  simp only [hv]
  rw [integralR]
  unfold valuesP
  simp only [skyP ml _ (show 0 < 2 by norm_num), skyP ml _ (show 1 < 2 by norm_num)]
  have hk := SkyExample.kappa_sq
  have hq := Real.sq_sqrt (show (0 : ℝ) ≤ 3 / (4 * Real.pi) by positivity)
  have hp := Real.pi_ne_zero
  generalize Real.sqrt (3 / (4 * Real.pi)) = q at *
  simp [noiseP, SkyExample.vx, SkyExample.vy, SkyExample.vz]
  have hkq : SkyExample.kappa ^ 2 * q ^ 2 = 3 / 16 := by rw [hk, hq]; field_simp; norm_num
  field_simp
  ring_nf
  linear_combination 256 * hkq

/-- The hypotheses of C82 are met: with the mask up to `l = 2` the bandpower of the dipole of the four skies is `π`, and its estimate from the
noisy values at the poles has this mean. -/
example : ∃ (w : Wsp ℝ) (P D : Fin 4 → Arr2 ℝ),
    wspFromCatalogs racah (catP (some 2) 0) (catP (some 2) 0) true SkyExample.bins4 SkyExample.wargs4 = .ok w ∧
    (∀ ω, computeCoupledCell (catP (some 2) ω).view (catP (some 2) ω).view true = .ok (some (P ω))) ∧
    (∀ ω, decoupleCell (exactLinAlg ℝ) w (P ω) none none = .ok (D ω)) ∧ ∫ ω, (D ω).val 0 0 ∂SkyExample.mu4 = Real.pi := by
  obtain ⟨C, hC, -, -, hC0, hC1⟩ := SkyExample.unbin4
  obtain ⟨w, hw, -, U, -, -, hreg⟩ := wspP (some 2) (Or.inr rfl)
  obtain ⟨P, D, hP, hD, -, hm⟩ := C82_unbiased_partial SkyExample.mu4 (exactLinAlg ℝ) exactLinAlg_correct poleHarm poleY (argsP (some 2)) 0 1 2
    SkyExample.sky4 noiseP (valuesP (some 2)) (catP (some 2)) (catalogsP (some 2)) le_rfl SkyExample.bins4 (by simp [WspSpec.Bounded, SkyExample.bins4])
    (by simp [BinSpec.NoRepeats, SkyExample.bins4]) (by simp) SkyExample.spec4 C rfl rfl hC
    (SkyExample.isotropic4 (by simp [ncomp, hC0]) (by simp [ncomp, hC1, CatArgs.beamAt, argsP])) (noiseFreeP _) (fun l _ => normalised l)
    (fun l _ _ => normalised l) SkyExample.wargs4 rfl (by decide) rfl 0 w hw hreg
  exact ⟨w, P, D, hw, hP, hD, (hm 0 (by simp [SkyExample.spec4]) 0 (by simp [SkyExample.spec4])).2⟩

/-- Values without noise. -/
noncomputable def cleanP (ω : Fin 4) : MapStack := fun c i => skyAt poleY 0 1 (SkyExample.sky4 ω) ((argsP (some 2)).at i) c

theorem madeClean : ∃ f : Fin 4 → CatObj, ∀ ω, nmtFieldCatalog poleHarm ((argsP (some 2)).withValues 1 (cleanP ω)) = .ok (f ω) :=
  Classical.axiomOfChoice (r := fun ω f => nmtFieldCatalog poleHarm ((argsP (some 2)).withValues 1 (cleanP ω)) = .ok f)
    fun ω => catalog_madeP (some 2) (cleanP ω)

theorem catalogsClean : CatalogsOf poleHarm poleY (argsP (some 2)) 0 1 2 SkyExample.sky4 (fun _ _ _ => 0) cleanP madeClean.choose where
  harmonics := spherical 0
  transform := uses 0
  spin := rfl
  bandLimit := rfl
  maskBandLimit := rfl
  skyReal := fun ω c _ => SkyExample.coef_real _
  values := by
    intro ω c hc i hi
    unfold cleanP
    simp [argsP]
  made := madeClean.choose_spec

/-- The hypotheses of the theorem for two catalogs are met: the same sources with and without noise. -/
example : ∃ w, wspFromCatalogs racah (catP (some 2) 0) (madeClean.choose 0) false SkyExample.bins4 SkyExample.wargs4 = .ok w ∧
    ∃ P : Fin 4 → Arr2 ℝ, (∀ ω, computeCoupledCell (catP (some 2) ω).view (madeClean.choose ω).view false = .ok (some (P ω))) ∧
      Integrable (fun ω => (P ω).val 0 1) SkyExample.mu4 := by
  obtain ⟨p1, p2, p3, -, p5, -, -, p8⟩ := (catalogsP (some 2)).facts 0
  obtain ⟨r1, r2, r3, -, r5, -, -, r8⟩ := catalogsClean.facts 0
  have e : SkyExample.bins4.ellMax = 1 := rfl
  have hb : (catP (some 2) 0).beamList.length = 2 := by
    unfold CatObj.beamList
    rw [p5]; simp [argsP]
  have hb' : (madeClean.choose 0).beamList.length = 2 := by
    unfold CatObj.beamList
    rw [r5]; simp [argsP]
  have hex : ∃ w, wspFromCatalogs racah (catP (some 2) 0) (madeClean.choose 0) false SkyExample.bins4 SkyExample.wargs4 = .ok w := by
    unfold wspFromCatalogs
    rw [if_neg (by unfold isCompatible CatObj.view; simp [p1, p2, r1, r2]), if_neg (by rw [e, p1]; simp),
      show toeplitzSanity SkyExample.wargs4.lT SkyExample.wargs4.lE SkyExample.wargs4.dl SkyExample.bins4.ellMax _ = none from rfl]
    dsimp only
    unfold catNormOf
    rw [if_pos (show SkyExample.wargs4.norm = "MASTER" from rfl)]
    simp only [Outcome.bind]
    unfold compCouplingMatrix computeCouplingMatrix
    rw [p1, p2]
    rw [if_neg (by simp [hb, hb', catCouplingArgs, p2]), if_neg (by simp [catCouplingArgs, SkyExample.wargs4]), if_neg (by rw [e]; omega),
      if_neg (by rw [e]; simp [catCouplingArgs, p2]), if_neg (by simp [catCouplingArgs, flag])]
    exact ⟨_, rfl⟩
  obtain ⟨w, hw⟩ := hex
  obtain ⟨C, hC, hCr, hCc, hC0, hC1⟩ := SkyExample.unbin4
  have hnf : NoiseFree SkyExample.mu4 (ncomp 0) (ncomp 0) (fun i j => i < (argsP (some 2)).nsrc ∧ j < (argsP (some 2)).nsrc)
      (fun ω c i => skyAt poleY 0 1 (SkyExample.sky4 ω) ((argsP (some 2)).at i) c) noiseP
      (fun ω c i => skyAt poleY 0 1 (SkyExample.sky4 ω) ((argsP (some 2)).at i) c) (fun _ _ _ => 0) := by
    have := SkyExample.probability4
    have h1 : ∀ c, c < ncomp 0 → c = 0 := by intro c hc; unfold ncomp at hc; simp at hc; exact hc
    constructor
    · intro c _ d _ i j _
      simp
    · intro c hc d hd i j hij
      obtain rfl := h1 c hc
      obtain rfl := h1 d hd
      refine ⟨Integrable.of_finite, ?_⟩
      rw [integralR]
      simp only [skyP _ _ hij.2]
      by_cases h : i = 0 <;> by_cases h' : j = 0 <;> simp [noiseP, h, h', SkyExample.vx, SkyExample.vy, SkyExample.vz]
    · intro c _ d _ i j _
      simp
  obtain ⟨P, U, R, hP, -, -, -, -, -, hv⟩ := C82_cross_mean_partial SkyExample.mu4 poleHarm poleY (argsP (some 2)) (argsP (some 2)) 0 0 1 2 SkyExample.sky4
    SkyExample.sky4 noiseP (fun _ _ _ => 0) (valuesP (some 2)) cleanP (catP (some 2)) madeClean.choose (catalogsP (some 2)) catalogsClean le_rfl C hCr hCc
    (SkyExample.isotropic4 (by simp [ncomp, hC0]) (by simp [ncomp, hC1, CatArgs.beamAt, argsP])) hnf SkyExample.bins4 SkyExample.wargs4 rfl (by decide) 0 w hw
  exact ⟨w, hw, P, hP, (hv 0 (by decide) 1 le_rfl).1⟩

end PoleExample

open PoleExample

/-- **C82** is false for the default band limit of the mask, that of the catalog: the bandpower of these catalogs is three times too large. All
other assumptions hold. -/
theorem C82_default_band_limit_wrong :
    ∃ (H : Harm (ℝ × ℝ)) (Y : ℤ → ℕ → ℤ → ℝ × ℝ → ℂ) (a : CatArgs) (F : Fin 4 → ℕ → ℕ → ℤ → ℂ) (noise : Fin 4 → ℕ → ℕ → ℝ) (v : Fin 4 → MapStack)
      (f : Fin 4 → CatObj) (B : Bins ℝ) (y C : Arr2 ℝ) (w : Wsp ℝ) (P D : Fin 4 → Arr2 ℝ),
      CatalogsOf H Y a 0 1 1 F noise v f ∧ a.lmaxMask = none ∧ WspSpec.Bounded B B.ellMax ∧ BinSpec.NoRepeats B ∧
      unbinCells B y = .ok C ∧
      Isotropic SkyExample.mu4 1 1 1 F F (fun X Y l => a.beamAt l * a.beamAt l * C.val (X + Y) l) ∧
      NoiseFree SkyExample.mu4 1 1 (fun i j => i < a.nsrc ∧ j < a.nsrc ∧ i ≠ j) (fun ω c i => skyAt Y 0 1 (F ω) (a.at i) c) noise
        (fun ω c i => skyAt Y 0 1 (F ω) (a.at i) c) noise ∧
      (∀ l, H.Normalised 0 l) ∧
      wspFromCatalogs racah (f 0) (f 0) true B SkyExample.wargs4 = .ok w ∧ Regular w.nBinned w.binned ∧
      (∀ ω, computeCoupledCell (f ω).view (f ω).view true = .ok (some (P ω))) ∧
      (∀ ω, decoupleCell (exactLinAlg ℝ) w (P ω) none none = .ok (D ω)) ∧
      ∫ ω, (D ω).val 0 0 ∂SkyExample.mu4 = 3 * y.val 0 0 ∧ y.val 0 0 ≠ 0 := by
  have := SkyExample.probability4
  have hp := Real.pi_ne_zero
  obtain ⟨C, hC, -, -, hC0, hC1⟩ := SkyExample.unbin4
  obtain ⟨w, hw, hw1, U, hU, hU11, hreg⟩ := wspP none (Or.inl rfl)
  obtain ⟨P, hP, hPs, hPm⟩ := spectrumP none
  obtain ⟨hB, n, hn, hc⟩ := wsp_catalogs hw
  have hn0 : n.1 = 0 := by
    unfold catNormOf at hn
    rw [if_pos (show SkyExample.wargs4.norm = "MASTER" from rfl)] at hn
    rw [← Outcome.ok.inj hn]
  obtain ⟨-, -, -, p, U0, hbuild⟩ := comp_parts hc
  have hlm : w.lmax = 1 := by rw [hbuild]; rfl
  obtain ⟨C3, hC3, hr3, hc3, h30, h31⟩ : ∃ C3, unbinCells SkyExample.bins4 ⟨1, 1, fun _ _ => 3 * Real.pi⟩ = .ok C3 ∧ C3.rows = 1 ∧ C3.cols = 2 ∧
      C3.val 0 0 = 0 ∧ C3.val 0 1 = 3 * Real.pi := by
    refine ⟨_, by unfold unbinCells; rw [if_neg (by simp [SkyExample.bins4, Bins.nBands])], rfl, rfl, ?_, ?_⟩
    · rw [Arr2.of]
      simp [tab2, unbinCls, unbinFrom, unbinBand, SkyExample.bins4]
    · rw [Arr2.of]
      simp [tab2, unbinCls, unbinFrom, unbinBand, SkyExample.bins4]
  have hR := coupleCell_ok w U C3 (hr3.trans hw1.symm) (by rw [hc3, hlm])
  have hRv : coupleCl w.ncls w.lmax U w.beamProd C3.val 0 1 = 3 / (8 * Real.pi) := by
    unfold coupleCl
    rw [hlm, hw1]
    have hb : w.beamProd 1 = 1 := by
      obtain ⟨p1, -, -, -, -, -, -, p8⟩ := (catalogsP none).facts 0
      rw [hbuild]
      unfold buildWsp
      dsimp only
      rw [tab, if_pos (by rw [p1]; omega), p8 1 le_rfl]
      simp [CatArgs.beamAt, argsP]
    simp [sum_range_succ, h30, h31, hU11, hb]
    field_simp
    norm_num
  obtain ⟨D, hD, -, hDm⟩ := unbiased_comp (μ := SkyExample.mu4) (exactLinAlg ℝ) exactLinAlg_correct hc hn0
    (by simp [WspSpec.Bounded, SkyExample.bins4]) (by simp [BinSpec.NoRepeats, SkyExample.bins4]) hreg ⟨1, 1, fun _ _ => 3 * Real.pi⟩ C3 _ hw1.symm rfl hC3 hU hR P
    (fun ω => ⟨(hPs ω).1.trans hw1.symm, by rw [(hPs ω).2]; change 2 = w.lmax + 1; rw [hlm]⟩) (by
      intro k hk b hb e he
      obtain rfl : k = 0 := by omega
      simp only [SkyExample.bins4, List.mem_singleton] at hb
      subst hb
      rw [List.mem_singleton] at he
      subst he
      refine ⟨Integrable.of_finite, hPm.trans ?_⟩
      dsimp only
      rw [← hRv]
      exact (tab2_of_lt _ (by omega) (by omega)).symm)
  refine ⟨poleHarm, poleY, argsP none, SkyExample.sky4, noiseP, valuesP none, catP none, SkyExample.bins4, SkyExample.spec4, C, w, P, D, catalogsP none, rfl,
    by simp [WspSpec.Bounded, SkyExample.bins4], by simp [BinSpec.NoRepeats, SkyExample.bins4], hC,
    SkyExample.isotropic4 (by simp [hC0]) (by simp [hC1, CatArgs.beamAt, argsP]), noiseFreeP none, normalised, hw, hreg, hP, hD, ?_, ?_⟩
  · exact (hDm 0 (by simp) 0 (by simp)).2
  · exact hp

end NaMaster
