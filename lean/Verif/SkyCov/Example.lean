import Verif.SkyCov.Props
import Verif.Sky.Example
import Verif.Flat.CovarExample

/-! # A case for C84, and the covariance of fields of spin 1

Four pixels at the vertices of a tetrahedron and skies made of a dipole whose three components are given by independent dice. -/

namespace NaMaster

open Finset MeasureTheory WignerSpec SkySpec CouplingSpec CovSpec
open scoped ENNReal

namespace KnoxExample

open SkyExample

/-- The product with the function that is 1 everywhere. -/
theorem product_one {Nw Nf : ℕ} {w g : ℕ → ℤ → ℂ} (hw : OneEverywhere w) (s : ℤ) {l : ℕ} (hl : l ≤ Nf) {m : ℤ} (hm : |m| ≤ l) (hs : |s| ≤ l) :
    productCoef s 0 s Nw Nf w g l m = g l m := by
  unfold productCoef
  rw [sum_eq_single_of_mem (0, 0) (mem_skyModes.2 ⟨Nat.zero_le _, by simp⟩), sum_eq_single_of_mem (l, m) (mem_skyModes.2 ⟨hl, hm⟩)]
  · dsimp only
    have hg : gaunt s 0 s l m 0 0 l m = 1 / Real.sqrt (4 * Real.pi) := by
      unfold gaunt
      have e1 := wigner3j_first 0 l l 0 (-m) m
      have e2 := wigner3j_first 0 l l 0 s (-s)
      have f1 := wigner3j_monopole l (-m) (by rwa [abs_neg])
      have f2 := wigner3j_monopole l s hs
      rw [neg_neg] at f1
      rw [neg_zero, e1, e2, f1, f2]
      have hr : Real.sqrt ((2 * (l : ℝ) + 1) * (2 * ((0 : ℕ) : ℝ) + 1) * (2 * l + 1) / (4 * Real.pi)) = (2 * l + 1) / Real.sqrt (4 * Real.pi) := by
        rw [Nat.cast_zero, mul_zero, zero_add, mul_one, Real.sqrt_div (by positivity), Real.sqrt_mul_self (by positivity)]
      have hq : Real.sqrt (2 * (l : ℝ) + 1) * Real.sqrt (2 * l + 1) = 2 * l + 1 := Real.mul_self_sqrt (by positivity)
      have hsg : ((-1 : ℝ) ^ (s + m)) * (-1) ^ ((l : ℤ) - -m) * (-1) ^ ((l : ℤ) - s) = 1 := by
        rw [← zpow_add₀ (by norm_num), ← zpow_add₀ (by norm_num)]
        apply Even.neg_one_zpow
        exact ⟨m + l, by ring⟩
      have hev : ((-1 : ℝ) ^ (0 + l + l)) = 1 := by
        apply Even.neg_one_pow
        exact ⟨l, by ring⟩
      have h4 : Real.sqrt (4 * Real.pi) ≠ 0 := (Real.sqrt_pos.2 (by positivity)).ne'
      have h2 : Real.sqrt (2 * (l : ℝ) + 1) ≠ 0 := (Real.sqrt_pos.2 (by positivity)).ne'
      rw [hr, hev]
      field_simp
      linear_combination (2 * (l : ℝ) + 1) * hsg - hq
    rw [hg, hw.1, ← Complex.ofReal_mul, mul_one_div_cancel (Real.sqrt_pos.2 (by positivity)).ne']
    simp
  · rintro ⟨l', m'⟩ _ hne
    dsimp only
    have : gaunt s 0 s l m 0 0 l' m' = 0 := by
      unfold gaunt
      by_cases ha : l = l'
      · rw [wigner3j_sum_ne (m1 := -m) (m2 := 0) (m3 := m'), mul_zero, zero_mul]
        intro h
        exact hne (Prod.ext ha.symm (by simp only; omega))
      · rw [wigner3j_not_allowed (m1 := -m), mul_zero, zero_mul]
        unfold Allowed
        intro h
        omega
    rw [this]
    simp
  · rintro ⟨L, M⟩ _ hne
    refine sum_eq_zero fun q _ => ?_
    dsimp only
    rw [hw.2 L M (by rintro ⟨rfl, rfl⟩; exact hne rfl)]
    simp

theorem product_low {Nw Nf : ℕ} {w g : ℕ → ℤ → ℂ} {s : ℤ} {l : ℕ} {m : ℤ} (hs : ¬ |s| ≤ l) : productCoef s 0 s Nw Nf w g l m = 0 := by
  unfold productCoef
  refine sum_eq_zero fun W _ => sum_eq_zero fun q _ => ?_
  have : gaunt s 0 s l m W.1 W.2 q.1 q.2 = 0 := by
    unfold gaunt
    rw [wigner3j_not_allowed (m1 := s), mul_zero]
    unfold Allowed
    intro h
    exact hs h.2.2.2.1
  rw [this]
  simp

/-! ## The skies -/

/-- Three dice. -/
abbrev Three := Fin 6 × Fin 6 × Fin 6

/-- The dice are independent and fair. -/
noncomputable def mu3 : Measure Three := (1 / 216 : ENNReal) • Measure.count

/-- The faces of the dice: 1, -1, 0, 0, 0, 0. -/
def die (ω : Three) (i : ℕ) : ℤ := if i = 0 then CovFlatExample.face ω.1 else if i = 1 then CovFlatExample.face ω.2.1 else CovFlatExample.face ω.2.2

theorem integral3 (g : Three → ℂ) : ∫ ω, g ω ∂mu3 = 1 / 216 * ∑ ω, g ω := by
  unfold mu3
  rw [integral_smul_measure, integral_fintype Integrable.of_finite]
  simp

theorem int3 (g : Three → ℂ) : Integrable g mu3 := by
  unfold mu3
  exact Integrable.of_finite.smul_measure (by simp)

/-- Sum of powers of the faces of a die. -/
def power (n : ℕ) : ℤ := if n = 0 then 6 else if n % 2 = 0 then 2 else 0

theorem sum_face (n : ℕ) : ∑ i : Fin 6, CovFlatExample.face i ^ n = power n := by
  simp only [Fin.sum_univ_six, CovFlatExample.face, power]
  by_cases h : n = 0
  · subst h; norm_num
  · by_cases he : Even n
    · simp [h, he, Nat.even_iff.1 he]
    · rw [Nat.not_even_iff_odd] at he
      simp [h, he, Nat.odd_iff.1 he]

theorem sum_three (a b c : ℕ) : ∑ ω : Three, (die ω 0) ^ a * (die ω 1) ^ b * (die ω 2) ^ c = power a * power b * power c := by
  rw [← sum_face, ← sum_face, ← sum_face, Fintype.sum_prod_type]
  rw [sum_mul_sum, sum_mul]
  refine sum_congr rfl fun i _ => ?_
  rw [Fintype.sum_prod_type, sum_mul]
  refine sum_congr rfl fun j _ => ?_
  rw [mul_sum]
  rfl

/-- 1 if true. -/
def one (p : Prop) [Decidable p] : ℕ := if p then 1 else 0

theorem die_pow (ω : Three) {i : ℕ} (hi : i < 3) : die ω i = die ω 0 ^ one (i = 0) * die ω 1 ^ one (i = 1) * die ω 2 ^ one (i = 2) := by
  interval_cases i <;> simp [one]

theorem second3 (i j : ℕ) (hi : i < 3) (hj : j < 3) : ∑ ω : Three, die ω i * die ω j = if i = j then 72 else 0 := by
  have key : ∀ i < 3, ∀ j < 3, power (one (i = 0) + one (j = 0)) * power (one (i = 1) + one (j = 1)) * power (one (i = 2) + one (j = 2)) =
      if i = j then 72 else 0 := by decide
  rw [← key i hi j hj, ← sum_three]
  refine sum_congr rfl fun ω _ => ?_
  rw [die_pow ω hi, die_pow ω hj]
  ring

theorem fourth3 (i j k l : ℕ) (hi : i < 3) (hj : j < 3) (hk : k < 3) (hl : l < 3) : ∑ ω : Three, die ω i * die ω j * (die ω k * die ω l) =
    24 * ((if i = j then 1 else 0) * (if k = l then 1 else 0) + (if i = k then 1 else 0) * (if j = l then 1 else 0) +
        (if i = l then 1 else 0) * (if j = k then 1 else 0)) := by
  have key : ∀ i < 3, ∀ j < 3, ∀ k < 3, ∀ l < 3, power (one (i = 0) + one (j = 0) + one (k = 0) + one (l = 0)) *
      power (one (i = 1) + one (j = 1) + one (k = 1) + one (l = 1)) * power (one (i = 2) + one (j = 2) + one (k = 2) + one (l = 2)) =
    24 * ((if i = j then 1 else 0) * (if k = l then 1 else 0) + (if i = k then 1 else 0) * (if j = l then 1 else 0) +
        (if i = l then 1 else 0) * (if j = k then 1 else 0)) := by decide
  rw [← key i hi j hj k hk l hl, ← sum_three]
  refine sum_congr rfl fun ω _ => ?_
  rw [die_pow ω hi, die_pow ω hj, die_pow ω hk, die_pow ω hl]
  ring

theorem mean2 {i j : ℕ} (hi : i < 3) (hj : j < 3) : ∫ ω, (die ω i : ℂ) * (die ω j : ℂ) ∂mu3 = if i = j then 1 / 3 else 0 := by
  rw [integral3]
  have : ∑ ω : Three, (die ω i : ℂ) * (die ω j : ℂ) = ((if i = j then 72 else 0 : ℤ) : ℂ) := by
    rw [← second3 i j hi hj]; push_cast; rfl
  rw [this]
  split_ifs <;> norm_num

theorem dice_gauss : IsserlisOn mu3 {i : ℕ | i < 3} fun i ω => (die ω i : ℂ) where
  int2 := fun _ _ _ _ => int3 _
  int4 := fun _ _ _ _ _ _ _ _ => int3 _
  fourth := by
    intro i hi j hj k hk l hl
    rw [mean2 hi hj, mean2 hk hl, mean2 hi hk, mean2 hj hl, mean2 hi hl, mean2 hj hk, integral3]
    have : ∑ ω : Three, (die ω i : ℂ) * (die ω j : ℂ) * ((die ω k : ℂ) * (die ω l : ℂ)) = ((24 * ((if i = j then 1 else 0) * (if k = l then 1 else 0) +
        (if i = k then 1 else 0) * (if j = l then 1 else 0) + (if i = l then 1 else 0) * (if j = k then 1 else 0)) : ℤ) : ℂ) := by
      rw [← fourth3 i j k l hi hj hk hl]; push_cast; rfl
    rw [this]
    push_cast
    split_ifs <;> norm_num

/-- The coefficients of a sky in terms of the dice. -/
noncomputable def amp (l : ℕ) (m : ℤ) (i : ℕ) : ℂ :=
  if l = 1 ∧ m = 0 then (if i = 2 then (4 * kappa : ℝ) else 0)
  else if l = 1 ∧ m = 1 then (if i = 0 then -(4 * rho : ℝ) else if i = 1 then Complex.I * (4 * rho : ℝ) else 0)
  else if l = 1 ∧ m = -1 then (if i = 0 then (4 * rho : ℝ) else if i = 1 then Complex.I * (4 * rho : ℝ) else 0)
  else 0

/-- The map of a sky. -/
noncomputable def map3 (ω : Three) : MapStack := fun c p => if c = 0 ∧ p < 4 then die ω 0 * vx p + die ω 1 * vy p + die ω 2 * vz p else 0

/-- The coefficients of a sky: a dipole, for fields with spin of E type. -/
noncomputable def sky3 (ω : Three) (X : ℕ) (l : ℕ) (m : ℤ) : ℂ := coef (map3 ω X) l m

theorem sky3_val (ω : Three) (X l : ℕ) (m : ℤ) : sky3 ω X l m = if X = 0 then ∑ i ∈ range 3, amp l m i * (die ω i : ℂ) else 0 := by
  unfold sky3 coef map3 amp
  by_cases hX : X = 0
  · simp only [hX, sum_range_succ, sum_range_zero, vx, vy, vz]
    norm_num
    split_ifs <;> first | omega | ring1
  · simp [hX]

/-- The spectrum: 4 pi / 3 for the dipole. -/
noncomputable def spec3 (X Y l : ℕ) : ℝ := if X = 0 ∧ Y = 0 ∧ l = 1 then 4 * Real.pi / 3 else 0

theorem isotropic3 (n n' : ℕ) : Isotropic mu3 n n' 1 sky3 sky3 spec3 := by
  refine ⟨fun _ _ _ _ _ _ _ _ => int3 _, ?_⟩
  intro X _ Y _ q hq r hr
  simp only [sky3_val]
  by_cases hX : X = 0
  swap
  · simp [hX, spec3]
  by_cases hY : Y = 0
  swap
  · simp [hY, spec3]
  subst hX hY
  simp only [if_true]
  have e : ∀ ω : Three, (∑ i ∈ range 3, amp q.1 q.2 i * (die ω i : ℂ)) * (starRingEnd ℂ) (∑ i ∈ range 3, amp r.1 r.2 i * (die ω i : ℂ)) =
      ∑ i ∈ range 3, ∑ j ∈ range 3, amp q.1 q.2 i * (starRingEnd ℂ) (amp r.1 r.2 j) * ((die ω i : ℂ) * (die ω j : ℂ)) := by
    intro ω
    rw [_root_.map_sum, sum_mul_sum]
    refine sum_congr rfl fun i _ => sum_congr rfl fun j _ => ?_
    rw [map_mul, map_intCast]
    ring
  simp only [e]
  rw [integral_finsetSum _ fun _ _ => int3 _]
  have e2 : ∀ i ∈ range 3, ∫ ω, ∑ j ∈ range 3, amp q.1 q.2 i * (starRingEnd ℂ) (amp r.1 r.2 j) * ((die ω i : ℂ) * (die ω j : ℂ)) ∂mu3 =
      amp q.1 q.2 i * (starRingEnd ℂ) (amp r.1 r.2 i) * (1 / 3) := by
    intro i hi
    rw [integral_finsetSum _ fun _ _ => int3 _, sum_eq_single_of_mem i hi]
    · rw [integral_const_mul, mean2 (mem_range.1 hi) (mem_range.1 hi), if_pos rfl]
    · intro j hj hne
      rw [integral_const_mul, mean2 (mem_range.1 hi) (mem_range.1 hj), if_neg (Ne.symm hne), mul_zero]
  rw [sum_congr rfl e2]
  have hk : (kappa : ℂ) ^ 2 = (Real.pi : ℂ) / 4 := by exact_mod_cast congrArg Complex.ofReal kappa_sq
  have hr' : (rho : ℂ) ^ 2 = (Real.pi : ℂ) / 8 := by exact_mod_cast congrArg Complex.ofReal rho_sq
  have hI : Complex.I ^ 2 = -1 := Complex.I_sq
  have h4 : (starRingEnd ℂ) 4 = 4 := map_ofNat _ 4
  simp only [sum_range_succ, sum_range_zero]
  rcases modes_one hq with rfl | rfl | rfl | rfl <;> rcases modes_one hr with rfl | rfl | rfl | rfl <;>
    simp [amp, spec3] <;> ring_nf <;> (try simp only [hk, hr', hI, h4]) <;> (try ring_nf)

theorem gaussian3 (n : ℕ → ℕ) : GaussianSkies mu3 n 1 (fun _ => sky3) fun _ _ => spec3 where
  gauss := IsserlisOn.lin dice_gauss (s := fun _ => range 3) (c := fun q i => if q.2.1 = 0 then amp q.2.2.1 q.2.2.2 i else 0)
    (fun _ _ i hi => mem_range.1 hi) (fun q _ ω => by
      rw [sky3_val]
      split_ifs <;> simp)
  isotropic := fun _ _ _ _ => isotropic3 _ _

/-! ## The fields -/

/-- The transforms up to `l = 1`: as in `SkyExample` for scalars, and a transform of fields with spin that has no multipoles below the spin. -/
noncomputable def shtK : Sht where
  m2a s lmax v c l m := if l ≤ lmax ∧ s ≤ l then coef (v c) l m else 0
  a2m _ _ _ _ _ := 0
  pad := id
  unpad := id

/-- The environment. -/
noncomputable def envK : FieldEnv := ⟨⟨4, fun _ => Real.pi⟩, shtK, exactEigen, fun _ _ => none, 1⟩

/-- The arguments: the mask is 1 everywhere. -/
noncomputable def argsK (s : ℕ) : FieldArgs := { args4 with mask := oneMask 4, spin := some s }

theorem madeK (s : ℕ) : ∃ f : Three → FieldObj, ∀ ω, nmtField envK ((argsK s).withMaps (ncomp s) 4 (map3 ω)) = .ok (f ω) := by
  apply Classical.axiomOfChoice (r := fun ω f => nmtField envK ((argsK s).withMaps (ncomp s) 4 (map3 ω)) = .ok f)
  intro ω
  unfold nmtField fieldChecks fieldMasks mapChecks fieldFinish
  by_cases h : s = 0
  · simp [argsK, args4, FieldArgs.withMaps, envK, Outcome.bind, pickSpin, baseObj, ncomp, h]
  · simp [argsK, args4, FieldArgs.withMaps, envK, Outcome.bind, pickSpin, baseObj, ncomp, h]

/-- The fields. -/
noncomputable def fieldK (s : ℕ) : Three → FieldObj := (madeK s).choose

/-- The coefficients of the mask. -/
noncomputable def maskK (L : ℕ) (M : ℤ) : ℂ := coef (oneMask 4) L M

theorem maskK_one : OneEverywhere maskK := by
  have h2 : Real.sqrt (4 * Real.pi) = 2 * Real.sqrt Real.pi := by
    rw [Real.sqrt_mul (by norm_num), show Real.sqrt 4 = 2 by rw [show (4 : ℝ) = 2 ^ 2 by norm_num, Real.sqrt_sq (by norm_num)]]
  constructor
  · rw [h2]
    unfold maskK coef oneMask kappa
    simp only [sum_range_succ, sum_range_zero]
    norm_num
    ring
  · intro L M h
    unfold maskK coef oneMask
    rw [if_neg h]
    simp [sum_range_succ, vx, vy, vz]

theorem map3_tab (s : ℕ) (ω : Three) : tab2 (ncomp s) 4 (map3 ω) = map3 ω := by
  funext c p
  unfold tab2 map3
  by_cases h : c < ncomp s ∧ p < 4
  · rw [if_pos h]
  · rw [if_neg h, if_neg]
    have : 0 < ncomp s := by unfold ncomp; split_ifs <;> norm_num
    rintro ⟨rfl, h2⟩
    exact h ⟨this, h2⟩

theorem map3_masked (ω : Three) : (fun c p => map3 ω c p * oneMask 4 p) = map3 ω := by
  funext c p
  unfold map3 oneMask
  by_cases h : p < 4 <;> simp [h]

theorem sky3_low (ω : Three) (X : ℕ) {l : ℕ} (hl : l = 0) (m : ℤ) : sky3 ω X l m = 0 := by
  subst hl
  rw [sky3_val]
  simp [amp]

theorem fieldsK {s : ℕ} (hs : s ≤ 1) : FieldsOf envK (argsK s) s 1 1 maskK sky3 map3 (fieldK s) where
  iso := ⟨rfl, rfl, rfl, rfl, by norm_num [argsK, args4]⟩
  bare := rfl
  spin := by
    unfold spinOf argsK
    rfl
  bandLimit := rfl
  maskBandLimit := rfl
  maskCoefs := by
    intro L hL m hm
    change (if L ≤ 1 ∧ (0 : ℤ) ≤ L then coef (single (oneMask 4) 0) L m else 0) = coef (oneMask 4) L m
    rw [if_pos ⟨hL, by omega⟩]
    rfl
  maskReal := coef_real _
  skyReal := fun ω X _ => coef_real _
  observed := by
    intro ω
    refine ⟨?_, fun h => absurd h (by simp [argsK, args4]), fun h => absurd h (by simp [argsK, args4])⟩
    have hmap : (fun c p => tab2 (ncomp s) envK.pix.npix (map3 ω) c p * (argsK s).mask p) = map3 ω := by
      rw [show envK.pix.npix = 4 from rfl, map3_tab]
      exact map3_masked ω
    rw [hmap]
    have hv : ∀ c l m, l ≤ 1 → m ≤ l → envK.sht.map2alm s 1 (argsK s).nIter (map3 ω) c l m = sky3 ω c l m := by
      intro c l m hl hm
      change (if l ≤ 1 ∧ ((s : ℕ) : ℤ) ≤ l then coef (map3 ω c) l m else 0) = _
      by_cases h : s ≤ l
      · rw [if_pos ⟨hl, by exact_mod_cast h⟩]; rfl
      · rw [if_neg (by intro h'; exact h (by exact_mod_cast h'.2)), sky3_low ω c (by omega)]
    refine ⟨?_, ?_⟩
    · rintro rfl l hl m hm
      rw [hv 0 l m hl hm, product_one maskK_one 0 hl (by rw [Nat.abs_cast]; exact_mod_cast hm) (by simp)]
    · intro h0
      obtain rfl : s = 1 := by omega
      have hz : ∀ l, ¬ 1 ≤ l → ∀ m, sky3 ω 0 l m = 0 ∧ sky3 ω 1 l m = 0 := fun l hl m => ⟨sky3_low ω 0 (by omega) m, sky3_low ω 1 (by omega) m⟩
      refine ⟨fun l hl m hm => ?_, fun l hl m hm => ?_⟩
      · rw [hv 0 l m hl hm, hv 1 l m hl hm]
        by_cases h : 1 ≤ l
        · rw [product_one maskK_one _ hl (by rw [Nat.abs_cast]; exact_mod_cast hm) (by simpa using h)]
        · rw [product_low (by simpa using h), (hz l h m).1, (hz l h m).2]; simp
      · rw [hv 0 l m hl hm, hv 1 l m hl hm, neg_zero]
        by_cases h : 1 ≤ l
        · rw [product_one maskK_one _ hl (by rw [Nat.abs_cast]; exact_mod_cast hm) (by simpa using h)]
        · rw [product_low (by simpa using h), (hz l h m).1, (hz l h m).2]; simp
  made := (madeK s).choose_spec

/-! ## The covariance -/

/-- The true spectra. -/
noncomputable def clK (s : ℕ) : Arr2 ℝ := ⟨ncomp s * ncomp s, 2, fun k l => spec3 (k / ncomp s) (k % ncomp s) l⟩

theorem clK_true (s : ℕ) : TrueSpectra ⟨clK s, clK s, clK s, clK s⟩ (fun _ => s) 1 fun _ _ => spec3 := by
  have h : HoldsSpectra (clK s) s s 1 spec3 := by
    intro X _ Y hY l _
    unfold clK
    dsimp only
    rw [Nat.add_mul_div_left _ _ (by omega), Nat.div_eq_of_lt hY, zero_add, Nat.add_mul_mod_self_left, Nat.mod_eq_of_lt hY]
  exact ⟨h, h, h, h⟩

/-- A workspace with one band with the multipole 1. -/
noncomputable def wspK (s : ℕ) : Wsp ℝ :=
  ⟨ncomp s * ncomp s, 1, 1, 1, false, 0, 0, fun _ => 1, fun _ => 1, some fun i j => if i = j then 1 else 0, bins4, fun i j => if i = j then 1 else 0⟩

theorem boundedK (s : ℕ) : WspSpec.Bounded (wspK s).bin (wspK s).bin.ellMax := by simp [WspSpec.Bounded, wspK, bins4]

theorem noRepeatsK (s : ℕ) : BinSpec.NoRepeats (wspK s).bin := by simp [BinSpec.NoRepeats, wspK, bins4]

theorem regularK (s : ℕ) : Regular (wspK s).nBinned (wspK s).binned := by
  unfold Regular
  have : toMat (wspK s).nBinned (wspK s).binned = 1 := by
    ext i j
    rw [Matrix.one_apply]
    exact if_congr Fin.ext_iff.symm rfl rfl
  rw [this]
  simp

theorem spectraK {s : ℕ} (hs : s ≤ 1) (minfo : MapInfo) : ∃ P : Three → Arr2 ℝ,
    ∀ ω, computeCoupledCell ((fieldK s ω).view envK.sht minfo) ((fieldK s ω).view envK.sht minfo) true = .ok (some (P ω)) := by
  choose A hA _ _ using fun ω => pop_lin_coef (fun _ _ _ _ _ => rfl) (fieldsK hs) ω (X := 0) (l := 0) (m := 0) (by unfold ncomp; split_ifs <;> omega)
    (Nat.zero_le _) le_rfl
  exact ⟨_, fun ω => coupled_fields envK minfo (fieldK s ω) (fieldK s ω) true rfl rfl _ _ (hA ω) (hA ω)⟩

theorem covK {s : ℕ} (hs : s ≤ 1) (minfo : MapInfo) (junk : ℕ → ℝ) (ω : Three) : ∃ cw, cw.lmax = 1 ∧ cw.spin0Only = false ∧
    covCompute racah (fun _ => envK.sht) junk none ((fieldK s ω).covField minfo) ((fieldK s ω).covField minfo) (some ((fieldK s ω).covField minfo))
      (some ((fieldK s ω).covField minfo)) 0 0 0 false = (some cw, .ok ()) := by
  obtain ⟨p1, p2, p3, p4, p5, p6, p7, p8, -⟩ := (fieldsK hs).facts ω
  have hs2 : SameSky ((fieldK s ω).covField minfo) ((fieldK s ω).covField minfo) := ⟨minfoNe_self _, rfl, rfl⟩
  have ha : ((fieldK s ω).covField minfo).aniso = false := by
    unfold FieldObj.covField
    simp [p4]
  have hk : ((fieldK s ω).covField minfo).mask = some (oneMask 4) := congrArg some p5
  have hacc : Accepts ((fieldK s ω).covField minfo) ((fieldK s ω).covField minfo) ((fieldK s ω).covField minfo) ((fieldK s ω).covField minfo) 0 0 0 :=
    ⟨⟨ha, ha, ha, ha⟩, ⟨hs2, hs2, hs2⟩, Or.inl (le_refl _)⟩
  have hc := covCompute_accepts racah (fun _ => envK.sht) junk none _ _ _ _ 0 0 0 false hacc
  have g1 : ((fieldK s ω).covField minfo).geom.lmax = 1 := p1
  have g2 : ((fieldK s ω).covField minfo).geom.lmaxMask = 1 := p2
  rw [covCompute_masks racah (fun _ => envK.sht) junk _ _ _ _ 0 0 0 false hk hk hk hk, if_neg (by rw [g1, g2]; omega)] at hc
  exact ⟨_, g1, rfl, hc⟩

theorem acceptedK (s : ℕ) {cw : CovWsp ℝ} (h1 : cw.lmax = 1) (h2 : cw.spin0Only = false) (jk : CovJunk ℝ) (coupled : Bool) : ∃ Cov,
    gaussianCovariance (exactLinAlg ℝ) jk (some cw) s s s s ⟨clK s, clK s, clK s, clK s⟩ ⟨some (wspK s), true⟩ (some ⟨some (wspK s), true⟩) coupled =
      .ok Cov := by
  have hn : nmaps (s : ℤ) = ncomp s := nmaps_ncomp s
  refine (C29_accepts_iff rfl rfl (boundedK s) (boundedK s)).2 ⟨?_, ?_, ?_, ?_, ?_, ?_, ?_, ?_⟩
  · rw [hn]; rfl
  · rw [hn]; rfl
  · rw [hn]; exact ⟨rfl, rfl, rfl, rfl⟩
  · exact ⟨2, by rw [h1], rfl, rfl, rfl, rfl⟩
  · rw [h1]; exact ⟨le_refl _, le_refl _⟩
  · intro h; rw [h2] at h; cases h
  · exact fun _ => ⟨rfl, rfl⟩
  · have : ncomp s ≤ 2 := by unfold ncomp; split_ifs <;> norm_num
    unfold covSize
    have hb : (wspK s).bin.nBands = 1 := rfl
    have hcl : (wspK s).ncls = ncomp s * ncomp s := rfl
    rw [hb, hcl, h1]
    rcases ncomp_cases s with h | h <;> rw [h] <;> cases coupled <;> norm_num

/-- The hypotheses of C84 are met by scalar fields with a mask that is 1 everywhere: the covariance of the pseudo-spectra of the random dipoles, and
of the bandpowers, is `2 C^2 / 3` with `C = 4 pi / 3`. -/
example (minfo : MapInfo) (junk : ℕ → ℝ) (jk : CovJunk ℝ) : ∃ (P D : Three → Arr2 ℝ) (cw : CovWsp ℝ) (Cov Cov' : Arr2 ℝ),
    (∀ ω, computeCoupledCell ((fieldK 0 ω).view envK.sht minfo) ((fieldK 0 ω).view envK.sht minfo) true = .ok (some (P ω))) ∧
    (∀ ω, decoupleCell (exactLinAlg ℝ) (wspK 0) (P ω) none none = .ok (D ω)) ∧
    gaussianCovariance (exactLinAlg ℝ) jk (some cw) 0 0 0 0 ⟨clK 0, clK 0, clK 0, clK 0⟩ ⟨some (wspK 0), true⟩ (some ⟨some (wspK 0), true⟩) true =
      .ok Cov ∧
    gaussianCovariance (exactLinAlg ℝ) jk (some cw) 0 0 0 0 ⟨clK 0, clK 0, clK 0, clK 0⟩ ⟨some (wspK 0), true⟩ (some ⟨some (wspK 0), true⟩) false =
      .ok Cov' ∧
    Cov.val 1 1 = covar mu3 (fun ω => (P ω).val 0 1) (fun ω => (P ω).val 0 1) ∧
    Cov'.val 0 0 = covar mu3 (fun ω => (D ω).val 0 0) (fun ω => (D ω).val 0 0) ∧
    covar mu3 (fun ω => (P ω).val 0 1) (fun ω => (P ω).val 0 1) = 2 * (4 * Real.pi / 3) ^ 2 / 3 := by
  have hf := fieldsK (s := 0) (by norm_num)
  obtain ⟨P, hP⟩ := spectraK (s := 0) (by norm_num) minfo
  obtain ⟨cw, c1, c2, hcw⟩ := covK (s := 0) (by norm_num) minfo junk (0, 0, 0)
  obtain ⟨Cov, hCov⟩ := acceptedK 0 c1 c2 jk true
  obtain ⟨Cov', hCov'⟩ := acceptedK 0 c1 c2 jk false
  have hrow : ∀ ω, (P ω).rows = (wspK 0).ncls ∧ (P ω).cols = 2 := by
    obtain ⟨_, _, -, -, h⟩ := pair_spectra (fun _ _ _ _ _ => rfl) hf hf hP
    exact fun ω => ⟨(h ω).1, (h ω).2.1⟩
  have hD := fun ω => decoupleCell_ok (exactLinAlg ℝ) (wspK 0) (P ω) (hrow ω).1 (by rw [(hrow ω).2]; exact le_refl _)
  refine ⟨P, _, cw, Cov, Cov', hP, hD, hCov, hCov', ?_, ?_, ?_⟩
  · have := C84_coupled_partial (a := fun _ => argsK 0) (s := fun _ => 0) (F := fun _ => sky3) (maps := fun _ => map3) (f := fun _ => fieldK 0)
      (ω0 := (0, 0, 0)) (fun _ _ _ _ _ => rfl) (fun _ _ => hf) maskK_one (fun _ _ => rfl) (gaussian3 _) hP hP (fun _ _ _ => rfl) rfl (le_refl _)
      hcw (clK_true 0) rfl rfl (boundedK 0) (boundedK 0) (noRepeatsK 0) (noRepeatsK 0) hCov (fun _ => 0) (fun _ _ => by norm_num [ncomp])
      (e := ⟨1, 1, 1⟩) (e' := ⟨1, 1, 1⟩) (by simp [wspK, bins4]) (by simp [wspK, bins4]) (Or.inl fun _ _ => rfl)
    simpa [wspK, ncomp] using this
  · exact C84_bandpowers_partial (a := fun _ => argsK 0) (s := fun _ => 0) (F := fun _ => sky3) (maps := fun _ => map3) (f := fun _ => fieldK 0)
      (ω0 := (0, 0, 0)) (fun _ _ _ _ _ => rfl) (fun _ _ => hf) maskK_one (fun _ _ => rfl) (gaussian3 _) hP hP (fun _ _ _ => rfl) rfl (le_refl _)
      hcw (clK_true 0) exactLinAlg_correct rfl rfl (boundedK 0) (boundedK 0) (regularK 0) (regularK 0) hD hD hCov' (fun _ _ => Or.inl fun _ _ => rfl)
      (k := 0) (k' := 0) (b := 0) (b' := 0) (by simp [wspK, ncomp]) (by simp [wspK, ncomp]) (by simp [wspK, bins4, Bins.nBands])
      (by simp [wspK, bins4, Bins.nBands])
  · have := C84_full_sky (a := fun _ => argsK 0) (s := fun _ => 0) (F := fun _ => sky3) (maps := fun _ => map3) (f := fun _ => fieldK 0)
      (fun _ _ _ _ _ => rfl) (fun _ _ => hf) maskK_one (gaussian3 _) hP hP (fun _ => 0) (fun _ _ => by norm_num [ncomp])
      (l := 1) (l' := 1) le_rfl le_rfl (fun _ _ => Nat.zero_le _)
    simp only [ncomp, if_true, mul_zero, add_zero] at this
    rw [this]
    simp [spec3]
    ring

end KnoxExample

open KnoxExample SkyExample in
/-- C84 is false of the code for fields of spin 1: at multipole 1 the covariance of their spectra is positive, and `gaussian_covariance` returns
zero, with a mask that is 1 everywhere and the true spectra. -/
theorem C84_spin_wrong (minfo : MapInfo) (junk : ℕ → ℝ) (jk : CovJunk ℝ) : ∃ (Ω : Type) (_ : MeasurableSpace Ω) (μ : Measure Ω) (env : FieldEnv)
    (a : FieldArgs) (w : ℕ → ℤ → ℂ) (F : Ω → ℕ → ℕ → ℤ → ℂ) (maps : Ω → MapStack) (f : Ω → FieldObj) (C : ℕ → ℕ → ℕ → ℝ) (x : Arr2 ℝ) (o : Obj ℝ)
    (ω0 : Ω) (P : Ω → Arr2 ℝ) (cw : CovWsp ℝ) (Cov : Arr2 ℝ),
    FieldsOf env a 1 1 1 w F maps f ∧ OneEverywhere w ∧ a.mask = oneMask env.pix.npix ∧ GaussianSkies μ (fun _ => 2) 1 (fun _ => F) (fun _ _ => C) ∧
    HoldsSpectra x 1 1 1 C ∧
    (∀ ω, computeCoupledCell ((f ω).view env.sht minfo) ((f ω).view env.sht minfo) true = .ok (some (P ω))) ∧
    covCompute racah (fun _ => env.sht) junk none ((f ω0).covField minfo) ((f ω0).covField minfo) (some ((f ω0).covField minfo))
      (some ((f ω0).covField minfo)) 0 0 0 false = (some cw, .ok ()) ∧
    gaussianCovariance (exactLinAlg ℝ) jk (some cw) 1 1 1 1 ⟨x, x, x, x⟩ o (some o) true = .ok Cov ∧
    Cov.val (4 * 1 + 0) (4 * 1 + 0) = 0 ∧ 0 < covar μ (fun ω => (P ω).val 0 1) (fun ω => (P ω).val 0 1) := by
  have hf := fieldsK (s := 1) (by norm_num)
  obtain ⟨P, hP⟩ := spectraK (s := 1) (by norm_num) minfo
  obtain ⟨cw, c1, c2, hcw⟩ := covK (s := 1) (by norm_num) minfo junk (0, 0, 0)
  obtain ⟨Cov, hCov⟩ := acceptedK 1 c1 c2 jk true
  refine ⟨Three, inferInstance, mu3, envK, argsK 1, maskK, sky3, map3, fieldK 1, spec3, clK 1, ⟨some (wspK 1), true⟩, (0, 0, 0), P, cw, Cov, hf, maskK_one,
    rfl, gaussian3 _, (clK_true 1).ac, hP, hcw, hCov, ?_, ?_⟩
  · exact C84_low_zero (s := fun _ => 1) (e := ⟨1, 1, 1⟩) (e' := ⟨1, 1, 1⟩) (k := 0) (k' := 0) C76_symmetric (fun _ _ _ => rfl) (le_refl _)
      (by simp [FieldObj.covField]) hcw (fun _ _ => one_ne_zero) rfl rfl (boundedK 1) (boundedK 1) (noRepeatsK 1) (noRepeatsK 1) hCov
      (by simp [wspK, bins4]) (by simp [wspK, bins4]) (Or.inl (by norm_num)) (by simp [wspK, ncomp]) (by simp [wspK, ncomp])
  · have := C84_full_sky (a := fun _ => argsK 1) (s := fun _ => 1) (F := fun _ => sky3) (maps := fun _ => map3) (f := fun _ => fieldK 1)
      (fun _ _ _ _ _ => rfl) (fun _ _ => hf) maskK_one (gaussian3 _) hP hP (fun _ => 0) (fun _ _ => by norm_num [ncomp])
      (l := 1) (l' := 1) le_rfl le_rfl (fun _ _ => le_rfl)
    simp only [mul_zero, add_zero] at this
    rw [this]
    simp [spec3]
    positivity

end NaMaster
