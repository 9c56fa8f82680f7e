import Verif.Coupling.Props2

set_option linter.unusedSimpArgs false
set_option linter.unusedTactic false
set_option linter.unreachableTactic false

/-!
# Anisotropic masks: isotropic limit (C20), order of the mask spectra (C21), exchange of fields (C52)
-/

namespace NaMaster

open Finset CouplingSpec

theorem AnisoArgs.cells_lt (W : Wigner) (a : AnisoArgs) (p : AnisoPcl) (l2 l3 : ℕ)
    (w : (ℕ × ℕ) × ℝ) (hw : w ∈ a.cells W p l2 l3) : w.1.1 < a.ncls ∧ w.1.2 < a.ncls := by
  unfold AnisoArgs.cells at hw
  simp only at hw
  unfold AnisoArgs.ncls
  by_cases h1 : a.spin1 = 0
  · by_cases h2 : a.spin2 = 0
    · rw [if_neg (fun h => h.2 h2), if_neg (fun h => h.1 h1), if_neg (fun h => h.1 h1)] at hw
      exact absurd hw List.not_mem_nil
    · rw [if_pos ⟨h1, h2⟩] at hw
      rw [if_neg (by simpa using h1), if_pos h2]
      simp only [List.mem_cons, List.not_mem_nil, or_false] at hw
      rcases hw with h | h | h | h <;> subst h <;> exact ⟨by norm_num, by norm_num⟩
  · by_cases h2 : a.spin2 = 0
    · rw [if_neg (fun h => h1 h.1), if_pos ⟨h1, h2⟩] at hw
      rw [if_pos h1, if_neg (by simpa using h2)]
      simp only [List.mem_cons, List.not_mem_nil, or_false] at hw
      rcases hw with h | h | h | h <;> subst h <;> exact ⟨by norm_num, by norm_num⟩
    · rw [if_neg (fun h => h1 h.1), if_neg (fun h => h2 h.2), if_pos ⟨h1, h2⟩] at hw
      rw [if_pos h1, if_pos h2]
      simp only [List.mem_cons, List.not_mem_nil, or_false] at hw
      rcases hw with h | h | h | h | h | h | h | h | h | h | h | h | h | h | h | h <;> subst h <;>
        exact ⟨by norm_num, by norm_num⟩

/-- Elements of the matrix. -/
theorem AnisoArgs.matrix_apply (W : Wigner) (a : AnisoArgs) (lmax : ℕ) (p : AnisoPcl) {l2 l3 x y : ℕ}
    (h2 : l2 ≤ lmax) (h3 : l3 ≤ lmax) (hx : x < a.ncls) (hy : y < a.ncls) :
    a.matrix W lmax p (a.ncls * l2 + x) (a.ncls * l3 + y) =
      if max a.spin1 a.spin2 ≤ l2 ∧ max a.spin1 a.spin2 ≤ l3 then
        runWrites (a.cells W p l2 l3) (fun _ => 0) (x, y) else 0 := by
  unfold AnisoArgs.matrix
  rw [NaMaster.matrix_apply a.ncls lmax _ _ h2 h3 hx hy]
  · by_cases h : max a.spin1 a.spin2 ≤ l2 ∧ max a.spin1 a.spin2 ≤ l3
    · rw [if_pos h, if_pos h]
    · rw [if_neg h, if_neg h]; rfl
  · intro l2 l3 w hw
    by_cases h : max a.spin1 a.spin2 ≤ l2 ∧ max a.spin1 a.spin2 ≤ l3
    · rw [if_pos h] at hw; exact a.cells_lt W p l2 l3 w hw
    · rw [if_neg h] at hw; exact absurd hw List.not_mem_nil

theorem wigAt_any {W : Wigner} (hZ : ZeroRow W) (s l1 l2 l3 : ℕ) (h : Triangle l1 l2 l3) :
    wigAt W l1 l2 l3 s (-s) = spin3j W s l1 l2 l3 := by
  by_cases hs : s = 0
  · subst hs
    unfold spin3j wigAt drc3jj
    rw [if_pos rfl, ← hZ l1 l2 l3 h]
    have e := drcMin_zero l2 l3 ((0 : ℕ) : ℤ)
    have ht := triangle_iff.1 h
    rw [e, if_neg (by omega), if_neg (by simp)]
    have : ldist l2 l3 + (l1 - ldist l2 l3) = l1 := by omega
    rw [this]; simp
  · exact wigAt_spin W l1 l2 l3 s hs (triangle_iff.1 h).2

/-- Spectra of a scalar mask: those with the spin part of the mask vanish. -/
def isoPcl (p : ℕ → ℝ) : AnisoPcl :=
  ⟨p, fun _ => 0, fun _ => 0, fun _ => 0, fun _ => 0, fun _ => 0, fun _ => 0, fun _ => 0, fun _ => 0⟩

theorem anisoPcl_zero (c o : Bool) (l : ℕ) : anisoPcl c o (fun _ => 0) l = 0 := by
  unfold anisoPcl; simp

theorem aniso_sum {W : Wigner} (hZ : ZeroRow W) (s1 s2 M : ℕ) (p : ℕ → ℝ) (sel : ℕ → Prop) [DecidablePred sel]
    (l2 l3 : ℕ) (σ : ℝ) (f : ℕ → ℝ)
    (hf : ∀ l1, Triangle l1 l2 l3 → f l1 = if sel (l1 + l2 + l3) then
      σ * (wigAt W l1 l2 l3 s1 (-s1) * wigAt W l1 l2 l3 s2 (-s2) * anisoPcl true false p l1) else 0) :
    sumMask M l2 l3 (fun l1 => (2 * (l3 : ℝ) + 1) * f l1) = (2 * l3 + 1) * (σ * coupling W s1 s2 M p sel l2 l3) := by
  rw [sumMask_eq M l2 l3 _ (fun l1 => (2 * (l3 : ℝ) + 1) * (σ * if sel (l1 + l2 + l3) then
    (2 * l1 + 1) / (4 * Real.pi) * p l1 * spin3j W s1 l1 l2 l3 * spin3j W s2 l1 l2 l3 else 0))]
  · rw [← Finset.mul_sum, ← Finset.mul_sum]; rfl
  · intro l1 ht
    rw [spin3j_zero W ht]; simp
  · intro l1 _ ht
    rw [hf l1 ht]
    by_cases hs : sel (l1 + l2 + l3)
    · rw [if_pos hs, if_pos hs, wigAt_any hZ _ _ _ _ ht, wigAt_any hZ _ _ _ _ ht]
      unfold anisoPcl
      simp only [if_true, Bool.false_eq_true, if_false]
      ring
    · rw [if_neg hs, if_neg hs]; ring

/-- **C20** (what the code computes). With vanishing spin spectra the anisotropic code gives the isotropic
matrix times `(-1)^(s1+s2)`. -/
theorem C20_sign {W : Wigner} (hZ : ZeroRow W) (a : AnisoArgs) (hs : a.spin1 ≠ 0 ∨ a.spin2 ≠ 0) (lmax : ℕ) (p : ℕ → ℝ)
    {l2 l3 x y : ℕ} (h2 : l2 ≤ lmax) (h3 : l3 ≤ lmax) (hx : x < a.ncls) (hy : y < a.ncls) :
    compAnisoMatrix W a lmax p (fun _ => 0) (fun _ => 0) (fun _ => 0) (fun _ => 0) (fun _ => 0) (fun _ => 0)
      (fun _ => 0) (fun _ => 0) (a.ncls * l2 + x) (a.ncls * l3 + y) =
      (-1) ^ (a.spin1 + a.spin2) * CouplingSpec.matrix W a.spin1 a.spin2 a.lmaxMask p l2 x l3 y := by
  have hsq : ((-1 : ℝ)) ^ (a.spin1 + a.spin2) * (-1) ^ (a.spin1 + a.spin2) = 1 := by
    rw [← pow_add, ← two_mul, pow_mul]; norm_num
  unfold compAnisoMatrix
  rw [a.matrix_apply W lmax _ h2 h3 hx hy]
  unfold CouplingSpec.matrix
  rw [← mul_assoc, ← mul_assoc, hsq, one_mul]
  by_cases hr : max a.spin1 a.spin2 ≤ l2 ∧ max a.spin1 a.spin2 ≤ l3
  swap
  · rw [if_neg hr, coupling_below W _ _ _ _ _ _ _ (by omega), coupling_below W _ _ _ _ _ _ _ (by omega),
      coupling_below W _ _ _ _ _ _ _ (by omega)]
    simp
  rw [if_pos hr]
  unfold AnisoArgs.cells
  simp only [anisoPcl_zero, mul_zero, ite_self, sub_zero, add_zero, neg_zero, zero_add]
  have hT := aniso_sum hZ a.spin1 a.spin2 a.lmaxMask p (fun _ => True) l2 l3 1
    (fun l1 => wigAt W l1 l2 l3 a.spin1 (-a.spin1) * wigAt W l1 l2 l3 a.spin2 (-a.spin2) * anisoPcl true false p l1)
    (by intro l1 _; rw [if_pos trivial, one_mul])
  have hE := aniso_sum hZ a.spin1 a.spin2 a.lmaxMask p Even l2 l3 1
    (fun l1 => (if Odd (l1 + l2 + l3) then 0 else 1) *
      (wigAt W l1 l2 l3 a.spin1 (-a.spin1) * wigAt W l1 l2 l3 a.spin2 (-a.spin2) * anisoPcl true false p l1))
    (by
      intro l1 _
      by_cases ho : Odd (l1 + l2 + l3)
      · rw [if_pos ho, if_neg (Nat.not_even_iff_odd.2 ho), zero_mul]
      · rw [if_neg ho, if_pos (Nat.not_odd_iff_even.1 ho)])
  have hO := aniso_sum hZ a.spin1 a.spin2 a.lmaxMask p Odd l2 l3 1
    (fun l1 => (if Odd (l1 + l2 + l3) then 1 else 0) *
      (wigAt W l1 l2 l3 a.spin1 (-a.spin1) * wigAt W l1 l2 l3 a.spin2 (-a.spin2) * anisoPcl true false p l1))
    (by
      intro l1 _
      by_cases ho : Odd (l1 + l2 + l3)
      · rw [if_pos ho, if_pos ho]
      · rw [if_neg ho, if_neg ho, zero_mul])
  have hO' := aniso_sum hZ a.spin1 a.spin2 a.lmaxMask p Odd l2 l3 (-1)
    (fun l1 => (if Odd (l1 + l2 + l3) then 1 else 0) *
      -(wigAt W l1 l2 l3 a.spin1 (-a.spin1) * wigAt W l1 l2 l3 a.spin2 (-a.spin2) * anisoPcl true false p l1))
    (by
      intro l1 _
      by_cases ho : Odd (l1 + l2 + l3)
      · rw [if_pos ho, if_pos ho]; ring
      · rw [if_neg ho, if_neg ho, zero_mul])
  rw [one_mul] at hT hE hO
  rw [neg_one_mul] at hO'
  have hzero : sumMask a.lmaxMask l2 l3 (fun _ => 0) = 0 := sumMask_zero _ _ (fun _ => rfl)
  unfold AnisoArgs.ncls at hx hy
  by_cases h1 : a.spin1 = 0
  · have h2' : a.spin2 ≠ 0 := by tauto
    rw [if_neg (by simpa using h1), if_pos h2'] at hx hy
    simp only [if_pos (show a.spin1 = 0 ∧ a.spin2 ≠ 0 from ⟨h1, h2'⟩), hT, hzero,
      if_pos (show a.spin1 = 0 ∨ a.spin2 = 0 from Or.inl h1)]
    interval_cases x <;> interval_cases y <;> simp [runWrites]
  · by_cases h2' : a.spin2 = 0
    · rw [if_pos h1, if_neg (by simpa using h2')] at hx hy
      simp only [if_neg (show ¬ (a.spin1 = 0 ∧ a.spin2 ≠ 0) from fun h => h1 h.1),
        if_pos (show a.spin1 ≠ 0 ∧ a.spin2 = 0 from ⟨h1, h2'⟩), hT, hzero,
        if_pos (show a.spin1 = 0 ∨ a.spin2 = 0 from Or.inr h2')]
      interval_cases x <;> interval_cases y <;> simp [runWrites]
    · rw [if_pos h1, if_pos h2'] at hx hy
      simp only [if_neg (show ¬ (a.spin1 = 0 ∧ a.spin2 ≠ 0) from fun h => h1 h.1),
        if_neg (show ¬ (a.spin1 ≠ 0 ∧ a.spin2 = 0) from fun h => h2' h.2),
        if_pos (show a.spin1 ≠ 0 ∧ a.spin2 ≠ 0 from ⟨h1, h2'⟩), hE, hO, hO', hzero,
        if_neg (show ¬ (a.spin1 = 0 ∨ a.spin2 = 0) by tauto)]
      interval_cases x <;> interval_cases y <;> simp [runWrites]

/-- **C20** (even sum of the spins). The matrix of the anisotropic code with vanishing spin spectra equals that of
the workspace computed from the same scalar mask spectrum. Missing for the full claim: odd `s1+s2`, where it
fails, see `C20_odd_example`. -/
theorem C20_even_partial {W : Wigner} (hW : Symmetric W) (hZ : ZeroRow W) {a : CouplingArgs} (ha : a.Plain)
    (hs : a.spin1 ≠ 0 ∨ a.spin2 ≠ 0) (heven : Even (a.spin1 + a.spin2)) (an1 an2 : Bool) {lmaxFields : ℕ}
    {pcl beam1 beam2 : List ℝ} {B : Bins ℝ} {nt : ℤ} {w2 : ℝ} {w : Wsp ℝ}
    (h : compCouplingMatrix W a lmaxFields pcl beam1 beam2 B nt w2 = .ok w) :
    ∃ U, w.unbinned = some U ∧ ∀ i j, i < w.ncls * (B.ellMax + 1) → j < w.ncls * (B.ellMax + 1) →
      compAnisoMatrix W ⟨a.spin1, a.spin2, an1, an2, a.lmaxMask⟩ B.ellMax (fun l => pcl.getD l 0) (fun _ => 0)
        (fun _ => 0) (fun _ => 0) (fun _ => 0) (fun _ => 0) (fun _ => 0) (fun _ => 0) (fun _ => 0) i j = U i j := by
  obtain ⟨hn, U, hU, hv⟩ := C17_formula hW ha h
  refine ⟨U, hU, fun i j hi hj => ?_⟩
  have hnc : (AnisoArgs.mk a.spin1 a.spin2 an1 an2 a.lmaxMask).ncls = w.ncls := by
    rw [hn]
    unfold AnisoArgs.ncls CouplingSpec.ncls
    simp only
    by_cases h1 : a.spin1 = 0 <;> by_cases h2 : a.spin2 = 0 <;> simp [h1, h2]
  have hpos : 0 < w.ncls := by rcases Nat.eq_zero_or_pos w.ncls with h | h <;> [simp [h] at hi; exact h]
  have bi : i / w.ncls ≤ B.ellMax := by have := Nat.div_lt_of_lt_mul hi; omega
  have bj : j / w.ncls ≤ B.ellMax := by have := Nat.div_lt_of_lt_mul hj; omega
  have key := C20_sign hZ ⟨a.spin1, a.spin2, an1, an2, a.lmaxMask⟩ hs B.ellMax (fun l => pcl.getD l 0) bi bj
    (x := i % w.ncls) (y := j % w.ncls) (by rw [hnc]; exact Nat.mod_lt _ hpos) (by rw [hnc]; exact Nat.mod_lt _ hpos)
  rw [hnc, Nat.div_add_mod, Nat.div_add_mod] at key
  rw [key, heven.neg_one_pow, one_mul, ← hv _ _ _ _ bi bj (Nat.mod_lt _ hpos) (Nat.mod_lt _ hpos), Nat.div_add_mod,
    Nat.div_add_mod]

/-- **C20** fails for an odd sum of spins: spins 0 and 1, full sky as mask. The isotropic code gives one, the
anisotropic code minus one. -/
theorem C20_odd_example (W : Wigner) (hW : Symmetric W) (hZ : ZeroRow W) (hm : MonopoleValue W) :
    ∃ w U, compCouplingMatrix W (plainArgs 0 1 false) 3 [4 * Real.pi, 0, 0, 0] [1, 1, 1, 1] [1, 1, 1, 1] pairBins 0 1 =
        .ok w ∧ w.unbinned = some U ∧ U 4 4 = 1 ∧
      compAnisoMatrix W ⟨0, 1, false, true, 3⟩ 3 (fun l => [4 * Real.pi, 0, 0, 0].getD l 0) (fun _ => 0)
        (fun _ => 0) (fun _ => 0) (fun _ => 0) (fun _ => 0) (fun _ => 0) (fun _ => 0) (fun _ => 0) 4 4 = -1 := by
  obtain ⟨w, h⟩ := plainArgs_ok W 0 1 false (by simp) [4 * Real.pi, 0, 0, 0] rfl
  have hpl : (plainArgs 0 1 false).Plain := ⟨rfl, rfl, rfl, rfl, rfl, by decide⟩
  obtain ⟨U, hU, hv⟩ := C17_monopole hW hm hpl h (by
    intro l hl
    rcases l with _ | _ | _ | _ | l
    · exact absurd rfl hl
    · rfl
    · rfl
    · rfl
    · rfl)
  obtain ⟨hn, U', hU', hv'⟩ := C17_formula hW hpl h
  rw [hU] at hU'
  cases hU'
  have hn2 : w.ncls = 2 := hn
  have e3 : pairBins.ellMax = 3 := rfl
  have hone : U 4 4 = 1 := by
    have := hv 2 2 0 0 (by rw [e3]; omega) (by rw [e3]; omega) (by omega) (by omega) (by decide)
    rw [hn2, if_pos ⟨rfl, rfl⟩] at this
    rw [this]
    have hp : (4 * Real.pi) ≠ 0 := by positivity
    exact div_self hp
  refine ⟨w, U, h, hU, hone, ?_⟩
  have key := C20_sign hZ ⟨0, 1, false, true, 3⟩ (Or.inr (by simp)) 3 (fun l => [4 * Real.pi, 0, 0, 0].getD l 0)
    (l2 := 2) (l3 := 2) (x := 0) (y := 0) (by omega) (by omega) (by decide) (by decide)
  have e4 : (AnisoArgs.mk 0 1 false true 3).ncls * 2 + 0 = 4 := by decide
  rw [e4] at key
  rw [key]
  have := hv' 2 2 0 0 (by rw [e3]; omega) (by rw [e3]; omega) (by omega) (by omega)
  rw [hn2] at this
  change _ = CouplingSpec.matrix W 0 1 3 _ 2 0 2 0 at this
  rw [← this, hone]
  norm_num

/-- The hypotheses of C20 are met. -/
example : ∃ w, compCouplingMatrix exampleWigner (plainArgs 0 2 false) 3 [1, 2, 3, 4] [1, 1, 1, 1] [1, 1, 1, 1] pairBins
      0 1 = .ok w ∧ Symmetric exampleWigner ∧ ZeroRow exampleWigner ∧ MonopoleValue exampleWigner ∧
      (plainArgs 0 2 false).Plain ∧ Even (0 + 2) := by
  obtain ⟨w, hw⟩ := plainArgs_ok exampleWigner 0 2 false (by simp) [1, 2, 3, 4] rfl
  exact ⟨w, hw, exampleWigner_symmetric, exampleWigner_zeroRow, exampleWigner_monopole,
    ⟨rfl, rfl, rfl, rfl, rfl, by decide⟩, by decide⟩

/-! ## Order of the mask spectra -/

/-- What the C function computes when each spectrum is given for the parameter of the same name. -/
noncomputable def namedAnisoMatrix (W : Wigner) (a : AnisoArgs) (lmax : ℕ)
    (fl00 fl0e fl0b fle0 flb0 flee fleb flbe flbb : ℕ → ℝ) : ℕ → ℕ → ℝ :=
  a.matrix W lmax
    { p00 := fl00, p0e := fl0e, pe0 := fle0, p0b := fl0b, pb0 := flb0, pee := flee, peb := fleb, pbe := flbe,
      pbb := flbb }

/-- **C21** (when the two spectra concerned agree). Then the matrix is the intended one. Missing for the full
claim: different spectra, for which it fails, see `C21_swapped`, `C21_zero_b_ignored` and `C21_wrong`. -/
theorem C21_agree_partial (W : Wigner) (a : AnisoArgs) (lmax : ℕ) (fl00 fl0e flx flb0 flee fleb flbe flbb : ℕ → ℝ) :
    compAnisoMatrix W a lmax fl00 fl0e flx flx flb0 flee fleb flbe flbb =
      namedAnisoMatrix W a lmax fl00 fl0e flx flx flb0 flee fleb flbe flbb := rfl

/-- **C21** fails: the matrix obtained is the one for the `0b` and `e0` spectra exchanged. -/
theorem C21_swapped (W : Wigner) (a : AnisoArgs) (lmax : ℕ) (fl00 fl0e fl0b fle0 flb0 flee fleb flbe flbb : ℕ → ℝ) :
    compAnisoMatrix W a lmax fl00 fl0e fl0b fle0 flb0 flee fleb flbe flbb =
      namedAnisoMatrix W a lmax fl00 fl0e fle0 fl0b flb0 flee fleb flbe flbb := rfl

/-- **C21** fails: with an isotropic first mask the `0b` spectrum is not used at all. -/
theorem C21_zero_b_ignored (W : Wigner) (a : AnisoArgs) (ha : a.aniso1 = false) (lmax : ℕ)
    (fl00 fl0e fl0b fl0b' fle0 flb0 flee fleb flbe flbb : ℕ → ℝ) {l2 l3 x y : ℕ} (h2 : l2 ≤ lmax) (h3 : l3 ≤ lmax)
    (hx : x < a.ncls) (hy : y < a.ncls) :
    compAnisoMatrix W a lmax fl00 fl0e fl0b fle0 flb0 flee fleb flbe flbb (a.ncls * l2 + x) (a.ncls * l3 + y) =
      compAnisoMatrix W a lmax fl00 fl0e fl0b' fle0 flb0 flee fleb flbe flbb (a.ncls * l2 + x) (a.ncls * l3 + y) := by
  unfold compAnisoMatrix
  rw [a.matrix_apply W lmax _ h2 h3 hx hy, a.matrix_apply W lmax _ h2 h3 hx hy]
  unfold AnisoArgs.cells
  simp only [ha, Bool.false_eq_true, if_false, Bool.false_and]

/-- **C21** fails: with an isotropic second mask the `e0` spectrum is not used at all. -/
theorem C21_e_zero_ignored (W : Wigner) (a : AnisoArgs) (ha : a.aniso2 = false) (lmax : ℕ)
    (fl00 fl0e fl0b fle0 fle0' flb0 flee fleb flbe flbb : ℕ → ℝ) {l2 l3 x y : ℕ} (h2 : l2 ≤ lmax) (h3 : l3 ≤ lmax)
    (hx : x < a.ncls) (hy : y < a.ncls) :
    compAnisoMatrix W a lmax fl00 fl0e fl0b fle0 flb0 flee fleb flbe flbb (a.ncls * l2 + x) (a.ncls * l3 + y) =
      compAnisoMatrix W a lmax fl00 fl0e fl0b fle0' flb0 flee fleb flbe flbb (a.ncls * l2 + x) (a.ncls * l3 + y) := by
  unfold compAnisoMatrix
  rw [a.matrix_apply W lmax _ h2 h3 hx hy, a.matrix_apply W lmax _ h2 h3 hx hy]
  unfold AnisoArgs.cells
  simp only [ha, Bool.false_eq_true, if_false, Bool.and_false]

/-- **C21** fails: spins 0 and 1, anisotropic second mask, `0b` spectrum one at multipole 2. The `0E-0B` element at
multipole 1 should not vanish but does. The two symbols named are not zero for the Wigner symbols. -/
theorem C21_wrong (W : Wigner) (h0 : W.w 2 1 1 0 0 ≠ 0) (h1 : W.w 2 1 1 1 1 ≠ 0) :
    let a : AnisoArgs := ⟨0, 1, false, true, 2⟩
    let z : ℕ → ℝ := fun _ => 0
    let b : ℕ → ℝ := fun l => if l = 2 then 1 else 0
    compAnisoMatrix W a 2 z z b z z z z z z (2 * 1) (2 * 1 + 1) = 0 ∧
      namedAnisoMatrix W a 2 z z b z z z z z z (2 * 1) (2 * 1 + 1) ≠ 0 := by
  intro a z b
  have hn : a.ncls = 2 := by decide
  have e : ∀ p, a.matrix W 2 p (2 * 1) (2 * 1 + 1) =
      sumMask 2 1 1 (fun l => (2 * ((1 : ℕ) : ℝ) + 1) * -(wigAt W l 1 1 0 0 * wigAt W l 1 1 1 1 * anisoPcl true true p.p0b l)) := by
    intro p
    have := a.matrix_apply W 2 p (l2 := 1) (l3 := 1) (x := 0) (y := 1) (by omega) (by omega) (by decide) (by decide)
    rw [hn, if_pos (by decide)] at this
    change a.matrix W 2 p (2 * 1 + 0) (2 * 1 + 1) = _
    rw [this]
    unfold AnisoArgs.cells
    simp only
    rw [if_pos (by decide)]
    simp [runWrites, a]
  constructor
  · unfold compAnisoMatrix
    rw [e]
    apply sumMask_zero
    intro l
    rw [anisoPcl_zero]; simp
  · unfold namedAnisoMatrix
    rw [e]
    unfold sumMask
    have hI : Finset.Icc (ldist 1 1) (1 + 1) = {0, 1, 2} := by decide
    rw [hI, Finset.sum_insert (by decide), Finset.sum_insert (by decide), Finset.sum_singleton]
    have w2 : wigAt W 2 1 1 0 0 = W.w 2 1 1 0 0 := by
      unfold wigAt drc3jj drcMin ldist; norm_num
    have w3 : wigAt W 2 1 1 1 1 = W.w 2 1 1 1 1 := by
      unfold wigAt drc3jj drcMin ldist; norm_num
    have a0 : anisoPcl true true b 0 = 0 := by unfold anisoPcl; simp [b]
    have a1 : anisoPcl true true b 1 = 0 := by unfold anisoPcl; simp [b]
    have a2 : anisoPcl true true b 2 ≠ 0 := by
      unfold anisoPcl
      have := Real.pi_ne_zero
      simp only [if_true, b]
      push_cast
      field_simp
      norm_num
    simp only [a0, a1, w2, w3]
    norm_num
    exact ⟨⟨h0, h1⟩, a2⟩

/-- The symbols named in C21 can be non-zero. -/
example : exampleWigner.w 2 1 1 0 0 ≠ 0 ∧ exampleWigner.w 2 1 1 1 1 ≠ 0 := by
  constructor
  · have e : exampleWigner.w 2 1 1 0 0 = zero3j 2 1 1 := exampleWigner_zeroRow 2 1 1 (by decide)
    rw [e]
    unfold zero3j
    rw [if_pos ⟨by decide, by decide⟩]
    simp only
    norm_num [Nat.factorial]
  · unfold exampleWigner
    have : Even 4 := by decide
    simp [this]

/-! ## Exchange of the two fields -/

/-- The component of the spectra when the fields are exchanged: `EB` and `BE` swap. -/
def swapComp (ncls x : ℕ) : ℕ := if ncls = 4 then (if x = 1 then 2 else if x = 2 then 1 else x) else x

/-- Arguments and spectra with the two fields exchanged. -/
def AnisoArgs.swap (a : AnisoArgs) : AnisoArgs := ⟨a.spin2, a.spin1, a.aniso2, a.aniso1, a.lmaxMask⟩

/-- The assignments for two fields with spin, given the nine products. -/
noncomputable def ssCells (M ll2 ll3 : ℕ) (m00 m0e m0b me0 mb0 mee meb mbe mbb : ℕ → ℝ) : List ((ℕ × ℕ) × ℝ) :=
  let fac : ℝ := 2 * ll3 + 1
  let sm := fun f : ℕ → ℝ => sumMask M ll2 ll3 fun l1 => fac * f l1
  let ss := fun f g : ℕ → ℝ => sm fun l1 =>
    (if Odd (l1 + ll2 + ll3) then 0 else 1) * f l1 + (if Odd (l1 + ll2 + ll3) then 1 else 0) * g l1
  [((0, 0), ss (fun l => m00 l - m0e l - me0 l + mee l) (fun l => mbb l)),
   ((0, 1), ss (fun l => -m0b l + meb l) (fun l => -mb0 l - mbe l)),
   ((0, 2), ss (fun l => -mb0 l + mbe l) (fun l => -m0b l - meb l)),
   ((0, 3), ss (fun l => mbb l) (fun l => m00 l + m0e l + me0 l + mee l)),
   ((1, 0), ss (fun l => -m0b l + meb l) (fun l => mb0 l - mbe l)),
   ((1, 1), ss (fun l => m00 l + m0e l - me0 l - mee l) (fun l => -mbb l)),
   ((1, 2), ss (fun l => mbb l) (fun l => -m00 l + m0e l - me0 l + mee l)),
   ((1, 3), ss (fun l => -mb0 l - mbe l) (fun l => m0b l + meb l)),
   ((2, 0), ss (fun l => -mb0 l + mbe l) (fun l => m0b l - meb l)),
   ((2, 1), ss (fun l => mbb l) (fun l => -m00 l - m0e l + me0 l + mee l)),
   ((2, 2), ss (fun l => m00 l - m0e l + me0 l - mee l) (fun l => -mbb l)),
   ((2, 3), ss (fun l => -m0b l - meb l) (fun l => mb0 l + mbe l)),
   ((3, 0), ss (fun l => mbb l) (fun l => m00 l - m0e l - me0 l + mee l)),
   ((3, 1), ss (fun l => -mb0 l - mbe l) (fun l => -m0b l + meb l)),
   ((3, 2), ss (fun l => -m0b l - meb l) (fun l => -mb0 l + mbe l)),
   ((3, 3), ss (fun l => m00 l + m0e l + me0 l + mee l) (fun l => mbb l))]

theorem ssCells_swap (M l2 l3 : ℕ) (m00 m0e m0b me0 mb0 mee meb mbe mbb : ℕ → ℝ) (x y : ℕ) (hx : x < 4) (hy : y < 4) :
    runWrites (ssCells M l2 l3 m00 me0 mb0 m0e m0b mee mbe meb mbb) (fun _ => 0) (swapComp 4 x, swapComp 4 y) =
      runWrites (ssCells M l2 l3 m00 m0e m0b me0 mb0 mee meb mbe mbb) (fun _ => 0) (x, y) := by
  unfold ssCells
  interval_cases x <;> interval_cases y <;> simp [runWrites, swapComp] <;>
    (congr 1; funext l; by_cases ho : Odd (l + l2 + l3) <;> simp only [ho, if_true, if_false] <;> ring)

/-- **C52** (C function for anisotropic masks). Exchanging the fields, and with them the mask spectra, permutes
the components of the matrix. -/
theorem C52_aniso_exchange (W : Wigner) (a : AnisoArgs) (lmax : ℕ) (fl00 fl0e fl0b fle0 flb0 flee fleb flbe flbb : ℕ → ℝ)
    {l2 l3 x y : ℕ} (h2 : l2 ≤ lmax) (h3 : l3 ≤ lmax) (hx : x < a.ncls) (hy : y < a.ncls) :
    namedAnisoMatrix W a.swap lmax fl00 fle0 flb0 fl0e fl0b flee flbe fleb flbb
        (a.ncls * l2 + swapComp a.ncls x) (a.ncls * l3 + swapComp a.ncls y) =
      namedAnisoMatrix W a lmax fl00 fl0e fl0b fle0 flb0 flee fleb flbe flbb (a.ncls * l2 + x) (a.ncls * l3 + y) := by
  have hn : a.swap.ncls = a.ncls := by unfold AnisoArgs.ncls AnisoArgs.swap; exact Nat.mul_comm _ _
  have hsx : ∀ x, x < a.ncls → swapComp a.ncls x < a.ncls := by
    intro x hx
    unfold swapComp
    split
    · rename_i h4
      rw [h4] at hx ⊢
      split <;> [omega; split <;> omega]
    · exact hx
  unfold namedAnisoMatrix
  rw [a.matrix_apply W lmax _ h2 h3 hx hy]
  have key := a.swap.matrix_apply W lmax { p00 := fl00, p0e := fle0, pe0 := fl0e, p0b := flb0, pb0 := fl0b, pee := flee, peb := flbe, pbe := fleb, pbb := flbb } h2 h3
    (x := swapComp a.ncls x) (y := swapComp a.ncls y) (by rw [hn]; exact hsx x hx) (by rw [hn]; exact hsx y hy)
  rw [hn] at key
  rw [key]
  have hm : max a.swap.spin1 a.swap.spin2 = max a.spin1 a.spin2 := max_comm _ _
  rw [hm]
  by_cases hr : max a.spin1 a.spin2 ≤ l2 ∧ max a.spin1 a.spin2 ≤ l3
  swap
  · rw [if_neg hr, if_neg hr]
  rw [if_pos hr, if_pos hr]
  unfold AnisoArgs.cells AnisoArgs.swap
  simp only [Bool.and_comm a.aniso2 a.aniso1, Nat.add_comm a.spin2 a.spin1]
  have hc : ∀ (f g : ℕ → ℝ) (l : ℕ), f l * g l = g l * f l := fun f g l => mul_comm _ _
  by_cases h1 : a.spin1 = 0
  · by_cases h2' : a.spin2 = 0
    · simp [h1, h2', runWrites]
    · have e : a.ncls = 2 := by unfold AnisoArgs.ncls; simp [h1, h2']
      rw [e] at hx hy
      rw [e]
      simp only [h1, h2', ne_eq, not_true_eq_false, not_false_eq_true, and_false, false_and, and_true, true_and, if_true, if_false]
      interval_cases x <;> interval_cases y <;> simp [runWrites, swapComp, mul_comm]
  · by_cases h2' : a.spin2 = 0
    · have e : a.ncls = 2 := by unfold AnisoArgs.ncls; simp [h1, h2']
      rw [e] at hx hy
      rw [e]
      simp only [h1, h2', ne_eq, not_true_eq_false, not_false_eq_true, and_false, false_and, and_true, true_and, if_true, if_false]
      interval_cases x <;> interval_cases y <;> simp [runWrites, swapComp, mul_comm]
    · have e : a.ncls = 4 := by unfold AnisoArgs.ncls; simp [h1, h2']
      rw [e] at hx hy
      rw [e]
      have hl := ssCells_swap a.lmaxMask l2 l3
        (fun l1 => wigAt W l1 l2 l3 a.spin1 (-a.spin1) * wigAt W l1 l2 l3 a.spin2 (-a.spin2) *
          anisoPcl true false fl00 l1)
        (fun l1 => if a.aniso2 then wigAt W l1 l2 l3 a.spin1 (-a.spin1) * wigAt W l1 l2 l3 a.spin2 a.spin2 *
          anisoPcl a.aniso2 (a.spin2 % 2 == 1) fl0e l1 else 0)
        (fun l1 => if a.aniso2 then wigAt W l1 l2 l3 a.spin1 (-a.spin1) * wigAt W l1 l2 l3 a.spin2 a.spin2 *
          anisoPcl a.aniso2 (a.spin2 % 2 == 1) fl0b l1 else 0)
        (fun l1 => if a.aniso1 then wigAt W l1 l2 l3 a.spin1 a.spin1 * wigAt W l1 l2 l3 a.spin2 (-a.spin2) *
          anisoPcl a.aniso1 (a.spin1 % 2 == 1) fle0 l1 else 0)
        (fun l1 => if a.aniso1 then wigAt W l1 l2 l3 a.spin1 a.spin1 * wigAt W l1 l2 l3 a.spin2 (-a.spin2) *
          anisoPcl a.aniso1 (a.spin1 % 2 == 1) flb0 l1 else 0)
        (fun l1 => if a.aniso1 && a.aniso2 then wigAt W l1 l2 l3 a.spin1 a.spin1 * wigAt W l1 l2 l3 a.spin2 a.spin2 *
          anisoPcl (a.aniso1 && a.aniso2) ((a.spin1 + a.spin2) % 2 == 1) flee l1 else 0)
        (fun l1 => if a.aniso1 && a.aniso2 then wigAt W l1 l2 l3 a.spin1 a.spin1 * wigAt W l1 l2 l3 a.spin2 a.spin2 *
          anisoPcl (a.aniso1 && a.aniso2) ((a.spin1 + a.spin2) % 2 == 1) fleb l1 else 0)
        (fun l1 => if a.aniso1 && a.aniso2 then wigAt W l1 l2 l3 a.spin1 a.spin1 * wigAt W l1 l2 l3 a.spin2 a.spin2 *
          anisoPcl (a.aniso1 && a.aniso2) ((a.spin1 + a.spin2) % 2 == 1) flbe l1 else 0)
        (fun l1 => if a.aniso1 && a.aniso2 then wigAt W l1 l2 l3 a.spin1 a.spin1 * wigAt W l1 l2 l3 a.spin2 a.spin2 *
          anisoPcl (a.aniso1 && a.aniso2) ((a.spin1 + a.spin2) % 2 == 1) flbb l1 else 0) x y hx hy
      have c1 : ¬ (a.spin1 = 0 ∧ a.spin2 ≠ 0) := fun h => h1 h.1
      have c2 : ¬ (a.spin1 ≠ 0 ∧ a.spin2 = 0) := fun h => h2' h.2
      have c3 : a.spin1 ≠ 0 ∧ a.spin2 ≠ 0 := ⟨h1, h2'⟩
      have d1 : ¬ (a.spin2 = 0 ∧ a.spin1 ≠ 0) := fun h => h2' h.1
      have d2 : ¬ (a.spin2 ≠ 0 ∧ a.spin1 = 0) := fun h => h1 h.2
      have d3 : a.spin2 ≠ 0 ∧ a.spin1 ≠ 0 := ⟨h2', h1⟩
      simp only [if_neg c1, if_neg c2, if_pos c3, if_neg d1, if_neg d2, if_pos d3]
      simp only [ssCells] at hl
      rw [← hl]
      simp only [mul_comm (wigAt W _ l2 l3 (a.spin2 : ℤ) _) (wigAt W _ l2 l3 (a.spin1 : ℤ) _)]

end NaMaster
