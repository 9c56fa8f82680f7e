import Verif.Coupling.Lemmas3

/-!
# Coupling matrices: formula, symmetry, linearity, monopole mask (C17)

The statements are about workspaces returned by `compCouplingMatrix`, the model of the wrapper called by
`NmtWorkspace.compute_coupling_matrix` for isotropic masks.
-/

namespace NaMaster

open Finset CouplingSpec

theorem zero3j_monopole (l : ℕ) : zero3j 0 l l = (-1) ^ l / Real.sqrt (2 * l + 1) := by
  have h := drc000_eq (fun _ => 0) l l 0 l l (by unfold Triangle; omega) (by unfold lfacSize; omega)
  rw [← h]
  unfold drc000
  by_cases hl : l = 0
  · subst hl
    simp [ldist]
  · rw [if_neg (by unfold ldist; omega)]
    simp only
    have hlf : ∀ n, n ≤ 2 * l + 1 → lfac (fun _ => 0) l l n = Real.log (n.factorial : ℝ) := by
      intro n hn
      unfold lfac
      rw [if_pos (by unfold lfacSize; omega), logFac_eq]
    have fpos : ∀ n : ℕ, (0 : ℝ) < (n.factorial : ℝ) := fun n => by exact_mod_cast Nat.factorial_pos n
    have ho : ¬ Odd (0 + l + l) := by rw [Nat.not_odd_iff_even]; exact ⟨l, by ring⟩
    rw [if_neg ho]
    have e1 : (0 + l + l) / 2 = l := by omega
    have e2 : 0 + l + l - 2 * 0 = 2 * l := by omega
    have e3 : 0 + l + l - 2 * l = 0 := by omega
    have e4 : 0 + l + l + 1 = 2 * l + 1 := by omega
    rw [e1, e2, e3, e4, hlf _ (by omega), hlf _ (by omega), hlf _ (by omega), hlf _ (by omega), hlf _ (by omega),
      hlf _ (by omega), neg_one_pow_eq, Nat.factorial_succ (2 * l), Nat.cast_mul, Real.log_mul (by positivity) (fpos _).ne']
    simp only [Nat.sub_self, Nat.sub_zero, Nat.factorial_zero, Nat.cast_one, Real.log_one]
    have hp : (0 : ℝ) < 2 * (l : ℝ) + 1 := by positivity
    have : (1 / 2 * (Real.log ((2 * l).factorial : ℝ) + 0 + 0 - (Real.log ((2 * l + 1 : ℕ) : ℝ) +
        Real.log ((2 * l).factorial : ℝ))) + (Real.log (l.factorial : ℝ) - Real.log (l.factorial : ℝ) - 0 - 0)) =
        -(Real.log (2 * (l : ℝ) + 1) / 2) := by push_cast; ring
    rw [this, Real.exp_neg, Real.exp_half, Real.exp_log hp, div_eq_mul_inv]

/-- Numbers with the symmetries of the Wigner symbols, with the right values for zero lower row and for the
monopole; used to show that the hypotheses below can be met. -/
noncomputable def exampleWigner : Wigner where
  w l1 l2 l3 m2 m3 :=
    if m2 = 0 ∧ m3 = 0 then zero3j l1 l2 l3
    else if l1 = 0 ∧ l2 = l3 ∧ m2 = -m3 then (-1) ^ (l2 + m2.natAbs) / Real.sqrt (2 * l2 + 1)
    else if Even (l1 + l2 + l3) then 1 else (m2 : ℝ) - m3

theorem zero3j_sign (l1 l2 l3 : ℕ) : (-1) ^ (l1 + l2 + l3) * zero3j l1 l2 l3 = zero3j l1 l2 l3 := by
  by_cases h : Even (l1 + l2 + l3)
  · rw [h.neg_one_pow, one_mul]
  · unfold zero3j
    rw [if_neg (fun h' => h h'.2), mul_zero]

theorem exampleWigner_symmetric : Symmetric exampleWigner := by
  constructor
  · intro l1 l2 l3 m2 m3
    unfold exampleWigner
    simp only
    by_cases h0 : m2 = 0 ∧ m3 = 0
    · rw [if_pos h0, if_pos ⟨h0.2, h0.1⟩, zero3j_comm, zero3j_sign]
    · rw [if_neg h0, if_neg (fun h => h0 ⟨h.2, h.1⟩)]
      by_cases h1 : l1 = 0 ∧ l2 = l3 ∧ m2 = -m3
      · obtain ⟨e1, e2, e3⟩ := h1
        subst e1; subst e2; subst e3
        rw [if_pos ⟨rfl, rfl, by simp⟩, if_pos ⟨rfl, rfl, rfl⟩, Int.natAbs_neg]
        have : Even (0 + l2 + l2) := ⟨l2, by ring⟩
        rw [this.neg_one_pow, one_mul]
      · rw [if_neg h1, if_neg (fun h => h1 ⟨h.1, h.2.1.symm, by omega⟩)]
        have e : l1 + l3 + l2 = l1 + l2 + l3 := by ring
        rw [e]
        by_cases he : Even (l1 + l2 + l3)
        · rw [if_pos he, if_pos he, he.neg_one_pow, one_mul]
        · rw [if_neg he, if_neg he, (Nat.not_even_iff_odd.1 he).neg_one_pow]; ring
  · intro l1 l2 l3 m2 m3
    unfold exampleWigner
    simp only
    by_cases h0 : m2 = 0 ∧ m3 = 0
    · rw [if_pos h0, if_pos ⟨by omega, by omega⟩, zero3j_sign]
    · rw [if_neg h0, if_neg (fun h => h0 ⟨by omega, by omega⟩)]
      by_cases h1 : l1 = 0 ∧ l2 = l3 ∧ m2 = -m3
      · obtain ⟨e1, e2, e3⟩ := h1
        subst e1; subst e2; subst e3
        rw [if_pos ⟨rfl, rfl, rfl⟩, if_pos ⟨rfl, rfl, rfl⟩, Int.natAbs_neg]
        have : Even (0 + l2 + l2) := ⟨l2, by ring⟩
        rw [this.neg_one_pow, one_mul, Int.natAbs_neg]
      · rw [if_neg h1, if_neg (fun h => h1 ⟨h.1, h.2.1, by omega⟩)]
        by_cases he : Even (l1 + l2 + l3)
        · rw [if_pos he, if_pos he, he.neg_one_pow, one_mul]
        · rw [if_neg he, if_neg he, (Nat.not_even_iff_odd.1 he).neg_one_pow]; push_cast; ring

theorem exampleWigner_zeroRow : ZeroRow exampleWigner := by
  intro l1 l2 l3 _
  unfold exampleWigner
  simp

theorem exampleWigner_monopole : MonopoleValue exampleWigner := by
  intro l s _
  unfold exampleWigner
  simp only
  by_cases hs : s = 0
  · subst hs
    rw [if_pos ⟨by simp, by simp⟩, zero3j_monopole, add_zero]
  · rw [if_neg (by omega), if_pos (by simp)]
    simp

/-- The arguments of an ordinary call: no purification, no joint T-E-B matrix, no Toeplitz approximation. -/
def CouplingArgs.Plain (a : CouplingArgs) : Prop :=
  a.pe1 = false ∧ a.pb1 = false ∧ a.pe2 = false ∧ a.pb2 = false ∧ a.teb = false ∧ a.lT ≤ 0

theorem xi_plain {a : CouplingArgs} (ha : a.Plain) (lmax : ℕ) (entry : ℕ → ℕ → ℝ) {l2 l3 : ℕ}
    (h2 : l2 ≤ lmax) (h3 : l3 ≤ lmax) (he : entry l3 l2 = entry l2 l3)
    (hz : l2 < (a.calc lmax).lstart ∨ l3 < (a.calc lmax).lstart → entry l2 l3 = 0) :
    coefTable (a.calc lmax).lstart lmax a.pureAny a.lT a.lE a.dl entry (l2, l3) = entry l2 l3 := by
  have hp : a.pureAny = false := by unfold CouplingArgs.pureAny; simp [ha.1, ha.2.1, ha.2.2.1, ha.2.2.2.1]
  rw [coefTable_plain _ _ _ _ _ _ _ ha.2.2.2.2.2 h2 h3, hp]
  by_cases h : (a.calc lmax).lstart ≤ l2 ∧ (a.calc lmax).lstart ≤ l3
  · rw [if_pos h, if_neg (by simp)]
    rcases le_total l2 l3 with h' | h'
    · rw [min_eq_left h', max_eq_right h']
    · rw [min_eq_right h', max_eq_left h', he]
  · rw [if_neg h, hz]
    omega

theorem lstart_plain {a : CouplingArgs} (ht : a.teb = false) (lmax : ℕ) :
    (a.calc lmax).lstart = max a.spin1 a.spin2 := by
  unfold CouplingArgs.calc Calc.make Calc.lstart Calc.has00
  by_cases h1 : a.spin1 = 0
  · rw [if_pos h1]
    by_cases h2 : a.spin2 = 0
    · rw [if_pos h2]; simp [h1, h2]
    · rw [if_neg h2]; simp [h1, h2, ht]
  · rw [if_neg h1]; simp [h1, ht]

theorem calc_lmaxMask (a : CouplingArgs) (lmax : ℕ) : (a.calc lmax).lmaxMask = a.lmaxMask := by
  unfold CouplingArgs.calc Calc.make; split <;> [split; skip] <;> rfl

theorem calc_s1 (a : CouplingArgs) (lmax : ℕ) :
    (a.calc lmax).s1 = if a.spin1 = 0 then a.spin2 else a.spin1 := by
  unfold CouplingArgs.calc Calc.make
  by_cases h1 : a.spin1 = 0
  · rw [if_pos h1, if_pos h1]
    by_cases h2 : a.spin2 = 0
    · rw [if_pos h2, h2]
    · rw [if_neg h2]
  · rw [if_neg h1, if_neg h1]

theorem calc_sTwo {a : CouplingArgs} (ht : a.teb = false) (h1 : a.spin1 ≠ 0) (h2 : a.spin2 ≠ 0) (lmax : ℕ) :
    (a.calc lmax).sTwo = a.spin2 := by
  unfold Calc.sTwo Calc.hasSs2 CouplingArgs.calc Calc.make
  rw [if_neg h1, ht]
  by_cases h : a.spin1 = a.spin2
  · simp [h]
  · simp [h1, h2, h]

section plain
variable {W : Wigner} (hW : Symmetric W) {a : CouplingArgs} (ha : a.Plain) (pcl : List ℝ) (lmax : ℕ) {l2 l3 : ℕ}
  (h2 : l2 ≤ lmax) (h3 : l3 ≤ lmax)
include hW ha h2 h3

theorem xi00_plain (h1 : a.spin1 = 0) (h1' : a.spin2 = 0) :
    (a.xi W lmax (usedPcl a.lmaxMask pcl)).1 l2 l3 =
      coupling W 0 0 a.lmaxMask (fun l => pcl.getD l 0) (fun _ => True) l2 l3 := by
  unfold CouplingArgs.xi
  simp only
  rw [xi_plain ha _ _ h2 h3, entry00_eq W _ _ _ _ _ (calc_lmaxMask _ _) h2 h3]
  · rw [entry00_eq W _ _ _ _ _ (calc_lmaxMask _ _) h2 h3, entry00_eq W _ _ _ _ _ (calc_lmaxMask _ _) h3 h2,
      coupling_comm hW]
  · intro h
    rw [lstart_plain ha.2.2.2.2.1, h1, h1'] at h
    omega

theorem xi0s_plain (s : ℕ) (hs : s ≠ 0) (h1 : (a.spin1 = 0 ∧ a.spin2 = s) ∨ (a.spin1 = s ∧ a.spin2 = 0)) :
    (a.xi W lmax (usedPcl a.lmaxMask pcl)).2.1 0 l2 l3 =
      coupling W 0 s a.lmaxMask (fun l => pcl.getD l 0) (fun _ => True) l2 l3 := by
  have hs1 : (a.calc lmax).s1 = s := by
    rw [calc_s1]
    rcases h1 with h | h
    · rw [if_pos h.1, h.2]
    · rw [if_neg (by omega), h.1]
  have hs1' : (a.calc lmax).s1 ≠ 0 := by rw [hs1]; exact hs
  unfold CouplingArgs.xi
  simp only
  have e2 := entry0s_eq W a.junk (a.calc lmax) lmax a.lmaxMask pcl hs1' (calc_lmaxMask _ _) h2 h3
  have e3 := entry0s_eq W a.junk (a.calc lmax) lmax a.lmaxMask pcl hs1' (calc_lmaxMask _ _) h3 h2
  rw [hs1] at e2 e3
  rw [xi_plain ha _ _ h2 h3, e2]
  · rw [e2, e3, coupling_comm hW]
  · intro h
    rw [lstart_plain ha.2.2.2.2.1] at h
    rw [e2, coupling_below]
    omega

theorem xipp_plain (h1 : a.spin1 ≠ 0) (h1' : a.spin2 ≠ 0) :
    (a.xi W lmax (usedPcl a.lmaxMask pcl)).2.2.1 0 l2 l3 =
      coupling W a.spin1 a.spin2 a.lmaxMask (fun l => pcl.getD l 0) Even l2 l3 := by
  have hs1 : (a.calc lmax).s1 = a.spin1 := by rw [calc_s1, if_neg h1]
  have hs1' : (a.calc lmax).s1 ≠ 0 := by rw [hs1]; exact h1
  have e := fun l2 l3 => entryPP_eq (l2 := l2) (l3 := l3) W (a.calc lmax) a.lmaxMask pcl hs1' (calc_lmaxMask _ _)
  rw [hs1, calc_sTwo ha.2.2.2.2.1 h1 h1'] at e
  unfold CouplingArgs.xi
  simp only
  rw [xi_plain ha _ _ h2 h3, e]
  · rw [e, e, coupling_comm hW]
  · intro h
    rw [lstart_plain ha.2.2.2.2.1] at h
    rw [e, coupling_below]
    omega

theorem ximm_plain (h1 : a.spin1 ≠ 0) (h1' : a.spin2 ≠ 0) :
    (a.xi W lmax (usedPcl a.lmaxMask pcl)).2.2.2 0 l2 l3 =
      coupling W a.spin1 a.spin2 a.lmaxMask (fun l => pcl.getD l 0) Odd l2 l3 := by
  have hs1 : (a.calc lmax).s1 = a.spin1 := by rw [calc_s1, if_neg h1]
  have hs1' : (a.calc lmax).s1 ≠ 0 := by rw [hs1]; exact h1
  have e := fun l2 l3 => entryMM_eq (l2 := l2) (l3 := l3) W (a.calc lmax) a.lmaxMask pcl hs1' (calc_lmaxMask _ _)
  rw [hs1, calc_sTwo ha.2.2.2.2.1 h1 h1'] at e
  unfold CouplingArgs.xi
  simp only
  rw [xi_plain ha _ _ h2 h3, e]
  · rw [e, e, coupling_comm hW]
  · intro h
    rw [lstart_plain ha.2.2.2.2.1] at h
    rw [e, coupling_below]
    omega

end plain

/-- **C17** (formula). Without purification the matrix is the textbook sum over the mask multipoles, whatever
lies in memory after the table of factorials. -/
theorem C17_formula {W : Wigner} (hW : Symmetric W) {a : CouplingArgs} (ha : a.Plain) {lmaxFields : ℕ}
    {pcl beam1 beam2 : List ℝ} {B : Bins ℝ} {nt : ℤ} {w2 : ℝ} {w : Wsp ℝ}
    (h : compCouplingMatrix W a lmaxFields pcl beam1 beam2 B nt w2 = .ok w) :
    w.ncls = CouplingSpec.ncls a.spin1 a.spin2 ∧
    ∃ U, w.unbinned = some U ∧ ∀ l2 l3 x y, l2 ≤ B.ellMax → l3 ≤ B.ellMax → x < w.ncls → y < w.ncls →
      U (w.ncls * l2 + x) (w.ncls * l3 + y) =
        CouplingSpec.matrix W a.spin1 a.spin2 a.lmaxMask (fun l => pcl.getD l 0) l2 x l3 y := by
  obtain ⟨-, hn, -, U, hU, hval⟩ := comp_ok h
  have hteb := ha.2.2.2.2.1
  have hn' : a.ncls = CouplingSpec.ncls a.spin1 a.spin2 := by
    unfold CouplingArgs.ncls CouplingSpec.ncls
    rw [hteb]
    by_cases h1 : a.spin1 = 0 <;> by_cases h2 : a.spin2 = 0 <;> simp [h1, h2]
  refine ⟨hn.trans hn', U, hU, ?_⟩
  rw [hn]
  intro l2 l3 x y h2 h3 hx hy
  rw [hval l2 l3 x y h2 h3 hx hy]
  have hf : flag false = 0 := rfl
  have p1 := ha.1
  have p2 := ha.2.1
  have p3 := ha.2.2.1
  have p4 := ha.2.2.2.1
  unfold CouplingSpec.matrix
  rw [neg_one_pow_eq]
  by_cases h1 : a.spin1 = 0
  · by_cases h2' : a.spin2 = 0
    · have e : a.ncls = 1 := by rw [hn']; unfold CouplingSpec.ncls; rw [if_pos h1, if_pos h2']
      rw [e] at hx hy
      have hx0 : x = 0 := by omega
      have hy0 : y = 0 := by omega
      subst hx0; subst hy0
      rw [cells_one _ _ _ _ _ _ e, if_pos (Or.inl h1), if_pos rfl, xi00_plain hW ha pcl _ h2 h3 h1 h2', h1, h2']
      ring
    · have e : a.ncls = 2 := by rw [hn']; unfold CouplingSpec.ncls; rw [if_pos h1, if_neg h2']
      rw [e] at hx hy
      rw [cells_two _ _ _ _ _ _ _ _ e hx hy, if_pos (Or.inl h1), p1, p2, p3, p4, hf]
      by_cases hxy : x = y
      · rw [if_pos hxy, if_pos hxy, ite_self, xi0s_plain hW ha pcl _ h2 h3 a.spin2 h2' (Or.inl ⟨h1, rfl⟩), h1]
        ring
      · rw [if_neg hxy, if_neg hxy, mul_zero]
  · by_cases h2' : a.spin2 = 0
    · have e : a.ncls = 2 := by rw [hn']; unfold CouplingSpec.ncls; rw [if_neg h1, if_pos h2']
      rw [e] at hx hy
      rw [cells_two _ _ _ _ _ _ _ _ e hx hy, if_pos (Or.inr h2'), p1, p2, p3, p4, hf]
      by_cases hxy : x = y
      · rw [if_pos hxy, if_pos hxy, ite_self, xi0s_plain hW ha pcl _ h2 h3 a.spin1 h1 (Or.inr ⟨rfl, h2'⟩), h2',
          coupling_swap W 0 a.spin1]
        ring
      · rw [if_neg hxy, if_neg hxy, mul_zero]
    · have e : a.ncls = 4 := by rw [hn']; unfold CouplingSpec.ncls; rw [if_neg h1, if_neg h2']
      rw [e] at hx hy
      rw [cells_four _ _ _ _ _ _ _ _ e hx hy, if_neg (show ¬ (a.spin1 = 0 ∨ a.spin2 = 0) by omega), p1, p2, p3, p4, hf, ite_self, ite_self]
      simp only
      rw [xipp_plain hW ha pcl _ h2 h3 h1 h2', ximm_plain hW ha pcl _ h2 h3 h1 h2']
      ring

/-- **C17** (symmetry). Divided by `2 l' + 1`, the matrix does not change when the multipoles are exchanged. -/
theorem C17_symmetric {W : Wigner} (hW : Symmetric W) {a : CouplingArgs} (ha : a.Plain) {lmaxFields : ℕ}
    {pcl beam1 beam2 : List ℝ} {B : Bins ℝ} {nt : ℤ} {w2 : ℝ} {w : Wsp ℝ}
    (h : compCouplingMatrix W a lmaxFields pcl beam1 beam2 B nt w2 = .ok w) :
    ∃ U, w.unbinned = some U ∧ ∀ l l' x y, l ≤ B.ellMax → l' ≤ B.ellMax → x < w.ncls → y < w.ncls →
      U (w.ncls * l + x) (w.ncls * l' + y) / (2 * l' + 1) = U (w.ncls * l' + x) (w.ncls * l + y) / (2 * l + 1) := by
  obtain ⟨-, U, hU, hv⟩ := C17_formula hW ha h
  refine ⟨U, hU, fun l l' x y hl hl' hx hy => ?_⟩
  rw [hv l l' x y hl hl' hx hy, hv l' l x y hl' hl hx hy]
  unfold CouplingSpec.matrix
  rw [coupling_comm hW _ _ _ _ (fun _ => True) l l', coupling_comm hW _ _ _ _ Even l l',
    coupling_comm hW _ _ _ _ Odd l l']
  have p1 : (2 * (l : ℝ) + 1) ≠ 0 := by positivity
  have p2 : (2 * (l' : ℝ) + 1) ≠ 0 := by positivity
  rw [div_eq_div_iff p2 p1]
  ring

/-- **C17** (mask with only a monopole, such as the full sky). The matrix is a multiple of the identity at
and above the larger spin; the factor is one for the mask equal to one everywhere, whose spectrum has
monopole `4π`. -/
theorem C17_monopole {W : Wigner} (hW : Symmetric W) (hm : MonopoleValue W) {a : CouplingArgs} (ha : a.Plain)
    {lmaxFields : ℕ} {pcl beam1 beam2 : List ℝ} {B : Bins ℝ} {nt : ℤ} {w2 : ℝ} {w : Wsp ℝ}
    (h : compCouplingMatrix W a lmaxFields pcl beam1 beam2 B nt w2 = .ok w)
    (hp : ∀ l, l ≠ 0 → pcl.getD l 0 = 0) :
    ∃ U, w.unbinned = some U ∧ ∀ l l' x y, l ≤ B.ellMax → l' ≤ B.ellMax → x < w.ncls → y < w.ncls →
      max a.spin1 a.spin2 ≤ l →
      U (w.ncls * l + x) (w.ncls * l' + y) = if l = l' ∧ x = y then pcl.getD 0 0 / (4 * Real.pi) else 0 := by
  obtain ⟨-, U, hU, hv⟩ := C17_formula hW ha h
  refine ⟨U, hU, fun l l' x y hl hl' hx hy hmax => ?_⟩
  rw [hv l l' x y hl hl' hx hy]
  have hpi : Real.pi ≠ 0 := Real.pi_ne_zero
  have hc : ∀ (sel : ℕ → Prop) [DecidablePred sel],
      coupling W a.spin1 a.spin2 a.lmaxMask (fun l => pcl.getD l 0) sel l l' =
        if sel (l + l') ∧ l = l' then 1 / (4 * Real.pi) * pcl.getD 0 0 * ((-1) ^ (a.spin1 + a.spin2) / (2 * l + 1))
        else 0 := by
    intro sel _
    unfold coupling
    rw [Finset.sum_eq_single 0]
    · rw [zero_add]
      by_cases hsel : sel (l + l')
      · rw [if_pos hsel]
        by_cases hll : l = l'
        · subst hll
          rw [if_pos ⟨hsel, rfl⟩]
          have hs : ∀ s, s ≤ l → spin3j W s 0 l l = (-1) ^ (l + s) / Real.sqrt (2 * l + 1) := by
            intro s hs
            unfold spin3j
            by_cases h0 : s = 0
            · rw [if_pos h0, zero3j_monopole, h0, add_zero]
            · rw [if_neg h0, if_pos ⟨by unfold Triangle; omega, hs, hs⟩, hm l s hs]
          rw [hs _ (by omega), hs _ (by omega)]
          have hq : Real.sqrt (2 * l + 1) * Real.sqrt (2 * l + 1) = 2 * (l : ℝ) + 1 :=
            Real.mul_self_sqrt (by positivity)
          have hsign : ((-1 : ℝ)) ^ (l + a.spin1) * (-1) ^ (l + a.spin2) = (-1) ^ (a.spin1 + a.spin2) := by
            rw [← pow_add]
            have : l + a.spin1 + (l + a.spin2) = 2 * l + (a.spin1 + a.spin2) := by ring
            rw [this, pow_add, pow_mul]; norm_num
          obtain ⟨q, hq'⟩ : ∃ q, q = Real.sqrt (2 * (l : ℝ) + 1) := ⟨_, rfl⟩
          rw [← hq'] at hq ⊢
          rw [← hq, ← hsign]
          push_cast
          ring
        · rw [if_neg (fun h => hll h.2), spin3j_zero W (s := a.spin1) (l2 := l) (l3 := l')]
          · ring
          · unfold Triangle; omega
      · rw [if_neg hsel, if_neg (fun h => hsel h.1)]
    · intro l1 _ hl1
      simp only [hp l1 hl1]
      split <;> ring
    · intro h0; simp at h0
  have hT := hc (fun _ => True)
  have hE := hc Even
  have hO := hc Odd
  unfold CouplingSpec.matrix
  have hsq : ((-1 : ℝ)) ^ (a.spin1 + a.spin2) * (-1) ^ (a.spin1 + a.spin2) = 1 := by
    rw [← pow_add, ← two_mul, pow_mul]; norm_num
  have hpos : (2 * (l : ℝ) + 1) ≠ 0 := by positivity
  have hmain : (-1 : ℝ) ^ (a.spin1 + a.spin2) * (2 * (l : ℝ) + 1) *
      (1 / (4 * Real.pi) * pcl.getD 0 0 * ((-1) ^ (a.spin1 + a.spin2) / (2 * l + 1))) =
      pcl.getD 0 0 / (4 * Real.pi) := by
    have : (-1 : ℝ) ^ (a.spin1 + a.spin2) * (2 * (l : ℝ) + 1) *
      (1 / (4 * Real.pi) * pcl.getD 0 0 * ((-1) ^ (a.spin1 + a.spin2) / (2 * l + 1))) =
      ((-1 : ℝ) ^ (a.spin1 + a.spin2) * (-1) ^ (a.spin1 + a.spin2)) * (pcl.getD 0 0 / (4 * Real.pi)) *
        ((2 * (l : ℝ) + 1) / (2 * (l : ℝ) + 1)) := by ring
    rw [this, hsq, div_self hpos]; ring
  by_cases hll : l = l'
  · subst hll
    have hev : Even (l + l) := ⟨l, rfl⟩
    have hod : ¬ Odd (l + l) := Nat.not_odd_iff_even.2 hev
    rw [if_pos ⟨trivial, rfl⟩] at hT
    rw [if_pos ⟨hev, rfl⟩] at hE
    rw [if_neg (fun h => hod h.1)] at hO
    rw [hT, hE, hO]
    by_cases hxy : x = y
    · rw [if_pos hxy, if_pos hxy, ite_self, hmain, if_pos ⟨rfl, hxy⟩]
    · rw [if_neg hxy, if_neg hxy, if_neg (fun h : l = l ∧ x = y => hxy h.2)]
      simp
  · rw [if_neg (fun h => hll h.2)] at hT hE hO
    rw [hT, hE, hO, if_neg (fun h : l = l' ∧ x = y => hll h.1)]
    simp

end NaMaster
