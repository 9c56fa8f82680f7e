import Verif.Sky.Matrix
import Verif.Coupling.Props2

/-! # The coupling matrix of purified fields as a sum over kernels -/

namespace NaMaster

open Finset WignerSpec SkySpec CouplingSpec

/-- Whether component `X` is purified. -/
def isPure (pe pb : Bool) (X : ℕ) : Bool := if X = 0 then pe else pb

/-- The terms added by purification. -/
noncomputable def skyPureTerm (l L l' : ℕ) : ℝ :=
  flPure1 l * flMask1 L * sfac 1 (-1) 2 l L l' + flPure2 l * (flMask1 L * flMask2 L) * sfac 0 (-2) 2 l L l'

/-- The factor for one component. -/
noncomputable def hfac (s : ℕ) (pe pb : Bool) (X l L l' : ℕ) : ℝ :=
  sfac s 0 s l L l' + if isPure pe pb X then skyPureTerm l L l' else 0

/-- What the C library adds up for a purified component. -/
noncomputable def pureW (L l l' : ℕ) : ℝ :=
  wigAt racah L l l' 2 (-2) + fac12 L l * wigAt racah L l l' 1 (-2) + fac02 L l * wigAt racah L l l' 0 (-2)

theorem wigAt_racah (l1 l2 l3 : ℕ) (m2 m3 : ℤ) : wigAt racah l1 l2 l3 m2 m3 = wigner3j l1 l2 l3 (-m2 - m3) m2 m3 := by
  have hd : drcMin l2 l3 m2 m3 = lowestL1 l2 l3 m2 m3 := by unfold drcMin lowestL1 ldist; omega
  unfold wigAt drc3jj racah
  by_cases a : l1 < drcMin l2 l3 m2 m3
  · rw [if_pos a, wigner3j_not_allowed]
    rw [hd] at a
    unfold lowestL1 at a
    unfold Allowed
    simp only [abs_le]
    omega
  · rw [if_neg a]
    by_cases b : l2 < m2.natAbs ∨ l3 < m3.natAbs
    · rw [if_pos b, wigner3j_not_allowed]
      unfold Allowed
      simp only [abs_le]
      omega
    · rw [if_neg b, show drcMin l2 l3 m2 m3 + (l1 - drcMin l2 l3 m2 m3) = l1 by omega]

theorem fac12_eq (L l : ℕ) : fac12 L l = -(flPure1 l * flMask1 L) := by
  unfold fac12 flPure1 flMask1
  by_cases h : 1 < l
  · rw [if_pos h, if_neg (by omega)]
    have hl : (2 : ℝ) ≤ l := by exact_mod_cast h
    rw [Real.sqrt_div' _ (by nlinarith)]
    ring
  · rw [if_neg h, if_pos (by omega)]; ring

theorem fac02_eq (L l : ℕ) : fac02 L l = flPure2 l * (flMask1 L * flMask2 L) := by
  unfold fac02 flPure2 flMask1 flMask2
  by_cases h : 1 < l
  · rw [if_pos h, if_neg (show ¬ l < 2 by omega)]
    have hl : (2 : ℝ) ≤ l := by exact_mod_cast h
    by_cases h' : 1 < L
    · rw [if_pos h', if_neg (by omega)]
      have hL : (2 : ℝ) ≤ L := by exact_mod_cast h'
      have hd : (0 : ℝ) ≤ ((l : ℝ) + 2) * ((l : ℝ) + 1) * l * ((l : ℝ) - 1) := by
        apply mul_nonneg <;> [positivity; linarith]
      rw [Real.sqrt_div' _ hd, neg_mul_neg, ← Real.sqrt_mul (by positivity)]
      rw [show ((L : ℝ) + 2) * (L + 1) * L * (L - 1) = ((L : ℝ) + 1) * L * ((L + 2) * (L - 1)) by ring]
      ring
    · rw [if_neg h', if_pos (by omega)]; ring
  · rw [if_neg h, if_pos (by omega)]; ring

/-- The two factors agree up to a sign. -/
theorem hfac_pure (l L l' : ℕ) : sfac (2 : ℕ) 0 (2 : ℕ) l L l' + skyPureTerm l L l' = (-1) ^ (L + l + l') * pureW L l l' := by
  unfold skyPureTerm pureW sfac
  rw [wigAt_racah, wigAt_racah, wigAt_racah, fac12_eq, fac02_eq, wigner3j_first L l l', wigner3j_first L l l', wigner3j_first L l l']
  norm_num
  ring

theorem hfac_eq {s : ℕ} {pe pb : Bool} (hp : pe ∨ pb → s = 2) (X l L l' : ℕ) :
    hfac s pe pb X l L l' = (-1) ^ s * ((-1) ^ (L + l + l') * (if isPure pe pb X then pureW L l l' else spin3j racah s L l l')) := by
  unfold hfac
  by_cases h : isPure pe pb X
  · have h2 : s = 2 := by
      apply hp
      unfold isPure at h
      by_cases hX : X = 0
      · rw [if_pos hX] at h; exact Or.inl h
      · rw [if_neg hX] at h; exact Or.inr h
    subst h2
    rw [if_pos h, if_pos h, hfac_pure]
    norm_num
  · rw [if_neg h, if_neg h, add_zero, sfac_spin3j]

theorem hfac_triangle (s : ℕ) (pe pb : Bool) (X : ℕ) {l L l' : ℕ} (h : ¬ Triangle L l l') : hfac s pe pb X l L l' = 0 := by
  unfold hfac skyPureTerm
  rw [sfac_triangle h, sfac_triangle h, sfac_triangle h]
  simp

theorem pureW_below {l l' : ℕ} (h : l < 2 ∨ l' < 2) (L : ℕ) : pureW L l l' = 0 :=
  wPure_below racah ⟨0, 0, 2, 0, false, false⟩ rfl h L

theorem hfac_below {s : ℕ} {pe pb : Bool} (hp : pe ∨ pb → s = 2) (X : ℕ) {l l' : ℕ} (h : l < s ∨ l' < s) (L : ℕ) :
    hfac s pe pb X l L l' = 0 := by
  rw [hfac_eq hp]
  by_cases hq : isPure pe pb X
  · have h2 : s = 2 := by
      apply hp
      unfold isPure at hq
      by_cases hX : X = 0
      · rw [if_pos hX] at hq; exact Or.inl hq
      · rw [if_neg hX] at hq; exact Or.inr hq
    rw [if_pos hq, pureW_below (by rw [← h2]; exact h)]
    ring
  · rw [if_neg hq]
    have : spin3j racah s L l l' = 0 := by
      unfold spin3j
      rw [if_neg (by omega), if_neg (by omega)]
    rw [this]
    ring

/-- `mixR` for components that do not mix. -/
theorem mixR_same (X Y n : ℕ) : mixR X Y X Y n = if Even n then 1 else 0 := by
  unfold mixR; rw [if_pos ⟨rfl, rfl⟩]

theorem kernel_sum_congr {h1 h2 : ℕ → ℕ → ℕ → ℕ → ℝ} {Nw : ℕ} {pcl g : ℕ → ℝ} {l X Y l' X' Y' : ℕ}
    (h : ∀ L ≤ Nw, (2 * L + 1) / (4 * Real.pi) * pcl L * h1 X l L l' * h2 Y l L l' * mixR X Y X' Y' (l + L + l') = g L) :
    kernelMatrix h1 h2 Nw pcl l X Y l' X' Y' = (2 * l' + 1) * ∑ L ∈ range (Nw + 1), g L := by
  unfold kernelMatrix
  congr 1
  apply sum_congr rfl; intro L hL
  rw [mem_range] at hL
  exact h L (by omega)

theorem pow_odd_ite (n : ℕ) : (if Odd n then (-1 : ℝ) else 1) = (-1) ^ n := by
  by_cases h : Odd n
  · rw [if_pos h, h.neg_one_pow]
  · rw [if_neg h, (Nat.not_odd_iff_even.mp h).neg_one_pow]

/-- The value that stands for a component in the sums of the library. -/
noncomputable def gW (s : ℕ) (p : Bool) (L l l' : ℕ) : ℝ := if p then pureW L l l' else spin3j racah s L l l'

theorem gW_triangle (s : ℕ) (p : Bool) {L l l' : ℕ} (h : ¬ Triangle L l l') : gW s p L l l' = 0 := by
  unfold gW
  split
  · have := hfac_triangle 2 true true 0 h
    rw [hfac_eq (fun _ => rfl)] at this
    unfold isPure at this
    simpa using this
  · exact spin3j_zero racah h

theorem kernel_hfac {s1 s2 : ℕ} {pe1 pb1 pe2 pb2 : Bool} (hp1 : pe1 ∨ pb1 → s1 = 2) (hp2 : pe2 ∨ pb2 → s2 = 2) (Nw : ℕ) (pcl : ℕ → ℝ)
    (l X Y l' X' Y' : ℕ) :
    kernelMatrix (hfac s1 pe1 pb1) (hfac s2 pe2 pb2) Nw pcl l X Y l' X' Y' = (2 * l' + 1) * ((-1) ^ (s1 + s2) *
      ∑ L ∈ range (Nw + 1), (2 * L + 1) / (4 * Real.pi) * pcl L * (gW s1 (isPure pe1 pb1 X) L l l' * gW s2 (isPure pe2 pb2 Y) L l l') *
        mixR X Y X' Y' (L + l + l')) := by
  unfold kernelMatrix
  congr 1
  rw [mul_sum]
  apply sum_congr rfl; intro L _
  rw [hfac_eq hp1, hfac_eq hp2, show l + L + l' = L + l + l' by ring, pow_add]
  unfold gW
  linear_combination (2 * (L : ℝ) + 1) / (4 * Real.pi) * pcl L * (-1) ^ s1 *
    (if isPure pe1 pb1 X then pureW L l l' else spin3j racah s1 L l l') * (-1) ^ s2 *
    (if isPure pe2 pb2 Y then pureW L l l' else spin3j racah s2 L l l') * mixR X Y X' Y' (L + l + l') * sign_mul_self (L + l + l')

section entries
variable {c : Calc} {M : ℕ} {pcl : List ℝ} {l2 l3 : ℕ}

theorem wPure_eq (hs : c.s1 = 2) (l1 : ℕ) : wPure racah c l1 l2 l3 = pureW l1 l2 l3 := by
  unfold wPure pureW wss1
  rw [hs]
  rfl

theorem wfac_gW (hs : c.s1 ≠ 0) {p1 p2 : Bool} (h1 : p1 → c.s1 = 2) (h2 : p2 → c.s1 = 2 ∧ c.sTwo = 2) {l1 : ℕ} (ht : Triangle l1 l2 l3) (q : ℕ → ℝ) :
    wfacSs racah c q (flag p1 + flag p2) l1 l2 l3 = q l1 * (gW c.s1 p1 l1 l2 l3 * gW c.sTwo p2 l1 l2 l3) := by
  have hle := (triangle_iff.1 ht).2
  have e1 : wss1 racah c l1 l2 l3 = spin3j racah c.s1 l1 l2 l3 := by
    unfold wss1; rw [wigAt_spin _ _ _ _ _ hs hle]
  unfold wfacSs
  rw [wss2_eq racah c hs hle, e1]
  cases p1 <;> cases p2
  · simp [flag, gW]; ring
  · obtain ⟨a, b⟩ := h2 rfl
    rw [wPure_eq a, a, b]
    simp [flag, gW]; ring
  · rw [wPure_eq (h1 rfl)]
    simp [flag, gW]; ring
  · rw [wPure_eq (h1 rfl)]
    simp [flag, gW]; ring

theorem entryPP_gW (hs : c.s1 ≠ 0) (hM : c.lmaxMask = M) {p1 p2 : Bool} (h1 : p1 → c.s1 = 2) (h2 : p2 → c.s1 = 2 ∧ c.sTwo = 2) :
    entryPP racah c (usedPcl M pcl) (flag p1 + flag p2) l2 l3 = ∑ L ∈ range (M + 1), (2 * L + 1) / (4 * Real.pi) * pcl.getD L 0 *
      (gW c.s1 p1 L l2 l3 * gW c.sTwo p2 L l2 l3) * if Even (L + l2 + l3) then 1 else 0 := by
  unfold entryPP
  rw [hM]
  apply sumMask_eq
  · intro L ht
    rw [gW_triangle _ _ ht]; ring
  · intro L hL ht
    by_cases ho : Odd (L + l2 + l3)
    · rw [if_pos ho, if_neg (Nat.not_even_iff_odd.2 ho), mul_zero]
    · rw [if_neg ho, if_pos (Nat.not_odd_iff_even.1 ho), wfac_gW hs h1 h2 ht, usedPcl_apply _ hL]
      ring

theorem entryMM_gW (hs : c.s1 ≠ 0) (hM : c.lmaxMask = M) {p1 p2 : Bool} (h1 : p1 → c.s1 = 2) (h2 : p2 → c.s1 = 2 ∧ c.sTwo = 2) :
    entryMM racah c (usedPcl M pcl) (flag p1 + flag p2) l2 l3 = ∑ L ∈ range (M + 1), (2 * L + 1) / (4 * Real.pi) * pcl.getD L 0 *
      (gW c.s1 p1 L l2 l3 * gW c.sTwo p2 L l2 l3) * if Even (L + l2 + l3) then 0 else 1 := by
  unfold entryMM
  rw [hM]
  apply sumMask_eq
  · intro L ht
    rw [gW_triangle _ _ ht]; ring
  · intro L hL ht
    by_cases ho : Odd (L + l2 + l3)
    · rw [if_pos ho, if_neg (Nat.not_even_iff_odd.2 ho), wfac_gW hs h1 h2 ht, usedPcl_apply _ hL]
      ring
    · rw [if_neg ho, if_pos (Nat.not_odd_iff_even.1 ho), mul_zero]

theorem entry0s_gW {junk : ℕ → ℝ} {lmax : ℕ} (hs : c.s1 ≠ 0) (hM : c.lmaxMask = M) {p : Bool} (h1 : p → c.s1 = 2) (h2 : l2 ≤ lmax) (h3 : l3 ≤ lmax) :
    entry0s racah (lfac junk lmax M) c (usedPcl M pcl) (flag p) l2 l3 = ∑ L ∈ range (M + 1), (2 * L + 1) / (4 * Real.pi) * pcl.getD L 0 *
      (gW c.s1 p L l2 l3 * gW 0 false L l2 l3) * if Even (L + l2 + l3) then 1 else 0 := by
  unfold entry0s
  rw [hM]
  apply sumMask_eq
  · intro L ht
    rw [gW_triangle _ _ ht]; ring
  · intro L hL ht
    have hle := (triangle_iff.1 ht).2
    have e1 : wss1 racah c L l2 l3 = spin3j racah c.s1 L l2 l3 := by
      unfold wss1; rw [wigAt_spin _ _ _ _ _ hs hle]
    have e0 : gW 0 false L l2 l3 = zero3j L l2 l3 := by
      unfold gW spin3j
      rw [if_neg (by decide), if_pos rfl]
    have ez : (if Even (L + l2 + l3) then (1 : ℝ) else 0) * zero3j L l2 l3 = zero3j L l2 l3 := by
      by_cases he : Even (L + l2 + l3)
      · rw [if_pos he, one_mul]
      · rw [if_neg he, zero_mul]
        unfold zero3j
        rw [if_neg (by tauto)]
    rw [usedPcl_apply _ hL, drc000_eq _ _ _ _ _ _ ht (by unfold lfacSize; omega), e0]
    have e2 : (if flag p = 0 then wss1 racah c L l2 l3 else wPure racah c L l2 l3) = gW c.s1 p L l2 l3 := by
      cases p
      · simp [flag, gW, e1]
      · simp [flag, gW, wPure_eq (h1 rfl)]
    rw [e2]
    linear_combination -(gW c.s1 p L l2 l3) * ((2 * (L : ℝ) + 1) / (4 * Real.pi)) * pcl.getD L 0 * ez

end entries

/-- Arguments for which the library computes the matrix of the purified fields: purified fields have spin 2, and if the second one is
purified, the first has spin 0 or 2. -/
structure CouplingArgs.PurePair (a : CouplingArgs) : Prop where
  teb : a.teb = false
  pure1 : a.pe1 ∨ a.pb1 → a.spin1 = 2
  pure2 : a.pe2 ∨ a.pb2 → a.spin2 = 2
  other : a.pe2 ∨ a.pb2 → a.spin1 = 0 ∨ a.spin1 = 2
  toeplitz : a.lT ≤ 0

theorem isPure_or {pe pb : Bool} {X : ℕ} (h : isPure pe pb X) : pe ∨ pb := by
  unfold isPure at h
  by_cases hX : X = 0
  · rw [if_pos hX] at h; exact Or.inl h
  · rw [if_neg hX] at h; exact Or.inr h

theorem sum_neg_if {M : ℕ} (g : ℕ → ℝ) {c d : ℕ → ℝ} (s : ℝ) (h : ∀ L, d L = s * c L) :
    ∑ L ∈ range M, g L * d L = s * ∑ L ∈ range M, g L * c L := by
  rw [mul_sum]
  apply sum_congr rfl; intro L _
  rw [h]; ring

/-- The matrix of the library with purification. -/
theorem matrix_pure {a : CouplingArgs} (ha : a.PurePair) (hp : a.pureAny = true) {lmaxFields : ℕ} {pcl beam1 beam2 : List ℝ} {B : Bins ℝ}
    {nt : ℤ} {w2 : ℝ} {w : Wsp ℝ} (h : compCouplingMatrix racah a lmaxFields pcl beam1 beam2 B nt w2 = .ok w) :
    w.ncls = ncomp a.spin1 * ncomp a.spin2 ∧
    ∃ U, w.unbinned = some U ∧ ∀ l l' X Y X' Y', l ≤ B.ellMax → l' ≤ B.ellMax → X < ncomp a.spin1 → Y < ncomp a.spin2 →
      X' < ncomp a.spin1 → Y' < ncomp a.spin2 →
      U (w.ncls * l + (ncomp a.spin2 * X + Y)) (w.ncls * l' + (ncomp a.spin2 * X' + Y')) =
        kernelMatrix (hfac a.spin1 a.pe1 a.pb1) (hfac a.spin2 a.pe2 a.pb2) a.lmaxMask (fun l => pcl.getD l 0) l X Y l' X' Y' := by
  obtain ⟨-, hn, -, U, hU, hv⟩ := comp_ok h
  have hncls : a.ncls = ncomp a.spin1 * ncomp a.spin2 := by
    unfold CouplingArgs.ncls ncomp
    rw [ha.teb]
    by_cases h1 : a.spin1 = 0 <;> by_cases h2 : a.spin2 = 0 <;> simp [h1, h2]
  refine ⟨hn.trans hncls, U, hU, ?_⟩
  intro l l' X Y X' Y' hl hl' hX hY hX' hY'
  have hx : ncomp a.spin2 * X + Y < a.ncls := by
    rw [hncls]
    calc ncomp a.spin2 * X + Y < ncomp a.spin2 * X + ncomp a.spin2 := by omega
      _ = ncomp a.spin2 * (X + 1) := by ring
      _ ≤ ncomp a.spin2 * ncomp a.spin1 := Nat.mul_le_mul_left _ hX
      _ = _ := by ring
  have hy : ncomp a.spin2 * X' + Y' < a.ncls := by
    rw [hncls]
    calc ncomp a.spin2 * X' + Y' < ncomp a.spin2 * X' + ncomp a.spin2 := by omega
      _ = ncomp a.spin2 * (X' + 1) := by ring
      _ ≤ ncomp a.spin2 * ncomp a.spin1 := Nat.mul_le_mul_left _ hX'
      _ = _ := by ring
  rw [hn, hv l l' _ _ hl hl' hx hy]
  have hst := lstart_plain ha.teb B.ellMax
  have htab : ∀ entry : ℕ → ℕ → ℝ, coefTable (a.calc B.ellMax).lstart B.ellMax a.pureAny a.lT a.lE a.dl entry (l, l') =
      if max a.spin1 a.spin2 ≤ l ∧ max a.spin1 a.spin2 ≤ l' then entry l l' else 0 := by
    intro entry
    rw [coefTable_plain _ _ _ _ _ _ _ ha.toeplitz hl hl', hst, hp]
    simp
  -- below the spins
  by_cases hlow : max a.spin1 a.spin2 ≤ l ∧ max a.spin1 a.spin2 ≤ l'
  swap
  · have hz : kernelMatrix (hfac a.spin1 a.pe1 a.pb1) (hfac a.spin2 a.pe2 a.pb2) a.lmaxMask (fun l => pcl.getD l 0) l X Y l' X' Y' = 0 := by
      unfold kernelMatrix
      rw [sum_eq_zero, mul_zero]
      intro L _
      rcases (show (l < a.spin1 ∨ l' < a.spin1) ∨ (l < a.spin2 ∨ l' < a.spin2) by omega) with c | c
      · rw [hfac_below ha.pure1 X c]; ring
      · rw [hfac_below ha.pure2 Y c]; ring
    rw [hz]
    have hx0 : ∀ entry, coefTable (a.calc B.ellMax).lstart B.ellMax a.pureAny a.lT a.lE a.dl entry (l, l') = 0 := by
      intro entry; rw [htab, if_neg hlow]
    rcases ncls_cases a with hc | hc | hc | hc
    · rw [hc] at hx hy
      rw [show ncomp a.spin2 * X + Y = 0 by omega, show ncomp a.spin2 * X' + Y' = 0 by omega, cells_one _ _ _ _ _ _ hc]
      unfold CouplingArgs.xi; simp only [hx0, mul_zero]
    · rw [hc] at hx hy
      rw [cells_two _ _ _ _ _ _ _ _ hc hx hy]
      unfold CouplingArgs.xi; simp only [hx0, mul_zero, ite_self]
    · rw [hc] at hx hy
      rw [cells_four _ _ _ _ _ _ _ _ hc hx hy]
      unfold CouplingArgs.xi; simp only [hx0, neg_zero, ite_self, mul_zero]
    · exfalso
      rw [hncls] at hc
      unfold ncomp at hc
      split at hc <;> split at hc <;> omega
  have hM := calc_lmaxMask a B.ellMax
  rw [kernel_hfac ha.pure1 ha.pure2]
  have hpp : a.spin1 ≠ 0 ∨ a.spin2 ≠ 0 := by
    by_contra hc
    push Not at hc
    unfold CouplingArgs.pureAny at hp
    simp only [Bool.or_eq_true] at hp
    rcases hp with ((c | c) | c) | c
    · have := ha.pure1 (Or.inl c); omega
    · have := ha.pure1 (Or.inr c); omega
    · have := ha.pure2 (Or.inl c); omega
    · have := ha.pure2 (Or.inr c); omega
  by_cases h1 : a.spin1 = 0
  · -- spin 0 and a purified field
    have h2 : a.spin2 ≠ 0 := by tauto
    have hc : a.ncls = 2 := by rw [hncls]; unfold ncomp; rw [if_pos h1, if_neg h2]
    have hs1 : (a.calc B.ellMax).s1 = a.spin2 := by rw [calc_s1, if_pos h1]
    have hf1 : a.pe1 = false ∧ a.pb1 = false := by
      constructor
      · by_contra hne
        have := ha.pure1 (Or.inl (by simpa using hne)); omega
      · by_contra hne
        have := ha.pure1 (Or.inr (by simpa using hne)); omega
    unfold ncomp at hX hX' hY hY' hx hy ⊢
    rw [if_pos h1] at hX hX'
    rw [if_neg h2] at hY hY' ⊢
    obtain rfl : X = 0 := by omega
    obtain rfl : X' = 0 := by omega
    rw [cells_two _ _ _ _ _ _ _ _ hc (by omega) (by omega), pow_odd_ite, hf1.1, hf1.2]
    have hip : (if 2 * 0 + Y = 0 then flag false + flag a.pe2 else flag false + flag a.pb2) = flag (isPure a.pe2 a.pb2 Y) := by
      unfold isPure
      by_cases hy0 : Y = 0
      · simp [hy0, flag]
      · simp [hy0, flag]
    by_cases hYY : Y = Y'
    · subst hYY
      rw [if_pos rfl, hip]
      unfold CouplingArgs.xi
      dsimp only
      rw [htab, if_pos hlow, entry0s_gW (by rw [hs1]; exact h2) hM (fun q => by rw [hs1]; exact ha.pure2 (isPure_or q)) hl hl', hs1, h1, mul_assoc]
      congr 2
      apply sum_congr rfl; intro L _
      rw [mixR_same]
      have : isPure false false 0 = false := rfl
      rw [this]
      ring
    · rw [if_neg (by omega), sum_eq_zero, mul_zero, mul_zero]
      intro L _
      unfold mixR
      rw [if_neg (by tauto), if_neg (by tauto), mul_zero]
  · by_cases h2 : a.spin2 = 0
    · have hc : a.ncls = 2 := by rw [hncls]; unfold ncomp; rw [if_neg h1, if_pos h2]
      have hs1 : (a.calc B.ellMax).s1 = a.spin1 := by rw [calc_s1, if_neg h1]
      have hf2 : a.pe2 = false ∧ a.pb2 = false := by
        constructor
        · by_contra hne
          have := ha.pure2 (Or.inl (by simpa using hne)); omega
        · by_contra hne
          have := ha.pure2 (Or.inr (by simpa using hne)); omega
      unfold ncomp at hX hX' hY hY' hx hy ⊢
      rw [if_neg h1] at hX hX'
      rw [if_pos h2] at hY hY' ⊢
      obtain rfl : Y = 0 := by omega
      obtain rfl : Y' = 0 := by omega
      rw [cells_two _ _ _ _ _ _ _ _ hc (by omega) (by omega), pow_odd_ite, hf2.1, hf2.2]
      have hip : (if 1 * X + 0 = 0 then flag a.pe1 + flag false else flag a.pb1 + flag false) = flag (isPure a.pe1 a.pb1 X) := by
        unfold isPure
        by_cases hy0 : X = 0
        · simp [hy0, flag]
        · simp [hy0, flag]
      by_cases hXX : X = X'
      · subst hXX
        rw [if_pos rfl, hip]
        unfold CouplingArgs.xi
        dsimp only
        rw [htab, if_pos hlow, entry0s_gW (by rw [hs1]; exact h1) hM (fun q => by rw [hs1]; exact ha.pure1 (isPure_or q)) hl hl', hs1, h2, mul_assoc]
        congr 2
        apply sum_congr rfl; intro L _
        rw [mixR_same]
        have : isPure false false 0 = false := rfl
        rw [this]
      · rw [if_neg (by omega), sum_eq_zero, mul_zero, mul_zero]
        intro L _
        unfold mixR
        rw [if_neg (by tauto), if_neg (by tauto), mul_zero]
    · have hc : a.ncls = 4 := by rw [hncls]; unfold ncomp; rw [if_neg h1, if_neg h2]
      have hs1 : (a.calc B.ellMax).s1 = a.spin1 := by rw [calc_s1, if_neg h1]
      have hs2 : (a.calc B.ellMax).sTwo = a.spin2 := calc_sTwo ha.teb h1 h2 B.ellMax
      unfold ncomp at hX hX' hY hY' hx hy ⊢
      rw [if_neg h1] at hX hX'
      rw [if_neg h2] at hY hY' hx hy ⊢
      have q1 : isPure a.pe1 a.pb1 X = true → (a.calc B.ellMax).s1 = 2 := fun q => by rw [hs1]; exact ha.pure1 (isPure_or q)
      have q2 : isPure a.pe2 a.pb2 Y = true → (a.calc B.ellMax).s1 = 2 ∧ (a.calc B.ellMax).sTwo = 2 := fun q => by
        rw [hs1, hs2]
        exact ⟨(ha.other (isPure_or q)).resolve_left h1, ha.pure2 (isPure_or q)⟩
      rw [cells_four _ _ _ _ _ _ _ _ hc (by omega) (by omega), pow_odd_ite]
      have hip : (if 2 * X + Y < 2 then flag a.pe1 else flag a.pb1) + (if (2 * X + Y) % 2 = 0 then flag a.pe2 else flag a.pb2) =
          flag (isPure a.pe1 a.pb1 X) + flag (isPure a.pe2 a.pb2 Y) := by
        unfold isPure
        obtain rfl | rfl : X = 0 ∨ X = 1 := by omega
        · obtain rfl | rfl : Y = 0 ∨ Y = 1 := by omega
          all_goals simp
        · obtain rfl | rfl : Y = 0 ∨ Y = 1 := by omega
          all_goals simp
      rw [hip, mul_assoc]
      unfold CouplingArgs.xi
      dsimp only
      rw [htab, htab, if_pos hlow, if_pos hlow, entryPP_gW (by rw [hs1]; exact h1) hM q1 q2, entryMM_gW (by rw [hs1]; exact h1) hM q1 q2, hs1, hs2]
      congr 2
      by_cases c1 : X = X' <;> by_cases c2 : Y = Y'
      · subst c1 c2
        rw [if_pos rfl]
        apply sum_congr rfl; intro L _
        rw [mixR_same]
      · rw [if_neg (by omega), if_neg (by simp only [Prod.mk.injEq]; omega), if_neg (by simp only [Prod.mk.injEq]; omega), sum_eq_zero]
        intro L _
        unfold mixR
        rw [if_neg (by tauto), if_neg (by tauto), mul_zero]
      · rw [if_neg (by omega), if_neg (by simp only [Prod.mk.injEq]; omega), if_neg (by simp only [Prod.mk.injEq]; omega), sum_eq_zero]
        intro L _
        unfold mixR
        rw [if_neg (by tauto), if_neg (by tauto), mul_zero]
      · rw [if_neg (show ¬ 2 * X + Y = 2 * X' + Y' by omega)]
        have hm : ∀ n, mixR X Y X' Y' n = (if X = Y then 1 else -1) * if Even n then 0 else 1 := by
          intro n
          unfold mixR
          rw [if_neg (by tauto), if_pos ⟨c1, c2⟩]
          by_cases he : Even n
          · rw [if_pos he, if_pos he, mul_zero]
          · rw [if_neg he, if_neg he, mul_one]
        by_cases c : X = Y
        · rw [if_pos (by simp only [Prod.mk.injEq]; omega)]
          apply sum_congr rfl; intro L _
          rw [hm, if_pos c, one_mul]
        · rw [if_neg (by simp only [Prod.mk.injEq]; omega), if_pos (by simp only [Prod.mk.injEq]; omega), ← sum_neg_distrib]
          apply sum_congr rfl; intro L _
          rw [hm, if_neg c]
          ring

/-- The matrix of the library with or without purification. -/
theorem matrix_kernel {a : CouplingArgs} (ha : a.PurePair) {lmaxFields : ℕ} {pcl beam1 beam2 : List ℝ} {B : Bins ℝ}
    {nt : ℤ} {w2 : ℝ} {w : Wsp ℝ} (h : compCouplingMatrix racah a lmaxFields pcl beam1 beam2 B nt w2 = .ok w) :
    w.ncls = ncomp a.spin1 * ncomp a.spin2 ∧
    ∃ U, w.unbinned = some U ∧ ∀ l l' X Y X' Y', l ≤ B.ellMax → l' ≤ B.ellMax → X < ncomp a.spin1 → Y < ncomp a.spin2 →
      X' < ncomp a.spin1 → Y' < ncomp a.spin2 →
      U (w.ncls * l + (ncomp a.spin2 * X + Y)) (w.ncls * l' + (ncomp a.spin2 * X' + Y')) =
        kernelMatrix (hfac a.spin1 a.pe1 a.pb1) (hfac a.spin2 a.pe2 a.pb2) a.lmaxMask (fun l => pcl.getD l 0) l X Y l' X' Y' := by
  by_cases hp : a.pureAny = true
  · exact matrix_pure ha hp h
  have hf : ((a.pe1 = false ∧ a.pb1 = false) ∧ a.pe2 = false) ∧ a.pb2 = false := by
    unfold CouplingArgs.pureAny at hp
    simpa using hp
  obtain ⟨⟨⟨f1, f2⟩, f3⟩, f4⟩ := hf
  obtain ⟨hn, U, hU, hv⟩ := C76_matrix (a := a) ⟨f1, f2, f3, f4, ha.teb, ha.toeplitz⟩ h
  have hncls : w.ncls = ncomp a.spin1 * ncomp a.spin2 := by
    rw [hn]
    unfold CouplingSpec.ncls ncomp
    by_cases h1 : a.spin1 = 0 <;> by_cases h2 : a.spin2 = 0 <;> simp [h1, h2]
  refine ⟨hncls, U, hU, ?_⟩
  intro l l' X Y X' Y' hl hl' hX hY hX' hY'
  have hb : ∀ X Y, X < ncomp a.spin1 → Y < ncomp a.spin2 → ncomp a.spin2 * X + Y < w.ncls := by
    intro X Y hX hY
    rw [hncls]
    calc ncomp a.spin2 * X + Y < ncomp a.spin2 * X + ncomp a.spin2 := by omega
      _ = ncomp a.spin2 * (X + 1) := by ring
      _ ≤ ncomp a.spin2 * ncomp a.spin1 := Nat.mul_le_mul_left _ hX
      _ = _ := by ring
  rw [hv l l' _ _ hl hl' (hb X Y hX hY) (hb X' Y' hX' hY'), f1, f2, f3, f4, ← kernel_plain _ _ _ _ _ _ hX hY hX' hY']
  have : ∀ s, hfac s false false = fun _ => sfac s 0 s := by
    intro s
    funext X l L l'
    unfold hfac isPure
    simp
  rw [this, this]

end NaMaster
