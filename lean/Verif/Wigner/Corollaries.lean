import Verif.Wigner.Props
import Verif.Wigner.ZeroRow
import Verif.Coupling.Props5
import Verif.Covar.InitExample
import Verif.Covar.SignProps

/-!
# C76: what is assumed of the symbols elsewhere holds
-/

namespace NaMaster

open WignerSpec CouplingSpec

/-- The Wigner 3j symbols by Racah's formula, in the form in which other modules take them. -/
noncomputable def racah : Wigner := ⟨fun l1 l2 l3 m2 m3 => wigner3j l1 l2 l3 (-m2 - m3) m2 m3⟩

theorem invFact_values : invFact 0 = 1 ∧ invFact 1 = 1 ∧ invFact 2 = 1 / 2 ∧ invFact 3 = 1 / 6 ∧ invFact 4 = 1 / 24 := by
  refine ⟨?_, ?_, ?_, ?_, ?_⟩ <;> (unfold invFact; rw [if_neg (by norm_num)]) <;>
    [rw [show fact 0 = 1 from rfl]; rw [show fact 1 = 1 from rfl]; rw [show fact 2 = 2 from rfl]; rw [show fact 3 = 6 from rfl];
     rw [show fact 4 = 24 from rfl]] <;> norm_num

theorem racah_222 : racah.w 2 2 2 1 (-1) = 1 / Real.sqrt 70 ∧ racah.w 2 2 2 2 (-2) = 2 / Real.sqrt 70 ∧
    racah.w 2 2 2 1 (-2) = -Real.sqrt 6 / Real.sqrt 70 ∧ racah.w 2 2 2 0 (-2) = 2 / Real.sqrt 70 := by
  obtain ⟨i0, i1, i2, i3, i4⟩ := invFact_values
  have n1 : invFact (-1) = 0 := invFact_neg (by norm_num)
  have n2 : invFact (-2) = 0 := invFact_neg (by norm_num)
  have h630 : Real.sqrt (8 / 5040) = 1 / (3 * Real.sqrt 70) := by
    rw [show (8 : ℝ) / 5040 = 1 / (3 ^ 2 * 70) by norm_num, Real.sqrt_div (by norm_num), Real.sqrt_mul (by norm_num),
      Real.sqrt_sq (by norm_num), Real.sqrt_one]
  have h144 : Real.sqrt 144 = 12 := by rw [show (144 : ℝ) = 12 ^ 2 by norm_num, Real.sqrt_sq (by norm_num)]
  have h864 : Real.sqrt 864 = 12 * Real.sqrt 6 := by
    rw [show (864 : ℝ) = 12 ^ 2 * 6 by norm_num, Real.sqrt_mul (by norm_num), Real.sqrt_sq (by norm_num)]
  have h2304 : Real.sqrt 2304 = 48 := by rw [show (2304 : ℝ) = 48 ^ 2 by norm_num, Real.sqrt_sq (by norm_num)]
  have h70 : 0 < Real.sqrt 70 := Real.sqrt_pos.mpr (by norm_num)
  unfold racah wigner3j
  refine ⟨?_, ?_, ?_, ?_⟩ <;> dsimp only <;> rw [if_pos (by unfold Allowed; norm_num)]
  all_goals
    norm_num only [Finset.sum_range_succ, Finset.sum_range_zero, Nat.cast_ofNat]
  all_goals
    norm_num [show fact 0 = 1 from rfl, show fact 1 = 1 from rfl, show fact 2 = 2 from rfl, show fact 3 = 6 from rfl, show fact 4 = 24 from rfl, show fact 7 = 5040 from rfl,
      i0, i1, i2, i3, i4, n1, n2, h630, h144, h864, h2304]
  all_goals
    rw [show Real.sqrt 630 = 3 * Real.sqrt 70 by
      rw [show (630 : ℝ) = 3 ^ 2 * 70 by norm_num, Real.sqrt_mul (by norm_num), Real.sqrt_sq (by norm_num)]]
    field_simp
  all_goals norm_num

theorem racah_top {l1 l2 l3 : ℕ} {m2 m3 : ℤ} (h : l1 = l2 + l3) (h2 : |m2| ≤ l2) (h3 : |m3| ≤ l3) : racah.w l1 l2 l3 m2 m3 ≠ 0 := by
  subst h
  intro h0
  have := top_sq_lower l2 l3 m2 m3 h2 h3
  unfold wcol at this
  change wigner3j (l2 + l3) l2 l3 (-m2 - m3) m2 m3 = 0 at h0
  rw [h0] at this
  norm_num at this

theorem racah_223 : racah.w 2 2 3 2 (-2) ≠ 0 := by
  obtain ⟨i0, i1, i2, i3, i4⟩ := invFact_values
  have n1 : invFact (-1) = 0 := invFact_neg (by norm_num)
  unfold racah wigner3j
  dsimp only
  rw [if_pos (by unfold Allowed; norm_num)]
  norm_num only [Finset.sum_range_succ, Finset.sum_range_zero, Nat.cast_ofNat]
  norm_num [show fact 0 = 1 from rfl, show fact 1 = 1 from rfl, show fact 2 = 2 from rfl, show fact 3 = 6 from rfl,
    show fact 4 = 24 from rfl, show fact 5 = 120 from rfl, show fact 8 = 40320 from rfl, i0, i1, i2, i3, i4, n1]

/-- **C76**: the number that the loops over multipoles take from the buffer of `drc3jj` is the Wigner 3j symbol, zero where
the triangle or the lower row is not allowed: for all multipoles of 31 bits up to the band limit of the mask, and all
lower rows that fields of spin up to 3 need, whatever the buffer held before. -/
theorem C76_buffers (mem : ℕ → ℝ) (lmaxMask l2 l3 : ℕ) (m2 m3 : ℤ) (h2 : l2 ≤ lmaxMask) (h3 : l3 ≤ lmaxMask)
    (hL : l2 + l3 < 2 ^ 31) (hM : m2.natAbs + m3.natAbs ≤ 6) :
    ∃ out, drcRun mem l2 l3 m2 m3 (2 * (lmaxMask + 1)) = .ok out ∧
      ∀ l1, l1 ≤ l2 + l3 → (if l1 < drcMin l2 l3 m2 m3 then 0 else out (l1 - drcMin l2 l3 m2 m3)) = wigAt racah l1 l2 l3 m2 m3 ∧
        wigAt racah l1 l2 l3 m2 m3 = wigner3j l1 l2 l3 (-m2 - m3) m2 m3 := by
  have hd : drcMin l2 l3 m2 m3 = lowestL1 l2 l3 m2 m3 := by unfold drcMin lowestL1 ldist; omega
  have hval : ∀ l1, wigAt racah l1 l2 l3 m2 m3 = wigner3j l1 l2 l3 (-m2 - m3) m2 m3 := by
    intro l1
    unfold wigAt drc3jj racah
    by_cases a : l1 < drcMin l2 l3 m2 m3
    · rw [if_pos a]
      unfold wigner3j
      rw [if_neg]
      rw [hd] at a
      unfold lowestL1 at a
      unfold Allowed
      simp only [abs_le]
      omega
    · rw [if_neg a]
      by_cases b : l2 < m2.natAbs ∨ l3 < m3.natAbs
      · rw [if_pos b]
        unfold wigner3j
        rw [if_neg]
        unfold Allowed
        simp only [abs_le]
        omega
      · rw [if_neg b, show drcMin l2 l3 m2 m3 + (l1 - drcMin l2 l3 m2 m3) = l1 by omega]
  by_cases hA : |m2| ≤ l2 ∧ |m3| ≤ l3
  · obtain ⟨out, e, a, -⟩ := C75_exact_spins mem l2 l3 m2 m3 (2 * (lmaxMask + 1)) hA.1 hA.2
      (by unfold lowestL1; omega) hL hM
    refine ⟨out, e, fun l1 h1 => ⟨?_, hval l1⟩⟩
    rw [hval]
    by_cases c : l1 < drcMin l2 l3 m2 m3
    · rw [if_pos c, ← hval]
      unfold wigAt
      rw [if_pos c]
    · rw [if_neg c, hd, a l1 (by omega) h1]
  · have hA' : (l2 : ℤ) < |m2| ∨ (l3 : ℤ) < |m3| := by
      by_contra hc
      push Not at hc
      exact hA hc
    obtain ⟨out, e, a, -⟩ := C75_not_allowed mem l2 l3 m2 m3 (2 * (lmaxMask + 1)) hA'
    have hz : ∀ l1, wigner3j l1 l2 l3 (-m2 - m3) m2 m3 = 0 := by
      intro l1
      unfold wigner3j
      rw [if_neg]
      unfold Allowed
      omega
    refine ⟨out, e, fun l1 h1 => ⟨?_, hval l1⟩⟩
    rw [hval, hz]
    by_cases c : l1 < drcMin l2 l3 m2 m3
    · rw [if_pos c]
    · rw [if_neg c, hd]
      rcases a l1 (by omega) h1 with h | h
      · rw [h, hz]
      · exact h.1

/-- The calls for spin 2 at `l2 = 700`, `l3 = 1`, below the spin, and for purification. -/
example (mem : ℕ → ℝ) : (∃ out, drcRun mem 700 1 2 (-2) 1536 = .ok out ∧ out 0 = wigner3j 699 700 1 0 2 (-2)) ∧
    ∃ out, drcRun mem 700 20 1 (-2) 1536 = .ok out ∧ out 5 = wigner3j 685 700 20 1 1 (-2) := by
  constructor
  · obtain ⟨out, e, h⟩ := C76_buffers mem 767 700 1 2 (-2) (by norm_num) (by norm_num) (by norm_num) (by norm_num)
    refine ⟨out, e, ?_⟩
    have := h 699 (by norm_num)
    rw [this.2] at this
    simpa [drcMin, ldist] using this.1
  · obtain ⟨out, e, h⟩ := C76_buffers mem 767 700 20 1 (-2) (by norm_num) (by norm_num) (by norm_num) (by norm_num)
    refine ⟨out, e, ?_⟩
    have := h 685 (by norm_num)
    rw [this.2] at this
    simpa [drcMin, ldist] using this.1

/-- **C76**: the two routines for symbols agree on zero lower rows, wherever the table of factorials is long enough. -/
theorem C76_routines_agree (mem junk : ℕ → ℝ) (lmax lmaxMask l2 l3 : ℕ) (h2 : l2 ≤ lmaxMask) (h3 : l3 ≤ lmaxMask) (hL : l2 + l3 < 2 ^ 31) :
    ∃ out, drcRun mem l2 l3 0 0 (2 * (lmaxMask + 1)) = .ok out ∧
      ∀ l1, ldist l2 l3 ≤ l1 → l1 ≤ l2 + l3 → l1 + l2 + l3 + 1 < lfacSize lmax lmaxMask →
        drc000 (lfac junk lmax lmaxMask) l1 l2 l3 = out (l1 - ldist l2 l3) := by
  obtain ⟨out, e, h⟩ := C76_buffers mem lmaxMask l2 l3 0 0 h2 h3 hL (by norm_num)
  refine ⟨out, e, fun l1 a b c => ?_⟩
  have hT : Triangle l1 l2 l3 := by rw [triangle_iff]; exact ⟨a, b⟩
  have hd : drcMin l2 l3 0 0 = ldist l2 l3 := by unfold drcMin; simp
  obtain ⟨e1, e2⟩ := h l1 b
  rw [e2, hd, if_neg (by omega)] at e1
  rw [drc000_eq junk lmax lmaxMask l1 l2 l3 hT c, e1, ← wigner3j_zero_row]
  congr 1

example (mem junk : ℕ → ℝ) : ∃ out, drcRun mem 300 100 0 0 1536 = .ok out ∧
    drc000 (lfac junk 767 767) 250 300 100 = out 50 := by
  obtain ⟨out, e, h⟩ := C76_routines_agree mem junk 767 767 300 100 (by norm_num) (by norm_num) (by norm_num)
  exact ⟨out, e, h 250 (by norm_num [ldist]) (by norm_num) (by norm_num [lfacSize])⟩

/-- **C76**: the symmetries assumed in C17, C20, C52, C68 hold for the symbols. -/
theorem C76_symmetric : CouplingSpec.Symmetric racah where
  exchange l1 l2 l3 m2 m3 := by
    unfold racah
    dsimp only
    rw [← wigner3j_exchange]
    congr 1; ring
  reversal l1 l2 l3 m2 m3 := by
    unfold racah
    dsimp only
    rw [← wigner3j_reversal]
    congr 1; ring

/-- **C76**: so does the agreement of both routines, assumed in C20. -/
theorem C76_zero_row : ZeroRow racah := by
  intro l1 l2 l3 _
  unfold racah
  dsimp only
  rw [← wigner3j_zero_row]
  congr 1

/-- **C76**: and the value for monopoles, assumed in C17. -/
theorem C76_monopole : MonopoleValue racah := by
  intro l s hs
  have h := wigner3j_monopole l s (by rw [abs_le]; omega)
  unfold racah
  dsimp only
  rw [show -(s : ℤ) - -(s : ℤ) = 0 by ring, h]
  congr 1
  rw [npow_zpow, show ((l + s : ℕ) : ℤ) = ((l : ℤ) - s) + 2 * s by push_cast; ring, zpow_add₀ (by norm_num), zpow_mul]
  norm_num

/-- **C76** (C17 without assumptions): matrices of fields that are not purified are the textbook sum over Wigner symbols. -/
theorem C76_matrix {a : CouplingArgs} (ha : a.Plain) {lmaxFields : ℕ} {pcl beam1 beam2 : List ℝ} {B : Bins ℝ} {nt : ℤ} {w2 : ℝ} {w : Wsp ℝ}
    (h : compCouplingMatrix racah a lmaxFields pcl beam1 beam2 B nt w2 = .ok w) :
    w.ncls = CouplingSpec.ncls a.spin1 a.spin2 ∧
    ∃ U, w.unbinned = some U ∧ ∀ l2 l3 x y, l2 ≤ B.ellMax → l3 ≤ B.ellMax → x < w.ncls → y < w.ncls →
      U (w.ncls * l2 + x) (w.ncls * l3 + y) =
        CouplingSpec.matrix racah a.spin1 a.spin2 a.lmaxMask (fun l => pcl.getD l 0) l2 x l3 y :=
  C17_formula C76_symmetric ha h

/-- **C76** (C17): the full sky. -/
theorem C76_full_sky {a : CouplingArgs} (ha : a.Plain) {lmaxFields : ℕ} {pcl beam1 beam2 : List ℝ} {B : Bins ℝ} {nt : ℤ} {w2 : ℝ} {w : Wsp ℝ}
    (h : compCouplingMatrix racah a lmaxFields pcl beam1 beam2 B nt w2 = .ok w) (h0 : pcl.getD 0 0 = 4 * Real.pi)
    (hp : ∀ l, l ≠ 0 → pcl.getD l 0 = 0) :
    ∃ U, w.unbinned = some U ∧ ∀ l l' x y, l ≤ B.ellMax → l' ≤ B.ellMax → x < w.ncls → y < w.ncls → max a.spin1 a.spin2 ≤ l →
      U (w.ncls * l + x) (w.ncls * l' + y) = if l = l' ∧ x = y then 1 else 0 := by
  obtain ⟨U, hU, hv⟩ := C17_monopole C76_symmetric C76_monopole ha h hp
  refine ⟨U, hU, fun l l' x y a1 a2 a3 a4 a5 => ?_⟩
  rw [hv l l' x y a1 a2 a3 a4 a5, h0, div_self (by positivity)]

example : ∃ w, compCouplingMatrix racah (plainArgs 2 2 false) 3 [4 * Real.pi, 0, 0, 0] [1, 1, 1, 1] [1, 1, 1, 1] pairBins 0 1 = .ok w ∧
    (plainArgs 2 2 false).Plain ∧ ∀ l, l ≠ 0 → [4 * Real.pi, 0, 0, 0].getD l 0 = 0 := by
  obtain ⟨w, h⟩ := plainArgs_ok racah 2 2 false (by simp) [4 * Real.pi, 0, 0, 0] rfl
  refine ⟨w, h, ⟨rfl, rfl, rfl, rfl, rfl, by decide⟩, ?_⟩
  intro l hl
  rcases l with _ | _ | _ | _ | l
  · exact absurd rfl hl
  all_goals rfl

/-- **C76** (C19): the joint matrix has the wrong sign for spin 1. -/
theorem C76_teb_wrong :
    ∃ w7 w1 U7 U1,
      compCouplingMatrix racah (plainArgs 0 1 true) 3 [4 * Real.pi, 0, 0, 0] [1, 1, 1, 1] [1, 1, 1, 1] pairBins 0 1 = .ok w7 ∧
      compCouplingMatrix racah (plainArgs 0 0 false) 3 [4 * Real.pi, 0, 0, 0] [1, 1, 1, 1] [1, 1, 1, 1] pairBins 0 1 = .ok w1 ∧
      w7.unbinned = some U7 ∧ w1.unbinned = some U1 ∧
      ∀ l, l ≤ 3 → U1 l l = 1 ∧ U7 (7 * l) (7 * l) = -1 :=
  C19_odd_spin_example racah C76_symmetric C76_monopole

/-- **C76** (C20): without anisotropy the anisotropic code gives the isotropic matrix for an even sum of spins … -/
theorem C76_aniso_even {a : CouplingArgs} (ha : a.Plain)
    (hs : a.spin1 ≠ 0 ∨ a.spin2 ≠ 0) (heven : Even (a.spin1 + a.spin2)) (an1 an2 : Bool) {lmaxFields : ℕ}
    {pcl beam1 beam2 : List ℝ} {B : Bins ℝ} {nt : ℤ} {w2 : ℝ} {w : Wsp ℝ}
    (h : compCouplingMatrix racah a lmaxFields pcl beam1 beam2 B nt w2 = .ok w) :
    ∃ U, w.unbinned = some U ∧ ∀ i j, i < w.ncls * (B.ellMax + 1) → j < w.ncls * (B.ellMax + 1) →
      compAnisoMatrix racah ⟨a.spin1, a.spin2, an1, an2, a.lmaxMask⟩ B.ellMax (fun l => pcl.getD l 0) (fun _ => 0)
        (fun _ => 0) (fun _ => 0) (fun _ => 0) (fun _ => 0) (fun _ => 0) (fun _ => 0) (fun _ => 0) i j = U i j :=
  C20_even_partial C76_symmetric C76_zero_row ha hs heven an1 an2 h

/-- **C76** (C20): … and the wrong sign for spins 0 and 1. -/
theorem C76_aniso_wrong :
    ∃ w U, compCouplingMatrix racah (plainArgs 0 1 false) 3 [4 * Real.pi, 0, 0, 0] [1, 1, 1, 1] [1, 1, 1, 1] pairBins 0 1 =
        .ok w ∧ w.unbinned = some U ∧ U 4 4 = 1 ∧
      compAnisoMatrix racah ⟨0, 1, false, true, 3⟩ 3 (fun l => [4 * Real.pi, 0, 0, 0].getD l 0) (fun _ => 0)
        (fun _ => 0) (fun _ => 0) (fun _ => 0) (fun _ => 0) (fun _ => 0) (fun _ => 0) (fun _ => 0) 4 4 = -1 :=
  C20_odd_example racah C76_symmetric C76_zero_row C76_monopole

/-- **C76** (C21): the exchanged arguments matter. -/
theorem C76_exchanged_arguments_wrong :
    let a : AnisoArgs := ⟨0, 1, false, true, 2⟩
    let z : ℕ → ℝ := fun _ => 0
    let b : ℕ → ℝ := fun l => if l = 2 then 1 else 0
    compAnisoMatrix racah a 2 z z b z z z z z z (2 * 1) (2 * 1 + 1) = 0 ∧
      namedAnisoMatrix racah a 2 z z b z z z z z z (2 * 1) (2 * 1 + 1) ≠ 0 :=
  C21_wrong racah (racah_top rfl (by norm_num) (by norm_num)) (racah_top rfl (by norm_num) (by norm_num))

/-- **C76** (C22): a column that should be exact is not. -/
theorem C76_toeplitz_column_wrong :
    ∃ w w0 U U0, compCouplingMatrix racah (tplzArgs 2 2 2 0) 3 [1, 0, 1, 0] [1, 1, 1, 1] [1, 1, 1, 1] pairBins 0 1 = .ok w ∧
      compCouplingMatrix racah ((tplzArgs 2 2 2 0).withToeplitz (-1) (-1) (-1)) 3 [1, 0, 1, 0] [1, 1, 1, 1]
        [1, 1, 1, 1] pairBins 0 1 = .ok w0 ∧
      w.unbinned = some U ∧ w0.unbinned = some U0 ∧ U (4 * 3) (4 * 2 + 3) = 0 ∧ U0 (4 * 3) (4 * 2 + 3) ≠ 0 :=
  (C22_column_wrong racah racah_223).2

/-- **C76** (C52): exchanging a purified and an unpurified field changes the matrix. -/
theorem C76_purified_exchange_wrong :
    ∃ w w' U U', compCouplingMatrix racah mixedArgs 3 [0, 0, 1, 0] [1, 1, 1, 1] [1, 1, 1, 1] pairBins 0 1 = .ok w ∧
      compCouplingMatrix racah mixedArgs.swap 3 [0, 0, 1, 0] [1, 1, 1, 1] [1, 1, 1, 1] pairBins 0 1 = .ok w' ∧
      w.unbinned = some U ∧ w'.unbinned = some U' ∧ U' (4 * 2) (4 * 2) ≠ U (4 * 2) (4 * 2) := by
  obtain ⟨v1, v2, v3, v4⟩ := racah_222
  have h70 : 0 < Real.sqrt 70 := Real.sqrt_pos.mpr (by norm_num)
  apply C52_purified_wrong
  · rw [v1, v2]
    intro h
    rw [div_left_inj' h70.ne'] at h
    norm_num at h
  · rw [v3, v4, ← mul_div_assoc, ← add_div, mul_neg, Real.mul_self_sqrt (by norm_num)]
    exact div_ne_zero (by norm_num) h70.ne'

open CovSpec in
/-- **C76** (C68): numbers of iterations for masks matter. -/
theorem C76_iterations_wrong (junk : ℕ → ℝ) :
    ∃ (S : Option MapInfo → Sht) (f g : CovField) (cw cw' : CovWsp ℝ), Respects S ∧ SameSky f g ∧ f.mask = g.mask ∧
      covCompute racah S junk none f f (some g) (some g) 0 0 0 false = (some cw, .ok ()) ∧
      covCompute racah S junk none g g (some f) (some f) 0 0 0 false = (some cw', .ok ()) ∧ cw.x1122.xi00 0 0 ≠ cw'.x1122.xi00 0 0 :=
  C68_iterations_wrong C76_symmetric junk

end NaMaster
