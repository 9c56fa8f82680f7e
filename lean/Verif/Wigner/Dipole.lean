import Verif.Wigner.SumRules
import Verif.Covar.SignExample

/-! # C69 with the true symbols: masks with a dipole -/

namespace NaMaster

open WignerSpec CouplingSpec CovSpec

theorem invFact_pos {n : ℤ} (h : 0 ≤ n) : 0 < invFact n := by
  unfold invFact fact
  rw [if_neg (by omega)]
  have : 0 < n.toNat.factorial := Nat.factorial_pos _
  positivity

/-- The symbol of a dipole between equal multipoles does not vanish for polarised fields. -/
theorem wigner3j_dipole (l s : ℕ) (hs : s ≠ 0) (hl : s ≤ l) : wigner3j 1 l l 0 s (-s) ≠ 0 := by
  unfold wigner3j
  rw [if_pos (by unfold Allowed; simp only [abs_le]; omega)]
  refine mul_ne_zero (mul_ne_zero (mul_ne_zero (zpow_ne_zero _ (by norm_num)) ?_) ?_) ?_
  · rw [Real.sqrt_ne_zero']
    have h : ∀ n : ℤ, 0 < fact n := fun n => Nat.factorial_pos _
    have h1 := h (((1 : ℕ) : ℤ) + l - l)
    have h2 := h (((1 : ℕ) : ℤ) - l + l)
    have h3 := h (-((1 : ℕ) : ℤ) + l + l)
    have h4 := h (((1 : ℕ) : ℤ) + l + l + 1)
    exact div_pos (by exact_mod_cast Nat.mul_pos (Nat.mul_pos h1 h2) h3) (by exact_mod_cast h4)
  · rw [Real.sqrt_ne_zero']
    have h : ∀ n : ℤ, 0 < fact n := fun n => Nat.factorial_pos _
    exact_mod_cast Nat.mul_pos (Nat.mul_pos (Nat.mul_pos (Nat.mul_pos (Nat.mul_pos (h _) (h _)) (h _)) (h _)) (h _)) (h _)
  · rw [show 1 + l - l + 1 = 2 by omega, Finset.sum_range_succ, Finset.sum_range_one]
    obtain ⟨i0, i1, -⟩ := invFact_values
    have e1 : invFact ((l : ℤ) - ((1 : ℕ) : ℤ) + ((0 : ℕ) : ℤ) - s) = ((l : ℝ) - s) * invFact ((l : ℤ) - s) := by
      rw [show (l : ℤ) - ((1 : ℕ) : ℤ) + ((0 : ℕ) : ℤ) - s = (l : ℤ) - s - 1 by push_cast; ring, invFact_pred]
      push_cast; ring
    have e2 : invFact ((l : ℤ) - ((1 : ℕ) : ℤ) + s) = ((l : ℝ) + s) * invFact ((l : ℤ) + s) := by
      rw [show (l : ℤ) - ((1 : ℕ) : ℤ) + s = (l : ℤ) + s - 1 by push_cast; ring, invFact_pred]
      push_cast; ring
    rw [e1, e2, show (l : ℤ) - l + ((0 : ℕ) : ℤ) + 0 = 0 by push_cast; ring, show ((1 : ℕ) : ℤ) + l - l - ((0 : ℕ) : ℤ) = 1 by push_cast; ring,
      show ((1 : ℕ) : ℤ) - ((0 : ℕ) : ℤ) - 0 = 1 by norm_num, show (l : ℤ) - ((0 : ℕ) : ℤ) + s = l + s by push_cast; ring,
      show (l : ℤ) - l + ((1 : ℕ) : ℤ) + 0 = 1 by push_cast; ring, show (l : ℤ) - ((1 : ℕ) : ℤ) + ((1 : ℕ) : ℤ) - s = l - s by push_cast; ring,
      show ((1 : ℕ) : ℤ) + l - l - ((1 : ℕ) : ℤ) = 0 by push_cast; ring, show ((1 : ℕ) : ℤ) - ((1 : ℕ) : ℤ) - 0 = 0 by norm_num,
      show ((0 : ℕ) : ℤ) = 0 from rfl, show ((1 : ℕ) : ℤ) = 1 from rfl, i0, i1]
    have p1 := invFact_pos (n := (l : ℤ) - s) (by omega)
    have p2 := invFact_pos (n := (l : ℤ) + s) (by omega)
    have hs' : (0 : ℝ) < s := by exact_mod_cast Nat.pos_of_ne_zero hs
    have : -2 * (s : ℝ) * (invFact ((l : ℤ) - s) * invFact ((l : ℤ) + s)) ≠ 0 :=
      mul_ne_zero (by nlinarith) (mul_pos p1 p2).ne'
    intro hc
    apply this
    rw [← hc]
    ring

section
variable {S : Option MapInfo → Sht} {junk : ℕ → ℝ} {old : Option (CovWsp ℝ)} {f : CovField} {lT lE dl : ℤ}
  {cw : CovWsp ℝ} {L : LinAlg ℝ} {jk : CovJunk ℝ} {cl : Arr2 ℝ} {o : Obj ℝ} {a : Wsp ℝ} {C : Arr2 ℝ}

/-- **C69** is false of the code for every mask whose square has a dipole: the covariance of EE with BB at any multipole of a
bandpower is negative, while that of Gaussian fields is not (`C69_true_nonneg`). -/
theorem C69_dipole_negative (hS : Respects S) (hT : lT ≤ 0) (hmap : f.geom.minfo ≠ none)
    (hcw : covCompute racah S junk old f f none none lT lE dl false = (some cw, .ok ()))
    (ho : o.wsp = some a) (hA : WspSpec.Bounded a.bin a.bin.ellMax) (hN : BinSpec.NoRepeats a.bin)
    (hC : gaussianCovariance L jk (some cw) 2 2 2 2 ⟨cl, cl, cl, cl⟩ o none true = .ok C) (hm : Unmixed 2 cl)
    {e : BandEntry ℝ} (he : e ∈ a.bin.bands.flatten) (hl : 2 ≤ e.ell) (hf : e.f ≠ 0) (hp : 0 < cl.val 0 e.ell + cl.val 3 e.ell)
    {m : ℕ → ℝ} (hmask : f.mask = some m) (h1 : 1 ≤ f.geom.lmaxMask)
    (hpow : productSpectrum (S f.geom.minfo) f.geom.lmaxMask f.nIterMask f.nIterMask m m m m 1 ≠ 0) :
    C.val (4 * e.ell + 0) (4 * e.ell + 3) < 0 := by
  refine C69_EE_BB_negative C76_symmetric hS hT hmap hcw ho hA hN hC hm he he (mul_self_pos.2 hf) hp hp hmask h1
    ⟨e.ell, by ring⟩ hpow ?_
  rw [spin3j_racah]
  exact_mod_cast wigner3j_dipole e.ell 2 (by norm_num) hl

end

open SignExample in
/-- A mask of one pixel, whose square has a dipole. -/
example (junk : ℕ → ℝ) : ∃ (cw : CovWsp ℝ) (jk : CovJunk ℝ) (C : Arr2 ℝ),
    covCompute racah (fun _ => sht) junk none field field none none 0 0 0 false = (some cw, .ok ()) ∧
    gaussianCovariance (exactLinAlg ℝ) jk (some cw) 2 2 2 2 ⟨cl, cl, cl, cl⟩ obj none true = .ok C ∧
    C.val (4 * 2 + 0) (4 * 2 + 3) < 0 := by
  have ha : Accepts field field field field 0 0 0 :=
    ⟨⟨rfl, rfl, rfl, rfl⟩, ⟨⟨minfoNe_self _, rfl, rfl⟩, ⟨minfoNe_self _, rfl, rfl⟩, ⟨minfoNe_self _, rfl, rfl⟩⟩, Or.inl (le_refl _)⟩
  have hc := covCompute_accepts racah (fun _ => sht) junk none field field field field 0 0 0 false ha
  rw [covCompute_masks racah (fun _ => sht) junk field field field field 0 0 0 false rfl rfl rfl rfl,
      if_neg (by simp [field])] at hc
  have hA : WspSpec.Bounded wsp.bin wsp.bin.ellMax := by simp [WspSpec.Bounded, wsp]
  have hN : BinSpec.NoRepeats wsp.bin := by simp [BinSpec.NoRepeats, wsp]
  obtain ⟨C, hC⟩ := (C29_accepts_iff (L := exactLinAlg ℝ) (jk := ⟨fun _ => 0, fun _ => 0⟩) (oa := obj) (ob := obj) (a := wsp) (b := wsp)
    (a1 := 2) (a2 := 2) (b1 := 2) (b2 := 2) (s := ⟨cl, cl, cl, cl⟩) (coupled := true)
    (cw := ⟨2, false, covXi racah junk 2 2 0 0 0 false (pclList (fun _ => sht) field field field field (fun _ => 1) (fun _ => 1)
      (fun _ => 1) fun _ => 1), covXi racah junk 2 2 0 0 0 false (pclList (fun _ => sht) field field field field (fun _ => 1)
      (fun _ => 1) (fun _ => 1) fun _ => 1)⟩) rfl rfl hA hA).2
    { wspA := by simp [wsp, nmaps]
      wspB := by simp [wsp, nmaps]
      rows := by simp [cl, nmaps]
      length := ⟨3, by simp [cl]⟩
      limit := by simp [wsp]
      spins := by simp
      matrices := by simp [obj]
      small := by simp [covSize, wsp] }
  have hC1 := (C29_default (L := exactLinAlg ℝ) (oa := obj) _).trans hC
  refine ⟨_, _, C, hc, hC1, ?_⟩
  have he : (⟨2, 1, 1⟩ : BandEntry ℝ) ∈ wsp.bin.bands.flatten := by simp [wsp]
  exact C69_dipole_negative (f := field) (fun _ _ _ => rfl) (le_refl _) (by simp [field]) hc rfl hA hN hC1 unmixed
    he (by norm_num) (by norm_num) (by simp [cl]) rfl (by simp [field]) power

end NaMaster
