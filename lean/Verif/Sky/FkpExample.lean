import Verif.Sky.Fkp
import Verif.Sky.Example
import Verif.Sky.CatalogExample

/-! # Cases for C90

Four pixels at the vertices of a tetrahedron, and any mask. -/

namespace NaMaster

open Finset WignerSpec SkySpec CouplingSpec

namespace FkpExample

open SkyExample

/-- The arguments: a mask, no map, spin 0. -/
noncomputable def argsM (m : ℕ → ℝ) : FieldArgs := { args4 with mask := m, spin := some 0 }

/-- The field. -/
noncomputable def fieldM (m : ℕ → ℝ) : FieldObj := baseObj (argsM m) (m, none) 1 1 0

theorem madeM (m : ℕ → ℝ) : nmtField env4 (argsM m) = .ok (fieldM m) := by
  unfold nmtField fieldChecks fieldMasks mapChecks fieldFinish fieldM
  simp [argsM, args4, env4, Outcome.bind]
  try rfl

theorem exactM (m : ℕ → ℝ) : MasksExact env4 (fieldM m) (fieldM m) (coef m) (coef m) where
  coefs1 := by
    intro L hL M hM
    change (if (0 : ℕ) = 0 ∧ L ≤ 1 then coef (single m 0) L M else 0) = coef m L M
    rw [if_pos ⟨rfl, hL⟩]
    rfl
  coefs2 := by
    intro L hL M hM
    change (if (0 : ℕ) = 0 ∧ L ≤ 1 then coef (single m 0) L M else 0) = coef m L M
    rw [if_pos ⟨rfl, hL⟩]
    rfl
  real1 := coef_real m
  real2 := coef_real m
  parseval := by
    have hk : (kappa : ℂ) ^ 2 = (Real.pi : ℂ) / 4 := by exact_mod_cast congrArg Complex.ofReal kappa_sq
    have hr : (rho : ℂ) ^ 2 = (Real.pi : ℂ) / 8 := by exact_mod_cast congrArg Complex.ofReal rho_sq
    have hI : Complex.I ^ 2 = -1 := Complex.I_sq
    change ((pixelMean ⟨4, fun _ => Real.pi⟩ m m : ℝ) : ℂ) = (∑ q ∈ modes 1, _) / _
    rw [sum_modes, show (1 : ℕ) + 1 = 2 from rfl]
    unfold pixelMean
    have i0 : Icc (-((0 : ℕ) : ℤ)) ((0 : ℕ) : ℤ) = {0} := by decide
    have i1 : Icc (-((1 : ℕ) : ℤ)) ((1 : ℕ) : ℤ) = {-1, 0, 1} := by decide
    rw [sum_range_succ _ 1, sum_range_one, i0, i1, sum_singleton, sum_insert (by decide), sum_insert (by decide), sum_singleton]
    simp only [coef, sum_range_succ, sum_range_zero, vx, vy, vz]
    norm_num [Complex.conj_ofReal]
    ring_nf
    simp only [hk, hr, hI]
    ring

/-- The remaining arguments. -/
def wargsF : WspArgs := ⟨false, -1, -1, -1, "FKP", fun _ => 0⟩

theorem wspM (m : ℕ → ℝ) (minfo : MapInfo) : ∃ w, wspFromFields racah env4 minfo (fieldM m) (fieldM m) true bins4 wargsF = .ok w := by
  have h : ∃ w, wspFromFields racah env4 minfo (fieldM m) (fieldM m) true bins4 wargs4 = .ok w := by
    unfold wspFromFields
    have e : bins4.ellMax = 1 := rfl
    rw [if_neg (by unfold isCompatible FieldObj.view; simp), if_neg (by rw [e]; simp [fieldM, baseObj]), if_neg (by simp [wargs4]),
      show toeplitzSanity wargs4.lT wargs4.lE wargs4.dl bins4.ellMax _ = none from rfl]
    dsimp only
    unfold normOf
    rw [if_pos (show wargs4.norm = "MASTER" from rfl)]
    simp only [Outcome.bind]
    rw [if_neg (by simp [fieldM, baseObj])]
    unfold compCouplingMatrix computeCouplingMatrix
    have hb : (fieldM m).beamList.length = 2 := by
      unfold FieldObj.beamList
      simp [fieldM, baseObj, argsM, args4]
    rw [if_neg (by rw [hb]; simp [couplingArgsOf, fieldM, baseObj]), if_neg (by simp [couplingArgsOf, wargs4]), if_neg (by rw [e]; simp [fieldM, baseObj]),
      if_neg (by rw [e]; simp [couplingArgsOf, fieldM, baseObj]), if_neg (by simp [couplingArgsOf, fieldM, baseObj, argsM, args4, flag])]
    exact ⟨_, rfl⟩
  obtain ⟨w, hw⟩ := h
  obtain ⟨⟨w', hw', -⟩, -⟩ := C90_options racah env4 minfo (fieldM m) (fieldM m) true bins4 wargsF w hw
  exact ⟨w', hw'⟩

theorem plainM (m : ℕ → ℝ) : PlainFields 0 (fieldM m) (fieldM m) := ⟨rfl, rfl, rfl, rfl, ⟨rfl, rfl⟩, ⟨rfl, rfl⟩⟩

/-- A white spectrum. -/
noncomputable def whiteC : Arr2 ℝ := ⟨1, 2, fun _ _ => 3⟩

theorem whiteM (m : ℕ → ℝ) : White 0 bins4.ellMax (fun l => (fieldM m).beam.2 l * (fieldM m).beam.2 l) 3 whiteC where
  rows := rfl
  cols := rfl
  first := by intro l _; simp [fieldM, baseObj, argsM, args4, whiteC]
  others := fun h => absurd rfl h

theorem sum4 : bandSum bins4 (fun _ => 1) 0 = 1 := by simp [bandSum, bins4, Bins.band]

/-- The hypotheses of the theorem are met: a constant mask, for which the response is one. -/
example (minfo : MapInfo) : ∃ w U R D, wspFromFields racah env4 minfo (fieldM fun _ => 1 / 2) (fieldM fun _ => 1 / 2) true bins4 wargsF = .ok w ∧
    w.unbinned = some U ∧ coupleCell w U whiteC = .ok R ∧ decoupleCell (exactLinAlg ℝ) w R none none = .ok D ∧ D.val 0 0 = 3 := by
  obtain ⟨w, hw⟩ := wspM (fun _ => 1 / 2) minfo
  obtain ⟨U, R, D, hU, hR, hD, -, -, hv⟩ := C90_unit_response_partial (exactLinAlg ℝ) exactLinAlg_correct env4 minfo _ _ _ _ (exactM fun _ => 1 / 2) true
    (fun _ => rfl) bins4 wargsF rfl rfl (by decide) 0 (plainM _) w hw
    (by
      have := Real.pi_ne_zero
      simp [pixelMean, fieldM, baseObj, env4]) 3 whiteC (whiteM _)
  refine ⟨w, U, R, D, hw, hU, hR, hD, (hv 0 (by simp [bins4, Bins.nBands]) sum4 ?_).1⟩
  intro e he
  obtain rfl : e = ⟨1, 1, 1⟩ := by simpa [bins4, Bins.band] using he
  refine ⟨le_rfl, by omega, fun L hL h1 M => ?_⟩
  have hL1 : L ≤ 1 := hL
  have h2 : 1 < L + 1 := h1
  have : L ≠ 0 := by omega
  simp only [coef, sum_range_succ, sum_range_zero, vx, vy, vz]
  norm_num [this]

/-- The mask of one pixel. -/
noncomputable def onePixel : ℕ → ℝ := fun p => if p = 0 then 1 else 0

/-- The hypotheses of the theorem are met: the mask of one pixel, which couples the dipole to `l = 2`. -/
example (minfo : MapInfo) : ∃ w U R D, wspFromFields racah env4 minfo (fieldM onePixel) (fieldM onePixel) true bins4 wargsF = .ok w ∧
    w.unbinned = some U ∧ coupleCell w U whiteC = .ok R ∧ decoupleCell (exactLinAlg ℝ) w R none none = .ok D ∧ D.val 0 0 < 3 := by
  obtain ⟨w, hw⟩ := wspM onePixel minfo
  obtain ⟨U, R, D, hU, hR, hD, hv⟩ := C90_response_lost (exactLinAlg ℝ) exactLinAlg_correct env4 minfo _ _ (exactM onePixel)
    bins4 wargsF rfl rfl (by decide) 0 (plainM _) w hw
    (by
      have := Real.pi_ne_zero
      simp [pixelMean, fieldM, baseObj, env4, onePixel]) 3 (by norm_num) whiteC (whiteM _)
  refine ⟨w, U, R, D, hw, hU, hR, hD, hv 0 (by simp [bins4, Bins.nBands]) sum4 ?_ ?_⟩
  · intro e he
    obtain rfl : e = ⟨1, 1, 1⟩ := by simpa [bins4, Bins.band] using he
    exact ⟨le_rfl, by omega, by norm_num⟩
  · refine ⟨⟨1, 1, 1⟩, by simp [bins4, Bins.band], 1, le_rfl, by simp [bins4], 0, by simp, ?_⟩
    simp only [coef, sum_range_succ, sum_range_zero, vz, onePixel, kappa]
    have := (Real.sqrt_pos.2 Real.pi_pos).ne'
    norm_num [this]

open PoleExample in
/-- The hypotheses of the theorem for catalogs are met: a catalog and a second copy of it. -/
example : wspFromCatalogs racah (catP (some 2) 0) (catP (some 2) 0) false bins4 wargsF = .raises .value := by
  obtain ⟨p1, p2, p3, -, p5, -, -, p8⟩ := (catalogsP (some 2)).facts 0
  have e : bins4.ellMax = 1 := rfl
  have hb : (catP (some 2) 0).beamList.length = 2 := by
    unfold CatObj.beamList
    rw [p5]; simp [argsP]
  have hex : ∃ w, wspFromCatalogs racah (catP (some 2) 0) (catP (some 2) 0) false bins4 wargs4 = .ok w := by
    unfold wspFromCatalogs
    rw [if_neg (by unfold isCompatible CatObj.view; simp), if_neg (by rw [e, p1]; simp),
      show toeplitzSanity wargs4.lT wargs4.lE wargs4.dl bins4.ellMax _ = none from rfl]
    dsimp only
    unfold catNormOf
    rw [if_pos (show wargs4.norm = "MASTER" from rfl)]
    simp only [Outcome.bind]
    unfold compCouplingMatrix computeCouplingMatrix
    rw [p1, p2]
    rw [if_neg (by simp [hb, catCouplingArgs, p2]), if_neg (by simp [catCouplingArgs, wargs4]), if_neg (by rw [e]; omega),
      if_neg (by rw [e]; simp [catCouplingArgs, p2]), if_neg (by simp [catCouplingArgs, flag])]
    exact ⟨_, rfl⟩
  obtain ⟨w, hw⟩ := hex
  exact (C90_catalogs racah (exactLinAlg ℝ) exactLinAlg_correct _ _ bins4 wargsF w hw).1

end FkpExample

end NaMaster
