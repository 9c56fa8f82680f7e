import Verif.Covar.InitProps

/-! # Concrete cases for C68 -/

namespace NaMaster

open Finset CovSpec

namespace CovInitExample

/-- Transforms of maps with one pixel, with a synthesis that is not the inverse of the analysis. -/
noncomputable def sht : Sht :=
  ⟨fun _ _ mp c l m => if c = 0 ∧ l = 0 ∧ m = 0 then (mp 0 0 : ℂ) else 0, fun _ _ a c p => if c = 0 ∧ p = 0 then 2 * (a 0 0 0).re else 0,
    fun x => x, fun x => x⟩

def field (k : ℕ) : CovField := ⟨⟨some (.healpix 1), 1, 1⟩, false, false, k, some fun _ => 1⟩

theorem respects : Respects fun _ => sht := fun _ _ _ => rfl

theorem accepts (k k' : ℕ) : Accepts (field k) (field k) (field k') (field k') 0 0 0 :=
  ⟨⟨rfl, rfl, rfl, rfl⟩, ⟨⟨minfoNe_self _, rfl, rfl⟩, ⟨minfoNe_self _, rfl, rfl⟩, ⟨minfoNe_self _, rfl, rfl⟩⟩, Or.inl (le_refl _)⟩

theorem alms_zero (m : ℕ → ℝ) : maskAlms sht 1 0 m 0 0 = m 0 := by
  unfold maskAlms Sht.map2alm jacobi sht single
  simp

theorem alms_one (m : ℕ → ℝ) : maskAlms sht 1 1 m 0 0 = 0 := by
  unfold maskAlms Sht.map2alm jacobi jacobi sht single
  simp
  push_cast
  ring

theorem coupling_zero (W : Wigner) (p : ℕ → ℝ) : CouplingSpec.coupling W 0 0 1 p (fun _ => True) 0 0 = 1 / (4 * Real.pi) * p 0 := by
  unfold CouplingSpec.coupling
  rw [sum_range_succ, sum_range_one]
  have z0 : CouplingSpec.spin3j W 0 0 0 0 = 1 := by
    unfold CouplingSpec.spin3j CouplingSpec.zero3j CouplingSpec.Triangle; simp
  have z1 : CouplingSpec.spin3j W 0 1 0 0 = 0 := by
    unfold CouplingSpec.spin3j CouplingSpec.zero3j CouplingSpec.Triangle; simp
  rw [z0, z1]
  simp

theorem run {W : Wigner} (hW : CouplingSpec.Symmetric W) (junk : ℕ → ℝ) (k k' : ℕ) : ∃ cw,
    covCompute W (fun _ => sht) junk none (field k) (field k) (some (field k')) (some (field k')) 0 0 0 false = (some cw, .ok ()) ∧
      cw.x1122.xi00 0 0 = 1 / (4 * Real.pi) * ((maskAlms sht 1 k (fun _ => 1 * 1) 0 0) * (starRingEnd ℂ) (maskAlms sht 1 k (fun _ => 1 * 1) 0 0)).re := by
  have hc := covCompute_accepts W (fun _ => sht) junk none (field k) (field k) (field k') (field k') 0 0 0 false (accepts k k')
  rw [covCompute_masks W (fun _ => sht) junk (field k) (field k) (field k') (field k') 0 0 0 false rfl rfl rfl rfl,
      if_neg (by simp [field])] at hc
  refine ⟨_, hc, ?_⟩
  have t := (covXi_full hW junk 1 1 0 0 0 (le_refl _) (pclList (fun _ => sht) (field k) (field k') (field k) (field k') (fun _ => 1)
    (fun _ => 1) (fun _ => 1) fun _ => 1) 0 0 (Nat.zero_le _) (Nat.zero_le _)).1
  refine t.trans ?_
  rw [coupling_zero, pclList_getD _ _ _ _ _ _ _ _ _ (Nat.zero_le _)]
  unfold alm2cl prodAlms
  rw [sum_range_one]
  simp [field]

end CovInitExample

open CovInitExample in
/-- C68: with different numbers of iterations for masks the coefficients depend on the order of the pairs of fields. -/
theorem C68_iterations_wrong {W : Wigner} (hW : CouplingSpec.Symmetric W) (junk : ℕ → ℝ) :
    ∃ (S : Option MapInfo → Sht) (f g : CovField) (cw cw' : CovWsp ℝ), Respects S ∧ SameSky f g ∧ f.mask = g.mask ∧
      covCompute W S junk none f f (some g) (some g) 0 0 0 false = (some cw, .ok ()) ∧
      covCompute W S junk none g g (some f) (some f) 0 0 0 false = (some cw', .ok ()) ∧ cw.x1122.xi00 0 0 ≠ cw'.x1122.xi00 0 0 := by
  obtain ⟨cw, h, v⟩ := run hW junk 0 1
  obtain ⟨cw', h', v'⟩ := run hW junk 1 0
  refine ⟨fun _ => sht, field 0, field 1, cw, cw', respects, ⟨minfoNe_self _, rfl, rfl⟩, rfl, h, h', ?_⟩
  rw [v, v', alms_zero, alms_one]
  simp [Real.pi_ne_zero]

open CovInitExample in
/-- The hypotheses of the theorems above can be met: two masks, with Toeplitz approximation. -/
example (W : Wigner) (junk : ℕ → ℝ) (old : Option (CovWsp ℝ)) : ∃ (S : Option MapInfo → Sht) (f g : CovField) (cw : Option (CovWsp ℝ)),
    Respects S ∧ f.geom.minfo ≠ none ∧ f.nIterMask = g.nIterMask ∧ f.mask ≠ g.mask ∧
    covCompute W S junk old f g none none 3 2 1 false = (cw, .ok ()) := by
  refine ⟨fun _ => sht, ⟨⟨some (.healpix 2), 5, 5⟩, false, false, 3, some fun _ => 1⟩, ⟨⟨some (.healpix 2), 5, 5⟩, false, true, 3, some fun p => p⟩, ?_⟩
  have := (C68_accepts_iff W (fun _ => sht) junk old ⟨⟨some (.healpix 2), 5, 5⟩, false, false, 3, some fun _ => 1⟩
    ⟨⟨some (.healpix 2), 5, 5⟩, false, true, 3, some fun p => p⟩ ⟨⟨some (.healpix 2), 5, 5⟩, false, false, 3, some fun _ => 1⟩
    ⟨⟨some (.healpix 2), 5, 5⟩, false, true, 3, some fun p => p⟩ 3 2 1 false).2
    ⟨⟨⟨rfl, rfl, rfl, rfl⟩, ⟨⟨minfoNe_self _, rfl, rfl⟩, ⟨minfoNe_self _, rfl, rfl⟩, ⟨minfoNe_self _, rfl, rfl⟩⟩, Or.inr (by simp)⟩,
      by simp, le_refl _⟩
  obtain ⟨cw, hcw⟩ := this
  refine ⟨cw, respects, by simp, rfl, ?_, hcw⟩
  intro h
  have := congrFun (Option.some.inj h) 0
  simp at this

/-- Catalog fields and a low mask band limit: the hypotheses of `C68_catalog_loses`, `C68_mask_limit_crashes` can be met. -/
example : ∃ f g : CovField, Accepts f f f f 0 0 0 ∧ f.mask = none ∧ Accepts g g g g 0 0 0 ∧ g.mask ≠ none ∧ g.geom.lmaxMask < g.geom.lmax :=
  ⟨⟨⟨none, 5, 5⟩, false, false, 0, none⟩, ⟨⟨some (.healpix 2), 3, 5⟩, false, false, 3, some fun _ => 1⟩,
    ⟨⟨rfl, rfl, rfl, rfl⟩, ⟨⟨rfl, rfl, rfl⟩, ⟨rfl, rfl, rfl⟩, ⟨rfl, rfl, rfl⟩⟩, Or.inl (le_refl _)⟩, rfl,
    ⟨⟨rfl, rfl, rfl, rfl⟩, ⟨⟨minfoNe_self _, rfl, rfl⟩, ⟨minfoNe_self _, rfl, rfl⟩, ⟨minfoNe_self _, rfl, rfl⟩⟩, Or.inl (le_refl _)⟩,
    by simp, by simp⟩

end NaMaster
