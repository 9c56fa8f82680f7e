import Verif.Covar.SignProps
import Verif.Covar.Examples
import Verif.Flat.CovarExample

/-! # Concrete cases for C69 and C70 -/

namespace NaMaster

open Finset MeasureTheory CovSpec

namespace SignExample

/-- Transforms of maps with one pixel: the coefficient for `l = 1`, `m = 0` is the value of the map. -/
noncomputable def sht : Sht :=
  ⟨fun _ _ mp c l m => if c = 0 ∧ l = 1 ∧ m = 0 then (mp 0 0 : ℂ) else 0, fun _ _ a c p => if c = 0 ∧ p = 0 then (a 0 1 0).re else 0,
    fun x => x, fun x => x⟩

def field : CovField := ⟨⟨some (.healpix 1), 2, 2⟩, false, false, 0, some fun _ => 1⟩

/-- Four spectra with one band of one multipole. -/
def wsp : Wsp ℝ :=
  ⟨4, 2, 2, 2, false, 0, 0, fun _ => 1, fun _ => 1, some fun i j => if i = j then 2 else 0, ⟨2, [[⟨2, 1, 1⟩]]⟩, fun i j => if i = j then 2 else 0⟩

def obj : Obj ℝ := ⟨some wsp, true⟩

/-- E modes only. -/
def cl : Arr2 ℝ := ⟨4, 3, fun r _ => if r = 0 then 1 else 0⟩

theorem unmixed : Unmixed 2 cl := by
  intro r l h
  have h0 : r ≠ 0 := by omega
  simp [cl, h0]

theorem power : productSpectrum sht 2 0 0 (fun _ => 1) (fun _ => 1) (fun _ => 1) (fun _ => 1) 1 ≠ 0 := by
  unfold productSpectrum alm2cl maskAlms Sht.map2alm jacobi sht single
  simp [sum_range_succ]
  norm_num

/-- A Gaussian field with one random amplitude. -/
noncomputable def alm (ω : CovFlatExample.Dice) : Alms := fun c _ m => if m = 0 then (c + 1) * (CovFlatExample.face ω.1 : ℂ) else 0

noncomputable def view (ω : CovFlatExample.Dice) : FieldView := ⟨⟨some (.healpix 1), 2, 2⟩, some (some (alm ω)), 2, 0, 0, fun _ _ => 0⟩

theorem part (ω : CovFlatExample.Dice) (i : ℕ × ℕ × ℕ × Bool) :
    almPart (alm ω) i = (if i.2.2.2 = false ∧ i.2.2.1 = 0 then (i.1 + 1 : ℝ) else 0) * CovFlatExample.face ω.1 := by
  unfold almPart alm
  have e : ((i.1 : ℂ) + 1) * (CovFlatExample.face ω.1 : ℂ) = (((i.1 + 1 : ℝ) * CovFlatExample.face ω.1 : ℝ) : ℂ) := by push_cast; ring
  by_cases h : i.2.2.1 = 0
  · rw [if_pos h, e, Complex.ofReal_re, Complex.ofReal_im]
    cases hb : i.2.2.2 <;> simp [h]
  · rw [if_neg h]; simp [h]

theorem moment2 : ∫ ω, (CovFlatExample.face ω.1 : ℝ) * CovFlatExample.face ω.1 ∂CovFlatExample.μ = 1 / 3 := by
  rw [CovFlatExample.integral_eq]
  have : ∑ ω : CovFlatExample.Dice, CovFlatExample.face ω.1 * CovFlatExample.face ω.1 = 12 := by decide
  have h : ∑ ω : CovFlatExample.Dice, (CovFlatExample.face ω.1 : ℝ) * CovFlatExample.face ω.1 = 12 := by exact_mod_cast this
  rw [h]; norm_num

theorem moment4 : ∫ ω, (CovFlatExample.face ω.1 : ℝ) * CovFlatExample.face ω.1 * (CovFlatExample.face ω.1 * CovFlatExample.face ω.1)
    ∂CovFlatExample.μ = 1 / 3 := by
  rw [CovFlatExample.integral_eq]
  have : ∑ ω : CovFlatExample.Dice, CovFlatExample.face ω.1 * CovFlatExample.face ω.1 * (CovFlatExample.face ω.1 * CovFlatExample.face ω.1)
    = 12 := by decide
  have h : ∑ ω : CovFlatExample.Dice, (CovFlatExample.face ω.1 : ℝ) * CovFlatExample.face ω.1 *
      (CovFlatExample.face ω.1 * CovFlatExample.face ω.1) = 12 := by exact_mod_cast this
  rw [h]; norm_num

theorem gaussian : GaussianField CovFlatExample.μ 2 2 view alm := by
  refine ⟨fun _ => rfl, fun _ => rfl, fun _ => rfl, fun _ => rfl, fun _ _ => CovFlatExample.int_all _, fun _ _ _ _ => CovFlatExample.int_all _, ?_⟩
  have e2 : ∀ i j : ℕ × ℕ × ℕ × Bool, ∫ ω, almPart (alm ω) i * almPart (alm ω) j ∂CovFlatExample.μ =
      (if i.2.2.2 = false ∧ i.2.2.1 = 0 then (i.1 + 1 : ℝ) else 0) * (if j.2.2.2 = false ∧ j.2.2.1 = 0 then (j.1 + 1 : ℝ) else 0) * (1 / 3) := by
    intro i j
    rw [← moment2, ← integral_const_mul]
    congr 1
    funext ω
    rw [part, part]
    ring
  intro i j k l
  simp only [e2]
  have e4 : ∫ ω, almPart (alm ω) i * almPart (alm ω) j * (almPart (alm ω) k * almPart (alm ω) l) ∂CovFlatExample.μ =
      (if i.2.2.2 = false ∧ i.2.2.1 = 0 then (i.1 + 1 : ℝ) else 0) * (if j.2.2.2 = false ∧ j.2.2.1 = 0 then (j.1 + 1 : ℝ) else 0) *
      ((if k.2.2.2 = false ∧ k.2.2.1 = 0 then (k.1 + 1 : ℝ) else 0) * (if l.2.2.2 = false ∧ l.2.2.1 = 0 then (l.1 + 1 : ℝ) else 0)) * (1 / 3) := by
    rw [← moment4, ← integral_const_mul]
    congr 1
    funext ω
    rw [part, part, part, part]
    ring
  rw [e4]
  ring

/-- All hypotheses of `C69_EE_BB_wrong` hold. -/
theorem all (junk : ℕ → ℝ) : ∃ (cw : CovWsp ℝ) (jk : CovJunk ℝ) (C : Arr2 ℝ),
    covCompute exampleWigner (fun _ => sht) junk none field field none none 0 0 0 false = (some cw, .ok ()) ∧
    gaussianCovariance (exactLinAlg ℝ) jk (some cw) 2 2 2 2 ⟨cl, cl, cl, cl⟩ obj none true = .ok C ∧
    C.val (4 * 2 + 0) (4 * 2 + 3) < 0 := by
  have ha : Accepts field field field field 0 0 0 :=
    ⟨⟨rfl, rfl, rfl, rfl⟩, ⟨⟨minfoNe_self _, rfl, rfl⟩, ⟨minfoNe_self _, rfl, rfl⟩, ⟨minfoNe_self _, rfl, rfl⟩⟩, Or.inl (le_refl _)⟩
  have hc := covCompute_accepts exampleWigner (fun _ => sht) junk none field field field field 0 0 0 false ha
  rw [covCompute_masks exampleWigner (fun _ => sht) junk field field field field 0 0 0 false rfl rfl rfl rfl,
      if_neg (by simp [field])] at hc
  have hA : WspSpec.Bounded wsp.bin wsp.bin.ellMax := by simp [WspSpec.Bounded, wsp]
  have hN : BinSpec.NoRepeats wsp.bin := by simp [BinSpec.NoRepeats, wsp]
  obtain ⟨C, hC⟩ := (C29_accepts_iff (L := exactLinAlg ℝ) (jk := ⟨fun _ => 0, fun _ => 0⟩) (oa := obj) (ob := obj) (a := wsp) (b := wsp)
    (a1 := 2) (a2 := 2) (b1 := 2) (b2 := 2) (s := ⟨cl, cl, cl, cl⟩) (coupled := true)
    (cw := ⟨2, false, covXi exampleWigner junk 2 2 0 0 0 false (pclList (fun _ => sht) field field field field (fun _ => 1) (fun _ => 1)
      (fun _ => 1) fun _ => 1), covXi exampleWigner junk 2 2 0 0 0 false (pclList (fun _ => sht) field field field field (fun _ => 1)
      (fun _ => 1) (fun _ => 1) fun _ => 1)⟩) rfl rfl hA hA).2
    { wspA := by simp [wsp, nmaps]
      wspB := by simp [wsp, nmaps]
      rows := by simp [cl, nmaps]
      length := ⟨3, by simp [cl]⟩
      limit := by simp [wsp]
      spins := by simp
      matrices := by simp [obj]
      small := by simp [covSize, wsp] }
  have hC1 := (C29_default (L := exactLinAlg ℝ) (oa := obj) _).trans hC
  refine ⟨_, _, C, hc, hC1, ?_⟩
  have he : (⟨2, 1, 1⟩ : BandEntry ℝ) ∈ wsp.bin.bands.flatten := by simp [wsp]
  exact C69_EE_BB_negative (f := field) (l1 := 1) exampleWigner_symmetric (fun _ _ _ => rfl) (le_refl _) (by simp [field]) hc rfl hA hN hC1 unmixed
    he he (by simp) (by simp [cl]) (by simp [cl]) rfl (by simp [field]) (by decide) power
    (by simp [CouplingSpec.spin3j, CouplingSpec.Triangle, exampleWigner]; norm_num [Nat.even_iff])

end SignExample

open SignExample in
/-- The random field of `C69_true_nonneg`, `C69_EE_BB_wrong` exists. -/
example : ∃ (F : CovFlatExample.Dice → FieldView) (a : CovFlatExample.Dice → Alms),
    GaussianField CovFlatExample.μ 2 field.geom.lmax F a ∧ ∃ ω, a ω 0 2 0 ≠ 0 :=
  ⟨view, alm, gaussian, (0, 0), by simp [alm, CovFlatExample.face]⟩

namespace SchemeExample

/-- One scalar spectrum, one band with the multipoles 2 and 4 and factors `f`. -/
def wsp (f : ℕ → ℚ) : Wsp ℚ :=
  ⟨1, 6, 6, 6, false, 0, 0, fun _ => 1, fun _ => 1, some fun i j => if i = j then 2 else 0, ⟨6, [[⟨2, 1 / 2, f 2⟩, ⟨4, 1 / 2, f 4⟩]]⟩,
    fun i j => if i = j then 2 else 0⟩

def cl : Arr2 ℚ := ⟨1, 7, fun _ l => l⟩

theorem run (f : ℕ → ℚ) (jk : CovJunk ℚ) : ∃ C, gaussianCovariance (exactLinAlg ℚ) jk (some (exCw false)) 0 0 0 0 ⟨cl, cl, cl, cl⟩ ⟨some (wsp f), true⟩
    (some ⟨some (wsp f), true⟩) true = .ok C :=
  (C29_accepts_iff rfl rfl (by simp [WspSpec.Bounded, wsp]) (by simp [WspSpec.Bounded, wsp])).2
    { wspA := by simp [wsp, nmaps]
      wspB := by simp [wsp, nmaps]
      rows := by simp [cl, nmaps]
      length := ⟨7, by simp [cl, exCw]⟩
      limit := by simp [wsp, exCw]
      spins := by simp
      matrices := by simp
      small := by simp [covSize, wsp, exCw] }

end SchemeExample

open SchemeExample in
/-- C70 is false of the code: the coupled covariance of the same fields, spectra and coefficients depends on the factors `f_ell` of the bandpowers
(here `f_ell = l (l+1)`, as with `is_Dell` up to 2 pi). -/
theorem C70_dell_wrong (jk : CovJunk ℚ) : ∃ (cw : CovWsp ℚ) (s : CovCls ℚ) (a a' : Wsp ℚ) (C C' : Arr2 ℚ), a'.ncls = a.ncls ∧ a'.unbinned = a.unbinned ∧
    gaussianCovariance (exactLinAlg ℚ) jk (some cw) 0 0 0 0 s ⟨some a, true⟩ none true = .ok C ∧
    gaussianCovariance (exactLinAlg ℚ) jk (some cw) 0 0 0 0 s ⟨some a', true⟩ none true = .ok C' ∧
    C'.val 2 2 = 36 * C.val 2 2 ∧ C.val 2 2 ≠ 0 := by
  obtain ⟨C, h⟩ := run (fun _ => 1) jk
  obtain ⟨C', h'⟩ := run (fun l => l * (l + 1)) jk
  have hA : ∀ f, WspSpec.Bounded (wsp f).bin (wsp f).bin.ellMax := fun f => by simp [WspSpec.Bounded, wsp]
  have hN : ∀ f, BinSpec.NoRepeats (wsp f).bin := fun f => by simp [BinSpec.NoRepeats, wsp]
  have he : ∀ f, (⟨2, 1 / 2, f 2⟩ : BandEntry ℚ) ∈ (wsp f).bin.bands.flatten := fun f => by simp [wsp]
  refine ⟨exCw false, ⟨cl, cl, cl, cl⟩, wsp fun _ => 1, wsp fun l => l * (l + 1), C, C', rfl, rfl, h, h', ?_, ?_⟩
  · have := C70_factors (i := 0) (j := 0) (a := wsp fun _ => 1) (b := wsp fun _ => 1) (a' := wsp fun l => l * (l + 1))
      (b' := wsp fun l => l * (l + 1)) rfl rfl (hA _) (hA _) (hN _) (hN _) h rfl rfl (hA _) (hA _) (hN _) (hN _) h' (he _) (he _) (he _) (he _) rfl rfl
      (by simp [wsp]) (by simp [wsp])
    have e : C'.val (1 * 2 + 0) (1 * 2 + 0) * (1 * 1) = C.val (1 * 2 + 0) (1 * 2 + 0) * ((((2 : ℕ) : ℚ) * ((2 : ℕ) + 1)) * (((2 : ℕ) : ℚ) * ((2 : ℕ) + 1))) := this
    norm_num at e
    rw [e]; ring
  · have v := coupled_val rfl rfl (hA _) (hA _) (hN _) (hN _) h (he _) (he _) (ia := 0) (ib := 0) (ic := 0) (id := 0) (by simp [nmaps]) (by simp [nmaps])
      (by simp [nmaps]) (by simp [nmaps])
    have v' : C.val 2 2 = covElement (exCw false) ⟨1, 1, 1, 1⟩ ⟨cl, cl, cl, cl⟩ 0 0 0 0 2 2 (1 * 1) := v
    rw [v', element_TT_TT _ _ _ _ _ two_ne_zero]
    norm_num [exCw, exXi, cl]

end NaMaster
