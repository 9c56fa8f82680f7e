import Verif.Covar.InitModel
import Verif.Covar.Props2
import Verif.Coupling.Props
import Verif.Field.SpectraLemmas

/-! # C68: coefficients of curved-sky covariances -/

namespace NaMaster

open Finset CovSpec

namespace CovSpec

/-- Fields on the same pixels, with the same band limits. -/
structure SameSky (f g : CovField) : Prop where
  pixels : minfoNe f.geom.minfo g.geom.minfo = false
  lmax : f.geom.lmax = g.geom.lmax
  lmaxMask : f.geom.lmaxMask = g.geom.lmaxMask

/-- Parameters for which the Toeplitz approximation is off, or makes sense. -/
def GoodToeplitz (lT lE dl : ℤ) (lmax : ℕ) (purified : Prop) : Prop :=
  lT ≤ 0 ∨ (¬ purified ∧ 0 < lE ∧ lE ≤ lT ∧ lT < lmax ∧ 0 ≤ dl ∧ dl < lmax)

/-- Fields and parameters that the function accepts: isotropic masks, the same pixels and band limits, and Toeplitz parameters that make
sense for two of the fields. -/
def Accepts (fa1 fa2 fb1 fb2 : CovField) (lT lE dl : ℤ) : Prop :=
  (fa1.aniso = false ∧ fa2.aniso = false ∧ fb1.aniso = false ∧ fb2.aniso = false) ∧
  (SameSky fa1 fa2 ∧ SameSky fa1 fb1 ∧ SameSky fa1 fb2) ∧
  GoodToeplitz lT lE dl fa1.geom.lmax ((fa1.pureAny || fb1.pureAny) = true)

/-- Transforms depend on the pixelisation through the properties that `==` compares. -/
def Respects (S : Option MapInfo → Sht) : Prop := ∀ a b : MapInfo, a.eq b = true → S (some a) = S (some b)

/-- Cross-spectrum of the product of the masks `m`, `m'` and the product of the masks `n`, `n'`, from coefficients up to `lmaxMask`
computed with `k` and `k'` iterations. -/
noncomputable def productSpectrum (S : Sht) (lmaxMask k k' : ℕ) (m m' n n' : ℕ → ℝ) : ℕ → ℝ :=
  alm2cl (maskAlms S lmaxMask k fun p => m p * m' p) (maskAlms S lmaxMask k' fun p => n p * n' p)

/-- The coefficients are the textbook sums for the spectrum `pcl`. -/
def Textbook (W : Wigner) (lmaxMask lmax : ℕ) (pcl : ℕ → ℝ) (x : CovXi ℝ) : Prop :=
  ∀ l l', l ≤ lmax → l' ≤ lmax →
    x.xi00 l l' = CouplingSpec.coupling W 0 0 lmaxMask pcl (fun _ => True) l l' ∧
    x.xi02 l l' = CouplingSpec.coupling W 0 2 lmaxMask pcl (fun _ => True) l l' ∧
    x.xi22p l l' = CouplingSpec.coupling W 2 2 lmaxMask pcl Even l l' ∧
    x.xi22m l l' = CouplingSpec.coupling W 2 2 lmaxMask pcl Odd l l'

end CovSpec

theorem MapInfo.eq_self (a : MapInfo) : a.eq a = true := by
  cases a <;> simp [MapInfo.eq]

theorem MapInfo.eq_euclid {a b c : MapInfo} (h : a.eq b = true) (h' : a.eq c = true) : b.eq c = true := by
  cases a <;> cases b <;> cases c <;> simp only [MapInfo.eq, decide_eq_true_eq, Bool.false_eq_true] at h h' ⊢
  · omega
  · obtain ⟨h1, h2, h3, h4, h5, h6, h7, h8⟩ := h
    obtain ⟨k1, k2, k3, k4, k5, k6, k7, k8⟩ := h'
    exact ⟨h1.symm.trans k1, h2.symm.trans k2, h3.symm.trans k3, h4.symm.trans k4, h5.symm.trans k5, h6.symm.trans k6,
      h7.symm.trans k7, h8.symm.trans k8⟩

theorem minfoNe_self (a : Option MapInfo) : minfoNe a a = false := by
  cases a with
  | none => rfl
  | some a => simp [minfoNe, MapInfo.eq_self]

theorem minfoNe_trans {a b c : Option MapInfo} (h : minfoNe a b = false) (h' : minfoNe a c = false) : minfoNe b c = false := by
  cases a <;> cases b <;> cases c <;> simp only [minfoNe, Bool.true_eq_false, Bool.not_eq_false'] at h h' ⊢
  exact MapInfo.eq_euclid h h'

theorem isCompatible_iff (f g : CovField) : isCompatible f.geom g.geom true = true ↔ SameSky f g := by
  unfold isCompatible
  constructor
  · intro h
    by_cases h1 : minfoNe f.geom.minfo g.geom.minfo = true
    · rw [if_pos (by simp [h1])] at h; cases h
    rw [if_neg (by simp [h1])] at h
    by_cases h2 : f.geom.lmaxMask ≠ g.geom.lmaxMask
    · rw [if_pos h2] at h; cases h
    rw [if_neg h2] at h
    by_cases h3 : f.geom.lmax ≠ g.geom.lmax
    · rw [if_pos h3] at h; cases h
    push Not at h2 h3
    exact ⟨by simpa using h1, h3, h2⟩
  · intro h
    rw [if_neg (by simp [h.pixels]), if_neg (by simp [h.lmaxMask]), if_neg (by simp [h.lmax])]

theorem toeplitz_iff (lT lE dl : ℤ) (lmax : ℕ) (p : Bool) :
    toeplitzSanity lT lE dl lmax p = none ↔ GoodToeplitz lT lE dl lmax (p = true) := by
  unfold toeplitzSanity GoodToeplitz
  by_cases h : lT > 0
  · rw [if_pos h]
    cases p with
    | true => simp; omega
    | false =>
      rw [if_neg (by simp)]
      by_cases h1 : lE ≤ 0 ∨ dl < 0
      · rw [if_pos h1]; simp; omega
      rw [if_neg h1]
      by_cases h2 : lE > lT
      · rw [if_pos h2]; simp; omega
      rw [if_neg h2]
      by_cases h3 : lT ≥ lmax ∨ lE ≥ lmax ∨ dl ≥ lmax
      · rw [if_pos h3]; simp; omega
      rw [if_neg h3]; simp; omega
  · rw [if_neg h]; simp; omega

theorem getMask_ok {f : CovField} {m : ℕ → ℝ} (h : f.mask = some m) : f.getMask = .ok m := by
  unfold CovField.getMask; rw [h]

theorem getMask_none {f : CovField} (h : f.mask = none) : f.getMask = .raises .value := by
  unfold CovField.getMask; rw [h]

theorem maskProdCl_ok (S : Option MapInfo → Sht) {f1 g1 f2 g2 : CovField} {m1 n1 m2 n2 : ℕ → ℝ} (h1 : f1.mask = some m1)
    (h2 : g1.mask = some n1) (h3 : f2.mask = some m2) (h4 : g2.mask = some n2) :
    maskProdCl S f1 g1 f2 g2 = .ok ((List.range (f1.geom.lmaxMask + 1)).map (alm2cl (prodAlms S f1 g1 m1 n1) (prodAlms S f2 g2 m2 n2))) := by
  unfold maskProdCl
  rw [getMask_ok h1, getMask_ok h2, getMask_ok h3, getMask_ok h4]
  rfl

theorem maskProdCl_none (S : Option MapInfo → Sht) {f1 g1 f2 g2 : CovField}
    (h : f1.mask = none ∨ g1.mask = none ∨ f2.mask = none ∨ g2.mask = none) : maskProdCl S f1 g1 f2 g2 = .raises .value := by
  unfold maskProdCl
  cases h1 : f1.mask with
  | none => rw [getMask_none h1]; rfl
  | some m1 =>
    rw [getMask_ok h1]
    cases h2 : g1.mask with
    | none => rw [getMask_none h2]; rfl
    | some n1 =>
      rw [getMask_ok h2]
      cases h3 : f2.mask with
      | none => rw [getMask_none h3]; rfl
      | some m2 =>
        rw [getMask_ok h3]
        cases h4 : g2.mask with
        | none => rw [getMask_none h4]; rfl
        | some n2 => rw [h1, h2, h3, h4] at h; simp at h

section
variable (W : Wigner) (S : Option MapInfo → Sht) (junk : ℕ → ℝ) (old : Option (CovWsp ℝ)) (fa1 fa2 fb1 fb2 : CovField)
  (lT lE dl : ℤ) (spin0 : Bool)

/-- All cases of a call. -/
theorem covCompute_cases :
    let r := covCompute W S junk old fa1 fa2 (some fb1) (some fb2) lT lE dl spin0
    (¬ (fa1.aniso = false ∧ fa2.aniso = false ∧ fb1.aniso = false ∧ fb2.aniso = false) ∧ r = (old, .raises .notImplemented)) ∨
    ((fa1.aniso = false ∧ fa2.aniso = false ∧ fb1.aniso = false ∧ fb2.aniso = false) ∧
      ¬ (SameSky fa1 fa2 ∧ SameSky fa1 fb1 ∧ SameSky fa1 fb2) ∧ r = (old, .raises .value)) ∨
    ((fa1.aniso = false ∧ fa2.aniso = false ∧ fb1.aniso = false ∧ fb2.aniso = false) ∧
      (SameSky fa1 fa2 ∧ SameSky fa1 fb1 ∧ SameSky fa1 fb2) ∧
      ¬ GoodToeplitz lT lE dl fa1.geom.lmax ((fa1.pureAny || fb1.pureAny) = true) ∧ r = (old, .raises .value)) ∨
    ((fa1.aniso = false ∧ fa2.aniso = false ∧ fb1.aniso = false ∧ fb2.aniso = false) ∧
      (SameSky fa1 fa2 ∧ SameSky fa1 fb1 ∧ SameSky fa1 fb2) ∧ GoodToeplitz lT lE dl fa1.geom.lmax ((fa1.pureAny || fb1.pureAny) = true) ∧
      r = match (maskProdCl S fa1 fb1 fa2 fb2).bind fun p1 => (maskProdCl S fa1 fb2 fa2 fb1).bind fun p2 =>
          covInit W junk p1 p2 fa1.geom.lmax fa1.geom.lmaxMask lT lE dl spin0 with
        | .ok cw => (some cw, .ok ())
        | .raises e => (none, .raises e)
        | .crash => (none, .crash)) := by
  intro r
  by_cases h1 : fa1.aniso = false ∧ fa2.aniso = false ∧ fb1.aniso = false ∧ fb2.aniso = false
  swap
  · refine Or.inl ⟨h1, ?_⟩
    simp only [r]
    unfold covCompute
    simp only [Option.getD_some]
    rw [if_pos]
    cases a1 : fa1.aniso <;> cases a2 : fa2.aniso <;> cases a3 : fb1.aniso <;> cases a4 : fb2.aniso <;>
      first
      | rfl
      | exact absurd ⟨a1, a2, a3, a4⟩ h1
  refine Or.inr ?_
  have e1 : (fa1.aniso || fa2.aniso || fb1.aniso || fb2.aniso) = false := by simp [h1]
  by_cases h2 : SameSky fa1 fa2 ∧ SameSky fa1 fb1 ∧ SameSky fa1 fb2
  swap
  · refine Or.inl ⟨h1, h2, ?_⟩
    simp only [r]
    unfold covCompute
    simp only [Option.getD_some]
    rw [if_neg (by simp [e1]), if_pos]
    rw [← isCompatible_iff, ← isCompatible_iff, ← isCompatible_iff] at h2
    simp only [Bool.not_eq_true', Bool.and_eq_false_iff]
    simp only [not_and_or, Bool.not_eq_true] at h2
    tauto
  refine Or.inr ?_
  have e2 : (!(isCompatible fa1.geom fa2.geom true && isCompatible fa1.geom fb1.geom true && isCompatible fa1.geom fb2.geom true)) = false := by
    rw [(isCompatible_iff _ _).2 h2.1, (isCompatible_iff _ _).2 h2.2.1, (isCompatible_iff _ _).2 h2.2.2]; rfl
  by_cases h3 : GoodToeplitz lT lE dl fa1.geom.lmax ((fa1.pureAny || fb1.pureAny) = true)
  swap
  · refine Or.inl ⟨h1, h2, h3, ?_⟩
    rw [← toeplitz_iff] at h3
    have e3 : toeplitzSanity lT lE dl fa1.geom.lmax (fa1.pureAny || fb1.pureAny) = some .value := by
      unfold toeplitzSanity at h3 ⊢
      split_ifs at h3 ⊢ <;> first | rfl | exact absurd rfl h3
    simp only [r]
    unfold covCompute
    simp only [Option.getD_some]
    rw [if_neg (by simp [e1]), if_neg (by simp [e2]), e3]
  · refine Or.inr ⟨h1, h2, h3, ?_⟩
    rw [← toeplitz_iff] at h3
    simp only [r]
    unfold covCompute
    simp only [Option.getD_some]
    rw [if_neg (by simp [e1]), if_neg (by simp [e2]), h3]
    rfl

end

/-! ## The C function -/

theorem scaled_eq (M : ℕ) (p : List ℝ) :
    (tab (M + 1) fun l : ℕ => p.getD l 0 * ((l : ℝ) + 1 / 2) / (2 * Real.pi)) = usedPcl M p := by
  unfold usedPcl
  congr 1
  funext l
  unfold scalePcl
  have hpi : Real.pi ≠ 0 := Real.pi_ne_zero
  field_simp
  ring

/-- The arguments with which the coefficients are computed. -/
def covArgs (junk : ℕ → ℝ) (lmaxMask : ℕ) (lT lE dl : ℤ) (spin0 : Bool) : CouplingArgs :=
  ⟨0, if spin0 then 0 else 2, lmaxMask, false, false, false, false, !spin0, lT, lE, dl, junk⟩

noncomputable def covXi (W : Wigner) (junk : ℕ → ℝ) (lmax lmaxMask : ℕ) (lT lE dl : ℤ) (spin0 : Bool) (p : List ℝ) : CovXi ℝ :=
  let x := (covArgs junk lmaxMask lT lE dl spin0).xi W lmax (usedPcl lmaxMask p)
  if spin0 then ⟨x.1, x.1, x.1, x.1⟩ else ⟨x.1, x.2.1 0, x.2.2.1 0, x.2.2.2 0⟩

theorem covInit_eq (W : Wigner) (junk : ℕ → ℝ) (p1 p2 : List ℝ) (lmax lmaxMask : ℕ) (lT lE dl : ℤ) (spin0 : Bool)
    (h1 : p1.length = lmaxMask + 1) (h2 : p2.length = lmaxMask + 1) :
    covInit W junk p1 p2 lmax lmaxMask lT lE dl spin0 = if lmaxMask < lmax then .crash else
      .ok ⟨lmax, spin0, covXi W junk lmax lmaxMask lT lE dl spin0 p1, covXi W junk lmax lmaxMask lT lE dl spin0 p2⟩ := by
  unfold covInit
  rw [if_neg (by omega)]
  simp only [scaled_eq]
  rfl

section plain
variable {W : Wigner} (hW : CouplingSpec.Symmetric W) (junk : ℕ → ℝ) (lmax M : ℕ) (lT lE dl : ℤ) (hT : lT ≤ 0) (p : List ℝ)
include hW hT

theorem cov_table (entry : ℕ → ℕ → ℝ) {l2 l3 : ℕ} (h2 : l2 ≤ lmax) (h3 : l3 ≤ lmax) (he : entry l3 l2 = entry l2 l3) :
    coefTable 0 lmax false lT lE dl entry (l2, l3) = entry l2 l3 := by
  rw [coefTable_plain _ _ _ _ _ _ _ hT h2 h3, if_pos ⟨Nat.zero_le _, Nat.zero_le _⟩, if_neg (by simp)]
  rcases le_total l2 l3 with h' | h'
  · rw [min_eq_left h', max_eq_right h']
  · rw [min_eq_right h', max_eq_left h', he]

theorem covXi_full : Textbook W M lmax (fun l => p.getD l 0) (covXi W junk lmax M lT lE dl false p) := by
  intro l l' hl hl'
  have n0 : (⟨lmax, M, 2, 0, false, true⟩ : Calc).s1 ≠ 0 := two_ne_zero
  refine ⟨?_, ?_, ?_, ?_⟩
  · change coefTable 0 lmax false lT lE dl (entry00 (lfac junk lmax M) ⟨lmax, M, 2, 0, false, true⟩ (usedPcl M p)) (l, l') = _
    rw [cov_table hW _ _ _ _ hT _ hl hl', entry00_eq W junk _ lmax M p rfl hl hl']
    rw [entry00_eq W junk _ lmax M p rfl hl hl', entry00_eq W junk _ lmax M p rfl hl' hl, coupling_comm hW]
  · change coefTable 0 lmax false lT lE dl (entry0s W (lfac junk lmax M) ⟨lmax, M, 2, 0, false, true⟩ (usedPcl M p) 0) (l, l') = _
    rw [cov_table hW _ _ _ _ hT _ hl hl', entry0s_eq W junk _ lmax M p n0 rfl hl hl']
    rw [entry0s_eq W junk _ lmax M p n0 rfl hl hl', entry0s_eq W junk _ lmax M p n0 rfl hl' hl, coupling_comm hW]
  · change coefTable 0 lmax false lT lE dl (entryPP W ⟨lmax, M, 2, 0, false, true⟩ (usedPcl M p) 0) (l, l') = _
    rw [cov_table hW _ _ _ _ hT _ hl hl', entryPP_eq W _ M _ n0 rfl]
    · rfl
    rw [entryPP_eq W _ M _ n0 rfl, entryPP_eq W _ M _ n0 rfl, coupling_comm hW]
  · change coefTable 0 lmax false lT lE dl (entryMM W ⟨lmax, M, 2, 0, false, true⟩ (usedPcl M p) 0) (l, l') = _
    rw [cov_table hW _ _ _ _ hT _ hl hl', entryMM_eq W _ M _ n0 rfl]
    · rfl
    rw [entryMM_eq W _ M _ n0 rfl, entryMM_eq W _ M _ n0 rfl, coupling_comm hW]

theorem covXi_zero {l l' : ℕ} (hl : l ≤ lmax) (hl' : l' ≤ lmax) : (covXi W junk lmax M lT lE dl true p).xi00 l l' =
    CouplingSpec.coupling W 0 0 M (fun l => p.getD l 0) (fun _ => True) l l' := by
  change coefTable 0 lmax false lT lE dl (entry00 (lfac junk lmax M) ⟨lmax, M, 0, 0, false, false⟩ (usedPcl M p)) (l, l') = _
  rw [cov_table hW _ _ _ _ hT _ hl hl', entry00_eq W junk _ lmax M p rfl hl hl']
  rw [entry00_eq W junk _ lmax M p rfl hl hl', entry00_eq W junk _ lmax M p rfl hl' hl, coupling_comm hW]

end plain

/-! ## C68 -/

section calls
variable (W : Wigner) (S : Option MapInfo → Sht) (junk : ℕ → ℝ) (old : Option (CovWsp ℝ)) (fa1 fa2 fb1 fb2 : CovField)
  (lT lE dl : ℤ) (spin0 : Bool)

/-- The spectrum handed to the C function. -/
noncomputable def pclList (S : Option MapInfo → Sht) (f1 g1 f2 g2 : CovField) (m1 n1 m2 n2 : ℕ → ℝ) : List ℝ :=
  (List.range (f1.geom.lmaxMask + 1)).map (alm2cl (prodAlms S f1 g1 m1 n1) (prodAlms S f2 g2 m2 n2))

theorem pclList_length (f1 g1 f2 g2 : CovField) (m1 n1 m2 n2 : ℕ → ℝ) :
    (pclList S f1 g1 f2 g2 m1 n1 m2 n2).length = f1.geom.lmaxMask + 1 := by
  unfold pclList; rw [List.length_map, List.length_range]

theorem pclList_getD (f1 g1 f2 g2 : CovField) (m1 n1 m2 n2 : ℕ → ℝ) {l : ℕ} (hl : l ≤ f1.geom.lmaxMask) :
    (pclList S f1 g1 f2 g2 m1 n1 m2 n2).getD l 0 = alm2cl (prodAlms S f1 g1 m1 n1) (prodAlms S f2 g2 m2 n2) l := by
  unfold pclList
  rw [List.getD_eq_getElem _ _ (by rw [List.length_map, List.length_range]; omega), List.getElem_map, List.getElem_range]

/-- The coefficients of a successful call. -/
theorem covCompute_masks {m1 m2 n1 n2 : ℕ → ℝ} (h1 : fa1.mask = some m1) (h2 : fa2.mask = some m2) (h3 : fb1.mask = some n1)
    (h4 : fb2.mask = some n2) :
    ((maskProdCl S fa1 fb1 fa2 fb2).bind fun p1 => (maskProdCl S fa1 fb2 fa2 fb1).bind fun p2 =>
          covInit W junk p1 p2 fa1.geom.lmax fa1.geom.lmaxMask lT lE dl spin0) =
      if fa1.geom.lmaxMask < fa1.geom.lmax then .crash else
        .ok ⟨fa1.geom.lmax, spin0,
          covXi W junk fa1.geom.lmax fa1.geom.lmaxMask lT lE dl spin0 (pclList S fa1 fb1 fa2 fb2 m1 n1 m2 n2),
          covXi W junk fa1.geom.lmax fa1.geom.lmaxMask lT lE dl spin0 (pclList S fa1 fb2 fa2 fb1 m1 n2 m2 n1)⟩ := by
  rw [maskProdCl_ok S h1 h3 h2 h4, maskProdCl_ok S h1 h4 h2 h3]
  exact covInit_eq _ _ _ _ _ _ _ _ _ _ (pclList_length S fa1 fb1 fa2 fb2 m1 n1 m2 n2) (pclList_length S fa1 fb2 fa2 fb1 m1 n2 m2 n1)

theorem covCompute_accepts (h : Accepts fa1 fa2 fb1 fb2 lT lE dl) :
    covCompute W S junk old fa1 fa2 (some fb1) (some fb2) lT lE dl spin0 =
      match (maskProdCl S fa1 fb1 fa2 fb2).bind fun p1 => (maskProdCl S fa1 fb2 fa2 fb1).bind fun p2 =>
          covInit W junk p1 p2 fa1.geom.lmax fa1.geom.lmaxMask lT lE dl spin0 with
        | .ok cw => (some cw, .ok ())
        | .raises e => (none, .raises e)
        | .crash => (none, .crash) := by
  rcases covCompute_cases W S junk old fa1 fa2 fb1 fb2 lT lE dl spin0 with ⟨h1, -⟩ | ⟨-, h1, -⟩ | ⟨-, -, h1, -⟩ | ⟨-, -, -, h1⟩
  · exact absurd h.1 h1
  · exact absurd h.2.1 h1
  · exact absurd h.2.2 h1
  · exact h1

/-- C68: coefficients are computed exactly for four fields with isotropic masks on the same pixels with the same band limits, none of
them from a catalog, with sensible Toeplitz parameters and a mask band limit not below that of the fields. -/
theorem C68_accepts_iff :
    (∃ cw, covCompute W S junk old fa1 fa2 (some fb1) (some fb2) lT lE dl spin0 = (cw, .ok ())) ↔
      Accepts fa1 fa2 fb1 fb2 lT lE dl ∧ (∀ f ∈ [fa1, fa2, fb1, fb2], f.mask ≠ none) ∧ fa1.geom.lmax ≤ fa1.geom.lmaxMask := by
  constructor
  · rintro ⟨cw, h⟩
    rcases covCompute_cases W S junk old fa1 fa2 fb1 fb2 lT lE dl spin0 with ⟨-, h1⟩ | ⟨-, -, h1⟩ | ⟨-, -, -, h1⟩ | ⟨a1, a2, a3, h1⟩
    · rw [h] at h1; cases h1
    · rw [h] at h1; cases h1
    · rw [h] at h1; cases h1
    refine ⟨⟨a1, a2, a3⟩, ?_⟩
    rw [h] at h1
    by_cases hm : fa1.mask = none ∨ fb1.mask = none ∨ fa2.mask = none ∨ fb2.mask = none
    · rw [maskProdCl_none S hm] at h1; cases h1
    push Not at hm
    obtain ⟨m1, e1⟩ := Option.ne_none_iff_exists'.1 hm.1
    obtain ⟨n1, e2⟩ := Option.ne_none_iff_exists'.1 hm.2.1
    obtain ⟨m2, e3⟩ := Option.ne_none_iff_exists'.1 hm.2.2.1
    obtain ⟨n2, e4⟩ := Option.ne_none_iff_exists'.1 hm.2.2.2
    refine ⟨by simp [e1, e2, e3, e4], ?_⟩
    rw [covCompute_masks W S junk fa1 fa2 fb1 fb2 lT lE dl spin0 e1 e3 e2 e4] at h1
    by_contra hc
    rw [if_pos (by omega)] at h1
    cases h1
  · rintro ⟨h, hm, hl⟩
    obtain ⟨m1, e1⟩ := Option.ne_none_iff_exists'.1 (hm fa1 (by simp))
    obtain ⟨m2, e2⟩ := Option.ne_none_iff_exists'.1 (hm fa2 (by simp))
    obtain ⟨n1, e3⟩ := Option.ne_none_iff_exists'.1 (hm fb1 (by simp))
    obtain ⟨n2, e4⟩ := Option.ne_none_iff_exists'.1 (hm fb2 (by simp))
    rw [covCompute_accepts W S junk old fa1 fa2 fb1 fb2 lT lE dl spin0 h,
      covCompute_masks W S junk fa1 fa2 fb1 fb2 lT lE dl spin0 e1 e2 e3 e4, if_neg (by omega)]
    exact ⟨_, rfl⟩

variable {W S junk old fa1 fa2 fb1 fb2 lT lE dl spin0}

theorem covCompute_ok {cw : CovWsp ℝ}
    (h : covCompute W S junk old fa1 fa2 (some fb1) (some fb2) lT lE dl spin0 = (some cw, .ok ())) :
    Accepts fa1 fa2 fb1 fb2 lT lE dl ∧ fa1.geom.lmax ≤ fa1.geom.lmaxMask ∧ ∃ m1 m2 n1 n2, fa1.mask = some m1 ∧ fa2.mask = some m2 ∧
      fb1.mask = some n1 ∧ fb2.mask = some n2 ∧ cw = ⟨fa1.geom.lmax, spin0,
          covXi W junk fa1.geom.lmax fa1.geom.lmaxMask lT lE dl spin0 (pclList S fa1 fb1 fa2 fb2 m1 n1 m2 n2),
          covXi W junk fa1.geom.lmax fa1.geom.lmaxMask lT lE dl spin0 (pclList S fa1 fb2 fa2 fb1 m1 n2 m2 n1)⟩ := by
  obtain ⟨ha, hm, hl⟩ := (C68_accepts_iff W S junk old fa1 fa2 fb1 fb2 lT lE dl spin0).1 ⟨_, h⟩
  obtain ⟨m1, e1⟩ := Option.ne_none_iff_exists'.1 (hm fa1 (by simp))
  obtain ⟨m2, e2⟩ := Option.ne_none_iff_exists'.1 (hm fa2 (by simp))
  obtain ⟨n1, e3⟩ := Option.ne_none_iff_exists'.1 (hm fb1 (by simp))
  obtain ⟨n2, e4⟩ := Option.ne_none_iff_exists'.1 (hm fb2 (by simp))
  refine ⟨ha, hl, m1, m2, n1, n2, e1, e2, e3, e4, ?_⟩
  rw [covCompute_accepts W S junk old fa1 fa2 fb1 fb2 lT lE dl spin0 ha,
      covCompute_masks W S junk fa1 fa2 fb1 fb2 lT lE dl spin0 e1 e2 e3 e4, if_neg (by omega)] at h
  exact (Option.some.inj (Prod.mk.inj h).1).symm

/-- The same transforms are used for all fields. -/
theorem same_sht (hS : Respects S) {f g : CovField} (h : SameSky f g) (hf : f.geom.minfo ≠ none) :
    S g.geom.minfo = S f.geom.minfo := by
  have hp := h.pixels
  cases h1 : f.geom.minfo with
  | none => exact absurd h1 hf
  | some a =>
    cases h2 : g.geom.minfo with
    | none => rw [h1, h2] at hp; cases hp
    | some b =>
      rw [h1, h2] at hp
      exact (hS a b (by simpa [minfoNe] using hp)).symm

theorem coupling_cong (s1 s2 M : ℕ) (sel : ℕ → Prop) [DecidablePred sel] {p q : ℕ → ℝ} (h : ∀ l ≤ M, p l = q l) (l l' : ℕ) :
    CouplingSpec.coupling W s1 s2 M p sel l l' = CouplingSpec.coupling W s1 s2 M q sel l l' := by
  unfold CouplingSpec.coupling
  refine sum_congr rfl fun l1 hl1 => ?_
  rw [h l1 (Nat.lt_succ_iff.1 (mem_range.1 hl1))]

theorem Textbook.congr {M lmax : ℕ} {p q : ℕ → ℝ} {x : CovXi ℝ} (h : ∀ l ≤ M, p l = q l) (hx : Textbook W M lmax p x) :
    Textbook W M lmax q x := by
  intro l l' hl hl'
  rw [← coupling_cong 0 0 M _ h, ← coupling_cong 0 2 M _ h, ← coupling_cong 2 2 M _ h, ← coupling_cong 2 2 M _ h]
  exact hx l l' hl hl'

/-- C68: without Toeplitz approximation the coefficients are the textbook sums for the spectra of products of masks. -/
theorem C68_textbook (hW : CouplingSpec.Symmetric W) (hS : Respects S) (hT : lT ≤ 0) (hmap : fa1.geom.minfo ≠ none) {cw : CovWsp ℝ}
    (h : covCompute W S junk old fa1 fa2 (some fb1) (some fb2) lT lE dl false = (some cw, .ok ())) :
    cw.lmax = fa1.geom.lmax ∧ cw.spin0Only = false ∧ ∃ m1 m2 n1 n2, fa1.mask = some m1 ∧ fa2.mask = some m2 ∧ fb1.mask = some n1 ∧
      fb2.mask = some n2 ∧
      Textbook W fa1.geom.lmaxMask cw.lmax
        (productSpectrum (S fa1.geom.minfo) fa1.geom.lmaxMask fa1.nIterMask fa2.nIterMask m1 n1 m2 n2) cw.x1122 ∧
      Textbook W fa1.geom.lmaxMask cw.lmax
        (productSpectrum (S fa1.geom.minfo) fa1.geom.lmaxMask fa1.nIterMask fa2.nIterMask m1 n2 m2 n1) cw.x1221 := by
  obtain ⟨ha, -, m1, m2, n1, n2, e1, e2, e3, e4, rfl⟩ := covCompute_ok h
  have s2 := same_sht hS ha.2.1.1 hmap
  have l2 := ha.2.1.1.lmaxMask
  refine ⟨rfl, rfl, m1, m2, n1, n2, e1, e2, e3, e4, ?_, ?_⟩
  · refine Textbook.congr (fun l hl => ?_) (covXi_full hW junk fa1.geom.lmax fa1.geom.lmaxMask lT lE dl hT _)
    rw [pclList_getD S _ _ _ _ _ _ _ _ hl]
    unfold productSpectrum prodAlms
    rw [s2, l2]
  · refine Textbook.congr (fun l hl => ?_) (covXi_full hW junk fa1.geom.lmax fa1.geom.lmaxMask lT lE dl hT _)
    rw [pclList_getD S _ _ _ _ _ _ _ _ hl]
    unfold productSpectrum prodAlms
    rw [s2, l2]

/-- C68: the same with `spin0_only`. -/
theorem C68_textbook_spin0 (hW : CouplingSpec.Symmetric W) (hS : Respects S) (hT : lT ≤ 0) (hmap : fa1.geom.minfo ≠ none) {cw : CovWsp ℝ}
    (h : covCompute W S junk old fa1 fa2 (some fb1) (some fb2) lT lE dl true = (some cw, .ok ())) :
    cw.lmax = fa1.geom.lmax ∧ cw.spin0Only = true ∧ ∃ m1 m2 n1 n2, fa1.mask = some m1 ∧ fa2.mask = some m2 ∧ fb1.mask = some n1 ∧
      fb2.mask = some n2 ∧ ∀ l l', l ≤ cw.lmax → l' ≤ cw.lmax →
      cw.x1122.xi00 l l' = CouplingSpec.coupling W 0 0 fa1.geom.lmaxMask
        (productSpectrum (S fa1.geom.minfo) fa1.geom.lmaxMask fa1.nIterMask fa2.nIterMask m1 n1 m2 n2) (fun _ => True) l l' ∧
      cw.x1221.xi00 l l' = CouplingSpec.coupling W 0 0 fa1.geom.lmaxMask
        (productSpectrum (S fa1.geom.minfo) fa1.geom.lmaxMask fa1.nIterMask fa2.nIterMask m1 n2 m2 n1) (fun _ => True) l l' := by
  obtain ⟨ha, -, m1, m2, n1, n2, e1, e2, e3, e4, rfl⟩ := covCompute_ok h
  have s2 := same_sht hS ha.2.1.1 hmap
  have l2 := ha.2.1.1.lmaxMask
  refine ⟨rfl, rfl, m1, m2, n1, n2, e1, e2, e3, e4, fun l l' hl hl' => ⟨?_, ?_⟩⟩
  · rw [covXi_zero hW junk _ _ _ _ _ hT _ hl hl']
    refine coupling_cong _ _ _ _ (fun k hk => ?_) _ _
    rw [pclList_getD S _ _ _ _ _ _ _ _ hk]
    unfold productSpectrum prodAlms
    rw [s2, l2]
  · rw [covXi_zero hW junk _ _ _ _ _ hT _ hl hl']
    refine coupling_cong _ _ _ _ (fun k hk => ?_) _ _
    rw [pclList_getD S _ _ _ _ _ _ _ _ hk]
    unfold productSpectrum prodAlms
    rw [s2, l2]

/-- Exchange of the pairs. -/
theorem accepts_symm (h : Accepts fa1 fa2 fb1 fb2 lT lE dl) : Accepts fb1 fb2 fa1 fa2 lT lE dl := by
  obtain ⟨⟨a1, a2, a3, a4⟩, ⟨g1, g2, g3⟩, t⟩ := h
  have tr : ∀ {f g : CovField}, SameSky fa1 f → SameSky fa1 g → SameSky f g := by
    intro f g hf hg
    refine ⟨?_, hf.lmax.symm.trans hg.lmax, hf.lmaxMask.symm.trans hg.lmaxMask⟩
    exact minfoNe_trans hf.pixels hg.pixels
  have rf : SameSky fa1 fa1 := ⟨minfoNe_self _, rfl, rfl⟩
  refine ⟨⟨a3, a4, a1, a2⟩, ⟨tr g2 g3, tr g2 rf, tr g2 g1⟩, ?_⟩
  rw [← g2.lmax, Bool.or_comm]
  exact t

theorem pclList_congr {f1 g1 f2 g2 f1' g1' f2' g2' : CovField} {m1 n1 m2 n2 m1' n1' m2' n2' : ℕ → ℝ}
    (hM : f1.geom.lmaxMask = f1'.geom.lmaxMask)
    (h : ∀ l, alm2cl (prodAlms S f1 g1 m1 n1) (prodAlms S f2 g2 m2 n2) l = alm2cl (prodAlms S f1' g1' m1' n1') (prodAlms S f2' g2' m2' n2') l) :
    pclList S f1 g1 f2 g2 m1 n1 m2 n2 = pclList S f1' g1' f2' g2' m1' n1' m2' n2' := by
  unfold pclList
  rw [hM]
  exact List.map_congr_left fun l _ => h l

/-- C68: if all fields have the same number of iterations for masks, exchanging the two pairs of fields gives the same coefficients,
also with Toeplitz approximation. -/
theorem C68_exchange (hS : Respects S) (hmap : fa1.geom.minfo ≠ none) {k : ℕ} (hk : ∀ f ∈ [fa1, fa2, fb1, fb2], f.nIterMask = k)
    (old' : Option (CovWsp ℝ)) {cw : CovWsp ℝ}
    (h : covCompute W S junk old fa1 fa2 (some fb1) (some fb2) lT lE dl spin0 = (some cw, .ok ())) :
    covCompute W S junk old' fb1 fb2 (some fa1) (some fa2) lT lE dl spin0 = (some cw, .ok ()) := by
  obtain ⟨ha, hl, m1, m2, n1, n2, e1, e2, e3, e4, rfl⟩ := covCompute_ok h
  have s2 := same_sht hS ha.2.1.1 hmap
  have s3 := same_sht hS ha.2.1.2.1 hmap
  have s4 := same_sht hS ha.2.1.2.2 hmap
  have l2 := ha.2.1.1.lmaxMask
  have l3 := ha.2.1.2.1.lmaxMask
  have l4 := ha.2.1.2.2.lmaxMask
  have k1 := hk fa1 (by simp)
  have k2 := hk fa2 (by simp)
  have k3 := hk fb1 (by simp)
  have k4 := hk fb2 (by simp)
  have q : ∀ {f g : CovField} {m n : ℕ → ℝ}, S f.geom.minfo = S fa1.geom.minfo → fa1.geom.lmaxMask = f.geom.lmaxMask → f.nIterMask = k →
      prodAlms S f g m n = maskAlms (S fa1.geom.minfo) fa1.geom.lmaxMask k fun p => m p * n p := by
    intro f g m n h1 h2 h3
    unfold prodAlms
    rw [h1, ← h2, h3]
  rw [covCompute_accepts W S junk old' fb1 fb2 fa1 fa2 lT lE dl spin0 (accepts_symm ha),
    covCompute_masks W S junk fb1 fb2 fa1 fa2 lT lE dl spin0 e3 e4 e1 e2, if_neg (by rw [← ha.2.1.2.1.lmax, ← l3]; omega),
    ← ha.2.1.2.1.lmax, ← l3,
    pclList_congr (f1 := fb1) (g1 := fa1) (f2 := fb2) (g2 := fa2) (f1' := fa1) (g1' := fb1) (f2' := fa2) (g2' := fb2) (m1' := m1) (n1' := n1)
      (m2' := m2) (n2' := n2) l3.symm fun l => by
        rw [q s3 l3 k3, q s4 l4 k4, q rfl rfl k1, q s2 l2 k2]
        simp only [mul_comm (n1 _), mul_comm (n2 _)],
    pclList_congr (f1 := fb1) (g1 := fa2) (f2 := fb2) (g2 := fa1) (f1' := fa1) (g1' := fb2) (f2' := fa2) (g2' := fb1) (m1' := m1) (n1' := n2)
      (m2' := m2) (n2' := n1) l3.symm fun l => by
        rw [q s3 l3 k3, q s4 l4 k4, q rfl rfl k1, q s2 l2 k2, alm2cl_comm]
        simp only [mul_comm (n1 _), mul_comm (n2 _)]]

theorem alm2cl_self_nonneg (a : ℕ → ℕ → ℂ) (l : ℕ) : 0 ≤ alm2cl a a l := by
  unfold alm2cl
  refine div_nonneg (sum_nonneg fun m _ => mul_nonneg (by split <;> norm_num) ?_) (by positivity)
  rw [Complex.mul_conj]
  exact_mod_cast Complex.normSq_nonneg _

theorem coupling_nonneg (s M : ℕ) (sel : ℕ → Prop) [DecidablePred sel] {p : ℕ → ℝ} (h : ∀ l, 0 ≤ p l) (l l' : ℕ) :
    0 ≤ CouplingSpec.coupling W s s M p sel l l' := by
  unfold CouplingSpec.coupling
  refine sum_nonneg fun l1 _ => ?_
  split
  · rw [mul_assoc]
    exact mul_nonneg (mul_nonneg (by positivity) (h l1)) (mul_self_nonneg _)
  · exact le_refl _

/-- C68: for the power spectrum of one field with itself (default arguments, without Toeplitz approximation) both sets of coefficients are
equal, and they are not negative except perhaps those for products of scalar and spin fields. -/
theorem C68_nonneg (hW : CouplingSpec.Symmetric W) (hS : Respects S) (hT : lT ≤ 0) (hmap : fa1.geom.minfo ≠ none) {cw : CovWsp ℝ}
    (h : covCompute W S junk old fa1 fa1 none none lT lE dl false = (some cw, .ok ())) :
    cw.x1122 = cw.x1221 ∧ ∀ l l', l ≤ cw.lmax → l' ≤ cw.lmax → 0 ≤ cw.x1122.xi00 l l' ∧ 0 ≤ cw.x1122.xi22p l l' ∧ 0 ≤ cw.x1122.xi22m l l' := by
  have h' : covCompute W S junk old fa1 fa1 (some fa1) (some fa1) lT lE dl false = (some cw, .ok ()) := h
  have hx : cw.x1122 = cw.x1221 := by
    obtain ⟨-, -, m1, m2, n1, n2, e1, e2, e3, e4, rfl⟩ := covCompute_ok h'
    rw [e1] at e2 e3 e4
    rw [← Option.some.inj e2, ← Option.some.inj e3, ← Option.some.inj e4]
  obtain ⟨-, -, m1, m2, n1, n2, e1, e2, e3, e4, t, -⟩ := C68_textbook hW hS hT hmap h'
  rw [e1] at e2 e3 e4
  rw [← Option.some.inj e2, ← Option.some.inj e3, ← Option.some.inj e4] at t
  refine ⟨hx, fun l l' hl hl' => ?_⟩
  obtain ⟨t1, -, t3, t4⟩ := t l l' hl hl'
  have hp : ∀ l, 0 ≤ productSpectrum (S fa1.geom.minfo) fa1.geom.lmaxMask fa1.nIterMask fa1.nIterMask m1 m1 m1 m1 l :=
    fun l => alm2cl_self_nonneg _ l
  rw [t1, t3, t4]
  exact ⟨coupling_nonneg _ _ _ hp _ _, coupling_nonneg _ _ _ hp _ _, coupling_nonneg _ _ _ hp _ _⟩

/-- C68: a call that fails its checks leaves the coefficients computed before in place. Missing: fields from catalogs. -/
theorem C68_keeps_partial {e : Err} (hm : ∀ f ∈ [fa1, fa2, fb1, fb2], f.mask ≠ none) {new : Option (CovWsp ℝ)}
    (h : covCompute W S junk old fa1 fa2 (some fb1) (some fb2) lT lE dl spin0 = (new, .raises e)) : new = old := by
  rcases covCompute_cases W S junk old fa1 fa2 fb1 fb2 lT lE dl spin0 with ⟨-, h1⟩ | ⟨-, -, h1⟩ | ⟨-, -, -, h1⟩ | ⟨-, -, -, h1⟩
  · rw [h] at h1; exact (Prod.mk.inj h1).1
  · rw [h] at h1; exact (Prod.mk.inj h1).1
  · rw [h] at h1; exact (Prod.mk.inj h1).1
  obtain ⟨m1, e1⟩ := Option.ne_none_iff_exists'.1 (hm fa1 (by simp))
  obtain ⟨m2, e2⟩ := Option.ne_none_iff_exists'.1 (hm fa2 (by simp))
  obtain ⟨n1, e3⟩ := Option.ne_none_iff_exists'.1 (hm fb1 (by simp))
  obtain ⟨n2, e4⟩ := Option.ne_none_iff_exists'.1 (hm fb2 (by simp))
  rw [h, covCompute_masks W S junk fa1 fa2 fb1 fb2 lT lE dl spin0 e1 e2 e3 e4] at h1
  by_cases hc : fa1.geom.lmaxMask < fa1.geom.lmax
  · rw [if_pos hc] at h1; cases h1
  · rw [if_neg hc] at h1; cases h1

/-- C68: fields from catalogs raise an exception, and the coefficients computed before are lost. -/
theorem C68_catalog_loses (ha : Accepts fa1 fa2 fb1 fb2 lT lE dl)
    (hm : fa1.mask = none ∨ fa2.mask = none ∨ fb1.mask = none ∨ fb2.mask = none) :
    covCompute W S junk old fa1 fa2 (some fb1) (some fb2) lT lE dl spin0 = (none, .raises .value) := by
  rw [covCompute_accepts W S junk old fa1 fa2 fb1 fb2 lT lE dl spin0 ha, maskProdCl_none S (by tauto)]
  rfl

/-- C68: a mask band limit below that of the fields ends the program. -/
theorem C68_mask_limit_crashes (ha : Accepts fa1 fa2 fb1 fb2 lT lE dl) (hm : ∀ f ∈ [fa1, fa2, fb1, fb2], f.mask ≠ none)
    (hl : fa1.geom.lmaxMask < fa1.geom.lmax) :
    covCompute W S junk old fa1 fa2 (some fb1) (some fb2) lT lE dl spin0 = (none, .crash) := by
  obtain ⟨m1, e1⟩ := Option.ne_none_iff_exists'.1 (hm fa1 (by simp))
  obtain ⟨m2, e2⟩ := Option.ne_none_iff_exists'.1 (hm fa2 (by simp))
  obtain ⟨n1, e3⟩ := Option.ne_none_iff_exists'.1 (hm fb1 (by simp))
  obtain ⟨n2, e4⟩ := Option.ne_none_iff_exists'.1 (hm fb2 (by simp))
  rw [covCompute_accepts W S junk old fa1 fa2 fb1 fb2 lT lE dl spin0 ha,
    covCompute_masks W S junk fa1 fa2 fb1 fb2 lT lE dl spin0 e1 e2 e3 e4, if_pos hl]

/-- C68: by default the second pair of fields is the first. -/
theorem C68_default :
    covCompute W S junk old fa1 fa2 none none lT lE dl spin0 = covCompute W S junk old fa1 fa2 (some fa1) (some fa2) lT lE dl spin0 := rfl

/-- C68 with C26: for fields with the same number of iterations for masks, computing coefficients and covariance with the two pairs
of fields exchanged gives the transposed matrix, with and without Toeplitz approximation. -/
theorem C68_covariance_exchange (hS : Respects S) (hmap : fa1.geom.minfo ≠ none) {k : ℕ}
    (hk : ∀ f ∈ [fa1, fa2, fb1, fb2], f.nIterMask = k) (old' : Option (CovWsp ℝ)) {cw : Option (CovWsp ℝ)}
    (h : covCompute W S junk old fa1 fa2 (some fb1) (some fb2) lT lE dl spin0 = (cw, .ok ()))
    {L : LinAlg ℝ} {jk jk' : CovJunk ℝ} {a1 a2 b1 b2 : ℤ} {s s' : CovCls ℝ} {oa ob : Obj ℝ} {a b : Wsp ℝ} {coupled : Bool}
    (hoa : oa.wsp = some a) (hob : ob.wsp = some b) (hA : WspSpec.Bounded a.bin a.bin.ellMax) (hB : WspSpec.Bounded b.bin b.bin.ellMax)
    (hp : Plain coupled a b) (hs : Exchanged a1 a2 b1 b2 s s') {C : Arr2 ℝ}
    (hC : gaussianCovariance L jk cw a1 a2 b1 b2 s oa (some ob) coupled = .ok C) :
    ∃ cw' C', covCompute W S junk old' fb1 fb2 (some fa1) (some fa2) lT lE dl spin0 = (cw', .ok ()) ∧
      gaussianCovariance L jk' cw' b1 b2 a1 a2 s' ob (some oa) coupled = .ok C' ∧ C'.rows = C.cols ∧ C'.cols = C.rows ∧
      ∀ i j, i < C.rows → j < C.cols → Covered coupled a b i j → C'.val j i = C.val i j := by
  cases cw with
  | none =>
    obtain ⟨e, he⟩ := C29_missing (L := L) (jk := jk) (a1 := a1) (a2 := a2) (b1 := b1) (b2 := b2) (s := s) (oa := oa) (coupled := coupled)
      none (some ob) (Or.inr (Or.inr rfl))
    rw [hC] at he; cases he
  | some cw =>
    have hex := C68_exchange hS hmap hk old' h
    obtain ⟨-, -, m1, m2, n1, n2, -, -, -, -, rfl⟩ := covCompute_ok h
    have hi := covInit_eq W junk (pclList S fa1 fb1 fa2 fb2 m1 n1 m2 n2) (pclList S fa1 fb2 fa2 fb1 m1 n2 m2 n1) fa1.geom.lmax
      fa1.geom.lmaxMask lT lE dl spin0 (pclList_length _ _ _ _ _ _ _ _ _) (pclList_length _ _ _ _ _ _ _ _ _)
    rw [if_neg (by have := (covCompute_ok h).2.1; omega)] at hi
    obtain ⟨-, -, y1, y2⟩ := C26_computed_symmetric hi
    obtain ⟨C', r1, r2⟩ := C26_exchange (jk' := jk') hoa hob hA hB hp y1 y2 hs hC
    exact ⟨_, C', hex, r1, r2⟩

end calls

end NaMaster
