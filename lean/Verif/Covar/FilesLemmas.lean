import Verif.Covar.FilesModel
import Verif.Files.Lemmas3
import Verif.Files.Spec

/-! # What the reader of covariance workspace files does, in closed form -/

set_option linter.unusedSectionVars false

namespace NaMaster

variable {K : Type*} [Field K] [LinearOrder K]

/-- Coefficients in a unit. -/
def coeffVal (j : CovFileJunk K) (n : ℤ) (h : Hdu K) : Outcome (ℕ → ℕ → K) :=
  let n0 : ℤ := (h.dims[0]?.map Nat.cast).getD (j.int "NAXIS1")
  let n1 : ℤ := (h.dims[1]?.map Nat.cast).getD (j.int "NAXIS2")
  if n0 ≠ n then .raises .runtime
  else if n0 < n1 then .crash
  else if h.complete = true ∧ n0.toNat * n1.toNat ≤ h.dims.prod then
    .ok (tab2 n0.toNat n0.toNat fun i k =>
      if i * n0.toNat + k < n0.toNat * n1.toNat then h.dbls 0 (i * n0.toNat + k) else j.dbl (i * n0.toNat + k))
  else .raises .runtime

/-- Coefficients in a file. -/
def coeffImg (j : CovFileJunk K) (f : FitsFile K) (n : ℤ) (name : String) : Outcome (ℕ → ℕ → K) :=
  match f.img name with
  | none => .raises .runtime
  | some h => coeffVal j n h

theorem coeffChecked_eq (j : CovFileJunk K) (f : FitsFile K) (n : ℤ) (name : String) (s : Rd K) (hs : s.status = 0) :
    ∃ s', s'.status = 0 ∧ coeffChecked j f n name s = (coeffImg j f n name).bind fun m => .ok (m, s') := by
  unfold coeffChecked coeffFromHdus coeffImg
  cases hf : f.img name with
  | none =>
    refine ⟨s, hs, ?_⟩
    rw [movnam_missing s hs hf]
    simp only [imgSize2]
    by_cases h1 : j.int "NAXIS1" = n
    · simp [h1, readDbl, checkFits, Outcome.bind]
    · simp [h1, Outcome.bind]
  | some h =>
    have ht : h.isTable = false := find_isTable hf
    refine ⟨⟨some h, 0⟩, rfl, ?_⟩
    rw [movnam_found s hs hf]
    simp only [imgSize2, ht, coeffVal]
    by_cases h1 : ((h.dims[0]?.map Nat.cast).getD (j.int "NAXIS1") : ℤ) = n
    swap
    · simp [h1, Outcome.bind]
    by_cases h2 : n < ((h.dims[1]?.map Nat.cast).getD (j.int "NAXIS2") : ℤ)
    · simp [h1, h2, Outcome.bind]
    by_cases h3 : h.complete = true ∧ n.toNat * ((h.dims[1]?.map Nat.cast).getD (j.int "NAXIS2") : ℤ).toNat ≤ h.dims.prod
    · have := readDbl_ok 0 0 (n.toNat * ((h.dims[1]?.map Nat.cast).getD (j.int "NAXIS2") : ℤ).toNat) j.dbl h h3.1
        (by omega)
      simp [h1, h2, h3, Outcome.bind, this, checkFits]
    · have := readDbl_bad 0 0 (n.toNat * ((h.dims[1]?.map Nat.cast).getD (j.int "NAXIS2") : ℤ).toNat) j.dbl h
        (by rw [Nat.zero_add]; exact h3)
      simp [h1, h2, h3, Outcome.bind, this, checkFits]

/-- The workspace made of the coefficients of a file. -/
def covVal (j : CovFileJunk K) (f : FitsFile K) (lmax spin0 : ℤ) : Outcome (CovWsp K) :=
  (coeffImg j f (lmax + 1) "XI00_1122").bind fun a00 =>
  (coeffImg j f (lmax + 1) "XI00_1221").bind fun b00 =>
  if spin0 ≠ 0 then .ok ⟨lmax.toNat, true, ⟨a00, a00, a00, a00⟩, ⟨b00, b00, b00, b00⟩⟩
  else
    (coeffImg j f (lmax + 1) "XI02_1122").bind fun a02 =>
    (coeffImg j f (lmax + 1) "XI02_1221").bind fun b02 =>
    (coeffImg j f (lmax + 1) "XI22P_1122").bind fun ap =>
    (coeffImg j f (lmax + 1) "XI22P_1221").bind fun bp =>
    (coeffImg j f (lmax + 1) "XI22M_1122").bind fun am =>
    (coeffImg j f (lmax + 1) "XI22M_1221").bind fun bm =>
    .ok ⟨lmax.toNat, false, ⟨a00, a02, ap, am⟩, ⟨b00, b02, bp, bm⟩⟩

theorem chain_step {α : Type*} (j : CovFileJunk K) (f : FitsFile K) (n : ℤ) (name : String) (s : Rd K) (hs : s.status = 0)
    (k : (ℕ → ℕ → K) × Rd K → Outcome α) (k' : (ℕ → ℕ → K) → Outcome α)
    (h : ∀ m s', s'.status = 0 → k (m, s') = k' m) :
    (coeffChecked j f n name s).bind k = (coeffImg j f n name).bind k' := by
  obtain ⟨s', h1, h2⟩ := coeffChecked_eq j f n name s hs
  rw [h2]
  cases coeffImg j f n name with
  | ok m => exact h m s' h1
  | raises e => rfl
  | crash => rfl

theorem readCovar_eq (j : CovFileJunk K) (f : FitsFile K) (force : Bool) :
    readCovar j f force =
      match f.find? (fun h => h.name == "CWSP_PRIMARY") with
      | none => .raises .runtime
      | some h =>
        match h.keys.lookup "LMAX" with
        | none => .raises .runtime
        | some lmax => covVal j f lmax (if force then 1 else (h.keys.lookup "SPIN0_ONLY").getD 0) := by
  unfold readCovar
  cases f with
  | nil => simp [fitsOpen, checkFits, Outcome.bind]
  | cons g t =>
    have ho : (fitsOpen (g :: t)) = ⟨some g, 0⟩ := by simp [fitsOpen]
    rw [ho]
    generalize g :: t = f
    simp only [checkFits, ne_eq, not_true_eq_false, if_false, Outcome.bind, movnamAny]
    cases hf : f.find? (fun h => h.name == "CWSP_PRIMARY") with
    | none => simp [readKey]
    | some h =>
      simp only
      cases hl : h.keys.lookup "LMAX" with
      | none => simp [readKey, hl]
      | some lmax =>
        rw [readKey_ok _ _ hl]
        simp only [not_true_eq_false, if_false]
        have final : ∀ (sp : ℤ) (s : Rd K), s.status = 0 →
            ((coeffChecked j f (lmax + 1) "XI00_1122" s).bind fun x =>
            (coeffChecked j f (lmax + 1) "XI00_1221" x.2).bind fun y =>
            if sp ≠ 0 then .ok ⟨lmax.toNat, true, ⟨x.1, x.1, x.1, x.1⟩, ⟨y.1, y.1, y.1, y.1⟩⟩
            else
              (coeffChecked j f (lmax + 1) "XI02_1122" y.2).bind fun z =>
              (coeffChecked j f (lmax + 1) "XI02_1221" z.2).bind fun u =>
              (coeffChecked j f (lmax + 1) "XI22P_1122" u.2).bind fun v =>
              (coeffChecked j f (lmax + 1) "XI22P_1221" v.2).bind fun w =>
              (coeffChecked j f (lmax + 1) "XI22M_1122" w.2).bind fun p =>
              (coeffChecked j f (lmax + 1) "XI22M_1221" p.2).bind fun q =>
              .ok ⟨lmax.toNat, false, ⟨x.1, z.1, v.1, p.1⟩, ⟨y.1, u.1, w.1, q.1⟩⟩) = covVal j f lmax sp := by
          intro sp s hs
          unfold covVal
          refine chain_step j f _ _ s hs _ _ fun m1 s1 h1 => ?_
          refine chain_step j f _ _ s1 h1 _ _ fun m2 s2 h2 => ?_
          by_cases hsp : sp ≠ 0
          · rw [if_pos hsp, if_pos hsp]
          rw [if_neg hsp, if_neg hsp]
          refine chain_step j f _ _ s2 h2 _ _ fun m3 s3 h3 => ?_
          refine chain_step j f _ _ s3 h3 _ _ fun m4 s4 h4 => ?_
          refine chain_step j f _ _ s4 h4 _ _ fun m5 s5 h5 => ?_
          refine chain_step j f _ _ s5 h5 _ _ fun m6 s6 h6 => ?_
          refine chain_step j f _ _ s6 h6 _ _ fun m7 s7 h7 => ?_
          exact chain_step j f _ _ s7 h7 _ _ fun m8 s8 h8 => rfl
        cases force with
        | true => exact final 1 _ rfl
        | false =>
          simp only [Bool.false_eq_true, if_false]
          cases hsp : h.keys.lookup "SPIN0_ONLY" with
          | none => rw [readKey_missing _ hsp]; exact final 0 _ rfl
          | some v => rw [readKey_ok _ _ hsp]; exact final v _ rfl

theorem bind_ok {α β : Type*} {o : Outcome α} {k : α → Outcome β} {b : β} (h : o.bind k = .ok b) :
    ∃ a, o = .ok a ∧ k a = .ok b := by
  cases o with
  | ok a => exact ⟨a, rfl, h⟩
  | raises e => cases h
  | crash => cases h

theorem bind_crash {α β : Type*} {o : Outcome α} {k : α → Outcome β} (h : o.bind k = .crash) :
    o = .crash ∨ ∃ a, o = .ok a ∧ k a = .crash := by
  cases o with
  | ok a => exact Or.inr ⟨a, rfl, h⟩
  | raises e => cases h
  | crash => exact Or.inl rfl

/-- If all coefficients that could be read in one file are the same in the other, so is the workspace. -/
theorem covVal_mono (j : CovFileJunk K) (f g : FitsFile K) (lmax spin0 : ℤ)
    (h : ∀ n name m, coeffImg j f n name = .ok m → coeffImg j g n name = .ok m) (cw : CovWsp K)
    (hf : covVal j f lmax spin0 = .ok cw) : covVal j g lmax spin0 = .ok cw := by
  unfold covVal at hf ⊢
  obtain ⟨m1, e1, hf⟩ := bind_ok hf
  obtain ⟨m2, e2, hf⟩ := bind_ok hf
  rw [h _ _ _ e1]
  simp only [Outcome.bind]
  rw [h _ _ _ e2]
  simp only
  by_cases hsp : spin0 ≠ 0
  · rw [if_pos hsp] at hf ⊢; exact hf
  rw [if_neg hsp] at hf ⊢
  obtain ⟨m3, e3, hf⟩ := bind_ok hf
  obtain ⟨m4, e4, hf⟩ := bind_ok hf
  obtain ⟨m5, e5, hf⟩ := bind_ok hf
  obtain ⟨m6, e6, hf⟩ := bind_ok hf
  obtain ⟨m7, e7, hf⟩ := bind_ok hf
  obtain ⟨m8, e8, hf⟩ := bind_ok hf
  rw [h _ _ _ e3]
  simp only [Outcome.bind]
  rw [h _ _ _ e4]
  simp only
  rw [h _ _ _ e5]
  simp only
  rw [h _ _ _ e6]
  simp only
  rw [h _ _ _ e7]
  simp only
  rw [h _ _ _ e8]
  exact hf

theorem covVal_crash (j : CovFileJunk K) (f : FitsFile K) (lmax spin0 : ℤ) (h : ∀ n name, coeffImg j f n name ≠ .crash) :
    covVal j f lmax spin0 ≠ .crash := by
  intro hc
  unfold covVal at hc
  rcases bind_crash hc with hc | ⟨_, _, hc⟩
  · exact h _ _ hc
  rcases bind_crash hc with hc | ⟨_, _, hc⟩
  · exact h _ _ hc
  by_cases hsp : spin0 ≠ 0
  · rw [if_pos hsp] at hc; cases hc
  rw [if_neg hsp] at hc
  rcases bind_crash hc with hc | ⟨_, _, hc⟩
  · exact h _ _ hc
  rcases bind_crash hc with hc | ⟨_, _, hc⟩
  · exact h _ _ hc
  rcases bind_crash hc with hc | ⟨_, _, hc⟩
  · exact h _ _ hc
  rcases bind_crash hc with hc | ⟨_, _, hc⟩
  · exact h _ _ hc
  rcases bind_crash hc with hc | ⟨_, _, hc⟩
  · exact h _ _ hc
  rcases bind_crash hc with hc | ⟨_, _, hc⟩
  · exact h _ _ hc
  cases hc

/-- A unit written by `write_to` is read back. -/
theorem coeffVal_coeffHdu [IsStrictOrderedRing K] (j : CovFileJunk K) (n : ℕ) (c : ℕ → ℕ → K) (name : String) :
    coeffVal j n (coeffHdu n c name) = .ok (tab2 n n c) := by
  unfold coeffVal
  simp only [coeffHdu, List.getElem?_cons_zero, Option.map_some, Option.getD_some, ne_eq, not_true_eq_false, if_false,
    List.getElem?_cons_succ, lt_irrefl, Int.toNat_natCast, List.prod_cons, List.prod_nil, mul_one, le_refl, and_self, if_true]
  congr 1
  refine tab2_congr fun i k hi hk => ?_
  have : i * n + k < n * n := by nlinarith
  simp [this, imagePixels_apply n c i k hi hk]

end NaMaster
