import Verif.Covar.FilesLemmas
import Verif.Covar.Examples
import Verif.Files.Props

/-! # C30: covariance workspace files -/

set_option linter.unusedSectionVars false

namespace NaMaster

open Finset CovSpec WspSpec FileSpec

variable {K : Type*} [Field K] [LinearOrder K] [IsStrictOrderedRing K]

namespace CovSpec

/-- The two workspaces give the same outcome (value, exception) in every later call. -/
def Indistinguishable (cw cw' : CovWsp K) : Prop :=
  ∀ (L : LinAlg K) (jk : CovJunk K) (a1 a2 b1 b2 : ℤ) (s : CovCls K) (oa : Obj K) (ob : Option (Obj K)) (coupled : Bool),
    gaussianCovariance L jk (some cw') a1 a2 b1 b2 s oa ob coupled = gaussianCovariance L jk (some cw) a1 a2 b1 b2 s oa ob coupled

/-- In workspaces computed for spin 0 only, all kinds of coefficients are those of spin 0 (src/nmt_covar.c:40-46). -/
def SharedIfSpin0 (cw : CovWsp K) : Prop :=
  cw.spin0Only = true → ∀ x, x = cw.x1122 ∨ x = cw.x1221 → x.xi02 = x.xi00 ∧ x.xi22p = x.xi00 ∧ x.xi22m = x.xi00

end CovSpec

/-- Calls depend on the coefficients through the elements of the sum only. -/
theorem covariance_congr {L : LinAlg K} {jk : CovJunk K} {cw cw' : CovWsp K} {a1 a2 b1 b2 : ℤ} {s : CovCls K} {oa : Obj K}
    {ob : Option (Obj K)} {coupled : Bool} (hl : cw'.lmax = cw.lmax)
    (hs : (cw'.spin0Only = true ∧ a1 + a2 + b1 + b2 ≠ 0) ↔ (cw.spin0Only = true ∧ a1 + a2 + b1 + b2 ≠ 0))
    (he : ∀ ia ib ic id la lb pre, la ≤ cw.lmax → lb ≤ cw.lmax →
      covElement cw' (Maps.ofSpins a1 a2 b1 b2) s ia ib ic id la lb pre =
      covElement cw (Maps.ofSpins a1 a2 b1 b2) s ia ib ic id la lb pre) :
    gaussianCovariance L jk (some cw') a1 a2 b1 b2 s oa ob coupled = gaussianCovariance L jk (some cw) a1 a2 b1 b2 s oa ob coupled := by
  unfold gaussianCovariance
  generalize hwb : ob.getD oa = wb
  simp only
  cases oa.wsp with
  | none => rfl
  | some a =>
    cases wb.wsp with
    | none => rfl
    | some b =>
      have hck : covChecks cw' a1 a2 b1 b2 a b = covChecks cw a1 a2 b1 b2 a b := by
        unfold covChecks; rw [hl]
        split_ifs <;> first | rfl | (exfalso; tauto)
      have hins : covInside cw' (Maps.ofSpins a1 a2 b1 b2) a b s = covInside cw (Maps.ofSpins a1 a2 b1 b2) a b s := by
        unfold covInside; rw [hl]
      have hbel : covInside cw (Maps.ofSpins a1 a2 b1 b2) a b s = true →
          (∀ x ∈ a.bin.bands, ∀ e ∈ x, e.ell ≤ cw.lmax) ∧ (∀ x ∈ b.bin.bands, ∀ e ∈ x, e.ell ≤ cw.lmax) := by
        unfold covInside
        rw [Bool.and_eq_true, Bool.and_eq_true, below_iff, below_iff]
        rintro ⟨⟨h1, h2⟩, _⟩
        exact ⟨fun x hx e hex => h1 e (List.mem_flatten.2 ⟨x, hx, hex⟩), fun x hx e hex => h2 e (List.mem_flatten.2 ⟨x, hx, hex⟩)⟩
      have hcc : covCoupledC jk.out cw' a1 a2 b1 b2 a b s = covCoupledC jk.out cw a1 a2 b1 b2 a b s := by
        unfold covCoupledC
        rw [hck]
        simp only [hins]
        by_cases hi : covInside cw (Maps.ofSpins a1 a2 b1 b2) a b s = true
        swap
        · simp [hi]
        have : coupledWrites cw' (Maps.ofSpins a1 a2 b1 b2) a.ncls b.ncls a.bin b.bin s =
            coupledWrites cw (Maps.ofSpins a1 a2 b1 b2) a.ncls b.ncls a.bin b.bin s := by
          unfold coupledWrites
          rw [hl]
          refine List.flatMap_congr fun x hx => List.flatMap_congr fun y hy => List.flatMap_congr fun q _ => ?_
          refine List.flatMap_congr fun ea hea => List.map_congr_left fun eb heb => ?_
          rw [he _ _ _ _ _ _ _ ((hbel hi).1 x hx ea hea) ((hbel hi).2 y hy eb heb)]
        rw [this]
      have hdd : covDecoupledC L jk.out jk.mat cw' a1 a2 b1 b2 a b s = covDecoupledC L jk.out jk.mat cw a1 a2 b1 b2 a b s := by
        unfold covDecoupledC
        rw [hck]
        simp only [hins]
        by_cases hi : covInside cw (Maps.ofSpins a1 a2 b1 b2) a b s = true
        swap
        · simp [hi]
        have : binnedCovWrites cw' (Maps.ofSpins a1 a2 b1 b2) a.ncls b.ncls a.bin b.bin s =
            binnedCovWrites cw (Maps.ofSpins a1 a2 b1 b2) a.ncls b.ncls a.bin b.bin s := by
          unfold binnedCovWrites
          refine List.flatMap_congr fun x hx => List.flatMap_congr fun y hy => List.map_congr_left fun q _ => ?_
          obtain ⟨ia, ib, ic, id⟩ := q
          refine congrArg (Prod.mk _) (congrArg List.sum (List.map_congr_left fun ea hea =>
            congrArg List.sum (List.map_congr_left fun eb heb => ?_)))
          have h1 := mem_bands (List.mem_range.1 hx) hea
          have h2 := mem_bands (List.mem_range.1 hy) heb
          obtain ⟨u, hu, hu'⟩ := List.mem_flatten.1 h1
          obtain ⟨v, hv, hv'⟩ := List.mem_flatten.1 h2
          exact he _ _ _ _ _ _ _ ((hbel hi).1 u hu ea hu') ((hbel hi).2 v hv eb hv')
        have hb : covBinned jk.mat cw' (Maps.ofSpins a1 a2 b1 b2) a b s = covBinned jk.mat cw (Maps.ofSpins a1 a2 b1 b2) a b s := by
          unfold covBinned; rw [this]
        rw [hb]
      simp only [hl, hcc, hdd]

/-- The workspace a file written by `write_to` is read as. -/
def reread (cw : CovWsp K) (spin0 : Bool) : CovWsp K :=
  let n := cw.lmax + 1
  let t := fun x : CovXi K => if spin0 then (⟨tab2 n n x.xi00, tab2 n n x.xi00, tab2 n n x.xi00, tab2 n n x.xi00⟩ : CovXi K)
    else ⟨tab2 n n x.xi00, tab2 n n x.xi02, tab2 n n x.xi22p, tab2 n n x.xi22m⟩
  ⟨cw.lmax, spin0, t cw.x1122, t cw.x1221⟩

theorem covVal_reread (j : CovFileJunk K) (f : FitsFile K) (cw : CovWsp K) (spin0 : ℤ)
    (h0 : f.img "XI00_1122" = some (coeffHdu (cw.lmax + 1) cw.x1122.xi00 "XI00_1122"))
    (h1 : f.img "XI00_1221" = some (coeffHdu (cw.lmax + 1) cw.x1221.xi00 "XI00_1221"))
    (h2 : spin0 = 0 → f.img "XI02_1122" = some (coeffHdu (cw.lmax + 1) cw.x1122.xi02 "XI02_1122") ∧
      f.img "XI02_1221" = some (coeffHdu (cw.lmax + 1) cw.x1221.xi02 "XI02_1221") ∧
      f.img "XI22P_1122" = some (coeffHdu (cw.lmax + 1) cw.x1122.xi22p "XI22P_1122") ∧
      f.img "XI22P_1221" = some (coeffHdu (cw.lmax + 1) cw.x1221.xi22p "XI22P_1221") ∧
      f.img "XI22M_1122" = some (coeffHdu (cw.lmax + 1) cw.x1122.xi22m "XI22M_1122") ∧
      f.img "XI22M_1221" = some (coeffHdu (cw.lmax + 1) cw.x1221.xi22m "XI22M_1221")) :
    covVal j f cw.lmax spin0 = .ok (reread cw (decide (spin0 ≠ 0))) := by
  have img : ∀ name c, f.img name = some (coeffHdu (cw.lmax + 1) c name) →
      coeffImg j f ((cw.lmax : ℤ) + 1) name = .ok (tab2 (cw.lmax + 1) (cw.lmax + 1) c) := by
    intro name c h
    unfold coeffImg
    rw [h]
    have := coeffVal_coeffHdu j (cw.lmax + 1) c name
    rw [Nat.cast_add, Nat.cast_one] at this
    exact this
  unfold covVal
  rw [img _ _ h0]
  simp only [Outcome.bind]
  rw [img _ _ h1]
  simp only
  by_cases hs : spin0 = 0
  · obtain ⟨k1, k2, k3, k4, k5, k6⟩ := h2 hs
    rw [if_neg (by simpa using hs), img _ _ k1]
    simp only
    rw [img _ _ k2]
    simp only
    rw [img _ _ k3]
    simp only
    rw [img _ _ k4]
    simp only
    rw [img _ _ k5]
    simp only
    rw [img _ _ k6]
    simp [reread, hs]
  · rw [if_pos hs]
    simp [reread, hs]

theorem imgs_spin0 (cw : CovWsp K) : (covarHdus cw).img "XI00_1122" = some (coeffHdu (cw.lmax + 1) cw.x1122.xi00 "XI00_1122") ∧
    (covarHdus cw).img "XI00_1221" = some (coeffHdu (cw.lmax + 1) cw.x1221.xi00 "XI00_1221") := by
  constructor <;> simp [covarHdus, FitsFile.img, covPrimary, coeffHdu]

theorem imgs_full (cw : CovWsp K) (h : cw.spin0Only = false) :
    (covarHdus cw).img "XI02_1122" = some (coeffHdu (cw.lmax + 1) cw.x1122.xi02 "XI02_1122") ∧
    (covarHdus cw).img "XI02_1221" = some (coeffHdu (cw.lmax + 1) cw.x1221.xi02 "XI02_1221") ∧
    (covarHdus cw).img "XI22P_1122" = some (coeffHdu (cw.lmax + 1) cw.x1122.xi22p "XI22P_1122") ∧
    (covarHdus cw).img "XI22P_1221" = some (coeffHdu (cw.lmax + 1) cw.x1221.xi22p "XI22P_1221") ∧
    (covarHdus cw).img "XI22M_1122" = some (coeffHdu (cw.lmax + 1) cw.x1122.xi22m "XI22M_1122") ∧
    (covarHdus cw).img "XI22M_1221" = some (coeffHdu (cw.lmax + 1) cw.x1221.xi22m "XI22M_1221") := by
  refine ⟨?_, ?_, ?_, ?_, ?_, ?_⟩ <;> simp [covarHdus, FitsFile.img, covPrimary, coeffHdu, h]

theorem read_covarHdus (j : CovFileJunk K) (cw : CovWsp K) (force : Bool) :
    readCovar j (covarHdus cw) force = .ok (reread cw (force || cw.spin0Only)) := by
  rw [readCovar_eq]
  have : (covarHdus cw).find? (fun h => h.name == "CWSP_PRIMARY") = some (covPrimary cw) := by
    simp [covarHdus, covPrimary]
  rw [this]
  have e1 : (covPrimary cw).keys.lookup "LMAX" = some (cw.lmax : ℤ) := by simp [covPrimary]
  have e2 : (covPrimary cw).keys.lookup "SPIN0_ONLY" = some (if cw.spin0Only then 1 else 0) := by
    simp [covPrimary, List.lookup]
  simp only [e1, e2, Option.getD_some]
  rw [covVal_reread j _ cw _ (imgs_spin0 cw).1 (imgs_spin0 cw).2]
  · cases force <;> cases cw.spin0Only <;> simp
  · intro h
    apply imgs_full
    cases hc : cw.spin0Only with
    | false => rfl
    | true => rw [hc] at h; cases force <;> simp at h

theorem at_congr {x x' : CovXi K} {la lb : ℕ} (h0 : x'.xi00 la lb = x.xi00 la lb) (h1 : x'.xi02 la lb = x.xi02 la lb)
    (h2 : x'.xi22p la lb = x.xi22p la lb) (h3 : x'.xi22m la lb = x.xi22m la lb) (k : ℕ) : x'.at la lb k = x.at la lb k := by
  unfold CovXi.at
  split <;> simp_all

theorem covElement_congr {cw cw' : CovWsp K} {m : Maps} {s : CovCls K} {la lb : ℕ}
    (h : ∀ k, cw'.x1122.at la lb k = cw.x1122.at la lb k) (h' : ∀ k, cw'.x1221.at la lb k = cw.x1221.at la lb k)
    (ia ib ic id : ℕ) (pre : K) : covElement cw' m s ia ib ic id la lb pre = covElement cw m s ia ib ic id la lb pre := by
  unfold covElement
  simp only [h, h']

/-- C30: a workspace written to a file and read back behaves identically in every later call. -/
theorem C30_round_trip (cw : CovWsp K) (h : SharedIfSpin0 cw) (j : CovFileJunk K) :
    ∃ f cw', CovObj.writeTo (some cw) = .ok f ∧ (∀ old, CovObj.readFrom j (some f) false old = (some cw', .ok ())) ∧
      Indistinguishable cw cw' := by
  refine ⟨covarHdus cw, reread cw cw.spin0Only, rfl, fun old => ?_, ?_⟩
  · simp [CovObj.readFrom, read_covarHdus]
  · intro L jk a1 a2 b1 b2 s oa ob coupled
    refine covariance_congr rfl Iff.rfl fun ia ib ic id la lb pre hla hlb => ?_
    have t : ∀ M : ℕ → ℕ → K, tab2 (cw.lmax + 1) (cw.lmax + 1) M la lb = M la lb :=
      fun M => tab2_of_lt M (Nat.lt_succ_of_le hla) (Nat.lt_succ_of_le hlb)
    apply covElement_congr
    · cases hs : cw.spin0Only with
      | false => exact at_congr (t _) (t _) (t _) (t _)
      | true =>
        obtain ⟨e1, e2, e3⟩ := h hs _ (Or.inl rfl)
        exact at_congr (t _) (by rw [e1]; exact t _) (by rw [e2]; exact t _) (by rw [e3]; exact t _)
    · cases hs : cw.spin0Only with
      | false => exact at_congr (t _) (t _) (t _) (t _)
      | true =>
        obtain ⟨e1, e2, e3⟩ := h hs _ (Or.inr rfl)
        exact at_congr (t _) (by rw [e1]; exact t _) (by rw [e2]; exact t _) (by rw [e3]; exact t _)

/-- C30: the workspaces that the code computes satisfy the hypothesis of `C30_round_trip`. -/
theorem C30_computed_shared {W : Wigner} {junk : ℕ → ℝ} {pcl1 pcl2 : List ℝ} {lmax lmaxMask : ℕ} {lT lE dl : ℤ} {spin0 : Bool}
    {cw : CovWsp ℝ} (h : covInit W junk pcl1 pcl2 lmax lmaxMask lT lE dl spin0 = .ok cw) : SharedIfSpin0 cw := by
  unfold covInit at h
  by_cases h1 : pcl1.length ≠ lmaxMask + 1 ∨ pcl2.length ≠ lmaxMask + 1
  · rw [if_pos h1] at h; cases h
  rw [if_neg h1] at h
  by_cases h2 : lmaxMask < lmax
  · rw [if_pos h2] at h; cases h
  rw [if_neg h2] at h
  have h := Outcome.ok.inj h
  subst h
  intro hs
  simp only at hs
  subst hs
  rintro x (rfl | rfl) <;> simp

/-- C30: the file of the workspace read back is the same file. -/
theorem C30_rewrite (cw cw' : CovWsp K) (j : CovFileJunk K) (h : readCovar j (covarHdus cw) false = .ok cw') :
    covarHdus cw' = covarHdus cw := by
  rw [read_covarHdus] at h
  have h := Outcome.ok.inj h
  subst h
  have pix : ∀ (n : ℕ) (c : ℕ → ℕ → K), imagePixels n (tab2 n n c) = imagePixels n c := by
    intro n c
    unfold imagePixels
    congr 1
    refine List.flatMap_congr fun i hi => List.map_congr_left fun k hk => ?_
    rw [tab2_of_lt _ (List.mem_range.1 hi) (List.mem_range.1 hk)]
  simp only [Bool.false_or]
  cases hs : cw.spin0Only <;> simp [covarHdus, covPrimary, coeffHdu, reread, pix, hs]

/-- C30: with `force_spin0_only` every call for spin-0 fields has the same outcome as with the workspace that was written. -/
theorem C30_force_spin0 (cw : CovWsp K) (j : CovFileJunk K) :
    ∃ cw', (∀ old, CovObj.readFrom j (some (covarHdus cw)) true old = (some cw', .ok ())) ∧
      ∀ (L : LinAlg K) (jk : CovJunk K) (s : CovCls K) (oa : Obj K) (ob : Option (Obj K)) (coupled : Bool),
        gaussianCovariance L jk (some cw') 0 0 0 0 s oa ob coupled = gaussianCovariance L jk (some cw) 0 0 0 0 s oa ob coupled := by
  refine ⟨reread cw true, fun old => by simp [CovObj.readFrom, read_covarHdus], ?_⟩
  intro L jk s oa ob coupled
  refine covariance_congr rfl (by simp) fun ia ib ic id la lb pre hla hlb => ?_
  have t : ∀ M : ℕ → ℕ → K, tab2 (cw.lmax + 1) (cw.lmax + 1) M la lb = M la lb :=
    fun M => tab2_of_lt M (Nat.lt_succ_of_le hla) (Nat.lt_succ_of_le hlb)
  unfold covElement
  simp only [Maps.ofSpins, nmaps, covPair, covIndex, pairKind, CovXi.at, reread]
  simp [t]

/-- C30: with `force_spin0_only` calls for fields of other (non-negative) spins never return a covariance, and raise an exception
if the covariance would have less than 2^32 elements. -/
theorem C30_force_rejects (cw cw' : CovWsp K) (j : CovFileJunk K) (h : readCovar j (covarHdus cw) true = .ok cw')
    (L : LinAlg K) (jk : CovJunk K) {a1 a2 b1 b2 : ℤ} (h1 : 0 ≤ a1) (h2 : 0 ≤ a2) (h3 : 0 ≤ b1) (h4 : 0 ≤ b2)
    (hne : ¬ (a1 = 0 ∧ a2 = 0 ∧ b1 = 0 ∧ b2 = 0)) (s : CovCls K) (oa ob : Obj K) (a b : Wsp K) (hoa : oa.wsp = some a)
    (hob : ob.wsp = some b) (hA : Bounded a.bin a.bin.ellMax) (hB : Bounded b.bin b.bin.ellMax) (coupled : Bool) :
    (∀ C, gaussianCovariance L jk (some cw') a1 a2 b1 b2 s oa (some ob) coupled ≠ .ok C) ∧
    (covSize cw a b coupled < 2 ^ 32 → ∃ e, gaussianCovariance L jk (some cw') a1 a2 b1 b2 s oa (some ob) coupled = .raises e) := by
  rw [read_covarHdus] at h
  have h := Outcome.ok.inj h
  have hs : cw'.spin0Only = true := by rw [← h]; rfl
  have hl : cw'.lmax = cw.lmax := by rw [← h]; rfl
  have nc : ¬ Consistent cw' a1 a2 b1 b2 s oa ob a b coupled := by
    intro hc
    have := hc.spins hs
    omega
  have out := call_outcome (L := L) (jk := jk) (cw := cw') (a1 := a1) (a2 := a2) (b1 := b1) (b2 := b2) (s := s)
    (coupled := coupled) hoa hob hA hB
  constructor
  · intro C hC
    exact nc (call_result hoa hob hA hB hC).1
  · intro hsz
    rcases out with hc | he | ⟨hbig, _⟩
    · exact absurd hc nc
    · exact he
    · unfold covSize at hsz hbig
      rw [hl] at hbig
      omega

/-- C30: a file with all coefficients but without the spin-0 keyword is read like one with it; a file with spin-0 coefficients
only is then rejected. -/
theorem C30_missing_keyword (cw : CovWsp K) (j : CovFileJunk K) :
    (cw.spin0Only = false →
      readCovar j (dropKey "CWSP_PRIMARY" "SPIN0_ONLY" (covarHdus cw)) false = readCovar j (covarHdus cw) false) ∧
    (cw.spin0Only = true → readCovar j (dropKey "CWSP_PRIMARY" "SPIN0_ONLY" (covarHdus cw)) false = .raises .runtime) := by
  set f := dropKey "CWSP_PRIMARY" "SPIN0_ONLY" (covarHdus cw) with hf
  have img : ∀ name, name ≠ "CWSP_PRIMARY" → f.img name = (covarHdus cw).img name := by
    intro name hn
    unfold FitsFile.img
    rw [hf, find_dropKey]
    cases hx : (covarHdus cw).find? (fun h => h.isTable == false && h.name == name) with
    | none => rfl
    | some h =>
      rw [Option.map_some, if_neg]
      rintro ⟨_, h2⟩
      have := List.find?_some hx
      simp only [Bool.and_eq_true, beq_iff_eq] at this
      exact hn (this.2.symm.trans h2)
  have hprim : ∃ h, f.find? (fun h => h.name == "CWSP_PRIMARY") = some h ∧ h.keys.lookup "LMAX" = some (cw.lmax : ℤ) ∧
      h.keys.lookup "SPIN0_ONLY" = none := by
    refine ⟨{ covPrimary cw with keys := (covPrimary cw).keys.filter (fun p => p.1 ≠ "SPIN0_ONLY") }, ?_, ?_, ?_⟩
    · simp [hf, dropKey, covarHdus, covPrimary]
    · simp [covPrimary]
    · exact lookup_filter_self _ _
  obtain ⟨h, e0, e1, e2⟩ := hprim
  have hr : readCovar j f false = covVal j f cw.lmax 0 := by
    rw [readCovar_eq, e0]
    simp [e1, e2]
  constructor
  · intro hs
    rw [hr, read_covarHdus, hs, covVal_reread j f cw 0]
    · rfl
    · rw [img _ (by simp)]; exact (imgs_spin0 cw).1
    · rw [img _ (by simp)]; exact (imgs_spin0 cw).2
    · intro _
      rw [img _ (by simp), img _ (by simp), img _ (by simp), img _ (by simp), img _ (by simp), img _ (by simp)]
      exact imgs_full cw hs
  · intro hs
    rw [hr]
    have c0 : ∀ name c, f.img name = some (coeffHdu (cw.lmax + 1) c name) →
        coeffImg j f ((cw.lmax : ℤ) + 1) name = .ok (tab2 (cw.lmax + 1) (cw.lmax + 1) c) := by
      intro name c h
      unfold coeffImg
      rw [h]
      have := coeffVal_coeffHdu j (cw.lmax + 1) c name
      rw [Nat.cast_add, Nat.cast_one] at this
      exact this
    have c2 : coeffImg j f ((cw.lmax : ℤ) + 1) "XI02_1122" = .raises .runtime := by
      unfold coeffImg
      rw [img _ (by simp)]
      simp [covarHdus, FitsFile.img, covPrimary, coeffHdu, hs]
    unfold covVal
    rw [c0 _ _ ((img _ (by simp)).trans (imgs_spin0 cw).1)]
    simp only [Outcome.bind]
    rw [c0 _ _ ((img _ (by simp)).trans (imgs_spin0 cw).2)]
    simp [c2]

/-- Coefficients found in what an interrupted write left are those of the complete file. -/
theorem interrupted_img {units d : FitsFile K} {old : Option (FitsFile K)} (hd : Interrupted old units (some d))
    (hold : old ≠ some d) (j : CovFileJunk K) (n : ℤ) (name : String) (m : ℕ → ℕ → K) (h : coeffImg j d n name = .ok m) :
    coeffImg j units n name = .ok m ∧ d.head? = units.head? := by
  have key : ∀ k, FitsFile.img (units.take k) name = units.img name ∨ FitsFile.img (units.take k) name = none := by
    intro k
    cases hk : FitsFile.img (units.take k) name with
    | none => exact Or.inr rfl
    | some u =>
      left
      unfold FitsFile.img at hk ⊢
      conv_rhs => rw [← List.take_append_drop k units, List.find?_append, hk]
      rfl
  have head : ∀ k u, FitsFile.img (units.take k) name = some u → (units.take k).head? = units.head? := by
    intro k u hu
    cases k with
    | zero => simp [FitsFile.img] at hu
    | succ k => cases units <;> simp
  have gen : ∀ k e, (∀ p : Hdu K, p ∈ e → p.complete = false) → d = units.take k ++ e → 
      coeffImg j units n name = .ok m ∧ d.head? = units.head? := by
    intro k e he hde
    unfold coeffImg at h ⊢
    cases hk : FitsFile.img (units.take k) name with
    | some u =>
      have hdi : d.img name = some u := by
        unfold FitsFile.img at hk ⊢
        rw [hde, List.find?_append, hk]; rfl
      rw [hdi] at h
      rcases key k with h1 | h1
      · rw [← h1, hk]
        refine ⟨h, ?_⟩
        have := head k u hk
        rw [hde, ← this]
        cases hu : units.take k with
        | nil => rw [hu] at hk; simp [FitsFile.img] at hk
        | cons x y => simp
      · rw [h1] at hk; cases hk
    | none =>
      exfalso
      have hdi : d.img name = FitsFile.img e name := by
        unfold FitsFile.img at hk ⊢
        rw [hde, List.find?_append, hk]; rfl
      rw [hdi] at h
      cases hp : FitsFile.img e name with
      | none => rw [hp] at h; cases h
      | some p =>
        rw [hp] at h
        have hpc := he p (List.mem_of_find?_eq_some hp)
        unfold coeffVal at h
        simp only [hpc] at h
        split_ifs at h <;> simp_all
  generalize hdd : some d = dd at hd
  cases hd with
  | before => exact absurd hdd.symm hold
  | removed => cases hdd
  | between k hk =>
    exact gen k [] (by simp) (by rw [List.append_nil]; exact Option.some.inj hdd)
  | torn k hk p hp =>
    exact gen k [p] (by simpa using hp.incomplete) (Option.some.inj hdd)

/-- C30: if the process writing a covariance workspace was interrupted and reading what is left succeeds, then the result is
that of reading the complete file, unless the file is still the previous one. -/
theorem C30_interrupted (cw : CovWsp K) (old : Option (FitsFile K)) (d : FitsFile K)
    (hd : Interrupted old (covarHdus cw) (some d)) (hold : old ≠ some d) (j : CovFileJunk K) (force : Bool) (cw' : CovWsp K)
    (h : readCovar j d force = .ok cw') : readCovar j (covarHdus cw) force = .ok cw' := by
  have hm := fun n name m => interrupted_img hd hold j n name m
  rw [readCovar_eq] at h
  cases hf : d.find? (fun h => h.name == "CWSP_PRIMARY") with
  | none => rw [hf] at h; cases h
  | some p =>
    rw [hf] at h
    simp only at h
    cases hl : p.keys.lookup "LMAX" with
    | none => rw [hl] at h; cases h
    | some lmax =>
      rw [hl] at h
      simp only at h
      have hhead : d.head? = (covarHdus cw).head? := by
        have h' := h
        unfold covVal at h'
        obtain ⟨m1, e1, _⟩ := bind_ok h'
        exact (hm _ _ _ e1).2
      have hp : p = covPrimary cw := by
        cases d with
        | nil => simp at hf
        | cons x y =>
          have hx : x = covPrimary cw := by simpa [covarHdus] using hhead
          subst hx
          have : (covPrimary cw).name = "CWSP_PRIMARY" := rfl
          rw [List.find?_cons_of_pos (by simp [this])] at hf
          exact (Option.some.inj hf).symm
      subst hp
      rw [readCovar_eq]
      have : (covarHdus cw).find? (fun h => h.name == "CWSP_PRIMARY") = some (covPrimary cw) := by
        simp [covarHdus, covPrimary]
      rw [this]
      simp only [hl]
      exact covVal_mono j d _ _ _ (fun n name m hh => (hm n name m hh).1) cw' h

/-- C30: such a file never makes the reader access memory outside its buffers; only that the sizes in the header of a unit are
intact once its name is there is needed. -/
theorem C30_interrupted_safe (cw : CovWsp K) (d : FitsFile K)
    (hdims : ∀ h ∈ d, h.name ≠ "" → ∃ u ∈ covarHdus cw, u.name = h.name ∧ h.dims = u.dims) (j : CovFileJunk K) (force : Bool) :
    readCovar j d force ≠ .crash := by
  have img : ∀ n name, name ≠ "CWSP_PRIMARY" → name ≠ "" → coeffImg j d n name ≠ .crash := by
    intro n name hn hn0 hc
    unfold coeffImg at hc
    cases hi : d.img name with
    | none => rw [hi] at hc; cases hc
    | some h =>
      rw [hi] at hc
      have hname := List.find?_some hi
      simp only [Bool.and_eq_true, beq_iff_eq] at hname
      obtain ⟨u, hu, e1, e2⟩ := hdims h (List.mem_of_find?_eq_some hi) (by rw [hname.2]; exact hn0)
      have hdim : h.dims = [cw.lmax + 1, cw.lmax + 1] := by
        rw [e2]
        rw [hname.2] at e1
        unfold covarHdus at hu
        simp only [List.mem_append, List.mem_cons, List.not_mem_nil, or_false] at hu
        rcases hu with (rfl | rfl | rfl) | hu
        · exact absurd e1.symm hn
        · rfl
        · rfl
        · cases hs : cw.spin0Only with
          | true => rw [hs] at hu; simp at hu
          | false =>
            rw [hs] at hu
            simp only [Bool.false_eq_true, if_false, List.mem_cons, List.not_mem_nil, or_false] at hu
            rcases hu with rfl | rfl | rfl | rfl | rfl | rfl <;> rfl
      unfold coeffVal at hc
      simp only [hdim, List.getElem?_cons_zero, Option.map_some, Option.getD_some, List.getElem?_cons_succ, lt_irrefl,
        if_false] at hc
      split_ifs at hc
  rw [readCovar_eq]
  cases hf : d.find? (fun h => h.name == "CWSP_PRIMARY") with
  | none => simp
  | some p =>
    simp only
    cases hl : p.keys.lookup "LMAX" with
    | none => simp
    | some lmax =>
      simp only
      intro hc
      unfold covVal at hc
      rcases bind_crash hc with hc | ⟨_, _, hc⟩
      · exact img _ _ (by simp) (by simp) hc
      rcases bind_crash hc with hc | ⟨_, _, hc⟩
      · exact img _ _ (by simp) (by simp) hc
      by_cases hsp : (if force = true then (1 : ℤ) else (p.keys.lookup "SPIN0_ONLY").getD 0) ≠ 0
      · rw [if_pos hsp] at hc; cases hc
      rw [if_neg hsp] at hc
      rcases bind_crash hc with hc | ⟨_, _, hc⟩
      · exact img _ _ (by simp) (by simp) hc
      rcases bind_crash hc with hc | ⟨_, _, hc⟩
      · exact img _ _ (by simp) (by simp) hc
      rcases bind_crash hc with hc | ⟨_, _, hc⟩
      · exact img _ _ (by simp) (by simp) hc
      rcases bind_crash hc with hc | ⟨_, _, hc⟩
      · exact img _ _ (by simp) (by simp) hc
      rcases bind_crash hc with hc | ⟨_, _, hc⟩
      · exact img _ _ (by simp) (by simp) hc
      rcases bind_crash hc with hc | ⟨_, _, hc⟩
      · exact img _ _ (by simp) (by simp) hc
      cases hc

/-- C30: after a failed `read_from` no coefficients are left, and every later call for a covariance raises an exception. -/
theorem C30_failed_read (j : CovFileJunk K) (f : Option (FitsFile K)) (force : Bool) (old new : Option (CovWsp K)) (e : Err)
    (h : CovObj.readFrom j f force old = (new, .raises e)) (L : LinAlg K) (jk : CovJunk K) (a1 a2 b1 b2 : ℤ) (s : CovCls K)
    (oa : Obj K) (ob : Option (Obj K)) (coupled : Bool) :
    ∃ e', gaussianCovariance L jk new a1 a2 b1 b2 s oa ob coupled = .raises e' := by
  have : new = none := by
    unfold CovObj.readFrom at h
    split at h
    · exact (Prod.mk.inj h).1.symm
    · split at h
      · have := (Prod.mk.inj h).2; cases this
      · exact (Prod.mk.inj h).1.symm
      · exact (Prod.mk.inj h).1.symm
  subst this
  exact C29_missing (L := L) (jk := jk) (a1 := a1) (a2 := a2) (b1 := b1) (b2 := b2) (s := s) (coupled := coupled) none ob (Or.inr (Or.inr rfl))

/-- A torn file for `C30_interrupted`, `C30_interrupted_safe`: the units up to the second image, which is incomplete. With
`force_spin0_only` a file torn later is read correctly. -/
example : Interrupted none (covarHdus (exCw false)) (some ((covarHdus (exCw false)).take 2 ++
      [{ coeffHdu 7 (exXi 2).xi00 "XI00_1221" with complete := false }])) ∧
    Interrupted none (covarHdus (exCw false)) (some ((covarHdus (exCw false)).take 3)) ∧
    ∀ j, ∃ cw', readCovar j ((covarHdus (exCw false)).take 3) true = .ok cw' := by
  refine ⟨.torn 2 (by simp [covarHdus, exCw]) _ ⟨Or.inl ?_, by simp [coeffHdu], rfl⟩, .between 3 (by simp [covarHdus, exCw]), ?_⟩
  · simp [covarHdus, exCw, coeffHdu]
  · intro j
    have := read_covarHdus j (⟨6, true, exXi 1, exXi 2⟩ : CovWsp ℚ) true
    have e : readCovar j ((covarHdus (exCw false)).take 3) true = readCovar j (covarHdus (⟨6, true, exXi 1, exXi 2⟩ : CovWsp ℚ)) true := by
      rw [readCovar_eq, readCovar_eq]
      simp [covarHdus, exCw, covPrimary, covVal, coeffImg, FitsFile.img, coeffHdu]
    rw [e, this]
    exact ⟨_, rfl⟩

/-- The example workspace has coefficients for all spins; the call with it gives a covariance (see `Verif.Covar.Examples`). -/
example : SharedIfSpin0 (exCw false) := by intro h; cases h

end NaMaster
