import Verif.Files.Model

/-!
# What the reader of workspace files does, in closed form
-/

set_option linter.unusedSectionVars false

namespace NaMaster

variable {K : Type*}

/-- First image with the given name. -/
def FitsFile.img (f : FitsFile K) (name : String) : Option (Hdu K) :=
  f.find? (fun h => h.isTable == false && h.name == name)

/-- First table with the given name. -/
def FitsFile.tbl (f : FitsFile K) (name : String) : Option (Hdu K) :=
  f.find? (fun h => h.isTable == true && h.name == name)

/-- All data of the unit is there, at least `n` elements. -/
def Hdu.Has (h : Hdu K) (n : ℕ) : Prop := h.complete = true ∧ n ≤ h.dims.prod

theorem find_isTable {f : FitsFile K} {t : Bool} {name : String} {h : Hdu K}
    (hf : f.find? (fun h => h.isTable == t && h.name == name) = some h) : h.isTable = t := by
  have := List.find?_some hf
  simp at this
  exact this.1

section
variable [Field K] [LinearOrder K]

theorem movnam_found {f : FitsFile K} {t : Bool} {name : String} {h : Hdu K} (s : Rd K) (hs : s.status = 0)
    (hf : f.find? (fun h => h.isTable == t && h.name == name) = some h) : movnam f t name s = ⟨some h, 0⟩ := by
  simp only [movnam, hs, hf]; simp

theorem movnam_missing {f : FitsFile K} {t : Bool} {name : String} (s : Rd K) (hs : s.status = 0)
    (hf : f.find? (fun h => h.isTable == t && h.name == name) = none) : movnam f t name s = ⟨s.cur, 301⟩ := by
  simp only [movnam, hs, hf]; simp

theorem numRows_tbl {h : Hdu K} (ht : h.isTable = true) (old : ℤ) :
    numRows old ⟨some h, 0⟩ = (((h.dims.headD 0 : ℕ) : ℤ), (⟨some h, 0⟩ : Rd K)) := by
  simp [numRows, ht]

theorem movnam_err (f : FitsFile K) (t : Bool) (name : String) (s : Rd K) (h : s.status ≠ 0) :
    movnam f t name s = s := by simp [movnam, h]

theorem numRows_err (old : ℤ) (s : Rd K) (h : s.status ≠ 0) : numRows old s = (old, s) := by
  simp [numRows, h]

theorem readKey_err (k : String) (old : ℤ) (s : Rd K) (h : s.status ≠ 0) : readKey k old s = (old, s) := by
  simp [readKey, h]

theorem readKey_ok {h : Hdu K} (k : String) (v : ℤ) (hk : h.keys.lookup k = some v) (old : ℤ) :
    readKey k old ⟨some h, 0⟩ = (v, (⟨some h, 0⟩ : Rd K)) := by simp [readKey, hk]

theorem readKey_missing {h : Hdu K} (k : String) (hk : h.keys.lookup k = none) (old : ℤ) :
    readKey k old ⟨some h, 0⟩ = (old, (⟨some h, 202⟩ : Rd K)) := by simp [readKey, hk]

theorem readDbl_err (c a n : ℕ) (old : ℕ → K) (s : Rd K) (h : s.status ≠ 0) :
    readDbl c a n old s = (old, s) := by simp [readDbl, h]

theorem readInt_err (c a n : ℕ) (old : ℕ → ℤ) (s : Rd K) (h : s.status ≠ 0) :
    readInt c a n old s = (old, s) := by simp [readInt, h]

theorem readRows_err (n : ℕ) (old : ℕ → K) (k : ℕ) (s : Rd K) (h : s.status ≠ 0) :
    (readRows n old k s).2 = s := by
  induction k with
  | zero => rfl
  | succ k ih => simp only [readRows]; rw [ih, readDbl_err _ _ _ _ _ h]

theorem readDbl_ok (c a n : ℕ) (old : ℕ → K) (h : Hdu K) (hc : h.complete = true) (hn : a + n ≤ h.dims.prod) :
    readDbl c a n old ⟨some h, 0⟩ = (fun i => h.dbls c (a + i), ⟨some h, 0⟩) := by
  simp [readDbl, Rd.has, hc, hn]

theorem readDbl_bad (c a n : ℕ) (old : ℕ → K) (h : Hdu K) (hn : ¬ (h.complete = true ∧ a + n ≤ h.dims.prod)) :
    readDbl c a n old ⟨some h, 0⟩ = (old, ⟨some h, 107⟩) := by
  have : ¬ ((⟨some h, 0⟩ : Rd K).has a n = true) := by simpa [Rd.has] using hn
  simp [readDbl, this]

theorem readInt_ok (c a n : ℕ) (old : ℕ → ℤ) (h : Hdu K) (hc : h.complete = true) (hn : a + n ≤ h.dims.prod) :
    readInt c a n old ⟨some h, 0⟩ = (fun i => h.ints c (a + i), ⟨some h, 0⟩) := by
  simp [readInt, Rd.has, hc, hn]

theorem readInt_bad (c a n : ℕ) (old : ℕ → ℤ) (h : Hdu K) (hn : ¬ (h.complete = true ∧ a + n ≤ h.dims.prod)) :
    readInt c a n old ⟨some h, 0⟩ = (old, ⟨some h, 107⟩) := by
  have : ¬ ((⟨some h, 0⟩ : Rd K).has a n = true) := by simpa [Rd.has] using hn
  simp [readInt, this]

theorem readRows_ok (n : ℕ) (old : ℕ → K) (h : Hdu K) (k : ℕ) (hc : h.complete = true)
    (hn : k * n ≤ h.dims.prod) :
    (readRows n old k ⟨some h, 0⟩).2 = ⟨some h, 0⟩ ∧
    ∀ i j, i < k → (readRows n old k ⟨some h, 0⟩).1 i j = h.dbls 0 (i * n + j) := by
  induction k with
  | zero => exact ⟨rfl, fun i j hi => by omega⟩
  | succ k ih =>
    have hn' : k * n + n ≤ h.dims.prod := by rwa [Nat.succ_mul] at hn
    obtain ⟨h1, h2⟩ := ih (by omega)
    constructor
    · simp only [readRows]; rw [h1, readDbl_ok _ _ _ _ _ hc hn']
    · intro i j hi
      simp only [readRows]; rw [h1, readDbl_ok _ _ _ _ _ hc hn']
      by_cases hik : i = k
      · rw [if_pos hik, hik]
      · rw [if_neg hik]; exact h2 i j (by omega)

theorem readRows_bad (n : ℕ) (old : ℕ → K) (h : Hdu K) (k : ℕ) (hk : 0 < k)
    (hn : ¬ (h.complete = true ∧ k * n ≤ h.dims.prod)) :
    (readRows n old k ⟨some h, 0⟩).2.status ≠ 0 := by
  induction k with
  | zero => omega
  | succ k ih =>
    simp only [readRows]
    by_cases hg : k = 0 ∨ (h.complete = true ∧ k * n ≤ h.dims.prod)
    · have h1 : (readRows n old k ⟨some h, 0⟩).2 = ⟨some h, 0⟩ := by
        rcases hg with rfl | hg
        · rfl
        · exact (readRows_ok n old h k hg.1 hg.2).1
      rw [h1, readDbl_bad]
      · simp
      · rw [Nat.succ_mul] at hn; exact hn
    · push Not at hg
      have := ih (by omega) (by rintro ⟨h1, h2⟩; have := hg.2 h1; omega)
      rw [readDbl_err _ _ _ _ _ this]; exact this

/-- The keywords the reader needs. -/
structure Hdu.Keys (h : Hdu K) (lmax lf lm teb ncls : ℤ) : Prop where
  lmax : h.keys.lookup "LMAX" = some lmax
  lf : h.keys.lookup "LMAX_FIELDS" = some lf
  lm : h.keys.lookup "LMAX_MASK" = some lm
  teb : h.keys.lookup "IS_TEB" = some teb
  ncls : h.keys.lookup "NCLS" = some ncls

/-- The data of the unbinned matrix can be read. -/
def Hdu.CanRead (h : Hdu K) (unb : Bool) (n : ℕ) : Prop := unb = true → n = 0 ∨ h.Has (n * n)

theorem info_ok (j : Junk K (Bins K)) (f : FitsFile K) (unb : Bool) (s : Rd K) (hs : s.status = 0)
    (h : Hdu K) (hf : f.img "WSP_PRIMARY" = some h) (lmax lf lm teb ncls : ℤ)
    (hk : h.Keys lmax lf lm teb ncls) (hr : h.CanRead unb (ncls * (lmax + 1)).toNat) :
    infoFromHdus j f unb s = (⟨lmax, lf, lm, teb, ncls, (h.keys.lookup "NORM_TYPE").getD 0,
      if unb then some (tab2 (ncls * (lmax + 1)).toNat (ncls * (lmax + 1)).toNat
        (fun i k => h.dbls 0 (i * (ncls * (lmax + 1)).toNat + k))) else none⟩, ⟨some h, 0⟩) := by
  obtain ⟨k1, k2, k3, k4, k5⟩ := hk
  unfold FitsFile.img at hf
  have hmov : movnam f false "WSP_PRIMARY" s = ⟨some h, 0⟩ := by
    simp only [movnam, hs, hf]; simp
  unfold infoFromHdus
  simp only [hmov, readKey, k1, k2, k3, k4, k5, Option.bind_some, ne_eq, not_true_eq_false, if_false]
  cases hnt : h.keys.lookup "NORM_TYPE" with
  | some v =>
    simp only [Option.bind_some, not_true_eq_false, if_false, Option.getD_some]
    cases unb with
    | false => rfl
    | true =>
      simp only [if_true]
      rcases hr rfl with h0 | ⟨hc, hn⟩
      · rw [h0]; simp [readRows]
        funext i k; simp [tab2]
      · obtain ⟨r1, r2⟩ := readRows_ok (ncls * (lmax + 1)).toNat j.dbl h _ hc hn
        rw [r1]
        congr 1; congr 2
        exact tab2_congr (fun i k hi _ => r2 i k hi)
  | none =>
    simp only [Option.getD_none]
    simp only [show ¬ (202 : ℕ) = 0 by norm_num, not_false_eq_true, if_true]
    cases unb with
    | false => rfl
    | true =>
      simp only [if_true]
      rcases hr rfl with h0 | ⟨hc, hn⟩
      · rw [h0]; simp [readRows]
        funext i k; simp [tab2]
      · obtain ⟨r1, r2⟩ := readRows_ok (ncls * (lmax + 1)).toNat j.dbl h _ hc hn
        rw [r1]
        congr 1; congr 2
        exact tab2_congr (fun i k hi _ => r2 i k hi)

theorem info_fails (j : Junk K (Bins K)) (f : FitsFile K) (unb : Bool) (s : Rd K) (hs : s.status = 0)
    (hbad : ¬ ∃ h lmax lf lm teb ncls, f.img "WSP_PRIMARY" = some h ∧ h.Keys lmax lf lm teb ncls ∧
      h.CanRead unb (ncls * (lmax + 1)).toNat) :
    (infoFromHdus j f unb s).2.status ≠ 0 := by
  unfold FitsFile.img at hbad
  unfold infoFromHdus
  cases hf : f.find? (fun h => h.isTable == false && h.name == "WSP_PRIMARY") with
  | none =>
    have hmov : movnam f false "WSP_PRIMARY" s = ⟨s.cur, 301⟩ := by simp only [movnam, hs, hf]; simp
    simp only [hmov, readKey]
    cases unb
    · simp
    · simp [readRows_err]
  | some h =>
    have hmov : movnam f false "WSP_PRIMARY" s = ⟨some h, 0⟩ := by simp only [movnam, hs, hf]; simp
    simp only [hmov]
    cases k1 : h.keys.lookup "LMAX" with
    | none => cases unb <;> simp [readKey, k1, readRows_err]
    | some lmax =>
    cases k2 : h.keys.lookup "LMAX_FIELDS" with
    | none => cases unb <;> simp [readKey, k1, k2, readRows_err]
    | some lf =>
    cases k3 : h.keys.lookup "LMAX_MASK" with
    | none => cases unb <;> simp [readKey, k1, k2, k3, readRows_err]
    | some lm =>
    cases k4 : h.keys.lookup "IS_TEB" with
    | none => cases unb <;> simp [readKey, k1, k2, k3, k4, readRows_err]
    | some teb =>
    cases k5 : h.keys.lookup "NCLS" with
    | none => cases unb <;> simp [readKey, k1, k2, k3, k4, k5, readRows_err]
    | some ncls =>
      have hr : ¬ h.CanRead unb (ncls * (lmax + 1)).toNat := fun hr =>
        hbad ⟨h, lmax, lf, lm, teb, ncls, hf, ⟨k1, k2, k3, k4, k5⟩, hr⟩
      unfold Hdu.CanRead Hdu.Has at hr
      push Not at hr
      obtain ⟨rfl, h0, hh⟩ := hr
      have hb := readRows_bad (ncls * (lmax + 1)).toNat j.dbl h (ncls * (lmax + 1)).toNat (by omega)
        (by rintro ⟨h1, h2⟩; have := hh h1; omega)
      cases k6 : h.keys.lookup "NORM_TYPE" with
      | none => simpa [readKey, k1, k2, k3, k4, k5, k6] using hb
      | some v => simpa [readKey, k1, k2, k3, k4, k5, k6] using hb

theorem lArr_ok (j : Junk K (Bins K)) (f : FitsFile K) (lmax : ℤ) (name : String) (s : Rd K) (h : Hdu K)
    (hf : f.tbl name = some h) (hd : ((h.dims.headD 0 : ℕ) : ℤ) = lmax + 1) (hh : h.Has (h.dims.headD 0)) :
    lArrFromHdus j f lmax name s = .ok (tab (h.dims.headD 0) (h.dbls 2), ⟨some h, 0⟩) := by
  unfold FitsFile.tbl at hf
  have ht := find_isTable hf
  unfold lArrFromHdus
  simp only []
  rw [movnam_found _ rfl hf, numRows_tbl ht]
  simp only [ne_eq, hd, not_true_eq_false, if_false]
  rw [← hd, Int.toNat_natCast, readDbl_ok _ _ _ _ _ hh.1 (by simpa using hh.2)]
  simp

theorem lArr_fails (j : Junk K (Bins K)) (f : FitsFile K) (lmax : ℤ) (name : String) (s : Rd K)
    (hbad : ¬ ∃ h, f.tbl name = some h ∧ ((h.dims.headD 0 : ℕ) : ℤ) = lmax + 1 ∧ h.Has (h.dims.headD 0)) :
    (lArrFromHdus j f lmax name s = .raises .runtime) ∨
      ∃ v s', lArrFromHdus j f lmax name s = .ok (v, s') ∧ s'.status ≠ 0 := by
  unfold FitsFile.tbl at hbad
  unfold lArrFromHdus
  cases hf : f.find? (fun h => h.isTable == true && h.name == name) with
  | none =>
    simp only []
    rw [movnam_missing _ rfl hf, numRows_err _ _ (by simp)]
    by_cases hn : j.int name = lmax + 1
    · right; simp [hn, readDbl]
    · left; simp [hn]
  | some h =>
    have ht := find_isTable hf
    simp only []
    rw [movnam_found _ rfl hf, numRows_tbl ht]
    by_cases hd : ((h.dims.headD 0 : ℕ) : ℤ) = lmax + 1
    · right
      have hb : ¬ h.Has (h.dims.headD 0) := fun hh => hbad ⟨h, hf, hd, hh⟩
      simp only [ne_eq, hd, not_true_eq_false, if_false]
      rw [← hd, Int.toNat_natCast, readDbl_bad _ _ _ _ _ (by simpa [Hdu.Has] using hb)]
      exact ⟨_, _, rfl, by simp⟩
    · left; simp only [ne_eq, hd, not_false_eq_true, if_true]

/-- The rows of the bandpower table as input of `nmt_bins_create`. -/
def Hdu.entries (h : Hdu K) : List (Entry K) :=
  (List.range (h.dims.headD 0)).map (fun i =>
    ⟨(h.ints 2 i).toNat, h.ints 1 i, h.dbls 3 i, h.dbls 4 i⟩)

theorem bins_ok (j : Junk K (Bins K)) (f : FitsFile K) (s : Rd K) (hs : s.status = 0) (h : Hdu K)
    (hf : f.tbl "BANDPOWERS" = some h) (nb em : ℤ) (k1 : h.keys.lookup "N_BANDS" = some nb)
    (k2 : h.keys.lookup "ELL_MAX" = some em) (hh : h.Has (h.dims.headD 0)) :
    binsFromHdus j f s = (liftExcept (binsCreate h.entries em.toNat)).bind (fun b =>
      if nb ≠ b.nBands then .raises .runtime else .ok (b, ⟨some h, 0⟩)) := by
  unfold FitsFile.tbl at hf
  have ht := find_isTable hf
  have hmov : movnam f true "BANDPOWERS" s = ⟨some h, 0⟩ := by simp only [movnam, hs, hf]; simp
  have hz : 0 + h.dims.headD 0 ≤ h.dims.prod := by simpa using hh.2
  unfold binsFromHdus Hdu.entries
  simp only [hmov, readKey, k1, k2, numRows, ht, Option.bind_some, ne_eq, not_true_eq_false, if_false,
    if_true, Int.toNat_natCast]
  rw [readInt_ok _ _ _ _ _ hh.1 hz]; simp only []
  rw [readInt_ok _ _ _ _ _ hh.1 hz]; simp only []
  rw [readDbl_ok _ _ _ _ _ hh.1 hz]; simp only []
  rw [readDbl_ok _ _ _ _ _ hh.1 hz]; simp only [Nat.zero_add, not_true_eq_false, if_false]

theorem bins_fails (j : Junk K (Bins K)) (f : FitsFile K) (s : Rd K) (hs : s.status = 0)
    (hbad : ¬ ∃ h nb em, f.tbl "BANDPOWERS" = some h ∧ h.keys.lookup "N_BANDS" = some nb ∧
      h.keys.lookup "ELL_MAX" = some em ∧ h.Has (h.dims.headD 0)) :
    ∃ s' : Rd K, s'.status ≠ 0 ∧ binsFromHdus j f s = j.bins.bind (fun b => .ok (b, s')) := by
  unfold FitsFile.tbl at hbad
  unfold binsFromHdus
  cases hf : f.find? (fun h => h.isTable == true && h.name == "BANDPOWERS") with
  | none =>
    have hmov : movnam f true "BANDPOWERS" s = ⟨s.cur, 301⟩ := by simp only [movnam, hs, hf]; simp
    refine ⟨⟨s.cur, 301⟩, by simp, ?_⟩
    have he : (⟨s.cur, 301⟩ : Rd K).status ≠ 0 := by simp
    simp only [hmov, readKey_err _ _ _ he, numRows_err _ _ he, readInt_err _ _ _ _ _ he,
      readDbl_err _ _ _ _ _ he]; simp
  | some h =>
    have ht := find_isTable hf
    have hmov : movnam f true "BANDPOWERS" s = ⟨some h, 0⟩ := by simp only [movnam, hs, hf]; simp
    cases k1 : h.keys.lookup "N_BANDS" with
    | none =>
      refine ⟨⟨some h, 202⟩, by simp, ?_⟩
      have he : (⟨some h, 202⟩ : Rd K).status ≠ 0 := by simp
      simp only [hmov, readKey_missing _ k1, readKey_err _ _ _ he, numRows_err _ _ he, readInt_err _ _ _ _ _ he,
        readDbl_err _ _ _ _ _ he]; simp
    | some nb =>
    cases k2 : h.keys.lookup "ELL_MAX" with
    | none =>
      refine ⟨⟨some h, 202⟩, by simp, ?_⟩
      have he : (⟨some h, 202⟩ : Rd K).status ≠ 0 := by simp
      simp only [hmov, readKey_ok _ _ k1, readKey_missing _ k2, numRows_err _ _ he, readInt_err _ _ _ _ _ he,
        readDbl_err _ _ _ _ _ he]; simp
    | some em =>
      have hb : ¬ h.Has (h.dims.headD 0) := fun hh => hbad ⟨h, nb, em, hf, k1, k2, hh⟩
      refine ⟨⟨some h, 107⟩, by simp, ?_⟩
      simp only [hmov, readKey, k1, k2, numRows, ht, Option.bind_some, ne_eq, not_true_eq_false, if_false,
        if_true, Int.toNat_natCast]
      rw [readInt_bad _ _ _ _ _ (by simpa [Hdu.Has] using hb)]
      simp [readInt, readDbl]

theorem mcm_ok (F : Factor K) (j : Junk K (Bins K)) (f : FitsFile K) (n : ℕ) (s : Rd K) (hs : s.status = 0)
    (hn : (n - 1) * n < 2 ^ 31) (h1 h2 : Hdu K) (hf1 : f.img "MCM_BINNED" = some h1)
    (hf2 : f.img "MCM_PERM" = some h2) (hh1 : h1.Has (n * n)) (hh2 : h2.Has n) :
    mcmFromHdus F j f n s = .ok (F.rebuild n (fun i k => h1.dbls 0 (i * n + k)) (h2.ints 0), ⟨some h2, 0⟩) := by
  unfold FitsFile.img at hf1 hf2
  have hmov : movnam f false "MCM_BINNED" s = ⟨some h1, 0⟩ := by simp only [movnam, hs, hf1]; simp
  have hmov2 : movnam f false "MCM_PERM" ⟨some h1, 0⟩ = ⟨some h2, 0⟩ := by simp only [movnam, hf2]; simp
  unfold mcmFromHdus
  simp only [hmov]
  rw [readDbl_ok _ _ _ _ _ hh1.1 (by simpa using hh1.2)]
  simp only []
  rw [if_neg (by omega), hmov2, readInt_ok _ _ _ _ _ hh2.1 (by simpa using hh2.2)]
  simp

theorem mcm_fails (F : Factor K) (j : Junk K (Bins K)) (f : FitsFile K) (n : ℕ) (s : Rd K) (hs : s.status = 0)
    (hn : (n - 1) * n < 2 ^ 31)
    (hbad : ¬ ∃ h1 h2, f.img "MCM_BINNED" = some h1 ∧ f.img "MCM_PERM" = some h2 ∧ h1.Has (n * n) ∧ h2.Has n) :
    ∃ m s', mcmFromHdus F j f n s = .ok (m, s') ∧ s'.status ≠ 0 := by
  unfold FitsFile.img at hbad
  unfold mcmFromHdus
  simp only []
  rw [if_neg (by omega)]
  refine ⟨_, _, rfl, ?_⟩
  cases hf1 : f.find? (fun h => h.isTable == false && h.name == "MCM_BINNED") with
  | none =>
    have he : (⟨s.cur, 301⟩ : Rd K).status ≠ 0 := by simp
    rw [movnam_missing s hs hf1, readDbl_err _ _ _ _ _ he]
    simp only []
    rw [movnam_err _ _ _ _ he, readInt_err _ _ _ _ _ he]
    exact he
  | some h1 =>
    have hmov : movnam f false "MCM_BINNED" s = ⟨some h1, 0⟩ := by simp only [movnam, hs, hf1]; simp
    rw [hmov]
    by_cases hh1 : h1.Has (n * n)
    · rw [readDbl_ok _ _ _ _ _ hh1.1 (by simpa using hh1.2)]
      simp only []
      cases hf2 : f.find? (fun h => h.isTable == false && h.name == "MCM_PERM") with
      | none =>
        rw [movnam_missing _ rfl hf2, readInt_err _ _ _ _ _ (by simp)]
        simp
      | some h2 =>
        have hmov2 : movnam f false "MCM_PERM" ⟨some h1, 0⟩ = ⟨some h2, 0⟩ := by simp only [movnam, hf2]; simp
        rw [hmov2]
        by_cases hh2 : h2.Has n
        · exact absurd ⟨h1, h2, hf1, hf2, hh1, hh2⟩ hbad
        · rw [readInt_bad _ _ _ _ _ (by simpa [Hdu.Has] using hh2)]; simp
    · rw [readDbl_bad _ _ _ _ _ (by simpa [Hdu.Has] using hh1)]
      simp [movnam, readInt]

/-- Everything the reader needs is in the file. -/
structure Readable (f : FitsFile K) (unb : Bool) (hi hb hp hn hm hq : Hdu K) (lmax lf lm teb ncls nb em : ℤ)
    (B : Bins K) : Prop where
  img : f.img "WSP_PRIMARY" = some hi
  keys : hi.Keys lmax lf lm teb ncls
  can : hi.CanRead unb (ncls * (lmax + 1)).toNat
  beams : f.tbl "BEAMS" = some hb
  beamsDim : ((hb.dims.headD 0 : ℕ) : ℤ) = lf + 1
  beamsHas : hb.Has (hb.dims.headD 0)
  pcl : f.tbl "PCL_MASKS" = some hp
  pclDim : ((hp.dims.headD 0 : ℕ) : ℤ) = lm + 1
  pclHas : hp.Has (hp.dims.headD 0)
  bins : f.tbl "BANDPOWERS" = some hn
  nBands : hn.keys.lookup "N_BANDS" = some nb
  ellMax : hn.keys.lookup "ELL_MAX" = some em
  binsHas : hn.Has (hn.dims.headD 0)
  create : binsCreate hn.entries em.toNat = .ok B
  count : nb = B.nBands
  small : (ncls.toNat * B.nBands - 1) * (ncls.toNat * B.nBands) < 2 ^ 31
  mcm : f.img "MCM_BINNED" = some hm
  perm : f.img "MCM_PERM" = some hq
  mcmHas : hm.Has ((ncls.toNat * B.nBands) * (ncls.toNat * B.nBands))
  permHas : hq.Has (ncls.toNat * B.nBands)

/-- The workspace the reader makes of it. -/
def assemble (F : Factor K) (j : Junk K (Bins K)) (unb : Bool) (hi hb hp hm hq : Hdu K)
    (lmax lf lm teb ncls : ℤ) (B : Bins K) : Wsp K :=
  { ncls := ncls.toNat, lmax := lmax.toNat, lmaxFields := lf.toNat, lmaxMask := lm.toNat, isTeb := teb ≠ 0,
    normType := (hi.keys.lookup "NORM_TYPE").getD 0, w2 := j.w2,
    beamProd := tab (hb.dims.headD 0) (hb.dbls 2), pclMasks := tab (hp.dims.headD 0) (hp.dbls 2),
    unbinned := if unb then some (tab2 (ncls * (lmax + 1)).toNat (ncls * (lmax + 1)).toNat
        (fun i k => hi.dbls 0 (i * (ncls * (lmax + 1)).toNat + k))) else none,
    bin := B,
    binned := F.rebuild (ncls.toNat * B.nBands) (fun i k => hm.dbls 0 (i * (ncls.toNat * B.nBands) + k))
      (hq.ints 0) }

theorem read_ok (F : Factor K) (j : Junk K (Bins K)) (f : FitsFile K) (unb : Bool) {hi hb hp hn hm hq : Hdu K}
    {lmax lf lm teb ncls nb em : ℤ} {B : Bins K}
    (R : Readable f unb hi hb hp hn hm hq lmax lf lm teb ncls nb em B) :
    readWorkspace F j f unb = .ok (assemble F j unb hi hb hp hm hq lmax lf lm teb ncls B) := by
  have hne : f ≠ [] := by rintro rfl; simpa [FitsFile.img] using R.img
  have ho : (fitsOpen f).status = 0 := by cases f <;> simp_all [fitsOpen]
  unfold readWorkspace
  simp only [checkFits, ho, ne_eq, not_true_eq_false, if_false, Outcome.bind]
  rw [info_ok j f unb _ ho hi R.img lmax lf lm teb ncls R.keys R.can]
  simp only [not_true_eq_false, if_false]
  rw [lArr_ok j f lf "BEAMS" _ hb R.beams R.beamsDim R.beamsHas]
  simp only [not_true_eq_false, if_false]
  rw [lArr_ok j f lm "PCL_MASKS" _ hp R.pcl R.pclDim R.pclHas]
  simp only [not_true_eq_false, if_false]
  rw [bins_ok j f _ rfl hn R.bins nb em R.nBands R.ellMax R.binsHas, R.create]
  simp only [liftExcept, Outcome.bind, R.count, ne_eq, not_true_eq_false, if_false]
  rw [mcm_ok F j f _ _ rfl R.small hm hq R.mcm R.perm R.mcmHas R.permHas]
  simp only [not_true_eq_false, if_false]
  rfl

theorem read_of_ok (F : Factor K) (j : Junk K (Bins K)) (f : FitsFile K) (unb : Bool) (w : Wsp K)
    (hw : readWorkspace F j f unb = .ok w) :
    ∃ hi hb hp hn hm hq lmax lf lm teb ncls nb em B,
      Readable f unb hi hb hp hn hm hq lmax lf lm teb ncls nb em B := by
  unfold readWorkspace at hw
  by_cases ho : (fitsOpen f).status = 0
  swap
  · simp [checkFits, ho, Outcome.bind] at hw
  simp only [checkFits, ho, ne_eq, not_true_eq_false, if_false, Outcome.bind] at hw
  by_cases hI : ∃ h lmax lf lm teb ncls, f.img "WSP_PRIMARY" = some h ∧ h.Keys lmax lf lm teb ncls ∧
      h.CanRead unb (ncls * (lmax + 1)).toNat
  swap
  · have := info_fails j f unb _ ho hI
    simp [this] at hw
  obtain ⟨hi, lmax, lf, lm, teb, ncls, i1, i2, i3⟩ := hI
  rw [info_ok j f unb _ ho hi i1 lmax lf lm teb ncls i2 i3] at hw
  simp only [not_true_eq_false, if_false] at hw
  by_cases hB : ∃ h, f.tbl "BEAMS" = some h ∧ ((h.dims.headD 0 : ℕ) : ℤ) = lf + 1 ∧ h.Has (h.dims.headD 0)
  swap
  · rcases lArr_fails j f lf "BEAMS" ⟨some hi, 0⟩ hB with h | ⟨v, s', h, hs⟩
    · rw [h] at hw; simp at hw
    · rw [h] at hw; simp [hs] at hw
  obtain ⟨hb, b1, b2, b3⟩ := hB
  rw [lArr_ok j f lf "BEAMS" _ hb b1 b2 b3] at hw
  simp only [not_true_eq_false, if_false] at hw
  by_cases hP : ∃ h, f.tbl "PCL_MASKS" = some h ∧ ((h.dims.headD 0 : ℕ) : ℤ) = lm + 1 ∧ h.Has (h.dims.headD 0)
  swap
  · rcases lArr_fails j f lm "PCL_MASKS" ⟨some hb, 0⟩ hP with h | ⟨v, s', h, hs⟩
    · rw [h] at hw; simp at hw
    · rw [h] at hw; simp [hs] at hw
  obtain ⟨hp, p1, p2, p3⟩ := hP
  rw [lArr_ok j f lm "PCL_MASKS" _ hp p1 p2 p3] at hw
  simp only [not_true_eq_false, if_false] at hw
  by_cases hN : ∃ h nb em, f.tbl "BANDPOWERS" = some h ∧ h.keys.lookup "N_BANDS" = some nb ∧
      h.keys.lookup "ELL_MAX" = some em ∧ h.Has (h.dims.headD 0)
  swap
  · obtain ⟨s', hs, h⟩ := bins_fails j f ⟨some hp, 0⟩ rfl hN
    rw [h] at hw
    cases hj : j.bins with
    | raises e => simp [hj, Outcome.bind] at hw
    | crash => simp [hj, Outcome.bind] at hw
    | ok b =>
      simp only [hj, Outcome.bind, hs, ne_eq, not_false_eq_true, if_true, binsFromHdusOld] at hw
      cases hj' : j.binsOld with
      | raises e => simp [hj'] at hw
      | crash => simp [hj'] at hw
      | ok b' => simp [hj', hs] at hw
  obtain ⟨hn, nb, em, n1, n2, n3, n4⟩ := hN
  rw [bins_ok j f _ rfl hn n1 nb em n2 n3 n4] at hw
  cases hc : binsCreate hn.entries em.toNat with
  | error e => simp [hc, liftExcept, Outcome.bind] at hw
  | ok B =>
  simp only [hc, liftExcept, Outcome.bind] at hw
  by_cases hcount : nb = B.nBands
  swap
  · simp [hcount] at hw
  simp only [hcount, ne_eq, not_true_eq_false, if_false] at hw
  by_cases hsm : (ncls.toNat * B.nBands - 1) * (ncls.toNat * B.nBands) < 2 ^ 31
  swap
  · unfold mcmFromHdus at hw
    simp only [] at hw
    rw [if_pos (by omega)] at hw
    simp at hw
  by_cases hM : ∃ h1 h2, f.img "MCM_BINNED" = some h1 ∧ f.img "MCM_PERM" = some h2 ∧
      h1.Has ((ncls.toNat * B.nBands) * (ncls.toNat * B.nBands)) ∧ h2.Has (ncls.toNat * B.nBands)
  swap
  · obtain ⟨m, s', h, hs⟩ := mcm_fails F j f (ncls.toNat * B.nBands) ⟨some hn, 0⟩ rfl hsm hM
    rw [h] at hw
    simp [hs] at hw
  obtain ⟨hm, hq, m1, m2, m3, m4⟩ := hM
  exact ⟨hi, hb, hp, hn, hm, hq, lmax, lf, lm, teb, ncls, nb, em, B,
    ⟨i1, i2, i3, b1, b2, b3, p1, p2, p3, n1, n2, n3, n4, hc, hcount, hsm, m1, m2, m3, m4⟩⟩

end

end NaMaster
