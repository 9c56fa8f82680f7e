import Verif.Flat.FilesModel
import Verif.Flat.CoupleLemmas
import Verif.Covar.FilesLemmas
import Mathlib.Data.Int.Log
import Mathlib.Algebra.Order.Round

/-! # What the readers of flat workspaces do, in closed form -/

namespace NaMaster

open Real Finset

/-! ## Numbers in keywords -/

theorem digits_zero : Digits15 0 := ⟨0, 0, by norm_num, by norm_num⟩

theorem dec_of_digits {k : KeyFormat} (hk : k.Correct) {x : ℝ} (hx : Digits15 x) : k.dec x = x := by
  have := hk.closest x x hx
  rw [sub_self, abs_zero, abs_nonpos_iff, sub_eq_zero] at this
  exact this

theorem stored_stored {k : KeyFormat} (hk : k.Correct) (x : ℝ) : k.stored (k.stored x) = k.stored x := by
  unfold KeyFormat.stored
  rw [hk.back _ (hk.digits x)]

theorem stored_of_digits {k : KeyFormat} (hk : k.Correct) {x : ℝ} (hx : Digits15 x) : k.stored (k.rd x) = k.rd x := by
  unfold KeyFormat.stored
  rw [hk.back _ hx]

theorem rd_natCast {k : KeyFormat} (hk : k.Correct) {n : ℕ} (hn : n ≤ 2 ^ 53) : k.rd n = n := by
  have := hk.exact n 0 (by rw [Nat.abs_cast]; exact_mod_cast hn)
  simpa using this

theorem digits_natCast {n : ℕ} (hn : n < 10 ^ 15) : Digits15 n :=
  ⟨n, 0, by rw [Nat.abs_cast]; exact_mod_cast hn, by simp⟩

theorem stored_natCast {k : KeyFormat} (hk : k.Correct) {n : ℕ} (hn : n < 10 ^ 15) : k.stored n = n := by
  unfold KeyFormat.stored
  rw [dec_of_digits hk (digits_natCast hn), rd_natCast hk (by omega)]

/-- A decimal number of 15 digits that is not below `10^p` is a multiple of `10^(p-14)`. -/
theorem digits_multiple {y : ℝ} (hy : Digits15 y) (p : ℤ) (h : (10 : ℝ) ^ p ≤ |y|) : ∃ z : ℤ, y = z * (10 : ℝ) ^ (p - 14) := by
  obtain ⟨m, e, hm, rfl⟩ := hy
  by_cases he : p - 14 ≤ e
  · obtain ⟨n, hn⟩ := Int.eq_ofNat_of_zero_le (sub_nonneg.2 he)
    refine ⟨m * 10 ^ n, ?_⟩
    rw [show e = (n : ℤ) + (p - 14) by omega, zpow_add₀ (by norm_num), zpow_natCast]
    push_cast
    ring
  · exfalso
    have h1 : |(m : ℝ) * (10 : ℝ) ^ e| = |(m : ℝ)| * (10 : ℝ) ^ e := by rw [abs_mul, abs_of_pos (by positivity : (0 : ℝ) < 10 ^ e)]
    have h2 : |(m : ℝ)| < (10 : ℝ) ^ 15 := by exact_mod_cast hm
    have h3 : (10 : ℝ) ^ e ≤ (10 : ℝ) ^ (p - 15) := zpow_le_zpow_right₀ (by norm_num) (by omega)
    have h4 : (10 : ℝ) ^ p = (10 : ℝ) ^ 15 * (10 : ℝ) ^ (p - 15) := by
      rw [← zpow_natCast, ← zpow_add₀ (by norm_num)]; congr 1; push_cast; ring
    have h5 : (0 : ℝ) < 10 ^ e := by positivity
    rw [h1, h4] at h
    have : |(m : ℝ)| * (10 : ℝ) ^ e < (10 : ℝ) ^ 15 * (10 : ℝ) ^ e := mul_lt_mul_of_pos_right h2 h5
    have h6 : (10 : ℝ) ^ 15 * (10 : ℝ) ^ e ≤ (10 : ℝ) ^ 15 * (10 : ℝ) ^ (p - 15) := mul_le_mul_of_nonneg_left h3 (by positivity)
    linarith

/-- The decimal number printed for a number close to a multiple of `10^(p-14)`. -/
theorem dec_eq {k : KeyFormat} (hk : k.Correct) {x : ℝ} {z : ℤ} {p : ℤ} (hz : Digits15 (z * (10 : ℝ) ^ (p - 14)))
    (h : |z * (10 : ℝ) ^ (p - 14) - x| < 1 / 2 * (10 : ℝ) ^ (p - 14)) (hx : (10 : ℝ) ^ p + (10 : ℝ) ^ (p - 14) ≤ x) :
    k.dec x = z * (10 : ℝ) ^ (p - 14) := by
  have hu : (0 : ℝ) < 10 ^ (p - 14) := by positivity
  have h1 := hk.closest x _ hz
  have h2 : |k.dec x - x| < 1 / 2 * (10 : ℝ) ^ (p - 14) := lt_of_le_of_lt h1 h
  have h3 : (10 : ℝ) ^ p ≤ k.dec x := by
    have := (abs_lt.1 h2).1
    linarith
  obtain ⟨y, hy⟩ := digits_multiple (hk.digits x) p (h3.trans (le_abs_self _))
  rw [hy] at h2 ⊢
  have h4 : |((z : ℝ) - y) * (10 : ℝ) ^ (p - 14)| < 1 * (10 : ℝ) ^ (p - 14) := by
    have e : ((z : ℝ) - y) * (10 : ℝ) ^ (p - 14) = (z * (10 : ℝ) ^ (p - 14) - x) - (y * (10 : ℝ) ^ (p - 14) - x) := by ring
    rw [e]
    refine lt_of_le_of_lt (abs_sub _ _) ?_
    linarith
  rw [abs_mul, abs_of_pos hu] at h4
  have h5 := lt_of_mul_lt_mul_right h4 hu.le
  have h6 : |z - y| < 1 := by exact_mod_cast h5
  rw [Int.abs_lt_one_iff, sub_eq_zero] at h6
  rw [h6]

/-- The side of a map that is not kept: the next double after one. -/
theorem stored_next {k : KeyFormat} (hk : k.Correct) : k.stored (1 + 1 / 2 ^ 52) = 1 := by
  have h : k.dec (1 + 1 / 2 ^ 52) = ((10 ^ 15 : ℤ) : ℝ) * (10 : ℝ) ^ ((-1 : ℤ) - 14) := by
    refine dec_eq hk ?_ ?_ ?_
    · exact ⟨1, 0, by norm_num, by norm_num⟩
    · rw [abs_lt]; constructor <;> norm_num
    · norm_num
  unfold KeyFormat.stored
  rw [h]
  have := rd_natCast hk (n := 1) (by norm_num)
  norm_num at this ⊢
  exact this

/-- The inverse of `2π` is stored as a smaller number. -/
theorem stored_inv {k : KeyFormat} (hk : k.Correct) : 0.159 < k.stored (1 / (2 * π)) ∧ k.stored (1 / (2 * π)) < 1 / (2 * π) := by
  have hl := Real.pi_gt_d20
  have hu := Real.pi_lt_d20
  have h1 : (0.1591549430918953 : ℝ) < 1 / (2 * π) := by
    rw [lt_div_iff₀ (by positivity)]
    nlinarith
  have h2 : 1 / (2 * π) < (0.1591549430918954 : ℝ) := by
    rw [div_lt_iff₀ (by positivity)]
    nlinarith
  have h : k.dec (1 / (2 * π)) = ((159154943091895 : ℤ) : ℝ) * (10 : ℝ) ^ ((-1 : ℤ) - 14) := by
    refine dec_eq hk ?_ ?_ ?_
    · exact ⟨159154943091895, -15, by norm_num, by norm_num⟩
    · rw [abs_lt]; constructor <;> norm_num <;> norm_num at h1 h2 <;> linarith
    · norm_num; norm_num at h1; linarith
  unfold KeyFormat.stored
  rw [h]
  have h3 := abs_le.1 (hk.near (((159154943091895 : ℤ) : ℝ) * (10 : ℝ) ^ ((-1 : ℤ) - 14)))
  rw [abs_of_pos (by norm_num)] at h3
  norm_num at h3 h1 ⊢
  constructor <;> linarith [h3.1, h3.2]

/-- The inverse of `π` is stored as a larger number. -/
theorem stored_inv' {k : KeyFormat} (hk : k.Correct) : 1 / π < k.stored (1 / π) ∧ k.stored (1 / π) < 0.319 := by
  have hl := Real.pi_gt_d20
  have hu := Real.pi_lt_d20
  have h1 : (0.3183098861837906 : ℝ) < 1 / π := by
    rw [lt_div_iff₀ (by positivity)]
    nlinarith
  have h2 : 1 / π < (0.3183098861837907 : ℝ) := by
    rw [div_lt_iff₀ (by positivity)]
    nlinarith
  have h : k.dec (1 / π) = ((318309886183791 : ℤ) : ℝ) * (10 : ℝ) ^ ((-1 : ℤ) - 14) := by
    refine dec_eq hk ?_ ?_ ?_
    · exact ⟨318309886183791, -15, by norm_num, by norm_num⟩
    · rw [abs_lt]; constructor <;> norm_num <;> norm_num at h1 h2 <;> linarith
    · norm_num; norm_num at h1; linarith
  unfold KeyFormat.stored
  rw [h]
  have h3 := abs_le.1 (hk.near (((318309886183791 : ℤ) : ℝ) * (10 : ℝ) ^ ((-1 : ℤ) - 14)))
  rw [abs_of_pos (by norm_num)] at h3
  norm_num at h3 h2 ⊢
  constructor <;> linarith [h3.1, h3.2]

/-! ## A format that meets the assumptions -/

/-- The nearest decimal number with 15 digits. -/
noncomputable def roundDec (x : ℝ) : ℝ := round (x / (10 : ℝ) ^ (Int.log 10 |x| - 14)) * (10 : ℝ) ^ (Int.log 10 |x| - 14)

/-- Decimal numbers as printed, without conversion to doubles. -/
noncomputable def decimalFormat : KeyFormat := ⟨roundDec, id⟩

theorem roundDec_digits (x : ℝ) : Digits15 (roundDec x) := by
  by_cases hx : x = 0
  · subst hx
    refine ⟨0, 0, by norm_num, ?_⟩
    simp [roundDec]
  have hp : 0 < |x| := abs_pos.2 hx
  have hu : (0 : ℝ) < (10 : ℝ) ^ (Int.log 10 |x| - 14) := by positivity
  have h1 : |x| < (10 : ℝ) ^ (Int.log 10 |x| + 1) := by exact_mod_cast Int.lt_zpow_succ_log_self (b := 10) (by norm_num) |x|
  have h2 : |x / (10 : ℝ) ^ (Int.log 10 |x| - 14)| < (10 : ℝ) ^ 15 := by
    rw [abs_div, abs_of_pos hu, div_lt_iff₀ hu, ← zpow_natCast, ← zpow_add₀ (by norm_num)]
    refine h1.trans_eq ?_
    congr 1
    push_cast
    ring
  unfold roundDec
  generalize x / (10 : ℝ) ^ (Int.log 10 |x| - 14) = y at h2
  generalize Int.log 10 |x| - 14 = e
  have h3 : |round y| < 10 ^ 15 + 1 := by
    have := abs_sub_round y
    have h4 : |(round y : ℝ)| ≤ |y| + 1 / 2 := by
      have e : (round y : ℝ) = y - (y - round y) := by ring
      rw [e]
      exact (abs_sub _ _).trans (by linarith)
    have h5 : |(round y : ℝ)| < 10 ^ 15 + 1 := by linarith
    exact_mod_cast h5
  by_cases h4 : |round y| < 10 ^ 15
  · exact ⟨round y, e, h4, rfl⟩
  · have h5 : |round y| = 10 ^ 15 := by omega
    rcases (abs_eq (by norm_num)).1 h5 with h | h
    · refine ⟨10 ^ 14, e + 1, by norm_num, ?_⟩
      rw [h, zpow_add₀ (by norm_num)]; norm_num; ring
    · refine ⟨-10 ^ 14, e + 1, by norm_num, ?_⟩
      rw [h, zpow_add₀ (by norm_num)]; norm_num; ring

theorem roundDec_closest (x y : ℝ) (hy : Digits15 y) : |roundDec x - x| ≤ |y - x| := by
  by_cases hx : x = 0
  · subst hx
    simp [roundDec]
  have hp : 0 < |x| := abs_pos.2 hx
  have hu : (0 : ℝ) < (10 : ℝ) ^ (Int.log 10 |x| - 14) := by positivity
  have h1 : (10 : ℝ) ^ (Int.log 10 |x|) ≤ |x| := by exact_mod_cast Int.zpow_log_le_self (b := 10) (by norm_num) hp
  have key : ∀ z : ℤ, |roundDec x - x| ≤ |z * (10 : ℝ) ^ (Int.log 10 |x| - 14) - x| := by
    intro z
    have e : ∀ a : ℝ, |a * (10 : ℝ) ^ (Int.log 10 |x| - 14) - x| =
        |x / (10 : ℝ) ^ (Int.log 10 |x| - 14) - a| * (10 : ℝ) ^ (Int.log 10 |x| - 14) := by
      intro a
      rw [← abs_of_pos hu, ← abs_mul, abs_of_pos hu, abs_sub_comm]
      congr 1
      field_simp
    unfold roundDec
    rw [e, e]
    exact mul_le_mul_of_nonneg_right (round_le _ z) hu.le
  by_cases h : (10 : ℝ) ^ (Int.log 10 |x|) ≤ |y|
  · obtain ⟨z, hz⟩ := digits_multiple hy _ h
    rw [hz]
    exact key z
  · push Not at h
    have e14 : (10 : ℝ) ^ 14 * (10 : ℝ) ^ (Int.log 10 |x| - 14) = (10 : ℝ) ^ (Int.log 10 |x|) := by
      rw [← zpow_natCast, ← zpow_add₀ (by norm_num)]; congr 1; push_cast; ring
    norm_num at e14
    have h2 : |x| - |y| ≤ |y - x| := by rw [abs_sub_comm]; exact abs_sub_abs_le_abs_sub x y
    rcases lt_or_gt_of_ne hx with hn | hn
    · have := key (-10 ^ 14)
      push_cast at this
      rw [neg_mul, e14] at this
      refine this.trans ?_
      rw [abs_of_neg hn] at h1 h2 h this ⊢
      rw [abs_of_nonneg (by linarith)]
      linarith
    · have := key (10 ^ 14)
      push_cast at this
      rw [e14] at this
      refine this.trans ?_
      rw [abs_of_pos hn] at h1 h2 h this ⊢
      rw [abs_of_nonpos (by linarith)]
      linarith

theorem decimalFormat_correct : decimalFormat.Correct where
  digits := roundDec_digits
  closest := roundDec_closest
  near := fun x => by simp only [decimalFormat, id, sub_self, abs_zero]; positivity
  exact := fun _ _ _ => rfl
  back := fun x hx => by
    have := roundDec_closest x x hx
    rw [sub_self, abs_zero, abs_nonpos_iff, sub_eq_zero] at this
    exact this

/-! ## Tables and images -/

theorem imageRows_apply (n m : ℕ) (M : ℕ → ℕ → ℝ) {i j : ℕ} (hi : i < n) (hj : j < m) : imageRows n m M (i * m + j) = M i j := by
  unfold imageRows
  apply runWrites_mem
  · simp only [List.mem_flatMap, List.mem_map, List.mem_range]
    exact ⟨i, hi, j, hj, rfl⟩
  · intro x hx hxe
    simp only [List.mem_flatMap, List.mem_map, List.mem_range] at hx
    obtain ⟨i', hi', j', hj', rfl⟩ := hx
    simp only at hxe ⊢
    rw [Nat.mul_comm, Nat.mul_comm i] at hxe
    obtain ⟨rfl, rfl⟩ := flat_inj hj' hj hxe
    rfl

theorem imageRows_congr {n m : ℕ} {M M' : ℕ → ℕ → ℝ} (h : ∀ i < n, ∀ j < m, M i j = M' i j) : imageRows n m M = imageRows n m M' := by
  unfold imageRows
  congr 1
  refine List.flatMap_congr fun i hi => List.map_congr_left fun j hj => ?_
  rw [h i (List.mem_range.1 hi) j (List.mem_range.1 hj)]

/-! ## Reading back -/

/-- The elements out of range are zero in the model. -/
structure WspFlat.Normal (w : WspFlat) : Prop where
  ncls : 0 < w.ncls
  bands : 0 < w.bin.nBands
  binned : ∀ i b1 j b2, ¬ (i < w.ncls ∧ j < w.ncls ∧ b1 < w.bin.nBands ∧ b2 < w.bin.nBands) → w.binned i b1 j b2 = 0
  unbinned : ∀ i b1 j ir, ¬ (i < w.ncls ∧ j < w.ncls ∧ b1 < w.bin.nBands ∧ ir < w.rings.nEll) → w.unbinned i b1 j ir = 0

/-- The workspace read back. -/
noncomputable def WspFlat.stored (k : KeyFormat) (w : WspFlat) : WspFlat where
  fs := ⟨w.fs.nx, w.fs.ny, k.stored w.fs.lx, k.stored w.fs.ly⟩
  cuts := ⟨k.stored w.cuts.x0, k.stored w.cuts.x1, k.stored w.cuts.y0, k.stored w.cuts.y1⟩
  ncls := w.ncls
  bin := ⟨w.bin.nBands, tab w.bin.nBands w.bin.ell0, tab w.bin.nBands w.bin.ellf⟩
  isTeb := w.isTeb
  nCells := tab w.bin.nBands w.nCells
  binned := w.binned
  unbinned := w.unbinned
  rings := ⟨w.rings.npix, k.stored w.rings.pixsize, k.stored w.rings.dell, k.stored w.rings.iDell, w.rings.nEll,
    tab w.rings.nEll w.rings.ellMin⟩
  lmax := k.stored w.lmax
  pure := w.pure

theorem gslMatrix_normal {w : WspFlat} (hw : w.Normal) :
    w.gslMatrix = tab2 (w.ncls * w.bin.nBands) (w.ncls * w.bin.nBands) w.gslMatrix := by
  funext r s
  unfold tab2
  split_ifs with h
  · rfl
  · unfold WspFlat.gslMatrix
    refine hw.binned _ _ _ _ fun ⟨_, _, h1, h2⟩ => h ⟨?_, ?_⟩
    · exact (Nat.div_lt_iff_lt_mul hw.ncls).1 h1 |>.trans_eq (Nat.mul_comm _ _)
    · exact (Nat.div_lt_iff_lt_mul hw.ncls).1 h2 |>.trans_eq (Nat.mul_comm _ _)

theorem readKeyD_ok {h : Hdu ℝ} (k : String) (v : ℝ) (hk : h.dkeys.lookup k = some v) (old : ℝ) :
    readKeyD k old ⟨some h, 0⟩ = (v, (⟨some h, 0⟩ : Rd ℝ)) := by simp [readKeyD, hk]

theorem imgSize2_ok {h : Hdu ℝ} (ht : h.isTable = false) {a b : ℕ} (hd : h.dims = [a, b]) (o1 o2 : ℤ) :
    imgSize2 o1 o2 ⟨some h, 0⟩ = ((a : ℤ), (b : ℤ), (⟨some h, 0⟩ : Rd ℝ)) := by simp [imgSize2, ht, hd]

section
variable {F : Factor ℝ} {j : FlatFileJunk} {f : FitsFile ℝ} {k : KeyFormat} {w : WspFlat} {s : Rd ℝ}

theorem flatInfo_read (hs : s.status = 0) (hf : f.img "WSP_PRIMARY" = some (flatInfoHdu k w)) :
    ∃ m, flatInfoFromHdus j f s = (⟨k.stored w.lmax, ⟨k.stored w.cuts.x0, k.stored w.cuts.x1, k.stored w.cuts.y0, k.stored w.cuts.y1⟩,
      w.pure, w.isTeb, w.ncls, m⟩, ⟨some (flatInfoHdu k w), 0⟩) ∧
      ∀ r < w.ncls * w.bin.nBands, ∀ c < w.ncls * w.rings.nEll, m r c = w.unbinned (r % w.ncls) (r / w.ncls) (c % w.ncls) (c / w.ncls) := by
  have hr := readRows_ok (w.ncls * w.rings.nEll) j.dbl (flatInfoHdu k w) (w.ncls * w.bin.nBands) rfl
    (le_of_eq (by simp [flatInfoHdu, Nat.mul_comm]))
  refine ⟨(readRows (w.ncls * w.rings.nEll) j.dbl (w.ncls * w.bin.nBands) ⟨some (flatInfoHdu k w), 0⟩).1, ?_, ?_⟩
  · unfold flatInfoFromHdus
    rw [movnam_found s hs hf]; dsimp only
    rw [readKeyD_ok (h := flatInfoHdu k w) "LMAX" (k.stored w.lmax) rfl]; dsimp only
    rw [readKeyD_ok (h := flatInfoHdu k w) "ELLCUT_X_I" (k.stored w.cuts.x0) rfl]; dsimp only
    rw [readKeyD_ok (h := flatInfoHdu k w) "ELLCUT_X_F" (k.stored w.cuts.x1) rfl]; dsimp only
    rw [readKeyD_ok (h := flatInfoHdu k w) "ELLCUT_Y_I" (k.stored w.cuts.y0) rfl]; dsimp only
    rw [readKeyD_ok (h := flatInfoHdu k w) "ELLCUT_Y_F" (k.stored w.cuts.y1) rfl]; dsimp only
    rw [readKey_ok (h := flatInfoHdu k w) "PURE_E1" w.pure.1 rfl]; dsimp only
    rw [readKey_ok (h := flatInfoHdu k w) "PURE_E2" w.pure.2.1 rfl]; dsimp only
    rw [readKey_ok (h := flatInfoHdu k w) "PURE_B1" w.pure.2.2.1 rfl]; dsimp only
    rw [readKey_ok (h := flatInfoHdu k w) "PURE_B2" w.pure.2.2.2 rfl]; dsimp only
    rw [readKey_ok (h := flatInfoHdu k w) "IS_TEB" (if w.isTeb then 1 else 0) rfl]; dsimp only
    rw [readKey_ok (h := flatInfoHdu k w) "NCLS" w.ncls rfl]; dsimp only
    rw [imgSize2_ok rfl (a := w.ncls * w.rings.nEll) (b := w.ncls * w.bin.nBands) rfl]; dsimp only
    simp only [Int.toNat_natCast]
    rw [hr.1]
    cases hteb : w.isTeb <;> simp
  · intro r hr' c hc
    rw [hr.2 r c hr']
    exact imageRows_apply _ _ _ hr' hc

theorem flatGeom_read (hs : s.status = 0) (hf : f.tbl "FS_INFO" = some (flatGeomHdu k w)) :
    flatGeomFromHdus j f s = (((w.stored k).fs, (w.stored k).rings), ⟨some (flatGeomHdu k w), 0⟩) := by
  unfold flatGeomFromHdus
  rw [movnam_found s hs hf]; dsimp only
  rw [readKey_ok (h := flatGeomHdu k w) "NX" w.fs.nx rfl]; dsimp only
  rw [readKey_ok (h := flatGeomHdu k w) "NY" w.fs.ny rfl]; dsimp only
  rw [readKey_ok (h := flatGeomHdu k w) "NPIX" w.rings.npix rfl]; dsimp only
  rw [readKeyD_ok (h := flatGeomHdu k w) "LX" (k.stored w.fs.lx) rfl]; dsimp only
  rw [readKeyD_ok (h := flatGeomHdu k w) "LY" (k.stored w.fs.ly) rfl]; dsimp only
  rw [readKeyD_ok (h := flatGeomHdu k w) "PIXSIZE" (k.stored w.rings.pixsize) rfl]; dsimp only
  rw [readKeyD_ok (h := flatGeomHdu k w) "DELL" (k.stored w.rings.dell) rfl]; dsimp only
  rw [readKeyD_ok (h := flatGeomHdu k w) "I_DELL" (k.stored w.rings.iDell) rfl]; dsimp only
  rw [numRows_tbl rfl]; dsimp only
  rw [show (((flatGeomHdu k w).dims.headD 0 : ℕ) : ℤ).toNat = w.rings.nEll from by simp [flatGeomHdu],
    readDbl_ok 1 0 w.rings.nEll j.dbl (flatGeomHdu k w) rfl (by simp [flatGeomHdu])]
  simp [WspFlat.stored, flatGeomHdu, tab_tab]

theorem flatCells_read (hs : s.status = 0) (hf : f.tbl "N_CELLS" = some (flatCellsHdu w)) :
    flatCellsFromHdus j f s = ((w.stored k).nCells, ⟨some (flatCellsHdu w), 0⟩) := by
  unfold flatCellsFromHdus
  rw [movnam_found s hs hf]; dsimp only
  rw [numRows_tbl rfl]; dsimp only
  rw [show (((flatCellsHdu w).dims.headD 0 : ℕ) : ℤ).toNat = w.bin.nBands from by simp [flatCellsHdu],
    readInt_ok 1 0 w.bin.nBands j.cells (flatCellsHdu w) rfl (by simp [flatCellsHdu])]
  simp only [WspFlat.stored, flatCellsHdu, Prod.mk.injEq, and_true]
  refine tab_congr fun i hi => ?_
  rw [Nat.zero_add, tab_of_lt _ hi, Int.toNat_natCast]

theorem flatBins_read {b : FlatBins ℝ} (hs : s.status = 0) (hf : f.tbl "BINS_SUMMARY" = some (flatBinsHdu b)) :
    flatBinsFromHdus j f s = (⟨b.nBands, tab b.nBands b.ell0, tab b.nBands b.ellf⟩, ⟨some (flatBinsHdu b), 0⟩) := by
  unfold flatBinsFromHdus
  rw [movnam_found s hs hf]; dsimp only
  rw [numRows_tbl rfl]; dsimp only
  rw [show (((flatBinsHdu b).dims.headD 0 : ℕ) : ℤ).toNat = b.nBands from by simp [flatBinsHdu],
    readDbl_ok 1 0 b.nBands j.dbl (flatBinsHdu b) rfl (by simp [flatBinsHdu])]; dsimp only
  rw [readDbl_ok 2 0 b.nBands j.dbl (flatBinsHdu b) rfl (by simp [flatBinsHdu])]
  simp [flatBinsHdu, tab_tab]

theorem flatMcm_read (hF : F.Correct) (hw : w.Normal) (hs : s.status = 0)
    (h1 : f.img "MCM_BINNED" = some (flatMcmHdu w w.gslMatrix "MCM_BINNED"))
    (h2 : f.img "MCM_BINNED_GSL" = some (flatMcmHdu w (F.lu (w.ncls * w.bin.nBands) w.gslMatrix) "MCM_BINNED_GSL"))
    (h3 : f.img "MCM_PERM" = some (flatPermHdu F w)) :
    flatMcmFromHdus F j f s = .ok (w.gslMatrix, ⟨some (flatPermHdu F w), 0⟩) := by
  have hn : 0 < w.ncls * w.bin.nBands := Nat.mul_pos hw.ncls hw.bands
  unfold flatMcmFromHdus
  rw [movnam_found s hs h1]; dsimp only
  rw [imgSize2_ok rfl (a := w.ncls * w.bin.nBands) (b := w.ncls * w.bin.nBands) rfl]; dsimp only
  rw [if_neg (by simp), if_neg (by push Not; exact ⟨le_refl _, by exact_mod_cast hn⟩), Int.toNat_natCast,
    readDbl_ok 0 0 _ j.dbl (flatMcmHdu w w.gslMatrix "MCM_BINNED") rfl (by simp [flatMcmHdu])]; dsimp only
  rw [movnam_found _ rfl h2]
  rw [imgSize2_ok rfl (a := w.ncls * w.bin.nBands) (b := w.ncls * w.bin.nBands) rfl]; dsimp only
  rw [if_neg (by simp), readDbl_ok 0 0 _ j.dbl (flatMcmHdu w _ "MCM_BINNED_GSL") rfl (by simp [flatMcmHdu])]; dsimp only
  rw [movnam_found _ rfl h3, readInt_ok 0 0 _ j.cells (flatPermHdu F w) rfl (by simp [flatPermHdu])]
  rw [hF (w.ncls * w.bin.nBands) w.gslMatrix _ _ (gslMatrix_normal hw)]
  · intro i c hi hc
    rw [Nat.zero_add]
    exact imageRows_apply _ _ _ hi hc
  · intro i hi
    dsimp only
    rw [Nat.zero_add]
    exact tab_of_lt _ hi

/-- Reading a file that was written. -/
theorem readWspFlat_written (hF : F.Correct) (hw : w.Normal) : readWspFlat F j (wspFlatHdus k F w) = .ok (w.stored k) := by
  have hc : ∀ h : Hdu ℝ, checkFits (⟨some h, 0⟩ : Rd ℝ) = .ok () := fun h => by simp [checkFits]
  unfold readWspFlat
  have ho : fitsOpen (wspFlatHdus k F w) = ⟨some (flatInfoHdu k w), 0⟩ := rfl
  obtain ⟨m, hm, hm'⟩ := flatInfo_read (j := j) (f := wspFlatHdus k F w) (k := k) (w := w) (s := ⟨some (flatInfoHdu k w), 0⟩) rfl rfl
  rw [ho]
  dsimp only
  rw [hc]
  simp only [Outcome.bind]
  rw [hm, hc]
  simp only
  rw [flatGeom_read (w := w) (k := k) rfl rfl, hc]
  simp only
  rw [flatCells_read (w := w) (k := k) rfl rfl, hc]
  simp only
  rw [flatMcm_read hF hw rfl rfl rfl rfl]
  simp only
  rw [hc]
  simp only
  rw [flatBins_read (b := w.bin) rfl rfl, hc]
  simp only
  congr 1
  unfold flatAssemble WspFlat.stored
  congr 1
  · funext i b1 c b2
    split_ifs with h
    · unfold WspFlat.gslMatrix
      rw [pairIdx_mod h.1, pairIdx_div h.1, pairIdx_mod h.2.1, pairIdx_div h.2.1]
    · exact (hw.binned _ _ _ _ h).symm
  · funext i b1 c ir
    split_ifs with h
    · dsimp only at h ⊢
      rw [hm' _ (flat_lt h.1 h.2.2.1) _ (flat_lt h.2.1 h.2.2.2), pairIdx_mod h.1, pairIdx_div h.1, pairIdx_mod h.2.1, pairIdx_div h.2.1]
    · exact (hw.unbinned _ _ _ _ h).symm

theorem stored_normal (hw : w.Normal) : (w.stored k).Normal := ⟨hw.ncls, hw.bands, hw.binned, hw.unbinned⟩

/-- Writing what was read gives the same file. -/
theorem hdus_stored (hk : k.Correct) : wspFlatHdus k F (w.stored k) = wspFlatHdus k F w := by
  unfold wspFlatHdus flatInfoHdu flatGeomHdu flatCellsHdu flatMcmHdu flatPermHdu flatBinsHdu
  have e : (w.stored k).gslMatrix = w.gslMatrix := rfl
  rw [e]
  simp only [WspFlat.stored, stored_stored hk, tab_tab]
  simp only [List.cons.injEq, and_true, true_and, Hdu.mk.injEq]
  refine ⟨by trivial, ?_, ?_⟩
  · funext _
    refine tab_congr fun i hi => ?_
    rw [tab_of_lt _ hi]
  · funext c
    by_cases h : c = 1
    · simp only [if_pos h, tab_tab]
    · simp only [if_neg h, tab_tab]

/-! ## Files that are not complete -/

/-- An error has occurred, or `h` is the current unit. -/
def AtOrErr (h : Hdu ℝ) (s : Rd ℝ) : Prop := s.status ≠ 0 ∨ s = ⟨some h, 0⟩

theorem readKey_at {h : Hdu ℝ} (hs : AtOrErr h s) (key : String) (old : ℤ) : AtOrErr h (readKey key old s).2 := by
  rcases hs with hs | rfl
  · rw [readKey_err _ _ _ hs]; exact Or.inl hs
  · cases hk : h.keys.lookup key with
    | none => rw [readKey_missing _ hk]; exact Or.inl (by simp)
    | some v => rw [readKey_ok _ _ hk]; exact Or.inr rfl

theorem readKeyD_at {h : Hdu ℝ} (hs : AtOrErr h s) (key : String) (old : ℝ) : AtOrErr h (readKeyD key old s).2 := by
  rcases hs with hs | rfl
  · refine Or.inl ?_
    unfold readKeyD
    rw [if_pos hs]
    exact hs
  · cases hk : h.dkeys.lookup key with
    | none => exact Or.inl (by simp [readKeyD, hk])
    | some v => rw [readKeyD_ok _ _ hk]; exact Or.inr rfl

theorem imgSize2_at {h : Hdu ℝ} (hs : AtOrErr h s) (o1 o2 : ℤ) : AtOrErr h (imgSize2 o1 o2 s).2.2 := by
  rcases hs with hs | rfl
  · refine Or.inl ?_
    unfold imgSize2
    rw [if_pos hs]
    exact hs
  · unfold imgSize2
    simp only [ne_eq, not_true_eq_false, if_false]
    split_ifs
    · exact Or.inl (by simp)
    · exact Or.inr rfl

theorem numRows_at {h : Hdu ℝ} (hs : AtOrErr h s) (old : ℤ) : AtOrErr h (numRows old s).2 := by
  rcases hs with hs | rfl
  · rw [numRows_err _ _ hs]; exact Or.inl hs
  · unfold numRows
    simp only [ne_eq, not_true_eq_false, if_false]
    split_ifs
    · exact Or.inr rfl
    · exact Or.inl (by simp)

theorem readDbl_cut {h : Hdu ℝ} (hs : AtOrErr h s) (hh : h.complete = false) (c a n : ℕ) (old : ℕ → ℝ) : (readDbl c a n old s).2.status ≠ 0 := by
  rcases hs with hs | rfl
  · rw [readDbl_err _ _ _ _ _ hs]; exact hs
  · rw [readDbl_bad _ _ _ _ _ (by simp [hh])]; simp

theorem readInt_cut {h : Hdu ℝ} (hs : AtOrErr h s) (hh : h.complete = false) (c a n : ℕ) (old : ℕ → ℤ) : (readInt c a n old s).2.status ≠ 0 := by
  rcases hs with hs | rfl
  · rw [readInt_err _ _ _ _ _ hs]; exact hs
  · rw [readInt_bad _ _ _ _ _ (by simp [hh])]; simp

theorem cut_moved {t : Bool} {name : String} (hs : s.status = 0) (h0 : Hdu ℝ)
    (hl : f.find? (fun h => h.isTable == t && h.name == name) = none ∨ f.find? (fun h => h.isTable == t && h.name == name) = some h0) :
    AtOrErr h0 (movnam f t name s) := by
  rcases hl with hl | hl
  · rw [movnam_missing s hs hl]; exact Or.inl (by simp)
  · rw [movnam_found s hs hl]; exact Or.inr rfl

/-- A unit is missing, or it is `h0`, the data of which ends early. -/
def Cut (f : FitsFile ℝ) (t : Bool) (name : String) (h0 : Hdu ℝ) : Prop :=
  h0.complete = false ∧
    (f.find? (fun h => h.isTable == t && h.name == name) = none ∨ f.find? (fun h => h.isTable == t && h.name == name) = some h0)

theorem flatInfo_cut {h0 : Hdu ℝ} (hs : s.status = 0) (hc : Cut f false "WSP_PRIMARY" h0) {a b : ℕ} (hd : h0.dims = [a, b]) (hb : 0 < b)
    (ht : h0.isTable = false) : (flatInfoFromHdus j f s).2.status ≠ 0 := by
  unfold flatInfoFromHdus
  have h1 := cut_moved hs h0 hc.2
  have h2 := readKeyD_at h1 "LMAX" (j.key "LMAX")
  have h3 := readKeyD_at h2 "ELLCUT_X_I" (j.key "ELLCUT_X_I")
  have h4 := readKeyD_at h3 "ELLCUT_X_F" (j.key "ELLCUT_X_F")
  have h5 := readKeyD_at h4 "ELLCUT_Y_I" (j.key "ELLCUT_Y_I")
  have h6 := readKeyD_at h5 "ELLCUT_Y_F" (j.key "ELLCUT_Y_F")
  have h7 := readKey_at h6 "PURE_E1" (j.int "PURE_E1")
  have h8 := readKey_at h7 "PURE_E2" (j.int "PURE_E2")
  have h9 := readKey_at h8 "PURE_B1" (j.int "PURE_B1")
  have h10 := readKey_at h9 "PURE_B2" (j.int "PURE_B2")
  have h11 := readKey_at h10 "IS_TEB" (j.int "IS_TEB")
  have h12 := readKey_at h11 "NCLS" (j.int "NCLS")
  dsimp only at h12 ⊢
  revert h12
  generalize (readKey "NCLS" (j.int "NCLS") _).2 = s12
  intro h12
  rcases h12 with h12 | rfl
  · have : (imgSize2 (j.int "NAXIS1") (j.int "NAXIS2") s12) = (j.int "NAXIS1", j.int "NAXIS2", s12) := by
      unfold imgSize2; rw [if_pos h12]
    rw [this]
    dsimp only
    rw [readRows_err _ _ _ _ h12]
    exact h12
  · rw [imgSize2_ok ht hd]
    dsimp only
    exact readRows_bad _ _ _ _ (by simpa using hb) (by simp [hc.1])

theorem flatGeom_cut {h0 : Hdu ℝ} (hs : s.status = 0) (hc : Cut f true "FS_INFO" h0) : (flatGeomFromHdus j f s).2.status ≠ 0 := by
  unfold flatGeomFromHdus
  have h1 := cut_moved hs h0 hc.2
  have h2 := readKey_at h1 "NX" (j.int "NX")
  have h3 := readKey_at h2 "NY" (j.int "NY")
  have h4 := readKey_at h3 "NPIX" (j.int "NPIX")
  have h5 := readKeyD_at h4 "LX" (j.key "LX")
  have h6 := readKeyD_at h5 "LY" (j.key "LY")
  have h7 := readKeyD_at h6 "PIXSIZE" (j.key "PIXSIZE")
  have h8 := readKeyD_at h7 "DELL" (j.key "DELL")
  have h9 := readKeyD_at h8 "I_DELL" (j.key "I_DELL")
  have h10 := numRows_at h9 (j.int "FS_INFO")
  clear h1 h2 h3 h4 h5 h6 h7 h8
  dsimp only at h10 ⊢
  revert h10
  generalize (numRows (j.int "FS_INFO") _) = r
  intro h10
  exact readDbl_cut h10 hc.1 _ _ _ _

theorem flatCells_cut {h0 : Hdu ℝ} (hs : s.status = 0) (hc : Cut f true "N_CELLS" h0) : (flatCellsFromHdus j f s).2.status ≠ 0 := by
  unfold flatCellsFromHdus
  exact readInt_cut (numRows_at (cut_moved hs h0 hc.2) (j.int "N_CELLS")) hc.1 _ _ _ _

theorem flatBins_cut {h0 : Hdu ℝ} (hs : s.status = 0) (hc : Cut f true "BINS_SUMMARY" h0) : (flatBinsFromHdus j f s).2.status ≠ 0 := by
  unfold flatBinsFromHdus
  have h1 := readDbl_cut (numRows_at (cut_moved hs h0 hc.2) (j.int "BINS_SUMMARY")) hc.1 1 0
    (numRows (j.int "BINS_SUMMARY") (movnam f true "BINS_SUMMARY" s)).1.toNat j.dbl
  dsimp only at h1 ⊢
  rw [readDbl_err _ _ _ _ _ h1]
  exact h1

end

end NaMaster
