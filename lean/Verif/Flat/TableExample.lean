import Verif.Flat.TableProps
import Verif.Flat.FieldExample
import Verif.Flat.FilesProps

/-! # Cases for C96 -/

namespace NaMaster

open Finset Real FlatFieldExample

/-- A beam given at the multipoles 0, 10 and 20 meets the hypotheses of C96; the field has no response at multipole 20, although the beam there is 1/4. -/
example (env : FlatEnv) : ∃ f0 f : FlatFieldObj, nmtFieldFlat env { argsE 1 1 with beam := none } = .ok f0 ∧
    Increasing (fun i => 10 * (i : ℝ)) 3 ∧
    nmtFieldFlat env { argsE 1 1 with beam := some ⟨2, 3, fun r i => if r = 0 then 10 * (i : ℝ) else 1 / 2 ^ i⟩ } = .ok f ∧
    f.base.beam 5 = 3 / 4 ∧ f.base.beam 10 = 1 / 2 ∧ f.base.beam 20 = 0 := by
  obtain ⟨f0, h0⟩ := argsE_ok env (lx := 1) (ly := 1) one_pos one_pos
  have hi : Increasing (fun i => 10 * (i : ℝ)) 3 := ⟨by norm_num, fun i j hij _ => by
    have : (i : ℝ) < j := by exact_mod_cast hij
    linarith⟩
  have h0' : nmtFieldFlat env { argsE 1 1 with beam := none } = .ok f0 := h0
  set b : Arr2 ℝ := ⟨2, 3, fun r i => if r = 0 then 10 * (i : ℝ) else 1 / 2 ^ i⟩ with hb
  have hi' : Increasing (b.val 0) b.cols := by
    simp only [hb, if_true]
    exact hi
  obtain ⟨B, hf, hB⟩ := C96_beam_partial env { argsE 1 1 with beam := some b } f0 h0' b rfl rfl hi'
  refine ⟨f0, _, h0', hi, hf, ?_, ?_, ?_⟩
  · have := (hB 5 (by simp [hb]; norm_num)).2.2 0 (by simp [hb]) (by simp [hb]) (by simp [hb]; norm_num)
    change B 5 = _
    rw [this]
    simp [hb]
    norm_num
  · have := (hB 10 (by simp [hb])).2.2 0 (by simp [hb]) (by simp [hb]) (by simp [hb])
    change B 10 = _
    rw [this]
    simp [hb]
  · have := (C96_beam_last_wrong env { argsE 1 1 with beam := some b } b rfl rfl hi' _ hf (by simp [hb])).1
    rw [show b.val 0 (b.cols - 1) = 20 by simp [hb]; norm_num] at this
    exact this

/-- A beam given at a single multipole ends the process. -/
example (env : FlatEnv) : ∃ f0, nmtFieldFlat env { argsE 1 1 with beam := none } = .ok f0 ∧
    nmtFieldFlat env { argsE 1 1 with beam := some ⟨2, 1, fun _ _ => 1⟩ } = .crash := by
  obtain ⟨f0, h0⟩ := argsE_ok env (lx := 1) (ly := 1) one_pos one_pos
  exact ⟨f0, h0, C96_beam_ends_wrong env { argsE 1 1 with beam := some ⟨2, 1, fun _ _ => 1⟩ } f0 h0 ⟨2, 1, fun _ _ => 1⟩ rfl rfl
    (fun h => by have := h.2.1; norm_num at this) (fun h => by have := h.1; norm_num at this)⟩

open FlatFileExample in
/-- For a map of 2 × 2 pixels, spectra given at the wave numbers of its modes are read without their last value. -/
example : ∃ W, couplingFlat (fullField (fs2 2)) (fullField (fs2 2)) b1 defaultCuts false = .ok W ∧
    Increasing (fun i => [0, π, √2 * π].getD i 0) 3 ∧ (∀ k ∈ W.fs.modes, ∃ i < 3, W.fs.kmod k.1 k.2 = [0, π, √2 * π].getD i 0) ∧
    ∀ x y, coupleCellFlat (some W) [0, π, √2 * π] ⟨1, 3, fun _ i => if i = 2 then x else 1⟩ =
      coupleCellFlat (some W) [0, π, √2 * π] ⟨1, 3, fun _ i => if i = 2 then y else 1⟩ := by
  have hp := Real.pi_gt_three
  have hsq := sqrt2
  have h12 : π < √2 * π := by nlinarith [hsq.1]
  have hi : Increasing (fun i => [0, π, √2 * π].getD i 0) 3 := ⟨by norm_num, fun i j hij hj => by
    obtain ⟨rfl, rfl⟩ | ⟨rfl, rfl⟩ | ⟨rfl, rfl⟩ : (i = 0 ∧ j = 1) ∨ (i = 0 ∧ j = 2) ∨ (i = 1 ∧ j = 2) := by omega
    · change (0 : ℝ) < π; linarith
    · change (0 : ℝ) < √2 * π; linarith
    · exact h12⟩
  have h2 : (2 : ℝ) * π / 2 = π := by ring
  obtain ⟨W, -, hW, hn, -⟩ := couple_full (fs2 2) two_pos two_pos b1 b1_gapless (by simp [b1]) (ells := ells1)
    (cl := ⟨1, 2, fun _ => row1⟩) rfl rfl (by simp [ells1]) ells1_sorted
  have hfs : W.fs = fs2 2 := (couplingFlat_stored hW).1
  have hk : ∀ k ∈ W.fs.modes, ∃ i < 3, W.fs.kmod k.1 k.2 = [0, π, √2 * π].getD i 0 := by
    rw [hfs, modes2]
    intro k hk
    simp only [mem_insert, mem_singleton] at hk
    obtain rfl | rfl | rfl | rfl := hk
    · exact ⟨0, by norm_num, kmod00 2⟩
    · exact ⟨1, by norm_num, (kmod10 two_pos).trans h2⟩
    · exact ⟨1, by norm_num, (kmod01 two_pos).trans h2⟩
    · exact ⟨2, by norm_num, (kmod11 two_pos).trans (by rw [h2]; rfl)⟩
  refine ⟨W, hW, hi, hk, fun x y => C96_couple_last_wrong W _ hi hk _ _ hn.symm hn.symm rfl rfl fun r i hi' => ?_⟩
  have : i ≠ 2 := by simp at hi'; omega
  simp [this]

/-- Spectra at multipoles in the wrong order end the process. -/
example (b : FlatBins ℝ) : ¬ Increasing (fun i => [2, 1].getD i (0 : ℝ)) 2 ∧ binCellFlat b [2, 1] [1, 1] 0 = .crash := by
  have h : ¬ Increasing (fun i => [2, 1].getD i (0 : ℝ)) 2 := fun h => by
    have := h.2 0 1 (by norm_num) (by norm_num)
    norm_num at this
  exact ⟨h, (C96_spectra_end_wrong [2, 1] h).2 b [1, 1] 0 rfl⟩

/-- The band with centre 10, and a spectrum whose last multipole is 10: binning uses the last value. -/
example : Increasing (fun i => [0, 10].getD i (0 : ℝ)) 2 ∧ binCellFlat ⟨1, fun _ => 5, fun _ => 15⟩ [0, 10] [1, 3] 0 = .ok (3 : ℝ) := by
  have h : Increasing (fun i => [0, 10].getD i (0 : ℝ)) 2 := ⟨le_rfl, fun i j hij hj => by
    obtain ⟨rfl, rfl⟩ : i = 0 ∧ j = 1 := by omega
    norm_num⟩
  obtain ⟨y, hy, -, h2, -⟩ := C96_bin_cell ⟨1, fun _ => 5, fun _ => 15⟩ [0, 10] [1, 3] rfl h 0
  refine ⟨h, ?_⟩
  rw [hy, h2 (by norm_num [ellEffFlat])]
  rfl

end NaMaster
