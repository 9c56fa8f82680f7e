import Verif.Flat.Pipeline
import Verif.Flat.MasterExample
import Verif.Master.Props

/-!
# C50 and C58: the flat-sky pipeline
-/

namespace NaMaster

open Real Finset MeasureTheory

/-! ## Lemmas -/

theorem all_ok {α β : Type*} (f : α → Outcome β) (g : α → β) (l : List α) (h : ∀ a ∈ l, f a = .ok (g a)) :
    Outcome.all (l.map f) = .ok (l.map g) := by
  induction l with
  | nil => rfl
  | cons a t ih =>
    simp only [List.map_cons, Outcome.all]
    rw [h a List.mem_cons_self, ih (fun x hx => h x (List.mem_cons_of_mem _ hx))]
    rfl

theorem pairIdx_mod {n a b : ℕ} (ha : a < n) : (n * b + a) % n = a := by
  rw [Nat.mul_add_mod, Nat.mod_eq_of_lt ha]

theorem pairIdx_div {n a b : ℕ} (ha : a < n) : (n * b + a) / n = b := by
  rw [Nat.mul_add_div (by omega), Nat.div_eq_of_lt ha, add_zero]

theorem flatInput_apply (w : WspFlat) (cl noise bias : ℕ → ℕ → ℝ) {icl ib : ℕ} (h1 : icl < w.ncls)
    (h2 : ib < w.bin.nBands) : flatInput w cl noise bias (w.ncls * ib + icl) = cl icl ib - noise icl ib - bias icl ib := by
  unfold flatInput
  apply runWrites_mem
  · simp only [List.mem_flatMap, List.mem_map, List.mem_range]
    exact ⟨icl, h1, ib, h2, rfl⟩
  · intro w' hw hi
    simp only [List.mem_flatMap, List.mem_map, List.mem_range] at hw
    obtain ⟨a, ha, b, hb, rfl⟩ := hw
    obtain ⟨rfl, rfl⟩ := flat_inj ha h1 hi
    rfl

theorem gslMatrix_apply (w : WspFlat) {i j : ℕ} (b1 b2 : ℕ) (hi : i < w.ncls) (hj : j < w.ncls) :
    w.gslMatrix (w.ncls * b1 + i) (w.ncls * b2 + j) = w.binned i b1 j b2 := by
  unfold WspFlat.gslMatrix
  rw [Nat.mul_add_mod, Nat.mul_add_mod, Nat.mod_eq_of_lt hi, Nat.mod_eq_of_lt hj, Nat.mul_add_div (by omega),
    Nat.mul_add_div (by omega), Nat.div_eq_of_lt hi, Nat.div_eq_of_lt hj, add_zero, add_zero]

theorem pos_nmapsOf (s : ℕ) : 0 < nmapsOf s := by unfold nmapsOf; split_ifs <;> omega

theorem fsAlm2clAll_ok (f1 f2 : FlatFieldData) (b : FlatBins ℝ) (hb : GaplessBands b) (h0 : 0 < b.nBands) (c : EllCuts)
    (rows : ℕ) (hr : f1.nmaps * f2.nmaps ≤ rows) : ∃ cl, fsAlm2clAll f1 f2 b c rows = .ok cl ∧ cl.rows = rows ∧
      cl.cols = b.nBands := by
  unfold fsAlm2clAll
  rw [if_neg (by omega), all_ok _ _ _ (fun i _ => fsAlm2cl_eq f1.fs b hb h0 c _ _)]
  exact ⟨_, rfl, rfl, rfl⟩

/-- A workspace computed for two fields is one for their maps, bands and spectra. -/
theorem couplingFlat_fits {f1 f2 : FlatField} {b : FlatBins ℝ} {c : EllCuts} {w : WspFlat}
    (hW : couplingFlat f1 f2 b c false = .ok w) :
    f1.fs = f2.fs ∧ w.fs = f1.fs ∧ w.bin = b ∧ w.ncls = nmapsOf f1.spin * nmapsOf f2.spin := by
  unfold couplingFlat at hW
  by_cases hf : f1.fs ≠ f2.fs
  · rw [if_pos hf] at hW; cases hW
  rw [if_neg hf, if_neg (by simp)] at hW
  by_cases h0 : b.nBands = 0
  · rw [if_pos h0] at hW; cases hW
  rw [if_neg h0] at hW
  simp only at hW
  match h1 : Outcome.all ((List.range f1.fs.ny).map fun iy => couplingBands f1.fs b c iy) with
  | .raises e => rw [h1] at hW; simp only [Outcome.bind] at hW; cases hW
  | .crash => rw [h1] at hW; simp only [Outcome.bind] at hW; cases hW
  | .ok rows =>
    rw [h1] at hW
    simp only [Outcome.bind] at hW
    match h2 : Outcome.all ((List.range f1.fs.ny).map fun iy => couplingBandsNocut f1.fs b iy) with
    | .raises e => rw [h2] at hW; simp only at hW; cases hW
    | .crash => rw [h2] at hW; simp only at hW; cases hW
    | .ok rowsN =>
      rw [h2] at hW
      simp only at hW
      cases hW
      exact ⟨not_not.1 hf, rfl, rfl, rfl⟩

/-! ## C50 -/

/-- C50 for `decouple_cell`: exactly the inputs whose number of spectra and bandpowers are those of the workspace are
accepted; all others raise an exception. The result solves the equations of the coupling matrix, if it is invertible. -/
theorem C50_decouple (L : LinAlg ℝ) (hL : L.Correct) (w : WspFlat) (cl : Arr2 ℝ) (bias noise : Option (Arr2 ℝ)) :
    ((cl.rows = w.ncls ∧ cl.cols = w.bin.nBands ∧ (∀ a, bias = some a → a.rows = w.ncls ∧ a.cols = w.bin.nBands) ∧
        (∀ a, noise = some a → a.rows = w.ncls ∧ a.cols = w.bin.nBands)) →
      ∃ r, decoupleCellFlat L (some w) cl bias noise = .ok r ∧ r.rows = w.ncls ∧ r.cols = w.bin.nBands ∧
        (Regular (w.ncls * w.bin.nBands) w.gslMatrix → ∀ i < w.ncls, ∀ ib < w.bin.nBands,
          ∑ ib' ∈ range w.bin.nBands, ∑ j ∈ range w.ncls, w.binned i ib j ib' * r.val j ib' =
            cl.val i ib - (noise.map (·.val i ib)).getD 0 - (bias.map (·.val i ib)).getD 0)) ∧
    (¬ (cl.rows = w.ncls ∧ cl.cols = w.bin.nBands ∧ (∀ a, bias = some a → a.rows = w.ncls ∧ a.cols = w.bin.nBands) ∧
        (∀ a, noise = some a → a.rows = w.ncls ∧ a.cols = w.bin.nBands)) →
      decoupleCellFlat L (some w) cl bias noise = .raises .value) := by
  constructor
  · rintro ⟨h1, h2, h3, h4⟩
    have hb : ¬ (bias.any fun a => a.rows ≠ w.ncls ∨ a.cols ≠ w.bin.nBands) = true := by
      cases bias with
      | none => simp
      | some a => simp [(h3 a rfl).1, (h3 a rfl).2]
    have hn : ¬ (noise.any fun a => a.rows ≠ w.ncls ∨ a.cols ≠ w.bin.nBands) = true := by
      cases noise with
      | none => simp
      | some a => simp [(h4 a rfl).1, (h4 a rfl).2]
    have hbr : (bias.getD ⟨cl.rows, cl.cols, fun _ _ => 0⟩).rows = w.ncls ∧
        (bias.getD ⟨cl.rows, cl.cols, fun _ _ => 0⟩).cols = w.bin.nBands := by
      cases bias with
      | none => exact ⟨h1, h2⟩
      | some a => exact h3 a rfl
    have hnr : (noise.getD ⟨cl.rows, cl.cols, fun _ _ => 0⟩).rows = w.ncls ∧
        (noise.getD ⟨cl.rows, cl.cols, fun _ _ => 0⟩).cols = w.bin.nBands := by
      cases noise with
      | none => exact ⟨h1, h2⟩
      | some a => exact h4 a rfl
    unfold decoupleCellFlat
    simp only
    rw [if_neg (by simp [h1, h2]), if_neg hb, if_neg hn, if_neg (by rw [hbr.1, hbr.2, hnr.1, hnr.2]; simp [h1, h2])]
    unfold decoupleFlatC
    rw [if_neg (by rw [hbr.1, hnr.1, h1]; omega)]
    refine ⟨_, rfl, rfl, rfl, ?_⟩
    intro hreg i hi ib hib
    have hs := hL.solve_spec _ _ (flatInput w cl.val (noise.getD ⟨cl.rows, cl.cols, fun _ _ => 0⟩).val
      (bias.getD ⟨cl.rows, cl.cols, fun _ _ => 0⟩).val) hreg (w.ncls * ib + i) (flat_lt hi hib)
    rw [sum_flat, flatInput_apply w _ _ _ hi hib] at hs
    have hv : cl.val i ib - (noise.map (·.val i ib)).getD 0 - (bias.map (·.val i ib)).getD 0 =
        cl.val i ib - (noise.getD ⟨cl.rows, cl.cols, fun _ _ => 0⟩).val i ib -
          (bias.getD ⟨cl.rows, cl.cols, fun _ _ => 0⟩).val i ib := by
      cases noise <;> cases bias <;> rfl
    rw [hv, ← hs]
    refine Finset.sum_congr rfl fun ib' hib' => Finset.sum_congr rfl fun j hj => ?_
    rw [Finset.mem_range] at hib' hj
    rw [gslMatrix_apply w _ _ hi hj]
    simp only [Arr2.of]
    rw [tab2_of_lt _ hj hib', if_pos hj]
  · intro h
    unfold decoupleCellFlat
    simp only
    by_cases h1 : cl.rows ≠ w.ncls ∨ cl.cols ≠ w.bin.nBands
    · rw [if_pos h1]
    rw [if_neg h1]
    push Not at h1
    by_cases h2 : (bias.any fun a => a.rows ≠ w.ncls ∨ a.cols ≠ w.bin.nBands) = true
    · rw [if_pos h2]
    rw [if_neg h2]
    by_cases h3 : (noise.any fun a => a.rows ≠ w.ncls ∨ a.cols ≠ w.bin.nBands) = true
    · rw [if_pos h3]
    exfalso
    apply h
    refine ⟨h1.1, h1.2, ?_, ?_⟩
    · rintro a rfl
      simpa using h2
    · rintro a rfl
      simpa using h3

/-- A workspace made for the maps, the bandpowers and the number of spectra of two fields. -/
def FitsFields (w : WspFlat) (f1 f2 : FlatFieldData) (b : FlatBins ℝ) : Prop :=
  w.fs = f1.fs ∧ w.fs = f2.fs ∧ w.bin.nBands = b.nBands ∧ w.ncls = f1.nmaps * f2.nmaps

/-- Noise spectra and guess spectra of the right size. -/
def GoodSpectra (f1 f2 : FlatFieldData) (b : FlatBins ℝ) (noise : Option (Arr2 ℝ)) (guess : Arr2 ℝ) (ells : List ℝ) : Prop :=
  (∀ a, noise = some a → a.rows = f1.nmaps * f2.nmaps ∧ a.cols = b.nBands) ∧ guess.rows = f1.nmaps * f2.nmaps ∧
    guess.cols = ells.length

theorem coupledCellFlatC_shape {f1 f2 : FlatFieldData} {b : FlatBins ℝ} {c : EllCuts} {rows : ℕ} {cl : Arr2 ℝ}
    (h : coupledCellFlatC f1 f2 b c rows = .ok cl) : cl.rows = rows ∧ cl.cols = b.nBands := by
  unfold coupledCellFlatC fsAlm2clAll at h
  split_ifs at h
  match he : Outcome.all ((List.range (f1.nmaps * f2.nmaps)).map fun i =>
      fsAlm2cl f1.fs b c (f1.alms (i / f2.nmaps)) (f2.alms (i % f2.nmaps))) with
  | .ok v => rw [he] at h; simp only [Outcome.bind] at h; cases h; exact ⟨rfl, rfl⟩
  | .raises e => rw [he] at h; simp only [Outcome.bind] at h; cases h
  | .crash => rw [he] at h; simp only [Outcome.bind] at h; cases h

theorem deprojBiasFlatC_shape {D : FlatDeproj} {f1 f2 : FlatFieldData} {b : FlatBins ℝ} {c : EllCuts} {ells : List ℝ}
    {g : ℕ → ℕ → ℝ} {rows : ℕ} {cl : Arr2 ℝ} (h : deprojBiasFlatC D f1 f2 b c ells g rows = .ok cl) :
    cl.rows = rows ∧ cl.cols = b.nBands := by
  unfold deprojBiasFlatC at h
  split_ifs at h <;> (cases h; exact ⟨rfl, rfl⟩)

/-- The chain of calls for a workspace that fits. -/
theorem chain_eq (L : LinAlg ℝ) (D : FlatDeproj) (f1 f2 : FlatFieldData) (b : FlatBins ℝ) (c : EllCuts)
    (noise : Option (Arr2 ℝ)) (guess : Arr2 ℝ) (ells : List ℝ) (hg : GoodSpectra f1 f2 b noise guess ells) (w : WspFlat)
    (hw : FitsFields w f1 f2 b) :
    ((coupledCellFlatC f1 f2 b c w.ncls).bind fun cl =>
      (deprojBiasFlatC D f1 f2 b c ells guess.val w.ncls).bind fun bias =>
        decoupleFlatC L w cl (noise.getD ⟨f1.nmaps * f2.nmaps, b.nBands, fun _ _ => 0⟩) bias (f1.nmaps * f2.nmaps)) =
    (coupledCellFlat f1 f2 b c).bind fun cl => (deprojBiasFlat D f1 f2 b c ells guess).bind fun bias =>
      decoupleCellFlat L (some w) cl (some bias) noise := by
  obtain ⟨hw1, hw2, hw3, hw4⟩ := hw
  obtain ⟨hg1, hg2, hg3⟩ := hg
  have hf : f1.fs = f2.fs := hw1.symm.trans hw2
  unfold coupledCellFlat
  rw [if_neg (by rw [hf]; simp), if_neg (by rw [hf]; simp), hw4]
  match hc : coupledCellFlatC f1 f2 b c (f1.nmaps * f2.nmaps) with
  | .raises e => rfl
  | .crash => rfl
  | .ok cl =>
    obtain ⟨hr, hcl⟩ := coupledCellFlatC_shape hc
    simp only [Outcome.bind]
    unfold deprojBiasFlat
    rw [if_neg (by simp [hg2]), if_neg (by simp [hg3])]
    match hd : deprojBiasFlatC D f1 f2 b c ells guess.val (f1.nmaps * f2.nmaps) with
    | .raises e => rfl
    | .crash => rfl
    | .ok bias =>
      obtain ⟨hbr, hbc⟩ := deprojBiasFlatC_shape hd
      simp only
      unfold decoupleCellFlat
      simp only
      have hn : ¬ (noise.any fun a => a.rows ≠ w.ncls ∨ a.cols ≠ w.bin.nBands) = true := by
        cases noise with
        | none => simp
        | some a => simp [(hg1 a rfl).1, (hg1 a rfl).2, hw3, hw4]
      have hnr : (noise.getD ⟨cl.rows, cl.cols, fun _ _ => 0⟩).rows = w.ncls ∧
          (noise.getD ⟨cl.rows, cl.cols, fun _ _ => 0⟩).cols = w.bin.nBands := by
        cases noise with
        | none => exact ⟨hr.trans hw4.symm, hcl.trans hw3.symm⟩
        | some a => exact ⟨(hg1 a rfl).1.trans hw4.symm, (hg1 a rfl).2.trans hw3.symm⟩
      rw [if_neg (by simp [hr, hcl, hw3, hw4]), if_neg (by simp [hbr, hbc, hw3, hw4]), if_neg hn,
        if_neg (by rw [hnr.1, hnr.2]; simp [hr, hcl, hbr, hbc, hw3, hw4]), hw4]
      have : noise.getD ⟨cl.rows, cl.cols, fun _ _ => 0⟩ = noise.getD ⟨f1.nmaps * f2.nmaps, b.nBands, fun _ _ => 0⟩ := by
        rw [hr, hcl]
      rw [this]
      rfl

theorem fullMasterFlat_run (L : LinAlg ℝ) (D : FlatDeproj) (f1 f2 : FlatFieldData) (b : FlatBins ℝ) (c : EllCuts)
    (noise : Option (Arr2 ℝ)) (guess : Arr2 ℝ) (ells : List ℝ) (hg : GoodSpectra f1 f2 b noise guess ells)
    (hn : f1.fs.nx = f2.fs.nx ∧ f1.fs.ny = f2.fs.ny) (ws : Option (Option WspFlat)) :
    fullMasterFlat L D f1 f2 b c noise (some (guess, some ells)) ws =
      powerSpectraFlatC L D f1 f2 b c (ws.bind id) (noise.getD ⟨f1.nmaps * f2.nmaps, b.nBands, fun _ _ => 0⟩) ells guess.val
        (f1.nmaps * f2.nmaps) := by
  obtain ⟨hg1, hg2, hg3⟩ := hg
  have hna : ¬ (noise.any fun a => a.rows ≠ f1.nmaps * f2.nmaps ∨ a.cols ≠ b.nBands) = true := by
    cases noise with
    | none => simp
    | some a => simp [(hg1 a rfl).1, (hg1 a rfl).2]
  have hnr : (noise.getD ⟨f1.nmaps * f2.nmaps, b.nBands, fun _ _ => 0⟩).rows = f1.nmaps * f2.nmaps ∧
      (noise.getD ⟨f1.nmaps * f2.nmaps, b.nBands, fun _ _ => 0⟩).cols = b.nBands := by
    cases noise with
    | none => exact ⟨rfl, rfl⟩
    | some a => exact hg1 a rfl
  unfold fullMasterFlat
  simp only
  rw [if_neg (by simp [hn.1, hn.2]), if_neg hna, if_neg (by simp [hg2, hg3]), if_neg (by rw [hnr.1, hnr.2]; simp [hg2, hg3])]

/-- C50, workspaces for the right number of spectra: `compute_full_master_flat` raises an exception if the workspace was
made for other maps or another number of bandpowers, and otherwise does what the documentation says: it gives the same as
`compute_coupled_cell_flat`, `deprojection_bias_flat` and `decouple_cell` in sequence. Missing: workspaces made for another
number of spectra, for which it is false (`C50_spectra_wrong`). -/
theorem C50_pipeline_partial (L : LinAlg ℝ) (D : FlatDeproj) (f1 f2 : FlatFieldData) (b : FlatBins ℝ) (c : EllCuts)
    (noise : Option (Arr2 ℝ)) (guess : Arr2 ℝ) (ells : List ℝ) (hg : GoodSpectra f1 f2 b noise guess ells) (w : WspFlat)
    (hn : w.ncls = f1.nmaps * f2.nmaps) :
    (FitsFields w f1 f2 b → fullMasterFlat L D f1 f2 b c noise (some (guess, some ells)) (some (some w)) =
      (coupledCellFlat f1 f2 b c).bind fun cl => (deprojBiasFlat D f1 f2 b c ells guess).bind fun bias =>
        decoupleCellFlat L (some w) cl (some bias) noise) ∧
    (¬ FitsFields w f1 f2 b →
      ∃ e, fullMasterFlat L D f1 f2 b c noise (some (guess, some ells)) (some (some w)) = .raises e) := by
  constructor
  · intro hw
    have hf : f1.fs = f2.fs := hw.1.symm.trans hw.2.1
    rw [fullMasterFlat_run L D f1 f2 b c noise guess ells hg (by rw [hf]; exact ⟨rfl, rfl⟩)]
    unfold powerSpectraFlatC pickWspFlat
    simp only [Option.bind_some, id]
    rw [if_neg (by rw [hw.1, ← hf]; simp), if_neg (by rw [hw.2.2.1]; simp)]
    exact chain_eq L D f1 f2 b c noise guess ells hg w hw
  · intro hw
    by_cases hx : f1.fs.nx = f2.fs.nx ∧ f1.fs.ny = f2.fs.ny
    · rw [fullMasterFlat_run L D f1 f2 b c noise guess ells hg hx]
      unfold powerSpectraFlatC pickWspFlat
      simp only [Option.bind_some, id]
      by_cases h1 : f1.fs ≠ w.fs ∨ f2.fs ≠ w.fs
      · rw [if_pos h1]; exact ⟨_, rfl⟩
      rw [if_neg h1]
      by_cases h2 : b.nBands ≠ w.bin.nBands
      · rw [if_pos h2]; exact ⟨_, rfl⟩
      push Not at h1 h2
      exact absurd ⟨h1.1.symm, h1.2.symm, h2.symm, hn⟩ hw
    · unfold fullMasterFlat
      simp only
      rw [if_pos (by by_contra h; push Not at h; exact hx h)]
      exact ⟨_, rfl⟩

/-- C50 without workspace: for two fields with the same pixels the function gives what the documentation says, the same
as `compute_coupling_matrix`, `compute_coupled_cell_flat`, `deprojection_bias_flat` and `decouple_cell` in sequence. The
object holding no matrix counts as no workspace. -/
theorem C50_sequential (L : LinAlg ℝ) (D : FlatDeproj) (f1 f2 : FlatFieldData) (b : FlatBins ℝ) (c : EllCuts)
    (noise : Option (Arr2 ℝ)) (guess : Arr2 ℝ) (ells : List ℝ) (hg : GoodSpectra f1 f2 b noise guess ells)
    (hf : f1.fs = f2.fs) (ws : Option (Option WspFlat)) (hws : ws = none ∨ ws = some none) :
    fullMasterFlat L D f1 f2 b c noise (some (guess, some ells)) ws =
      (couplingFlat f1.toFlatField f2.toFlatField b c false).bind fun w => (coupledCellFlat f1 f2 b c).bind fun cl =>
        (deprojBiasFlat D f1 f2 b c ells guess).bind fun bias => decoupleCellFlat L (some w) cl (some bias) noise := by
  rw [fullMasterFlat_run L D f1 f2 b c noise guess ells hg (by rw [hf]; exact ⟨rfl, rfl⟩)]
  have hb : ws.bind id = none := by rcases hws with rfl | rfl <;> rfl
  unfold powerSpectraFlatC
  rw [hb]
  simp only [pickWspFlat]
  match hW : couplingFlat f1.toFlatField f2.toFlatField b c false with
  | .raises e => rfl
  | .crash => rfl
  | .ok w =>
    simp only [Outcome.bind]
    obtain ⟨-, h1, h2, h3⟩ := couplingFlat_fits hW
    have hfit : FitsFields w f1 f2 b := ⟨h1, h1.trans hf, by rw [h2], h3⟩
    exact chain_eq L D f1 f2 b c noise guess ells hg w hfit

/-- C50 is false for the number of spectra: with a workspace made for the same maps and bands, but for another number of
spectra, memory outside the arrays is accessed. -/
theorem C50_spectra_wrong (L : LinAlg ℝ) (D : FlatDeproj) (f1 f2 : FlatFieldData) (b : FlatBins ℝ) (hb : GaplessBands b)
    (h0 : 0 < b.nBands) (c : EllCuts) (noise : Option (Arr2 ℝ)) (guess : Arr2 ℝ) (ells : List ℝ)
    (hg : GoodSpectra f1 f2 b noise guess ells) (hm : f1.maskOnly = false ∧ f2.maskOnly = false)
    (hl : f1.lite = false ∧ f2.lite = false) (w : WspFlat) (h1 : w.fs = f1.fs) (h2 : w.fs = f2.fs)
    (h3 : w.bin.nBands = b.nBands) (hne : w.ncls ≠ f1.nmaps * f2.nmaps) :
    fullMasterFlat L D f1 f2 b c noise (some (guess, some ells)) (some (some w)) = .crash := by
  have hf : f1.fs = f2.fs := h1.symm.trans h2
  rw [fullMasterFlat_run L D f1 f2 b c noise guess ells hg (by rw [hf]; exact ⟨rfl, rfl⟩)]
  unfold powerSpectraFlatC pickWspFlat
  simp only [Option.bind_some, id]
  rw [if_neg (by rw [h1, ← hf]; simp), if_neg (by rw [h3]; simp)]
  simp only [Outcome.bind]
  unfold coupledCellFlatC
  rw [if_neg (by simp [hm.1, hm.2]), if_neg (by simp [hf])]
  by_cases hlt : w.ncls < f1.nmaps * f2.nmaps
  · unfold fsAlm2clAll
    rw [if_pos hlt]
  · obtain ⟨cl, hcl, -, -⟩ := fsAlm2clAll_ok f1 f2 b hb h0 c w.ncls (by omega)
    rw [hcl]
    simp only
    unfold deprojBiasFlatC
    rw [if_neg (by simp [hl.1, hl.2])]
    by_cases he : ¬ (2 ≤ ells.length ∧ ells.Pairwise (· < ·))
    · rw [if_pos he]
    rw [if_neg he, if_neg hlt, if_neg (by simp [hf])]
    simp only
    unfold decoupleFlatC
    rw [if_pos (Or.inr (Or.inr (Or.inr (by omega))))]

/-- C50, fields without maps: `compute_coupled_cell_flat` raises an exception if either field has no maps, and
`compute_full_master_flat` never returns spectra for them, whatever the workspace; with a workspace for these maps and bands it
raises an exception. -/
theorem C50_mask_only_rejected (L : LinAlg ℝ) (D : FlatDeproj) (f1 f2 : FlatFieldData) (b : FlatBins ℝ) (c : EllCuts)
    (hm : f1.maskOnly = true ∨ f2.maskOnly = true) (noise : Option (Arr2 ℝ)) (guess : Option (Arr2 ℝ × Option (List ℝ)))
    (ws : Option (Option WspFlat)) :
    (∃ e, coupledCellFlat f1 f2 b c = .raises e) ∧ (∀ out, fullMasterFlat L D f1 f2 b c noise guess ws ≠ .ok out) ∧
    ∀ w, ws = some (some w) → ∃ e, fullMasterFlat L D f1 f2 b c noise guess ws = .raises e := by
  have hc : ∀ rows, coupledCellFlatC f1 f2 b c rows = .raises .runtime := fun rows => by
    unfold coupledCellFlatC
    rw [if_pos hm]
  have hp : ∀ w0 cln ells g rows, (∀ out, powerSpectraFlatC L D f1 f2 b c w0 cln ells g rows ≠ .ok out) ∧
      ∀ w, w0 = some w → ∃ e, powerSpectraFlatC L D f1 f2 b c w0 cln ells g rows = .raises e := by
    intro w0 cln ells g rows
    unfold powerSpectraFlatC
    refine ⟨fun out => ?_, ?_⟩
    · match pickWspFlat f1 f2 b c w0 with
      | .raises e => simp [Outcome.bind]
      | .crash => simp [Outcome.bind]
      | .ok w => simp [Outcome.bind, hc]
    · rintro w rfl
      unfold pickWspFlat
      simp only
      split
      · exact ⟨_, rfl⟩
      split
      · exact ⟨_, rfl⟩
      exact ⟨.runtime, by simp [Outcome.bind, hc]⟩
  refine ⟨?_, fun out => ?_, ?_⟩
  · unfold coupledCellFlat
    split
    · exact ⟨_, rfl⟩
    split
    · exact ⟨_, rfl⟩
    exact ⟨_, hc _⟩
  · unfold fullMasterFlat
    dsimp only
    repeat' split
    all_goals first | exact (hp _ _ _ _ _).1 out | simp
  · rintro w rfl
    unfold fullMasterFlat
    dsimp only
    repeat' split
    all_goals first | exact ⟨_, rfl⟩ | exact (hp _ _ _ _ _).2 w rfl

/-- C50, spectra given as arguments: `compute_full_master_flat` raises an exception for a guess without multipoles, for a guess
with another number of spectra or multipoles, and for noise with another number of spectra or bandpowers. -/
theorem C50_spectra_checked (L : LinAlg ℝ) (D : FlatDeproj) (f1 f2 : FlatFieldData) (b : FlatBins ℝ) (c : EllCuts)
    (noise : Option (Arr2 ℝ)) (guess : Arr2 ℝ) (ells : Option (List ℝ)) (ws : Option (Option WspFlat))
    (h : ells = none ∨ (∃ l, ells = some l ∧ ¬ GoodSpectra f1 f2 b noise guess l)) :
    ∃ e, fullMasterFlat L D f1 f2 b c noise (some (guess, ells)) ws = .raises e := by
  unfold fullMasterFlat
  dsimp only
  split
  · exact ⟨_, rfl⟩
  split
  · exact ⟨_, rfl⟩
  rename_i hn
  rcases h with rfl | ⟨l, rfl, hg⟩
  · exact ⟨_, rfl⟩
  · dsimp only
    rw [if_pos]
    · exact ⟨_, rfl⟩
    by_contra hb
    push Not at hb
    refine hg ⟨?_, hb.1, hb.2⟩
    rintro a rfl
    simpa using hn

/-- A scheme with a single band: without guess spectra, `compute_full_master_flat` ends the process although all arguments
fit and no field has templates, while the sequence of calls (without the bias, which is zero) succeeds. -/
theorem C50_single_band_wrong (L : LinAlg ℝ) (D : FlatDeproj) (f1 f2 : FlatFieldData) (b : FlatBins ℝ)
    (hb : GaplessBands b) (h0 : b.nBands = 1) (c : EllCuts) (hf : f1.fs = f2.fs)
    (hm : f1.maskOnly = false ∧ f2.maskOnly = false) (hl : f1.lite = false ∧ f2.lite = false) :
    fullMasterFlat L D f1 f2 b c none none none = .crash ∧
    ∃ r, ((couplingFlat f1.toFlatField f2.toFlatField b c false).bind fun w => (coupledCellFlat f1 f2 b c).bind fun cl =>
      decoupleCellFlat L (some w) cl none none) = .ok r := by
  obtain ⟨W, hW, hn, -⟩ := couplingFlat_eq f1.toFlatField f2.toFlatField b hb (by omega) c false hf (by simp)
  simp only [Bool.false_eq_true, if_false] at hn
  have hn' : W.ncls = f1.nmaps * f2.nmaps := hn
  have hWb : W.bin = b := (couplingFlat_fits hW).2.2.1
  obtain ⟨cl, hcl, hr, hc⟩ := fsAlm2clAll_ok f1 f2 b hb (by omega) c (f1.nmaps * f2.nmaps) le_rfl
  have hcc : coupledCellFlatC f1 f2 b c (f1.nmaps * f2.nmaps) = .ok cl := by
    unfold coupledCellFlatC
    rw [if_neg (by simp [hm.1, hm.2]), if_neg (by simp [hf]), hcl]
  constructor
  · unfold fullMasterFlat
    simp only
    rw [if_neg (by rw [hf]; simp), if_neg (by simp), if_neg (by simp)]
    unfold powerSpectraFlatC
    simp only [Option.bind_none, pickWspFlat, hW, Outcome.bind, hn', hcc]
    unfold deprojBiasFlatC
    rw [if_neg (by simp [hl.1, hl.2]), if_pos (by simp [h0])]
  · rw [hW]
    simp only [Outcome.bind]
    have : coupledCellFlat f1 f2 b c = .ok cl := by
      unfold coupledCellFlat
      rw [if_neg (by rw [hf]; simp), if_neg (by rw [hf]; simp), hcc]
    rw [this]
    simp only
    unfold decoupleCellFlat decoupleFlatC
    simp only
    rw [if_neg (by simp [hr, hc, hn', hWb]), if_neg (by simp), if_neg (by simp), if_neg (by simp [hr, hc, hn', hWb]),
      if_neg (by simp [hr, hn'])]
    exact ⟨_, rfl⟩

/-! ## C58: decoupling -/

/-- A field with the given maps and neither templates nor purification (`nmt_field_flat_alloc`,
src/nmt_field_flat.c:275-317,400-410). -/
noncomputable def FlatField.withMaps (f : FlatField) (m : ℕ → ℕ × ℕ → ℝ) : FlatFieldData :=
  { f with maskOnly := false, lite := false, ntemp := 0, alms := maskedAlm f.fs f.spin f.mask m }

theorem sum_pairs (n1 n2 : ℕ) (g : ℕ → ℝ) :
    ∑ k ∈ range (n1 * n2), g k = ∑ X ∈ range n1, ∑ Y ∈ range n2, g (n2 * X + Y) := by
  rw [mul_comm, sum_flat]

/-- Decoupling gives the bandpowers on average: the mean of the spectra returned by `decouple_cell` for the spectra of
`compute_coupled_cell_flat` are the bandpowers, if the coupling matrix is invertible, and both fields have spin 0 or the
masks are symmetric. Missing: as for `C58_master_partial`. -/
theorem C58_decoupled_partial {Ω : Type*} [MeasurableSpace Ω] (μ : Measure Ω) (L : LinAlg ℝ) (hL : L.Correct)
    (f1 f2 : FlatField) (hfs : f1.fs = f2.fs)
    (hp : NotPurified f1 f2) (b : FlatBins ℝ) (hb : GaplessBands b) (h0 : 0 < b.nBands) (c : EllCuts) (hl : 0 < f1.fs.lx)
    (hc : SymmetricCuts f1.fs c) (hN : (f1.spin = 0 ∧ f2.spin = 0) ∨ NoNyquist f1.fs b)
    (m1 m2 : Ω → ℕ → ℕ × ℕ → ℝ) (F1 F2 : Ω → ℕ → ℕ × ℕ → ℂ)
    (h1 : ∀ ω, SkyHas f1.fs f1.spin (m1 ω) (F1 ω)) (h2 : ∀ ω, SkyHas f1.fs f2.spin (m2 ω) (F2 ω))
    (C : ℕ → ℕ → ℕ × ℕ → ℝ) (hC : Homogeneous μ f1.fs (nmapsOf f1.spin) (nmapsOf f2.spin) F1 F2 C)
    (Cb : ℕ → ℕ → ℕ → ℝ) (hCb : BandSpectra f1 f2 b Cb C)
    (hsym : (f1.spin = 0 ∧ f2.spin = 0) ∨ ReflectionSymmetric f1 f2) :
    ∃ W, couplingFlat f1 f2 b c false = .ok W ∧ (Regular (W.ncls * W.bin.nBands) W.gslMatrix →
      ∃ out : Ω → Arr2 ℝ,
        (∀ ω, ((coupledCellFlat (f1.withMaps (m1 ω)) (f2.withMaps (m2 ω)) b c).bind fun pcl =>
          decoupleCellFlat L (some W) pcl none none) = .ok (out ω)) ∧
        ∀ X < nmapsOf f1.spin, ∀ Y < nmapsOf f2.spin, ∀ ib < b.nBands,
          Integrable (fun ω => (out ω).val (nmapsOf f2.spin * X + Y) ib) μ ∧
          ∫ ω, (out ω).val (nmapsOf f2.spin * X + Y) ib ∂μ = Cb X Y ib) := by
  -- the workspace
  obtain ⟨W, hW, hM⟩ : ∃ W, couplingFlat f1 f2 b c false = .ok W ∧ ∀ X < nmapsOf f1.spin, ∀ Y < nmapsOf f2.spin,
      ∀ X' < nmapsOf f1.spin, ∀ Y' < nmapsOf f2.spin, ∀ ib < b.nBands, ∀ ib' < b.nBands,
        W.coupling f2 X Y ib X' Y' ib' = trueCoupling f1 f2 b c X Y ib X' Y' ib' := by
    rcases hsym with ⟨hs1, hs2⟩ | hsym
    · obtain ⟨W, hW, h⟩ := C58_matrix_even_partial f1 f2 hfs hp b hb h0 c hl hc hN
      refine ⟨W, hW, fun X hX Y hY X' hX' Y' hY' => h X hX Y hY X' hX' Y' hY' ?_⟩
      simp only [nmapsOf, hs1, hs2, if_true] at hX hY hX' hY'
      have : X + Y + X' + Y' = 0 := by omega
      rw [this]; exact Even.zero
    · exact C58_matrix_symmetric_partial f1 f2 hfs hp b hb h0 c hl hsym
  obtain ⟨W', hW', hn, -⟩ := couplingFlat_eq f1 f2 b hb h0 c false hfs (by simp)
  have hWW : W = W' := by rw [hW] at hW'; cases hW'; rfl
  subst hWW
  simp only [Bool.false_eq_true, if_false] at hn
  refine ⟨W, hW, fun hreg => ?_⟩
  have hWb : W.bin = b := (couplingFlat_fits hW).2.2.1
  set n1 := nmapsOf f1.spin with hn1
  set n2 := nmapsOf f2.spin with hn2
  have hn2p : 0 < n2 := pos_nmapsOf _
  -- the pseudo-spectra
  have hE : ∀ X Y, ∃ pcl : Ω → ℕ → ℝ, X < n1 → Y < n2 →
      (∀ ω, fsAlm2cl f1.fs b c (maskedAlm f1.fs f1.spin f1.mask (m1 ω) X)
        (maskedAlm f1.fs f2.spin f2.mask (m2 ω) Y) = .ok (pcl ω)) ∧
      ∀ ib < b.nBands, Integrable (fun ω => pcl ω ib) μ ∧ ∫ ω, pcl ω ib ∂μ =
        ∑ ib' ∈ range b.nBands, ∑ X' ∈ range n1, ∑ Y' ∈ range n2, trueCoupling f1 f2 b c X Y ib X' Y' ib' * Cb X' Y' ib' := by
    intro X Y
    by_cases h : X < n1 ∧ Y < n2
    · obtain ⟨pcl, hp1, hp2⟩ := C58_expectation μ f1 f2 b hb h0 c hl hc hN m1 m2 F1 F2 h1 h2 C hC Cb hCb X Y h.1 h.2
      exact ⟨pcl, fun _ _ => ⟨hp1, hp2⟩⟩
    · exact ⟨fun _ _ => 0, fun hX hY => absurd ⟨hX, hY⟩ h⟩
  choose pcl hpcl using hE
  have hlt : ∀ i < n1 * n2, i / n2 < n1 ∧ i % n2 < n2 := by
    intro i hi
    exact ⟨Nat.div_lt_of_lt_mul (by rwa [mul_comm]), Nat.mod_lt _ hn2p⟩
  have hcoup : ∀ ω, coupledCellFlat (f1.withMaps (m1 ω)) (f2.withMaps (m2 ω)) b c =
      .ok (Arr2.of (n1 * n2) b.nBands fun i ib => pcl (i / n2) (i % n2) ω ib) := by
    intro ω
    unfold coupledCellFlat coupledCellFlatC fsAlm2clAll
    have e1 : (f1.withMaps (m1 ω)).fs = f1.fs := rfl
    have e2 : (f2.withMaps (m2 ω)).fs = f2.fs := rfl
    have e3 : (f1.withMaps (m1 ω)).nmaps = n1 := rfl
    have e4 : (f2.withMaps (m2 ω)).nmaps = n2 := rfl
    rw [e1, e2, e3, e4, if_neg (by rw [hfs]; simp), if_neg (by rw [hfs]; simp),
      if_neg (by simp [FlatField.withMaps]), if_neg (by simp [hfs]), if_neg (by omega),
      all_ok _ (fun i => pcl (i / n2) (i % n2) ω) _ (fun i hi => by
        rw [List.mem_range] at hi
        have := (hpcl (i / n2) (i % n2) (hlt i hi).1 (hlt i hi).2).1 ω
        rw [← this]
        simp only [FlatField.withMaps, hfs])]
    simp only [Outcome.bind]
    congr 1
    apply Arr2.of_congr
    intro i j hi hj
    rw [List.getD_eq_getElem?_getD, List.getElem?_eq_getElem (by simpa using hi)]
    simp
  set N := W.ncls * W.bin.nBands with hNdef
  have hout : ∀ ω, ((coupledCellFlat (f1.withMaps (m1 ω)) (f2.withMaps (m2 ω)) b c).bind fun pcl =>
      decoupleCellFlat L (some W) pcl none none) = .ok (Arr2.of W.ncls W.bin.nBands fun icl ib2 =>
        if icl < W.ncls then L.solve N W.gslMatrix
          (flatInput W (Arr2.of (n1 * n2) b.nBands fun i ib => pcl (i / n2) (i % n2) ω ib).val (fun _ _ => 0) (fun _ _ => 0))
            (W.ncls * ib2 + icl) else 0) := by
    intro ω
    rw [hcoup ω]
    simp only [Outcome.bind]
    unfold decoupleCellFlat decoupleFlatC
    simp only
    rw [if_neg (by simp [Arr2.of, hn, hWb]), if_neg (by simp), if_neg (by simp), if_neg (by simp [Arr2.of, hn, hWb]),
      if_neg (by simp [Arr2.of, hn])]
    rfl
  refine ⟨_, hout, ?_⟩
  intro X hX Y hY ib hib
  have hi : n2 * X + Y < W.ncls := by rw [hn]; exact idx_lt hX hY
  have hib' : ib < W.bin.nBands := by rw [hWb]; exact hib
  have hval : ∀ ω, (Arr2.of W.ncls W.bin.nBands fun icl ib2 =>
        if icl < W.ncls then L.solve N W.gslMatrix
          (flatInput W (Arr2.of (n1 * n2) b.nBands fun i ib => pcl (i / n2) (i % n2) ω ib).val (fun _ _ => 0) (fun _ _ => 0))
            (W.ncls * ib2 + icl) else 0).val (n2 * X + Y) ib =
      ∑ ib2 ∈ range W.bin.nBands, ∑ j ∈ range W.ncls, L.invert N W.gslMatrix (W.ncls * ib + (n2 * X + Y)) (W.ncls * ib2 + j) *
        pcl (j / n2) (j % n2) ω ib2 := by
    intro ω
    simp only [Arr2.of]
    rw [tab2_of_lt _ hi hib', if_pos hi, hL.solve_invert hreg _ _ (flat_lt hi hib'), hNdef, sum_flat]
    refine Finset.sum_congr rfl fun ib2 hib2 => Finset.sum_congr rfl fun j hj => ?_
    rw [Finset.mem_range] at hib2 hj
    rw [flatInput_apply W _ _ _ hj hib2, tab2_of_lt _ (by rw [← hn]; exact hj) (by rw [← hWb]; exact hib2)]
    ring
  simp only [hval]
  have hint : ∀ ib2 ∈ range W.bin.nBands, ∀ j ∈ range W.ncls, Integrable (fun ω =>
      L.invert N W.gslMatrix (W.ncls * ib + (n2 * X + Y)) (W.ncls * ib2 + j) * pcl (j / n2) (j % n2) ω ib2) μ := by
    intro ib2 hib2 j hj
    rw [Finset.mem_range] at hib2 hj
    rw [hn] at hj
    rw [hWb] at hib2
    exact (((hpcl _ _ (hlt j hj).1 (hlt j hj).2).2 ib2 hib2).1).const_mul _
  refine ⟨integrable_finsetSum _ fun ib2 hib2 => integrable_finsetSum _ fun j hj => hint ib2 hib2 j hj, ?_⟩
  rw [integral_finsetSum _ fun ib2 hib2 => integrable_finsetSum _ fun j hj => hint ib2 hib2 j hj]
  have hmean : ∀ ib2 ∈ range W.bin.nBands, ∫ ω, ∑ j ∈ range W.ncls,
      L.invert N W.gslMatrix (W.ncls * ib + (n2 * X + Y)) (W.ncls * ib2 + j) * pcl (j / n2) (j % n2) ω ib2 ∂μ =
      ∑ j ∈ range W.ncls, L.invert N W.gslMatrix (W.ncls * ib + (n2 * X + Y)) (W.ncls * ib2 + j) *
        ∑ s ∈ range N, W.gslMatrix (W.ncls * ib2 + j) s * Cb (s % W.ncls / n2) (s % W.ncls % n2) (s / W.ncls) := by
    intro ib2 hib2
    rw [integral_finsetSum _ fun j hj => hint ib2 hib2 j hj]
    refine Finset.sum_congr rfl fun j hj => ?_
    rw [Finset.mem_range] at hib2 hj
    rw [integral_const_mul]
    congr 1
    have hj' : j < n1 * n2 := by rw [← hn]; exact hj
    rw [((hpcl _ _ (hlt j hj').1 (hlt j hj').2).2 ib2 (by rw [← hWb]; exact hib2)).2, hNdef, sum_flat, hWb]
    refine Finset.sum_congr rfl fun ib' hib'' => ?_
    rw [hn, sum_pairs]
    refine Finset.sum_congr rfl fun X' hX' => Finset.sum_congr rfl fun Y' hY' => ?_
    rw [Finset.mem_range] at hib'' hX' hY'
    have hjj : n2 * (j / n2) + j % n2 = j := Nat.div_add_mod j n2
    have hXY : n2 * X' + Y' < n1 * n2 := idx_lt hX' hY'
    have hm := hM _ (hlt j hj').1 _ (hlt j hj').2 X' hX' Y' hY' ib2 (by rw [← hWb]; exact hib2) ib' hib''
    have hXY' : n2 * X' + Y' < W.ncls := by rw [hn]; exact hXY
    rw [← hm, ← hn, gslMatrix_apply W ib2 ib' hj hXY', pairIdx_mod hXY', pairIdx_div hXY', pairIdx_mod hY', pairIdx_div hY']
    unfold WspFlat.coupling
    rw [← hn2, hjj]
  rw [Finset.sum_congr rfl hmean, ← sum_flat W.ncls W.bin.nBands fun r =>
    L.invert N W.gslMatrix (W.ncls * ib + (n2 * X + Y)) r *
      ∑ s ∈ range N, W.gslMatrix r s * Cb (s % W.ncls / n2) (s % W.ncls % n2) (s / W.ncls), ← hNdef,
    ← hL.solve_invert hreg (fun r => ∑ s ∈ range N, W.gslMatrix r s * Cb (s % W.ncls / n2) (s % W.ncls % n2) (s / W.ncls)) _
      (flat_lt hi hib'),
    hL.solve_eq hreg (fun s => Cb (s % W.ncls / n2) (s % W.ncls % n2) (s / W.ncls)) _ (fun _ _ => rfl) _ (flat_lt hi hib'),
    pairIdx_mod hi, pairIdx_div hi, pairIdx_mod hY, pairIdx_div hY]

/-! ## The hypotheses can be met -/

namespace FlatExample

open scoped Classical

/-- A mask of two neighbouring pixels in a row. -/
noncomputable def mask1 : ℕ × ℕ → ℝ := fun p => if p = (0, 0) ∨ p = (1, 0) then 1 else 0

/-- A spin-0 field with this mask. -/
noncomputable def fT1 : FlatField := ⟨fs0, 0, mask1, fun _ => 1, 0, 0⟩

/-- A spin-2 field with this mask. -/
noncomputable def fP1 : FlatField := ⟨fs0, 2, mask1, fun _ => 1, 0, 0⟩

theorem dft1 (q : ℕ × ℕ) : fs0.dft mask1 q = 1 + Complex.exp (-(2 * π * (q.1 / 4) : ℝ) * Complex.I) := by
  unfold FlatInfo.dft mask1
  have hsub : ({(0, 0), (1, 0)} : Finset (ℕ × ℕ)) ⊆ fs0.modes := by
    intro p hp
    rw [modes0]
    simp only [Finset.mem_insert, Finset.mem_singleton] at hp
    rcases hp with rfl | rfl <;> simp
  rw [← Finset.sum_subset hsub]
  · rw [Finset.sum_pair (by simp)]
    simp [FlatInfo.phase, fs0]
  · intro p _ hp
    simp only [Finset.mem_insert, Finset.mem_singleton] at hp
    simp [hp]

theorem maskPower1 (q : ℕ × ℕ) :
    maskPower fs0 mask1 mask1 q = (2 + 2 * cos (2 * π * (q.1 / 4))) * (fs0.almNorm * fs0.almNorm) := by
  unfold maskPower FlatInfo.map2alm
  rw [dft1]
  set x : ℝ := 2 * π * (q.1 / 4) with hx
  have h : Complex.exp (-(x : ℂ) * Complex.I) = ⟨cos x, -sin x⟩ := by
    apply Complex.ext
    · rw [show (-(x : ℂ) * Complex.I) = ((-x : ℝ) : ℂ) * Complex.I by push_cast; ring, Complex.exp_ofReal_mul_I_re]; simp
    · rw [show (-(x : ℂ) * Complex.I) = ((-x : ℝ) : ℂ) * Complex.I by push_cast; ring, Complex.exp_ofReal_mul_I_im]; simp
  rw [h]
  simp [Complex.mul_re, Complex.mul_im]
  linear_combination (fs0.almNorm * fs0.almNorm) * (sin_sq_add_cos_sq x)

theorem powers1 (j : ℕ) : maskPower fs0 mask1 mask1 (0, j) = 4 * (π / 12 * (π / 12)) ∧
    maskPower fs0 mask1 mask1 (1, j) = 2 * (π / 12 * (π / 12)) ∧ maskPower fs0 mask1 mask1 (2, j) = 0 ∧
    maskPower fs0 mask1 mask1 (3, j) = 2 * (π / 12 * (π / 12)) := by
  simp only [maskPower1, norm0]
  have c0 : cos (2 * π * (((0 : ℕ) : ℝ) / 4)) = 1 := by simp
  have c1 : cos (2 * π * (((1 : ℕ) : ℝ) / 4)) = 0 := by
    rw [show 2 * π * (((1 : ℕ) : ℝ) / 4) = π / 2 by push_cast; ring, cos_pi_div_two]
  have c2 : cos (2 * π * (((2 : ℕ) : ℝ) / 4)) = -1 := by
    rw [show 2 * π * (((2 : ℕ) : ℝ) / 4) = π by push_cast; ring, cos_pi]
  have c3 : cos (2 * π * (((3 : ℕ) : ℝ) / 4)) = 0 := by
    rw [show 2 * π * (((3 : ℕ) : ℝ) / 4) = π / 2 + π by push_cast; ring, cos_add_pi, cos_pi_div_two, neg_zero]
  rw [c0, c1, c2, c3]
  refine ⟨by ring, by ring, by ring, by ring⟩

theorem bands1 : bandModes fs0 b0 defaultCuts 0 = {(1, 0), (3, 0)} ∧ bandModes fs0 b0 defaultCuts 1 = {(0, 1), (0, 3)} ∧
    bandModesAll fs0 b0 0 = {(1, 0), (3, 0)} ∧ bandModesAll fs0 b0 1 = {(0, 1), (0, 3)} := by
  have hcut : ∀ ib, bandModes fs0 b0 defaultCuts ib = bandModesAll fs0 b0 ib := by
    intro ib
    unfold bandModes bandModesAll
    exact Finset.filter_congr fun k _ => ⟨fun h => h.2, fun h => ⟨C41_default _ _ _, h⟩⟩
  exact ⟨bandModes0, (hcut 1).trans bandModesAll0, (hcut 0).symm.trans bandModes0, bandModesAll0⟩

theorem trueCoupling1 : ∃ a : ℝ, 0 < a ∧ trueCoupling fT1 fT1 b0 defaultCuts 0 0 0 0 0 0 = 4 * a ∧
    trueCoupling fT1 fT1 b0 defaultCuts 0 0 0 0 0 1 = 4 * a ∧ trueCoupling fT1 fT1 b0 defaultCuts 0 0 1 0 0 0 = 4 * a ∧
    trueCoupling fT1 fT1 b0 defaultCuts 0 0 1 0 0 1 = 8 * a := by
  refine ⟨4 * π * π / (fs0.lx * fs0.lx * fs0.ly * fs0.ly) * (π / 12 * (π / 12)), by unfold fs0; positivity, ?_⟩
  have hr : ∀ x, rotEB 0 x 0 0 = 1 := fun x => by simp [rotEB]
  have hsub : fs0.sub (1, 0) (1, 0) = (0, 0) ∧ fs0.sub (1, 0) (3, 0) = (2, 0) ∧ fs0.sub (3, 0) (1, 0) = (2, 0) ∧
      fs0.sub (3, 0) (3, 0) = (0, 0) ∧ fs0.sub (1, 0) (0, 1) = (1, 3) ∧ fs0.sub (1, 0) (0, 3) = (1, 1) ∧
      fs0.sub (3, 0) (0, 1) = (3, 3) ∧ fs0.sub (3, 0) (0, 3) = (3, 1) ∧ fs0.sub (0, 1) (1, 0) = (3, 1) ∧
      fs0.sub (0, 1) (3, 0) = (1, 1) ∧ fs0.sub (0, 3) (1, 0) = (3, 3) ∧ fs0.sub (0, 3) (3, 0) = (1, 3) ∧
      fs0.sub (0, 1) (0, 1) = (0, 0) ∧ fs0.sub (0, 1) (0, 3) = (0, 2) ∧ fs0.sub (0, 3) (0, 1) = (0, 2) ∧
      fs0.sub (0, 3) (0, 3) = (0, 0) := by
    refine ⟨rfl, rfl, rfl, rfl, rfl, rfl, rfl, rfl, rfl, rfl, rfl, rfl, rfl, rfl, rfl, rfl⟩
  have hp0 := fun j => (powers1 j).1
  have hp1 := fun j => (powers1 j).2.1
  have hp2 := fun j => (powers1 j).2.2.1
  have hp3 := fun j => (powers1 j).2.2.2
  unfold trueCoupling
  simp only [fT1, bands1, hr]
  refine ⟨?_, ?_, ?_, ?_⟩ <;>
  · rw [Finset.sum_pair (by simp), Finset.sum_pair (by simp), Finset.sum_pair (by simp), Finset.card_pair (by simp)]
    simp only [hsub, hp0, hp1, hp2, hp3]
    push_cast
    ring

theorem coupled1 : ∃ W, couplingFlat fT1 fT1 b0 defaultCuts false = .ok W ∧ W.ncls = 1 ∧ W.bin = b0 ∧ W.fs = fs0 ∧
    Regular (W.ncls * W.bin.nBands) W.gslMatrix := by
  obtain ⟨W, hW, h⟩ := C58_matrix_even_partial fT1 fT1 rfl ⟨rfl, rfl, rfl, rfl⟩ b0 b0_gapless (by simp [b0]) defaultCuts
    (by simp only [fT1, fs0]; positivity) symmetric0 (Or.inl ⟨rfl, rfl⟩)
  obtain ⟨-, h1, h2, h3⟩ := couplingFlat_fits hW
  have h3 : W.ncls = 1 := h3
  refine ⟨W, hW, h3, h2, h1, ?_⟩
  have hM : ∀ r < 2, ∀ s < 2, W.gslMatrix r s = trueCoupling fT1 fT1 b0 defaultCuts 0 0 r 0 0 s := by
    intro r hr s hs
    rw [← h 0 (by simp [nmapsOf, fT1]) 0 (by simp [nmapsOf, fT1]) 0 (by simp [nmapsOf, fT1]) 0 (by simp [nmapsOf, fT1])
      (by simp) r hr s hs]
    simp [WspFlat.gslMatrix, WspFlat.coupling, h3, Nat.mod_one]
  obtain ⟨a, ha, t1, t2, t3, t4⟩ := trueCoupling1
  have hN : W.ncls * W.bin.nBands = 2 := by rw [h3, h2]; rfl
  rw [hN]
  unfold Regular
  rw [Matrix.det_fin_two]
  simp only [toMat, Fin.val_zero, Fin.val_one]
  rw [hM 0 (by omega) 0 (by omega), hM 1 (by omega) 1 (by omega), hM 0 (by omega) 1 (by omega), hM 1 (by omega) 0 (by omega),
    t1, t2, t3, t4]
  rw [isUnit_iff_ne_zero]
  have : 4 * a * (8 * a) - 4 * a * (4 * a) = 16 * (a * a) := by ring
  rw [this]
  positivity

end FlatExample

open FlatExample in
/-- The sky of the example, temperature only: decoupling gives its bandpowers on average. -/
example (L : LinAlg ℝ) (hL : L.Correct) : ∃ W, couplingFlat fT1 fT1 b0 defaultCuts false = .ok W ∧
    ∃ out : Fin 4 → Arr2 ℝ, (∀ ω, ((coupledCellFlat (fT1.withMaps (mT ω)) (fT1.withMaps (mT ω)) b0 defaultCuts).bind fun pcl =>
        decoupleCellFlat L (some W) pcl none none) = .ok (out ω)) ∧
      ∫ ω, (out ω).val 0 0 ∂μ0 = 0 ∧ ∫ ω, (out ω).val 0 1 ∂μ0 = fs0.lx * fs0.ly := by
  obtain ⟨W, hW, h⟩ := C58_decoupled_partial μ0 L hL fT1 fT1 rfl ⟨rfl, rfl, rfl, rfl⟩ b0 b0_gapless (by simp [b0]) defaultCuts
    (by simp only [fT1, fs0]; positivity) symmetric0 (Or.inl ⟨rfl, rfl⟩) mT mT F0 F0 skyT skyT C0
    ⟨fun X hX Y hY => homogeneous0.integrable X hX Y (by
        have : Y < 1 := hY
        simp [nmapsOf]; omega),
      fun X hX Y hY => homogeneous0.covariance X hX Y (by
        have : Y < 1 := hY
        simp [nmapsOf]; omega)⟩ Cb0 bandSpectra0 (Or.inl ⟨rfl, rfl⟩)
  obtain ⟨W', hW', -, -, -, hr⟩ := coupled1
  have : W = W' := by rw [hW] at hW'; cases hW'; rfl
  subst this
  obtain ⟨out, h1, h2⟩ := h hr
  refine ⟨W, hW, out, h1, ?_, ?_⟩
  · have := (h2 0 (by simp [nmapsOf, fT1]) 0 (by simp [nmapsOf, fT1]) 0 (by simp [b0])).2
    simpa [Cb0] using this
  · have := (h2 0 (by simp [nmapsOf, fT1]) 0 (by simp [nmapsOf, fT1]) 1 (by simp [b0])).2
    simpa [Cb0] using this

open FlatExample in
/-- A workspace for two spin-0 fields used for two spin-2 fields. -/
example (L : LinAlg ℝ) (D : FlatDeproj) : ∃ W, couplingFlat fT1 fT1 b0 defaultCuts false = .ok W ∧
    fullMasterFlat L D (fP1.withMaps fun _ _ => 1) (fP1.withMaps fun _ _ => 1) b0 defaultCuts none
      (some (⟨4, 2, fun _ _ => 0⟩, some [1, 2])) (some (some W)) = .crash := by
  obtain ⟨W, hW, h1, h2, h3, -⟩ := coupled1
  refine ⟨W, hW, C50_spectra_wrong L D _ _ b0 b0_gapless (by simp [b0]) defaultCuts none _ _
    ⟨by simp, rfl, rfl⟩ ⟨rfl, rfl⟩ ⟨rfl, rfl⟩ W h3 h3 (by rw [h2]) ?_⟩
  rw [h1]
  decide

open FlatExample in
/-- The same workspace used for spin-0 fields with maps, and with a scheme of three bands. -/
example (L : LinAlg ℝ) (D : FlatDeproj) : ∃ W, couplingFlat fT1 fT1 b0 defaultCuts false = .ok W ∧
    (∃ r, fullMasterFlat L D (fT1.withMaps fun _ _ => 1) (fT1.withMaps fun _ _ => 1) b0 defaultCuts none
      (some (⟨1, 2, fun _ _ => 0⟩, some [1, 2])) (some (some W)) = .ok r) ∧
    ∃ e, fullMasterFlat L D (fT1.withMaps fun _ _ => 1) (fT1.withMaps fun _ _ => 1) ⟨3, b0.ell0, b0.ellf⟩ defaultCuts none
      (some (⟨1, 2, fun _ _ => 0⟩, some [1, 2])) (some (some W)) = .raises e := by
  obtain ⟨W, hW, h1, h2, h3, -⟩ := coupled1
  refine ⟨W, hW, ?_, ?_⟩
  · rw [(C50_pipeline_partial L D (fT1.withMaps fun _ _ => 1) (fT1.withMaps fun _ _ => 1) b0 defaultCuts none
      ⟨1, 2, fun _ _ => 0⟩ [1, 2] ⟨by simp, rfl, rfl⟩ W h1).1 ⟨h3, h3, by rw [h2], h1⟩]
    obtain ⟨cl, hcl, hr, hc⟩ := fsAlm2clAll_ok (fT1.withMaps fun _ _ => 1) (fT1.withMaps fun _ _ => 1) b0 b0_gapless
      (by simp [b0]) defaultCuts 1 le_rfl
    have e1 : coupledCellFlat (fT1.withMaps fun _ _ => 1) (fT1.withMaps fun _ _ => 1) b0 defaultCuts = .ok cl := by
      unfold coupledCellFlat coupledCellFlatC
      rw [if_neg (by simp), if_neg (by simp), if_neg (by simp [FlatField.withMaps]), if_neg (by simp)]
      exact hcl
    rw [e1]
    simp only [Outcome.bind]
    unfold deprojBiasFlat deprojBiasFlatC
    rw [if_neg (by decide), if_neg (by simp), if_neg (by simp [FlatField.withMaps]), if_neg (by simp), if_neg (by decide),
      if_neg (by simp)]
    simp only
    unfold decoupleCellFlat decoupleFlatC
    have hn : (fT1.withMaps fun _ _ => 1).nmaps = 1 := rfl
    simp only [hn]
    rw [if_neg (by simp [hr, hc, h1, h2]), if_neg (by simp [Arr2.of, h1, h2]), if_neg (by simp),
      if_neg (by simp [Arr2.of, hr, hc, h1, h2]), if_neg (by simp [Arr2.of, hr, h1])]
    exact ⟨_, rfl⟩
  · refine (C50_pipeline_partial L D (fT1.withMaps fun _ _ => 1) (fT1.withMaps fun _ _ => 1) _ defaultCuts none
      ⟨1, 2, fun _ _ => 0⟩ [1, 2] ⟨by simp, rfl, rfl⟩ W h1).2 ?_
    rintro ⟨-, -, h, -⟩
    rw [h2] at h
    simp [b0] at h

open FlatExample in
/-- A scheme with one band. -/
example (L : LinAlg ℝ) (D : FlatDeproj) : fullMasterFlat L D (fT1.withMaps fun _ _ => 1) (fT1.withMaps fun _ _ => 1)
    ⟨1, fun _ => 1 / 2, fun _ => 7 / 5⟩ defaultCuts none none none = .crash :=
  (C50_single_band_wrong L D _ _ _ ⟨⟨fun _ _ => by norm_num, fun i hi => by simp at hi⟩, fun i hi => by simp at hi⟩ rfl
    defaultCuts rfl ⟨rfl, rfl⟩ ⟨rfl, rfl⟩).1

open FlatExample in
/-- A field without maps next to one with maps, and a guess without multipoles or of the wrong length. -/
example (L : LinAlg ℝ) (D : FlatDeproj) (W : WspFlat) :
    (∃ e, fullMasterFlat L D (fT1.withMaps fun _ _ => 1) { fT1.withMaps fun _ _ => 1 with maskOnly := true } b0 defaultCuts none
      (some (⟨1, 2, fun _ _ => 0⟩, some [1, 2])) (some (some W)) = .raises e) ∧
    (∃ e, fullMasterFlat L D (fT1.withMaps fun _ _ => 1) (fT1.withMaps fun _ _ => 1) b0 defaultCuts none
      (some (⟨1, 2, fun _ _ => 0⟩, none)) (some (some W)) = .raises e) ∧
    ∃ e, fullMasterFlat L D (fT1.withMaps fun _ _ => 1) (fT1.withMaps fun _ _ => 1) b0 defaultCuts none
      (some (⟨1, 2, fun _ _ => 0⟩, some [1, 2, 3])) (some (some W)) = .raises e :=
  ⟨(C50_mask_only_rejected L D _ _ b0 defaultCuts (Or.inr rfl) none _ _).2.2 W rfl,
    C50_spectra_checked L D _ _ b0 defaultCuts none _ none _ (Or.inl rfl),
    C50_spectra_checked L D _ _ b0 defaultCuts none _ _ _ (Or.inr ⟨_, rfl, fun h => by have := h.2.2; simp at this⟩)⟩

end NaMaster
