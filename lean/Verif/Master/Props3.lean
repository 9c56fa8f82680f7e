import Verif.Master.Props2

/-!
# Properties C11 and C12: failures and missing unbinned matrix
-/

set_option linter.unusedSectionVars false

namespace NaMaster

open Finset WspSpec

variable {K : Type*} [Field K]

/-! ## C11 -/

theorem store_raises (o : Obj K) (r : Outcome (Wsp K)) (h : ∀ w, (o.store r).2 = .ok w → False) :
    (o.store r).1 = o := by
  cases r with
  | ok w => exact (h _ rfl).elim
  | raises e => rfl
  | crash => rfl

/-- C11 for `update_beams`, `update_bins` and `update_coupling_matrix`: if the call raises, the object is
unchanged. Missing for the full claim: `compute_coupling_matrix` and `read_from`, for which it is false, see
`C11_compute_loses_workspace` and `C11_read_loses_workspace`. -/
theorem C11_updates_partial (L : LinAlg K) (o : Obj K) (u : Update K) (e : Err)
    (h : (o.step L u.toOp).2 = .raises e) : (o.step L u.toOp).1 = o := by
  cases u with
  | beams b1 b2 =>
    cases b1 <;> cases b2 <;> simp only [Update.toOp, Obj.step, Obj.updateBeams] at h ⊢
    cases hw : o.wsp with
    | none => simp only
    | some w =>
      simp only [hw] at h ⊢
      split_ifs at h ⊢ with h1
      · rfl
      · exact store_raises _ _ (fun x hx => by simp [hx] at h)
  | bins B =>
    simp only [Update.toOp, Obj.step, Obj.updateBins] at h ⊢
    cases hw : o.wsp with
    | none => simp only
    | some w =>
      cases B with
      | none => simp only
      | some B =>
        simp only [hw] at h ⊢
        exact store_raises _ _ (fun x hx => by simp [hx] at h)
  | matrix m =>
    simp only [Update.toOp, Obj.step, Obj.updateMatrix] at h ⊢
    cases hw : o.wsp with
    | none => simp only
    | some w =>
      simp only [hw] at h ⊢
      cases hc : o.checkUnbinned with
      | raises e' => simp only
      | crash => simp only
      | ok _ =>
        simp only [hc] at h ⊢
        split_ifs at h ⊢
        · rfl
        · rfl
        · exact store_raises _ _ (fun x hx => by simp [hx] at h)

/-- C11 for `compute_coupling_matrix` called with incompatible fields or bandpowers of a different largest
multipole: the call raises and the object is unchanged. -/
theorem C11_compute_early_partial (L : LinAlg K) (o : Obj K) (a : ComputeArgs K)
    (h : a.compatible = false ∨ a.lmaxField ≠ a.lmaxBins) :
    (o.step L (.compute a)).1 = o ∧ ∃ e, (o.step L (.compute a)).2 = .raises e := by
  have : ∃ e, a.early = some e := by
    unfold ComputeArgs.early
    rcases h with h | h
    · simp [h]
    · split_ifs
      · exact ⟨_, rfl⟩
      · exact ⟨_, rfl⟩
  obtain ⟨e, he⟩ := this
  simp only [Obj.step, Obj.compute, he]
  exact ⟨trivial, e, rfl⟩

/-- C11: query methods never change the object, whatever their outcome. -/
theorem C11_queries (L : LinAlg K) (o : Obj K) (cl : Arr2 K) (b n : Option (Arr2 K)) :
    (o.step L (.couple cl)).1 = o ∧ (o.step L (.decouple cl b n)).1 = o ∧ (o.step L .windows).1 = o ∧
      (o.step L .getMatrix).1 = o ∧ (o.step L .write).1 = o := ⟨rfl, rfl, rfl, rfl, rfl⟩

/-- C11 fails: whenever `compute_coupling_matrix` raises at a later point, the previous workspace is gone, and
decoupling raises from then on. -/
theorem C11_compute_loses_workspace (L : LinAlg K) (o : Obj K) (a : ComputeArgs K) (e : Err)
    (hearly : a.early = none) (hlate : a.late = .raises e) :
    (o.step L (.compute a)).2 = .raises e ∧
    ∀ cl, ((o.step L (.compute a)).1).decoupleCell L cl none none = .raises .attribute := by
  simp only [Obj.step, Obj.compute, hearly, hlate]
  exact ⟨trivial, fun cl => rfl⟩

/-- C11 fails: an unreadable file destroys the workspace held before. -/
theorem C11_read_loses_workspace (L : LinAlg K) (o : Obj K) (e : Err) (u : Bool) :
    (o.step L (.read (.raises e) u)).2 = .raises e ∧
    ∀ cl, ((o.step L (.read (.raises e) u)).1).decoupleCell L cl none none = .raises .attribute :=
  ⟨rfl, fun _ => rfl⟩

/-- A concrete instance: a workspace that decouples, and a misspelt normalisation. -/
theorem C11_counterexample : ∃ (o : Obj ℚ) (a : ComputeArgs ℚ) (cl : Arr2 ℚ) (e : Err),
    (o.step (exactLinAlg ℚ) (.compute a)).2 = .raises e ∧
    (∃ r, o.decoupleCell (exactLinAlg ℚ) cl none none = .ok r) ∧
    ((o.step (exactLinAlg ℚ) (.compute a)).1).decoupleCell (exactLinAlg ℚ) cl none none = .raises .attribute := by
  refine ⟨⟨some (build exampleConfig exampleInputs), true⟩,
    ⟨true, 6, 6, false, false, false, false, true, -1, -1, -1, "master", .crash⟩, ⟨1, 7, fun _ l => l⟩, .value, ?_, ?_, ?_⟩
  · simp [Obj.step, Obj.compute, ComputeArgs.early, ComputeArgs.late, toeplitzSanity]
  · exact ⟨_, decoupleCell_ok _ _ _ rfl le_rfl⟩
  · simp [Obj.step, Obj.compute, ComputeArgs.early, ComputeArgs.late, toeplitzSanity, Obj.decoupleCell]

/-! ## C12 -/

/-- What the C functions that make workspaces guarantee: a computed workspace has the unbinned matrix, a
workspace read from a file has it exactly if that was asked for. -/
def Op.Sane : Op K → Prop
  | .compute a => ∀ w, a.cResult = .ok w → w.unbinned.isSome
  | .read r u => ∀ w, r = .ok w → w.unbinned.isSome = u
  | _ => True

/-- The flag of the object says whether the workspace has the unbinned matrix. -/
def FlagCorrect (o : Obj K) : Prop := ∀ w, o.wsp = some w → o.hasUnbinned = w.unbinned.isSome

theorem late_cases (a : ComputeArgs K) : (∃ e, a.late = .raises e) ∨ a.late = a.cResult := by
  unfold ComputeArgs.late
  by_cases h1 : (a.aniso1 = true ∨ a.aniso2 = true) ∧ a.lToeplitz ≥ 0
  · rw [if_pos h1]; exact Or.inl ⟨_, rfl⟩
  rw [if_neg h1]
  cases toeplitzSanity a.lToeplitz a.lExact a.dlBand a.lmaxBins a.pureAny with
  | some e => exact Or.inl ⟨_, rfl⟩
  | none =>
    simp only
    by_cases h2 : a.normalization ≠ "MASTER" ∧ a.normalization ≠ "FKP"
    · rw [if_pos h2]; exact Or.inl ⟨_, rfl⟩
    rw [if_neg h2]
    by_cases h3 : a.normalization = "FKP" ∧ a.catalogAny ∧ ¬ a.sameField
    · rw [if_pos h3]; exact Or.inl ⟨_, rfl⟩
    rw [if_neg h3]
    exact Or.inr rfl

theorem late_ok (a : ComputeArgs K) (w : Wsp K) (h : a.late = .ok w) : a.cResult = .ok w := by
  rcases late_cases a with ⟨e, he⟩ | he
  · rw [he] at h; simp at h
  · rw [← he]; exact h

theorem binCouplingMatrix_unbinned (w w' : Wsp K) (h : binCouplingMatrix w = .ok w') :
    w'.unbinned.isSome = w.unbinned.isSome := by
  unfold binCouplingMatrix at h
  split at h
  · cases h; rfl
  · split_ifs at h; cases h; rfl

theorem store_flag (o : Obj K) (w : Wsp K) (hw : o.wsp = some w) (hf : FlagCorrect o) (r : Outcome (Wsp K))
    (h : ∀ w', r = .ok w' → w'.unbinned.isSome = w.unbinned.isSome) : FlagCorrect (o.store r).1 := by
  cases r with
  | raises e => exact hf
  | crash => exact hf
  | ok w' =>
    intro w'' h''
    simp only [Obj.store, Option.some.injEq] at h''
    subst h''
    rw [h _ rfl]
    exact hf w hw

theorem step_flag (L : LinAlg K) (o : Obj K) (op : Op K) (hs : op.Sane) (hf : FlagCorrect o) :
    FlagCorrect (o.step L op).1 := by
  cases op with
  | compute a =>
    simp only [Obj.step, Obj.compute]
    cases he : a.early with
    | some e => exact hf
    | none =>
      cases hl : a.late with
      | ok w =>
        intro w' hw'
        simp only [Option.some.injEq] at hw'
        subst hw'
        exact (hs w (late_ok a w hl)).symm
      | raises e => intro w hw; simp at hw
      | crash => intro w hw; simp at hw
  | read r u =>
    simp only [Obj.step, Obj.readFrom]
    cases r with
    | ok w =>
      intro w' hw'
      simp only [Option.some.injEq] at hw'
      subst hw'
      exact (hs w rfl).symm
    | raises e => intro w hw; simp at hw
    | crash => intro w hw; simp at hw
  | updateBeams b1 b2 =>
    cases b1 <;> cases b2 <;> simp only [Obj.step, Obj.updateBeams] <;> try exact hf
    cases hw : o.wsp with
    | none => simpa only using hf
    | some w =>
      simp only
      split_ifs with h1
      · exact hf
      · apply store_flag o w hw hf
        intro w' h'
        unfold cUpdateBeams at h'
        rw [if_neg h1] at h'
        have := binCouplingMatrix_unbinned _ _ h'
        exact this
  | updateBins B =>
    simp only [Obj.step, Obj.updateBins]
    cases hw : o.wsp with
    | none => simpa only using hf
    | some w =>
      cases B with
      | none => simpa only using hf
      | some B =>
        simp only
        apply store_flag o w hw hf
        intro w' h'
        unfold cUpdateBinning at h'
        split_ifs at h'
        have := binCouplingMatrix_unbinned _ _ h'
        exact this
  | updateMatrix m =>
    simp only [Obj.step, Obj.updateMatrix]
    cases hw : o.wsp with
    | none => simpa only using hf
    | some w =>
      simp only
      cases hc : o.checkUnbinned with
      | raises e => exact hf
      | crash => exact hf
      | ok _ =>
        simp only
        split_ifs
        · exact hf
        · exact hf
        · exact hf
        · apply store_flag o w hw hf
          intro w' h'
          unfold cUpdateMatrix at h'
          split_ifs at h'
          cases hu : w.unbinned with
          | none => simp [hu] at h'
          | some U =>
            simp only [hu] at h'
            rw [binCouplingMatrix_unbinned _ _ h']
            rfl
  | couple cl => exact hf
  | decouple cl b n => exact hf
  | windows => exact hf
  | getMatrix => exact hf
  | write => exact hf

/-- C12: through every history of calls, successful or failing, the flag says whether the workspace has the
unbinned matrix. -/
theorem C12_flag_tracks_matrix (L : LinAlg K) (ops : List (Op K)) (hs : ∀ op ∈ ops, op.Sane) :
    FlagCorrect (Obj.run L Obj.bare ops) := by
  have key : ∀ (ops : List (Op K)) (o : Obj K), FlagCorrect o → (∀ op ∈ ops, op.Sane) →
      FlagCorrect (Obj.run L o ops) := by
    intro ops
    induction ops with
    | nil => intro o h _; exact h
    | cons op ops ih =>
      intro o h hs
      exact ih _ (step_flag L o op (hs op List.mem_cons_self) h) (fun op' h' => hs op' (List.mem_cons_of_mem _ h'))
  exact key ops _ (fun w hw => by simp [Obj.bare] at hw) hs

/-- C12 without the two methods for which it fails: after every history, if the workspace lacks the unbinned
matrix, the methods needing it raise and leave the object as it is, and decoupling works as on the workspace
itself. Missing for the full claim: `update_beams` and `update_bins`, for which it is false, see
`C12_update_beams_crashes` and `C12_update_bins_crashes`. -/
theorem C12_protected_partial (L : LinAlg K) (ops : List (Op K)) (hs : ∀ op ∈ ops, op.Sane) (w : Wsp K)
    (hw : (Obj.run L Obj.bare ops).wsp = some w) (hu : w.unbinned = none) :
    let o := Obj.run L Obj.bare ops
    (∀ cl, ∃ e, o.step L (.couple cl) = (o, .raises e)) ∧
    (∃ e, o.step L .windows = (o, .raises e)) ∧
    (∃ e, o.step L .getMatrix = (o, .raises e)) ∧
    (∃ e, o.step L .write = (o, .raises e)) ∧
    (∀ m, ∃ e, o.step L (.updateMatrix m) = (o, .raises e)) ∧
    (∀ cl b n, o.step L (.decouple cl b n) = (o, (decoupleCell L w cl b n).arr)) := by
  have hf := C12_flag_tracks_matrix L ops hs w hw
  rw [hu, Option.isSome_none] at hf
  intro o
  have hc : o.checkUnbinned = .raises .value := by
    unfold Obj.checkUnbinned
    rw [if_neg]
    rw [hf]; simp
  have hw' : o.wsp = some w := hw
  refine ⟨?_, ?_, ?_, ?_, ?_, ?_⟩
  · intro cl
    simp only [Obj.step, Obj.coupleCell, hw', hc]
    split_ifs
    · exact ⟨_, rfl⟩
    · exact ⟨_, rfl⟩
  · simp only [Obj.step, Obj.windows, hc]; exact ⟨_, rfl⟩
  · simp only [Obj.step, Obj.getMatrix, hw', hc]; exact ⟨_, rfl⟩
  · simp only [Obj.step, Obj.writeTo, hw', hc]; exact ⟨_, rfl⟩
  · intro m; simp only [Obj.step, Obj.updateMatrix, hw', hc]; exact ⟨_, rfl⟩
  · intro cl b n; simp only [Obj.step, Obj.decoupleCell, hw']

/-- C12 fails for `update_beams`: on a workspace of the usual normalisation read without the unbinned matrix,
valid beams lead to an access through a null pointer. -/
theorem C12_update_beams_crashes (L : LinAlg K) (w : Wsp K) (hu : w.unbinned = none) (hn : w.normType = 0)
    (b1 b2 : List K) (h1 : w.lmaxFields < b1.length) (h2 : w.lmaxFields < b2.length) :
    Obj.replies L Obj.bare [.read (.ok w) false, .updateBeams (some b1) (some b2)] = [.ok .unit, .crash] := by
  simp only [Obj.replies, Obj.step, Obj.readFrom, Obj.updateBeams, cUpdateBeams, binCouplingMatrix, hu, hn]
  rw [if_neg (by omega), if_neg (by omega)]
  rfl

/-- C12 fails for `update_bins` in the same way. -/
theorem C12_update_bins_crashes (L : LinAlg K) (w : Wsp K) (hu : w.unbinned = none) (hn : w.normType = 0)
    (B : Bins K) (hB : B.ellMax = w.bin.ellMax) :
    Obj.replies L Obj.bare [.read (.ok w) false, .updateBins (some B)] = [.ok .unit, .crash] := by
  simp only [Obj.replies, Obj.step, Obj.readFrom, Obj.updateBins, cUpdateBinning, binCouplingMatrix, hu, hn]
  rw [if_neg (by simpa using hB)]
  rfl

/-- C12: apart from these two methods on a workspace without the unbinned matrix, integer overflow for
matrices of at least 46341 rows, and undefined behaviour inside the functions that compute or read a
workspace, no method call after any history is undefined. -/
theorem C12_no_other_crash_partial (L : LinAlg K) (ops : List (Op K)) (hs : ∀ op ∈ ops, op.Sane) (op : Op K)
    (h : ((Obj.run L Obj.bare ops).step L op).2 = .crash) :
    (∃ w, (Obj.run L Obj.bare ops).wsp = some w ∧ w.unbinned = none ∧ w.normType = 0 ∧
      ((∃ b1 b2, op = .updateBeams b1 b2) ∨ ∃ B, op = .updateBins B)) ∨
    (∃ w, (Obj.run L Obj.bare ops).wsp = some w ∧ 46341 ≤ (w.lmax + 1) * w.ncls ∧
      (op = .getMatrix ∨ ∃ m, op = .updateMatrix m)) ∨
    (∃ a, op = .compute a ∧ a.cResult = .crash) ∨ (∃ u, op = .read .crash u) := by
  have hf := C12_flag_tracks_matrix L ops hs
  generalize Obj.run L Obj.bare ops = o at hf h
  have hbin : ∀ w : Wsp K, binCouplingMatrix w = .crash → w.unbinned = none ∧ w.normType = 0 := by
    intro w hw
    unfold binCouplingMatrix at hw
    split at hw
    · simp at hw
    · split_ifs at hw with h0
      exact ⟨by assumption, h0⟩
  have hst : ∀ r : Outcome (Wsp K), (o.store r).2 = .crash → r = .crash := by
    intro r hr
    cases r with
    | ok w => simp [Obj.store] at hr
    | raises e => simp [Obj.store] at hr
    | crash => rfl
  have hcu : ∀ e, o.checkUnbinned = e → e ≠ .crash := by
    intro e he hc
    subst hc
    unfold Obj.checkUnbinned at he
    split_ifs at he
  have hover : ∀ n : ℕ, 2 ^ 31 ≤ n * n → 46341 ≤ n := by
    intro n hn
    by_contra hlt
    have h1 : n ≤ 46340 := by omega
    have := Nat.mul_le_mul h1 h1
    omega
  cases op with
  | compute a =>
    right; right; left
    simp only [Obj.step, Obj.compute] at h
    cases he : a.early with
    | some e => simp [he] at h
    | none =>
      simp only [he] at h
      cases hl : a.late with
      | ok w => simp [hl] at h
      | raises e => simp [hl] at h
      | crash =>
        refine ⟨a, rfl, ?_⟩
        rcases late_cases a with ⟨e, he'⟩ | he'
        · rw [he'] at hl; simp at hl
        · rw [← he']; exact hl
  | read r u =>
    right; right; right
    cases r with
    | ok w => simp [Obj.step, Obj.readFrom] at h
    | raises e => simp [Obj.step, Obj.readFrom] at h
    | crash => exact ⟨u, rfl⟩
  | updateBeams b1 b2 =>
    left
    cases b1 <;> cases b2 <;> simp only [Obj.step, Obj.updateBeams] at h <;> try exact absurd h (by simp)
    cases hw : o.wsp with
    | none => simp [hw] at h
    | some w =>
      simp only [hw] at h
      split_ifs at h with h1
      have h2 := hst _ h
      unfold cUpdateBeams at h2
      rw [if_neg h1] at h2
      obtain ⟨h3, h4⟩ := hbin _ h2
      exact ⟨w, rfl, h3, h4, Or.inl ⟨_, _, rfl⟩⟩
  | updateBins B =>
    left
    simp only [Obj.step, Obj.updateBins] at h
    cases hw : o.wsp with
    | none => simp [hw] at h
    | some w =>
      cases B with
      | none => simp [hw] at h
      | some B =>
        simp only [hw] at h
        have h2 := hst _ h
        unfold cUpdateBinning at h2
        split_ifs at h2
        obtain ⟨h3, h4⟩ := hbin _ h2
        exact ⟨w, rfl, h3, h4, Or.inr ⟨_, rfl⟩⟩
  | updateMatrix m =>
    simp only [Obj.step, Obj.updateMatrix] at h
    cases hw : o.wsp with
    | none => simp [hw] at h
    | some w =>
      simp only [hw] at h
      cases hc : o.checkUnbinned with
      | raises e => simp [hc] at h
      | crash => exact absurd rfl (hcu _ hc)
      | ok _ =>
        simp only [hc] at h
        have hsome : w.unbinned.isSome := by
          rw [← hf w hw]
          unfold Obj.checkUnbinned at hc
          split_ifs at hc with h0
          exact h0
        split_ifs at h with h1 h2 h3
        · right; left
          have h1' : m.rows = (w.lmax + 1) * w.ncls := by simpa using h1
          exact ⟨w, rfl, by rw [← h1']; exact hover _ h2, Or.inr ⟨_, rfl⟩⟩
        · exfalso
          have h4 := hst _ h
          unfold cUpdateMatrix at h4
          split_ifs at h4
          cases hu : w.unbinned with
          | none => simp [hu] at hsome
          | some U =>
            simp only [hu] at h4
            have := (hbin _ h4).1
            simp at this
  | couple cl =>
    exfalso
    simp only [Obj.step, Obj.coupleCell] at h
    cases hw : o.wsp with
    | none => simp [hw, Outcome.arr] at h
    | some w =>
      simp only [hw] at h
      split_ifs at h with h1
      · simp [Outcome.arr] at h
      · cases hc : o.checkUnbinned with
        | raises e => simp [hc, Outcome.bind, Outcome.arr] at h
        | crash => exact absurd rfl (hcu _ hc)
        | ok _ =>
          have hsome : w.unbinned.isSome := by
            rw [← hf w hw]
            unfold Obj.checkUnbinned at hc
            split_ifs at hc with h0
            exact h0
          obtain ⟨U, hU⟩ := Option.isSome_iff_exists.1 hsome
          simp only [hc, Outcome.bind, hU, NaMaster.coupleCell, if_neg h1, Outcome.arr] at h
          exact absurd h (by simp)
  | decouple cl b n =>
    exfalso
    simp only [Obj.step, Obj.decoupleCell] at h
    cases hw : o.wsp with
    | none => simp [hw, Outcome.arr] at h
    | some w =>
      simp only [hw, NaMaster.decoupleCell] at h
      split_ifs at h <;> simp [Outcome.arr] at h
  | windows =>
    exfalso
    simp only [Obj.step, Obj.windows] at h
    cases hc : o.checkUnbinned with
    | raises e => simp [hc, Outcome.bind] at h
    | crash => exact absurd rfl (hcu _ hc)
    | ok _ =>
      cases hw : o.wsp with
      | none => simp [hc, hw, Outcome.bind] at h
      | some w =>
        have hsome : w.unbinned.isSome := by
          rw [← hf w hw]
          unfold Obj.checkUnbinned at hc
          split_ifs at hc with h0
          exact h0
        obtain ⟨U, hU⟩ := Option.isSome_iff_exists.1 hsome
        simp only [hc, hw, Outcome.bind, hU] at h
        split_ifs at h
  | getMatrix =>
    simp only [Obj.step, Obj.getMatrix] at h
    cases hw : o.wsp with
    | none => simp [hw, Outcome.arr] at h
    | some w =>
      simp only [hw] at h
      cases hc : o.checkUnbinned with
      | raises e => simp [hc, Outcome.bind, Outcome.arr] at h
      | crash => exact absurd rfl (hcu _ hc)
      | ok _ =>
        have hsome : w.unbinned.isSome := by
          rw [← hf w hw]
          unfold Obj.checkUnbinned at hc
          split_ifs at hc with h0
          exact h0
        obtain ⟨U, hU⟩ := Option.isSome_iff_exists.1 hsome
        simp only [hc, Outcome.bind, hU] at h
        split_ifs at h with h1
        · right; left
          refine ⟨w, rfl, hover _ (le_trans h1 (Nat.mul_le_mul_right _ (Nat.sub_le _ _))), Or.inl rfl⟩
        · simp [Outcome.arr] at h
  | write =>
    exfalso
    simp only [Obj.step, Obj.writeTo] at h
    cases hw : o.wsp with
    | none => simp [hw, Outcome.unit] at h
    | some w =>
      simp only [hw] at h
      cases hc : o.checkUnbinned with
      | raises e => simp [hc, Outcome.bind, Outcome.unit] at h
      | crash => exact absurd rfl (hcu _ hc)
      | ok _ =>
        have hsome : w.unbinned.isSome := by
          rw [← hf w hw]
          unfold Obj.checkUnbinned at hc
          split_ifs at hc with h0
          exact h0
        obtain ⟨U, hU⟩ := Option.isSome_iff_exists.1 hsome
        simp [hc, Outcome.bind, hU, Outcome.unit] at h

/-- A history ending with a workspace without the unbinned matrix. -/
example : ∃ (ops : List (Op ℚ)) (w : Wsp ℚ), (∀ op ∈ ops, op.Sane) ∧
    (Obj.run (exactLinAlg ℚ) Obj.bare ops).wsp = some w ∧ w.unbinned = none ∧ w.normType = 0 := by
  refine ⟨[.compute ⟨true, 6, 6, false, false, false, false, true, -1, -1, -1, "MASTER",
      .ok (build exampleConfig exampleInputs)⟩, .write,
    .read (.ok { build exampleConfig exampleInputs with unbinned := none }) false, .windows],
    { build exampleConfig exampleInputs with unbinned := none }, ?_, rfl, rfl, rfl⟩
  intro op hop
  simp only [List.mem_cons, List.not_mem_nil, or_false] at hop
  rcases hop with rfl | rfl | rfl | rfl
  · intro w hw
    simp only [Outcome.ok.injEq] at hw
    subst hw; rfl
  · trivial
  · intro w hw
    simp only [Outcome.ok.injEq] at hw
    subst hw; rfl
  · trivial

end NaMaster
