import Verif.Files.Lemmas2
import Verif.Master.Props3

/-!
# Workspaces that differ in nothing a user can observe
-/

set_option linter.unusedSectionVars false

namespace NaMaster

open BinSpec FileSpec WspSpec Finset

variable {K : Type*} [Field K] [LinearOrder K] [IsStrictOrderedRing K]

theorem FileSpec.SameScheme.refl (B : Bins K) : SameScheme B B := ⟨rfl, rfl, fun _ => List.Perm.refl _⟩

theorem binnedElement_same {B B' : Bins K} (h : SameScheme B B') (ncls : ℕ) (nt : ℤ) (w2 w2' : K)
    (hw : nt ≠ 0 → w2 = w2') (beam : ℕ → K) (U : ℕ → ℕ → K) (a b i j : ℕ) :
    binnedElement ncls nt w2' beam B' U a b i j = binnedElement ncls nt w2 beam B U a b i j := by
  unfold binnedElement
  by_cases hn : nt = 0
  · rw [if_pos hn, if_pos hn]
    rw [((h.band i).map _).sum_eq]
    congr 1
    apply List.map_congr_left
    intro e _
    exact ((h.band j).map _).sum_eq
  · rw [if_neg hn, if_neg hn, hw hn]

theorem binMatrix_same {B B' : Bins K} (h : SameScheme B B') (ncls : ℕ) (nt : ℤ) (w2 w2' : K)
    (hw : nt ≠ 0 → w2 = w2') (beam : ℕ → K) (U : ℕ → ℕ → K) :
    binMatrix ncls nt w2' beam B' U = binMatrix ncls nt w2 beam B U := by
  unfold binMatrix binnedWrites
  simp only [binnedElement_same h ncls nt w2 w2' hw, h.nBands]

theorem binnedInput_same {B B' : Bins K} (h : SameScheme B B') (ncls : ℕ) (cl noise bias : ℕ → ℕ → K) :
    binnedInput ncls B' cl noise bias = binnedInput ncls B cl noise bias := by
  unfold binnedInput
  have : ∀ icl ib, ((B'.band ib).map (fun e => (cl icl e.ell - noise icl e.ell - bias icl e.ell) * e.f * e.w)).sum =
      ((B.band ib).map (fun e => (cl icl e.ell - noise icl e.ell - bias icl e.ell) * e.f * e.w)).sum :=
    fun icl ib => ((h.band ib).map _).sum_eq
  simp only [this, h.nBands]

theorem coupledBin_same {B B' : Bins K} (h : SameScheme B B') (ncls lmax : ℕ) (U : ℕ → ℕ → K) (beam : ℕ → K) :
    coupledBin ncls lmax B' U beam = coupledBin ncls lmax B U beam := by
  funext i
  unfold coupledBin
  rw [foldl_addAt, foldl_addAt, h.nBands]
  congr 1
  apply List.Perm.sum_eq
  apply List.Perm.map
  apply List.Perm.flatMap_left
  intro a _
  apply List.Perm.flatMap_left
  intro b _
  exact (h.band b).flatMap_right _

theorem bpwWindows_same {B B' : Bins K} (h : SameScheme B B') (L : LinAlg K) (ncls lmax : ℕ)
    (U : ℕ → ℕ → K) (beam : ℕ → K) (M : ℕ → ℕ → K) :
    bpwWindows L ncls lmax B' U beam M = bpwWindows L ncls lmax B U beam M := by
  unfold bpwWindows
  simp only [coupledBin_same h, h.nBands]

/-- The workspaces agree in everything that is used: the order of multipoles within bands may differ, and
the scale `w2` of the FKP normalisation matters only with that normalisation. -/
structure AlikeInputs (w w' : Wsp K) : Prop where
  ncls : w'.ncls = w.ncls
  lmax : w'.lmax = w.lmax
  lmaxFields : w'.lmaxFields = w.lmaxFields
  lmaxMask : w'.lmaxMask = w.lmaxMask
  isTeb : w'.isTeb = w.isTeb
  normType : w'.normType = w.normType
  w2 : w.normType ≠ 0 → w.w2 = w'.w2
  beamProd : w'.beamProd = w.beamProd
  pclMasks : w'.pclMasks = w.pclMasks
  unbinned : w'.unbinned = w.unbinned
  bin : SameScheme w.bin w'.bin

/-- Also the binned matrices agree. -/
structure Alike (w w' : Wsp K) : Prop extends AlikeInputs w w' where
  binned : w'.binned = w.binned

theorem Alike.refl (w : Wsp K) : Alike w w :=
  ⟨⟨rfl, rfl, rfl, rfl, rfl, rfl, fun _ => rfl, rfl, rfl, rfl, SameScheme.refl _⟩, rfl⟩

/-- Outcomes agree up to `R`. -/
def OutRel {α : Type*} (R : α → α → Prop) : Outcome α → Outcome α → Prop
  | .ok a, .ok b => R a b
  | .raises e, .raises e' => e = e'
  | .crash, .crash => True
  | _, _ => False

theorem OutRel.refl {α : Type*} {R : α → α → Prop} (hR : ∀ a, R a a) (r : Outcome α) : OutRel R r r := by
  cases r with
  | ok a => exact hR a
  | raises e => rfl
  | crash => trivial

theorem binCouplingMatrix_alike {w w' : Wsp K} (h : AlikeInputs w w') :
    OutRel Alike (binCouplingMatrix w) (binCouplingMatrix w') := by
  unfold binCouplingMatrix
  rw [h.unbinned]
  cases hu : w.unbinned with
  | some U =>
    refine ⟨⟨h.ncls, h.lmax, h.lmaxFields, h.lmaxMask, h.isTeb, h.normType, h.w2, h.beamProd, h.pclMasks,
      rfl, h.bin⟩, ?_⟩
    simp only [h.ncls, h.normType, h.beamProd]
    exact binMatrix_same h.bin _ _ _ _ h.w2 _ _
  | none =>
    simp only [h.normType]
    by_cases hn : w.normType = 0
    · rw [if_pos hn, if_pos hn]; trivial
    · rw [if_neg hn, if_neg hn]
      refine ⟨⟨h.ncls, h.lmax, h.lmaxFields, h.lmaxMask, h.isTeb, rfl, h.w2, h.beamProd, h.pclMasks,
        rfl, h.bin⟩, ?_⟩
      simp only [h.ncls, h.beamProd]
      exact binMatrix_same h.bin _ _ _ _ h.w2 _ _

/-- Objects holding alike workspaces. -/
def AlikeObj (o o' : Obj K) : Prop :=
  o'.hasUnbinned = o.hasUnbinned ∧
  ((o.wsp = none ∧ o'.wsp = none) ∨ ∃ w w', o.wsp = some w ∧ o'.wsp = some w' ∧ Alike w w')

theorem AlikeObj.refl (o : Obj K) : AlikeObj o o := by
  refine ⟨rfl, ?_⟩
  cases h : o.wsp with
  | none => left; exact ⟨rfl, rfl⟩
  | some w => right; exact ⟨w, w, rfl, rfl, Alike.refl w⟩

theorem store_alike {o o' : Obj K} (h : AlikeObj o o') {r r' : Outcome (Wsp K)} (hr : OutRel Alike r r') :
    (o.store r).2 = (o'.store r').2 ∧ AlikeObj (o.store r).1 (o'.store r').1 := by
  cases r <;> cases r' <;> simp only [OutRel] at hr
  · exact ⟨rfl, h.1, Or.inr ⟨_, _, rfl, rfl, hr⟩⟩
  · subst hr; exact ⟨rfl, h⟩
  · exact ⟨rfl, h⟩

theorem decoupleCell_alike (L : LinAlg K) {w w' : Wsp K} (h : Alike w w') (cl : Arr2 K) (b n : Option (Arr2 K)) :
    decoupleCell L w' cl b n = decoupleCell L w cl b n := by
  unfold decoupleCell decoupleCl
  simp only [h.ncls, h.lmax, h.binned, binnedInput_same h.bin, h.bin.nBands]

/-- No call tells alike objects apart. -/
theorem step_alike (L : LinAlg K) {o o' : Obj K} (h : AlikeObj o o') (op : Op K) :
    (o.step L op).2 = (o'.step L op).2 ∧ AlikeObj (o.step L op).1 (o'.step L op).1 := by
  obtain ⟨hu, hw⟩ := h
  have hcu : o'.checkUnbinned = o.checkUnbinned := by unfold Obj.checkUnbinned; rw [hu]
  cases op with
  | compute a =>
    simp only [Obj.step, Obj.compute]
    cases a.early with
    | some e => exact ⟨rfl, hu, hw⟩
    | none =>
      cases a.late with
      | ok w => exact ⟨rfl, AlikeObj.refl _⟩
      | raises e => exact ⟨rfl, hu, Or.inl ⟨rfl, rfl⟩⟩
      | crash => exact ⟨rfl, hu, Or.inl ⟨rfl, rfl⟩⟩
  | read r u =>
    simp only [Obj.step, Obj.readFrom]
    cases r with
    | ok w => exact ⟨rfl, AlikeObj.refl _⟩
    | raises e => exact ⟨rfl, hu, Or.inl ⟨rfl, rfl⟩⟩
    | crash => exact ⟨rfl, hu, Or.inl ⟨rfl, rfl⟩⟩
  | updateBeams b1 b2 =>
    simp only [Obj.step, Obj.updateBeams]
    cases b1 with
    | none => exact ⟨rfl, hu, hw⟩
    | some b1 =>
    cases b2 with
    | none => exact ⟨rfl, hu, hw⟩
    | some b2 =>
      rcases hw with ⟨h1, h2⟩ | ⟨w, w', h1, h2, ha⟩
      · rw [h1, h2]; exact ⟨rfl, hu, Or.inl ⟨h1, h2⟩⟩
      · rw [h1, h2]
        simp only [ha.lmaxFields]
        by_cases hl : b1.length ≤ w.lmaxFields ∨ b2.length ≤ w.lmaxFields
        · rw [if_pos hl, if_pos hl]; exact ⟨rfl, hu, Or.inr ⟨w, w', h1, h2, ha⟩⟩
        · rw [if_neg hl, if_neg hl]
          apply store_alike ⟨hu, Or.inr ⟨w, w', h1, h2, ha⟩⟩
          unfold cUpdateBeams
          rw [ha.lmaxFields, if_neg hl, if_neg hl]
          exact binCouplingMatrix_alike ⟨ha.ncls, ha.lmax, rfl, ha.lmaxMask, ha.isTeb, ha.normType,
            ha.w2, rfl, ha.pclMasks, ha.unbinned, ha.bin⟩
  | updateBins B =>
    simp only [Obj.step, Obj.updateBins]
    rcases hw with ⟨h1, h2⟩ | ⟨w, w', h1, h2, ha⟩
    · rw [h1, h2]; exact ⟨rfl, hu, Or.inl ⟨h1, h2⟩⟩
    · rw [h1, h2]
      cases B with
      | none => exact ⟨rfl, hu, Or.inr ⟨w, w', h1, h2, ha⟩⟩
      | some B =>
        apply store_alike ⟨hu, Or.inr ⟨w, w', h1, h2, ha⟩⟩
        unfold cUpdateBinning
        rw [ha.bin.ellMax]
        by_cases hl : B.ellMax ≠ w.bin.ellMax
        · rw [if_pos hl, if_pos hl]; rfl
        · rw [if_neg hl, if_neg hl]
          exact binCouplingMatrix_alike ⟨ha.ncls, ha.lmax, ha.lmaxFields, ha.lmaxMask, ha.isTeb, ha.normType,
            ha.w2, ha.beamProd, ha.pclMasks, ha.unbinned, SameScheme.refl _⟩
  | updateMatrix m =>
    simp only [Obj.step, Obj.updateMatrix, hcu]
    rcases hw with ⟨h1, h2⟩ | ⟨w, w', h1, h2, ha⟩
    · rw [h1, h2]; exact ⟨rfl, hu, Or.inl ⟨h1, h2⟩⟩
    · rw [h1, h2]
      have hO : AlikeObj o o' := ⟨hu, Or.inr ⟨w, w', h1, h2, ha⟩⟩
      cases hc : o.checkUnbinned with
      | raises e => exact ⟨rfl, hO⟩
      | crash => exact ⟨rfl, hO⟩
      | ok _ =>
        simp only [ha.ncls, ha.lmax]
        by_cases c1 : m.rows ≠ (w.lmax + 1) * w.ncls
        · rw [if_pos c1, if_pos c1]; exact ⟨rfl, hO⟩
        rw [if_neg c1, if_neg c1]
        by_cases c2 : 2 ^ 31 ≤ m.rows * m.rows
        · rw [if_pos c2, if_pos c2]; exact ⟨rfl, hO⟩
        rw [if_neg c2, if_neg c2]
        by_cases c3 : m.rows * m.cols ≠ m.rows * m.rows
        · rw [if_pos c3, if_pos c3]; exact ⟨rfl, hO⟩
        rw [if_neg c3, if_neg c3]
        apply store_alike hO
        unfold cUpdateMatrix
        rw [ha.ncls, ha.lmax, ha.unbinned]
        by_cases c4 : m.rows ≠ w.ncls * (w.lmax + 1)
        · rw [if_pos c4, if_pos c4]; rfl
        rw [if_neg c4, if_neg c4]
        cases w.unbinned with
        | none => trivial
        | some U =>
          exact binCouplingMatrix_alike ⟨rfl, rfl, ha.lmaxFields, ha.lmaxMask, ha.isTeb, ha.normType,
            ha.w2, ha.beamProd, ha.pclMasks, rfl, ha.bin⟩
  | couple cl =>
    refine ⟨?_, hu, hw⟩
    simp only [Obj.step, Obj.coupleCell, hcu]
    rcases hw with ⟨h1, h2⟩ | ⟨w, w', h1, h2, ha⟩
    · rw [h1, h2]
    · rw [h1, h2]
      simp only [ha.ncls, ha.lmax, ha.unbinned, NaMaster.coupleCell, ha.beamProd]
  | decouple cl b n =>
    refine ⟨?_, hu, hw⟩
    simp only [Obj.step, Obj.decoupleCell]
    rcases hw with ⟨h1, h2⟩ | ⟨w, w', h1, h2, ha⟩
    · rw [h1, h2]
    · rw [h1, h2]
      simp only [decoupleCell_alike L ha]
  | windows =>
    refine ⟨?_, hu, hw⟩
    simp only [Obj.step, Obj.windows, hcu]
    rcases hw with ⟨h1, h2⟩ | ⟨w, w', h1, h2, ha⟩
    · rw [h1, h2]
    · rw [h1, h2]
      simp only [ha.ncls, ha.lmax, ha.unbinned, bandpowerWindows, ha.beamProd, ha.bin.nBands, ha.binned,
        bpwWindows_same ha.bin]
  | getMatrix =>
    refine ⟨?_, hu, hw⟩
    simp only [Obj.step, Obj.getMatrix, hcu]
    rcases hw with ⟨h1, h2⟩ | ⟨w, w', h1, h2, ha⟩
    · rw [h1, h2]
    · rw [h1, h2]
      simp only [ha.ncls, ha.lmax, ha.unbinned]
  | write =>
    refine ⟨?_, hu, hw⟩
    simp only [Obj.step, Obj.writeTo, hcu]
    rcases hw with ⟨h1, h2⟩ | ⟨w, w', h1, h2, ha⟩
    · rw [h1, h2]
    · rw [h1, h2]
      simp only [ha.unbinned]
      cases o.checkUnbinned with
      | raises e => rfl
      | crash => rfl
      | ok _ =>
        cases w.unbinned <;> rfl

theorem alike_same (L : LinAlg K) {o o' : Obj K} (h : AlikeObj o o') : Same L o o' := by
  intro ops
  induction ops generalizing o o' with
  | nil => rfl
  | cons op ops ih =>
    simp only [Obj.replies]
    rw [(step_alike L h op).1, ih (step_alike L h op).2]

theorem imagePixels_apply (n : ℕ) (M : ℕ → ℕ → K) (i j : ℕ) (hi : i < n) (hj : j < n) :
    imagePixels n M (i * n + j) = M i j := by
  unfold imagePixels
  apply runWrites_mem
  · simp only [List.mem_flatMap, List.mem_map, List.mem_range]
    exact ⟨i, hi, j, hj, rfl⟩
  · intro x hx hxe
    simp only [List.mem_flatMap, List.mem_map, List.mem_range] at hx
    obtain ⟨i', hi', j', hj', rfl⟩ := hx
    simp only at hxe ⊢
    rw [Nat.mul_comm, Nat.mul_comm i] at hxe
    obtain ⟨rfl, rfl⟩ := flat_inj hj' hj hxe
    rfl

theorem binMatrix_normal (ncls : ℕ) (nt : ℤ) (w2 : K) (beam : ℕ → K) (B : Bins K) (U : ℕ → ℕ → K) :
    binMatrix ncls nt w2 beam B U =
      tab2 (ncls * B.nBands) (ncls * B.nBands) (binMatrix ncls nt w2 beam B U) := by
  funext i j
  unfold tab2
  split_ifs with h
  · rfl
  · unfold binMatrix
    rw [runWrites_notMem]
    intro x hx
    unfold binnedWrites at hx
    simp only [List.mem_flatMap, List.mem_map, List.mem_range] at hx
    obtain ⟨a, ha, b, hb, i2, h2, i3, h3, rfl⟩ := hx
    intro heq
    apply h
    simp only [Prod.mk.injEq] at heq
    rw [← heq.1, ← heq.2]
    exact ⟨flat_lt ha h2, flat_lt hb h3⟩

/-- What reading a freshly written workspace gives. -/
theorem read_written (F : Factor K) (hF : F.Correct) (c : Config K) (x : Inputs K) (hB : Accepted x.bins)
    (hnr : NoRepeats x.bins) (hsm : (c.ncls * x.bins.nBands - 1) * (c.ncls * x.bins.nBands) < 2 ^ 31)
    (j : Junk K (Bins K)) (unb : Bool) :
    ∃ B', SameScheme x.bins B' ∧ Accepted B' ∧
      writeWorkspace F (build c x) = .ok (workspaceHdus F (build c x)
        (tab2 (c.ncls * (x.bins.ellMax + 1)) (c.ncls * (x.bins.ellMax + 1)) x.matrix)) ∧
      readWorkspace F j (workspaceHdus F (build c x)
        (tab2 (c.ncls * (x.bins.ellMax + 1)) (c.ncls * (x.bins.ellMax + 1)) x.matrix)) unb =
      .ok { build c x with w2 := j.w2, bin := B', unbinned := if unb then (build c x).unbinned else none } := by
  obtain ⟨B', hB', hs, hA⟩ := binsCreate_binsHdu x.bins hB hnr
  set U := tab2 (c.ncls * (x.bins.ellMax + 1)) (c.ncls * (x.bins.ellMax + 1)) x.matrix with hU
  set w := build c x with hw
  refine ⟨B', hs, hA, ?_, ?_⟩
  · unfold writeWorkspace
    have : w.unbinned = some U := rfl
    rw [this]
    simp only
    rw [if_neg]
    have : (w.ncls * w.bin.nBands - 1) * (w.ncls * w.bin.nBands) < 2 ^ 31 := hsm
    omega
  · have hn : (((c.ncls : ℕ) : ℤ) * (((x.bins.ellMax : ℕ) : ℤ) + 1)).toNat = c.ncls * (x.bins.ellMax + 1) := by
      have : ((c.ncls : ℕ) : ℤ) * (((x.bins.ellMax : ℕ) : ℤ) + 1) = ((c.ncls * (x.bins.ellMax + 1) : ℕ) : ℤ) := by
        push_cast; ring
      rw [this, Int.toNat_natCast]
    have R : Readable (workspaceHdus F w U) unb (infoHdu w U) (lArrHdu w.lmaxFields w.beamProd "BEAMS")
        (lArrHdu w.lmaxMask w.pclMasks "PCL_MASKS") (binsHdu w.bin) (mcmHdu F w) (permHdu F w)
        (x.bins.ellMax : ℤ) (c.lmaxFields : ℤ) (c.lmaxMask : ℤ) (if c.isTeb then 1 else 0) (c.ncls : ℤ)
        (x.bins.nBands : ℤ) (x.bins.ellMax : ℤ) B' := by
      refine ⟨rfl, ⟨rfl, rfl, rfl, rfl, rfl⟩, ?_, rfl, ?_, ⟨rfl, ?_⟩, rfl, ?_, ⟨rfl, ?_⟩, rfl, rfl, rfl,
        ⟨rfl, ?_⟩, hB', ?_, ?_, rfl, rfl, ⟨rfl, ?_⟩, ⟨rfl, ?_⟩⟩
      · intro _
        right
        rw [hn]
        refine ⟨rfl, ?_⟩
        simp [infoHdu, hw, build, buildWsp]
      · simp [lArrHdu, hw, build, buildWsp]
      · simp [lArrHdu]
      · simp [lArrHdu, hw, build, buildWsp]
      · simp [lArrHdu]
      · simp [binsHdu]
      · rw [hs.nBands]
      · simpa [hs.nBands] using hsm
      · simp [mcmHdu, hw, build, buildWsp, hs.nBands]
      · simp [permHdu, hw, build, buildWsp, hs.nBands]
    rw [read_ok F j _ unb R]
    congr 1
    unfold assemble
    rw [hn]
    have e1 : tab ((lArrHdu w.lmaxFields w.beamProd "BEAMS").dims.headD 0)
        ((lArrHdu w.lmaxFields w.beamProd "BEAMS").dbls 2) = w.beamProd := by
      simp only [lArrHdu, List.headD_cons]
      exact tab_tab _ _
    have e2 : tab ((lArrHdu w.lmaxMask w.pclMasks "PCL_MASKS").dims.headD 0)
        ((lArrHdu w.lmaxMask w.pclMasks "PCL_MASKS").dbls 2) = w.pclMasks := by
      simp only [lArrHdu, List.headD_cons]
      exact tab_tab _ _
    have e3 : tab2 (c.ncls * (x.bins.ellMax + 1)) (c.ncls * (x.bins.ellMax + 1))
        (fun i k => (infoHdu w U).dbls 0 (i * (c.ncls * (x.bins.ellMax + 1)) + k)) = U := by
      rw [hU]
      apply tab2_congr
      intro i k hi hk
      have := imagePixels_apply (c.ncls * (x.bins.ellMax + 1)) U i k hi hk
      rw [hU, tab2_of_lt _ hi hk] at this
      exact this
    have e4 : F.rebuild (((c.ncls : ℕ) : ℤ).toNat * B'.nBands)
        (fun i k => (mcmHdu F w).dbls 0 (i * (((c.ncls : ℕ) : ℤ).toNat * B'.nBands) + k)) ((permHdu F w).ints 0) =
        w.binned := by
      rw [hs.nBands, Int.toNat_natCast]
      apply hF
      · exact binMatrix_normal _ _ _ _ _ _
      · intro i k hi hk
        exact imagePixels_apply _ _ i k hi hk
      · intro i _; rfl
    rw [e1, e2, e3, e4]
    have e5 : decide ((if c.isTeb = true then (1 : ℤ) else 0) ≠ 0) = c.isTeb := by
      cases c.isTeb <;> simp
    rw [e5]
    simp only [Int.toNat_natCast]
    rfl

end NaMaster
