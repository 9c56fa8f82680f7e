import Verif.MemFlat.Invariant

/-!
# C88, C89: memory of flat-sky binning schemes, fields, workspaces and covariance workspaces
-/

namespace NaMaster

open Mem MemF

namespace MemF

/-- All objects of the session have been deleted, or never contained anything. -/
def FSess.Deleted (s : FSess) : Prop :=
  (∀ o ∈ s.bins, o = none) ∧ (∀ o ∈ s.flds, o = none) ∧ (∀ o ∈ s.wsps, o = none) ∧ ∀ o ∈ s.covs, o = none

/-- States that a safe session can reach. -/
def FReachable (s : FSess) (h : Heap) : Prop :=
  ∃ ops, FSafeFrom FSess.start emptyHeap ops ∧ frun FSess.start ops emptyHeap = .done s h

theorem FReachable.inv {s : FSess} {h : Heap} (hr : FReachable s h) : h.WF ∧ FInv s h.live := by
  obtain ⟨ops, hs, e⟩ := hr
  obtain ⟨s', h', e', hw, hi⟩ := frun_keeps emptyHeap_wf rfl finv_start hs
  rw [e] at e'
  injection e' with e1 e2
  subst e1 e2
  exact ⟨hw, hi⟩

section
variable {P P' X : Multiset ℕ}

theorem Ends.toReads {m : Mem Unit} (h : Ends P m none) : Reads P m :=
  triple_mono h (fun _ _ h => h.2) fun _ ⟨_, _, e, _⟩ => by simp at e

/-- If one of the iterations is undefined, and the others do no harm, the loop is undefined. -/
theorem bad_loop_some {n j : ℕ} {f : ℕ → Mem Unit} (h : ∀ i < n, Reads P (f i) ∨ Bad P (f i)) (hj : j < n) (hb : Bad P (f j)) :
    Bad P (loopU n f) := by
  classical
  induction n generalizing j with
  | zero => omega
  | succ n ih =>
    by_cases hex : ∃ i < n, Bad P (f i)
    · obtain ⟨i, hi, hbi⟩ := hex
      exact bad_bind_left (m := loopU n f) (ih (fun i hi => h i (by omega)) hi hbi)
    · have hr : Reads P (loopU n f) := Reads.loop fun k hk => (h k (by omega)).resolve_right fun hb => hex ⟨k, hk, hb⟩
      obtain rfl : j = n := by
        by_contra hne
        exact hex ⟨j, by omega, hb⟩
      exact bad_reads (f := fun _ => f j) hr hb

theorem mallocP_new (P : Multiset ℕ) : Triple P mallocP (fun p Y => ∃ b, p = .to b ∧ Y = {b} + P) (fun _ => False) :=
  triple_last (triple_mallocP fun b => triple_pure ⟨b, rfl, rfl⟩)

theorem bad_temps {m : Mem Unit} (n : ℕ) (h : Bad P m) : Bad P (withTemps n m) := by
  induction n with
  | zero => exact h
  | succ n ih =>
    refine bad_bind (mallocP_new P) ?_
    rintro _ Y ⟨b, rfl, rfl⟩
    exact bad_bind_left (bad_mono ih (Multiset.le_add_left _ _))

/-- Rows below `c` are fine, the others are not there. -/
def OutUpTo (P : Multiset ℕ) (c : ℕ) (out : ℕ → Mem Unit) : Prop :=
  ∀ P', P ≤ P' → ∀ i, (i < c → Reads P' (out i)) ∧ (c ≤ i → Bad P' (out i))

theorem OutUpTo.mono {c : ℕ} {out : ℕ → Mem Unit} (h : OutUpTo P c out) (hP : P ≤ P') : OutUpTo P' c out :=
  fun P'' hle => h P'' (hP.trans hle)

theorem OutUpTo.or {c : ℕ} {out : ℕ → Mem Unit} (h : OutUpTo P c out) (i : ℕ) : Reads P (out i) ∨ Bad P (out i) := by
  by_cases hi : i < c
  · exact Or.inl ((h P le_rfl i).1 hi)
  · exact Or.inr ((h P le_rfl i).2 (by omega))

theorem row_upTo {n : ℕ} {a : PArr Ptr} (h : ArrAt PtrAt n a X) (hX : X ≤ P) : OutUpTo P n (row a) := fun P' hP i => by
  refine ⟨fun hi => row_reads (arrAt_arr h (hX.trans hP)) hi, fun hi => ?_⟩
  have hlen : a.elems.length = n := by
    obtain ⟨o, l, rfl, hl, -⟩ := arrAt_iff.1 h
    simp [hl]
  have ha : Has P' a.ptr := (arrAt_arr h (hX.trans hP)).1
  refine bad_bind (Q := fun x Y => x = default ∧ Y = P') (Reads.bind ha.use (triple_pure ⟨?_, rfl⟩)) ?_
  · rw [List.getD_eq_getElem?_getD, List.getElem?_eq_none (by omega), Option.getD_none]
  · rintro _ Y ⟨rfl, rfl⟩
    exact bad_use_uninit

theorem pyRow_upTo {n o : ℕ} (h : o ∈ P) : OutUpTo P n (pyRow ⟨.to o, List.replicate n true⟩) := fun P' hP i => by
  have hm : o ∈ P' := Multiset.mem_of_le hP h
  refine ⟨fun hi => pyRow_reads (pyArr_new hm) hi, fun hi => ?_⟩
  refine bad_bind (Q := fun x Y => x = false ∧ Y = P') (Reads.bind (reads_use o hm) (triple_pure ⟨?_, rfl⟩)) ?_
  · rw [List.getD_eq_getElem?_getD, List.getElem?_eq_none (by simpa using hi), Option.getD_none]
    rfl
  · rintro _ Y ⟨rfl, rfl⟩
    exact fun _ _ _ _ => rfl

theorem almToCl_bad {bin : FBins} {n1 n2 c : ℕ} {a1 a2 : PArr Ptr} {out : ℕ → Mem Unit} (hb : HasBins P bin) (h1 : Arr P n1 a1)
    (h2 : Arr P n2 a2) (ho : OutUpTo P c out) (hc : c < n1 * n2) (hn : 0 < bin.nBands) : Bad P (almToCl bin n1 n2 a1 a2 out) := by
  have h0 : 0 < n2 := Nat.pos_of_ne_zero fun h => by simp [h] at hc
  unfold almToCl
  refine bad_reads (useEdges_reads hb) (bad_bind (mallocP_new P) ?_)
  rintro _ Y ⟨b, rfl, rfl⟩
  refine bad_bind_left ?_
  have l : P ≤ {b} + P := leR le_rfl
  have g1 := arr_mono h1 l
  have g2 := arr_mono h2 l
  have go := ho.mono l
  have inner : ∀ i, Reads ({b} + P) (loopU bin.nBands fun _ => out i) ∨ Bad ({b} + P) (loopU bin.nBands fun _ => out i) := fun i => by
    rcases go.or i with h | h
    · exact Or.inl (Reads.loop fun _ _ => h)
    · exact Or.inr (bad_loop hn h)
  have body : ∀ i1 < n1, ∀ i2 < n2, Reads ({b} + P) (do row a2 i2; loopU bin.nBands fun _ => out (i2 + n2 * i1)) ∨
      Bad ({b} + P) (do row a2 i2; loopU bin.nBands fun _ => out (i2 + n2 * i1)) := fun i1 _ i2 hi2 => by
    rcases inner (i2 + n2 * i1) with h | h
    · exact Or.inl ((row_reads g2 hi2).seq h)
    · exact Or.inr (bad_reads (row_reads g2 hi2) h)
  refine bad_loop_some (j := c / n2) (fun i1 hi1 => ?_) (by rw [Nat.div_lt_iff_lt_mul h0]; exact hc) ?_
  · by_cases hex : ∃ i2 < n2, Bad ({b} + P) (do row a2 i2; loopU bin.nBands fun _ => out (i2 + n2 * i1))
    · obtain ⟨i2, hi2, hbad⟩ := hex
      exact Or.inr (bad_reads (row_reads g1 hi1) (bad_loop_some (body i1 hi1) hi2 hbad))
    · exact Or.inl ((row_reads g1 hi1).seq (Reads.loop fun i2 hi2 => (body i1 hi1 i2 hi2).resolve_right fun h => hex ⟨i2, hi2, h⟩))
  · have hi1 : c / n2 < n1 := by rw [Nat.div_lt_iff_lt_mul h0]; exact hc
    have hi2 : c % n2 < n2 := Nat.mod_lt _ h0
    refine bad_reads (row_reads g1 hi1) (bad_loop_some (body _ hi1) hi2 (bad_reads (row_reads g2 hi2) (bad_loop hn ?_)))
    rw [Nat.mod_add_div]
    exact (go _ le_rfl c).2 le_rfl

theorem decouple_bad {w : FWsp} {a b c d : ℕ → Mem Unit} {n : ℕ} (h : HasWsp P w) (ha : OutOk P w.ncls a) (hb : OutUpTo P n b)
    (hc : OutOk P w.ncls c) (hn : n < w.ncls) (hB : 0 < w.bin.nBands) : Bad P (decouple w a b c d) := by
  unfold decouple
  refine bad_reads h.self.use (bad_reads h.bin.1.use (bad_temps 2 (bad_bind_left (bad_loop_some (j := n) (fun i hi => ?_) hn ?_))))
  · rcases hb.or i with hr | hr
    · exact Or.inl (Reads.loop fun _ _ => (ha _ le_rfl i hi).seq (hr.seq (hc _ le_rfl i hi)))
    · exact Or.inr (bad_loop hB (bad_reads (ha _ le_rfl i hi) (bad_bind_left hr)))
  · exact bad_loop hB (bad_reads (ha _ le_rfl n hn) (bad_bind_left ((hb _ le_rfl n).2 le_rfl)))

/-- A workspace made for another number of spectra. -/
theorem fullPy_bad {f1 f2 : FFld} {bin : FBins} {w : FWsp} (h1 : HasFld P f1) (h2 : HasFld P f2) (hb : HasBins P bin)
    (hw : HasWsp P w) (hc : w.ncls ≠ f1.nmaps * f2.nmaps) (hp1 : f1.fs.pix = w.fs.pix) (hp2 : f2.fs.pix = w.fs.pix)
    (hB : bin.nBands = w.bin.nBands) (hn : 0 < bin.nBands) (hl1 : f1.lite = false) (hl2 : f2.lite = false) :
    Bad P (fullPy f1 f2 bin (some w)) := by
  have hpix : f1.fs.pix = f2.fs.pix := hp1.trans hp2.symm
  have m1 : f1.maskOnly = false := by
    cases h : f1.maskOnly
    · rfl
    · rw [h1.maskOnly h] at hl1; exact hl1
  have m2 : f2.maskOnly = false := by
    cases h : f2.maskOnly
    · rfl
    · rw [h2.maskOnly h] at hl2; exact hl2
  unfold fullPy fullSpectra
  refine bad_bind (mallocP_new P) ?_
  rintro _ Y ⟨no, rfl, rfl⟩
  refine bad_bind (mallocP_new _) ?_
  rintro _ Y ⟨gu, rfl, rfl⟩
  refine bad_bind (mallocP_new _) ?_
  rintro _ Y ⟨ou, rfl, rfl⟩
  have l : P ≤ {ou} + ({gu} + ({no} + P)) := leR (leR (leR le_rfl))
  have g1 := h1.mono l
  have g2 := h2.mono l
  have gb := hb.mono l
  have gw := hw.mono l
  dsimp only
  refine bad_bind_left (bad_reads g1.self.use (bad_reads g2.self.use (bad_reads gw.self.use (bad_reads gw.fs.1.use
    (bad_reads g1.fs.1.use (bad_reads g2.fs.1.use (bad_reads (Reads.when fun e => ?_) (bad_reads gb.1.use (bad_reads gw.bin.1.use
    (bad_reads (Reads.when fun e => ?_) ?_))))))))))
  · simp [hp1, hp2] at e
  · simp [hB] at e
  refine bad_bind (Q := fun w' Y => w' = w ∧ Y = {ou} + ({gu} + ({no} + P))) (triple_pure ⟨rfl, rfl⟩) ?_
  rintro w Y ⟨rfl, rfl⟩
  refine bad_bind (triple_last (triple_new (allocPtrs_spec _) fun a Z hZ => triple_pure (Q := fun a Y => ∃ Z, ArrAt PtrAt w.ncls a Z ∧
    Y = Z + ({ou} + ({gu} + ({no} + P)))) ⟨Z, hZ, rfl⟩)) ?_
  rintro clBias Y ⟨Xb, hXb, rfl⟩
  refine bad_bind (triple_last (triple_new (allocPtrs_spec _) fun a Z hZ => triple_pure (Q := fun a Y => ∃ Z, ArrAt PtrAt w.ncls a Z ∧
    Y = Z + (Xb + ({ou} + ({gu} + ({no} + P))))) ⟨Z, hZ, rfl⟩)) ?_
  rintro clData Y ⟨Xd, hXd, rfl⟩
  have l' : {ou} + ({gu} + ({no} + P)) ≤ Xd + (Xb + ({ou} + ({gu} + ({no} + P)))) := leR (leR le_rfl)
  have f1' := g1.mono l'
  have f2' := g2.mono l'
  have fb := gb.mono l'
  have fw := gw.mono l'
  rcases Nat.lt_or_gt_of_ne hc with hlt | hgt
  · refine bad_bind_left ?_
    unfold coupledCell
    refine bad_reads f1'.self.use (bad_reads f2'.self.use (bad_reads (Reads.when fun e => ?_) (bad_reads f1'.fs.1.use
      (bad_reads f2'.fs.1.use (bad_reads (Reads.when fun e => ?_) ?_)))))
    · simp [m1, m2] at e
    · simp [hpix] at e
    · exact almToCl_bad fb (f1'.alms m1) (f2'.alms m2) (row_upTo hXd le1) hlt hn
  · have od : OutOk (Xd + (Xb + ({ou} + ({gu} + ({no} + P))))) (f1.nmaps * f2.nmaps) (row clData) := fun P' hP i hi =>
      (row_upTo hXd le1 P' hP i).1 (by omega)
    have ob : OutOk (Xd + (Xb + ({ou} + ({gu} + ({no} + P))))) (f1.nmaps * f2.nmaps) (row clBias) := fun P' hP i hi =>
      (row_upTo hXb (leR le1) P' hP i).1 (by omega)
    refine bad_reads (Ends.toReads ((coupledCell_ends f1' f2' fb od).congr (by simp [m1, m2, hpix]))) (bad_reads (Ends.toReads
      ((deprojBias_ends f1' f2' fb (pyRow_ok (pyArr_new (by simp))) ob).congr (by simp [biasLost, hl1, hl2, hpix]))) (bad_bind_left ?_))
    exact decouple_bad fw (row_ok (arrAt_arr hXd le1)) (pyRow_upTo (by simp)) (row_ok (arrAt_arr hXb (leR le1))) hgt (by omega)

/-- A call that fails. -/
theorem callF_fails {s : FSess} {h : Heap} {m : Mem Unit} {e : FEvent} {n : ℕ} (hw : h.WF) (hm : Ends h.live m (some n)) :
    ∃ h', callF s m e h = .done { s with log := s.log ++ [e] } h' ∧ h'.live.card = h.live.card + n := by
  have t : Triple h.live (callF s m e) (fun s' Y => s' = { s with log := s.log ++ [e] } ∧ Y.card = h.live.card + n)
      (fun _ => False) := by
    refine triple_bind (triple_attempt hm) ?_
    rintro r Y (⟨a, rfl, ⟨he, -⟩⟩ | ⟨rfl, k, Z, he, hZ, rfl⟩)
    · simp at he
    · obtain rfl : n = k := Option.some.inj he
      exact triple_pure ⟨rfl, by rw [Multiset.card_add, hZ, add_comm]⟩
  rcases t h hw 0 (add_zero _).symm with ⟨s', h', Y, e, ⟨rfl, hY⟩, hl, -⟩ | ⟨h', Y, e, hf, -⟩
  · exact ⟨h', e, by rw [hl, add_zero, hY]⟩
  · exact hf.elim

end

end MemF

/-! ## C88 -/

/-- C88: whatever flat-sky objects a user creates, computes, reads, correlates, writes and deletes, in whatever order, the library never
follows or releases a pointer that is not set or whose block has been released; errors reported by the library end the call, not the
session. Missing from the full claim: files must be consistent, and a workspace given to `compute_full_master_flat` must have been made
for the same number of spectra; see the next theorem. -/
theorem C88_no_undefined_behaviour_partial (ops : List FOp) (hs : FSafeFrom FSess.start emptyHeap ops) :
    ∃ s h, frun FSess.start ops emptyHeap = .done s h := by
  obtain ⟨s, h, e, -⟩ := frun_keeps emptyHeap_wf rfl finv_start hs
  exact ⟨s, h, e⟩

/-- C88 fails: `compute_full_master_flat` with a workspace for the same pixels and bands, but made for fields with other spins, reads or
writes beyond its arrays. -/
theorem C88_wrong_workspace_undefined (s : FSess) (h : Heap) (hr : FReachable s h) (a b i j : ℕ) (f1 f2 : FFld) (w : FWsp) (bin : FBins)
    (ha : s.flds[a]? = some (some f1)) (hb : s.flds[b]? = some (some f2)) (hi : s.wsps[i]? = some (some w))
    (hj : s.bins[j]? = some (some bin)) (hl1 : f1.lite = false) (hl2 : f2.lite = false) (hp1 : f1.fs.pix = w.fs.pix)
    (hp2 : f2.fs.pix = w.fs.pix) (hB : bin.nBands = w.bin.nBands) (hn : 0 < bin.nBands) (hc : w.ncls ≠ f1.nmaps * f2.nmaps) :
    fstep s (.full a b j (some i)) h = .bad := by
  obtain ⟨hw, hinv⟩ := hr.inv
  have hsame : samePixels f1 f2 = true := by simp [samePixels, hp1, hp2]
  have hbad : Bad h.live (fstep s (.full a b j (some i))) := by
    simp only [fstep, withSlot, fullCall, withF, ha, hb, hi, hj, hsame, if_true]
    exact bad_bind_left (bad_attempt (fullPy_bad (inv_fld hinv ha) (inv_fld hinv hb) (inv_fbins hinv hj) (inv_fwsp hinv hi) hc hp1 hp2 hB
      hn hl1 hl2))
  exact hbad h hw 0 (add_zero _).symm

/-! ## C89 -/

/-- C89: when all flat-sky objects of a session are deleted, the allocated blocks are exactly those lost by failed calls. Missing from
the full claim: nothing should remain; see the next theorems. -/
theorem C89_memory_returned_partial (ops : List FOp) (hs : FSafeFrom FSess.start emptyHeap ops) (s : FSess) (h : Heap)
    (hr : frun FSess.start ops emptyHeap = .done s h) (hd : s.Deleted) : h.live.card = flost s.log := by
  obtain ⟨-, B, F, W, C, L, hB, hF, hW, hC, hX, hL⟩ := FReachable.inv ⟨ops, hs, hr⟩
  obtain ⟨d1, d2, d3, d4⟩ := hd
  have hB0 : B = 0 := hB.zero fun o ho Y hY => by rw [d1 o ho] at hY; exact hY
  have hF0 : F = 0 := hF.zero fun o ho Y hY => by rw [d2 o ho] at hY; exact hY
  have hW0 : W = 0 := hW.zero fun o ho Y hY => by rw [d3 o ho] at hY; exact hY
  have hC0 : C = 0 := hC.zero fun o ho Y hY => by rw [d4 o ho] at hY; exact hY
  rw [hX, hB0, hF0, hW0, hC0, zero_add, zero_add, zero_add, zero_add, hL]

/-- C89: if no call failed in the library, nothing is allocated when all objects are deleted. -/
theorem C89_no_leak (ops : List FOp) (hs : FSafeFrom FSess.start emptyHeap ops) (s : FSess) (h : Heap)
    (hr : frun FSess.start ops emptyHeap = .done s h) (hd : s.Deleted) (hl : s.log = []) : h.live = 0 := by
  have := C89_memory_returned_partial ops hs s h hr hd
  rw [hl] at this
  exact Multiset.card_eq_zero.1 this

/-- C89 fails: `compute_full_master_flat` without a workspace always fails for fields created with `lite=True` (or without maps), and
each time loses the coupling matrix it has just computed and all its arrays. -/
theorem C89_full_master_lite_leaks (s : FSess) (h : Heap) (hr : FReachable s h) (a b j : ℕ) (f1 f2 : FFld) (bin : FBins)
    (ha : s.flds[a]? = some (some f1)) (hb : s.flds[b]? = some (some f2)) (hj : s.bins[j]? = some (some bin))
    (hp : f1.fs.pix = f2.fs.pix) (hl : f1.lite = true ∨ f2.lite = true) :
    ∃ h', fstep s (.full a b j none) h = .done { s with log := s.log ++ [.fullFailed f1 f2 bin none] } h' ∧
      h'.live.card = h.live.card + (16 + 2 * (f1.nmaps * f2.nmaps) * (bin.nBands + 1)) := by
  obtain ⟨hw, hinv⟩ := hr.inv
  have hsame : samePixels f1 f2 = true := by simp [samePixels, hp]
  simp only [fstep, fullCall, withF, ha, hb, hj, hsame, if_true]
  refine callF_fails hw ((fullPy_ends (inv_fld hinv ha) (inv_fld hinv hb) (inv_fbins hinv hj)).congr ?_)
  rw [fullLost, if_neg (not_not.2 hp), if_pos hl]
  congr 1
  ring

/-- C89 fails: `compute_coupled_cell_flat` for a field without maps loses a block each time it is refused. -/
theorem C89_coupled_mask_leaks (s : FSess) (h : Heap) (hr : FReachable s h) (a b j : ℕ) (f1 f2 : FFld) (bin : FBins)
    (ha : s.flds[a]? = some (some f1)) (hb : s.flds[b]? = some (some f2)) (hj : s.bins[j]? = some (some bin))
    (hp : f1.fs.pix = f2.fs.pix) (hl : f1.maskOnly = true ∨ f2.maskOnly = true) :
    ∃ h', fstep s (.coupled a b j) h = .done { s with log := s.log ++ [.coupledFailed f1 f2] } h' ∧ h'.live.card = h.live.card + 1 := by
  obtain ⟨hw, hinv⟩ := hr.inv
  have hsame : samePixels f1 f2 = true := by simp [samePixels, hp]
  simp only [fstep, withF, ha, hb, hj, hsame, if_true]
  refine callF_fails hw ((coupledPy_ends (inv_fld hinv ha) (inv_fld hinv hb) (inv_fbins hinv hj)).congr ?_)
  rw [coupledLost, if_neg (not_not.2 hp), if_pos hl]

/-- C89 fails: `deprojection_bias_flat` for `lite` fields loses two blocks each time it is refused, and more if the pixels of the fields
differ. -/
theorem C89_bias_leaks (s : FSess) (h : Heap) (hr : FReachable s h) (a b j : ℕ) (f1 f2 : FFld) (bin : FBins)
    (ha : s.flds[a]? = some (some f1)) (hb : s.flds[b]? = some (some f2)) (hj : s.bins[j]? = some (some bin)) :
    ((f1.lite = true ∨ f2.lite = true) → ∃ h', fstep s (.bias a b j) h = .done { s with log := s.log ++ [.biasFailed f1 f2] } h' ∧
      h'.live.card = h.live.card + 2) ∧
    (f1.lite = false → f2.lite = false → f1.fs.pix ≠ f2.fs.pix →
      ∃ h', fstep s (.bias a b j) h = .done { s with log := s.log ++ [.biasFailed f1 f2] } h' ∧
      h'.live.card = h.live.card + (4 + 3 * (f1.nmaps * f2.nmaps))) := by
  obtain ⟨hw, hinv⟩ := hr.inv
  simp only [fstep, withF, ha, hb, hj]
  have e := deprojPy_ends (inv_fld hinv ha) (inv_fld hinv hb) (inv_fbins hinv hj)
  refine ⟨fun hl => callF_fails hw (e.congr ?_), fun h1 h2 hp => callF_fails hw (e.congr ?_)⟩
  · rw [biasLost, if_pos hl]
    rfl
  · rw [biasLost, if_neg (by simp [h1, h2]), if_pos hp, Option.map_some]
    congr 1
    omega

/-- C89 fails: `gaussian_covariance_flat` with a workspace that has another number of bands than the covariance workspace loses four
blocks each time it is refused. -/
theorem C89_gauss_leaks (s : FSess) (h : Heap) (hr : FReachable s h) (c i j sa1 sa2 sb1 sb2 : ℕ) (cw : FCov) (wa wb : FWsp)
    (hc : s.covs[c]? = some (some cw)) (hi : s.wsps[i]? = some (some wa)) (hj : s.wsps[j]? = some (some wb))
    (ea : wa.ncls = mapsOf sa1 * mapsOf sa2) (eb : wb.ncls = mapsOf sb1 * mapsOf sb2)
    (hb : wa.bin.nBands ≠ cw.bin.nBands ∨ wb.bin.nBands ≠ cw.bin.nBands) :
    ∃ h', fstep s (.gauss c i j sa1 sa2 sb1 sb2) h = .done { s with log := s.log ++ [.gaussFailed cw wa wb] } h' ∧
      h'.live.card = h.live.card + 4 := by
  obtain ⟨hw, hinv⟩ := hr.inv
  simp only [fstep, withF, hc, hi, hj, if_pos (And.intro ea eb)]
  refine callF_fails hw ((gaussPy_ends (inv_fcov hinv hc) (inv_fwsp hinv hi) (inv_fwsp hinv hj) _ _ _ _).congr ?_)
  rw [gaussLost, if_neg (by tauto)]

/-- C89 fails: a workspace file that cannot be read to the end loses all that was allocated, and so does a file of a covariance
workspace. -/
theorem C89_read_leaks (fw : FWspFile) (hf : fw.Fits) (fc : FCovFile) (n m : ℕ) (hn : fw.lost = some n) (hm : fc.lost = some m) :
    ∃ s h, frun FSess.start [.newWsp, .newCov, .readWsp 0 fw, .readCov 0 fc] emptyHeap = .done s h ∧ s.Deleted ∧
      h.live.card = n + m ∧ 0 < n ∧ 0 < m := by
  have t : Triple 0 (frun FSess.start [.newWsp, .newCov, .readWsp 0 fw, .readCov 0 fc]) (fun s Y => s.Deleted ∧ Y.card = n + m)
      (fun _ => False) := by
    refine triple_bind (Q1 := fun s Y => s = ⟨[], [], [none], [], []⟩ ∧ Y = 0) (triple_pure ⟨rfl, rfl⟩) ?_
    rintro _ Y ⟨rfl, rfl⟩
    refine triple_bind (Q1 := fun s Y => s = ⟨[], [], [none], [none], []⟩ ∧ Y = 0) (triple_pure ⟨rfl, rfl⟩) ?_
    rintro _ Y ⟨rfl, rfl⟩
    refine triple_bind (Q1 := fun s Y => s = ⟨[], [], [none], [none], [.readWspFailed fw]⟩ ∧ Y.card = n) ?_ ?_
    · refine triple_bind (Q1 := fun _ Y => Y = 0) (triple_pure rfl) ?_
      rintro ⟨⟩ Y rfl
      refine triple_bind (triple_attempt (fwspRead_spec fw hf)) ?_
      rintro r Y (⟨w, rfl, hw, -⟩ | ⟨rfl, hY⟩)
      · rw [hn] at hw
        simp at hw
      · rw [hn] at hY
        exact triple_pure ⟨rfl, (Option.some.inj hY).symm⟩
    rintro _ Y ⟨rfl, hY⟩
    refine triple_bind (Q1 := fun s Z => s = ⟨[], [], [none], [none], [.readWspFailed fw, .readCovFailed fc]⟩ ∧ Z.card = n + m) ?_ ?_
    · refine triple_bind (Q1 := fun _ Z => Z = Y) (triple_pure rfl) ?_
      rintro ⟨⟩ Z rfl
      refine triple_newE (triple_attempt (fcovRead_spec fc)) (fun _ h => h.elim) ?_
      rintro r V (⟨w, rfl, hw, -⟩ | ⟨rfl, hV⟩)
      · rw [hm] at hw
        simp at hw
      · rw [hm] at hV
        exact triple_pure ⟨rfl, by rw [Multiset.card_add, ← Option.some.inj hV, hY, add_comm]⟩
    rintro _ Z ⟨rfl, hZ⟩
    exact triple_pure ⟨⟨by simp, by simp, by simp, by simp⟩, hZ⟩
  rcases t emptyHeap emptyHeap_wf 0 rfl with ⟨s, h, Y, e, ⟨hd, hY⟩, hl, -⟩ | ⟨h, Y, e, hf, -⟩
  · refine ⟨s, h, e, hd, by rw [hl, add_zero, hY], ?_, ?_⟩
    · unfold FWspFile.lost at hn
      split at hn <;> first | (have := Option.some.inj hn; omega) | simp at hn
    · unfold FCovFile.lost at hm
      split at hm
      · simp at hm
      · have := Option.some.inj hm; omega
      · split at hm
        · have := Option.some.inj hm; omega
        · simp at hm
  · exact hf.elim

end NaMaster
