import Verif.Mem.Invariant

/-!
# C78, C79, C11: memory of binning schemes, workspaces and covariance workspaces
-/

namespace NaMaster

open Mem

namespace Mem

/-- All objects of the session have been deleted, or never contained anything. -/
def Sess.Deleted (s : Sess) : Prop :=
  (∀ o ∈ s.bins, o = none) ∧ (∀ o ∈ s.wsps, o.wsp = none) ∧ ∀ o ∈ s.covs, o = none

theorem emptyHeap_wf : emptyHeap.WF := ⟨fun b hb => by simp [emptyHeap] at hb, by simp [emptyHeap]⟩

/-- Started with blocks `P`, the code has undefined behaviour. -/
def Bad {α : Type} (P : Multiset ℕ) (m : Mem α) : Prop := ∀ h : Heap, h.WF → ∀ R, h.live = P + R → m h = .bad

section rules
variable {α β : Type} {P P' X : Multiset ℕ}

theorem bad_bind_left {m : Mem α} {f : α → Mem β} (h : Bad P m) : Bad P (m >>= f) := fun hp hw R hl => by
  change (m hp).seq f = _
  rw [h hp hw R hl]
  rfl

theorem bad_bind {m : Mem α} {f : α → Mem β} {Q : α → Multiset ℕ → Prop} (h : Triple P m Q (fun _ => False))
    (h2 : ∀ a Y, Q a Y → Bad Y (f a)) : Bad P (m >>= f) := fun hp hw R hl => by
  change (m hp).seq f = _
  rcases h hp hw R hl with ⟨a, h', Y, e, q, hl', hw'⟩ | ⟨h', Y, e, q, hl', hw'⟩
  · rw [e]
    exact h2 a Y q h' hw' R hl'
  · exact q.elim

theorem bad_reads {m : Mem Unit} {f : Unit → Mem β} (h : Reads P m) (h2 : Bad P (f ())) : Bad P (m >>= f) :=
  bad_bind h (by rintro ⟨⟩ Y rfl; exact h2)

theorem bad_use_null : Bad P (use .null) := fun _ _ _ _ => rfl

theorem bad_use_uninit : Bad P (use .uninit) := fun _ _ _ _ => rfl

theorem bad_get [Inhabited α] {a : PArr α} (i : ℕ) (h : Bad P (use a.ptr)) : Bad P (a.get i) := bad_bind_left h

theorem bad_loop {n : ℕ} {f : ℕ → Mem Unit} (hn : 0 < n) (h : Bad P (f 0)) : Bad P (loopU n f) := by
  induction n with
  | zero => exact absurd hn (lt_irrefl _)
  | succ n ih =>
    by_cases h0 : n = 0
    · subst h0
      exact h
    · exact bad_bind_left (ih (Nat.pos_of_ne_zero h0))

theorem bad_mono {m : Mem α} (h : Bad X m) (hX : X ≤ P) : Bad P m := fun hp hw R hl => by
  obtain ⟨F, rfl⟩ := Multiset.le_iff_exists_add.1 hX
  exact h hp hw (F + R) (by rw [hl, add_assoc])

theorem bad_attempt {m : Mem α} (h : Bad P m) : Bad P (attempt m) := fun hp hw R hl => by
  unfold attempt
  rw [h hp hw R hl]

end rules

/-- Binning a matrix that is not there. -/
theorem binCoupling_bad {w : Wsp} {X : Multiset ℕ} (h : WspAt w false X) (hf : w.fkp = false) (hb : 0 < w.bin.nBands)
    (hc : 0 < w.ncls) : Bad X (binCoupling w) := by
  have hw := h
  obtain ⟨s, pc, be, bi, pe, Xu, Xb, h1, h2, h3, h4, h5, hU, hB, hm, rfl⟩ := h
  obtain ⟨hU, rfl⟩ := hU
  unfold binCoupling
  refine bad_reads hw.self_mem (bad_reads hw.bin_self ?_)
  rw [hf]
  refine bad_bind_left (m := loopU _ _) (bad_loop hb ?_)
  obtain ⟨bs, n, X1, X2, X3, b1, b2, b3, b4, b5, rfl⟩ := hB
  obtain ⟨eo, es, e3, he, rfl⟩ := arrAt_iff.1 b3
  obtain ⟨wo, ws, e4, hw', rfl⟩ := arrAt_iff.1 b4
  obtain ⟨fo, fs, e5, hf', rfl⟩ := arrAt_iff.1 b5
  rw [e3, e4, e5, h3, hU]
  have r : Reads ({s} + ({pc} + ({be} + ({bi} + ({pe} + (0 + ({bs} + ({n} + (({eo} + (es : Multiset ℕ)) + (({wo} + (ws : Multiset ℕ)) +
      ({fo} + (fs : Multiset ℕ)))))))))))) (do
      let e ← PArr.get ⟨.to eo, es.map Ptr.to⟩ 0
      use e
      let wl ← PArr.get ⟨.to wo, ws.map Ptr.to⟩ 0
      use wl
      let f ← PArr.get ⟨.to fo, fs.map Ptr.to⟩ 0
      use f
      use (.to be)) :=
    triple_getB (he ▸ hb) (triple_useB (he ▸ hb) (triple_getB (hw' ▸ hb) (triple_useB (hw' ▸ hb)
      (triple_getB (hf' ▸ hb) (triple_useB (hf' ▸ hb) (triple_last (triple_use (triple_pure rfl))))))))
  have b := bad_reads (f := fun _ => loopU (w.ncls * (w.bin.ellMax + 1)) fun r => do
    let p ← (nullArr : PArr Ptr).get r
    use p) r (bad_loop (Nat.mul_pos hc (Nat.succ_pos _)) (bad_bind_left (bad_get 0 bad_use_null)))
  simpa only [mem_assoc] using b

theorem updateBinning_bad {w : Wsp} {X B : Multiset ℕ} {bin : Bins} (h : WspAt w false X) (hB : BinsAt bin B) (hf : w.fkp = false)
    (hb : 0 < bin.nBands) (hc : 0 < w.ncls) (hm : bin.ellMax = w.bin.ellMax) : Bad (X + B) (updateBinning w bin) := by
  unfold updateBinning
  refine bad_reads (hB.self_mem.mono (Multiset.le_add_left _ _)) (bad_reads (h.self_mem.mono (Multiset.le_add_right _ _))
    (bad_reads (h.bin_self.mono (Multiset.le_add_right _ _)) ?_))
  rw [if_neg (by simp [hm])]
  refine bad_bind (replaceBins_spec h hB hm) ?_
  rintro w' Y ⟨X', hw', e1, e2, e3, e4, rfl⟩
  exact bad_bind_left (bad_mono (binCoupling_bad hw' (e1.trans hf) (by omega) (by omega)) (Multiset.le_add_right _ _))

/-- A table of coefficients that does not exist is read. -/
theorem useXi_bad {x : PArr (PArr (PArr Ptr))} {o q : ℕ} {l : List (PArr Ptr)} {l' : List (PArr (PArr Ptr))} {ip l2 : ℕ} {P : Multiset ℕ}
    (hx : x = ⟨.to o, ⟨.to q, l⟩ :: l'⟩) (hip : l.length ≤ ip) (ho : o ∈ P) (hq : q ∈ P) : Bad P (useXi x ip l2) := by
  subst hx
  unfold useXi
  have h1 : Triple P (PArr.get (⟨.to o, ⟨.to q, l⟩ :: l'⟩ : PArr (PArr (PArr Ptr))) 0) (fun a Y => a = ⟨.to q, l⟩ ∧ Y = P) (fun _ => False) := by
    have : Take {o} P (P.erase o) := ⟨by rw [Multiset.singleton_add, Multiset.cons_erase ho]⟩
    exact triple_last (triple_get0 (triple_pure ⟨rfl, rfl⟩))
  refine bad_bind h1 ?_
  rintro _ Y ⟨rfl, rfl⟩
  have h2 : Triple Y (PArr.get (⟨.to q, l⟩ : PArr (PArr Ptr)) ip) (fun a Z => a = default ∧ Z = Y) (fun _ => False) := by
    unfold PArr.get
    refine Reads.bind (reads_use q hq) (triple_pure ⟨?_, rfl⟩)
    rw [List.getD_eq_getElem?_getD, List.getElem?_eq_none hip, Option.getD_none]
  refine bad_bind h2 ?_
  rintro _ Z ⟨rfl, rfl⟩
  exact bad_bind_left (bad_get l2 bad_use_uninit)

/-- The coupling matrix of a spin-0 field and a spin-2 field both with the flag for purification of E modes. -/
theorem computeCoupling_bad {a : WspArgs} {bin : Bins} {X : Multiset ℕ} (h : BinsAt bin X) (h1 : a.spin1 = 0) (h2 : a.spin2 ≠ 0)
    (hp1 : a.pe1 = 1) (hp2 : a.pe2 = 1) (ht : a.teb = false) (hm : a.lmaxFields = bin.ellMax) : Bad X (computeCoupling a bin) := by
  have hn : a.ncls = 2 := by simp [WspArgs.ncls, ht, h1, h2]
  unfold computeCoupling
  rw [if_neg (by simp [ht])]
  refine bad_reads h.self_mem ?_
  rw [if_neg (by omega)]
  refine bad_bind (wspNew_spec h a.ncls a.fkp) ?_
  rintro w Y ⟨Z, hw, e1, e2, e3, e4, rfl⟩
  have up : ∀ {m : Mem Unit}, Reads Z m → Reads (Z + X) m := fun r => r.mono (Multiset.le_add_right _ _)
  refine bad_reads (up hw.beam_mem) (bad_reads (up hw.pcl_mem) ?_)
  have hc := masterCoefficients_spec (a.calc w.lmax)
  refine bad_bind (Q := fun c V => ∃ C, (CalcAt c C ∧ Calc.Fits c (a.calc w.lmax)) ∧ V = C + (Z + X)) ?_ ?_
  · refine triple_congr (zero_add _).symm (triple_mono (triple_frame (Z + X) hc) ?_ ?_)
    · rintro c V ⟨C, hC, e⟩
      exact ⟨C, hC, e⟩
    · rintro V ⟨C, hC, -⟩
      exact hC
  · rintro c V ⟨C, ⟨hC, hF⟩, rfl⟩
    refine bad_bind_left (bad_loop (Nat.succ_pos _) (bad_bind_left ?_))
    obtain ⟨cs, clf, A, B, D, D', c1, c2, hA, hB, hD, hD', rfl⟩ := hC
    obtain ⟨g1, g2, g3, g4, g5, g6, g7⟩ := hF
    have hc1 : (a.calc w.lmax).c1 = a.spin2 := by simp [CalcArgs.c1, WspArgs.calc, h1]
    have hc2 : (a.calc w.lmax).c2 = 0 := by simp [CalcArgs.c2, WspArgs.calc, h1]
    have h0s : (a.calc w.lmax).has0s = true := by simp [CalcArgs.has0s, hc1, hc2, h2]
    have hnp : (a.calc w.lmax).npure0s = 2 := by simp [CalcArgs.npure0s, WspArgs.calc, hp1]
    have hnc : (a.calc w.lmax).npcl = 1 := rfl
    rw [g2, g4, g5, h0s, hnp, hnc] at hB
    obtain ⟨o, x, X1, ex, hx, rfl⟩ := arrAt_one hB
    obtain ⟨q, y1, y2, Y1, Y2, rfl, -, -, rfl⟩ := arrAt_two hx
    unfold applyRow
    rw [hn, c1]
    refine bad_reads (reads_use cs (by simp)) ?_
    refine bad_bind (Q := fun _ Y => Y = _) (triple_pure rfl) ?_
    rintro ⟨⟩ Y rfl
    refine bad_bind_left (bad_bind_left (useXi_bad ex ?_ (by simp) (by simp)))
    rw [hp1, hp2]
    simp

end Mem

/-! ## C78 -/

/-- C78: whatever objects a user creates, computes, reads, changes, writes and deletes, in whatever order, the library never follows
or releases a pointer that is not set or whose block has been released; errors reported by the library end the call, not the
session. Missing from the full claim: purification flags must belong to fields with spin, files must be consistent, and new
beams or bins are given only to workspaces with an unbinned matrix (or with `FKP` normalisation); see the next theorems. -/
theorem C78_no_undefined_behaviour_partial (ops : List Op) (hs : SafeFrom Sess.start emptyHeap ops) :
    ∃ s h, run Sess.start ops emptyHeap = .done s h := by
  obtain ⟨s, h, e, -⟩ := run_keeps emptyHeap_wf rfl inv_start hs
  exact ⟨s, h, e⟩

/-- C78 fails: after reading a workspace without its unbinned matrix, `update_beams` follows a null pointer. -/
theorem C78_update_beams_undefined (f : WspFile) (hg : f.Good) (hm : f.ellMax = f.lmax) (hf : f.fkp = false) (hb : 0 < f.nBands)
    (hc : 0 < f.ncls) : run Sess.start [.newWsp, .readWsp 0 f false, .updateBeams 0 true] emptyHeap = .bad := by
  refine (?_ : Bad 0 (run Sess.start [.newWsp, .readWsp 0 f false, .updateBeams 0 true])) emptyHeap emptyHeap_wf 0 rfl
  refine bad_bind (Q := fun s Y => s = ⟨[], [⟨none, false⟩], [], []⟩ ∧ Y = 0) (triple_pure ⟨rfl, rfl⟩) ?_
  rintro _ Y ⟨rfl, rfl⟩
  refine bad_bind (Q := fun s Y => ∃ w, s = ⟨[], [⟨some w, false⟩], [], []⟩ ∧ WspAt w false Y ∧ w.fkp = f.fkp ∧ w.bin.nBands = f.nBands ∧
    w.ncls = f.ncls) ?_ ?_
  · refine triple_bind (triple_pure (P := 0) (Q := fun _ Y => Y = 0) rfl) ?_
    rintro ⟨⟩ Y rfl
    refine triple_bind (triple_attempt (wspRead_spec f false hm)) ?_
    rintro r Y (⟨w, rfl, hw, e1, e2, e3, -⟩ | ⟨rfl, h⟩)
    · exact triple_pure ⟨w, rfl, hw, e1, e2, e3⟩
    · exact absurd hg h.2
  · rintro s Y ⟨w, rfl, hw, e1, e2, e3⟩
    refine bad_bind_left (m := step _ _) (bad_bind_left (m := attempt _) (bad_attempt ?_))
    unfold updateBeams
    refine bad_reads hw.self_mem ?_
    rw [if_pos rfl]
    exact bad_reads hw.beam_mem (binCoupling_bad hw (e1.trans hf) (by omega) (by omega))

/-- C78 fails: the same for `update_bins`, with any binning scheme with at least one band and the same `lmax`. -/
theorem C78_update_bins_undefined (f : WspFile) (hg : f.Good) (hm : f.ellMax = f.lmax) (hf : f.fkp = false)
    (hc : 0 < f.ncls) (n : ℕ) (hn : 0 < n) :
    run Sess.start [.newBins n f.lmax fun _ => true, .newWsp, .readWsp 0 f false, .updateBins 0 0] emptyHeap = .bad := by
  refine (?_ : Bad 0 (run Sess.start [.newBins n f.lmax fun _ => true, .newWsp, .readWsp 0 f false, .updateBins 0 0])) emptyHeap
    emptyHeap_wf 0 rfl
  refine bad_bind (Q := fun s Y => ∃ b, s = ⟨[some b], [], [], []⟩ ∧ BinsAt b Y ∧ b.nBands = n ∧ b.ellMax = f.lmax) ?_ ?_
  · refine triple_bind (triple_attempt (binsCreate_spec n f.lmax fun _ => true)) ?_
    rintro r Y (⟨b, rfl, hb, e1, e2, -⟩ | ⟨rfl, -, i, -, hi⟩)
    · exact triple_pure ⟨b, rfl, hb, e1, e2⟩
    · exact absurd hi (by simp)
  rintro _ B ⟨b, rfl, hb, e1, e2⟩
  refine bad_bind (Q := fun s Y => s = ⟨[some b], [⟨none, false⟩], [], []⟩ ∧ Y = B) (triple_pure ⟨rfl, rfl⟩) ?_
  rintro _ Y ⟨rfl, rfl⟩
  refine bad_bind (Q := fun s Z => ∃ w W, s = ⟨[some b], [⟨some w, false⟩], [], []⟩ ∧ WspAt w false W ∧ w.fkp = f.fkp ∧ w.ncls = f.ncls ∧
    w.lmax = f.lmax ∧ Z = W + Y) ?_ ?_
  · refine triple_bind (triple_pure (P := Y) (Q := fun _ Z => Z = Y) rfl) ?_
    rintro ⟨⟩ Z rfl
    refine triple_newE (triple_attempt (wspRead_spec f false hm)) (fun _ h => h.elim) ?_
    rintro r V (⟨w, rfl, hw, g1, g2, g3, g4, -⟩ | ⟨rfl, h⟩)
    · exact triple_pure ⟨w, V, rfl, hw, g1, g3, g4, rfl⟩
    · exact absurd hg h.2
  · rintro s Z ⟨w, W, rfl, hw, g1, g2, g3, rfl⟩
    refine bad_bind_left (m := step _ _) (bad_bind_left (m := attempt _) (bad_attempt ?_))
    exact updateBinning_bad hw hb (by rw [g1, hf]) (by omega) (by omega) (by rw [e2, ← g3]; obtain ⟨_, _, _, _, _, _, _, -, -, -, -, -, -, -, hm', -⟩ := hw; exact hm'.symm)

/-- C78 fails: fields given only by their mask keep the flags for purification whatever their spin, and the coupling matrix of such a
spin-0 field with a spin-2 field, both with the flag for E modes, reads coefficients that were not allocated. -/
theorem C78_purified_mask_undefined (n lmax : ℕ) (a : WspArgs) (h1 : a.spin1 = 0) (h2 : a.spin2 ≠ 0) (hp1 : a.pe1 = 1)
    (hp2 : a.pe2 = 1) (ht : a.teb = false) (hm : a.lmaxFields = lmax) :
    run Sess.start [.newBins n lmax fun _ => true, .newWsp, .compute 0 0 a true] emptyHeap = .bad := by
  refine (?_ : Bad 0 (run Sess.start [.newBins n lmax fun _ => true, .newWsp, .compute 0 0 a true])) emptyHeap emptyHeap_wf 0 rfl
  refine bad_bind (Q := fun s Y => ∃ b, s = ⟨[some b], [], [], []⟩ ∧ BinsAt b Y ∧ b.ellMax = lmax) ?_ ?_
  · refine triple_bind (triple_attempt (binsCreate_spec n lmax fun _ => true)) ?_
    rintro r Y (⟨b, rfl, hb, e1, e2, -⟩ | ⟨rfl, -, i, -, hi⟩)
    · exact triple_pure ⟨b, rfl, hb, e2⟩
    · exact absurd hi (by simp)
  rintro _ B ⟨b, rfl, hb, e2⟩
  refine bad_bind (Q := fun s Y => s = ⟨[some b], [⟨none, false⟩], [], []⟩ ∧ Y = B) (triple_pure ⟨rfl, rfl⟩) ?_
  rintro _ Y ⟨rfl, rfl⟩
  refine bad_bind_left (m := step _ _) ?_
  have hst : step ⟨[some b], [⟨none, false⟩], [], []⟩ (.compute 0 0 a true) =
      recompute ⟨[some b], [⟨none, false⟩], [], []⟩ 0 ⟨none, false⟩ true (computeCoupling a b) := by
    simp [step, computeStep, withObj, hm, e2]
  rw [hst]
  refine bad_bind (Q := fun _ Z => Z = Y) (triple_pure rfl) ?_
  rintro ⟨⟩ Z rfl
  exact bad_bind_left (m := attempt _) (bad_attempt (computeCoupling_bad hb h1 h2 hp1 hp2 ht (hm.trans e2.symm)))

/-! ## C79 -/

/-- C79: when all objects of a session are deleted, the allocated blocks are exactly those lost by failed constructions of bins,
failed reads and failed covariances, and by covariance workspaces. Missing from the full claim: nothing
should remain; see the next theorems. -/
theorem C79_memory_returned_partial (ops : List Op) (hs : SafeFrom Sess.start emptyHeap ops) (s : Sess) (h : Heap)
    (hr : run Sess.start ops emptyHeap = .done s h) (hd : s.Deleted) : h.live.card = lost s.log := by
  obtain ⟨s', h', e, -, B, W, C, L, hB, hW, hC, hX, hL⟩ := run_keeps emptyHeap_wf rfl inv_start hs
  rw [hr] at e
  injection e with e1 e2
  subst e1 e2
  obtain ⟨d1, d2, d3⟩ := hd
  have hB0 : B = 0 := hB.zero fun o ho Y hY => by rw [d1 o ho] at hY; exact hY
  have hW0 : W = 0 := hW.zero fun o ho Y hY => by unfold WObjAt at hY; rw [d2 o ho] at hY; exact hY
  have hC0 : C = 0 := hC.zero fun o ho Y hY => by rw [d3 o ho] at hY; exact hY
  have ho : outer s.covs = 0 := by
    unfold outer
    rw [List.sum_eq_zero]
    intro x hx
    obtain ⟨o, ho, rfl⟩ := List.mem_map.1 hx
    rw [d3 o ho]
    rfl
  have := hL
  rw [hX, hB0, hW0, hC0, zero_add, zero_add, zero_add]
  omega

/-- C79: binning schemes and workspaces give back all their memory: if no covariance workspace was computed or read, and no
construction of bins, no reading of a file and no covariance failed, nothing is allocated when all objects are deleted. -/
theorem C79_no_leak (ops : List Op) (hs : SafeFrom Sess.start emptyHeap ops) (s : Sess) (h : Heap)
    (hr : run Sess.start ops emptyHeap = .done s h) (hd : s.Deleted) (hl : s.log = []) : h.live = 0 := by
  have := C79_memory_returned_partial ops hs s h hr hd
  rw [hl] at this
  exact Multiset.card_eq_zero.1 this

namespace Mem

/-- `n` times: compute coupling coefficients, then release them. -/
def covRounds (lmax : ℕ) (spin0 toeplitz : Bool) (threads : ℕ) (work : ℕ → ℕ) : ℕ → List Op
  | 0 => []
  | n + 1 => .computeCov 0 lmax spin0 toeplitz threads work :: .delCov 0 :: covRounds lmax spin0 toeplitz threads work n

theorem covRounds_spec (lmax : ℕ) (spin0 toeplitz : Bool) (threads : ℕ) (work : ℕ → ℕ) (n : ℕ) (log : List Event) (X : Multiset ℕ) :
    Triple X (run ⟨[], [], [none], log⟩ (covRounds lmax spin0 toeplitz threads work n))
      (fun s Y => s.Deleted ∧ Y.card = X.card + n * (if spin0 then 3 else 9)) (fun _ => False) := by
  induction n generalizing log X with
  | zero => exact triple_pure ⟨⟨by simp, by simp, by simp⟩, by simp⟩
  | succ n ih =>
    refine triple_bind (Q1 := fun s Y => ∃ cw Z l, s = ⟨[], [], [some cw], log ++ [.covComputed spin0]⟩ ∧ CovAt cw Z ∧
      cw.spin0 = spin0 ∧ Y = {l} + (Z + X)) ?_ ?_
    · refine triple_bind (triple_pure (P := X) (Q := fun _ Z => Z = X) rfl) ?_
      rintro ⟨⟩ Z rfl
      refine triple_new (covInit_spec lmax spin0 toeplitz threads work) ?_
      rintro cw V ⟨Z', l, hZ', e1, -, rfl⟩
      exact triple_pure ⟨cw, Z', l, rfl, hZ', e1, by rw [add_assoc]⟩
    · rintro _ Y ⟨cw, Z, l, rfl, hZ, e, rfl⟩
      refine triple_bind (Q1 := fun s Y => s = ⟨[], [], [none], log ++ [.covComputed spin0]⟩ ∧
        Y.card = X.card + (if spin0 then 3 else 9)) ?_ ?_
      · refine triple_callEq Z ({l} + X) (by abel) (covFree_spec hZ) (fun _ h => h.elim) ?_
        rintro ⟨⟩ Y hY
        refine triple_pure ⟨rfl, ?_⟩
        rw [Multiset.card_add, Multiset.card_add, hY, Multiset.card_singleton, Cov.tables, e]
        cases spin0 <;> simp <;> omega
      · rintro _ Y ⟨rfl, hY⟩
        refine triple_mono (ih (log ++ [.covComputed spin0]) Y) ?_ (fun _ h => h)
        rintro s V ⟨hd, hV⟩
        refine ⟨hd, ?_⟩
        rw [hV, hY, Nat.succ_mul]
        omega

end Mem

/-- C79 fails: every covariance workspace that is computed and deleted loses nine blocks (three if only for spin 0), so the memory of a
process that computes many covariances grows without bound. -/
theorem C79_covariance_leaks (lmax : ℕ) (spin0 toeplitz : Bool) (threads : ℕ) (work : ℕ → ℕ) (n : ℕ) :
    ∃ s h, run Sess.start (.newCov :: covRounds lmax spin0 toeplitz threads work n) emptyHeap = .done s h ∧ s.Deleted ∧
      h.live.card = n * (if spin0 then 3 else 9) := by
  rcases covRounds_spec lmax spin0 toeplitz threads work n [] 0 emptyHeap emptyHeap_wf 0 rfl with
    ⟨s, h, X, e, ⟨hd, hX⟩, hl, -⟩ | ⟨h, X, e, hf, -⟩
  · refine ⟨s, h, e, hd, ?_⟩
    rw [hl, add_zero, hX]
    simp
  · exact hf.elim

/-- C79 fails: a failed construction of an `NmtBin` (some band has weights that do not add up to a positive number) loses all that
was allocated. -/
theorem C79_failed_bins_leak (n lmax : ℕ) (good : ℕ → Bool) (i : ℕ) (hi : i < n) (hg : good i = false) :
    ∃ s h, run Sess.start [.newBins n lmax good] emptyHeap = .done s h ∧ s.Deleted ∧ h.live.card = 5 + 3 * n := by
  rcases triple_attempt (binsCreate_spec n lmax good) emptyHeap emptyHeap_wf 0 rfl with ⟨r, h, X, e, hr, hl, -⟩ | ⟨h, X, e, hf, -⟩
  · rcases hr with ⟨b, rfl, -, -, -, hall⟩ | ⟨rfl, hc, -⟩
    · rw [hall i hi] at hg
      exact absurd hg (by simp)
    · refine ⟨⟨[none], [], [], [.binsFailed n]⟩, h, ?_, ⟨by simp, by simp, by simp⟩, by rw [hl, add_zero, hc]⟩
      change ((attempt (binsCreate n lmax good) emptyHeap).seq _).seq _ = _
      rw [e]
      rfl
  · exact hf.elim

/-! ## C11, with memory -/

namespace Mem

/-- States that a safe session can reach. -/
def Reachable (s : Sess) (h : Heap) : Prop := ∃ ops, SafeFrom Sess.start emptyHeap ops ∧ run Sess.start ops emptyHeap = .done s h

theorem Reachable.inv {s : Sess} {h : Heap} (hr : Reachable s h) : h.WF ∧ Inv s h.live := by
  obtain ⟨ops, hs, e⟩ := hr
  obtain ⟨s', h', e', hw, hi⟩ := run_keeps emptyHeap_wf rfl inv_start hs
  rw [e] at e'
  injection e' with e1 e2
  subst e1 e2
  exact ⟨hw, hi⟩

end Mem

/-- C11: if `update_bins` is refused because the new bins go up to another multipole, workspaces, bins and memory are as before. Missing
from the full claim: the same for `compute_coupling_matrix` and `read_from`; see the next theorems. -/
theorem C11_heap_update_bins_partial (s : Sess) (h : Heap) (hr : Reachable s h) (i j : ℕ) (w : Wsp) (u : Bool) (b : Bins)
    (hi : s.wsps[i]? = some ⟨some w, u⟩) (hj : s.bins[j]? = some (some b)) (hm : b.ellMax ≠ w.bin.ellMax) :
    ∃ h', step s (.updateBins i j) h = .done s h' ∧ h'.live = h.live := by
  obtain ⟨hw, hinv⟩ := hr.inv
  obtain ⟨Z, hZ, hle⟩ := inv_wsp hinv hi
  obtain ⟨D, hD, hle'⟩ := inv_bins hinv hj
  have t : Triple h.live (step s (.updateBins i j)) (fun s' Y => s' = s ∧ Y = h.live) (fun _ => False) := by
    simp only [step, withWsp, withObj, hi, hj]
    have e : Triple h.live (updateBinning w b) (fun _ _ => False) (fun Y => Y = h.live) := by
      unfold updateBinning
      refine Reads.bind (hD.self_mem.mono hle') (Reads.bind (hZ.self_mem.mono hle) (Reads.bind (hZ.bin_self.mono hle) ?_))
      rw [if_pos hm]
      exact triple_raise rfl
    refine triple_bind (triple_attempt e) ?_
    rintro r Y (⟨w, rfl, hw, -⟩ | ⟨rfl, rfl⟩)
    exact triple_pure ⟨rfl, rfl⟩
  rcases t h hw 0 (add_zero _).symm with ⟨s', h', Y, e, ⟨rfl, rfl⟩, hl, -⟩ | ⟨h', Y, e, hf, -⟩
  · exact ⟨h', e, by rw [hl, add_zero]⟩
  · exact hf.elim

/-- C11 fails: if `compute_coupling_matrix` refuses its arguments after the first checks (an unknown normalisation, say), the matrix
that the workspace had is gone. -/
theorem C11_heap_recompute_loses_matrix (s : Sess) (h : Heap) (hr : Reachable s h) (i j : ℕ) (w : Wsp) (u : Bool) (b : Bins)
    (hi : s.wsps[i]? = some ⟨some w, u⟩) (hj : s.bins[j]? = some (some b)) (a : WspArgs) (hm : a.lmaxFields = b.ellMax) :
    ∃ s' h', step s (.compute i j a false) h = .done s' h' ∧ s'.wsps[i]? = some ⟨none, u⟩ := by
  obtain ⟨hw, hinv⟩ := hr.inv
  obtain ⟨Z, hZ, hle⟩ := inv_wsp hinv hi
  have hlt : i < s.wsps.length := by
    by_contra hn
    rw [List.getElem?_eq_none (by omega)] at hi
    exact absurd hi (by simp)
  obtain ⟨F, eF⟩ := Multiset.le_iff_exists_add.1 hle
  have t : Triple h.live (step s (.compute i j a false)) (fun s' _ => s' = s.setWsp i none u) (fun _ => False) := by
    simp only [step, computeStep, withObj, hi, hj, hm, if_true, recompute]
    refine triple_callEq Z F eF (wspFree_spec hZ) (fun _ h => h.elim) ?_
    rintro ⟨⟩ Y rfl
    exact triple_pure rfl
  rcases t h hw 0 (add_zero _).symm with ⟨s', h', Y, e, rfl, -⟩ | ⟨h', Y, e, hf, -⟩
  · exact ⟨_, h', e, by simp [Sess.setWsp, hlt]⟩
  · exact hf.elim

/-- C11 fails: if `read_from` fails, the matrix that the workspace had is gone. -/
theorem C11_heap_read_loses_matrix (s : Sess) (h : Heap) (hr : Reachable s h) (i : ℕ) (w : Wsp) (u : Bool)
    (hi : s.wsps[i]? = some ⟨some w, u⟩) (f : WspFile) (hm : f.ellMax = f.lmax) (hf : ¬f.Good) (v : Bool) :
    ∃ s' h', step s (.readWsp i f v) h = .done s' h' ∧ s'.wsps[i]? = some ⟨none, u⟩ := by
  obtain ⟨hw, hinv⟩ := hr.inv
  obtain ⟨Z, hZ, hle⟩ := inv_wsp hinv hi
  have hlt : i < s.wsps.length := by
    by_contra hn
    rw [List.getElem?_eq_none (by omega)] at hi
    exact absurd hi (by simp)
  obtain ⟨F, eF⟩ := Multiset.le_iff_exists_add.1 hle
  have t : Triple h.live (step s (.readWsp i f v)) (fun s' _ => s'.wsps = (s.setWsp i none u).wsps) (fun _ => False) := by
    simp only [step, hi]
    refine triple_callEq Z F eF (wspFree_spec hZ) (fun _ h => h.elim) ?_
    rintro ⟨⟩ Y rfl
    refine triple_newE (P := 0 + F) (triple_attempt (wspRead_spec f v hm)) (fun _ h => h.elim) ?_
    rintro r Y (⟨w, rfl, -, -, -, -, -, hg⟩ | ⟨rfl, -⟩)
    · exact absurd hg hf
    · exact triple_pure rfl
  rcases t h hw 0 (add_zero _).symm with ⟨s', h', Y, e, hs, -⟩ | ⟨h', Y, e, hf, -⟩
  · exact ⟨_, h', e, by simp [hs, Sess.setWsp, hlt]⟩
  · exact hf.elim

end NaMaster
