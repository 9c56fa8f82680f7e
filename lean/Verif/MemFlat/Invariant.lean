import Verif.MemFlat.Session

/-!
# Every safe flat-sky session keeps its objects apart
-/

namespace NaMaster

namespace MemF

open Mem

/-- Blocks that a failed call never releases. -/
def FEvent.lost : FEvent → ℕ
  | .readWspFailed f => f.lost.getD 0
  | .readCovFailed f => f.lost.getD 0
  | .coupledFailed f1 f2 => (coupledLost f1 f2).getD 0
  | .biasFailed f1 f2 => ((biasLost f1 f2).map (· + 2)).getD 0
  | .fullFailed f1 f2 b none => (fullLost f1 f2 b).getD 0
  | .fullFailed f1 f2 b (some w) => (fullWspLost f1 f2 b w).getD 0
  | .gaussFailed _ _ _ => 4

/-- Blocks lost in a session. -/
def flost (log : List FEvent) : ℕ := (log.map FEvent.lost).sum

/-- What the user must see to: the numbers of rows in a file are as its header says, and a workspace is used with fields that have the
number of spectra it was made for. -/
def FOp.Safe (s : FSess) : FOp → Prop
  | .readWsp _ f => f.Fits
  | .full a b _ (some i) => ∀ f1 f2 w, s.flds[a]? = some (some f1) → s.flds[b]? = some (some f2) → s.wsps[i]? = some (some w) →
      w.ncls = f1.nmaps * f2.nmaps
  | _ => True

/-- Every operation of the session is safe when it is reached. -/
def FSafeFrom : FSess → Heap → List FOp → Prop
  | _, _, [] => True
  | s, h, op :: ops => op.Safe s ∧ ∀ s' h', fstep s op h = .done s' h' → FSafeFrom s' h' ops

/-- The allocated blocks are those of the objects, all different, and those lost. -/
def FInv (s : FSess) (X : Multiset ℕ) : Prop :=
  ∃ B F W C L, Own (OptOwn FBinsAt) s.bins B ∧ Own (OptOwn FldAt) s.flds F ∧ Own (OptOwn FWspAt) s.wsps W ∧ Own (OptOwn FCovAt) s.covs C ∧
    X = B + (F + (W + (C + L))) ∧ L.card = flost s.log

theorem finv_start : FInv FSess.start 0 := ⟨0, 0, 0, 0, 0, Own.nil, Own.nil, Own.nil, Own.nil, rfl, rfl⟩

/-- The effect of an operation. -/
def FKeeps (X : Multiset ℕ) (m : Mem FSess) : Prop := Triple X m (fun s' Y => FInv s' Y) (fun _ => False)

theorem flost_append (l : List FEvent) (e : FEvent) : flost (l ++ [e]) = flost l + e.lost := by
  simp [flost]

section
variable {s : FSess} {X : Multiset ℕ}

theorem fkeeps_pure (h : FInv s X) : FKeeps X (pure s) := triple_pure h

theorem fkeeps_with {α : Type} {l : List (Option α)} {i : ℕ} {k : α → Mem FSess} (h : FInv s X)
    (hk : ∀ a, l[i]? = some (some a) → FKeeps X (k a)) : FKeeps X (withF l i s k) := by
  unfold withF
  split
  · next a e => exact hk a e
  · exact fkeeps_pure h

theorem fkeeps_slot {α : Type} {l : List (Option α)} {i : ℕ} {k : Option α → Mem FSess} (h : FInv s X)
    (hk : ∀ o, l[i]? = some o → FKeeps X (k o)) : FKeeps X (withSlot l i s k) := by
  unfold withSlot
  split
  · next o e => exact hk o e
  · exact fkeeps_pure h

theorem inv_fbins (h : FInv s X) {i : ℕ} {b : FBins} (hi : s.bins[i]? = some (some b)) : HasBins X b := by
  obtain ⟨B, F, W, C, L, hB, hF, hW, hC, rfl, hL⟩ := h
  obtain ⟨Z, hZ, hle⟩ := hB.le hi
  exact FBinsAt.has hZ (hle.trans le1)

theorem inv_fld (h : FInv s X) {i : ℕ} {f : FFld} (hi : s.flds[i]? = some (some f)) : HasFld X f := by
  obtain ⟨B, F, W, C, L, hB, hF, hW, hC, rfl, hL⟩ := h
  obtain ⟨Z, hZ, hle⟩ := hF.le hi
  exact FldAt.has hZ (leR (hle.trans le1))

theorem inv_fwsp (h : FInv s X) {i : ℕ} {w : FWsp} (hi : s.wsps[i]? = some (some w)) : HasWsp X w := by
  obtain ⟨B, F, W, C, L, hB, hF, hW, hC, rfl, hL⟩ := h
  obtain ⟨Z, hZ, hle⟩ := hW.le hi
  exact FWspAt.has hZ (leR (leR (hle.trans le1)))

theorem inv_fcov (h : FInv s X) {i : ℕ} {cw : FCov} (hi : s.covs[i]? = some (some cw)) : HasCov X cw := by
  obtain ⟨B, F, W, C, L, hB, hF, hW, hC, rfl, hL⟩ := h
  obtain ⟨Z, hZ, hle⟩ := hC.le hi
  exact FCovAt.has hZ (leR (leR (leR (hle.trans le1))))

theorem fkeeps_reads {m : Mem Unit} (h : FInv s X) (hm : Reads X m) : FKeeps X (do m; pure s) := Reads.bind hm (triple_pure h)

theorem fkeeps_readsE {m : Mem Unit} (h : FInv s X) (hm : ReadsE X m) : FKeeps X (do let _ ← attempt m; pure s) := by
  refine triple_bind (triple_attempt hm) ?_
  rintro r Y (⟨a, rfl, rfl⟩ | ⟨rfl, rfl⟩) <;> exact triple_pure h

/-- A call that fails loses what it should. -/
theorem fkeeps_ends {m : Mem Unit} {k : Option ℕ} {e : FEvent} (h : FInv s X) (hm : Ends X m k) (he : ∀ n, k = some n → e.lost = n) :
    FKeeps X (callF s m e) := by
  refine triple_bind (triple_attempt hm) ?_
  rintro r Y (⟨a, rfl, -, rfl⟩ | ⟨rfl, n, Z, rfl, hZ, rfl⟩)
  · exact triple_pure h
  · obtain ⟨B, F, W, C, L, hB, hF, hW, hC, rfl, hL⟩ := h
    refine triple_pure ⟨B, F, W, C, L + Z, hB, hF, hW, hC, by abel, ?_⟩
    change _ = flost (s.log ++ [e])
    rw [flost_append, Multiset.card_add, hL, hZ, he n rfl]

/-- What an object contained is released. -/
theorem freeOpt_frees {α : Type} {B : α → Multiset ℕ → Prop} {f : α → Mem Unit} (hf : ∀ a Z, B a Z → Frees Z (f a)) {o : Option α}
    {Z : Multiset ℕ} (h : OptOwn B o Z) : Triple Z (freeOpt f o) (fun _ Y => Y = 0) (fun _ => False) := by
  cases o with
  | none => exact triple_pure h
  | some a => exact hf a Z h

theorem fkeeps_fullCall {a b j : ℕ} {w : Option FWsp} (h : FInv s X) (hw : ∀ w', w = some w' → HasWsp X w')
    (hn : ∀ f1 f2 w', s.flds[a]? = some (some f1) → s.flds[b]? = some (some f2) → w = some w' → w'.ncls = f1.nmaps * f2.nmaps) :
    FKeeps X (fullCall s a b j w) := by
  refine fkeeps_with h fun f1 h1 => fkeeps_with h fun f2 h2 => fkeeps_with h fun bin hb => ?_
  split
  · cases w with
    | none => exact fkeeps_ends h (fullPy_ends (inv_fld h h1) (inv_fld h h2) (inv_fbins h hb)) fun n e => by simp [FEvent.lost, e]
    | some w =>
      exact fkeeps_ends h (fullPy_wsp_ends (inv_fld h h1) (inv_fld h h2) (inv_fbins h hb) (hw w rfl) (hn f1 f2 w h1 h2 rfl))
        fun n e => by simp [FEvent.lost, e]
  · exact fkeeps_pure h

end

/-- Every safe operation keeps the invariant, with no undefined behaviour. -/
theorem fstep_keeps {s : FSess} {X : Multiset ℕ} (h : FInv s X) {op : FOp} (hs : op.Safe s) : FKeeps X (fstep s op) := by
  cases op with
  | newBins n =>
    obtain ⟨B, F, W, C, L, hB, hF, hW, hC, rfl, hL⟩ := h
    refine triple_new (fbinsCreate_spec n) ?_
    rintro b Y ⟨hb, -⟩
    exact triple_pure ⟨Y + B, F, W, C, L, hB.add (a := some b) hb, hF, hW, hC, by abel, hL⟩
  | useBins i ncl unbin => exact fkeeps_with h fun b hi => fkeeps_reads h (binPy_reads (inv_fbins h hi) ncl unbin)
  | delBins i =>
    refine fkeeps_with h fun b hi => ?_
    obtain ⟨B, F, W, C, L, hB, hF, hW, hC, rfl, hL⟩ := h
    obtain ⟨Z, R, hZ, rfl, hset⟩ := hB.take hi
    refine triple_callEq Z (R + (F + (W + (C + L)))) (by abel) (fbinsFree_frees hZ) (fun _ h => h.elim) ?_
    rintro ⟨⟩ Y rfl
    exact triple_pure ⟨0 + R, F, W, C, L, hset none 0 rfl, hF, hW, hC, by abel, hL⟩
  | newField a templates =>
    simp only [fstep]
    split
    · exact fkeeps_pure h
    · next hv =>
      have hv' : a.Valid := fun hp => by
        by_contra hs
        exact hv ⟨hp, hs⟩
      split
      · split
        · exact fkeeps_pure h
        · obtain ⟨B, F, W, C, L, hB, hF, hW, hC, rfl, hL⟩ := h
          refine triple_new (fldEmpty_spec hv') ?_
          rintro f Y ⟨hf, -⟩
          exact triple_pure ⟨B, Y + F, W, C, L, hB, hF.add (a := some f) hf, hW, hC, by abel, hL⟩
      · obtain ⟨B, F, W, C, L, hB, hF, hW, hC, rfl, hL⟩ := h
        refine triple_new (fldNew_spec hv' templates) ?_
        rintro f Y ⟨hf, -⟩
        exact triple_pure ⟨B, Y + F, W, C, L, hB, hF.add (a := some f) hf, hW, hC, by abel, hL⟩
  | useField i => exact fkeeps_with h fun f hi => fkeeps_reads h (fldGet_reads (inv_fld h hi))
  | delField i =>
    refine fkeeps_with h fun f hi => ?_
    obtain ⟨B, F, W, C, L, hB, hF, hW, hC, rfl, hL⟩ := h
    obtain ⟨Z, R, hZ, rfl, hset⟩ := hF.take hi
    refine triple_callEq Z (B + (R + (W + (C + L)))) (by abel) (fldFree_frees hZ) (fun _ h => h.elim) ?_
    rintro ⟨⟩ Y rfl
    exact triple_pure ⟨B, 0 + R, W, C, L, hB, hset none 0 rfl, hW, hC, by abel, hL⟩
  | newWsp =>
    obtain ⟨B, F, W, C, L, hB, hF, hW, hC, rfl, hL⟩ := h
    exact triple_pure ⟨B, F, 0 + W, C, L, hB, hF, hW.add (a := none) rfl, hC, by abel, hL⟩
  | compWsp i a b j teb =>
    refine fkeeps_with h fun f1 h1 => fkeeps_with h fun f2 h2 => fkeeps_with h fun bin hj => fkeeps_slot h fun o hi => ?_
    have hinv := h
    obtain ⟨B, F, W, C, L, hB, hF, hW, hC, rfl, hL⟩ := h
    obtain ⟨Z, R, hZ, rfl, hset⟩ := hW.take hi
    refine triple_callEq Z (B + (F + (R + (C + L)))) (by abel) (freeOpt_frees (f := fwspFree) (fun _ _ h => fwspFree_frees h) hZ) (fun _ h => False.elim h) ?_
    rintro ⟨⟩ Y rfl
    rw [zero_add]
    have h0 : FInv { s with wsps := s.wsps.set i none } (B + (F + (R + (C + L)))) :=
      ⟨B, F, 0 + R, C, L, hB, hF, hset none 0 rfl, hC, by abel, hL⟩
    refine triple_bind (triple_attempt (fwspCompute_spec (inv_fld h0 h1) (inv_fld h0 h2) (inv_fbins h0 hj) teb)) ?_
    rintro r Y (⟨w, rfl, -, Z', hw, -, -, -, rfl⟩ | ⟨rfl, -, rfl⟩)
    · exact triple_pure ⟨B, F, Z' + R, C, L, hB, hF, hset (some w) Z' hw, hC, by abel, hL⟩
    · exact triple_pure h0
  | readWsp i f =>
    refine fkeeps_slot h fun o hi => ?_
    obtain ⟨B, F, W, C, L, hB, hF, hW, hC, rfl, hL⟩ := h
    obtain ⟨Z, R, hZ, rfl, hset⟩ := hW.take hi
    refine triple_callEq Z (B + (F + (R + (C + L)))) (by abel) (freeOpt_frees (f := fwspFree) (fun _ _ h => fwspFree_frees h) hZ) (fun _ h => False.elim h) ?_
    rintro ⟨⟩ Y rfl
    rw [zero_add]
    refine triple_newE (triple_attempt (fwspRead_spec f hs)) (fun _ h => h.elim) ?_
    rintro r Y (⟨w, rfl, -, hw, -⟩ | ⟨rfl, hY⟩)
    · exact triple_pure ⟨B, F, Y + R, C, L, hB, hF, hset (some w) Y hw, hC, by abel, hL⟩
    · refine triple_pure ⟨B, F, 0 + R, C, L + Y, hB, hF, hset none 0 rfl, hC, by abel, ?_⟩
      change _ = flost (s.log ++ [.readWspFailed f])
      rw [flost_append, Multiset.card_add, hL, FEvent.lost, hY, Option.getD_some]
  | writeWsp i fail => exact fkeeps_with h fun w hi => fkeeps_readsE h (fwspWrite_spec (inv_fwsp h hi) fail)
  | couple i => exact fkeeps_with h fun w hi => fkeeps_reads h (couplePy_reads (inv_fwsp h hi))
  | decouple i => exact fkeeps_with h fun w hi => fkeeps_reads h (decouplePy_reads (inv_fwsp h hi))
  | delWsp i =>
    refine fkeeps_with h fun w hi => ?_
    obtain ⟨B, F, W, C, L, hB, hF, hW, hC, rfl, hL⟩ := h
    obtain ⟨Z, R, hZ, rfl, hset⟩ := hW.take hi
    refine triple_callEq Z (B + (F + (R + (C + L)))) (by abel) (fwspFree_frees hZ) (fun _ h => h.elim) ?_
    rintro ⟨⟩ Y rfl
    exact triple_pure ⟨B, F, 0 + R, C, L, hB, hF, hset none 0 rfl, hC, by abel, hL⟩
  | newCov =>
    obtain ⟨B, F, W, C, L, hB, hF, hW, hC, rfl, hL⟩ := h
    exact triple_pure ⟨B, F, W, 0 + C, L, hB, hF, hW, hC.add (a := none) rfl, by abel, hL⟩
  | compCov i a1 a2 b1 b2 ja jb =>
    refine fkeeps_with h fun fa1 h1 => fkeeps_with h fun fa2 h2 => fkeeps_with h fun fb1 h3 => fkeeps_with h fun fb2 h4 =>
      fkeeps_with h fun ba h5 => fkeeps_with h fun bb h6 => fkeeps_slot h fun o hi => ?_
    split
    · obtain ⟨B, F, W, C, L, hB, hF, hW, hC, rfl, hL⟩ := h
      obtain ⟨Z, R, hZ, rfl, hset⟩ := hC.take hi
      refine triple_callEq Z (B + (F + (W + (R + L)))) (by abel) (freeOpt_frees (f := fcovFree) (fun _ _ h => fcovFree_frees h) hZ) (fun _ h => False.elim h) ?_
      rintro ⟨⟩ Y rfl
      rw [zero_add]
      have h0 : FInv { s with covs := s.covs.set i none } (B + (F + (W + (R + L)))) :=
        ⟨B, F, W, 0 + R, L, hB, hF, hW, hset none 0 rfl, by abel, hL⟩
      refine triple_bind (triple_attempt (fcovInit_spec (inv_fld h0 h1) (inv_fld h0 h2) (inv_fld h0 h3) (inv_fld h0 h4)
        (inv_fbins h0 h5) (inv_fbins h0 h6))) ?_
      rintro r Y (⟨cw, rfl, -, Z', hc, -, rfl⟩ | ⟨rfl, -, rfl⟩)
      · exact triple_pure ⟨B, F, W, Z' + R, L, hB, hF, hW, hset (some cw) Z' hc, by abel, hL⟩
      · exact triple_pure h0
    · exact fkeeps_pure h
  | readCov i f =>
    refine fkeeps_slot h fun o hi => ?_
    obtain ⟨B, F, W, C, L, hB, hF, hW, hC, rfl, hL⟩ := h
    obtain ⟨Z, R, hZ, rfl, hset⟩ := hC.take hi
    refine triple_callEq Z (B + (F + (W + (R + L)))) (by abel) (freeOpt_frees (f := fcovFree) (fun _ _ h => fcovFree_frees h) hZ) (fun _ h => False.elim h) ?_
    rintro ⟨⟩ Y rfl
    rw [zero_add]
    refine triple_newE (triple_attempt (fcovRead_spec f)) (fun _ h => h.elim) ?_
    rintro r Y (⟨cw, rfl, -, hc, -⟩ | ⟨rfl, hY⟩)
    · exact triple_pure ⟨B, F, W, Y + R, L, hB, hF, hW, hset (some cw) Y hc, by abel, hL⟩
    · refine triple_pure ⟨B, F, W, 0 + R, L + Y, hB, hF, hW, hset none 0 rfl, by abel, ?_⟩
      change _ = flost (s.log ++ [.readCovFailed f])
      rw [flost_append, Multiset.card_add, hL, FEvent.lost, hY, Option.getD_some]
  | writeCov i fail => exact fkeeps_with h fun w hi => fkeeps_readsE h (fcovWrite_spec (inv_fcov h hi) fail)
  | gauss c i j sa1 sa2 sb1 sb2 =>
    refine fkeeps_with h fun cw hc => fkeeps_with h fun wa hi => fkeeps_with h fun wb hj => ?_
    split
    · refine fkeeps_ends h (gaussPy_ends (inv_fcov h hc) (inv_fwsp h hi) (inv_fwsp h hj) _ _ _ _) fun n e => ?_
      unfold gaussLost at e
      split at e
      · simp at e
      · exact Option.some.inj e
    · exact fkeeps_pure h
  | delCov i =>
    refine fkeeps_with h fun w hi => ?_
    obtain ⟨B, F, W, C, L, hB, hF, hW, hC, rfl, hL⟩ := h
    obtain ⟨Z, R, hZ, rfl, hset⟩ := hC.take hi
    refine triple_callEq Z (B + (F + (W + (R + L)))) (by abel) (fcovFree_frees hZ) (fun _ h => h.elim) ?_
    rintro ⟨⟩ Y rfl
    exact triple_pure ⟨B, F, W, 0 + R, L, hB, hF, hW, hset none 0 rfl, by abel, hL⟩
  | coupled a b j =>
    refine fkeeps_with h fun f1 h1 => fkeeps_with h fun f2 h2 => fkeeps_with h fun bin hb => ?_
    split
    · exact fkeeps_ends h (coupledPy_ends (inv_fld h h1) (inv_fld h h2) (inv_fbins h hb)) fun n e => by simp [FEvent.lost, e]
    · exact fkeeps_pure h
  | bias a b j =>
    refine fkeeps_with h fun f1 h1 => fkeeps_with h fun f2 h2 => fkeeps_with h fun bin hb => ?_
    exact fkeeps_ends h (deprojPy_ends (inv_fld h h1) (inv_fld h h2) (inv_fbins h hb)) fun n e => by simp only [FEvent.lost, e]; rfl
  | full a b j w =>
    cases w with
    | none => exact fkeeps_fullCall h (fun _ e => by simp at e) fun _ _ _ _ _ e => by simp at e
    | some i =>
      refine fkeeps_slot h fun o hi => fkeeps_fullCall h ?_ ?_
      · rintro w rfl
        exact inv_fwsp h hi
      · rintro f1 f2 w e1 e2 rfl
        exact hs f1 f2 w e1 e2 hi

/-- A safe session ends, and the invariant holds then. -/
theorem frun_keeps {ops : List FOp} {s : FSess} {h : Heap} (hw : h.WF) {X : Multiset ℕ} (hX : h.live = X) (hi : FInv s X)
    (hs : FSafeFrom s h ops) : ∃ s' h', frun s ops h = .done s' h' ∧ h'.WF ∧ FInv s' h'.live := by
  induction ops generalizing s h X with
  | nil => exact ⟨s, h, rfl, hw, hX ▸ hi⟩
  | cons op ops ih =>
    obtain ⟨h1, h2⟩ := hs
    rcases fstep_keeps hi h1 h hw 0 (by rw [add_zero]; exact hX) with ⟨s', h', Y, e, hY, hl, hw'⟩ | ⟨h', Y, e, hf, -⟩
    · obtain ⟨s'', h'', e2, hw2, hi2⟩ := ih hw' (by rw [hl, add_zero]) hY (h2 s' h' e)
      refine ⟨s'', h'', ?_, hw2, hi2⟩
      change (fstep s op h).seq (fun s' => frun s' ops) = _
      rw [e]
      exact e2
    · exact hf.elim

end MemF

end NaMaster
