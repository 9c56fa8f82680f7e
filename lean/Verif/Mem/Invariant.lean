import Verif.Mem.Session

/-!
# Every safe session keeps its objects apart
-/

namespace NaMaster

namespace Mem

/-- Blocks that are never released because of what happened. -/
def Event.lost : Event → ℕ
  | .binsFailed n => 5 + 3 * n
  | .readFailed n => n
  | .gaussFailed => 4
  | .covComputed spin0 => if spin0 then 3 else 9
  | .covRead spin0 => if spin0 then 2 else 8

/-- Blocks lost in a session. -/
def lost (log : List Event) : ℕ := (log.map Event.lost).sum

/-- What the user must see to. Purification flags belong to fields with spin; a file has one `lmax`; a workspace of which the
unbinned matrix was not read is not given new beams or bins, unless its normalisation is `FKP`. -/
def Op.Safe (s : Sess) : Op → Prop
  | .compute _ _ a _ => a.Valid
  | .readWsp _ f _ => f.ellMax = f.lmax
  | .updateBeams i _ => ∀ w, s.wsps[i]? = some ⟨some w, false⟩ → w.fkp = true
  | .updateBins i _ => ∀ w, s.wsps[i]? = some ⟨some w, false⟩ → w.fkp = true
  | _ => True

/-- Every operation of the session is safe when it is reached. -/
def SafeFrom : Sess → Heap → List Op → Prop
  | _, _, [] => True
  | s, h, op :: ops => op.Safe s ∧ ∀ s' h', step s op h = .done s' h' → SafeFrom s' h' ops

theorem triple_attempt {α : Type} {P : Multiset ℕ} {m : Mem α} {Q : α → Multiset ℕ → Prop} {E : Multiset ℕ → Prop}
    (t : Triple P m Q E) :
    Triple P (attempt m) (fun r Y => (∃ a, r = some a ∧ Q a Y) ∨ (r = none ∧ E Y)) (fun _ => False) := by
  intro h hw R hl
  rcases t h hw R hl with ⟨a, h', X, e, q, hl', hw'⟩ | ⟨h', X, e, q, hl', hw'⟩
  · exact Or.inl ⟨some a, h', X, by unfold attempt; rw [e], Or.inl ⟨a, rfl, q⟩, hl', hw'⟩
  · exact Or.inl ⟨none, h', X, by unfold attempt; rw [e], Or.inr ⟨rfl, q⟩, hl', hw'⟩

/-! ## Lists of objects -/

/-- The objects of a list have these blocks. -/
def Own {α : Type} (B : α → Multiset ℕ → Prop) (l : List α) (X : Multiset ℕ) : Prop :=
  ∃ Xs : List (Multiset ℕ), List.Forall₂ B l Xs ∧ X = Xs.sum

section
variable {α : Type} {B : α → Multiset ℕ → Prop}

theorem Own.nil : Own B [] 0 := ⟨[], List.Forall₂.nil, rfl⟩

theorem Own.add {l : List α} {X Y : Multiset ℕ} {a : α} (h : Own B l X) (ha : B a Y) : Own B (l ++ [a]) (Y + X) := by
  obtain ⟨Xs, hF, rfl⟩ := h
  refine ⟨Xs ++ [Y], List.rel_append hF (List.Forall₂.cons ha List.Forall₂.nil), ?_⟩
  simp [add_comm]

/-- One object is taken and replaced. -/
theorem Own.take {l : List α} {X : Multiset ℕ} {i : ℕ} {a : α} (h : Own B l X) (hi : l[i]? = some a) :
    ∃ Z F, B a Z ∧ X = Z + F ∧ ∀ a' Y, B a' Y → Own B (l.set i a') (Y + F) := by
  obtain ⟨Xs, hF, rfl⟩ := h
  induction hF generalizing i with
  | nil => simp at hi
  | @cons b Y l Xs hb hF ih =>
    cases i with
    | zero =>
      obtain rfl : b = a := by simpa using hi
      refine ⟨Y, Xs.sum, hb, by simp, fun a' Y' h' => ⟨Y' :: Xs, List.Forall₂.cons h' hF, by simp⟩⟩
    | succ i =>
      obtain ⟨Z, F, hZ, e, hr⟩ := ih (i := i) (by simpa using hi)
      refine ⟨Z, Y + F, hZ, by rw [List.sum_cons, e]; abel, fun a' Y' h' => ?_⟩
      obtain ⟨Ys, hY, eY⟩ := hr a' Y' h'
      exact ⟨Y :: Ys, List.Forall₂.cons hb hY, by rw [List.sum_cons, ← eY]; abel⟩

theorem Own.le {l : List α} {X : Multiset ℕ} {i : ℕ} {a : α} (h : Own B l X) (hi : l[i]? = some a) : ∃ Z, B a Z ∧ Z ≤ X := by
  obtain ⟨Z, F, hZ, rfl, -⟩ := h.take hi
  exact ⟨Z, hZ, Multiset.le_add_right _ _⟩

/-- If no object has blocks, there are none. -/
theorem Own.zero {l : List α} {X : Multiset ℕ} (h : Own B l X) (h0 : ∀ a ∈ l, ∀ Y, B a Y → Y = 0) : X = 0 := by
  obtain ⟨Xs, hF, rfl⟩ := h
  induction hF with
  | nil => rfl
  | cons hb _ ih =>
    rw [List.sum_cons, h0 _ (by simp) _ hb, ih fun a ha => h0 a (by simp [ha])]
    rfl

end

/-- Blocks of an object that may have been deleted. -/
def OptOwn {α : Type} (B : α → Multiset ℕ → Prop) (o : Option α) (X : Multiset ℕ) : Prop :=
  match o with
  | none => X = 0
  | some a => B a X

/-- Blocks of an `NmtWorkspace`. -/
def WObjAt (o : WObj) (X : Multiset ℕ) : Prop := OptOwn (fun w => WspAt w o.hasUnbinned) o.wsp X

/-- Outer arrays of the tables of one covariance workspace. -/
def covTables (o : Option Cov) : ℕ := match o with
  | none => 0
  | some cw => cw.tables

/-- Outer arrays of the tables of all covariance workspaces. -/
def outer (l : List (Option Cov)) : ℕ := (l.map covTables).sum

theorem outer_set {l : List (Option Cov)} {i : ℕ} {o : Option Cov} (hi : l[i]? = some o) (o' : Option Cov) :
    outer (l.set i o') + covTables o = outer l + covTables o' := by
  unfold outer
  induction l generalizing i with
  | nil => simp at hi
  | cons a l ih =>
    cases i with
    | zero =>
      obtain rfl : a = o := by simpa using hi
      simp only [List.set_cons_zero, List.map_cons, List.sum_cons]
      omega
    | succ i =>
      have := ih (i := i) (by simpa using hi)
      simp only [List.set_cons_succ, List.map_cons, List.sum_cons]
      omega

theorem lost_append (l : List Event) (e : Event) : lost (l ++ [e]) = lost l + e.lost := by
  simp [lost]

/-- The allocated blocks are those of the objects, all different, and those lost. -/
def Inv (s : Sess) (X : Multiset ℕ) : Prop :=
  ∃ B W C L, Own (OptOwn BinsAt) s.bins B ∧ Own WObjAt s.wsps W ∧ Own (OptOwn CovAt) s.covs C ∧ X = B + (W + (C + L)) ∧
    L.card + outer s.covs = lost s.log

theorem inv_start : Inv Sess.start 0 := ⟨0, 0, 0, 0, Own.nil, Own.nil, Own.nil, rfl, rfl⟩

/-- The effect of an operation. -/
def Keeps (X : Multiset ℕ) (m : Mem Sess) : Prop := Triple X m (fun s' Y => Inv s' Y) (fun _ => False)

section
variable {s : Sess} {X : Multiset ℕ}

theorem keeps_pure (h : Inv s X) : Keeps X (pure s) := triple_pure h

/-- Any object of a list, whatever the outcome of looking it up. -/
theorem keeps_withObj {α : Type} {l : List (Option α)} {i : ℕ} {k : α → Mem Sess} (h : Inv s X)
    (hk : ∀ a, l[i]? = some (some a) → Keeps X (k a)) : Keeps X (withObj l i s k) := by
  unfold withObj
  split
  · next a e => exact hk a e
  · exact keeps_pure h

theorem keeps_withWsp {i : ℕ} {k : Wsp → Bool → Mem Sess} (h : Inv s X)
    (hk : ∀ w u, s.wsps[i]? = some ⟨some w, u⟩ → Keeps X (k w u)) : Keeps X (withWsp s i k) := by
  unfold withWsp
  split
  · next w u e => exact hk w u e
  · exact keeps_pure h

/-- Operations that leave all blocks as they are, maybe raising. -/
theorem keeps_reads {m : Mem Unit} {Z : Multiset ℕ} (h : Inv s X) (hm : ReadsE Z m) (hZ : Z ≤ X) :
    Keeps X (do let _ ← attempt m; pure s) := by
  obtain ⟨R, rfl⟩ := Multiset.le_iff_exists_add.1 hZ
  refine triple_callEq Z R rfl (triple_attempt hm) (fun _ h => h.elim) ?_
  rintro r Y (⟨a, rfl, rfl⟩ | ⟨rfl, rfl⟩) <;> exact triple_pure h

theorem keeps_reads' {m : Mem Unit} {Z : Multiset ℕ} (h : Inv s X) (hm : Reads Z m) (hZ : Z ≤ X) :
    Keeps X (do m; pure s) := Reads.bind (hm.mono hZ) (triple_pure h)

theorem Reads.toE {P : Multiset ℕ} {m : Mem Unit} (h : Reads P m) : ReadsE P m := triple_mono h (fun _ _ h => h) (fun _ h => h.elim)

theorem inv_bins (h : Inv s X) {i : ℕ} {b : Bins} (hi : s.bins[i]? = some (some b)) : ∃ Z, BinsAt b Z ∧ Z ≤ X := by
  obtain ⟨B, W, C, L, hB, hW, hC, rfl, hL⟩ := h
  obtain ⟨Z, hZ, hle⟩ := hB.le hi
  exact ⟨Z, hZ, hle.trans (Multiset.le_add_right _ _)⟩

theorem inv_wsp (h : Inv s X) {i : ℕ} {w : Wsp} {u : Bool} (hi : s.wsps[i]? = some ⟨some w, u⟩) : ∃ Z, WspAt w u Z ∧ Z ≤ X := by
  obtain ⟨B, W, C, L, hB, hW, hC, rfl, hL⟩ := h
  obtain ⟨Z, hZ, hle⟩ := hW.le hi
  exact ⟨Z, hZ, hle.trans ((Multiset.le_add_right _ _).trans (Multiset.le_add_left _ _))⟩

theorem inv_cov (h : Inv s X) {i : ℕ} {cw : Cov} (hi : s.covs[i]? = some (some cw)) : ∃ Z, CovAt cw Z ∧ Z ≤ X := by
  obtain ⟨B, W, C, L, hB, hW, hC, rfl, hL⟩ := h
  obtain ⟨Z, hZ, hle⟩ := hC.le hi
  exact ⟨Z, hZ, hle.trans ((Multiset.le_add_right _ _).trans ((Multiset.le_add_left _ _).trans (Multiset.le_add_left _ _)))⟩

theorem keeps_withUnbinned {i : ℕ} {m : Wsp → Mem Unit} (h : Inv s X) (hm : ∀ w Z, WspAt w true Z → ReadsE Z (m w)) :
    Keeps X (withUnbinned s i m) := by
  refine keeps_withWsp h fun w u hi => ?_
  cases u
  · exact keeps_pure h
  · obtain ⟨Z, hZ, hle⟩ := inv_wsp h hi
    exact keeps_reads h (hm w Z hZ) hle

theorem freeWsp_spec {o : Option Wsp} {u : Bool} {Z : Multiset ℕ} (h : OptOwn (fun w => WspAt w u) o Z) :
    Triple Z (freeOpt wspFree o) (fun _ Y => Y = 0) (fun _ => False) := by
  cases o with
  | none => exact triple_pure h
  | some w => exact wspFree_spec h

theorem freeCov_spec {o : Option Cov} {Z : Multiset ℕ} (h : OptOwn CovAt o Z) :
    Triple Z (freeOpt covFree o) (fun _ Y => Y.card = covTables o) (fun _ => False) := by
  cases o with
  | none => obtain rfl : Z = 0 := h; exact triple_pure rfl
  | some w => exact covFree_spec h

/-- Computing a new matrix. -/
theorem keeps_recompute {i : ℕ} {o : WObj} {ok : Bool} {m : Mem Wsp} (h : Inv s X) (hi : s.wsps[i]? = some o) {b : Bins}
    {j : ℕ} (hj : s.bins[j]? = some (some b))
    (hm : ∀ D, BinsAt b D → Triple D m (fun w Y => ∃ Z, WspAt w true Z ∧ Y = Z + D) (fun Y => Y = D)) :
    Keeps X (recompute s i o ok m) := by
  obtain ⟨B, W, C, L, hB, hW, hC, rfl, hL⟩ := h
  obtain ⟨Z, F, hZ, rfl, hset⟩ := hW.take hi
  obtain ⟨D, G, hD, rfl, -⟩ := hB.take hj
  unfold recompute
  refine triple_callEq Z (D + (G + (F + (C + L)))) (by abel) (freeWsp_spec hZ) (fun _ h => h.elim) ?_
  rintro ⟨⟩ Y rfl
  rw [zero_add]
  have none_case : Inv (s.setWsp i none o.hasUnbinned) (D + (G + (F + (C + L)))) := by
    refine ⟨D + G, 0 + F, C, L, hB, hset ⟨none, o.hasUnbinned⟩ 0 rfl, hC, by abel, hL⟩
  refine triple_pick (fun _ => ?_) (fun _ => triple_pure none_case)
  refine triple_callEq D (G + (F + (C + L))) rfl (triple_attempt (hm D hD)) (fun _ h => h.elim) ?_
  rintro r Y (⟨w, rfl, Z', hZ', rfl⟩ | ⟨rfl, rfl⟩)
  · refine triple_pure ⟨D + G, Z' + F, C, L, hB, hset ⟨some w, true⟩ Z' hZ', hC, by abel, hL⟩
  · exact triple_pure none_case

theorem keeps_compute {i j lmaxFields : ℕ} {ok : Bool} {m : Bins → Mem Wsp} (h : Inv s X)
    (hm : ∀ b D, BinsAt b D → lmaxFields = b.ellMax → Triple D (m b) (fun w Y => ∃ Z, WspAt w true Z ∧ Y = Z + D) (fun Y => Y = D)) :
    Keeps X (computeStep s i j lmaxFields ok m) := by
  refine keeps_withObj h fun b hj => ?_
  split
  · next o hi =>
    split
    · next e => exact keeps_recompute h hi hj fun D hD => hm b D hD e
    · exact keeps_pure h
  · exact keeps_pure h

end

/-- Every safe operation keeps the invariant, with no undefined behaviour. -/
theorem step_keeps {s : Sess} {X : Multiset ℕ} (h : Inv s X) {op : Op} (hs : op.Safe s) : Keeps X (step s op) := by
  cases op with
  | newBins n lmax good =>
    obtain ⟨B, W, C, L, hB, hW, hC, rfl, hL⟩ := h
    refine triple_newE (triple_attempt (binsCreate_spec n lmax good)) (fun _ h => h.elim) ?_
    rintro r Y (⟨b, rfl, hb, -⟩ | ⟨rfl, hc, -⟩)
    · exact triple_pure ⟨Y + B, W, C, L, hB.add (a := some b) hb, hW, hC, by abel, hL⟩
    · refine triple_pure ⟨0 + B, W, C, L + Y, hB.add (a := none) rfl, hW, hC, by abel, ?_⟩
      have := hL
      rw [Multiset.card_add, hc]
      change _ = lost (s.log ++ [.binsFailed n])
      rw [lost_append, ← this]
      change _ + outer s.covs = _ + (5 + 3 * n)
      omega
  | useBins i ncl =>
    refine keeps_withObj h fun b hi => ?_
    obtain ⟨Z, hZ, hle⟩ := inv_bins h hi
    exact keeps_reads' h (binCl_reads hZ ncl) hle
  | delBins i =>
    refine keeps_withObj h fun b hi => ?_
    obtain ⟨B, W, C, L, hB, hW, hC, rfl, hL⟩ := h
    obtain ⟨Z, F, hZ, rfl, hset⟩ := hB.take hi
    refine triple_callEq Z (F + (W + (C + L))) (by abel) (binsFree_spec hZ) (fun _ h => h.elim) ?_
    rintro ⟨⟩ Y rfl
    exact triple_pure ⟨0 + F, W, C, L, hset none 0 rfl, hW, hC, by abel, hL⟩
  | newWsp =>
    obtain ⟨B, W, C, L, hB, hW, hC, rfl, hL⟩ := h
    exact triple_pure ⟨B, 0 + W, C, L, hB, hW.add (a := (⟨none, false⟩ : WObj)) (Y := 0) (show WObjAt ⟨none, false⟩ 0 from rfl), hC, by abel, hL⟩
  | compute i j a ok =>
    refine keeps_compute h fun b D hD _ => triple_mono (computeCoupling_spec hs hD) ?_ (fun _ h => h)
    rintro w Y ⟨Z, hZ, -, -, -, rfl⟩
    exact ⟨Z, hZ, rfl⟩
  | computeAniso i j a ok =>
    refine keeps_compute h fun b D hD e => triple_mono (computeAniso_spec hD e.le) ?_ (fun _ h => h)
    rintro w Y ⟨Z, hZ, -, -, -, rfl⟩
    exact ⟨Z, hZ, rfl⟩
  | readWsp i f u =>
    simp only [step]
    split
    · next o hi =>
      obtain ⟨B, W, C, L, hB, hW, hC, rfl, hL⟩ := h
      obtain ⟨Z, F, hZ, rfl, hset⟩ := hW.take hi
      refine triple_callEq Z (B + (F + (C + L))) (by abel) (freeWsp_spec hZ) (fun _ h => h.elim) ?_
      rintro ⟨⟩ Y rfl
      rw [zero_add]
      refine triple_newE (triple_attempt (wspRead_spec f u hs)) (fun _ h => h.elim) ?_
      rintro r Y (⟨w, rfl, hw, -⟩ | ⟨rfl, hY, -⟩)
      · exact triple_pure ⟨B, Y + F, C, L, hB, hset ⟨some w, u⟩ Y hw, hC, by abel, hL⟩
      · refine triple_pure ⟨B, 0 + F, C, L + Y, hB, hset ⟨none, o.hasUnbinned⟩ 0 rfl, hC, by abel, ?_⟩
        change _ = lost (s.log ++ [.readFailed (f.lost u)])
        rw [lost_append, ← hL, Multiset.card_add, hY]
        change _ + outer s.covs = _ + f.lost u
        omega
    · exact keeps_pure h
  | updateBeams i long =>
    refine keeps_withWsp h fun w u hi => ?_
    obtain ⟨Z, hZ, hle⟩ := inv_wsp h hi
    have hu : u = true ∨ w.fkp = true := by
      cases u
      · exact Or.inr (hs w hi)
      · exact Or.inl rfl
    exact keeps_reads h (updateBeams_spec hZ hu long) hle
  | updateBins i j =>
    refine keeps_withWsp h fun w u hi => keeps_withObj h fun b hj => ?_
    have hu : u = true ∨ w.fkp = true := by
      cases u
      · exact Or.inr (hs w hi)
      · exact Or.inl rfl
    obtain ⟨B, W, C, L, hB, hW, hC, rfl, hL⟩ := h
    obtain ⟨Z, F, hZ, rfl, hset⟩ := hW.take hi
    obtain ⟨D, G, hD, rfl, -⟩ := hB.take hj
    refine triple_callEq (Z + D) (G + (F + (C + L))) (by abel) (triple_attempt (updateBinning_spec hZ hu hD)) (fun _ h => h.elim) ?_
    rintro r Y (⟨w', rfl, Z', hZ', -, -, -, -, rfl⟩ | ⟨rfl, rfl⟩)
    · exact triple_pure ⟨D + G, Z' + F, C, L, hB, hset ⟨some w', u⟩ Z' hZ', hC, by abel, hL⟩
    · exact triple_pure ⟨D + G, Z + F, C, L, hB, hW, hC, by abel, hL⟩
  | updateMatrix i n => exact keeps_withUnbinned h fun w Z hZ => updateMatrix_spec hZ n
  | couple i => exact keeps_withUnbinned h fun w Z hZ => (coupleCl_reads hZ).toE
  | windows i => exact keeps_withUnbinned h fun w Z hZ => (bandpowerWindows_reads hZ).toE
  | matrix i => exact keeps_withUnbinned h fun w Z hZ => (getMcm_reads hZ).toE
  | writeWsp i fail => exact keeps_withUnbinned h fun w Z hZ => wspWrite_spec hZ fail
  | decouple i =>
    refine keeps_withWsp h fun w u hi => ?_
    obtain ⟨Z, hZ, hle⟩ := inv_wsp h hi
    exact keeps_reads' h (decoupleCl_reads hZ) hle
  | delWsp i =>
    refine keeps_withWsp h fun w u hi => ?_
    obtain ⟨B, W, C, L, hB, hW, hC, rfl, hL⟩ := h
    obtain ⟨Z, F, hZ, rfl, hset⟩ := hW.take hi
    refine triple_callEq Z (B + (F + (C + L))) (by abel) (wspFree_spec hZ) (fun _ h => h.elim) ?_
    rintro ⟨⟩ Y rfl
    exact triple_pure ⟨B, 0 + F, C, L, hB, hset ⟨none, u⟩ 0 rfl, hC, by abel, hL⟩
  | newCov =>
    obtain ⟨B, W, C, L, hB, hW, hC, rfl, hL⟩ := h
    refine triple_pure ⟨B, W, 0 + C, L, hB, hW, hC.add (a := none) rfl, by abel, ?_⟩
    rw [← hL]
    simp [outer, covTables]
  | computeCov i lmax spin0 toeplitz threads work =>
    simp only [step]
    split
    · next o hi =>
      obtain ⟨B, W, C, L, hB, hW, hC, rfl, hL⟩ := h
      obtain ⟨Z, F, hZ, rfl, hset⟩ := hC.take hi
      refine triple_callEq Z (B + (W + (F + L))) (by abel) (freeCov_spec hZ) (fun _ h => h.elim) ?_
      rintro ⟨⟩ Y hY
      refine triple_new (covInit_spec lmax spin0 toeplitz threads work) ?_
      rintro cw V ⟨Z', l, hZ', e1, -, rfl⟩
      refine triple_pure ⟨B, W, Z' + F, L + Y + {l}, hB, hW, hset (some cw) Z' hZ', by abel, ?_⟩
      have h1 := hL
      have h2 := outer_set hi (some cw)
      change _ = lost (s.log ++ [.covComputed spin0])
      rw [lost_append, ← h1, Multiset.card_add, Multiset.card_add, Multiset.card_singleton, hY]
      change _ + outer (s.covs.set i (some cw)) = _ + (if spin0 then 3 else 9)
      have h3 : covTables (some cw) = if spin0 then 2 else 8 := by rw [← e1]; rfl
      rw [h3] at h2
      cases spin0 <;> simp at h2 ⊢ <;> omega
    · exact keeps_pure h
  | readCov i f force =>
    simp only [step]
    split
    · next o hi =>
      obtain ⟨B, W, C, L, hB, hW, hC, rfl, hL⟩ := h
      obtain ⟨Z, F, hZ, rfl, hset⟩ := hC.take hi
      refine triple_callEq Z (B + (W + (F + L))) (by abel) (freeCov_spec hZ) (fun _ h => h.elim) ?_
      rintro ⟨⟩ Y hY
      refine triple_newE (triple_attempt (covRead_spec f force)) (fun _ h => h.elim) ?_
      rintro r V (⟨cw, rfl, hcw, -, -⟩ | ⟨rfl, hV, -⟩)
      · refine triple_pure ⟨B, W, V + F, L + Y, hB, hW, hset (some cw) V hcw, by abel, ?_⟩
        have h1 := hL
        have h2 := outer_set hi (some cw)
        change _ = lost (s.log ++ [.covRead cw.spin0])
        rw [lost_append, ← h1, Multiset.card_add, hY]
        change _ + outer (s.covs.set i (some cw)) = _ + (if cw.spin0 then 2 else 8)
        have h3 : covTables (some cw) = if cw.spin0 then 2 else 8 := rfl
        rw [h3] at h2
        omega
      · refine triple_pure ⟨B, W, 0 + F, L + Y + V, hB, hW, hset none 0 rfl, by abel, ?_⟩
        have h2 := outer_set hi none
        change _ = lost (s.log ++ [.readFailed f.lost])
        rw [lost_append, ← hL, Multiset.card_add, Multiset.card_add, hY, hV]
        change _ + outer (s.covs.set i none) = _ + f.lost
        have h4 : covTables none = 0 := rfl
        omega
    · exact keeps_pure h
  | writeCov i fail =>
    refine keeps_withObj h fun cw hi => ?_
    obtain ⟨Z, hZ, hle⟩ := inv_cov h hi
    exact keeps_reads h (covWrite_spec hZ fail) hle
  | gauss c i j spins ncls coupled =>
    refine keeps_withObj h fun cw hc => keeps_withWsp h fun wa ua hi => keeps_withWsp h fun wb ub hj => ?_
    split
    · exact keeps_pure h
    · obtain ⟨Zc, hZc, hlec⟩ := inv_cov h hc
      obtain ⟨Za, hZa, hlea⟩ := inv_wsp h hi
      obtain ⟨Zb, hZb, hleb⟩ := inv_wsp h hj
      refine triple_bind (triple_attempt (gaussCov_spec hZc hZa hZb hlec hlea hleb spins ncls coupled)) ?_
      rintro r Y (⟨⟨⟩, rfl, rfl⟩ | ⟨rfl, Z, h4, rfl⟩)
      · exact triple_pure h
      · obtain ⟨B, W, C, L, hB, hW, hC, rfl, hL⟩ := h
        refine triple_pure ⟨B, W, C, L + Z, hB, hW, hC, by abel, ?_⟩
        have h1 := hL
        change _ = lost (s.log ++ [.gaussFailed])
        rw [lost_append, ← h1, Multiset.card_add, h4]
        change _ + outer s.covs = _ + 4
        omega
  | delCov i =>
    refine keeps_withObj h fun cw hi => ?_
    obtain ⟨B, W, C, L, hB, hW, hC, rfl, hL⟩ := h
    obtain ⟨Z, F, hZ, rfl, hset⟩ := hC.take hi
    refine triple_callEq Z (B + (W + (F + L))) (by abel) (covFree_spec hZ) (fun _ h => h.elim) ?_
    rintro ⟨⟩ Y hY
    refine triple_pure ⟨B, W, 0 + F, L + Y, hB, hW, hset none 0 rfl, by abel, ?_⟩
    have h2 := outer_set hi none
    rw [← hL, Multiset.card_add, hY]
    change _ + outer (s.covs.set i none) = _
    have h3 : covTables (some cw) = cw.tables := rfl
    have h4 : covTables none = 0 := rfl
    omega

/-- A safe session ends, and the invariant holds then. -/
theorem run_keeps {ops : List Op} {s : Sess} {h : Heap} (hw : h.WF) {X : Multiset ℕ} (hX : h.live = X) (hi : Inv s X)
    (hs : SafeFrom s h ops) : ∃ s' h', run s ops h = .done s' h' ∧ h'.WF ∧ Inv s' h'.live := by
  induction ops generalizing s h X with
  | nil => exact ⟨s, h, rfl, hw, hX ▸ hi⟩
  | cons op ops ih =>
    obtain ⟨h1, h2⟩ := hs
    rcases step_keeps hi h1 h hw 0 (by rw [add_zero]; exact hX) with ⟨s', h', Y, e, hY, hl, hw'⟩ | ⟨h', Y, e, hf, -⟩
    · obtain ⟨s'', h'', e2, hw2, hi2⟩ := ih hw' (by rw [hl, add_zero]) hY (h2 s' h' e)
      refine ⟨s'', h'', ?_, hw2, hi2⟩
      change (step s op h).seq (fun s' => run s' ops) = _
      rw [e]
      exact e2
    · exact hf.elim

end Mem

end NaMaster
