import Verif.Files.Lemmas3
import Mathlib.LinearAlgebra.Matrix.Diagonal

/-!
# Properties C13-C16: workspace files
-/

set_option linter.unusedSectionVars false

namespace NaMaster

open BinSpec FileSpec WspSpec Finset

variable {K : Type*} [Field K] [LinearOrder K] [IsStrictOrderedRing K]

/-- A factorisation that satisfies the assumption `Factor.Correct`. -/
def trivialFactor (K : Type*) [Zero K] : Factor K :=
  ⟨fun _ M => M, fun _ _ _ => 0, fun n lu _ => tab2 n n lu⟩

theorem trivialFactor_correct : (trivialFactor K).Correct := by
  intro n M lu p hM hlu _
  have : tab2 n n lu = tab2 n n M := tab2_congr (fun i j hi hj => hlu i j hi hj)
  unfold trivialFactor
  simp only
  rw [this, ← hM]

theorem exampleBins_accepted : Accepted exampleBins := ⟨exampleEntries, exampleBins_ok⟩

theorem exampleBins_noRepeats : NoRepeats exampleBins := by simp [NoRepeats, exampleBins]

/-! ## C13 -/

/-- C13, workspaces with MASTER normalisation whose bands do not share multipoles: whatever object the file
is read into, the result cannot be told apart from the original by any sequence of calls, and writing it
again produces the same file. Missing from the full property: FKP normalisation and schemes with
repeated multipoles, for which it is false (`C13_fkp_loses_scale`, `C14_same_iff`). -/
theorem C13_round_trip_partial (F : Factor K) (hF : F.Correct) (L : LinAlg K) (c : Config K) (x : Inputs K)
    (hB : Accepted x.bins) (hnr : NoRepeats x.bins) (hnorm : c.normType = 0)
    (hsm : (c.ncls * x.bins.nBands - 1) * (c.ncls * x.bins.nBands) < 2 ^ 31) (j : Junk K (Bins K)) (p : Obj K) :
    ∃ f, (Obj.writeTo ⟨some (build c x), true⟩).bind (writeWorkspace F) = .ok f ∧
      (p.readFrom (readWorkspace F j f true) true).2 = .ok .unit ∧
      Same L ⟨some (build c x), true⟩ (p.readFrom (readWorkspace F j f true) true).1 ∧
      (p.readFrom (readWorkspace F j f true) true).1.writeTo.bind (writeWorkspace F) = .ok f := by
  obtain ⟨B', hs, hA, hwr, hrd⟩ := read_written F hF c x hB hnr hsm j true
  refine ⟨_, hwr, ?_, ?_, ?_⟩
  · rw [hrd]; rfl
  · rw [hrd]
    apply alike_same
    refine ⟨rfl, Or.inr ⟨_, _, rfl, rfl, ⟨⟨rfl, rfl, rfl, rfl, rfl, rfl, ?_, rfl, rfl, rfl, hs⟩, rfl⟩⟩⟩
    intro h
    exact absurd hnorm h
  · rw [hrd]
    simp only [Obj.readFrom, Obj.writeTo, Obj.checkUnbinned, if_true, Outcome.bind, build, buildWsp]
    unfold writeWorkspace
    simp only [hs.nBands]
    rw [if_neg (by omega)]
    have hb : binsHdu B' = binsHdu x.bins := by
      unfold binsHdu
      rw [binRows_same hs hnr, hs.nBands, hs.ellMax]
    simp only [workspaceHdus, infoHdu, mcmHdu, permHdu, hb, hs.nBands]

example : ∃ (c : Config ℚ) (x : Inputs ℚ), Accepted x.bins ∧ NoRepeats x.bins ∧ c.normType = 0 ∧
    (c.ncls * x.bins.nBands - 1) * (c.ncls * x.bins.nBands) < 2 ^ 31 ∧ (trivialFactor ℚ).Correct :=
  ⟨exampleConfig, exampleInputs, exampleBins_accepted, exampleBins_noRepeats, rfl,
    by norm_num [exampleConfig, exampleInputs, exampleBins, Bins.nBands], trivialFactor_correct⟩

/-- The object with another value of the scale `w2`. -/
def setW2 (k : K) (o : Obj K) : Obj K := { o with wsp := o.wsp.map (fun w => { w with w2 := k }) }

theorem step_setW2 (L : LinAlg K) (k : K) (o : Obj K) (op : Op K) (hop : ¬ IsUpdate op) :
    (o.step L op).2 = ((setW2 k o).step L op).2 ∧
      (((setW2 k o).step L op).1 = (o.step L op).1 ∨ ((setW2 k o).step L op).1 = setW2 k (o.step L op).1) := by
  cases op with
  | updateBeams b1 b2 => exact absurd trivial hop
  | updateBins B => exact absurd trivial hop
  | updateMatrix m => exact absurd trivial hop
  | compute a =>
    simp only [Obj.step, Obj.compute]
    cases a.early with
    | some e => exact ⟨rfl, Or.inr rfl⟩
    | none =>
      cases a.late with
      | ok w => exact ⟨rfl, Or.inl rfl⟩
      | raises e => exact ⟨rfl, Or.inl rfl⟩
      | crash => exact ⟨rfl, Or.inl rfl⟩
  | read r u =>
    simp only [Obj.step, Obj.readFrom]
    cases r with
    | ok w => exact ⟨rfl, Or.inl rfl⟩
    | raises e => exact ⟨rfl, Or.inl rfl⟩
    | crash => exact ⟨rfl, Or.inl rfl⟩
  | couple cl =>
    refine ⟨?_, Or.inr rfl⟩
    rcases o with ⟨_ | w, u⟩ <;> cases u <;> rfl
  | decouple cl b n =>
    refine ⟨?_, Or.inr rfl⟩
    rcases o with ⟨_ | w, u⟩ <;> cases u <;> rfl
  | windows =>
    refine ⟨?_, Or.inr rfl⟩
    rcases o with ⟨_ | w, u⟩ <;> cases u <;> rfl
  | getMatrix =>
    refine ⟨?_, Or.inr rfl⟩
    rcases o with ⟨_ | w, u⟩ <;> cases u <;> rfl
  | write =>
    refine ⟨?_, Or.inr rfl⟩
    rcases o with ⟨_ | w, u⟩
    · rfl
    · simp only [Obj.step, Obj.writeTo, setW2, Option.map_some, Obj.checkUnbinned]
      cases u
      · rfl
      · simp only [if_true, Outcome.bind]
        cases w.unbinned <;> rfl

theorem replies_setW2 (L : LinAlg K) (k : K) (o : Obj K) (ops : List (Op K)) (hops : ∀ op ∈ ops, ¬ IsUpdate op) :
    Obj.replies L o ops = Obj.replies L (setW2 k o) ops := by
  induction ops generalizing o with
  | nil => rfl
  | cons op ops ih =>
    have h := step_setW2 L k o op (hops op List.mem_cons_self)
    have hrest : ∀ op' ∈ ops, ¬ IsUpdate op' := fun op' h' => hops op' (List.mem_cons_of_mem _ h')
    simp only [Obj.replies]
    rw [h.1]
    rcases h.2 with h2 | h2
    · rw [h2]
    · rw [h2, ← ih _ hrest]

/-- C13, any normalisation, later sequences without calls replacing beams, bandpowers or coupling matrix.
Missing: sequences with such calls, for which it is false with FKP normalisation. -/
theorem C13_fkp_without_updates_partial (F : Factor K) (hF : F.Correct) (L : LinAlg K) (c : Config K)
    (x : Inputs K) (hB : Accepted x.bins) (hnr : NoRepeats x.bins)
    (hsm : (c.ncls * x.bins.nBands - 1) * (c.ncls * x.bins.nBands) < 2 ^ 31) (j : Junk K (Bins K)) (p : Obj K)
    (ops : List (Op K)) (hops : ∀ op ∈ ops, ¬ IsUpdate op) :
    ∃ f, (Obj.writeTo ⟨some (build c x), true⟩).bind (writeWorkspace F) = .ok f ∧
      Obj.replies L ⟨some (build c x), true⟩ ops =
        Obj.replies L (p.readFrom (readWorkspace F j f true) true).1 ops := by
  obtain ⟨B', hs, hA, hwr, hrd⟩ := read_written F hF c x hB hnr hsm j true
  refine ⟨_, hwr, ?_⟩
  rw [hrd]
  have h1 : Same L ⟨some (build c x), true⟩ ⟨some { build c x with bin := B' }, true⟩ := by
    apply alike_same
    exact ⟨rfl, Or.inr ⟨_, _, rfl, rfl, ⟨⟨rfl, rfl, rfl, rfl, rfl, rfl, fun _ => rfl, rfl, rfl, rfl, hs⟩, rfl⟩⟩⟩
  rw [h1 ops, replies_setW2 L j.w2 _ ops hops]
  rfl

/-- C13 for files read without the coupling matrix: decoupling still gives the same reply, for any input.
(The calls that need the matrix raise, C12.) -/
theorem C13_read_without_matrix (F : Factor K) (hF : F.Correct) (L : LinAlg K) (c : Config K) (x : Inputs K)
    (hB : Accepted x.bins) (hnr : NoRepeats x.bins)
    (hsm : (c.ncls * x.bins.nBands - 1) * (c.ncls * x.bins.nBands) < 2 ^ 31) (j : Junk K (Bins K)) (p : Obj K)
    (cl : Arr2 K) (bias noise : Option (Arr2 K)) :
    ∃ f, (Obj.writeTo ⟨some (build c x), true⟩).bind (writeWorkspace F) = .ok f ∧
      (p.readFrom (readWorkspace F j f false) false).2 = .ok .unit ∧
      Obj.decoupleCell L ⟨some (build c x), true⟩ cl bias noise =
        Obj.decoupleCell L (p.readFrom (readWorkspace F j f false) false).1 cl bias noise := by
  obtain ⟨B', hs, hA, hwr, hrd⟩ := read_written F hF c x hB hnr hsm j false
  refine ⟨_, hwr, by rw [hrd]; rfl, ?_⟩
  have h1 : Same L ⟨some (build c x), true⟩ ⟨some { build c x with bin := B' }, true⟩ := by
    apply alike_same
    exact ⟨rfl, Or.inr ⟨_, _, rfl, rfl, ⟨⟨rfl, rfl, rfl, rfl, rfl, rfl, fun _ => rfl, rfl, rfl, rfl, hs⟩, rfl⟩⟩⟩
  have h2 := h1 [.decouple cl bias noise]
  simp only [Obj.replies, Obj.step, List.cons.injEq, and_true] at h2
  have inj : ∀ a b : Outcome (Arr2 K), a.arr = b.arr → a = b := by
    intro a b hab
    cases a <;> cases b <;> simp [Outcome.arr] at hab ⊢ <;> exact hab
  rw [hrd]
  exact inj _ _ h2

/-- The binned matrix with FKP normalisation is a multiple of the identity. -/
theorem fkp_matrix (ncls : ℕ) (nt : ℤ) (hnt : nt ≠ 0) (w2 : K) (beam : ℕ → K) (B : Bins K) (U : ℕ → ℕ → K)
    (i j : ℕ) (hi : i < ncls * B.nBands) (hj : j < ncls * B.nBands) :
    binMatrix ncls nt w2 beam B U i j = if i = j then w2 else 0 := by
  have hn : 0 < ncls := by
    rcases Nat.eq_zero_or_pos ncls with h | h
    · subst h; omega
    · exact h
  have key : ∀ k, k < ncls * B.nBands → k = ncls * (k / ncls) + k % ncls ∧ k / ncls < B.nBands ∧ k % ncls < ncls := by
    intro k hk
    exact ⟨(Nat.div_add_mod k ncls).symm, Nat.div_lt_of_lt_mul hk, Nat.mod_lt _ hn⟩
  obtain ⟨h1, h2, h3⟩ := key i hi
  obtain ⟨h4, h5, h6⟩ := key j hj
  conv_lhs => rw [h1, h4]
  rw [binMatrix_apply ncls nt w2 beam B U h3 h6 h2 h5]
  unfold binnedElement
  rw [if_neg hnt, ← h1, ← h4]

theorem fkp_solve (L : LinAlg K) (hL : L.Correct) (n : ℕ) (M : ℕ → ℕ → K) (w2 : K) (hw : w2 ≠ 0)
    (hM : ∀ i j, i < n → j < n → M i j = if i = j then w2 else 0) (y : ℕ → K) (i : ℕ) (hi : i < n) :
    w2 * L.solve n M y i = y i := by
  have hreg : Regular n M := by
    unfold Regular
    have : toMat n M = Matrix.diagonal (fun _ => w2) := by
      ext a b
      unfold toMat
      rw [hM a b a.2 b.2, Matrix.diagonal_apply]
      by_cases hab : a = b
      · simp [hab]
      · rw [if_neg hab, if_neg]; intro h; exact hab (Fin.ext h)
    rw [this, Matrix.det_diagonal]
    simp only [Finset.prod_const]
    exact (IsUnit.mk0 _ hw).pow _
  have h := hL.solve_spec n M y hreg i hi
  rw [← h, Finset.sum_eq_single i]
  · rw [hM i i hi hi, if_pos rfl]
  · intro k hk hki
    rw [hM i k hi (Finset.mem_range.1 hk), if_neg (fun h => hki h.symm), zero_mul]
  · intro h'; exact absurd (Finset.mem_range.2 hi) h'

/-- C13 is false with FKP normalisation: the scale is not stored. For every such workspace there are memory
contents for which, after reading the file back, setting the beams again makes decoupling return other
numbers than the original workspace treated in the same way. -/
theorem C13_fkp_loses_scale (F : Factor K) (hF : F.Correct) (L : LinAlg K) (hL : L.Correct) (c : Config K)
    (x : Inputs K) (hB : Accepted x.bins) (hnr : NoRepeats x.bins) (hnorm : c.normType ≠ 0) (hw : c.w2 ≠ 0)
    (hpos : 0 < c.ncls)
    (hsm : (c.ncls * x.bins.nBands - 1) * (c.ncls * x.bins.nBands) < 2 ^ 31) :
    ∃ (j : Junk K (Bins K)) (f : FitsFile K),
      (Obj.writeTo ⟨some (build c x), true⟩).bind (writeWorkspace F) = .ok f ∧
      ¬ Same L ⟨some (build c x), true⟩ (Obj.bare.readFrom (readWorkspace F j f true) true).1 := by
  obtain ⟨B', hs, hA, hwr, hrd⟩ := read_written F hF c x hB hnr hsm
    ⟨fun _ => 0, fun _ => 0, 2 * c.w2, .crash, .crash⟩ true
  refine ⟨⟨fun _ => 0, fun _ => 0, 2 * c.w2, .crash, .crash⟩, _, hwr, ?_⟩
  rw [hrd]
  intro hsame
  obtain ⟨hnb, hf, hsum⟩ := accepted_facts hB
  set b : List K := List.replicate (c.lmaxFields + 1) 1 with hb
  set cl : Arr2 K := ⟨c.ncls, x.bins.ellMax + 1, fun _ l => unbinCls x.bins (fun _ => 1) l⟩ with hcl
  have h := hsame [.updateBeams (some b) (some b), .decouple cl none none]
  have step : ∀ w : Wsp K, w.lmaxFields = c.lmaxFields → w.normType = c.normType → w.unbinned = (build c x).unbinned →
      w.ncls = c.ncls → w.lmax = x.bins.ellMax → SameScheme x.bins w.bin → w.w2 ≠ 0 →
      ∃ v : ℕ → ℕ → K, Obj.replies L ⟨some w, true⟩ [.updateBeams (some b) (some b), .decouple cl none none] =
        [.ok .unit, .ok (.arr (Arr2.of c.ncls x.bins.nBands v))] ∧ w.w2 * v 0 0 = 1 := by
    intro w h1 h2 h3 h4 h5 h6 h7
    have hup : (Obj.updateBeams ⟨some w, true⟩ (some b) (some b)) =
        (⟨some { w with
          beamProd := tab (w.lmaxFields + 1) (fun l => b.getD l 0 * b.getD l 0),
          binned := binMatrix w.ncls w.normType w.w2 (tab (w.lmaxFields + 1) (fun l => b.getD l 0 * b.getD l 0))
            w.bin (tab2 (c.ncls * (x.bins.ellMax + 1)) (c.ncls * (x.bins.ellMax + 1)) x.matrix) }, true⟩, .ok .unit) := by
      have hlen : ¬ (b.length ≤ w.lmaxFields ∨ b.length ≤ w.lmaxFields) := by
        rw [hb, List.length_replicate, h1]; omega
      have hub : w.unbinned = some (tab2 (c.ncls * (x.bins.ellMax + 1)) (c.ncls * (x.bins.ellMax + 1)) x.matrix) := h3
      simp only [Obj.updateBeams]
      rw [if_neg hlen]
      unfold cUpdateBeams
      rw [if_neg hlen]
      unfold binCouplingMatrix
      simp only [hub]
      rfl
    simp only [Obj.replies, Obj.step]
    rw [hup]
    simp only [Obj.decoupleCell]
    rw [decoupleCell_ok L _ cl (by rw [hcl]; exact h4.symm) (by rw [hcl]; simp only; omega)]
    simp only [h4, h6.nBands]
    refine ⟨_, rfl, ?_⟩
    unfold decoupleCl
    have hsol := fkp_solve L hL (c.ncls * w.bin.nBands) (binMatrix c.ncls w.normType w.w2
      (tab (w.lmaxFields + 1) (fun l => b.getD l 0 * b.getD l 0)) w.bin
      (tab2 (c.ncls * (x.bins.ellMax + 1)) (c.ncls * (x.bins.ellMax + 1)) x.matrix)) w.w2 h7
      (fun i k hi hk => fkp_matrix _ _ (by rw [h2]; exact hnorm) _ _ _ _ i k hi hk)
      (binnedInput c.ncls w.bin cl.val (fun _ _ => 0) (fun _ _ => 0)) (c.ncls * 0 + 0)
      (by rw [h6.nBands]; exact flat_lt hpos hnb)
    rw [hsol, binnedInput_same h6, binnedInput_apply _ _ _ _ _ hpos hnb]
    obtain ⟨es, hes⟩ := hB
    have := C05_bin_unbin es _ x.bins hes hnr (fun _ => (1 : K)) 0 hnb
    rw [← this]
    unfold binCls
    congr 1
    apply List.map_congr_left
    intro e _
    rw [hcl]; ring
  obtain ⟨v, hv, hv1⟩ := step (build c x) rfl rfl rfl rfl rfl (SameScheme.refl _) hw
  obtain ⟨v', hv', hv1'⟩ := step { build c x with w2 := 2 * c.w2, bin := B', unbinned := (build c x).unbinned }
    rfl rfl rfl rfl rfl hs (mul_ne_zero two_ne_zero hw)
  change _ = Obj.replies L ⟨some { build c x with w2 := 2 * c.w2, bin := B', unbinned := (build c x).unbinned }, true⟩ _ at h
  rw [hv, hv'] at h
  simp only [List.cons.injEq, Outcome.ok.injEq, Reply.arr.injEq, Arr2.of, Arr2.mk.injEq, true_and, and_true] at h
  have h00 := congrFun (congrFun h 0) 0
  rw [tab2_of_lt _ hpos hnb, tab2_of_lt _ hpos hnb] at h00
  simp only at hv1'
  have hw2 : (build c x).w2 = c.w2 := rfl
  rw [hw2] at hv1
  rw [← h00, mul_assoc, hv1] at hv1'
  norm_num at hv1'

example : ∃ (c : Config ℚ) (x : Inputs ℚ), Accepted x.bins ∧ NoRepeats x.bins ∧ c.normType ≠ 0 ∧ c.w2 ≠ 0 ∧
    0 < c.ncls ∧ (c.ncls * x.bins.nBands - 1) * (c.ncls * x.bins.nBands) < 2 ^ 31 ∧ (exactLinAlg ℚ).Correct :=
  ⟨{ exampleConfig with normType := 1, w2 := 3 }, exampleInputs, exampleBins_accepted, exampleBins_noRepeats,
    by simp, by simp, by simp [exampleConfig],
    by norm_num [exampleConfig, exampleInputs, exampleBins, Bins.nBands], exactLinAlg_correct⟩

/-! ## C14 -/

/-- C14: the bandpower table of an accepted scheme is read back as the same scheme exactly if no multipole
occurs twice; `f` is any file containing the table. -/
theorem C14_same_iff (j : Junk K (Bins K)) (f : FitsFile K) (s : Rd K) (hs : s.status = 0) (B : Bins K)
    (hB : Accepted B) (hf : f.tbl "BANDPOWERS" = some (binsHdu B)) :
    (∃ B' s', binsFromHdus j f s = .ok (B', s') ∧ SameScheme B B') ↔ NoRepeats B := by
  have hrd := bins_ok j f s hs (binsHdu B) hf B.nBands B.ellMax rfl rfl ⟨rfl, by simp [binsHdu]⟩
  rw [Int.toNat_natCast] at hrd
  constructor
  · rintro ⟨B', s', h, hsame⟩
    rw [hrd] at h
    cases hc : binsCreate (binsHdu B).entries B.ellMax with
    | error e => rw [hc] at h; simp [liftExcept, Outcome.bind] at h
    | ok B'' =>
      rw [hc] at h
      simp only [liftExcept, Outcome.bind] at h
      by_cases hn : (B.nBands : ℤ) = B''.nBands
      · simp only [hn, ne_eq, not_true_eq_false, if_false, Outcome.ok.injEq, Prod.mk.injEq] at h
        rw [← h.1] at hsame
        exact hsame.noRepeats.1 (noRepeats_binsHdu B B'' hB hc)
      · simp [hn] at h
  · intro hnr
    obtain ⟨B', h1, h2, _⟩ := binsCreate_binsHdu B hB hnr
    refine ⟨B', ⟨some (binsHdu B), 0⟩, ?_, h2⟩
    rw [hrd, h1]
    simp [liftExcept, Outcome.bind, h2.nBands]

/-- C14 is false in general: a scheme accepted by the constructor, two bands sharing multipole 3, is not
read back as the same scheme. -/
theorem C14_overlap_lost (j : Junk ℚ (Bins ℚ)) (s : Rd ℚ) (hs : s.status = 0) :
    ∃ (es : List (Entry ℚ)) (B : Bins ℚ), binsCreate es 3 = .ok B ∧
      ¬ ∃ B' s', binsFromHdus j [binsHdu B] s = .ok (B', s') ∧ SameScheme B B' := by
  have hok : binsCreate ([⟨2, 0, 1, 1⟩, ⟨3, 0, 1, 1⟩, ⟨3, 1, 1, 1⟩] : List (Entry ℚ)) 3 =
      .ok ⟨3, [[⟨2, 1 / 2, 1⟩, ⟨3, 1 / 2, 1⟩], [⟨3, 1, 1⟩]]⟩ := by
    have e2 : Int.toNat 2 = 2 := rfl
    norm_num [binsCreate, countBands, placeEntry, normaliseFrom,
      List.modify, List.modifyTailIdx, List.modifyTailIdx.go, e2, List.replicate]
  refine ⟨_, _, hok, ?_⟩
  rw [C14_same_iff j _ s hs _ ⟨_, hok⟩ rfl]
  simp [NoRepeats]

example : Accepted exampleBins ∧ NoRepeats exampleBins := ⟨exampleBins_accepted, exampleBins_noRepeats⟩

/-! ## C15 -/

theorem lookup_filter_ne (k key : String) (h : k ≠ key) (l : List (String × ℤ)) :
    (l.filter (fun p => p.1 ≠ key)).lookup k = l.lookup k := by
  induction l with
  | nil => rfl
  | cons a t ih =>
    obtain ⟨a1, a2⟩ := a
    by_cases ha : a1 = key
    · subst ha
      rw [List.filter_cons_of_neg (by simp), ih, List.lookup_cons]
      have : (k == a1) = false := by simpa using h
      rw [this]
    · rw [List.filter_cons_of_pos (by simpa using ha), List.lookup_cons, List.lookup_cons, ih]

theorem lookup_filter_self (key : String) (l : List (String × ℤ)) :
    (l.filter (fun p => p.1 ≠ key)).lookup key = none := by
  rw [List.lookup_eq_none_iff]
  intro p hp
  have := (List.mem_filter.1 hp).2
  simp only [decide_eq_true_eq] at this
  simpa using fun h => this h.symm

theorem find_dropKey (unit key : String) (f : FitsFile K) (t : Bool) (name : String) :
    (dropKey unit key f).find? (fun h => h.isTable == t && h.name == name) =
      (f.find? (fun h => h.isTable == t && h.name == name)).map (fun h =>
        if h.isTable = false ∧ h.name = unit then
          { h with keys := h.keys.filter (fun p => p.1 ≠ key) } else h) := by
  unfold dropKey
  rw [List.find?_map]
  congr 1
  congr 1
  funext h
  simp only [Function.comp_apply]
  split_ifs <;> rfl

/-- C15, first part: a file that lacks the normalisation keyword but is otherwise readable is read as the
same workspace with MASTER normalisation. -/
theorem C15_norm_type_missing (F : Factor K) (j : Junk K (Bins K)) (f : FitsFile K) (unb : Bool) (w : Wsp K)
    (h : readWorkspace F j f unb = .ok w) :
    readWorkspace F j (dropKey "WSP_PRIMARY" "NORM_TYPE" f) unb = .ok { w with normType := 0 } := by
  obtain ⟨hi, hb, hp, hn, hm, hq, lmax, lf, lm, teb, ncls, nb, em, B, R⟩ := read_of_ok F j f unb w h
  have hw := read_ok F j f unb R
  rw [h] at hw
  have hw := Outcome.ok.inj hw
  have hit : hi.isTable = false ∧ hi.name = "WSP_PRIMARY" := by
    have := List.find?_some R.img; simpa using this
  have other : ∀ t name h, f.find? (fun h => h.isTable == t && h.name == name) = some h →
      (t = true ∨ name ≠ "WSP_PRIMARY") →
      (dropKey "WSP_PRIMARY" "NORM_TYPE" f).find? (fun h => h.isTable == t && h.name == name) = some h := by
    intro t name h hf hne
    rw [find_dropKey, hf, Option.map_some, if_neg]
    rintro ⟨h1, h2⟩
    have := List.find?_some hf
    simp only [Bool.and_eq_true, beq_iff_eq] at this
    rcases hne with h3 | h3
    · rw [h3, h1] at this; exact absurd this.1 (by simp)
    · exact h3 (this.2.symm.trans h2)
  set hi' : Hdu K := { hi with keys := hi.keys.filter (fun p => p.1 ≠ "NORM_TYPE") } with hhi'
  have R' : Readable (dropKey "WSP_PRIMARY" "NORM_TYPE" f) unb hi' hb hp hn hm hq lmax lf lm teb ncls nb em B := by
    refine ⟨?_, ⟨?_, ?_, ?_, ?_, ?_⟩, R.can, other _ _ _ R.beams (Or.inl rfl), R.beamsDim, R.beamsHas,
      other _ _ _ R.pcl (Or.inl rfl), R.pclDim, R.pclHas, other _ _ _ R.bins (Or.inl rfl), R.nBands, R.ellMax,
      R.binsHas, R.create, R.count, R.small, other _ _ _ R.mcm (Or.inr (by simp)),
      other _ _ _ R.perm (Or.inr (by simp)), R.mcmHas, R.permHas⟩
    · unfold FitsFile.img
      have := R.img
      unfold FitsFile.img at this
      rw [find_dropKey, this, Option.map_some, if_pos hit]
    · rw [hhi']; simp only; rw [lookup_filter_ne _ _ (by simp)]; exact R.keys.lmax
    · rw [hhi']; simp only; rw [lookup_filter_ne _ _ (by simp)]; exact R.keys.lf
    · rw [hhi']; simp only; rw [lookup_filter_ne _ _ (by simp)]; exact R.keys.lm
    · rw [hhi']; simp only; rw [lookup_filter_ne _ _ (by simp)]; exact R.keys.teb
    · rw [hhi']; simp only; rw [lookup_filter_ne _ _ (by simp)]; exact R.keys.ncls
  rw [read_ok F j _ unb R', hw]
  congr 1
  unfold assemble
  have : hi'.keys.lookup "NORM_TYPE" = none := by rw [hhi']; exact lookup_filter_self _ _
  rw [this]
  rfl

theorem band_name_ne (n : ℕ) : "BINS_BAND_" ++ toString n ≠ "BANDPOWERS" := by
  intro h
  have h1 := congrArg String.toList h
  rw [String.toList_append] at h1
  have h2 := congrArg (fun l : List Char => l[1]?) h1
  simp at h2

/-- C15, second part, is false: a file with the older bandpower layout is never read, whatever the
workspace in it. -/
theorem C15_old_layout_unreadable (F : Factor K) (j : Junk K (Bins K)) (w : Wsp K) (U : ℕ → ℕ → K) (unb : Bool)
    (w' : Wsp K) : readWorkspace F j (oldLayout F w U) unb ≠ .ok w' := by
  intro h
  obtain ⟨hi, hb, hp, hn, hm, hq, lmax, lf, lm, teb, ncls, nb, em, B, R⟩ := read_of_ok F j _ unb w' h
  have hb := R.bins
  unfold FitsFile.tbl at hb
  have hmem := List.mem_of_find?_eq_some hb
  have hname := List.find?_some hb
  simp only [Bool.and_eq_true, beq_iff_eq] at hname
  unfold oldLayout at hmem
  simp only [List.cons_append, List.nil_append, List.mem_cons, List.mem_append, List.mem_map, List.mem_range,
    List.not_mem_nil, or_false] at hmem
  rcases hmem with rfl | rfl | rfl | rfl | ⟨b, _, rfl⟩ | rfl | rfl
  · simp [infoHdu] at hname
  · simp [lArrHdu] at hname
  · simp [lArrHdu] at hname
  · simp [oldSummary] at hname
  · exact band_name_ne (b + 1) hname.2
  · simp [mcmHdu] at hname
  · simp [permHdu] at hname

/-- The file of the example workspace is readable, so `C15_norm_type_missing` applies to it. -/
example (j : Junk ℚ (Bins ℚ)) : ∃ f w, readWorkspace (trivialFactor ℚ) j f true = .ok w := by
  obtain ⟨B', _, _, _, h⟩ := read_written (trivialFactor ℚ) trivialFactor_correct exampleConfig exampleInputs
    exampleBins_accepted exampleBins_noRepeats
    (by norm_num [exampleConfig, exampleInputs, exampleBins, Bins.nBands]) j true
  exact ⟨_, _, h⟩

/-! ## C16 -/

theorem mem_take_name (F : Factor K) (w : Wsp K) (U : ℕ → ℕ → K) (k : ℕ) (hk : k ≤ 5) (h : Hdu K)
    (hm : h ∈ (workspaceHdus F w U).take k) : h.name ≠ "MCM_PERM" := by
  have h5 : h ∈ (workspaceHdus F w U).take 5 := (List.take_subset_take_left _ hk) hm
  simp only [workspaceHdus, List.take_succ_cons, List.take_zero, List.mem_cons, List.not_mem_nil, or_false] at h5
  rcases h5 with rfl | rfl | rfl | rfl | rfl <;> simp [infoHdu, lArrHdu, binsHdu, mcmHdu]

/-- C16: whenever reading a file left by an interrupted write succeeds, the file is the complete one or
the one that was there before. -/
theorem C16_never_incomplete (F : Factor K) (w : Wsp K) (U : ℕ → ℕ → K) (old : Option (FitsFile K))
    (d : FitsFile K) (hd : Interrupted old (workspaceHdus F w U) (some d)) (j : Junk K (Bins K)) (unb : Bool)
    (w' : Wsp K) (h : readWorkspace F j d unb = .ok w') : d = workspaceHdus F w U ∨ old = some d := by
  obtain ⟨hi, hb, hp, hn, hm, hq, lmax, lf, lm, teb, ncls, nb, em, B, R⟩ := read_of_ok F j _ unb w' h
  have hperm := R.perm
  unfold FitsFile.img at hperm
  have hmem := List.mem_of_find?_eq_some hperm
  have hname := List.find?_some hperm
  simp only [Bool.and_eq_true, beq_iff_eq] at hname
  generalize hdd : some d = dd at hd
  cases hd with
  | before => right; rfl
  | removed => simp at hdd
  | between k hk =>
    left
    have hdd := Option.some.inj hdd
    subst hdd
    by_cases hk6 : k = (workspaceHdus F w U).length
    · rw [hk6, List.take_length]
    · exfalso
      have : (workspaceHdus F w U).length = 6 := rfl
      exact mem_take_name F w U k (by omega) hq hmem hname.2
  | torn k hk p hp =>
    exfalso
    have hdd := Option.some.inj hdd
    subst hdd
    have : (workspaceHdus F w U).length = 6 := rfl
    rcases List.mem_append.1 hmem with h1 | h1
    · exact mem_take_name F w U k (by omega) hq h1 hname.2
    · rw [List.mem_singleton] at h1
      subst h1
      have := R.permHas.1
      rw [hp.incomplete] at this
      simp at this

/-- Undefined behaviour of the reader needs an unreadable bandpower table (or a huge matrix). -/
theorem read_ne_crash (F : Factor K) (j : Junk K (Bins K)) (f : FitsFile K) (unb : Bool)
    (hcase : (¬ ∃ h, f.tbl "PCL_MASKS" = some h ∧ h.Has (h.dims.headD 0)) ∨
      ∃ h nb em, f.tbl "BANDPOWERS" = some h ∧ h.keys.lookup "N_BANDS" = some nb ∧
        h.keys.lookup "ELL_MAX" = some em ∧ h.Has (h.dims.headD 0) ∧
        ∀ hi ncls, f.img "WSP_PRIMARY" = some hi → hi.keys.lookup "NCLS" = some ncls →
          (ncls.toNat * nb.toNat - 1) * (ncls.toNat * nb.toNat) < 2 ^ 31) :
    readWorkspace F j f unb ≠ .crash := by
  intro hw
  unfold readWorkspace at hw
  by_cases ho : (fitsOpen f).status = 0
  swap
  · simp [checkFits, ho, Outcome.bind] at hw
  simp only [checkFits, ho, ne_eq, not_true_eq_false, if_false, Outcome.bind] at hw
  by_cases hI : ∃ h lmax lf lm teb ncls, f.img "WSP_PRIMARY" = some h ∧ h.Keys lmax lf lm teb ncls ∧
      h.CanRead unb (ncls * (lmax + 1)).toNat
  swap
  · have := info_fails j f unb _ ho hI
    simp [this] at hw
  obtain ⟨hi, lmax, lf, lm, teb, ncls, i1, i2, i3⟩ := hI
  rw [info_ok j f unb _ ho hi i1 lmax lf lm teb ncls i2 i3] at hw
  simp only [not_true_eq_false, if_false] at hw
  by_cases hB : ∃ h, f.tbl "BEAMS" = some h ∧ ((h.dims.headD 0 : ℕ) : ℤ) = lf + 1 ∧ h.Has (h.dims.headD 0)
  swap
  · rcases lArr_fails j f lf "BEAMS" ⟨some hi, 0⟩ hB with h | ⟨v, s', h, hs⟩
    · rw [h] at hw; simp at hw
    · rw [h] at hw; simp [hs] at hw
  obtain ⟨hb, b1, b2, b3⟩ := hB
  rw [lArr_ok j f lf "BEAMS" _ hb b1 b2 b3] at hw
  simp only [not_true_eq_false, if_false] at hw
  by_cases hP : ∃ h, f.tbl "PCL_MASKS" = some h ∧ ((h.dims.headD 0 : ℕ) : ℤ) = lm + 1 ∧ h.Has (h.dims.headD 0)
  swap
  · rcases lArr_fails j f lm "PCL_MASKS" ⟨some hb, 0⟩ hP with h | ⟨v, s', h, hs⟩
    · rw [h] at hw; simp at hw
    · rw [h] at hw; simp [hs] at hw
  obtain ⟨hp, p1, p2, p3⟩ := hP
  rw [lArr_ok j f lm "PCL_MASKS" _ hp p1 p2 p3] at hw
  simp only [not_true_eq_false, if_false] at hw
  rcases hcase with hc | ⟨hn, nb, em, n1, n2, n3, n4, hsm⟩
  · exact hc ⟨hp, p1, p3⟩
  rw [bins_ok j f _ rfl hn n1 nb em n2 n3 n4] at hw
  cases hc : binsCreate hn.entries em.toNat with
  | error e => simp [hc, liftExcept, Outcome.bind] at hw
  | ok B =>
  simp only [hc, liftExcept, Outcome.bind] at hw
  by_cases hcount : nb = B.nBands
  swap
  · simp [hcount] at hw
  have hsm := hsm hi ncls i1 i2.ncls
  rw [hcount, Int.toNat_natCast] at hsm
  simp only [hcount, ne_eq, not_true_eq_false, if_false] at hw
  by_cases hM : ∃ h1 h2, f.img "MCM_BINNED" = some h1 ∧ f.img "MCM_PERM" = some h2 ∧
      h1.Has ((ncls.toNat * B.nBands) * (ncls.toNat * B.nBands)) ∧ h2.Has (ncls.toNat * B.nBands)
  · obtain ⟨hm, hq, m1, m2, m3, m4⟩ := hM
    rw [mcm_ok F j f _ _ rfl hsm hm hq m1 m2 m3 m4] at hw
    simp at hw
  · obtain ⟨m, s', h, hs⟩ := mcm_fails F j f (ncls.toNat * B.nBands) ⟨some hn, 0⟩ rfl hsm hM
    rw [h] at hw
    simp [hs] at hw

/-- C16: a write interrupted at any point, except while the bandpower table is being written, leaves a
file whose reading raises an exception. Missing from the full property: interruption at the bandpower
table, where the reader uses uninitialised memory (`C16_uninitialised`). -/
theorem C16_raises_partial (F : Factor K) (w : Wsp K) (U : ℕ → ℕ → K)
    (hsm : (w.ncls * w.bin.nBands - 1) * (w.ncls * w.bin.nBands) < 2 ^ 31) (k : ℕ) (hk : k < 6) (hk3 : k ≠ 3)
    (tail : FitsFile K) (ht : tail = [] ∨ ∃ p, Torn ((workspaceHdus F w U)[k]'hk) p ∧ tail = [p])
    (j : Junk K (Bins K)) (unb : Bool) :
    ∃ e, readWorkspace F j ((workspaceHdus F w U).take k ++ tail) unb = .raises e := by
  have hint : ∃ d, d = (workspaceHdus F w U).take k ++ tail ∧ d ≠ workspaceHdus F w U ∧
      Interrupted none (workspaceHdus F w U) (some d) := by
    refine ⟨_, rfl, ?_, ?_⟩
    · rcases ht with rfl | ⟨p, hp, rfl⟩
      · rw [List.append_nil]
        intro h
        have := congrArg List.length h
        simp [workspaceHdus] at this
        omega
      · intro h
        have hmem : p ∈ workspaceHdus F w U := by rw [← h]; simp
        have hinc := hp.incomplete
        simp only [workspaceHdus, List.mem_cons, List.not_mem_nil, or_false] at hmem
        rcases hmem with rfl | rfl | rfl | rfl | rfl | rfl <;>
          simp [infoHdu, lArrHdu, binsHdu, mcmHdu, permHdu] at hinc
    · rcases ht with rfl | ⟨p, hp, rfl⟩
      · rw [List.append_nil]; exact .between k (le_of_lt hk)
      · exact .torn k (show k < (workspaceHdus F w U).length from hk) p hp
  obtain ⟨d, hd, hne, hI⟩ := hint
  rw [← hd]
  cases hr : readWorkspace F j d unb with
  | raises e => exact ⟨e, rfl⟩
  | ok w' =>
    exfalso
    rcases C16_never_incomplete F w U none d hI j unb w' hr with h | h
    · exact hne h
    · simp at h
  | crash =>
    exfalso
    revert hr
    apply read_ne_crash
    by_cases hk2 : k ≤ 2
    · left
      rintro ⟨h, hf, hh⟩
      unfold FitsFile.tbl at hf
      have hmem := List.mem_of_find?_eq_some hf
      have hname := List.find?_some hf
      simp only [Bool.and_eq_true, beq_iff_eq] at hname
      rw [hd] at hmem
      rcases List.mem_append.1 hmem with h1 | h1
      · have h2 : h ∈ (workspaceHdus F w U).take 2 := (List.take_subset_take_left _ hk2) h1
        simp only [workspaceHdus, List.take_succ_cons, List.take_zero, List.mem_cons, List.not_mem_nil,
          or_false] at h2
        rcases h2 with rfl | rfl <;> simp [infoHdu, lArrHdu] at hname
      · rcases ht with rfl | ⟨p, hp, rfl⟩
        · simp at h1
        · rw [List.mem_singleton] at h1
          subst h1
          have := hh.1
          rw [hp.incomplete] at this
          simp at this
    · right
      have hk4 : k = 4 ∨ k = 5 := by omega
      refine ⟨binsHdu w.bin, w.bin.nBands, w.bin.ellMax, ?_, rfl, rfl, ⟨rfl, by simp [binsHdu]⟩, ?_⟩
      · rw [hd]; rcases hk4 with rfl | rfl <;> rfl
      · intro hi ncls h1 h2
        have : hi = infoHdu w U := by
          rw [hd] at h1
          have h3 : FitsFile.img ((workspaceHdus F w U).take k ++ tail) "WSP_PRIMARY" = some (infoHdu w U) := by
            rcases hk4 with rfl | rfl <;> rfl
          rw [h3] at h1
          exact (Option.some.inj h1).symm
        subst this
        have h3 : (infoHdu w U).keys.lookup "NCLS" = some (w.ncls : ℤ) := rfl
        rw [h3] at h2
        rw [← Option.some.inj h2]
        simpa using hsm

/-- C16 is false at one point: if the write was interrupted before the bandpower table, the reader builds
bandpowers from uninitialised memory, and there are memory contents for which this is undefined. -/
theorem C16_uninitialised (F : Factor K) (c : Config K) (x : Inputs K) (unb : Bool) :
    ∃ j : Junk K (Bins K), readWorkspace F j ((workspaceHdus F (build c x) x.matrix).take 3) unb = .crash := by
  refine ⟨⟨fun _ => 0, fun _ => 0, 0, .crash, .crash⟩, ?_⟩
  set f := (workspaceHdus F (build c x) x.matrix).take 3 with hf
  have hn : (((c.ncls : ℕ) : ℤ) * (((x.bins.ellMax : ℕ) : ℤ) + 1)).toNat = c.ncls * (x.bins.ellMax + 1) := by
    have : ((c.ncls : ℕ) : ℤ) * (((x.bins.ellMax : ℕ) : ℤ) + 1) = ((c.ncls * (x.bins.ellMax + 1) : ℕ) : ℤ) := by
      push_cast; ring
    rw [this, Int.toNat_natCast]
  have ho : (fitsOpen f).status = 0 := rfl
  unfold readWorkspace
  simp only [checkFits, ho, ne_eq, not_true_eq_false, if_false, Outcome.bind]
  rw [info_ok _ f unb _ ho (infoHdu (build c x) x.matrix) rfl (x.bins.ellMax : ℤ) (c.lmaxFields : ℤ)
    (c.lmaxMask : ℤ) (if c.isTeb then 1 else 0) (c.ncls : ℤ) ⟨rfl, rfl, rfl, rfl, rfl⟩
    (by intro _; right; rw [hn]; exact ⟨rfl, by simp [infoHdu, build, buildWsp]⟩)]
  simp only [not_true_eq_false, if_false]
  rw [lArr_ok _ f _ "BEAMS" _ (lArrHdu c.lmaxFields (build c x).beamProd "BEAMS") rfl (by simp [lArrHdu])
    ⟨rfl, by simp [lArrHdu]⟩]
  simp only [not_true_eq_false, if_false]
  rw [lArr_ok _ f _ "PCL_MASKS" _ (lArrHdu c.lmaxMask (build c x).pclMasks "PCL_MASKS") rfl (by simp [lArrHdu])
    ⟨rfl, by simp [lArrHdu]⟩]
  simp only [not_true_eq_false, if_false]
  obtain ⟨s', hs', hb⟩ := bins_fails (⟨fun _ => 0, fun _ => 0, 0, .crash, .crash⟩ : Junk K (Bins K)) f
    ⟨some (lArrHdu c.lmaxMask (build c x).pclMasks "PCL_MASKS"), 0⟩ rfl (by
      rintro ⟨h, nb, em, h1, _⟩
      have : FitsFile.tbl f "BANDPOWERS" = none := rfl
      rw [this] at h1
      simp at h1)
  rw [hb]
  rfl

/-- C16 is false for the file that was there before: at some interruption points it is gone and the new
one is not complete. -/
theorem C16_old_file_lost (F : Factor K) (w : Wsp K) (U : ℕ → ℕ → K) (f : FitsFile K) :
    ∃ d, Interrupted (some f) (workspaceHdus F w U) d ∧ d ≠ some f ∧ d ≠ some (workspaceHdus F w U) :=
  ⟨none, .removed, by simp, by simp⟩

end NaMaster
