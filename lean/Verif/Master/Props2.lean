import Verif.Master.Props

/-!
# Properties C08-C12: linearity, updates, histories
-/

set_option linter.unusedSectionVars false

namespace NaMaster

open Finset WspSpec

variable {K : Type*} [Field K]

/-! ## C08 -/

theorem binnedInput_congr (ncls : ℕ) (B : Bins K) (cl noise bias cl' noise' bias' : ℕ → ℕ → K)
    (h : ∀ a l, cl a l - noise a l - bias a l = cl' a l - noise' a l - bias' a l) :
    binnedInput ncls B cl noise bias = binnedInput ncls B cl' noise' bias' := by
  unfold binnedInput
  simp only [h]

/-- Shapes accepted by `decouple_cell`. -/
def GoodShape (w : Wsp K) (a : Arr2 K) : Prop := a.rows = w.ncls ∧ w.lmax + 1 ≤ a.cols

instance (w : Wsp K) (a : Arr2 K) : Decidable (GoodShape w a) := by unfold GoodShape; infer_instance

theorem decoupleCell_some (L : LinAlg K) (w : Wsp K) (cl b n : Arr2 K)
    (hb : b.rows = cl.rows ∧ b.cols = cl.cols) (hn : n.rows = cl.rows ∧ n.cols = cl.cols) :
    decoupleCell L w cl (some b) (some n) = if GoodShape w cl then .ok (Arr2.of w.ncls w.bin.nBands
      (decoupleCl L w.ncls w.bin w.binned cl.val n.val b.val)) else .raises .value := by
  unfold decoupleCell GoodShape
  simp only [Option.any_some, decide_eq_true_eq, hb.1, hb.2, hn.1, hn.2, Option.getD_some]
  by_cases h1 : cl.rows = w.ncls <;> by_cases h2 : cl.cols < w.lmax + 1 <;> simp [h1, h2] <;> omega

theorem decoupleCell_none (L : LinAlg K) (w : Wsp K) (cl : Arr2 K) :
    decoupleCell L w cl none none = if GoodShape w cl then .ok (Arr2.of w.ncls w.bin.nBands
      (decoupleCl L w.ncls w.bin w.binned cl.val (fun _ _ => 0) (fun _ _ => 0))) else .raises .value := by
  split_ifs with h
  · exact decoupleCell_ok L w cl h.1 h.2
  · unfold decoupleCell
    rw [if_pos]
    unfold GoodShape at h
    omega

theorem decoupleCell_zero (L : LinAlg K) (w : Wsp K) (cl : Arr2 K) (bias noise : Option (Arr2 K)) :
    decoupleCell L w cl bias noise = decoupleCell L w cl
      (some (bias.getD ⟨cl.rows, cl.cols, fun _ _ => 0⟩)) (some (noise.getD ⟨cl.rows, cl.cols, fun _ _ => 0⟩)) := by
  cases bias <;> cases noise <;> unfold decoupleCell <;>
    simp only [Option.any_some, Option.any_none, Option.getD_some, Option.getD_none, decide_eq_true_eq] <;>
    split_ifs <;> first | rfl | simp_all

/-- C08: omitting bias or noise is the same as passing zeros of the shape of the data. -/
theorem C08_defaults_are_zero (L : LinAlg K) (w : Wsp K) (cl : Arr2 K) :
    decoupleCell L w cl none none = decoupleCell L w cl
      (some ⟨cl.rows, cl.cols, fun _ _ => 0⟩) (some ⟨cl.rows, cl.cols, fun _ _ => 0⟩) :=
  decoupleCell_zero L w cl none none

/-- C08: bias and noise are subtracted from the data. -/
theorem C08_subtracts (L : LinAlg K) (w : Wsp K) (cl bias noise : Arr2 K)
    (hb : bias.rows = cl.rows ∧ bias.cols = cl.cols) (hn : noise.rows = cl.rows ∧ noise.cols = cl.cols) :
    decoupleCell L w cl (some bias) (some noise) =
      decoupleCell L w ⟨cl.rows, cl.cols, fun a l => cl.val a l - bias.val a l - noise.val a l⟩ none none := by
  rw [decoupleCell_some L w cl bias noise hb hn, decoupleCell_none]
  have hg : GoodShape w ⟨cl.rows, cl.cols, fun a l => cl.val a l - bias.val a l - noise.val a l⟩ ↔
      GoodShape w cl := Iff.rfl
  by_cases h : GoodShape w cl
  · rw [if_pos h, if_pos (hg.2 h)]
    congr 1
    apply Arr2.of_congr
    intro a ib _ _
    unfold decoupleCl
    rw [binnedInput_congr]
    intro a l; ring
  · rw [if_neg h, if_neg (fun h' => h (hg.1 h'))]

/-- C08: `decouple_cell` raises for wrong shapes and returns one value per spectrum and band otherwise. -/
theorem C08_shape (L : LinAlg K) (w : Wsp K) (cl : Arr2 K) :
    (GoodShape w cl → ∃ r, decoupleCell L w cl none none = .ok r ∧ r.rows = w.ncls ∧ r.cols = w.bin.nBands) ∧
    (¬ GoodShape w cl → decoupleCell L w cl none none = .raises .value) := by
  rw [decoupleCell_none]
  constructor
  · intro h; rw [if_pos h]; exact ⟨_, rfl, rfl, rfl⟩
  · intro h; rw [if_neg h]

/-- C08: `decouple_cell` is linear. -/
theorem C08_linear (L : LinAlg K) (hL : L.Correct) (w : Wsp K) (hreg : Regular w.nBinned w.binned)
    (s t : K) (x y : ℕ → ℕ → K) (n : ℕ) (hn : w.lmax + 1 ≤ n) :
    ∃ rx ry, decoupleCell L w ⟨w.ncls, n, x⟩ none none = .ok rx ∧ decoupleCell L w ⟨w.ncls, n, y⟩ none none = .ok ry ∧
      decoupleCell L w ⟨w.ncls, n, fun a l => s * x a l + t * y a l⟩ none none =
        .ok (Arr2.of w.ncls w.bin.nBands (fun a b => s * rx.val a b + t * ry.val a b)) := by
  refine ⟨_, _, decoupleCell_ok L w _ rfl hn, decoupleCell_ok L w _ rfl hn, ?_⟩
  rw [decoupleCell_ok L w _ rfl hn]
  congr 1
  apply Arr2.of_congr
  intro a ib ha hib
  simp only [Arr2.of, tab2_of_lt _ ha hib]
  unfold decoupleCl
  have hreg' : Regular (w.ncls * w.bin.nBands) w.binned := hreg
  have hlt := flat_lt ha hib
  apply hL.solve_eq hreg' (fun i => s * L.solve (w.ncls * w.bin.nBands) w.binned
      (binnedInput w.ncls w.bin x (fun _ _ => 0) (fun _ _ => 0)) i +
    t * L.solve (w.ncls * w.bin.nBands) w.binned (binnedInput w.ncls w.bin y (fun _ _ => 0) (fun _ _ => 0)) i) _ ?_
    _ hlt
  intro i hi
  have hpos : 0 < w.ncls := by omega
  have e1 : ∀ j, w.binned i j * (s * L.solve (w.ncls * w.bin.nBands) w.binned
      (binnedInput w.ncls w.bin x (fun _ _ => 0) (fun _ _ => 0)) j + t * L.solve (w.ncls * w.bin.nBands) w.binned
      (binnedInput w.ncls w.bin y (fun _ _ => 0) (fun _ _ => 0)) j) =
      s * (w.binned i j * L.solve (w.ncls * w.bin.nBands) w.binned
      (binnedInput w.ncls w.bin x (fun _ _ => 0) (fun _ _ => 0)) j) +
      t * (w.binned i j * L.solve (w.ncls * w.bin.nBands) w.binned
      (binnedInput w.ncls w.bin y (fun _ _ => 0) (fun _ _ => 0)) j) := fun j => by ring
  rw [Finset.sum_congr rfl (fun j _ => e1 j), Finset.sum_add_distrib, ← Finset.mul_sum, ← Finset.mul_sum,
    hL.solve_spec _ _ _ hreg' i hi, hL.solve_spec _ _ _ hreg' i hi]
  obtain ⟨c, jb, hc', hjb, rfl⟩ : ∃ c jb, c < w.ncls ∧ jb < w.bin.nBands ∧ i = w.ncls * jb + c :=
    ⟨i % w.ncls, i / w.ncls, Nat.mod_lt _ hpos, Nat.div_lt_of_lt_mul hi, (Nat.div_add_mod i _).symm⟩
  rw [binnedInput_apply _ _ _ _ _ hc' hjb, binnedInput_apply _ _ _ _ _ hc' hjb, binnedInput_apply _ _ _ _ _ hc' hjb,
    ← List.sum_map_mul_left, ← List.sum_map_mul_left, ← List.sum_map_add]
  congr 1
  apply List.map_congr_left
  intro e _
  ring

/-- C08: `compute_full_master` is the sequence of the individual steps, whether a workspace is given or has
to be computed. -/
theorem C08_full_master (L : LinAlg K) (nmaps lmax : ℕ) (pcld pclb : Arr2 K) (bias : Arr2 K → Outcome (Arr2 K))
    (w : Wsp K) (fromFields : Outcome (Wsp K)) (workspace : Option (Wsp K)) (noise guess : Option (Arr2 K))
    (hw : (workspace = none ∧ fromFields = .ok w) ∨ workspace = some w)
    (hd : pcld.rows = nmaps ∧ pcld.cols = lmax + 1) (hb : pclb.rows = nmaps ∧ pclb.cols = lmax + 1)
    (hn : ∀ a ∈ noise, a.rows = nmaps ∧ a.cols = lmax + 1) (hg : ∀ a ∈ guess, a.rows = nmaps ∧ a.cols = lmax + 1)
    (hbias : bias (guess.getD ⟨nmaps, lmax + 1, fun _ _ => 0⟩) = .ok pclb) :
    computeFullMaster L true true nmaps lmax (.ok pcld) bias fromFields workspace noise guess =
      decoupleCell L w pcld (some pclb) noise := by
  unfold computeFullMaster
  simp only [not_true_eq_false, false_and, if_false]
  rw [if_neg, if_neg]
  · simp only [Outcome.bind, hbias]
    have hw' : pickWsp fromFields workspace = .ok w := by
      rcases hw with ⟨rfl, rfl⟩ | rfl <;> rfl
    rw [hw']
    have hN : (noise.getD ⟨nmaps, lmax + 1, fun _ _ => 0⟩).rows = nmaps ∧
        (noise.getD ⟨nmaps, lmax + 1, fun _ _ => 0⟩).cols = lmax + 1 := by
      cases noise with
      | none => exact ⟨rfl, rfl⟩
      | some a => exact hn a rfl
    rw [decoupleCell_zero L w pcld (some pclb) noise, hd.1, hd.2]
    rw [C08_subtracts L w pcld _ _ (by rw [Option.getD_some, hd.1, hd.2]; exact hb)
      (by rw [hd.1, hd.2]; exact hN)]
    simp only [Arr2.sub, hd.1, hd.2, hb.1, hb.2, hN.1, hN.2, ne_eq, not_true_eq_false, or_self, if_false,
      Option.getD_some]
  · cases guess with
    | none => simp
    | some a => simp [hg a rfl]
  · cases noise with
    | none => simp
    | some a => simp [hn a rfl]

/-- C08: without bandpowers and workspace, for incompatible fields, or for a noise spectrum or guess of the
wrong shape, `compute_full_master` raises. -/
theorem C08_full_master_rejects (L : LinAlg K) (hasBins compat : Bool) (nmaps lmax : ℕ) (coupled : Outcome (Arr2 K))
    (bias : Arr2 K → Outcome (Arr2 K)) (fromFields : Outcome (Wsp K)) (workspace : Option (Wsp K))
    (noise guess : Option (Arr2 K))
    (h : (hasBins = false ∧ workspace = none) ∨ compat = false ∨
      (∃ a ∈ noise, ¬ (a.rows = nmaps ∧ a.cols = lmax + 1)) ∨ ∃ a ∈ guess, ¬ (a.rows = nmaps ∧ a.cols = lmax + 1)) :
    ∃ e, computeFullMaster L hasBins compat nmaps lmax coupled bias fromFields workspace noise guess = .raises e := by
  unfold computeFullMaster
  by_cases h1 : ¬ hasBins = true ∧ workspace.isNone = true
  · rw [if_pos h1]; exact ⟨_, rfl⟩
  rw [if_neg h1]
  by_cases h2 : ¬ compat = true
  · rw [if_pos h2]; exact ⟨_, rfl⟩
  rw [if_neg h2]
  split_ifs with h3 h4
  · exact ⟨_, rfl⟩
  · exact ⟨_, rfl⟩
  · exfalso
    rcases h with ⟨rfl, rfl⟩ | rfl | ⟨a, rfl, h⟩ | ⟨a, rfl, h⟩
    · simp at h1
    · simp at h2
    · simp at h3; exact h h3
    · simp at h4; exact h h4

example : ∃ (w : Wsp ℚ) (a : Arr2 ℚ), Regular w.nBinned w.binned ∧ GoodShape w a ∧ 0 < w.bin.nBands :=
  ⟨build exampleConfig exampleInputs, ⟨1, 9, fun _ l => l⟩, example_regular, by simp [GoodShape, build, buildWsp,
    exampleConfig, exampleInputs, exampleBins], by decide⟩

/-! ## C09 -/

/-- The size of the unbinned matrix can be handled by the C code. -/
def Fits (c : Config K) : Prop := (c.ncls * (c.lmax + 1)) * (c.ncls * (c.lmax + 1)) < 2 ^ 31

theorem build_update (c : Config K) (x : Inputs K) (hB : x.bins.ellMax = c.lmax) (hc : Fits c) (hpos : 0 < c.ncls)
    (u : Update K) (L : LinAlg K) :
    ((⟨some (build c x), true⟩ : Obj K).step L u.toOp).1 =
      ⟨some (build c (Inputs.latest c x [u])), true⟩ ∧ (Inputs.latest c x [u]).bins.ellMax = c.lmax ∧
    (Acceptable c u → ((⟨some (build c x), true⟩ : Obj K).step L u.toOp).2 = .ok .unit) ∧
    (¬ Acceptable c u → ∃ e, ((⟨some (build c x), true⟩ : Obj K).step L u.toOp).2 = .raises e) := by
  simp only [Inputs.latest, List.foldl_cons, List.foldl_nil]
  cases u with
  | beams b1 b2 =>
    cases b1 with
    | none =>
      have ha : ¬ Acceptable c (.beams none b2) := by simp [Acceptable]
      rw [if_neg ha]
      exact ⟨rfl, hB, fun h => absurd h ha, fun _ => ⟨_, rfl⟩⟩
    | some b1 =>
      cases b2 with
      | none =>
        have ha : ¬ Acceptable c (.beams (some b1) none) := by simp [Acceptable]
        rw [if_neg ha]
        exact ⟨rfl, hB, fun h => absurd h ha, fun _ => ⟨_, rfl⟩⟩
      | some b2 =>
        have hlf : (build c x).lmaxFields = c.lmaxFields := rfl
        simp only [Update.toOp, Obj.step, Obj.updateBeams, cUpdateBeams, hlf]
        by_cases h : b1.length ≤ c.lmaxFields ∨ b2.length ≤ c.lmaxFields
        · rw [if_pos h]
          have ha : ¬ Acceptable c (.beams (some b1) (some b2)) := by simp only [Acceptable]; omega
          rw [if_neg ha]
          exact ⟨rfl, hB, fun h => absurd h ha, fun _ => ⟨_, rfl⟩⟩
        · have ha : Acceptable c (.beams (some b1) (some b2)) := by simp only [Acceptable]; omega
          rw [if_neg h, if_pos ha, if_neg h]
          exact ⟨rfl, hB, fun _ => rfl, fun h => absurd ha h⟩
  | bins B =>
    cases B with
    | none =>
      have ha : ¬ Acceptable c (.bins none) := by simp [Acceptable]
      rw [if_neg ha]
      exact ⟨rfl, hB, fun h => absurd h ha, fun _ => ⟨_, rfl⟩⟩
    | some B =>
      have hm : (build c x).bin.ellMax = c.lmax := hB
      simp only [Update.toOp, Obj.step, Obj.updateBins, cUpdateBinning, hm]
      by_cases h : B.ellMax = c.lmax
      · have ha : Acceptable c (.bins (some B)) := h
        rw [if_neg (by simpa using h), if_pos ha]
        refine ⟨?_, h, fun _ => rfl, fun h => absurd ha h⟩
        simp only [binCouplingMatrix, build, buildWsp, Obj.store, Inputs.replace]
        congr 2
        rw [hB, h]
      · have ha : ¬ Acceptable c (.bins (some B)) := h
        rw [if_pos h, if_neg ha]
        exact ⟨rfl, hB, fun h => absurd h ha, fun _ => ⟨_, rfl⟩⟩
  | matrix m =>
    have hm : (build c x).lmax = c.lmax := hB
    have hn : (build c x).ncls = c.ncls := rfl
    simp only [Update.toOp, Obj.step, Obj.updateMatrix, Obj.checkUnbinned, if_true, hm, hn]
    unfold Fits at hc
    by_cases h1 : m.rows = c.ncls * (c.lmax + 1)
    · rw [if_neg (by rw [Nat.mul_comm]; simpa using h1), if_neg (by rw [h1]; omega)]
      have hrpos : 0 < m.rows := by rw [h1]; exact Nat.mul_pos hpos (Nat.succ_pos _)
      by_cases h2 : m.cols = c.ncls * (c.lmax + 1)
      · have ha : Acceptable c (.matrix m) := ⟨h1, h2⟩
        rw [if_neg (by rw [h1, h2]; simp), if_pos ha]
        unfold cUpdateMatrix
        rw [hm, hn, if_neg (by simpa using h1)]
        refine ⟨?_, hB, fun _ => rfl, fun h => absurd ha h⟩
        have e1 : tab2 m.rows m.rows (fun i j => m.flatten (i * m.rows + j)) =
            tab2 (c.ncls * (x.bins.ellMax + 1)) (c.ncls * (x.bins.ellMax + 1)) m.val := by
          rw [hB, ← h1]
          apply tab2_congr
          intro i j hi hj
          unfold Arr2.flatten
          rw [h2, ← h1, Nat.mul_comm i, Nat.mul_add_div hrpos, Nat.mul_add_mod, Nat.div_eq_of_lt hj,
            Nat.mod_eq_of_lt hj, add_zero]
        simp only [binCouplingMatrix, build, buildWsp, Obj.store, Inputs.replace]
        rw [e1, hB]
      · have ha : ¬ Acceptable c (.matrix m) := fun h => h2 h.2
        rw [if_pos, if_neg ha]
        · exact ⟨rfl, hB, fun h => absurd h ha, fun _ => ⟨_, rfl⟩⟩
        · intro h
          have := Nat.eq_of_mul_eq_mul_left hrpos h
          omega
    · have ha : ¬ Acceptable c (.matrix m) := fun h => h1 h.1
      rw [if_pos (by rw [Nat.mul_comm]; exact h1), if_neg ha]
      exact ⟨rfl, hB, fun h => absurd h ha, fun _ => ⟨_, rfl⟩⟩

/-- C09: after any sequence of update calls, accepted or not, the object is the one built from scratch from
the latest accepted coupling matrix, beams and bandpowers. -/
theorem C09_history (L : LinAlg K) (c : Config K) (x : Inputs K) (hB : x.bins.ellMax = c.lmax) (hc : Fits c)
    (hpos : 0 < c.ncls) (us : List (Update K)) :
    Obj.run L ⟨some (build c x), true⟩ (us.map Update.toOp) = ⟨some (build c (Inputs.latest c x us)), true⟩ := by
  unfold Obj.run
  induction us generalizing x with
  | nil => rfl
  | cons u us ih =>
    have h := build_update c x hB hc hpos u L
    rw [List.map_cons, List.foldl_cons, h.1, ih _ h.2.1]
    rfl

/-- C09: exactly the acceptable calls return normally, the others raise. -/
theorem C09_accepts (L : LinAlg K) (c : Config K) (x : Inputs K) (hB : x.bins.ellMax = c.lmax) (hc : Fits c)
    (hpos : 0 < c.ncls) (u : Update K) :
    (Acceptable c u → ((⟨some (build c x), true⟩ : Obj K).step L u.toOp).2 = .ok .unit) ∧
    (¬ Acceptable c u → ∃ e, ((⟨some (build c x), true⟩ : Obj K).step L u.toOp).2 = .raises e) :=
  (build_update c x hB hc hpos u L).2.2

/-- C09: updates of different inputs can be exchanged. -/
theorem C09_order_irrelevant (L : LinAlg K) (c : Config K) (x : Inputs K) (hB : x.bins.ellMax = c.lmax)
    (hc : Fits c) (hpos : 0 < c.ncls) (us vs : List (Update K)) (u v : Update K) (hk : u.kind ≠ v.kind) :
    Obj.run L ⟨some (build c x), true⟩ ((us ++ [u, v] ++ vs).map Update.toOp) =
      Obj.run L ⟨some (build c x), true⟩ ((us ++ [v, u] ++ vs).map Update.toOp) := by
  rw [C09_history L c x hB hc hpos, C09_history L c x hB hc hpos]
  have : Inputs.latest c x (us ++ [u, v] ++ vs) = Inputs.latest c x (us ++ [v, u] ++ vs) := by
    simp only [Inputs.latest, List.foldl_append, List.foldl_cons, List.foldl_nil]
    congr 1
    split_ifs
    · rcases u with ⟨_ | _, _ | _⟩ | ⟨_ | _⟩ | _ <;> rcases v with ⟨_ | _, _ | _⟩ | ⟨_ | _⟩ | _ <;>
        first | rfl | exact absurd rfl hk
    · rfl
    · rfl
    · rfl
  rw [this]

/-- C09: of several updates of the same input only the last acceptable one matters; in particular repeating
an update changes nothing. -/
theorem C09_last_wins (L : LinAlg K) (c : Config K) (x : Inputs K) (hB : x.bins.ellMax = c.lmax) (hc : Fits c)
    (hpos : 0 < c.ncls) (u v : Update K) (hk : u.kind = v.kind) (hv : Acceptable c v) :
    Obj.run L ⟨some (build c x), true⟩ ([u, v].map Update.toOp) =
      Obj.run L ⟨some (build c x), true⟩ ([v].map Update.toOp) := by
  rw [C09_history L c x hB hc hpos, C09_history L c x hB hc hpos]
  have : Inputs.latest c x [u, v] = Inputs.latest c x [v] := by
    simp only [Inputs.latest, List.foldl_cons, List.foldl_nil, if_pos hv]
    split_ifs with hu
    · rcases u with ⟨_ | _, _ | _⟩ | ⟨_ | _⟩ | _ <;> rcases v with ⟨_ | _, _ | _⟩ | ⟨_ | _⟩ | _ <;>
        first | rfl | exact False.elim hv |
          exact False.elim hu | (exfalso; simp [Update.kind] at hk; done)
    · rfl
  rw [this]

example : ∃ (c : Config ℚ) (x : Inputs ℚ) (u v : Update ℚ), x.bins.ellMax = c.lmax ∧ Fits c ∧ 0 < c.ncls ∧
    Acceptable c u ∧ ¬ Acceptable c v ∧ u.kind ≠ v.kind :=
  ⟨exampleConfig, exampleInputs, .beams (some (List.replicate 7 1)) (some (List.replicate 8 2)),
    .matrix ⟨3, 7, fun _ _ => 1⟩, rfl, by norm_num [Fits, exampleConfig], by decide, by simp [Acceptable, exampleConfig],
    by simp [Acceptable, exampleConfig], by decide⟩

/-! ## C10 -/

/-- C10: for matrices with at most 46340 rows, `get_coupling_matrix` returns the matrix, in the layout used by
`couple_cell`, and passing it to `update_coupling_matrix` leaves the object as it is. Missing for the full
claim: larger matrices, for which it is false, see `C10_overflow_get` and `C10_overflow_update`. -/
theorem C10_round_trip_partial (L : LinAlg K) (c : Config K) (x : Inputs K) (hB : x.bins.ellMax = c.lmax)
    (hc : c.ncls * (c.lmax + 1) ≤ 46340) (hpos : 0 < c.ncls) :
    ∃ A, (⟨some (build c x), true⟩ : Obj K).getMatrix = .ok A ∧
      A.rows = c.ncls * (c.lmax + 1) ∧ A.cols = c.ncls * (c.lmax + 1) ∧
      (⟨some (build c x), true⟩ : Obj K).step L (.updateMatrix A) = (⟨some (build c x), true⟩, .ok .unit) ∧
      ∀ cl : Arr2 K, cl.rows = c.ncls → c.lmax + 1 ≤ cl.cols →
        (⟨some (build c x), true⟩ : Obj K).coupleCell cl = .ok (Arr2.of c.ncls (c.lmax + 1) (fun a l1 =>
          ∑ l2 ∈ range (c.lmax + 1), ∑ b ∈ range c.ncls,
            A.val (c.ncls * l1 + a) (c.ncls * l2 + b) * (build c x).beamProd l2 * cl.val b l2)) := by
  have hsq : (c.ncls * (c.lmax + 1)) * (c.ncls * (c.lmax + 1)) ≤ 46340 * 46340 := Nat.mul_le_mul hc hc
  have hf : Fits c := by unfold Fits; omega
  set n := c.ncls * (c.lmax + 1) with hn
  have hn' : (c.lmax + 1) * c.ncls = n := Nat.mul_comm _ _
  have hget : (⟨some (build c x), true⟩ : Obj K).getMatrix = .ok (Arr2.of n n x.matrix) := by
    have hm : (build c x).lmax = c.lmax := hB
    have hnc : (build c x).ncls = c.ncls := rfl
    have hU : (build c x).unbinned = some (tab2 n n x.matrix) := by
      simp only [build, buildWsp, hB, hn]
    simp only [Obj.getMatrix, Obj.checkUnbinned, if_true, Outcome.bind, hm, hnc, hn', hU]
    have hlt : ¬ 2 ^ 31 ≤ (n - 1) * n := by
      have := Nat.mul_le_mul_right n (Nat.sub_le n 1)
      omega
    rw [if_neg hlt]
    congr 1
    apply Arr2.of_congr
    intro i j hi hj
    rw [runWrites_mem _ _ _ (tab2 n n x.matrix i j), tab2_of_lt _ hi hj]
    · simp only [List.mem_flatMap, List.mem_map, List.mem_range]
      exact ⟨i, hi, j, hj, rfl⟩
    · intro w hw he
      simp only [List.mem_flatMap, List.mem_map, List.mem_range] at hw
      obtain ⟨i', hi', j', hj', rfl⟩ := hw
      simp only at he
      rw [Nat.mul_comm i', Nat.mul_comm i] at he
      obtain ⟨rfl, rfl⟩ := flat_inj hj' hj he
      rfl
  refine ⟨_, hget, rfl, rfl, ?_, ?_⟩
  · have h := build_update c x hB hf hpos (.matrix (Arr2.of n n x.matrix)) L
    have ha : Acceptable c (.matrix (Arr2.of n n x.matrix)) := ⟨rfl, rfl⟩
    have h1 := h.1
    have h2 := h.2.2.1 ha
    simp only [Update.toOp, Inputs.latest, List.foldl_cons, List.foldl_nil, if_pos ha, Inputs.replace] at h1 h2
    have e : build c { x with matrix := (Arr2.of n n x.matrix).val } = build c x := by
      simp only [build, buildWsp, Arr2.of, hB, ← hn, tab2_tab2]
    rw [e] at h1
    exact Prod.ext h1 h2
  · intro cl hr hcl
    have hm : (build c x).lmax = c.lmax := hB
    have hnc : (build c x).ncls = c.ncls := rfl
    have hU : (build c x).unbinned = some (tab2 n n x.matrix) := by
      simp only [build, buildWsp, hB, hn]
    simp only [Obj.coupleCell, Obj.checkUnbinned, if_true, Outcome.bind, hU, hnc, hm]
    rw [if_neg (by omega), coupleCell_ok _ _ _ hr (by rw [hm]; exact hcl), hm, hnc]
    rfl

/-- C10: from 46342 rows on, reading the matrix is undefined behaviour. -/
theorem C10_overflow_get (c : Config K) (x : Inputs K) (hB : x.bins.ellMax = c.lmax)
    (hc : 46342 ≤ c.ncls * (c.lmax + 1)) : (⟨some (build c x), true⟩ : Obj K).getMatrix = .crash := by
  have hm : (build c x).lmax = c.lmax := hB
  have hnc : (build c x).ncls = c.ncls := rfl
  have hU : (build c x).unbinned = some (tab2 (c.ncls * (c.lmax + 1)) (c.ncls * (c.lmax + 1)) x.matrix) := by
    simp only [build, buildWsp, hB]
  simp only [Obj.getMatrix, Obj.checkUnbinned, if_true, Outcome.bind, hm, hnc, hU]
  rw [if_pos]
  rw [Nat.mul_comm (c.lmax + 1)]
  have := Nat.mul_le_mul (Nat.sub_le_sub_right hc 1) hc
  omega

/-- C10: from 46341 rows on, replacing the matrix is undefined behaviour. -/
theorem C10_overflow_update (L : LinAlg K) (c : Config K) (x : Inputs K) (hB : x.bins.ellMax = c.lmax)
    (hc : 46341 ≤ c.ncls * (c.lmax + 1)) (m : Arr2 K) (hm : m.rows = c.ncls * (c.lmax + 1)) :
    ((⟨some (build c x), true⟩ : Obj K).step L (.updateMatrix m)).2 = .crash := by
  have h1 : (build c x).lmax = c.lmax := hB
  have h2 : (build c x).ncls = c.ncls := rfl
  simp only [Obj.step, Obj.updateMatrix, Obj.checkUnbinned, if_true, h1, h2]
  rw [if_neg (by rw [hm, Nat.mul_comm]; simp), if_pos]
  rw [hm]
  have := Nat.mul_le_mul hc hc
  omega

/-- Such workspaces exist: four spectra up to multipole 11600. -/
example : ∃ (c : Config ℚ) (x : Inputs ℚ), x.bins.ellMax = c.lmax ∧ 46342 ≤ c.ncls * (c.lmax + 1) :=
  ⟨⟨4, 11600, 11600, 11600, false, 0, 0, fun _ => 1⟩, ⟨fun _ => 1, fun _ => 1, fun _ _ => 1, ⟨11600, []⟩⟩, rfl,
    by decide⟩

example : ∃ (c : Config ℚ) (x : Inputs ℚ), x.bins.ellMax = c.lmax ∧ c.ncls * (c.lmax + 1) ≤ 46340 ∧ 0 < c.ncls :=
  ⟨exampleConfig, exampleInputs, rfl, by decide, by decide⟩

end NaMaster
