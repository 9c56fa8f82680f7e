import Verif.Covar.Lemmas2
import Verif.Master.Props
import Mathlib.Data.List.GetD

/-! # C26–C29, C53, C54: Gaussian covariances -/

set_option linter.unusedSectionVars false

namespace NaMaster

open Finset CovSpec WspSpec

variable {K : Type*} [Field K]
variable {L : LinAlg K} {jk jk' : CovJunk K} {cw : CovWsp K} {a1 a2 b1 b2 : ℤ} {s s' : CovCls K} {oa ob : Obj K} {a b : Wsp K}
  {coupled : Bool}

theorem WspSpec.Bounded.flat {B : Bins K} {n : ℕ} (h : Bounded B n) : ∀ e ∈ B.bands.flatten, e.ell ≤ n := by
  intro e he
  obtain ⟨b, hb, he⟩ := List.mem_flatten.1 he
  exact h b hb e he

/-- Outcome of a call for every input. -/
theorem call_outcome (hoa : oa.wsp = some a) (hob : ob.wsp = some b) (hA : Bounded a.bin a.bin.ellMax)
    (hB : Bounded b.bin b.bin.ellMax) :
    Consistent cw a1 a2 b1 b2 s oa ob a b coupled ∨
    (∃ e, gaussianCovariance L jk (some cw) a1 a2 b1 b2 s oa (some ob) coupled = .raises e) ∨
    (2 ^ 32 ≤ covSize cw a b coupled ∧ gaussianCovariance L jk (some cw) a1 a2 b1 b2 s oa (some ob) coupled = .crash) := by
  unfold gaussianCovariance
  simp only [Option.getD_some, hoa, hob]
  by_cases g1 : a.ncls ≠ nmaps a1 * nmaps a2 ∨ b.ncls ≠ nmaps b1 * nmaps b2
  · rw [if_pos g1]; exact Or.inr (Or.inl ⟨_, rfl⟩)
  rw [if_neg g1]
  by_cases g2 : s.ac.rows ≠ nmaps a1 * nmaps b1 ∨ s.ad.rows ≠ nmaps a1 * nmaps b2 ∨ s.bc.rows ≠ nmaps a2 * nmaps b1 ∨
      s.bd.rows ≠ nmaps a2 * nmaps b2
  · rw [if_pos g2]; exact Or.inr (Or.inl ⟨_, rfl⟩)
  rw [if_neg g2]
  by_cases g3 : s.ac.cols < cw.lmax + 1 ∨ s.ad.cols < cw.lmax + 1 ∨ s.bc.cols < cw.lmax + 1 ∨ s.bd.cols < cw.lmax + 1
  · rw [if_pos g3]; exact Or.inr (Or.inl ⟨_, rfl⟩)
  rw [if_neg g3]
  push Not at g1 g2 g3
  have final : ∀ hm : coupled = true → oa.hasUnbinned = true ∧ ob.hasUnbinned = true, covSize cw a b coupled < 2 ^ 31 →
      s.sameLength = true → covChecks cw a1 a2 b1 b2 a b = .ok () → Consistent cw a1 a2 b1 b2 s oa ob a b coupled := by
    intro hm hs hl hc
    rw [sameLength_iff] at hl
    unfold covChecks at hc
    by_cases k1 : cw.lmax < a.bin.ellMax ∨ cw.lmax < b.bin.ellMax
    · rw [if_pos k1] at hc; cases hc
    rw [if_neg k1] at hc
    by_cases k2 : cw.spin0Only = true ∧ a1 + a2 + b1 + b2 ≠ 0
    · rw [if_pos k2] at hc; cases hc
    push Not at k1 k2
    exact ⟨g1.1, g1.2, g2, ⟨s.ac.cols, by omega, rfl, by omega, by omega, by omega⟩, k1, k2, hm, hs⟩
  have chk : covChecks cw a1 a2 b1 b2 a b = .ok () ∨ ∃ e, covChecks cw a1 a2 b1 b2 a b = .raises e := by
    unfold covChecks
    split_ifs <;> simp
  have ins : covChecks cw a1 a2 b1 b2 a b = .ok () → covInside cw (Maps.ofSpins a1 a2 b1 b2) a b s = true := by
    intro hc
    unfold covChecks at hc
    by_cases k1 : cw.lmax < a.bin.ellMax ∨ cw.lmax < b.bin.ellMax
    · rw [if_pos k1] at hc; cases hc
    push Not at k1
    unfold covInside
    rw [Bool.and_eq_true, Bool.and_eq_true, below_iff, below_iff]
    exact ⟨⟨fun e he => (hA.flat e he).trans k1.1, fun e he => (hB.flat e he).trans k1.2⟩,
      covers_of s g2.1 g2.2.1 g2.2.2.1 g2.2.2.2 (by omega) (by omega) (by omega) (by omega)⟩
  have size : ∀ n, argoutArray n = .ok () ∧ n < 2 ^ 31 ∨ (∃ e, argoutArray n = .raises e) ∨ 2 ^ 32 ≤ n ∧ argoutArray n = .crash := by
    intro n
    unfold argoutArray
    by_cases k1 : 2 ^ 31 ≤ n % 2 ^ 32
    · rw [if_pos k1]; exact Or.inr (Or.inl ⟨_, rfl⟩)
    rw [if_neg k1]
    by_cases k2 : 2 ^ 32 ≤ n
    · rw [if_pos k2]; exact Or.inr (Or.inr ⟨k2, rfl⟩)
    rw [if_neg k2]
    exact Or.inl ⟨rfl, by omega⟩
  cases coupled with
  | true =>
    rw [if_pos rfl]
    unfold Obj.checkUnbinned
    by_cases u1 : oa.hasUnbinned = true
    swap
    · rw [if_neg u1]; exact Or.inr (Or.inl ⟨_, rfl⟩)
    by_cases u2 : ob.hasUnbinned = true
    swap
    · rw [if_pos u1, if_neg u2]; exact Or.inr (Or.inl ⟨_, rfl⟩)
    rw [if_pos u1, if_pos u2]
    simp only [Outcome.bind]
    rcases size (a.ncls * (cw.lmax + 1) * (b.ncls * (cw.lmax + 1))) with ⟨e1, hs⟩ | ⟨e, e1⟩ | ⟨hs, e1⟩
    · by_cases hl : s.sameLength = true
      swap
      · rw [e1, if_neg hl]; exact Or.inr (Or.inl ⟨_, rfl⟩)
      rcases chk with hc | ⟨e, hc⟩
      · exact Or.inl (final (fun _ => ⟨u1, u2⟩) hs hl hc)
      · rw [e1, if_pos hl]; unfold covCoupledC; simp only [hc, Outcome.bind]; exact Or.inr (Or.inl ⟨_, rfl⟩)
    · rw [e1]; exact Or.inr (Or.inl ⟨_, rfl⟩)
    · rw [e1]; exact Or.inr (Or.inr ⟨hs, rfl⟩)
  | false =>
    rw [if_neg (by simp)]
    rcases size (a.ncls * a.bin.nBands * (b.ncls * b.bin.nBands)) with ⟨e1, hs⟩ | ⟨e, e1⟩ | ⟨hs, e1⟩
    · by_cases hl : s.sameLength = true
      swap
      · rw [e1, if_neg hl]; exact Or.inr (Or.inl ⟨_, rfl⟩)
      rcases chk with hc | ⟨e, hc⟩
      · exact Or.inl (final (fun h => by cases h) hs hl hc)
      · rw [e1, if_pos hl]; unfold covDecoupledC; simp only [hc, Outcome.bind]; exact Or.inr (Or.inl ⟨_, rfl⟩)
    · rw [e1]; exact Or.inr (Or.inl ⟨_, rfl⟩)
    · rw [e1]; exact Or.inr (Or.inr ⟨hs, rfl⟩)

theorem Arr2.of_val {r c : ℕ} (f : ℕ → ℕ → K) {i j : ℕ} (hi : i < r) (hj : j < c) : (Arr2.of r c f).val i j = f i j :=
  tab2_of_lt f hi hj

theorem Arr2.of_rows {r c : ℕ} (f : ℕ → ℕ → K) : (Arr2.of r c f).rows = r := rfl

theorem Arr2.of_cols {r c : ℕ} (f : ℕ → ℕ → K) : (Arr2.of r c f).cols = c := rfl

/-- Result of a successful call. -/
theorem call_result (hoa : oa.wsp = some a) (hob : ob.wsp = some b) (hA : Bounded a.bin a.bin.ellMax)
    (hB : Bounded b.bin b.bin.ellMax) {C : Arr2 K}
    (h : gaussianCovariance L jk (some cw) a1 a2 b1 b2 s oa (some ob) coupled = .ok C) :
    Consistent cw a1 a2 b1 b2 s oa ob a b coupled ∧
    C = (if coupled then reshapeFlat (a.ncls * (cw.lmax + 1)) (b.ncls * (cw.lmax + 1))
          (runWrites (coupledWrites cw (Maps.ofSpins a1 a2 b1 b2) a.ncls b.ncls a.bin b.bin s) jk.out)
        else Arr2.of (a.ncls * a.bin.nBands) (b.ncls * b.bin.nBands)
          (decoupledElt L jk.mat cw (Maps.ofSpins a1 a2 b1 b2) a b s)) := by
  rcases call_outcome (L := L) (jk := jk) (cw := cw) (a1 := a1) (a2 := a2) (b1 := b1) (b2 := b2) (s := s) (coupled := coupled)
      hoa hob hA hB with h' | ⟨e, h'⟩ | ⟨-, h'⟩
  · refine ⟨h', ?_⟩
    rw [call_ok L jk cw a1 a2 b1 b2 s oa ob a b coupled hoa hob hA.flat hB.flat h'] at h
    exact (Outcome.ok.inj h).symm
  · rw [h] at h'; cases h'
  · rw [h] at h'; cases h'

/-- Components of a row. -/
theorem split_row {n na nb i : ℕ} (hn : n = na * nb) (hna : 0 < na) (hnb : 0 < nb) :
    ∃ p q, p < na ∧ q < nb ∧ i = n * (i / n) + (q + nb * p) := by
  have h0 : 0 < n := by rw [hn]; exact Nat.mul_pos hna hnb
  refine ⟨i % n / nb, i % n % nb, ?_, Nat.mod_lt _ hnb, ?_⟩
  · rw [Nat.div_lt_iff_lt_mul hnb, ← hn]; exact Nat.mod_lt _ h0
  · rw [Nat.mod_add_div]; exact (Nat.div_add_mod i n).symm

/-- Element of a coupled covariance. -/
theorem coupled_val (hoa : oa.wsp = some a) (hob : ob.wsp = some b) (hA : Bounded a.bin a.bin.ellMax)
    (hB : Bounded b.bin b.bin.ellMax) (hna : BinSpec.NoRepeats a.bin) (hnb : BinSpec.NoRepeats b.bin) {C : Arr2 K}
    (h : gaussianCovariance L jk (some cw) a1 a2 b1 b2 s oa (some ob) true = .ok C)
    {ea eb : BandEntry K} (hea : ea ∈ a.bin.bands.flatten) (heb : eb ∈ b.bin.bands.flatten) {ia ib ic id : ℕ}
    (h1 : ia < nmaps a1) (h2 : ib < nmaps a2) (h3 : ic < nmaps b1) (h4 : id < nmaps b2) :
    C.val (a.ncls * ea.ell + (ib + nmaps a2 * ia)) (b.ncls * eb.ell + (id + nmaps b2 * ic)) =
      covElement cw (Maps.ofSpins a1 a2 b1 b2) s ia ib ic id ea.ell eb.ell (ea.f * eb.f) := by
  obtain ⟨hc, rfl⟩ := call_result hoa hob hA hB h
  have la := (hA.flat ea hea).trans hc.limit.1
  have lb := (hB.flat eb heb).trans hc.limit.2
  have c1 : ib + nmaps a2 * ia < a.ncls := by rw [hc.wspA]; exact comp_lt h1 h2
  have c2 : id + nmaps b2 * ic < b.ncls := by rw [hc.wspB]; exact comp_lt h3 h4
  rw [if_pos rfl]
  unfold reshapeFlat
  rw [Arr2.of_val _ (flat_lt c1 (Nat.lt_succ_of_le la)) (flat_lt c2 (Nat.lt_succ_of_le lb))]
  have := coupled_apply cw (Maps.ofSpins a1 a2 b1 b2) a.bin b.bin s jk.out hna hnb
    (fun e he => (hB.flat e he).trans hc.limit.2) hea heb h1 h2 h3 h4
  rw [← this]
  change runWrites (coupledWrites cw (Maps.ofSpins a1 a2 b1 b2) a.ncls b.ncls a.bin b.bin s) jk.out _ =
    runWrites (coupledWrites cw (Maps.ofSpins a1 a2 b1 b2) (nmaps a1 * nmaps a2) (nmaps b1 * nmaps b2) a.bin b.bin s) jk.out
      (((nmaps a1 * nmaps a2 * ea.ell + (ib + nmaps a2 * ia)) * (cw.lmax + 1) + eb.ell) * (nmaps b1 * nmaps b2) + (id + nmaps b2 * ic))
  rw [← hc.wspA, ← hc.wspB]
  congr 1
  ring

/-- The same for all elements of a binned matrix. -/
theorem binned_ext {f g : ℕ → ℕ → K} {na nb ma mb mc md : ℕ} {n1 n2 : ℕ} (ha : na = ma * mb) (hb : nb = mc * md)
    (h0 : 0 < ma ∧ 0 < mb ∧ 0 < mc ∧ 0 < md)
    (h : ∀ bA < n1, ∀ bB < n2, ∀ ia < ma, ∀ ib < mb, ∀ ic < mc, ∀ id < md,
      f (na * bA + (ib + mb * ia)) (nb * bB + (id + md * ic)) = g (na * bA + (ib + mb * ia)) (nb * bB + (id + md * ic))) :
    ∀ k < na * n1, ∀ k' < nb * n2, f k k' = g k k' := by
  intro k hk k' hk'
  obtain ⟨ia, ib, h1, h2, e1⟩ := split_row (i := k) ha h0.1 h0.2.1
  obtain ⟨ic, id, h3, h4, e2⟩ := split_row (i := k') hb h0.2.2.1 h0.2.2.2
  rw [e1, e2]
  exact h _ (Nat.div_lt_of_lt_mul hk) _ (Nat.div_lt_of_lt_mul hk') ia h1 ib h2 ic h3 id h4

theorem list_sum_comm {α β : Type*} (l : List α) (m : List β) (f : α → β → K) :
    (l.map fun x => (m.map fun y => f x y).sum).sum = (m.map fun y => (l.map fun x => f x y).sum).sum := by
  induction l with
  | nil => simp
  | cons x t ih =>
    rw [List.map_cons, List.sum_cons, ih, ← List.sum_map_add]
    refine congrArg _ (List.map_congr_left fun y _ => ?_)
    rw [List.map_cons, List.sum_cons]

theorem mem_bands {B : Bins K} {k : ℕ} {e : BandEntry K} (hk : k < B.nBands) (he : e ∈ B.band k) : e ∈ B.bands.flatten := by
  unfold Bins.band at he
  rw [List.getD_eq_getElem _ _ hk] at he
  exact List.mem_flatten.2 ⟨_, List.getElem_mem hk, he⟩

/-! ## C29 -/

/-- C29: the call succeeds exactly for inputs that belong together. -/
theorem C29_accepts_iff (hoa : oa.wsp = some a) (hob : ob.wsp = some b) (hA : Bounded a.bin a.bin.ellMax)
    (hB : Bounded b.bin b.bin.ellMax) :
    (∃ C, gaussianCovariance L jk (some cw) a1 a2 b1 b2 s oa (some ob) coupled = .ok C) ↔
      Consistent cw a1 a2 b1 b2 s oa ob a b coupled := by
  constructor
  · rintro ⟨C, hC⟩
    rcases call_outcome (L := L) (jk := jk) (cw := cw) (a1 := a1) (a2 := a2) (b1 := b1) (b2 := b2) (s := s) (coupled := coupled)
      hoa hob hA hB with h | ⟨e, h⟩ | ⟨-, h⟩
    · exact h
    · rw [hC] at h; cases h
    · rw [hC] at h; cases h
  · intro h
    exact ⟨_, call_ok L jk cw a1 a2 b1 b2 s oa ob a b coupled hoa hob hA.flat hB.flat h⟩

/-- C29: without `wb` the first workspace is used. -/
theorem C29_default (cw : Option (CovWsp K)) :
    gaussianCovariance L jk cw a1 a2 b1 b2 s oa none coupled = gaussianCovariance L jk cw a1 a2 b1 b2 s oa (some oa) coupled := rfl

/-- C29: otherwise an exception is raised. Missing: for 2^32 elements and more the output array can be too small. -/
theorem C29_rejects_partial (hoa : oa.wsp = some a) (hob : ob.wsp = some b) (hA : Bounded a.bin a.bin.ellMax)
    (hB : Bounded b.bin b.bin.ellMax) (hn : covSize cw a b coupled < 2 ^ 32)
    (h : ¬ Consistent cw a1 a2 b1 b2 s oa ob a b coupled) :
    ∃ e, gaussianCovariance L jk (some cw) a1 a2 b1 b2 s oa (some ob) coupled = .raises e := by
  rcases call_outcome (L := L) (jk := jk) (cw := cw) (a1 := a1) (a2 := a2) (b1 := b1) (b2 := b2) (s := s) (coupled := coupled)
      hoa hob hA hB with h' | h' | ⟨h', -⟩
  · exact absurd h' h
  · exact h'
  · omega

/-- C29: workspaces that were never computed raise an exception. -/
theorem C29_missing (cw : Option (CovWsp K)) (ob : Option (Obj K)) (h : oa.wsp = none ∨ (ob.getD oa).wsp = none ∨ cw = none) :
    ∃ e, gaussianCovariance L jk cw a1 a2 b1 b2 s oa ob coupled = .raises e := by
  unfold gaussianCovariance
  simp only
  cases h1 : oa.wsp with
  | none => exact ⟨_, rfl⟩
  | some a =>
    cases h2 : (ob.getD oa).wsp with
    | none => exact ⟨_, rfl⟩
    | some b =>
      rcases h with h | h | h
      · rw [h1] at h; cases h
      · rw [h2] at h; cases h
      · subst h
        simp only
        split_ifs <;> exact ⟨_, rfl⟩

/-- C29: all assignments of the coupled calculation are inside the output array. -/
theorem C29_writes_inside (h : Consistent cw a1 a2 b1 b2 s oa ob a b true) (hA : Bounded a.bin a.bin.ellMax)
    (hB : Bounded b.bin b.bin.ellMax) :
    ∀ w ∈ coupledWrites cw (Maps.ofSpins a1 a2 b1 b2) a.ncls b.ncls a.bin b.bin s, w.1 < covSize cw a b true := by
  intro w hw
  obtain ⟨ea, hea, eb, heb, ia, ib, ic, id, h1, h2, h3, h4, rfl⟩ := mem_coupledWrites.1 hw
  have la := (hA.flat ea hea).trans h.limit.1
  have lb := (hB.flat eb heb).trans h.limit.2
  have c1 : ib + nmaps a2 * ia < a.ncls := by rw [h.wspA]; exact comp_lt h1 h2
  have c2 : id + nmaps b2 * ic < b.ncls := by rw [h.wspB]; exact comp_lt h3 h4
  have f1 := flat_lt c1 (Nat.lt_succ_of_le la)
  have f2 : (a.ncls * ea.ell + (ib + nmaps a2 * ia)) * (cw.lmax + 1) + eb.ell < a.ncls * (cw.lmax + 1) * (cw.lmax + 1) := by
    have := flat_lt (Nat.lt_succ_of_le lb) f1
    rw [Nat.mul_comm (cw.lmax + 1), Nat.mul_comm (cw.lmax + 1)] at this
    exact this
  have f3 := flat_lt c2 f2
  unfold covSize
  rw [if_pos rfl]
  calc _ = b.ncls * ((a.ncls * ea.ell + (ib + nmaps a2 * ia)) * (cw.lmax + 1) + eb.ell) + (id + nmaps b2 * ic) := by
        rw [Nat.mul_comm b.ncls]; rfl
    _ < _ := f3
    _ = _ := by ring

/-- C29: coefficients for spin 0 only are rejected for other spins, if no spin is negative. -/
theorem C29_spin0_partial (h : Consistent cw a1 a2 b1 b2 s oa ob a b coupled) (h0 : cw.spin0Only = true) (n1 : 0 ≤ a1)
    (n2 : 0 ≤ a2) (n3 : 0 ≤ b1) (n4 : 0 ≤ b2) : a1 = 0 ∧ a2 = 0 ∧ b1 = 0 ∧ b2 = 0 := by
  have := h.spins h0
  omega

/-- C29: the covariance is linear in the spectra of each of the four fields. -/
theorem C29_linear (hoa : oa.wsp = some a) (hob : ob.wsp = some b) (hA : Bounded a.bin a.bin.ellMax)
    (hB : Bounded b.bin b.bin.ellMax) (hp : Plain coupled a b) {x y : K} {p q : CovCls K} (hc : FieldComb x y s p q) {C P Q : Arr2 K}
    {j1 j2 : CovJunk K}
    (h : gaussianCovariance L jk (some cw) a1 a2 b1 b2 s oa (some ob) coupled = .ok C)
    (h1 : gaussianCovariance L j1 (some cw) a1 a2 b1 b2 p oa (some ob) coupled = .ok P)
    (h2 : gaussianCovariance L j2 (some cw) a1 a2 b1 b2 q oa (some ob) coupled = .ok Q) :
    C.rows = P.rows ∧ C.cols = P.cols ∧ C.rows = Q.rows ∧ C.cols = Q.cols ∧
      ∀ i j, i < C.rows → j < C.cols → Covered coupled a b i j → C.val i j = x * P.val i j + y * Q.val i j := by
  have hcon := (call_result hoa hob hA hB h).1
  cases coupled with
  | true =>
    have e := (call_result hoa hob hA hB h).2
    have e1 := (call_result hoa hob hA hB h1).2
    have e2 := (call_result hoa hob hA hB h2).2
    rw [if_pos rfl] at e e1 e2
    unfold reshapeFlat at e e1 e2
    refine ⟨by rw [e, e1, Arr2.of_rows, Arr2.of_rows], by rw [e, e1, Arr2.of_cols, Arr2.of_cols], by rw [e, e2, Arr2.of_rows, Arr2.of_rows],
      by rw [e, e2, Arr2.of_cols, Arr2.of_cols], fun i j hi hj hcov => ?_⟩
    obtain ⟨⟨ea, hea, le⟩, ⟨eb, heb, le'⟩⟩ := hcov rfl
    obtain ⟨n1, n2⟩ := hp rfl
    obtain ⟨ia, ib, g1, g2, i1⟩ := split_row (i := i) hcon.wspA (nmaps_pos a1) (nmaps_pos a2)
    obtain ⟨ic, id, g3, g4, i2⟩ := split_row (i := j) hcon.wspB (nmaps_pos b1) (nmaps_pos b2)
    rw [← le] at i1
    rw [← le'] at i2
    rw [i1, i2, coupled_val hoa hob hA hB n1 n2 h hea heb g1 g2 g3 g4, coupled_val hoa hob hA hB n1 n2 h1 hea heb g1 g2 g3 g4,
      coupled_val hoa hob hA hB n1 n2 h2 hea heb g1 g2 g3 g4]
    exact covElement_linear cw _ x y s p q hc _ _ _ _ _ _ _
  | false =>
    have e := (call_result hoa hob hA hB h).2
    have e1 := (call_result hoa hob hA hB h1).2
    have e2 := (call_result hoa hob hA hB h2).2
    rw [if_neg (by simp)] at e e1 e2
    refine ⟨by rw [e, e1, Arr2.of_rows, Arr2.of_rows], by rw [e, e1, Arr2.of_cols, Arr2.of_cols], by rw [e, e2, Arr2.of_rows, Arr2.of_rows],
      by rw [e, e2, Arr2.of_cols, Arr2.of_cols], fun i j hi hj _ => ?_⟩
    rw [e, Arr2.of_rows] at hi
    rw [e, Arr2.of_cols] at hj
    rw [e, e1, e2, Arr2.of_val _ hi hj, Arr2.of_val _ hi hj, Arr2.of_val _ hi hj]
    unfold decoupledElt
    have hb : ∀ k < a.ncls * a.bin.nBands, ∀ k' < b.ncls * b.bin.nBands,
        covBinned jk.mat cw (Maps.ofSpins a1 a2 b1 b2) a b s k k' =
        x * covBinned j1.mat cw (Maps.ofSpins a1 a2 b1 b2) a b p k k' + y * covBinned j2.mat cw (Maps.ofSpins a1 a2 b1 b2) a b q k k' := by
      refine binned_ext (g := fun k k' => x * covBinned j1.mat cw (Maps.ofSpins a1 a2 b1 b2) a b p k k' +
        y * covBinned j2.mat cw (Maps.ofSpins a1 a2 b1 b2) a b q k k') hcon.wspA hcon.wspB
        ⟨nmaps_pos a1, nmaps_pos a2, nmaps_pos b1, nmaps_pos b2⟩ fun bA hbA bB hbB ia g1 ib g2 ic g3 id g4 => ?_
      have E := fun (t : CovCls K) (j : ℕ × ℕ → K) => covBinned_apply j cw (Maps.ofSpins a1 a2 b1 b2) a b t hcon.wspA hcon.wspB
        g1 g2 g3 g4 hbA hbB
      refine (E s jk.mat).trans (Eq.trans ?_ (congrArg₂ _ (congrArg _ (E p j1.mat).symm) (congrArg _ (E q j2.mat).symm)))
      unfold binnedSum
      rw [← List.sum_map_mul_left, ← List.sum_map_mul_left, ← List.sum_map_add]
      refine congrArg _ (List.map_congr_left fun ea _ => ?_)
      rw [← List.sum_map_mul_left, ← List.sum_map_mul_left, ← List.sum_map_add]
      exact congrArg _ (List.map_congr_left fun eb _ => covElement_linear cw _ x y s p q hc _ _ _ _ _ _ _)
    rw [mul_sum, mul_sum, ← sum_add_distrib]
    refine sum_congr rfl fun k hk => ?_
    rw [mul_left_comm x, mul_left_comm y, ← mul_add]
    refine congrArg _ ?_
    rw [mul_sum, mul_sum, ← sum_add_distrib]
    refine sum_congr rfl fun k' hk' => ?_
    rw [hb k (mem_range.1 hk) k' (mem_range.1 hk')]
    ring

/-! ## C26 -/

/-- C26: exchanging the two power spectra transposes the covariance. -/
theorem C26_exchange (hoa : oa.wsp = some a) (hob : ob.wsp = some b) (hA : Bounded a.bin a.bin.ellMax)
    (hB : Bounded b.bin b.bin.ellMax) (hp : Plain coupled a b) (hx : Symmetric cw.x1122 cw.lmax) (hy : Symmetric cw.x1221 cw.lmax)
    (hs : Exchanged a1 a2 b1 b2 s s') {C : Arr2 K}
    (h : gaussianCovariance L jk (some cw) a1 a2 b1 b2 s oa (some ob) coupled = .ok C) :
    ∃ C', gaussianCovariance L jk' (some cw) b1 b2 a1 a2 s' ob (some oa) coupled = .ok C' ∧ C'.rows = C.cols ∧ C'.cols = C.rows ∧
      ∀ i j, i < C.rows → j < C.cols → Covered coupled a b i j → C'.val j i = C.val i j := by
  obtain ⟨hcon, e⟩ := call_result hoa hob hA hB h
  obtain ⟨r1, r2, r3, r4⟩ := hcon.rows
  obtain ⟨n, hn, l1, l2, l3, l4⟩ := hcon.length
  have hcon' : Consistent cw b1 b2 a1 a2 s' ob oa b a coupled := by
    refine ⟨hcon.wspB, hcon.wspA, ⟨?_, ?_, ?_, ?_⟩, ⟨n, hn, ?_, ?_, ?_, ?_⟩, ⟨hcon.limit.2, hcon.limit.1⟩, ?_, ?_, ?_⟩
    · rw [hs.ac.1, r1, Nat.mul_comm]
    · rw [hs.ad.1, r3, Nat.mul_comm]
    · rw [hs.bc.1, r2, Nat.mul_comm]
    · rw [hs.bd.1, r4, Nat.mul_comm]
    · rw [hs.ac.2.1, l1]
    · rw [hs.ad.2.1, l3]
    · rw [hs.bc.2.1, l2]
    · rw [hs.bd.2.1, l4]
    · intro h0; have := hcon.spins h0; omega
    · intro h0; exact (hcon.matrices h0).symm
    · have := hcon.small
      unfold covSize at this ⊢
      rw [Nat.mul_comm (b.ncls * _), Nat.mul_comm (b.ncls * _)]
      exact this
  obtain ⟨C', hC'⟩ := (C29_accepts_iff (L := L) (jk := jk') hob hoa hB hA).2 hcon'
  obtain ⟨-, e'⟩ := call_result hob hoa hB hA hC'
  have elt : ∀ {ia ib ic id la lb : ℕ}, ia < nmaps a1 → ib < nmaps a2 → ic < nmaps b1 → id < nmaps b2 → la ≤ cw.lmax →
      lb ≤ cw.lmax → ∀ pre : K, covElement cw (Maps.ofSpins b1 b2 a1 a2) s' ic id ia ib lb la pre =
        covElement cw (Maps.ofSpins a1 a2 b1 b2) s ia ib ic id la lb pre := by
    intro ia ib ic id la lb g1 g2 g3 g4 k1 k2 pre
    exact covElement_exchange cw (Maps.ofSpins a1 a2 b1 b2) (Maps.ofSpins_valid _ _ _ _) s s' hs.ac hs.ad hs.bc hs.bd
      (by omega) (by omega) (by omega) (by omega) hx hy g1 g2 g3 g4 k1 k2 pre
  refine ⟨C', hC', ?_⟩
  cases coupled with
  | true =>
    rw [if_pos rfl] at e e'
    unfold reshapeFlat at e e'
    refine ⟨by rw [e, e', Arr2.of_rows, Arr2.of_cols], by rw [e, e', Arr2.of_rows, Arr2.of_cols], fun i j hi hj hcov => ?_⟩
    obtain ⟨⟨ea, hea, le⟩, ⟨eb, heb, le'⟩⟩ := hcov rfl
    obtain ⟨n1, n2⟩ := hp rfl
    obtain ⟨ia, ib, g1, g2, i1⟩ := split_row (i := i) hcon.wspA (nmaps_pos a1) (nmaps_pos a2)
    obtain ⟨ic, id, g3, g4, i2⟩ := split_row (i := j) hcon.wspB (nmaps_pos b1) (nmaps_pos b2)
    rw [← le] at i1
    rw [← le'] at i2
    rw [i1, i2, coupled_val hoa hob hA hB n1 n2 h hea heb g1 g2 g3 g4, coupled_val hob hoa hB hA n2 n1 hC' heb hea g3 g4 g1 g2,
      mul_comm eb.f]
    exact elt g1 g2 g3 g4 ((hA.flat ea hea).trans hcon.limit.1) ((hB.flat eb heb).trans hcon.limit.2) _
  | false =>
    rw [if_neg (by simp)] at e e'
    refine ⟨by rw [e, e', Arr2.of_rows, Arr2.of_cols], by rw [e, e', Arr2.of_rows, Arr2.of_cols], fun i j hi hj _ => ?_⟩
    rw [e, Arr2.of_rows] at hi
    rw [e, Arr2.of_cols] at hj
    rw [e, e', Arr2.of_val _ hi hj, Arr2.of_val _ hj hi]
    have hb : ∀ k < a.ncls * a.bin.nBands, ∀ k' < b.ncls * b.bin.nBands,
        covBinned jk.mat cw (Maps.ofSpins a1 a2 b1 b2) a b s k k' =
        covBinned jk'.mat cw (Maps.ofSpins b1 b2 a1 a2) b a s' k' k := by
      refine binned_ext (g := fun k k' => covBinned jk'.mat cw (Maps.ofSpins b1 b2 a1 a2) b a s' k' k) hcon.wspA hcon.wspB
        ⟨nmaps_pos a1, nmaps_pos a2, nmaps_pos b1, nmaps_pos b2⟩ fun bA hbA bB hbB ia g1 ib g2 ic g3 id g4 => ?_
      refine (covBinned_apply jk.mat cw (Maps.ofSpins a1 a2 b1 b2) a b s hcon.wspA hcon.wspB g1 g2 g3 g4 hbA hbB).trans
        (Eq.trans ?_ (covBinned_apply jk'.mat cw (Maps.ofSpins b1 b2 a1 a2) b a s' hcon.wspB hcon.wspA g3 g4 g1 g2 hbB hbA).symm)
      unfold binnedSum
      rw [list_sum_comm]
      refine congrArg _ (List.map_congr_left fun eb heb => congrArg _ (List.map_congr_left fun ea hea => ?_))
      have ma : ea ∈ a.bin.bands.flatten := mem_bands hbA hea
      have mb : eb ∈ b.bin.bands.flatten := mem_bands hbB heb
      rw [← elt g1 g2 g3 g4 ((hA.flat ea ma).trans hcon.limit.1) ((hB.flat eb mb).trans hcon.limit.2)]
      congr 1
      ring
    unfold decoupledElt
    simp only [mul_sum]
    rw [sum_comm]
    refine sum_congr rfl fun k hk => sum_congr rfl fun k' hk' => ?_
    rw [hb k (mem_range.1 hk) k' (mem_range.1 hk')]
    ring

/-- C26: the covariance of a power spectrum with itself is a symmetric matrix. The input spectra are those of two fields with
each other: the automatic spectra are symmetric in their components, and those of the second field with the first are those of the
first with the second, transposed. -/
theorem C26_self (hoa : oa.wsp = some a) (hA : Bounded a.bin a.bin.ellMax) (hp : Plain coupled a a)
    (hx : Symmetric cw.x1122 cw.lmax) (hy : Symmetric cw.x1221 cw.lmax) (hs : Exchanged a1 a2 a1 a2 s s) {C : Arr2 K}
    (h : gaussianCovariance L jk (some cw) a1 a2 a1 a2 s oa none coupled = .ok C) :
    C.rows = C.cols ∧ ∀ i j, i < C.rows → j < C.cols → Covered coupled a a i j → C.val j i = C.val i j := by
  rw [C29_default] at h
  obtain ⟨C', h', h1, h2, h3⟩ := C26_exchange (jk' := jk) hoa hoa hA hA hp hx hy hs h
  rw [h] at h'
  obtain rfl := Outcome.ok.inj h'
  exact ⟨h1, h3⟩

/-! ## C27 -/

theorem sandwich {n1 n2 : ℕ} (Ma Mb Ia Ib X : ℕ → ℕ → K)
    (ha : ∀ i j, i < n1 → j < n1 → ∑ k ∈ range n1, Ma i k * Ia k j = if i = j then 1 else 0)
    (hb : ∀ i j, i < n2 → j < n2 → ∑ k ∈ range n2, Mb i k * Ib k j = if i = j then 1 else 0) {i j : ℕ} (hi : i < n1) (hj : j < n2) :
    ∑ k ∈ range n1, ∑ k' ∈ range n2, Ma i k * (∑ r ∈ range n1, Ia k r * ∑ c ∈ range n2, X r c * Ib k' c) * Mb j k' = X i j := by
  calc _ = ∑ k ∈ range n1, ∑ k' ∈ range n2, ∑ r ∈ range n1, ∑ c ∈ range n2, (Ma i k * Ia k r) * (X r c * (Mb j k' * Ib k' c)) := by
        refine sum_congr rfl fun k _ => sum_congr rfl fun k' _ => ?_
        rw [mul_sum, sum_mul]
        refine sum_congr rfl fun r _ => ?_
        rw [mul_sum, mul_sum, sum_mul]
        exact sum_congr rfl fun c _ => by ring
    _ = ∑ r ∈ range n1, ∑ c ∈ range n2, ∑ k ∈ range n1, ∑ k' ∈ range n2, (Ma i k * Ia k r) * (X r c * (Mb j k' * Ib k' c)) := by
        rw [sum_third]
        refine sum_congr rfl fun r _ => ?_
        exact (sum_congr rfl fun k _ => sum_comm).trans sum_comm
    _ = ∑ r ∈ range n1, ∑ c ∈ range n2, (if i = r then 1 else 0) * (X r c * (if j = c then 1 else 0)) := by
        refine sum_congr rfl fun r hr => sum_congr rfl fun c hc => ?_
        rw [← ha i r hi (mem_range.1 hr), ← hb j c hj (mem_range.1 hc), sum_mul]
        refine sum_congr rfl fun k _ => ?_
        rw [mul_sum, mul_sum]
    _ = X i j := by
        rw [sum_eq_single i, sum_eq_single j]
        · simp
        · intro c _ hc; rw [if_neg (Ne.symm hc)]; ring
        · intro h; exact absurd (mem_range.2 hj) h
        · intro r _ hr; exact sum_eq_zero fun c _ => by rw [if_neg (Ne.symm hr)]; ring
        · intro h; exact absurd (mem_range.2 hi) h

/-- C27: the decoupled covariance `D` and the coupled one `C` are related by `M_a D M_b^T = B_a C B_b^T`, where `M_a`, `M_b` are the
binned coupling matrices and `B` bins with the weights of the bandpowers. -/
theorem C27_propagation (hL : L.Correct) (hoa : oa.wsp = some a) (hob : ob.wsp = some b) (hA : Bounded a.bin a.bin.ellMax)
    (hB : Bounded b.bin b.bin.ellMax) (hna : BinSpec.NoRepeats a.bin) (hnb : BinSpec.NoRepeats b.bin)
    (hra : Regular a.nBinned a.binned) (hrb : Regular b.nBinned b.binned) {C D : Arr2 K}
    (hC : gaussianCovariance L jk (some cw) a1 a2 b1 b2 s oa (some ob) true = .ok C)
    (hD : gaussianCovariance L jk' (some cw) a1 a2 b1 b2 s oa (some ob) false = .ok D) {bA bB p q : ℕ}
    (hbA : bA < a.bin.nBands) (hbB : bB < b.bin.nBands) (hp : p < a.ncls) (hq : q < b.ncls) :
    ∑ k ∈ range a.nBinned, ∑ k' ∈ range b.nBinned, a.binned (a.ncls * bA + p) k * D.val k k' * b.binned (b.ncls * bB + q) k' =
      ((a.bin.band bA).map fun e => ((b.bin.band bB).map fun e' =>
        e.w * C.val (a.ncls * e.ell + p) (b.ncls * e'.ell + q) * e'.w).sum).sum := by
  obtain ⟨hcon, eD⟩ := call_result hoa hob hA hB hD
  rw [if_neg (by simp)] at eD
  have h1 : ∑ k ∈ range a.nBinned, ∑ k' ∈ range b.nBinned, a.binned (a.ncls * bA + p) k * D.val k k' * b.binned (b.ncls * bB + q) k' =
      covBinned jk'.mat cw (Maps.ofSpins a1 a2 b1 b2) a b s (a.ncls * bA + p) (b.ncls * bB + q) := by
    refine Eq.trans ?_ (sandwich (n1 := a.nBinned) (n2 := b.nBinned) a.binned b.binned (L.invert a.nBinned a.binned)
      (L.invert b.nBinned b.binned) (covBinned jk'.mat cw (Maps.ofSpins a1 a2 b1 b2) a b s)
      (fun i j hi hj => hL.invert_spec _ _ hra i j hi hj) (fun i j hi hj => hL.invert_spec _ _ hrb i j hi hj)
      (flat_lt hp hbA) (flat_lt hq hbB))
    refine sum_congr rfl fun k hk => sum_congr rfl fun k' hk' => ?_
    have := Arr2.of_val (decoupledElt L jk'.mat cw (Maps.ofSpins a1 a2 b1 b2) a b s) (mem_range.1 hk) (mem_range.1 hk')
    rw [eD]
    exact congrArg (fun x => a.binned (a.ncls * bA + p) k * x * b.binned (b.ncls * bB + q) k') this
  rw [h1]
  obtain ⟨ia, ib, g1, g2, e1⟩ := split_row (i := p) hcon.wspA (nmaps_pos a1) (nmaps_pos a2)
  obtain ⟨ic, id, g3, g4, e2⟩ := split_row (i := q) hcon.wspB (nmaps_pos b1) (nmaps_pos b2)
  rw [Nat.div_eq_of_lt hp, Nat.mul_zero, Nat.zero_add] at e1
  rw [Nat.div_eq_of_lt hq, Nat.mul_zero, Nat.zero_add] at e2
  rw [e1, e2]
  refine (covBinned_apply jk'.mat cw (Maps.ofSpins a1 a2 b1 b2) a b s hcon.wspA hcon.wspB g1 g2 g3 g4 hbA hbB).trans ?_
  unfold binnedSum
  refine congrArg _ (List.map_congr_left fun ea hea => congrArg _ (List.map_congr_left fun eb heb => ?_))
  rw [coupled_val hoa hob hA hB hna hnb hC (mem_bands hbA hea) (mem_bands hbB heb) g1 g2 g3 g4, covElement_eq, covElement_eq]
  ring

/-! ## C28 -/

/-- C28 is false: an element of the coupled covariance with a multipole that is in no band is whatever the memory contained. -/
theorem C28_uninitialised (hoa : oa.wsp = some a) (hob : ob.wsp = some b) (hA : Bounded a.bin a.bin.ellMax)
    (hB : Bounded b.bin b.bin.ellMax) (h : Consistent cw a1 a2 b1 b2 s oa ob a b true) {la lb p q : ℕ} (hla : la ≤ cw.lmax)
    (hlb : lb ≤ cw.lmax) (hp : p < a.ncls) (hq : q < b.ncls) (hn : ¬ (InBand a.bin la ∧ InBand b.bin lb)) (v : K) :
    ∃ (jk : CovJunk K) (C : Arr2 K), gaussianCovariance L jk (some cw) a1 a2 b1 b2 s oa (some ob) true = .ok C ∧
      C.val (a.ncls * la + p) (b.ncls * lb + q) = v := by
  obtain ⟨C, hC⟩ := (C29_accepts_iff (L := L) (jk := ⟨fun _ => v, fun _ => v⟩) hoa hob hA hB).2 h
  refine ⟨_, C, hC, ?_⟩
  obtain ⟨-, e⟩ := call_result hoa hob hA hB hC
  rw [if_pos rfl] at e
  unfold reshapeFlat at e
  rw [e, Arr2.of_val _ (flat_lt hp (Nat.lt_succ_of_le hla)) (flat_lt hq (Nat.lt_succ_of_le hlb))]
  have := coupled_unset cw (Maps.ofSpins a1 a2 b1 b2) a.bin b.bin s (fun _ => v) (fun e he => (hB.flat e he).trans h.limit.2) hlb
    (p := p) (q := q) (la := la) (hp.trans_eq h.wspA) (hq.trans_eq h.wspB) hn
  refine Eq.trans ?_ this
  change runWrites (coupledWrites cw (Maps.ofSpins a1 a2 b1 b2) a.ncls b.ncls a.bin b.bin s) _ _ =
    runWrites (coupledWrites cw (Maps.ofSpins a1 a2 b1 b2) (nmaps a1 * nmaps a2) (nmaps b1 * nmaps b2) a.bin b.bin s) _
      (((nmaps a1 * nmaps a2 * la + p) * (cw.lmax + 1) + lb) * (nmaps b1 * nmaps b2) + q)
  rw [← h.wspA, ← h.wspB]
  congr 1
  ring

/-- C28: elements with both multipoles in bands, and all elements of decoupled covariances, do not depend on the contents of the
memory. Missing: the other elements of coupled covariances. -/
theorem C28_determined_partial (hoa : oa.wsp = some a) (hob : ob.wsp = some b) (hA : Bounded a.bin a.bin.ellMax)
    (hB : Bounded b.bin b.bin.ellMax) {C : Arr2 K}
    (h : gaussianCovariance L jk (some cw) a1 a2 b1 b2 s oa (some ob) coupled = .ok C) :
    ∃ C', gaussianCovariance L jk' (some cw) a1 a2 b1 b2 s oa (some ob) coupled = .ok C' ∧ C'.rows = C.rows ∧ C'.cols = C.cols ∧
      ∀ i j, i < C.rows → j < C.cols → Covered coupled a b i j → C'.val i j = C.val i j := by
  obtain ⟨hcon, e⟩ := call_result hoa hob hA hB h
  obtain ⟨C', hC'⟩ := (C29_accepts_iff (L := L) (jk := jk') hoa hob hA hB).2 hcon
  obtain ⟨-, e'⟩ := call_result hoa hob hA hB hC'
  refine ⟨C', hC', ?_⟩
  cases coupled with
  | true =>
    rw [if_pos rfl] at e e'
    unfold reshapeFlat at e e'
    refine ⟨by rw [e, e', Arr2.of_rows, Arr2.of_rows], by rw [e, e', Arr2.of_cols, Arr2.of_cols], fun i j hi hj hcov => ?_⟩
    rw [e, Arr2.of_rows] at hi
    rw [e, Arr2.of_cols] at hj
    rw [e, e', Arr2.of_val _ hi hj, Arr2.of_val _ hi hj]
    obtain ⟨⟨ea, hea, le⟩, ⟨eb, heb, le'⟩⟩ := hcov rfl
    obtain ⟨ia, ib, g1, g2, i1⟩ := split_row (i := i) hcon.wspA (nmaps_pos a1) (nmaps_pos a2)
    obtain ⟨ic, id, g3, g4, i2⟩ := split_row (i := j) hcon.wspB (nmaps_pos b1) (nmaps_pos b2)
    rw [← le] at i1
    rw [← le'] at i2
    apply runWrites_indep
    refine ⟨_, mem_coupledWrites.2 ⟨ea, hea, eb, heb, ia, ib, ic, id, g1, g2, g3, g4, rfl⟩, ?_⟩
    rw [i1, i2]
    change ((a.ncls * ea.ell + (ib + nmaps a2 * ia)) * (cw.lmax + 1) + eb.ell) * b.ncls + (id + nmaps b2 * ic) = _
    ring
  | false =>
    rw [if_neg (by simp)] at e e'
    refine ⟨by rw [e, e', Arr2.of_rows, Arr2.of_rows], by rw [e, e', Arr2.of_cols, Arr2.of_cols], fun i j hi hj _ => ?_⟩
    rw [e, Arr2.of_rows] at hi
    rw [e, Arr2.of_cols] at hj
    rw [e, e', Arr2.of_val _ hi hj, Arr2.of_val _ hi hj]
    unfold decoupledElt
    have hb : ∀ k < a.ncls * a.bin.nBands, ∀ k' < b.ncls * b.bin.nBands,
        covBinned jk'.mat cw (Maps.ofSpins a1 a2 b1 b2) a b s k k' = covBinned jk.mat cw (Maps.ofSpins a1 a2 b1 b2) a b s k k' :=
      binned_ext hcon.wspA hcon.wspB ⟨nmaps_pos a1, nmaps_pos a2, nmaps_pos b1, nmaps_pos b2⟩
        fun bA hbA bB hbB ia g1 ib g2 ic g3 id g4 =>
        (covBinned_apply jk'.mat cw (Maps.ofSpins a1 a2 b1 b2) a b s hcon.wspA hcon.wspB g1 g2 g3 g4 hbA hbB).trans
        (covBinned_apply jk.mat cw (Maps.ofSpins a1 a2 b1 b2) a b s hcon.wspA hcon.wspB g1 g2 g3 g4 hbA hbB).symm
    refine sum_congr rfl fun k hk => congrArg _ (sum_congr rfl fun k' hk' => ?_)
    rw [hb k (mem_range.1 hk) k' (mem_range.1 hk')]

/-- C28: if every multipole up to the band limit of the coefficients is in a band the covariance is determined. -/
theorem C28_full_bands (hoa : oa.wsp = some a) (hob : ob.wsp = some b) (hA : Bounded a.bin a.bin.ellMax)
    (hB : Bounded b.bin b.bin.ellMax) (hfa : ∀ l ≤ cw.lmax, InBand a.bin l) (hfb : ∀ l ≤ cw.lmax, InBand b.bin l) {C : Arr2 K}
    (h : gaussianCovariance L jk (some cw) a1 a2 b1 b2 s oa (some ob) coupled = .ok C) :
    gaussianCovariance L jk' (some cw) a1 a2 b1 b2 s oa (some ob) coupled = .ok C := by
  obtain ⟨hcon, e⟩ := call_result hoa hob hA hB h
  obtain ⟨C', hC', r, c, hv⟩ := C28_determined_partial (jk' := jk') hoa hob hA hB h
  obtain ⟨-, e'⟩ := call_result hoa hob hA hB hC'
  rw [hC']
  congr 1
  cases coupled with
  | true =>
    rw [if_pos rfl] at e e'
    unfold reshapeFlat at e e'
    rw [e, e']
    refine Arr2.of_congr fun i j hi hj => ?_
    have := hv i j (by rw [e]; exact hi) (by rw [e]; exact hj)
      (fun _ => ⟨hfa _ (Nat.lt_succ_iff.1 (Nat.div_lt_of_lt_mul hi)), hfb _ (Nat.lt_succ_iff.1 (Nat.div_lt_of_lt_mul hj))⟩)
    rw [e, e', Arr2.of_val _ hi hj, Arr2.of_val _ hi hj] at this
    exact this
  | false =>
    rw [if_neg (by simp)] at e e'
    rw [e, e']
    refine Arr2.of_congr fun i j hi hj => ?_
    have := hv i j (by rw [e]; exact hi) (by rw [e]; exact hj) (fun h => by cases h)
    rw [e, e', Arr2.of_val _ hi hj, Arr2.of_val _ hi hj] at this
    exact this

end NaMaster
