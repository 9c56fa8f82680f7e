import Verif.Covar.Spec
import Verif.Master.Lemmas
import Mathlib.Data.List.Nodup
import Mathlib.Tactic.LinearCombination
import Mathlib.Tactic.IntervalCases
import Mathlib.Tactic.SplitIfs

/-! Helper lemmas for Gaussian covariances. -/

set_option linter.unusedSectionVars false

namespace NaMaster

open Finset CovSpec

variable {K : Type*} [Field K]

theorem mem_quads {m : Maps} {ia ib ic id : ℕ} :
    (ia, ib, ic, id) ∈ m.quads ↔ ia < m.a ∧ ib < m.b ∧ ic < m.c ∧ id < m.d := by
  simp [Maps.quads]

theorem entry_unique {B : Bins K} (h : BinSpec.NoRepeats B) {e e' : BandEntry K} (he : e ∈ B.bands.flatten)
    (he' : e' ∈ B.bands.flatten) (hl : e.ell = e'.ell) : e = e' :=
  List.inj_on_of_nodup_map h he he' hl

theorem below_iff {B : Bins K} {n : ℕ} : B.below n = true ↔ ∀ e ∈ B.bands.flatten, e.ell ≤ n := by
  simp only [Bins.below, List.all_eq_true, decide_eq_true_eq, List.mem_flatten]
  constructor
  · rintro h e ⟨b, hb, he⟩; exact h b hb e he
  · intro h b hb e he; exact h e ⟨b, hb, he⟩

theorem mem_coupledWrites {cw : CovWsp K} {m : Maps} {na nb : ℕ} {Ba Bb : Bins K} {s : CovCls K} {w : ℕ × K} :
    w ∈ coupledWrites cw m na nb Ba Bb s ↔ ∃ ea ∈ Ba.bands.flatten, ∃ eb ∈ Bb.bands.flatten, ∃ ia ib ic id,
      ia < m.a ∧ ib < m.b ∧ ic < m.c ∧ id < m.d ∧
      w = (((na * ea.ell + (ib + m.b * ia)) * (cw.lmax + 1) + eb.ell) * nb + (id + m.d * ic),
        covElement cw m s ia ib ic id ea.ell eb.ell (ea.f * eb.f)) := by
  unfold coupledWrites
  simp only [List.mem_flatMap, List.mem_map, List.mem_flatten]
  constructor
  · rintro ⟨bA, hA, bB, hB, ⟨ia, ib, ic, id⟩, hq, ea, hea, eb, heb, rfl⟩
    obtain ⟨h1, h2, h3, h4⟩ := mem_quads.1 hq
    exact ⟨ea, ⟨bA, hA, hea⟩, eb, ⟨bB, hB, heb⟩, ia, ib, ic, id, h1, h2, h3, h4, rfl⟩
  · rintro ⟨ea, ⟨bA, hA, hea⟩, eb, ⟨bB, hB, heb⟩, ia, ib, ic, id, h1, h2, h3, h4, rfl⟩
    exact ⟨bA, hA, bB, hB, (ia, ib, ic, id), mem_quads.2 ⟨h1, h2, h3, h4⟩, ea, hea, eb, heb, rfl⟩

theorem comp_lt {n m p q : ℕ} (hp : p < n) (hq : q < m) : q + m * p < n * m := by
  have := flat_lt hq hp
  rw [Nat.mul_comm n m]; omega

/-- The index of the flat output array determines components and multipoles. -/
theorem coupled_index_inj {na nb L la lb p q la' lb' p' q' : ℕ} (hp : p < na) (hp' : p' < na) (hq : q < nb) (hq' : q' < nb)
    (hl : lb ≤ L) (hl' : lb' ≤ L)
    (h : ((na * la + p) * (L + 1) + lb) * nb + q = ((na * la' + p') * (L + 1) + lb') * nb + q') :
    la = la' ∧ lb = lb' ∧ p = p' ∧ q = q' := by
  have h1 := flat_inj hq hq' (b := (na * la + p) * (L + 1) + lb) (b' := (na * la' + p') * (L + 1) + lb')
    (by rw [Nat.mul_comm nb, Nat.mul_comm nb]; exact h)
  have h2 := flat_inj (n := L + 1) (a := lb) (a' := lb') (b := na * la + p) (b' := na * la' + p') (by omega) (by omega)
    (by rw [Nat.mul_comm (L + 1), Nat.mul_comm (L + 1)]; exact h1.2)
  have h3 := flat_inj hp hp' h2.2
  exact ⟨h3.2, h2.1, h3.1, h1.1⟩

/-- Element of the coupled covariance. -/
theorem coupled_apply (cw : CovWsp K) (m : Maps) (Ba Bb : Bins K) (s : CovCls K) (junk : ℕ → K)
    (hA : BinSpec.NoRepeats Ba) (hB : BinSpec.NoRepeats Bb) (hb : ∀ e ∈ Bb.bands.flatten, e.ell ≤ cw.lmax)
    {ea eb : BandEntry K} (hea : ea ∈ Ba.bands.flatten) (heb : eb ∈ Bb.bands.flatten) {ia ib ic id : ℕ}
    (h1 : ia < m.a) (h2 : ib < m.b) (h3 : ic < m.c) (h4 : id < m.d) :
    runWrites (coupledWrites cw m (m.a * m.b) (m.c * m.d) Ba Bb s) junk
      (((m.a * m.b * ea.ell + (ib + m.b * ia)) * (cw.lmax + 1) + eb.ell) * (m.c * m.d) + (id + m.d * ic)) =
      covElement cw m s ia ib ic id ea.ell eb.ell (ea.f * eb.f) := by
  apply runWrites_mem
  · exact mem_coupledWrites.2 ⟨ea, hea, eb, heb, ia, ib, ic, id, h1, h2, h3, h4, rfl⟩
  · intro w hw hi
    obtain ⟨ea', hea', eb', heb', ia', ib', ic', id', g1, g2, g3, g4, rfl⟩ := mem_coupledWrites.1 hw
    obtain ⟨e1, e2, e3, e4⟩ := coupled_index_inj (comp_lt g1 g2) (comp_lt h1 h2) (comp_lt g3 g4) (comp_lt h3 h4)
      (hb _ heb') (hb _ heb) hi
    obtain rfl := entry_unique hA hea' hea e1
    obtain rfl := entry_unique hB heb' heb e2
    have f1 := flat_inj (n := m.b) (a := ib') (a' := ib) (b := ia') (b' := ia) g2 h2 (by omega)
    have f2 := flat_inj (n := m.d) (a := id') (a' := id) (b := ic') (b' := ic) g4 h4 (by omega)
    rw [f1.1, f1.2, f2.1, f2.2]

/-- Elements with a multipole outside all bands are not written. -/
theorem coupled_unset (cw : CovWsp K) (m : Maps) (Ba Bb : Bins K) (s : CovCls K) (junk : ℕ → K)
    (hb : ∀ e ∈ Bb.bands.flatten, e.ell ≤ cw.lmax) {la lb p q : ℕ} (hlb : lb ≤ cw.lmax)
    (hp : p < m.a * m.b) (hq : q < m.c * m.d) (h : ¬ (InBand Ba la ∧ InBand Bb lb)) :
    runWrites (coupledWrites cw m (m.a * m.b) (m.c * m.d) Ba Bb s) junk
      (((m.a * m.b * la + p) * (cw.lmax + 1) + lb) * (m.c * m.d) + q) =
      junk (((m.a * m.b * la + p) * (cw.lmax + 1) + lb) * (m.c * m.d) + q) := by
  apply runWrites_notMem
  intro w hw hi
  obtain ⟨ea', hea', eb', heb', ia', ib', ic', id', g1, g2, g3, g4, rfl⟩ := mem_coupledWrites.1 hw
  obtain ⟨e1, e2, e3, e4⟩ := coupled_index_inj (comp_lt g1 g2) hp (comp_lt g3 g4) hq (hb _ heb') hlb hi
  exact h ⟨⟨ea', hea', e1⟩, ⟨eb', heb', e2⟩⟩

/-- Assignments do not depend on the earlier contents. -/
theorem runWrites_indep {ι : Type*} [DecidableEq ι] (ws : List (ι × K)) (j j' : ι → K) (i : ι) (h : ∃ w ∈ ws, w.1 = i) :
    runWrites ws j i = runWrites ws j' i := by
  unfold runWrites
  induction ws generalizing j j' with
  | nil => obtain ⟨w, hw, -⟩ := h; cases hw
  | cons a t ih =>
    rw [List.foldl_cons, List.foldl_cons]
    by_cases ht : ∃ w ∈ t, w.1 = i
    · exact ih _ _ ht
    · have hn : ∀ w ∈ t, w.1 ≠ i := fun w hw hi => ht ⟨w, hw, hi⟩
      have e1 := runWrites_notMem t (Function.update j a.1 a.2) i hn
      have e2 := runWrites_notMem t (Function.update j' a.1 a.2) i hn
      unfold runWrites at e1 e2
      rw [e1, e2]
      obtain ⟨w, hw, hi⟩ := h
      rcases List.mem_cons.1 hw with rfl | hw
      · rw [← hi, Function.update_self, Function.update_self]
      · exact absurd hi (hn w hw)

/-- Sum over two bands assigned to an element of the binned covariance. -/
def binnedSum (cw : CovWsp K) (m : Maps) (s : CovCls K) (ia ib ic id : ℕ) (bA bB : List (BandEntry K)) : K :=
  (bA.map fun ea => (bB.map fun eb =>
    covElement cw m s ia ib ic id ea.ell eb.ell (ea.w * ea.f * eb.w * eb.f)).sum).sum

theorem covBinned_apply (junk : ℕ × ℕ → K) (cw : CovWsp K) (m : Maps) (wa wb : Wsp K) (s : CovCls K)
    (hna : wa.ncls = m.a * m.b) (hnb : wb.ncls = m.c * m.d) {ia ib ic id bA bB : ℕ} (h1 : ia < m.a) (h2 : ib < m.b)
    (h3 : ic < m.c) (h4 : id < m.d) (hA : bA < wa.bin.nBands) (hB : bB < wb.bin.nBands) :
    covBinned junk cw m wa wb s (wa.ncls * bA + (ib + m.b * ia)) (wb.ncls * bB + (id + m.d * ic)) =
      binnedSum cw m s ia ib ic id (wa.bin.band bA) (wb.bin.band bB) := by
  unfold covBinned
  apply runWrites_mem
  · unfold binnedCovWrites
    simp only [List.mem_flatMap, List.mem_map, List.mem_range]
    exact ⟨bA, hA, bB, hB, (ia, ib, ic, id), mem_quads.2 ⟨h1, h2, h3, h4⟩, rfl⟩
  · intro w hw hi
    unfold binnedCovWrites at hw
    simp only [List.mem_flatMap, List.mem_map, List.mem_range] at hw
    obtain ⟨bA', hA', bB', hB', ⟨ia', ib', ic', id'⟩, hq, rfl⟩ := hw
    obtain ⟨g1, g2, g3, g4⟩ := mem_quads.1 hq
    simp only [Prod.mk.injEq] at hi
    have e1 := flat_inj (n := wa.ncls) (by rw [hna]; exact comp_lt g1 g2) (by rw [hna]; exact comp_lt h1 h2) hi.1
    have e2 := flat_inj (n := wb.ncls) (by rw [hnb]; exact comp_lt g3 g4) (by rw [hnb]; exact comp_lt h3 h4) hi.2
    have f1 := flat_inj (n := m.b) (a := ib') (a' := ib) (b := ia') (b' := ia) g2 h2 (by omega)
    have f2 := flat_inj (n := m.d) (a := id') (a' := id) (b := ic') (b' := ic) g4 h4 (by omega)
    rw [f1.1, f1.2, f2.1, f2.2, e1.2, e2.2]
    rfl

/-- The decoupled output array. -/
theorem decoupled_out (n1 n2 : ℕ) (out : ℕ → ℕ → K) (junk : ℕ → K) {i j : ℕ} (hi : i < n1) (hj : j < n2) :
    runWrites ((List.range n1).flatMap fun ii => (List.range n2).map fun jj => (ii * n2 + jj, out ii jj)) junk
      (i * n2 + j) = out i j := by
  apply runWrites_mem
  · simp only [List.mem_flatMap, List.mem_map, List.mem_range]
    exact ⟨i, hi, j, hj, rfl⟩
  · intro w hw hk
    simp only [List.mem_flatMap, List.mem_map, List.mem_range] at hw
    obtain ⟨i', hi', j', hj', rfl⟩ := hw
    have := flat_inj (n := n2) hj' hj (b := i') (b' := i) (by rw [Nat.mul_comm n2, Nat.mul_comm n2]; exact hk)
    rw [this.1, this.2]

/-! ## The call as a whole -/

theorem nmaps_pos (s : ℤ) : 0 < nmaps s := by unfold nmaps; split_ifs <;> omega

theorem nmaps_cases (s : ℤ) : nmaps s = 1 ∨ nmaps s = 2 := by unfold nmaps; split_ifs <;> omega

/-- What the decoupled covariance consists of. -/
def decoupledElt (L : LinAlg K) (mat : ℕ × ℕ → K) (cw : CovWsp K) (m : Maps) (a b : Wsp K) (s : CovCls K) (i j : ℕ) : K :=
  ∑ k ∈ range (a.ncls * a.bin.nBands), L.invert (a.ncls * a.bin.nBands) a.binned i k *
    ∑ k' ∈ range (b.ncls * b.bin.nBands), covBinned mat cw m a b s k k' * L.invert (b.ncls * b.bin.nBands) b.binned j k'

variable (L : LinAlg K) (jk : CovJunk K) (cw : CovWsp K) (a1 a2 b1 b2 : ℤ) (s : CovCls K) (oa ob : Obj K) (a b : Wsp K)

theorem covers_of {m : Maps} {lmax : ℕ} (h1 : s.ac.rows = m.a * m.c) (h2 : s.ad.rows = m.a * m.d) (h3 : s.bc.rows = m.b * m.c)
    (h4 : s.bd.rows = m.b * m.d) (h5 : lmax < s.ac.cols) (h6 : lmax < s.ad.cols) (h7 : lmax < s.bc.cols)
    (h8 : lmax < s.bd.cols) : s.covers m lmax = true := by
  unfold CovCls.covers
  rw [decide_eq_true_eq]
  exact ⟨h1.ge, h2.ge, h3.ge, h4.ge, h5, h6, h7, h8⟩

theorem sameLength_iff : s.sameLength = true ↔ s.ac.cols = s.ad.cols ∧ s.ac.cols = s.bc.cols ∧ s.ac.cols = s.bd.cols := by
  unfold CovCls.sameLength
  simp [and_assoc]

theorem argoutArray_small {n : ℕ} (h : n < 2 ^ 31) : argoutArray n = .ok () := by
  unfold argoutArray
  rw [if_neg (by omega), if_neg (by omega)]

/-- A consistent call succeeds; this is its value. -/
theorem call_ok (coupled : Bool) (hoa : oa.wsp = some a) (hob : ob.wsp = some b)
    (hA : ∀ e ∈ a.bin.bands.flatten, e.ell ≤ a.bin.ellMax) (hB : ∀ e ∈ b.bin.bands.flatten, e.ell ≤ b.bin.ellMax)
    (h : Consistent cw a1 a2 b1 b2 s oa ob a b coupled) :
    gaussianCovariance L jk (some cw) a1 a2 b1 b2 s oa (some ob) coupled =
      .ok (if coupled then reshapeFlat (a.ncls * (cw.lmax + 1)) (b.ncls * (cw.lmax + 1))
          (runWrites (coupledWrites cw (Maps.ofSpins a1 a2 b1 b2) a.ncls b.ncls a.bin b.bin s) jk.out)
        else Arr2.of (a.ncls * a.bin.nBands) (b.ncls * b.bin.nBands)
          (decoupledElt L jk.mat cw (Maps.ofSpins a1 a2 b1 b2) a b s)) := by
  obtain ⟨n, hn, c1, c2, c3, c4⟩ := h.length
  obtain ⟨r1, r2, r3, r4⟩ := h.rows
  have hin : covInside cw (Maps.ofSpins a1 a2 b1 b2) a b s = true := by
    unfold covInside
    rw [Bool.and_eq_true, Bool.and_eq_true, below_iff, below_iff]
    refine ⟨⟨fun e he => (hA e he).trans h.limit.1, fun e he => (hB e he).trans h.limit.2⟩, ?_⟩
    exact covers_of s r1 r2 r3 r4 (by omega) (by omega) (by omega) (by omega)
  have hchk : covChecks cw a1 a2 b1 b2 a b = .ok () := by
    unfold covChecks
    have l1 := h.limit.1
    have l2 := h.limit.2
    rw [if_neg (by omega), if_neg (by rintro ⟨h1, h2⟩; exact h2 (h.spins h1)),
      if_neg (by rw [h.wspA, h.wspB]; simp)]
  have hlen : s.sameLength = true := by rw [sameLength_iff]; omega
  have hsz := argoutArray_small h.small
  unfold covSize at hsz
  unfold gaussianCovariance
  simp only [Option.getD_some, hoa, hob]
  rw [if_neg (by rw [h.wspA, h.wspB]; simp), if_neg (by rw [r1, r2, r3, r4]; simp), if_neg (by omega)]
  cases coupled with
  | true =>
    obtain ⟨u1, u2⟩ := h.matrices rfl
    rw [if_pos rfl] at hsz
    simp only [if_true, Obj.checkUnbinned, hsz, u1, u2, Outcome.bind, hlen, covCoupledC, hchk, hin]
  | false =>
    rw [if_neg (by simp)] at hsz
    simp only [Bool.false_eq_true, if_false, hsz, hlen, if_true, covDecoupledC, hchk, hin, Outcome.bind]
    congr 1
    unfold reshapeFlat
    refine Arr2.of_congr fun i j hi hj => ?_
    rw [decoupled_out _ _ _ _ hi hj]
    rfl

end NaMaster
