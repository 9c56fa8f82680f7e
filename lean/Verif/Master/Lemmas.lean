import Verif.Master.Model
import Verif.Bins.Lemmas3
import Mathlib.LinearAlgebra.Matrix.ToLin
import Mathlib.Algebra.BigOperators.Fin
import Mathlib.Algebra.BigOperators.Ring.Finset
import Mathlib.Tactic.Ring
import Mathlib.Tactic.Linarith

/-! Helper lemmas for workspaces. -/

namespace NaMaster

open Finset

variable {K : Type*} [Field K]

theorem binMatrix_apply (ncls : ℕ) (normType : ℤ) (w2 : K) (beam : ℕ → K) (B : Bins K)
    (U : ℕ → ℕ → K) {a b ib2 ib3 : ℕ} (ha : a < ncls) (hb : b < ncls) (h2 : ib2 < B.nBands)
    (h3 : ib3 < B.nBands) :
    binMatrix ncls normType w2 beam B U (ncls * ib2 + a) (ncls * ib3 + b) =
      binnedElement ncls normType w2 beam B U a b ib2 ib3 := by
  unfold binMatrix
  apply runWrites_mem
  · unfold binnedWrites
    simp only [List.mem_flatMap, List.mem_map, List.mem_range]
    exact ⟨a, ha, b, hb, ib2, h2, ib3, h3, rfl⟩
  · intro w hw hi
    unfold binnedWrites at hw
    simp only [List.mem_flatMap, List.mem_map, List.mem_range] at hw
    obtain ⟨a', ha', b', hb', i2, hi2, i3, hi3, rfl⟩ := hw
    simp only [Prod.mk.injEq] at hi
    obtain ⟨rfl, rfl⟩ := flat_inj ha' ha hi.1
    obtain ⟨rfl, rfl⟩ := flat_inj hb' hb hi.2
    rfl

theorem binnedInput_apply (ncls : ℕ) (B : Bins K) (cl noise bias : ℕ → ℕ → K) {icl ib : ℕ}
    (ha : icl < ncls) (hb : ib < B.nBands) :
    binnedInput ncls B cl noise bias (ncls * ib + icl) =
      ((B.band ib).map (fun e => (cl icl e.ell - noise icl e.ell - bias icl e.ell) * e.f * e.w)).sum := by
  unfold binnedInput
  apply runWrites_mem
  · simp only [List.mem_flatMap, List.mem_map, List.mem_range]
    exact ⟨icl, ha, ib, hb, rfl⟩
  · intro w hw hi
    simp only [List.mem_flatMap, List.mem_map, List.mem_range] at hw
    obtain ⟨a', ha', b', hb', rfl⟩ := hw
    simp only at hi
    obtain ⟨rfl, rfl⟩ := flat_inj ha' ha hi
    rfl

theorem foldl_addAt (ws : List ((ℕ × ℕ) × K)) (m : ℕ × ℕ → K) (i : ℕ × ℕ) :
    ws.foldl addAt m i = m i + (ws.map (fun w => if w.1 = i then w.2 else 0)).sum := by
  induction ws generalizing m with
  | nil => simp
  | cons w t ih =>
    rw [List.foldl_cons, ih, List.map_cons, List.sum_cons]
    unfold addAt
    by_cases h : w.1 = i
    · subst h; simp; ring
    · rw [Function.update_of_ne (Ne.symm h)]; simp [h]

theorem sum_flatMap {α β : Type*} (l : List α) (f : α → List β) (g : β → K) :
    ((l.flatMap f).map g).sum = (l.map (fun x => ((f x).map g).sum)).sum := by
  induction l with
  | nil => rfl
  | cons a t ih => simp [List.flatMap_cons, ih]

theorem list_range_sum (n : ℕ) (f : ℕ → K) : ((List.range n).map f).sum = ∑ i ∈ range n, f i := by
  induction n with
  | zero => simp
  | succ n ih => rw [List.range_succ, List.map_append, List.sum_append, ih, sum_range_succ]; simp

theorem coupledBin_apply (ncls lmax : ℕ) (B : Bins K) (U : ℕ → ℕ → K) (beam : ℕ → K)
    {icl1 ib1 icl2 l2 : ℕ} (h1 : icl1 < ncls) (hb : ib1 < B.nBands) (h2 : icl2 < ncls) (hl : l2 < lmax + 1) :
    coupledBin ncls lmax B U beam (ncls * ib1 + icl1, ncls * l2 + icl2) =
      ((B.band ib1).map (fun e => U (ncls * e.ell + icl1) (ncls * l2 + icl2) * beam l2 * (e.f * e.w))).sum := by
  unfold coupledBin
  rw [foldl_addAt, zero_add, sum_flatMap, list_range_sum]
  rw [Finset.sum_eq_single icl1]
  · rw [sum_flatMap, list_range_sum, Finset.sum_eq_single ib1]
    · rw [sum_flatMap]
      congr 1
      apply List.map_congr_left
      intro e _
      rw [sum_flatMap, list_range_sum, Finset.sum_eq_single icl2]
      · rw [List.map_map, list_range_sum, Finset.sum_eq_single l2]
        · simp
        · intro l _ hne
          simp only [Function.comp_apply]
          rw [if_neg]
          intro h
          exact hne (flat_inj h2 h2 (Prod.mk.inj h).2).2
        · intro h; exact absurd (Finset.mem_range.2 hl) h
      · intro c hc hne
        rw [List.map_map, list_range_sum]
        apply Finset.sum_eq_zero
        intro l _
        simp only [Function.comp_apply]
        rw [if_neg]
        intro h
        exact hne (flat_inj (Finset.mem_range.1 hc) h2 (Prod.mk.inj h).2).1
      · intro h; exact absurd (Finset.mem_range.2 h2) h
    · intro b _ hne
      rw [sum_flatMap]
      apply List.sum_eq_zero
      intro x hx
      obtain ⟨e, _, rfl⟩ := List.mem_map.1 hx
      apply List.sum_eq_zero
      intro y hy
      simp only [List.mem_map, List.mem_flatMap, List.mem_range] at hy
      obtain ⟨z, ⟨c, hc, l, hl', rfl⟩, rfl⟩ := hy
      rw [if_neg]
      intro h
      exact hne (flat_inj h1 h1 (Prod.mk.inj h).1).2
    · intro h; exact absurd (Finset.mem_range.2 hb) h
  · intro a ha hne
    apply List.sum_eq_zero
    intro y hy
    simp only [List.mem_map, List.mem_flatMap, List.mem_range] at hy
    obtain ⟨z, ⟨b, hb', e, he, c, hc, l, hl', rfl⟩, rfl⟩ := hy
    rw [if_neg]
    intro h
    exact hne (flat_inj (Finset.mem_range.1 ha) h1 (Prod.mk.inj h).1).1
  · intro h; exact absurd (Finset.mem_range.2 h1) h

theorem sum_flat (n m : ℕ) (g : ℕ → K) :
    ∑ k ∈ range (n * m), g k = ∑ b ∈ range m, ∑ a ∈ range n, g (n * b + a) := by
  induction m with
  | zero => simp
  | succ m ih => rw [Nat.mul_succ, sum_range_add, ih, sum_range_succ]

theorem bandpowerWindows_apply (L : LinAlg K) (w : Wsp K) (U : ℕ → ℕ → K) {icl1 ib1 icl2 l2 : ℕ}
    (h1 : icl1 < w.ncls) (hb : ib1 < w.bin.nBands) (h2 : icl2 < w.ncls) (hl : l2 < w.lmax + 1) :
    bandpowerWindows L w U icl1 ib1 icl2 l2 =
      ∑ k ∈ range (w.ncls * w.bin.nBands), L.invert (w.ncls * w.bin.nBands) w.binned (w.ncls * ib1 + icl1) k *
        coupledBin w.ncls w.lmax w.bin U w.beamProd (k, w.ncls * l2 + icl2) := by
  unfold bandpowerWindows bpwWindows
  apply runWrites_mem
  · simp only [List.mem_flatMap, List.mem_map, List.mem_range]
    refine ⟨icl1, h1, ib1, hb, icl2, h2, l2, hl, ?_⟩
    congr 1
    ring
  · intro x hx hi
    simp only [List.mem_flatMap, List.mem_map, List.mem_range] at hx
    obtain ⟨a, ha, b, hb', c, hc, l, hl', rfl⟩ := hx
    simp only at hi
    have e1 : w.ncls * (w.lmax + 1) * (w.ncls * b + a) + (w.ncls * l + c) =
        w.ncls * (w.lmax + 1) * (w.ncls * ib1 + icl1) + (w.ncls * l2 + icl2) := by
      calc _ = (w.ncls * b + a) * w.ncls * (w.lmax + 1) + (w.ncls * l + c) := by ring
        _ = ((ib1 * w.ncls + icl1) * (w.lmax + 1) + l2) * w.ncls + icl2 := hi
        _ = _ := by ring
    obtain ⟨e2, e3⟩ := flat_inj (flat_lt hc hl') (flat_lt h2 hl) e1
    obtain ⟨rfl, rfl⟩ := flat_inj hc h2 e2
    obtain ⟨rfl, rfl⟩ := flat_inj ha h1 e3
    rfl

theorem mulVec_eq (n : ℕ) (M : ℕ → ℕ → K) (x : ℕ → K) (i : Fin n) :
    ((toMat n M).mulVec (fun j : Fin n => x j)) i = ∑ j ∈ range n, M i j * x j := by
  unfold Matrix.mulVec dotProduct toMat
  rw [Finset.sum_range]

/-- Solutions are unique for invertible matrices. -/
theorem Regular.unique {n : ℕ} {M : ℕ → ℕ → K} (h : Regular n M) (x y : ℕ → K)
    (he : ∀ i, i < n → ∑ j ∈ range n, M i j * x j = ∑ j ∈ range n, M i j * y j) :
    ∀ i, i < n → x i = y i := by
  have hinj : Function.Injective (toMat n M).mulVec :=
    Matrix.mulVec_injective_of_isUnit ((Matrix.isUnit_iff_isUnit_det _).2 h)
  have := @hinj (fun j : Fin n => x j) (fun j : Fin n => y j) (by
    funext i
    rw [mulVec_eq, mulVec_eq]
    exact he i i.2)
  intro i hi
  exact congrFun this ⟨i, hi⟩

theorem LinAlg.Correct.solve_eq {L : LinAlg K} (hL : L.Correct) {n : ℕ} {M : ℕ → ℕ → K}
    (h : Regular n M) (x y : ℕ → K) (he : ∀ i, i < n → ∑ j ∈ range n, M i j * x j = y i) :
    ∀ i, i < n → L.solve n M y i = x i :=
  h.unique _ _ (fun i hi => by rw [hL.solve_spec n M y h i hi, he i hi])

/-- Solving is multiplication with the inverse. -/
theorem LinAlg.Correct.solve_invert {L : LinAlg K} (hL : L.Correct) {n : ℕ} {M : ℕ → ℕ → K}
    (h : Regular n M) (y : ℕ → K) :
    ∀ i, i < n → L.solve n M y i = ∑ k ∈ range n, L.invert n M i k * y k := by
  apply hL.solve_eq h (fun i => ∑ k ∈ range n, L.invert n M i k * y k)
  intro i hi
  simp only [Finset.mul_sum]
  rw [Finset.sum_comm]
  have : ∀ k ∈ range n, ∑ j ∈ range n, M i j * (L.invert n M j k * y k) =
      (if i = k then 1 else 0) * y k := by
    intro k hk
    rw [← hL.invert_spec n M h i k hi (mem_range.1 hk), Finset.sum_mul]
    exact Finset.sum_congr rfl (fun _ _ => by ring)
  rw [Finset.sum_congr rfl this]
  simp [hi]

/-- The solution only depends on the right-hand side within range. -/
theorem LinAlg.Correct.solve_congr {L : LinAlg K} (hL : L.Correct) {n : ℕ} {M : ℕ → ℕ → K}
    (h : Regular n M) {y z : ℕ → K} (he : ∀ i, i < n → y i = z i) :
    ∀ i, i < n → L.solve n M y i = L.solve n M z i :=
  hL.solve_eq h _ _ (fun i hi => by rw [hL.solve_spec n M z h i hi, he i hi])

/-- Contribution of the bands from index `i` on to multipole `l` of an unbinned spectrum. -/
def unbinSum (x : ℕ → K) : ℕ → List (List (BandEntry K)) → ℕ → K
  | _, [], _ => 0
  | i, b :: bs, l => (b.map (fun e => if e.ell = l then x i / e.f else 0)).sum + unbinSum x (i + 1) bs l

theorem band_sum_notMem (b : List (BandEntry K)) (c : K) (l : ℕ) (h : l ∉ b.map (·.ell)) :
    (b.map (fun e => if e.ell = l then c / e.f else 0)).sum = 0 := by
  apply List.sum_eq_zero
  intro y hy
  obtain ⟨e, he, rfl⟩ := List.mem_map.1 hy
  rw [if_neg]
  intro hl
  exact h (List.mem_map.2 ⟨e, he, hl⟩)

theorem band_sum_mem (b : List (BandEntry K)) (c : K) (e : BandEntry K) (he : e ∈ b)
    (hnd : (b.map (·.ell)).Nodup) :
    (b.map (fun e' => if e'.ell = e.ell then c / e'.f else 0)).sum = c / e.f := by
  induction b with
  | nil => simp at he
  | cons a t ih =>
    rw [List.map_cons, List.nodup_cons] at hnd
    rw [List.map_cons, List.sum_cons]
    rcases List.mem_cons.1 he with rfl | h
    · rw [if_pos rfl, band_sum_notMem t c _ hnd.1, add_zero]
    · rw [if_neg, zero_add, ih h hnd.2]
      intro hae
      exact hnd.1 (List.mem_map.2 ⟨e, h, hae.symm⟩)

theorem unbinSum_notMem (x : ℕ → K) (i : ℕ) (bs : List (List (BandEntry K))) (l : ℕ)
    (h : l ∉ bs.flatten.map (·.ell)) : unbinSum x i bs l = 0 := by
  induction bs generalizing i with
  | nil => rfl
  | cons b bs ih =>
    simp only [List.flatten_cons, List.map_append, List.mem_append, not_or] at h
    unfold unbinSum
    rw [band_sum_notMem b _ l h.1, ih _ h.2, add_zero]

theorem unbinFrom_eq (x : ℕ → K) (i : ℕ) (bs : List (List (BandEntry K))) (out : ℕ → K) (l : ℕ)
    (hnd : (bs.flatten.map (·.ell)).Nodup) :
    unbinFrom x i bs out l = if l ∈ bs.flatten.map (·.ell) then unbinSum x i bs l else out l := by
  induction bs generalizing i out with
  | nil => simp [unbinFrom]
  | cons b bs ih =>
    simp only [List.flatten_cons, List.map_append] at hnd
    have hnd' := List.nodup_append.1 hnd
    unfold unbinFrom unbinSum
    rw [ih _ _ hnd'.2.1]
    simp only [List.flatten_cons, List.map_append, List.mem_append]
    by_cases h2 : l ∈ bs.flatten.map (·.ell)
    · rw [if_pos h2, if_pos (Or.inr h2), band_sum_notMem b _ l, zero_add]
      intro h1
      exact hnd'.2.2 l h1 l h2 rfl
    · rw [if_neg h2, unbinSum_notMem _ _ _ _ h2, add_zero]
      by_cases h1 : l ∈ b.map (·.ell)
      · rw [if_pos (Or.inl h1)]
        obtain ⟨e, he, rfl⟩ := List.mem_map.1 h1
        rw [unbinBand_mem _ _ _ _ he hnd'.1, band_sum_mem _ _ _ he hnd'.1]
      · rw [if_neg (by rintro (h | h); exacts [h1 h, h2 h]), unbinBand_notMem _ _ _ _ h1]

theorem sum_unbinSum (x : ℕ → K) (i : ℕ) (bs : List (List (BandEntry K))) (n : ℕ) (g : ℕ → K)
    (hlt : ∀ b ∈ bs, ∀ e ∈ b, e.ell < n) :
    ∑ l ∈ range n, g l * unbinSum x i bs l =
      ∑ k ∈ range bs.length, ((bs.getD k []).map (fun e => g e.ell * (x (i + k) / e.f))).sum := by
  induction bs generalizing i with
  | nil => simp [unbinSum]
  | cons b bs ih =>
    simp only [unbinSum, mul_add, Finset.sum_add_distrib]
    rw [ih _ (fun b' hb' => hlt b' (List.mem_cons_of_mem _ hb')), List.length_cons, Finset.sum_range_succ',
      add_comm]
    congr 1
    · apply Finset.sum_congr rfl
      intro k _
      simp [add_assoc, add_comm 1 k]
    · simp only [List.getD_cons_zero, add_zero]
      have hb := hlt b List.mem_cons_self
      clear ih hlt
      induction b with
      | nil => simp
      | cons e t iht =>
        simp only [List.map_cons, List.sum_cons, mul_add, Finset.sum_add_distrib]
        rw [iht (fun e' he' => hb e' (List.mem_cons_of_mem _ he'))]
        congr 1
        rw [Finset.sum_eq_single e.ell]
        · simp
        · intro l _ hne; rw [if_neg (Ne.symm hne), mul_zero]
        · intro h; exact absurd (mem_range.2 (hb e List.mem_cons_self)) h

/-- Summing a function against an unbinned spectrum gives a sum over the entries of the bands. -/
theorem sum_unbinCls (B : Bins K) (x : ℕ → K) (n : ℕ) (g : ℕ → K) (hnd : BinSpec.NoRepeats B)
    (hlt : ∀ b ∈ B.bands, ∀ e ∈ b, e.ell < n) :
    ∑ l ∈ range n, g l * unbinCls B x l =
      ∑ k ∈ range B.nBands, ((B.band k).map (fun e => g e.ell * (x k / e.f))).sum := by
  have h : ∀ l, unbinCls B x l = unbinSum x 0 B.bands l := by
    intro l
    unfold unbinCls
    rw [unbinFrom_eq _ _ _ _ _ hnd]
    split_ifs with h
    · rfl
    · rw [unbinSum_notMem _ _ _ _ h]
  simp only [h]
  rw [sum_unbinSum _ _ _ _ _ hlt]
  simp [Bins.nBands, Bins.band]

end NaMaster
