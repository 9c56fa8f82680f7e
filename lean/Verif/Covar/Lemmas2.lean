import Verif.Covar.Lemmas
import Mathlib.Tactic.Ring
import Mathlib.Tactic.FinCases

/-! Symmetries of the elements of Gaussian covariances. -/

set_option linter.unusedSectionVars false

namespace NaMaster

open Finset CovSpec

variable {K : Type*} [Field K]

/-- Summand of `covElement`. -/
def covTerm (cw : CovWsp K) (m : Maps) (s : CovCls K) (ia ib ic id la lb iap ibp icp idp : ℕ) : K :=
  cw.x1122.at la lb (covPair m.a m.c m.b m.d ia iap ic icp ib ibp id idp) *
      (1 / 2 * (s.ac.val (icp + m.c * iap) la * s.bd.val (idp + m.d * ibp) lb +
        s.ac.val (icp + m.c * iap) lb * s.bd.val (idp + m.d * ibp) la)) +
    cw.x1221.at la lb (covPair m.a m.d m.b m.c ia iap id idp ib ibp ic icp) *
      (1 / 2 * (s.ad.val (idp + m.d * iap) la * s.bc.val (icp + m.c * ibp) lb +
        s.ad.val (idp + m.d * iap) lb * s.bc.val (icp + m.c * ibp) la))

theorem covElement_eq (cw : CovWsp K) (m : Maps) (s : CovCls K) (ia ib ic id la lb : ℕ) (pre : K) :
    covElement cw m s ia ib ic id la lb pre = (∑ iap ∈ range m.a, ∑ ibp ∈ range m.b, ∑ icp ∈ range m.c, ∑ idp ∈ range m.d,
      covTerm cw m s ia ib ic id la lb iap ibp icp idp) * pre := by
  unfold covElement
  simp only [Finset.sum_mul]
  rfl

/-- Exchange of the two fields of a pair: the two kinds of mixing terms swap. -/
def flipKind (k : ℕ) : ℕ := if k = 2 then 3 else if k = 3 then 2 else k

theorem covIndex_swap {n m p q p' q' : ℕ} (hn : n = 1 ∨ n = 2) (hm : m = 1 ∨ m = 2) (hp : p < n) (hq : q < m) (hp' : p' < n)
    (hq' : q' < m) : covIndex m n q p q' p' = flipKind (covIndex n m p q p' q') := by
  rcases hn with rfl | rfl <;> rcases hm with rfl | rfl <;> interval_cases p <;> interval_cases q <;> interval_cases p' <;>
    interval_cases q' <;> rfl

theorem covIndex_mem {n m p q p' q' : ℕ} (hn : n = 1 ∨ n = 2) (hm : m = 1 ∨ m = 2) (hp : p < n) (hq : q < m) (hp' : p' < n)
    (hq' : q' < m) : covIndex n m p q p' q' ∈ [0, 1, 2, 3, 5] := by
  rcases hn with rfl | rfl <;> rcases hm with rfl | rfl <;> interval_cases p <;> interval_cases q <;> interval_cases p' <;>
    interval_cases q' <;> decide

theorem pairKind_flip {i j : ℕ} (hi : i ∈ [0, 1, 2, 3, 5]) (hj : j ∈ [0, 1, 2, 3, 5]) :
    pairKind (flipKind i) (flipKind j) = pairKind i j := by
  fin_cases hi <;> fin_cases hj <;> rfl

theorem pairKind_comm {i j : ℕ} (hi : i ∈ [0, 1, 2, 3, 5]) (hj : j ∈ [0, 1, 2, 3, 5]) : pairKind i j = pairKind j i := by
  fin_cases hi <;> fin_cases hj <;> rfl

theorem at_symm {x : CovXi K} {lmax la lb : ℕ} (h : Symmetric x lmax) (ha : la ≤ lmax) (hb : lb ≤ lmax) (k : ℕ) :
    x.at la lb k = x.at lb la k := by
  obtain ⟨h0, h1, h2, h3⟩ := h la lb ha hb
  match k with
  | 0 => exact h0
  | 1 => exact h1
  | 2 => exact h2
  | 3 => exact h3
  | 4 => exact congrArg Neg.neg h3
  | _ + 5 => rfl

/-- Numbers of maps are 1 or 2. -/
structure Maps.Valid (m : Maps) : Prop where
  a : m.a = 1 ∨ m.a = 2
  b : m.b = 1 ∨ m.b = 2
  c : m.c = 1 ∨ m.c = 2
  d : m.d = 1 ∨ m.d = 2

theorem Maps.ofSpins_valid (a b c d : ℤ) : (Maps.ofSpins a b c d).Valid :=
  ⟨nmaps_cases a, nmaps_cases b, nmaps_cases c, nmaps_cases d⟩

/-- Exchange of the pairs. -/
theorem covElement_exchange (cw : CovWsp K) (m : Maps) (hm : m.Valid) (s s' : CovCls K)
    (h1 : Transposed m.a m.c s.ac s'.ac) (h2 : Transposed m.b m.c s.bc s'.ad) (h3 : Transposed m.a m.d s.ad s'.bc)
    (h4 : Transposed m.b m.d s.bd s'.bd) (c1 : cw.lmax < s.ac.cols) (c2 : cw.lmax < s.bc.cols) (c3 : cw.lmax < s.ad.cols)
    (c4 : cw.lmax < s.bd.cols) (hx : Symmetric cw.x1122 cw.lmax) (hy : Symmetric cw.x1221 cw.lmax)
    {ia ib ic id la lb : ℕ} (hia : ia < m.a) (hib : ib < m.b) (hic : ic < m.c) (hid : id < m.d) (hla : la ≤ cw.lmax)
    (hlb : lb ≤ cw.lmax) (pre : K) :
    covElement cw ⟨m.c, m.d, m.a, m.b⟩ s' ic id ia ib lb la pre = covElement cw m s ia ib ic id la lb pre := by
  rw [covElement_eq, covElement_eq]
  congr 1
  have e : ∀ f : ℕ → ℕ → ℕ → ℕ → K, ∑ icp ∈ range m.c, ∑ idp ∈ range m.d, ∑ iap ∈ range m.a, ∑ ibp ∈ range m.b, f iap ibp icp idp =
      ∑ iap ∈ range m.a, ∑ ibp ∈ range m.b, ∑ icp ∈ range m.c, ∑ idp ∈ range m.d, f iap ibp icp idp := by
    intro f
    calc _ = ∑ icp ∈ range m.c, ∑ iap ∈ range m.a, ∑ idp ∈ range m.d, ∑ ibp ∈ range m.b, f iap ibp icp idp :=
          sum_congr rfl fun _ _ => sum_comm
      _ = ∑ icp ∈ range m.c, ∑ iap ∈ range m.a, ∑ ibp ∈ range m.b, ∑ idp ∈ range m.d, f iap ibp icp idp :=
          sum_congr rfl fun _ _ => sum_congr rfl fun _ _ => sum_comm
      _ = ∑ iap ∈ range m.a, ∑ icp ∈ range m.c, ∑ ibp ∈ range m.b, ∑ idp ∈ range m.d, f iap ibp icp idp := sum_comm
      _ = _ := sum_congr rfl fun _ _ => sum_comm
  rw [← e]
  refine sum_congr rfl fun icp hicp => sum_congr rfl fun idp hidp => sum_congr rfl fun iap hiap => sum_congr rfl fun ibp hibp => ?_
  rw [mem_range] at hicp hidp hiap hibp
  unfold covTerm covPair
  simp only
  rw [h1.2.2 _ hiap _ hicp _ (by omega), h1.2.2 _ hiap _ hicp _ (by omega), h2.2.2 _ hibp _ hicp _ (by omega),
    h2.2.2 _ hibp _ hicp _ (by omega), h3.2.2 _ hiap _ hidp _ (by omega), h3.2.2 _ hiap _ hidp _ (by omega),
    h4.2.2 _ hibp _ hidp _ (by omega), h4.2.2 _ hibp _ hidp _ (by omega)]
  rw [covIndex_swap hm.a hm.c hia hic hiap hicp, covIndex_swap hm.b hm.d hib hid hibp hidp,
    covIndex_swap hm.b hm.c hib hic hibp hicp, covIndex_swap hm.a hm.d hia hid hiap hidp,
    pairKind_flip (covIndex_mem hm.a hm.c hia hic hiap hicp) (covIndex_mem hm.b hm.d hib hid hibp hidp),
    pairKind_flip (covIndex_mem hm.b hm.c hib hic hibp hicp) (covIndex_mem hm.a hm.d hia hid hiap hidp),
    pairKind_comm (covIndex_mem hm.b hm.c hib hic hibp hicp) (covIndex_mem hm.a hm.d hia hid hiap hidp),
    at_symm hx hlb hla, at_symm hy hlb hla]
  ring

/-! ## Linearity -/

theorem covElement_linear (cw : CovWsp K) (m : Maps) (x y : K) (s p q : CovCls K) (h : FieldComb x y s p q)
    (ia ib ic id la lb : ℕ) (pre : K) :
    covElement cw m s ia ib ic id la lb pre =
      x * covElement cw m p ia ib ic id la lb pre + y * covElement cw m q ia ib ic id la lb pre := by
  rw [covElement_eq, covElement_eq, covElement_eq, ← mul_assoc, ← mul_assoc, ← add_mul]
  congr 1
  simp only [Finset.mul_sum, ← Finset.sum_add_distrib]
  refine sum_congr rfl fun iap _ => sum_congr rfl fun ibp _ => sum_congr rfl fun icp _ => sum_congr rfl fun idp _ => ?_
  unfold covTerm
  cases h with
  | a1 h1 h2 h3 h4 =>
    rw [← h3.1, ← h3.2, ← h4.1, ← h4.2]
    simp only [h1.2.2.2.2, h2.2.2.2.2]
    ring
  | a2 h1 h2 h3 h4 =>
    rw [← h3.1, ← h3.2, ← h4.1, ← h4.2]
    simp only [h1.2.2.2.2, h2.2.2.2.2]
    ring
  | b1 h1 h2 h3 h4 =>
    rw [← h3.1, ← h3.2, ← h4.1, ← h4.2]
    simp only [h1.2.2.2.2, h2.2.2.2.2]
    ring
  | b2 h1 h2 h3 h4 =>
    rw [← h3.1, ← h3.2, ← h4.1, ← h4.2]
    simp only [h1.2.2.2.2, h2.2.2.2.2]
    ring

/-! ## Rotations -/

/-- Coefficients of the three kinds of couplings of a pair of fields. -/
def kZ (k : ℕ) : K := if k = 0 then 1 else 0

def kP (k : ℕ) : K := if k = 1 then 1 else 0

def kM (k : ℕ) : K := if k = 2 then 1 else if k = 3 then -1 else 0

theorem at_pairKind (x : CovXi K) (la lb : ℕ) {i j : ℕ} (hi : i ∈ [0, 1, 2, 3, 5]) (hj : j ∈ [0, 1, 2, 3, 5]) :
    x.at la lb (pairKind i j) = kZ i * (x.xi00 la lb * kZ j + x.xi02 la lb * kP j) +
      kP i * (x.xi02 la lb * kZ j + x.xi22p la lb * kP j) + kM i * (-(x.xi22m la lb * kM j)) := by
  fin_cases hi <;> fin_cases hj <;> simp [pairKind, CovXi.at, kZ, kP, kM]

theorem k_rot_first (c s : K) {n m p q q' t : ℕ} (hn : n = 1 ∨ n = 2) (hm : m = 1 ∨ m = 2) (hp : p < n)
    (hq : q < m) (hq' : q' < m) (ht : t < n) :
    ∑ p' ∈ range n, (kZ (covIndex n m p q p' q') : K) * rotMat n c s p' t = ∑ t' ∈ range n, rotMat n c s p t' * kZ (covIndex n m t' q t q') ∧
    ∑ p' ∈ range n, (kP (covIndex n m p q p' q') : K) * rotMat n c s p' t = ∑ t' ∈ range n, rotMat n c s p t' * kP (covIndex n m t' q t q') ∧
    ∑ p' ∈ range n, (kM (covIndex n m p q p' q') : K) * rotMat n c s p' t = ∑ t' ∈ range n, rotMat n c s p t' * kM (covIndex n m t' q t q') := by
  rcases hn with rfl | rfl <;> rcases hm with rfl | rfl <;> interval_cases p <;> interval_cases q <;> interval_cases q' <;>
    interval_cases t <;>
    simp [sum_range_succ, covIndex, covarIndices, kZ, kP, kM, rotMat]

theorem k_rot_second (c s : K) {n m p q p' t : ℕ} (hn : n = 1 ∨ n = 2) (hm : m = 1 ∨ m = 2) (hp : p < n)
    (hq : q < m) (hp' : p' < n) (ht : t < m) :
    ∑ q' ∈ range m, (kZ (covIndex n m p q p' q') : K) * rotMat m c s q' t = ∑ t' ∈ range m, rotMat m c s q t' * kZ (covIndex n m p t' p' t) ∧
    ∑ q' ∈ range m, (kP (covIndex n m p q p' q') : K) * rotMat m c s q' t = ∑ t' ∈ range m, rotMat m c s q t' * kP (covIndex n m p t' p' t) ∧
    ∑ q' ∈ range m, (kM (covIndex n m p q p' q') : K) * rotMat m c s q' t = ∑ t' ∈ range m, rotMat m c s q t' * kM (covIndex n m p t' p' t) := by
  rcases hn with rfl | rfl <;> rcases hm with rfl | rfl <;> interval_cases p <;> interval_cases q <;> interval_cases p' <;>
    interval_cases t <;>
    simp [sum_range_succ, covIndex, covarIndices, kZ, kP, kM, rotMat]

theorem at_rot_first (x : CovXi K) (la lb : ℕ) (c s : K) {n m p q q' t j : ℕ} (hn : n = 1 ∨ n = 2) (hm : m = 1 ∨ m = 2) (hp : p < n)
    (hq : q < m) (hq' : q' < m) (ht : t < n) (hj : j ∈ [0, 1, 2, 3, 5]) :
    ∑ p' ∈ range n, x.at la lb (pairKind (covIndex n m p q p' q') j) * rotMat n c s p' t =
      ∑ t' ∈ range n, rotMat n c s p t' * x.at la lb (pairKind (covIndex n m t' q t q') j) := by
  obtain ⟨h1, h2, h3⟩ := k_rot_first c s hn hm hp hq hq' ht
  calc _ = ∑ p' ∈ range n, (kZ (covIndex n m p q p' q') * rotMat n c s p' t * (x.xi00 la lb * kZ j + x.xi02 la lb * kP j) +
        kP (covIndex n m p q p' q') * rotMat n c s p' t * (x.xi02 la lb * kZ j + x.xi22p la lb * kP j) +
        kM (covIndex n m p q p' q') * rotMat n c s p' t * (-(x.xi22m la lb * kM j))) := by
        refine sum_congr rfl fun p' hp' => ?_
        rw [at_pairKind x la lb (covIndex_mem hn hm hp hq (mem_range.1 hp') hq') hj]
        ring
    _ = ∑ t' ∈ range n, (rotMat n c s p t' * kZ (covIndex n m t' q t q') * (x.xi00 la lb * kZ j + x.xi02 la lb * kP j) +
        rotMat n c s p t' * kP (covIndex n m t' q t q') * (x.xi02 la lb * kZ j + x.xi22p la lb * kP j) +
        rotMat n c s p t' * kM (covIndex n m t' q t q') * (-(x.xi22m la lb * kM j))) := by
        rw [sum_add_distrib, sum_add_distrib, ← sum_mul, ← sum_mul, ← sum_mul, h1, h2, h3, sum_mul, sum_mul, sum_mul,
          ← sum_add_distrib, ← sum_add_distrib]
    _ = _ := by
        refine sum_congr rfl fun t' ht' => ?_
        rw [at_pairKind x la lb (covIndex_mem hn hm (mem_range.1 ht') hq ht hq') hj]
        ring

theorem at_rot_second (x : CovXi K) (la lb : ℕ) (c s : K) {n m p q p' t j : ℕ} (hn : n = 1 ∨ n = 2) (hm : m = 1 ∨ m = 2) (hp : p < n)
    (hq : q < m) (hp' : p' < n) (ht : t < m) (hj : j ∈ [0, 1, 2, 3, 5]) :
    ∑ q' ∈ range m, x.at la lb (pairKind (covIndex n m p q p' q') j) * rotMat m c s q' t =
      ∑ t' ∈ range m, rotMat m c s q t' * x.at la lb (pairKind (covIndex n m p t' p' t) j) := by
  obtain ⟨h1, h2, h3⟩ := k_rot_second c s hn hm hp hq hp' ht
  calc _ = ∑ q' ∈ range m, (kZ (covIndex n m p q p' q') * rotMat m c s q' t * (x.xi00 la lb * kZ j + x.xi02 la lb * kP j) +
        kP (covIndex n m p q p' q') * rotMat m c s q' t * (x.xi02 la lb * kZ j + x.xi22p la lb * kP j) +
        kM (covIndex n m p q p' q') * rotMat m c s q' t * (-(x.xi22m la lb * kM j))) := by
        refine sum_congr rfl fun q' hq' => ?_
        rw [at_pairKind x la lb (covIndex_mem hn hm hp hq hp' (mem_range.1 hq')) hj]
        ring
    _ = ∑ t' ∈ range m, (rotMat m c s q t' * kZ (covIndex n m p t' p' t) * (x.xi00 la lb * kZ j + x.xi02 la lb * kP j) +
        rotMat m c s q t' * kP (covIndex n m p t' p' t) * (x.xi02 la lb * kZ j + x.xi22p la lb * kP j) +
        rotMat m c s q t' * kM (covIndex n m p t' p' t) * (-(x.xi22m la lb * kM j))) := by
        rw [sum_add_distrib, sum_add_distrib, ← sum_mul, ← sum_mul, ← sum_mul, h1, h2, h3, sum_mul, sum_mul, sum_mul,
          ← sum_add_distrib, ← sum_add_distrib]
    _ = _ := by
        refine sum_congr rfl fun t' ht' => ?_
        rw [at_pairKind x la lb (covIndex_mem hn hm hp (mem_range.1 ht') hp' ht) hj]
        ring

/-- Contraction with a rotated spectrum. -/
theorem rot_sum {n : ℕ} (X R : ℕ → ℕ → K) (F : ℕ → K) {p : ℕ}
    (h : ∀ t < n, ∑ p' ∈ range n, X p p' * R p' t = ∑ t' ∈ range n, R p t' * X t' t) :
    ∑ p' ∈ range n, X p p' * ∑ t ∈ range n, R p' t * F t = ∑ t' ∈ range n, R p t' * ∑ t ∈ range n, X t' t * F t := by
  simp only [mul_sum]
  rw [sum_comm]
  conv_rhs => rw [sum_comm]
  refine sum_congr rfl fun t ht => ?_
  have := congrArg (· * F t) (h t (mem_range.1 ht))
  simp only [sum_mul] at this
  simpa only [mul_assoc] using this

theorem rot_pair {n : ℕ} (X1 X2 R : ℕ → ℕ → K) (F1 F2 G1 G2 : ℕ → K) {p : ℕ}
    (h1 : ∀ t < n, ∑ p' ∈ range n, X1 p p' * R p' t = ∑ t' ∈ range n, R p t' * X1 t' t)
    (h2 : ∀ t < n, ∑ p' ∈ range n, X2 p p' * R p' t = ∑ t' ∈ range n, R p t' * X2 t' t)
    (g1 : ∀ p' < n, G1 p' = ∑ t ∈ range n, R p' t * F1 t) (g2 : ∀ p' < n, G2 p' = ∑ t ∈ range n, R p' t * F2 t) :
    ∑ p' ∈ range n, (X1 p p' * G1 p' + X2 p p' * G2 p') = ∑ t' ∈ range n, R p t' * ∑ t ∈ range n, (X1 t' t * F1 t + X2 t' t * F2 t) := by
  have e : ∑ p' ∈ range n, (X1 p p' * G1 p' + X2 p p' * G2 p') =
      ∑ p' ∈ range n, (X1 p p' * ∑ t ∈ range n, R p' t * F1 t + X2 p p' * ∑ t ∈ range n, R p' t * F2 t) :=
    sum_congr rfl fun p' hp' => by rw [g1 p' (mem_range.1 hp'), g2 p' (mem_range.1 hp')]
  rw [e, sum_add_distrib, rot_sum X1 R F1 h1, rot_sum X2 R F2 h2, ← sum_add_distrib]
  refine sum_congr rfl fun t' _ => ?_
  rw [sum_add_distrib, mul_add]

theorem sum_last (A B C D : Finset ℕ) (f : ℕ → ℕ → ℕ → ℕ → K) :
    ∑ a ∈ A, ∑ b ∈ B, ∑ c ∈ C, ∑ d ∈ D, f a b c d = ∑ b ∈ B, ∑ c ∈ C, ∑ d ∈ D, ∑ a ∈ A, f a b c d := by
  rw [sum_comm]
  refine sum_congr rfl fun b _ => ?_
  rw [sum_comm]
  refine sum_congr rfl fun c _ => ?_
  rw [sum_comm]

theorem rot_assemble (A B C D : Finset ℕ) (R : ℕ → K) (T' : ℕ → ℕ → ℕ → ℕ → K) (T : ℕ → ℕ → ℕ → ℕ → ℕ → K)
    (key : ∀ b ∈ B, ∀ c ∈ C, ∀ d ∈ D, ∑ a ∈ A, T' a b c d = ∑ p ∈ A, R p * ∑ a ∈ A, T p a b c d) :
    ∑ a ∈ A, ∑ b ∈ B, ∑ c ∈ C, ∑ d ∈ D, T' a b c d = ∑ p ∈ A, R p * ∑ a ∈ A, ∑ b ∈ B, ∑ c ∈ C, ∑ d ∈ D, T p a b c d := by
  rw [sum_last]
  calc _ = ∑ b ∈ B, ∑ c ∈ C, ∑ d ∈ D, ∑ p ∈ A, R p * ∑ a ∈ A, T p a b c d :=
        sum_congr rfl fun b hb => sum_congr rfl fun c hc => sum_congr rfl fun d hd => key b hb c hc d hd
    _ = ∑ p ∈ A, ∑ b ∈ B, ∑ c ∈ C, ∑ d ∈ D, R p * ∑ a ∈ A, T p a b c d := (sum_last A B C D _).symm
    _ = _ := by
        refine sum_congr rfl fun p _ => ?_
        rw [sum_last A B C D (fun a b c d => T p a b c d)]
        simp only [mul_sum]

theorem rotFirst_val (n m : ℕ) (c s : K) (x : Arr2 K) {p q : ℕ} (hq : q < m) (l : ℕ) :
    (rotFirst n m c s x).val (q + m * p) l = ∑ t ∈ range n, rotMat n c s p t * x.val (q + m * t) l := by
  unfold rotFirst
  simp only
  rw [Nat.add_mul_div_left _ _ (by omega), Nat.div_eq_of_lt hq, Nat.zero_add, Nat.add_mul_mod_self_left, Nat.mod_eq_of_lt hq]

theorem rotSecond_val (m : ℕ) (c s : K) (x : Arr2 K) {p q : ℕ} (hq : q < m) (l : ℕ) :
    (rotSecond m c s x).val (q + m * p) l = ∑ t ∈ range m, rotMat m c s q t * x.val (t + m * p) l := by
  unfold rotSecond
  simp only
  rw [Nat.add_mul_div_left _ _ (by omega), Nat.div_eq_of_lt hq, Nat.zero_add, Nat.add_mul_mod_self_left, Nat.mod_eq_of_lt hq]

/-- Rotation of the first field of the first pair. -/
theorem covElement_rot_a1 (cw : CovWsp K) (m : Maps) (hm : m.Valid) (s : CovCls K) (c sn : K) {ia ib ic id : ℕ} (hia : ia < m.a)
    (hib : ib < m.b) (hic : ic < m.c) (hid : id < m.d) (la lb : ℕ) (pre : K) :
    covElement cw m ⟨rotFirst m.a m.c c sn s.ac, rotFirst m.a m.d c sn s.ad, s.bc, s.bd⟩ ia ib ic id la lb pre =
      ∑ p ∈ range m.a, rotMat m.a c sn ia p * covElement cw m s p ib ic id la lb pre := by
  simp only [covElement_eq]
  simp only [← mul_assoc]
  rw [← sum_mul]
  congr 1
  refine rot_assemble _ _ _ _ _ _ _ fun ibp hb icp hc idp hd => ?_
  rw [mem_range] at hb hc hd
  unfold covTerm covPair
  refine rot_pair (n := m.a) (p := ia)
    (fun p p' => cw.x1122.at la lb (pairKind (covIndex m.a m.c p ic p' icp) (covIndex m.b m.d ib id ibp idp)))
    (fun p p' => cw.x1221.at la lb (pairKind (covIndex m.a m.d p id p' idp) (covIndex m.b m.c ib ic ibp icp))) (rotMat m.a c sn) _ _ _ _
    (fun t ht => at_rot_first _ _ _ _ _ hm.a hm.c hia hic hc ht (covIndex_mem hm.b hm.d hib hid hb hd))
    (fun t ht => at_rot_first _ _ _ _ _ hm.a hm.d hia hid hd ht (covIndex_mem hm.b hm.c hib hic hb hc)) ?_ ?_
  · intro p' hp'
    simp only [rotFirst_val _ _ _ _ _ hc]
    simp only [sum_mul, mul_sum, ← sum_add_distrib]
    exact sum_congr rfl fun t _ => by ring
  · intro p' hp'
    simp only [rotFirst_val _ _ _ _ _ hd]
    simp only [sum_mul, mul_sum, ← sum_add_distrib]
    exact sum_congr rfl fun t _ => by ring

/-- Rotation of the second field of the first pair. -/
theorem covElement_rot_a2 (cw : CovWsp K) (m : Maps) (hm : m.Valid) (s : CovCls K) (c sn : K) {ia ib ic id : ℕ} (hia : ia < m.a)
    (hib : ib < m.b) (hic : ic < m.c) (hid : id < m.d) (la lb : ℕ) (pre : K) :
    covElement cw m ⟨s.ac, s.ad, rotFirst m.b m.c c sn s.bc, rotFirst m.b m.d c sn s.bd⟩ ia ib ic id la lb pre =
      ∑ p ∈ range m.b, rotMat m.b c sn ib p * covElement cw m s ia p ic id la lb pre := by
  simp only [covElement_eq]
  simp only [← mul_assoc]
  rw [← sum_mul]
  congr 1
  rw [sum_comm]
  conv_rhs => enter [2, p]; rw [sum_comm]
  refine rot_assemble _ _ _ _ _ _ _ fun iap ha icp hc idp hd => ?_
  rw [mem_range] at ha hc hd
  unfold covTerm covPair
  have k1 := fun p (hp : p < m.b) p' (hp' : p' < m.b) => pairKind_comm (covIndex_mem hm.a hm.c hia hic ha hc) (covIndex_mem hm.b hm.d hp hid hp' hd)
  have k2 := fun p (hp : p < m.b) p' (hp' : p' < m.b) => pairKind_comm (covIndex_mem hm.a hm.d hia hid ha hd) (covIndex_mem hm.b hm.c hp hic hp' hc)
  refine Eq.trans (sum_congr rfl fun p' hp' => by rw [k1 ib hib p' (mem_range.1 hp'), k2 ib hib p' (mem_range.1 hp')])
    (Eq.trans ?_ (Eq.symm (sum_congr rfl fun p hp => congrArg _ (sum_congr rfl fun p' hp' =>
      by rw [k1 p (mem_range.1 hp) p' (mem_range.1 hp'), k2 p (mem_range.1 hp) p' (mem_range.1 hp')]))))
  refine rot_pair (n := m.b) (p := ib)
    (fun p p' => cw.x1122.at la lb (pairKind (covIndex m.b m.d p id p' idp) (covIndex m.a m.c ia ic iap icp)))
    (fun p p' => cw.x1221.at la lb (pairKind (covIndex m.b m.c p ic p' icp) (covIndex m.a m.d ia id iap idp))) (rotMat m.b c sn) _ _ _ _
    (fun t ht => at_rot_first _ _ _ _ _ hm.b hm.d hib hid hd ht (covIndex_mem hm.a hm.c hia hic ha hc))
    (fun t ht => at_rot_first _ _ _ _ _ hm.b hm.c hib hic hc ht (covIndex_mem hm.a hm.d hia hid ha hd)) ?_ ?_
  · intro p' hp'
    simp only [rotFirst_val _ _ _ _ _ hd]
    simp only [sum_mul, mul_sum, ← sum_add_distrib]
    exact sum_congr rfl fun t _ => by ring
  · intro p' hp'
    simp only [rotFirst_val _ _ _ _ _ hc]
    simp only [sum_mul, mul_sum, ← sum_add_distrib]
    exact sum_congr rfl fun t _ => by ring

/-- Sum over the third index first. -/
theorem sum_third (A B C D : Finset ℕ) (f : ℕ → ℕ → ℕ → ℕ → K) :
    ∑ a ∈ A, ∑ b ∈ B, ∑ c ∈ C, ∑ d ∈ D, f a b c d = ∑ c ∈ C, ∑ a ∈ A, ∑ b ∈ B, ∑ d ∈ D, f a b c d := by
  rw [sum_comm (s := C)]
  exact sum_congr rfl fun a _ => sum_comm

/-- Sum over the fourth index first. -/
theorem sum_fourth (A B C D : Finset ℕ) (f : ℕ → ℕ → ℕ → ℕ → K) :
    ∑ a ∈ A, ∑ b ∈ B, ∑ c ∈ C, ∑ d ∈ D, f a b c d = ∑ d ∈ D, ∑ a ∈ A, ∑ b ∈ B, ∑ c ∈ C, f a b c d :=
  (sum_last D A B C fun d a b c => f a b c d).symm

/-- Rotation of the first field of the second pair. -/
theorem covElement_rot_b1 (cw : CovWsp K) (m : Maps) (hm : m.Valid) (s : CovCls K) (c sn : K) {ia ib ic id : ℕ} (hia : ia < m.a)
    (hib : ib < m.b) (hic : ic < m.c) (hid : id < m.d) (la lb : ℕ) (pre : K) :
    covElement cw m ⟨rotSecond m.c c sn s.ac, s.ad, rotSecond m.c c sn s.bc, s.bd⟩ ia ib ic id la lb pre =
      ∑ p ∈ range m.c, rotMat m.c c sn ic p * covElement cw m s ia ib p id la lb pre := by
  simp only [covElement_eq]
  simp only [← mul_assoc]
  rw [← sum_mul]
  congr 1
  rw [sum_third]
  conv_rhs => enter [2, p]; rw [sum_third]
  refine rot_assemble _ _ _ _ _ _ _ fun iap ha ibp hb idp hd => ?_
  rw [mem_range] at ha hb hd
  unfold covTerm covPair
  have k2 := fun p (hp : p < m.c) p' (hp' : p' < m.c) => pairKind_comm (covIndex_mem hm.a hm.d hia hid ha hd) (covIndex_mem hm.b hm.c hib hp hb hp')
  refine Eq.trans (sum_congr rfl fun p' hp' => by rw [k2 ic hic p' (mem_range.1 hp')])
    (Eq.trans ?_ (Eq.symm (sum_congr rfl fun p hp => congrArg _ (sum_congr rfl fun p' hp' =>
      by rw [k2 p (mem_range.1 hp) p' (mem_range.1 hp')]))))
  refine rot_pair (n := m.c) (p := ic)
    (fun p p' => cw.x1122.at la lb (pairKind (covIndex m.a m.c ia p iap p') (covIndex m.b m.d ib id ibp idp)))
    (fun p p' => cw.x1221.at la lb (pairKind (covIndex m.b m.c ib p ibp p') (covIndex m.a m.d ia id iap idp))) (rotMat m.c c sn) _ _ _ _
    (fun t ht => at_rot_second _ _ _ _ _ hm.a hm.c hia hic ha ht (covIndex_mem hm.b hm.d hib hid hb hd))
    (fun t ht => at_rot_second _ _ _ _ _ hm.b hm.c hib hic hb ht (covIndex_mem hm.a hm.d hia hid ha hd)) ?_ ?_
  · intro p' hp'
    simp only [rotSecond_val _ _ _ _ hp']
    simp only [sum_mul, mul_sum, ← sum_add_distrib]
    exact sum_congr rfl fun t _ => by ring
  · intro p' hp'
    simp only [rotSecond_val _ _ _ _ hp']
    simp only [sum_mul, mul_sum, ← sum_add_distrib]
    exact sum_congr rfl fun t _ => by ring

/-- Rotation of the second field of the second pair. -/
theorem covElement_rot_b2 (cw : CovWsp K) (m : Maps) (hm : m.Valid) (s : CovCls K) (c sn : K) {ia ib ic id : ℕ} (hia : ia < m.a)
    (hib : ib < m.b) (hic : ic < m.c) (hid : id < m.d) (la lb : ℕ) (pre : K) :
    covElement cw m ⟨s.ac, rotSecond m.d c sn s.ad, s.bc, rotSecond m.d c sn s.bd⟩ ia ib ic id la lb pre =
      ∑ p ∈ range m.d, rotMat m.d c sn id p * covElement cw m s ia ib ic p la lb pre := by
  simp only [covElement_eq]
  simp only [← mul_assoc]
  rw [← sum_mul]
  congr 1
  rw [sum_fourth]
  conv_rhs => enter [2, p]; rw [sum_fourth]
  refine rot_assemble _ _ _ _ _ _ _ fun iap ha ibp hb icp hc => ?_
  rw [mem_range] at ha hb hc
  unfold covTerm covPair
  have k1 := fun p (hp : p < m.d) p' (hp' : p' < m.d) => pairKind_comm (covIndex_mem hm.a hm.c hia hic ha hc) (covIndex_mem hm.b hm.d hib hp hb hp')
  refine Eq.trans (sum_congr rfl fun p' hp' => by rw [k1 id hid p' (mem_range.1 hp')])
    (Eq.trans ?_ (Eq.symm (sum_congr rfl fun p hp => congrArg _ (sum_congr rfl fun p' hp' =>
      by rw [k1 p (mem_range.1 hp) p' (mem_range.1 hp')]))))
  refine rot_pair (n := m.d) (p := id)
    (fun p p' => cw.x1122.at la lb (pairKind (covIndex m.b m.d ib p ibp p') (covIndex m.a m.c ia ic iap icp)))
    (fun p p' => cw.x1221.at la lb (pairKind (covIndex m.a m.d ia p iap p') (covIndex m.b m.c ib ic ibp icp))) (rotMat m.d c sn) _ _ _ _
    (fun t ht => at_rot_second _ _ _ _ _ hm.b hm.d hib hid hb ht (covIndex_mem hm.a hm.c hia hic ha hc))
    (fun t ht => at_rot_second _ _ _ _ _ hm.a hm.d hia hid ha ht (covIndex_mem hm.b hm.c hib hic hb hc)) ?_ ?_
  · intro p' hp'
    simp only [rotSecond_val _ _ _ _ hp']
    simp only [sum_mul, mul_sum, ← sum_add_distrib]
    exact sum_congr rfl fun t _ => by ring
  · intro p' hp'
    simp only [rotSecond_val _ _ _ _ hp']
    simp only [sum_mul, mul_sum, ← sum_add_distrib]
    exact sum_congr rfl fun t _ => by ring

/-! ## Reflections -/

theorem k_parity {n m p q p' q' : ℕ} (hn : n = 1 ∨ n = 2) (hm : m = 1 ∨ m = 2) (hp : p < n) (hq : q < m) (hp' : p' < n) (hq' : q' < m) :
    (kZ (covIndex n m p q p' q') : K) * (paritySign p' * paritySign q') = paritySign p * paritySign q * kZ (covIndex n m p q p' q') ∧
    (kP (covIndex n m p q p' q') : K) * (paritySign p' * paritySign q') = paritySign p * paritySign q * kP (covIndex n m p q p' q') ∧
    (kM (covIndex n m p q p' q') : K) * (paritySign p' * paritySign q') = -(paritySign p * paritySign q * kM (covIndex n m p q p' q')) := by
  rcases hn with rfl | rfl <;> rcases hm with rfl | rfl <;> interval_cases p <;> interval_cases q <;> interval_cases p' <;>
    interval_cases q' <;> simp [covIndex, covarIndices, kZ, kP, kM, paritySign]

theorem at_parity (x : CovXi K) (la lb : ℕ) {n m k l p q p' q' r t r' t' : ℕ} (hn : n = 1 ∨ n = 2) (hm : m = 1 ∨ m = 2)
    (hk : k = 1 ∨ k = 2) (hl : l = 1 ∨ l = 2) (hp : p < n) (hq : q < m) (hp' : p' < n) (hq' : q' < m) (hr : r < k) (ht : t < l)
    (hr' : r' < k) (ht' : t' < l) :
    x.at la lb (pairKind (covIndex n m p q p' q') (covIndex k l r t r' t')) *
        ((paritySign p' * paritySign q') * (paritySign r' * paritySign t')) =
      (paritySign p * paritySign q) * (paritySign r * paritySign t) *
        x.at la lb (pairKind (covIndex n m p q p' q') (covIndex k l r t r' t')) := by
  rw [at_pairKind x la lb (covIndex_mem hn hm hp hq hp' hq') (covIndex_mem hk hl hr ht hr' ht')]
  obtain ⟨h1, h2, h3⟩ := k_parity (K := K) hn hm hp hq hp' hq'
  obtain ⟨g1, g2, g3⟩ := k_parity (K := K) hk hl hr ht hr' ht'
  generalize (kZ (covIndex n m p q p' q') : K) = z at *
  generalize (kP (covIndex n m p q p' q') : K) = u at *
  generalize (kM (covIndex n m p q p' q') : K) = v at *
  generalize (kZ (covIndex k l r t r' t') : K) = z' at *
  generalize (kP (covIndex k l r t r' t') : K) = u' at *
  generalize (kM (covIndex k l r t r' t') : K) = v' at *
  generalize (paritySign p' * paritySign q' : K) = A at *
  generalize (paritySign r' * paritySign t' : K) = B at *
  generalize (paritySign p * paritySign q : K) = A' at *
  generalize (paritySign r * paritySign t : K) = B' at *
  generalize x.xi00 la lb = X0
  generalize x.xi02 la lb = X1
  generalize x.xi22p la lb = X2
  generalize x.xi22m la lb = X3
  linear_combination (z' * B * X0 + u' * B * X1) * h1 + (A' * z * X0 + A' * u * X1) * g1 + (z' * B * X1 + u' * B * X2) * h2 +
    (A' * z * X1 + A' * u * X2) * g2 - X3 * v' * B * h3 + X3 * A' * v * g3

theorem reflect_val (m : ℕ) (x : Arr2 K) {p q : ℕ} (hq : q < m) (l : ℕ) :
    (reflect m x).val (q + m * p) l = paritySign p * paritySign q * x.val (q + m * p) l := by
  unfold reflect
  simp only
  rw [Nat.add_mul_div_left _ _ (by omega), Nat.div_eq_of_lt hq, Nat.zero_add, Nat.add_mul_mod_self_left, Nat.mod_eq_of_lt hq]

/-- Reflection of all fields. -/
theorem covElement_reflect (cw : CovWsp K) (m : Maps) (hm : m.Valid) (s : CovCls K) {ia ib ic id : ℕ} (hia : ia < m.a)
    (hib : ib < m.b) (hic : ic < m.c) (hid : id < m.d) (la lb : ℕ) (pre : K) :
    covElement cw m ⟨reflect m.c s.ac, reflect m.d s.ad, reflect m.c s.bc, reflect m.d s.bd⟩ ia ib ic id la lb pre =
      paritySign ia * paritySign ib * (paritySign ic * paritySign id) * covElement cw m s ia ib ic id la lb pre := by
  simp only [covElement_eq]
  rw [← mul_assoc]
  congr 1
  simp only [mul_sum]
  refine sum_congr rfl fun iap ha => sum_congr rfl fun ibp hb => sum_congr rfl fun icp hc => sum_congr rfl fun idp hd => ?_
  rw [mem_range] at ha hb hc hd
  unfold covTerm covPair
  simp only [reflect_val _ _ hc, reflect_val _ _ hd]
  have h1 := at_parity cw.x1122 la lb hm.a hm.c hm.b hm.d hia hic ha hc hib hid hb hd
  have h2 := at_parity cw.x1221 la lb hm.a hm.d hm.b hm.c hia hid ha hd hib hic hb hc
  linear_combination (1 / 2 * (s.ac.val (icp + m.c * iap) la * s.bd.val (idp + m.d * ibp) lb +
        s.ac.val (icp + m.c * iap) lb * s.bd.val (idp + m.d * ibp) la)) * h1 +
    (1 / 2 * (s.ad.val (idp + m.d * iap) la * s.bc.val (icp + m.c * ibp) lb +
        s.ad.val (idp + m.d * iap) lb * s.bc.val (icp + m.c * ibp) la)) * h2

end NaMaster
