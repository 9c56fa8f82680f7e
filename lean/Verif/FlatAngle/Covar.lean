import Verif.FlatAngle.Matrix
import Verif.Flat.CovarExchange
import Verif.Flat.InterpProps
import Verif.Covar.Lemmas2

/-!
# Flat-sky covariances and the turning of polarisation angles
-/

namespace NaMaster

open Real Finset CovSpec

/-! ## Turning vectors of bandpowers -/

/-- Turning the components of every band of a vector that has the components of band `b` at `n1 * n2 * b`. -/
noncomputable def turnBands (n1 n2 : ℕ) (t1 t2 : ℝ) (v : ℕ → ℝ) (k : ℕ) : ℝ :=
  turnRow n1 n2 t1 t2 (fun c => v (n1 * n2 * (k / (n1 * n2)) + c)) (k % (n1 * n2))

section
variable {n1 n2 : ℕ} {t1 t2 : ℝ}

theorem turnBands_at {b c : ℕ} (hc : c < n1 * n2) (v : ℕ → ℝ) :
    turnBands n1 n2 t1 t2 v (n1 * n2 * b + c) = turnRow n1 n2 t1 t2 (fun c => v (n1 * n2 * b + c)) c := by
  unfold turnBands
  rw [Nat.mul_add_div (by omega), Nat.mul_add_mod, Nat.div_eq_of_lt hc, Nat.mod_eq_of_lt hc, add_zero]

theorem turnBands_comb (h1 : n1 = 1 ∨ n1 = 2) (h2 : n2 = 1 ∨ n2 = 2) (t1 t2 : ℝ) {N k : ℕ} (hk : k < n1 * n2 * N) :
    ∃ x y z w : ℝ, ∃ a b c d : ℕ, (a < n1 * n2 * N ∧ b < n1 * n2 * N ∧ c < n1 * n2 * N ∧ d < n1 * n2 * N) ∧
      ∀ v, turnBands n1 n2 t1 t2 v k = x * v a + y * v b + z * v c + w * v d := by
  have hpos : 0 < n1 * n2 := by rcases h1 with rfl | rfl <;> rcases h2 with rfl | rfl <;> norm_num
  have hb : k / (n1 * n2) < N := Nat.div_lt_of_lt_mul hk
  obtain ⟨x, y, z, w, a, b, c, d, ha, hb', hc, hd, h⟩ := turnRow_comb h1 h2 t1 t2 (Nat.mod_lt k hpos)
  exact ⟨x, y, z, w, _, _, _, _, ⟨flat_lt ha hb, flat_lt hb' hb, flat_lt hc hb, flat_lt hd hb⟩, fun v => h _⟩

theorem turnBands_sum (h1 : n1 = 1 ∨ n1 = 2) (h2 : n2 = 1 ∨ n2 = 2) {N k : ℕ} (hk : k < n1 * n2 * N) {ι : Type*} (S : Finset ι) (x : ι → ℝ) (f : ι → ℕ → ℝ) :
    turnBands n1 n2 t1 t2 (fun k => ∑ i ∈ S, x i * f i k) k = ∑ i ∈ S, x i * turnBands n1 n2 t1 t2 (f i) k := by
  obtain ⟨p, y, z, w, a, b, c, d, -, h⟩ := turnBands_comb h1 h2 t1 t2 hk
  simp only [h, mul_sum]
  rw [← sum_add_distrib, ← sum_add_distrib, ← sum_add_distrib]
  exact sum_congr rfl fun i _ => by ring

theorem turnBands_congr (h1 : n1 = 1 ∨ n1 = 2) (h2 : n2 = 1 ∨ n2 = 2) {N k : ℕ} (hk : k < n1 * n2 * N) {u v : ℕ → ℝ} (e : ∀ i < n1 * n2 * N, u i = v i) :
    turnBands n1 n2 t1 t2 u k = turnBands n1 n2 t1 t2 v k := by
  obtain ⟨p, y, z, w, a, b, c, d, ⟨ha, hb, hc, hd⟩, h⟩ := turnBands_comb h1 h2 t1 t2 hk
  rw [h, h, e a ha, e b hb, e c hc, e d hd]

/-- The matrix of a workspace and the turning of components commute. -/
theorem matrix_turned (h1 : n1 = 1 ∨ n1 = 2) (h2 : n2 = 1 ∨ n2 = 2) (w : WspFlat) (hn : w.ncls = n1 * n2)
    (hex : ∀ b1 < w.bin.nBands, ∀ b2 < w.bin.nBands, Exchanges n1 n2 t1 t2 fun i j => w.binned i b1 j b2) (v : ℕ → ℝ) {i : ℕ} (hi : i < n1 * n2 * w.bin.nBands) :
    ∑ j ∈ range (n1 * n2 * w.bin.nBands), w.gslMatrix i j * turnBands n1 n2 t1 t2 v j =
      turnBands n1 n2 t1 t2 (fun i => ∑ j ∈ range (n1 * n2 * w.bin.nBands), w.gslMatrix i j * v j) i := by
  have hpos : 0 < n1 * n2 := by rcases h1 with rfl | rfl <;> rcases h2 with rfl | rfl <;> norm_num
  rw [← Nat.div_add_mod i (n1 * n2)]
  set ib := i / (n1 * n2)
  set a := i % (n1 * n2)
  have ha : a < n1 * n2 := Nat.mod_lt _ hpos
  have hib : ib < w.bin.nBands := Nat.div_lt_of_lt_mul hi
  rw [turnBands_at ha, sum_flat]
  have e : ∀ b ∈ range w.bin.nBands, ∑ c ∈ range (n1 * n2), w.gslMatrix (n1 * n2 * ib + a) (n1 * n2 * b + c) * turnBands n1 n2 t1 t2 v (n1 * n2 * b + c) =
      turnRow n1 n2 t1 t2 (fun a => ∑ c ∈ range (n1 * n2), w.binned a ib c b * v (n1 * n2 * b + c)) a := by
    intro b hb
    rw [← hex ib hib b (mem_range.1 hb) (fun c => v (n1 * n2 * b + c)) a ha]
    refine sum_congr rfl fun c hc => ?_
    rw [gsl_at w hn ha (mem_range.1 hc), turnBands_at (mem_range.1 hc)]
  rw [sum_congr rfl e]
  obtain ⟨x, y, z, u, p, q, r, s, hp, hq, hr, hs, hcomb⟩ := turnRow_comb h1 h2 t1 t2 ha
  have e2 : ∀ c < n1 * n2, ∑ j ∈ range (n1 * n2 * w.bin.nBands), w.gslMatrix (n1 * n2 * ib + c) j * v j =
      ∑ b ∈ range w.bin.nBands, ∑ c' ∈ range (n1 * n2), w.binned c ib c' b * v (n1 * n2 * b + c') := by
    intro c hc
    rw [sum_flat]
    exact sum_congr rfl fun b _ => sum_congr rfl fun d hd => by rw [gsl_at w hn hc (mem_range.1 hd)]
  rw [hcomb (fun c => ∑ j ∈ range (n1 * n2 * w.bin.nBands), w.gslMatrix (n1 * n2 * ib + c) j * v j), e2 p hp, e2 q hq, e2 r hr, e2 s hs]
  simp only [hcomb, sum_add_distrib, ← mul_sum]

/-- So do its inverse and the turning of components. -/
theorem inverse_turned {L : LinAlg ℝ} (hL : L.Correct) (h1 : n1 = 1 ∨ n1 = 2) (h2 : n2 = 1 ∨ n2 = 2) (w : WspFlat) (hn : w.ncls = n1 * n2)
    (hreg : Regular (n1 * n2 * w.bin.nBands) w.gslMatrix)
    (hex : ∀ b1 < w.bin.nBands, ∀ b2 < w.bin.nBands, Exchanges n1 n2 t1 t2 fun i j => w.binned i b1 j b2) (v : ℕ → ℝ) {i : ℕ} (hi : i < n1 * n2 * w.bin.nBands) :
    ∑ j ∈ range (n1 * n2 * w.bin.nBands), L.invert (n1 * n2 * w.bin.nBands) w.gslMatrix i j * turnBands n1 n2 t1 t2 v j =
      turnBands n1 n2 t1 t2 (fun i => ∑ j ∈ range (n1 * n2 * w.bin.nBands), L.invert (n1 * n2 * w.bin.nBands) w.gslMatrix i j * v j) i := by
  set n := n1 * n2 * w.bin.nBands
  have hI : ∀ v : ℕ → ℝ, ∀ i < n, ∑ j ∈ range n, w.gslMatrix i j * ∑ k ∈ range n, L.invert n w.gslMatrix j k * v k = v i := by
    intro v i hi
    simp only [mul_sum, ← mul_assoc]
    rw [sum_comm]
    simp only [← sum_mul]
    rw [sum_congr rfl fun k hk => by rw [hL.invert_spec n w.gslMatrix hreg i k hi (mem_range.1 hk)]]
    simp [hi]
  have e1 := hL.solve_eq hreg (fun i => ∑ j ∈ range n, L.invert n w.gslMatrix i j * turnBands n1 n2 t1 t2 v j) (turnBands n1 n2 t1 t2 v) (hI _) i hi
  have e2 := hL.solve_eq hreg (turnBands n1 n2 t1 t2 (fun i => ∑ j ∈ range n, L.invert n w.gslMatrix i j * v j)) (turnBands n1 n2 t1 t2 v) (fun i hi => by
    rw [matrix_turned h1 h2 w hn hex _ hi]
    exact turnBands_congr h1 h2 hi (hI v)) i hi
  exact e1.symm.trans e2

end

/-! ## Turning the input spectra -/

theorem rotMat_turn {n : ℕ} (hn : n = 1 ∨ n = 2) (t : ℝ) (v : ℕ → ℝ) {i : ℕ} (hi : i < n) :
    ∑ p ∈ range n, rotMat n (cos t) (-sin t) i p * v p = NaMaster.turnBy n t v i := by
  rcases hn with rfl | rfl
  · obtain rfl : i = 0 := by omega
    simp [rotMat, NaMaster.turnBy]
  · interval_cases i <;> simp [rotMat, NaMaster.turnBy, sum_range_succ]
    ring

/-- The elements depend on the spectra of the components only. -/
theorem covElement_ext (cw : CovWsp ℝ) (m : Maps) {s s' : CovCls ℝ} {la lb : ℕ}
    (h1 : ∀ p < m.a, ∀ q < m.c, ∀ l, l = la ∨ l = lb → s'.ac.val (q + m.c * p) l = s.ac.val (q + m.c * p) l)
    (h2 : ∀ p < m.a, ∀ q < m.d, ∀ l, l = la ∨ l = lb → s'.ad.val (q + m.d * p) l = s.ad.val (q + m.d * p) l)
    (h3 : ∀ p < m.b, ∀ q < m.c, ∀ l, l = la ∨ l = lb → s'.bc.val (q + m.c * p) l = s.bc.val (q + m.c * p) l)
    (h4 : ∀ p < m.b, ∀ q < m.d, ∀ l, l = la ∨ l = lb → s'.bd.val (q + m.d * p) l = s.bd.val (q + m.d * p) l) (ia ib ic id : ℕ) (pre : ℝ) :
    covElement cw m s' ia ib ic id la lb pre = covElement cw m s ia ib ic id la lb pre := by
  unfold covElement
  refine sum_congr rfl fun a ha => sum_congr rfl fun b hb => sum_congr rfl fun c hc => sum_congr rfl fun d hd => ?_
  rw [mem_range] at ha hb hc hd
  dsimp only
  rw [h1 a ha c hc la (Or.inl rfl), h1 a ha c hc lb (Or.inr rfl), h2 a ha d hd la (Or.inl rfl), h2 a ha d hd lb (Or.inr rfl), h3 b hb c hc la (Or.inl rfl),
    h3 b hb c hc lb (Or.inr rfl), h4 b hb d hd la (Or.inl rfl), h4 b hb d hd lb (Or.inr rfl)]

/-- The two rotations of the indices of a spectrum are its turning. -/
theorem rot_turn {n m : ℕ} (hn : n = 1 ∨ n = 2) (hm : m = 1 ∨ m = 2) (t u : ℝ) (x : Arr2 ℝ) {p q : ℕ} (hp : p < n) (hq : q < m) (l : ℕ) :
    (rotFirst n m (cos t) (-sin t) (rotSecond m (cos u) (-sin u) x)).val (q + m * p) l =
      NaMaster.turnBy n t (fun i => NaMaster.turnBy m u (fun j => x.val (i * m + j) l) q) p := by
  have hd : (q + m * p) / m = p := by rw [Nat.add_mul_div_left _ _ (by omega), Nat.div_eq_of_lt hq, zero_add]
  have hr : (q + m * p) % m = q := by rw [Nat.add_mul_mod_self_left, Nat.mod_eq_of_lt hq]
  unfold rotFirst
  dsimp only
  rw [hd, hr, rotMat_turn hn t _ hp]
  congr 1
  funext i
  unfold rotSecond
  dsimp only
  rw [Nat.add_mul_mod_self_left, Nat.mod_eq_of_lt hq, Nat.add_mul_div_left _ _ (by omega), Nat.div_eq_of_lt hq, zero_add]
  rw [rotMat_turn hm u (fun j => x.val (j + m * i) l) hq]
  congr 1
  funext j
  congr 1
  ring

/-- Turning the components of the four fields in the spectra turns the elements. -/
theorem covElement_turned (cw : CovWsp ℝ) (m : Maps) (hm : m.Valid) (t1 t2 t3 t4 : ℝ) {s s' : CovCls ℝ} {la lb : ℕ}
    (h1 : ∀ p < m.a, ∀ q < m.c, ∀ l, l = la ∨ l = lb → s'.ac.val (q + m.c * p) l = NaMaster.turnBy m.a t1 (fun i => NaMaster.turnBy m.c t3 (fun j => s.ac.val (i * m.c + j) l) q) p)
    (h2 : ∀ p < m.a, ∀ q < m.d, ∀ l, l = la ∨ l = lb → s'.ad.val (q + m.d * p) l = NaMaster.turnBy m.a t1 (fun i => NaMaster.turnBy m.d t4 (fun j => s.ad.val (i * m.d + j) l) q) p)
    (h3 : ∀ p < m.b, ∀ q < m.c, ∀ l, l = la ∨ l = lb → s'.bc.val (q + m.c * p) l = NaMaster.turnBy m.b t2 (fun i => NaMaster.turnBy m.c t3 (fun j => s.bc.val (i * m.c + j) l) q) p)
    (h4 : ∀ p < m.b, ∀ q < m.d, ∀ l, l = la ∨ l = lb → s'.bd.val (q + m.d * p) l = NaMaster.turnBy m.b t2 (fun i => NaMaster.turnBy m.d t4 (fun j => s.bd.val (i * m.d + j) l) q) p)
    {ia ib ic id : ℕ} (ha : ia < m.a) (hb : ib < m.b) (hc : ic < m.c) (hd : id < m.d) (pre : ℝ) :
    covElement cw m s' ia ib ic id la lb pre = NaMaster.turnBy m.a t1 (fun i => NaMaster.turnBy m.b t2 (fun j => NaMaster.turnBy m.c t3 (fun k => NaMaster.turnBy m.d t4 (fun l =>
      covElement cw m s i j k l la lb pre) id) ic) ib) ia := by
  have hm' := hm
  obtain ⟨va, vb, vc, vd⟩ := hm'
  rw [covElement_ext (s := ⟨rotFirst m.a m.c (cos t1) (-sin t1) (rotSecond m.c (cos t3) (-sin t3) s.ac), rotFirst m.a m.d (cos t1) (-sin t1) (rotSecond m.d (cos t4) (-sin t4) s.ad),
    rotFirst m.b m.c (cos t2) (-sin t2) (rotSecond m.c (cos t3) (-sin t3) s.bc), rotFirst m.b m.d (cos t2) (-sin t2) (rotSecond m.d (cos t4) (-sin t4) s.bd)⟩) cw m
    (fun p hp q hq l hl => (h1 p hp q hq l hl).trans (rot_turn va vc t1 t3 s.ac hp hq l).symm)
    (fun p hp q hq l hl => (h2 p hp q hq l hl).trans (rot_turn va vd t1 t4 s.ad hp hq l).symm)
    (fun p hp q hq l hl => (h3 p hp q hq l hl).trans (rot_turn vb vc t2 t3 s.bc hp hq l).symm)
    (fun p hp q hq l hl => (h4 p hp q hq l hl).trans (rot_turn vb vd t2 t4 s.bd hp hq l).symm)]
  rw [covElement_rot_a1 cw m hm ⟨rotSecond m.c (cos t3) (-sin t3) s.ac, rotSecond m.d (cos t4) (-sin t4) s.ad,
    rotFirst m.b m.c (cos t2) (-sin t2) (rotSecond m.c (cos t3) (-sin t3) s.bc), rotFirst m.b m.d (cos t2) (-sin t2) (rotSecond m.d (cos t4) (-sin t4) s.bd)⟩ _ _ ha hb hc hd]
  rw [← rotMat_turn va t1 _ ha]
  refine sum_congr rfl fun p hp => ?_
  rw [covElement_rot_a2 cw m hm ⟨rotSecond m.c (cos t3) (-sin t3) s.ac, rotSecond m.d (cos t4) (-sin t4) s.ad, rotSecond m.c (cos t3) (-sin t3) s.bc,
    rotSecond m.d (cos t4) (-sin t4) s.bd⟩ _ _ (mem_range.1 hp) hb hc hd, ← rotMat_turn vb t2 _ hb]
  congr 1
  refine sum_congr rfl fun q hq => ?_
  rw [covElement_rot_b1 cw m hm ⟨s.ac, rotSecond m.d (cos t4) (-sin t4) s.ad, s.bc, rotSecond m.d (cos t4) (-sin t4) s.bd⟩ _ _ (mem_range.1 hp) (mem_range.1 hq) hc hd,
    ← rotMat_turn vc t3 _ hc]
  congr 1
  refine sum_congr rfl fun r hr => ?_
  rw [covElement_rot_b2 cw m hm s _ _ (mem_range.1 hp) (mem_range.1 hq) (mem_range.1 hr) hd, ← rotMat_turn vd t4 _ hd]

theorem binRow_lin {b : FlatBins ℝ} {larr : List ℝ} {v : List ℝ → ℕ → ℝ} (hv : ∀ cls ib, cls.length = larr.length → binRowFlat b larr cls ib = .ok (v cls ib))
    (x y : ℝ) (f g : ℕ → ℝ) (ib : ℕ) : v ((List.range larr.length).map fun l => x * f l + y * g l) ib =
      x * v ((List.range larr.length).map f) ib + y * v ((List.range larr.length).map g) ib := by
  have hc : ∀ f : ℕ → ℝ, binCellFlat b larr ((List.range larr.length).map f) ib = .ok (v ((List.range larr.length).map f) ib) := by
    intro f
    unfold binCellFlat
    rw [if_neg (by simp), hv _ ib (by simp)]
  have h := C57_linear b larr _ _ ib x y _ _ (hc f) (hc g)
  have e : lincomb x y ((List.range larr.length).map f) ((List.range larr.length).map g) = (List.range larr.length).map fun l => x * f l + y * g l := by
    unfold lincomb
    rw [List.zipWith_map, List.zipWith_self]
  rw [e, hc] at h
  exact Outcome.ok.inj h

/-- Turning spectra and binning them can be exchanged. -/
theorem binVals_turned {b : FlatBins ℝ} {larr : List ℝ} {v : List ℝ → ℕ → ℝ} (hv : ∀ cls ib, cls.length = larr.length → binRowFlat b larr cls ib = .ok (v cls ib))
    {n m : ℕ} (hn : n = 1 ∨ n = 2) (hm : m = 1 ∨ m = 2) (t u : ℝ) {x : Arr2 ℝ} (hr : x.rows = n * m) (hc : x.cols = larr.length) {p q l : ℕ} (hp : p < n) (hq : q < m)
    (hl : l < b.nBands) : (binVals b v (x.turn n m t u)).val (q + m * p) l =
      NaMaster.turnBy n t (fun i => NaMaster.turnBy m u (fun j => (binVals b v x).val (i * m + j) l) q) p := by
  have hlt : ∀ p < n, ∀ q < m, p * m + q < n * m := fun p hp q hq => by
    have := Nat.mul_le_mul_right m (Nat.succ_le_of_lt hp)
    rw [Nat.succ_mul] at this
    omega
  have hd : (q + m * p) / m = p := by rw [Nat.add_mul_div_left _ _ (by omega), Nat.div_eq_of_lt hq, zero_add]
  have hr' : (q + m * p) % m = q := by rw [Nat.add_mul_mod_self_left, Nat.mod_eq_of_lt hq]
  have hk : q + m * p < n * m := by have := hlt p hp q hq; rw [mul_comm p m] at this; omega
  obtain ⟨a, c, i, i', hi, hi', e1⟩ := turn_comb_lt hn t hp
  obtain ⟨d, e, j, j', hj, hj', e2⟩ := turn_comb_lt hm u hq
  have hval : ∀ k < n * m, (binVals b v x).val k l = v ((List.range larr.length).map fun l => x.val k l) l := by
    intro k hk
    unfold binVals
    rw [Arr2.of_val _ (by rw [hr]; exact hk) hl]
    unfold Arr2.row
    rw [hc]
  simp only [e1, e2, smul_eq_mul]
  rw [hval _ (hlt i hi j hj), hval _ (hlt i hi j' hj'), hval _ (hlt i' hi' j hj), hval _ (hlt i' hi' j' hj')]
  rw [← binRow_lin hv, ← binRow_lin hv, ← binRow_lin hv]
  unfold binVals
  rw [Arr2.of_val _ (by change q + m * p < x.rows; rw [hr]; exact hk) hl]
  congr 1
  unfold Arr2.row
  change (List.range x.cols).map _ = _
  rw [hc]
  refine List.map_congr_left fun l' _ => ?_
  unfold Arr2.turn
  dsimp only
  rw [if_pos (by rw [hr]; exact hk), hd, hr', turn_pi]
  simp only [turn_pi]
  simp only [e1, e2, smul_eq_mul]

end NaMaster
