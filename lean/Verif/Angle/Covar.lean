import Verif.Angle.Props
import Verif.FlatAngle.CovarProps
import Verif.Covar.Props

/-!
# C103: covariances follow rotations of the polarisation angles
-/

namespace NaMaster

open Real Finset CovSpec WspSpec

section
variable {n1 n2 N : ℕ} {t1 t2 : ℝ}

/-- A matrix the blocks of which commute with the turning of components. -/
def Blocks (n1 n2 N : ℕ) (t1 t2 : ℝ) (M : ℕ → ℕ → ℝ) : Prop :=
  ∀ b1 < N, ∀ b2 < N, Exchanges n1 n2 t1 t2 fun a b => M (n1 * n2 * b1 + a) (n1 * n2 * b2 + b)

theorem blocks_turned (h1 : n1 = 1 ∨ n1 = 2) (h2 : n2 = 1 ∨ n2 = 2) {M : ℕ → ℕ → ℝ} (hex : Blocks n1 n2 N t1 t2 M) (v : ℕ → ℝ) {i : ℕ} (hi : i < n1 * n2 * N) :
    ∑ j ∈ range (n1 * n2 * N), M i j * turnBands n1 n2 t1 t2 v j = turnBands n1 n2 t1 t2 (fun i => ∑ j ∈ range (n1 * n2 * N), M i j * v j) i := by
  have hpos : 0 < n1 * n2 := by rcases h1 with rfl | rfl <;> rcases h2 with rfl | rfl <;> norm_num
  rw [← Nat.div_add_mod i (n1 * n2)]
  set ib := i / (n1 * n2)
  set a := i % (n1 * n2)
  have ha : a < n1 * n2 := Nat.mod_lt _ hpos
  have hib : ib < N := Nat.div_lt_of_lt_mul hi
  rw [turnBands_at ha, sum_flat]
  have e : ∀ b ∈ range N, ∑ c ∈ range (n1 * n2), M (n1 * n2 * ib + a) (n1 * n2 * b + c) * turnBands n1 n2 t1 t2 v (n1 * n2 * b + c) =
      turnRow n1 n2 t1 t2 (fun a => ∑ c ∈ range (n1 * n2), M (n1 * n2 * ib + a) (n1 * n2 * b + c) * v (n1 * n2 * b + c)) a := by
    intro b hb
    rw [← hex ib hib b (mem_range.1 hb) (fun c => v (n1 * n2 * b + c)) a ha]
    exact sum_congr rfl fun c hc => by rw [turnBands_at (mem_range.1 hc)]
  rw [sum_congr rfl e]
  obtain ⟨x, y, z, u, p, q, r, s, hp, hq, hr, hs, hcomb⟩ := turnRow_comb h1 h2 t1 t2 ha
  simp only [hcomb, sum_flat, sum_add_distrib, ← mul_sum]

theorem inverse_blocks {L : LinAlg ℝ} (hL : L.Correct) (h1 : n1 = 1 ∨ n1 = 2) (h2 : n2 = 1 ∨ n2 = 2) {M : ℕ → ℕ → ℝ} (hreg : Regular (n1 * n2 * N) M)
    (hex : Blocks n1 n2 N t1 t2 M) (v : ℕ → ℝ) {i : ℕ} (hi : i < n1 * n2 * N) :
    ∑ j ∈ range (n1 * n2 * N), L.invert (n1 * n2 * N) M i j * turnBands n1 n2 t1 t2 v j =
      turnBands n1 n2 t1 t2 (fun i => ∑ j ∈ range (n1 * n2 * N), L.invert (n1 * n2 * N) M i j * v j) i := by
  set n := n1 * n2 * N
  have hI : ∀ v : ℕ → ℝ, ∀ i < n, ∑ j ∈ range n, M i j * ∑ k ∈ range n, L.invert n M j k * v k = v i := by
    intro v i hi
    simp only [mul_sum, ← mul_assoc]
    rw [sum_comm]
    simp only [← sum_mul]
    rw [sum_congr rfl fun k hk => by rw [hL.invert_spec n M hreg i k hi (mem_range.1 hk)]]
    simp [hi]
  have e1 := hL.solve_eq hreg (fun i => ∑ j ∈ range n, L.invert n M i j * turnBands n1 n2 t1 t2 v j) (turnBands n1 n2 t1 t2 v) (hI _) i hi
  have e2 := hL.solve_eq hreg (turnBands n1 n2 t1 t2 (fun i => ∑ j ∈ range n, L.invert n M i j * v j)) (turnBands n1 n2 t1 t2 v) (fun i hi => by
    rw [blocks_turned h1 h2 hex _ hi]
    exact turnBands_congr h1 h2 hi (hI v)) i hi
  exact e1.symm.trans e2

/-- A matrix with both of its indices turned, between two inverse matrices. -/
theorem sandwich_turned {m1 m2 N' : ℕ} {t3 t4 : ℝ} {L : LinAlg ℝ} (hL : L.Correct) (h1 : n1 = 1 ∨ n1 = 2) (h2 : n2 = 1 ∨ n2 = 2) (h3 : m1 = 1 ∨ m1 = 2) (h4 : m2 = 1 ∨ m2 = 2)
    {A B : ℕ → ℕ → ℝ} (hA : Regular (n1 * n2 * N) A) (hB : Regular (m1 * m2 * N') B) (eA : Blocks n1 n2 N t1 t2 A) (eB : Blocks m1 m2 N' t3 t4 B) {X Y : ℕ → ℕ → ℝ}
    (hY : ∀ r < n1 * n2 * N, ∀ t < m1 * m2 * N', Y r t = turnBands n1 n2 t1 t2 (fun r => turnBands m1 m2 t3 t4 (fun t => X r t) t) r) {i k : ℕ} (hi : i < n1 * n2 * N)
    (hk : k < m1 * m2 * N') :
    ∑ r ∈ range (n1 * n2 * N), L.invert (n1 * n2 * N) A i r * ∑ t ∈ range (m1 * m2 * N'), Y r t * L.invert (m1 * m2 * N') B k t =
      turnBands n1 n2 t1 t2 (fun i => turnBands m1 m2 t3 t4 (fun k =>
        ∑ r ∈ range (n1 * n2 * N), L.invert (n1 * n2 * N) A i r * ∑ t ∈ range (m1 * m2 * N'), X r t * L.invert (m1 * m2 * N') B k t) k) i := by
  have q1 : ∀ r ∈ range (n1 * n2 * N), L.invert (n1 * n2 * N) A i r * ∑ t ∈ range (m1 * m2 * N'), Y r t * L.invert (m1 * m2 * N') B k t =
      L.invert (n1 * n2 * N) A i r * turnBands n1 n2 t1 t2 (fun r =>
        turnBands m1 m2 t3 t4 (fun k => ∑ t ∈ range (m1 * m2 * N'), L.invert (m1 * m2 * N') B k t * X r t) k) r := by
    intro r hr
    congr 1
    rw [sum_congr rfl fun t ht => by rw [hY r (mem_range.1 hr) t (mem_range.1 ht), mul_comm], ← turnBands_sum h1 h2 (N := N) (mem_range.1 hr)]
    congr 1
    funext r
    exact inverse_blocks hL h3 h4 hB eB (X r) hk
  refine (sum_congr rfl q1).trans ((inverse_blocks hL h1 h2 hA eA _ hi).trans (turnBands_congr h1 h2 hi fun i hi => ?_))
  rw [← turnBands_sum h3 h4 (N := N') hk]
  exact turnBands_congr h3 h4 hk fun k hk => sum_congr rfl fun r _ => by rw [sum_congr rfl fun t _ => mul_comm _ _]

theorem wsp_blocks {W : Wigner} {env : FieldEnv} {minfo : MapInfo} {f1 f2 : FieldObj} {same : Bool} {B : Bins ℝ} {wa : WspArgs} {w : Wsp ℝ}
    (i1 : f1.maskA = none) (i2 : f2.maskA = none) (h1 : EvenField f1) (h2 : EvenField f2) (hw : wspFromFields W env minfo f1 f2 same B wa = .ok w)
    (hn : w.ncls = f1.nmaps * f2.nmaps) (t1 t2 : ℝ) : Blocks f1.nmaps f2.nmaps w.bin.nBands t1 t2 w.binned := by
  intro b1 hb1 b2 hb2 v a ha
  have := wsp_form i1 i2 h1 h2 hw hn hb1 hb2
  rw [hn] at this
  exact this.turn h1.comps h2.comps t1 t2 v ha

end

theorem turn_list {n : ℕ} (hn : n = 1 ∨ n = 2) (t : ℝ) {ι : Type*} (l : List ι) (f : ℕ → ι → ℝ) {c : ℕ} (hc : c < n) :
    turnBy n t (fun i => (l.map (f i)).sum) c = (l.map fun e => turnBy n t (fun i => f i e) c).sum := by
  obtain ⟨x, y, i, j, -, -, e⟩ := turn_comb_lt hn t hc
  simp only [e, smul_eq_mul]
  rw [List.sum_map_add, List.sum_map_mul_left, List.sum_map_mul_left]

theorem turn_comp {n m : ℕ} (hm : 0 < m) {x : Arr2 ℝ} (hx : x.rows = n * m) (t u : ℝ) {p q : ℕ} (hp : p < n) (hq : q < m) (l : ℕ) :
    (x.turn n m t u).val (q + m * p) l = turnBy n t (fun i => turnBy m u (fun j => x.val (i * m + j) l) q) p := by
  have hd : (q + m * p) / m = p := by rw [Nat.add_mul_div_left _ _ hm, Nat.div_eq_of_lt hq, zero_add]
  have hr : (q + m * p) % m = q := by rw [Nat.add_mul_mod_self_left, Nat.mod_eq_of_lt hq]
  unfold Arr2.turn
  dsimp only
  rw [if_pos (by rw [hx, mul_comm n m, add_comm]; exact flat_lt hq hp), hd, hr, turn_pi]
  simp only [turn_pi]

variable {a1 a2 b1 b2 : ℤ} {cw : CovWsp ℝ} {s : CovCls ℝ} {oa ob : Obj ℝ} {wa wb : Wsp ℝ} {L : LinAlg ℝ} {jk jk' : CovJunk ℝ} {coupled : Bool}

theorem consistent_turn (hc : Consistent cw a1 a2 b1 b2 s oa ob wa wb coupled) (n1 n2 n3 n4 : ℕ) (t1 t2 t3 t4 : ℝ) :
    Consistent cw a1 a2 b1 b2 (s.turn n1 n2 n3 n4 t1 t2 t3 t4) oa ob wa wb coupled :=
  ⟨hc.wspA, hc.wspB, hc.rows, hc.length, hc.limit, hc.spins, hc.matrices, hc.small⟩

theorem element_turn (hc : Consistent cw a1 a2 b1 b2 s oa ob wa wb coupled) (t1 t2 t3 t4 : ℝ) (la lb : ℕ) (pre : ℝ) {ia ib ic id : ℕ} (h1 : ia < nmaps a1)
    (h2 : ib < nmaps a2) (h3 : ic < nmaps b1) (h4 : id < nmaps b2) :
    covElement cw (Maps.ofSpins a1 a2 b1 b2) (s.turn (nmaps a1) (nmaps a2) (nmaps b1) (nmaps b2) t1 t2 t3 t4) ia ib ic id la lb pre =
      turnBy (nmaps a1) t1 (fun i => turnBy (nmaps a2) t2 (fun j => turnBy (nmaps b1) t3 (fun k => turnBy (nmaps b2) t4 (fun l =>
        covElement cw (Maps.ofSpins a1 a2 b1 b2) s i j k l la lb pre) id) ic) ib) ia := by
  obtain ⟨r1, r2, r3, r4⟩ := hc.rows
  exact covElement_turned cw (Maps.ofSpins a1 a2 b1 b2) (Maps.ofSpins_valid _ _ _ _) t1 t2 t3 t4
    (fun p hp q hq l _ => turn_comp (nmaps_pos _) r1 t1 t3 hp hq l) (fun p hp q hq l _ => turn_comp (nmaps_pos _) r2 t1 t4 hp hq l)
    (fun p hp q hq l _ => turn_comp (nmaps_pos _) r3 t2 t3 hp hq l) (fun p hp q hq l _ => turn_comp (nmaps_pos _) r4 t2 t4 hp hq l) h1 h2 h3 h4 pre

theorem nmaps_or (a : ℤ) : nmaps a = 1 ∨ nmaps a = 2 := by unfold nmaps; split_ifs <;> simp

/-- The two turned indices of a matrix, component by component. -/
theorem turnRow_both (n1 n2 n3 n4 : ℕ) (t1 t2 t3 t4 : ℝ) (F : ℕ → ℕ → ℝ) (x y : ℕ) :
    turnRow n1 n2 t1 t2 (fun x => turnRow n3 n4 t3 t4 (F x) y) x =
      turnBy n1 t1 (fun i => turnBy n2 t2 (fun j => turnBy n3 t3 (fun k => turnBy n4 t4 (fun l => F (i * n2 + j) (k * n4 + l)) (y % n4)) (y / n4)) (x % n2)) (x / n2) := by
  unfold turnRow
  simp only [turn_pi]

theorem binned_turn (hc : Consistent cw a1 a2 b1 b2 s oa ob wa wb coupled) (t1 t2 t3 t4 : ℝ) (j j' : ℕ × ℕ → ℝ) {r t : ℕ}
    (hr : r < nmaps a1 * nmaps a2 * wa.bin.nBands) (ht : t < nmaps b1 * nmaps b2 * wb.bin.nBands) :
    covBinned j' cw (Maps.ofSpins a1 a2 b1 b2) wa wb (s.turn (nmaps a1) (nmaps a2) (nmaps b1) (nmaps b2) t1 t2 t3 t4) r t =
      turnBands (nmaps a1) (nmaps a2) t1 t2 (fun r => turnBands (nmaps b1) (nmaps b2) t3 t4 (fun t => covBinned j cw (Maps.ofSpins a1 a2 b1 b2) wa wb s r t) t) r := by
  have pA : 0 < nmaps a1 * nmaps a2 := Nat.mul_pos (nmaps_pos _) (nmaps_pos _)
  have pB : 0 < nmaps b1 * nmaps b2 := Nat.mul_pos (nmaps_pos _) (nmaps_pos _)
  rw [← Nat.div_add_mod r (nmaps a1 * nmaps a2), ← Nat.div_add_mod t (nmaps b1 * nmaps b2)]
  have hA' : r / (nmaps a1 * nmaps a2) < wa.bin.nBands := Nat.div_lt_of_lt_mul hr
  have hB' : t / (nmaps b1 * nmaps b2) < wb.bin.nBands := Nat.div_lt_of_lt_mul ht
  have hx' := Nat.mod_lt r pA
  have hy' := Nat.mod_lt t pB
  generalize r / (nmaps a1 * nmaps a2) = bA at hA'
  generalize r % (nmaps a1 * nmaps a2) = x at hx'
  generalize t / (nmaps b1 * nmaps b2) = bB at hB'
  generalize t % (nmaps b1 * nmaps b2) = y at hy'
  rw [turnBands_at hx']
  simp only [turnBands_at hy']
  rw [turnRow_both]
  have k1 : x / nmaps a2 < nmaps a1 := Nat.div_lt_of_lt_mul (by rw [mul_comm]; exact hx')
  have k2 : x % nmaps a2 < nmaps a2 := Nat.mod_lt _ (nmaps_pos _)
  have k3 : y / nmaps b2 < nmaps b1 := Nat.div_lt_of_lt_mul (by rw [mul_comm]; exact hy')
  have k4 : y % nmaps b2 < nmaps b2 := Nat.mod_lt _ (nmaps_pos _)
  have app : ∀ (j : ℕ × ℕ → ℝ) (s : CovCls ℝ) (ia ib ic id : ℕ), ia < nmaps a1 → ib < nmaps a2 → ic < nmaps b1 → id < nmaps b2 →
      covBinned j cw (Maps.ofSpins a1 a2 b1 b2) wa wb s (nmaps a1 * nmaps a2 * bA + (ia * nmaps a2 + ib)) (nmaps b1 * nmaps b2 * bB + (ic * nmaps b2 + id)) =
        binnedSum cw (Maps.ofSpins a1 a2 b1 b2) s ia ib ic id (wa.bin.band bA) (wb.bin.band bB) := by
    intro j s ia ib ic id g1 g2 g3 g4
    have := covBinned_apply j cw (Maps.ofSpins a1 a2 b1 b2) wa wb s hc.wspA hc.wspB (ia := ia) (ib := ib) (ic := ic) (id := id) g1 g2 g3 g4 hA' hB'
    rw [hc.wspA, hc.wspB] at this
    rw [← this]
    change covBinned j cw (Maps.ofSpins a1 a2 b1 b2) wa wb s _ _ = covBinned j cw (Maps.ofSpins a1 a2 b1 b2) wa wb s (_ + (ib + nmaps a2 * ia)) (_ + (id + nmaps b2 * ic))
    congr 2 <;> ring
  have x0 : x = x / nmaps a2 * nmaps a2 + x % nmaps a2 := (Nat.div_add_mod' _ _).symm
  have y0 : y = y / nmaps b2 * nmaps b2 + y % nmaps b2 := (Nat.div_add_mod' _ _).symm
  conv_lhs => rw [x0, y0]
  rw [app _ _ _ _ _ _ k1 k2 k3 k4]
  have e : turnBy (nmaps a1) t1 (fun i => turnBy (nmaps a2) t2 (fun o => turnBy (nmaps b1) t3 (fun k => turnBy (nmaps b2) t4 (fun l =>
      covBinned j cw (Maps.ofSpins a1 a2 b1 b2) wa wb s (nmaps a1 * nmaps a2 * bA + (i * nmaps a2 + o)) (nmaps b1 * nmaps b2 * bB + (k * nmaps b2 + l)))
        (y % nmaps b2)) (y / nmaps b2)) (x % nmaps a2)) (x / nmaps a2) =
      turnBy (nmaps a1) t1 (fun i => turnBy (nmaps a2) t2 (fun o => turnBy (nmaps b1) t3 (fun k => turnBy (nmaps b2) t4 (fun l =>
        binnedSum cw (Maps.ofSpins a1 a2 b1 b2) s i o k l (wa.bin.band bA) (wb.bin.band bB)) (y % nmaps b2)) (y / nmaps b2)) (x % nmaps a2)) (x / nmaps a2) :=
    turn_ext (nmaps_or _) t1 (fun i hi => turn_ext (nmaps_or _) t2 (fun o ho => turn_ext (nmaps_or _) t3 (fun k hk => turn_ext (nmaps_or _) t4 (fun l hl =>
      app j s i o k l hi ho hk hl) k4) k3) k2) k1
  rw [e]
  unfold binnedSum
  simp only [turn_list (nmaps_or b2) t4 _ _ k4, turn_list (nmaps_or b1) t3 _ _ k3, turn_list (nmaps_or a2) t2 _ _ k2, turn_list (nmaps_or a1) t1 _ _ k1]
  exact congrArg _ (List.map_congr_left fun ea _ => congrArg _ (List.map_congr_left fun eb _ => element_turn hc t1 t2 t3 t4 _ _ _ k1 k2 k3 k4))

/-- **C103**, coupled: turning the components of the four fields in the input spectra turns the elements of the covariance matrix of the pseudo-spectra at multipoles
that belong to bands. Nothing is asked of the masks and of purification. -/
theorem C103_coupled (hoa : oa.wsp = some wa) (hob : ob.wsp = some wb) (hA : Bounded wa.bin wa.bin.ellMax) (hB : Bounded wb.bin wb.bin.ellMax)
    (hna : BinSpec.NoRepeats wa.bin) (hnb : BinSpec.NoRepeats wb.bin) (t1 t2 t3 t4 : ℝ) {n1 n2 n3 n4 : ℕ} (e1 : n1 = nmaps a1) (e2 : n2 = nmaps a2) (e3 : n3 = nmaps b1)
    (e4 : n4 = nmaps b2) {C : Arr2 ℝ} (h : gaussianCovariance L jk (some cw) a1 a2 b1 b2 s oa (some ob) true = .ok C) :
    ∃ C', gaussianCovariance L jk' (some cw) a1 a2 b1 b2 (s.turn n1 n2 n3 n4 t1 t2 t3 t4) oa (some ob) true = .ok C' ∧ C'.rows = C.rows ∧ C'.cols = C.cols ∧
      ∀ la lb, CovSpec.InBand wa.bin la → CovSpec.InBand wb.bin lb → ∀ x < n1 * n2, ∀ y < n3 * n4, C'.val (n1 * n2 * la + x) (n3 * n4 * lb + y) =
        turnRow n1 n2 t1 t2 (fun x => turnRow n3 n4 t3 t4 (fun y => C.val (n1 * n2 * la + x) (n3 * n4 * lb + y)) y) x := by
  subst e1 e2 e3 e4
  obtain ⟨hc, e⟩ := call_result hoa hob hA hB h
  obtain ⟨C', h'⟩ := (C29_accepts_iff (L := L) (jk := jk') hoa hob hA hB).2 (consistent_turn hc (nmaps a1) (nmaps a2) (nmaps b1) (nmaps b2) t1 t2 t3 t4)
  obtain ⟨-, e'⟩ := call_result hoa hob hA hB h'
  rw [if_pos rfl] at e e'
  have rr : ∀ n m (f : ℕ → ℝ), (reshapeFlat n m f).rows = n := fun _ _ _ => rfl
  have rc : ∀ n m (f : ℕ → ℝ), (reshapeFlat n m f).cols = m := fun _ _ _ => rfl
  refine ⟨C', h', by rw [e, e', rr, rr], by rw [e, e', rc, rc], ?_⟩
  rintro la lb ⟨ea, hea, rfl⟩ ⟨eb, heb, rfl⟩ x hx y hy
  have k1 : x / nmaps a2 < nmaps a1 := Nat.div_lt_of_lt_mul (by rw [mul_comm]; exact hx)
  have k2 : x % nmaps a2 < nmaps a2 := Nat.mod_lt _ (nmaps_pos _)
  have k3 : y / nmaps b2 < nmaps b1 := Nat.div_lt_of_lt_mul (by rw [mul_comm]; exact hy)
  have k4 : y % nmaps b2 < nmaps b2 := Nat.mod_lt _ (nmaps_pos _)
  have x0 : x = x % nmaps a2 + nmaps a2 * (x / nmaps a2) := (Nat.mod_add_div _ _).symm
  have y0 : y = y % nmaps b2 + nmaps b2 * (y / nmaps b2) := (Nat.mod_add_div _ _).symm
  have v' := coupled_val hoa hob hA hB hna hnb h' hea heb k1 k2 k3 k4
  rw [← x0, ← y0, hc.wspA, hc.wspB] at v'
  rw [v', element_turn hc t1 t2 t3 t4 _ _ _ k1 k2 k3 k4, turnRow_both]
  refine turn_ext (nmaps_or _) t1 (fun i hi => turn_ext (nmaps_or _) t2 (fun o ho => turn_ext (nmaps_or _) t3 (fun k hk => turn_ext (nmaps_or _) t4 (fun l hl => ?_) k4) k3) k2) k1
  have v := coupled_val hoa hob hA hB hna hnb h hea heb hi ho hk hl
  rw [hc.wspA, hc.wspB] at v
  rw [← v]
  congr 2 <;> ring

/-- **C103**, decoupled: turning the components of the four fields in the input spectra turns the covariance matrix of the bandpowers: its rows by the angles of the
first pair and its columns by those of the second, whatever the contents of uninitialised memory. The bandpowers `n1 * n2 * b + c` are those of component `c` in band
`b`. The workspaces belong to fields with scalar masks, of which both or none of E and B modes are purified, and have any normalisation and Toeplitz approximation. -/
theorem C103_decoupled {W : Wigner} {env : FieldEnv} {minfo : MapInfo} {c1 c2 c3 c4 : FieldArgs} {f1 f2 f3 f4 : FieldObj} (i1 : EvenCall c1) (i2 : EvenCall c2)
    (i3 : EvenCall c3) (i4 : EvenCall c4) (m1 : nmtField env c1 = .ok f1) (m2 : nmtField env c2 = .ok f2) (m3 : nmtField env c3 = .ok f3) (m4 : nmtField env c4 = .ok f4)
    {sameA sameB : Bool} {Ba Bb : Bins ℝ} {pa pb : WspArgs} (hwa : wspFromFields W env minfo f1 f2 sameA Ba pa = .ok wa)
    (hwb : wspFromFields W env minfo f3 f4 sameB Bb pb = .ok wb) (hL : L.Correct) (rA : Regular wa.nBinned wa.binned) (rB : Regular wb.nBinned wb.binned)
    (hoa : oa.wsp = some wa) (hob : ob.wsp = some wb) (hA : Bounded wa.bin wa.bin.ellMax) (hB : Bounded wb.bin wb.bin.ellMax) (t1 t2 t3 t4 : ℝ) {n1 n2 n3 n4 : ℕ}
    (e1 : n1 = nmaps a1) (e2 : n2 = nmaps a2) (e3 : n3 = nmaps b1) (e4 : n4 = nmaps b2) (g1 : f1.nmaps = n1) (g2 : f2.nmaps = n2) (g3 : f3.nmaps = n3) (g4 : f4.nmaps = n4)
    {C : Arr2 ℝ} (h : gaussianCovariance L jk (some cw) a1 a2 b1 b2 s oa (some ob) false = .ok C) :
    ∃ C', gaussianCovariance L jk' (some cw) a1 a2 b1 b2 (s.turn n1 n2 n3 n4 t1 t2 t3 t4) oa (some ob) false = .ok C' ∧
      (C.rows = n1 * n2 * wa.bin.nBands ∧ C.cols = n3 * n4 * wb.bin.nBands) ∧ (C'.rows = C.rows ∧ C'.cols = C.cols) ∧
      ∀ bA < wa.bin.nBands, ∀ bB < wb.bin.nBands, ∀ x < n1 * n2, ∀ y < n3 * n4, C'.val (n1 * n2 * bA + x) (n3 * n4 * bB + y) =
        turnRow n1 n2 t1 t2 (fun x => turnRow n3 n4 t3 t4 (fun y => C.val (n1 * n2 * bA + x) (n3 * n4 * bB + y)) y) x := by
  subst e1 e2 e3 e4
  obtain ⟨hc, e⟩ := call_result hoa hob hA hB h
  obtain ⟨C', h'⟩ := (C29_accepts_iff (L := L) (jk := jk') hoa hob hA hB).2 (consistent_turn hc (nmaps a1) (nmaps a2) (nmaps b1) (nmaps b2) t1 t2 t3 t4)
  obtain ⟨-, e'⟩ := call_result hoa hob hA hB h'
  rw [if_neg (by simp)] at e e'
  have nA := hc.wspA
  have nB := hc.wspB
  have kA := wsp_blocks (field_iso i1.iso22 i1.iso12 m1) (field_iso i2.iso22 i2.iso12 m2) (field_plain i1 m1) (field_plain i2 m2) hwa (by rw [nA, g1, g2]) t1 t2
  have kB := wsp_blocks (field_iso i3.iso22 i3.iso12 m3) (field_iso i4.iso22 i4.iso12 m4) (field_plain i3 m3) (field_plain i4 m4) hwb (by rw [nB, g3, g4]) t3 t4
  rw [g1, g2] at kA
  rw [g3, g4] at kB
  have rA' : Regular (nmaps a1 * nmaps a2 * wa.bin.nBands) wa.binned := by rw [← nA]; exact rA
  have rB' : Regular (nmaps b1 * nmaps b2 * wb.bin.nBands) wb.binned := by rw [← nB]; exact rB
  refine ⟨C', h', ⟨by rw [e, Arr2.of_rows, nA], by rw [e, Arr2.of_cols, nB]⟩, ⟨by rw [e, e', Arr2.of_rows, Arr2.of_rows], by rw [e, e', Arr2.of_cols, Arr2.of_cols]⟩,
    fun bA hbA bB hbB x hx y hy => ?_⟩
  have hv : ∀ i < nmaps a1 * nmaps a2 * wa.bin.nBands, ∀ k < nmaps b1 * nmaps b2 * wb.bin.nBands, C'.val i k =
      turnBands (nmaps a1) (nmaps a2) t1 t2 (fun i => turnBands (nmaps b1) (nmaps b2) t3 t4 (fun k => C.val i k) k) i := by
    intro i hi k hk
    have := sandwich_turned hL (nmaps_or a1) (nmaps_or a2) (nmaps_or b1) (nmaps_or b2) rA' rB' kA kB
      (fun r hr t ht => binned_turn hc t1 t2 t3 t4 jk.mat jk'.mat hr ht) hi hk
    rw [e', Arr2.of_val _ (by rw [nA]; exact hi) (by rw [nB]; exact hk)]
    unfold decoupledElt
    rw [nA, nB, this]
    refine turnBands_congr (nmaps_or a1) (nmaps_or a2) hi fun i hi => turnBands_congr (nmaps_or b1) (nmaps_or b2) hk fun k hk => ?_
    rw [e, Arr2.of_val _ (by rw [nA]; exact hi) (by rw [nB]; exact hk)]
    unfold decoupledElt
    rw [nA, nB]
  rw [hv _ (flat_lt hx hbA) _ (flat_lt hy hbB), turnBands_at hx]
  congr 1
  funext x
  exact turnBands_at hy _

end NaMaster
