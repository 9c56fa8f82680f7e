import Verif.FlatAngle.Covar

/-!
# C102: flat-sky covariances follow rotations of the polarisation angles
-/

namespace NaMaster

open Real Finset

theorem nmaps_spin (s : ℕ) : nmaps (s : ℤ) = nmapsOf s := by
  unfold nmaps nmapsOf
  by_cases h : s = 0
  · rw [if_neg (by simp [h]), if_pos h]
  · rw [if_pos (by exact_mod_cast h), if_neg h]

theorem turn_ext {n : ℕ} (hn : n = 1 ∨ n = 2) (t : ℝ) {u v : ℕ → ℝ} (h : ∀ i < n, u i = v i) {c : ℕ} (hc : c < n) : turnBy n t u c = turnBy n t v c := by
  obtain ⟨x, y, i, j, hi, hj, e⟩ := turn_comb_lt hn t hc
  rw [e, e, h i hi, h j hj]

/-- The four input spectra with the components of the fields turned by the angles `t1`, `t2` (first pair) and `t3`, `t4` (second pair). -/
noncomputable def CovCls.turn (n1 n2 n3 n4 : ℕ) (t1 t2 t3 t4 : ℝ) (s : CovCls ℝ) : CovCls ℝ :=
  ⟨s.ac.turn n1 n3 t1 t3, s.ad.turn n1 n4 t1 t4, s.bc.turn n2 n3 t2 t3, s.bd.turn n2 n4 t2 t4⟩

/-- **C102**: if the components of the four fields are turned by angles in the input spectra, the covariance matrix of the bandpowers is turned by the angles of the
first pair in its rows and by those of the second pair in its columns, whatever the contents of uninitialised memory. The bandpowers `n1 * n2 * b + c` are those of
component `c` in band `b`. The workspaces belong to fields of which both or none of E and B modes are purified. -/
theorem C102_covariance {L : LinAlg ℝ} (hL : L.Correct) (j j' : CovJunk ℝ) {f1 f2 f3 f4 : FlatField} (p1 : f1.pureE = f1.pureB) (p2 : f2.pureE = f2.pureB)
    (p3 : f3.pureE = f3.pureB) (p4 : f4.pureE = f4.pureB) (cw : CovWspFlat) {Ba Bb : FlatBins ℝ} {ca cb : EllCuts} {wa wb : WspFlat}
    (hwa : couplingFlat f1 f2 Ba ca false = .ok wa) (hwb : couplingFlat f3 f4 Bb cb false = .ok wb)
    (hA : Regular (wa.ncls * wa.bin.nBands) wa.gslMatrix) (hB : Regular (wb.ncls * wb.bin.nBands) wb.gslMatrix) (t1 t2 t3 t4 : ℝ) (larr : List ℝ) (s : CovCls ℝ)
    (hc : ConsistentFlat cw f1.spin f2.spin f3.spin f4.spin larr s wa wb) {n1 n2 n3 n4 : ℕ} (e1 : n1 = nmapsOf f1.spin) (e2 : n2 = nmapsOf f2.spin)
    (e3 : n3 = nmapsOf f3.spin) (e4 : n4 = nmapsOf f4.spin) :
    ∃ C C', gaussianCovarianceFlat L j (some cw) f1.spin f2.spin f3.spin f4.spin larr s (some wa) (some (some wb)) = .ok C ∧
      gaussianCovarianceFlat L j' (some cw) f1.spin f2.spin f3.spin f4.spin larr (s.turn n1 n2 n3 n4 t1 t2 t3 t4) (some wa) (some (some wb)) = .ok C' ∧
      (C.rows = n1 * n2 * cw.bin.nBands ∧ C.cols = n3 * n4 * cw.bin.nBands) ∧ (C'.rows = C.rows ∧ C'.cols = C.cols) ∧
      ∀ bA < cw.bin.nBands, ∀ bB < cw.bin.nBands, ∀ x < n1 * n2, ∀ y < n3 * n4, C'.val (n1 * n2 * bA + x) (n3 * n4 * bB + y) =
        turnRow n1 n2 t1 t2 (fun x => turnRow n3 n4 t3 t4 (fun y => C.val (n1 * n2 * bA + x) (n3 * n4 * bB + y)) y) x := by
  subst e1 e2 e3 e4
  have v1 := nmapsOf_or f1.spin
  have v2 := nmapsOf_or f2.spin
  have v3 := nmapsOf_or f3.spin
  have v4 := nmapsOf_or f4.spin
  obtain ⟨v, hv, hg⟩ := gaussFlat_eq cw.bin hc.ells
  obtain ⟨r1, r2, r3, r4⟩ := hc.rows
  obtain ⟨c1, c2, c3, c4⟩ := hc.cols
  simp only [nmaps_spin] at r1 r2 r3 r4
  have hc' : ConsistentFlat cw f1.spin f2.spin f3.spin f4.spin larr
      (s.turn (nmapsOf f1.spin) (nmapsOf f2.spin) (nmapsOf f3.spin) (nmapsOf f4.spin) t1 t2 t3 t4) wa wb :=
    ⟨hc.wspA, hc.wspB, hc.rows, hc.cols, hc.ells, hc.bands, hc.small⟩
  obtain ⟨C, hC, hCr, hCc, hCv⟩ := hg L j cw rfl _ _ _ _ s wa wb hc
  obtain ⟨C', hC', hCr', hCc', hCv'⟩ := hg L j' cw rfl _ _ _ _ _ wa wb hc'
  obtain ⟨na, exA⟩ := binned_exchanges p1 p2 t1 t2 hwa
  obtain ⟨nb, exB⟩ := binned_exchanges p3 p4 t3 t4 hwb
  obtain ⟨ba, bb⟩ := hc.bands
  rw [na] at hCr hCv hCr' hCv' hA
  rw [nb] at hCc hCv hCc' hCv' hB
  refine ⟨C, C', hC, hC', ⟨hCr, hCc⟩, ⟨hCr'.trans hCr.symm, hCc'.trans hCc.symm⟩, fun bA hbA bB hbB x hx y hy => ?_⟩
  set NA := nmapsOf f1.spin * nmapsOf f2.spin with hNA
  set NB := nmapsOf f3.spin * nmapsOf f4.spin with hNB
  set N := cw.bin.nBands with hN
  set m := Maps.ofSpins (f1.spin : ℤ) (f2.spin : ℤ) (f3.spin : ℤ) (f4.spin : ℤ) with hm
  have ma : m.a = nmapsOf f1.spin := nmaps_spin _
  have mb : m.b = nmapsOf f2.spin := nmaps_spin _
  have mc : m.c = nmapsOf f3.spin := nmaps_spin _
  have md : m.d = nmapsOf f4.spin := nmaps_spin _
  generalize hc0 : flatBinned j.mat cw m NA NB ⟨binVals cw.bin v s.ac, binVals cw.bin v s.ad, binVals cw.bin v s.bc, binVals cw.bin v s.bd⟩ = M at hCv
  -- the turned array of coupled covariances
  have hturn : ∀ r < NA * N, ∀ t < NB * N, flatBinned j'.mat cw m NA NB ⟨binVals cw.bin v (s.ac.turn (nmapsOf f1.spin) (nmapsOf f3.spin) t1 t3),
      binVals cw.bin v (s.ad.turn (nmapsOf f1.spin) (nmapsOf f4.spin) t1 t4), binVals cw.bin v (s.bc.turn (nmapsOf f2.spin) (nmapsOf f3.spin) t2 t3),
      binVals cw.bin v (s.bd.turn (nmapsOf f2.spin) (nmapsOf f4.spin) t2 t4)⟩ r t =
      turnBands (nmapsOf f1.spin) (nmapsOf f2.spin) t1 t2 (fun r => turnBands (nmapsOf f3.spin) (nmapsOf f4.spin) t3 t4 (fun t => M r t) t) r := by
    intro r hr t ht
    have hpos : ∀ s, 0 < nmapsOf s := fun s => by rcases nmapsOf_or s with h | h <;> omega
    have hposA : 0 < NA := by rw [hNA]; exact Nat.mul_pos (hpos _) (hpos _)
    have hposB : 0 < NB := by rw [hNB]; exact Nat.mul_pos (hpos _) (hpos _)
    rw [← Nat.div_add_mod r NA, ← Nat.div_add_mod t NB]
    have hA' : r / NA < N := Nat.div_lt_of_lt_mul hr
    have hB' : t / NB < N := Nat.div_lt_of_lt_mul ht
    have hx' : r % NA < NA := Nat.mod_lt _ hposA
    have hy' : t % NB < NB := Nat.mod_lt _ hposB
    generalize r / NA = bA at hA'
    generalize r % NA = x at hx'
    generalize t / NB = bB at hB'
    generalize t % NB = y at hy'
    rw [turnBands_at hx']
    have hyy : ∀ v : ℕ → ℝ, turnBands (nmapsOf f3.spin) (nmapsOf f4.spin) t3 t4 v (NB * bB + y) =
        turnRow (nmapsOf f3.spin) (nmapsOf f4.spin) t3 t4 (fun c => v (NB * bB + c)) y := fun v => turnBands_at hy' v
    simp only [hyy]
    unfold turnRow
    simp only [turn_pi]
    have k1 : x / nmapsOf f2.spin < nmapsOf f1.spin := Nat.div_lt_of_lt_mul (by rw [mul_comm]; exact hx')
    have k2 : x % nmapsOf f2.spin < nmapsOf f2.spin := Nat.mod_lt _ (hpos _)
    have k3 : y / nmapsOf f4.spin < nmapsOf f3.spin := Nat.div_lt_of_lt_mul (by rw [mul_comm]; exact hy')
    have k4 : y % nmapsOf f4.spin < nmapsOf f4.spin := Nat.mod_lt _ (hpos _)
    have x0 : x = x % nmapsOf f2.spin + nmapsOf f2.spin * (x / nmapsOf f2.spin) := (Nat.mod_add_div _ _).symm
    have y0 : y = y % nmapsOf f4.spin + nmapsOf f4.spin * (y / nmapsOf f4.spin) := (Nat.mod_add_div _ _).symm
    conv_lhs => rw [x0, y0, ← mb, ← md]
    rw [flatBinned_apply j'.mat cw m _ (by rw [ma, mb]) (by rw [mc, md]) (by rw [ma, mb]; exact k1) (by rw [mb]; exact k2) (by rw [mc, md]; exact k3) (by rw [md]; exact k4) hA' hB']
    rw [covElement_turned (s := ⟨binVals cw.bin v s.ac, binVals cw.bin v s.ad, binVals cw.bin v s.bc, binVals cw.bin v s.bd⟩) _ m (Maps.ofSpins_valid _ _ _ _) t1 t2 t3 t4]
    · rw [ma, mb, mc, md]
      refine turn_ext v1 t1 (fun i hi => turn_ext v2 t2 (fun o ho => turn_ext v3 t3 (fun k hk => turn_ext v4 t4 (fun l hl => ?_) k4) k3) k2) k1
      have := flatBinned_apply (ia := i) (ib := o) (ic := k) (id := l) j.mat cw m ⟨binVals cw.bin v s.ac, binVals cw.bin v s.ad, binVals cw.bin v s.bc, binVals cw.bin v s.bd⟩
        (na := NA) (nb := NB) (by rw [ma, mb]) (by rw [mc, md]) (by rw [ma]; exact hi) (by rw [mb]; exact ho) (by rw [mc]; exact hk) (by rw [md]; exact hl) hA' hB'
      rw [← this, hc0, mb, md]
      congr 2 <;> ring
    · intro p hp q hq l hl
      rw [ma] at hp
      rw [mc] at hq
      rw [ma, mc]
      exact binVals_turned hv v1 v3 t1 t3 r1 c1 hp hq (by rcases hl with rfl | rfl <;> assumption)
    · intro p hp q hq l hl
      rw [ma] at hp
      rw [md] at hq
      rw [ma, md]
      exact binVals_turned hv v1 v4 t1 t4 r2 c2 hp hq (by rcases hl with rfl | rfl <;> assumption)
    · intro p hp q hq l hl
      rw [mb] at hp
      rw [mc] at hq
      rw [mb, mc]
      exact binVals_turned hv v2 v3 t2 t3 r3 c3 hp hq (by rcases hl with rfl | rfl <;> assumption)
    · intro p hp q hq l hl
      rw [mb] at hp
      rw [md] at hq
      rw [mb, md]
      exact binVals_turned hv v2 v4 t2 t4 r4 c4 hp hq (by rcases hl with rfl | rfl <;> assumption)
    · rw [ma, mb]; exact k1
    · rw [mb]; exact k2
    · rw [mc, md]; exact k3
    · rw [md]; exact k4
  have hstep : ∀ i < NA * N, ∀ k < NB * N, C'.val i k =
      turnBands (nmapsOf f1.spin) (nmapsOf f2.spin) t1 t2 (fun i => turnBands (nmapsOf f3.spin) (nmapsOf f4.spin) t3 t4 (fun k => C.val i k) k) i := by
    intro i hi k hk
    rw [hCv' i hi k hk]
    have q1 : ∀ r ∈ range (NA * N), L.invert (NA * N) wa.gslMatrix i r * ∑ t ∈ range (NB * N), flatBinned j'.mat cw m NA NB
        ⟨binVals cw.bin v (s.ac.turn (nmapsOf f1.spin) (nmapsOf f3.spin) t1 t3),
          binVals cw.bin v (s.ad.turn (nmapsOf f1.spin) (nmapsOf f4.spin) t1 t4), binVals cw.bin v (s.bc.turn (nmapsOf f2.spin) (nmapsOf f3.spin) t2 t3),
          binVals cw.bin v (s.bd.turn (nmapsOf f2.spin) (nmapsOf f4.spin) t2 t4)⟩ r t * L.invert (NB * N) wb.gslMatrix k t =
        L.invert (NA * N) wa.gslMatrix i r * turnBands (nmapsOf f1.spin) (nmapsOf f2.spin) t1 t2 (fun r =>
          turnBands (nmapsOf f3.spin) (nmapsOf f4.spin) t3 t4 (fun k => ∑ t ∈ range (NB * N), L.invert (NB * N) wb.gslMatrix k t * M r t) k) r := by
      intro r hr
      congr 1
      rw [sum_congr rfl fun t ht => by rw [hturn r (mem_range.1 hr) t (mem_range.1 ht), mul_comm]]
      rw [← turnBands_sum v1 v2 (N := N) (mem_range.1 hr)]
      congr 1
      funext r
      have := inverse_turned (t1 := t3) (t2 := t4) hL v3 v4 wb nb (by rw [bb] at hB ⊢; exact hB) exB (M r) (i := k) (by rw [bb]; exact hk)
      rw [bb] at this
      exact this
    refine (sum_congr rfl q1).trans ?_
    have := inverse_turned (t1 := t1) (t2 := t2) hL v1 v2 wa na (by rw [ba] at hA ⊢; exact hA) exA (fun r =>
      turnBands (nmapsOf f3.spin) (nmapsOf f4.spin) t3 t4 (fun k => ∑ t ∈ range (NB * N), L.invert (NB * N) wb.gslMatrix k t * M r t) k) (i := i) (by rw [ba]; exact hi)
    rw [ba] at this
    refine this.trans (turnBands_congr v1 v2 hi fun i hi => ?_)
    rw [← turnBands_sum v3 v4 (N := N) hk]
    refine turnBands_congr v3 v4 hk fun k hk => ?_
    rw [hCv i hi k hk]
    exact sum_congr rfl fun r _ => by rw [sum_congr rfl fun t _ => mul_comm _ _]
  rw [hstep _ (flat_lt hx hbA) _ (flat_lt hy hbB), turnBands_at hx]
  congr 1
  funext x
  exact turnBands_at hy _

end NaMaster
