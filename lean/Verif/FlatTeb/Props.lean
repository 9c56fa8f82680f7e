import Verif.FlatUnits.Props
import Verif.Flat.PipelineProps
import Verif.Teb.Props

/-!
# C100: joint flat-sky workspaces for a scalar field and a field with spin
-/

namespace NaMaster

open Finset Real

/-! ## Specification -/

/-- A scalar field and a field with spin on the same map; the mask of the first one is `c` times, and its beam `d` times, that of the second. -/
structure FlatTebPair (fT fP : FlatField) (c d : ℝ) : Prop where
  fs : fT.fs = fP.fs
  spinT : fT.spin = 0
  spinP : fP.spin ≠ 0
  notPure : fT.pureE = 0 ∧ fT.pureB = 0
  mask : ∀ p, fT.mask p = c * fP.mask p
  beam : ∀ l, fT.beam l = d * fP.beam l

/-! ## Lemmas -/

/-- The factors of the joint matrix are those of the separate ones. -/
theorem coupFactor_teb (pe pb : ℕ) (c0 s0 c0' s0' c1 s1 c2 s2 kr : ℝ) {x y : ℕ} (hx : x < 7) (hy : y < 7) :
    coupFactor 7 0 0 pe pb c1 s1 c1 s1 kr x y =
      if x = 0 ∧ y = 0 then coupFactor 1 0 0 0 0 c0 s0 c0' s0' kr 0 0
      else if (x = 1 ∨ x = 2) ∧ (y = 1 ∨ y = 2) then coupFactor 2 0 0 pe pb c1 s1 c2 s2 kr (x - 1) (y - 1)
      else if 3 ≤ x ∧ 3 ≤ y then coupFactor 4 pe pb pe pb c1 s1 c1 s1 kr (x - 3) (y - 3)
      else 0 := by
  interval_cases x <;> interval_cases y <;> simp [coupFactor]

open Classical in
/-- The binned matrix of a workspace. -/
theorem coupling_binned {f1 f2 : FlatField} {b : FlatBins ℝ} {c : EllCuts} {t : Bool} {w : WspFlat} (h : couplingFlat f1 f2 b c t = .ok w) :
    f1.fs = f2.fs ∧ 0 < b.nBands ∧ ∃ rows rowsN, Outcome.all ((List.range f1.fs.ny).map fun iy => couplingBands f1.fs b c iy) = .ok rows ∧
      Outcome.all ((List.range f1.fs.ny).map fun iy => couplingBandsNocut f1.fs b iy) = .ok rowsN ∧
      w.bin = b ∧ w.ncls = (if t then 7 else nmapsOf f1.spin * nmapsOf f2.spin) ∧
      ∀ i < w.ncls, ∀ j < w.ncls, ∀ b1 < b.nBands, ∀ b2 < b.nBands, w.binned i b1 j b2 =
        (∑ k1 ∈ f1.fs.modes with tableAt rows k1 = b1, ∑ k2 ∈ f1.fs.modes with tableAt rowsN k2 = b2,
          coupTerm f1 f2 w.ncls (halfProd f1.fs.nx (f1.fs.map2alm f1.mask) (f1.fs.map2alm f2.mask)) i j k1 k2) *
        (if nCells f1.fs rows b1 > 0 then 4 * π * π / (f1.fs.lx * f1.fs.lx * f1.fs.ly * f1.fs.ly) / nCells f1.fs rows b1 else 0) := by
  unfold couplingFlat at h
  by_cases h1 : f1.fs ≠ f2.fs
  · rw [if_pos h1] at h; cases h
  rw [if_neg h1] at h
  by_cases h2 : t = true ∧ ¬ (f1.spin = 0 ∧ f2.spin ≠ 0)
  · rw [if_pos h2] at h; cases h
  rw [if_neg h2] at h
  by_cases h3 : b.nBands = 0
  · rw [if_pos h3] at h; cases h
  rw [if_neg h3] at h
  dsimp only at h
  obtain ⟨rows, hr, h⟩ := bind_eq_ok h
  obtain ⟨rowsN, hrN, h⟩ := bind_eq_ok h
  have h := Outcome.ok.inj h
  subst h
  refine ⟨not_not.1 h1, Nat.pos_of_ne_zero h3, rows, rowsN, hr, hrN, rfl, rfl, fun i hi j hj b1 hb1 b2 hb2 => ?_⟩
  exact if_pos ⟨hi, hj, hb1, hb2⟩

open Classical in
/-- A joint workspace is made if one can be made for the same fields without the option. -/
theorem teb_made {fT fP : FlatField} {b : FlatBins ℝ} {c : EllCuts} {w : WspFlat} (h : couplingFlat fT fP b c false = .ok w) (hT : fT.spin = 0)
    (hP : fP.spin ≠ 0) : ∃ w7, couplingFlat fT fP b c true = .ok w7 := by
  obtain ⟨h1, h2, rows, rowsN, hr, hrN, -⟩ := coupling_binned h
  unfold couplingFlat
  rw [if_neg (not_not.2 h1), if_neg (fun h => h.2 ⟨hT, hP⟩), if_neg h2.ne']
  dsimp only
  rw [hr, Outcome.bind, hrN]
  exact ⟨_, rfl⟩

variable {fT fP : FlatField} {c d : ℝ} {b : FlatBins ℝ} {cuts : EllCuts}

/-- The products of two coefficients of masks. -/
theorem FlatTebPair.prods (h : FlatTebPair fT fP c d) (fs : FlatInfo) :
    (∀ q, halfProd fs.nx (fs.map2alm fT.mask) (fs.map2alm fP.mask) q = c * halfProd fs.nx (fs.map2alm fP.mask) (fs.map2alm fP.mask) q) ∧
    (∀ q, halfProd fs.nx (fs.map2alm fT.mask) (fs.map2alm fT.mask) q = c * (c * halfProd fs.nx (fs.map2alm fP.mask) (fs.map2alm fP.mask) q)) := by
  have hm : fT.mask = fun p => c * fP.mask p := funext h.mask
  have h1 := maskprod_scale fs c 1 fP.mask fP.mask
  have h2 := maskprod_scale fs c c fP.mask fP.mask
  simp only [one_mul, mul_one] at h1
  refine ⟨fun q => ?_, fun q => ?_⟩
  · rw [hm]; exact congrFun h1 q
  · rw [hm, ← mul_assoc]; exact congrFun h2 q

/-- The terms of the joint matrix. -/
theorem FlatTebPair.term (h : FlatTebPair fT fP c d) (hc : c ≠ 0) (hd : d ≠ 0) (fs : FlatInfo) {x y : ℕ} (hx : x < 7) (hy : y < 7) (k1 k2 : ℕ × ℕ) :
    coupTerm fT fP 7 (halfProd fs.nx (fs.map2alm fT.mask) (fs.map2alm fP.mask)) x y k1 k2 =
      if x = 0 ∧ y = 0 then (c * d)⁻¹ * coupTerm fT fT 1 (halfProd fs.nx (fs.map2alm fT.mask) (fs.map2alm fT.mask)) 0 0 k1 k2
      else if (x = 1 ∨ x = 2) ∧ (y = 1 ∨ y = 2) then
        coupTerm fT fP 2 (halfProd fs.nx (fs.map2alm fT.mask) (fs.map2alm fP.mask)) (x - 1) (y - 1) k1 k2
      else if 3 ≤ x ∧ 3 ≤ y then
        (c * d) * coupTerm fP fP 4 (halfProd fs.nx (fs.map2alm fP.mask) (fs.map2alm fP.mask)) (x - 3) (y - 3) k1 k2
      else 0 := by
  obtain ⟨p1, p2⟩ := h.prods fs
  have e7 : coupSpins 7 fT.spin fP.spin = (fP.spin, fP.spin) := by simp [coupSpins, h.spinT, h.spinP]
  have e2 : coupSpins 2 fT.spin fP.spin = (fP.spin, 0) := by simp [coupSpins, h.spinT, h.spinP]
  have e4 : coupSpins 4 fP.spin fP.spin = (fP.spin, fP.spin) := by simp [coupSpins, h.spinP]
  unfold coupTerm
  dsimp only
  rw [e7, e2, e4, h.notPure.1, h.notPure.2, h.fs]
  dsimp only
  rw [coupFactor_teb _ _ (fP.fs.cdiff (coupSpins 1 fT.spin fT.spin).1 k1 k2) (fP.fs.sdiff (coupSpins 1 fT.spin fT.spin).1 k1 k2)
    (fP.fs.cdiff (coupSpins 1 fT.spin fT.spin).2 k1 k2) (fP.fs.sdiff (coupSpins 1 fT.spin fT.spin).2 k1 k2) _ _
    (fP.fs.cdiff 0 k1 k2) (fP.fs.sdiff 0 k1 k2) _ hx hy]
  by_cases q0 : x = 0 ∧ y = 0
  · rw [if_pos q0, if_pos q0, p1, p2, h.beam]
    field_simp
  rw [if_neg q0, if_neg q0]
  by_cases q1 : (x = 1 ∨ x = 2) ∧ (y = 1 ∨ y = 2)
  · rw [if_pos q1, if_pos q1]
  rw [if_neg q1, if_neg q1]
  by_cases q3 : 3 ≤ x ∧ 3 ≤ y
  · rw [if_pos q3, if_pos q3, p1, h.beam]
    ring
  · rw [if_neg q3, if_neg q3, zero_mul]

theorem gsl_at (w : WspFlat) {n : ℕ} (hn : w.ncls = n) {x y : ℕ} (hx : x < n) (hy : y < n) (b1 b2 : ℕ) :
    w.gslMatrix (n * b1 + x) (n * b2 + y) = w.binned x b1 y b2 := by
  unfold WspFlat.gslMatrix
  rw [hn, Nat.mul_add_mod, Nat.mod_eq_of_lt hx, Nat.mul_add_mod, Nat.mod_eq_of_lt hy, pairIdx_div hx, pairIdx_div hy]

/-- The binned matrix of the joint workspace. -/
theorem teb_binned_flat (h : FlatTebPair fT fP c d) (hc : c ≠ 0) (hd : d ≠ 0) {w7 w1 w2 w4 : WspFlat} (h7 : couplingFlat fT fP b cuts true = .ok w7)
    (h1 : couplingFlat fT fT b cuts false = .ok w1) (h2 : couplingFlat fT fP b cuts false = .ok w2) (h4 : couplingFlat fP fP b cuts false = .ok w4) :
    (w7.ncls = 7 ∧ w7.bin = b) ∧ (w1.ncls = 1 ∧ w1.bin = b) ∧ (w2.ncls = 2 ∧ w2.bin = b) ∧ (w4.ncls = 4 ∧ w4.bin = b) ∧
    ∀ b1 b2 x y, b1 < b.nBands → b2 < b.nBands → x < 7 → y < 7 → w7.gslMatrix (7 * b1 + x) (7 * b2 + y) =
      blockElem (c * d)⁻¹ (c * d) w1.gslMatrix w2.gslMatrix w4.gslMatrix b1 b2 x y := by
  obtain ⟨-, -, rows, rowsN, hr, hrN, v7, n7, m7⟩ := coupling_binned h7
  obtain ⟨-, -, rows', rowsN', hr', hrN', v1, n1, m1⟩ := coupling_binned h1
  obtain rfl := Outcome.ok.inj (hr.symm.trans hr')
  obtain rfl := Outcome.ok.inj (hrN.symm.trans hrN')
  obtain ⟨-, -, rows', rowsN', hr', hrN', v2, n2, m2⟩ := coupling_binned h2
  obtain rfl := Outcome.ok.inj (hr.symm.trans hr')
  obtain rfl := Outcome.ok.inj (hrN.symm.trans hrN')
  obtain ⟨-, -, rows', rowsN', hr', hrN', v4, n4, m4⟩ := coupling_binned h4
  rw [← h.fs] at hr' hrN' m4
  obtain rfl := Outcome.ok.inj (hr.symm.trans hr')
  obtain rfl := Outcome.ok.inj (hrN.symm.trans hrN')
  have n7 : w7.ncls = 7 := n7
  have n1 : w1.ncls = 1 := by rw [n1]; simp [nmapsOf, h.spinT]
  have n2 : w2.ncls = 2 := by rw [n2]; simp [nmapsOf, h.spinT, h.spinP]
  have n4 : w4.ncls = 4 := by rw [n4]; simp [nmapsOf, h.spinP]
  refine ⟨⟨n7, v7⟩, ⟨n1, v1⟩, ⟨n2, v2⟩, ⟨n4, v4⟩, fun b1 b2 x y hb1 hb2 hx hy => ?_⟩
  rw [gsl_at w7 n7 hx hy, m7 x (by rw [n7]; exact hx) y (by rw [n7]; exact hy) b1 hb1 b2 hb2, n7]
  simp only [h.term hc hd _ hx hy]
  unfold blockElem
  by_cases q0 : x = 0 ∧ y = 0
  · simp only [if_pos q0]
    rw [gsl_at w1 n1 (by norm_num) (by norm_num), m1 0 (by rw [n1]; norm_num) 0 (by rw [n1]; norm_num) b1 hb1 b2 hb2, n1]
    simp only [← mul_sum, mul_assoc]
  simp only [if_neg q0]
  by_cases q1 : (x = 1 ∨ x = 2) ∧ (y = 1 ∨ y = 2)
  · simp only [if_pos q1]
    rw [gsl_at w2 n2 (by omega) (by omega), m2 (x - 1) (by rw [n2]; omega) (y - 1) (by rw [n2]; omega) b1 hb1 b2 hb2, n2]
  simp only [if_neg q1]
  by_cases q3 : 3 ≤ x ∧ 3 ≤ y
  · simp only [if_pos q3]
    rw [gsl_at w4 n4 (by omega) (by omega), m4 (x - 3) (by rw [n4]; omega) (y - 3) (by rw [n4]; omega) b1 hb1 b2 hb2, n4]
    simp only [← mul_sum, mul_assoc]
  · simp only [if_neg q3, sum_const_zero, zero_mul]

/-- What `decouple_cell` returns without bias and noise. -/
theorem decouple_flat_vec {L : LinAlg ℝ} {w : WspFlat} {P D : Arr2 ℝ} (h : decoupleCellFlat L (some w) P none none = .ok D) :
    P.rows = w.ncls ∧ P.cols = w.bin.nBands ∧ D.rows = w.ncls ∧ D.cols = w.bin.nBands ∧ ∀ k < w.ncls, ∀ ib < w.bin.nBands,
      D.val k ib = L.solve (w.ncls * w.bin.nBands) w.gslMatrix (flatInput w P.val (fun _ _ => 0) fun _ _ => 0) (w.ncls * ib + k) := by
  unfold decoupleCellFlat at h
  dsimp only at h
  by_cases h0 : P.rows ≠ w.ncls ∨ P.cols ≠ w.bin.nBands
  · rw [if_pos h0] at h; cases h
  rw [if_neg h0] at h
  push Not at h0
  rw [if_neg (by simp), if_neg (by simp)] at h
  dsimp only [Option.getD] at h
  rw [if_neg (by rw [h0.1, h0.2]; simp)] at h
  unfold decoupleFlatC at h
  rw [if_neg (by dsimp only; omega)] at h
  have h := Outcome.ok.inj h
  subst h
  refine ⟨h0.1, h0.2, rfl, rfl, fun k hk ib hib => ?_⟩
  unfold Arr2.of
  dsimp only
  rw [tab2_of_lt _ hk hib, if_pos hk]

theorem decouple_flat_ok (L : LinAlg ℝ) (w : WspFlat) {P : Arr2 ℝ} (h1 : P.rows = w.ncls) (h2 : P.cols = w.bin.nBands) :
    ∃ D, decoupleCellFlat L (some w) P none none = .ok D := by
  unfold decoupleCellFlat
  dsimp only
  rw [if_neg (by rw [h1, h2]; simp), if_neg (by simp), if_neg (by simp)]
  dsimp only [Option.getD]
  rw [if_neg (by rw [h1, h2]; simp)]
  unfold decoupleFlatC
  rw [if_neg (by dsimp only; omega)]
  exact ⟨_, rfl⟩

/-! ## Theorems -/

/-- **C100** fails for masks and beams that differ by a factor: the joint workspace exists, but the spectrum of the scalar field comes out multiplied by the
factor between masks and beams, and those of the other field divided by it. -/
theorem C100_factor_wrong (L : LinAlg ℝ) (hL : L.Correct) (h : FlatTebPair fT fP c d) (hc : c ≠ 0) (hd : d ≠ 0) {w1 w2 w4 : WspFlat}
    (h1 : couplingFlat fT fT b cuts false = .ok w1) (h2 : couplingFlat fT fP b cuts false = .ok w2) (h4 : couplingFlat fP fP b cuts false = .ok w4)
    (r1 : Regular (w1.ncls * w1.bin.nBands) w1.gslMatrix) (r2 : Regular (w2.ncls * w2.bin.nBands) w2.gslMatrix)
    (r4 : Regular (w4.ncls * w4.bin.nBands) w4.gslMatrix) {P1 P2 P4 D1 D2 D4 : Arr2 ℝ} (d1 : decoupleCellFlat L (some w1) P1 none none = .ok D1)
    (d2 : decoupleCellFlat L (some w2) P2 none none = .ok D2) (d4 : decoupleCellFlat L (some w4) P4 none none = .ok D4) :
    ∃ w7 D, couplingFlat fT fP b cuts true = .ok w7 ∧ decoupleCellFlat L (some w7) (stackTeb P1 P2 P4) none none = .ok D ∧
      SameArray D (stackTeb (D1.scale (c * d)) D2 (D4.scale (c * d)⁻¹)) := by
  obtain ⟨w7, h7⟩ := teb_made h2 h.spinT h.spinP
  obtain ⟨⟨x7, z7⟩, ⟨x1, z1⟩, ⟨x2, z2⟩, ⟨x4, z4⟩, hb⟩ := teb_binned_flat h hc hd h7 h1 h2 h4
  have hκ0 : c * d ≠ 0 := mul_ne_zero hc hd
  generalize c * d = κ at hb hκ0 ⊢
  rw [x1, z1] at r1
  rw [x2, z2] at r2
  rw [x4, z4] at r4
  have r7 : Regular (7 * b.nBands) w7.gslMatrix := block_regular hb (inv_ne_zero hκ0) hκ0 r1 r2 r4
  obtain ⟨-, g1, j1, i1, v1⟩ := decouple_flat_vec d1
  obtain ⟨-, -, j2, i2, v2⟩ := decouple_flat_vec d2
  obtain ⟨-, -, j4, i4, v4⟩ := decouple_flat_vec d4
  rw [x1, z1] at v1
  rw [z1] at i1 g1
  rw [x2, z2] at v2
  rw [x4, z4] at v4
  obtain ⟨D, hD⟩ := decouple_flat_ok L w7 (P := stackTeb P1 P2 P4) x7.symm (by rw [z7]; exact g1)
  obtain ⟨-, -, j7, i7, v7⟩ := decouple_flat_vec hD
  rw [x7, z7] at v7
  refine ⟨w7, D, h7, hD, by rw [j7, x7]; rfl, by rw [i7, z7]; exact i1.symm, fun k hk ib hib => ?_⟩
  rw [j7, x7] at hk
  rw [i7, z7] at hib
  rw [v7 k hk ib hib]
  have a7 : ∀ k < 7, ∀ ib < b.nBands, flatInput w7 (stackTeb P1 P2 P4).val (fun _ _ => 0) (fun _ _ => 0) (7 * ib + k) = (stackTeb P1 P2 P4).val k ib := by
    intro k hk ib hib
    have := flatInput_apply w7 (stackTeb P1 P2 P4).val (fun _ _ => 0) (fun _ _ => 0) (icl := k) (ib := ib) (by rw [x7]; exact hk) (by rw [z7]; exact hib)
    rw [x7] at this
    rw [this]; ring
  have a1 : ∀ ib < b.nBands, flatInput w1 P1.val (fun _ _ => 0) (fun _ _ => 0) (1 * ib + 0) = P1.val 0 ib := by
    intro ib hib
    have := flatInput_apply w1 P1.val (fun _ _ => 0) (fun _ _ => 0) (icl := 0) (ib := ib) (by rw [x1]; norm_num) (by rw [z1]; exact hib)
    rw [x1] at this
    rw [this]; ring
  have a2 : ∀ k < 2, ∀ ib < b.nBands, flatInput w2 P2.val (fun _ _ => 0) (fun _ _ => 0) (2 * ib + k) = P2.val k ib := by
    intro k hk ib hib
    have := flatInput_apply w2 P2.val (fun _ _ => 0) (fun _ _ => 0) (icl := k) (ib := ib) (by rw [x2]; exact hk) (by rw [z2]; exact hib)
    rw [x2] at this
    rw [this]; ring
  have a4 : ∀ k < 4, ∀ ib < b.nBands, flatInput w4 P4.val (fun _ _ => 0) (fun _ _ => 0) (4 * ib + k) = P4.val k ib := by
    intro k hk ib hib
    have := flatInput_apply w4 P4.val (fun _ _ => 0) (fun _ _ => 0) (icl := k) (ib := ib) (by rw [x4]; exact hk) (by rw [z4]; exact hib)
    rw [x4] at this
    rw [this]; ring
  generalize hy1 : flatInput w1 P1.val (fun _ _ => 0) (fun _ _ => 0) = y1 at a1 v1
  generalize hy2 : flatInput w2 P2.val (fun _ _ => 0) (fun _ _ => 0) = y2 at a2 v2
  generalize hy4 : flatInput w4 P4.val (fun _ _ => 0) (fun _ _ => 0) = y4 at a4 v4
  have hsol := hL.solve_eq r7 (stackVec (fun i => κ * L.solve (1 * b.nBands) w1.gslMatrix y1 i) (L.solve (2 * b.nBands) w2.gslMatrix y2)
    (fun i => κ⁻¹ * L.solve (4 * b.nBands) w4.gslMatrix y4 i)) (flatInput w7 (stackTeb P1 P2 P4).val (fun _ _ => 0) (fun _ _ => 0)) (fun i hi => by
      have hx : i % 7 < 7 := Nat.mod_lt _ (by norm_num)
      have hbb : i / 7 < b.nBands := Nat.div_lt_of_lt_mul hi
      rw [← Nat.div_add_mod i 7, block_mul hb _ _ _ hbb hx, a7 _ hx _ hbb]
      by_cases q0 : i % 7 = 0
      · rw [if_pos q0, mul_sum]
        have : ∀ j ∈ range (1 * b.nBands), κ⁻¹ * (w1.gslMatrix (1 * (i / 7) + 0) j * (κ * L.solve (1 * b.nBands) w1.gslMatrix y1 j)) =
            w1.gslMatrix (1 * (i / 7) + 0) j * L.solve (1 * b.nBands) w1.gslMatrix y1 j := by
          intro j _
          field_simp
        rw [sum_congr rfl this, hL.solve_spec _ _ _ r1 _ (flat_lt (by norm_num) hbb), a1 _ hbb]
        unfold stackTeb
        simp [q0]
      · rw [if_neg q0]
        by_cases q3 : i % 7 < 3
        · rw [if_pos q3, hL.solve_spec _ _ _ r2 _ (flat_lt (by omega) hbb), a2 _ (by omega) _ hbb]
          unfold stackTeb
          simp [q0, q3]
        · rw [if_neg q3, mul_sum]
          have : ∀ j ∈ range (4 * b.nBands), κ * (w4.gslMatrix (4 * (i / 7) + (i % 7 - 3)) j * (κ⁻¹ * L.solve (4 * b.nBands) w4.gslMatrix y4 j)) =
              w4.gslMatrix (4 * (i / 7) + (i % 7 - 3)) j * L.solve (4 * b.nBands) w4.gslMatrix y4 j := by
            intro j _
            field_simp
          rw [sum_congr rfl this, hL.solve_spec _ _ _ r4 _ (flat_lt (by omega) hbb), a4 _ (by omega) _ hbb]
          unfold stackTeb
          simp [q0, q3]) (7 * ib + k) (flat_lt hk hib)
  rw [hsol, stackVec_at _ _ _ _ hk]
  unfold stackTeb Arr2.scale
  dsimp only
  by_cases q0 : k = 0
  · rw [if_pos q0, if_pos q0, v1 0 (by norm_num) ib hib]
  · rw [if_neg q0, if_neg q0]
    by_cases q3 : k < 3
    · rw [if_pos q3, if_pos q3, v2 (k - 1) (by omega) ib hib]
    · rw [if_neg q3, if_neg q3, v4 (k - 3) (by omega) ib hib]

/-- **C100** where it holds: for two fields with the same mask and beam, of any spin, purified or not, decoupling the seven spectra with the joint workspace
gives the bandpowers of the separate workspaces. -/
theorem C100_joint_partial (L : LinAlg ℝ) (hL : L.Correct) (h : FlatTebPair fT fP 1 1) {w1 w2 w4 : WspFlat}
    (h1 : couplingFlat fT fT b cuts false = .ok w1) (h2 : couplingFlat fT fP b cuts false = .ok w2) (h4 : couplingFlat fP fP b cuts false = .ok w4)
    (r1 : Regular (w1.ncls * w1.bin.nBands) w1.gslMatrix) (r2 : Regular (w2.ncls * w2.bin.nBands) w2.gslMatrix)
    (r4 : Regular (w4.ncls * w4.bin.nBands) w4.gslMatrix) {P1 P2 P4 D1 D2 D4 : Arr2 ℝ} (d1 : decoupleCellFlat L (some w1) P1 none none = .ok D1)
    (d2 : decoupleCellFlat L (some w2) P2 none none = .ok D2) (d4 : decoupleCellFlat L (some w4) P4 none none = .ok D4) :
    ∃ w7 D, couplingFlat fT fP b cuts true = .ok w7 ∧ decoupleCellFlat L (some w7) (stackTeb P1 P2 P4) none none = .ok D ∧
      SameArray D (stackTeb D1 D2 D4) := by
  obtain ⟨w7, D, h7, hD, q1, q2, q3⟩ := C100_factor_wrong L hL h one_ne_zero one_ne_zero h1 h2 h4 r1 r2 r4 d1 d2 d4
  refine ⟨w7, D, h7, hD, q1, q2, fun k hk l hl => ?_⟩
  rw [q3 k hk l hl]
  unfold stackTeb Arr2.scale
  simp

end NaMaster
