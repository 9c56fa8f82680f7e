import Verif.Teb.Lemmas
import Verif.Coupling.Props2
import Verif.Sky.Props

/-!
# C98: joint workspaces for a scalar field and a field with spin
-/

namespace NaMaster

open Finset

/-! ## Specification -/

/-- The array with one spectrum of `P1`, two of `P2` and four of `P4`, in this order. -/
def stackTeb (P1 P2 P4 : Arr2 ℝ) : Arr2 ℝ :=
  ⟨7, P1.cols, fun k l => if k = 0 then P1.val 0 l else if k < 3 then P2.val (k - 1) l else P4.val (k - 3) l⟩

/-- Two arrays have the same shape and elements. -/
def SameArray (A B : Arr2 ℝ) : Prop := A.rows = B.rows ∧ A.cols = B.cols ∧ ∀ k < A.rows, ∀ l < A.cols, A.val k l = B.val k l

/-- A scalar field and a field of spin `s` on the same band limits, without anisotropic masks; the mask of the first one is `c` times, and its beam
`d` times, that of the second. -/
structure TebPair (fT fP : FieldObj) (s : ℕ) (c d : ℝ) : Prop where
  isoT : fT.maskA = none
  isoP : fP.maskA = none
  spinT : fT.spin = 0
  spinP : fP.spin = (s : ℤ)
  pos : 0 < s
  notPure : fT.pureE = false ∧ fT.pureB = false
  pure : fP.pureE = true ∨ fP.pureB = true → s = 2
  lmax : fT.lmax = fP.lmax
  lmaxMask : fT.lmaxMask = fP.lmaxMask
  nIterMask : fT.nIterMask = fP.nIterMask
  mask : fT.mask = fun p => c * fP.mask p
  beamLen : fT.beam.1 = fP.beam.1
  beam : ∀ l, fT.beam.2 l = d * fP.beam.2 l

/-! ## Lemmas -/

theorem normOf_master {P : Pix} {f1 f2 : FieldObj} {n : ℤ × ℝ} {s : String} (hs : s = "MASTER") (h : normOf P f1 f2 s = .ok n) : n = (0, 0) := by
  subst hs
  unfold normOf at h
  rw [if_pos rfl] at h
  exact (Outcome.ok.inj h).symm

theorem Bins.ell_le {B : Bins ℝ} {n : ℕ} (h : WspSpec.Bounded B n) (b : ℕ) (e : BandEntry ℝ) (he : e ∈ B.band b) : e.ell ≤ n := by
  unfold Bins.band at he
  rw [List.getD_eq_getElem?_getD] at he
  rcases hb : B.bands[b]? with _ | x
  · rw [hb] at he; simp at he
  · rw [hb] at he
    exact h x (List.mem_of_getElem? hb) e he

/-- The binned matrix of a workspace with the usual normalisation. -/
theorem comp_binned {W : Wigner} {a : CouplingArgs} {lF : ℕ} {pcl b1 b2 : List ℝ} {B : Bins ℝ} {w2 : ℝ} {w : Wsp ℝ}
    (h : compCouplingMatrix W a lF pcl b1 b2 B 0 w2 = .ok w) {U : ℕ → ℕ → ℝ} (hU : w.unbinned = some U) (hell : WspSpec.Bounded B B.ellMax) :
    w.ncls = a.ncls ∧ w.lmax = B.ellMax ∧ w.bin = B ∧ ∀ x y b b', x < a.ncls → y < a.ncls → b < B.nBands → b' < B.nBands →
      w.binned (a.ncls * b + x) (a.ncls * b' + y) = ((B.band b).map fun e2 => ((B.band b').map fun e3 =>
        U (a.ncls * e2.ell + x) (a.ncls * e3.ell + y) * (b1.getD e3.ell 0 * b2.getD e3.ell 0) * e2.w * e2.f / e3.f).sum).sum := by
  obtain ⟨-, -, hB, p, U0, rfl⟩ := comp_parts h
  refine ⟨rfl, rfl, rfl, fun x y b b' hx hy hb hb' => ?_⟩
  have hU' : tab2 (a.ncls * (B.ellMax + 1)) (a.ncls * (B.ellMax + 1)) U0 = U := Option.some.inj hU
  unfold buildWsp
  dsimp only
  rw [binMatrix_apply _ _ _ _ _ _ hx hy hb hb', hU']
  unfold binnedElement
  rw [if_pos rfl]
  congr 1
  refine List.map_congr_left fun e2 _ => ?_
  congr 1
  refine List.map_congr_left fun e3 he3 => ?_
  have := Bins.ell_le hell b' e3 he3
  rw [show tab (lF + 1) (fun l => b1.getD l 0 * b2.getD l 0) e3.ell = b1.getD e3.ell 0 * b2.getD e3.ell 0 from tab_of_lt _ (by omega)]

theorem decouple_vec {L : LinAlg ℝ} {w : Wsp ℝ} {P D : Arr2 ℝ} (h : decoupleCell L w P none none = .ok D) :
    P.rows = w.ncls ∧ w.lmax + 1 ≤ P.cols ∧ D.rows = w.ncls ∧ D.cols = w.bin.nBands ∧ ∀ k < w.ncls, ∀ b < w.bin.nBands,
      D.val k b = L.solve (w.ncls * w.bin.nBands) w.binned (binnedInput w.ncls w.bin P.val (fun _ _ => 0) (fun _ _ => 0)) (w.ncls * b + k) := by
  have hs : P.rows = w.ncls ∧ w.lmax + 1 ≤ P.cols := by
    unfold decoupleCell at h
    split_ifs at h with q1
    push Not at q1
    exact ⟨q1.1, by omega⟩
  rw [decoupleCell_ok L w P hs.1 hs.2] at h
  rw [← Outcome.ok.inj h]
  refine ⟨hs.1, hs.2, rfl, rfl, fun k hk b hb => ?_⟩
  unfold Arr2.of
  dsimp only
  rw [tab2_of_lt _ hk hb]
  rfl

variable {W : Wigner} {env : FieldEnv} {minfo : MapInfo} {fT fP : FieldObj} {s : ℕ} {c d : ℝ} {B : Bins ℝ} {wa : WspArgs}

/-! ## Theorems -/

/-- The joint matrix has the blocks of the separate ones, up to factors. -/
theorem teb_binned (hS : env.sht.Homogeneous) (h : TebPair fT fP s c d) (hc : 0 < c) (hd : d ≠ 0) (hell : WspSpec.Bounded B B.ellMax)
    (hT : wa.lT ≤ 0) (hn : wa.norm = "MASTER") {w7 w1 w2 w4 : Wsp ℝ} {s1 s4 : Bool}
    (h7 : wspFromFields W env minfo fT fP false B { wa with isTeb := true } = .ok w7)
    (h1 : wspFromFields W env minfo fT fT s1 B { wa with isTeb := false } = .ok w1)
    (h2 : wspFromFields W env minfo fT fP false B { wa with isTeb := false } = .ok w2)
    (h4 : wspFromFields W env minfo fP fP s4 B { wa with isTeb := false } = .ok w4) :
    (w7.ncls = 7 ∧ w7.lmax = B.ellMax ∧ w7.bin = B) ∧ (w1.ncls = 1 ∧ w1.lmax = B.ellMax ∧ w1.bin = B) ∧ (w2.ncls = 2 ∧ w2.lmax = B.ellMax ∧ w2.bin = B) ∧
      (w4.ncls = 4 ∧ w4.lmax = B.ellMax ∧ w4.bin = B) ∧
    ∀ b b' x y, b < B.nBands → b' < B.nBands → x < 7 → y < 7 →
      w7.binned (7 * b + x) (7 * b' + y) = blockElem ((-1) ^ s * (c * d))⁻¹ ((-1) ^ s * (c * d)) w1.binned w2.binned w4.binned b b' x y := by
  obtain ⟨l7, n7, hn7, c7⟩ := wsp_iso h.isoT h.isoP h7
  obtain ⟨l1, n1, hn1, c1⟩ := wsp_iso h.isoT h.isoT h1
  obtain ⟨l2, n2, hn2, c2⟩ := wsp_iso h.isoT h.isoP h2
  obtain ⟨l4, n4, hn4, c4⟩ := wsp_iso h.isoP h.isoP h4
  rw [normOf_master hn hn7] at c7
  rw [normOf_master hn hn1] at c1
  rw [normOf_master hn hn2] at c2
  rw [normOf_master hn hn4] at c4
  -- spectra of the masks
  have hal : fT.getMaskAlms env.sht = c • fP.getMaskAlms env.sht := by
    rw [← getMaskAlms_smul hS]
    unfold FieldObj.getMaskAlms
    rw [h.lmaxMask, h.nIterMask, h.mask]
    rfl
  set p : ℕ → ℝ := alm2cl (fP.getMaskAlms env.sht) (fP.getMaskAlms env.sht) with hp
  have hv : ∀ f : FieldObj, (f.view env.sht minfo).almMask = f.getMaskAlms env.sht ∧ (f.view env.sht minfo).noiseW = 0 := fun f => ⟨rfl, rfl⟩
  have sTP : maskSpectrum (fT.view env.sht minfo) (fP.view env.sht minfo) false = fun l => c * p l := by
    funext l
    unfold maskSpectrum
    simp only [(hv _).1, Bool.false_eq_true, if_false, sub_zero]
    rw [hal]
    have := alm2cl_smul c 1 (fP.getMaskAlms env.sht) (fP.getMaskAlms env.sht) l
    rw [one_smul, mul_one] at this
    exact this
  have sTT : maskSpectrum (fT.view env.sht minfo) (fT.view env.sht minfo) s1 = fun l => c * (c * p l) := by
    funext l
    unfold maskSpectrum
    simp only [(hv _).1, (hv _).2, ite_self, sub_zero]
    rw [hal, alm2cl_smul, mul_assoc]
  have sPP : maskSpectrum (fP.view env.sht minfo) (fP.view env.sht minfo) s4 = p := by
    funext l
    unfold maskSpectrum
    simp only [(hv _).1, (hv _).2, ite_self, sub_zero]
    rfl
  rw [sTP] at c7 c2
  rw [sTT] at c1
  rw [sPP] at c4
  -- the same spectrum for all
  have k1 := compCouplingMatrix_scale W (couplingArgsOf fT fT { wa with isTeb := false }) fT.lmax (fun l => c * p l) fT.beamList fT.beamList B 0 0 hc (fT.lmaxMask + 1)
  rw [mul_zero, c1] at k1
  obtain ⟨v1, hv1, hv1'⟩ := ok_of_bind k1.symm
  have e1 : w1 = v1.rescale c := (Outcome.ok.inj hv1').symm
  have k4 := compCouplingMatrix_scale W (couplingArgsOf fP fP { wa with isTeb := false }) fP.lmax p fP.beamList fP.beamList B 0 0 hc (fP.lmaxMask + 1)
  rw [mul_zero, c4] at k4
  have hv4 : compCouplingMatrix W (couplingArgsOf fP fP { wa with isTeb := false }) fP.lmax ((List.range (fP.lmaxMask + 1)).map fun l => c * p l) fP.beamList
      fP.beamList B 0 0 = .ok (w4.rescale c) := k4
  -- arguments
  set a := couplingArgsOf fT fP { wa with isTeb := true } with ha
  have hs1 : a.spin1 = 0 := by rw [ha]; unfold couplingArgsOf; dsimp only; rw [h.spinT]; rfl
  have hs2 : a.spin2 = s := by rw [ha]; unfold couplingArgsOf; dsimp only; rw [h.spinP]; rfl
  have a1 : couplingArgsOf fT fT { wa with isTeb := false } = { a with teb := false, spin2 := 0, pe2 := false, pb2 := false, junk := wa.junk } := by
    rw [ha]; unfold couplingArgsOf; dsimp only; rw [h.spinT, h.notPure.1, h.notPure.2]; rfl
  have a2 : couplingArgsOf fT fP { wa with isTeb := false } = { a with teb := false, junk := wa.junk } := rfl
  have a4 : couplingArgsOf fP fP { wa with isTeb := false } = { a with teb := false, spin1 := a.spin2, pe1 := a.pe2, pb1 := a.pb2, junk := wa.junk } := by
    rw [ha]; unfold couplingArgsOf; dsimp only; rw [h.lmaxMask]
  rw [a1] at hv1
  rw [a2] at c2
  rw [a4, ← h.lmax, ← h.lmaxMask] at hv4
  have hps : a.PureSpinTwo := by
    refine ⟨fun q => ?_, fun q => ?_⟩
    · rw [show a.pe1 = false from h.notPure.1, show a.pb1 = false from h.notPure.2] at q; simp at q
    · rw [hs2]; exact h.pure q
  obtain ⟨U7, U1, U2, U4, u7, u1, u2, u4, hb⟩ := teb_blocks rfl h.notPure.1 h.notPure.2 hps hT c7 hv1 c2 hv4
  obtain ⟨x7, y7, z7, m7⟩ := comp_binned c7 u7 hell
  obtain ⟨x1, y1, z1, m1⟩ := comp_binned hv1 u1 hell
  obtain ⟨x2, y2, z2, m2⟩ := comp_binned c2 u2 hell
  obtain ⟨x4, y4, z4, m4⟩ := comp_binned hv4 u4 hell
  have q7 : a.ncls = 7 := rfl
  have q1 : CouplingArgs.ncls { a with teb := false, spin2 := 0, pe2 := false, pb2 := false, junk := wa.junk } = 1 := by
    unfold CouplingArgs.ncls; simp [hs1]
  have q2 : CouplingArgs.ncls { a with teb := false, junk := wa.junk } = 2 := by
    unfold CouplingArgs.ncls; simp [hs1, hs2, h.pos.ne']
  have q4 : CouplingArgs.ncls { a with teb := false, spin1 := a.spin2, pe1 := a.pe2, pb1 := a.pb2, junk := wa.junk } = 4 := by
    unfold CouplingArgs.ncls; simp [hs2, h.pos.ne']
  rw [q7] at x7 m7
  rw [q1] at x1 m1
  rw [q2] at x2 m2
  rw [q4] at x4 m4
  rw [e1]
  refine ⟨⟨x7, y7, z7⟩, ⟨x1, y1, z1⟩, ⟨x2, y2, z2⟩, ⟨x4, y4, z4⟩, fun b b' x y hb1 hb2 hx hy => ?_⟩
  obtain ⟨bl1, bl2, hle, -⟩ := comp_parts c7
  have bT : ∀ e ∈ B.band b', fT.beamList.getD e.ell 0 = d * fP.beamList.getD e.ell 0 := by
    intro e he
    have hl := Bins.ell_le hell b' e he
    have : fT.beam.1 = fT.lmax + 1 := by
      rw [← bl1]; unfold FieldObj.beamList; simp
    rw [beamList_getD fT (by omega), beamList_getD fP (by rw [← h.beamLen]; omega), h.beam]
  have hσ : ((-1 : ℝ) ^ s) * (-1) ^ s = 1 := by rw [← pow_add, ← two_mul, pow_mul]; norm_num
  have hσ0 : ((-1 : ℝ) ^ s) ≠ 0 := pow_ne_zero _ (by norm_num)
  rw [m7 x y b b' hx hy hb1 hb2]
  unfold blockElem
  rw [hs2] at hb
  -- one element at a time
  have key : ∀ (f g : BandEntry ℝ → BandEntry ℝ → ℝ), (∀ e2 ∈ B.band b, ∀ e3 ∈ B.band b', f e2 e3 = g e2 e3) →
      ((B.band b).map fun e2 => ((B.band b').map fun e3 => f e2 e3).sum).sum = ((B.band b).map fun e2 => ((B.band b').map fun e3 => g e2 e3).sum).sum := by
    intro f g hfg
    congr 1
    refine List.map_congr_left fun e2 he2 => ?_
    congr 1
    exact List.map_congr_left fun e3 he3 => hfg e2 he2 e3 he3
  have pull : ∀ (k : ℝ) (f : BandEntry ℝ → BandEntry ℝ → ℝ),
      k * ((B.band b).map fun e2 => ((B.band b').map fun e3 => f e2 e3).sum).sum = ((B.band b).map fun e2 => ((B.band b').map fun e3 => k * f e2 e3).sum).sum := by
    intro k f
    rw [← List.sum_map_mul_left]
    congr 1
    refine List.map_congr_left fun e2 _ => ?_
    rw [← List.sum_map_mul_left]
  by_cases hb00 : x = 0 ∧ y = 0
  · rw [if_pos hb00]
    change _ = ((-1) ^ s * (c * d))⁻¹ * (c * v1.binned (1 * b + 0) (1 * b' + 0))
    rw [m1 0 0 b b' (by norm_num) (by norm_num) hb1 hb2, pull, pull]
    refine key _ _ fun e2 he2 e3 he3 => ?_
    rw [hb e2.ell e3.ell x y (Bins.ell_le hell b e2 he2) (Bins.ell_le hell b' e3 he3) hx hy, if_pos hb00, bT e3 he3, one_mul, one_mul, add_zero, add_zero]
    have : ((-1 : ℝ) ^ s * (c * d))⁻¹ = (-1) ^ s * (c * d)⁻¹ := by
      rw [mul_inv, ← eq_inv_of_mul_eq_one_left hσ]
    rw [this]
    field_simp
  · rw [if_neg hb00]
    by_cases hb12 : (x = 1 ∨ x = 2) ∧ (y = 1 ∨ y = 2)
    · rw [if_pos hb12, m2 (x - 1) (y - 1) b b' (by omega) (by omega) hb1 hb2]
      refine key _ _ fun e2 he2 e3 he3 => ?_
      rw [hb e2.ell e3.ell x y (Bins.ell_le hell b e2 he2) (Bins.ell_le hell b' e3 he3) hx hy, if_neg hb00, if_pos hb12]
    · rw [if_neg hb12]
      by_cases hb33 : 3 ≤ x ∧ 3 ≤ y
      · rw [if_pos hb33]
        have hm4 := m4 (x - 3) (y - 3) b b' (by omega) (by omega) hb1 hb2
        change c * w4.binned (4 * b + (x - 3)) (4 * b' + (y - 3)) = _ at hm4
        rw [show (-1) ^ s * (c * d) * w4.binned (4 * b + (x - 3)) (4 * b' + (y - 3)) = (-1) ^ s * d * (c * w4.binned (4 * b + (x - 3)) (4 * b' + (y - 3))) by ring,
          hm4, pull]
        refine key _ _ fun e2 he2 e3 he3 => ?_
        rw [hb e2.ell e3.ell x y (Bins.ell_le hell b e2 he2) (Bins.ell_le hell b' e3 he3) hx hy, if_neg hb00, if_neg hb12, if_pos hb33, bT e3 he3]
        ring
      · rw [if_neg hb33]
        have : ∀ e2 ∈ B.band b, ∀ e3 ∈ B.band b', U7 (7 * e2.ell + x) (7 * e3.ell + y) * (fT.beamList.getD e3.ell 0 * fP.beamList.getD e3.ell 0) * e2.w * e2.f / e3.f
            = (0 : ℝ) := by
          intro e2 he2 e3 he3
          rw [hb e2.ell e3.ell x y (Bins.ell_le hell b e2 he2) (Bins.ell_le hell b' e3 he3) hx hy, if_neg hb00, if_neg hb12, if_neg hb33]
          simp
        rw [key _ (fun _ _ => 0) this]
        simp

/-- **C98**, the general case: the joint workspace multiplies the scalar spectrum by a factor and divides the spectra of the field with spin by it. The factor
is the product of the ratios of masks and beams, with a minus for odd spins. -/
theorem C98_factor_wrong (L : LinAlg ℝ) (hL : L.Correct) (hS : env.sht.Homogeneous) (h : TebPair fT fP s c d) (hc : 0 < c) (hd : d ≠ 0)
    (hell : WspSpec.Bounded B B.ellMax) (hT : wa.lT ≤ 0) (hn : wa.norm = "MASTER") {w7 w1 w2 w4 : Wsp ℝ} {s1 s4 : Bool}
    (h7 : wspFromFields W env minfo fT fP false B { wa with isTeb := true } = .ok w7)
    (h1 : wspFromFields W env minfo fT fT s1 B { wa with isTeb := false } = .ok w1)
    (h2 : wspFromFields W env minfo fT fP false B { wa with isTeb := false } = .ok w2)
    (h4 : wspFromFields W env minfo fP fP s4 B { wa with isTeb := false } = .ok w4)
    (r1 : Regular w1.nBinned w1.binned) (r2 : Regular w2.nBinned w2.binned) (r4 : Regular w4.nBinned w4.binned)
    {P1 P2 P4 D1 D2 D4 : Arr2 ℝ} (d1 : decoupleCell L w1 P1 none none = .ok D1) (d2 : decoupleCell L w2 P2 none none = .ok D2)
    (d4 : decoupleCell L w4 P4 none none = .ok D4) :
    ∃ D, decoupleCell L w7 (stackTeb P1 P2 P4) none none = .ok D ∧
      SameArray D (stackTeb (D1.scale ((-1) ^ s * (c * d))) D2 (D4.scale ((-1) ^ s * (c * d))⁻¹)) := by
  obtain ⟨⟨x7, y7, z7⟩, ⟨x1, y1, z1⟩, ⟨x2, y2, z2⟩, ⟨x4, y4, z4⟩, hb⟩ := teb_binned hS h hc hd hell hT hn h7 h1 h2 h4
  set κ : ℝ := (-1) ^ s * (c * d) with hκ
  have hκ0 : κ ≠ 0 := mul_ne_zero (pow_ne_zero _ (by norm_num)) (mul_ne_zero hc.ne' hd)
  unfold Wsp.nBinned at r1 r2 r4
  rw [x1, z1] at r1
  rw [x2, z2] at r2
  rw [x4, z4] at r4
  have r7 : Regular (7 * B.nBands) w7.binned := block_regular hb (inv_ne_zero hκ0) hκ0 r1 r2 r4
  obtain ⟨-, g1, j1, i1, v1⟩ := decouple_vec d1
  obtain ⟨-, -, j2, i2, v2⟩ := decouple_vec d2
  obtain ⟨-, -, j4, i4, v4⟩ := decouple_vec d4
  rw [x1, z1] at v1
  rw [z1] at i1
  rw [y1] at g1
  rw [x2, z2] at v2
  rw [x4, z4] at v4
  refine ⟨_, decoupleCell_ok L w7 (stackTeb P1 P2 P4) x7.symm (by rw [y7]; exact g1), ?_⟩
  refine ⟨x7, by unfold Arr2.of; dsimp only; rw [z7]; exact i1.symm, fun k hk b hb' => ?_⟩
  change k < w7.ncls at hk
  change b < w7.bin.nBands at hb'
  unfold Arr2.of
  dsimp only
  rw [tab2_of_lt _ hk hb']
  rw [x7] at hk ⊢
  rw [z7] at hb' ⊢
  unfold decoupleCl
  set y1' := binnedInput 1 B P1.val (fun _ _ => 0) (fun _ _ => 0) with hy1
  set y2' := binnedInput 2 B P2.val (fun _ _ => 0) (fun _ _ => 0) with hy2
  set y4' := binnedInput 4 B P4.val (fun _ _ => 0) (fun _ _ => 0) with hy4
  have hsol := hL.solve_eq r7 (stackVec (fun i => κ * L.solve (1 * B.nBands) w1.binned y1' i) (L.solve (2 * B.nBands) w2.binned y2')
    (fun i => κ⁻¹ * L.solve (4 * B.nBands) w4.binned y4' i)) (binnedInput 7 B (stackTeb P1 P2 P4).val (fun _ _ => 0) (fun _ _ => 0)) (fun i hi => by
      have hx : i % 7 < 7 := Nat.mod_lt _ (by norm_num)
      have hbb : i / 7 < B.nBands := Nat.div_lt_of_lt_mul hi
      rw [← Nat.div_add_mod i 7, block_mul hb _ _ _ hbb hx, binnedInput_apply 7 B _ _ _ hx hbb]
      by_cases q0 : i % 7 = 0
      · rw [if_pos q0, mul_sum]
        have : ∀ j ∈ range (1 * B.nBands), κ⁻¹ * (w1.binned (1 * (i / 7) + 0) j * (κ * L.solve (1 * B.nBands) w1.binned y1' j)) =
            w1.binned (1 * (i / 7) + 0) j * L.solve (1 * B.nBands) w1.binned y1' j := by
          intro j _
          field_simp
        rw [sum_congr rfl this, hL.solve_spec _ _ _ r1 _ (flat_lt (by norm_num) hbb), hy1, binnedInput_apply 1 B _ _ _ (by norm_num) hbb]
        unfold stackTeb
        simp [q0]
      · rw [if_neg q0]
        by_cases q3 : i % 7 < 3
        · rw [if_pos q3, hL.solve_spec _ _ _ r2 _ (flat_lt (by omega) hbb), hy2, binnedInput_apply 2 B _ _ _ (by omega) hbb]
          unfold stackTeb
          simp [q0, q3]
        · rw [if_neg q3, mul_sum]
          have : ∀ j ∈ range (4 * B.nBands), κ * (w4.binned (4 * (i / 7) + (i % 7 - 3)) j * (κ⁻¹ * L.solve (4 * B.nBands) w4.binned y4' j)) =
              w4.binned (4 * (i / 7) + (i % 7 - 3)) j * L.solve (4 * B.nBands) w4.binned y4' j := by
            intro j _
            field_simp
          rw [sum_congr rfl this, hL.solve_spec _ _ _ r4 _ (flat_lt (by omega) hbb), hy4, binnedInput_apply 4 B _ _ _ (by omega) hbb]
          unfold stackTeb
          simp [q0, q3]) (7 * b + k) (flat_lt hk hb')
  rw [hsol, stackVec_at _ _ _ _ hk]
  unfold stackTeb Arr2.scale
  dsimp only
  by_cases q0 : k = 0
  · rw [if_pos q0, if_pos q0, v1 0 (by norm_num) b hb']
  · rw [if_neg q0, if_neg q0]
    by_cases q3 : k < 3
    · rw [if_pos q3, if_pos q3, v2 (k - 1) (by omega) b hb']
    · rw [if_neg q3, if_neg q3, v4 (k - 3) (by omega) b hb']

/-- **C98** where it holds: for an even spin and two fields with the same mask and beam, decoupling the seven spectra with the joint workspace gives the
bandpowers of the separate workspaces. -/
theorem C98_joint_partial (L : LinAlg ℝ) (hL : L.Correct) (hS : env.sht.Homogeneous) (h : TebPair fT fP s 1 1) (hs : Even s)
    (hell : WspSpec.Bounded B B.ellMax) (hT : wa.lT ≤ 0) (hn : wa.norm = "MASTER") {w7 w1 w2 w4 : Wsp ℝ} {s1 s4 : Bool}
    (h7 : wspFromFields W env minfo fT fP false B { wa with isTeb := true } = .ok w7)
    (h1 : wspFromFields W env minfo fT fT s1 B { wa with isTeb := false } = .ok w1)
    (h2 : wspFromFields W env minfo fT fP false B { wa with isTeb := false } = .ok w2)
    (h4 : wspFromFields W env minfo fP fP s4 B { wa with isTeb := false } = .ok w4)
    (r1 : Regular w1.nBinned w1.binned) (r2 : Regular w2.nBinned w2.binned) (r4 : Regular w4.nBinned w4.binned)
    {P1 P2 P4 D1 D2 D4 : Arr2 ℝ} (d1 : decoupleCell L w1 P1 none none = .ok D1) (d2 : decoupleCell L w2 P2 none none = .ok D2)
    (d4 : decoupleCell L w4 P4 none none = .ok D4) :
    ∃ D, decoupleCell L w7 (stackTeb P1 P2 P4) none none = .ok D ∧ SameArray D (stackTeb D1 D2 D4) := by
  obtain ⟨D, hD, q1, q2, q3⟩ := C98_factor_wrong L hL hS h one_pos one_ne_zero hell hT hn h7 h1 h2 h4 r1 r2 r4 d1 d2 d4
  refine ⟨D, hD, q1, q2, fun k hk l hl => ?_⟩
  rw [q3 k hk l hl]
  unfold stackTeb Arr2.scale
  simp [hs.neg_one_pow]

/-- **C98** fails if a mask is anisotropic: the option is ignored. The workspace is the one made without it; it has fewer than seven spectra, so that
decoupling seven raises ValueError. -/
theorem C98_anisotropic_wrong (f1 f2 : FieldObj) (same : Bool) (hA : f1.maskA.isSome ∨ f2.maskA.isSome) :
    wspFromFields W env minfo f1 f2 same B { wa with isTeb := true } = wspFromFields W env minfo f1 f2 same B { wa with isTeb := false } ∧
    ∀ w, wspFromFields W env minfo f1 f2 same B { wa with isTeb := true } = .ok w → w.ncls ≤ 4 ∧
      ∀ (L : LinAlg ℝ) (P1 P2 P4 : Arr2 ℝ), decoupleCell L w (stackTeb P1 P2 P4) none none = .raises .value := by
  have hA' : (f1.maskA.isSome || f2.maskA.isSome) = true := by simpa using hA
  refine ⟨by unfold wspFromFields; simp only [hA', if_true], fun w hw => ?_⟩
  unfold wspFromFields at hw
  simp only [hA', if_true, true_and] at hw
  split_ifs at hw
  split at hw
  · cases hw
  · obtain ⟨n, -, hn⟩ := ok_of_bind hw
    have hncls : w.ncls ≤ 4 := by
      unfold anisoFromFields compAnisoWsp at hn
      dsimp only at hn
      split_ifs at hn <;>
        (rw [← Outcome.ok.inj hn]
         unfold buildWsp AnisoArgs.ncls
         dsimp only
         split_ifs <;> norm_num)
    refine ⟨hncls, fun L P1 P2 P4 => ?_⟩
    unfold decoupleCell
    rw [if_pos (Or.inl (by unfold stackTeb; dsimp only; omega))]

end NaMaster
