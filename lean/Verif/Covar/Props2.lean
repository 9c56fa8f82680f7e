import Verif.Covar.Props
import Verif.Coupling.Lemmas5

/-! # C26, C53, C54 and concrete cases for Gaussian covariances -/

set_option linter.unusedSectionVars false

namespace NaMaster

open Finset CovSpec WspSpec

section
variable {K : Type*} [Field K]
variable {L : LinAlg K} {jk jk' : CovJunk K} {cw : CovWsp K} {a1 a2 b1 b2 : ℤ} {s s' : CovCls K} {oa ob : Obj K} {a b : Wsp K}

/-- Relation between two coupled covariances with the same workspaces. -/
theorem coupled_transform (hoa : oa.wsp = some a) (hob : ob.wsp = some b) (hA : Bounded a.bin a.bin.ellMax)
    (hB : Bounded b.bin b.bin.ellMax) (hna : BinSpec.NoRepeats a.bin) (hnb : BinSpec.NoRepeats b.bin)
    (r1 : s'.ac.rows = s.ac.rows ∧ s'.ac.cols = s.ac.cols) (r2 : s'.ad.rows = s.ad.rows ∧ s'.ad.cols = s.ad.cols)
    (r3 : s'.bc.rows = s.bc.rows ∧ s'.bc.cols = s.bc.cols) (r4 : s'.bd.rows = s.bd.rows ∧ s'.bd.cols = s.bd.cols)
    (F : (ℕ → ℕ → ℕ → ℕ → K) → ℕ → ℕ → ℕ → ℕ → K)
    (hF : ∀ la lb pre, ∀ ia < nmaps a1, ∀ ib < nmaps a2, ∀ ic < nmaps b1, ∀ id < nmaps b2,
      covElement cw (Maps.ofSpins a1 a2 b1 b2) s' ia ib ic id la lb pre =
        F (fun ia ib ic id => covElement cw (Maps.ofSpins a1 a2 b1 b2) s ia ib ic id la lb pre) ia ib ic id)
    (hloc : ∀ f g : ℕ → ℕ → ℕ → ℕ → K, (∀ ia < nmaps a1, ∀ ib < nmaps a2, ∀ ic < nmaps b1, ∀ id < nmaps b2,
      f ia ib ic id = g ia ib ic id) → ∀ ia < nmaps a1, ∀ ib < nmaps a2, ∀ ic < nmaps b1, ∀ id < nmaps b2,
      F f ia ib ic id = F g ia ib ic id) {C : Arr2 K}
    (h : gaussianCovariance L jk (some cw) a1 a2 b1 b2 s oa (some ob) true = .ok C) :
    ∃ C', gaussianCovariance L jk' (some cw) a1 a2 b1 b2 s' oa (some ob) true = .ok C' ∧ C'.rows = C.rows ∧ C'.cols = C.cols ∧
      ∀ la lb, InBand a.bin la → InBand b.bin lb → ∀ ia < nmaps a1, ∀ ib < nmaps a2, ∀ ic < nmaps b1, ∀ id < nmaps b2,
        C'.val (a.ncls * la + (ib + nmaps a2 * ia)) (b.ncls * lb + (id + nmaps b2 * ic)) =
          F (fun ia ib ic id => C.val (a.ncls * la + (ib + nmaps a2 * ia)) (b.ncls * lb + (id + nmaps b2 * ic))) ia ib ic id := by
  obtain ⟨hcon, e⟩ := call_result hoa hob hA hB h
  have hcon' : Consistent cw a1 a2 b1 b2 s' oa ob a b true := by
    obtain ⟨x1, x2, x3, x4⟩ := hcon.rows
    obtain ⟨n, y, y1, y2, y3, y4⟩ := hcon.length
    exact ⟨hcon.wspA, hcon.wspB, ⟨r1.1.trans x1, r2.1.trans x2, r3.1.trans x3, r4.1.trans x4⟩,
      ⟨n, y, r1.2.trans y1, r2.2.trans y2, r3.2.trans y3, r4.2.trans y4⟩, hcon.limit, hcon.spins, hcon.matrices, hcon.small⟩
  obtain ⟨C', hC'⟩ := (C29_accepts_iff (L := L) (jk := jk') hoa hob hA hB).2 hcon'
  obtain ⟨-, e'⟩ := call_result hoa hob hA hB hC'
  rw [if_pos rfl] at e e'
  unfold reshapeFlat at e e'
  refine ⟨C', hC', by rw [e, e', Arr2.of_rows, Arr2.of_rows], by rw [e, e', Arr2.of_cols, Arr2.of_cols], ?_⟩
  rintro la lb ⟨ea, hea, rfl⟩ ⟨eb, heb, rfl⟩ ia h1 ib h2 ic h3 id h4
  rw [coupled_val hoa hob hA hB hna hnb hC' hea heb h1 h2 h3 h4, hF _ _ _ ia h1 ib h2 ic h3 id h4]
  refine hloc _ _ ?_ ia h1 ib h2 ic h3 id h4
  intro ia h1 ib h2 ic h3 id h4
  exact (coupled_val hoa hob hA hB hna hnb h hea heb h1 h2 h3 h4).symm

/-! ## C53 -/

/-- C53: a rotation of the polarisation angle of the first field in the input spectra rotates the covariance. -/
theorem C53_rotate_a1 (hoa : oa.wsp = some a) (hob : ob.wsp = some b) (hA : Bounded a.bin a.bin.ellMax)
    (hB : Bounded b.bin b.bin.ellMax) (hna : BinSpec.NoRepeats a.bin) (hnb : BinSpec.NoRepeats b.bin) (c sn : K) {C : Arr2 K}
    (h : gaussianCovariance L jk (some cw) a1 a2 b1 b2 s oa (some ob) true = .ok C) :
    ∃ C', gaussianCovariance L jk' (some cw) a1 a2 b1 b2 ⟨rotFirst (nmaps a1) (nmaps b1) c sn s.ac,
        rotFirst (nmaps a1) (nmaps b2) c sn s.ad, s.bc, s.bd⟩ oa (some ob) true = .ok C' ∧ C'.rows = C.rows ∧ C'.cols = C.cols ∧
      ∀ la lb, InBand a.bin la → InBand b.bin lb → ∀ ia < nmaps a1, ∀ ib < nmaps a2, ∀ ic < nmaps b1, ∀ id < nmaps b2,
        C'.val (a.ncls * la + (ib + nmaps a2 * ia)) (b.ncls * lb + (id + nmaps b2 * ic)) =
          ∑ p ∈ range (nmaps a1), rotMat (nmaps a1) c sn ia p *
            C.val (a.ncls * la + (ib + nmaps a2 * p)) (b.ncls * lb + (id + nmaps b2 * ic)) :=
  coupled_transform (s := s) (s' := ⟨rotFirst (nmaps a1) (nmaps b1) c sn s.ac, rotFirst (nmaps a1) (nmaps b2) c sn s.ad, s.bc, s.bd⟩) hoa hob hA hB hna hnb ⟨rfl, rfl⟩ ⟨rfl, rfl⟩ ⟨rfl, rfl⟩ ⟨rfl, rfl⟩
    (fun f ia ib ic id => ∑ p ∈ range (nmaps a1), rotMat (nmaps a1) c sn ia p * f p ib ic id)
    (fun la lb pre _ h1 _ h2 _ h3 _ h4 => covElement_rot_a1 cw _ (Maps.ofSpins_valid _ _ _ _) s c sn h1 h2 h3 h4 la lb pre)
    (fun _ _ hfg _ _ ib h2 ic h3 id h4 => sum_congr rfl fun p hp => by rw [hfg p (mem_range.1 hp) ib h2 ic h3 id h4]) h

/-- C53 for the second field. -/
theorem C53_rotate_a2 (hoa : oa.wsp = some a) (hob : ob.wsp = some b) (hA : Bounded a.bin a.bin.ellMax)
    (hB : Bounded b.bin b.bin.ellMax) (hna : BinSpec.NoRepeats a.bin) (hnb : BinSpec.NoRepeats b.bin) (c sn : K) {C : Arr2 K}
    (h : gaussianCovariance L jk (some cw) a1 a2 b1 b2 s oa (some ob) true = .ok C) :
    ∃ C', gaussianCovariance L jk' (some cw) a1 a2 b1 b2 ⟨s.ac, s.ad, rotFirst (nmaps a2) (nmaps b1) c sn s.bc,
        rotFirst (nmaps a2) (nmaps b2) c sn s.bd⟩ oa (some ob) true = .ok C' ∧ C'.rows = C.rows ∧ C'.cols = C.cols ∧
      ∀ la lb, InBand a.bin la → InBand b.bin lb → ∀ ia < nmaps a1, ∀ ib < nmaps a2, ∀ ic < nmaps b1, ∀ id < nmaps b2,
        C'.val (a.ncls * la + (ib + nmaps a2 * ia)) (b.ncls * lb + (id + nmaps b2 * ic)) =
          ∑ p ∈ range (nmaps a2), rotMat (nmaps a2) c sn ib p *
            C.val (a.ncls * la + (p + nmaps a2 * ia)) (b.ncls * lb + (id + nmaps b2 * ic)) :=
  coupled_transform (s := s) (s' := ⟨s.ac, s.ad, rotFirst (nmaps a2) (nmaps b1) c sn s.bc, rotFirst (nmaps a2) (nmaps b2) c sn s.bd⟩) hoa hob hA hB hna hnb ⟨rfl, rfl⟩ ⟨rfl, rfl⟩ ⟨rfl, rfl⟩ ⟨rfl, rfl⟩
    (fun f ia ib ic id => ∑ p ∈ range (nmaps a2), rotMat (nmaps a2) c sn ib p * f ia p ic id)
    (fun la lb pre _ h1 _ h2 _ h3 _ h4 => covElement_rot_a2 cw _ (Maps.ofSpins_valid _ _ _ _) s c sn h1 h2 h3 h4 la lb pre)
    (fun _ _ hfg ia h1 _ _ ic h3 id h4 => sum_congr rfl fun p hp => by rw [hfg ia h1 p (mem_range.1 hp) ic h3 id h4]) h

/-- C53 for the third field. -/
theorem C53_rotate_b1 (hoa : oa.wsp = some a) (hob : ob.wsp = some b) (hA : Bounded a.bin a.bin.ellMax)
    (hB : Bounded b.bin b.bin.ellMax) (hna : BinSpec.NoRepeats a.bin) (hnb : BinSpec.NoRepeats b.bin) (c sn : K) {C : Arr2 K}
    (h : gaussianCovariance L jk (some cw) a1 a2 b1 b2 s oa (some ob) true = .ok C) :
    ∃ C', gaussianCovariance L jk' (some cw) a1 a2 b1 b2 ⟨rotSecond (nmaps b1) c sn s.ac, s.ad,
        rotSecond (nmaps b1) c sn s.bc, s.bd⟩ oa (some ob) true = .ok C' ∧ C'.rows = C.rows ∧ C'.cols = C.cols ∧
      ∀ la lb, InBand a.bin la → InBand b.bin lb → ∀ ia < nmaps a1, ∀ ib < nmaps a2, ∀ ic < nmaps b1, ∀ id < nmaps b2,
        C'.val (a.ncls * la + (ib + nmaps a2 * ia)) (b.ncls * lb + (id + nmaps b2 * ic)) =
          ∑ p ∈ range (nmaps b1), rotMat (nmaps b1) c sn ic p *
            C.val (a.ncls * la + (ib + nmaps a2 * ia)) (b.ncls * lb + (id + nmaps b2 * p)) :=
  coupled_transform (s := s) (s' := ⟨rotSecond (nmaps b1) c sn s.ac, s.ad, rotSecond (nmaps b1) c sn s.bc, s.bd⟩) hoa hob hA hB hna hnb ⟨rfl, rfl⟩ ⟨rfl, rfl⟩ ⟨rfl, rfl⟩ ⟨rfl, rfl⟩
    (fun f ia ib ic id => ∑ p ∈ range (nmaps b1), rotMat (nmaps b1) c sn ic p * f ia ib p id)
    (fun la lb pre _ h1 _ h2 _ h3 _ h4 => covElement_rot_b1 cw _ (Maps.ofSpins_valid _ _ _ _) s c sn h1 h2 h3 h4 la lb pre)
    (fun _ _ hfg ia h1 ib h2 _ _ id h4 => sum_congr rfl fun p hp => by rw [hfg ia h1 ib h2 p (mem_range.1 hp) id h4]) h

/-- C53 for the fourth field. -/
theorem C53_rotate_b2 (hoa : oa.wsp = some a) (hob : ob.wsp = some b) (hA : Bounded a.bin a.bin.ellMax)
    (hB : Bounded b.bin b.bin.ellMax) (hna : BinSpec.NoRepeats a.bin) (hnb : BinSpec.NoRepeats b.bin) (c sn : K) {C : Arr2 K}
    (h : gaussianCovariance L jk (some cw) a1 a2 b1 b2 s oa (some ob) true = .ok C) :
    ∃ C', gaussianCovariance L jk' (some cw) a1 a2 b1 b2 ⟨s.ac, rotSecond (nmaps b2) c sn s.ad, s.bc,
        rotSecond (nmaps b2) c sn s.bd⟩ oa (some ob) true = .ok C' ∧ C'.rows = C.rows ∧ C'.cols = C.cols ∧
      ∀ la lb, InBand a.bin la → InBand b.bin lb → ∀ ia < nmaps a1, ∀ ib < nmaps a2, ∀ ic < nmaps b1, ∀ id < nmaps b2,
        C'.val (a.ncls * la + (ib + nmaps a2 * ia)) (b.ncls * lb + (id + nmaps b2 * ic)) =
          ∑ p ∈ range (nmaps b2), rotMat (nmaps b2) c sn id p *
            C.val (a.ncls * la + (ib + nmaps a2 * ia)) (b.ncls * lb + (p + nmaps b2 * ic)) :=
  coupled_transform (s := s) (s' := ⟨s.ac, rotSecond (nmaps b2) c sn s.ad, s.bc, rotSecond (nmaps b2) c sn s.bd⟩) hoa hob hA hB hna hnb ⟨rfl, rfl⟩ ⟨rfl, rfl⟩ ⟨rfl, rfl⟩ ⟨rfl, rfl⟩
    (fun f ia ib ic id => ∑ p ∈ range (nmaps b2), rotMat (nmaps b2) c sn id p * f ia ib ic p)
    (fun la lb pre _ h1 _ h2 _ h3 _ h4 => covElement_rot_b2 cw _ (Maps.ofSpins_valid _ _ _ _) s c sn h1 h2 h3 h4 la lb pre)
    (fun _ _ hfg ia h1 ib h2 ic h3 _ _ => sum_congr rfl fun p hp => by rw [hfg ia h1 ib h2 ic h3 p (mem_range.1 hp)]) h

/-! ## C54 -/

/-- C54: a reflection of the sky (B changes sign in all fields) changes the sign of covariances between components with an odd
number of B. -/
theorem C54_reflection (hoa : oa.wsp = some a) (hob : ob.wsp = some b) (hA : Bounded a.bin a.bin.ellMax)
    (hB : Bounded b.bin b.bin.ellMax) (hna : BinSpec.NoRepeats a.bin) (hnb : BinSpec.NoRepeats b.bin) {C : Arr2 K}
    (h : gaussianCovariance L jk (some cw) a1 a2 b1 b2 s oa (some ob) true = .ok C) :
    ∃ C', gaussianCovariance L jk' (some cw) a1 a2 b1 b2 ⟨reflect (nmaps b1) s.ac, reflect (nmaps b2) s.ad,
        reflect (nmaps b1) s.bc, reflect (nmaps b2) s.bd⟩ oa (some ob) true = .ok C' ∧ C'.rows = C.rows ∧ C'.cols = C.cols ∧
      ∀ la lb, InBand a.bin la → InBand b.bin lb → ∀ ia < nmaps a1, ∀ ib < nmaps a2, ∀ ic < nmaps b1, ∀ id < nmaps b2,
        C'.val (a.ncls * la + (ib + nmaps a2 * ia)) (b.ncls * lb + (id + nmaps b2 * ic)) =
          paritySign ia * paritySign ib * (paritySign ic * paritySign id) *
            C.val (a.ncls * la + (ib + nmaps a2 * ia)) (b.ncls * lb + (id + nmaps b2 * ic)) :=
  coupled_transform (s := s) (s' := ⟨reflect (nmaps b1) s.ac, reflect (nmaps b2) s.ad, reflect (nmaps b1) s.bc, reflect (nmaps b2) s.bd⟩) hoa hob hA hB hna hnb ⟨rfl, rfl⟩ ⟨rfl, rfl⟩ ⟨rfl, rfl⟩ ⟨rfl, rfl⟩
    (fun f ia ib ic id => paritySign ia * paritySign ib * (paritySign ic * paritySign id) * f ia ib ic id)
    (fun la lb pre _ h1 _ h2 _ h3 _ h4 => covElement_reflect cw _ (Maps.ofSpins_valid _ _ _ _) s h1 h2 h3 h4 la lb pre)
    (fun _ _ hfg ia h1 ib h2 ic h3 id h4 => by rw [hfg ia h1 ib h2 ic h3 id h4]) h

/-- C54: without EB and TB correlations in the input, covariances between components with an odd number of B vanish. -/
theorem C54_no_mixing (h2 : (2 : K) ≠ 0) (hoa : oa.wsp = some a) (hob : ob.wsp = some b) (hA : Bounded a.bin a.bin.ellMax)
    (hB : Bounded b.bin b.bin.ellMax) (hna : BinSpec.NoRepeats a.bin) (hnb : BinSpec.NoRepeats b.bin)
    (u1 : Unmixed (nmaps b1) s.ac) (u2 : Unmixed (nmaps b2) s.ad) (u3 : Unmixed (nmaps b1) s.bc) (u4 : Unmixed (nmaps b2) s.bd)
    {C : Arr2 K} (h : gaussianCovariance L jk (some cw) a1 a2 b1 b2 s oa (some ob) true = .ok C) {la lb ia ib ic id : ℕ}
    (hla : InBand a.bin la) (hlb : InBand b.bin lb) (g1 : ia < nmaps a1) (g2 : ib < nmaps a2) (g3 : ic < nmaps b1) (g4 : id < nmaps b2)
    (hodd : Odd (ia + ib + ic + id)) :
    C.val (a.ncls * la + (ib + nmaps a2 * ia)) (b.ncls * lb + (id + nmaps b2 * ic)) = 0 := by
  have fix : ∀ (m : ℕ) (x : Arr2 K), Unmixed m x → reflect m x = x := by
    intro m x hu
    unfold reflect
    have : (fun r l => paritySign (r / m) * paritySign (r % m) * x.val r l) = x.val := by
      funext r l
      have hu := hu r l
      unfold paritySign
      by_cases k1 : r / m = 0 <;> by_cases k2 : r % m = 0
      · rw [if_pos k1, if_pos k2]; ring
      · rw [if_pos k1, if_neg k2, hu (Or.inl ⟨k1, k2⟩)]; ring
      · rw [if_neg k1, if_pos k2, hu (Or.inr ⟨k1, k2⟩)]; ring
      · rw [if_neg k1, if_neg k2]; ring
    rw [this]
  obtain ⟨C', hC', -, -, hv⟩ := C54_reflection (jk' := jk) hoa hob hA hB hna hnb h
  rw [fix _ _ u1, fix _ _ u2, fix _ _ u3, fix _ _ u4, h] at hC'
  obtain rfl := Outcome.ok.inj hC'
  have e := hv la lb hla hlb ia g1 ib g2 ic g3 id g4
  have sg : (paritySign ia * paritySign ib * (paritySign ic * paritySign id) : K) = -1 := by
    have m1 : ia < 2 := by have := nmaps_cases a1; omega
    have m2 : ib < 2 := by have := nmaps_cases a2; omega
    have m3 : ic < 2 := by have := nmaps_cases b1; omega
    have m4 : id < 2 := by have := nmaps_cases b2; omega
    clear e hv g1 g2 g3 g4
    interval_cases ia <;> interval_cases ib <;> interval_cases ic <;> interval_cases id <;>
      first
      | (exfalso; revert hodd; decide)
      | simp [paritySign]
  rw [sg] at e
  have : (2 : K) * C.val (a.ncls * la + (ib + nmaps a2 * ia)) (b.ncls * lb + (id + nmaps b2 * ic)) = 0 := by
    linear_combination e
  exact (mul_eq_zero.1 this).resolve_left h2

end

/-! ## Coefficients computed by the library -/

/-- C26: the coefficients computed from the masks are symmetric in the two multipoles, whatever the Toeplitz parameters. -/
theorem C26_computed_symmetric {W : Wigner} {junk : ℕ → ℝ} {pcl1 pcl2 : List ℝ} {lmax lmaxMask : ℕ} {lT lE dl : ℤ} {spin0 : Bool}
    {cw : CovWsp ℝ} (h : covInit W junk pcl1 pcl2 lmax lmaxMask lT lE dl spin0 = .ok cw) :
    cw.lmax = lmax ∧ cw.spin0Only = spin0 ∧ Symmetric cw.x1122 cw.lmax ∧ Symmetric cw.x1221 cw.lmax := by
  unfold covInit at h
  by_cases h1 : pcl1.length ≠ lmaxMask + 1 ∨ pcl2.length ≠ lmaxMask + 1
  · rw [if_pos h1] at h; cases h
  rw [if_neg h1] at h
  by_cases h2 : lmaxMask < lmax
  · rw [if_pos h2] at h; cases h
  rw [if_neg h2] at h
  obtain rfl := Outcome.ok.inj h
  refine ⟨rfl, rfl, ?_, ?_⟩
  · intro l l' _ _
    cases spin0 with
    | true => exact ⟨coefTable_sym _ _ _ _ _ _ _ _, coefTable_sym _ _ _ _ _ _ _ _, coefTable_sym _ _ _ _ _ _ _ _, coefTable_sym _ _ _ _ _ _ _ _⟩
    | false => exact ⟨coefTable_sym _ _ _ _ _ _ _ _, coefTable_sym _ _ _ _ _ _ _ _, coefTable_sym _ _ _ _ _ _ _ _, coefTable_sym _ _ _ _ _ _ _ _⟩
  · intro l l' _ _
    cases spin0 with
    | true => exact ⟨coefTable_sym _ _ _ _ _ _ _ _, coefTable_sym _ _ _ _ _ _ _ _, coefTable_sym _ _ _ _ _ _ _ _, coefTable_sym _ _ _ _ _ _ _ _⟩
    | false => exact ⟨coefTable_sym _ _ _ _ _ _ _ _, coefTable_sym _ _ _ _ _ _ _ _, coefTable_sym _ _ _ _ _ _ _ _, coefTable_sym _ _ _ _ _ _ _ _⟩

end NaMaster
