import Verif.Flat.FilesLemmas
import Verif.Flat.CoupleWrong
import Verif.Files.Props

/-! # C73: files of flat workspaces -/

namespace NaMaster

open Real Finset

theorem nmapsOf_pos (s : ℕ) : 0 < nmapsOf s := by unfold nmapsOf; split_ifs <;> omega

theorem couplingFlat_normal {f1 f2 : FlatField} {b : FlatBins ℝ} {c : EllCuts} {isTeb : Bool} {W : WspFlat}
    (hW : couplingFlat f1 f2 b c isTeb = .ok W) : W.Normal := by
  have hn : 0 < (if isTeb then 7 else nmapsOf f1.spin * nmapsOf f2.spin) := by
    have := Nat.mul_pos (nmapsOf_pos f1.spin) (nmapsOf_pos f2.spin)
    split_ifs <;> omega
  unfold couplingFlat at hW
  by_cases h1 : f1.fs ≠ f2.fs
  · rw [if_pos h1] at hW; cases hW
  rw [if_neg h1] at hW
  by_cases h2 : isTeb = true ∧ ¬ (f1.spin = 0 ∧ f2.spin ≠ 0)
  · rw [if_pos h2] at hW; cases hW
  rw [if_neg h2] at hW
  by_cases h3 : b.nBands = 0
  · rw [if_pos h3] at hW; cases hW
  rw [if_neg h3] at hW
  simp only at hW
  obtain ⟨_, -, hW⟩ := bind_out hW
  obtain ⟨_, -, hW⟩ := bind_out hW
  cases hW
  exact ⟨hn, Nat.pos_of_ne_zero h3, fun i b1 j b2 h => if_neg h, fun i b1 j ir h => if_neg h⟩

theorem decouple_stored (k : KeyFormat) (W : WspFlat) (L : LinAlg ℝ) (cl : Arr2 ℝ) (bias noise : Option (Arr2 ℝ)) :
    decoupleCellFlat L (some (W.stored k)) cl bias noise = decoupleCellFlat L (some W) cl bias noise := rfl

/-- A workspace that was computed, written to a file and read from it is as good as before for decoupling spectra and for
covariances; it is as good in `compute_full_master_flat` if the sides of the map survive printing 15 digits; and it is written again
as the same file. Missing: other sides of the map, for which `compute_full_master_flat` fails (`C73_master_wrong`), and predicted
spectra (`C73_couple_partial`, `C73_couple_wrong`). -/
theorem C73_roundtrip_partial (F : Factor ℝ) (hF : F.Correct) (k : KeyFormat) (hk : k.Correct) (f1 f2 : FlatField) (b : FlatBins ℝ)
    (c : EllCuts) (isTeb : Bool) {W : WspFlat} (hW : couplingFlat f1 f2 b c isTeb = .ok W) :
    ∃ f, FlatObj.writeTo k F (some W) = .ok f ∧ ∀ (j : FlatFileJunk) (old : Option WspFlat),
      ∃ W', FlatObj.readFrom F j (some f) old = (some W', .ok ()) ∧
        (∀ L cl bias noise, decoupleCellFlat L (some W') cl bias noise = decoupleCellFlat L (some W) cl bias noise) ∧
        (∀ L jk cw sa sb sc sd larr s w, gaussianCovarianceFlat L jk cw sa sb sc sd larr s (some W') (some w) =
          gaussianCovarianceFlat L jk cw sa sb sc sd larr s (some W) (some w)) ∧
        (∀ L jk cw sa sb sc sd larr s w, gaussianCovarianceFlat L jk cw sa sb sc sd larr s w (some (some W')) =
          gaussianCovarianceFlat L jk cw sa sb sc sd larr s w (some (some W))) ∧
        (∀ L jk cw sa sb sc sd larr s, gaussianCovarianceFlat L jk cw sa sb sc sd larr s (some W') none =
          gaussianCovarianceFlat L jk cw sa sb sc sd larr s (some W) none) ∧
        (k.stored f1.fs.lx = f1.fs.lx → k.stored f1.fs.ly = f1.fs.ly → ∀ L D d1 d2 b' c' noise guess,
          fullMasterFlat L D d1 d2 b' c' noise guess (some (some W')) = fullMasterFlat L D d1 d2 b' c' noise guess (some (some W))) ∧
        FlatObj.writeTo k F (some W') = .ok f := by
  have hn := couplingFlat_normal hW
  have hs := couplingFlat_stored hW
  refine ⟨_, rfl, fun j old => ⟨W.stored k, ?_, fun L cl bias noise => rfl, ?_, ?_, fun L jk cw sa sb sc sd larr s => rfl, ?_, ?_⟩⟩
  · unfold FlatObj.readFrom
    simp only
    rw [readWspFlat_written hF hn]
  · intro L jk cw sa sb sc sd larr s w
    cases w <;> rfl
  · intro L jk cw sa sb sc sd larr s w
    cases w <;> rfl
  · intro hx hy L D d1 d2 b' c' noise guess
    have e : (W.stored k).fs = W.fs := by
      unfold WspFlat.stored
      simp only [hs.1, hx, hy]
    have e2 : powerSpectraFlatC L D d1 d2 b' c' (some (W.stored k)) = powerSpectraFlatC L D d1 d2 b' c' (some W) := by
      funext noise ells guess rows
      unfold powerSpectraFlatC pickWspFlat
      dsimp only
      by_cases h1 : d1.fs ≠ W.fs ∨ d2.fs ≠ W.fs
      · have h1' : d1.fs ≠ (W.stored k).fs ∨ d2.fs ≠ (W.stored k).fs := by rw [e]; exact h1
        rw [if_pos h1, if_pos h1']
      have h1' : ¬ (d1.fs ≠ (W.stored k).fs ∨ d2.fs ≠ (W.stored k).fs) := by rw [e]; exact h1
      rw [if_neg h1, if_neg h1']
      by_cases h2 : b'.nBands ≠ W.bin.nBands
      · have h2' : b'.nBands ≠ (W.stored k).bin.nBands := h2
        rw [if_pos h2, if_pos h2']
      have h2' : ¬ b'.nBands ≠ (W.stored k).bin.nBands := h2
      rw [if_neg h2, if_neg h2']
      rfl
    unfold fullMasterFlat
    simp only [Option.bind_some, id, e2]
  · unfold FlatObj.writeTo
    simp only
    rw [hdus_stored hk]

/-- A side of a map that is given as a decimal number of at most 15 digits survives. -/
theorem C73_sides (k : KeyFormat) (hk : k.Correct) (x : ℝ) (hx : Digits15 x) : k.stored (k.rd x) = k.rd x := stored_of_digits hk hx

/-- If a side of the map does not survive, `compute_full_master_flat` refuses the workspace that was read, for every call in which
it accepts the workspace that was written. -/
theorem C73_master_wrong (F : Factor ℝ) (hF : F.Correct) (k : KeyFormat) (f1 f2 : FlatField) (b : FlatBins ℝ)
    (c : EllCuts) (isTeb : Bool) {W : WspFlat} (hW : couplingFlat f1 f2 b c isTeb = .ok W)
    (hl : k.stored f1.fs.lx ≠ f1.fs.lx ∨ k.stored f1.fs.ly ≠ f1.fs.ly) (j : FlatFileJunk) (old : Option WspFlat)
    {f : FitsFile ℝ} (hf : FlatObj.writeTo k F (some W) = .ok f) {W' : WspFlat}
    (hW' : FlatObj.readFrom F j (some f) old = (some W', .ok ())) (L : LinAlg ℝ) (D : FlatDeproj) (d1 d2 : FlatFieldData) (b' : FlatBins ℝ) (c' : EllCuts)
    (noise : Option (Arr2 ℝ)) (guess : Option (Arr2 ℝ × Option (List ℝ))) {out : Arr2 ℝ}
    (h : fullMasterFlat L D d1 d2 b' c' noise guess (some (some W)) = .ok out) :
    fullMasterFlat L D d1 d2 b' c' noise guess (some (some W')) = .raises .runtime := by
  have hn := couplingFlat_normal hW
  have hs := couplingFlat_stored hW
  cases hf
  unfold FlatObj.readFrom at hW'
  simp only at hW'
  rw [readWspFlat_written hF hn] at hW'
  simp only [Prod.mk.injEq, Option.some.injEq, and_true] at hW'
  subst hW'
  have hne : (W.stored k).fs ≠ W.fs := by
    intro e
    rw [hs.1] at e
    have e1 := congrArg FlatInfo.lx e
    have e2 := congrArg FlatInfo.ly e
    simp only [WspFlat.stored, hs.1] at e1 e2
    rcases hl with hl | hl
    · exact hl e1
    · exact hl e2
  have key : ∀ noise ells guess rows out, powerSpectraFlatC L D d1 d2 b' c' (some W) noise ells guess rows = .ok out →
      powerSpectraFlatC L D d1 d2 b' c' (some (W.stored k)) noise ells guess rows = .raises .runtime := by
    intro noise ells guess rows out ho
    unfold powerSpectraFlatC pickWspFlat at ho ⊢
    simp only at ho ⊢
    by_cases h1 : d1.fs ≠ W.fs ∨ d2.fs ≠ W.fs
    · rw [if_pos h1] at ho; cases ho
    · push Not at h1
      rw [if_pos (Or.inl (by rw [h1.1]; exact fun e => hne e.symm))]
      rfl
  unfold fullMasterFlat at h ⊢
  simp only [Option.bind_some, id] at h ⊢
  by_cases h1 : d1.fs.nx ≠ d2.fs.nx ∨ d1.fs.ny ≠ d2.fs.ny
  · rw [if_pos h1] at h; cases h
  rw [if_neg h1] at h ⊢
  by_cases h2 : noise.any (fun a => a.rows ≠ d1.nmaps * d2.nmaps ∨ a.cols ≠ b'.nBands) = true
  · rw [if_pos h2] at h; cases h
  rw [if_neg h2] at h ⊢
  cases guess with
  | none =>
    simp only at h ⊢
    split_ifs at h ⊢
    exact key _ _ _ _ _ h
  | some g =>
    obtain ⟨clg, e⟩ := g
    cases e with
    | none => cases h
    | some ells =>
      simp only at h ⊢
      split_ifs at h ⊢
      exact key _ _ _ _ _ h

/-- Such a side: the next double after one. -/
theorem C73_side_lost (k : KeyFormat) (hk : k.Correct) : k.stored (1 + 1 / 2 ^ 52) ≠ 1 + 1 / 2 ^ 52 := by
  rw [stored_next hk]
  norm_num

/-! ## Predicted spectra -/

/-- Predicted spectra are the same as before if the sides of the map survive and no mode changes its ring because of the digits lost in
the inverse width of the rings. Missing: other maps; see `C73_couple_wrong`. -/
theorem C73_couple_partial (F : Factor ℝ) (hF : F.Correct) (k : KeyFormat) (f1 f2 : FlatField) (b : FlatBins ℝ)
    (c : EllCuts) (isTeb : Bool) {W : WspFlat} (hW : couplingFlat f1 f2 b c isTeb = .ok W)
    (hx : k.stored f1.fs.lx = f1.fs.lx) (hy : k.stored f1.fs.ly = f1.fs.ly)
    (hr : ∀ q ∈ f1.fs.modes, ⌊f1.fs.kmod q.1 q.2 * k.stored (1 / f1.fs.dell)⌋₊ = ⌊f1.fs.kmod q.1 q.2 * (1 / f1.fs.dell)⌋₊)
    (j : FlatFileJunk) (old : Option WspFlat) {f : FitsFile ℝ} (hf : FlatObj.writeTo k F (some W) = .ok f) {W' : WspFlat}
    (hW' : FlatObj.readFrom F j (some f) old = (some W', .ok ())) (ells : List ℝ) (cl : Arr2 ℝ) :
    coupleCellFlat (some W') ells cl = coupleCellFlat (some W) ells cl := by
  have hn := couplingFlat_normal hW
  have hs := couplingFlat_stored hW
  cases hf
  unfold FlatObj.readFrom at hW'
  simp only at hW'
  rw [readWspFlat_written hF hn] at hW'
  simp only [Prod.mk.injEq, Option.some.injEq, and_true] at hW'
  subst hW'
  have e : (W.stored k).fs = W.fs := by
    unfold WspFlat.stored
    simp only [hs.1, hx, hy]
  have hi : ∀ q ∈ W.fs.modes, (W.stored k).rings.index (W.fs.kmod q.1 q.2) = W.rings.index (W.fs.kmod q.1 q.2) := by
    intro q hq
    rw [hs.1] at hq ⊢
    have := hr q hq
    unfold RingInfo.index WspFlat.stored
    simp only [hs.2.1]
    unfold FlatInfo.rings
    simp only
    rw [this]
  have hm : ∀ g ir, ringMean (W.stored k).rings (W.stored k).fs g ir = ringMean W.rings W.fs g ir := by
    intro g ir
    unfold ringMean
    rw [e]
    have hfilt : ({q ∈ W.fs.modes | (W.stored k).rings.index (W.fs.kmod q.1 q.2) = (ir : ℤ)} : Finset (ℕ × ℕ)) =
        {q ∈ W.fs.modes | W.rings.index (W.fs.kmod q.1 q.2) = (ir : ℤ)} := filter_congr fun q hq => by rw [hi q hq]
    simp only [hfilt]
  unfold coupleCellFlat
  simp only [hm]
  rfl

namespace FlatFileExample

/-- A map of 2 × 2 pixels. -/
def fs2 (l : ℝ) : FlatInfo := ⟨2, 2, l, l⟩

theorem wave0 (l : ℝ) : waveNum 2 l 0 = 0 := by simp [waveNum]
theorem wave1 (l : ℝ) : waveNum 2 l 1 = 2 * π / l := by simp [waveNum]

theorem modes2 (l : ℝ) : (fs2 l).modes = {(0, 0), (1, 0), (0, 1), (1, 1)} := by
  ext ⟨a, b⟩
  rw [mem_modes]
  simp only [fs2, mem_insert, mem_singleton, Prod.mk.injEq]
  omega

theorem kmod00 (l : ℝ) : (fs2 l).kmod 0 0 = 0 := by
  simp [FlatInfo.kmod, FlatInfo.kx, FlatInfo.ky, fs2, wave0]

theorem kmod10 {l : ℝ} (hl : 0 < l) : (fs2 l).kmod 1 0 = 2 * π / l := by
  simp only [FlatInfo.kmod, FlatInfo.kx, FlatInfo.ky, fs2, wave0, wave1]
  rw [mul_zero, add_zero, Real.sqrt_mul_self (by positivity)]

theorem kmod01 {l : ℝ} (hl : 0 < l) : (fs2 l).kmod 0 1 = 2 * π / l := by
  simp only [FlatInfo.kmod, FlatInfo.kx, FlatInfo.ky, fs2, wave0, wave1]
  rw [mul_zero, zero_add, Real.sqrt_mul_self (by positivity)]

theorem kmod11 {l : ℝ} (hl : 0 < l) : (fs2 l).kmod 1 1 = √2 * (2 * π / l) := by
  simp only [FlatInfo.kmod, FlatInfo.kx, FlatInfo.ky, fs2, wave1]
  rw [← two_mul, Real.sqrt_mul (by norm_num), Real.sqrt_mul_self (by positivity)]

theorem dell2 (l : ℝ) : (fs2 l).dell = 2 * π / l := by simp [FlatInfo.dell, fs2]

theorem sqrt2 : 1.4 < √2 ∧ √2 < 1.5 := by
  constructor
  · exact Real.lt_sqrt_of_sq_lt (by norm_num)
  · rw [Real.sqrt_lt' (by norm_num)]; norm_num

theorem nEll2 {l : ℝ} (hl : 0 < l) : (fs2 l).nEll = 1 := by
  unfold FlatInfo.nEll
  have h : 0 < 2 * π / l := by positivity
  rw [← corner_kmax, show (fs2 l).nx / 2 = 1 by simp [fs2], show (fs2 l).ny / 2 = 1 by simp [fs2], kmod11 hl, dell2, mul_div_assoc, div_self h.ne', mul_one,
    Nat.floor_eq_iff (by positivity)]
  have := sqrt2
  push_cast
  constructor <;> linarith [this.1, this.2]

/-- Rings are kept for a map of side two. -/
theorem rings_kept {k : KeyFormat} (hk : k.Correct) : ∀ q ∈ (fs2 2).modes,
    ⌊(fs2 2).kmod q.1 q.2 * k.stored (1 / (fs2 2).dell)⌋₊ = ⌊(fs2 2).kmod q.1 q.2 * (1 / (fs2 2).dell)⌋₊ := by
  intro q hq
  obtain ⟨h1, h2⟩ := stored_inv' hk
  have hd : (fs2 2).dell = π := by rw [dell2]; ring
  have hp := Real.pi_pos
  have hp4 := Real.pi_lt_d2
  have h1' : 1 < π * k.stored (1 / π) := by
    rw [div_lt_iff₀ hp] at h1; linarith
  have h2' : π * k.stored (1 / π) < 1.01 := by nlinarith
  have hs := sqrt2
  rw [hd]
  rw [modes2] at hq
  simp only [mem_insert, mem_singleton] at hq
  rcases hq with rfl | rfl | rfl | rfl
  · simp only [kmod00, zero_mul]
  · simp only [kmod10 (two_pos)]
    rw [show 2 * π / 2 = π by ring, mul_one_div_cancel hp.ne', Nat.floor_one, Nat.floor_eq_iff (by linarith)]
    constructor <;> push_cast <;> linarith
  · simp only [kmod01 (two_pos)]
    rw [show 2 * π / 2 = π by ring, mul_one_div_cancel hp.ne', Nat.floor_one, Nat.floor_eq_iff (by linarith)]
    constructor <;> push_cast <;> linarith
  · simp only [kmod11 (two_pos)]
    rw [show 2 * π / 2 = π by ring, mul_assoc, mul_assoc, mul_one_div_cancel hp.ne', mul_one]
    have e : ⌊√2⌋₊ = 1 := by
      rw [Nat.floor_eq_iff (by positivity)]
      constructor <;> push_cast <;> linarith [hs.1, hs.2]
    rw [e, Nat.floor_eq_iff (by positivity)]
    constructor <;> push_cast <;> nlinarith [hs.1, hs.2]

/-- One band with the mode zero only. -/
noncomputable def b1 : FlatBins ℝ := ⟨1, fun _ => 0, fun _ => 1⟩

theorem b1_gapless : GaplessBands b1 := by
  refine ⟨⟨fun i hi => by norm_num [b1], fun i hi => ?_⟩, fun i hi => ?_⟩ <;> simp [b1] at hi

/-- A spectrum that is one at multipole zero and zero at the other multipoles of the map. -/
noncomputable def ells1 : List ℝ := [1, 2]
def row1 (i : ℕ) : ℝ := if i = 0 then 1 else 0

theorem ells1_sorted : ells1.Pairwise (· < ·) := by
  simp only [ells1, List.pairwise_cons, List.mem_cons, List.not_mem_nil, or_false]
  norm_num

theorem prop_low : propFun ells1 row1 0 = 1 := by
  refine propFun_at (by simp [ells1]) ells1_sorted ⟨fun _ => by simp [row1], fun h => ?_, fun i hi h1 h2 => ?_⟩
  · simp [ells1] at h; norm_num at h
  · have : i = 0 := by simp [ells1] at hi; omega
    subst this
    simp [ells1] at h1
    norm_num at h1

theorem prop_high {x : ℝ} (hx : 2 < x) : propFun ells1 row1 x = 0 := by
  refine propFun_at (by simp [ells1]) ells1_sorted ⟨fun h => ?_, fun h => rfl, fun i hi h1 h2 => ?_⟩
  · simp [ells1] at h; linarith
  · have : i = 0 := by simp [ells1] at hi; omega
    subst this
    simp [ells1] at h2
    linarith

theorem bandModes1 : bandModes (fs2 1) b1 defaultCuts 0 = {(0, 0)} := by
  ext q
  rw [mem_bandModes, mem_singleton]
  have hp := Real.pi_gt_three
  have hs := sqrt2
  constructor
  · rintro ⟨hq, hb⟩
    rw [modes2] at hq
    simp only [mem_insert, mem_singleton] at hq
    have h3 := hb.2.2
    simp only [b1] at h3
    rcases hq with rfl | rfl | rfl | rfl
    · rfl
    · simp only [kmod10 one_pos] at h3; exfalso; linarith
    · simp only [kmod01 one_pos] at h3; exfalso; linarith
    · simp only [kmod11 one_pos] at h3; exfalso; nlinarith [hs.1]
  · rintro rfl
    refine ⟨by rw [modes2]; simp, ?_, ?_, ?_⟩ <;> simp only [b1, kmod00] <;> norm_num

end FlatFileExample

open FlatFileExample in
/-- Predicted spectra can change when the workspace is written and read. For a map of 2 × 2 pixels and side one that is not masked, the
rings have the width `2π`, and the modes with the multipole `2π` are not in the first ring. The inverse of `2π` is printed as a smaller
number, and these modes move into it: a spectrum that is one at multipole zero and vanishes at the other modes is predicted to be one
in the band around zero before and a third after. -/
theorem C73_couple_wrong (F : Factor ℝ) (hF : F.Correct) (k : KeyFormat) (hk : k.Correct) :
    ∃ W f out out', couplingFlat (fullField (fs2 1)) (fullField (fs2 1)) b1 defaultCuts false = .ok W ∧
      FlatObj.writeTo k F (some W) = .ok f ∧
      coupleCellFlat (some W) ells1 ⟨1, 2, fun _ => row1⟩ = .ok out ∧ out.val 0 0 = 1 ∧
      ∀ j old, ∃ W', FlatObj.readFrom F j (some f) old = (some W', .ok ()) ∧
        coupleCellFlat (some W') ells1 ⟨1, 2, fun _ => row1⟩ = .ok out' ∧ out'.val 0 0 = 1 / 3 := by
  obtain ⟨W, out, hW, hn, hb, -, hout, -, -, hv⟩ := couple_full (fs2 1) one_pos one_pos b1 b1_gapless (by simp [b1]) (ells := ells1)
    (cl := ⟨1, 2, fun _ => row1⟩) rfl rfl (by simp [ells1]) ells1_sorted
  have hs := couplingFlat_stored hW
  have hnorm := couplingFlat_normal hW
  have hp := Real.pi_gt_three
  have hsq := sqrt2
  have hnb : W.bin.nBands = 1 := by rw [hb]; rfl
  have hnr : W.rings.nEll = 1 := by rw [hs.2.1]; exact nEll2 one_pos
  have hring : (fs2 1).ring 0 0 = (0 : ℕ) := by
    rw [ring_iff one_pos one_pos, nEll2 one_pos, kmod00, dell2]
    refine ⟨by omega, by simp, by push_cast; linarith⟩
  have havg : ringAvg (fs2 1) (propFun ells1 row1) (0, 0) = 1 := by
    refine ringAvg_eq (by rw [modes2]; simp) (by simp only [hring]; norm_num) fun q hq hr => ?_
    rw [show (fs2 1).ring ((0, 0) : ℕ × ℕ).1 ((0, 0) : ℕ × ℕ).2 = (0 : ℕ) from hring, ring_iff one_pos one_pos, dell2] at hr
    have h3 := hr.2.2
    rw [modes2] at hq
    simp only [mem_insert, mem_singleton] at hq
    push_cast at h3
    rcases hq with rfl | rfl | rfl | rfl
    · simp only [kmod00]; exact prop_low
    · simp only [kmod10 one_pos] at h3; exfalso; linarith
    · simp only [kmod01 one_pos] at h3; exfalso; linarith
    · simp only [kmod11 one_pos] at h3; exfalso; nlinarith [hsq.1]
  have hone : out.val 0 0 = 1 := by
    rw [hv 0 (by simp [b1]), bandModes1, sum_singleton, card_singleton]
    simp only [havg]
    norm_num
  have hmean : ringMean W.rings W.fs (propFun ells1 row1) 0 = 1 := by
    rw [hs.1, hs.2.1]
    have := havg
    unfold ringAvg at this
    rw [if_neg (by simp only [hring]; norm_num)] at this
    simp only [hring, Int.toNat_natCast] at this
    exact this
  have hunb : W.unbinned 0 0 0 0 = 1 := by
    unfold coupleCellFlat at hout
    simp only [hn, hnb, hnr] at hout
    rw [if_neg (by simp [ells1]), if_neg (by push Not; exact ⟨by simp [ells1], ells1_sorted⟩)] at hout
    cases hout
    rw [show (Arr2.of 1 1 _).val 0 0 = _ from tab2_of_lt _ one_pos one_pos] at hone
    simp only [mul_one, range_one, sum_singleton, Nat.zero_mod, Nat.zero_div, hmean] at hone
    exact hone
  have hst : (W.stored k).fs = fs2 1 := by
    have e : k.stored (1 : ℝ) = 1 := by
      have := stored_natCast hk (n := 1) (by norm_num)
      simpa using this
    unfold WspFlat.stored
    simp only [hs.1]
    unfold fullField fs2
    simp only [e]
  have hri : (W.stored k).rings.iDell = k.stored (1 / (2 * π)) := by
    unfold WspFlat.stored
    simp only [hs.2.1]
    unfold FlatInfo.rings
    simp only
    rw [show (fullField (fs2 1)).fs = fs2 1 from rfl, dell2, div_one]
  obtain ⟨hi1, hi2⟩ := stored_inv hk
  rw [lt_div_iff₀ (by positivity)] at hi2
  have hidx : ∀ x, (W.stored k).rings.index x =
      if (⌊x * k.stored (1 / (2 * π))⌋₊ : ℤ) ≥ 1 then (-1 : ℤ) else ⌊x * k.stored (1 / (2 * π))⌋₊ := by
    intro x
    unfold RingInfo.index
    rw [hri, show (W.stored k).rings.nEll = W.rings.nEll from rfl, hnr]
    rfl
  have hin : ∀ x, 0 ≤ x → x ≤ 2 * π → (W.stored k).rings.index x = 0 := by
    intro x h0 h1
    have h : ⌊x * k.stored (1 / (2 * π))⌋₊ = 0 := by
      rw [Nat.floor_eq_zero]
      nlinarith
    rw [hidx, h]
    norm_num
  have hout' : (W.stored k).rings.index (√2 * (2 * π / 1)) = -1 := by
    rw [hidx, if_pos]
    have : 1 ≤ ⌊√2 * (2 * π / 1) * k.stored (1 / (2 * π))⌋₊ := by
      rw [Nat.le_floor_iff (by positivity)]
      have h1 : 1.4 * (2 * 3) ≤ √2 * (2 * π / 1) := by nlinarith [hsq.1]
      push_cast
      nlinarith
    exact_mod_cast this
  have hmean' : ringMean (W.stored k).rings (W.stored k).fs (propFun ells1 row1) 0 = 1 / 3 := by
    have hset : ({q ∈ (fs2 1).modes | (W.stored k).rings.index ((fs2 1).kmod q.1 q.2) = ((0 : ℕ) : ℤ)} : Finset (ℕ × ℕ)) =
        {(0, 0), (1, 0), (0, 1)} := by
      ext q
      rw [mem_filter, modes2]
      simp only [mem_insert, mem_singleton]
      constructor
      · rintro ⟨rfl | rfl | rfl | rfl, h⟩
        · simp
        · simp
        · simp
        · simp only [kmod11 one_pos] at h
          rw [hout'] at h
          simp at h
      · rintro (rfl | rfl | rfl)
        · exact ⟨by simp, by simp only [kmod00]; exact hin _ le_rfl (by positivity)⟩
        · exact ⟨by simp, by simp only [kmod10 one_pos]; exact hin _ (by positivity) (by linarith)⟩
        · exact ⟨by simp, by simp only [kmod01 one_pos]; exact hin _ (by positivity) (by linarith)⟩
    unfold ringMean
    rw [hst]
    simp only [hset]
    have h10 : propFun ells1 row1 ((fs2 1).kmod 1 0) = 0 := prop_high (by rw [kmod10 one_pos]; linarith)
    have h01 : propFun ells1 row1 ((fs2 1).kmod 0 1) = 0 := prop_high (by rw [kmod01 one_pos]; linarith)
    have h00 : propFun ells1 row1 ((fs2 1).kmod 0 0) = 1 := by rw [kmod00]; exact prop_low
    rw [sum_insert (by simp), sum_insert (by simp), sum_singleton, h10, h01, h00]
    have : #({(0, 0), (1, 0), (0, 1)} : Finset (ℕ × ℕ)) = 3 := by decide
    rw [this]
    norm_num
  refine ⟨W, _, out, Arr2.of 1 1 fun i ib => ∑ ind2 ∈ range (1 * 1), W.unbinned i ib (ind2 % 1) (ind2 / 1) *
        ringMean (W.stored k).rings (W.stored k).fs (propFun ells1 row1) (ind2 / 1), hW, rfl, hout, hone, fun j old => ⟨W.stored k, ?_, ?_, ?_⟩⟩
  · unfold FlatObj.readFrom
    simp only
    rw [readWspFlat_written hF hnorm]
  · unfold coupleCellFlat
    simp only [show (W.stored k).ncls = 1 from hn, show (W.stored k).bin.nBands = 1 from hnb, show (W.stored k).rings.nEll = 1 from hnr]
    rw [if_neg (by simp [ells1]), if_neg (by push Not; exact ⟨by simp [ells1], ells1_sorted⟩)]
    rfl
  · unfold Arr2.of
    simp only
    rw [tab2_of_lt _ one_pos one_pos]
    simp only [mul_one, range_one, sum_singleton, Nat.zero_mod, Nat.zero_div, hmean', hunb]
    norm_num

/-! ## Files that are not complete -/

open FileSpec in
/-- If the last unit is on the disk, everything is. -/
theorem interrupted_last {K : Type*} {units d : FitsFile K} {old : Option (FitsFile K)} (hd : Interrupted old units (some d)) {name : String}
    (hu : ∀ k < units.length, ∀ h ∈ units.take k, h.name ≠ name) {h : Hdu K} (hm : h ∈ d) (hn : h.name = name) (hc : h.complete = true) :
    d = units ∨ old = some d := by
  generalize hdd : some d = dd at hd
  cases hd with
  | before => right; rfl
  | removed => cases hdd
  | between k hk =>
    left
    cases hdd
    by_cases hk' : k = units.length
    · rw [hk', List.take_length]
    · exact absurd hn (hu k (by omega) h hm)
  | torn k hk p hp =>
    exfalso
    cases hdd
    rcases List.mem_append.1 hm with h1 | h1
    · exact hu k hk h h1 hn
    · rw [List.mem_singleton] at h1
      subst h1
      rw [hp.incomplete] at hc
      cases hc

theorem checkFits_ok {K : Type*} {s : Rd K} {u : Unit} (h : checkFits s = .ok u) : s.status = 0 := by
  unfold checkFits at h
  by_contra h0
  rw [if_pos h0] at h
  cases h

theorem flatBins_found {j : FlatFileJunk} {f : FitsFile ℝ} {s : Rd ℝ} (h : (flatBinsFromHdus j f s).2.status = 0) :
    s.status = 0 ∧ ∃ u ∈ f, u.isTable = true ∧ u.name = "BINS_SUMMARY" ∧ u.complete = true := by
  have hs : s.status = 0 := by
    by_contra hs
    unfold flatBinsFromHdus at h
    rw [movnam_err _ _ _ _ hs] at h
    dsimp only at h
    rw [numRows_err _ _ hs] at h
    dsimp only at h
    rw [readDbl_err _ _ _ _ _ hs] at h
    dsimp only at h
    rw [readDbl_err _ _ _ _ _ hs] at h
    exact hs h
  refine ⟨hs, ?_⟩
  cases hf : f.find? (fun h => h.isTable == true && h.name == "BINS_SUMMARY") with
  | none => exact absurd h (flatBins_cut (h0 := ⟨"", true, [], [], fun _ _ => 0, fun _ _ => 0, false, []⟩) hs ⟨rfl, Or.inl hf⟩)
  | some u =>
    have hm := List.mem_of_find?_eq_some hf
    have hn := List.find?_some hf
    simp only [Bool.and_eq_true, beq_iff_eq] at hn
    refine ⟨u, hm, hn.1, hn.2, ?_⟩
    by_contra hc
    rw [Bool.not_eq_true] at hc
    exact absurd h (flatBins_cut hs ⟨hc, Or.inr hf⟩)

theorem readWspFlat_bins {F : Factor ℝ} {j : FlatFileJunk} {f : FitsFile ℝ} {w : WspFlat} (h : readWspFlat F j f = .ok w) :
    ∃ u ∈ f, u.isTable = true ∧ u.name = "BINS_SUMMARY" ∧ u.complete = true := by
  unfold readWspFlat at h
  dsimp only at h
  obtain ⟨_, -, h⟩ := bind_out h
  obtain ⟨_, -, h⟩ := bind_out h
  obtain ⟨_, -, h⟩ := bind_out h
  obtain ⟨_, -, h⟩ := bind_out h
  obtain ⟨⟨m, s⟩, -, h⟩ := bind_out h
  dsimp only at h
  obtain ⟨_, -, h⟩ := bind_out h
  obtain ⟨_, hc, -⟩ := bind_out h
  exact (flatBins_found (checkFits_ok hc)).2

open FileSpec in
/-- If writing a workspace was interrupted, what is left under the file name is never read as a workspace, unless it is the complete
file or the previous one. -/
theorem C73_interrupted (F : Factor ℝ) (k : KeyFormat) (W : WspFlat) {f : FitsFile ℝ} (hf : FlatObj.writeTo k F (some W) = .ok f)
    (old : Option (FitsFile ℝ)) (d : FitsFile ℝ) (hd : Interrupted old f (some d)) (j : FlatFileJunk) (o : Option WspFlat) {W' : WspFlat}
    (h : FlatObj.readFrom F j (some d) o = (some W', .ok ())) : d = f ∨ old = some d := by
  cases hf
  have hr : readWspFlat F j d = .ok W' := by
    unfold FlatObj.readFrom at h
    simp only at h
    cases hr : readWspFlat F j d with
    | ok w => rw [hr] at h; simp only [Prod.mk.injEq, Option.some.injEq, and_true] at h; rw [h]
    | raises e => rw [hr] at h; simp at h
    | crash => rw [hr] at h; simp at h
  obtain ⟨u, hm, -, hn, hc⟩ := readWspFlat_bins hr
  refine interrupted_last hd (name := "BINS_SUMMARY") ?_ hm hn hc
  intro k' hk' h' hh'
  have : h' ∈ (wspFlatHdus k F W).take 6 := List.take_subset_take_left _ (by simp [wspFlatHdus] at hk'; omega) hh'
  simp only [wspFlatHdus, List.take_succ_cons, List.take_zero, List.mem_cons, List.not_mem_nil, or_false] at this
  rcases this with rfl | rfl | rfl | rfl | rfl | rfl <;> simp [flatInfoHdu, flatGeomHdu, flatCellsHdu, flatMcmHdu, flatPermHdu]

/-- Whatever the file is, after a call that fails the object is empty, also if it had a workspace. -/
theorem C73_failed_read (F : Factor ℝ) (j : FlatFileJunk) (f : Option (FitsFile ℝ)) (old : Option WspFlat)
    (h : (FlatObj.readFrom F j f old).2 ≠ .ok ()) : (FlatObj.readFrom F j f old).1 = none := by
  unfold FlatObj.readFrom at h ⊢
  cases f with
  | none => rfl
  | some f =>
    simp only at h ⊢
    cases hr : readWspFlat F j f with
    | ok w => rw [hr] at h; exact absurd rfl h
    | raises e => rfl
    | crash => rfl

/-- A file that ends before the image `MCM_BINNED` is not always rejected with an exception: its size is taken from memory that was not
set. -/
theorem C73_uninitialised (F : Factor ℝ) (k : KeyFormat) (W : WspFlat) :
    ∃ j, readWspFlat F j ((wspFlatHdus k F W).take 3) = .crash := by
  have hc : ∀ h : Hdu ℝ, checkFits (⟨some h, 0⟩ : Rd ℝ) = .ok () := fun h => by simp [checkFits]
  refine ⟨⟨fun _ => 0, fun _ => 0, fun _ => 0, fun _ => 0, false⟩, ?_⟩
  unfold readWspFlat
  have ho : fitsOpen ((wspFlatHdus k F W).take 3) = ⟨some (flatInfoHdu k W), 0⟩ := rfl
  obtain ⟨m, hm, -⟩ := flatInfo_read (j := ⟨fun _ => 0, fun _ => 0, fun _ => 0, fun _ => 0, false⟩) (f := (wspFlatHdus k F W).take 3)
    (k := k) (w := W) (s := ⟨some (flatInfoHdu k W), 0⟩) rfl rfl
  rw [ho]
  dsimp only
  rw [hc]
  simp only [Outcome.bind]
  rw [hm, hc]
  simp only
  rw [flatGeom_read (w := W) (k := k) rfl rfl, hc]
  simp only
  rw [flatCells_read (w := W) (k := k) rfl rfl, hc]
  simp only
  unfold flatMcmFromHdus
  rw [movnam_missing _ rfl rfl]
  simp [imgSize2]

/-! ## Cases -/

namespace FlatFileExample

theorem coupling_ok (l : ℝ) (hl : 0 < l) : ∃ W, couplingFlat (fullField (fs2 l)) (fullField (fs2 l)) b1 defaultCuts false = .ok W := by
  obtain ⟨W, out, hW, -⟩ := couple_full (fs2 l) hl hl b1 b1_gapless (by simp [b1]) (ells := ells1)
    (cl := ⟨1, 2, fun _ => row1⟩) rfl rfl (by simp [ells1]) ells1_sorted
  exact ⟨W, hW⟩

/-- `C73_roundtrip_partial` and `C73_couple_partial` for a map of side two: predicted spectra survive. -/
example : ∃ W f, couplingFlat (fullField (fs2 2)) (fullField (fs2 2)) b1 defaultCuts false = .ok W ∧
    FlatObj.writeTo decimalFormat (trivialFactor ℝ) (some W) = .ok f ∧
    ∀ j old, ∃ W', FlatObj.readFrom (trivialFactor ℝ) j (some f) old = (some W', .ok ()) ∧
      ∀ ells cl, coupleCellFlat (some W') ells cl = coupleCellFlat (some W) ells cl := by
  obtain ⟨W, hW⟩ := coupling_ok 2 two_pos
  obtain ⟨f, hf, h⟩ := C73_roundtrip_partial (trivialFactor ℝ) trivialFactor_correct decimalFormat decimalFormat_correct _ _ _ _ _ hW
  have e : decimalFormat.stored (2 : ℝ) = 2 := by
    have := stored_natCast decimalFormat_correct (n := 2) (by norm_num)
    simpa using this
  refine ⟨W, f, hW, hf, fun j old => ?_⟩
  obtain ⟨W', h1, -⟩ := h j old
  exact ⟨W', h1, C73_couple_partial (trivialFactor ℝ) trivialFactor_correct decimalFormat _ _ _ _ _ hW e e
    (rings_kept decimalFormat_correct) j old hf h1⟩

/-- `C73_master_wrong` applies to a map with the side `1 + 2⁻⁵²`. -/
example : ∃ W f W', couplingFlat (fullField (fs2 (1 + 1 / 2 ^ 52))) (fullField (fs2 (1 + 1 / 2 ^ 52))) b1 defaultCuts false = .ok W ∧
    FlatObj.writeTo decimalFormat (trivialFactor ℝ) (some W) = .ok f ∧
    FlatObj.readFrom (trivialFactor ℝ) ⟨fun _ => 0, fun _ => 0, fun _ => 0, fun _ => 0, false⟩ (some f) none = (some W', .ok ()) ∧
    ∀ L D d1 d2 b' c' noise guess out, fullMasterFlat L D d1 d2 b' c' noise guess (some (some W)) = .ok out →
      fullMasterFlat L D d1 d2 b' c' noise guess (some (some W')) = .raises .runtime := by
  obtain ⟨W, hW⟩ := coupling_ok (1 + 1 / 2 ^ 52) (by positivity)
  obtain ⟨f, hf, h⟩ := C73_roundtrip_partial (trivialFactor ℝ) trivialFactor_correct decimalFormat decimalFormat_correct _ _ _ _ _ hW
  obtain ⟨W', h1, -⟩ := h ⟨fun _ => 0, fun _ => 0, fun _ => 0, fun _ => 0, false⟩ none
  exact ⟨W, f, W', hW, hf, h1, fun L D d1 d2 b' c' noise guess out ho => C73_master_wrong (trivialFactor ℝ) trivialFactor_correct
    decimalFormat _ _ _ _ _ hW (Or.inl (C73_side_lost _ decimalFormat_correct)) _ _ hf h1 L D d1 d2 b' c' noise guess ho⟩

example := C73_couple_wrong (trivialFactor ℝ) trivialFactor_correct decimalFormat decimalFormat_correct

open FileSpec in
/-- A case of `C73_interrupted`: the last unit is missing. -/
example (W : WspFlat) (j : FlatFileJunk) : ∀ W', FlatObj.readFrom (trivialFactor ℝ) j
    (some ((wspFlatHdus decimalFormat (trivialFactor ℝ) W).take 6)) none ≠ (some W', .ok ()) := by
  intro W' h
  rcases C73_interrupted (trivialFactor ℝ) decimalFormat W rfl none _ (.between 6 (by simp [wspFlatHdus])) j none h with h | h
  · have := congrArg List.length h
    simp [wspFlatHdus] at this
  · cases h

end FlatFileExample

end NaMaster
