import Verif.Angle.Covar
import Verif.Angle.Example

/-! # Cases for C103

The fields of spin 1 on four pixels of C92, with any coupling coefficients of the masks and any spectra. -/

namespace NaMaster

open Finset CovSpec WspSpec SkyExample KnoxExample

namespace AngleExample

/-- Any coupling coefficients up to multipole 1. -/
def cwK (X Y : CovXi ℝ) : CovWsp ℝ := ⟨1, false, X, Y⟩

/-- Any spectra of the four components of two fields with spin. -/
def clsK (S : ℕ → ℕ → ℕ → ℝ) : CovCls ℝ := ⟨⟨4, 2, S 0⟩, ⟨4, 2, S 1⟩, ⟨4, 2, S 2⟩, ⟨4, 2, S 3⟩⟩

theorem wspK_shape (minfo : MapInfo) (ω : Three) {w : Wsp ℝ} (hw : wspFromFields racah envK minfo (fieldK 1 ω) (fieldK 1 ω) true bins4 wargs4 = .ok w) :
    w.ncls = 4 ∧ w.bin = bins4 := by
  obtain ⟨p1, p2, p3, p4, -⟩ := (fieldsK (s := 1) le_rfl).facts ω
  obtain ⟨-, n, -, hc⟩ := wsp_iso p4 p4 hw
  obtain ⟨-, -, -, p, U0, hbuild⟩ := comp_parts hc
  have hncls : (couplingArgsOf (fieldK 1 ω) (fieldK 1 ω) wargs4).ncls = 4 := by
    simp [CouplingArgs.ncls, couplingArgsOf, p3, wargs4]
  rw [hncls] at hbuild
  exact ⟨by rw [hbuild]; rfl, by rw [hbuild]; rfl⟩

theorem consistentK (X Y : CovXi ℝ) (S : ℕ → ℕ → ℕ → ℝ) {w : Wsp ℝ} (h : w.ncls = 4) (hb : w.bin = bins4) (coupled : Bool) :
    Consistent (cwK X Y) 1 1 1 1 (clsK S) ⟨some w, true⟩ ⟨some w, true⟩ w w coupled where
  wspA := by rw [h]; simp [nmaps]
  wspB := by rw [h]; simp [nmaps]
  rows := by simp [nmaps, clsK]
  length := ⟨2, by simp [cwK], rfl, rfl, rfl, rfl⟩
  limit := by rw [hb]; exact ⟨le_rfl, le_rfl⟩
  spins := by simp [cwK]
  matrices := fun _ => ⟨rfl, rfl⟩
  small := by
    unfold covSize
    rw [h, hb]
    cases coupled <;> simp [cwK, bins4, Bins.nBands]

/-- Both kinds of covariances of the spectra of two fields with spin, turned by four angles. -/
example (minfo : MapInfo) (ω : Three) (X Y : CovXi ℝ) (S : ℕ → ℕ → ℕ → ℝ) (jk jk' : CovJunk ℝ) (t1 t2 t3 t4 : ℝ) :
    ∃ w C C' D D', wspFromFields racah envK minfo (fieldK 1 ω) (fieldK 1 ω) true bins4 wargs4 = .ok w ∧
    gaussianCovariance (exactLinAlg ℝ) jk (some (cwK X Y)) 1 1 1 1 (clsK S) ⟨some w, true⟩ (some ⟨some w, true⟩) true = .ok C ∧
    gaussianCovariance (exactLinAlg ℝ) jk' (some (cwK X Y)) 1 1 1 1 ((clsK S).turn 2 2 2 2 t1 t2 t3 t4) ⟨some w, true⟩ (some ⟨some w, true⟩) true = .ok C' ∧
    gaussianCovariance (exactLinAlg ℝ) jk (some (cwK X Y)) 1 1 1 1 (clsK S) ⟨some w, true⟩ (some ⟨some w, true⟩) false = .ok D ∧
    gaussianCovariance (exactLinAlg ℝ) jk' (some (cwK X Y)) 1 1 1 1 ((clsK S).turn 2 2 2 2 t1 t2 t3 t4) ⟨some w, true⟩ (some ⟨some w, true⟩) false = .ok D' ∧
    ∀ x < 4, ∀ y < 4, C'.val (4 + x) (4 + y) = turnRow 2 2 t1 t2 (fun x => turnRow 2 2 t3 t4 (fun y => C.val (4 + x) (4 + y)) y) x ∧
      D'.val x y = turnRow 2 2 t1 t2 (fun x => turnRow 2 2 t3 t4 (fun y => D.val x y) y) x := by
  obtain ⟨w, hw⟩ := wspK_made minfo ω
  obtain ⟨h, hb⟩ := wspK_shape minfo ω hw
  have hr := wspK_regular minfo ω w hw
  have hB : Bounded w.bin w.bin.ellMax := by rw [hb]; simp [Bounded, bins4]
  have hN : BinSpec.NoRepeats w.bin := by rw [hb]; simp [BinSpec.NoRepeats, bins4]
  have hf : nmtField envK (callK ω) = .ok (fieldK 1 ω) := (madeK 1).choose_spec ω
  have hn : (fieldK 1 ω).nmaps = 2 := by
    obtain ⟨-, -, -, -, -, -, -, -, p9, -⟩ := (fieldsK (s := 1) le_rfl).facts ω
    exact p9
  obtain ⟨C, hC⟩ := (C29_accepts_iff (L := exactLinAlg ℝ) (jk := jk) rfl rfl hB hB).2 (consistentK X Y S h hb true)
  obtain ⟨D, hD⟩ := (C29_accepts_iff (L := exactLinAlg ℝ) (jk := jk) rfl rfl hB hB).2 (consistentK X Y S h hb false)
  obtain ⟨C', hC', -, -, vC⟩ := C103_coupled (jk' := jk') (n1 := 2) (n2 := 2) (n3 := 2) (n4 := 2) rfl rfl hB hB hN hN t1 t2 t3 t4 rfl rfl rfl rfl hC
  obtain ⟨D', hD', -, -, vD⟩ := C103_decoupled (jk' := jk') (n1 := 2) (n2 := 2) (n3 := 2) (n4 := 2) (evenK ω) (evenK ω) (evenK ω) (evenK ω) hf hf hf hf hw hw
    exactLinAlg_correct hr hr rfl rfl hB hB t1 t2 t3 t4 rfl rfl rfl rfl hn hn hn hn hD
  refine ⟨w, C, C', D, D', hw, hC, hC', hD, hD', fun x hx y hy => ⟨?_, ?_⟩⟩
  · have i : CovSpec.InBand w.bin 1 := by rw [hb]; exact ⟨⟨1, 1, 1⟩, by simp [bins4], rfl⟩
    exact vC 1 1 i i x hx y hy
  · have n : 0 < w.bin.nBands := by rw [hb]; simp [bins4, Bins.nBands]
    have := vD 0 n 0 n x hx y hy
    simpa using this

end AngleExample

end NaMaster
