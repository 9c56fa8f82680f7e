import Verif.Units.Covar
import Verif.Sky.TemplExample
import Verif.Covar.InitProps

/-! # Cases for C91

The fields of `Sky/TemplExample.lean`: four pixels, a contaminant, its template, and a beam. -/

namespace NaMaster

open Finset SkySpec CovSpec

namespace SkyExample

theorem homogeneous4 : env4.sht.Homogeneous where
  anal s l c m := by
    obtain ⟨A, B, Z, h1, -, -⟩ := linear4 s l
    change tetra.m2a s l (c • m) = c • tetra.m2a s l m
    rw [h1, map_smul]
  synth s l c a := by
    obtain ⟨A, B, Z, -, h2, -⟩ := linear4 s l
    change tetra.a2m s l (c • a) = c • tetra.a2m s l a
    rw [h2, map_smul]
  pad _ _ := rfl
  unpad _ _ := rfl

theorem plainT (ω : Fin 4) : PlainCall (argsT.withMaps 1 4 (dirty4 ω)) := ⟨rfl, rfl, rfl, by norm_num [argsT, args4, FieldArgs.withMaps]⟩

theorem madeT (ω : Fin 4) : nmtField env4 (argsT.withMaps 1 4 (dirty4 ω)) = .ok (fieldF ω) := madeF.choose_spec ω

theorem wspT (minfo : MapInfo) : ∃ w, wspFromFields racah env4 minfo (fieldF 0) (fieldF 0) true bins4 wargs4 = .ok w ∧ Regular w.nBinned w.binned := by
  obtain ⟨w, hw⟩ := wspG minfo
  obtain ⟨q1, q2, q3⟩ := binnedG minfo w hw
  exact ⟨w, by rw [wsp_clean contaminated4 contaminated4]; exact hw, regularG q1 q2 q3⟩

/-- The hypotheses of `C91_bandpowers` are met by a mask of 1/2, and of 7/2, for maps with a contaminant and one template. -/
example (minfo : MapInfo) : ∃ g, nmtField env4 ((argsT.withMaps 1 4 (dirty4 0)).rescale 7) = .ok g ∧
    fullMaster (exactLinAlg ℝ) env4 0 minfo g g true true (wspFromFields racah env4 minfo g g true bins4 wargs4) none none (some guessT) =
      fullMaster (exactLinAlg ℝ) env4 0 minfo (fieldF 0) (fieldF 0) true true
        (wspFromFields racah env4 minfo (fieldF 0) (fieldF 0) true bins4 wargs4) none none (some guessT) := by
  obtain ⟨w, hw, hr⟩ := wspT minfo
  obtain ⟨g1, g2, h1, h2, h⟩ := C91_bandpowers racah (exactLinAlg ℝ) exactLinAlg_correct (env := env4) exactEigen_correct homogeneous4 minfo (plainT 0) (plainT 0)
    (c1 := 7) (c2 := 7) (by norm_num) (by norm_num) (madeT 0) (madeT 0) true (fun _ => rfl) bins4 wargs4
    (fun w' hw' => by rw [hw] at hw'; rw [← Outcome.ok.inj hw']; exact hr) 0 none (some guessT)
  rw [h1] at h2
  rw [← Outcome.ok.inj h2] at h
  exact ⟨g1, h1, h⟩

theorem unbinnedT {minfo : MapInfo} {w : Wsp ℝ} (hw : wspFromFields racah env4 minfo (fieldF 0) (fieldF 0) true bins4 wargs4 = .ok w) :
    ∃ U, w.unbinned = some U := by
  obtain ⟨p1, p2, p3, p4, -⟩ := contaminated4.clean.facts 0
  rw [wsp_clean contaminated4 contaminated4] at hw
  obtain ⟨-, n, -, hc⟩ := wsp_iso p4 p4 hw
  obtain ⟨-, -, -, p, U0, hbuild⟩ := comp_parts hc
  rw [hbuild]
  exact ⟨_, rfl⟩

/-- The hypotheses of `C91_windows` are met. -/
example (minfo : MapInfo) : ∃ (w w' : Wsp ℝ) (U U' : ℕ → ℕ → ℝ), w.unbinned = some U ∧ w'.unbinned = some U' ∧
    bandpowerWindows (exactLinAlg ℝ) w' U' 0 0 0 1 = bandpowerWindows (exactLinAlg ℝ) w U 0 0 0 1 := by
  obtain ⟨w, hw, hr⟩ := wspT minfo
  obtain ⟨U, hU⟩ := unbinnedT hw
  obtain ⟨q1, q2, -⟩ := binnedG minfo w (by rw [← wsp_clean contaminated4 contaminated4]; exact hw)
  obtain ⟨-, -, w', U', -, -, -, hU', -, -, -, h⟩ := C91_windows racah (exactLinAlg ℝ) exactLinAlg_correct (env := env4) exactEigen_correct homogeneous4 minfo
    (plainT 0) (plainT 0) (c1 := 7) (c2 := 7) (by norm_num) (by norm_num) (madeT 0) (madeT 0) true (fun _ => rfl) bins4 wargs4 w hw hr U hU
  have hl : w.lmax = 1 := by
    obtain ⟨p1, p2, p3, p4, -⟩ := contaminated4.clean.facts 0
    rw [wsp_clean contaminated4 contaminated4] at hw
    obtain ⟨-, n, -, hc⟩ := wsp_iso p4 p4 hw
    obtain ⟨-, -, -, p, U0, hbuild⟩ := comp_parts hc
    rw [hbuild]
    rfl
  exact ⟨w, w', U, U', hU, hU', h 0 0 0 1 (by omega) (by rw [q2]; simp [bins4, Bins.nBands]) (by omega) (by omega)⟩

theorem covT (minfo : MapInfo) (junk : ℕ → ℝ) : ∃ cw,
    covCompute racah (fun _ => env4.sht) junk none ((fieldF 0).covField minfo) ((fieldF 0).covField minfo) (some ((fieldF 0).covField minfo))
      (some ((fieldF 0).covField minfo)) 0 0 0 false = (some cw, .ok ()) := by
  have ha : ((fieldF 0).covField minfo).aniso = false := by
    unfold FieldObj.covField
    simp [field_iso (plainT 0).iso22 (plainT 0).iso12 (madeT 0)]
  have hs2 : SameSky ((fieldF 0).covField minfo) ((fieldF 0).covField minfo) := ⟨minfoNe_self _, rfl, rfl⟩
  have hacc : Accepts ((fieldF 0).covField minfo) ((fieldF 0).covField minfo) ((fieldF 0).covField minfo) ((fieldF 0).covField minfo) 0 0 0 :=
    ⟨⟨ha, ha, ha, ha⟩, ⟨hs2, hs2, hs2⟩, Or.inl (le_refl _)⟩
  have hc := covCompute_accepts racah (fun _ => env4.sht) junk none _ _ _ _ 0 0 0 false hacc
  have hf := (isClean 0).1
  have g : ¬ ((fieldF 0).covField minfo).geom.lmaxMask < ((fieldF 0).covField minfo).geom.lmax := by
    change ¬ (fieldF 0).lmaxMask < (fieldF 0).lmax
    rw [hf.lmax, hf.lmaxMask]
    exact lt_irrefl _
  rw [covCompute_masks racah (fun _ => env4.sht) junk _ _ _ _ 0 0 0 false rfl rfl rfl rfl, if_neg g] at hc
  exact ⟨_, hc⟩

/-- The hypotheses of `C91_covariance` are met. -/
example (minfo : MapInfo) (junk : ℕ → ℝ) (jk : CovJunk ℝ) (s : CovCls ℝ) : ∃ (w w' : Wsp ℝ) (cw cw' : CovWsp ℝ),
    gaussianCovariance (exactLinAlg ℝ) jk (some cw') 0 0 0 0 s ⟨some w', true⟩ (some ⟨some w', true⟩) false =
      gaussianCovariance (exactLinAlg ℝ) jk (some cw) 0 0 0 0 s ⟨some w, true⟩ (some ⟨some w, true⟩) false := by
  obtain ⟨w, hw, hr⟩ := wspT minfo
  obtain ⟨cw, hcw⟩ := covT minfo junk
  obtain ⟨f1, f2, g1, g2, wa, wb, cw', e1, e2, e3, e4, e5, e6, -, h⟩ := C91_covariance racah exactLinAlg_correct (env := env4) exactEigen_correct homogeneous4
    (minfo := minfo) (S := fun _ => env4.sht) rfl (plainT 0) (plainT 0) (plainT 0) (plainT 0) (madeT 0) (madeT 0) (madeT 0) (madeT 0) (c1 := 7) (c2 := 7) (d1 := 7)
    (d2 := 7) (by norm_num) (by norm_num) (by norm_num) (by norm_num) true true (fun _ => rfl) (fun _ => rfl) bins4 bins4 wargs4 wargs4 w w hw hw hr hr junk
    0 0 0 false cw hcw
  rw [e1] at e3
  rw [e2] at e4
  rw [← Outcome.ok.inj e3, ← Outcome.ok.inj e4, e5] at e6
  exact ⟨w, wa, cw, cw', h jk 0 0 0 0 s _ _ _ _ rfl rfl rfl (by rw [Outcome.ok.inj e6])⟩

end SkyExample

end NaMaster
