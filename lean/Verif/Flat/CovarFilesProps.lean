import Verif.Flat.FilesProps
import Verif.Covar.FilesProps
import Verif.Flat.CovarExample

/-! # C74: files of flat covariance workspaces, and files of another kind -/

namespace NaMaster

open Real Finset FileSpec

theorem covInitFlat_out {a1 a2 : FlatField} {ba : FlatBins ℝ} {b1 b2 : Option FlatField} {bb : Option (FlatBins ℝ)} {cw : CovWspFlat}
    (h : covInitFlat a1 a2 ba b1 b2 bb = .ok cw) :
    ∃ fs rows c1 c2, cw = ⟨ba, covXiFlat fs ba.nBands rows c1, covXiFlat fs ba.nBands rows c2⟩ := by
  unfold covInitFlat covInitFlatC at h
  dsimp only at h
  split_ifs at h
  obtain ⟨rows, -, h⟩ := bind_out h
  split_ifs at h
  cases h
  exact ⟨_, _, _, _, rfl⟩

theorem readCovarFlat_eq (j : FlatFileJunk) {f : FitsFile ℝ} {h0 : Hdu ℝ} {b : FlatBins ℝ} (hf : f.head? ≠ none)
    (hp : f.img "CWSP_PRIMARY" = some h0) (hb : f.tbl "BINS_SUMMARY" = some (flatBinsHdu b)) :
    readCovarFlat j f = 
      ((coeffImg ⟨j.int, j.dbl⟩ f b.nBands "XI00_1122").bind fun a00 =>
      (coeffImg ⟨j.int, j.dbl⟩ f b.nBands "XI00_1221").bind fun b00 =>
      (coeffImg ⟨j.int, j.dbl⟩ f b.nBands "XI02_1122").bind fun a02 =>
      (coeffImg ⟨j.int, j.dbl⟩ f b.nBands "XI02_1221").bind fun b02 =>
      (coeffImg ⟨j.int, j.dbl⟩ f b.nBands "XI22P_1122").bind fun ap =>
      (coeffImg ⟨j.int, j.dbl⟩ f b.nBands "XI22P_1221").bind fun bp =>
      (coeffImg ⟨j.int, j.dbl⟩ f b.nBands "XI22M_1122").bind fun am =>
      (coeffImg ⟨j.int, j.dbl⟩ f b.nBands "XI22M_1221").bind fun bm =>
      .ok ⟨⟨b.nBands, tab b.nBands b.ell0, tab b.nBands b.ellf⟩, ⟨a00, a02, ap, am⟩, ⟨b00, b02, bp, bm⟩⟩) := by
  have hc : ∀ s : Rd ℝ, s.status = 0 → checkFits s = .ok () := fun s h => by simp [checkFits, h]
  have ho : (fitsOpen f).status = 0 := by
    cases f with
    | nil => simp at hf
    | cons a t => simp [fitsOpen]
  unfold readCovarFlat
  dsimp only
  rw [hc _ ho]
  simp only [Outcome.bind]
  rw [movnam_found _ ho hp, flatBins_read rfl hb, hc _ rfl]
  simp only
  refine chain_step _ _ _ _ _ rfl _ _ fun a00 s h => ?_
  refine chain_step _ _ _ _ _ h _ _ fun b00 s h => ?_
  refine chain_step _ _ _ _ _ h _ _ fun a02 s h => ?_
  refine chain_step _ _ _ _ _ h _ _ fun b02 s h => ?_
  refine chain_step _ _ _ _ _ h _ _ fun ap s h => ?_
  refine chain_step _ _ _ _ _ h _ _ fun bp s h => ?_
  refine chain_step _ _ _ _ _ h _ _ fun am s h => ?_
  exact chain_step _ _ _ _ _ h _ _ fun bm s h => rfl

theorem readCovarFlat_written (j : FlatFileJunk) (cw : CovWspFlat) :
    readCovarFlat j (covFlatHdus cw) = .ok ⟨⟨cw.bin.nBands, tab cw.bin.nBands cw.bin.ell0, tab cw.bin.nBands cw.bin.ellf⟩,
      ⟨tab2 cw.bin.nBands cw.bin.nBands cw.x1122.xi00, tab2 cw.bin.nBands cw.bin.nBands cw.x1122.xi02,
        tab2 cw.bin.nBands cw.bin.nBands cw.x1122.xi22p, tab2 cw.bin.nBands cw.bin.nBands cw.x1122.xi22m⟩,
      ⟨tab2 cw.bin.nBands cw.bin.nBands cw.x1221.xi00, tab2 cw.bin.nBands cw.bin.nBands cw.x1221.xi02,
        tab2 cw.bin.nBands cw.bin.nBands cw.x1221.xi22p, tab2 cw.bin.nBands cw.bin.nBands cw.x1221.xi22m⟩⟩ := by
  have img : ∀ name c, (covFlatHdus cw).img name = some (coeffHdu cw.bin.nBands c name) →
      coeffImg ⟨j.int, j.dbl⟩ (covFlatHdus cw) cw.bin.nBands name = .ok (tab2 cw.bin.nBands cw.bin.nBands c) := by
    intro name c h
    unfold coeffImg
    rw [h]
    exact coeffVal_coeffHdu _ _ _ _
  rw [readCovarFlat_eq j (h0 := flatCovPrimary) (b := cw.bin) (by simp [covFlatHdus]) rfl rfl]
  rw [img "XI00_1122" _ rfl, img "XI00_1221" _ rfl, img "XI02_1122" _ rfl, img "XI02_1221" _ rfl, img "XI22P_1122" _ rfl,
    img "XI22P_1221" _ rfl, img "XI22M_1122" _ rfl, img "XI22M_1221" _ rfl]
  rfl

theorem binSpectra_tab (b : FlatBins ℝ) (larr : List ℝ) (s : Arr2 ℝ) :
    binSpectraFlat ⟨b.nBands, tab b.nBands b.ell0, tab b.nBands b.ellf⟩ larr s = binSpectraFlat b larr s := by
  unfold binSpectraFlat
  simp only
  congr 2
  refine List.map_congr_left fun i _ => ?_
  congr 1
  refine List.map_congr_left fun ib hib => ?_
  rw [List.mem_range] at hib
  unfold binRowFlat
  simp only
  rw [tab_of_lt _ hib, tab_of_lt _ hib]

/-- A covariance workspace that was computed, written to a file and read from it gives the same covariances as before and is written again
as the same file. -/
theorem C74_roundtrip (a1 a2 : FlatField) (ba : FlatBins ℝ) (b1 b2 : Option FlatField) (bb : Option (FlatBins ℝ)) {cw : CovWspFlat}
    (h : covInitFlat a1 a2 ba b1 b2 bb = .ok cw) :
    ∃ f, CovFlatObj.writeTo (some cw) = .ok f ∧ ∀ j old, ∃ cw', CovFlatObj.readFrom j (some f) old = (some cw', .ok ()) ∧
      (∀ L jk sa sb sc sd larr s wa wb, gaussianCovarianceFlat L jk (some cw') sa sb sc sd larr s wa wb =
        gaussianCovarianceFlat L jk (some cw) sa sb sc sd larr s wa wb) ∧
      CovFlatObj.writeTo (some cw') = .ok f := by
  obtain ⟨fs, rows, c1, c2, rfl⟩ := covInitFlat_out h
  refine ⟨_, rfl, fun j old => ⟨⟨⟨ba.nBands, tab ba.nBands ba.ell0, tab ba.nBands ba.ellf⟩, covXiFlat fs ba.nBands rows c1,
    covXiFlat fs ba.nBands rows c2⟩, ?_, ?_, ?_⟩⟩
  · unfold CovFlatObj.readFrom
    simp only
    rw [readCovarFlat_written]
    simp only [covXiFlat, tab2_tab2]
  · intro L jk sa sb sc sd larr s wa wb
    have e : ∀ a b, covFlatC L jk ⟨⟨ba.nBands, tab ba.nBands ba.ell0, tab ba.nBands ba.ellf⟩, covXiFlat fs ba.nBands rows c1,
        covXiFlat fs ba.nBands rows c2⟩ sa sb sc sd a b larr s =
        covFlatC L jk ⟨ba, covXiFlat fs ba.nBands rows c1, covXiFlat fs ba.nBands rows c2⟩ sa sb sc sd a b larr s := by
      intro a b
      unfold covFlatC
      simp only [binSpectra_tab]
      rfl
    unfold gaussianCovarianceFlat
    simp only [e]
  · unfold CovFlatObj.writeTo covFlatHdus
    simp only [flatBinsHdu]
    simp only [Outcome.ok.injEq, List.cons.injEq, and_true, true_and, Hdu.mk.injEq]
    funext c
    by_cases h : c = 1
    · simp only [if_pos h, tab_tab]
    · simp only [if_neg h, tab_tab]

/-- An object without a workspace refuses to be written, with a `ValueError`; `NmtWorkspaceFlat` does so with a `RuntimeError`. -/
theorem C74_empty (k : KeyFormat) (F : Factor ℝ) :
    CovFlatObj.writeTo none = .raises .value ∧ FlatObj.writeTo k F none = .raises .runtime := ⟨rfl, rfl⟩

theorem coeffChecked_found {j : CovFileJunk ℝ} {f : FitsFile ℝ} {n : ℤ} {name : String} {s : Rd ℝ} {x : (ℕ → ℕ → ℝ) × Rd ℝ}
    (hs : s.status = 0) (h : coeffChecked j f n name s = .ok x) :
    x.2.status = 0 ∧ ∃ u ∈ f, u.name = name ∧ u.complete = true := by
  obtain ⟨s', h1, h2⟩ := coeffChecked_eq j f n name s hs
  rw [h2] at h
  obtain ⟨m, hm, hx⟩ := bind_out h
  cases hx
  refine ⟨h1, ?_⟩
  unfold coeffImg at hm
  cases hf : f.img name with
  | none => rw [hf] at hm; cases hm
  | some u =>
    rw [hf] at hm
    unfold FitsFile.img at hf
    have hmem := List.mem_of_find?_eq_some hf
    have hn := List.find?_some hf
    simp only [Bool.and_eq_true, beq_iff_eq] at hn
    refine ⟨u, hmem, hn.2, ?_⟩
    by_contra hc
    rw [Bool.not_eq_true] at hc
    unfold coeffVal at hm
    simp only [hc] at hm
    split_ifs at hm <;> simp_all

theorem readCovarFlat_found {j : FlatFileJunk} {f : FitsFile ℝ} {cw : CovWspFlat} (h : readCovarFlat j f = .ok cw) :
    (∃ u ∈ f, u.isTable = false ∧ u.name = "CWSP_PRIMARY") ∧ (∃ u ∈ f, u.isTable = true ∧ u.name = "BINS_SUMMARY" ∧ u.complete = true) ∧
      ∃ u ∈ f, u.name = "XI22M_1221" ∧ u.complete = true := by
  unfold readCovarFlat at h
  dsimp only at h
  obtain ⟨_, h0, h⟩ := bind_out h
  obtain ⟨_, hc, h⟩ := bind_out h
  have hs := checkFits_ok hc
  obtain ⟨h1, h2⟩ := flatBins_found hs
  obtain ⟨⟨_, s1⟩, e, h⟩ := bind_out h
  have e1 := (coeffChecked_found hs e).1
  dsimp only at h e1
  obtain ⟨⟨_, s2⟩, e, h⟩ := bind_out h
  have e2 := (coeffChecked_found e1 e).1
  dsimp only at h e2
  obtain ⟨⟨_, s3⟩, e, h⟩ := bind_out h
  have e3 := (coeffChecked_found e2 e).1
  dsimp only at h e3
  obtain ⟨⟨_, s4⟩, e, h⟩ := bind_out h
  have e4 := (coeffChecked_found e3 e).1
  dsimp only at h e4
  obtain ⟨⟨_, s5⟩, e, h⟩ := bind_out h
  have e5 := (coeffChecked_found e4 e).1
  dsimp only at h e5
  obtain ⟨⟨_, s6⟩, e, h⟩ := bind_out h
  have e6 := (coeffChecked_found e5 e).1
  dsimp only at h e6
  obtain ⟨⟨_, s7⟩, e, h⟩ := bind_out h
  have e7 := (coeffChecked_found e6 e).1
  dsimp only at h e7
  obtain ⟨⟨_, s8⟩, e, h⟩ := bind_out h
  refine ⟨?_, h2, (coeffChecked_found e7 e).2⟩
  cases hf : f.find? (fun h => h.isTable == false && h.name == "CWSP_PRIMARY") with
  | none => rw [movnam_missing _ (checkFits_ok h0) hf] at h1; cases h1
  | some u =>
    have hmem := List.mem_of_find?_eq_some hf
    have hn := List.find?_some hf
    simp only [Bool.and_eq_true, beq_iff_eq] at hn
    exact ⟨u, hmem, hn⟩

theorem readFrom_cov {j : FlatFileJunk} {f : FitsFile ℝ} {o : Option CovWspFlat} {cw : CovWspFlat}
    (h : CovFlatObj.readFrom j (some f) o = (some cw, .ok ())) : readCovarFlat j f = .ok cw := by
  unfold CovFlatObj.readFrom at h
  simp only at h
  cases hr : readCovarFlat j f with
  | ok w => rw [hr] at h; simp only [Prod.mk.injEq, Option.some.injEq, and_true] at h; rw [h]
  | raises e => rw [hr] at h; simp at h
  | crash => rw [hr] at h; simp at h

/-- If writing a covariance workspace was interrupted, what is left under the file name is never read as one, unless it is the complete
file or the previous one. -/
theorem C74_interrupted (cw : CovWspFlat) {f : FitsFile ℝ} (hf : CovFlatObj.writeTo (some cw) = .ok f)
    (old : Option (FitsFile ℝ)) (d : FitsFile ℝ) (hd : Interrupted old f (some d)) (j : FlatFileJunk) (o : Option CovWspFlat)
    {cw' : CovWspFlat} (h : CovFlatObj.readFrom j (some d) o = (some cw', .ok ())) : d = f ∨ old = some d := by
  cases hf
  obtain ⟨-, -, u, hm, hn, hc⟩ := readCovarFlat_found (readFrom_cov h)
  refine interrupted_last hd (name := "XI22M_1221") ?_ hm hn hc
  intro k' hk' h' hh'
  have : h' ∈ (covFlatHdus cw).take 9 := List.take_subset_take_left _ (by simp [covFlatHdus] at hk'; omega) hh'
  simp only [covFlatHdus, List.take_succ_cons, List.take_zero, List.mem_cons, List.not_mem_nil, or_false] at this
  rcases this with rfl | rfl | rfl | rfl | rfl | rfl | rfl | rfl | rfl <;> simp [flatCovPrimary, flatBinsHdu, coeffHdu]

/-! ## Files of another kind -/

/-- The curved-sky reader of workspaces refuses a file the image `WSP_PRIMARY` of which is missing or has no keyword `LMAX_FIELDS`. -/
theorem readWorkspace_foreign (F : Factor ℝ) (j : Junk ℝ (Bins ℝ)) (f : FitsFile ℝ) (unb : Bool)
    (h : ∀ u, f.img "WSP_PRIMARY" = some u → u.keys.lookup "LMAX_FIELDS" = none) : readWorkspace F j f unb = .raises .runtime := by
  unfold readWorkspace
  by_cases ho : (fitsOpen f).status = 0
  swap
  · simp [checkFits, ho, Outcome.bind]
  have := info_fails j f unb (fitsOpen f) ho (by
    rintro ⟨u, lmax, lf, lm, teb, ncls, h1, h2, -⟩
    have := h u h1
    rw [h2.lf] at this
    cases this)
  simp only [checkFits, ho, ne_eq, not_true_eq_false, if_false, Outcome.bind]
  rw [if_pos this]

/-- The flat-sky reader of workspaces refuses a file the image `WSP_PRIMARY` of which is missing or has no keyword `ELLCUT_X_I`. -/
theorem readWspFlat_foreign (F : Factor ℝ) (j : FlatFileJunk) (f : FitsFile ℝ)
    (h : ∀ u, f.img "WSP_PRIMARY" = some u → u.dkeys.lookup "ELLCUT_X_I" = none) : readWspFlat F j f = .raises .runtime := by
  unfold readWspFlat
  by_cases ho : (fitsOpen f).status = 0
  swap
  · simp [checkFits, ho, Outcome.bind]
  have key : (flatInfoFromHdus j f (fitsOpen f)).2.status ≠ 0 := by
    have h3 : (readKeyD "ELLCUT_X_I" (j.key "ELLCUT_X_I") (readKeyD "LMAX" (j.key "LMAX") (movnam f false "WSP_PRIMARY" (fitsOpen f))).2).2.status ≠ 0 := by
      cases hf : f.img "WSP_PRIMARY" with
      | none =>
        rw [movnam_missing _ ho hf]
        simp [readKeyD]
      | some u =>
        rw [movnam_found _ ho hf]
        have hu := h u hf
        have := readKeyD_at (h := u) (s := ⟨some u, 0⟩) (Or.inr rfl) "LMAX" (j.key "LMAX")
        rcases this with h1 | h1
        · unfold readKeyD at h1 ⊢
          rw [if_pos h1]
          exact h1
        · rw [h1]
          simp [readKeyD, hu]
    revert h3
    unfold flatInfoFromHdus
    dsimp only
    generalize (readKeyD "ELLCUT_X_I" (j.key "ELLCUT_X_I") _) = r3
    intro h3
    have eD : ∀ (key : String) (x : ℝ) (s : Rd ℝ), s.status ≠ 0 → (readKeyD key x s).2.status ≠ 0 := by
      intro key x s hs
      unfold readKeyD
      rw [if_pos hs]
      exact hs
    have eI : ∀ (key : String) (x : ℤ) (s : Rd ℝ), s.status ≠ 0 → (readKey key x s).2.status ≠ 0 := by
      intro key x s hs
      unfold readKey
      rw [if_pos hs]
      exact hs
    have h4 := eD "ELLCUT_X_F" (j.key "ELLCUT_X_F") _ h3
    have h5 := eD "ELLCUT_Y_I" (j.key "ELLCUT_Y_I") _ h4
    have h6 := eD "ELLCUT_Y_F" (j.key "ELLCUT_Y_F") _ h5
    have h7 := eI "PURE_E1" (j.int "PURE_E1") _ h6
    have h8 := eI "PURE_E2" (j.int "PURE_E2") _ h7
    have h9 := eI "PURE_B1" (j.int "PURE_B1") _ h8
    have h10 := eI "PURE_B2" (j.int "PURE_B2") _ h9
    have h11 := eI "IS_TEB" (j.int "IS_TEB") _ h10
    have h12 := eI "NCLS" (j.int "NCLS") _ h11
    clear h4 h5 h6 h7 h8 h9 h10 h11
    revert h12
    generalize (readKey "NCLS" (j.int "NCLS") _).2 = s12
    intro h12
    have : (imgSize2 (j.int "NAXIS1") (j.int "NAXIS2") s12) = (j.int "NAXIS1", j.int "NAXIS2", s12) := by
      unfold imgSize2; rw [if_pos h12]
    rw [this]
    dsimp only
    rw [readRows_err _ _ _ _ h12]
    exact h12
  simp only [checkFits, ho, ne_eq, not_true_eq_false, if_false, Outcome.bind]
  rw [if_pos key]

/-- Each of the four kinds of files (workspaces and covariance workspaces, curved and flat) is refused by the readers of the other three
kinds with a `RuntimeError`. -/
theorem C74_other_kinds (F F' : Factor ℝ) (k : KeyFormat) (w : Wsp ℝ) (U : ℕ → ℕ → ℝ) (wf : WspFlat) (c : CovWsp ℝ) (cf : CovWspFlat) 
    (j : Junk ℝ (Bins ℝ)) (jf : FlatFileJunk) (jc : CovFileJunk ℝ) (unb force : Bool) :
    (∀ f ∈ [wspFlatHdus k F wf, covarHdus c, covFlatHdus cf], readWorkspace F' j f unb = .raises .runtime) ∧
    (∀ f ∈ [workspaceHdus F w U, covarHdus c, covFlatHdus cf], readWspFlat F' jf f = .raises .runtime) ∧
    (∀ f ∈ [workspaceHdus F w U, wspFlatHdus k F wf, covFlatHdus cf], readCovar jc f force = .raises .runtime) ∧
    (∀ f ∈ [workspaceHdus F w U, wspFlatHdus k F wf, covarHdus c], readCovarFlat jf f = .raises .runtime) := by
  have hcov : (covarHdus c).img "WSP_PRIMARY" = none := by
    cases hs : c.spin0Only <;> simp [covarHdus, FitsFile.img, covPrimary, coeffHdu, hs]
  have hcovf : (covFlatHdus cf).img "WSP_PRIMARY" = none := rfl
  have hflat : ∀ f : FitsFile ℝ, (∀ s : Rd ℝ, s.status = 0 → (flatBinsFromHdus jf f (movnam f false "CWSP_PRIMARY" s)).2.status ≠ 0) →
      readCovarFlat jf f = .raises .runtime := by
    intro f hf
    unfold readCovarFlat
    by_cases ho : (fitsOpen f).status = 0
    swap
    · simp [checkFits, ho, Outcome.bind]
    simp only [checkFits, ho, ne_eq, not_true_eq_false, if_false, Outcome.bind]
    rw [if_pos (hf _ ho)]
  have hmiss : ∀ f : FitsFile ℝ, f.img "CWSP_PRIMARY" = none → ∀ s : Rd ℝ, s.status = 0 →
      (flatBinsFromHdus jf f (movnam f false "CWSP_PRIMARY" s)).2.status ≠ 0 := by
    intro f hf s hs h
    have := (flatBins_found h).1
    rw [movnam_missing s hs hf] at this
    cases this
  refine ⟨?_, ?_, ?_, ?_⟩
  · intro f hf
    refine readWorkspace_foreign _ _ _ _ fun u hu => ?_
    simp only [List.mem_cons, List.not_mem_nil, or_false] at hf
    rcases hf with rfl | rfl | rfl
    · rw [show (wspFlatHdus k F wf).img "WSP_PRIMARY" = some (flatInfoHdu k wf) from rfl] at hu
      cases hu
      rfl
    · rw [hcov] at hu; cases hu
    · rw [hcovf] at hu; cases hu
  · intro f hf
    refine readWspFlat_foreign _ _ _ fun u hu => ?_
    simp only [List.mem_cons, List.not_mem_nil, or_false] at hf
    rcases hf with rfl | rfl | rfl
    · rw [show (workspaceHdus F w U).img "WSP_PRIMARY" = some (infoHdu w U) from rfl] at hu
      cases hu
      rfl
    · rw [hcov] at hu; cases hu
    · rw [hcovf] at hu; cases hu
  · intro f hf
    rw [readCovar_eq]
    simp only [List.mem_cons, List.not_mem_nil, or_false] at hf
    rcases hf with rfl | rfl | rfl <;> rfl
  · intro f hf
    refine hflat f fun s hs => ?_
    simp only [List.mem_cons, List.not_mem_nil, or_false] at hf
    rcases hf with rfl | rfl | rfl
    · exact hmiss _ rfl s hs
    · exact hmiss _ rfl s hs
    · intro h
      obtain ⟨-, u, hu, ht, -⟩ := flatBins_found h
      have : ∀ u ∈ covarHdus c, u.isTable = false := by
        cases hs : c.spin0Only <;> simp [covarHdus, covPrimary, coeffHdu, hs]
      rw [this u hu] at ht
      cases ht

open CovFlatExample in
/-- Some workspace is computed, so `C74_roundtrip` applies. -/
example : ∃ a1 a2 ba cw f, covInitFlat a1 a2 ba (some a1) (some a2) (some ba) = .ok cw ∧ 0 < cw.bin.nBands ∧
    CovFlatObj.writeTo (some cw) = .ok f ∧ f.length = 10 := by
  obtain ⟨cw, hcw, hbin, -, -⟩ := covInitFlat_eq (field fun _ => 1) (field fun _ => 1)
    (field fun _ => 1) (field fun _ => 1) rfl rfl rfl bBoth
    (oneBand_gapless (by norm_num)) (by simp [bBoth, oneBand]) (some bBoth) rfl small
  obtain ⟨f, hf, -⟩ := C74_roundtrip _ _ _ _ _ _ hcw
  refine ⟨_, _, _, cw, f, hcw, by rw [hbin]; simp [bBoth, oneBand], hf, ?_⟩
  cases hf
  rfl

end NaMaster
