import Verif.Sky.CatalogLemmas

/-! # Spectra of catalogs are unbiased: C82 -/

namespace NaMaster

open Finset MeasureTheory WignerSpec SkySpec CouplingSpec

/-- The beam of a catalog at multipole `l`. -/
noncomputable def CatArgs.beamAt (a : CatArgs) (l : ℕ) : ℝ := (a.beam.map fun b => b.2 l).getD 1

/-- The same catalog with given values. -/
def CatArgs.withValues (a : CatArgs) (n : ℕ) (v : MapStack) : CatArgs := { a with field := some ⟨n, a.nsrc, v⟩ }

/-- Catalogs of one survey for every outcome: the same sources, weights and arguments `a`, and values that are those of the sky with
coefficients `F` at the positions of the sources plus noise. -/
structure CatalogsOf {Ω : Type*} (H : Harm (ℝ × ℝ)) (Y : ℤ → ℕ → ℤ → ℝ × ℝ → ℂ) (a : CatArgs) (s lmax lmaxMask : ℕ)
    (F : Ω → ℕ → ℕ → ℤ → ℂ) (noise : Ω → ℕ → ℕ → ℝ) (v : Ω → MapStack) (f : Ω → CatObj) : Prop where
  harmonics : Spherical Y s
  transform : UsesHarmonics H Y s
  spin : a.spin.getD (if ncomp s = 1 then 0 else 2) = s
  bandLimit : a.lmax = lmax
  maskBandLimit : a.lmaxMask.getD a.lmax = lmaxMask
  skyReal : ∀ ω, ∀ c < ncomp s, RealCoefs (F ω c)
  values : ∀ ω, ∀ c < ncomp s, ∀ i < a.nsrc, (if a.weighted then v ω c i else v ω c i * a.weights i) =
    a.weights i * (skyAt Y s lmax (F ω) (a.at i) c + noise ω c i)
  made : ∀ ω, nmtFieldCatalog H (a.withValues (ncomp s) (v ω)) = .ok (f ω)

theorem catalog_attributes (H : Harm (ℝ × ℝ)) (a : CatArgs) (f : CatObj) (h : nmtFieldCatalog H a = .ok f) (fl : StackArg) (hfl : a.field = some fl) :
    f.lmax = a.lmax ∧ f.lmaxMask = a.lmaxMask.getD a.lmax ∧ f.spin = a.spin.getD (if fl.ncomp = 1 then 0 else 2) ∧
      f.beam = a.beam.getD (a.lmax + 1, fun _ => 1) ∧ ¬ (a.beam.any fun b => decide (b.1 ≤ a.lmax)) = true := by
  unfold nmtFieldCatalog at h
  rw [hfl] at h
  by_cases h1 : positionsOk a.rows a.cols a.nsrc a.pos
  · simp only [h1, not_true_eq_false, if_false] at h
    by_cases h2 : (a.beam.any fun b => decide (b.1 ≤ a.lmax)) = true
    · rw [if_pos h2] at h; cases h
    · rw [if_neg h2] at h
      by_cases h3 : fl.ncomp ≠ (if a.spin.getD (if fl.ncomp = 1 then 0 else 2) = 0 then 1 else 2) ∨ fl.npix ≠ a.nsrc
      · rw [if_pos h3] at h; cases h
      · rw [if_neg h3] at h
        simp only [Outcome.ok.injEq] at h
        subst h; exact ⟨rfl, rfl, rfl, rfl, h2⟩
  · simp only [h1, not_false_eq_true, if_true] at h; cases h

section

variable {Ω : Type*} {H : Harm (ℝ × ℝ)} {Y : ℤ → ℕ → ℤ → ℝ × ℝ → ℂ} {a : CatArgs} {s lmax lmaxMask : ℕ}
    {F : Ω → ℕ → ℕ → ℤ → ℂ} {noise : Ω → ℕ → ℕ → ℝ} {v : Ω → MapStack} {f : Ω → CatObj}

/-- The attributes of the objects. -/
theorem CatalogsOf.facts (h : CatalogsOf H Y a s lmax lmaxMask F noise v f) (ω : Ω) :
    (f ω).lmax = lmax ∧ (f ω).lmaxMask = lmaxMask ∧ (f ω).spin = (s : ℤ) ∧ (f ω).nmaps = some (ncomp s) ∧
      (f ω).beam = a.beam.getD (lmax + 1, fun _ => 1) ∧ (f ω).almMask = catalog2alm H 0 a.nsrc a.at (single a.weights) 0 ∧
      (f ω).noiseW = (∑ i ∈ range a.nsrc, a.weights i ^ 2) / (4 * Real.pi) ∧ (∀ l ≤ lmax, (f ω).beamList.getD l 0 = a.beamAt l) := by
  have hm := h.made ω
  obtain ⟨m1, m2⟩ := catalog_mask H _ _ hm
  obtain ⟨m3, m4, m5, m6, m7⟩ := catalog_attributes H _ _ hm _ rfl
  have hsp : (f ω).spin = s := m5.trans h.spin
  refine ⟨m3.trans h.bandLimit, m4.trans h.maskBandLimit, hsp, ?_, m6.trans (by rw [← h.bandLimit]; rfl), m1, m2, ?_⟩
  · rw [(catalog_ok H _ _ hm _ rfl).1, hsp]
    unfold ncomp
    simp
  · intro l hl
    unfold CatObj.beamList
    rw [m6]
    change (List.map (a.beam.getD (a.lmax + 1, fun _ => 1)).2 (List.range (a.beam.getD (a.lmax + 1, fun _ => 1)).1)).getD l 0 = a.beamAt l
    change ¬ (a.beam.any fun b => decide (b.1 ≤ a.lmax)) = true at m7
    cases hbe : a.beam with
    | none =>
      rw [Option.getD_none, range_getD _ (by dsimp only; rw [h.bandLimit]; omega)]
      unfold CatArgs.beamAt; rw [hbe]; rfl
    | some b =>
      rw [hbe] at m7
      simp only [Option.any_some, decide_eq_true_eq, not_le, h.bandLimit] at m7
      rw [Option.getD_some, range_getD _ (by omega)]
      unfold CatArgs.beamAt; rw [hbe]; rfl

/-- The values passed to the transform. -/
theorem CatalogsOf.value (h : CatalogsOf H Y a s lmax lmaxMask F noise v f) (ω : Ω) {c : ℕ} (hc : c < ncomp s) {i : ℕ} (hi : i < a.nsrc) :
    (a.withValues (ncomp s) (v ω)).value ⟨ncomp s, a.nsrc, v ω⟩ c i = a.weights i * (skyAt Y s lmax (F ω) (a.at i) c + noise ω c i) :=
  h.values ω c hc i hi

/-- The term of a pair depends only on the components that exist. -/
theorem pair_congr {X : Type*} (H : Harm X) (s s' : ℕ) (c d l : ℕ) (x x' : X) {v v' p p' : ℕ → ℝ} (h : ∀ e < ncomp s, v e = p e)
    (h' : ∀ e < ncomp s', v' e = p' e) :
    pairTerm H s s' c d l x (v 0) (v 1) x' (v' 0) (v' 1) = pairTerm H s s' c d l x (p 0) (p 1) x' (p' 0) (p' 1) := by
  rw [pair_expand H s s' c d l x x' v v', pair_expand H s s' c d l x x' p p']
  refine sum_congr rfl fun e he => sum_congr rfl fun e' he' => ?_
  rw [h e (mem_range.1 he), h' e' (mem_range.1 he')]

end

/-- The parts of a successful call. -/
theorem wsp_catalogs {W : Wigner} {f1 f2 : CatObj} {same : Bool} {B : Bins ℝ} {wa : WspArgs} {w : Wsp ℝ}
    (h : wspFromCatalogs W f1 f2 same B wa = .ok w) :
    f1.lmax = B.ellMax ∧ ∃ n, catNormOf f1 same wa.norm = .ok n ∧
      compCouplingMatrix W (catCouplingArgs f1 f2 wa) f1.lmax ((List.range (f1.lmaxMask + 1)).map (maskSpectrum f1.view f2.view same))
        f1.beamList f2.beamList B n.1 n.2 = .ok w := by
  unfold wspFromCatalogs at h
  split_ifs at h with q1 q2
  refine ⟨not_not.1 q2, ?_⟩
  split at h
  · cases h
  · cases hn : catNormOf f1 same wa.norm with
    | crash => rw [hn] at h; cases h
    | raises e => rw [hn] at h; cases h
    | ok n =>
      rw [hn] at h
      exact ⟨n, rfl, h⟩

/-- Sums of kernels over pairs of sources. -/
theorem sum_pairs_mean {Ω ι : Type*} [MeasurableSpace Ω] {μ : Measure Ω} (S : Finset ι) (T : ι → Ω → ℝ) (p : ι → ℕ → ℝ) (h1 h2 : ℕ → ℕ → ℕ → ℕ → ℝ)
    (Nw N n1 n2 l X Y : ℕ) (C : ℕ → ℕ → ℕ → ℝ)
    (h : ∀ i ∈ S, Integrable (T i) μ ∧ ∫ ω, T i ω ∂μ = ∑ l' ∈ range (N + 1), ∑ X' ∈ range n1, ∑ Y' ∈ range n2,
      kernelMatrix h1 h2 Nw (p i) l X Y l' X' Y' * C X' Y' l') :
    Integrable (fun ω => ∑ i ∈ S, T i ω) μ ∧ ∫ ω, ∑ i ∈ S, T i ω ∂μ = ∑ l' ∈ range (N + 1), ∑ X' ∈ range n1, ∑ Y' ∈ range n2,
      kernelMatrix h1 h2 Nw (fun L => ∑ i ∈ S, p i L) l X Y l' X' Y' * C X' Y' l' := by
  refine ⟨integrable_finsetSum _ fun i hi => (h i hi).1, ?_⟩
  rw [integral_finsetSum _ fun i hi => (h i hi).1, sum_congr rfl fun i hi => (h i hi).2, sum_comm]
  refine sum_congr rfl fun l' _ => ?_
  rw [sum_comm]
  refine sum_congr rfl fun X' _ => ?_
  rw [sum_comm]
  refine sum_congr rfl fun Y' _ => ?_
  rw [← sum_mul, kernel_pairs]

theorem kernel_congr {h1 h2 : ℕ → ℕ → ℕ → ℕ → ℝ} {Nw : ℕ} {p q : ℕ → ℝ} (h : ∀ L ≤ Nw, p L = q L) (l X Y l' X' Y' : ℕ) :
    kernelMatrix h1 h2 Nw p l X Y l' X' Y' = kernelMatrix h1 h2 Nw q l X Y l' X' Y' := by
  unfold kernelMatrix
  congr 1
  exact sum_congr rfl fun L hL => by rw [h L (by rw [mem_range] at hL; omega)]

/-! ## C82 -/

/-- C82: the mean of the spectrum of a catalog with itself, over skies and over the noise of the sources, is the true spectrum passed
through the coupling matrix of the workspace made from the catalog. The noise of a source may have any distribution. This holds for
multipoles not below the spin and if the mask is transformed up to twice the band limit of the catalog, which is not the default. -/
theorem C82_mean_partial {Ω : Type*} [MeasurableSpace Ω] (μ : Measure Ω) (H : Harm (ℝ × ℝ)) (Y : ℤ → ℕ → ℤ → ℝ × ℝ → ℂ) (a : CatArgs)
    (s lmax lmaxMask : ℕ) (F : Ω → ℕ → ℕ → ℤ → ℂ) (noise : Ω → ℕ → ℕ → ℝ) (v : Ω → MapStack) (f : Ω → CatObj)
    (h : CatalogsOf H Y a s lmax lmaxMask F noise v f) (hmask : 2 * lmax ≤ lmaxMask)
    (C : Arr2 ℝ) (hr : C.rows = ncomp s * ncomp s) (hc : C.cols = lmax + 1)
    (hI : Isotropic μ (ncomp s) (ncomp s) lmax F F fun X Y l => a.beamAt l * a.beamAt l * C.val (ncomp s * X + Y) l)
    (hn : NoiseFree μ (ncomp s) (ncomp s) (fun i j => i < a.nsrc ∧ j < a.nsrc ∧ i ≠ j) (fun ω c i => skyAt Y s lmax (F ω) (a.at i) c) noise
      (fun ω c i => skyAt Y s lmax (F ω) (a.at i) c) noise)
    (hN0 : ∀ l ≤ lmaxMask, H.Normalised 0 l) (hNs : ∀ l ≤ lmax, s ≤ l → H.Normalised s l)
    (B : Bins ℝ) (wa : WspArgs) (hteb : wa.isTeb = false) (hT : wa.lT ≤ 0) (ω0 : Ω) (w : Wsp ℝ)
    (hw : wspFromCatalogs racah (f ω0) (f ω0) true B wa = .ok w) :
    ∃ (P : Ω → Arr2 ℝ) (U : ℕ → ℕ → ℝ) (R : Arr2 ℝ),
      (∀ ω, computeCoupledCell (f ω).view (f ω).view true = .ok (some (P ω))) ∧
      w.unbinned = some U ∧ coupleCell w U C = .ok R ∧
      (∀ ω, (P ω).rows = R.rows ∧ (P ω).cols = R.cols) ∧ R.rows = ncomp s * ncomp s ∧ R.cols = lmax + 1 ∧
      ∀ k < ncomp s * ncomp s, ∀ l ≤ lmax, s ≤ l → Integrable (fun ω => (P ω).val k l) μ ∧ ∫ ω, (P ω).val k l ∂μ = R.val k l := by
  obtain ⟨p1, p2, p3, p4, p5, p6, p7, p8⟩ := h.facts ω0
  obtain ⟨hB, n, -, hcomp⟩ := wsp_catalogs hw
  have hnc : ∀ ω, ncomp s = if (f ω).spin = 0 then 1 else 2 := by
    intro ω
    rw [(h.facts ω).2.2.1]
    unfold ncomp
    simp
  choose P hP hPr hPc hPv using fun ω => C39_catalog H _ (f ω) (h.made ω) ⟨ncomp s, a.nsrc, v ω⟩ rfl (ncomp s) (hnc ω)
  have e1 : (catCouplingArgs (f ω0) (f ω0) wa).spin1 = s := by unfold catCouplingArgs; rw [p3]; rfl
  have e2 : (catCouplingArgs (f ω0) (f ω0) wa).spin2 = s := by unfold catCouplingArgs; rw [p3]; rfl
  have hpair : (catCouplingArgs (f ω0) (f ω0) wa).PurePair := by
    refine ⟨hteb, ?_, ?_, ?_, hT⟩ <;> intro hh <;> simp [catCouplingArgs] at hh
  rw [p1] at hcomp
  obtain ⟨U, R, hU, hR, -, -, -, hRr, hRc, hRv⟩ := couple_kernel hpair hcomp (by rw [← hB, p1]) C (by rw [e1, e2]; exact hr) hc
  rw [e1, e2] at hRr hRv
  refine ⟨P, U, R, hP, hU, hR, fun ω => ⟨by rw [hPr, hRr], ?_⟩, hRr, hRc, ?_⟩
  · rw [hPc, hRc]; exact congrArg (· + 1) h.bandLimit
  intro k hk l hl hsl
  have hn0 : 0 < ncomp s := by unfold ncomp; split_ifs <;> omega
  set X := k / ncomp s with hX
  set Y' := k % ncomp s with hY'
  have hk' : k = ncomp s * X + Y' := (Nat.div_add_mod _ _).symm
  have hXl : X < ncomp s := Nat.div_lt_of_lt_mul hk
  have hYl : Y' < ncomp s := Nat.mod_lt _ hn0
  rw [hk', hRv X hXl Y' hYl l hl]
  have hPk : ∀ ω, (P ω).val (ncomp s * X + Y') l = ∑ q ∈ (range a.nsrc).sigma fun i => (range a.nsrc).erase i,
      pairTerm H s s X Y' l (a.at q.1) (a.weights q.1 * (skyAt Y s lmax (F ω) (a.at q.1) 0 + noise ω 0 q.1))
        (a.weights q.1 * (skyAt Y s lmax (F ω) (a.at q.1) 1 + noise ω 1 q.1)) (a.at q.2)
        (a.weights q.2 * (skyAt Y s lmax (F ω) (a.at q.2) 0 + noise ω 0 q.2))
        (a.weights q.2 * (skyAt Y s lmax (F ω) (a.at q.2) 1 + noise ω 1 q.2)) := by
    intro ω
    have hs := (h.facts ω).2.2.1
    rw [mul_comm (ncomp s) X, hPv ω l (by rw [show (a.withValues (ncomp s) (v ω)).lmax = a.lmax from rfl, h.bandLimit]; exact hl)
      (by rw [hs]; exact hNs l hl hsl) X hXl Y' hYl, sum_sigma]
    refine sum_congr rfl fun i hi => sum_congr rfl fun j hj => ?_
    rw [hs]
    rw [mem_range] at hi
    have hj' := mem_range.1 (mem_of_mem_erase hj)
    exact pair_congr H s s X Y' l _ _ (v := fun e => (a.withValues (ncomp s) (v ω)).value ⟨ncomp s, a.nsrc, v ω⟩ e i)
      (v' := fun e => (a.withValues (ncomp s) (v ω)).value ⟨ncomp s, a.nsrc, v ω⟩ e j)
      (p := fun e => a.weights i * (skyAt Y s lmax (F ω) (a.at i) e + noise ω e i))
      (p' := fun e => a.weights j * (skyAt Y s lmax (F ω) (a.at j) e + noise ω e j)) (fun e he => h.value ω he hi) (fun e he => h.value ω he hj')
  simp only [hPk]
  obtain ⟨g1, g2⟩ := sum_pairs_mean ((range a.nsrc).sigma fun i => (range a.nsrc).erase i) (fun q ω =>
      pairTerm H s s X Y' l (a.at q.1) (a.weights q.1 * (skyAt Y s lmax (F ω) (a.at q.1) 0 + noise ω 0 q.1))
        (a.weights q.1 * (skyAt Y s lmax (F ω) (a.at q.1) 1 + noise ω 1 q.1)) (a.at q.2)
        (a.weights q.2 * (skyAt Y s lmax (F ω) (a.at q.2) 0 + noise ω 0 q.2))
        (a.weights q.2 * (skyAt Y s lmax (F ω) (a.at q.2) 1 + noise ω 1 q.2)))
    (fun q L => pairTerm H 0 0 0 0 L (a.at q.1) (a.weights q.1) 0 (a.at q.2) (a.weights q.2) 0) (hfac s false false) (hfac s false false) lmaxMask lmax
    (ncomp s) (ncomp s) l X Y' (fun X Y l => a.beamAt l * a.beamAt l * C.val (ncomp s * X + Y) l) (by
      intro q hq
      rw [mem_sigma, mem_range, mem_erase, mem_range] at hq
      exact pair_mean hI h.skyReal h.skyReal h.harmonics h.harmonics h.transform h.transform hmask a.at a.at hn a.weights a.weights
        ⟨hq.1, hq.2.2, hq.2.1.symm⟩ hXl hYl hl)
  refine ⟨g1, g2.trans ?_⟩
  refine sum_congr rfl fun l' hl' => sum_congr rfl fun X' hX' => sum_congr rfl fun Y'' hY'' => ?_
  rw [mem_range] at hl'
  rw [p8 l' (by omega)]
  congr 1
  rw [show (catCouplingArgs (f ω0) (f ω0) wa).lmaxMask = lmaxMask from p2]
  refine kernel_congr (fun L hL => ?_) _ _ _ _ _ _
  rw [p2, range_getD _ (by omega)]
  have h39 := C39_mask H _ (f ω0) (h.made ω0) L (hN0 L hL)
  rw [h39, sum_sigma]
  rfl

/-- C82: the mean of the cross-spectrum of two catalogs with uncorrelated noise. -/
theorem C82_cross_mean_partial {Ω : Type*} [MeasurableSpace Ω] (μ : Measure Ω) (H : Harm (ℝ × ℝ)) (Y : ℤ → ℕ → ℤ → ℝ × ℝ → ℂ) (a1 a2 : CatArgs)
    (s1 s2 lmax lmaxMask : ℕ) (F1 F2 : Ω → ℕ → ℕ → ℤ → ℂ) (noise1 noise2 : Ω → ℕ → ℕ → ℝ) (v1 v2 : Ω → MapStack) (f1 f2 : Ω → CatObj)
    (h1 : CatalogsOf H Y a1 s1 lmax lmaxMask F1 noise1 v1 f1) (h2 : CatalogsOf H Y a2 s2 lmax lmaxMask F2 noise2 v2 f2) (hmask : 2 * lmax ≤ lmaxMask)
    (C : Arr2 ℝ) (hr : C.rows = ncomp s1 * ncomp s2) (hc : C.cols = lmax + 1)
    (hI : Isotropic μ (ncomp s1) (ncomp s2) lmax F1 F2 fun X Y l => a1.beamAt l * a2.beamAt l * C.val (ncomp s2 * X + Y) l)
    (hn : NoiseFree μ (ncomp s1) (ncomp s2) (fun i j => i < a1.nsrc ∧ j < a2.nsrc) (fun ω c i => skyAt Y s1 lmax (F1 ω) (a1.at i) c) noise1
      (fun ω c i => skyAt Y s2 lmax (F2 ω) (a2.at i) c) noise2)
    (B : Bins ℝ) (wa : WspArgs) (hteb : wa.isTeb = false) (hT : wa.lT ≤ 0) (ω0 : Ω) (w : Wsp ℝ)
    (hw : wspFromCatalogs racah (f1 ω0) (f2 ω0) false B wa = .ok w) :
    ∃ (P : Ω → Arr2 ℝ) (U : ℕ → ℕ → ℝ) (R : Arr2 ℝ),
      (∀ ω, computeCoupledCell (f1 ω).view (f2 ω).view false = .ok (some (P ω))) ∧
      w.unbinned = some U ∧ coupleCell w U C = .ok R ∧
      (∀ ω, (P ω).rows = R.rows ∧ (P ω).cols = R.cols) ∧ R.rows = ncomp s1 * ncomp s2 ∧ R.cols = lmax + 1 ∧
      ∀ k < ncomp s1 * ncomp s2, ∀ l ≤ lmax, Integrable (fun ω => (P ω).val k l) μ ∧ ∫ ω, (P ω).val k l ∂μ = R.val k l := by
  obtain ⟨p1, p2, p3, p4, p5, p6, p7, p8⟩ := h1.facts ω0
  obtain ⟨r1, r2, r3, r4, r5, r6, r7, r8⟩ := h2.facts ω0
  obtain ⟨hB, n, -, hcomp⟩ := wsp_catalogs hw
  have hnc : ∀ (s : ℕ) (g : CatObj), g.spin = (s : ℤ) → ncomp s = if g.spin = 0 then 1 else 2 := by
    intro s g hg
    rw [hg]
    unfold ncomp
    simp
  have hcompat : ∀ ω, isCompatible (f1 ω).view.geom (f2 ω).view.geom false = true := by
    intro ω
    obtain ⟨x1, x2, -⟩ := h1.facts ω
    obtain ⟨y1, y2, -⟩ := h2.facts ω
    unfold isCompatible CatObj.view
    simp [x1, x2, y1, y2]
  choose P hP hPr hPc hPv using fun ω => C39_different H _ _ (f1 ω) (f2 ω) (h1.made ω) (h2.made ω) ⟨ncomp s1, a1.nsrc, v1 ω⟩
    ⟨ncomp s2, a2.nsrc, v2 ω⟩ rfl rfl (hcompat ω) (ncomp s1) (ncomp s2) (hnc s1 _ (h1.facts ω).2.2.1) (hnc s2 _ (h2.facts ω).2.2.1)
  have e1 : (catCouplingArgs (f1 ω0) (f2 ω0) wa).spin1 = s1 := by unfold catCouplingArgs; rw [p3]; rfl
  have e2 : (catCouplingArgs (f1 ω0) (f2 ω0) wa).spin2 = s2 := by unfold catCouplingArgs; rw [r3]; rfl
  have hpair : (catCouplingArgs (f1 ω0) (f2 ω0) wa).PurePair := by
    refine ⟨hteb, ?_, ?_, ?_, hT⟩ <;> intro hh <;> simp [catCouplingArgs] at hh
  rw [p1] at hcomp
  obtain ⟨U, R, hU, hR, -, -, -, hRr, hRc, hRv⟩ := couple_kernel hpair hcomp (by rw [← hB, p1]) C (by rw [e1, e2]; exact hr) hc
  rw [e1, e2] at hRr hRv
  have hm1 : ∀ ω, (a1.withValues (ncomp s1) (v1 ω)).lmax = lmax := fun ω => h1.bandLimit
  have hm2 : ∀ ω, (a2.withValues (ncomp s2) (v2 ω)).lmax = lmax := fun ω => h2.bandLimit
  refine ⟨P, U, R, hP, hU, hR, fun ω => ⟨by rw [hPr, hRr], ?_⟩, hRr, hRc, ?_⟩
  · rw [hPc, hRc, hm1, hm2, min_self]
  intro k hk l hl
  have hn0 : 0 < ncomp s2 := by unfold ncomp; split_ifs <;> omega
  set X := k / ncomp s2 with hX
  set Y' := k % ncomp s2 with hY'
  have hk' : k = ncomp s2 * X + Y' := (Nat.div_add_mod _ _).symm
  have hXl : X < ncomp s1 := Nat.div_lt_of_lt_mul (by rwa [mul_comm] at hk)
  have hYl : Y' < ncomp s2 := Nat.mod_lt _ hn0
  rw [hk', hRv X hXl Y' hYl l hl]
  have hPk : ∀ ω, (P ω).val (ncomp s2 * X + Y') l = ∑ q ∈ (range a1.nsrc).sigma fun _ => range a2.nsrc,
      pairTerm H s1 s2 X Y' l (a1.at q.1) (a1.weights q.1 * (skyAt Y s1 lmax (F1 ω) (a1.at q.1) 0 + noise1 ω 0 q.1))
        (a1.weights q.1 * (skyAt Y s1 lmax (F1 ω) (a1.at q.1) 1 + noise1 ω 1 q.1)) (a2.at q.2)
        (a2.weights q.2 * (skyAt Y s2 lmax (F2 ω) (a2.at q.2) 0 + noise2 ω 0 q.2))
        (a2.weights q.2 * (skyAt Y s2 lmax (F2 ω) (a2.at q.2) 1 + noise2 ω 1 q.2)) := by
    intro ω
    rw [mul_comm (ncomp s2) X, hPv ω l (by rw [hm1]; exact hl) (by rw [hm2]; exact hl) X hXl Y' hYl, sum_sigma]
    refine sum_congr rfl fun i hi => sum_congr rfl fun j hj => ?_
    rw [(h1.facts ω).2.2.1, (h2.facts ω).2.2.1]
    rw [mem_range] at hi hj
    exact pair_congr H s1 s2 X Y' l _ _ (v := fun e => (a1.withValues (ncomp s1) (v1 ω)).value ⟨ncomp s1, a1.nsrc, v1 ω⟩ e i)
      (v' := fun e => (a2.withValues (ncomp s2) (v2 ω)).value ⟨ncomp s2, a2.nsrc, v2 ω⟩ e j)
      (p := fun e => a1.weights i * (skyAt Y s1 lmax (F1 ω) (a1.at i) e + noise1 ω e i))
      (p' := fun e => a2.weights j * (skyAt Y s2 lmax (F2 ω) (a2.at j) e + noise2 ω e j)) (fun e he => h1.value ω he hi) (fun e he => h2.value ω he hj)
  simp only [hPk]
  obtain ⟨g1, g2⟩ := sum_pairs_mean ((range a1.nsrc).sigma fun _ => range a2.nsrc) (fun q ω =>
      pairTerm H s1 s2 X Y' l (a1.at q.1) (a1.weights q.1 * (skyAt Y s1 lmax (F1 ω) (a1.at q.1) 0 + noise1 ω 0 q.1))
        (a1.weights q.1 * (skyAt Y s1 lmax (F1 ω) (a1.at q.1) 1 + noise1 ω 1 q.1)) (a2.at q.2)
        (a2.weights q.2 * (skyAt Y s2 lmax (F2 ω) (a2.at q.2) 0 + noise2 ω 0 q.2))
        (a2.weights q.2 * (skyAt Y s2 lmax (F2 ω) (a2.at q.2) 1 + noise2 ω 1 q.2)))
    (fun q L => pairTerm H 0 0 0 0 L (a1.at q.1) (a1.weights q.1) 0 (a2.at q.2) (a2.weights q.2) 0) (hfac s1 false false) (hfac s2 false false) lmaxMask
    lmax (ncomp s1) (ncomp s2) l X Y' (fun X Y l => a1.beamAt l * a2.beamAt l * C.val (ncomp s2 * X + Y) l) (by
      intro q hq
      rw [mem_sigma, mem_range, mem_range] at hq
      exact pair_mean hI h1.skyReal h2.skyReal h1.harmonics h2.harmonics h1.transform h2.transform hmask a1.at a2.at hn a1.weights a2.weights
        hq hXl hYl hl)
  refine ⟨g1, g2.trans ?_⟩
  refine sum_congr rfl fun l' hl' => sum_congr rfl fun X' hX' => sum_congr rfl fun Y'' hY'' => ?_
  rw [mem_range] at hl'
  rw [p8 l' (by omega), r8 l' (by omega)]
  congr 1
  rw [show (catCouplingArgs (f1 ω0) (f2 ω0) wa).lmaxMask = lmaxMask from p2]
  refine kernel_congr (fun L hL => ?_) _ _ _ _ _ _
  rw [p2, range_getD _ (by omega), sum_sigma]
  unfold maskSpectrum CatObj.view
  simp only [Bool.false_eq_true, if_false, sub_zero]
  rw [p6, r6, catalog_pairs]
  rfl

/-- The composition of coupling and decoupling, for matrices computed by the library. -/
theorem master_exact_comp {W : Wigner} (L : LinAlg ℝ) (hL : L.Correct) {a : CouplingArgs} {lmax : ℕ} {pcl b1 b2 : List ℝ} {B : Bins ℝ} {nt : ℤ} {w2 : ℝ}
    {w : Wsp ℝ} (h : compCouplingMatrix W a lmax pcl b1 b2 B nt w2 = .ok w) (hn0 : nt = 0) (hell : WspSpec.Bounded B B.ellMax) (hnr : BinSpec.NoRepeats B)
    (hreg : Regular w.nBinned w.binned) (y C : Arr2 ℝ) (hyr : y.rows = w.ncls) (hyc : y.cols = B.nBands) (hC : unbinCells B y = .ok C)
    {U : ℕ → ℕ → ℝ} (hU : w.unbinned = some U) :
    ((coupleCell w U C).bind fun r => decoupleCell L w r none none) = .ok (Arr2.of y.rows y.cols y.val) := by
  obtain ⟨-, -, -, p, U0, hbuild⟩ := comp_parts h
  set m := a.ncls * (B.ellMax + 1) with hm
  have hUe : U = tab2 m m U0 := by
    rw [hbuild] at hU
    exact (Option.some.inj hU).symm
  have htt : tab2 m m (tab2 m m U0) = tab2 m m U0 := by
    funext i j
    unfold tab2
    split_ifs <;> rfl
  have hwb : w = WspSpec.build ⟨a.ncls, B.ellMax, lmax, a.lmaxMask, a.teb, nt, w2, p⟩ ⟨fun l => b1.getD l 0, fun l => b2.getD l 0, U, B⟩ := by
    rw [hbuild]
    unfold WspSpec.build buildWsp
    simp only [← hm, hUe, htt]
  have hnc : w.ncls = a.ncls := by rw [hbuild]; rfl
  have h7 := C07_master_exact L hL _ _ hn0 hell hnr (hwb ▸ hreg) y (hyr.trans hnc) hyc
  rw [← hwb] at h7
  dsimp only at h7
  rw [hC] at h7
  exact h7

/-- Decoupling spectra whose mean is `couple_cell` of the true spectrum. -/
theorem unbiased_comp {Ω : Type*} [MeasurableSpace Ω] {μ : Measure Ω} {W : Wigner} (L : LinAlg ℝ) (hL : L.Correct) {a : CouplingArgs} {lmax : ℕ}
    {pcl b1 b2 : List ℝ} {B : Bins ℝ} {nt : ℤ} {w2 : ℝ}
    {w : Wsp ℝ} (h : compCouplingMatrix W a lmax pcl b1 b2 B nt w2 = .ok w) (hn0 : nt = 0) (hell : WspSpec.Bounded B B.ellMax) (hnr : BinSpec.NoRepeats B)
    (hreg : Regular w.nBinned w.binned) (y C R : Arr2 ℝ) (hyr : y.rows = w.ncls) (hyc : y.cols = B.nBands) (hC : unbinCells B y = .ok C)
    {U : ℕ → ℕ → ℝ} (hU : w.unbinned = some U) (hR : coupleCell w U C = .ok R) (P : Ω → Arr2 ℝ) (hsh : ∀ ω, (P ω).rows = R.rows ∧ (P ω).cols = R.cols)
    (hP : ∀ k < w.ncls, ∀ b ∈ B.bands, ∀ e ∈ b, Integrable (fun ω => (P ω).val k e.ell) μ ∧ ∫ ω, (P ω).val k e.ell ∂μ = R.val k e.ell) :
    ∃ D : Ω → Arr2 ℝ, (∀ ω, decoupleCell L w (P ω) none none = .ok (D ω)) ∧ (∀ ω, (D ω).rows = y.rows ∧ (D ω).cols = y.cols) ∧
      ∀ k < y.rows, ∀ b < y.cols, Integrable (fun ω => (D ω).val k b) μ ∧ ∫ ω, (D ω).val k b ∂μ = y.val k b := by
  have h7 := master_exact_comp L hL h hn0 hell hnr hreg y C hyr hyc hC hU
  obtain ⟨-, -, -, p, U0, hbuild⟩ := comp_parts h
  have hwb : w.bin = B := by rw [hbuild]; rfl
  rw [hR] at h7
  simp only [Outcome.bind] at h7
  have hRs : R.rows = w.ncls ∧ R.cols = w.lmax + 1 := by
    unfold coupleCell at hR
    split_ifs at hR
    rw [← Outcome.ok.inj hR]
    exact ⟨rfl, rfl⟩
  rw [decoupleCell_ok L w R hRs.1 hRs.2.ge] at h7
  refine ⟨_, fun ω => decoupleCell_ok L w (P ω) ((hsh ω).1.trans hRs.1) (by rw [(hsh ω).2, hRs.2]), fun ω => ⟨hyr.symm, ?_⟩, ?_⟩
  · rw [hyc, ← hwb]; rfl
  intro k hk b hb
  rw [hyr] at hk
  rw [hyc, ← hwb] at hb
  obtain ⟨g1, g2⟩ := decouple_mean μ L hL w hreg P R (by rw [hwb]; exact hP) hk hb
  have hof : ∀ g : ℕ → ℕ → ℝ, (Arr2.of w.ncls w.bin.nBands g).val k b = g k b := fun g => tab2_of_lt _ hk hb
  simp only [hof]
  refine ⟨g1, g2.trans ?_⟩
  have h8 := congrArg (fun a => a.val k b) (Outcome.ok.inj h7)
  rw [hyr, hyc, ← hwb] at h8
  simp only [hof] at h8
  exact h8

/-- C82: the decoupled bandpowers of a catalog are unbiased, whatever the noise of the sources, if the bands are not below the spin and the mask is
transformed up to twice the band limit. -/
theorem C82_unbiased_partial {Ω : Type*} [MeasurableSpace Ω] (μ : Measure Ω) (L : LinAlg ℝ) (hL : L.Correct) (H : Harm (ℝ × ℝ))
    (Y : ℤ → ℕ → ℤ → ℝ × ℝ → ℂ) (a : CatArgs)
    (s lmax lmaxMask : ℕ) (F : Ω → ℕ → ℕ → ℤ → ℂ) (noise : Ω → ℕ → ℕ → ℝ) (v : Ω → MapStack) (f : Ω → CatObj)
    (h : CatalogsOf H Y a s lmax lmaxMask F noise v f) (hmask : 2 * lmax ≤ lmaxMask)
    (B : Bins ℝ) (hell : WspSpec.Bounded B B.ellMax) (hnr : BinSpec.NoRepeats B) (hspin : ∀ b ∈ B.bands, ∀ e ∈ b, s ≤ e.ell)
    (y C : Arr2 ℝ) (hyr : y.rows = ncomp s * ncomp s) (hyc : y.cols = B.nBands) (hC : unbinCells B y = .ok C)
    (hI : Isotropic μ (ncomp s) (ncomp s) lmax F F fun X Y l => a.beamAt l * a.beamAt l * C.val (ncomp s * X + Y) l)
    (hn : NoiseFree μ (ncomp s) (ncomp s) (fun i j => i < a.nsrc ∧ j < a.nsrc ∧ i ≠ j) (fun ω c i => skyAt Y s lmax (F ω) (a.at i) c) noise
      (fun ω c i => skyAt Y s lmax (F ω) (a.at i) c) noise)
    (hN0 : ∀ l ≤ lmaxMask, H.Normalised 0 l) (hNs : ∀ l ≤ lmax, s ≤ l → H.Normalised s l)
    (wa : WspArgs) (hteb : wa.isTeb = false) (hT : wa.lT ≤ 0) (hnorm : wa.norm = "MASTER") (ω0 : Ω) (w : Wsp ℝ)
    (hw : wspFromCatalogs racah (f ω0) (f ω0) true B wa = .ok w) (hreg : Regular w.nBinned w.binned) :
    ∃ P D : Ω → Arr2 ℝ, (∀ ω, computeCoupledCell (f ω).view (f ω).view true = .ok (some (P ω))) ∧
      (∀ ω, decoupleCell L w (P ω) none none = .ok (D ω)) ∧ (∀ ω, (D ω).rows = y.rows ∧ (D ω).cols = y.cols) ∧
      ∀ k < y.rows, ∀ b < y.cols, Integrable (fun ω => (D ω).val k b) μ ∧ ∫ ω, (D ω).val k b ∂μ = y.val k b := by
  obtain ⟨p1, -⟩ := h.facts ω0
  obtain ⟨hB, n, hn', hcomp⟩ := wsp_catalogs hw
  have hn0 : n.1 = 0 := by
    unfold catNormOf at hn'
    rw [if_pos hnorm] at hn'
    rw [← Outcome.ok.inj hn']
  have hC' : C.rows = ncomp s * ncomp s ∧ C.cols = lmax + 1 := by
    unfold unbinCells at hC
    rw [if_neg (by simp [hyc])] at hC
    rw [← Outcome.ok.inj hC]
    exact ⟨hyr, by change B.ellMax + 1 = _; rw [← hB, p1]⟩
  obtain ⟨P, U, R, hP, hU, hR, hsh, hRr, hRc, hv⟩ := C82_mean_partial μ H Y a s lmax lmaxMask F noise v f h hmask C hC'.1 hC'.2 hI hn hN0 hNs B wa
    hteb hT ω0 w hw
  have hncls : w.ncls = ncomp s * ncomp s := by
    unfold coupleCell at hR
    split_ifs at hR with q
    push Not at q
    rw [← q.1, hC'.1]
  obtain ⟨D, hD, hDs, hDv⟩ := unbiased_comp (μ := μ) L hL hcomp hn0 hell hnr hreg y C R (hyr.trans hncls.symm) hyc hC hU hR P hsh (fun k hk b hb e he =>
    hv k (by rwa [hncls] at hk) e.ell (by have := hell b hb e he; rw [← hB, p1] at this; exact this) (hspin b hb e he))
  exact ⟨P, D, hP, hD, hDs, hDv⟩

end NaMaster
