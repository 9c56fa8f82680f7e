import Verif.MemFlat.Specs

/-!
# What the other functions of `MemFlat/Model.lean` do to the allocated blocks
-/

namespace NaMaster

namespace MemF

open Mem

section
variable {P P' X : Multiset ℕ}

theorem Ends.congr {m : Mem Unit} {k k' : Option ℕ} (h : Ends P m k) (e : k = k') : Ends P m k' := e ▸ h

theorem Has.thenEnds {p : Ptr} {f : Unit → Mem Unit} {k : Option ℕ} (h : Has P p) (h2 : Ends P (f ()) k) : Ends P (NaMaster.use p >>= f) k :=
  Reads.thenEnds h.use h2

theorem fldGet_reads {f : FFld} (h : HasFld P f) : Reads P (fldGet f) := by
  unfold fldGet
  refine h.self.use.seq (h.mask.use.seq (h.fs.1.use.seq (h.fs.2.use.seq (Reads.when fun e => ?_))))
  have e' : f.lite = false := by simpa using e
  exact (useArr_reads (h.maps e')).seq (Reads.loop fun it hi => (h.temp e' (by omega)).get hi fun _ hx => useArr_reads hx)

/-- The fields have the same pixels, and spectra of temperature and polarisation are wanted for fields with spin 0 and not 0. -/
def CompOk (f1 f2 : FFld) (teb : Bool) : Prop := f1.fs.pix = f2.fs.pix ∧ (teb = true → f1.spin = 0 ∧ f2.spin ≠ 0)

theorem fwspCompute_spec {f1 f2 : FFld} {bin : FBins} (h1 : HasFld P f1) (h2 : HasFld P f2) (hb : HasBins P bin) (teb : Bool) :
    Triple P (fwspCompute f1 f2 bin teb) (fun w Y => CompOk f1 f2 teb ∧ ∃ Z, FWspAt w Z ∧ w.ncls = nclsOf f1 f2 teb ∧
      w.fs.pix = f1.fs.pix ∧ w.bin.nBands = bin.nBands ∧ Y = Z + P) (fun Y => ¬CompOk f1 f2 teb ∧ Y = P) := by
  unfold fwspCompute
  refine h1.self.use.bind (h2.self.use.bind (h1.fs.1.use.bind (h2.fs.1.use.bind ?_)))
  refine triple_whenC (fun e => triple_raise ⟨fun h => ?_, rfl⟩) (fun e => triple_whenC (fun e' => triple_raise ⟨fun h => ?_, rfl⟩) fun e' => ?_)
  · exact (of_decide_eq_true e) h.1
  · simp only [Bool.and_eq_true, Bool.not_eq_true', Bool.and_eq_false_iff, decide_eq_false_iff_not] at e'
    obtain ⟨ht, hs⟩ := e'
    have := h.2 ht
    tauto
  have hok : CompOk f1 f2 teb := by
    refine ⟨by simpa using e, fun ht => ?_⟩
    rw [ht] at e'
    simpa using e'
  refine triple_bind (triple_mono (fwspNew_spec h1.fs hb _) (fun _ _ h => h) fun _ h => h.elim) ?_
  rintro w Y ⟨Z, hw, e1, e2, e3, rfl⟩
  have l : P ≤ Z + P := leR le_rfl
  have hw' : HasWsp (Z + P) w := hw.has le1
  refine (Reads.temps _ ((h1.mask.mono l).use.seq ((h2.mask.mono l).use.seq (Reads.temps _ ((Reads.temps 4 ?_).seq ?_))))).bind
    (triple_pure ⟨hok, Z, hw, e1, e2, e3, rfl⟩)
  · exact hw'.nCells.use.seq ((useEdges_reads hw'.bin).seq ((kEval_reads (h1.beam.mono l)).seq (kEval_reads (h2.beam.mono l))))
  · refine (withArr_reads fun P1 cu l1 hcu => withArr_reads fun P2 cb l2 hcb => ?_).seq (hw'.gsl.use.seq hw'.perm.use)
    have hw2 := hw'.mono (l1.trans l2)
    exact (useArr_reads (arr_mono hcu l2)).seq ((useArr_reads hcb).seq (hw2.self.use.seq ((useArr_reads hw2.unbinned).seq
      (useArr_reads hw2.binned))))

theorem almToCl_reads {bin : FBins} {n1 n2 : ℕ} {a1 a2 : PArr Ptr} {out : ℕ → Mem Unit} (hb : HasBins P bin) (h1 : Arr P n1 a1)
    (h2 : Arr P n2 a2) (ho : OutOk P (n1 * n2) out) : Reads P (almToCl bin n1 n2 a1 a2 out) := by
  unfold almToCl
  refine (useEdges_reads hb).seq (triple_mallocP fun b => (Reads.loop fun i1 hi1 => ?_).bind (triple_last (triple_free (triple_pure rfl))))
  have l : P ≤ {b} + P := leR le_rfl
  refine (row_reads (arr_mono h1 l) hi1).seq (Reads.loop fun i2 hi2 => (row_reads (arr_mono h2 l) hi2).seq (Reads.loop fun _ _ =>
    ho _ l _ ?_))
  calc i2 + n2 * i1 < n2 + n2 * i1 := by omega
    _ = n2 * (i1 + 1) := by ring
    _ ≤ n2 * n1 := Nat.mul_le_mul_left _ hi1
    _ = n1 * n2 := mul_comm _ _

theorem coupledCell_ends {f1 f2 : FFld} {bin : FBins} {out : ℕ → Mem Unit} (h1 : HasFld P f1) (h2 : HasFld P f2) (hb : HasBins P bin)
    (ho : OutOk P (f1.nmaps * f2.nmaps) out) :
    Ends P (coupledCell f1 f2 bin out)
      (if f1.maskOnly = true ∨ f2.maskOnly = true ∨ f1.fs.pix ≠ f2.fs.pix then some 0 else none) := by
  unfold coupledCell
  refine (h1.self.thenEnds (h2.self.thenEnds (ends_raise fun e => h1.fs.1.thenEnds (h2.fs.1.thenEnds (ends_raise fun e' =>
    Reads.ends (almToCl_reads hb (h1.alms ?_) (h2.alms ?_) ho)))))).congr ?_
  · simp at e; exact e.1
  · simp at e; exact e.2
  by_cases hp : f1.fs.pix = f2.fs.pix <;> cases f1.maskOnly <;> cases f2.maskOnly <;> simp [hp]

/-- Blocks lost by `compute_coupled_cell_flat`, if it fails in the library. -/
def coupledLost (f1 f2 : FFld) : Option ℕ :=
  if f1.fs.pix ≠ f2.fs.pix then some 0 else if f1.maskOnly = true ∨ f2.maskOnly = true then some 1 else none

theorem coupledPy_ends {f1 f2 : FFld} {bin : FBins} (h1 : HasFld P f1) (h2 : HasFld P f2) (hb : HasBins P bin) :
    Ends P (coupledPy f1 f2 bin) (coupledLost f1 f2) := by
  unfold coupledPy
  refine h1.self.thenEnds (h2.self.thenEnds (h1.fs.1.thenEnds (h2.fs.1.thenEnds ?_)))
  refine (ends_raise fun e => withPy_ends fun P' a l ha => coupledCell_ends (h1.mono l) (h2.mono l) (hb.mono l) (pyRow_ok ha)).congr ?_
  unfold coupledLost
  by_cases hp : f1.fs.pix = f2.fs.pix <;> cases f1.maskOnly <;> cases f2.maskOnly <;> simp [hp]

theorem purifyGeneric_reads {f : FFld} {mapsIn alms : PArr Ptr} (h : HasFld P f) (hl : f.lite = false) (hm : Arr P f.nmaps mapsIn)
    (ha : Arr P f.nmaps alms) : Reads P (purifyGeneric f mapsIn alms) := by
  unfold purifyGeneric
  refine h.self.use.seq ?_
  split
  · next hp =>
    exact purify_reads h.self h.mask (h.aMask hl hp) hm ha fun P' hP => useArr_reads (arr_mono hm hP)
  · exact (useArr_reads hm).seq (h.mask.use.seq (useArr_reads ha))

theorem tempAlm_reads {f : FFld} {it : ℕ} {map alm : PArr Ptr} (h : HasFld P f) (hl : f.lite = false) (hi : it < f.ntemp)
    (hm : Arr P f.nmaps map) (ha : Arr P f.nmaps alm) : Reads P (tempAlm f it map alm) := by
  unfold tempAlm
  exact h.self.use.seq ((h.temp hl (by omega)).get hi fun _ ht => (useArr_reads ht).seq (h.mask.use.seq ((useArr_reads hm).seq
    (useArr_reads ha))))

theorem propAlm_reads {n1 n2 : ℕ} {prop : PArr KFun} {m1 a1 m2 a2 : PArr Ptr} (hp : HasArr P (HasK P) (n1 * n2) prop)
    (hm1 : Arr P n1 m1) (ha1 : Arr P n1 a1) (hm2 : Arr P n2 m2) (ha2 : Arr P n2 a2) : Reads P (propAlm n1 n2 prop m1 a1 m2 a2) := by
  unfold propAlm
  refine (Reads.loop fun i1 hi1 => Reads.loop fun i2 hi2 => ?_).seq ((useArr_reads hm1).seq ((useArr_reads ha1).seq
    ((useArr_reads hm2).seq (useArr_reads ha2))))
  refine (row_reads ha1 hi1).seq ((row_reads ha2 hi2).seq (hp.get ?_ fun _ hk => kEval_reads hk))
  calc i1 * n2 + i2 < i1 * n2 + n2 := by omega
    _ = (i1 + 1) * n2 := by ring
    _ ≤ n1 * n2 := Nat.mul_le_mul_right _ hi1

/-- Blocks lost by `nmt_compute_deprojection_bias_flat`, if it fails. -/
def biasLost (f1 f2 : FFld) : Option ℕ :=
  if f1.lite = true ∨ f2.lite = true then some 0
  else if f1.fs.pix ≠ f2.fs.pix then some (2 + 3 * (f1.nmaps * f2.nmaps)) else none

theorem hasK_mono_arr {n : ℕ} {a : PArr KFun} (h : HasArr P (HasK P) n a) (hP : P ≤ P') : HasArr P' (HasK P') n a :=
  h.imp hP fun _ hx => hx.mono hP

theorem deprojBias_ends {f1 f2 : FFld} {bin : FBins} {guess bias : ℕ → Mem Unit} (h1 : HasFld P f1) (h2 : HasFld P f2)
    (hb : HasBins P bin) (hg : OutOk P (f1.nmaps * f2.nmaps) guess) (ho : OutOk P (f1.nmaps * f2.nmaps) bias) :
    Ends P (deprojBias f1 f2 bin guess bias) (biasLost f1 f2) := by
  unfold deprojBias
  dsimp only
  refine h1.self.thenEnds (h2.self.thenEnds ?_)
  refine (ends_raise (k := if f1.fs.pix ≠ f2.fs.pix then some (2 + 3 * (f1.nmaps * f2.nmaps)) else none) fun e => ?_).congr ?_
  swap
  · unfold biasLost
    cases f1.lite <;> cases f2.lite <;> simp
  have e1 : f1.lite = false := by simp at e; exact e.1
  have e2 : f2.lite = false := by simp at e; exact e.2
  have n1 : f1.maskOnly = false := by
    cases h : f1.maskOnly
    · rfl
    · rw [h1.maskOnly h] at e1; exact e1
  have n2 : f2.maskOnly = false := by
    cases h : f2.maskOnly
    · rfl
    · rw [h2.maskOnly h] at e2; exact e2
  refine triple_new (allocPtrs_spec _) fun clDum Xd hd => triple_new (allocArr_spec _ fun _ _ => kAlloc_spec false) fun prop Xp hp => ?_
  have l0 : P ≤ Xp + (Xd + P) := leR (leR le_rfl)
  refine (Reads.loop fun i hi => (hg _ l0 i hi).seq (Reads.loop fun _ _ => ho _ l0 i hi)).bind ?_
  refine (h1.fs.1.mono l0).use.bind ((h2.fs.1.mono l0).use.bind ?_)
  have hprop : HasArr (Xp + (Xd + P)) (HasK (Xp + (Xd + P))) (f1.nmaps * f2.nmaps) prop :=
    ArrAt.has hp le1 fun _ _ hk hY => hk.1.has hY
  have hdum : Arr (Xp + (Xd + P)) (f1.nmaps * f2.nmaps) clDum := arrAt_arr hd (leR le1)
  have hcard : (Xp + Xd).card = 2 + 3 * (f1.nmaps * f2.nmaps) := by
    rw [Multiset.card_add, ptrs_card hd, arrAt_card hp fun _ _ hk => hk.1.card hk.2]
    ring
  refine triple_whenC (fun e => triple_raise ⟨2 + 3 * (f1.nmaps * f2.nmaps), Xp + Xd, ?_, hcard, (add_assoc _ _ _).symm⟩) fun e => ?_
  · rw [if_pos (of_decide_eq_true e)]
  have hpix : f1.fs.pix = f2.fs.pix := by simpa using e
  refine Reads.bind ?_ ((freeArr_frees hd).bind (triple_last ((freeEach_frees hp fun _ _ hk => kFree_frees hk.1).bind (triple_pure
    ⟨by simp [hpix], rfl⟩))))
  refine withArr_reads fun P1 map1 l1 hm1 => withArr_reads fun P2 alm1 l2 ha1 => withArr_reads fun P3 map2 l3 hm2 =>
    withArr_reads fun P4 alm2 l4 ha2 => ?_
  have lP : P ≤ P4 := l0.trans (l1.trans (l2.trans (l3.trans l4)))
  have g1 := h1.mono lP
  have g2 := h2.mono lP
  have gb := hb.mono lP
  have go := ho.mono lP
  have gd := arr_mono hdum (l1.trans (l2.trans (l3.trans l4)))
  have gp := hasK_mono_arr hprop (l1.trans (l2.trans (l3.trans l4)))
  have gm1 := arr_mono hm1 (l2.trans (l3.trans l4))
  have ga1 := arr_mono ha1 (l3.trans l4)
  have gm2 := arr_mono hm2 l4
  have acc : ∀ P', P4 ≤ P' → Reads P' (loopU (f1.nmaps * f2.nmaps) fun i => loopU bin.nBands fun _ => do bias i; row clDum i) :=
    fun P' l => Reads.loop fun i hi => Reads.loop fun _ _ => (go P' l i hi).seq (row_reads (arr_mono gd l) hi)
  refine (Reads.loop fun iti hi => Reads.loop fun itj hj => ?_).seq ((Reads.loop fun iti hi => Reads.loop fun itj hj => ?_).seq
    (Reads.when fun hc => Reads.temps 1 ?_))
  · exact (g2.matM n2 (by omega)).use.seq ((tempAlm_reads g2 e2 hj gm2 ha2).seq ((propAlm_reads gp gm1 ga1 gm2 ha2).seq
      ((purifyGeneric_reads g1 e1 gm1 ga1).seq ((g2.aTemp e2 (by omega)).get hi fun t ht =>
      (almToCl_reads gb ga1 ht (row_ok gd)).seq (acc P4 le_rfl)))))
  · exact (g1.matM n1 (by omega)).use.seq ((tempAlm_reads g1 e1 hj gm1 ga1).seq ((propAlm_reads gp gm1 ga1 gm2 ha2).seq
      ((purifyGeneric_reads g2 e2 gm2 ha2).seq ((g1.aTemp e1 (by omega)).get hi fun t ht =>
      (almToCl_reads gb ht ha2 (row_ok gd)).seq (acc P4 le_rfl)))))
  · refine (Reads.loop fun itj hj => Reads.loop fun itq hq => ?_).seq (Reads.loop fun iti hi => Reads.loop fun itp hq => ?_)
    · exact (tempAlm_reads g2 e2 hq gm2 ha2).seq ((propAlm_reads gp gm1 ga1 gm2 ha2).seq ((g1.temp e1 (by omega)).get hj fun t ht =>
        useArr_reads ht))
    · exact (g1.aTemp e1 (by omega)).get hi fun t1 ht1 => (g2.aTemp e2 (by omega)).get hq fun t2 ht2 =>
        (almToCl_reads gb ht1 ht2 (row_ok gd)).seq ((g1.matM n1 (by omega)).use.seq ((g2.matM n2 (by omega)).use.seq (acc P4 le_rfl)))

theorem deprojPy_ends {f1 f2 : FFld} {bin : FBins} (h1 : HasFld P f1) (h2 : HasFld P f2) (hb : HasBins P bin) :
    Ends P (deprojPy f1 f2 bin) ((biasLost f1 f2).map (· + 2)) := by
  unfold deprojPy
  refine (withPy_ends fun P1 bias l1 hbi => withPy_ends fun P2 guess l2 hg => deprojBias_ends (h1.mono (l1.trans l2))
    (h2.mono (l1.trans l2)) (hb.mono (l1.trans l2)) (pyRow_ok hg) (pyRow_ok (pyArr_mono hbi l2))).congr ?_
  rw [Option.map_map]
  rfl

theorem decouple_reads {w : FWsp} {a b c d : ℕ → Mem Unit} (h : HasWsp P w) (ha : OutOk P w.ncls a) (hb : OutOk P w.ncls b)
    (hc : OutOk P w.ncls c) (hd : OutOk P w.ncls d) : Reads P (decouple w a b c d) := by
  unfold decouple
  refine h.self.use.seq (h.bin.1.use.seq (Reads.temps 2 ((Reads.loop fun i hi => Reads.loop fun _ _ => ?_).seq (h.gsl.use.seq
    (h.perm.use.seq (Reads.loop fun i hi => Reads.loop fun _ _ => hd P le_rfl i hi))))))
  exact (ha P le_rfl i hi).seq ((hb P le_rfl i hi).seq (hc P le_rfl i hi))

theorem decouplePy_reads {w : FWsp} (h : HasWsp P w) : Reads P (decouplePy w) := by
  unfold decouplePy
  refine h.self.use.seq (h.bin.1.use.seq (withPy_reads fun P1 a l1 ha => withPy_reads fun P2 b l2 hb => withPy_reads fun P3 c l3 hc =>
    withPy_reads fun P4 d l4 hd => ?_))
  exact decouple_reads (h.mono (l1.trans (l2.trans (l3.trans l4)))) (pyRow_ok (pyArr_mono ha (l2.trans (l3.trans l4))))
    (pyRow_ok (pyArr_mono hb (l3.trans l4))) (pyRow_ok (pyArr_mono hc l4)) (pyRow_ok hd)

theorem couplePy_reads {w : FWsp} (h : HasWsp P w) : Reads P (couplePy w) := by
  unfold couplePy
  refine h.self.use.seq (withPy_reads fun P1 a l1 ha => withPy_reads fun P2 b l2 hb => Reads.temps 2 (withEach_reads (kAlloc_spec false)
    (fun _ _ hk => kFree_frees hk.1) fun fcl Z hZ => ?_))
  have l3 : P2 ≤ Z + P2 := leR le_rfl
  have hw := h.mono (l1.trans (l2.trans l3))
  have hk : HasArr (Z + P2) (HasK (Z + P2)) w.ncls fcl := ArrAt.has hZ le1 fun _ _ hk hY => hk.1.has hY
  exact (usePyArr_reads (pyArr_mono ha (l2.trans l3))).seq (hw.fs.1.use.seq ((Reads.temps 3 (Reads.loop fun i hi =>
    hk.get hi fun _ hx => kEval_reads hx)).seq (hw.bin.1.use.seq ((useArr_reads hw.unbinned).seq (usePyArr_reads (pyArr_mono hb l3))))))

theorem binPy_reads {b : FBins} (h : HasBins P b) (ncl : ℕ) (unbin : Bool) : Reads P (binPy b ncl unbin) := by
  unfold binPy
  refine h.1.use.seq (withPy_reads fun P1 a l1 ha => withPy_reads fun P2 c l2 hc => Reads.temps _ (Reads.loop fun i hi => ?_))
  refine (pyRow_reads (pyArr_mono ha l2) hi).seq ((useEdges_reads (h.mono (l1.trans l2))).seq ((Reads.when fun _ => ?_).seq
    (pyRow_reads hc hi)))
  refine triple_new (kAlloc_spec false) fun k Z hk => (kEval_reads (hk.1.has le1)).bind ?_
  exact triple_last ((kFree_frees hk.1).bind (triple_pure rfl))

/-! ## The full computation -/

/-- Blocks lost by `compute_full_master_flat` without a workspace, if it fails in the library. -/
def fullLost (f1 f2 : FFld) (bin : FBins) : Option ℕ :=
  if f1.fs.pix ≠ f2.fs.pix then some 3
  else if f1.lite = true ∨ f2.lite = true then
    some (3 + (11 + 2 * (f1.nmaps * f2.nmaps * bin.nBands)) + (2 + 2 * (f1.nmaps * f2.nmaps)))
  else none

/-- The same with a workspace. -/
def fullWspLost (f1 f2 : FFld) (bin : FBins) (w : FWsp) : Option ℕ :=
  if f1.fs.pix ≠ w.fs.pix ∨ f2.fs.pix ≠ w.fs.pix ∨ bin.nBands ≠ w.bin.nBands then some 3
  else if f1.lite = true ∨ f2.lite = true then some (3 + (2 + 2 * w.ncls)) else none

/-- The part after the coupling matrix. -/
theorem spectra_ends {f1 f2 : FFld} {bin : FBins} {w : FWsp} {noise guess out : ℕ → Mem Unit} (h1 : HasFld P f1) (h2 : HasFld P f2)
    (hb : HasBins P bin) (hw : HasWsp P w) (hc : w.ncls = f1.nmaps * f2.nmaps) (hpix : f1.fs.pix = f2.fs.pix)
    (hn : OutOk P (f1.nmaps * f2.nmaps) noise) (hg : OutOk P (f1.nmaps * f2.nmaps) guess) (ho : OutOk P (f1.nmaps * f2.nmaps) out) :
    Triple P (do
      let clBias ← allocArr w.ncls fun _ => mallocP
      let clData ← allocArr w.ncls fun _ => mallocP
      coupledCell f1 f2 bin (row clData)
      deprojBias f1 f2 bin guess (row clBias)
      decouple w (row clData) noise (row clBias) out
      freeEach w.ncls clBias free
      freeEach w.ncls clData free
      pure w) (fun w' Y => w' = w ∧ ¬(f1.lite = true ∨ f2.lite = true) ∧ Y = P)
      (fun Y => (f1.lite = true ∨ f2.lite = true) ∧ ∃ Z, Multiset.card Z = 2 + 2 * w.ncls ∧ Y = Z + P) := by
  refine triple_new (allocPtrs_spec _) fun clBias Xb hbi => triple_new (allocPtrs_spec _) fun clData Xd hd => ?_
  have l : P ≤ Xd + (Xb + P) := leR (leR le_rfl)
  have hcard : (Xd + Xb).card = 2 + 2 * w.ncls := by
    rw [Multiset.card_add, ptrs_card hd, ptrs_card hbi]
    ring
  have gd : Arr (Xd + (Xb + P)) w.ncls clData := arrAt_arr hd le1
  have gb : Arr (Xd + (Xb + P)) w.ncls clBias := arrAt_arr hbi (leR le1)
  refine triple_bind (triple_mono (coupledCell_ends (h1.mono l) (h2.mono l) (hb.mono l) (row_ok (hc ▸ gd))) (fun _ _ h => h) ?_) ?_
  · rintro Y ⟨n, Z, e, hZ, rfl⟩
    split at e
    · next hcond =>
      obtain rfl : n = 0 := by simpa using e.symm
      obtain rfl : Z = 0 := Multiset.card_eq_zero.1 hZ
      refine ⟨?_, Xd + Xb, hcard, by abel⟩
      rcases hcond with h | h | h
      · exact Or.inl (h1.maskOnly h)
      · exact Or.inr (h2.maskOnly h)
      · exact absurd hpix h
    · simp at e
  rintro ⟨⟩ Y ⟨-, rfl⟩
  refine triple_bind (triple_mono (deprojBias_ends (h1.mono l) (h2.mono l) (hb.mono l) (hg.mono l) (row_ok (hc ▸ gb)))
    (fun _ _ h => h) ?_) ?_
  · rintro Y ⟨n, Z, e, hZ, rfl⟩
    unfold biasLost at e
    split at e
    · next hcond =>
      obtain rfl : n = 0 := by simpa using e.symm
      obtain rfl : Z = 0 := Multiset.card_eq_zero.1 hZ
      exact ⟨hcond, Xd + Xb, hcard, by abel⟩
    · simp [hpix] at e
  rintro ⟨⟩ Y ⟨e, rfl⟩
  have hl : ¬(f1.lite = true ∨ f2.lite = true) := fun h => by simp [biasLost, h] at e
  refine (decouple_reads (hw.mono l) (row_ok gd) (hc ▸ hn.mono l) (row_ok gb) (hc ▸ ho.mono l)).bind ?_
  exact (freeArr_frees hbi).bind ((freeArr_frees hd).bind (triple_pure ⟨rfl, hl, rfl⟩))

theorem fullPy_ends {f1 f2 : FFld} {bin : FBins} (h1 : HasFld P f1) (h2 : HasFld P f2) (hb : HasBins P bin) :
    Ends P (fullPy f1 f2 bin none) (fullLost f1 f2 bin) := by
  unfold fullPy fullSpectra
  refine triple_mallocP fun no => triple_mallocP fun gu => triple_mallocP fun ou => ?_
  have l : P ≤ {ou} + ({gu} + ({no} + P)) := leR (leR (leR le_rfl))
  rw [mem_assoc]
  refine triple_bind (triple_mono (fwspCompute_spec (h1.mono l) (h2.mono l) (hb.mono l) false) (fun _ _ h => h) ?_) ?_
  · rintro Y ⟨hc, rfl⟩
    have hp : f1.fs.pix ≠ f2.fs.pix := fun h => hc ⟨h, fun h => by simp at h⟩
    exact ⟨3, {ou} + ({gu} + {no}), by simp [fullLost, hp], rfl, by abel⟩
  rintro w Y ⟨hc, Z, hw, e1, e2, e3, rfl⟩
  have hp : f1.fs.pix = f2.fs.pix := hc.1
  have hncl : w.ncls = f1.nmaps * f2.nmaps := e1
  have l' : {ou} + ({gu} + ({no} + P)) ≤ Z + ({ou} + ({gu} + ({no} + P))) := leR le_rfl
  refine triple_bind (triple_mono (spectra_ends (h1.mono (l.trans l')) (h2.mono (l.trans l')) (hb.mono (l.trans l')) (hw.has le1) hncl hp
    (pyRow_ok (pyArr_new (by simp))) (pyRow_ok (pyArr_new (by simp))) (pyRow_ok (pyArr_new (by simp)))) (fun _ _ h => h) ?_) ?_
  · rintro Y ⟨hl, V, hV, rfl⟩
    refine ⟨_, V + (Z + ({ou} + ({gu} + {no}))), by rw [fullLost, if_neg (not_not.2 hp), if_pos hl], ?_, by abel⟩
    rw [Multiset.card_add, Multiset.card_add, hV, hw.card, FWsp.rows, e3, hncl]
    simp only [Multiset.card_add, Multiset.card_singleton]
    ring
  · rintro w' Y ⟨rfl, hl, rfl⟩
    refine triple_free (triple_free (triple_free ?_))
    refine triple_last (triple_whenC (fun _ => (fwspFree_frees hw).bind (triple_pure ⟨by simp [fullLost, hp, hl], rfl⟩)) fun h => by simp at h)

theorem fullPy_wsp_ends {f1 f2 : FFld} {bin : FBins} {w : FWsp} (h1 : HasFld P f1) (h2 : HasFld P f2) (hb : HasBins P bin)
    (hw : HasWsp P w) (hc : w.ncls = f1.nmaps * f2.nmaps) : Ends P (fullPy f1 f2 bin (some w)) (fullWspLost f1 f2 bin w) := by
  unfold fullPy fullSpectra
  refine triple_mallocP fun no => triple_mallocP fun gu => triple_mallocP fun ou => ?_
  have l : P ≤ {ou} + ({gu} + ({no} + P)) := leR (leR (leR le_rfl))
  have g1 := h1.mono l
  have g2 := h2.mono l
  have gb := hb.mono l
  have gw := hw.mono l
  dsimp only
  refine triple_bind (Q1 := fun w' Y => w' = w ∧ (¬(f1.lite = true ∨ f2.lite = true) ∧ ¬(f1.fs.pix ≠ w.fs.pix ∨ f2.fs.pix ≠ w.fs.pix ∨
    bin.nBands ≠ w.bin.nBands)) ∧ Y = {ou} + ({gu} + ({no} + P))) ?_ ?_
  · refine g1.self.use.bind ?_
    refine g2.self.use.bind ?_
    refine gw.self.use.bind ?_
    refine gw.fs.1.use.bind ?_
    refine g1.fs.1.use.bind ?_
    refine g2.fs.1.use.bind ?_
    refine triple_whenC (fun e => triple_raise ⟨3, {ou} + ({gu} + {no}), ?_, rfl, by abel⟩) fun e => ?_
    · simp only [Bool.or_eq_true, decide_eq_true_eq] at e
      unfold fullWspLost
      rw [if_pos (by tauto)]
    refine gb.1.use.bind ?_
    refine gw.bin.1.use.bind ?_
    refine triple_whenC (fun e => triple_raise ⟨3, {ou} + ({gu} + {no}), ?_, rfl, by abel⟩) fun e' => ?_
    · unfold fullWspLost
      rw [if_pos (by simp at e; tauto)]
    rw [mem_pure_bind]
    have hok : ¬(f1.fs.pix ≠ w.fs.pix ∨ f2.fs.pix ≠ w.fs.pix ∨ bin.nBands ≠ w.bin.nBands) := by
      simp only [Bool.or_eq_false_iff, decide_eq_false_iff_not] at e e'
      tauto
    have hpix : f1.fs.pix = f2.fs.pix := by
      simp only [not_or, not_not] at hok
      rw [hok.1, hok.2.1]
    refine triple_mono (spectra_ends g1 g2 gb gw hc hpix
      (pyRow_ok (pyArr_new (by simp))) (pyRow_ok (pyArr_new (by simp))) (pyRow_ok (pyArr_new (by simp)))) ?_ ?_
    · rintro w' Y ⟨rfl, hl, rfl⟩
      exact ⟨rfl, ⟨hl, hok⟩, rfl⟩
    · rintro Y ⟨hl, V, hV, rfl⟩
      refine ⟨_, V + ({ou} + ({gu} + {no})), by rw [fullWspLost, if_neg hok, if_pos hl], ?_, by abel⟩
      rw [Multiset.card_add, hV]
      simp only [Multiset.card_add, Multiset.card_singleton]
      ring
  · rintro w' Y ⟨rfl, ⟨hl, hok⟩, rfl⟩
    refine triple_free (triple_free (triple_free ?_))
    refine triple_last (triple_whenC (fun h => by simp at h) fun _ => triple_pure ⟨?_, rfl⟩)
    rw [fullWspLost, if_neg hok, if_neg hl]

/-! ## Covariances -/

/-- The fields have the same numbers of pixels, and the binning schemes the same number of bands. -/
def CovOk (fa1 fa2 fb1 fb2 : FFld) (ba bb : FBins) : Prop :=
  (fa1.fs.pix.nx = fa2.fs.pix.nx ∧ fa1.fs.pix.ny = fa2.fs.pix.ny ∧ fa1.fs.pix.nx = fb1.fs.pix.nx ∧
    fa1.fs.pix.ny = fb1.fs.pix.ny ∧ fa1.fs.pix.nx = fb2.fs.pix.nx ∧ fa1.fs.pix.ny = fb2.fs.pix.ny) ∧ ba.nBands = bb.nBands

theorem fcovInit_spec {fa1 fa2 fb1 fb2 : FFld} {ba bb : FBins} (h1 : HasFld P fa1) (h2 : HasFld P fa2) (h3 : HasFld P fb1)
    (h4 : HasFld P fb2) (ha : HasBins P ba) (hb : HasBins P bb) :
    Triple P (fcovInit fa1 fa2 fb1 fb2 ba bb) (fun cw Y => CovOk fa1 fa2 fb1 fb2 ba bb ∧ ∃ Z, FCovAt cw Z ∧ cw.bin.nBands = ba.nBands ∧
      Y = Z + P) (fun Y => ¬CovOk fa1 fa2 fb1 fb2 ba bb ∧ Y = P) := by
  unfold fcovInit
  refine h1.self.use.bind (h2.self.use.bind (h3.self.use.bind (h4.self.use.bind ?_)))
  refine triple_whenC (fun e => triple_raise ⟨fun h => of_decide_eq_true e h.1, rfl⟩) fun e => ha.1.use.bind (hb.1.use.bind ?_)
  refine triple_whenC (fun e => triple_raise ⟨fun h => of_decide_eq_true e h.2, rfl⟩) fun e' => triple_mallocP fun s => ?_
  have hok : CovOk fa1 fa2 fb1 fb2 ba bb := ⟨by simpa only [decide_eq_false_iff_not, not_not] using e, by simpa using e'⟩
  refine (useEdges_reads (ha.mono (leR le_rfl))).bind (triple_new (fbinsCreate_spec _) ?_)
  rintro b Xb ⟨hb', en⟩
  refine triple_new (triple_loopC (B := ArrAt PtrAt ba.nBands) 8 fun _ _ => allocPtrs_spec _) ?_
  rintro xi V ⟨hl, Ys, hF, rfl⟩
  have l : P ≤ Ys.sum + (Xb + ({s} + P)) := leR (leR (leR le_rfl))
  have hxi : ∀ i < 8, Arr (Ys.sum + (Xb + ({s} + P))) ba.nBands (xi.getD i default) := fun i hi => by
    obtain ⟨Y, hY, hle⟩ := forall2_le hF (hl ▸ hi)
    rw [List.getD_eq_getElem?_getD, List.getElem?_eq_getElem (hl ▸ hi), Option.getD_some]
    exact arrAt_arr hY (hle.trans le1)
  refine (Reads.temps 7 ((Reads.temps 4 ((Reads.temps 1 ?_).seq (Reads.temps 1 (useEdges_reads (hb'.has (leR le1)))))).seq ?_)).bind
    (triple_pure ⟨hok, {s} + (Xb + Ys.sum), ⟨hl, {s}, Xb, Ys, ⟨s, rfl, rfl⟩, hb', by rw [en]; exact hF, rfl⟩, en, by abel⟩)
  · exact (h1.mask.mono l).use.seq ((h2.mask.mono l).use.seq ((h3.mask.mono l).use.seq (h4.mask.mono l).use))
  · refine withEach_reads (allocPtrs_spec _) (fun _ _ => freeArr_frees) fun thr Z hZ => Reads.loop fun i hi => ?_
    have ht : HasArr (Z + (Ys.sum + (Xb + ({s} + P)))) (Arr (Z + (Ys.sum + (Xb + ({s} + P)))) ba.nBands) 8 thr :=
      ArrAt.has hZ le1 fun _ _ => arrAt_arr
    exact ht.get hi fun _ hx => (useArr_reads hx).seq (useArr_reads (arr_mono (hxi i hi) (leR le_rfl)))

/-- Blocks lost by `gaussian_covariance_flat`, if it fails in the library. -/
def gaussLost (cw : FCov) (wa wb : FWsp) (na1 na2 nb1 nb2 : ℕ) : Option ℕ :=
  if wa.bin.nBands = cw.bin.nBands ∧ wb.bin.nBands = cw.bin.nBands ∧ wa.ncls = na1 * na2 ∧ wb.ncls = nb1 * nb2 then none else some 4

theorem gaussPy_ends {cw : FCov} {wa wb : FWsp} (h : HasCov P cw) (ha : HasWsp P wa) (hb : HasWsp P wb) (na1 na2 nb1 nb2 : ℕ) :
    Ends P (gaussPy cw wa wb na1 na2 nb1 nb2) (gaussLost cw wa wb na1 na2 nb1 nb2) := by
  unfold gaussPy
  refine (withPy_ends (k := _) fun P1 c11 l1 h11 => withPy_ends fun P2 c12 l2 h12 => withPy_ends fun P3 c21 l3 h21 =>
    withPy_ends fun P4 c22 l4 h22 => ?_).congr (?_ : Option.map _ (Option.map _ (Option.map _ (Option.map _
      (if (decide (wa.bin.nBands ≠ cw.bin.nBands) || decide (wb.bin.nBands ≠ cw.bin.nBands)) = true then some 0 else
      if (decide (wa.ncls ≠ na1 * na2) || decide (wb.ncls ≠ nb1 * nb2)) = true then some 0 else none)))) = _)
  · have l : P ≤ P4 := l1.trans (l2.trans (l3.trans l4))
    have hc := h.mono l
    have hA := ha.mono l
    have hB := hb.mono l
    refine hc.self.thenEnds (hc.bin.1.thenEnds (hA.self.thenEnds (hA.bin.1.thenEnds (hB.self.thenEnds
      (hB.bin.1.thenEnds (ends_raise fun _ => ends_raise fun _ => Reads.ends ?_))))))
    refine withArr_reads fun Q1 b11 m1 k11 => withArr_reads fun Q2 b12 m2 k12 => withArr_reads fun Q3 b21 m3 k21 =>
      withArr_reads fun Q4 b22 m4 k22 => ?_
    have m : P4 ≤ Q4 := m1.trans (m2.trans (m3.trans m4))
    have hc := hc.mono m
    have hA := hA.mono m
    have hB := hB.mono m
    refine (usePyArr_reads (pyArr_mono h11 (l2.trans (l3.trans (l4.trans m))))).seq ((usePyArr_reads (pyArr_mono h12
      (l3.trans (l4.trans m)))).seq ((usePyArr_reads (pyArr_mono h21 (l4.trans m))).seq ((usePyArr_reads (pyArr_mono h22 m)).seq
      ((useEdges_reads hc.bin).seq (Reads.temps 5 ?_)))))
    exact (useArr_reads (arr_mono k11 (m2.trans (m3.trans m4)))).seq ((useArr_reads (arr_mono k12 (m3.trans m4))).seq
      ((useArr_reads (arr_mono k21 m4)).seq ((useArr_reads k22).seq ((useTabs_reads hc.self hc.xi).seq (hB.gsl.use.seq (hB.perm.use.seq
      (hA.gsl.use.seq hA.perm.use)))))))
  · unfold gaussLost
    by_cases a1 : wa.bin.nBands = cw.bin.nBands <;> by_cases a2 : wb.bin.nBands = cw.bin.nBands <;>
      by_cases a3 : wa.ncls = na1 * na2 <;> by_cases a4 : wb.ncls = nb1 * nb2 <;> simp [a1, a2, a3, a4]

/-! ## Files -/

theorem fwspWrite_spec {w : FWsp} (h : HasWsp P w) (fail : Option ℕ) : ReadsE P (fwspWrite w fail) := by
  unfold fwspWrite
  exact readsE_check (h.self.use.bind (h.bin.1.use.bind ((useArr_reads h.unbinned).bind (readsE_check ((Reads.temps 6 (h.fs.1.use.seq
    h.fs.2.use)).bind (readsE_check ((Reads.temps 6 h.nCells.use).bind (readsE_check ((useArr_reads h.binned).bind
    ((Reads.temps 1 h.gsl.use).bind ((Reads.temps 1 h.perm.use).bind (readsE_check ((Reads.temps 9 (useEdges_reads h.bin)).bind
    readsE_check_last)))))))))))))

theorem fcovWrite_spec {cw : FCov} (h : HasCov P cw) (fail : Option ℕ) : ReadsE P (fcovWrite cw fail) := by
  unfold fcovWrite
  exact readsE_check (readsE_check (h.self.use.bind ((Reads.temps 9 (useEdges_reads h.bin)).bind (readsE_check
    ((useTabs_reads h.self h.xi).bind readsE_check_last)))))

/-- The number of rows agrees with the header. -/
def FWspFile.Fits (f : FWspFile) : Prop := f.nRows = f.ncls * f.nBands ∧ f.nEl = f.ncls * f.nBands

/-- Blocks lost when reading fails. -/
def FWspFile.lost (f : FWspFile) : Option ℕ := match f.fail with
  | some 0 => some 1
  | some 1 => some (2 + f.nRows)
  | some 2 => some (4 + f.nRows)
  | some 3 => some (5 + f.nRows)
  | some 4 => some (7 + f.nRows + f.nEl)
  | some 5 => some (8 + f.nRows + f.nEl)
  | some 6 => some (11 + f.nRows + f.nEl)
  | _ => none

theorem fwspRead_spec (f : FWspFile) (hf : f.Fits) :
    Triple 0 (fwspRead f) (fun w Y => f.lost = none ∧ FWspAt w Y ∧ w.ncls = f.ncls ∧ w.bin.nBands = f.nBands ∧ w.fs.pix = f.pix)
      (fun Y => f.lost = some Y.card) := by
  unfold fwspRead
  refine triple_mallocP fun s => triple_check (fun e => by simp [FWspFile.lost, e]) fun e0 => ?_
  refine triple_new (allocPtrs_spec _) fun unb Xu hu => triple_check (fun e => ?_) fun e1 => triple_new (infoAlloc_spec _) fun i Xi hi =>
    triple_check (fun e => ?_) fun e2 => triple_mallocP fun nc => triple_check (fun e => ?_) fun e3 => triple_mallocP fun m =>
    triple_new (allocPtrs_spec _) fun bnd Xn hn => triple_check (fun e => ?_) fun e4 => triple_mallocP fun g => triple_free
    (triple_mallocP fun pI => triple_mallocP fun p => triple_free (triple_check (fun e => ?_) fun e5 => triple_new (fbinsCreate_spec _)
    fun b Xb hb => triple_check (fun e => ?_) fun e6 => triple_pure ⟨?_, ⟨{s}, Xb, Xi, {nc}, Xu, Xn, {g}, {p}, ⟨s, rfl, rfl⟩, hb.1, hi.1,
      ⟨nc, rfl, rfl⟩, ?_, ?_, ⟨g, rfl, rfl⟩, ⟨p, rfl, rfl⟩, ?_⟩, rfl, hb.2, hi.2⟩))
  · simp only [FWspFile.lost, e, Multiset.card_add, Multiset.card_singleton, Multiset.card_zero, ptrs_card hu]
    congr 1; omega
  · simp only [FWspFile.lost, e, Multiset.card_add, Multiset.card_singleton, Multiset.card_zero, ptrs_card hu, hi.1.card]
    congr 1; omega
  · simp only [FWspFile.lost, e, Multiset.card_add, Multiset.card_singleton, Multiset.card_zero, ptrs_card hu, hi.1.card]
    congr 1; omega
  · simp only [FWspFile.lost, e, Multiset.card_add, Multiset.card_singleton, Multiset.card_zero, ptrs_card hu, hi.1.card, ptrs_card hn]
    congr 1; omega
  · simp only [FWspFile.lost, e, Multiset.card_add, Multiset.card_singleton, Multiset.card_zero, ptrs_card hu, hi.1.card, ptrs_card hn]
    congr 1; omega
  · simp only [FWspFile.lost, e, Multiset.card_add, Multiset.card_singleton, Multiset.card_zero, ptrs_card hu, hi.1.card, ptrs_card hn,
      hb.1.card]
    congr 1; omega
  · unfold FWspFile.lost
    split <;> first | rfl | (exfalso; tauto)
  · rw [FWsp.rows, hb.2, ← hf.1]; exact hu
  · rw [FWsp.rows, hb.2, ← hf.2]; exact hn
  · abel

/-- Blocks lost when reading fails. -/
def FCovFile.lost (f : FCovFile) : Option ℕ := match f.fail with
  | none => none
  | some 0 => some 1
  | some k => if k < 18 then some (4 + (k - 1) / 2 * (1 + f.nBands)) else none

theorem fcoeffsRead_spec (fail : Option ℕ) (k n : ℕ) :
    Triple 0 (coeffsRead fail k n) (fun a Y => fail ≠ some k ∧ fail ≠ some (k + 1) ∧ ArrAt PtrAt n a Y)
      (fun Y => (fail = some k ∧ Y.card = 0) ∨ (fail = some (k + 1) ∧ Y.card = 1 + n)) := by
  unfold coeffsRead
  refine triple_check (fun e => Or.inl ⟨e, rfl⟩) fun e1 => triple_mallocP fun m =>
    triple_new (allocPtrs_spec _) fun a X hX => triple_free (triple_check (fun e => ?_) fun e2 => triple_pure ⟨e1, e2, ?_⟩)
  · exact Or.inr ⟨e, by rw [add_zero]; exact ptrs_card hX⟩
  · rw [add_zero]
    exact hX

theorem readTabs_spec (fail : Option ℕ) (n k m : ℕ) :
    Triple 0 (readTabs fail n k m) (fun l Y => (∀ j, fail = some j → ¬(k ≤ j ∧ j < k + 2 * m)) ∧ l.length = m ∧
      ∃ Xs, List.Forall₂ (ArrAt PtrAt n) l Xs ∧ Y = Xs.sum)
      (fun Y => ∃ j, fail = some j ∧ k ≤ j ∧ j < k + 2 * m ∧ Y.card = (j - k + 1) / 2 * (1 + n)) := by
  induction m generalizing k with
  | zero => exact triple_pure ⟨fun j _ h => by omega, rfl, [], List.Forall₂.nil, rfl⟩
  | succ m ih =>
    unfold readTabs
    refine triple_newE (fcoeffsRead_spec fail k n) ?_ ?_
    · rintro Y (⟨e, h⟩ | ⟨e, h⟩)
      · exact ⟨k, e, le_rfl, by omega, by simp [h]⟩
      · refine ⟨k + 1, e, by omega, by omega, ?_⟩
        rw [add_zero, h, show (k + 1 - k + 1) / 2 = 1 by omega, one_mul]
    · rintro t Z ⟨e1, e2, hZ⟩
      refine triple_newE (ih (k + 2)) ?_ ?_
      · rintro Y ⟨j, e, h1, h2, h3⟩
        refine ⟨j, e, by omega, by omega, ?_⟩
        rw [Multiset.card_add, Multiset.card_add, h3, ptrs_card hZ, show (j - k + 1) / 2 = (j - (k + 2) + 1) / 2 + 1 by omega, add_mul,
          one_mul, Multiset.card_zero, add_zero]
      · rintro l Y ⟨hno, hl, Xs, hF, rfl⟩
        refine triple_pure ⟨fun j e h => ?_, by simp [hl], Z :: Xs, List.Forall₂.cons hZ hF, ?_⟩
        · by_cases hj : j = k
          · exact e1 (hj ▸ e)
          · by_cases hj' : j = k + 1
            · exact e2 (hj' ▸ e)
            · exact hno j e ⟨by omega, by omega⟩
        · rw [List.sum_cons, add_zero, add_comm]

theorem fcovRead_spec (f : FCovFile) :
    Triple 0 (fcovRead f) (fun cw Y => f.lost = none ∧ FCovAt cw Y ∧ cw.bin.nBands = f.nBands) (fun Y => f.lost = some Y.card) := by
  unfold fcovRead
  refine triple_mallocP fun s => triple_check (fun e => by simp [FCovFile.lost, e]) fun e0 => triple_new (fbinsCreate_spec _) ?_
  rintro b Xb ⟨hb, en⟩
  refine triple_check (fun e => by simp [FCovFile.lost, e, hb.card]) fun e1 => triple_newE (readTabs_spec _ _ _ _) ?_ ?_
  · rintro Y ⟨j, e, h1, h2, h3⟩
    obtain ⟨i, rfl⟩ : ∃ i, j = i + 1 := ⟨j - 1, by omega⟩
    simp only [FCovFile.lost, e]
    rw [if_pos (by omega), Multiset.card_add, h3, Multiset.card_add, hb.card, show i + 1 - 2 + 1 = i + 1 - 1 by omega]
    congr 1
    simp
    omega
  · rintro l Y ⟨hno, hl, Xs, hF, rfl⟩
    refine triple_pure ⟨?_, ⟨hl, {s}, Xb, Xs, ⟨s, rfl, rfl⟩, hb, by rw [en]; exact hF, by abel⟩, en⟩
    unfold FCovFile.lost
    split
    · rfl
    · next e => exact absurd e e0
    · next k hk e =>
      rw [if_neg]
      intro hlt
      by_cases h1 : k = 0
      · exact e0 (h1 ▸ e)
      · by_cases h2 : k = 1
        · exact e1 (h2 ▸ e)
        · exact hno k e ⟨by omega, by omega⟩

end

end MemF

end NaMaster
