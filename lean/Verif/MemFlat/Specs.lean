import Verif.MemFlat.Rules

/-!
# What the functions of `MemFlat/Model.lean` that create and destroy structures do to the allocated blocks
-/

namespace NaMaster

namespace MemF

open Mem

/-! ## Binning schemes, functions of the wave number, pixels -/

/-- The blocks of a binning scheme. -/
def FBinsAt (b : FBins) (X : Multiset ℕ) : Prop :=
  ∃ X1 X2 X3, PtrAt b.self X1 ∧ PtrAt b.ell0 X2 ∧ PtrAt b.ellf X3 ∧ X = X1 + (X2 + X3)

/-- A binning scheme can be read. -/
def HasBins (P : Multiset ℕ) (b : FBins) : Prop := Has P b.self ∧ Has P b.ell0 ∧ Has P b.ellf

/-- Blocks of something that is allocated if `c`; otherwise it has no blocks and may be anything. -/
def IfAt {α : Type} (c : Bool) (B : α → Multiset ℕ → Prop) (a : α) (X : Multiset ℕ) : Prop := if c then B a X else X = 0

/-- The blocks of a function of the wave number. -/
def KAt (k : KFun) (X : Multiset ℕ) : Prop := ∃ X1 X2, PtrAt k.self X1 ∧ IfAt (!k.isConst) PtrAt k.spl X2 ∧ X = X1 + X2

/-- Such a function can be evaluated. -/
def HasK (P : Multiset ℕ) (k : KFun) : Prop := Has P k.self ∧ (k.isConst = false → Has P k.spl)

/-- The blocks of a description of pixels. -/
def InfoAt (i : FInfo) (X : Multiset ℕ) : Prop := ∃ X1 X2, PtrAt i.self X1 ∧ PtrAt i.ellMin X2 ∧ X = X1 + X2

/-- Such a description can be read. -/
def HasInfo (P : Multiset ℕ) (i : FInfo) : Prop := Has P i.self ∧ Has P i.ellMin

section
variable {α β : Type} {P P' X : Multiset ℕ}

theorem le1 {Y Z : Multiset ℕ} : Y ≤ Y + Z := Multiset.le_add_right _ _

theorem leR {Y Z W : Multiset ℕ} (h : Y ≤ Z) : Y ≤ W + Z := h.trans (Multiset.le_add_left _ _)

theorem HasBins.mono {b : FBins} (h : HasBins P b) (hP : P ≤ P') : HasBins P' b := ⟨h.1.mono hP, h.2.1.mono hP, h.2.2.mono hP⟩

theorem HasK.mono {k : KFun} (h : HasK P k) (hP : P ≤ P') : HasK P' k := ⟨h.1.mono hP, fun e => (h.2 e).mono hP⟩

theorem HasInfo.mono {i : FInfo} (h : HasInfo P i) (hP : P ≤ P') : HasInfo P' i := ⟨h.1.mono hP, h.2.mono hP⟩

theorem FBinsAt.has {b : FBins} (h : FBinsAt b X) (hX : X ≤ P) : HasBins P b := by
  obtain ⟨X1, X2, X3, h1, h2, h3, rfl⟩ := h
  exact ⟨PtrAt.has h1 (le1.trans hX), PtrAt.has h2 ((leR le1).trans hX), PtrAt.has h3 ((leR (leR le_rfl)).trans hX)⟩

theorem KAt.has {k : KFun} (h : KAt k X) (hX : X ≤ P) : HasK P k := by
  obtain ⟨X1, X2, h1, h2, rfl⟩ := h
  refine ⟨PtrAt.has h1 (le1.trans hX), fun e => ?_⟩
  rw [e] at h2
  exact PtrAt.has h2 ((leR le_rfl).trans hX)

theorem InfoAt.has {i : FInfo} (h : InfoAt i X) (hX : X ≤ P) : HasInfo P i := by
  obtain ⟨X1, X2, h1, h2, rfl⟩ := h
  exact ⟨PtrAt.has h1 (le1.trans hX), PtrAt.has h2 ((leR le_rfl).trans hX)⟩

theorem useEdges_reads {b : FBins} (h : HasBins P b) : Reads P (useEdges b) := h.1.use.seq (h.2.1.use.seq h.2.2.use)

theorem kEval_reads {k : KFun} (h : HasK P k) : Reads P (kEval k) :=
  h.1.use.seq (Reads.when fun e => (h.2 (by simpa using e)).use)

theorem fbinsCreate_spec (n : ℕ) :
    Triple 0 (fbinsCreate n) (fun b Y => FBinsAt b Y ∧ b.nBands = n) (fun _ => False) := by
  unfold fbinsCreate
  refine triple_mallocP fun s => triple_mallocP fun a => triple_mallocP fun c => triple_pure ⟨?_, rfl⟩
  exact ⟨{s}, {a}, {c}, ⟨s, rfl, rfl⟩, ⟨a, rfl, rfl⟩, ⟨c, rfl, rfl⟩, by abel⟩

theorem fbinsFree_frees {b : FBins} (h : FBinsAt b X) : Frees X (fbinsFree b) := by
  obtain ⟨self, n, l0, lf⟩ := b
  obtain ⟨_, _, _, ⟨s, h1, rfl⟩, ⟨x, h2, rfl⟩, ⟨y, h3, rfl⟩, rfl⟩ := h
  dsimp only at h1 h2 h3
  subst h1 h2 h3
  unfold fbinsFree
  exact triple_freeM (triple_freeM (triple_last (triple_free (triple_pure rfl))))

theorem FBinsAt.card {b : FBins} (h : FBinsAt b X) : X.card = 3 := by
  obtain ⟨_, _, _, ⟨s, h1, rfl⟩, ⟨x, h2, rfl⟩, ⟨y, h3, rfl⟩, rfl⟩ := h
  rfl

theorem optAt_toIf {c : Bool} {B : α → Multiset ℕ → Prop} {z a : α} (h : OptAt c B z a X) : IfAt c B a X := by
  cases c
  · exact h.2
  · exact h

theorem kAlloc_spec (c : Bool) : Triple 0 (kAlloc c) (fun k Y => KAt k Y ∧ k.isConst = c) (fun _ => False) := by
  unfold kAlloc
  refine triple_mallocP fun s => ?_
  cases c
  · exact triple_mallocP fun p => triple_pure ⟨⟨{s}, {p}, ⟨s, rfl, rfl⟩, ⟨p, rfl, rfl⟩, by abel⟩, rfl⟩
  · exact triple_bind (Q1 := fun _ Y => Y = {s} + 0) (triple_pure rfl)
      (by rintro p Y rfl; exact triple_pure ⟨⟨{s}, 0, ⟨s, rfl, rfl⟩, rfl, by abel⟩, rfl⟩)

theorem kFree_frees {k : KFun} (h : KAt k X) : Frees X (kFree k) := by
  obtain ⟨self, c, spl⟩ := k
  obtain ⟨_, X2, ⟨s, h1, rfl⟩, h2, rfl⟩ := h
  dsimp only at h1 h2
  subst h1
  unfold kFree
  refine triple_use ?_
  cases c
  · obtain ⟨p, rfl, rfl⟩ := h2
    exact triple_freeM (triple_last (triple_free (triple_pure rfl)))
  · obtain rfl : X2 = 0 := h2
    rw [add_zero]
    exact triple_last (triple_free (triple_pure rfl))

theorem KAt.card {k : KFun} (h : KAt k X) (hc : k.isConst = false) : X.card = 2 := by
  obtain ⟨_, _, ⟨s, h1, rfl⟩, h2, rfl⟩ := h
  rw [hc] at h2
  obtain ⟨p, -, rfl⟩ := h2
  rfl

theorem infoAlloc_spec (p : FPix) : Triple 0 (infoAlloc p) (fun i Y => InfoAt i Y ∧ i.pix = p) (fun _ => False) := by
  unfold infoAlloc
  refine triple_mallocP fun s => triple_mallocP fun a => triple_pure ⟨?_, rfl⟩
  exact ⟨{s}, {a}, ⟨s, rfl, rfl⟩, ⟨a, rfl, rfl⟩, by abel⟩

theorem infoFree_frees {i : FInfo} (h : InfoAt i X) : Frees X (infoFree i) := by
  obtain ⟨self, p, e⟩ := i
  obtain ⟨_, _, ⟨s, h1, rfl⟩, ⟨x, h2, rfl⟩, rfl⟩ := h
  dsimp only at h1 h2
  subst h1 h2
  unfold infoFree
  exact triple_freeM (triple_last (triple_free (triple_pure rfl)))

theorem InfoAt.card {i : FInfo} (h : InfoAt i X) : X.card = 2 := by
  obtain ⟨_, _, ⟨s, h1, rfl⟩, ⟨x, h2, rfl⟩, rfl⟩ := h
  rfl

end

/-! ## Fields -/

/-- Sets of maps. -/
abbrev TempsAt (nt n : ℕ) : PArr (PArr Ptr) → Multiset ℕ → Prop := ArrAt (ArrAt PtrAt n) nt

/-- Sets of maps can be read. -/
abbrev Sets (P : Multiset ℕ) (nt n : ℕ) (t : PArr (PArr Ptr)) : Prop := HasArr P (Arr P n) nt t

/-- Sets of python maps can be read. -/
abbrev PySets (P : Multiset ℕ) (nt n : ℕ) (t : PArr (PArr Bool)) : Prop := HasArr P (PyArr P n) nt t

/-- The blocks of the maps of a field and of what is computed from them. -/
def MapsAt (f : FFld) (X : Multiset ℕ) : Prop :=
  ∃ Xa XM Xm Xt Xat Xam, IfAt (!f.maskOnly) (ArrAt PtrAt f.nmaps) f.alms Xa ∧
    IfAt (!f.maskOnly && decide (0 < f.ntemp)) PtrAt f.matM XM ∧ IfAt (!f.lite) (ArrAt PtrAt f.nmaps) f.maps Xm ∧
    IfAt (!f.lite && decide (0 < f.ntemp)) (TempsAt f.ntemp f.nmaps) f.temp Xt ∧
    IfAt (!f.lite && decide (0 < f.ntemp)) (TempsAt f.ntemp f.nmaps) f.aTemp Xat ∧
    OptAt (!f.lite && f.pure) (ArrAt PtrAt f.nmaps) nullArr f.aMask Xam ∧
    X = Xa + (XM + (Xm + (Xt + (Xat + Xam))))

/-- The blocks of a field. -/
def FldAt (f : FFld) (X : Multiset ℕ) : Prop :=
  (f.maskOnly = true → f.lite = true) ∧ ∃ Xs Xb Xi Xk Z, PtrAt f.self Xs ∧ KAt f.beam Xb ∧ InfoAt f.fs Xi ∧ PtrAt f.mask Xk ∧
    MapsAt f Z ∧ X = Xs + (Xb + (Xi + (Xk + Z)))

/-- What functions that use a field need. -/
structure HasFld (P : Multiset ℕ) (f : FFld) : Prop where
  self : Has P f.self
  beam : HasK P f.beam
  fs : HasInfo P f.fs
  mask : Has P f.mask
  maskOnly : f.maskOnly = true → f.lite = true
  alms : f.maskOnly = false → Arr P f.nmaps f.alms
  matM : f.maskOnly = false → 0 < f.ntemp → Has P f.matM
  maps : f.lite = false → Arr P f.nmaps f.maps
  temp : f.lite = false → 0 < f.ntemp → Sets P f.ntemp f.nmaps f.temp
  aTemp : f.lite = false → 0 < f.ntemp → Sets P f.ntemp f.nmaps f.aTemp
  aMask : f.lite = false → f.pure = true → Arr P f.nmaps f.aMask

section
variable {P P' X : Multiset ℕ}

theorem sets_mono {nt n : ℕ} {t : PArr (PArr Ptr)} (h : Sets P nt n t) (hP : P ≤ P') : Sets P' nt n t :=
  h.imp hP fun _ hx => arr_mono hx hP

theorem pySets_mono {nt n : ℕ} {t : PArr (PArr Bool)} (h : PySets P nt n t) (hP : P ≤ P') : PySets P' nt n t :=
  h.imp hP fun _ hx => pyArr_mono hx hP

theorem tempsAt_sets {nt n : ℕ} {t : PArr (PArr Ptr)} (h : TempsAt nt n t X) (hX : X ≤ P) : Sets P nt n t :=
  ArrAt.has h hX fun _ _ => arrAt_arr

theorem HasFld.mono {f : FFld} (h : HasFld P f) (hP : P ≤ P') : HasFld P' f where
  self := h.self.mono hP
  beam := h.beam.mono hP
  fs := h.fs.mono hP
  mask := h.mask.mono hP
  maskOnly := h.maskOnly
  alms e := arr_mono (h.alms e) hP
  matM e e' := (h.matM e e').mono hP
  maps e := arr_mono (h.maps e) hP
  temp e e' := sets_mono (h.temp e e') hP
  aTemp e e' := sets_mono (h.aTemp e e') hP
  aMask e e' := arr_mono (h.aMask e e') hP

theorem FldAt.has {f : FFld} (h : FldAt f X) (hX : X ≤ P) : HasFld P f := by
  obtain ⟨h0, Xs, Xb, Xi, Xk, Z, h1, h2, h3, h4, ⟨Xa, XM, Xm, Xt, Xat, Xam, m1, m2, m3, m4, m5, m6, rfl⟩, rfl⟩ := h
  refine ⟨PtrAt.has h1 (le1.trans hX), h2.has ((leR le1).trans hX), h3.has ((leR (leR le1)).trans hX),
    PtrAt.has h4 ((leR (leR (leR le1))).trans hX), h0, fun e => ?_, fun e e' => ?_, fun e => ?_, fun e e' => ?_, fun e e' => ?_,
    fun e e' => ?_⟩
  · rw [e] at m1
    exact arrAt_arr m1 ((leR (leR (leR (leR le1)))).trans hX)
  · rw [e, decide_eq_true e'] at m2
    exact PtrAt.has m2 ((leR (leR (leR (leR (leR le1))))).trans hX)
  · rw [e] at m3
    exact arrAt_arr m3 ((leR (leR (leR (leR (leR (leR le1)))))).trans hX)
  · rw [e, decide_eq_true e'] at m4
    exact tempsAt_sets m4 ((leR (leR (leR (leR (leR (leR (leR le1))))))).trans hX)
  · rw [e, decide_eq_true e'] at m5
    exact tempsAt_sets m5 ((leR (leR (leR (leR (leR (leR (leR (leR le1)))))))).trans hX)
  · rw [e, e'] at m6
    exact arrAt_arr m6 ((leR (leR (leR (leR (leR (leR (leR (leR (leR le_rfl))))))))).trans hX)

theorem useTemps_reads {nt n : ℕ} {t : PArr (PArr Ptr)} (h : 0 < nt → Sets P nt n t) : Reads P (useTemps nt n t) :=
  Reads.loop fun _ hi => (h (by omega)).get hi fun _ hx => useArr_reads hx

theorem usePyTemps_reads {nt n : ℕ} {t : PArr (PArr Bool)} (h : 0 < nt → PySets P nt n t) : Reads P (usePyTemps nt n t) :=
  Reads.loop fun _ hi => (h (by omega)).get hi fun _ hx => usePyArr_reads hx

theorem allocTemps_spec (nt n : ℕ) : Triple 0 (allocTemps nt n) (TempsAt nt n) (fun _ => False) :=
  allocArr_spec nt fun _ _ => allocPtrs_spec n

theorem freeTemps_frees {nt n : ℕ} {t : PArr (PArr Ptr)} (h : TempsAt nt n t X) : Frees X (freeTemps nt n t) :=
  freeEach_frees h fun _ _ => freeArr_frees

theorem purify_reads {self mask : Ptr} {n : ℕ} {walm mapsIn alms : PArr Ptr} {out : Mem Unit} (hs : Has P self) (hm : Has P mask)
    (hw : Arr P n walm) (hi : Arr P n mapsIn) (ha : Arr P n alms) (ho : ∀ P', P ≤ P' → Reads P' out) :
    Reads P (purify self n mask walm mapsIn out alms) := by
  unfold purify
  refine hs.use.seq (withArr_reads fun P1 pmap l1 h1 => withArr_reads fun P2 wmap l2 h2 => withArr_reads fun P3 walm' l3 h3 =>
    withArr_reads fun P4 palm l4 h4 => withArr_reads fun P5 almOut l5 h5 => ?_)
  have l : P ≤ P5 := l1.trans (l2.trans (l3.trans (l4.trans l5)))
  exact (useArr_reads (arr_mono hw l)).seq ((useArr_reads (arr_mono h3 (l4.trans l5))).seq ((useArr_reads (arr_mono hi l)).seq
    ((hm.mono l).use.seq ((useArr_reads (arr_mono h1 (l2.trans (l3.trans (l4.trans l5))))).seq ((useArr_reads h5).seq
    ((useArr_reads (arr_mono h2 (l3.trans (l4.trans l5)))).seq ((useArr_reads (arr_mono h4 l5)).seq
    ((useArr_reads (arr_mono ha l)).seq (ho P5 l)))))))))

/-- The fields are purified, and the copies of the maps released. -/
theorem fldPurify_spec {a : FldArgs} {self mask : Ptr} {maps : PArr Bool} {temp : PArr (PArr Bool)} {mu alms : PArr Ptr}
    {tu aTemp : PArr (PArr Ptr)} {Xmu Xtu : Multiset ℕ} (hs : Has P self) (hm : Has P mask) (hmaps : PyArr P a.nmaps maps)
    (htemp : 0 < a.ntemp → PySets P a.ntemp a.nmaps temp) (hmu : ArrAt PtrAt a.nmaps mu Xmu)
    (htu : IfAt (decide (0 < a.ntemp)) (TempsAt a.ntemp a.nmaps) tu Xtu) (ha : Arr P a.nmaps alms)
    (hat : a.lite = false → 0 < a.ntemp → Sets P a.ntemp a.nmaps aTemp) :
    Triple (Xmu + (Xtu + P)) (fldPurify a self mask maps temp mu tu alms aTemp)
      (fun am Y => ∃ Z, OptAt (!a.lite) (ArrAt PtrAt a.nmaps) nullArr am Z ∧ Y = Z + P) (fun _ => False) := by
  unfold fldPurify
  refine triple_new (allocPtrs_spec _) fun am Xam ham => ?_
  have l : P ≤ Xam + (Xmu + (Xtu + P)) := leR (leR (leR le_rfl))
  have ham' : Arr (Xam + (Xmu + (Xtu + P))) a.nmaps am := arrAt_arr ham le1
  refine (purify_reads (hs.mono l) (hm.mono l) ham' (arrAt_arr hmu (leR le1)) (arr_mono ha l)
    fun P' hP => usePyArr_reads (pyArr_mono hmaps (l.trans hP))).bind ?_
  refine (Reads.when fun hc => ?_).bind ?_
  · simp only [Bool.and_eq_true, Bool.not_eq_true', decide_eq_true_eq] at hc
    rw [decide_eq_true hc.2] at htu
    refine Reads.loop fun it hit => ?_
    refine (tempsAt_sets htu (leR (leR le1))).get hit fun t ht => (pySets_mono (htemp hc.2) l).get hit fun o ho =>
      (sets_mono (hat hc.1 hc.2) l).get hit fun at' hat' => ?_
    exact purify_reads (hs.mono l) (hm.mono l) ham' ht hat' fun P' hP => usePyArr_reads (pyArr_mono ho hP)
  refine (freeArr_frees hmu).bind ?_
  have key : Triple (Xam + P) (pick a.lite (freeEach a.nmaps am free >>= fun _ => pure nullArr) (pure am))
      (fun am Y => ∃ Z, OptAt (!a.lite) (ArrAt PtrAt a.nmaps) nullArr am Z ∧ Y = Z + P) (fun _ => False) := by
    cases a.lite
    · exact triple_pure ⟨Xam, ham, rfl⟩
    · exact (freeArr_frees ham).bind (triple_pure ⟨0, ⟨rfl, rfl⟩, (zero_add _).symm⟩)
  by_cases hn : 0 < a.ntemp
  · rw [decide_eq_true hn] at htu ⊢
    exact (freeTemps_frees htu).bind key
  · rw [decide_eq_false hn] at htu ⊢
    obtain rfl : Xtu = 0 := htu
    rw [zero_add]
    exact key

theorem fldTransform_spec {a : FldArgs} {maps : PArr Bool} {temp : PArr (PArr Bool)} {alms : PArr Ptr} {aTemp : PArr (PArr Ptr)}
    (hmaps : PyArr P a.nmaps maps) (htemp : 0 < a.ntemp → PySets P a.ntemp a.nmaps temp) (ha : Arr P a.nmaps alms)
    (hat : a.lite = false → 0 < a.ntemp → Sets P a.ntemp a.nmaps aTemp) :
    Triple P (fldTransform a maps temp alms aTemp) (fun am Y => am = nullArr ∧ Y = P) (fun _ => False) := by
  unfold fldTransform
  refine (usePyArr_reads hmaps).bind ((useArr_reads ha).bind ((Reads.when fun hc => ?_).bind (triple_pure ⟨rfl, rfl⟩)))
  simp only [Bool.and_eq_true, Bool.not_eq_true', decide_eq_true_eq] at hc
  exact (usePyTemps_reads htemp).seq (useTemps_reads (hat hc.1))

theorem fldMaps_spec {a : FldArgs} {maps : PArr Bool} {temp : PArr (PArr Bool)} {self mask : Ptr} {fs : FInfo} {beam : KFun}
    (hs : Has P self) (hm : Has P mask) (hmaps : PyArr P a.nmaps maps) (htemp : 0 < a.ntemp → PySets P a.ntemp a.nmaps temp) :
    Triple P (fldMaps a maps temp self fs beam mask) (fun f Y => ∃ Z, MapsAt f Z ∧ f.maskOnly = false ∧ f.self = self ∧ f.fs = fs ∧
      f.beam = beam ∧ f.mask = mask ∧ f.spin = a.spin ∧ f.ntemp = a.ntemp ∧ f.lite = a.lite ∧ f.pure = a.pure ∧ Y = Z + P)
      (fun _ => False) := by
  unfold fldMaps
  refine triple_new (pick_spec (allocPtrs_spec _)) fun mu Xmu hmu => triple_new (pick_spec (allocTemps_spec _ _)) fun tu Xtu htu => ?_
  refine (usePyArr_reads (pyArr_mono hmaps (leR (leR le_rfl)))).bind ((Reads.when fun hc => usePyTemps_reads fun h =>
    pySets_mono (htemp h) (leR (leR le_rfl))).bind (triple_new (pick_spec mallocP_spec) fun matM XM hM => ?_))
  refine (Reads.when fun hc => ?_).bind (triple_new (allocPtrs_spec _) fun alms Xa ha => ?_)
  · rw [hc] at hM htu
    refine triple_mallocP fun b => (PtrAt.has hM (leR le1)).use.bind ((Reads.when fun hp => ?_).bind
      (triple_last (triple_free (triple_pure rfl))))
    rw [hp] at hmu htu
    exact (useArr_reads (arrAt_arr hmu (leR (leR (leR le1))))).seq (useTemps_reads fun _ => tempsAt_sets htu (leR (leR le1)))
  have hAT : Triple 0 (pick a.lite (pure nullArr) (pick (decide (0 < a.ntemp)) (allocTemps a.ntemp a.nmaps) (pure default)))
      (IfAt (!a.lite && decide (0 < a.ntemp)) (TempsAt a.ntemp a.nmaps)) (fun _ => False) := by
    cases a.lite
    · exact triple_mono (pick_spec (allocTemps_spec _ _)) (fun _ _ h => optAt_toIf h) fun _ h => h
    · exact triple_pure rfl
  refine triple_new hAT fun aTemp Xat hat => ?_
  have hat' : a.lite = false → 0 < a.ntemp → Sets (Xat + (Xa + (XM + P))) a.ntemp a.nmaps aTemp := fun e e' => by
    rw [e, decide_eq_true e'] at hat
    exact tempsAt_sets hat le1
  have l : P ≤ Xat + (Xa + (XM + P)) := leR (leR (leR le_rfl))
  have ha' : Arr (Xat + (Xa + (XM + P))) a.nmaps alms := arrAt_arr ha (leR le1)
  refine triple_bind (Q1 := fun am Y => ∃ Z, OptAt (!a.lite && a.pure) (ArrAt PtrAt a.nmaps) nullArr am Z ∧
    Y = Z + (Xat + (Xa + (XM + P)))) ?_ ?_
  · cases hp : a.pure
    · rw [hp] at hmu htu
      obtain ⟨-, rfl⟩ := hmu
      obtain ⟨-, rfl⟩ : tu = default ∧ Xtu = 0 := htu
      rw [zero_add, zero_add]
      refine triple_mono (fldTransform_spec (pyArr_mono hmaps l) (fun h => pySets_mono (htemp h) l) ha' hat') ?_ fun _ h => h
      rintro am Y ⟨rfl, rfl⟩
      rw [Bool.and_false]
      exact ⟨0, ⟨rfl, rfl⟩, (zero_add _).symm⟩
    · rw [hp] at hmu htu
      rw [Bool.and_true]
      refine triple_congr ?_ (fldPurify_spec (hs.mono l) (hm.mono l) (pyArr_mono hmaps l) (fun h => pySets_mono (htemp h) l) hmu
        (optAt_toIf htu) ha' hat')
      abel
  rintro am Y ⟨Xam, ham, rfl⟩
  refine triple_new (Q1 := IfAt (!a.lite) (ArrAt PtrAt a.nmaps)) ?_ fun mps Xm hmp => triple_new (pick_spec (allocTemps_spec _ _)) fun tmp Xt ht => ?_
  · cases a.lite
    · exact allocPtrs_spec _
    · exact triple_pure rfl
  refine triple_pure ⟨Xa + (XM + (Xm + (Xt + (Xat + Xam)))), ⟨Xa, XM, Xm, Xt, Xat, Xam, ha, optAt_toIf hM, hmp, optAt_toIf ht, hat, ham, rfl⟩, rfl,
    rfl, rfl, rfl, rfl, rfl, rfl, rfl, rfl, ?_⟩
  abel

/-- What python sees to: purified fields have spin 2 (pymaster/field.py:667). -/
def FldArgs.Valid (a : FldArgs) : Prop := a.pure = true → a.spin = 2

theorem fldAlloc_spec {a : FldArgs} {maps : PArr Bool} {temp : PArr (PArr Bool)} (hv : a.Valid)
    (hmaps : a.maskOnly = false → PyArr P a.nmaps maps)
    (htemp : a.maskOnly = false → 0 < a.ntemp → PySets P a.ntemp a.nmaps temp) :
    Triple P (fldAlloc a maps temp) (fun f Y => ∃ Z, FldAt f Z ∧ f.spin = a.spin ∧ f.ntemp = a.ntemp ∧ f.pure = a.pure ∧
      f.maskOnly = a.maskOnly ∧ f.lite = (a.maskOnly || a.lite) ∧ f.fs.pix = a.pix ∧ Y = Z + P) (fun _ => False) := by
  unfold fldAlloc
  refine triple_mallocP fun s => triple_new (infoAlloc_spec _) ?_
  rintro fs Xi ⟨hi, hpix⟩
  have hv' : (a.pure && decide (a.spin ≠ 2)) = false := by
    cases h : a.pure
    · rfl
    · simp [hv h]
  rw [hv']
  refine triple_whenC (fun h => by simp at h) (fun _ => triple_new (kAlloc_spec _) ?_)
  rintro beam Xb ⟨hb, -⟩
  refine triple_mallocP fun m => ?_
  cases hmo : a.maskOnly
  · rw [if_neg (by simp)]
    have l : P ≤ {m} + (Xb + (Xi + ({s} + P))) := leR (leR (leR (leR le_rfl)))
    refine triple_mono (fldMaps_spec (P := {m} + (Xb + (Xi + ({s} + P)))) (self := .to s) (mask := .to m)
      ⟨s, rfl, by simp⟩ ⟨m, rfl, by simp⟩ (pyArr_mono (hmaps hmo) l)
      (fun h => pySets_mono (htemp hmo h) l)) ?_ fun _ h => h
    rintro f Y ⟨Z, hZ, e0, e1, e2, e3, e4, e5, e6, e7, e8, rfl⟩
    refine ⟨{s} + (Xb + (Xi + ({m} + Z))), ⟨fun h => by simp [e0] at h, {s}, Xb, Xi, {m}, Z, ⟨s, e1, rfl⟩, e3 ▸ hb, e2 ▸ hi, ⟨m, e4, rfl⟩,
      hZ, rfl⟩, e5, e6, e8, e0, by rw [e7, Bool.false_or], by rw [e2, hpix], ?_⟩
    abel
  · rw [if_pos rfl]
    refine triple_pure ⟨{s} + (Xb + (Xi + ({m} + 0))), ⟨fun _ => rfl, {s}, Xb, Xi, {m}, 0, ⟨s, rfl, rfl⟩, hb, hi, ⟨m, rfl, rfl⟩,
      ⟨0, 0, 0, 0, 0, 0, rfl, rfl, rfl, rfl, rfl, ⟨rfl, rfl⟩, rfl⟩, rfl⟩, rfl, rfl, rfl, rfl, rfl, hpix, ?_⟩
    abel

theorem fldEmpty_spec {a : FldArgs} (hv : a.Valid) :
    Triple 0 (fldEmpty a) (fun f Y => FldAt f Y ∧ f.spin = a.spin ∧ f.ntemp = 0 ∧ f.maskOnly = true ∧ f.lite = true ∧ f.fs.pix = a.pix)
      (fun _ => False) := by
  refine triple_mono (fldAlloc_spec (a := { a with maskOnly := true, lite := true, ntemp := 0 }) hv (fun h => by simp at h)
    (fun h => by simp at h)) ?_ fun _ h => h
  rintro f Y ⟨Z, hZ, e1, e2, e3, e4, e5, e6, rfl⟩
  rw [add_zero]
  exact ⟨hZ, e1, e2, e4, e5, e6⟩

theorem fldNew_spec {a : FldArgs} (hv : a.Valid) (templates : Bool) :
    Triple 0 (fldNew a templates) (fun f Y => FldAt f Y ∧ f.spin = a.spin ∧ f.ntemp = (if templates then a.ntemp else 0) ∧
      f.maskOnly = false ∧ f.lite = a.lite ∧ f.fs.pix = a.pix) (fun _ => False) := by
  unfold fldNew
  let B : PArr Bool → Multiset ℕ → Prop := fun r Y => PtrAt r.ptr Y ∧ r.elems = List.replicate a.nmaps true
  have hrow : Triple 0 (do let o ← mallocP; pure (⟨o, List.replicate a.nmaps true⟩ : PArr Bool)) B (fun _ => False) :=
    triple_mallocP fun o => triple_pure ⟨⟨o, rfl, by simp⟩, rfl⟩
  refine triple_new (pick_spec (B := ArrAt B a.ntemp) (allocArr_spec _ fun _ _ => hrow)) fun temp Xt ht => triple_mallocP fun o => ?_
  have hB : ∀ x Y, B x Y → Y ≤ {o} + (Xt + 0) → PyArr ({o} + (Xt + 0)) a.nmaps x := fun x Y hx hY => by
    obtain ⟨p, l⟩ := x
    obtain ⟨⟨b, rfl, rfl⟩, rfl⟩ := hx
    exact pyArr_new (Multiset.singleton_le.1 hY)
  refine triple_bind (fldAlloc_spec (P := {o} + (Xt + 0))
    (a := { a with maskOnly := false, ntemp := if templates then a.ntemp else 0 }) hv (fun _ => pyArr_new (by simp)) fun _ hn => ?_) ?_
  · cases templates
    · simp at hn
    · exact ArrAt.has ht (leR le1) hB
  · rintro f Y ⟨Z, hZ, e1, e2, e3, e4, e5, e6, rfl⟩
    have hpost : ∀ {Y}, Y = Z → FldAt f Y ∧ f.spin = a.spin ∧ f.ntemp = (if templates then a.ntemp else 0) ∧
        f.maskOnly = false ∧ f.lite = a.lite ∧ f.fs.pix = a.pix := by
      rintro Y rfl
      exact ⟨hZ, e1, e2, e4, e5, e6⟩
    cases templates
    · obtain ⟨-, rfl⟩ := ht
      refine triple_whenC (fun h => by simp at h) (fun _ => triple_free (triple_pure (hpost ?_)))
      simp
    · refine triple_whenC (fun _ => ?_) (fun h => by simp at h)
      exact (freeEach_frees ht fun _ _ hx => PtrAt.frees hx.1).bind (triple_free (triple_pure (hpost (by simp))))

theorem whenFree {c : Bool} {α β : Type} {B : α → Multiset ℕ → Prop} {a : α} {m : Mem Unit} {f : Unit → Mem β} {Q : β → Multiset ℕ → Prop}
    {E : Multiset ℕ → Prop} (h : IfAt c B a X) (hm : c = true → B a X → Frees X m) [t : Take X P P'] (h2 : Triple P' (f ()) Q E) :
    Triple P (whenC c m >>= f) Q E := by
  refine triple_whenC (fun e => ?_) (fun e => ?_)
  · rw [e] at h
    exact (hm e h).bind h2
  · rw [e] at h
    obtain rfl : X = 0 := h
    exact triple_congr (by rw [t.eq, zero_add]) h2

theorem fldFree_frees {f : FFld} (h : FldAt f X) : Frees X (fldFree f) := by
  obtain ⟨h0, _, Xb, Xi, _, Z, ⟨s, hs, rfl⟩, hb, hi, ⟨m, hm, rfl⟩, ⟨Xa, XM, Xm, Xt, Xat, Xam, m1, m2, m3, m4, m5, m6, rfl⟩, rfl⟩ := h
  unfold fldFree
  rw [hs, hm]
  refine triple_use ((kFree_frees hb).bind (triple_use ((infoFree_frees hi).bind (triple_freeM ?_))))
  have hself : ∀ {Y : Multiset ℕ}, Has ({s} + Y) (.to s) := ⟨s, rfl, by simp⟩
  have part1 : Triple ({s} + (Xa + XM)) (whenC (!f.maskOnly) do
      use (.to s)
      freeEach f.nmaps f.alms free
      whenC (decide (0 < f.ntemp)) (freeM (.to s) f.matM)) (fun _ Y => Y = {s}) (fun _ => False) := by
    cases hmo : f.maskOnly
    · rw [hmo] at m1 m2
      rw [Bool.not_false, Bool.true_and] at m2
      refine triple_use ((freeArr_frees m1).bind ?_)
      by_cases hn : 0 < f.ntemp
      · rw [decide_eq_true hn] at m2 ⊢
        obtain ⟨b, e, rfl⟩ := m2
        rw [e]
        exact triple_last (triple_freeM (triple_pure (by simp)))
      · rw [decide_eq_false hn] at m2 ⊢
        obtain rfl : XM = 0 := m2
        exact triple_pure (by simp)
    · rw [hmo] at m1 m2
      obtain rfl : Xa = 0 := m1
      obtain rfl : XM = 0 := m2
      exact triple_pure (by simp)
  have part2 : Triple ({s} + (Xm + (Xt + (Xat + Xam)))) (whenC (!f.lite) do
      use (.to s)
      freeEach f.nmaps f.maps free
      whenC (decide (0 < f.ntemp)) do
        use (.to s)
        freeTemps f.ntemp f.nmaps f.temp
        freeTemps f.ntemp f.nmaps f.aTemp
      use (.to s)
      whenC (decide (f.aMask.ptr ≠ .null)) (freeEach f.nmaps f.aMask free)) (fun _ Y => Y = {s}) (fun _ => False) := by
    cases hl : f.lite
    · rw [hl] at m3 m4 m5 m6
      rw [Bool.not_false, Bool.true_and] at m4 m5 m6
      refine triple_use ((freeArr_frees m3).bind ?_)
      have last : Triple ({s} + Xam) (do
          use (.to s)
          whenC (decide (f.aMask.ptr ≠ .null)) (freeEach f.nmaps f.aMask free)) (fun _ Y => Y = {s}) (fun _ => False) := by
        refine triple_use ?_
        cases hp : f.pure
        · rw [hp] at m6
          obtain ⟨e, rfl⟩ := m6
          rw [e]
          exact triple_pure (by simp)
        · rw [hp] at m6
          obtain ⟨o, l, Xs, e, hl', hF, rfl⟩ := id m6
          rw [show (decide (f.aMask.ptr ≠ .null)) = true by rw [e]; simp]
          exact triple_last ((freeArr_frees m6).bind (triple_pure (by simp)))
      by_cases hn : 0 < f.ntemp
      · rw [decide_eq_true hn] at m4 m5 ⊢
        refine triple_whenC (fun _ => ?_) (fun h => by simp at h)
        rw [mem_assoc]
        refine triple_use ?_
        rw [mem_assoc]
        exact (freeTemps_frees m4).bind ((freeTemps_frees m5).bind last)
      · rw [decide_eq_false hn] at m4 m5 ⊢
        obtain rfl : Xt = 0 := m4
        obtain rfl : Xat = 0 := m5
        rw [zero_add, zero_add]
        exact last
    · rw [hl] at m3 m4 m5 m6
      obtain rfl : Xm = 0 := m3
      obtain rfl : Xt = 0 := m4
      obtain rfl : Xat = 0 := m5
      obtain ⟨-, rfl⟩ : f.aMask = nullArr ∧ Xam = 0 := m6
      exact triple_pure (by simp)
  refine triple_callEq ({s} + (Xa + XM)) (Xm + (Xt + (Xat + Xam))) (by abel) part1 (fun _ h => h.elim) ?_
  rintro ⟨⟩ Y rfl
  refine triple_bind (triple_mono part2 (fun _ _ h => h) fun _ h => h.elim) ?_
  rintro ⟨⟩ Y rfl
  exact triple_free0 s

end

/-! ## Workspaces -/

/-- The blocks of a workspace. -/
def FWspAt (w : FWsp) (X : Multiset ℕ) : Prop :=
  ∃ X1 X2 X3 X4 X5 X6 X7 X8, PtrAt w.self X1 ∧ FBinsAt w.bin X2 ∧ InfoAt w.fs X3 ∧ PtrAt w.nCells X4 ∧
    ArrAt PtrAt w.rows w.unbinned X5 ∧ ArrAt PtrAt w.rows w.binned X6 ∧ PtrAt w.gsl X7 ∧ PtrAt w.perm X8 ∧
    X = X1 + (X2 + (X3 + (X4 + (X5 + (X6 + (X7 + X8))))))

/-- What functions that use a workspace need. -/
structure HasWsp (P : Multiset ℕ) (w : FWsp) : Prop where
  self : Has P w.self
  bin : HasBins P w.bin
  fs : HasInfo P w.fs
  nCells : Has P w.nCells
  unbinned : Arr P w.rows w.unbinned
  binned : Arr P w.rows w.binned
  gsl : Has P w.gsl
  perm : Has P w.perm

section
variable {P P' X : Multiset ℕ} {w : FWsp}

theorem HasWsp.mono (h : HasWsp P w) (hP : P ≤ P') : HasWsp P' w :=
  ⟨h.self.mono hP, h.bin.mono hP, h.fs.mono hP, h.nCells.mono hP, arr_mono h.unbinned hP, arr_mono h.binned hP, h.gsl.mono hP,
    h.perm.mono hP⟩

theorem FWspAt.has (h : FWspAt w X) (hX : X ≤ P) : HasWsp P w := by
  obtain ⟨X1, X2, X3, X4, X5, X6, X7, X8, h1, h2, h3, h4, h5, h6, h7, h8, rfl⟩ := h
  exact ⟨PtrAt.has h1 (le1.trans hX), h2.has ((leR le1).trans hX), h3.has ((leR (leR le1)).trans hX),
    PtrAt.has h4 ((leR (leR (leR le1))).trans hX), arrAt_arr h5 ((leR (leR (leR (leR le1)))).trans hX),
    arrAt_arr h6 ((leR (leR (leR (leR (leR le1))))).trans hX), PtrAt.has h7 ((leR (leR (leR (leR (leR (leR le1)))))).trans hX),
    PtrAt.has h8 ((leR (leR (leR (leR (leR (leR (leR le_rfl))))))).trans hX)⟩

theorem FWspAt.card (h : FWspAt w X) : X.card = 11 + 2 * w.rows := by
  obtain ⟨X1, X2, X3, X4, X5, X6, X7, X8, h1, h2, h3, h4, h5, h6, h7, h8, rfl⟩ := h
  simp only [Multiset.card_add, ptrAt_card h1, h2.card, h3.card, ptrAt_card h4, ptrs_card h5, ptrs_card h6, ptrAt_card h7,
    ptrAt_card h8]
  omega

theorem fwspNew_spec {fs : FInfo} {bin : FBins} (hf : HasInfo P fs) (hb : HasBins P bin) (ncls : ℕ) :
    Triple P (fwspNew ncls fs bin) (fun w Y => ∃ Z, FWspAt w Z ∧ w.ncls = ncls ∧ w.fs.pix = fs.pix ∧ w.bin.nBands = bin.nBands ∧
      Y = Z + P) (fun _ => False) := by
  unfold fwspNew
  refine triple_mallocP fun s => (useEdges_reads (hb.mono (leR le_rfl))).bind (triple_new (fbinsCreate_spec _) ?_)
  rintro b Xb ⟨hb', e1⟩
  refine (hf.1.mono (leR (leR le_rfl))).use.bind (triple_new (infoAlloc_spec _) ?_)
  rintro i Xi ⟨hi, e2⟩
  refine triple_mallocP fun nc => triple_new (allocPtrs_spec _) fun unb Xu hu => triple_new (allocPtrs_spec _) fun bnd Xn hn =>
    triple_mallocP fun g => triple_mallocP fun p => triple_pure ⟨_, ⟨{s}, Xb, Xi, {nc}, Xu, Xn, {g}, {p}, ⟨s, rfl, rfl⟩, hb', hi,
      ⟨nc, rfl, rfl⟩, ?_, ?_, ⟨g, rfl, rfl⟩, ⟨p, rfl, rfl⟩, rfl⟩, rfl, e2, e1, ?_⟩
  · rw [FWsp.rows, e1]; exact hu
  · rw [FWsp.rows, e1]; exact hn
  · abel

theorem fwspFree_frees (h : FWspAt w X) : Frees X (fwspFree w) := by
  obtain ⟨_, X2, X3, _, X5, X6, _, _, ⟨s, h1, rfl⟩, h2, h3, ⟨nc, h4, rfl⟩, h5, h6, ⟨g, h7, rfl⟩, ⟨p, h8, rfl⟩, rfl⟩ := h
  obtain ⟨c, hc⟩ : ∃ c, w.bin.self = .to c := by obtain ⟨_, _, _, ⟨c, hc, -⟩, -⟩ := h2; exact ⟨c, hc⟩
  unfold fwspFree
  rw [h1, h4, h7, h8]
  refine triple_freeM (triple_freeM (triple_use ?_))
  refine (Has.mono (h2.has le_rfl).1 (leR le1)).use.bind ((freeArr_frees h5).bind (triple_use ?_))
  refine (Has.mono (h2.has le_rfl).1 (leR le1)).use.bind ((freeArr_frees h6).bind (triple_freeM (triple_use ?_)))
  refine (fbinsFree_frees h2).bind (triple_use ((infoFree_frees h3).bind (triple_last (triple_free (triple_pure rfl)))))

end

/-! ## Covariance workspaces -/

/-- The blocks of a covariance workspace. -/
def FCovAt (cw : FCov) (X : Multiset ℕ) : Prop :=
  cw.xi.length = 8 ∧ ∃ X1 X2 Xs, PtrAt cw.self X1 ∧ FBinsAt cw.bin X2 ∧ List.Forall₂ (ArrAt PtrAt cw.bin.nBands) cw.xi Xs ∧
    X = X1 + (X2 + Xs.sum)

/-- What functions that use a covariance workspace need. -/
structure HasCov (P : Multiset ℕ) (cw : FCov) : Prop where
  self : Has P cw.self
  bin : HasBins P cw.bin
  xi : ∀ t ∈ cw.xi, Arr P cw.bin.nBands t

section
variable {P P' X : Multiset ℕ} {cw : FCov}

theorem HasCov.mono (h : HasCov P cw) (hP : P ≤ P') : HasCov P' cw :=
  ⟨h.self.mono hP, h.bin.mono hP, fun t ht => arr_mono (h.xi t ht) hP⟩

theorem FCovAt.has (h : FCovAt cw X) (hX : X ≤ P) : HasCov P cw := by
  obtain ⟨-, X1, X2, Xs, h1, h2, h3, rfl⟩ := h
  refine ⟨PtrAt.has h1 (le1.trans hX), h2.has ((leR le1).trans hX), fun t ht => ?_⟩
  obtain ⟨i, hi, rfl⟩ := List.getElem_of_mem ht
  obtain ⟨Y, hY, hle⟩ := forall2_le h3 hi
  exact arrAt_arr hY (hle.trans ((leR (leR le_rfl)).trans hX))

theorem useTabs_reads {s : Ptr} {n : ℕ} {l : List (PArr Ptr)} (hs : Has P s) (h : ∀ t ∈ l, Arr P n t) : Reads P (useTabs s n l) := by
  induction l with
  | nil => exact triple_pure rfl
  | cons t l ih => exact hs.use.seq ((useArr_reads (h t (by simp))).seq (ih fun t ht => h t (by simp [ht])))

theorem freeTabs_spec {s n : ℕ} {l : List (PArr Ptr)} {Xs : List (Multiset ℕ)} (h : List.Forall₂ (ArrAt PtrAt n) l Xs) :
    Triple (Xs.sum + {s}) (freeTabs (.to s) n l) (fun _ Y => Y = {s}) (fun _ => False) := by
  induction h with
  | nil => exact triple_pure (by simp)
  | @cons t Y l Ys ht _ ih =>
    rw [List.sum_cons, add_assoc]
    refine triple_use ((freeArr_frees ht).bind ih)

theorem fcovFree_frees (h : FCovAt cw X) : Frees X (fcovFree cw) := by
  obtain ⟨-, _, X2, Xs, ⟨s, h1, rfl⟩, h2, h3, rfl⟩ := h
  unfold fcovFree
  rw [h1]
  refine triple_use ((Has.mono (h2.has le_rfl).1 (leR le1)).use.bind ?_)
  refine triple_callEq (Xs.sum + {s}) X2 (by abel) (freeTabs_spec h3) (fun _ h => h.elim) ?_
  rintro ⟨⟩ Y rfl
  exact triple_use ((fbinsFree_frees h2).bind (triple_last (triple_free (triple_pure rfl))))

end

end MemF

end NaMaster
