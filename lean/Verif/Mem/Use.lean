import Verif.Mem.Specs

/-!
# Functions that read binning schemes, workspaces and covariance workspaces

Allocations and accesses of the functions behind `bin_cell`, `couple_cell`, `decouple_cell`, `get_bandpower_windows`,
`get_coupling_matrix`, `write_to` and `gaussian_covariance`, and what they do to the allocated blocks.
-/

namespace NaMaster

namespace Mem

/-- The lists of band `ib` are read (`bin->ell_list[ib]` and the like). -/
def useBand (b : Bins) (ib : ℕ) : Mem Unit := do
  use b.self
  use b.nellList
  let e ← b.ellList.get ib
  use e
  let w ← b.wList.get ib
  use w
  let f ← b.fEll.get ib
  use f

/-- A loop over the bands. -/
def useBands (b : Bins) : Mem Unit := loopU b.nBands (useBand b)

/-- A loop over the rows of the unbinned coupling matrix. -/
def useRows (w : Wsp) : Mem Unit := loopU (w.ncls * (w.lmax + 1)) fun r => do
  use w.self
  let p ← w.unbinned.get r
  use p

/-- The factorised binned matrix is used. -/
def useSolve (w : Wsp) : Mem Unit := do
  use w.self
  use w.binned
  use w.perm

/-- A function that allocates `n` temporary blocks, does `m` and releases them. -/
def withTemps : ℕ → Mem Unit → Mem Unit
  | 0, m => m
  | n + 1, m => do
    let p ← mallocP
    withTemps n m
    use p
    free p

/-- `bin_cl` and `unbin_cl` (pymaster/namaster.i:158-174, 196-214) with `nmt_bin_cls`, `nmt_unbin_cls` (src/nmt_bins.c:130-164). -/
def binCl (b : Bins) (ncl : ℕ) : Mem Unit := do
  use b.self
  withTemps 2 (loopU ncl fun _ => useBands b)

/-- `couple_cell_py` (pymaster/namaster.i:787-805) with `nmt_couple_cl_l` (src/nmt_master.c:1141-1159). -/
def coupleCl (w : Wsp) : Mem Unit := do
  use w.self
  withTemps 2 do
    useRows w
    use w.beamProd

/-- `get_bandpower_windows` (pymaster/namaster.i:131-135) with `nmt_compute_bandpower_windows` (src/nmt_master.c:1161-1224). The
code allocates two of the three matrices after the first loop and reads only the rows of multipoles in the bands. -/
def bandpowerWindows (w : Wsp) : Mem Unit := do
  use w.self
  use w.bin.self
  withTemps 3 do
    loopU w.ncls fun _ => useBands w.bin
    useRows w
    use w.beamProd
    useSolve w

/-- `decouple_cell_py` (pymaster/namaster.i:719-751) with `nmt_decouple_cl_l` (src/nmt_master.c:1226-1254). -/
def decoupleCl (w : Wsp) : Mem Unit := do
  use w.self
  use w.bin.self
  withTemps 6 do
    loopU w.ncls fun _ => useBands w.bin
    useSolve w

/-- `get_mcm` (pymaster/namaster.i:137-148). -/
def getMcm (w : Wsp) : Mem Unit := do
  use w.self
  useRows w

/-- `nmt_workspace_write_fits` (src/nmt_io.c:342-364) with the functions called from it (lines 5-25, 60-94, 195-263, 265-297). The
temporary blocks are the multipoles and the names, formats and units of columns, and buffers for matrix and permutation. -/
def wspWrite (w : Wsp) (fail : Option ℕ) : Mem Unit := do
  checkpoint fail 0
  useRows w
  checkpoint fail 1
  use w.self
  withTemps 10 (use w.beamProd)
  checkpoint fail 2
  withTemps 10 (use w.pclMasks)
  checkpoint fail 3
  use w.bin.self
  withTemps 19 (useBands w.bin)
  checkpoint fail 4
  withTemps 1 (useSolve w)
  withTemps 1 (useSolve w)
  checkpoint fail 5

/-- `nmt_covar_coeffs_tohdus` (src/nmt_io.c:742-755) and other reads of the first rows of a table. -/
def useTable (s : Ptr) (n : ℕ) (t : PArr Ptr) : Mem Unit := loopU n fun ii => do
  use s
  let p ← t.get ii
  use p

/-- `nmt_covar_workspace_write_fits` (src/nmt_io.c:783-817). -/
def covWrite (cw : Cov) (fail : Option ℕ) : Mem Unit := do
  checkpoint fail 0
  use cw.self
  checkpoint fail 1
  useTable cw.self (cw.lmax + 1) cw.xi00a
  checkpoint fail 2
  useTable cw.self (cw.lmax + 1) cw.xi00b
  checkpoint fail 3
  whenC (!cw.spin0) do
    useTable cw.self (cw.lmax + 1) cw.xi02a
    checkpoint fail 4
    useTable cw.self (cw.lmax + 1) cw.xi02b
    checkpoint fail 5
    useTable cw.self (cw.lmax + 1) cw.xi22pa
    checkpoint fail 6
    useTable cw.self (cw.lmax + 1) cw.xi22pb
    checkpoint fail 7
    useTable cw.self (cw.lmax + 1) cw.xi22ma
    checkpoint fail 8
    useTable cw.self (cw.lmax + 1) cw.xi22mb
    checkpoint fail 9

/-- The tables read by a covariance (src/nmt_covar.c:116-184, 216-275). The code reads the rows of multipoles in the bands of the
first workspace, here all rows up to its `ell_max`. -/
def useTables (cw : Cov) (n : ℕ) : Mem Unit := do
  useTable cw.self n cw.xi00a
  useTable cw.self n cw.xi00b
  useTable cw.self n cw.xi02a
  useTable cw.self n cw.xi02b
  useTable cw.self n cw.xi22pa
  useTable cw.self n cw.xi22pb
  useTable cw.self n cw.xi22ma
  useTable cw.self n cw.xi22mb

/-- `comp_gaussian_covariance` and `comp_gaussian_covariance_coupled` (pymaster/namaster.i:606-664) with
`nmt_compute_gaussian_covariance_coupled` and `nmt_compute_gaussian_covariance` (src/nmt_covar.c:91-302). `spins` tells that all
spins are zero, `ncls` that the numbers of spectra match the spins. The code allocates four of the matrices after the loop. -/
def gaussCov (cw : Cov) (wa wb : Wsp) (spins ncls coupled : Bool) : Mem Unit := do
  let c11 ← mallocP
  let c12 ← mallocP
  let c21 ← mallocP
  let c22 ← mallocP
  use cw.self
  use wa.self
  use wb.self
  use wa.bin.self
  use wb.bin.self
  whenC (decide (cw.lmax < wa.bin.ellMax) || decide (cw.lmax < wb.bin.ellMax)) raiseErr
  whenC (cw.spin0 && !spins) raiseErr
  whenC (!ncls) raiseErr
  withTemps (if coupled then 0 else 5) do
    useBands wa.bin
    useBands wb.bin
    useTables cw (wa.bin.ellMax + 1)
    whenC (!coupled) do
      useSolve wb
      useSolve wa
  free c11
  free c12
  free c21
  free c22

/-! ## What they do -/

/-- Started with blocks `P`, the code has no undefined behaviour, does not raise and leaves the blocks as they are. -/
def Reads (P : Multiset ℕ) (m : Mem Unit) : Prop := Triple P m (fun _ Y => Y = P) (fun _ => False)

section rules
variable {β : Type} {P P' X : Multiset ℕ} {Q : β → Multiset ℕ → Prop} {E : Multiset ℕ → Prop} {m m' : Mem Unit}

theorem Reads.mono (h : Reads X m) (hX : X ≤ P) : Reads P m := by
  obtain ⟨R, rfl⟩ := Multiset.le_iff_exists_add.1 hX
  refine triple_mono (triple_frame R h) ?_ ?_
  · rintro ⟨⟩ Y ⟨Z, rfl, rfl⟩; rfl
  · rintro Y ⟨Z, hz, -⟩; exact hz

theorem Reads.bind {f : Unit → Mem β} (h : Reads P m) (h2 : Triple P (f ()) Q E) : Triple P (m >>= f) Q E :=
  triple_bind (triple_mono h (fun _ _ h => h) (fun _ h => h.elim)) (by rintro ⟨⟩ Y rfl; exact h2)

theorem Reads.seq {f : Unit → Mem Unit} (h : Reads P m) (h2 : Reads P (f ())) : Reads P (m >>= f) := Reads.bind h h2

theorem Reads.loop {n : ℕ} {f : ℕ → Mem Unit} (h : ∀ i, i < n → Reads P (f i)) : Reads P (loopU n f) := triple_loopUse n h

theorem Reads.temps (n : ℕ) (h : Reads P m) : Reads P (withTemps n m) := by
  induction n with
  | zero => exact h
  | succ n ih =>
    unfold withTemps
    refine triple_mallocP fun b => Reads.bind (ih.mono (Multiset.le_add_left _ _)) (triple_use (triple_last (triple_free (triple_pure rfl))))

theorem Reads.when {c : Bool} (h : c = true → Reads P m) : Reads P (whenC c m) := by
  cases c
  · exact triple_pure rfl
  · exact h rfl

theorem reads_use (b : ℕ) (hb : b ∈ P) : Reads P (use (.to b)) :=
  Reads.mono (X := {b}) (triple_use0 b) (Multiset.singleton_le.2 hb)

end rules

/-- The blocks as a sum with known members. -/
theorem BinsAt.self_mem {b : Bins} {X : Multiset ℕ} (h : BinsAt b X) : Reads X (use b.self) := by
  obtain ⟨s, n, X1, X2, X3, h1, -, -, -, -, rfl⟩ := h
  rw [h1]
  exact reads_use s (by simp)

theorem useBand_reads {b : Bins} {X : Multiset ℕ} (h : BinsAt b X) {ib : ℕ} (hi : ib < b.nBands) : Reads X (useBand b ib) := by
  obtain ⟨self, ellMax, nBands, nell, ell, w, f⟩ := b
  obtain ⟨s, n, X1, X2, X3, h1, h2, h3, h4, h5, rfl⟩ := h
  dsimp only at h1 h2 h3 h4 h5 hi
  obtain ⟨eo, es, rfl, he, rfl⟩ := arrAt_iff.1 h3
  obtain ⟨wo, ws, rfl, hw, rfl⟩ := arrAt_iff.1 h4
  obtain ⟨fo, fs, rfl, hf, rfl⟩ := arrAt_iff.1 h5
  subst h1 h2
  unfold useBand
  dsimp only
  exact triple_use (triple_use (triple_getB (he ▸ hi) (triple_useB (he ▸ hi) (triple_getB (hw ▸ hi) (triple_useB (hw ▸ hi)
      (triple_getB (hf ▸ hi) (triple_last (triple_useB (hf ▸ hi) (triple_pure rfl)))))))))

theorem useBands_reads {b : Bins} {X : Multiset ℕ} (h : BinsAt b X) : Reads X (useBands b) :=
  Reads.loop fun _ hi => useBand_reads h hi

theorem binCl_reads {b : Bins} {X : Multiset ℕ} (h : BinsAt b X) (ncl : ℕ) : Reads X (binCl b ncl) :=
  Reads.seq h.self_mem (Reads.temps 2 (Reads.loop fun _ _ => useBands_reads h))

theorem useRows_reads {w : Wsp} {X : Multiset ℕ} (h : WspAt w true X) : Reads X (useRows w) := by
  obtain ⟨s, pc, be, bi, pe, Xu, Xb, h1, h2, h3, h4, h5, hU, hb, hm, rfl⟩ := h
  obtain ⟨o, rs, e, hl, rfl⟩ := arrAt_iff.1 hU
  unfold useRows
  rw [h1, e]
  exact Reads.loop fun r hr => triple_use (triple_getB (hl ▸ hr) (triple_last (triple_useB (hl ▸ hr) (triple_pure rfl))))

section
variable {w : Wsp} {u : Bool} {X : Multiset ℕ}

theorem WspAt.self_mem (h : WspAt w u X) : Reads X (use w.self) := by
  obtain ⟨s, pc, be, bi, pe, Xu, Xb, h1, h2, h3, h4, h5, hU, hb, hm, rfl⟩ := h
  rw [h1]
  exact reads_use _ (by simp)

theorem WspAt.beam_mem (h : WspAt w u X) : Reads X (use w.beamProd) := by
  obtain ⟨s, pc, be, bi, pe, Xu, Xb, h1, h2, h3, h4, h5, hU, hb, hm, rfl⟩ := h
  rw [h3]
  exact reads_use _ (by simp)

theorem WspAt.pcl_mem (h : WspAt w u X) : Reads X (use w.pclMasks) := by
  obtain ⟨s, pc, be, bi, pe, Xu, Xb, h1, h2, h3, h4, h5, hU, hb, hm, rfl⟩ := h
  rw [h2]
  exact reads_use _ (by simp)

theorem useSolve_reads (h : WspAt w u X) : Reads X (useSolve w) := by
  obtain ⟨s, pc, be, bi, pe, Xu, Xb, h1, h2, h3, h4, h5, hU, hb, hm, rfl⟩ := h
  unfold useSolve
  rw [h1, h4, h5]
  exact triple_use (triple_use (triple_last (triple_use (triple_pure rfl))))

theorem WspAt.bins (h : WspAt w u X) : ∃ B, BinsAt w.bin B ∧ B ≤ X := by
  obtain ⟨s, pc, be, bi, pe, Xu, Xb, h1, h2, h3, h4, h5, hU, hb, hm, rfl⟩ := h
  refine ⟨Xb, hb, ?_⟩
  have : Xb ≤ ({s} + ({pc} + ({be} + ({bi} + ({pe} + Xu))))) + Xb := Multiset.le_add_left _ _
  simpa only [add_assoc] using this

theorem WspAt.bin_self (h : WspAt w u X) : Reads X (use w.bin.self) := by
  obtain ⟨B, hB, hle⟩ := h.bins
  exact hB.self_mem.mono hle

theorem WspAt.bands (h : WspAt w u X) : Reads X (useBands w.bin) := by
  obtain ⟨B, hB, hle⟩ := h.bins
  exact (useBands_reads hB).mono hle

theorem coupleCl_reads (h : WspAt w true X) : Reads X (coupleCl w) :=
  Reads.seq h.self_mem (Reads.temps 2 (Reads.seq (useRows_reads h) h.beam_mem))

theorem bandpowerWindows_reads (h : WspAt w true X) : Reads X (bandpowerWindows w) :=
  Reads.seq h.self_mem (Reads.seq h.bin_self (Reads.temps 3 (Reads.seq (Reads.loop fun _ _ => h.bands)
    (Reads.seq (useRows_reads h) (Reads.seq h.beam_mem (useSolve_reads h))))))

theorem decoupleCl_reads (h : WspAt w u X) : Reads X (decoupleCl w) :=
  Reads.seq h.self_mem (Reads.seq h.bin_self (Reads.temps 6 (Reads.seq (Reads.loop fun _ _ => h.bands) (useSolve_reads h))))

theorem getMcm_reads (h : WspAt w true X) : Reads X (getMcm w) := Reads.seq h.self_mem (useRows_reads h)

/-- As `Reads`, for code that may raise. -/
def ReadsE (P : Multiset ℕ) (m : Mem Unit) : Prop := Triple P m (fun _ Y => Y = P) (fun Y => Y = P)

theorem readsE_check {P : Multiset ℕ} {fail : Option ℕ} {k : ℕ} {f : Unit → Mem Unit} (h : ReadsE P (f ())) :
    ReadsE P (checkpoint fail k >>= f) :=
  triple_whenC (fun _ => triple_raise rfl) (fun _ => h)

theorem readsE_check_last {P : Multiset ℕ} {fail : Option ℕ} {k : ℕ} : ReadsE P (checkpoint fail k) :=
  triple_last (readsE_check (triple_pure rfl))

theorem wspWrite_spec (h : WspAt w true X) (fail : Option ℕ) : ReadsE X (wspWrite w fail) :=
  readsE_check (Reads.bind (useRows_reads h) (readsE_check (Reads.bind h.self_mem (Reads.bind (Reads.temps 10 h.beam_mem)
    (readsE_check (Reads.bind (Reads.temps 10 h.pcl_mem) (readsE_check (Reads.bind h.bin_self (Reads.bind (Reads.temps 19 h.bands)
    (readsE_check (Reads.bind (Reads.temps 1 (useSolve_reads h)) (Reads.bind (Reads.temps 1 (useSolve_reads h))
    readsE_check_last))))))))))))

end

section
variable {cw : Cov} {X : Multiset ℕ}

theorem useTable_reads {s lmax : ℕ} {t : PArr Ptr} {T P : Multiset ℕ} (h : XiAt lmax t T) (hs : s ∈ P) (hT : T ≤ P) {n : ℕ}
    (hn : n ≤ lmax + 1) : Reads P (useTable (.to s) n t) := by
  obtain ⟨o, bs, rfl, hl, rfl⟩ := arrAt_iff.1 h
  refine Reads.loop fun i hi => Reads.bind (reads_use s hs) ?_
  refine Reads.mono (X := {o} + (bs : Multiset ℕ)) ?_ hT
  exact triple_getB (by omega) (triple_last (triple_useB (by omega) (triple_pure rfl)))

theorem CovAt.self_mem (h : CovAt cw X) : Reads X (use cw.self) := by
  obtain ⟨s, A, B, h1, hA, hB, hr⟩ := h
  rw [h1]
  refine reads_use s ?_
  by_cases hs : cw.spin0 = true
  · rw [if_pos hs] at hr
    rw [hr.1]; simp
  · rw [if_neg hs] at hr
    obtain ⟨C, D, F, G, H, I, -, -, -, -, -, -, rfl⟩ := hr
    simp

/-- Every table can be read. -/
theorem CovAt.tables (h : CovAt cw X) {n : ℕ} (hn : n ≤ cw.lmax + 1) :
    (Reads X (useTable cw.self n cw.xi00a) ∧ Reads X (useTable cw.self n cw.xi00b)) ∧
    (Reads X (useTable cw.self n cw.xi02a) ∧ Reads X (useTable cw.self n cw.xi02b)) ∧
    (Reads X (useTable cw.self n cw.xi22pa) ∧ Reads X (useTable cw.self n cw.xi22pb)) ∧
    (Reads X (useTable cw.self n cw.xi22ma) ∧ Reads X (useTable cw.self n cw.xi22mb)) := by
  obtain ⟨s, A, B, h1, hA, hB, hr⟩ := h
  rw [h1]
  by_cases hs : cw.spin0 = true
  · rw [if_pos hs] at hr
    obtain ⟨rfl, e1, e2, e3, e4, e5, e6⟩ := hr
    rw [e1, e2, e3, e4, e5, e6]
    have ha := useTable_reads (s := s) (P := {s} + (A + B)) hA (by simp)
      ((Multiset.le_add_right A B).trans (Multiset.le_add_left _ _)) hn
    have hb := useTable_reads (s := s) (P := {s} + (A + B)) hB (by simp)
      ((Multiset.le_add_left B A).trans (Multiset.le_add_left _ _)) hn
    exact ⟨⟨ha, hb⟩, ⟨ha, hb⟩, ⟨ha, hb⟩, ⟨ha, hb⟩⟩
  · rw [if_neg hs] at hr
    obtain ⟨C, D, F, G, H, I, hC, hD, hF, hG, hH, hI, rfl⟩ := hr
    have hself : s ∈ {s} + (A + (B + (C + (D + (F + (G + (H + I))))))) := by simp
    have up : ∀ {Y Z W : Multiset ℕ}, Y ≤ Z → Y ≤ W + Z := fun h => h.trans (Multiset.le_add_left _ _)
    have here : ∀ {Y Z : Multiset ℕ}, Y ≤ Y + Z := Multiset.le_add_right _ _
    exact ⟨⟨useTable_reads hA hself (up here) hn, useTable_reads hB hself (up (up here)) hn⟩,
      ⟨useTable_reads hC hself (up (up (up here))) hn, useTable_reads hD hself (up (up (up (up here)))) hn⟩,
      ⟨useTable_reads hF hself (up (up (up (up (up here))))) hn, useTable_reads hG hself (up (up (up (up (up (up here)))))) hn⟩,
      ⟨useTable_reads hH hself (up (up (up (up (up (up (up here))))))) hn,
        useTable_reads hI hself (up (up (up (up (up (up (up (up le_rfl)))))))) hn⟩⟩

theorem useTables_reads (h : CovAt cw X) {n : ℕ} (hn : n ≤ cw.lmax + 1) : Reads X (useTables cw n) := by
  obtain ⟨⟨a, b⟩, ⟨c, d⟩, ⟨e, f⟩, ⟨g, i⟩⟩ := h.tables hn
  exact a.seq (b.seq (c.seq (d.seq (e.seq (f.seq (g.seq i))))))

theorem covWrite_spec (h : CovAt cw X) (fail : Option ℕ) : ReadsE X (covWrite cw fail) := by
  obtain ⟨⟨a, b⟩, ⟨c, d⟩, ⟨e, f⟩, ⟨g, i⟩⟩ := h.tables le_rfl
  refine readsE_check (h.self_mem.bind (readsE_check (a.bind (readsE_check (b.bind (readsE_check ?_))))))
  refine triple_last (triple_whenC (fun _ => ?_) (fun _ => triple_pure rfl))
  exact triple_bind (Q1 := fun _ Y => Y = X) (c.bind (readsE_check (d.bind (readsE_check (e.bind (readsE_check (f.bind (readsE_check (g.bind (readsE_check
    (i.bind readsE_check_last))))))))))) (by rintro ⟨⟩ Y rfl; exact triple_pure rfl)

theorem gaussCov_spec {wa wb : Wsp} {ua ub : Bool} {A B P : Multiset ℕ} (h : CovAt cw X) (ha : WspAt wa ua A)
    (hb : WspAt wb ub B) (hX : X ≤ P) (hA : A ≤ P) (hB : B ≤ P) (spins ncls coupled : Bool) :
    Triple P (gaussCov cw wa wb spins ncls coupled) (fun _ Y => Y = P) (fun Y => ∃ Z, Z.card = 4 ∧ Y = Z + P) := by
  unfold gaussCov
  refine triple_mallocP fun c1 => triple_mallocP fun c2 => triple_mallocP fun c3 => triple_mallocP fun c4 => ?_
  have lift : ∀ {m : Mem Unit} {Y : Multiset ℕ}, Reads Y m → Y ≤ P → Reads ({c4} + ({c3} + ({c2} + ({c1} + P)))) m :=
    fun r hY => r.mono (hY.trans ((Multiset.le_add_left _ _).trans ((Multiset.le_add_left _ _).trans
      ((Multiset.le_add_left _ _).trans (Multiset.le_add_left _ _)))))
  have hE : ∃ Z : Multiset ℕ, Z.card = 4 ∧ {c4} + ({c3} + ({c2} + ({c1} + P))) = Z + P :=
    ⟨{c4} + ({c3} + ({c2} + {c1})), rfl, by abel⟩
  refine (lift h.self_mem hX).bind ((lift ha.self_mem hA).bind ((lift hb.self_mem hB).bind
    ((lift ha.bin_self hA).bind ((lift hb.bin_self hB).bind ?_))))
  refine triple_whenC (fun _ => triple_raise hE) (fun e => triple_whenC (fun _ => triple_raise hE)
    (fun _ => triple_whenC (fun _ => triple_raise hE) (fun _ => ?_)))
  have hn : wa.bin.ellMax + 1 ≤ cw.lmax + 1 := by
    simp only [Bool.or_eq_false_iff, decide_eq_false_iff_not] at e
    omega
  refine Reads.bind (Reads.temps _ ((lift ha.bands hA).seq ((lift hb.bands hB).seq ((lift (useTables_reads h hn) hX).seq
    (Reads.when fun _ => (lift (useSolve_reads hb) hB).seq (lift (useSolve_reads ha) hA)))))) ?_
  exact triple_free (triple_free (triple_free (triple_last (triple_free (triple_pure rfl)))))

end

end Mem

end NaMaster
