import Verif.Par.Lemmas
import Verif.Coupling.Lemmas4
import Mathlib.Algebra.BigOperators.Group.Finset.Sigma
import Mathlib.Algebra.Group.Prod

/-!
# C45: parallel loops give the same result in every execution

Each theorem says that whatever the number of threads, the distribution of the iterations, the interleaving of the actions
and the order in which threads add their private results, the result is the one computed by the sequential model used
everywhere else.
-/

namespace NaMaster

open Finset

theorem listSum_range {M : Type*} [AddCommMonoid M] (n : ℕ) (f : ℕ → M) : ((List.range n).map f).sum = ∑ i ∈ range n, f i := by
  induction n with
  | zero => rfl
  | succ n ih => rw [List.range_succ, List.map_append, List.sum_append, ih, sum_range_succ]; simp

theorem listSum_flatMap {M ι : Type*} [AddCommMonoid M] (l : List ι) (f : ι → List M) :
    (l.flatMap f).sum = (l.map fun i => (f i).sum).sum := by
  induction l with
  | nil => rfl
  | cons i l ih => rw [List.flatMap_cons, List.sum_append, ih, List.map_cons, List.sum_cons]

theorem runActs_adds {M : Type*} [AddCommMonoid M] (l : List M) (s : M) : runActs (l.map fun m => (· + m)) s = s + l.sum := by
  induction l generalizing s with
  | nil => simp [runActs_nil]
  | cons m l ih => rw [List.map_cons, runActs_cons, ih, List.sum_cons, add_assoc]

/-! ## Scalar products -/

/-- C45: the scalar product of two flat maps. -/
theorem C45_fs_dot {npix : ℕ} {pixsize r : ℝ} {mp1 mp2 : ℕ → ℝ} (h : FsMapDotRuns npix pixsize mp1 mp2 r) :
    r = (∑ ip ∈ range npix, mp1 ip * mp2 ip) * pixsize := by
  obtain ⟨p0, s, h, rfl⟩ := h
  have := ParRegion.reduce (M := ℝ) (N := ℝ) (AddMonoidHom.id ℝ) (cs := fun ip => [mp1 ip * mp2 ip]) h
  rw [this, listSum_flatMap]
  simp only [List.sum_singleton, listSum_range, AddMonoidHom.id_apply, zero_add]

/-- C45: the scalar product of two HEALPix maps. -/
theorem C45_he_dot {nside : ℕ} {r : ℝ} {mp1 mp2 : ℕ → ℝ} (h : HeMapDotRuns nside mp1 mp2 r) :
    r = (∑ ip ∈ range (12 * nside * nside), mp1 ip * mp2 ip) * (Real.pi / (3 * nside * nside)) := by
  obtain ⟨p0, s, h, rfl⟩ := h
  have := ParRegion.reduce (M := ℝ) (N := ℝ) (AddMonoidHom.mulRight (Real.pi / (3 * (nside : ℝ) * nside)))
    (cs := fun ip => [mp1 ip * mp2 ip]) h
  rw [this, listSum_flatMap]
  simp only [List.sum_singleton, listSum_range, AddMonoidHom.coe_mulRight, zero_add]

/-- C45: the product of two maps; nothing is written beyond the pixels of the maps. -/
theorem C45_product {npix : ℕ} {mp1 mp2 m0 m : ℕ → ℝ} (h : MapProductRuns npix mp1 mp2 m0 m) (ip : ℕ) :
    m ip = if ip < npix then mp1 ip * mp2 ip else m0 ip := by
  have := ParFor.eq_seq_of_owner h List.nodup_range id (by
    intro i _ a ha
    rw [List.mem_singleton.1 ha]
    exact setAt_local i _)
  rw [this]
  have e : ((List.range npix).flatMap fun ip => [setAt ip (mp1 ip * mp2 ip)]) =
      ((List.range npix).map fun ip => (ip, mp1 ip * mp2 ip)).map fun w => setAt w.1 w.2 := by
    rw [List.map_map, List.map_eq_flatMap]; rfl
  rw [e, runActs_setAt]
  by_cases hi : ip < npix
  · rw [if_pos hi, runWrites_mem _ _ ip (mp1 ip * mp2 ip)]
    · exact List.mem_map.2 ⟨ip, List.mem_range.2 hi, rfl⟩
    · intro w hw
      obtain ⟨j, -, rfl⟩ := List.mem_map.1 hw
      rintro rfl
      rfl
  · rw [if_neg hi, runWrites_notMem]
    intro w hw
    obtain ⟨j, hj, rfl⟩ := List.mem_map.1 hw
    rintro rfl
    exact hi (List.mem_range.1 hj)

/-! ## Flat-sky spectra -/

theorem Outcome.all_range {α : Type*} {n : ℕ} {g : ℕ → Outcome α} {r : ℕ → α} (h : ∀ i < n, g i = .ok (r i)) :
    Outcome.all ((List.range n).map g) = .ok ((List.range n).map r) := by
  have : ∀ l : List ℕ, (∀ i ∈ l, g i = .ok (r i)) → Outcome.all (l.map g) = .ok (l.map r) := by
    intro l
    induction l with
    | nil => intro _; rfl
    | cons i l ih =>
      intro hl
      rw [List.map_cons, Outcome.all, hl i List.mem_cons_self, ih fun j hj => hl j (List.mem_cons_of_mem _ hj)]
      rfl
  exact this _ fun i hi => h i (List.mem_range.1 hi)

theorem getD_range_map {α : Type*} {n i : ℕ} (r : ℕ → α) (d : α) (h : i < n) : ((List.range n).map r).getD i d = r i := by
  rw [List.getD_eq_getElem?_getD, List.getElem?_map, List.getElem?_range h]; rfl

theorem modes_sum {M : Type*} [AddCommMonoid M] (fs : FlatInfo) (p : ℕ × ℕ → Prop) [DecidablePred p] (f : ℕ × ℕ → M) :
    ∑ k ∈ fs.modes with p k, f k = ∑ iy ∈ range fs.ny, ∑ ix ∈ range fs.nx, if p (ix, iy) then f (ix, iy) else 0 := by
  rw [sum_filter, FlatInfo.modes, sum_product_right]

/-- The pair added by the updates for one mode. -/
noncomputable def alm2clVal (nx : ℕ) (a1 a2 : ℕ × ℕ → ℂ) (k : ℕ × ℕ) (ik : ℤ) : List ((ℕ → ℝ) × (ℕ → ℕ)) :=
  if ik ≥ 0 then [(Pi.single ik.toNat (halfProd nx a1 a2 k), 0), (0, Pi.single ik.toNat 1)] else []

theorem alm2clActs_eq (nx : ℕ) (a1 a2 : ℕ × ℕ → ℂ) (k : ℕ × ℕ) (ik : ℤ) :
    alm2clActs nx a1 a2 k ik = (alm2clVal nx a1 a2 k ik).map fun m => (· + m) := by
  unfold alm2clActs alm2clVal
  by_cases h : ik ≥ 0
  · rw [if_pos h, if_pos h]
    simp only [List.map_cons, List.map_nil, incAt_eq, List.cons.injEq, and_true]
    constructor <;> funext s <;> simp [Prod.ext_iff]
  · rw [if_neg h, if_neg h]; rfl

theorem toNat_eq_iff {ik : ℤ} {ib : ℕ} (h : ik ≥ 0) : ib = ik.toNat ↔ ik = ib := by omega

/-- C45: flat-sky pseudo-spectra; the shared spectrum and the numbers of modes are changed by atomic updates. -/
theorem C45_alm2cl {fs : FlatInfo} {b : FlatBins ℝ} {c : EllCuts} {a1 a2 : ℕ × ℕ → ℂ} {cl : ℕ → ℝ}
    (h : FsAlm2clRuns fs b c a1 a2 cl) : fsAlm2cl fs b c a1 a2 = .ok cl := by
  obtain ⟨rows, s, hr, hp, rfl⟩ := h
  have hbody : ∀ iy, ((List.range fs.nx).flatMap fun ix => alm2clActs fs.nx a1 a2 (ix, iy) ((rows iy).getD ix (-1))) =
      ((List.range fs.nx).flatMap fun ix => alm2clVal fs.nx a1 a2 (ix, iy) ((rows iy).getD ix (-1))).map fun m => (· + m) := by
    intro iy
    rw [List.map_flatMap]
    simp only [alm2clActs_eq]
  simp only [hbody] at hp
  have hs := hp.eq_seq List.nodup_range (by
    intro i _ j _ _ a ha b hb
    obtain ⟨m, -, rfl⟩ := List.mem_map.1 ha
    obtain ⟨n, -, rfl⟩ := List.mem_map.1 hb
    exact fun s => add_right_comm _ _ _)
  rw [← List.map_flatMap, runActs_adds, listSum_flatMap, listSum_range] at hs
  simp only [listSum_flatMap, listSum_range] at hs
  have hrows : ∀ iy < fs.ny, ∀ ix, tableAt ((List.range fs.ny).map rows) (ix, iy) = (rows iy).getD ix (-1) := by
    intro iy hy ix
    show (((List.range fs.ny).map rows).getD iy []).getD ix (-1) = _
    rw [getD_range_map _ _ hy]
  have h1 : ∀ ib, s.1 ib = ∑ k ∈ fs.modes with tableAt ((List.range fs.ny).map rows) k = ib, halfProd fs.nx a1 a2 k := by
    intro ib
    rw [modes_sum, hs]
    simp only [Prod.fst_add, Prod.fst_sum, Pi.add_apply, Finset.sum_apply, zero_add]
    refine sum_congr rfl fun iy hy => sum_congr rfl fun ix _ => ?_
    rw [hrows iy (mem_range.1 hy)]
    unfold alm2clVal
    by_cases h0 : (rows iy).getD ix (-1) ≥ 0
    · rw [if_pos h0]
      simp only [List.sum_cons, List.sum_nil, add_zero, Prod.mk_add_mk, Pi.single_apply, toNat_eq_iff h0]
    · rw [if_neg h0, if_neg (by omega)]
      rfl
  have h2 : ∀ ib, s.2 ib = nCells fs ((List.range fs.ny).map rows) ib := by
    intro ib
    unfold nCells
    rw [card_eq_sum_ones, modes_sum, hs]
    simp only [Prod.snd_add, Prod.snd_sum, Pi.add_apply, Finset.sum_apply, zero_add]
    refine sum_congr rfl fun iy hy => sum_congr rfl fun ix _ => ?_
    rw [hrows iy (mem_range.1 hy)]
    unfold alm2clVal
    by_cases h0 : (rows iy).getD ix (-1) ≥ 0
    · rw [if_pos h0]
      simp only [List.sum_cons, List.sum_nil, add_zero, Prod.mk_add_mk, zero_add, Pi.single_apply, toNat_eq_iff h0]
    · rw [if_neg h0, if_neg (by omega)]
      rfl
  unfold fsAlm2cl
  rw [Outcome.all_range hr]
  show Outcome.ok _ = Outcome.ok _
  congr 2
  funext ib
  rw [h1, h2]

/-! ## Flat-sky coupling matrices -/

theorem countAdds_eq (nx : ℕ) (row : List ℤ) : countAdds nx row =
    ((List.range nx).flatMap fun ix => if row.getD ix (-1) ≥ 0 then [Pi.single (row.getD ix (-1)).toNat (1 : ℕ)] else []).map
      fun m => (· + m) := by
  unfold countAdds
  rw [List.map_flatMap]
  refine congrArg (fun f => List.flatMap f (List.range nx)) (funext fun ix => ?_)
  by_cases h : row.getD ix (-1) ≥ 0
  · rw [if_pos h, if_pos h]; simp only [List.map_cons, List.map_nil, incAt_eq]
  · rw [if_neg h, if_neg h]; rfl

/-- What is added in row `iy1`. -/
noncomputable def coupVals (f1 f2 : FlatField) (ncls : ℕ) (maskprod : ℕ × ℕ → ℝ) (rows rowsNocut : List (List ℤ))
    (iy1 : ℕ) : List (ℕ × ℕ → ℝ) :=
  (List.range f1.fs.nx).flatMap fun ix1 =>
    if tableAt rows (ix1, iy1) ≥ 0 then
      (List.range f1.fs.ny).flatMap fun iy2 => (List.range f1.fs.nx).flatMap fun ix2 =>
        if tableAt rowsNocut (ix2, iy2) ≥ 0 then
          (List.range ncls).flatMap fun i => (List.range ncls).map fun j =>
            Pi.single (ncls * (tableAt rows (ix1, iy1)).toNat + i, ncls * (tableAt rowsNocut (ix2, iy2)).toNat + j)
              (coupTerm f1 f2 ncls maskprod i j (ix1, iy1) (ix2, iy2))
        else []
    else []

theorem coupAdds_eq (f1 f2 : FlatField) (ncls : ℕ) (maskprod : ℕ × ℕ → ℝ) (rows rowsNocut : List (List ℤ)) (iy1 : ℕ) :
    coupAdds f1 f2 ncls maskprod rows rowsNocut iy1 =
      (coupVals f1 f2 ncls maskprod rows rowsNocut iy1).map fun m => (· + m) := by
  unfold coupAdds coupVals
  rw [List.map_flatMap]
  refine congrArg (fun f => List.flatMap f (List.range f1.fs.nx)) (funext fun ix1 => ?_)
  by_cases h : tableAt rows (ix1, iy1) ≥ 0
  · rw [if_pos h, if_pos h]
    simp only [List.map_flatMap]
    refine congrArg (fun f => List.flatMap f (List.range f1.fs.ny)) (funext fun iy2 => ?_)
    refine congrArg (fun f => List.flatMap f (List.range f1.fs.nx)) (funext fun ix2 => ?_)
    by_cases h' : tableAt rowsNocut (ix2, iy2) ≥ 0
    · rw [if_pos h', if_pos h']
      simp only [List.map_flatMap, List.map_map, incAt_eq]
      rfl
    · rw [if_neg h', if_neg h']; rfl
  · rw [if_neg h, if_neg h]; rfl

theorem coupAdds2_eq (f1 f2 : FlatField) (ncls : ℕ) (maskprod : ℕ × ℕ → ℝ) (rows rowsNocut : List (List ℤ)) (iy1 : ℕ) :
    coupAdds2 f1 f2 ncls maskprod rows rowsNocut iy1 =
      ((coupVals f1 f2 ncls maskprod rows rowsNocut iy1).map (·, (0 : ℕ × ℕ → ℝ)) ++
        (coupVals f1 f2 ncls maskprod rows (ringRows f1.fs) iy1).map ((0 : ℕ × ℕ → ℝ), ·)).map fun m => (· + m) := by
  unfold coupAdds2
  rw [coupAdds_eq, coupAdds_eq, List.map_append]
  simp only [List.map_map]
  congr 1
  · refine List.map_congr_left fun v _ => ?_
    funext s
    exact Prod.ext rfl (add_zero s.2).symm
  · refine List.map_congr_left fun v _ => ?_
    funext s
    exact Prod.ext (add_zero s.1).symm rfl

theorem sum_pairs_fst {α M : Type*} [AddCommMonoid M] (l : List α) (f g : α → List M) :
    ((l.flatMap fun a => (f a).map (·, (0 : M)) ++ (g a).map ((0 : M), ·)).sum).1 = (l.flatMap f).sum := by
  induction l with
  | nil => rfl
  | cons a l ih =>
    have e : ∀ L : List M, ((L.map (·, (0 : M))).sum).1 = L.sum ∧ ((L.map ((0 : M), ·)).sum).1 = 0 := by
      intro L
      induction L with
      | nil => exact ⟨rfl, rfl⟩
      | cons x L ihL => simp [ihL.1, ihL.2]
    simp [ih, (e _).1, (e _).2]

theorem sum_pairs_snd {α M : Type*} [AddCommMonoid M] (l : List α) (f g : α → List M) :
    ((l.flatMap fun a => (f a).map (·, (0 : M)) ++ (g a).map ((0 : M), ·)).sum).2 = (l.flatMap g).sum := by
  induction l with
  | nil => rfl
  | cons a l ih =>
    have e : ∀ L : List M, ((L.map (·, (0 : M))).sum).2 = 0 ∧ ((L.map ((0 : M), ·)).sum).2 = L.sum := by
      intro L
      induction L with
      | nil => exact ⟨rfl, rfl⟩
      | cons x L ihL => simp [ihL.1, ihL.2]
    simp [ih, (e _).1, (e _).2]

theorem ringRows_at {fs : FlatInfo} {k : ℕ × ℕ} (hk : k ∈ fs.modes) : tableAt (ringRows fs) k = fs.ring k.1 k.2 := by
  unfold FlatInfo.modes at hk
  rw [mem_product, mem_range, mem_range] at hk
  unfold tableAt ringRows
  simp [List.getD_eq_getElem?_getD, hk.1, hk.2]

theorem cellSum {ncls i j b1 b2 B1 B2 : ℕ} (hi : i < ncls) (hj : j < ncls) (g : ℕ → ℕ → ℝ) :
    (∑ a ∈ range ncls, ∑ d ∈ range ncls,
      (Pi.single (ncls * B1 + a, ncls * B2 + d) (g a d) : ℕ × ℕ → ℝ) (ncls * b1 + i, ncls * b2 + j)) =
      if B1 = b1 ∧ B2 = b2 then g i j else 0 := by
  have key : ∀ a ∈ range ncls, ∀ d ∈ range ncls,
      (Pi.single (ncls * B1 + a, ncls * B2 + d) (g a d) : ℕ × ℕ → ℝ) (ncls * b1 + i, ncls * b2 + j) =
      if a = i ∧ d = j ∧ B1 = b1 ∧ B2 = b2 then g a d else 0 := by
    intro a ha d hd
    rw [Pi.single_apply]
    by_cases h : a = i ∧ d = j ∧ B1 = b1 ∧ B2 = b2
    · rw [if_pos h, if_pos (by rw [h.1, h.2.1, h.2.2.1, h.2.2.2])]
    · rw [if_neg h, if_neg]
      intro e
      rw [Prod.mk.injEq] at e
      obtain ⟨e1, e2⟩ := flat_inj hi (mem_range.1 ha) e.1
      obtain ⟨e3, e4⟩ := flat_inj hj (mem_range.1 hd) e.2
      exact h ⟨e1.symm, e3.symm, e2.symm, e4.symm⟩
  rw [sum_congr rfl fun a ha => sum_congr rfl fun d hd => key a ha d hd]
  rw [sum_eq_single i]
  · rw [sum_eq_single j]
    · simp
    · intro d _ hd; rw [if_neg]; tauto
    · intro hn; exact absurd (mem_range.2 hj) hn
  · intro a _ ha; refine sum_eq_zero fun d _ => ?_; rw [if_neg]; tauto
  · intro hn; exact absurd (mem_range.2 hi) hn

theorem coupVals_sum (f1 f2 : FlatField) (ncls : ℕ) (maskprod : ℕ × ℕ → ℝ) (rows rowsNocut : List (List ℤ)) {i j : ℕ}
    (b1 b2 : ℕ) (hi : i < ncls) (hj : j < ncls) :
    ((List.range f1.fs.ny).flatMap (coupVals f1 f2 ncls maskprod rows rowsNocut)).sum (ncls * b1 + i, ncls * b2 + j) =
      ∑ k1 ∈ f1.fs.modes with tableAt rows k1 = b1, ∑ k2 ∈ f1.fs.modes with tableAt rowsNocut k2 = b2,
        coupTerm f1 f2 ncls maskprod i j k1 k2 := by
  rw [listSum_flatMap, listSum_range, modes_sum, Finset.sum_apply]
  refine sum_congr rfl fun iy1 _ => ?_
  unfold coupVals
  rw [listSum_flatMap, listSum_range, Finset.sum_apply]
  refine sum_congr rfl fun ix1 _ => ?_
  by_cases h : tableAt rows (ix1, iy1) ≥ 0
  · rw [if_pos h]
    simp only [listSum_flatMap, listSum_range, Finset.sum_apply]
    have : ∀ iy2 ix2, ((if tableAt rowsNocut (ix2, iy2) ≥ 0 then
          (List.range ncls).flatMap fun i => (List.range ncls).map fun j =>
            (Pi.single (ncls * (tableAt rows (ix1, iy1)).toNat + i, ncls * (tableAt rowsNocut (ix2, iy2)).toNat + j)
              (coupTerm f1 f2 ncls maskprod i j (ix1, iy1) (ix2, iy2)) : ℕ × ℕ → ℝ)
        else []).sum (ncls * b1 + i, ncls * b2 + j)) =
        if tableAt rows (ix1, iy1) = b1 then
          (if tableAt rowsNocut (ix2, iy2) = b2 then coupTerm f1 f2 ncls maskprod i j (ix1, iy1) (ix2, iy2) else 0)
        else 0 := by
      intro iy2 ix2
      by_cases h' : tableAt rowsNocut (ix2, iy2) ≥ 0
      · rw [if_pos h', listSum_flatMap, listSum_range]
        simp only [listSum_range, Finset.sum_apply]
        rw [cellSum hi hj fun i j => coupTerm f1 f2 ncls maskprod i j (ix1, iy1) (ix2, iy2)]
        by_cases e1 : tableAt rows (ix1, iy1) = b1
        · rw [if_pos e1]
          by_cases e2 : tableAt rowsNocut (ix2, iy2) = b2
          · rw [if_pos e2, if_pos (by omega)]
          · rw [if_neg e2, if_neg (by omega)]
        · rw [if_neg e1, if_neg (by omega)]
      · rw [if_neg h', if_neg (show ¬ tableAt rowsNocut (ix2, iy2) = b2 by omega)]
        split <;> rfl
    simp only [this]
    by_cases e1 : tableAt rows (ix1, iy1) = b1
    · simp only [if_pos e1]
      rw [modes_sum]
    · simp only [if_neg e1, sum_const_zero]
  · rw [if_neg h, if_neg (by omega)]
    rfl

theorem list_eq_range_map {α : Type*} {n : ℕ} {l : List α} (h : l.length = n) (d : α) :
    l = (List.range n).map fun i => l.getD i d := by
  refine List.ext_getElem (by simp [h]) fun i h1 h2 => ?_
  simp [List.getD_eq_getElem?_getD, List.getElem?_eq_getElem h1]

/-- C45: flat-sky coupling matrices and numbers of modes; threads have private arrays and add them up at the end. -/
theorem C45_coupling_flat {f1 f2 : FlatField} {b : FlatBins ℝ} {c : EllCuts} {isTeb : Bool} {w : WspFlat}
    (h : CouplingFlatRuns f1 f2 b c isTeb w) : couplingFlat f1 f2 b c isTeb = .ok w := by
  unfold CouplingFlatRuns at h
  obtain ⟨hfs, hteb, hnb, rows, rowsNocut, q0, n, p0, m, hl, hr, hl', hr', hn, hm, rfl⟩ := h
  have hn1 : ∀ ib, n.1 ib = nCells f1.fs rows ib := by
    simp only [countAdds_eq, List.map_map] at hn
    have := ParRegion.reduce (M := ℕ → ℕ) (N := ℕ → ℕ) (AddMonoidHom.id _)
      (cs := fun iy => (List.range f1.fs.nx).flatMap fun ix =>
        if (rows.getD iy []).getD ix (-1) ≥ 0 then [Pi.single ((rows.getD iy []).getD ix (-1)).toNat (1 : ℕ)] else []) hn
    intro ib
    rw [this, listSum_flatMap, listSum_range]
    unfold nCells
    rw [card_eq_sum_ones, modes_sum]
    simp only [AddMonoidHom.id_apply, Pi.add_apply, Finset.sum_apply, zero_add, listSum_flatMap, listSum_range]
    refine sum_congr rfl fun iy _ => sum_congr rfl fun ix _ => ?_
    show _ = if (rows.getD iy []).getD ix (-1) = (ib : ℤ) then 1 else 0
    by_cases h0 : (rows.getD iy []).getD ix (-1) ≥ 0
    · rw [if_pos h0]
      simp only [List.sum_cons, List.sum_nil, add_zero, Pi.single_apply, toNat_eq_iff h0]
    · rw [if_neg h0, if_neg (by omega)]
      rfl
  have hm0 : m.1 = ((List.range f1.fs.ny).flatMap fun iy =>
      (coupVals f1 f2 (if isTeb then 7 else nmapsOf f1.spin * nmapsOf f2.spin)
        (halfProd f1.fs.nx (f1.fs.map2alm f1.mask) (f1.fs.map2alm f2.mask)) rows rowsNocut iy).map (·, 0) ++
      (coupVals f1 f2 (if isTeb then 7 else nmapsOf f1.spin * nmapsOf f2.spin)
        (halfProd f1.fs.nx (f1.fs.map2alm f1.mask) (f1.fs.map2alm f2.mask)) rows (ringRows f1.fs) iy).map (0, ·)).sum := by
    simp only [coupAdds2_eq, List.map_map] at hm
    have := ParRegion.reduce (M := (ℕ × ℕ → ℝ) × (ℕ × ℕ → ℝ)) (N := (ℕ × ℕ → ℝ) × (ℕ × ℕ → ℝ)) (AddMonoidHom.id _)
      (cs := fun iy => (coupVals f1 f2 (if isTeb then 7 else nmapsOf f1.spin * nmapsOf f2.spin)
        (halfProd f1.fs.nx (f1.fs.map2alm f1.mask) (f1.fs.map2alm f2.mask)) rows rowsNocut iy).map (·, 0) ++
      (coupVals f1 f2 (if isTeb then 7 else nmapsOf f1.spin * nmapsOf f2.spin)
        (halfProd f1.fs.nx (f1.fs.map2alm f1.mask) (f1.fs.map2alm f2.mask)) rows (ringRows f1.fs) iy).map (0, ·)) hm
    rw [this]
    show (0 : (ℕ × ℕ → ℝ) × (ℕ × ℕ → ℝ)) + _ = _
    rw [zero_add]
    rfl
  have hm1 : ∀ k, m.1.1 k = ((List.range f1.fs.ny).flatMap (coupVals f1 f2 (if isTeb then 7 else nmapsOf f1.spin * nmapsOf f2.spin)
      (halfProd f1.fs.nx (f1.fs.map2alm f1.mask) (f1.fs.map2alm f2.mask)) rows rowsNocut)).sum k := by
    intro k
    rw [hm0, sum_pairs_fst]
  have hm2 : ∀ k, m.1.2 k = ((List.range f1.fs.ny).flatMap (coupVals f1 f2 (if isTeb then 7 else nmapsOf f1.spin * nmapsOf f2.spin)
      (halfProd f1.fs.nx (f1.fs.map2alm f1.mask) (f1.fs.map2alm f2.mask)) rows (ringRows f1.fs))).sum k := by
    intro k
    rw [hm0, sum_pairs_snd]
  unfold couplingFlat
  rw [if_neg (not_not.2 hfs), if_neg (fun hh => hh.2 (hteb hh.1)), if_neg hnb]
  have e1 : Outcome.all ((List.range f1.fs.ny).map fun iy => couplingBands f1.fs b c iy) = .ok rows := by
    rw [Outcome.all_range hr, ← list_eq_range_map hl []]
  have e2 : Outcome.all ((List.range f1.fs.ny).map fun iy => couplingBandsNocut f1.fs b iy) = .ok rowsNocut := by
    rw [Outcome.all_range hr', ← list_eq_range_map hl' []]
  simp only []
  rw [e1, e2]
  show Outcome.ok _ = Outcome.ok _
  refine congrArg Outcome.ok ?_
  simp only [WspFlat.mk.injEq, true_and]
  refine ⟨congrArg _ (funext fun ib => (hn1 ib).symm), ?_, ?_, trivial⟩
  · funext i b1 j b2
    by_cases hc : i < (if isTeb then 7 else nmapsOf f1.spin * nmapsOf f2.spin) ∧
        j < (if isTeb then 7 else nmapsOf f1.spin * nmapsOf f2.spin) ∧ b1 < b.nBands ∧ b2 < b.nBands
    · rw [if_pos hc, if_pos hc, hm1, hn1, coupVals_sum _ _ _ _ _ _ _ _ hc.1 hc.2.1]
    · rw [if_neg hc, if_neg hc]
  · funext i b1 j ir
    by_cases hc : i < (if isTeb then 7 else nmapsOf f1.spin * nmapsOf f2.spin) ∧
        j < (if isTeb then 7 else nmapsOf f1.spin * nmapsOf f2.spin) ∧ b1 < b.nBands ∧ ir < f1.fs.nEll
    · rw [if_pos hc, if_pos hc, hm2, hn1, coupVals_sum _ _ _ _ _ _ _ _ hc.1 hc.2.1]
      have e3 : {k2 ∈ f1.fs.modes | tableAt (ringRows f1.fs) k2 = (ir : ℤ)} = {k2 ∈ f1.fs.modes | f1.fs.ring k2.1 k2.2 = (ir : ℤ)} :=
        filter_congr fun k hk => by rw [ringRows_at hk]
      rw [e3]
    · rw [if_neg hc, if_neg hc]

end NaMaster
