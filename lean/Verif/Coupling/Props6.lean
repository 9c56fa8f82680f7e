import Verif.Coupling.Trace

/-!
# Memory accesses and beams
-/

namespace NaMaster

open Finset CouplingSpec

/-! ## Buffers for Wigner symbols -/

theorem drcMin_le {l2 l3 : ℕ} {m2 m3 : ℤ} (h2 : m2.natAbs ≤ l2) (h3 : m3.natAbs ≤ l3) :
    drcMin l2 l3 m2 m3 ≤ l2 + l3 := by
  unfold drcMin ldist; omega

/-- **C24** (buffers, `drc3jj`). For mask band limit not below that of the bandpowers, any two multipoles and any two
azimuthal numbers, the symbols are computed without error and, whatever the floating-point values, all accesses are within the
`2(lmax_mask+1)` elements of the buffer and no element is read before it is written. -/
theorem C24_buffer (stop bigF bigB : ℕ → Bool) (small : Bool) {lmax lmaxMask l2 l3 : ℕ} (m2 m3 : ℤ) (hM : lmax ≤ lmaxMask)
    (h2 : l2 ≤ lmax) (h3 : l3 ≤ lmax) :
    ∃ tr, bufTrace stop bigF bigB small l2 l3 m2 m3 (2 * (lmaxMask + 1)) = some tr ∧
      InRange (2 * (lmaxMask + 1)) tr ∧ Initialised (fun _ => False) tr := by
  have hd : ldist l2 l3 ≤ drcMin l2 l3 m2 m3 := by unfold drcMin; omega
  have hl : l2 + l3 - ldist l2 l3 ≤ 2 * lmax := by unfold ldist; omega
  unfold bufTrace
  by_cases h0 : l2 < m2.natAbs ∨ l3 < m3.natAbs
  · rw [if_pos h0]
    refine ⟨_, rfl, ?_, ?_⟩
    · intro a ha
      rw [List.mem_map] at ha
      obtain ⟨i, hi, rfl⟩ := ha
      rw [List.mem_range] at hi
      change (0 : ℤ) ≤ i ∧ (i : ℤ) < _
      omega
    · generalize l2 + l3 + 1 - drcMin l2 l3 m2 m3 = n
      suffices ∀ (l : List ℕ) (S : ℤ → Prop), Initialised S (l.map fun ii : ℕ => Acc.w ii) from this _ _
      intro l
      induction l with
      | nil => exact fun _ => trivial
      | cons x t ih => exact fun S => ih _
  · rw [if_neg h0]
    by_cases h1 : l2 + l3 = drcMin l2 l3 m2 m3
    · rw [if_pos h1]
      refine ⟨_, rfl, ?_, trivial⟩
      rw [inRange_cons]
      exact ⟨⟨le_rfl, by change (0 : ℤ) < _; omega⟩, inRange_nil⟩
    · rw [if_neg h1, if_neg (by omega)]
      have hle := drcMin_le (l2 := l2) (l3 := l3) (m2 := m2) (m3 := m3) (by omega) (by omega)
      obtain ⟨r1, r2⟩ := recursion_ok stop bigF bigB small (l2 + l3 - drcMin l2 l3 m2 m3 + 1) (by omega)
      refine ⟨_, rfl, fun a ha => ?_, r2⟩
      have := r1 a ha
      omega

example : bufTrace (fun _ => true) (fun _ => false) (fun _ => false) true 3 2 2 (-2) 12 ≠ none := by decide

/-- **C24** (buffers, `drc3jj_000`). -/
theorem C24_buffer000 {lmax lmaxMask l2 l3 : ℕ} (hM : lmax ≤ lmaxMask) (h2 : l2 ≤ lmax) (h3 : l3 ≤ lmax) :
    ∃ tr, buf000 l2 l3 (2 * (lmaxMask + 1)) = some tr ∧ InRange (2 * (lmaxMask + 1)) tr := by
  have hl : l2 + l3 - ldist l2 l3 ≤ 2 * lmax := by unfold ldist; omega
  unfold buf000
  by_cases h1 : l2 + l3 = ldist l2 l3
  · rw [if_pos h1]
    refine ⟨_, rfl, ?_⟩
    rw [inRange_cons]
    exact ⟨⟨le_rfl, by change (0 : ℤ) < _; omega⟩, inRange_nil⟩
  · rw [if_neg h1, if_neg (by omega)]
    refine ⟨_, rfl, fun a ha => ?_⟩
    rw [List.mem_map] at ha
    obtain ⟨i, hi, rfl⟩ := ha
    rw [List.mem_range] at hi
    change (0 : ℤ) ≤ i ∧ (i : ℤ) < _
    omega

/-- **C24** is false of the code for masks with lower band limit: the field constructor accepts `lmax_mask<lmax`, and then
the symbols of the largest multipoles do not fit the buffers. -/
theorem C24_small_mask_fails (stop bigF bigB : ℕ → Bool) (small : Bool) (lmax lmaxMask : ℕ) (s : ℕ) (hs : s ≤ lmax)
    (hM : lmaxMask < lmax) :
    buf000 lmax lmax (2 * (lmaxMask + 1)) = none ∧
    bufTrace stop bigF bigB small lmax lmax s (-s) (2 * (lmaxMask + 1)) = none := by
  have hd : ldist lmax lmax = 0 := ldist_self _
  have hm : drcMin lmax lmax (s : ℤ) (-s) = 0 := by unfold drcMin; rw [hd]; simp
  unfold buf000 bufTrace
  rw [hd, hm]
  constructor
  · rw [if_neg (by omega), if_pos (by omega)]
  · rw [if_neg (by simp; omega), if_neg (by omega), if_pos (by omega)]

example : buf000 5 5 (2 * (4 + 1)) = none := by decide

/-! ## Reads by the caller -/

/-- Elements which `drc3jj` has written when it returns. -/
theorem buf_written (stop bigF bigB : ℕ → Bool) (small : Bool) (l2 l3 : ℕ) (m2 m3 : ℤ) (size : ℕ) (tr : List Acc)
    (h : bufTrace stop bigF bigB small l2 l3 m2 m3 size = some tr) (j : ℤ) (h0 : 0 ≤ j)
    (h1 : j ≤ (l2 : ℤ) + l3 - drcMin l2 l3 m2 m3) : written tr j := by
  unfold bufTrace at h
  by_cases hz : l2 < m2.natAbs ∨ l3 < m3.natAbs
  · rw [if_pos hz] at h
    injection h with h
    subst h
    have : ∀ (l : List ℕ), j.toNat ∈ l → written (l.map fun ii : ℕ => Acc.w ii) j := by
      intro l
      induction l with
      | nil => simp
      | cons x t ih =>
        intro hm
        rw [List.mem_cons] at hm
        rcases hm with hm | hm
        · left; omega
        · right; exact ih hm
    exact this _ (List.mem_range.2 (by omega))
  · rw [if_neg hz] at h
    by_cases he : l2 + l3 = drcMin l2 l3 m2 m3
    · rw [if_pos he] at h
      injection h with h
      subst h
      left; omega
    · rw [if_neg he] at h
      split at h
      · exact absurd h (by simp)
      · injection h with h
        subst h
        unfold recursionTrace
        simp only
        rw [written_append]
        right
        have : ∀ (l : List ℤ), j ∈ l → written (rescale l) j := by
          intro l
          induction l with
          | nil => simp
          | cons x t ih =>
            intro hm
            rw [List.mem_cons] at hm
            rcases hm with hm | hm
            · left; exact hm
            · right; exact ih hm
        apply this
        rw [List.mem_map]
        exact ⟨j.toNat, List.mem_range.2 (by omega), by omega⟩

/-- Reads after which everything read is initialised. -/
theorem initialised_reads (S : ℤ → Prop) (tr : List Acc) (h : ∀ a ∈ tr, ∃ i, a = .r i ∧ S i) : Initialised S tr := by
  induction tr with
  | nil => trivial
  | cons x t ih =>
    obtain ⟨i, rfl, hi⟩ := h x List.mem_cons_self
    exact ⟨hi, ih (fun a ha => h a (List.mem_cons_of_mem _ ha))⟩

/-- **C24** (reads). The loop over mask multipoles reads only elements of the buffer that have been written by the preceding
call, for the symbols `(s,-s)`, and for those used by purification if the multipoles add up to at least two. Missing: for
purification with TEB the loops start at multipole zero, see `C24_uninitialised_read`. -/
theorem C24_reads_initialised_partial (stop bigF bigB : ℕ → Bool) (small pure : Bool) (l2 l3 lmaxMask size : ℕ) (m2 m3 : ℤ)
    (tr : List Acc) (h : bufTrace stop bigF bigB small l2 l3 m2 m3 size = some tr)
    (hp : pure = true → drcMin l2 l3 m2 m3 ≤ l2 + l3) :
    Initialised (written tr) (callerReads pure l2 l3 (drcMin l2 l3 m2 m3) lmaxMask) := by
  apply initialised_reads
  intro a ha
  unfold callerReads at ha
  rw [List.mem_flatMap] at ha
  obtain ⟨l1, hl1, ha⟩ := ha
  rw [List.mem_filter, mem_rangeIncl] at hl1
  split at ha
  · split at ha
    · rename_i hpure
      rw [List.mem_singleton] at ha
      exact ⟨0, ha, buf_written _ _ _ _ _ _ _ _ _ _ h _ le_rfl (by have := hp hpure; omega)⟩
    · simp at ha
  · rw [List.mem_singleton] at ha
    exact ⟨_, ha, buf_written _ _ _ _ _ _ _ _ _ _ h _ (by omega) (by omega)⟩

example : Initialised (written [.w 0]) (callerReads false 1 0 1 7) := by
  refine ⟨?_, trivial⟩
  left; rfl

/-- **C24** is false of the code: with TEB and purification, for the pair of multipoles 0, 0 the first element of both buffers
used by purification is read although nothing has been written to it. -/
theorem C24_uninitialised_read (stop bigF bigB : ℕ → Bool) (small : Bool) (lmaxMask size : ℕ) :
    (∃ tr, bufTrace stop bigF bigB small 0 0 1 (-2) size = some tr ∧
      ¬ Initialised (written tr) (callerReads true 0 0 (drcMin 0 0 1 (-2)) lmaxMask)) ∧
    (∃ tr, bufTrace stop bigF bigB small 0 0 0 (-2) size = some tr ∧
      ¬ Initialised (written tr) (callerReads true 0 0 (drcMin 0 0 0 (-2)) lmaxMask)) ∧
    (∀ lmax spin2, (Calc.make lmax lmaxMask 0 spin2 true true).lstart = 0) := by
  refine ⟨⟨[], rfl, ?_⟩, ⟨[], rfl, ?_⟩, ?_⟩
  · intro h
    have e : callerReads true 0 0 (drcMin 0 0 1 (-2)) lmaxMask = [.r 0] := by
      unfold callerReads
      have : (rangeIncl (ldist 0 0) (0 + 0)) = [0] := by decide
      rw [this]
      rfl
    rw [e] at h
    exact h.1
  · intro h
    have e : callerReads true 0 0 (drcMin 0 0 0 (-2)) lmaxMask = [.r 0] := by
      unfold callerReads
      have : (rangeIncl (ldist 0 0) (0 + 0)) = [0] := by decide
      rw [this]
      rfl
    rw [e] at h
    exact h.1
  · intro lmax spin2
    unfold Calc.make Calc.lstart Calc.has00
    by_cases h : spin2 = 0 <;> simp [h]

/-! ## Table of factorials -/

/-- **C24** (table). All reads of the table of factorials for multipoles up to `lmax` are within the table exactly if
`4 lmax + 1` is. -/
theorem C24_table_iff (lmax lmaxMask : ℕ) (h1 : 1 ≤ lmax) :
    (∀ l2 l3, l2 ≤ lmax → l3 ≤ lmax → InRange (lfacSize lmax lmaxMask) (lfacTrace l2 l3)) ↔
      4 * lmax + 1 < lfacSize lmax lmaxMask := by
  constructor
  · intro h
    have := h lmax lmax le_rfl le_rfl (.r ((4 * lmax + 1 : ℕ) : ℤ)) (by
      unfold lfacTrace
      rw [ldist_self, if_neg (by omega), List.mem_flatMap]
      refine ⟨lmax + lmax, mem_rangeIncl.2 ⟨by omega, le_rfl⟩, ?_⟩
      unfold lfacReads
      simp only
      rw [if_neg (by omega)]
      simp only [List.mem_cons, Acc.r.injEq]
      right; right; right; left
      push_cast; ring)
    have := this.2
    change ((4 * lmax + 1 : ℕ) : ℤ) < _ at this
    exact_mod_cast this
  · intro h l2 l3 h2 h3 a ha
    unfold lfacTrace at ha
    split at ha
    · simp at ha
    · rw [List.mem_flatMap] at ha
      obtain ⟨l1, hl1, ha⟩ := ha
      rw [mem_rangeIncl] at hl1
      have hld : ldist l2 l3 = (l2 - l3) + (l3 - l2) := rfl
      unfold lfacReads at ha
      simp only at ha
      split at ha
      · simp at ha
      · simp only [List.mem_cons, List.not_mem_nil, or_false] at ha
        rcases ha with rfl | rfl | rfl | rfl | rfl | rfl | rfl | rfl <;> simp only [Acc.idx] <;> omega

/-- **C24** is false of the code: for equal band limits (the default) of at least two the table is read beyond its end. -/
theorem C24_overread (lmax : ℕ) (h : 2 ≤ lmax) : ¬ InRange (lfacSize lmax lmax) (lfacTrace lmax lmax) := by
  intro hr
  have hn : ¬ 4 * lmax + 1 < lfacSize lmax lmax := by unfold lfacSize; rw [max_self]; omega
  apply hn
  have := hr (.r ((4 * lmax + 1 : ℕ) : ℤ)) (by
    unfold lfacTrace
    rw [ldist_self, if_neg (by omega), List.mem_flatMap]
    refine ⟨lmax + lmax, mem_rangeIncl.2 ⟨by omega, le_rfl⟩, ?_⟩
    unfold lfacReads
    simp only
    rw [if_neg (by omega)]
    simp only [List.mem_cons, Acc.r.injEq]
    right; right; right; left
    push_cast; ring)
  have := this.2
  change ((4 * lmax + 1 : ℕ) : ℤ) < _ at this
  exact_mod_cast this

example : ¬ InRange (lfacSize 2 2) (lfacTrace 2 2) := C24_overread 2 le_rfl

/-- A mask band limit of at least `4/3 lmax` makes the table large enough. -/
theorem C24_table_large_mask (lmax lmaxMask l2 l3 : ℕ) (h1 : 1 ≤ lmax) (hM : 4 * lmax < 3 * lmaxMask + 2) (h2 : l2 ≤ lmax)
    (h3 : l3 ≤ lmax) : InRange (lfacSize lmax lmaxMask) (lfacTrace l2 l3) := by
  refine (C24_table_iff lmax lmaxMask h1).2 ?_ l2 l3 h2 h3
  unfold lfacSize; omega

example : 4 * 6 < 3 * 8 + 2 := by decide

theorem lfac_junk (j1 j2 : ℕ → ℝ) {lmax lmaxMask n : ℕ} (h : n < lfacSize lmax lmaxMask) :
    lfac j1 lmax lmaxMask n = lfac j2 lmax lmaxMask n := by
  unfold lfac
  rw [if_pos h, if_pos h]

/-- The elements used do not depend on the memory behind the table. -/
theorem drc000_junk (j1 j2 : ℕ → ℝ) {lmax lmaxMask l1 l2 l3 : ℕ} (hM : lmax ≤ lmaxMask) (h1 : l1 ≤ lmaxMask) (h2 : l2 ≤ lmax)
    (h3 : l3 ≤ lmax) : drc000 (lfac j1 lmax lmaxMask) l1 l2 l3 = drc000 (lfac j2 lmax lmaxMask) l1 l2 l3 := by
  have hs : lfacSize lmax lmaxMask = 3 * (lmaxMask + 1) := by unfold lfacSize; rw [max_eq_right hM]
  have e : ∀ n, n ≤ 3 * lmaxMask + 1 → lfac j1 lmax lmaxMask n = lfac j2 lmax lmaxMask n :=
    fun n hn => lfac_junk _ _ (by omega)
  unfold drc000
  split
  · rfl
  · simp only
    split
    · rfl
    · rw [e (l1 + l2 + l3 - 2 * l1) (by omega), e (l1 + l2 + l3 - 2 * l2) (by omega), e (l1 + l2 + l3 - 2 * l3) (by omega),
        e (l1 + l2 + l3 + 1) (by omega), e ((l1 + l2 + l3) / 2) (by omega), e ((l1 + l2 + l3) / 2 - l1) (by omega),
        e ((l1 + l2 + l3) / 2 - l2) (by omega), e ((l1 + l2 + l3) / 2 - l3) (by omega)]

/-- The table depends only on sums for multipoles up to `lmax`. -/
theorem coefTable_congr (lstart lmax : ℕ) (pureAny : Bool) (lT lE dl : ℤ) (e e' : ℕ → ℕ → ℝ)
    (h : ∀ l2 l3, lstart ≤ l2 → lstart ≤ l3 → l2 ≤ lmax → l3 ≤ lmax → e l2 l3 = e' l2 l3) :
    coefTable lstart lmax pureAny lT lE dl e = coefTable lstart lmax pureAny lT lE dl e' := by
  have hlend : ∀ l2 : ℕ, (lendToeplitz l2 lT lE dl lmax).toNat ≤ lmax := by
    intro l2
    have : lendToeplitz l2 lT lE dl lmax ≤ lmax := min_le_right _ _
    omega
  have hmain : mainWrites lstart lmax pureAny (fun l2 : ℕ => (lendToeplitz l2 lT lE dl lmax).toNat) e =
      mainWrites lstart lmax pureAny (fun l2 : ℕ => (lendToeplitz l2 lT lE dl lmax).toNat) e' := by
    unfold mainWrites
    apply List.flatMap_congr
    intro l2 h2
    apply List.flatMap_congr
    intro l3 h3
    rw [mem_rangeIncl] at h2 h3
    have h3' : lstart ≤ l3 := by
      have := h3.1
      split at this <;> omega
    rw [h l2 l3 h2.1 h3' h2.2 (h3.2.trans (hlend l2))]
  have hdiag : tplzDiag lstart lmax e = tplzDiag lstart lmax e' := by
    funext l
    unfold tplzDiag
    split
    · rename_i hl
      rw [h l l hl.1 hl.1 hl.2 hl.2]
    · rfl
  have hcol : tplzCol lstart lmax lT.toNat e = tplzCol lstart lmax lT.toNat e' := by
    funext l
    unfold tplzCol
    simp only
    rw [hdiag]
    split
    · rename_i hd
      congr 1
      split
      · rename_i hl
        have : lstart ≤ lT.toNat ∧ lT.toNat ≤ lmax := by
          by_contra hc
          have := hd.2
          unfold tplzDiag at this
          rw [if_neg hc] at this
          exact lt_irrefl _ this
        rw [h l _ hl.1 this.1 hl.2 this.2]
      · rfl
    · rfl
  have htp : tplzWrites lstart lmax lT.toNat e = tplzWrites lstart lmax lT.toNat e' := by
    unfold tplzWrites
    rw [hdiag, hcol]
  unfold coefTable
  simp only
  rw [hmain, htp]

/-- **C24** (effect). The computed workspace does not depend on what is in memory behind the table of factorials, although that
memory is read. -/
theorem C24_result_unaffected (W : Wigner) (a : CouplingArgs) (junk : ℕ → ℝ) (lmaxFields : ℕ) (pcl beam1 beam2 : List ℝ)
    (B : Bins ℝ) (nt : ℤ) (w2 : ℝ) :
    compCouplingMatrix W { a with junk := junk } lmaxFields pcl beam1 beam2 B nt w2 =
      compCouplingMatrix W a lmaxFields pcl beam1 beam2 B nt w2 := by
  unfold compCouplingMatrix
  by_cases h0 : beam1.length ≠ lmaxFields + 1 ∨ beam2.length ≠ lmaxFields + 1 ∨ pcl.length ≠ a.lmaxMask + 1
  · exact (if_pos h0).trans (if_pos h0).symm
  refine (if_neg h0).trans (Eq.trans ?_ (if_neg h0).symm)
  unfold computeCouplingMatrix
  by_cases h1 : a.teb ∧ ¬ (a.spin1 = 0 ∧ a.spin2 ≠ 0)
  · exact (if_pos h1).trans (if_pos h1).symm
  refine (if_neg h1).trans (Eq.trans ?_ (if_neg h1).symm)
  by_cases h2 : B.ellMax > lmaxFields
  · rw [if_pos h2, if_pos h2]
  rw [if_neg h2, if_neg h2]
  by_cases h : a.lmaxMask < B.ellMax ∧ (a.calc B.ellMax).lstart ≤ B.ellMax
  · exact (if_pos h).trans (if_pos h).symm
  refine (if_neg h).trans (Eq.trans ?_ (if_neg h).symm)
  by_cases h4 : a.ncls = 2 ∧ (flag a.pe1 + flag a.pe2 = 2 ∨ flag a.pb1 + flag a.pb2 = 2)
  · exact (if_pos h4).trans (if_pos h4).symm
  refine (if_neg h4).trans (Eq.trans ?_ (if_neg h4).symm)
  have hcM : (a.calc B.ellMax).lmaxMask = a.lmaxMask := by
    unfold CouplingArgs.calc Calc.make
    split
    · split <;> rfl
    · rfl
  have hM : ∀ l : ℕ, (a.calc B.ellMax).lstart ≤ l → l ≤ B.ellMax → B.ellMax ≤ a.lmaxMask := by
    intro l h1 h2
    by_contra hc
    exact h ⟨not_le.1 hc, h1.trans h2⟩
  have hcells : ∀ p, CouplingArgs.cells W { a with junk := junk } B.ellMax p = CouplingArgs.cells W a B.ellMax p := by
    intro p
    suffices CouplingArgs.xi W { a with junk := junk } B.ellMax p = CouplingArgs.xi W a B.ellMax p by
      unfold CouplingArgs.cells
      rw [this]
      rfl
    unfold CouplingArgs.xi
    simp only
    refine Prod.ext ?_ (Prod.ext ?_ rfl)
    · funext l2 l3
      refine congrFun (coefTable_congr (a.calc B.ellMax).lstart B.ellMax _ _ _ _
        (entry00 (lfac junk B.ellMax a.lmaxMask) (a.calc B.ellMax) p) _ ?_) (l2, l3)
      intro l2 l3 h2 _ h2' h3'
      unfold entry00 sumMask
      refine Finset.sum_congr rfl (fun l1 _ => ?_)
      by_cases hl : l1 ≤ (a.calc B.ellMax).lmaxMask
      · rw [if_pos hl, if_pos hl]
        beta_reduce
        rw [drc000_junk junk a.junk (hM l2 h2 h2') (hcM ▸ hl) h2' h3']
      · rw [if_neg hl, if_neg hl]
    · funext ip l2 l3
      refine congrFun (coefTable_congr (a.calc B.ellMax).lstart B.ellMax _ _ _ _
        (entry0s W (lfac junk B.ellMax a.lmaxMask) (a.calc B.ellMax) p ip) _ ?_) (l2, l3)
      intro l2 l3 h2 _ h2' h3'
      unfold entry0s sumMask
      refine Finset.sum_congr rfl (fun l1 _ => ?_)
      by_cases hl : l1 ≤ (a.calc B.ellMax).lmaxMask
      · rw [if_pos hl, if_pos hl]
        beta_reduce
        rw [drc000_junk junk a.junk (hM l2 h2 h2') (hcM ▸ hl) h2' h3']
      · rw [if_neg hl, if_neg hl]
  unfold CouplingArgs.matrix
  simp only
  rw [hcells]
  rfl

/-! ## Beams -/

/-- The part of `NmtField.__init__` dealing with the beam (pymaster/field.py:192-202). -/
def fieldBeam {K : Type*} [One K] (lmax : ℕ) : Option (List K) → Outcome (List K)
  | some b => if b.length ≤ lmax then .raises .value else .ok b
  | none => .ok (List.replicate (lmax + 1) 1)

/-- **C25** (constructor). A beam is accepted exactly if it has at least `lmax+1` elements. -/
theorem C25_constructor {K : Type*} [One K] (lmax : ℕ) (b : List K) :
    (lmax + 1 ≤ b.length → fieldBeam lmax (some b) = .ok b) ∧
    (b.length ≤ lmax → fieldBeam lmax (some b) = .raises .value) := by
  unfold fieldBeam
  exact ⟨fun h => if_neg (by omega), fun h => if_pos h⟩

/-- **C25** is false of the code: beams longer than `lmax+1` are accepted by the constructor, and computing a coupling matrix
with such a field always raises a RuntimeError, whatever the other arguments. -/
theorem C25_long_beam_unusable (W : Wigner) (a : CouplingArgs) (lmax : ℕ) (pcl b1 b2 : List ℝ) (B : Bins ℝ) (nt : ℤ) (w2 : ℝ)
    (h1 : lmax + 1 < b1.length) :
    fieldBeam lmax (some b1) = .ok b1 ∧ compCouplingMatrix W a lmax pcl b1 b2 B nt w2 = .raises .runtime ∧
      compCouplingMatrix W a lmax pcl b2 b1 B nt w2 = .raises .runtime := by
  refine ⟨(C25_constructor lmax b1).1 h1.le, ?_, ?_⟩
  · unfold compCouplingMatrix
    rw [if_pos (Or.inl (by omega))]
  · unfold compCouplingMatrix
    rw [if_pos (Or.inr (Or.inl (by omega)))]

example : fieldBeam 1 (some ([1, 2, 3] : List ℝ)) = .ok [1, 2, 3] := (C25_constructor 1 _).1 (by decide)

/-- **C25** (usable). Beams of exactly `lmax+1` elements, in particular the default, give a coupling matrix for every isotropic
pair of fields whose mask band limit is not below that of the bandpowers, without purification and with spin 0 first for TEB.
Missing: longer beams, see `C25_long_beam_unusable`. -/
theorem C25_usable_partial (W : Wigner) (a : CouplingArgs) (lmax : ℕ) (pcl : List ℝ) (in1 in2 : Option (List ℝ)) (B : Bins ℝ)
    (nt : ℤ) (w2 : ℝ) (h1 : ∀ b, in1 = some b → b.length = lmax + 1) (h2 : ∀ b, in2 = some b → b.length = lmax + 1)
    (hp : pcl.length = a.lmaxMask + 1) (hB : B.ellMax ≤ lmax) (hM : B.ellMax ≤ a.lmaxMask)
    (hteb : a.teb = true → a.spin1 = 0 ∧ a.spin2 ≠ 0) (hpure : a.pureAny = false) :
    ∃ b1 b2 w, fieldBeam lmax in1 = .ok b1 ∧ fieldBeam lmax in2 = .ok b2 ∧
      compCouplingMatrix W a lmax pcl b1 b2 B nt w2 = .ok w ∧
      ∀ l, l ≤ lmax → w.beamProd l = b1.getD l 0 * b2.getD l 0 := by
  have key : ∀ i : Option (List ℝ), (∀ b, i = some b → b.length = lmax + 1) →
      ∃ b, fieldBeam lmax i = .ok b ∧ b.length = lmax + 1 := by
    intro i hi
    cases i with
    | none => exact ⟨_, rfl, by simp⟩
    | some b => exact ⟨b, (C25_constructor lmax b).1 (hi b rfl).ge, hi b rfl⟩
  obtain ⟨b1, e1, l1⟩ := key in1 h1
  obtain ⟨b2, e2, l2⟩ := key in2 h2
  have hf : a.pe1 = false ∧ a.pb1 = false ∧ a.pe2 = false ∧ a.pb2 = false := by
    unfold CouplingArgs.pureAny at hpure
    simpa [and_assoc] using hpure
  refine ⟨b1, b2, buildWsp a.ncls lmax a.lmaxMask a.teb nt w2 (fun l => b1.getD l 0) (fun l => b2.getD l 0)
    (tab (a.lmaxMask + 1) (scalePcl fun l => pcl.getD l 0))
    (a.matrix W B.ellMax (tab (a.lmaxMask + 1) (scalePcl fun l => pcl.getD l 0))) B, e1, e2, ?_, ?_⟩
  · unfold compCouplingMatrix
    rw [if_neg (by omega)]
    unfold computeCouplingMatrix
    rw [if_neg (fun h => h.2 (hteb h.1)), if_neg (by omega), if_neg (by omega), if_neg (by simp [flag, hf])]
  · intro l hl
    exact tab_lt (n := lmax + 1) (fun l => b1.getD l 0 * b2.getD l 0) (by omega)

/-- **C25** (updates). `update_beams` on a computed workspace returns normally exactly for two beams of at least `lmax+1`
elements. -/
theorem C25_update_accepts {K : Type*} [Field K] (w : Wsp K) (b1 b2 : List K) (hu : w.unbinned ≠ none) :
    ((⟨some w, true⟩ : Obj K).updateBeams (some b1) (some b2)).2 =
      if w.lmaxFields + 1 ≤ b1.length ∧ w.lmaxFields + 1 ≤ b2.length then .ok .unit else .raises .value := by
  cases hw : w.unbinned with
  | none => exact absurd hw hu
  | some U =>
    unfold Obj.updateBeams
    simp only
    by_cases h : w.lmaxFields + 1 ≤ b1.length ∧ w.lmaxFields + 1 ≤ b2.length
    · rw [if_neg (by omega), if_pos h]
      unfold cUpdateBeams
      rw [if_neg (by omega)]
      unfold binCouplingMatrix
      simp only [hw]
      rfl
    · rw [if_pos (by omega), if_neg h]

/-- A workspace computed from the default beam and one of exactly `lmax+1` elements; then `update_beams` accepts a longer
beam. -/
example : ∃ b1 b2 w, fieldBeam 3 (none : Option (List ℝ)) = .ok b1 ∧ fieldBeam 3 (some ([1, 2, 3, 4] : List ℝ)) = .ok b2 ∧
    compCouplingMatrix exampleWigner ⟨0, 2, 3, false, false, false, false, false, -1, -1, -1, fun _ => 0⟩ 3 [1, 1, 1, 1] b1 b2
      pairBins 0 1 = .ok w ∧
    ((⟨some w, true⟩ : Obj ℝ).updateBeams (some [1, 1, 1, 1, 1]) (some [1, 1, 1, 1])).2 = .ok .unit := by
  obtain ⟨b1, b2, w, h1, h2, h3, -⟩ := C25_usable_partial exampleWigner
    ⟨0, 2, 3, false, false, false, false, false, -1, -1, -1, fun _ => 0⟩ 3 [1, 1, 1, 1] none (some [1, 2, 3, 4]) pairBins 0 1
    (by simp) (by intro b hb; injection hb with hb; subst hb; rfl) rfl le_rfl le_rfl (by simp) rfl
  refine ⟨b1, b2, w, h1, h2, h3, ?_⟩
  obtain ⟨-, -, -, U, hU, -⟩ := comp_ok h3
  have hl : w.lmaxFields = 3 := by
    have := h3
    unfold compCouplingMatrix at this
    rw [if_neg (by
      have e1 : b1.length = 4 := by
        have h1' := h1
        unfold fieldBeam at h1'
        injection h1' with h; rw [← h]; rfl
      have e2 : b2.length = 4 := by
        have h2' := h2
        rw [(C25_constructor 3 _).1 (by decide)] at h2'
        injection h2' with h; rw [← h]; rfl
      simp [e1, e2])] at this
    unfold computeCouplingMatrix at this
    rw [if_neg (by simp), if_neg (by show ¬ 3 > 3; decide), if_neg (fun h => absurd h.1 (by show ¬ 3 < 3; decide)),
      if_neg (by simp [flag])] at this
    injection this with this
    rw [← this]; rfl
  rw [C25_update_accepts w _ _ (by rw [hU]; simp), hl, if_pos (by decide)]

/-- **C25** (elements). Only the first `lmax+1` elements of the beams given to `update_beams` matter. -/
theorem C25_update_prefix {K : Type*} [Field K] (w : Wsp K) (u : Bool) (b1 b2 : List K) (h1 : w.lmaxFields + 1 ≤ b1.length)
    (h2 : w.lmaxFields + 1 ≤ b2.length) :
    (⟨some w, u⟩ : Obj K).updateBeams (some b1) (some b2) =
      (⟨some w, u⟩ : Obj K).updateBeams (some (b1.take (w.lmaxFields + 1))) (some (b2.take (w.lmaxFields + 1))) := by
  have e1 : (b1.take (w.lmaxFields + 1)).length = w.lmaxFields + 1 := by rw [List.length_take]; omega
  have e2 : (b2.take (w.lmaxFields + 1)).length = w.lmaxFields + 1 := by rw [List.length_take]; omega
  have g : ∀ (b : List K) (l : ℕ), l < w.lmaxFields + 1 → (b.take (w.lmaxFields + 1)).getD l 0 = b.getD l 0 := by
    intro b l hl
    simp [List.getD_eq_getElem?_getD, hl]
  unfold Obj.updateBeams
  simp only
  rw [if_neg (by omega), if_neg (by omega)]
  unfold cUpdateBeams
  rw [if_neg (by omega), if_neg (by omega)]
  congr 2
  congr 1
  apply tab_congr
  intro l hl
  rw [g b1 l hl, g b2 l hl]

end NaMaster
