import Verif.Coupling.Lemmas5

/-!
# Toeplitz approximation (C22, C23)
-/

namespace NaMaster

open Finset CouplingSpec

/-! ## The argument check -/

/-- **C23** (decision). The check accepts exactly the documented parameters and raises a ValueError otherwise. -/
theorem C23_accepts (lT lE dl lmax : ℤ) (pureAny : Bool) :
    (toeplitzSanity lT lE dl lmax pureAny = none ↔
      lT ≤ 0 ∨ (pureAny = false ∧ 0 < lE ∧ lE ≤ lT ∧ lT < lmax ∧ 0 ≤ dl ∧ dl < lmax)) ∧
    (toeplitzSanity lT lE dl lmax pureAny ≠ none → toeplitzSanity lT lE dl lmax pureAny = some .value) := by
  unfold toeplitzSanity
  by_cases h0 : lT > 0
  · rw [if_pos h0]
    by_cases h1 : pureAny = true
    · rw [if_pos h1]
      simp [h1, h0]
    · rw [if_neg h1]
      have h1' : pureAny = false := by simpa using h1
      by_cases h2 : lE ≤ 0 ∨ dl < 0
      · rw [if_pos h2]
        refine ⟨⟨by simp, fun h => ?_⟩, fun _ => rfl⟩
        omega
      · rw [if_neg h2]
        by_cases h3 : lE > lT
        · rw [if_pos h3]
          refine ⟨⟨by simp, fun h => ?_⟩, fun _ => rfl⟩
          omega
        · rw [if_neg h3]
          by_cases h4 : lT ≥ lmax ∨ lE ≥ lmax ∨ dl ≥ lmax
          · rw [if_pos h4]
            refine ⟨⟨by simp, fun h => ?_⟩, fun _ => rfl⟩
            omega
          · rw [if_neg h4]
            refine ⟨⟨fun _ => Or.inr ⟨h1', ?_⟩, fun _ => rfl⟩, fun h => absurd rfl h⟩
            omega
  · rw [if_neg h0]
    refine ⟨⟨fun _ => Or.inl (by omega), fun _ => rfl⟩, fun h => absurd rfl h⟩

/-- Parameters of a typical call. -/
example : toeplitzSanity 500 100 20 1000 false = none ∧ toeplitzSanity 500 100 20 1000 true = some .value ∧
    toeplitzSanity 500 600 20 1000 false = some .value := by decide

/-- **C23** (memory). With accepted parameters all indices used by the Toeplitz code (src/nmt_master.c:359-391,
787-800, 940-958) are within arrays of `lmax+1` elements: the column of reference, the wrapped index, the end of the
inner loop and all indices of the loop filling the corner, whose bounds are those of the C code. -/
theorem C23_in_range {lT lE dl : ℤ} {lmax : ℕ} {pureAny : Bool} (h : toeplitzSanity lT lE dl lmax pureAny = none)
    (hT : 0 < lT) :
    lT ≤ lmax ∧
    (∀ l2 l3 : ℤ, 0 ≤ l3 → l3 ≤ l2 → l2 ≤ lmax →
      0 ≤ toeplitzWrap (l2 + lT - l3) (lmax + 1) ∧ toeplitzWrap (l2 + lT - l3) (lmax + 1) ≤ lmax) ∧
    (∀ l2 : ℤ, 0 ≤ l2 → l2 ≤ lmax → l2 ≤ lendToeplitz l2 lT lE dl lmax ∧ lendToeplitz l2 lT lE dl lmax ≤ lmax) ∧
    (∀ l2 l3 : ℤ, lmax + lE - lT ≤ l2 → l2 ≤ lmax → lE ≤ l3 → l3 ≤ l2 + lT - lmax →
      0 ≤ l2 ∧ 0 ≤ l3 ∧ l3 < l2 ∧ 0 ≤ lE + l2 - l3 ∧ lE + l2 - l3 ≤ lmax) := by
  rcases ((C23_accepts lT lE dl lmax pureAny).1.1 h) with h | ⟨-, h1, h2, h3, h4, h5⟩
  · omega
  · refine ⟨by omega, fun l2 l3 a b c => ?_, fun l2 a b => ?_, fun l2 l3 a b c d => by omega⟩
    · unfold toeplitzWrap
      split
      · omega
      · split <;> omega
    · unfold lendToeplitz
      rw [if_pos (by omega)]
      split
      · omega
      · split <;> omega

/-- The loops of the model are those loops. -/
theorem fillPairs_loop {lT lE dl : ℤ} {lmax : ℕ} {pureAny : Bool} (h : toeplitzSanity lT lE dl lmax pureAny = none)
    (hT : 0 < lT) (l2 l3 : ℕ) :
    (l2, l3) ∈ fillPairs lmax lT.toNat lE.toNat ↔
      (lmax + lE - lT ≤ l2 ∧ l2 ≤ lmax ∧ lE ≤ l3 ∧ (l3 : ℤ) ≤ l2 + lT - lmax) := by
  rcases ((C23_accepts lT lE dl lmax pureAny).1.1 h) with h | ⟨-, h1, h2, h3, h4, h5⟩
  · omega
  · rw [mem_fillPairs (by omega) (by omega)]
    simp only
    omega

theorem sanity_ok {lT lE dl : ℤ} {lmax : ℕ} {pureAny : Bool} (h : toeplitzSanity lT lE dl lmax pureAny = none)
    (hT : 0 < lT) : ToeplitzOk lT lE dl lmax ∧ pureAny = false := by
  rcases ((C23_accepts lT lE dl lmax pureAny).1.1 h) with h | ⟨h0, h⟩
  · omega
  · exact ⟨⟨h.1, h.2.1, h.2.2.1, h.2.2.2.1, h.2.2.2.2⟩, h0⟩

/-! ## Exact elements -/

/-- **C22** (symmetry). With accepted Toeplitz parameters the matrix divided by `2 l' + 1` does not change when the
multipoles are exchanged. -/
theorem C22_symmetric {W : Wigner} {a : CouplingArgs} {lmaxFields : ℕ} {pcl beam1 beam2 : List ℝ} {B : Bins ℝ}
    {nt : ℤ} {w2 : ℝ} {w : Wsp ℝ} (hs : toeplitzSanity a.lT a.lE a.dl B.ellMax a.pureAny = none) (hT : 0 < a.lT)
    (h : compCouplingMatrix W a lmaxFields pcl beam1 beam2 B nt w2 = .ok w) :
    ∃ U, w.unbinned = some U ∧ ∀ l l' x y, l ≤ B.ellMax → l' ≤ B.ellMax → x < w.ncls → y < w.ncls →
      U (w.ncls * l + x) (w.ncls * l' + y) / (2 * l' + 1) = U (w.ncls * l' + x) (w.ncls * l + y) / (2 * l + 1) := by
  obtain ⟨-, hp⟩ := sanity_ok hs hT
  obtain ⟨-, hn, -, U, hU, hv⟩ := comp_ok h
  refine ⟨U, hU, ?_⟩
  rw [hn]
  intro l l' x y hl hl' hx hy
  rw [hv l l' x y hl hl' hx hy, hv l' l x y hl' hl hx hy]
  obtain ⟨c, e, hk⟩ := cell_kind W a B.ellMax (usedPcl a.lmaxMask pcl) hp hx hy
  have k := hk a.lT a.lE a.dl
  have ea : a.withToeplitz a.lT a.lE a.dl = a := rfl
  rw [ea] at k
  rw [k, k, coefTable_sym _ _ _ _ _ _ l l']
  have p1 : (2 * (l : ℝ) + 1) ≠ 0 := by positivity
  have p2 : (2 * (l' : ℝ) + 1) ≠ 0 := by positivity
  rw [div_eq_div_iff p2 p1]
  ring

/-- **C22**. Elements of the matrix computed with accepted Toeplitz parameters that equal those of the exact
calculation: the diagonal; those with smaller multipole below `l_exact`; with smaller multipole equal to `l_exact`, if
the exact diagonal elements of the same pair of components are not zero; and the band of width `dl_band` up to
`l_toeplitz`, at distance below `lmax - l_toeplitz` from the diagonal. Missing for the full claim: the extra conditions
in the last two cases; without them it is false, see `C22_band_wrong`, `C22_column_wrong`. -/
theorem C22_exact_partial {W : Wigner} {a : CouplingArgs} {lmaxFields : ℕ} {pcl b1 b2 b3 b4 : List ℝ} {B : Bins ℝ}
    {n1 n2 : ℤ} {v1 v2 : ℝ} {w w0 : Wsp ℝ} {lT0 lE0 dl0 : ℤ} (h0 : lT0 ≤ 0)
    (hs : toeplitzSanity a.lT a.lE a.dl B.ellMax a.pureAny = none) (hT : 0 < a.lT)
    (h : compCouplingMatrix W a lmaxFields pcl b1 b2 B n1 v1 = .ok w)
    (h' : compCouplingMatrix W (a.withToeplitz lT0 lE0 dl0) lmaxFields pcl b3 b4 B n2 v2 = .ok w0) :
    w.ncls = w0.ncls ∧ ∃ U U0, w.unbinned = some U ∧ w0.unbinned = some U0 ∧
      ∀ l l' x y, l ≤ B.ellMax → l' ≤ B.ellMax → x < w.ncls → y < w.ncls →
        (l = l' ∨ ((min l l' : ℕ) : ℤ) < a.lE ∨
          (((min l l' : ℕ) : ℤ) = a.lE ∧ U0 (w.ncls * l + x) (w.ncls * l + y) ≠ 0 ∧
            U0 (w.ncls * l' + x) (w.ncls * l' + y) ≠ 0) ∨
          (((min l l' : ℕ) : ℤ) ≤ a.lT ∧ |(l : ℤ) - l'| ≤ a.dl ∧ |(l : ℤ) - l'| < B.ellMax - a.lT)) →
        U (w.ncls * l + x) (w.ncls * l' + y) = U0 (w.ncls * l + x) (w.ncls * l' + y) := by
  obtain ⟨hok, hp⟩ := sanity_ok hs hT
  obtain ⟨-, hn, -, U, hU, hv⟩ := comp_ok h
  obtain ⟨-, hn', -, U0, hU0, hv0⟩ := comp_ok h'
  have hnn : (a.withToeplitz lT0 lE0 dl0).ncls = a.ncls := rfl
  refine ⟨by rw [hn, hn', hnn], U, U0, hU, hU0, ?_⟩
  rw [hn]
  rw [hnn] at hv0
  intro l l' x y hl hl' hx hy hc
  obtain ⟨c, e, hk⟩ := cell_kind W a B.ellMax (usedPcl a.lmaxMask pcl) hp hx hy
  have k := hk a.lT a.lE a.dl
  have ea : a.withToeplitz a.lT a.lE a.dl = a := rfl
  rw [ea] at k
  have hz : ∀ l l', l ≤ B.ellMax → l' ≤ B.ellMax → U0 (a.ncls * l + x) (a.ncls * l' + y) =
      (2 * l' + 1) * c * coefTable (a.calc B.ellMax).lstart B.ellMax false 0 0 0 e (l, l') := by
    intro l l' hl hl'
    rw [hv0 l l' x y hl hl' hx hy]
    have := hk lT0 lE0 dl0 l l'
    rw [show (a.withToeplitz lT0 lE0 dl0).lmaxMask = a.lmaxMask from rfl, this,
      coefTable_plain _ _ _ _ _ _ _ h0 hl hl', coefTable_plain _ _ _ _ _ _ _ le_rfl hl hl']
  rw [hv l l' x y hl hl' hx hy, hz l l' hl hl', k, coefTable_exact hok e hl hl']
  rcases hc with hc | hc | ⟨hc, d1, d2⟩ | hc
  · exact Or.inl hc
  · exact Or.inr (Or.inl hc)
  · refine Or.inr (Or.inr (Or.inl ⟨hc, ?_, ?_⟩))
    · intro hz0
      apply d1
      rw [hz l l hl hl, hz0, mul_zero]
    · intro hz0
      apply d2
      rw [hz l' l' hl' hl', hz0, mul_zero]
  · refine Or.inr (Or.inr (Or.inr ⟨hc.1, ?_, ?_⟩))
    · have := hc.2.1
      rcases le_total l l' with hh | hh
      · rw [min_eq_left hh, max_eq_right hh]
        rw [abs_of_nonpos (by omega)] at this
        omega
      · rw [min_eq_right hh, max_eq_left hh]
        rw [abs_of_nonneg (by omega)] at this
        omega
    · have := hc.2.2
      rcases le_total l l' with hh | hh
      · rw [min_eq_left hh, max_eq_right hh]
        rw [abs_of_nonpos (by omega)] at this
        omega
      · rw [min_eq_right hh, max_eq_left hh]
        rw [abs_of_nonneg (by omega)] at this
        omega

/-! ## Elements that are not exact -/

/-- Scalar fields with `l_toeplitz=2, l_exact=1, dl_band=dl`. -/
def tplzArgs (s : ℕ) (lT lE dl : ℤ) : CouplingArgs := ⟨s, s, 3, false, false, false, false, false, lT, lE, dl, fun _ => 7⟩

theorem tplz_ok (W : Wigner) (s : ℕ) (lT lE dl : ℤ) (pcl : List ℝ) (hpcl : pcl.length = 4) :
    ∃ w, compCouplingMatrix W (tplzArgs s lT lE dl) 3 pcl [1, 1, 1, 1] [1, 1, 1, 1] pairBins 0 1 = .ok w := by
  unfold compCouplingMatrix computeCouplingMatrix
  have e : pairBins.ellMax = 3 := rfl
  rw [if_neg, if_neg, if_neg, if_neg, if_neg]
  · exact ⟨_, rfl⟩
  · simp [tplzArgs, flag]
  · rw [e]; simp [tplzArgs]
  · rw [e]; omega
  · simp [tplzArgs]
  · simp [tplzArgs, hpcl]

/-- The example meets the hypotheses of `C22_exact_partial`. -/
example : ∃ w w0, toeplitzSanity 2 1 0 pairBins.ellMax (tplzArgs 0 2 1 0).pureAny = none ∧
    compCouplingMatrix exampleWigner (tplzArgs 0 2 1 0) 3 [1, 1, 0, 0] [1, 1, 1, 1] [1, 1, 1, 1] pairBins 0 1 = .ok w ∧
    compCouplingMatrix exampleWigner ((tplzArgs 0 2 1 0).withToeplitz (-1) (-1) (-1)) 3 [1, 1, 0, 0] [1, 1, 1, 1]
      [1, 1, 1, 1] pairBins 0 1 = .ok w0 := by
  obtain ⟨w, h⟩ := tplz_ok exampleWigner 0 2 1 0 [1, 1, 0, 0] rfl
  obtain ⟨w0, h0⟩ := tplz_ok exampleWigner 0 (-1) (-1) (-1) [1, 1, 0, 0] rfl
  exact ⟨w, w0, by decide, h, h0⟩

theorem zero3j_sq (l1 l2 l3 : ℕ) (h : Triangle l1 l2 l3 ∧ Even (l1 + l2 + l3)) :
    zero3j l1 l2 l3 ^ 2 =
      (((l2 + l3 - l1).factorial * (l1 + l3 - l2).factorial * (l1 + l2 - l3).factorial : ℕ) /
        ((l1 + l2 + l3 + 1).factorial : ℝ)) *
      ((((l1 + l2 + l3) / 2).factorial : ℝ) / (((l1 + l2 + l3) / 2 - l1).factorial *
        ((l1 + l2 + l3) / 2 - l2).factorial * ((l1 + l2 + l3) / 2 - l3).factorial : ℕ)) ^ 2 := by
  unfold zero3j
  rw [if_pos h]
  simp only
  rw [mul_pow, mul_pow, Real.sq_sqrt (by positivity), ← pow_mul, mul_comm _ 2, pow_mul]
  norm_num

theorem four_sum (W : Wigner) (l2 l3 : ℕ) :
    coupling W 0 0 3 (fun l => ([1, 1, 0, 0] : List ℝ).getD l 0) (fun _ => True) l2 l3 =
      1 / (4 * Real.pi) * (zero3j 0 l2 l3 ^ 2 + 3 * zero3j 1 l2 l3 ^ 2) := by
  unfold coupling
  simp only [if_true, Finset.sum_range_succ, Finset.sum_range_zero]
  unfold spin3j
  simp only [if_true]
  norm_num
  ring

/-- **C22**, band: with `lmax=3, l_toeplitz=2, l_exact=1, dl_band=2` the element of the multipoles 3, 2, which are
within the band, is replaced by an extrapolation and differs from the exact one. -/
theorem C22_band_wrong (W : Wigner) :
    toeplitzSanity 2 1 2 pairBins.ellMax (tplzArgs 0 2 1 2).pureAny = none ∧
    ∃ w w0 U U0, compCouplingMatrix W (tplzArgs 0 2 1 2) 3 [1, 1, 0, 0] [1, 1, 1, 1] [1, 1, 1, 1] pairBins 0 1 = .ok w ∧
      compCouplingMatrix W ((tplzArgs 0 2 1 2).withToeplitz (-1) (-1) (-1)) 3 [1, 1, 0, 0] [1, 1, 1, 1]
        [1, 1, 1, 1] pairBins 0 1 = .ok w0 ∧
      w.unbinned = some U ∧ w0.unbinned = some U0 ∧ U 3 2 ≠ U0 3 2 := by
  refine ⟨by decide, ?_⟩
  obtain ⟨w, h⟩ := tplz_ok W 0 2 1 2 [1, 1, 0, 0] rfl
  obtain ⟨w0, h0⟩ := tplz_ok W 0 (-1) (-1) (-1) [1, 1, 0, 0] rfl
  obtain ⟨-, -, -, U, hU, hv⟩ := comp_ok h
  obtain ⟨-, -, -, U0, hU0, hv0⟩ := comp_ok h0
  refine ⟨w, w0, U, U0, h, h0, hU, hU0, ?_⟩
  have e3 : pairBins.ellMax = 3 := rfl
  have c : (tplzArgs 0 2 1 2).ncls = 1 := by decide
  have c' : (tplzArgs 0 (-1) (-1) (-1)).ncls = 1 := by decide
  have q := hv 3 2 0 0 (by rw [e3]) (by rw [e3]; omega) (by omega) (by omega)
  have q' := hv0 3 2 0 0 (by rw [e3]) (by rw [e3]; omega) (by omega) (by omega)
  rw [c, cells_one _ _ _ _ _ _ c] at q
  rw [c', cells_one _ _ _ _ _ _ c'] at q'
  have sg : ∀ lT lE dl, (if Odd ((tplzArgs 0 lT lE dl).spin1 + (tplzArgs 0 lT lE dl).spin2) then (-1 : ℝ) else 1) = 1 :=
    fun _ _ _ => if_neg (show ¬ Odd (0 + 0) by decide)
  rw [sg] at q q'
  change U (1 * 3 + 0) (1 * 2 + 0) ≠ U0 (1 * 3 + 0) (1 * 2 + 0)
  rw [q, q', e3]
  -- the sums
  have hst : ∀ lT lE dl, ((tplzArgs 0 lT lE dl).calc 3).lstart = 0 := fun _ _ _ => lstart_plain rfl 3
  set ent : ℕ → ℕ → ℝ := entry00 (lfac (fun _ => 7) 3 3) ((tplzArgs 0 2 1 2).calc 3) (usedPcl 3 [1, 1, 0, 0]) with hent
  have hE : ∀ l2 l3, l2 ≤ 3 → l3 ≤ 3 → ent l2 l3 = 1 / (4 * Real.pi) * (zero3j 0 l2 l3 ^ 2 + 3 * zero3j 1 l2 l3 ^ 2) := by
    intro l2 l3 h2 h3
    rw [hent, entry00_eq W _ ((tplzArgs 0 2 1 2).calc 3) 3 3 [1, 1, 0, 0] (by decide) h2 h3, four_sum]
  have zz : ∀ l1 l2 l3, ¬ (Triangle l1 l2 l3 ∧ Even (l1 + l2 + l3)) → zero3j l1 l2 l3 = 0 := by
    intro l1 l2 l3 hh
    unfold zero3j
    rw [if_neg hh]
  have v11 : ent 1 1 = 1 / (4 * Real.pi) * (1 / 3) := by
    rw [hE 1 1 (by omega) (by omega), zero3j_sq 0 1 1 (by decide), zz 1 1 1 (by decide)]
    norm_num [Nat.factorial]
  have v22 : ent 2 2 = 1 / (4 * Real.pi) * (1 / 5) := by
    rw [hE 2 2 (by omega) (by omega), zero3j_sq 0 2 2 (by decide), zz 1 2 2 (by decide)]
    norm_num [Nat.factorial]
  have v33 : ent 3 3 = 1 / (4 * Real.pi) * (1 / 7) := by
    rw [hE 3 3 (by omega) (by omega), zero3j_sq 0 3 3 (by decide), zz 1 3 3 (by decide)]
    norm_num [Nat.factorial]
  have v12 : ent 1 2 = 1 / (4 * Real.pi) * (2 / 5) := by
    rw [hE 1 2 (by omega) (by omega), zero3j_sq 1 1 2 (by decide), zz 0 1 2 (by decide)]
    norm_num [Nat.factorial]
  have v23 : ent 2 3 = 1 / (4 * Real.pi) * (9 / 35) := by
    rw [hE 2 3 (by omega) (by omega), zero3j_sq 1 2 3 (by decide), zz 0 2 3 (by decide)]
    norm_num [Nat.factorial]
  have x1 : ((tplzArgs 0 2 1 2).xi W 3 (usedPcl (tplzArgs 0 2 1 2).lmaxMask [1, 1, 0, 0])).1 3 2 =
      coefTable 0 3 false 2 1 2 ent (3, 2) := by
    unfold CouplingArgs.xi
    simp only
    rw [hst]; rfl
  have x2 : ((tplzArgs 0 (-1) (-1) (-1)).xi W 3 (usedPcl (tplzArgs 0 (-1) (-1) (-1)).lmaxMask [1, 1, 0, 0])).1 3 2 =
      coefTable 0 3 false (-1) (-1) (-1) ent (3, 2) := by
    unfold CouplingArgs.xi
    simp only
    rw [hst]; rfl
  rw [x1, x2, coefTable_plain 0 3 false (-1) (-1) (-1) ent (by norm_num) (by omega) (by omega),
    coefTable_tplz 0 3 2 1 2 ent (by norm_num)]
  have hok : ToeplitzOk 2 1 2 3 := by unfold ToeplitzOk; norm_num
  generalize hm : runWrites (mainWrites 0 3 false (fun l2 : ℕ => (lendToeplitz l2 2 1 2 (3 : ℕ)).toNat) ent)
    (runWrites (tplzWrites 0 3 (2 : ℤ).toNat ent) (fun _ => 0)) = m
  have m11 : m (1, 1) = ent 1 1 := by rw [← hm]; exact main_exact hok ent _ (by omega) (by omega) (by omega) (by decide)
  have m22 : m (2, 2) = ent 2 2 := by rw [← hm]; exact main_exact hok ent _ (by omega) (by omega) (by omega) (by decide)
  have m33 : m (3, 3) = ent 3 3 := by rw [← hm]; exact main_exact hok ent _ (by omega) (by omega) (by omega) (by decide)
  have m21 : m (2, 1) = ent 1 2 := by rw [← hm]; exact main_exact hok ent _ (by omega) (by omega) (by omega) (by decide)
  have hf : fillPairs 3 (2 : ℤ).toNat (1 : ℤ).toNat = [(2, 1), (3, 1), (3, 2)] := by decide
  rw [hf, show (1 : ℤ).toNat = 1 from rfl]
  simp only [List.foldl_cons, List.foldl_nil]
  rw [fillStep_apply, if_pos (Or.inl ⟨rfl, rfl⟩)]
  have hpi : (0 : ℝ) < 1 / (4 * Real.pi) := by have := Real.pi_pos; positivity
  have n11 : m (1, 1) ≠ 0 := by rw [m11, v11]; positivity
  have n22 : m (2, 2) ≠ 0 := by rw [m22, v22]; positivity
  have n33 : m (3, 3) ≠ 0 := by rw [m33, v33]; positivity
  have k1 : ∀ k, fillStep 1 (fillStep 1 m (2, 1)) (3, 1) (k, k) = m (k, k) := by
    intro k
    rw [fillStep_apply, if_neg (by simp; omega), fillStep_apply, if_neg (by simp; omega)]
  have k2 : fillStep 1 (fillStep 1 m (2, 1)) (3, 1) (2, 1) = m (2, 1) := by
    rw [fillStep_apply, if_neg (by simp)]
    have := fill_exact 1 [(2, 1)] (by simp) m 2 n22 n11 (by omega)
    simpa using this
  unfold fillValue
  simp only [show 1 + 3 - 2 = 2 from rfl, k1, k2]
  rw [if_neg (by tauto), if_pos (by omega), if_neg (by simp), show min 3 2 = 2 from rfl, show max 3 2 = 3 from rfl,
    m11, m22, m33, m21, v11, v22, v33, v12, v23]
  generalize 1 / (4 * Real.pi) = p at hpi
  have hq : p * (1 / 7) * (p * (1 / 5)) / (p * (1 / 5) * (p * (1 / 3))) = 3 / 7 := by
    field_simp
  rw [hq]
  intro heq
  have h7 : (2 / 5 : ℝ) * Real.sqrt |3 / 7| = 9 / 35 := by
    have hne : (2 * ((2 : ℕ) : ℝ) + 1) * 1 * p ≠ 0 := by
      have : (2 * ((2 : ℕ) : ℝ) + 1) = 5 := by norm_num
      rw [this]; positivity
    apply mul_left_cancel₀ hne
    linarith
  have h8 := congrArg (fun t => t ^ 2) h7
  simp only [mul_pow] at h8
  rw [abs_of_pos (by norm_num), Real.sq_sqrt (by norm_num)] at h8
  norm_num at h8

/-- **C22**, column `l_exact`: spin-2 fields with a mask spectrum without odd multipoles, `lmax=3, l_toeplitz=2,
l_exact=2, dl_band=0`. The element coupling EE at multipole 3 to BB at multipole 2, whose smaller multipole is
`l_exact`, is set to zero because the diagonal elements of EE-BB are zero. The condition on the symbol holds for the
Wigner symbols. -/
theorem C22_column_wrong (W : Wigner) (hw : W.w 2 2 3 2 (-2) ≠ 0) :
    toeplitzSanity 2 2 0 pairBins.ellMax (tplzArgs 2 2 2 0).pureAny = none ∧
    ∃ w w0 U U0, compCouplingMatrix W (tplzArgs 2 2 2 0) 3 [1, 0, 1, 0] [1, 1, 1, 1] [1, 1, 1, 1] pairBins 0 1 = .ok w ∧
      compCouplingMatrix W ((tplzArgs 2 2 2 0).withToeplitz (-1) (-1) (-1)) 3 [1, 0, 1, 0] [1, 1, 1, 1]
        [1, 1, 1, 1] pairBins 0 1 = .ok w0 ∧
      w.unbinned = some U ∧ w0.unbinned = some U0 ∧ U (4 * 3) (4 * 2 + 3) = 0 ∧ U0 (4 * 3) (4 * 2 + 3) ≠ 0 := by
  refine ⟨by decide, ?_⟩
  obtain ⟨w, h⟩ := tplz_ok W 2 2 2 0 [1, 0, 1, 0] rfl
  obtain ⟨w0, h0⟩ := tplz_ok W 2 (-1) (-1) (-1) [1, 0, 1, 0] rfl
  obtain ⟨-, -, -, U, hU, hv⟩ := comp_ok h
  obtain ⟨-, -, -, U0, hU0, hv0⟩ := comp_ok h0
  refine ⟨w, w0, U, U0, h, h0, hU, hU0, ?_⟩
  have e3 : pairBins.ellMax = 3 := rfl
  have c : (tplzArgs 2 2 2 0).ncls = 4 := by decide
  have c' : (tplzArgs 2 (-1) (-1) (-1)).ncls = 4 := by decide
  have q := hv 3 2 0 3 (by rw [e3]) (by rw [e3]; omega) (by omega) (by omega)
  have q' := hv0 3 2 0 3 (by rw [e3]) (by rw [e3]; omega) (by omega) (by omega)
  rw [c, cells_four _ _ _ _ _ _ _ _ c (by omega) (by omega)] at q
  rw [c', cells_four _ _ _ _ _ _ _ _ c' (by omega) (by omega)] at q'
  have sg : ∀ lT lE dl, (if Odd ((tplzArgs 2 lT lE dl).spin1 + (tplzArgs 2 lT lE dl).spin2) then (-1 : ℝ) else 1) = 1 :=
    fun _ _ _ => if_neg (show ¬ Odd (2 + 2) by decide)
  rw [sg] at q q'
  rw [add_zero] at q q'
  rw [q, q', e3]
  have hst : ∀ lT lE dl, ((tplzArgs 2 lT lE dl).calc 3).lstart = 2 := fun _ _ _ => lstart_plain rfl 3
  set ent : ℕ → ℕ → ℝ := entryMM W ((tplzArgs 2 2 2 0).calc 3) (usedPcl 3 [1, 0, 1, 0]) 0 with hent
  have hE : ∀ l2 l3, ent l2 l3 =
      coupling W 2 2 3 (fun l => ([1, 0, 1, 0] : List ℝ).getD l 0) Odd l2 l3 := by
    intro l2 l3
    rw [hent, entryMM_eq W ((tplzArgs 2 2 2 0).calc 3) 3 [1, 0, 1, 0] (by decide) (by decide)]
    rfl
  have v33 : ent 3 3 = 0 := by
    rw [hE]
    unfold coupling
    apply Finset.sum_eq_zero
    intro l1 hl
    rw [Finset.mem_range] at hl
    interval_cases l1
    · rw [if_neg (by decide)]
    · simp
    · rw [if_neg (by decide)]
    · simp
  have v23 : ent 2 3 ≠ 0 := by
    rw [hE]
    unfold coupling
    rw [Finset.sum_eq_single 2]
    · rw [if_pos (by decide)]
      have : spin3j W 2 2 2 3 = W.w 2 2 3 2 (-2) := by
        unfold spin3j
        rw [if_neg (by omega), if_pos (by decide)]
        rfl
      rw [this]
      have hpi := Real.pi_pos
      have : ((2 * ((2 : ℕ) : ℝ) + 1) / (4 * Real.pi) * ([1, 0, 1, 0] : List ℝ).getD 2 0) ≠ 0 := by
        have h1 : ([1, 0, 1, 0] : List ℝ).getD 2 0 = 1 := rfl
        rw [h1]
        positivity
      exact mul_ne_zero (mul_ne_zero this hw) hw
    · intro l1 hl hne
      rw [Finset.mem_range] at hl
      interval_cases l1
      · rw [spin3j_zero W (by decide)]; simp
      · simp
      · omega
      · simp
    · intro hh
      exact absurd (Finset.mem_range.2 (by omega)) hh
  have x1 : ((tplzArgs 2 2 2 0).xi W 3 (usedPcl (tplzArgs 2 2 2 0).lmaxMask [1, 0, 1, 0])).2.2.2 0 3 2 =
      coefTable 2 3 false 2 2 0 ent (3, 2) := by
    unfold CouplingArgs.xi
    simp only
    rw [hst]; rfl
  have x2 : ((tplzArgs 2 (-1) (-1) (-1)).xi W 3 (usedPcl (tplzArgs 2 (-1) (-1) (-1)).lmaxMask [1, 0, 1, 0])).2.2.2 0 3 2 =
      coefTable 2 3 false (-1) (-1) (-1) ent (3, 2) := by
    unfold CouplingArgs.xi
    simp only
    rw [hst]; rfl
  change (2 * ((2 : ℕ) : ℝ) + 1) * 1 *
      ((tplzArgs 2 2 2 0).xi W 3 (usedPcl (tplzArgs 2 2 2 0).lmaxMask [1, 0, 1, 0])).2.2.2 0 3 2 = 0 ∧
    (2 * ((2 : ℕ) : ℝ) + 1) * 1 *
      ((tplzArgs 2 (-1) (-1) (-1)).xi W 3 (usedPcl (tplzArgs 2 (-1) (-1) (-1)).lmaxMask [1, 0, 1, 0])).2.2.2 0 3 2 ≠ 0
  rw [x1, x2,
    coefTable_plain 2 3 false (-1) (-1) (-1) ent (by norm_num) (by omega) (by omega), coefTable_tplz 2 3 2 2 0 ent (by norm_num)]
  have hok : ToeplitzOk 2 2 0 3 := by unfold ToeplitzOk; norm_num
  generalize hm : runWrites (mainWrites 2 3 false (fun l2 : ℕ => (lendToeplitz l2 2 2 0 (3 : ℕ)).toNat) ent)
    (runWrites (tplzWrites 2 3 (2 : ℤ).toNat ent) (fun _ => 0)) = m
  have m33 : m (3, 3) = ent 3 3 := by rw [← hm]; exact main_exact hok ent _ (by omega) (by omega) (by omega) (by decide)
  have hf : fillPairs 3 (2 : ℤ).toNat (2 : ℤ).toNat = [(3, 2)] := by decide
  rw [hf, show (2 : ℤ).toNat = 2 from rfl]
  simp only [List.foldl_cons, List.foldl_nil]
  rw [fillStep_apply, if_pos (Or.inl ⟨rfl, rfl⟩)]
  constructor
  · unfold fillValue
    rw [if_pos (Or.inl (show m (2 + 3 - 2, 2 + 3 - 2) = 0 by rw [show 2 + 3 - 2 = 3 from rfl, m33, v33])), mul_zero]
  · rw [if_pos (by omega), if_neg (by simp), show min 3 2 = 2 from rfl, show max 3 2 = 3 from rfl]
    apply mul_ne_zero _ v23
    norm_num

/-- The condition can be met. -/
example : exampleWigner.w 2 2 3 2 (-2) ≠ 0 := by
  unfold exampleWigner
  simp only
  rw [if_neg (by decide), if_neg (by decide), if_neg (by decide)]
  norm_num

end NaMaster
