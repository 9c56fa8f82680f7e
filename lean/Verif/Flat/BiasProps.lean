import Verif.Flat.BiasLemmas
import Verif.Flat.InterpProps

/-! # The deprojection bias of flat-sky fields: C71 -/

namespace NaMaster

open Real Finset MeasureTheory

/-! ## Specification -/

/-- `y` is the value at `x` of the spectrum given by the values `row` at the multipoles `ells`: linear between the multipoles, the first
value up to the first one and zero from the last one. -/
def GuessAt (ells : List ℝ) (row : ℕ → ℝ) (x y : ℝ) : Prop :=
  (x ≤ ells.getD 0 0 → y = row 0) ∧ (ells.getD (ells.length - 1) 0 ≤ x → y = 0) ∧
  ∀ i, i + 1 < ells.length → ells.getD i 0 ≤ x → x < ells.getD (i + 1) 0 →
    y = row i + (x - ells.getD i 0) / (ells.getD (i + 1) 0 - ells.getD i 0) * (row (i + 1) - row i)

/-! ## Lemmas -/

theorem propFun_at {ells : List ℝ} (h2 : 2 ≤ ells.length) (hs : ells.Pairwise (· < ·)) {row : ℕ → ℝ} {x y : ℝ} (h : GuessAt ells row x y) :
    propFun ells row x = y := by
  obtain ⟨ha, hb, hc⟩ := h
  set pts : List (ℝ × ℝ) := (List.range ells.length).map fun i => (ells.getD i 0, row i) with hpts
  have hlen : pts.length = ells.length := by simp [hpts]
  have hget : ∀ i (hi : i < pts.length), pts[i] = (ells.getD i 0, row i) := by
    intro i hi
    simp [hpts]
  have hgetD : ∀ i (hi : i < ells.length), ells.getD i 0 = ells[i] := fun i hi => List.getD_eq_getElem _ _ hi
  have hpw : pts.Pairwise (fun a b : ℝ × ℝ => a.1 < b.1) := by
    rw [List.pairwise_iff_getElem]
    intro i j hi hj hij
    rw [hget i hi, hget j hj]
    simp only
    rw [hgetD i (by omega), hgetD j (by omega)]
    exact List.pairwise_iff_getElem.1 hs i j (by omega) (by omega) hij
  have hk : kFunction pts (row 0) 0 x = .ok y := by
    obtain ⟨p, q, ps, hpq⟩ : ∃ p q ps, pts = p :: q :: ps := by
      match hm : pts, hlen with
      | [], hl => simp at hl; omega
      | [_], hl => simp at hl; omega
      | p :: q :: ps, _ => exact ⟨p, q, ps, rfl⟩
    have hp1 : p.1 = ells.getD 0 0 := by
      have := hget 0 (by omega)
      simp only [hpq, List.getElem_cons_zero] at this
      rw [this]
    have hlast : ((q :: ps).getLast (by simp)).1 = ells.getD (ells.length - 1) 0 := by
      have e : (q :: ps).getLast (by simp) = pts.getLast (by rw [hpq]; simp) := by
        simp only [hpq]
        exact (List.getLast_cons (List.cons_ne_nil q ps)).symm
      rw [e, List.getLast_eq_getElem, hget _ (by omega), hlen]
    rw [hpq] at hpw ⊢
    unfold kFunction
    simp only []
    rw [if_pos hpw, hp1, hlast]
    congr 1
    by_cases h1 : x ≤ ells.getD 0 0
    · rw [if_pos h1, ha h1]
    rw [if_neg h1]
    by_cases h3 : ells.getD (ells.length - 1) 0 ≤ x
    · rw [if_pos h3, hb h3]
    rw [if_neg h3]
    push Not at h1 h3
    -- the segment
    have hex : ∃ i, i + 1 < ells.length ∧ ells.getD i 0 ≤ x ∧ x < ells.getD (i + 1) 0 := by
      by_contra hcon
      push Not at hcon
      have : ∀ n, n < ells.length → ells.getD n 0 ≤ x := by
        intro n
        induction n with
        | zero => intro _; exact h1.le
        | succ n ih => intro hn; exact hcon n hn (ih (by omega))
      exact absurd (this (ells.length - 1) (by omega)) (not_le.2 h3)
    obtain ⟨i, hi, hi1, hi2⟩ := hex
    rw [hc i hi hi1 hi2, ← hpq]
    have hsplit : pts = pts.take i ++ (ells.getD i 0, row i) :: (ells.getD (i + 1) 0, row (i + 1)) :: pts.drop (i + 2) := by
      rw [← hget i (by omega), ← hget (i + 1) (by omega), List.getElem_cons_drop, List.getElem_cons_drop, List.take_append_drop]
    rw [hsplit, interpLin_segment]
    · rw [← hsplit, hpq]; exact hpw
    · exact hi1
    · exact hi2
  unfold propFun
  rw [← hpts, hk]

theorem flat_dot_mask (fs : FlatInfo) (nc : ℕ) (T s : FlatMaps) (m : ℕ × ℕ → ℝ) :
    fs.dot nc T (fun c p => s c p * m p) = fs.dot nc (fun c p => T c p * m p) s := by
  unfold FlatInfo.dot
  refine sum_congr rfl fun c _ => ?_
  congr 1
  exact sum_congr rfl fun p _ => by ring

theorem flat_dot_comm (fs : FlatInfo) (nc : ℕ) (a b : FlatMaps) : fs.dot nc a b = fs.dot nc b a := by
  unfold FlatInfo.dot
  refine sum_congr rfl fun c _ => ?_
  congr 1
  exact sum_congr rfl fun p _ => by ring

theorem flatDotL_local (fs : FlatInfo) (nm : ℕ) (a : FlatMaps) : PixLocal fs nm (flatDotL fs nm a) := by
  intro m n h
  change fs.dot nm a m = fs.dot nm a n
  unfold FlatInfo.dot
  refine sum_congr rfl fun c hc => ?_
  congr 1
  exact sum_congr rfl fun p hp => by rw [h c (mem_range.1 hc) p hp]

theorem clPop_local (env : FlatEnv) {a : FlatFieldArgs} {sp : ℕ} (h2 : (a.purifyE = true ∨ a.purifyB = true) → sp = 2)
    (rows : List (List ℤ)) (x : ℕ × ℕ → ℂ) (ib : ℕ) {d : ℕ} (hd : d < nmapsOf sp) :
    PixLocal a.fs (nmapsOf sp) (clFlatL a.fs rows x ib d ∘ₗ popFlatL env a sp) := by
  intro m n h
  change clBand a.fs rows x (popFlat env a sp m d) ib = clBand a.fs rows x (popFlat env a sp n d) ib
  rw [show popFlat env a sp m d = popFlat env a sp n d from funext fun k => popFlat_congr env h2 h hd k]

theorem popFlat_expand (env : FlatEnv) (a : FlatFieldArgs) (sp : ℕ) (x : FlatMaps) (n : ℕ) (α : ℕ → ℝ) (U : ℕ → FlatMaps) :
    popFlat env a sp (x - ∑ i ∈ range n, α i • U i) = popFlat env a sp x - ∑ i ∈ range n, α i • popFlat env a sp (U i) := by
  have := (popFlatL env a sp).map_sub x (∑ i ∈ range n, α i • U i)
  rw [_root_.map_sum] at this
  simp only [map_smul] at this
  exact this

theorem FlatIs.matrix_symm {env : FlatEnv} {a : FlatFieldArgs} {sp : ℕ} {v : FlatMaps} {f : FlatFieldObj} (h : FlatIs env a sp v f)
    {Q : ℕ → ℕ → ℝ} (hQ : f.matrixM.getD (some fun _ _ => 0) = some Q) (i j : ℕ) : Q i j = Q j i := by
  rw [h.matrix] at hQ
  by_cases hn : a.nTempl > 0
  · rw [if_pos hn] at hQ
    exact spectralInverse_symm hQ i j
  · rw [if_neg hn] at hQ
    simp only [Option.getD_none, Option.some.injEq] at hQ
    subst hQ
    rfl

/-- The product of a bilinear function of two skies is integrable. -/
theorem integrable_bilinear {Ω : Type*} [MeasurableSpace Ω] {μ : Measure Ω} {fs : FlatInfo} {n1 n2 : ℕ} {s1 s2 : Ω → FlatMaps}
    (hint : ∀ c < n1, ∀ d < n2, ∀ p ∈ fs.modes, ∀ q ∈ fs.modes, Integrable (fun ω => s1 ω c p * s2 ω d q) μ)
    (B : FlatMaps → FlatMaps →ₗ[ℝ] ℝ) (hB2 : ∀ m, PixLocal fs n2 (B m))
    (hB1 : ∀ n, ∃ φ : FlatMaps →ₗ[ℝ] ℝ, PixLocal fs n1 φ ∧ ∀ m, φ m = B m n) : Integrable (fun ω => B (s1 ω) (s2 ω)) μ := by
  choose φ hφ1 hφ2 using hB1
  have e : ∀ ω, B (s1 ω) (s2 ω) = ∑ d ∈ range n2, ∑ q ∈ fs.modes, ∑ c ∈ range n1, ∑ p ∈ fs.modes,
      φ (flatDelta d q) (flatDelta c p) * (s1 ω c p * s2 ω d q) := by
    intro ω
    rw [(hB2 (s1 ω)).expand]
    refine sum_congr rfl fun d _ => sum_congr rfl fun q _ => ?_
    rw [← hφ2, (hφ1 (flatDelta d q)).expand, mul_sum]
    refine sum_congr rfl fun c _ => ?_
    rw [mul_sum]
    exact sum_congr rfl fun p _ => by ring
  simp only [e]
  exact integrable_finsetSum _ fun d hd => integrable_finsetSum _ fun q hq => integrable_finsetSum _ fun c hc =>
    integrable_finsetSum _ fun p hp => (hint c (mem_range.1 hc) d (mem_range.1 hd) p hp q hq).const_mul _

/-- The bias for two components, from the masked or purified coefficients `P1`, `P2` of maps, the templates `U1`, `U2`, the maps `M1`,
`M2` of the templates contracted with the covariance, and the inverse matrices. -/
noncomputable def biasValue (fs : FlatInfo) (rows : List (List ℤ)) (nt1 nt2 : ℕ) (P1 P2 : FlatMaps → FlatAlms) (U1 U2 M1 M2 : ℕ → FlatMaps)
    (Q1 Q2 D : ℕ → ℕ → ℝ) (c d ib : ℕ) : ℝ :=
  0 - (∑ i ∈ range nt2, ∑ j ∈ range nt2, clBand fs rows (P1 (M2 j) c) (P2 (U2 i) d) ib * Q2 i j)
    - (∑ i ∈ range nt1, ∑ j ∈ range nt1, clBand fs rows (P1 (U1 i) c) (P2 (M1 j) d) ib * Q1 i j)
    + ∑ i ∈ range nt1, ∑ p ∈ range nt2, ∑ j ∈ range nt1, ∑ q ∈ range nt2,
      clBand fs rows (P1 (U1 i) c) (P2 (U2 p) d) ib * D j q * Q1 i j * Q2 p q

theorem biasFlatSums_is {env : FlatEnv} {a1 a2 : FlatFieldArgs} {sp1 sp2 : ℕ} {v1 v2 : FlatMaps} {f1 f2 : FlatFieldObj}
    (k1 : FlatIs env a1 sp1 v1 f1) (k2 : FlatIs env a2 sp2 v2 f2) {rows : List (List ℤ)} {g : ℕ → ℕ → ℝ → ℝ} {Q1 Q2 : ℕ → ℕ → ℝ}
    {M1 M2 : ℕ → FlatMaps}
    (q1 : ∀ j < a1.nTempl, biasMapFlat env f1 f2 g (fun c p => a1.rawTempl j c p * a1.mask p) = M1 j)
    (q2 : ∀ j < a2.nTempl, biasMapFlat env f2 f1 (fun d c => g c d) (fun c p => a2.rawTempl j c p * a2.mask p) = M2 j) (c d ib : ℕ) :
    biasFlatSums env f1 f2 rows g Q1 Q2 c d ib = biasValue a1.fs rows a1.nTempl a2.nTempl (popFlat env a1 sp1) (popFlat env a2 sp2)
      a1.rawTempl a2.rawTempl M1 M2 Q1 Q2
      (fun j q => a1.fs.dot (nmapsOf sp1) (fun c p => a1.rawTempl j c p * a1.mask p * a1.mask p) (M2 q)) c d ib := by
  unfold biasFlatSums biasValue
  simp only [k1.fs, k1.ntemp, k2.ntemp, k1.nmaps, k1.mask, k1.pop, k2.pop]
  have hA : ∀ i ∈ range a2.nTempl, ∀ j ∈ range a2.nTempl,
      clBand a1.fs rows (popFlat env a1 sp1 (biasMapFlat env f2 f1 (fun d c => g c d) (f2.temp.getD (fun _ _ _ => 0) j)) c)
        (f2.aTemp.getD (fun _ _ _ => 0) i d) ib * Q2 i j =
      clBand a1.fs rows (popFlat env a1 sp1 (M2 j) c) (popFlat env a2 sp2 (a2.rawTempl i) d) ib * Q2 i j := by
    intro i hi j hj
    rw [k2.aTemp i (mem_range.1 hi), k2.temp j (mem_range.1 hj), q2 j (mem_range.1 hj)]
  have hB : ∀ i ∈ range a1.nTempl, ∀ j ∈ range a1.nTempl,
      clBand a1.fs rows (f1.aTemp.getD (fun _ _ _ => 0) i c)
        (popFlat env a2 sp2 (biasMapFlat env f1 f2 g (f1.temp.getD (fun _ _ _ => 0) j)) d) ib * Q1 i j =
      clBand a1.fs rows (popFlat env a1 sp1 (a1.rawTempl i) c) (popFlat env a2 sp2 (M1 j) d) ib * Q1 i j := by
    intro i hi j hj
    rw [k1.aTemp i (mem_range.1 hi), k1.temp j (mem_range.1 hj), q1 j (mem_range.1 hj)]
  have hD : ∀ i ∈ range a1.nTempl, ∀ p ∈ range a2.nTempl, ∀ j ∈ range a1.nTempl, ∀ q ∈ range a2.nTempl,
      clBand a1.fs rows (f1.aTemp.getD (fun _ _ _ => 0) i c) (f2.aTemp.getD (fun _ _ _ => 0) p d) ib *
        a1.fs.dot (nmapsOf sp1) (fun c p => biasMapFlat env f2 f1 (fun d c => g c d) (f2.temp.getD (fun _ _ _ => 0) q) c p * a1.mask p)
          (f1.temp.getD (fun _ _ _ => 0) j) * Q1 i j * Q2 p q =
      clBand a1.fs rows (popFlat env a1 sp1 (a1.rawTempl i) c) (popFlat env a2 sp2 (a2.rawTempl p) d) ib *
        a1.fs.dot (nmapsOf sp1) (fun c p => a1.rawTempl j c p * a1.mask p * a1.mask p) (M2 q) * Q1 i j * Q2 p q := by
    intro i hi p hp j hj q hq
    rw [k1.aTemp i (mem_range.1 hi), k2.aTemp p (mem_range.1 hp), k2.temp q (mem_range.1 hq), q2 q (mem_range.1 hq),
      k1.temp j (mem_range.1 hj), flat_dot_comm, flat_dot_mask]
  rw [sum_congr rfl fun i hi => sum_congr rfl fun j hj => hA i hi j hj, sum_congr rfl fun i hi => sum_congr rfl fun j hj => hB i hi j hj,
    sum_congr rfl fun i hi => sum_congr rfl fun p hp => sum_congr rfl fun j hj => sum_congr rfl fun q hq => hD i hi p hp j hj q hq]

theorem deprojBiasFlatObj_is {env : FlatEnv} {a1 a2 : FlatFieldArgs} {sp1 sp2 : ℕ} {v1 v2 : FlatMaps} {f1 f2 : FlatFieldObj}
    (k1 : FlatIs env a1 sp1 v1 f1) (k2 : FlatIs env a2 sp2 v2 f2) (hfs : a1.fs = a2.fs) {b : FlatBins ℝ} {c : EllCuts} {rows : List (List ℤ)}
    (hrows : Outcome.all ((List.range a1.fs.ny).map fun iy => alm2clBands a1.fs b c iy) = .ok rows) {ells : List ℝ} {guess : Arr2 ℝ}
    (hl2 : 2 ≤ ells.length) (hls : ells.Pairwise (· < ·)) (hgr : guess.rows = nmapsOf sp1 * nmapsOf sp2) (hgc : guess.cols = ells.length)
    {Q1 Q2 : ℕ → ℕ → ℝ} (hq1 : f1.matrixM.getD (some fun _ _ => 0) = some Q1) (hq2 : f2.matrixM.getD (some fun _ _ => 0) = some Q2)
    {M1 M2 : ℕ → FlatMaps}
    (q1 : ∀ j < a1.nTempl, biasMapFlat env f1 f2 (fun c d => propFun ells (guess.val (c * nmapsOf sp2 + d)))
      (fun c p => a1.rawTempl j c p * a1.mask p) = M1 j)
    (q2 : ∀ j < a2.nTempl, biasMapFlat env f2 f1 (fun d c => propFun ells (guess.val (c * nmapsOf sp2 + d)))
      (fun c p => a2.rawTempl j c p * a2.mask p) = M2 j) :
    deprojBiasFlatObj env f1 f2 b c ells guess = .ok (some (Arr2.of (nmapsOf sp1 * nmapsOf sp2) b.nBands fun k ib =>
      biasValue a1.fs rows a1.nTempl a2.nTempl (popFlat env a1 sp1) (popFlat env a2 sp2)
      a1.rawTempl a2.rawTempl M1 M2 Q1 Q2
      (fun j q => a1.fs.dot (nmapsOf sp1) (fun c p => a1.rawTempl j c p * a1.mask p * a1.mask p) (M2 q)) (k / nmapsOf sp2)
        (k % nmapsOf sp2) ib)) := by
  unfold deprojBiasFlatObj
  rw [k1.nmaps, k2.nmaps, if_neg (by rw [hgr]; simp), if_neg (by rw [hgc]; simp)]
  unfold deprojBiasFlatObjC
  rw [if_neg (by rw [k1.lite, k2.lite]; simp), if_neg (by simp only [not_not]; exact ⟨hl2, hls⟩), k1.nmaps, k2.nmaps, if_neg (lt_irrefl _),
    if_neg (by rw [k1.fs, k2.fs]; exact fun h => h hfs), k1.ntemp, k2.ntemp]
  by_cases hz : a1.nTempl = 0 ∧ a2.nTempl = 0
  · rw [if_pos hz]
    congr 2
    refine Arr2.of_congr fun k ib _ _ => ?_
    unfold biasValue
    simp [hz.1, hz.2]
  rw [if_neg hz, k1.fs, hrows]
  simp only [Outcome.bind, hq1, hq2]
  congr 2
  refine Arr2.of_congr fun k ib hk hib => ?_
  rw [if_pos hk]
  exact biasFlatSums_is k1 k2 q1 q2 _ _ _

/-- The mean of a spectrum of cleaned coefficients, when the products of the template overlaps with the skies have known means. -/
theorem bias_mean {Ω : Type*} [MeasurableSpace Ω] {μ : Measure Ω} {E : (Ω → ℝ) →ₗ[ℝ] ℝ} (hEI : ∀ f, Integrable f μ → E f = ∫ ω, f ω ∂μ)
    {fs : FlatInfo} {rows : List (List ℤ)} {m1 m2 : ℕ} {s1 s2 : Ω → FlatMaps}
    (hintp : ∀ c < m1, ∀ d < m2, ∀ p ∈ fs.modes, ∀ q ∈ fs.modes, Integrable (fun ω => s1 ω c p * s2 ω d q) μ)
    {P1 P2 : FlatMaps → FlatAlms} {U1 U2 M1 M2 V1 V2 : ℕ → FlatMaps} {Q1 Q2 : ℕ → ℕ → ℝ} {nt1 nt2 c d ib : ℕ}
    (hφ : ∀ x : ℕ × ℕ → ℂ, ∃ φ : FlatMaps →ₗ[ℝ] ℝ, PixLocal fs m2 φ ∧ ∀ m, φ m = clBand fs rows x (P2 m d) ib)
    (hψ : ∀ x : ℕ × ℕ → ℂ, ∃ φ : FlatMaps →ₗ[ℝ] ℝ, PixLocal fs m1 φ ∧ ∀ m, φ m = clBand fs rows (P1 m c) x ib)
    (e21 : ∀ j (φ : FlatMaps →ₗ[ℝ] ℝ), PixLocal fs m1 φ → E (fun ω => flatDotL fs m2 (V2 j) (s2 ω) * φ (s1 ω)) = φ (M2 j))
    (e12 : ∀ j (φ : FlatMaps →ₗ[ℝ] ℝ), PixLocal fs m2 φ → E (fun ω => flatDotL fs m1 (V1 j) (s1 ω) * φ (s2 ω)) = φ (M1 j)) :
    Integrable (fun ω => clBand fs rows
      ((P1 (s1 ω) - ∑ i ∈ range nt1, (∑ j ∈ range nt1, Q1 i j * flatDotL fs m1 (V1 j) (s1 ω)) • P1 (U1 i)) c)
      ((P2 (s2 ω) - ∑ i ∈ range nt2, (∑ j ∈ range nt2, Q2 i j * flatDotL fs m2 (V2 j) (s2 ω)) • P2 (U2 i)) d) ib) μ ∧
    Integrable (fun ω => clBand fs rows (P1 (s1 ω) c) (P2 (s2 ω) d) ib) μ ∧
    ∫ ω, clBand fs rows
      ((P1 (s1 ω) - ∑ i ∈ range nt1, (∑ j ∈ range nt1, Q1 i j * flatDotL fs m1 (V1 j) (s1 ω)) • P1 (U1 i)) c)
      ((P2 (s2 ω) - ∑ i ∈ range nt2, (∑ j ∈ range nt2, Q2 i j * flatDotL fs m2 (V2 j) (s2 ω)) • P2 (U2 i)) d) ib ∂μ =
    ∫ ω, clBand fs rows (P1 (s1 ω) c) (P2 (s2 ω) d) ib ∂μ +
      biasValue fs rows nt1 nt2 P1 P2 U1 U2 M1 M2 Q1 Q2 (fun j q => flatDotL fs m1 (V1 j) (M2 q)) c d ib := by
  choose φ hφ1 hφ2 using hφ
  choose ψ hψ1 hψ2 using hψ
  simp only [clBand_expand]
  -- integrability
  have i0 : Integrable (fun ω => clBand fs rows (P1 (s1 ω) c) (P2 (s2 ω) d) ib) μ := by
    have := integrable_bilinear hintp (fun m => φ (P1 m c)) (fun m => hφ1 _) (fun n => ⟨ψ (P2 n d), hψ1 _, fun m => by rw [hψ2, hφ2]⟩)
    simpa only [hφ2] using this
  have i1 : ∀ i j, Integrable (fun ω => flatDotL fs m1 (V1 j) (s1 ω) * φ (P1 (U1 i) c) (s2 ω)) μ := by
    intro i j
    have := integrable_bilinear hintp (fun m => flatDotL fs m1 (V1 j) m • φ (P1 (U1 i) c))
      (fun m m' n' h => by simp only [LinearMap.smul_apply]; rw [hφ1 _ m' n' h])
      (fun n => ⟨φ (P1 (U1 i) c) n • flatDotL fs m1 (V1 j),
        fun m' n' h => by simp only [LinearMap.smul_apply]; rw [flatDotL_local _ _ _ m' n' h],
        fun m => by simp only [LinearMap.smul_apply, smul_eq_mul]; ring⟩)
    simpa only [LinearMap.smul_apply, smul_eq_mul] using this
  have i2 : ∀ i j, Integrable (fun ω => flatDotL fs m2 (V2 j) (s2 ω) * ψ (P2 (U2 i) d) (s1 ω)) μ := by
    intro i j
    have := integrable_bilinear hintp (fun m => ψ (P2 (U2 i) d) m • flatDotL fs m2 (V2 j))
      (fun m m' n' h => by simp only [LinearMap.smul_apply]; rw [flatDotL_local _ _ _ m' n' h])
      (fun n => ⟨flatDotL fs m2 (V2 j) n • ψ (P2 (U2 i) d),
        fun m' n' h => by simp only [LinearMap.smul_apply]; rw [hψ1 _ m' n' h],
        fun m => by simp only [LinearMap.smul_apply, smul_eq_mul]; ring⟩)
    refine this.congr (Filter.Eventually.of_forall fun ω => ?_)
    simp only [LinearMap.smul_apply, smul_eq_mul]
    rw [mul_comm]
  have i3 : ∀ j q, Integrable (fun ω => flatDotL fs m2 (V2 q) (s2 ω) * flatDotL fs m1 (V1 j) (s1 ω)) μ := by
    intro j q
    have := integrable_bilinear hintp (fun m => flatDotL fs m1 (V1 j) m •
        flatDotL fs m2 (V2 q))
      (fun m m' n' h => by simp only [LinearMap.smul_apply]; rw [flatDotL_local _ _ _ m' n' h])
      (fun n => ⟨flatDotL fs m2 (V2 q) n •
          flatDotL fs m1 (V1 j),
        fun m' n' h => by simp only [LinearMap.smul_apply]; rw [flatDotL_local _ _ _ m' n' h],
        fun m => by simp only [LinearMap.smul_apply, smul_eq_mul]; ring⟩)
    refine this.congr (Filter.Eventually.of_forall fun ω => ?_)
    simp only [LinearMap.smul_apply, smul_eq_mul]
    rw [mul_comm]
  have efun : (fun ω => clBand fs rows (P1 (s1 ω) c) (P2 (s2 ω) d) ib -
        (∑ i ∈ range nt1, (∑ j ∈ range nt1, Q1 i j * flatDotL fs m1 (V1 j) (s1 ω)) * clBand fs rows (P1 (U1 i) c) (P2 (s2 ω) d) ib) -
        (∑ s ∈ range nt2, (∑ j ∈ range nt2, Q2 s j * flatDotL fs m2 (V2 j) (s2 ω)) * clBand fs rows (P1 (s1 ω) c) (P2 (U2 s) d) ib) +
        ∑ i ∈ range nt1, ∑ s ∈ range nt2, (∑ j ∈ range nt1, Q1 i j * flatDotL fs m1 (V1 j) (s1 ω)) * (∑ j ∈ range nt2, Q2 s j * flatDotL fs m2 (V2 j) (s2 ω)) *
          clBand fs rows (P1 (U1 i) c) (P2 (U2 s) d) ib) =
      (fun ω => clBand fs rows (P1 (s1 ω) c) (P2 (s2 ω) d) ib) -
        (∑ i ∈ range nt1, ∑ j ∈ range nt1, Q1 i j • fun ω => flatDotL fs m1 (V1 j) (s1 ω) * φ (P1 (U1 i) c) (s2 ω)) -
        (∑ s ∈ range nt2, ∑ j ∈ range nt2, Q2 s j • fun ω => flatDotL fs m2 (V2 j) (s2 ω) * ψ (P2 (U2 s) d) (s1 ω)) +
        ∑ i ∈ range nt1, ∑ s ∈ range nt2, ∑ j ∈ range nt1, ∑ r ∈ range nt2,
          (Q1 i j * Q2 s r * clBand fs rows (P1 (U1 i) c) (P2 (U2 s) d) ib) • fun ω => flatDotL fs m2 (V2 r) (s2 ω) *
            flatDotL fs m1 (V1 j) (s1 ω) := by
    funext ω
    simp only [Pi.add_apply, Pi.sub_apply, Finset.sum_apply, Pi.smul_apply, smul_eq_mul, hφ2, hψ2]
    congr 1
    · congr 1
      · congr 1
        exact sum_congr rfl fun i _ => by rw [sum_mul]; exact sum_congr rfl fun j _ => by ring
      · exact sum_congr rfl fun i _ => by rw [sum_mul]; exact sum_congr rfl fun j _ => by ring
    · refine sum_congr rfl fun i _ => sum_congr rfl fun s _ => ?_
      rw [sum_mul_sum, sum_mul]
      refine sum_congr rfl fun j _ => ?_
      rw [sum_mul]
      exact sum_congr rfl fun r _ => by ring
  have hintF := (((i0.sub (integrable_finsetSum' (μ := μ) (range nt1) fun i _ => integrable_finsetSum' (μ := μ) (range nt1) fun j _ =>
    (i1 i j).smul (Q1 i j))).sub (integrable_finsetSum' (μ := μ) (range nt2) fun i _ => integrable_finsetSum' (μ := μ) (range nt2)
      fun j _ => (i2 i j).smul (Q2 i j))).add (integrable_finsetSum' (μ := μ) (range nt1) fun i _ => integrable_finsetSum' (μ := μ)
        (range nt2) fun s _ => integrable_finsetSum' (μ := μ) (range nt1) fun j _ => integrable_finsetSum' (μ := μ) (range nt2) fun r _ =>
          (i3 j r).smul (Q1 i j * Q2 s r * clBand fs rows (P1 (U1 i) c) (P2 (U2 s) d) ib)))
  rw [efun]
  refine ⟨hintF, i0, ?_⟩
  rw [← hEI _ hintF, ← hEI _ i0]
  simp only [map_add, map_sub, _root_.map_sum, map_smul, smul_eq_mul]
  simp only [e12 _ _ (hφ1 _), e21 _ _ (hψ1 _), e21 _ _ (flatDotL_local _ _ _)]
  simp only [hφ2, hψ2]
  have hfg : (∑ i ∈ range nt1, ∑ s ∈ range nt2, ∑ j ∈ range nt1, ∑ r ∈ range nt2,
      Q1 i j * Q2 s r * clBand fs rows (P1 (U1 i) c) (P2 (U2 s) d) ib *
        flatDotL fs m1 (V1 j) (M2 r)) =
      ∑ i ∈ range nt1, ∑ p ∈ range nt2, ∑ j ∈ range nt1, ∑ q ∈ range nt2,
        clBand fs rows (P1 (U1 i) c) (P2 (U2 p) d) ib *
          flatDotL fs m1 (V1 j) (M2 q) * Q1 i j * Q2 p q := by
    refine sum_congr rfl fun i _ => sum_congr rfl fun s _ => sum_congr rfl fun j _ => sum_congr rfl fun r _ => ?_
    ring
  rw [hfg]
  have h1 : ∑ i ∈ range nt1, ∑ j ∈ range nt1, Q1 i j * clBand fs rows (P1 (U1 i) c) (P2 (M1 j) d) ib =
      ∑ i ∈ range nt1, ∑ j ∈ range nt1, clBand fs rows (P1 (U1 i) c) (P2 (M1 j) d) ib * Q1 i j :=
    sum_congr rfl fun i _ => sum_congr rfl fun j _ => mul_comm _ _
  have h2 : ∑ i ∈ range nt2, ∑ j ∈ range nt2, Q2 i j * clBand fs rows (P1 (M2 j) c) (P2 (U2 i) d) ib =
      ∑ i ∈ range nt2, ∑ j ∈ range nt2, clBand fs rows (P1 (M2 j) c) (P2 (U2 i) d) ib * Q2 i j :=
    sum_congr rfl fun i _ => sum_congr rfl fun j _ => mul_comm _ _
  rw [h1, h2]
  unfold biasValue
  ring

/-- The mean of the product of the overlap of one sky with a map and a linear function of the other sky. -/
theorem overlap_mean {Ω : Type*} [MeasurableSpace Ω] {μ : Measure Ω} {E : (Ω → ℝ) →ₗ[ℝ] ℝ} (hEI : ∀ f, Integrable f μ → E f = ∫ ω, f ω ∂μ)
    {fs : FlatInfo} (hlx : 0 < fs.lx) (hly : 0 < fs.ly) (c2r : C2r fs) {sp1 sp2 : ℕ} {s1 s2 : Ω → FlatMaps} {F1 F2 : Ω → ℕ → ℕ × ℕ → ℂ}
    (hs1 : ∀ ω, SkyHas fs sp1 (s1 ω) (F1 ω)) (hs2 : ∀ ω, SkyHas fs sp2 (s2 ω) (F2 ω)) {g : ℕ → ℕ → ℝ → ℝ}
    (hC : Homogeneous μ fs (nmapsOf sp1) (nmapsOf sp2) F1 F2 fun X Y k => g X Y (fs.kmod k.1 k.2)) (V : FlatMaps) (φ : FlatMaps →ₗ[ℝ] ℝ)
    (hφ : PixLocal fs (nmapsOf sp1) φ) :
    E (fun ω => flatDotL fs (nmapsOf sp2) V (s2 ω) * φ (s1 ω)) =
      φ (fsAlm2map c2r.run fs sp1 (mixFlat fs (nmapsOf sp2) (fun d c => g c d) (fsMap2alm fs sp2 V))) := by
  refine flat_mean_linear E hφ s1 _ _ fun c hc p hp => ?_
  rw [hEI]
  · exact cov_contract μ hlx hly c2r hs1 hs2 hC _ hc hp
  · have : (fun ω => s1 ω c p * flatDotL fs (nmapsOf sp2) V (s2 ω)) = fun ω => ∑ d ∈ range (nmapsOf sp2), ∑ q ∈ fs.modes,
        V d q * fs.pixsize * (s1 ω c p * s2 ω d q) := by
      funext ω
      change s1 ω c p * fs.dot (nmapsOf sp2) V (s2 ω) = _
      simp only [FlatInfo.dot, mul_sum, sum_mul]
      exact sum_congr rfl fun d _ => sum_congr rfl fun q _ => by ring
    rw [this]
    exact integrable_finsetSum _ fun d hd => integrable_finsetSum _ fun q hq =>
      (pixel_cov μ hs1 hs2 hC hc (mem_range.1 hd) hp hq).1.const_mul _

/-! ## C71 -/

/-- C71: for random skies whose spectra at all modes of the map are those passed as best guess, `deprojection_bias_flat` is exactly the
difference between the mean spectrum of the fields with templates and the mean spectrum of the same fields without, in every band, also
for purified fields and for maps of any shape. -/
theorem C71_mean {Ω : Type*} [MeasurableSpace Ω] (μ : Measure Ω) [IsProbabilityMeasure μ] (env : FlatEnv) (hE : env.Exact)
    (a1 a2 : FlatFieldArgs) (hc1 : FlatCall a1) (hc2 : FlatCall a2) (hfs : a1.fs = a2.fs) (n1 n2 : ℕ) (s1 s2 : Ω → FlatMaps)
    (F1 F2 : Ω → ℕ → ℕ × ℕ → ℂ) (C : ℕ → ℕ → ℕ × ℕ → ℝ)
    (hs1 : ∀ ω, SkyHas a1.fs (a1.spinFor n1) (s1 ω) (F1 ω)) (hs2 : ∀ ω, SkyHas a1.fs (a2.spinFor n2) (s2 ω) (F2 ω))
    (hC : Homogeneous μ a1.fs n1 n2 F1 F2 C) (f1 f2 g1 g2 : Ω → FlatFieldObj)
    (hf1 : ∀ ω, nmtFieldFlat env (a1.withMaps n1 (s1 ω)) = .ok (f1 ω))
    (hf2 : ∀ ω, nmtFieldFlat env (a2.withMaps n2 (s2 ω)) = .ok (f2 ω))
    (hg1 : ∀ ω, nmtFieldFlat env (a1.bare.withMaps n1 (s1 ω)) = .ok (g1 ω))
    (hg2 : ∀ ω, nmtFieldFlat env (a2.bare.withMaps n2 (s2 ω)) = .ok (g2 ω))
    (hQ1 : ∀ ω, (f1 ω).matrixM ≠ some none) (hQ2 : ∀ ω, (f2 ω).matrixM ≠ some none)
    (ells : List ℝ) (guess : Arr2 ℝ) (hl2 : 2 ≤ ells.length) (hls : ells.Pairwise (· < ·)) (hgr : guess.rows = n1 * n2)
    (hgc : guess.cols = ells.length)
    (hguess : ∀ X < n1, ∀ Y < n2, ∀ k ∈ a1.fs.modes, GuessAt ells (guess.val (X * n2 + Y)) (a1.fs.kmod k.1 k.2) (C X Y k))
    (b : FlatBins ℝ) (h0 : 0 < b.nBands) (c : EllCuts) :
    ∃ (B : Arr2 ℝ) (F G : Ω → Arr2 ℝ),
      (∀ ω, deprojBiasFlatObj env (f1 ω) (f2 ω) b c ells guess = .ok (some B)) ∧
      (∀ ω, coupledCellFlat (f1 ω).data (f2 ω).data b c = .ok (F ω)) ∧
      (∀ ω, coupledCellFlat (g1 ω).data (g2 ω).data b c = .ok (G ω)) ∧
      B.rows = n1 * n2 ∧ B.cols = b.nBands ∧
      ∀ i < n1 * n2, ∀ ib < b.nBands, Integrable (fun ω => (F ω).val i ib) μ ∧ Integrable (fun ω => (G ω).val i ib) μ ∧
        ∫ ω, (F ω).val i ib ∂μ = ∫ ω, (G ω).val i ib ∂μ + B.val i ib := by
  obtain ⟨ω0⟩ := nonempty_of_isProbabilityMeasure μ
  set sp1 := a1.spinFor n1 with hsp1
  set sp2 := a2.spinFor n2 with hsp2
  have hn1 : n1 = nmapsOf sp1 := (flat_is hc1 (hf1 ω0)).1
  have hn2 : n2 = nmapsOf sp2 := (flat_is hc2 (hf2 ω0)).1
  have hb1 : FlatCall a1.bare := ⟨hc1.unmasked, hc1.full⟩
  have hb2 : FlatCall a2.bare := ⟨hc2.unmasked, hc2.full⟩
  have k1 : ∀ ω, FlatIs env a1 sp1 (s1 ω) (f1 ω) := fun ω => (flat_is hc1 (hf1 ω)).2
  have k2 : ∀ ω, FlatIs env a2 sp2 (s2 ω) (f2 ω) := fun ω => (flat_is hc2 (hf2 ω)).2
  have b1 : ∀ ω, FlatIs env a1.bare sp1 (s1 ω) (g1 ω) := fun ω => (flat_is hb1 (hg1 ω)).2
  have b2 : ∀ ω, FlatIs env a2.bare sp2 (s2 ω) (g2 ω) := fun ω => (flat_is hb2 (hg2 ω)).2
  set fs := a1.fs with hfs1
  have hfs2 : a2.fs = fs := hfs.symm
  have hlx : 0 < fs.lx := (k1 ω0).lx
  have hly : 0 < fs.ly := (k1 ω0).ly
  obtain ⟨c2r, hc2r⟩ := hE fs
  -- the guess
  set g : ℕ → ℕ → ℝ → ℝ := fun X Y => propFun ells (guess.val (X * n2 + Y)) with hg
  have hCg : Homogeneous μ fs (nmapsOf sp1) (nmapsOf sp2) F1 F2 fun X Y k => g X Y (fs.kmod k.1 k.2) := by
    rw [← hn1, ← hn2]
    refine ⟨hC.integrable, fun X hX Y hY k hk k' hk' => ?_⟩
    rw [hC.covariance X hX Y hY k hk k' hk']
    have : g X Y (fs.kmod k.1 k.2) = C X Y k := propFun_at hl2 hls (hguess X hX Y hY k hk)
    rw [this]
  -- the matrices of the templates
  have hQex : ∀ (f : FlatFieldObj), f.matrixM ≠ some none → ∃ Q, f.matrixM.getD (some fun _ _ => 0) = some Q := by
    intro f hf
    cases hq : f.matrixM with
    | none => exact ⟨_, rfl⟩
    | some x =>
      cases x with
      | none => exact absurd hq hf
      | some Q => exact ⟨Q, rfl⟩
  obtain ⟨Q1, hq1⟩ := hQex _ (hQ1 ω0)
  obtain ⟨Q2, hq2⟩ := hQex _ (hQ2 ω0)
  have hq1' : ∀ ω, (f1 ω).matrixM.getD (some fun _ _ => 0) = some Q1 := by
    intro ω; rw [(k1 ω).matrix, ← (k1 ω0).matrix]; exact hq1
  have hq2' : ∀ ω, (f2 ω).matrixM.getD (some fun _ _ => 0) = some Q2 := by
    intro ω; rw [(k2 ω).matrix, ← (k2 ω0).matrix]; exact hq2
  set P1 := popFlat env a1 sp1 with hP1
  set P2 := popFlat env a2 sp2 with hP2
  set U1 := a1.rawTempl with hU1
  set U2 := a2.rawTempl with hU2
  set T1 : ℕ → FlatMaps := fun i c p => U1 i c p * a1.mask p with hT1
  set T2 : ℕ → FlatMaps := fun i c p => U2 i c p * a2.mask p with hT2
  set X1 : ℕ → Ω → ℝ := fun j ω => fs.dot (nmapsOf sp1) (fun c p => T1 j c p * a1.mask p) (s1 ω) with hX1
  set X2 : ℕ → Ω → ℝ := fun j ω => fs.dot (nmapsOf sp2) (fun c p => T2 j c p * a2.mask p) (s2 ω) with hX2
  set nt1 := a1.nTempl with hnt1
  set nt2 := a2.nTempl with hnt2
  have af1 : ∀ ω, (f1 ω).alms = some (some (P1 (s1 ω) - ∑ i ∈ range nt1, (∑ j ∈ range nt1, Q1 i j * X1 j ω) • P1 (U1 i))) := by
    intro ω
    rw [(k1 ω).alms Q1 (hq1' ω), popFlat_expand]
    simp only [flat_dot_mask]
    rfl
  have af2 : ∀ ω, (f2 ω).alms = some (some (P2 (s2 ω) - ∑ i ∈ range nt2, (∑ j ∈ range nt2, Q2 i j * X2 j ω) • P2 (U2 i))) := by
    intro ω
    rw [(k2 ω).alms Q2 (hq2' ω), popFlat_expand]
    simp only [flat_dot_mask, hX2, ← hfs2]
    rfl
  have ag1 : ∀ ω, (g1 ω).alms = some (some (P1 (s1 ω))) := by
    intro ω
    have := (b1 ω).alms (fun _ _ => 0) (by rw [(b1 ω).matrix]; rfl)
    have hz : a1.bare.nTempl = 0 := rfl
    rw [this, hz, range_zero, sum_empty, sub_zero]
    rfl
  have ag2 : ∀ ω, (g2 ω).alms = some (some (P2 (s2 ω))) := by
    intro ω
    have := (b2 ω).alms (fun _ _ => 0) (by rw [(b2 ω).matrix]; rfl)
    have hz : a2.bare.nTempl = 0 := rfl
    rw [this, hz, range_zero, sum_empty, sub_zero]
    rfl
  -- the maps of the bias
  set M1 : ℕ → FlatMaps := fun j => fsAlm2map c2r.run fs sp2 (mixFlat fs (nmapsOf sp1) g
    (fsMap2alm fs sp1 fun c p => T1 j c p * a1.mask p)) with hM1
  set M2 : ℕ → FlatMaps := fun j => fsAlm2map c2r.run fs sp1 (mixFlat fs (nmapsOf sp2) (fun d c => g c d)
    (fsMap2alm fs sp2 fun c p => T2 j c p * a2.mask p)) with hM2
  obtain ⟨E, hEI⟩ := exists_mean μ
  have hintp : ∀ c < nmapsOf sp1, ∀ d < nmapsOf sp2, ∀ p ∈ fs.modes, ∀ q ∈ fs.modes, Integrable (fun ω => s1 ω c p * s2 ω d q) μ :=
    fun c hc d hd p hp q hq => (pixel_cov μ hs1 hs2 hCg hc hd hp hq).1
  have e21 := fun j φ (hφ : PixLocal fs (nmapsOf sp1) φ) => overlap_mean hEI hlx hly c2r hs1 hs2 hCg (fun c p => T2 j c p * a2.mask p) φ hφ
  have e12 := fun j φ (hφ : PixLocal fs (nmapsOf sp2) φ) => overlap_mean (g := fun Y X => g X Y) hEI hlx hly c2r hs2 hs1 hCg.swap
    (fun c p => T1 j c p * a1.mask p) φ hφ
  obtain ⟨rows, hrows⟩ := alm2clTable_total fs b h0 c
  -- the bias
  have bm1 : ∀ ω j, biasMapFlat env (f1 ω) (f2 ω) g (T1 j) = M1 j := by
    intro ω j
    unfold biasMapFlat
    rw [(k1 ω).spin, (k2 ω).spin, (k1 ω).fs, (k2 ω).fs, (k1 ω).nmaps, (k1 ω).mask, hfs2, hc2r]
  have bm2 : ∀ ω j, biasMapFlat env (f2 ω) (f1 ω) (fun d c => g c d) (T2 j) = M2 j := by
    intro ω j
    unfold biasMapFlat
    rw [(k1 ω).spin, (k2 ω).spin, (k1 ω).fs, (k2 ω).fs, (k2 ω).nmaps, (k2 ω).mask, hfs2, ← hfs1, hc2r]
  have hbias : ∀ ω, deprojBiasFlatObj env (f1 ω) (f2 ω) b c ells guess = _ := fun ω =>
    deprojBiasFlatObj_is (k1 ω) (k2 ω) hfs hrows hl2 hls (by rw [hgr, ← hn1, ← hn2]) hgc (hq1' ω) (hq2' ω) (M1 := M1) (M2 := M2)
      (fun j _ => by rw [← hn2]; exact bm1 ω j) (fun j _ => by rw [← hn2]; exact bm2 ω j)
  refine ⟨_, _, _, hbias,
    fun ω => coupled_flat_objs (f1 ω) (f2 ω) b c rows (by rw [(k1 ω).fs]; exact hrows) (by rw [(k1 ω).fs, (k2 ω).fs]; exact hfs)
      (k1 ω).maskOnly (k2 ω).maskOnly _ _ (af1 ω) (af2 ω) n1 n2 (by rw [(k1 ω).spin]; exact hn1) (by rw [(k2 ω).spin]; exact hn2),
    fun ω => coupled_flat_objs (g1 ω) (g2 ω) b c rows (by rw [(b1 ω).fs]; exact hrows) (by rw [(b1 ω).fs, (b2 ω).fs]; exact hfs)
      (b1 ω).maskOnly (b2 ω).maskOnly _ _ (ag1 ω) (ag2 ω) n1 n2 (by rw [(b1 ω).spin]; exact hn1) (by rw [(b2 ω).spin]; exact hn2),
    by rw [hn1, hn2]; rfl, rfl, ?_⟩
  intro k hk ib hib
  have hv : ∀ x : ℕ → ℕ → ℝ, (Arr2.of (n1 * n2) b.nBands x).val k ib = x k ib := fun x => tab2_of_lt _ hk hib
  rw [← hn1, ← hn2]
  simp only [hv, if_pos hk, (k1 _).fs, (b1 _).fs]
  have hbfs : a1.bare.fs = fs := rfl
  simp only [hbfs]
  set c := k / n2
  set d := k % n2
  have hn2p : 0 < n2 := by rw [hn2]; unfold nmapsOf; split_ifs <;> omega
  have hcl : c < nmapsOf sp1 := by
    rw [← hn1]; exact (Nat.div_lt_iff_lt_mul hn2p).2 hk
  have hdl : d < nmapsOf sp2 := by rw [← hn2]; exact Nat.mod_lt _ hn2p
  -- linear functions
  have hφ : ∀ (x : ℕ × ℕ → ℂ), ∃ φ : FlatMaps →ₗ[ℝ] ℝ, PixLocal fs (nmapsOf sp2) φ ∧ ∀ m, φ m = clBand fs rows x (P2 m d) ib := by
    intro x
    refine ⟨clFlatL fs rows x ib d ∘ₗ popFlatL env a2 sp2, ?_, fun m => rfl⟩
    have := clPop_local env (k2 ω0).pure2 rows x ib hdl
    rw [hfs2] at this
    exact this
  have hψ : ∀ (x : ℕ × ℕ → ℂ), ∃ φ : FlatMaps →ₗ[ℝ] ℝ, PixLocal fs (nmapsOf sp1) φ ∧ ∀ m, φ m = clBand fs rows (P1 m c) x ib := by
    intro x
    refine ⟨clFlatL fs rows x ib c ∘ₗ popFlatL env a1 sp1, ?_, fun m => clBand_comm _ _ _ _ _⟩
    exact clPop_local env (k1 ω0).pure2 rows x ib hcl
  have := bias_mean (nt1 := nt1) (nt2 := nt2) (Q1 := Q1) (Q2 := Q2) (U1 := U1) (U2 := U2) hEI hintp hφ hψ e21 e12
  have hdot : a1.fs.dot n1 = a1.fs.dot (nmapsOf sp1) := by rw [← hn1]
  rw [hdot]
  exact this

end NaMaster
