import Verif.FlatAngle.Spectra

/-!
# The deprojection bias of flat fields whose polarisation angle has been turned
-/

namespace NaMaster

open Real Finset

variable {env : FlatEnv}

theorem biasMapFlat_turned (hl : env.Linear) {s1 s2 : ℝ} {f1 f2 g1 g2 : FlatFieldObj} (k1 : EvenFlat f1) (b1 : g1.base = f1.base) (m1 : g1.nmaps = f1.nmaps)
    (k2 : EvenFlat f2) (b2 : g2.base = f2.base) {G G' : ℕ → ℕ → ℝ → ℝ}
    (hG : ∀ c < f1.nmaps, ∀ d < f2.nmaps, G' c d = turnBy f1.nmaps s1 (fun i => turnBy f2.nmaps s2 (G i)) c d) {T T' : FlatMaps} (h : TurnedBy f1.nmaps s1 T T') :
    TurnedBy f2.nmaps s2 (biasMapFlat env f1 f2 G T) (biasMapFlat env g1 g2 G' T') := by
  have c1 : f1.nmaps = 1 ∨ f1.nmaps = 2 := by rw [k1.comps]; exact nmapsOf_or _
  unfold biasMapFlat
  rw [b1, b2, m1]
  have a := masked_turned h f1.base.mask
  rw [k1.comps] at a
  have a := fsMap2alm_turned (fs := f1.base.fs) a
  rw [← k1.comps] at a
  have a := mixFlat_turned (fs := f1.base.fs) c1 hG a
  rw [k2.comps] at a ⊢
  exact fsAlm2map_turned hl a

theorem purifyGenericFlat_turned {s : ℝ} {f g : FlatFieldObj} (k : EvenFlat f) (hb : g.base = f.base) (hw : g.aMask = f.aMask) {m m' : FlatMaps}
    (h : TurnedBy f.nmaps s m m') : TurnedBy f.nmaps s (purifyGenericFlat env f m) (purifyGenericFlat env g m') := by
  unfold purifyGenericFlat
  rw [hb, hw]
  by_cases q : f.base.pureB ≠ 0 ∨ f.base.pureE ≠ 0
  · rw [if_pos q, if_pos q]
    have hn : f.nmaps = 2 := by rw [k.comps, k.spin q]; rfl
    rw [hn] at h ⊢
    exact purifyFlatAlms_turned _ _ _ _ (by rw [k.pure]) _ _ h
  · rw [if_neg q, if_neg q]
    rw [k.comps] at h ⊢
    exact fsMap2alm_turned (masked_turned h _)

theorem temp_turned {t : ℝ} {f g : FlatFieldObj} (h : FlatTurned t f g) (i : ℕ) :
    TurnedBy f.nmaps t (f.temp.getD (fun _ _ _ => 0) i) (g.temp.getD (fun _ _ _ => 0) i) := by
  have ha := h.temp
  revert ha
  generalize f.temp = a
  generalize g.temp = b
  intro ha
  cases ha with
  | none => exact TurnedBy.zero _ _
  | some ha => exact ha i

theorem aTemp_turned {t : ℝ} {f g : FlatFieldObj} (h : FlatTurned t f g) (i : ℕ) :
    TurnedBy f.nmaps t (f.aTemp.getD (fun _ _ _ => 0) i) (g.aTemp.getD (fun _ _ _ => 0) i) := by
  have ha := h.aTemp
  revert ha
  generalize f.aTemp = a
  generalize g.aTemp = b
  intro ha
  cases ha with
  | none => exact TurnedBy.zero _ _
  | some ha => exact ha i

theorem biasFlatSums_turned (hl : env.Linear) {s1 s2 : ℝ} {f1 f2 g1 g2 : FlatFieldObj} (k1 : EvenFlat f1) (k2 : EvenFlat f2) (h1 : FlatTurned s1 f1 g1)
    (h2 : FlatTurned s2 f2 g2) (rows : List (List ℤ)) {G G' : ℕ → ℕ → ℝ → ℝ}
    (hG : ∀ c < f1.nmaps, ∀ d < f2.nmaps, G' c d = turnBy f1.nmaps s1 (fun i => turnBy f2.nmaps s2 (G i)) c d) (M1 M2 : ℕ → ℕ → ℝ)
    {a b : ℕ} (ha : a < f1.nmaps) (hb : b < f2.nmaps) (ib : ℕ) : biasFlatSums env g1 g2 rows G' M1 M2 a b ib =
      turnBy f1.nmaps s1 (fun a => turnBy f2.nmaps s2 fun b => biasFlatSums env f1 f2 rows G M1 M2 a b) a b ib := by
  have hG2 : ∀ d < f2.nmaps, ∀ c < f1.nmaps, (fun d c => G' c d) d c = turnBy f2.nmaps s2 (fun i => turnBy f1.nmaps s1 ((fun d c => G c d) i)) d c := by
    intro d hd c hc
    dsimp only
    rw [hG c hc d hd, turn_comm]
    exact (turn_pi _ _ _ _ _).symm
  have B1 := fun j => biasMapFlat_turned hl k1 h1.base h1.nmaps k2 h2.base hG (temp_turned h1 j)
  have B2 := fun j => biasMapFlat_turned hl k2 h2.base h2.nmaps k1 h1.base hG2 (temp_turned h2 j)
  have P1 := fun j => purifyGenericFlat_turned (env := env) k1 h1.base h1.aMask (B2 j)
  have P2 := fun j => purifyGenericFlat_turned (env := env) k2 h2.base h2.aMask (B1 j)
  have D := fun j q => flat_dot_turned (fs := f1.base.fs) (masked_turned (B2 q) f1.base.mask) (temp_turned h1 j)
  have A1 := aTemp_turned h1
  have A2 := aTemp_turned h2
  obtain ⟨x, y, p, q, e1⟩ := turn_comb f1.nmaps s1 a
  obtain ⟨z, w, r, s, e2⟩ := turn_comb f2.nmaps s2 b
  rw [e1, Pi.add_apply, Pi.smul_apply, Pi.smul_apply, e2, e2]
  simp only [Pi.add_apply, Pi.smul_apply, smul_eq_mul]
  unfold biasFlatSums
  dsimp only
  rw [h1.base, h1.nmaps, h1.ntemp, h2.ntemp]
  simp only [D, P1 _ a ha, P2 _ b hb, A1 _ a ha, A2 _ b hb]
  simp only [e1, e2, clBand_comb]
  have G2 : ∀ (N : ℕ) (c A B C D : ℕ → ℕ → ℝ), ∑ i ∈ range N, ∑ j ∈ range N, (x * z * A i j + x * w * B i j + (y * z * C i j + y * w * D i j)) * c i j =
      x * z * (∑ i ∈ range N, ∑ j ∈ range N, A i j * c i j) + x * w * (∑ i ∈ range N, ∑ j ∈ range N, B i j * c i j) +
        (y * z * (∑ i ∈ range N, ∑ j ∈ range N, C i j * c i j) + y * w * ∑ i ∈ range N, ∑ j ∈ range N, D i j * c i j) := by
    intro N c A B C D
    simp only [mul_sum, ← sum_add_distrib]
    exact sum_congr rfl fun i _ => sum_congr rfl fun j _ => by ring
  have G4 : ∀ (N M : ℕ) (c d e A B C D : ℕ → ℕ → ℕ → ℕ → ℝ), ∑ i ∈ range N, ∑ j ∈ range M, ∑ r ∈ range N, ∑ s ∈ range M,
      (x * z * A i j r s + x * w * B i j r s + (y * z * C i j r s + y * w * D i j r s)) * c i j r s * d i j r s * e i j r s =
      x * z * (∑ i ∈ range N, ∑ j ∈ range M, ∑ r ∈ range N, ∑ s ∈ range M, A i j r s * c i j r s * d i j r s * e i j r s) +
        x * w * (∑ i ∈ range N, ∑ j ∈ range M, ∑ r ∈ range N, ∑ s ∈ range M, B i j r s * c i j r s * d i j r s * e i j r s) +
        (y * z * (∑ i ∈ range N, ∑ j ∈ range M, ∑ r ∈ range N, ∑ s ∈ range M, C i j r s * c i j r s * d i j r s * e i j r s) +
          y * w * ∑ i ∈ range N, ∑ j ∈ range M, ∑ r ∈ range N, ∑ s ∈ range M, D i j r s * c i j r s * d i j r s * e i j r s) := by
    intro N M c d e A B C D
    simp only [mul_sum, ← sum_add_distrib]
    exact sum_congr rfl fun i _ => sum_congr rfl fun j _ => sum_congr rfl fun r _ => sum_congr rfl fun s _ => by ring
  rw [G2, G2, G4]
  ring

theorem propFun_turned {n1 n2 : ℕ} (s1 s2 : ℝ) (ells : List ℝ) (guess : Arr2 ℝ) (hg : guess.rows = n1 * n2) {c d : ℕ} (hc : c < n1) (hd : d < n2) :
    propFun ells ((guess.turn n1 n2 s1 s2).val (c * n2 + d)) =
      turnBy n1 s1 (fun i => turnBy n2 s2 ((fun c d => propFun ells (guess.val (c * n2 + d))) i)) c d := by
  have e : (guess.turn n1 n2 s1 s2).val (c * n2 + d) = turnBy n1 s1 (fun i => turnBy n2 s2 fun j => guess.val (i * n2 + j)) c d :=
    funext fun l => turn2_entry guess hg s1 s2 hc hd l
  obtain ⟨x, y, p, q, e1⟩ := turn_comb n1 s1 c
  obtain ⟨z, w, r, s, e2⟩ := turn_comb n2 s2 d
  rw [e, e1, e1]
  simp only [Pi.add_apply, Pi.smul_apply]
  simp only [e2, propFun_comb]

open Classical in
theorem deprojC_turned (hl : env.Linear) {s1 s2 : ℝ} {f1 f2 g1 g2 : FlatFieldObj} (k1 : EvenFlat f1) (k2 : EvenFlat f2) (h1 : FlatTurned s1 f1 g1)
    (h2 : FlatTurned s2 f2 g2) (b : FlatBins ℝ) (c : EllCuts) (ells : List ℝ) (guess : Arr2 ℝ) (hg : guess.rows = f1.nmaps * f2.nmaps) :
    deprojBiasFlatObjC env g1 g2 b c ells (guess.turn f1.nmaps f2.nmaps s1 s2).val (f1.nmaps * f2.nmaps) =
      (deprojBiasFlatObjC env f1 f2 b c ells guess.val (f1.nmaps * f2.nmaps)).bind fun s => .ok (s.map (Arr2.turn f1.nmaps f2.nmaps s1 s2)) := by
  have c1 : f1.nmaps = 1 ∨ f1.nmaps = 2 := by rw [k1.comps]; exact nmapsOf_or _
  have c2 : f2.nmaps = 1 ∨ f2.nmaps = 2 := by rw [k2.comps]; exact nmapsOf_or _
  have hn2 : 0 < f2.nmaps := by omega
  unfold deprojBiasFlatObjC
  rw [h1.lite, h2.lite, h1.nmaps, h2.nmaps, h1.base, h2.base, h1.ntemp, h2.ntemp, h1.matrixM, h2.matrixM]
  by_cases q1 : f1.lite ∨ f2.lite
  · rw [if_pos q1, if_pos q1]; rfl
  rw [if_neg q1, if_neg q1]
  by_cases q2 : ¬ (2 ≤ ells.length ∧ ells.Pairwise (· < ·))
  · rw [if_pos q2, if_pos q2]; rfl
  rw [if_neg q2, if_neg q2, if_neg (lt_irrefl _), if_neg (lt_irrefl _)]
  by_cases q3 : f1.base.fs ≠ f2.base.fs
  · rw [if_pos q3, if_pos q3]; rfl
  rw [if_neg q3, if_neg q3]
  by_cases q4 : f1.ntemp = 0 ∧ f2.ntemp = 0
  · rw [if_pos q4, if_pos q4]
    simp only [Outcome.bind, Option.map_some]
    rw [turn2_of c1 c2]
    congr 2
    refine Arr2.of_congr fun k l _ _ => ?_
    have : (fun i => turnBy f2.nmaps s2 fun j => (fun _ : ℕ => (0 : ℝ))) = fun _ : ℕ => (0 : ℕ → ℕ → ℝ) := by
      funext i j
      exact turnBy_zero _ _ _
    rw [this, turnBy_zero]
    rfl
  rw [if_neg q4, if_neg q4]
  cases Outcome.all ((List.range f1.base.fs.ny).map fun iy => alm2clBands f1.base.fs b c iy) with
  | raises e => rfl
  | crash => rfl
  | ok tbl =>
    simp only [Outcome.bind]
    cases f1.matrixM.getD (some fun _ _ => 0) with
    | none => rfl
    | some M1 =>
      cases f2.matrixM.getD (some fun _ _ => 0) with
      | none => rfl
      | some M2 =>
        simp only [Option.map_some]
        congr 2
        have e : ∀ F : ℕ → ℕ → ℝ, Arr2.of (f1.nmaps * f2.nmaps) b.nBands (fun i ib => if i < f1.nmaps * f2.nmaps then F i ib else 0) =
            Arr2.of (f1.nmaps * f2.nmaps) b.nBands F := fun F => Arr2.of_congr fun k l hk _ => if_pos hk
        rw [e, e, turn2_pairs c1 c2 s1 s2 b.nBands (biasFlatSums env f1 f2 tbl (fun c d => propFun ells (guess.val (c * f2.nmaps + d))) M1 M2)]
        refine Arr2.of_congr fun k l hk _ => ?_
        exact biasFlatSums_turned hl k1 k2 h1 h2 tbl (fun c hc d hd => propFun_turned s1 s2 ells guess hg hc hd) M1 M2
          (Nat.div_lt_of_lt_mul (by rw [mul_comm]; exact hk)) (Nat.mod_lt _ hn2) l

theorem deproj_turned_flat (hl : env.Linear) {s1 s2 : ℝ} {f1 f2 g1 g2 : FlatFieldObj} (k1 : EvenFlat f1) (k2 : EvenFlat f2) (h1 : FlatTurned s1 f1 g1)
    (h2 : FlatTurned s2 f2 g2) (b : FlatBins ℝ) (c : EllCuts) (ells : List ℝ) (guess : Arr2 ℝ) :
    deprojBiasFlatObj env g1 g2 b c ells (guess.turn f1.nmaps f2.nmaps s1 s2) =
      (deprojBiasFlatObj env f1 f2 b c ells guess).bind fun s => .ok (s.map (Arr2.turn f1.nmaps f2.nmaps s1 s2)) := by
  unfold deprojBiasFlatObj
  rw [h1.nmaps, h2.nmaps]
  change (if guess.rows ≠ _ then _ else if guess.cols ≠ _ then _ else _) = _
  by_cases q1 : guess.rows ≠ f1.nmaps * f2.nmaps
  · rw [if_pos q1, if_pos q1]; rfl
  rw [if_neg q1, if_neg q1]
  by_cases q2 : guess.cols ≠ ells.length
  · rw [if_pos q2, if_pos q2]; rfl
  rw [if_neg q2, if_neg q2]
  push Not at q1
  exact deprojC_turned hl k1 k2 h1 h2 b c ells guess q1

end NaMaster
