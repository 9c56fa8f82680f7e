import Verif.FlatAngle.Field
import Verif.FlatTeb.Props

/-!
# Spectra, deprojection bias and decoupling of flat fields whose polarisation angle has been turned
-/

namespace NaMaster

open Real Finset

variable {env : FlatEnv}

/-- Fields made by the constructor where either both or none of E and B modes are purified. -/
structure EvenFlat (f : FlatFieldObj) : Prop where
  comps : f.nmaps = nmapsOf f.base.spin
  pure : f.base.pureE = f.base.pureB
  spin : f.base.pureB ≠ 0 ∨ f.base.pureE ≠ 0 → f.base.spin = 2

theorem nmapsOf_or (s : ℕ) : nmapsOf s = 1 ∨ nmapsOf s = 2 := by rcases nmapsOf_cases s with h | h <;> simp [h.2]

/-! ## Pseudo-spectra -/

theorem halfProd_comb (nx : ℕ) (x y z w : ℝ) (a b c d : ℕ × ℕ → ℂ) (k : ℕ × ℕ) : halfProd nx (x • a + y • b) (z • c + w • d) k =
    x * z * halfProd nx a c k + x * w * halfProd nx a d k + (y * z * halfProd nx b c k + y * w * halfProd nx b d k) := by
  unfold halfProd
  simp only [Pi.add_apply, Pi.smul_apply, Complex.real_smul, Complex.add_re, Complex.add_im, Complex.re_ofReal_mul, Complex.im_ofReal_mul]
  ring

theorem clBand_comb (fs : FlatInfo) (rows : List (List ℤ)) (x y z w : ℝ) (a b c d : ℕ × ℕ → ℂ) (ib : ℕ) :
    clBand fs rows (x • a + y • b) (z • c + w • d) ib =
      x * z * clBand fs rows a c ib + x * w * clBand fs rows a d ib + (y * z * clBand fs rows b c ib + y * w * clBand fs rows b d ib) := by
  unfold clBand
  simp only [halfProd_comb]
  split_ifs
  · ring
  · simp only [sum_add_distrib, ← mul_sum]
    ring

theorem clBand_turn (fs : FlatInfo) (rows : List (List ℤ)) (n1 n2 : ℕ) (t1 t2 : ℝ) (a b : FlatAlms) (i j ib : ℕ) :
    clBand fs rows (turnBy n1 t1 a i) (turnBy n2 t2 b j) ib = turnBy n1 t1 (fun i => turnBy n2 t2 fun j => clBand fs rows (a i) (b j)) i j ib := by
  obtain ⟨x, y, p, q, h1⟩ := turn_comb n1 t1 i
  obtain ⟨z, w, r, s, h2⟩ := turn_comb n2 t2 j
  rw [h1, h2, h1, Pi.add_apply, Pi.smul_apply, Pi.smul_apply, h2, h2, clBand_comb]
  simp only [Pi.add_apply, Pi.smul_apply, smul_eq_mul]
  ring

theorem fsAlm2cl_tab (fs : FlatInfo) (b : FlatBins ℝ) (c : EllCuts) (a1 a2 : ℕ × ℕ → ℂ) : fsAlm2cl fs b c a1 a2 =
    (Outcome.all ((List.range fs.ny).map fun iy => alm2clBands fs b c iy)).bind fun rows => .ok (tab b.nBands (clBand fs rows a1 a2)) := rfl

/-- Turning an array of spectra computed from pairs of components. -/
theorem turn2_pairs {n1 n2 : ℕ} (h1 : n1 = 1 ∨ n1 = 2) (h2 : n2 = 1 ∨ n2 = 2) (t1 t2 : ℝ) (m : ℕ) (F : ℕ → ℕ → ℕ → ℝ) :
    (Arr2.of (n1 * n2) m fun k l => F (k / n2) (k % n2) l).turn n1 n2 t1 t2 =
      Arr2.of (n1 * n2) m fun k l => turnBy n1 t1 (fun i => turnBy n2 t2 fun j => F i j) (k / n2) (k % n2) l := by
  rw [turn2_of h1 h2]
  refine Arr2.of_congr fun k l hk _ => ?_
  have hn2 : 0 < n2 := by omega
  have e : ∀ i j, j < n2 → (i * n2 + j) / n2 = i ∧ (i * n2 + j) % n2 = j := by
    intro i j hj
    exact ⟨by rw [mul_comm, Nat.mul_add_div hn2, Nat.div_eq_of_lt hj, add_zero], by rw [mul_comm, Nat.mul_add_mod, Nat.mod_eq_of_lt hj]⟩
  simp only [turn_pi]
  have hkm : k % n2 < n2 := Nat.mod_lt _ hn2
  congr 1
  funext i
  rcases h2 with h2 | h2
  · rw [turn_of_ne (by omega), turn_of_ne (by omega), (e i _ hkm).1, (e i _ hkm).2]
  · simp only [turnBy, (e i 0 (by omega)).1, (e i 0 (by omega)).2, (e i 1 (by omega)).1, (e i 1 (by omega)).2, (e i _ hkm).1, (e i _ hkm).2]

/-- The coefficients of a field and of the turned field. -/
theorem data_turned {t : ℝ} {f g : FlatFieldObj} (h : FlatTurned t f g) : TurnedBy f.nmaps t f.data.alms g.data.alms := by
  have ha := h.alms
  unfold FlatFieldObj.data
  dsimp only
  revert ha
  generalize f.alms = a
  generalize g.alms = b
  intro ha
  cases ha with
  | none => exact TurnedBy.zero _ _
  | some ha =>
    cases ha with
    | none => exact TurnedBy.zero _ _
    | some ha => exact ha

theorem coupledC_turned {t1 t2 : ℝ} {f1 f2 g1 g2 : FlatFieldObj} (k1 : EvenFlat f1) (k2 : EvenFlat f2) (h1 : FlatTurned t1 f1 g1) (h2 : FlatTurned t2 f2 g2)
    (b : FlatBins ℝ) (c : EllCuts) : coupledCellFlatC g1.data g2.data b c (f1.nmaps * f2.nmaps) =
      (coupledCellFlatC f1.data f2.data b c (f1.nmaps * f2.nmaps)).bind fun s => .ok (s.turn f1.nmaps f2.nmaps t1 t2) := by
  have a1 := data_turned h1
  have a2 := data_turned h2
  have n1 : f1.data.nmaps = f1.nmaps := k1.comps.symm
  have n2 : f2.data.nmaps = f2.nmaps := k2.comps.symm
  have m1 : g1.data.nmaps = f1.nmaps := by rw [k1.comps, ← h1.base]; rfl
  have m2 : g2.data.nmaps = f2.nmaps := by rw [k2.comps, ← h2.base]; rfl
  have b1 : g1.data.fs = f1.data.fs := congrArg FlatField.fs h1.base
  have b2 : g2.data.fs = f2.data.fs := congrArg FlatField.fs h2.base
  have o1 : g1.data.maskOnly = f1.data.maskOnly := h1.maskOnly
  have o2 : g2.data.maskOnly = f2.data.maskOnly := h2.maskOnly
  have c1 : f1.nmaps = 1 ∨ f1.nmaps = 2 := by rw [k1.comps]; exact nmapsOf_or _
  have c2 : f2.nmaps = 1 ∨ f2.nmaps = 2 := by rw [k2.comps]; exact nmapsOf_or _
  unfold coupledCellFlatC
  rw [o1, o2]
  by_cases hm : f1.data.maskOnly ∨ f2.data.maskOnly
  · rw [if_pos hm, if_pos hm]; rfl
  rw [if_neg hm, if_neg hm]
  by_cases h : f1.data.fs ≠ f2.data.fs
  · rw [if_pos h, if_pos (by rw [b1, b2]; exact h)]; rfl
  rw [if_neg h, if_neg (by rw [b1, b2]; exact h)]
  unfold fsAlm2clAll
  rw [m1, m2, n1, n2, b1, if_neg (lt_irrefl _), if_neg (lt_irrefl _)]
  simp only [fsAlm2cl_tab]
  have hn2 : 0 < f2.nmaps := by omega
  cases Outcome.all ((List.range f1.data.fs.ny).map fun iy => alm2clBands f1.data.fs b c iy) with
  | raises e =>
    obtain ⟨N, hN⟩ : ∃ N, f1.nmaps * f2.nmaps = N + 1 := ⟨f1.nmaps * f2.nmaps - 1, by have := Nat.mul_pos (show 0 < f1.nmaps by omega) hn2; omega⟩
    rw [hN, List.range_succ_eq_map]
    rfl
  | crash =>
    obtain ⟨N, hN⟩ : ∃ N, f1.nmaps * f2.nmaps = N + 1 := ⟨f1.nmaps * f2.nmaps - 1, by have := Nat.mul_pos (show 0 < f1.nmaps by omega) hn2; omega⟩
    rw [hN, List.range_succ_eq_map]
    rfl
  | ok rows =>
    simp only [Outcome.bind]
    rw [all_ok _ (fun i => tab b.nBands (clBand f1.data.fs rows (g1.data.alms (i / f2.nmaps)) (g2.data.alms (i % f2.nmaps)))) _ fun _ _ => rfl,
      all_ok _ (fun i => tab b.nBands (clBand f1.data.fs rows (f1.data.alms (i / f2.nmaps)) (f2.data.alms (i % f2.nmaps)))) _ fun _ _ => rfl]
    dsimp only
    congr 1
    have e : ∀ A B : FlatAlms, Arr2.of (f1.nmaps * f2.nmaps) b.nBands (fun i ib => (((List.range (f1.nmaps * f2.nmaps)).map fun i =>
        tab b.nBands (clBand f1.data.fs rows (A (i / f2.nmaps)) (B (i % f2.nmaps)))).getD i fun _ => 0) ib) =
        Arr2.of (f1.nmaps * f2.nmaps) b.nBands fun i ib => clBand f1.data.fs rows (A (i / f2.nmaps)) (B (i % f2.nmaps)) ib := by
      intro A B
      refine Arr2.of_congr fun i ib hi hib => ?_
      rw [List.getD_eq_getElem _ _ (by simpa using hi), List.getElem_map, List.getElem_range, tab_of_lt _ hib]
    rw [e, e, turn2_pairs c1 c2 t1 t2 b.nBands fun i j => clBand f1.data.fs rows (f1.data.alms i) (f2.data.alms j)]
    refine Arr2.of_congr fun i ib hi _ => ?_
    rw [a1 _ (Nat.div_lt_of_lt_mul (by rw [mul_comm]; exact hi)), a2 _ (Nat.mod_lt _ hn2), clBand_turn]

theorem coupled_turned_flat {t1 t2 : ℝ} {f1 f2 g1 g2 : FlatFieldObj} (k1 : EvenFlat f1) (k2 : EvenFlat f2) (h1 : FlatTurned t1 f1 g1)
    (h2 : FlatTurned t2 f2 g2) (b : FlatBins ℝ) (c : EllCuts) : coupledCellFlat g1.data g2.data b c =
      (coupledCellFlat f1.data f2.data b c).bind fun s => .ok (s.turn f1.nmaps f2.nmaps t1 t2) := by
  have n1 : f1.data.nmaps = f1.nmaps := k1.comps.symm
  have n2 : f2.data.nmaps = f2.nmaps := k2.comps.symm
  have m1 : g1.data.nmaps = f1.nmaps := by rw [k1.comps, ← h1.base]; rfl
  have m2 : g2.data.nmaps = f2.nmaps := by rw [k2.comps, ← h2.base]; rfl
  have b1 : g1.data.fs = f1.data.fs := congrArg FlatField.fs h1.base
  have b2 : g2.data.fs = f2.data.fs := congrArg FlatField.fs h2.base
  unfold coupledCellFlat
  rw [m1, m2, n1, n2, coupledC_turned k1 k2 h1 h2]
  by_cases q1 : f1.data.fs.nx ≠ f2.data.fs.nx ∨ f1.data.fs.ny ≠ f2.data.fs.ny
  · rw [if_pos q1, if_pos (by rw [b1, b2]; exact q1)]; rfl
  rw [if_neg q1, if_neg (by rw [b1, b2]; exact q1)]
  by_cases q2 : f1.data.fs.lx ≠ f2.data.fs.lx ∨ f1.data.fs.ly ≠ f2.data.fs.ly
  · rw [if_pos q2, if_pos (by rw [b1, b2]; exact q2)]; rfl
  rw [if_neg q2, if_neg (by rw [b1, b2]; exact q2)]

/-! ## Deprojection bias -/

theorem interpLin_comb {ι : Type*} (L : List ι) (X f g : ι → ℝ) (x y k : ℝ) :
    interpLin (L.map fun i => (X i, x * f i + y * g i)) k = x * interpLin (L.map fun i => (X i, f i)) k + y * interpLin (L.map fun i => (X i, g i)) k := by
  induction L with
  | nil => simp [interpLin]
  | cons a L ih =>
    cases L with
    | nil => simp [interpLin]
    | cons b L =>
      simp only [List.map_cons] at ih ⊢
      unfold interpLin
      by_cases h : k < X b
      · simp only [if_pos h]; ring
      · simp only [if_neg h]; exact ih

theorem propFun_comb (ells : List ℝ) (x y : ℝ) (u v : ℕ → ℝ) : propFun ells (x • u + y • v) = x • propFun ells u + y • propFun ells v := by
  funext k
  simp only [Pi.add_apply, Pi.smul_apply, smul_eq_mul]
  unfold propFun
  simp only [Pi.add_apply, Pi.smul_apply, smul_eq_mul]
  generalize hL : List.range ells.length = L
  rcases L with _ | ⟨a, _ | ⟨b, L⟩⟩
  · simp [kFunction]
  · simp [kFunction]
  · have hc := interpLin_comb (a :: b :: L) (fun i => ells.getD i 0) u v x y k
    simp only [List.map_cons] at hc ⊢
    unfold kFunction
    dsimp only
    have hpw : ∀ w : ℕ → ℝ, ((ells.getD a 0, w a) :: (ells.getD b 0, w b) :: L.map fun i => (ells.getD i 0, w i)).Pairwise (fun a b : ℝ × ℝ => a.1 < b.1) ↔
        (a :: b :: L).Pairwise fun i j => ells.getD i 0 < ells.getD j 0 := by
      intro w
      exact List.pairwise_map (l := a :: b :: L) (f := fun i => (ells.getD i 0, w i)) (R := fun a b : ℝ × ℝ => a.1 < b.1)
    have hlast : ∀ w : ℕ → ℝ, (((ells.getD b 0, w b) :: L.map fun i => (ells.getD i 0, w i)).getLast (by simp)).1 =
        ells.getD ((b :: L).getLast (by simp)) 0 := by
      intro w
      have : ((ells.getD b 0, w b) :: L.map fun i => (ells.getD i 0, w i)) = (b :: L).map fun i => (ells.getD i 0, w i) := rfl
      simp only [this, List.getLast_map]
    have hp1 := hpw fun i => x * u i + y * v i
    have hp2 := hpw u
    have hp3 := hpw v
    have hl1 := hlast fun i => x * u i + y * v i
    have hl2 := hlast u
    have hl3 := hlast v
    by_cases hp : (a :: b :: L).Pairwise fun i j => ells.getD i 0 < ells.getD j 0
    · rw [if_pos (hp1.2 hp), if_pos (hp2.2 hp), if_pos (hp3.2 hp)]
      dsimp only at hl1 ⊢
      rw [hl1, hl2, hl3]
      split_ifs
      · rfl
      · ring
      · exact hc
    · rw [if_neg (fun h => hp (hp1.1 h)), if_neg (fun h => hp (hp2.1 h)), if_neg (fun h => hp (hp3.1 h))]
      simp

theorem mixFlat_turned {fs : FlatInfo} {n1 n2 : ℕ} (c1 : n1 = 1 ∨ n1 = 2) {s1 s2 : ℝ} {G G' : ℕ → ℕ → ℝ → ℝ}
    (hG : ∀ c < n1, ∀ d < n2, G' c d = turnBy n1 s1 (fun i => turnBy n2 s2 (G i)) c d) {a a' : FlatAlms} (h : TurnedBy n1 s1 a a') :
    TurnedBy n2 s2 (mixFlat fs n1 G a) (mixFlat fs n1 G' a') := by
  intro d hd
  obtain ⟨z, w, r, s, e⟩ := turn_comb n2 s2 d
  funext k
  rw [e]
  simp only [Pi.add_apply, Pi.smul_apply, Complex.real_smul]
  unfold mixFlat
  rw [mul_sum, mul_sum, ← sum_add_distrib]
  have hG' : ∀ c < n1, G' c d = turnBy n1 s1 (fun i => z • G i r + w • G i s) c := by
    intro c hc
    rw [hG c hc d hd, turn_pi]
    simp only [e]
  rcases c1 with rfl | rfl
  · rw [TurnedBy.one] at h
    simp only [sum_range_one]
    rw [h, hG' 0 (by norm_num), turn_of_ne (by norm_num)]
    simp only [Pi.add_apply, Pi.smul_apply, smul_eq_mul]
    push_cast
    ring
  · rw [TurnedBy.two] at h
    simp only [sum_range_succ, sum_range_zero, zero_add]
    rw [h.1, h.2, hG' 0 (by norm_num), hG' 1 (by norm_num)]
    simp only [turnBy, true_and, if_true, one_ne_zero, if_false, Pi.add_apply, Pi.sub_apply, Pi.smul_apply, smul_eq_mul, Complex.real_smul]
    push_cast
    linear_combination (a 0 k * (z * G 0 r (fs.kmod k.1 k.2) + w * G 0 s (fs.kmod k.1 k.2)) +
      a 1 k * (z * G 1 r (fs.kmod k.1 k.2) + w * G 1 s (fs.kmod k.1 k.2))) * Complex.sin_sq_add_cos_sq (s1 : ℂ)

end NaMaster
