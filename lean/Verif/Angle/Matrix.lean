import Verif.Angle.Spectra
import Verif.Coupling.Lemmas4
import Verif.Sky.Props

/-!
# Coupling matrices of fields with equal purification of E and B modes commute with rotations of the polarisation angle
-/

namespace NaMaster

open Finset

/-- The signs of the block that mixes `EE` and `BB`, and `EB` and `BE`. -/
noncomputable def mixSign (n a b : ℕ) : ℝ :=
  if n = 4 then (if (a, b) = (0, 3) ∨ (a, b) = (3, 0) then 1 else if (a, b) = (1, 2) ∨ (a, b) = (2, 1) then -1 else 0) else 0

/-- Blocks of coupling matrices of fields where either both or none of E and B modes are purified. -/
def HasForm (n : ℕ) (M : ℕ → ℕ → ℝ) : Prop :=
  ∃ p q : ℝ, ∀ a < n, ∀ b < n, M a b = p * (if a = b then 1 else 0) + q * mixSign n a b

theorem HasForm.zero (n : ℕ) : HasForm n fun _ _ => 0 := ⟨0, 0, fun _ _ _ _ => by ring⟩

theorem HasForm.congr {n : ℕ} {M N : ℕ → ℕ → ℝ} (h : HasForm n M) (e : ∀ a < n, ∀ b < n, N a b = M a b) : HasForm n N := by
  obtain ⟨p, q, h⟩ := h
  exact ⟨p, q, fun a ha b hb => by rw [e a ha b hb, h a ha b hb]⟩

theorem HasForm.add {n : ℕ} {M N : ℕ → ℕ → ℝ} (h : HasForm n M) (k : HasForm n N) : HasForm n fun a b => M a b + N a b := by
  obtain ⟨p, q, h⟩ := h
  obtain ⟨r, s, k⟩ := k
  exact ⟨p + r, q + s, fun a ha b hb => by dsimp only; rw [h a ha b hb, k a ha b hb]; ring⟩

theorem HasForm.mul {n : ℕ} {M : ℕ → ℕ → ℝ} (h : HasForm n M) (c : ℝ) : HasForm n fun a b => c * M a b := by
  obtain ⟨p, q, h⟩ := h
  exact ⟨c * p, c * q, fun a ha b hb => by dsimp only; rw [h a ha b hb]; ring⟩

theorem HasForm.sum {n : ℕ} {ι : Type*} {F : ι → ℕ → ℕ → ℝ} (h : ∀ e, HasForm n (F e)) (L : List ι) :
    HasForm n fun a b => (L.map fun e => F e a b).sum := by
  induction L with
  | nil => exact (HasForm.zero n).congr fun _ _ _ _ => by simp
  | cons e L ih => exact ((h e).add ih).congr fun _ _ _ _ => by simp

/-- Both components of spectra turned. -/
noncomputable def turnRow (n1 n2 : ℕ) (t1 t2 : ℝ) (v : ℕ → ℝ) (k : ℕ) : ℝ := turnBy n1 t1 (fun i => turnBy n2 t2 fun j => v (i * n2 + j)) (k / n2) (k % n2)

theorem turn_comb_lt {n : ℕ} (hn : n = 1 ∨ n = 2) (t : ℝ) {c : ℕ} (hc : c < n) : ∃ (x y : ℝ) (i j : ℕ), i < n ∧ j < n ∧
    ∀ {V : Type} [AddCommGroup V] [Module ℝ V] (v : ℕ → V), turnBy n t v c = x • v i + y • v j := by
  by_cases h0 : n = 2 ∧ c = 0
  · exact ⟨Real.cos t, -Real.sin t, 0, 1, by omega, by omega, fun v => by simp only [turnBy, if_pos h0]; module⟩
  by_cases h1 : n = 2 ∧ c = 1
  · exact ⟨Real.sin t, Real.cos t, 0, 1, by omega, by omega, fun v => by simp only [turnBy, if_neg h0, if_pos h1]⟩
  · exact ⟨1, 0, c, c, hc, hc, fun v => by simp only [turnBy, if_neg h0, if_neg h1]; module⟩

theorem turnRow_comb {n1 n2 : ℕ} (h1 : n1 = 1 ∨ n1 = 2) (h2 : n2 = 1 ∨ n2 = 2) (t1 t2 : ℝ) {k : ℕ} (hk : k < n1 * n2) :
    ∃ x y z w : ℝ, ∃ a b c d : ℕ, a < n1 * n2 ∧ b < n1 * n2 ∧ c < n1 * n2 ∧ d < n1 * n2 ∧
      ∀ v, turnRow n1 n2 t1 t2 v k = x * v a + y * v b + z * v c + w * v d := by
  have hn2 : 0 < n2 := by omega
  obtain ⟨x, y, p, q, hp, hq, e1⟩ := turn_comb_lt h1 t1 (c := k / n2) (Nat.div_lt_of_lt_mul (by rw [mul_comm]; exact hk))
  obtain ⟨z, w, r, s, hr, hs, e2⟩ := turn_comb_lt h2 t2 (c := k % n2) (Nat.mod_lt _ hn2)
  have hlt : ∀ i j, i < n1 → j < n2 → i * n2 + j < n1 * n2 := by
    intro i j hi hj
    have := Nat.mul_le_mul_right n2 hi
    rw [Nat.succ_mul] at this
    omega
  refine ⟨x * z, x * w, y * z, y * w, p * n2 + r, p * n2 + s, q * n2 + r, q * n2 + s, hlt _ _ hp hr, hlt _ _ hp hs, hlt _ _ hq hr, hlt _ _ hq hs, fun v => ?_⟩
  unfold turnRow
  rw [e1, Pi.add_apply, Pi.smul_apply, Pi.smul_apply, e2, e2]
  simp only [smul_eq_mul]
  ring

theorem HasForm.turn {n1 n2 : ℕ} (h1 : n1 = 1 ∨ n1 = 2) (h2 : n2 = 1 ∨ n2 = 2) (t1 t2 : ℝ) {M : ℕ → ℕ → ℝ} (h : HasForm (n1 * n2) M) (v : ℕ → ℝ) {a : ℕ}
    (ha : a < n1 * n2) : ∑ b ∈ range (n1 * n2), M a b * turnRow n1 n2 t1 t2 v b = turnRow n1 n2 t1 t2 (fun a => ∑ b ∈ range (n1 * n2), M a b * v b) a := by
  obtain ⟨p, q, h⟩ := h
  have e1 : ∀ u : ℕ → ℝ, ∀ a < n1 * n2, ∑ b ∈ range (n1 * n2), M a b * u b =
      ∑ b ∈ range (n1 * n2), (p * (if a = b then 1 else 0) + q * mixSign (n1 * n2) a b) * u b := fun u a ha =>
    sum_congr rfl fun b hb => by rw [h a ha b (mem_range.1 hb)]
  rw [e1 _ a ha]
  have e2 : turnRow n1 n2 t1 t2 (fun a => ∑ b ∈ range (n1 * n2), M a b * v b) a =
      turnRow n1 n2 t1 t2 (fun a => ∑ b ∈ range (n1 * n2), (p * (if a = b then 1 else 0) + q * mixSign (n1 * n2) a b) * v b) a := by
    obtain ⟨x, y, z, w, b, c, d, e, hb, hc, hd, he, k⟩ := turnRow_comb h1 h2 t1 t2 ha
    rw [k, k, e1 v b hb, e1 v c hc, e1 v d hd, e1 v e he]
  rw [e2]
  clear e1 e2 h
  rcases h1 with rfl | rfl <;> rcases h2 with rfl | rfl <;> interval_cases a <;>
    simp [turnRow, NaMaster.turnBy, sum_range_succ, mixSign] <;> ring

/-- The blocks of the binned coupling matrix. -/
theorem binned_form {ncls lmaxFields lmaxMask : ℕ} {teb : Bool} {nt : ℤ} {w2 : ℝ} {beam1 beam2 p : ℕ → ℝ} {U : ℕ → ℕ → ℝ} {B : Bins ℝ}
    (hU : ∀ l2 l3, l2 ≤ B.ellMax → l3 ≤ B.ellMax → HasForm ncls fun a b => U (ncls * l2 + a) (ncls * l3 + b)) {ib ib' : ℕ} (h2 : ib < B.nBands) (h3 : ib' < B.nBands) :
    HasForm ncls fun a b => (buildWsp ncls lmaxFields lmaxMask teb nt w2 beam1 beam2 p U B).binned (ncls * ib + a) (ncls * ib' + b) := by
  have hT : ∀ l2 l3, HasForm ncls fun a b => tab2 (ncls * (B.ellMax + 1)) (ncls * (B.ellMax + 1)) U (ncls * l2 + a) (ncls * l3 + b) := by
    intro l2 l3
    by_cases h : l2 ≤ B.ellMax ∧ l3 ≤ B.ellMax
    · refine (hU l2 l3 h.1 h.2).congr fun a ha b hb => ?_
      rw [tab2_of_lt]
      · exact flat_lt ha (by omega)
      · exact flat_lt hb (by omega)
    · refine (HasForm.zero ncls).congr fun a ha b hb => ?_
      unfold tab2
      rw [if_neg]
      rintro ⟨k1, k2⟩
      have hp : 0 < ncls := by omega
      refine h ⟨?_, ?_⟩
      · have : ncls * l2 < ncls * (B.ellMax + 1) := by omega
        have := Nat.lt_of_mul_lt_mul_left this
        omega
      · have : ncls * l3 < ncls * (B.ellMax + 1) := by omega
        have := Nat.lt_of_mul_lt_mul_left this
        omega
  have key : HasForm ncls fun a b => binnedElement ncls nt w2 (tab (lmaxFields + 1) fun l => beam1 l * beam2 l) B
      (tab2 (ncls * (B.ellMax + 1)) (ncls * (B.ellMax + 1)) U) a b ib ib' := by
    unfold binnedElement
    by_cases hn : nt = 0
    · simp only [if_pos hn]
      refine HasForm.sum (fun e2 => HasForm.sum (fun e3 => ?_) _) _
      exact ((hT e2.ell e3.ell).mul ((tab (lmaxFields + 1) fun l => beam1 l * beam2 l) e3.ell * e2.w * e2.f / e3.f)).congr fun a _ b _ => by ring
    · simp only [if_neg hn]
      refine ⟨if ib = ib' then w2 else 0, 0, fun a ha b hb => ?_⟩
      by_cases hi : ib = ib'
      · subst hi
        by_cases hab : a = b
        · subst hab; simp
        · dsimp only
          rw [if_neg hab, if_neg (fun e => hab (Nat.add_left_cancel e))]
          ring
      · dsimp only
        rw [if_neg hi, if_neg (fun e => hi (flat_inj ha hb e).2)]
        ring
  refine key.congr fun a ha b hb => ?_
  exact binMatrix_apply ncls nt w2 _ B _ ha hb h2 h3

theorem matrix_form (W : Wigner) (a : CouplingArgs) (ht : a.teb = false) (h1 : a.pe1 = a.pb1) (h2 : a.pe2 = a.pb2)
    (lmax : ℕ) (pcl : ℕ → ℝ) (l2 l3 : ℕ) (hl2 : l2 ≤ lmax) (hl3 : l3 ≤ lmax) :
    HasForm a.ncls fun x y => a.matrix W lmax pcl (a.ncls * l2 + x) (a.ncls * l3 + y) := by
  have hm : ∀ x < a.ncls, ∀ y < a.ncls, a.matrix W lmax pcl (a.ncls * l2 + x) (a.ncls * l3 + y) = runWrites (a.cells W lmax pcl l2 l3) (fun _ => 0) (x, y) := by
    intro x hx y hy
    exact matrix_apply a.ncls lmax _ (fun l2 l3 w hw => CouplingArgs.cells_lt W a lmax pcl l2 l3 w hw) hl2 hl3 hx hy
  have hc : a.ncls = 1 ∨ a.ncls = 2 ∨ a.ncls = 4 := by
    unfold CouplingArgs.ncls
    rw [ht]
    split_ifs <;> simp_all
  refine HasForm.congr ?_ hm
  rcases hc with hc | hc | hc
  · rw [hc]
    refine ⟨runWrites (a.cells W lmax pcl l2 l3) (fun _ => 0) (0, 0), 0, fun x hx y hy => ?_⟩
    obtain rfl : x = 0 := by omega
    obtain rfl : y = 0 := by omega
    simp
  · rw [hc]
    refine ⟨(2 * l3 + 1) * (if Odd (a.spin1 + a.spin2) then -1 else 1) * (a.xi W lmax pcl).2.1 (flag a.pb1 + flag a.pb2) l2 l3, 0, fun x hx y hy => ?_⟩
    dsimp only
    rw [cells_two W a lmax pcl l2 l3 x y hc hx hy, h1, h2]
    by_cases hxy : x = y <;> simp [hxy]
  · rw [hc]
    refine ⟨(2 * l3 + 1) * (if Odd (a.spin1 + a.spin2) then -1 else 1) * (a.xi W lmax pcl).2.2.1 (flag a.pb1 + flag a.pb2) l2 l3,
      (2 * l3 + 1) * (if Odd (a.spin1 + a.spin2) then -1 else 1) * (a.xi W lmax pcl).2.2.2 (flag a.pb1 + flag a.pb2) l2 l3, fun x hx y hy => ?_⟩
    dsimp only
    rw [cells_four W a lmax pcl l2 l3 x y hc hx hy, h1, h2]
    interval_cases x <;> interval_cases y <;> simp [mixSign]

theorem wsp_form {W : Wigner} {env : FieldEnv} {minfo : MapInfo} {f1 f2 : FieldObj} {same : Bool} {B : Bins ℝ} {wa : WspArgs} {w : Wsp ℝ}
    (i1 : f1.maskA = none) (i2 : f2.maskA = none) (h1 : EvenField f1) (h2 : EvenField f2) (hw : wspFromFields W env minfo f1 f2 same B wa = .ok w)
    (hn : w.ncls = f1.nmaps * f2.nmaps) {ib ib' : ℕ} (hb : ib < w.bin.nBands) (hb' : ib' < w.bin.nBands) :
    HasForm w.ncls fun a b => w.binned (w.ncls * ib + a) (w.ncls * ib' + b) := by
  obtain ⟨-, n, -, hc⟩ := wsp_iso i1 i2 hw
  unfold compCouplingMatrix at hc
  split_ifs at hc
  unfold computeCouplingMatrix at hc
  split_ifs at hc
  have e := (Outcome.ok.inj hc).symm
  rw [e] at hn hb hb' ⊢
  have ht : (couplingArgsOf f1 f2 wa).teb = false := by
    by_contra h
    have h7 : (couplingArgsOf f1 f2 wa).ncls = 7 := by
      unfold CouplingArgs.ncls
      rw [if_pos (by simpa using h)]
    have h8 : (couplingArgsOf f1 f2 wa).ncls = f1.nmaps * f2.nmaps := hn
    rw [h7] at h8
    rcases h1.comps with c1 | c1 <;> rcases h2.comps with c2 | c2 <;> rw [c1, c2] at h8 <;> omega
  exact binned_form (fun l2 l3 k2 k3 => matrix_form W _ ht h1.pure h2.pure _ _ l2 l3 k2 k3) hb hb'

theorem decouple_turn {L : LinAlg ℝ} (hL : L.Correct) (w : Wsp ℝ) (h : Regular w.nBinned w.binned) {n1 n2 : ℕ} (c1 : n1 = 1 ∨ n1 = 2) (c2 : n2 = 1 ∨ n2 = 2)
    (t1 t2 : ℝ) (hf : w.ncls = n1 * n2 → ∀ ib < w.bin.nBands, ∀ ib' < w.bin.nBands, HasForm w.ncls fun a b => w.binned (w.ncls * ib + a) (w.ncls * ib' + b))
    (d : Arr2 ℝ) (hd : d.rows = n1 * n2) :
    decoupleCell L w (d.turn n1 n2 t1 t2) none none = (decoupleCell L w d none none).bind fun r => .ok (r.turn n1 n2 t1 t2) := by
  by_cases hs : d.rows = w.ncls ∧ w.lmax + 1 ≤ d.cols
  · rw [decoupleCell_ok L w d hs.1 hs.2, decoupleCell_ok L w (d.turn n1 n2 t1 t2) hs.1 hs.2]
    have hn : w.ncls = n1 * n2 := by rw [← hs.1, hd]
    simp only [Outcome.bind]
    congr 1
    have hform := hf hn
    have hreg : Regular (w.ncls * w.bin.nBands) w.binned := h
    generalize hY : binnedInput w.ncls w.bin d.val (fun _ _ => 0) (fun _ _ => 0) = Y
    have hD : decoupleCl L w.ncls w.bin w.binned d.val (fun _ _ => 0) (fun _ _ => 0) =
        fun a ib => L.solve (w.ncls * w.bin.nBands) w.binned Y (w.ncls * ib + a) := by
      funext a ib
      unfold decoupleCl
      rw [hY]
    rw [hD, hn, turn2_of c1 c2]
    refine Arr2.of_congr fun a ib ha hib => ?_
    simp only [turn_pi]
    unfold decoupleCl
    have hpos : 0 < n1 * n2 := by omega
    have hx := hL.solve_eq hreg (fun k => turnRow n1 n2 t1 t2 (fun c => L.solve (w.ncls * w.bin.nBands) w.binned Y (w.ncls * (k / (n1 * n2)) + c)) (k % (n1 * n2)))
      (binnedInput w.ncls w.bin (d.turn n1 n2 t1 t2).val (fun _ _ => 0) (fun _ _ => 0)) ?_ (w.ncls * ib + a) (flat_lt (by rw [hn]; exact ha) hib)
    · rw [← hn, hx, ← hn, Nat.mul_add_div (by rw [hn]; exact hpos), Nat.mul_add_mod, Nat.div_eq_of_lt (by rw [hn]; exact ha), Nat.mod_eq_of_lt (by rw [hn]; exact ha), add_zero]
      simp only [turnRow, turn_pi]
    · intro i hi
      rw [← Nat.div_add_mod i (n1 * n2)]
      set ib := i / (n1 * n2)
      set a := i % (n1 * n2)
      have ha : a < n1 * n2 := Nat.mod_lt _ hpos
      have hib : ib < w.bin.nBands := Nat.div_lt_of_lt_mul (by rw [← hn]; exact hi)
      rw [← hn]
      have ha' : a < w.ncls := by rw [hn]; exact ha
      rw [binnedInput_apply w.ncls w.bin _ _ _ ha' hib, sum_flat]
      have e1 : ∀ b ∈ range w.bin.nBands, ∑ c ∈ range w.ncls, w.binned (w.ncls * ib + a) (w.ncls * b + c) *
          turnRow n1 n2 t1 t2 (fun c' => L.solve (w.ncls * w.bin.nBands) w.binned Y (w.ncls * ((w.ncls * b + c) / w.ncls) + c')) ((w.ncls * b + c) % w.ncls) =
          turnRow n1 n2 t1 t2 (fun a => ∑ c ∈ range w.ncls, w.binned (w.ncls * ib + a) (w.ncls * b + c) *
            L.solve (w.ncls * w.bin.nBands) w.binned Y (w.ncls * b + c)) a := by
        intro b hb
        have hF := hform ib hib b (mem_range.1 hb)
        rw [hn] at hF ⊢
        rw [← hF.turn c1 c2 t1 t2 (fun c => L.solve (n1 * n2 * w.bin.nBands) w.binned Y (n1 * n2 * b + c)) ha]
        refine sum_congr rfl fun c hc => ?_
        have hc' := mem_range.1 hc
        rw [Nat.mul_add_div hpos, Nat.mul_add_mod, Nat.div_eq_of_lt hc', Nat.mod_eq_of_lt hc', add_zero]
      rw [sum_congr rfl e1]
      obtain ⟨x, y, z, u, p, q, r, s, hp, hq, hr, hs', hc⟩ := turnRow_comb c1 c2 t1 t2 ha
      have e2 : ∀ c < n1 * n2, ∑ b ∈ range w.bin.nBands, ∑ c' ∈ range w.ncls, w.binned (w.ncls * ib + c) (w.ncls * b + c') *
          L.solve (w.ncls * w.bin.nBands) w.binned Y (w.ncls * b + c') = ((w.bin.band ib).map fun e => (d.val c e.ell - 0 - 0) * e.f * e.w).sum := by
        intro c hc
        have hc' : c < w.ncls := by rw [hn]; exact hc
        rw [← sum_flat w.ncls w.bin.nBands fun k => w.binned (w.ncls * ib + c) k * L.solve (w.ncls * w.bin.nBands) w.binned Y k,
          hL.solve_spec _ _ _ hreg _ (flat_lt hc' hib), ← hY, binnedInput_apply w.ncls w.bin _ _ _ hc' hib]
      have e3 : ∀ l, (d.turn n1 n2 t1 t2).val a l = turnRow n1 n2 t1 t2 (fun c => d.val c l) a := by
        intro l
        simp only [Arr2.turn, turnRow, turn_pi]
        rw [if_pos (by rw [hd]; exact ha)]
      simp only [hc, e3, sum_add_distrib, ← mul_sum]
      rw [e2 p hp, e2 q hq, e2 r hr, e2 s hs', ← List.sum_map_mul_left, ← List.sum_map_mul_left, ← List.sum_map_mul_left, ← List.sum_map_mul_left,
        ← List.sum_map_add, ← List.sum_map_add, ← List.sum_map_add]
      congr 1
      refine List.map_congr_left fun e _ => ?_
      ring
  · have e : d.rows ≠ w.ncls ∨ d.cols < w.lmax + 1 := by
      by_cases h1 : d.rows = w.ncls
      · exact Or.inr (by have := fun h2 => hs ⟨h1, h2⟩; omega)
      · exact Or.inl h1
    unfold decoupleCell
    rw [if_pos e]
    exact if_pos e

end NaMaster
