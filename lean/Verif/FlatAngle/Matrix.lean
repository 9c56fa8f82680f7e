import Verif.FlatAngle.Bias

/-!
# Flat workspaces and the turning of polarisation angles
-/

namespace NaMaster

open Real Finset

variable {env : FlatEnv}

/-- Multiplying spectra by a matrix and turning them can be exchanged. -/
def Exchanges (n1 n2 : ℕ) (t1 t2 : ℝ) (M : ℕ → ℕ → ℝ) : Prop :=
  ∀ v : ℕ → ℝ, ∀ a < n1 * n2, ∑ b ∈ range (n1 * n2), M a b * turnRow n1 n2 t1 t2 v b = turnRow n1 n2 t1 t2 (fun a => ∑ b ∈ range (n1 * n2), M a b * v b) a

section
variable {n1 n2 : ℕ} {t1 t2 : ℝ}

theorem Exchanges.congr (h1 : n1 = 1 ∨ n1 = 2) (h2 : n2 = 1 ∨ n2 = 2) {M N : ℕ → ℕ → ℝ} (h : Exchanges n1 n2 t1 t2 N)
    (e : ∀ a < n1 * n2, ∀ b < n1 * n2, M a b = N a b) : Exchanges n1 n2 t1 t2 M := by
  intro v a ha
  have e1 : ∀ u : ℕ → ℝ, ∀ a < n1 * n2, ∑ b ∈ range (n1 * n2), M a b * u b = ∑ b ∈ range (n1 * n2), N a b * u b := fun u a ha =>
    sum_congr rfl fun b hb => by rw [e a ha b (mem_range.1 hb)]
  rw [e1 _ a ha, h v a ha]
  obtain ⟨x, y, z, w, b, c, d, e, hb, hc, hd, he, k⟩ := turnRow_comb h1 h2 t1 t2 ha
  rw [k, k, e1 v b hb, e1 v c hc, e1 v d hd, e1 v e he]

theorem Exchanges.mul (h1 : n1 = 1 ∨ n1 = 2) (h2 : n2 = 1 ∨ n2 = 2) {M : ℕ → ℕ → ℝ} (h : Exchanges n1 n2 t1 t2 M) (x : ℝ) :
    Exchanges n1 n2 t1 t2 fun a b => M a b * x := by
  intro v a ha
  have e : ∀ (u : ℕ → ℝ) a, ∑ b ∈ range (n1 * n2), M a b * x * u b = x * ∑ b ∈ range (n1 * n2), M a b * u b := by
    intro u a
    rw [mul_sum]
    exact sum_congr rfl fun b _ => by ring
  dsimp only
  simp only [e]
  rw [h v a ha]
  obtain ⟨p, y, z, w, b, c, d, e, -, -, -, -, k⟩ := turnRow_comb h1 h2 t1 t2 ha
  rw [k, k]
  ring

theorem Exchanges.sum (h1 : n1 = 1 ∨ n1 = 2) (h2 : n2 = 1 ∨ n2 = 2) {ι : Type*} (S : Finset ι) {M : ι → ℕ → ℕ → ℝ} (h : ∀ i ∈ S, Exchanges n1 n2 t1 t2 (M i)) :
    Exchanges n1 n2 t1 t2 fun a b => ∑ i ∈ S, M i a b := by
  intro v a ha
  have e : ∀ (u : ℕ → ℝ) a, ∑ b ∈ range (n1 * n2), (∑ i ∈ S, M i a b) * u b = ∑ i ∈ S, ∑ b ∈ range (n1 * n2), M i a b * u b := by
    intro u a
    rw [sum_comm]
    exact sum_congr rfl fun b _ => by rw [sum_mul]
  dsimp only
  simp only [e]
  rw [sum_congr rfl fun i hi => h i hi v a ha]
  obtain ⟨p, y, z, w, b, c, d, e, -, -, -, -, k⟩ := turnRow_comb h1 h2 t1 t2 ha
  simp only [k, sum_add_distrib, mul_sum]

/-- A rotation. -/
def rot2 (C S : ℝ) (i j : ℕ) : ℝ := if i = j then C else if i = 0 then -S else S

theorem coupFactor_two (p1 p2 : ℕ) (c1 s1 c2 s2 kr : ℝ) : ∃ C S, ∀ i < 2, ∀ j < 2, coupFactor 2 p1 p1 p2 p2 c1 s1 c2 s2 kr i j = rot2 C S i j := by
  refine ⟨if p1 + p2 = 0 then c1 else kr, if p1 + p2 = 0 then s1 else 0, fun i hi j hj => ?_⟩
  interval_cases i <;> interval_cases j <;> rfl

theorem coupFactor_four (p1 p2 : ℕ) (c1 s1 c2 s2 kr : ℝ) : ∃ C S D T, ∀ i < 4, ∀ j < 4, coupFactor 4 p1 p1 p2 p2 c1 s1 c2 s2 kr i j =
    rot2 C S (i / 2) (j / 2) * rot2 D T (i % 2) (j % 2) := by
  refine ⟨if p1 = 0 then c1 else kr, if p1 = 0 then s1 else 0, if p2 = 0 then c2 else kr, if p2 = 0 then s2 else 0, fun i hi j hj => ?_⟩
  interval_cases i <;> interval_cases j <;> simp [coupFactor, rot2] <;> split_ifs <;> simp

/-- The numbers for a pair of modes, if both or none of E and B modes of each field are purified. -/
theorem coupFactor_exchanges (h1 : n1 = 1 ∨ n1 = 2) (h2 : n2 = 1 ∨ n2 = 2) (p1 p2 : ℕ) (c1 s1 c2 s2 kr : ℝ) :
    Exchanges n1 n2 t1 t2 (coupFactor (n1 * n2) p1 p1 p2 p2 c1 s1 c2 s2 kr) := by
  have two : ∀ n1 n2, (n1 = 1 ∧ n2 = 2 ∨ n1 = 2 ∧ n2 = 1) → ∀ C S, Exchanges n1 n2 t1 t2 (rot2 C S) := by
    intro n1 n2 h C S v a ha
    rcases h with ⟨rfl, rfl⟩ | ⟨rfl, rfl⟩ <;> simp only [Nat.reduceMul] at ha ⊢ <;> interval_cases a <;>
      simp [turnRow, NaMaster.turnBy, sum_range_succ, rot2] <;> ring
  rcases h1 with rfl | rfl <;> rcases h2 with rfl | rfl
  · intro v a ha
    obtain rfl : a = 0 := by omega
    simp [turnRow, NaMaster.turnBy]
  · obtain ⟨C, S, h⟩ := coupFactor_two p1 p2 c1 s1 c2 s2 kr
    exact (two 1 2 (by norm_num) C S).congr (by norm_num) (by norm_num) h
  · obtain ⟨C, S, h⟩ := coupFactor_two p1 p2 c1 s1 c2 s2 kr
    exact (two 2 1 (by norm_num) C S).congr (by norm_num) (by norm_num) h
  · obtain ⟨C, S, D, T, h⟩ := coupFactor_four p1 p2 c1 s1 c2 s2 kr
    refine Exchanges.congr (N := fun i j => rot2 C S (i / 2) (j / 2) * rot2 D T (i % 2) (j % 2)) (by norm_num) (by norm_num) ?_ h
    intro v a ha
    simp only [Nat.reduceMul] at ha ⊢
    interval_cases a <;> simp [turnRow, NaMaster.turnBy, sum_range_succ, rot2] <;> ring

end

theorem coupTerm_exchanges {f1 f2 : FlatField} (p1 : f1.pureE = f1.pureB) (p2 : f2.pureE = f2.pureB) (t1 t2 : ℝ) (m : ℕ × ℕ → ℝ) (k1 k2 : ℕ × ℕ) :
    Exchanges (nmapsOf f1.spin) (nmapsOf f2.spin) t1 t2 fun i j => coupTerm f1 f2 (nmapsOf f1.spin * nmapsOf f2.spin) m i j k1 k2 := by
  unfold coupTerm
  dsimp only
  rw [p1, p2]
  exact (coupFactor_exchanges (nmapsOf_or _) (nmapsOf_or _) _ _ _ _ _ _ _).mul (nmapsOf_or _) (nmapsOf_or _) _

/-- The blocks of the matrix of a workspace. -/
theorem binned_exchanges {f1 f2 : FlatField} (p1 : f1.pureE = f1.pureB) (p2 : f2.pureE = f2.pureB) (t1 t2 : ℝ) {b : FlatBins ℝ} {c : EllCuts} {w : WspFlat}
    (h : couplingFlat f1 f2 b c false = .ok w) : w.ncls = nmapsOf f1.spin * nmapsOf f2.spin ∧ ∀ b1 < w.bin.nBands, ∀ b2 < w.bin.nBands,
      Exchanges (nmapsOf f1.spin) (nmapsOf f2.spin) t1 t2 fun i j => w.binned i b1 j b2 := by
  obtain ⟨-, -, rows, rowsN, -, -, hb, hn, hm⟩ := coupling_binned h
  rw [if_neg (by simp)] at hn
  refine ⟨hn, fun b1 h1 b2 h2 => ?_⟩
  rw [hb] at h1 h2
  refine Exchanges.congr (nmapsOf_or _) (nmapsOf_or _) ?_ fun i hi j hj => hm i (by rw [hn]; exact hi) j (by rw [hn]; exact hj) b1 h1 b2 h2
  refine Exchanges.mul (nmapsOf_or _) (nmapsOf_or _) ?_ _
  refine Exchanges.sum (nmapsOf_or _) (nmapsOf_or _) _ fun k1 _ => Exchanges.sum (nmapsOf_or _) (nmapsOf_or _) _ fun k2 _ => ?_
  rw [hn]
  exact coupTerm_exchanges p1 p2 t1 t2 _ k1 k2

theorem turn_val {n1 n2 : ℕ} {t1 t2 : ℝ} {d : Arr2 ℝ} (hd : d.rows = n1 * n2) {a : ℕ} (ha : a < n1 * n2) (l : ℕ) :
    (d.turn n1 n2 t1 t2).val a l = turnRow n1 n2 t1 t2 (fun c => d.val c l) a := by
  simp only [Arr2.turn, turnRow, turn_pi]
  rw [if_pos (by rw [hd]; exact ha)]

theorem decoupleFlat_turned {L : LinAlg ℝ} (hL : L.Correct) (w : WspFlat) (hreg : Regular (w.ncls * w.bin.nBands) w.gslMatrix) {n1 n2 : ℕ} (c1 : n1 = 1 ∨ n1 = 2)
    (c2 : n2 = 1 ∨ n2 = 2) (t1 t2 : ℝ) (hn : w.ncls = n1 * n2) (hex : ∀ b1 < w.bin.nBands, ∀ b2 < w.bin.nBands, Exchanges n1 n2 t1 t2 fun i j => w.binned i b1 j b2)
    {cl noise bias : Arr2 ℝ} (hc : cl.rows = n1 * n2) (ho : noise.rows = n1 * n2) (hb : bias.rows = n1 * n2) :
    decoupleFlatC L w (cl.turn n1 n2 t1 t2) (noise.turn n1 n2 t1 t2) (bias.turn n1 n2 t1 t2) (n1 * n2) =
      (decoupleFlatC L w cl noise bias (n1 * n2)).bind fun r => .ok (r.turn n1 n2 t1 t2) := by
  have hpos : 0 < n1 * n2 := by rcases c1 with rfl | rfl <;> rcases c2 with rfl | rfl <;> norm_num
  have hN : ¬ (cl.rows < w.ncls ∨ noise.rows < w.ncls ∨ bias.rows < w.ncls ∨ n1 * n2 < w.ncls) := by rw [hc, ho, hb, hn]; omega
  unfold decoupleFlatC
  rw [if_neg hN]
  rw [if_neg (show ¬ ((cl.turn n1 n2 t1 t2).rows < w.ncls ∨ (noise.turn n1 n2 t1 t2).rows < w.ncls ∨ (bias.turn n1 n2 t1 t2).rows < w.ncls ∨ n1 * n2 < w.ncls) from hN)]
  simp only [Outcome.bind]
  congr 1
  generalize hY : flatInput w cl.val noise.val bias.val = Y
  have e0 : ∀ F : ℕ → ℕ → ℝ, Arr2.of (n1 * n2) w.bin.nBands (fun i ib => if i < w.ncls then F i ib else 0) =
      Arr2.of (n1 * n2) w.bin.nBands F := fun F => Arr2.of_congr fun k l hk _ => if_pos (by rw [hn]; exact hk)
  rw [e0, e0, turn2_of c1 c2]
  refine Arr2.of_congr fun a ib ha hib => ?_
  simp only [turn_pi]
  have hx := hL.solve_eq hreg (fun k => turnRow n1 n2 t1 t2 (fun c => L.solve (w.ncls * w.bin.nBands) w.gslMatrix Y (w.ncls * (k / (n1 * n2)) + c)) (k % (n1 * n2)))
    (flatInput w (cl.turn n1 n2 t1 t2).val (noise.turn n1 n2 t1 t2).val (bias.turn n1 n2 t1 t2).val) ?_ (w.ncls * ib + a) (flat_lt (by rw [hn]; exact ha) hib)
  · rw [hx, ← hn, Nat.mul_add_div (by rw [hn]; exact hpos), Nat.mul_add_mod, Nat.div_eq_of_lt (by rw [hn]; exact ha), Nat.mod_eq_of_lt (by rw [hn]; exact ha), add_zero]
    simp only [turnRow, turn_pi]
  · intro i hi
    rw [← Nat.div_add_mod i (n1 * n2)]
    set ib := i / (n1 * n2)
    set a := i % (n1 * n2)
    have ha : a < n1 * n2 := Nat.mod_lt _ hpos
    have hib : ib < w.bin.nBands := Nat.div_lt_of_lt_mul (by rw [← hn]; exact hi)
    rw [← hn]
    have ha' : a < w.ncls := by rw [hn]; exact ha
    rw [flatInput_apply w _ _ _ ha' hib, sum_flat]
    have e1 : ∀ b ∈ range w.bin.nBands, ∑ c ∈ range w.ncls, w.gslMatrix (w.ncls * ib + a) (w.ncls * b + c) *
        turnRow n1 n2 t1 t2 (fun c' => L.solve (w.ncls * w.bin.nBands) w.gslMatrix Y (w.ncls * ((w.ncls * b + c) / w.ncls) + c')) ((w.ncls * b + c) % w.ncls) =
        turnRow n1 n2 t1 t2 (fun a => ∑ c ∈ range w.ncls, w.binned a ib c b *
          L.solve (w.ncls * w.bin.nBands) w.gslMatrix Y (w.ncls * b + c)) a := by
      intro b hb
      have hF := hex ib hib b (mem_range.1 hb)
      rw [hn]
      rw [← hF (fun c => L.solve (n1 * n2 * w.bin.nBands) w.gslMatrix Y (n1 * n2 * b + c)) a ha]
      refine sum_congr rfl fun c hc => ?_
      have hc' := mem_range.1 hc
      rw [gsl_at w hn ha hc', Nat.mul_add_div hpos, Nat.mul_add_mod, Nat.div_eq_of_lt hc', Nat.mod_eq_of_lt hc', add_zero]
    rw [sum_congr rfl e1]
    obtain ⟨x, y, z, u, p, q, r, s, hp, hq, hr, hs', hcomb⟩ := turnRow_comb c1 c2 t1 t2 ha
    have e2 : ∀ c < n1 * n2, ∑ b ∈ range w.bin.nBands, ∑ c' ∈ range w.ncls, w.binned c ib c' b *
        L.solve (w.ncls * w.bin.nBands) w.gslMatrix Y (w.ncls * b + c') = cl.val c ib - noise.val c ib - bias.val c ib := by
      intro c hc
      have hc' : c < w.ncls := by rw [hn]; exact hc
      rw [← flatInput_apply w cl.val noise.val bias.val hc' hib, hY, ← hL.solve_spec _ _ Y hreg _ (flat_lt hc' hib), sum_flat]
      refine sum_congr rfl fun b _ => sum_congr rfl fun d hd => ?_
      rw [gsl_at w rfl hc' (mem_range.1 hd)]
    rw [turn_val hc ha, turn_val ho ha, turn_val hb ha]
    simp only [hcomb, sum_add_distrib, ← mul_sum]
    rw [e2 p hp, e2 q hq, e2 r hr, e2 s hs']
    ring

end NaMaster
