import Verif.Symm.Spectra
import Verif.Coupling.Lemmas4
import Verif.Sky.Props

/-!
# Coupling matrices do not mix spectra that change sign in mirror images with those that do not
-/

namespace NaMaster

open Finset

/-- Matrices that commute with multiplication of the rows by `s`. -/
def KeepsSigns (s : ℕ → ℝ) (n : ℕ) (M : ℕ → ℕ → ℝ) : Prop := ∀ a < n, ∀ b < n, s a * M a b = M a b * s b

variable {s : ℕ → ℝ}

theorem KeepsSigns.zero (n : ℕ) : KeepsSigns s n fun _ _ => 0 := fun _ _ _ _ => by simp

theorem KeepsSigns.congr {n : ℕ} {M N : ℕ → ℕ → ℝ} (h : KeepsSigns s n M) (e : ∀ a < n, ∀ b < n, N a b = M a b) : KeepsSigns s n N :=
  fun a ha b hb => by rw [e a ha b hb, h a ha b hb]

theorem KeepsSigns.add {n : ℕ} {M N : ℕ → ℕ → ℝ} (h : KeepsSigns s n M) (k : KeepsSigns s n N) : KeepsSigns s n fun a b => M a b + N a b :=
  fun a ha b hb => by dsimp only; rw [mul_add, h a ha b hb, k a ha b hb, add_mul]

theorem KeepsSigns.mul {n : ℕ} {M : ℕ → ℕ → ℝ} (h : KeepsSigns s n M) (c : ℝ) : KeepsSigns s n fun a b => c * M a b :=
  fun a ha b hb => by dsimp only; rw [mul_left_comm, h a ha b hb, mul_assoc]

theorem KeepsSigns.sum {n : ℕ} {ι : Type*} {F : ι → ℕ → ℕ → ℝ} (h : ∀ e, KeepsSigns s n (F e)) (L : List ι) :
    KeepsSigns s n fun a b => (L.map fun e => F e a b).sum := by
  induction L with
  | nil => exact (KeepsSigns.zero n).congr fun _ _ _ _ => by simp
  | cons e L ih => exact ((h e).add ih).congr fun _ _ _ _ => by simp

/-- The blocks of the binned coupling matrix. -/
theorem binned_keeps {ncls lmaxFields lmaxMask : ℕ} {teb : Bool} {nt : ℤ} {w2 : ℝ} {beam1 beam2 p : ℕ → ℝ} {U : ℕ → ℕ → ℝ} {B : Bins ℝ}
    (hU : ∀ l2 l3, l2 ≤ B.ellMax → l3 ≤ B.ellMax → KeepsSigns s ncls fun a b => U (ncls * l2 + a) (ncls * l3 + b)) {ib ib' : ℕ} (h2 : ib < B.nBands)
    (h3 : ib' < B.nBands) :
    KeepsSigns s ncls fun a b => (buildWsp ncls lmaxFields lmaxMask teb nt w2 beam1 beam2 p U B).binned (ncls * ib + a) (ncls * ib' + b) := by
  have hT : ∀ l2 l3, KeepsSigns s ncls fun a b => tab2 (ncls * (B.ellMax + 1)) (ncls * (B.ellMax + 1)) U (ncls * l2 + a) (ncls * l3 + b) := by
    intro l2 l3
    by_cases h : l2 ≤ B.ellMax ∧ l3 ≤ B.ellMax
    · refine (hU l2 l3 h.1 h.2).congr fun a ha b hb => ?_
      rw [tab2_of_lt]
      · exact flat_lt ha (by omega)
      · exact flat_lt hb (by omega)
    · refine (KeepsSigns.zero ncls).congr fun a ha b hb => ?_
      unfold tab2
      rw [if_neg]
      rintro ⟨k1, k2⟩
      have hp : 0 < ncls := by omega
      refine h ⟨?_, ?_⟩
      · have : ncls * l2 < ncls * (B.ellMax + 1) := by omega
        have := Nat.lt_of_mul_lt_mul_left this
        omega
      · have : ncls * l3 < ncls * (B.ellMax + 1) := by omega
        have := Nat.lt_of_mul_lt_mul_left this
        omega
  have key : KeepsSigns s ncls fun a b => binnedElement ncls nt w2 (tab (lmaxFields + 1) fun l => beam1 l * beam2 l) B
      (tab2 (ncls * (B.ellMax + 1)) (ncls * (B.ellMax + 1)) U) a b ib ib' := by
    unfold binnedElement
    by_cases hn : nt = 0
    · simp only [if_pos hn]
      refine KeepsSigns.sum (fun e2 => KeepsSigns.sum (fun e3 => ?_) _) _
      exact ((hT e2.ell e3.ell).mul ((tab (lmaxFields + 1) fun l => beam1 l * beam2 l) e3.ell * e2.w * e2.f / e3.f)).congr fun a _ b _ => by ring
    · simp only [if_neg hn]
      intro a ha b hb
      dsimp only
      by_cases hi : ncls * ib + a = ncls * ib' + b
      · rw [if_pos hi, (flat_inj ha hb hi).1]
        ring
      · rw [if_neg hi]
        ring
  refine key.congr fun a ha b hb => ?_
  exact binMatrix_apply ncls nt w2 _ B _ ha hb h2 h3

variable {env : FieldEnv} {g : GridSym}

theorem matrix_keeps (W : Wigner) (a : CouplingArgs) {n1 n2 : ℕ} (c1 : n1 = 1 ∨ n1 = 2) (c2 : n2 = 1 ∨ n2 = 2) (hn : a.ncls = n1 * n2)
    (lmax : ℕ) (pcl : ℕ → ℝ) (l2 l3 : ℕ) (hl2 : l2 ≤ lmax) (hl3 : l3 ≤ lmax) :
    KeepsSigns (g.rowSign n1 n2) a.ncls fun x y => a.matrix W lmax pcl (a.ncls * l2 + x) (a.ncls * l3 + y) := by
  have hm : ∀ x < a.ncls, ∀ y < a.ncls, a.matrix W lmax pcl (a.ncls * l2 + x) (a.ncls * l3 + y) = runWrites (a.cells W lmax pcl l2 l3) (fun _ => 0) (x, y) := by
    intro x hx y hy
    exact matrix_apply a.ncls lmax _ (fun l2 l3 w hw => CouplingArgs.cells_lt W a lmax pcl l2 l3 w hw) hl2 hl3 hx hy
  refine KeepsSigns.congr ?_ hm
  intro x hx y hy
  rw [hn] at hx hy
  dsimp only
  rcases c1 with rfl | rfl <;> rcases c2 with rfl | rfl
  · obtain rfl : x = 0 := by omega
    obtain rfl : y = 0 := by omega
    ring
  · rw [cells_two W a lmax pcl l2 l3 x y hn hx hy]
    by_cases hxy : x = y
    · subst hxy; ring
    · rw [if_neg hxy]; ring
  · rw [cells_two W a lmax pcl l2 l3 x y hn hx hy]
    by_cases hxy : x = y
    · subst hxy; ring
    · rw [if_neg hxy]; ring
  · have hn' : a.ncls = 4 := hn
    have h2 := g.sg_sq 2 1
    rw [cells_four W a lmax pcl l2 l3 x y hn' hx hy]
    interval_cases x <;> interval_cases y <;> simp [GridSym.rowSign, g.sg_zero, h2] <;> split_ifs <;> ring

theorem wsp_keeps {W : Wigner} {minfo : MapInfo} {f1 f2 : FieldObj} {same : Bool} {B : Bins ℝ} {wa : WspArgs} {w : Wsp ℝ}
    (i1 : f1.maskA = none) (i2 : f2.maskA = none) (h1 : SymField f1) (h2 : SymField f2) (hw : wspFromFields W env minfo f1 f2 same B wa = .ok w)
    (hn : w.ncls = f1.nmaps * f2.nmaps) {ib ib' : ℕ} (hb : ib < w.bin.nBands) (hb' : ib' < w.bin.nBands) :
    KeepsSigns (g.rowSign f1.nmaps f2.nmaps) w.ncls fun a b => w.binned (w.ncls * ib + a) (w.ncls * ib' + b) := by
  obtain ⟨-, n, -, hc⟩ := wsp_iso i1 i2 hw
  unfold compCouplingMatrix at hc
  split_ifs at hc
  unfold computeCouplingMatrix at hc
  split_ifs at hc
  have e := (Outcome.ok.inj hc).symm
  rw [e] at hn hb hb' ⊢
  exact binned_keeps (fun l2 l3 k2 k3 => matrix_keeps W _ h1.one_two h2.one_two hn _ _ l2 l3 k2 k3) hb hb'

theorem decouple_move {L : LinAlg ℝ} (hL : L.Correct) (w : Wsp ℝ) (h : Regular w.nBinned w.binned) {n1 n2 : ℕ}
    (hf : w.ncls = n1 * n2 → ∀ ib < w.bin.nBands, ∀ ib' < w.bin.nBands, KeepsSigns (g.rowSign n1 n2) w.ncls fun a b => w.binned (w.ncls * ib + a) (w.ncls * ib' + b))
    (d : Arr2 ℝ) (hd : d.rows = n1 * n2) :
    decoupleCell L w (d.flip g n1 n2) none none = (decoupleCell L w d none none).bind fun r => .ok (r.flip g n1 n2) := by
  by_cases hs : d.rows = w.ncls ∧ w.lmax + 1 ≤ d.cols
  · rw [decoupleCell_ok L w d hs.1 hs.2, decoupleCell_ok L w (d.flip g n1 n2) hs.1 hs.2]
    have hn : w.ncls = n1 * n2 := by rw [← hs.1, hd]
    simp only [Outcome.bind]
    congr 1
    have hform := hf hn
    have hreg : Regular (w.ncls * w.bin.nBands) w.binned := h
    rw [flip_of]
    refine Arr2.of_congr fun a ib ha hib => ?_
    unfold decoupleCl
    set Y := binnedInput w.ncls w.bin d.val (fun _ _ => 0) (fun _ _ => 0) with hY
    have hx := hL.solve_eq hreg (fun k => g.rowSign n1 n2 (k % w.ncls) * L.solve (w.ncls * w.bin.nBands) w.binned Y k)
      (binnedInput w.ncls w.bin (d.flip g n1 n2).val (fun _ _ => 0) (fun _ _ => 0)) ?_ (w.ncls * ib + a) (flat_lt ha hib)
    · rw [hx, Nat.mul_add_mod, Nat.mod_eq_of_lt ha]
    · intro i hi
      have hpos : 0 < w.ncls := by omega
      rw [← Nat.div_add_mod i w.ncls]
      set ib := i / w.ncls
      set a := i % w.ncls
      have ha : a < w.ncls := Nat.mod_lt _ hpos
      have hib : ib < w.bin.nBands := Nat.div_lt_of_lt_mul hi
      rw [binnedInput_apply w.ncls w.bin _ _ _ ha hib, sum_flat]
      have e1 : ∀ b ∈ range w.bin.nBands, ∑ c ∈ range w.ncls, w.binned (w.ncls * ib + a) (w.ncls * b + c) *
          (g.rowSign n1 n2 ((w.ncls * b + c) % w.ncls) * L.solve (w.ncls * w.bin.nBands) w.binned Y (w.ncls * b + c)) =
          g.rowSign n1 n2 a * ∑ c ∈ range w.ncls, w.binned (w.ncls * ib + a) (w.ncls * b + c) *
            L.solve (w.ncls * w.bin.nBands) w.binned Y (w.ncls * b + c) := by
        intro b hb
        rw [mul_sum]
        refine sum_congr rfl fun c hc => ?_
        have hF := hform ib hib b (mem_range.1 hb) a ha c (mem_range.1 hc)
        dsimp only at hF
        rw [Nat.mul_add_mod, Nat.mod_eq_of_lt (mem_range.1 hc), ← mul_assoc, ← mul_assoc, hF]
      rw [sum_congr rfl e1, ← mul_sum, ← sum_flat w.ncls w.bin.nBands fun k => w.binned (w.ncls * ib + a) k * L.solve (w.ncls * w.bin.nBands) w.binned Y k,
          hL.solve_spec _ _ _ hreg _ (flat_lt ha hib), hY, binnedInput_apply w.ncls w.bin _ _ _ ha hib, ← List.sum_map_mul_left]
      congr 1
      refine List.map_congr_left fun e _ => ?_
      simp only [Arr2.flip]
      ring
  · have e : d.rows ≠ w.ncls ∨ d.cols < w.lmax + 1 := by
      by_cases h1 : d.rows = w.ncls
      · exact Or.inr (by have := fun h2 => hs ⟨h1, h2⟩; omega)
      · exact Or.inl h1
    unfold decoupleCell
    rw [if_pos e]
    exact if_pos e

end NaMaster
