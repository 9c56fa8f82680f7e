import Verif.SkyCov.Spec
import Verif.Covar.Props
import Mathlib.MeasureTheory.Function.L1Space.Integrable

/-! # From the covariance of pseudo-spectra to that of bandpowers -/

namespace NaMaster

open Finset MeasureTheory WspSpec

section
variable {Ω : Type*} [MeasurableSpace Ω] {μ : Measure Ω}

/-- Two random variables have a covariance. -/
structure HasCovar (μ : Measure Ω) (x y : Ω → ℝ) : Prop where
  left : Integrable x μ
  right : Integrable y μ
  prod : Integrable (fun ω => x ω * y ω) μ

theorem HasCovar.symm {x y : Ω → ℝ} (h : HasCovar μ x y) : HasCovar μ y x :=
  ⟨h.right, h.left, by simpa only [mul_comm] using h.prod⟩

theorem covar_comm (x y : Ω → ℝ) : covar μ x y = covar μ y x := by
  unfold covar
  simp only [mul_comm]

theorem covar_list_left {ι : Type*} (l : List ι) (u : ι → ℝ) (x : ι → Ω → ℝ) {y : Ω → ℝ} (hy : Integrable y μ) (h : ∀ i ∈ l, HasCovar μ (x i) y) :
    HasCovar μ (fun ω => (l.map fun i => u i * x i ω).sum) y ∧
    covar μ (fun ω => (l.map fun i => u i * x i ω).sum) y = (l.map fun i => u i * covar μ (x i) y).sum := by
  induction l with
  | nil => exact ⟨⟨by simp, hy, by simp⟩, by simp [covar]⟩
  | cons a t ih =>
    obtain ⟨i1, i2⟩ := ih fun i hi => h i (List.mem_cons_of_mem _ hi)
    have ha := h a List.mem_cons_self
    have e : (fun ω => (u a * x a ω + (t.map fun i => u i * x i ω).sum) * y ω) =
        fun ω => u a * (x a ω * y ω) + (t.map fun i => u i * x i ω).sum * y ω := by funext ω; ring
    have k1 := ha.left.const_mul (u a)
    have k2 := ha.prod.const_mul (u a)
    simp only [List.map_cons, List.sum_cons]
    refine ⟨⟨k1.add i1.left, hy, by rw [e]; exact k2.add i1.prod⟩, ?_⟩
    rw [← i2]
    unfold covar
    rw [e, integral_add k2 i1.prod, integral_add k1 i1.left, integral_const_mul, integral_const_mul]
    ring

theorem covar_list {ι κ : Type*} (l : List ι) (l' : List κ) (u : ι → ℝ) (v : κ → ℝ) (x : ι → Ω → ℝ) (y : κ → Ω → ℝ)
    (hx : ∀ i ∈ l, Integrable (x i) μ) (h : ∀ i ∈ l, ∀ j ∈ l', HasCovar μ (x i) (y j)) :
    (∀ j ∈ l', Integrable (y j) μ) →
    HasCovar μ (fun ω => (l.map fun i => u i * x i ω).sum) (fun ω => (l'.map fun j => v j * y j ω).sum) ∧
    covar μ (fun ω => (l.map fun i => u i * x i ω).sum) (fun ω => (l'.map fun j => v j * y j ω).sum) =
      (l.map fun i => (l'.map fun j => u i * v j * covar μ (x i) (y j)).sum).sum := by
  intro hy
  have k : ∀ i ∈ l, HasCovar μ (x i) (fun ω => (l'.map fun j => v j * y j ω).sum) ∧
      covar μ (x i) (fun ω => (l'.map fun j => v j * y j ω).sum) = (l'.map fun j => v j * covar μ (x i) (y j)).sum := by
    intro i hi
    obtain ⟨a, b⟩ := covar_list_left l' v y (hx i hi) fun j hj => (h i hi j hj).symm
    refine ⟨a.symm, ?_⟩
    rw [covar_comm, b]
    simp only [covar_comm (x i)]
  have hy' : Integrable (fun ω => (l'.map fun j => v j * y j ω).sum) μ := by
    clear k h
    induction l' with
    | nil => simp
    | cons a t ih =>
      simp only [List.map_cons, List.sum_cons]
      exact ((hy a List.mem_cons_self).const_mul _).add (ih fun j hj => hy j (List.mem_cons_of_mem _ hj))
  obtain ⟨a, b⟩ := covar_list_left l u x hy' fun i hi => (k i hi).1
  refine ⟨a, b.trans ?_⟩
  congr 1
  refine List.map_congr_left fun i hi => ?_
  rw [(k i hi).2, ← List.sum_map_mul_left]
  congr 1
  exact List.map_congr_left fun j _ => by ring

theorem covar_sum {s t : Finset ℕ} (u v : ℕ → ℝ) (x y : ℕ → Ω → ℝ) (hx : ∀ i ∈ s, Integrable (x i) μ) (hy : ∀ j ∈ t, Integrable (y j) μ)
    (h : ∀ i ∈ s, ∀ j ∈ t, HasCovar μ (x i) (y j)) :
    HasCovar μ (fun ω => ∑ i ∈ s, u i * x i ω) (fun ω => ∑ j ∈ t, v j * y j ω) ∧
    covar μ (fun ω => ∑ i ∈ s, u i * x i ω) (fun ω => ∑ j ∈ t, v j * y j ω) = ∑ i ∈ s, ∑ j ∈ t, u i * v j * covar μ (x i) (y j) := by
  have := covar_list (μ := μ) s.toList t.toList u v x y (by simpa using hx) (by simpa using h) (by simpa using hy)
  simpa only [Finset.sum_map_toList] using this

end

section
variable {Ω : Type*} [MeasurableSpace Ω] {μ : Measure Ω} {L : LinAlg ℝ} {jk : CovJunk ℝ} {cw : CovWsp ℝ} {a1 a2 b1 b2 : ℤ} {s : CovCls ℝ}
  {oa ob : Obj ℝ} {a b : Wsp ℝ}

theorem covElement_pre (cw : CovWsp ℝ) (m : Maps) (s : CovCls ℝ) (ia ib ic id la lb : ℕ) (pre : ℝ) :
    covElement cw m s ia ib ic id la lb pre = pre * covElement cw m s ia ib ic id la lb 1 := by
  rw [covElement_eq, covElement_eq]
  ring

/-- If the elements of the coupled covariance are the covariances of the pseudo-spectra, those of the decoupled one are the covariances of
the bandpowers. -/
theorem decoupled_exact (hL : L.Correct) (hoa : oa.wsp = some a) (hob : ob.wsp = some b) (hA : Bounded a.bin a.bin.ellMax)
    (hB : Bounded b.bin b.bin.ellMax) (hra : Regular a.nBinned a.binned) (hrb : Regular b.nBinned b.binned) {Cov : Arr2 ℝ}
    (h : gaussianCovariance L jk (some cw) a1 a2 b1 b2 s oa (some ob) false = .ok Cov) (P Q : Ω → ℕ → ℕ → ℝ)
    (hP : ∀ k < a.ncls, ∀ e ∈ a.bin.bands.flatten, Integrable (fun ω => P ω k e.ell) μ)
    (hQ : ∀ k < b.ncls, ∀ e ∈ b.bin.bands.flatten, Integrable (fun ω => Q ω k e.ell) μ)
    (hPQ : ∀ ia < nmaps a1, ∀ ib < nmaps a2, ∀ ic < nmaps b1, ∀ id < nmaps b2, ∀ e ∈ a.bin.bands.flatten, ∀ e' ∈ b.bin.bands.flatten,
      Integrable (fun ω => P ω (ib + nmaps a2 * ia) e.ell * Q ω (id + nmaps b2 * ic) e'.ell) μ ∧
      covar μ (fun ω => P ω (ib + nmaps a2 * ia) e.ell) (fun ω => Q ω (id + nmaps b2 * ic) e'.ell) =
        covElement cw (Maps.ofSpins a1 a2 b1 b2) s ia ib ic id e.ell e'.ell 1)
    {k k' bA bB : ℕ} (hk : k < a.ncls) (hk' : k' < b.ncls) (hbA : bA < a.bin.nBands) (hbB : bB < b.bin.nBands) :
    Cov.val (a.ncls * bA + k) (b.ncls * bB + k') =
      covar μ (fun ω => decoupleCl L a.ncls a.bin a.binned (P ω) (fun _ _ => 0) (fun _ _ => 0) k bA)
        (fun ω => decoupleCl L b.ncls b.bin b.binned (Q ω) (fun _ _ => 0) (fun _ _ => 0) k' bB) := by
  obtain ⟨hcon, eC⟩ := call_result hoa hob hA hB h
  rw [if_neg (by simp)] at eC
  have hra' : Regular (a.ncls * a.bin.nBands) a.binned := hra
  have hrb' : Regular (b.ncls * b.bin.nBands) b.binned := hrb
  have hv : Cov.val (a.ncls * bA + k) (b.ncls * bB + k') = decoupledElt L jk.mat cw (Maps.ofSpins a1 a2 b1 b2) a b s (a.ncls * bA + k) (b.ncls * bB + k') := by
    rw [eC]
    exact Arr2.of_val _ (flat_lt hk hbA) (flat_lt hk' hbB)
  rw [hv]
  unfold decoupleCl
  simp only [hL.solve_invert hra' _ _ (flat_lt hk hbA), hL.solve_invert hrb' _ _ (flat_lt hk' hbB)]
  have e1 : ∀ (B : Bins ℝ) (n : ℕ) (R : ℕ → ℕ → ℝ) (j : ℕ), j < n * B.nBands → binnedInput n B R (fun _ _ => 0) (fun _ _ => 0) j =
      ((B.band (j / n)).map fun e => e.w * e.f * R (j % n) e.ell).sum := by
    intro B n R j hj
    have hn : 0 < n := by by_contra h; simp [Nat.eq_zero_of_not_pos h] at hj
    have e : j = n * (j / n) + j % n := (Nat.div_add_mod _ _).symm
    conv_lhs => rw [e]
    rw [binnedInput_apply n B _ _ _ (Nat.mod_lt j hn) (Nat.div_lt_of_lt_mul hj)]
    congr 1
    refine List.map_congr_left fun x _ => ?_
    ring
  have hna : ∀ j ∈ range (a.ncls * a.bin.nBands), j % a.ncls < a.ncls ∧ j / a.ncls < a.bin.nBands := by
    intro j hj
    rw [mem_range] at hj
    have hn : 0 < a.ncls := by omega
    exact ⟨Nat.mod_lt _ hn, Nat.div_lt_of_lt_mul hj⟩
  have hnb : ∀ j ∈ range (b.ncls * b.bin.nBands), j % b.ncls < b.ncls ∧ j / b.ncls < b.bin.nBands := by
    intro j hj
    rw [mem_range] at hj
    have hn : 0 < b.ncls := by omega
    exact ⟨Nat.mod_lt _ hn, Nat.div_lt_of_lt_mul hj⟩
  have key : ∀ i ∈ range (a.ncls * a.bin.nBands), ∀ j ∈ range (b.ncls * b.bin.nBands),
      HasCovar μ (fun ω => binnedInput a.ncls a.bin (P ω) (fun _ _ => 0) (fun _ _ => 0) i)
        (fun ω => binnedInput b.ncls b.bin (Q ω) (fun _ _ => 0) (fun _ _ => 0) j) ∧
      covar μ (fun ω => binnedInput a.ncls a.bin (P ω) (fun _ _ => 0) (fun _ _ => 0) i)
        (fun ω => binnedInput b.ncls b.bin (Q ω) (fun _ _ => 0) (fun _ _ => 0) j) = covBinned jk.mat cw (Maps.ofSpins a1 a2 b1 b2) a b s i j := by
    intro i hi j hj
    obtain ⟨m1, d1⟩ := hna i hi
    obtain ⟨m2, d2⟩ := hnb j hj
    rw [mem_range] at hi hj
    simp only [fun ω => e1 a.bin a.ncls (P ω) i hi, fun ω => e1 b.bin b.ncls (Q ω) j hj]
    obtain ⟨ia, ib, g1, g2, ei⟩ := split_row (i := i) hcon.wspA (nmaps_pos a1) (nmaps_pos a2)
    obtain ⟨ic, id, g3, g4, ej⟩ := split_row (i := j) hcon.wspB (nmaps_pos b1) (nmaps_pos b2)
    have ri : i % a.ncls = ib + nmaps a2 * ia := by have := Nat.div_add_mod i a.ncls; omega
    have rj : j % b.ncls = id + nmaps b2 * ic := by have := Nat.div_add_mod j b.ncls; omega
    have hp := fun e he => hP (i % a.ncls) m1 e (mem_bands d1 he)
    have hq := fun e he => hQ (j % b.ncls) m2 e (mem_bands d2 he)
    obtain ⟨c1, c2⟩ := covar_list (μ := μ) (a.bin.band (i / a.ncls)) (b.bin.band (j / b.ncls)) (fun e => e.w * e.f) (fun e => e.w * e.f)
      (fun e ω => P ω (i % a.ncls) e.ell) (fun e ω => Q ω (j % b.ncls) e.ell) hp
      (fun e he e' he' => ⟨hp e he, hq e' he', by
        rw [ri, rj]
        exact (hPQ ia g1 ib g2 ic g3 id g4 e (mem_bands d1 he) e' (mem_bands d2 he')).1⟩) hq
    refine ⟨c1, c2.trans ?_⟩
    conv_rhs => rw [ei, ej]
    refine Eq.trans ?_ (covBinned_apply jk.mat cw (Maps.ofSpins a1 a2 b1 b2) a b s hcon.wspA hcon.wspB g1 g2 g3 g4 d1 d2).symm
    unfold binnedSum
    congr 1
    refine List.map_congr_left fun e he => ?_
    congr 1
    refine List.map_congr_left fun e' he' => ?_
    rw [ri, rj, (hPQ ia g1 ib g2 ic g3 id g4 e (mem_bands d1 he) e' (mem_bands d2 he')).2, covElement_pre _ _ _ _ _ _ _ _ _ (e.w * e.f * e'.w * e'.f)]
    ring
  by_cases hz : a.ncls * a.bin.nBands = 0 ∨ b.ncls * b.bin.nBands = 0
  · exfalso
    rcases hz with hz | hz
    · exact absurd (flat_lt hk hbA) (by omega)
    · exact absurd (flat_lt hk' hbB) (by omega)
  push Not at hz
  have i0 : 0 ∈ range (a.ncls * a.bin.nBands) := mem_range.2 (by omega)
  have j0 : 0 ∈ range (b.ncls * b.bin.nBands) := mem_range.2 (by omega)
  rw [(covar_sum _ _ _ _ (fun i hi => (key i hi 0 j0).1.left) (fun j hj => (key 0 i0 j hj).1.right) fun i hi j hj => (key i hi j hj).1).2]
  unfold decoupledElt
  refine sum_congr rfl fun i hi => ?_
  rw [mul_sum]
  refine sum_congr rfl fun j hj => ?_
  rw [(key i hi j hj).2]
  ring

end

end NaMaster
