import Verif.Units.Field
import Verif.Sky.Workspace

/-!
# Coupling matrices for a mask spectrum that has been multiplied by a number
-/

namespace NaMaster

open Finset

section
variable {ι : Type*} [DecidableEq ι]

/-- Assignments whose values are multiplied by `k`. -/
def scaleWrites (k : ℝ) (ws : List (ι × ℝ)) : List (ι × ℝ) := ws.map fun x => (x.1, k * x.2)

theorem runWrites_scale (k : ℝ) (ws : List (ι × ℝ)) (init : ι → ℝ) :
    runWrites (scaleWrites k ws) (fun i => k * init i) = fun i => k * runWrites ws init i := by
  unfold runWrites scaleWrites
  induction ws generalizing init with
  | nil => rfl
  | cons a t ih =>
    rw [List.map_cons, List.foldl_cons, List.foldl_cons, ← ih]
    congr 1
    funext i
    by_cases h : i = a.1
    · subst h; simp
    · simp [Function.update_of_ne h]

theorem runWrites_scale_zero (k : ℝ) (ws : List (ι × ℝ)) : runWrites (scaleWrites k ws) (fun _ => 0) = fun i => k * runWrites ws (fun _ => 0) i := by
  have := runWrites_scale k ws fun _ => 0
  simpa using this

theorem scaleWrites_flatMap {α : Type*} (k : ℝ) (l : List α) (f : α → List (ι × ℝ)) :
    scaleWrites k (l.flatMap f) = l.flatMap fun x => scaleWrites k (f x) := by
  unfold scaleWrites
  rw [List.map_flatMap]

end

section
variable (W : Wigner) (lf : ℕ → ℝ) (c : Calc) (pcl : ℕ → ℝ) (k : ℝ)

theorem sumMask_scale (lm l2 l3 : ℕ) (f : ℕ → ℝ) : sumMask lm l2 l3 (fun l => k * f l) = k * sumMask lm l2 l3 f := by
  unfold sumMask
  rw [mul_sum]
  refine sum_congr rfl fun l _ => ?_
  split_ifs <;> simp

theorem entry00_scale : entry00 lf c (fun l => k * pcl l) = fun l2 l3 => k * entry00 lf c pcl l2 l3 := by
  funext l2 l3
  unfold entry00
  rw [← sumMask_scale]
  congr 1; funext l; ring

theorem entry0s_scale (ip : ℕ) : entry0s W lf c (fun l => k * pcl l) ip = fun l2 l3 => k * entry0s W lf c pcl ip l2 l3 := by
  funext l2 l3
  unfold entry0s
  rw [← sumMask_scale]
  congr 1; funext l; split_ifs <;> ring

theorem wfacSs_scale (ip l1 l2 l3 : ℕ) : wfacSs W c (fun l => k * pcl l) ip l1 l2 l3 = k * wfacSs W c pcl ip l1 l2 l3 := by
  unfold wfacSs
  split_ifs <;> ring

theorem entryPP_scale (ip : ℕ) : entryPP W c (fun l => k * pcl l) ip = fun l2 l3 => k * entryPP W c pcl ip l2 l3 := by
  funext l2 l3
  unfold entryPP
  rw [← sumMask_scale]
  congr 1; funext l; rw [wfacSs_scale]; split_ifs <;> ring

theorem entryMM_scale (ip : ℕ) : entryMM W c (fun l => k * pcl l) ip = fun l2 l3 => k * entryMM W c pcl ip l2 l3 := by
  funext l2 l3
  unfold entryMM
  rw [← sumMask_scale]
  congr 1; funext l; rw [wfacSs_scale]; split_ifs <;> ring

end

/-! ## Toeplitz approximation -/

section
variable {k : ℝ} (hk : 0 < k) (lstart lmax : ℕ) (entry : ℕ → ℕ → ℝ)

theorem mainWrites_scale (k : ℝ) (pureAny : Bool) (lend : ℕ → ℕ) :
    mainWrites lstart lmax pureAny lend (fun l2 l3 => k * entry l2 l3) = scaleWrites k (mainWrites lstart lmax pureAny lend entry) := by
  unfold mainWrites
  rw [scaleWrites_flatMap]
  congr 1; funext l2
  rw [scaleWrites_flatMap]
  congr 1; funext l3
  unfold scaleWrites
  split_ifs <;> rfl

include hk

theorem tplzDiag_scale (l : ℕ) : tplzDiag lstart lmax (fun l2 l3 => k * entry l2 l3) l = k * tplzDiag lstart lmax entry l := by
  unfold tplzDiag
  split_ifs
  · rw [abs_mul, abs_of_pos hk]
  · rw [mul_zero]

theorem sqrt_scale (x y : ℝ) : Real.sqrt (k * x * (k * y)) = k * Real.sqrt (x * y) := by
  rw [show k * x * (k * y) = k ^ 2 * (x * y) by ring, Real.sqrt_mul (by positivity), Real.sqrt_sq hk.le]

theorem tplzCol_scale (lt l : ℕ) : tplzCol lstart lmax lt (fun l2 l3 => k * entry l2 l3) l = tplzCol lstart lmax lt entry l := by
  unfold tplzCol
  dsimp only
  rw [tplzDiag_scale hk, tplzDiag_scale hk, sqrt_scale hk]
  have h : ∀ x : ℝ, 0 < k * x ↔ 0 < x := fun x => ⟨fun h => (mul_pos_iff_of_pos_left hk).1 h, fun h => mul_pos hk h⟩
  simp only [h]
  split_ifs with h1 h2
  · rw [mul_div_mul_left _ _ hk.ne']
  · simp
  · rfl

theorem tplzWrites_scale (lt : ℕ) : tplzWrites lstart lmax lt (fun l2 l3 => k * entry l2 l3) = scaleWrites k (tplzWrites lstart lmax lt entry) := by
  unfold tplzWrites
  rw [scaleWrites_flatMap]
  congr 1; funext l2
  rw [scaleWrites_flatMap]
  congr 1; funext l3
  dsimp only
  rw [tplzCol_scale hk, tplzDiag_scale hk, tplzDiag_scale hk, sqrt_scale hk]
  have : ∀ x y : ℝ, x * (k * y) = k * (x * y) := fun x y => by ring
  rw [this]
  unfold scaleWrites
  split_ifs <;> rfl

theorem fillStep_scale (lE : ℕ) (mat : ℕ × ℕ → ℝ) (p : ℕ × ℕ) : fillStep lE (fun q => k * mat q) p = fun q => k * fillStep lE mat p q := by
  unfold fillStep
  dsimp only
  have hz : ∀ x : ℝ, k * x = 0 ↔ x = 0 := fun x => by rw [mul_eq_zero]; exact or_iff_right hk.ne'
  simp only [hz]
  set lx := lE + p.1 - p.2
  have hv : (if mat (lx, lx) = 0 ∨ mat (lE, lE) = 0 then 0 else k * mat (lx, lE) *
      Real.sqrt |k * mat (p.1, p.1) * (k * mat (p.2, p.2)) / (k * mat (lx, lx) * (k * mat (lE, lE)))|) =
      k * if mat (lx, lx) = 0 ∨ mat (lE, lE) = 0 then 0 else mat (lx, lE) * Real.sqrt |mat (p.1, p.1) * mat (p.2, p.2) / (mat (lx, lx) * mat (lE, lE))| := by
    split_ifs with h
    · rw [mul_zero]
    · push Not at h
      have : k * mat (p.1, p.1) * (k * mat (p.2, p.2)) / (k * mat (lx, lx) * (k * mat (lE, lE))) =
          mat (p.1, p.1) * mat (p.2, p.2) / (mat (lx, lx) * mat (lE, lE)) := by
        obtain ⟨h1, h2⟩ := h
        field_simp
      rw [this]; ring
  rw [hv]
  funext q
  by_cases h2 : q = (p.2, p.1)
  · subst h2; simp
  rw [Function.update_of_ne h2, Function.update_of_ne h2]
  by_cases h1 : q = (p.1, p.2)
  · subst h1; simp
  rw [Function.update_of_ne h1, Function.update_of_ne h1]

theorem fill_scale (lE : ℕ) (l : List (ℕ × ℕ)) (mat : ℕ × ℕ → ℝ) :
    l.foldl (fillStep lE) (fun q => k * mat q) = fun q => k * l.foldl (fillStep lE) mat q := by
  induction l generalizing mat with
  | nil => rfl
  | cons p t ih => rw [List.foldl_cons, List.foldl_cons, fillStep_scale hk, ih]

theorem coefTable_scale (pureAny : Bool) (lT lE dl : ℤ) :
    coefTable lstart lmax pureAny lT lE dl (fun l2 l3 => k * entry l2 l3) = fun q => k * coefTable lstart lmax pureAny lT lE dl entry q := by
  unfold coefTable
  dsimp only
  split_ifs
  · rw [tplzWrites_scale hk, mainWrites_scale, runWrites_scale_zero, runWrites_scale, fill_scale hk]
  · rw [mainWrites_scale, runWrites_scale_zero]

end

/-! ## The matrix -/

theorem matrixWrites_scale (k : ℝ) (ncls lmax : ℕ) (cells : ℕ → ℕ → List ((ℕ × ℕ) × ℝ)) :
    matrixWrites ncls lmax (fun a b => scaleWrites k (cells a b)) = scaleWrites k (matrixWrites ncls lmax cells) := by
  unfold matrixWrites
  rw [scaleWrites_flatMap]
  congr 1; funext l2
  rw [scaleWrites_flatMap]
  congr 1; funext l3
  unfold scaleWrites
  rw [List.map_map, List.map_map]
  rfl

theorem matrix_scale (W : Wigner) (a : CouplingArgs) (lmax : ℕ) (pcl : ℕ → ℝ) {k : ℝ} (hk : 0 < k) :
    a.matrix W lmax (fun l => k * pcl l) = fun i j => k * a.matrix W lmax pcl i j := by
  have hc : a.cells W lmax (fun l => k * pcl l) = fun x y => scaleWrites k (a.cells W lmax pcl x y) := by
    funext l2 l3
    unfold CouplingArgs.cells CouplingArgs.xi
    dsimp only
    simp only [entry00_scale, entry0s_scale, entryPP_scale, entryMM_scale, coefTable_scale hk]
    have e1 : ∀ f x : ℝ, f * (k * x) = k * (f * x) := fun f x => by ring
    have e2 : ∀ f x : ℝ, -f * (k * x) = k * (-f * x) := fun f x => by ring
    simp only [e1]
    split_ifs <;> rfl
  funext i j
  unfold CouplingArgs.matrix
  rw [hc, matrixWrites_scale, runWrites_scale_zero]

/-- What happens to a workspace when the spectrum of the masks is multiplied by `k`. -/
noncomputable def Wsp.rescale (k : ℝ) (w : Wsp ℝ) : Wsp ℝ :=
  { w with
    w2 := k * w.w2
    pclMasks := fun l => k * w.pclMasks l
    unbinned := w.unbinned.map fun U i j => k * U i j
    binned := fun i j => k * w.binned i j }

theorem tab2_scale (k : ℝ) (n m : ℕ) (f : ℕ → ℕ → ℝ) : tab2 n m (fun i j => k * f i j) = fun i j => k * tab2 n m f i j := by
  funext i j
  unfold tab2
  split_ifs <;> simp

theorem tab_scale (k : ℝ) (n : ℕ) (f : ℕ → ℝ) : tab n (fun i => k * f i) = fun i => k * tab n f i := by
  funext i
  unfold tab
  split_ifs <;> simp

theorem binMatrix_scale (k : ℝ) (ncls : ℕ) (nt : ℤ) (w2 : ℝ) (beam : ℕ → ℝ) (B : Bins ℝ) (U : ℕ → ℕ → ℝ) :
    binMatrix ncls nt (k * w2) beam B (fun i j => k * U i j) = fun i j => k * binMatrix ncls nt w2 beam B U i j := by
  have h : binnedWrites ncls nt (k * w2) beam B (fun i j => k * U i j) = scaleWrites k (binnedWrites ncls nt w2 beam B U) := by
    unfold binnedWrites
    rw [scaleWrites_flatMap]
    congr 1; funext a
    rw [scaleWrites_flatMap]
    congr 1; funext b
    rw [scaleWrites_flatMap]
    congr 1; funext i2
    unfold scaleWrites
    rw [List.map_map]
    congr 1; funext i3
    simp only [Function.comp]
    congr 1
    unfold binnedElement
    split_ifs
    · rw [← List.sum_map_mul_left]
      congr 1
      refine List.map_congr_left fun e _ => ?_
      rw [← List.sum_map_mul_left]
      congr 1
      refine List.map_congr_left fun e' _ => ?_
      ring
    · rfl
    · rw [mul_zero]
  funext i j
  unfold binMatrix
  rw [h, runWrites_scale_zero]

theorem buildWsp_scale (k : ℝ) (ncls lF lM : ℕ) (teb : Bool) (nt : ℤ) (w2 : ℝ) (b1 b2 pcl : ℕ → ℝ) (U : ℕ → ℕ → ℝ) (B : Bins ℝ) :
    buildWsp ncls lF lM teb nt (k * w2) b1 b2 (fun l => k * pcl l) (fun i j => k * U i j) B =
      (buildWsp ncls lF lM teb nt w2 b1 b2 pcl U B).rescale k := by
  unfold buildWsp Wsp.rescale
  dsimp only
  rw [tab2_scale, binMatrix_scale, tab_scale]
  rfl

theorem compCouplingMatrix_scale (W : Wigner) (a : CouplingArgs) (lF : ℕ) (f : ℕ → ℝ) (b1 b2 : List ℝ) (B : Bins ℝ) (nt : ℤ) (w2 : ℝ) {k : ℝ}
    (hk : 0 < k) (n : ℕ) :
    compCouplingMatrix W a lF ((List.range n).map fun l => k * f l) b1 b2 B nt (k * w2) =
      (compCouplingMatrix W a lF ((List.range n).map f) b1 b2 B nt w2).bind fun w => .ok (w.rescale k) := by
  unfold compCouplingMatrix computeCouplingMatrix
  simp only [List.length_map]
  have hp : ∀ l, ((List.range n).map fun l => k * f l).getD l 0 = k * ((List.range n).map f).getD l 0 := by
    intro l
    simp only [List.getD_eq_getElem?_getD, List.getElem?_map]
    cases (List.range n)[l]? <;> simp
  have hs : (tab (a.lmaxMask + 1) (scalePcl fun l => ((List.range n).map fun l => k * f l).getD l 0)) =
      fun l => k * tab (a.lmaxMask + 1) (scalePcl fun l => ((List.range n).map f).getD l 0) l := by
    rw [← tab_scale]
    congr 1
    funext l
    unfold scalePcl
    dsimp only
    rw [hp]; ring
  rw [hs, matrix_scale W a _ _ hk, buildWsp_scale]
  split_ifs <;> rfl

end NaMaster
