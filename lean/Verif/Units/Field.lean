import Verif.Field.Pinv
import Verif.Field.Deproj
import Verif.Field.Spectra

/-!
# Fields whose mask has been multiplied by a number
-/

namespace NaMaster

open Finset

/-! ## Specification -/

/-- The transforms and the padding of maps commute with the multiplication by numbers (they are linear). -/
structure Sht.Homogeneous (S : Sht) : Prop where
  anal : ∀ s l (c : ℝ) m, S.m2a s l (c • m) = c • S.m2a s l m
  synth : ∀ s l (c : ℝ) a, S.a2m s l (c • a) = c • S.a2m s l a
  pad : ∀ (c : ℝ) m, S.pad (c • m) = c • S.pad m
  unpad : ∀ (c : ℝ) m, S.unpad (c • m) = c • S.unpad m

/-- The same call of the constructor with the mask multiplied by `c`. -/
def FieldArgs.rescale (c : ℝ) (a : FieldArgs) : FieldArgs := { a with mask := fun p => c * a.mask p }

/-- The call has an isotropic mask, maps that have not been multiplied by the mask, and a positive tolerance. -/
structure PlainCall (a : FieldArgs) : Prop where
  iso22 : a.mask22 = none
  iso12 : a.mask12 = none
  unmasked : a.maskedOnInput = false
  tol : 0 < a.tol

/-- What happens to the attributes of a field when the mask is multiplied by `c`. -/
noncomputable def FieldObj.rescale (c : ℝ) (f : FieldObj) : FieldObj :=
  { f with
    mask := fun p => c * f.mask p
    alm := f.alm.map (Option.map fun a => c • a)
    maps := f.maps.map (Option.map fun a => c • a)
    temp := f.temp.map fun t i => c • t i
    almTemp := f.almTemp.map fun t i => c • t i
    iM := f.iM.map (Option.map fun P i j => P i j / c ^ 2) }

/-! ## Transforms -/

theorem jacobi_smul {A : MapStack → Alms} {B : Alms → MapStack} (hA : ∀ (c : ℝ) m, A (c • m) = c • A m) (hB : ∀ (c : ℝ) m, B (c • m) = c • B m)
    (c : ℝ) (m : MapStack) (n : ℕ) : jacobi A B (c • m) n = c • jacobi A B m n := by
  induction n with
  | zero => exact hA c m
  | succ n ih => unfold jacobi; rw [ih, hB, ← smul_sub, hA, ← smul_sub]

theorem transform_smul {S : Sht} (h : S.Homogeneous) (s : ℤ) (l n : ℕ) (c : ℝ) (m : MapStack) :
    S.map2alm s l n (c • m) = c • S.map2alm s l n m := by
  unfold Sht.map2alm
  rw [h.pad, jacobi_smul (h.anal s l) (h.synth s l)]

theorem alm2map_smul {S : Sht} (h : S.Homogeneous) (s : ℤ) (l : ℕ) (c : ℝ) (m : Alms) : S.alm2map s l (c • m) = c • S.alm2map s l m := by
  unfold Sht.alm2map
  rw [h.synth, h.unpad]

theorem single_smul (c : ℝ) (m : ℕ → ℝ) : single (fun p => c * m p) = c • single m := by
  funext k p
  simp only [single, Pi.smul_apply, smul_eq_mul]
  split_ifs <;> simp

theorem maskAlms_smul {S : Sht} (h : S.Homogeneous) (l n : ℕ) (c : ℝ) (m : ℕ → ℝ) : maskAlms S l n (fun p => c * m p) = c • maskAlms S l n m := by
  unfold maskAlms
  rw [single_smul, transform_smul h]
  rfl

theorem almxfl_smul (c : ℝ) (a : ℕ → ℕ → ℂ) (f : ℕ → ℝ) : almxfl (c • a) f = c • almxfl a f := by
  funext l m
  simp only [almxfl, Pi.smul_apply, Complex.real_smul]
  ring

theorem spinProduct_smul (c : ℝ) (w m : MapStack) : spinProduct (c • w) m = c • spinProduct w m := by
  funext k p
  simp only [spinProduct, Pi.smul_apply, smul_eq_mul]
  split_ifs <;> ring

theorem spinProduct_smul' (c : ℝ) (w m : MapStack) : spinProduct w (c • m) = c • spinProduct w m := by
  funext k p
  simp only [spinProduct, Pi.smul_apply, smul_eq_mul]
  split_ifs <;> ring

theorem first_smul (c : ℝ) (a : ℕ → ℕ → ℂ) : (fun k => if k = 0 then c • a else fun _ _ => 0 : Alms) = c • (fun k => if k = 0 then a else fun _ _ => 0) := by
  funext k l m
  simp only [Pi.smul_apply]
  split_ifs <;> simp

theorem single_comp (c : ℝ) (m : MapStack) (k : ℕ) : single ((c • m) k) = c • single (m k) := by
  funext j p
  simp only [single, Pi.smul_apply]
  split_ifs <;> simp

/-! ## Purification -/

/-- Both results of `_purify` multiplied by `c`. -/
noncomputable def scalePair (c : ℝ) (r : Alms × MapStack) : Alms × MapStack := (c • r.1, c • r.2)

theorem purify_smul {S : Sht} (h : S.Homogeneous) (lmax lm n : ℕ) (c : ℝ) (mask : ℕ → ℝ) (am : ℕ → ℕ → ℂ) (pe pb : Bool) (maps : MapStack) :
    purify S lmax lm n (fun p => c * mask p) (c • am) pe pb maps =
      (purify S lmax lm n mask am pe pb maps).bind fun r => .ok (scalePair c r) := by
  unfold purify
  dsimp only
  have e1 : (fun k p => maps k p * (c * mask p) : MapStack) = c • fun k p => maps k p * mask p := by
    funext k p; simp only [Pi.smul_apply, smul_eq_mul]; ring
  rw [e1, transform_smul h, almxfl_smul, first_smul, alm2map_smul h, spinProduct_smul, transform_smul h, almxfl_smul, first_smul,
    alm2map_smul h, spinProduct_smul]
  split_ifs
  · rfl
  · simp only [Outcome.bind, scalePair]
    have key : ∀ X Y : Alms, ∀ Z : MapStack, (fun k l m => (c • X) k l m + if (k = 0 ∧ pe = true) ∨ (k = 1 ∧ pb = true) then
        almxfl ((c • Y) k) flPure1 l m + almxfl (S.map2alm 0 lmax n (single ((c • Z) k)) 0) flPure2 l m else 0 : Alms) =
        c • fun k l m => X k l m + if (k = 0 ∧ pe = true) ∨ (k = 1 ∧ pb = true) then
        almxfl (Y k) flPure1 l m + almxfl (S.map2alm 0 lmax n (single (Z k)) 0) flPure2 l m else 0 := by
      intro X Y Z
      funext k l m
      rw [single_comp, transform_smul h]
      simp only [Pi.smul_apply, almxfl, Complex.real_smul]
      split_ifs <;> ring
    rw [key, alm2map_smul h]

/-! ## Pseudo-inverse -/

theorem symm_smul {n : ℕ} {M : ℕ → ℕ → ℝ} (k : ℝ) (h : SymmMat n M) : SymmMat n fun i j => k * M i j := fun i hi j hj => by
  change k * M i j = k * M j i
  rw [h i hi j hj]

section
variable {E : Eigen} {n : ℕ} {M : ℕ → ℕ → ℝ} {k : ℝ}

theorem column_scaled (hE : E.Correct) (hs : SymmMat n M) (hk : 0 < k) (i : ℕ) (hi : i < n) :
    EigenPair n M (E.vals n (fun i j => k * M i j) i / k) (fun r => E.vecs n (fun i j => k * M i j) r i) := by
  obtain ⟨h1, h2⟩ := column_pair hE (symm_smul k hs) i hi
  refine ⟨h1, fun r hr => ?_⟩
  have := h2 r hr
  unfold mulVecN at this ⊢
  rw [div_mul_eq_mul_div, eq_div_iff hk.ne', ← this, sum_mul]
  exact sum_congr rfl fun j _ => by ring

theorem vals_scaled (hE : E.Correct) (hs : SymmMat n M) (hk : 0 < k) (i : ℕ) (hi : i < n) :
    ∃ j < n, E.vals n (fun i j => k * M i j) i = k * E.vals n M j := by
  obtain ⟨j, hj, h⟩ := pair_is_column hE hs (column_scaled hE hs hk i hi)
  exact ⟨j, hj, by rw [h]; field_simp⟩

theorem vals_unscaled (hE : E.Correct) (hs : SymmMat n M) (k : ℝ) (i : ℕ) (hi : i < n) :
    ∃ j < n, E.vals n (fun i j => k * M i j) j = k * E.vals n M i := by
  refine pair_is_column hE (symm_smul k hs) (x := fun r => E.vecs n M r i) ?_
  obtain ⟨h1, h2⟩ := column_pair hE hs i hi
  refine ⟨h1, fun r hr => ?_⟩
  have := h2 r hr
  unfold mulVecN at this ⊢
  rw [mul_assoc, ← this, mul_sum]
  exact sum_congr rfl fun j _ => by ring

theorem max_scaled (hE : E.Correct) (hs : SymmMat n M) (hk : 0 < k) (hn : 0 < n) :
    maxUpTo (E.vals n fun i j => k * M i j) (n - 1) = k * maxUpTo (E.vals n M) (n - 1) := by
  obtain ⟨a, ha, ea⟩ := maxUpTo_mem (E.vals n fun i j => k * M i j) (n - 1)
  obtain ⟨b, hb, eb⟩ := maxUpTo_mem (E.vals n M) (n - 1)
  apply le_antisymm
  · obtain ⟨j, hj, e⟩ := vals_scaled hE hs hk a (by omega)
    rw [ea, e]
    exact mul_le_mul_of_nonneg_left (le_maxUpTo _ _ _ (by omega)) hk.le
  · obtain ⟨j, hj, e⟩ := vals_unscaled hE hs k b (by omega)
    rw [eb, ← e]
    exact le_maxUpTo _ _ _ (by omega)

/-- A function of the eigenvalues gives a matrix that does not depend on the choice of eigenvectors. -/
theorem calculus_scaled (hE : E.Correct) (hs : SymmMat n M) (hk : 0 < k) (g g' : ℝ → ℝ) (hg : ∀ x, g' (k * x) = g x) (i j : ℕ) (hi : i < n)
    (hj : j < n) :
    ∑ r ∈ range n, E.vecs n (fun i j => k * M i j) i r * (g' (E.vals n (fun i j => k * M i j) r) * E.vecs n (fun i j => k * M i j) j r) =
      ∑ r ∈ range n, E.vecs n M i r * (g (E.vals n M r) * E.vecs n M j r) := by
  set M' : ℕ → ℕ → ℝ := fun i j => k * M i j with hM'
  set U : ℕ → ℕ → ℝ := fun s r => eigCoef E n M (fun q => E.vecs n M' q r) s with hU
  have hUz : ∀ s < n, ∀ r < n, g' (E.vals n M' r) * U s r = g (E.vals n M s) * U s r := by
    intro s hs' r hr
    by_cases h : E.vals n M s = E.vals n M' r / k
    · rw [← hg, h, mul_div_cancel₀ _ hk.ne']
    · rw [hU]
      dsimp only
      rw [eigCoef_zero hE hs (column_scaled hE hs hk r hr) s hs' h]
      ring
  have hexp : ∀ q < n, ∀ r, E.vecs n M' q r = ∑ s ∈ range n, E.vecs n M q s * U s r := by
    intro q hq r
    have := eig_expand hE hs (fun q => E.vecs n M' q r) q hq
    rw [this]
  have hUU : ∀ s < n, ∀ q < n, ∑ r ∈ range n, U s r * E.vecs n M' q r = E.vecs n M q s := by
    intro s hs' q hq
    rw [hU]
    simp only [eigCoef, sum_mul]
    rw [sum_comm]
    have e : ∀ x ∈ range n, ∑ r ∈ range n, E.vecs n M x s * E.vecs n M' x r * E.vecs n M' q r = E.vecs n M x s * if x = q then 1 else 0 := by
      intro x hx
      rw [← (hE n M' (symm_smul k hs)).2.2 x (mem_range.1 hx) q hq, mul_sum]
      exact sum_congr rfl fun r _ => by ring
    rw [sum_congr rfl e]
    simp only [mul_ite, mul_one, mul_zero]
    rw [sum_ite_eq', if_pos (mem_range.2 hq)]
  have h1 : ∀ r ∈ range n, E.vecs n M' i r * (g' (E.vals n M' r) * E.vecs n M' j r) =
      ∑ s ∈ range n, E.vecs n M i s * (g (E.vals n M s) * (U s r * E.vecs n M' j r)) := by
    intro r hr
    rw [hexp i hi r, sum_mul]
    refine sum_congr rfl fun s hs' => ?_
    have := hUz s (mem_range.1 hs') r (mem_range.1 hr)
    calc E.vecs n M i s * U s r * (g' (E.vals n M' r) * E.vecs n M' j r) =
        E.vecs n M i s * (g' (E.vals n M' r) * U s r) * E.vecs n M' j r := by ring
      _ = _ := by rw [this]; ring
  rw [sum_congr rfl h1, sum_comm]
  refine sum_congr rfl fun s hs' => ?_
  rw [← mul_sum, ← mul_sum, hUU s (mem_range.1 hs') j hj]

open Classical in
theorem pinvh_scaled (hE : E.Correct) (hs : SymmMat n M) (hk : 0 < k) (hn : 0 < n) (inv : ℕ → (ℕ → ℕ → ℝ) → Option (ℕ → ℕ → ℝ)) {tol : ℝ}
    (ht : 0 < tol) :
    pinvh E inv n (fun i j => k * M i j) tol = (pinvh E inv n M tol).bind fun P => .ok (P.map fun P i j => P i j / k) := by
  unfold pinvh
  rw [if_neg (by linarith), if_neg (by linarith)]
  simp only [Outcome.bind]
  congr 1
  unfold spectralInverse
  have hm := max_scaled hE hs hk hn
  have hcond : (∃ r ∈ range n, E.vals n (fun i j => k * M i j) r ≥ tol * maxUpTo (E.vals n fun i j => k * M i j) (n - 1) ∧
      E.vals n (fun i j => k * M i j) r = 0) ↔ ∃ r ∈ range n, E.vals n M r ≥ tol * maxUpTo (E.vals n M) (n - 1) ∧ E.vals n M r = 0 := by
    rw [hm]
    constructor
    · rintro ⟨r, hr, h1, h2⟩
      obtain ⟨j, hj, e⟩ := vals_scaled hE hs hk r (mem_range.1 hr)
      refine ⟨j, mem_range.2 hj, ?_, ?_⟩
      · rw [e] at h1
        exact le_of_mul_le_mul_left (by linarith) hk
      · rw [e] at h2
        exact (mul_eq_zero.1 h2).resolve_left hk.ne'
    · rintro ⟨r, hr, h1, h2⟩
      obtain ⟨j, hj, e⟩ := vals_unscaled hE hs k r (mem_range.1 hr)
      refine ⟨j, mem_range.2 hj, ?_, ?_⟩
      · rw [e]
        have := mul_le_mul_of_nonneg_left h1 hk.le
        linarith
      · rw [e, h2, mul_zero]
  by_cases h : ∃ r ∈ range n, E.vals n M r ≥ tol * maxUpTo (E.vals n M) (n - 1) ∧ E.vals n M r = 0
  · rw [if_pos (hcond.2 h), if_pos h]
    rfl
  · rw [if_neg (fun h' => h (hcond.1 h')), if_neg h]
    simp only [Option.map_some]
    congr 1
    funext i j
    unfold tab2
    split_ifs with hij
    · have := calculus_scaled hE hs hk (fun x => (if x ≥ tol * maxUpTo (E.vals n M) (n - 1) then 1 / x else 0) / k)
        (fun x => if x ≥ tol * maxUpTo (E.vals n fun i j => k * M i j) (n - 1) then 1 / x else 0) (by
          intro x
          rw [hm]
          have hiff : k * x ≥ tol * (k * maxUpTo (E.vals n M) (n - 1)) ↔ x ≥ tol * maxUpTo (E.vals n M) (n - 1) := by
            constructor
            · intro h; exact le_of_mul_le_mul_left (by linarith) hk
            · intro h
              have := mul_le_mul_of_nonneg_left h hk.le
              linarith
          by_cases hx : x ≥ tol * maxUpTo (E.vals n M) (n - 1)
          · rw [if_pos (hiff.2 hx), if_pos hx, div_div, mul_comm]
          · rw [if_neg (fun h => hx (hiff.1 h)), if_neg hx, zero_div]) i j hij.1 hij.2
      dsimp only
      rw [this, sum_div]
      exact sum_congr rfl fun r _ => by ring
    · rw [zero_div]

end

/-! ## Deprojection and the constructor -/

theorem dot_smul (P : Pix) (nm : ℕ) (x y : ℝ) (a b : MapStack) : P.dot nm (x • a) (y • b) = x * y * P.dot nm a b := by
  unfold Pix.dot
  rw [mul_sum]
  refine sum_congr rfl fun c _ => ?_
  rw [mul_sum]
  refine sum_congr rfl fun p _ => ?_
  simp only [Pi.smul_apply, smul_eq_mul]
  ring

/-- What happens to the result of the deprojection step when the mask is multiplied by `c`. -/
noncomputable def Deproj.rescale (c : ℝ) (d : Deproj) : Deproj :=
  ⟨d.maps.map fun m => c • m, d.mapsU, d.iM.map fun P i j => P i j / c ^ 2, d.alphas⟩

theorem deproject_smul (env : FieldEnv) (hE : env.eig.Correct) {c : ℝ} (hc : 0 < c) (nm nt : ℕ) (hn : 0 < nt) {tol : ℝ} (ht : 0 < tol)
    (T : ℕ → MapStack) (m : MapStack) (TU : ℕ → MapStack) (mU : MapStack) :
    deproject env nm nt tol (fun i => c • T i) (c • m) TU mU = (deproject env nm nt tol T m TU mU).bind fun d => .ok (d.rescale c) := by
  unfold deproject
  dsimp only
  have hM : (tab2 nt nt fun i j => env.pix.dot nm (c • T j) (c • T i)) = fun i j => c ^ 2 * tab2 nt nt (fun i j => env.pix.dot nm (T j) (T i)) i j := by
    funext i j
    unfold tab2
    split_ifs
    · dsimp only
      rw [dot_smul]; ring
    · rw [mul_zero]
  rw [hM, pinvh_scaled hE (fun i hi j hj => by rw [tab2_of_lt _ hi hj, tab2_of_lt _ hj hi, dot_comm]) (by positivity) hn env.inv ht]
  cases pinvh env.eig env.inv nt (tab2 nt nt fun i j => env.pix.dot nm (T j) (T i)) tol with
  | raises e => rfl
  | crash => rfl
  | ok P =>
    cases P with
    | none => rfl
    | some P =>
      simp only [Outcome.bind, Option.map_some, Deproj.rescale]
      have ha : (tab nt fun i => ∑ j ∈ range nt, P i j / c ^ 2 * env.pix.dot nm (c • T j) (c • m)) =
          tab nt fun i => ∑ j ∈ range nt, P i j * env.pix.dot nm (T j) m := by
        refine tab_congr fun i _ => sum_congr rfl fun j _ => ?_
        rw [dot_smul]
        field_simp
      rw [ha]
      congr 2
      congr 1
      funext k p
      simp only [Pi.smul_apply, smul_eq_mul]
      rw [mul_sub, mul_sum]
      congr 1
      exact sum_congr rfl fun i _ => by ring

theorem purifyO_smul {S : Sht} (h : S.Homogeneous) (lmax lm n : ℕ) (c : ℝ) (mask : ℕ → ℝ) (am : ℕ → ℕ → ℂ) (pe pb : Bool) (maps : Option MapStack) :
    purifyO S lmax lm n (fun p => c * mask p) (c • am) pe pb maps =
      (purifyO S lmax lm n mask am pe pb maps).bind fun r => .ok (r.1.map (fun a => c • a), r.2.map (fun a => c • a)) := by
  unfold purifyO
  rw [purify_smul h]
  cases purify S lmax lm n mask am pe pb (maps.getD fun _ _ => 0) with
  | raises e => rfl
  | crash => rfl
  | ok r => cases maps <;> rfl

theorem purifyAll_smul {S : Sht} (h : S.Homogeneous) (lmax lm n : ℕ) (c : ℝ) (mask : ℕ → ℝ) (am : ℕ → ℕ → ℂ) (pe pb : Bool) (T : ℕ → MapStack)
    (k : ℕ) : purifyAll S lmax lm n (fun p => c * mask p) (c • am) pe pb T k =
      (purifyAll S lmax lm n mask am pe pb T k).bind fun f => .ok fun i => c • f i := by
  induction k with
  | zero =>
    simp only [purifyAll, Outcome.bind]
    congr 1
    funext i a l m
    simp
  | succ k ih =>
    unfold purifyAll
    rw [ih, purify_smul h]
    cases purifyAll S lmax lm n mask am pe pb T k with
    | raises e => rfl
    | crash => rfl
    | ok f =>
      cases purify S lmax lm n mask am pe pb (T k) with
      | raises e => rfl
      | crash => rfl
      | ok r =>
        simp only [Outcome.bind, scalePair]
        congr 1
        funext i
        by_cases hi : i = k
        · subst hi; simp
        · simp [Function.update_of_ne hi]

/-- Composition of calls whose results are related by maps `S` and `T`. -/
theorem bind_related {α β : Type*} {x x' : Outcome α} {k k' : α → Outcome β} (S : α → α) (T : β → β) (hx : x' = x.bind fun d => .ok (S d))
    (hk : ∀ d, x = .ok d → k' (S d) = (k d).bind fun r => .ok (T r)) : x'.bind k' = (x.bind k).bind fun r => .ok (T r) := by
  subst hx
  cases x with
  | ok d => exact hk d rfl
  | raises e => rfl
  | crash => rfl

theorem finish_smul (env : FieldEnv) (hE : env.eig.Correct) (hS : env.sht.Homogeneous) {c : ℝ} (hc : 0 < c) (a : FieldArgs) (ha : PlainCall a)
    (o : FieldObj) (ho : o.maskA = none) (maps : MapStack) (templ : Option TemplArg) (ht : ∀ t, templ = some t → 0 < t.ntemp) :
    fieldFinish env (a.rescale c) (o.rescale c) maps templ = (fieldFinish env a o maps templ).bind fun f => .ok (f.rescale c) := by
  unfold fieldFinish
  have e0 : (a.rescale c).maskedOnInput = false := ha.unmasked
  rw [e0, ha.unmasked]
  simp only [Bool.false_eq_true, if_false, id_eq]
  have e1 : applyMask (o.rescale c).mask (o.rescale c).maskA maps = c • applyMask o.mask o.maskA maps := by
    have : (o.rescale c).maskA = none := ho
    rw [this, ho]
    funext k p
    simp only [applyMask, FieldObj.rescale, Pi.smul_apply, smul_eq_mul]
    ring
  have e2 : ∀ t : ℕ → MapStack, (fun i k p => t i k p * (o.rescale c).mask p : ℕ → MapStack) = fun i => c • fun k p => t i k p * o.mask p := by
    intro t
    funext i k p
    simp only [FieldObj.rescale, Pi.smul_apply, smul_eq_mul]
    ring
  have e3 : maskAlms env.sht (o.rescale c).lmaxMask (a.rescale c).nIterMask (o.rescale c).mask = c • maskAlms env.sht o.lmaxMask a.nIterMask o.mask :=
    maskAlms_smul hS _ _ _ _
  rw [e1, e2, e3]
  refine bind_related (Deproj.rescale c) (FieldObj.rescale c) ?_ fun d _ => ?_
  · cases templ with
    | none => rfl
    | some t =>
      exact deproject_smul (c := c) env hE hc o.nmaps t.ntemp (ht t rfl) ha.tol (fun i k p => t.val i k p * o.mask p) (applyMask o.mask o.maskA maps) t.val maps
  refine bind_related (fun r => (r.1.map (fun a => c • a), r.2.map (fun a => c • a))) (FieldObj.rescale c) ?_ fun r _ => ?_
  · change (if (a.purifyE || a.purifyB) = true then _ else _) = _
    split_ifs
    · exact purifyO_smul hS o.lmax o.lmaxMask a.nIter c o.mask (maskAlms env.sht o.lmaxMask a.nIterMask o.mask) a.purifyE a.purifyB d.mapsU
    · simp only [Outcome.bind, Deproj.rescale, Sht.map2almO]
      congr 2
      cases d.maps with
      | none => rfl
      | some m => simp only [Option.map_some]; rw [transform_smul hS]; rfl
  refine bind_related (Option.map fun (t : ℕ → Alms) i => c • t i) (FieldObj.rescale c) ?_ fun r' _ => ?_
  · change (if templ.isSome = true ∧ ¬ a.lite = true then (if (a.purifyE || a.purifyB) = true then _ else _ : Outcome (ℕ → Alms)).bind _ else _) = _
    split_ifs with h1 h2
    · rw [show (o.rescale c).mask = fun p => c * o.mask p from rfl, purifyAll_smul hS]
      change Outcome.bind (Outcome.bind (purifyAll env.sht o.lmax o.lmaxMask a.nIter o.mask (maskAlms env.sht o.lmaxMask a.nIterMask o.mask) a.purifyE
        a.purifyB (fun i => (Option.map TemplArg.val templ).getD (fun x x_1 x_2 => 0) i) ((Option.map TemplArg.ntemp templ).getD 0)) _) _ = _
      generalize purifyAll env.sht o.lmax o.lmaxMask a.nIter o.mask (maskAlms env.sht o.lmaxMask a.nIterMask o.mask) a.purifyE
        a.purifyB (fun i => (Option.map TemplArg.val templ).getD (fun x x_1 x_2 => 0) i) ((Option.map TemplArg.ntemp templ).getD 0) = D
      cases D <;> rfl
    · simp only [Outcome.bind, Option.map_some]
      congr 2
      funext i
      rw [congrFun (e2 ((Option.map TemplArg.val templ).getD fun _ _ _ => 0)) i, transform_smul hS]
      rfl
    · rfl
  · have el : (a.rescale c).lite = a.lite := rfl
    simp only [Outcome.bind, FieldObj.rescale, Deproj.rescale, el]
    congr 2
    · split_ifs <;> rfl
    · split_ifs <;> rfl
    · split_ifs <;> rfl

/-- What happens to the plan of the constructor. -/
noncomputable def FieldPlan.rescale (c : ℝ) : FieldPlan → FieldPlan
  | .maskOnly o => .maskOnly (o.rescale c)
  | .withMaps o m t => .withMaps (o.rescale c) m t

theorem mapChecks_smul (npix : ℕ) (c : ℝ) (a : FieldArgs) (o : ℤ → FieldObj) (m : StackArg) :
    mapChecks npix (a.rescale c) false (fun s => (o s).rescale c) m = (mapChecks npix a false o m).bind fun pl => .ok (pl.rescale c) := by
  unfold mapChecks
  change (if _ then _ else (pickSpin m.ncomp a.spin).bind _) = _
  by_cases h1 : m.ncomp ≠ 1 ∧ m.ncomp ≠ 2
  · rw [if_pos h1, if_pos h1]; rfl
  rw [if_neg h1, if_neg h1]
  cases pickSpin m.ncomp a.spin with
  | raises e => rfl
  | crash => rfl
  | ok s =>
    simp only [Outcome.bind]
    change (if _ then _ else if (a.purifyE || a.purifyB) = true ∧ _ then _ else if _ then _ else if _ ∧ (a.purifyE || a.purifyB) = true then _ else
      if _ ∧ a.templates.isSome = true then _ else match a.templates with | none => _ | some t => _) = _
    split_ifs
    all_goals (first | rfl | skip)
    cases a.templates with
    | none => rfl
    | some t =>
      dsimp only
      split_ifs <;> rfl

theorem mapChecks_plan {npix : ℕ} {a : FieldArgs} {o : ℤ → FieldObj} {m : StackArg} {pl : FieldPlan} (h : mapChecks npix a false o m = .ok pl) :
    ∃ s v t, pl = .withMaps (o s) v t ∧ ∀ t', t = some t' → 0 < t'.ntemp := by
  unfold mapChecks at h
  by_cases h1 : m.ncomp ≠ 1 ∧ m.ncomp ≠ 2
  · rw [if_pos h1] at h; cases h
  rw [if_neg h1] at h
  cases hs : pickSpin m.ncomp a.spin with
  | raises e => rw [hs] at h; cases h
  | crash => rw [hs] at h; cases h
  | ok s =>
    rw [hs] at h
    simp only [Outcome.bind] at h
    split_ifs at h
    cases ht : a.templates with
    | none =>
      rw [ht] at h
      exact ⟨s, _, none, (Outcome.ok.inj h).symm, by simp⟩
    | some t =>
      rw [ht] at h
      dsimp only at h
      split_ifs at h with h5
      refine ⟨s, _, _, (Outcome.ok.inj h).symm, ?_⟩
      intro t' e
      cases e
      exact Nat.pos_of_ne_zero h5

theorem nmtField_smul (env : FieldEnv) (hE : env.eig.Correct) (hS : env.sht.Homogeneous) {c : ℝ} (hc : 0 < c) (a : FieldArgs) (ha : PlainCall a) :
    nmtField env (a.rescale c) = (nmtField env a).bind fun f => .ok (f.rescale c) := by
  have hm : fieldMasks env.pix a = .ok (a.mask, none) := by
    unfold fieldMasks
    rw [ha.iso22, ha.iso12]
  have hm' : fieldMasks env.pix (a.rescale c) = .ok (fun p => c * a.mask p, none) := by
    unfold fieldMasks
    have e1 : (a.rescale c).mask22 = none := ha.iso22
    have e2 : (a.rescale c).mask12 = none := ha.iso12
    rw [e1, e2]
    rfl
  have hb : ∀ l lm s, baseObj (a.rescale c) (fun p => c * a.mask p, none) l lm s = (baseObj a (a.mask, none) l lm s).rescale c := fun _ _ _ => rfl
  have hck : fieldChecks env (a.rescale c) = (fieldChecks env a).bind fun pl => .ok (pl.rescale c) := by
    unfold fieldChecks
    rw [hm, hm']
    simp only [Outcome.bind]
    change (if a.lmax.getD env.lmaxDefault ≤ 0 ∨ a.lmaxMask.getD env.lmaxDefault ≤ 0 then _ else if (a.beam.map fun b => (b.1 : ℤ)).any
      (fun n => n ≤ a.lmax.getD env.lmaxDefault) = true then _ else _) = _
    by_cases h1 : a.lmax.getD env.lmaxDefault ≤ 0 ∨ a.lmaxMask.getD env.lmaxDefault ≤ 0
    · rw [if_pos h1, if_pos h1]
    rw [if_neg h1, if_neg h1]
    by_cases h2 : (a.beam.map fun b => (b.1 : ℤ)).any (fun n => n ≤ a.lmax.getD env.lmaxDefault) = true
    · rw [if_pos h2, if_pos h2]
    rw [if_neg h2, if_neg h2]
    have e1 : (a.rescale c).maps = a.maps := rfl
    have e2 : (a.rescale c).spin = a.spin := rfl
    rw [e1, e2]
    cases a.maps with
    | none =>
      cases a.spin with
      | none => rfl
      | some s =>
        dsimp only
        rw [if_neg (by simp), if_neg (by simp)]
        rfl
    | some m => exact mapChecks_smul env.pix.npix c a (fun s => baseObj a (a.mask, none) _ _ s) m
  unfold nmtField
  refine bind_related (FieldPlan.rescale c) (FieldObj.rescale c) hck fun pl hpl => ?_
  cases pl with
  | maskOnly o => rfl
  | withMaps o m t =>
    have key : o.maskA = none ∧ ∀ t', t = some t' → 0 < t'.ntemp := by
      unfold fieldChecks at hpl
      rw [hm] at hpl
      simp only [Outcome.bind] at hpl
      split_ifs at hpl
      cases hmaps : a.maps with
      | none =>
        rw [hmaps] at hpl
        cases hsp : a.spin with
        | none => rw [hsp] at hpl; cases hpl
        | some s =>
          rw [hsp] at hpl
          dsimp only at hpl
          rw [if_neg (by simp)] at hpl
          cases hpl
      | some mm =>
        rw [hmaps] at hpl
        obtain ⟨s, v, t', e, ht⟩ := mapChecks_plan hpl
        cases e
        exact ⟨rfl, ht⟩
    exact finish_smul env hE hS hc a ha o key.1 m t key.2

end NaMaster
