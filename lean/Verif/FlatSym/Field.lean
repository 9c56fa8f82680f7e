import Verif.Flat.BiasModel
import Verif.Flat.FieldProps
import Verif.Syn.Fft

/-!
# Flat fields moved over the periodic map
-/

namespace NaMaster

open Real Finset

/-! ## Specification -/

/-- A movement of flat maps, which are periodic: by `t` pixels along the two axes, after a turn by 180 degrees if `turn`. -/
structure FlatMove where
  t : ℕ × ℕ
  turn : Bool

/-- The index along an axis of `n` pixels of the pixel whose contents pixel `x` gets. -/
def FlatMove.axis (turn : Bool) (n t x : ℕ) : ℕ := if turn then (t + (n - x % n)) % n else (x + t) % n

/-- The pixel whose contents pixel `p` gets. -/
def FlatMove.pix (g : FlatMove) (fs : FlatInfo) (p : ℕ × ℕ) : ℕ × ℕ := (axis g.turn fs.nx g.t.1 p.1, axis g.turn fs.ny g.t.2 p.2)

/-- A turn by 180 degrees changes the sign of vectors and of other fields with odd spin. -/
def FlatMove.sg (g : FlatMove) (s : ℕ) : ℝ := if g.turn = true ∧ s % 2 = 1 then -1 else 1

/-- Maps of spin `s` moved. -/
def FlatMove.map (g : FlatMove) (fs : FlatInfo) (s : ℕ) (m : FlatMaps) : FlatMaps := fun c p => g.sg s * m c (g.pix fs p)

/-- What happens to the Fourier coefficients of a map that is moved. -/
noncomputable def FlatMove.op (g : FlatMove) (fs : FlatInfo) (k : ℕ × ℕ) (a : ℂ) : ℂ :=
  if g.turn then Complex.exp (-(fs.phase k g.t) * Complex.I) * star a else Complex.exp (fs.phase k g.t * Complex.I) * a

/-- Coefficients moved. -/
noncomputable def FlatMove.coef (g : FlatMove) (fs : FlatInfo) (a : FlatAlms) : FlatAlms := fun X k => g.op fs k (a X k)

/-- The inverse transform commutes with the movement and with a change of sign. Values outside of the map continue it periodically. -/
structure FlatEnv.HasMove (env : FlatEnv) (g : FlatMove) : Prop where
  move : ∀ fs a p, env.c2r fs (fun k => g.op fs k (a k)) p = env.c2r fs a (g.pix fs p)
  neg : ∀ fs a p, env.c2r fs (fun k => -a k) p = -env.c2r fs a p

/-- The same call of the constructor with mask, maps and templates moved. Without a spin the maps have spin 0 or 2. -/
def FlatFieldArgs.move (g : FlatMove) (a : FlatFieldArgs) : FlatFieldArgs :=
  { a with
    mask := fun p => a.mask (g.pix a.fs p)
    maps := a.maps.map fun m => { m with val := g.map a.fs (a.spin.getD 2) m.val }
    templates := a.templates.map fun T => { T with val := fun i => g.map a.fs (a.spin.getD 2) (T.val i) } }

/-- The part of a field used for coupling matrices and covariances, moved. -/
def FlatField.move (g : FlatMove) (f : FlatField) : FlatField := { f with mask := fun p => f.mask (g.pix f.fs p) }

/-- The contents of a field moved. -/
noncomputable def FlatFieldObj.move (g : FlatMove) (f : FlatFieldObj) : FlatFieldObj :=
  { f with
    base := f.base.move g
    maps := f.maps.map (Option.map (g.map f.base.fs f.base.spin))
    temp := f.temp.map fun T i => g.map f.base.fs f.base.spin (T i)
    alms := f.alms.map (Option.map (g.coef f.base.fs))
    aTemp := f.aTemp.map fun T i => g.coef f.base.fs (T i)
    aMask := f.aMask.map fun w k => g.op f.base.fs k (w k) }

/-! ## Pixels -/

namespace FlatMove

variable (g : FlatMove) (fs : FlatInfo)

theorem axis_lt (b : Bool) {n x : ℕ} (t : ℕ) (hx : x < n) : axis b n t x < n := by
  unfold axis
  split_ifs <;> exact Nat.mod_lt _ (by omega)

theorem axis_inj (b : Bool) {n t x y : ℕ} (hx : x < n) (hy : y < n) (h : axis b n t x = axis b n t y) : x = y := by
  unfold axis at h
  cases b with
  | false =>
    have h1 : (x + t) ≡ (y + t) [MOD n] := h
    have h2 := Nat.ModEq.add_right_cancel' t h1
    rwa [Nat.ModEq, Nat.mod_eq_of_lt hx, Nat.mod_eq_of_lt hy] at h2
  | true =>
    rw [if_pos rfl, if_pos rfl, Nat.mod_eq_of_lt hx, Nat.mod_eq_of_lt hy] at h
    have h1 : (t + (n - x)) ≡ (t + (n - y)) [MOD n] := h
    have h2 := Nat.ModEq.add_left_cancel' t h1
    have h3 := Nat.ModEq.add_right (x + y) h2
    rw [show n - x + (x + y) = n + y by omega, show n - y + (x + y) = n + x by omega] at h3
    have h4 := Nat.ModEq.add_left_cancel' n h3
    rw [Nat.ModEq, Nat.mod_eq_of_lt hx, Nat.mod_eq_of_lt hy] at h4
    exact h4.symm

theorem sum_axis {M : Type*} [AddCommMonoid M] (b : Bool) (n t : ℕ) (f : ℕ → M) : ∑ x ∈ range n, f (axis b n t x) = ∑ x ∈ range n, f x := by
  have hm : Set.MapsTo (axis b n t) (range n) (range n) := fun x hx => by
    simp only [coe_range, Set.mem_Iio] at hx ⊢
    exact axis_lt b t hx
  have hi : Set.InjOn (axis b n t) (range n) := fun x hx y hy h => by
    simp only [coe_range, Set.mem_Iio] at hx hy
    exact axis_inj b hx hy h
  exact sum_nbij (axis b n t) hm hi (surjOn_of_injOn_of_card_le _ hm hi le_rfl) fun _ _ => rfl

/-- Sums over all pixels do not change. -/
theorem sum_pix {M : Type*} [AddCommMonoid M] (f : ℕ × ℕ → M) : ∑ p ∈ fs.modes, f (g.pix fs p) = ∑ p ∈ fs.modes, f p := by
  unfold FlatInfo.modes
  rw [sum_product, sum_product]
  unfold pix
  dsimp only
  rw [sum_axis g.turn fs.nx g.t.1 (fun x => ∑ y ∈ range fs.ny, f (x, axis g.turn fs.ny g.t.2 y))]
  exact sum_congr rfl fun x _ => sum_axis g.turn fs.ny g.t.2 fun y => f (x, y)

theorem sg_sq (s : ℕ) : g.sg s * g.sg s = 1 := by
  unfold sg
  split_ifs <;> norm_num

theorem sg_zero : g.sg 0 = 1 := if_neg (by omega)

theorem sg_two : g.sg 2 = 1 := if_neg (by omega)

theorem sg_cases (s : ℕ) : g.sg s = 1 ∨ g.sg s = -1 := by
  unfold sg
  split_ifs <;> simp

/-! ## Coefficients -/

theorem axis_exp (b : Bool) {n : ℕ} (hn : 0 < n) (t x k : ℕ) :
    Complex.exp ((2 * π * (axis b n t x * k / n : ℝ) : ℝ) * Complex.I) =
      Complex.exp ((2 * π * (t * k / n + (if b then -1 else 1) * (x * k / n) : ℝ) : ℝ) * Complex.I) := by
  have hn' : (n : ℝ) ≠ 0 := by positivity
  have hp : ∀ z : ℕ, ∃ m : ℤ, ((z % n : ℕ) : ℝ) * k / n = z * k / n + m := by
    intro z
    refine ⟨-(((z / n : ℕ) : ℤ) * k), ?_⟩
    have : (z : ℝ) = (n : ℝ) * (z / n : ℕ) + (z % n : ℕ) := by exact_mod_cast (Nat.div_add_mod z n).symm
    rw [Int.cast_neg, Int.cast_mul, Int.cast_natCast, Int.cast_natCast]
    generalize ((z / n : ℕ) : ℝ) = q at *
    rw [this]
    field_simp
    ring
  rw [Complex.exp_eq_exp_iff_exists_int]
  unfold axis
  cases b with
  | false =>
    simp only [Bool.false_eq_true, if_false]
    obtain ⟨m, hm⟩ := hp (x + t)
    refine ⟨m, ?_⟩
    rw [hm]
    push_cast
    ring
  | true =>
    simp only [if_true]
    obtain ⟨m, hm⟩ := hp (t + (n - x % n))
    obtain ⟨m', hm'⟩ := hp x
    have hlt := Nat.mod_lt x hn
    have e : ((t + (n - x % n) : ℕ) : ℝ) * k / n = t * k / n + k - ((x % n : ℕ) : ℝ) * k / n := by
      rw [Nat.cast_add, Nat.cast_sub hlt.le]
      field_simp
      ring
    refine ⟨m + k - m', ?_⟩
    rw [hm, e, hm']
    push_cast
    ring

/-- The phase of a mode at the pixel whose contents are moved. -/
theorem pix_exp (hx : 0 < fs.nx) (hy : 0 < fs.ny) (k p : ℕ × ℕ) : Complex.exp (fs.phase k (g.pix fs p) * Complex.I) =
    if g.turn then Complex.exp (fs.phase k g.t * Complex.I) * Complex.exp (-(fs.phase k p) * Complex.I)
    else Complex.exp (fs.phase k g.t * Complex.I) * Complex.exp (fs.phase k p * Complex.I) := by
  have e : Complex.exp (fs.phase k (g.pix fs p) * Complex.I) =
      Complex.exp ((2 * π * ((g.pix fs p).1 * k.1 / fs.nx : ℝ) : ℝ) * Complex.I) * Complex.exp ((2 * π * ((g.pix fs p).2 * k.2 / fs.ny : ℝ) : ℝ) * Complex.I) := by
    rw [← Complex.exp_add]
    congr 1
    unfold FlatInfo.phase
    push_cast
    ring
  rw [e]
  unfold pix
  dsimp only
  rw [axis_exp g.turn hx, axis_exp g.turn hy, ← Complex.exp_add]
  cases g.turn with
  | true =>
    simp only [if_true]
    rw [← Complex.exp_add]
    congr 1
    unfold FlatInfo.phase
    push_cast
    ring
  | false =>
    simp only [Bool.false_eq_true, if_false]
    rw [← Complex.exp_add]
    congr 1
    unfold FlatInfo.phase
    push_cast
    ring

theorem op_add (k : ℕ × ℕ) (a b : ℂ) : g.op fs k (a + b) = g.op fs k a + g.op fs k b := by
  unfold op
  split_ifs
  · rw [star_add, mul_add]
  · rw [mul_add]

theorem op_zero (k : ℕ × ℕ) : g.op fs k 0 = 0 := by simp [op]

theorem op_real (k : ℕ × ℕ) (a : ℂ) (x : ℝ) : g.op fs k (a * x) = g.op fs k a * x := by
  unfold op
  split_ifs
  · rw [star_mul', show star (x : ℂ) = x from Complex.conj_ofReal x, mul_assoc]
  · rw [mul_assoc]

theorem op_div (k : ℕ × ℕ) (a : ℂ) (x : ℝ) : g.op fs k (a / x) = g.op fs k a / x := by
  rw [div_eq_mul_inv, div_eq_mul_inv, ← Complex.ofReal_inv, op_real]

theorem op_neg (k : ℕ × ℕ) (a : ℂ) : g.op fs k (-a) = -g.op fs k a := by
  have := g.op_real fs k a (-1)
  simpa using this

theorem op_sum {ι : Type*} (s : Finset ι) (k : ℕ × ℕ) (a : ι → ℂ) : g.op fs k (∑ i ∈ s, a i) = ∑ i ∈ s, g.op fs k (a i) := by
  classical
  induction s using Finset.induction_on with
  | empty => simpa using g.op_zero fs k
  | insert i s hi ih => rw [sum_insert hi, sum_insert hi, op_add, ih]

/-- A power of the imaginary unit and the sign of the spin. -/
theorem op_unit (k : ℕ × ℕ) (s : ℕ) (z a : ℂ) (hz : star z = (-1) ^ s * z) : g.op fs k (z * a) = z * ((g.sg s : ℂ) * g.op fs k a) := by
  unfold op
  cases h : g.turn with
  | false =>
    have : g.sg s = 1 := if_neg (by rw [h]; simp)
    simp only [Bool.false_eq_true, if_false, this]
    push_cast
    ring
  | true =>
    have : ((g.sg s : ℝ) : ℂ) = (-1) ^ s := by
      unfold sg
      rcases Nat.mod_two_eq_zero_or_one s with h2 | h2
      · rw [if_neg (by omega), Even.neg_one_pow (Nat.even_iff.2 h2)]; norm_num
      · rw [if_pos ⟨h, h2⟩, Odd.neg_one_pow (Nat.odd_iff.2 h2)]; norm_num
    simp only [if_true, this]
    rw [star_mul', hz]
    ring

theorem star_sig (s : ℕ) : star (sigOverall s * Complex.I ^ s) = (-1) ^ s * (sigOverall s * Complex.I ^ s) := by
  have h1 : star (sigOverall s) = sigOverall s := by unfold sigOverall; split_ifs <;> simp
  rw [star_mul', star_pow, h1, show star Complex.I = -1 * Complex.I by simp, mul_pow]
  ring

theorem star_sig' (s : ℕ) : star (sigOverall s * (-Complex.I) ^ s) = (-1) ^ s * (sigOverall s * (-Complex.I) ^ s) := by
  have h1 : star (sigOverall s) = sigOverall s := by unfold sigOverall; split_ifs <;> simp
  rw [star_mul', star_pow, h1, show star (-Complex.I) = -1 * (-Complex.I) by simp, mul_pow]
  ring

/-- The transform of a moved map. -/
theorem map2alm_move (f : ℕ × ℕ → ℝ) (k : ℕ × ℕ) : fs.map2alm (fun p => f (g.pix fs p)) k = g.op fs k (fs.map2alm f k) := by
  unfold FlatInfo.map2alm
  rw [op_real]
  congr 1
  unfold FlatInfo.dft
  by_cases h0 : 0 < fs.nx ∧ 0 < fs.ny
  · rw [op_sum, ← g.sum_pix fs (fun p => g.op fs k (f p * Complex.exp (-(fs.phase k p) * Complex.I)))]
    refine sum_congr rfl fun p _ => ?_
    have hE := g.pix_exp fs h0.1 h0.2 k p
    have hi : Complex.exp (-(fs.phase k (g.pix fs p)) * Complex.I) = (Complex.exp (fs.phase k (g.pix fs p) * Complex.I))⁻¹ := by
      rw [neg_mul, Complex.exp_neg]
    rw [mul_comm, mul_comm (f (g.pix fs p) : ℂ), op_real]
    congr 1
    unfold op
    cases hg : g.turn with
    | true =>
      rw [hg] at hE
      simp only [if_true] at hE ⊢
      have hs : star (Complex.exp (-(fs.phase k (g.pix fs p)) * Complex.I)) = Complex.exp (fs.phase k (g.pix fs p) * Complex.I) := by
        rw [show star (Complex.exp (-(fs.phase k (g.pix fs p)) * Complex.I)) = Complex.exp (star (-(fs.phase k (g.pix fs p)) * Complex.I)) from
          (Complex.exp_conj _).symm]
        congr 1
        simp
      rw [hs, hE, ← mul_assoc, ← Complex.exp_add]
      rw [show -(fs.phase k g.t : ℂ) * Complex.I + fs.phase k g.t * Complex.I = 0 by ring, Complex.exp_zero, one_mul]
    | false =>
      rw [hg] at hE
      simp only [Bool.false_eq_true, if_false] at hE ⊢
      rw [hi, hE, mul_inv, ← Complex.exp_neg (fs.phase k p * Complex.I), ← neg_mul, ← mul_assoc, mul_inv_cancel₀ (Complex.exp_ne_zero _), one_mul]
  · have : fs.modes = ∅ := by
      unfold FlatInfo.modes
      rcases not_and_or.1 h0 with h | h
      · rw [Nat.eq_zero_of_not_pos h]; simp
      · rw [Nat.eq_zero_of_not_pos h]; simp
    rw [this]
    simp [op_zero]

theorem map2alm_smul (x : ℝ) (f : ℕ × ℕ → ℝ) (k : ℕ × ℕ) : fs.map2alm (fun p => x * f p) k = x * fs.map2alm f k := by
  unfold FlatInfo.map2alm FlatInfo.dft
  rw [← mul_assoc, mul_sum]
  congr 1
  refine sum_congr rfl fun p _ => ?_
  push_cast
  ring

theorem qu2eb_op (s : ℕ) (kx ky : ℝ) (k : ℕ × ℕ) (a b : ℂ) :
    qu2eb s kx ky ((g.sg s : ℂ) * g.op fs k a, (g.sg s : ℂ) * g.op fs k b) = (g.op fs k (qu2eb s kx ky (a, b)).1, g.op fs k (qu2eb s kx ky (a, b)).2) := by
  unfold qu2eb
  dsimp only
  rw [g.op_unit fs k s _ _ (star_sig s), g.op_unit fs k s _ _ (star_sig s)]
  simp only [sub_eq_add_neg, op_add, op_neg, op_real]
  ext <;> dsimp only <;> ring

theorem eb2qu_op (s : ℕ) (kx ky : ℝ) (k : ℕ × ℕ) (a b : ℂ) :
    eb2qu s kx ky (g.op fs k a, g.op fs k b) =
      ((g.sg s : ℂ) * g.op fs k (eb2qu s kx ky (a, b)).1, (g.sg s : ℂ) * g.op fs k (eb2qu s kx ky (a, b)).2) := by
  have h2 : (g.sg s : ℂ) * g.sg s = 1 := by exact_mod_cast g.sg_sq s
  unfold eb2qu
  dsimp only
  rw [g.op_unit fs k s _ _ (star_sig' s), g.op_unit fs k s _ _ (star_sig' s)]
  simp only [op_add, op_neg, op_real, neg_mul]
  ext <;> dsimp only
  · linear_combination (-(sigOverall s * (-Complex.I) ^ s * (g.op fs k a * (csRec (modeDir kx ky).1 (modeDir kx ky).2 s).1 +
      g.op fs k b * (csRec (modeDir kx ky).1 (modeDir kx ky).2 s).2))) * h2
  · linear_combination (-(sigOverall s * (-Complex.I) ^ s * (-(g.op fs k a * (csRec (modeDir kx ky).1 (modeDir kx ky).2 s).2) +
      g.op fs k b * (csRec (modeDir kx ky).1 (modeDir kx ky).2 s).1))) * h2

/-- Analysis of moved maps. -/
theorem fsMap2alm_move (s : ℕ) (m : FlatMaps) : fsMap2alm fs s (g.map fs s m) = g.coef fs (fsMap2alm fs s m) := by
  funext X k
  have e : ∀ c, fs.map2alm (g.map fs s m c) k = (g.sg s : ℂ) * g.op fs k (fs.map2alm (m c) k) := by
    intro c
    rw [← g.map2alm_move fs (m c) k]
    exact map2alm_smul fs (g.sg s) (fun p => m c (g.pix fs p)) k
  unfold fsMap2alm coef
  by_cases hs : s = 0
  · subst hs
    simp only [if_true]
    rw [e, g.sg_zero]
    simp
  · simp only [if_neg hs]
    unfold FlatInfo.map2almSpin
    rw [e, e, g.qu2eb_op]
    split_ifs <;> rfl

end FlatMove

variable {env : FlatEnv} {g : FlatMove}

/-- Synthesis of moved coefficients. -/
theorem fsAlm2map_move (h : env.HasMove g) (fs : FlatInfo) (s : ℕ) (a : FlatAlms) :
    fsAlm2map (env.c2r fs) fs s (g.coef fs a) = g.map fs s (fsAlm2map (env.c2r fs) fs s a) := by
  have hs : ∀ (b : ℕ × ℕ → ℂ) p, env.c2r fs (fun k => (g.sg s : ℂ) * g.op fs k (b k)) p = g.sg s * env.c2r fs b (g.pix fs p) := by
    intro b p
    rcases g.sg_cases s with h1 | h1
    · rw [h1]
      simp only [Complex.ofReal_one, one_mul]
      exact h.move fs b p
    · rw [h1]
      simp only [Complex.ofReal_neg, Complex.ofReal_one, neg_mul, one_mul]
      rw [h.neg, h.move]
  funext c p
  unfold fsAlm2map FlatMove.map FlatMove.coef
  rw [← mul_assoc]
  congr 1
  by_cases h0 : s = 0
  · subst h0
    simp only [if_true]
    rw [h.move, g.sg_zero, one_mul]
  · simp only [if_neg h0]
    by_cases hc : c = 0
    · simp only [if_pos hc]
      rw [← hs]
      congr 1
      funext k
      rw [g.eb2qu_op]
    · simp only [if_neg hc]
      rw [← hs]
      congr 1
      funext k
      rw [g.eb2qu_op]

/-! ## Purification -/

theorem walm_move (fs : FlatInfo) (w : ℕ × ℕ → ℂ) (n : ℕ) : walmXLpower fs (fun k => g.op fs k (w k)) n = g.coef fs (walmXLpower fs w n) := by
  funext X k
  unfold walmXLpower FlatMove.coef
  by_cases hX : X = 0
  · simp only [if_pos hX]
    rw [g.op_real, g.op_neg]
  · simp only [if_neg hX]
    rw [g.op_zero]

theorem flat_spinProduct_move (fs : FlatInfo) (s s' : ℕ) (w m : FlatMaps) (hs : g.sg s' = 1) :
    spinProductFlat (g.map fs s w) (g.map fs s' m) = g.map fs s (spinProductFlat w m) := by
  funext c p
  unfold spinProductFlat FlatMove.map
  rw [hs]
  by_cases hc : c = 0
  · simp only [if_pos hc]; ring
  · simp only [if_neg hc]; ring

theorem purifyFlatAlms_move (h : env.HasMove g) (fs : FlatInfo) (pE pB : Bool) (mask : ℕ × ℕ → ℝ) (w : ℕ × ℕ → ℂ) (m : FlatMaps) :
    purifyFlatAlms (env.c2r fs) fs pE pB (fun p => mask (g.pix fs p)) (fun k => g.op fs k (w k)) (g.map fs 2 m) =
      g.coef fs (purifyFlatAlms (env.c2r fs) fs pE pB mask w m) := by
  unfold purifyFlatAlms
  dsimp only
  have e0 : (fun c p => g.map fs 2 m c p * mask (g.pix fs p)) = g.map fs 2 fun c p => m c p * mask p := by
    funext c p
    unfold FlatMove.map
    ring
  have e2 : (fun c p => -1 * spinProductFlat (g.map fs 2 (fsAlm2map (env.c2r fs) fs 2 (walmXLpower fs w 2))) (g.map fs 2 m) c p) =
      g.map fs 0 fun c p => -1 * spinProductFlat (fsAlm2map (env.c2r fs) fs 2 (walmXLpower fs w 2)) m c p := by
    rw [flat_spinProduct_move fs 2 2 _ _ g.sg_two]
    funext c p
    unfold FlatMove.map
    rw [g.sg_two, g.sg_zero]
    ring
  rw [walm_move, walm_move, fsAlm2map_move h, fsAlm2map_move h, flat_spinProduct_move fs 1 2 _ _ g.sg_two, e0, e2, g.fsMap2alm_move, g.fsMap2alm_move,
    g.fsMap2alm_move]
  funext X k
  have two : (2 : ℂ) = ((2 : ℝ) : ℂ) := by norm_num
  have e3 : ∀ z : ℂ, g.op fs k (2 * z) = 2 * g.op fs k z := by
    intro z
    rw [mul_comm, two, g.op_real, mul_comm]
  unfold FlatMove.coef
  dsimp only
  split_ifs <;> simp only [g.op_add, g.op_div, e3, add_zero]

theorem purifyFlat_move (h : env.HasMove g) (fs : FlatInfo) (pE pB : Bool) (mask : ℕ × ℕ → ℝ) (w : ℕ × ℕ → ℂ) (m : FlatMaps) :
    purifyFlat (env.c2r fs) fs pE pB (fun p => mask (g.pix fs p)) (fun k => g.op fs k (w k)) (g.map fs 2 m) =
      (g.coef fs (purifyFlat (env.c2r fs) fs pE pB mask w m).1, g.map fs 2 (purifyFlat (env.c2r fs) fs pE pB mask w m).2) := by
  unfold purifyFlat
  dsimp only
  rw [purifyFlatAlms_move h, fsAlm2map_move h]

/-! ## Templates -/

theorem flat_dot_move (fs : FlatInfo) (nm s : ℕ) (a b : FlatMaps) : fs.dot nm (g.map fs s a) (g.map fs s b) = fs.dot nm a b := by
  unfold FlatInfo.dot
  refine sum_congr rfl fun c _ => ?_
  congr 1
  rw [← g.sum_pix fs fun p => a c p * b c p]
  refine sum_congr rfl fun p _ => ?_
  unfold FlatMove.map
  linear_combination (a c (g.pix fs p) * b c (g.pix fs p)) * g.sg_sq s

theorem removeTempl_move (fs : FlatInfo) (s nt : ℕ) (al : ℕ → ℝ) (T : ℕ → FlatMaps) (m : FlatMaps) :
    removeTempl nt al (fun i => g.map fs s (T i)) (g.map fs s m) = g.map fs s (removeTempl nt al T m) := by
  funext c p
  unfold removeTempl FlatMove.map
  rw [mul_sub, mul_sum]
  congr 1
  exact sum_congr rfl fun i _ => by ring

theorem unmaskFlat_move (fs : FlatInfo) (s : ℕ) (mask : ℕ × ℕ → ℝ) (m : FlatMaps) :
    unmaskFlat (fun p => mask (g.pix fs p)) (g.map fs s m) = g.map fs s (unmaskFlat mask m) := by
  funext c p
  unfold unmaskFlat FlatMove.map
  by_cases hc : mask (g.pix fs p) > 0
  · simp only [if_pos hc]; ring
  · simp only [if_neg hc]; ring

theorem flat_mask_move (fs : FlatInfo) (s : ℕ) (mask : ℕ × ℕ → ℝ) (m : FlatMaps) :
    (fun c p => g.map fs s m c p * mask (g.pix fs p)) = g.map fs s fun c p => m c p * mask p := by
  funext c p
  unfold FlatMove.map
  ring

theorem gram_move (fs : FlatInfo) (nm s nt : ℕ) (T : ℕ → FlatMaps) : flatGram fs nm nt (fun i => g.map fs s (T i)) = flatGram fs nm nt T := by
  unfold flatGram
  congr 1
  funext i j
  rw [flat_dot_move, flat_dot_move]

theorem alphas_move (fs : FlatInfo) (nm s nt : ℕ) (P : ℕ → ℕ → ℝ) (T : ℕ → FlatMaps) (m : FlatMaps) :
    flatAlphas fs nm nt P (fun i => g.map fs s (T i)) (g.map fs s m) = flatAlphas fs nm nt P T m := by
  funext i
  unfold flatAlphas
  refine sum_congr rfl fun j _ => ?_
  rw [flat_dot_move]

/-! ## The constructor -/

theorem flatAlloc_move (h : env.HasMove g) (base : FlatField) (hp : (base.pureE == 1 || base.pureB == 1) = true → base.spin = 2) (m : FlatMaps)
    (T : Option (ℕ × (ℕ → FlatMaps))) (tol : ℝ) (masked lite : Bool) :
    flatAlloc env (base.move g) (g.map base.fs base.spin m) (T.map fun x => (x.1, fun i => g.map base.fs base.spin (x.2 i))) tol masked lite =
      (flatAlloc env base m T tol masked lite).move g := by
  have hz : (fun _ _ _ => 0 : ℕ → FlatMaps) = fun i => g.map base.fs base.spin ((fun _ _ _ => 0 : ℕ → FlatMaps) i) := by
    funext i c p
    simp [FlatMove.map]
  have hnt : ((T.map fun x => (x.1, fun i => g.map base.fs base.spin (x.2 i))).map Prod.fst).getD 0 = (T.map Prod.fst).getD 0 := by cases T <;> rfl
  have htv : ((T.map fun x => (x.1, fun i => g.map base.fs base.spin (x.2 i))).map Prod.snd).getD (fun _ _ _ => 0) =
      fun i => g.map base.fs base.spin (((T.map Prod.snd).getD fun _ _ _ => 0) i) := by
    cases T with
    | none => exact hz
    | some x => rfl
  have hmask : ∀ v : FlatMaps, (if masked = true then g.map base.fs base.spin v else fun c p => g.map base.fs base.spin v c p * base.mask (g.pix base.fs p)) =
      g.map base.fs base.spin (if masked = true then v else fun c p => v c p * base.mask p) := by
    intro v
    cases masked with
    | true => rfl
    | false => exact flat_mask_move _ _ _ _
  have hunm : ∀ v : FlatMaps, (if masked = true then unmaskFlat (fun p => base.mask (g.pix base.fs p)) else id) (g.map base.fs base.spin v) =
      g.map base.fs base.spin ((if masked = true then unmaskFlat base.mask else id) v) := by
    intro v
    cases masked with
    | true => exact unmaskFlat_move _ _ _ _
    | false => rfl
  unfold flatAlloc
  simp only [FlatField.move, hnt, htv, hmask, hunm, gram_move, alphas_move, removeTempl_move]
  have hw : base.fs.map2alm (fun p => base.mask (g.pix base.fs p)) = fun k => g.op base.fs k (base.fs.map2alm base.mask k) :=
    funext fun k => g.map2alm_move base.fs base.mask k
  rw [hw]
  generalize (T.map Prod.fst).getD 0 = nt
  generalize ((T.map Prod.snd).getD fun _ _ _ => 0) = tv
  generalize (if nt > 0 then some (pinvC env.eig nt (flatGram base.fs (nmapsOf base.spin) nt fun i =>
    if masked = true then tv i else fun c p => tv i c p * base.mask p) tol) else none) = M
  unfold FlatFieldObj.move
  rcases Bool.eq_false_or_eq_true (base.pureE == 1 || base.pureB == 1) with hpp | hpp
  · have h2 := hp hpp
    simp only [hpp, h2, if_true, not_true, or_false]
    rcases M with _ | (_ | P) <;> cases lite <;> by_cases hn : nt = 0 <;> simp [hn, FlatField.move, h2, purifyFlat_move h]
    all_goals exact funext fun i => flat_mask_move _ _ _ _
  · simp only [hpp, Bool.false_eq_true, if_false, g.fsMap2alm_move, not_false_iff, or_true, if_true]
    rcases M with _ | (_ | P) <;> cases lite <;> by_cases hn : nt = 0 <;> simp [hn, FlatField.move, g.fsMap2alm_move]

theorem flatSpin_sg {a : FlatFieldArgs} {s : ℕ} (h : flatSpin a = .ok s) : g.sg (a.spin.getD 2) = g.sg s := by
  unfold flatSpin at h
  cases hs : a.spin with
  | some s' =>
    have : s = s' := by
      cases hm : a.maps with
      | none =>
        rw [hm, hs] at h
        exact (Outcome.ok.inj h).symm
      | some m =>
        rw [hm, hs] at h
        dsimp only at h
        split_ifs at h
        exact (Outcome.ok.inj h).symm
    rw [this]
    rfl
  | none =>
    cases hm : a.maps with
    | none => rw [hm, hs] at h; cases h
    | some m =>
      rw [hm, hs] at h
      dsimp only at h
      rw [Option.getD_none, g.sg_two]
      split_ifs at h
      · rw [← Outcome.ok.inj h, g.sg_zero]
      · rw [← Outcome.ok.inj h, g.sg_two]

theorem nmtFieldFlat_move (h : env.HasMove g) (a : FlatFieldArgs) : nmtFieldFlat env (a.move g) = (nmtFieldFlat env a).bind fun f => .ok (f.move g) := by
  have hs : flatSpin (a.move g) = flatSpin a := by
    unfold flatSpin FlatFieldArgs.move
    cases a.maps <;> rfl
  have hsh : flatShapes (a.move g) = flatShapes a := by
    unfold flatShapes FlatFieldArgs.move
    cases a.maps <;> cases a.templates <;> rfl
  unfold nmtFieldFlat
  rw [hs, hsh]
  simp only [show (a.move g).fs = a.fs from rfl, show (a.move g).purifyE = a.purifyE from rfl, show (a.move g).purifyB = a.purifyB from rfl,
    show (a.move g).beam = a.beam from rfl]
  by_cases h0 : a.fs.lx < 0 ∨ a.fs.ly < 0
  · rw [if_pos h0, if_pos h0]; rfl
  rw [if_neg h0, if_neg h0]
  cases hsp : flatSpin a with
  | raises e => rfl
  | crash => rfl
  | ok spin =>
    have hsg := flatSpin_sg (g := g) hsp
    have hmap : ∀ v, g.map a.fs (a.spin.getD 2) v = g.map a.fs spin v := by
      intro v
      unfold FlatMove.map
      rw [hsg]
    dsimp only [Outcome.bind]
    by_cases hp : (a.purifyE || a.purifyB) ∧ spin ≠ 2
    · rw [if_pos hp, if_pos hp]
    rw [if_neg hp, if_neg hp]
    cases flatShapes a with
    | raises e => rfl
    | crash => rfl
    | ok u =>
      dsimp only
      by_cases hl : ¬ (a.fs.lx > 0 ∧ a.fs.ly > 0)
      · rw [if_pos hl, if_pos hl]
      rw [if_neg hl, if_neg hl]
      cases flatBeam a.beam with
      | raises e => rfl
      | crash => rfl
      | ok beam =>
        dsimp only
        cases hm : a.maps with
        | none =>
          have : (a.move g).maps = none := by unfold FlatFieldArgs.move; rw [hm]; rfl
          rw [this]
          rfl
        | some m =>
          have : (a.move g).maps = some { m with val := g.map a.fs spin m.val } := by
            unfold FlatFieldArgs.move
            rw [hm, ← hmap]
            rfl
          rw [this]
          dsimp only
          congr 1
          have e := flatAlloc_move h ⟨a.fs, spin, a.mask, beam, if a.purifyE then 1 else 0, if a.purifyB then 1 else 0⟩ (by
            intro hpp
            by_contra hne
            refine hp ⟨?_, hne⟩
            cases hE : a.purifyE <;> cases hB : a.purifyB <;> simp [hE, hB] at hpp ⊢) m.val (a.templates.map fun t => (t.ntemp, t.val)) a.tol a.maskedOnInput a.lite
          rw [← e]
          have ht : (a.move g).templates.map (fun t => (t.ntemp, t.val)) =
              (a.templates.map fun t => (t.ntemp, t.val)).map fun x => (x.1, fun i => g.map a.fs spin (x.2 i)) := by
            unfold FlatFieldArgs.move
            cases a.templates with
            | none => rfl
            | some T =>
              simp only [Option.map_some, hmap]
          rw [ht]
          rfl

end NaMaster
