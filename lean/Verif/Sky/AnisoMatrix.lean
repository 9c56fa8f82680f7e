import Verif.Sky.AnisoLemmas
import Verif.Coupling.Props3

/-! # The matrix for anisotropic masks is the one of the means -/

namespace NaMaster

open Finset WignerSpec SkySpec CouplingSpec

/-- The terms of the sum over the multipoles of the mask. -/
noncomputable def anisoTerm (n1 n2 : ℕ) (P : ℕ → ℕ → ℝ) (f1 f2 : ℕ → ℝ) (X Y X' Y' n : ℕ) : ℝ :=
  ∑ k ∈ range 3, ∑ j ∈ range 3, turnSgn k (turnIdx n1 k X') * turnSgn j (turnIdx n2 j Y') *
    (P k j * f1 k * f2 j * mixR X Y (turnIdx n1 k X') (turnIdx n2 j Y') n)

theorem anisoKernel_eq (n1 n2 s1 s2 Nw : ℕ) (pcl : ℕ → ℕ → ℕ → ℝ) (l X Y l' X' Y' : ℕ) :
    anisoKernel n1 n2 s1 s2 Nw pcl l X Y l' X' Y' = ∑ L ∈ range (Nw + 1), (2 * l' + 1) * ((2 * L + 1) / (4 * Real.pi) *
      anisoTerm n1 n2 (fun k j => pcl k j L) (fun k => partFac s1 k X l L l') (fun j => partFac s2 j Y l L l') X Y X' Y' (l + L + l')) := by
  unfold anisoKernel kernelMatrix anisoTerm
  simp only [mul_sum]
  have e : ∀ f : ℕ → ℕ → ℕ → ℝ, ∑ k ∈ range 3, ∑ j ∈ range 3, ∑ L ∈ range (Nw + 1), f k j L =
      ∑ L ∈ range (Nw + 1), ∑ k ∈ range 3, ∑ j ∈ range 3, f k j L := by
    intro f
    have : ∀ k ∈ range 3, ∑ j ∈ range 3, ∑ L ∈ range (Nw + 1), f k j L = ∑ L ∈ range (Nw + 1), ∑ j ∈ range 3, f k j L := fun k _ => sum_comm
    rw [sum_congr rfl this, sum_comm]
  rw [e]
  refine sum_congr rfl fun L _ => sum_congr rfl fun k _ => sum_congr rfl fun j _ => ?_
  ring

/-- The factors in terms of the symbols computed by the library. -/
theorem partFac_wig (s k X l L l' : ℕ) : partFac s k X l L l' = (-1) ^ (L + l + l') *
    if k = 0 then (-1) ^ s * wigAt racah L l l' s (-s) else -wigAt racah L l l' s s := by
  unfold partFac sfac
  rw [wigAt_racah, wigAt_racah]
  have e1 := wigner3j_first L l l' 0 s (-s)
  have e2 := wigner3j_first L l l' (-(2 * s)) s s
  rw [show (-(s : ℤ) - -(s : ℤ)) = 0 by ring, show (-(s : ℤ) - (s : ℤ)) = -(2 * s) by ring, neg_zero, neg_neg, e1, e2, zpow_natCast]
  have hs : ((-1 : ℝ)) ^ s * (-1) ^ s = 1 := by rw [← mul_pow]; norm_num
  split_ifs
  · ring
  · linear_combination -((-1) ^ (L + l + l') * wigner3j L l l' (-(2 * s)) s s) * hs

theorem wig_zero_odd {L l l' : ℕ} (h : ¬ Even (L + l + l')) : wigAt racah L l l' ((0 : ℕ) : ℤ) (-((0 : ℕ) : ℤ)) = 0 := by
  rw [wigAt_racah]
  have e := wigner3j_reversal L l l' 0 0 0
  rw [neg_zero, (Nat.not_even_iff_odd.mp h).neg_one_pow] at e
  have : wigner3j L l l' 0 0 0 = 0 := by linarith
  simpa using this

theorem partFac_below {s k X l L l' : ℕ} (h : l < s ∨ l' < s) : partFac s k X l L l' = 0 := by
  rw [partFac_wig, wigAt_below _ _ _ _ _ _ (by simpa using h), wigAt_below _ _ _ _ _ _ (by simpa using h)]
  simp

theorem wig_triangle {L l l' : ℕ} (h : ¬ Triangle L l l') (m2 m3 : ℤ) : wigAt racah L l l' m2 m3 = 0 := by
  rw [wigAt_racah, wigner3j_not_allowed]
  unfold Allowed
  unfold Triangle at h
  omega

theorem anisoTerm_zero {n1 n2 : ℕ} {P : ℕ → ℕ → ℝ} {f1 f2 : ℕ → ℝ} (X Y X' Y' n : ℕ) (h : (∀ k, f1 k = 0) ∨ ∀ k, f2 k = 0) :
    anisoTerm n1 n2 P f1 f2 X Y X' Y' n = 0 := by
  unfold anisoTerm
  refine sum_eq_zero fun k _ => sum_eq_zero fun j _ => ?_
  rcases h with h | h <;> rw [h] <;> ring

/-- The spectra copied by the library. -/
theorem anisoPcl_val (c o : Bool) (p : ℕ → ℝ) (l : ℕ) (hc : c = false → p l = 0) :
    anisoPcl c o p l = p l * ((if o then -1 else 1) * ((2 * l + 1) / (4 * Real.pi))) := by
  unfold anisoPcl
  cases c
  · rw [hc rfl]; simp
  · simp

/-- Elements of the matrix for an even sum of the multipoles (src/nmt_master.c:594-626). -/
def evenTab (M : ℕ → ℕ → ℝ) : ℕ → ℕ → ℝ
  | 0, 0 => M 0 0 - M 0 1 - M 1 0 + M 1 1
  | 0, 1 => -M 0 2 + M 1 2
  | 0, 2 => -M 2 0 + M 2 1
  | 0, 3 => M 2 2
  | 1, 0 => -M 0 2 + M 1 2
  | 1, 1 => M 0 0 + M 0 1 - M 1 0 - M 1 1
  | 1, 2 => M 2 2
  | 1, 3 => -M 2 0 - M 2 1
  | 2, 0 => -M 2 0 + M 2 1
  | 2, 1 => M 2 2
  | 2, 2 => M 0 0 - M 0 1 + M 1 0 - M 1 1
  | 2, 3 => -M 0 2 - M 1 2
  | 3, 0 => M 2 2
  | 3, 1 => -M 2 0 - M 2 1
  | 3, 2 => -M 0 2 - M 1 2
  | 3, 3 => M 0 0 + M 0 1 + M 1 0 + M 1 1
  | _, _ => 0

/-- Elements of the matrix for an odd sum of the multipoles (src/nmt_master.c:594-626). -/
def oddTab (M : ℕ → ℕ → ℝ) : ℕ → ℕ → ℝ
  | 0, 0 => M 2 2
  | 0, 1 => -M 2 0 - M 2 1
  | 0, 2 => -M 0 2 - M 1 2
  | 0, 3 => M 0 0 + M 0 1 + M 1 0 + M 1 1
  | 1, 0 => M 2 0 - M 2 1
  | 1, 1 => -M 2 2
  | 1, 2 => -M 0 0 + M 0 1 - M 1 0 + M 1 1
  | 1, 3 => M 0 2 + M 1 2
  | 2, 0 => M 0 2 - M 1 2
  | 2, 1 => -M 0 0 - M 0 1 + M 1 0 + M 1 1
  | 2, 2 => -M 2 2
  | 2, 3 => M 2 0 + M 2 1
  | 3, 0 => M 0 0 - M 0 1 - M 1 0 + M 1 1
  | 3, 1 => -M 0 2 + M 1 2
  | 3, 2 => -M 2 0 + M 2 1
  | 3, 3 => M 2 2
  | _, _ => 0

theorem writes16 (v : ℕ → ℕ → ℝ) {x y : ℕ} (hx : x < 4) (hy : y < 4) :
    runWrites [((0, 0), v 0 0), ((0, 1), v 0 1), ((0, 2), v 0 2), ((0, 3), v 0 3), ((1, 0), v 1 0), ((1, 1), v 1 1), ((1, 2), v 1 2),
      ((1, 3), v 1 3), ((2, 0), v 2 0), ((2, 1), v 2 1), ((2, 2), v 2 2), ((2, 3), v 2 3), ((3, 0), v 3 0), ((3, 1), v 3 1), ((3, 2), v 3 2),
      ((3, 3), v 3 3)] (fun _ => 0) (x, y) = v x y := by
  interval_cases x <;> interval_cases y <;> simp [runWrites]

theorem writes4 (v : ℕ → ℕ → ℝ) {x y : ℕ} (hx : x < 2) (hy : y < 2) :
    runWrites [((0, 0), v 0 0), ((0, 1), v 0 1), ((1, 0), v 1 0), ((1, 1), v 1 1)] (fun _ => 0) (x, y) = v x y := by
  interval_cases x <;> interval_cases y <;> simp [runWrites]

/-- The factors of the parts. -/
def partOf (τ u v : ℝ) (k : ℕ) : ℝ := if k = 0 then τ * u else -v

/-- The products of factors as computed by the library. -/
def partProd (τ u1 u2 v1 v2 : ℝ) (P : ℕ → ℕ → ℝ) (k j : ℕ) : ℝ :=
  if k = 0 then (if j = 0 then u1 * u2 * P 0 0 else τ * (u1 * v2) * P 0 j) else if j = 0 then τ * (v1 * u2) * P k 0 else v1 * v2 * P k j

theorem term_ss (P : ℕ → ℕ → ℝ) (u1 u2 v1 v2 τ : ℝ) (hτ : τ * τ = 1) {X Y X' Y' : ℕ} (hX : X < 2) (hY : Y < 2) (hX' : X' < 2) (hY' : Y' < 2)
    (n : ℕ) : anisoTerm 2 2 P (partOf τ u1 v1) (partOf τ u2 v2) X Y X' Y' n =
      if Odd n then oddTab (partProd τ u1 u2 v1 v2 P) (2 * X + Y) (2 * X' + Y') else evenTab (partProd τ u1 u2 v1 v2 P) (2 * X + Y) (2 * X' + Y') := by
  by_cases hn : Odd n
  · have he : ¬ Even n := Nat.not_even_iff_odd.2 hn
    rw [if_pos hn]
    interval_cases X <;> interval_cases Y <;> interval_cases X' <;> interval_cases Y' <;>
      simp [anisoTerm, sum_range_succ, turnSgn, turnIdx, mixR, he, oddTab, partOf, partProd] <;> first | ring1 | linear_combination P 0 0 * u1 * u2 * hτ | linear_combination -P 0 0 * u1 * u2 * hτ
  · have he : Even n := Nat.not_odd_iff_even.1 hn
    rw [if_neg hn]
    interval_cases X <;> interval_cases Y <;> interval_cases X' <;> interval_cases Y' <;>
      simp [anisoTerm, sum_range_succ, turnSgn, turnIdx, mixR, he, evenTab, partOf, partProd] <;> first | ring1 | linear_combination P 0 0 * u1 * u2 * hτ | linear_combination -P 0 0 * u1 * u2 * hτ

/-- The nine products that the elements are made of (src/nmt_master.c:564-586). -/
noncomputable def anisoM (W : Wigner) (a : AnisoArgs) (p : AnisoPcl) (l l' l1 : ℕ) : ℕ → ℕ → ℝ
  | 0, 0 => wigAt W l1 l l' a.spin1 (-a.spin1) * wigAt W l1 l l' a.spin2 (-a.spin2) * anisoPcl true false p.p00 l1
  | 0, 1 => if a.aniso2 then wigAt W l1 l l' a.spin1 (-a.spin1) * wigAt W l1 l l' a.spin2 a.spin2 * anisoPcl a.aniso2 (a.spin2 % 2 == 1) p.p0e l1 else 0
  | 0, 2 => if a.aniso2 then wigAt W l1 l l' a.spin1 (-a.spin1) * wigAt W l1 l l' a.spin2 a.spin2 * anisoPcl a.aniso2 (a.spin2 % 2 == 1) p.p0b l1 else 0
  | 1, 0 => if a.aniso1 then wigAt W l1 l l' a.spin1 a.spin1 * wigAt W l1 l l' a.spin2 (-a.spin2) * anisoPcl a.aniso1 (a.spin1 % 2 == 1) p.pe0 l1 else 0
  | 2, 0 => if a.aniso1 then wigAt W l1 l l' a.spin1 a.spin1 * wigAt W l1 l l' a.spin2 (-a.spin2) * anisoPcl a.aniso1 (a.spin1 % 2 == 1) p.pb0 l1 else 0
  | 1, 1 => if a.aniso1 && a.aniso2 then wigAt W l1 l l' a.spin1 a.spin1 * wigAt W l1 l l' a.spin2 a.spin2 *
      anisoPcl (a.aniso1 && a.aniso2) ((a.spin1 + a.spin2) % 2 == 1) p.pee l1 else 0
  | 1, 2 => if a.aniso1 && a.aniso2 then wigAt W l1 l l' a.spin1 a.spin1 * wigAt W l1 l l' a.spin2 a.spin2 *
      anisoPcl (a.aniso1 && a.aniso2) ((a.spin1 + a.spin2) % 2 == 1) p.peb l1 else 0
  | 2, 1 => if a.aniso1 && a.aniso2 then wigAt W l1 l l' a.spin1 a.spin1 * wigAt W l1 l l' a.spin2 a.spin2 *
      anisoPcl (a.aniso1 && a.aniso2) ((a.spin1 + a.spin2) % 2 == 1) p.pbe l1 else 0
  | 2, 2 => if a.aniso1 && a.aniso2 then wigAt W l1 l l' a.spin1 a.spin1 * wigAt W l1 l l' a.spin2 a.spin2 *
      anisoPcl (a.aniso1 && a.aniso2) ((a.spin1 + a.spin2) % 2 == 1) p.pbb l1 else 0
  | _, _ => 0

theorem cells_ss (W : Wigner) (a : AnisoArgs) (p : AnisoPcl) (q1 : a.spin1 ≠ 0) (q2 : a.spin2 ≠ 0) (l l' : ℕ) {x y : ℕ} (hx : x < 4) (hy : y < 4) :
    runWrites (a.cells W p l l') (fun _ => 0) (x, y) = sumMask a.lmaxMask l l' fun l1 => (2 * (l' : ℝ) + 1) *
      ((if Odd (l1 + l + l') then 0 else 1) * evenTab (anisoM W a p l l' l1) x y +
        (if Odd (l1 + l + l') then 1 else 0) * oddTab (anisoM W a p l l' l1) x y) := by
  unfold AnisoArgs.cells
  dsimp only
  rw [if_neg (fun h => q1 h.1), if_neg (fun h => q2 h.2), if_pos ⟨q1, q2⟩]
  exact writes16 (fun x y => sumMask a.lmaxMask l l' fun l1 => (2 * (l' : ℝ) + 1) *
      ((if Odd (l1 + l + l') then 0 else 1) * evenTab (anisoM W a p l l' l1) x y +
        (if Odd (l1 + l + l') then 1 else 0) * oddTab (anisoM W a p l l' l1) x y)) hx hy

/-- Elements of the matrix if only the second field has spin (src/nmt_master.c:588-592). -/
def tab0s (M : ℕ → ℕ → ℝ) : ℕ → ℕ → ℝ
  | 0, 0 => M 0 0 - M 0 1
  | 0, 1 => -M 0 2
  | 1, 0 => -M 0 2
  | 1, 1 => M 0 0 + M 0 1
  | _, _ => 0

/-- Elements of the matrix if only the first field has spin (src/nmt_master.c:588-592). -/
def tabs0 (M : ℕ → ℕ → ℝ) : ℕ → ℕ → ℝ
  | 0, 0 => M 0 0 - M 1 0
  | 0, 1 => -M 2 0
  | 1, 0 => -M 2 0
  | 1, 1 => M 0 0 + M 1 0
  | _, _ => 0

theorem cells_0s (W : Wigner) (a : AnisoArgs) (p : AnisoPcl) (q1 : a.spin1 = 0) (q2 : a.spin2 ≠ 0) (l l' : ℕ) {x y : ℕ} (hx : x < 2) (hy : y < 2) :
    runWrites (a.cells W p l l') (fun _ => 0) (x, y) = sumMask a.lmaxMask l l' fun l1 => (2 * (l' : ℝ) + 1) * tab0s (anisoM W a p l l' l1) x y := by
  unfold AnisoArgs.cells
  dsimp only
  rw [if_pos ⟨q1, q2⟩]
  exact writes4 (fun x y => sumMask a.lmaxMask l l' fun l1 => (2 * (l' : ℝ) + 1) * tab0s (anisoM W a p l l' l1) x y) hx hy

theorem cells_s0 (W : Wigner) (a : AnisoArgs) (p : AnisoPcl) (q1 : a.spin1 ≠ 0) (q2 : a.spin2 = 0) (l l' : ℕ) {x y : ℕ} (hx : x < 2) (hy : y < 2) :
    runWrites (a.cells W p l l') (fun _ => 0) (x, y) = sumMask a.lmaxMask l l' fun l1 => (2 * (l' : ℝ) + 1) * tabs0 (anisoM W a p l l' l1) x y := by
  unfold AnisoArgs.cells
  dsimp only
  rw [if_neg (fun h => q1 h.1), if_pos ⟨q1, q2⟩]
  exact writes4 (fun x y => sumMask a.lmaxMask l l' fun l1 => (2 * (l' : ℝ) + 1) * tabs0 (anisoM W a p l l' l1) x y) hx hy

theorem term_0s (P : ℕ → ℕ → ℝ) (hP : ∀ k j, k ≠ 0 → P k j = 0) (u1 u2 v1 v2 τ : ℝ) (hτ : τ * τ = 1) {Y Y' : ℕ} (hY : Y < 2) (hY' : Y' < 2)
    (n : ℕ) (hn : ¬ Even n → u1 = 0) : anisoTerm 1 2 P (partOf τ u1 v1) (partOf τ u2 v2) 0 Y 0 Y' n = tab0s (partProd τ u1 u2 v1 v2 P) Y Y' := by
  have p1 := fun j => hP 1 j one_ne_zero
  have p2 := fun j => hP 2 j two_ne_zero
  by_cases he : Even n
  · interval_cases Y <;> interval_cases Y' <;>
      simp [anisoTerm, sum_range_succ, turnSgn, turnIdx, mixR, he, tab0s, partOf, partProd, p1, p2] <;> first | ring1 | linear_combination P 0 0 * u1 * u2 * hτ
  · rw [hn he]
    interval_cases Y <;> interval_cases Y' <;>
      simp [anisoTerm, sum_range_succ, turnSgn, turnIdx, mixR, he, tab0s, partOf, partProd, p1, p2]

theorem term_s0 (P : ℕ → ℕ → ℝ) (hP : ∀ k j, j ≠ 0 → P k j = 0) (u1 u2 v1 v2 τ : ℝ) (hτ : τ * τ = 1) {X X' : ℕ} (hX : X < 2) (hX' : X' < 2)
    (n : ℕ) (hn : ¬ Even n → u2 = 0) : anisoTerm 2 1 P (partOf τ u1 v1) (partOf τ u2 v2) X 0 X' 0 n = tabs0 (partProd τ u1 u2 v1 v2 P) X X' := by
  have p1 := fun j => hP j 1 one_ne_zero
  have p2 := fun j => hP j 2 two_ne_zero
  by_cases he : Even n
  · interval_cases X <;> interval_cases X' <;>
      simp [anisoTerm, sum_range_succ, turnSgn, turnIdx, mixR, he, tabs0, partOf, partProd, p1, p2] <;> first | ring1 | linear_combination P 0 0 * u1 * u2 * hτ
  · rw [hn he]
    interval_cases X <;> interval_cases X' <;>
      simp [anisoTerm, sum_range_succ, turnSgn, turnIdx, mixR, he, tabs0, partOf, partProd, p1, p2]

theorem evenTab_smul (M N : ℕ → ℕ → ℝ) (c : ℝ) (h : ∀ k < 3, ∀ j < 3, M k j = N k j * c) (x y : ℕ) : evenTab M x y = evenTab N x y * c := by
  unfold evenTab
  split <;> first | exact h 2 (by omega) 2 (by omega) | (simp only [h 0 (by omega) 0 (by omega), h 0 (by omega) 1 (by omega), h 0 (by omega) 2 (by omega), h 1 (by omega) 0 (by omega), h 1 (by omega) 1 (by omega), h 1 (by omega) 2 (by omega), h 2 (by omega) 0 (by omega), h 2 (by omega) 1 (by omega), h 2 (by omega) 2 (by omega)]; ring1) | ring1

theorem oddTab_smul (M N : ℕ → ℕ → ℝ) (c : ℝ) (h : ∀ k < 3, ∀ j < 3, M k j = N k j * c) (x y : ℕ) : oddTab M x y = oddTab N x y * c := by
  unfold oddTab
  split <;> first | exact h 2 (by omega) 2 (by omega) | (simp only [h 0 (by omega) 0 (by omega), h 0 (by omega) 1 (by omega), h 0 (by omega) 2 (by omega), h 1 (by omega) 0 (by omega), h 1 (by omega) 1 (by omega), h 1 (by omega) 2 (by omega), h 2 (by omega) 0 (by omega), h 2 (by omega) 1 (by omega), h 2 (by omega) 2 (by omega)]; ring1) | ring1

theorem tab0s_smul (M N : ℕ → ℕ → ℝ) (c : ℝ) (h : ∀ k < 3, ∀ j < 3, M k j = N k j * c) (x y : ℕ) : tab0s M x y = tab0s N x y * c := by
  unfold tab0s
  split <;> first | exact h 2 (by omega) 2 (by omega) | (simp only [h 0 (by omega) 0 (by omega), h 0 (by omega) 1 (by omega), h 0 (by omega) 2 (by omega)]; ring1) | ring1

theorem tabs0_smul (M N : ℕ → ℕ → ℝ) (c : ℝ) (h : ∀ k < 3, ∀ j < 3, M k j = N k j * c) (x y : ℕ) : tabs0 M x y = tabs0 N x y * c := by
  unfold tabs0
  split <;> first | exact h 2 (by omega) 2 (by omega) | (simp only [h 0 (by omega) 0 (by omega), h 1 (by omega) 0 (by omega), h 2 (by omega) 0 (by omega)]; ring1) | ring1

theorem anisoTerm_scale (n1 n2 : ℕ) (P : ℕ → ℕ → ℝ) (f1 f2 g1 g2 : ℕ → ℝ) (ε : ℝ) (hε : ε * ε = 1) (h1 : ∀ k, f1 k = ε * g1 k)
    (h2 : ∀ k, f2 k = ε * g2 k) (X Y X' Y' n : ℕ) : anisoTerm n1 n2 P f1 f2 X Y X' Y' n = anisoTerm n1 n2 P g1 g2 X Y X' Y' n := by
  unfold anisoTerm
  refine sum_congr rfl fun k _ => sum_congr rfl fun j _ => ?_
  rw [h1, h2]
  linear_combination turnSgn k (turnIdx n1 k X') * turnSgn j (turnIdx n2 j Y') *
    (P k j * g1 k * g2 j * mixR X Y (turnIdx n1 k X') (turnIdx n2 j Y') n) * hε

/-- The matrix computed by the library is the one that gives the means. -/
theorem aniso_matrix_kernel (a : AnisoArgs) (heven : Even (a.spin1 + a.spin2)) (hs : a.spin1 ≠ 0 ∨ a.spin2 ≠ 0)
    (h1 : a.aniso1 = true → a.spin1 ≠ 0) (h2 : a.aniso2 = true → a.spin2 ≠ 0) (lmax : ℕ) (pcl : ℕ → ℕ → ℕ → ℝ)
    (hz1 : a.aniso1 = false → ∀ k j L, k ≠ 0 → pcl k j L = 0) (hz2 : a.aniso2 = false → ∀ k j L, j ≠ 0 → pcl k j L = 0)
    {l l' X Y X' Y' : ℕ} (hl : l ≤ lmax) (hl' : l' ≤ lmax) (hX : X < ncomp a.spin1) (hY : Y < ncomp a.spin2) (hX' : X' < ncomp a.spin1)
    (hY' : Y' < ncomp a.spin2) :
    namedAnisoMatrix racah a lmax (pcl 0 0) (pcl 0 1) (pcl 0 2) (pcl 1 0) (pcl 2 0) (pcl 1 1) (pcl 1 2) (pcl 2 1) (pcl 2 2)
      (a.ncls * l + (ncomp a.spin2 * X + Y)) (a.ncls * l' + (ncomp a.spin2 * X' + Y')) =
      anisoKernel (ncomp a.spin1) (ncomp a.spin2) a.spin1 a.spin2 a.lmaxMask pcl l X Y l' X' Y' := by
  have hn : a.ncls = ncomp a.spin1 * ncomp a.spin2 := by
    unfold AnisoArgs.ncls ncomp
    by_cases q1 : a.spin1 = 0 <;> by_cases q2 : a.spin2 = 0 <;> simp [q1, q2]
  have hx : ∀ {X Y}, X < ncomp a.spin1 → Y < ncomp a.spin2 → ncomp a.spin2 * X + Y < a.ncls := by
    intro X Y hX hY
    rw [hn]
    nlinarith
  unfold namedAnisoMatrix
  rw [a.matrix_apply racah lmax _ hl hl' (hx hX hY) (hx hX' hY'), anisoKernel_eq]
  by_cases hr : max a.spin1 a.spin2 ≤ l ∧ max a.spin1 a.spin2 ≤ l'
  swap
  · rw [if_neg hr]
    symm
    refine sum_eq_zero fun L _ => ?_
    rw [anisoTerm_zero, mul_zero, mul_zero]
    by_cases q : l < a.spin1 ∨ l' < a.spin1
    · exact Or.inl fun k => partFac_below q
    · exact Or.inr fun k => partFac_below (by omega)
  rw [if_pos hr]
  have ho12 : ((a.spin1 + a.spin2) % 2 == 1) = false := by
    have := Nat.even_iff.1 heven
    simp [this]
  have hpar : a.spin1 % 2 = a.spin2 % 2 := by
    have := Nat.even_iff.1 heven
    omega
  have hneg1 : ((-1 : ℝ)) ^ a.spin1 = if (a.spin2 % 2 == 1) then -1 else 1 := by
    rw [← hpar]
    rcases Nat.even_or_odd a.spin1 with q | q
    · rw [q.neg_one_pow, Nat.even_iff.1 q]; rfl
    · rw [q.neg_one_pow, Nat.odd_iff.1 q]; rfl
  have hneg2 : ((-1 : ℝ)) ^ a.spin2 = if (a.spin2 % 2 == 1) then -1 else 1 := by
    rcases Nat.even_or_odd a.spin2 with q | q
    · rw [q.neg_one_pow, Nat.even_iff.1 q]; rfl
    · rw [q.neg_one_pow, Nat.odd_iff.1 q]; rfl
  obtain ⟨τ, hτ⟩ : ∃ τ : ℝ, τ = if (a.spin2 % 2 == 1) then -1 else 1 := ⟨_, rfl⟩
  rw [← hτ] at hneg1 hneg2
  have hτ2 : τ * τ = 1 := by rw [hτ]; split_ifs <;> norm_num
  have hb : (a.aniso1 && a.aniso2) = false → a.aniso1 = false ∨ a.aniso2 = false := by
    intro h; cases q1 : a.aniso1 <;> cases q2 : a.aniso2 <;> simp_all
  have m00 : ∀ L, anisoPcl true false (pcl 0 0) L = pcl 0 0 L * ((2 * L + 1) / (4 * Real.pi)) := by
    intro L; rw [anisoPcl_val _ _ _ _ (fun h => absurd h (by decide))]; simp
  have m0 : ∀ j, j ≠ 0 → ∀ L (u : ℝ), (if a.aniso2 = true then u * anisoPcl a.aniso2 (a.spin2 % 2 == 1) (pcl 0 j) L else 0) =
      τ * u * pcl 0 j L * ((2 * L + 1) / (4 * Real.pi)) := by
    intro j hj L u
    by_cases q : a.aniso2 = true
    · rw [if_pos q, anisoPcl_val _ _ _ _ (fun h => hz2 h 0 j L hj), ← hτ]; ring
    · rw [if_neg q, hz2 (by simpa using q) 0 j L hj]; ring
  have m1 : ∀ j, j ≠ 0 → ∀ L (u : ℝ), (if a.aniso1 = true then u * anisoPcl a.aniso1 (a.spin1 % 2 == 1) (pcl j 0) L else 0) =
      τ * u * pcl j 0 L * ((2 * L + 1) / (4 * Real.pi)) := by
    intro j hj L u
    by_cases q : a.aniso1 = true
    · rw [if_pos q, anisoPcl_val _ _ _ _ (fun h => hz1 h j 0 L hj), hpar, ← hτ]; ring
    · rw [if_neg q, hz1 (by simpa using q) j 0 L hj]; ring
  have m2 : ∀ i, i ≠ 0 → ∀ j, j ≠ 0 → ∀ L (u : ℝ), (if (a.aniso1 && a.aniso2) = true then u * anisoPcl (a.aniso1 && a.aniso2) false (pcl i j) L else 0) =
      u * pcl i j L * ((2 * L + 1) / (4 * Real.pi)) := by
    intro i hi j hj L u
    have hz : (a.aniso1 && a.aniso2) = false → pcl i j L = 0 := by
      intro h
      rcases hb h with h | h
      · exact hz1 h i j L hi
      · exact hz2 h i j L hj
    by_cases q : (a.aniso1 && a.aniso2) = true
    · rw [if_pos q, anisoPcl_val _ _ _ _ hz]; simp; ring
    · rw [if_neg q, hz (by simpa using q)]; ring
  have hM : ∀ L, ∀ k < 3, ∀ j < 3, anisoM racah a ⟨pcl 0 0, pcl 0 1, pcl 1 0, pcl 0 2, pcl 2 0, pcl 1 1, pcl 1 2, pcl 2 1, pcl 2 2⟩ l l' L k j =
      partProd τ (wigAt racah L l l' a.spin1 (-a.spin1)) (wigAt racah L l l' a.spin2 (-a.spin2)) (wigAt racah L l l' a.spin1 a.spin1)
          (wigAt racah L l l' a.spin2 a.spin2) (fun k j => pcl k j L) k j * ((2 * (L : ℝ) + 1) / (4 * Real.pi)) := by
    intro L k hk j hj
    interval_cases k <;> interval_cases j <;> unfold anisoM partProd <;>
      simp only [ho12, m00, m0 1 one_ne_zero, m0 2 two_ne_zero, m1 1 one_ne_zero, m1 2 two_ne_zero, m2 1 one_ne_zero 1 one_ne_zero,
        m2 1 one_ne_zero 2 two_ne_zero, m2 2 two_ne_zero 1 one_ne_zero, m2 2 two_ne_zero 2 two_ne_zero, if_true, one_ne_zero, two_ne_zero, if_false] <;>
      ring
  have hf : ∀ (s : ℕ) (X L k : ℕ), ((-1 : ℝ)) ^ s = τ → partFac s k X l L l' = (-1) ^ (L + l + l') *
      partOf τ (wigAt racah L l l' s (-s)) (wigAt racah L l l' s s) k := by
    intro s X L k h
    rw [partFac_wig, h]
    rfl
  have hterm : ∀ L, anisoTerm (ncomp a.spin1) (ncomp a.spin2) (fun k j => pcl k j L) (fun k => partFac a.spin1 k X l L l')
        (fun j => partFac a.spin2 j Y l L l') X Y X' Y' (l + L + l') = anisoTerm (ncomp a.spin1) (ncomp a.spin2) (fun k j => pcl k j L)
        (partOf τ (wigAt racah L l l' a.spin1 (-a.spin1)) (wigAt racah L l l' a.spin1 a.spin1))
        (partOf τ (wigAt racah L l l' a.spin2 (-a.spin2)) (wigAt racah L l l' a.spin2 a.spin2)) X Y X' Y' (L + l + l') := by
    intro L
    rw [show l + L + l' = L + l + l' by ring]
    exact anisoTerm_scale _ _ _ _ _ _ _ ((-1) ^ (L + l + l')) (sign_mul_self _) (fun k => hf _ _ _ _ hneg1) (fun k => hf _ _ _ _ hneg2) _ _ _ _ _
  have hzero : ∀ L, ¬ Triangle L l l' → (2 * (l' : ℝ) + 1) * ((2 * L + 1) / (4 * Real.pi) *
      anisoTerm (ncomp a.spin1) (ncomp a.spin2) (fun k j => pcl k j L) (fun k => partFac a.spin1 k X l L l')
        (fun j => partFac a.spin2 j Y l L l') X Y X' Y' (l + L + l')) = 0 := by
    intro L hL
    rw [anisoTerm_zero _ _ _ _ _ (Or.inl fun k => partFac_triangle a.spin1 k X l L l' hL), mul_zero, mul_zero]
  by_cases q1 : a.spin1 = 0
  · have q2 : a.spin2 ≠ 0 := by tauto
    have hn1 : a.aniso1 = false := by
      by_contra h; exact h1 (by simpa using h) q1
    have e1 : ncomp a.spin1 = 1 := by unfold ncomp; rw [if_pos q1]
    have e2 : ncomp a.spin2 = 2 := by unfold ncomp; rw [if_neg q2]
    rw [e1] at hX hX'
    rw [e2] at hY hY'
    obtain rfl : X = 0 := by omega
    obtain rfl : X' = 0 := by omega
    rw [mul_zero, zero_add, zero_add, cells_0s racah a _ q1 q2 l l' hY hY']
    apply sumMask_eq _ _ _ _ _ hzero
    intro L _ _
    rw [hterm, e1, e2, term_0s _ (fun k j hk => hz1 hn1 k j L hk) _ _ _ _ _ hτ2 hY hY' _ (fun h => by rw [q1]; exact wig_zero_odd h),
      tab0s_smul _ _ _ (hM L)]
    ring
  · by_cases q2 : a.spin2 = 0
    · have hn2 : a.aniso2 = false := by
        by_contra h; exact h2 (by simpa using h) q2
      have e1 : ncomp a.spin1 = 2 := by unfold ncomp; rw [if_neg q1]
      have e2 : ncomp a.spin2 = 1 := by unfold ncomp; rw [if_pos q2]
      rw [e1] at hX hX'
      rw [e2] at hY hY'
      obtain rfl : Y = 0 := by omega
      obtain rfl : Y' = 0 := by omega
      simp only [e2, one_mul, add_zero]
      rw [cells_s0 racah a _ q1 q2 l l' hX hX']
      rw [e2] at hzero
      apply sumMask_eq _ _ _ _ _ hzero
      intro L _ _
      rw [e2] at hterm
      rw [hterm, e1, term_s0 _ (fun k j hk => hz2 hn2 k j L hk) _ _ _ _ _ hτ2 hX hX' _ (fun h => by rw [q2]; exact wig_zero_odd h),
        tabs0_smul _ _ _ (hM L)]
      ring
    · have e1 : ncomp a.spin1 = 2 := by unfold ncomp; rw [if_neg q1]
      have e2 : ncomp a.spin2 = 2 := by unfold ncomp; rw [if_neg q2]
      rw [e1] at hX hX'
      rw [e2] at hY hY'
      rw [e1, e2] at hzero hterm ⊢
      rw [cells_ss racah a _ q1 q2 l l' (by omega) (by omega)]
      apply sumMask_eq _ _ _ _ _ hzero
      intro L _ _
      rw [hterm, term_ss _ _ _ _ _ _ hτ2 hX hY hX' hY', evenTab_smul _ _ _ (hM L), oddTab_smul _ _ _ (hM L)]
      split_ifs <;> ring

end NaMaster
