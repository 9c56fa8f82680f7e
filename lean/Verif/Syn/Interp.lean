import Verif.Syn.Wrong

/-! # Interpolated spectra -/

namespace NaMaster

open Finset Real

/-- Linear interpolation is linear in the ordinates. -/
theorem interpLin_add (L : List ℕ) (f g : ℕ → ℝ) (s : ℝ) (x : ℝ) :
    interpLin (L.map fun l : ℕ => ((l : ℝ), f l + s * g l)) x =
      interpLin (L.map fun l : ℕ => ((l : ℝ), f l)) x + s * interpLin (L.map fun l : ℕ => ((l : ℝ), g l)) x := by
  induction L with
  | nil => simp [interpLin]
  | cons a L ih =>
    cases L with
    | nil => simp [interpLin]
    | cons b L =>
      simp only [List.map_cons] at ih ⊢
      unfold interpLin
      by_cases h : x < (b : ℝ)
      · simp only [if_pos h]; ring
      · simp only [if_neg h]; exact ih

/-- Interpolated non-negative ordinates are non-negative. -/
theorem interpLin_nonneg (L : List ℕ) (hL : L.Pairwise (· < ·)) (f : ℕ → ℝ) (hf : ∀ l ∈ L, 0 ≤ f l) (x : ℝ)
    (hx : ∀ l ∈ L.head?, (l : ℝ) ≤ x) : 0 ≤ interpLin (L.map fun l : ℕ => ((l : ℝ), f l)) x := by
  induction L with
  | nil => simp [interpLin]
  | cons a L ih =>
    cases L with
    | nil => simpa [interpLin] using hf
    | cons b L =>
      simp only [List.map_cons]
      unfold interpLin
      have hab : a < b := by
        have := List.pairwise_cons.mp hL
        exact this.1 b (by simp)
      have hax : (a : ℝ) ≤ x := hx a (by simp)
      by_cases h : x < (b : ℝ)
      · simp only [if_pos h]
        have h1 : (0 : ℝ) < b - a := by
          have : (a : ℝ) < b := by exact_mod_cast hab
          linarith
        have e : f a + (x - a) / (b - a) * (f b - f a) = ((b - x) * f a + (x - a) * f b) / (b - a) := by
          field_simp
          ring
        rw [e]
        have fa := hf a (by simp)
        have fb := hf b (by simp)
        have := mul_nonneg (by linarith : 0 ≤ (b : ℝ) - x) fa
        have := mul_nonneg (by linarith : 0 ≤ x - (a : ℝ)) fb
        exact div_nonneg (by linarith) h1.le
      · simp only [if_neg h]
        refine ih (List.pairwise_cons.mp hL).2 (fun l hl => hf l (List.mem_cons_of_mem _ hl)) ?_
        intro l hl
        simp only [List.head?_cons, Option.mem_def, Option.some.injEq] at hl
        rw [← hl]
        exact not_lt.mp h

theorem range_map_getLast {n : ℕ} (f : ℕ → ℝ) (h : (List.range n).map (fun l : ℕ => ((l : ℝ), f l)) ≠ []) :
    ((List.range n).map fun l : ℕ => ((l : ℝ), f l)).getLast h = (((n - 1 : ℕ) : ℝ), f (n - 1)) := by
  rw [List.getLast_eq_getElem]
  simp

/-- The spectrum used at wave number `k`, from at least two tabulated multipoles. -/
theorem synKfun_eq {n : ℕ} (hn : 2 ≤ n) (f : ℕ → ℝ) (k : ℝ) :
    synKfun n f k = if k ≤ 0 then f 0 else if ((n - 1 : ℕ) : ℝ) ≤ k then 0
      else interpLin ((List.range n).map fun l : ℕ => ((l : ℝ), f l)) k := by
  have hpw : List.Pairwise (fun a b : ℝ × ℝ => a.1 < b.1) ((List.range n).map fun l : ℕ => ((l : ℝ), f l)) := by
    rw [List.pairwise_map]
    exact List.pairwise_lt_range.imp fun h => by simpa using h
  have hlast := range_map_getLast (n := n) f (by simp; omega)
  obtain ⟨n, rfl⟩ := Nat.exists_eq_add_of_le' hn
  have hsplit : (List.range (n + 2)).map (fun l : ℕ => ((l : ℝ), f l)) =
      (((0 : ℕ) : ℝ), f 0) :: (((0 + 1 : ℕ) : ℝ), f (0 + 1)) :: (List.range n).map fun l : ℕ => (((l + 1 + 1 : ℕ) : ℝ), f (l + 1 + 1)) := by
    rw [List.range_succ_eq_map, List.range_succ_eq_map]
    simp [Function.comp_def]
  simp only [hsplit] at hpw hlast ⊢
  unfold synKfun
  rw [hsplit]
  unfold kFunction
  simp only
  rw [if_pos hpw]
  rw [List.getLast_cons (by simp)] at hlast
  simp only [hlast, Nat.cast_zero]

theorem synKfun_add {n : ℕ} (hn : 2 ≤ n) (f g : ℕ → ℝ) (s k : ℝ) :
    synKfun n (fun l => f l + s * g l) k = synKfun n f k + s * synKfun n g k := by
  rw [synKfun_eq hn, synKfun_eq hn, synKfun_eq hn, interpLin_add]
  split_ifs <;> ring

theorem synKfun_nonneg {n : ℕ} (hn : 2 ≤ n) {f : ℕ → ℝ} (hf : ∀ l < n, 0 ≤ f l) (k : ℝ) : 0 ≤ synKfun n f k := by
  rw [synKfun_eq hn]
  by_cases h1 : k ≤ 0
  · rw [if_pos h1]; exact hf 0 (by omega)
  · rw [if_neg h1]
    by_cases h2 : ((n - 1 : ℕ) : ℝ) ≤ k
    · rw [if_pos h2]
    · rw [if_neg h2]
      refine interpLin_nonneg _ List.pairwise_lt_range f (fun l hl => hf l (List.mem_range.mp hl)) k ?_
      intro l hl
      obtain ⟨n, rfl⟩ := Nat.exists_eq_add_of_le' hn
      rw [List.range_succ_eq_map] at hl
      simp only [List.head?_cons, Option.mem_def, Option.some.injEq] at hl
      rw [← hl]
      push Not at h1
      simpa using h1.le

theorem synKfun_zero_fun {n : ℕ} (hn : 2 ≤ n) (k : ℝ) : synKfun n (fun _ => 0) k = 0 := by
  have := synKfun_add hn (fun _ => 0) (fun _ => 0) (-1) k
  simp at this
  linarith

theorem synKfun_sum {n : ℕ} (hn : 2 ≤ n) {ι : Type*} (s : Finset ι) (w : ι → ℝ) (f : ι → ℕ → ℝ) (k : ℝ) :
    synKfun n (fun l => ∑ i ∈ s, w i * f i l) k = ∑ i ∈ s, w i * synKfun n (f i) k := by
  classical
  induction s using Finset.induction_on with
  | empty => simp [synKfun_zero_fun hn]
  | insert i s hi ih =>
    rw [Finset.sum_insert hi, ← ih]
    have := synKfun_add hn (fun l => ∑ i ∈ s, w i * f i l) (f i) (w i) k
    rw [add_comm, ← this]
    congr 1
    funext l
    rw [Finset.sum_insert hi, add_comm]

/-- At a tabulated multipole other than the last the spectrum is the given one. -/
theorem synKfun_int {n l : ℕ} (hl : l + 1 < n) (f : ℕ → ℝ) : synKfun n f l = f l := by
  rw [synKfun_eq (by omega)]
  rcases Nat.eq_zero_or_pos l with rfl | hpos
  · simp
  · rw [if_neg (by simp; omega), if_neg (by rw [not_le]; exact_mod_cast (by omega : l < n - 1))]
    have key : ∀ (L : List ℕ), L.Pairwise (· < ·) → l ∈ L → (∃ m ∈ L, l < m) →
        interpLin (L.map fun l : ℕ => ((l : ℝ), f l)) l = f l := by
      intro L
      induction L with
      | nil => simp
      | cons a L ih =>
        intro hpw hm hbig
        cases L with
        | nil =>
          simp only [List.mem_singleton] at hm
          rw [hm]; simp [interpLin]
        | cons b L =>
          have hpw' := List.pairwise_cons.mp hpw
          simp only [List.map_cons]
          unfold interpLin
          by_cases h : (l : ℝ) < b
          · simp only [if_pos h]
            have hlb : l < b := by exact_mod_cast h
            have hla : l = a := by
              rcases List.mem_cons.mp hm with h1 | h1
              · exact h1
              · exfalso
                rcases List.mem_cons.mp h1 with h2 | h2
                · omega
                · have := (List.pairwise_cons.mp hpw'.2).1 l h2
                  omega
            rw [hla]; simp
          · simp only [if_neg h]
            have hlb : b ≤ l := by
              have := not_lt.mp h
              exact_mod_cast this
            have hm' : l ∈ b :: L := by
              rcases List.mem_cons.mp hm with h1 | h1
              · have := hpw'.1 b (by simp)
                omega
              · exact h1
            refine ih hpw'.2 hm' ?_
            obtain ⟨m, hm1, hm2⟩ := hbig
            rcases List.mem_cons.mp hm1 with h1 | h1
            · have := hpw'.1 b (by simp)
              omega
            · exact ⟨m, h1, hm2⟩
    exact key _ List.pairwise_lt_range (List.mem_range.mpr (by omega)) ⟨n - 1, List.mem_range.mpr (by omega), by omega⟩

/-- At the last tabulated multipole it is zero. -/
theorem synKfun_last {n : ℕ} (hn : 2 ≤ n) (f : ℕ → ℝ) : synKfun n f ((n - 1 : ℕ) : ℝ) = 0 := by
  rw [synKfun_eq hn, if_neg (by rw [not_le]; exact_mod_cast (by omega : 0 < n - 1)), if_pos (le_refl _)]

end NaMaster
