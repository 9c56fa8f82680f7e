import Verif.Span.Spec

/-! # What is removed from maps depends on the span of the templates only -/

namespace NaMaster

open Finset

section
variable {P : Pix} {nm n n' : ℕ}

/-- The part of a map that is removed: combination of `V` with the coefficients of the templates `T` in the map `x`. -/
noncomputable def removed {M : Type*} [AddCommGroup M] [Module ℝ M] (P : Pix) (nm n : ℕ) (Q : ℕ → ℕ → ℝ) (T : ℕ → MapStack) (V : ℕ → M) (x : MapStack) : M :=
  ∑ i ∈ range n, (∑ j ∈ range n, Q i j * P.dot nm (T j) x) • V i

/-- The coefficients of a map. -/
noncomputable def tcoef (P : Pix) (nm n : ℕ) (Q : ℕ → ℕ → ℝ) (T : ℕ → MapStack) (x : MapStack) (i : ℕ) : ℝ := ∑ j ∈ range n, Q i j * P.dot nm (T j) x

theorem projOut_tcoef (Q : ℕ → ℕ → ℝ) (T : ℕ → MapStack) (x : MapStack) :
    projOut P nm n Q T x = fun c p => x c p - combine n (tcoef P nm n Q T x) T c p := by
  funext c p
  unfold projOut combine
  congr 1
  refine sum_congr rfl fun i hi => ?_
  unfold projCoef tcoef
  rw [tab_of_lt _ (mem_range.1 hi)]

/-- Coefficients in the first set of what both sets remove, for templates `T'` that are combinations `A` of `T`. -/
theorem diff_null (hw : ∀ p < P.npix, 0 < P.w p) {T T' : ℕ → MapStack} {Q Q' : ℕ → ℕ → ℝ} (hQ : GenInv n (gram P nm T) Q)
    (hQ' : GenInv n' (gram P nm T') Q') (A : ℕ → ℕ → ℝ) (hA : ∀ i < n', ∀ c < nm, ∀ p < P.npix, T' i c p = combine n (A i) T c p)
    (hB : InSpan nm P.npix n' n T' T) (x : MapStack) (c p : ℕ) (hc : c < nm) (hp : p < P.npix) :
    combine n (fun j => tcoef P nm n Q T x j - ∑ i ∈ range n', tcoef P nm n' Q' T' x i * A i j) T c p = 0 := by
  have hw0 : ∀ p < P.npix, 0 ≤ P.w p := fun p hp => (hw p hp).le
  set al := tcoef P nm n Q T x with hal
  set al' := tcoef P nm n' Q' T' x with hal'
  set z : ℕ → ℝ := fun j => al j - ∑ i ∈ range n', al' i * A i j with hz
  have hd : ∀ c < nm, ∀ p < P.npix, combine n z T c p = combine n al T c p - combine n' al' T' c p := by
    intro c hc p hp
    have e : combine n' al' T' c p = ∑ i ∈ range n', al' i * combine n (A i) T c p := by
      unfold combine
      refine sum_congr rfl fun i hi => ?_
      rw [hA i (mem_range.1 hi) c hc p hp]; rfl
    rw [e]
    unfold combine
    simp only [hz, sub_mul, sum_sub_distrib, sum_mul, mul_sum]
    congr 1
    rw [sum_comm]
    exact sum_congr rfl fun i _ => sum_congr rfl fun j _ => by ring
  have o1 : ∀ i < n, P.dot nm x (T i) = P.dot nm (combine n al T) (T i) := by
    intro i hi
    have h := projOut_orth hw0 T Q hQ x i hi
    rw [projOut_tcoef, dot_sub] at h
    linarith
  have o2 : ∀ i < n', P.dot nm x (T' i) = P.dot nm (combine n' al' T') (T' i) := by
    intro i hi
    have h := projOut_orth hw0 T' Q' hQ' x i hi
    rw [projOut_tcoef, dot_sub] at h
    linarith
  have o3 : ∀ i < n, P.dot nm x (T i) = P.dot nm (combine n' al' T') (T i) := by
    intro i hi
    obtain ⟨b, hb⟩ := hB i hi
    have e : ∀ y : MapStack, P.dot nm y (T i) = ∑ k ∈ range n', b k * P.dot nm y (T' k) := by
      intro y
      rw [dot_congr (fun _ _ _ _ => rfl) hb, dot_comm, dot_combine]
      exact sum_congr rfl fun k _ => by rw [dot_comm]
    rw [e, e]
    exact sum_congr rfl fun k hk => by rw [o2 k (mem_range.1 hk)]
  have hg : ∀ i < n, ∑ j ∈ range n, gram P nm T i j * z j = 0 := by
    intro i hi
    have e1 : ∑ j ∈ range n, gram P nm T i j * z j = P.dot nm (combine n z T) (T i) := by
      rw [dot_combine]
      exact sum_congr rfl fun j _ => by unfold gram; rw [dot_comm]; ring
    rw [e1, dot_congr hd (fun _ _ _ _ => rfl), dot_sub, ← o1 i hi, ← o3 i hi, sub_self]
  have h := null_combine hw0 T z hg c p hc hp
  rcases mul_eq_zero.1 h with h | h
  · exact pow_eq_zero_iff (by norm_num) |>.1 h
  · exact absurd h (hw p hp).ne'

/-- Coefficients for all maps at once. -/
theorem InSpan.matrix {np : ℕ} {U U' : ℕ → MapStack} (h : InSpan nm np n n' U U') :
    ∃ A : ℕ → ℕ → ℝ, ∀ i < n', ∀ c < nm, ∀ p < np, U' i c p = combine n (A i) U c p := by
  have h' : ∀ i, ∃ z : ℕ → ℝ, i < n' → ∀ c < nm, ∀ p < np, U' i c p = combine n z U c p := by
    intro i
    by_cases hi : i < n'
    · obtain ⟨z, hz⟩ := h i hi
      exact ⟨z, fun _ => hz⟩
    · exact ⟨fun _ => 0, fun h => absurd h hi⟩
  choose A hA using h'
  exact ⟨A, hA⟩

/-- What is removed from a map inside the mask depends on the span only. -/
theorem removed_masked (hw : ∀ p < P.npix, 0 < P.w p) {T T' : ℕ → MapStack} {Q Q' : ℕ → ℕ → ℝ} (hQ : GenInv n (gram P nm T) Q)
    (hQ' : GenInv n' (gram P nm T') Q') (h : EqualSpan nm P.npix n n' T T') (x : MapStack) (c p : ℕ) (hc : c < nm) (hp : p < P.npix) :
    combine n (tcoef P nm n Q T x) T c p = combine n' (tcoef P nm n' Q' T' x) T' c p := by
  obtain ⟨A, hA⟩ := h.1.matrix
  have k := diff_null hw hQ hQ' A hA h.2 x c p hc hp
  have e : combine n' (tcoef P nm n' Q' T' x) T' c p = ∑ i ∈ range n', tcoef P nm n' Q' T' x i * combine n (A i) T c p := by
    unfold combine
    refine sum_congr rfl fun i hi => ?_
    rw [hA i (mem_range.1 hi) c hc p hp]; rfl
  rw [e]
  unfold combine at k ⊢
  simp only [sub_mul, sum_sub_distrib, sum_mul, mul_sum] at k ⊢
  rw [sum_comm] at k
  rw [sub_eq_zero] at k
  rw [k]
  exact sum_congr rfl fun i _ => sum_congr rfl fun j _ => by ring

/-- What is removed from a map, also outside of the mask, depends on the span only if one of the sets is linearly independent inside the mask. -/
theorem removed_raw (hw : ∀ p < P.npix, 0 < P.w p) {U U' : ℕ → MapStack} {m : ℕ → ℝ} {Q Q' : ℕ → ℕ → ℝ}
    (hQ : GenInv n (gram P nm fun i c p => U i c p * m p) Q) (hQ' : GenInv n' (gram P nm fun i c p => U' i c p * m p) Q')
    (h : EqualSpan nm P.npix n n' U U') (hi : Independent nm P.npix n fun i c p => U i c p * m p) (x : MapStack) (c p : ℕ) (hc : c < nm)
    (hp : p < P.npix) :
    combine n (tcoef P nm n Q (fun i c p => U i c p * m p) x) U c p = combine n' (tcoef P nm n' Q' (fun i c p => U' i c p * m p) x) U' c p := by
  have hm : ∀ (k : ℕ) (b : ℕ → ℝ) (W : ℕ → MapStack) (c p : ℕ), combine k b (fun i c p => W i c p * m p) c p = combine k b W c p * m p := by
    intro k b W c p
    unfold combine
    rw [sum_mul]
    exact sum_congr rfl fun i _ => by ring
  obtain ⟨A, hA⟩ := h.1.matrix
  have k := hi _ fun c hc p hp => diff_null hw hQ hQ' A (fun i hi c hc p hp => by
    rw [hm, hA i hi c hc p hp]) (fun i hi => by
    obtain ⟨b, hb⟩ := h.2 i hi
    exact ⟨b, fun c hc p hp => by rw [hm]; dsimp only; rw [hb c hc p hp]⟩) x c p hc hp
  have e : combine n' (tcoef P nm n' Q' (fun i c p => U' i c p * m p) x) U' c p =
      ∑ i ∈ range n', tcoef P nm n' Q' (fun i c p => U' i c p * m p) x i * combine n (A i) U c p := by
    unfold combine
    refine sum_congr rfl fun i hi => ?_
    rw [hA i (mem_range.1 hi) c hc p hp]; rfl
  rw [e]
  have e2 : combine n (tcoef P nm n Q (fun i c p => U i c p * m p) x) U c p =
      combine n (fun j => ∑ i ∈ range n', tcoef P nm n' Q' (fun i c p => U' i c p * m p) x i * A i j) U c p := by
    unfold combine
    refine sum_congr rfl fun j hj => ?_
    rw [sub_eq_zero.1 (k j (mem_range.1 hj))]
  rw [e2]
  unfold combine
  simp only [sum_mul, mul_sum]
  rw [sum_comm]
  exact sum_congr rfl fun i _ => sum_congr rfl fun j _ => by ring

/-- Sums over pairs of templates with the pseudo-inverse are sums over pixels of what is removed from the map that is one in the pixel. -/
theorem sums_removed {M : Type*} [AddCommGroup M] [Module ℝ M] (hw : ∀ p < P.npix, 0 < P.w p) (Q : ℕ → ℕ → ℝ) (T : ℕ → MapStack)
    (hT : ∀ j < n, T j = tab2 nm P.npix (T j)) (V : ℕ → M) (Φ : M →ₗ[ℝ] MapStack →ₗ[ℝ] ℝ) :
    ∑ i ∈ range n, ∑ j ∈ range n, Q i j * Φ (V i) (T j) =
      ∑ c ∈ range nm, ∑ p ∈ range P.npix, (P.w p)⁻¹ * Φ (removed P nm n Q T V (delta c p)) (delta c p) := by
  have e1 : ∀ i ∈ range n, ∀ j ∈ range n, Q i j * Φ (V i) (T j) =
      ∑ c ∈ range nm, ∑ p ∈ range P.npix, Q i j * (T j c p * Φ (V i) (delta c p)) := by
    intro i _ j hj
    rw [hT j (mem_range.1 hj), tab2_delta]
    simp only [map_sum, map_smul, smul_eq_mul, mul_sum]
    refine sum_congr rfl fun c hc => sum_congr rfl fun p hp => ?_
    rw [← tab2_delta, tab2_of_lt _ (mem_range.1 hc) (mem_range.1 hp)]
  rw [sum_congr rfl fun i hi => sum_congr rfl fun j hj => e1 i hi j hj]
  have e2 : ∀ c ∈ range nm, ∀ p ∈ range P.npix, (P.w p)⁻¹ * Φ (removed P nm n Q T V (delta c p)) (delta c p) =
      ∑ i ∈ range n, ∑ j ∈ range n, Q i j * (T j c p * Φ (V i) (delta c p)) := by
    intro c hc p hp
    unfold removed
    simp only [map_sum, map_smul, LinearMap.sum_apply, LinearMap.smul_apply, smul_eq_mul, mul_sum, sum_mul]
    refine sum_congr rfl fun i _ => sum_congr rfl fun j _ => ?_
    rw [dot_comm, dot_delta P _ (mem_range.1 hc) (mem_range.1 hp)]
    have := (hw p (mem_range.1 hp)).ne'
    field_simp
  rw [sum_congr rfl fun c hc => sum_congr rfl fun p hp => e2 c hc p hp]
  rw [sum_congr rfl fun i _ => sum_comm, sum_comm]
  refine sum_congr rfl fun c _ => ?_
  rw [sum_congr rfl fun i _ => sum_congr rfl fun j _ => rfl]
  rw [sum_congr rfl fun i (_ : i ∈ range n) => (sum_comm (s := range n) (t := range P.npix) (f := fun j p => Q i j * (T j c p * Φ (V i) (delta c p)))), sum_comm]

theorem sums_same {M : Type*} [AddCommGroup M] [Module ℝ M] (hw : ∀ p < P.npix, 0 < P.w p) {Q Q' : ℕ → ℕ → ℝ} {T T' : ℕ → MapStack}
    (hT : ∀ j < n, T j = tab2 nm P.npix (T j)) (hT' : ∀ j < n', T' j = tab2 nm P.npix (T' j)) {V V' : ℕ → M}
    (h : ∀ x, removed P nm n Q T V x = removed P nm n' Q' T' V' x) (Φ : M →ₗ[ℝ] MapStack →ₗ[ℝ] ℝ) :
    ∑ i ∈ range n, ∑ j ∈ range n, Q i j * Φ (V i) (T j) = ∑ i ∈ range n', ∑ j ∈ range n', Q' i j * Φ (V' i) (T' j) := by
  rw [sums_removed hw Q T hT V Φ, sums_removed hw Q' T' hT' V' Φ]
  simp only [h]

end

end NaMaster
