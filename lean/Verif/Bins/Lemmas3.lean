import Verif.Bins.Lemmas2

/-! Helper lemmas: linear constructor, edges, unbinning. -/

set_option linter.unusedSectionVars false

namespace NaMaster

open BinSpec

variable {K : Type*} [Field K] [LinearOrder K]

theorem mkEntries_range (n : ℕ) (bp : ℕ → ℤ) (w f : ℕ → K) :
    mkEntries ((List.range n).map bp) (List.range n) ((List.range n).map w) ((List.range n).map f) =
      .ok ((List.range n).map (fun l => ⟨l, bp l, w l, f l⟩)) := by
  unfold mkEntries
  rw [if_pos (by simp)]
  congr 1
  apply List.ext_getElem
  · simp
  · intro i h1 h2
    simp

theorem list_eq_map_range (n : ℕ) (f : List K) (h : f.length = n) (d : K) :
    f = (List.range n).map (fun l => f.getD l d) := by
  apply List.ext_getElem
  · simp [h]
  · intro i h1 h2
    simp [h1]

theorem replicate_eq_map_range (n : ℕ) (c : K) :
    List.replicate n c = (List.range n).map (fun _ => c) := by
  simp

/-- Entries of the linear scheme. -/
def linEntries (lmax nlb : ℕ) (F : ℕ → K) : List (Entry K) :=
  (List.range (lmax + 1)).map (fun l => ⟨l, linBpw lmax nlb l, 1, F l⟩)

theorem members_linEntries (lmax nlb b : ℕ) (F : ℕ → K) (hn : 1 ≤ nlb)
    (hb : b < (lmax - 1) / nlb) :
    members (linEntries lmax nlb F) lmax b =
      (List.range' (2 + b * nlb) nlb).map (fun l => ⟨l, linBpw lmax nlb l, 1, F l⟩) := by
  unfold members linEntries
  rw [List.filter_map]
  congr 1
  have h1 : (b + 1) * nlb ≤ lmax - 1 := by
    have : b + 1 ≤ (lmax - 1) / nlb := hb
    rwa [Nat.le_div_iff_mul_le (by omega)] at this
  rw [Nat.add_mul, one_mul] at h1
  have h2 := filter_range_interval (lmax + 1) (2 + b * nlb) (2 + (b + 1) * nlb)
    ((fun e : Entry K => decide (e.ell ≤ lmax ∧ e.bpw = (b : ℤ))) ∘
      (fun l => ⟨l, linBpw lmax nlb l, 1, F l⟩))
    (by rw [Nat.add_mul]; omega) (by rw [Nat.add_mul, one_mul]; omega) (by
      intro l hl
      simp only [Function.comp_apply, decide_eq_true_eq]
      rw [linBpw_eq_iff _ _ _ _ hn]
      constructor
      · rintro ⟨_, _, h3⟩; exact h3
      · intro h3; exact ⟨by omega, hb, h3⟩)
  rw [h2]
  congr 1
  rw [Nat.add_mul]; omega

theorem members_linEntries_none (lmax nlb b : ℕ) (F : ℕ → K) (hn : 1 ≤ nlb)
    (hb : ¬ b < (lmax - 1) / nlb) :
    members (linEntries lmax nlb F) lmax b = [] := by
  unfold members linEntries
  rw [List.filter_map, List.map_eq_nil_iff, List.filter_eq_nil_iff]
  intro l _
  simp only [Function.comp_apply, decide_eq_true_eq]
  rw [linBpw_eq_iff _ _ _ _ hn]
  tauto

theorem used_linEntries (lmax nlb b : ℕ) (F : ℕ → K) (hn : 1 ≤ nlb) (h : 1 ≤ (lmax - 1) / nlb) :
    Used (linEntries lmax nlb F) lmax b ↔ b < (lmax - 1) / nlb := by
  unfold Used linEntries
  constructor
  · rintro (rfl | ⟨e, he, h1, h2⟩)
    · omega
    · obtain ⟨l, hl, rfl⟩ := List.mem_map.1 he
      simp only at h2
      by_cases h3 : linBpw lmax nlb l = -1
      · exfalso
        rw [h3] at h2
        have := Int.natCast_nonneg b
        omega
      · have h4 : linBpw lmax nlb l = (((linBpw lmax nlb l).toNat : ℕ) : ℤ) := by
          have h5 : 0 ≤ linBpw lmax nlb l := by
            unfold linBpw at h3 ⊢
            split_ifs at h3 ⊢ with h5
            · exact Int.natCast_nonneg _
            · exact absurd rfl h3
          omega
        have := (linBpw_eq_iff _ _ _ _ hn).1 h4
        omega
  · intro hb
    right
    refine ⟨⟨2 + b * nlb, linBpw lmax nlb (2 + b * nlb), 1, F (2 + b * nlb)⟩, ?_, ?_, ?_⟩
    · rw [List.mem_map]
      refine ⟨2 + b * nlb, ?_, rfl⟩
      have h1 : (b + 1) * nlb ≤ lmax - 1 := by
        have : b + 1 ≤ (lmax - 1) / nlb := hb
        rwa [Nat.le_div_iff_mul_le (by omega)] at this
      rw [Nat.add_mul, one_mul] at h1
      rw [List.mem_range]; omega
    · have h1 : (b + 1) * nlb ≤ lmax - 1 := by
        have : b + 1 ≤ (lmax - 1) / nlb := hb
        rwa [Nat.le_div_iff_mul_le (by omega)] at this
      rw [Nat.add_mul, one_mul] at h1
      simp only; omega
    · simp only
      rw [(linBpw_eq_iff lmax nlb (2 + b * nlb) b hn).2
        ⟨hb, le_rfl, by rw [Nat.add_mul, one_mul]; omega⟩]

section
variable [IsStrictOrderedRing K]

theorem total_linEntries (lmax nlb b : ℕ) (F : ℕ → K) (hn : 1 ≤ nlb)
    (hb : b < (lmax - 1) / nlb) : total (linEntries lmax nlb F) lmax b = (nlb : K) := by
  unfold total
  rw [members_linEntries _ _ _ _ hn hb, List.map_map]
  simp [Function.comp_def]

theorem create_linEntries_ok (lmax nlb : ℕ) (F : ℕ → K) (hn : 1 ≤ nlb) (h : nlb + 1 ≤ lmax) :
    binsCreate (linEntries lmax nlb F) lmax = .ok (linear lmax nlb (fun l => cleanF (F l))) := by
  have h1 : 1 ≤ (lmax - 1) / nlb := by
    rw [Nat.le_div_iff_mul_le (by omega)]; omega
  have hc : countBands (linEntries lmax nlb F) lmax = (lmax - 1) / nlb := by
    apply eq_of_forall_lt_iff
    intro c
    rw [lt_countBands, used_linEntries _ _ _ _ hn h1]
  rw [binsCreate_ok]
  constructor
  · intro b hb
    rw [hc] at hb
    rw [total_linEntries _ _ _ _ hn hb]
    exact_mod_cast hn
  · rw [hc]
    unfold linear
    congr 1
    apply List.map_congr_left
    intro b hb
    have hb : b < (lmax - 1) / nlb := by simpa using hb
    unfold bandOf
    rw [total_linEntries _ _ _ _ hn hb, members_linEntries _ _ _ _ hn hb, List.map_map]
    rfl

theorem create_linEntries_error (lmax nlb : ℕ) (F : ℕ → K) (hn : 1 ≤ nlb) (h : ¬ nlb + 1 ≤ lmax) :
    ∃ e, binsCreate (linEntries lmax nlb F) lmax = .error e := by
  cases hB : binsCreate (linEntries lmax nlb F) lmax with
  | error e => exact ⟨e, rfl⟩
  | ok B =>
    exfalso
    have h1 := ((binsCreate_ok _ _ _).1 hB).1 0 ((lt_countBands _ _ _).2 (Or.inl rfl))
    unfold total at h1
    rw [members_linEntries_none _ _ _ _ hn] at h1
    · simp at h1
    · have : (lmax - 1) / nlb = 0 := Nat.div_eq_of_lt (by omega)
      omega

end

/-! ### Unbinning -/

section
variable {K : Type*} [Field K]

theorem unbinBand_notMem (c : K) (band : List (BandEntry K)) (out : ℕ → K) (l : ℕ)
    (h : l ∉ band.map (·.ell)) : unbinBand c band out l = out l := by
  unfold unbinBand
  induction band generalizing out with
  | nil => rfl
  | cons e t ih =>
    rw [List.foldl_cons, ih]
    · rw [Function.update_of_ne]
      intro h'; apply h; simp [h']
    · intro h'; apply h; simp at h' ⊢; exact Or.inr h'

theorem unbinBand_mem (c : K) (band : List (BandEntry K)) (out : ℕ → K) (e : BandEntry K)
    (he : e ∈ band) (hnd : (band.map (·.ell)).Nodup) : unbinBand c band out e.ell = c / e.f := by
  induction band generalizing out with
  | nil => simp at he
  | cons a t ih =>
    have hstep : unbinBand c (a :: t) out =
        unbinBand c t (Function.update out a.ell (c / a.f)) := rfl
    rw [hstep]
    simp only [List.map_cons, List.nodup_cons] at hnd
    rcases List.mem_cons.1 he with rfl | he
    · rw [unbinBand_notMem _ _ _ _ hnd.1, Function.update_self]
    · exact ih _ he hnd.2

theorem unbinFrom_notMem (x : ℕ → K) (i : ℕ) (bs : List (List (BandEntry K))) (out : ℕ → K) (l : ℕ)
    (h : l ∉ bs.flatten.map (·.ell)) : unbinFrom x i bs out l = out l := by
  induction bs generalizing i out with
  | nil => rfl
  | cons b bs ih =>
    simp only [List.flatten_cons, List.map_append, List.mem_append, not_or] at h
    unfold unbinFrom
    rw [ih _ _ h.2, unbinBand_notMem _ _ _ _ h.1]

theorem unbinFrom_mem (x : ℕ → K) (i : ℕ) (bs : List (List (BandEntry K))) (out : ℕ → K)
    (k : ℕ) (hk : k < bs.length) (e : BandEntry K) (he : e ∈ bs[k])
    (hnd : (bs.flatten.map (·.ell)).Nodup) : unbinFrom x i bs out e.ell = x (i + k) / e.f := by
  induction bs generalizing i out k with
  | nil => simp at hk
  | cons b bs ih =>
    simp only [List.flatten_cons, List.map_append] at hnd
    rw [List.nodup_append] at hnd
    unfold unbinFrom
    cases k with
    | zero =>
      simp only [List.getElem_cons_zero] at he
      rw [unbinFrom_notMem]
      · rw [unbinBand_mem _ _ _ _ he hnd.1]; rfl
      · intro h
        exact hnd.2.2 e.ell (List.mem_map.2 ⟨e, he, rfl⟩) e.ell h rfl
    | succ k =>
      simp only [List.getElem_cons_succ] at he
      rw [ih (i + 1) _ k (by simpa using hk) he hnd.2.1]
      congr 2; omega

end

/-! ### Edges -/

/-- Entries produced by the edge loop, with prefactors taken from a list. -/
def edgeEntries : ℕ → List (ℕ × ℕ) → List K → List (Entry K)
  | _, [], _ => []
  | ib, (li, le) :: t, f =>
    (List.range' li (le - li)).zipWith (fun l x => ⟨l, (ib : ℤ), 1 / ((le - li : ℕ) : K), x⟩) f ++
      edgeEntries (ib + 1) t (f.drop (le - li))

theorem edgeLists_length (ib : ℕ) (edges : List (ℕ × ℕ)) :
    (edgeLists (K := K) ib edges).2.1.length = (edgeLists (K := K) ib edges).1.length ∧
    (edgeLists (K := K) ib edges).2.2.length = (edgeLists (K := K) ib edges).1.length ∧
    (edgeLists (K := K) ib edges).1.length = (edges.map (fun p => p.2 - p.1)).sum := by
  induction edges generalizing ib with
  | nil => simp [edgeLists]
  | cons p t ih =>
    obtain ⟨li, le⟩ := p
    have := ih (ib + 1)
    simp [edgeLists, this.1, this.2.1, this.2.2]

theorem edge_zip (ib : ℕ) (edges : List (ℕ × ℕ)) (f : List K)
    (hf : f.length = (edges.map (fun p => p.2 - p.1)).sum) :
    ((edgeLists (K := K) ib edges).1.zip ((edgeLists (K := K) ib edges).2.1.zip
      ((edgeLists (K := K) ib edges).2.2.zip f))).map
        (fun x => (⟨x.1, x.2.1, x.2.2.1, x.2.2.2⟩ : Entry K)) = edgeEntries ib edges f := by
  induction edges generalizing ib f with
  | nil => simp [edgeLists, edgeEntries]
  | cons p t ih =>
    obtain ⟨li, le⟩ := p
    simp only [List.map_cons, List.sum_cons] at hf
    unfold edgeEntries edgeLists
    simp only
    rw [← ih (ib + 1) (f.drop (le - li)) (by rw [List.length_drop]; omega)]
    conv_lhs => rw [← List.take_append_drop (le - li) f]
    rw [List.zip_append (by simp; omega), List.zip_append (by simp; omega),
      List.zip_append (by simp; omega), List.map_append]
    congr 1
    apply List.ext_getElem
    · simp
    · intro i h1 h2
      simp

/-- Entries of one band given by its edges. -/
def edgePiece (ib : ℕ) (p : ℕ × ℕ) (f : List K) : List (Entry K) :=
  (List.range' p.1 (p.2 - p.1)).zipWith
    (fun l x => ⟨l, (ib : ℤ), 1 / ((p.2 - p.1 : ℕ) : K), x⟩) f

theorem edgeEntries_cons (ib : ℕ) (p : ℕ × ℕ) (t : List (ℕ × ℕ)) (f : List K) :
    edgeEntries ib (p :: t) f = edgePiece ib p f ++ edgeEntries (ib + 1) t (f.drop (p.2 - p.1)) := by
  obtain ⟨li, le⟩ := p; rfl

theorem mem_edgePiece (ib : ℕ) (p : ℕ × ℕ) (f : List K) (e : Entry K) (h : e ∈ edgePiece ib p f) :
    p.1 ≤ e.ell ∧ e.ell < p.2 ∧ e.bpw = (ib : ℤ) := by
  unfold edgePiece at h
  rw [List.mem_iff_getElem] at h
  obtain ⟨i, hi, rfl⟩ := h
  simp only [List.length_zipWith, List.length_range'] at hi
  simp only [List.getElem_zipWith, List.getElem_range']
  exact ⟨by omega, by omega, trivial⟩

theorem mem_edgeEntries_ge (ib : ℕ) (edges : List (ℕ × ℕ)) (f : List K) (e : Entry K)
    (h : e ∈ edgeEntries ib edges f) : (ib : ℤ) ≤ e.bpw := by
  induction edges generalizing ib f with
  | nil => simp [edgeEntries] at h
  | cons p t ih =>
    rw [edgeEntries_cons, List.mem_append] at h
    rcases h with h | h
    · rw [(mem_edgePiece _ _ _ _ h).2.2]
    · have := ih _ _ h
      push_cast at this; omega

theorem mem_edgeEntries_lt (ib : ℕ) (edges : List (ℕ × ℕ)) (f : List K) (e : Entry K)
    (h : e ∈ edgeEntries ib edges f) : e.bpw < (ib + edges.length : ℕ) := by
  induction edges generalizing ib f with
  | nil => simp [edgeEntries] at h
  | cons p t ih =>
    rw [edgeEntries_cons, List.mem_append] at h
    rcases h with h | h
    · rw [(mem_edgePiece _ _ _ _ h).2.2]; simp
    · have := ih _ _ h
      simp only [List.length_cons]; push_cast at this ⊢; omega

theorem filter_edgePiece (lmax ib b : ℕ) (p : ℕ × ℕ) (f : List K) (hl : p.2 ≤ lmax + 1) :
    members (edgePiece ib p f) lmax b = if b = ib then edgePiece ib p f else [] := by
  unfold members
  split_ifs with h
  · rw [List.filter_eq_self]
    intro e he
    have := mem_edgePiece _ _ _ _ he
    simp only [decide_eq_true_eq]
    exact ⟨by omega, by rw [this.2.2, h]⟩
  · rw [List.filter_eq_nil_iff]
    intro e he
    have := mem_edgePiece _ _ _ _ he
    simp only [decide_eq_true_eq]
    rintro ⟨_, h2⟩
    rw [this.2.2] at h2
    exact h (by omega)

theorem members_append (a c : List (Entry K)) (lmax b : ℕ) :
    members (a ++ c) lmax b = members a lmax b ++ members c lmax b := by
  unfold members; rw [List.filter_append]

theorem members_edgeEntries_lt (lmax ib b : ℕ) (edges : List (ℕ × ℕ)) (f : List K) (hb : b < ib) :
    members (edgeEntries ib edges f) lmax b = [] := by
  unfold members
  rw [List.filter_eq_nil_iff]
  intro e he
  have := mem_edgeEntries_ge _ _ _ _ he
  simp only [decide_eq_true_eq]
  rintro ⟨_, h2⟩
  omega

theorem members_edgeEntries (lmax ib k : ℕ) (edges : List (ℕ × ℕ)) (f : List K)
    (hl : ∀ p ∈ edges, p.2 ≤ lmax + 1) (hk : k < edges.length) :
    members (edgeEntries ib edges f) lmax (ib + k) =
      edgePiece (ib + k) edges[k] (f.drop (offset edges k)) := by
  induction edges generalizing ib k f with
  | nil => simp at hk
  | cons p t ih =>
    rw [edgeEntries_cons, members_append, filter_edgePiece _ _ _ _ _ (hl p (by simp))]
    cases k with
    | zero =>
      rw [if_pos (by omega), members_edgeEntries_lt _ _ _ _ _ (by omega)]
      simp [offset]
    | succ k =>
      rw [if_neg (by omega)]
      have := ih (ib + 1) k (f.drop (p.2 - p.1)) (fun q hq => hl q (by simp [hq])) (by simpa using hk)
      rw [show ib + (k + 1) = ib + 1 + k by omega, this]
      simp only [List.nil_append, List.getElem_cons_succ]
      rw [List.drop_drop]
      congr 2

end NaMaster
