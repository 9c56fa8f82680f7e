import Verif.Flat.BinsProps

/-! # Flat-sky bandpowers: C57 -/

set_option linter.unusedSectionVars false

namespace NaMaster

variable {K : Type*} [Field K] [LinearOrder K] [IsStrictOrderedRing K]

/-! ## Interpolation -/

theorem interpLin_segment (pre : List (K × K)) (p q : K × K) (post : List (K × K)) (x : K)
    (hs : (pre ++ p :: q :: post).Pairwise (fun a b : K × K => a.1 < b.1)) (h1 : p.1 ≤ x) (h2 : x < q.1) :
    interpLin (pre ++ p :: q :: post) x = p.2 + (x - p.1) / (q.1 - p.1) * (q.2 - p.2) := by
  induction pre with
  | nil => simp only [List.nil_append, interpLin, if_pos h2]
  | cons a pre ih =>
    have hs' : (pre ++ p :: q :: post).Pairwise (fun a b : K × K => a.1 < b.1) := (List.pairwise_cons.1 hs).2
    cases pre with
    | nil =>
      simp only [List.cons_append, List.nil_append] at *
      rw [interpLin, if_neg (not_lt.2 h1)]
      exact ih hs'
    | cons b pre =>
      have hb : b.1 ≤ p.1 := by
        have := (List.pairwise_cons.1 hs').1 p (by simp)
        exact this.le
      simp only [List.cons_append] at *
      rw [interpLin, if_neg (not_lt.2 (hb.trans h1))]
      exact ih hs'

theorem interpLin_affine (α β : K) (pts : List (K × K)) (hne : pts ≠ [])
    (hs : pts.Pairwise (fun a b : K × K => a.1 < b.1)) (h : ∀ p ∈ pts, p.2 = α + β * p.1) (x : K)
    (h1 : (pts.head hne).1 ≤ x) (h2 : x < (pts.getLast hne).1) : interpLin pts x = α + β * x := by
  induction pts with
  | nil => exact absurd rfl hne
  | cons p pts ih =>
    cases pts with
    | nil => simp only [List.head_cons, List.getLast_singleton] at h1 h2; exact absurd h2 (not_lt.2 h1)
    | cons q pts =>
      rw [interpLin]
      by_cases hx : x < q.1
      · rw [if_pos hx, h p (by simp), h q (by simp)]
        have hpq : p.1 < q.1 := (List.pairwise_cons.1 hs).1 q (by simp)
        have : q.1 - p.1 ≠ 0 := sub_ne_zero.2 hpq.ne'
        field_simp
        ring
      · rw [if_neg hx]
        exact ih (by simp) (List.pairwise_cons.1 hs).2 (fun r hr => h r (List.mem_cons_of_mem _ hr))
          (by simpa using not_lt.1 hx) (by simpa using h2)

/-- Linear combination of two spectra, multipole by multipole. -/
def lincomb (a c : K) (s t : List K) : List K := List.zipWith (fun x y => a * x + c * y) s t

theorem interpLin_lincomb (a c : K) (ls s t : List K) (h1 : s.length = ls.length) (h2 : t.length = ls.length) (x : K) :
    interpLin (ls.zip (lincomb a c s t)) x = a * interpLin (ls.zip s) x + c * interpLin (ls.zip t) x := by
  unfold lincomb
  induction ls generalizing s t with
  | nil => simp [interpLin]
  | cons l ls ih =>
    match s, t, h1, h2 with
    | s₀ :: s, t₀ :: t, h1, h2 =>
      cases ls with
      | nil =>
        match s, t, h1, h2 with
        | [], [], _, _ => simp [interpLin]
      | cons l' ls =>
        match s, t, h1, h2 with
        | s₁ :: s, t₁ :: t, h1, h2 =>
          have := ih (s₁ :: s) (t₁ :: t) (by simpa using h1) (by simpa using h2)
          simp only [List.zip_cons_cons, List.zipWith_cons_cons, interpLin] at this ⊢
          by_cases hx : x < l'
          · simp only [if_pos hx]; ring
          · simp only [if_neg hx]; exact this

theorem pairwise_zip_iff (ls s : List K) (h : s.length = ls.length) :
    (ls.zip s).Pairwise (fun a b : K × K => a.1 < b.1) ↔ ls.Pairwise (· < ·) := by
  have : ls = (ls.zip s).map Prod.fst := by
    rw [List.map_fst_zip (by omega)]
  conv_rhs => rw [this]
  rw [List.pairwise_map]

theorem getLast_zip_fst (l s₁ : K) (ls s : List K) (h : s.length = ls.length) :
    (((l, s₁) :: ls.zip s).getLast (by simp)).1 = (l :: ls).getLast (by simp) := by
  induction ls generalizing l s₁ s with
  | nil => simp
  | cons m ls ih =>
    match s, h with
    | t :: s, h =>
      simp only [List.zip_cons_cons]
      rw [List.getLast_cons_cons, List.getLast_cons_cons]
      exact ih m t s (by simpa using h)

/-- The interpolated spectrum evaluated at `x`, for at least two multipoles in increasing order. -/
theorem kFunction_eq (l l' : K) (ls : List K) (s : List K) (h : s.length = (l :: l' :: ls).length)
    (hs : (l :: l' :: ls).Pairwise (· < ·)) (y0 yf x : K) :
    kFunction ((l :: l' :: ls).zip s) y0 yf x = .ok (if x ≤ l then y0
      else if (l' :: ls).getLast (by simp) ≤ x then yf else interpLin ((l :: l' :: ls).zip s) x) := by
  match s, h with
  | s₀ :: s₁ :: s, h =>
    have hp := (pairwise_zip_iff (l :: l' :: ls) (s₀ :: s₁ :: s) h).2 hs
    have hl := getLast_zip_fst l' s₁ ls s (by simpa using h)
    simp only [List.zip_cons_cons] at hp ⊢
    unfold kFunction
    simp only
    rw [if_pos hp, hl]

/-! ## C57 -/

/-- C57: `bin_cell` succeeds exactly if the spectrum has one value per multipole, there are at least two multipoles and
they increase; otherwise it raises an exception or the process is ended by GSL. -/
theorem C57_accepts (b : FlatBins K) (larr cls : List K) (ib : ℕ) :
    (∃ v, binCellFlat b larr cls ib = .ok v) ↔
      cls.length = larr.length ∧ 2 ≤ larr.length ∧ larr.Pairwise (· < ·) := by
  unfold binCellFlat
  by_cases h : cls.length = larr.length
  · rw [if_neg (by simpa using h)]
    unfold binRowFlat
    match larr, cls, h with
    | [], [], _ => simp [kFunction]
    | [l], [c], _ => simp [kFunction]
    | l :: l' :: ls, c :: c' :: cs, h =>
      by_cases hs : (l :: l' :: ls).Pairwise (· < ·)
      · rw [kFunction_eq l l' ls _ h hs]
        exact iff_of_true ⟨_, rfl⟩ ⟨h, by simp, hs⟩
      · refine iff_of_false ?_ (fun hc => hs hc.2.2)
        have hp := mt (pairwise_zip_iff (l :: l' :: ls) (c :: c' :: cs) h).1 hs
        simp only [List.zip_cons_cons] at hp ⊢
        unfold kFunction
        simp only
        rw [if_neg hp]
        simp
  · rw [if_pos (by simpa using h)]
    exact iff_of_false (by simp) (fun hc => h hc.1)

/-- C57: `bin_cell` is linear. -/
theorem C57_linear (b : FlatBins K) (larr s t : List K) (ib : ℕ) (a c u v : K) (hu : binCellFlat b larr s ib = .ok u)
    (hv : binCellFlat b larr t ib = .ok v) : binCellFlat b larr (lincomb a c s t) ib = .ok (a * u + c * v) := by
  obtain ⟨h1, h2, h3⟩ := (C57_accepts b larr s ib).1 ⟨u, hu⟩
  obtain ⟨h1', -, -⟩ := (C57_accepts b larr t ib).1 ⟨v, hv⟩
  match larr, h2, h3 with
  | l :: l' :: ls, _, h3 =>
    have h4 : (lincomb a c s t).length = (l :: l' :: ls).length := by simp [lincomb, h1, h1']
    unfold binCellFlat at hu hv ⊢
    rw [if_neg (by simpa using h1)] at hu
    rw [if_neg (by simpa using h1')] at hv
    rw [if_neg (by simpa using h4)]
    unfold binRowFlat at hu hv ⊢
    rw [kFunction_eq l l' ls _ h1 h3] at hu
    rw [kFunction_eq l l' ls _ h1' h3] at hv
    rw [kFunction_eq l l' ls _ h4 h3, interpLin_lincomb a c _ s t h1 h1']
    injection hu with hu
    injection hv with hv
    rw [← hu, ← hv]
    have hlast : (lincomb a c s t).getLastD 0 = a * s.getLastD 0 + c * t.getLastD 0 := by
      unfold lincomb
      have hlen : s.length = t.length := by omega
      clear hu hv h1 h1' h4
      induction s generalizing t with
      | nil =>
        match t, hlen with
        | [], _ => simp
      | cons x s ih =>
        match t, hlen with
        | y :: t, hlen =>
          cases s with
          | nil =>
            match t, hlen with
            | [], _ => simp
          | cons x' s =>
            match t, hlen with
            | y' :: t, hlen =>
              have := ih (y' :: t) (by simpa using hlen)
              simpa using this
    have hhead : (lincomb a c s t).headD 0 = a * s.headD 0 + c * t.headD 0 := by
      match s, t, h1, h1' with
      | x :: s, y :: t, _, _ => simp [lincomb]
    rw [hlast, hhead]
    congr 1
    by_cases hx : 1 / 2 * (b.ell0 ib + b.ellf ib) ≤ l
    · simp only [if_pos hx]
    · simp only [if_neg hx]
      by_cases hy : (l' :: ls).getLast (by simp) ≤ 1 / 2 * (b.ell0 ib + b.ellf ib)
      · simp only [if_pos hy]
      · simp only [if_neg hy]

/-- C57: a spectrum that is a linear function of the multipole gives the value of this function at the effective
multipole of the band, if this lies in the range of the multipoles given. -/
theorem C57_affine (b : FlatBins K) (larr : List K) (α β : K) (ib : ℕ) (h2 : 2 ≤ larr.length)
    (hs : larr.Pairwise (· < ·)) (h3 : larr.headD 0 ≤ ellEffFlat b ib) (h4 : ellEffFlat b ib ≤ larr.getLastD 0) :
    binCellFlat b larr (larr.map fun l => α + β * l) ib = .ok (α + β * ellEffFlat b ib) := by
  match larr, h2, hs with
  | l :: l' :: ls, _, hs =>
    unfold binCellFlat
    rw [if_neg (by simp)]
    unfold binRowFlat
    rw [kFunction_eq l l' ls _ (by simp) hs]
    unfold ellEffFlat at *
    set x := 1 / 2 * (b.ell0 ib + b.ellf ib) with hx
    have hgl : (l :: l' :: ls).getLastD 0 = (l' :: ls).getLast (by simp) := by
      rw [List.getLastD_eq_getLast?, List.getLast?_eq_getLast_of_ne_nil (by simp)]
      simp
    rw [hgl] at h4
    simp only [List.headD_cons] at h3
    congr 1
    by_cases hxl : x ≤ l
    · rw [if_pos hxl]
      have : x = l := le_antisymm hxl h3
      simp [this]
    · rw [if_neg hxl]
      by_cases hy : (l' :: ls).getLast (by simp) ≤ x
      · rw [if_pos hy]
        have h5 : x = (l' :: ls).getLast (by simp) := le_antisymm h4 hy
        rw [h5, List.getLastD_eq_getLast?, List.getLast?_map, List.getLast?_eq_getLast_of_ne_nil (by simp)]
        simp
      · rw [if_neg hy]
        have hz : ∀ (m : List K), m.zip (m.map fun l => α + β * l) = m.map fun l => (l, α + β * l) := by
          intro m
          induction m with
          | nil => rfl
          | cons a m ih => simp [ih]
        rw [hz]
        refine interpLin_affine α β _ (by simp) ?_ ?_ x (by simpa using h3) ?_
        · rw [List.pairwise_map]; exact hs
        · intro p hp
          obtain ⟨r, _, rfl⟩ := List.mem_map.1 hp
          rfl
        · rw [List.getLast_map]
          simpa using not_le.1 hy

/-- C57: a constant spectrum gives this constant in every band. -/
theorem C57_constant (b : FlatBins K) (larr : List K) (α : K) (ib : ℕ) (h2 : 2 ≤ larr.length)
    (hs : larr.Pairwise (· < ·)) : binCellFlat b larr (larr.map fun _ => α) ib = .ok α := by
  match larr, h2, hs with
  | l :: l' :: ls, _, hs =>
    unfold binCellFlat
    rw [if_neg (by simp)]
    unfold binRowFlat
    rw [kFunction_eq l l' ls _ (by simp) hs]
    congr 1
    by_cases hx : 1 / 2 * (b.ell0 ib + b.ellf ib) ≤ l
    · rw [if_pos hx]; simp
    · rw [if_neg hx]
      by_cases hy : (l' :: ls).getLast (by simp) ≤ 1 / 2 * (b.ell0 ib + b.ellf ib)
      · rw [if_pos hy, List.getLastD_eq_getLast?, List.getLast?_map, List.getLast?_eq_getLast_of_ne_nil (by simp)]
        simp
      · rw [if_neg hy]
        have hz : ∀ (m : List K), m.zip (m.map fun _ => α) = m.map fun l => (l, α) := by
          intro m
          induction m with
          | nil => rfl
          | cons a m ih => simp only [List.map_cons, List.zip_cons_cons, ih]
        rw [hz]
        have := interpLin_affine α 0 ((l :: l' :: ls).map fun l => (l, α)) (by simp)
          (by rw [List.pairwise_map]; exact hs)
          (by intro p hp; obtain ⟨r, _, rfl⟩ := List.mem_map.1 hp; simp)
          (1 / 2 * (b.ell0 ib + b.ellf ib)) (by simpa using (not_le.1 hx).le)
          (by rw [List.getLast_map]; simpa using not_le.1 hy)
        rw [this]; ring

/-- C57: bands without gaps. `bin_cell` undoes `unbin_cell` in a band if two consecutive multipoles of the list lie in
this band, one at most and the other more than the centre. Missing: without two such multipoles the claim is false
(`C57_coarse_wrong`). -/
theorem C57_inverts_partial (b : FlatBins K) (hb : GaplessBands b) (cls pre post : List K) (l l' : K)
    (hs : (pre ++ l :: l' :: post).Pairwise (· < ·)) (hc : cls.length = b.nBands) (ib : ℕ) (hl : InBand b ib l)
    (hl' : InBand b ib l') (h1 : l ≤ ellEffFlat b ib) (h2 : ellEffFlat b ib < l') :
    ∃ out, unbinCellFlat b cls (pre ++ l :: l' :: post) = .ok out ∧
      binCellFlat b (pre ++ l :: l' :: post) out ib = .ok (cls.getD ib 0) := by
  obtain ⟨out, ho, hf⟩ := C40_unbin_partial b hb (lt_of_le_of_lt (Nat.zero_le _) hl.1) cls
    (pre ++ l :: l' :: post) hc
  refine ⟨out, ho, ?_⟩
  have huniq : ∀ m i, InBand b ib m → InBand b i m → i = ib := by
    intro m i hm hi
    have := C40_unique b hb.toOrderedBands m _ _ (Or.inl ⟨i, hi, rfl⟩) (Or.inl ⟨ib, hm, rfl⟩)
    exact_mod_cast this
  obtain ⟨o1, o2, hf1, hf2, rfl⟩ : ∃ o1 o2, List.Forall₂ (fun l v => (∃ i, InBand b i l ∧ v = cls.getD i 0) ∨
      ((∀ i, ¬ InBand b i l) ∧ v = -999)) pre o1 ∧ List.Forall₂ (fun l v => (∃ i, InBand b i l ∧ v = cls.getD i 0) ∨
      ((∀ i, ¬ InBand b i l) ∧ v = -999)) (l :: l' :: post) o2 ∧ out = o1 ++ o2 := by
    refine ⟨out.take pre.length, out.drop pre.length, ?_, ?_, (List.take_append_drop _ _).symm⟩
    · have := List.forall₂_take pre.length hf
      simpa using this
    · have := List.forall₂_drop pre.length hf
      simpa using this
  rw [List.forall₂_cons_left_iff] at hf2
  obtain ⟨v, o3, hv, hf3, rfl⟩ := hf2
  rw [List.forall₂_cons_left_iff] at hf3
  obtain ⟨v', o4, hv', hf4, rfl⟩ := hf3
  have hv : v = cls.getD ib 0 := by
    rcases hv with ⟨i, hi, rfl⟩ | ⟨hn, _⟩
    · rw [huniq l i hl hi]
    · exact absurd hl (hn ib)
  have hv' : v' = cls.getD ib 0 := by
    rcases hv' with ⟨i, hi, rfl⟩ | ⟨hn, _⟩
    · rw [huniq l' i hl' hi]
    · exact absurd hl' (hn ib)
  have hlen : (o1 ++ v :: v' :: o4).length = (pre ++ l :: l' :: post).length := by
    simp [hf1.length_eq, hf4.length_eq]
  have hzip : (pre ++ l :: l' :: post).zip (o1 ++ v :: v' :: o4) = pre.zip o1 ++ (l, v) :: (l', v') :: post.zip o4 := by
    rw [List.zip_append hf1.length_eq]; simp
  have hsz := (pairwise_zip_iff _ _ hlen).2 hs
  rw [hzip] at hsz
  have hseg := interpLin_segment (pre.zip o1) (l, v) (l', v') (post.zip o4) (ellEffFlat b ib) hsz h1 h2
  simp only [hv, hv', sub_self, mul_zero, add_zero] at hseg
  unfold binCellFlat
  rw [if_neg (by simpa using hlen)]
  unfold binRowFlat
  -- the head and the last element
  have hgoal : ∀ (L O : List K), O.length = L.length → L.Pairwise (· < ·) → 2 ≤ L.length →
      (ellEffFlat b ib ≤ L.headD 0 → O.headD 0 = cls.getD ib 0) → L.getLastD 0 > ellEffFlat b ib →
      interpLin (L.zip O) (ellEffFlat b ib) = cls.getD ib 0 →
      kFunction (L.zip O) (O.headD 0) (O.getLastD 0) (1 / 2 * (b.ell0 ib + b.ellf ib)) = .ok (cls.getD ib 0) := by
    intro L O hLO hL h2L hh hg hi
    match L, h2L, hL with
    | a :: a' :: L, _, hL =>
      rw [kFunction_eq a a' L O hLO hL]
      have hgl : (a :: a' :: L).getLastD 0 = (a' :: L).getLast (by simp) := by
        rw [List.getLastD_eq_getLast?, List.getLast?_eq_getLast_of_ne_nil (by simp)]
        simp
      rw [hgl] at hg
      congr 1
      by_cases hx : 1 / 2 * (b.ell0 ib + b.ellf ib) ≤ a
      · rw [if_pos hx]; exact hh hx
      · rw [if_neg hx]
        have hg' : ¬ (a' :: L).getLast (by simp) ≤ 1 / 2 * (b.ell0 ib + b.ellf ib) := not_le.2 hg
        rw [if_neg hg']; exact hi
  refine hgoal _ _ hlen hs (by simp; omega) ?_ ?_ ?_
  · intro hle
    cases pre with
    | nil =>
      cases o1 with
      | nil => simpa using hv
      | cons => cases hf1
    | cons a pre =>
      simp only [List.cons_append, List.headD_cons] at hle
      have : a < l := (List.pairwise_cons.1 hs).1 l (by simp)
      exact absurd h1 (not_le.2 (lt_of_le_of_lt hle this))
  · have hle : l' ≤ (pre ++ l :: l' :: post).getLastD 0 := by
      rw [List.getLastD_eq_getLast?, List.getLast?_eq_getLast_of_ne_nil (by simp)]
      simp only [Option.getD_some]
      rw [List.getLast_append_of_ne_nil _ (by simp), List.getLast_cons (by simp)]
      have hs' : (l' :: post).Pairwise (· < ·) := (List.pairwise_cons.1 (List.pairwise_append.1 hs).2.1).2
      cases post with
      | nil => simp
      | cons r post =>
        rw [List.getLast_cons (by simp)]
        exact ((List.pairwise_cons.1 hs').1 _ (List.getLast_mem _)).le
    exact lt_of_lt_of_le h2 hle
  · rw [hzip, hv, hv']
    exact hseg

/-- C57 is false for lists of multipoles that are too coarse: `bin_cell` after `unbin_cell` mixes bands. -/
theorem C57_coarse_wrong : ∃ b : FlatBins ℚ, GaplessBands b ∧ b.nBands = 2 ∧ InBand b 0 3 ∧ InBand b 1 6 ∧
    unbinCellFlat b [0, 6] [3, 6] = .ok [0, 6] ∧ binCellFlat b [3, 6] [0, 6] 0 = .ok 1 := by
  refine ⟨flatBinsConstant 3 2, C40_constant 3 (by norm_num) 2, rfl, ⟨by decide, by decide +kernel, by decide +kernel⟩,
    ⟨by decide, by decide +kernel, by decide +kernel⟩, by decide +kernel, by decide +kernel⟩

/-- C57 is false in that `bin_cell` does not average over the multipoles of the band, as documented: with the squares of
the multipoles 0, …, 7 the band of the multipoles 2, 3 and 4 does not get the mean of 4, 9 and 16, but the mean of 9
and 16. -/
theorem C57_not_average : ∃ b : FlatBins ℚ, flatBinsCreate [2] [5] = .ok b ∧ (∀ l : ℕ, InBand b 0 (l : ℚ) ↔ l ∈ [2, 3, 4]) ∧
    binCellFlat b [0, 1, 2, 3, 4, 5, 6, 7] [0, 1, 4, 9, 16, 25, 36, 49] 0 = .ok (25 / 2) ∧ (25 / 2 : ℚ) ≠ (4 + 9 + 16) / 3 := by
  refine ⟨_, rfl, fun l => ?_, by decide +kernel, by norm_num⟩
  unfold InBand
  simp only [List.length_cons, List.length_nil, List.getD_cons_zero]
  constructor
  · rintro ⟨_, h1, h2⟩
    have h1 : 2 ≤ l := by exact_mod_cast h1
    have h2 : l < 5 := by exact_mod_cast h2
    simp only [List.mem_cons, List.not_mem_nil]
    omega
  · intro h
    simp only [List.mem_cons, List.not_mem_nil] at h
    rcases h with rfl | rfl | rfl | h
    · norm_num
    · norm_num
    · norm_num
    · exact absurd h (by simp)

section examples

-- bands [2,5), [5,8), [8,11) with centres 7/2, 13/2 and 19/2, and the multipoles 2, 3, …, 10
example : InBand flatExample 1 6 ∧ InBand flatExample 1 7 ∧ (6 : ℚ) ≤ ellEffFlat flatExample 1 ∧
    ellEffFlat flatExample 1 < 7 :=
  ⟨⟨by decide, by decide +kernel, by decide +kernel⟩, ⟨by decide, by decide +kernel, by decide +kernel⟩,
    by decide +kernel, by decide +kernel⟩
example : ([2, 3, 4, 5] ++ 6 :: 7 :: [8, 9, 10] : List ℚ).Pairwise (· < ·) := by decide +kernel
example : binCellFlat flatExample [2, 3, 4, 5, 6, 7, 8, 9, 10] [1, 1, 1, 5, 5, 5, -2, -2, -2] 1 = .ok 5 := by decide +kernel
example : binCellFlat flatExample [2, 3, 4, 5, 6, 7, 8, 9, 10] [2, 3, 4, 5, 6, 7, 8, 9, 10] 2 = .ok (19 / 2) := by
  decide +kernel

end examples

end NaMaster
