import Verif.Files.Lemmas
import Mathlib.Data.List.GetD
import Verif.Files.Spec
import Verif.Bins.Props
import Verif.Master.Props2

/-!
# Bandpowers in files
-/

set_option linter.unusedSectionVars false

namespace NaMaster

open BinSpec FileSpec

variable {K : Type*} [Field K] [LinearOrder K] [IsStrictOrderedRing K]

theorem mem_binWrites (bs : List (List (BandEntry K))) (i : ℕ) (x : ℕ × (ℤ × ℤ × K × K)) :
    x ∈ binWritesFrom i bs ↔ ∃ b < bs.length, ∃ e ∈ bs.getD b [],
      x = (e.ell, (((i + b : ℕ) : ℤ), (e.ell : ℤ), e.w, e.f)) := by
  induction bs generalizing i with
  | nil => simp [binWritesFrom]
  | cons a t ih =>
    simp only [binWritesFrom, List.mem_append, List.mem_map, ih]
    constructor
    · rintro (⟨e, he, rfl⟩ | ⟨b, hb, e, he, rfl⟩)
      · exact ⟨0, by simp, e, by simpa using he, by simp⟩
      · refine ⟨b + 1, by simpa using hb, e, by simpa using he, ?_⟩
        rw [show i + 1 + b = i + (b + 1) by omega]
    · rintro ⟨b, hb, e, he, rfl⟩
      cases b with
      | zero => left; exact ⟨e, by simpa using he, by simp⟩
      | succ b =>
        right
        refine ⟨b, by simpa using hb, e, by simpa using he, ?_⟩
        rw [show i + 1 + b = i + (b + 1) by omega]

theorem binWrites_fst (bs : List (List (BandEntry K))) (i : ℕ) :
    (binWritesFrom i bs).map (·.1) = bs.flatten.map (·.ell) := by
  induction bs generalizing i with
  | nil => rfl
  | cons a t ih => simp [binWritesFrom, ih, Function.comp_def]

theorem binRows_notMem (B : Bins K) (l : ℕ) (h : ∀ b < B.nBands, ∀ e ∈ B.band b, e.ell ≠ l) :
    binRows B l = (-1, -1, 0, 0) := by
  unfold binRows
  rw [runWrites_notMem]
  intro x hx
  obtain ⟨b, hb, e, he, rfl⟩ := (mem_binWrites _ _ _).1 hx
  exact h b hb e he

theorem runWrites_cases {ι V : Type*} [DecidableEq ι] (ws : List (ι × V)) (init : ι → V) (i : ι) :
    ((∀ w ∈ ws, w.1 ≠ i) ∧ runWrites ws init i = init i) ∨ (i, runWrites ws init i) ∈ ws := by
  unfold runWrites
  induction ws generalizing init with
  | nil => left; simp
  | cons a t ih =>
    rw [List.foldl_cons]
    rcases ih (Function.update init a.1 a.2) with ⟨h1, h2⟩ | h
    · by_cases ha : a.1 = i
      · right
        rw [h2, ← ha]; simp
      · left
        refine ⟨?_, by rw [h2, Function.update_of_ne (fun h => ha h.symm)]⟩
        intro w hw
        rcases List.mem_cons.1 hw with rfl | hw
        · exact ha
        · exact h1 w hw
    · right; exact List.mem_cons_of_mem _ h

/-- Whatever the scheme, each row is either empty or holds one of the entries for its multipole. -/
theorem binRows_cases (B : Bins K) (l : ℕ) :
    binRows B l = (-1, -1, 0, 0) ∨
      ∃ b < B.nBands, ∃ e ∈ B.band b, e.ell = l ∧ binRows B l = ((b : ℤ), (l : ℤ), e.w, e.f) := by
  rcases runWrites_cases (binWritesFrom 0 B.bands) (fun _ => ((-1 : ℤ), (-1 : ℤ), (0 : K), (0 : K))) l with h | h
  · left; exact h.2
  · right
    obtain ⟨b, hb, e, he, hx⟩ := (mem_binWrites _ _ _).1 h
    have h1 := congrArg Prod.fst hx
    have h2 := congrArg Prod.snd hx
    simp only at h1 h2
    refine ⟨b, hb, e, he, h1.symm, ?_⟩
    unfold binRows
    rw [h2, h1]; simp

theorem binRows_mem (B : Bins K) (hB : NoRepeats B) (b : ℕ) (hb : b < B.nBands) (e : BandEntry K)
    (he : e ∈ B.band b) : binRows B e.ell = ((b : ℤ), (e.ell : ℤ), e.w, e.f) := by
  unfold binRows
  have hm : (e.ell, (((0 + b : ℕ) : ℤ), (e.ell : ℤ), e.w, e.f)) ∈ binWritesFrom 0 B.bands :=
    (mem_binWrites _ _ _).2 ⟨b, hb, e, he, rfl⟩
  rw [runWrites_mem _ _ _ _ hm, Nat.zero_add]
  intro x hx hxe
  have hnd : ((binWritesFrom 0 B.bands).map (·.1)).Nodup := by rw [binWrites_fst]; exact hB
  have := List.inj_on_of_nodup_map hnd hx hm hxe
  rw [this]

theorem binsHdu_entries (B : Bins K) : (binsHdu B).entries =
    (List.range (B.ellMax + 1)).map (fun i =>
      ⟨((binRows B i).2.1).toNat, (binRows B i).1, (binRows B i).2.2.1, (binRows B i).2.2.2⟩) := by
  unfold Hdu.entries binsHdu
  simp

theorem accepted_facts {B : Bins K} (hB : Accepted B) :
    0 < B.nBands ∧ (∀ b < B.nBands, ∀ e ∈ B.band b, 0 < e.f ∧ e.ell ≤ B.ellMax) ∧
    ∀ b < B.nBands, ((B.band b).map (·.w)).sum = 1 := by
  obtain ⟨es, hes⟩ := hB
  refine ⟨?_, fun b hb e he => C02_entries es _ B hes b hb e he, fun b hb => C02_weights_sum_one es _ B hes b hb⟩
  obtain ⟨_, _, h3, _⟩ := (C02_create_ok es _ B).1 hes
  exact (h3 0).2 (Or.inl rfl)

/-- Members of a band of the table. -/
theorem mem_members (B : Bins K) (hf : ∀ b < B.nBands, ∀ e ∈ B.band b, 0 < e.f ∧ e.ell ≤ B.ellMax) (b : ℕ)
    (x : BandEntry K) :
    x ∈ rawBand (binsHdu B).entries B.ellMax b ↔
      x.ell ≤ B.ellMax ∧ 0 < x.f ∧ binRows B x.ell = ((b : ℤ), (x.ell : ℤ), x.w, x.f) := by
  unfold rawBand members
  rw [binsHdu_entries]
  simp only [List.mem_map, List.mem_filter, List.mem_range, decide_eq_true_eq]
  constructor
  · rintro ⟨e, ⟨⟨i, hi, rfl⟩, h1, h2⟩, rfl⟩
    simp only at h1 h2 ⊢
    rcases binRows_cases B i with h | ⟨b', hb', e', he', hei, h⟩
    · rw [h] at h2; simp only at h2; omega
    · rw [h] at h2 ⊢
      simp only at h2
      have : b' = b := by exact_mod_cast h2
      subst this
      have hpos := (hf b' hb' e' he').1
      simp only [Int.toNat_natCast, cleanF, hpos, if_true]
      rw [h]
      exact ⟨by omega, trivial, rfl⟩
  · rintro ⟨h1, h2, h3⟩
    refine ⟨_, ⟨⟨x.ell, by omega, rfl⟩, ?_, ?_⟩, ?_⟩
    · rw [h3]; simpa using h1
    · rw [h3]
    · rw [h3]; simp [cleanF, h2]

theorem rawBand_nodup (B : Bins K) (hf : ∀ b < B.nBands, ∀ e ∈ B.band b, 0 < e.f ∧ e.ell ≤ B.ellMax) (b : ℕ) :
    ((rawBand (binsHdu B).entries B.ellMax b).map (·.ell)).Nodup := by
  unfold rawBand members
  rw [binsHdu_entries, List.map_map, List.filter_map, List.map_map]
  apply List.Nodup.map_on
  · intro i hi k hk heq
    simp only [List.mem_filter, List.mem_range, Function.comp_apply, decide_eq_true_eq] at hi hk heq
    have key : ∀ m : ℕ, (binRows B m).1 = (b : ℤ) → (binRows B m).2.1.toNat = m := by
      intro m hm
      rcases binRows_cases B m with h | ⟨b', hb', e', he', hei, h⟩
      · rw [h] at hm; simp only at hm; omega
      · rw [h]; simp
    rw [key i hi.2.2, key k hk.2.2] at heq
    exact heq
  · exact List.Nodup.filter _ List.nodup_range

theorem rawBand_perm (B : Bins K) (hf : ∀ b < B.nBands, ∀ e ∈ B.band b, 0 < e.f ∧ e.ell ≤ B.ellMax)
    (hB : NoRepeats B) (b : ℕ) (hb : b < B.nBands) :
    (rawBand (binsHdu B).entries B.ellMax b).Perm (B.band b) := by
  have hn2 : ((B.band b).map (·.ell)).Nodup := by
    unfold NoRepeats at hB
    have hsub : (B.band b).Sublist B.bands.flatten := by
      apply List.sublist_flatten_of_mem
      unfold Bins.band
      rw [List.getD_eq_getElem _ _ hb]
      exact List.getElem_mem _
    exact hB.sublist (hsub.map _)
  rw [List.perm_ext_iff_of_nodup (List.Nodup.of_map _ (rawBand_nodup B hf b)) (List.Nodup.of_map _ hn2)]
  intro x
  rw [mem_members B hf]
  constructor
  · rintro ⟨h1, h2, h3⟩
    rcases binRows_cases B x.ell with h | ⟨b', hb', e', he', hei, h⟩
    · rw [h] at h3
      have := congrArg Prod.fst h3
      simp only at this; omega
    · rw [h] at h3
      simp only [Prod.mk.injEq] at h3
      obtain ⟨h4, _, h5, h6⟩ := h3
      have : b' = b := by exact_mod_cast h4
      subst this
      have : x = e' := by cases x; cases e'; simp_all
      rw [this]; exact he'
  · intro hx
    exact ⟨(hf b hb x hx).2, (hf b hb x hx).1, binRows_mem B hB b hb x hx⟩

theorem used_binsHdu (B : Bins K) (hB : Accepted B) (hnr : NoRepeats B) (b : ℕ) :
    Used (binsHdu B).entries B.ellMax b ↔ b < B.nBands := by
  obtain ⟨hpos, hf, hsum⟩ := accepted_facts hB
  constructor
  · rintro (rfl | ⟨e, he, h1, h2⟩)
    · exact hpos
    · rw [binsHdu_entries] at he
      simp only [List.mem_map, List.mem_range] at he
      obtain ⟨i, hi, rfl⟩ := he
      simp only at h2
      rcases binRows_cases B i with h | ⟨b', hb', e', he', hei, h⟩
      · rw [h] at h2; simp only at h2; omega
      · rw [h] at h2; simp only at h2; omega
  · intro hb
    right
    have hne : B.band b ≠ [] := by
      intro h
      have := hsum b hb
      rw [h] at this; simp at this
    obtain ⟨e, he⟩ := List.exists_mem_of_ne_nil _ hne
    have hr := binRows_mem B hnr b hb e he
    have hl := (hf b hb e he).2
    refine ⟨⟨((binRows B e.ell).2.1).toNat, (binRows B e.ell).1, (binRows B e.ell).2.2.1,
      (binRows B e.ell).2.2.2⟩, ?_, ?_, ?_⟩
    · rw [binsHdu_entries]
      exact List.mem_map.2 ⟨e.ell, List.mem_range.2 (by omega), rfl⟩
    · rw [hr]; simpa using hl
    · rw [hr]

/-- The table of an accepted scheme without repeated multipoles is read back. -/
theorem binsCreate_binsHdu (B : Bins K) (hB : Accepted B) (hnr : NoRepeats B) :
    ∃ B', binsCreate (binsHdu B).entries B.ellMax = .ok B' ∧ SameScheme B B' ∧ Accepted B' := by
  obtain ⟨hpos, hf, hsum⟩ := accepted_facts hB
  have htot : ∀ b < B.nBands, total (binsHdu B).entries B.ellMax b = 1 := by
    intro b hb
    rw [← wsum_rawBand]
    unfold wsum
    rw [((rawBand_perm B hf hnr b hb).map _).sum_eq]
    exact hsum b hb
  have hband : ∀ b < B.nBands, bandOf (binsHdu B).entries B.ellMax b =
      rawBand (binsHdu B).entries B.ellMax b := by
    intro b hb
    rw [← bandOf_eq, wsum_rawBand, htot b hb]
    simp
  have hok : binsCreate (binsHdu B).entries B.ellMax =
      .ok ⟨B.ellMax, (List.range B.nBands).map (bandOf (binsHdu B).entries B.ellMax)⟩ := by
    rw [C02_create_ok]
    refine ⟨?_, rfl, ?_, ?_⟩
    · intro b hb
      rw [htot b ((used_binsHdu B hB hnr b).1 hb)]; exact one_pos
    · intro b
      rw [used_binsHdu B hB hnr]; simp [Bins.nBands]
    · intro b hb
      replace hb : b < B.nBands := by simpa [Bins.nBands] using hb
      unfold Bins.band
      rw [List.getD_eq_getElem _ _ (by simpa using hb)]
      simp
  refine ⟨_, hok, ⟨rfl, by simp [Bins.nBands], ?_⟩, ⟨_, hok⟩⟩
  intro b
  by_cases hb : b < B.nBands
  · have : Bins.band ⟨B.ellMax, (List.range B.nBands).map (bandOf (binsHdu B).entries B.ellMax)⟩ b =
        bandOf (binsHdu B).entries B.ellMax b := by
      unfold Bins.band
      rw [List.getD_eq_getElem _ _ (by simpa using hb)]
      simp
    rw [this, hband b hb]
    exact rawBand_perm B hf hnr b hb
  · unfold Bins.band
    rw [List.getD_eq_default _ _ (by simpa using hb), List.getD_eq_default _ _ (by simpa [Bins.nBands] using hb)]

theorem band_eq_getElem (B : Bins K) (b : ℕ) (hb : b < B.bands.length) : B.band b = B.bands[b] := by
  unfold Bins.band; rw [List.getD_eq_getElem _ _ hb]

/-- The same scheme has the same repetitions. -/
theorem FileSpec.SameScheme.noRepeats {B B' : Bins K} (h : SameScheme B B') : NoRepeats B' ↔ NoRepeats B := by
  have hp : B'.bands.flatten.Perm B.bands.flatten := by
    apply List.Perm.flatten_congr
    rw [List.forall₂_iff_get]
    refine ⟨h.nBands, ?_⟩
    intro i h1 h2
    have := h.band i
    rw [band_eq_getElem B i h2, band_eq_getElem B' i h1] at this
    exact this
  unfold NoRepeats
  exact (hp.map _).nodup_iff

/-- A scheme read from a table never repeats a multipole. -/
theorem noRepeats_binsHdu (B B' : Bins K) (hB : Accepted B)
    (h : binsCreate (binsHdu B).entries B.ellMax = .ok B') : NoRepeats B' := by
  obtain ⟨hpos, hf, hsum⟩ := accepted_facts hB
  obtain ⟨_, rfl⟩ := (binsCreate_ok _ _ _).1 h
  unfold NoRepeats
  have hell : ∀ b, (bandOf (binsHdu B).entries B.ellMax b).map (·.ell) =
      (rawBand (binsHdu B).entries B.ellMax b).map (·.ell) := by
    intro b
    rw [← bandOf_eq, List.map_map]; rfl
  rw [← List.flatMap_def, List.map_flatMap]
  simp only [hell]
  rw [List.nodup_flatMap]
  refine ⟨fun b _ => rawBand_nodup B hf b, ?_⟩
  apply List.Pairwise.imp_of_mem (R := fun a b => a ≠ b) _ List.nodup_range
  intro a b _ _ hab l hl hl'
  obtain ⟨x, hx, rfl⟩ := List.mem_map.1 hl
  obtain ⟨y, hy, hxy⟩ := List.mem_map.1 hl'
  have h1 := ((mem_members B hf a x).1 hx).2.2
  have h2 := ((mem_members B hf b y).1 hy).2.2

  rw [hxy, h1] at h2
  simp only [Prod.mk.injEq] at h2
  exact hab (by exact_mod_cast h2.1)

/-- The same scheme without repetitions is stored in the same table. -/
theorem binRows_same {B B' : Bins K} (h : SameScheme B B') (hnr : NoRepeats B) : binRows B' = binRows B := by
  have hnr' := h.noRepeats.2 hnr
  funext l
  rcases binRows_cases B l with hl | ⟨b, hb, e, he, rfl, hl⟩
  · rcases binRows_cases B' l with hl' | ⟨b, hb, e, he, rfl, hl'⟩
    · rw [hl, hl']
    · have := binRows_mem B hnr b (h.nBands ▸ hb) e ((h.band b).mem_iff.1 he)
      rw [hl', this]
  · rw [hl]
    exact binRows_mem B' hnr' b (h.nBands.symm ▸ hb) e ((h.band b).mem_iff.2 he)

end NaMaster
