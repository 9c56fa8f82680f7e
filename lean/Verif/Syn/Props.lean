import Verif.Syn.Formula
import Verif.Syn.Fft
import Verif.Field.Pinv

/-! # Property C44: are simulations reproducible? -/

namespace NaMaster

open Finset Real

/-! ## Lemmas -/

/-- The thread and the position in the list of the thread of a row. -/
def place (sched : List (List ℕ)) (iy : ℕ) : ℕ × ℕ :=
  (sched.findIdx fun l => decide (iy ∈ l), (sched.getD (sched.findIdx fun l => decide (iy ∈ l)) []).idxOf iy)

theorem place_eq {sched : List (List ℕ)} (hn : sched.flatten.Nodup) {t pos iy : ℕ} {l : List ℕ} (h : sched[t]? = some l)
    (hp : l[pos]? = some iy) : place sched iy = (t, pos) := by
  have hex : ∃ x ∈ sched, (decide (iy ∈ x)) = true := ⟨l, List.mem_of_getElem? h, by simpa using List.mem_of_getElem? hp⟩
  have hlt : sched.findIdx (fun l => decide (iy ∈ l)) < sched.length := List.findIdx_lt_length.mpr hex
  have hm := List.findIdx_getElem (w := hlt)
  simp only [decide_eq_true_eq] at hm
  set t' := sched.findIdx fun l => decide (iy ∈ l) with ht'
  have h1 : sched[t']? = some (sched.getD t' []) := by
    rw [List.getElem?_eq_getElem hlt, List.getD_eq_getElem _ _ hlt]
  have hm' : iy ∈ sched.getD t' [] := by rw [List.getD_eq_getElem _ _ hlt]; exact hm
  have h2 : (sched.getD t' [])[(sched.getD t' []).idxOf iy]? = some iy := by
    rw [List.getElem?_eq_getElem (List.idxOf_lt_length_of_mem hm')]
    simp
  obtain ⟨e1, e2⟩ := unique_place hn h1 h h2 hp
  unfold place
  rw [← ht', e1, ← e2, e1]

/-- The values of the modes when thread `t` has number `rank t`. -/
noncomputable def synValues (A : SynAlm) (E : Eigen) (gauss : ℤ → ℕ → ℝ × ℝ) (seed : ℤ) (sched : List (List ℕ)) (rank : ℕ → ℕ)
    (ix iy : ℕ) : ℕ → ℂ :=
  A.coef E (fun j => gauss (seed + rank (place sched iy).1) (((place sched iy).2 * (A.fs.nx / 2 + 1) + ix) * A.nmaps + j))
    (ix, iy)

theorem syn_values {A : SynAlm} {E : Eigen} {gauss : ℤ → ℕ → ℝ × ℝ} {seed : ℤ} {sched : List (List ℕ)} {m0 m : ℕ × ℕ × ℕ → ℂ}
    (h : A.Runs E gauss seed sched m0 m) :
    ∃ rank : ℕ → ℕ, (∀ t < sched.length, rank t < sched.length) ∧
      (∀ t < sched.length, ∀ t' < sched.length, rank t = rank t' → t = t') ∧
      ∀ i < A.nmaps, ∀ ix ≤ A.fs.nx / 2, ∀ iy < A.fs.ny,
        m (i, ix, iy) = A.cell (synValues A E gauss seed sched rank) i ix iy := by
  obtain ⟨rank, h1, h2, h3⟩ := syn_formula A E gauss seed h
  refine ⟨rank, h1, h2, h3 _ ?_⟩
  intro t l pos iy hl hp ix _
  unfold synValues
  rw [place_eq (h.1.nodup_iff.mpr List.nodup_range) hl hp]

theorem locate_some {ss : List ℕ} {m f s c : ℕ} (h : locate ss m = some (f, s, c)) :
    c ≤ m ∧ c < nmapsOf s ∧ m - c + nmapsOf s ≤ (ss.map nmapsOf).sum ∧ ss[f]? = some s := by
  induction ss generalizing m f with
  | nil => simp [locate] at h
  | cons s' ss ih =>
    unfold locate at h
    by_cases hm : m < nmapsOf s'
    · rw [if_pos hm] at h
      simp only [Option.some.injEq, Prod.mk.injEq] at h
      obtain ⟨rfl, rfl, rfl⟩ := h
      refine ⟨le_refl _, hm, ?_, rfl⟩
      simp
    · rw [if_neg hm] at h
      simp only [Option.map_eq_some_iff, Prod.mk.injEq] at h
      obtain ⟨⟨f', s'', c'⟩, h1, rfl, rfl, rfl⟩ := h
      obtain ⟨i1, i2, i3, i4⟩ := ih h1
      refine ⟨by omega, i2, ?_, by simpa using i4⟩
      simp only [List.map_cons, List.sum_cons]
      omega

theorem nmaps_eq (a : SynFlatArgs) : a.nmaps = ((a.spins.map Int.natAbs).map nmapsOf).sum := by
  simp [SynFlatArgs.nmaps, Function.comp_def]

/-- The maps depend only on the coefficients in the arrays. -/
theorem maps_congr (a : SynFlatArgs) (c : C2r a.fs) {m m' : ℕ × ℕ × ℕ → ℂ}
    (h : ∀ i < a.nmaps, ∀ ix ≤ a.fs.nx / 2, ∀ iy < a.fs.ny, m (i, ix, iy) = m' (i, ix, iy)) : a.maps c.run m = a.maps c.run m' := by
  funext imap p
  unfold SynFlatArgs.maps
  cases hl : locate (a.spins.map Int.natAbs) imap with
  | none => rfl
  | some x =>
    obtain ⟨f, s, cc⟩ := x
    obtain ⟨h1, h2, h3, -⟩ := locate_some hl
    rw [← nmaps_eq] at h3
    simp only [fsAlm2map]
    refine congrArg (· * _) (congrFun ?_ p)
    refine c.reads _ _ fun ix hix iy hiy => ?_
    have hc : ∀ d < nmapsOf s, m (imap - cc + d, ix, iy) = m' (imap - cc + d, ix, iy) :=
      fun d hd => h _ (by omega) _ hix _ hiy
    by_cases hs : s = 0
    · simp only [if_pos hs, hc cc h2]
    · have hn : nmapsOf s = 2 := by simp [nmapsOf, hs]
      simp only [if_neg hs, hc 0 (by omega), hc 1 (by omega)]

/-! ## Flat sky -/

/-- **C44**, what holds for flat-sky simulations: for given arguments, seed and distribution of the rows, the outcome is
determined by the order in which the threads start (`rank`): neither the state of the global generator nor the interleaving of
the threads nor the content of fresh memory matter. Missing: independence of that order, which fails (`C44_flat_wrong`). -/
theorem C44_flat_order_partial {G : Type*} (randint : G → ℤ × G) (E : Eigen) (gauss : ℤ → ℕ → ℝ × ℝ) (a : SynFlatArgs)
    (c : C2r a.fs) {seed : ℤ} (hs : 0 ≤ seed) (sched : List (List ℕ)) :
    ∃ result : (ℕ → ℕ) → Outcome (ℕ → ℕ × ℕ → ℝ), ∀ g out, SynfastFlatRuns randint E gauss c.run a seed g sched out →
      ∃ rank : ℕ → ℕ, Set.MapsTo rank (Set.Iio sched.length) (Set.Iio sched.length) ∧ Set.InjOn rank (Set.Iio sched.length) ∧
        out.1 = result rank := by
  refine ⟨fun rank => match a.check with
    | .ok _ => .ok (a.maps c.run fun x => a.toAlm.cell (synValues a.toAlm E gauss seed sched rank) x.1 x.2.1 x.2.2)
    | .raises e => .raises e
    | .crash => .crash, ?_⟩
  intro g out h
  unfold SynfastFlatRuns at h
  rw [if_neg (not_lt.mpr hs)] at h
  obtain ⟨-, h⟩ := h
  cases hc : a.check with
  | ok u =>
    rw [hc] at h
    obtain ⟨m0, m, hr, ho⟩ := h
    obtain ⟨rank, h1, h2, h3⟩ := syn_values hr
    refine ⟨rank, fun t ht => h1 t ht, fun t ht t' ht' => h2 t ht t' ht', ?_⟩
    rw [ho]
    simp only
    exact congrArg Outcome.ok (maps_congr a c h3)
  | raises e =>
    rw [hc] at h
    exact ⟨id, fun _ h => h, fun _ _ _ _ h => h, h⟩
  | crash =>
    rw [hc] at h
    exact ⟨id, fun _ h => h, fun _ _ _ _ h => h, h⟩

/-- **C44** with one thread: `synfast_flat` called twice with the same non-negative seed and arguments gives the same maps,
whatever the states of the global generator. Missing: more than one thread, for which it fails (`C44_flat_wrong`). -/
theorem C44_flat_single_partial {G : Type*} (randint : G → ℤ × G) (E : Eigen) (gauss : ℤ → ℕ → ℝ × ℝ) (a : SynFlatArgs)
    (c : C2r a.fs) {seed : ℤ} (hs : 0 ≤ seed) {g g' : G} {rows rows' : List ℕ} {out out' : Outcome (ℕ → ℕ × ℕ → ℝ) × G}
    (h : SynfastFlatRuns randint E gauss c.run a seed g [rows] out)
    (h' : SynfastFlatRuns randint E gauss c.run a seed g' [rows'] out') : out.1 = out'.1 := by
  have hsame : ∀ {m0 m : ℕ × ℕ × ℕ → ℂ} {l : List ℕ}, a.toAlm.Runs E gauss seed [l] m0 m → l = List.range a.fs.ny := by
    intro m0 m l hr
    refine List.Perm.eq_of_pairwise (le := (· < ·)) ?_ (hr.2.1 l (by simp)) List.pairwise_lt_range (by simpa [SynFlatArgs.toAlm] using hr.1)
    intro x y _ _ h1 h2
    exact absurd h1 (Nat.not_lt.mpr h2.le)
  cases hc : a.check with
  | ok u =>
    unfold SynfastFlatRuns at h h'
    rw [if_neg (not_lt.mpr hs), hc] at h h'
    obtain ⟨-, m0, m, hr, ho⟩ := h
    obtain ⟨-, m0', m', hr', ho'⟩ := h'
    rw [hsame hr] at hr
    rw [hsame hr'] at hr'
    obtain ⟨rank, h1, -, h3⟩ := syn_values hr
    obtain ⟨rank', h1', -, h3'⟩ := syn_values hr'
    have e : rank 0 = rank' 0 := by
      have a1 := h1 0 (by simp)
      have a2 := h1' 0 (by simp)
      simp only [List.length_singleton] at a1 a2
      omega
    rw [ho, ho']
    congr 1
    refine maps_congr a c fun i hi ix hix iy hiy => ?_
    rw [h3 i hi ix hix iy hiy, h3' i hi ix hix iy hiy]
    have key : ∀ y < a.fs.ny, synValues a.toAlm E gauss seed [List.range a.fs.ny] rank ix y =
        synValues a.toAlm E gauss seed [List.range a.fs.ny] rank' ix y := by
      intro y hy
      have hp : place [List.range a.fs.ny] y = (0, y) :=
        place_eq (by simpa using List.nodup_range) (l := List.range a.fs.ny) (by simp) (by simp [hy])
      unfold synValues
      rw [hp, e]
    unfold SynAlm.cell
    by_cases h0 : ix ≠ 0
    · rw [if_pos h0, if_pos h0, key iy hiy]
    · have h0' : ix = 0 := by omega
      subst h0'
      rw [if_neg h0, if_neg h0, key 0 (by omega)]
      by_cases h4 : iy = 0
      · rw [if_pos h4, if_pos h4]
      · rw [if_neg h4, if_neg h4, key iy hiy, key _ (show a.toAlm.fs.ny - iy < a.fs.ny from Nat.sub_lt (Nat.lt_of_le_of_lt (Nat.zero_le _) hiy) (by omega))]
  | raises e =>
    unfold SynfastFlatRuns at h h'
    rw [hc] at h h'
    rw [h.2, h'.2]
  | crash =>
    unfold SynfastFlatRuns at h h'
    rw [hc] at h h'
    rw [h.2, h'.2]

/-! ## Curved sky -/

/-- **C44 fails** for `synfast_spherical`: the seed is not used. Calls with any two non-negative seeds give the same. -/
theorem C44_spherical_seed_wrong {G : Type*} (randint : G → ℤ × G) (synalm : Arr2 ℝ → ℕ → G → (ℕ → ℕ → ℕ → ℂ) × G) (S : Sht)
    (a : SynSphArgs) {seed seed' : ℤ} (hs : 0 ≤ seed) (hs' : 0 ≤ seed') (g : G) :
    synfastSpherical randint synalm S a seed g = synfastSpherical randint synalm S a seed' g := by
  unfold synfastSpherical
  rw [if_neg (not_lt.mpr hs), if_neg (not_lt.mpr hs')]

/-- **C44 fails** for `synfast_spherical`: for one field of spin 0, calls with the same seed give different maps whenever the
coefficients drawn from the states of the global generator give different maps. -/
theorem C44_spherical_wrong {G : Type*} (randint : G → ℤ × G) (synalm : Arr2 ℝ → ℕ → G → (ℕ → ℕ → ℕ → ℂ) × G) (S : Sht)
    (lmaxInfo : ℕ) (lmax : Option ℕ) (cls : Arr2 ℝ) (hcls : cls.rows = 1) {seed : ℤ} (hs : 0 ≤ seed) {g g' : G} {p : ℕ}
    (hg : let L := min (cls.cols - 1) (lmax.getD lmaxInfo)
      S.alm2map 0 L (fun c => if c < 1 then (synalm cls L g).1 c else fun _ _ => 0) 0 p ≠
        S.alm2map 0 L (fun c => if c < 1 then (synalm cls L g').1 c else fun _ _ => 0) 0 p) :
    (synfastSpherical randint synalm S ⟨true, lmaxInfo, lmax, cls, [0], none⟩ seed g).1 ≠
      (synfastSpherical randint synalm S ⟨true, lmaxInfo, lmax, cls, [0], none⟩ seed g').1 := by
  intro h
  have hn : SynSphArgs.nmaps ⟨true, lmaxInfo, lmax, cls, [0], none⟩ = 1 := by simp [SynSphArgs.nmaps, nmapsOf]
  unfold synfastSpherical at h
  rw [if_neg (not_lt.mpr hs), if_neg (not_lt.mpr hs)] at h
  simp only [hn, hcls, SynSphArgs.lm] at h
  simp at h
  have h0 := congrFun (congrFun h 0) p
  simp only [locate, nmapsOf, if_true, Nat.lt_one_iff] at h0
  apply hg
  simpa [locate, nmapsOf] using h0

/-- The global generator is advanced by each call, so that a second call in the same session gives a different map:
generator states are numbers, the coefficient `a_00` is the state. -/
example : (synfastSpherical (fun g : ℕ => (0, g + 1)) (fun _ _ g => (fun _ l m => if l = 0 ∧ m = 0 then (g : ℂ) else 0, g + 1))
    ⟨fun _ _ _ => fun _ _ _ => 0, fun _ _ a => fun c _ => (a c 0 0).re, id, id⟩ ⟨true, 2, none, ⟨1, 3, fun _ _ => 1⟩, [0], none⟩ 7 3).1 ≠
    (synfastSpherical (fun g : ℕ => (0, g + 1)) (fun _ _ g => (fun _ l m => if l = 0 ∧ m = 0 then (g : ℂ) else 0, g + 1))
    ⟨fun _ _ _ => fun _ _ _ => 0, fun _ _ a => fun c _ => (a c 0 0).re, id, id⟩ ⟨true, 2, none, ⟨1, 3, fun _ _ => 1⟩, [0], none⟩ 7 4).1 :=
  C44_spherical_wrong _ _ _ _ _ _ rfl (by norm_num) (p := 0) (by simp [Sht.alm2map])

end NaMaster
