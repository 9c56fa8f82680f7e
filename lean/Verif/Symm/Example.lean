import Verif.Symm.Props
import Verif.Angle.Example

/-! # Cases for C95

A mirror image of the four pixels of a tetrahedron that exchanges two of them, for fields of spin 1. -/

namespace NaMaster

open Finset

/-- Symmetries that take meridians to meridians: rotations about the axis, reflections at planes containing the axis (`conj`), and both combined with the
reflection at the equator. They multiply the coefficients, or their complex conjugates, by phases. -/
noncomputable def GridSym.ofPhases (perm padPerm : Equiv.Perm ℕ) (mirror conj : Bool) (phase : ℕ → ℕ → ℂ)
    (h : ∀ l m, phase l m * (starRingEnd ℂ) (phase l m) = 1) : GridSym where
  perm := perm
  padPerm := padPerm
  mirror := mirror
  coefOne a l m := phase l m * if conj then (starRingEnd ℂ) (a l m) else a l m
  add a b := by
    funext l m
    cases conj <;> simp <;> ring
  scale a f := by
    funext l m
    cases conj <;> simp [almxfl] <;> ring
  cl a b l := by
    unfold alm2cl
    congr 1
    refine sum_congr rfl fun m _ => ?_
    congr 1
    cases conj with
    | false =>
      simp only [Bool.false_eq_true, if_false, map_mul]
      congr 1
      linear_combination (a l m * (starRingEnd ℂ) (b l m)) * h l m
    | true =>
      simp only [if_true, map_mul, Complex.conj_conj]
      have e : phase l m * (starRingEnd ℂ) (a l m) * ((starRingEnd ℂ) (phase l m) * b l m) = (starRingEnd ℂ) (a l m * (starRingEnd ℂ) (b l m)) := by
        simp only [map_mul, Complex.conj_conj]
        linear_combination ((starRingEnd ℂ) (a l m) * b l m) * h l m
      rw [e, Complex.conj_re]

namespace SymmExample

open KnoxExample SkyExample AngleExample SkySpec

/-- The reflection that exchanges the directions `x` and `y`, and with them the pixels 1 and 2. -/
noncomputable def mirrorXY : GridSym := GridSym.ofPhases (Equiv.swap 1 2) (Equiv.swap 1 2) true true (fun _ m => if m = 1 then -Complex.I else 1) (by
  intro l m
  split_ifs <;> simp)

theorem swap_val (v : ℕ → ℝ) : v (Equiv.swap 1 2 0) = v 0 ∧ v (Equiv.swap 1 2 1) = v 2 ∧ v (Equiv.swap 1 2 2) = v 1 ∧ v (Equiv.swap 1 2 3) = v 3 := by
  refine ⟨?_, ?_, ?_, ?_⟩
  · rw [Equiv.swap_apply_of_ne_of_ne] <;> norm_num
  · rw [Equiv.swap_apply_left]
  · rw [Equiv.swap_apply_right]
  · rw [Equiv.swap_apply_of_ne_of_ne] <;> norm_num

theorem coef_mirror (x : ℝ) (v : ℕ → ℝ) (l k : ℕ) : coef (fun p => x * v (Equiv.swap 1 2 p)) l k =
    (x : ℂ) * ((if k = 1 then -Complex.I else 1) * (starRingEnd ℂ) (coef v l k)) := by
  obtain ⟨s0, s1, s2, s3⟩ := swap_val v
  unfold coef
  simp only [sum_range_succ, sum_range_zero, s0, s1, s2, s3, vx, vy, vz]
  by_cases h1 : l = 0 ∧ (k : ℤ) = 0
  · have hk : k ≠ 1 := by omega
    rw [if_pos h1, if_pos h1, if_neg hk, Complex.conj_ofReal]
    push_cast
    ring
  rw [if_neg h1, if_neg h1]
  by_cases h2 : l = 1 ∧ (k : ℤ) = 0
  · have hk : k ≠ 1 := by omega
    rw [if_pos h2, if_pos h2, if_neg hk, Complex.conj_ofReal]
    norm_num
    ring
  rw [if_neg h2, if_neg h2]
  by_cases h3 : l = 1 ∧ (k : ℤ) = 1
  · have hk : k = 1 := by omega
    rw [if_pos h3, if_pos h3, if_pos hk]
    simp only [map_mul, map_neg, map_sub, Complex.conj_ofReal, Complex.conj_I]
    norm_num
    linear_combination (-(rho : ℂ) * x * (v 0 - v 1 + v 2 - v 3)) * Complex.I_mul_I
  rw [if_neg h3, if_neg h3]
  have h4 : ¬ (l = 1 ∧ (k : ℤ) = -1) := by omega
  rw [if_neg h4, if_neg h4, map_zero, mul_zero, mul_zero]

theorem hasSymK : envK.HasSym mirrorXY where
  anal s lmax m := by
    funext c l k
    change (if l ≤ lmax ∧ s ≤ l then coef (fun p => mirrorXY.sg (comps s) c * m c (Equiv.swap 1 2 p)) l k else 0) =
      mirrorXY.sg (comps s) c • ((if k = 1 then -Complex.I else 1) * (starRingEnd ℂ) (if l ≤ lmax ∧ s ≤ l then coef (m c) l k else 0))
    by_cases h : l ≤ lmax ∧ s ≤ l
    · rw [if_pos h, if_pos h, coef_mirror, Complex.real_smul]
    · rw [if_neg h, if_neg h, map_zero, mul_zero, smul_zero]
  synth s lmax a := by
    funext c p
    change (0 : ℝ) = _ * 0
    rw [mul_zero]
  pad _ _ := rfl
  unpad _ _ := rfl
  scalar := turnsK.scalar
  pixels p := by
    change Equiv.swap 1 2 p < 4 ↔ p < 4
    by_cases h1 : p = 1
    · subst h1; rw [Equiv.swap_apply_left]; norm_num
    by_cases h2 : p = 2
    · subst h2; rw [Equiv.swap_apply_right]; norm_num
    rw [Equiv.swap_apply_of_ne_of_ne h1 h2]
  weights _ := rfl

/-- The hypotheses of C95 are met by the random dipoles of C84, turned by 45 degrees to have both E and B modes. -/
example (minfo : MapInfo) (ω : Three) : ∃ f r, envK.HasSym mirrorXY ∧ IsoMask ((callK ω).turn (Real.pi / 4)) ∧ nmtField envK ((callK ω).turn (Real.pi / 4)) = .ok f ∧
    (∀ w, wspFromFields racah envK minfo f f true bins4 wargs4 = .ok w → Regular w.nBinned w.binned) ∧
    fullMaster (exactLinAlg ℝ) envK 3 minfo f f true true (wspFromFields racah envK minfo f f true bins4 wargs4) none none none = .ok (some r) ∧
    ∃ g1 g2 r', nmtField envK (((callK ω).turn (Real.pi / 4)).move mirrorXY) = .ok g1 ∧ nmtField envK (((callK ω).turn (Real.pi / 4)).move mirrorXY) = .ok g2 ∧
      fullMaster (exactLinAlg ℝ) envK 3 minfo g1 g2 true true (wspFromFields racah envK minfo g1 g2 true bins4 wargs4) none none none = .ok (some r') ∧
      r'.val 0 0 = r.val 0 0 ∧ r'.val 1 0 = -r.val 1 0 ∧ r'.val 2 0 = -r.val 2 0 ∧ r'.val 3 0 = r.val 3 0 := by
  obtain ⟨r0, hr0⟩ := bandpowersK minfo ω
  have hf : nmtField envK (callK ω) = .ok (fieldK 1 ω) := (madeK 1).choose_spec ω
  have hn : (fieldK 1 ω).nmaps = 2 := by
    obtain ⟨-, -, -, -, -, -, -, -, p9, -⟩ := (fieldsK (s := 1) le_rfl).facts ω
    exact p9
  obtain ⟨f, f', q1, q1', q2, q3⟩ := C92_bandpowers racah (exactLinAlg ℝ) exactLinAlg_correct turnsK minfo (evenK ω) (evenK ω) hf hf
    (Real.pi / 4) (Real.pi / 4) true bins4 wargs4 (wspK_regular minfo ω) 3 none none
  obtain rfl : f = f' := by
    rw [q1] at q1'
    exact Outcome.ok.inj q1'
  rw [hr0] at q3
  have hreg : ∀ w, wspFromFields racah envK minfo f f true bins4 wargs4 = .ok w → Regular w.nBinned w.binned := by
    rw [q2]
    exact wspK_regular minfo ω
  have hc : IsoMask ((callK ω).turn (Real.pi / 4)) := ⟨rfl, rfl⟩
  obtain ⟨g1, g2, k1, k2, -, k3⟩ := C95_bandpowers racah (exactLinAlg ℝ) exactLinAlg_correct hasSymK minfo hc hc rfl rfl q1 q1 true bins4 wargs4 hreg 3 none none
  refine ⟨f, _, hasSymK, hc, q1, hreg, q3, g1, g2, _, k1, k2, k3.trans (by rw [show fullMaster (exactLinAlg ℝ) envK 3 minfo f f true true
    (wspFromFields racah envK minfo f f true bins4 wargs4) none none none = _ from q3]; rfl), ?_⟩
  have hn' : f.nmaps = 2 := by
    rw [C92_field envK turnsK _ _ (evenK ω), hf] at q1
    rw [← Outcome.ok.inj q1]
    exact hn
  have hs : ∀ k, mirrorXY.rowSign f.nmaps f.nmaps k = (if k / 2 = 1 then -1 else 1) * if k % 2 = 1 then -1 else 1 := by
    intro k
    rw [hn']
    simp [GridSym.rowSign, GridSym.sg, mirrorXY, GridSym.ofPhases]
  refine ⟨?_, ?_, ?_, ?_⟩ <;> simp [Arr2.flip, hs]

/-! ## Maps that are their own mirror images -/

/-- A dipole along the axis for the first component and one across the mirror for the second. -/
def mapS : MapStack := fun c p => if c = 0 then vz p else if c = 1 then vx p - vy p else 0

/-- The call that makes the field. -/
noncomputable def callS : FieldArgs := (argsK 1).withMaps 2 4 mapS

theorem callS_sym : callS.move mirrorXY = callS := by
  have hv : ∀ p, Equiv.swap 1 2 p = if p = 1 then 2 else if p = 2 then 1 else p := fun p => Equiv.swap_apply_def 1 2 p
  have hm : (fun p => callS.mask (mirrorXY.perm p)) = callS.mask := by
    funext p
    change oneMask 4 (Equiv.swap 1 2 p) = oneMask 4 p
    rw [hv]
    by_cases h1 : p = 1
    · subst h1; simp [oneMask]
    by_cases h2 : p = 2
    · subst h2; simp [oneMask]
    rw [if_neg h1, if_neg h2]
  have hz : ∀ p, vz (Equiv.swap 1 2 p) = vz p := by
    intro p
    rw [hv]
    by_cases h1 : p = 1
    · subst h1; simp [vz]
    by_cases h2 : p = 2
    · subst h2; simp [vz]
    rw [if_neg h1, if_neg h2]
  have hxy : ∀ p, -(vx (Equiv.swap 1 2 p) - vy (Equiv.swap 1 2 p)) = vx p - vy p := by
    intro p
    rw [hv]
    by_cases h1 : p = 1
    · subst h1; simp [vx, vy]
    by_cases h2 : p = 2
    · subst h2; norm_num [vx, vy]
    rw [if_neg h1, if_neg h2]
    simp [vx, vy, h1, h2]
  have hs : mirrorXY.map 2 mapS = mapS := by
    funext c p
    change mirrorXY.sg 2 c * mapS c (Equiv.swap 1 2 p) = mapS c p
    have hsg : mirrorXY.sg 2 c = if c = 1 then -1 else 1 := by simp [GridSym.sg, mirrorXY, GridSym.ofPhases]
    rw [hsg]
    by_cases h0 : c = 0
    · subst h0
      rw [if_neg (by norm_num), one_mul]
      exact hz p
    by_cases h1 : c = 1
    · subst h1
      rw [if_pos rfl, neg_one_mul]
      exact hxy p
    · simp [mapS, h0, h1]
  have h2 : callS.maps = some ⟨2, 4, mapS⟩ := rfl
  unfold FieldArgs.move
  rw [hm, h2]
  simp only [Option.map_some, hs]
  rfl

theorem almK (ω : Three) : ∃ a, (fieldK 1 ω).alm = some (some a) := by
  have h : nmtField envK ((argsK 1).withMaps (ncomp 1) 4 (map3 ω)) = .ok (fieldK 1 ω) := (madeK 1).choose_spec ω
  have e : ∃ o : FieldObj, nmtField envK ((argsK 1).withMaps (ncomp 1) 4 (map3 ω)) = .ok { o with
      alm := some (some (envK.sht.map2alm 1 1 0 fun c p => tab2 2 4 (map3 ω) c p * oneMask 4 p)) } := by
    refine ⟨{ baseObj ((argsK 1).withMaps (ncomp 1) 4 (map3 ω)) (oneMask 4, none) 1 1 1 with
      maps := some (some fun c p => tab2 2 4 (map3 ω) c p * oneMask 4 p) }, ?_⟩
    unfold nmtField fieldChecks fieldMasks mapChecks fieldFinish
    simp [argsK, args4, FieldArgs.withMaps, envK, Outcome.bind, pickSpin, baseObj, ncomp, applyMask, Sht.map2almO]
  obtain ⟨o, e⟩ := e
  rw [e] at h
  rw [← Outcome.ok.inj h]
  exact ⟨_, rfl⟩

theorem madeS (ω : Three) : ∃ x y, nmtField envK callS = .ok { fieldK 1 ω with alm := some (some x), maps := y } := by
  have h : nmtField envK ((argsK 1).withMaps (ncomp 1) 4 (map3 ω)) = .ok (fieldK 1 ω) := (madeK 1).choose_spec ω
  refine ⟨envK.sht.map2alm 1 1 0 fun c p => tab2 2 4 mapS c p * oneMask 4 p, some (some fun c p => tab2 2 4 mapS c p * oneMask 4 p), ?_⟩
  have e : nmtField envK ((argsK 1).withMaps (ncomp 1) 4 (map3 ω)) = .ok { baseObj ((argsK 1).withMaps (ncomp 1) 4 (map3 ω)) (oneMask 4, none) 1 1 1 with
      alm := some (some (envK.sht.map2alm 1 1 0 fun c p => tab2 2 4 (map3 ω) c p * oneMask 4 p))
      maps := some (some fun c p => tab2 2 4 (map3 ω) c p * oneMask 4 p) } := by
    unfold nmtField fieldChecks fieldMasks mapChecks fieldFinish
    simp [argsK, args4, FieldArgs.withMaps, envK, Outcome.bind, pickSpin, baseObj, ncomp, applyMask, Sht.map2almO]
  rw [e] at h
  rw [← Outcome.ok.inj h]
  unfold nmtField fieldChecks fieldMasks mapChecks fieldFinish
  simp [callS, argsK, args4, FieldArgs.withMaps, envK, Outcome.bind, pickSpin, baseObj, ncomp, applyMask, Sht.map2almO]

/-- Whether the bandpowers can be computed does not depend on the values of the maps. -/
theorem master_other {L : LinAlg ℝ} {env : FieldEnv} {n : ℕ} {minfo : MapInfo} {f : FieldObj} {W : Outcome (Wsp ℝ)} {r : Arr2 ℝ} {a : ℕ → ℕ → ℕ → ℂ}
    (ha : f.alm = some (some a)) (hr : fullMaster L env n minfo f f true true W none none none = .ok (some r)) (x : ℕ → ℕ → ℕ → ℂ) (y : Option (Option MapStack)) :
    ∃ r', fullMaster L env n minfo { f with alm := some (some x), maps := y } { f with alm := some (some x), maps := y } true true W none none none =
      .ok (some r') := by
  unfold fullMaster at hr ⊢
  dsimp only at hr ⊢
  rw [if_neg (by simp)] at hr ⊢
  by_cases hc : isCompatible (f.view env.sht minfo).geom (f.view env.sht minfo).geom false = false
  · rw [if_pos hc] at hr; cases hr
  rw [if_neg hc] at hr
  have eg : (FieldObj.view env.sht minfo { f with alm := some (some x), maps := y }).geom = (f.view env.sht minfo).geom := rfl
  rw [eg, if_neg hc]
  rw [if_neg (by simp), if_neg (by simp)] at hr ⊢
  have hcc : ∀ g : FieldObj, (∃ b, g.alm = some (some b)) → isCompatible (g.view env.sht minfo).geom (g.view env.sht minfo).geom false ≠ false →
      ∃ d : ℕ → ℕ → ℝ, computeCoupledCell (g.view env.sht minfo) (g.view env.sht minfo) true = .ok (some ⟨g.nmaps * g.nmaps, min g.lmax g.lmax + 1, d⟩) := by
    rintro g ⟨b, hb⟩ hg
    unfold computeCoupledCell
    rw [if_neg hg]
    simp only [FieldObj.view, hb, getOr, Outcome.bind]
    exact ⟨_, rfl⟩
  obtain ⟨d, hd⟩ := hcc f ⟨a, ha⟩ hc
  obtain ⟨d', hd'⟩ := hcc { f with alm := some (some x), maps := y } ⟨x, rfl⟩ hc
  obtain ⟨c, hc', hr⟩ := ok_of_bind hr
  obtain ⟨b, hb, hr⟩ := ok_of_bind hr
  obtain ⟨w, hw, hr⟩ := ok_of_bind hr
  obtain ⟨e, he, hr⟩ := ok_of_bind hr
  obtain ⟨z, hz, hr⟩ := ok_of_bind hr
  rw [hd] at hc'
  obtain rfl := Outcome.ok.inj hc'
  cases b with
  | none => cases he; cases hz; cases hr
  | some b =>
  obtain ⟨e', he', he⟩ := ok_of_bind (show ((⟨f.nmaps * f.nmaps, min f.lmax f.lmax + 1, d⟩ : Arr2 ℝ).sub b).bind _ = _ from he)
  obtain rfl := Outcome.ok.inj he
  obtain ⟨z', hz', hz⟩ := ok_of_bind (show (e'.sub _).bind _ = _ from hz)
  obtain rfl := Outcome.ok.inj hz
  obtain ⟨q, hq, -⟩ := ok_of_bind hr
  have hb' : deprojectionBias env n (isCompatible (f.view env.sht minfo).geom (f.view env.sht minfo).geom true) { f with alm := some (some x), maps := y }
      { f with alm := some (some x), maps := y } ((none : Option (Arr2 ℝ)).getD ⟨f.nmaps * f.nmaps, f.lmax + 1, fun _ _ => 0⟩) = .ok (some b) := by
    rw [← hb]
    have hp : ∀ mp k, purifyIfNeededAll env.sht n { f with alm := some (some x), maps := y } mp k = purifyIfNeededAll env.sht n f mp k := by
      intro mp k
      induction k with
      | zero => rfl
      | succ k ih =>
        change (purifyIfNeededAll env.sht n { f with alm := some (some x), maps := y } mp k).bind _ = (purifyIfNeededAll env.sht n f mp k).bind _
        rw [ih]
        rfl
    unfold deprojectionBias
    simp only [hp]
    rfl
  rw [hd', hb', hw]
  simp only [Outcome.bind, subO]
  unfold Arr2.sub at he' hz' ⊢
  by_cases k1 : f.nmaps * f.nmaps ≠ b.rows ∨ min f.lmax f.lmax + 1 ≠ b.cols
  · rw [if_pos k1] at he'; cases he'
  rw [if_neg k1] at he' ⊢
  obtain rfl := Outcome.ok.inj he'
  dsimp only at hz' ⊢
  by_cases k2 : f.nmaps * f.nmaps ≠ ((none : Option (Arr2 ℝ)).getD ⟨f.nmaps * f.nmaps, f.lmax + 1, fun _ _ => 0⟩).rows ∨
      min f.lmax f.lmax + 1 ≠ ((none : Option (Arr2 ℝ)).getD ⟨f.nmaps * f.nmaps, f.lmax + 1, fun _ _ => 0⟩).cols
  · rw [if_pos k2] at hz'; cases hz'
  rw [if_neg k2] at hz' ⊢
  obtain rfl := Outcome.ok.inj hz'
  dsimp only
  by_cases k3 : f.nmaps * f.nmaps = w.ncls ∧ w.lmax + 1 ≤ min f.lmax f.lmax + 1
  · rw [decoupleCell_ok L w _ k3.1 k3.2]
    exact ⟨_, rfl⟩
  · unfold decoupleCell at hq
    rw [if_pos (by
      by_cases h1 : f.nmaps * f.nmaps = w.ncls
      · right
        have := fun h2 => k3 ⟨h1, h2⟩
        dsimp only
        omega
      · exact Or.inl h1)] at hq
    cases hq

/-- The hypotheses of C95 on maps that are their own mirror images are met by dipoles, and the EB bandpowers vanish. -/
example (minfo : MapInfo) : ∃ f r, envK.HasSym mirrorXY ∧ mirrorXY.mirror = true ∧ IsoMask callS ∧ callS.move mirrorXY = callS ∧ nmtField envK callS = .ok f ∧
    (∀ w, wspFromFields racah envK minfo f f true bins4 wargs4 = .ok w → Regular w.nBinned w.binned) ∧
    fullMaster (exactLinAlg ℝ) envK 3 minfo f f true true (wspFromFields racah envK minfo f f true bins4 wargs4) none none none = .ok (some r) ∧
    r.val 1 0 = 0 ∧ r.val 2 0 = 0 := by
  obtain ⟨x, y, hf⟩ := madeS 0
  obtain ⟨r0, hr0⟩ := bandpowersK minfo 0
  have hn : (fieldK 1 0).nmaps = 2 := by
    obtain ⟨-, -, -, -, -, -, -, -, p9, -⟩ := (fieldsK (s := 1) le_rfl).facts 0
    exact p9
  obtain ⟨a, ha⟩ := almK 0
  obtain ⟨r, hr⟩ := master_other ha hr0 x y
  have hc : IsoMask callS := ⟨rfl, rfl⟩
  have hreg := wspK_regular minfo 0
  have h := (C95_null racah (exactLinAlg ℝ) exactLinAlg_correct hasSymK rfl minfo hc hc rfl rfl callS_sym callS_sym hf hf true bins4 wargs4 hreg 3 r hr).2.2 hn hn 0
  exact ⟨_, r, hasSymK, rfl, hc, callS_sym, hf, hreg, hr, h.1, h.2⟩

end SymmExample

end NaMaster
