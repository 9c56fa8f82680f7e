import Verif.Span.Bias

/-! # C104: template deprojection depends on the span of the templates only -/

namespace NaMaster

open Finset

/-- A finite pseudo-inverse of templates whose scalar products are separated by the tolerance. -/
theorem FieldIs.genInv {env : FieldEnv} (hE : env.eig.Correct) (hw : ∀ p < env.pix.npix, 0 < env.pix.w p) {a : FieldArgs} (hi : IsoCall a) {nc : ℕ}
    (hsep : Separated env.pix nc a.nTempl (a.maskedTempl nc env.pix.npix) a.tol) {sp : ℤ} {v : MapStack} {f : FieldObj}
    (h : FieldIs env a nc env.pix.npix sp v f) :
    ∃ Q, f.iM = some (some Q) ∧ GenInv a.nTempl (gram env.pix nc (a.maskedTempl nc env.pix.npix)) Q := by
  set np := env.pix.npix with hnp
  obtain ⟨⟨i0, hi0, j0, hj0, hne⟩, top, ht, hgap⟩ := hsep
  obtain ⟨Q, hp, _, hQ⟩ := pinv_gen_inv env.eig hE env.inv a.nTempl (tab2 a.nTempl a.nTempl (gram env.pix nc (a.maskedTempl nc np))) a.tol top
    (gram_tab_symm _ _ _ _) (gram_psd _ (fun p hp => (hw p hp).le) _ _ _) ⟨i0, hi0, j0, hj0, by rw [tab2_of_lt _ hi0 hj0]; exact hne⟩ hi.tol
    (by unfold TopEigenvalue at ht ⊢; simpa only [eigenPair_tab] using ht) (fun lam x hx => hgap lam x (eigenPair_tab.1 hx))
  obtain ⟨t, hts⟩ : ∃ t, a.templates = some t := by
    cases hts : a.templates with
    | none => unfold FieldArgs.nTempl at hi0; rw [hts] at hi0; simp at hi0
    | some t => exact ⟨t, rfl⟩
  have hsw : (fun i j => env.pix.dot nc (fun c p => a.rawTempl nc np j c p * a.mask p) (fun c p => a.rawTempl nc np i c p * a.mask p)) =
      gram env.pix nc (a.maskedTempl nc np) := by
    funext i j; exact dot_comm _ _
  exact ⟨Q, by rw [h.iMdet, hts, hsw, hp]; rfl, genInv_tab hQ⟩

theorem removed_pop {S : Sht} (h : S.AnalysisLinear) (nIter : ℕ) (f : FieldObj) (P : Pix) (nm n : ℕ) (Q : ℕ → ℕ → ℝ) (T U : ℕ → MapStack) (V : ℕ → Alms)
    (hV : ∀ i < n, V i = pop S nIter f (U i)) (x : MapStack) :
    removed P nm n Q T V x = pop S nIter f (combine n (tcoef P nm n Q T x) U) := by
  unfold removed
  have e : combine n (tcoef P nm n Q T x) U = ∑ i ∈ range n, tcoef P nm n Q T x i • U i := by
    funext c p; simp [combine]
  rw [e]
  have := map_sum (popL h nIter f) (fun i => tcoef P nm n Q T x i • U i) (range n)
  simp only [map_smul] at this
  change pop S nIter f _ = _ at this
  rw [this]
  refine sum_congr rfl fun i hi => ?_
  rw [hV i (mem_range.1 hi)]; rfl

theorem pop_plain (S : Sht) (nIter : ℕ) {f : FieldObj} (hp : (f.pureE || f.pureB) = false) {x y : MapStack} (h : ∀ c p, x c p * f.mask p = y c p * f.mask p) :
    pop S nIter f x = pop S nIter f y := by
  unfold pop purifyIfNeeded
  simp only [hp, Bool.false_eq_true, if_false]
  congr 1
  funext c p
  exact h c p

section
variable {env : FieldEnv} {a a' : FieldArgs} {nc : ℕ} {v : MapStack} {f f' : FieldObj}

theorem rawTempl_out (a : FieldArgs) (nc np i c p : ℕ) (h : ¬ (c < nc ∧ p < np)) : a.rawTempl nc np i c p = 0 := by
  unfold FieldArgs.rawTempl tab2
  rw [if_neg h]

/-- Both calls make field objects that remove the same. -/
theorem alike_of (hE : env.eig.Correct) (hlin : env.sht.AnalysisLinear) (hw : ∀ p < env.pix.npix, 0 < env.pix.w p) (hi : IsoCall a)
    (hs : SameSpan env.pix nc a a') (hf : nmtField env (a.withMaps nc env.pix.npix v) = .ok f) (hf' : nmtField env (a'.withMaps nc env.pix.npix v) = .ok f')
    (nIter : ℕ) : ∃ Q Q', SpanAlike env nIter f f' Q Q' ∧ f'.alm = f.alm := by
  set np := env.pix.npix with hnp
  have hr := hs.rest
  have hi' : IsoCall a' := by
    rw [hr]; exact ⟨hi.mask22, hi.mask12, hi.unmasked, hi.full, hi.tol⟩
  have k := field_is env a hi nc np v f hf
  have k' := field_is env a' hi' nc np v f' hf'
  have rm : a'.mask = a.mask := by rw [hr]
  have rt : a'.tol = a.tol := by rw [hr]
  have rl : a'.lmax = a.lmax := by rw [hr]
  have rlm : a'.lmaxMask = a.lmaxMask := by rw [hr]
  have rn : a'.nIter = a.nIter := by rw [hr]
  have rnm : a'.nIterMask = a.nIterMask := by rw [hr]
  have re : a'.purifyE = a.purifyE := by rw [hr]
  have rb : a'.purifyB = a.purifyB := by rw [hr]
  have rs : a'.spin = a.spin := by rw [hr]
  rw [rs] at k'
  have hpur : ∀ n, purifyIfNeeded env.sht n f' = purifyIfNeeded env.sht n f := FieldIs.samePure k k' rm rl rlm rnm re rb
  have hpop : ∀ n, pop env.sht n f' = pop env.sht n f := fun n => pop_congr _ _ _ _ (hpur n)
  have hT : f.tmpl = a.maskedTempl nc np := k.temp
  have hT' : f'.tmpl = a'.maskedTempl nc np := k'.temp
  have hV : ∀ i < a.nTempl, f.tmplAlm i = pop env.sht a.nIter f (a.rawTempl nc np i) := k.almTemp
  have hV' : ∀ i < a'.nTempl, f'.tmplAlm i = pop env.sht a.nIter f (a'.rawTempl nc np i) := by
    intro i hi
    have := k'.almTemp i hi
    rw [rn, hpop] at this
    exact this
  have shape : ∀ (b : FieldArgs) (j : ℕ), b.maskedTempl nc np j = tab2 nc np (b.maskedTempl nc np j) := by
    intro b j
    funext c p
    unfold tab2
    split_ifs with h
    · rfl
    · unfold FieldArgs.maskedTempl; rw [rawTempl_out _ _ _ _ _ _ h, zero_mul]
  -- the pseudo-inverses
  have hQ : ∃ Q Q', f.iM.getD (some fun _ _ => 0) = some Q ∧ f'.iM.getD (some fun _ _ => 0) = some Q' ∧
      ∀ x, pop env.sht a.nIter f (combine a.nTempl (tcoef env.pix nc a.nTempl Q (a.maskedTempl nc np) x) (a.rawTempl nc np)) =
        pop env.sht a.nIter f (combine a'.nTempl (tcoef env.pix nc a'.nTempl Q' (a'.maskedTempl nc np) x) (a'.rawTempl nc np)) := by
    rcases hs.span with ⟨hn, hn'⟩ | ⟨hsep, hsep', hspan⟩
    · have e : f.iM = none := by rw [k.iMdet, hn]; rfl
      have e' : f'.iM = none := by rw [k'.iMdet, hn']; rfl
      refine ⟨fun _ _ => 0, fun _ _ => 0, by rw [e]; rfl, by rw [e']; rfl, fun x => ?_⟩
      have z : a.nTempl = 0 := by unfold FieldArgs.nTempl; rw [hn]; rfl
      have z' : a'.nTempl = 0 := by unfold FieldArgs.nTempl; rw [hn']; rfl
      rw [z, z']
      unfold combine
      simp
    · obtain ⟨Q, hq, hg⟩ := k.genInv hE hw hi hsep
      obtain ⟨Q', hq', hg'⟩ := k'.genInv hE hw hi' (by rw [rt]; exact hsep')
      refine ⟨Q, Q', by rw [hq]; rfl, by rw [hq']; rfl, fun x => ?_⟩
      have out : ∀ (b : FieldArgs) (n : ℕ) (z : ℕ → ℝ) (c p : ℕ), ¬ (c < nc ∧ p < np) → combine n z (b.rawTempl nc np) c p = 0 := by
        intro b n z c p h
        unfold combine
        exact sum_eq_zero fun i _ => by rw [rawTempl_out _ _ _ _ _ _ h, mul_zero]
      have hmul : ∀ (b : FieldArgs) (n : ℕ) (z : ℕ → ℝ) (c p : ℕ), combine n z (b.rawTempl nc np) c p * b.mask p = combine n z (b.maskedTempl nc np) c p := by
        intro b n z c p
        unfold combine FieldArgs.maskedTempl
        rw [sum_mul]
        exact sum_congr rfl fun i _ => by ring
      rcases hspan with ⟨hplain, hsp⟩ | ⟨hsp, hind⟩
      · refine pop_plain _ _ (by rw [k.pureE, k.pureB]; exact hplain) fun c p => ?_
        rw [k.mask, hmul a, ← rm, hmul a']
        by_cases hcp : c < nc ∧ p < np
        · exact removed_masked hw hg hg' hsp x c p hcp.1 hcp.2
        · rw [← hmul, ← hmul, out _ _ _ _ _ hcp, out _ _ _ _ _ hcp, zero_mul, zero_mul]
      · congr 1
        funext c p
        by_cases hcp : c < nc ∧ p < np
        · have hm' : a'.maskedTempl nc np = fun i c p => a'.rawTempl nc np i c p * a.mask p := by
            rw [← rm]; rfl
          rw [hm'] at hg' ⊢
          exact removed_raw hw hg hg' hsp hind x c p hcp.1 hcp.2
        · rw [out _ _ _ _ _ hcp, out _ _ _ _ _ hcp]
  obtain ⟨Q, Q', q, q', hrem⟩ := hQ
  obtain ⟨s1, al⟩ := k.alm Q q
  obtain ⟨s1', al'⟩ := k'.alm Q' q'
  refine ⟨Q, Q', ⟨?_, ?_, ?_, ?_, ?_, hpur nIter, popOk_iter nIter k.popOk, q, q', s1, s1', ?_, ?_, ?_⟩, ?_⟩
  · rw [k.spin, k'.spin]
  · rw [k.nmaps, k'.nmaps]
  · rw [k.mask, k'.mask, rm]
  · rw [k.lmax, k'.lmax, rl]
  · rw [k.lite, k'.lite]
  · intro j _; rw [hT, k.nmaps]; exact shape a j
  · intro j _; rw [hT', k.nmaps]; exact shape a' j
  · intro x
    rw [k.nmaps, k.nTemp, k'.nTemp, hT, hT']
    rw [removed_pop hlin a.nIter f _ _ _ _ _ _ _ hV, removed_pop hlin a.nIter f _ _ _ _ _ _ _ hV']
    exact hrem x
  · rw [al, al', rn, hpop, rm]
    congr 2
    have e : ∀ (b : FieldArgs) (R : ℕ → ℕ → ℝ), b.mask = a.mask → pop env.sht a.nIter f (fun c p => tab2 nc np v c p -
        ∑ i ∈ range b.nTempl, (∑ j ∈ range b.nTempl, R i j * env.pix.dot nc (fun c p => b.rawTempl nc np j c p * a.mask p)
          (fun c p => tab2 nc np v c p * a.mask p)) * b.rawTempl nc np i c p) =
        pop env.sht a.nIter f (tab2 nc np v) - pop env.sht a.nIter f (combine b.nTempl (tcoef env.pix nc b.nTempl R (b.maskedTempl nc np)
          (fun c p => tab2 nc np v c p * a.mask p)) (b.rawTempl nc np)) := by
      intro b R hb
      have := (popL hlin a.nIter f).map_sub (tab2 nc np v) (combine b.nTempl (tcoef env.pix nc b.nTempl R (b.maskedTempl nc np)
          (fun c p => tab2 nc np v c p * a.mask p)) (b.rawTempl nc np))
      change pop env.sht a.nIter f _ = pop env.sht a.nIter f _ - pop env.sht a.nIter f _ at this
      rw [← this]
      congr 1
      funext c p
      have hm : ∀ j, b.maskedTempl nc np j = fun c p => b.rawTempl nc np j c p * a.mask p := fun j => by rw [← hb]; rfl
      simp only [Pi.sub_apply, combine, tcoef, hm]
    rw [e a Q rfl, e a' Q' rm, hrem]

/-- What workspaces and spectra read from field objects, besides coefficients. -/
theorem rest_same (hi : IsoCall a) (hs : SameSpan env.pix nc a a') (hf : nmtField env (a.withMaps nc env.pix.npix v) = .ok f)
    (hf' : nmtField env (a'.withMaps nc env.pix.npix v) = .ok f') :
    f'.spin = f.spin ∧ f'.nmaps = f.nmaps ∧ f'.mask = f.mask ∧ f'.lmax = f.lmax ∧ f'.lmaxMask = f.lmaxMask ∧ f'.nIterMask = f.nIterMask ∧
      f'.pureE = f.pureE ∧ f'.pureB = f.pureB ∧ f'.maskA = f.maskA ∧ f'.beam = f.beam := by
  have hr := hs.rest
  have hi' : IsoCall a' := by
    rw [hr]; exact ⟨hi.mask22, hi.mask12, hi.unmasked, hi.full, hi.tol⟩
  have k := field_is env a hi nc env.pix.npix v f hf
  have k' := field_is env a' hi' nc env.pix.npix v f' hf'
  obtain ⟨m, b⟩ := field_rest_any env a hi nc env.pix.npix v f hf
  obtain ⟨m', b'⟩ := field_rest_any env a' hi' nc env.pix.npix v f' hf'
  refine ⟨?_, ?_, ?_, ?_, ?_, ?_, ?_, ?_, ?_, ?_⟩
  · rw [k.spin, k'.spin, hr]
  · rw [k.nmaps, k'.nmaps]
  · rw [k.mask, k'.mask, hr]
  · rw [k.lmax, k'.lmax, hr]
  · rw [k.lmaxMask, k'.lmaxMask, hr]
  · rw [k.nIterMask, k'.nIterMask, hr]
  · rw [k.pureE, k'.pureE, hr]
  · rw [k.pureB, k'.pureB, hr]
  · rw [m, m']
  · rw [b, b', hr]

end

theorem view_same (S : Sht) (minfo : MapInfo) {f f' : FieldObj} (hn : f'.nmaps = f.nmaps) (hm : f'.mask = f.mask) (hl : f'.lmax = f.lmax)
    (hlm : f'.lmaxMask = f.lmaxMask) (hi : f'.nIterMask = f.nIterMask) (ha : f'.alm = f.alm) : f'.view S minfo = f.view S minfo := by
  unfold FieldObj.view FieldObj.getMaskAlms
  rw [hn, hm, hl, hlm, hi, ha]

section
variable {env : FieldEnv} {a1 a2 a1' a2' : FieldArgs} {n1 n2 : ℕ} {v1 v2 : MapStack} {f1 f2 f1' f2' : FieldObj}

/-- **C104**, fields: the coefficients of a field do not depend on which templates are given, how many, in which order and units, as long as they span
the same maps. -/
theorem C104_field (hE : env.eig.Correct) (hlin : env.sht.AnalysisLinear) (hw : ∀ p < env.pix.npix, 0 < env.pix.w p) (hi : IsoCall a1)
    (hs : SameSpan env.pix n1 a1 a1') (hf : nmtField env (a1.withMaps n1 env.pix.npix v1) = .ok f1)
    (hf' : nmtField env (a1'.withMaps n1 env.pix.npix v1) = .ok f1') : f1'.alm = f1.alm ∧ f1.alm ≠ none ∧ f1.alm ≠ some none := by
  obtain ⟨Q, Q', h, e⟩ := alike_of hE hlin hw hi hs hf hf' 0
  have k := (field_is env a1 hi n1 env.pix.npix v1 f1 hf).alm Q h.iM
  exact ⟨e, by rw [k.2]; simp, by rw [k.2]; simp⟩

/-- **C104**, spectra: pseudo-spectra and the deprojection bias of fields do not depend on which templates are given, as long as they span the same maps. -/
theorem C104_pseudo (hE : env.eig.Correct) (hlin : env.sht.AnalysisLinear) (hun : env.sht.UnpadLinear) (hw : ∀ p < env.pix.npix, 0 < env.pix.w p)
    (minfo : MapInfo) (i1 : IsoCall a1) (i2 : IsoCall a2) (s1 : SameSpan env.pix n1 a1 a1') (s2 : SameSpan env.pix n2 a2 a2')
    (hf1 : nmtField env (a1.withMaps n1 env.pix.npix v1) = .ok f1) (hf2 : nmtField env (a2.withMaps n2 env.pix.npix v2) = .ok f2)
    (hf1' : nmtField env (a1'.withMaps n1 env.pix.npix v1) = .ok f1') (hf2' : nmtField env (a2'.withMaps n2 env.pix.npix v2) = .ok f2')
    (same : Bool) (nIter : ℕ) (compat : Bool) (guess : Arr2 ℝ) :
    computeCoupledCell (f1'.view env.sht minfo) (f2'.view env.sht minfo) same = computeCoupledCell (f1.view env.sht minfo) (f2.view env.sht minfo) same ∧
      deprojectionBias env nIter compat f1' f2' guess = deprojectionBias env nIter compat f1 f2 guess := by
  obtain ⟨Q1, Q1', h1, e1⟩ := alike_of hE hlin hw i1 s1 hf1 hf1' nIter
  obtain ⟨Q2, Q2', h2, e2⟩ := alike_of hE hlin hw i2 s2 hf2 hf2' nIter
  obtain ⟨_, c1, c2, c3, c4, c5, _⟩ := rest_same i1 s1 hf1 hf1'
  obtain ⟨_, d1, d2, d3, d4, d5, _⟩ := rest_same i2 s2 hf2 hf2'
  refine ⟨?_, bias_same env hlin hun hw nIter h1 h2 compat guess⟩
  rw [view_same env.sht minfo c1 c2 c3 c4 c5 e1, view_same env.sht minfo d1 d2 d3 d4 d5 e2]

/-- Workspaces do not depend on the templates. -/
theorem span_wsp (W : Wigner) (minfo : MapInfo) (hE : env.eig.Correct) (hlin : env.sht.AnalysisLinear) (hw : ∀ p < env.pix.npix, 0 < env.pix.w p)
    (i1 : IsoCall a1) (i2 : IsoCall a2) (s1 : SameSpan env.pix n1 a1 a1') (s2 : SameSpan env.pix n2 a2 a2')
    (hf1 : nmtField env (a1.withMaps n1 env.pix.npix v1) = .ok f1) (hf2 : nmtField env (a2.withMaps n2 env.pix.npix v2) = .ok f2)
    (hf1' : nmtField env (a1'.withMaps n1 env.pix.npix v1) = .ok f1') (hf2' : nmtField env (a2'.withMaps n2 env.pix.npix v2) = .ok f2')
    (same : Bool) (B : Bins ℝ) (wa : WspArgs) : wspFromFields W env minfo f1' f2' same B wa = wspFromFields W env minfo f1 f2 same B wa := by
  obtain ⟨_, _, _, e1⟩ := alike_of hE hlin hw i1 s1 hf1 hf1' 0
  obtain ⟨_, _, _, e2⟩ := alike_of hE hlin hw i2 s2 hf2 hf2' 0
  obtain ⟨c0, c1, c2, c3, c4, c5, c6, c7, c8, c9⟩ := rest_same i1 s1 hf1 hf1'
  obtain ⟨d0, d1, d2, d3, d4, d5, d6, d7, d8, d9⟩ := rest_same i2 s2 hf2 hf2'
  unfold wspFromFields anisoFromFields couplingArgsOf FieldObj.beamList FieldObj.getAnisoAlms normOf
  rw [view_same env.sht minfo c1 c2 c3 c4 c5 e1, view_same env.sht minfo d1 d2 d3 d4 d5 e2]
  unfold FieldObj.getMaskAlms
  rw [c0, c2, c3, c4, c5, c6, c7, c8, c9, d0, d2, d4, d5, d6, d7, d8, d9]

/-- **C104**, bandpowers: what `compute_full_master` returns, with its own or a given workspace, does not depend on which templates are given, as long
as they span the same maps. -/
theorem C104_bandpowers (W : Wigner) (L : LinAlg ℝ) (hE : env.eig.Correct) (hlin : env.sht.AnalysisLinear) (hun : env.sht.UnpadLinear)
    (hw : ∀ p < env.pix.npix, 0 < env.pix.w p) (minfo : MapInfo) (i1 : IsoCall a1) (i2 : IsoCall a2) (s1 : SameSpan env.pix n1 a1 a1')
    (s2 : SameSpan env.pix n2 a2 a2')
    (hf1 : nmtField env (a1.withMaps n1 env.pix.npix v1) = .ok f1) (hf2 : nmtField env (a2.withMaps n2 env.pix.npix v2) = .ok f2)
    (hf1' : nmtField env (a1'.withMaps n1 env.pix.npix v1) = .ok f1') (hf2' : nmtField env (a2'.withMaps n2 env.pix.npix v2) = .ok f2')
    (same hasBins : Bool) (nIter : ℕ) (B : Bins ℝ) (wa : WspArgs) (workspace : Option (Wsp ℝ)) (clNoise clGuess : Option (Arr2 ℝ)) :
    fullMaster L env nIter minfo f1' f2' same hasBins (wspFromFields W env minfo f1' f2' same B wa) workspace clNoise clGuess =
      fullMaster L env nIter minfo f1 f2 same hasBins (wspFromFields W env minfo f1 f2 same B wa) workspace clNoise clGuess := by
  obtain ⟨Q1, Q1', h1, e1⟩ := alike_of hE hlin hw i1 s1 hf1 hf1' nIter
  obtain ⟨Q2, Q2', h2, e2⟩ := alike_of hE hlin hw i2 s2 hf2 hf2' nIter
  obtain ⟨_, c1, c2, c3, c4, c5, _⟩ := rest_same i1 s1 hf1 hf1'
  obtain ⟨_, d1, d2, d3, d4, d5, _⟩ := rest_same i2 s2 hf2 hf2'
  rw [span_wsp W minfo hE hlin hw i1 i2 s1 s2 hf1 hf2 hf1' hf2']
  unfold fullMaster
  simp only [view_same env.sht minfo c1 c2 c3 c4 c5 e1, view_same env.sht minfo d1 d2 d3 d4 d5 e2, bias_same env hlin hun hw nIter h1 h2, c1, c3, d1]

end

end NaMaster
