import Verif.Field.BiasLemmas

/-! # The deprojection bias: C59 -/

namespace NaMaster

open Finset

/-! ## Specification -/

/-- Statistically isotropic signals `s1`, `s2` with spectra `cl`: the covariance of `s2` with `s1`, contracted with any map `x`, is obtained
by multiplying the coefficients of `x` by the spectra. `E` is the mean over realisations. -/
def IsoCov {Ω : Type*} (E : (Ω → ℝ) →ₗ[ℝ] ℝ) (env : FieldEnv) (nIter lmax : ℕ) (sp1 sp2 : ℤ) (n1 n2 : ℕ) (cl : ℕ → ℕ → ℕ → ℝ)
    (s1 s2 : Ω → MapStack) : Prop :=
  ∀ x : MapStack, ∀ c < n2, ∀ p < env.pix.npix, E (fun ω => s2 ω c p * env.pix.dot n1 x (s1 ω)) =
    env.sht.alm2map sp2 lmax (mixCl n1 n2 cl (env.sht.map2alm sp1 lmax nIter (tab2 n1 env.pix.npix x))) c p

/-! ## Lemmas -/

theorem pop_expand {S : Sht} (h : S.AnalysisLinear) (nIter : ℕ) (f : FieldObj) (x : MapStack) (n : ℕ) (α : ℕ → ℝ) (U : ℕ → MapStack) :
    pop S nIter f (fun c p => x c p - ∑ i ∈ range n, α i * U i c p) =
      fun c l k => pop S nIter f x c l k - ∑ i ∈ range n, (α i : ℂ) * pop S nIter f (U i) c l k := by
  have e : (fun c p => x c p - ∑ i ∈ range n, α i * U i c p) = x - ∑ i ∈ range n, α i • U i := by
    funext c p; simp
  rw [e]
  have := (popL h nIter f).map_sub x (∑ i ∈ range n, α i • U i)
  rw [map_sum] at this
  simp only [map_smul] at this
  change pop S nIter f _ = pop S nIter f x - ∑ i ∈ range n, α i • pop S nIter f (U i) at this
  rw [this]
  funext c l k
  simp

theorem dot_mask (P : Pix) (nc : ℕ) (T s : MapStack) (m : ℕ → ℝ) :
    P.dot nc T (fun c p => tab2 nc P.npix s c p * m p) = P.dot nc (fun c p => T c p * m p) s := by
  unfold Pix.dot
  refine sum_congr rfl fun c hc => sum_congr rfl fun p hp => ?_
  simp only [tab2_of_lt _ (mem_range.1 hc) (mem_range.1 hp)]; ring

theorem dot_mask' (P : Pix) (nc : ℕ) (T s : MapStack) (m : ℕ → ℝ) :
    P.dot nc T (fun c p => s c p * m p) = P.dot nc (fun c p => T c p * m p) s := by
  unfold Pix.dot
  exact sum_congr rfl fun c hc => sum_congr rfl fun p hp => by ring

theorem dot_tab2 (P : Pix) (nc : ℕ) (T s : MapStack) : P.dot nc T (tab2 nc P.npix s) = P.dot nc T s :=
  dot_congr (fun _ _ _ _ => rfl) fun _ hc _ hp => tab2_of_lt _ hc hp

theorem tab2_mul (nc np : ℕ) (x : MapStack) (m m' : ℕ → ℝ) :
    tab2 nc np (fun c p => tab2 nc np x c p * m p * m' p) = fun c p => tab2 nc np x c p * m p * m' p := by
  funext c p
  unfold tab2
  by_cases h : c < nc ∧ p < np
  · simp only [if_pos h]
  · simp only [if_neg h, zero_mul]

theorem FieldIs.samePure {env : FieldEnv} {a a' : FieldArgs} {nc np : ℕ} {sp : ℤ} {v v' : MapStack} {f g : FieldObj}
    (hf : FieldIs env a nc np sp v f) (hg : FieldIs env a' nc np sp v' g) (h1 : a'.mask = a.mask) (h2 : a'.lmax = a.lmax)
    (h3 : a'.lmaxMask = a.lmaxMask) (h4 : a'.nIterMask = a.nIterMask) (h5 : a'.purifyE = a.purifyE) (h6 : a'.purifyB = a.purifyB) (n : ℕ) :
    purifyIfNeeded env.sht n g = purifyIfNeeded env.sht n f := by
  refine purifyIfNeeded_congr _ _ _ _ ?_ ?_ ?_ ?_ ?_ ?_ ?_
  · rw [hf.pureE, hg.pureE, h5]
  · rw [hf.pureB, hg.pureB, h6]
  · rw [hf.mask, hg.mask, h1]
  · rw [hf.lmax, hg.lmax, h2]
  · rw [hf.lmaxMask, hg.lmaxMask, h3]
  · rw [hf.nIterMask, hg.nIterMask, h4]
  · rw [hf.spin, hg.spin]

theorem FieldIs.same {env : FieldEnv} {a a' : FieldArgs} {nc np : ℕ} {sp : ℤ} {v v' : MapStack} {f g : FieldObj}
    (hf : FieldIs env a nc np sp v f) (hg : FieldIs env a' nc np sp v' g) (h1 : a'.mask = a.mask) (h2 : a'.lmax = a.lmax)
    (h3 : a'.lmaxMask = a.lmaxMask) (h4 : a'.nIterMask = a.nIterMask) (h5 : a'.purifyE = a.purifyE) (h6 : a'.purifyB = a.purifyB) (n : ℕ) :
    pop env.sht n g = pop env.sht n f :=
  pop_congr _ _ _ _ (FieldIs.samePure hf hg h1 h2 h3 h4 h5 h6 n)

theorem purifyIfNeededAll_congr (S : Sht) (nIter : ℕ) (f g : FieldObj) (h : purifyIfNeeded S nIter f = purifyIfNeeded S nIter g)
    (T : ℕ → MapStack) (n : ℕ) : purifyIfNeededAll S nIter f T n = purifyIfNeededAll S nIter g T n := by
  induction n with
  | zero => rfl
  | succ n ih => unfold purifyIfNeededAll; rw [ih, h]

theorem IsoCall.bare {a : FieldArgs} (h : IsoCall a) : IsoCall a.bare := ⟨h.mask22, h.mask12, h.unmasked, h.full, h.tol⟩

theorem view_compat (env : FieldEnv) (minfo : MapInfo) (f g : FieldObj) (strict : Bool) (h1 : f.lmax = g.lmax) (h2 : f.lmaxMask = g.lmaxMask) :
    isCompatible (f.view env.sht minfo).geom (g.view env.sht minfo).geom strict = true := by
  unfold isCompatible FieldObj.view
  simp [minfoNe, minfo_eq_self, h1, h2]

theorem coupled_fields (env : FieldEnv) (minfo : MapInfo) (f g : FieldObj) (same : Bool) (h1 : f.lmax = g.lmax) (h2 : f.lmaxMask = g.lmaxMask)
    (x y : Alms) (hx : f.alm = some (some x)) (hy : g.alm = some (some y)) :
    computeCoupledCell (f.view env.sht minfo) (g.view env.sht minfo) same = .ok (some (Arr2.of (f.nmaps * g.nmaps) (f.lmax + 1) fun k l =>
      alm2cl (x (k / g.nmaps)) (y (k % g.nmaps)) l)) := by
  unfold computeCoupledCell
  rw [if_neg (by rw [view_compat env minfo f g false h1 h2]; simp)]
  unfold FieldObj.view
  simp only [hx, hy, getOr, Outcome.bind, h1, min_self, ite_self, sub_zero]

/-- The mean of the spectra of deprojected fields, for fields of which only the attributes are known. -/
theorem deproj_mean {Ω : Type*} [Nonempty Ω] (E : (Ω → ℝ) →ₗ[ℝ] ℝ) (env : FieldEnv) (hlin : env.sht.AnalysisLinear)
    (hsh : env.sht.Shaped env.pix.npix) (minfo : MapInfo) (a1 a2 : FieldArgs) (nIter : ℕ)
    (hn1 : a1.nIter = nIter) (hn2 : a2.nIter = nIter) (n1 n2 lmax : ℕ) (hl1 : a1.lmax.getD env.lmaxDefault = lmax)
    (hl2 : a2.lmax.getD env.lmaxDefault = lmax) (hlm : a1.lmaxMask.getD env.lmaxDefault = a2.lmaxMask.getD env.lmaxDefault)
    (s1 s2 : Ω → MapStack) (f1 f2 g1 g2 : Ω → FieldObj)
    (k1 : ∀ ω, FieldIs env a1 n1 env.pix.npix (spinOf n1 a1.spin) (s1 ω) (f1 ω))
    (k2 : ∀ ω, FieldIs env a2 n2 env.pix.npix (spinOf n2 a2.spin) (s2 ω) (f2 ω))
    (b1 : ∀ ω, FieldIs env a1.bare n1 env.pix.npix (spinOf n1 a1.spin) (s1 ω) (g1 ω))
    (b2 : ∀ ω, FieldIs env a2.bare n2 env.pix.npix (spinOf n2 a2.spin) (s2 ω) (g2 ω))
    (hQ1 : ∀ ω, (f1 ω).iM ≠ some none) (hQ2 : ∀ ω, (f2 ω).iM ≠ some none)
    (guess : Arr2 ℝ) (hgr : guess.rows = n1 * n2) (hgc : guess.cols = lmax + 1)
    (h12 : IsoCov E env nIter lmax (spinOf n1 a1.spin) (spinOf n2 a2.spin) n1 n2 (fun m n l => guess.val (m * n2 + n) l) s1 s2)
    (h21 : IsoCov E env nIter lmax (spinOf n2 a2.spin) (spinOf n1 a1.spin) n2 n1 (fun n m l => guess.val (m * n2 + n) l) s2 s1)
    (same : Bool) :
    ∃ (B : Arr2 ℝ) (F G : Ω → Arr2 ℝ),
      (∀ ω, deprojectionBias env nIter (isCompatible ((f1 ω).view env.sht minfo).geom ((f2 ω).view env.sht minfo).geom true)
        (f1 ω) (f2 ω) guess = .ok (some B)) ∧
      (∀ ω, computeCoupledCell ((f1 ω).view env.sht minfo) ((f2 ω).view env.sht minfo) same = .ok (some (F ω))) ∧
      (∀ ω, computeCoupledCell ((g1 ω).view env.sht minfo) ((g2 ω).view env.sht minfo) same = .ok (some (G ω))) ∧
      B.rows = n1 * n2 ∧ B.cols = lmax + 1 ∧
      ∀ k < n1 * n2, ∀ l ≤ lmax, E (fun ω => (F ω).val k l) = E (fun ω => (G ω).val k l) + B.val k l := by
  obtain ⟨ω0⟩ := ‹Nonempty Ω›
  have hQex : ∀ (f : FieldObj), f.iM ≠ some none → ∃ Q, f.iM.getD (some fun _ _ => 0) = some Q := by
    intro f hf
    cases hq : f.iM with
    | none => exact ⟨_, rfl⟩
    | some x =>
      cases x with
      | none => exact absurd hq hf
      | some Q => exact ⟨Q, rfl⟩
  obtain ⟨Q1, hq1⟩ := hQex _ (hQ1 ω0)
  obtain ⟨Q2, hq2⟩ := hQex _ (hQ2 ω0)
  have hq1' : ∀ ω, (f1 ω).iM.getD (some fun _ _ => 0) = some Q1 := by
    intro ω; rw [(k1 ω).iMdet, ← (k1 ω0).iMdet]; exact hq1
  have hq2' : ∀ ω, (f2 ω).iM.getD (some fun _ _ => 0) = some Q2 := by
    intro ω; rw [(k2 ω).iMdet, ← (k2 ω0).iMdet]; exact hq2
  set P1 := pop env.sht nIter (f1 ω0) with hP1
  set P2 := pop env.sht nIter (f2 ω0) with hP2
  have pf1 : ∀ ω, pop env.sht nIter (f1 ω) = P1 := fun ω => FieldIs.same (k1 ω0) (k1 ω) rfl rfl rfl rfl rfl rfl nIter
  have pf2 : ∀ ω, pop env.sht nIter (f2 ω) = P2 := fun ω => FieldIs.same (k2 ω0) (k2 ω) rfl rfl rfl rfl rfl rfl nIter
  have pg1 : ∀ ω, pop env.sht nIter (g1 ω) = P1 := fun ω => FieldIs.same (k1 ω0) (b1 ω) rfl rfl rfl rfl rfl rfl nIter
  have pg2 : ∀ ω, pop env.sht nIter (g2 ω) = P2 := fun ω => FieldIs.same (k2 ω0) (b2 ω) rfl rfl rfl rfl rfl rfl nIter
  set np := env.pix.npix with hnp
  set U1 := a1.rawTempl n1 np with hU1
  set U2 := a2.rawTempl n2 np with hU2
  set T1 : ℕ → MapStack := fun i c p => U1 i c p * a1.mask p with hT1
  set T2 : ℕ → MapStack := fun i c p => U2 i c p * a2.mask p with hT2
  set X1 : ℕ → Ω → ℝ := fun j ω => env.pix.dot n1 (fun c p => T1 j c p * a1.mask p) (s1 ω) with hX1
  set X2 : ℕ → Ω → ℝ := fun j ω => env.pix.dot n2 (fun c p => T2 j c p * a2.mask p) (s2 ω) with hX2
  set nt1 := a1.nTempl with hnt1
  set nt2 := a2.nTempl with hnt2
  have fl1 : ∀ ω, (f1 ω).lmax = lmax := fun ω => by rw [(k1 ω).lmax, hl1]; simp
  have fl2 : ∀ ω, (f2 ω).lmax = lmax := fun ω => by rw [(k2 ω).lmax, hl2]; simp
  have gl1 : ∀ ω, (g1 ω).lmax = lmax := fun ω => by rw [(b1 ω).lmax]; change (a1.lmax.getD _).toNat = _; rw [hl1]; simp
  have gl2 : ∀ ω, (g2 ω).lmax = lmax := fun ω => by rw [(b2 ω).lmax]; change (a2.lmax.getD _).toNat = _; rw [hl2]; simp
  have fm : ∀ ω, (f1 ω).lmaxMask = (f2 ω).lmaxMask := fun ω => by rw [(k1 ω).lmaxMask, (k2 ω).lmaxMask, hlm]
  have gm : ∀ ω, (g1 ω).lmaxMask = (g2 ω).lmaxMask := fun ω => by
    rw [(b1 ω).lmaxMask, (b2 ω).lmaxMask]; change (a1.lmaxMask.getD _).toNat = (a2.lmaxMask.getD _).toNat; rw [hlm]
  -- coefficients
  have af1 : ∀ ω, (f1 ω).alm = some (some fun c l k => P1 (tab2 n1 np (s1 ω)) c l k -
      ∑ i ∈ range nt1, ((∑ j ∈ range nt1, Q1 i j * X1 j ω : ℝ) : ℂ) * P1 (U1 i) c l k) := by
    intro ω
    obtain ⟨-, h⟩ := (k1 ω).alm Q1 (hq1' ω)
    rw [h, hn1, pf1 ω]
    congr 2
    have := pop_expand hlin nIter (f1 ω0) (tab2 n1 np (s1 ω)) nt1 (fun i => ∑ j ∈ range nt1, Q1 i j * X1 j ω) U1
    rw [← this]
    congr 1
    funext c p
    congr 1
    refine sum_congr rfl fun i _ => ?_
    congr 1
    exact sum_congr rfl fun j _ => by rw [dot_mask]
  have af2 : ∀ ω, (f2 ω).alm = some (some fun c l k => P2 (tab2 n2 np (s2 ω)) c l k -
      ∑ i ∈ range nt2, ((∑ j ∈ range nt2, Q2 i j * X2 j ω : ℝ) : ℂ) * P2 (U2 i) c l k) := by
    intro ω
    obtain ⟨-, h⟩ := (k2 ω).alm Q2 (hq2' ω)
    rw [h, hn2, pf2 ω]
    congr 2
    have := pop_expand hlin nIter (f2 ω0) (tab2 n2 np (s2 ω)) nt2 (fun i => ∑ j ∈ range nt2, Q2 i j * X2 j ω) U2
    rw [← this]
    congr 1
    funext c p
    congr 1
    refine sum_congr rfl fun i _ => ?_
    congr 1
    exact sum_congr rfl fun j _ => by rw [dot_mask]
  have ag1 : ∀ ω, (g1 ω).alm = some (some (P1 (tab2 n1 np (s1 ω)))) := by
    intro ω
    obtain ⟨-, h⟩ := (b1 ω).alm (fun _ _ => 0) (by rw [(b1 ω).iMdet]; rfl)
    rw [h]
    change some (some (pop env.sht a1.nIter (g1 ω) _)) = _
    rw [hn1, pg1 ω]
    have : a1.bare.nTempl = 0 := rfl
    simp only [this, sum_range_zero, sub_zero]
  have ag2 : ∀ ω, (g2 ω).alm = some (some (P2 (tab2 n2 np (s2 ω)))) := by
    intro ω
    obtain ⟨-, h⟩ := (b2 ω).alm (fun _ _ => 0) (by rw [(b2 ω).iMdet]; rfl)
    rw [h]
    change some (some (pop env.sht a2.nIter (g2 ω) _)) = _
    rw [hn2, pg2 ω]
    have : a2.bare.nTempl = 0 := rfl
    simp only [this, sum_range_zero, sub_zero]
  -- the maps of the bias
  set cl : ℕ → ℕ → ℕ → ℝ := fun m n l => guess.val (m * n2 + n) l with hcl
  set M1 : ℕ → MapStack := fun j => env.sht.alm2map (spinOf n2 a2.spin) lmax (mixCl n1 n2 cl
    (env.sht.map2alm (spinOf n1 a1.spin) lmax nIter fun c p => T1 j c p * a1.mask p)) with hM1
  set M2 : ℕ → MapStack := fun j => env.sht.alm2map (spinOf n1 a1.spin) lmax (mixCl n2 n1 (fun n m => cl m n)
    (env.sht.map2alm (spinOf n2 a2.spin) lmax nIter fun c p => T2 j c p * a2.mask p)) with hM2
  have sM1 : ∀ j, M1 j = tab2 n2 np (M1 j) := by
    intro j
    have := hsh (spinOf n2 a2.spin) lmax (mixCl n1 n2 cl (env.sht.map2alm (spinOf n1 a1.spin) lmax nIter fun c p => T1 j c p * a1.mask p))
    rw [← (k2 ω0).hnc] at this
    exact this
  have sM2 : ∀ j, M2 j = tab2 n1 np (M2 j) := by
    intro j
    have := hsh (spinOf n1 a1.spin) lmax (mixCl n2 n1 (fun n m => cl m n)
      (env.sht.map2alm (spinOf n2 a2.spin) lmax nIter fun c p => T2 j c p * a2.mask p))
    rw [← (k1 ω0).hnc] at this
    exact this
  have e12 : ∀ j (φ : MapStack →ₗ[ℝ] ℝ), E (fun ω => X1 j ω * φ (tab2 n2 np (s2 ω))) = φ (M1 j) := by
    intro j φ
    refine mean_linear E φ n2 np s2 (X1 j) (M1 j) (sM1 j) fun c hc p hp => ?_
    rw [h12 _ c hc p hp]
    have e : tab2 n1 env.pix.npix (fun c p => T1 j c p * a1.mask p) = fun c p => T1 j c p * a1.mask p := tab2_mul _ _ _ _ _
    rw [e]
  have e21 : ∀ j (φ : MapStack →ₗ[ℝ] ℝ), E (fun ω => X2 j ω * φ (tab2 n1 np (s1 ω))) = φ (M2 j) := by
    intro j φ
    refine mean_linear E φ n1 np s1 (X2 j) (M2 j) (sM2 j) fun c hc p hp => ?_
    rw [h21 _ c hc p hp]
    have e : tab2 n2 env.pix.npix (fun c p => T2 j c p * a2.mask p) = fun c p => T2 j c p * a2.mask p := tab2_mul _ _ _ _ _
    rw [e]
  -- the bias
  obtain ⟨r1, hr1, hv1⟩ : ∃ r : ℕ → Alms, (∀ ω, purifyIfNeededAll env.sht nIter (f2 ω) M1 nt1 = .ok r) ∧ ∀ j < nt1, r j = P2 (M1 j) := by
    obtain ⟨r, h, hv⟩ := purifyIfNeededAll_val env.sht nIter (f2 ω0) (hn2 ▸ (k2 ω0).popOk) M1 nt1
    refine ⟨r, fun ω => ?_, hv⟩
    rw [← h]
    exact purifyIfNeededAll_congr _ _ _ _ (FieldIs.samePure (k2 ω0) (k2 ω) rfl rfl rfl rfl rfl rfl nIter) _ _
  obtain ⟨r2, hr2, hv2⟩ : ∃ r : ℕ → Alms, (∀ ω, purifyIfNeededAll env.sht nIter (f1 ω) M2 nt2 = .ok r) ∧ ∀ j < nt2, r j = P1 (M2 j) := by
    obtain ⟨r, h, hv⟩ := purifyIfNeededAll_val env.sht nIter (f1 ω0) (hn1 ▸ (k1 ω0).popOk) M2 nt2
    refine ⟨r, fun ω => ?_, hv⟩
    rw [← h]
    exact purifyIfNeededAll_congr _ _ _ _ (FieldIs.samePure (k1 ω0) (k1 ω) rfl rfl rfl rfl rfl rfl nIter) _ _
  have bm1 : ∀ ω j, biasMap env.sht nIter (f1 ω) (f2 ω) cl (T1 j) = M1 j := by
    intro ω j
    unfold biasMap
    rw [(k1 ω).spin, (k2 ω).spin, fl1 ω, fl2 ω, (k1 ω).nmaps, (k2 ω).nmaps, (k1 ω).mask]
  have bm2 : ∀ ω j, biasMap env.sht nIter (f2 ω) (f1 ω) (fun n m => cl m n) (T2 j) = M2 j := by
    intro ω j
    unfold biasMap
    rw [(k1 ω).spin, (k2 ω).spin, fl1 ω, fl2 ω, (k1 ω).nmaps, (k2 ω).nmaps, (k2 ω).mask]
  refine ⟨Arr2.of (n1 * n2) (lmax + 1) fun k l =>
      0 - (∑ i ∈ range nt1, ∑ j ∈ range nt1, Q1 i j * alm2cl (P1 (U1 i) (k / n2)) (P2 (M1 j) (k % n2)) l)
        - (∑ i ∈ range nt2, ∑ j ∈ range nt2, Q2 i j * alm2cl (P1 (M2 j) (k / n2)) (P2 (U2 i) (k % n2)) l)
        + ∑ i ∈ range nt1, ∑ j ∈ range nt1, ∑ r ∈ range nt2, ∑ s ∈ range nt2, Q1 i j * Q2 r s *
          env.pix.dot n1 (fun c p => T1 j c p * a1.mask p) (M2 r) * alm2cl (P1 (U1 i) (k / n2)) (P2 (U2 s) (k % n2)) l,
    _, _, ?_, fun ω => coupled_fields env minfo (f1 ω) (f2 ω) same ((fl1 ω).trans (fl2 ω).symm) (fm ω) _ _ (af1 ω) (af2 ω),
    fun ω => coupled_fields env minfo (g1 ω) (g2 ω) same ((gl1 ω).trans (gl2 ω).symm) (gm ω) _ _ (ag1 ω) (ag2 ω), rfl, rfl, ?_⟩
  · intro ω
    unfold deprojectionBias
    rw [view_compat env minfo _ _ true ((fl1 ω).trans (fl2 ω).symm) (fm ω), if_neg (by simp),
      if_neg (by rw [hgr, hgc, (k1 ω).nmaps, (k2 ω).nmaps, fl1 ω]; simp), if_neg (by rw [(k1 ω).lite, (k2 ω).lite]; simp)]
    simp only [(k1 ω).temp, (k2 ω).temp, (k1 ω).nmaps, (k2 ω).nmaps, (k1 ω).nTemp, (k2 ω).nTemp]
    have q1 : (fun j => biasMap env.sht nIter (f1 ω) (f2 ω) (fun m n l => guess.val (m * n2 + n) l) fun c p =>
        a1.rawTempl n1 env.pix.npix j c p * a1.mask p) = M1 := funext fun j => bm1 ω j
    have q2 : (fun j => biasMap env.sht nIter (f2 ω) (f1 ω) (fun n m l => guess.val (m * n2 + n) l) fun c p =>
        a2.rawTempl n2 env.pix.npix j c p * a2.mask p) = M2 := funext fun j => bm2 ω j
    rw [q1, q2, hr1 ω, hr2 ω]
    simp only [Outcome.bind, hq1' ω, hq2' ω, fl1 ω]
    congr 3
    funext k l
    unfold biasSums
    simp only [(k1 ω).nTemp, (k2 ω).nTemp, (k1 ω).nmaps, (k1 ω).mask]
    congr 1
    · congr 1
      · congr 1
        refine sum_congr rfl fun i hi => sum_congr rfl fun j hj => ?_
        rw [(k1 ω).almTemp i (mem_range.1 hi), hv1 j (mem_range.1 hj), hn1, pf1 ω]
      · refine sum_congr rfl fun i hi => sum_congr rfl fun j hj => ?_
        rw [(k2 ω).almTemp i (mem_range.1 hi), hv2 j (mem_range.1 hj), hn2, pf2 ω]
    · refine sum_congr rfl fun i hi => sum_congr rfl fun j hj => sum_congr rfl fun r hr => sum_congr rfl fun s hs => ?_
      rw [(k1 ω).almTemp i (mem_range.1 hi), (k2 ω).almTemp s (mem_range.1 hs), hn1, hn2, pf1 ω, pf2 ω]
      congr 2
      rw [← bm2 ω r, dot_mask']
  · intro k hk l hl
    have hv : ∀ x : ℕ → ℕ → ℝ, (Arr2.of (n1 * n2) (lmax + 1) x).val k l = x k l := fun x => tab2_of_lt _ hk (by omega)
    simp only [(k1 _).nmaps, (k2 _).nmaps, (b1 _).nmaps, (b2 _).nmaps, fl1, gl1]
    simp only [hv]
    set c := k / n2
    set d := k % n2
    simp only [alm2cl_expand]
    have hφ : ∀ i, ∃ φ : MapStack →ₗ[ℝ] ℝ, ∀ m, φ m = alm2cl (P1 (U1 i) c) (P2 m d) l := fun i =>
      ⟨clL (P1 (U1 i) c) l d ∘ₗ popL hlin nIter (f2 ω0), fun m => rfl⟩
    have hψ : ∀ i, ∃ φ : MapStack →ₗ[ℝ] ℝ, ∀ m, φ m = alm2cl (P1 m c) (P2 (U2 i) d) l := fun i =>
      ⟨clL (P2 (U2 i) d) l c ∘ₗ popL hlin nIter (f1 ω0), fun m => alm2cl_comm _ _ _⟩
    choose φ hφ using hφ
    choose ψ hψ using hψ
    have efun : (fun ω => alm2cl (P1 (tab2 n1 np (s1 ω)) c) (P2 (tab2 n2 np (s2 ω)) d) l -
          (∑ i ∈ range nt1, (∑ j ∈ range nt1, Q1 i j * X1 j ω) * alm2cl (P1 (U1 i) c) (P2 (tab2 n2 np (s2 ω)) d) l) -
          (∑ s ∈ range nt2, (∑ j ∈ range nt2, Q2 s j * X2 j ω) * alm2cl (P1 (tab2 n1 np (s1 ω)) c) (P2 (U2 s) d) l) +
          ∑ i ∈ range nt1, ∑ s ∈ range nt2, (∑ j ∈ range nt1, Q1 i j * X1 j ω) * (∑ j ∈ range nt2, Q2 s j * X2 j ω) *
            alm2cl (P1 (U1 i) c) (P2 (U2 s) d) l) =
        (fun ω => alm2cl (P1 (tab2 n1 np (s1 ω)) c) (P2 (tab2 n2 np (s2 ω)) d) l) -
          (∑ i ∈ range nt1, ∑ j ∈ range nt1, Q1 i j • fun ω => X1 j ω * φ i (tab2 n2 np (s2 ω))) -
          (∑ s ∈ range nt2, ∑ j ∈ range nt2, Q2 s j • fun ω => X2 j ω * ψ s (tab2 n1 np (s1 ω))) +
          ∑ i ∈ range nt1, ∑ s ∈ range nt2, ∑ j ∈ range nt1, ∑ r ∈ range nt2,
            (Q1 i j * Q2 s r * alm2cl (P1 (U1 i) c) (P2 (U2 s) d) l) • fun ω => X2 r ω *
              dotL env.pix n1 (fun c p => T1 j c p * a1.mask p) (tab2 n1 np (s1 ω)) := by
      funext ω
      simp only [Pi.add_apply, Pi.sub_apply, Finset.sum_apply, Pi.smul_apply, smul_eq_mul, hφ, hψ]
      have hd : ∀ j, dotL env.pix n1 (fun c p => T1 j c p * a1.mask p) (tab2 n1 np (s1 ω)) = X1 j ω := fun j => dot_tab2 _ _ _ _
      simp only [hd]
      congr 1
      · congr 1
        · congr 1
          exact sum_congr rfl fun i _ => by rw [sum_mul]; exact sum_congr rfl fun j _ => by ring
        · exact sum_congr rfl fun i _ => by rw [sum_mul]; exact sum_congr rfl fun j _ => by ring
      · refine sum_congr rfl fun i _ => sum_congr rfl fun s _ => ?_
        rw [sum_mul_sum, sum_mul]
        refine sum_congr rfl fun j _ => ?_
        rw [sum_mul]
        exact sum_congr rfl fun r _ => by ring
    rw [efun]
    simp only [map_add, map_sub, map_sum, map_smul, smul_eq_mul, e12, e21]
    simp only [hφ, hψ]
    rw [sub_sub, sub_add, sub_eq_add_neg]
    congr 1
    have hfg : (∑ i ∈ range nt1, ∑ s ∈ range nt2, ∑ j ∈ range nt1, ∑ r ∈ range nt2,
        Q1 i j * Q2 s r * alm2cl (P1 (U1 i) c) (P2 (U2 s) d) l * dotL env.pix n1 (fun c p => T1 j c p * a1.mask p) (M2 r)) =
        ∑ i ∈ range nt1, ∑ j ∈ range nt1, ∑ r ∈ range nt2, ∑ s ∈ range nt2, Q1 i j * Q2 r s *
          env.pix.dot n1 (fun c p => T1 j c p * a1.mask p) (M2 r) * alm2cl (P1 (U1 i) c) (P2 (U2 s) d) l := by
      refine sum_congr rfl fun i _ => ?_
      rw [sum_comm]
      refine sum_congr rfl fun j _ => ?_
      rw [sum_comm]
      refine sum_congr rfl fun r _ => sum_congr rfl fun s _ => ?_
      rw [((k2 ω0).alm Q2 hq2).1 r s]
      change _ * _ * _ * env.pix.dot n1 _ _ = _
      ring
    rw [hfg]
    ring

/-! ## C59 -/

/-- C59: for isotropic signals with the spectra passed as best guess, `deprojection_bias` is exactly the difference between the mean
spectrum of the fields with templates and the mean spectrum of the same fields without, also for purified fields. -/
theorem C59_mean {Ω : Type*} [Nonempty Ω] (E : (Ω → ℝ) →ₗ[ℝ] ℝ) (env : FieldEnv) (hlin : env.sht.AnalysisLinear)
    (hsh : env.sht.Shaped env.pix.npix) (minfo : MapInfo) (a1 a2 : FieldArgs) (hi1 : IsoCall a1) (hi2 : IsoCall a2) (nIter : ℕ)
    (hn1 : a1.nIter = nIter) (hn2 : a2.nIter = nIter) (n1 n2 lmax : ℕ) (hl1 : a1.lmax.getD env.lmaxDefault = lmax)
    (hl2 : a2.lmax.getD env.lmaxDefault = lmax) (hlm : a1.lmaxMask.getD env.lmaxDefault = a2.lmaxMask.getD env.lmaxDefault)
    (s1 s2 : Ω → MapStack) (f1 f2 g1 g2 : Ω → FieldObj)
    (hf1 : ∀ ω, nmtField env (a1.withMaps n1 env.pix.npix (s1 ω)) = .ok (f1 ω))
    (hf2 : ∀ ω, nmtField env (a2.withMaps n2 env.pix.npix (s2 ω)) = .ok (f2 ω))
    (hg1 : ∀ ω, nmtField env (a1.bare.withMaps n1 env.pix.npix (s1 ω)) = .ok (g1 ω))
    (hg2 : ∀ ω, nmtField env (a2.bare.withMaps n2 env.pix.npix (s2 ω)) = .ok (g2 ω))
    (hQ1 : ∀ ω, (f1 ω).iM ≠ some none) (hQ2 : ∀ ω, (f2 ω).iM ≠ some none)
    (guess : Arr2 ℝ) (hgr : guess.rows = n1 * n2) (hgc : guess.cols = lmax + 1)
    (h12 : IsoCov E env nIter lmax (spinOf n1 a1.spin) (spinOf n2 a2.spin) n1 n2 (fun m n l => guess.val (m * n2 + n) l) s1 s2)
    (h21 : IsoCov E env nIter lmax (spinOf n2 a2.spin) (spinOf n1 a1.spin) n2 n1 (fun n m l => guess.val (m * n2 + n) l) s2 s1)
    (same : Bool) :
    ∃ (B : Arr2 ℝ) (F G : Ω → Arr2 ℝ),
      (∀ ω, deprojectionBias env nIter (isCompatible ((f1 ω).view env.sht minfo).geom ((f2 ω).view env.sht minfo).geom true)
        (f1 ω) (f2 ω) guess = .ok (some B)) ∧
      (∀ ω, computeCoupledCell ((f1 ω).view env.sht minfo) ((f2 ω).view env.sht minfo) same = .ok (some (F ω))) ∧
      (∀ ω, computeCoupledCell ((g1 ω).view env.sht minfo) ((g2 ω).view env.sht minfo) same = .ok (some (G ω))) ∧
      B.rows = n1 * n2 ∧ B.cols = lmax + 1 ∧
      ∀ k < n1 * n2, ∀ l ≤ lmax, E (fun ω => (F ω).val k l) = E (fun ω => (G ω).val k l) + B.val k l :=
  deproj_mean E env hlin hsh minfo a1 a2 nIter hn1 hn2 n1 n2 lmax hl1 hl2 hlm s1 s2 f1 f2 g1 g2
    (fun ω => field_is env a1 hi1 n1 env.pix.npix (s1 ω) (f1 ω) (hf1 ω)) (fun ω => field_is env a2 hi2 n2 env.pix.npix (s2 ω) (f2 ω) (hf2 ω))
    (fun ω => field_is env a1.bare hi1.bare n1 env.pix.npix (s1 ω) (g1 ω) (hg1 ω))
    (fun ω => field_is env a2.bare hi2.bare n2 env.pix.npix (s2 ω) (g2 ω) (hg2 ω)) hQ1 hQ2 guess hgr hgc h12 h21 same

end NaMaster
