import Verif.Field.BiasProps

/-!
# The deprojection bias of inhomogeneous noise: C60

`uncorr_noise_deprojection_bias` (pymaster/workspaces.py:790-854).
-/

namespace NaMaster

open Finset

/-! ## Model -/

/-- `uncorr_noise_deprojection_bias` (pymaster/workspaces.py:790-854) for a variance map with `nv` pixels. A pseudo-inverse that is not
finite gives a bias that is not finite (`none`). Component `k` of the spectra is the pair `(k / nmaps, k % nmaps)`; as in lines 829-833 the
first one is the component of the coefficients with the noise variance. -/
noncomputable def uncorrNoiseBias (env : FieldEnv) (nIter : ℕ) (f : FieldObj) (nv : ℕ) (var : ℕ → ℝ) : Outcome (Option (Arr2 ℝ)) :=
  if f.lite then .raises .value
  else if nv ≠ env.pix.npix then .raises .value
  else if f.nTemp = 0 then .ok (some (Arr2.of (f.nmaps * f.nmaps) (f.lmax + 1) fun _ _ => 0))
  else
    let t := f.temp.getD fun _ _ _ => 0
    let at' := f.almTemp.getD fun _ _ _ _ => 0
    let weighted : ℕ → MapStack := fun j c p => t j c p * (f.mask p ^ 2 * var p)
    let fvs : ℕ → Alms := fun j => env.sht.map2alm f.spin f.lmax nIter (weighted j)
    .ok (match f.iM.getD (some fun _ _ => 0) with
      | some iM => some (Arr2.of (f.nmaps * f.nmaps) (f.lmax + 1) fun k l =>
          0 - 2 * (∑ i ∈ range f.nTemp, ∑ j ∈ range f.nTemp, iM i j * alm2cl (at' i (k % f.nmaps)) (fvs j (k / f.nmaps)) l)
            + ∑ i ∈ range f.nTemp, ∑ j ∈ range f.nTemp, ∑ r ∈ range f.nTemp, ∑ s ∈ range f.nTemp,
              iM i j * iM r s * env.pix.dot f.nmaps (t j) (weighted r) * alm2cl (at' i (k / f.nmaps)) (at' s (k % f.nmaps)) l)
      | none => none)

/-! ## Specification -/

/-- Noise `n` without correlations between pixels or components, with variance `var p / area p` in pixel `p` (`var` is the variance
in one steradian): the covariance contracted with any map `x` under the integral over the sphere is `var` times `x`. -/
def WhiteNoise {Ω : Type*} (E : (Ω → ℝ) →ₗ[ℝ] ℝ) (P : Pix) (nc : ℕ) (var : ℕ → ℝ) (n : Ω → MapStack) : Prop :=
  ∀ c < nc, ∀ p < P.npix, ∀ c' < nc, ∀ p' < P.npix,
    E (fun ω => n ω c p * n ω c' p') * P.w p' = if c = c' ∧ p = p' then var p else 0

theorem WhiteNoise.contract {Ω : Type*} {E : (Ω → ℝ) →ₗ[ℝ] ℝ} {P : Pix} {nc : ℕ} {var : ℕ → ℝ} {n : Ω → MapStack}
    (h : WhiteNoise E P nc var n) (x : MapStack) (c : ℕ) (hc : c < nc) (p : ℕ) (hp : p < P.npix) :
    E (fun ω => n ω c p * P.dot nc x (n ω)) = var p * x c p := by
  have e : (fun ω => n ω c p * P.dot nc x (n ω)) =
      ∑ c' ∈ range nc, ∑ p' ∈ range P.npix, (P.w p' * x c' p') • fun ω => n ω c p * n ω c' p' := by
    funext ω
    simp only [Pix.dot, Finset.sum_apply, Pi.smul_apply, smul_eq_mul, mul_sum]
    exact sum_congr rfl fun c' _ => sum_congr rfl fun p' _ => by ring
  rw [e]
  simp only [map_sum, map_smul, smul_eq_mul]
  have e2 : ∀ c' ∈ range nc, ∀ p' ∈ range P.npix, P.w p' * x c' p' * E (fun ω => n ω c p * n ω c' p') =
      if c = c' ∧ p = p' then var p * x c p else 0 := by
    intro c' hc' p' hp'
    have := h c hc p hp c' (mem_range.1 hc') p' (mem_range.1 hp')
    calc _ = x c' p' * (E (fun ω => n ω c p * n ω c' p') * P.w p') := by ring
      _ = _ := by
        rw [this]
        by_cases hk : c = c' ∧ p = p'
        · rw [if_pos hk, if_pos hk, hk.1, hk.2]; ring
        · rw [if_neg hk, if_neg hk]; ring
  rw [sum_congr rfl fun c' hc' => sum_congr rfl fun p' hp' => e2 c' hc' p' hp']
  rw [sum_eq_single_of_mem c (mem_range.2 hc), sum_eq_single_of_mem p (mem_range.2 hp)]
  · simp
  · intro p' _ hne; rw [if_neg]; rintro ⟨_, rfl⟩; exact hne rfl
  · intro c' _ hne
    exact sum_eq_zero fun p' _ => if_neg (by rintro ⟨rfl, _⟩; exact hne rfl)

/-! ## C60 -/

/-- C60: for uncorrelated noise in a field without purification, the mean spectra of the field with templates are those of the same
field without templates plus the bias averaged over the two orders of the components. For the diagonal components the returned bias is exact. -/
theorem C60_mean {Ω : Type*} [Nonempty Ω] (E : (Ω → ℝ) →ₗ[ℝ] ℝ) (env : FieldEnv) (hlin : env.sht.AnalysisLinear) (minfo : MapInfo)
    (a : FieldArgs) (hi : IsoCall a) (hpe : a.purifyE = false) (hpb : a.purifyB = false) (nc lmax : ℕ)
    (hl : a.lmax.getD env.lmaxDefault = lmax) (var : ℕ → ℝ) (n : Ω → MapStack) (f g : Ω → FieldObj)
    (hf : ∀ ω, nmtField env (a.withMaps nc env.pix.npix (n ω)) = .ok (f ω))
    (hg : ∀ ω, nmtField env (a.bare.withMaps nc env.pix.npix (n ω)) = .ok (g ω))
    (hQ : ∀ ω, (f ω).iM ≠ some none) (hw : WhiteNoise E env.pix nc var n) (same : Bool) :
    ∃ (B : Arr2 ℝ) (F G : Ω → Arr2 ℝ),
      (∀ ω, uncorrNoiseBias env a.nIter (f ω) env.pix.npix var = .ok (some B)) ∧
      (∀ ω, computeCoupledCell ((f ω).view env.sht minfo) ((f ω).view env.sht minfo) same = .ok (some (F ω))) ∧
      (∀ ω, computeCoupledCell ((g ω).view env.sht minfo) ((g ω).view env.sht minfo) same = .ok (some (G ω))) ∧
      B.rows = nc * nc ∧ B.cols = lmax + 1 ∧
      (∀ c < nc, ∀ d < nc, ∀ l ≤ lmax, E (fun ω => (F ω).val (c * nc + d) l) =
        E (fun ω => (G ω).val (c * nc + d) l) + (B.val (c * nc + d) l + B.val (d * nc + c) l) / 2) ∧
      ∀ c < nc, ∀ l ≤ lmax, E (fun ω => (F ω).val (c * nc + c) l) = E (fun ω => (G ω).val (c * nc + c) l) + B.val (c * nc + c) l := by
  obtain ⟨ω0⟩ := ‹Nonempty Ω›
  have k1 := fun ω => field_is env a hi nc env.pix.npix (n ω) (f ω) (hf ω)
  have b1 := fun ω => field_is env a.bare hi.bare nc env.pix.npix (n ω) (g ω) (hg ω)
  obtain ⟨Q, hq⟩ : ∃ Q, (f ω0).iM.getD (some fun _ _ => 0) = some Q := by
    cases hq : (f ω0).iM with
    | none => exact ⟨_, rfl⟩
    | some x =>
      cases x with
      | none => exact absurd hq (hQ ω0)
      | some Q => exact ⟨Q, rfl⟩
  have hq' : ∀ ω, (f ω).iM.getD (some fun _ _ => 0) = some Q := by
    intro ω; rw [(k1 ω).iMdet, ← (k1 ω0).iMdet]; exact hq
  have hQs := ((k1 ω0).alm Q hq).1
  set P := pop env.sht a.nIter (f ω0) with hP
  have pf : ∀ ω, pop env.sht a.nIter (f ω) = P := fun ω => FieldIs.same (k1 ω0) (k1 ω) rfl rfl rfl rfl rfl rfl a.nIter
  have pg : ∀ ω, pop env.sht a.nIter (g ω) = P := fun ω => FieldIs.same (k1 ω0) (b1 ω) rfl rfl rfl rfl rfl rfl a.nIter
  set np := env.pix.npix with hnp
  set U := a.rawTempl nc np with hU
  set T : ℕ → MapStack := fun i c p => U i c p * a.mask p with hT
  set X : ℕ → Ω → ℝ := fun j ω => env.pix.dot nc (fun c p => T j c p * a.mask p) (n ω) with hX
  set nt := a.nTempl with hnt
  have fl : ∀ ω, (f ω).lmax = lmax := fun ω => by rw [(k1 ω).lmax, hl]; simp
  have gl : ∀ ω, (g ω).lmax = lmax := fun ω => by rw [(b1 ω).lmax]; change (a.lmax.getD _).toNat = _; rw [hl]; simp
  have af : ∀ ω, (f ω).alm = some (some fun c l k => P (tab2 nc np (n ω)) c l k -
      ∑ i ∈ range nt, ((∑ j ∈ range nt, Q i j * X j ω : ℝ) : ℂ) * P (U i) c l k) := by
    intro ω
    obtain ⟨-, h⟩ := (k1 ω).alm Q (hq' ω)
    rw [h, pf ω]
    congr 2
    have := pop_expand hlin a.nIter (f ω0) (tab2 nc np (n ω)) nt (fun i => ∑ j ∈ range nt, Q i j * X j ω) U
    rw [← this]
    congr 1
    funext c p
    congr 1
    refine sum_congr rfl fun i _ => ?_
    congr 1
    exact sum_congr rfl fun j _ => by rw [dot_mask]
  have ag : ∀ ω, (g ω).alm = some (some (P (tab2 nc np (n ω)))) := by
    intro ω
    obtain ⟨-, h⟩ := (b1 ω).alm (fun _ _ => 0) (by rw [(b1 ω).iMdet]; rfl)
    rw [h]
    change some (some (pop env.sht a.nIter (g ω) _)) = _
    rw [pg ω]
    have : a.bare.nTempl = 0 := rfl
    simp only [this, sum_range_zero, sub_zero]
  -- the covariance applied to the templates
  set M : ℕ → MapStack := fun j c p => T j c p * (a.mask p * var p) with hM
  have sM : ∀ j, M j = tab2 nc np (M j) := by
    intro j
    have := tab2_mul nc np ((a.templates.map TemplArg.val).getD (fun _ _ _ => 0) j) a.mask (fun p => a.mask p * var p)
    exact this.symm
  have eM : ∀ j (φ : MapStack →ₗ[ℝ] ℝ), E (fun ω => X j ω * φ (tab2 nc np (n ω))) = φ (M j) := by
    intro j φ
    refine mean_linear E φ nc np n (X j) (M j) (sM j) fun c hc p hp => ?_
    rw [hw.contract _ c hc p hp]
    simp only [hM]; ring
  have pM : ∀ ω j, env.sht.map2alm (f ω).spin (f ω).lmax a.nIter (fun c p => T j c p * ((f ω).mask p ^ 2 * var p)) = P (M j) := by
    intro ω j
    rw [← pf ω]
    unfold pop purifyIfNeeded
    simp only [(k1 ω).pureE, (k1 ω).pureB, hpe, hpb, Bool.or_self, Bool.false_eq_true, if_false]
    congr 1
    funext c p
    simp only [hM, (k1 ω).mask]; ring
  set clb : ℕ → ℕ → ℕ → ℝ := fun c d l =>
      0 - 2 * (∑ i ∈ range nt, ∑ j ∈ range nt, Q i j * alm2cl (P (U i) d) (P (M j) c) l)
        + ∑ i ∈ range nt, ∑ j ∈ range nt, ∑ r ∈ range nt, ∑ s ∈ range nt, Q i j * Q r s *
          env.pix.dot nc (fun c p => T j c p * a.mask p) (M r) * alm2cl (P (U i) c) (P (U s) d) l with hclb
  have hdiv : ∀ c d, d < nc → (c * nc + d) / nc = c := fun c d hd => by
    rw [mul_comm, Nat.mul_add_div (by omega), Nat.div_eq_of_lt hd, add_zero]
  have hmod : ∀ c d, d < nc → (c * nc + d) % nc = d := fun c d hd => by
    rw [mul_comm, Nat.mul_add_mod, Nat.mod_eq_of_lt hd]
  have hlt : ∀ c d, c < nc → d < nc → c * nc + d < nc * nc := fun c d hc hd => by nlinarith
  -- the mean
  have main : ∀ c d l, E (fun ω => alm2cl (fun l k => P (tab2 nc np (n ω)) c l k -
        ∑ i ∈ range nt, ((∑ j ∈ range nt, Q i j * X j ω : ℝ) : ℂ) * P (U i) c l k) (fun l k => P (tab2 nc np (n ω)) d l k -
        ∑ i ∈ range nt, ((∑ j ∈ range nt, Q i j * X j ω : ℝ) : ℂ) * P (U i) d l k) l) =
      E (fun ω => alm2cl (P (tab2 nc np (n ω)) c) (P (tab2 nc np (n ω)) d) l) + (clb c d l + clb d c l) / 2 := by
    intro c d l
    simp only [alm2cl_expand]
    have hφ : ∀ i, ∃ φ : MapStack →ₗ[ℝ] ℝ, ∀ m, φ m = alm2cl (P (U i) c) (P m d) l := fun i =>
      ⟨clL (P (U i) c) l d ∘ₗ popL hlin a.nIter (f ω0), fun m => rfl⟩
    have hψ : ∀ i, ∃ φ : MapStack →ₗ[ℝ] ℝ, ∀ m, φ m = alm2cl (P m c) (P (U i) d) l := fun i =>
      ⟨clL (P (U i) d) l c ∘ₗ popL hlin a.nIter (f ω0), fun m => alm2cl_comm _ _ _⟩
    choose φ hφ using hφ
    choose ψ hψ using hψ
    have efun : (fun ω => alm2cl (P (tab2 nc np (n ω)) c) (P (tab2 nc np (n ω)) d) l -
          (∑ i ∈ range nt, (∑ j ∈ range nt, Q i j * X j ω) * alm2cl (P (U i) c) (P (tab2 nc np (n ω)) d) l) -
          (∑ s ∈ range nt, (∑ j ∈ range nt, Q s j * X j ω) * alm2cl (P (tab2 nc np (n ω)) c) (P (U s) d) l) +
          ∑ i ∈ range nt, ∑ s ∈ range nt, (∑ j ∈ range nt, Q i j * X j ω) * (∑ j ∈ range nt, Q s j * X j ω) *
            alm2cl (P (U i) c) (P (U s) d) l) =
        (fun ω => alm2cl (P (tab2 nc np (n ω)) c) (P (tab2 nc np (n ω)) d) l) -
          (∑ i ∈ range nt, ∑ j ∈ range nt, Q i j • fun ω => X j ω * φ i (tab2 nc np (n ω))) -
          (∑ s ∈ range nt, ∑ j ∈ range nt, Q s j • fun ω => X j ω * ψ s (tab2 nc np (n ω))) +
          ∑ i ∈ range nt, ∑ s ∈ range nt, ∑ j ∈ range nt, ∑ r ∈ range nt,
            (Q i j * Q s r * alm2cl (P (U i) c) (P (U s) d) l) • fun ω => X r ω *
              dotL env.pix nc (fun c p => T j c p * a.mask p) (tab2 nc np (n ω)) := by
      funext ω
      simp only [Pi.add_apply, Pi.sub_apply, Finset.sum_apply, Pi.smul_apply, smul_eq_mul, hφ, hψ]
      have hd : ∀ j, dotL env.pix nc (fun c p => T j c p * a.mask p) (tab2 nc np (n ω)) = X j ω := fun j => dot_tab2 _ _ _ _
      simp only [hd]
      congr 1
      · congr 1
        · congr 1
          exact sum_congr rfl fun i _ => by rw [sum_mul]; exact sum_congr rfl fun j _ => by ring
        · exact sum_congr rfl fun i _ => by rw [sum_mul]; exact sum_congr rfl fun j _ => by ring
      · refine sum_congr rfl fun i _ => sum_congr rfl fun s _ => ?_
        rw [sum_mul_sum, sum_mul]
        refine sum_congr rfl fun j _ => ?_
        rw [sum_mul]
        exact sum_congr rfl fun r _ => by ring
    rw [efun]
    simp only [map_add, map_sub, map_sum, map_smul, smul_eq_mul, eM]
    simp only [hφ, hψ]
    rw [sub_sub, sub_add, sub_eq_add_neg]
    congr 1
    have hfg : ∀ c d, (∑ i ∈ range nt, ∑ s ∈ range nt, ∑ j ∈ range nt, ∑ r ∈ range nt,
        Q i j * Q s r * alm2cl (P (U i) c) (P (U s) d) l * dotL env.pix nc (fun c p => T j c p * a.mask p) (M r)) =
        ∑ i ∈ range nt, ∑ j ∈ range nt, ∑ r ∈ range nt, ∑ s ∈ range nt, Q i j * Q r s *
          env.pix.dot nc (fun c p => T j c p * a.mask p) (M r) * alm2cl (P (U i) c) (P (U s) d) l := by
      intro c d
      refine sum_congr rfl fun i _ => ?_
      rw [sum_comm]
      refine sum_congr rfl fun j _ => ?_
      rw [sum_comm]
      refine sum_congr rfl fun r _ => sum_congr rfl fun s _ => ?_
      rw [hQs r s]
      change _ * _ * _ * env.pix.dot nc _ _ = _
      ring
    have hsw : (∑ i ∈ range nt, ∑ s ∈ range nt, ∑ j ∈ range nt, ∑ r ∈ range nt,
        Q i j * Q s r * alm2cl (P (U i) d) (P (U s) c) l * dotL env.pix nc (fun c p => T j c p * a.mask p) (M r)) =
        ∑ i ∈ range nt, ∑ s ∈ range nt, ∑ j ∈ range nt, ∑ r ∈ range nt,
        Q i j * Q s r * alm2cl (P (U i) c) (P (U s) d) l * dotL env.pix nc (fun c p => T j c p * a.mask p) (M r) := by
      rw [sum_comm]
      refine sum_congr rfl fun s _ => sum_congr rfl fun i _ => ?_
      rw [sum_comm]
      refine sum_congr rfl fun r _ => sum_congr rfl fun j _ => ?_
      rw [alm2cl_comm (P (U i) d)]
      have : dotL env.pix nc (fun c p => T j c p * a.mask p) (M r) = dotL env.pix nc (fun c p => T r c p * a.mask p) (M j) := by
        change env.pix.dot nc _ _ = env.pix.dot nc _ _
        unfold Pix.dot
        exact sum_congr rfl fun c _ => sum_congr rfl fun p _ => by simp only [hM]; ring
      rw [this]; ring
    have hsw' : ∀ (i j : ℕ), alm2cl (P (M j) c) (P (U i) d) l = alm2cl (P (U i) d) (P (M j) c) l := fun i j => alm2cl_comm _ _ _
    simp only [hsw']
    simp only [hclb]
    rw [← hfg c d, ← hfg d c, hsw]
    ring
  have hB : ∀ ω, uncorrNoiseBias env a.nIter (f ω) np var = .ok (some (Arr2.of (nc * nc) (lmax + 1) fun k l => clb (k / nc) (k % nc) l)) := by
    intro ω
    unfold uncorrNoiseBias
    rw [(k1 ω).lite, if_neg (by simp), if_neg (by simp [hnp])]
    simp only [(k1 ω).nTemp, (k1 ω).nmaps, fl ω]
    by_cases h0 : a.nTempl = 0
    · rw [if_pos h0]
      have : nt = 0 := h0
      simp only [hclb, this, sum_range_zero, mul_zero, sub_zero, add_zero]
    · rw [if_neg h0]
      simp only [(k1 ω).temp, hq' ω]
      congr 3
      funext k l
      have hp' : ∀ j, env.sht.map2alm (f ω).spin lmax a.nIter (fun c p => a.rawTempl nc env.pix.npix j c p * a.mask p * ((f ω).mask p ^ 2 * var p)) = P (M j) := by
        intro j
        have := pM ω j
        rw [fl ω] at this
        exact this
      simp only [hclb]
      congr 1
      · congr 2
        refine sum_congr rfl fun i hi' => sum_congr rfl fun j _ => ?_
        rw [(k1 ω).almTemp i (mem_range.1 hi'), pf ω, ← hp' j]
      · refine sum_congr rfl fun i hi' => sum_congr rfl fun j _ => sum_congr rfl fun r _ => sum_congr rfl fun s hs => ?_
        rw [(k1 ω).almTemp i (mem_range.1 hi'), (k1 ω).almTemp s (mem_range.1 hs), pf ω]
        congr 2
        unfold Pix.dot
        refine sum_congr rfl fun c _ => sum_congr rfl fun p _ => ?_
        simp only [hM, hT, hU, hnp, (k1 ω).mask]; ring
  have hv : ∀ (x : ℕ → ℕ → ℝ) c d, c < nc → d < nc → ∀ l ≤ lmax, (Arr2.of (nc * nc) (lmax + 1) x).val (c * nc + d) l = x (c * nc + d) l :=
    fun x c d hc hd l hl' => tab2_of_lt _ (hlt c d hc hd) (by omega)
  have key : ∀ c < nc, ∀ d < nc, ∀ l ≤ lmax, _ := fun c hc d hd l hl' => main c d l
  refine ⟨_, _, _, hB, fun ω => coupled_fields env minfo (f ω) (f ω) same rfl rfl _ _ (af ω) (af ω),
    fun ω => coupled_fields env minfo (g ω) (g ω) same rfl rfl _ _ (ag ω) (ag ω), rfl, rfl, ?_, ?_⟩
  · intro c hc d hd l hl'
    simp only [(k1 _).nmaps, (b1 _).nmaps, fl, gl]
    simp only [hv _ c d hc hd l hl', hv _ d c hd hc l hl', hdiv _ _ hd, hmod _ _ hd, hdiv _ _ hc, hmod _ _ hc]
    exact main c d l
  · intro c hc l hl'
    simp only [(k1 _).nmaps, (b1 _).nmaps, fl, gl]
    simp only [hv _ c c hc hc l hl', hdiv _ _ hc, hmod _ _ hc]
    rw [main c c l]
    ring

end NaMaster
