import Verif.Sky.AnyModel
import Verif.Sky.CatalogProps

/-! # Lemmas for C93 -/

namespace NaMaster

open Finset MeasureTheory WignerSpec SkySpec CouplingSpec

local notation "conj" => starRingEnd ℂ

theorem alm2cl_congr_le {a a' b b' : ℕ → ℕ → ℂ} {l : ℕ} (ha : ∀ m ≤ l, a l m = a' l m) (hb : ∀ m ≤ l, b l m = b' l m) : alm2cl a b l = alm2cl a' b' l := by
  unfold alm2cl
  congr 1
  refine sum_congr rfl fun m hm => ?_
  rw [mem_range] at hm
  rw [ha m (by omega), hb m (by omega)]

/-- Values of the components that exist. -/
theorem source_expand {X : Type*} (H : Harm X) (s : ℕ) (x : X) {v p : ℕ → ℝ} (h : ∀ e < ncomp s, v e = p e) (c l m : ℕ) :
    H.source s x (v 0) (v 1) c l m =
      ∑ e ∈ range (ncomp s), ((p e : ℝ) : ℂ) * H.source s x (if e = 0 then 1 else 0) (if e = 0 then 0 else 1) c l m := by
  have h' : ∑ e ∈ range (ncomp s), ((p e : ℝ) : ℂ) * H.source s x (if e = 0 then 1 else 0) (if e = 0 then 0 else 1) c l m =
      ∑ e ∈ range (ncomp s), ((v e : ℝ) : ℂ) * H.source s x (if e = 0 then 1 else 0) (if e = 0 then 0 else 1) c l m :=
    sum_congr rfl fun e he => by rw [h e (mem_range.1 he)]
  rw [h']
  unfold Harm.source ncomp
  by_cases hs : s = 0
  · subst hs
    by_cases hc : c = 0 <;> simp [hc]
  · rw [if_neg hs, sum_range_two']
    by_cases hc : c = 0
    · simp [hs, hc]
    · by_cases hc1 : c = 1
      · simp [hs, hc1]; ring
      · simp [hs, hc, hc1]

/-- The linear form is linear in the mask. -/
theorem linCoef_mask {ι : Type*} (S : Finset ι) (p : ι → ℝ) (u : ι → ℕ → ℤ → ℂ) (n Nw Nf : ℕ) (h : ℕ → ℕ → ℕ → ℕ → ℝ) (F : ℕ → ℕ → ℤ → ℂ)
    (X l : ℕ) (m : ℤ) :
    ∑ i ∈ S, (p i : ℂ) * linCoef n Nw Nf h (u i) F X l m = linCoef n Nw Nf h (fun L M => ∑ i ∈ S, (p i : ℂ) * u i L M) F X l m := by
  unfold linCoef
  simp only [mul_sum]
  rw [sum_comm]
  refine sum_congr rfl fun W _ => ?_
  rw [sum_comm]
  refine sum_congr rfl fun q _ => ?_
  rw [sum_comm]
  refine sum_congr rfl fun X' _ => ?_
  rw [sum_mul, sum_mul]
  exact sum_congr rfl fun i _ => by ring

/-- Coefficients of a mask up to a multipole. -/
def cutCoef (N : ℕ) (w : ℕ → ℤ → ℂ) (L : ℕ) (M : ℤ) : ℂ := if L ≤ N then w L M else 0

theorem cut_real {N : ℕ} {w : ℕ → ℤ → ℂ} (h : RealCoefs w) : RealCoefs (cutCoef N w) := by
  intro l m
  unfold cutCoef
  split_ifs
  · exact h l m
  · simp

theorem linCoef_cut {N Nw : ℕ} (hN : N ≤ Nw) (n Nf : ℕ) (h : ℕ → ℕ → ℕ → ℕ → ℝ) (w : ℕ → ℤ → ℂ) (F : ℕ → ℕ → ℤ → ℂ) (X l : ℕ) (m : ℤ) :
    linCoef n N Nf h w F X l m = linCoef n Nw Nf h (cutCoef N w) F X l m := by
  unfold linCoef
  have hsub : modes N ⊆ modes Nw := by
    intro q hq
    rw [mem_skyModes] at hq ⊢
    exact ⟨hq.1.trans hN, hq.2⟩
  rw [← sum_subset hsub]
  · refine sum_congr rfl fun W hW => sum_congr rfl fun q _ => ?_
    rw [mem_skyModes] at hW
    unfold cutCoef
    rw [if_pos hW.1]
  · intro W hW hn
    rw [mem_skyModes] at hW hn
    refine sum_eq_zero fun q _ => ?_
    unfold cutCoef
    rw [if_neg (fun h => hn ⟨h, hW.2⟩)]
    simp

theorem kernel_cut {h1 h2 : ℕ → ℕ → ℕ → ℕ → ℝ} {N Nw : ℕ} (hN : N ≤ Nw) {p q : ℕ → ℝ} (h : ∀ L ≤ N, p L = q L) (h0 : ∀ L, N < L → p L = 0)
    (l X Y l' X' Y' : ℕ) : kernelMatrix h1 h2 Nw p l X Y l' X' Y' = kernelMatrix h1 h2 N q l X Y l' X' Y' := by
  unfold kernelMatrix
  congr 1
  rw [← sum_subset (range_mono (by omega : N + 1 ≤ Nw + 1))]
  · exact sum_congr rfl fun L hL => by rw [h L (by rw [mem_range] at hL; omega)]
  · intro L _ hL
    rw [mem_range] at hL
    rw [h0 L (by omega)]
    simp

section

variable {Ω : Type*} [MeasurableSpace Ω] {μ : Measure Ω}

/-- The spectrum with coefficients of mean zero. -/
theorem alm2cl_zero_mean {b : Ω → ℕ → ℕ → ℂ} {l : ℕ} (h : ∀ m ≤ l, Integrable (fun ω => b ω l m) μ ∧ ∫ ω, b ω l m ∂μ = 0) (a : ℕ → ℕ → ℂ) :
    Integrable (fun ω => alm2cl a (b ω) l) μ ∧ ∫ ω, alm2cl a (b ω) l ∂μ = 0 := by
  have e : ∀ z y : ℂ, (z * conj y).re = (conj z * y).re := by
    intro z y
    simp only [Complex.mul_re, Complex.conj_re, Complex.conj_im]
    ring
  unfold alm2cl
  simp only [e]
  have i : ∀ m ∈ range (l + 1), Integrable (fun ω => (if m = 0 then (1 : ℝ) else 2) * (conj (a l m) * b ω l m).re) μ := by
    intro m hm
    rw [mem_range] at hm
    exact (((h m (by omega)).1.const_mul _).re).const_mul _
  refine ⟨(integrable_finsetSum _ i).div_const _, ?_⟩
  rw [integral_div, integral_finsetSum _ i, div_eq_zero_iff]
  left
  refine sum_eq_zero fun m hm => ?_
  rw [mem_range] at hm
  rw [integral_const_mul]
  have hr := integral_re ((h m (by omega)).1.const_mul (conj (a l m)))
  simp only [RCLike.re_to_complex] at hr
  rw [hr, integral_const_mul, (h m (by omega)).2]
  simp

/-- The linear form of an uncorrelated sky. -/
theorem linCoef_zero_mean {g : Ω → ℝ} {n N Nf : ℕ} {F : Ω → ℕ → ℕ → ℤ → ℂ}
    (h : ∀ X < n, ∀ q ∈ modes Nf, Integrable (fun ω => (g ω : ℂ) * F ω X q.1 q.2) μ ∧ ∫ ω, (g ω : ℂ) * F ω X q.1 q.2 ∂μ = 0)
    (f : ℕ → ℕ → ℕ → ℕ → ℝ) (w : ℕ → ℤ → ℂ) (X l : ℕ) (m : ℤ) :
    Integrable (fun ω => (g ω : ℂ) * linCoef n N Nf f w (F ω) X l m) μ ∧ ∫ ω, (g ω : ℂ) * linCoef n N Nf f w (F ω) X l m ∂μ = 0 := by
  have e : ∀ ω, (g ω : ℂ) * linCoef n N Nf f w (F ω) X l m = ∑ q ∈ modes Nf, ∑ X' ∈ range n, linFac N f w X l m X' q * ((g ω : ℂ) * F ω X' q.1 q.2) := by
    intro ω
    rw [linCoef_eq, mul_sum]
    refine sum_congr rfl fun q _ => ?_
    rw [mul_sum]
    exact sum_congr rfl fun X' _ => by ring
  simp only [e]
  have i1 : ∀ q ∈ modes Nf, ∀ X' ∈ range n, Integrable (fun ω => linFac N f w X l m X' q * ((g ω : ℂ) * F ω X' q.1 q.2)) μ :=
    fun q hq X' hX => (h X' (mem_range.1 hX) q hq).1.const_mul _
  refine ⟨integrable_finsetSum _ fun q hq => integrable_finsetSum _ (i1 q hq), ?_⟩
  rw [integral_finsetSum _ fun q hq => integrable_finsetSum _ (i1 q hq)]
  refine sum_eq_zero fun q hq => ?_
  rw [integral_finsetSum _ (i1 q hq)]
  refine sum_eq_zero fun X' hX => ?_
  rw [integral_const_mul, (h X' (mem_range.1 hX) q hq).2, mul_zero]

end

/-- The coefficients of the mask of a catalog. -/
noncomputable def catMaskCoef (Y : ℤ → ℕ → ℤ → ℝ × ℝ → ℂ) (a : CatArgs) (L : ℕ) (M : ℤ) : ℂ :=
  ∑ i ∈ range a.nsrc, (a.weights i : ℂ) * pointCoef Y (a.at i) L M

theorem catMask_real {Y : ℤ → ℕ → ℤ → ℝ × ℝ → ℂ} {s : ℕ} (hY : Spherical Y s) (a : CatArgs) : RealCoefs (catMaskCoef Y a) := by
  intro l m
  unfold catMaskCoef
  rw [map_sum, mul_sum]
  refine sum_congr rfl fun i _ => ?_
  rw [pointCoef_real hY (a.at i) l m, map_mul, Complex.conj_ofReal]
  ring

section

variable {Ω : Type*} {H : Harm (ℝ × ℝ)} {Y : ℤ → ℕ → ℤ → ℝ × ℝ → ℂ} {a : CatArgs} {s lmax lmaxMask : ℕ}
    {F : Ω → ℕ → ℕ → ℤ → ℂ} {noise : Ω → ℕ → ℕ → ℝ} {v : Ω → MapStack} {f : Ω → CatObj}

theorem CatalogsOf.maskCoef (h : CatalogsOf H Y a s lmax lmaxMask F noise v f) (ω : Ω) (L m : ℕ) : (f ω).almMask L m = catMaskCoef Y a L m := by
  rw [(h.facts ω).2.2.2.2.2.1]
  unfold catalog2alm catMaskCoef pointCoef
  refine sum_congr rfl fun i _ => ?_
  rw [← h.transform.scalar]
  unfold Harm.source single
  simp

/-- The noise in the coefficients of a catalog. -/
noncomputable def noiseAlm (H : Harm (ℝ × ℝ)) (a : CatArgs) (s : ℕ) (noise : ℕ → ℕ → ℝ) : Alms := fun X l m =>
  ∑ q ∈ (range a.nsrc) ×ˢ (range (ncomp s)), ((noise q.2 q.1 : ℝ) : ℂ) *
    ((a.weights q.1 : ℂ) * H.source s (a.at q.1) (if q.2 = 0 then 1 else 0) (if q.2 = 0 then 0 else 1) X l m)

/-- The coefficients of a catalog: those of the product of sky and mask, and noise. -/
theorem CatalogsOf.coef (h : CatalogsOf H Y a s lmax lmaxMask F noise v f) {Nw : ℕ} (hN : 2 * lmax ≤ Nw) (ω : Ω) :
    ∃ A, (f ω).alm = some A ∧ ∀ X < ncomp s, ∀ l ≤ lmax, ∀ m ≤ l,
      A X l m = linCoef (ncomp s) Nw lmax (hfac s false false) (catMaskCoef Y a) (F ω) X l m + noiseAlm H a s (noise ω) X l m := by
  obtain ⟨-, -, hA, -⟩ := catalog_ok H _ _ (h.made ω) _ rfl
  refine ⟨_, hA, ?_⟩
  intro X hX l hl m hm
  have hfa : (fun _ => sfac s 0 s) = hfac s false false := by
    funext X l L l'; unfold hfac isPure; simp
  have hsig : linCoef (ncomp s) Nw lmax (hfac s false false) (catMaskCoef Y a) (F ω) X l m = ∑ i ∈ range a.nsrc, ∑ e ∈ range (ncomp s),
      ((a.weights i * skyAt Y s lmax (F ω) (a.at i) e : ℝ) : ℂ) * H.source s (a.at i) (if e = 0 then 1 else 0) (if e = 0 then 0 else 1) X l m := by
    unfold catMaskCoef
    rw [← linCoef_mask]
    refine sum_congr rfl fun i _ => ?_
    rw [← hfa, ← masked_lin (source_masked h.harmonics h.transform hN (a.at i) (h.skyReal ω)) hX hl hm,
      source_expand H s (a.at i) (v := fun e => skyAt Y s lmax (F ω) (a.at i) e) (fun e _ => rfl), mul_sum]
    refine sum_congr rfl fun e _ => ?_
    push_cast
    ring
  rw [hsig]
  unfold noiseAlm catalog2alm
  rw [sum_product, ← sum_add_distrib]
  refine sum_congr rfl fun i hi => ?_
  rw [(h.facts ω).2.2.1]
  rw [← sum_add_distrib]
  rw [source_expand H s _ (v := fun e => (a.withValues (ncomp s) (v ω)).value ⟨ncomp s, a.nsrc, v ω⟩ e i)
    (fun e he => h.value ω he (mem_range.1 hi))]
  refine sum_congr rfl fun e _ => ?_
  push_cast
  change _ * H.source s (a.at i) _ _ X l m = _
  ring

/-- The noise of a catalog is not seen in the mean of spectra with an uncorrelated sky. -/
theorem noise_mean [MeasurableSpace Ω] {μ : Measure Ω} {s' N : ℕ} {G : Ω → ℕ → ℕ → ℤ → ℂ}
    (hn : ∀ c < ncomp s, ∀ i < a.nsrc, ∀ X < ncomp s', ∀ q ∈ modes lmax,
      Integrable (fun ω => (noise ω c i : ℂ) * G ω X q.1 q.2) μ ∧ ∫ ω, (noise ω c i : ℂ) * G ω X q.1 q.2 ∂μ = 0)
    (g : ℕ → ℕ → ℕ → ℕ → ℝ) (w : ℕ → ℤ → ℂ) (X Y l : ℕ) :
    Integrable (fun ω => alm2cl (noiseAlm H a s (noise ω) X) (fun l m => linCoef (ncomp s') N lmax g w (G ω) Y l m) l) μ ∧
    ∫ ω, alm2cl (noiseAlm H a s (noise ω) X) (fun l m => linCoef (ncomp s') N lmax g w (G ω) Y l m) l ∂μ = 0 := by
  have e : ∀ ω, alm2cl (noiseAlm H a s (noise ω) X) (fun l m => linCoef (ncomp s') N lmax g w (G ω) Y l m) l =
      ∑ q ∈ (range a.nsrc) ×ˢ (range (ncomp s)),
        alm2cl (fun l m => (a.weights q.1 : ℂ) * H.source s (a.at q.1) (if q.2 = 0 then 1 else 0) (if q.2 = 0 then 0 else 1) X l m)
          (fun l m => (noise ω q.2 q.1 : ℂ) * linCoef (ncomp s') N lmax g w (G ω) Y l m) l := by
    intro ω
    unfold noiseAlm
    rw [alm2cl_sum_left]
    refine sum_congr rfl fun q _ => ?_
    rw [alm2cl_smul_left, alm2cl_smul_right]
  simp only [e]
  have key : ∀ q ∈ (range a.nsrc) ×ˢ (range (ncomp s)), _ := fun q hq =>
    alm2cl_zero_mean (μ := μ) (b := fun ω l m => (noise ω q.2 q.1 : ℂ) * linCoef (ncomp s') N lmax g w (G ω) Y l m) (l := l)
      (fun m _ => linCoef_zero_mean (g := fun ω => noise ω q.2 q.1)
        (hn q.2 (mem_range.1 (mem_product.1 hq).2) q.1 (mem_range.1 (mem_product.1 hq).1)) g w Y l m)
      (fun l m => (a.weights q.1 : ℂ) * H.source s (a.at q.1) (if q.2 = 0 then 1 else 0) (if q.2 = 0 then 0 else 1) X l m)
  refine ⟨integrable_finsetSum _ fun q hq => (key q hq).1, ?_⟩
  rw [integral_finsetSum _ fun q hq => (key q hq).1]
  exact sum_eq_zero fun q hq => (key q hq).2

end

/-- The parts of a successful call for fields with isotropic masks. -/
theorem wsp_any {W : Wigner} {env : FieldEnv} {minfo : MapInfo} {f1 f2 : AnyField} {same : Bool} {B : Bins ℝ} {wa : WspArgs} {w : Wsp ℝ}
    (h1 : f1.anisoAlms env.sht = none) (h2 : f2.anisoAlms env.sht = none) (h : wspFromAny W env minfo f1 f2 same B wa = .ok w) :
    (f1.view env.sht minfo).geom.lmax = B.ellMax ∧ ∃ n, anyNormOf env.pix f1 f2 same wa.norm = .ok n ∧
      compCouplingMatrix W (anyCouplingArgs env.sht minfo f1 f2 wa) (f1.view env.sht minfo).geom.lmax
        ((List.range ((f1.view env.sht minfo).geom.lmaxMask + 1)).map (maskSpectrum (f1.view env.sht minfo) (f2.view env.sht minfo) same))
        f1.beamList f2.beamList B n.1 n.2 = .ok w := by
  unfold wspFromAny at h
  simp only [h1, h2, Option.isSome_none, Bool.or_self, Bool.false_eq_true, false_and, if_false] at h
  split_ifs at h with q1 q2
  refine ⟨not_not.1 q2, ?_⟩
  split at h
  · cases h
  · cases hn : anyNormOf env.pix f1 f2 same wa.norm with
    | crash => rw [hn] at h; cases h
    | raises e => rw [hn] at h; cases h
    | ok n =>
      rw [hn] at h
      exact ⟨n, rfl, h⟩

/-- Decoupling spectra whose mean is `couple_cell` of the true spectrum gives the true spectrum seen through the windows. -/
theorem windows_comp {Ω : Type*} [MeasurableSpace Ω] {μ : Measure Ω} {W : Wigner} (L : LinAlg ℝ) (hL : L.Correct) {a : CouplingArgs} {lmax : ℕ}
    {pcl b1 b2 : List ℝ} {B : Bins ℝ} {nt : ℤ} {w2 : ℝ} {w : Wsp ℝ} (h : compCouplingMatrix W a lmax pcl b1 b2 B nt w2 = .ok w)
    (hell : WspSpec.Bounded B B.ellMax) (hreg : Regular w.nBinned w.binned) (C R : Arr2 ℝ) (hr : C.rows = w.ncls) (hc : C.cols = B.ellMax + 1)
    {U : ℕ → ℕ → ℝ} (hR : coupleCell w U C = .ok R) (P : Ω → Arr2 ℝ) (hsh : ∀ ω, (P ω).rows = R.rows ∧ (P ω).cols = R.cols)
    (hP : ∀ k < w.ncls, ∀ b ∈ B.bands, ∀ e ∈ b, Integrable (fun ω => (P ω).val k e.ell) μ ∧ ∫ ω, (P ω).val k e.ell ∂μ = R.val k e.ell) :
    ∃ D : Ω → Arr2 ℝ, (∀ ω, decoupleCell L w (P ω) none none = .ok (D ω)) ∧ (∀ ω, (D ω).rows = C.rows ∧ (D ω).cols = B.nBands) ∧
      ∀ k < C.rows, ∀ b < B.nBands, Integrable (fun ω => (D ω).val k b) μ ∧
        ∫ ω, (D ω).val k b ∂μ = ∑ j ∈ range C.rows, ∑ l ∈ range C.cols, bandpowerWindows L w U k b j l * C.val j l := by
  obtain ⟨-, -, -, p, U0, hbuild⟩ := comp_parts h
  have hwb : w.bin = B := by rw [hbuild]; rfl
  have hwl : w.lmax = B.ellMax := by rw [hbuild]; rfl
  have hRs : R.rows = w.ncls ∧ R.cols = w.lmax + 1 := by
    unfold coupleCell at hR
    split_ifs at hR
    rw [← Outcome.ok.inj hR]
    exact ⟨rfl, rfl⟩
  refine ⟨_, fun ω => decoupleCell_ok L w (P ω) ((hsh ω).1.trans hRs.1) (by rw [(hsh ω).2, hRs.2]), fun ω => ⟨hr.symm, by rw [← hwb]; rfl⟩, ?_⟩
  intro k hk b hb
  rw [hr] at hk
  rw [← hwb] at hb
  obtain ⟨g1, g2⟩ := decouple_mean μ L hL w hreg P R (by rw [hwb]; exact hP) hk hb
  have hof : ∀ g : ℕ → ℕ → ℝ, (Arr2.of w.ncls w.bin.nBands g).val k b = g k b := fun g => tab2_of_lt _ hk hb
  simp only [hof]
  refine ⟨g1, g2.trans ?_⟩
  have h6 := C06_windows_describe_decoupling L hL w U (by rw [hwb, hwl]; exact hell) hreg C hr (by omega)
  rw [hR] at h6
  simp only [Outcome.bind] at h6
  rw [decoupleCell_ok L w R hRs.1 hRs.2.ge] at h6
  have h7 := congrArg (fun a => a.val k b) (Outcome.ok.inj h6)
  simp only [hof] at h7
  rw [h7, hr, hc, hwl]

end NaMaster
