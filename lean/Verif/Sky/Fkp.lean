import Verif.Sky.AnisoProps
import Verif.Sky.CatalogProps
import Verif.Files.Props

/-!
# C90: the FKP normalisation

`NmtWorkspace.from_fields(…, normalization='FKP')`: "simply divides by the mean of the mask product, forcing a unit response to an input
white spectrum" (pymaster/workspaces.py:51-53).
-/

namespace NaMaster

open Finset WignerSpec SkySpec CouplingSpec

/-! ## Specification -/

/-- The mean over the sky of the product of two masks given by their values in pixels: the pixels count with their areas, and the area of the
sphere is 4π. -/
noncomputable def pixelMean (P : Pix) (m1 m2 : ℕ → ℝ) : ℝ := (∑ p ∈ range P.npix, P.w p * (m1 p * m2 p)) / (4 * Real.pi)

/-- The weighted sum of a spectrum over the multipoles of a band, with the prefactors of the bandpowers. -/
def bandSum (B : Bins ℝ) (c : ℕ → ℝ) (b : ℕ) : ℝ := ((B.band b).map fun e => e.w * e.f * c e.ell).sum

/-- The harmonic coefficients `w1`, `w2` of the masks of two fields are those the code computes, and the pixels are a quadrature that is exact
for the product of the masks (Parseval). -/
structure MasksExact (env : FieldEnv) (f1 f2 : FieldObj) (w1 w2 : ℕ → ℤ → ℂ) : Prop where
  coefs1 : ∀ L ≤ f1.lmaxMask, ∀ M ≤ L, f1.getMaskAlms env.sht L M = w1 L M
  coefs2 : ∀ L ≤ f1.lmaxMask, ∀ M ≤ L, f2.getMaskAlms env.sht L M = w2 L M
  real1 : RealCoefs w1
  real2 : RealCoefs w2
  parseval : (pixelMean env.pix f1.mask f2.mask : ℂ) = (∑ q ∈ modes f1.lmaxMask, w1 q.1 q.2 * (starRingEnd ℂ) (w2 q.1 q.2)) / (4 * Real.pi)

/-- A spectrum that is white after the smoothing by the beams: `N` in the automatic components, zero in the others. -/
structure White (s lmax : ℕ) (beam : ℕ → ℝ) (N : ℝ) (C : Arr2 ℝ) : Prop where
  rows : C.rows = ncomp s * ncomp s
  cols : C.cols = lmax + 1
  first : ∀ l ≤ lmax, beam l * C.val 0 l = N
  others : s ≠ 0 → ∀ l ≤ lmax, C.val 1 l = 0 ∧ C.val 2 l = 0 ∧ beam l * C.val 3 l = N

/-! ## The workspace -/

theorem normOf_fkp (P : Pix) (f1 f2 : FieldObj) : normOf P f1 f2 "FKP" = .ok (1, pixelMean P f1.mask f2.mask) := by
  unfold normOf
  rw [if_neg (by decide), if_pos rfl]
  unfold pixelMean Pix.dot single
  simp only [sum_range_one, if_true]
  congr 3
  refine sum_congr rfl fun p _ => ?_
  ring

/-- The workspace made from fields, with isotropic or anisotropic masks. -/
theorem wsp_parts {W : Wigner} {env : FieldEnv} {minfo : MapInfo} {f1 f2 : FieldObj} {same : Bool} {B : Bins ℝ} {wa : WspArgs} {w : Wsp ℝ}
    (h : wspFromFields W env minfo f1 f2 same B wa = .ok w) :
    f1.lmax = B.ellMax ∧ ∃ n, normOf env.pix f1 f2 wa.norm = .ok n ∧ ∃ ncls lf lm teb b1 b2 p U, w = buildWsp ncls lf lm teb n.1 n.2 b1 b2 p U B := by
  by_cases ha : f1.maskA.isSome = true ∨ f2.maskA.isSome = true
  · obtain ⟨h0, n, hn, hw⟩ := wsp_aniso ha h
    refine ⟨h0, n, hn, ?_⟩
    unfold anisoFromFields at hw
    exact ⟨_, _, _, _, _, _, _, _, (aniso_parts hw).2.2⟩
  · push Not at ha
    obtain ⟨h0, n, hn, hw⟩ := wsp_iso (by simpa using ha.1) (by simpa using ha.2) h
    obtain ⟨-, -, -, p, U, hb⟩ := comp_parts hw
    exact ⟨h0, n, hn, _, _, _, _, _, _, p, U, hb⟩

/-- Decoupling with the FKP normalisation. -/
theorem fkp_decouple (L : LinAlg ℝ) (hL : L.Correct) {ncls lf lm : ℕ} {teb : Bool} {nt : ℤ} {w2 : ℝ} {b1 b2 p : ℕ → ℝ} {U : ℕ → ℕ → ℝ}
    {B : Bins ℝ} {w : Wsp ℝ} (hw : w = buildWsp ncls lf lm teb nt w2 b1 b2 p U B) (hnt : nt ≠ 0) (h2 : w2 ≠ 0) (cl : Arr2 ℝ)
    (hr : cl.rows = w.ncls) (hc : w.lmax + 1 ≤ cl.cols) :
    ∃ D, decoupleCell L w cl none none = .ok D ∧ D.rows = w.ncls ∧ D.cols = B.nBands ∧
      ∀ k < w.ncls, ∀ b < B.nBands, D.val k b = bandSum B (cl.val k) b / w2 := by
  have hbin : w.bin = B := by rw [hw]; rfl
  refine ⟨_, decoupleCell_ok L w cl hr hc, rfl, by rw [← hbin]; rfl, ?_⟩
  intro k hk b hb
  rw [← hbin] at hb
  have hof : ∀ g : ℕ → ℕ → ℝ, (Arr2.of w.ncls w.bin.nBands g).val k b = g k b := fun g => tab2_of_lt _ hk hb
  rw [hof]
  unfold decoupleCl
  have hM : ∀ i j, i < w.ncls * w.bin.nBands → j < w.ncls * w.bin.nBands → w.binned i j = if i = j then w2 else 0 := by
    intro i j hi hj
    rw [hw]
    exact fkp_matrix ncls nt hnt w2 _ B _ i j (by rw [hw] at hi; exact hi) (by rw [hw] at hj; exact hj)
  have hlt : w.ncls * b + k < w.ncls * w.bin.nBands := by
    have := Nat.mul_le_mul_left w.ncls (Nat.succ_le_of_lt hb)
    rw [Nat.mul_succ] at this
    omega
  have h := fkp_solve L hL _ _ w2 h2 hM (binnedInput w.ncls w.bin cl.val (fun _ _ => 0) fun _ _ => 0) _ hlt
  rw [binnedInput_apply _ _ _ _ _ hk hb] at h
  rw [eq_div_iff h2, mul_comm, h, ← hbin]
  unfold bandSum
  congr 1
  refine List.map_congr_left fun e _ => ?_
  ring

/-- **C90** (meaning): with the FKP normalisation `decouple_cell` bins the pseudo-spectrum and divides it by the mean over the sky of the
product of the masks: whatever the beams, spins, purification, and anisotropic weights. -/
theorem C90_divides (W : Wigner) (L : LinAlg ℝ) (hL : L.Correct) (env : FieldEnv) (minfo : MapInfo) (f1 f2 : FieldObj) (same : Bool)
    (B : Bins ℝ) (wa : WspArgs) (hn : wa.norm = "FKP") (w : Wsp ℝ) (hw : wspFromFields W env minfo f1 f2 same B wa = .ok w)
    (hm : pixelMean env.pix f1.mask f2.mask ≠ 0) (cl : Arr2 ℝ) (hr : cl.rows = w.ncls) (hc : B.ellMax + 1 ≤ cl.cols) :
    ∃ D, decoupleCell L w cl none none = .ok D ∧ D.rows = w.ncls ∧ D.cols = B.nBands ∧
      ∀ k < w.ncls, ∀ b < B.nBands, D.val k b = bandSum B (cl.val k) b / pixelMean env.pix f1.mask f2.mask := by
  obtain ⟨-, n, hn', ncls, lf, lm, teb, b1, b2, p, U, hb⟩ := wsp_parts hw
  rw [hn, normOf_fkp] at hn'
  rw [← Outcome.ok.inj hn'] at hb
  exact fkp_decouple L hL hb one_ne_zero hm cl hr (by rw [hb]; exact hc)

theorem comp_norm {W : Wigner} {a : CouplingArgs} {lf : ℕ} {pcl b1 b2 : List ℝ} {B : Bins ℝ} {nt : ℤ} {w2 : ℝ} {w : Wsp ℝ}
    (h : compCouplingMatrix W a lf pcl b1 b2 B nt w2 = .ok w) (nt' : ℤ) (w2' : ℝ) :
    ∃ w', compCouplingMatrix W a lf pcl b1 b2 B nt' w2' = .ok w' ∧ w'.unbinned = w.unbinned := by
  unfold compCouplingMatrix computeCouplingMatrix at h ⊢
  dsimp only at h ⊢
  split_ifs at h with r1 r2 r3 r4 r5
  rw [if_neg r1, if_neg r2, if_neg r3, if_neg r4, if_neg r5]
  refine ⟨_, rfl, ?_⟩
  rw [← Outcome.ok.inj h]
  rfl

theorem compAniso_norm {W : Wigner} {a : AnisoArgs} {lf : ℕ} {p1 p2 p3 p4 p5 p6 p7 p8 p9 : ℕ → ℝ} {b1 b2 : List ℝ} {B : Bins ℝ}
    {nt : ℤ} {w2 : ℝ} {w : Wsp ℝ} (h : compAnisoWsp W a lf p1 p2 p3 p4 p5 p6 p7 p8 p9 b1 b2 B nt w2 = .ok w) (nt' : ℤ) (w2' : ℝ) :
    ∃ w', compAnisoWsp W a lf p1 p2 p3 p4 p5 p6 p7 p8 p9 b1 b2 B nt' w2' = .ok w' ∧ w'.unbinned = w.unbinned := by
  unfold compAnisoWsp at h ⊢
  split_ifs at h with r1 r2 r3
  rw [if_neg r1, if_neg r2, if_neg r3]
  refine ⟨_, rfl, ?_⟩
  rw [← Outcome.ok.inj h]
  rfl

theorem aniso_norm {W : Wigner} {S : Sht} {f1 f2 : FieldObj} {same : Bool} {B : Bins ℝ} {nt : ℤ} {w2 : ℝ} {w : Wsp ℝ}
    (h : anisoFromFields W S f1 f2 same B nt w2 = .ok w) (nt' : ℤ) (w2' : ℝ) :
    ∃ w', anisoFromFields W S f1 f2 same B nt' w2' = .ok w' ∧ w'.unbinned = w.unbinned := by
  unfold anisoFromFields at h ⊢
  exact compAniso_norm h nt' w2'

/-- **C90** (options): a call that is fine with the MASTER normalisation is fine with FKP and gives the same coupling matrix, and raises
`ValueError` for any other name. -/
theorem C90_options (W : Wigner) (env : FieldEnv) (minfo : MapInfo) (f1 f2 : FieldObj) (same : Bool) (B : Bins ℝ) (wa : WspArgs) (w : Wsp ℝ)
    (hw : wspFromFields W env minfo f1 f2 same B { wa with norm := "MASTER" } = .ok w) :
    (∃ w', wspFromFields W env minfo f1 f2 same B { wa with norm := "FKP" } = .ok w' ∧ w'.unbinned = w.unbinned) ∧
    ∀ s, s ≠ "MASTER" → s ≠ "FKP" → wspFromFields W env minfo f1 f2 same B { wa with norm := s } = .raises .value := by
  unfold wspFromFields at hw ⊢
  dsimp only at hw ⊢
  have hM : normOf env.pix f1 f2 "MASTER" = .ok (0, 0) := by unfold normOf; rw [if_pos rfl]
  rw [hM] at hw
  rw [normOf_fkp]
  by_cases q1 : isCompatible (f1.view env.sht minfo).geom (f2.view env.sht minfo).geom false = false
  · rw [if_pos q1] at hw; cases hw
  by_cases q2 : f1.lmax ≠ B.ellMax
  · rw [if_neg q1, if_pos q2] at hw; cases hw
  by_cases q3 : (f1.maskA.isSome || f2.maskA.isSome) = true ∧ wa.lT ≥ 0
  · rw [if_neg q1, if_neg q2, if_pos q3] at hw; cases hw
  simp only [if_neg q1, if_neg q2, if_neg q3] at hw ⊢
  cases ht : toeplitzSanity wa.lT wa.lE wa.dl B.ellMax (f1.pureE || f1.pureB || f2.pureE || f2.pureB) with
  | some e => rw [ht] at hw; cases hw
  | none =>
    rw [ht] at hw
    simp only [Outcome.bind] at hw ⊢
    constructor
    · by_cases q4 : (f1.maskA.isSome || f2.maskA.isSome) = true
      · rw [if_pos q4] at hw ⊢
        exact aniso_norm hw _ _
      · rw [if_neg q4] at hw ⊢
        exact comp_norm hw _ _
    · intro s h1 h2
      have : normOf env.pix f1 f2 s = .raises .value := by unfold normOf; rw [if_neg h1, if_neg h2]
      rw [this]

/-- **C90** (catalogs): with the FKP normalisation a catalog can only be combined with itself; then `decouple_cell` divides by the sum of the
squared weights over 4π. -/
theorem C90_catalogs (W : Wigner) (L : LinAlg ℝ) (hL : L.Correct) (f1 f2 : CatObj) (B : Bins ℝ) (wa : WspArgs) (w : Wsp ℝ)
    (hw : wspFromCatalogs W f1 f2 false B { wa with norm := "MASTER" } = .ok w) :
    wspFromCatalogs W f1 f2 false B { wa with norm := "FKP" } = .raises .value ∧
    ∀ w', wspFromCatalogs W f1 f1 true B { wa with norm := "FKP" } = .ok w' → f1.noiseW ≠ 0 → ∀ cl : Arr2 ℝ, cl.rows = w'.ncls →
      B.ellMax + 1 ≤ cl.cols → ∃ D, decoupleCell L w' cl none none = .ok D ∧ D.rows = w'.ncls ∧ D.cols = B.nBands ∧
        ∀ k < w'.ncls, ∀ b < B.nBands, D.val k b = bandSum B (cl.val k) b / f1.noiseW := by
  constructor
  · unfold wspFromCatalogs at hw ⊢
    split_ifs at hw with q1 q2
    rw [if_neg q1, if_neg q2]
    dsimp only at hw ⊢
    cases ht : toeplitzSanity wa.lT wa.lE wa.dl B.ellMax false with
    | some e => rw [ht] at hw; cases hw
    | none => rfl
  · intro w' hw' h0 cl hr hc
    unfold wspFromCatalogs at hw'
    split_ifs at hw' with q1 q2
    dsimp only at hw'
    cases ht : toeplitzSanity wa.lT wa.lE wa.dl B.ellMax false with
    | some e => rw [ht] at hw'; cases hw'
    | none =>
      rw [ht] at hw'
      have hn : catNormOf f1 true "FKP" = .ok (1, f1.noiseW) := by
        unfold catNormOf
        rw [if_neg (by decide), if_pos rfl, if_pos rfl]
      rw [hn] at hw'
      obtain ⟨-, -, -, p, U, hb⟩ := comp_parts hw'
      exact fkp_decouple L hL hb one_ne_zero h0 cl hr (by rw [hb]; exact hc)

/-! ## The response to white spectra -/

local notation "conj" => starRingEnd ℂ

/-- The spectrum of the masks. -/
theorem mask_spectrum {env : FieldEnv} {f1 f2 : FieldObj} {w1 w2 : ℕ → ℤ → ℂ} (hE : MasksExact env f1 f2 w1 w2) (minfo : MapInfo) {same : Bool}
    (hsame : same = true → f1 = f2) {l : ℕ} (hl : l ≤ f1.lmaxMask) :
    (maskSpectrum (f1.view env.sht minfo) (f2.view env.sht minfo) same l : ℂ) =
      (∑ m ∈ Icc (-(l : ℤ)) l, w1 l m * conj (w2 l m)) / (2 * l + 1) := by
  have e : (if same then (f1.view env.sht minfo).almMask else (f2.view env.sht minfo).almMask) = f2.getMaskAlms env.sht := by
    cases same with
    | false => rfl
    | true => rw [if_pos rfl, hsame rfl]; rfl
  have e0 : (if same then (f1.view env.sht minfo).noiseW else 0) = 0 := by
    cases same <;> rfl
  unfold maskSpectrum
  rw [e, e0, sub_zero]
  exact alm2cl_full l (fun m => hE.real1 l m) (fun m => hE.real2 l m) (fun m hm => hE.coefs1 l hl m hm) fun m hm => hE.coefs2 l hl m hm

/-- The mean of the product of the masks from their spectrum and from the pixels. -/
theorem mean_of_masks {env : FieldEnv} {f1 f2 : FieldObj} {w1 w2 : ℕ → ℤ → ℂ} (hE : MasksExact env f1 f2 w1 w2) (minfo : MapInfo) {same : Bool}
    (hsame : same = true → f1 = f2) :
    meanMaskProduct f1.lmaxMask ((List.range (f1.lmaxMask + 1)).map (maskSpectrum (f1.view env.sht minfo) (f2.view env.sht minfo) same)) =
      pixelMean env.pix f1.mask f2.mask := by
  apply Complex.ofReal_injective
  rw [hE.parseval, sum_modes, sum_div]
  unfold meanMaskProduct
  push_cast
  refine sum_congr rfl fun l hl => ?_
  rw [mem_range] at hl
  rw [range_getD _ hl, mask_spectrum hE minfo hsame (by omega)]
  have : (2 * (l : ℂ) + 1) ≠ 0 := by
    have : ((2 * l + 1 : ℕ) : ℂ) ≠ 0 := Nat.cast_ne_zero.2 (by omega)
    push_cast at this
    exact this
  field_simp

/-- Two fields of spin `s` with isotropic masks that are not purified. -/
structure PlainFields (s : ℕ) (f1 f2 : FieldObj) : Prop where
  spin1 : f1.spin = s
  spin2 : f2.spin = s
  iso1 : f1.maskA = none
  iso2 : f2.maskA = none
  pure1 : f1.pureE = false ∧ f1.pureB = false
  pure2 : f2.pureE = false ∧ f2.pureB = false

/-- The parts of a workspace of such fields. -/
theorem plain_parts {env : FieldEnv} {minfo : MapInfo} {f1 f2 : FieldObj} {same : Bool} {B : Bins ℝ} {wa : WspArgs} {s : ℕ}
    (hf : PlainFields s f1 f2) (hteb : wa.isTeb = false) (hT : wa.lT ≤ 0) {w : Wsp ℝ}
    (hw : wspFromFields racah env minfo f1 f2 same B wa = .ok w) :
    (couplingArgsOf f1 f2 wa).Plain ∧ (couplingArgsOf f1 f2 wa).spin1 = s ∧ (couplingArgsOf f1 f2 wa).spin2 = s ∧
      w.ncls = ncomp s * ncomp s ∧ w.lmax = B.ellMax ∧ (∀ l ≤ B.ellMax, w.beamProd l = f1.beam.2 l * f2.beam.2 l) := by
  have h1 : (couplingArgsOf f1 f2 wa).spin1 = s := by unfold couplingArgsOf; rw [hf.spin1]; rfl
  have h2 : (couplingArgsOf f1 f2 wa).spin2 = s := by unfold couplingArgsOf; rw [hf.spin2]; rfl
  have hp : (couplingArgsOf f1 f2 wa).Plain := ⟨hf.pure1.1, hf.pure1.2, hf.pure2.1, hf.pure2.2, hteb, hT⟩
  obtain ⟨h0, n, -, hcomp⟩ := wsp_iso hf.iso1 hf.iso2 hw
  obtain ⟨l1, l2, -, p, U, hb⟩ := comp_parts hcomp
  refine ⟨hp, h1, h2, ?_, by rw [hb]; rfl, ?_⟩
  · rw [(C76_matrix hp hcomp).1, h1, h2]
    unfold CouplingSpec.ncls ncomp
    rfl
  · intro l hl
    have hb1 : f1.beam.1 = f1.lmax + 1 := by
      unfold FieldObj.beamList at l1
      simpa using l1
    have hb2 : f2.beam.1 = f1.lmax + 1 := by
      unfold FieldObj.beamList at l2
      simpa using l2
    rw [hb]
    change tab (f1.lmax + 1) (fun l => f1.beamList.getD l 0 * f2.beamList.getD l 0) l = _
    unfold tab
    rw [if_pos (by omega)]
    dsimp only
    rw [beamList_getD f1 (by omega), beamList_getD f2 (by omega)]

/-- **C90** (response): with the FKP normalisation, the bandpowers of a coupled white spectrum are those of the white spectrum, for fields of
equal spin that are not purified, in bands with weights that sum to one and multipoles not below the spin for which the matrix contains all
multipoles coupled to them. White means white after smoothing by the beams, which this normalisation does not undo.

Missing: bands closer to the band limit than the band limit of the masks, for which it is false (`C90_response_lost`); fields of different
spins and purified fields. -/
theorem C90_unit_response_partial (L : LinAlg ℝ) (hL : L.Correct) (env : FieldEnv) (minfo : MapInfo) (f1 f2 : FieldObj) (w1 w2 : ℕ → ℤ → ℂ)
    (hE : MasksExact env f1 f2 w1 w2) (same : Bool) (hsame : same = true → f1 = f2) (B : Bins ℝ) (wa : WspArgs) (hn : wa.norm = "FKP")
    (hteb : wa.isTeb = false) (hT : wa.lT ≤ 0) (s : ℕ) (hf : PlainFields s f1 f2) (w : Wsp ℝ)
    (hw : wspFromFields racah env minfo f1 f2 same B wa = .ok w) (hm : pixelMean env.pix f1.mask f2.mask ≠ 0) (N : ℝ) (C : Arr2 ℝ)
    (hC : White s B.ellMax (fun l => f1.beam.2 l * f2.beam.2 l) N C) :
    ∃ U R D, w.unbinned = some U ∧ coupleCell w U C = .ok R ∧ decoupleCell L w R none none = .ok D ∧
      D.rows = ncomp s * ncomp s ∧ D.cols = B.nBands ∧
      ∀ b < B.nBands, bandSum B (fun _ => 1) b = 1 → (∀ e ∈ B.band b, e.ell ≤ B.ellMax ∧ s ≤ e.ell ∧
        ∀ L ≤ f1.lmaxMask, B.ellMax < L + e.ell → ∀ M, w1 L M = 0) →
        D.val 0 b = N ∧ (s ≠ 0 → D.val 1 b = 0 ∧ D.val 2 b = 0 ∧ D.val 3 b = N) := by
  obtain ⟨hp, s1, s2, hncls, hlm, hbeam⟩ := plain_parts hf hteb hT hw
  obtain ⟨h0, n, -, hcomp⟩ := wsp_iso hf.iso1 hf.iso2 hw
  obtain ⟨U, R, hU, hR, hv⟩ := C77_white_noise hp hcomp (s1.trans s2.symm) N C (by rw [hC.rows, hncls]) (by rw [hC.cols])
    (fun l hl => by rw [hbeam l hl]; exact hC.first l hl)
    (fun h l hl => by
      obtain ⟨g1, g2, g3⟩ := hC.others (by rwa [s1] at h) l hl
      rw [hbeam l hl]
      exact ⟨g3, g1, g2⟩)
  have hRs : R.rows = w.ncls ∧ R.cols = w.lmax + 1 := by
    unfold coupleCell at hR
    split_ifs at hR
    rw [← Outcome.ok.inj hR]
    exact ⟨rfl, rfl⟩
  obtain ⟨D, hD, hDr, hDc, hDv⟩ := C90_divides racah L hL env minfo f1 f2 same B wa hn w hw hm R hRs.1 (by rw [hRs.2, hlm])
  refine ⟨U, R, D, hU, hR, hD, hDr.trans hncls, hDc, ?_⟩
  intro b hb hsum hband
  have hrow : ∀ e ∈ B.band b, R.val 0 e.ell = N * pixelMean env.pix f1.mask f2.mask ∧
      (s ≠ 0 → R.val 1 e.ell = 0 ∧ R.val 2 e.ell = 0 ∧ R.val 3 e.ell = N * pixelMean env.pix f1.mask f2.mask) := by
    intro e he
    obtain ⟨e1, e2, e3⟩ := hband e he
    have := hv e.ell e1 (by rw [s1]; exact e2) (fun l1 hl1 => by
      by_cases hle : l1 ≤ f1.lmaxMask
      · rw [range_getD _ (by omega)]
        apply Complex.ofReal_injective
        rw [mask_spectrum hE minfo hsame hle, sum_eq_zero (fun m _ => by rw [e3 l1 hle hl1, zero_mul])]
        simp
      · rw [List.getD_eq_default _ _ (by simp; omega)])
    rw [s1] at this
    rw [show (couplingArgsOf f1 f2 wa).lmaxMask = f1.lmaxMask from rfl, mean_of_masks hE minfo hsame] at this
    exact this
  have hconst : ∀ k v, (∀ e ∈ B.band b, R.val k e.ell = v * pixelMean env.pix f1.mask f2.mask) →
      bandSum B (R.val k) b / pixelMean env.pix f1.mask f2.mask = v := by
    intro k v hk
    have : bandSum B (R.val k) b = v * pixelMean env.pix f1.mask f2.mask * bandSum B (fun _ => 1) b := by
      unfold bandSum
      rw [← List.sum_map_mul_left]
      congr 1
      refine List.map_congr_left fun e he => ?_
      rw [hk e he]
      ring
    rw [this, hsum, mul_one, mul_div_cancel_right₀ _ hm]
  have hpos : 0 < w.ncls := by rw [hncls]; unfold ncomp; split_ifs <;> norm_num
  refine ⟨by rw [hDv 0 hpos b hb]; exact hconst 0 N fun e he => (hrow e he).1, fun h => ?_⟩
  have h4 : w.ncls = 4 := by rw [hncls]; unfold ncomp; rw [if_neg h]
  refine ⟨?_, ?_, ?_⟩
  · rw [hDv 1 (by omega) b hb]; exact hconst 1 0 fun e he => by rw [((hrow e he).2 h).1, zero_mul]
  · rw [hDv 2 (by omega) b hb]; exact hconst 2 0 fun e he => by rw [((hrow e he).2 h).2.1, zero_mul]
  · rw [hDv 3 (by omega) b hb]; exact hconst 3 N fun e he => ((hrow e he).2 h).2.2

/-- The symbol with the largest third multipole. -/
theorem spin3j_top (s l1 l2 : ℕ) (hs : s ≤ l2) : spin3j racah s l1 l2 (l1 + l2) ≠ 0 := by
  rw [spin3j_racah, wigner3j_exchange, wigner3j_first]
  have h := racah_top (l1 := l1 + l2) (l2 := l1) (l3 := l2) (m2 := 0) (m3 := s) rfl (by simp) (by rw [abs_of_nonneg (by omega)]; exact_mod_cast hs)
  have e : racah.w (l1 + l2) l1 l2 0 s = wigner3j (l1 + l2) l1 l2 (-s) 0 s := by
    change wigner3j _ _ _ (-0 - (s : ℤ)) 0 s = _
    rw [neg_zero, zero_sub]
  rw [e] at h
  intro h0
  rcases mul_eq_zero.1 h0 with h1 | h1
  · exact absurd h1 (pow_ne_zero _ (by norm_num))
  · rcases mul_eq_zero.1 h1 with h2 | h2
    · exact absurd h2 (pow_ne_zero _ (by norm_num))
    · exact h h2

/-- If the mask has power at a multipole that couples beyond the end of the matrix, the row sums to less. -/
theorem coupling_row_lt (s M N : ℕ) (pcl : ℕ → ℝ) (l2 : ℕ) (hs : s ≤ l2) (hp : ∀ l1, 0 ≤ pcl l1) {l0 : ℕ} (h0 : l0 ≤ M) (hN : N < l0 + l2)
    (hpos : 0 < pcl l0) :
    ∑ l3 ∈ range (N + 1), (2 * (l3 : ℝ) + 1) * coupling racah s s M pcl (fun _ => True) l2 l3 <
      ∑ l1 ∈ range (M + 1), (2 * (l1 : ℝ) + 1) / (4 * Real.pi) * pcl l1 := by
  have e : ∑ l3 ∈ range (N + 1), (2 * (l3 : ℝ) + 1) * coupling racah s s M pcl (fun _ => True) l2 l3 =
      ∑ l1 ∈ range (M + 1), (2 * (l1 : ℝ) + 1) / (4 * Real.pi) * pcl l1 *
        ∑ l3 ∈ range (N + 1), (2 * (l3 : ℝ) + 1) * (spin3j racah s l1 l2 l3 * spin3j racah s l1 l2 l3) := by
    unfold coupling
    simp only [if_true, mul_sum]
    rw [sum_comm]
    refine sum_congr rfl fun l1 _ => sum_congr rfl fun l3 _ => ?_
    ring
  have hle : ∀ l1, ∑ l3 ∈ range (N + 1), (2 * (l3 : ℝ) + 1) * (spin3j racah s l1 l2 l3 * spin3j racah s l1 l2 l3) ≤ 1 := by
    intro l1
    refine le_trans ?_ (sum_thirdL l1 l2 s (N + l1 + l2) hs (by omega)).le
    apply sum_le_sum_of_subset_of_nonneg
    · intro x; simp only [mem_range]; omega
    · intro x _ _
      exact mul_nonneg (by positivity) (mul_self_nonneg _)
  have hlt : ∑ l3 ∈ range (N + 1), (2 * (l3 : ℝ) + 1) * (spin3j racah s l0 l2 l3 * spin3j racah s l0 l2 l3) < 1 := by
    refine lt_of_lt_of_eq ?_ (sum_thirdL l0 l2 s (l0 + l2) hs le_rfl)
    refine sum_lt_sum_of_subset (M := ℝ) (s := range (N + 1)) (t := range (l0 + l2 + 1)) (i := l0 + l2) ?_ ?_ ?_ ?_ ?_
    · intro x; simp only [mem_range]; omega
    · rw [mem_range]; omega
    · rw [mem_range]; omega
    · exact mul_pos (by positivity) (mul_self_pos.2 (spin3j_top s l0 l2 hs))
    · intro x _ _
      exact mul_nonneg (by positivity) (mul_self_nonneg _)
  rw [e]
  apply sum_lt_sum
  · intro l1 _
    exact mul_le_of_le_one_right (mul_nonneg (by positivity) (hp l1)) (hle l1)
  · exact ⟨l0, by rw [mem_range]; omega, mul_lt_of_lt_one_right (mul_pos (by have := Real.pi_pos; positivity) hpos) hlt⟩

/-- The first coupled white spectrum, in every row. -/
theorem white_row {a : CouplingArgs} {lf : ℕ} {pcl beam1 beam2 : List ℝ} {B : Bins ℝ} {nt : ℤ} {w2 : ℝ} {w : Wsp ℝ} (ha : a.Plain)
    (h : compCouplingMatrix racah a lf pcl beam1 beam2 B nt w2 = .ok w) (hs : a.spin1 = a.spin2) (N : ℝ) (cl : Arr2 ℝ) (hr : cl.rows = w.ncls)
    (hc : B.ellMax + 1 ≤ cl.cols) (h0 : ∀ l', l' ≤ B.ellMax → w.beamProd l' * cl.val 0 l' = N)
    (h4 : a.spin1 ≠ 0 → ∀ l', l' ≤ B.ellMax → w.beamProd l' * cl.val 3 l' = N ∧ cl.val 1 l' = 0 ∧ cl.val 2 l' = 0) :
    ∃ U out, w.unbinned = some U ∧ coupleCell w U cl = .ok out ∧ ∀ l ≤ B.ellMax, out.val 0 l =
      N * ∑ l3 ∈ range (B.ellMax + 1), (2 * (l3 : ℝ) + 1) * coupling racah a.spin1 a.spin1 a.lmaxMask (fun l => pcl.getD l 0) (fun _ => True) l l3 := by
  obtain ⟨hn, U, hU, hv⟩ := C76_matrix ha h
  have hlm : w.lmax = B.ellMax := (comp_ok h).2.2.1
  have hsgn : ((-1 : ℝ)) ^ (a.spin1 + a.spin2) = 1 := by rw [← hs, ← two_mul, pow_mul]; norm_num
  have hpos : 0 < w.ncls := by rw [hn]; unfold CouplingSpec.ncls; split_ifs <;> norm_num
  refine ⟨U, _, hU, by unfold coupleCell; rw [if_neg (by push Not; exact ⟨hr, by omega⟩)], fun l hl => ?_⟩
  have hval : (Arr2.of w.ncls (w.lmax + 1) (coupleCl w.ncls w.lmax U w.beamProd cl.val)).val 0 l =
      coupleCl w.ncls w.lmax U w.beamProd cl.val 0 l := by
    unfold Arr2.of
    simp only [hlm]
    rw [tab2_lt _ hpos (by omega)]
  rw [hval, mul_sum]
  unfold coupleCl
  rw [hlm]
  refine sum_congr rfl fun l' hl' => ?_
  rw [mem_range] at hl'
  by_cases c0 : a.spin1 = 0
  · have hn1 : w.ncls = 1 := by rw [hn]; unfold CouplingSpec.ncls; rw [← hs, c0]; rfl
    rw [hn1] at hv ⊢
    rw [sum_range_one]
    have e := hv l l' 0 0 hl (by omega) (by norm_num) (by norm_num)
    rw [e, mul_assoc, h0 l' (by omega)]
    unfold CouplingSpec.matrix
    rw [hsgn, if_pos (Or.inl c0), if_pos rfl, ← hs]
    ring
  · have hn4 : w.ncls = 4 := by
      rw [hn]; unfold CouplingSpec.ncls; rw [← hs, if_neg c0]
    have hne : ¬ (a.spin1 = 0 ∨ a.spin2 = 0) := by omega
    obtain ⟨b3, b1, b2⟩ := h4 c0 l' (by omega)
    rw [hn4] at hv ⊢
    simp only [sum_range_succ, sum_range_zero, zero_add]
    rw [b1, b2, mul_assoc, mul_assoc (U (4 * l + 0) (4 * l' + 3)), h0 l' (by omega), b3,
      hv l l' 0 0 hl (by omega) (by norm_num) (by norm_num), hv l l' 0 3 hl (by omega) (by norm_num) (by norm_num), ← coupling_split]
    unfold CouplingSpec.matrix
    rw [hsgn, if_neg hne, if_neg hne, if_pos rfl, if_neg (by norm_num), if_pos (by norm_num), ← hs]
    ring

/-- **C90** (response near the end): for the spectrum of a field with itself, the response is less than one in every band with a multipole
that the mask couples to multipoles beyond the end of the matrix. -/
theorem C90_response_lost (L : LinAlg ℝ) (hL : L.Correct) (env : FieldEnv) (minfo : MapInfo) (f : FieldObj) (v : ℕ → ℤ → ℂ)
    (hE : MasksExact env f f v v) (B : Bins ℝ) (wa : WspArgs) (hn : wa.norm = "FKP")
    (hteb : wa.isTeb = false) (hT : wa.lT ≤ 0) (s : ℕ) (hf : PlainFields s f f) (w : Wsp ℝ)
    (hw : wspFromFields racah env minfo f f true B wa = .ok w) (hm : pixelMean env.pix f.mask f.mask ≠ 0) (N : ℝ) (hN : 0 < N) (C : Arr2 ℝ)
    (hC : White s B.ellMax (fun l => f.beam.2 l * f.beam.2 l) N C) :
    ∃ U R D, w.unbinned = some U ∧ coupleCell w U C = .ok R ∧ decoupleCell L w R none none = .ok D ∧
      ∀ b < B.nBands, bandSum B (fun _ => 1) b = 1 → (∀ e ∈ B.band b, e.ell ≤ B.ellMax ∧ s ≤ e.ell ∧ 0 < e.w * e.f) →
        (∃ e ∈ B.band b, ∃ L ≤ f.lmaxMask, B.ellMax < L + e.ell ∧ ∃ M, |M| ≤ (L : ℤ) ∧ v L M ≠ 0) → D.val 0 b < N := by
  obtain ⟨hp, s1, s2, hncls, hlm, hbeam⟩ := plain_parts hf hteb hT hw
  obtain ⟨-, n, -, hcomp⟩ := wsp_iso hf.iso1 hf.iso2 hw
  obtain ⟨U, R, hU, hR, hv⟩ := white_row hp hcomp (s1.trans s2.symm) N C (by rw [hC.rows, hncls]) (by rw [hC.cols])
    (fun l hl => by rw [hbeam l hl]; exact hC.first l hl)
    (fun h l hl => by
      obtain ⟨g1, g2, g3⟩ := hC.others (by rwa [s1] at h) l hl
      rw [hbeam l hl]
      exact ⟨g3, g1, g2⟩)
  have hRs : R.rows = w.ncls ∧ R.cols = w.lmax + 1 := by
    unfold coupleCell at hR
    split_ifs at hR
    rw [← Outcome.ok.inj hR]
    exact ⟨rfl, rfl⟩
  -- the spectrum of the mask
  have hS : ∀ l, l ≤ f.lmaxMask → ((List.range (f.lmaxMask + 1)).map (maskSpectrum (f.view env.sht minfo) (f.view env.sht minfo) true)).getD l 0 =
      (∑ m ∈ Icc (-(l : ℤ)) l, Complex.normSq (v l m)) / (2 * l + 1) := by
    intro l hl
    rw [range_getD _ (by omega)]
    apply Complex.ofReal_injective
    rw [mask_spectrum hE minfo (fun _ => rfl) hl]
    push_cast
    congr 1
    exact sum_congr rfl fun m _ => Complex.mul_conj _
  have hnn : ∀ l, 0 ≤ ((List.range (f.lmaxMask + 1)).map (maskSpectrum (f.view env.sht minfo) (f.view env.sht minfo) true)).getD l 0 := by
    intro l
    by_cases hl : l ≤ f.lmaxMask
    · rw [hS l hl]
      exact div_nonneg (sum_nonneg fun m _ => Complex.normSq_nonneg _) (by positivity)
    · rw [List.getD_eq_default _ _ (by simp; omega)]
  have hmean := mean_of_masks hE minfo (same := true) (fun _ => rfl)
  have hle : ∀ l ≤ B.ellMax, s ≤ l → R.val 0 l ≤ N * pixelMean env.pix f.mask f.mask := by
    intro l hl hsl
    rw [hv l hl, ← hmean]
    exact mul_le_mul_of_nonneg_left (coupling_row_le _ _ _ _ l (by rw [s1]; exact hsl) hnn) hN.le
  have hlt : ∀ l ≤ B.ellMax, s ≤ l → ∀ L ≤ f.lmaxMask, B.ellMax < L + l → (∃ M, |M| ≤ (L : ℤ) ∧ v L M ≠ 0) →
      R.val 0 l < N * pixelMean env.pix f.mask f.mask := by
    intro l hl hsl L hL hLl hM
    obtain ⟨M, hM, hvM⟩ := hM
    rw [hv l hl, ← hmean]
    refine mul_lt_mul_of_pos_left (coupling_row_lt _ _ _ _ l (by rw [s1]; exact hsl) hnn hL hLl ?_) hN
    rw [hS L hL]
    refine div_pos (sum_pos' (fun m _ => Complex.normSq_nonneg _) ⟨M, ?_, Complex.normSq_pos.2 hvM⟩) (by positivity)
    rw [mem_Icc]
    exact abs_le.1 hM
  have hmn : 0 < pixelMean env.pix f.mask f.mask := by
    refine lt_of_le_of_ne ?_ hm.symm
    rw [← hmean]
    exact sum_nonneg fun l _ => mul_nonneg (by have := Real.pi_pos; positivity) (hnn l)
  obtain ⟨D, hD, -, -, hDv⟩ := C90_divides racah L hL env minfo f f true B wa hn w hw hm R hRs.1 (by rw [hRs.2, hlm])
  refine ⟨U, R, D, hU, hR, hD, ?_⟩
  intro b hb hsum hband hedge
  obtain ⟨e0, he0, L0, hL0, hLe, hM⟩ := hedge
  rw [hDv 0 (by rw [hncls]; unfold ncomp; split_ifs <;> norm_num) b hb, div_lt_iff₀ hmn]
  have hconst : N * pixelMean env.pix f.mask f.mask = bandSum B (fun _ => N * pixelMean env.pix f.mask f.mask) b := by
    have : bandSum B (fun _ => N * pixelMean env.pix f.mask f.mask) b = N * pixelMean env.pix f.mask f.mask * bandSum B (fun _ => 1) b := by
      unfold bandSum
      rw [← List.sum_map_mul_left]
      congr 1
      exact List.map_congr_left fun e _ => by ring
    rw [this, hsum, mul_one]
  rw [hconst]
  unfold bandSum
  refine List.sum_lt_sum _ _ (fun e he => ?_) ⟨e0, he0, ?_⟩
  · obtain ⟨a1, a2, a3⟩ := hband e he
    exact mul_le_mul_of_nonneg_left (hle e.ell a1 a2) a3.le
  · obtain ⟨a1, a2, a3⟩ := hband e0 he0
    exact mul_lt_mul_of_pos_left (hlt e0.ell a1 a2 L0 hL0 hLe hM) a3

end NaMaster
