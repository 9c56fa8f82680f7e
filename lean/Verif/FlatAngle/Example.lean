import Verif.FlatAngle.Props
import Verif.FlatAngle.CovarProps
import Verif.FlatUnits.Example
import Verif.FlatTeb.Example

/-! # Cases for C101, and fields of which only the B modes are purified -/

namespace NaMaster

open Real Finset FlatFieldExample

/-- The inverse transform that sums over all modes is linear. -/
theorem stdEnv_linear : stdEnv.Linear := by
  intro fs x y a b p
  change (stdC2r fs).run _ p = x * (stdC2r fs).run a p + y * (stdC2r fs).run b p
  unfold stdC2r
  by_cases hy : 0 < fs.ny
  · simp only [dif_pos hy]
    change (∑ k ∈ fs.modes, fullArr fs (fun k => (x : ℂ) * a k + (y : ℂ) * b k) k * Complex.exp (fs.phase k p * Complex.I)).re =
      x * (∑ k ∈ fs.modes, fullArr fs a k * Complex.exp (fs.phase k p * Complex.I)).re +
        y * (∑ k ∈ fs.modes, fullArr fs b k * Complex.exp (fs.phase k p * Complex.I)).re
    rw [Complex.re_sum, Complex.re_sum, Complex.re_sum, mul_sum, mul_sum, ← sum_add_distrib]
    refine sum_congr rfl fun k _ => ?_
    have : fullArr fs (fun k => (x : ℂ) * a k + (y : ℂ) * b k) k = (x : ℂ) * fullArr fs a k + (y : ℂ) * fullArr fs b k := by
      unfold fullArr
      split_ifs
      · rfl
      · rw [star_add, star_mul', star_mul']
        congr 1 <;> congr 1
        · exact Complex.conj_ofReal x
        · exact Complex.conj_ofReal y
    rw [this, add_mul, mul_assoc, mul_assoc, Complex.add_re, Complex.re_ofReal_mul, Complex.re_ofReal_mul]
  · simp only [dif_neg hy, mul_zero, add_zero]

namespace FlatAngleExample

open FlatPureExample

/-- Constant maps. -/
def flatSky (q u : ℝ) : FlatMaps := fun X _ => if X = 0 then q else if X = 1 then u else 0

noncomputable def flatModes (q u : ℝ) : ℕ → ℕ × ℕ → ℂ := fun X k => if k = (0, 0) then (if X = 0 then (q : ℂ) else u) else 0

theorem flatSky_modes (q u : ℝ) : SkyHas fsG 2 (flatSky q u) (flatModes q u) := by
  have hd : modeDir (fsG.kx 0) (fsG.ky 0) = (1, 0) := by rw [kxG0, kyG0]; simp [modeDir]
  have h0 : ((0, 0) : ℕ × ℕ) ∈ fsG.modes := by simp [memG]
  unfold SkyHas
  rw [if_neg (by norm_num)]
  constructor
  · intro p _
    rw [sum_eq_single (0, 0) (fun k _ hk => by simp [flatModes, hk, eb2qu]) (fun h => absurd h0 h), phG]
    simp [eb2qu_two, hd, flatModes, flatSky]
  · intro p _
    rw [sum_eq_single (0, 0) (fun k _ hk => by simp [flatModes, hk, eb2qu]) (fun h => absurd h0 h), phG]
    simp [eb2qu_two, hd, flatModes, flatSky]

theorem flatSky_resolved (q u : ℝ) : Resolved fsG maskE (flatModes q u) := by
  refine ⟨1, 0, 0, 0, maskG_limited, ?_, ?_, by simp [fsG], by simp [fsG]⟩
  · intro k hk h
    by_cases h1 : k = (0, 0)
    · subst h1; simp [fsG]
    · simp [flatModes, h1] at h
  · intro k hk h
    by_cases h1 : k = (0, 0)
    · subst h1; simp [fsG]
    · simp [flatModes, h1] at h

/-- The spectra in the second band of constant maps seen through the mask, with purified B modes. -/
theorem flatSky_spectra (q u : ℝ) : ∃ f G, nmtFieldFlat stdEnv ((argsG false true false).withMaps 2 (flatSky q u)) = .ok f ∧
    coupledCellFlat f.data f.data binsX defaultCuts = .ok G ∧ G.rows = 4 ∧ G.val 0 1 = (15 / (4 * π) * q) ^ 2 * (4 * π * π / 15) ∧ G.val 3 1 = 0 := by
  obtain ⟨f, hf, -, -⟩ := fieldG stdEnv false true false (by simp) (flatSky q u)
  obtain ⟨G, hG, hs, hv⟩ := coupled_values (callG false true false) (callG false true false) rfl hf hf binsX gaplessX (by simp [binsX]) defaultCuts
  refine ⟨f, G, hf, hG, hs.1, ?_⟩
  have hpi := Real.pi_pos
  have e1 : bandModes (argsG false true false).fs binsX defaultCuts 1 = {(1, 0), (4, 0)} := regionX
  have e2 : (argsG false true false).spinFor 2 = 2 := rfl
  have e3 : (argsG false true false).fs.lx = 5 := rfl
  have e4 : (argsG false true false).fs.ly = 3 := rfl
  have e5 : (argsG false true false).fs.nx = 5 := rfl
  have m1 : ((1, 0) : ℕ × ℕ) ∈ fsG.modes := by simp [memG]
  have hB : popFlat stdEnv (argsG false true false) 2 (flatSky q u) 1 (1, 0) = 0 := by
    obtain ⟨A, hA, hk⟩ := C63_pure_partial stdEnv stdEnv_exact ((argsG false true false).withMaps 2 (flatSky q u)) _ f rfl rfl rfl hf squareG _
      (flatSky_modes q u) (flatSky_resolved q u) 1 (Or.inr ⟨rfl, rfl⟩)
    have h := flat_pure_alms rfl rfl rfl hf (Or.inr rfl)
    rw [hA] at h
    have h := Option.some.inj (Option.some.inj h)
    unfold popFlat
    rw [if_pos (by simp [argsG])]
    refine (congrFun (congrFun h.symm 1) (1, 0)).trans ?_
    rw [hk (1, 0) m1 (by simp)]
    refine sum_eq_zero fun k' _ => ?_
    by_cases h0 : k' = (0, 0)
    · subst h0
      have : (argsG false true false).fs.kmod 0 0 = 0 := kmod00
      simp [FlatFieldArgs.withMaps, this]
    · simp [flatModes, h0]
  have hE : popFlat stdEnv (argsG false true false) 2 (flatSky q u) 0 (1, 0) = ((15 / (4 * π) * q : ℝ) : ℂ) := by
    have d1 := dirX (x := fsG.kx 1) (waveNum_ne_zero (by norm_num [fsG]) (by norm_num [fsG]) (by norm_num)) kyG0
    have c1 : (((modeDir (fsG.kx 1) (fsG.ky 0)).1 : ℝ) : ℂ) * (((modeDir (fsG.kx 1) (fsG.ky 0)).1 : ℝ) : ℂ) = 1 := by exact_mod_cast d1.2
    unfold popFlat
    rw [if_pos (by simp [argsG])]
    unfold purifyFlatAlms
    rw [if_neg (by simp [argsG])]
    unfold fsMap2alm FlatInfo.map2almSpin
    rw [if_neg (by norm_num), if_pos rfl]
    have hm : fsG.map2alm (fun p => flatSky q u 0 p * maskE p) (1, 0) = (q : ℂ) * fsG.map2alm maskE (1, 0) := by
      have := flat_map2alm_xy fsG q 0 maskE maskE (1, 0)
      simp only [zero_mul, add_zero, Complex.ofReal_zero] at this
      rw [← this]
      congr 1
      funext p
      simp [flatSky]
    change (qu2eb 2 (fsG.kx 1) (fsG.ky 0) (fsG.map2alm (fun p => flatSky q u 0 p * maskE p) (1, 0), _)).1 = _
    rw [hm, maskG_alm m1]
    unfold qu2eb
    simp [csRec, d1.1, sigOverall, ← pow_two]
    have c2 : (((modeDir (fsG.kx 1) (fsG.ky 0)).1 : ℝ) : ℂ) ^ 2 = 1 := by rw [pow_two]; exact c1
    rw [c2]
    push_cast
    field_simp
    ring
  have hx : ixHere 5 1 = 1 ∧ ixHere 5 4 = 1 := by decide
  have hne : ((1, 0) : ℕ × ℕ) ≠ (4, 0) := by simp
  constructor
  · have h := hv 0 (by norm_num) 0 (by norm_num) 1 (by simp [binsX])
    rw [e1, e2, e3, e4, e5, sum_pair hne, card_pair hne] at h
    unfold halfProd at h
    simp only [hx.1, hx.2, hE, Complex.ofReal_re, Complex.ofReal_im] at h
    rw [show 2 * 0 + 0 = 0 from rfl] at h
    rw [h]
    push_cast
    ring
  · have h := hv 1 (by norm_num) 1 (by norm_num) 1 (by simp [binsX])
    rw [e1, e2, e3, e4, e5, sum_pair hne, card_pair hne] at h
    unfold halfProd at h
    simp only [hx.1, hx.2, hB, Complex.zero_re, Complex.zero_im] at h
    rw [show 2 * 1 + 1 = 3 from rfl] at h
    rw [h]
    ring

/-! ### Fields with no purified modes, or with both purified -/

theorem fieldE (e t : Bool) (v : FlatMaps) : ∃ f, nmtFieldFlat stdEnv ((argsG e e t).withMaps 2 v) = .ok f ∧
    (f.base = fG e e ∧ f.nmaps = 2 ∧ f.lite = false) := by
  unfold nmtFieldFlat
  have h2 : flatSpin ((argsG e e t).withMaps 2 v) = .ok 2 := by simp [flatSpin, argsG, FlatFieldArgs.withMaps]
  have h3 : flatShapes ((argsG e e t).withMaps 2 v) = .ok () := by cases t <;> simp [flatShapes, argsG, FlatFieldArgs.withMaps, fsG]
  rw [if_neg (by simp only [argsG, FlatFieldArgs.withMaps, fsG]; norm_num), h2]
  simp only [Outcome.bind]
  rw [if_neg (by simp), h3]
  simp only [Outcome.bind]
  rw [if_neg (by simp only [argsG, fsG, FlatFieldArgs.withMaps]; norm_num)]
  simp only [flatBeam, argsG, Outcome.bind, FlatFieldArgs.withMaps]
  exact ⟨_, rfl, rfl, rfl, rfl⟩

open FlatTebExample in
theorem couplingE (e e' : Bool) : ∃ W, couplingFlat (fG e e) (fG e' e') binsY defaultCuts false = .ok W ∧ Regular (W.ncls * W.bin.nBands) W.gslMatrix := by
  have hm : ∀ (e : Bool) (k : ℕ × ℕ), fsG.kmod k.1 k.2 ≠ 0 → ∀ X < nmapsOf (fG e e).spin, ∀ X' < nmapsOf (fG e e).spin,
      (fG e e).mix k k X X' = if X = X' then 1 else 0 := by
    intro e k hk X hX X' hX'
    simp only [nmapsOf, fG] at hX hX'
    exact mix_self hk _ _ (by simpa using hX) (by simpa using hX')
  exact Simple.regular ⟨rfl, rfl, rfl, rfl, rfl, rfl, flagsG _ _, flagsG _ _, hm e, hm e'⟩

/-- A field of which both kinds of modes are purified and one of which none are, with a template each, noise, and a guess of the true spectra: the bandpowers of the
turned fields are those of the original ones, turned. -/
example (v w : FlatMaps) (t1 t2 : ℝ) (ells : List ℝ) (guess noise : Arr2 ℝ) : ∃ f1 f2 g1 g2,
    nmtFieldFlat stdEnv ((argsG true true true).withMaps 2 v) = .ok f1 ∧ nmtFieldFlat stdEnv ((argsG false false true).withMaps 2 w) = .ok f2 ∧
    nmtFieldFlat stdEnv (((argsG true true true).withMaps 2 v).turn t1) = .ok g1 ∧
    nmtFieldFlat stdEnv (((argsG false false true).withMaps 2 w).turn t2) = .ok g2 ∧
    fullMasterFlat (exactLinAlg ℝ) (deprojOf stdEnv g1 g2) g1.data g2.data binsY defaultCuts (some (noise.turn f1.nmaps f2.nmaps t1 t2))
        (some (guess.turn f1.nmaps f2.nmaps t1 t2, some ells)) none =
      (fullMasterFlat (exactLinAlg ℝ) (deprojOf stdEnv f1 f2) f1.data f2.data binsY defaultCuts (some noise) (some (guess, some ells)) none).bind
        fun r => .ok (r.turn f1.nmaps f2.nmaps t1 t2) := by
  obtain ⟨f1, hf1, hb1, -⟩ := fieldE true true v
  obtain ⟨f2, hf2, hb2, -⟩ := fieldE false true w
  obtain ⟨W, hW, hr⟩ := couplingE true false
  obtain ⟨g1, g2, h1, h2, h⟩ := C101_bandpowers exactLinAlg_correct stdEnv_linear rfl rfl hf1 hf2 t1 t2 binsY defaultCuts (some noise) (some (guess, some ells)) none
    (fun w h => by cases h) (fun w hw => by
      change couplingFlat f1.base f2.base binsY defaultCuts false = .ok w at hw
      rw [hb1, hb2, hW] at hw
      obtain rfl := Outcome.ok.inj hw
      exact hr)
  exact ⟨f1, f2, g1, g2, hf1, hf2, h1, h2, h⟩

/-- The hypotheses of `C101_invariants` are met by a field of which no modes are purified, with a guess and a workspace computed on the fly: the bandpowers exist. -/
example (v : FlatMaps) (t : ℝ) (G : ℕ → ℕ → ℝ) : ∃ f g r r', nmtFieldFlat stdEnv ((argsG false false false).withMaps 2 v) = .ok f ∧
    nmtFieldFlat stdEnv (((argsG false false false).withMaps 2 v).turn t) = .ok g ∧
    fullMasterFlat (exactLinAlg ℝ) (deprojOf stdEnv f f) f.data f.data binsY defaultCuts none (some (⟨4, 2, G⟩, some [1, 5])) none = .ok r ∧
    fullMasterFlat (exactLinAlg ℝ) (deprojOf stdEnv g g) g.data g.data binsY defaultCuts none (some (Arr2.turn 2 2 t t ⟨4, 2, G⟩, some [1, 5])) none = .ok r' ∧
    ∀ ib, r'.val 0 ib + r'.val 3 ib = r.val 0 ib + r.val 3 ib ∧ r'.val 1 ib - r'.val 2 ib = r.val 1 ib - r.val 2 ib := by
  obtain ⟨f, hf, hg⟩ := fieldE false false v
  have hb := hg.1
  obtain ⟨W, hW, hr⟩ := couplingE false false
  have hr' : ∀ w, couplingFlat f.base f.base binsY defaultCuts false = .ok w → Regular (w.ncls * w.bin.nBands) w.gslMatrix := by
    intro w hw
    rw [hb, hW] at hw
    obtain rfl := Outcome.ok.inj hw
    exact hr
  obtain ⟨-, e2, e3⟩ := hg
  obtain ⟨cl, hcl, hs, -⟩ := coupled_values (callG false false false) (callG false false false) rfl hf hf binsY gaplessY (by simp [binsY]) defaultCuts
  have hn : W.ncls = 4 := by
    unfold couplingFlat at hW
    rw [if_neg (by simp), if_neg (by simp), if_neg (by simp [binsY])] at hW
    obtain ⟨rows, -, hW⟩ := bind_eq_ok hW
    obtain ⟨rows', -, hW⟩ := bind_eq_ok hW
    rw [← Outcome.ok.inj hW]
    simp [nmapsOf, fG]
  have hm : ∃ r, fullMasterFlat (exactLinAlg ℝ) (deprojOf stdEnv f f) f.data f.data binsY defaultCuts none (some (⟨4, 2, G⟩, some [1, 5])) none = .ok r := by
    have e4 : f.data.nmaps = 2 := by change nmapsOf f.base.spin = 2; rw [hb]; rfl
    have h1 : pickWspFlat f.data f.data binsY defaultCuts none = .ok W := by
      change couplingFlat f.base f.base binsY defaultCuts false = .ok W
      rw [hb]; exact hW
    have h2 : coupledCellFlatC f.data f.data binsY defaultCuts 4 = .ok cl := by
      unfold coupledCellFlat at hcl
      rw [if_neg (by simp), if_neg (by simp), e4] at hcl
      exact hcl
    unfold fullMasterFlat
    simp only [e4]
    rw [if_neg (by simp), if_neg (by simp), if_neg (by simp)]
    simp only [Option.getD, Option.bind]
    rw [if_neg (by simp)]
    unfold powerSpectraFlatC
    rw [h1]
    simp only [Outcome.bind, hn, h2]
    unfold deprojBiasFlatC
    have e5 : f.data.lite = false := e3
    rw [if_neg (by simp [e5]), if_neg (by norm_num), if_neg (by simp [e4]), if_neg (by simp)]
    simp only [decoupleFlatC]
    rw [if_neg (by
      rw [hn, hs.1]
      simp [Arr2.of])]
    exact ⟨_, rfl⟩
  obtain ⟨r, hm⟩ := hm
  obtain ⟨g, g', r', h1, h2, h3, -, -, h⟩ := C101_invariants exactLinAlg_correct stdEnv_linear rfl rfl hf hf e2 e2 t binsY defaultCuts none
    (some (⟨4, 2, G⟩, some [1, 5])) hr' r hm
  obtain rfl := Outcome.ok.inj (h1.symm.trans h2)
  exact ⟨f, g, r, r', hf, h1, hm, h3, h⟩

/-- Covariance of the spectra of a purified field with an unpurified one and of the unpurified one with itself: in turned fields every block of four by four elements is
turned on both sides. -/
example (j j' : CovJunk ℝ) (S : ℕ → ℕ → ℕ → ℝ) (t1 t2 t3 t4 : ℝ) : ∃ cw wa wb C C', covInitFlat (fG true true) (fG false false) binsY (some (fG false false)) (some (fG false false)) none = .ok cw ∧
    couplingFlat (fG true true) (fG false false) binsY defaultCuts false = .ok wa ∧ couplingFlat (fG false false) (fG false false) binsY defaultCuts false = .ok wb ∧
    gaussianCovarianceFlat (exactLinAlg ℝ) j (some cw) 2 2 2 2 [1, 5] ⟨⟨4, 2, S 0⟩, ⟨4, 2, S 1⟩, ⟨4, 2, S 2⟩, ⟨4, 2, S 3⟩⟩ (some wa) (some (some wb)) = .ok C ∧
    gaussianCovarianceFlat (exactLinAlg ℝ) j' (some cw) 2 2 2 2 [1, 5] (CovCls.turn 2 2 2 2 t1 t2 t3 t4 ⟨⟨4, 2, S 0⟩, ⟨4, 2, S 1⟩, ⟨4, 2, S 2⟩, ⟨4, 2, S 3⟩⟩)
      (some wa) (some (some wb)) = .ok C' ∧
    ∀ x < 4, ∀ y < 4, C'.val x y = turnRow 2 2 t1 t2 (fun x => turnRow 2 2 t3 t4 (fun y => C.val x y) y) x := by
  obtain ⟨cw, hcw, hb, -⟩ := covInitFlat_eq (fG true true) (fG false false) (fG false false) (fG false false) rfl rfl rfl binsY gaplessY (by simp [binsY]) none rfl
    FlatUnitsExample.smallH
  obtain ⟨wa, hwa, hA⟩ := couplingE true false
  obtain ⟨wb, hwb, hB⟩ := couplingE false false
  have na := (binned_exchanges rfl rfl 0 0 hwa).1
  have nb := (binned_exchanges rfl rfl 0 0 hwb).1
  have ba : wa.bin = binsY := by obtain ⟨-, -, -, -, -, -, h, -⟩ := coupling_binned hwa; exact h
  have bb : wb.bin = binsY := by obtain ⟨-, -, -, -, -, -, h, -⟩ := coupling_binned hwb; exact h
  have hcon : ConsistentFlat cw ((fG true true).spin : ℤ) ((fG false false).spin : ℤ) ((fG false false).spin : ℤ) ((fG false false).spin : ℤ) [1, 5]
      ⟨⟨4, 2, S 0⟩, ⟨4, 2, S 1⟩, ⟨4, 2, S 2⟩, ⟨4, 2, S 3⟩⟩ wa wb := by
    refine ⟨?_, ?_, ?_, by simp, ⟨by simp, by simp⟩, by rw [ba, bb, hb]; exact ⟨rfl, rfl⟩, ?_⟩
    · rw [na, nmaps_spin, nmaps_spin]
    · rw [nb, nmaps_spin]
    · simp [fG, nmaps]
    · rw [na, nb, hb]
      simp [fG, nmapsOf, binsY]
  obtain ⟨C, C', h1, h2, -, -, h⟩ := C102_covariance (f1 := fG true true) (f2 := fG false false) (f3 := fG false false) (f4 := fG false false) (n1 := 2) (n2 := 2) (n3 := 2) (n4 := 2)
    exactLinAlg_correct j j' rfl rfl rfl rfl cw hwa hwb hA hB t1 t2 t3 t4 [1, 5] _ hcon rfl rfl rfl rfl
  refine ⟨cw, wa, wb, C, C', hcw, hwa, hwb, h1, h2, fun x hx y hy => ?_⟩
  have := h 0 (by rw [hb]; simp [binsY]) 0 (by rw [hb]; simp [binsY]) x hx y hy
  simpa using this

end FlatAngleExample

open FlatAngleExample FlatPureExample in
/-- C101: turning the maps of a field with purified B modes and unpurified E modes does not turn its pseudo-spectra: here, for constant maps, the sum of the `EE` and
`BB` pseudo-spectra changes. -/
theorem C101_pure_wrong : ∃ (env : FlatEnv) (a : FlatFieldArgs) (t : ℝ) (f g : FlatFieldObj) (b : FlatBins ℝ) (c : EllCuts) (F G : Arr2 ℝ), env.Linear ∧ env.Exact ∧
    SquarePixels a.fs ∧ a.purifyB = true ∧ a.purifyE = false ∧ nmtFieldFlat env a = .ok f ∧ nmtFieldFlat env (a.turn t) = .ok g ∧ F.rows = 4 ∧ G.rows = 4 ∧
    coupledCellFlat f.data f.data b c = .ok F ∧ coupledCellFlat g.data g.data b c = .ok G ∧ 1 < b.nBands ∧ G.val 0 1 + G.val 3 1 ≠ F.val 0 1 + F.val 3 1 := by
  obtain ⟨f, F, h1, h2, h3, h4, h5⟩ := flatSky_spectra 1 0
  obtain ⟨g, G, k1, k2, k3, k4, k5⟩ := flatSky_spectra 0 1
  refine ⟨stdEnv, (argsG false true false).withMaps 2 (flatSky 1 0), π / 2, f, g, binsX, defaultCuts, F, G, stdEnv_linear, stdEnv_exact, squareG, rfl, rfl, h1, ?_, h3,
    k3, h2, k2, by simp [binsX], ?_⟩
  · rw [← k1]
    congr 1
    unfold FlatFieldArgs.turn FlatFieldArgs.withMaps
    congr 1
    refine congrArg some ?_
    change (⟨2, 5, 3, turnBy 2 (π / 2) (flatSky 1 0)⟩ : FlatStackArg) = ⟨2, 5, 3, flatSky 0 1⟩
    congr 1
    funext X p
    unfold turnBy
    by_cases h0 : X = 0
    · subst h0; simp [flatSky]
    · by_cases h1 : X = 1
      · subst h1; simp [flatSky]
      · simp [flatSky, h0, h1]
  · rw [h4, h5, k4, k5]
    have := Real.pi_pos
    have hp : 0 < (15 / (4 * π) * 1) ^ 2 * (4 * π * π / 15) := by positivity
    simp only [mul_zero, add_zero, zero_pow two_ne_zero, zero_mul]
    exact hp.ne

end NaMaster
