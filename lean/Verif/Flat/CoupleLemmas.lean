import Verif.Flat.CoupleModel
import Verif.Flat.BiasProps
import Verif.Flat.MasterProps
import Verif.Flat.PipelineProps
import Verif.Syn.PowerWrong

/-!
# Lemmas on rings of multipoles and on `couple_cell`
-/

namespace NaMaster

open Real Finset MeasureTheory

/-! ## Rings -/

theorem dell_pos {fs : FlatInfo} (hx : 0 < fs.lx) (hy : 0 < fs.ly) : 0 < fs.dell := by
  unfold FlatInfo.dell
  exact lt_min (by positivity) (by positivity)

/-- The loop that counts the rings goes on exactly below their number. -/
theorem lt_nEll {fs : FlatInfo} (hx : 0 < fs.lx) (hy : 0 < fs.ly) (n : ℕ) : n < fs.nEll ↔ ((n : ℝ) + 1) * fs.dell ≤ fs.kmax := by
  have hd := dell_pos hx hy
  unfold FlatInfo.nEll
  rw [← Nat.add_one_le_iff, Nat.le_floor_iff (by unfold FlatInfo.kmax; positivity), le_div_iff₀ hd]
  push_cast
  rfl

theorem ring_def (fs : FlatInfo) (ix iy : ℕ) : fs.ring ix iy =
    if (⌊fs.kmod ix iy * (1 / fs.dell)⌋₊ : ℤ) ≥ fs.nEll then (-1 : ℤ) else ⌊fs.kmod ix iy * (1 / fs.dell)⌋₊ := rfl

theorem ring_iff {fs : FlatInfo} (hx : 0 < fs.lx) (hy : 0 < fs.ly) (ix iy n : ℕ) :
    fs.ring ix iy = n ↔ n < fs.nEll ∧ n * fs.dell ≤ fs.kmod ix iy ∧ fs.kmod ix iy < ((n : ℝ) + 1) * fs.dell := by
  have hd := dell_pos hx hy
  have hk : 0 ≤ fs.kmod ix iy := by unfold FlatInfo.kmod; positivity
  have hf : ⌊fs.kmod ix iy * (1 / fs.dell)⌋₊ = n ↔ n * fs.dell ≤ fs.kmod ix iy ∧ fs.kmod ix iy < ((n : ℝ) + 1) * fs.dell := by
    rw [Nat.floor_eq_iff (by positivity), mul_one_div, le_div_iff₀ hd, div_lt_iff₀ hd]
  rw [ring_def]
  rw [← hf]
  split_ifs with h
  · constructor
    · intro h'; exact h'.elim
    · rintro ⟨h1, h2⟩; omega
  · constructor
    · intro h'; omega
    · rintro ⟨h1, h2⟩; omega

theorem ring_cases (fs : FlatInfo) (ix iy : ℕ) : fs.ring ix iy = -1 ∨ ∃ n < fs.nEll, fs.ring ix iy = (n : ℕ) := by
  rw [ring_def]
  split_ifs with h
  · exact Or.inl rfl
  · exact Or.inr ⟨_, by omega, rfl⟩

theorem ring_neg_iff {fs : FlatInfo} (hx : 0 < fs.lx) (hy : 0 < fs.ly) (ix iy : ℕ) :
    fs.ring ix iy = -1 ↔ fs.nEll * fs.dell ≤ fs.kmod ix iy := by
  have hd := dell_pos hx hy
  have hk : 0 ≤ fs.kmod ix iy := by unfold FlatInfo.kmod; positivity
  have hf : fs.nEll ≤ ⌊fs.kmod ix iy * (1 / fs.dell)⌋₊ ↔ fs.nEll * fs.dell ≤ fs.kmod ix iy := by
    rw [Nat.le_floor_iff (by positivity), mul_one_div, le_div_iff₀ hd]
  rw [ring_def]
  rw [← hf]
  split_ifs with h
  · simp only [true_iff]; exact_mod_cast h
  · constructor
    · intro h'; exact h'.elim
    · intro h'; exact absurd (by exact_mod_cast h') h

theorem waveNum_sq_le {n : ℕ} {l : ℝ} (hl : 0 < l) {i : ℕ} (hi : i < n) :
    waveNum n l i * waveNum n l i ≤ (2 * π / l * (n / 2 : ℕ)) * (2 * π / l * (n / 2 : ℕ)) := by
  have hp : 0 < 2 * π / l := by positivity
  have key : |waveNum n l i| ≤ 2 * π / l * (n / 2 : ℕ) := by
    unfold waveNum
    split_ifs with h
    · rw [abs_of_nonneg (by positivity), mul_comm]
      have : (i : ℝ) ≤ ((n / 2 : ℕ) : ℝ) := by
        have : i ≤ n / 2 := by omega
        exact_mod_cast this
      gcongr
    · have h1 : ((n - i : ℕ) : ℝ) = (n : ℝ) - i := Nat.cast_sub (by omega)
      rw [← h1, neg_mul, abs_neg, abs_of_nonneg (by positivity), mul_comm]
      have : ((n - i : ℕ) : ℝ) ≤ ((n / 2 : ℕ) : ℝ) := by
        have : n - i ≤ n / 2 := by omega
        exact_mod_cast this
      gcongr
  rw [← abs_mul_abs_self (waveNum n l i)]
  exact mul_le_mul key key (abs_nonneg _) (by positivity)

theorem kmod_le_kmax {fs : FlatInfo} (hx : 0 < fs.lx) (hy : 0 < fs.ly) {k : ℕ × ℕ} (hk : k ∈ fs.modes) :
    fs.kmod k.1 k.2 ≤ fs.kmax := by
  rw [mem_modes] at hk
  unfold FlatInfo.kmod FlatInfo.kmax
  refine Real.sqrt_le_sqrt ?_
  have h1 := waveNum_sq_le hx hk.1
  have h2 := waveNum_sq_le hy hk.2
  unfold FlatInfo.kx FlatInfo.ky
  linarith

theorem corner_kmax {fs : FlatInfo} : fs.kmod (fs.nx / 2) (fs.ny / 2) = fs.kmax := by
  unfold FlatInfo.kmod FlatInfo.kmax FlatInfo.kx FlatInfo.ky waveNum
  rw [if_pos (by omega), if_pos (by omega)]
  congr 1
  ring

theorem corner_mem {fs : FlatInfo} (h1 : 0 < fs.nx) (h2 : 0 < fs.ny) : ((fs.nx / 2, fs.ny / 2) : ℕ × ℕ) ∈ fs.modes := by
  rw [mem_modes]
  exact ⟨by dsimp only; omega, by dsimp only; omega⟩

theorem nEll_le {fs : FlatInfo} (hx : 0 < fs.lx) (hy : 0 < fs.ly) : fs.nEll * fs.dell ≤ fs.kmax := by
  rcases Nat.eq_zero_or_pos fs.nEll with h | h
  · rw [h]; simp only [Nat.cast_zero, zero_mul]; unfold FlatInfo.kmax; positivity
  · have := (lt_nEll hx hy (fs.nEll - 1)).1 (by omega)
    rwa [Nat.cast_sub (by omega), Nat.cast_one, sub_add_cancel] at this

theorem ring_flip {fs : FlatInfo} {k : ℕ × ℕ} (hk : k ∈ fs.modes) : fs.ring (fs.flip k).1 (fs.flip k).2 = fs.ring k.1 k.2 := by
  have hm : fs.kmod (fs.flip k).1 (fs.flip k).2 = fs.kmod k.1 k.2 := kmod_neg hk
  unfold FlatInfo.ring
  rw [hm]

/-! ## The value of `couple_cell` -/

/-- The mean of a function of the wave number over the modes in the ring of a mode; zero in the outermost ring. -/
noncomputable def ringAvg (fs : FlatInfo) (g : ℝ → ℝ) (k : ℕ × ℕ) : ℝ :=
  if fs.ring k.1 k.2 = -1 then 0 else ringMean fs.rings fs g (fs.ring k.1 k.2).toNat

theorem ringAvg_eq {fs : FlatInfo} {g : ℝ → ℝ} {k : ℕ × ℕ} (hk : k ∈ fs.modes) {v : ℝ} (h0 : fs.ring k.1 k.2 ≠ -1)
    (h : ∀ k' ∈ fs.modes, fs.ring k'.1 k'.2 = fs.ring k.1 k.2 → g (fs.kmod k'.1 k'.2) = v) : ringAvg fs g k = v := by
  unfold ringAvg
  rw [if_neg h0]
  obtain ⟨n, -, hn⟩ := (ring_cases fs k.1 k.2).resolve_left h0
  rw [hn, Int.toNat_natCast]
  unfold ringMean
  change (let m := #{k ∈ fs.modes | fs.ring k.1 k.2 = n}
    let s := ∑ k ∈ fs.modes with fs.ring k.1 k.2 = n, g (fs.kmod k.1 k.2)
    if m > 0 then s / m else s) = v
  have hmem : k ∈ ({k ∈ fs.modes | fs.ring k.1 k.2 = n} : Finset (ℕ × ℕ)) := mem_filter.2 ⟨hk, hn⟩
  have hpos : 0 < #{k ∈ fs.modes | fs.ring k.1 k.2 = n} := card_pos.2 ⟨k, hmem⟩
  have hs : ∑ k ∈ fs.modes with fs.ring k.1 k.2 = n, g (fs.kmod k.1 k.2) = #{k ∈ fs.modes | fs.ring k.1 k.2 = n} * v := by
    rw [← nsmul_eq_mul, ← sum_const]
    refine sum_congr rfl fun k' hk' => ?_
    rw [mem_filter] at hk'
    exact h k' hk'.1 (hk'.2.trans hn.symm)
  simp only [hs]
  rw [if_pos hpos, mul_div_cancel_left₀ _ (by exact_mod_cast hpos.ne')]

theorem sum_rings (fs : FlatInfo) (g : ℕ → ℝ) (f : ℕ × ℕ → ℝ) :
    ∑ ir ∈ range fs.nEll, (∑ k ∈ fs.modes with fs.ring k.1 k.2 = ir, f k) * g ir =
      ∑ k ∈ fs.modes, f k * (if fs.ring k.1 k.2 = -1 then 0 else g (fs.ring k.1 k.2).toNat) := by
  simp only [sum_filter, sum_mul]
  rw [sum_comm]
  refine sum_congr rfl fun k _ => ?_
  rcases ring_cases fs k.1 k.2 with h | ⟨n, hn, h⟩
  · rw [if_pos h, mul_zero]
    refine sum_eq_zero fun ir _ => ?_
    rw [if_neg (by omega), zero_mul]
  · rw [if_neg (by omega), h, sum_eq_single n]
    · rw [if_pos rfl, Int.toNat_natCast]
    · intro m _ hm
      rw [if_neg (by omega), zero_mul]
    · intro hn'; exact absurd (mem_range.2 hn) hn'

theorem bind_out {α β : Type*} {o : Outcome α} {f : α → Outcome β} {b : β} (h : o.bind f = .ok b) : ∃ a, o = .ok a ∧ f a = .ok b := by
  cases o with
  | ok a => exact ⟨a, rfl, h⟩
  | raises e => cases h
  | crash => cases h

theorem couplingFlat_stored {f1 f2 : FlatField} {b : FlatBins ℝ} {c : EllCuts} {isTeb : Bool} {W : WspFlat}
    (hW : couplingFlat f1 f2 b c isTeb = .ok W) : W.fs = f1.fs ∧ W.rings = f1.fs.rings ∧ W.bin = b ∧ W.lmax = b.ellf (b.nBands - 1) := by
  unfold couplingFlat at hW
  split_ifs at hW
  all_goals
    simp only at hW
    obtain ⟨_, -, hW⟩ := bind_out hW
    obtain ⟨_, -, hW⟩ := bind_out hW
    cases hW
    exact ⟨rfl, rfl, rfl, rfl⟩

theorem couplingFlat_rings (f1 f2 : FlatField) (b : FlatBins ℝ) (hb : GaplessBands b) (h0 : 0 < b.nBands) (c : EllCuts)
    (isTeb : Bool) {W : WspFlat} (hW : couplingFlat f1 f2 b c isTeb = .ok W) :
    W.fs = f1.fs ∧ W.bin = b ∧ W.ncls = (if isTeb then 7 else nmapsOf f1.spin * nmapsOf f2.spin) ∧
      ∀ i < W.ncls, ∀ j < W.ncls, ∀ b1 < b.nBands, ∀ ir < f1.fs.nEll, W.unbinned i b1 j ir =
        (∑ k1 ∈ bandModes f1.fs b c b1, ∑ k2 ∈ f1.fs.modes with f1.fs.ring k2.1 k2.2 = ir,
          coupTerm f1 f2 W.ncls (halfProd f1.fs.nx (f1.fs.map2alm f1.mask) (f1.fs.map2alm f2.mask)) i j k1 k2) *
        (4 * π * π / (f1.fs.lx * f1.fs.lx * f1.fs.ly * f1.fs.ly) / #(bandModes f1.fs b c b1)) := by
  obtain ⟨rows, h1, h2⟩ := all_rows (n := f1.fs.nx) (m := f1.fs.ny) (fun iy => couplingBands f1.fs b c iy)
    (fun ix iy r => RightModeBand f1.fs b c ix iy r) (fun iy => by
      obtain ⟨t, -, ht, hf⟩ := C41_same_modes_partial f1.fs b hb h0 c iy
      exact ⟨t, ht, hf⟩)
  obtain ⟨rowsN, h3, h4⟩ := all_rows (n := f1.fs.nx) (m := f1.fs.ny) (fun iy => couplingBandsNocut f1.fs b iy)
    (fun ix iy r => RightBand b (f1.fs.kmod ix iy) r) (fun iy => C41_nocut_partial f1.fs b hb h0 iy)
  unfold couplingFlat at hW
  by_cases hfs : f1.fs ≠ f2.fs
  · rw [if_pos hfs] at hW; cases hW
  rw [if_neg hfs] at hW
  by_cases ht : isTeb = true ∧ ¬ (f1.spin = 0 ∧ f2.spin ≠ 0)
  · rw [if_pos ht] at hW; cases hW
  rw [if_neg ht, if_neg (by omega)] at hW
  simp only [h1, h3, Outcome.bind] at hW
  cases hW
  refine ⟨rfl, rfl, rfl, ?_⟩
  intro i hi j hj b1 hb1 ir hir
  simp only at hi hj ⊢
  rw [if_pos ⟨hi, hj, hb1, hir⟩]
  have hfb := filter_band hb.toOrderedBands h2 b1
  unfold nCells
  rw [hfb]
  congr 1
  by_cases hn : #(bandModes f1.fs b c b1) > 0
  · rw [if_pos hn]
  · rw [if_neg hn]
    have : #(bandModes f1.fs b c b1) = 0 := by omega
    rw [this]; simp

/-- The result of `couple_cell` as a sum over pairs of modes. -/
theorem couple_value (f1 f2 : FlatField) (b : FlatBins ℝ) (hb : GaplessBands b) (h0 : 0 < b.nBands) (c : EllCuts)
    (isTeb : Bool) {W : WspFlat} (hW : couplingFlat f1 f2 b c isTeb = .ok W) {ells : List ℝ} {cl : Arr2 ℝ} (hr : cl.rows = W.ncls)
    (hc : cl.cols = ells.length) (h2 : 2 ≤ ells.length) (hs : ells.Pairwise (· < ·)) :
    ∃ out, coupleCellFlat (some W) ells cl = .ok out ∧ out.rows = W.ncls ∧ out.cols = b.nBands ∧
      ∀ i < W.ncls, ∀ ib < b.nBands, out.val i ib =
        4 * π * π / (f1.fs.lx * f1.fs.lx * f1.fs.ly * f1.fs.ly) / #(bandModes f1.fs b c ib) *
          ∑ j ∈ range W.ncls, ∑ k1 ∈ bandModes f1.fs b c ib, ∑ k2 ∈ f1.fs.modes,
            coupTerm f1 f2 W.ncls (halfProd f1.fs.nx (f1.fs.map2alm f1.mask) (f1.fs.map2alm f2.mask)) i j k1 k2 *
              ringAvg f1.fs (propFun ells (cl.val j)) k2 := by
  obtain ⟨hfs, hbin, -, hub⟩ := couplingFlat_rings f1 f2 b hb h0 c isTeb hW
  have hrg := (couplingFlat_stored hW).2.1
  unfold coupleCellFlat
  simp only
  rw [if_neg (by simp [hr, hc]), if_neg (by simp [h2, hs])]
  refine ⟨_, rfl, rfl, by rw [← hbin]; rfl, ?_⟩
  intro i hi ib hib
  rw [show (Arr2.of W.ncls W.bin.nBands _).val i ib = _ from tab2_of_lt _ hi (by rw [hbin]; exact hib)]
  rw [sum_flat, hfs, hrg]
  have key : ∀ ir ∈ range f1.fs.nEll, ∀ j ∈ range W.ncls,
      W.unbinned i ib ((W.ncls * ir + j) % W.ncls) ((W.ncls * ir + j) / W.ncls) *
        ringMean f1.fs.rings f1.fs (propFun ells (cl.val ((W.ncls * ir + j) % W.ncls))) ((W.ncls * ir + j) / W.ncls) =
      (4 * π * π / (f1.fs.lx * f1.fs.lx * f1.fs.ly * f1.fs.ly) / #(bandModes f1.fs b c ib)) *
        ((∑ k2 ∈ f1.fs.modes with f1.fs.ring k2.1 k2.2 = ir, ∑ k1 ∈ bandModes f1.fs b c ib,
          coupTerm f1 f2 W.ncls (halfProd f1.fs.nx (f1.fs.map2alm f1.mask) (f1.fs.map2alm f2.mask)) i j k1 k2) *
          ringMean f1.fs.rings f1.fs (propFun ells (cl.val j)) ir) := by
    intro ir hir j hj
    rw [mem_range] at hir hj
    rw [pairIdx_mod hj, pairIdx_div hj, hub i hi j hj ib hib ir hir, sum_comm]
    ring
  rw [show f1.fs.rings.nEll = f1.fs.nEll from rfl, sum_congr rfl fun ir hir => sum_congr rfl fun j hj => key ir hir j hj]
  rw [sum_comm, mul_sum]
  refine sum_congr rfl fun j _ => ?_
  rw [← mul_sum, sum_rings]
  congr 1
  rw [sum_comm]
  refine sum_congr rfl fun k2 _ => ?_
  rw [sum_mul]
  rfl

end NaMaster
