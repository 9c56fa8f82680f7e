import Verif.Field.Spectra
import Mathlib.Algebra.BigOperators.Field

/-! # Bilinearity of the spectra -/

namespace NaMaster

open Finset

theorem alm2cl_sum_left {ι : Type*} (s : Finset ι) (f : ι → ℕ → ℕ → ℂ) (b : ℕ → ℕ → ℂ) (l : ℕ) :
    alm2cl (fun l m => ∑ i ∈ s, f i l m) b l = ∑ i ∈ s, alm2cl (f i) b l := by
  unfold alm2cl
  rw [← sum_div, sum_comm]
  congr 1
  refine sum_congr rfl fun m _ => ?_
  rw [sum_mul, Complex.re_sum, mul_sum]

theorem alm2cl_sum_right {ι : Type*} (s : Finset ι) (a : ℕ → ℕ → ℂ) (f : ι → ℕ → ℕ → ℂ) (l : ℕ) :
    alm2cl a (fun l m => ∑ i ∈ s, f i l m) l = ∑ i ∈ s, alm2cl a (f i) l := by
  unfold alm2cl
  rw [← sum_div, sum_comm]
  congr 1
  refine sum_congr rfl fun m _ => ?_
  rw [map_sum, mul_sum, Complex.re_sum, mul_sum]

theorem alm2cl_smul_left (k : ℝ) (a b : ℕ → ℕ → ℂ) (l : ℕ) :
    alm2cl (fun l m => (k : ℂ) * a l m) b l = k * alm2cl a b l := by
  unfold alm2cl
  rw [mul_div_assoc', mul_sum]
  congr 1
  refine sum_congr rfl fun m _ => ?_
  rw [mul_assoc, Complex.re_ofReal_mul]; ring

theorem alm2cl_comm (a b : ℕ → ℕ → ℂ) (l : ℕ) : alm2cl a b l = alm2cl b a l := by
  unfold alm2cl
  congr 1
  refine sum_congr rfl fun m _ => ?_
  simp only [Complex.mul_re, Complex.conj_re, Complex.conj_im]; ring

theorem alm2cl_smul_right (k : ℝ) (a b : ℕ → ℕ → ℂ) (l : ℕ) :
    alm2cl a (fun l m => (k : ℂ) * b l m) l = k * alm2cl a b l := by
  rw [alm2cl_comm, alm2cl_smul_left, alm2cl_comm]

theorem alm2cl_add_left (a a' b : ℕ → ℕ → ℂ) (l : ℕ) :
    alm2cl (fun l m => a l m + a' l m) b l = alm2cl a b l + alm2cl a' b l := by
  unfold alm2cl
  rw [← add_div, ← sum_add_distrib]
  congr 1
  refine sum_congr rfl fun m _ => ?_
  rw [add_mul, Complex.add_re]; ring

theorem alm2cl_sub_left (a a' b : ℕ → ℕ → ℂ) (l : ℕ) :
    alm2cl (fun l m => a l m - a' l m) b l = alm2cl a b l - alm2cl a' b l := by
  unfold alm2cl
  rw [← sub_div, ← sum_sub_distrib]
  congr 1
  refine sum_congr rfl fun m _ => ?_
  rw [sub_mul, Complex.sub_re]; ring

theorem alm2cl_add_right (a b b' : ℕ → ℕ → ℂ) (l : ℕ) :
    alm2cl a (fun l m => b l m + b' l m) l = alm2cl a b l + alm2cl a b' l := by
  rw [alm2cl_comm, alm2cl_add_left, alm2cl_comm, alm2cl_comm b']

theorem alm2cl_sub_right (a b b' : ℕ → ℕ → ℂ) (l : ℕ) :
    alm2cl a (fun l m => b l m - b' l m) l = alm2cl a b l - alm2cl a b' l := by
  rw [alm2cl_comm, alm2cl_sub_left, alm2cl_comm, alm2cl_comm b']

theorem alm2cl_congr {a a' b b' : ℕ → ℕ → ℂ} {l : ℕ} (h : ∀ m, a l m = a' l m) (h' : ∀ m, b l m = b' l m) :
    alm2cl a b l = alm2cl a' b' l := by
  unfold alm2cl
  congr 1
  exact sum_congr rfl fun m _ => by rw [h, h']

/-- A double sum over all pairs is the sum over pairs of different indices plus the diagonal. -/
theorem sum_all_pairs (n : ℕ) (f : ℕ → ℕ → ℝ) :
    ∑ i ∈ range n, ∑ j ∈ range n, f i j =
      (∑ i ∈ range n, ∑ j ∈ (range n).erase i, f i j) + ∑ i ∈ range n, f i i := by
  rw [← sum_add_distrib]
  exact sum_congr rfl fun i hi => (sum_erase_add _ _ hi).symm

end NaMaster
