import Verif.Ybar
import Mathlib.RingTheory.RootsOfUnity.Complex
import Mathlib.Algebra.Order.BigOperators.Group.Finset

/-! Facts about the discrete Fourier transform of real signals, as computed by `rfft` and `irfft`. -/

open scoped Classical ComplexConjugate

noncomputable section

namespace PKM.Fft

theorem root_add (n : ℕ) (a b : ℤ) : root n (a + b) = root n a * root n b := by
  unfold root
  rw [← Complex.exp_add]
  congr 1
  push_cast
  ring

theorem root_zero (n : ℕ) : root n 0 = 1 := by simp [root]

theorem root_mul_nat (n : ℕ) (a : ℤ) (k : ℕ) : root n (a * k) = root n a ^ k := by
  unfold root
  rw [← Complex.exp_nat_mul]
  congr 1
  push_cast
  ring

theorem root_eq_one {n : ℕ} (hn : 0 < n) (a : ℤ) : root n a = 1 ↔ (n : ℤ) ∣ a := by
  unfold root
  have hn' : (n : ℂ) ≠ 0 := by exact_mod_cast hn.ne'
  rw [Complex.exp_eq_one_iff]
  constructor
  · rintro ⟨m, hm⟩
    refine ⟨m, ?_⟩
    have hpi : (2 * Real.pi * Complex.I : ℂ) ≠ 0 := Complex.two_pi_I_ne_zero
    have : (a : ℂ) = n * m := by
      field_simp at hm
      linear_combination hm
    exact_mod_cast this
  · rintro ⟨m, rfl⟩
    refine ⟨m, ?_⟩
    push_cast
    field_simp

theorem root_periodic {n : ℕ} (hn : 0 < n) {a b : ℤ} (h : (n : ℤ) ∣ a - b) : root n a = root n b := by
  have : a = (a - b) + b := by ring
  rw [this, root_add, (root_eq_one hn _).2 h, one_mul]

theorem conj_root (n : ℕ) (a : ℤ) : conj (root n a) = root n (-a) := by
  unfold root
  rw [← Complex.exp_conj]
  congr 1
  have h2 : conj (2 : ℂ) = 2 := Complex.conj_ofNat 2
  simp [Complex.conj_ofReal, h2]

/-- Orthogonality. -/
theorem sum_root {n : ℕ} (hn : 0 < n) (a : ℤ) :
    ∑ k ∈ Finset.range n, root n (a * k) = if (n : ℤ) ∣ a then (n : ℂ) else 0 := by
  simp only [root_mul_nat]
  split_ifs with h
  · rw [(root_eq_one hn a).2 h]
    simp
  · have h1 : root n a ≠ 1 := fun e => h ((root_eq_one hn a).1 e)
    rw [geom_sum_eq h1, ← root_mul_nat, (root_eq_one hn _).2 (Dvd.intro_left a rfl), sub_self, zero_div]

theorem rfft_eq (n : ℕ) (x : ℕ → ℝ) (k : ℕ) :
    rfft n n x k = ∑ j ∈ Finset.range n, (x j : ℂ) * root n (-(k * j)) :=
  Finset.sum_congr rfl fun j hj => by rw [if_pos (Finset.mem_range.1 hj)]

/-- The total of an inverse transform is the zero frequency. -/
theorem sum_irfft {n : ℕ} (hn : 0 < n) (Y : ℕ → ℂ) : ∑ k ∈ Finset.range n, irfft n Y k = (Y 0).re := by
  have hz : ∀ j ∈ Finset.Ico 1 (half n), ∑ k ∈ Finset.range n, (Y j * root n (j * k)).re = 0 := by
    intro j hj
    obtain ⟨h1, h2⟩ := Finset.mem_Ico.1 hj
    rw [← Complex.re_sum, ← Finset.mul_sum, sum_root hn, if_neg]
    · simp
    · intro hd
      have := Int.le_of_dvd (by omega) hd
      unfold half at h2
      omega
  have hn' : (n : ℝ) ≠ 0 := by exact_mod_cast hn.ne'
  unfold irfft
  simp only [div_eq_mul_inv]
  rw [← Finset.sum_mul, Finset.sum_add_distrib, Finset.sum_comm]
  have : ∑ j ∈ Finset.Ico 1 (half n), ∑ k ∈ Finset.range n,
      (if 2 * j = n then (Y j * root n (j * k)).re else 2 * (Y j * root n (j * k)).re) = 0 := by
    refine Finset.sum_eq_zero fun j hj => ?_
    split_ifs
    · exact hz j hj
    · rw [← Finset.mul_sum, hz j hj, mul_zero]
  rw [this]
  simp
  field_simp

/-- Entry zero of the transform is the total. -/
theorem rfft_zero (len n : ℕ) (x : ℕ → ℝ) (h : len ≤ n) :
    rfft len n x 0 = ((∑ j ∈ Finset.range len, x j : ℝ) : ℂ) := by
  unfold rfft
  simp only [Nat.cast_zero, zero_mul, neg_zero, root_zero, mul_one]
  rw [← Finset.sum_filter]
  have : (Finset.range n).filter (fun j => j < len) = Finset.range len := by
    ext j; simp; omega
  rw [this]
  push_cast
  rfl

theorem sum_symm {n : ℕ} (hn : 0 < n) {f : ℕ → ℝ} (hf : ∀ j, 1 ≤ j → j < n → f (n - j) = f j) :
    f 0 + ∑ j ∈ Finset.Ico 1 (half n), (if 2 * j = n then f j else 2 * f j) = ∑ j ∈ Finset.range n, f j := by
  have hh : half n ≤ n ∨ n = 1 := by unfold half; omega
  rcases hh with hh | rfl
  swap
  · simp [half]
  have h1 : 1 ≤ half n := by unfold half; omega
  rw [Finset.range_eq_Ico, Finset.sum_eq_sum_Ico_succ_bot hn, ← Finset.sum_Ico_consecutive _ h1 hh]
  have hr : ∑ j ∈ Finset.Ico (half n) n, f j = ∑ j ∈ Finset.Ico 1 (n - n / 2), f j := by
    have e := Finset.sum_Ico_reflect f 1 (m := n - n / 2) (n := n) (by omega)
    have e1 : n + 1 - (n - n / 2) = half n := by unfold half; omega
    rw [e1, Nat.add_sub_cancel] at e
    rw [← e]
    refine Finset.sum_congr rfl fun j hj => ?_
    obtain ⟨a, b⟩ := Finset.mem_Ico.1 hj
    exact hf j a (by omega)
  have hs : ∑ j ∈ Finset.Ico 1 (half n), (if 2 * j = n then f j else 2 * f j) =
      ∑ j ∈ Finset.Ico 1 (half n), f j + ∑ j ∈ Finset.Ico 1 (half n), (if 2 * j = n then 0 else f j) := by
    rw [← Finset.sum_add_distrib]
    refine Finset.sum_congr rfl fun j _ => ?_
    split_ifs <;> ring
  have hq : ∑ j ∈ Finset.Ico 1 (half n), (if 2 * j = n then 0 else f j) =
      ∑ j ∈ Finset.Ico 1 (n - n / 2), f j := by
    have : Finset.Ico 1 (n - n / 2) = (Finset.Ico 1 (half n)).filter (fun j => ¬ 2 * j = n) := by
      ext j
      simp only [Finset.mem_Ico, Finset.mem_filter, half]
      omega
    rw [this, Finset.sum_filter]
    refine Finset.sum_congr rfl fun j _ => ?_
    split_ifs <;> rfl
  rw [hs, hq, hr]

theorem rfft_conj {n : ℕ} (hn : 0 < n) (x : ℕ → ℝ) {w : ℕ} (hw : w < n) :
    rfft n n x (n - w) = conj (rfft n n x w) := by
  rw [rfft_eq, rfft_eq, map_sum]
  refine Finset.sum_congr rfl fun j _ => ?_
  rw [map_mul, Complex.conj_ofReal, conj_root]
  congr 1
  apply root_periodic hn
  refine ⟨-j, ?_⟩
  push_cast [Nat.cast_sub hw.le]
  ring

/-- `irfft` inverts `rfft`. -/
theorem irfft_rfft {n : ℕ} (hn : 0 < n) (x : ℕ → ℝ) {k : ℕ} (hk : k < n) :
    irfft n (rfft n n x) k = x k := by
  have hn' : (n : ℝ) ≠ 0 := by exact_mod_cast hn.ne'
  have e := sum_symm hn (f := fun w => (rfft n n x w * root n (w * k)).re) (by
    intro j h1 h2
    have : root n ((n - j : ℕ) * k) = conj (root n (j * k)) := by
      rw [conj_root]
      apply root_periodic hn
      refine ⟨k, ?_⟩
      push_cast [Nat.cast_sub h2.le]
      ring
    simp only [this, rfft_conj hn x h2, ← map_mul, Complex.conj_re])
  have hir : irfft n (rfft n n x) k = (∑ w ∈ Finset.range n, (rfft n n x w * root n (w * k)).re) / n := by
    rw [← e]
    unfold irfft
    simp [root_zero]
  rw [hir, ← Complex.re_sum]
  have : ∑ w ∈ Finset.range n, rfft n n x w * root n (w * k) = ((n * x k : ℝ) : ℂ) := by
    simp only [rfft_eq, Finset.sum_mul]
    rw [Finset.sum_comm]
    rw [Finset.sum_eq_single k]
    · have : ∀ w ∈ Finset.range n, (x k : ℂ) * root n (-(w * k)) * root n (w * k) = x k := by
        intro w _
        rw [mul_assoc, ← root_add, neg_add_cancel, root_zero, mul_one]
      rw [Finset.sum_congr rfl this]
      simp
    · intro j hj hjk
      have : ∀ w ∈ Finset.range n, (x j : ℂ) * root n (-(w * j)) * root n (w * k) =
          x j * root n (((k : ℤ) - j) * w) := by
        intro w _
        rw [mul_assoc, ← root_add]
        congr 2
        ring
      rw [Finset.sum_congr rfl this, ← Finset.mul_sum, sum_root hn, if_neg, mul_zero]
      rintro ⟨q, hq⟩
      have hj := Finset.mem_range.1 hj
      have h1 : |(n : ℤ) * q| < n := by rw [← hq, abs_lt]; omega
      rw [abs_mul, Nat.abs_cast] at h1
      have : |q| < 1 := by
        by_contra hc
        have : (n : ℤ) * 1 ≤ n * |q| := mul_le_mul_of_nonneg_left (not_lt.1 hc) (by omega)
        omega
      have hq0 : q = 0 := by rwa [Int.abs_lt_one_iff] at this
      rw [hq0] at hq
      omega
    · intro h; exact absurd (Finset.mem_range.2 hk) h
  rw [this, Complex.ofReal_re]
  field_simp

/-- Circular convolution. -/
def conv (n : ℕ) (s p : ℕ → ℝ) (k : ℕ) : ℝ := ∑ j ∈ Finset.range n, s ((k + (n - j)) % n) * p j

theorem sum_shift {n : ℕ} (hn : 0 < n) (f : ℕ → ℂ) (j : ℕ) (hj : j < n) :
    ∑ k ∈ Finset.range n, f ((k + (n - j)) % n) = ∑ k ∈ Finset.range n, f k := by
  refine Finset.sum_nbij' (fun k => (k + (n - j)) % n) (fun k => (k + j) % n) ?_ ?_ ?_ ?_ ?_
  · intro a _; exact Finset.mem_range.2 (Nat.mod_lt _ hn)
  · intro a _; exact Finset.mem_range.2 (Nat.mod_lt _ hn)
  · intro a ha
    have ha := Finset.mem_range.1 ha
    show ((a + (n - j)) % n + j) % n = a
    rw [Nat.mod_add_mod, show a + (n - j) + j = a + n by omega, Nat.add_mod_right, Nat.mod_eq_of_lt ha]
  · intro a ha
    have ha := Finset.mem_range.1 ha
    show ((a + j) % n + (n - j)) % n = a
    rw [Nat.mod_add_mod, show a + j + (n - j) = a + n by omega, Nat.add_mod_right, Nat.mod_eq_of_lt ha]
  · intro a _; rfl

/-- Convolution theorem. -/
theorem rfft_conv {n : ℕ} (hn : 0 < n) (s p : ℕ → ℝ) (w : ℕ) :
    rfft n n (conv n s p) w = rfft n n s w * rfft n n p w := by
  simp only [rfft_eq, conv]
  push_cast
  simp only [Finset.sum_mul]
  rw [Finset.sum_comm]
  rw [← Finset.sum_mul, Finset.mul_sum]
  refine Finset.sum_congr rfl fun j hj => ?_
  have hj := Finset.mem_range.1 hj
  have : ∀ k ∈ Finset.range n, (s ((k + (n - j)) % n) : ℂ) * p j * root n (-(w * k)) =
      (fun i : ℕ => (s i : ℂ) * root n (-(w * i))) ((k + (n - j)) % n) * (p j * root n (-(w * j))) := by
    intro k _
    have : root n (-(w * k)) = root n (-(w * ((k + (n - j)) % n : ℕ))) * root n (-(w * j)) := by
      rw [← root_add]
      apply root_periodic hn
      have h := Nat.mod_add_div (k + (n - j)) n
      have h' : (((k + (n - j)) % n : ℕ) : ℤ) = k + n - j - n * ((k + (n - j)) / n : ℕ) := by
        have : (((k + (n - j)) % n + n * ((k + (n - j)) / n) : ℕ) : ℤ) = k + (n - j) := by
          rw [h]; push_cast [Nat.cast_sub hj.le]; ring
        push_cast at this ⊢
        linarith
      rw [h']
      refine ⟨w * (1 - ((k + (n - j)) / n : ℕ)), ?_⟩
      ring
    rw [this]
    ring
  rw [Finset.sum_congr rfl this, ← Finset.sum_mul, sum_shift hn (fun i : ℕ => (s i : ℂ) * root n (-(w * i))) j hj]

theorem irfft_mul {n : ℕ} (hn : 0 < n) (s p : ℕ → ℝ) {k : ℕ} (hk : k < n) :
    irfft n (fun w => rfft n n s w * rfft n n p w) k = conv n s p k := by
  have : (fun w => rfft n n s w * rfft n n p w) = rfft n n (conv n s p) := by
    funext w; rw [rfft_conv hn]
  rw [this, irfft_rfft hn _ hk]

theorem rfft_linear (n : ℕ) (x y : ℕ → ℝ) (a b : ℝ) (k : ℕ) :
    rfft n n (fun i => a * x i + b * y i) k = a * rfft n n x k + b * rfft n n y k := by
  rw [rfft_eq, rfft_eq, rfft_eq, Finset.mul_sum, Finset.mul_sum, ← Finset.sum_add_distrib]
  refine Finset.sum_congr rfl fun j _ => ?_
  push_cast
  ring

theorem irfft_linear (n : ℕ) (X Y : ℕ → ℂ) (a b : ℝ) (k : ℕ) :
    irfft n (fun w => a * X w + b * Y w) k = a * irfft n X k + b * irfft n Y k := by
  have hr : ∀ z w r : ℂ, (((a : ℂ) * z + b * w) * r).re = a * (z * r).re + b * (w * r).re := by
    intro z w r
    rw [add_mul, mul_assoc, mul_assoc, Complex.add_re, Complex.re_ofReal_mul, Complex.re_ofReal_mul]
  unfold irfft
  have h0 : ((a : ℂ) * X 0 + b * Y 0).re = a * (X 0).re + b * (Y 0).re := by
    rw [Complex.add_re, Complex.re_ofReal_mul, Complex.re_ofReal_mul]
  rw [h0, ← mul_div_assoc, ← mul_div_assoc, ← add_div, mul_add, mul_add, Finset.mul_sum, Finset.mul_sum]
  congr 1
  rw [add_add_add_comm, ← Finset.sum_add_distrib]
  congr 1
  refine Finset.sum_congr rfl fun j _ => ?_
  rw [hr]
  split_ifs <;> ring

end PKM.Fft
