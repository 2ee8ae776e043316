import Verif.Metal
import Verif.Beta
import Verif.Setup

/-! Lemmas for C86: beta distributions with greater mean parameter lie further right. -/

open scoped Classical
open MeasureTheory ProbabilityTheory Set

noncomputable section

namespace PKM
open Np Component

theorem beta_interval {a b : ℝ} (ha : 0 < a) (hb : 0 < b) {x y : ℝ} (h : x ≤ y) :
    (betaMeasure a b).real (Ioc x y) = ∫ u in x..y, betaPDFReal a b u := by
  rw [betaMeasure_real ha hb measurableSet_Ioc, intervalIntegral.integral_of_le h]

/-- The ratio of the densities grows. -/
theorem betaPDF_cross {a b a' b' : ℝ} (ha : 0 < a) (hb : 0 < b) (ha' : 0 < a') (hb' : 0 < b') (h1 : a ≤ a') (h2 : b' ≤ b)
    (hne : a < a' ∨ b' < b) {u w : ℝ} (hu : 0 < u) (h : u < w) (hw : w < 1) :
    betaPDFReal a' b' u * betaPDFReal a b w < betaPDFReal a' b' w * betaPDFReal a b u := by
  have hw0 : 0 < w := hu.trans h
  have hu1 : u < 1 := h.trans hw
  have e1 : ∀ c d x : ℝ, 0 < x → x ^ (c - 1) = x ^ (d - 1) * x ^ (c - d) := fun c d x hx => by
    rw [← Real.rpow_add hx]; congr 1; ring
  simp only [betaPDFReal]
  rw [if_pos ⟨hu, hu1⟩, if_pos ⟨hw0, hw⟩, if_pos ⟨hw0, hw⟩, if_pos ⟨hu, hu1⟩]
  have p1 : 0 < 1 / beta a b := one_div_pos.2 (beta_pos ha hb)
  have p2 : 0 < 1 / beta a' b' := one_div_pos.2 (beta_pos ha' hb')
  have q1 : 0 < 1 - u := by linarith
  have q2 : 0 < 1 - w := by linarith
  rw [e1 a' a u hu, e1 a' a w hw0, e1 b b' _ q1, e1 b b' _ q2]
  have key : u ^ (a' - a) * (1 - w) ^ (b - b') < w ^ (a' - a) * (1 - u) ^ (b - b') := by
    have l1 : u ^ (a' - a) ≤ w ^ (a' - a) := Real.rpow_le_rpow hu.le h.le (by linarith)
    have l2 : (1 - w) ^ (b - b') ≤ (1 - u) ^ (b - b') := Real.rpow_le_rpow q2.le (by linarith) (by linarith)
    have r1 := Real.rpow_pos_of_pos hu (a' - a)
    have r2 := Real.rpow_pos_of_pos q2 (b - b')
    rcases hne with hne | hne
    · have l3 : u ^ (a' - a) < w ^ (a' - a) := Real.rpow_lt_rpow hu.le h (by linarith)
      exact mul_lt_mul l3 l2 r2 (by linarith)
    · have l3 : (1 - w) ^ (b - b') < (1 - u) ^ (b - b') := Real.rpow_lt_rpow q2.le (by linarith) (by linarith)
      exact mul_lt_mul' l1 l3 r2.le (by linarith)
  have P : 0 < 1 / beta a b * (1 / beta a' b') * (u ^ (a - 1) * w ^ (a - 1)) * ((1 - u) ^ (b' - 1) * (1 - w) ^ (b' - 1)) := by
    have := Real.rpow_pos_of_pos hu (a - 1)
    have := Real.rpow_pos_of_pos hw0 (a - 1)
    have := Real.rpow_pos_of_pos q1 (b' - 1)
    have := Real.rpow_pos_of_pos q2 (b' - 1)
    positivity
  have := mul_lt_mul_of_pos_left key P
  calc _ = 1 / beta a b * (1 / beta a' b') * (u ^ (a - 1) * w ^ (a - 1)) * ((1 - u) ^ (b' - 1) * (1 - w) ^ (b' - 1)) *
        (u ^ (a' - a) * (1 - w) ^ (b - b')) := by ring
    _ < _ := this
    _ = _ := by ring

theorem beta_cross {a b a' b' : ℝ} (ha : 0 < a) (hb : 0 < b) (ha' : 0 < a') (hb' : 0 < b') (h1 : a ≤ a') (h2 : b' ≤ b)
    (hne : a < a' ∨ b' < b) {i j k l : ℝ} (hi : 0 ≤ i) (hij : i < j) (hjk : j ≤ k) (hkl : k < l) (hl : l ≤ 1) :
    (betaMeasure a' b').real (Ioc i j) * (betaMeasure a b).real (Ioc k l) <
      (betaMeasure a' b').real (Ioc k l) * (betaMeasure a b).real (Ioc i j) := by
  have hj0 : 0 < j := hi.trans_lt hij
  have hj1 : j < 1 := (hjk.trans_lt hkl).trans_le hl
  have fj := betaPDFReal_pos hj0 hj1 ha hb
  set c := betaPDFReal a' b' j / betaPDFReal a b j with hc
  have cross : ∀ {u w}, 0 < u → u < w → w < 1 →
      betaPDFReal a' b' u * betaPDFReal a b w < betaPDFReal a' b' w * betaPDFReal a b u :=
    fun hu h hw => betaPDF_cross ha hb ha' hb' h1 h2 hne hu h hw
  have i1 : ∀ x y, IntervalIntegrable (betaPDFReal a b) volume x y := fun x y => (integrable_betaPDFReal ha hb).intervalIntegrable
  have i2 : ∀ x y, IntervalIntegrable (betaPDFReal a' b') volume x y := fun x y => (integrable_betaPDFReal ha' hb').intervalIntegrable
  have l1 : (betaMeasure a' b').real (Ioc i j) < c * (betaMeasure a b).real (Ioc i j) := by
    rw [beta_interval ha hb hij.le, beta_interval ha' hb' hij.le, ← intervalIntegral.integral_const_mul, ← sub_pos,
      ← intervalIntegral.integral_sub ((i1 i j).const_mul c) (i2 i j)]
    refine intervalIntegral.intervalIntegral_pos_of_pos_on (((i1 i j).const_mul c).sub (i2 i j)) (fun x hx => ?_) hij
    rw [sub_pos, hc, div_mul_eq_mul_div, lt_div_iff₀ fj]
    exact cross (hi.trans_lt hx.1) hx.2 hj1
  have l2 : c * (betaMeasure a b).real (Ioc k l) < (betaMeasure a' b').real (Ioc k l) := by
    rw [beta_interval ha hb hkl.le, beta_interval ha' hb' hkl.le, ← intervalIntegral.integral_const_mul, ← sub_pos,
      ← intervalIntegral.integral_sub (i2 k l) ((i1 k l).const_mul c)]
    refine intervalIntegral.intervalIntegral_pos_of_pos_on ((i2 k l).sub ((i1 k l).const_mul c)) (fun x hx => ?_) hkl
    rw [sub_pos, hc, div_mul_eq_mul_div, div_lt_iff₀ fj]
    exact cross hj0 (hjk.trans_lt hx.1) (hx.2.trans_le hl)
  have p1 : 0 < (betaMeasure a b).real (Ioc i j) := by
    rw [beta_Ioc ha hb hij.le]; exact sub_pos.2 (betaCdf_strict ha hb hi hj1.le hij)
  have p2 : 0 < (betaMeasure a b).real (Ioc k l) := by
    rw [beta_Ioc ha hb hkl.le]; exact sub_pos.2 (betaCdf_strict ha hb (hj0.le.trans hjk) hl hkl)
  nlinarith

/-- The distribution function is smaller. -/
theorem betaCdf_cross {a b a' b' : ℝ} (ha : 0 < a) (hb : 0 < b) (ha' : 0 < a') (hb' : 0 < b') (h1 : a ≤ a') (h2 : b' ≤ b)
    (hne : a < a' ∨ b' < b) {x : ℝ} (h0 : 0 < x) (hx : x < 1) : betaCdf a' b' x < betaCdf a b x := by
  have := beta_cross ha hb ha' hb' h1 h2 hne le_rfl h0 le_rfl hx le_rfl
  rw [beta_Ioc ha hb h0.le, beta_Ioc ha hb hx.le, beta_Ioc ha' hb' h0.le, beta_Ioc ha' hb' hx.le, betaCdf_zero ha hb,
    betaCdf_zero ha' hb', betaCdf_one ha hb, betaCdf_one ha' hb'] at this
  linarith

/-- The quantiles are greater. -/
theorem betaPpf_cross {a b a' b' : ℝ} (ha : 0 < a) (hb : 0 < b) (ha' : 0 < a') (hb' : 0 < b') (h1 : a ≤ a') (h2 : b' ≤ b)
    {q : ℝ} (h0 : 0 ≤ q) (hq : q ≤ 1) :
    betaPpf a b q ≤ betaPpf a' b' q ∧ ((a < a' ∨ b' < b) → 0 < q → q < 1 → betaPpf a b q < betaPpf a' b' q) := by
  obtain ⟨s1, s2, s3⟩ := betaPpf_spec ha hb h0 hq
  obtain ⟨s1', s2', s3'⟩ := betaPpf_spec ha' hb' h0 hq
  have strict : (a < a' ∨ b' < b) → 0 < q → q < 1 → betaPpf a b q < betaPpf a' b' q := fun hne q0 q1 => by
    by_contra hcon
    push Not at hcon
    have x0 : 0 < betaPpf a' b' q := s1'.lt_of_ne fun e => by rw [← e, betaCdf_zero ha' hb'] at s3'; linarith
    have x1 : betaPpf a b q < 1 := s2.lt_of_ne fun e => by rw [e, betaCdf_one ha hb] at s3; linarith
    have := betaCdf_cross ha hb ha' hb' h1 h2 hne x0 (hcon.trans_lt x1)
    have := betaCdf_mono ha hb hcon
    linarith
  refine ⟨?_, strict⟩
  by_cases hne : a < a' ∨ b' < b
  · rcases h0.eq_or_lt with rfl | q0
    · have : betaPpf a b 0 = 0 := by
        by_contra hcon
        have := betaCdf_strict ha hb le_rfl s2 (s1.lt_of_ne (Ne.symm hcon))
        rw [betaCdf_zero ha hb] at this
        linarith
      rw [this]; exact s1'
    · rcases hq.lt_or_eq with q1 | rfl
      · exact (strict hne q0 q1).le
      · have : betaPpf a' b' 1 = 1 := by
          by_contra hcon
          have := betaCdf_strict ha' hb' s1' le_rfl (s2'.lt_of_ne hcon)
          rw [betaCdf_one ha' hb'] at this
          linarith
        rw [this]; exact s2
  · push Not at hne
    rw [le_antisymm h1 hne.1, le_antisymm h2 hne.2]

end PKM
