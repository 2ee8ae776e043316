import Verif.MomentDerived
import Mathlib.Tactic.Linarith
import Mathlib.Tactic.FieldSimp
import Mathlib.Tactic.Positivity

/-! Lemmas: inequalities between moments, and expectations as positive linear functionals. -/

open scoped Classical

noncomputable section

namespace PKM

/-- Expectation given `b` at `c`, as a real number. -/
def Ex (g : Grid) (P : Cell → ℝ) (b : PyStr) (c : Cell) (φ : Cell → ℝ) : ℝ :=
  g.marg (fun d => φ d * P d) b c / g.condWt P b c

variable {g : Grid} {P : Cell → ℝ} {b : PyStr} {c : Cell}

theorem expect_eq (φ : Cell → ℝ) :
    g.expect P φ b c = if g.condWt P b c = 0 then .nan else .fin (Ex g P b c φ) := rfl

theorem mean_eq (q : Char) : g.mean P q b c = Ex g P b c (g.value q) := rfl

theorem marg_congr {φ ψ : Cell → ℝ} (h : ∀ d, g.Has d → coords b d = coords b c → φ d = ψ d) :
    g.marg φ b c = g.marg ψ b c := by
  unfold Grid.marg Grid.sumCells
  refine Finset.sum_congr rfl fun t _ => Finset.sum_congr rfl fun v _ => Finset.sum_congr rfl
    fun x _ => Finset.sum_congr rfl fun y _ => Finset.sum_congr rfl fun z _ => ?_
  beta_reduce
  split_ifs with e
  · exact h _ ⟨t.2, v.2, x.2, y.2, z.2⟩ e
  · rfl

theorem marg_add (φ ψ : Cell → ℝ) : g.marg (fun d => φ d + ψ d) b c = g.marg φ b c + g.marg ψ b c := by
  unfold Grid.marg Grid.sumCells
  simp only [← Finset.sum_add_distrib]
  refine Finset.sum_congr rfl fun t _ => Finset.sum_congr rfl fun v _ => Finset.sum_congr rfl
    fun x _ => Finset.sum_congr rfl fun y _ => Finset.sum_congr rfl fun z _ => ?_
  split_ifs <;> simp

theorem marg_smul (k : ℝ) (φ : Cell → ℝ) : g.marg (fun d => k * φ d) b c = k * g.marg φ b c := by
  unfold Grid.marg Grid.sumCells
  simp only [Finset.mul_sum]
  refine Finset.sum_congr rfl fun t _ => Finset.sum_congr rfl fun v _ => Finset.sum_congr rfl
    fun x _ => Finset.sum_congr rfl fun y _ => Finset.sum_congr rfl fun z _ => ?_
  split_ifs <;> simp

theorem marg_nil (φ : Cell → ℝ) : g.marg φ [] c = g.sumCells φ := by
  simp [Grid.marg, coords]

theorem Ex_congr {φ ψ : Cell → ℝ} (h : ∀ d, g.Has d → coords b d = coords b c → φ d = ψ d) :
    Ex g P b c φ = Ex g P b c ψ := by
  unfold Ex
  rw [marg_congr fun d hd e => by rw [h d hd e]]

theorem Ex_add (φ ψ : Cell → ℝ) :
    Ex g P b c (fun d => φ d + ψ d) = Ex g P b c φ + Ex g P b c ψ := by
  unfold Ex
  simp only [add_mul, marg_add, add_div]

theorem Ex_smul (k : ℝ) (φ : Cell → ℝ) : Ex g P b c (fun d => k * φ d) = k * Ex g P b c φ := by
  unfold Ex
  simp only [mul_assoc, marg_smul, mul_div_assoc]

theorem condWt_nonneg (hP : ∀ d, g.Has d → 0 ≤ P d) : 0 ≤ g.condWt P b c := by
  unfold Grid.condWt; split
  · norm_num
  · exact marg_nonneg hP b c

theorem Ex_nonneg (hP : ∀ d, g.Has d → 0 ≤ P d) {φ : Cell → ℝ} (hφ : ∀ d, g.Has d → 0 ≤ φ d) :
    0 ≤ Ex g P b c φ :=
  div_nonneg (marg_nonneg (fun d hd => mul_nonneg (hφ d hd) (hP d hd)) b c) (condWt_nonneg hP)

/-- The total weight is one: always for conditionals, by normalisation for marginals. -/
theorem Ex_one (h0 : g.condWt P b c ≠ 0) (hN : b = [] → g.sumCells P = 1) :
    Ex g P b c (fun _ => 1) = 1 := by
  unfold Ex
  simp only [one_mul]
  by_cases hb : b = []
  · subst hb
    rw [marg_nil, hN rfl]; simp [Grid.condWt]
  · simp only [Grid.condWt, hb, if_false] at h0 ⊢
    exact div_self h0

/-- A positive linear functional with total mass one. -/
structure Pos {Ω : Type} (E : (Ω → ℝ) → ℝ) : Prop where
  add : ∀ φ ψ, E (fun d => φ d + ψ d) = E φ + E ψ
  smul : ∀ k φ, E (fun d => k * φ d) = k * E φ
  nonneg : ∀ φ, (∀ d, 0 ≤ φ d) → 0 ≤ E φ
  one : E (fun _ => 1) = 1

theorem pos_Ex (hP : ∀ d, g.Has d → 0 ≤ P d) (h0 : g.condWt P b c ≠ 0) (hN : b = [] → g.sumCells P = 1) :
    Pos (Ex g P b c) :=
  ⟨Ex_add, Ex_smul, fun _ h => Ex_nonneg hP fun d _ => h d, Ex_one h0 hN⟩

variable {Ω : Type} {E : (Ω → ℝ) → ℝ}

namespace Pos

theorem const (h : Pos E) (k : ℝ) : E (fun _ => k) = k := by
  have := h.smul k (fun _ => 1)
  simpa [h.one] using this

theorem sub (h : Pos E) (φ ψ : Ω → ℝ) : E (fun d => φ d - ψ d) = E φ - E ψ := by
  have h1 := h.add φ (fun d => (-1) * ψ d)
  rw [h.smul] at h1
  have e : (fun d => φ d - ψ d) = fun d => φ d + (-1) * ψ d := by funext d; ring
  rw [e, h1]; ring

/-- Covariance formula. -/
theorem cov (h : Pos E) (X Y : Ω → ℝ) :
    E (fun d => (X d - E X) * (Y d - E Y)) = E (fun d => X d * Y d) - E X * E Y := by
  have e : (fun d => (X d - E X) * (Y d - E Y)) = fun d => (X d * Y d + (-(E Y)) * X d) +
      ((-(E X)) * Y d + (E X * E Y)) := by funext d; ring
  rw [e, h.add, h.add, h.add, h.smul, h.smul, h.const]; ring

theorem centred (h : Pos E) (X : Ω → ℝ) : E (fun d => X d - E X) = 0 := by
  rw [h.sub, h.const, sub_self]

/-- Cauchy–Schwarz. -/
theorem cauchy (h : Pos E) (X Y : Ω → ℝ) :
    (E (fun d => X d * Y d)) ^ 2 ≤ E (fun d => X d ^ 2) * E (fun d => Y d ^ 2) := by
  have key : ∀ s t : ℝ, 0 ≤ s ^ 2 * E (fun d => X d ^ 2) + 2 * s * t * E (fun d => X d * Y d) +
      t ^ 2 * E (fun d => Y d ^ 2) := by
    intro s t
    have h1 := h.nonneg (fun d => (s * X d + t * Y d) ^ 2) (fun d => sq_nonneg _)
    have e : (fun d => (s * X d + t * Y d) ^ 2) = fun d => (s ^ 2 * X d ^ 2 + (2 * s * t) * (X d * Y d)) +
        t ^ 2 * Y d ^ 2 := by funext d; ring
    rw [e, h.add, h.add, h.smul, h.smul, h.smul] at h1
    exact h1
  have hA : 0 ≤ E (fun d => X d ^ 2) := h.nonneg _ fun d => sq_nonneg _
  have hB : 0 ≤ E (fun d => Y d ^ 2) := h.nonneg _ fun d => sq_nonneg _
  generalize E (fun d => X d ^ 2) = A at *
  generalize E (fun d => Y d ^ 2) = B at *
  generalize E (fun d => X d * Y d) = C at *
  rcases hB.eq_or_lt with hB | hB
  · subst hB
    by_contra hne
    have hC : 0 < C ^ 2 := by linarith
    have hC0 : C ≠ 0 := fun e => by simp [e] at hC
    have k := key 1 (-(A + 1) / (2 * C))
    have : 2 * 1 * (-(A + 1) / (2 * C)) * C = -(A + 1) := by field_simp
    rw [this] at k; linarith
  · have k := key B (-C)
    have : 0 ≤ B * (A * B - C ^ 2) := by nlinarith
    have := nonneg_of_mul_nonneg_right this hB
    linarith

/-- Pearson's inequality between skewness and kurtosis. -/
theorem pearson (h : Pos E) (Y : Ω → ℝ) (hY : E Y = 0) (hv : 0 < E (fun d => Y d ^ 2)) :
    1 + (E (fun d => Y d ^ 3) / Real.sqrt (E (fun d => Y d ^ 2)) ^ 3) ^ 2 ≤
      E (fun d => Y d ^ 4) / Real.sqrt (E (fun d => Y d ^ 2)) ^ 4 := by
  have key : ∀ a : ℝ, 0 ≤ E (fun d => Y d ^ 4) - 2 * a * E (fun d => Y d ^ 3) +
      a ^ 2 * E (fun d => Y d ^ 2) - E (fun d => Y d ^ 2) ^ 2 := by
    intro a
    set m := E (fun d => Y d ^ 2) with hm
    have h1 := h.nonneg (fun d => (Y d ^ 2 - a * Y d - m) ^ 2) (fun d => sq_nonneg _)
    have e : (fun d => (Y d ^ 2 - a * Y d - m) ^ 2) = fun d => (Y d ^ 4 + (-2 * a) * Y d ^ 3) +
        ((a ^ 2 - 2 * m) * Y d ^ 2 + ((2 * a * m) * Y d + m ^ 2)) := by funext d; ring
    rw [e, h.add, h.add, h.add, h.add, h.smul, h.smul, h.smul, h.const, hY, ← hm] at h1
    nlinarith
  have hs := Real.sq_sqrt hv.le
  have hp := Real.sqrt_pos.2 hv
  generalize hr : Real.sqrt (E (fun d => Y d ^ 2)) = r at *
  generalize E (fun d => Y d ^ 2) = m at *
  generalize E (fun d => Y d ^ 3) = m3 at *
  generalize E (fun d => Y d ^ 4) = m4 at *
  subst hs
  have k := key (m3 / r ^ 2)
  have e1 : 2 * (m3 / r ^ 2) * m3 = 2 * (m3 ^ 2 / r ^ 2) := by ring
  have e2 : (m3 / r ^ 2) ^ 2 * r ^ 2 = m3 ^ 2 / r ^ 2 := by field_simp
  rw [e1, e2] at k
  rw [le_div_iff₀ (by positivity)]
  have e3 : (1 + (m3 / r ^ 3) ^ 2) * r ^ 4 = r ^ 4 + m3 ^ 2 / r ^ 2 := by field_simp
  rw [e3]
  nlinarith

end Pos
end PKM
