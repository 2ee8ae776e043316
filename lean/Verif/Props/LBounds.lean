import Verif.Props.LMoments
import Verif.Props.ParamDerived
import Verif.Props.PopDerived

/-!
# C114: what the L-dispersion measures, and bounds of L-moments

The L-dispersion is half the mean distance of two stars drawn one after the other: stars of different bins are as far apart as the centres of
their bins, stars of the same bin count as one bin width apart. So it is positive, at most half the range of the grid, and it is limited by the dispersion.
L-moments of any order are no greater than the greatest edge.
-/

open scoped Classical

noncomputable section

namespace PKM
open Np Component

variable {cube : IFUCube} {stored : Arr Num} {g : Grid} {ρ : Cell → ℝ} {L : ℕ → ℕ → ℝ} {lw : Bool} {n : ℕ} {e p : ℕ → ℝ}

/-! ### Specification -/

/-- Distance of a star in bin `i` from one in bin `j`: that of the bin centres, or the bin width if it is the same bin. -/
def binDistance (e : ℕ → ℝ) (i j : ℕ) : ℝ := if i = j then width e i else |centre e i - centre e j|

/-- Mean distance of two stars, drawn independently from `n` bins with probabilities `p`. -/
def meanDistance (n : ℕ) (e p : ℕ → ℝ) : ℝ := ∑ i ∈ Finset.range n, ∑ j ∈ Finset.range n, p i * p j * binDistance e i j

/-- Variance of the bin centres, with probabilities `p`. -/
def binVariance (n : ℕ) (e p : ℕ → ℝ) : ℝ :=
  ∑ i ∈ Finset.range n, centre e i ^ 2 * p i - (∑ i ∈ Finset.range n, centre e i * p i) ^ 2

/-- `x` is an L-dispersion of `n` bins with edges `e` and probabilities `p`. -/
structure LDispersionIs (n : ℕ) (e p : ℕ → ℝ) (x : ℝ) : Prop where
  distance : x = meanDistance n e p / 2
  pos : 0 < x
  range : x ≤ (e n - e 0) / 2
  /-- `w` is the width of the widest bin, or more -/
  dispersion : ∀ w, (∀ i < n, width e i ≤ w) → x ≤ Real.sqrt (binVariance n e p / 2) + w / 2

/-! ### Lemmas -/

/-- Legendre polynomials lie between -1 and 1 there. -/
theorem legendreP_le {x : ℝ} (hx : |x| ≤ 1) (m : ℕ) : |legendreP m x| ≤ 1 := by
  have hx2 : x ^ 2 ≤ 1 := by rw [← sq_abs]; nlinarith [abs_nonneg x]
  have recur : ∀ m, legendreP (m + 2) x - x * legendreP (m + 1) x = (m + 1) / (m + 2) * (x * legendreP (m + 1) x - legendreP m x) := by
    intro m
    have : (m : ℝ) + 2 ≠ 0 := by positivity
    simp only [legendreP]
    field_simp
    ring
  have key : ∀ m, (legendreP (m + 1) x - x * legendreP m x) ^ 2 + (1 - x ^ 2) * legendreP m x ^ 2 ≤ 1 - x ^ 2 := by
    intro m
    induction m with
    | zero => simp [legendreP]
    | succ m ih =>
      rw [recur m, mul_pow]
      have h1 : (((m : ℝ) + 1) / (m + 2)) ^ 2 ≤ 1 := by
        have : (m : ℝ) + 2 ≠ 0 := by positivity
        rw [div_pow, div_le_one (by positivity)]
        have : (0 : ℝ) ≤ m := Nat.cast_nonneg m
        nlinarith
      have h2 := mul_le_mul_of_nonneg_right h1 (sq_nonneg (x * legendreP (m + 1) x - legendreP m x))
      nlinarith
  rcases hx2.lt_or_eq with h | h
  · have := key m
    have h3 : legendreP m x ^ 2 ≤ 1 := by
      by_contra hc
      have := mul_lt_mul_of_pos_left (not_le.1 hc) (sub_pos.2 h)
      nlinarith [sq_nonneg (legendreP (m + 1) x - x * legendreP m x)]
    exact (sq_le_one_iff_abs_le_one _).1 h3
  · have step : ∀ m, legendreP (m + 1) x = x * legendreP m x := fun m => by
      have := key m
      rw [h] at this
      have : (legendreP (m + 1) x - x * legendreP m x) ^ 2 = 0 := by nlinarith [sq_nonneg (legendreP (m + 1) x - x * legendreP m x)]
      linarith [pow_eq_zero_iff (two_ne_zero) |>.1 this]
    induction m with
    | zero => simp [legendreP]
    | succ m ih => rw [step, abs_mul]; exact mul_le_one₀ hx (abs_nonneg _) ih

theorem lmoment_le (hp : ∀ i < n, 0 ≤ p i) (h1 : cdf p n = 1) {M : ℝ} (hM : ∀ i ≤ n, |e i| ≤ M) (j : ℕ) : |lmoment n e p j| ≤ M := by
  have mono : ∀ i ≤ n, 0 ≤ cdf p i ∧ cdf p i ≤ 1 := fun i hi => by
    refine ⟨Finset.sum_nonneg fun k hk => hp k ?_, ?_⟩
    · have := Finset.mem_range.1 hk; omega
    · rw [← h1]
      exact Finset.sum_le_sum_of_subset_of_nonneg (Finset.range_mono hi) fun k hk _ => hp k (Finset.mem_range.1 hk)
  have hP : ∀ i ≤ n, |e i * legendreP (j - 1) (2 * cdf p i - 1)| ≤ M := fun i hi => by
    have := legendreP_le (x := 2 * cdf p i - 1) (abs_le.2 ⟨by linarith [(mono i hi).1], by linarith [(mono i hi).2]⟩) (j - 1)
    rw [abs_mul]
    calc _ ≤ |e i| * 1 := mul_le_mul_of_nonneg_left this (abs_nonneg _)
      _ ≤ M := by rw [mul_one]; exact hM i hi
  unfold lmoment
  refine (Finset.abs_sum_le_sum_abs _ _).trans ?_
  calc _ ≤ ∑ i ∈ Finset.range n, M * p i := by
        refine Finset.sum_le_sum fun i hi => ?_
        have hi := Finset.mem_range.1 hi
        rw [abs_mul, abs_of_nonneg (hp i hi)]
        refine mul_le_mul_of_nonneg_right ?_ (hp i hi)
        have a := abs_le.1 (hP i hi.le)
        have b := abs_le.1 (hP (i + 1) hi)
        exact abs_le.2 ⟨by linarith [a.1, b.1], by linarith [a.2, b.2]⟩
    _ = M := by rw [← Finset.mul_sum, show ∑ i ∈ Finset.range n, p i = 1 from h1, mul_one]

theorem meanDistance_succ (he : ∀ i < n + 1, e i < e (i + 1)) : meanDistance (n + 1) e p =
    meanDistance n e p + 2 * p n * (centre e n * cdf p n - ∑ i ∈ Finset.range n, centre e i * p i) + p n ^ 2 * width e n := by
  unfold meanDistance
  rw [Finset.sum_range_succ, Finset.sum_range_succ]
  have a : ∀ i ∈ Finset.range n, ∑ j ∈ Finset.range (n + 1), p i * p j * binDistance e i j =
      ∑ j ∈ Finset.range n, p i * p j * binDistance e i j + p n * (centre e n * p i - centre e i * p i) := by
    intro i hi
    have hi := Finset.mem_range.1 hi
    rw [Finset.sum_range_succ]
    unfold binDistance
    rw [if_neg hi.ne, abs_sub_comm, abs_of_nonneg (sub_nonneg.2 (centres_mono he hi.le (by omega)))]
    ring
  have b : ∀ i ∈ Finset.range n, p n * p i * binDistance e n i = p n * (centre e n * p i - centre e i * p i) := by
    intro i hi
    have hi := Finset.mem_range.1 hi
    unfold binDistance
    rw [if_neg hi.ne', abs_of_nonneg (sub_nonneg.2 (centres_mono he hi.le (by omega)))]
    ring
  rw [Finset.sum_congr rfl a, Finset.sum_congr rfl b, Finset.sum_add_distrib]
  have d : binDistance e n n = width e n := by simp [binDistance]
  rw [d, ← Finset.mul_sum, Finset.sum_sub_distrib, ← Finset.mul_sum]
  unfold cdf
  ring

theorem lmoment_distance (he : ∀ i < n, e i < e (i + 1)) :
    lmoment n e p 2 = meanDistance n e p / 2 + (cdf p n - 1) * ∑ i ∈ Finset.range n, centre e i * p i := by
  induction n with
  | zero => simp [lmoment, meanDistance]
  | succ n ih =>
    have hs : lmoment (n + 1) e p 2 = lmoment n e p 2 + (e n * (2 * cdf p n - 1) + e (n + 1) * (2 * cdf p (n + 1) - 1)) / 2 * p n := by
      simp only [lmoment, Finset.sum_range_succ]; rfl
    rw [hs, ih fun i hi => he i (by omega), meanDistance_succ he, cdf_succ, Finset.sum_range_succ]
    unfold centre width
    ring

/-- The square of a mean is at most the mean of the squares. -/
theorem sq_mean_le {ι : Type} (S : Finset ι) (w f : ι → ℝ) (hw : ∀ i ∈ S, 0 ≤ w i) (h1 : ∑ i ∈ S, w i = 1) :
    (∑ i ∈ S, w i * f i) ^ 2 ≤ ∑ i ∈ S, w i * f i ^ 2 := by
  have h : 0 ≤ ∑ i ∈ S, w i * (f i - ∑ i ∈ S, w i * f i) ^ 2 := Finset.sum_nonneg fun i hi => mul_nonneg (hw i hi) (sq_nonneg _)
  have e : ∑ i ∈ S, w i * (f i - ∑ i ∈ S, w i * f i) ^ 2 =
      ∑ i ∈ S, w i * f i ^ 2 - 2 * (∑ i ∈ S, w i * f i) * ∑ i ∈ S, w i * f i + (∑ i ∈ S, w i * f i) ^ 2 * ∑ i ∈ S, w i := by
    rw [Finset.mul_sum S (fun i => w i * f i) (2 * _), Finset.mul_sum S w, ← Finset.sum_sub_distrib, ← Finset.sum_add_distrib]
    exact Finset.sum_congr rfl fun i _ => by ring
  rw [e, h1] at h
  nlinarith

theorem lDispersionIs (he : ∀ i < n, e i < e (i + 1)) (hp : ∀ i < n, 0 ≤ p i) (h1 : cdf p n = 1) : LDispersionIs n e p (lmoment n e p 2) := by
  have hd : lmoment n e p 2 = meanDistance n e p / 2 := by rw [lmoment_distance he, h1]; ring
  have hs : ∑ i ∈ Finset.range n, p i = 1 := h1
  have mono : ∀ i j, i ≤ j → j ≤ n → e i ≤ e j := by
    intro i j hij
    induction j, hij using Nat.le_induction with
    | base => intro _; exact le_rfl
    | succ j _ ih => intro hj; exact (ih (by omega)).trans (he j hj).le
  have dpos : ∀ i < n, ∀ j < n, 0 ≤ binDistance e i j := fun i hi j hj => by
    unfold binDistance width
    split
    · linarith [he i hi]
    · exact abs_nonneg _
  have pair : ∑ i ∈ Finset.range n, ∑ j ∈ Finset.range n, p i * p j = 1 := by
    rw [← Finset.sum_mul_sum, hs, one_mul]
  have hpp : ∀ i ∈ Finset.range n, ∀ j ∈ Finset.range n, 0 ≤ p i * p j :=
    fun i hi j hj => mul_nonneg (hp i (Finset.mem_range.1 hi)) (hp j (Finset.mem_range.1 hj))
  refine ⟨hd, ?_, ?_, ?_⟩
  · obtain ⟨i, hi, h⟩ : ∃ i ∈ Finset.range n, 0 < p i := by
      by_contra hc
      push Not at hc
      have := Finset.sum_nonpos hc
      rw [hs] at this
      linarith
    have hi' := Finset.mem_range.1 hi
    rw [hd]
    refine div_pos (lt_of_lt_of_le (b := p i * p i * binDistance e i i) ?_ ?_) two_pos
    · unfold binDistance width
      rw [if_pos rfl]
      exact mul_pos (mul_pos h h) (by linarith [he i hi'])
    · have nn : ∀ i ∈ Finset.range n, ∀ j ∈ Finset.range n, 0 ≤ p i * p j * binDistance e i j :=
        fun i hi j hj => mul_nonneg (hpp i hi j hj) (dpos i (Finset.mem_range.1 hi) j (Finset.mem_range.1 hj))
      exact (Finset.single_le_sum (nn i hi) hi).trans
        (Finset.single_le_sum (f := fun i => ∑ j ∈ Finset.range n, p i * p j * binDistance e i j) (fun i hi => Finset.sum_nonneg (nn i hi)) hi)
  · rw [hd]
    refine div_le_div_of_nonneg_right ?_ two_pos.le
    calc _ ≤ ∑ i ∈ Finset.range n, ∑ j ∈ Finset.range n, p i * p j * (e n - e 0) := by
          refine Finset.sum_le_sum fun i hi => Finset.sum_le_sum fun j hj => mul_le_mul_of_nonneg_left ?_ (hpp i hi j hj)
          have hi := Finset.mem_range.1 hi
          have hj := Finset.mem_range.1 hj
          have a0 := mono 0 i (by omega) hi.le
          have a1 := mono (i + 1) n hi le_rfl
          have b0 := mono 0 j (by omega) hj.le
          have b1 := mono (j + 1) n hj le_rfl
          have := he i hi
          have := he j hj
          unfold binDistance width centre
          split
          · linarith
          · exact abs_le.2 ⟨by linarith, by linarith⟩
      _ = e n - e 0 := by simp only [← Finset.sum_mul]; rw [pair, one_mul]
  · intro w hw
    rw [hd]
    have split : meanDistance n e p = ∑ i ∈ Finset.range n, ∑ j ∈ Finset.range n, p i * p j * |centre e i - centre e j| +
        ∑ i ∈ Finset.range n, p i * (p i * width e i) := by
      unfold meanDistance
      rw [← Finset.sum_add_distrib]
      refine Finset.sum_congr rfl fun i hi => ?_
      have : ∀ j ∈ Finset.range n, p i * p j * binDistance e i j = p i * p j * |centre e i - centre e j| + if i = j then p i * (p i * width e i) else 0 := by
        intro j _
        unfold binDistance
        split_ifs with h
        · subst h; simp; ring
        · simp
      rw [Finset.sum_congr rfl this, Finset.sum_add_distrib, Finset.sum_ite_eq, if_pos hi]
    have one : ∀ i < n, p i ≤ 1 := fun i hi => by
      rw [← hs]
      exact Finset.single_le_sum (fun j hj => hp j (Finset.mem_range.1 hj)) (Finset.mem_range.2 hi)
    have b : ∑ i ∈ Finset.range n, p i * (p i * width e i) ≤ w := by
      calc _ ≤ ∑ i ∈ Finset.range n, p i * w := by
            refine Finset.sum_le_sum fun i hi => mul_le_mul_of_nonneg_left ?_ (hp i (Finset.mem_range.1 hi))
            have hi := Finset.mem_range.1 hi
            have h0 : 0 ≤ width e i := by unfold width; linarith [he i hi]
            nlinarith [one i hi, hw i hi, hp i hi]
        _ = w := by rw [← Finset.sum_mul, hs, one_mul]
    have sq : (∑ i ∈ Finset.range n, ∑ j ∈ Finset.range n, p i * p j * |centre e i - centre e j|) ^ 2 ≤ 2 * binVariance n e p := by
      have := sq_mean_le (Finset.range n ×ˢ Finset.range n) (fun x => p x.1 * p x.2) (fun x => |centre e x.1 - centre e x.2|)
        (fun x hx => hpp _ (Finset.mem_product.1 hx).1 _ (Finset.mem_product.1 hx).2) (by rw [Finset.sum_product]; exact pair)
      rw [Finset.sum_product, Finset.sum_product] at this
      refine this.trans (le_of_eq ?_)
      have : ∀ i j, p i * p j * |centre e i - centre e j| ^ 2 = centre e i ^ 2 * p i * p j - 2 * (centre e i * p i) * (centre e j * p j) + p i * (centre e j ^ 2 * p j) := by
        intro i j
        rw [sq_abs]; ring
      simp only [this, Finset.sum_add_distrib, Finset.sum_sub_distrib, ← Finset.mul_sum, ← Finset.sum_mul, hs]
      unfold binVariance
      ring
    have : (∑ i ∈ Finset.range n, ∑ j ∈ Finset.range n, p i * p j * |centre e i - centre e j|) / 2 ≤ Real.sqrt (binVariance n e p / 2) := by
      apply Real.le_sqrt_of_sq_le
      rw [div_pow]
      linarith
    rw [split]
    linarith

/-! ### C114 -/

theorem bin_value {q : Char} (hq : q ∈ ['t','v','z']) (d : Cell) : g.value q d = centre (g.edge q) (binIdx q d) := by
  fin_cases hq <;> rfl

/-- **C114, L-dispersion** of a plain component, and how it compares with the variance. -/
theorem C114_dispersion (h : BaseIs cube stored g ρ L) (hlw : lw = true → 0 < totalLight g L (massP g ρ))
    (q : Char) (hq : q ∈ ['t','v','z']) (b : PyStr) (hb : ValidPair [q] b) (hN : b = [] → lw = false → g.sumCells (massP g ρ) = 1) :
    ∃ r V, (obj (baseSelf cube stored)).getLDispersion (distStr [q] b) lw = .ok r ∧
      (obj (baseSelf cube stored)).getVariance (distStr [q] b) lw = .ok V ∧ r.shape = g.shapeOf b ∧
      ∀ c, g.Has c → g.condWt (wtdP g L (massP g ρ) lw) b c ≠ 0 → ∃ x v : ℝ, r.get (coords b c) = .fin x ∧ V.get (coords b c) = .fin v ∧
        LDispersionIs (g.bins q) (g.edge q) (g.binProb (wtdP g L (massP g ρ) lw) q b c) x ∧
        ∀ w, (∀ i < g.bins q, width (g.edge q) i ≤ w) → x ≤ Real.sqrt (v / 2) + w / 2 := by
  obtain ⟨r, hr, hr1, hr2⟩ := C20_l_moments h hlw q hq b hb 2 (by norm_num)
  have hv : varOf q = [q] := by fin_cases hq <;> rfl
  have hci : compIdx q = [] := by fin_cases hq <;> rfl
  obtain ⟨_, _, V, _, -, -, hV, -, hV2⟩ := C16_variance h hlw q (by fin_cases hq <;> decide) b (by rw [hv]; exact hb) hN
  rw [hv] at hV
  refine ⟨r, V, hr, hV, hr1, fun c hc h0 => ?_⟩
  obtain ⟨-, -, v, hv1, -, hv2, -⟩ := hV2 c hc h0
  rw [hci] at hv1
  have key := lDispersionIs (edges_increasing h.proper q) (fun i _ => binProb_nonneg (fun d hd => h.wtd_nonneg lw hd) q b c i)
    (cdf_total (q := q) h0 fun e => total_one hlw (hN e))
  refine ⟨_, v, (hr2 c hc).trans (if_neg h0), hv1, key, fun w hw => ?_⟩
  have := key.dispersion w hw
  have ev : binVariance (g.bins q) (g.edge q) (g.binProb (wtdP g L (massP g ρ) lw) q b c) = v := by
    unfold binVariance
    rw [sum_binProb _ _ _ _ (fun i => centre (g.edge q) i ^ 2), sum_binProb _ _ _ _ (fun i => centre (g.edge q) i), hv2]
    rw [show g.value q = fun d => centre (g.edge q) (binIdx q d) from funext (bin_value hq)]
  rw [← ev]
  exact this

/-- **C114, all orders.** L-moments of a plain component are no greater than the greatest edge. -/
theorem C114_orders (h : BaseIs cube stored g ρ L) (hlw : lw = true → 0 < totalLight g L (massP g ρ))
    (q : Char) (hq : q ∈ ['t','v','z']) (b : PyStr) (hb : ValidPair [q] b) (hN : b = [] → lw = false → g.sumCells (massP g ρ) = 1) (j : ℕ) (hj : 1 ≤ j) :
    ∃ r, (obj (baseSelf cube stored)).getLMoment (distStr [q] b) j lw = .ok r ∧ r.shape = g.shapeOf b ∧
      ∀ c, g.Has c → g.condWt (wtdP g L (massP g ρ) lw) b c ≠ 0 → ∃ x : ℝ, r.get (coords b c) = .fin x ∧
        ∀ M, (∀ i ≤ g.bins q, |g.edge q i| ≤ M) → |x| ≤ M := by
  obtain ⟨r, hr, hr1, hr2⟩ := C20_l_moments h hlw q hq b hb j hj
  refine ⟨r, hr, hr1, fun c hc h0 => ⟨_, (hr2 c hc).trans (if_neg h0), fun M hM => ?_⟩⟩
  exact lmoment_le (fun i _ => binProb_nonneg (fun d hd => h.wtd_nonneg lw hd) q b c i) (cdf_total (q := q) h0 fun e => total_one hlw (hN e)) hM j

/-- **C114, parametric components**: ages and metallicities (part of the velocities may be missing, C80). -/
theorem C114_parametric {pc : Param} {m : Ingredients} (h : ParamIs pc g m L) (hl : lw = true → (m.pop g).Shines g L)
    (q : Char) (hq : q ∈ ['t','z']) (b : PyStr) (hb : ValidPair [q] b) (j : ℕ) (hj : 1 ≤ j) :
    ∃ r d, (obj pc.self).getLMoment (distStr [q] b) j lw = .ok r ∧ (obj pc.self).getLDispersion (distStr [q] b) lw = .ok d ∧
      r.shape = g.shapeOf b ∧ d.shape = g.shapeOf b ∧ ∀ c, g.Has c → (m.pop g).amount g L lw b c ≠ 0 → ∃ x y : ℝ,
        r.get (coords b c) = .fin x ∧ d.get (coords b c) = .fin y ∧ (∀ M, (∀ i ≤ g.bins q, |g.edge q i| ≤ M) → |x| ≤ M) ∧
        LDispersionIs (g.bins q) (g.edge q) ((m.pop g).binShare g L lw b q c) y := by
  obtain ⟨r, h1, h2, h3⟩ := C68_l_moments_partial h hl q hq b hb j hj
  obtain ⟨d, h1', h2', h3'⟩ := C68_l_moments_partial h hl q hq b hb 2 (by norm_num)
  refine ⟨r, d, h1, h1', h2, h2', fun c hc h0 => ?_⟩
  obtain ⟨e1, s1, p1, -⟩ := h3 c hc h0
  obtain ⟨e2, -⟩ := h3' c hc h0
  exact ⟨_, _, e1, e2, fun M hM => lmoment_le (fun i _ => p1 i) s1 hM j, lDispersionIs (edges_increasing h.proper q) (fun i _ => p1 i) s1⟩

/-- **C114, mixtures**: ages and metallicities, where all members have stars. -/
theorem C114_mixture {m : Mix} {N : ℕ} {ω : ℕ → ℝ} {pop : ℕ → Pop} (hg : g.Proper) (h : MixOf m g N ω pop L) (hl : lw = true → ∀ i < N, (pop i).Shines g L)
    (q : Char) (hq : q ∈ ['t','z']) (b : PyStr) (hb : ValidPair [q] b) (j : ℕ) (hj : 1 ≤ j) :
    ∃ r d, (Mix.obj m).getLMoment (distStr [q] b) j lw = .ok r ∧ (Mix.obj m).getLDispersion (distStr [q] b) lw = .ok d ∧
      r.shape = g.shapeOf b ∧ d.shape = g.shapeOf b ∧ ∀ c, g.Has c → (∀ i < N, (pop i).amount g L lw b c ≠ 0) →
        (b = [] → lw = false → (mixPop N ω pop).amount g L false [] c = 1) → ∃ x y : ℝ,
        r.get (coords b c) = .fin x ∧ d.get (coords b c) = .fin y ∧ (∀ M, (∀ i ≤ g.bins q, |g.edge q i| ≤ M) → |x| ≤ M) ∧
        LDispersionIs (g.bins q) (g.edge q) ((mixPop N ω pop).binShare g L lw b q c) y := by
  obtain ⟨r, h1, h2, h3⟩ := C69_l_moments_partial h hl q hq b hb j hj
  obtain ⟨d, h1', h2', h3'⟩ := C69_l_moments_partial h hl q hq b hb 2 (by norm_num)
  refine ⟨r, d, h1, h1', h2, h2', fun c hc h0 hN => ?_⟩
  obtain ⟨e1, s1, p1, -⟩ := h3 c hc h0 hN
  obtain ⟨e2, -⟩ := h3' c hc h0 hN
  exact ⟨_, _, e1, e2, fun M hM => lmoment_le (fun i _ => p1 i) s1 hM j, lDispersionIs (edges_increasing hg q) (fun i _ => p1 i) s1⟩

/-- **C114, against the textbook.** Hosking's L-dispersion is at most a quarter of the range. The one returned here can be half of it: all stars are in the one
velocity bin from -1 to 1, so two stars count as 2 apart. -/
theorem C114_quarter_fails : ∃ cube stored r, IFUCube.init demoSSPs 1 1 1 (-1, 1) (0, 3) (-1, 1) = .ok cube ∧ Component.init cube stored = .ok stored ∧
    (obj (baseSelf cube stored)).getLDispersion (distStr ['v'] ['t']) false = .ok r ∧ r.get [0] = .fin 1 := by
  have hv : ((-1 : ℝ), (1 : ℝ)).1 < ((-1 : ℝ), (1 : ℝ)).2 := by norm_num
  obtain ⟨cube, h1, hB⟩ := uniformBase 1 1 1 one_pos one_pos one_pos (-1, 1) hv
  obtain ⟨r, V, hr, -, -, hr2⟩ := C114_dispersion (lw := false) hB (by simp) 'v' (by decide) ['t'] (by decide) (by simp)
  refine ⟨cube, uniformStored 1 1 1, r, h1, (C04_constructor_shape hB.cubeIs hB.proper _).1 rfl, hr, ?_⟩
  have hc : (uniformGrid 1 1 1 (-1, 1)).Has ⟨0, 0, 0, 0, 0⟩ := by simp [Grid.Has, uniformGrid, cubeGrid]
  have hw := uniform_weight 1 1 1 one_pos one_pos one_pos (-1, 1) hv ['t'] hc
  obtain ⟨x, -, e, -, hx, -⟩ := hr2 _ hc hw
  have ht := cdf_total (q := 'v') hw (by simp)
  have hb : (uniformGrid 1 1 1 (-1, 1)).bins 'v' = 1 := rfl
  rw [hb] at ht hx
  simp only [cdf, Finset.sum_range_one] at ht
  have hd := hx.distance
  unfold meanDistance binDistance at hd
  rw [Finset.sum_range_one, Finset.sum_range_one, if_pos rfl, ht] at hd
  have e0 : (uniformGrid 1 1 1 (-1, 1)).edge 'v' 0 = -1 := by
    show evenEdges (-1, 1) 1 0 = -1
    norm_num [evenEdges]
  have e1 : (uniformGrid 1 1 1 (-1, 1)).edge 'v' 1 = 1 := by
    show evenEdges (-1, 1) 1 1 = 1
    norm_num [evenEdges]
  unfold width at hd
  rw [e0, e1] at hd
  rw [show r.get [0] = _ from e, hd]
  norm_num

/-- The uniform density meets the hypotheses, given the age. -/
example : ∃ cube, BaseIs cube (uniformStored 1 1 2) (uniformGrid 1 1 2 (-1, 1)) (fun _ => 1) demoL ∧ (uniformGrid 1 1 2 (-1, 1)).Has ⟨1, 1, 0, 0, 2⟩ ∧
    (uniformGrid 1 1 2 (-1, 1)).condWt (wtdP (uniformGrid 1 1 2 (-1, 1)) demoL (massP (uniformGrid 1 1 2 (-1, 1)) (fun _ => 1)) false) ['t'] ⟨1, 1, 0, 0, 2⟩ ≠ 0 ∧
    ValidPair ['v'] ['t'] := by
  obtain ⟨cube, -, hB⟩ := uniformBase 1 1 2 one_pos one_pos two_pos (-1, 1) (by norm_num)
  have hc : (uniformGrid 1 1 2 (-1, 1)).Has ⟨1, 1, 0, 0, 2⟩ := by simp [Grid.Has, uniformGrid, cubeGrid]
  exact ⟨cube, hB, hc, uniform_weight 1 1 2 one_pos one_pos two_pos (-1, 1) (by norm_num) ['t'] hc, by decide⟩

/-- The disk of C49 meets those of `C114_parametric`. -/
example : ∃ p m, ParamIs p demoGrid m demoL ∧ (true = true → (m.pop demoGrid).Shines demoGrid demoL) ∧ ValidPair ['z'] ['t','x'] ∧
    ∃ c, demoGrid.Has c ∧ (m.pop demoGrid).amount demoGrid demoL true ['t','x'] c ≠ 0 := by
  obtain ⟨p, m, h, hS, -, hf, t0, ht, hpos⟩ := demoDisk_pos 1
  have hc : demoGrid.Has ⟨t0, 0, 0, 0, 0⟩ := by
    refine ⟨ht, ?_, ?_, ?_, ?_⟩ <;> norm_num [demoGrid, cubeGrid]
  refine ⟨p, m, h, fun _ => ?_, by decide, ⟨t0, 0, 0, 0, 0⟩, hc, ?_⟩
  · unfold Pop.Shines
    rw [Pop.lightOf_eq h.proper h.pop_ok, ingr_cells]
    exact hS.tot h.proper
  · rw [Pop.amount_eq h.proper h.pop_ok]
    refine (sumCells_pos_of (c := ⟨t0, 0, 0, 0, 0⟩) (fun d hd => ?_) hc ?_).ne'
    · beta_reduce
      split
      · exact mul_nonneg (wt_nonneg (fun t z => (demoL_pos t z).le) d) (h.pop_ok.cells_nonneg _ hd)
      · exact le_rfl
    rw [if_pos rfl]
    refine mul_pos (by simp only [Pop.wt, if_true]; exact demoL_pos _ _) ?_
    rw [ingr_cells]
    show 0 < m.probTXZ demoGrid _ / _
    have := hpos ⟨t0, 0, 0, 0, 0⟩ hc rfl
    have hv : (0 : ℝ) < demoGrid.nv := by norm_num [demoGrid, cubeGrid]
    positivity

/-- The mixture of C66 meets those of `C114_mixture`. -/
example : ∃ m p, MixOf m demoGrid 2 (fun i => if i = 0 then 1 / 4 else 3 / 4) p demoL ∧ (true = true → ∀ i < 2, (p i).Shines demoGrid demoL) ∧
    ValidPair ['z'] ['t'] := by
  obtain ⟨cube, p, mi, t0, hP, hf, ht, hpos, hmk⟩ := demoStarMix
  have hc : demoGrid.Has ⟨t0, 0, 0, 0, 0⟩ := by
    refine ⟨ht, ?_, ?_, ?_, ?_⟩ <;> norm_num [demoGrid, cubeGrid]
  obtain ⟨m, -, -, hB, h, hl, hm⟩ := hmk _ _ hc hc
  exact ⟨m, _, h, fun _ => hl, by decide⟩

end PKM
