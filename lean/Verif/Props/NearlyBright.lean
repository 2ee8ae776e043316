import Verif.Props.EquallyBright
import Verif.Props.Similar

/-!
# C109: among nearly equally bright stars, weighting by light is nearly weighting by mass

If no star that meets a condition is brighter per mass than `κ` times another, no probability given that condition changes by more than the factor
`κ` when it is weighted by light, and no mean by more than `1 - 1/κ` times the distance from the first to the last bin. For `κ = 1` this is C98.
-/

open scoped Classical

noncomputable section

namespace PKM
open Np Component

variable {g : Grid} {L : ℕ → ℕ → ℝ} {lo hi : ℝ} {o : Obj} {q : Pop} {b : PyStr} {c : Cell}

/-! ### Specification -/

/-- Stars that have the values of `b` at `c` emit at least `lo` and at most `hi` light per mass. -/
structure BrightBetween (g : Grid) (L : ℕ → ℕ → ℝ) (lo hi : ℝ) (b : PyStr) (c : Cell) : Prop where
  pos : 0 < lo
  within : ∀ d, g.Has d → coords b d = coords b c → lo ≤ L d.t d.z ∧ L d.t d.z ≤ hi

/-- `u` and `u'` differ at most by the factor `hi / lo`. -/
def FactorApart (lo hi u u' : ℝ) : Prop := lo / hi * u' ≤ u ∧ u ≤ hi / lo * u'

/-- Both calls succeed, with arrays of the variables `w`. At the cells `c` where `good lo hi c` their entries differ at most by the factor `hi / lo`. -/
def NearWhere (good : ℝ → ℝ → Cell → Prop) (r r' : Py (Arr Num)) (g : Grid) (w : PyStr) : Prop :=
  ∃ p p', r = .ok p ∧ r' = .ok p' ∧ p.shape = g.shapeOf w ∧ p'.shape = g.shapeOf w ∧ ∀ c, g.Has c → ∀ lo hi, good lo hi c →
    ∃ u u', p.get (coords w c) = .fin u ∧ p'.get (coords w c) = .fin u' ∧ FactorApart lo hi u u'

/-- The mean of `k` given `b` by light is within `1 - lo / hi` times the distance from the first to the last bin of that by mass. -/
def MeansNear (o : Obj) (g : Grid) (L : ℕ → ℕ → ℝ) (k : Char) (b : PyStr) (good : Cell → Prop) : Prop :=
  ∃ N M, o.getMean (distStr (varOf k) b) true = .ok N ∧ o.getMean (distStr (varOf k) b) false = .ok M ∧
    N.shape = compShape (varOf k) ++ g.shapeOf b ∧ M.shape = compShape (varOf k) ++ g.shapeOf b ∧
    ∀ c, g.Has c → good c → ∀ lo hi, BrightBetween g L lo hi b c → ∃ ν μ, N.get (compIdx k ++ coords b c) = .fin ν ∧
      M.get (compIdx k ++ coords b c) = .fin μ ∧ |ν - μ| ≤ (1 - lo / hi) * (centre (g.edge k) (g.bins k - 1) - centre (g.edge k) 0)

/-! ### Lemmas -/

theorem sumCells_le {F G : Cell → ℝ} (h : ∀ d, g.Has d → F d ≤ G d) : g.sumCells F ≤ g.sumCells G := by
  have := sumCells_nonneg (g := g) (f := fun d => G d - F d) fun d hd => sub_nonneg.2 (h d hd)
  rw [sumCells_sub] at this
  linarith

theorem marg_le {F G : Cell → ℝ} {w : PyStr} {c : Cell} (h : ∀ d, g.Has d → coords w d = coords w c → F d ≤ G d) : g.marg F w c ≤ g.marg G w c :=
  sumCells_le fun d hd => by
    split
    · next e => exact h d hd e
    · exact le_rfl

theorem FactorApart.ratio (hlo : 0 < lo) {x y X Y : ℝ} (hy : 0 ≤ y) (hY : 0 < Y) (h1 : lo * y ≤ x) (h2 : x ≤ hi * y) (h3 : lo * Y ≤ X) (h4 : X ≤ hi * Y) :
    FactorApart lo hi (x / X) (y / Y) := by
  have hX : 0 < X := (mul_pos hlo hY).trans_le h3
  have hh : 0 < hi := by
    by_contra k
    have := mul_nonpos_of_nonpos_of_nonneg (not_lt.1 k) hY.le
    linarith
  refine ⟨?_, ?_⟩
  · rw [div_mul_div_comm, div_le_div_iff₀ (mul_pos hh hY) hX]
    have a1 := mul_le_mul_of_nonneg_left h4 (mul_nonneg hlo.le hy)
    have a2 := mul_le_mul_of_nonneg_right h1 (mul_pos hh hY).le
    linarith
  · rw [div_mul_div_comm, div_le_div_iff₀ hX (mul_pos hlo hY)]
    have a1 := mul_le_mul_of_nonneg_right h2 (mul_pos hlo hY).le
    have a2 := mul_le_mul_of_nonneg_left h3 (mul_nonneg hh.le hy)
    linarith

theorem FactorApart.div {u u' V : ℝ} (h : FactorApart lo hi u u') (hV : 0 < V) : FactorApart lo hi (u / V) (u' / V) := by
  unfold FactorApart
  rw [← mul_div_assoc, ← mul_div_assoc]
  exact ⟨div_le_div_of_nonneg_right h.1 hV.le, div_le_div_of_nonneg_right h.2 hV.le⟩

namespace BrightBetween

theorem amount (h : BrightBetween g L lo hi b c) (hq : q.Ok g) (hg : g.Proper) {w : PyStr}
    (hw : ∀ d, coords w d = coords w c → coords b d = coords b c) :
    lo * q.amount g L false w c ≤ q.amount g L true w c ∧ q.amount g L true w c ≤ hi * q.amount g L false w c := by
  rw [Pop.amount_eq hg hq, Pop.amount_eq hg hq, ← marg_mul_const, ← marg_mul_const]
  constructor <;> refine marg_le fun d hd e => ?_ <;> simp only [Pop.wt, if_true, Bool.false_eq_true, if_false, one_mul]
  · exact mul_le_mul_of_nonneg_right (h.within d hd (hw d e)).1 (hq.cells_nonneg w hd)
  · exact mul_le_mul_of_nonneg_right (h.within d hd (hw d e)).2 (hq.cells_nonneg w hd)

theorem le (h : BrightBetween g L lo hi b c) (hc : g.Has c) : lo ≤ hi := (h.within c hc rfl).1.trans (h.within c hc rfl).2

end BrightBetween

theorem amount_nonneg (hg : g.Proper) (hq : q.Ok g) (w : PyStr) (c : Cell) : 0 ≤ q.amount g L false w c := by
  rw [Pop.amount_eq hg hq]
  refine marg_nonneg (fun d hd => ?_) w c
  simpa [Pop.wt] using hq.cells_nonneg w hd

theorem mass_marg (w : PyStr) (c : Cell) : q.marginal g L false w c = q.amount g L false w c := by
  rw [Pop.marginal, if_neg (by decide), div_one]

theorem near_cond (h : BrightBetween g L lo hi b c) (hq : q.Ok g) (hg : g.Proper) (hL : ∀ t z, 0 ≤ L t z) (hs : q.Shines g L) {a : PyStr}
    (hab : (a, b) ∈ conditionals) (hf : 'v' ∉ a ∨ AllInRange g L q) (h0 : q.amount g L false b c ≠ 0) :
    ∃ u u', q.cond g L true a b c = .fin u ∧ q.cond g L false a b c = .fin u' ∧ FactorApart lo hi u u' := by
  have hvu : ∀ p ∈ conditionals, 'v' ∉ p.1 → 'v' ∈ unionStr p.1 p.2 → 'v' ∈ p.2 := by decide +kernel
  have p0 : 0 < q.amount g L false b c := lt_of_le_of_ne (amount_nonneg hg hq b c) (Ne.symm h0)
  obtain ⟨x1, x2⟩ := h.amount hq hg (w := b) fun _ e => e
  obtain ⟨y1, y2⟩ := h.amount hq hg (w := unionStr a b) fun d => coords_union_eq (a, b) hab c d
  have n := fun w => hq.light_ne hg hL hs w
  have p1 : 0 < q.amount g L true b c := (mul_pos h.pos p0).trans_le x1
  have hw : q.lightOf g L (unionStr a b) = q.lightOf g L b := by
    by_cases e : 'v' ∈ unionStr a b
    · by_cases e' : 'v' ∈ b
      · rw [lightOf_velocity e, lightOf_velocity e']
      · rw [lightOf_velocity e, lightOf_other e']
        exact hf.resolve_left fun k => e' (hvu _ hab k e)
    · rw [lightOf_other e, lightOf_other fun k => e (union_sub _ hab 'v' k)]
  have m1 : q.marginal g L true b c ≠ 0 := by
    rw [Pop.marginal, if_pos rfl]
    exact div_ne_zero p1.ne' (n b)
  unfold Pop.cond
  refine ⟨_, _, if_neg m1, if_neg (by rwa [mass_marg]), ?_⟩
  rw [mass_marg, mass_marg, Pop.marginal, Pop.marginal, if_pos rfl, if_pos rfl, hw, div_div_div_cancel_right₀ (n b)]
  exact .ratio h.pos (amount_nonneg hg hq _ _) p0 y1 y2 x1 x2

theorem near_marg (h : BrightBetween g L lo hi [] c) (hq : q.Ok g) (hg : g.Proper) (h1 : q.amount g L false [] c = 1) {w : PyStr}
    (hf : 'v' ∉ w ∨ AllInRange g L q) : FactorApart lo hi (q.marginal g L true w c) (q.marginal g L false w c) := by
  obtain ⟨x1, x2⟩ := h.amount hq hg (w := []) fun _ e => e
  obtain ⟨y1, y2⟩ := h.amount hq hg (w := w) fun _ _ => rfl
  have hw : q.lightOf g L w = q.amount g L true [] c := by
    rw [amount_nil_light hg hq, lightOf_other (w := []) (by simp)]
    by_cases e : 'v' ∈ w
    · rw [lightOf_velocity e]
      exact hf.resolve_left fun k => k e
    · rw [lightOf_other e]
  have := FactorApart.ratio (hi := hi) h.pos (amount_nonneg (L := L) hg hq w c) (by rw [h1]; exact one_pos) y1 y2 x1 x2
  rw [h1, div_one, ← hw] at this
  rwa [mass_marg, Pop.marginal, if_pos rfl]

/-- Averages of what lies between `s` and `t`. -/
theorem near_average {F φ : Cell → ℝ} {s t : ℝ} (h : BrightBetween g L lo hi b c) (hle : lo ≤ hi) (hF : ∀ d, g.Has d → 0 ≤ F d)
    (hφ : ∀ d, g.Has d → s ≤ φ d ∧ φ d ≤ t) (h0 : 0 < g.marg F b c) :
    |g.marg (fun d => φ d * (L d.t d.z * F d)) b c / g.marg (fun d => L d.t d.z * F d) b c - g.marg (fun d => φ d * F d) b c / g.marg F b c| ≤
      (1 - lo / hi) * (t - s) := by
  have hh : 0 < hi := h.pos.trans_le hle
  set M := g.marg F b c with hM
  set T := g.marg (fun d => L d.t d.z * F d) b c with hT
  have T1 : lo * M ≤ T := by
    rw [hM, ← marg_mul_const]
    exact marg_le fun d hd e => mul_le_mul_of_nonneg_right (h.within d hd e).1 (hF d hd)
  have T2 : T ≤ hi * M := by
    rw [hM, ← marg_mul_const]
    exact marg_le fun d hd e => mul_le_mul_of_nonneg_right (h.within d hd e).2 (hF d hd)
  have hT0 : 0 < T := (mul_pos h.pos h0).trans_le T1
  -- the part of the light that is not shared out like the mass
  set R : Cell → ℝ := fun d => L d.t d.z * F d / T - lo / hi * (F d / M) with hR
  have R0 : ∀ d, g.Has d → coords b d = coords b c → 0 ≤ R d := fun d hd e => by
    rw [hR]
    have a1 : lo / hi * (F d / M) ≤ lo * F d / T := by
      rw [div_mul_div_comm]
      exact div_le_div_of_nonneg_left (mul_nonneg h.pos.le (hF d hd)) hT0 T2
    have a2 : lo * F d / T ≤ L d.t d.z * F d / T := div_le_div_of_nonneg_right (mul_le_mul_of_nonneg_right (h.within d hd e).1 (hF d hd)) hT0.le
    exact sub_nonneg.2 (a1.trans a2)
  have cut : ∀ ψ : Cell → ℝ, g.marg (fun d => ψ d * R d) b c =
      g.marg (fun d => ψ d * (L d.t d.z * F d)) b c / T - lo / hi * (g.marg (fun d => ψ d * F d) b c / M) := fun ψ => by
    rw [← marg_div_const, ← marg_div_const, ← marg_mul_const, ← marg_sub]
    congr 1; funext d
    rw [hR]; ring
  have total : g.marg (fun d => R d) b c = 1 - lo / hi := by
    have := cut fun _ => 1
    simp only [one_mul] at this
    rw [this, ← hT, ← hM, div_self hT0.ne', div_self h0.ne', mul_one]
  have r1 : s * (1 - lo / hi) ≤ g.marg (fun d => φ d * R d) b c := by
    rw [← total, ← marg_mul_const]
    exact marg_le fun d hd e => mul_le_mul_of_nonneg_right (hφ d hd).1 (R0 d hd e)
  have r2 : g.marg (fun d => φ d * R d) b c ≤ t * (1 - lo / hi) := by
    rw [← total, ← marg_mul_const]
    exact marg_le fun d hd e => mul_le_mul_of_nonneg_right (hφ d hd).2 (R0 d hd e)
  rw [cut φ] at r1 r2
  set A := g.marg (fun d => φ d * F d) b c / M with hA
  have A1 : s ≤ A := by
    rw [hA, le_div_iff₀ h0, hM, ← marg_mul_const]
    exact marg_le fun d hd e => mul_le_mul_of_nonneg_right (hφ d hd).1 (hF d hd)
  have A2 : A ≤ t := by
    rw [hA, div_le_iff₀ h0, hM, ← marg_mul_const]
    exact marg_le fun d hd e => mul_le_mul_of_nonneg_right (hφ d hd).2 (hF d hd)
  have k0 : 0 ≤ 1 - lo / hi := sub_nonneg.2 ((div_le_one hh).2 hle)
  have b1 := mul_le_mul_of_nonneg_left A1 k0
  have b2 := mul_le_mul_of_nonneg_left A2 k0
  rw [abs_le]
  constructor <;> nlinarith

theorem value_between (hg : g.Proper) {k : Char} (hk : k ∈ ['t','x','y','z']) {d : Cell} (hd : g.Has d) :
    centre (g.edge k) 0 ≤ g.value k d ∧ g.value k d ≤ centre (g.edge k) (g.bins k - 1) := by
  have hlt := edges_increasing hg k
  have hi : ∃ i < g.bins k, g.value k d = centre (g.edge k) i := by
    obtain ⟨c1, c2, c3, c4, c5⟩ := hd
    fin_cases hk
    · exact ⟨d.t, c1, rfl⟩
    · exact ⟨d.x, c3, rfl⟩
    · exact ⟨d.y, c4, rfl⟩
    · exact ⟨d.z, c5, rfl⟩
  obtain ⟨i, hi, e⟩ := hi
  rw [e]
  exact ⟨centres_mono hlt (Nat.zero_le i) hi, centres_mono hlt (by omega) (by omega)⟩

theorem near_mean (h : BrightBetween g L lo hi b c) (hc : g.Has c) (hq : q.Ok g) (hg : g.Proper) (h0 : q.amount g L false b c ≠ 0) {k : Char}
    (hk : k ∈ ['t','x','y','z']) :
    |q.mean g L true b k c - q.mean g L false b k c| ≤ (1 - lo / hi) * (centre (g.edge k) (g.bins k - 1) - centre (g.edge k) 0) := by
  have hkv : k ≠ 'v' := by fin_cases hk <;> decide
  have p0 : 0 < q.amount g L false b c := lt_of_le_of_ne (amount_nonneg hg hq b c) (Ne.symm h0)
  unfold Pop.mean
  rw [Pop.expect_num, Pop.expect_num, Pop.num_eq hg hq hkv, Pop.num_eq hg hq hkv, Pop.amount_eq hg hq, Pop.amount_eq hg hq]
  rw [Pop.amount_eq hg hq] at p0
  simp only [Pop.wt, if_true, Bool.false_eq_true, if_false, one_mul] at p0 ⊢
  exact near_average h (h.le hc) (fun d hd => hq.cells_nonneg b hd) (fun d hd => value_between hg hk hd) p0

/-- The conditional distributions of parametric components where there are stars. -/
theorem ParamIs.cond_where {p : Param} {m : Ingredients} {lw : Bool} (h : ParamIs p g m L) (density : Bool) (hl : lw = true → (m.pop g).Shines g L) {a : PyStr}
    (hab : (a, b) ∈ conditionals) (hf : 'v' ∉ a) :
    ∃ r, getP p.self (condStr a b) density lw = .ok r ∧ r.shape = g.shapeOf a ++ g.shapeOf b ∧ ∀ c, g.Has c → (m.pop g).marginal g L lw b c ≠ 0 →
      r.get (coords a c ++ coords b c) = .fin ((m.pop g).marginal g L lw (unionStr a b) c / (m.pop g).marginal g L lw b c / dvol g density a c) := by
  have ls : lw = true → Shines g m L := fun e => param_shines.1 (hl e)
  simp only [ingr_marginal h]
  by_cases ho : (a, b) ∈ [(['x'],['t']), (['v'],['t','x']), (['z'],['t','x'])]
  · simp only [List.mem_cons, Prod.mk.injEq, List.not_mem_nil, or_false] at ho
    cases lw with
    | true =>
      obtain ⟨⟨q1, i1, i2, i3⟩, -, ⟨q3, k1, k2, k3⟩⟩ := C32_light_ingredients h density (ls rfl)
      rcases ho with ⟨rfl, rfl⟩ | ⟨rfl, rfl⟩ | ⟨rfl, rfl⟩
      · exact ⟨q1, i1, i2, fun c hc h0 => (i3 c hc).trans (if_neg h0)⟩
      · exact absurd hf (by decide)
      · exact ⟨q3, k1, k2, fun c hc h0 => (k3 c hc).trans (if_neg h0)⟩
    | false =>
      obtain ⟨⟨q1, i1, i2, i3⟩, -, ⟨q3, k1, k2, k3⟩⟩ := C32_ingredients h density
      rcases ho with ⟨rfl, rfl⟩ | ⟨rfl, rfl⟩ | ⟨rfl, rfl⟩
      · refine ⟨q1, i1, i2, fun c hc h0 => (i3 c hc).trans ?_⟩
        rw [show unionStr ['x'] ['t'] = ['t','x'] by decide, mass_marginal h, mass_marginal h, h.amount_tx hc, h.amount_t hc]
        rw [mass_marginal h, h.amount_t hc] at h0
        rw [mul_div_cancel_left₀ _ h0]; rfl
      · exact absurd hf (by decide)
      · refine ⟨q3, k1, k2, fun c hc h0 => (k3 c hc).trans ?_⟩
        have e3 : (m.pop g).amount g L false ['t','x','z'] c = m.probT g c * m.probX g c * m.probZ g c := by
          rw [← mass_marginal h, Ingredients.marginal, if_neg (by decide), sumTXZ_point _ hc]
          exact weightTXZ_mass _
        rw [show unionStr ['z'] ['t','x'] = ['t','x','z'] by decide, mass_marginal h, mass_marginal h, e3, h.amount_tx hc]
        rw [mass_marginal h, h.amount_tx hc] at h0
        rw [mul_div_cancel_left₀ _ h0]; rfl
  · obtain ⟨r, h1, h2, h3⟩ := C32_conditionals h density lw ls a b hab ho
    exact ⟨r, h1, h2, fun c hc h0 => (h3 c hc).trans (if_neg h0)⟩

/-- The conditional distributions of any component where there are stars. -/
theorem Describes.cond {lw : Bool} (h : Describes g L lw o q) (density : Bool) {a : PyStr} (hab : (a, b) ∈ conditionals) (hf : 'v' ∉ a) :
    ∃ r, o.getP (condStr a b) density lw = .ok r ∧ r.shape = g.shapeOf (condStr a b) ∧ ∀ c, g.Has c → q.marginal g L lw b c ≠ 0 →
      r.get (coords (condStr a b) c) = q.cond g L lw a b c / .fin (dvol g density a c) := by
  cases h with
  | plain h hl =>
    obtain ⟨r, h1, h2, h3⟩ := h.cond_is density hl hab
    exact ⟨r, h1, h2, fun c hc _ => h3 c hc⟩
  | parametric h hl =>
    obtain ⟨r, h1, h2, h3⟩ := h.cond_where density hl hab hf
    refine ⟨r, h1, by rw [h2, shapeOf_condStr], fun c hc h0 => ?_⟩
    rw [coords_condStr, h3 c hc h0, Pop.cond, if_neg h0, Num.fin_div _ _ (dvol_pos h.proper hc density a).ne']
  | mixture h hl h0 =>
    obtain ⟨r, h1, h2, h3⟩ := C65_conditionals h density lw (fun e => mix_shines h (hl e)) a b hab
    refine ⟨r, h1, by rw [h2, shapeOf_condStr], fun c hc _ => ?_⟩
    rw [coords_condStr, h3 c hc]; rfl


theorem BrightBetween.amount_ne (h : BrightBetween g L lo hi b c) (hq : q.Ok g) (hg : g.Proper) (h0 : q.amount g L false b c ≠ 0) :
    q.amount g L true b c ≠ 0 := by
  have p0 : 0 < q.amount g L false b c := lt_of_le_of_ne (amount_nonneg hg hq b c) (Ne.symm h0)
  exact ((mul_pos h.pos p0).trans_le (h.amount hq hg (w := b) fun _ e => e).1).ne'

theorem popAt_near {ask ask' : PyStr → Prop} {good good' : Cell → Prop} (h : PopAt o q g L true b ask good) (h' : PopAt o q g L false b ask' good')
    {k : Char} (hk : k ∈ ['t','x','y','z']) (hb : ValidPair (varOf k) b)
    (hgood : ∀ c lo hi, good' c → BrightBetween g L lo hi b c → good c) : MeansNear o g L k b good' := by
  have hk' : k ∈ ['t','v','x','y','z'] := by
    have : ∀ k ∈ ['t','x','y','z'], k ∈ ['t','v','x','y','z'] := by decide
    exact this k hk
  obtain ⟨h1, h2, -⟩ := quantity_facts hk'
  obtain ⟨N, F, e, i, v⟩ := h.mean _ hb h1
  obtain ⟨M, F', e', i', v'⟩ := h'.mean _ hb h1
  refine ⟨N, M, e, e', i.1, i'.1, fun c hc g1 lo hi hB => ⟨_, _, ?_, ?_, near_mean hB hc h.ok h.proper (h'.stars c hc g1).1 hk⟩⟩
  · rw [i.2 k h2 c hc, v k h2 c hc (hgood c lo hi g1 hB)]
  · rw [i'.2 k h2 c hc, v' k h2 c hc g1]

theorem Describes.by_mass (h : Describes g L true o q) : Describes g L false o q := by
  cases h with
  | plain h hl => exact .plain h (by simp)
  | parametric h hl => exact .parametric h (by simp)
  | mixture h hl h0 =>
    refine .mixture h (by simp) fun i hi c e => ?_
    have h0 := h0 i hi c
    rw [Pop.amount_eq h.proper (h.ok hi)] at e h0
    simp only [Pop.wt, Bool.false_eq_true, if_false, if_true, one_mul] at e h0
    exact absurd (marg_zero_mul (φ := fun d => L d.t d.z) (fun d hd => (h.ok hi).cells_nonneg [] hd) e) h0

theorem Describes.lightNonneg {lw : Bool} (h : Describes g L lw o q) : ∀ t z, 0 ≤ L t z := by
  cases h with
  | plain h => exact h.lightNonneg
  | parametric h => exact h.lightNonneg
  | mixture h => exact h.lightNonneg

theorem Describes.marg {lw : Bool} (h : Describes g L lw o q) (density : Bool) {w : PyStr} (hw : w ∈ marginals) :
    Gives (o.getP w density lw) g w (fun c => .fin (q.marginal g L lw w c / dvol g density w c)) := by
  cases h with
  | plain h hl => exact (IsMember.plain _ _ _ none h rfl rfl).getP_marg density lw hl hw
  | parametric h hl => exact (IsMember.parametric _ _ none h rfl rfl).getP_marg density lw hl hw
  | mixture h hl h0 =>
    obtain ⟨p, h1, h2, h3⟩ := C65_marginals h density lw (fun e => mix_shines h (hl e)) w hw
    exact ⟨p, h1, h2, h3⟩

theorem near_of_cond (hq : q.Ok g) (hg : g.Proper) (hL : ∀ t z, 0 ≤ L t z) (hs : q.Shines g L) {a : PyStr} (hab : (a, b) ∈ conditionals)
    (hf : 'v' ∉ a ∨ AllInRange g L q) (density : Bool)
    (h : ∀ lw, ∃ r, o.getP (condStr a b) density lw = .ok r ∧ r.shape = g.shapeOf (condStr a b) ∧ ∀ c, g.Has c → q.marginal g L lw b c ≠ 0 →
      r.get (coords (condStr a b) c) = q.cond g L lw a b c / .fin (dvol g density a c)) :
    NearWhere (fun lo hi c => q.amount g L false b c ≠ 0 ∧ BrightBetween g L lo hi b c) (o.getP (condStr a b) density true)
      (o.getP (condStr a b) density false) g (condStr a b) := by
  obtain ⟨r, h1, h2, h3⟩ := h true
  obtain ⟨r', h1', h2', h3'⟩ := h false
  refine ⟨r, r', h1, h1', h2, h2', fun c hc lo hi ⟨h0, hB⟩ => ?_⟩
  obtain ⟨u, u', e, e', hu⟩ := near_cond hB hq hg hL hs hab hf h0
  have hd := dvol_pos hg hc density a
  have m1 : q.marginal g L true b c ≠ 0 := by
    rw [Pop.marginal, if_pos rfl]
    exact div_ne_zero (hB.amount_ne hq hg h0) (hq.light_ne hg hL hs b)
  refine ⟨u / dvol g density a c, u' / dvol g density a c, ?_, ?_, hu.div hd⟩
  · rw [h3 c hc m1, e, Num.fin_div _ _ hd.ne']
  · rw [h3' c hc (by rwa [mass_marg]), e', Num.fin_div _ _ hd.ne']

/-! ### Theorems -/

/-- Conditional distributions that are not of the velocity, of plain and parametric components and mixtures: given any variables, wherever there are
stars, weighting by light changes no probability by more than the factor by which the stars that meet the condition differ in brightness. -/
theorem C109_conditionals (h : Describes g L true o q) (density : Bool) (a b : PyStr) (hab : (a, b) ∈ conditionals) (hv : 'v' ∉ a) :
    NearWhere (fun lo hi c => q.amount g L false b c ≠ 0 ∧ BrightBetween g L lo hi b c) (o.getP (condStr a b) density true)
      (o.getP (condStr a b) density false) g (condStr a b) :=
  near_of_cond h.ok h.proper h.lightNonneg (h.shines rfl) hab (.inl hv) density fun lw => match lw with
    | true => h.cond density hab hv
    | false => h.by_mass.cond density hab hv

/-- Marginal distributions that are not of the velocity, if the total mass is 1. -/
theorem C109_marginals (h : Describes g L true o q) (hN : ∀ c, q.amount g L false [] c = 1) (density : Bool) (w : PyStr) (hw : w ∈ marginals)
    (hv : 'v' ∉ w) : NearWhere (fun lo hi c => BrightBetween g L lo hi [] c) (o.getP w density true) (o.getP w density false) g w := by
  obtain ⟨r, h1, h2, h3⟩ := h.marg density hw
  obtain ⟨r', h1', h2', h3'⟩ := h.by_mass.marg density hw
  exact ⟨r, r', h1, h1', h2, h2', fun c hc lo hi hB => ⟨_, _, h3 c hc, h3' c hc,
    (near_marg hB h.ok h.proper (hN c) (.inl hv)).div (dvol_pos h.proper hc density w)⟩⟩

section
variable {cube : IFUCube} {stored : Arr Num} {ρ : Cell → ℝ}

/-- For plain components the velocity is like any other variable. -/
theorem C109_conditionals_plain (h : BaseIs cube stored g ρ L) (hl : (tablePop g ρ).Shines g L) (density : Bool) (a b : PyStr)
    (hab : (a, b) ∈ conditionals) :
    NearWhere (fun lo hi c => (tablePop g ρ).amount g L false b c ≠ 0 ∧ BrightBetween g L lo hi b c) (getP (baseSelf cube stored) (condStr a b) density true)
      (getP (baseSelf cube stored) (condStr a b) density false) g (condStr a b) :=
  near_of_cond (o := obj (baseSelf cube stored)) (tablePop_ok h.proper h.nonneg) h.proper h.lightNonneg hl hab (.inr (tablePop_inRange h)) density
    fun lw => by
      obtain ⟨r, h1, h2, h3⟩ := h.cond_is (lw := lw) density (fun _ => hl) hab
      exact ⟨r, h1, h2, fun c hc _ => h3 c hc⟩

theorem C109_marginals_plain (h : BaseIs cube stored g ρ L) (hl : (tablePop g ρ).Shines g L) (hN : ∀ c, (tablePop g ρ).amount g L false [] c = 1)
    (density : Bool) (w : PyStr) (hw : w ∈ marginals) :
    NearWhere (fun lo hi c => BrightBetween g L lo hi [] c) (getP (baseSelf cube stored) w density true) (getP (baseSelf cube stored) w density false) g w := by
  have hd : Describes g L true (obj (baseSelf cube stored)) (tablePop g ρ) := .plain h fun _ => hl
  obtain ⟨r, h1, h2, h3⟩ := hd.marg density hw
  obtain ⟨r', h1', h2', h3'⟩ := hd.by_mass.marg density hw
  exact ⟨r, r', h1, h1', h2, h2', fun c hc lo hi hB => ⟨_, _, h3 c hc, h3' c hc,
    (near_marg hB hd.ok h.proper (hN c) (.inr (tablePop_inRange h))).div (dvol_pos h.proper hc density w)⟩⟩

/-- Means of age, position and metallicity, of all stars or given any other variables. -/
theorem C109_means_plain (h : BaseIs cube stored g ρ L) (hl : (tablePop g ρ).Shines g L) (k : Char) (hk : k ∈ ['t','x','y','z']) (b : PyStr)
    (hb : ValidPair (varOf k) b) : MeansNear (obj (baseSelf cube stored)) g L k b (fun c => (tablePop g ρ).amount g L false b c ≠ 0 ∧
      (b = [] → (tablePop g ρ).amount g L false [] c = 1)) := by
  have := popAt_near (h.popAt (fun _ => hl) b) (h.popAt (by simp) b) hk hb fun c lo hi hg hB =>
    ⟨hB.amount_ne (tablePop_ok h.proper h.nonneg) h.proper hg.1, fun _ e => by cases e⟩
  obtain ⟨N, M, e1, e2, e3, e4, e5⟩ := this
  exact ⟨N, M, e1, e2, e3, e4, fun c hc ⟨g1, g2⟩ => e5 c hc ⟨g1, fun e _ => g2 e⟩⟩
end

theorem C109_means_parametric {p : Param} {m : Ingredients} (h : ParamIs p g m L) (hf : p.f2 = 1) (hl : (m.pop g).Shines g L) (k : Char)
    (hk : k ∈ ['t','x','y','z']) (b : PyStr) (hb : ValidPair (varOf k) b) :
    MeansNear (obj p.self) g L k b (fun c => (m.pop g).amount g L false b c ≠ 0) :=
  popAt_near (h.popAt hf (fun _ => hl) b) (h.popAt hf (by simp) b) hk hb fun _ _ _ hg hB => hB.amount_ne h.pop_ok h.proper hg

/-- Mixtures of plain and parametric components, given any variables but the velocity, where all members have stars (elsewhere nan, C29). -/
theorem C109_means_mixture {m : Mix} {n : ℕ} {ω : ℕ → ℝ} {pop : ℕ → Pop} (h : MixOf m g n ω pop L) (hl : ∀ i < n, (pop i).Shines g L)
    (hm : ∀ (i : ℕ) (hi : i < m.children.length), IsMember1 g L m.children[i] (pop i)) (k : Char)
    (hk : k ∈ ['t','x','y','z']) (b : PyStr) (hb : ValidPair (varOf k) b) (hv : 'v' ∉ b) :
    MeansNear (Mix.obj m) g L k b (fun c => (∀ i < n, (pop i).amount g L false b c ≠ 0) ∧ (b = [] → (mixPop n ω pop).amount g L false [] c = 1)) := by
  have := popAt_near (h.popAt (fun _ => hl) hm b (.inr hv)) (h.popAt (by simp) hm b (.inr hv)) hk hb fun c lo hi hg hB =>
    ⟨fun i hi => hB.amount_ne (h.ok hi) h.proper (hg.1 i hi), fun _ e => by cases e⟩
  obtain ⟨N, M, e1, e2, e3, e4, e5⟩ := this
  exact ⟨N, M, e1, e2, e3, e4, fun c hc ⟨g1, g2⟩ => e5 c hc ⟨g1, fun e _ => g2 e⟩⟩

/-- The velocity is left out for parametric components: here all stars that meet the condition are equally bright, and a probability by light is
more than twice that by mass. -/
theorem C109_velocity_wrong : ∃ (p : Param) (m : Ingredients) (c : Cell) (l : ℝ) (r r' : Arr Num) (u u' : ℝ), ParamIs p demoGrid m demoL ∧
    demoGrid.Has c ∧ BrightBetween demoGrid demoL l l ['t'] c ∧ (m.pop demoGrid).amount demoGrid demoL false ['t'] c ≠ 0 ∧
    getP p.self ['v','_','t'] false true = .ok r ∧ getP p.self ['v','_','t'] false false = .ok r' ∧
    r.get [c.v, c.t] = .fin u ∧ r'.get [c.v, c.t] = .fin u' ∧ ¬ FactorApart l l u u' := by
  obtain ⟨p, m, c, l, r, r', u, u', h, hc, hE, h0, h1, h2, h3, h4, h5, h6⟩ := C98_velocity_wrong
  refine ⟨p, m, c, l, r, r', u, u', h, hc, ⟨hE.pos, fun d hd e => ?_⟩, h0, h1, h2, h3, h4, fun k => ?_⟩
  · rw [hE.same d hd e]; exact ⟨le_rfl, le_rfl⟩
  · have := k.2
    rw [div_self hE.pos.ne', one_mul] at this
    linarith

/-! ### Examples -/

theorem demoL_between (b : PyStr) (c : Cell) : BrightBetween demoGrid demoL 1 2 b c :=
  ⟨one_pos, fun d hd _ => by
    have h : d.t < 2 := hd.1
    have h' : (d.t : ℝ) ≤ 1 := by exact_mod_cast Nat.le_of_lt_succ h
    have h'' : (0 : ℝ) ≤ d.t := Nat.cast_nonneg _
    unfold demoL
    constructor <;> linarith⟩

/-- A disk, and a mixture of two of them, whose old stars are twice as bright as the young ones. -/
example : ∃ (p : Param) (m : Ingredients) (mx : Mix), Describes demoGrid demoL true (obj p.self) (m.pop demoGrid) ∧ p.f2 = 1 ∧
    MixOf mx demoGrid 2 (fun _ => 1 / 2) (fun _ => m.pop demoGrid) demoL ∧ (m.pop demoGrid).Shines demoGrid demoL ∧
    (∀ (i : ℕ) (hi : i < mx.children.length), IsMember1 demoGrid demoL mx.children[i] (m.pop demoGrid)) ∧
    (∀ c, (m.pop demoGrid).amount demoGrid demoL false [] c = 1) ∧
    ∀ c, demoGrid.Has c → ∀ b ∈ [['x'], ['t','x'], ['x','z']], (m.pop demoGrid).amount demoGrid demoL false b c ≠ 0 ∧
      BrightBetween demoGrid demoL 1 2 b c := by
  obtain ⟨mx, p, -, h, hf, h1, h2⟩ := flatMix_exists (fun t => if t = 0 then 99 else 101)
  refine ⟨p, _, mx, .parametric h fun _ => flat_shines _, hf, h1, flat_shines _, h2, h.amount_nil, fun c hc b hb => ⟨?_, demoL_between b c⟩⟩
  have hv : 'v' ∉ b := by
    simp only [List.mem_cons, List.not_mem_nil, or_false] at hb
    rcases hb with rfl | rfl | rfl <;> decide
  simp only [List.mem_cons, List.not_mem_nil, or_false] at hb
  rcases hb with rfl | rfl | rfl <;> exact (ingr_amount_pos h demoL_pos hc (by rw [flat_probTXZ _ hc]; norm_num) rfl).ne'

/-- A plain component: the mean age by light is within half the distance between the two ages of that by mass. -/
example : ∃ (cube : IFUCube) (N M : Arr Num) (ν μ : ℝ), BaseIs cube demoStored demoGrid demoRho demoL ∧
    getMean (baseSelf cube demoStored) ['t','_','x'] true = .ok N ∧ getMean (baseSelf cube demoStored) ['t','_','x'] false = .ok M ∧
    N.get [1, 0] = .fin ν ∧ M.get [1, 0] = .fin μ ∧ |ν - μ| ≤ (centre (demoGrid.edge 't') 1 - centre (demoGrid.edge 't') 0) / 2 := by
  obtain ⟨cube, -, -, h, -, hl, -, h0⟩ := demoBase
  have hc : demoGrid.Has ⟨0, 0, 1, 0, 0⟩ := by
    refine ⟨?_, ?_, ?_, ?_, ?_⟩ <;> norm_num [demoGrid, cubeGrid]
  obtain ⟨N, M, e1, e2, -, -, e3⟩ := C109_means_plain h ((tablePop_shines h).2 hl) 't' (by decide) ['x'] (.inr (by decide +kernel))
  have ha : (tablePop demoGrid demoRho).amount demoGrid demoL false ['x'] ⟨0, 0, 1, 0, 0⟩ ≠ 0 := by
    rw [← mass_marg, tablePop_marginal h.proper h.nonneg]
    simpa [wtdP] using h0
  obtain ⟨ν, μ, e4, e5, e6⟩ := e3 _ hc ⟨ha, by simp⟩ 1 2 (demoL_between _ _)
  refine ⟨cube, N, M, ν, μ, h, e1, e2, e4, e5, e6.trans (le_of_eq ?_)⟩
  rw [show demoGrid.bins 't' - 1 = 1 from rfl]
  ring

end PKM
