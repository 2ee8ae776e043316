import Verif.ParamApi
import Verif.Props.MixMoments

/-!
# C32, C33: distributions of parametric components

`ParamIs p g m L`: `p` is a parametric component whose setters have been called, on a cube with the bins
of the proper grid `g`; its ingredients are `m` (`ParamSpec.lean`).
`getP p.self w density lw` is `component.get_p(w, density, light_weighted)`.
-/

open scoped Classical
open MeasureTheory

noncomputable section

namespace PKM
open Np Component

variable {p : Param} {g : Grid} {m : Ingredients} {L : ℕ → ℕ → ℝ}

/-! ### Specification and lemmas -/

theorem sumCells_noV (hg : g.Proper) {f : Cell → ℝ} (hf : ∀ c v, f { c with v := v } = f c) :
    g.sumCells (fun c => f c / g.nv) = Ingredients.sumTXZ g f := by
  have hn : (g.nv : ℝ) ≠ 0 := by have := hg.nv; positivity
  unfold Grid.sumCells Ingredients.sumTXZ
  refine Finset.sum_congr rfl fun t _ => ?_
  have e : ∀ v : Fin g.nv, (∑ x : Fin g.nx, ∑ y : Fin g.ny, ∑ z : Fin g.nz,
      f ⟨t, v, x, y, z⟩ / (g.nv : ℝ)) = (∑ x : Fin g.nx, ∑ y : Fin g.ny, ∑ z : Fin g.nz,
      f ⟨t, 0, x, y, z⟩) / (g.nv : ℝ) := by
    intro v
    simp only [div_eq_mul_inv, Finset.sum_mul]
    refine Finset.sum_congr rfl fun x _ => Finset.sum_congr rfl fun y _ => Finset.sum_congr rfl fun z _ => ?_
    rw [← hf ⟨t, v, x, y, z⟩ 0]
  rw [Finset.sum_congr rfl fun v _ => e v, Finset.sum_const, Finset.card_univ, Fintype.card_fin,
    nsmul_eq_mul]
  field_simp

theorem coords_noV {w : PyStr} (hv : 'v' ∉ w) (c : Cell) (v : ℕ) : coords w { c with v := v } = coords w c := by
  unfold coords
  refine List.flatMap_congr fun ch hch => ?_
  have : ch ≠ 'v' := fun e => hv (e ▸ hch)
  simp [coord1, this]

theorem totalLight_spread (hg : g.Proper) : totalLight g L (m.spread g) =
    Ingredients.sumTXZ g (fun d => L d.t d.z * m.probTXZ g d) := by
  rw [← sumCells_noV hg (f := fun d => L d.t d.z * m.probTXZ g d) (fun c v => rfl)]
  unfold totalLight
  congr 1; funext c
  unfold Ingredients.spread
  rw [mul_div_assoc]

/-- The tables of the lemma files are the specification. -/
theorem paramMarg_eq (hg : g.Proper) (lw : Bool) (w : PyStr) (c : Cell) :
    paramMarg g m L lw w c = m.marginal g L lw w c := by
  unfold paramMarg pick Ingredients.marginal
  split
  · unfold Grid.marg
    congr 1; funext d
    cases lw <;> rfl
  · next hv =>
    rw [← sumCells_noV hg]
    · unfold Grid.marg
      congr 1; funext d
      split
      · cases lw
        · rfl
        · have e := totalLight_spread (L := L) (m := m) hg
          unfold totalLight at e
          simp only [wtdP, if_true, Grid.lightP, Ingredients.weightTXZ, e]
          unfold Ingredients.spread
          rw [mul_div_assoc', div_right_comm]
      · simp
    · intro d v
      rw [coords_noV hv]
      rfl

theorem dvol_eq (g : Grid) (density : Bool) (w : PyStr) (c : Cell) :
    dvol g density w c = if density then g.volOf w c else 1 := rfl

/-! ### C32 -/

/-- The hypothesis under which light-weighted distributions exist: some stars shine. -/
def Shines (g : Grid) (m : Ingredients) (L : ℕ → ℕ → ℝ) : Prop :=
  0 < Ingredients.sumTXZ g (fun d => L d.t d.z * m.probTXZ g d)

theorem Shines.tot (hg : g.Proper) (h : Shines g m L) : 0 < totalLight g L (m.spread g) := by
  rw [totalLight_spread hg]; exact h

/-- All 15 marginals, both weightings, as probability or density, are the sums of
`p(t) p(x|t) p(v|t,x) p(z|t,x)` (times the light) over the other variables. -/
theorem C32_marginals (h : ParamIs p g m L) (density lw : Bool) (hl : lw = true → Shines g m L)
    (w : PyStr) (hw : w ∈ marginals) :
    ∃ q, getP p.self w density lw = .ok q ∧ q.shape = g.shapeOf w ∧ ∀ c, g.Has c →
      q.get (coords w c) = .fin (m.marginal g L lw w c / (if density then g.volOf w c else 1)) := by
  obtain ⟨q, h1, h2, h3⟩ := getP_marg_of_contract (h.contract lw fun e => (hl e).tot h.proper) density w hw
  refine ⟨q, h1, h2, fun c hc => ?_⟩
  rw [h3 c hc]
  beta_reduce
  rw [paramMarg_eq h.proper, dvol_eq]

/-- The 47 conditionals computed from joint and marginal; nan where the conditioners have no probability. -/
theorem C32_conditionals (h : ParamIs p g m L) (density lw : Bool) (hl : lw = true → Shines g m L)
    (a b : PyStr) (hab : (a, b) ∈ conditionals)
    (ho : (a, b) ∉ [(['x'],['t']), (['v'],['t','x']), (['z'],['t','x'])]) :
    ∃ q, getP p.self (condStr a b) density lw = .ok q ∧ q.shape = g.shapeOf a ++ g.shapeOf b ∧
    ∀ c, g.Has c → q.get (coords a c ++ coords b c) =
      if m.marginal g L lw b c = 0 then .nan
      else .fin (m.marginal g L lw (unionStr a b) c / m.marginal g L lw b c /
        (if density then g.volOf a c else 1)) := by
  obtain ⟨q, h1, h2, h3⟩ := getP_cond_of_contract (h.contract lw fun e => (hl e).tot h.proper) density
    (a, b) hab (p.logP_none _ hab ho)
  refine ⟨q, h1, by rw [h2, shapeOf_condStr], fun c hc => ?_⟩
  rw [← coords_condStr, h3 c hc]
  simp only [paramMarg_eq h.proper, dvol_eq, condTable]

/-- Mass-weighted `p(x|t)`, `p(v|t,x)`, `p(z|t,x)` are the ingredients themselves, also for ages and
pixels without any stars. -/
theorem C32_ingredients (h : ParamIs p g m L) (density : Bool) :
    (∃ q, getP p.self (condStr ['x'] ['t']) density false = .ok q ∧ q.shape = [g.nx, g.ny, g.nt] ∧
      ∀ c, g.Has c → q.get [c.x, c.y, c.t] = .fin (m.probX g c / (if density then g.volOf ['x'] c else 1))) ∧
    (∃ q, getP p.self (condStr ['v'] ['t','x']) density false = .ok q ∧ q.shape = [g.nv, g.nt, g.nx, g.ny] ∧
      ∀ c, g.Has c → q.get [c.v, c.t, c.x, c.y] = .fin (m.probV g c / (if density then g.volOf ['v'] c else 1))) ∧
    (∃ q, getP p.self (condStr ['z'] ['t','x']) density false = .ok q ∧ q.shape = [g.nz, g.nt, g.nx, g.ny] ∧
      ∀ c, g.Has c → q.get [c.z, c.t, c.x, c.y] = .fin (m.probZ g c / (if density then g.volOf ['z'] c else 1))) :=
  ⟨h.getP_xt density, h.getP_vtx density, h.getP_ztx density⟩

/-- Light-weighted `p(x|t)`, `p(v|t,x)`, `p(z|t,x)`: ratios of light-weighted sums. The velocity
distribution is renormalised to the velocity grid here. -/
theorem C32_light_ingredients (h : ParamIs p g m L) (density : Bool) (hl : Shines g m L) :
    (∃ q, getP p.self (condStr ['x'] ['t']) density true = .ok q ∧ q.shape = [g.nx, g.ny, g.nt] ∧
      ∀ c, g.Has c → q.get [c.x, c.y, c.t] = if m.marginal g L true ['t'] c = 0 then .nan else
        .fin (m.marginal g L true ['t','x'] c / m.marginal g L true ['t'] c /
          (if density then g.volOf ['x'] c else 1))) ∧
    (∃ q, getP p.self (condStr ['v'] ['t','x']) density true = .ok q ∧ q.shape = [g.nv, g.nt, g.nx, g.ny] ∧
      ∀ c, g.Has c → q.get [c.v, c.t, c.x, c.y] =
        if g.marg (m.weight g L true) ['t','x'] c = 0 then .nan else
        .fin (m.marginal g L true ['t','v','x'] c / g.marg (m.weight g L true) ['t','x'] c /
          (if density then g.volOf ['v'] c else 1))) ∧
    (∃ q, getP p.self (condStr ['z'] ['t','x']) density true = .ok q ∧ q.shape = [g.nz, g.nt, g.nx, g.ny] ∧
      ∀ c, g.Has c → q.get [c.z, c.t, c.x, c.y] = if m.marginal g L true ['t','x'] c = 0 then .nan else
        .fin (m.marginal g L true ['t','x','z'] c / m.marginal g L true ['t','x'] c /
          (if density then g.volOf ['z'] c else 1))) := by
  have hl' := hl.tot h.proper
  have e1 := fun c => paramMarg_eq (m := m) (L := L) h.proper true ['t'] c
  have e2 := fun c => paramMarg_eq (m := m) (L := L) h.proper true ['t','x'] c
  have e3 := fun c => paramMarg_eq (m := m) (L := L) h.proper true ['t','x','z'] c
  refine ⟨?_, ?_, ?_⟩
  · obtain ⟨q, h1, h2, h3⟩ := h.getP_xt_light density hl'
    refine ⟨q, h1, h2, fun c hc => ?_⟩
    rw [← e1, ← e2]
    exact h3 c hc
  · obtain ⟨q, h1, h2, h3⟩ := h.getP_vtx_light density hl'
    refine ⟨q, h1, h2, fun c hc => ?_⟩
    exact h3 c hc
  · obtain ⟨q, h1, h2, h3⟩ := h.getP_ztx_light density hl'
    refine ⟨q, h1, h2, fun c hc => ?_⟩
    rw [← e2, ← e3]
    exact h3 c hc

/-! ### C33 -/

/-- Probability of the velocity range, given age and pixel. -/
def probRange (g : Grid) (m : Ingredients) (c : Cell) : ℝ :=
  (normal (m.mu c.t c.x c.y) (m.sig c.t c.x c.y)).real (Set.Ioc (g.v 0) (g.v g.nv))

theorem sum_probV (h : ParamIs p g m L) {c : Cell} (hc : g.Has c) :
    ∑ v : Fin g.nv, m.probV g { c with v := v } = probRange g m c := by
  have hσ := h.norm.sig c.t c.x c.y
  have hmono : ∀ n ≤ g.nv, g.v 0 ≤ g.v n := by
    intro n
    induction n with
    | zero => simp
    | succ n ih => intro hn; exact (ih (by omega)).trans (h.proper.v n (by omega)).le
  have key : ∀ n ≤ g.nv, ∑ v ∈ Finset.range n, m.probV g { c with v := v } =
      stdPhi ((g.v n - m.mu c.t c.x c.y) / m.sig c.t c.x c.y) -
      stdPhi ((g.v 0 - m.mu c.t c.x c.y) / m.sig c.t c.x c.y) := by
    intro n
    induction n with
    | zero => simp
    | succ n ih =>
      intro hn
      rw [Finset.sum_range_succ, ih (by omega)]
      show _ + (normal _ _).real (Set.Ioc (g.v n) (g.v (n + 1))) = _
      rw [normal_Ioc hσ (h.proper.v n (by omega)).le]
      ring
  rw [Fin.sum_univ_eq_sum_range (fun v => m.probV g { c with v := v }), key _ le_rfl]
  unfold probRange
  rw [normal_Ioc hσ (hmono _ le_rfl)]

theorem probRange_lt_one (h : ParamIs p g m L) (c : Cell) : probRange g m c < 1 := by
  have hσ := h.norm.sig c.t c.x c.y
  unfold probRange
  rcases le_total (g.v 0) (g.v g.nv) with h1 | h1
  · rw [normal_Ioc hσ h1]
    have := stdPhi_lt_one ((g.v g.nv - m.mu c.t c.x c.y) / m.sig c.t c.x c.y)
    have := stdPhi_nonneg ((g.v 0 - m.mu c.t c.x c.y) / m.sig c.t c.x c.y)
    linarith
  · rw [Set.Ioc_eq_empty (not_lt.2 h1)]; simp

/-- `p(v|t,x)`: each bin carries the Gaussian probability `Phi(upper) - Phi(lower)`, and the bins sum to
the probability of the velocity range, which is less than one. -/
theorem C33_velocity_bins (h : ParamIs p g m L) :
    ∃ q, getP p.self ['v','_','t','x'] false false = .ok q ∧ q.shape = [g.nv, g.nt, g.nx, g.ny] ∧
    ∀ c, g.Has c →
      q.get [c.v, c.t, c.x, c.y] = .fin (stdPhi ((g.v (c.v + 1) - m.mu c.t c.x c.y) / m.sig c.t c.x c.y) -
        stdPhi ((g.v c.v - m.mu c.t c.x c.y) / m.sig c.t c.x c.y)) ∧
      ∑ v : Fin g.nv, q.get [v, c.t, c.x, c.y] = .fin (probRange g m c) ∧ probRange g m c < 1 := by
  obtain ⟨q, h1, h2, h3⟩ := (C32_ingredients h false).2.1
  refine ⟨q, h1, h2, fun c hc => ⟨?_, ?_, probRange_lt_one h c⟩⟩
  · rw [h3 c hc, Ingredients.probV, normal_Ioc (h.norm.sig _ _ _) (h.proper.v _ hc.2.1).le]
    simp
  · rw [← sum_probV h hc]
    refine Num.sum_congr_fin _ _ _ fun v _ => ?_
    have := h3 { c with v := v } ⟨hc.1, v.2, hc.2.2⟩
    rw [this]
    simp

/-- The velocity density is the bin probability over the bin width. -/
theorem C33_density (h : ParamIs p g m L) :
    ∃ q, getP p.self ['v','_','t','x'] true false = .ok q ∧ q.shape = [g.nv, g.nt, g.nx, g.ny] ∧
    ∀ c, g.Has c → q.get [c.v, c.t, c.x, c.y] =
      .fin ((stdPhi ((g.v (c.v + 1) - m.mu c.t c.x c.y) / m.sig c.t c.x c.y) -
        stdPhi ((g.v c.v - m.mu c.t c.x c.y) / m.sig c.t c.x c.y)) / (g.v (c.v + 1) - g.v c.v)) := by
  obtain ⟨q, h1, h2, h3⟩ := (C32_ingredients h true).2.1
  refine ⟨q, h1, h2, fun c hc => ?_⟩
  rw [h3 c hc, Ingredients.probV, normal_Ioc (h.norm.sig _ _ _) (h.proper.v _ hc.2.1).le]
  simp [volOf_v, width]

/-- Consequence, and disagreement with C09 for plain components: summing `p(t,v)` over the velocity
bins does not give `p(t)` but less, wherever there are stars. -/
theorem C32_truncated (h : ParamIs p g m L) :
    ∃ q r, getP p.self ['t','v'] false false = .ok q ∧ getP p.self ['t'] false false = .ok r ∧
    ∀ t < g.nt, ∃ s u : ℝ, ∑ v : Fin g.nv, q.get [t, v] = .fin s ∧ r.get [t] = .fin u ∧
      (0 < m.pt t → s < u) := by
  obtain ⟨q, h1, h2, h3⟩ := C32_marginals h false false (by simp) ['t','v'] (by decide)
  obtain ⟨r, h4, h5, h6⟩ := C32_marginals h false false (by simp) ['t'] (by decide)
  refine ⟨q, r, h1, h4, fun t ht => ?_⟩
  have hp := h.proper
  have hc : ∀ v < g.nv, g.Has ⟨t, v, 0, 0, 0⟩ := fun v hv => ⟨ht, hv, hp.nx, hp.ny, hp.nz⟩
  refine ⟨_, _, Num.sum_congr_fin _ _ _ fun v _ => h3 ⟨t, v, 0, 0, 0⟩ (hc v v.2),
    h6 ⟨t, 0, 0, 0, 0⟩ (hc 0 hp.nv), fun hpt => ?_⟩
  simp only [Bool.false_eq_true, if_false, div_one]
  have e1 : ∀ v : Fin g.nv, m.marginal g L false ['t','v'] ⟨t, v, 0, 0, 0⟩ =
      ∑ x : Fin g.nx, ∑ y : Fin g.ny, ∑ z : Fin g.nz, m.joint g ⟨t, v, x, y, z⟩ := by
    intro v
    simp only [Ingredients.marginal, Ingredients.weight, Grid.sumCells, coords, coord1, Bool.false_eq_true,
      if_false, List.mem_cons, List.flatMap_cons, List.flatMap_nil]
    rw [if_pos (by decide), Finset.sum_eq_single (⟨t, ht⟩ : Fin g.nt), Finset.sum_eq_single v]
    · simp
    · intro v' _ hv'
      refine Finset.sum_eq_zero fun x _ => Finset.sum_eq_zero fun y _ => Finset.sum_eq_zero fun z _ => ?_
      rw [if_neg]; simp; exact fun e => hv' (Fin.ext e)
    · simp
    · intro t' _ ht'
      refine Finset.sum_eq_zero fun v' _ => Finset.sum_eq_zero fun x _ => Finset.sum_eq_zero fun y _ =>
        Finset.sum_eq_zero fun z _ => ?_
      rw [if_neg]; simp; exact fun e _ => ht' (Fin.ext e)
    · simp
  have e2 : m.marginal g L false ['t'] ⟨t, 0, 0, 0, 0⟩ =
      ∑ x : Fin g.nx, ∑ y : Fin g.ny, ∑ z : Fin g.nz, m.probTXZ g ⟨t, 0, x, y, z⟩ := by
    simp only [Ingredients.marginal, Ingredients.weightTXZ, Ingredients.sumTXZ, coords, coord1, Bool.false_eq_true,
      if_false, List.mem_cons, List.flatMap_cons, List.flatMap_nil]
    rw [if_neg (by decide), Finset.sum_eq_single (⟨t, ht⟩ : Fin g.nt)]
    · simp
    · intro t' _ ht'
      refine Finset.sum_eq_zero fun x _ => Finset.sum_eq_zero fun y _ => Finset.sum_eq_zero fun z _ => ?_
      rw [if_neg]; simp; exact fun e => ht' (Fin.ext e)
    · simp
  rw [e2, Finset.sum_congr rfl fun v _ => e1 v]
  have e3 : ∑ v : Fin g.nv, ∑ x : Fin g.nx, ∑ y : Fin g.ny, ∑ z : Fin g.nz, m.joint g ⟨t, v, x, y, z⟩ =
      ∑ x : Fin g.nx, ∑ y : Fin g.ny, ∑ z : Fin g.nz, m.probTXZ g ⟨t, 0, x, y, z⟩ *
        probRange g m ⟨t, 0, x, y, z⟩ := by
    rw [Finset.sum_comm]; refine Finset.sum_congr rfl fun x _ => ?_
    rw [Finset.sum_comm]; refine Finset.sum_congr rfl fun y _ => ?_
    rw [Finset.sum_comm]; refine Finset.sum_congr rfl fun z _ => ?_
    rw [← sum_probV h (c := ⟨t, 0, x, y, z⟩) ⟨ht, hp.nv, x.2, y.2, z.2⟩, Finset.mul_sum]
    rfl
  rw [e3]
  have hnn : ∀ (x : Fin g.nx) (y : Fin g.ny) (z : Fin g.nz), 0 ≤ m.probTXZ g ⟨t, 0, x, y, z⟩ := fun x y z => by
    have hc' : g.Has ⟨t, 0, x, y, z⟩ := ⟨ht, hp.nv, x.2, y.2, z.2⟩
    exact mul_nonneg (mul_nonneg (h.norm.probT_nonneg hp hc') (h.norm.probX_nonneg hp hc'))
      (h.norm.probZ_nonneg hp hc')
  have hle : ∀ (x : Fin g.nx) (y : Fin g.ny) (z : Fin g.nz), m.probTXZ g ⟨t, 0, x, y, z⟩ *
      probRange g m ⟨t, 0, x, y, z⟩ ≤ m.probTXZ g ⟨t, 0, x, y, z⟩ := fun x y z =>
    mul_le_of_le_one_right (hnn x y z) (probRange_lt_one h _).le
  have htot : 0 < ∑ x : Fin g.nx, ∑ y : Fin g.ny, ∑ z : Fin g.nz, m.probTXZ g ⟨t, 0, x, y, z⟩ := by
    have : ∑ x : Fin g.nx, ∑ y : Fin g.ny, ∑ z : Fin g.nz, m.probTXZ g ⟨t, 0, x, y, z⟩ = m.pt t * width g.t t := by
      have e : ∀ (x : Fin g.nx) (y : Fin g.ny), ∑ z : Fin g.nz, m.probTXZ g ⟨t, 0, x, y, z⟩ =
          (m.pt t * width g.t t) * (m.px t x y * (width g.x x * width g.y y)) := by
        intro x y
        have := h.norm.sumZ t ht x x.2 y y.2
        simp only [Ingredients.probTXZ, Ingredients.probT, Ingredients.probX, Ingredients.probZ]
        rw [← Finset.mul_sum, this, mul_one]
      simp only [e, ← Finset.mul_sum]
      rw [h.norm.sumX t ht, mul_one]
    rw [this]
    exact mul_pos hpt (sub_pos.2 (hp.t t ht))
  obtain ⟨x, -, hx⟩ : ∃ x ∈ Finset.univ, 0 < ∑ y : Fin g.ny, ∑ z : Fin g.nz, m.probTXZ g ⟨t, 0, (x : Fin g.nx), y, z⟩ := by
    by_contra hcon
    push Not at hcon
    exact absurd htot (not_lt.2 (Finset.sum_nonpos hcon))
  obtain ⟨y, -, hy⟩ : ∃ y ∈ Finset.univ, 0 < ∑ z : Fin g.nz, m.probTXZ g ⟨t, 0, x, (y : Fin g.ny), z⟩ := by
    by_contra hcon
    push Not at hcon
    exact absurd hx (not_lt.2 (Finset.sum_nonpos hcon))
  obtain ⟨z, -, hz⟩ : ∃ z ∈ Finset.univ, 0 < m.probTXZ g ⟨t, 0, x, y, (z : Fin g.nz)⟩ := by
    by_contra hcon
    push Not at hcon
    exact absurd hy (not_lt.2 (Finset.sum_nonpos hcon))
  refine Finset.sum_lt_sum (fun x _ => Finset.sum_le_sum fun y _ => Finset.sum_le_sum fun z _ => hle x y z)
    ⟨x, Finset.mem_univ _, Finset.sum_lt_sum (fun y _ => Finset.sum_le_sum fun z _ => hle x y z)
      ⟨y, Finset.mem_univ _, Finset.sum_lt_sum (fun z _ => hle x y z) ⟨z, Finset.mem_univ _, ?_⟩⟩⟩
  exact mul_lt_of_lt_one_right hz (probRange_lt_one h _)

end PKM
