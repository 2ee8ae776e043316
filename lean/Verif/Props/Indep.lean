import Verif.Props.EquallyBright
import Verif.Props.Truncation

/-!
# C99: given age and position, velocity and metallicity of a disk or stream are independent

The code draws both from distributions that depend on age and position only. Conditionals on both age and position must not show one in the other.
-/

open scoped Classical

noncomputable section

namespace PKM
open Np Component

variable {g : Grid} {L : ℕ → ℕ → ℝ} {lw : Bool} {p : Param} {m : Ingredients} {c : Cell}

/-! ### Lemmas -/

theorem sum_tvx (hc : g.Has c) (F : Cell → ℝ) : g.sumCells (fun d => if coords ['t','v','x'] d = coords ['t','v','x'] c then F d else 0) =
    Ingredients.sumTXZ g (fun d => if coords ['t','x'] d = coords ['t','x'] c then F { d with v := c.v } else 0) := by
  rw [sumCells_sumV]
  congr 1; funext d
  rw [Finset.sum_eq_single ⟨c.v, hc.2.1⟩]
  · refine if_congr ?_ rfl rfl
    simp [coords, coord1]
  · intro v _ hv
    rw [if_neg]
    intro e
    have : (v : ℕ) = c.v := by
      simp [coords, coord1] at e
      exact e.2.1
    exact hv (Fin.ext this)
  · simp

theorem probV_at {d : Cell} (e : coords ['t','x'] d = coords ['t','x'] c) : m.probV g { d with v := c.v } = m.probV g c := by
  simp only [coords, coord1, List.flatMap_cons, List.flatMap_nil] at e
  simp at e
  obtain ⟨e1, e2, e3⟩ := e
  unfold Ingredients.probV
  rw [e1, e2, e3]

/-- Sums over the stars of one age, position and bin of velocity. -/
theorem sum_joint_tvx (hc : g.Has c) (f : Cell → ℝ) (hf : ∀ d v, f { d with v := v } = f d) :
    g.sumCells (fun d => if coords ['t','v','x'] d = coords ['t','v','x'] c then f d * (m.pop g).joint d else 0) =
      m.probV g c * Ingredients.sumTXZ g (fun d => if coords ['t','x'] d = coords ['t','x'] c then f d * (m.pop g).stars d else 0) := by
  rw [sum_tvx hc, ← sumTXZ_unit]
  congr 1; funext d
  split
  · next e =>
    rw [ingr_stars, hf]
    show f d * (m.probTXZ g _ * m.probV g _) = _
    rw [probV_at e]
    show f d * (m.probTXZ g d * _) = _
    ring
  · simp

theorem amount_tvx (hc : g.Has c) : (m.pop g).amount g L lw ['t','v','x'] c = m.probV g c * (m.pop g).amount g L lw ['t','x'] c := by
  unfold Pop.amount
  rw [if_pos (by decide), if_neg (by decide)]
  exact sum_joint_tvx hc (fun d => Pop.wt L lw d) fun _ _ => rfl

theorem amount_txz (hc : g.Has c) : (m.pop g).amount g L lw ['t','x','z'] c = Pop.wt L lw c * m.probTXZ g c := by
  unfold Pop.amount
  rw [if_neg (by decide), ingr_stars, sumTXZ_point (fun d => Pop.wt L lw d * m.probTXZ g d) hc]
  rfl

theorem amount_tvxz (hc : g.Has c) : (m.pop g).amount g L lw ['t','v','x','z'] c = m.probV g c * (m.pop g).amount g L lw ['t','x','z'] c := by
  rw [amount_txz hc]
  unfold Pop.amount
  rw [if_pos (by decide)]
  have e : ∀ d, (coords ['t','v','x','z'] d = coords ['t','v','x','z'] c) ↔ (coords ['t','v','x'] d = coords ['t','v','x'] c ∧ d.z = c.z) := fun d => by
    simp [coords, coord1]
    tauto
  have e' : ∀ d, (coords ['t','x','z'] d = coords ['t','x','z'] c) ↔ (coords ['t','x'] d = coords ['t','x'] c ∧ d.z = c.z) := fun d => by
    simp [coords, coord1]
    tauto
  have := sum_joint_tvx (m := m) hc (fun d => if d.z = c.z then Pop.wt L lw d else 0) fun _ _ => rfl
  have h1 : g.sumCells (fun d => if coords ['t','v','x','z'] d = coords ['t','v','x','z'] c then Pop.wt L lw d * (m.pop g).joint d else 0) =
      g.sumCells (fun d => if coords ['t','v','x'] d = coords ['t','v','x'] c then (if d.z = c.z then Pop.wt L lw d else 0) * (m.pop g).joint d else 0) := by
    congr 1; funext d
    rw [if_congr (e d) rfl rfl]
    by_cases k : coords ['t','v','x'] d = coords ['t','v','x'] c <;> by_cases k' : d.z = c.z <;> simp [k, k']
  have h2 : Ingredients.sumTXZ g (fun d => if coords ['t','x'] d = coords ['t','x'] c then (if d.z = c.z then Pop.wt L lw d else 0) * (m.pop g).stars d else 0) =
      Pop.wt L lw c * m.probTXZ g c := by
    rw [show Pop.wt L lw c * m.probTXZ g c = (fun d => Pop.wt L lw d * (m.pop g).stars d) ⟨c.t, 0, c.x, c.y, c.z⟩ by
      rw [ingr_stars]; rfl]
    refine Eq.trans ?_ (sumTXZ_point (fun d => Pop.wt L lw d * (m.pop g).stars d) hc)
    congr 1; funext d
    rw [if_congr (e' d) rfl rfl]
    by_cases k : coords ['t','x'] d = coords ['t','x'] c <;> by_cases k' : d.z = c.z <;> simp [k, k']
  rw [h1, this, h2]

theorem light_v {w : PyStr} (hw : 'v' ∈ w) : (m.pop g).marginal g L lw w c =
    (m.pop g).amount g L lw w c / (if lw then (m.pop g).lightOf g L ['v'] else 1) := by
  rw [Pop.marginal, lightOf_velocity hw]

theorem light_other {w : PyStr} (hw : 'v' ∉ w) : (m.pop g).marginal g L lw w c =
    (m.pop g).amount g L lw w c / (if lw then (m.pop g).lightOf g L ['t','x','z'] else 1) := by
  rw [Pop.marginal, lightOf_other hw]

section
variable (h : ParamIs p g m L) (hl : lw = true → (m.pop g).Shines g L)
include h hl

theorem lights_ne : (if lw then (m.pop g).lightOf g L ['v'] else 1) ≠ 0 ∧ (if lw then (m.pop g).lightOf g L ['t','x','z'] else 1) ≠ 0 := by
  constructor
  all_goals
    split
    · next e => exact h.pop_ok.light_ne h.proper h.lightNonneg (hl e) _
    · exact one_ne_zero

/-- The metallicity given age and position, in both weightings. -/
theorem ztx_is (density : Bool) : ∃ r, getP p.self ['z','_','t','x'] density lw = .ok r ∧ r.shape = [g.nz, g.nt, g.nx, g.ny] ∧
    ∀ c, g.Has c → (m.pop g).amount g L lw ['t','x'] c ≠ 0 → r.get [c.z, c.t, c.x, c.y] =
      .fin ((m.pop g).amount g L lw ['t','x','z'] c / (m.pop g).amount g L lw ['t','x'] c / (if density then g.volOf ['z'] c else 1)) := by
  obtain ⟨-, n⟩ := lights_ne h hl
  cases lw with
  | false =>
    obtain ⟨-, -, r, h1, h2, h3⟩ := C32_ingredients h density
    refine ⟨r, h1, h2, fun c hc h0 => ?_⟩
    rw [h3 c hc, amount_txz hc, h.amount_tx hc]
    rw [h.amount_tx hc] at h0
    rw [show Pop.wt L false c * m.probTXZ g c = m.probT g c * m.probX g c * m.probZ g c by
      simp [Pop.wt, Ingredients.probTXZ], mul_div_cancel_left₀ _ h0]
  | true =>
    obtain ⟨-, -, r, h1, h2, h3⟩ := C32_light_ingredients h density (param_shines.1 (hl rfl))
    refine ⟨r, h1, h2, fun c hc h0 => ?_⟩
    rw [h3 c hc, ← ingr_marginal h, ← ingr_marginal h, light_other (by decide), light_other (by decide), if_neg (div_ne_zero h0 n),
      div_div_div_cancel_right₀ n]

/-- **C99** Given age and position, the distribution of metallicity does not depend on velocity, by mass or by light. -/
theorem C99_metallicity (density : Bool) : ∃ r r', getP p.self ['z','_','t','v','x'] density lw = .ok r ∧
    getP p.self ['z','_','t','x'] density lw = .ok r' ∧ r.shape = [g.nz, g.nt, g.nv, g.nx, g.ny] ∧ r'.shape = [g.nz, g.nt, g.nx, g.ny] ∧
    ∀ c, g.Has c → (m.pop g).amount g L lw ['t','v','x'] c ≠ 0 →
      r.get [c.z, c.t, c.v, c.x, c.y] = r'.get [c.z, c.t, c.x, c.y] ∧ ∃ u : ℝ, r'.get [c.z, c.t, c.x, c.y] = .fin u := by
  obtain ⟨r, h1, h2, h3⟩ := C32_conditionals h density lw (fun e => param_shines.1 (hl e)) ['z'] ['t','v','x'] (by decide +kernel) (by decide)
  obtain ⟨r', h1', h2', h3'⟩ := ztx_is h hl density
  obtain ⟨n, -⟩ := lights_ne h hl
  refine ⟨r, r', h1, h1', h2, h2', fun c hc h0 => ?_⟩
  have k := amount_tvx (L := L) (lw := lw) (m := m) hc
  rw [k] at h0
  have kv := left_ne_zero_of_mul h0
  have kx := right_ne_zero_of_mul h0
  have e := h3 c hc
  rw [← ingr_marginal h, ← ingr_marginal h, show unionStr ['z'] ['t','v','x'] = ['t','v','x','z'] by decide, light_v (by decide), light_v (by decide),
    if_neg (div_ne_zero (by rw [k]; exact h0) n), div_div_div_cancel_right₀ n, k, amount_tvxz hc, mul_div_mul_left _ _ kv] at e
  rw [h3' c hc kx]
  exact ⟨e, _, rfl⟩

/-- The velocity given age, position and metallicity. -/
theorem vtxz_is (density : Bool) : ∃ r, getP p.self ['v','_','t','x','z'] density lw = .ok r ∧ r.shape = [g.nv, g.nt, g.nx, g.ny, g.nz] ∧
    ∀ c, g.Has c → (m.pop g).amount g L lw ['t','x','z'] c ≠ 0 → r.get [c.v, c.t, c.x, c.y, c.z] =
      .fin (m.probV g c * ((if lw then (m.pop g).lightOf g L ['t','x','z'] else 1) / (if lw then (m.pop g).lightOf g L ['v'] else 1)) /
        (if density then g.volOf ['v'] c else 1)) := by
  obtain ⟨r, h1, h2, h3⟩ := C32_conditionals h density lw (fun e => param_shines.1 (hl e)) ['v'] ['t','x','z'] (by decide +kernel) (by decide)
  obtain ⟨n, n'⟩ := lights_ne h hl
  refine ⟨r, h1, h2, fun c hc h0 => ?_⟩
  have e := h3 c hc
  rw [← ingr_marginal h, ← ingr_marginal h, show unionStr ['v'] ['t','x','z'] = ['t','v','x','z'] by decide, light_v (w := ['t','v','x','z']) (by decide),
    light_other (w := ['t','x','z']) (by decide), if_neg (div_ne_zero h0 n'), amount_tvxz hc] at e
  refine Eq.trans e (congrArg (fun x => Num.fin (x / _)) ?_)
  field_simp

/-- **C99** Given age and position, the distribution of velocity is the same for all metallicities of which there are stars, by mass and by light. -/
theorem C99_velocity (density : Bool) : ∃ r, getP p.self ['v','_','t','x','z'] density lw = .ok r ∧ r.shape = [g.nv, g.nt, g.nx, g.ny, g.nz] ∧
    ∀ c z, g.Has c → z < g.nz → (m.pop g).amount g L lw ['t','x','z'] c ≠ 0 → (m.pop g).amount g L lw ['t','x','z'] { c with z := z } ≠ 0 →
      r.get [c.v, c.t, c.x, c.y, c.z] = r.get [c.v, c.t, c.x, c.y, z] ∧ ∃ u : ℝ, r.get [c.v, c.t, c.x, c.y, z] = .fin u := by
  obtain ⟨r, h1, h2, h3⟩ := vtxz_is h hl density
  refine ⟨r, h1, h2, fun c z hc hz h0 h0' => ?_⟩
  have := h3 { c with z := z } ⟨hc.1, hc.2.1, hc.2.2.1, hc.2.2.2.1, hz⟩ h0'
  rw [h3 c hc h0]
  exact ⟨this.symm, _, this⟩

/-- **C99** The joint distribution of velocity and metallicity given age and position is a product: by mass and by light, swapping the metallicities of
two cells does not change the product of their probabilities. -/
theorem C99_joint (density : Bool) : ∃ r, getP p.self ['v','z','_','t','x'] density lw = .ok r ∧ r.shape = [g.nv, g.nz, g.nt, g.nx, g.ny] ∧
    ∀ c v z, g.Has c → v < g.nv → z < g.nz → (m.pop g).amount g L lw ['t','x'] c ≠ 0 →
      r.get [c.v, c.z, c.t, c.x, c.y] * r.get [v, z, c.t, c.x, c.y] = r.get [c.v, z, c.t, c.x, c.y] * r.get [v, c.z, c.t, c.x, c.y] ∧
      ∃ u : ℝ, r.get [c.v, c.z, c.t, c.x, c.y] = .fin u := by
  obtain ⟨r, h1, h2, h3⟩ := C32_conditionals h density lw (fun e => param_shines.1 (hl e)) ['v','z'] ['t','x'] (by decide +kernel) (by decide)
  obtain ⟨n, n'⟩ := lights_ne h hl
  refine ⟨r, h1, h2, fun c v z hc hv hz h0 => ?_⟩
  have key : ∀ d, g.Has d → d.t = c.t → d.x = c.x → d.y = c.y → r.get [d.v, d.z, c.t, c.x, c.y] =
      .fin (m.probV g { c with v := d.v } * (m.pop g).amount g L lw ['t','x','z'] { c with z := d.z } / (if lw then (m.pop g).lightOf g L ['v'] else 1) /
        (m.pop g).marginal g L lw ['t','x'] c / (if density then width g.v d.v * width g.z d.z else 1)) := by
    rintro ⟨t, v, x, y, z⟩ hd rfl rfl rfl
    have e := h3 _ hd
    have em : (m.pop g).marginal g L lw ['t','x'] ⟨c.t, v, c.x, c.y, z⟩ = (m.pop g).marginal g L lw ['t','x'] c := rfl
    rw [← ingr_marginal h, ← ingr_marginal h, show unionStr ['v','z'] ['t','x'] = ['t','v','x','z'] by decide, light_v (w := ['t','v','x','z']) (by decide), em,
      if_neg (by rw [light_other (by decide)]; exact div_ne_zero h0 n'), amount_tvxz hd] at e
    have ev : g.volOf ['v','z'] ⟨c.t, v, c.x, c.y, z⟩ = width g.v v * width g.z z := by simp [Grid.volOf, Grid.width1]
    rw [ev] at e
    exact e
  have hH : ∀ a < g.nv, ∀ b < g.nz, g.Has ⟨c.t, a, c.x, c.y, b⟩ := fun a ha b hb => ⟨hc.1, ha, hc.2.2.1, hc.2.2.2.1, hb⟩
  have k1 := key ⟨c.t, c.v, c.x, c.y, c.z⟩ (hH _ hc.2.1 _ hc.2.2.2.2) rfl rfl rfl
  have k2 := key ⟨c.t, v, c.x, c.y, z⟩ (hH _ hv _ hz) rfl rfl rfl
  have k3 := key ⟨c.t, c.v, c.x, c.y, z⟩ (hH _ hc.2.1 _ hz) rfl rfl rfl
  have k4 := key ⟨c.t, v, c.x, c.y, c.z⟩ (hH _ hv _ hc.2.2.2.2) rfl rfl rfl
  refine ⟨?_, _, k1⟩
  beta_reduce at k1 k2 k3 k4
  rw [k1, k2, k3, k4, Num.fin_mul, Num.fin_mul]
  congr 1
  cases density <;> simp only [if_true, Bool.false_eq_true, if_false] <;> ring

end

/-- **C99** By mass, given age and position: the distribution of velocity given the metallicity too is the one not given it, and the joint distribution of
velocity and metallicity is the product of the two. -/
theorem C99_mass (h : ParamIs p g m L) (density : Bool) : ∃ rv rz rj rc, getP p.self ['v','_','t','x'] density false = .ok rv ∧
    getP p.self ['z','_','t','x'] density false = .ok rz ∧ getP p.self ['v','z','_','t','x'] density false = .ok rj ∧
    getP p.self ['v','_','t','x','z'] density false = .ok rc ∧
    ∀ c, g.Has c →
      ((m.pop g).amount g L false ['t','x'] c ≠ 0 →
        rj.get [c.v, c.z, c.t, c.x, c.y] = rv.get [c.v, c.t, c.x, c.y] * rz.get [c.z, c.t, c.x, c.y]) ∧
      ((m.pop g).amount g L false ['t','x','z'] c ≠ 0 → rc.get [c.v, c.t, c.x, c.y, c.z] = rv.get [c.v, c.t, c.x, c.y]) := by
  obtain ⟨-, ⟨rv, v1, -, v3⟩, rz, z1, -, z3⟩ := C32_ingredients h density
  obtain ⟨rc, c1, -, c3⟩ := vtxz_is h (lw := false) (by simp) density
  obtain ⟨rj, j1, -, j3⟩ := C32_conditionals h density false (by simp) ['v','z'] ['t','x'] (by decide +kernel) (by decide)
  refine ⟨rv, rz, rj, rc, v1, z1, j1, c1, fun c hc => ⟨fun h0 => ?_, fun h0 => ?_⟩⟩
  · have e := j3 c hc
    have ev : g.volOf ['v','z'] c = g.volOf ['v'] c * g.volOf ['z'] c := by simp [Grid.volOf, Grid.width1]
    rw [mass_marginal h, mass_marginal h, show unionStr ['v','z'] ['t','x'] = ['t','v','x','z'] by decide, if_neg h0, amount_tvxz hc, amount_txz hc,
      h.amount_tx hc, ev] at e
    rw [h.amount_tx hc] at h0
    rw [v3 c hc, z3 c hc, Num.fin_mul]
    refine Eq.trans e (congrArg Num.fin ?_)
    rw [show Pop.wt L false c * m.probTXZ g c = m.probT g c * m.probX g c * m.probZ g c by simp [Pop.wt, Ingredients.probTXZ],
      mul_left_comm, mul_div_cancel_left₀ _ h0]
    cases density
    · simp
    · simp only [if_true]
      rw [mul_div_mul_comm]
  · rw [c3 c hc h0, v3 c hc]
    simp

/-! ### Moments -/

theorem expect_z (hc : g.Has c) (h0 : m.probV g c ≠ 0) (φ : ℝ → ℝ) :
    (m.pop g).expect g L lw ['t','v','x'] 'z' φ c = (m.pop g).expect g L lw ['t','x'] 'z' φ c := by
  unfold Pop.expect
  rw [if_neg (by decide), if_pos (by decide), if_neg (by decide), if_neg (by decide), amount_tvx hc]
  have := sum_joint_tvx (m := m) hc (fun d => Pop.wt L lw d * φ (g.value 'z' d)) fun d v => by
    rw [value_noV (by decide)]; rfl
  simp only [mul_assoc] at this
  rw [this, mul_div_mul_left _ _ h0]

theorem expect_v (hg : g.Proper) {b : PyStr} (hb : 't' ∈ b) (hx : 'x' ∈ b) (hv : 'v' ∉ b) (h0 : (m.pop g).amount g L lw b c ≠ 0) (φ : ℝ → ℝ) :
    (m.pop g).expect g L lw b 'v' φ c = ∫ v, φ v ∂(normal (m.mu c.t c.x c.y) (m.sig c.t c.x c.y)) := by
  unfold Pop.expect
  rw [if_pos rfl, div_eq_iff h0]
  unfold Pop.amount
  rw [if_neg hv, ← sumTXZ_unit]
  congr 1; funext d
  split
  · next e =>
    have e1 := coords_mem e _ hb
    have e2 := coords_mem e _ hx
    simp [coord1] at e1 e2
    rw [ingr_stars]
    show _ * (m.probTXZ g d * _) = _
    rw [e1, e2.1, e2.2]
    ring
  · simp

theorem probV_move {d : Cell} (e : coords ['t','x'] d = coords ['t','x'] c) (v : ℕ) : m.probV g { d with v := v } = m.probV g { c with v := v } :=
  probV_at (c := { c with v := v }) (d := { d with v := v }) (by rw [coords_noV (by decide), coords_noV (by decide) c, e])

theorem binCov_zero (h0 : (m.pop g).amount g L lw ['t','x'] c ≠ 0) : (m.pop g).binCov g L lw ['t','x'] 'z' c = 0 := by
  have hz : Ingredients.sumTXZ g (fun d => if coords ['t','x'] d = coords ['t','x'] c then
      Pop.wt L lw d * ((g.value 'z' d - (m.pop g).mean g L lw ['t','x'] 'z' c) * (m.pop g).stars d) else 0) = 0 := by
    have e : (m.pop g).mean g L lw ['t','x'] 'z' c * (m.pop g).amount g L lw ['t','x'] c = Ingredients.sumTXZ g (fun d =>
        if coords ['t','x'] d = coords ['t','x'] c then Pop.wt L lw d * (g.value 'z' d * (m.pop g).stars d) else 0) := by
      unfold Pop.mean Pop.expect
      rw [if_neg (by decide), if_neg (by decide), div_mul_cancel₀ _ h0]
    generalize (m.pop g).mean g L lw ['t','x'] 'z' c = μ at *
    have e2 : Ingredients.sumTXZ g (fun d => if coords ['t','x'] d = coords ['t','x'] c then
        Pop.wt L lw d * ((g.value 'z' d - μ) * (m.pop g).stars d) else 0) =
        Ingredients.sumTXZ g (fun d => if coords ['t','x'] d = coords ['t','x'] c then Pop.wt L lw d * (g.value 'z' d * (m.pop g).stars d) else 0) +
        (-μ) * (m.pop g).amount g L lw ['t','x'] c := by
      unfold Pop.amount
      rw [if_neg (by decide), ← sumTXZ_unit, ← sumTXZ_add]
      exact sumTXZ_congr fun d => by split <;> ring
    rw [e2, ← e]; ring
  unfold Pop.binCov
  generalize (m.pop g).mean g L lw ['t','x'] 'z' c = μ at *
  generalize (m.pop g).mean g L lw ['t','x'] 'v' c = ν
  rw [sumCells_sumV, show Ingredients.sumTXZ g _ = (∑ v : Fin g.nv, (PKM.centre g.v v - ν) * m.probV g { c with v := v }) *
      Ingredients.sumTXZ g (fun d => if coords ['t','x'] d = coords ['t','x'] c then
      Pop.wt L lw d * ((g.value 'z' d - μ) * (m.pop g).stars d) else 0) from ?_, hz]
  · simp
  rw [← sumTXZ_unit]
  refine sumTXZ_congr fun d => ?_
  rw [Finset.sum_mul]
  refine Finset.sum_congr rfl fun v _ => ?_
  rw [coords_noV (by decide), value_noV (by decide)]
  split
  · next e =>
    rw [ingr_stars]
    show Pop.wt L lw d * (_ * (m.probTXZ g d * m.probV g { d with v := v })) = _
    rw [probV_move e]
    ring
  · simp

section
variable (h : ParamIs p g m L) (hf : p.f2 = 1) (hl : lw = true → (m.pop g).Shines g L)
include h hf hl

/-- **C99** Means and central moments of metallicity given age, position and velocity are those given age and position, by mass and by light. -/
theorem C99_metallicity_moments (j : ℕ) : ∃ M M' r r', (obj p.self).getMean ['z','_','t','v','x'] lw = .ok M ∧
    (obj p.self).getMean ['z','_','t','x'] lw = .ok M' ∧ (obj p.self).getCentralMoment ['z','_','t','v','x'] j lw = .ok r ∧
    (obj p.self).getCentralMoment ['z','_','t','x'] j lw = .ok r' ∧
    ∀ c, g.Has c → (m.pop g).amount g L lw ['t','v','x'] c ≠ 0 → (∃ u w : ℝ, M'.get [c.t, c.x, c.y] = .fin u ∧ r'.get [c.t, c.x, c.y] = .fin w) ∧
      M.get [c.t, c.v, c.x, c.y] = M'.get [c.t, c.x, c.y] ∧ r.get [c.t, c.v, c.x, c.y] = r'.get [c.t, c.x, c.y] := by
  have hb : ValidPair ['z'] ['t','v','x'] := .inr (by decide +kernel)
  have hb' : ValidPair ['z'] ['t','x'] := .inr (by decide +kernel)
  obtain ⟨M, F, m1, m2, m3⟩ := (h.popAt hf hl ['t','v','x']).mean ['z'] hb rfl
  obtain ⟨M', F', m1', m2', m3'⟩ := (h.popAt hf hl ['t','x']).mean ['z'] hb' rfl
  obtain ⟨r, G, r1, r2, r3⟩ := (h.popAt hf hl ['t','v','x']).central ['z'] hb rfl trivial j
  obtain ⟨r', G', r1', r2', r3'⟩ := (h.popAt hf hl ['t','x']).central ['z'] hb' rfl trivial j
  refine ⟨M, M', r, r', m1, m1', r1, r1', fun c hc h0 => ?_⟩
  have k := h0
  rw [amount_tvx hc] at k
  have kv := left_ne_zero_of_mul k
  have kx := right_ne_zero_of_mul k
  have hz : 'z' ∈ PyStr.replaceX ['z'] := by decide
  have a1 := (m2.2 _ hz c hc).trans (m3 _ hz c hc h0)
  have a1' := (m2'.2 _ hz c hc).trans (m3' _ hz c hc kx)
  have a2 := (r2.2 _ hz c hc).trans (r3 _ hz c hc h0)
  have a2' := (r2'.2 _ hz c hc).trans (r3' _ hz c hc kx)
  have em : (m.pop g).mean g L lw ['t','v','x'] 'z' c = (m.pop g).mean g L lw ['t','x'] 'z' c := expect_z hc kv _
  refine ⟨⟨_, _, a1', a2'⟩, a1.trans (Eq.trans ?_ a1'.symm), a2.trans (Eq.trans ?_ a2'.symm)⟩
  · rw [em]
  · unfold Pop.central
    rw [em, expect_z hc kv]

/-- **C99** Means and central moments of velocity given age, position and metallicity are those given age and position, by mass and by light. -/
theorem C99_velocity_moments (j : ℕ) : ∃ M M' r r', (obj p.self).getMean ['v','_','t','x','z'] lw = .ok M ∧
    (obj p.self).getMean ['v','_','t','x'] lw = .ok M' ∧ (obj p.self).getCentralMoment ['v','_','t','x','z'] j lw = .ok r ∧
    (obj p.self).getCentralMoment ['v','_','t','x'] j lw = .ok r' ∧
    ∀ c, g.Has c → (m.pop g).amount g L lw ['t','x','z'] c ≠ 0 → (∃ u w : ℝ, M'.get [c.t, c.x, c.y] = .fin u ∧ r'.get [c.t, c.x, c.y] = .fin w) ∧
      M.get [c.t, c.x, c.y, c.z] = M'.get [c.t, c.x, c.y] ∧ r.get [c.t, c.x, c.y, c.z] = r'.get [c.t, c.x, c.y] := by
  have hb : ValidPair ['v'] ['t','x','z'] := .inr (by decide +kernel)
  have hb' : ValidPair ['v'] ['t','x'] := .inr (by decide +kernel)
  obtain ⟨M, F, m1, m2, m3⟩ := (h.popAt hf hl ['t','x','z']).mean ['v'] hb rfl
  obtain ⟨M', F', m1', m2', m3'⟩ := (h.popAt hf hl ['t','x']).mean ['v'] hb' rfl
  obtain ⟨r, G, r1, r2, r3⟩ := (h.popAt hf hl ['t','x','z']).central ['v'] hb rfl trivial j
  obtain ⟨r', G', r1', r2', r3'⟩ := (h.popAt hf hl ['t','x']).central ['v'] hb' rfl trivial j
  refine ⟨M, M', r, r', m1, m1', r1, r1', fun c hc h0 => ?_⟩
  have kx : (m.pop g).amount g L lw ['t','x'] c ≠ 0 := fun k => h0 (by
    rw [Pop.amount_eq h.proper h.pop_ok] at k ⊢
    have ec : ∀ w : PyStr, 'v' ∉ w → (m.pop g).cells g w = (m.pop g).flat g := fun w hw => by
      funext d; unfold Pop.cells pick; rw [if_neg hw]
    rw [ec _ (by decide)] at k ⊢
    refine marg_zero_of_subset (fun d hd => mul_nonneg (wt_nonneg h.lightNonneg d) (MixOf.flat_nonneg h.pop_ok hd)) (fun d e => ?_) k
    simp [coords, coord1] at e ⊢
    exact ⟨e.1, e.2.1, e.2.2.1⟩)
  have hz : 'v' ∈ PyStr.replaceX ['v'] := by decide
  have a1 := (m2.2 _ hz c hc).trans (m3 _ hz c hc h0)
  have a1' := (m2'.2 _ hz c hc).trans (m3' _ hz c hc kx)
  have a2 := (r2.2 _ hz c hc).trans (r3 _ hz c hc h0)
  have a2' := (r2'.2 _ hz c hc).trans (r3' _ hz c hc kx)
  have ee : ∀ φ, (m.pop g).expect g L lw ['t','x','z'] 'v' φ c = (m.pop g).expect g L lw ['t','x'] 'v' φ c := fun φ => by
    rw [expect_v h.proper (by decide) (by decide) (by decide) h0, expect_v h.proper (by decide) (by decide) (by decide) kx]
  have em : (m.pop g).mean g L lw ['t','x','z'] 'v' c = (m.pop g).mean g L lw ['t','x'] 'v' c := ee _
  refine ⟨⟨_, _, a1', a2'⟩, a1.trans (Eq.trans ?_ a1'.symm), a2.trans (Eq.trans ?_ a2'.symm)⟩
  · rw [em]
  · unfold Pop.central
    rw [em, ee]

/-- **C99** The covariance of velocity and metallicity given age and position is 0, by mass and by light; the correlation is 0 unless all
metallicities there are equal. -/
theorem C99_covariance : ∃ C R, (obj p.self).getCovariance ['v','z','_','t','x'] lw = .ok C ∧ (obj p.self).getCorrelation ['v','z','_','t','x'] lw = .ok R ∧
    C.shape = [g.nt, g.nx, g.ny] ∧ R.shape = [g.nt, g.nx, g.ny] ∧
    ∀ c, g.Has c → (m.pop g).amount g L lw ['t','x'] c ≠ 0 → C.get [c.t, c.x, c.y] = .fin 0 ∧
      (0 < (m.pop g).variance g L lw ['t','x'] 'z' c → R.get [c.t, c.x, c.y] = .fin 0) := by
  have hb : ValidPair ['v','z'] ['t','x'] := .inr (by decide +kernel)
  obtain ⟨C, c1, c2, c3⟩ := (h.popAt hf hl ['t','x']).covariance hb
  obtain ⟨R, r1, r2, r3⟩ := (h.popAt hf hl ['t','x']).correlation hb trivial trivial
  refine ⟨C, R, c1, r1, c2, r2, fun c hc h0 => ⟨?_, fun hv => ?_⟩⟩
  · refine (c3 'v' (by decide) 'z' (by decide) c hc h0).trans (congrArg Num.fin ?_)
    unfold Pop.givenCov
    rw [if_pos rfl, binCov_zero h0]
  · refine (r3 'v' (by decide) 'z' (by decide) c hc h0).trans ?_
    unfold Pop.givenCov
    rw [if_pos rfl, binCov_zero h0]
    have ev : (m.pop g).variance g L lw ['t','x'] 'v' c = m.sig c.t c.x c.y ^ 2 := by
      unfold Pop.variance Pop.central Pop.mean
      rw [expect_v h.proper (by decide) (by decide) (by decide) h0, expect_v h.proper (by decide) (by decide) (by decide) h0, normal_mean, normal_var]
    have hs := h.norm.sig c.t c.x c.y
    rw [ev, Num.fin_div _ _ (Real.sqrt_pos.2 (mul_pos (pow_pos hs 2) hv)).ne', zero_div]

end

/-- **C99** So are the L-moments of metallicity. -/
theorem C99_metallicity_lmoments (h : ParamIs p g m L) (hl : lw = true → (m.pop g).Shines g L) (j : ℕ) (hj : 1 ≤ j) :
    ∃ r r', (obj p.self).getLMoment ['z','_','t','v','x'] j lw = .ok r ∧ (obj p.self).getLMoment ['z','_','t','x'] j lw = .ok r' ∧
    ∀ c, g.Has c → (m.pop g).amount g L lw ['t','v','x'] c ≠ 0 → r.get [c.t, c.v, c.x, c.y] = r'.get [c.t, c.x, c.y] ∧
      ∃ u : ℝ, r'.get [c.t, c.x, c.y] = .fin u := by
  obtain ⟨A, A', a1, a1', -, -, a2⟩ := C99_metallicity h hl false
  obtain ⟨B, r, b1, b2, -, b3⟩ := h.lmoments_of hl (k := 'z') (b := ['t','v','x']) (by decide) (.inr (by decide +kernel)) j hj
  obtain ⟨B', r', b1', b2', -, b3'⟩ := h.lmoments_of hl (k := 'z') (b := ['t','x']) (by decide) (.inr (by decide +kernel)) j hj
  obtain rfl : A = B := Except.ok.inj (a1.symm.trans b1)
  obtain rfl : A' = B' := Except.ok.inj (a1'.symm.trans b1')
  refine ⟨r, r', b2, b2', fun c hc h0 => ?_⟩
  have k : ∀ i < g.nz, ∃ u : ℝ, A.get [i, c.t, c.v, c.x, c.y] = .fin u ∧ A'.get [i, c.t, c.x, c.y] = .fin u := fun i hi => by
    obtain ⟨e, u, hu⟩ := a2 { c with z := i } ⟨hc.1, hc.2.1, hc.2.2.1, hc.2.2.2.1, hi⟩ (by rwa [amount_move (c := { c with z := i }) (d := c) rfl])
    exact ⟨u, e.trans hu, hu⟩
  choose! π hπ using k
  have e := b3 c hc π fun i hi => (hπ i hi).1
  have e' := b3' c hc π fun i hi => (hπ i hi).2
  exact ⟨e.trans e'.symm, _, e'⟩

/-! ### Velocities by light -/

/-- By light, the distribution of velocity given the metallicity too is *not* the one given age and position only: the former contains the fraction of all
light in the velocity range, the latter is normalised. Here a "probability" of the former is above 2. -/
theorem C99_light_wrong : ∃ (p : Param) (m : Ingredients) (c : Cell) (r r' : Arr Num) (u u' : ℝ), ParamIs p demoGrid m demoL ∧ demoGrid.Has c ∧
    (m.pop demoGrid).amount demoGrid demoL true ['t','x','z'] c ≠ 0 ∧
    getP p.self ['v','_','t','x','z'] false true = .ok r ∧ getP p.self ['v','_','t','x'] false true = .ok r' ∧
    r.get [c.v, c.t, c.x, c.y, c.z] = .fin u ∧ r'.get [c.v, c.t, c.x, c.y] = .fin u' ∧ 2 < u ∧ u' ≤ 1 := by
  obtain ⟨p, h, -⟩ := flatDisk_exists (fun t => if t = 0 then 50 else 1000)
  have hc : demoGrid.Has ⟨0, 1, 0, 0, 0⟩ := by
    refine ⟨?_, ?_, ?_, ?_, ?_⟩ <;> norm_num [demoGrid, cubeGrid]
  obtain ⟨r, h1, -, h2⟩ := vtxz_is h (lw := true) (fun _ => flat_shines _) false
  have h0 : ((flatIngr fun t => if t = 0 then 50 else 1000).pop demoGrid).amount demoGrid demoL true ['t','x','z'] ⟨0, 1, 0, 0, 0⟩ ≠ 0 :=
    (ingr_amount_pos h demoL_pos hc (by rw [flat_probTXZ _ hc]; norm_num) rfl).ne'
  obtain ⟨-, ⟨r', h1', -, h2'⟩, -⟩ := C32_light_ingredients h false (param_shines.1 (flat_shines _))
  have e := h2 _ hc h0
  have e' := h2' _ hc
  have ht : ((flatIngr fun t => if t = 0 then 50 else 1000).pop demoGrid).lightOf demoGrid demoL ['t','x','z'] = 3 / 2 := by
    rw [← lightOf_other (w := ['t']) (by decide), flat_lightT]
  have hv0 : 0 < ((flatIngr fun t => if t = 0 then 50 else 1000).pop demoGrid).lightOf demoGrid demoL ['v'] :=
    h.pop_ok.light_pos h.proper h.lightNonneg (flat_shines _) _
  have hn : ∀ d, demoGrid.Has d → 0 ≤ (flatIngr fun t => if t = 0 then 50 else 1000).weight demoGrid demoL true d := fun d hd => by
    rw [Ingredients.weight, if_pos rfl]
    refine div_nonneg (mul_nonneg (h.lightNonneg _ _) (h.pop_ok.joint d hd)) ?_
    rw [Pop.lightOf, if_pos (by decide)] at hv0
    exact hv0.le
  have hle : (flatIngr fun t => if t = 0 then 50 else 1000).marginal demoGrid demoL true ['t','v','x'] ⟨0, 1, 0, 0, 0⟩ ≤
      demoGrid.marg ((flatIngr fun t => if t = 0 then 50 else 1000).weight demoGrid demoL true) ['t','x'] ⟨0, 1, 0, 0, 0⟩ := by
    unfold Ingredients.marginal
    rw [if_pos (by decide)]
    refine marg_mono hn fun d e => ?_
    simp [coords, coord1] at e ⊢
    exact ⟨e.1, e.2.2.1, e.2.2.2⟩
  have hpos : 0 < (flatIngr fun t => if t = 0 then 50 else 1000).marginal demoGrid demoL true ['t','v','x'] ⟨0, 1, 0, 0, 0⟩ := by
    rw [← ingr_marginal h, light_v (by decide), if_pos rfl]
    exact div_pos (ingr_amount_pos h demoL_pos hc (by rw [flat_probTXZ _ hc]; norm_num) rfl) hv0
  rw [if_neg (hpos.trans_le hle).ne'] at e'
  refine ⟨p, _, _, r, r', _, _, h, hc, h0, h1, h1', e, e', ?_, ?_⟩
  · simp only [if_true, Bool.false_eq_true, if_false, div_one]
    rw [ht, flat_lightV, flat_probV]
    have a1 := normal_near (μ := 50) (σ := 1 / 10) (a := 0) (b := 100) (by norm_num) (by norm_num)
    have a0 := normal_far (μ := 50) (σ := 1 / 10) (a := -100) (b := 0) (by norm_num)
    have a2 := normal_far (μ := 50) (σ := 1 / 10) (a := 100) (b := 200) (by norm_num)
    have a3 := normal_far (μ := 50) (σ := 1 / 10) (a := 200) (b := 300) (by norm_num)
    have a4 := @MeasureTheory.measureReal_le_one _ _ (normal 50 (1 / 10)) _ (Set.Ioc 0 100)
    have b0 := normal_far (μ := 1000) (σ := 1 / 10) (a := -100) (b := 0) (by norm_num)
    have b1 := normal_far (μ := 1000) (σ := 1 / 10) (a := 0) (b := 100) (by norm_num)
    have b2 := normal_far (μ := 1000) (σ := 1 / 10) (a := 100) (b := 200) (by norm_num)
    have b3 := normal_far (μ := 1000) (σ := 1 / 10) (a := 200) (b := 300) (by norm_num)
    have c0 := @MeasureTheory.measureReal_nonneg _ _ (normal 1000 (1 / 10)) (Set.Ioc (-100) 0)
    have c1 := @MeasureTheory.measureReal_nonneg _ _ (normal 1000 (1 / 10)) (Set.Ioc 0 100)
    have c2 := @MeasureTheory.measureReal_nonneg _ _ (normal 1000 (1 / 10)) (Set.Ioc 100 200)
    have c3 := @MeasureTheory.measureReal_nonneg _ _ (normal 1000 (1 / 10)) (Set.Ioc 200 300)
    have d0 := @MeasureTheory.measureReal_nonneg _ _ (normal 50 (1 / 10)) (Set.Ioc (-100) 0)
    have d2 := @MeasureTheory.measureReal_nonneg _ _ (normal 50 (1 / 10)) (Set.Ioc 100 200)
    have d3 := @MeasureTheory.measureReal_nonneg _ _ (normal 50 (1 / 10)) (Set.Ioc 200 300)
    simp only [Fin.sum_univ_four]
    simp only [Fin.val_zero, Fin.val_one, Fin.val_two, show ((3 : Fin 4) : ℕ) = 3 from rfl]
    norm_num at a0 a1 a2 a3 b0 b1 b2 b3 ⊢
    rw [← mul_div_assoc, lt_div_iff₀ (by linarith)]
    linarith
  · simp only [Bool.false_eq_true, if_false, div_one]
    exact div_le_one_of_le₀ hle (hpos.le.trans hle)

/-! ### The hypotheses are met -/

/-- A disk that rotates, whose metallicities differ, with stars everywhere, in both weightings. -/
example : ∃ (p : Param) (m : Ingredients), ParamIs p demoGrid m demoL ∧ p.f2 = 1 ∧ (m.pop demoGrid).Shines demoGrid demoL ∧
    (∀ lw c, demoGrid.Has c → (∀ b ∈ [['t','x'], ['t','v','x'], ['t','x','z']], (m.pop demoGrid).amount demoGrid demoL lw b c ≠ 0) ∧
      0 < (m.pop demoGrid).variance demoGrid demoL lw ['t','x'] 'z' c) := by
  obtain ⟨p, h, hf⟩ := flatDisk_exists (fun t => if t = 0 then 99 else 101)
  refine ⟨p, _, h, hf, flat_shines _, fun lw c hc => ⟨fun b hb => (ingr_amount_pos h demoL_pos hc (by rw [flat_probTXZ _ hc]; norm_num) rfl).ne', ?_⟩⟩
  have h0 := (ingr_amount_pos h demoL_pos (lw := lw) (b := ['t','x']) hc (by rw [flat_probTXZ _ hc]; norm_num) rfl)
  unfold Pop.variance Pop.central Pop.expect
  rw [if_neg (by decide), if_neg (by decide)]
  refine div_pos ?_ h0
  generalize Pop.mean _ _ _ _ _ _ _ = μ
  have hw : ∀ d, 0 < Pop.wt demoL lw d := fun d => by
    unfold Pop.wt
    split
    · exact demoL_pos _ _
    · exact one_pos
  have key : ∀ z < 3, centre demoGrid.z z ≠ μ → 0 < Ingredients.sumTXZ demoGrid (fun d => if coords ['t','x'] d = coords ['t','x'] c then
      Pop.wt demoL lw d * ((demoGrid.value 'z' d - μ) ^ 2 * ((flatIngr fun t => if t = 0 then 99 else 101).pop demoGrid).stars d) else 0) := by
    intro z hz hμ
    have hd : demoGrid.Has { c with z := z } := ⟨hc.1, hc.2.1, hc.2.2.1, hc.2.2.2.1, hz⟩
    have hs : ∀ d, demoGrid.Has d → ((flatIngr fun t => if t = 0 then 99 else 101).pop demoGrid).stars d = 1 / 180 := fun d hd => by
      rw [ingr_stars, flat_probTXZ _ hd]
    have := sumTXZ_point (fun d => Pop.wt demoL lw d * ((demoGrid.value 'z' d - μ) ^ 2 * (1 / 180))) hd
    refine lt_of_lt_of_le ?_ (this.symm.le.trans (sumTXZ_le h.proper fun d hd => ?_))
    · have h2 : 0 < (demoGrid.value 'z' ⟨c.t, 0, c.x, c.y, z⟩ - μ) ^ 2 := by
        have : demoGrid.value 'z' ⟨c.t, 0, c.x, c.y, z⟩ = centre demoGrid.z z := by simp [Grid.value]
        rw [this]
        exact lt_of_le_of_ne (sq_nonneg _) (pow_ne_zero 2 (sub_ne_zero.2 hμ)).symm
      exact mul_pos (hw _) (mul_pos h2 (by norm_num))
    · rw [hs d hd]
      by_cases e : coords ['t','x','z'] d = coords ['t','x','z'] { c with z := z }
      · rw [if_pos e, if_pos]
        simp [coords, coord1] at e ⊢
        exact ⟨e.1, e.2.1, e.2.2.1⟩
      · rw [if_neg e]
        split
        · have := (hw d).le
          positivity
        · exact le_rfl
  by_cases e : centre demoGrid.z 0 = μ
  · refine key 1 (by norm_num) fun e' => ?_
    have h1 := demoGrid_proper.z 0 (by norm_num [demoGrid, cubeGrid])
    have h2 := demoGrid_proper.z 1 (by norm_num [demoGrid, cubeGrid])
    rw [← e] at e'
    unfold centre at e'
    norm_num at h1 h2 e'
    linarith
  · exact key 0 (by norm_num) e

end PKM
