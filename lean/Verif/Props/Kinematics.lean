import Verif.Props.Growth
import Verif.Props.VelMoments
import Verif.Props.Coarse
import Verif.Props.Tabulate
import Verif.Props.Truncation

/-!
# C88: rotation curves, and faster or hotter disks

`GrowingDisk.setMuV p q rmax vmax` is `disk.set_mu_v(q_lims, rmax_lims, vmax_lims)`, `GrowingDisk.setSigV p q alpha sIn sOut` is
`disk.set_sig_v(q_lims, alpha_lims, sig_v_in_lims, sig_v_out_lims)`, each argument a pair (young, old).  `s` and `e` are the ends of
the build-up window of `set_p_t`; `atAge g s e lims t` is the value that a quantity with (young, old) limits `lims` has at age
bin `t`.  `p.muV`, `p.sigV` are the attributes `mu_v`, `sig_v`; `(obj p.self).getVariance` is `get_variance`.
-/

open scoped Classical
open MeasureTheory ProbabilityTheory

noncomputable section

namespace PKM
open Np Component

variable {p p' : Param} {g : Grid} {f2 : ℝ} {center : ℝ × ℝ} {rotation : ℝ}

/-! ### Rotation curves -/

/-- `r / (r + 2 m)^3` rises up to `m` and falls beyond. -/
theorem curve_rises {R k m : ℝ} (hR : 0 ≤ R) (hm : 0 < m) (hk : 1 ≤ k) (h : k * R ≤ m) :
    (k * R + 2 * m) ^ 3 ≤ k * (R + 2 * m) ^ 3 ∧ (1 < k → (k * R + 2 * m) ^ 3 < k * (R + 2 * m) ^ 3) := by
  have e : k * (R + 2 * m) ^ 3 - (k * R + 2 * m) ^ 3 = (k - 1) * (8 * m ^ 3 - k * (1 + k) * R ^ 3 - 6 * m * (k * R ^ 2)) := by ring
  have R1 : R ≤ m := le_trans (le_mul_of_one_le_left hR hk) h
  have a1 : k * R ^ 2 ≤ m ^ 2 := by nlinarith
  have a0 : 0 ≤ k * R ^ 2 := by positivity
  have a2 : k * R ^ 3 ≤ m ^ 3 := by nlinarith [mul_le_mul a1 R1 hR (by positivity)]
  have a3 : k ^ 2 * R ^ 3 ≤ m ^ 3 := by nlinarith [mul_le_mul a1 h (by positivity) (by positivity)]
  refine ⟨?_, fun hk1 => ?_⟩
  · have : 0 ≤ (k - 1) * (8 * m ^ 3 - k * (1 + k) * R ^ 3 - 6 * m * (k * R ^ 2)) :=
      mul_nonneg (by linarith) (by nlinarith [mul_le_mul_of_nonneg_left a1 hm.le])
    linarith
  · have R2 : R < m := by
      rcases hR.eq_or_lt with rfl | hR
      · exact hm
      · nlinarith
    have a4 : k * R ^ 3 < m ^ 3 := by
      have : k * R ^ 2 * R ≤ m ^ 2 * R := mul_le_mul_of_nonneg_right a1 hR
      have : m ^ 2 * R < m ^ 2 * m := mul_lt_mul_of_pos_left R2 (by positivity)
      nlinarith
    have : 0 < (k - 1) * (8 * m ^ 3 - k * (1 + k) * R ^ 3 - 6 * m * (k * R ^ 2)) :=
      mul_pos (by linarith) (by nlinarith [mul_le_mul_of_nonneg_left a1 hm.le])
    linarith

theorem curve_falls {R k m : ℝ} (hm : 0 < m) (hk : 1 ≤ k) (h : m ≤ R) :
    k * (R + 2 * m) ^ 3 ≤ (k * R + 2 * m) ^ 3 ∧ (1 < k → k * (R + 2 * m) ^ 3 < (k * R + 2 * m) ^ 3) := by
  have e : k * (R + 2 * m) ^ 3 - (k * R + 2 * m) ^ 3 = (k - 1) * (8 * m ^ 3 - k * (1 + k) * R ^ 3 - 6 * m * (k * R ^ 2)) := by ring
  have R0 : 0 < R := hm.trans_le h
  have b1 : m ^ 2 ≤ R ^ 2 := by nlinarith
  have b2 : m ^ 3 ≤ R ^ 3 := pow_le_pow_left₀ hm.le h 3
  have b3 : 2 * R ^ 3 ≤ k * (1 + k) * R ^ 3 := mul_le_mul_of_nonneg_right (by nlinarith) (by positivity)
  have b4 : m * m ^ 2 ≤ m * (k * R ^ 2) := mul_le_mul_of_nonneg_left (by nlinarith [sq_nonneg R]) hm.le
  refine ⟨?_, fun hk1 => ?_⟩
  · have : (k - 1) * (8 * m ^ 3 - k * (1 + k) * R ^ 3 - 6 * m * (k * R ^ 2)) ≤ 0 :=
      mul_nonpos_of_nonneg_of_nonpos (by linarith) (by nlinarith)
    linarith
  · have b5 : 2 * R ^ 3 < k * (1 + k) * R ^ 3 := mul_lt_mul_of_pos_right (by nlinarith) (by positivity)
    have : (k - 1) * (8 * m ^ 3 - k * (1 + k) * R ^ 3 - 6 * m * (k * R ^ 2)) < 0 :=
      mul_neg_of_pos_of_neg (by linarith) (by nlinarith)
    linarith

/-- Along any ray from the centre of the disk the speed of the stars of one age rises up to the elliptical radius `rmax` of that
age and falls beyond; all its stars on the ray move the same way. -/
theorem C88_curve (hb : Built p g f2 center rotation) (hg : g.Proper) {s e : ℝ} (ha : Aged p s e)
    (q rmax vmax : ℝ × ℝ) (hq : 0 < q.1 ∧ 0 < q.2) (hr : 0 < rmax.1 ∧ 0 < rmax.2)
    (hv : (0 ≤ vmax.1 ∧ 0 ≤ vmax.2) ∨ (vmax.1 ≤ 0 ∧ vmax.2 ≤ 0)) :
    ∃ p' A, GrowingDisk.setMuV p q rmax vmax = .ok p' ∧ p'.muV = some A ∧
      ∀ t < g.nt, ∀ x < g.nx, ∀ y < g.ny, ∀ x' < g.nx, ∀ y' < g.ny, ∀ k : ℝ, 1 ≤ k →
        frameX g center rotation ⟨0, 0, x', y', 0⟩ = k * frameX g center rotation ⟨0, 0, x, y, 0⟩ →
        frameY g center rotation ⟨0, 0, x', y', 0⟩ = k * frameY g center rotation ⟨0, 0, x, y, 0⟩ →
        ∃ v v' : ℝ, A.get [t, x, y] = .fin v ∧ A.get [t, x', y'] = .fin v' ∧ 0 ≤ v * v' ∧
          (ellRadiusAt g center rotation (atAge g s e q t) x' y' ≤ atAge g s e rmax t → |v| ≤ |v'|) ∧
          (atAge g s e rmax t ≤ ellRadiusAt g center rotation (atAge g s e q t) x y → |v'| ≤ |v|) ∧
          (1 < k → frameX g center rotation ⟨0, 0, x, y, 0⟩ ≠ 0 → atAge g s e vmax t ≠ 0 →
            (ellRadiusAt g center rotation (atAge g s e q t) x' y' ≤ atAge g s e rmax t → |v| < |v'|) ∧
            (atAge g s e rmax t ≤ ellRadiusAt g center rotation (atAge g s e q t) x y → |v'| < |v|)) := by
  obtain ⟨A, k1, k2⟩ := disk_setMuV hb ha hq hr hv
  refine ⟨_, A, k1, rfl, fun t ht x hx y hy x' hx' y' hy' k hk eX eY =>
    ⟨_, _, k2.2 ⟨t, 0, x, y, 0⟩ ⟨ht, hg.nv, hx, hy, hg.nz⟩, k2.2 ⟨t, 0, x', y', 0⟩ ⟨ht, hg.nv, hx', hy', hg.nz⟩, ?_⟩⟩
  have hm := atAge_pos ha.2 g hr.1 hr.2 t
  have eR : ellRadiusAt g center rotation (atAge g s e q t) x' y' = k * ellRadiusAt g center rotation (atAge g s e q t) x y := by
    unfold ellRadiusAt
    rw [eX, eY, show (k * frameX g center rotation ⟨0, 0, x, y, 0⟩) ^ 2 + (k * frameY g center rotation ⟨0, 0, x, y, 0⟩ / atAge g s e q t) ^ 2 =
      k ^ 2 * (frameX g center rotation ⟨0, 0, x, y, 0⟩ ^ 2 + (frameY g center rotation ⟨0, 0, x, y, 0⟩ / atAge g s e q t) ^ 2) by ring,
      Real.sqrt_mul (by positivity), Real.sqrt_sq (by linarith)]
  have hXR : frameX g center rotation ⟨0, 0, x, y, 0⟩ ≠ 0 → 0 < ellRadiusAt g center rotation (atAge g s e q t) x y := fun h =>
    Real.sqrt_pos.2 (by positivity)
  have d1 : diskMu g center rotation s e q rmax vmax ⟨t, 0, x, y, 0⟩ = 27 * atAge g s e vmax t * atAge g s e rmax t ^ 2 *
      frameX g center rotation ⟨0, 0, x, y, 0⟩ / (ellRadiusAt g center rotation (atAge g s e q t) x y + 2 * atAge g s e rmax t) ^ 3 := rfl
  have d2 : diskMu g center rotation s e q rmax vmax ⟨t, 0, x', y', 0⟩ = 27 * atAge g s e vmax t * atAge g s e rmax t ^ 2 *
      frameX g center rotation ⟨0, 0, x', y', 0⟩ / (ellRadiusAt g center rotation (atAge g s e q t) x' y' + 2 * atAge g s e rmax t) ^ 3 := rfl
  have R0 : 0 ≤ ellRadiusAt g center rotation (atAge g s e q t) x y := Real.sqrt_nonneg _
  rw [d1, d2, eX, eR]
  generalize ellRadiusAt g center rotation (atAge g s e q t) x y = R at *
  generalize frameX g center rotation ⟨0, 0, x, y, 0⟩ = X at *
  generalize atAge g s e rmax t = m at *
  generalize atAge g s e vmax t = V at *
  have D : 0 < (R + 2 * m) ^ 3 := by positivity
  have D' : 0 < (k * R + 2 * m) ^ 3 := by positivity
  have habs : |27 * V * m ^ 2 * X / (R + 2 * m) ^ 3| = 27 * |V| * m ^ 2 * |X| / (R + 2 * m) ^ 3 := by
    rw [abs_div, abs_mul, abs_mul, abs_mul, abs_of_pos D, abs_of_pos (show (0:ℝ) < 27 by norm_num),
      abs_of_pos (show 0 < m ^ 2 by positivity)]
  have habs' : |27 * V * m ^ 2 * (k * X) / (k * R + 2 * m) ^ 3| = 27 * |V| * m ^ 2 * |X| * k / (k * R + 2 * m) ^ 3 := by
    rw [abs_div, abs_mul, abs_mul, abs_mul, abs_mul k, abs_of_pos D', abs_of_pos (show (0:ℝ) < 27 by norm_num),
      abs_of_pos (show 0 < m ^ 2 by positivity), abs_of_pos (show 0 < k by linarith)]
    ring
  rw [habs, habs']
  have K0 : 0 ≤ 27 * |V| * m ^ 2 * |X| := by positivity
  refine ⟨?_, fun h => ?_, fun h => ?_, fun h1 hX hV => ⟨fun h => ?_, fun h => ?_⟩⟩
  · rw [show 27 * V * m ^ 2 * X / (R + 2 * m) ^ 3 * (27 * V * m ^ 2 * (k * X) / (k * R + 2 * m) ^ 3) =
      k * (27 * V * m ^ 2 * X) ^ 2 / ((R + 2 * m) ^ 3 * (k * R + 2 * m) ^ 3) by field_simp]
    positivity
  · rw [div_le_div_iff₀ D D', mul_assoc (27 * |V| * m ^ 2 * |X|)]
    exact mul_le_mul_of_nonneg_left (curve_rises R0 hm hk h).1 K0
  · rw [div_le_div_iff₀ D' D, mul_assoc (27 * |V| * m ^ 2 * |X|)]
    exact mul_le_mul_of_nonneg_left (curve_falls hm hk h).1 K0
  · rw [div_lt_div_iff₀ D D', mul_assoc (27 * |V| * m ^ 2 * |X|)]
    exact mul_lt_mul_of_pos_left ((curve_rises R0 hm hk h).2 h1) (by positivity)
  · rw [div_lt_div_iff₀ D' D, mul_assoc (27 * |V| * m ^ 2 * |X|)]
    exact mul_lt_mul_of_pos_left ((curve_falls hm hk h).2 h1) (by positivity)

/-! ### Dispersion profiles -/

/-- At every age the dispersion goes monotonically from its inner to its outer limit as the elliptical radius grows, and has reached
the outer limit at a radius that no pixel's distance from the minor axis exceeds. -/
theorem C88_profile (hb : Built p g f2 center rotation) (hg : g.Proper) {s e : ℝ} (ha : Aged p s e)
    (hx : ∃ c, g.Has c ∧ frameX g center rotation c ≠ 0)
    (q alpha sIn sOut : ℝ × ℝ) (hq : 0 < q.1 ∧ 0 < q.2) (hal : 0 ≤ alpha.1 ∧ 0 ≤ alpha.2)
    (hi : 0 < sIn.1 ∧ 0 < sIn.2) (ho : 0 < sOut.1 ∧ 0 < sOut.2) :
    ∃ p' A, ∃ S : ℕ → ℕ → ℕ → ℝ, GrowingDisk.setSigV p q alpha sIn sOut = .ok p' ∧ p'.sigV = some A ∧
      (∀ t < g.nt, ∀ x < g.nx, ∀ y < g.ny, A.get [t, x, y] = .fin (S t x y)) ∧
      ∀ t < g.nt, ∀ x < g.nx, ∀ y < g.ny,
        ((∀ x' < g.nx, ∀ y' < g.ny, |frameX g center rotation ⟨0, 0, x', y', 0⟩| ≤ ellRadiusAt g center rotation (atAge g s e q t) x y) →
          S t x y = atAge g s e sOut t) ∧
        ∀ x' < g.nx, ∀ y' < g.ny,
          (ellRadiusAt g center rotation (atAge g s e q t) x y ≤ ellRadiusAt g center rotation (atAge g s e q t) x' y' →
            (atAge g s e sIn t ≤ atAge g s e sOut t → atAge g s e sIn t ≤ S t x y ∧ S t x y ≤ S t x' y' ∧ S t x' y' ≤ atAge g s e sOut t) ∧
            (atAge g s e sOut t ≤ atAge g s e sIn t → atAge g s e sOut t ≤ S t x' y' ∧ S t x' y' ≤ S t x y ∧ S t x y ≤ atAge g s e sIn t)) ∧
          (ellRadiusAt g center rotation (atAge g s e q t) x y < ellRadiusAt g center rotation (atAge g s e q t) x' y' →
            (∃ i < g.nx, ∃ j < g.ny, ellRadiusAt g center rotation (atAge g s e q t) x y < |frameX g center rotation ⟨0, 0, i, j, 0⟩|) →
            0 < atAge g s e alpha t →
            (atAge g s e sIn t < atAge g s e sOut t → S t x y < S t x' y') ∧
            (atAge g s e sOut t < atAge g s e sIn t → S t x' y' < S t x y)) := by
  obtain ⟨m, -, hm⟩ := hb.amax hg
  have hm0 : 0 < m := by
    obtain ⟨c, hc, hne⟩ := hx
    exact (abs_pos.2 hne).trans_le (hm.2 c hc)
  obtain ⟨A, k1, k2⟩ := disk_setSigV hb hg ha hq hal hi ho hm hm0
  refine ⟨_, A, fun t x y => diskSig g center rotation s e m q alpha sIn sOut ⟨t, 0, x, y, 0⟩, k1, rfl,
    fun t ht x hx y hy => k2.2 ⟨t, 0, x, y, 0⟩ ⟨ht, hg.nv, hx, hy, hg.nz⟩, fun t ht x hx y hy => ?_⟩
  have hα := atAge_nonneg ha.2 g hal.1 hal.2 t
  have d : ∀ x y, diskSig g center rotation s e m q alpha sIn sOut ⟨t, 0, x, y, 0⟩ = atAge g s e sIn t +
      (atAge g s e sOut t - atAge g s e sIn t) *
        min 1 ((ellRadiusAt g center rotation (atAge g s e q t) x y / m) ^ atAge g s e alpha t) := fun x y => rfl
  have R0 : ∀ x y, 0 ≤ ellRadiusAt g center rotation (atAge g s e q t) x y := fun x y => Real.sqrt_nonneg _
  beta_reduce
  simp only [d]
  generalize atAge g s e alpha t = α at *
  generalize atAge g s e sIn t = a at *
  generalize atAge g s e sOut t = b at *
  generalize hR : ellRadiusAt g center rotation (atAge g s e q t) = R at *
  have F0 : ∀ x y, 0 ≤ min 1 ((R x y / m) ^ α) := fun x y => le_min zero_le_one (Real.rpow_nonneg (div_nonneg (R0 x y) hm0.le) _)
  have F1 : ∀ x y, min 1 ((R x y / m) ^ α) ≤ 1 := fun x y => min_le_left _ _
  refine ⟨fun h => ?_, fun x' hx' y' hy' => ⟨fun h => ?_, fun h hM hα1 => ?_⟩⟩
  · have : m ≤ R x y := by
      obtain ⟨c, hc, rfl⟩ := hm.1
      exact h c.x hc.2.2.1 c.y hc.2.2.2.1
    rw [min_eq_left (Real.one_le_rpow ((one_le_div hm0).2 this) hα)]
    ring
  · have h1 : min 1 ((R x y / m) ^ α) ≤ min 1 ((R x' y' / m) ^ α) :=
      min_le_min le_rfl (Real.rpow_le_rpow (div_nonneg (R0 x y) hm0.le) (div_le_div_of_nonneg_right h hm0.le) hα)
    have := F0 x y; have := F1 x y; have := F0 x' y'; have := F1 x' y'
    refine ⟨fun hab => ⟨?_, ?_, ?_⟩, fun hab => ⟨?_, ?_, ?_⟩⟩ <;> nlinarith
  · have hRm : R x y < m := by
      obtain ⟨i, hi, j, hj, h'⟩ := hM
      exact h'.trans_le (hm.2 ⟨0, 0, i, j, 0⟩ ⟨hg.nt, hg.nv, hi, hj, hg.nz⟩)
    have l1 : (R x y / m) ^ α < 1 := Real.rpow_lt_one (div_nonneg (R0 x y) hm0.le) ((div_lt_one hm0).2 hRm) hα1
    have l2 : (R x y / m) ^ α < (R x' y' / m) ^ α :=
      Real.rpow_lt_rpow (div_nonneg (R0 x y) hm0.le) (div_lt_div_of_pos_right h hm0) hα1
    have h1 : min 1 ((R x y / m) ^ α) < min 1 ((R x' y' / m) ^ α) := by
      rw [min_eq_right l1.le]; exact lt_min l1 l2
    exact ⟨fun hab => by nlinarith, fun hab => by nlinarith⟩

/-! ### Lemmas: complete components -/

theorem ParamIs.withMean {m : Ingredients} {L : ℕ → ℕ → ℝ} (h : ParamIs p g m L) {A : Arr Num} {q : ℕ → ℕ → ℕ → ℝ}
    (hA : MArr g (['t','x','y'].map some) A (fun c => .fin (q c.t c.x c.y))) :
    ParamIs { p with muV := some A } g { m with mu := q } L :=
  ⟨h.proper, h.cubeIs, ⟨h.norm.pt, h.norm.px, h.norm.pz, h.norm.sig, h.norm.sumT, h.norm.sumX, h.norm.sumZ⟩, h.logPt, h.logPxt,
    h.logPztx, ⟨A, rfl, hA.isArr (w := ['t','x']) (by decide)⟩, h.sigV, h.light, h.lightNonneg⟩

theorem ParamIs.withDisp {m : Ingredients} {L : ℕ → ℕ → ℝ} (h : ParamIs p g m L) {A : Arr Num} {q : ℕ → ℕ → ℕ → ℝ}
    (hq : ∀ t x y, 0 < q t x y) (hA : MArr g (['t','x','y'].map some) A (fun c => .fin (q c.t c.x c.y))) :
    ParamIs { p with sigV := some A } g { m with sig := q } L :=
  ⟨h.proper, h.cubeIs, ⟨h.norm.pt, h.norm.px, h.norm.pz, hq, h.norm.sumT, h.norm.sumX, h.norm.sumZ⟩, h.logPt, h.logPxt,
    h.logPztx, h.muV, ⟨A, rfl, hA.isArr (w := ['t','x']) (by decide)⟩, h.light, h.lightNonneg⟩

section
variable {m : Ingredients} {L : ℕ → ℕ → ℝ}

theorem stars_weight (h : ParamIs p g m L) (lw : Bool) (hl : lw = true → Shines g m L) (d : Cell) (hd : g.Has d) :
    0 ≤ m.weightTXZ g L lw d := by
  have n : 0 ≤ m.probTXZ g d := by
    have wt := (sub_pos.2 (h.proper.t d.t hd.1)).le
    have wx := (sub_pos.2 (h.proper.x d.x hd.2.2.1)).le
    have wy := (sub_pos.2 (h.proper.y d.y hd.2.2.2.1)).le
    have wz := (sub_pos.2 (h.proper.z d.z hd.2.2.2.2)).le
    exact mul_nonneg (mul_nonneg (mul_nonneg (h.norm.pt _) wt) (mul_nonneg (h.norm.px _ _ _) (mul_nonneg wx wy)))
      (mul_nonneg (h.norm.pz _ _ _ _) wz)
  unfold Ingredients.weightTXZ
  split_ifs with e
  · exact div_nonneg (mul_nonneg (h.lightNonneg _ _) n) (hl e).le
  · exact n

theorem stars_marginal (h : ParamIs p g m L) (hL : ∀ t z, 0 < L t z)
    (hx : ∀ t < g.nt, ∀ x < g.nx, ∀ y < g.ny, 0 < m.px t x y)
    (hz : ∀ t < g.nt, ∀ x < g.nx, ∀ y < g.ny, ∀ z < g.nz, 0 < m.pz t x y z) (lw : Bool) {b : PyStr} (hb : 'v' ∉ b)
    {c : Cell} (hc : g.Has c) (ht : 0 < m.pt c.t) : 0 < m.marginal g L lw b c := by
  have hl : Shines g m L := h.shines (fun t _ z _ => hL t z) hx hz
  have hc' : g.Has ⟨c.t, 0, c.x, c.y, c.z⟩ := ⟨hc.1, h.proper.nv, hc.2.2.1, hc.2.2.2.1, hc.2.2.2.2⟩
  have wt := sub_pos.2 (h.proper.t c.t hc.1)
  have wx := sub_pos.2 (h.proper.x c.x hc.2.2.1)
  have wy := sub_pos.2 (h.proper.y c.y hc.2.2.2.1)
  have wz := sub_pos.2 (h.proper.z c.z hc.2.2.2.2)
  have n : 0 < m.probTXZ g ⟨c.t, 0, c.x, c.y, c.z⟩ :=
    mul_pos (mul_pos (mul_pos ht wt) (mul_pos (hx _ hc.1 _ hc.2.2.1 _ hc.2.2.2.1) (mul_pos wx wy)))
      (mul_pos (hz _ hc.1 _ hc.2.2.1 _ hc.2.2.2.1 _ hc.2.2.2.2) wz)
  have w : 0 < m.weightTXZ g L lw ⟨c.t, 0, c.x, c.y, c.z⟩ := by
    unfold Ingredients.weightTXZ
    split_ifs
    · exact div_pos (mul_pos (hL _ _) n) hl
    · exact n
  rw [Ingredients.marginal, if_neg hb]
  refine (w.trans_eq (sumTXZ_point (fun d => m.weightTXZ g L lw d) hc).symm).trans_le (sumTXZ_le h.proper fun d hd => ?_)
  by_cases e : coords ['t','x','z'] d = coords ['t','x','z'] c
  · rw [if_pos e, if_pos]
    simp only [coords, coord1, List.flatMap_cons, List.flatMap_nil] at e
    have e' : d = { c with v := d.v } := by
      simp at e
      cases d; cases c; simp_all
    rw [e', coords_noV hb]
  · rw [if_neg e]
    split_ifs
    · exact stars_weight h lw (fun _ => hl) d hd
    · exact le_rfl

theorem spread_about (μ σ a : ℝ) : ∫ v, (v - a) ^ 2 ∂(normal μ σ) = σ ^ 2 + (μ - a) ^ 2 := by
  rw [normal_moment]
  simp [Finset.sum_range_succ, stdMom, Nat.doubleFactorial]
  ring

theorem stars_age (h : ParamIs p g m L) : ∃ w, getP p.self "t".toList false false = .ok w ∧
    (∀ c, g.Has c → w.get [c.t] ≠ .fin 0 → 0 < m.pt c.t) ∧ ∃ c, g.Has c ∧ w.get [c.t] ≠ .fin 0 := by
  obtain ⟨A, h1, h2⟩ := h.logPt
  obtain ⟨w, w1, -, w2⟩ := getP_t h.cubeIs h.proper h1 h2 (fun t _ => h.norm.pt t) false
  refine ⟨w, w1, fun c hc h0 => (h.norm.pt _).lt_of_ne fun e => h0 ?_, ?_⟩
  · have := w2 c hc
    beta_reduce at this
    rw [← e] at this
    simpa [coords, coord1] using this
  · by_contra hn
    push Not at hn
    refine one_ne_zero (h.norm.sumT.symm.trans (Finset.sum_eq_zero fun t _ => ?_))
    have hc : g.Has ⟨t, 0, 0, 0, 0⟩ := ⟨t.2, h.proper.nv, h.proper.nx, h.proper.ny, h.proper.nz⟩
    have e1 := w2 _ hc
    have e2 := hn _ hc
    simp only [coords, coord1] at e1
    simpa [dvol] using e1.symm.trans e2

theorem weightTXZ_moving (m : Ingredients) (u σ : ℕ → ℕ → ℕ → ℝ) (lw : Bool) :
    Ingredients.weightTXZ { m with mu := u, sig := σ } g L lw = m.weightTXZ g L lw := rfl

theorem marginal_moving (m : Ingredients) (u σ : ℕ → ℕ → ℕ → ℝ) (lw : Bool) {b : PyStr} (hb : 'v' ∉ b) (c : Cell) :
    Ingredients.marginal { m with mu := u, sig := σ } g L lw b c = m.marginal g L lw b c := by
  unfold Ingredients.marginal
  rw [if_neg hb, if_neg hb, weightTXZ_moving]

theorem mean_scaled (m : Ingredients) (u u' : ℕ → ℕ → ℕ → ℝ) (k : ℝ) (hu : ∀ t x y, u' t x y = k * u t x y) (lw : Bool) {b : PyStr}
    (hb : 'v' ∉ b) (c : Cell) :
    Ingredients.velExpect { m with mu := u' } g L lw b (fun v => v) c =
      k * Ingredients.velExpect { m with mu := u } g L lw b (fun v => v) c := by
  unfold Ingredients.velExpect
  rw [marginal_moving m u' m.sig lw hb, marginal_moving m u m.sig lw hb, weightTXZ_moving m u' m.sig, weightTXZ_moving m u m.sig,
    mul_div_assoc', ← sumTXZ_mul]
  simp only [normal_mean, hu]
  refine congrArg₂ _ (congrArg _ (funext fun d => ?_)) rfl
  split_ifs
  · exact mul_left_comm _ _ _
  · simp

theorem variance_hotter (hg : g.Proper) (m : Ingredients) (σ σ' : ℕ → ℕ → ℕ → ℝ) (h0 : ∀ t x y, 0 < σ t x y)
    (hs : ∀ t x y, σ t x y ≤ σ' t x y) (lw : Bool) (hw : ∀ d, g.Has d → 0 ≤ m.weightTXZ g L lw d) {b : PyStr}
    (hb : 'v' ∉ b) (c : Cell) (hc : 0 < m.marginal g L lw b c) :
    let a := Ingredients.velExpect { m with sig := σ } g L lw b (fun v => v) c
    let a' := Ingredients.velExpect { m with sig := σ' } g L lw b (fun v => v) c
    Ingredients.velExpect { m with sig := σ } g L lw b (fun v => (v - a) ^ 2) c ≤
        Ingredients.velExpect { m with sig := σ' } g L lw b (fun v => (v - a') ^ 2) c ∧
      ((∀ t x y, σ t x y < σ' t x y) → Ingredients.velExpect { m with sig := σ } g L lw b (fun v => (v - a) ^ 2) c <
        Ingredients.velExpect { m with sig := σ' } g L lw b (fun v => (v - a') ^ 2) c) := by
  intro a a'
  have e : a' = a := by
    simp only [a, a']
    unfold Ingredients.velExpect
    rw [marginal_moving m m.mu σ' lw hb, marginal_moving m m.mu σ lw hb, weightTXZ_moving m m.mu σ', weightTXZ_moving m m.mu σ]
    simp only [normal_mean]
  rw [e]
  clear_value a
  clear e a'
  unfold Ingredients.velExpect
  rw [marginal_moving m m.mu σ' lw hb, marginal_moving m m.mu σ lw hb, weightTXZ_moving m m.mu σ', weightTXZ_moving m m.mu σ]
  simp only [spread_about]
  have sq : ∀ d : Cell, σ d.t d.x d.y ^ 2 ≤ σ' d.t d.x d.y ^ 2 := fun d => pow_le_pow_left₀ (h0 _ _ _).le (hs _ _ _) 2
  have le : ∀ d, g.Has d → (if coords b d = coords b c then m.weightTXZ g L lw d * (σ d.t d.x d.y ^ 2 + (m.mu d.t d.x d.y - a) ^ 2) else 0) ≤
      if coords b d = coords b c then m.weightTXZ g L lw d * (σ' d.t d.x d.y ^ 2 + (m.mu d.t d.x d.y - a) ^ 2) else 0 := fun d hd => by
    split_ifs
    · exact mul_le_mul_of_nonneg_left (by linarith [sq d]) (hw d hd)
    · exact le_rfl
  refine ⟨div_le_div_of_nonneg_right (sumTXZ_le hg le) hc.le, fun hlt => div_lt_div_of_pos_right (sumTXZ_lt hg le (fun d hd hpos => ?_) ?_) hc⟩
  · have lt := pow_lt_pow_left₀ (hlt d.t d.x d.y) (h0 _ _ _).le two_ne_zero
    split_ifs at hpos ⊢
    · have : 0 < m.weightTXZ g L lw d := (hw d hd).lt_of_ne fun e => by rw [← e] at hpos; simp at hpos
      exact mul_lt_mul_of_pos_left (by linarith) this
    · exact absurd hpos (lt_irrefl _)
  · rw [Ingredients.marginal, if_neg hb] at hc
    have sub := sumTXZ_lt hg (f := fun d => (if coords b d = coords b c then m.weightTXZ g L lw d else 0) + (-1) *
        (if coords b d = coords b c then m.weightTXZ g L lw d * (σ' d.t d.x d.y ^ 2 + (m.mu d.t d.x d.y - a) ^ 2) else 0))
      (f' := fun d => if coords b d = coords b c then m.weightTXZ g L lw d else 0) (fun d hd => ?_) (fun d hd hpos => ?_) hc
    · rw [sumTXZ_add, sumTXZ_mul] at sub
      linarith
    · split_ifs
      · linarith [mul_nonneg (hw d hd) (by positivity : 0 ≤ σ' d.t d.x d.y ^ 2 + (m.mu d.t d.x d.y - a) ^ 2)]
      · simp
    · have s0 : 0 < σ' d.t d.x d.y := (h0 _ _ _).trans_le (hs _ _ _)
      beta_reduce at hpos ⊢
      split_ifs at hpos ⊢
      · linarith [mul_pos hpos (by positivity : 0 < σ' d.t d.x d.y ^ 2 + (m.mu d.t d.x d.y - a) ^ 2)]
      · exact absurd hpos (lt_irrefl _)

/-- The bins `i..j-1` together. -/
theorem band_mass (μ σ : ℝ) {i j : ℕ} (hij : i ≤ j) :
    ∑ v ∈ Finset.Ico i j, (stdPhi ((g.v (v + 1) - μ) / σ) - stdPhi ((g.v v - μ) / σ)) =
      stdPhi ((g.v j - μ) / σ) - stdPhi ((g.v i - μ) / σ) := by
  rw [Finset.sum_Ico_eq_sum_range]
  have := Finset.sum_range_sub (fun k => stdPhi ((g.v (i + k) - μ) / σ)) (j - i)
  rw [Nat.add_sub_cancel' hij, add_zero] at this
  exact this

/-! ### Faster and hotter disks

`distStr ['v'] b` is `"v"`, or `"v_" + b`, for every conditioner `b` that the package accepts; `coords b c` the bin of these
variables in which cell `c` lies. -/

/-- Multiplying both limits of `vmax` by `k` (of either sign) multiplies every mean velocity of the component by `k`, given any
variables and weighted by mass or light, wherever there are stars. -/
theorem C88_scale {L : ℕ → ℕ → ℝ} (h : Sound p g f2 center rotation) (hg : g.Proper)
    (hset : ∀ f : Field, none ∉ f.get p) (hl : IsArr g ['t','z'] p.cube.ssps.lightWeights (fun c => .fin (L c.t c.z)))
    (hL : ∀ t z, 0 < L t z) {s e : ℝ} (ha : Aged p s e)
    (q rmax vmax : ℝ × ℝ) (hq : 0 < q.1 ∧ 0 < q.2) (hr : 0 < rmax.1 ∧ 0 < rmax.2)
    (hv : (0 ≤ vmax.1 ∧ 0 ≤ vmax.2) ∨ (vmax.1 ≤ 0 ∧ vmax.2 ≤ 0)) (k : ℝ) :
    ∃ p1 p2 w, GrowingDisk.setMuV p q rmax vmax = .ok p1 ∧ GrowingDisk.setMuV p q rmax (k * vmax.1, k * vmax.2) = .ok p2 ∧
      getP p.self "t".toList false false = .ok w ∧
      ∀ lw b, ValidPair ['v'] b → ∃ M M', getMean p1.self (distStr ['v'] b) lw = .ok M ∧
        getMean p2.self (distStr ['v'] b) lw = .ok M' ∧
        ∀ c, g.Has c → w.get [c.t] ≠ .fin 0 → ∃ μ : ℝ, M.get (coords b c) = .fin μ ∧ M'.get (coords b c) = .fin (k * μ) := by
  obtain ⟨m, hp, hpx, hpz⟩ := h.paramIs hg hl (fun t z => (hL t z).le) hset
  have hv' : (0 ≤ (k * vmax.1, k * vmax.2).1 ∧ 0 ≤ (k * vmax.1, k * vmax.2).2) ∨
      ((k * vmax.1, k * vmax.2).1 ≤ 0 ∧ (k * vmax.1, k * vmax.2).2 ≤ 0) := by
    rcases le_total 0 k with hk | hk <;> rcases hv with ⟨v1, v2⟩ | ⟨v1, v2⟩
    · exact .inl ⟨mul_nonneg hk v1, mul_nonneg hk v2⟩
    · exact .inr ⟨mul_nonpos_of_nonneg_of_nonpos hk v1, mul_nonpos_of_nonneg_of_nonpos hk v2⟩
    · exact .inr ⟨mul_nonpos_of_nonpos_of_nonneg hk v1, mul_nonpos_of_nonpos_of_nonneg hk v2⟩
    · exact .inl ⟨mul_nonneg_of_nonpos_of_nonpos hk v1, mul_nonneg_of_nonpos_of_nonpos hk v2⟩
  obtain ⟨A, a1, a2⟩ := disk_setMuV h.built ha hq hr hv
  obtain ⟨B, b1, b2⟩ := disk_setMuV h.built ha hq hr hv'
  have h1 := hp.withMean (q := fun t x y => diskMu g center rotation s e q rmax vmax ⟨t, 0, x, y, 0⟩) (a2.congr fun c hc => rfl)
  have h2 := hp.withMean (q := fun t x y => diskMu g center rotation s e q rmax (k * vmax.1, k * vmax.2) ⟨t, 0, x, y, 0⟩)
    (b2.congr fun c hc => rfl)
  obtain ⟨w, w1, w2, -⟩ := stars_age hp
  refine ⟨_, _, w, a1, b1, w1, fun lw b hb => ?_⟩
  have hvb := noV_of_valid hb
  have s1 := h1.shines (fun t _ z _ => hL t z) hpx hpz
  have s2 := h2.shines (fun t _ z _ => hL t z) hpx hpz
  obtain ⟨M, m1, -, m2⟩ := C34_mean h1 lw (fun _ => s1) hb
  obtain ⟨M', n1, -, n2⟩ := C34_mean h2 lw (fun _ => s2) hb
  refine ⟨M, M', m1, n1, fun c hc h0 => ⟨_, m2 c hc (stars_marginal h1 hL hpx hpz lw hvb hc (w2 c hc h0)).ne', ?_⟩⟩
  rw [n2 c hc (stars_marginal h2 hL hpx hpz lw hvb hc (w2 c hc h0)).ne']
  refine congrArg _ (mean_scaled m _ _ k (fun t x y => ?_) lw hvb c)
  have e' : atAge g s e (k * vmax.1, k * vmax.2) t = k * atAge g s e vmax t := by
    show ramp s e (k * vmax.1) (k * vmax.2) (centre g.t t) = k * ramp s e vmax.1 vmax.2 (centre g.t t)
    unfold ramp
    split_ifs <;> ring
  unfold diskMu
  rw [e']
  ring

/-- With inner and outer dispersions that are nowhere smaller, no variance of the velocity is smaller, given any variables and
weighted by mass or light, wherever there are stars.  With greater dispersions every variance is greater. -/
theorem C88_hotter {L : ℕ → ℕ → ℝ} (h : Sound p g 1 center rotation) (hg : g.Proper)
    (hset : ∀ f : Field, none ∉ f.get p) (hl : IsArr g ['t','z'] p.cube.ssps.lightWeights (fun c => .fin (L c.t c.z)))
    (hL : ∀ t z, 0 < L t z) {s e : ℝ} (ha : Aged p s e) (hx : ∃ c, g.Has c ∧ frameX g center rotation c ≠ 0)
    (q alpha sIn sOut sIn' sOut' : ℝ × ℝ) (hq : 0 < q.1 ∧ 0 < q.2) (hal : 0 ≤ alpha.1 ∧ 0 ≤ alpha.2)
    (hi : 0 < sIn.1 ∧ 0 < sIn.2) (ho : 0 < sOut.1 ∧ 0 < sOut.2)
    (hii : sIn.1 ≤ sIn'.1 ∧ sIn.2 ≤ sIn'.2) (hoo : sOut.1 ≤ sOut'.1 ∧ sOut.2 ≤ sOut'.2) :
    ∃ p1 p2 w, GrowingDisk.setSigV p q alpha sIn sOut = .ok p1 ∧ GrowingDisk.setSigV p q alpha sIn' sOut' = .ok p2 ∧
      getP p.self "t".toList false false = .ok w ∧
      (∀ lw b, ValidPair ['v'] b → ∃ V V', (obj p1.self).getVariance (distStr ['v'] b) lw = .ok V ∧
        (obj p2.self).getVariance (distStr ['v'] b) lw = .ok V' ∧
        ∀ c, g.Has c → w.get [c.t] ≠ .fin 0 → ∃ v v' : ℝ, V.get (coords b c) = .fin v ∧ V'.get (coords b c) = .fin v' ∧ v ≤ v' ∧
          (sIn.1 < sIn'.1 ∧ sIn.2 < sIn'.2 → sOut.1 < sOut'.1 ∧ sOut.2 < sOut'.2 → v < v')) ∧
      ∃ r r' U, ∃ P P' : Cell → ℝ, ∃ u : ℕ → ℕ → ℕ → ℝ, getP p1.self "v_tx".toList false false = .ok r ∧
        getP p2.self "v_tx".toList false false = .ok r' ∧ p.muV = some U ∧
        (∀ c, g.Has c → r.get [c.v, c.t, c.x, c.y] = .fin (P c) ∧ r'.get [c.v, c.t, c.x, c.y] = .fin (P' c) ∧
          U.get [c.t, c.x, c.y] = .fin (u c.t c.x c.y)) ∧
        ∀ c, g.Has c → ∀ i j, i ≤ j → j ≤ g.nv → g.v i ≤ u c.t c.x c.y → u c.t c.x c.y ≤ g.v j →
          ∑ v ∈ Finset.Ico i j, P' { c with v := v } ≤ ∑ v ∈ Finset.Ico i j, P { c with v := v } ∧
          (i < j → sIn.1 < sIn'.1 ∧ sIn.2 < sIn'.2 → sOut.1 < sOut'.1 ∧ sOut.2 < sOut'.2 →
            ∑ v ∈ Finset.Ico i j, P' { c with v := v } < ∑ v ∈ Finset.Ico i j, P { c with v := v }) := by
  obtain ⟨m, hp, hpx, hpz⟩ := h.paramIs hg hl (fun t z => (hL t z).le) hset
  obtain ⟨M, -, hM⟩ := h.built.amax hg
  have hM0 : 0 < M := by
    obtain ⟨c, hc, hne⟩ := hx
    exact (abs_pos.2 hne).trans_le (hM.2 c hc)
  have hi' : 0 < sIn'.1 ∧ 0 < sIn'.2 := ⟨hi.1.trans_le hii.1, hi.2.trans_le hii.2⟩
  have ho' : 0 < sOut'.1 ∧ 0 < sOut'.2 := ⟨ho.1.trans_le hoo.1, ho.2.trans_le hoo.2⟩
  obtain ⟨A, a1, a2⟩ := disk_setSigV h.built hg ha hq hal hi ho hM hM0
  obtain ⟨B, b1, b2⟩ := disk_setSigV h.built hg ha hq hal hi' ho' hM hM0
  have pos : ∀ {si so : ℝ × ℝ}, 0 < si.1 ∧ 0 < si.2 → 0 < so.1 ∧ 0 < so.2 → ∀ t x y,
      0 < diskSig g center rotation s e M q alpha si so ⟨t, 0, x, y, 0⟩ := fun h1 h2 t x y =>
    (lt_min (atAge_pos ha.2 g h1.1 h1.2 t) (atAge_pos ha.2 g h2.1 h2.2 t)).trans_le
      (fade_mem (div_nonneg (ellR_nonneg _ _ _ _ _) hM0.le)).1
  have h1 := hp.withDisp (pos hi ho) (a2.congr fun c hc => rfl)
  have h2 := hp.withDisp (pos hi' ho') (b2.congr fun c hc => rfl)
  have up : ∀ (l l' : ℝ × ℝ), l.1 ≤ l'.1 → l.2 ≤ l'.2 → ∀ t, atAge g s e l t ≤ atAge g s e l' t ∧
      (l.1 < l'.1 → l.2 < l'.2 → atAge g s e l t < atAge g s e l' t) := fun l l' u1 u2 t => by
    obtain ⟨κ, k1, k2, k3, k4⟩ := ramp_frac ha.2 l.1 l.2 (centre g.t t)
    obtain ⟨κ', -, -, k3', k4'⟩ := ramp_frac ha.2 l'.1 l'.2 (centre g.t t)
    obtain rfl : κ' = κ := k4'.trans k4.symm
    unfold atAge
    rw [k3, k3']
    refine ⟨by nlinarith, fun v1 v2 => ?_⟩
    rcases k1.eq_or_lt with rfl | k1
    · simpa using v1
    · nlinarith
  have sig : ∀ t x y, diskSig g center rotation s e M q alpha sIn sOut ⟨t, 0, x, y, 0⟩ ≤
        diskSig g center rotation s e M q alpha sIn' sOut' ⟨t, 0, x, y, 0⟩ ∧
      (sIn.1 < sIn'.1 ∧ sIn.2 < sIn'.2 → sOut.1 < sOut'.1 ∧ sOut.2 < sOut'.2 →
        diskSig g center rotation s e M q alpha sIn sOut ⟨t, 0, x, y, 0⟩ <
          diskSig g center rotation s e M q alpha sIn' sOut' ⟨t, 0, x, y, 0⟩) := fun t x y => by
    have f0 : 0 ≤ min 1 ((ellR g center rotation (atAge g s e q t) ⟨t, 0, x, y, 0⟩ / M) ^ atAge g s e alpha t) :=
      le_min zero_le_one (Real.rpow_nonneg (div_nonneg (ellR_nonneg _ _ _ _ _) hM0.le) _)
    have f1 : min 1 ((ellR g center rotation (atAge g s e q t) ⟨t, 0, x, y, 0⟩ / M) ^ atAge g s e alpha t) ≤ 1 := min_le_left _ _
    obtain ⟨i1, i2⟩ := up sIn sIn' hii.1 hii.2 t
    obtain ⟨o1, o2⟩ := up sOut sOut' hoo.1 hoo.2 t
    unfold diskSig fade
    dsimp only
    generalize min 1 ((ellR g center rotation (atAge g s e q t) ⟨t, 0, x, y, 0⟩ / M) ^ atAge g s e alpha t) = F at *
    refine ⟨by nlinarith, fun v1 v2 => ?_⟩
    have i3 := i2 v1.1 v1.2
    have o3 := o2 v2.1 v2.2
    rcases f0.eq_or_lt with rfl | f0
    · simpa using i3
    · nlinarith
  obtain ⟨w, w1, w2, -⟩ := stars_age hp
  refine ⟨_, _, w, a1, b1, w1, fun lw b hb => ?_, ?_⟩
  · have hvb := noV_of_valid hb
    have s1 := h1.shines (fun t _ z _ => hL t z) hpx hpz
    have s2 := h2.shines (fun t _ z _ => hL t z) hpx hpz
    obtain ⟨V, m1, -, m2⟩ := C34_central h1 h.built.f2 lw (fun _ => s1) 2 hb
    obtain ⟨V', n1, -, n2⟩ := C34_central h2 h.built.f2 lw (fun _ => s2) 2 hb
    refine ⟨V, V', m1, n1, fun c hc h0 => ?_⟩
    have p1 := stars_marginal h1 hL hpx hpz lw hvb hc (w2 c hc h0)
    have p2 := stars_marginal h2 hL hpx hpz lw hvb hc (w2 c hc h0)
    refine ⟨_, _, m2 c hc p1.ne', n2 c hc p2.ne', ?_⟩
    have key := variance_hotter hg m _ _ (pos hi ho) (fun t x y => (sig t x y).1) lw
      (stars_weight hp lw (fun _ => hp.shines (fun t _ z _ => hL t z) hpx hpz)) hvb c
      (stars_marginal hp hL hpx hpz lw hvb hc (w2 c hc h0))
    exact ⟨key.1, fun v1 v2 => key.2 fun t x y => (sig t x y).2 v1 v2⟩
  · obtain ⟨r, r1, -, r2⟩ := C33_velocity_bins h1
    obtain ⟨r', r1', -, r2'⟩ := C33_velocity_bins h2
    obtain ⟨U, u1, u2⟩ := hp.muV
    refine ⟨r, r', U, _, _, m.mu, r1, r1', u1, fun c hc => ⟨(r2 c hc).1, (r2' c hc).1, u2.2 c hc⟩, fun c hc i j hij hj hi' hj' => ?_⟩
    dsimp only
    rw [band_mass _ _ hij, band_mass _ _ hij]
    have s0 := pos hi ho c.t c.x c.y
    have s1 := (sig c.t c.x c.y).1
    have lo : ∀ σ, (g.v i - m.mu c.t c.x c.y) / σ = -((m.mu c.t c.x c.y - g.v i) / σ) := fun σ => by rw [← neg_div, neg_sub]
    have l1 := stdPhi_mono (div_le_div_of_nonneg_left (sub_nonneg.2 hj') s0 s1)
    have l2 := stdPhi_mono (neg_le_neg (div_le_div_of_nonneg_left (sub_nonneg.2 hi') s0 s1))
    rw [lo, lo]
    refine ⟨sub_le_sub l1 l2, fun hlt v1 v2 => ?_⟩
    have s2 := (sig c.t c.x c.y).2 v1 v2
    rcases hi'.lt_or_eq with hi'' | hi''
    · have := stdPhi_strictMono (neg_lt_neg (div_lt_div_of_pos_left (sub_pos.2 hi'') s0 s2))
      linarith
    · have hj'' : m.mu c.t c.x c.y < g.v j := hi'' ▸ edges_lt hg.v hlt hj
      have := stdPhi_strictMono (div_lt_div_of_pos_left (sub_pos.2 hj'') s0 s2)
      linarith

end

/-! ### The hypotheses are met -/

/-- On the grid of 5 x 6 pixels, in a disk centred on a pixel row, the speed rises outwards along the major axis. -/
example : ∃ (p p' : Param) (A : Arr Num) (v v' : ℝ), Built p demoGrid 1 (0, 1 / 4) 0 ∧
    GrowingDisk.setMuV p (0.5, 0.5) (1, 1) (100, 50) = .ok p' ∧ p'.muV = some A ∧ A.get [1, 3, 0] = .fin v ∧ A.get [1, 4, 0] = .fin v' ∧
    0 ≤ v * v' ∧ |v| < |v'| := by
  obtain ⟨cube, -, h, -⟩ := demoCube_exists
  obtain ⟨p0, -, -, k3, -⟩ := init_sound h demoGrid_proper 1 (0, 1 / 4) 0
  obtain ⟨p, k1, k2⟩ := k3.setPt demoGrid_proper (lmd := 15) (phi := 0.5) (q := (0, 1)) (by norm_num [ValidSfh])
  obtain ⟨s, e, A, -, hse, -, k4, -⟩ := setPt_aged (q := (0, 1)) k3.built.cubeIs demoGrid_proper (lmd := 15) (phi := 0.5) (by norm_num) (by norm_num) (by norm_num)
    (by norm_num) (by norm_num) (by norm_num) (by norm_num)
  have ha : Aged p s e := ⟨by rw [Except.ok.inj (k1.symm.trans k4)], hse⟩
  obtain ⟨p', A', a1, a2, a3⟩ := C88_curve k2.built demoGrid_proper ha (0.5, 0.5) (1, 1) (100, 50) (by norm_num) (by norm_num) (by norm_num)
  have fx : frameX demoGrid (0, 1 / 4) 0 ⟨0, 0, 3, 0, 0⟩ = 2 / 5 ∧ frameX demoGrid (0, 1 / 4) 0 ⟨0, 0, 4, 0, 0⟩ = 4 / 5 := by
    constructor <;> norm_num [frameX, demoGrid, cubeGrid, centre, evenEdges]
  have fy : frameY demoGrid (0, 1 / 4) 0 ⟨0, 0, 3, 0, 0⟩ = 0 ∧ frameY demoGrid (0, 1 / 4) 0 ⟨0, 0, 4, 0, 0⟩ = 0 := by
    constructor <;> norm_num [frameY, demoGrid, cubeGrid, centre, evenEdges]
  obtain ⟨v, v', b1, b2, b3, -, -, b4⟩ := a3 1 (by simp [demoGrid, cubeGrid]) 3 (by simp [demoGrid, cubeGrid]) 0 (by simp [demoGrid, cubeGrid])
    4 (by simp [demoGrid, cubeGrid]) 0 (by simp [demoGrid, cubeGrid]) 2 (by norm_num) (by rw [fx.1, fx.2]; norm_num) (by rw [fy.1, fy.2]; norm_num)
  refine ⟨p, p', A', v, v', k2.built, a1, a2, b1, b2, b3, (b4 (by norm_num) (by rw [fx.1]; norm_num)
    (atAge_pos hse _ (by norm_num) (by norm_num) _).ne').1 ?_⟩
  have m1 : (1 : ℝ) ≤ atAge demoGrid s e (1, 1) 1 := by simpa using (atAge_mem hse demoGrid (1, 1) 1).1
  refine le_trans ?_ m1
  unfold ellRadiusAt
  rw [fx.2, fy.2]
  refine Real.sqrt_le_one.2 ?_
  norm_num

/-- A complete disk on that grid: doubling `vmax` doubles its mean velocity, and doubling the dispersions raises its variance. -/
example : ∃ (p p1 p2 p3 p4 : Param) (M M' V V' : Arr Num) (μ v v' : ℝ), Sound p demoGrid 1 (0, 0) 0 ∧
    GrowingDisk.setMuV p (0.5, 0.5) (1, 1) (100, 50) = .ok p1 ∧ GrowingDisk.setMuV p (0.5, 0.5) (1, 1) (2 * 100, 2 * 50) = .ok p2 ∧
    getMean p1.self "v".toList true = .ok M ∧ getMean p2.self "v".toList true = .ok M' ∧ M.get [] = .fin μ ∧ M'.get [] = .fin (2 * μ) ∧
    GrowingDisk.setSigV p (0.5, 0.5) (1, 1) (60, 40) (30, 20) = .ok p3 ∧
    GrowingDisk.setSigV p (0.5, 0.5) (1, 1) (120, 80) (60, 40) = .ok p4 ∧
    (obj p3.self).getVariance "v".toList true = .ok V ∧ (obj p4.self).getVariance "v".toList true = .ok V' ∧
    V.get [] = .fin v ∧ V'.get [] = .fin v' ∧ v < v' := by
  obtain ⟨cube, -, hc, hs⟩ := demoCube_exists
  obtain ⟨p0, k1, k2, k3, k4⟩ := init_sound hc demoGrid_proper 1 (0, 0) 0
  rcases disk_history demoGrid_proper demo_offcentre demoCalls p0 k3 demoCalls_valid with ⟨p, j1, j2, j3⟩ | ⟨-, -, j⟩
  · have hf : ∀ f : Field, none ∉ f.get p := fun f => by
      rw [(set_fields (base := fun p => p) (fun {s s' k} h => disk_writes h) demoCalls p0 p j1
        (fun f => Or.inr (k4 f)) f).1]
      right
      cases f <;> simp [demoCalls, DiskCall.field]
    have hl := demo_light (cube := p.cube) (by rw [j3, k2, hs])
    obtain ⟨s, e, ha⟩ := j2.aged (fun e => hf .age (by simp [Field.get, e]))
    obtain ⟨m, hp, -⟩ := j2.paramIs demoGrid_proper hl (fun t z => (demoL_pos t z).le) hf
    obtain ⟨w, w1, -, c, hc, w2⟩ := stars_age hp
    obtain ⟨p1, p2, w', a1, a2, a3, a4⟩ := C88_scale j2 demoGrid_proper hf hl demoL_pos ha (0.5, 0.5) (1, 1) (100, 50)
      (by norm_num) (by norm_num) (by norm_num) 2
    obtain rfl := Except.ok.inj (a3.symm.trans w1)
    obtain ⟨M, M', a5, a6, a7⟩ := a4 true [] (by decide)
    obtain ⟨μ, a8, a9⟩ := a7 c hc w2
    obtain ⟨p3, p4, w'', b1, b2, b3, b4, -⟩ := C88_hotter j2 demoGrid_proper hf hl demoL_pos ha demo_offcentre (0.5, 0.5) (1, 1) (60, 40)
      (30, 20) (120, 80) (60, 40) (by norm_num) (by norm_num) (by norm_num) (by norm_num) (by norm_num) (by norm_num)
    obtain rfl := Except.ok.inj (b3.symm.trans w1)
    obtain ⟨V, V', b5, b6, b7⟩ := b4 true [] (by decide)
    obtain ⟨v, v', b8, b9, -, b10⟩ := b7 c hc w2
    exact ⟨p, p1, p2, p3, p4, M, M', V, V', μ, v, v', j2, a1, a2, a5, a6, a8, a9, b1, b2, b5, b6, b8, b9, b10 (by norm_num) (by norm_num)⟩
  · exfalso
    obtain ⟨pre, k, post, j1, j2, j3⟩ := j
    cases pre with
    | nil => simp only [List.nil_append, demoCalls, List.cons.injEq] at j1; rw [← j1.1] at j3; exact j3.1 rfl
    | cons k' pre =>
      simp only [List.cons_append, demoCalls, List.cons.injEq] at j1
      exact j2 k' (by simp) (by rw [← j1.1]; rfl)

/-- On that grid the dispersion falls strictly from pixel (3, 0) to pixel (4, 0). -/
example : ∃ (p p' : Param) (A : Arr Num) (S : ℕ → ℕ → ℕ → ℝ), Built p demoGrid 1 (0, 1 / 4) 0 ∧
    GrowingDisk.setSigV p (0.5, 0.5) (1, 1) (60, 40) (30, 20) = .ok p' ∧ p'.sigV = some A ∧
    A.get [1, 3, 0] = .fin (S 1 3 0) ∧ A.get [1, 4, 0] = .fin (S 1 4 0) ∧ S 1 4 0 < S 1 3 0 := by
  obtain ⟨cube, -, h, -⟩ := demoCube_exists
  obtain ⟨p0, -, -, k3, -⟩ := init_sound h demoGrid_proper 1 (0, 1 / 4) 0
  obtain ⟨p, k1, k2⟩ := k3.setPt demoGrid_proper (lmd := 15) (phi := 0.5) (q := (0, 1)) (by norm_num [ValidSfh])
  obtain ⟨s, e, A, -, hse, -, k4, -⟩ := setPt_aged (q := (0, 1)) k3.built.cubeIs demoGrid_proper (lmd := 15) (phi := 0.5) (by norm_num) (by norm_num) (by norm_num)
    (by norm_num) (by norm_num) (by norm_num) (by norm_num)
  have ha : Aged p s e := ⟨by rw [Except.ok.inj (k1.symm.trans k4)], hse⟩
  have fx : frameX demoGrid (0, 1 / 4) 0 ⟨0, 0, 3, 0, 0⟩ = 2 / 5 ∧ frameX demoGrid (0, 1 / 4) 0 ⟨0, 0, 4, 0, 0⟩ = 4 / 5 := by
    constructor <;> norm_num [frameX, demoGrid, cubeGrid, centre, evenEdges]
  have fy : frameY demoGrid (0, 1 / 4) 0 ⟨0, 0, 3, 0, 0⟩ = 0 ∧ frameY demoGrid (0, 1 / 4) 0 ⟨0, 0, 4, 0, 0⟩ = 0 := by
    constructor <;> norm_num [frameY, demoGrid, cubeGrid, centre, evenEdges]
  have l1 : 1 < demoGrid.nt := by simp [demoGrid, cubeGrid]
  have l3 : 3 < demoGrid.nx := by simp [demoGrid, cubeGrid]
  have l4 : 4 < demoGrid.nx := by simp [demoGrid, cubeGrid]
  have l0 : 0 < demoGrid.ny := by simp [demoGrid, cubeGrid]
  obtain ⟨p', A', S, a1, a2, a3, a4⟩ := C88_profile k2.built demoGrid_proper ha
    ⟨⟨0, 0, 4, 0, 0⟩, ⟨demoGrid_proper.nt, demoGrid_proper.nv, l4, l0, demoGrid_proper.nz⟩, by rw [fx.2]; norm_num⟩
    (0.5, 0.5) (1, 1) (60, 40) (30, 20) (by norm_num) (by norm_num) (by norm_num) (by norm_num)
  have r3 : ∀ q, ellRadiusAt demoGrid (0, 1 / 4) 0 q 3 0 = 2 / 5 := fun q => by
    unfold ellRadiusAt; rw [fx.1, fy.1, zero_div, zero_pow two_ne_zero, add_zero, Real.sqrt_sq (by norm_num)]
  have r4 : ∀ q, ellRadiusAt demoGrid (0, 1 / 4) 0 q 4 0 = 4 / 5 := fun q => by
    unfold ellRadiusAt; rw [fx.2, fy.2, zero_div, zero_pow two_ne_zero, add_zero, Real.sqrt_sq (by norm_num)]
  refine ⟨p, p', A', S, k2.built, a1, a2, a3 1 l1 3 l3 0 l0, a3 1 l1 4 l4 0 l0,
    (((a4 1 l1 3 l3 0 l0).2 4 l4 0 l0).2 (by rw [r3, r4]; norm_num) ⟨4, l4, 0, l0, by rw [r3, fx.2]; norm_num [abs_of_pos]⟩
      (atAge_pos hse _ (by norm_num) (by norm_num) _)).2 ?_⟩
  obtain ⟨κ, -, k2, k3, k4⟩ := ramp_frac hse 30 20 (centre demoGrid.t 1)
  obtain ⟨κ', -, k2', k3', k4'⟩ := ramp_frac hse 60 40 (centre demoGrid.t 1)
  show ramp s e 30 20 _ < ramp s e 60 40 _
  rw [k3, k3', k4, k4'] 
  rw [← k4]
  linarith

end PKM
