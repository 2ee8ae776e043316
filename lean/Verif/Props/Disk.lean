import Verif.Setup

/-!
# C37, C38, C52: growing disks, streams and the frame of a component

`Built p g f2 center rotation` says that `p` was made by the constructor on a cube representing the
grid `g` (setters may have run since); `Aged p s e` that `set_p_t` ran and stored the age limits
`s < e` that belong to its quantiles (`setPt_aged`).  The position of pixel `(x, y)` in the frame of the
component is `(frameX, frameY)`, its elliptical radius for the axis ratio `q` is
`sqrt (frameX² + (frameY / q)²)`, and `atAge g s e (young, old) t` is the linear interpolation of C36.
-/

open scoped Classical
open MeasureTheory ProbabilityTheory

noncomputable section

namespace PKM
open Np Component

variable {s : Stream} {p : Param} {g : Grid} {f2 : ℝ} {center : ℝ × ℝ} {rotation : ℝ}

/-! ### C52 -/

/-- The constructor succeeds and stores, for every pixel, its coordinates rotated about the centre. -/
theorem C52_frame {cube : IFUCube} (hc : CubeIs cube g) (hg : g.Proper) (f2 : ℝ) (center : ℝ × ℝ) (rotation : ℝ) :
    ∃ p, Param.init f2 cube center rotation = .ok p ∧ p.xxp.shape = [g.nx, g.ny] ∧ p.yyp.shape = [g.nx, g.ny] ∧
      ∃ X Y : ℕ → ℕ → ℝ,
      (∀ x < g.nx, ∀ y < g.ny, p.xxp.get [x, y] = .fin (X x y) ∧ p.yyp.get [x, y] = .fin (Y x y)) ∧
      -- distances between pixels, and to the centre, are preserved
      (∀ x y x' y', (X x y - X x' y') ^ 2 + (Y x y - Y x' y') ^ 2 =
        (centre g.x x - centre g.x x') ^ 2 + (centre g.y y - centre g.y y') ^ 2) ∧
      (∀ x y, X x y ^ 2 + Y x y ^ 2 = (centre g.x x - center.1) ^ 2 + (centre g.y y - center.2) ^ 2) ∧
      -- the centre, and only the centre, is mapped to the origin
      (∀ x y, X x y = 0 ∧ Y x y = 0 ↔ centre g.x x = center.1 ∧ centre g.y y = center.2) ∧
      -- the inverse rotation recovers the position
      (∀ x y, centre g.x x = center.1 + (Real.cos rotation * X x y + Real.sin rotation * Y x y) ∧
        centre g.y y = center.2 + (-Real.sin rotation * X x y + Real.cos rotation * Y x y)) := by
  obtain ⟨p, h1, hb, -⟩ := init_built hc hg f2 center rotation
  have hcs := Real.sin_sq_add_cos_sq rotation
  have hn : ∀ x y : ℕ, frameX g center rotation ⟨0, 0, x, y, 0⟩ ^ 2 + frameY g center rotation ⟨0, 0, x, y, 0⟩ ^ 2 =
      (centre g.x x - center.1) ^ 2 + (centre g.y y - center.2) ^ 2 := fun x y => by
    simp only [frameX, frameY]
    linear_combination ((centre g.x x - center.1) ^ 2 + (centre g.y y - center.2) ^ 2) * hcs
  refine ⟨p, h1, hb.xxp_marr.1, hb.yyp_marr.1, fun x y => frameX g center rotation ⟨0, 0, x, y, 0⟩,
    fun x y => frameY g center rotation ⟨0, 0, x, y, 0⟩, fun x hx y hy => ⟨?_, ?_⟩, fun x y x' y' => ?_, hn,
    fun x y => ⟨fun h => ?_, fun h => ?_⟩, fun x y => ⟨?_, ?_⟩⟩
  · exact hb.xxp_marr.2 ⟨0, 0, x, y, 0⟩ ⟨hg.nt, hg.nv, hx, hy, hg.nz⟩
  · exact hb.yyp_marr.2 ⟨0, 0, x, y, 0⟩ ⟨hg.nt, hg.nv, hx, hy, hg.nz⟩
  · simp only [frameX, frameY]
    linear_combination ((centre g.x x - centre g.x x') ^ 2 + (centre g.y y - centre g.y y') ^ 2) * hcs
  · have := hn x y
    beta_reduce at h
    rw [h.1, h.2] at this
    have h1 := sq_nonneg (centre g.x x - center.1)
    have h2 := sq_nonneg (centre g.y y - center.2)
    have e1 : (centre g.x x - center.1) ^ 2 = 0 := by linarith
    have e2 : (centre g.y y - center.2) ^ 2 = 0 := by linarith
    exact ⟨sub_eq_zero.1 (pow_eq_zero_iff two_ne_zero |>.1 e1), sub_eq_zero.1 (pow_eq_zero_iff two_ne_zero |>.1 e2)⟩
  · simp only [frameX, frameY, h.1, h.2]; constructor <;> ring
  · simp only [frameX, frameY]
    linear_combination -(centre g.x x - center.1) * hcs
  · simp only [frameX, frameY]
    linear_combination -(centre g.y y - center.2) * hcs

/-- Rotating by `a + b` is rotating by `a` and then by `b`, about the same centre. -/
theorem C52_compose {cube : IFUCube} (hc : CubeIs cube g) (hg : g.Proper) (center : ℝ × ℝ) (a b : ℝ) :
    ∃ (p p' : Param) (X Y X' Y' : ℕ → ℕ → ℝ), Param.init f2 cube center a = .ok p ∧ Param.init f2 cube center (a + b) = .ok p' ∧
      (∀ x < g.nx, ∀ y < g.ny, p.xxp.get [x, y] = .fin (X x y) ∧ p.yyp.get [x, y] = .fin (Y x y) ∧
        p'.xxp.get [x, y] = .fin (X' x y) ∧ p'.yyp.get [x, y] = .fin (Y' x y) ∧
        X' x y = Real.cos b * X x y - Real.sin b * Y x y ∧ Y' x y = Real.sin b * X x y + Real.cos b * Y x y) := by
  obtain ⟨p, h1, hb, -⟩ := init_built hc hg f2 center a
  obtain ⟨p', h1', hb', -⟩ := init_built hc hg f2 center (a + b)
  refine ⟨p, p', fun x y => frameX g center a ⟨0, 0, x, y, 0⟩, fun x y => frameY g center a ⟨0, 0, x, y, 0⟩,
    fun x y => frameX g center (a + b) ⟨0, 0, x, y, 0⟩, fun x y => frameY g center (a + b) ⟨0, 0, x, y, 0⟩, h1, h1',
    fun x hx y hy => ?_⟩
  have hcell : g.Has ⟨0, 0, x, y, 0⟩ := ⟨hg.nt, hg.nv, hx, hy, hg.nz⟩
  refine ⟨hb.xxp_marr.2 _ hcell, hb.yyp_marr.2 _ hcell, hb'.xxp_marr.2 _ hcell, hb'.yyp_marr.2 _ hcell, ?_, ?_⟩ <;>
    simp only [frameX, frameY, Real.cos_add, Real.sin_add] <;> ring

/-- The major axis of a component (`Y = 0`, `X > 0`) points in the direction `(cos rotation, -sin rotation)`
of the cube: positive rotations are clockwise. -/
theorem C52_axis (g : Grid) (center : ℝ × ℝ) (rotation : ℝ) (c : Cell) (h : frameY g center rotation c = 0) :
    centre g.x c.x = center.1 + Real.cos rotation * frameX g center rotation c ∧
    centre g.y c.y = center.2 - Real.sin rotation * frameX g center rotation c := by
  have hcs := Real.sin_sq_add_cos_sq rotation
  simp only [frameX, frameY] at h ⊢
  constructor
  · linear_combination -(centre g.x c.x - center.1) * hcs + Real.sin rotation * h
  · linear_combination -(centre g.y c.y - center.2) * hcs + Real.cos rotation * h

/-! ### C37 -/

/-- `set_p_x_t`: probabilities sum to one over the pixels for every age, are positive, and their ratios are
those of the cored power law `(r + rc)^(-alpha)` with the parameters of that age. -/
theorem C37_spatial (hb : Built p g f2 center rotation) (hg : g.Proper) {t0 t1 : ℝ} (ha : Aged p t0 t1)
    (q rc alpha : ℝ × ℝ) (hq : 0 < q.1 ∧ 0 < q.2) (hr : 0 < rc.1 ∧ 0 < rc.2) (hal : 0 ≤ alpha.1 ∧ 0 ≤ alpha.2) :
    ∃ p' r, GrowingDisk.setPxt p q rc alpha = .ok p' ∧ getP p'.self ['x','_','t'] false false = .ok r ∧
      r.shape = [g.nx, g.ny, g.nt] ∧
      (∀ t < g.nt, ∑ x : Fin g.nx, ∑ y : Fin g.ny, r.get [(x : ℕ), (y : ℕ), t] = .fin 1) ∧
      ∀ t < g.nt, ∃ S, 0 < S ∧ ∀ x < g.nx, ∀ y < g.ny, ∃ v, 0 < v ∧ r.get [x, y, t] = .fin v ∧
        v = (Real.sqrt (frameX g center rotation ⟨t, 0, x, y, 0⟩ ^ 2 +
              (frameY g center rotation ⟨t, 0, x, y, 0⟩ / atAge g t0 t1 q t) ^ 2) + atAge g t0 t1 rc t) ^
            (-atAge g t0 t1 alpha t) * ((g.x (x + 1) - g.x x) * (g.y (y + 1) - g.y y)) / S := by
  obtain ⟨A, h1, h2⟩ := disk_setPxt hb hg ha hq hr hal
  set ρ := coredRho g center rotation t0 t1 q rc alpha with hρ
  have hρp : ∀ c, 0 < ρ c := fun c => coredRho_pos ha.2 hr.1 hr.2 c
  obtain ⟨r, h3, h4, h5⟩ := getP_xt_stored (p := { p with logPxt := some A }) hb.cubeIs hg rfl h2
    (fun c _ => (div_pos (hρp c) (pixTotal_pos hg hρp c)).le) false
  have hv : ∀ x < g.nx, ∀ y < g.ny, ∀ t < g.nt, r.get [x, y, t] = .fin (ρ ⟨t, 0, x, y, 0⟩ / pixTotal g ρ ⟨t, 0, x, y, 0⟩ *
      (width g.x x * width g.y y)) := fun x hx y hy t ht => by
    have := h5 ⟨t, 0, x, y, 0⟩ ⟨ht, hg.nv, hx, hy, hg.nz⟩
    simp only [dvol, Bool.false_eq_true, if_false, div_one] at this
    exact this
  refine ⟨_, r, h1, h3, h4, fun t ht => ?_, fun t ht => ⟨pixTotal g ρ ⟨t, 0, 0, 0, 0⟩, pixTotal_pos hg hρp _,
    fun x hx y hy => ⟨_, ?_, hv x hx y hy t ht, ?_⟩⟩⟩
  · have e : ∀ x : Fin g.nx, ∑ y : Fin g.ny, r.get [(x : ℕ), (y : ℕ), t] =
        .fin (∑ y : Fin g.ny, ρ ⟨t, 0, x, y, 0⟩ / pixTotal g ρ ⟨t, 0, x, y, 0⟩ * (width g.x x * width g.y y)) := fun x =>
      Num.sum_congr_fin _ (fun y : Fin g.ny => r.get [(x : ℕ), (y : ℕ), t])
        (fun y : Fin g.ny => ρ ⟨t, 0, x, y, 0⟩ / pixTotal g ρ ⟨t, 0, x, y, 0⟩ * (width g.x x * width g.y y))
        fun y _ => hv x x.2 y y.2 t ht
    rw [Num.sum_congr_fin _ (fun x : Fin g.nx => ∑ y : Fin g.ny, r.get [(x : ℕ), (y : ℕ), t])
      (fun x : Fin g.nx => ∑ y : Fin g.ny, ρ ⟨t, 0, x, y, 0⟩ / pixTotal g ρ ⟨t, 0, x, y, 0⟩ * (width g.x x * width g.y y))
      fun x _ => e x]
    congr 1
    exact pixTotal_norm hg hρp ⟨t, 0, 0, 0, 0⟩
  · exact mul_pos (div_pos (hρp _) (pixTotal_pos hg hρp _))
      (mul_pos (sub_pos.2 (hg.x _ hx)) (sub_pos.2 (hg.y _ hy)))
  · show ρ ⟨t, 0, x, y, 0⟩ / pixTotal g ρ ⟨t, 0, 0, 0, 0⟩ * (width g.x x * width g.y y) = _
    rw [hρ, div_mul_eq_mul_div]
    rfl

/-- `set_t_dep`: the stored depletion times lie between the inner and the outer value; pixels at the centre
have the inner value (for positive `alpha`), pixels with elliptical radius beyond the largest distance from
the minor axis the outer value. -/
theorem C37_depletion (hb : Built p g f2 center rotation) (hg : g.Proper)
    (hx : ∃ c, g.Has c ∧ frameX g center rotation c ≠ 0)
    (q alpha tIn tOut tMin tMax : ℝ) (hq : 0 < q) (hal : 0 ≤ alpha) (h1 : 0.1 ≤ tMin) (h2 : tMax ≤ 13)
    (h3 : tMin ≤ tIn ∧ tIn ≤ tMax) (h4 : tMin ≤ tOut ∧ tOut ≤ tMax) :
    ∃ p' A, GrowingDisk.setTDep p q alpha tIn tOut tMin tMax = .ok p' ∧ p'.tDep = some A ∧ A.shape = [g.nx, g.ny] ∧
      ∃ T : ℕ → ℕ → ℝ, (∀ x < g.nx, ∀ y < g.ny, A.get [x, y] = .fin (T x y)) ∧
      (∀ x y, min tIn tOut ≤ T x y ∧ T x y ≤ max tIn tOut) ∧
      (∀ x y, frameX g center rotation ⟨0, 0, x, y, 0⟩ = 0 → frameY g center rotation ⟨0, 0, x, y, 0⟩ = 0 →
        0 < alpha → T x y = tIn) ∧
      (∀ x y, (∀ c, g.Has c → |frameX g center rotation c| ≤ Real.sqrt (frameX g center rotation ⟨0, 0, x, y, 0⟩ ^ 2 +
          (frameY g center rotation ⟨0, 0, x, y, 0⟩ / q) ^ 2)) → T x y = tOut) ∧
      (∀ x y x' y', frameX g center rotation ⟨0, 0, x, y, 0⟩ ^ 2 + (frameY g center rotation ⟨0, 0, x, y, 0⟩ / q) ^ 2 ≤
          frameX g center rotation ⟨0, 0, x', y', 0⟩ ^ 2 + (frameY g center rotation ⟨0, 0, x', y', 0⟩ / q) ^ 2 →
          |T x y - tIn| ≤ |T x' y' - tIn|) := by
  obtain ⟨m, -, hm⟩ := hb.amax hg
  have hm0 : 0 < m := by
    obtain ⟨c, hc, hne⟩ := hx
    exact (abs_pos.2 hne).trans_le (hm.2 c hc)
  obtain ⟨A, B, k1, k2, -⟩ := disk_setTDep hb hg hq hal h1 h2 h3 h4 hm hm0
  have hR : ∀ c, 0 ≤ ellR g center rotation q c / m := fun c => div_nonneg (ellR_nonneg _ _ _ _ _) hm0.le
  refine ⟨_, A, k1, rfl, k2.1, fun x y => fade tIn tOut (ellR g center rotation q ⟨0, 0, x, y, 0⟩ / m) alpha,
    fun x hx y hy => k2.2 ⟨0, 0, x, y, 0⟩ ⟨hg.nt, hg.nv, hx, hy, hg.nz⟩, fun x y => fade_mem (hR _), ?_, ?_, ?_⟩
  · intro x y e1 e2 hα
    simp [fade, ellR, e1, e2, Real.zero_rpow hα.ne']
  · intro x y h
    obtain ⟨c, hc, e⟩ := hm.1
    have : m ≤ ellR g center rotation q ⟨0, 0, x, y, 0⟩ := e ▸ h c hc
    have h1 : 1 ≤ (ellR g center rotation q ⟨0, 0, x, y, 0⟩ / m) ^ alpha :=
      Real.one_le_rpow ((one_le_div hm0).2 this) hal
    simp only [fade, min_eq_left h1]; ring
  · intro x y x' y' h
    have h1 : (ellR g center rotation q ⟨0, 0, x, y, 0⟩ / m) ^ alpha ≤
        (ellR g center rotation q ⟨0, 0, x', y', 0⟩ / m) ^ alpha :=
      Real.rpow_le_rpow (hR _) (by gcongr; exact Real.sqrt_le_sqrt h) hal
    have h0 : 0 ≤ min 1 ((ellR g center rotation q ⟨0, 0, x, y, 0⟩ / m) ^ alpha) :=
      le_min zero_le_one (Real.rpow_nonneg (hR _) _)
    have h2 := min_le_min_left 1 h1
    simp only [fade, add_sub_cancel_left, abs_mul]
    rw [abs_of_nonneg h0, abs_of_nonneg (h0.trans h2)]
    gcongr

/-- `set_sig_v`: dispersions are positive and lie between the inner and outer values of their age. -/
theorem C37_dispersion (hb : Built p g f2 center rotation) (hg : g.Proper) {t0 t1 : ℝ} (ha : Aged p t0 t1)
    (hx : ∃ c, g.Has c ∧ frameX g center rotation c ≠ 0)
    (q alpha sIn sOut : ℝ × ℝ) (hq : 0 < q.1 ∧ 0 < q.2) (hal : 0 ≤ alpha.1 ∧ 0 ≤ alpha.2)
    (hi : 0 < sIn.1 ∧ 0 < sIn.2) (ho : 0 < sOut.1 ∧ 0 < sOut.2) :
    ∃ p' A, GrowingDisk.setSigV p q alpha sIn sOut = .ok p' ∧ p'.sigV = some A ∧ A.shape = [g.nt, g.nx, g.ny] ∧
      ∀ t < g.nt, ∀ x < g.nx, ∀ y < g.ny, ∃ v, A.get [t, x, y] = .fin v ∧ 0 < v ∧
        min (atAge g t0 t1 sIn t) (atAge g t0 t1 sOut t) ≤ v ∧ v ≤ max (atAge g t0 t1 sIn t) (atAge g t0 t1 sOut t) ∧
        min (min sIn.1 sIn.2) (min sOut.1 sOut.2) ≤ v ∧ v ≤ max (max sIn.1 sIn.2) (max sOut.1 sOut.2) ∧
        (frameX g center rotation ⟨t, 0, x, y, 0⟩ = 0 → frameY g center rotation ⟨t, 0, x, y, 0⟩ = 0 →
          0 < atAge g t0 t1 alpha t → v = atAge g t0 t1 sIn t) ∧
        ((∀ c, g.Has c → |frameX g center rotation c| ≤ Real.sqrt (frameX g center rotation ⟨t, 0, x, y, 0⟩ ^ 2 +
          (frameY g center rotation ⟨t, 0, x, y, 0⟩ / atAge g t0 t1 q t) ^ 2)) → v = atAge g t0 t1 sOut t) := by
  obtain ⟨m, -, hm⟩ := hb.amax hg
  have hm0 : 0 < m := by
    obtain ⟨c, hc, hne⟩ := hx
    exact (abs_pos.2 hne).trans_le (hm.2 c hc)
  obtain ⟨A, k1, k2⟩ := disk_setSigV hb hg ha hq hal hi ho hm hm0
  refine ⟨_, A, k1, rfl, k2.1, fun t ht x hx y hy =>
    ⟨_, k2.2 ⟨t, 0, x, y, 0⟩ ⟨ht, hg.nv, hx, hy, hg.nz⟩, ?_⟩⟩
  have hR : 0 ≤ ellR g center rotation (atAge g t0 t1 q t) ⟨t, 0, x, y, 0⟩ / m := div_nonneg (ellR_nonneg _ _ _ _ _) hm0.le
  obtain ⟨b1, b2⟩ := fade_mem (a := atAge g t0 t1 sIn t) (b := atAge g t0 t1 sOut t) (α := atAge g t0 t1 alpha t) hR
  have p1 := atAge_pos ha.2 g hi.1 hi.2 t
  have p2 := atAge_pos ha.2 g ho.1 ho.2 t
  obtain ⟨m1, m2⟩ := atAge_mem ha.2 g sIn t
  obtain ⟨m3, m4⟩ := atAge_mem ha.2 g sOut t
  refine ⟨(lt_min p1 p2).trans_le b1, b1, b2, (min_le_min m1 m3).trans b1, b2.trans (max_le_max m2 m4), ?_, ?_⟩
  · intro e1 e2 hα
    simp only [diskSig, fade, ellR, e1, e2]
    rw [show Real.sqrt (0 ^ 2 + (0 / atAge g t0 t1 q t) ^ 2) / m = 0 by simp, Real.zero_rpow hα.ne']
    simp
  · intro h
    obtain ⟨c, hc, e⟩ := hm.1
    have h0 : m ≤ ellR g center rotation (atAge g t0 t1 q t) ⟨t, 0, x, y, 0⟩ := e ▸ h c hc
    have h1 : 1 ≤ (ellR g center rotation (atAge g t0 t1 q t) ⟨t, 0, x, y, 0⟩ / m) ^ atAge g t0 t1 alpha t :=
      Real.one_le_rpow ((one_le_div hm0).2 h0) (atAge_nonneg ha.2 g hal.1 hal.2 t)
    simp only [diskSig, fade, min_eq_left h1]; ring

theorem cubic_bound {r m : ℝ} (hr : 0 ≤ r) (hm : 0 < m) : 27 * r * m ^ 2 ≤ (r + 2 * m) ^ 3 := by
  nlinarith [mul_nonneg (sq_nonneg (r - m)) (show 0 ≤ r + 8 * m by linarith)]

theorem cubic_eq {r m : ℝ} (hr : 0 ≤ r) (hm : 0 < m) (h : 27 * r * m ^ 2 = (r + 2 * m) ^ 3) : r = m := by
  have : (r - m) ^ 2 * (r + 8 * m) = 0 := by linear_combination -h
  rcases mul_eq_zero.1 this with h | h
  · have := pow_eq_zero_iff two_ne_zero |>.1 h; linarith
  · linarith

/-- `set_mu_v`: the speed never exceeds the peak speed of its age, and reaches it exactly on the major axis at
distance `rmax`; the velocity is antisymmetric: it has the sign of `vmax` on one side of the minor axis, the
opposite on the other, and is zero on the minor axis. -/
theorem C37_rotation (hb : Built p g f2 center rotation) (hg : g.Proper) {t0 t1 : ℝ} (ha : Aged p t0 t1)
    (q rmax vmax : ℝ × ℝ) (hq : 0 < q.1 ∧ 0 < q.2) (hr : 0 < rmax.1 ∧ 0 < rmax.2)
    (hv : (0 ≤ vmax.1 ∧ 0 ≤ vmax.2) ∨ (vmax.1 ≤ 0 ∧ vmax.2 ≤ 0)) :
    ∃ p' A, GrowingDisk.setMuV p q rmax vmax = .ok p' ∧ p'.muV = some A ∧ A.shape = [g.nt, g.nx, g.ny] ∧
      ∀ t < g.nt, ∀ x < g.nx, ∀ y < g.ny, ∃ v, A.get [t, x, y] = .fin v ∧
        |v| ≤ |atAge g t0 t1 vmax t| ∧ |v| ≤ max |vmax.1| |vmax.2| ∧
        (frameY g center rotation ⟨t, 0, x, y, 0⟩ = 0 → frameX g center rotation ⟨t, 0, x, y, 0⟩ = atAge g t0 t1 rmax t →
          v = atAge g t0 t1 vmax t) ∧
        (frameY g center rotation ⟨t, 0, x, y, 0⟩ = 0 → frameX g center rotation ⟨t, 0, x, y, 0⟩ = -atAge g t0 t1 rmax t →
          v = -atAge g t0 t1 vmax t) ∧
        (|v| = |atAge g t0 t1 vmax t| → atAge g t0 t1 vmax t ≠ 0 → frameY g center rotation ⟨t, 0, x, y, 0⟩ = 0 ∧
          |frameX g center rotation ⟨t, 0, x, y, 0⟩| = atAge g t0 t1 rmax t) ∧
        0 ≤ v * (atAge g t0 t1 vmax t * frameX g center rotation ⟨t, 0, x, y, 0⟩) ∧
        (frameX g center rotation ⟨t, 0, x, y, 0⟩ = 0 → v = 0) := by
  obtain ⟨A, k1, k2⟩ := disk_setMuV hb ha hq hr hv
  refine ⟨_, A, k1, rfl, k2.1, fun t ht x hx y hy =>
    ⟨_, k2.2 ⟨t, 0, x, y, 0⟩ ⟨ht, hg.nv, hx, hy, hg.nz⟩, ?_⟩⟩
  have hm := atAge_pos ha.2 g hr.1 hr.2 t
  have hqt := atAge_pos ha.2 g hq.1 hq.2 t
  obtain ⟨v1, v2⟩ := atAge_mem ha.2 g vmax t
  simp only [diskMu]
  generalize hXd : frameX g center rotation ⟨t, 0, x, y, 0⟩ = X
  generalize hYd : frameY g center rotation ⟨t, 0, x, y, 0⟩ = Y
  have hRd : ellR g center rotation (atAge g t0 t1 q t) ⟨t, 0, x, y, 0⟩ = Real.sqrt (X ^ 2 + (Y / atAge g t0 t1 q t) ^ 2) := by
    rw [ellR, hXd, hYd]
  rw [hRd]
  generalize atAge g t0 t1 rmax t = m at *
  generalize atAge g t0 t1 q t = Q at *
  generalize atAge g t0 t1 vmax t = V at *
  have hXR : |X| ≤ Real.sqrt (X ^ 2 + (Y / Q) ^ 2) := by
    rw [← Real.sqrt_sq_eq_abs]; exact Real.sqrt_le_sqrt (by nlinarith [sq_nonneg (Y / Q)])
  have hRsq : Real.sqrt (X ^ 2 + (Y / Q) ^ 2) ^ 2 = X ^ 2 + (Y / Q) ^ 2 := Real.sq_sqrt (by positivity)
  have hR0 : 0 ≤ Real.sqrt (X ^ 2 + (Y / Q) ^ 2) := Real.sqrt_nonneg _
  have hY0 : Y = 0 → Real.sqrt (X ^ 2 + (Y / Q) ^ 2) = |X| := fun h => by
    rw [h, ← Real.sqrt_sq_eq_abs]; simp
  generalize Real.sqrt (X ^ 2 + (Y / Q) ^ 2) = R at *
  have hd : 0 < (R + 2 * m) ^ 3 := by positivity
  have habs : |27 * V * m ^ 2 * X / (R + 2 * m) ^ 3| = |V| * (27 * |X| * m ^ 2 / (R + 2 * m) ^ 3) := by
    rw [abs_div, abs_mul, abs_mul, abs_mul, abs_of_pos hd, abs_of_pos (show (0:ℝ) < 27 by norm_num),
      abs_of_pos (show 0 < m ^ 2 by positivity)]
    ring
  have hfrac : 27 * |X| * m ^ 2 / (R + 2 * m) ^ 3 ≤ 1 := by
    rw [div_le_one hd]
    exact le_trans (by gcongr) (cubic_bound hR0 hm)
  have hle : |27 * V * m ^ 2 * X / (R + 2 * m) ^ 3| ≤ |V| := by
    rw [habs]; exact mul_le_of_le_one_right (abs_nonneg _) hfrac
  refine ⟨hle, hle.trans ?_, ?_, ?_, ?_, ?_, ?_⟩
  · rcases hv with h | h
    · rw [abs_of_nonneg h.1, abs_of_nonneg h.2, abs_of_nonneg (le_trans (le_min h.1 h.2) v1)]; exact v2
    · rw [abs_of_nonpos h.1, abs_of_nonpos h.2, abs_of_nonpos (v2.trans (max_le h.1 h.2)), max_neg_neg]
      linarith
  · intro e1 e2
    rw [hY0 e1, e2, abs_of_pos hm]; field_simp; ring
  · intro e1 e2
    rw [hY0 e1, e2, abs_neg, abs_of_pos hm]; field_simp; ring
  · intro e1 e2
    rw [habs] at e1
    have h1 : 27 * |X| * m ^ 2 / (R + 2 * m) ^ 3 = 1 := by
      have := abs_pos.2 e2
      exact mul_left_cancel₀ this.ne' (e1.trans (mul_one _).symm)
    rw [div_eq_one_iff_eq hd.ne'] at h1
    have h2 : 27 * R * m ^ 2 = (R + 2 * m) ^ 3 :=
      le_antisymm (cubic_bound hR0 hm) (h1 ▸ by gcongr)
    have hRm := cubic_eq hR0 hm h2
    have h3 : |X| = R := by
      have h5 : 27 * |X| * m ^ 2 = 27 * R * m ^ 2 := h1.trans h2.symm
      have : (27 * m ^ 2) ≠ 0 := by positivity
      exact mul_left_cancel₀ this (by linear_combination h5)
    refine ⟨?_, h3.trans hRm⟩
    have h4 : (Y / Q) ^ 2 = 0 := by
      have : R ^ 2 = X ^ 2 := by rw [← h3, sq_abs]
      linarith
    have := pow_eq_zero_iff two_ne_zero |>.1 h4
    exact (div_eq_zero_iff.1 this).resolve_right hqt.ne'
  · have : 27 * V * m ^ 2 * X / (R + 2 * m) ^ 3 * (V * X) = 27 * m ^ 2 * (V * X) ^ 2 / (R + 2 * m) ^ 3 := by ring
    rw [this]; positivity
  · intro e; rw [e]; simp

/-- Parameters out of range are rejected with `AssertionError`, whatever the state of the component. -/
theorem C37_rejects (p : Param) :
    (∀ q rc alpha, q.1 ≤ 0 ∨ q.2 ≤ 0 ∨ rc.1 ≤ 0 ∨ rc.2 ≤ 0 ∨ alpha.1 < 0 ∨ alpha.2 < 0 →
      GrowingDisk.setPxt p q rc alpha = .error .assertionError) ∧
    (∀ q alpha tIn tOut tMin tMax, q ≤ 0 ∨ alpha < 0 ∨ tMin < 0.1 ∨ 13 < tMax ∨ tIn < tMin ∨ tMax < tIn ∨
      tOut < tMin ∨ tMax < tOut → GrowingDisk.setTDep p q alpha tIn tOut tMin tMax = .error .assertionError) ∧
    (∀ q rmax vmax, q.1 ≤ 0 ∨ q.2 ≤ 0 ∨ (vmax.1 < 0 ∧ 0 < vmax.2) ∨ (0 < vmax.1 ∧ vmax.2 < 0) →
      GrowingDisk.setMuV p q rmax vmax = .error .assertionError) ∧
    (∀ q alpha sIn sOut, q.1 ≤ 0 ∨ q.2 ≤ 0 ∨ alpha.1 < 0 ∨ alpha.2 < 0 ∨ sIn.1 ≤ 0 ∨ sIn.2 ≤ 0 ∨ sOut.1 ≤ 0 ∨
      sOut.2 ≤ 0 → GrowingDisk.setSigV p q alpha sIn sOut = .error .assertionError) := by
  have key : ∀ (c : Prop) (k : Unit → Py Param), (c → k () = .error .assertionError) →
      (pyAssert c >>= k) = .error .assertionError := fun c k h => by
    by_cases hc : c
    · rw [pyAssert_pos hc]; exact h hc
    · rw [pyAssert_neg hc]; rfl
  refine ⟨fun q rc alpha h => ?_, fun q alpha tIn tOut tMin tMax h => ?_, fun q rmax vmax h => ?_,
    fun q alpha sIn sOut h => ?_⟩
  · unfold GrowingDisk.setPxt
    refine key _ _ fun h1 => key _ _ fun h2 => ?_
    rw [pyAssert_neg]; · rfl
    norm_num at h1 h2 ⊢
    intro h3
    rcases h with h | h | h | h | h | h <;> linarith [h1.1, h1.2, h2.1, h2.2]
  · unfold GrowingDisk.setTDep
    refine key _ _ fun h1 => key _ _ fun h2 => key _ _ fun h3 => key _ _ fun h4 => key _ _ fun h5 => ?_
    rw [pyAssert_neg]; · rfl
    rintro ⟨h6, h7⟩
    norm_num at h1 h2 h3 h4 h
    rcases h with h | h | h | h | h | h | h | h <;> linarith [h5.1, h5.2]
  · unfold GrowingDisk.setMuV
    refine key _ _ fun h1 => ?_
    rw [pyAssert_neg]; · rfl
    norm_num at h1
    intro h2
    rcases h with h | h | ⟨ha, hb⟩ | ⟨ha, hb⟩ <;> rcases h2 with h2 | h2 <;>
      linarith [h1.1, h1.2, h2.1, h2.2]
  · unfold GrowingDisk.setSigV
    refine key _ _ fun h1 => key _ _ fun h2 => key _ _ fun h3 => ?_
    rw [pyAssert_neg]; · rfl
    rintro ⟨h4, h5⟩
    norm_num at h1 h2 h3 h4 h5
    rcases h with h | h | h | h | h | h | h | h <;> linarith [h1.1, h1.2, h2.1, h2.2, h3.1, h3.2]

/-- Disagreement: the peak radius is not checked. With `rmax_lims = (0, 0)` the call succeeds and every mean
velocity is nan. -/
theorem C37_zero_rmax (hb : Built p g f2 center rotation) {t0 t1 : ℝ} (ha : Aged p t0 t1)
    (q vmax : ℝ × ℝ) (hq : 0 < q.1 ∧ 0 < q.2)
    (hv : (0 ≤ vmax.1 ∧ 0 ≤ vmax.2) ∨ (vmax.1 ≤ 0 ∧ vmax.2 ≤ 0)) :
    ∃ p' A, GrowingDisk.setMuV p q (0, 0) vmax = .ok p' ∧ p'.muV = some A ∧ A.shape = [g.nt, g.nx, g.ny] ∧
      ∀ c, g.Has c → A.get [c.t, c.x, c.y] = .nan := by
  obtain ⟨Q, a1, a2⟩ := ha.interp hb.cubeIs q
  obtain ⟨R, a3, a4⟩ := ha.interp hb.cubeIs (0, 0)
  obtain ⟨V, a5, a6⟩ := ha.interp hb.cubeIs vmax
  have hz : ∀ t, atAge g t0 t1 (0, 0) t = 0 := fun t => by
    have := atAge_mem ha.2 g (0, 0) t
    simp at this; linarith
  have a7 := a4.map (fun r => Num.fin 2.0 * r)
  obtain ⟨S, b1, b2⟩ := MArr.bop (R := [some 't']) (· + ·) a4 a7 rfl
  have b1' : Np.add R (map (fun r => Num.fin 2.0 * r) R) = .ok S := b1
  obtain ⟨K, b3, b4⟩ := MArr.bop (R := [some 't']) (· * ·) a6 (b2.map (fun r => Num.npow r 3)) rfl
  have b3' : Np.mul V (map (fun r => Num.npow r 3) S) = .ok K := b3
  obtain ⟨K2, b5, b6⟩ := MArr.bop (R := [some 't']) (· / ·) b4 a4 rfl
  have b5' : Np.div K R = .ok K2 := b5
  have b7 : MArr g [some 't'] K2 (fun _ => .nan) := b6.congr fun c _ => by
    simp only [hz, Num.fin_mul, Num.fin_add]
    norm_num [Num.npow]
  obtain ⟨Q', c1, c2⟩ := a2.getitem [.all, .na, .na] (R := [some 't', none, none]) rfl
  obtain ⟨C, c3, c4⟩ := a7.getitem [.all, .na, .na] (R := [some 't', none, none]) rfl
  obtain ⟨K3, c5, c6⟩ := b7.getitem [.all, .na, .na] (R := [some 't', none, none]) rfl
  obtain ⟨Y, d1, d2⟩ := MArr.bop (R := ['t','x','y'].map some) (· / ·) hb.yyp_marr c2 rfl
  have d1' : Np.div p.yyp Q' = .ok Y := d1
  obtain ⟨TH, d3, d4⟩ := MArr.bop (R := ['t','x','y'].map some) Num.arctan2 d2 hb.xxp_marr rfl
  obtain ⟨RR, d5, d6⟩ := hb.ellRadius (R := ['t','x','y'].map some) c2
    (fun c _ => atAge_pos ha.2 g hq.1 hq.2 _) rfl rfl
  obtain ⟨X1, e1, e2⟩ := MArr.bop (R := ['t','x','y'].map some) (· * ·) c6 d6 rfl
  have e1' : Np.mul K3 RR = .ok X1 := e1
  obtain ⟨X2, e3, e4⟩ := MArr.bop (R := ['t','x','y'].map some) (· + ·) d6 c4 rfl
  have e3' : Np.add RR C = .ok X2 := e3
  obtain ⟨X3, e5, e6⟩ := MArr.bop (R := ['t','x','y'].map some) (· / ·) e2 (e4.map (fun r => Num.npow r 3)) rfl
  have e5' : Np.div X1 (map (fun r => Num.npow r 3) X2) = .ok X3 := e5
  obtain ⟨X4, e7, e8⟩ := MArr.bop (R := ['t','x','y'].map some) (· * ·) e6 (d4.map Num.cos) rfl
  have e7' : Np.mul X3 (map Num.cos TH) = .ok X4 := e7
  refine ⟨{ p with muV := some X4 }, X4, ?_, rfl, e8.1, fun c hc => (e8.2 c hc).trans ?_⟩
  · unfold GrowingDisk.setMuV
    rw [pyAssert_pos (by norm_num; exact hq), pyAssert_pos hv]
    simp only [Py.ok_bind, a1, a3, a5, b1', b3', b5', c1, c3, c5, d1', d3, d5, e1', e3', e5', e7']
  · beta_reduce
    simp

/-- Disagreement: if every pixel centre lies on the minor axis (for example a cube with a single pixel, at the
centre of the component), the depletion time of a pixel at the centre is nan and no exception is raised. -/
theorem C37_on_minor_axis (hb : Built p g f2 center rotation) (hg : g.Proper)
    (hx : ∀ c, g.Has c → frameX g center rotation c = 0)
    (q alpha tIn tOut tMin tMax : ℝ) (hq : 0 < q) (hal : 0 < alpha) (h1 : 0.1 ≤ tMin) (h2 : tMax ≤ 13)
    (h3 : tMin ≤ tIn ∧ tIn ≤ tMax) (h4 : tMin ≤ tOut ∧ tOut ≤ tMax) :
    ∃ p' A, GrowingDisk.setTDep p q alpha tIn tOut tMin tMax = .ok p' ∧ p'.tDep = some A ∧ A.shape = [g.nx, g.ny] ∧
      ∀ c, g.Has c → frameY g center rotation c = 0 → A.get [c.x, c.y] = .nan := by
  obtain ⟨R, a1, a2⟩ := hb.ellRadius (R := ['x','y'].map some) (MArr.scalar g (.fin q)) (q := fun _ => q)
    (fun _ _ => hq) rfl rfl
  obtain ⟨m, a3, ⟨c0, hc0, e0⟩, -⟩ := hb.amax hg
  have hm : m = 0 := by rw [← e0, hx c0 hc0, abs_zero]
  subst hm
  obtain ⟨F, a5, a6⟩ := MArr.bop (R := ['x','y'].map some) (· / ·) a2 (MArr.scalar g (.fin 0)) rfl
  have a5' : Np.div R (scalar (.fin 0)) = .ok F := a5
  have a7 := (a6.map (fun x => Num.fin tIn + Num.fin (tOut - tIn) * Num.rpow x (.fin alpha))).map
    (GrowingDisk.clipOut (tIn ≤ tOut) (.fin tOut))
  generalize hA : map (GrowingDisk.clipOut (tIn ≤ tOut) (.fin tOut))
    (map (fun x => Num.fin tIn + Num.fin (tOut - tIn) * Num.rpow x (.fin alpha)) F) = A at a7
  obtain ⟨g1, -, g3⟩ := hb.grid hg
  obtain ⟨B, k3, k4⟩ := enrichmentBase_gives (p := { p with tDep := some A }) hb.cubeIs hg (ζ := gasMetal g)
    (by rw [g1]; norm_num) (fun i _ k hk => ⟨(g3 i k hk).1, (g3 i k hk).2.1⟩) (tDep := A) a7.1
  refine ⟨{ p with tDep := some A, logPztx := some B }, A, ?_, rfl, a7.1, fun c hc hy => (a7.2 c hc).trans ?_⟩
  · unfold GrowingDisk.setTDep
    rw [pyAssert_pos (by norm_num; exact hq), pyAssert_pos (by norm_num; exact hal.le), pyAssert_pos h1,
      pyAssert_pos (by norm_num; exact h2), pyAssert_pos h3, pyAssert_pos h4]
    simp only [Py.ok_bind, a1, a3, a5', hA, Param.setPztx, Param.attr, k3]
  · beta_reduce
    have : ellR g center rotation q c = 0 := by simp [ellR, hx c hc, hy]
    rw [this, Num.zero_div_zero]
    simp [Num.rpow, hal.ne', GrowingDisk.clipOut, Num.lt]

/-! ### C38 -/

/-- `set_p_x_t` of a stream: probabilities are positive, sum to one over the pixels and are the same for all
ages; the weight of a pixel is the sum over the sample points of the probability that a Gaussian blob around the
point gives to it. -/
theorem C38_spatial (hb : Built s.base g f2 center rotation) (hg : g.Proper) (theta muR : ℝ × ℝ) (sig : ℝ) (n : ℕ)
    (h1 : -Real.pi ≤ theta.1 ∧ theta.1 ≤ Real.pi) (h2 : -Real.pi ≤ theta.2 ∧ theta.2 ≤ Real.pi)
    (hθ : theta.1 ≠ theta.2) (hσ : 0 < sig) (hn : 0 < n) :
    ∃ s' r, s.setPxt theta muR sig n = .ok s' ∧ getP s'.base.self ['x','_','t'] false false = .ok r ∧
      r.shape = [g.nx, g.ny, g.nt] ∧
      (∀ t < g.nt, ∑ x : Fin g.nx, ∑ y : Fin g.ny, r.get [(x : ℕ), (y : ℕ), t] = .fin 1) ∧
      (∀ x < g.nx, ∀ y < g.ny, ∀ t < g.nt, ∀ t' < g.nt, r.get [x, y, t] = r.get [x, y, t']) ∧
      ∃ S, 0 < S ∧ ∀ x < g.nx, ∀ y < g.ny, ∀ t < g.nt, ∃ v, 0 < v ∧ r.get [x, y, t] = .fin v ∧
        v = (∑ k : Fin n,
          (normal (trackR theta muR n k * Real.cos (trackTheta theta n k)) sig).real
            (Set.Ioc (frameX g center rotation ⟨0, 0, x, y, 0⟩ - (g.x (x + 1) - g.x x) / 2)
              (frameX g center rotation ⟨0, 0, x, y, 0⟩ + (g.x (x + 1) - g.x x) / 2)) *
          (normal (trackR theta muR n k * Real.sin (trackTheta theta n k)) sig).real
            (Set.Ioc (frameY g center rotation ⟨0, 0, x, y, 0⟩ - (g.y (y + 1) - g.y y) / 2)
              (frameY g center rotation ⟨0, 0, x, y, 0⟩ + (g.y (y + 1) - g.y y) / 2))) / S := by
  obtain ⟨A, k1, k2⟩ := stream_setPxt hb hg (muR := muR) (le_min h1.1 h2.1) (max_le h1.2 h2.2) hθ hσ hn
  have hT := streamTotal_pos (center := center) (rotation := rotation) (theta := theta) (muR := muR) hg hσ hn
  have hW : ∀ c, g.Has c → 0 < streamW g center rotation theta muR sig n c :=
    fun c hc' => streamW_pos hg hσ hn hc'.2.2.1 hc'.2.2.2.1
  have hA : ∀ c, g.Has c → 0 < width g.x c.x * width g.y c.y := fun c hc =>
    mul_pos (sub_pos.2 (hg.x _ hc.2.2.1)) (sub_pos.2 (hg.y _ hc.2.2.2.1))
  obtain ⟨r, h3, h4, h5⟩ := getP_xt_stored (p := { s.base with logPxt := some A }) hb.cubeIs hg rfl k2
    (fun c hc => (div_pos (div_pos (hW c hc) hT) (hA c hc)).le) false
  have hv : ∀ x < g.nx, ∀ y < g.ny, ∀ t < g.nt, r.get [x, y, t] =
      .fin (streamW g center rotation theta muR sig n ⟨0, 0, x, y, 0⟩ / streamTotal g center rotation theta muR sig n) :=
    fun x hx y hy t ht => by
    have hcell : g.Has ⟨t, 0, x, y, 0⟩ := ⟨ht, hg.nv, hx, hy, hg.nz⟩
    have := h5 ⟨t, 0, x, y, 0⟩ hcell
    simp only [dvol, Bool.false_eq_true, if_false, div_one] at this
    rw [div_mul_cancel₀ _ (hA _ hcell).ne'] at this
    exact this
  refine ⟨_, r, k1, h3, h4, fun t ht => ?_, fun x hx y hy t ht t' ht' => ?_, streamTotal g center rotation theta muR sig n, hT,
    fun x hx y hy t ht => ⟨_, ?_, hv x hx y hy t ht, rfl⟩⟩
  · have e : ∀ x : Fin g.nx, ∑ y : Fin g.ny, r.get [(x : ℕ), (y : ℕ), t] =
        .fin (∑ y : Fin g.ny, streamW g center rotation theta muR sig n ⟨0, 0, x, y, 0⟩ /
          streamTotal g center rotation theta muR sig n) := fun x =>
      Num.sum_congr_fin _ (fun y : Fin g.ny => r.get [(x : ℕ), (y : ℕ), t])
        (fun y : Fin g.ny => streamW g center rotation theta muR sig n ⟨0, 0, x, y, 0⟩ /
          streamTotal g center rotation theta muR sig n)
        fun y _ => hv x x.2 y y.2 t ht
    rw [Num.sum_congr_fin _ (fun x : Fin g.nx => ∑ y : Fin g.ny, r.get [(x : ℕ), (y : ℕ), t])
      (fun x : Fin g.nx => ∑ y : Fin g.ny, streamW g center rotation theta muR sig n ⟨0, 0, x, y, 0⟩ /
          streamTotal g center rotation theta muR sig n)
      fun x _ => e x]
    congr 1
    simp only [div_eq_mul_inv, ← Finset.sum_mul]
    exact mul_inv_cancel₀ hT.ne'
  · rw [hv x hx y hy t ht, hv x hx y hy t' ht']
  · exact div_pos (hW ⟨0, 0, x, y, 0⟩ ⟨hg.nt, hg.nv, hx, hy, hg.nz⟩) hT

/-- The ends of the track of a stream: its first sample point is at `theta.1` with radius `muR.1`, its last at
`theta.2` with radius `muR.2`, and radius is a linear function of angle. -/
theorem C38_track (theta muR : ℝ × ℝ) (hθ : theta.1 ≠ theta.2) {n : ℕ} (hn : 1 < n) :
    trackTheta theta n 0 = theta.1 ∧ trackR theta muR n 0 = muR.1 ∧
    trackTheta theta n (n - 1) = theta.2 ∧ trackR theta muR n (n - 1) = muR.2 ∧
    (∀ k, k + 1 < n → trackTheta theta n (k + 1) - trackTheta theta n k = (theta.2 - theta.1) / (n - 1 : ℝ)) ∧
    ∀ k, (trackR theta muR n k - muR.1) * (theta.2 - theta.1) = (trackTheta theta n k - theta.1) * (muR.2 - muR.1) := by
  have hd : theta.2 - theta.1 ≠ 0 := sub_ne_zero.2 (Ne.symm hθ)
  have hn' : ((n - 1 : ℕ) : ℝ) = (n : ℝ) - 1 := by push_cast [Nat.cast_sub hn.le]; ring
  have hn0 : (n : ℝ) - 1 ≠ 0 := by
    have : (1:ℝ) < n := by exact_mod_cast hn
    linarith
  have e0 : trackTheta theta n 0 = theta.1 := by simp [trackTheta, Stream.linspaceR]
  have e1 : trackTheta theta n (n - 1) = theta.2 := by
    simp only [trackTheta, Stream.linspaceR, hn']; field_simp; ring
  refine ⟨e0, by simp [trackR, e0], e1, ?_, fun k _ => ?_, fun k => ?_⟩
  · simp only [trackR, e1]; field_simp; ring
  · simp only [trackTheta, Stream.linspaceR]; push_cast; ring
  · simp only [trackR]; field_simp; ring

/-- Angles outside `[-π, π]` are rejected. -/
theorem C38_rejects (s : Stream) (theta muR : ℝ × ℝ) (sig : ℝ) (n : ℕ)
    (h : theta.1 < -Real.pi ∨ Real.pi < theta.1 ∨ theta.2 < -Real.pi ∨ Real.pi < theta.2) :
    s.setPxt theta muR sig n = .error .assertionError := by
  unfold Stream.setPxt
  by_cases h1 : min theta.1 theta.2 ≥ -Real.pi
  · rw [pyAssert_pos h1]
    have h2 : ¬ max theta.1 theta.2 ≤ Real.pi := fun h2 => by
      have := le_min_iff.1 h1
      have := max_le_iff.1 h2
      rcases h with h | h | h | h <;> linarith
    rw [pyAssert_neg h2]; rfl
  · rw [pyAssert_neg h1]; rfl

/-- Mean velocity of a stream: linear in angle between the two limits, equal to `lims.1` at and beyond the end
`theta.1` of the stream and to `lims.2` at and beyond the end `theta.2`, whichever of the two angles is larger; the
same for all ages; never outside the limits. -/
theorem C38_velocity (hb : Built s.base g f2 center rotation) (theta lims : ℝ × ℝ) (ht : s.thetaLims = some theta)
    (hθ : theta.1 ≠ theta.2) :
    ∃ s' A, s.setMuV lims = .ok s' ∧ s'.base.muV = some A ∧ A.shape = [g.nt, g.nx, g.ny] ∧
      ∀ c, g.Has c → ∃ φ v, φ = Complex.arg ⟨frameX g center rotation c, frameY g center rotation c⟩ ∧
        A.get [c.t, c.x, c.y] = .fin v ∧ min lims.1 lims.2 ≤ v ∧ v ≤ max lims.1 lims.2 ∧
        (φ = theta.1 → v = lims.1) ∧ (φ = theta.2 → v = lims.2) ∧
        (theta.1 < theta.2 → (φ ≤ theta.1 → v = lims.1) ∧ (theta.2 ≤ φ → v = lims.2)) ∧
        (theta.2 < theta.1 → (theta.1 ≤ φ → v = lims.1) ∧ (φ ≤ theta.2 → v = lims.2)) ∧
        (min theta.1 theta.2 ≤ φ → φ ≤ max theta.1 theta.2 →
          (v - lims.1) * (theta.2 - theta.1) = (φ - theta.1) * (lims.2 - lims.1)) := by
  obtain ⟨A, k1, k2⟩ := stream_setMuV hb (lims := lims) ht hθ
  refine ⟨_, A, k1, rfl, k2.1, fun c hc => ⟨_, _, rfl, k2.2 c hc, ?_⟩⟩
  have hd : theta.2 - theta.1 ≠ 0 := sub_ne_zero.2 (Ne.symm hθ)
  simp only [streamMu, alongTrack]
  change _ ∧ _ ∧ (frameTheta g center rotation c = _ → _) ∧ (frameTheta g center rotation c = _ → _) ∧
    (_ → (frameTheta g center rotation c ≤ _ → _) ∧ (_ ≤ frameTheta g center rotation c → _)) ∧
    (_ → (_ ≤ frameTheta g center rotation c → _) ∧ (frameTheta g center rotation c ≤ _ → _)) ∧
    (_ ≤ frameTheta g center rotation c → frameTheta g center rotation c ≤ _ →
      _ = (frameTheta g center rotation c - _) * _)
  generalize frameTheta g center rotation c = φ
  generalize hu : (φ - theta.1) / (theta.2 - theta.1) = u
  have hφ : φ = theta.1 + u * (theta.2 - theta.1) := by rw [← hu]; field_simp; ring
  have hlo : u ≤ 0 → max 0 (min 1 u) = 0 := fun h => by rw [min_eq_right (by linarith), max_eq_left h]
  have hhi : 1 ≤ u → max 0 (min 1 u) = 1 := fun h => by rw [min_eq_left h, max_eq_right zero_le_one]
  have hmid : 0 ≤ u → u ≤ 1 → max 0 (min 1 u) = u := fun h h' => by rw [min_eq_right h', max_eq_right h]
  have h0 : 0 ≤ max 0 (min 1 u) := le_max_left _ _
  have h1 : max 0 (min 1 u) ≤ 1 := max_le zero_le_one (min_le_left _ _)
  refine ⟨?_, ?_, fun h => ?_, fun h => ?_, fun hlt => ⟨fun h => ?_, fun h => ?_⟩, fun hlt => ⟨fun h => ?_, fun h => ?_⟩,
    fun ha hb => ?_⟩
  · rcases le_total lims.1 lims.2 with h | h
    · rw [min_eq_left h]; nlinarith
    · rw [min_eq_right h]; nlinarith
  · rcases le_total lims.1 lims.2 with h | h
    · rw [max_eq_right h]; nlinarith
    · rw [max_eq_left h]; nlinarith
  · have : u = 0 := by rw [← hu, h]; simp
    rw [hlo this.le]; ring
  · have : u = 1 := by rw [← hu, h]; field_simp
    rw [hhi this.ge]; ring
  · rw [hlo (by rw [← hu]; exact div_nonpos_of_nonpos_of_nonneg (by linarith) (by linarith))]; ring
  · rw [hhi (by rw [← hu, le_div_iff₀ (by linarith)]; linarith)]; ring
  · rw [hlo (by rw [← hu]; exact div_nonpos_of_nonneg_of_nonpos (by linarith) (by linarith))]; ring
  · rw [hhi (by rw [← hu, le_div_iff_of_neg (by linarith)]; linarith)]; ring
  · have hu0 : 0 ≤ u ∧ u ≤ 1 := by
      rcases lt_or_gt_of_ne hθ with h | h
      · rw [min_eq_left h.le] at ha; rw [max_eq_right h.le] at hb
        rw [← hu]
        exact ⟨div_nonneg (by linarith) (by linarith), by rw [div_le_one (by linarith)]; linarith⟩
      · rw [min_eq_right h.le] at ha; rw [max_eq_left h.le] at hb
        rw [← hu]
        exact ⟨div_nonneg_of_nonpos (by linarith) (by linarith), by rw [div_le_one_of_neg (by linarith)]; linarith⟩
    rw [hmid hu0.1 hu0.2, hφ]; ring

/-- Setting velocities before positions raises `AttributeError`. -/
theorem C38_order (hb : Built s.base g f2 center rotation) (lims : ℝ × ℝ) (ht : s.thetaLims = none) :
    s.setMuV lims = .error .attributeError := by
  obtain ⟨TH, a1, a2⟩ := MArr.bop (R := ['x','y'].map some) Num.arctan2 hb.yyp_marr hb.xxp_marr rfl
  unfold Stream.setMuV
  simp only [a1, ht, Param.attr, Py.ok_bind]
  rfl

/-- Dispersions and depletion times of a stream are the given constants. -/
theorem C38_constants (hb : Built s.base g f2 center rotation) (hg : g.Proper) (sigV τ : ℝ) :
    (∃ s' A, s.setSigV sigV = .ok s' ∧ s'.base.sigV = some A ∧ A.shape = [g.nt, g.nx, g.ny] ∧
      ∀ c, g.Has c → A.get [c.t, c.x, c.y] = .fin sigV) ∧
    (∃ s' A, s.setTDep τ = .ok s' ∧ s'.base.tDep = some A ∧ A.shape = [g.nx, g.ny] ∧
      ∀ c, g.Has c → A.get [c.x, c.y] = .fin τ) := by
  obtain ⟨A, h1, h2⟩ := stream_setSigV hb sigV
  obtain ⟨B, h3, h4⟩ := stream_setTDep hb hg τ
  exact ⟨⟨_, A, h1, rfl, h2.1, h2.2⟩, ⟨_, _, h3, rfl, by simp [full, hb.cubeIs.nx, hb.cubeIs.ny], fun _ _ => rfl⟩⟩

end PKM
