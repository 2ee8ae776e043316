import Verif.Growth
import Verif.Props.Older

/-!
# C87: disks fall off outwards, grow inside-out and have age gradients

`GrowingDisk.setPxt p q rc alpha` is `disk.set_p_x_t(q_lims, rc_lims, alpha_lims)`, each argument a pair (young, old).
`s` and `e` are the ends of the build-up window of `set_p_t`; `atAge g s e lims t` is the value that a quantity with
(young, old) limits `lims` has at age bin `t`.  `X t x y` are entries of `get_p('x_t', density=False)`.
-/

open scoped Classical

noncomputable section

namespace PKM
open Np Component

variable {p p' : Param} {g : Grid} {f2 : ℝ} {center : ℝ × ℝ} {rotation : ℝ}

/-- Distance of a pixel from the centre of the component, in ellipses with axis ratio `q` along its axes. -/
def ellRadiusAt (g : Grid) (center : ℝ × ℝ) (rotation q : ℝ) (x y : ℕ) : ℝ :=
  Real.sqrt (frameX g center rotation ⟨0, 0, x, y, 0⟩ ^ 2 + (frameY g center rotation ⟨0, 0, x, y, 0⟩ / q) ^ 2)

/-- Fraction of the stars within radius `ρ`. -/
def enclosed (g : Grid) (R : ℕ → ℕ → ℝ) (P : ℕ → ℕ → ℝ) (ρ : ℝ) : ℝ :=
  ∑ x : Fin g.nx, ∑ y : Fin g.ny, if R x y ≤ ρ then P x y else 0

/-- Expectation of a quantity over the pixels. -/
def pixMean (g : Grid) (φ P : ℕ → ℕ → ℝ) : ℝ := ∑ x : Fin g.nx, ∑ y : Fin g.ny, φ x y * P x y

/-- The first distribution has no less than the second within every radius, and no greater expectation of any quantity
that grows with radius. -/
def Denser (g : Grid) (R P P' : ℕ → ℕ → ℝ) : Prop :=
  (∀ ρ, enclosed g R P' ρ ≤ enclosed g R P ρ) ∧
    ∀ φ : ℝ → ℝ, Monotone φ → pixMean g (fun x y => φ (R x y)) P ≤ pixMean g (fun x y => φ (R x y)) P'

/-- Of any two pixels the first distribution favours the inner one at least as much as the second does. -/
def Inward (g : Grid) (R P P' : ℕ → ℕ → ℝ) : Prop :=
  ∀ x < g.nx, ∀ y < g.ny, ∀ x' < g.nx, ∀ y' < g.ny, R x y ≤ R x' y' → P x' y' * P' x y ≤ P x y * P' x' y'

theorem Inward.denser {R P P' : ℕ → ℕ → ℝ} (h1 : ∑ x : Fin g.nx, ∑ y : Fin g.ny, P x y = 1)
    (h1' : ∑ x : Fin g.nx, ∑ y : Fin g.ny, P' x y = 1) (h : Inward g R P P') : Denser g R P P' := by
  have k1 : ∑ i : Fin g.nx × Fin g.ny, P i.1 i.2 = 1 := by rw [Fintype.sum_prod_type]; exact h1
  have k1' : ∑ i : Fin g.nx × Fin g.ny, P' i.1 i.2 = 1 := by rw [Fintype.sum_prod_type]; exact h1'
  have key : ∀ φ : ℝ → ℝ, Monotone φ → pixMean g (fun x y => φ (R x y)) P ≤ pixMean g (fun x y => φ (R x y)) P' := fun φ hφ => by
    have := (expect_radius (R := fun i : Fin g.nx × Fin g.ny => R i.1 i.2) (φ := fun i => φ (R i.1 i.2)) k1' k1
      (fun i j hij => h _ i.1.2 _ i.2.2 _ j.1.2 _ j.2.2 hij) fun i j hij => hφ hij).1
    rw [Fintype.sum_prod_type, Fintype.sum_prod_type] at this
    exact this
  refine ⟨fun ρ => ?_, key⟩
  have := key (fun u => if u ≤ ρ then -1 else 0) fun u w huw => by
    beta_reduce
    split_ifs <;> first | linarith | norm_num
  have e : ∀ Q : ℕ → ℕ → ℝ, pixMean g (fun x y => (fun u => if u ≤ ρ then (-1 : ℝ) else 0) (R x y)) Q = - enclosed g R Q ρ := fun Q => by
    unfold pixMean enclosed
    rw [← Finset.sum_neg_distrib]
    refine Finset.sum_congr rfl fun x _ => ?_
    rw [← Finset.sum_neg_distrib]
    refine Finset.sum_congr rfl fun y _ => ?_
    beta_reduce
    split_ifs <;> simp
  rw [e, e] at this
  linarith

theorem ramp_mono {s e f0 f1 τ τ' : ℝ} (h : s < e) (hf : f0 ≤ f1) (ht : τ ≤ τ') : ramp s e f0 f1 τ ≤ ramp s e f0 f1 τ' := by
  obtain ⟨k, -, -, e1, k1⟩ := ramp_frac h f0 f1 τ
  obtain ⟨k', -, -, e1', k1'⟩ := ramp_frac h f0 f1 τ'
  rw [e1, e1']
  have : k ≤ k' := by
    rw [k1, k1']
    exact max_le_max le_rfl (min_le_min le_rfl (div_le_div_of_nonneg_right (by linarith) (by linarith)))
  nlinarith

theorem ramp_anti {s e f0 f1 τ τ' : ℝ} (h : s < e) (hf : f1 ≤ f0) (ht : τ ≤ τ') : ramp s e f0 f1 τ' ≤ ramp s e f0 f1 τ := by
  obtain ⟨k, -, -, e1, k1⟩ := ramp_frac h f0 f1 τ
  obtain ⟨k', -, -, e1', k1'⟩ := ramp_frac h f0 f1 τ'
  rw [e1, e1']
  have : k ≤ k' := by
    rw [k1, k1']
    exact max_le_max le_rfl (min_le_min le_rfl (div_le_div_of_nonneg_right (by linarith) (by linarith)))
  nlinarith

theorem centre_t_le (hg : g.Proper) {i j : ℕ} (h : i ≤ j) (hj : j < g.nt) : centre g.t i ≤ centre g.t j := by
  rcases h.lt_or_eq with h | rfl
  · exact (centre_t_lt hg h hj).le
  · exact le_rfl

/-- What `set_p_x_t` of a disk makes of `get_p('x_t')`. -/
theorem disk_space (hb : Built p g f2 center rotation) (hg : g.Proper) {s e : ℝ} (ha : Aged p s e)
    (q rc alpha : ℝ × ℝ) (hq : 0 < q.1 ∧ 0 < q.2) (hr : 0 < rc.1 ∧ 0 < rc.2) (hal : 0 ≤ alpha.1 ∧ 0 ≤ alpha.2) :
    ∃ p' r, ∃ X : ℕ → ℕ → ℕ → ℝ, ∃ S : ℕ → ℝ, GrowingDisk.setPxt p q rc alpha = .ok p' ∧
      getP p'.self "x_t".toList false false = .ok r ∧ r.shape = [g.nx, g.ny, g.nt] ∧
      (∀ t < g.nt, ∀ x < g.nx, ∀ y < g.ny, r.get [x, y, t] = .fin (X t x y) ∧ 0 < X t x y) ∧
      (∀ t < g.nt, ∑ x : Fin g.nx, ∑ y : Fin g.ny, X t x y = 1) ∧
      ∀ t < g.nt, 0 < S t ∧ ∀ x < g.nx, ∀ y < g.ny, X t x y = (ellRadiusAt g center rotation (atAge g s e q t) x y + atAge g s e rc t) ^
        (-atAge g s e alpha t) * (width g.x x * width g.y y) / S t := by
  obtain ⟨p', r, h1, h2, h3, h4, h5⟩ := C37_spatial hb hg ha q rc alpha hq hr hal
  choose! S hS hv using h5
  have hw : ∀ t < g.nt, ∀ x < g.nx, ∀ y < g.ny, r.get [x, y, t] = .fin ((ellRadiusAt g center rotation (atAge g s e q t) x y +
      atAge g s e rc t) ^ (-atAge g s e alpha t) * (width g.x x * width g.y y) / S t) ∧ 0 < (ellRadiusAt g center rotation (atAge g s e q t) x y +
      atAge g s e rc t) ^ (-atAge g s e alpha t) * (width g.x x * width g.y y) / S t := fun t ht x hx y hy => by
    obtain ⟨v, v0, v1, v2⟩ := hv t ht x hx y hy
    have e : v = (ellRadiusAt g center rotation (atAge g s e q t) x y + atAge g s e rc t) ^ (-atAge g s e alpha t) *
        (width g.x x * width g.y y) / S t := v2
    rw [← e]
    exact ⟨v1, v0⟩
  refine ⟨p', r, _, S, h1, h2, h3, hw, fun t ht => ?_, fun t ht => ⟨hS t ht, fun x _ y _ => rfl⟩⟩
  have := h4 t ht
  rw [Num.sum_congr_fin _ _ _ fun (x : Fin g.nx) _ => Num.sum_congr_fin _ _ _ fun (y : Fin g.ny) _ => (hw t ht x x.2 y y.2).1] at this
  exact Num.fin.inj this

/-- Two distributions over the pixels of the form of `disk_space`, with one axis ratio: the steeper with the smaller core
is the denser. -/
theorem cored_inward (hg : g.Proper) {R : ℕ → ℕ → ℝ} (hR : ∀ x y, 0 ≤ R x y) {S S' c c' a a' : ℝ} (hS : 0 < S) (hS' : 0 < S')
    (hc' : 0 < c') (hcc : c' ≤ c) (ha : 0 ≤ a) (haa : a ≤ a') {P P' : ℕ → ℕ → ℝ}
    (hP : ∀ x < g.nx, ∀ y < g.ny, P x y = (R x y + c) ^ (-a) * (width g.x x * width g.y y) / S)
    (hP' : ∀ x < g.nx, ∀ y < g.ny, P' x y = (R x y + c') ^ (-a') * (width g.x x * width g.y y) / S') :
    Inward g R P' P ∧ (a < a' ∨ 0 < a' ∧ c' < c → ∀ x < g.nx, ∀ y < g.ny, ∀ x' < g.nx, ∀ y' < g.ny, R x y < R x' y' →
      P' x' y' * P x y < P' x y * P x' y') := by
  have W : ∀ x < g.nx, ∀ y < g.ny, 0 < width g.x x * width g.y y := fun x hx y hy =>
    mul_pos (sub_pos.2 (hg.x x hx)) (sub_pos.2 (hg.y y hy))
  have e : ∀ u v w w' : ℝ, u * w / S' * (v * w' / S) = u * v * (w * w' / (S * S')) := fun u v w w' => by ring
  constructor
  · intro x hx y hy x' hx' y' hy' h
    rw [hP _ hx _ hy, hP _ hx' _ hy', hP' _ hx _ hy, hP' _ hx' _ hy', e, e, mul_comm (width g.x x' * _)]
    have := W x hx y hy
    have := W x' hx' y' hy'
    exact mul_le_mul_of_nonneg_right (power_cross (hR _ _) h hc' hcc ha haa).1 (by positivity)
  · intro hs x hx y hy x' hx' y' hy' h
    rw [hP _ hx _ hy, hP _ hx' _ hy', hP' _ hx _ hy, hP' _ hx' _ hy', e, e, mul_comm (width g.x x' * _)]
    have := W x hx y hy
    have := W x' hx' y' hy'
    exact mul_lt_mul_of_pos_right ((power_cross (hR _ _) h.le hc' hcc ha haa).2 h hs) (by positivity)

/-- Stars of one age are denser (per unit area) at smaller elliptical radius. -/
theorem C87_profile (hb : Built p g f2 center rotation) (hg : g.Proper) {s e : ℝ} (ha : Aged p s e)
    (q rc alpha : ℝ × ℝ) (hq : 0 < q.1 ∧ 0 < q.2) (hr : 0 < rc.1 ∧ 0 < rc.2) (hal : 0 ≤ alpha.1 ∧ 0 ≤ alpha.2) :
    ∃ p' r, GrowingDisk.setPxt p q rc alpha = .ok p' ∧ getP p'.self "x_t".toList true false = .ok r ∧
      ∀ t < g.nt, ∀ x < g.nx, ∀ y < g.ny, ∀ x' < g.nx, ∀ y' < g.ny, ∃ d d' : ℝ, r.get [x, y, t] = .fin d ∧ r.get [x', y', t] = .fin d' ∧
        0 < d' ∧ (ellRadiusAt g center rotation (atAge g s e q t) x y ≤ ellRadiusAt g center rotation (atAge g s e q t) x' y' → d' ≤ d) ∧
        (ellRadiusAt g center rotation (atAge g s e q t) x y < ellRadiusAt g center rotation (atAge g s e q t) x' y' →
          0 < atAge g s e alpha t → d' < d) := by
  obtain ⟨A, h1, h2⟩ := disk_setPxt hb hg ha hq hr hal
  set ρ := coredRho g center rotation s e q rc alpha with hρ
  have hρp : ∀ c, 0 < ρ c := fun c => coredRho_pos ha.2 hr.1 hr.2 c
  obtain ⟨r, h3, h4, h5⟩ := getP_xt_stored (p := { p with logPxt := some A }) hb.cubeIs hg rfl h2
    (fun c _ => (div_pos (hρp c) (pixTotal_pos hg hρp c)).le) true
  have hv : ∀ x < g.nx, ∀ y < g.ny, ∀ t < g.nt, r.get [x, y, t] = .fin (ρ ⟨t, 0, x, y, 0⟩ / pixTotal g ρ ⟨t, 0, x, y, 0⟩) :=
    fun x hx y hy t ht => by
    have hc : g.Has ⟨t, 0, x, y, 0⟩ := ⟨ht, hg.nv, hx, hy, hg.nz⟩
    have := h5 _ hc
    have w := volOf_pos hg hc ['x']
    simp only [dvol, if_true] at this
    rw [show width g.x x * width g.y y = g.volOf ['x'] ⟨t, 0, x, y, 0⟩ from (volOf_x g ⟨t, 0, x, y, 0⟩).symm, mul_div_assoc, div_self w.ne', mul_one] at this
    simpa [coords, coord1, condStr] using this
  refine ⟨_, r, h1, h3, fun t ht x hx y hy x' hx' y' hy' => ⟨_, _, hv x hx y hy t ht, hv x' hx' y' hy' t ht,
    div_pos (hρp _) (pixTotal_pos hg hρp _), fun h => ?_, fun h hp => ?_⟩⟩
  · have c0 := atAge_pos ha.2 g hr.1 hr.2 t
    have a0 := atAge_nonneg ha.2 g hal.1 hal.2 t
    refine div_le_div_of_nonneg_right (c := pixTotal g ρ ⟨t, 0, x, y, 0⟩) ?_ (pixTotal_pos hg hρp _).le
    have R0 : 0 ≤ ellRadiusAt g center rotation (atAge g s e q t) x y := Real.sqrt_nonneg _
    exact Real.rpow_le_rpow_of_nonpos (add_pos_of_nonneg_of_pos R0 c0) (add_le_add_left h _) (by linarith)
  · have c0 := atAge_pos ha.2 g hr.1 hr.2 t
    refine div_lt_div_of_pos_right (c := pixTotal g ρ ⟨t, 0, x, y, 0⟩) ?_ (pixTotal_pos hg hρp _)
    have R0 : 0 ≤ ellRadiusAt g center rotation (atAge g s e q t) x y := Real.sqrt_nonneg _
    exact Real.rpow_lt_rpow_of_neg (add_pos_of_nonneg_of_pos R0 c0) (add_lt_add_left h _) (by linarith)

/-- Stars of one age, `set_p_x_t` called with two sets of arguments that give them one axis ratio: with the steeper slope and the
smaller core they are more concentrated. -/
theorem C87_concentration (hb : Built p g f2 center rotation) (hg : g.Proper) {s e : ℝ} (ha : Aged p s e)
    (q rc alpha q' rc' alpha' : ℝ × ℝ) (hq : 0 < q.1 ∧ 0 < q.2) (hr : 0 < rc.1 ∧ 0 < rc.2) (hal : 0 ≤ alpha.1 ∧ 0 ≤ alpha.2)
    (hq' : 0 < q'.1 ∧ 0 < q'.2) (hr' : 0 < rc'.1 ∧ 0 < rc'.2) (hal' : 0 ≤ alpha'.1 ∧ 0 ≤ alpha'.2) :
    ∃ p1 p2 r r', ∃ X X' : ℕ → ℕ → ℕ → ℝ, GrowingDisk.setPxt p q rc alpha = .ok p1 ∧ GrowingDisk.setPxt p q' rc' alpha' = .ok p2 ∧
      getP p1.self "x_t".toList false false = .ok r ∧ getP p2.self "x_t".toList false false = .ok r' ∧
      (∀ t < g.nt, ∀ x < g.nx, ∀ y < g.ny, r.get [x, y, t] = .fin (X t x y) ∧ r'.get [x, y, t] = .fin (X' t x y)) ∧
      ∀ t < g.nt, atAge g s e q t = atAge g s e q' t → atAge g s e alpha t ≤ atAge g s e alpha' t →
        atAge g s e rc' t ≤ atAge g s e rc t →
        Inward g (ellRadiusAt g center rotation (atAge g s e q t)) (X' t) (X t) ∧
        Denser g (ellRadiusAt g center rotation (atAge g s e q t)) (X' t) (X t) := by
  obtain ⟨p1, r, X, S, a1, a2, -, a4, a5, a6⟩ := disk_space hb hg ha q rc alpha hq hr hal
  obtain ⟨p2, r', X', S', b1, b2, -, b4, b5, b6⟩ := disk_space hb hg ha q' rc' alpha' hq' hr' hal'
  refine ⟨p1, p2, r, r', X, X', a1, b1, a2, b2, fun t ht x hx y hy => ⟨(a4 t ht x hx y hy).1, (b4 t ht x hx y hy).1⟩,
    fun t ht eq hα hc => ?_⟩
  have key := (cored_inward (P := X t) (P' := X' t) hg (fun x y => Real.sqrt_nonneg _) (a6 t ht).1 (b6 t ht).1 (atAge_pos ha.2 g hr'.1 hr'.2 t) hc
    (atAge_nonneg ha.2 g hal.1 hal.2 t) hα (a6 t ht).2 (by rw [eq]; exact (b6 t ht).2)).1
  exact ⟨key, key.denser (b5 t ht) (a5 t ht)⟩

/-- One axis ratio for all ages, a slope that does not fall and a core that does not grow with age: the disk grows
inside-out, older stars are more concentrated. -/
theorem C87_inside_out (hb : Built p g f2 center rotation) (hg : g.Proper) {s e : ℝ} (ha : Aged p s e)
    (q : ℝ) (rc alpha : ℝ × ℝ) (hq : 0 < q) (hr : 0 < rc.2 ∧ rc.2 ≤ rc.1) (hal : 0 ≤ alpha.1 ∧ alpha.1 ≤ alpha.2) :
    ∃ p' r, ∃ X : ℕ → ℕ → ℕ → ℝ, GrowingDisk.setPxt p (q, q) rc alpha = .ok p' ∧ getP p'.self "x_t".toList false false = .ok r ∧
      (∀ t < g.nt, ∀ x < g.nx, ∀ y < g.ny, r.get [x, y, t] = .fin (X t x y)) ∧
      ∀ t t', t ≤ t' → t' < g.nt → Inward g (ellRadiusAt g center rotation q) (X t') (X t) ∧
        Denser g (ellRadiusAt g center rotation q) (X t') (X t) := by
  obtain ⟨p1, r, X, S, a1, a2, -, a4, a5, a6⟩ := disk_space hb hg ha (q, q) rc alpha ⟨hq, hq⟩ ⟨hr.1.trans_le hr.2, hr.1⟩
    ⟨hal.1, hal.1.trans hal.2⟩
  have eq : ∀ t, atAge g s e (q, q) t = q := fun t => by
    have := atAge_mem ha.2 g (q, q) t
    simp only [min_self, max_self] at this
    exact le_antisymm this.2 this.1
  simp only [eq] at a6
  refine ⟨p1, r, X, a1, a2, fun t ht x hx y hy => (a4 t ht x hx y hy).1, fun t t' htt ht' => ?_⟩
  have ht := htt.trans_lt ht'
  have hc := centre_t_le hg htt ht'
  have key := (cored_inward (P := X t) (P' := X t') hg (fun x y => Real.sqrt_nonneg _) (a6 t ht).1 (a6 t' ht').1
    (atAge_pos ha.2 g (hr.1.trans_le hr.2) hr.1 t') (ramp_anti ha.2 hr.2 hc)
    (atAge_nonneg ha.2 g hal.1 (hal.1.trans hal.2) t) (ramp_mono ha.2 hal.2 hc) (a6 t ht).2 (a6 t' ht').2).1
  exact ⟨key, key.denser (a5 t' ht') (a5 t ht)⟩

/-! ### Age gradients -/

/-- Ages in a pixel: `p(t) p(x|t)`, normalised. -/
theorem ages_in_pixel {m : Ingredients} {L : ℕ → ℕ → ℝ} (h : ParamIs p g m L)
    (hX : ∀ t < g.nt, ∀ x < g.nx, ∀ y < g.ny, 0 < m.probX g ⟨t, 0, x, y, 0⟩) :
    ∃ r M, getP p.self "t_x".toList false false = .ok r ∧ r.shape = [g.nt, g.nx, g.ny] ∧
      getMean p.self "t_x".toList false = .ok M ∧ M.shape = [g.nx, g.ny] ∧ ∃ K : ℕ → ℕ → ℝ, ∀ x < g.nx, ∀ y < g.ny, 0 < K x y ∧
        (∀ t < g.nt, r.get [t, x, y] = .fin (m.probT g ⟨t, 0, 0, 0, 0⟩ * m.probX g ⟨t, 0, x, y, 0⟩ / K x y)) ∧
        ∑ t : Fin g.nt, m.probT g ⟨t, 0, 0, 0, 0⟩ * m.probX g ⟨t, 0, x, y, 0⟩ / K x y = 1 ∧
        M.get [x, y] = .fin (∑ t : Fin g.nt, centre g.t t * (m.probT g ⟨t, 0, 0, 0, 0⟩ * m.probX g ⟨t, 0, x, y, 0⟩ / K x y)) := by
  have hg := h.proper
  obtain ⟨r, r1, r2, r3⟩ := C32_conditionals h false false (by simp) ['t'] ['x'] (by decide +kernel) (by decide)
  have ew : ∀ t < g.nt, ∀ x < g.nx, ∀ y < g.ny, ∑ z : Fin g.nz, m.weightTXZ g L false ⟨t, 0, x, y, z⟩ =
      m.probT g ⟨t, 0, 0, 0, 0⟩ * m.probX g ⟨t, 0, x, y, 0⟩ := fun t ht x hx y hy => by
    simp only [Ingredients.weightTXZ, Bool.false_eq_true, if_false, Ingredients.probTXZ]
    have : ∀ z : Fin g.nz, m.probT g ⟨t, 0, x, y, z⟩ * m.probX g ⟨t, 0, x, y, z⟩ * m.probZ g ⟨t, 0, x, y, z⟩ =
        m.probT g ⟨t, 0, 0, 0, 0⟩ * m.probX g ⟨t, 0, x, y, 0⟩ * (m.pz t x y z * width g.z z) := fun z => rfl
    simp only [this]
    rw [← Finset.mul_sum, h.norm.sumZ t ht x hx y hy, mul_one]
  have hc : ∀ t < g.nt, ∀ x < g.nx, ∀ y < g.ny, g.Has ⟨t, 0, x, y, 0⟩ := fun t ht x hx y hy => ⟨ht, hg.nv, hx, hy, hg.nz⟩
  have e1 : ∀ t < g.nt, ∀ x < g.nx, ∀ y < g.ny, m.marginal g L false ['t','x'] ⟨t, 0, x, y, 0⟩ =
      m.probT g ⟨t, 0, 0, 0, 0⟩ * m.probX g ⟨t, 0, x, y, 0⟩ := fun t ht x hx y hy => by
    rw [Ingredients.marginal, if_neg (by decide), sumTXZ_line _ (hc t ht x hx y hy)]
    exact ew t ht x hx y hy
  let K : ℕ → ℕ → ℝ := fun x y => ∑ t : Fin g.nt, m.probT g ⟨t, 0, 0, 0, 0⟩ * m.probX g ⟨t, 0, x, y, 0⟩
  have e2 : ∀ t < g.nt, ∀ x < g.nx, ∀ y < g.ny, m.marginal g L false ['x'] ⟨t, 0, x, y, 0⟩ = K x y := fun t ht x hx y hy => by
    rw [Ingredients.marginal, if_neg (by decide)]
    unfold Ingredients.sumTXZ
    refine Finset.sum_congr rfl fun t' _ => ?_
    rw [← ew t' t'.2 x hx y hy, Finset.sum_eq_single ⟨x, hx⟩, Finset.sum_eq_single ⟨y, hy⟩]
    · exact Finset.sum_congr rfl fun z _ => if_pos (by simp [coords, coord1])
    · exact fun y' _ h => Finset.sum_eq_zero fun z _ => if_neg fun e =>
        h (Fin.ext (by show (y' : ℕ) = y; simp [coords, coord1] at e; tauto))
    · simp
    · exact fun x' _ h => Finset.sum_eq_zero fun y' _ => Finset.sum_eq_zero fun z _ => if_neg fun e =>
        h (Fin.ext (by show (x' : ℕ) = x; simp [coords, coord1] at e; tauto))
    · simp
  have hT : ∀ t < g.nt, 0 ≤ m.probT g ⟨t, 0, 0, 0, 0⟩ := fun t ht =>
    mul_nonneg (h.norm.pt _) (sub_pos.2 (hg.t _ ht)).le
  have hK : ∀ x < g.nx, ∀ y < g.ny, 0 < K x y := fun x hx y hy => by
    obtain ⟨t, -, k⟩ := Finset.exists_ne_zero_of_sum_ne_zero (h.norm.sumT ▸ one_ne_zero)
    exact Finset.sum_pos' (fun t _ => mul_nonneg (hT t t.2) (hX t t.2 x hx y hy).le) ⟨t, Finset.mem_univ _,
      mul_pos ((hT t t.2).lt_of_ne k.symm) (hX t t.2 x hx y hy)⟩
  have hr : ∀ t < g.nt, ∀ x < g.nx, ∀ y < g.ny, r.get [t, x, y] =
      .fin (m.probT g ⟨t, 0, 0, 0, 0⟩ * m.probX g ⟨t, 0, x, y, 0⟩ / K x y) := fun t ht x hx y hy => by
    have := r3 _ (hc t ht x hx y hy)
    rw [e2 t ht x hx y hy, if_neg (hK x hx y hy).ne', show unionStr ['t'] ['x'] = ['t','x'] from by decide, e1 t ht x hx y hy] at this
    simpa [coords, coord1] using this
  have hm : MArr g (some 't' :: ['x','y'].map some) r (fun c => .fin (m.probT g ⟨c.t, 0, 0, 0, 0⟩ * m.probX g ⟨c.t, 0, c.x, c.y, 0⟩ / K c.x c.y)) :=
    ⟨r2, fun c hc' => by simpa [coordM, coordL] using hr _ hc'.1 _ hc'.2.2.1 _ hc'.2.2.2.1⟩
  obtain ⟨M, m1, m2⟩ := meanDefault_tvz (s := p.self) (w := condStr ['t'] ['x']) (lw := false) (a := 't')
    (B := ['x','y'].map some) h.cubeIs (by decide) (by intro d hd; simp at hd; rcases hd with rfl | rfl <;> exact ⟨by simp [AxisChar], by simp⟩) rfl ⟨r, r1, hm⟩
  refine ⟨r, M, r1, r2, m1, m2.1, K, fun x hx y hy => ⟨hK x hx y hy, fun t ht => hr t ht x hx y hy, ?_, ?_⟩⟩
  · rw [← Finset.sum_div, div_self (hK x hx y hy).ne']
  · have := m2.2 ⟨0, 0, x, y, 0⟩ ⟨hg.nt, hg.nv, hx, hy, hg.nz⟩
    have e : M.get [x, y] = sum1D g 't' (fun c => .fin (g.value 't' c)) (fun c => .fin (m.probT g ⟨c.t, 0, 0, 0, 0⟩ * m.probX g ⟨c.t, 0, c.x, c.y, 0⟩ / K c.x c.y)) ⟨0, 0, x, y, 0⟩ := this
    rw [e]
    exact Num.sum_congr_fin _ _ (fun t : Fin g.nt => centre g.t t * (m.probT g ⟨t, 0, 0, 0, 0⟩ * m.probX g ⟨t, 0, x, y, 0⟩ / K x y)) fun t _ => rfl

/-- A disk that grows inside-out has an age gradient: the stars in a pixel at smaller elliptical radius are at least as old,
by the distribution of ages in the pixel (`A x y`) and by their mean age (`μ x y`).  If some younger and older age with
stars differ in slope or (sloping) in core, the gradient is strict. -/
theorem C87_age_gradient {L : ℕ → ℕ → ℝ} (h : Sound p g f2 center rotation) (hg : g.Proper)
    (hset : ∀ f : Field, none ∉ f.get p) (hl : IsArr g ['t','z'] p.cube.ssps.lightWeights (fun c => .fin (L c.t c.z)))
    (hL : ∀ t z, 0 ≤ L t z) {s e : ℝ} (ha : Aged p s e)
    (q : ℝ) (rc alpha : ℝ × ℝ) (hq : 0 < q) (hr : 0 < rc.2 ∧ rc.2 ≤ rc.1) (hal : 0 ≤ alpha.1 ∧ alpha.1 ≤ alpha.2) :
    ∃ p' r M w, ∃ A : ℕ → ℕ → ℕ → ℝ, ∃ μ : ℕ → ℕ → ℝ, ∃ T : ℕ → ℝ, GrowingDisk.setPxt p (q, q) rc alpha = .ok p' ∧
      getP p'.self "t_x".toList false false = .ok r ∧ getMean p'.self "t_x".toList false = .ok M ∧
      getP p'.self "t".toList false false = .ok w ∧ (∀ t < g.nt, w.get [t] = .fin (T t)) ∧
      (∀ t < g.nt, ∀ x < g.nx, ∀ y < g.ny, r.get [t, x, y] = .fin (A x y t)) ∧
      (∀ x < g.nx, ∀ y < g.ny, M.get [x, y] = .fin (μ x y)) ∧
      ∀ x < g.nx, ∀ y < g.ny, ∀ x' < g.nx, ∀ y' < g.ny,
        (ellRadiusAt g center rotation q x y ≤ ellRadiusAt g center rotation q x' y' →
          Tilted g.nt (A x y) (A x' y') ∧ Older g.nt (A x y) (A x' y') ∧ μ x' y' ≤ μ x y) ∧
        (ellRadiusAt g center rotation q x y < ellRadiusAt g center rotation q x' y' →
          (∃ t t', t < t' ∧ t' < g.nt ∧ 0 < T t ∧ 0 < T t' ∧ (atAge g s e alpha t < atAge g s e alpha t' ∨
            0 < atAge g s e alpha t' ∧ atAge g s e rc t' < atAge g s e rc t)) → μ x' y' < μ x y) := by
  have hrc : 0 < rc.1 ∧ 0 < rc.2 := ⟨hr.1.trans_le hr.2, hr.1⟩
  have hall : 0 ≤ alpha.1 ∧ 0 ≤ alpha.2 := ⟨hal.1, hal.1.trans hal.2⟩
  obtain ⟨p', rX, X, S, a1, a2, -, a4, a5, a6⟩ := disk_space h.built hg ha (q, q) rc alpha ⟨hq, hq⟩ hrc hall
  have eq : ∀ t, atAge g s e (q, q) t = q := fun t => by
    have := atAge_mem ha.2 g (q, q) t
    simp only [min_self, max_self] at this
    exact le_antisymm this.2 this.1
  simp only [eq] at a6
  obtain ⟨A', k1, k2⟩ := disk_setPxt h.built hg ha (q := (q, q)) ⟨hq, hq⟩ hrc hall
  obtain rfl : p' = { p with logPxt := some A' } := Except.ok.inj (a1.symm.trans k1)
  have hρp : ∀ c, 0 < coredRho g center rotation s e (q, q) rc alpha c := fun c => coredRho_pos ha.2 hrc.1 hrc.2 c
  have hs' := h.withSpace (q := fun t x y => coredRho g center rotation s e (q, q) rc alpha ⟨t, 0, x, y, 0⟩ /
        pixTotal g (coredRho g center rotation s e (q, q) rc alpha) ⟨t, 0, x, y, 0⟩)
      (fun t _ x _ y _ => div_pos (hρp _) (pixTotal_pos hg hρp _)) (fun t _ => pixTotal_norm hg hρp ⟨t, 0, 0, 0, 0⟩) k2
  have hset' : ∀ f : Field, none ∉ f.get { p with logPxt := some A' } := fun f => by
    cases f with
    | space => simp [Field.get]
    | age => exact hset .age
    | metal => exact hset .metal
    | mean => exact hset .mean
    | disp => exact hset .disp
  obtain ⟨m, i1, i2, -⟩ := hs'.paramIs hg (L := L) hl hL hset'
  obtain ⟨rX', c1, -, c3⟩ := (C32_ingredients i1 false).1
  obtain rfl : rX = rX' := Except.ok.inj (a2.symm.trans c1)
  have eX : ∀ t < g.nt, ∀ x < g.nx, ∀ y < g.ny, m.probX g ⟨t, 0, x, y, 0⟩ = X t x y := fun t ht x hx y hy => by
    have := c3 ⟨t, 0, x, y, 0⟩ ⟨ht, hg.nv, hx, hy, hg.nz⟩
    rw [show [x, y, t] = [x, y, t] from rfl, (a4 t ht x hx y hy).1] at this
    have := Num.fin.inj this
    simpa using this.symm
  obtain ⟨r, M, b1, -, b3, -, K, b5⟩ := ages_in_pixel i1 fun t ht x hx y hy => by
    rw [eX t ht x hx y hy]; exact (a4 t ht x hx y hy).2
  obtain ⟨w, w1, -, w3⟩ := C32_marginals i1 false false (by simp) ['t'] (by decide)
  have hT : ∀ t < g.nt, 0 ≤ m.probT g ⟨t, 0, 0, 0, 0⟩ := fun t ht =>
    mul_nonneg (i1.norm.pt _) (sub_pos.2 (hg.t _ ht)).le
  have hw : ∀ t < g.nt, w.get [t] = .fin (m.probT g ⟨t, 0, 0, 0, 0⟩) := fun t ht => by
    have hc : g.Has ⟨t, 0, 0, 0, 0⟩ := ⟨ht, hg.nv, hg.nx, hg.ny, hg.nz⟩
    have e1 : m.marginal g L false ['t'] ⟨t, 0, 0, 0, 0⟩ = m.pt t * width g.t t := by
      rw [Ingredients.marginal, if_neg (by decide), sumTXZ_age _ hc]
      simp only [Ingredients.weightTXZ, Bool.false_eq_true, if_false, Ingredients.probTXZ, Ingredients.probT,
        Ingredients.probX, Ingredients.probZ]
      have a : ∀ (x : Fin g.nx) (y : Fin g.ny), ∑ z : Fin g.nz, m.pt t * width g.t t * (m.px t x y * (width g.x x * width g.y y)) *
          (m.pz t x y z * width g.z z) = m.pt t * width g.t t * (m.px t x y * (width g.x x * width g.y y)) := fun x y => by
        rw [← Finset.mul_sum, i1.norm.sumZ t ht x x.2 y y.2, mul_one]
      simp only [a]
      simp only [← Finset.mul_sum]
      rw [i1.norm.sumX t ht, mul_one]
    have := w3 _ hc
    rw [e1] at this
    simpa [coords, coord1, Ingredients.probT] using this
  refine ⟨_, r, M, w, fun x y t => m.probT g ⟨t, 0, 0, 0, 0⟩ * m.probX g ⟨t, 0, x, y, 0⟩ / K x y, _, fun t => m.probT g ⟨t, 0, 0, 0, 0⟩, a1, b1, b3, w1, hw,
    fun t ht x hx y hy => (b5 x hx y hy).2.1 t ht, fun x hx y hy => (b5 x hx y hy).2.2.2, fun x hx y hy x' hx' y' hy' => ?_⟩
  have inw : ∀ t t', t ≤ t' → t' < g.nt → Inward g (ellRadiusAt g center rotation q) (X t') (X t) ∧
      (atAge g s e alpha t < atAge g s e alpha t' ∨ 0 < atAge g s e alpha t' ∧ atAge g s e rc t' < atAge g s e rc t →
        ∀ x < g.nx, ∀ y < g.ny, ∀ x' < g.nx, ∀ y' < g.ny, ellRadiusAt g center rotation q x y < ellRadiusAt g center rotation q x' y' →
        X t' x' y' * X t x y < X t' x y * X t x' y') := fun t t' htt ht' => by
    have ht := htt.trans_lt ht'
    have hc := centre_t_le hg htt ht'
    exact cored_inward (P := X t) (P' := X t') hg (fun x y => Real.sqrt_nonneg _) (a6 t ht).1 (a6 t' ht').1
      (atAge_pos ha.2 g hrc.1 hrc.2 t') (ramp_anti ha.2 hr.2 hc)
      (atAge_nonneg ha.2 g hall.1 hall.2 t) (ramp_mono ha.2 hal.2 hc) (a6 t ht).2 (a6 t' ht').2
  obtain ⟨κ0, -, κ1, -⟩ := b5 x hx y hy
  obtain ⟨κ0', -, κ1', -⟩ := b5 x' hx' y' hy'
  have ee : ∀ a b c d : ℝ, a * b / K x y * (c * d / K x' y') = a * c / (K x y * K x' y') * (d * b) := fun a b c d => by ring
  have ee' : ∀ a b c d : ℝ, a * b / K x y * (c * d / K x' y') = c * a / (K x y * K x' y') * (b * d) := fun a b c d => by ring
  have tl : ellRadiusAt g center rotation q x y ≤ ellRadiusAt g center rotation q x' y' →
      Tilted g.nt (fun t => m.probT g ⟨t, 0, 0, 0, 0⟩ * m.probX g ⟨t, 0, x, y, 0⟩ / K x y)
        (fun t => m.probT g ⟨t, 0, 0, 0, 0⟩ * m.probX g ⟨t, 0, x', y', 0⟩ / K x' y') := fun hR i j hij hj => by
    have hi := hij.trans hj
    beta_reduce
    rw [eX i hi x hx y hy, eX j hj x hx y hy, eX i hi x' hx' y' hy', eX j hj x' hx' y' hy', ee, ee']
    have := hT i hi
    have := hT j hj
    exact mul_le_mul_of_nonneg_left ((inw i j hij.le hj).1 x hx y hy x' hx' y' hy' hR) (by positivity)
  refine ⟨fun hR => ⟨tl hR, tilted_older hg κ1' κ1 (tl hR)⟩, fun hR hex => ?_⟩
  obtain ⟨i, j, hij, hj, p1, p2, hd⟩ := hex
  have hi := hij.trans hj
  refine (expect_cross (v := centre g.t) κ1 κ1' (tl hR.le) fun _ _ hij hj => (centre_t_lt hg hij hj).le).2
    ⟨i, j, hij, hj, centre_t_lt hg hij hj, ?_⟩
  rw [eX i hi x hx y hy, eX j hj x hx y hy, eX i hi x' hx' y' hy', eX j hj x' hx' y' hy', ee, ee']
  exact mul_lt_mul_of_pos_left ((inw i j hij.le hj).2 hd x hx y hy x' hx' y' hy' hR) (by positivity)

/-- Every age bin has stars after `set_p_t`. -/
theorem ageBinProb_pos (hg : g.Proper) {a b : ℝ} (ha : 0 < a) (hb : 0 < b) {t : ℕ} (ht : t < g.nt) : 0 < ageBinProb g a b t := by
  have hs : 0 < g.t g.nt - g.t 0 := sub_pos.2 (strict_edges hg.t hg.nt le_rfl)
  have h0 : 0 ≤ unitAge g (g.t t) := div_nonneg (sub_nonneg.2 (mono_edges hg.t (Nat.zero_le _) ht.le)) hs.le
  have h1 : unitAge g (g.t (t + 1)) ≤ 1 := (div_le_one hs).2 (sub_le_sub_right (mono_edges hg.t ht le_rfl) _)
  have h2 : unitAge g (g.t t) < unitAge g (g.t (t + 1)) := div_lt_div_of_pos_right (sub_lt_sub_right (hg.t t ht) _) hs
  have := betaCdf_strict ha hb h0 h1 h2
  have e := beta_Ioc ha hb h2.le
  exact (sub_pos.2 this).trans_eq e.symm

/-- Strictly between the ends of its window a ramp is strictly monotone. -/
theorem ramp_strict {s e f0 f1 τ τ' : ℝ} (h : s < e) (hf : f0 < f1) (ht : τ < τ') (h1 : s < τ') (h2 : τ < e) :
    ramp s e f0 f1 τ < ramp s e f0 f1 τ' := by
  have d : 0 < e - s := sub_pos.2 h
  have k : ∀ u, (u - s) / (e - s) * (e - s) = u - s := fun u => div_mul_cancel₀ _ d.ne'
  unfold ramp
  have a1 := k τ
  have a2 := k τ'
  set u := (τ - s) / (e - s)
  set v := (τ' - s) / (e - s)
  have uv : u < v := by nlinarith
  have v0 : 0 < v := by nlinarith
  have u1 : u < 1 := by nlinarith
  split_ifs <;> first | nlinarith | (exfalso; linarith)

/-- A disk of which all parts are set, on which `set_p_t` and then an inside-out `set_p_x_t` is called.  If the slope is
strictly greater for the old and two age bins are not both before or both after the window of build-up, then the mean age
strictly falls outwards. -/
theorem C87_grown {L : ℕ → ℕ → ℝ} (h : Sound p g f2 center rotation) (hg : g.Proper)
    (hset : ∀ f : Field, none ∉ f.get p) (hl : IsArr g ['t','z'] p.cube.ssps.lightWeights (fun c => .fin (L c.t c.z)))
    (hL : ∀ t z, 0 ≤ L t z) (lmd phi : ℝ) (cdf : ℝ × ℝ) (hv : ValidSfh lmd phi cdf)
    (q : ℝ) (rc alpha : ℝ × ℝ) (hq : 0 < q) (hr : 0 < rc.2 ∧ rc.2 ≤ rc.1) (hal : 0 ≤ alpha.1 ∧ alpha.1 < alpha.2) :
    ∃ p1 p2 M, ∃ s e : ℝ, ∃ μ : ℕ → ℕ → ℝ, p.setPt lmd phi cdf = .ok p1 ∧ p1.tPars = some ⟨.fin s, .fin e, .fin (e - s)⟩ ∧
      GrowingDisk.setPxt p1 (q, q) rc alpha = .ok p2 ∧
      getMean p2.self "t_x".toList false = .ok M ∧ (∀ x < g.nx, ∀ y < g.ny, M.get [x, y] = .fin (μ x y)) ∧
      (cdf = (0, 1) → s = g.t 0 ∧ e = g.t g.nt) ∧
      ((∃ t t', t < t' ∧ t' < g.nt ∧ centre g.t t < e ∧ s < centre g.t t') →
        ∀ x < g.nx, ∀ y < g.ny, ∀ x' < g.nx, ∀ y' < g.ny,
          ellRadiusAt g center rotation q x y < ellRadiusAt g center rotation q x' y' → μ x' y' < μ x y) := by
  obtain ⟨v1, v2, v3, v4, v5, v6, v7⟩ := id hv
  have a0 : 0 < lmd * phi := mul_pos v1 v2
  have b0 : 0 < lmd * (1 - phi) := mul_pos v1 (by linarith)
  obtain ⟨p1, k1, k2⟩ := h.setPt hg hv
  have w := setPt_writes k1
  obtain ⟨s, e, A, -, hse, -, k3, k4⟩ := setPt_aged h.built.cubeIs hg v1 v2 v3 v4 v5 v6 v7
  have hset1 : ∀ f : Field, none ∉ f.get p1 := fun f => by
    by_cases hf : f = .age
    · subst hf; rw [Except.ok.inj (k1.symm.trans k3)]; simp [Field.get]
    · rw [w.frame hf]; exact hset f
  obtain rfl := Except.ok.inj (k1.symm.trans k3)
  obtain ⟨p2, r, M, W, AA, μ, T, c1, c2, c3, c4, c5, c6, c7, c8⟩ := C87_age_gradient k2 hg hset1 (L := L) (by rw [w.cube]; exact hl) hL
    (s := s) (e := e) ⟨rfl, hse⟩ q rc alpha hq hr ⟨hal.1, hal.2.le⟩
  have key : ∀ t < g.nt, T t = ageBinProb g (lmd * phi) (lmd * (1 - phi)) t := fun t ht => by
    obtain ⟨X, x1, -⟩ := disk_setPxt k2.built hg (s := s) (e := e) ⟨rfl, hse⟩ (q := (q, q)) (rc := rc) (alpha := alpha) ⟨hq, hq⟩
      ⟨hr.1.trans_le hr.2, hr.1⟩ ⟨hal.1, hal.1.trans hal.2.le⟩
    obtain rfl := Except.ok.inj (c1.symm.trans x1)
    have hw : ∀ t < g.nt, 0 < width g.t t := fun t ht => sub_pos.2 (hg.t t ht)
    obtain ⟨r, y1, -, y2⟩ := getP_t (p := { p with tPars := some ⟨.fin s, .fin e, .fin (e - s)⟩, logPt := some A, logPxt := some X })
      k2.built.cubeIs hg rfl (q := fun t => ageBinProb g (lmd * phi) (lmd * (1 - phi)) t / width g.t t) k4
      (fun t ht => div_nonneg (ageBinProb_nonneg _ _ _ _) (hw t ht).le) false
    obtain rfl : W = r := Except.ok.inj (c4.symm.trans y1)
    have := y2 ⟨t, 0, 0, 0, 0⟩ ⟨ht, hg.nv, hg.nx, hg.ny, hg.nz⟩
    simp only [coords, coord1, List.flatMap_cons, List.flatMap_nil, if_true, List.append_nil] at this
    rw [c5 t ht] at this
    have := Num.fin.inj this
    rw [this]
    simp only [dvol, Bool.false_eq_true, if_false, div_one]
    exact div_mul_cancel₀ _ (hw t ht).ne'
  refine ⟨_, p2, M, s, e, μ, k1, rfl, c1, c3, c7, fun hc => ?_, fun ⟨t, t', htt, ht', h1, h2⟩ x hx y hy x' hx' y' hy' hR =>
    (c8 x hx y hy x' hx' y' hy').2 hR ⟨t, t', htt, ht', ?_, ?_, Or.inl (ramp_strict hse hal.2 (centre_t_lt hg htt ht') h2 h1)⟩⟩
  · obtain ⟨A', j1, -⟩ := setPt_stores h.built.cubeIs hg a0 b0 v4 cdf
    have hs : 0 < g.t g.nt - g.t 0 := sub_pos.2 (strict_edges hg.t hg.nt le_rfl)
    have j2 := congrArg Param.tPars (Except.ok.inj (k3.symm.trans j1))
    obtain ⟨s1, s2, s3⟩ := betaPpf_spec a0 b0 le_rfl zero_le_one
    obtain ⟨s1', s2', s3'⟩ := betaPpf_spec a0 b0 zero_le_one le_rfl
    have z : betaPpf (lmd * phi) (lmd * (1 - phi)) 0 = 0 := by
      by_contra hcon
      have := betaCdf_strict a0 b0 le_rfl s2 (s1.lt_of_ne (Ne.symm hcon))
      rw [betaCdf_zero a0 b0] at this
      linarith
    have o : betaPpf (lmd * phi) (lmd * (1 - phi)) 1 = 1 := by
      by_contra hcon
      have := betaCdf_strict a0 b0 s1' le_rfl (s2'.lt_of_ne hcon)
      rw [betaCdf_one a0 b0] at this
      linarith
    have k : ∀ r, 0 ≤ r → r ≤ 1 → betaPpfNum (lmd * phi) (lmd * (1 - phi)) (.fin (g.t 0)) (.fin (g.t g.nt - g.t 0)) r =
        .fin (betaPpf (lmd * phi) (lmd * (1 - phi)) r * (g.t g.nt - g.t 0) + g.t 0) := fun r r0 r1 => by
      unfold betaPpfNum
      rw [if_pos ⟨a0, b0, by simpa [scaleOk] using hs, r0, r1⟩, Num.fin_mul, Num.fin_add]
    subst hc
    rw [k _ le_rfl zero_le_one, k _ zero_le_one le_rfl, z, o] at j2
    simp only [Option.some.injEq, TPars.mk.injEq, Num.fin.injEq] at j2
    exact ⟨by linarith [j2.1], by linarith [j2.2.1]⟩
  · rw [key t (htt.trans ht')]; exact ageBinProb_pos hg a0 b0 (htt.trans ht')
  · rw [key t' ht']; exact ageBinProb_pos hg a0 b0 ht'

/-! ### The hypotheses are met -/

/-- A disk on the example grid: axis ratio 0.5, core 0.5 (young) and 0.1 (old), slope 0.5 and 2.  Mean age falls from a pixel
by the centre to the next. -/
example : ∃ (p p1 p2 : Param) (M : Arr Num) (μ μ' : ℝ), Sound p demoGrid 1 (0, 0) 0 ∧ p.setPt 15 0.5 (0, 1) = .ok p1 ∧
    GrowingDisk.setPxt p1 (0.5, 0.5) (0.5, 0.1) (0.5, 2) = .ok p2 ∧ getMean p2.self "t_x".toList false = .ok M ∧
    M.get [2, 0] = .fin μ ∧ M.get [2, 1] = .fin μ' ∧ μ' < μ := by
  obtain ⟨cube, -, hc, hs⟩ := demoCube_exists
  obtain ⟨p0, k1, k2, k3, k4⟩ := init_sound hc demoGrid_proper 1 (0, 0) 0
  rcases disk_history demoGrid_proper demo_offcentre demoCalls p0 k3 demoCalls_valid with ⟨p, j1, j2, j3⟩ | ⟨-, -, j⟩
  · have hf : ∀ f : Field, none ∉ f.get p := fun f => by
      rw [(set_fields (base := fun p => p) (fun {s s' k} h => disk_writes h) demoCalls p0 p j1
        (fun f => Or.inr (k4 f)) f).1]
      right
      cases f <;> simp [demoCalls, DiskCall.field]
    have hl := demo_light (cube := p.cube) (by rw [j3, k2, hs])
    obtain ⟨p1, p2, M, s, e, μ, a1, a2, a3, a4, a5, a6, a7⟩ := C87_grown j2 demoGrid_proper hf hl (fun t z => (demoL_pos t z).le)
      15 0.5 (0, 1) (by norm_num [ValidSfh]) 0.5 (0.5, 0.1) (0.5, 2) (by norm_num) (by norm_num) (by norm_num)
    obtain ⟨rfl, rfl⟩ := a6 rfl
    refine ⟨p, p1, p2, M, μ 2 0, μ 2 1, j2, a1, a3, a4, a5 2 (by simp [demoGrid, cubeGrid]) 0 (by simp [demoGrid, cubeGrid]),
      a5 2 (by simp [demoGrid, cubeGrid]) 1 (by simp [demoGrid, cubeGrid]),
      a7 ⟨0, 1, by norm_num, by simp [demoGrid, cubeGrid], by norm_num [demoGrid, cubeGrid, centre], by norm_num [demoGrid, cubeGrid, centre]⟩
        2 (by simp [demoGrid, cubeGrid]) 0 (by simp [demoGrid, cubeGrid]) 2 (by simp [demoGrid, cubeGrid]) 1 (by simp [demoGrid, cubeGrid]) ?_⟩
    unfold ellRadiusAt
    refine Real.sqrt_lt_sqrt (by positivity) ?_
    norm_num [frameX, frameY, demoGrid, cubeGrid, centre, evenEdges]
  · exfalso
    obtain ⟨pre, k, post, j1, j2, j3⟩ := j
    cases pre with
    | nil => simp only [List.nil_append, demoCalls, List.cons.injEq] at j1; rw [← j1.1] at j3; exact j3.1 rfl
    | cons k' pre =>
      simp only [List.cons_append, demoCalls, List.cons.injEq] at j1
      exact j2 k' (by simp) (by rw [← j1.1]; rfl)

/-- On that grid the old stars are more concentrated. -/
example : ∃ (p p' : Param) (r : Arr Num) (X : ℕ → ℕ → ℕ → ℝ), Built p demoGrid 1 (0, 0) 0 ∧
    GrowingDisk.setPxt p (0.5, 0.5) (0.5, 0.1) (0.5, 2) = .ok p' ∧ getP p'.self "x_t".toList false false = .ok r ∧
    (∀ t < 2, ∀ x < 5, ∀ y < 6, r.get [x, y, t] = .fin (X t x y)) ∧ Denser demoGrid (ellRadiusAt demoGrid (0, 0) 0 0.5) (X 1) (X 0) := by
  obtain ⟨cube, -, h, -⟩ := demoCube_exists
  obtain ⟨p0, -, -, k3, -⟩ := init_sound h demoGrid_proper 1 (0, 0) 0
  obtain ⟨p, k1, k2⟩ := k3.setPt demoGrid_proper (lmd := 15) (phi := 0.5) (q := (0, 1)) (by norm_num [ValidSfh])
  obtain ⟨s, e, A, -, hse, -, k4, -⟩ := setPt_aged (q := (0, 1)) k3.built.cubeIs demoGrid_proper (lmd := 15) (phi := 0.5) (by norm_num) (by norm_num) (by norm_num)
    (by norm_num) (by norm_num) (by norm_num) (by norm_num)
  obtain ⟨p', r, X, a1, a2, a3, a4⟩ := C87_inside_out k2.built demoGrid_proper (s := s) (e := e)
    ⟨by rw [Except.ok.inj (k1.symm.trans k4)], hse⟩ 0.5 (0.5, 0.1) (0.5, 2) (by norm_num) (by norm_num) (by norm_num)
  exact ⟨p, p', r, X, k2.built, a1, a2, a3, (a4 0 1 (by norm_num) (by simp [demoGrid, cubeGrid])).2⟩

end PKM
