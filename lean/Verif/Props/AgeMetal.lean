import Verif.Props.Growth

/-!
# C89: the relation between age and metallicity

`GrowingDisk.setTDep p …` is `disk.set_t_dep(…)`, `s.setTDep τ` is `stream.set_t_dep(t_dep=τ)`, `p.setPt lmd phi q` is
`component.set_p_t(lmd, phi, cdf_start_end=q)`.  All distributions here are mass-weighted and not densities.
Age bins run from young to old, metallicity bins from poor to rich.
-/

open scoped Classical
open MeasureTheory ProbabilityTheory

noncomputable section

namespace PKM
open Np Component

variable {p p' : Param} {g : Grid} {f2 : ℝ} {center : ℝ × ℝ} {rotation : ℝ}

/-! ### Sums over populations -/

theorem sumTXZ_pixMetal (f : Cell → ℝ) {c : Cell} (hc : g.Has c) :
    Ingredients.sumTXZ g (fun d => if coords ['x','z'] d = coords ['x','z'] c then f d else 0) =
      ∑ t : Fin g.nt, f ⟨t, 0, c.x, c.y, c.z⟩ := by
  obtain ⟨-, -, h2, h3, h4⟩ := hc
  unfold Ingredients.sumTXZ
  refine Finset.sum_congr rfl fun t _ => ?_
  rw [Finset.sum_eq_single ⟨c.x, h2⟩, Finset.sum_eq_single ⟨c.y, h3⟩, Finset.sum_eq_single ⟨c.z, h4⟩]
  · exact if_pos (by simp [coords, coord1])
  · exact fun z _ h => if_neg fun e => h (Fin.ext (by show (z : ℕ) = c.z; simp [coords, coord1] at e; tauto))
  · simp
  · exact fun y _ h => Finset.sum_eq_zero fun z _ => if_neg fun e => h (Fin.ext (by show (y : ℕ) = c.y; simp [coords, coord1] at e; tauto))
  · simp
  · exact fun x _ h => Finset.sum_eq_zero fun y _ => Finset.sum_eq_zero fun z _ => if_neg fun e =>
      h (Fin.ext (by show (x : ℕ) = c.x; simp [coords, coord1] at e; tauto))
  · simp

theorem sumTXZ_pix (f : Cell → ℝ) {c : Cell} (hc : g.Has c) :
    Ingredients.sumTXZ g (fun d => if coords ['x'] d = coords ['x'] c then f d else 0) =
      ∑ t : Fin g.nt, ∑ z : Fin g.nz, f ⟨t, 0, c.x, c.y, z⟩ := by
  obtain ⟨-, -, h2, h3, h4⟩ := hc
  unfold Ingredients.sumTXZ
  refine Finset.sum_congr rfl fun t _ => ?_
  rw [Finset.sum_eq_single ⟨c.x, h2⟩, Finset.sum_eq_single ⟨c.y, h3⟩]
  · exact Finset.sum_congr rfl fun z _ => if_pos (by simp [coords, coord1])
  · exact fun y _ h => Finset.sum_eq_zero fun z _ => if_neg fun e => h (Fin.ext (by show (y : ℕ) = c.y; simp [coords, coord1] at e; tauto))
  · simp
  · exact fun x _ h => Finset.sum_eq_zero fun y _ => Finset.sum_eq_zero fun z _ => if_neg fun e =>
      h (Fin.ext (by show (x : ℕ) = c.x; simp [coords, coord1] at e; tauto))
  · simp

theorem sumTXZ_ageMetal (f : Cell → ℝ) {c : Cell} (hc : g.Has c) :
    Ingredients.sumTXZ g (fun d => if coords ['t','z'] d = coords ['t','z'] c then f d else 0) =
      ∑ x : Fin g.nx, ∑ y : Fin g.ny, f ⟨c.t, 0, x, y, c.z⟩ := by
  obtain ⟨h1, -, -, -, h4⟩ := hc
  unfold Ingredients.sumTXZ
  rw [Finset.sum_eq_single ⟨c.t, h1⟩]
  · refine Finset.sum_congr rfl fun x _ => Finset.sum_congr rfl fun y _ => ?_
    rw [Finset.sum_eq_single ⟨c.z, h4⟩]
    · exact if_pos (by simp [coords, coord1])
    · exact fun z _ h => if_neg fun e => h (Fin.ext (by show (z : ℕ) = c.z; simp [coords, coord1] at e; tauto))
    · simp
  · exact fun t _ h => Finset.sum_eq_zero fun x _ => Finset.sum_eq_zero fun y _ => Finset.sum_eq_zero fun z _ => if_neg fun e =>
      h (Fin.ext (by show (t : ℕ) = c.t; simp [coords, coord1] at e; tauto))
  · simp

theorem sumTXZ_metal (f : Cell → ℝ) {c : Cell} (hc : g.Has c) :
    Ingredients.sumTXZ g (fun d => if coords ['z'] d = coords ['z'] c then f d else 0) =
      ∑ t : Fin g.nt, ∑ x : Fin g.nx, ∑ y : Fin g.ny, f ⟨t, 0, x, y, c.z⟩ := by
  unfold Ingredients.sumTXZ
  refine Finset.sum_congr rfl fun t _ => Finset.sum_congr rfl fun x _ => Finset.sum_congr rfl fun y _ => ?_
  rw [Finset.sum_eq_single ⟨c.z, hc.2.2.2.2⟩]
  · exact if_pos (by simp [coords, coord1])
  · exact fun z _ h => if_neg fun e => h (Fin.ext (by show (z : ℕ) = c.z; simp [coords, coord1] at e; tauto))
  · simp

/-! ### What the queries return -/

section
variable {m : Ingredients} {L : ℕ → ℕ → ℝ}

theorem weightTXZ_mass (c : Cell) : m.weightTXZ g L false c =
    m.probT g ⟨c.t, 0, 0, 0, 0⟩ * m.probX g ⟨c.t, 0, c.x, c.y, 0⟩ * m.probZ g ⟨c.t, 0, c.x, c.y, c.z⟩ := by
  simp only [Ingredients.weightTXZ, Bool.false_eq_true, if_false]; rfl

theorem mass_t (h : ParamIs p g m L) {t : ℕ} (ht : t < g.nt) : 0 ≤ m.probT g ⟨t, 0, 0, 0, 0⟩ :=
  mul_nonneg (h.norm.pt _) (sub_pos.2 (h.proper.t _ ht)).le

/-- Ages of the stars of a pixel in a metallicity bin. -/
theorem ages_at_metal (h : ParamIs p g m L) (hX : ∀ t < g.nt, ∀ x < g.nx, ∀ y < g.ny, 0 < m.probX g ⟨t, 0, x, y, 0⟩)
    (hZ : ∀ t < g.nt, ∀ x < g.nx, ∀ y < g.ny, ∀ z < g.nz, 0 < m.probZ g ⟨t, 0, x, y, z⟩) :
    ∃ r M, getP p.self "t_xz".toList false false = .ok r ∧ r.shape = [g.nt, g.nx, g.ny, g.nz] ∧
      getMean p.self "t_xz".toList false = .ok M ∧ M.shape = [g.nx, g.ny, g.nz] ∧ ∃ K : ℕ → ℕ → ℕ → ℝ,
      ∀ x < g.nx, ∀ y < g.ny, ∀ z < g.nz, 0 < K x y z ∧
        (∀ t < g.nt, r.get [t, x, y, z] =
          .fin (m.probT g ⟨t, 0, 0, 0, 0⟩ * m.probX g ⟨t, 0, x, y, 0⟩ * m.probZ g ⟨t, 0, x, y, z⟩ / K x y z)) ∧
        ∑ t : Fin g.nt, m.probT g ⟨t, 0, 0, 0, 0⟩ * m.probX g ⟨t, 0, x, y, 0⟩ * m.probZ g ⟨t, 0, x, y, z⟩ / K x y z = 1 ∧
        M.get [x, y, z] = .fin (∑ t : Fin g.nt, centre g.t t *
          (m.probT g ⟨t, 0, 0, 0, 0⟩ * m.probX g ⟨t, 0, x, y, 0⟩ * m.probZ g ⟨t, 0, x, y, z⟩ / K x y z)) := by
  have hg := h.proper
  obtain ⟨r, r1, r2, r3⟩ := C32_conditionals h false false (by simp) ['t'] ['x','z'] (by decide +kernel) (by decide)
  have hc : ∀ t < g.nt, ∀ x < g.nx, ∀ y < g.ny, ∀ z < g.nz, g.Has ⟨t, 0, x, y, z⟩ := fun t ht x hx y hy z hz => ⟨ht, hg.nv, hx, hy, hz⟩
  let W : ℕ → ℕ → ℕ → ℕ → ℝ := fun t x y z => m.probT g ⟨t, 0, 0, 0, 0⟩ * m.probX g ⟨t, 0, x, y, 0⟩ * m.probZ g ⟨t, 0, x, y, z⟩
  let K : ℕ → ℕ → ℕ → ℝ := fun x y z => ∑ t : Fin g.nt, W t x y z
  have hK : ∀ x < g.nx, ∀ y < g.ny, ∀ z < g.nz, 0 < K x y z := fun x hx y hy z hz => by
    obtain ⟨t, -, k⟩ := Finset.exists_ne_zero_of_sum_ne_zero (h.norm.sumT ▸ one_ne_zero)
    exact Finset.sum_pos' (fun t _ => mul_nonneg (mul_nonneg (mass_t h t.2) (hX t t.2 x hx y hy).le) (hZ t t.2 x hx y hy z hz).le)
      ⟨t, Finset.mem_univ _, mul_pos (mul_pos ((mass_t h t.2).lt_of_ne k.symm) (hX t t.2 x hx y hy)) (hZ t t.2 x hx y hy z hz)⟩
  have hr : ∀ t < g.nt, ∀ x < g.nx, ∀ y < g.ny, ∀ z < g.nz, r.get [t, x, y, z] = .fin (W t x y z / K x y z) := fun t ht x hx y hy z hz => by
    have e2 : m.marginal g L false ['x','z'] ⟨t, 0, x, y, z⟩ = K x y z := by
      rw [Ingredients.marginal, if_neg (by decide), sumTXZ_pixMetal _ (hc t ht x hx y hy z hz)]
      exact Finset.sum_congr rfl fun t _ => weightTXZ_mass _
    have e1 : m.marginal g L false ['t','x','z'] ⟨t, 0, x, y, z⟩ = W t x y z := by
      rw [Ingredients.marginal, if_neg (by decide), sumTXZ_point _ (hc t ht x hx y hy z hz)]
      exact weightTXZ_mass _
    have := r3 _ (hc t ht x hx y hy z hz)
    rw [e2, if_neg (hK x hx y hy z hz).ne', show unionStr ['t'] ['x','z'] = ['t','x','z'] from by decide, e1] at this
    simpa [coords, coord1] using this
  have hm : MArr g (some 't' :: ['x','y','z'].map some) r (fun c => .fin (W c.t c.x c.y c.z / K c.x c.y c.z)) :=
    ⟨r2, fun c hc' => by simpa [coordM, coordL] using hr _ hc'.1 _ hc'.2.2.1 _ hc'.2.2.2.1 _ hc'.2.2.2.2⟩
  obtain ⟨M, m1, m2⟩ := meanDefault_tvz (s := p.self) (w := condStr ['t'] ['x','z']) (lw := false) (a := 't')
    (B := ['x','y','z'].map some) h.cubeIs (by decide) (by intro d hd; simp at hd; rcases hd with rfl | rfl | rfl <;> exact ⟨by simp [AxisChar], by simp⟩) rfl ⟨r, r1, hm⟩
  refine ⟨r, M, r1, r2, m1, m2.1, K, fun x hx y hy z hz => ⟨hK x hx y hy z hz, fun t ht => hr t ht x hx y hy z hz, ?_, ?_⟩⟩
  · rw [← Finset.sum_div]; exact div_self (hK x hx y hy z hz).ne'
  · have := m2.2 ⟨0, 0, x, y, z⟩ ⟨hg.nt, hg.nv, hx, hy, hz⟩
    have e : M.get [x, y, z] = sum1D g 't' (fun c => .fin (g.value 't' c)) (fun c => .fin (W c.t c.x c.y c.z / K c.x c.y c.z)) ⟨0, 0, x, y, z⟩ := this
    rw [e]
    exact Num.sum_congr_fin _ _ (fun t : Fin g.nt => centre g.t t * (W t x y z / K x y z)) fun t _ => rfl

/-- Metallicities of the stars of a pixel. -/
theorem metals_in_pixel (h : ParamIs p g m L) (hX : ∀ t < g.nt, ∀ x < g.nx, ∀ y < g.ny, 0 < m.probX g ⟨t, 0, x, y, 0⟩) :
    ∃ r M, getP p.self "z_x".toList false false = .ok r ∧ r.shape = [g.nz, g.nx, g.ny] ∧
      getMean p.self "z_x".toList false = .ok M ∧ M.shape = [g.nx, g.ny] ∧ ∃ a : ℕ → ℕ → ℕ → ℝ, ∃ K : ℕ → ℕ → ℝ,
      ∀ x < g.nx, ∀ y < g.ny, 0 < K x y ∧
        (∀ t, a x y t = m.probT g ⟨t, 0, 0, 0, 0⟩ * m.probX g ⟨t, 0, x, y, 0⟩ / K x y) ∧ ∑ t : Fin g.nt, a x y t = 1 ∧
        (∀ z < g.nz, r.get [z, x, y] = .fin (∑ t : Fin g.nt, m.probZ g ⟨t, 0, x, y, z⟩ * a x y t)) ∧
        M.get [x, y] = .fin (∑ z : Fin g.nz, centre g.z z * ∑ t : Fin g.nt, m.probZ g ⟨t, 0, x, y, z⟩ * a x y t) := by
  have hg := h.proper
  obtain ⟨r, r1, r2, r3⟩ := C32_conditionals h false false (by simp) ['z'] ['x'] (by decide +kernel) (by decide)
  have hc : ∀ x < g.nx, ∀ y < g.ny, ∀ z < g.nz, g.Has ⟨0, 0, x, y, z⟩ := fun x hx y hy z hz => ⟨hg.nt, hg.nv, hx, hy, hz⟩
  let K : ℕ → ℕ → ℝ := fun x y => ∑ t : Fin g.nt, m.probT g ⟨t, 0, 0, 0, 0⟩ * m.probX g ⟨t, 0, x, y, 0⟩
  let a : ℕ → ℕ → ℕ → ℝ := fun x y t => m.probT g ⟨t, 0, 0, 0, 0⟩ * m.probX g ⟨t, 0, x, y, 0⟩ / K x y
  have hK : ∀ x < g.nx, ∀ y < g.ny, 0 < K x y := fun x hx y hy => by
    obtain ⟨t, -, k⟩ := Finset.exists_ne_zero_of_sum_ne_zero (h.norm.sumT ▸ one_ne_zero)
    exact Finset.sum_pos' (fun t _ => mul_nonneg (mass_t h t.2) (hX t t.2 x hx y hy).le)
      ⟨t, Finset.mem_univ _, mul_pos ((mass_t h t.2).lt_of_ne k.symm) (hX t t.2 x hx y hy)⟩
  have hr : ∀ x < g.nx, ∀ y < g.ny, ∀ z < g.nz, r.get [z, x, y] = .fin (∑ t : Fin g.nt, m.probZ g ⟨t, 0, x, y, z⟩ * a x y t) :=
    fun x hx y hy z hz => by
    have e2 : m.marginal g L false ['x'] ⟨0, 0, x, y, z⟩ = K x y := by
      rw [Ingredients.marginal, if_neg (by decide), sumTXZ_pix _ (hc x hx y hy z hz)]
      refine Finset.sum_congr rfl fun t _ => ?_
      simp only [weightTXZ_mass]
      rw [← Finset.mul_sum]
      exact (congrArg _ (h.norm.sumZ t t.2 x hx y hy)).trans (mul_one _)
    have e1 : m.marginal g L false ['x','z'] ⟨0, 0, x, y, z⟩ =
        ∑ t : Fin g.nt, m.probT g ⟨t, 0, 0, 0, 0⟩ * m.probX g ⟨t, 0, x, y, 0⟩ * m.probZ g ⟨t, 0, x, y, z⟩ := by
      rw [Ingredients.marginal, if_neg (by decide), sumTXZ_pixMetal _ (hc x hx y hy z hz)]
      exact Finset.sum_congr rfl fun t _ => weightTXZ_mass _
    have := r3 _ (hc x hx y hy z hz)
    rw [e2, if_neg (hK x hx y hy).ne', show unionStr ['z'] ['x'] = ['x','z'] from by decide, e1] at this
    have e3 : (∑ t : Fin g.nt, m.probT g ⟨t, 0, 0, 0, 0⟩ * m.probX g ⟨t, 0, x, y, 0⟩ * m.probZ g ⟨t, 0, x, y, z⟩) / K x y =
        ∑ t : Fin g.nt, m.probZ g ⟨t, 0, x, y, z⟩ * a x y t := by
      rw [Finset.sum_div]
      exact Finset.sum_congr rfl fun t _ => by show _ = _ * (_ / _); ring
    rw [e3] at this
    simpa [coords, coord1] using this
  have hm : MArr g (some 'z' :: ['x','y'].map some) r (fun c => .fin (∑ t : Fin g.nt, m.probZ g ⟨t, 0, c.x, c.y, c.z⟩ * a c.x c.y t)) :=
    ⟨r2, fun c hc' => by simpa [coordM, coordL] using hr _ hc'.2.2.1 _ hc'.2.2.2.1 _ hc'.2.2.2.2⟩
  obtain ⟨M, m1, m2⟩ := meanDefault_tvz (s := p.self) (w := condStr ['z'] ['x']) (lw := false) (a := 'z')
    (B := ['x','y'].map some) h.cubeIs (by decide) (by intro d hd; simp at hd; rcases hd with rfl | rfl <;> exact ⟨by simp [AxisChar], by simp⟩) rfl ⟨r, r1, hm⟩
  refine ⟨r, M, r1, r2, m1, m2.1, a, K, fun x hx y hy => ⟨hK x hx y hy, fun t => rfl, ?_, hr x hx y hy, ?_⟩⟩
  · rw [← Finset.sum_div]; exact div_self (hK x hx y hy).ne'
  · have := m2.2 ⟨0, 0, x, y, 0⟩ ⟨hg.nt, hg.nv, hx, hy, hg.nz⟩
    have e : M.get [x, y] = sum1D g 'z' (fun c => .fin (g.value 'z' c))
      (fun c => .fin (∑ t : Fin g.nt, m.probZ g ⟨t, 0, c.x, c.y, c.z⟩ * a c.x c.y t)) ⟨0, 0, x, y, 0⟩ := this
    rw [e]
    exact Num.sum_congr_fin _ _ (fun z : Fin g.nz => centre g.z z * ∑ t : Fin g.nt, m.probZ g ⟨t, 0, x, y, z⟩ * a x y t) fun z _ => rfl

theorem sum_space (h : ParamIs p g m L) {t : ℕ} (ht : t < g.nt) {Z : ℝ} :
    ∑ x : Fin g.nx, ∑ y : Fin g.ny, m.probT g ⟨t, 0, 0, 0, 0⟩ * m.probX g ⟨t, 0, x, y, 0⟩ * Z = m.probT g ⟨t, 0, 0, 0, 0⟩ * Z := by
  simp only [← Finset.sum_mul, ← Finset.mul_sum]
  have : ∑ x : Fin g.nx, ∑ y : Fin g.ny, m.probX g ⟨t, 0, x, y, 0⟩ = 1 := h.norm.sumX t ht
  rw [this, mul_one]

/-- Ages and metallicities of all stars, if metallicity depends on age alone. -/
theorem metals_overall (h : ParamIs p g m L) {Z : ℕ → ℕ → ℝ} (hZ : ∀ t < g.nt, ∀ z < g.nz, 0 < Z t z)
    (eZ : ∀ t < g.nt, ∀ x < g.nx, ∀ y < g.ny, ∀ z < g.nz, m.probZ g ⟨t, 0, x, y, z⟩ = Z t z) :
    ∃ r M r' M', getP p.self "t_z".toList false false = .ok r ∧ getMean p.self "t_z".toList false = .ok M ∧
      getP p.self "z".toList false false = .ok r' ∧ getMean p.self "z".toList false = .ok M' ∧
      (∀ z < g.nz, r'.get [z] = .fin (∑ t : Fin g.nt, Z t z * m.probT g ⟨t, 0, 0, 0, 0⟩)) ∧
      M'.get [] = .fin (∑ z : Fin g.nz, centre g.z z * ∑ t : Fin g.nt, Z t z * m.probT g ⟨t, 0, 0, 0, 0⟩) ∧
      ∃ K : ℕ → ℝ, ∀ z < g.nz, 0 < K z ∧
        (∀ t < g.nt, r.get [t, z] = .fin (m.probT g ⟨t, 0, 0, 0, 0⟩ * Z t z / K z)) ∧
        ∑ t : Fin g.nt, m.probT g ⟨t, 0, 0, 0, 0⟩ * Z t z / K z = 1 ∧
        M.get [z] = .fin (∑ t : Fin g.nt, centre g.t t * (m.probT g ⟨t, 0, 0, 0, 0⟩ * Z t z / K z)) := by
  have hg := h.proper
  obtain ⟨r, r1, r2, r3⟩ := C32_conditionals h false false (by simp) ['t'] ['z'] (by decide +kernel) (by decide)
  obtain ⟨r', s1, s2, s3⟩ := C32_marginals h false false (by simp) ['z'] (by decide)
  have hc : ∀ t < g.nt, ∀ z < g.nz, g.Has ⟨t, 0, 0, 0, z⟩ := fun t ht z hz => ⟨ht, hg.nv, hg.nx, hg.ny, hz⟩
  let K : ℕ → ℝ := fun z => ∑ t : Fin g.nt, m.probT g ⟨t, 0, 0, 0, 0⟩ * Z t z
  have hK : ∀ z < g.nz, 0 < K z := fun z hz => by
    obtain ⟨t, -, k⟩ := Finset.exists_ne_zero_of_sum_ne_zero (h.norm.sumT ▸ one_ne_zero)
    exact Finset.sum_pos' (fun t _ => mul_nonneg (mass_t h t.2) (hZ t t.2 z hz).le)
      ⟨t, Finset.mem_univ _, mul_pos ((mass_t h t.2).lt_of_ne k.symm) (hZ t t.2 z hz)⟩
  have el : ∀ t < g.nt, ∀ z < g.nz, ∑ x : Fin g.nx, ∑ y : Fin g.ny, m.weightTXZ g L false ⟨t, 0, x, y, z⟩ =
      m.probT g ⟨t, 0, 0, 0, 0⟩ * Z t z := fun t ht z hz => by
    rw [← sum_space h ht]
    refine Finset.sum_congr rfl fun x _ => Finset.sum_congr rfl fun y _ => ?_
    rw [weightTXZ_mass, ← eZ t ht x x.2 y y.2 z hz]
  have e2 : ∀ t < g.nt, ∀ z < g.nz, m.marginal g L false ['z'] ⟨t, 0, 0, 0, z⟩ = K z := fun t ht z hz => by
    rw [Ingredients.marginal, if_neg (by decide), sumTXZ_metal _ (hc t ht z hz)]
    exact Finset.sum_congr rfl fun t _ => el t t.2 z hz
  have e1 : ∀ t < g.nt, ∀ z < g.nz, m.marginal g L false ['t','z'] ⟨t, 0, 0, 0, z⟩ = m.probT g ⟨t, 0, 0, 0, 0⟩ * Z t z := fun t ht z hz => by
    rw [Ingredients.marginal, if_neg (by decide), sumTXZ_ageMetal _ (hc t ht z hz)]
    exact el t ht z hz
  have hr : ∀ t < g.nt, ∀ z < g.nz, r.get [t, z] = .fin (m.probT g ⟨t, 0, 0, 0, 0⟩ * Z t z / K z) := fun t ht z hz => by
    have := r3 _ (hc t ht z hz)
    rw [e2 t ht z hz, if_neg (hK z hz).ne', show unionStr ['t'] ['z'] = ['t','z'] from by decide, e1 t ht z hz] at this
    simpa [coords, coord1] using this
  have hr' : ∀ z < g.nz, r'.get [z] = .fin (∑ t : Fin g.nt, Z t z * m.probT g ⟨t, 0, 0, 0, 0⟩) := fun z hz => by
    have := s3 _ (hc 0 hg.nt z hz)
    rw [e2 0 hg.nt z hz] at this
    have e3 : K z = ∑ t : Fin g.nt, Z t z * m.probT g ⟨t, 0, 0, 0, 0⟩ := Finset.sum_congr rfl fun t _ => mul_comm _ _
    rw [e3] at this
    simpa [coords, coord1] using this
  have hm : MArr g (some 't' :: ['z'].map some) r (fun c => .fin (m.probT g ⟨c.t, 0, 0, 0, 0⟩ * Z c.t c.z / K c.z)) :=
    ⟨r2, fun c hc' => by simpa [coordM, coordL] using hr _ hc'.1 _ hc'.2.2.2.2⟩
  have hm' : MArr g (some 'z' :: []) r' (fun c => .fin (∑ t : Fin g.nt, Z t c.z * m.probT g ⟨t, 0, 0, 0, 0⟩)) :=
    ⟨s2, fun c hc' => by simpa [coordM, coordL] using hr' _ hc'.2.2.2.2⟩
  obtain ⟨M, m1, m2⟩ := meanDefault_tvz (s := p.self) (w := condStr ['t'] ['z']) (lw := false) (a := 't')
    (B := ['z'].map some) h.cubeIs (by decide) (by intro d hd; simp at hd; rcases hd with rfl; exact ⟨by simp [AxisChar], by simp⟩) rfl ⟨r, r1, hm⟩
  obtain ⟨M', n1, n2⟩ := meanDefault_tvz (s := p.self) (w := ['z']) (lw := false) (a := 'z')
    (B := []) h.cubeIs (by decide) (by intro d hd; simp at hd) rfl ⟨r', s1, hm'⟩
  refine ⟨r, M, r', M', r1, m1, s1, n1, hr', ?_, K, fun z hz => ⟨hK z hz, fun t ht => hr t ht z hz, ?_, ?_⟩⟩
  · have := n2.2 ⟨0, 0, 0, 0, 0⟩ ⟨hg.nt, hg.nv, hg.nx, hg.ny, hg.nz⟩
    have e : M'.get [] = sum1D g 'z' (fun c => .fin (g.value 'z' c))
      (fun c => .fin (∑ t : Fin g.nt, Z t c.z * m.probT g ⟨t, 0, 0, 0, 0⟩)) ⟨0, 0, 0, 0, 0⟩ := this
    rw [e]
    exact Num.sum_congr_fin _ _ (fun z : Fin g.nz => centre g.z z * ∑ t : Fin g.nt, Z t z * m.probT g ⟨t, 0, 0, 0, 0⟩) fun z _ => rfl
  · rw [← Finset.sum_div]; exact div_self (hK z hz).ne'
  · have := m2.2 ⟨0, 0, 0, 0, z⟩ ⟨hg.nt, hg.nv, hg.nx, hg.ny, hz⟩
    have e : M.get [z] = sum1D g 't' (fun c => .fin (g.value 't' c))
      (fun c => .fin (m.probT g ⟨c.t, 0, 0, 0, 0⟩ * Z c.t c.z / K c.z)) ⟨0, 0, 0, 0, z⟩ := this
    rw [e]
    exact Num.sum_congr_fin _ _ (fun t : Fin g.nt => centre g.t t * (m.probT g ⟨t, 0, 0, 0, 0⟩ * Z t z / K z)) fun t _ => rfl

end

/-! ### Orders of mixtures -/

theorem tilted_bayes {n n' : ℕ} {W : ℕ → ℝ} {R : ℕ → ℕ → ℝ} {K : ℕ → ℝ} (hW : ∀ t < n, 0 ≤ W t) (hK : ∀ z < n', 0 < K z)
    (hR : ∀ t t', t < t' → t' < n → StrictlyTilted n' (R t) (R t')) {z z' : ℕ} (h : z < z') (hz' : z' < n') :
    Tilted n (fun t => W t * R t z / K z) (fun t => W t * R t z' / K z') ∧
      ∀ t t', t < t' → t' < n → 0 < W t → 0 < W t' →
        W t * R t z / K z * (W t' * R t' z' / K z') < W t' * R t' z / K z * (W t * R t z' / K z') := by
  have e : ∀ a b c d : ℝ, a * b / K z * (c * d / K z') = a * c / (K z * K z') * (b * d) := fun a b c d => by
    rw [div_mul_div_comm, div_mul_eq_mul_div]; ring
  have k1 := hK z (h.trans hz')
  have k2 := hK z' hz'
  refine ⟨fun t t' htt ht' => ?_, fun t t' htt ht' h1 h2 => ?_⟩
  · simp only [e]
    rw [mul_comm (W t') (W t)]
    have a := hW t (htt.trans ht')
    have b := hW t' ht'
    exact mul_le_mul_of_nonneg_left (by
      have := hR t t' htt ht' z z' h hz'
      nlinarith) (by positivity)
  · rw [e, e, mul_comm (W t') (W t)]
    exact mul_lt_mul_of_pos_left (by
      have := hR t t' htt ht' z z' h hz'
      nlinarith) (by positivity)

theorem mixed_poorer (hg : g.Proper) {a a' : ℕ → ℝ} {R : ℕ → ℕ → ℝ} (h1 : ∑ t : Fin g.nt, a t = 1) (h1' : ∑ t : Fin g.nt, a' t = 1)
    (ha : StrictlyTilted g.nt a' a) (hs : ∀ t < g.nt, ∑ z : Fin g.nz, R t z = 1)
    (hR : ∀ t t', t < t' → t' < g.nt → StrictlyTilted g.nz (R t) (R t')) (hn : 2 ≤ g.nt) (hz : 2 ≤ g.nz) :
    StrictlyRicher g.nz (fun z => ∑ t : Fin g.nt, R t z * a t) (fun z => ∑ t : Fin g.nt, R t z * a' t) ∧
      ∑ z : Fin g.nz, centre g.z z * ∑ t : Fin g.nt, R t z * a' t < ∑ z : Fin g.nz, centre g.z z * ∑ t : Fin g.nt, R t z * a t := by
  have ha' : ∀ i j, i < j → j < g.nt → a' i * a j ≤ a' j * a i := fun i j hi hj => (ha i j hi hj).le
  constructor
  · intro k k0 k1
    have sw : ∀ a : ℕ → ℝ, ∑ i ∈ Finset.range k, ∑ t : Fin g.nt, R t i * a t = ∑ t : Fin g.nt, (∑ i ∈ Finset.range k, R t i) * a t := fun a => by
      rw [Finset.sum_comm]
      exact Finset.sum_congr rfl fun t _ => (Finset.sum_mul _ _ _).symm
    rw [sw, sw]
    have st : ∀ t t', t < t' → t' < g.nt → ∑ i ∈ Finset.range k, R t i < ∑ i ∈ Finset.range k, R t' i := fun t t' htt ht' =>
      (cross_richer (hs t (htt.trans ht')) (hs t' ht') (hR t t' htt ht')).2 k k0 k1
    exact (expect_cross (v := fun t => ∑ i ∈ Finset.range k, R t i) h1' h1 ha' fun i j hi hj => (st i j hi hj).le).2
      ⟨0, 1, by omega, by omega, st 0 1 (by omega) (by omega), ha 0 1 (by omega) (by omega)⟩
  · have sw : ∀ a : ℕ → ℝ, ∑ z : Fin g.nz, centre g.z z * ∑ t : Fin g.nt, R t z * a t =
        -∑ t : Fin g.nt, (-∑ z : Fin g.nz, centre g.z z * R t z) * a t := fun a => by
      simp only [Finset.mul_sum, neg_mul, Finset.sum_neg_distrib, neg_neg, Finset.sum_mul]
      rw [Finset.sum_comm]
      exact Finset.sum_congr rfl fun t _ => Finset.sum_congr rfl fun z _ => by ring
    rw [sw, sw]
    have st : ∀ t t', t < t' → t' < g.nt → -∑ z : Fin g.nz, centre g.z z * R t z < -∑ z : Fin g.nz, centre g.z z * R t' z := fun t t' htt ht' =>
      neg_lt_neg ((expect_cross (v := centre g.z) (hs t (htt.trans ht')) (hs t' ht') (fun i j hi hj => (hR t t' htt ht' i j hi hj).le)
        fun i j hi hj => (centre_z_lt hg hi hj).le).2 ⟨0, 1, by omega, by omega, centre_z_lt hg (by omega) (by omega),
          hR t t' htt ht' 0 1 (by omega) (by omega)⟩)
    exact neg_lt_neg ((expect_cross (v := fun t => -∑ z : Fin g.nz, centre g.z z * R t z) h1' h1 ha' fun i j hi hj => (st i j hi hj).le).2
      ⟨0, 1, by omega, by omega, st 0 1 (by omega) (by omega), ha 0 1 (by omega) (by omega)⟩)

/-! ### What `set_t_dep` stores -/

/-- The stored metallicities are those of gas enriched with depletion time number `k x y` of the table. -/
def Enriched (p : Param) (g : Grid) (k : ℕ → ℕ → ℕ) : Prop :=
  ∃ B, p.logPztx = some B ∧ MArr g (['z','t','x','y'].map some) B (fun c => Num.lg (metalDens g (gasMetal g (k c.x c.y) c.t) c.z))

theorem Enriched.metals {m : Ingredients} {L : ℕ → ℕ → ℝ} {k : ℕ → ℕ → ℕ} (he : Enriched p g k) (hb : Built p g f2 center rotation)
    (h : ParamIs p g m L) (h0 : 0 ≤ g.t 0) (h1 : g.t g.nt ≤ 100) :
    (∀ t < g.nt, ∀ x < g.nx, ∀ y < g.ny, ∀ z < g.nz, m.probZ g ⟨t, 0, x, y, z⟩ = metalFrac g (gasMetal g (k x y) t) z) ∧
    (∀ t < g.nt, ∀ x y, ∀ z < g.nz, 0 < metalFrac g (gasMetal g (k x y) t) z) ∧
    (∀ t < g.nt, ∀ x y, ∑ z : Fin g.nz, metalFrac g (gasMetal g (k x y) t) z = 1) ∧
    ∀ x y t t', t < t' → t' < g.nt → StrictlyTilted g.nz (metalFrac g (gasMetal g (k x y) t)) (metalFrac g (gasMetal g (k x y) t')) := by
  have hg := h.proper
  obtain ⟨g1, -, g3⟩ := hb.grid hg
  obtain ⟨B, b1, b2⟩ := he
  obtain ⟨r, M, a1, -, -, -, a5, -⟩ := metal_answers (p := p) (ζ := fun t x y => gasMetal g (k x y) t) hb.cubeIs hg
    (fun t ht x _ y _ => (g3 _ t ht).2.1) b1 b2
  obtain ⟨r', c1, -, c3⟩ := (C32_ingredients h false).2.2
  obtain rfl : r = r' := Except.ok.inj (a1.symm.trans c1)
  refine ⟨fun t ht x hx y hy z hz => ?_, fun t ht x y z hz => ?_, fun t ht x y => metalDens_sum hg (g3 _ t ht).2.1, fun x y t t' htt ht' i j hij hj =>
    metalDens_cross hg (g3 _ t' ht').2.1 (gasMetal_age hg h0 h1 _ htt ht') hij hj⟩
  · have := c3 ⟨t, 0, x, y, z⟩ ⟨ht, hg.nv, hx, hy, hz⟩
    rw [a5 z hz t ht x hx y hy] at this
    have := Num.fin.inj this
    simpa using this.symm
  · have := (g3 (k x y) t ht).2.1
    exact mul_pos (div_pos (metalProb_pos hg this hz) (metalTotal_pos hg this)) (sub_pos.2 (hg.z z hz))

/-- The masses of the age bins. -/
theorem ages_mass {m : Ingredients} {L : ℕ → ℕ → ℝ} (h : ParamIs p g m L) : ∃ w, getP p.self "t".toList false false = .ok w ∧
    ∀ t < g.nt, w.get [t] = .fin (m.probT g ⟨t, 0, 0, 0, 0⟩) := by
  obtain ⟨A, h1, h2⟩ := h.logPt
  obtain ⟨w, w1, -, w2⟩ := getP_t h.cubeIs h.proper h1 h2 (fun t _ => h.norm.pt t) false
  refine ⟨w, w1, fun t ht => ?_⟩
  have := w2 ⟨t, 0, 0, 0, 0⟩ ⟨ht, h.proper.nv, h.proper.nx, h.proper.ny, h.proper.nz⟩
  beta_reduce at this
  simpa [coords, coord1, dvol, Ingredients.probT] using this

theorem Enriched.relation {L : ℕ → ℕ → ℝ} {k : ℕ → ℕ → ℕ} (he : Enriched p g k) (h : Sound p g f2 center rotation) (hg : g.Proper)
    (h0 : 0 ≤ g.t 0) (h1 : g.t g.nt ≤ 100) (hset : ∀ f : Field, none ∉ f.get p)
    (hl : IsArr g ['t','z'] p.cube.ssps.lightWeights (fun c => .fin (L c.t c.z))) (hL : ∀ t z, 0 ≤ L t z) :
    ∃ r M w, ∃ A : ℕ → ℕ → ℕ → ℕ → ℝ, ∃ μ : ℕ → ℕ → ℕ → ℝ, ∃ T : ℕ → ℝ,
      getP p.self "t_xz".toList false false = .ok r ∧ getMean p.self "t_xz".toList false = .ok M ∧
      getP p.self "t".toList false false = .ok w ∧ (∀ t < g.nt, w.get [t] = .fin (T t)) ∧
      (∀ t < g.nt, ∀ x < g.nx, ∀ y < g.ny, ∀ z < g.nz, r.get [t, x, y, z] = .fin (A x y z t)) ∧
      (∀ x < g.nx, ∀ y < g.ny, ∀ z < g.nz, M.get [x, y, z] = .fin (μ x y z)) ∧
      ∀ x < g.nx, ∀ y < g.ny, ∀ z z', z < z' → z' < g.nz →
        Tilted g.nt (A x y z) (A x y z') ∧ Older g.nt (A x y z) (A x y z') ∧ μ x y z' ≤ μ x y z ∧
        ((∃ t t', t < t' ∧ t' < g.nt ∧ 0 < T t ∧ 0 < T t') → μ x y z' < μ x y z) := by
  obtain ⟨m, i1, i2, i3⟩ := h.paramIs hg (L := L) hl hL hset
  obtain ⟨e1, e2, e3, e4⟩ := he.metals h.built i1 h0 h1
  have hX : ∀ t < g.nt, ∀ x < g.nx, ∀ y < g.ny, 0 < m.probX g ⟨t, 0, x, y, 0⟩ := fun t ht x hx y hy =>
    mul_pos (i2 t ht x hx y hy) (mul_pos (sub_pos.2 (hg.x x hx)) (sub_pos.2 (hg.y y hy)))
  obtain ⟨r, M, b1, -, b3, -, K, b5⟩ := ages_at_metal i1 hX fun t ht x hx y hy z hz => by
    rw [e1 t ht x hx y hy z hz]; exact e2 t ht x y z hz
  obtain ⟨w, w1, w2⟩ := ages_mass i1
  refine ⟨r, M, w, fun x y z t => m.probT g ⟨t, 0, 0, 0, 0⟩ * m.probX g ⟨t, 0, x, y, 0⟩ * m.probZ g ⟨t, 0, x, y, z⟩ / K x y z, _, _, b1, b3, w1, w2,
    fun t ht x hx y hy z hz => (b5 x hx y hy z hz).2.1 t ht, fun x hx y hy z hz => (b5 x hx y hy z hz).2.2.2, fun x hx y hy z z' hzz hz' => ?_⟩
  have hz := hzz.trans hz'
  obtain ⟨t1, t2⟩ := tilted_bayes (n := g.nt) (n' := g.nz) (W := fun t => m.probT g ⟨t, 0, 0, 0, 0⟩ * m.probX g ⟨t, 0, x, y, 0⟩)
    (R := fun t z => m.probZ g ⟨t, 0, x, y, z⟩) (K := K x y) (fun t ht => mul_nonneg (mass_t i1 ht) (hX t ht x hx y hy).le)
    (fun z hz => (b5 x hx y hy z hz).1) (fun t t' htt ht' i j hij hj => by
      beta_reduce
      have ht := htt.trans ht'
      have hi := hij.trans hj
      rw [e1 t ht x hx y hy i hi, e1 t ht x hx y hy j hj, e1 t' ht' x hx y hy i hi, e1 t' ht' x hx y hy j hj]
      exact e4 x y t t' htt ht' i j hij hj) hzz hz'
  obtain ⟨o1, o2⟩ := tilted_older hg (b5 x hx y hy z' hz').2.2.1 (b5 x hx y hy z hz).2.2.1 t1
  refine ⟨t1, o1, o2, fun ⟨t, t', htt, ht', ht1, ht2⟩ => ?_⟩
  exact (expect_cross (v := centre g.t) (b5 x hx y hy z hz).2.2.1 (b5 x hx y hy z' hz').2.2.1 t1
    fun _ _ hij hj => (centre_t_lt hg hij hj).le).2 ⟨t, t', htt, ht', centre_t_lt hg htt ht', t2 t t' htt ht'
      (mul_pos ht1 (hX t (htt.trans ht') x hx y hy)) (mul_pos ht2 (hX t' ht' x hx y hy))⟩

/-- Two calls of `set_p_t`. -/
theorem aged_twice {L : ℕ → ℕ → ℝ} {k : ℕ → ℕ → ℕ} (he : Enriched p g k) (h : Sound p g f2 center rotation) (hg : g.Proper)
    (hset : ∀ f : Field, f ≠ .age → none ∉ f.get p)
    (hl : IsArr g ['t','z'] p.cube.ssps.lightWeights (fun c => .fin (L c.t c.z))) (hL : ∀ t z, 0 ≤ L t z)
    (lmd phi phi' : ℝ) (q : ℝ × ℝ) (hv : ValidSfh lmd phi q) (hv' : ValidSfh lmd phi' q) (hp : phi < phi') :
    ∃ p1 p2 m m', p.setPt lmd phi q = .ok p1 ∧ p.setPt lmd phi' q = .ok p2 ∧ ParamIs p1 g m L ∧ ParamIs p2 g m' L ∧
      Built p1 g f2 center rotation ∧ Built p2 g f2 center rotation ∧ Enriched p1 g k ∧ Enriched p2 g k ∧
      (∀ t < g.nt, ∀ x < g.nx, ∀ y < g.ny, 0 < m.probX g ⟨t, 0, x, y, 0⟩ ∧ m'.probX g ⟨t, 0, x, y, 0⟩ = m.probX g ⟨t, 0, x, y, 0⟩) ∧
      StrictlyTilted g.nt (fun t => m'.probT g ⟨t, 0, 0, 0, 0⟩) (fun t => m.probT g ⟨t, 0, 0, 0, 0⟩) := by
  have h1 : lmd * phi < lmd * phi' := mul_lt_mul_of_pos_left hp hv.1
  have h2 : lmd * (1 - phi') ≤ lmd * (1 - phi) := mul_le_mul_of_nonneg_left (by linarith) hv.1.le
  obtain ⟨p1, p2, r, r', _, _, π, π', _, _, _, _, _, _, a1, a2, a3, -, a4, a5, -, a6, -, -, -, -, -, -, -, -, -, -, -, -, -, b2⟩ :=
    C86_older h.built.cubeIs hg lmd phi lmd phi' q hv hv' h1.le h2
  have st := (b2 (Or.inl h1)).1
  have prep : ∀ {phi : ℝ} {p1 : Param}, ValidSfh lmd phi q → p.setPt lmd phi q = .ok p1 →
      ∃ m, ParamIs p1 g m L ∧ Built p1 g f2 center rotation ∧ Enriched p1 g k ∧ (∀ t < g.nt, ∀ x < g.nx, ∀ y < g.ny, 0 < m.probX g ⟨t, 0, x, y, 0⟩) ∧
        p1.xtMass false = p.xtMass false := fun {phi p1} hv e => by
    obtain ⟨p1', k1, k2⟩ := h.setPt hg hv
    obtain rfl : p1 = p1' := Except.ok.inj (e.symm.trans k1)
    have w := setPt_writes k1
    obtain ⟨s, e', A, -, -, -, k, -⟩ := setPt_aged h.built.cubeIs hg hv.1 hv.2.1 hv.2.2.1 hv.2.2.2.1 hv.2.2.2.2.1 hv.2.2.2.2.2.1 hv.2.2.2.2.2.2
    have ep := Except.ok.inj (k1.symm.trans k)
    have hset1 : ∀ f : Field, none ∉ f.get p1 := fun f => by
      by_cases hf : f = .age
      · subst hf
        rw [ep]
        simp [Field.get]
      · rw [w.frame hf]; exact hset f hf
    obtain ⟨m, i1, i2, i3⟩ := k2.paramIs hg (L := L) (by rw [w.cube]; exact hl) hL hset1
    refine ⟨m, i1, k2.built, ?_, fun t ht x hx y hy => mul_pos (i2 t ht x hx y hy) (mul_pos (sub_pos.2 (hg.x x hx)) (sub_pos.2 (hg.y y hy))), ?_⟩
    · rw [ep]; exact he
    · rw [ep]; rfl
  obtain ⟨m, i1, i2, i3, i4, i5⟩ := prep hv a1
  obtain ⟨m', i1', i2', i3', i4', i5'⟩ := prep hv' a2
  refine ⟨p1, p2, m, m', a1, a2, i1, i1', i2, i2', i3, i3', fun t ht x hx y hy => ⟨i4 t ht x hx y hy, ?_⟩, ?_⟩
  · obtain ⟨X, x1, -⟩ := i1.xtMass false
    have x2 : p2.xtMass false = .ok X := by rw [i5', ← i5]; exact x1
    have hX : ((['x'],['t']) : PyStr × PyStr) ∈ conditionals := by decide +kernel
    have same := (getP_stored (density := false) (lw := false) (f := p2.xt) hX rfl x2).trans (getP_stored (density := false) (lw := false) (f := p1.xt) hX rfl x1).symm
    obtain ⟨u, u1, -, u3⟩ := (C32_ingredients i1 false).1
    obtain ⟨u', v1, -, v3⟩ := (C32_ingredients i1' false).1
    obtain rfl : u = u' := Except.ok.inj (u1.symm.trans (same.symm.trans v1))
    have hc : g.Has ⟨t, 0, x, y, 0⟩ := ⟨ht, hg.nv, hx, hy, hg.nz⟩
    have := Num.fin.inj ((v3 _ hc).symm.trans (u3 _ hc))
    simpa using this
  · obtain ⟨w, w1, w2⟩ := ages_mass i1
    obtain ⟨w', w1', w2'⟩ := ages_mass i1'
    obtain rfl : r = w := Except.ok.inj (a3.symm.trans w1)
    obtain rfl : r' = w' := Except.ok.inj (a5.symm.trans w1')
    have e1 : ∀ t < g.nt, m.probT g ⟨t, 0, 0, 0, 0⟩ = π t := fun t ht => Num.fin.inj ((w2 t ht).symm.trans (a4 t ht))
    have e2 : ∀ t < g.nt, m'.probT g ⟨t, 0, 0, 0, 0⟩ = π' t := fun t ht => Num.fin.inj ((w2' t ht).symm.trans (a6 t ht))
    intro i j hij hj
    beta_reduce
    rw [e1 i (hij.trans hj), e1 j hj, e2 i (hij.trans hj), e2 j hj]
    exact st i j hij hj

theorem Enriched.poorer {L : ℕ → ℕ → ℝ} {k : ℕ → ℕ → ℕ} (he : Enriched p g k) (h : Sound p g f2 center rotation) (hg : g.Proper)
    (h0 : 0 ≤ g.t 0) (h1 : g.t g.nt ≤ 100) (hn : 2 ≤ g.nt) (hz : 2 ≤ g.nz) (hset : ∀ f : Field, f ≠ .age → none ∉ f.get p)
    (hl : IsArr g ['t','z'] p.cube.ssps.lightWeights (fun c => .fin (L c.t c.z))) (hL : ∀ t z, 0 ≤ L t z)
    (lmd phi phi' : ℝ) (q : ℝ × ℝ) (hv : ValidSfh lmd phi q) (hv' : ValidSfh lmd phi' q) (hp : phi < phi') :
    ∃ p1 p2 r r' M M', ∃ ζ ζ' : ℕ → ℕ → ℕ → ℝ, ∃ μ μ' : ℕ → ℕ → ℝ, p.setPt lmd phi q = .ok p1 ∧ p.setPt lmd phi' q = .ok p2 ∧
      getP p1.self "z_x".toList false false = .ok r ∧ getP p2.self "z_x".toList false false = .ok r' ∧
      getMean p1.self "z_x".toList false = .ok M ∧ getMean p2.self "z_x".toList false = .ok M' ∧
      (∀ x < g.nx, ∀ y < g.ny, ∀ z < g.nz, r.get [z, x, y] = .fin (ζ x y z) ∧ r'.get [z, x, y] = .fin (ζ' x y z)) ∧
      (∀ x < g.nx, ∀ y < g.ny, M.get [x, y] = .fin (μ x y) ∧ M'.get [x, y] = .fin (μ' x y)) ∧
      ∀ x < g.nx, ∀ y < g.ny, StrictlyRicher g.nz (ζ x y) (ζ' x y) ∧ μ' x y < μ x y := by
  obtain ⟨p1, p2, m, m', a1, a2, i1, i1', b1, b2, e1, e2, hX, hT⟩ := aged_twice he h hg hset hl hL lmd phi phi' q hv hv' hp
  obtain ⟨c1, c2, c3, c4⟩ := e1.metals b1 i1 h0 h1
  obtain ⟨c1', -, -, -⟩ := e2.metals b2 i1' h0 h1
  obtain ⟨r, M, r1, -, r2, -, a, K, r3⟩ := metals_in_pixel i1 fun t ht x hx y hy => (hX t ht x hx y hy).1
  obtain ⟨r', M', r1', -, r2', -, a', K', r3'⟩ := metals_in_pixel i1' fun t ht x hx y hy => by
    rw [(hX t ht x hx y hy).2]; exact (hX t ht x hx y hy).1
  have f1 : ∀ x < g.nx, ∀ y < g.ny, ∀ z < g.nz, ∑ t : Fin g.nt, m.probZ g ⟨t, 0, x, y, z⟩ * a x y t =
      ∑ t : Fin g.nt, metalFrac g (gasMetal g (k x y) t) z * a x y t := fun x hx y hy z hz =>
    Finset.sum_congr rfl fun t _ => by rw [c1 t t.2 x hx y hy z hz]
  have f2 : ∀ x < g.nx, ∀ y < g.ny, ∀ z < g.nz, ∑ t : Fin g.nt, m'.probZ g ⟨t, 0, x, y, z⟩ * a' x y t =
      ∑ t : Fin g.nt, metalFrac g (gasMetal g (k x y) t) z * a' x y t := fun x hx y hy z hz =>
    Finset.sum_congr rfl fun t _ => by rw [c1' t t.2 x hx y hy z hz]
  refine ⟨p1, p2, r, r', M, M', fun x y z => ∑ t : Fin g.nt, metalFrac g (gasMetal g (k x y) t) z * a x y t,
    fun x y z => ∑ t : Fin g.nt, metalFrac g (gasMetal g (k x y) t) z * a' x y t,
    fun x y => ∑ z : Fin g.nz, centre g.z z * ∑ t : Fin g.nt, metalFrac g (gasMetal g (k x y) t) z * a x y t,
    fun x y => ∑ z : Fin g.nz, centre g.z z * ∑ t : Fin g.nt, metalFrac g (gasMetal g (k x y) t) z * a' x y t,
    a1, a2, r1, r1', r2, r2', fun x hx y hy z hz => ⟨?_, ?_⟩, fun x hx y hy => ⟨?_, ?_⟩, fun x hx y hy => ?_⟩
  · rw [(r3 x hx y hy).2.2.2.1 z hz, f1 x hx y hy z hz]
  · rw [(r3' x hx y hy).2.2.2.1 z hz, f2 x hx y hy z hz]
  · rw [(r3 x hx y hy).2.2.2.2]
    exact congrArg _ (Finset.sum_congr rfl fun z _ => by rw [f1 x hx y hy z z.2])
  · rw [(r3' x hx y hy).2.2.2.2]
    exact congrArg _ (Finset.sum_congr rfl fun z _ => by rw [f2 x hx y hy z z.2])
  · refine mixed_poorer hg (r3 x hx y hy).2.2.1 (r3' x hx y hy).2.2.1 (fun i j hij hj => ?_) (fun t ht => c3 t ht x y) (c4 x y) hn hz
    have hi := hij.trans hj
    rw [(r3 x hx y hy).2.1, (r3 x hx y hy).2.1, (r3' x hx y hy).2.1, (r3' x hx y hy).2.1, (hX i hi x hx y hy).2, (hX j hj x hx y hy).2]
    have e : ∀ u v w s : ℝ, u * v / K' x y * (w * s / K x y) = v * s / (K' x y * K x y) * (u * w) := fun u v w s => by
      rw [div_mul_div_comm, div_mul_eq_mul_div]; ring
    rw [e, e, mul_comm (m.probX g ⟨j, 0, x, y, 0⟩)]
    have := (hX i hi x hx y hy).1
    have := (hX j hj x hx y hy).1
    have := (r3 x hx y hy).1
    have := (r3' x hx y hy).1
    exact mul_lt_mul_of_pos_left (hT i j hij hj) (by positivity)

/-! ### Disks and streams -/

theorem metal_set {A B : Arr Num} (hset : ∀ f : Field, f ≠ .metal → none ∉ f.get p) (f : Field) :
    none ∉ f.get { p with tDep := some A, logPztx := some B } := by
  cases f with
  | metal => simp [Field.get]
  | space => exact hset .space (by decide)
  | age => exact hset .age (by decide)
  | mean => exact hset .mean (by decide)
  | disp => exact hset .disp (by decide)

/-- In a disk (`Sound`: made by the constructor and setters; all other parts set) after `set_t_dep`: in every pixel the
metal-poor stars are at least as old as the metal-rich ones, by the distribution of their ages (`A x y z`, from `get_p('t_xz')`) and
by their mean age (`μ x y z`); strictly so if stars of two ages exist at all. -/
theorem C89_disk {L : ℕ → ℕ → ℝ} (h : Sound p g f2 center rotation) (hg : g.Proper) (h0 : 0 ≤ g.t 0) (h1 : g.t g.nt ≤ 100)
    (hset : ∀ f : Field, f ≠ .metal → none ∉ f.get p)
    (hl : IsArr g ['t','z'] p.cube.ssps.lightWeights (fun c => .fin (L c.t c.z))) (hL : ∀ t z, 0 ≤ L t z)
    (hx : ∃ c, g.Has c ∧ frameX g center rotation c ≠ 0)
    (q alpha tIn tOut tMin tMax : ℝ) (hq : 0 < q) (hal : 0 ≤ alpha) (ha : 0.1 ≤ tMin) (hb' : tMax ≤ 13)
    (h3 : tMin ≤ tIn ∧ tIn ≤ tMax) (h4 : tMin ≤ tOut ∧ tOut ≤ tMax) :
    ∃ p' r M w, ∃ A : ℕ → ℕ → ℕ → ℕ → ℝ, ∃ μ : ℕ → ℕ → ℕ → ℝ, ∃ T : ℕ → ℝ,
      GrowingDisk.setTDep p q alpha tIn tOut tMin tMax = .ok p' ∧
      getP p'.self "t_xz".toList false false = .ok r ∧ getMean p'.self "t_xz".toList false = .ok M ∧
      getP p'.self "t".toList false false = .ok w ∧ (∀ t < g.nt, w.get [t] = .fin (T t)) ∧
      (∀ t < g.nt, ∀ x < g.nx, ∀ y < g.ny, ∀ z < g.nz, r.get [t, x, y, z] = .fin (A x y z t)) ∧
      (∀ x < g.nx, ∀ y < g.ny, ∀ z < g.nz, M.get [x, y, z] = .fin (μ x y z)) ∧
      ∀ x < g.nx, ∀ y < g.ny, ∀ z z', z < z' → z' < g.nz →
        Tilted g.nt (A x y z) (A x y z') ∧ Older g.nt (A x y z) (A x y z') ∧ μ x y z' ≤ μ x y z ∧
        ((∃ t t', t < t' ∧ t' < g.nt ∧ 0 < T t ∧ 0 < T t') → μ x y z' < μ x y z) := by
  obtain ⟨m, -, hm⟩ := h.built.amax hg
  obtain ⟨c, hc, hne⟩ := hx
  obtain ⟨A, B, k1, -, k2⟩ := disk_setTDep h.built hg hq hal ha hb' h3 h4 hm ((abs_pos.2 hne).trans_le (hm.2 c hc))
  have he : Enriched { p with tDep := some A, logPztx := some B } g fun x y => Param.nearest p.zGrid (A.get [x, y]) := ⟨B, rfl, k2⟩
  obtain ⟨r, M, w, A', μ, T, k⟩ := he.relation (L := L) (h.withMetal hg (z := fun _ x y => Param.nearest p.zGrid (A.get [x, y])) k2) hg h0 h1
    (metal_set hset) hl hL
  exact ⟨_, r, M, w, A', μ, T, k1, k⟩

/-- The same disk, followed by `set_p_t` with `phi` or with a greater `phi'`: in every pixel the stars of the latter, older, disk are
strictly poorer in metals. -/
theorem C89_disk_older {L : ℕ → ℕ → ℝ} (h : Sound p g f2 center rotation) (hg : g.Proper) (h0 : 0 ≤ g.t 0) (h1 : g.t g.nt ≤ 100)
    (hn : 2 ≤ g.nt) (hz : 2 ≤ g.nz) (hset : ∀ f : Field, f ≠ .metal → none ∉ f.get p)
    (hl : IsArr g ['t','z'] p.cube.ssps.lightWeights (fun c => .fin (L c.t c.z))) (hL : ∀ t z, 0 ≤ L t z)
    (hx : ∃ c, g.Has c ∧ frameX g center rotation c ≠ 0)
    (q alpha tIn tOut tMin tMax : ℝ) (hq : 0 < q) (hal : 0 ≤ alpha) (ha : 0.1 ≤ tMin) (hb' : tMax ≤ 13)
    (h3 : tMin ≤ tIn ∧ tIn ≤ tMax) (h4 : tMin ≤ tOut ∧ tOut ≤ tMax)
    (lmd phi phi' : ℝ) (cdf : ℝ × ℝ) (hv : ValidSfh lmd phi cdf) (hv' : ValidSfh lmd phi' cdf) (hp : phi < phi') :
    ∃ p' p1 p2 r r' M M', ∃ ζ ζ' : ℕ → ℕ → ℕ → ℝ, ∃ μ μ' : ℕ → ℕ → ℝ,
      GrowingDisk.setTDep p q alpha tIn tOut tMin tMax = .ok p' ∧ p'.setPt lmd phi cdf = .ok p1 ∧ p'.setPt lmd phi' cdf = .ok p2 ∧
      getP p1.self "z_x".toList false false = .ok r ∧ getP p2.self "z_x".toList false false = .ok r' ∧
      getMean p1.self "z_x".toList false = .ok M ∧ getMean p2.self "z_x".toList false = .ok M' ∧
      (∀ x < g.nx, ∀ y < g.ny, ∀ z < g.nz, r.get [z, x, y] = .fin (ζ x y z) ∧ r'.get [z, x, y] = .fin (ζ' x y z)) ∧
      (∀ x < g.nx, ∀ y < g.ny, M.get [x, y] = .fin (μ x y) ∧ M'.get [x, y] = .fin (μ' x y)) ∧
      ∀ x < g.nx, ∀ y < g.ny, StrictlyRicher g.nz (ζ x y) (ζ' x y) ∧ μ' x y < μ x y := by
  obtain ⟨m, -, hm⟩ := h.built.amax hg
  obtain ⟨c, hc, hne⟩ := hx
  obtain ⟨A, B, k1, -, k2⟩ := disk_setTDep h.built hg hq hal ha hb' h3 h4 hm ((abs_pos.2 hne).trans_le (hm.2 c hc))
  have he : Enriched { p with tDep := some A, logPztx := some B } g fun x y => Param.nearest p.zGrid (A.get [x, y]) := ⟨B, rfl, k2⟩
  obtain ⟨p1, p2, r, r', M, M', ζ, ζ', μ, μ', k⟩ := he.poorer (L := L) (h.withMetal hg (z := fun _ x y => Param.nearest p.zGrid (A.get [x, y])) k2) hg h0 h1
    hn hz (fun f _ => metal_set hset f) hl hL lmd phi phi' cdf hv hv' hp
  exact ⟨_, p1, p2, r, r', M, M', ζ, ζ', μ, μ', k1, k⟩

/-- A stream has one depletion time, so these relations hold in it as a whole: after `set_t_dep` its metal-poor stars are older
(`A z` from `get_p('t_z')`, `μ z` from `get_mean('t_z')`). -/
theorem C89_stream {s : Stream} {L : ℕ → ℕ → ℝ} (h : SoundStream s g f2 center rotation) (hg : g.Proper) (h0 : 0 ≤ g.t 0) (h1 : g.t g.nt ≤ 100)
    (hset : ∀ f : Field, f ≠ .metal → none ∉ f.get s.base)
    (hl : IsArr g ['t','z'] s.base.cube.ssps.lightWeights (fun c => .fin (L c.t c.z))) (hL : ∀ t z, 0 ≤ L t z) (τ : ℝ) :
    ∃ s' r M w, ∃ A : ℕ → ℕ → ℝ, ∃ μ : ℕ → ℝ, ∃ T : ℕ → ℝ, s.setTDep τ = .ok s' ∧
      getP s'.base.self "t_z".toList false false = .ok r ∧ getMean s'.base.self "t_z".toList false = .ok M ∧
      getP s'.base.self "t".toList false false = .ok w ∧ (∀ t < g.nt, w.get [t] = .fin (T t)) ∧
      (∀ t < g.nt, ∀ z < g.nz, r.get [t, z] = .fin (A z t)) ∧ (∀ z < g.nz, M.get [z] = .fin (μ z)) ∧
      ∀ z z', z < z' → z' < g.nz → Tilted g.nt (A z) (A z') ∧ Older g.nt (A z) (A z') ∧ μ z' ≤ μ z ∧
        ((∃ t t', t < t' ∧ t' < g.nt ∧ 0 < T t ∧ 0 < T t') → μ z' < μ z) := by
  obtain ⟨B, k1, k2⟩ := stream_setTDep h.base.built hg τ
  set p : Param := { s.base with tDep := some (full [s.base.cube.nx, s.base.cube.ny] (.fin τ)), logPztx := some B } with hp
  have he : Enriched p g fun _ _ => Param.nearest s.base.zGrid (.fin τ) := ⟨B, rfl, k2⟩
  have hs : Sound p g f2 center rotation := h.base.withMetal hg (z := fun _ _ _ => Param.nearest s.base.zGrid (.fin τ)) k2
  obtain ⟨m, i1, i2, i3⟩ := hs.paramIs hg (L := L) hl hL (metal_set hset)
  obtain ⟨e1, e2, e3, e4⟩ := he.metals hs.built i1 h0 h1
  obtain ⟨r, M, -, -, b1, b2, -, -, -, -, K, b5⟩ := metals_overall i1 (Z := fun t z => metalFrac g (gasMetal g (Param.nearest s.base.zGrid (.fin τ)) t) z)
    (fun t ht z hz => e2 t ht 0 0 z hz) e1
  obtain ⟨w, w1, w2⟩ := ages_mass i1
  refine ⟨_, r, M, w, fun z t => m.probT g ⟨t, 0, 0, 0, 0⟩ * metalFrac g (gasMetal g (Param.nearest s.base.zGrid (.fin τ)) t) z / K z, _, _, k1, b1, b2, w1, w2,
    fun t ht z hz => (b5 z hz).2.1 t ht, fun z hz => (b5 z hz).2.2.2, fun z z' hzz hz' => ?_⟩
  have hz := hzz.trans hz'
  obtain ⟨t1, t2⟩ := tilted_bayes (n := g.nt) (n' := g.nz) (W := fun t => m.probT g ⟨t, 0, 0, 0, 0⟩)
    (R := fun t z => metalFrac g (gasMetal g (Param.nearest s.base.zGrid (.fin τ)) t) z) (K := K) (fun t ht => mass_t i1 ht)
    (fun z hz => (b5 z hz).1) (e4 0 0) hzz hz'
  obtain ⟨o1, o2⟩ := tilted_older hg (b5 z' hz').2.2.1 (b5 z hz).2.2.1 t1
  exact ⟨t1, o1, o2, fun ⟨t, t', htt, ht', ht1, ht2⟩ => (expect_cross (v := centre g.t) (b5 z hz).2.2.1 (b5 z' hz').2.2.1 t1
    fun _ _ hij hj => (centre_t_lt hg hij hj).le).2 ⟨t, t', htt, ht', centre_t_lt hg htt ht', t2 t t' htt ht' ht1 ht2⟩⟩

/-- The same stream, followed by `set_p_t` with `phi` or a greater `phi'`: the latter is strictly poorer as a whole. -/
theorem C89_stream_older {s : Stream} {L : ℕ → ℕ → ℝ} (h : SoundStream s g f2 center rotation) (hg : g.Proper) (h0 : 0 ≤ g.t 0) (h1 : g.t g.nt ≤ 100)
    (hn : 2 ≤ g.nt) (hz : 2 ≤ g.nz) (hset : ∀ f : Field, f ≠ .metal → none ∉ f.get s.base)
    (hl : IsArr g ['t','z'] s.base.cube.ssps.lightWeights (fun c => .fin (L c.t c.z))) (hL : ∀ t z, 0 ≤ L t z) (τ : ℝ)
    (lmd phi phi' : ℝ) (cdf : ℝ × ℝ) (hv : ValidSfh lmd phi cdf) (hv' : ValidSfh lmd phi' cdf) (hp : phi < phi') :
    ∃ s' p1 p2 r r' M M', ∃ ζ ζ' : ℕ → ℝ, ∃ μ μ' : ℝ, s.setTDep τ = .ok s' ∧
      s'.base.setPt lmd phi cdf = .ok p1 ∧ s'.base.setPt lmd phi' cdf = .ok p2 ∧
      getP p1.self "z".toList false false = .ok r ∧ getP p2.self "z".toList false false = .ok r' ∧
      getMean p1.self "z".toList false = .ok M ∧ getMean p2.self "z".toList false = .ok M' ∧
      (∀ z < g.nz, r.get [z] = .fin (ζ z) ∧ r'.get [z] = .fin (ζ' z)) ∧ M.get [] = .fin μ ∧ M'.get [] = .fin μ' ∧
      StrictlyRicher g.nz ζ ζ' ∧ μ' < μ := by
  obtain ⟨B, k1, k2⟩ := stream_setTDep h.base.built hg τ
  have he : Enriched { s.base with tDep := some (full [s.base.cube.nx, s.base.cube.ny] (.fin τ)), logPztx := some B } g
    fun _ _ => Param.nearest s.base.zGrid (.fin τ) := ⟨B, rfl, k2⟩
  obtain ⟨p1, p2, m, m', a1, a2, i1, i1', b1, b2, e1, e2, hX, hT⟩ := aged_twice he
    (h.base.withMetal hg (z := fun _ _ _ => Param.nearest s.base.zGrid (.fin τ)) k2) hg (fun f _ => metal_set hset f) hl hL lmd phi phi' cdf hv hv' hp
  obtain ⟨c1, c2, c3, c4⟩ := e1.metals b1 i1 h0 h1
  obtain ⟨c1', -, -, -⟩ := e2.metals b2 i1' h0 h1
  obtain ⟨-, -, r, M, -, -, d1, d2, d3, d4, -⟩ := metals_overall i1 (fun t ht z hz => c2 t ht 0 0 z hz) c1
  obtain ⟨-, -, r', M', -, -, d1', d2', d3', d4', -⟩ := metals_overall i1' (fun t ht z hz => c2 t ht 0 0 z hz) c1'
  obtain ⟨f1, f2⟩ := mixed_poorer hg (a := fun t => m.probT g ⟨t, 0, 0, 0, 0⟩) (a' := fun t => m'.probT g ⟨t, 0, 0, 0, 0⟩)
    i1.norm.sumT i1'.norm.sumT hT (fun t ht => c3 t ht 0 0) (c4 0 0) hn hz
  exact ⟨_, p1, p2, r, r', M, M', _, _, _, _, k1, a1, a2, d1, d1', d2, d2', fun z hz => ⟨d3 z hz, d3' z hz⟩, d4, d4', f1, f2⟩

/-- A complete disk on which `set_p_t` and then `set_t_dep` is called: in every pixel the mean age strictly falls with metallicity. -/
theorem C89_strict {L : ℕ → ℕ → ℝ} (h : Sound p g f2 center rotation) (hg : g.Proper) (h0 : 0 ≤ g.t 0) (h1 : g.t g.nt ≤ 100) (hn : 2 ≤ g.nt)
    (hset : ∀ f : Field, none ∉ f.get p)
    (hl : IsArr g ['t','z'] p.cube.ssps.lightWeights (fun c => .fin (L c.t c.z))) (hL : ∀ t z, 0 ≤ L t z)
    (hx : ∃ c, g.Has c ∧ frameX g center rotation c ≠ 0) (lmd phi : ℝ) (cdf : ℝ × ℝ) (hv : ValidSfh lmd phi cdf)
    (q alpha tIn tOut tMin tMax : ℝ) (hq : 0 < q) (hal : 0 ≤ alpha) (ha : 0.1 ≤ tMin) (hb' : tMax ≤ 13)
    (h3 : tMin ≤ tIn ∧ tIn ≤ tMax) (h4 : tMin ≤ tOut ∧ tOut ≤ tMax) :
    ∃ p1 p2 M, ∃ μ : ℕ → ℕ → ℕ → ℝ, p.setPt lmd phi cdf = .ok p1 ∧ GrowingDisk.setTDep p1 q alpha tIn tOut tMin tMax = .ok p2 ∧
      getMean p2.self "t_xz".toList false = .ok M ∧ (∀ x < g.nx, ∀ y < g.ny, ∀ z < g.nz, M.get [x, y, z] = .fin (μ x y z)) ∧
      ∀ x < g.nx, ∀ y < g.ny, ∀ z z', z < z' → z' < g.nz → μ x y z' < μ x y z := by
  obtain ⟨v1, v2, v3, v4, v5, v6, v7⟩ := id hv
  obtain ⟨p1, k1, k2⟩ := h.setPt hg hv
  have w := setPt_writes k1
  obtain ⟨s, e, A, -, -, -, k3, k4⟩ := setPt_aged h.built.cubeIs hg v1 v2 v3 v4 v5 v6 v7
  have ep := Except.ok.inj (k1.symm.trans k3)
  have hset1 : ∀ f : Field, none ∉ f.get p1 := fun f => by
    by_cases hf : f = .age
    · subst hf; rw [ep]; simp [Field.get]
    · rw [w.frame hf]; exact hset f
  obtain ⟨p2, r, M, W, A', μ, T, c1, -, c3, c4, c5, -, c7, c8⟩ := C89_disk k2 hg h0 h1 (fun f _ => hset1 f) (L := L) (by rw [w.cube]; exact hl) hL hx
    q alpha tIn tOut tMin tMax hq hal ha hb' h3 h4
  have w2 := disk_writes (p := p1) (k := .setTDep q alpha tIn tOut tMin tMax) c1
  have lp : p2.logPt = some A := by
    have : p2.logPt = p1.logPt := by cases w2; rfl
    rw [this, ep]
  have hw : ∀ t < g.nt, 0 < width g.t t := fun t ht => sub_pos.2 (hg.t t ht)
  have hT : ∀ t < g.nt, 0 < T t := fun t ht => by
    obtain ⟨r, y1, -, y2⟩ := getP_t (p := p2) (by rw [w2.cube, w.cube]; exact h.built.cubeIs) hg lp
      (q := fun t => ageBinProb g (lmd * phi) (lmd * (1 - phi)) t / width g.t t) k4
      (fun t ht => div_nonneg (ageBinProb_nonneg _ _ _ _) (hw t ht).le) false
    obtain rfl : W = r := Except.ok.inj (c4.symm.trans y1)
    have := y2 ⟨t, 0, 0, 0, 0⟩ ⟨ht, hg.nv, hg.nx, hg.ny, hg.nz⟩
    simp only [coords, coord1, List.flatMap_cons, List.flatMap_nil, if_true, List.append_nil] at this
    rw [c5 t ht] at this
    have := Num.fin.inj this
    rw [this]
    simp only [dvol, Bool.false_eq_true, if_false, div_one]
    rw [div_mul_cancel₀ _ (hw t ht).ne']
    exact ageBinProb_pos hg (mul_pos v1 v2) (mul_pos v1 (by linarith)) ht
  exact ⟨p1, p2, M, μ, k1, c1, c3, c7, fun x hx y hy z z' hzz hz' =>
    (c8 x hx y hy z z' hzz hz').2.2.2 ⟨0, 1, by omega, by omega, hT 0 (by omega), hT 1 (by omega)⟩⟩

/-! ### The hypotheses are met -/

/-- A disk on the example grid with all parts set. -/
theorem complete_demo : ∃ p : Param, Sound p demoGrid 1 (0, 0) 0 ∧ (∀ f : Field, none ∉ f.get p) ∧
    ∃ L : ℕ → ℕ → ℝ, IsArr demoGrid ['t','z'] p.cube.ssps.lightWeights (fun c => .fin (L c.t c.z)) ∧ ∀ t z, 0 < L t z := by
  obtain ⟨cube, -, hc, hs⟩ := demoCube_exists
  obtain ⟨p0, k1, k2, k3, k4⟩ := init_sound hc demoGrid_proper 1 (0, 0) 0
  rcases disk_history demoGrid_proper demo_offcentre demoCalls p0 k3 demoCalls_valid with ⟨p, j1, j2, j3⟩ | ⟨-, -, j⟩
  · have hf : ∀ f : Field, none ∉ f.get p := fun f => by
      rw [(set_fields (base := fun p => p) (fun {s s' k} h => disk_writes h) demoCalls p0 p j1
        (fun f => Or.inr (k4 f)) f).1]
      right
      cases f <;> simp [demoCalls, DiskCall.field]
    exact ⟨p, j2, hf, _, demo_light (cube := p.cube) (by rw [j3, k2, hs]), demoL_pos⟩
  · exfalso
    obtain ⟨pre, k, post, j1, j2, j3⟩ := j
    cases pre with
    | nil => simp only [List.nil_append, demoCalls, List.cons.injEq] at j1; rw [← j1.1] at j3; exact j3.1 rfl
    | cons k' pre =>
      simp only [List.cons_append, demoCalls, List.cons.injEq] at j1
      exact j2 k' (by simp) (by rw [← j1.1]; rfl)

/-- A stream on the example grid with all parts set. -/
theorem complete_stream : ∃ s : Stream, SoundStream s demoGrid 1 (0, 0) 0 ∧ (∀ f : Field, none ∉ f.get s.base) ∧
    ∃ L : ℕ → ℕ → ℝ, IsArr demoGrid ['t','z'] s.base.cube.ssps.lightWeights (fun c => .fin (L c.t c.z)) ∧ ∀ t z, 0 < L t z := by
  obtain ⟨cube, -, hc, hs⟩ := demoCube_exists
  have hpi := Real.two_le_pi
  let ks : List StreamCall := [.setPt 15 0.5 (0.05, 0.95), .setPxt (0, 1) (1 / 2, 1) (1 / 4) 10, .setTDep 5, .setMuV (-50, 100), .setSigV 20]
  have hv : ∀ c ∈ ks, c.Valid := by
    intro c hc
    simp only [ks, List.mem_cons, List.not_mem_nil, or_false] at hc
    rcases hc with rfl | rfl | rfl | rfl | rfl
    · simp only [StreamCall.Valid, ValidSfh]; norm_num
    · refine ⟨⟨by linarith, by linarith⟩, ⟨?_, ?_⟩, by norm_num, by norm_num, by norm_num⟩
      · show -Real.pi ≤ 1; linarith
      · show 1 ≤ Real.pi; linarith
    · trivial
    · trivial
    · show (0:ℝ) < 20; norm_num
  obtain ⟨p0, k1, k2, k3, k4⟩ := init_sound hc demoGrid_proper 1 (0, 0) 0
  have n : p0.logPxt = none := k4 .space _ (by simp [Field.get])
  rcases stream_history demoGrid_proper ks ⟨p0, none⟩ ⟨k3, by simp, by simp [n]⟩ hv with ⟨s, j1, j2, j3⟩ | ⟨-, -, j⟩
  · have hf : ∀ f : Field, none ∉ f.get s.base := fun f => by
      rw [(set_fields (run := fun s k => StreamCall.run s k) (base := fun s : Stream => s.base) (fun {s s' k} h => (stream_writes h).1) ks ⟨p0, none⟩ s j1
        (fun f => Or.inr (k4 f)) f).1]
      right
      cases f <;> simp [ks, StreamCall.field]
    exact ⟨s, j2, hf, _, demo_light (cube := s.base.cube) (by rw [j3, k2, hs]), demoL_pos⟩
  · exfalso
    obtain ⟨pre, k, post, j1, j2, j3⟩ := j
    match pre, j1, j2 with
    | [], j1, _ => simp only [List.nil_append, ks, List.cons.injEq] at j1; rw [← j1.1] at j3; cases j3
    | [_], j1, _ => simp only [List.cons_append, List.nil_append, ks, List.cons.injEq] at j1; rw [← j1.2.1] at j3; cases j3
    | k1 :: k2 :: pre, j1, j2 =>
      simp only [List.cons_append, ks, List.cons.injEq] at j1
      exact j2 k2 (by simp) (by rw [← j1.2.1]; rfl)

/-- In a disk with depletion times from 1 to 8: mean ages by metallicity in a pixel, and mean metallicities in a pixel for two `phi`. -/
example : ∃ (p p1 p2 p3 p4 p5 : Param) (M N N' : Arr Num) (μ μ' ν ν' : ℝ), Sound p demoGrid 1 (0, 0) 0 ∧
    p.setPt 15 0.5 (0.05, 0.95) = .ok p1 ∧ GrowingDisk.setTDep p1 0.5 1 1 8 0.1 10 = .ok p2 ∧ getMean p2.self "t_xz".toList false = .ok M ∧
    M.get [3, 2, 0] = .fin μ ∧ M.get [3, 2, 2] = .fin μ' ∧ μ' < μ ∧ GrowingDisk.setTDep p 0.5 1 1 8 0.1 10 = .ok p3 ∧
    p3.setPt 2 0.4 (0.05, 0.95) = .ok p4 ∧ p3.setPt 2 0.8 (0.05, 0.95) = .ok p5 ∧ getMean p4.self "z_x".toList false = .ok N ∧
    getMean p5.self "z_x".toList false = .ok N' ∧ N.get [3, 2] = .fin ν ∧ N'.get [3, 2] = .fin ν' ∧ ν' < ν := by
  obtain ⟨p, j, hf, L, hl, hL⟩ := complete_demo
  have s3 : 3 < demoGrid.nx := by norm_num [demoGrid, cubeGrid]
  have s2 : 2 < demoGrid.ny := by norm_num [demoGrid, cubeGrid]
  have s1 : 2 < demoGrid.nz := by norm_num [demoGrid, cubeGrid]
  obtain ⟨p1, p2, M, μ, a1, a2, a3, a4, a5⟩ := C89_strict j demoGrid_proper demo_young.1 demo_young.2 (by norm_num [demoGrid, cubeGrid]) hf hl
    (fun t z => (hL t z).le) demo_offcentre 15 0.5 (0.05, 0.95) (by norm_num [ValidSfh]) 0.5 1 1 8 0.1 10 (by norm_num) (by norm_num) (by norm_num)
    (by norm_num) (by norm_num) (by norm_num)
  obtain ⟨p3, p4, p5, _, _, N, N', _, _, ν, ν', b1, b2, b3, -, -, b6, b7, -, b9, b10⟩ := C89_disk_older j demoGrid_proper demo_young.1 demo_young.2
    (by norm_num [demoGrid, cubeGrid]) (by norm_num [demoGrid, cubeGrid]) (fun f _ => hf f) hl
    (fun t z => (hL t z).le) demo_offcentre 0.5 1 1 8 0.1 10 (by norm_num) (by norm_num) (by norm_num)
    (by norm_num) (by norm_num) (by norm_num) 2 0.4 0.8 (0.05, 0.95) (by norm_num [ValidSfh]) (by norm_num [ValidSfh]) (by norm_num)
  exact ⟨p, p1, p2, p3, p4, p5, M, N, N', _, _, _, _, j, a1, a2, a3, a4 3 s3 2 s2 0 (by omega), a4 3 s3 2 s2 2 s1, a5 3 s3 2 s2 0 2 (by omega) s1, b1, b2, b3,
    b6, b7, (b9 3 s3 2 s2).1, (b9 3 s3 2 s2).2, (b10 3 s3 2 s2).2⟩

/-- A stream. -/
example : ∃ (s s' : Stream) (p1 p2 : Param) (M N N' : Arr Num) (μ μ' ν ν' : ℝ), SoundStream s demoGrid 1 (0, 0) 0 ∧
    s.setTDep 5 = .ok s' ∧ getMean s'.base.self "t_z".toList false = .ok M ∧ M.get [0] = .fin μ ∧ M.get [2] = .fin μ' ∧ μ' ≤ μ ∧
    s'.base.setPt 2 0.4 (0.05, 0.95) = .ok p1 ∧ s'.base.setPt 2 0.8 (0.05, 0.95) = .ok p2 ∧ getMean p1.self "z".toList false = .ok N ∧
    getMean p2.self "z".toList false = .ok N' ∧ N.get [] = .fin ν ∧ N'.get [] = .fin ν' ∧ ν' < ν := by
  obtain ⟨s, j, hf, L, hl, hL⟩ := complete_stream
  have s1 : 2 < demoGrid.nz := by norm_num [demoGrid, cubeGrid]
  obtain ⟨s', r, M, w, A, μ, T, a1, -, a3, -, -, -, a7, a8⟩ := C89_stream j demoGrid_proper demo_young.1 demo_young.2 (fun f _ => hf f) hl
    (fun t z => (hL t z).le) 5
  obtain ⟨s'', p1, p2, _, _, N, N', _, _, ν, ν', b1, b2, b3, -, -, b6, b7, -, b9, b10, -, b11⟩ := C89_stream_older j demoGrid_proper demo_young.1 demo_young.2
    (by norm_num [demoGrid, cubeGrid]) (by norm_num [demoGrid, cubeGrid]) (fun f _ => hf f) hl
    (fun t z => (hL t z).le) 5 2 0.4 0.8 (0.05, 0.95) (by norm_num [ValidSfh]) (by norm_num [ValidSfh]) (by norm_num)
  obtain rfl := Except.ok.inj (a1.symm.trans b1)
  exact ⟨s, s', p1, p2, M, N, N', _, _, ν, ν', j, a1, a3, a7 0 (by omega), a7 2 s1, (a8 0 2 (by omega) s1).2.2.1, b2, b3, b6, b7, b9, b10, b11⟩

end PKM
