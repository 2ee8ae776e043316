import Verif.Props.Turn
import Verif.Props.VelMoments
import Verif.PopDerived

/-!
# C82: growing disks are symmetric about their centre

On a cube whose pixels are symmetric about the centre of the disk, opposite pixels have the same probabilities and opposite mean velocities, whatever
valid setters were called.
-/

open scoped Classical
open MeasureTheory ProbabilityTheory Set

noncomputable section

namespace PKM
open Np Component

variable {p : Param} {g : Grid} {m : Ingredients} {L : ℕ → ℕ → ℝ} {f2 : ℝ} {center : ℝ × ℝ} {rotation : ℝ}

/-! ### Specification -/

/-- Bin edges symmetric about `a`. -/
def SymmetricAbout (e : ℕ → ℝ) (n : ℕ) (a : ℝ) : Prop := ∀ i ≤ n, e (n - i) - a = -(e i - a)

/-- The cell at the opposite pixel and the opposite velocity. -/
def mirror (g : Grid) (c : Cell) : Cell := ⟨c.t, g.nv - 1 - c.v, g.nx - 1 - c.x, g.ny - 1 - c.y, c.z⟩

/-- There are stars with the values of `b` at `c`: `get_p(b)` is not 0 there. -/
def Populated (p : Param) (lw : Bool) (b : PyStr) (c : Cell) : Prop :=
  b = [] ∨ ∃ q, getP p.self b false lw = .ok q ∧ q.get (coords b c) ≠ .fin 0

/-- All answers at opposite pixels are equal or opposite. -/
structure PointSymmetric (p : Param) (g : Grid) : Prop where
  /-- distributions without the velocity -/
  marg : ∀ density lw, ∀ w ∈ marginals, 'v' ∉ w → ∃ q, getP p.self w density lw = .ok q ∧ q.shape = g.shapeOf w ∧
    ∀ c, g.Has c → q.get (coords w (mirror g c)) = q.get (coords w c)
  cond : ∀ density lw, ∀ a b, (a, b) ∈ conditionals → 'v' ∉ a ++ b → ∃ q, getP p.self (condStr a b) density lw = .ok q ∧
    q.shape = g.shapeOf a ++ g.shapeOf b ∧ ∀ c, g.Has c → q.get (coords a (mirror g c) ++ coords b (mirror g c)) = q.get (coords a c ++ coords b c)
  /-- and those with it, at opposite velocities, if the velocity bins are symmetric about 0 -/
  margV : SymmetricAbout g.v g.nv 0 → ∀ density lw, ∀ w ∈ marginals, ∃ q, getP p.self w density lw = .ok q ∧ q.shape = g.shapeOf w ∧
    ∀ c, g.Has c → q.get (coords w (mirror g c)) = q.get (coords w c)
  condV : SymmetricAbout g.v g.nv 0 → ∀ density lw, ∀ a b, (a, b) ∈ conditionals → ∃ q, getP p.self (condStr a b) density lw = .ok q ∧
    q.shape = g.shapeOf a ++ g.shapeOf b ∧ ∀ c, g.Has c → q.get (coords a (mirror g c) ++ coords b (mirror g c)) = q.get (coords a c ++ coords b c)
  /-- mean velocities, wherever there are stars, are opposite -/
  mean : ∀ lw b, ValidPair ['v'] b → ∃ r, getMean p.self (distStr ['v'] b) lw = .ok r ∧ r.shape = g.shapeOf b ∧
    ∀ c, g.Has c → Populated p lw b c → ∃ u : ℝ, r.get (coords b c) = .fin u ∧ r.get (coords b (mirror g c)) = .fin (-u)
  central : p.f2 = 1 → ∀ lw b (j : ℕ), ValidPair ['v'] b → ∃ r, getCentralMoment p.self (distStr ['v'] b) j lw = .ok r ∧ r.shape = g.shapeOf b ∧
    ∀ c, g.Has c → Populated p lw b c → ∃ u : ℝ, r.get (coords b c) = .fin u ∧ r.get (coords b (mirror g c)) = .fin ((-1) ^ j * u)

/-- Ingredients symmetric about the centre. -/
structure Ingredients.Symmetric (m : Ingredients) (g : Grid) : Prop where
  wx : ∀ x < g.nx, width g.x (g.nx - 1 - x) = width g.x x
  wy : ∀ y < g.ny, width g.y (g.ny - 1 - y) = width g.y y
  px : ∀ t < g.nt, ∀ x < g.nx, ∀ y < g.ny, m.px t (g.nx - 1 - x) (g.ny - 1 - y) = m.px t x y
  pz : ∀ t < g.nt, ∀ x < g.nx, ∀ y < g.ny, ∀ z < g.nz, m.pz t (g.nx - 1 - x) (g.ny - 1 - y) z = m.pz t x y z
  mu : ∀ t < g.nt, ∀ x < g.nx, ∀ y < g.ny, m.mu t (g.nx - 1 - x) (g.ny - 1 - y) = -m.mu t x y
  sig : ∀ t < g.nt, ∀ x < g.nx, ∀ y < g.ny, m.sig t (g.nx - 1 - x) (g.ny - 1 - y) = m.sig t x y

/-! ### Lemmas: bins -/

theorem SymmetricAbout.centre {e : ℕ → ℝ} {n : ℕ} {a : ℝ} (h : SymmetricAbout e n a) {i : ℕ} (hi : i < n) :
    centre e (n - 1 - i) - a = -(centre e i - a) := by
  have h1 := h i hi.le
  have h2 := h (i + 1) hi
  unfold PKM.centre
  rw [show n - 1 - i + 1 = n - i by omega, show n - 1 - i = n - (i + 1) by omega]
  linarith

theorem SymmetricAbout.width {e : ℕ → ℝ} {n : ℕ} {a : ℝ} (h : SymmetricAbout e n a) {i : ℕ} (hi : i < n) :
    width e (n - 1 - i) = width e i := by
  have h1 := h i hi.le
  have h2 := h (i + 1) hi
  unfold PKM.width
  rw [show n - 1 - i + 1 = n - i by omega, show n - 1 - i = n - (i + 1) by omega]
  linarith

theorem sum_rev {n : ℕ} (f : ℕ → ℝ) : ∑ i : Fin n, f (n - 1 - i) = ∑ i : Fin n, f i := by
  rw [← Equiv.sum_comp Fin.revPerm (fun i : Fin n => f i)]
  refine Finset.sum_congr rfl fun i _ => ?_
  rw [Fin.revPerm_apply, Fin.val_rev]
  congr 1; omega

theorem sumCells_has {f f' : Cell → ℝ} (h : ∀ c, g.Has c → f c = f' c) : g.sumCells f = g.sumCells f' := by
  unfold Grid.sumCells
  exact Finset.sum_congr rfl fun t _ => Finset.sum_congr rfl fun v _ => Finset.sum_congr rfl fun x _ => Finset.sum_congr rfl fun y _ =>
    Finset.sum_congr rfl fun z _ => h _ ⟨t.2, v.2, x.2, y.2, z.2⟩

/-- The cell at the opposite pixel. -/
def mirrorX (g : Grid) (c : Cell) : Cell := ⟨c.t, c.v, g.nx - 1 - c.x, g.ny - 1 - c.y, c.z⟩

theorem mirrorX_has {c : Cell} (hc : g.Has c) : g.Has (mirrorX g c) := by
  obtain ⟨h1, h2, h3, h4, h5⟩ := hc
  exact ⟨h1, h2, by show g.nx - 1 - c.x < g.nx; omega, by show g.ny - 1 - c.y < g.ny; omega, h5⟩

theorem mirror_has {c : Cell} (hc : g.Has c) : g.Has (mirror g c) := by
  obtain ⟨h1, h2, h3, h4, h5⟩ := hc
  exact ⟨h1, by show g.nv - 1 - c.v < g.nv; omega, by show g.nx - 1 - c.x < g.nx; omega, by show g.ny - 1 - c.y < g.ny; omega, h5⟩

theorem sumTXZ_mirror (f : Cell → ℝ) : Ingredients.sumTXZ g (fun d => f (mirrorX g d)) = Ingredients.sumTXZ g f := by
  unfold Ingredients.sumTXZ mirrorX
  refine Finset.sum_congr rfl fun t _ => ?_
  dsimp only
  rw [sum_rev (n := g.nx) (fun x => ∑ y : Fin g.ny, ∑ z : Fin g.nz, f ⟨t, 0, x, g.ny - 1 - y, z⟩)]
  refine Finset.sum_congr rfl fun x _ => ?_
  exact sum_rev (n := g.ny) (fun y => ∑ z : Fin g.nz, f ⟨t, 0, x, y, z⟩)

theorem sumCells_mirror (f : Cell → ℝ) : g.sumCells (fun d => f (mirror g d)) = g.sumCells f := by
  unfold Grid.sumCells mirror
  refine Finset.sum_congr rfl fun t _ => ?_
  dsimp only
  rw [sum_rev (n := g.nv) (fun v => ∑ x : Fin g.nx, ∑ y : Fin g.ny, ∑ z : Fin g.nz, f ⟨t, v, g.nx - 1 - x, g.ny - 1 - y, z⟩)]
  refine Finset.sum_congr rfl fun v _ => ?_
  rw [sum_rev (n := g.nx) (fun x => ∑ y : Fin g.ny, ∑ z : Fin g.nz, f ⟨t, v, x, g.ny - 1 - y, z⟩)]
  refine Finset.sum_congr rfl fun x _ => ?_
  exact sum_rev (n := g.ny) (fun y => ∑ z : Fin g.nz, f ⟨t, v, x, y, z⟩)

theorem coords_eq_iff : ∀ w ∈ [] :: marginals, ∀ c d : Cell, coords w d = coords w c ↔ ∀ ch ∈ w, coord1 d ch = coord1 c ch := by
  intro w hw c d
  simp only [marginals, List.mem_cons, List.not_mem_nil, or_false] at hw
  rcases hw with h | h | h | h | h | h | h | h | h | h | h | h | h | h | h | h <;> subst h <;>
    simp [coords, coord1, and_assoc]

theorem flip_eq {n i j : ℕ} (hi : i < n) (hj : j < n) : n - 1 - i = n - 1 - j ↔ i = j := by omega

theorem coord1_mirror {c d : Cell} (hc : g.Has c) (hd : g.Has d) (ch : Char) : coord1 (mirror g d) ch = coord1 (mirror g c) ch ↔ coord1 d ch = coord1 c ch := by
  obtain ⟨-, h2, h3, h4, -⟩ := hc
  obtain ⟨-, k2, k3, k4, -⟩ := hd
  unfold coord1 mirror
  split_ifs
  · rfl
  · simp only [List.cons.injEq, and_true]; exact flip_eq k2 h2
  · simp only [List.cons.injEq, and_true]; exact and_congr (flip_eq k3 h3) (flip_eq k4 h4)
  · rfl
  · rfl

theorem coords_mirror {w : PyStr} (hw : w ∈ [] :: marginals) {c d : Cell} (hc : g.Has c) (hd : g.Has d) :
    coords w (mirror g d) = coords w (mirror g c) ↔ coords w d = coords w c := by
  rw [coords_eq_iff w hw, coords_eq_iff w hw]
  exact forall₂_congr fun ch _ => coord1_mirror hc hd ch

theorem coords_mirrorX {w : PyStr} (hv : 'v' ∉ w) (c : Cell) : coords w (mirrorX g c) = coords w (mirror g c) := by
  rw [← coords_noV hv (mirror g c) c.v]; rfl

/-! ### Lemmas: normal distributions -/

theorem normal_neg (μ σ : ℝ) : (normal μ σ).map (MeasurableEquiv.neg ℝ) = normal (-μ) σ := gaussianReal_map_neg

theorem integral_normal_neg (μ σ : ℝ) (φ : ℝ → ℝ) : ∫ v, φ v ∂(normal (-μ) σ) = ∫ v, φ (-v) ∂(normal μ σ) := by
  rw [← normal_neg, integral_map_equiv]; rfl

theorem stdPhi_neg (x : ℝ) : stdPhi (-x) = 1 - stdPhi x := by
  unfold stdPhi
  have h : (gaussianReal 0 1).map (MeasurableEquiv.neg ℝ) = gaussianReal 0 1 := by
    have := gaussianReal_map_neg (μ := 0) (v := 1)
    rw [neg_zero] at this
    exact this
  rw [← probReal_compl_eq_one_sub measurableSet_Iic, compl_Iic]
  conv_lhs => rw [← h]
  rw [measureReal_def, MeasurableEquiv.map_apply, measureReal_def]
  congr 1
  have : (MeasurableEquiv.neg ℝ) ⁻¹' Iic (-x) = Ici x := by ext u; simp
  rw [this]
  haveI := nullSingletonClass_gaussianReal (μ := 0) (v := 1) one_ne_zero
  exact (measure_congr Ioi_ae_eq_Ici).symm

theorem normal_Ioc_neg {μ σ a b : ℝ} (hσ : 0 < σ) (h : a ≤ b) : (normal (-μ) σ).real (Ioc (-b) (-a)) = (normal μ σ).real (Ioc a b) := by
  rw [normal_Ioc hσ (by linarith), normal_Ioc hσ h, show (-a - -μ) / σ = -((a - μ) / σ) by ring, show (-b - -μ) / σ = -((b - μ) / σ) by ring,
    stdPhi_neg, stdPhi_neg]
  ring

/-! ### Lemmas: distributions -/

section
variable (h : ParamIs p g m L) (hs : m.Symmetric g)
include h hs

theorem probTXZ_mirror {c : Cell} (hc : g.Has c) {d : Cell} (hd : d = mirrorX g c ∨ d = mirror g c) : m.probTXZ g d = m.probTXZ g c := by
  obtain ⟨h1, h2, h3, h4, h5⟩ := hc
  rcases hd with rfl | rfl <;>
    simp only [Ingredients.probTXZ, Ingredients.probT, Ingredients.probX, Ingredients.probZ, mirror, mirrorX, hs.px _ h1 _ h3 _ h4,
      hs.pz _ h1 _ h3 _ h4 _ h5, hs.wx _ h3, hs.wy _ h4]

theorem probV_mirror (hv : SymmetricAbout g.v g.nv 0) {c : Cell} (hc : g.Has c) : m.probV g (mirror g c) = m.probV g c := by
  obtain ⟨h1, h2, h3, h4, h5⟩ := hc
  unfold Ingredients.probV mirror
  dsimp only
  rw [hs.mu _ h1 _ h3 _ h4, hs.sig _ h1 _ h3 _ h4]
  have e1 := hv c.v h2.le
  have e2 := hv (c.v + 1) h2
  simp only [sub_zero] at e1 e2
  rw [show g.nv - 1 - c.v + 1 = g.nv - c.v by omega, show g.nv - 1 - c.v = g.nv - (c.v + 1) by omega, e1, e2]
  exact normal_Ioc_neg (h.norm.sig _ _ _) (h.proper.v _ h2).le

theorem joint_mirror (hv : SymmetricAbout g.v g.nv 0) {c : Cell} (hc : g.Has c) : m.joint g (mirror g c) = m.joint g c := by
  unfold Ingredients.joint
  rw [probTXZ_mirror h hs hc (Or.inr rfl), probV_mirror h hs hv hc]

theorem weightTXZ_mirror (lw : Bool) {c : Cell} (hc : g.Has c) : m.weightTXZ g L lw (mirrorX g c) = m.weightTXZ g L lw c := by
  unfold Ingredients.weightTXZ
  rw [probTXZ_mirror h hs hc (Or.inl rfl)]
  rfl

theorem weight_mirror (hv : SymmetricAbout g.v g.nv 0) (lw : Bool) {c : Cell} (hc : g.Has c) : m.weight g L lw (mirror g c) = m.weight g L lw c := by
  unfold Ingredients.weight
  rw [joint_mirror h hs hv hc]
  rfl

theorem marginal_mirror (lw : Bool) {w : PyStr} (hw : w ∈ [] :: marginals) (hv : 'v' ∈ w → SymmetricAbout g.v g.nv 0) {c : Cell} (hc : g.Has c) :
    m.marginal g L lw w (mirror g c) = m.marginal g L lw w c := by
  unfold Ingredients.marginal
  by_cases hv' : 'v' ∈ w
  · rw [if_pos hv', if_pos hv', ← sumCells_mirror]
    refine sumCells_has fun d hd => ?_
    exact if_congr (coords_mirror hw hc hd) (weight_mirror h hs (hv hv') lw hd) rfl
  · rw [if_neg hv', if_neg hv', ← sumTXZ_mirror]
    refine sumTXZ_has h.proper fun d hd => ?_
    exact if_congr (by rw [coords_mirrorX hv']; exact coords_mirror hw hc hd) (weightTXZ_mirror h hs lw hd) rfl

theorem marg_weight_mirror (hv : SymmetricAbout g.v g.nv 0) (lw : Bool) {w : PyStr} (hw : w ∈ [] :: marginals) {c : Cell} (hc : g.Has c) :
    g.marg (m.weight g L lw) w (mirror g c) = g.marg (m.weight g L lw) w c := by
  unfold Grid.marg
  rw [← sumCells_mirror]
  refine sumCells_has fun d hd => ?_
  exact if_congr (coords_mirror hw hc hd) (weight_mirror h hs hv lw hd) rfl

theorem width1_mirror {c : Cell} (hc : g.Has c) (ch : Char) (hv : ch = 'v' → SymmetricAbout g.v g.nv 0) : g.width1 (mirror g c) ch = g.width1 c ch := by
  obtain ⟨h1, h2, h3, h4, h5⟩ := hc
  unfold Grid.width1 mirror
  split_ifs with a b
  · rfl
  · exact (hv b).width h2
  · exact congrArg₂ _ (hs.wx _ h3) (hs.wy _ h4)
  · rfl
  · rfl

theorem volOf_mirror {w : PyStr} (hv : 'v' ∈ w → SymmetricAbout g.v g.nv 0) {c : Cell} (hc : g.Has c) : g.volOf w (mirror g c) = g.volOf w c := by
  unfold Grid.volOf
  refine congrArg List.prod (List.map_congr_left fun ch hch => width1_mirror h hs hc ch fun e => hv (e ▸ hch))

theorem dens_mirror (density : Bool) {w : PyStr} (hv : 'v' ∈ w → SymmetricAbout g.v g.nv 0) {c : Cell} (hc : g.Has c) :
    (if density then g.volOf w (mirror g c) else 1) = if density then g.volOf w c else 1 := by
  rw [volOf_mirror h hs hv hc]

theorem marg_symmetric (density lw : Bool) (hl : Shines g m L) {w : PyStr} (hw : w ∈ marginals) (hv : 'v' ∈ w → SymmetricAbout g.v g.nv 0) :
    ∃ q, getP p.self w density lw = .ok q ∧ q.shape = g.shapeOf w ∧ ∀ c, g.Has c → q.get (coords w (mirror g c)) = q.get (coords w c) := by
  obtain ⟨q, h1, h2, h3⟩ := C32_marginals h density lw (fun _ => hl) w hw
  refine ⟨q, h1, h2, fun c hc => ?_⟩
  rw [h3 _ (mirror_has hc), h3 c hc, marginal_mirror h hs lw (List.mem_cons_of_mem _ hw) hv hc, dens_mirror h hs density hv hc]

theorem cond_symmetric (density lw : Bool) (hl : Shines g m L) {a b : PyStr} (hab : (a, b) ∈ conditionals)
    (hv : 'v' ∈ a ++ b → SymmetricAbout g.v g.nv 0) : ∃ q, getP p.self (condStr a b) density lw = .ok q ∧
    q.shape = g.shapeOf a ++ g.shapeOf b ∧ ∀ c, g.Has c → q.get (coords a (mirror g c) ++ coords b (mirror g c)) = q.get (coords a c ++ coords b c) := by
  have va : 'v' ∈ a → SymmetricAbout g.v g.nv 0 := fun e => hv (List.mem_append_left _ e)
  have vb : 'v' ∈ b → SymmetricAbout g.v g.nv 0 := fun e => hv (List.mem_append_right _ e)
  have mm : ∀ {w : PyStr}, w ∈ marginals → ('v' ∈ w → 'v' ∈ a ++ b) → ∀ {c}, g.Has c → m.marginal g L lw w (mirror g c) = m.marginal g L lw w c :=
    fun {w} hw e {c} hc => marginal_mirror h hs lw (List.mem_cons_of_mem _ hw) (fun e' => hv (e e')) hc
  by_cases ho : (a, b) ∈ [(['x'],['t']), (['v'],['t','x']), (['z'],['t','x'])]
  · simp only [List.mem_cons, Prod.mk.injEq, List.not_mem_nil, or_false] at ho
    cases lw
    · obtain ⟨⟨q1, i1, i2, i3⟩, ⟨q2, j1, j2, j3⟩, ⟨q3, k1, k2, k3⟩⟩ := C32_ingredients h density
      rcases ho with ⟨rfl, rfl⟩ | ⟨rfl, rfl⟩ | ⟨rfl, rfl⟩
      · refine ⟨q1, i1, i2, fun c hc => (i3 _ (mirror_has hc)).trans (Eq.trans ?_ (i3 c hc).symm)⟩
        obtain ⟨h1, h2, h3, h4, h5⟩ := id hc
        rw [dens_mirror h hs density va hc]
        simp only [Ingredients.probX, mirror, hs.px _ h1 _ h3 _ h4, hs.wx _ h3, hs.wy _ h4]
      · refine ⟨q2, j1, j2, fun c hc => (j3 _ (mirror_has hc)).trans (Eq.trans ?_ (j3 c hc).symm)⟩
        rw [dens_mirror h hs density va hc, probV_mirror h hs (va (by decide)) hc]
      · refine ⟨q3, k1, k2, fun c hc => (k3 _ (mirror_has hc)).trans (Eq.trans ?_ (k3 c hc).symm)⟩
        obtain ⟨h1, h2, h3, h4, h5⟩ := id hc
        rw [dens_mirror h hs density va hc]
        simp only [Ingredients.probZ, mirror, hs.pz _ h1 _ h3 _ h4 _ h5]
    · obtain ⟨⟨q1, i1, i2, i3⟩, ⟨q2, j1, j2, j3⟩, ⟨q3, k1, k2, k3⟩⟩ := C32_light_ingredients h density hl
      rcases ho with ⟨rfl, rfl⟩ | ⟨rfl, rfl⟩ | ⟨rfl, rfl⟩
      · refine ⟨q1, i1, i2, fun c hc => (i3 _ (mirror_has hc)).trans (Eq.trans ?_ (i3 c hc).symm)⟩
        rw [dens_mirror h hs density va hc, mm (by decide) (by decide) hc, mm (by decide) (by decide) hc]
      · refine ⟨q2, j1, j2, fun c hc => (j3 _ (mirror_has hc)).trans (Eq.trans ?_ (j3 c hc).symm)⟩
        rw [dens_mirror h hs density va hc, mm (by decide) (by decide) hc, marg_weight_mirror h hs (va (by decide)) true (by decide) hc]
      · refine ⟨q3, k1, k2, fun c hc => (k3 _ (mirror_has hc)).trans (Eq.trans ?_ (k3 c hc).symm)⟩
        rw [dens_mirror h hs density va hc, mm (by decide) (by decide) hc, mm (by decide) (by decide) hc]
  · obtain ⟨q, h1, h2, h3⟩ := C32_conditionals h density lw (fun _ => hl) a b hab ho
    obtain ⟨-, -, -, -, -, -, -, -, hb, hu⟩ := conditionals_letters (a, b) hab
    have hU : 'v' ∈ unionStr a b → 'v' ∈ a ++ b := (by decide +kernel : ∀ q ∈ conditionals, 'v' ∈ unionStr q.1 q.2 → 'v' ∈ q.1 ++ q.2) (a, b) hab
    refine ⟨q, h1, h2, fun c hc => ?_⟩
    rw [h3 _ (mirror_has hc), h3 c hc, mm hb (fun e => List.mem_append_right _ e) hc, mm hu hU hc, dens_mirror h hs density va hc]

theorem velExpect_mirror (lw : Bool) {b : PyStr} (hw : b ∈ [] :: marginals) (hb : 'v' ∉ b) (φ : ℝ → ℝ) {c : Cell} (hc : g.Has c) :
    m.velExpect g L lw b φ (mirror g c) = m.velExpect g L lw b (fun v => φ (-v)) c := by
  unfold Ingredients.velExpect
  rw [marginal_mirror h hs lw hw (fun e => absurd e hb) hc, ← sumTXZ_mirror]
  refine congrArg (· / _) (sumTXZ_has h.proper fun d hd => ?_)
  refine if_congr (by rw [coords_mirrorX hb]; exact coords_mirror hw hc hd) ?_ rfl
  rw [weightTXZ_mirror h hs lw hd, ← integral_normal_neg]
  obtain ⟨h1, h2, h3, h4, h5⟩ := hd
  simp only [mirrorX, hs.mu _ h1 _ h3 _ h4, hs.sig _ h1 _ h3 _ h4]

end

theorem velExpect_mul (lw : Bool) (b : PyStr) (k : ℝ) (φ : ℝ → ℝ) (c : Cell) :
    m.velExpect g L lw b (fun v => k * φ v) c = k * m.velExpect g L lw b φ c := by
  unfold Ingredients.velExpect
  rw [← mul_div_assoc, ← sumTXZ_mul]
  refine congrArg (· / _) (sumTXZ_congr fun d => ?_)
  split
  · rw [integral_const_mul]; ring
  · simp

theorem marginal_nil (h : ParamIs p g m L) (hl : Shines g m L) (lw : Bool) (c : Cell) : m.marginal g L lw [] c ≠ 0 := by
  rw [marginal_PS h.proper lw (by simp)]
  have := PS_total h lw (fun _ => hl.tot h.proper)
  unfold Grid.marg
  simp only [coords, List.flatMap_nil, if_true]
  rw [this]; exact one_ne_zero

theorem Populated.ne (h : ParamIs p g m L) (hl : Shines g m L) {lw : Bool} {b : PyStr} (hb : b ∈ [] :: marginals) {c : Cell} (hc : g.Has c)
    (hp : Populated p lw b c) : m.marginal g L lw b c ≠ 0 := by
  rcases List.mem_cons.1 hb with rfl | hb'
  · exact marginal_nil h hl lw c
  · rcases hp with rfl | ⟨q, h1, h2⟩
    · exact marginal_nil h hl lw c
    · obtain ⟨q', k1, -, k3⟩ := C32_marginals h false lw (fun _ => hl) b hb'
      obtain rfl : q' = q := Except.ok.inj (k1.symm.trans h1)
      intro e
      refine h2 ?_
      rw [k3 c hc, e]; simp

theorem valid_marginals {b : PyStr} (hb : ValidPair ['v'] b) : b ∈ [] :: marginals := by
  rcases hb with ⟨rfl, -⟩ | hb
  · exact List.mem_cons_self
  · exact List.mem_cons_of_mem _ (conditionals_letters _ hb).2.2.2.2.2.2.2.2.1

/-- Components with symmetric ingredients are symmetric. -/
theorem ParamIs.symmetric (h : ParamIs p g m L) (hs : m.Symmetric g) (hl : Shines g m L) : PointSymmetric p g where
  marg density lw _ hw hv := marg_symmetric h hs density lw hl hw fun e => absurd e hv
  cond density lw _ _ hab hv := cond_symmetric h hs density lw hl hab fun e => absurd e hv
  margV hv density lw _ hw := marg_symmetric h hs density lw hl hw fun _ => hv
  condV hv density lw _ _ hab := cond_symmetric h hs density lw hl hab fun _ => hv
  mean lw b hb := by
    obtain ⟨r, h1, h2, h3⟩ := C34_mean h lw (fun _ => hl) hb
    have hw := valid_marginals hb
    have hv := noV_of_valid hb
    refine ⟨r, h1, h2, fun c hc hp => ⟨_, h3 c hc (hp.ne h hl hw hc), ?_⟩⟩
    rw [h3 _ (mirror_has hc) (by rw [marginal_mirror h hs lw hw (fun e => absurd e hv) hc]; exact hp.ne h hl hw hc), velExpect_mirror h hs lw hw hv _ hc]
    have := velExpect_mul (m := m) (g := g) (L := L) lw b (-1) (fun v => v) c
    simp only [neg_mul, one_mul] at this
    rw [this]
  central hf lw b j hb := by
    obtain ⟨r, h1, h2, h3⟩ := C34_central h hf lw (fun _ => hl) j hb
    have hw := valid_marginals hb
    have hv := noV_of_valid hb
    refine ⟨r, h1, h2, fun c hc hp => ⟨_, h3 c hc (hp.ne h hl hw hc), ?_⟩⟩
    rw [h3 _ (mirror_has hc) (by rw [marginal_mirror h hs lw hw (fun e => absurd e hv) hc]; exact hp.ne h hl hw hc), velExpect_mirror h hs lw hw hv _ hc,
      velExpect_mirror h hs lw hw hv _ hc]
    have e := velExpect_mul (m := m) (g := g) (L := L) lw b (-1) (fun v => v) c
    simp only [neg_mul, one_mul] at e
    rw [e, ← velExpect_mul]
    congr 2
    funext v
    rw [← mul_pow]; congr 1; ring

/-! ### Lemmas: histories -/

/-- The stored arrays are symmetric, the mean velocity is antisymmetric. -/
structure Mirrored (p : Param) (g : Grid) : Prop where
  space : ∀ A, p.logPxt = some A → ∀ t < g.nt, ∀ x < g.nx, ∀ y < g.ny, A.get [g.nx - 1 - x, g.ny - 1 - y, t] = A.get [x, y, t]
  metal : ∀ A, p.logPztx = some A → ∀ t < g.nt, ∀ x < g.nx, ∀ y < g.ny, ∀ z < g.nz, A.get [z, t, g.nx - 1 - x, g.ny - 1 - y] = A.get [z, t, x, y]
  mean : ∀ A, p.muV = some A → ∀ t < g.nt, ∀ x < g.nx, ∀ y < g.ny, A.get [t, g.nx - 1 - x, g.ny - 1 - y] = Num.neg (A.get [t, x, y])
  disp : ∀ A, p.sigV = some A → ∀ t < g.nt, ∀ x < g.nx, ∀ y < g.ny, A.get [t, g.nx - 1 - x, g.ny - 1 - y] = A.get [t, x, y]

section
variable (sx : SymmetricAbout g.x g.nx center.1) (sy : SymmetricAbout g.y g.ny center.2)
include sx sy

theorem frame_mirror {c : Cell} (hc : g.Has c) : frameX g center rotation (mirrorX g c) = -frameX g center rotation c ∧
    frameY g center rotation (mirrorX g c) = -frameY g center rotation c := by
  have h1 := sx.centre hc.2.2.1
  have h2 := sy.centre hc.2.2.2.1
  constructor
  · simp only [frameX, mirrorX, h1, h2]; ring
  · simp only [frameY, mirrorX, h1, h2]; ring

theorem ellR_mirror (q : ℝ) {c : Cell} (hc : g.Has c) : ellR g center rotation q (mirrorX g c) = ellR g center rotation q c := by
  obtain ⟨h1, h2⟩ := frame_mirror (rotation := rotation) sx sy hc
  unfold ellR
  rw [h1, h2, neg_div, neg_sq, neg_sq]

theorem Mirrored.disk (h : Sound p g f2 center rotation) (hM : Mirrored p g) (hg : g.Proper) (hx : ∃ c, g.Has c ∧ frameX g center rotation c ≠ 0)
    (k : DiskCall) (hv : k.Valid) (ht : p.logPt ≠ none ∨ k.field = .age ∨ k.field = .metal) {p' : Param} (hr : k.run p = .ok p') : Mirrored p' g := by
  obtain ⟨m, -, hm⟩ := h.built.amax hg
  have hm0 : 0 < m := by
    obtain ⟨c, hc, hne⟩ := hx
    exact (abs_pos.2 hne).trans_le (hm.2 c hc)
  have hc : ∀ {t x y z}, t < g.nt → x < g.nx → y < g.ny → z < g.nz → g.Has ⟨t, 0, x, y, z⟩ := fun a b c d => ⟨a, hg.nv, b, c, d⟩
  cases k with
  | setPt lmd phi q =>
    have hw := setPt_writes (p := p) (lmd := lmd) (phi := phi) (q := q) (p' := p') hr
    have f1 := hw.frame (f' := .space) (by decide)
    have f2 := hw.frame (f' := .metal) (by decide)
    have f3 := hw.frame (f' := .mean) (by decide)
    have f4 := hw.frame (f' := .disp) (by decide)
    simp only [Field.get, List.cons.injEq, and_true] at f1 f2 f3 f4
    exact ⟨by rw [f1]; exact hM.space, by rw [f2.2]; exact hM.metal, by rw [f3]; exact hM.mean, by rw [f4]; exact hM.disp⟩
  | setPxt q rc alpha =>
    obtain ⟨s, e, ha⟩ := h.aged (by simpa [DiskCall.field] using ht)
    obtain ⟨v1, v2, v3⟩ := hv
    obtain ⟨A, k1, k2⟩ := disk_setPxt h.built hg ha v1 v2 v3
    obtain rfl : _ = p' := Except.ok.inj (k1.symm.trans hr)
    refine ⟨fun B hB t ht x hx y hy => ?_, hM.metal, hM.mean, hM.disp⟩
    cases hB
    have i1 := k2.2 _ (hc ht hx hy hg.nz)
    have i2 := k2.2 _ (mirrorX_has (hc ht hx hy hg.nz))
    refine Eq.trans i2 (Eq.trans ?_ i1.symm)
    have e1 : coredRho g center rotation s e q rc alpha (mirrorX g ⟨t, 0, x, y, 0⟩) = coredRho g center rotation s e q rc alpha ⟨t, 0, x, y, 0⟩ := by
      unfold coredRho
      rw [ellR_mirror sx sy _ (hc ht hx hy hg.nz)]; rfl
    beta_reduce
    rw [e1]; rfl
  | setTDep q alpha tIn tOut tMin tMax =>
    obtain ⟨v1, v2, v3, v4, v5, v6⟩ := hv
    obtain ⟨A, B, k1, k3, k2⟩ := disk_setTDep h.built hg v1 v2 v3 v4 v5 v6 hm hm0
    obtain rfl : _ = p' := Except.ok.inj (k1.symm.trans hr)
    refine ⟨hM.space, fun B' hB t ht x hx y hy z hz => ?_, hM.mean, hM.disp⟩
    cases hB
    have i1 := k2.2 _ (hc ht hx hy hz)
    have i2 := k2.2 _ (mirrorX_has (hc ht hx hy hz))
    refine Eq.trans i2 (Eq.trans ?_ i1.symm)
    have j1 := k3.2 _ (hc ht hx hy hz)
    have j2 := k3.2 _ (mirrorX_has (hc ht hx hy hz))
    beta_reduce at j1 j2 ⊢
    rw [ellR_mirror sx sy _ (hc ht hx hy hz)] at j2
    have e1 : A.get [g.nx - 1 - x, g.ny - 1 - y] = A.get [x, y] := Eq.trans j2 j1.symm
    show Num.lg (metalDens g (gasMetal g (Param.nearest p.zGrid (A.get [g.nx - 1 - x, g.ny - 1 - y])) t) z) = _
    rw [e1]
  | setMuV q rmax vmax =>
    obtain ⟨s, e, ha⟩ := h.aged (by simpa [DiskCall.field] using ht)
    obtain ⟨v1, v2, v3⟩ := hv
    obtain ⟨A, k1, k2⟩ := disk_setMuV h.built ha v1 v2 v3
    obtain rfl : _ = p' := Except.ok.inj (k1.symm.trans hr)
    refine ⟨hM.space, hM.metal, fun B hB t ht x hx y hy => ?_, hM.disp⟩
    cases hB
    have i1 := k2.2 _ (hc ht hx hy hg.nz)
    have i2 := k2.2 _ (mirrorX_has (hc ht hx hy hg.nz))
    refine Eq.trans i2 (Eq.trans ?_ (congrArg Num.neg i1).symm)
    beta_reduce
    unfold diskMu
    rw [ellR_mirror sx sy _ (hc ht hx hy hg.nz), (frame_mirror sx sy (hc ht hx hy hg.nz)).1]
    show Num.fin _ = Num.fin _
    congr 1
    simp only [mirrorX]
    ring
  | setSigV q alpha sIn sOut =>
    obtain ⟨s, e, ha⟩ := h.aged (by simpa [DiskCall.field] using ht)
    obtain ⟨v1, v2, v3, v4⟩ := hv
    obtain ⟨A, k1, k2⟩ := disk_setSigV h.built hg ha v1 v2 v3 v4 hm hm0
    obtain rfl : _ = p' := Except.ok.inj (k1.symm.trans hr)
    refine ⟨hM.space, hM.metal, hM.mean, fun B hB t ht x hx y hy => ?_⟩
    cases hB
    have i1 := k2.2 _ (hc ht hx hy hg.nz)
    have i2 := k2.2 _ (mirrorX_has (hc ht hx hy hg.nz))
    refine Eq.trans i2 (Eq.trans ?_ i1.symm)
    beta_reduce
    unfold diskSig
    rw [ellR_mirror sx sy _ (hc ht hx hy hg.nz)]; rfl

theorem Mirrored.calls (hg : g.Proper) (hx : ∃ c, g.Has c ∧ frameX g center rotation c ≠ 0) :
    ∀ (ks : List DiskCall) (p p' : Param), Sound p g f2 center rotation → Mirrored p g → (∀ k ∈ ks, k.Valid) →
      runAll DiskCall.run p ks = .ok p' → Sound p' g f2 center rotation ∧ Mirrored p' g ∧ p'.cube = p.cube
  | [], p, p', h, hM, _, hr => by cases hr; exact ⟨h, hM, rfl⟩
  | k :: ks, p, p', h, hM, hv, hr => by
    have hk := hv k List.mem_cons_self
    by_cases ht : p.logPt ≠ none ∨ k.field = .age ∨ k.field = .metal
    · obtain ⟨p1, k1, k2⟩ := h.disk hg hx k hk ht
      have hr' : runAll DiskCall.run p1 ks = .ok p' := by
        have : (DiskCall.run p k >>= fun q => runAll DiskCall.run q ks) = .ok p' := hr
        rwa [k1] at this
      obtain ⟨a, b, c⟩ := Mirrored.calls hg hx ks p1 p' k2 (Mirrored.disk sx sy h hM hg hx k hk ht k1) (fun k' hk' => hv k' (List.mem_cons_of_mem _ hk')) hr'
      exact ⟨a, b, c.trans (disk_writes k1).cube⟩
    · push Not at ht
      have : (DiskCall.run p k >>= fun q => runAll DiskCall.run q ks) = .ok p' := hr
      rw [h.disk_early k hk ht.1 ht.2] at this
      cases this

end

theorem lg_injective {a b : ℝ} (ha : 0 < a) (hb : 0 < b) (h : Num.lg a = Num.lg b) : a = b := by
  rw [Num.lg_pos ha, Num.lg_pos hb] at h
  exact Real.log_injOn_pos ha hb (Num.fin.inj h)

theorem Mirrored.symmetric (hM : Mirrored p g) (sx : SymmetricAbout g.x g.nx center.1) (sy : SymmetricAbout g.y g.ny center.2)
    (h : ParamIs p g m L) (hx : ∀ t < g.nt, ∀ x < g.nx, ∀ y < g.ny, 0 < m.px t x y)
    (hz : ∀ t < g.nt, ∀ x < g.nx, ∀ y < g.ny, ∀ z < g.nz, 0 < m.pz t x y z) : m.Symmetric g := by
  have hc : ∀ {t x y z}, t < g.nt → x < g.nx → y < g.ny → z < g.nz → g.Has ⟨t, 0, x, y, z⟩ := fun a b c d => ⟨a, h.proper.nv, b, c, d⟩
  have fx : ∀ {x}, x < g.nx → g.nx - 1 - x < g.nx := fun h => by omega
  have fy : ∀ {y}, y < g.ny → g.ny - 1 - y < g.ny := fun h => by omega
  obtain ⟨A, a1, -, a3⟩ := h.logPxt
  obtain ⟨B, b1, -, b3⟩ := h.logPztx
  obtain ⟨C, c1, -, c3⟩ := h.muV
  obtain ⟨D, d1, -, d3⟩ := h.sigV
  refine ⟨fun x hx => sx.width hx, fun y hy => sy.width hy, fun t ht x hx' y hy => ?_, fun t ht x hx' y hy z hz' => ?_, fun t ht x hx' y hy => ?_,
    fun t ht x hx' y hy => ?_⟩
  · have e := hM.space A a1 t ht x hx' y hy
    have e1 := a3 _ (hc ht hx' hy h.proper.nz)
    have e2 := a3 _ (hc ht (fx hx') (fy hy) h.proper.nz)
    simp only [coords, condStr, List.flatMap_append, List.flatMap_cons, List.flatMap_nil, coord1] at e1 e2
    exact lg_injective (hx t ht _ (fx hx') _ (fy hy)) (hx t ht x hx' y hy) (e2.symm.trans (e.trans e1))
  · have e := hM.metal B b1 t ht x hx' y hy z hz'
    have e1 := b3 _ (hc ht hx' hy hz')
    have e2 := b3 _ (hc ht (fx hx') (fy hy) hz')
    simp only [coords, condStr, List.flatMap_append, List.flatMap_cons, List.flatMap_nil, coord1] at e1 e2
    exact lg_injective (hz t ht _ (fx hx') _ (fy hy) z hz') (hz t ht x hx' y hy z hz') (e2.symm.trans (e.trans e1))
  · have e := hM.mean C c1 t ht x hx' y hy
    have e1 := c3 _ (hc ht hx' hy h.proper.nz)
    have e2 := c3 _ (hc ht (fx hx') (fy hy) h.proper.nz)
    simp only [coords, List.flatMap_cons, List.flatMap_nil, coord1] at e1 e2
    exact Num.fin.inj (e2.symm.trans (e.trans (congrArg Num.neg e1)))
  · have e := hM.disp D d1 t ht x hx' y hy
    have e1 := d3 _ (hc ht hx' hy h.proper.nz)
    have e2 := d3 _ (hc ht (fx hx') (fy hy) h.proper.nz)
    simp only [coords, List.flatMap_cons, List.flatMap_nil, coord1] at e1 e2
    exact Num.fin.inj (e2.symm.trans (e.trans e1))

/-! ### Theorem -/

/-- **C82.** A growing disk on which all five setters were called with valid arguments, in any order and any number of times, is symmetric about its centre
if the pixels of the cube are. -/
theorem C82_point_symmetry {cube : IFUCube} (hc : CubeIs cube g) (hg : g.Proper)
    (hl : IsArr g ['t','z'] cube.ssps.lightWeights (fun c => .fin (L c.t c.z))) (hL : ∀ t z, 0 < L t z)
    (hx : ∃ c, g.Has c ∧ frameX g center rotation c ≠ 0)
    (sx : SymmetricAbout g.x g.nx center.1) (sy : SymmetricAbout g.y g.ny center.2)
    (ks : List DiskCall) (hv : ∀ k ∈ ks, k.Valid) (hall : ∀ f : Field, ∃ k ∈ ks, k.field = f)
    (hp : makeDisk f2 cube center rotation ks = .ok p) : PointSymmetric p g := by
  obtain ⟨p0, k1, k2, k3, k4⟩ := init_sound hc hg f2 center rotation
  have hr : runAll DiskCall.run p0 ks = .ok p := by
    unfold makeDisk at hp
    rwa [k1] at hp
  have none_of : ∀ f : Field, ∀ a ∈ f.get p0, ∀ A, a ≠ some A := fun f a ha A e => by rw [k4 f a ha] at e; cases e
  have hM0 : Mirrored p0 g := ⟨fun A hA => absurd hA (none_of .space _ (by simp [Field.get]) A), fun A hA => absurd hA (none_of .metal _ (by simp [Field.get]) A),
    fun A hA => absurd hA (none_of .mean _ (by simp [Field.get]) A), fun A hA => absurd hA (none_of .disp _ (by simp [Field.get]) A)⟩
  obtain ⟨j1, j2, j3⟩ := Mirrored.calls sx sy hg hx ks p0 p k3 hM0 hv hr
  have hf : ∀ f : Field, none ∉ f.get p := fun f => by
    rw [(set_fields (base := fun p => p) (fun {s s' k} h => disk_writes h) ks p0 p hr (fun f => Or.inr (k4 f)) f).1]
    exact Or.inr (hall f)
  obtain ⟨m, i1, i2, i3⟩ := j1.paramIs hg (by rw [j3, k2]; exact hl) (fun t z => (hL t z).le) hf
  exact i1.symmetric (j2.symmetric sx sy i1 i2 i3) (i1.shines (fun t _ z _ => hL t z) i2 i3)

/-- The hypotheses are met: the demonstration cube is symmetric about the centre of the demonstration disk. -/
example : ∃ (cube : IFUCube) (p : Param), CubeIs cube demoGrid ∧ (∃ c, demoGrid.Has c ∧ frameX demoGrid (0, 3 / 2) 0 c ≠ 0) ∧ SymmetricAbout demoGrid.x demoGrid.nx 0 ∧
    SymmetricAbout demoGrid.y demoGrid.ny (3 / 2) ∧ (∀ k ∈ demoCalls, k.Valid) ∧ (∀ f : Field, ∃ k ∈ demoCalls, k.field = f) ∧
    makeDisk 1 cube (0, 3 / 2) 0 demoCalls = .ok p := by
  obtain ⟨cube, -, hc, hs⟩ := demoCube_exists
  obtain ⟨p0, k1, k2, k3, k4⟩ := init_sound hc demoGrid_proper 1 (0, 3 / 2) 0
  have off : ∃ c, demoGrid.Has c ∧ frameX demoGrid (0, 3 / 2) 0 c ≠ 0 :=
    ⟨⟨0, 0, 0, 0, 0⟩, by simp [Grid.Has, demoGrid, cubeGrid], by simp [frameX, centre, demoGrid, cubeGrid, evenEdges]; norm_num⟩
  rcases disk_history demoGrid_proper off _ p0 k3 demoCalls_valid with ⟨p, j1, j2, j3⟩ | ⟨-, -, j⟩
  · refine ⟨cube, p, hc, off, fun i hi => ?_, fun i hi => ?_, demoCalls_valid, fun f => ?_, ?_⟩
    · simp only [demoGrid, cubeGrid, evenEdges] at hi ⊢
      rw [Nat.cast_sub hi]; norm_num; ring
    · simp only [demoGrid, cubeGrid, evenEdges] at hi ⊢
      rw [Nat.cast_sub hi]; norm_num; ring
    · cases f <;> simp [demoCalls, DiskCall.field]
    · unfold makeDisk
      rw [k1]; exact j1
  · exfalso
    obtain ⟨pre, k, post, j1, j2, j3⟩ := j
    cases pre with
    | nil => simp only [List.nil_append, demoCalls, List.cons.injEq] at j1; rw [← j1.1] at j3; exact j3.1 rfl
    | cons k' pre =>
      simp only [List.cons_append, demoCalls, List.cons.injEq] at j1
      exact j2 k' (by simp) (by rw [← j1.1]; rfl)

end PKM
