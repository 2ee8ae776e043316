import Verif.Props.PointSymmetry
import Verif.Props.ParamYbar
import Verif.Props.AgeMetal

/-!
# C92: moving and scaling the velocities of a component

Two components that differ only in their velocities, the second having the velocities `a v + b` for the velocities `v` of the
first: `a = 1` is a shift of the systemic velocity, `a = -1, b = 0` counter-rotation, `a > 0, b = 0` another unit or a heavier
galaxy.  `s.setMuV lims` is `stream.set_mu_v(lims)`, `s.setSigV sig` is `stream.set_sig_v(sig)`, `GrowingDisk.setMuV p q rmax vmax`
is `disk.set_mu_v(q_lims=q, rmax_lims=rmax, vmax_lims=vmax)`.
-/

open scoped Classical
open MeasureTheory ProbabilityTheory Set

noncomputable section

namespace PKM
open Np Component

variable {p p' : Param} {g : Grid} {m m' : Ingredients} {L : ℕ → ℕ → ℝ} {f2 : ℝ} {center : ℝ × ℝ} {rotation : ℝ} {a b : ℝ}

/-! ### Specification -/

/-- Velocity bin `i'` is where the velocities of bin `i` go. -/
def ImageBin (g : Grid) (a b : ℝ) (i i' : ℕ) : Prop :=
  (g.v i' = a * g.v i + b ∧ g.v (i' + 1) = a * g.v (i + 1) + b) ∨ (g.v i' = a * g.v (i + 1) + b ∧ g.v (i' + 1) = a * g.v i + b)

/-- Answers of two components, the second of which has the velocities `a v + b`. -/
structure Faster (p p' : Param) (g : Grid) (a b : ℝ) : Prop where
  /-- distributions without the velocity are equal -/
  same : ∀ density lw, ∀ w ∈ marginals, 'v' ∉ w → ∃ q q', getP p.self w density lw = .ok q ∧ getP p'.self w density lw = .ok q' ∧
    ∀ c, g.Has c → q'.get (coords w c) = q.get (coords w c)
  /-- the distribution of velocities at an age and pixel moves from bins to their images -/
  losvd : ∃ q q', getP p.self "v_tx".toList false false = .ok q ∧ getP p'.self "v_tx".toList false false = .ok q' ∧
    ∀ c v', g.Has c → v' < g.nv → ImageBin g a b c.v v' → q'.get [v', c.t, c.x, c.y] = q.get [c.v, c.t, c.x, c.y]
  /-- and so do the distributions with the velocity. Light-weighted ones are normalised to the light on the velocity grid, which changes by one
  factor; it is 1 if all bins have images on the grid -/
  bins : ∀ lw, ∃ κ : ℝ, 0 < κ ∧ (lw = false → κ = 1) ∧ ((∀ i < g.nv, ∃ i' < g.nv, ImageBin g a b i i') → κ = 1) ∧
    ∀ density, ∀ w ∈ marginals, 'v' ∈ w → ∃ q q', getP p.self w density lw = .ok q ∧ getP p'.self w density lw = .ok q' ∧
      ∀ c v', g.Has c → v' < g.nv → ImageBin g a b c.v v' → ∃ u : ℝ, q.get (coords w c) = .fin u ∧
        q'.get (coords w { c with v := v' }) = .fin (κ * (if density then u / |a| else u))
  /-- means, wherever there are stars -/
  mean : ∀ lw e, ValidPair ['v'] e → ∃ r r', getMean p.self (distStr ['v'] e) lw = .ok r ∧ getMean p'.self (distStr ['v'] e) lw = .ok r' ∧
    ∀ c, g.Has c → Populated p lw e c → ∃ u : ℝ, r.get (coords e c) = .fin u ∧ r'.get (coords e c) = .fin (a * u + b)
  /-- central moments of all orders -/
  central : p.f2 = 1 → ∀ lw e (j : ℕ), ValidPair ['v'] e → ∃ r r', getCentralMoment p.self (distStr ['v'] e) j lw = .ok r ∧
    getCentralMoment p'.self (distStr ['v'] e) j lw = .ok r' ∧
    ∀ c, g.Has c → Populated p lw e c → ∃ u : ℝ, r.get (coords e c) = .fin u ∧ r'.get (coords e c) = .fin (a ^ j * u)

/-! ### Normal distributions -/

theorem normal_affine (μ σ a b : ℝ) : (normal μ σ).map (fun v => a * v + b) = normal (a * μ + b) (|a| * σ) := by
  have h1 : (normal μ σ).map (fun u => a * u + b) = ((normal μ σ).map (fun u => a * u)).map (fun u => u + b) := by
    rw [Measure.map_map (by fun_prop) (by fun_prop)]; rfl
  unfold normal at h1 ⊢
  rw [h1, gaussianReal_map_const_mul, gaussianReal_map_add_const]
  congr 1
  ext
  rw [NNReal.coe_mul, Real.coe_toNNReal _ (sq_nonneg _), Real.coe_toNNReal _ (sq_nonneg _), mul_pow, sq_abs]
  rfl

theorem integral_affine (μ σ a b : ℝ) (φ : ℝ → ℝ) (hφ : Continuous φ) :
    ∫ v, φ v ∂normal (a * μ + b) (|a| * σ) = ∫ v, φ (a * v + b) ∂normal μ σ := by
  rw [← normal_affine, integral_map (by fun_prop) hφ.aestronglyMeasurable]

theorem image_prob {μ σ : ℝ} (hσ : 0 < σ) (ha : a ≠ 0) (hg : g.Proper) {i i' : ℕ} (hi : i < g.nv) (hi' : i' < g.nv) (h : ImageBin g a b i i') :
    (normal (a * μ + b) (|a| * σ)).real (Ioc (g.v i') (g.v (i' + 1))) = (normal μ σ).real (Ioc (g.v i) (g.v (i + 1))) := by
  have h1 := hg.v i hi
  have h2 := hg.v i' hi'
  have hs : 0 < |a| * σ := mul_pos (abs_pos.2 ha) hσ
  rw [normal_Ioc hs h2.le, normal_Ioc hσ h1.le]
  rcases lt_or_gt_of_ne ha with hn | hp
  · rcases h with ⟨e1, e2⟩ | ⟨e1, e2⟩
    · exfalso; rw [e1, e2] at h2; nlinarith
    · rw [e1, e2, abs_of_neg hn]
      rw [show (a * g.v i + b - (a * μ + b)) / (-a * σ) = -((g.v i - μ) / σ) by field_simp; ring,
        show (a * g.v (i + 1) + b - (a * μ + b)) / (-a * σ) = -((g.v (i + 1) - μ) / σ) by field_simp; ring, stdPhi_neg, stdPhi_neg]
      ring
  · rcases h with ⟨e1, e2⟩ | ⟨e1, e2⟩
    · rw [e1, e2, abs_of_pos hp]
      rw [show (a * g.v i + b - (a * μ + b)) / (a * σ) = (g.v i - μ) / σ by field_simp; ring,
        show (a * g.v (i + 1) + b - (a * μ + b)) / (a * σ) = (g.v (i + 1) - μ) / σ by field_simp; ring]
    · exfalso; rw [e1, e2] at h2; nlinarith

theorem image_width (ha : a ≠ 0) (hg : g.Proper) {i i' : ℕ} (hi : i < g.nv) (hi' : i' < g.nv) (h : ImageBin g a b i i') :
    width g.v i' = |a| * width g.v i := by
  have h1 := hg.v i hi
  have h2 := hg.v i' hi'
  unfold width
  rcases lt_or_gt_of_ne ha with hn | hp
  · rcases h with ⟨e1, e2⟩ | ⟨e1, e2⟩
    · exfalso; rw [e1, e2] at h2; nlinarith
    · rw [e1, e2, abs_of_neg hn]; ring
  · rcases h with ⟨e1, e2⟩ | ⟨e1, e2⟩
    · rw [e1, e2, abs_of_pos hp]; ring
    · exfalso; rw [e1, e2] at h2; nlinarith

theorem image_inj (ha : a ≠ 0) (hg : g.Proper) {i j i' : ℕ} (hi : i < g.nv) (hj : j < g.nv) (hi' : i' < g.nv) (h : ImageBin g a b i i')
    (k : ImageBin g a b j i') : i = j := by
  have hm : ∀ k n, k < n → n ≤ g.nv → g.v k < g.v n := fun k n => by
    induction n with
    | zero => intro h; omega
    | succ n ih =>
      intro h h'
      have := hg.v n (by omega)
      rcases Nat.lt_succ_iff_lt_or_eq.1 h with h | rfl
      · exact (ih h (by omega)).trans this
      · exact this
  have h0 : g.v i = g.v j := by
    have h1 := hg.v i hi
    have h2 := hg.v i' hi'
    have h3 := hg.v j hj
    rcases lt_or_gt_of_ne ha with hn | hp
    · rcases h with ⟨e1, e2⟩ | ⟨e1, e2⟩
      · exfalso; rw [e1, e2] at h2; nlinarith
      · rcases k with ⟨d1, d2⟩ | ⟨d1, d2⟩
        · exfalso; rw [d1, d2] at h2; nlinarith
        · exact mul_left_cancel₀ ha (by linarith)
    · rcases h with ⟨e1, e2⟩ | ⟨e1, e2⟩
      · rcases k with ⟨d1, d2⟩ | ⟨d1, d2⟩
        · exact mul_left_cancel₀ ha (by linarith)
        · exfalso; rw [d1, d2] at h2; nlinarith
      · exfalso; rw [e1, e2] at h2; nlinarith
  rcases lt_trichotomy i j with h | h | h
  · exact absurd h0 (hm i j h hj.le).ne
  · exact h
  · exact absurd h0.symm (hm j i h hi.le).ne

/-! ### Ingredients -/

/-- The ingredients differ in the velocities only. -/
structure Ingredients.Faster (m m' : Ingredients) (a b : ℝ) : Prop where
  pt : m'.pt = m.pt
  px : m'.px = m.px
  pz : m'.pz = m.pz
  mu : ∀ t x y, m'.mu t x y = a * m.mu t x y + b
  sig : ∀ t x y, m'.sig t x y = |a| * m.sig t x y

section
variable (hf : m.Faster m' a b)
include hf

theorem Ingredients.Faster.probTXZ (c : Cell) : m'.probTXZ g c = m.probTXZ g c := by
  simp only [Ingredients.probTXZ, Ingredients.probT, Ingredients.probX, Ingredients.probZ, hf.pt, hf.px, hf.pz]

theorem Ingredients.Faster.weightTXZ (lw : Bool) (c : Cell) : m'.weightTXZ g L lw c = m.weightTXZ g L lw c := by
  simp only [Ingredients.weightTXZ, hf.probTXZ]

theorem Ingredients.Faster.noV (lw : Bool) {w : PyStr} (hw : 'v' ∉ w) (c : Cell) : m'.marginal g L lw w c = m.marginal g L lw w c := by
  simp only [Ingredients.marginal, if_neg hw, hf.weightTXZ]

theorem Ingredients.Faster.shines (h : Shines g m L) : Shines g m' L := by
  unfold Shines at h ⊢
  simp only [hf.probTXZ]
  exact h

theorem Ingredients.Faster.velExpect (lw : Bool) {e : PyStr} (he : 'v' ∉ e) {φ : ℝ → ℝ} (hφ : Continuous φ) (c : Cell) :
    m'.velExpect g L lw e φ c = m.velExpect g L lw e (fun v => φ (a * v + b)) c := by
  unfold Ingredients.velExpect
  rw [hf.noV lw he]
  refine congrArg (· / _) (sumTXZ_congr fun d => ?_)
  refine if_congr Iff.rfl ?_ rfl
  rw [hf.weightTXZ, hf.mu, hf.sig, integral_affine _ _ _ _ _ hφ]

theorem Ingredients.Faster.probV (hn : m.Normalised g) (ha : a ≠ 0) (hg : g.Proper) {c : Cell} {v' : ℕ} (hc : g.Has c) (hv : v' < g.nv)
    (hi : ImageBin g a b c.v v') : m'.probV g { c with v := v' } = m.probV g c := by
  unfold Ingredients.probV
  rw [hf.mu, hf.sig]
  exact image_prob (hn.sig _ _ _) ha hg hc.2.1 hv hi

theorem Ingredients.Faster.joint (hn : m.Normalised g) (ha : a ≠ 0) (hg : g.Proper) {c : Cell} {v' : ℕ} (hc : g.Has c) (hv : v' < g.nv)
    (hi : ImageBin g a b c.v v') : m'.joint g { c with v := v' } = m.joint g c := by
  unfold Ingredients.joint
  rw [hf.probV hn ha hg hc hv hi, hf.probTXZ]
  rfl

theorem Ingredients.Faster.light (hn : m.Normalised g) (ha : a ≠ 0) (hg : g.Proper) (hi : ∀ i < g.nv, ∃ i' < g.nv, ImageBin g a b i i') :
    totalLight g L (m'.joint g) = totalLight g L (m.joint g) := by
  choose! f f1 f2 using hi
  let F : Fin g.nv → Fin g.nv := fun i => ⟨f i, f1 i i.2⟩
  have hF : Function.Bijective F := Finite.injective_iff_bijective.1 fun i j hij => by
    have : f i = f j := congrArg Fin.val hij
    exact Fin.ext (image_inj ha hg i.2 j.2 (f1 i i.2) (f2 i i.2) (this ▸ f2 j j.2))
  unfold totalLight Grid.sumCells
  refine Finset.sum_congr rfl fun t _ => ?_
  rw [← (Equiv.ofBijective F hF).sum_comp]
  refine Finset.sum_congr rfl fun v _ => Finset.sum_congr rfl fun x _ => Finset.sum_congr rfl fun y _ => Finset.sum_congr rfl fun z _ => ?_
  have := hf.joint hn ha hg (c := ⟨t, v, x, y, z⟩) (v' := f v) ⟨t.2, v.2, x.2, y.2, z.2⟩ (f1 v v.2) (f2 v v.2)
  exact congrArg (L t z * ·) this

end

theorem velExpect_affine (lw : Bool) {e : PyStr} (he : 'v' ∉ e) (a b : ℝ) {c : Cell} (h0 : m.marginal g L lw e c ≠ 0) :
    m.velExpect g L lw e (fun v => a * v + b) c = a * m.velExpect g L lw e (fun v => v) c + b := by
  have h1 : m.marginal g L lw e c = Ingredients.sumTXZ g (fun d => if coords e d = coords e c then m.weightTXZ g L lw d else 0) := by
    unfold Ingredients.marginal; rw [if_neg he]
  have h2 : Ingredients.sumTXZ g (fun d => if coords e d = coords e c then
      m.weightTXZ g L lw d * ∫ v, (a * v + b) ∂(normal (m.mu d.t d.x d.y) (m.sig d.t d.x d.y)) else 0) =
      a * Ingredients.sumTXZ g (fun d => if coords e d = coords e c then
        m.weightTXZ g L lw d * ∫ v, v ∂(normal (m.mu d.t d.x d.y) (m.sig d.t d.x d.y)) else 0) + b * m.marginal g L lw e c := by
    rw [h1, ← sumTXZ_mul, ← sumTXZ_mul, ← sumTXZ_add]
    refine sumTXZ_congr fun d => ?_
    have e2 : ∫ v, (a * v + b) ∂(normal (m.mu d.t d.x d.y) (m.sig d.t d.x d.y)) = a * m.mu d.t d.x d.y + b := by
      rw [← integral_affine (φ := fun v => v) _ _ _ _ continuous_id, normal_mean]
    rw [e2, normal_mean]
    split
    · ring
    · simp
  unfold Ingredients.velExpect
  rw [h2, add_div, mul_div_assoc, mul_div_cancel_right₀ _ h0]

/-! ### Sums at one velocity -/

theorem coords_v {w : PyStr} (hw : w ∈ [] :: marginals) (hv : 'v' ∈ w) {c d : Cell} (h : coords w d = coords w c) : d.v = c.v := by
  rw [coords_eq_iff w hw] at h
  have := h 'v' hv
  simpa [coord1] using this

theorem coords_atV {w : PyStr} (hw : w ∈ [] :: marginals) (c d : Cell) (i j : ℕ) :
    coords w { d with v := i } = coords w { c with v := i } ↔ coords w { d with v := j } = coords w { c with v := j } := by
  rw [coords_eq_iff w hw, coords_eq_iff w hw]
  refine forall₂_congr fun ch _ => ?_
  unfold coord1
  split_ifs <;> simp

theorem marginal_atV (lw : Bool) {w : PyStr} (hw : w ∈ [] :: marginals) (hv : 'v' ∈ w) {c : Cell} (hc : c.v < g.nv) :
    m.marginal g L lw w c = Ingredients.sumTXZ g (fun d => if coords w { d with v := c.v } = coords w c then m.weight g L lw { d with v := c.v } else 0) := by
  unfold Ingredients.marginal
  rw [if_pos hv]
  unfold Grid.sumCells Ingredients.sumTXZ
  refine Finset.sum_congr rfl fun t _ => ?_
  rw [Finset.sum_eq_single ⟨c.v, hc⟩]
  · intro v _ hne
    refine Finset.sum_eq_zero fun x _ => Finset.sum_eq_zero fun y _ => Finset.sum_eq_zero fun z _ => if_neg fun h => hne ?_
    exact Fin.ext (coords_v hw hv h)
  · intro h; exact absurd (Finset.mem_univ _) h

theorem Ingredients.Faster.marginal (hf : m.Faster m' a b) (hn : m.Normalised g) (ha : a ≠ 0) (hg : g.Proper) (lw : Bool) {w : PyStr} (hw : w ∈ marginals)
    (hv : 'v' ∈ w) {c : Cell} {v' : ℕ} (hc : g.Has c) (hv' : v' < g.nv) (hi : ImageBin g a b c.v v')
    (h0 : lw = true → 0 < totalLight g L (m.joint g) ∧ 0 < totalLight g L (m'.joint g)) :
    m'.marginal g L lw w { c with v := v' } =
      (if lw then totalLight g L (m.joint g) / totalLight g L (m'.joint g) else 1) * m.marginal g L lw w c := by
  have hw' : w ∈ [] :: marginals := List.mem_cons_of_mem _ hw
  rw [marginal_atV lw hw' hv (c := { c with v := v' }) hv', marginal_atV lw hw' hv hc.2.1, ← sumTXZ_mul]
  refine sumTXZ_has hg fun d hd => ?_
  rw [if_congr (coords_atV hw' c d v' c.v) rfl rfl, mul_ite, mul_zero]
  refine if_congr Iff.rfl ?_ rfl
  have hj := hf.joint hn ha hg (c := { d with v := c.v }) (v' := v') ⟨hd.1, hc.2.1, hd.2.2⟩ hv' hi
  unfold Ingredients.weight
  cases lw
  · simpa using hj
  · obtain ⟨h1, h2⟩ := h0 rfl
    simp only [if_true]
    change L d.t d.z * m'.joint g { d with v := v' } / totalLight g L (m'.joint g) =
      totalLight g L (m.joint g) / totalLight g L (m'.joint g) * (L d.t d.z * m.joint g { d with v := c.v } / totalLight g L (m.joint g))
    have hj' : m'.joint g { d with v := v' } = m.joint g { d with v := c.v } := hj
    rw [hj']
    field_simp

theorem volOf_image (ha : a ≠ 0) (hg : g.Proper) {w : PyStr} (hw : w ∈ marginals) (hv : 'v' ∈ w) {c : Cell} {v' : ℕ} (hc : g.Has c) (hv' : v' < g.nv)
    (hi : ImageBin g a b c.v v') : g.volOf w { c with v := v' } = |a| * g.volOf w c := by
  have hwd := image_width ha hg hc.2.1 hv' hi
  fin_cases hw <;> simp [Grid.volOf, Grid.width1, hwd] at hv ⊢ <;> ring

/-! ### C92 -/

/-- Any two parametric components that differ only by `v ↦ a v + b`. -/
theorem C92_faster (h : ParamIs p g m L) (h' : ParamIs p' g m' L) (hl : Shines g m L) (hf : m.Faster m' a b) (ha : a ≠ 0) (hp : p'.f2 = p.f2) :
    Faster p p' g a b := by
  have hl' := hf.shines hl
  refine ⟨fun density lw w hw hv => ?_, ?_, fun lw => ?_, fun lw e he => ?_, fun h2 lw e j he => ?_⟩
  · obtain ⟨q, h1, -, h3⟩ := C32_marginals h density lw (fun _ => hl) w hw
    obtain ⟨q', k1, -, k3⟩ := C32_marginals h' density lw (fun _ => hl') w hw
    exact ⟨q, q', h1, k1, fun c hc => by rw [h3 c hc, k3 c hc, hf.noV lw hv]⟩
  · obtain ⟨-, ⟨q, h1, -, h3⟩, -⟩ := C32_ingredients h false
    obtain ⟨-, ⟨q', k1, -, k3⟩, -⟩ := C32_ingredients h' false
    refine ⟨q, q', h1, k1, fun c v' hc hv hi => ?_⟩
    rw [h3 c hc]
    have := k3 { c with v := v' } ⟨hc.1, hv, hc.2.2⟩
    rw [hf.probV h.norm ha h.proper hc hv hi] at this
    exact this
  · have h1 := h.lit (hl.tot h.proper)
    have h2 := h'.lit (hl'.tot h.proper)
    refine ⟨if lw then totalLight g L (m.joint g) / totalLight g L (m'.joint g) else 1, ?_, ?_, ?_, fun density w hw hv => ?_⟩
    · split
      · exact div_pos h1 h2
      · exact one_pos
    · rintro rfl; rfl
    · intro hi
      rw [hf.light h.norm ha h.proper hi, div_self h1.ne']
      simp
    · obtain ⟨q, i1, -, i3⟩ := C32_marginals h density lw (fun _ => hl) w hw
      obtain ⟨q', k1, -, k3⟩ := C32_marginals h' density lw (fun _ => hl') w hw
      refine ⟨q, q', i1, k1, fun c v' hc hv' hi => ⟨_, i3 c hc, ?_⟩⟩
      rw [k3 { c with v := v' } ⟨hc.1, hv', hc.2.2⟩, hf.marginal h.norm ha h.proper lw hw hv hc hv' hi fun _ => ⟨h1, h2⟩]
      cases density
      · simp
      · simp only [if_true]
        rw [volOf_image ha h.proper hw hv hc hv' hi, mul_div_assoc, div_div, mul_comm |a|]
  · obtain ⟨r, i1, -, i3⟩ := C34_mean h lw (fun _ => hl) he
    obtain ⟨r', k1, -, k3⟩ := C34_mean h' lw (fun _ => hl') he
    have hv := noV_of_valid he
    refine ⟨r, r', i1, k1, fun c hc hP => ⟨_, i3 c hc (hP.ne h hl (valid_marginals he) hc), ?_⟩⟩
    have h0 := hP.ne h hl (valid_marginals he) hc
    rw [k3 c hc (by rwa [hf.noV lw hv]), hf.velExpect lw hv continuous_id', velExpect_affine lw hv a b h0]
  · obtain ⟨r, i1, -, i3⟩ := C34_central h h2 lw (fun _ => hl) j he
    obtain ⟨r', k1, -, k3⟩ := C34_central h' (hp.trans h2) lw (fun _ => hl') j he
    have hv := noV_of_valid he
    refine ⟨r, r', i1, k1, fun c hc hP => ⟨_, i3 c hc (hP.ne h hl (valid_marginals he) hc), ?_⟩⟩
    have h0 := hP.ne h hl (valid_marginals he) hc
    rw [k3 c hc (by rwa [hf.noV lw hv]), hf.velExpect lw hv continuous_id', velExpect_affine lw hv a b h0,
      hf.velExpect lw hv (by fun_prop)]
    refine congrArg Num.fin (Eq.trans ?_ (velExpect_mul (m := m) (g := g) (L := L) lw e (a ^ j) _ c))
    refine congrArg (fun φ => m.velExpect g L lw e φ c) (funext fun v => ?_)
    rw [← mul_pow]
    exact congrArg (· ^ j) (by ring)

/-! ### Setters -/

/-- A component all of whose parts are set, with other velocities. -/
theorem ParamIs.withVelocity (h : ParamIs p g m L) {A B : Arr Num} {μ σ : ℕ → ℕ → ℕ → ℝ} (hσ : ∀ t x y, 0 < σ t x y)
    (hA : MArr g (['t','x','y'].map some) A (fun c => .fin (μ c.t c.x c.y))) (hB : MArr g (['t','x','y'].map some) B (fun c => .fin (σ c.t c.x c.y))) :
    ParamIs { p with muV := some A, sigV := some B } g { m with mu := μ, sig := σ } L :=
  ⟨h.proper, h.cubeIs, ⟨h.norm.pt, h.norm.px, h.norm.pz, hσ, h.norm.sumT, h.norm.sumX, h.norm.sumZ⟩, h.logPt, h.logPxt, h.logPztx,
    ⟨A, rfl, MArr.isArr (w := ['t','x']) (by decide) hA⟩, ⟨B, rfl, MArr.isArr (w := ['t','x']) (by decide) hB⟩, h.light, h.lightNonneg⟩

theorem streamMu_affine (theta lims : ℝ × ℝ) (a b : ℝ) (c : Cell) :
    streamMu g center rotation theta (a * lims.1 + b, a * lims.2 + b) c = a * streamMu g center rotation theta lims c + b := by
  unfold streamMu; ring

theorem ramp_mul (s e f0 f1 a τ : ℝ) : ramp s e (a * f0) (a * f1) τ = a * ramp s e f0 f1 τ := by
  unfold ramp
  split_ifs <;> ring

theorem atAge_mul (s e : ℝ) (lims : ℝ × ℝ) (a : ℝ) (t : ℕ) : atAge g s e (a * lims.1, a * lims.2) t = a * atAge g s e lims t := ramp_mul _ _ _ _ _ _

theorem diskMu_mul (s e : ℝ) (q rmax vmax : ℝ × ℝ) (a : ℝ) (c : Cell) :
    diskMu g center rotation s e q rmax (a * vmax.1, a * vmax.2) c = a * diskMu g center rotation s e q rmax vmax c := by
  unfold diskMu
  rw [atAge_mul]
  ring

theorem diskSig_mul (s e M : ℝ) (q alpha sIn sOut : ℝ × ℝ) (a : ℝ) (c : Cell) :
    diskSig g center rotation s e M q alpha (a * sIn.1, a * sIn.2) (a * sOut.1, a * sOut.2) c = a * diskSig g center rotation s e M q alpha sIn sOut c := by
  unfold diskSig fade
  rw [atAge_mul, atAge_mul]
  ring

/-- Streams: `set_mu_v` with limits `a l + b` instead of `l`, and `set_sig_v` with `|a| sig` instead of `sig`. -/
theorem C92_stream {s : Stream} (h : SoundStream s g f2 center rotation) (hg : g.Proper) (hset : ∀ f : Field, none ∉ f.get s.base)
    (hl : IsArr g ['t','z'] s.base.cube.ssps.lightWeights (fun c => .fin (L c.t c.z))) (hL : ∀ t z, 0 < L t z)
    (lims : ℝ × ℝ) (sig : ℝ) (hsig : 0 < sig) (ha : a ≠ 0) :
    ∃ s1 s2 s1' s2', s.setMuV lims = .ok s1 ∧ s1.setSigV sig = .ok s2 ∧ s.setMuV (a * lims.1 + b, a * lims.2 + b) = .ok s1' ∧
      s1'.setSigV (|a| * sig) = .ok s2' ∧ Faster s2.base s2'.base g a b := by
  obtain ⟨m, i1, i2, i3⟩ := h.base.paramIs hg hl (fun t z => (hL t z).le) hset
  obtain ⟨theta, ht⟩ : ∃ θ, s.thetaLims = some θ := by
    cases e : s.thetaLims with
    | none => exact absurd (h.space.1 e) (fun e' => hset .space (by simp [Field.get, e']))
    | some θ => exact ⟨θ, rfl⟩
  have hθ := h.theta theta ht
  obtain ⟨A, a1, a2⟩ := stream_setMuV h.base.built (lims := lims) ht hθ
  obtain ⟨A', b1, b2⟩ := stream_setMuV h.base.built (lims := (a * lims.1 + b, a * lims.2 + b)) ht hθ
  obtain ⟨B, c1, c2⟩ := stream_setSigV (s := { s with base := { s.base with muV := some A } }) (h.base.withMean (q := fun t x y =>
    streamMu g center rotation theta lims ⟨t, 0, x, y, 0⟩) a2).built sig
  obtain ⟨B', d1, d2⟩ := stream_setSigV (s := { s with base := { s.base with muV := some A' } }) (h.base.withMean (q := fun t x y =>
    streamMu g center rotation theta (a * lims.1 + b, a * lims.2 + b) ⟨t, 0, x, y, 0⟩) b2).built (|a| * sig)
  refine ⟨_, _, _, _, a1, c1, b1, d1, ?_⟩
  have j1 := i1.withVelocity (μ := fun t x y => streamMu g center rotation theta lims ⟨t, 0, x, y, 0⟩) (σ := fun _ _ _ => sig) (fun _ _ _ => hsig) a2 c2
  have j2 := i1.withVelocity (μ := fun t x y => streamMu g center rotation theta (a * lims.1 + b, a * lims.2 + b) ⟨t, 0, x, y, 0⟩)
    (σ := fun _ _ _ => |a| * sig) (fun _ _ _ => mul_pos (abs_pos.2 ha) hsig) b2 d2
  exact C92_faster j1 j2 (i1.shines (fun t _ z _ => hL t z) i2 i3 : Shines g m L) ⟨rfl, rfl, rfl, fun t x y => streamMu_affine _ _ _ _ _, fun _ _ _ => rfl⟩ ha rfl

/-- Growing disks: `set_mu_v` with `a vmax` instead of `vmax`, and `set_sig_v` with `|a|` times the limits. -/
theorem C92_disk (h : Sound p g f2 center rotation) (hg : g.Proper) (hset : ∀ f : Field, none ∉ f.get p)
    (hl : IsArr g ['t','z'] p.cube.ssps.lightWeights (fun c => .fin (L c.t c.z))) (hL : ∀ t z, 0 < L t z)
    (hx : ∃ c, g.Has c ∧ frameX g center rotation c ≠ 0) (q rmax vmax q' alpha sIn sOut : ℝ × ℝ)
    (hq : 0 < q.1 ∧ 0 < q.2) (hr : 0 < rmax.1 ∧ 0 < rmax.2) (hv : (0 ≤ vmax.1 ∧ 0 ≤ vmax.2) ∨ (vmax.1 ≤ 0 ∧ vmax.2 ≤ 0))
    (hq' : 0 < q'.1 ∧ 0 < q'.2) (hal : 0 ≤ alpha.1 ∧ 0 ≤ alpha.2) (hi : 0 < sIn.1 ∧ 0 < sIn.2) (ho : 0 < sOut.1 ∧ 0 < sOut.2) (ha : a ≠ 0) :
    ∃ p1 p2 p1' p2', GrowingDisk.setMuV p q rmax vmax = .ok p1 ∧ GrowingDisk.setSigV p1 q' alpha sIn sOut = .ok p2 ∧
      GrowingDisk.setMuV p q rmax (a * vmax.1, a * vmax.2) = .ok p1' ∧
      GrowingDisk.setSigV p1' q' alpha (|a| * sIn.1, |a| * sIn.2) (|a| * sOut.1, |a| * sOut.2) = .ok p2' ∧ Faster p2 p2' g a 0 := by
  have ha' := abs_pos.2 ha
  obtain ⟨m, i1, i2, i3⟩ := h.paramIs hg hl (fun t z => (hL t z).le) hset
  obtain ⟨s, e, hA⟩ := h.aged fun e => hset .age (by simp [Field.get, e])
  obtain ⟨M, -, hM⟩ := h.built.amax hg
  have hM0 : 0 < M := by
    obtain ⟨c, hc, h0⟩ := hx
    exact (abs_pos.2 h0).trans_le (hM.2 c hc)
  have hv' : (0 ≤ a * vmax.1 ∧ 0 ≤ a * vmax.2) ∨ (a * vmax.1 ≤ 0 ∧ a * vmax.2 ≤ 0) := by
    rcases le_total 0 a with h0 | h0 <;> rcases hv with ⟨h1, h2⟩ | ⟨h1, h2⟩
    · exact Or.inl ⟨mul_nonneg h0 h1, mul_nonneg h0 h2⟩
    · exact Or.inr ⟨mul_nonpos_of_nonneg_of_nonpos h0 h1, mul_nonpos_of_nonneg_of_nonpos h0 h2⟩
    · exact Or.inr ⟨mul_nonpos_of_nonpos_of_nonneg h0 h1, mul_nonpos_of_nonpos_of_nonneg h0 h2⟩
    · exact Or.inl ⟨mul_nonneg_of_nonpos_of_nonpos h0 h1, mul_nonneg_of_nonpos_of_nonpos h0 h2⟩
  obtain ⟨A, a1, a2⟩ := disk_setMuV h.built hA hq hr hv
  obtain ⟨A', b1, b2⟩ := disk_setMuV h.built hA hq hr (vmax := (a * vmax.1, a * vmax.2)) hv'
  obtain ⟨B, c1, c2⟩ := disk_setSigV (p := { p with muV := some A }) (h.withMean (q := fun t x y =>
    diskMu g center rotation s e q rmax vmax ⟨t, 0, x, y, 0⟩) a2).built hg (s := s) (e := e) hA hq' hal hi ho hM hM0
  obtain ⟨B', d1, d2⟩ := disk_setSigV (p := { p with muV := some A' }) (h.withMean (q := fun t x y =>
    diskMu g center rotation s e q rmax (a * vmax.1, a * vmax.2) ⟨t, 0, x, y, 0⟩) b2).built hg (s := s) (e := e) hA hq' hal
    (sIn := (|a| * sIn.1, |a| * sIn.2)) (sOut := (|a| * sOut.1, |a| * sOut.2))
    ⟨mul_pos ha' hi.1, mul_pos ha' hi.2⟩ ⟨mul_pos ha' ho.1, mul_pos ha' ho.2⟩ hM hM0
  refine ⟨_, _, _, _, a1, c1, b1, d1, ?_⟩
  have pos : ∀ (u w : ℝ × ℝ), (0 < u.1 ∧ 0 < u.2) → (0 < w.1 ∧ 0 < w.2) → ∀ t x y, 0 < diskSig g center rotation s e M q' alpha u w ⟨t, 0, x, y, 0⟩ := by
    intro u w hu hw t x y
    have hR : 0 ≤ ellR g center rotation (atAge g s e q' t) ⟨t, 0, x, y, 0⟩ / M := div_nonneg (ellR_nonneg _ _ _ _ _) hM0.le
    exact (lt_min (atAge_pos hA.2 g hu.1 hu.2 t) (atAge_pos hA.2 g hw.1 hw.2 t)).trans_le (fade_mem hR).1
  have j1 := i1.withVelocity (μ := fun t x y => diskMu g center rotation s e q rmax vmax ⟨t, 0, x, y, 0⟩)
    (σ := fun t x y => diskSig g center rotation s e M q' alpha sIn sOut ⟨t, 0, x, y, 0⟩) (pos _ _ hi ho) a2 c2
  have j2 := i1.withVelocity (μ := fun t x y => diskMu g center rotation s e q rmax (a * vmax.1, a * vmax.2) ⟨t, 0, x, y, 0⟩)
    (σ := fun t x y => diskSig g center rotation s e M q' alpha (|a| * sIn.1, |a| * sIn.2) (|a| * sOut.1, |a| * sOut.2) ⟨t, 0, x, y, 0⟩)
    (pos _ _ ⟨mul_pos ha' hi.1, mul_pos ha' hi.2⟩ ⟨mul_pos ha' ho.1, mul_pos ha' ho.2⟩) b2 d2
  exact C92_faster j1 j2 (i1.shines (fun t _ z _ => hL t z) i2 i3 : Shines g m L) ⟨rfl, rfl, rfl, fun t x y => by rw [add_zero]; exact diskMu_mul _ _ _ _ _ _ _,
    fun _ _ _ => diskSig_mul _ _ _ _ _ _ _ _ _⟩ ha rfl

/-- A stream whose velocities move by one bin of 100 km/s: the mean velocities in all pixels, and the number of stars in the second bin is that
which was in the first. -/
example : ∃ (s s1 s2 s1' s2' : Stream) (r r' M M' : Arr Num) (u μ : ℝ), SoundStream s demoGrid 1 (0, 0) 0 ∧ s.setMuV (-50, 100) = .ok s1 ∧
    s1.setSigV 20 = .ok s2 ∧ s.setMuV (50, 200) = .ok s1' ∧ s1'.setSigV 20 = .ok s2' ∧ getP s2.base.self "v".toList false false = .ok r ∧
    getP s2'.base.self "v".toList false false = .ok r' ∧ r.get [0] = .fin u ∧ r'.get [1] = .fin u ∧
    getMean s2.base.self "v".toList true = .ok M ∧ getMean s2'.base.self "v".toList true = .ok M' ∧ M.get [] = .fin μ ∧ M'.get [] = .fin (μ + 100) := by
  obtain ⟨s, j, hf, L, hl, hL⟩ := complete_stream
  obtain ⟨s1, s2, s1', s2', a1, a2, a3, a4, a5⟩ := C92_stream (a := 1) (b := 100) j demoGrid_proper hf hl hL (-50, 100) 20 (by norm_num) one_ne_zero
  have hc : demoGrid.Has ⟨0, 0, 0, 0, 0⟩ := by simp [Grid.Has, demoGrid, cubeGrid]
  have hv : ∀ i : ℕ, demoGrid.v i = -100 + i * 100 := fun i => by norm_num [demoGrid, cubeGrid, evenEdges]
  obtain ⟨κ, -, k1, -, k2⟩ := a5.bins false
  obtain ⟨r, r', r1, r2, r3⟩ := k2 false ['v'] (by decide) (by decide)
  obtain ⟨u, u1, u2⟩ := r3 ⟨0, 0, 0, 0, 0⟩ 1 hc (by norm_num [demoGrid, cubeGrid]) (Or.inl ⟨by rw [hv, hv]; norm_num, by rw [hv, hv]; norm_num⟩)
  obtain ⟨M, M', m1, m2, m3⟩ := a5.mean true [] (Or.inl ⟨rfl, by decide⟩)
  obtain ⟨μ, w1, w2⟩ := m3 _ hc (Or.inl rfl)
  refine ⟨s, s1, s2, s1', s2', r, r', M, M', u, μ, j, a1, a2, ?_, ?_, r1, r2, u1, ?_, m1, m2, w1, by simpa [coords] using w2⟩
  · convert a3 using 2; norm_num
  · simpa using a4
  · rw [k1 rfl] at u2; simpa [coords, coord1] using u2

/-- A disk rotating one way, and the same disk rotating the other way and with the same dispersions. -/
example : ∃ (p p1 p2 p1' p2' : Param) (M M' : Arr Num), Sound p demoGrid 1 (0, 0) 0 ∧ GrowingDisk.setMuV p (0.5, 0.5) (0.1, 1) (50, 250) = .ok p1 ∧
    GrowingDisk.setSigV p1 (0.5, 0.5) (1, 2) (50, 60) (20, 30) = .ok p2 ∧ GrowingDisk.setMuV p (0.5, 0.5) (0.1, 1) (-50, -250) = .ok p1' ∧
    GrowingDisk.setSigV p1' (0.5, 0.5) (1, 2) (50, 60) (20, 30) = .ok p2' ∧ getMean p2.self "v".toList false = .ok M ∧
    getMean p2'.self "v".toList false = .ok M' ∧ ∃ μ : ℝ, M.get [] = .fin μ ∧ M'.get [] = .fin (-μ) := by
  obtain ⟨p, j, hf, L, hl, hL⟩ := complete_demo
  obtain ⟨p1, p2, p1', p2', a1, a2, a3, a4, a5⟩ := C92_disk (a := -1) j demoGrid_proper hf hl hL demo_offcentre (0.5, 0.5) (0.1, 1) (50, 250) (0.5, 0.5) (1, 2)
    (50, 60) (20, 30) (by norm_num) (by norm_num) (by norm_num) (by norm_num) (by norm_num) (by norm_num) (by norm_num) (by norm_num)
  have hc : demoGrid.Has ⟨0, 0, 0, 0, 0⟩ := by simp [Grid.Has, demoGrid, cubeGrid]
  obtain ⟨M, M', m1, m2, m3⟩ := a5.mean false [] (Or.inl ⟨rfl, by decide⟩)
  obtain ⟨μ, w1, w2⟩ := m3 _ hc (Or.inl rfl)
  refine ⟨p, p1, p2, p1', p2', M, M', j, a1, a2, ?_, ?_, m1, m2, μ, w1, by simpa [coords] using w2⟩
  · convert a3 using 2; norm_num
  · simpa using a4

end PKM
