import Verif.PopMoments

/-!
# C66: means and central moments of mixtures of plain and parametric components

`MixOf m g n ω pop L` and `mixPop` are those of C65. `(mixPop n ω pop).expect g L lw b q φ c` (PopSpec) is the
expectation of `φ` of the quantity `q` over those stars of the mixture which have the values of `b` at `c`, by mass or by
light. `Mix.getMean m w lw` is `mixture.get_mean(w, light_weighted)`, `Mix.getCentralMoment m w j lw` is
`mixture.get_central_moment(w, j, light_weighted)`.
-/

open scoped Classical

noncomputable section

namespace PKM
open Np Component

variable {g : Grid} {L : ℕ → ℕ → ℝ} {lw : Bool} {m : Mix} {n : ℕ} {ω : ℕ → ℝ} {pop : ℕ → Pop}

theorem expect_nil (h : MixOf m g n ω pop L) (q : Char) (φ : ℝ → ℝ) (c : Cell)
    (h1 : lw = false → (mixPop n ω pop).amount g L false [] c = 1) :
    (mixPop n ω pop).num g L lw [] q φ c / (mixPop n ω pop).norm g L lw [] c = (mixPop n ω pop).expect g L lw [] q φ c := by
  rw [Pop.expect_num]
  unfold Pop.norm
  cases lw with
  | false => rw [if_pos ⟨rfl, rfl⟩, h1 rfl]
  | true => rw [if_neg (by simp)]

/-- All means (32 strings, both weightings) except light-weighted ones given the velocity: the mean over the stars of the
mixture, where all members have stars. Unconditional means by mass take for granted that all masses add up to one. -/
theorem C66_mean_partial (h : MixOf m g n ω pop L) (hl : lw = true → ∀ i < n, (pop i).Shines g L)
    (q : Char) (hq : q ∈ ['t','v','x','y','z']) (b : PyStr) (hb : ValidPair (varOf q) b) (hv : lw = false ∨ 'v' ∉ b) :
    ∃ r, Mix.getMean m (distStr (varOf q) b) lw = .ok r ∧ r.shape = compShape (varOf q) ++ g.shapeOf b ∧
      ∀ c, g.Has c → (∀ i < n, (pop i).amount g L lw b c ≠ 0) →
        (b = [] → lw = false → (mixPop n ω pop).amount g L false [] c = 1) →
        r.get (compIdx q ++ coords b c) = .fin ((mixPop n ω pop).expect g L lw b q (fun x => x) c) := by
  obtain ⟨h1, h2, -⟩ := quantity_facts hq
  obtain ⟨r, F, hr, hr', hF⟩ := h.mean_is hl hb h1
  refine ⟨r, hr, hr'.1, fun c hc h0 hn => ?_⟩
  rw [hr'.2 q h2 c hc, hF q h2 c hc h0]
  by_cases e : b = []
  · subst e
    rw [if_pos rfl, expect_nil h q _ c (hn rfl)]
  · rw [if_neg e, ← h.shares_expect hl _ h0]
    unfold mixMean
    simp only [fun i : Fin n => h.share_same hv i.2]

/-- Light-weighted means given the velocity: what is returned. The members' means are weighted with their
shares of the light of all stars, instead of the shares of the light in the velocity range. -/
theorem C66_mean_given_velocity (h : MixOf m g n ω pop L) (hl : ∀ i < n, (pop i).Shines g L)
    (q : Char) (hq : q ∈ ['t','v','x','y','z']) (b : PyStr) (hb : ValidPair (varOf q) b) (hv : 'v' ∈ b) :
    ∃ r, Mix.getMean m (distStr (varOf q) b) true = .ok r ∧ ∀ c, g.Has c → (∀ i < n, (pop i).amount g L true b c ≠ 0) →
      (r.get (compIdx q ++ coords b c) = .fin ((∑ i : Fin n, shareIn g L true n ω pop ['t','x','z'] i *
          (pop i).marginal g L true b c * (pop i).expect g L true b q (fun x => x) c) / (mixPop n ω pop).marginal g L true b c)) ∧
      (mixPop n ω pop).expect g L true b q (fun x => x) c = (∑ i : Fin n, shareIn g L true n ω pop b i *
          (pop i).marginal g L true b c * (pop i).expect g L true b q (fun x => x) c) / (mixPop n ω pop).marginal g L true b c := by
  obtain ⟨h1, h2, -⟩ := quantity_facts hq
  obtain ⟨r, F, hr, hr', hF⟩ := h.mean_is (lw := true) (fun _ => hl) hb h1
  have e : b ≠ [] := by rintro rfl; simp at hv
  refine ⟨r, hr, fun c hc h0 => ⟨?_, ?_⟩⟩
  · rw [hr'.2 q h2 c hc, hF q h2 c hc h0, if_neg e]; rfl
  · rw [h.shares_expect (fun _ => hl) _ h0]

/-- All central moments (any order) except those of the velocity given age, pixel and metallicity: over the stars of
the mixture, about the mean that the mixture returns, where all members have stars. -/
theorem C66_central_about_mean (h : MixOf m g n ω pop L) (hl : lw = true → ∀ i < n, (pop i).Shines g L)
    (hm : ∀ (i : ℕ) (hi : i < m.children.length), IsMember1 g L m.children[i] (pop i))
    (q : Char) (hq : q ∈ ['t','v','x','y','z']) (b : PyStr) (hb : ValidPair (varOf q) b)
    (hvb : ¬ (q = 'v' ∧ b = ['t','x','z'])) (j : ℕ) :
    ∃ r M, Mix.getCentralMoment m (distStr (varOf q) b) j lw = .ok r ∧ Mix.getMean m (distStr (varOf q) b) lw = .ok M ∧
      r.shape = compShape (varOf q) ++ g.shapeOf b ∧
      ∀ c (μ : ℝ), g.Has c → (∀ i < n, (pop i).amount g L lw b c ≠ 0) →
        (b = [] → lw = false → (mixPop n ω pop).amount g L false [] c = 1) →
        M.get (compIdx q ++ coords b c) = .fin μ →
        r.get (compIdx q ++ coords b c) = .fin ((mixPop n ω pop).expect g L lw b q (fun x => (x - μ) ^ j) c) := by
  obtain ⟨h1, h2, -⟩ := quantity_facts hq
  have hqv : varOf q = ['v'] → q = 'v' := by
    intro e; fin_cases hq <;> first | rfl | exact absurd e (by decide)
  obtain ⟨M, F, hM, hM', -⟩ := h.mean_is hl hb h1
  obtain ⟨r, F', hr, hr', hF'⟩ := h.central_is hl hb h1 j hM hM' (cen := fun _ c => c) (fun i hi =>
    (hm i hi).says (fun e => hl e i (h.children ▸ hi)) hb h1 (fun e => hvb ⟨hqv e.1, e.2⟩))
  refine ⟨r, M, hr, hM, hr'.1, fun c μ hc h0 hn hμ => ?_⟩
  rw [hM'.2 q h2 c hc] at hμ
  rw [hr'.2 q h2 c hc, hF' q h2 c (fun _ => μ) hc h0 (fun _ _ => hμ)]
  by_cases e : b = []
  · subst e
    have := nil_sum h hl q (fun x => (x - μ) ^ j) c
    simp only [Num.fin_mul, Num.fin_sum] at this
    rw [if_pos rfl, this, expect_nil h q _ c (hn rfl)]
  · rw [if_neg e, h.shares_expect hl _ h0]

/-- So they are the central moments of the stars of the mixture, about its mean; except light-weighted ones given the
velocity, and those of the velocity given age, pixel and metallicity. -/
theorem C66_central_partial (h : MixOf m g n ω pop L) (hl : lw = true → ∀ i < n, (pop i).Shines g L)
    (hm : ∀ (i : ℕ) (hi : i < m.children.length), IsMember1 g L m.children[i] (pop i))
    (q : Char) (hq : q ∈ ['t','v','x','y','z']) (b : PyStr) (hb : ValidPair (varOf q) b) (hv : lw = false ∨ 'v' ∉ b)
    (hvb : ¬ (q = 'v' ∧ b = ['t','x','z'])) (j : ℕ) :
    ∃ r, Mix.getCentralMoment m (distStr (varOf q) b) j lw = .ok r ∧ r.shape = compShape (varOf q) ++ g.shapeOf b ∧
      ∀ c, g.Has c → (∀ i < n, (pop i).amount g L lw b c ≠ 0) →
        (b = [] → lw = false → (mixPop n ω pop).amount g L false [] c = 1) →
        r.get (compIdx q ++ coords b c) = .fin ((mixPop n ω pop).expect g L lw b q
          (fun x => (x - (mixPop n ω pop).expect g L lw b q (fun x => x) c) ^ j) c) := by
  obtain ⟨r, M, hr, hM, hs, hg⟩ := C66_central_about_mean h hl hm q hq b hb hvb j
  obtain ⟨M', hM', -, hg'⟩ := C66_mean_partial h hl q hq b hb hv
  rw [hM] at hM'
  cases hM'
  exact ⟨r, hr, hs, fun c hc h0 hn => hg c _ hc h0 hn (hg' c hc h0 hn)⟩

/-- The masses add up to one if the weights do and the tables of the plain members do: parametric members always do. -/
theorem C66_normalised (h : MixOf m g n ω pop L) (hω : ∑ i : Fin n, ω i = 1)
    (hρ : ∀ i < n, (∃ ρ, pop i = tablePop g ρ ∧ (∀ c, 0 ≤ ρ c) ∧ g.sumCells (fun c => ρ c * g.cellVolume c) = 1) ∨
      ∃ p mi, ParamIs p g mi L ∧ pop i = mi.pop g) (c : Cell) : (mixPop n ω pop).amount g L false [] c = 1 := by
  have hg := h.proper
  rw [amount_mixPop, ← hω]
  refine Finset.sum_congr rfl fun i _ => ?_
  rw [show (pop i).amount g L false [] c = 1 from ?_, mul_one]
  rcases hρ i i.2 with ⟨ρ, e, h0, h1⟩ | ⟨p, mi, hp, e⟩
  · rw [e, Pop.amount_eq hg (tablePop_ok hg h0), tablePop_marg hg _ (fun d => Pop.wt L false d) (fun _ _ => rfl)]
    simp only [Grid.marg, coords, Pop.wt, List.flatMap_nil, if_true, Bool.false_eq_true, if_false, one_mul]
    exact h1
  · rw [e, Pop.amount_eq hg hp.pop_ok, ingr_cells]
    have := PS_total hp false (by simp)
    simp only [Grid.marg, coords, Pop.wt, pick, List.flatMap_nil, if_true, Bool.false_eq_true, if_false, one_mul, List.not_mem_nil]
    exact this

/-! ### Where it fails -/

/-- Two stars (or two halves of a star) in the cells `c1` and `c2` of the example grid, as a table of densities. -/
def twoStars (c1 c2 : Cell) (d : Cell) : ℝ :=
  ((if d = c1 then 1 / 2 else 0) + (if d = c2 then 1 / 2 else 0)) / demoGrid.cellVolume d

/-- The logarithms of densities on the example grid. -/
def demoStoredOf (ρ : Cell → ℝ) : Arr Num where
  shape := [2, 4, 5, 6, 3]
  get := fun i => Num.lg (ρ ⟨i.getD 0 0, i.getD 1 0, i.getD 2 0, i.getD 3 0, i.getD 4 0⟩)

theorem hasSum_congr {F G : Cell → ℝ} (h : ∀ d, g.Has d → F d = G d) : g.sumCells F = g.sumCells G := by
  unfold Grid.sumCells
  exact Finset.sum_congr rfl fun t _ => Finset.sum_congr rfl fun v _ => Finset.sum_congr rfl fun x _ =>
    Finset.sum_congr rfl fun y _ => Finset.sum_congr rfl fun z _ => h _ ⟨t.2, v.2, x.2, y.2, z.2⟩

section
variable {c1 c2 : Cell} (h1 : demoGrid.Has c1) (h2 : demoGrid.Has c2)
include h1 h2

theorem twoStars_nonneg (d : Cell) : 0 ≤ twoStars c1 c2 d := by
  unfold twoStars
  have e1 := cellVolume_pos demoGrid_proper h1
  have e2 := cellVolume_pos demoGrid_proper h2
  by_cases a : d = c1
  · subst a; split_ifs <;> positivity
  · by_cases b : d = c2
    · subst b; split_ifs <;> positivity
    · simp [a, b]

theorem twoStars_sum (f : Cell → ℝ) : demoGrid.sumCells (fun d => f d * massP demoGrid (twoStars c1 c2) d) = (f c1 + f c2) / 2 := by
  have e : ∀ d, demoGrid.Has d → f d * massP demoGrid (twoStars c1 c2) d =
      (if d = c1 then f d / 2 else 0) + (if d = c2 then f d / 2 else 0) := fun d hd => by
    have := (cellVolume_pos demoGrid_proper hd).ne'
    unfold massP twoStars
    rw [div_mul_cancel₀ _ this]
    split_ifs <;> ring
  have ea : ∀ F G : Cell → ℝ, demoGrid.sumCells (fun d => F d + G d) = demoGrid.sumCells F + demoGrid.sumCells G := fun F G => by
    simp only [Grid.sumCells, Finset.sum_add_distrib]
  rw [hasSum_congr e, ea, sumCells_single h1 (fun d hd => if_neg hd), sumCells_single h2 (fun d hd => if_neg hd),
    if_pos rfl, if_pos rfl]
  ring

theorem twoStars_marg (f : Cell → ℝ) (b : PyStr) (c : Cell) :
    demoGrid.marg (fun d => f d * massP demoGrid (twoStars c1 c2) d) b c =
      ((if coords b c1 = coords b c then f c1 else 0) + (if coords b c2 = coords b c then f c2 else 0)) / 2 := by
  rw [← twoStars_sum h1 h2 (fun d => if coords b d = coords b c then f d else 0)]
  unfold Grid.marg
  congr 1; funext d
  split <;> simp

end

/-- The disk of the example mixed with two stars. -/
theorem demoStarMix : ∃ cube p mi t0, ParamIs p demoGrid mi demoL ∧ p.f2 = 1 ∧ t0 < 2 ∧
    (∀ c, demoGrid.Has c → c.t = t0 → 0 < mi.probTXZ demoGrid c) ∧
    ∀ c1 c2, demoGrid.Has c1 → demoGrid.Has c2 → ∃ m, Mix.init cube [Component.child p.self none,
      Component.child (baseSelf cube (demoStoredOf (twoStars c1 c2))) none] [1 / 4, 3 / 4] = .ok m ∧
    m.children = [Component.child p.self none, Component.child (baseSelf cube (demoStoredOf (twoStars c1 c2))) none] ∧
    BaseIs cube (demoStoredOf (twoStars c1 c2)) demoGrid (twoStars c1 c2) demoL ∧
    MixOf m demoGrid 2 (fun i => if i = 0 then 1 / 4 else 3 / 4) (fun i => if i = 0 then mi.pop demoGrid else
      tablePop demoGrid (twoStars c1 c2)) demoL ∧
    (∀ i < 2, (if i = 0 then mi.pop demoGrid else tablePop demoGrid (twoStars c1 c2)).Shines demoGrid demoL) ∧
    ∀ (i : ℕ) (hi : i < m.children.length), IsMember1 demoGrid demoL m.children[i]
      (if i = 0 then mi.pop demoGrid else tablePop demoGrid (twoStars c1 c2)) := by
  obtain ⟨cube, -, hc, hs⟩ := demoCube_exists
  obtain ⟨p, mi, hP, hS, -, hf, t0, ht, hpos⟩ := demoDisk_pos 1
  refine ⟨cube, p, mi, t0, hP, hf, ht, hpos, fun c1 c2 h1 h2 => ⟨_, (C28_constructor cube _ _).2 (by norm_num), rfl, ?_, ?_, ?_, ?_⟩⟩
  all_goals
    have hB : BaseIs cube (demoStoredOf (twoStars c1 c2)) demoGrid (twoStars c1 c2) demoL :=
      ⟨demoGrid_proper, hc, ⟨rfl, fun c _ => rfl⟩, twoStars_nonneg h1 h2, demo_light hs, fun t z => (demoL_pos t z).le⟩
  · exact hB
  · refine ⟨by norm_num, hc, demo_light hs, rfl, by simp [List.range_succ], fun i hi => by split_ifs <;> norm_num, fun i hi => ?_⟩
    have : i < 2 := hi
    interval_cases i
    · exact .parametric p mi none hP rfl rfl
    · exact .plain cube _ _ none hB rfl rfl
  · intro i hi
    unfold Pop.Shines
    interval_cases i
    · simp only [if_true]
      rw [Pop.lightOf_eq hP.proper hP.pop_ok, ingr_cells]
      exact hS.tot hP.proper
    · simp only [one_ne_zero, if_false]
      rw [Pop.lightOf_eq hB.proper (tablePop_ok hB.proper hB.nonneg), tablePop_light hB.proper]
      unfold totalLight
      rw [twoStars_sum h1 h2 (fun d => demoL d.t d.z)]
      have := demoL_pos c1.t c1.z
      have := demoL_pos c2.t c2.z
      positivity
  · intro i hi
    have : i < 2 := hi
    interval_cases i
    · exact .parametric p mi none hP hf rfl rfl
    · exact .plain cube _ _ none hB rfl rfl

/-- Normal velocities are not confined to the range of the grid: light is lost. -/
theorem lost_light {p : Param} {mi : Ingredients} (h : ParamIs p g mi L) (hL : ∀ t z, 0 < L t z) {c0 : Cell} (hc0 : g.Has c0)
    (h0 : 0 < mi.probTXZ g c0) {b : PyStr} (hv : 'v' ∈ b) : (mi.pop g).lightOf g L b < (mi.pop g).lightOf g L ['t','x','z'] := by
  unfold Pop.lightOf
  rw [if_pos hv, if_neg (by decide), sumCells_sumV, ingr_stars]
  have hg := h.proper
  have hv0 : 0 < g.nv := hg.nv
  have e : ∀ (t : Fin g.nt) (x : Fin g.nx) (y : Fin g.ny) (z : Fin g.nz),
      ∑ v : Fin g.nv, L t z * (mi.pop g).joint { (⟨t, 0, x, y, z⟩ : Cell) with v := v } =
        L t z * mi.probTXZ g ⟨t, 0, x, y, z⟩ * probRange g mi ⟨t, 0, x, y, z⟩ := fun t x y z => by
    rw [← sum_probV h (c := ⟨t, 0, x, y, z⟩) ⟨t.2, hv0, x.2, y.2, z.2⟩, Finset.mul_sum]
    refine Finset.sum_congr rfl fun v _ => ?_
    rw [mul_assoc]; rfl
  have hst : ∀ (t : Fin g.nt) (x : Fin g.nx) (y : Fin g.ny) (z : Fin g.nz), 0 ≤ mi.probTXZ g ⟨t, 0, x, y, z⟩ := fun t x y z => by
    have := h.pop_ok.stars ⟨t, 0, x, y, z⟩ ⟨t.2, hv0, x.2, y.2, z.2⟩
    rwa [ingr_stars] at this
  have le : ∀ (t : Fin g.nt) (x : Fin g.nx) (y : Fin g.ny) (z : Fin g.nz),
      L t z * mi.probTXZ g ⟨t, 0, x, y, z⟩ * probRange g mi ⟨t, 0, x, y, z⟩ ≤ L t z * mi.probTXZ g ⟨t, 0, x, y, z⟩ :=
    fun t x y z => mul_le_of_le_one_right (mul_nonneg (hL _ _).le (hst t x y z)) (probRange_lt_one h _).le
  unfold Ingredients.sumTXZ
  simp only [e]
  obtain ⟨i1, i2, i3, i4, i5⟩ := hc0
  refine Finset.sum_lt_sum (fun t _ => Finset.sum_le_sum fun x _ => Finset.sum_le_sum fun y _ => Finset.sum_le_sum fun z _ => le t x y z)
    ⟨⟨c0.t, i1⟩, Finset.mem_univ _, Finset.sum_lt_sum (fun x _ => Finset.sum_le_sum fun y _ => Finset.sum_le_sum fun z _ => le _ x y z)
    ⟨⟨c0.x, i3⟩, Finset.mem_univ _, Finset.sum_lt_sum (fun y _ => Finset.sum_le_sum fun z _ => le _ _ y z)
    ⟨⟨c0.y, i4⟩, Finset.mem_univ _, Finset.sum_lt_sum (fun z _ => le _ _ _ z) ⟨⟨c0.z, i5⟩, Finset.mem_univ _, ?_⟩⟩⟩⟩
  have h0' : 0 < mi.probTXZ g ⟨c0.t, 0, c0.x, c0.y, c0.z⟩ := h0
  exact mul_lt_of_lt_one_right (mul_pos (hL _ _) h0') (probRange_lt_one h _)

theorem twoStars_amount {c1 c2 : Cell} (h1 : demoGrid.Has c1) (h2 : demoGrid.Has c2) (b : PyStr) (c : Cell) :
    (tablePop demoGrid (twoStars c1 c2)).amount demoGrid demoL lw b c =
      ((if coords b c1 = coords b c then Pop.wt demoL lw c1 else 0) + (if coords b c2 = coords b c then Pop.wt demoL lw c2 else 0)) / 2 := by
  rw [Pop.amount_eq demoGrid_proper (tablePop_ok demoGrid_proper (twoStars_nonneg h1 h2)),
    tablePop_marg demoGrid_proper _ (fun d => Pop.wt demoL lw d) (fun _ _ => rfl), twoStars_marg h1 h2]

theorem twoStars_num {c1 c2 : Cell} (h1 : demoGrid.Has c1) (h2 : demoGrid.Has c2) (b : PyStr) {k : Char} (hkb : k = 'v' → 'v' ∉ b)
    (φ : ℝ → ℝ) (c : Cell) :
    (tablePop demoGrid (twoStars c1 c2)).num demoGrid demoL lw b k φ c =
      ((if coords b c1 = coords b c then φ (demoGrid.value k c1) * Pop.wt demoL lw c1 else 0) +
        (if coords b c2 = coords b c then φ (demoGrid.value k c2) * Pop.wt demoL lw c2 else 0)) / 2 := by
  rw [tablePop_num demoGrid_proper (twoStars_nonneg h1 h2) hkb]
  simp only [← mul_assoc]
  exact twoStars_marg h1 h2 (fun d => φ (demoGrid.value k d) * Pop.wt demoL lw d) b c

theorem twoStars_light {c1 c2 : Cell} (h1 : demoGrid.Has c1) (h2 : demoGrid.Has c2) (b : PyStr) :
    (tablePop demoGrid (twoStars c1 c2)).lightOf demoGrid demoL b = (demoL c1.t c1.z + demoL c2.t c2.z) / 2 := by
  rw [Pop.lightOf_eq demoGrid_proper (tablePop_ok demoGrid_proper (twoStars_nonneg h1 h2)), tablePop_light demoGrid_proper]
  exact twoStars_sum h1 h2 (fun d => demoL d.t d.z)

/-- Stars of a parametric component at a cell. -/
theorem ingr_amount_pos {p : Param} {mi : Ingredients} (h : ParamIs p g mi L) (hL : ∀ t z, 0 < L t z) {c0 c : Cell} (hc0 : g.Has c0)
    (h0 : 0 < mi.probTXZ g c0) {b : PyStr} (hb : coords b c0 = coords b c) : 0 < (mi.pop g).amount g L lw b c := by
  rw [Pop.amount_eq h.proper h.pop_ok]
  have hw : ∀ d, 0 < Pop.wt L lw d := fun d => by unfold Pop.wt; split; exacts [hL _ _, one_pos]
  have hn : ∀ d, g.Has d → 0 ≤ (mi.pop g).cells g b d := fun d hd => by
    unfold Pop.cells pick
    split
    · exact h.pop_ok.joint d hd
    · exact MixOf.flat_nonneg h.pop_ok hd
  unfold Grid.marg
  refine sumCells_pos_of (c := c0) (fun d hd => ?_) hc0 ?_
  · split
    · exact mul_nonneg (hw d).le (hn d hd)
    · exact le_rfl
  · rw [if_pos hb]
    refine mul_pos (hw _) ?_
    unfold Pop.cells pick
    split
    · exact mul_pos h0 (probV_pos h hc0)
    · unfold Pop.flat
      rw [ingr_stars]
      have : (0:ℝ) < g.nv := by have := h.proper.nv; positivity
      positivity

/-- The full claim about means is false: there is a mixture of a disk and a star (made by the constructors and setters) whose
light-weighted mean age at a velocity is not that of its stars, although both members have stars of this velocity. -/
theorem C66_mean_given_velocity_wrong : ∃ m n ω pop r c, MixOf m demoGrid n ω pop demoL ∧ demoGrid.Has c ∧
    (∀ i < n, (pop i).Shines demoGrid demoL) ∧ (∀ i < n, (pop i).amount demoGrid demoL true ['v'] c ≠ 0) ∧
    Mix.getMean m ['t','_','v'] true = .ok r ∧
    r.get [c.v] ≠ .fin ((mixPop n ω pop).expect demoGrid demoL true ['v'] 't' (fun x => x) c) := by
  obtain ⟨cube, p, mi, t0, hP, -, ht, hpos, hmix⟩ := demoStarMix
  have hL := demoL_pos
  have hHas : ∀ t < 2, demoGrid.Has ⟨t, 0, 0, 0, 0⟩ := fun t ht => by
    refine ⟨ht, ?_, ?_, ?_, ?_⟩ <;> simp [demoGrid, cubeGrid]
  have h0 := hpos ⟨t0, 0, 0, 0, 0⟩ (hHas t0 ht) rfl
  by_contra hcon
  have key : ∀ t < 2, (mi.pop demoGrid).marginal demoGrid demoL true ['v'] ⟨0, 0, 0, 0, 0⟩ *
      (mi.pop demoGrid).expect demoGrid demoL true ['v'] 't' (fun x => x) ⟨0, 0, 0, 0, 0⟩ = demoGrid.value 't' ⟨t, 0, 0, 0, 0⟩ := by
    intro t ht'
    obtain ⟨m, -, -, -, h, hl, -⟩ := hmix _ _ (hHas t ht') (hHas t ht')
    have hco : coords ['v'] (⟨t, 0, 0, 0, 0⟩ : Cell) = coords ['v'] ⟨0, 0, 0, 0, 0⟩ := rfl
    have ha : ∀ i < 2, (if i = 0 then mi.pop demoGrid else tablePop demoGrid (twoStars ⟨t, 0, 0, 0, 0⟩ ⟨t, 0, 0, 0, 0⟩)).amount
        demoGrid demoL true ['v'] ⟨0, 0, 0, 0, 0⟩ ≠ 0 := by
      intro i hi
      interval_cases i
      · exact (ingr_amount_pos hP hL (hHas t0 ht) h0 rfl).ne'
      · simp only [one_ne_zero, if_false]
        rw [twoStars_amount (hHas t ht') (hHas t ht'), if_pos hco]
        have := hL t 0
        show (demoL t 0 + demoL t 0) / 2 ≠ 0
        positivity
    obtain ⟨r, hr, hg⟩ := C66_mean_given_velocity h hl 't' (by decide) ['v'] (by decide +kernel) (by decide)
    obtain ⟨e1, e2⟩ := hg ⟨0, 0, 0, 0, 0⟩ (hHas 0 (by norm_num)) ha
    by_contra hne
    refine hcon ⟨m, 2, _, _, r, ⟨0, 0, 0, 0, 0⟩, h, hHas 0 (by norm_num), hl, ha, hr, ?_⟩
    have e1' : r.get [0] = _ := e1
    rw [e2]
    show r.get [0] ≠ _
    rw [e1']
    intro he
    injection he with he
    have hmar := h.marginal_ne (fun _ => hl) ha
    rw [div_left_inj' hmar] at he
    simp only [Fin.sum_univ_two, Fin.val_zero, Fin.val_one, if_true, one_ne_zero, if_false] at he
    have hE : (tablePop demoGrid (twoStars ⟨t, 0, 0, 0, 0⟩ ⟨t, 0, 0, 0, 0⟩)).marginal demoGrid demoL true ['v'] ⟨0, 0, 0, 0, 0⟩ = 1 := by
      unfold Pop.marginal
      rw [if_pos rfl, twoStars_amount (hHas t ht') (hHas t ht'), twoStars_light (hHas t ht') (hHas t ht'), if_pos hco]
      have := hL t 0
      exact div_self (by show (demoL t 0 + demoL t 0) / 2 ≠ 0; positivity)
    have hE' : (tablePop demoGrid (twoStars ⟨t, 0, 0, 0, 0⟩ ⟨t, 0, 0, 0, 0⟩)).expect demoGrid demoL true ['v'] 't' (fun x => x)
        ⟨0, 0, 0, 0, 0⟩ = demoGrid.value 't' ⟨t, 0, 0, 0, 0⟩ := by
      rw [Pop.expect_num, twoStars_num (hHas t ht') (hHas t ht') _ (by decide), twoStars_amount (hHas t ht') (hHas t ht'), if_pos hco]
      have := hL t 0
      have e3 : Pop.wt demoL true (⟨t, 0, 0, 0, 0⟩ : Cell) = demoL t 0 := rfl
      rw [if_pos hco, e3]
      field_simp
    rw [hE, hE'] at he
    simp only [shareIn, if_true, Fin.sum_univ_two, Fin.val_zero, Fin.val_one, one_ne_zero, if_false] at he
    rw [twoStars_light (hHas t ht') (hHas t ht'), twoStars_light (hHas t ht') (hHas t ht')] at he
    have hlost := lost_light hP hL (hHas t0 ht) h0 (b := ['v']) (by decide)
    have hS := hP.pop_ok.light_pos hP.proper hP.lightNonneg (hl 0 (by norm_num)) ['v']
    have hT : 0 < (demoL t 0 + demoL t 0) / 2 := by have := hL t 0; positivity
    generalize (demoL t 0 + demoL t 0) / 2 = T1 at he hT
    generalize (mi.pop demoGrid).lightOf demoGrid demoL ['v'] = S0 at *
    generalize (mi.pop demoGrid).lightOf demoGrid demoL ['t','x','z'] = T0 at *
    generalize demoGrid.value 't' ⟨t, 0, 0, 0, 0⟩ = V at *
    simp only [mul_assoc] at he
    generalize (mi.pop demoGrid).marginal demoGrid demoL true ['v'] ⟨0, 0, 0, 0, 0⟩ *
      (mi.pop demoGrid).expect demoGrid demoL true ['v'] 't' (fun x => x) ⟨0, 0, 0, 0, 0⟩ = X at *
    have hT0 : 0 < T0 := hS.trans hlost
    have d1 : 1 / 4 * T0 + 3 / 4 * T1 ≠ 0 := by positivity
    have d2 : 1 / 4 * S0 + 3 / 4 * T1 ≠ 0 := by positivity
    have e4 : (1 / 4 * T0 + 3 / 4 * T1) * (1 / 4 * S0 + 3 / 4 * T1) *
        ((1 / 4 * T0 / (1 / 4 * T0 + 3 / 4 * T1) * X + 3 / 4 * T1 / (1 / 4 * T0 + 3 / 4 * T1) * (1 * V)) -
          (1 / 4 * S0 / (1 / 4 * S0 + 3 / 4 * T1) * X + 3 / 4 * T1 / (1 / 4 * S0 + 3 / 4 * T1) * (1 * V))) =
        3 / 16 * ((T0 - S0) * T1 * (X - V)) := by field_simp; ring
    have : (T0 - S0) * T1 * (X - V) = 0 := by
      have e5 : 3 / 16 * ((T0 - S0) * T1 * (X - V)) = 0 := by
        rw [← e4, mul_eq_zero, sub_eq_zero]
        refine .inr ?_
        simpa only [mul_assoc] using he
      linarith
    rcases mul_eq_zero.1 this with h' | h'
    · rcases mul_eq_zero.1 h' with h' | h' <;> linarith
    · exact hne (by linarith)
  have k0 := key 0 (by norm_num)
  rw [key 1 (by norm_num)] at k0
  revert k0
  simp [Grid.value, centre, demoGrid, cubeGrid]
  norm_num

open MeasureTheory ProbabilityTheory in
/-- First moments of a parametric component about two centres. -/
theorem ingr_first (mi : Ingredients) (b : PyStr) (c : Cell) (A B : ℝ) (hb : 'v' ∉ b) :
    (mi.pop g).num g L lw b 'v' (fun x => (x - A) ^ 1) c = (mi.pop g).num g L lw b 'v' (fun x => (x - B) ^ 1) c +
      (B - A) * (mi.pop g).amount g L lw b c := by
  have hi : ∀ μ σ : ℝ, Integrable (fun x : ℝ => x) (normal μ σ) := fun μ σ => by
    unfold normal
    exact (memLp_id_gaussianReal 1).integrable le_rfl
  have hv : ∀ A' : ℝ, ∀ d, (mi.pop g).vel (fun x => (x - A') ^ 1) d =
      mi.probTXZ g d * ((∫ v, v ∂(normal (mi.mu d.t d.x d.y) (mi.sig d.t d.x d.y))) - A') := fun A' d => by
    show _ * ∫ v, (v - A') ^ 1 ∂(normal _ _) = _
    simp only [pow_one]
    rw [integral_sub (hi _ _) (integrable_const _)]
    simp
  unfold Pop.num Pop.amount
  rw [if_pos rfl, if_pos rfl, if_neg hb, ← sumTXZ_mul, ingr_stars]
  simp only [hv, Ingredients.sumTXZ, ← Finset.sum_add_distrib]
  refine Finset.sum_congr rfl fun t _ => Finset.sum_congr rfl fun x _ => Finset.sum_congr rfl fun y _ =>
    Finset.sum_congr rfl fun z _ => ?_
  split <;> ring

/-- The full claim about central moments is false: there is a mixture of a disk and two stars (made by the constructors and
setters) whose first central moment of the velocity, given age, pixel and metallicity, is not that of its stars (which is zero),
although the mean which it returns is right. The disk takes the means of the lowest metallicity as centres. -/
theorem C66_velocity_given_all_wrong : ∃ m n ω pop r M c, MixOf m demoGrid n ω pop demoL ∧
    (∀ (i : ℕ) (hi : i < m.children.length), IsMember1 demoGrid demoL m.children[i] (pop i)) ∧ demoGrid.Has c ∧
    (∀ i < n, (pop i).amount demoGrid demoL false ['t','x','z'] c ≠ 0) ∧
    Mix.getMean m ['v','_','t','x','z'] false = .ok M ∧
    M.get [c.t, c.x, c.y, c.z] = .fin ((mixPop n ω pop).expect demoGrid demoL false ['t','x','z'] 'v' (fun x => x) c) ∧
    Mix.getCentralMoment m ['v','_','t','x','z'] 1 false = .ok r ∧
    r.get [c.t, c.x, c.y, c.z] ≠ .fin ((mixPop n ω pop).expect demoGrid demoL false ['t','x','z'] 'v'
      (fun x => (x - (mixPop n ω pop).expect demoGrid demoL false ['t','x','z'] 'v' (fun x => x) c) ^ 1) c) := by
  obtain ⟨cube, p, mi, t0, hP, hf, ht, hpos, hmix⟩ := demoStarMix
  have hL := demoL_pos
  have hHas : ∀ v < 2, ∀ z < 2, demoGrid.Has ⟨t0, v, 0, 0, z⟩ := fun v hv z hz => by
    refine ⟨ht, ?_, ?_, ?_, ?_⟩ <;> simp [demoGrid, cubeGrid] <;> omega
  have hco : ∀ v v' z z', coords ['t','x','z'] (⟨t0, v, 0, 0, z⟩ : Cell) = coords ['t','x','z'] ⟨t0, v', 0, 0, z'⟩ ↔ z = z' := by
    intro v v' z z'; simp [coords, coord1]
  by_contra hcon
  have key : ∀ v < 2, (∑ i : Fin 2, (if (i : ℕ) = 0 then (1 / 4 : ℝ) else 3 / 4) *
      (if (i : ℕ) = 0 then (mi.pop demoGrid).num demoGrid demoL false ['t','x','z'] 'v' (fun x => x) ⟨t0, 0, 0, 0, 0⟩ else
        demoGrid.value 'v' ⟨t0, 0, 0, 0, 0⟩ / 2)) / (1 / 4 * (mi.pop demoGrid).amount demoGrid demoL false ['t','x','z'] ⟨t0, 0, 0, 0, 0⟩ +
          3 / 4 * (1 / 2)) =
      (∑ i : Fin 2, (if (i : ℕ) = 0 then (1 / 4 : ℝ) else 3 / 4) *
      (if (i : ℕ) = 0 then (mi.pop demoGrid).num demoGrid demoL false ['t','x','z'] 'v' (fun x => x) ⟨t0, 0, 0, 0, 1⟩ else
        demoGrid.value 'v' ⟨t0, v, 0, 0, 1⟩ / 2)) / (1 / 4 * (mi.pop demoGrid).amount demoGrid demoL false ['t','x','z'] ⟨t0, 0, 0, 0, 1⟩ +
          3 / 4 * (1 / 2)) := by
    intro v hv
    have c1 := hHas 0 (by norm_num) 0 (by norm_num)
    have c2 := hHas v hv 1 (by norm_num)
    obtain ⟨m, -, hch, hB, h, hl, hm⟩ := hmix _ _ c1 c2
    have hw : ∀ d, Pop.wt demoL false d = 1 := fun d => rfl
    have ha : ∀ z < 2, ∀ i < 2, (if i = 0 then mi.pop demoGrid else tablePop demoGrid (twoStars ⟨t0, 0, 0, 0, 0⟩ ⟨t0, v, 0, 0, 1⟩)).amount
        demoGrid demoL false ['t','x','z'] ⟨t0, 0, 0, 0, z⟩ ≠ 0 := by
      intro z hz i hi
      interval_cases i
      · exact (ingr_amount_pos hP hL (hHas 0 (by norm_num) z hz) (hpos _ (hHas 0 (by norm_num) z hz) rfl) rfl).ne'
      · simp only [one_ne_zero, if_false]
        rw [twoStars_amount c1 c2]
        simp only [hco, hw]
        interval_cases z <;> norm_num
    have hab : ValidPair (varOf 'v') ['t','x','z'] := by decide +kernel
    obtain ⟨M, hM, -, hMg⟩ := C66_mean_partial h (lw := false) (by simp) 'v' (by decide) ['t','x','z'] hab (.inl rfl)
    have hM1 := fun z hz => hMg ⟨t0, 0, 0, 0, z⟩ (hHas 0 (by norm_num) z hz) (ha z hz) (by simp)
    obtain ⟨M', Fm, hM', hMF, -⟩ := h.mean_is (lw := false) (by simp) hab rfl
    have : M' = M := by
      have e : Mix.getMean m (distStr (varOf 'v') ['t','x','z']) false = .ok M' := hM'
      rw [hM] at e; injection e with e; exact e.symm
    subst this
    obtain ⟨r, F, hr, hrF, hF⟩ := h.central_is (lw := false) (by simp) hab rfl 1 hM hMF
      (cen := fun i c => if i = 0 then { c with z := 0 } else c) (fun i hi => by
        have hi2 : i < 2 := h.children ▸ hi
        simp only [hch]
        interval_cases i
        · have := param_says (lw := false) (a := ['v']) (b := ['t','x','z']) none hP (by simp) hab rfl
          rw [hf] at this
          exact ⟨this.mean, fun _ => this.ncm rfl⟩
        · exact plain_says none hB (by simp) hab rfl)
    by_contra hne
    refine hcon ⟨m, 2, _, _, r, M', ⟨t0, 0, 0, 0, 1⟩, h, hm, hHas 0 (by norm_num) 1 (by norm_num), ha 1 (by norm_num), hM,
      hM1 1 (by norm_num), hr, ?_⟩
    have hz := hHas 0 (by norm_num) 0 (by norm_num)
    have hz1 := hHas 0 (by norm_num) 1 (by norm_num)
    have hk : 'v' ∈ PyStr.replaceX ['v'] := by decide
    have hA := (hMF.2 'v' hk _ hz).symm.trans (hM1 0 (by norm_num))
    have hB' := (hMF.2 'v' hk _ hz1).symm.trans (hM1 1 (by norm_num))
    have hex : ∀ z, (mixPop 2 (fun i => if i = 0 then 1 / 4 else 3 / 4) fun i => if i = 0 then mi.pop demoGrid else
        tablePop demoGrid (twoStars ⟨t0, 0, 0, 0, 0⟩ ⟨t0, v, 0, 0, 1⟩)).expect demoGrid demoL false ['t','x','z'] 'v' (fun x => x)
          ⟨t0, 0, 0, 0, z⟩ = (1 / 4 * (mi.pop demoGrid).num demoGrid demoL false ['t','x','z'] 'v' (fun x => x) ⟨t0, 0, 0, 0, z⟩ +
            3 / 4 * (tablePop demoGrid (twoStars ⟨t0, 0, 0, 0, 0⟩ ⟨t0, v, 0, 0, 1⟩)).num demoGrid demoL false ['t','x','z'] 'v' (fun x => x)
              ⟨t0, 0, 0, 0, z⟩) /
          (1 / 4 * (mi.pop demoGrid).amount demoGrid demoL false ['t','x','z'] ⟨t0, 0, 0, 0, z⟩ +
            3 / 4 * (tablePop demoGrid (twoStars ⟨t0, 0, 0, 0, 0⟩ ⟨t0, v, 0, 0, 1⟩)).amount demoGrid demoL false ['t','x','z']
              ⟨t0, 0, 0, 0, z⟩) := fun z => by
      rw [Pop.expect_num, num_mixPop, amount_mixPop]
      simp only [Fin.sum_univ_two, Fin.val_zero, Fin.val_one, if_true, one_ne_zero, if_false]
    have hne' : (mixPop 2 (fun i => if i = 0 then 1 / 4 else 3 / 4) fun i => if i = 0 then mi.pop demoGrid else
        tablePop demoGrid (twoStars ⟨t0, 0, 0, 0, 0⟩ ⟨t0, v, 0, 0, 1⟩)).expect demoGrid demoL false ['t','x','z'] 'v' (fun x => x)
          ⟨t0, 0, 0, 0, 0⟩ ≠ (mixPop 2 (fun i => if i = 0 then 1 / 4 else 3 / 4) fun i => if i = 0 then mi.pop demoGrid else
        tablePop demoGrid (twoStars ⟨t0, 0, 0, 0, 0⟩ ⟨t0, v, 0, 0, 1⟩)).expect demoGrid demoL false ['t','x','z'] 'v' (fun x => x)
          ⟨t0, 0, 0, 0, 1⟩ := by
      intro e
      refine hne ?_
      rw [hex, hex, twoStars_num c1 c2 _ (by decide), twoStars_num c1 c2 _ (by decide), twoStars_amount c1 c2, twoStars_amount c1 c2] at e
      simp only [hco, hw, Fin.sum_univ_two, Fin.val_zero, Fin.val_one, if_true, one_ne_zero, zero_ne_one, if_false, mul_one, add_zero, zero_add] at e ⊢
      exact e
    generalize hAe : (mixPop 2 (fun i => if i = 0 then 1 / 4 else 3 / 4) fun i => if i = 0 then mi.pop demoGrid else
        tablePop demoGrid (twoStars ⟨t0, 0, 0, 0, 0⟩ ⟨t0, v, 0, 0, 1⟩)).expect demoGrid demoL false ['t','x','z'] 'v' (fun x => x)
          ⟨t0, 0, 0, 0, 0⟩ = A at hA hne'
    generalize hBe : (mixPop 2 (fun i => if i = 0 then 1 / 4 else 3 / 4) fun i => if i = 0 then mi.pop demoGrid else
        tablePop demoGrid (twoStars ⟨t0, 0, 0, 0, 0⟩ ⟨t0, v, 0, 0, 1⟩)).expect demoGrid demoL false ['t','x','z'] 'v' (fun x => x)
          ⟨t0, 0, 0, 0, 1⟩ = B at hB' hne' ⊢
    have hv := hF 'v' hk ⟨t0, 0, 0, 0, 1⟩ (fun i => if i = 0 then A else B) hz1 (ha 1 (by norm_num)) (fun i hi => by
      interval_cases i
      · exact hA
      · exact hB')
    have hr1 : r.get [t0, 0, 0, 1] = _ := (hrF.2 'v' hk ⟨t0, 0, 0, 0, 1⟩ hz1).trans hv
    show r.get [t0, 0, 0, 1] ≠ _
    rw [hr1, ← h.shares_expect (by simp) _ (ha 1 (by norm_num)), if_neg (by decide)]
    intro he
    injection he with he
    have hmar := h.marginal_ne (lw := false) (by simp) (ha 1 (by norm_num))
    rw [div_left_inj' hmar] at he
    simp only [Fin.sum_univ_two, Fin.val_zero, Fin.val_one, if_true, one_ne_zero, if_false, add_left_inj, shareIn, Bool.false_eq_true,
      Pop.marginal, div_one] at he
    have ha0 := ha 1 (by norm_num) 0 (by norm_num)
    simp only [if_true] at ha0
    rw [Pop.expect_num, Pop.expect_num, ingr_first mi _ _ A B (by decide), mul_assoc, mul_assoc, mul_div_cancel₀ _ ha0,
      mul_div_cancel₀ _ ha0] at he
    have : (B - A) * (mi.pop demoGrid).amount demoGrid demoL false ['t','x','z'] ⟨t0, 0, 0, 0, 1⟩ = 0 := by linarith
    rcases mul_eq_zero.1 this with e | e
    · exact hne' (by linarith)
    · exact ha0 e
  have k0 := key 0 (by norm_num)
  rw [key 1 (by norm_num)] at k0
  have hp : 0 < (mi.pop demoGrid).amount demoGrid demoL false ['t','x','z'] ⟨t0, 0, 0, 0, 1⟩ :=
    ingr_amount_pos hP hL (hHas 0 (by norm_num) 1 (by norm_num)) (hpos _ (hHas 0 (by norm_num) 1 (by norm_num)) rfl) rfl
  rw [div_left_inj' (by positivity)] at k0
  simp only [Fin.sum_univ_two, Fin.val_zero, Fin.val_one, if_true, one_ne_zero, if_false, add_right_inj] at k0
  revert k0
  simp [Grid.value, centre, demoGrid, cubeGrid, evenEdges]
  norm_num

/-- The hypotheses of the theorems above can be met: light-weighted mean velocity and its fourth central moment in a pixel, and
mean age given the velocity. -/
example : ∃ m pop r s M c, MixOf m demoGrid 2 (fun i => if i = 0 then 1 / 4 else 3 / 4) pop demoL ∧ demoGrid.Has c ∧
    Mix.getMean m ['v','_','x'] true = .ok r ∧
    r.get [c.x, c.y] = .fin ((mixPop 2 (fun i => if i = 0 then 1 / 4 else 3 / 4) pop).expect demoGrid demoL true ['x'] 'v' (fun x => x) c) ∧
    Mix.getCentralMoment m ['v','_','x'] 4 true = .ok s ∧ (∃ y : ℝ, s.get [c.x, c.y] = .fin y) ∧
    Mix.getMean m ['t','_','v'] false = .ok M ∧ (∃ y : ℝ, M.get [c.v] = .fin y) := by
  obtain ⟨cube, p, mi, t0, hP, -, ht, hpos, hmix⟩ := demoStarMix
  have hc : demoGrid.Has ⟨t0, 0, 0, 0, 0⟩ := by refine ⟨ht, ?_, ?_, ?_, ?_⟩ <;> simp [demoGrid, cubeGrid]
  obtain ⟨m, -, -, -, h, hl, hm⟩ := hmix _ _ hc hc
  have ha : ∀ lw b, ∀ i < 2, (if i = 0 then mi.pop demoGrid else tablePop demoGrid (twoStars ⟨t0, 0, 0, 0, 0⟩ ⟨t0, 0, 0, 0, 0⟩)).amount
      demoGrid demoL lw b ⟨t0, 0, 0, 0, 0⟩ ≠ 0 := by
    intro lw b i hi
    interval_cases i
    · exact (ingr_amount_pos hP demoL_pos hc (hpos _ hc rfl) rfl).ne'
    · simp only [one_ne_zero, if_false]
      rw [twoStars_amount hc hc, if_pos rfl]
      have : 0 < Pop.wt demoL lw ⟨t0, 0, 0, 0, 0⟩ := by unfold Pop.wt; split; exacts [demoL_pos _ _, one_pos]
      positivity
  obtain ⟨r, hr, -, hr'⟩ := C66_mean_partial h (fun _ => hl) 'v' (by decide) ['x'] (by decide +kernel) (.inr (by decide)) (lw := true)
  obtain ⟨s, hs, -, hs'⟩ := C66_central_partial h (fun _ => hl) hm 'v' (by decide) ['x'] (by decide +kernel) (.inr (by decide))
    (by decide) 4 (lw := true)
  obtain ⟨M, hM, -, hM'⟩ := C66_mean_partial h (lw := false) (by simp) 't' (by decide) ['v'] (by decide +kernel) (.inl rfl)
  exact ⟨m, _, r, s, M, _, h, hc, hr, hr' _ hc (ha _ _) (by simp), hs, ⟨_, hs' _ hc (ha _ _) (by simp)⟩, hM,
    ⟨_, hM' _ hc (ha _ _) (by simp)⟩⟩

end PKM
