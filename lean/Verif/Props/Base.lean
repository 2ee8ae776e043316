import Verif.Props.Cube

/-!
# C02, C04–C12: probability queries on a plain component

`BaseIs cube stored g ρ L`: a `Component` built on a cube with the bins of the proper grid `g` from
an array of log densities `log ρ`, `ρ ≥ 0` (so `-inf` entries are allowed), with SSP light weights
`L t z ≥ 0`.  `getP (baseSelf cube stored) w density lw` is `component.get_p(w, density, light_weighted)`.
`massP g ρ c = ρ c * cellVolume c` is the probability of a cell.
-/

open scoped Classical

noncomputable section

namespace PKM
open Np Component

variable {cube : IFUCube} {stored : Arr Num} {g : Grid} {ρ : Cell → ℝ} {L : ℕ → ℕ → ℝ}

/-! ### C04 -/

/-- `Component(cube, log_p)` succeeds iff the shape is the cube's five dimensional shape, and then
stores exactly the given array; otherwise it raises `ValueError`. -/
theorem C04_constructor_shape {cube : IFUCube} {g : Grid} (h : CubeIs cube g) (hg : g.Proper)
    (arr : Arr Num) :
    (arr.shape = [g.nt, g.nv, g.nx, g.ny, g.nz] → Component.init cube arr = .ok arr) ∧
    (arr.shape ≠ [g.nt, g.nv, g.nx, g.ny, g.nz] → Component.init cube arr = .error .valueError) := by
  have e : cube.getDistributionShape ['t','v','x','z'] = .ok [g.nt, g.nv, g.nx, g.ny, g.nz] := by
    rw [C02_distribution_shape h hg _ (by decide)]
    simp [Grid.shapeOf, Grid.shape1]
  constructor <;> intro hs <;> simp [Component.init, e, hs]

/-! ### C05 -/

/-- Each of the 15 marginals is the sum of density times cell volume over all cells of the grid with
the same `w`-coordinates. -/
theorem C05_marginals (h : BaseIs cube stored g ρ L) (w : PyStr) (hw : w ∈ marginals) :
    ∃ p, getP (baseSelf cube stored) w false false = .ok p ∧ p.shape = g.shapeOf w ∧
    ∀ c, g.Has c → p.get (coords w c) =
      .fin (g.sumCells (fun d => if coords w d = coords w c then ρ d * g.cellVolume d else 0)) := by
  obtain ⟨p, hp, hs, hg⟩ := getP_marg_of_contract (h.contract false (by simp)) false w hw
  refine ⟨p, hp, hs, fun c hc => ?_⟩
  rw [hg c hc]
  simp [dvol, wtdP, Grid.marg, massP]

/-! ### C06 -/

/-- Each of the 50 conditionals is joint over marginal; dependent axes first, then conditioning
axes; nan exactly where the conditioning event has probability zero. -/
theorem C06_conditionals (h : BaseIs cube stored g ρ L) (a b : PyStr) (hab : (a, b) ∈ conditionals) :
    ∃ p, getP (baseSelf cube stored) (condStr a b) false false = .ok p ∧
    p.shape = g.shapeOf a ++ g.shapeOf b ∧
    ∀ c, g.Has c → p.get (coords a c ++ coords b c) = g.condP (massP g ρ) a b c := by
  obtain ⟨p, hp, hs, hg⟩ := getP_cond_of_contract (h.contract false (by simp)) false (a, b) hab
    (baseLogP_none _ _ (condStr_not_marginal a b))
  refine ⟨p, hp, by rw [hs, shapeOf_condStr], fun c hc => ?_⟩
  rw [← coords_condStr, hg c hc]
  simp [dvol, wtdP, condTable, Grid.condP]

/-- The same for light-weighted queries, with the light-weighted joint. -/
theorem C10_light_weighted (h : BaseIs cube stored g ρ L) (hT : 0 < totalLight g L (massP g ρ)) :
    (∀ w ∈ marginals, ∃ p, getP (baseSelf cube stored) w false true = .ok p ∧
      p.shape = g.shapeOf w ∧
      ∀ c, g.Has c → p.get (coords w c) = .fin (g.marg (g.lightP L (massP g ρ)) w c)) ∧
    (∀ a b, (a, b) ∈ conditionals → ∃ p, getP (baseSelf cube stored) (condStr a b) false true = .ok p ∧
      p.shape = g.shapeOf a ++ g.shapeOf b ∧
      ∀ c, g.Has c → p.get (coords a c ++ coords b c) = g.condP (g.lightP L (massP g ρ)) a b c) := by
  constructor
  · intro w hw
    obtain ⟨p, hp, hs, hg⟩ := getP_marg_of_contract (h.contract true (fun _ => hT)) false w hw
    refine ⟨p, hp, hs, fun c hc => ?_⟩
    rw [hg c hc]
    simp [dvol, wtdP]
  · intro a b hab
    obtain ⟨p, hp, hs, hg⟩ := getP_cond_of_contract (h.contract true (fun _ => hT)) false (a, b) hab
      (baseLogP_none _ _ (condStr_not_marginal a b))
    refine ⟨p, hp, by rw [hs, shapeOf_condStr], fun c hc => ?_⟩
    rw [← coords_condStr, hg c hc]
    simp [dvol, wtdP, condTable, Grid.condP]

/-- A component without any light has nan in every light-weighted distribution. -/
theorem C10_dark (h : BaseIs cube stored g ρ L) (h0 : totalLight g L (massP g ρ) = 0) (density : Bool) :
    (∀ w ∈ marginals, Gives (getP (baseSelf cube stored) w density true) g w (fun _ => .nan)) ∧
    (∀ a b, (a, b) ∈ conditionals →
      Gives (getP (baseSelf cube stored) (condStr a b) density true) g (condStr a b)
        (fun _ => .nan)) := by
  constructor
  · intro w hw
    obtain ⟨A, hA, hA'⟩ := h.marginal_dark density h0 hw
    have hu := (marginals_chars w hw).noUnderscore
    exact ⟨Np.map Num.exp A, by simp [getP, getLogP, hu, hA], hA'.map Num.exp⟩
  · intro a b hab
    obtain ⟨-, -, -, h4, h5, h6, h7, h8, h9, h10⟩ := conditionals_letters _ hab
    obtain ⟨A, hA, hA'⟩ := condFromJoint_gen (s := baseSelf cube stored) (lw := true) h.proper h.cubeIs
      density (a, b) hab (h.marginal_dark false h0 h10) (h.marginal_dark false h0 h9)
    have hs := split_condStr (a := a) (b := b) (DistChars.noUnderscore h4) (DistChars.noUnderscore h5)
    refine ⟨Np.map Num.exp A, ?_, (hA'.map Num.exp).congr (fun c _ => by simp)⟩
    have hn : (baseSelf cube stored).logP (condStr a b) = none :=
      baseLogP_none _ _ (condStr_not_marginal a b)
    simp only at hA
    simp [getP, getLogP, getLogConditional, hasUnderscore_condStr, hs, getLogMarginal, hn, hA]

/-- Light-weighted probabilities do not change when all light weights are multiplied by a positive
constant, and equal the mass-weighted ones if the light weights are all equal and the density is
normalised. -/
theorem C10_scaling (h : BaseIs cube stored g ρ L) (hT : 0 < totalLight g L (massP g ρ)) :
    (∀ (k : ℝ), 0 < k → ∀ c, g.lightP (fun t z => k * L t z) (massP g ρ) c =
      g.lightP L (massP g ρ) c) ∧
    (∀ (l : ℝ), (∀ t z, L t z = l) → g.sumCells (massP g ρ) = 1 → ∀ c,
      g.lightP L (massP g ρ) c = massP g ρ c) := by
  have smul : ∀ (k : ℝ) (f : Cell → ℝ), g.sumCells (fun d => k * f d) = k * g.sumCells f := by
    intro k f; simp only [Grid.sumCells, Finset.mul_sum]
  constructor
  · intro k hk c
    unfold Grid.lightP
    have : g.sumCells (fun d => k * L d.t d.z * massP g ρ d) =
        k * g.sumCells (fun d => L d.t d.z * massP g ρ d) := by
      rw [← smul]; simp only [mul_assoc]
    rw [this, mul_assoc, mul_div_mul_left _ _ hk.ne']
  · intro l hl h1 c
    unfold Grid.lightP
    unfold totalLight at hT
    simp only [hl] at hT ⊢
    rw [smul, h1, mul_one] at hT ⊢
    field_simp

/-- Light-weighted probabilities of all cells add up to one, whatever the total mass. -/
theorem C10_total (hT : 0 < totalLight g L (massP g ρ)) :
    g.sumCells (g.lightP L (massP g ρ)) = 1 := by
  have : ∀ c, g.lightP L (massP g ρ) c = (1 / totalLight g L (massP g ρ)) * (L c.t c.z * massP g ρ c) := by
    intro c; unfold Grid.lightP totalLight; ring
  have e : g.sumCells (g.lightP L (massP g ρ)) =
      (1 / totalLight g L (massP g ρ)) * totalLight g L (massP g ρ) := by
    conv_rhs => rhs; unfold totalLight
    simp only [Grid.sumCells, Finset.mul_sum, this]
  rw [e]; field_simp

/-! ### C02 -/

/-- Every query returns an array of the advertised shape: all 65 strings, both weightings (even for a
component without light), density or not. -/
theorem C02_shapes (h : BaseIs cube stored g ρ L) (density lw : Bool) (w : PyStr)
    (hw : w ∈ marginals ∨ ∃ a b, (a, b) ∈ conditionals ∧ w = condStr a b) :
    ∃ p s, getP (baseSelf cube stored) w density lw = .ok p ∧ cube.getDistributionShape w = .ok s ∧
      p.shape = s := by
  have key : ∃ f, Gives (getP (baseSelf cube stored) w density lw) g w f := by
    have hT0 : 0 ≤ totalLight g L (massP g ρ) := sumCells_nonneg fun d hd =>
      mul_nonneg (h.lightNonneg _ _) (massP_nonneg h.proper h.nonneg hd)
    by_cases hl : lw = true ∧ totalLight g L (massP g ρ) = 0
    · obtain ⟨rfl, h0⟩ := hl
      rcases hw with hw | ⟨a, b, hab, rfl⟩
      · exact ⟨_, (C10_dark h h0 density).1 w hw⟩
      · exact ⟨_, (C10_dark h h0 density).2 a b hab⟩
    · have hlw : lw = true → 0 < totalLight g L (massP g ρ) := fun e =>
        lt_of_le_of_ne hT0 (fun h0 => hl ⟨e, h0.symm⟩)
      rcases hw with hw | ⟨a, b, hab, rfl⟩
      · exact ⟨_, getP_marg_of_contract (h.contract lw hlw) density w hw⟩
      · exact ⟨_, getP_cond_of_contract (h.contract lw hlw) density (a, b) hab
          (baseLogP_none _ _ (condStr_not_marginal a b))⟩
  obtain ⟨f, p, hp, hs, -⟩ := key
  refine ⟨p, _, hp, C02_distribution_shape h.cubeIs h.proper w ?_, hs⟩
  rcases hw with hw | ⟨a, b, hab, rfl⟩
  · intro ch hch
    have := marginals_chars w hw ch hch
    simp only [List.mem_cons, List.not_mem_nil, or_false] at this ⊢; tauto
  · intro ch hch
    obtain ⟨-, -, -, h4, h5, -⟩ := conditionals_letters _ hab
    simp only [condStr, List.mem_append, List.mem_cons] at hch
    rcases hch with hch | hch | hch
    · have := h4 ch hch
      simp only [List.mem_cons, List.not_mem_nil, or_false] at this ⊢; tauto
    · simp [hch]
    · have := h5 ch hch
      simp only [List.mem_cons, List.not_mem_nil, or_false] at this ⊢; tauto

/-! ### C07 -/

/-- `get_p(w, density=True)` times the bin volume is `get_p(w, density=False)`, for the marginals. -/
theorem C07_density_marginal (h : BaseIs cube stored g ρ L) (lw : Bool)
    (hlw : lw = true → 0 < totalLight g L (massP g ρ)) (w : PyStr) (hw : w ∈ marginals) :
    ∃ d p, getP (baseSelf cube stored) w true lw = .ok d ∧
      getP (baseSelf cube stored) w false lw = .ok p ∧ d.shape = p.shape ∧
      ∀ c, g.Has c → d.get (coords w c) * .fin (g.volOf w c) = p.get (coords w c) := by
  obtain ⟨d, hd, hds, hdg⟩ := getP_marg_of_contract (h.contract lw hlw) true w hw
  obtain ⟨p, hp, hps, hpg⟩ := getP_marg_of_contract (h.contract lw hlw) false w hw
  refine ⟨d, p, hd, hp, hds.trans hps.symm, fun c hc => ?_⟩
  rw [hdg c hc, hpg c hc]
  have := (volOf_pos h.proper hc w).ne'
  simp only [dvol, if_true, Bool.false_eq_true, if_false, div_one, Num.fin_mul]
  congr 1; field_simp

/-- The same for conditionals: only the volume of the dependent variables enters; nan stays nan. -/
theorem C07_density_conditional (h : BaseIs cube stored g ρ L) (lw : Bool)
    (hlw : lw = true → 0 < totalLight g L (massP g ρ)) (a b : PyStr) (hab : (a, b) ∈ conditionals) :
    ∃ d p, getP (baseSelf cube stored) (condStr a b) true lw = .ok d ∧
      getP (baseSelf cube stored) (condStr a b) false lw = .ok p ∧ d.shape = p.shape ∧
      ∀ c, g.Has c → d.get (coords a c ++ coords b c) * .fin (g.volOf a c) =
        p.get (coords a c ++ coords b c) := by
  have hn : (baseSelf cube stored).logP (condStr a b) = none :=
    baseLogP_none _ _ (condStr_not_marginal a b)
  obtain ⟨d, hd, hds, hdg⟩ := getP_cond_of_contract (h.contract lw hlw) true (a, b) hab hn
  obtain ⟨p, hp, hps, hpg⟩ := getP_cond_of_contract (h.contract lw hlw) false (a, b) hab hn
  refine ⟨d, p, hd, hp, hds.trans hps.symm, fun c hc => ?_⟩
  rw [← coords_condStr, hdg c hc, hpg c hc]
  have := (volOf_pos h.proper hc a).ne'
  simp only [condTable, dvol, if_true, Bool.false_eq_true, if_false, div_one]
  split
  · simp
  · rw [Num.fin_mul]; congr 1; field_simp

/-! ### C08 -/

theorem sumAll_marg {g : Grid} (hg : g.Proper) {w : PyStr} (hw : w ∈ marginals) {A : Arr Num} {P : Cell → ℝ}
    (h : IsArr g w A (fun c => .fin (g.marg P w c))) : sumAll A = scalar (.fin (g.sumCells P)) := by
  have hf : ∀ w ∈ marginals, (PyStr.replaceX w).Nodup ∧
      (∀ ch ∈ PyStr.replaceX w, ch ∈ ['t','v','x','y','z']) := by decide +kernel
  obtain ⟨h1, h2⟩ := hf w hw
  have hc : g.Has ⟨0, 0, 0, 0, 0⟩ := ⟨hg.nt, hg.nv, hg.nx, hg.ny, hg.nz⟩
  have hL := (isArr_iff (marginals_chars w hw)).1 h
  unfold sumAll
  rw [hL.1, sumShape_letters g _ _ _ ⟨0, 0, 0, 0, 0⟩ h1 h2 hc hL.2, sumOver_fin,
    sumOver_marg_total g P hw hc]

/-- `np.sum(get_p(w, density=False))` is the same total for all marginal strings: the total of
density times volume (one for a normalised density). -/
theorem C08_marginals_normalised (h : BaseIs cube stored g ρ L) (w : PyStr) (hw : w ∈ marginals) :
    ∃ p, getP (baseSelf cube stored) w false false = .ok p ∧
      sumAll p = scalar (.fin (g.sumCells (massP g ρ))) := by
  obtain ⟨p, hp, hp'⟩ := getP_marg_of_contract (h.contract false (by simp)) false w hw
  exact ⟨p, hp, sumAll_marg h.proper hw (hp'.congr (fun c _ => by simp [dvol, wtdP]))⟩

/-- Light-weighted marginals always sum to one. -/
theorem C08_light_normalised (h : BaseIs cube stored g ρ L) (hT : 0 < totalLight g L (massP g ρ))
    (w : PyStr) (hw : w ∈ marginals) :
    ∃ p, getP (baseSelf cube stored) w false true = .ok p ∧ sumAll p = scalar (.fin 1) := by
  obtain ⟨p, hp, hp'⟩ := getP_marg_of_contract (h.contract true (fun _ => hT)) false w hw
  refine ⟨p, hp, ?_⟩
  rw [← C10_total hT]
  exact sumAll_marg h.proper hw (hp'.congr (fun c _ => by simp [dvol, wtdP]))

/-- Summing a conditional over its dependent axes (the first axes) gives exactly one at every
conditioning cell of non-zero probability, and nan at the others. -/
theorem C08_conditionals_normalised (h : BaseIs cube stored g ρ L) (lw : Bool)
    (hlw : lw = true → 0 < totalLight g L (massP g ρ)) (a b : PyStr) (hab : (a, b) ∈ conditionals) :
    ∃ p r, getP (baseSelf cube stored) (condStr a b) false lw = .ok p ∧
      Np.sum ((List.range (g.shapeOf a).length).map (fun k : ℕ => (k : ℤ))) p = .ok r ∧
      r.shape = g.shapeOf b ∧
      ∀ c, g.Has c → r.get (coords b c) =
        if g.marg (wtdP g L (massP g ρ) lw) b c = 0 then .nan else .fin 1 := by
  obtain ⟨h1, h2, h3, h4, h5, h6, -, h7⟩ := conditionals_axes _ hab
  obtain ⟨-, -, -, k4, k5, k6, -⟩ := conditionals_letters _ hab
  obtain ⟨p, hp, hp'⟩ := getP_cond_of_contract (h.contract lw hlw) false (a, b) hab
    (baseLogP_none _ _ (condStr_not_marginal a b))
  have hL := (isArr_cond_iff k4 k5).1 hp'
  obtain ⟨r, hr, hr'⟩ := LArr.sum hL h1 h2 h3 h4
  rw [h5, ← isArr_iff k5] at hr'
  refine ⟨p, r, hp, ?_, hr'.1, fun c hc => ?_⟩
  · rw [← shapeOf_length k4 g]; exact hr
  · rw [hr'.2 c hc]
    have e := sumOver_cond g (wtdP g L (massP g ρ) lw) (a, b) hab hc 1
    simp only [dvol, Bool.false_eq_true, if_false] at *
    rw [e, sumOver_nan h.proper]; simp

/-! ### C09 -/

/-- Tower rule: summing `get_p(w)` over the axes of the variables that are not in `w'` gives
`get_p(w')`. -/
theorem C09_tower (h : BaseIs cube stored g ρ L) (lw : Bool)
    (hlw : lw = true → 0 < totalLight g L (massP g ρ)) (w w' : PyStr) (hw : (w, w') ∈ nested) :
    ∃ p r p', getP (baseSelf cube stored) w false lw = .ok p ∧
      getP (baseSelf cube stored) w' false lw = .ok p' ∧
      Np.sum (extraAxes w w') p = .ok r ∧ r.shape = p'.shape ∧
      ∀ c, g.Has c → r.get (coords w' c) = p'.get (coords w' c) := by
  obtain ⟨h1, h2, h3, h4, h5, h6, h7, h8, h9, h10⟩ := nested_facts _ hw
  obtain ⟨p, hp, hp'⟩ := getP_marg_of_contract (h.contract lw hlw) false w h1
  obtain ⟨q, hq, hq'⟩ := getP_marg_of_contract (h.contract lw hlw) false w' h2
  obtain ⟨r, hr, hr'⟩ := LArr.sum ((isArr_iff (marginals_chars _ h1)).1 hp') h6 h7 h8 h9
  rw [h10, ← isArr_iff (marginals_chars _ h2)] at hr'
  refine ⟨p, r, q, hp, hq, hr, hr'.1.trans hq'.1.symm, fun c hc => ?_⟩
  rw [hr'.2 c hc, hq'.2 c hc, sumOver_fin]
  simp only [dvol, Bool.false_eq_true, if_false, div_one]
  rw [sumOver_marg_nested g _ hw hc]

/-- Chain rule: `get_p(a_b) * get_p(b) = get_p(ab)` wherever `b` has non-zero probability. -/
theorem C09_chain (h : BaseIs cube stored g ρ L) (lw : Bool)
    (hlw : lw = true → 0 < totalLight g L (massP g ρ)) (a b : PyStr) (hab : (a, b) ∈ conditionals) :
    ∃ pc pb pj, getP (baseSelf cube stored) (condStr a b) false lw = .ok pc ∧
      getP (baseSelf cube stored) b false lw = .ok pb ∧
      getP (baseSelf cube stored) (unionStr a b) false lw = .ok pj ∧
      ∀ c, g.Has c → pb.get (coords b c) ≠ .fin 0 →
        pc.get (coords a c ++ coords b c) * pb.get (coords b c) = pj.get (coords (unionStr a b) c) := by
  obtain ⟨-, -, -, k4, k5, k6, -, k8, k9, k10⟩ := conditionals_letters _ hab
  obtain ⟨p, hp, hp'⟩ := getP_cond_of_contract (h.contract lw hlw) false (a, b) hab
    (baseLogP_none _ _ (condStr_not_marginal a b))
  obtain ⟨q, hq, hq'⟩ := getP_marg_of_contract (h.contract lw hlw) false b k9
  obtain ⟨j, hj, hj'⟩ := getP_marg_of_contract (h.contract lw hlw) false _ k10
  refine ⟨p, q, j, hp, hq, hj, fun c hc hne => ?_⟩
  rw [← coords_condStr, hp'.2 c hc, hq'.2 c hc, hj'.2 c hc]
  rw [hq'.2 c hc] at hne
  simp only [dvol, Bool.false_eq_true, if_false, div_one] at hne ⊢
  have : g.marg (wtdP g L (massP g ρ) lw) b c ≠ 0 := fun e => hne (by rw [e])
  simp only [condTable, this, if_false, Num.fin_mul, div_one]
  congr 1; field_simp

/-! ### C11 -/

/-- `get_p = exp(get_log_p)` entrywise, with equal shapes, for every component and string (also for
the strings that raise). -/
theorem C11_exp_log (s : Self) (w : PyStr) (density lw : Bool) :
    getP s w density lw = (getLogP s w density lw).map (Np.map Num.exp) := by
  unfold getP
  cases getLogP s w density lw <;> rfl

theorem marg_le_total {P : Cell → ℝ} (hP : ∀ d, g.Has d → 0 ≤ P d) (w : PyStr) (c : Cell) :
    g.marg P w c ≤ g.sumCells P := by
  unfold Grid.marg Grid.sumCells
  refine Finset.sum_le_sum fun t _ => Finset.sum_le_sum fun v _ => Finset.sum_le_sum
    fun x _ => Finset.sum_le_sum fun y _ => Finset.sum_le_sum fun z _ => ?_
  have := hP ⟨t, v, x, y, z⟩ ⟨t.2, v.2, x.2, y.2, z.2⟩
  show (if _ then _ else _) ≤ _
  split_ifs
  · exact le_rfl
  · exact this

theorem marg_mono {P : Cell → ℝ} (hP : ∀ d, g.Has d → 0 ≤ P d) {a b : PyStr} {c : Cell}
    (hsub : ∀ d, coords a d = coords a c → coords b d = coords b c) :
    g.marg P a c ≤ g.marg P b c := by
  unfold Grid.marg Grid.sumCells
  refine Finset.sum_le_sum fun t _ => Finset.sum_le_sum fun v _ => Finset.sum_le_sum
    fun x _ => Finset.sum_le_sum fun y _ => Finset.sum_le_sum fun z _ => ?_
  have := hP ⟨t, v, x, y, z⟩ ⟨t.2, v.2, x.2, y.2, z.2⟩
  show (if _ then _ else _) ≤ (if _ then _ else _)
  split_ifs with h1 h2
  · exact le_rfl
  · exact absurd (hsub _ h1) h2
  · exact this
  · exact le_rfl

/-- Marginal probabilities of a normalised density are real numbers in [0,1] (never nan or inf);
conditional probabilities are in [0,1] or nan, whatever the normalisation. -/
theorem C11_probabilities (h : BaseIs cube stored g ρ L) (lw : Bool)
    (hlw : lw = true → 0 < totalLight g L (massP g ρ)) :
    (∀ w ∈ marginals, (lw = false → g.sumCells (massP g ρ) = 1) →
      ∃ p, getP (baseSelf cube stored) w false lw = .ok p ∧
      ∀ c, g.Has c → ∃ r : ℝ, p.get (coords w c) = .fin r ∧ 0 ≤ r ∧ r ≤ 1) ∧
    (∀ a b, (a, b) ∈ conditionals → ∃ p, getP (baseSelf cube stored) (condStr a b) false lw = .ok p ∧
      ∀ c, g.Has c → p.get (coords a c ++ coords b c) = .nan ∨
        ∃ r : ℝ, p.get (coords a c ++ coords b c) = .fin r ∧ 0 ≤ r ∧ r ≤ 1) := by
  have hP : ∀ d, g.Has d → 0 ≤ wtdP g L (massP g ρ) lw d := fun d hd => h.wtd_nonneg lw hd
  constructor
  · intro w hw h1
    obtain ⟨p, hp, hp'⟩ := getP_marg_of_contract (h.contract lw hlw) false w hw
    refine ⟨p, hp, fun c hc => ⟨_, hp'.2 c hc, ?_, ?_⟩⟩
    · simpa [dvol] using marg_nonneg hP w c
    · have ht : g.sumCells (wtdP g L (massP g ρ) lw) = 1 := by
        cases lw with
        | false => simpa [wtdP] using h1 rfl
        | true => simpa [wtdP] using C10_total (hlw rfl)
      simpa [dvol, ht] using marg_le_total hP w c
  · intro a b hab
    obtain ⟨p, hp, hp'⟩ := getP_cond_of_contract (h.contract lw hlw) false (a, b) hab
      (baseLogP_none _ _ (condStr_not_marginal a b))
    refine ⟨p, hp, fun c hc => ?_⟩
    rw [← coords_condStr, hp'.2 c hc]
    simp only [condTable]
    split
    · left; rfl
    · next hne =>
      right
      refine ⟨_, rfl, ?_, ?_⟩
      · have h1 := marg_nonneg hP b c
        have h2 := marg_nonneg hP (unionStr a b) c
        simpa [dvol] using div_nonneg h2 h1
      · have h1 := lt_of_le_of_ne (marg_nonneg hP b c) (Ne.symm hne)
        have h2 := marg_mono hP (a := unionStr a b) (b := b) (c := c)
          (fun d => coords_union_eq _ hab c d)
        simpa [dvol] using (div_le_one h1).2 h2

end PKM
