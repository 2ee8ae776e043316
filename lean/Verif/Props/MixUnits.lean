import Verif.Props.AllUnits
import Verif.Props.MixMoments

/-!
# C113 for mixtures: units and origins of all quantities do not matter

Two mixtures with the same weights, whose members have the same tables of probabilities on cubes whose bins are the same in different units, answer the same
in these units.
-/

open scoped Classical

noncomputable section

namespace PKM
open Np Component

variable {g : Grid} {L : ℕ → ℕ → ℝ} {lw : Bool} {m m' : Mix} {n : ℕ} {ω : ℕ → ℝ} {ρ : ℕ → Cell → ℝ} {k s : Char → ℝ}

/-! ### Specification -/

/-- Two mixtures give the same answers, the second one in other units (`C113_tables` says this of components). -/
structure RestatedMix (g : Grid) (k s : Char → ℝ) (lw : Bool) (m m' : Mix) : Prop where
  marg : ∀ density, ∀ w ∈ marginals, ∃ p p', Mix.getP m w true density lw = .ok p ∧ Mix.getP m' w true density lw = .ok p' ∧
    p.shape = g.shapeOf w ∧ p'.shape = g.shapeOf w ∧
    ∀ c, g.Has c → Turns (fun u => if density then u / unitVolume k w else u) (p.get (coords w c)) (p'.get (coords w c))
  cond : ∀ density a b, (a, b) ∈ conditionals → ∃ p p', Mix.getP m (condStr a b) true density lw = .ok p ∧
    Mix.getP m' (condStr a b) true density lw = .ok p' ∧ p.shape = g.shapeOf a ++ g.shapeOf b ∧ p'.shape = p.shape ∧
    ∀ c, g.Has c → Turns (fun u => if density then u / unitVolume k a else u) (p.get (coords a c ++ coords b c)) (p'.get (coords a c ++ coords b c))
  mean : ∀ q ∈ ['t','v','x','y','z'], ∀ b, ValidPair (varOf q) b → ∃ r r', Mix.getMean m (distStr (varOf q) b) lw = .ok r ∧
    Mix.getMean m' (distStr (varOf q) b) lw = .ok r' ∧ r.shape = compShape (varOf q) ++ g.shapeOf b ∧ r'.shape = r.shape ∧
    ∀ c, g.Has c → Turns (fun u => s q + k q * u) (r.get (compIdx q ++ coords b c)) (r'.get (compIdx q ++ coords b c))
  central : ∀ q ∈ ['t','v','x','y','z'], ∀ b, ValidPair (varOf q) b → ∀ j : ℕ, ∃ r r', Mix.getCentralMoment m (distStr (varOf q) b) j lw = .ok r ∧
    Mix.getCentralMoment m' (distStr (varOf q) b) j lw = .ok r' ∧ r.shape = compShape (varOf q) ++ g.shapeOf b ∧ r'.shape = r.shape ∧
    ∀ c, g.Has c → Turns (fun u => k q ^ j * u) (r.get (compIdx q ++ coords b c)) (r'.get (compIdx q ++ coords b c))
  normalised : ∀ q ∈ ['t','v','x','y','z'], ∀ b, ValidPair (varOf q) b → ∀ j : ℕ, ∃ r r',
    (Mix.obj m).getNormalisedCentralMoment (distStr (varOf q) b) j lw = .ok r ∧ (Mix.obj m').getNormalisedCentralMoment (distStr (varOf q) b) j lw = .ok r' ∧
    r.shape = compShape (varOf q) ++ g.shapeOf b ∧ r'.shape = r.shape ∧
    ∀ c, g.Has c → r'.get (compIdx q ++ coords b c) = r.get (compIdx q ++ coords b c)

/-! ### Lemmas -/

theorem restated_mixRho (u : ℝ) : mixRho n ω (fun i c => ρ i c / u) = fun c => mixRho n ω ρ c / u := by
  funext c
  unfold mixRho
  rw [Finset.sum_div]
  exact Finset.sum_congr rfl fun i _ => by ring

theorem mix_total (hω : ∑ i : Fin n, ω i = 1) (hN : ∀ i < n, g.sumCells (massP g (ρ i)) = 1) : g.sumCells (massP g (mixRho n ω ρ)) = 1 := by
  rw [← mixP_massP]
  unfold mixP
  rw [sumCells_fsum]
  simp only [sumCells_mul]
  rw [Finset.sum_congr rfl fun (i : Fin n) _ => by rw [hN i i.2, mul_one], hω]

theorem mixE_nan {φ ψ : Cell → ℝ} {b : PyStr} {c : Cell} (e : mixE g n ω L ρ lw φ b c = .nan) : mixE g n ω L ρ lw ψ b c = .nan := by
  unfold mixE at e ⊢
  split_ifs at e ⊢ with h1
  · rfl
  · rw [expect_eq] at e ⊢
    split_ifs at e ⊢ with h0
    rfl

/-- A mixture with the given densities on another cube. -/
theorem mix_on_cube {cube' : IFUCube} {g' : Grid} {ρ' : ℕ → Cell → ℝ} (hn : 0 < n) (hw : m.weights = (List.range n).map ω) (hp : ∀ i, 0 < ω i)
    (hg : g'.Proper) (hc : CubeIs cube' g') (hl : IsArr g' ['t','z'] cube'.ssps.lightWeights (fun c => .fin (L c.t c.z)))
    (hL : ∀ t z, 0 ≤ L t z) (hρ : ∀ i c, 0 ≤ ρ' i c) : ∃ m' : Mix, m'.cube = cube' ∧ m'.weights = m.weights ∧ PlainMix m' g' n ω ρ' L := by
  let arr : ℕ → Arr Num := fun i => ⟨g'.shapeOf ['t','v','x','z'], fun idx => match idx with
    | [t, v, x, y, z] => Num.lg (ρ' i ⟨t, v, x, y, z⟩)
    | _ => .nan⟩
  refine ⟨⟨cube', (List.range n).map fun i => Component.child (baseSelf cube' (arr i)) none, m.weights, none⟩, rfl, rfl, hn, by simp, hw, hp, hρ, ?_⟩
  intro i hi
  refine ⟨arr i, none, by simp, hg, hc, ⟨rfl, fun c _ => rfl⟩, hρ i, hl, hL⟩

/-! ### C113 -/

/-- **C113, mixtures.** Two mixtures with the same weights on cubes whose bins are the same in different units, with densities of the members per unit of
volume to match: all answers are the same in these units, and the same ones are nan. -/
theorem C113_mixtures (h : PlainMix m g n ω ρ L) (h' : PlainMix m' (g.restated k s) n ω (fun i c => ρ i c / unitVolume k ['t','v','x','z']) L)
    (hk : ∀ q, 0 < k q) (hT : lw = true → ∀ i < n, 0 < totalLight g L (massP g (ρ i))) (hω : ∑ i : Fin n, ω i = 1)
    (hN : ∀ i < n, g.sumCells (massP g (ρ i)) = 1) : RestatedMix g k s lw m m' := by
  have hM := fun i => restated_mass (g := g) (s := s) (ρ := ρ i) hk
  have hMx : massP (g.restated k s) (mixRho n ω (fun i c => ρ i c / unitVolume k ['t','v','x','z'])) = massP g (mixRho n ω ρ) := by
    rw [restated_mixRho, restated_mass hk]
  have hT' : lw = true → ∀ i < n, 0 < totalLight (g.restated k s) L (massP (g.restated k s) (fun c => ρ i c / unitVolume k ['t','v','x','z'])) := by
    intro e i hi
    rw [hM i]; exact hT e i hi
  have hP : ∀ d, g.Has d → 0 ≤ wtdP g L (massP g (mixRho n ω ρ)) lw d := fun d hd => by
    rw [mix_decomp h hT]
    exact Finset.sum_nonneg fun i _ => mul_nonneg (share_pos h hT i.2).le (memP_nonneg h i hd)
  have hlw : lw = true → 0 < totalLight g L (massP g (mixRho n ω ρ)) := fun e => by
    have := mix_light_pos h (hT e) []
    unfold mixLight at this
    simpa only [pick_same, mixP_massP] using this
  have hE : ∀ {b c}, g.condWt (wtdP g L (massP g (mixRho n ω ρ)) lw) b c ≠ 0 → Pos (Ex g (wtdP g L (massP g (mixRho n ω ρ)) lw) b c) := fun h0 =>
    pos_Ex hP h0 (fun _ => total_one hlw (fun _ => mix_total hω hN))
  have hex : ∀ {b c q}, q ∈ ['t','v','x','y','z'] → g.condWt (wtdP g L (massP g (mixRho n ω ρ)) lw) b c ≠ 0 →
      Ex g (wtdP g L (massP g (mixRho n ω ρ)) lw) b c ((g.restated k s).value q) = s q + k q * Ex g (wtdP g L (massP g (mixRho n ω ρ)) lw) b c (g.value q) :=
    fun hq h0 => by
      rw [← pos_affine (hE h0)]
      exact congrArg _ (funext fun d => restated_value hq d)
  -- members: the same ones are empty
  have hempty : ∀ b c, (∃ i < n, (g.restated k s).condWt (wtdP (g.restated k s) L (massP (g.restated k s)
      (fun c => ρ i c / unitVolume k ['t','v','x','z'])) lw) b c = 0) ↔ ∃ i < n, g.condWt (wtdP g L (massP g (ρ i)) lw) b c = 0 := by
    intro b c
    refine exists_congr fun i => and_congr Iff.rfl ?_
    rw [hM i]
    exact Iff.rfl
  have hmean : ∀ {b c q}, q ∈ ['t','v','x','y','z'] → Turns (fun u => s q + k q * u) (mixE g n ω L ρ lw (g.value q) b c)
      (mixE (g.restated k s) n ω L (fun i c => ρ i c / unitVolume k ['t','v','x','z']) lw ((g.restated k s).value q) b c) := by
    intro b c q hq
    unfold mixE
    simp only [hempty b c, hMx]
    split_ifs with h1
    · exact .inl ⟨rfl, rfl⟩
    · rw [expect_eq, expect_eq]
      by_cases h0 : g.condWt (wtdP g L (massP g (mixRho n ω ρ)) lw) b c = 0
      · exact .inl ⟨if_pos h0, if_pos h0⟩
      · exact .inr ⟨_, if_neg h0, (if_neg h0).trans (congrArg _ (hex hq h0))⟩
  have hcen0 : ∀ {b c q}, q ∈ ['t','v','x','y','z'] → g.condWt (wtdP g L (massP g (mixRho n ω ρ)) lw) b c ≠ 0 → ∀ j : ℕ,
      Ex g (wtdP g L (massP g (mixRho n ω ρ)) lw) b c (fun d => ((g.restated k s).value q d -
        (g.restated k s).mean (wtdP g L (massP g (mixRho n ω ρ)) lw) q b d) ^ j) =
      k q ^ j * Ex g (wtdP g L (massP g (mixRho n ω ρ)) lw) b c (fun d => (g.value q d - g.mean (wtdP g L (massP g (mixRho n ω ρ)) lw) q b d) ^ j) := by
    intro b c q hq h0 j
    rw [← (hE h0).smul]
    refine Ex_congr fun d hd e => ?_
    have e1 : (g.restated k s).mean (wtdP g L (massP g (mixRho n ω ρ)) lw) q b d =
        Ex g (wtdP g L (massP g (mixRho n ω ρ)) lw) b c ((g.restated k s).value q) := StdAt.mean_at (g := g.restated k s) e
    rw [e1, StdAt.mean_at e, hex hq h0, restated_value hq, ← mul_pow]
    ring
  have hcen : ∀ {b c q}, q ∈ ['t','v','x','y','z'] → ∀ j : ℕ, Turns (fun u => k q ^ j * u)
      (mixE g n ω L ρ lw (fun d => (g.value q d - g.mean (wtdP g L (massP g (mixRho n ω ρ)) lw) q b d) ^ j) b c)
      (mixE (g.restated k s) n ω L (fun i c => ρ i c / unitVolume k ['t','v','x','z']) lw (fun d => ((g.restated k s).value q d - (g.restated k s).mean
        (wtdP (g.restated k s) L (massP (g.restated k s) (mixRho n ω (fun i c => ρ i c / unitVolume k ['t','v','x','z']))) lw) q b d) ^ j) b c) := by
    intro b c q hq j
    unfold mixE
    simp only [hempty b c, hMx]
    split_ifs with h1
    · exact .inl ⟨rfl, rfl⟩
    · rw [expect_eq, expect_eq]
      by_cases h0 : g.condWt (wtdP g L (massP g (mixRho n ω ρ)) lw) b c = 0
      · exact .inl ⟨if_pos h0, if_pos h0⟩
      · exact .inr ⟨_, if_neg h0, (if_neg h0).trans (congrArg _ (hcen0 hq h0 j))⟩
  have hnan : ∀ φ ψ b c, mixE g n ω L ρ lw φ b c = .nan → mixE g n ω L ρ lw ψ b c = .nan := fun φ ψ b c e => mixE_nan e
  have hvar : ∀ {b c q}, ∀ u : ℝ, mixE g n ω L ρ lw (fun d => (g.value q d - g.mean (wtdP g L (massP g (mixRho n ω ρ)) lw) q b d) ^ 2) b c = .fin u → 0 ≤ u := by
    intro b c q u e
    unfold mixE at e
    split_ifs at e with h1
    rw [expect_eq] at e
    split_ifs at e with h0
    injection e with e
    rw [← e]
    exact (hE h0).nonneg _ fun d => sq_nonneg _
  refine ⟨fun density w hw => ?_, fun density a b hab => ?_, fun q hq b hb => ?_, fun q hq b hb j => ?_, fun q hq b hb j => ?_⟩
  · obtain ⟨p, p1, p2, p3⟩ := Mix.getP_marg h.is density lw hw (fun e => mix_light_pos h (hT e) w)
    obtain ⟨p', p1', p2', p3'⟩ := Mix.getP_marg h'.is density lw hw (fun e => mix_light_pos h' (hT' e) w)
    refine ⟨p, p', p1, p1', p2, p2', fun c hc => .inr ⟨_, p3 c hc, ?_⟩⟩
    rw [p3' c hc]
    simp only [pick_same, mixP_massP, hMx]
    exact congrArg _ (restated_dvol density (marginal_letters w hw) _ c)
  · obtain ⟨p, p1, p2, p3⟩ := Mix.getP_cond h.is density lw (a, b) hab (fun e w => mix_light_pos h (hT e) w)
    obtain ⟨p', p1', p2', p3'⟩ := Mix.getP_cond h'.is density lw (a, b) hab (fun e w => mix_light_pos h' (hT' e) w)
    refine ⟨p, p', p1, p1', by rw [p2, shapeOf_condStr], p2'.trans p2.symm, fun c hc => ?_⟩
    have e := p3 c hc
    have e' := p3' c hc
    rw [coords_condStr] at e e'
    rw [e, e']
    simp only [pick_same, mixP_massP, hMx, condTable]
    by_cases h0 : g.marg (wtdP g L (massP g (mixRho n ω ρ)) lw) b c = 0
    · exact .inl ⟨if_pos h0, if_pos h0⟩
    · refine .inr ⟨_, if_neg h0, (if_neg h0).trans ?_⟩
      exact congrArg _ (restated_dvol density (conditional_letters _ hab) _ c)
  · obtain ⟨h1, h2, -⟩ := quantity_facts hq
    obtain ⟨r, r1, r2⟩ := mix_mean_is h hT hb h1
    obtain ⟨r', r1', r2'⟩ := mix_mean_is h' hT' hb h1
    refine ⟨r, r', r1, r1', r2.1, r2'.1.trans r2.1.symm, fun c hc => ?_⟩
    rw [r2.2 q h2 c hc, r2'.2 q h2 c hc]
    exact hmean hq
  · obtain ⟨h1, h2, -⟩ := quantity_facts hq
    obtain ⟨r, r1, r2⟩ := mix_central_is h hT hb h1 j
    obtain ⟨r', r1', r2'⟩ := mix_central_is h' hT' hb h1 j
    refine ⟨r, r', r1, r1', r2.1, r2'.1.trans r2.1.symm, fun c hc => ?_⟩
    rw [r2.2 q h2 c hc, r2'.2 q h2 c hc]
    exact hcen hq j
  · obtain ⟨h1, h2, h3⟩ := quantity_facts hq
    obtain ⟨M, m1, m2⟩ := mix_central_is h hT hb h1 j
    obtain ⟨M', m1', m2'⟩ := mix_central_is h' hT' hb h1 j
    obtain ⟨V, v1, v2⟩ := mix_central_is h hT hb h1 2
    obtain ⟨V', v1', v2'⟩ := mix_central_is h' hT' hb h1 2
    obtain ⟨r, r1, r2⟩ := getNormalised_table (o := Mix.obj m) h3 m1 m2 v1 v2
    obtain ⟨r', r1', r2'⟩ := getNormalised_table (o := Mix.obj m') h3 m1' m2' v1' v2'
    refine ⟨r, r', r1, r1', r2.1, r2'.1.trans r2.1.symm, fun c hc => ?_⟩
    rw [r2.2 q h2 c hc, r2'.2 q h2 c hc]
    rcases hcen (b := b) (c := c) hq j with ⟨e, e'⟩ | ⟨u, e, e'⟩ <;> rcases hcen (b := b) (c := c) hq 2 with ⟨f, f'⟩ | ⟨v, f, f'⟩
    · simp only [e, e', f, f']
    · exact absurd ((hnan _ _ _ _ e).symm.trans f) (by simp)
    · exact absurd ((hnan _ _ _ _ f).symm.trans e) (by simp)
    · have hv := hvar v f
      simp only [e, e', f, f']
      rw [Num.sqrt_fin hv, Num.sqrt_fin (mul_nonneg (sq_nonneg _) hv), Real.sqrt_mul (sq_nonneg _), Real.sqrt_sq (hk q).le, Num.npow_fin, Num.npow_fin, mul_pow]
      exact div_units (pow_pos (hk q) j) _ _

/-- The mixture of the earlier examples, and one on a cube with ages in Myr and velocities in m/s. -/
example : ∃ m m' : Mix, CubeIs m.cube demoGrid ∧ CubeIs m'.cube (demoGrid.restated demoUnits (fun _ => 0)) ∧
    RestatedMix demoGrid demoUnits (fun _ => 0) true m m' := by
  let ssps' : SSPs := {
    zEdges := vec 4 (fun i => .fin (0 + 1 * (i : ℝ) ^ 2))
    tEdges := vec 3 (fun i => .fin (0 + 1000 * (i : ℝ) ^ 2))
    zCents := vec 3 (fun i => .fin (centre (fun i => 0 + 1 * (i : ℝ) ^ 2) i))
    tCents := vec 2 (fun i => .fin (centre (fun i => 0 + 1000 * (i : ℝ) ^ 2) i))
    deltaT := vec 2 (fun i => .fin (width (fun i => 0 + 1000 * (i : ℝ) ^ 2) i))
    deltaZ := vec 3 (fun i => .fin (width (fun i => 0 + 1 * (i : ℝ) ^ 2) i))
    lightWeights := demoSSPs.lightWeights }
  have hs' : SspsAre ssps' 2 3 (fun i => 0 + 1000 * (i : ℝ) ^ 2) (fun i => 0 + 1 * (i : ℝ) ^ 2) :=
    ⟨⟨rfl, fun _ _ => rfl⟩, ⟨rfl, fun _ _ => rfl⟩, ⟨rfl, fun _ _ => rfl⟩, ⟨rfl, fun _ _ => rfl⟩, ⟨rfl, fun _ _ => rfl⟩, ⟨rfl, fun _ _ => rfl⟩⟩
  have ut : demoUnits 't' = 1000 := by simp [demoUnits]
  have uz : demoUnits 'z' = 1 := by simp [demoUnits]
  have hk : ∀ q, 0 < demoUnits q := fun q => by unfold demoUnits; split_ifs <;> norm_num
  obtain ⟨cube, cube', -, -, e, e', hc, hc'⟩ := C113_cubes (k := demoUnits) (s := fun _ => 0) demoSSPs_are (by rw [ut, uz]; exact hs') 5 6 4
    (by norm_num) (by norm_num) (by norm_num) (-1, 1) (0, 3) (-100, 300)
  obtain ⟨cube0, m, -, -, h, -, hN, hT, -⟩ := demoMix
  have hL := demo_light e
  obtain ⟨m', hm1, -, h'⟩ := mix_on_cube (m := m) (g' := demoGrid.restated demoUnits (fun _ => 0)) (L := demoL)
    (ρ' := fun i c => demoRhos i c / unitVolume demoUnits ['t','v','x','z']) h.pos h.weights h.wpos (restated_proper demoGrid_proper hk) hc'
    (by rw [e']; rw [e] at hL; exact hL) (fun t z => (demoL_pos t z).le) (fun i c => div_nonneg (h.nonneg i c) (unitVolume_pos hk _).le)
  refine ⟨m, m', h.is.cubeIs, by rw [hm1]; exact hc', C113_mixtures h h' hk (fun _ => hT) ?_ hN⟩
  simp [Fin.sum_univ_two, demoWeights]
  norm_num

end PKM
