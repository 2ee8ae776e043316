import Verif.PopLemmas
import Verif.Props.Protocol

/-!
# C65: mixtures of plain and parametric components

`MixOf m g n ω pop L`: `m` is a mixture of `n` members on the bins `g`, each a plain or a parametric component
(`IsMember`); member `i` has weight `ω i` and stars `pop i`. `mixPop n ω pop` (PopSpec) is the union of their stars.
`Mix.getP m w collapse density lw` is `mixture.get_p(w, collapse_cmps, density, light_weighted)`.
-/

open scoped Classical

noncomputable section

namespace PKM
open Np Component

variable {g : Grid} {L : ℕ → ℕ → ℝ} {m : Mix} {n : ℕ} {ω : ℕ → ℝ} {pop : ℕ → Pop}

/-- The population has light. -/
def Pop.Shines (q : Pop) (g : Grid) (L : ℕ → ℕ → ℝ) : Prop := 0 < q.lightOf g L ['t','x','z']

/-- All 15 marginals of a mixture, both weightings, as probability or density, are those of the union of its members'
stars: sums over the other variables. -/
theorem C65_marginals (h : MixOf m g n ω pop L) (density lw : Bool) (hl : lw = true → (mixPop n ω pop).Shines g L)
    (w : PyStr) (hw : w ∈ marginals) :
    ∃ p, Mix.getP m w true density lw = .ok p ∧ p.shape = g.shapeOf w ∧ ∀ c, g.Has c →
      p.get (coords w c) = .fin ((mixPop n ω pop).marginal g L lw w c / (if density then g.volOf w c else 1)) := by
  obtain ⟨p, hp, hs, hg⟩ := Mix.getP_marg h.is density lw hw (fun e => h.mixLight_pos (hl e) w)
  refine ⟨p, hp, hs, fun c hc => ?_⟩
  rw [hg c hc]
  beta_reduce
  rw [mixP_pad, Pop.marginal_eq h.proper h.mixOk, dvol_eq]

/-- All 50 conditionals, both weightings, are joint over marginal of the union of the stars; nan exactly where it has
no stars. -/
theorem C65_conditionals (h : MixOf m g n ω pop L) (density lw : Bool) (hl : lw = true → (mixPop n ω pop).Shines g L)
    (a b : PyStr) (hab : (a, b) ∈ conditionals) :
    ∃ p, Mix.getP m (condStr a b) true density lw = .ok p ∧ p.shape = g.shapeOf a ++ g.shapeOf b ∧
    ∀ c, g.Has c → p.get (coords a c ++ coords b c) =
      (mixPop n ω pop).cond g L lw a b c / .fin (if density then g.volOf a c else 1) := by
  obtain ⟨p, hp, hs, hg⟩ := Mix.getP_cond h.is density lw (a, b) hab (fun e w => h.mixLight_pos (hl e) w)
  refine ⟨p, hp, by rw [hs, shapeOf_condStr], fun c hc => ?_⟩
  rw [← coords_condStr, hg c hc]
  have hd := dvol_pos h.proper hc density a
  beta_reduce
  rw [mixP_pad, mixP_pad, ← dvol_eq, ← Pop.marginal_eq h.proper h.mixOk, ← Pop.marginal_eq h.proper h.mixOk]
  unfold condTable Pop.cond
  split
  · simp
  · rw [Num.fin_div _ _ hd.ne']

/-- Weight of member `i` in the marginal `w`: its weight; for light weighting its share of the light. -/
def shareIn (g : Grid) (L : ℕ → ℕ → ℝ) (lw : Bool) (n : ℕ) (ω : ℕ → ℝ) (pop : ℕ → Pop) (w : PyStr) (i : ℕ) : ℝ :=
  if lw then ω i * (pop i).lightOf g L w / ∑ k : Fin n, ω k * (pop k).lightOf g L w else ω i

theorem marginal_shares (h : MixOf m g n ω pop L) (lw : Bool) (hl : lw = true → ∀ i < n, (pop i).Shines g L)
    (w : PyStr) (c : Cell) :
    (mixPop n ω pop).marginal g L lw w c = ∑ i : Fin n, shareIn g L lw n ω pop w i * (pop i).marginal g L lw w c := by
  unfold Pop.marginal shareIn
  rw [amount_mixPop]
  cases lw with
  | false => simp
  | true =>
    simp only [if_true]
    rw [lightOf_mixPop, Finset.sum_div]
    refine Finset.sum_congr rfl fun i _ => ?_
    have := ((h.ok i.2).light_pos h.proper h.lightNonneg (hl rfl i i.2) w).ne'
    field_simp

theorem mix_shines (h : MixOf m g n ω pop L) (hl : ∀ i < n, (pop i).Shines g L) : (mixPop n ω pop).Shines g L := by
  unfold Pop.Shines
  rw [lightOf_mixPop]
  exact Finset.sum_pos (fun k _ => mul_pos (h.wpos k k.2) (hl k k.2)) ⟨⟨0, h.pos⟩, Finset.mem_univ _⟩

theorem rowP_share' (h : MixOf m g n ω pop L) (lw : Bool) (hl : lw = true → ∀ i < n, (pop i).Shines g L) (w : PyStr)
    {i : ℕ} (hi : i < n) :
    rowP g n (padW n ω) L (fun i => pick (padPop n pop i).joint ((padPop n pop i).flat g) w) lw i =
      fun d => shareIn g L lw n ω pop w i * wtdP g L ((pop i).cells g w) lw d := by
  have e1 : ∀ i : ℕ, pick (padPop n pop i).joint ((padPop n pop i).flat g) w = (padPop n pop i).cells g w := fun _ => rfl
  funext d
  simp only [e1]
  unfold shareIn
  cases lw with
  | false => simp only [rowP, wtdP, Bool.false_eq_true, if_false, padPop, padW, if_pos hi]
  | true =>
    have hT := ((h.ok hi).light_pos h.proper h.lightNonneg (hl rfl i hi) w).ne'
    rw [Pop.lightOf_eq h.proper (h.ok hi)] at hT
    have e2 : ∑ k : Fin n, padW n ω k * totalLight g L ((padPop n pop k).cells g w) =
        ∑ k : Fin n, ω k * (pop k).lightOf g L w := Finset.sum_congr rfl fun k _ => by
      rw [padW_fin, padPop_fin, Pop.lightOf_eq h.proper (h.ok k.2)]
    simp only [rowP, wtdP, if_true, Grid.lightP]
    rw [e2, Pop.lightOf_eq h.proper (h.ok hi)]
    simp only [padPop, padW, if_pos hi]
    rw [show g.sumCells (fun d => L d.t d.z * (pop i).cells g w d) = totalLight g L ((pop i).cells g w) from rfl]
    field_simp

/-- The marginals of the mixture are the weighted sums of what the members themselves return, row `i` of the
uncollapsed marginal is the contribution of member `i`. The weights are the members' weights; for light weighting their
shares of the light, which depend on whether the velocity is among the variables. -/
theorem C65_weighted_sum (h : MixOf m g n ω pop L) (density lw : Bool) (hl : lw = true → ∀ i < n, (pop i).Shines g L)
    (w : PyStr) (hw : w ∈ marginals) :
    ∃ (p r : Arr Num) (q : ℕ → Arr Num), Mix.getP m w true density lw = .ok p ∧ Mix.getP m w false density lw = .ok r ∧
    (∀ (i : ℕ) (hi : i < m.children.length), m.children[i].getP w density lw = .ok (q i)) ∧
    p.shape = g.shapeOf w ∧ r.shape = n :: g.shapeOf w ∧ (∀ i < n, (q i).shape = g.shapeOf w) ∧
    ∀ c, g.Has c →
      p.get (coords w c) = ∑ i : Fin n, .fin (shareIn g L lw n ω pop w i) * (q i).get (coords w c) ∧
      ∀ i < n, r.get (i :: coords w c) = .fin (shareIn g L lw n ω pop w i) * (q i).get (coords w c) := by
  obtain ⟨p, hp, hps, hpg⟩ := C65_marginals h density lw (fun e => mix_shines h (hl e)) w hw
  obtain ⟨r, hr, hrs, hrg⟩ := Mix.getP_marg_rows h.is density lw hw (fun e => h.mixLight_pos (mix_shines h (hl e)) w)
  have key : ∀ i, ∃ q : Arr Num, (∀ hi : i < m.children.length, m.children[i].getP w density lw = .ok q) ∧
      (i < n → q.shape = g.shapeOf w ∧ ∀ c, g.Has c → q.get (coords w c) =
        .fin ((pop i).marginal g L lw w c / dvol g density w c)) := by
    intro i
    by_cases hi : i < m.children.length
    · obtain ⟨q, hq, hqs, hqg⟩ := (h.member i hi).getP_marg density lw (fun e => hl e i (h.children ▸ hi)) hw
      exact ⟨q, fun _ => hq, fun _ => ⟨hqs, hqg⟩⟩
    · exact ⟨p, fun hi' => absurd hi' hi, fun hi' => absurd (h.children ▸ hi') hi⟩
  choose q hq1 hq2 using key
  refine ⟨p, r, q, hp, hr, fun i hi => hq1 i hi, hps, hrs, fun i hi => (hq2 i hi).1, fun c hc => ⟨?_, fun i hi => ?_⟩⟩
  · rw [hpg c hc, marginal_shares h lw hl, ← dvol_eq]
    have : ∀ i : Fin n, Num.fin (shareIn g L lw n ω pop w i) * (q i).get (coords w c) =
        .fin (shareIn g L lw n ω pop w i * (pop i).marginal g L lw w c / dvol g density w c) := by
      intro i
      rw [(hq2 i i.2).2 c hc, Num.fin_mul, mul_div_assoc]
    simp only [this, Num.fin_sum, div_eq_mul_inv, Finset.sum_mul]
  · rw [hrg i hi c hc, (hq2 i hi).2 c hc, Num.fin_mul, ← mul_div_assoc]
    beta_reduce
    rw [rowP_share' h lw hl w hi, marg_mul_const, Pop.marginal_eq h.proper (h.ok hi)]

/-- The uncollapsed answer has one row per member, and the rows add up to the collapsed one, for all strings. -/
theorem C65_uncollapsed (h : MixOf m g n ω pop L) (density lw : Bool) (hl : lw = true → (mixPop n ω pop).Shines g L)
    (w : PyStr) (hw : w ∈ marginals ∨ ∃ a b, (a, b) ∈ conditionals ∧ w = condStr a b) :
    ∃ p q, Mix.getP m w true density lw = .ok p ∧ Mix.getP m w false density lw = .ok q ∧
    p.shape = g.shapeOf w ∧ q.shape = n :: g.shapeOf w ∧
    (∀ c, g.Has c → p.get (coords w c) = ∑ i : Fin n, q.get ((i : ℕ) :: coords w c)) := by
  have hlw := fun e w => h.mixLight_pos (hl e) w
  rcases hw with hw | ⟨a, b, hab, rfl⟩
  · obtain ⟨p, h1, h2, h3⟩ := Mix.getP_marg h.is density lw hw (fun e => hlw e w)
    obtain ⟨q, k1, k2, k3⟩ := Mix.getP_marg_rows h.is density lw hw (fun e => hlw e w)
    refine ⟨p, q, h1, k1, h2, k2, fun c hc => ?_⟩
    rw [h3 c hc, Finset.sum_congr rfl fun (i : Fin n) _ => k3 i i.2 c hc, Num.fin_sum, ← Finset.sum_div, sum_marg_rowP]
  · obtain ⟨p, h1, h2, h3⟩ := Mix.getP_cond h.is density lw (a, b) hab hlw
    obtain ⟨q, k1, k2, k3⟩ := Mix.getP_cond_rows h.is density lw (a, b) hab hlw
    refine ⟨p, q, h1, k1, h2, k2, fun c hc => ?_⟩
    rw [h3 c hc, Finset.sum_congr rfl fun (i : Fin n) _ => k3 i i.2 c hc, condTable_sum _
      ⟨⟨0, h.pos⟩, Finset.mem_univ _⟩, sum_marg_rowP]

/-- The constructor makes such a mixture from plain and parametric components on cubes with the same bins. -/
theorem C65_constructed {cube : IFUCube} {children : List Child} {weights : List ℝ} (hm : Mix.init cube children weights = .ok m)
    (hcube : CubeIs cube g) (hlight : IsArr g ['t','z'] cube.ssps.lightWeights (fun c => .fin (L c.t c.z)))
    (hc : ∀ ch ∈ children, ∃ q, IsMember g L ch q) :
    ∃ pop, MixOf m g weights.length (fun i => weights.getD i 0) pop L ∧ m.children = children ∧ m.cube = cube := by
  have e := C28_constructor cube children weights
  simp only at e
  by_cases hbad : children.length ≠ weights.length ∨ (∃ w ∈ weights, w ≤ 0) ∨
      1 / 10 ^ 8 + 1 / 10 ^ 5 < |weights.sum - 1|
  · rw [e.1 hbad] at hm; cases hm
  · rw [e.2 hbad] at hm
    simp only [not_or, not_exists, not_and, not_lt, not_le, not_not] at hbad
    obtain ⟨h1, h2, h3⟩ := hbad
    injection hm with hm
    subst hm
    have key : ∀ i, ∃ q : Pop, ∀ hi : i < children.length, IsMember g L children[i] q := by
      intro i
      by_cases hi : i < children.length
      · obtain ⟨q, hq⟩ := hc _ (List.getElem_mem hi)
        exact ⟨q, fun _ => hq⟩
      · exact ⟨noPop, fun hi' => absurd hi' hi⟩
    choose pop hpop using key
    refine ⟨pop, ⟨?_, hcube, hlight, h1, ?_, ?_, hpop⟩, rfl, rfl⟩
    · rcases weights with _ | ⟨x, xs⟩
      · norm_num at h3
      · simp
    · refine List.ext_getElem (by simp) fun i hi hi' => ?_
      simp [List.getD, hi]
    · intro i hi
      simp only [List.getD, List.getElem?_eq_getElem hi, Option.getD_some]
      exact h2 _ (List.getElem_mem hi)

/-! ### The hypotheses can be met -/

/-- A mixture, made by the constructor, of the disk of the example for parametric components and the non-uniform plain
component: all hypotheses above hold. -/
theorem demoPopMix (f2 : ℝ) : ∃ cube m p mi, Mix.init cube [Component.child p.self none,
      Component.child (baseSelf cube demoStored) none] [1 / 4, 3 / 4] = .ok m ∧
    ParamIs p demoGrid mi demoL ∧ p.f2 = f2 ∧
    MixOf m demoGrid 2 (fun i => if i = 0 then 1 / 4 else 3 / 4) (fun i => if i = 0 then mi.pop demoGrid else
      tablePop demoGrid demoRho) demoL ∧
    ∀ i < 2, (if i = 0 then mi.pop demoGrid else tablePop demoGrid demoRho).Shines demoGrid demoL := by
  obtain ⟨cube, -, -, hB, -, hT, -, -⟩ := demoBase
  obtain ⟨p, mi, hP, hS, -, hf⟩ := demoDisk_exists f2
  refine ⟨cube, _, p, mi, (C28_constructor cube _ _).2 (by norm_num), hP, hf, ?_, fun i hi => ?_⟩
  · refine ⟨by norm_num, hB.cubeIs, hB.light, rfl, by simp [List.range_succ], fun i hi => by split_ifs <;> norm_num, fun i hi => ?_⟩
    have : i < 2 := hi
    interval_cases i
    · exact .parametric p mi none hP rfl rfl
    · exact .plain cube demoStored demoRho none hB rfl rfl
  · unfold Pop.Shines
    interval_cases i
    · simp only [if_true]
      rw [Pop.lightOf_eq hP.proper hP.pop_ok, ingr_cells]
      exact hS.tot hP.proper
    · simp only [one_ne_zero, if_false]
      rw [Pop.lightOf_eq hB.proper (tablePop_ok hB.proper hB.nonneg), tablePop_light hB.proper]
      exact hT

/-- Light-weighted velocity and pixel, and velocity given age. -/
example : ∃ m p q, Mix.getP m ['v','x'] true false true = .ok p ∧ p.shape = [4, 5, 6] ∧
    Mix.getP m (condStr ['v'] ['t']) true true true = .ok q ∧ q.shape = [4, 2] := by
  obtain ⟨cube, m, p, mi, -, -, -, h, hl⟩ := demoPopMix 1
  have hs := mix_shines h hl
  obtain ⟨p, -, -, hp, -, -, hps, -⟩ := C65_weighted_sum h false true (fun _ => hl) ['v','x'] (by decide)
  obtain ⟨q, hq, hqs, -⟩ := C65_conditionals h true true (fun _ => hs) ['v'] ['t'] (by decide)
  exact ⟨m, p, q, hp, by rw [hps]; simp [Grid.shapeOf, Grid.shape1, demoGrid, cubeGrid], hq,
    by rw [hqs]; simp [Grid.shapeOf, Grid.shape1, demoGrid, cubeGrid]⟩

end PKM
