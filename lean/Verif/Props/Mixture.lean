import Verif.MixLemmas
import Verif.Props.LMoments
import Mathlib.Tactic.IntervalCases

/-!
# C27, C28, C30: mixtures of components

`PlainMix m g n ω ρ L`: `m` is a mixture of `n` plain components on one cube with the bins of the
proper grid `g`; member `i` has weight `ω i` and density `ρ i`.
`Mix.getP m w collapse density lw` is `mixture.get_p(w, collapse_cmps, density, light_weighted)`.
-/

open scoped Classical

noncomputable section

namespace PKM
open Np Component

/-- A mixture of `n` plain components. -/
structure PlainMix (m : Mix) (g : Grid) (n : ℕ) (ω : ℕ → ℝ) (ρ : ℕ → Cell → ℝ) (L : ℕ → ℕ → ℝ) :
    Prop where
  pos : 0 < n
  children : m.children.length = n
  weights : m.weights = (List.range n).map ω
  wpos : ∀ i, 0 < ω i
  nonneg : ∀ i c, 0 ≤ ρ i c
  plain : ∀ (i : ℕ) (hi : i < m.children.length), ∃ stored ybar,
    m.children[i] = Component.child (baseSelf m.cube stored) ybar ∧ BaseIs m.cube stored g (ρ i) L

/-- Density of the mixture. -/
def mixRho (n : ℕ) (ω : ℕ → ℝ) (ρ : ℕ → Cell → ℝ) (c : Cell) : ℝ := ∑ i : Fin n, ω i * ρ i c

variable {m : Mix} {g : Grid} {n : ℕ} {ω : ℕ → ℝ} {ρ : ℕ → Cell → ℝ} {L : ℕ → ℕ → ℝ}

theorem mixP_massP (g : Grid) (n : ℕ) (ω : ℕ → ℝ) (ρ : ℕ → Cell → ℝ) :
    mixP n ω (fun i => massP g (ρ i)) = massP g (mixRho n ω ρ) := by
  funext c
  simp only [mixP, massP, mixRho, Finset.sum_mul, mul_assoc]

theorem pick_same (P : Cell → ℝ) (w : PyStr) : pick P P w = P := by simp [pick]

theorem PlainMix.base (h : PlainMix m g n ω ρ L) : ∃ stored, BaseIs m.cube stored g (ρ 0) L := by
  obtain ⟨s, -, -, h⟩ := h.plain 0 (by rw [h.children]; exact h.pos)
  exact ⟨s, h⟩

theorem PlainMix.is (h : PlainMix m g n ω ρ L) :
    MixIs m g n ω (fun i => massP g (ρ i)) (fun i => massP g (ρ i)) L := by
  obtain ⟨s, hB⟩ := h.base
  refine ⟨h.pos, hB.proper, hB.cubeIs, h.children, by simp [h.weights], ?_, h.wpos, ?_,
    fun i c hc => massP_nonneg hB.proper (h.nonneg i) hc,
    fun i c hc => massP_nonneg hB.proper (h.nonneg i) hc, fun i c hc e => e, hB.light, hB.lightNonneg⟩
  · intro i hi
    simp [h.weights, List.getD, hi]
  · intro i hi density w hw
    obtain ⟨st, y, e, hb⟩ := h.plain i hi
    rw [e, pick_same]
    have := hb.marginal density false (by simp) hw
    simp only [wtdP, Bool.false_eq_true, if_false] at this
    exact this

/-! ### C27 -/

/-- `get_p` of a mixture is `get_p` of the density `Σ_i weight_i density_i`: for all 15 marginals. -/
theorem C27_marginals (h : PlainMix m g n ω ρ L) (density : Bool) (w : PyStr) (hw : w ∈ marginals) :
    ∃ p, Mix.getP m w true density false = .ok p ∧ p.shape = g.shapeOf w ∧
    ∀ c, g.Has c → p.get (coords w c) =
      .fin (g.marg (massP g (mixRho n ω ρ)) w c / (if density then g.volOf w c else 1)) := by
  obtain ⟨p, hp, hs, hg⟩ := Mix.getP_marg h.is density false hw (by simp)
  refine ⟨p, hp, hs, fun c hc => ?_⟩
  rw [hg c hc]
  simp only [pick_same, mixP_massP, wtdP, Bool.false_eq_true, if_false, dvol]

/-- The marginal of the mixture is the weighted sum of what the members themselves return. -/
theorem C27_weighted_sum (h : PlainMix m g n ω ρ L) (density : Bool) (w : PyStr) (hw : w ∈ marginals) :
    ∃ (p : Arr Num) (q : ℕ → Arr Num), Mix.getP m w true density false = .ok p ∧
    (∀ (i : ℕ) (hi : i < m.children.length), m.children[i].getP w density false = .ok (q i)) ∧
    p.shape = g.shapeOf w ∧ (∀ i < n, (q i).shape = g.shapeOf w) ∧
    ∀ c, g.Has c → p.get (coords w c) = ∑ i : Fin n, .fin (ω i) * (q i).get (coords w c) := by
  obtain ⟨p, hp, hs, hg⟩ := C27_marginals h density w hw
  have key : ∀ i, ∃ q : Arr Num, (∀ hi : i < m.children.length, m.children[i].getP w density false = .ok q) ∧
      (i < n → q.shape = g.shapeOf w ∧ ∀ c, g.Has c → q.get (coords w c) =
        .fin (g.marg (massP g (ρ i)) w c / (if density then g.volOf w c else 1))) := by
    intro i
    by_cases hi : i < m.children.length
    · obtain ⟨st, y, e, hb⟩ := h.plain i hi
      obtain ⟨q, hq, hqs, hqg⟩ := getP_marg_of_contract (hb.contract false (by simp)) density w hw
      refine ⟨q, fun _ => by rw [e]; exact hq, fun _ => ⟨hqs, fun c hc => ?_⟩⟩
      rw [hqg c hc]
      simp [dvol, wtdP]
    · exact ⟨p, fun hi' => absurd hi' hi, fun hi' => absurd (h.children ▸ hi') hi⟩
  choose q hq1 hq2 using key
  refine ⟨p, q, hp, fun i hi => hq1 i hi, hs, fun i hi => (hq2 i hi).1, fun c hc => ?_⟩
  rw [hg c hc, ← mixP_massP]
  have : ∀ i : Fin n, Num.fin (ω i) * (q i).get (coords w c) =
      .fin (ω i * g.marg (massP g (ρ i)) w c / (if density then g.volOf w c else 1)) := by
    intro i
    rw [(hq2 i i.2).2 c hc, Num.fin_mul, mul_div_assoc]
  simp only [this, Num.fin_sum]
  unfold mixP
  rw [marg_fsum]
  simp only [marg_mul_const, div_eq_mul_inv, Finset.sum_mul]

/-- The 50 conditionals are joint over marginal of the mixture's density; `nan` exactly where the
mixture has no probability. -/
theorem C27_conditionals (h : PlainMix m g n ω ρ L) (density : Bool) (a b : PyStr)
    (hab : (a, b) ∈ conditionals) :
    ∃ p, Mix.getP m (condStr a b) true density false = .ok p ∧ p.shape = g.shapeOf a ++ g.shapeOf b ∧
    ∀ c, g.Has c → p.get (coords a c ++ coords b c) =
      g.condP (massP g (mixRho n ω ρ)) a b c / .fin (if density then g.volOf a c else 1) := by
  obtain ⟨p, hp, hs, hg⟩ := Mix.getP_cond h.is density false (a, b) hab (by simp)
  refine ⟨p, hp, by rw [hs, shapeOf_condStr], fun c hc => ?_⟩
  rw [← coords_condStr, hg c hc]
  have hd := dvol_pos h.is.proper hc density a
  simp only [pick_same, mixP_massP, wtdP, Bool.false_eq_true, if_false]
  rw [show (if density then g.volOf a c else (1:ℝ)) = dvol g density a c from rfl]
  unfold condTable Grid.condP
  split
  · simp
  · rw [Num.fin_div _ _ hd.ne']

/-- Light weighting: member `i` counts with weight `ω i` times its total light, renormalised; the
light-weighted distributions are those of the light-weighted mixture density. -/
theorem C27_light_weighted (h : PlainMix m g n ω ρ L)
    (hT : ∀ i < n, 0 < totalLight g L (massP g (ρ i))) :
    (∀ w ∈ marginals, ∃ p, Mix.getP m w true false true = .ok p ∧ p.shape = g.shapeOf w ∧
      ∀ c, g.Has c →
        p.get (coords w c) = .fin (g.marg (g.lightP L (massP g (mixRho n ω ρ))) w c) ∧
        p.get (coords w c) = .fin (∑ i : Fin n,
          (ω i * totalLight g L (massP g (ρ i)) / ∑ k : Fin n, ω k * totalLight g L (massP g (ρ k))) *
          g.marg (g.lightP L (massP g (ρ i))) w c)) ∧
    (∀ a b, (a, b) ∈ conditionals → ∃ p, Mix.getP m (condStr a b) true false true = .ok p ∧
      p.shape = g.shapeOf a ++ g.shapeOf b ∧
      ∀ c, g.Has c → p.get (coords a c ++ coords b c) =
        g.condP (g.lightP L (massP g (mixRho n ω ρ))) a b c) := by
  have hS : 0 < ∑ k : Fin n, ω k * totalLight g L (massP g (ρ k)) :=
    Finset.sum_pos (fun k _ => mul_pos (h.wpos k) (hT k k.2)) ⟨⟨0, h.pos⟩, Finset.mem_univ _⟩
  have hlw : ∀ w, 0 < mixLight g n ω L (fun i => massP g (ρ i)) (fun i => massP g (ρ i)) w := by
    intro w
    unfold mixLight
    rw [totalLight_mixP]
    simpa only [pick_same] using hS
  constructor
  · intro w hw
    obtain ⟨p, hp, hs, hg⟩ := Mix.getP_marg h.is false true hw (fun _ => hlw w)
    refine ⟨p, hp, hs, fun c hc => ?_⟩
    have e := hg c hc
    simp only [pick_same, mixP_massP, wtdP, if_true, dvol, Bool.false_eq_true, if_false, div_one] at e
    refine ⟨e, e.trans ?_⟩
    congr 1
    rw [← mixP_massP]
    have e2 := sum_marg_rowP (g := g) (n := n) (ω := ω) (L := L) w true (fun i => massP g (ρ i)) c
    simp only [wtdP, if_true] at e2
    rw [← e2]
    refine Finset.sum_congr rfl fun i _ => ?_
    rw [← marg_mul_const]
    congr 1
    funext d
    have := hT i i.2
    simp only [rowP, if_true, Grid.lightP]
    rw [show g.sumCells (fun d => L d.t d.z * massP g (ρ i) d) = totalLight g L (massP g (ρ i)) from rfl]
    field_simp
  · intro a b hab
    obtain ⟨p, hp, hs, hg⟩ := Mix.getP_cond h.is false true (a, b) hab (fun _ => hlw)
    refine ⟨p, hp, by rw [hs, shapeOf_condStr], fun c hc => ?_⟩
    rw [← coords_condStr, hg c hc]
    simp [pick_same, mixP_massP, wtdP, condTable, Grid.condP, dvol]

/-- With `collapse_cmps=False` the result has one leading entry per member; for marginals and for
conditionals, mass and light weighted, they add up to the collapsed result. -/
theorem C27_uncollapsed (h : PlainMix m g n ω ρ L) (density lw : Bool)
    (hT : lw = true → 0 < totalLight g L (massP g (mixRho n ω ρ))) (w : PyStr)
    (hw : w ∈ marginals ∨ ∃ a b, (a, b) ∈ conditionals ∧ w = condStr a b) :
    ∃ p q, Mix.getP m w true density lw = .ok p ∧ Mix.getP m w false density lw = .ok q ∧
    p.shape = g.shapeOf w ∧ q.shape = n :: g.shapeOf w ∧
    (∀ c, g.Has c → p.get (coords w c) = ∑ i : Fin n, q.get ((i : ℕ) :: coords w c)) := by
  have hlw : lw = true → ∀ w, 0 < mixLight g n ω L (fun i => massP g (ρ i)) (fun i => massP g (ρ i)) w := by
    intro e w
    have := hT e
    unfold mixLight
    simpa only [pick_same, mixP_massP] using this
  rcases hw with hw | ⟨a, b, hab, rfl⟩
  · obtain ⟨p, hp, hs, hg⟩ := Mix.getP_marg h.is density lw hw (fun e => hlw e w)
    obtain ⟨q, hq, hqs, hqg⟩ := Mix.getP_marg_rows h.is density lw hw (fun e => hlw e w)
    refine ⟨p, q, hp, hq, hs, hqs, fun c hc => ?_⟩
    rw [hg c hc, Finset.sum_congr rfl fun (i : Fin n) _ => hqg i i.2 c hc, Num.fin_sum]
    simp only [div_eq_mul_inv, ← Finset.sum_mul, sum_marg_rowP]
  · obtain ⟨p, hp, hs, hg⟩ := Mix.getP_cond h.is density lw (a, b) hab hlw
    obtain ⟨q, hq, hqs, hqg⟩ := Mix.getP_cond_rows h.is density lw (a, b) hab hlw
    refine ⟨p, q, hp, hq, hs, hqs, fun c hc => ?_⟩
    rw [hg c hc, Finset.sum_congr rfl fun (i : Fin n) _ => hqg i i.2 c hc, condTable_sum _
      ⟨⟨0, h.pos⟩, Finset.mem_univ _⟩, sum_marg_rowP]

/-- Strings that are not one of the 15 marginals raise `AttributeError` (mass-weighted). -/
theorem C27_rejects (h : PlainMix m g n ω ρ L) (collapse density : Bool) (w : PyStr)
    (hw : w ∉ marginals) (hu : '_' ∉ w) : Mix.getP m w collapse density false = .error .attributeError := by
  have h0 : 0 < m.children.length := by rw [h.children]; exact h.pos
  obtain ⟨st, y, e, hb⟩ := h.plain 0 h0
  obtain ⟨c, cs, ec⟩ : ∃ c cs, m.children = c :: cs := List.exists_cons_of_length_pos h0
  obtain ⟨x, xs, ew⟩ : ∃ x xs, m.weights = x :: xs :=
    List.exists_cons_of_length_pos (by simpa [h.weights] using h.pos)
  have hc : c = Component.child (baseSelf m.cube st) y := by rw [← e]; simp [ec]
  have hn : c.logP w = none := by
    rw [hc]; exact baseLogP_none _ _ hw
  simp [Mix.getP, Mix.getLogP, hu, Mix.marginalRows, Mix.massWtd, ec, ew, Mix.rowsLoop, Mix.logPi, hn]

/-- Light-weighted queries of a mixture do not check the string: with `density=False` only the set of
its letters matters, so an unsorted string such as `vt` is silently answered in the order `tv`. -/
theorem C27_light_unsorted (m : Mix) (collapse : Bool) (w w' : PyStr) (hu : '_' ∉ w)
    (hsame : ∀ ch, ch ∈ w ↔ ch ∈ w') :
    Mix.getP m w collapse false true = Mix.getP m w' collapse false true := by
  have hu' : '_' ∉ w' := fun e => hu ((hsame _).2 e)
  simp only [Mix.getP, Mix.getLogP, hu, hu', if_false, Mix.marginalRows, if_true, Mix.lightWtd, hsame,
    Bool.false_eq_true]

/-- A mixture whose first member is itself a mixture cannot be queried: `AttributeError`, because
`Mixture` has no `log_p_tvxz`. -/
theorem C27_nested (inner : Mix) (cs : List Child) (x : ℝ) (xs : List ℝ) (cube : IFUCube)
    (collapse density : Bool) (w : PyStr) (hw : w ∈ marginals) :
    Mix.getP ⟨cube, inner.child :: cs, x :: xs, none⟩ w collapse density false =
      .error .attributeError := by
  have hm : w ∈ [['t'], ['t','v'], ['t','x'], ['t','z'], ['t','v','x'], ['t','v','z'],
      ['t','x','z'], ['t','v','x','z'], ['v'], ['v','x'], ['v','z'], ['v','x','z'], ['x'], ['x','z'],
      ['z']] := by
    revert w; decide
  simp only [Mix.getP, Mix.getLogP, marginal_noUnderscore hw, if_false, Mix.marginalRows,
    Bool.false_eq_true, Mix.massWtd, List.zip_cons_cons, Mix.rowsLoop, Mix.logPi, Mix.child, hm, if_true,
    Py.error_bind]

/-! ### C28 -/

/-- The constructor raises `AssertionError` exactly if the numbers of components and weights differ,
some weight is not strictly positive, or the weights are not close to one in sum; otherwise it
succeeds and keeps what it was given. -/
theorem C28_constructor (cube : IFUCube) (children : List Child) (weights : List ℝ) :
    let bad := children.length ≠ weights.length ∨ (∃ w ∈ weights, w ≤ 0) ∨
      1 / 10 ^ 8 + 1 / 10 ^ 5 < |weights.sum - 1|
    (bad → Mix.init cube children weights = .error .assertionError) ∧
    (¬ bad → Mix.init cube children weights = .ok ⟨cube, children, weights, none⟩) := by
  intro bad
  constructor
  · rintro (h | ⟨w, hw, h⟩ | h)
    · simp [Mix.init, h]
    · unfold Mix.init
      split_ifs with h1 h2 h3
      · exact absurd (h2 w hw) (not_lt.2 h)
      · rfl
      · rfl
      · rfl
    · unfold Mix.init Mix.isCloseOne
      split_ifs with h1 h2 h3
      · exact absurd h3 (not_le.2 h)
      · rfl
      · rfl
      · rfl
  · intro h
    simp only [bad, not_or, not_exists, not_and, not_lt, not_le, not_not] at h
    obtain ⟨h1, h2, h3⟩ := h
    unfold Mix.init Mix.isCloseOne
    rw [if_pos h1, if_pos h2, if_pos h3]

/-- Normalised members and weights with sum one make a normalised mixture: every marginal adds up to
one. -/
theorem C28_normalised (h : PlainMix m g n ω ρ L) (hω : m.weights.sum = 1)
    (hρ : ∀ i < n, g.sumCells (massP g (ρ i)) = 1) (w : PyStr) (hw : w ∈ marginals) :
    ∃ p, Mix.getP m w true false false = .ok p ∧ sumAll p = scalar (.fin 1) := by
  obtain ⟨p, hp, hpA⟩ := Mix.getP_marg h.is false false hw (by simp)
  refine ⟨p, hp, ?_⟩
  have hS : g.sumCells (massP g (mixRho n ω ρ)) = 1 := by
    rw [← mixP_massP]
    unfold mixP
    rw [sumCells_fsum]
    simp only [sumCells_mul]
    rw [Finset.sum_congr rfl fun (i : Fin n) _ => by rw [hρ i i.2, mul_one]]
    rw [← hω, h.weights, Fin.sum_univ_eq_sum_range (fun i => ω i) n]
    rfl
  rw [← hS]
  exact sumAll_marg h.is.proper hw (hpA.congr fun c _ => by simp [pick_same, mixP_massP, wtdP, dvol])

/-- Whatever the constructor accepts, if its members are plain components on the cube, is a mixture in
the sense of these theorems. -/
theorem C28_constructed {cube : IFUCube} {children : List Child} {weights : List ℝ}
    (hm : Mix.init cube children weights = .ok m)
    (hc : ∀ ch ∈ children, ∃ stored ybar ρ, ch = Component.child (baseSelf cube stored) ybar ∧
      BaseIs cube stored g ρ L) :
    ∃ ω ρ, PlainMix m g weights.length ω ρ L ∧ m.weights = weights ∧ m.children = children ∧
      m.cube = cube := by
  have e := C28_constructor cube children weights
  simp only at e
  by_cases hbad : children.length ≠ weights.length ∨ (∃ w ∈ weights, w ≤ 0) ∨
      1 / 10 ^ 8 + 1 / 10 ^ 5 < |weights.sum - 1|
  · rw [e.1 hbad] at hm; cases hm
  · rw [e.2 hbad] at hm
    simp only [not_or, not_exists, not_and, not_lt, not_le, not_not] at hbad
    obtain ⟨h1, h2, h3⟩ := hbad
    injection hm with hm
    subst hm
    have key : ∀ i, ∃ ρ : Cell → ℝ, (∀ c, 0 ≤ ρ c) ∧ ∀ hi : i < children.length, ∃ stored ybar,
        children[i] = Component.child (baseSelf cube stored) ybar ∧ BaseIs cube stored g ρ L := by
      intro i
      by_cases hi : i < children.length
      · obtain ⟨st, y, ρ, k1, k2⟩ := hc _ (List.getElem_mem hi)
        exact ⟨ρ, k2.nonneg, fun _ => ⟨st, y, k1, k2⟩⟩
      · exact ⟨fun _ => 0, fun _ => le_rfl, fun hi' => absurd hi' hi⟩
    choose ρ hρ hρ' using key
    refine ⟨fun i => weights.getD i 1, ρ, ⟨?_, h1, ?_, ?_, hρ, hρ'⟩, rfl, rfl, rfl⟩
    · rcases weights with _ | ⟨x, xs⟩
      · norm_num at h3
      · simp
    · refine List.ext_getElem (by simp) fun i hi hi' => ?_
      simp [List.getD, hi]
    · intro i
      by_cases hi : i < weights.length
      · simp only [List.getD, List.getElem?_eq_getElem hi, Option.getD_some]
        exact h2 _ (List.getElem_mem hi)
      · simp [List.getD, not_lt.1 hi]

/-! ### C30 -/

theorem addYbar_is {s : List ℕ} : ∀ (l : List (Child × ℝ)) (Y : ℕ → Arr Num) (acc : Arr Num),
    acc.shape = s → (∀ (i : ℕ) (hi : i < l.length), l[i].1.ybar = some (Y i) ∧ (Y i).shape = s) →
    ∃ r, Mix.addYbar acc l = .ok r ∧ r.shape = s ∧ ∀ j, InBox s j → r.get j =
      acc.get j + ∑ i : Fin l.length, .fin (l[i].2) * (Y i).get j
  | [], _, acc, hs, _ => ⟨acc, rfl, hs, fun j _ => by simp⟩
  | (c, w) :: l, Y, acc, hs, h => by
    obtain ⟨h1, h2⟩ := h 0 (by simp)
    simp only [List.getElem_cons_zero] at h1
    obtain ⟨r0, hr0, hrs0, hrg0⟩ := bop_same (· + ·) (A := acc)
      (B := Np.map (fun v => Num.fin w * v) (Y 0)) (by simp [Np.map, hs, h2])
    obtain ⟨r, hr, hrs, hrg'⟩ := iop_of_bop hr0 hrs0
    have hrg := fun j hj => (hrg' j hj).trans (hrg0 j hj)
    obtain ⟨q, hq, hqs, hqg⟩ := addYbar_is l (fun i => Y (i + 1)) r (hrs.trans hs) (fun i hi => by
      have := h (i + 1) (by simpa using hi)
      rwa [List.getElem_cons_succ] at this)
    refine ⟨q, ?_, hqs, fun j hj => ?_⟩
    · simp [Mix.addYbar, Mix.childYbar, h1, iadd, hr, hq]
    · rw [hqg j hj, hrg j (hs ▸ hj)]
      simp only [List.length_cons, Fin.sum_univ_succ, Np.map]
      simp [add_assoc]

/-- `evaluate_ybar` sets `ybar` to the weighted sum of the members' datacubes, voxel by voxel, for any
number of members; the members, weights and cube stay as they were. -/
theorem C30_weighted_sum (m : Mix) (Y : ℕ → Arr Num) (s : List ℕ) (h0 : m.children ≠ [])
    (hlen : m.children.length = m.weights.length)
    (hY : ∀ (i : ℕ) (hi : i < m.children.length), m.children[i].ybar = some (Y i) ∧ (Y i).shape = s) :
    ∃ y, Mix.evaluateYbar m = .ok { m with ybar := some y } ∧ y.shape = s ∧
    ∀ j, InBox s j → y.get j =
      ∑ i : Fin m.weights.length, .fin m.weights[i] * (Y i).get j := by
  obtain ⟨c, cs, ec⟩ := List.exists_cons_of_ne_nil h0
  have hz : (m.children.zip m.weights).length = m.weights.length := by simp [hlen]
  obtain ⟨h1, h2⟩ := hY 0 (by simp [ec])
  have h1' : c.ybar = some (Y 0) := by rw [← h1]; simp [ec]
  obtain ⟨r, hr, hrs, hrg⟩ := addYbar_is (s := s) (m.children.zip m.weights) Y
    (full s (.fin 0)) rfl (fun i hi => by
      simpa using hY i (by simp [hlen]; omega))
  refine ⟨r, ?_, hrs, fun j hj => ?_⟩
  · simp only [Mix.evaluateYbar]
    rw [ec] at hr ⊢
    simp only [Mix.childYbar, h1', Py.ok_bind, h2, hr]
  · rw [hrg j hj]
    have e0 : (full s (Num.fin 0)).get j = 0 := rfl
    rw [e0, zero_add]
    exact Fintype.sum_equiv (finCongr hz)
      (fun i => Num.fin (m.children.zip m.weights)[i].2 * (Y i).get j)
      (fun i => Num.fin m.weights[i] * (Y i).get j) (fun i => by simp)

/-- Without members there is nothing to take the shape from: `IndexError`. -/
theorem C30_empty (m : Mix) (h : m.children = []) : Mix.evaluateYbar m = .error .indexError := by
  simp [Mix.evaluateYbar, h]

/-- A member whose datacube has not been evaluated makes the call fail with `AttributeError` (the
evaluated ones having equal shapes). -/
theorem C30_missing (m : Mix) (s : List ℕ) (hlen : m.children.length = m.weights.length)
    (hY : ∀ c ∈ m.children, ∀ y, c.ybar = some y → y.shape = s)
    (c : Child) (hc : c ∈ m.children) (hn : c.ybar = none) :
    Mix.evaluateYbar m = .error .attributeError := by
  have key : ∀ (cs : List Child) (ws : List ℝ) (acc : Arr Num), cs.length = ws.length → acc.shape = s →
      (∀ c ∈ cs, ∀ y, c.ybar = some y → y.shape = s) → c ∈ cs →
      Mix.addYbar acc (cs.zip ws) = .error .attributeError := by
    intro cs
    induction cs with
    | nil => intro _ _ _ _ _ h; cases h
    | cons d cs ih =>
      intro ws acc hl hs hy hc
      obtain ⟨x, xs, rfl⟩ : ∃ x xs, ws = x :: xs := List.exists_cons_of_length_pos (by simp [← hl])
      rw [List.zip_cons_cons]
      rcases hd : d.ybar with _ | y
      · simp [Mix.addYbar, Mix.childYbar, hd]
      · obtain ⟨r0, hr0, hrs0, -⟩ := bop_same (· + ·) (A := acc)
          (B := Np.map (fun v => Num.fin x * v) y) (by simp [Np.map, hs, hy d (by simp) y hd])
        obtain ⟨r, hr, hrs, -⟩ := iop_of_bop hr0 hrs0
        have hc' : c ∈ cs := by
          rcases List.mem_cons.1 hc with rfl | h
          · rw [hn] at hd; cases hd
          · exact h
        have := ih xs r (by simpa using hl) (hrs.trans hs) (fun e he => hy e (by simp [he])) hc'
        simp [Mix.addYbar, Mix.childYbar, hd, iadd, hr, this]
  obtain ⟨d, cs, ec⟩ := List.exists_cons_of_ne_nil (List.ne_nil_of_mem hc)
  rcases hd : d.ybar with _ | y
  · simp [Mix.evaluateYbar, ec, Mix.childYbar, hd]
  · have hy : y.shape = s := hY d (by simp [ec]) y hd
    have := key m.children m.weights (full y.shape (.fin 0)) hlen hy hY hc
    rw [ec] at this
    simp only [Mix.evaluateYbar]
    rw [ec]
    simp [Mix.childYbar, hd, this]

/-- Datacubes of incompatible shapes: `ValueError` (two members shown; the shapes cannot be
broadcast). -/
theorem C30_shapes (cube : IFUCube) (c d : Child) (w x : ℝ) (y y' : Arr Num) (hc : c.ybar = some y)
    (hd : d.ybar = some y') (h : bshapeR y.shape.reverse y'.shape.reverse = none) :
    Mix.evaluateYbar ⟨cube, [c, d], [w, x], none⟩ = .error .valueError := by
  obtain ⟨r0, hr0, hrs0, -⟩ := bop_same (· + ·) (A := full y.shape (.fin 0))
    (B := Np.map (fun v => Num.fin w * v) y) rfl
  obtain ⟨r, hr, hrs, -⟩ := iop_of_bop hr0 hrs0
  have hrs' : r.shape = y.shape := hrs
  have e2 : bop (· + ·) r (Np.map (fun v => Num.fin x * v) y') = .error .valueError := by
    simp [bop, Np.map, hrs', h]
  have e3 : Np.iop (· + ·) r (Np.map (fun v => Num.fin x * v) y') = .error .valueError := by simp [Np.iop, e2]
  simp [Mix.evaluateYbar, Mix.childYbar, hc, hd, Mix.addYbar, iadd, hr, e3]

/-! ### Demonstration -/

/-- A uniform normalised density on the demonstration grid. -/
def demoRho1 (_ : Cell) : ℝ := 1 / demoGrid.sumCells (massP demoGrid (fun _ => 1))

/-- Its logarithms. -/
def demoStored1 : Arr Num := ⟨[2, 4, 5, 6, 3], fun _ => Num.lg (demoRho1 ⟨0, 0, 0, 0, 0⟩)⟩

theorem demoTotal1_pos : 0 < demoGrid.sumCells (massP demoGrid (fun _ => 1)) :=
  sumCells_pos (fun _ hc => massP_nonneg demoGrid_proper (fun _ => zero_le_one) hc) demoHas
    (mul_pos one_pos (cellVolume_pos demoGrid_proper demoHas))

theorem demoRho1_pos (c : Cell) : 0 < demoRho1 c := div_pos one_pos demoTotal1_pos

/-- Densities of the two members. -/
def demoRhos (i : ℕ) : Cell → ℝ := if i = 0 then demoRho else demoRho1
/-- Their weights. -/
def demoWeights (i : ℕ) : ℝ := if i = 0 then 1 / 4 else 3 / 4

/-- A mixture, made by the constructor, of the non-uniform component of the earlier examples and a
uniform one: all hypotheses above hold. -/
theorem demoMix : ∃ cube m, IFUCube.init demoSSPs 5 6 4 (-1, 1) (0, 3) (-100, 300) = .ok cube ∧
    Mix.init cube [Component.child (baseSelf cube demoStored) none,
      Component.child (baseSelf cube demoStored1) none] [1 / 4, 3 / 4] = .ok m ∧
    PlainMix m demoGrid 2 demoWeights demoRhos demoL ∧ m.weights.sum = 1 ∧
    (∀ i < 2, demoGrid.sumCells (massP demoGrid (demoRhos i)) = 1) ∧
    (∀ i < 2, 0 < totalLight demoGrid demoL (massP demoGrid (demoRhos i))) ∧
    demoGrid.marg (massP demoGrid (demoRhos 0)) ['x'] ⟨0, 0, 0, 0, 0⟩ = 0 ∧
    (∀ b c, demoGrid.Has c → 0 < demoGrid.marg (massP demoGrid (demoRhos 1)) b c) := by
  obtain ⟨cube, h1, -, hB, hN, hT, h0, -⟩ := demoBase
  have hB1 : BaseIs cube demoStored1 demoGrid demoRho1 demoL :=
    ⟨hB.proper, hB.cubeIs, ⟨rfl, fun c _ => rfl⟩, fun c => (demoRho1_pos c).le, hB.light, hB.lightNonneg⟩
  refine ⟨cube, _, h1, (C28_constructor cube _ _).2 ?_, ?_, ?_, ?_, ?_, h0, ?_⟩
  · norm_num
  · refine ⟨by norm_num, rfl, by simp [List.range_succ, demoWeights], ?_, ?_, ?_⟩
    · intro i; unfold demoWeights; split_ifs <;> norm_num
    · intro i c; unfold demoRhos; split_ifs
      · exact hB.nonneg c
      · exact hB1.nonneg c
    · intro i hi
      have : i < 2 := hi
      interval_cases i
      · exact ⟨_, _, rfl, hB⟩
      · exact ⟨_, _, rfl, hB1⟩
  · norm_num
  · intro i hi
    interval_cases i
    · exact hN
    · have e : massP demoGrid demoRho1 = fun c => massP demoGrid (fun _ => 1) c /
        demoGrid.sumCells (massP demoGrid (fun _ => 1)) := by
        funext c; simp only [massP, demoRho1]; ring
      show demoGrid.sumCells (massP demoGrid demoRho1) = 1
      rw [e, sumCells_div, div_self demoTotal1_pos.ne']
  · intro i hi
    interval_cases i
    · exact hT
    · refine sumCells_pos (c := ⟨1, 2, 3, 4, 2⟩) (fun c hc => mul_nonneg (by unfold demoL; positivity)
        (massP_nonneg demoGrid_proper hB1.nonneg hc)) demoHas ?_
      exact mul_pos (by norm_num [demoL]) (mul_pos (demoRho1_pos ⟨1, 2, 3, 4, 2⟩) (cellVolume_pos demoGrid_proper demoHas))
  · intro b c hc
    refine sumCells_pos (c := c) (fun d hd => ?_) hc ?_
    · split_ifs
      · exact massP_nonneg demoGrid_proper hB1.nonneg hd
      · exact le_rfl
    · simp only [if_true]
      exact mul_pos (demoRho1_pos c) (cellVolume_pos demoGrid_proper hc)

/-- The light-weighted and normalisation theorems apply to it. -/
example : ∃ m p q, PlainMix m demoGrid 2 demoWeights demoRhos demoL ∧
    Mix.getP m ['v','x'] true false true = .ok p ∧ p.shape = [4, 5, 6] ∧
    Mix.getP m ['v','x'] true false false = .ok q ∧ sumAll q = scalar (.fin 1) := by
  obtain ⟨cube, m, -, -, h, hw, hN, hT, -⟩ := demoMix
  obtain ⟨p, hp, hs, -⟩ := (C27_light_weighted h hT).1 ['v','x'] (by decide)
  obtain ⟨q, hq, hqs⟩ := C28_normalised h hw hN ['v','x'] (by decide)
  exact ⟨m, p, q, h, hp, by rw [hs]; simp [Grid.shapeOf, Grid.shape1, demoGrid, cubeGrid], hq, hqs⟩

/-- An unaccepted string and an unsorted one. -/
example : ∃ m, Mix.getP m ['v','t'] true false false = .error .attributeError ∧
    ∃ p, Mix.getP m ['v','t'] true false true = .ok p ∧ p.shape = [2, 4] := by
  obtain ⟨cube, m, -, -, h, hw, hN, hT, -⟩ := demoMix
  obtain ⟨p, hp, hs, -⟩ := (C27_light_weighted h hT).1 ['t','v'] (by decide)
  refine ⟨m, C27_rejects h true false _ (by decide) (by decide), p, ?_, by rw [hs]; simp [Grid.shapeOf, Grid.shape1, demoGrid, cubeGrid]⟩
  rw [C27_light_unsorted m true ['v','t'] ['t','v'] (by decide) (by intro ch; simp [or_comm])]
  exact hp

/-- Datacubes: three members with two-voxel datacubes, of which the mixture takes the weighted sum;
without one of them the call fails. -/
example (cube : IFUCube) (s : Self) (y : ℕ → Arr Num) (hy : ∀ i, (y i).shape = [2]) :
    (∃ r, Mix.evaluateYbar ⟨cube, [child s (some (y 0)), child s (some (y 1)), child s (some (y 2))],
      [1/2, 1/4, 1/4], none⟩ = .ok r) ∧
    Mix.evaluateYbar ⟨cube, [child s (some (y 0)), child s none, child s (some (y 2))],
      [1/2, 1/4, 1/4], none⟩ = .error .attributeError := by
  constructor
  · obtain ⟨r, hr, -⟩ := C30_weighted_sum ⟨cube, [child s (some (y 0)), child s (some (y 1)),
      child s (some (y 2))], [1/2, 1/4, 1/4], none⟩ y [2] (by simp) rfl (by
        intro i hi
        have : i < 3 := hi
        interval_cases i <;> exact ⟨rfl, hy _⟩)
    exact ⟨_, hr⟩
  · refine C30_missing _ [2] rfl ?_ (child s none) (by simp) rfl
    intro c hc z hz
    simp only [List.mem_cons, List.not_mem_nil, or_false] at hc
    rcases hc with rfl | rfl | rfl
    · simp only [child, Option.some.injEq] at hz; rw [← hz, hy]
    · simp [child] at hz
    · simp only [child, Option.some.injEq] at hz; rw [← hz, hy]

end PKM
