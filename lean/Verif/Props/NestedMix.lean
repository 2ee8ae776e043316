import Verif.Props.AnyCentre

/-!
# Mixtures of mixtures

A mixture can be a member of another mixture, to any depth. It should then answer as the mixture of all the components at the
bottom, each with the product of the weights above it. `mixPop n ω pop` is the union of the populations `pop i` with the weights
`ω i` (Verif/PopSpec.lean); `m.child` is the mixture `m` as a member (Verif/Mixture.lean).
-/

open scoped Classical

noncomputable section

namespace PKM
open Np Component

variable {g : Grid} {L : ℕ → ℕ → ℝ} {ch : Child} {q : Pop} {n : ℕ} {ω : ℕ → ℝ} {pop : ℕ → Pop} {m : Mix}

/-! ### Specification -/

/-- `ch` is a plain or parametric component, or a mixture of such things, to any depth; `q` are all its stars. The probabilities
of each component and the weights of each mixture sum to one. -/
inductive Nest (g : Grid) (L : ℕ → ℕ → ℝ) : Child → Pop → Prop
  | single (ch : Child) (q : Pop) (is : IsMember g L ch q) (unit : ∀ c, q.amount g L false [] c = 1) : Nest g L ch q
  | mixture (m : Mix) (n : ℕ) (ω : ℕ → ℝ) (pop : ℕ → Pop) (pos : 0 < n) (cube : CubeIs m.cube g)
      (children : m.children.length = n) (weights : m.weights = (List.range n).map ω) (wpos : ∀ i < n, 0 < ω i)
      (sum : ∑ i : Fin n, ω i = 1)
      (member : ∀ (i : ℕ) (hi : i < m.children.length), Nest g L m.children[i] (pop i)) : Nest g L m.child (mixPop n ω pop)

/-- A component, or a mixture of components that have stars. -/
inductive Inner (g : Grid) (L : ℕ → ℕ → ℝ) : Child → Pop → Prop
  | single (ch : Child) (q : Pop) (is : IsMember1 g L ch q) : Inner g L ch q
  | mixture (m : Mix) (n : ℕ) (ω : ℕ → ℝ) (pop : ℕ → Pop) (is : MixOf m g n ω pop L)
      (stars : ∀ i < n, ∀ c, (pop i).amount g L false [] c ≠ 0) : Inner g L m.child (mixPop n ω pop)

/-- `m` is a mixture of components and of mixtures of components. -/
structure TwoLevels (m : Mix) (g : Grid) (n : ℕ) (ω : ℕ → ℝ) (pop : ℕ → Pop) (L : ℕ → ℕ → ℝ) : Prop where
  pos : 0 < n
  cube : CubeIs m.cube g
  children : m.children.length = n
  weights : m.weights = (List.range n).map ω
  sum : ∑ i : Fin n, ω i = 1
  unit : ∀ i < n, ∀ c, (pop i).amount g L false [] c = 1
  member : ∀ (i : ℕ) (hi : i < m.children.length), Inner g L m.children[i] (pop i)

/-- `ch` has a datacube of shape `s`; it is a component with the voxels `y`, or a mixture, to any depth, whose `evaluate_ybar` has
been called after those of its members. `l` are the datacubes of the components at the bottom, with the products of the weights
above them. -/
inductive Light (s : List ℕ) : Child → List (ℝ × (List ℕ → ℝ)) → Prop
  | single (ch : Child) (Y : Arr Num) (y : List ℕ → ℝ) (has : ch.ybar = some Y) (shape : Y.shape = s)
      (voxel : ∀ j, InBox s j → Y.get j = .fin (y j)) : Light s ch [(1, y)]
  | mixture (m m' : Mix) (parts : ℕ → List (ℝ × (List ℕ → ℝ))) (some : m.children ≠ [])
      (len : m.children.length = m.weights.length)
      (member : ∀ (i : ℕ) (hi : i < m.children.length), Light s m.children[i] (parts i)) (eval : m.evaluateYbar = .ok m') :
      Light s m'.child ((List.range m.weights.length).flatMap fun i => (parts i).map fun p => (m.weights.getD i 0 * p.1, p.2))

/-- `e` raises an exception. -/
def Raises {α : Type} (e : Py α) : Prop := ∃ x, e = .error x

/-! ### Proofs -/

theorem Nest.unit (h : Nest g L ch q) (c : Cell) : q.amount g L false [] c = 1 := by
  induction h with
  | single ch q is unit => exact unit c
  | mixture m n ω pop pos cube children weights wpos sum member ih =>
    rw [amount_mixPop, ← sum]
    exact Finset.sum_congr rfl fun i _ => by rw [ih i (by rw [children]; exact i.2), mul_one]

theorem num_unit {k : Char} {φ : ℝ → ℝ} {c : Cell} (h : q.amount g L false [] c = 1) :
    q.num g L false [] k φ c / q.norm g L false [] c = q.expect g L false [] k φ c := by
  rw [Pop.expect_num]; unfold Pop.norm
  rw [if_pos ⟨rfl, rfl⟩, h]

theorem expect_union (hs : ∑ i : Fin n, ω i = 1) {c : Cell} (hu : ∀ i < n, (pop i).amount g L false [] c = 1) (k : Char) (φ : ℝ → ℝ) :
    (mixPop n ω pop).expect g L false [] k φ c = ∑ i : Fin n, ω i * (pop i).expect g L false [] k φ c := by
  have : (mixPop n ω pop).amount g L false [] c = 1 := by
    rw [amount_mixPop, ← hs]
    exact Finset.sum_congr rfl fun i _ => by rw [hu i i.2, mul_one]
  rw [Pop.expect_num, this, div_one, num_mixPop]
  exact Finset.sum_congr rfl fun i _ => by rw [Pop.expect_num, hu i i.2, div_one]

theorem weights_of (weights : m.weights = (List.range n).map ω) : m.weights.length = n ∧ ∀ i < n, m.weights.getD i 0 = ω i := by
  rw [weights]
  exact ⟨by simp, fun i hi => by simp [hi]⟩

/-- Means over all stars from means over all stars of the members. -/
theorem mean_of_members {a : PyStr} (ha : a ∈ marginals) (h1 : a.length = 1) (pos : 0 < n) (children : m.children.length = n)
    (weights : m.weights = (List.range n).map ω) (sum : ∑ i : Fin n, ω i = 1) (unit : ∀ i < n, ∀ c, (pop i).amount g L false [] c = 1)
    (member : ∀ (i : ℕ) (hi : i < m.children.length), ∃ r, m.children[i].getMean a false = .ok r ∧
      IsMom g a [] r (fun k c => .fin ((pop i).mean g L false [] k c))) :
    ∃ r, m.getMean a false = .ok r ∧ IsMom g a [] r (fun k c => .fin ((mixPop n ω pop).mean g L false [] k c)) := by
  obtain ⟨hw, hω⟩ := weights_of weights
  obtain ⟨r, hr, hr'⟩ := Mix.mean_marg_raw (g := g) (lw := false) ha h1 pos children hw hω member
    (X := full [m.children.length] (.fin 1)) (x := fun _ => .fin 1) rfl (by simp [full, children]) (fun i _ => rfl)
  refine ⟨r, hr, hr'.congr fun k _ c _ => ?_⟩
  simp only [Num.fin_mul, Num.fin_sum, mul_one]
  unfold Pop.mean
  rw [expect_union sum (fun i hi => unit i hi c)]

theorem Nest.mean (h : Nest g L ch q) {a : PyStr} (ha : a ∈ marginals) (h1 : a.length = 1) :
    ∃ r, ch.getMean a false = .ok r ∧ IsMom g a [] r (fun k c => .fin (q.mean g L false [] k c)) := by
  induction h with
  | single ch q is unit =>
    obtain ⟨r, F, hr, hr', hF⟩ := (is.says (lw := false) (by simp) (.inl ⟨rfl, ha⟩) h1).mean
    refine ⟨r, by simpa [distStr] using hr, hr'.congr fun k hk c hc => ?_⟩
    rw [hF k hk c hc (by rw [unit]; norm_num), num_unit (unit c)]
    rfl
  | mixture m n ω pop pos cube children weights wpos sum member ih =>
    exact mean_of_members ha h1 pos children weights sum
      (fun i hi c => (member i (by rw [children]; exact hi)).unit c) ih

theorem bind_raises {α β : Type} {e : Py α} (h : Raises e) (f : α → Py β) : Raises (e >>= f) := by
  obtain ⟨x, rfl⟩ := h
  exact ⟨x, rfl⟩

theorem raises_bind {α β : Type} {e : Py α} {f : α → Py β} (h : ∀ a, Raises (f a)) : Raises (e >>= f) := by
  cases e with
  | error x => exact ⟨x, rfl⟩
  | ok a => exact h a

theorem error_raises {α : Type} {x : PyErr} : Raises (.error x : Py α) := ⟨x, rfl⟩

theorem child_logPi {w : PyStr} (hw : w ∈ marginals) (m' : Mix) (x : ℝ) (d : Bool) : Mix.logPi w d (m'.child, x) = .error .attributeError := by
  have hm : w ∈ [['t'], ['t','v'], ['t','x'], ['t','z'], ['t','v','x'], ['t','v','z'],
      ['t','x','z'], ['t','v','x','z'], ['v'], ['v','x'], ['v','z'], ['v','x','z'], ['x'], ['x','z'],
      ['z']] := by
    revert w; decide
  simp only [Mix.logPi, Mix.child, hm, if_true, Py.error_bind]

theorem rowsLoop_raises {f : Child × ℝ → Py (Arr Num)} : ∀ (l : List (Child × ℝ)) (s : Option (List ℕ)),
    (∃ cw ∈ l, Raises (f cw)) → Raises (Mix.rowsLoop f s l)
  | [], _, h => by obtain ⟨_, h, -⟩ := h; cases h
  | cw :: r, s, h => by
    by_cases hr : ∃ cw ∈ r, Raises (f cw)
    · cases s with
      | none => exact raises_bind fun a => bind_raises (rowsLoop_raises r _ hr) _
      | some s => exact raises_bind fun a => raises_bind fun b => bind_raises (rowsLoop_raises r _ hr) _
    · obtain ⟨c, hc, hf⟩ := h
      rcases List.mem_cons.1 hc with rfl | hc
      · cases s with
        | none => exact bind_raises hf _
        | some s => exact bind_raises hf _
      · exact absurd ⟨c, hc, hf⟩ hr

/-- One member of `m` is a mixture. -/
def HasMixture (m : Mix) : Prop := ∃ m' : Mix, ∃ x : ℝ, (m'.child, x) ∈ m.children.zip m.weights

theorem massWtd_raises (h : HasMixture m) {w : PyStr} (hw : w ∈ marginals) (d : Bool) : Raises (Mix.massWtd m w d) := by
  obtain ⟨m', x, hx⟩ := h
  exact bind_raises (rowsLoop_raises _ _ ⟨_, hx, _, child_logPi hw m' x d⟩) _

theorem marginalRows_raises (h : HasMixture m) {w : PyStr} (hw : w ∈ marginals) (d lw : Bool) : Raises (Mix.marginalRows m w d lw) := by
  cases lw with
  | false => exact massWtd_raises h hw d
  | true =>
    refine raises_bind fun a => bind_raises (massWtd_raises h ?_ _) _
    split <;> decide

theorem getLogP_raises (h : HasMixture m) {a b : PyStr} (hab : ValidPair a b) (collapse d lw : Bool) :
    Raises (Mix.getLogP m (distStr a b) collapse d lw) := by
  rcases hab with ⟨rfl, ha⟩ | hab
  · have : '_' ∉ distStr a [] := by simpa [distStr] using marginal_noUnderscore ha
    unfold Mix.getLogP
    rw [if_neg this]
    exact bind_raises (marginalRows_raises h (by simpa [distStr] using ha) _ _) _
  · have hb : b ≠ [] := (by decide +kernel : ∀ q ∈ conditionals, q.2 ≠ []) _ hab
    have e : distStr a b = condStr a b := by simp [distStr, hb]
    obtain ⟨h1, h2⟩ := (by decide +kernel : ∀ p ∈ conditionals, '_' ∈ condStr p.1 p.2 ∧
      PyStr.split '_' (condStr p.1 p.2) = [p.1, p.2]) (a, b) hab
    obtain ⟨-, -, -, -, -, -, hs, -, -, hu⟩ := conditionals_letters _ hab
    unfold Mix.getLogP
    rw [e, if_pos h1]
    refine bind_raises ?_ _
    unfold Mix.conditionalRows
    rw [h2]
    exact bind_raises (marginalRows_raises h (by rw [hs]; exact hu) _ _) _

theorem getP_raises (h : HasMixture m) {a b : PyStr} (hab : ValidPair a b) (collapse d lw : Bool) :
    Raises (Mix.getP m (distStr a b) collapse d lw) := bind_raises (getLogP_raises h hab collapse d lw) _

/-! ### C95 -/

/-- The mean over all stars, mass-weighted, of mixtures nested to any depth is the mean of the union of the stars of all components
at the bottom. Missing: means at given values of other variables and light-weighted means, see `C95_means_raise`. -/
theorem C95_mean_partial (h : Nest g L ch q) (k : Char) (hk : k ∈ ['t','v','x','y','z']) (c : Cell) (hc : g.Has c) :
    ∃ r, ch.getMean (varOf k) false = .ok r ∧ r.shape = compShape (varOf k) ∧
      r.get (compIdx k) = .fin (q.mean g L false [] k c) := by
  obtain ⟨h1, h2, h3⟩ := quantity_facts hk
  obtain ⟨r, hr, hs, hr'⟩ := h.mean ((by decide : ∀ a ∈ [['t'],['v'],['x'],['z']], a ∈ marginals) _ h3) h1
  refine ⟨r, hr, by simpa [Grid.shapeOf] using hs, ?_⟩
  have := hr' k h2 c hc
  simpa [coords] using this

/-- Central moments over all stars, mass-weighted, of ages, positions and metallicities in a mixture of components and of mixtures
of components are those of the union of all stars. Missing: velocities, see `C95_velocity_wrong`; deeper nesting, see
`C95_deeper_raise`; given values of other variables and light weighting, see `C95_means_raise`. -/
theorem C95_central_partial (h : TwoLevels m g n ω pop L) (k : Char) (hk : k ∈ ['t','x','y','z']) (j : ℕ) (c : Cell) (hc : g.Has c) :
    ∃ r, m.getCentralMoment (varOf k) j false = .ok r ∧ r.shape = compShape (varOf k) ∧
      r.get (compIdx k) = .fin ((mixPop n ω pop).central g L false [] k j c) := by
  have hk5 : k ∈ ['t','v','x','y','z'] := by simp only [List.mem_cons, List.not_mem_nil, or_false] at hk ⊢; tauto
  have hkv : k ≠ 'v' := by rintro rfl; exact absurd hk (by decide)
  obtain ⟨h1, h2, h3⟩ := quantity_facts hk5
  have ha : varOf k ∈ marginals := (by decide : ∀ a ∈ [['t'],['v'],['x'],['z']], a ∈ marginals) _ h3
  have hab : ValidPair (varOf k) [] := .inl ⟨rfl, ha⟩
  have hne : ∀ k' ∈ PyStr.replaceX (varOf k), k' ≠ 'v' :=
    (by decide : ∀ k ∈ ['t','x','y','z'], ∀ k' ∈ PyStr.replaceX (varOf k), k' ≠ 'v') k hk
  obtain ⟨hw, hω⟩ := weights_of h.weights
  have hds : distStr (varOf k) [] = varOf k := by simp [distStr]
  obtain ⟨M, hM, hM'⟩ := mean_of_members (g := g) (L := L) ha h1 h.pos h.children h.weights h.sum h.unit (fun i hi => by
    have hu := h.unit i (h.children ▸ hi)
    have hin := h.member i hi
    generalize m.children[i] = ch at hin
    generalize pop i = q at hin hu
    cases hin with
    | single _ _ is =>
      obtain ⟨r, F, hr, hr', hF⟩ := (is.says (lw := false) (by simp) hab h1 (fun e => hkv (varOf_v hk5 e.1))).mean
      refine ⟨r, by rwa [hds] at hr, hr'.congr fun k hk c hc => ?_⟩
      rw [hF k hk c hc (by rw [hu]; norm_num), num_unit (hu c)]
      rfl
    | mixture m n ω pop is stars =>
      obtain ⟨r, F, hr, hr', hF⟩ := is.mean_at (lw := false) (by simp) (.inl rfl) hab h1
      rw [hds] at hr
      exact ⟨r, hr, hr'.congr fun k hk c hc => hF k hk c hc ⟨fun i hi => stars i hi c, fun _ _ => hu c⟩⟩)
  have hmem : ∀ (i : ℕ) (hi : i < m.children.length), ∃ r, m.children[i].getNcm (varOf k) j M false = .ok r ∧
      IsMom g (varOf k) [] r (fun k' c => .fin ((pop i).expect g L false [] k' (fun x => (x - (mixPop n ω pop).mean g L false [] k' c) ^ j) c)) := by
    intro i hi
    have hu := h.unit i (h.children ▸ hi)
    have hin := h.member i hi
    generalize m.children[i] = ch at hin
    generalize pop i = q at hin hu
    cases hin with
    | single _ _ is =>
      obtain ⟨r, F, hr, hr', hF⟩ := (is.says (lw := false) (by simp) hab h1 (fun e => hkv (varOf_v hk5 e.1))).ncm trivial j M _ hM'
      refine ⟨r, by rwa [hds] at hr, hr'.congr fun k hk c hc => ?_⟩
      rw [hF k hk c _ hc (by rw [hu]; norm_num) rfl, num_unit (hu c)]
    | mixture m' n' ω' pop' is stars =>
      obtain ⟨r, F, hr, hr', hF⟩ := is.noncentral_at (lw := false) (by simp) hab h1 j M hM'.1
      rw [hds] at hr
      refine ⟨r, hr, hr'.congr fun k hk c hc => ?_⟩
      rw [hF k hk c hc _ (fun _ => hM'.2 k hk c hc) (fun _ _ => hu c), if_neg (by rw [hu]; norm_num), if_neg (hne k hk)]
  obtain ⟨r, hr, hr'⟩ := Mix.central_marg_raw (g := g) (lw := false) ha h1 h.pos h.children hw hω hM hmem
    (X := full [m.children.length] (.fin 1)) (x := fun _ => .fin 1) rfl (by simp [full, h.children]) (fun i _ => rfl) (fun _ _ _ => rfl)
  refine ⟨r, hr, by simpa [Grid.shapeOf] using hr'.1, ?_⟩
  have := hr'.2 k h2 c hc
  simp only [Num.fin_mul, Num.fin_sum, mul_one] at this
  unfold Pop.central
  rw [expect_union h.sum (fun i hi => h.unit i hi c)]
  simpa [coords] using this

theorem rowsLoop_attr {w : PyStr} {f : Child × ℝ → Py (Arr Num)} : ∀ (l : List (Child × ℝ)) (s : Option (List ℕ)),
    (∀ cw ∈ l, (∃ A, f cw = .ok A ∧ A.shape = g.shapeOf w) ∨ f cw = .error .attributeError) → (∀ s', s = some s' → s' = g.shapeOf w) →
    (∃ cw ∈ l, f cw = .error .attributeError) → Mix.rowsLoop f s l = .error .attributeError
  | [], _, _, _, h => by obtain ⟨_, h, -⟩ := h; cases h
  | cw :: r, s, h, hs, hx => by
    rcases h cw (by simp) with ⟨A, hA, hAs⟩ | he
    · have hr : ∃ cw ∈ r, f cw = .error .attributeError := by
        obtain ⟨c, hc, hf⟩ := hx
        rcases List.mem_cons.1 hc with rfl | hc
        · rw [hA] at hf; cases hf
        · exact ⟨c, hc, hf⟩
      have ih := rowsLoop_attr (w := w) r (some (g.shapeOf w)) (fun c hc => h c (by simp [hc])) (by simp) hr
      cases s with
      | none => simp only [Mix.rowsLoop, hA, Py.ok_bind, hAs, ih, Py.error_bind]
      | some s' =>
        have := hs s' rfl
        subst this
        have hb : broadcastTo (g.shapeOf w) A = .ok ⟨g.shapeOf w, fun i => A.get (bproj A.shape i)⟩ := by
          simp [broadcastTo, hAs, bshapeR_self]
        simp only [Mix.rowsLoop, hA, Py.ok_bind, hb, ih, Py.error_bind]
    · cases s <;> simp only [Mix.rowsLoop, he, Py.error_bind]

/-- Every distribution, marginal or conditional, of a mixture with a mixture among its members raises `AttributeError`. -/
theorem C95_distributions_raise (hm : ∀ ch ∈ m.children, (∃ q, IsMember g L ch q) ∨ ∃ m' : Mix, ch = m'.child)
    (m' : Mix) (x : ℝ) (hx : (m'.child, x) ∈ m.children.zip m.weights)
    (hl : IsArr g ['t','z'] m.cube.ssps.lightWeights (fun c => .fin (L c.t c.z)))
    (a b : PyStr) (hab : ValidPair a b) (collapse density lw : Bool) :
    m.getP (distStr a b) collapse density lw = .error .attributeError ∧
    m.getLogP (distStr a b) collapse density lw = .error .attributeError := by
  have hmass : ∀ w ∈ marginals, ∀ d, m.massWtd w d = .error .attributeError := fun w hw d => by
    have := rowsLoop_attr (g := g) (w := w) (f := Mix.logPi w d) (m.children.zip m.weights) none (fun cw hcw => by
      rcases hm cw.1 (List.of_mem_zip hcw).1 with ⟨q, hq⟩ | ⟨m', e⟩
      · obtain ⟨A, hA, hA'⟩ := hq.childMarg d hw
        refine .inl ?_
        unfold childMarg at hA
        unfold Mix.logPi
        split at hA
        · next f hf =>
          rw [hf]
          exact ⟨Np.map (fun v => Num.log (.fin cw.2) + v) A, by simp [hA], hA'.1⟩
        · cases hA
      · refine .inr ?_
        rw [← child_logPi hw m' cw.2 d, ← e]) (fun _ h => by cases h) ⟨_, hx, child_logPi hw m' x d⟩
    unfold Mix.massWtd
    rw [this]
    rfl
  have hrows : ∀ w ∈ marginals, ∀ d lw, m.marginalRows w d lw = .error .attributeError := fun w hw d lw => by
    cases lw with
    | false => exact hmass w hw d
    | true =>
      obtain ⟨l, hl'⟩ : ∃ l, (if 'v' ∈ w then getitem [.na, .all, .na, .na, .na, .all] m.cube.ssps.lightWeights
        else getitem [.na, .all, .na, .na, .all] m.cube.ssps.lightWeights : Py (Arr Num)) = .ok l := by
        have hs := hl.1
        simp [Grid.shapeOf, Grid.shape1] at hs
        split <;> exact ⟨_, by simp [getitem, hs, ixShape]; rfl⟩
      show Mix.lightWtd m w d = _
      unfold Mix.lightWtd
      simp only [hl', Py.ok_bind]
      rw [hmass _ (by split <;> decide)]
      rfl
  have key : m.getLogP (distStr a b) collapse density lw = .error .attributeError := by
    rcases hab with ⟨rfl, ha⟩ | hab
    · have e : distStr a [] = a := by simp [distStr]
      unfold Mix.getLogP
      rw [e, if_neg (marginal_noUnderscore ha), hrows a ha]
      rfl
    · have hb : b ≠ [] := (by decide +kernel : ∀ q ∈ conditionals, q.2 ≠ []) _ hab
      have e : distStr a b = condStr a b := by simp [distStr, hb]
      obtain ⟨h1, h2⟩ := (by decide +kernel : ∀ p ∈ conditionals, '_' ∈ condStr p.1 p.2 ∧
        PyStr.split '_' (condStr p.1 p.2) = [p.1, p.2]) (a, b) hab
      obtain ⟨-, -, -, -, -, -, hs, -, -, hu⟩ := conditionals_letters _ hab
      unfold Mix.getLogP Mix.conditionalRows
      rw [e, if_pos h1, h2]
      simp only [hs, hrows _ hu, Py.error_bind]
  exact ⟨by unfold Mix.getP; rw [key]; rfl, key⟩

/-- Means and central moments at given values of other variables, and all light-weighted ones, of a mixture with a mixture among
its members raise an exception. -/
theorem C95_means_raise (m' : Mix) (x : ℝ) (hx : (m'.child, x) ∈ m.children.zip m.weights)
    (a b : PyStr) (hab : ValidPair a b) (lw : Bool) (hq : b ≠ [] ∨ lw = true) (j : ℕ) :
    Raises (m.getMean (distStr a b) lw) ∧ Raises (m.getCentralMoment (distStr a b) j lw) := by
  have h : HasMixture m := ⟨m', x, hx⟩
  have key : Raises (m.getMean (distStr a b) lw) := by
    refine raises_bind fun mui => ?_
    cases lw with
    | true =>
      refine bind_raises ?_ _
      exact bind_raises (getP_raises (a := ['t','z']) (b := []) h (.inl ⟨rfl, by decide⟩) _ _ _) _
    | false =>
      have hb : b ≠ [] := by simpa using hq
      have hab' : (a, b) ∈ conditionals := hab.resolve_left (fun e => hb e.1)
      have e : distStr a b = condStr a b := by simp [distStr, hb]
      obtain ⟨h1, h2⟩ := (by decide +kernel : ∀ p ∈ conditionals, '_' ∈ condStr p.1 p.2 ∧
        condVars (condStr p.1 p.2) = .ok p.2) (a, b) hab'
      obtain ⟨-, -, -, -, -, -, -, -, hbm, -⟩ := conditionals_letters _ hab'
      refine raises_bind fun rw' => ?_
      rw [e, if_pos h1, h2]
      simp only [Py.ok_bind]
      refine raises_bind fun wp => raises_bind fun wp => raises_bind fun wp => bind_raises ?_ _
      have := getP_raises (a := b) (b := []) h (.inl ⟨rfl, hbm⟩) true true false
      simpa [distStr] using this
  exact ⟨key, bind_raises key _⟩

theorem mapM_raises {f : Child → Py (Arr Num)} : ∀ l : List Child, (∃ c ∈ l, Raises (f c)) → Raises (l.mapM f)
  | [], h => by obtain ⟨_, h, -⟩ := h; cases h
  | c :: l, h => by
    rw [List.mapM_cons]
    by_cases hl : ∃ c ∈ l, Raises (f c)
    · exact raises_bind fun a => bind_raises (mapM_raises l hl) _
    · obtain ⟨c', hc, hf⟩ := h
      rcases List.mem_cons.1 hc with rfl | hc
      · exact bind_raises hf _
      · exact absurd ⟨c', hc, hf⟩ hl

theorem ncmSelf_raises (h : HasMixture m) {a b : PyStr} (hab : ValidPair a b) (d lw : Bool) :
    Raises (Component.getP m.ncmSelf (distStr a b) d lw) := by
  have key := getLogP_raises h hab true d lw
  refine bind_raises ?_ _
  rcases hab with ⟨rfl, ha⟩ | hab
  · have e : distStr a [] = a := by simp [distStr]
    rw [e] at key ⊢
    unfold Component.getLogP Component.getLogMarginal
    rw [if_neg (marginal_noUnderscore ha)]
    exact key
  · have hb : b ≠ [] := (by decide +kernel : ∀ q ∈ conditionals, q.2 ≠ []) _ hab
    have e : distStr a b = condStr a b := by simp [distStr, hb]
    rw [e] at key ⊢
    obtain ⟨h1, h2⟩ := (by decide +kernel : ∀ p ∈ conditionals, '_' ∈ condStr p.1 p.2 ∧
      PyStr.split '_' (condStr p.1 p.2) = [p.1, p.2]) (a, b) hab
    unfold Component.getLogP Component.getLogConditional
    rw [if_pos h1, if_pos h1, h2]
    obtain ⟨-, -, -, -, -, -, hs, -, -, hu⟩ := conditionals_letters _ hab
    have hj : Raises (condFromJoint m.ncmSelf (condStr a b) a b d lw) := by
      refine bind_raises ?_ _
      rw [hs]
      have := getLogP_raises h (a := unionStr a b) (b := []) (.inl ⟨rfl, hu⟩) true false lw
      rw [show distStr (unionStr a b) [] = unionStr a b by simp [distStr]] at this
      exact this
    obtain ⟨x, hx⟩ := key
    have e2 : getLogMarginal m.ncmSelf (condStr a b) d lw = .error x := hx
    simp only [e2]
    split
    · next e3 => cases e3
    · exact hj
    · exact hj
    · exact error_raises

/-- Mixtures within mixtures within mixtures have no central moments at all. -/
theorem C95_deeper_raise (m' m'' : Mix) (x y : ℝ) (hx : (m'.child, x) ∈ m.children.zip m.weights)
    (hy : (m''.child, y) ∈ m'.children.zip m'.weights) (a b : PyStr) (hab : ValidPair a b) (j : ℕ) (lw : Bool) :
    Raises (m.getCentralMoment (distStr a b) j lw) := by
  have h : HasMixture m' := ⟨m'', y, hy⟩
  refine raises_bind fun mu => bind_raises (bind_raises (mapM_raises _ ⟨_, (List.of_mem_zip hx).1, ?_⟩) _) _
  show Raises (Component.getNoncentralMoment m'.ncmSelf (distStr a b) j mu lw)
  unfold Component.getNoncentralMoment
  split
  · exact bind_raises (ncmSelf_raises h hab _ _) _
  · exact error_raises

theorem sum_flatMap_range (f : ℕ → List ℝ) : ∀ k : ℕ, ((List.range k).flatMap f).sum = ∑ i ∈ Finset.range k, (f i).sum
  | 0 => rfl
  | k + 1 => by rw [List.range_succ, List.flatMap_append, List.sum_append, sum_flatMap_range f k, Finset.sum_range_succ]; simp

theorem Light.ybar {s : List ℕ} {l : List (ℝ × (List ℕ → ℝ))} (h : Light s ch l) : ∃ Y, ch.ybar = some Y ∧ Y.shape = s ∧
    ∀ j, InBox s j → Y.get j = .fin (l.map fun p => p.1 * p.2 j).sum := by
  induction h with
  | single ch Y y has shape voxel => exact ⟨Y, has, shape, fun j hj => by simp [voxel j hj]⟩
  | mixture m m' parts some len member eval ih =>
    choose Y hY using ih
    obtain ⟨y, hy, hs, hv⟩ := C30_weighted_sum m (fun i => if hi : i < m.children.length then Y i hi else ⟨[], fun _ => .nan⟩) s some len
      (fun i hi => by simp only [dif_pos hi]; exact ⟨(hY i hi).1, (hY i hi).2.1⟩)
    rw [eval] at hy
    cases hy
    refine ⟨y, rfl, hs, fun j hj => ?_⟩
    rw [hv j hj]
    have : ∀ i : Fin m.weights.length, Num.fin m.weights[i] * (if hi : (i : ℕ) < m.children.length then Y i hi else ⟨[], fun _ => .nan⟩).get j =
        .fin (m.weights.getD i 0 * ((parts i).map fun p => p.1 * p.2 j).sum) := fun i => by
      have hi : (i : ℕ) < m.children.length := by rw [len]; exact i.2
      rw [dif_pos hi, (hY i hi).2.2 j hj, Num.fin_mul]
      simp
    simp only [this, Num.fin_sum]
    congr 1
    rw [List.map_flatMap, sum_flatMap_range, Finset.sum_range]
    refine Finset.sum_congr rfl fun i _ => ?_
    rw [List.map_map, ← List.sum_map_mul_left]
    simp [Function.comp_def, mul_assoc]

/-- The datacube of mixtures nested to any depth is that of the flat mixture `flat` of the components at the bottom with the
products of the weights. -/
theorem C95_datacube {s : List ℕ} {l : List (ℝ × (List ℕ → ℝ))} (h : Light s ch l) (flat : Mix) (h0 : flat.children ≠ [])
    (hlen : flat.children.length = l.length) (hw : flat.weights = l.map Prod.fst)
    (hy : ∀ (i : ℕ) (hi : i < flat.children.length) (hi' : i < l.length), ∃ Y, flat.children[i].ybar = some Y ∧ Y.shape = s ∧
      ∀ j, InBox s j → Y.get j = .fin (l[i].2 j)) :
    ∃ Y Y', ch.ybar = some Y ∧ flat.evaluateYbar = .ok { flat with ybar := some Y' } ∧ Y.shape = Y'.shape ∧
      ∀ j, InBox s j → Y.get j = Y'.get j := by
  obtain ⟨Y, hY, hs, hv⟩ := h.ybar
  choose Z hZ using hy
  have hl : flat.children.length = flat.weights.length := by rw [hw, hlen, List.length_map]
  obtain ⟨Y', hY', hs', hv'⟩ := C30_weighted_sum flat (fun i => if hi : i < flat.children.length then Z i hi (hlen ▸ hi) else ⟨[], fun _ => .nan⟩)
    s h0 hl (fun i hi => by simp only [dif_pos hi]; exact ⟨(hZ i hi _).1, (hZ i hi _).2.1⟩)
  refine ⟨Y, Y', hY, hY', hs.trans hs'.symm, fun j hj => ?_⟩
  rw [hv j hj, hv' j hj]
  have e : flat.weights.length = l.length := by rw [← hl, hlen]
  have : ∀ i : Fin flat.weights.length, Num.fin flat.weights[i] *
      (if hi : (i : ℕ) < flat.children.length then Z i hi (hlen ▸ hi) else ⟨[], fun _ => .nan⟩).get j =
      .fin ((l[(i : ℕ)]'(e ▸ i.2)).1 * (l[(i : ℕ)]'(e ▸ i.2)).2 j) := fun i => by
    have hi : (i : ℕ) < flat.children.length := by rw [hl]; exact i.2
    rw [dif_pos hi, (hZ i hi _).2.2 j hj, Num.fin_mul]
    simp [hw]
  simp only [this, Num.fin_sum]
  congr 1
  rw [← List.sum_ofFn]
  congr 1
  refine List.ext_getElem (by simp [e]) fun i h1 h2 => ?_
  simp

theorem flat_binMoment (c : Cell) : 1500 < ((flatIngr fun _ => 90).pop demoGrid).binMoment demoGrid demoL false [] 2 90 c := by
  unfold Pop.binMoment Pop.marginal
  rw [flat_amount, flat_joint_sum (μ := fun _ => 90) (F := fun _ v => (PKM.centre demoGrid.v v - 90) ^ 2)]
  · have h1 := normal_near (μ := 90) (σ := 1 / 10) (a := -100 + (1 : ℝ) * 100) (b := -100 + ((1 : ℝ) + 1) * 100) (by norm_num) (by norm_num)
    simp only [Fin.sum_univ_four, Fin.val_zero, Fin.val_one, Fin.val_two, Nat.cast_zero, Nat.cast_one, Nat.cast_ofNat, Bool.false_eq_true,
      if_false, div_one, show ((3 : Fin 4) : ℕ) = 3 from rfl] at h1 ⊢
    norm_num [demoGrid, cubeGrid, PKM.centre, evenEdges] at h1 ⊢
    have h0 := fun a b : ℝ => MeasureTheory.measureReal_nonneg (μ := normal 90 (1 / 10)) (s := Set.Ioc a b)
    linarith [h0 (-100) 0, h0 100 200, h0 200 300]
  · intro d _
    rw [if_pos (by rfl)]
    show 1 * _ = _
    rw [one_mul]
    rfl

/-- A disk and a mixture of two such disks. -/
theorem twoLevels_exists (μ : ℕ → ℝ) : ∃ (m' : Mix) (p : Param), ParamIs p demoGrid (flatIngr μ) demoL ∧ p.f2 = 1 ∧
    MixOf m' demoGrid 2 (fun _ => 1 / 2) (fun _ => (flatIngr μ).pop demoGrid) demoL ∧
    Mix.init p.cube [Component.child p.self none, m'.child] [1 / 2, 1 / 2] =
      .ok ⟨p.cube, [Component.child p.self none, m'.child], [1 / 2, 1 / 2], none⟩ ∧
    TwoLevels ⟨p.cube, [Component.child p.self none, m'.child], [1 / 2, 1 / 2], none⟩ demoGrid 2 (fun _ => 1 / 2)
      (fun _ => (flatIngr μ).pop demoGrid) demoL := by
  obtain ⟨m', p, hi, h, hf, hM, hm⟩ := flatMix_exists μ
  refine ⟨m', p, h, hf, hM, (C28_constructor p.cube _ _).2 (by norm_num), by norm_num, h.cubeIs, rfl, by simp [List.range_succ],
    by norm_num, fun _ _ c => flat_amount c, fun i hi => ?_⟩
  have : i < 2 := hi
  interval_cases i
  · exact .single _ _ (.parametric p _ none h hf rfl rfl)
  · have := Inner.mixture m' 2 _ _ hM (fun i _ c => by rw [flat_amount]; norm_num)
    rwa [mixPop_halves] at this

/-- The full claim is false for velocities: a mixture of a disk and of a mixture of two such disks, all of whose stars have velocities
near 90 with the variance 1/100, returns a variance greater than 750. -/
theorem C95_velocity_wrong : ∃ m pop V, Mix.init m.cube m.children m.weights = .ok m ∧
    TwoLevels m demoGrid 2 (fun _ => 1 / 2) pop demoL ∧ (∀ c, (mixPop 2 (fun _ => 1 / 2) pop).central demoGrid demoL false [] 'v' 2 c = 1 / 100) ∧
    m.getCentralMoment ['v'] 2 false = .ok V ∧ ∃ x : ℝ, V.get [] = .fin x ∧ 750 < x := by
  obtain ⟨m', p, h, hf, hM, hi, hT⟩ := twoLevels_exists (fun _ => 90)
  have hc : demoGrid.Has ⟨0, 0, 0, 0, 0⟩ := by
    refine ⟨?_, ?_, ?_, ?_, ?_⟩ <;> norm_num [demoGrid, cubeGrid]
  have hv : ValidPair ['v'] [] := .inl ⟨rfl, by decide⟩
  have h2 : 'v' ∈ PyStr.replaceX ['v'] := by decide
  have hmean : ∀ c, ((flatIngr fun _ => 90).pop demoGrid).mean demoGrid demoL false [] 'v' c = 90 := fun c => by
    unfold Pop.mean
    rw [flat_expect_v, normal_mean]; norm_num
  have hsay : MemberSays (Component.child p.self none) ((flatIngr fun _ => 90).pop demoGrid) demoGrid demoL false ['v'] [] (fun c => c) True :=
    (IsMember1.parametric p _ none h hf rfl rfl).says (by simp) hv rfl (by decide)
  obtain ⟨M, hMe, hM'⟩ := mean_of_members (g := demoGrid) (L := demoL) (a := ['v']) (by decide) rfl hT.pos hT.children hT.weights hT.sum hT.unit
    (fun i hi => by
      have : i < 2 := hi
      interval_cases i
      · obtain ⟨r, F, hr, hr', hF⟩ := hsay.mean
        refine ⟨r, hr, hr'.congr fun k hk c hc => ?_⟩
        rw [hF k hk c hc (by rw [flat_amount]; norm_num), num_unit (flat_amount c)]
        rfl
      · obtain ⟨r, F, hr, hr', hF⟩ := hM.mean_at (lw := false) (by simp) (.inl rfl) hv rfl
        rw [mixPop_halves] at hF
        exact ⟨r, hr, hr'.congr fun k hk c hc => hF k hk c hc ⟨fun i _ => by rw [flat_amount]; norm_num,
          fun _ _ => by rw [mixPop_halves]; exact flat_amount c⟩⟩)
  rw [mixPop_halves] at hM'
  obtain ⟨r1, F1, e1, i1, v1⟩ := hsay.ncm trivial 2 M _ hM'
  obtain ⟨r2, F2, e2, i2, v2⟩ := hM.noncentral_at (lw := false) (by simp) hv rfl 2 M hM'.1
  rw [mixPop_halves] at v2
  have v1' := v1 'v' h2 _ 90 hc (by rw [flat_amount]; norm_num) (congrArg Num.fin (hmean _))
  rw [num_unit (flat_amount _), flat_expect_v, normal_var] at v1'
  have v2' := v2 'v' h2 _ hc 90 (fun _ => (hM'.2 'v' h2 _ hc).trans (congrArg Num.fin (hmean _))) (fun _ _ => flat_amount _)
  rw [if_neg (by rw [flat_amount]; norm_num), if_pos rfl] at v2'
  obtain ⟨V, hV, hV'⟩ := Mix.central_marg_raw (g := demoGrid) (lw := false) (j := 2) (F := fun i => if i = 0 then F1 else F2) (by decide) rfl
    hT.pos hT.children (weights_of hT.weights).1 (weights_of hT.weights).2 hMe
    (fun i hi => by
      have : i < 2 := hi
      interval_cases i
      · exact ⟨r1, e1, i1⟩
      · exact ⟨r2, e2, i2⟩)
    (X := full [2] (.fin 1)) (x := fun _ => .fin 1) rfl rfl (fun i _ => rfl) (fun _ _ _ => rfl)
  refine ⟨_, _, V, hi, hT, fun c => ?_, hV,
    1 / 2 * (1 / 10) ^ 2 + 1 / 2 * ((flatIngr fun _ => 90).pop demoGrid).binMoment demoGrid demoL false [] 2 90 ⟨0, 0, 0, 0, 0⟩, ?_, ?_⟩
  · unfold Pop.central
    rw [mixPop_halves, hmean, flat_expect_v, normal_var]; norm_num
  · have := hV'.2 'v' h2 _ hc
    simp only [Fin.sum_univ_two, Fin.val_zero, Fin.val_one, if_true, one_ne_zero, if_false, v1', v2', Num.fin_mul] at this
    refine (show V.get [] = _ from this).trans ((Num.fin_add _ _).trans (congrArg _ ?_))
    norm_num
  · have := flat_binMoment ⟨0, 0, 0, 0, 0⟩
    linarith

/-- The hypotheses are met by a mixture of a disk and of a mixture of disks, and by a mixture of that mixture and of a disk. -/
example : ∃ (m2 m3 : Mix) (q : Pop), TwoLevels m2 demoGrid 2 (fun _ => 1 / 2) (fun _ => q) demoL ∧ Nest demoGrid demoL m3.child q ∧
    (∃ r, m3.getMean ['t'] false = .ok r ∧ r.get [] = .fin (q.mean demoGrid demoL false [] 't' ⟨0, 0, 0, 0, 0⟩)) ∧
    (∃ r, m2.getCentralMoment ['t'] 3 false = .ok r ∧ r.get [] = .fin (q.central demoGrid demoL false [] 't' 3 ⟨0, 0, 0, 0, 0⟩)) ∧
    m2.getP ['t','v','_','x'] true true true = .error .attributeError ∧ Raises (m2.getMean ['t'] true) ∧
    Raises (m3.getCentralMoment ['t'] 3 false) := by
  obtain ⟨m', p, h, hf, hM, -, hT⟩ := twoLevels_exists (fun _ => 90)
  have hc : demoGrid.Has ⟨0, 0, 0, 0, 0⟩ := by
    refine ⟨?_, ?_, ?_, ?_, ?_⟩ <;> norm_num [demoGrid, cubeGrid]
  set q := (flatIngr fun _ => 90).pop demoGrid with hq
  have hu : ∀ c, q.amount demoGrid demoL false [] c = 1 := fun c => flat_amount c
  have hp : IsMember demoGrid demoL (Component.child p.self none) q := .parametric p _ none h rfl rfl
  have h1 : Nest demoGrid demoL (Component.child p.self none) q := .single _ _ hp hu
  have h2 : Nest demoGrid demoL m'.child q := by
    have := Nest.mixture m' 2 (fun _ => 1 / 2) (fun _ => q) (by norm_num) hM.cubeIs hM.children hM.weights (fun _ _ => by norm_num) (by norm_num)
      (fun i hi => .single _ _ (hM.member i hi) hu)
    rwa [mixPop_halves] at this
  have step : ∀ ch, Nest demoGrid demoL ch q → Nest demoGrid demoL (Mix.child ⟨p.cube, [Component.child p.self none, ch], [1 / 2, 1 / 2], none⟩) q := by
    intro ch hch
    have := Nest.mixture ⟨p.cube, [Component.child p.self none, ch], [1 / 2, 1 / 2], none⟩ 2 (fun _ => 1 / 2) (fun _ => q) (by norm_num)
      h.cubeIs rfl (by simp [List.range_succ]) (fun _ _ => by norm_num) (by norm_num) (fun i hi => by
        have : i < 2 := hi
        interval_cases i
        · exact h1
        · exact hch)
    rwa [mixPop_halves] at this
  have h3 := step _ (step _ h2)
  obtain ⟨r, hr, -, hr'⟩ := C95_mean_partial h3 't' (by decide) _ hc
  obtain ⟨s, hs, -, hs'⟩ := C95_central_partial hT 't' (by decide) 3 _ hc
  rw [mixPop_halves] at hs'
  refine ⟨_, ⟨p.cube, [Component.child p.self none, Mix.child ⟨p.cube, [Component.child p.self none, m'.child], [1 / 2, 1 / 2], none⟩],
    [1 / 2, 1 / 2], none⟩, q, hT, h3, ⟨r, hr, hr'⟩, ⟨s, hs, hs'⟩, ?_, ?_, ?_⟩
  · refine (C95_distributions_raise (fun ch hch => ?_) m' (1 / 2) (by simp) h.light ['t','v'] ['x'] (.inr (by decide)) true true true).1
    rcases List.mem_cons.1 hch with rfl | hch
    · exact .inl ⟨q, hp⟩
    · exact .inr ⟨m', by simpa using hch⟩
  · exact (C95_means_raise m' (1 / 2) (by simp) ['t'] [] (.inl ⟨rfl, by decide⟩) true (.inr rfl) 0).1
  · exact C95_deeper_raise _ m' (1 / 2) (1 / 2) (.tail _ (.head _)) (.tail _ (.head _)) ['t'] [] (.inl ⟨rfl, by decide⟩) 3 false

/-- The datacube of a mixture of a component and of a mixture of two components. -/
example (s : Self) (cube : IFUCube) : ∃ (m2 flat : Mix) (Y Y' : Arr Num), m2.child.ybar = some Y ∧ flat.evaluateYbar = .ok { flat with ybar := some Y' } ∧
    flat.weights = [1 / 2, 1 / 8, 3 / 8] ∧ Y.get [1] = Y'.get [1] ∧ Y.get [1] = .fin (1 / 2 + 1 / 4 + 9 / 8) := by
  let y : ℕ → Arr Num := fun i => ⟨[2], fun _ => .fin (i + 1)⟩
  have hy : ∀ i, Light [2] (child s (some (y i))) [(1, fun _ => (i : ℝ) + 1)] := fun i => .single _ (y i) _ rfl rfl (fun _ _ => rfl)
  obtain ⟨y1, e1, -, -⟩ := C30_weighted_sum ⟨cube, [child s (some (y 1)), child s (some (y 2))], [1 / 4, 3 / 4], none⟩ (fun i => y (i + 1)) [2] (by simp) rfl
    (fun i hi => by have : i < 2 := hi; interval_cases i <;> exact ⟨rfl, rfl⟩)
  have h1 := Light.mixture (s := [2]) _ _ (fun i => [(1, fun _ => ((i + 1 : ℕ) : ℝ) + 1)]) (by simp) rfl (fun i hi => by
    have : i < 2 := hi
    interval_cases i <;> exact hy _) e1
  obtain ⟨Z, hZ, hZs, -⟩ := h1.ybar
  obtain ⟨y2, e2, -, -⟩ := C30_weighted_sum ⟨cube, [child s (some (y 0)), Mix.child _], [1 / 2, 1 / 2], none⟩ (fun i => if i = 0 then y 0 else Z) [2] (by simp) rfl
    (fun i hi => by
      have : i < 2 := hi
      interval_cases i
      · exact ⟨rfl, rfl⟩
      · exact ⟨hZ, hZs⟩)
  have h2 := Light.mixture (s := [2]) _ _ (fun i => if i = 0 then [(1, fun _ => ((0 : ℕ) : ℝ) + 1)] else _) (by simp) rfl (fun i hi => by
    have : i < 2 := hi
    interval_cases i
    · exact hy 0
    · exact h1) e2
  obtain ⟨Y, Y', hY, hY', -, hv⟩ := C95_datacube h2 ⟨cube, [child s (some (y 0)), child s (some (y 1)), child s (some (y 2))], [1 / 2, 1 / 8, 3 / 8], none⟩
    (by simp) (by simp [List.range_succ]) (by norm_num [List.range_succ]) (fun i hi hi' => by
      have : i < 3 := hi
      interval_cases i <;> exact ⟨_, rfl, rfl, fun _ _ => by norm_num [List.range_succ, y]⟩)
  obtain ⟨Y2, hY2, -, hv2⟩ := h2.ybar
  rw [hY] at hY2
  cases hY2
  refine ⟨_, _, Y, Y', hY, hY', rfl, hv [1] (by simp [InBox]), ?_⟩
  rw [hv2 [1] (by simp [InBox])]
  norm_num [List.range_succ]

end PKM
