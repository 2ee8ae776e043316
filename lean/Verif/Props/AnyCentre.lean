import Verif.Props.PopDerived

/-!
# Moments of mixtures about any centre

`mixture.get_noncentral_moment(w, j, mu)`. `MixOf` (Verif/PopLemmas.lean): the mixture was made of plain and parametric components
with populations `pop i` and weights `ω i`; `mixPop n ω pop` is the union of their stars (Verif/PopSpec.lean).
-/

open scoped Classical

noncomputable section

namespace PKM
open Np Component

variable {m : Mix} {g : Grid} {n : ℕ} {ω : ℕ → ℝ} {pop : ℕ → Pop} {L : ℕ → ℕ → ℝ} {lw : Bool}

/-! ### Specification -/

/-- What the code computes for the velocity: stars in the velocity range of the grid only, with the velocities of the bin
centres; divided by the total light of the stars in the velocity range, and by the share of all stars with the values of `b`. -/
def Pop.binMoment (q : Pop) (g : Grid) (L : ℕ → ℕ → ℝ) (lw : Bool) (b : PyStr) (j : ℕ) (x : ℝ) (c : Cell) : ℝ :=
  g.sumCells (fun d => if coords b d = coords b c then Pop.wt L lw d * ((centre g.v d.v - x) ^ j * q.joint d) else 0) /
  (if lw then q.lightOf g L ['v'] else 1) / q.marginal g L lw b c

/-! ### Proofs -/

theorem ncmSelf_getP (m : Mix) (w : PyStr) (d lw : Bool) (hw : w ∈ marginals ∨ ∃ p ∈ conditionals, w = condStr p.1 p.2)
    {A : Arr Num} (hA : Mix.getP m w true d lw = .ok A) : getP m.ncmSelf w d lw = .ok A := by
  unfold Mix.getP at hA
  unfold getP getLogP getLogConditional getLogMarginal
  have hs : w ∈ marginals → '_' ∉ w := (by decide +kernel : ∀ w ∈ marginals, '_' ∉ w) w
  rcases hw with hw | ⟨p, hp, rfl⟩
  · rw [if_neg (hs hw)]
    exact hA
  · obtain ⟨h1, h2⟩ := (by decide +kernel : ∀ p ∈ conditionals, '_' ∈ condStr p.1 p.2 ∧
      PyStr.split '_' (condStr p.1 p.2) = [p.1, p.2]) p hp
    rw [if_pos h1, if_pos h1, h2]
    simp only [Mix.ncmSelf]
    cases e : m.getLogP (condStr p.1 p.2) true d lw with
    | ok r => rw [e] at hA; exact hA
    | error r => rw [e] at hA; cases hA

theorem single_V : ∀ p ∈ conditionals, p.1.length = 1 → 'v' ∉ p.1 → ('v' ∈ unionStr p.1 p.2 ↔ 'v' ∈ p.2) := by decide +kernel
theorem single_V' : ∀ a ∈ marginals, a.length = 1 → 'v' ∉ a → 'v' ∉ unionStr a [] := by decide +kernel

theorem MixOf.noncentral_at (h : MixOf m g n ω pop L) (hl : lw = true → (mixPop n ω pop).Shines g L) {a b : PyStr}
    (hab : ValidPair a b) (h1 : a.length = 1) (j : ℕ) (mu : Arr Num) (hs : mu.shape = compShape a ++ g.shapeOf b) :
    ∃ r F, m.getNoncentralMoment (distStr a b) j mu lw = .ok r ∧ IsMom g a b r F ∧
      ∀ k ∈ PyStr.replaceX a, ∀ c, g.Has c → ∀ x : ℝ,
        ((mixPop n ω pop).amount g L lw b c ≠ 0 → mu.get (compIdx k ++ coords b c) = .fin x) →
        (b = [] → lw = false → (mixPop n ω pop).amount g L false [] c = 1) →
        F k c = if (mixPop n ω pop).amount g L lw b c = 0 then .nan else
          .fin (if k = 'v' then (mixPop n ω pop).binMoment g L lw b j x c
            else (mixPop n ω pop).expect g L lw b k (fun y => (y - x) ^ j) c) := by
  set q := mixPop n ω pop with hq
  have hT : HasTab (getP m.ncmSelf) g lw (wtdP g L (q.cells g (unionStr a b)) lw) (g.condWt (wtdP g L (q.cells g b) lw) b) a b := by
    obtain ⟨A, hA, hA'⟩ := h.tab_is hl hab
    refine ⟨A, ncmSelf_getP m _ _ _ ?_ hA, hA'⟩
    rcases hab with ⟨rfl, ha⟩ | hab
    · exact .inl (by simpa [distStr] using ha)
    · have hb : b ≠ [] := (by decide +kernel : ∀ q ∈ conditionals, q.2 ≠ []) _ hab
      exact .inr ⟨_, hab, by simp [distStr, hb]⟩
  obtain ⟨r, F, hr, hr', hF⟩ := getNoncentral_pointwise h.proper h.cubeIs hab h1 rfl hT
    (respects_condWt (g := g) (wtdP g L (q.cells g b) lw) b) (M := mu)
    (F := fun k c => mu.get (compIdx k ++ coords b c)) ⟨hs, fun _ _ _ _ => rfl⟩
    (μ := fun k d => (mu.get (compIdx k ++ coords b d)).toReal) (fun k d d' e => by simp only [e]) j
  refine ⟨r, F, hr, hr', fun k hk c hc x hx hnil => ?_⟩
  have hlight : lw = true → 0 < q.lightOf g L ['t','x','z'] := hl
  have hLt := h.mixOk.light_b (lw := lw) h.proper h.lightNonneg hlight
  have hcw := condWt_marginal h.proper h.mixOk h.lightNonneg hlight hnil
  have hm0 : q.marginal g L lw b c = 0 ↔ q.amount g L lw b c = 0 := by
    unfold Pop.marginal; rw [div_eq_zero_iff]; exact or_iff_left (hLt b)
  rw [hF k hk c hc (fun hne => by
    rw [hcw, Ne, hm0] at hne
    beta_reduce
    rw [hx hne]; rfl)]
  unfold expectM
  rw [hcw]
  by_cases h0 : q.amount g L lw b c = 0
  · rw [if_pos (hm0.2 h0), if_pos h0]
  rw [if_neg (fun e => h0 (hm0.1 e)), if_neg h0]
  congr 1
  have hloc : g.marg (fun d => (g.value k d - (mu.get (compIdx k ++ coords b d)).toReal) ^ j *
      wtdP g L (q.cells g (unionStr a b)) lw d) b c =
      g.marg (fun d => (g.value k d - x) ^ j * wtdP g L (q.cells g (unionStr a b)) lw d) b c :=
    marg_congr fun d _ e => by rw [e, hx h0]; rfl
  rw [hloc, wtd_marg h.proper h.mixOk]
  obtain ⟨a0, rfl⟩ : ∃ a0, a = [a0] := List.length_eq_one_iff.1 h1
  by_cases hv : 'v' = a0
  · subst hv
    obtain ⟨u1, u2⟩ := union_V hab (by simp)
    obtain rfl : k = 'v' := (mem_replaceX hk).2 rfl
    have hcells : q.cells g (unionStr ['v'] b) = q.joint := by simp [Pop.cells, pick, u1]
    have hl : (if lw then q.lightOf g L (unionStr ['v'] b) else 1) = (if lw then q.lightOf g L ['v'] else 1) := by
      simp [Pop.lightOf, u1]
    rw [hcells, hl, if_pos rfl]
    unfold Pop.binMoment
    refine congrArg₂ (· / ·) (congrArg₂ (· / ·) ?_ rfl) rfl
    unfold Grid.marg
    refine congrArg g.sumCells (funext fun d => ?_)
    split
    · beta_reduce; rw [value_v]; ring
    · rfl
  · have k1 : k ≠ 'v' := fun e => hv ((mem_replaceX hk).1 e).symm
    have hu : 'v' ∈ unionStr [a0] b ↔ 'v' ∈ b := by
      rcases hab with ⟨rfl, ha⟩ | hab
      · simpa using single_V' _ ha h1 (by simpa using hv)
      · exact single_V _ hab h1 (by simpa using hv)
    have hcells : q.cells g (unionStr [a0] b) = q.cells g b := by simp [Pop.cells, pick, hu]
    have hl : (if lw then q.lightOf g L (unionStr [a0] b) else 1) = (if lw then q.lightOf g L b else 1) := by
      simp [Pop.lightOf, hu]
    rw [hcells, hl, if_neg k1, Pop.expect_num, Pop.num_eq h.proper h.mixOk k1]
    unfold Pop.marginal
    rw [div_div_div_cancel_right₀ (hLt b)]

/-- Ages, positions and metallicities: `get_noncentral_moment(w, j, mu)` of a mixture is the expectation of `(value - mu)^j` over
the union of its members' stars, in both weightings, for any centres `mu`, also where some members have no stars; nan where the
mixture has none. Missing: velocities, see `C93_velocity`, `C93_plain` and `C93_velocity_wrong`. -/
theorem C93_moments_partial (h : MixOf m g n ω pop L) (hl : lw = true → (mixPop n ω pop).Shines g L)
    (k : Char) (hk : k ∈ ['t','x','y','z']) (b : PyStr) (hb : ValidPair (varOf k) b) (j : ℕ) (mu : Arr Num)
    (hs : mu.shape = compShape (varOf k) ++ g.shapeOf b) :
    ∃ r, m.getNoncentralMoment (distStr (varOf k) b) j mu lw = .ok r ∧ r.shape = mu.shape ∧ ∀ c, g.Has c →
      (b = [] → lw = false → (mixPop n ω pop).amount g L false [] c = 1) →
      ((mixPop n ω pop).amount g L lw b c = 0 → r.get (compIdx k ++ coords b c) = .nan) ∧
      ∀ x : ℝ, (mixPop n ω pop).amount g L lw b c ≠ 0 → mu.get (compIdx k ++ coords b c) = .fin x →
        r.get (compIdx k ++ coords b c) = .fin ((mixPop n ω pop).expect g L lw b k (fun y => (y - x) ^ j) c) := by
  have hk5 : k ∈ ['t','v','x','y','z'] := by simp only [List.mem_cons, List.not_mem_nil, or_false] at hk ⊢; tauto
  have hkv : k ≠ 'v' := by rintro rfl; exact absurd hk (by decide)
  obtain ⟨h1, h2, -⟩ := quantity_facts hk5
  obtain ⟨r, F, hr, hr', hF⟩ := h.noncentral_at hl hb h1 j mu hs
  refine ⟨r, hr, hr'.1.trans hs.symm, fun c hc hnil => ⟨fun h0 => ?_, fun x h0 hx => ?_⟩⟩
  · rw [hr'.2 k h2 c hc, hF k h2 c hc 0 (fun e => absurd h0 e) hnil, if_pos h0]
  · rw [hr'.2 k h2 c hc, hF k h2 c hc x (fun _ => hx) hnil, if_neg h0, if_neg hkv]

/-- Velocities: stars outside of the velocity range are left out, and the others are taken to have the velocities of the
centres of their bins. -/
theorem C93_velocity (h : MixOf m g n ω pop L) (hl : lw = true → (mixPop n ω pop).Shines g L)
    (b : PyStr) (hb : ValidPair ['v'] b) (j : ℕ) (mu : Arr Num) (hs : mu.shape = g.shapeOf b) :
    ∃ r, m.getNoncentralMoment (distStr ['v'] b) j mu lw = .ok r ∧ r.shape = mu.shape ∧ ∀ c, g.Has c →
      (b = [] → lw = false → (mixPop n ω pop).amount g L false [] c = 1) →
      ((mixPop n ω pop).amount g L lw b c = 0 → r.get (coords b c) = .nan) ∧
      ∀ x : ℝ, (mixPop n ω pop).amount g L lw b c ≠ 0 → mu.get (coords b c) = .fin x →
        r.get (coords b c) = .fin ((mixPop n ω pop).binMoment g L lw b j x c) := by
  have hi : compIdx 'v' = [] := by decide
  obtain ⟨r, F, hr, hr', hF⟩ := h.noncentral_at hl hb rfl j mu (by simpa [compShape] using hs)
  have h2 : 'v' ∈ PyStr.replaceX ['v'] := by decide
  refine ⟨r, hr, hr'.1.trans (by simpa [compShape] using hs.symm), fun c hc hnil => ?_⟩
  have e := hr'.2 'v' h2 c hc
  have e' := hF 'v' h2 c hc
  simp only [hi, List.nil_append] at e e'
  refine ⟨fun h0 => ?_, fun x h0 hx => ?_⟩
  · rw [e, e' 0 (fun e => absurd h0 e) hnil, if_pos h0]
  · rw [e, e' x (fun _ => hx) hnil, if_neg h0, if_pos trivial]

/-- All stars are in the velocity range, at the centres of its bins. -/
def Pop.Binned (q : Pop) (g : Grid) : Prop :=
  ∀ φ c, q.vel φ c = ∑ v : Fin g.nv, φ (centre g.v v) * q.joint { c with v := v }

theorem mixPop_binned (h : ∀ i < n, (pop i).Binned g) : (mixPop n ω pop).Binned g := by
  intro φ c
  show ∑ i : Fin n, ω i * (pop i).vel φ c = ∑ v : Fin g.nv, φ (centre g.v v) * ∑ i : Fin n, ω i * (pop i).joint { c with v := v }
  simp only [fun i : Fin n => h i i.2 φ c, Finset.mul_sum]
  rw [Finset.sum_comm]
  exact Finset.sum_congr rfl fun v _ => Finset.sum_congr rfl fun i _ => by ring

theorem Pop.Binned.moment {q : Pop} (hq : q.Binned g) {b : PyStr} (hv : 'v' ∉ b) (hT : (if lw then q.lightOf g L b else 1) ≠ 0)
    (j : ℕ) (x : ℝ) (c : Cell) : q.binMoment g L lw b j x c = q.expect g L lw b 'v' (fun y => (y - x) ^ j) c := by
  have h1 : q.lightOf g L ['v'] = q.lightOf g L b := by
    unfold Pop.lightOf
    rw [if_pos (by simp), if_neg hv, sumCells_sumV]
    refine sumTXZ_congr fun d => ?_
    unfold Pop.stars
    rw [hq, Finset.mul_sum]
    exact Finset.sum_congr rfl fun v _ => by simp
  unfold Pop.binMoment Pop.expect Pop.marginal
  rw [h1, div_div_div_cancel_right₀ hT, if_pos rfl, sumCells_sumV]
  refine congrArg (· / _) (sumTXZ_congr fun d => ?_)
  simp only [coords_noV hv, wt_noV]
  split
  · rw [hq, Finset.mul_sum]
  · simp

/-- Mixtures of plain components: the full claim, for velocities too. -/
theorem C93_plain (h : MixOf m g n ω pop L) (hl : lw = true → (mixPop n ω pop).Shines g L)
    (hp : ∀ i < n, ∃ ρ, pop i = tablePop g ρ)
    (k : Char) (hk : k ∈ ['t','v','x','y','z']) (b : PyStr) (hb : ValidPair (varOf k) b) (j : ℕ) (mu : Arr Num)
    (hs : mu.shape = compShape (varOf k) ++ g.shapeOf b) :
    ∃ r, m.getNoncentralMoment (distStr (varOf k) b) j mu lw = .ok r ∧ r.shape = mu.shape ∧ ∀ c, g.Has c →
      (b = [] → lw = false → (mixPop n ω pop).amount g L false [] c = 1) →
      ((mixPop n ω pop).amount g L lw b c = 0 → r.get (compIdx k ++ coords b c) = .nan) ∧
      ∀ x : ℝ, (mixPop n ω pop).amount g L lw b c ≠ 0 → mu.get (compIdx k ++ coords b c) = .fin x →
        r.get (compIdx k ++ coords b c) = .fin ((mixPop n ω pop).expect g L lw b k (fun y => (y - x) ^ j) c) := by
  by_cases hkv : k = 'v'
  · subst hkv
    have hi : compIdx 'v' = [] := by decide
    have hb' : ValidPair ['v'] b := hb
    obtain ⟨r, hr, hs', hF⟩ := C93_velocity h hl b hb' j mu (by simpa [compShape, varOf] using hs)
    refine ⟨r, hr, hs', fun c hc hnil => ?_⟩
    obtain ⟨f1, f2⟩ := hF c hc hnil
    rw [hi]
    refine ⟨f1, fun x h0 hx => (f2 x h0 hx).trans (congrArg _ ?_)⟩
    refine Pop.Binned.moment (mixPop_binned fun i hi => ?_) (union_V hb' (by simp)).2
      (h.mixOk.light_b (lw := lw) h.proper h.lightNonneg hl b) j x c
    obtain ⟨ρ, e⟩ := hp i hi
    rw [e]
    exact fun φ c => rfl
  · exact C93_moments_partial h hl k (by simp only [List.mem_cons, List.not_mem_nil, or_false] at hk ⊢; tauto) b hb j mu hs

/-- Ages, positions and metallicities: about the means of the mixture, the moments are its central moments. -/
theorem C93_about_mean (h : MixOf m g n ω pop L) (hl : lw = true → ∀ i < n, (pop i).Shines g L)
    (hm : ∀ (i : ℕ) (hi : i < m.children.length), IsMember1 g L m.children[i] (pop i))
    (k : Char) (hk : k ∈ ['t','x','y','z']) (b : PyStr) (hb : ValidPair (varOf k) b) (hv : lw = false ∨ 'v' ∉ b) (j : ℕ) :
    ∃ mu r s, m.getMean (distStr (varOf k) b) lw = .ok mu ∧ m.getNoncentralMoment (distStr (varOf k) b) j mu lw = .ok r ∧
      m.getCentralMoment (distStr (varOf k) b) j lw = .ok s ∧ r.shape = s.shape ∧
      ∀ c, g.Has c → (∀ i < n, (pop i).amount g L lw b c ≠ 0) →
        (b = [] → lw = false → (mixPop n ω pop).amount g L false [] c = 1) →
        r.get (compIdx k ++ coords b c) = s.get (compIdx k ++ coords b c) := by
  have hk5 : k ∈ ['t','v','x','y','z'] := by simp only [List.mem_cons, List.not_mem_nil, or_false] at hk ⊢; tauto
  have hkv : k ≠ 'v' := by rintro rfl; exact absurd hk (by decide)
  obtain ⟨h1, h2, -⟩ := quantity_facts hk5
  obtain ⟨mu, Fm, e, i, v⟩ := h.mean_at hl hv hb h1
  obtain ⟨s, Fs, e', i', v'⟩ := h.central_at hl hm hv hb h1 (fun e => hkv (varOf_v hk5 e.1)) j
  obtain ⟨r, hr, hs, hF⟩ := C93_moments_partial h (fun e => mix_shines h (hl e)) k hk b hb j mu i.1
  refine ⟨mu, r, s, e, hr, e', hs.trans (i.1.trans i'.1.symm), fun c hc h0 hnil => ?_⟩
  rw [(hF c hc hnil).2 _ (h.mixAmount_pos h0).ne' ((i.2 k h2 c hc).trans (v k h2 c hc ⟨h0, hnil⟩)), i'.2 k h2 c hc,
    v' k h2 c hc ⟨h0, hnil⟩]
  rfl

/-- The full claim is false for velocities: a mixture whose stars all move with nearly the same velocity, 90 with a dispersion
of 1/10, has the variance 1/100, but its second moment about its own mean is greater than 1500. -/
theorem C93_velocity_wrong : ∃ cube children weights m mu r V, Mix.init cube children weights = .ok m ∧
    (∀ ch ∈ children, ∃ q, IsMember demoGrid demoL ch q) ∧ m.getMean ['v'] false = .ok mu ∧ mu.get [] = .fin 90 ∧
    m.getCentralMoment ['v'] 2 false = .ok V ∧ V.get [] = .fin (1 / 100) ∧
    m.getNoncentralMoment ['v'] 2 mu false = .ok r ∧ ∃ x : ℝ, r.get [] = .fin x ∧ 1500 < x := by
  obtain ⟨m, p, hi, h, hf, hM, hm⟩ := flatMix_exists (fun _ => 90)
  have hc : demoGrid.Has ⟨0, 0, 0, 0, 0⟩ := by
    refine ⟨?_, ?_, ?_, ?_, ?_⟩ <;> norm_num [demoGrid, cubeGrid]
  have hv : ValidPair ['v'] [] := .inl ⟨rfl, by decide⟩
  have hgood : mixGood demoGrid demoL false 2 (fun _ => 1 / 2) (fun _ => (flatIngr fun _ => 90).pop demoGrid) [] ⟨0, 0, 0, 0, 0⟩ :=
    ⟨fun i _ => by rw [flat_amount]; norm_num, fun _ _ => by rw [mixPop_halves]; exact flat_amount _⟩
  have hmean : ((flatIngr fun _ => 90).pop demoGrid).mean demoGrid demoL false [] 'v' ⟨0, 0, 0, 0, 0⟩ = 90 := by
    unfold Pop.mean
    rw [flat_expect_v, normal_mean]; norm_num
  have h2 : 'v' ∈ PyStr.replaceX ['v'] := by decide
  obtain ⟨mu, Fm, e, i, v⟩ := hM.mean_at (lw := false) (by simp) (.inl rfl) hv rfl
  obtain ⟨V, Fs, e', i', v'⟩ := hM.central_at (lw := false) (by simp) hm (.inl rfl) hv rfl (by decide) 2
  have hmu : mu.get [] = .fin 90 := by
    have := (i.2 'v' h2 _ hc).trans (v 'v' h2 _ hc hgood)
    rw [mixPop_halves, hmean] at this
    exact this
  obtain ⟨r, hr, -, hF⟩ := C93_velocity hM (lw := false) (by simp) [] hv 2 mu i.1
  refine ⟨_, _, _, m, mu, r, V, hi, fun ch hch => ⟨(flatIngr fun _ => 90).pop demoGrid, .parametric p _ none h (by simpa using hch) rfl⟩,
    e, hmu, e', ?_, hr, _, (hF _ hc hgood.2).2 90 (by rw [mixPop_halves, flat_amount]; norm_num) hmu, ?_⟩
  · have := (i'.2 'v' h2 _ hc).trans (v' 'v' h2 _ hc hgood)
    rw [mixPop_halves] at this
    refine (show V.get [] = _ from this).trans (congrArg _ ?_)
    unfold Pop.central
    rw [hmean, flat_expect_v, normal_var]; norm_num
  · rw [mixPop_halves]
    unfold Pop.binMoment Pop.marginal
    rw [flat_amount, flat_joint_sum (μ := fun _ => 90) (F := fun _ v => (centre demoGrid.v v - 90) ^ 2)]
    · have h1 := normal_near (μ := 90) (σ := 1 / 10) (a := -100 + (1 : ℝ) * 100) (b := -100 + ((1 : ℝ) + 1) * 100) (by norm_num) (by norm_num)
      simp only [Fin.sum_univ_four, Fin.val_zero, Fin.val_one, Fin.val_two, Nat.cast_zero, Nat.cast_one, Nat.cast_ofNat, Bool.false_eq_true,
        if_false, div_one, show ((3 : Fin 4) : ℕ) = 3 from rfl] at h1 ⊢
      norm_num [demoGrid, cubeGrid, centre, evenEdges] at h1 ⊢
      have h0 := fun a b : ℝ => MeasureTheory.measureReal_nonneg (μ := normal 90 (1 / 10)) (s := Set.Ioc a b)
      linarith [h0 (-100) 0, h0 100 200, h0 200 300]
    · intro d _
      rw [if_pos (by rfl)]
      show 1 * _ = _
      rw [one_mul]
      rfl

theorem flat_shines (μ : ℕ → ℝ) : ((flatIngr μ).pop demoGrid).Shines demoGrid demoL := by
  obtain ⟨p, h, -⟩ := flatDisk_exists μ
  unfold Pop.Shines
  rw [Pop.lightOf_eq h.proper h.pop_ok]
  have h1 := flat_amount (μ := μ) ⟨0, 0, 0, 0, 0⟩
  rw [Pop.amount_eq h.proper h.pop_ok, marg_nil, show ∀ q : Pop, q.cells demoGrid [] = q.flat demoGrid from fun q => by funext d; simp [Pop.cells, pick]] at h1
  rw [show ∀ q : Pop, q.cells demoGrid ['t','x','z'] = q.flat demoGrid from fun q => by funext d; simp [Pop.cells, pick]]
  have hn := fun d hd => MixOf.flat_nonneg h.pop_ok (c := d) hd
  have : (1 : ℝ) ≤ demoGrid.sumCells (fun d => demoL d.t d.z * ((flatIngr μ).pop demoGrid).flat demoGrid d) := by
    rw [← h1]
    unfold Grid.sumCells
    refine Finset.sum_le_sum fun t _ => Finset.sum_le_sum fun v _ => Finset.sum_le_sum fun x _ => Finset.sum_le_sum fun y _ =>
      Finset.sum_le_sum fun z _ => ?_
    refine mul_le_mul_of_nonneg_right ?_ (hn _ ⟨t.2, v.2, x.2, y.2, z.2⟩)
    simp [Pop.wt, demoL]
  exact lt_of_lt_of_le one_pos this

/-- The hypotheses are met by a mixture of two disks. -/
example : ∃ (m : Mix) (pop : ℕ → Pop) (mu r s : Arr Num), MixOf m demoGrid 2 (fun _ => 1 / 2) pop demoL ∧
    mu.get [0, 0] = .fin 7 ∧ m.getNoncentralMoment ['t','_','x'] 3 mu true = .ok r ∧ m.getNoncentralMoment ['v','_','x'] 3 mu true = .ok s ∧
    ∃ mu' r' s', m.getMean ['t'] true = .ok mu' ∧ m.getNoncentralMoment ['t'] 3 mu' true = .ok r' ∧
      m.getCentralMoment ['t'] 3 true = .ok s' ∧ r'.get [] = s'.get [] := by
  obtain ⟨m, p, hi, h, hf, hM, hm⟩ := flatMix_exists (fun _ => 90)
  have hl := flat_shines (fun _ => 90)
  have hl' : (mixPop 2 (fun _ => 1 / 2) fun _ => (flatIngr fun _ => 90).pop demoGrid).Shines demoGrid demoL := by rwa [mixPop_halves]
  obtain ⟨r, hr, -⟩ := C93_moments_partial hM (lw := true) (fun _ => hl') 't' (by decide) ['x'] (.inr (by decide)) 3
    (full [5, 6] (.fin 7)) rfl
  obtain ⟨s, hs, -⟩ := C93_velocity hM (lw := true) (fun _ => hl') ['x'] (.inr (by decide)) 3 (full [5, 6] (.fin 7)) rfl
  obtain ⟨mu', r', s', e1, e2, e3, -, e4⟩ := C93_about_mean hM (lw := true) (fun _ _ _ => hl) hm 't' (by decide) [] (.inl ⟨rfl, by decide⟩)
    (.inr (by simp)) 3
  have hc : demoGrid.Has ⟨0, 0, 0, 0, 0⟩ := by
    refine ⟨?_, ?_, ?_, ?_, ?_⟩ <;> norm_num [demoGrid, cubeGrid]
  refine ⟨m, _, _, r, s, hM, rfl, hr, hs, mu', r', s', e1, e2, e3, e4 _ hc (fun i _ => ?_) (by simp)⟩
  rw [amount_nil_light h.proper h.pop_ok]
  exact (h.pop_ok.light_pos h.proper h.lightNonneg hl []).ne'

end PKM
