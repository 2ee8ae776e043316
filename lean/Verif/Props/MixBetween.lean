import Verif.Props.PopMoments
import Verif.Props.TotalVar

/-!
# C112: what a mixture answers lies between what its members answer

Probabilities and means of a mixture are averages of those of its members, so there is a member that is not below and one that is not above.  Its variances
also count how far apart the means of the members are.
-/

open scoped Classical

noncomputable section

namespace PKM
open Np Component

variable {g : Grid} {L : ℕ → ℕ → ℝ} {lw : Bool} {m : Mix} {n : ℕ} {ω : ℕ → ℝ} {pop : ℕ → Pop} {b : PyStr}

/-! ### Specification -/

/-- All are numbers, one of the `n` numbers `y` is at most `x`, and one is at least `x`. -/
def AmongMembers (n : ℕ) (x : Num) (y : ℕ → Num) : Prop :=
  ∃ (u : ℝ) (w : ℕ → ℝ), x = .fin u ∧ (∀ i < n, y i = .fin (w i)) ∧ (∃ i < n, w i ≤ u) ∧ ∃ i < n, u ≤ w i

/-- Every member has stars with the values of `b` at `c`: its `get_p(b)` is not 0 there. -/
def AllPopulated (m : Mix) (lw : Bool) (b : PyStr) (c : Cell) : Prop :=
  b = [] ∨ ∀ ch ∈ m.children, ∃ q, ch.getP b false lw = .ok q ∧ q.get (coords b c) ≠ .fin 0

/-- The weights add up to one, and so do the probabilities of every member. -/
def AddUpToOne (g : Grid) (L : ℕ → ℕ → ℝ) (n : ℕ) (ω : ℕ → ℝ) (pop : ℕ → Pop) : Prop :=
  ∑ i : Fin n, ω i = 1 ∧ ∀ i < n, ∀ c, (pop i).amount g L false [] c = 1

/-! ### Lemmas -/

/-- Averages lie between the smallest and the greatest number. -/
theorem average_between (hn : 0 < n) {w : ℕ → ℝ} (hw : ∀ i < n, 0 < w i) (x : ℕ → ℝ) :
    (∃ i < n, x i ≤ (∑ i : Fin n, w i * x i) / ∑ i : Fin n, w i) ∧ ∃ i < n, (∑ i : Fin n, w i * x i) / ∑ i : Fin n, w i ≤ x i := by
  have hs : 0 < ∑ i : Fin n, w i := Finset.sum_pos (fun i _ => hw i i.2) ⟨⟨0, hn⟩, Finset.mem_univ _⟩
  constructor
  · by_contra hcon
    push Not at hcon
    have : ∑ i : Fin n, w i * ((∑ i : Fin n, w i * x i) / ∑ i : Fin n, w i) < ∑ i : Fin n, w i * x i :=
      Finset.sum_lt_sum_of_nonempty ⟨⟨0, hn⟩, Finset.mem_univ _⟩ fun i _ => mul_lt_mul_of_pos_left (hcon i i.2) (hw i i.2)
    rw [← Finset.sum_mul, mul_div_cancel₀ _ hs.ne'] at this
    exact lt_irrefl _ this
  · by_contra hcon
    push Not at hcon
    have : ∑ i : Fin n, w i * x i < ∑ i : Fin n, w i * ((∑ i : Fin n, w i * x i) / ∑ i : Fin n, w i) :=
      Finset.sum_lt_sum_of_nonempty ⟨⟨0, hn⟩, Finset.mem_univ _⟩ fun i _ => mul_lt_mul_of_pos_left (hcon i i.2) (hw i i.2)
    rw [← Finset.sum_mul, mul_div_cancel₀ _ hs.ne'] at this
    exact lt_irrefl _ this

/-- The mixture averages over its members. -/
theorem mix_expect (h0 : ∀ i < n, (pop i).amount g L lw b c ≠ 0) (k : Char) (φ : ℝ → ℝ) :
    (mixPop n ω pop).expect g L lw b k φ c =
      (∑ i : Fin n, (ω i * (pop i).amount g L lw b c) * (pop i).expect g L lw b k φ c) / ∑ i : Fin n, ω i * (pop i).amount g L lw b c := by
  rw [Pop.expect_num, num_mixPop, amount_mixPop]
  refine congrArg₂ _ (Finset.sum_congr rfl fun i _ => ?_) rfl
  rw [Pop.expect_num, mul_assoc, mul_div_cancel₀ _ (h0 i i.2)]

theorem amount_positive (h : MixOf m g n ω pop L) {i : ℕ} (hi : i < n) {c : Cell} (h0 : (pop i).amount g L lw b c ≠ 0) :
    0 < (pop i).amount g L lw b c :=
  lt_of_le_of_ne ((h.ok hi).amount_nonneg h.proper h.lightNonneg b c) h0.symm

theorem mix_between (h : MixOf m g n ω pop L) {c : Cell} (h0 : ∀ i < n, (pop i).amount g L lw b c ≠ 0) (k : Char) (φ : ℝ → ℝ) :
    (∃ i < n, (pop i).expect g L lw b k φ c ≤ (mixPop n ω pop).expect g L lw b k φ c) ∧
      ∃ i < n, (mixPop n ω pop).expect g L lw b k φ c ≤ (pop i).expect g L lw b k φ c := by
  rw [mix_expect h0]
  exact average_between h.pos (w := fun i => ω i * (pop i).amount g L lw b c) (fun i hi => mul_pos (h.wpos i hi) (amount_positive h hi (h0 i hi)))
    (fun i => (pop i).expect g L lw b k φ c)

theorem AllPopulated.ne (h : MixOf m g n ω pop L) (hl : lw = true → ∀ i < n, (pop i).Shines g L) (hN : AddUpToOne g L n ω pop)
    (hb : b ∈ [] :: marginals) {c : Cell} (hc : g.Has c) (hP : AllPopulated m lw b c) : ∀ i < n, (pop i).amount g L lw b c ≠ 0 := by
  intro i hi
  by_cases e : b = []
  · subst e
    cases lw with
    | false => rw [hN.2 i hi c]; exact one_ne_zero
    | true =>
      have : (pop i).amount g L true [] c = (pop i).lightOf g L [] := by
        unfold Pop.amount Pop.lightOf
        simp [coords, Pop.wt]
      rw [this]
      exact ((h.ok hi).light_pos h.proper h.lightNonneg (hl rfl i hi) []).ne'
  · have hb' : b ∈ marginals := (List.mem_cons.1 hb).resolve_left e
    have hi' : i < m.children.length := by rw [h.children]; exact hi
    obtain ⟨q, q1, q2⟩ := hP.resolve_left e m.children[i] (List.getElem_mem _)
    obtain ⟨q', q3, -, q4⟩ := (h.member i hi').getP_marg false lw (fun e => hl e i hi) hb'
    obtain rfl : q = q' := Except.ok.inj (q1.symm.trans q3)
    intro hz
    refine q2 ((q4 c hc).trans ?_)
    simp [Pop.marginal, hz]

theorem allPopulated_of (h : MixOf m g n ω pop L) (hl : lw = true → ∀ i < n, (pop i).Shines g L) (hb : b ∈ marginals) {c : Cell} (hc : g.Has c)
    (h0 : ∀ i < n, (pop i).amount g L lw b c ≠ 0) : AllPopulated m lw b c := by
  refine .inr fun ch hch => ?_
  obtain ⟨i, hi, rfl⟩ := List.getElem_of_mem hch
  have hi' : i < n := h.children ▸ hi
  obtain ⟨q, q1, -, q2⟩ := (h.member i hi).getP_marg false lw (fun e => hl e i hi') hb
  refine ⟨q, q1, fun hz => ?_⟩
  rw [q2 _ hc] at hz
  injection hz with hz
  have hv : dvol g false b c = 1 := by simp [dvol]
  unfold Pop.marginal at hz
  rw [hv, div_one] at hz
  split_ifs at hz with e
  · rcases div_eq_zero_iff.1 hz with e' | e'
    · exact h0 i hi' e'
    · exact ((h.ok hi').light_pos h.proper h.lightNonneg (hl e i hi') b).ne' e'
  · exact h0 i hi' (by simpa using hz)

theorem valid_mem {a : PyStr} (hb : ValidPair a b) : b ∈ [] :: marginals := by
  rcases hb with ⟨rfl, -⟩ | hb
  · exact List.mem_cons_self
  · exact List.mem_cons_of_mem _ (conditionals_letters _ hb).2.2.2.2.2.2.2.2.1

theorem mix_whole (hN : AddUpToOne g L n ω pop) (c : Cell) : (mixPop n ω pop).amount g L false [] c = 1 := by
  rw [amount_mixPop, ← hN.1]
  exact Finset.sum_congr rfl fun i _ => by rw [hN.2 i i.2 c, mul_one]

/-- Averages of squares about any centre. -/
theorem expect_about (h : MixOf m g n ω pop L) {i : ℕ} (hi : i < n) {c : Cell} (h0 : (pop i).amount g L lw b c ≠ 0) {k : Char} (hkb : k = 'v' → 'v' ∉ b)
    (u : ℝ) : (pop i).expect g L lw b k (fun x => (x - u) ^ 2) c =
      (pop i).expect g L lw b k (fun x => (x - (pop i).expect g L lw b k (fun x => x) c) ^ 2) c + ((pop i).expect g L lw b k (fun x => x) c - u) ^ 2 := by
  have hP : (pop i).Poly g := (h.member i (h.children.symm ▸ hi)).poly
  obtain ⟨E, hE, hp⟩ := hP.functional h.proper (h.ok hi) h.lightNonneg (k := k) hkb h0
  have e1 : (pop i).expect g L lw b k (fun x => x) c = E Polynomial.X := by rw [hp]; simp only [Polynomial.eval_X]
  have e2 : ∀ a : ℝ, (pop i).expect g L lw b k (fun x => (x - a) ^ 2) c = E (Polynomial.X ^ 2) - 2 * a * E Polynomial.X + a ^ 2 := fun a => by
    have : E ((Polynomial.X - Polynomial.C a) ^ 2) = E (Polynomial.X ^ 2) - 2 * a * E Polynomial.X + a ^ 2 := by
      have e : (Polynomial.X - Polynomial.C a) ^ 2 = Polynomial.X ^ 2 - (2 * a) • Polynomial.X + a ^ 2 • (1 : Polynomial ℝ) := by
        simp only [Polynomial.smul_eq_C_mul, Polynomial.C_mul, Polynomial.C_pow, Polynomial.C_ofNat, mul_one]; ring
      rw [e, map_add, map_sub, map_smul, map_smul, hE.one]
      simp
    rw [← this, hp]
    simp
  rw [e2, e2, e1]
  ring

/-- Disks, streams and tables whose probabilities add up to one are normalised. -/
theorem addUp_of (hg : g.Proper) (hω : ∑ i : Fin n, ω i = 1)
    (hρ : ∀ i < n, (∃ ρ, pop i = tablePop g ρ ∧ (∀ c, 0 ≤ ρ c) ∧ g.sumCells (fun c => ρ c * g.cellVolume c) = 1) ∨
      ∃ p mi, ParamIs p g mi L ∧ pop i = mi.pop g) : AddUpToOne g L n ω pop := by
  refine ⟨hω, fun i hi c => ?_⟩
  rcases hρ i hi with ⟨ρ, e, h0, h1⟩ | ⟨p, mi, hp, e⟩
  · rw [e, Pop.amount_eq hg (tablePop_ok hg h0), tablePop_marg hg _ (fun d => Pop.wt L false d) (fun _ _ => rfl)]
    simp only [Grid.marg, coords, Pop.wt, List.flatMap_nil, if_true, Bool.false_eq_true, if_false, one_mul]
    exact h1
  · rw [e, Pop.amount_eq hg hp.pop_ok, ingr_cells]
    have := PS_total hp false (by simp)
    simp only [Grid.marg, coords, Pop.wt, pick, List.flatMap_nil, if_true, Bool.false_eq_true, if_false, one_mul, List.not_mem_nil]
    exact this

/-! ### C112 -/

/-- **C112, distributions.** Every probability or density that a mixture gives to a bin is at least that of one of its members and at most that of another,
for all 15 distributions and both weightings. -/
theorem C112_distributions (h : MixOf m g n ω pop L) (hN : AddUpToOne g L n ω pop) (density lw : Bool) (hl : lw = true → ∀ i < n, (pop i).Shines g L)
    (w : PyStr) (hw : w ∈ marginals) :
    ∃ (p : Arr Num) (q : ℕ → Arr Num), Mix.getP m w true density lw = .ok p ∧
      (∀ (i : ℕ) (hi : i < m.children.length), m.children[i].getP w density lw = .ok (q i)) ∧
      ∀ c, g.Has c → AmongMembers n (p.get (coords w c)) (fun i => (q i).get (coords w c)) := by
  obtain ⟨p, _, q, p1, -, p2, -, -, -, p3⟩ := C65_weighted_sum h density lw hl w hw
  refine ⟨p, q, p1, p2, fun c hc => ?_⟩
  have hq : ∀ i < n, (q i).get (coords w c) = .fin ((pop i).marginal g L lw w c / dvol g density w c) := fun i hi => by
    have hi' : i < m.children.length := by rw [h.children]; exact hi
    obtain ⟨q', q3, -, q4⟩ := (h.member i hi').getP_marg density lw (fun e => hl e i hi) hw
    obtain rfl : q i = q' := Except.ok.inj ((p2 i hi').symm.trans q3)
    exact q4 c hc
  have hshare : ∀ i < n, 0 < shareIn g L lw n ω pop w i := fun i hi => by
    unfold shareIn
    split_ifs with e
    · have lp : ∀ k < n, 0 < ω k * (pop k).lightOf g L w := fun k hk =>
        mul_pos (h.wpos k hk) ((h.ok hk).light_pos h.proper h.lightNonneg (hl e k hk) w)
      exact div_pos (lp i hi) (Finset.sum_pos (fun k _ => lp k k.2) ⟨⟨0, h.pos⟩, Finset.mem_univ _⟩)
    · exact h.wpos i hi
  have hone : ∑ i : Fin n, shareIn g L lw n ω pop w i = 1 := by
    unfold shareIn
    split_ifs with e
    · rw [← Finset.sum_div]
      refine div_self (Finset.sum_pos (fun k _ => ?_) ⟨⟨0, h.pos⟩, Finset.mem_univ _⟩).ne'
      exact mul_pos (h.wpos k k.2) ((h.ok k.2).light_pos h.proper h.lightNonneg (hl e k k.2) w)
    · exact hN.1
  have := average_between h.pos hshare (fun i => (pop i).marginal g L lw w c / dvol g density w c)
  rw [hone, div_one] at this
  refine ⟨_, _, ?_, hq, this⟩
  rw [(p3 c hc).1, ← Num.fin_sum]
  exact Finset.sum_congr rfl fun i _ => by rw [hq i i.2, Num.fin_mul]

/-- **C112, means.** The same for means of every quantity given any variables, except light-weighted ones given the velocity, where all members have stars. -/
theorem C112_means (h : MixOf m g n ω pop L) (hN : AddUpToOne g L n ω pop) (hl : lw = true → ∀ i < n, (pop i).Shines g L)
    (k : Char) (hk : k ∈ ['t','v','x','y','z']) (hb : ValidPair (varOf k) b) (hv : lw = false ∨ 'v' ∉ b) :
    ∃ (M : Arr Num) (R : ℕ → Arr Num), Mix.getMean m (distStr (varOf k) b) lw = .ok M ∧
      (∀ (i : ℕ) (hi : i < m.children.length), m.children[i].getMean (distStr (varOf k) b) lw = .ok (R i)) ∧
      ∀ c, g.Has c → AllPopulated m lw b c → AmongMembers n (M.get (compIdx k ++ coords b c)) (fun i => (R i).get (compIdx k ++ coords b c)) := by
  obtain ⟨h1, h2, -⟩ := quantity_facts hk
  obtain ⟨M, m1, -, m2⟩ := C66_mean_partial h hl k hk b hb hv
  have hm : ∀ (i : ℕ) (hi : i < m.children.length), _ := fun i hi =>
    ((h.member i hi).says (fun e => hl e i (h.children ▸ hi)) hb h1 (lw := lw)).mean
  choose R F r1 r2 r3 using hm
  refine ⟨M, fun i => if hi : i < m.children.length then R i hi else M, m1, fun i hi => by dsimp only; rw [dif_pos hi]; exact r1 i hi, fun c hc hP => ?_⟩
  have h0 := hP.ne h hl hN (valid_mem hb) hc
  refine ⟨_, fun i => (pop i).expect g L lw b k (fun x => x) c, m2 c hc h0 (fun _ _ => mix_whole hN c), fun i hi => ?_, mix_between h h0 k _⟩
  have hi' : i < m.children.length := by rw [h.children]; exact hi
  dsimp only
  rw [dif_pos hi', (r2 i hi').2 k h2 c hc, r3 i hi' k h2 c hc (h0 i hi), Pop.expect_num]
  unfold Pop.norm
  split_ifs with e
  · obtain ⟨rfl, rfl⟩ := e
    rw [hN.2 i hi c]
  · rfl

/-- **C112, variances.** Let the means of a mixture and of its members be `u` and `μ i`, and their variances `v` and `s i`.  Then there is a member for which
`v` is at least `s i + (μ i - u) ^ 2` (so at least `s i`), and one for which it is at most that. -/
theorem C112_variances (h : MixOf m g n ω pop L) (hN : AddUpToOne g L n ω pop) (hl : lw = true → ∀ i < n, (pop i).Shines g L)
    (hm : ∀ (i : ℕ) (hi : i < m.children.length), IsMember1 g L m.children[i] (pop i))
    (k : Char) (hk : k ∈ ['t','v','x','y','z']) (hb : ValidPair (varOf k) b) (hv : lw = false ∨ 'v' ∉ b) (hvb : ¬ (k = 'v' ∧ b = ['t','x','z'])) :
    ∃ (M V : Arr Num) (R W : ℕ → Arr Num), Mix.getMean m (distStr (varOf k) b) lw = .ok M ∧ (Mix.obj m).getVariance (distStr (varOf k) b) lw = .ok V ∧
      (∀ (i : ℕ) (hi : i < m.children.length), m.children[i].getMean (distStr (varOf k) b) lw = .ok (R i) ∧
        m.children[i].getNcm (distStr (varOf k) b) 2 (R i) lw = .ok (W i)) ∧
      ∀ c, g.Has c → AllPopulated m lw b c → ∃ (u v : ℝ) (μ s : ℕ → ℝ), M.get (compIdx k ++ coords b c) = .fin u ∧ V.get (compIdx k ++ coords b c) = .fin v ∧
        (∀ i < n, (R i).get (compIdx k ++ coords b c) = .fin (μ i) ∧ (W i).get (compIdx k ++ coords b c) = .fin (s i) ∧ 0 ≤ s i) ∧
        (∃ i < n, s i + (μ i - u) ^ 2 ≤ v) ∧ ∃ i < n, v ≤ s i + (μ i - u) ^ 2 := by
  obtain ⟨h1, h2, -⟩ := quantity_facts hk
  have hqv : varOf k = ['v'] → k = 'v' := by
    intro e; fin_cases hk <;> first | rfl | exact absurd e (by decide)
  have hkb : k = 'v' → 'v' ∉ b := by
    rintro rfl
    exact (union_V hb (by decide)).2
  obtain ⟨M, m1, -, m2⟩ := C66_mean_partial h hl k hk b hb hv
  obtain ⟨V, v1, -, v2⟩ := C66_central_partial h hl hm k hk b hb hv hvb 2
  have hs : ∀ (i : ℕ) (hi : i < m.children.length), _ := fun i hi =>
    (hm i hi).says (fun e => hl e i (h.children ▸ hi)) hb h1 (lw := lw) (fun e => hvb ⟨hqv e.1, e.2⟩)
  choose R F r1 r2 r3 using fun i hi => (hs i hi).mean
  choose W G w1 w2 w3 using fun i hi => (hs i hi).ncm trivial 2 (R i hi) (F i hi) (r2 i hi)
  refine ⟨M, V, fun i => if hi : i < m.children.length then R i hi else M, fun i => if hi : i < m.children.length then W i hi else M, m1, v1,
    fun i hi => by simp only [dif_pos hi]; exact ⟨r1 i hi, w1 i hi⟩, fun c hc hP => ?_⟩
  have h0 := hP.ne h hl hN (valid_mem hb) hc
  have hnorm : ∀ i < n, ∀ φ, (pop i).num g L lw b k φ c / (pop i).norm g L lw b c = (pop i).expect g L lw b k φ c := fun i hi φ => by
    rw [Pop.expect_num]
    unfold Pop.norm
    split_ifs with e
    · obtain ⟨rfl, rfl⟩ := e
      rw [hN.2 i hi c]
    · rfl
  obtain ⟨lo, hi⟩ := mix_between h h0 k (fun x => (x - (mixPop n ω pop).expect g L lw b k (fun x => x) c) ^ 2)
  refine ⟨_, _, fun i => (pop i).expect g L lw b k (fun x => x) c,
    fun i => (pop i).expect g L lw b k (fun x => (x - (pop i).expect g L lw b k (fun x => x) c) ^ 2) c,
    m2 c hc h0 (fun _ _ => mix_whole hN c), v2 c hc h0 (fun _ _ => mix_whole hN c), fun i hi => ?_, ?_, ?_⟩
  · have hi' : i < m.children.length := by rw [h.children]; exact hi
    have e := r3 i hi' k h2 c hc (h0 i hi)
    rw [hnorm i hi] at e
    simp only [dif_pos hi']
    refine ⟨((r2 i hi').2 k h2 c hc).trans e, ?_, ?_⟩
    · rw [(w2 i hi').2 k h2 c hc, w3 i hi' k h2 c _ hc (h0 i hi) e, hnorm i hi]
    · obtain ⟨E, hE, hp⟩ := ((h.member i hi').poly).functional h.proper (h.ok hi) h.lightNonneg (k := k) hkb (h0 i hi)
      have := hE.sq (Polynomial.X - Polynomial.C ((pop i).expect g L lw b k (fun x => x) c))
      rw [hp] at this
      simpa using this
  · obtain ⟨i, hi, e⟩ := lo
    exact ⟨i, hi, by rwa [← expect_about h hi (h0 i hi) hkb]⟩
  · obtain ⟨i, hi, e⟩ := hi
    exact ⟨i, hi, by rwa [← expect_about h hi (h0 i hi) hkb]⟩

/-- A disk mixed with a star at the edge of its image: both have stars of every velocity at this age, and both have stars in the pixel. -/
example : ∃ m pop, MixOf m demoGrid 2 (fun i => if i = 0 then 1 / 4 else 3 / 4) pop demoL ∧
    AddUpToOne demoGrid demoL 2 (fun i => if i = 0 then 1 / 4 else 3 / 4) pop ∧ (∀ i < 2, (pop i).Shines demoGrid demoL) ∧
    (∀ (i : ℕ) (hi : i < m.children.length), IsMember1 demoGrid demoL m.children[i] (pop i)) ∧
    ∃ c, demoGrid.Has c ∧ AllPopulated m true ['x'] c ∧ AllPopulated m false ['t','v'] c := by
  obtain ⟨cube, p, mi, t0, hP, -, ht, hpos, hmix⟩ := demoStarMix
  have hc : demoGrid.Has ⟨t0, 0, 0, 0, 0⟩ := by refine ⟨ht, ?_, ?_, ?_, ?_⟩ <;> simp [demoGrid, cubeGrid]
  obtain ⟨m, -, -, -, h, hl, hm⟩ := hmix _ _ hc hc
  have ha : ∀ lw b, ∀ i < 2, (if i = 0 then mi.pop demoGrid else tablePop demoGrid (twoStars ⟨t0, 0, 0, 0, 0⟩ ⟨t0, 0, 0, 0, 0⟩)).amount
      demoGrid demoL lw b ⟨t0, 0, 0, 0, 0⟩ ≠ 0 := by
    intro lw b i hi
    interval_cases i
    · exact (ingr_amount_pos hP demoL_pos hc (hpos _ hc rfl) rfl).ne'
    · simp only [one_ne_zero, if_false]
      rw [twoStars_amount hc hc, if_pos rfl]
      have : 0 < Pop.wt demoL lw ⟨t0, 0, 0, 0, 0⟩ := by unfold Pop.wt; split; exacts [demoL_pos _ _, one_pos]
      positivity
  have hN : AddUpToOne demoGrid demoL 2 (fun i => if i = 0 then 1 / 4 else 3 / 4) (fun i => if i = 0 then mi.pop demoGrid else
      tablePop demoGrid (twoStars ⟨t0, 0, 0, 0, 0⟩ ⟨t0, 0, 0, 0, 0⟩)) := by
    refine addUp_of demoGrid_proper (by norm_num [Fin.sum_univ_two]) fun i hi => ?_
    interval_cases i
    · exact .inr ⟨p, mi, hP, rfl⟩
    · refine .inl ⟨_, rfl, twoStars_nonneg hc hc, ?_⟩
      refine (hasSum_congr fun d _ => ?_).trans ((twoStars_sum hc hc (fun _ => (1 : ℝ))).trans (by norm_num))
      rw [one_mul]; rfl
  exact ⟨m, _, h, hN, hl, hm, _, hc, allPopulated_of h (fun _ => hl) (by decide) hc (ha _ _), allPopulated_of h (fun _ => hl) (by decide) hc (ha _ _)⟩

end PKM
