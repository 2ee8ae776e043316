import Verif.PopMember
import Verif.Props.PopMix

/-! Lemmas: means and central moments of mixtures from those of their members. -/

open scoped Classical

noncomputable section

namespace PKM
open Np Component

variable {g : Grid} {L : ℕ → ℕ → ℝ} {lw : Bool} {a b : PyStr} {m : Mix} {n : ℕ} {ω : ℕ → ℝ} {pop : ℕ → Pop}

theorem num_mixPop (n : ℕ) (ω : ℕ → ℝ) (pop : ℕ → Pop) (b : PyStr) (k : Char) (φ : ℝ → ℝ) (c : Cell) :
    (mixPop n ω pop).num g L lw b k φ c = ∑ i : Fin n, ω i * (pop i).num g L lw b k φ c := by
  unfold Pop.num
  split
  · simp only [← sumTXZ_mul]
    rw [← sumTXZ_sum]
    congr 1; funext d
    split
    · simp only [mixPop, Finset.mul_sum]
      exact Finset.sum_congr rfl fun i _ => by ring
    · simp
  · split
    · simp only [← sumCells_mul]
      rw [← sumCells_fsum]
      congr 1; funext d
      split
      · simp only [mixPop, Finset.mul_sum]
        exact Finset.sum_congr rfl fun i _ => by ring
      · simp
    · simp only [← sumTXZ_mul]
      rw [← sumTXZ_sum]
      congr 1; funext d
      split
      · simp only [mixPop_stars, Finset.mul_sum]
        exact Finset.sum_congr rfl fun i _ => by ring
      · simp

/-- Light of a member over that of the mixture. -/
def rwOf (g : Grid) (L : ℕ → ℕ → ℝ) (lw : Bool) (n : ℕ) (ω : ℕ → ℝ) (pop : ℕ → Pop) (i : ℕ) : ℝ :=
  if lw then (pop i).lightOf g L ['t','x','z'] / ∑ k : Fin n, ω k * (pop k).lightOf g L ['t','x','z'] else 1

theorem rwOf_share (i : ℕ) : ω i * rwOf g L lw n ω pop i = shareIn g L lw n ω pop ['t','x','z'] i := by
  unfold rwOf shareIn
  split
  · rw [mul_div_assoc]
  · rw [mul_one]

/-- The light reweightings of a mixture. -/
theorem MixOf.reweight (h : MixOf m g n ω pop L) (hl : lw = true → ∀ i < n, (pop i).Shines g L) :
    ∃ X, Mix.reweight m lw = .ok X ∧ X.shape = [n] ∧ ∀ i < n, X.get [i] = .fin (rwOf g L lw n ω pop i) := by
  cases lw with
  | false => exact ⟨_, rfl, by simp [full, h.children], fun i _ => rfl⟩
  | true =>
    have hpos : 0 < (mixPop n ω pop).lightOf g L ['t','x','z'] := mix_shines h (hl rfl)
    have hproper := h.proper
    have hc0 : ∀ q : Pop, q.cells g ['t','z'] = q.flat g := fun q => rfl
    have hlt : ∀ {q : Pop}, q.Ok g → totalLight g L (q.flat g) = q.lightOf g L ['t','x','z'] := fun hq => by
      rw [Pop.lightOf_eq hproper hq]; rfl
    obtain ⟨pm, hpm, hpm'⟩ := Mix.getP_marg h.is false false (w := ['t','z']) (by decide) (by simp)
    obtain ⟨A, H, hA, hAs, hAv⟩ := gather_marg (m := m) (g := g) (b := ['t','z'])
      (f := fun c => c.getP ['t','z'] false false) (F := fun i c => .fin (g.marg ((pop i).flat g) ['t','z'] c))
      h.pos h.children (fun i hi => by
        refine ((h.member i hi).getP_marg false false (by simp) (by decide)).congr fun c _ => ?_
        rw [Pop.marginal_eq hproper (h.ok (h.children ▸ hi)), hc0]
        simp [dvol, wtdP])
    have hl := h.light
    have hcell : g.Has ⟨0, 0, 0, 0, 0⟩ := ⟨hproper.nt, hproper.nv, hproper.nx, hproper.ny, hproper.nz⟩
    have hmm : ∀ (P : Cell → ℝ) (c : Cell), L c.t c.z * g.marg P ['t','z'] c =
        g.marg (fun d => L d.t d.z * P d) ['t','z'] c := fun P c =>
      mul_marg (φ := fun d => L d.t d.z) (fun d e hde => by
        simp only [coords, List.flatMap_cons, List.flatMap_nil, coord1] at hde
        simp at hde; simp [hde]) P c
    obtain ⟨B, hB, hBs, hBv⟩ := bop_lead' (· * ·) (A := m.cube.ssps.lightWeights) (B := A) (n := n)
      (by rw [hAs.1, hl.1])
    have hBL : Lead g n ['t','z'] B (fun i c => .fin (g.marg (fun d => L d.t d.z * (pop i).flat g d) ['t','z'] c)) := by
      refine ⟨by rw [hBs, hAs.1], fun i hi c hc => ?_⟩
      rw [hBv i _ hi (by rw [hl.1]; exact inBox_coords hc _), hl.2 c hc, hAs.2 i hi _ (inBox_coords hc _),
        hAv i hi c hc, Num.fin_mul, hmm]
    have hBLL := (lead_letters (marginals_chars _ (by decide))).1 hBL
    obtain ⟨S, hS, hSL⟩ := hBLL.sum (S := ['z','t']) (by decide) (by unfold AxisChar; decide)
      (by unfold removable; decide) (axes := [1, 2]) (by unfold axesOK1; decide)
    obtain ⟨C, hC, hC'⟩ := hl.bop (· * ·) hpm'.barr
    have hC'' : IsArr g ['t','z'] C (fun c => .fin (g.marg (fun d => L d.t d.z *
        (mixPop n ω pop).flat g d) ['t','z'] c)) :=
      hC'.congr fun c _ => by
        beta_reduce
        rw [mixP_pad, hc0]
        simp [dvol, wtdP, hmm]
    have hall := sumAll_marg hproper (w := ['t','z']) (by decide) hC''
    have e1 : g.sumCells (fun d => L d.t d.z * (mixPop n ω pop).flat g d) = (mixPop n ω pop).lightOf g L ['t','x','z'] :=
      hlt h.mixOk
    rw [e1] at hall
    obtain ⟨R, hR, hRs, hRv⟩ := bop_scalar_right (· / ·) S (.fin ((mixPop n ω pop).lightOf g L ['t','x','z']))
    refine ⟨R, ?_, ?_, fun i hi => ?_⟩
    · simp only [Mix.reweight, if_true, Mix.lightReweightings, hpm, hA, Py.ok_bind, mul, div, hB, hS, hC, hall]
      exact hR
    · rw [hRs, hSL.1]; rfl
    · have h1 : S.get [i] = .fin ((pop i).lightOf g L ['t','x','z']) := by
        have := (hSL.2 i hi).2 _ hcell
        beta_reduce at this
        rw [sumOver_fin, show (['z','t'] : List Char) = (PyStr.replaceX ['t','z']).reverse from by decide,
          sumOver_marg_total g _ (by decide) hcell] at this
        rw [← hlt (h.ok hi)]
        exact this
      rw [hRv [i] (by rw [hSL.1]; exact ⟨hi, trivial⟩), h1]
      rw [Num.fin_div _ _ hpos.ne', lightOf_mixPop]
      rfl

theorem MixOf.weights_facts (h : MixOf m g n ω pop L) : m.weights.length = n ∧ ∀ i < n, m.weights.getD i 0 = ω i := by
  rw [h.weights]
  refine ⟨by simp, fun i hi => by simp [hi]⟩

theorem nil_not_cond (hab : ValidPair a []) : a ∈ marginals := by
  rcases hab with ⟨-, ha⟩ | hab
  · exact ha
  · exact absurd hab (by have : ∀ p ∈ conditionals, p.2 ≠ [] := (by decide +kernel); exact fun h => this _ h rfl)

/-- The mean that a mixture returns: members' means weighted by their share of the light of all stars times their
distribution of the conditioners, over the distribution of the conditioners in the mixture. -/
def mixMean (g : Grid) (L : ℕ → ℕ → ℝ) (lw : Bool) (n : ℕ) (ω : ℕ → ℝ) (pop : ℕ → Pop) (b : PyStr) (k : Char) (c : Cell) : ℝ :=
  (∑ i : Fin n, shareIn g L lw n ω pop ['t','x','z'] i * (pop i).marginal g L lw b c *
    (pop i).expect g L lw b k (fun x => x) c) / (mixPop n ω pop).marginal g L lw b c

theorem light_nil (hg : g.Proper) {q : Pop} (hq : q.Ok g) : q.lightOf g L [] = q.lightOf g L ['t','x','z'] := by
  rw [Pop.lightOf_eq hg hq, Pop.lightOf_eq hg hq]; rfl

/-- Averages over all stars. -/
theorem nil_sum (h : MixOf m g n ω pop L) (hl : lw = true → ∀ i < n, (pop i).Shines g L) (k : Char) (φ : ℝ → ℝ) (c : Cell) :
    ∑ i : Fin n, Num.fin (ω i) * .fin (rwOf g L lw n ω pop i) * .fin ((pop i).num g L lw [] k φ c / (pop i).norm g L lw [] c) =
      .fin ((mixPop n ω pop).num g L lw [] k φ c / (mixPop n ω pop).norm g L lw [] c) := by
  simp only [Num.fin_mul, Num.fin_sum]
  congr 1
  rw [num_mixPop]
  unfold Pop.norm rwOf
  cases lw with
  | false => simp
  | true =>
    simp only [Bool.true_eq_false, and_false, if_false, if_true]
    rw [amount_nil_light h.proper h.mixOk, light_nil h.proper h.mixOk, lightOf_mixPop, Finset.sum_div]
    refine Finset.sum_congr rfl fun i _ => ?_
    rw [amount_nil_light h.proper (h.ok i.2), light_nil h.proper (h.ok i.2)]
    have := (hl rfl i i.2).ne'
    field_simp

theorem MixOf.amount_pos (h : MixOf m g n ω pop L) {c : Cell} (h0 : ∀ i < n, (pop i).amount g L lw b c ≠ 0) :
    ∀ i < n, 0 < (pop i).amount g L lw b c := fun i hi => by
  refine lt_of_le_of_ne ?_ (h0 i hi).symm
  rw [Pop.amount_eq h.proper (h.ok hi)]
  refine marg_nonneg (fun d hd => mul_nonneg ?_ ?_) b c
  · unfold Pop.wt; split
    · exact h.lightNonneg _ _
    · exact zero_le_one
  · unfold Pop.cells pick
    split
    · exact (h.ok hi).joint d hd
    · exact flat_nonneg (h.ok hi) hd

theorem MixOf.mixAmount_pos (h : MixOf m g n ω pop L) {c : Cell} (h0 : ∀ i < n, (pop i).amount g L lw b c ≠ 0) :
    0 < (mixPop n ω pop).amount g L lw b c := by
  rw [amount_mixPop]
  refine Finset.sum_pos (fun i _ => ?_) ⟨⟨0, h.pos⟩, Finset.mem_univ _⟩
  exact mul_pos (h.wpos i i.2) (h.amount_pos h0 i i.2)

theorem MixOf.marginal_ne (h : MixOf m g n ω pop L) (hl : lw = true → ∀ i < n, (pop i).Shines g L) {c : Cell}
    (h0 : ∀ i < n, (pop i).amount g L lw b c ≠ 0) : (mixPop n ω pop).marginal g L lw b c ≠ 0 := by
  unfold Pop.marginal
  refine div_ne_zero (h.mixAmount_pos h0).ne' ?_
  split
  · next e => exact (h.mixOk.light_pos h.proper h.lightNonneg (mix_shines h (hl e)) b).ne'
  · exact one_ne_zero

theorem MixOf.mean_is (h : MixOf m g n ω pop L) (hl : lw = true → ∀ i < n, (pop i).Shines g L) (hab : ValidPair a b)
    (h1 : a.length = 1) :
    ∃ r F, Mix.getMean m (distStr a b) lw = .ok r ∧ IsMom g a b r F ∧ ∀ k ∈ PyStr.replaceX a, ∀ c, g.Has c →
      (∀ i < n, (pop i).amount g L lw b c ≠ 0) →
      F k c = .fin (if b = [] then (mixPop n ω pop).num g L lw [] k (fun x => x) c / (mixPop n ω pop).norm g L lw [] c
        else mixMean g L lw n ω pop b k c) := by
  obtain ⟨X, hX, hXs, hx⟩ := h.reweight hl
  obtain ⟨hw, hω⟩ := h.weights_facts
  have hm : ∀ (i : ℕ) (hi : i < m.children.length), _ := fun i hi =>
    ((h.member i hi).says (fun e => hl e i (h.children ▸ hi)) hab h1 (lw := lw)).mean
  choose R F' hR1 hR2 hR3 using hm
  let F : ℕ → Char → Cell → Num := fun i => if hi : i < m.children.length then F' i hi else fun _ _ => .nan
  have hF : ∀ (i : ℕ) (hi : i < m.children.length), F i = F' i hi := fun i hi => by simp only [F, dif_pos hi]
  have hmean : ∀ (i : ℕ) (hi : i < m.children.length), ∃ r, m.children[i].getMean (distStr a b) lw = .ok r ∧ IsMom g a b r (F i) :=
    fun i hi => ⟨R i hi, hR1 i hi, by rw [hF i hi]; exact hR2 i hi⟩
  have hFv : ∀ i < n, ∀ k ∈ PyStr.replaceX a, ∀ c, g.Has c → (pop i).amount g L lw b c ≠ 0 →
      F i k c = .fin ((pop i).num g L lw b k (fun x => x) c / (pop i).norm g L lw b c) := fun i hi k hk c hc h0 => by
    have hi' : i < m.children.length := by rw [h.children]; exact hi
    rw [hF i hi']; exact hR3 i hi' k hk c hc h0
  by_cases hb : b = []
  · subst hb
    have ha := nil_not_cond hab
    have hds : distStr a [] = a := by simp [distStr]
    rw [hds] at hmean ⊢
    obtain ⟨r, hr, hr'⟩ := Mix.mean_marg_raw ha h1 h.pos h.children hw hω hmean hX hXs hx
    refine ⟨r, _, hr, hr', fun k hk c hc h0 => ?_⟩
    rw [if_pos rfl, ← nil_sum h hl]
    exact Finset.sum_congr rfl fun i _ => by rw [hFv i i.2 k hk c hc (h0 i i.2)]
  · have hab' : (a, b) ∈ conditionals := hab.resolve_left (fun e => hb e.1)
    have hds : distStr a b = condStr a b := by simp [distStr, hb]
    rw [hds] at hmean ⊢
    have hbm : b ∈ marginals := (conditionals_letters _ hab').2.2.2.2.2.2.2.2.1
    have hp : ∀ (i : ℕ) (hi : i < m.children.length), Gives (m.children[i].getP b true lw) g b
        (fun c => .fin ((pop i).marginal g L lw b c / dvol g true b c)) := fun i hi =>
      (h.member i hi).getP_marg true lw (fun e => hl e i (h.children ▸ hi)) hbm
    have hd : Gives (Mix.getP m b true true lw) g b
        (fun c => .fin ((mixPop n ω pop).marginal g L lw b c / dvol g true b c)) := by
      refine (Mix.getP_marg h.is true lw hbm (fun e => h.mixLight_pos (mix_shines h (hl e)) b)).congr ?_
      intro c _
      beta_reduce
      rw [mixP_pad, Pop.marginal_eq h.proper h.mixOk]
    obtain ⟨r, hr, hr'⟩ := Mix.mean_cond_raw hab' h1 h.pos h.children hw hω hmean hp hX hXs hx hd
    refine ⟨r, _, hr, hr', fun k hk c hc h0 => ?_⟩
    have hv := dvol_pos h.proper hc true b
    have hmar := h.marginal_ne hl h0
    have hn : ∀ i : Fin n, (pop i).norm g L lw b c = (pop i).amount g L lw b c := fun i => by simp [Pop.norm, hb]
    have : ∀ i : Fin n, Num.fin ((pop i).marginal g L lw b c / dvol g true b c) * .fin (ω i) * .fin (rwOf g L lw n ω pop i) * F i k c =
        .fin (shareIn g L lw n ω pop ['t','x','z'] i * (pop i).marginal g L lw b c *
          (pop i).expect g L lw b k (fun x => x) c / dvol g true b c) := by
      intro i
      rw [hFv i i.2 k hk c hc (h0 i i.2), hn, ← rwOf_share]
      simp only [Num.fin_mul, Pop.expect_num]
      congr 1
      ring
    rw [if_neg hb]
    simp only [this, Num.fin_sum]
    rw [Num.fin_div _ _ (div_ne_zero hmar hv.ne'), ← Finset.sum_div, div_div_div_cancel_right₀ hv.ne']
    rfl

/-- With shares that fit the conditioners the weighted averages of the members are those of the mixture. -/
theorem MixOf.shares_expect (h : MixOf m g n ω pop L) (hl : lw = true → ∀ i < n, (pop i).Shines g L) {k : Char} (φ : ℝ → ℝ)
    {c : Cell} (h0 : ∀ i < n, (pop i).amount g L lw b c ≠ 0) :
    (∑ i : Fin n, shareIn g L lw n ω pop b i * (pop i).marginal g L lw b c * (pop i).expect g L lw b k φ c) /
      (mixPop n ω pop).marginal g L lw b c = (mixPop n ω pop).expect g L lw b k φ c := by
  have hA := (h.mixAmount_pos h0).ne'
  have hM := h.marginal_ne hl h0
  have key : ∀ i : Fin n, shareIn g L lw n ω pop b i * (pop i).marginal g L lw b c * (pop i).expect g L lw b k φ c =
      ω i * (pop i).num g L lw b k φ c / (if lw then (mixPop n ω pop).lightOf g L b else 1) := by
    intro i
    have hi := h0 i i.2
    unfold shareIn Pop.marginal
    rw [Pop.expect_num]
    cases lw with
    | false => simp only [Bool.false_eq_true, if_false]; field_simp
    | true =>
      have := ((h.ok i.2).light_pos h.proper h.lightNonneg (hl rfl i i.2) b).ne'
      simp only [if_true]
      rw [lightOf_mixPop]
      field_simp
  have hM' := hM
  simp only [key]
  rw [← Finset.sum_div, ← num_mixPop, Pop.expect_num]
  unfold Pop.marginal at hM' ⊢
  have := (div_ne_zero_iff.1 hM').2
  rw [div_div_div_cancel_right₀ this]

/-- The shares depend on the conditioners only through light lost outside the velocity range. -/
theorem MixOf.share_same (h : MixOf m g n ω pop L) (hb : lw = false ∨ 'v' ∉ b) {i : ℕ} (hi : i < n) :
    shareIn g L lw n ω pop ['t','x','z'] i = shareIn g L lw n ω pop b i := by
  have hv : lw = true → 'v' ∉ b := by rcases hb with rfl | hb <;> simp_all
  unfold shareIn
  split
  · next e =>
    have hlt : ∀ k < n, (pop k).lightOf g L b = (pop k).lightOf g L ['t','x','z'] := fun k hk => by
      unfold Pop.lightOf
      rw [if_neg (hv e), if_neg (by decide)]
    simp only [fun k : Fin n => hlt k k.2, hlt i hi]
  · rfl

/-- Central moments: about the mean that the mixture returns, over the stars of the mixture. -/
theorem MixOf.central_is (h : MixOf m g n ω pop L) (hl : lw = true → ∀ i < n, (pop i).Shines g L) (hab : ValidPair a b)
    (h1 : a.length = 1) (j : ℕ) {M : Arr Num} {Fm : Char → Cell → Num} {cen : ℕ → Cell → Cell}
    (hM : Mix.getMean m (distStr a b) lw = .ok M) (hM' : IsMom g a b M Fm)
    (hsay : ∀ (i : ℕ) (hi : i < m.children.length), MemberSays m.children[i] (pop i) g L lw a b (cen i) True) :
    ∃ r F, Mix.getCentralMoment m (distStr a b) j lw = .ok r ∧ IsMom g a b r F ∧ ∀ k ∈ PyStr.replaceX a, ∀ c (μ : ℕ → ℝ), g.Has c →
      (∀ i < n, (pop i).amount g L lw b c ≠ 0) → (∀ i < n, Fm k (cen i c) = .fin (μ i)) →
      F k c = .fin (if b = [] then ∑ i : Fin n, ω i * rwOf g L lw n ω pop i *
          ((pop i).num g L lw [] k (fun x => (x - μ i) ^ j) c / (pop i).norm g L lw [] c)
        else (∑ i : Fin n, shareIn g L lw n ω pop b i * (pop i).marginal g L lw b c *
          (pop i).expect g L lw b k (fun x => (x - μ i) ^ j) c) / (mixPop n ω pop).marginal g L lw b c) := by
  obtain ⟨X, hX, hXs, hx⟩ := h.reweight hl
  obtain ⟨hw, hω⟩ := h.weights_facts
  have hm : ∀ (i : ℕ) (hi : i < m.children.length), _ := fun i hi => (hsay i hi).ncm trivial j M Fm hM'
  choose R F' hR1 hR2 hR3 using hm
  let F : ℕ → Char → Cell → Num := fun i => if hi : i < m.children.length then F' i hi else fun _ _ => .nan
  have hF : ∀ (i : ℕ) (hi : i < m.children.length), F i = F' i hi := fun i hi => by simp only [F, dif_pos hi]
  have hncm : ∀ (i : ℕ) (hi : i < m.children.length), ∃ r, m.children[i].getNcm (distStr a b) j M lw = .ok r ∧ IsMom g a b r (F i) :=
    fun i hi => ⟨R i hi, hR1 i hi, by rw [hF i hi]; exact hR2 i hi⟩
  have hFv : ∀ i < n, ∀ k ∈ PyStr.replaceX a, ∀ c μ, g.Has c → (pop i).amount g L lw b c ≠ 0 → Fm k (cen i c) = .fin μ →
      F i k c = .fin ((pop i).num g L lw b k (fun x => (x - μ) ^ j) c / (pop i).norm g L lw b c) := fun i hi k hk c μ hc h0 hμ => by
    have hi' : i < m.children.length := by rw [h.children]; exact hi
    rw [hF i hi']; exact hR3 i hi' k hk c μ hc h0 hμ
  by_cases hb : b = []
  · subst hb
    have ha := nil_not_cond hab
    have hds : distStr a [] = a := by simp [distStr]
    rw [hds] at hncm hM ⊢
    obtain ⟨r, hr, hr'⟩ := Mix.central_marg_raw ha h1 h.pos h.children hw hω hM hncm hX hXs hx
      (fun e i _ => by simp [rwOf, e])
    refine ⟨r, _, hr, hr', fun k hk c μ hc h0 hμ => ?_⟩
    rw [if_pos rfl, ← Num.fin_sum]
    refine Finset.sum_congr rfl fun i _ => ?_
    rw [hFv i i.2 k hk c (μ i) hc (h0 i i.2) (hμ i i.2), Num.fin_mul, Num.fin_mul]
  · have hab' : (a, b) ∈ conditionals := hab.resolve_left (fun e => hb e.1)
    have hds : distStr a b = condStr a b := by simp [distStr, hb]
    rw [hds] at hncm hM ⊢
    have hbm : b ∈ marginals := (conditionals_letters _ hab').2.2.2.2.2.2.2.2.1
    obtain ⟨W, hW, hWl⟩ := Mix.getP_marg_rows h.is true lw hbm (fun e => h.mixLight_pos (mix_shines h (hl e)) b)
    have hWl' : Lead g n b W (fun i c => .fin (shareIn g L lw n ω pop b i * (pop i).marginal g L lw b c / dvol g true b c)) := by
      refine ⟨hWl.1, fun i hi c hc => ?_⟩
      rw [hWl.2 i hi c hc]
      beta_reduce
      rw [rowP_share' h lw hl b hi, marg_mul_const, ← Pop.marginal_eq h.proper (h.ok hi)]
    obtain ⟨r, hr, hr'⟩ := Mix.central_cond_raw hab' h1 h.pos h.children hM hncm hW hWl'
    refine ⟨r, _, hr, hr', fun k hk c μ hc h0 hμ => ?_⟩
    have hv := dvol_pos h.proper hc true b
    have hmar := h.marginal_ne hl h0
    have hn : ∀ i : Fin n, (pop i).norm g L lw b c = (pop i).amount g L lw b c := fun i => by simp [Pop.norm, hb]
    have : ∀ i : Fin n, Num.fin (shareIn g L lw n ω pop b i * (pop i).marginal g L lw b c / dvol g true b c) * F i k c =
        .fin (shareIn g L lw n ω pop b i * (pop i).marginal g L lw b c *
          (pop i).expect g L lw b k (fun x => (x - μ i) ^ j) c / dvol g true b c) := by
      intro i
      rw [hFv i i.2 k hk c (μ i) hc (h0 i i.2) (hμ i i.2), hn]
      simp only [Num.fin_mul, Pop.expect_num]
      congr 1
      ring
    rw [if_neg hb]
    simp only [this, Num.fin_sum]
    rw [← Finset.sum_div, ← Finset.sum_div, ← marginal_shares h lw hl, Num.fin_div _ _ (div_ne_zero hmar hv.ne'),
      div_div_div_cancel_right₀ hv.ne']

end PKM
