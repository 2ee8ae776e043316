import Verif.PopDerivedMix
import Verif.Props.LMoments

/-! Lemmas: L-moments of parametric components and of mixtures. -/

open scoped Classical

noncomputable section

namespace PKM
open Np Component

variable {g : Grid} {L : ℕ → ℕ → ℝ} {lw : Bool} {a b : PyStr} {q : Pop}

theorem lmoment_same {n : ℕ} {e p p' : ℕ → ℝ} (h : ∀ i < n, p i = p' i) (j : ℕ) : lmoment n e p j = lmoment n e p' j := by
  have hc : ∀ i ≤ n, cdf p i = cdf p' i := fun i hi =>
    Finset.sum_congr rfl fun k hk => h k ((Finset.mem_range.1 hk).trans_le hi)
  refine Finset.sum_congr rfl fun i hi => ?_
  have hi := Finset.mem_range.1 hi
  rw [hc i hi.le, hc (i + 1) hi, h i hi]

/-- L-moments are those of the distribution which is returned. -/
theorem lmoments_of_tab {o : Obj} {P m : Cell → ℝ} (hg : g.Proper) (hcube : CubeIs o.cube g) {k : Char}
    (hk : k ∈ ['t','v','z']) (hb : ValidPair [k] b) (hT : HasTab o.getP g lw P m [k] b) (hm : Respects b m) (j : ℕ) (hj : 1 ≤ j) :
    ∃ A r, o.getP (distStr [k] b) false lw = .ok A ∧ o.getLMoment (distStr [k] b) j lw = .ok r ∧ r.shape = g.shapeOf b ∧
      ∀ c, g.Has c → ∀ π : ℕ → ℝ, (∀ i < g.bins k, A.get (i :: coords b c) = .fin (π i)) →
        r.get (coords b c) = .fin (lmoment (g.bins k) (g.edge k) π j) := by
  obtain ⟨r, hr, hr1, hr2⟩ := getLMoment_tab hg hcube hk hb hT hm j hj
  obtain ⟨A, hA, hA'⟩ := hT
  have hlead := lead_of_tab hk hb hm hA'
  refine ⟨A, r, hA, hr, hr1, fun c hc π hπ => ?_⟩
  have hv := fun i hi => (hlead.2 i hi c hc).symm.trans (hπ i hi)
  have h0 : m c ≠ 0 := fun e => by
    have := hv 0 (axis_size_pos hg k)
    beta_reduce at this
    rw [if_pos e] at this
    cases this
  rw [hr2 c hc]
  beta_reduce
  rw [if_neg h0]
  refine congrArg Num.fin (lmoment_same (fun i hi => ?_) j)
  have := hv i hi
  beta_reduce at this
  rw [if_neg h0] at this
  exact Num.fin.inj this

/-- Tables of age or metallicity of an object that answers like a population. -/
def ShareTab (o : Obj) (q : Pop) (g : Grid) (L : ℕ → ℕ → ℝ) (lw : Bool) (k : Char) (b : PyStr) (good : Cell → Prop) : Prop :=
  ∃ P m, HasTab o.getP g lw P m [k] b ∧ Respects b m ∧ ∀ c, g.Has c → good c → m c ≠ 0 ∧
    ∀ i, binP g P m k b c i = q.binShare g L lw b k c i

theorem binIdx_noV {k : Char} (hk : k ≠ 'v') (d : Cell) (v : ℕ) : binIdx k { d with v := v } = binIdx k d := by
  simp [binIdx, hk]

theorem binShare_eq (hg : g.Proper) (hok : q.Ok g) {k : Char} (hk : k ≠ 'v') (c : Cell) (i : ℕ) :
    q.binShare g L lw b k c i = g.marg (fun d => (if binIdx k d = i then 1 else 0) * (Pop.wt L lw d * q.cells g b d)) b c /
      q.amount g L lw b c :=
  expectOf_eq hg hok (fun d v => by rw [binIdx_noV hk]) c

/-- Sums over the bins are expectations. -/
theorem sum_binShare (hg : g.Proper) (hok : q.Ok g) {k : Char} (hk : k ≠ 'v') (c : Cell) (φ : ℕ → ℝ) :
    ∑ i ∈ Finset.range (g.bins k), φ i * q.binShare g L lw b k c i = q.expectOf g L lw b (fun d => φ (binIdx k d)) c := by
  rw [expectOf_eq hg hok (fun d v => by rw [binIdx_noV hk])]
  simp only [binShare_eq hg hok hk, ← mul_div_assoc, ← marg_smul]
  simp only [div_eq_mul_inv]
  rw [← Finset.sum_mul, marg_sum]
  congr 1
  refine marg_congr fun d hd _ => ?_
  rw [Finset.sum_eq_single (binIdx k d)]
  · simp
  · intro i _ hi; simp [Ne.symm hi]
  · intro h; exact absurd (Finset.mem_range.2 (binIdx_lt hd)) h

theorem binShare_nonneg (hg : g.Proper) (hok : q.Ok g) (hL : ∀ t z, 0 ≤ L t z) {k : Char} (hk : k ≠ 'v') (c : Cell) (i : ℕ) :
    0 ≤ q.binShare g L lw b k c i := by
  rw [binShare_eq hg hok hk]
  refine div_nonneg (marg_nonneg (fun d hd => mul_nonneg ?_ (mul_nonneg (wt_nonneg hL d) (hok.cells_nonneg b hd))) b c)
    (hok.amount_nonneg hg hL b c)
  split <;> norm_num

theorem cdf_binShare (hg : g.Proper) (hok : q.Ok g) {k : Char} (hk : k ≠ 'v') {c : Cell} (h0 : q.amount g L lw b c ≠ 0) :
    cdf (q.binShare g L lw b k c) (g.bins k) = 1 := by
  have := sum_binShare (L := L) (lw := lw) (b := b) hg hok hk c (fun _ => 1)
  simp only [one_mul] at this
  unfold cdf
  rw [this, expectOf_eq hg hok (fun _ _ => rfl)]
  simp only [one_mul]
  rw [← Pop.amount_eq hg hok, div_self h0]

theorem lmean_binShare (hg : g.Proper) (hok : q.Ok g) {k : Char} (hk : k ∈ ['t','z']) (c : Cell) :
    lmoment (g.bins k) (g.edge k) (q.binShare g L lw b k c) 1 = q.mean g L lw b k c := by
  have hkv : k ≠ 'v' := by rintro rfl; exact absurd hk (by decide)
  rw [lmoment_one, sum_binShare hg hok hkv]
  unfold Pop.mean
  rw [Pop.expect_num, Pop.num_eq hg hok hkv, expectOf_eq hg hok (fun d v => by rw [binIdx_noV hkv])]
  have : (fun d => centre (g.edge k) (binIdx k d)) = g.value k := by
    funext d; fin_cases hk <;> rfl
  simp only [funext_iff] at this
  simp only [this]

theorem edge_lt (hg : g.Proper) {k : Char} (hk : k ∈ ['t','z']) : ∀ i < g.bins k, g.edge k i < g.edge k (i + 1) := by
  fin_cases hk
  · exact hg.t
  · exact hg.z

/-- L-moments of age and metallicity. -/
theorem ShareTab.lmoments {o : Obj} {good : Cell → Prop} {k : Char} (h : ShareTab o q g L lw k b good) (hg : g.Proper)
    (hcube : CubeIs o.cube g) (hok : q.Ok g) (hL : ∀ t z, 0 ≤ L t z) (hgood : ∀ c, g.Has c → good c → q.amount g L lw b c ≠ 0)
    (hk : k ∈ ['t','z']) (hb : ValidPair [k] b) (j : ℕ) (hj : 1 ≤ j) :
    ∃ r, o.getLMoment (distStr [k] b) j lw = .ok r ∧ r.shape = g.shapeOf b ∧ ∀ c, g.Has c → good c →
      r.get (coords b c) = .fin (lmoment (g.bins k) (g.edge k) (q.binShare g L lw b k c) j) ∧
      cdf (q.binShare g L lw b k c) (g.bins k) = 1 ∧ (∀ i, 0 ≤ q.binShare g L lw b k c i) ∧
      lmoment (g.bins k) (g.edge k) (q.binShare g L lw b k c) 1 = q.mean g L lw b k c ∧
      0 ≤ lmoment (g.bins k) (g.edge k) (q.binShare g L lw b k c) 2 := by
  have hkv : k ≠ 'v' := by rintro rfl; exact absurd hk (by decide)
  obtain ⟨P, m, hT, hm, hv⟩ := h
  obtain ⟨r, hr, hr1, hr2⟩ := getLMoment_tab hg hcube (by fin_cases hk <;> decide) hb hT hm j hj
  refine ⟨r, hr, hr1, fun c hc hc' => ?_⟩
  have h0 := hgood c hc hc'
  have hn := binShare_nonneg (lw := lw) (b := b) hg hok hL hkv c
  refine ⟨?_, cdf_binShare hg hok hkv h0, hn, lmean_binShare hg hok hk c,
    lmoment_two_nonneg (edge_lt hg hk) hn (cdf_binShare hg hok hkv h0)⟩
  rw [hr2 c hc]
  beta_reduce
  rw [if_neg (hv c hc hc').1, lmoment_same fun i _ => (hv c hc hc').2 i]

/-! ### Parametric components -/

variable {p : Param} {m : Ingredients}

theorem ParamIs.shareTab (h : ParamIs p g m L) (hl : lw = true → (m.pop g).Shines g L) {k : Char} (hk : k ∈ ['t','z'])
    (hb : ValidPair [k] b) : ShareTab (obj p.self) (m.pop g) g L lw k b (fun c => (m.pop g).amount g L lw b c ≠ 0) := by
  have hkv : k ≠ 'v' := by rintro rfl; exact absurd hk (by decide)
  obtain ⟨P, m', hT, hm, hv⟩ := h.tab_noV (h.tot_of_light hl) hb rfl (by simpa using hkv)
  refine ⟨P, m', hT, hm, fun c hc h0 => ⟨(hv c hc h0).1, fun i => ?_⟩⟩
  rw [binShare_eq h.proper h.pop_ok hkv, ← h.norm_amount, ← (hv c hc h0).2]
  unfold binP
  congr 2; funext d
  split <;> simp

/-- The table of the velocities with which a parametric component answers. -/
theorem ParamIs.tab_v (h : ParamIs p g m L) (hlw : lw = true → 0 < totalLight g L (m.spread g)) (hab : ValidPair ['v'] b) :
    ∃ P m' : Cell → ℝ, HasTab (Component.getP p.self) g lw P m' ['v'] b ∧ Respects b m' := by
  rcases hab with ⟨rfl, ham⟩ | hab
  · obtain ⟨A, hA, hA'⟩ := getP_marg_of_contract (h.contract lw hlw) false ['v'] ham
    have hA'' := (isArr_iff (marginals_chars _ ham)).1 hA'
    refine ⟨wtdP g L (m.joint g) lw, fun _ => 1, ⟨A, by simpa [distStr] using hA, ?_⟩, fun _ _ _ => rfl⟩
    rw [show PyStr.replaceX ['v'] ++ PyStr.replaceX [] = PyStr.replaceX ['v'] by simp [PyStr.replaceX]]
    refine ⟨hA''.1, fun c hc => (hA''.2 c hc).trans ?_⟩
    simp [tab, condTable, dvol, paramMarg, pick, show unionStr ['v'] [] = ['v'] by decide +kernel]
  · have hbm : b ≠ [] := (by decide +kernel : ∀ q ∈ conditionals, q.2 ≠ []) _ hab
    obtain ⟨-, -, -, h4, h5, -⟩ := conditionals_letters _ hab
    have lift : ∀ {F : Cell → Num} {P m' : Cell → ℝ}, Gives (Component.getP p.self (condStr ['v'] b) false lw) g (condStr ['v'] b) F →
        (∀ c, g.Has c → F c = tab g P m' ['v'] b c) → HasTab (Component.getP p.self) g lw P m' ['v'] b := by
      rintro F P m' ⟨A, hA, hA'⟩ hF
      have hA'' := (isArr_cond_iff h4 h5).1 hA'
      refine ⟨A, by simpa [distStr, hbm] using hA, hA''.1, fun c hc => (hA''.2 c hc).trans (hF c hc)⟩
    by_cases ho : (['v'], b) ∈ ownConditionals
    · obtain rfl : b = ['t','x'] := by
        simp only [ownConditionals, List.mem_cons, Prod.mk.injEq, List.not_mem_nil, or_false] at ho
        rcases ho with ⟨e, -⟩ | ⟨-, e⟩ | ⟨e, -⟩
        · exact absurd e (by decide)
        · exact e
        · exact absurd e (by decide)
      have e : unionStr ['v'] ['t','x'] = ['t','v','x'] := by decide +kernel
      cases lw with
      | true =>
        refine ⟨_, _, lift (h.getP_vtx_light false (hlw rfl)) (P := wtdP g L (m.joint g) true)
          (m' := g.marg (wtdP g L (m.joint g) true) ['t','x']) fun c hc => ?_, fun c d e => ?_⟩
        · simp [tab, dvol, e]
        · unfold Grid.marg; rw [e]
      | false =>
        refine ⟨fun d => m.probV g d / g.nz, fun _ => 1, lift (h.getP_vtx false) fun c hc => ?_, fun _ _ _ => rfl⟩
        have hz : (g.nz : ℝ) ≠ 0 := by have := h.proper.nz; positivity
        have : g.marg (fun d => m.probV g d / g.nz) ['t','v','x'] c = m.probV g c := by
          rw [marg_eq_sumOver g _ _ (by decide) c hc]
          show ∑ _j : Fin g.nz, m.probV g c / g.nz = _
          simp
          field_simp
        simp [tab, condTable, dvol, e, this]
    · refine ⟨_, _, lift (getP_cond_of_contract (h.contract lw hlw) false (['v'], b) hab (Param.logP_none p _ hab ho))
        (P := wtdP g L (m.joint g) lw) (m' := g.marg (wtdP g L (pick (m.joint g) (m.spread g) b) lw) b) fun c hc => ?_, fun c d e => ?_⟩
      · have := (pair_V _ hab (by simp)).1
        simp [tab, dvol, paramMarg, pick, this]
      · unfold Grid.marg; rw [e]

theorem ParamIs.lmoments_of (h : ParamIs p g m L) (hl : lw = true → (m.pop g).Shines g L) {k : Char} (hk : k ∈ ['t','v','z'])
    (hb : ValidPair [k] b) (j : ℕ) (hj : 1 ≤ j) :
    ∃ A r, Component.getP p.self (distStr [k] b) false lw = .ok A ∧ (obj p.self).getLMoment (distStr [k] b) j lw = .ok r ∧
      r.shape = g.shapeOf b ∧ ∀ c, g.Has c → ∀ π : ℕ → ℝ, (∀ i < g.bins k, A.get (i :: coords b c) = .fin (π i)) →
        r.get (coords b c) = .fin (lmoment (g.bins k) (g.edge k) π j) := by
  have hlw := h.tot_of_light hl
  by_cases e : k = 'v'
  · subst e
    obtain ⟨P, m', hT, hm⟩ := h.tab_v hlw hb
    exact lmoments_of_tab (o := obj p.self) h.proper h.cubeIs hk hb hT hm j hj
  · obtain ⟨P, m', hT, hm, -⟩ := h.tab_noV hlw hb rfl (by simpa using e)
    exact lmoments_of_tab (o := obj p.self) h.proper h.cubeIs hk hb hT hm j hj

/-! ### Mixtures -/

variable {mx : Mix} {n : ℕ} {ω : ℕ → ℝ} {pop : ℕ → Pop}

theorem MixOf.shareTab (h : MixOf mx g n ω pop L) (hl : lw = true → ∀ i < n, (pop i).Shines g L) {k : Char} (hk : k ∈ ['t','z'])
    (hb : ValidPair [k] b) : ShareTab (Mix.obj mx) (mixPop n ω pop) g L lw k b (mixGood g L lw n ω pop b) := by
  have hkv : k ≠ 'v' := by rintro rfl; exact absurd hk (by decide)
  have hs : lw = true → (mixPop n ω pop).Shines g L := fun e => mix_shines h (hl e)
  refine ⟨_, _, h.tab_is hs hb, respects_condWt _ b, fun c hc hgood => ?_⟩
  have hA := (h.mixAmount_pos hgood.1).ne'
  have hT := h.mixOk.light_b (lw := lw) h.proper h.lightNonneg hs
  have hM : (mixPop n ω pop).marginal g L lw b c ≠ 0 := div_ne_zero hA (hT b)
  have hcw := condWt_marginal (b := b) h.proper h.mixOk h.lightNonneg hs hgood.2
  refine ⟨by rw [hcw]; exact hM, fun i => ?_⟩
  have hu : 'v' ∈ unionStr [k] b ↔ 'v' ∈ b := by
    rcases hb with ⟨rfl, hm⟩ | hm
    · have : unionStr [k] [] = [k] := (by decide +kernel : ∀ a ∈ marginals, unionStr a [] = a) _ hm
      rw [this]; simp [Ne.symm hkv]
    · exact v_union ([k], b) hm (by simpa using hkv) rfl
  have hcells : (mixPop n ω pop).cells g (unionStr [k] b) = (mixPop n ω pop).cells g b := by simp [Pop.cells, pick, hu]
  have hlt : (if lw then (mixPop n ω pop).lightOf g L (unionStr [k] b) else 1) = (if lw then (mixPop n ω pop).lightOf g L b else 1) := by
    simp [Pop.lightOf, hu]
  have hw := wtd_marg (L := L) (lw := lw) h.proper h.mixOk (unionStr [k] b) (fun d => if binIdx k d = i then 1 else 0) c b
  simp only [ite_mul, one_mul, zero_mul] at hw
  unfold binP
  rw [hcw, hw, binShare_eq h.proper h.mixOk hkv, hcells, hlt]
  unfold Pop.marginal
  rw [div_div_div_cancel_right₀ (hT b)]
  simp only [ite_mul, one_mul, zero_mul]

theorem MixOf.lmoments_of (h : MixOf mx g n ω pop L) (hl : lw = true → ∀ i < n, (pop i).Shines g L) {k : Char} (hk : k ∈ ['t','v','z'])
    (hb : ValidPair [k] b) (j : ℕ) (hj : 1 ≤ j) :
    ∃ A r, (Mix.obj mx).getP (distStr [k] b) false lw = .ok A ∧ (Mix.obj mx).getLMoment (distStr [k] b) j lw = .ok r ∧
      r.shape = g.shapeOf b ∧ ∀ c, g.Has c → ∀ π : ℕ → ℝ, (∀ i < g.bins k, A.get (i :: coords b c) = .fin (π i)) →
        r.get (coords b c) = .fin (lmoment (g.bins k) (g.edge k) π j) :=
  lmoments_of_tab (o := Mix.obj mx) h.proper h.cubeIs hk hb (h.tab_is (fun e => mix_shines h (hl e)) hb) (respects_condWt _ b) j hj

end PKM
