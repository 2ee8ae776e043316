import Verif.Props.TotalVar
import Verif.Props.Older

/-!
# C91: weighting by light favours the brighter stars

If, among the stars that are asked about, older stars are fainter, then `light_weighted=True` makes them look younger: more
light than mass lies below every age, and the mean age is smaller; the same for metallicity, and the other way round if light
grows with age or metallicity. If all are equally bright, both weightings agree.
-/

open scoped Classical

noncomputable section

namespace PKM
open Np Component

/-- Among the stars with the values of `b` at `c`, those with larger `k` are not brighter. -/
def FadesAt (g : Grid) (L : ℕ → ℕ → ℝ) (k : Char) (b : PyStr) (c : Cell) : Prop :=
  ∀ d e, g.Has d → g.Has e → coords b d = coords b c → coords b e = coords b c → g.value k d ≤ g.value k e → L e.t e.z ≤ L d.t d.z

/-- Among the stars with the values of `b` at `c`, those with larger `k` are not fainter. -/
def BrightensAt (g : Grid) (L : ℕ → ℕ → ℝ) (k : Char) (b : PyStr) (c : Cell) : Prop :=
  ∀ d e, g.Has d → g.Has e → coords b d = coords b c → coords b e = coords b c → g.value k d ≤ g.value k e → L d.t d.z ≤ L e.t e.z

/-- Two populated bins `d`, `e` of `k`, among the stars with the values of `b` at `c`; `π` is the distribution of `k`. -/
def TwoBins (g : Grid) (k : Char) (b : PyStr) (c : Cell) (π : ℕ → ℝ) (d e : Cell) : Prop :=
  g.Has d ∧ g.Has e ∧ coords b d = coords b c ∧ coords b e = coords b c ∧ g.value k d < g.value k e ∧
    0 < π (binIdx k d) ∧ 0 < π (binIdx k e)

/-- What the object answers about `k` given `b`, by mass (`P`, `M`) and by light (`Q`, `N`), where `good`. -/
def LightVersusMass (o : Obj) (g : Grid) (L : ℕ → ℕ → ℝ) (k : Char) (b : PyStr) (good : Cell → Prop) : Prop :=
  ∃ P Q M N, o.getP (distStr [k] b) false false = .ok P ∧ o.getP (distStr [k] b) false true = .ok Q ∧
    o.getMean (distStr [k] b) false = .ok M ∧ o.getMean (distStr [k] b) true = .ok N ∧
    ∀ c, g.Has c → good c → ∃ π κ : ℕ → ℝ, ∃ μ ν : ℝ,
      (∀ i < g.bins k, P.get (i :: coords b c) = .fin (π i)) ∧ (∀ i < g.bins k, Q.get (i :: coords b c) = .fin (κ i)) ∧
      M.get (coords b c) = .fin μ ∧ N.get (coords b c) = .fin ν ∧
      (FadesAt g L k b c → Older (g.bins k) π κ ∧ ν ≤ μ ∧ ∀ d e, TwoBins g k b c π d e → L e.t e.z < L d.t d.z → ν < μ) ∧
      (BrightensAt g L k b c → Older (g.bins k) κ π ∧ μ ≤ ν ∧ ∀ d e, TwoBins g k b c π d e → L d.t d.z < L e.t e.z → μ < ν)

variable {g : Grid} {L : ℕ → ℕ → ℝ} {lw : Bool} {b : PyStr} {k : Char} {c : Cell}

/-! ### Shares of bins -/

/-- Share of the bin `i` of `k`. -/
def binOf (g : Grid) (W : Cell → ℝ) (k : Char) (b : PyStr) (c : Cell) (i : ℕ) : ℝ :=
  g.marg (fun d => if binIdx k d = i then W d else 0) b c / g.marg W b c

theorem sum_binOf (W : Cell → ℝ) (φ : ℕ → ℝ) :
    ∑ i : Fin (g.bins k), φ i * binOf g W k b c i = g.marg (fun d => φ (binIdx k d) * W d) b c / g.marg W b c := by
  unfold binOf
  simp only [← mul_div_assoc, ← marg_smul]
  simp only [div_eq_mul_inv]
  rw [← Finset.sum_mul]
  congr 1
  rw [Finset.sum_fin_eq_sum_range]
  rw [Finset.sum_congr rfl (g := fun i => g.marg (fun d => φ i * (if binIdx k d = i then W d else 0)) b c)
    (fun i hi => by rw [dif_pos (Finset.mem_range.1 hi)]), marg_sum]
  refine marg_congr fun d hd _ => ?_
  rw [Finset.sum_eq_single (binIdx k d)]
  · simp
  · intro i _ hi; simp [Ne.symm hi]
  · intro h; exact absurd (Finset.mem_range.2 (binIdx_lt hd)) h

theorem value_bin (hk : k ∈ ['t','z']) (d : Cell) : centre (g.edge k) (binIdx k d) = g.value k d := by
  fin_cases hk <;> rfl

theorem centre_bin_lt (hg : g.Proper) (hk : k ∈ ['t','z']) {i j : ℕ} (h : i < j) (hj : j < g.bins k) :
    centre (g.edge k) i < centre (g.edge k) j := by
  have he := edge_lt hg hk
  have h1 := he j hj
  have h2 := he i (by omega)
  have h3 := mono_edges he (i := i + 1) (j := j) h hj.le
  unfold centre; linarith

theorem binOf_facts (hg : g.Proper) (hk : k ∈ ['t','z']) {C : Cell → ℝ} (hC : ∀ d, g.Has d → 0 ≤ C d) (hL : ∀ t z, 0 ≤ L t z)
    (hb : ValidPair [k] b) (hc : g.Has c) (hA : g.marg C b c ≠ 0) (hB : g.marg (fun d => L d.t d.z * C d) b c ≠ 0)
    {π κ : ℕ → ℝ} (hπ : π = binOf g C k b c) (hκ : κ = binOf g (fun d => L d.t d.z * C d) k b c) :
    (FadesAt g L k b c → Tilted (g.bins k) π κ ∧ ∀ d e, TwoBins g k b c π d e → L e.t e.z < L d.t d.z →
      π (binIdx k d) * κ (binIdx k e) < π (binIdx k e) * κ (binIdx k d)) ∧
    (BrightensAt g L k b c → Tilted (g.bins k) κ π ∧ ∀ d e, TwoBins g k b c π d e → L d.t d.z < L e.t e.z →
      κ (binIdx k d) * π (binIdx k e) < κ (binIdx k e) * π (binIdx k d)) := by
  have hA0 : 0 < g.marg C b c := lt_of_le_of_ne (marg_nonneg hC b c) (Ne.symm hA)
  have hB0 : 0 < g.marg (fun d => L d.t d.z * C d) b c :=
    lt_of_le_of_ne (marg_nonneg (fun d hd => mul_nonneg (hL _ _) (hC d hd)) b c) (Ne.symm hB)
  have hax : AxisChar k := by unfold AxisChar; fin_cases hk <;> decide
  have hr : PyStr.replaceX [k] = [k] := by fin_cases hk <;> rfl
  have hcell : ∀ i < g.bins k, g.Has (setL c k i) ∧ coords b (setL c k i) = coords b c ∧ binIdx k (setL c k i) = i := fun i hi =>
    ⟨has_setL hc hax hi, coords_dep hb hc (by simp [hr]) i, by fin_cases hk <;> rfl⟩
  have hπ0 : ∀ i, 0 ≤ π i := fun i => by
    rw [hπ]
    exact div_nonneg (marg_nonneg (fun d hd => by split_ifs; exacts [hC d hd, le_rfl]) b c) hA0.le
  have hval : ∀ {d e : Cell}, g.Has d → g.Has e → binIdx k d ≤ binIdx k e → g.value k d ≤ g.value k e := fun {d e} hd he h => by
    rw [← value_bin hk, ← value_bin hk]
    rcases h.lt_or_eq with h | h
    · exact (centre_bin_lt hg hk h (binIdx_lt he)).le
    · rw [h]
  have hidx : ∀ {d e : Cell}, g.Has d → g.Has e → g.value k d < g.value k e → binIdx k d < binIdx k e := fun {d e} hd he h => by
    by_contra h'
    exact absurd (hval he hd (not_lt.1 h')) (not_le.2 h)
  set ℓ : ℕ → ℝ := fun i => L (setL c k i).t (setL c k i).z with hℓ
  -- light of the bins
  have hs : ∀ s : ℝ, s = g.marg C b c / g.marg (fun d => L d.t d.z * C d) b c →
      (∀ d, g.Has d → coords b d = coords b c → L d.t d.z = ℓ (binIdx k d)) → ∀ i, i < g.bins k → κ i = s * (ℓ i * π i) := by
    intro s hs h i hi
    rw [hκ, hπ, hs]
    unfold binOf
    have e : g.marg (fun d => if binIdx k d = i then L d.t d.z * C d else 0) b c =
        ℓ i * g.marg (fun d => if binIdx k d = i then C d else 0) b c := by
      rw [← marg_smul]
      refine marg_congr fun d hd hd' => ?_
      split_ifs with e
      · rw [h d hd hd', e]
      · simp
    rw [e]
    field_simp
  have hs0 : 0 < g.marg C b c / g.marg (fun d => L d.t d.z * C d) b c := div_pos hA0 hB0
  set s := g.marg C b c / g.marg (fun d => L d.t d.z * C d) b c with hsd
  clear_value s
  constructor
  · intro hF
    have hconst : ∀ d, g.Has d → coords b d = coords b c → L d.t d.z = ℓ (binIdx k d) := fun d hd hd' => by
      obtain ⟨a1, a2, a3⟩ := hcell _ (binIdx_lt hd)
      exact le_antisymm (hF _ _ a1 hd a2 hd' (hval a1 hd a3.le)) (hF _ _ hd a1 hd' a2 (hval hd a1 a3.ge))
    have hκ' := hs s rfl hconst
    refine ⟨fun i j hij hj => ?_, fun d e ⟨d1, e1, d2, e2, d3, d4, d5⟩ hlt => ?_⟩
    · obtain ⟨a1, a2, a3⟩ := hcell i (hij.trans hj)
      obtain ⟨b1, b2, b3⟩ := hcell j hj
      have hle : ℓ j ≤ ℓ i := hF _ _ a1 b1 a2 b2 (hval a1 b1 (by rw [a3, b3]; exact hij.le))
      rw [hκ' i (hij.trans hj), hκ' j hj]
      have := mul_le_mul_of_nonneg_left hle (mul_nonneg hs0.le (mul_nonneg (hπ0 i) (hπ0 j)))
      linarith
    · rw [hκ' _ (binIdx_lt d1), hκ' _ (binIdx_lt e1), ← hconst d d1 d2, ← hconst e e1 e2]
      have := mul_lt_mul_of_pos_left hlt (mul_pos hs0 (mul_pos d4 d5))
      linarith
  · intro hF
    have hconst : ∀ d, g.Has d → coords b d = coords b c → L d.t d.z = ℓ (binIdx k d) := fun d hd hd' => by
      obtain ⟨a1, a2, a3⟩ := hcell _ (binIdx_lt hd)
      exact le_antisymm (hF _ _ hd a1 hd' a2 (hval hd a1 a3.ge)) (hF _ _ a1 hd a2 hd' (hval a1 hd a3.le))
    have hκ' := hs s rfl hconst
    refine ⟨fun i j hij hj => ?_, fun d e ⟨d1, e1, d2, e2, d3, d4, d5⟩ hlt => ?_⟩
    · obtain ⟨a1, a2, a3⟩ := hcell i (hij.trans hj)
      obtain ⟨b1, b2, b3⟩ := hcell j hj
      have hle : ℓ i ≤ ℓ j := hF _ _ a1 b1 a2 b2 (hval a1 b1 (by rw [a3, b3]; exact hij.le))
      rw [hκ' i (hij.trans hj), hκ' j hj]
      have := mul_le_mul_of_nonneg_left hle (mul_nonneg hs0.le (mul_nonneg (hπ0 i) (hπ0 j)))
      linarith
    · rw [hκ' _ (binIdx_lt d1), hκ' _ (binIdx_lt e1), ← hconst d d1 d2, ← hconst e e1 e2]
      have := mul_lt_mul_of_pos_left hlt (mul_pos hs0 (mul_pos d4 d5))
      linarith

/-- The object answers about `k` given `b` with shares of `W`. -/
def SharesOf (o : Obj) (g : Grid) (k : Char) (b : PyStr) (lw : Bool) (W : Cell → ℝ) (good : Cell → Prop) : Prop :=
  ∃ P M, o.getP (distStr [k] b) false lw = .ok P ∧ o.getMean (distStr [k] b) lw = .ok M ∧ ∀ c, g.Has c → good c →
    g.marg W b c ≠ 0 ∧ (∀ i < g.bins k, P.get (i :: coords b c) = .fin (binOf g W k b c i)) ∧
    M.get (coords b c) = .fin (g.marg (fun d => g.value k d * W d) b c / g.marg W b c)

theorem light_mass {o : Obj} {good good' : Cell → Prop} {C : Cell → ℝ} (hg : g.Proper) (hk : k ∈ ['t','z'])
    (hC : ∀ d, g.Has d → 0 ≤ C d) (hL : ∀ t z, 0 ≤ L t z) (hb : ValidPair [k] b) (h : SharesOf o g k b false C good)
    (h' : SharesOf o g k b true (fun d => L d.t d.z * C d) good') : LightVersusMass o g L k b (fun c => good c ∧ good' c) := by
  obtain ⟨P, M, p1, p2, p3⟩ := h
  obtain ⟨Q, N, q1, q2, q3⟩ := h'
  refine ⟨P, Q, M, N, p1, q1, p2, q2, fun c hc ⟨g1, g2⟩ => ?_⟩
  obtain ⟨a1, a2, a3⟩ := p3 c hc g1
  obtain ⟨b1, b2, b3⟩ := q3 c hc g2
  have f := binOf_facts hg hk hC hL hb hc a1 b1 rfl rfl
  have one : ∀ W : Cell → ℝ, g.marg W b c ≠ 0 → ∑ i : Fin (g.bins k), binOf g W k b c i = 1 := fun W hW => by
    have := sum_binOf (g := g) (k := k) (b := b) (c := c) W (fun _ => 1)
    simp only [one_mul] at this
    rw [this, div_self hW]
  have mean : ∀ W : Cell → ℝ, g.marg (fun d => g.value k d * W d) b c / g.marg W b c =
      ∑ i : Fin (g.bins k), centre (g.edge k) i * binOf g W k b c i := fun W => by
    rw [sum_binOf]
    simp only [value_bin hk]
  have hv : ∀ i j, i < j → j < g.bins k → centre (g.edge k) i ≤ centre (g.edge k) j := fun i j h hj => (centre_bin_lt hg hk h hj).le
  have hidx : ∀ {d e : Cell}, g.Has d → g.Has e → g.value k d < g.value k e → binIdx k d < binIdx k e := fun {d e} hd he h => by
    rw [← value_bin hk, ← value_bin hk] at h
    by_contra h'
    rcases (not_lt.1 h').lt_or_eq with h' | h'
    · exact absurd (centre_bin_lt hg hk h' (binIdx_lt hd)) (not_lt.2 h.le)
    · rw [h'] at h; exact lt_irrefl _ h
  refine ⟨_, _, _, _, a2, b2, a3, b3, fun hF => ?_, fun hF => ?_⟩
  · obtain ⟨t1, t2⟩ := f.1 hF
    have e := expect_cross (v := centre (g.edge k)) (one _ a1) (one _ b1) t1 hv
    rw [← mean, ← mean] at e
    refine ⟨t1.richer (one _ a1) (one _ b1), e.1, fun d e' ht hlt => e.2 ?_⟩
    refine ⟨_, _, hidx ht.1 ht.2.1 ht.2.2.2.2.1, binIdx_lt ht.2.1, ?_, t2 d e' ht hlt⟩
    rw [value_bin hk, value_bin hk]; exact ht.2.2.2.2.1
  · obtain ⟨t1, t2⟩ := f.2 hF
    have e := expect_cross (v := centre (g.edge k)) (one _ b1) (one _ a1) t1 hv
    rw [← mean, ← mean] at e
    refine ⟨t1.richer (one _ b1) (one _ a1), e.1, fun d e' ht hlt => e.2 ?_⟩
    refine ⟨_, _, hidx ht.1 ht.2.1 ht.2.2.2.2.1, binIdx_lt ht.2.1, ?_, t2 d e' ht hlt⟩
    rw [value_bin hk, value_bin hk]; exact ht.2.2.2.2.1

/-! ### Kinds of components -/

theorem PopAt.shares {o : Obj} {q : Pop} {ask : PyStr → Prop} {good : Cell → Prop} (hP : PopAt o q g L lw b ask good)
    (hS : ShareTab o q g L lw k b good) (hk : k ∈ ['t','z']) (hb : ValidPair [k] b) :
    SharesOf o g k b lw (fun d => Pop.wt L lw d * q.cells g b d) good := by
  have hkv : k ≠ 'v' := by rintro rfl; exact absurd hk (by decide)
  obtain ⟨P, m, ⟨A, hA, hA'⟩, hm, hv⟩ := hS
  obtain ⟨M, F, eM, iM, vM⟩ := hP.mean [k] hb rfl
  have hlead := lead_of_tab (by fin_cases hk <;> decide) hb hm hA'
  have hi : compIdx k = [] := by fin_cases hk <;> rfl
  have hr : k ∈ PyStr.replaceX [k] := by fin_cases hk <;> decide
  refine ⟨A, M, hA, eM, fun c hc h0 => ⟨?_, fun i hi => ?_, ?_⟩⟩
  · rw [← Pop.amount_eq hP.proper hP.ok]
    exact (hP.stars c hc h0).1
  · rw [hlead.2 i hi c hc]
    beta_reduce
    rw [if_neg (hv c hc h0).1, (hv c hc h0).2, binShare_eq hP.proper hP.ok hkv, Pop.amount_eq hP.proper hP.ok]
    unfold binOf
    simp only [ite_mul, one_mul, zero_mul]
  · have := (iM.2 k hr c hc).trans (vM k hr c hc h0)
    rw [hi, List.nil_append] at this
    rw [this]
    unfold Pop.mean
    rw [Pop.expect_num, Pop.num_eq hP.proper hP.ok hkv, Pop.amount_eq hP.proper hP.ok]

theorem pop_light_mass {o : Obj} {q : Pop} {ask ask' : PyStr → Prop} {good good' : Cell → Prop} (hP : PopAt o q g L false b ask good)
    (hP' : PopAt o q g L true b ask' good') (hS : ShareTab o q g L false k b good) (hS' : ShareTab o q g L true k b good')
    (hk : k ∈ ['t','z']) (hb : ValidPair [k] b) : LightVersusMass o g L k b (fun c => good c ∧ good' c) := by
  have h := hP.shares hS hk hb
  have h' := hP'.shares hS' hk hb
  simp only [Pop.wt, Bool.false_eq_true, if_false, if_true, one_mul] at h h'
  exact light_mass hP.proper hk (fun d hd => hP.ok.cells_nonneg b hd) hP.lightNonneg hb h h'

section plain
variable {cube : IFUCube} {stored : Arr Num} {ρ : Cell → ℝ}

theorem plain_shares (h : BaseIs cube stored g ρ L) (hlw : lw = true → 0 < totalLight g L (massP g ρ))
    (hN : g.sumCells (massP g ρ) = 1) (hk : k ∈ ['t','z']) (hb : ValidPair [k] b) :
    SharesOf (obj (baseSelf cube stored)) g k b lw (fun d => Pop.wt L lw d * massP g ρ d)
      (fun c => g.marg (fun d => Pop.wt L lw d * massP g ρ d) b c ≠ 0) := by
  have hS := h.std hlw b
  obtain ⟨A, hA, hA'⟩ := hS.tab [k] hb
  obtain ⟨M, eM, iM⟩ := hS.mean [k] hb rfl
  have hlead := lead_of_tab (by fin_cases hk <;> decide) hb (respects_condWt _ b) hA'
  have hi : compIdx k = [] := by fin_cases hk <;> rfl
  have hr : k ∈ PyStr.replaceX [k] := by fin_cases hk <;> decide
  have hT : (if lw then totalLight g L (massP g ρ) else 1) ≠ 0 := by
    split
    · next e => exact (hlw e).ne'
    · exact one_ne_zero
  have key : ∀ φ : Cell → ℝ, ∀ c, g.marg (fun d => φ d * wtdP g L (massP g ρ) lw d) b c =
      g.marg (fun d => φ d * (Pop.wt L lw d * massP g ρ d)) b c / (if lw then totalLight g L (massP g ρ) else 1) := fun φ c => by
    rw [← marg_div_const]
    congr 1; funext d
    rw [wtd_wt, mul_div_assoc, mul_div_assoc, mul_div_assoc]
  have hcw : ∀ c, g.condWt (wtdP g L (massP g ρ) lw) b c =
      g.marg (fun d => Pop.wt L lw d * massP g ρ d) b c / (if lw then totalLight g L (massP g ρ) else 1) := fun c => by
    have e := key (fun _ => 1) c
    simp only [one_mul] at e
    rw [← e]
    by_cases hb0 : b = []
    · subst hb0
      rw [marg_nil, total_one hlw (fun _ => hN)]
      simp [Grid.condWt]
    · exact condWt_pos_of_ne hb0 c
  refine ⟨A, M, hA, eM, fun c hc h0 => ⟨h0, fun i hi => ?_, ?_⟩⟩
  · rw [hlead.2 i hi c hc]
    beta_reduce
    have e := key (fun d => if binIdx k d = i then 1 else 0) c
    simp only [ite_mul, one_mul, zero_mul] at e
    rw [if_neg (by rw [hcw]; exact div_ne_zero h0 hT)]
    unfold binP binOf
    rw [hcw, e, div_div_div_cancel_right₀ hT]
  · have := iM.2 k hr c hc
    rw [hi, List.nil_append] at this
    rw [this]
    beta_reduce
    rw [expect_eq, if_neg (by rw [hcw]; exact div_ne_zero h0 hT)]
    unfold Ex
    rw [hcw, key, div_div_div_cancel_right₀ hT]

/-- Plain components: age or metallicity, of all stars or given any of the other variables, wherever there is light. -/
theorem C91_plain (h : BaseIs cube stored g ρ L) (hl : 0 < totalLight g L (massP g ρ)) (hN : g.sumCells (massP g ρ) = 1)
    (k : Char) (hk : k ∈ ['t','z']) (b : PyStr) (hb : ValidPair [k] b) :
    LightVersusMass (obj (baseSelf cube stored)) g L k b (fun c => 0 < g.marg (fun d => L d.t d.z * (ρ d * g.cellVolume d)) b c) := by
  have h1 := plain_shares (lw := false) h (by simp) hN hk hb
  have h2 := plain_shares (lw := true) h (fun _ => hl) hN hk hb
  simp only [Pop.wt, Bool.false_eq_true, if_false, if_true, one_mul] at h1 h2
  have hC : ∀ d, g.Has d → 0 ≤ massP g ρ d := fun d hd => by simpa [wtdP] using h.wtd_nonneg false hd
  have key := light_mass h.proper hk hC h.lightNonneg hb h1 h2
  obtain ⟨P, Q, M, N, a1, a2, a3, a4, a5⟩ := key
  refine ⟨P, Q, M, N, a1, a2, a3, a4, fun c hc h0 => a5 c hc ⟨fun e => ?_, ?_⟩⟩
  · have z := marg_zero_mul (φ := fun d => L d.t d.z) hC e
    exact absurd z h0.ne'
  · exact h0.ne'
end plain

section parametric
variable {p : Param} {m : Ingredients}

/-- Parametric components after any history of setters. -/
theorem C91_parametric (h : ParamIs p g m L) (hf : p.f2 = 1) (hl : (m.pop g).Shines g L) (k : Char) (hk : k ∈ ['t','z']) (b : PyStr)
    (hb : ValidPair [k] b) : LightVersusMass (obj p.self) g L k b (fun c => 0 < (m.pop g).amount g L true b c) := by
  obtain ⟨P, Q, M, N, a1, a2, a3, a4, a5⟩ := pop_light_mass (h.popAt hf (by simp) b) (h.popAt hf (fun _ => hl) b)
    (h.shareTab (by simp) hk hb) (h.shareTab (fun _ => hl) hk hb) hk hb
  refine ⟨P, Q, M, N, a1, a2, a3, a4, fun c hc h0 => a5 c hc ⟨fun e => ?_, h0.ne'⟩⟩
  beta_reduce at h0
  rw [Pop.amount_eq h.proper h.pop_ok] at e h0
  simp only [Pop.wt, Bool.false_eq_true, if_false, if_true, one_mul] at e h0
  exact absurd (marg_zero_mul (φ := fun d => L d.t d.z) (fun d hd => h.pop_ok.cells_nonneg b hd) e) h0.ne'
end parametric

section mixture
variable {m : Mix} {n : ℕ} {ω : ℕ → ℝ} {pop : ℕ → Pop}

/-- Mixtures of plain and parametric components, given any variables other than velocity, where all members have light. -/
theorem C91_mixture (h : MixOf m g n ω pop L) (hl : ∀ i < n, (pop i).Shines g L)
    (hm : ∀ (i : ℕ) (hi : i < m.children.length), IsMember1 g L m.children[i] (pop i))
    (hN : ∀ c, (mixPop n ω pop).amount g L false [] c = 1)
    (k : Char) (hk : k ∈ ['t','z']) (b : PyStr) (hb : ValidPair [k] b) (hv : 'v' ∉ b) :
    LightVersusMass (Mix.obj m) g L k b (fun c => ∀ i < n, 0 < (pop i).amount g L true b c) := by
  obtain ⟨P, Q, M, N, a1, a2, a3, a4, a5⟩ := pop_light_mass (h.popAt (lw := false) (by simp) hm b (.inl rfl))
    (h.popAt (fun _ => hl) hm b (.inr hv)) (h.shareTab (by simp) hk hb) (h.shareTab (fun _ => hl) hk hb) hk hb
  refine ⟨P, Q, M, N, a1, a2, a3, a4, fun c hc h0 => a5 c hc ⟨⟨fun i hi e => ?_, fun _ _ => hN c⟩, fun i hi => (h0 i hi).ne', fun _ e => absurd e (by simp)⟩⟩
  have h0 := h0 i hi
  rw [Pop.amount_eq h.proper (h.ok hi)] at e h0
  simp only [Pop.wt, Bool.false_eq_true, if_false, if_true, one_mul] at e h0
  exact absurd (marg_zero_mul (φ := fun d => L d.t d.z) (fun d hd => (h.ok hi).cells_nonneg b hd) e) h0.ne'
end mixture

/-! ### Consequences -/

theorem older_antisymm {n : ℕ} {π κ : ℕ → ℝ} (h : Older n π κ) (h' : Older n κ π) : ∀ i < n, π i = κ i := fun i hi => by
  have e := fun j (hj : j ≤ n) => le_antisymm (h j hj) (h' j hj)
  have a := e i hi.le
  have b := e (i + 1) hi
  rw [Finset.sum_range_succ, Finset.sum_range_succ, a] at b
  linarith

/-- Where all stars are equally bright, light-weighted answers are the mass-weighted ones. -/
theorem C91_evenly_bright {o : Obj} {good : Cell → Prop} (h : LightVersusMass o g L k b good) :
    ∃ P Q M N, o.getP (distStr [k] b) false false = .ok P ∧ o.getP (distStr [k] b) false true = .ok Q ∧
    o.getMean (distStr [k] b) false = .ok M ∧ o.getMean (distStr [k] b) true = .ok N ∧
    ∀ c, g.Has c → good c → (∀ d e, g.Has d → g.Has e → coords b d = coords b c → coords b e = coords b c → L d.t d.z = L e.t e.z) →
      (∀ i < g.bins k, Q.get (i :: coords b c) = P.get (i :: coords b c)) ∧ N.get (coords b c) = M.get (coords b c) := by
  obtain ⟨P, Q, M, N, a1, a2, a3, a4, a5⟩ := h
  refine ⟨P, Q, M, N, a1, a2, a3, a4, fun c hc h0 he => ?_⟩
  obtain ⟨π, κ, μ, ν, p1, p2, p3, p4, p5, p6⟩ := a5 c hc h0
  obtain ⟨f1, f2, -⟩ := p5 fun d e hd hE h1 h2 _ => (he d e hd hE h1 h2).ge
  obtain ⟨f3, f4, -⟩ := p6 fun d e hd hE h1 h2 _ => (he d e hd hE h1 h2).le
  exact ⟨fun i hi => by rw [p1 i hi, p2 i hi, older_antisymm f1 f3 i hi], by rw [p3, p4, le_antisymm f2 f4]⟩

/-! ### The hypotheses are met -/

/-- Light that falls with age, at every metallicity. -/
example (hg : g.Proper) (c : Cell) : FadesAt g (fun t z => (z + 1) / (t + 1)) 't' ['x','z'] c := fun d e hd he h1 h2 h => by
  have hz : d.z = e.z := by
    have := h1.trans h2.symm
    simp [coords, coord1] at this
    exact this.2.2
  have ht : d.t ≤ e.t := by
    by_contra h'
    exact absurd (centre_t_lt hg (not_le.1 h') hd.1) (not_lt.2 h)
  rw [hz]
  have : (d.t : ℝ) ≤ e.t := by exact_mod_cast ht
  exact div_le_div_of_nonneg_left (by positivity) (by positivity) (by linarith)

theorem demo_brightens (b : PyStr) (c : Cell) : BrightensAt demoGrid demoL 't' b c := fun d e hd he _ _ h => by
  have ht : d.t ≤ e.t := by
    by_contra h'
    exact absurd (centre_t_lt demoGrid_proper (not_le.1 h') hd.1) (not_lt.2 h)
  have : (d.t : ℝ) ≤ e.t := by exact_mod_cast ht
  unfold demoL
  linarith

/-- In the example cube older stars are brighter: in the pixel `(1, 0)` the table of C13 has stars of both ages, and its mean
age by light exceeds that by mass. -/
example : ∃ cube M N, ∃ μ ν : ℝ, getMean (baseSelf cube demoStored) "t_x".toList false = .ok M ∧
    getMean (baseSelf cube demoStored) "t_x".toList true = .ok N ∧ M.get [1, 0] = .fin μ ∧ N.get [1, 0] = .fin ν ∧ μ < ν := by
  obtain ⟨cube, -, -, h, h1, hl, -, -⟩ := demoBase
  have hh : ∀ t < 2, demoGrid.Has ⟨t, 0, 1, 0, 0⟩ := fun t ht => ⟨ht, by simp [demoGrid, cubeGrid], by simp [demoGrid, cubeGrid],
    by simp [demoGrid, cubeGrid], by simp [demoGrid, cubeGrid]⟩
  have hm : ∀ t < 2, 0 < massP demoGrid demoRho ⟨t, 0, 1, 0, 0⟩ := fun t ht =>
    mul_pos (div_pos (by simp [demoRho0]; positivity) demoTotal_pos) (cellVolume_pos demoGrid_proper (hh t ht))
  have hC : ∀ d, demoGrid.Has d → 0 ≤ massP demoGrid demoRho d := fun d hd => massP_nonneg demoGrid_proper demoRho_nonneg hd
  have hA : 0 < demoGrid.marg (massP demoGrid demoRho) ['x'] ⟨0, 0, 1, 0, 0⟩ :=
    sumCells_pos (c := ⟨0, 0, 1, 0, 0⟩) (fun d hd => by split_ifs; exacts [hC d hd, le_rfl]) (hh 0 (by omega))
      (by rw [if_pos rfl]; exact hm 0 (by omega))
  obtain ⟨P, Q, M, N, a1, a2, a3, a4, a5⟩ := C91_plain h hl h1 't' (by decide) ['x'] (.inr (by decide))
  obtain ⟨P', M', b1, b2, b3⟩ := plain_shares (lw := false) (k := 't') (b := ['x']) h (by simp) h1 (by decide) (.inr (by decide))
  obtain rfl : P = P' := by
    have := a1.symm.trans b1
    injection this
  obtain ⟨π, κ, μ, ν, p1, -, p3, p4, -, p6⟩ := a5 ⟨0, 0, 1, 0, 0⟩ (hh 0 (by omega))
    (sumCells_pos (c := ⟨0, 0, 1, 0, 0⟩) (fun d hd => by
      split_ifs
      · exact mul_nonneg (by unfold demoL; positivity) (hC d hd)
      · exact le_rfl) (hh 0 (by omega)) (by
        rw [if_pos rfl]
        exact mul_pos (by unfold demoL; positivity) (hm 0 (by omega))))
  have hπ : ∀ t < 2, 0 < π t := fun t ht => by
    have e := (p1 t ht).symm.trans ((b3 ⟨0, 0, 1, 0, 0⟩ (hh 0 (by omega)) (by
      simp only [Pop.wt, Bool.false_eq_true, if_false, one_mul]; exact hA.ne')).2.1 t ht)
    rw [Num.fin.inj e]
    simp only [Pop.wt, Bool.false_eq_true, if_false, one_mul]
    refine div_pos (sumCells_pos (c := ⟨t, 0, 1, 0, 0⟩) (fun d hd => ?_) (hh t ht) ?_) hA
    · beta_reduce
      split_ifs; exacts [hC d hd, le_rfl, le_rfl]
    · have e1 : coords ['x'] (⟨t, 0, 1, 0, 0⟩ : Cell) = coords ['x'] ⟨0, 0, 1, 0, 0⟩ := rfl
      have e2 : binIdx 't' (⟨t, 0, 1, 0, 0⟩ : Cell) = t := rfl
      beta_reduce
      rw [if_pos e1, if_pos e2]; exact hm t ht
  refine ⟨cube, M, N, μ, ν, a3, a4, p3, p4, (p6 (demo_brightens _ _)).2.2 ⟨0, 0, 1, 0, 0⟩ ⟨1, 0, 1, 0, 0⟩
    ⟨hh 0 (by omega), hh 1 (by omega), rfl, rfl, centre_t_lt demoGrid_proper (by decide) (by simp [demoGrid, cubeGrid]),
      hπ 0 (by omega), hπ 1 (by omega)⟩ (by norm_num [demoL])⟩

/-- The disk of C49 after all its setters: ages by metallicity bin; a mixture of two disks: ages by pixel. -/
example : (∃ p m, ParamIs p demoGrid m demoL ∧ LightVersusMass (obj p.self) demoGrid demoL 't' ['z'] (fun c => 0 < (m.pop demoGrid).amount demoGrid demoL true ['z'] c)) ∧
    ∃ m μ, LightVersusMass (Mix.obj m) demoGrid demoL 't' ['x'] (fun c => ∀ i < 2, 0 < ((flatIngr μ).pop demoGrid).amount demoGrid demoL true ['x'] c) := by
  constructor
  · obtain ⟨p, m, h, hS, -, hf, -⟩ := demoDisk_pos 1
    have hl : (m.pop demoGrid).Shines demoGrid demoL := by
      unfold Pop.Shines
      rw [Pop.lightOf_eq h.proper h.pop_ok, ingr_cells]
      exact hS.tot h.proper
    exact ⟨p, m, h, C91_parametric h hf hl 't' (by decide) _ (.inr (by decide))⟩
  · obtain ⟨m, p, -, h, -, hM, hm⟩ := flatMix_exists (fun t => if t = 0 then 99 else 101)
    refine ⟨m, _, C91_mixture hM (fun i _ => ?_) hm (fun c => by rw [mixPop_halves]; exact flat_amount c) 't' (by decide) _ (.inr (by decide))
      (by decide)⟩
    unfold Pop.Shines
    rw [Pop.lightOf_eq h.proper h.pop_ok]
    have h1 := flat_amount (μ := fun t => if t = 0 then 99 else 101) ⟨0, 0, 0, 0, 0⟩
    rw [Pop.amount_eq h.proper h.pop_ok, marg_nil, cells_noV (by simp)] at h1
    rw [cells_noV (by decide)]
    have hn := fun d hd => MixOf.flat_nonneg h.pop_ok (c := d) hd
    have : (1 : ℝ) ≤ demoGrid.sumCells (fun d => demoL d.t d.z * ((flatIngr fun t => if t = 0 then 99 else 101).pop demoGrid).flat demoGrid d) := by
      rw [← h1]
      unfold Grid.sumCells
      refine Finset.sum_le_sum fun t _ => Finset.sum_le_sum fun v _ => Finset.sum_le_sum fun x _ => Finset.sum_le_sum fun y _ =>
        Finset.sum_le_sum fun z _ => ?_
      refine mul_le_mul_of_nonneg_right ?_ (hn _ ⟨t.2, v.2, x.2, y.2, z.2⟩)
      simp [Pop.wt, demoL]
    exact lt_of_lt_of_le one_pos this

end PKM
