import Verif.PopLemmas
import Verif.VelPoint

/-! Lemmas: means and moments of the members of a mixture. -/

open scoped Classical
open MeasureTheory

noncomputable section

namespace PKM
open Np Component

variable {g : Grid} {L : ℕ → ℕ → ℝ} {lw : Bool} {a b : PyStr} {ok : Prop}

/-- The numerator of `Pop.expect`. -/
def Pop.num (q : Pop) (g : Grid) (L : ℕ → ℕ → ℝ) (lw : Bool) (b : PyStr) (k : Char) (φ : ℝ → ℝ) (c : Cell) : ℝ :=
  if k = 'v' then Ingredients.sumTXZ g (fun d => if coords b d = coords b c then Pop.wt L lw d * q.vel φ d else 0)
  else if 'v' ∈ b then g.sumCells (fun d => if coords b d = coords b c then Pop.wt L lw d * (φ (g.value k d) * q.joint d) else 0)
  else Ingredients.sumTXZ g (fun d => if coords b d = coords b c then Pop.wt L lw d * (φ (g.value k d) * q.stars d) else 0)

theorem Pop.expect_num (q : Pop) (b : PyStr) (k : Char) (φ : ℝ → ℝ) (c : Cell) :
    q.expect g L lw b k φ c = q.num g L lw b k φ c / q.amount g L lw b c := rfl

/-- What the code divides by: nothing for mass-weighted averages over all stars. -/
def Pop.norm (q : Pop) (g : Grid) (L : ℕ → ℕ → ℝ) (lw : Bool) (b : PyStr) (c : Cell) : ℝ :=
  if b = [] ∧ lw = false then 1 else q.amount g L lw b c

theorem value_noV {k : Char} (hk : k ≠ 'v') (c : Cell) (v : ℕ) : g.value k { c with v := v } = g.value k c := by
  unfold Grid.value; simp [hk]

theorem Pop.num_eq (hg : g.Proper) {q : Pop} (h : q.Ok g) {k : Char} (hk : k ≠ 'v') (b : PyStr) (φ : ℝ → ℝ) (c : Cell) :
    q.num g L lw b k φ c = g.marg (fun d => φ (g.value k d) * (Pop.wt L lw d * q.cells g b d)) b c := by
  unfold Pop.num Pop.cells pick
  rw [if_neg hk]
  split
  · unfold Grid.marg
    congr 1; funext d
    split <;> ring
  · next hv =>
    rw [← sumCells_noV hg]
    · unfold Grid.marg
      congr 1; funext d
      split
      · unfold Pop.flat; ring
      · simp
    · intro d v
      rw [coords_noV hv, wt_noV, value_noV hk]
      unfold Pop.stars
      rw [h.noV]

theorem tablePop_num (hg : g.Proper) {ρ : Cell → ℝ} (hρ : ∀ c, 0 ≤ ρ c) {k : Char} (hkb : k = 'v' → 'v' ∉ b) (φ : ℝ → ℝ) (c : Cell) :
    (tablePop g ρ).num g L lw b k φ c = g.marg (fun d => φ (g.value k d) * (Pop.wt L lw d * massP g ρ d)) b c := by
  by_cases hk : k = 'v'
  · subst hk
    unfold Pop.num Grid.marg
    rw [if_pos rfl, sumCells_sumV]
    congr 1; funext d
    simp only [coords_noV (hkb rfl)]
    split
    · simp only [tablePop, Finset.mul_sum]
      refine Finset.sum_congr rfl fun v _ => ?_
      show _ = φ (centre g.v v) * (Pop.wt L lw d * (ρ _ * g.cellVolume _))
      ring
    · simp
  · rw [Pop.num_eq hg (tablePop_ok hg hρ) hk]
    have := tablePop_marg hg ρ (fun d => φ (g.value k d) * Pop.wt L lw d) (fun d v => by
      beta_reduce; rw [value_noV hk]; rfl) b c
    simp only [mul_assoc] at this
    exact this

/-- What a member answers about one variable `a` given `b`. -/
structure MemberSays (ch : Child) (q : Pop) (g : Grid) (L : ℕ → ℕ → ℝ) (lw : Bool) (a b : PyStr) (cen : Cell → Cell) (ok : Prop) : Prop where
  mean : ∃ r F, ch.getMean (distStr a b) lw = .ok r ∧ IsMom g a b r F ∧ ∀ k ∈ PyStr.replaceX a, ∀ c, g.Has c →
    q.amount g L lw b c ≠ 0 → F k c = .fin (q.num g L lw b k (fun x => x) c / q.norm g L lw b c)
  ncm : ok → ∀ j M Fm, IsMom g a b M Fm → ∃ r F, ch.getNcm (distStr a b) j M lw = .ok r ∧ IsMom g a b r F ∧
    ∀ k ∈ PyStr.replaceX a, ∀ c μ, g.Has c → q.amount g L lw b c ≠ 0 → Fm k (cen c) = .fin μ →
      F k c = .fin (q.num g L lw b k (fun x => (x - μ) ^ j) c / q.norm g L lw b c)

/-- Members that use the default code. -/
theorem answers_of_tab {s : Self} {q : Pop} {P m : Cell → ℝ} (ybar : Option (Arr Num)) (hg : g.Proper) (hcube : CubeIs s.cube g)
    (hab : ValidPair a b) (h1 : a.length = 1) (hmean : s.meanHC (distStr a b) = none) (hncm : s.ncmHC (distStr a b) = none)
    (hT : HasTab (Component.getP s) g lw P m a b) (hm : Respects b m)
    (hval : ∀ k ∈ PyStr.replaceX a, ∀ φ c, g.Has c → q.amount g L lw b c ≠ 0 → m c ≠ 0 ∧
      g.marg (fun d => φ (g.value k d) * P d) b c / m c = q.num g L lw b k φ c / q.norm g L lw b c) :
    MemberSays (Component.child s ybar) q g L lw a b (fun c => c) ok := by
  refine ⟨?_, fun hf j M Fm hM => ?_⟩
  · obtain ⟨r, h2, h3⟩ := getMean_table hg hcube hab h1 hmean hT hm
    refine ⟨r, _, h2, h3, fun k hk c hc h0 => ?_⟩
    obtain ⟨e1, e2⟩ := hval k hk (fun x => x) c hc h0
    rw [expectM, if_neg e1, ← e2]
  · obtain ⟨r, F, h2, h3, h4⟩ := getNoncentral_pointwise hg hcube hab h1 hncm hT hm hM
      (μ := fun k c => (M.get (compIdx k ++ coords b c)).toReal) (fun k d d' e => by beta_reduce; rw [e]) j
    refine ⟨r, F, h2, h3, fun k hk c μ hc h0 hμ => ?_⟩
    have e : (M.get (compIdx k ++ coords b c)).toReal = μ := by rw [hM.2 k hk c hc, hμ]; rfl
    rw [h4 k hk c hc (fun _ => by beta_reduce; rw [e, hμ])]
    obtain ⟨e1, e2⟩ := hval k hk (fun x => (x - μ) ^ j) c hc h0
    rw [expectM, if_neg e1, ← e2]
    congr 2
    unfold Grid.marg
    congr 1; funext d
    split
    · next hd => beta_reduce; rw [hd, e]
    · rfl

theorem amount_nil_light (hg : g.Proper) {q : Pop} (h : q.Ok g) (c : Cell) : q.amount g L true [] c = q.lightOf g L [] := by
  rw [Pop.amount_eq hg h, Pop.lightOf_eq hg h, marg_nil]
  rfl

/-- Division by the conditioning weight of the table is division by `norm`. -/
theorem ratio_norm {P : Cell → ℝ} {q : Pop} {T N : ℝ} {c : Cell} (hT : T ≠ 0) (hTl : lw = false → T = 1)
    (hP : g.marg P b c = q.amount g L lw b c / T) (hb : b = [] → lw = true → q.amount g L lw b c = T)
    (h0 : q.amount g L lw b c ≠ 0) :
    g.condWt P b c ≠ 0 ∧ (N / T) / g.condWt P b c = N / q.norm g L lw b c := by
  unfold Grid.condWt Pop.norm
  by_cases hbn : b = []
  · simp only [hbn, if_true, true_and, ne_eq, one_ne_zero, not_false_eq_true, div_one]
    cases lw with
    | false => simp [hTl rfl]
    | true => simp only [Bool.true_eq_false, if_false]; rw [← hbn, hb hbn rfl]
  · simp only [hbn, if_false, false_and, hP]
    refine ⟨div_ne_zero h0 hT, ?_⟩
    field_simp

/-- Plain components. -/
theorem BaseIs.answers {cube : IFUCube} {stored : Arr Num} {ρ : Cell → ℝ} (ybar : Option (Arr Num)) (h : BaseIs cube stored g ρ L)
    (hlw : lw = true → 0 < totalLight g L (massP g ρ)) (hab : ValidPair a b) (h1 : a.length = 1)
    (hvb : 'v' ∈ PyStr.replaceX a → 'v' ∉ b) :
    MemberSays (Component.child (baseSelf cube stored) ybar) (tablePop g ρ) g L lw a b (fun c => c) ok := by
  have hok := tablePop_ok h.proper h.nonneg
  refine answers_of_tab ybar h.proper h.cubeIs hab h1 rfl rfl ((h.std hlw b).tab a hab) (respects_condWt _ b)
    fun k hk φ c hc h0 => ?_
  have hT : (if lw then totalLight g L (massP g ρ) else 1) ≠ 0 := by
    split
    · next e => exact (hlw e).ne'
    · exact one_ne_zero
  have e1 : g.marg (fun d => φ (g.value k d) * wtdP g L (massP g ρ) lw d) b c =
      (tablePop g ρ).num g L lw b k φ c / (if lw then totalLight g L (massP g ρ) else 1) := by
    rw [tablePop_num h.proper h.nonneg (fun e => hvb (e ▸ hk)), ← marg_div_const]
    congr 1; funext d
    rw [wtd_wt, mul_div_assoc, mul_div_assoc, mul_div_assoc]
  rw [e1]
  refine ratio_norm hT (fun e => by simp [e]) ?_ (fun e e' => ?_) h0
  · rw [Pop.amount_eq h.proper hok, tablePop_marg h.proper ρ (fun d => Pop.wt L lw d) (fun _ _ => rfl), ← marg_div_const]
    congr 1; funext d
    rw [wtd_wt]
  · subst e e'
    rw [amount_nil_light h.proper hok, Pop.lightOf_eq h.proper hok, tablePop_light h.proper, if_pos rfl]

variable {p : Param} {m : Ingredients}

theorem param_hc_none (hab : ValidPair a b) (h1 : a.length = 1) (ha : a ≠ ['v']) :
    p.self.meanHC (distStr a b) = none ∧ p.self.ncmHC (distStr a b) = none := by
  have hh : headVar (distStr a b) = a := by
    obtain ⟨-, -, h4, h5, -⟩ := validPair_facts a b hab
    exact headVar_distStr h4 h5
  have key : ∀ w ∈ [['v'], ['v','_','t'], ['v','_','x'], ['v','_','z'], ['v','_','t','x'], ['v','_','t','z'], ['v','_','x','z'],
      ['v','_','t','x','z']], headVar w = ['v'] := by decide +kernel
  have hn : distStr a b ∉ [['v'], ['v','_','t'], ['v','_','x'], ['v','_','z'], ['v','_','t','x'], ['v','_','t','z'], ['v','_','x','z'],
      ['v','_','t','x','z']] := fun hm => ha (hh.symm.trans (key _ hm))
  simp only [List.mem_cons, List.not_mem_nil, or_false, not_or] at hn
  constructor
  · show p.meanHC _ = none
    simp only [Param.meanHC, hn, if_false]
  · show p.ncmHC _ = none
    simp only [Param.ncmHC, hn, if_false]


theorem v_union : ∀ q ∈ conditionals, q.1 ≠ ['v'] → q.1.length = 1 → ('v' ∈ unionStr q.1 q.2 ↔ 'v' ∈ q.2) := by decide +kernel
theorem v_single : ∀ a ∈ marginals, a ≠ ['v'] → a.length = 1 → 'v' ∉ a := by decide +kernel

theorem marg_z (h : ParamIs p g m L) {c : Cell} (hc : g.Has c) :
    g.marg (fun d => m.probZ g d / g.nv) ['t','x','z'] c = m.probZ g c := by
  rw [marg_eq_sumOver g _ _ (by decide) c hc]
  have hv : (g.nv : ℝ) ≠ 0 := by have := h.proper.nv; positivity
  show ∑ _j : Fin g.nv, m.probZ g c / g.nv = _
  simp
  field_simp

theorem marg_xz (h : ParamIs p g m L) {c : Cell} (hc : g.Has c) :
    g.marg (fun d => m.probX g d * m.probZ g d / g.nv) ['t','x'] c = m.probX g c := by
  have e : ∀ d, g.Has d → g.marg (fun d => m.probX g d * m.probZ g d / g.nv) ['t','x','z'] d = m.probX g d * m.probZ g d := by
    intro d hd
    rw [marg_eq_sumOver g _ _ (by decide) d hd]
    have hv : (g.nv : ℝ) ≠ 0 := by have := h.proper.nv; positivity
    show ∑ _j : Fin g.nv, m.probX g d * m.probZ g d / g.nv = _
    simp
    field_simp
  rw [← sumOver_marg_nested g _ (w := ['t','x','z']) (by decide +kernel) hc,
    sumOver_congr (f' := fun d => m.probX g d * m.probZ g d) _ (by decide) hc e]
  have := h.norm.sumZ c.t hc.1 c.x hc.2.2.1 c.y hc.2.2.2.1
  show ∑ j : Fin g.nz, m.probX g c * (m.pz c.t c.x c.y j * width g.z j) = _
  rw [← Finset.mul_sum, this, mul_one]

/-- The table of age, position or metallicity with which a parametric component answers; `m'` is its conditioning weight. -/
theorem ParamIs.tab_noV (h : ParamIs p g m L) (hlw : lw = true → 0 < totalLight g L (m.spread g)) (hab : ValidPair a b)
    (h1 : a.length = 1) (ha : a ≠ ['v']) :
    ∃ P m' : Cell → ℝ, HasTab (Component.getP p.self) g lw P m' a b ∧ Respects b m' ∧
      ∀ c, g.Has c → (m.pop g).amount g L lw b c ≠ 0 → m' c ≠ 0 ∧ ∀ φ : Cell → ℝ,
        g.marg (fun d => φ d * P d) b c / m' c =
          g.marg (fun d => φ d * (Pop.wt L lw d * (m.pop g).cells g b d)) b c / (m.pop g).norm g L lw b c := by
  have hok := h.pop_ok
  -- the default table
  have std : HasTab (Component.getP p.self) g lw (wtdP g L ((m.pop g).cells g b) lw)
      (g.condWt (wtdP g L ((m.pop g).cells g b) lw) b) a b → ∃ P m' : Cell → ℝ, HasTab (Component.getP p.self) g lw P m' a b ∧ Respects b m' ∧
      ∀ c, g.Has c → (m.pop g).amount g L lw b c ≠ 0 → m' c ≠ 0 ∧ ∀ φ : Cell → ℝ,
        g.marg (fun d => φ d * P d) b c / m' c =
          g.marg (fun d => φ d * (Pop.wt L lw d * (m.pop g).cells g b d)) b c / (m.pop g).norm g L lw b c := by
    intro hT
    refine ⟨_, _, hT, respects_condWt _ b, fun c hc h0 => ?_⟩
    have hTl : (if lw then totalLight g L ((m.pop g).cells g b) else 1) ≠ 0 := by
      split
      · next e =>
        rw [← Pop.lightOf_eq h.proper hok]
        refine (hok.light_pos h.proper h.lightNonneg ?_ b).ne'
        rw [Pop.lightOf_eq h.proper hok, ingr_cells]
        exact hlw e
      · exact one_ne_zero
    have key : ∀ φ : Cell → ℝ, g.marg (fun d => φ d * wtdP g L ((m.pop g).cells g b) lw d) b c =
        g.marg (fun d => φ d * (Pop.wt L lw d * (m.pop g).cells g b d)) b c /
          (if lw then totalLight g L ((m.pop g).cells g b) else 1) := fun φ => by
      rw [← marg_div_const]
      congr 1; funext d
      rw [wtd_wt, mul_div_assoc, mul_div_assoc, mul_div_assoc]
    have hP : g.marg (wtdP g L ((m.pop g).cells g b) lw) b c = (m.pop g).amount g L lw b c /
        (if lw then totalLight g L ((m.pop g).cells g b) else 1) := by
      have := key (fun _ => 1)
      simp only [one_mul] at this
      rw [this, Pop.amount_eq h.proper hok]
    have hr := fun N => ratio_norm (N := N) hTl (fun e => by simp [e]) hP (fun e e' => by
      subst e e'; rw [amount_nil_light h.proper hok, Pop.lightOf_eq h.proper hok, if_pos rfl]) h0
    refine ⟨(hr 0).1, fun φ => ?_⟩
    rw [key]
    exact (hr _).2
  rcases hab with ⟨rfl, ham⟩ | hab
  · refine std ?_
    have e : (m.pop g).cells g [] = pick (m.joint g) (m.spread g) a := by
      rw [ingr_cells]
      simp [pick, v_single a ham ha h1]
    obtain ⟨A, hA, hA'⟩ := getP_marg_of_contract (h.contract lw hlw) false a ham
    have hu : unionStr a [] = a := (by decide +kernel : ∀ a ∈ marginals, unionStr a [] = a) a ham
    have hA'' := (isArr_iff (marginals_chars a ham)).1 hA'
    refine ⟨A, by simpa [distStr] using hA, ?_⟩
    rw [show PyStr.replaceX a ++ PyStr.replaceX [] = PyStr.replaceX a by simp [PyStr.replaceX]]
    refine ⟨hA''.1, fun c hc => (hA''.2 c hc).trans ?_⟩
    simp [tab, condTable, Grid.condWt, hu, dvol, paramMarg, e]
  · have hbm : b ≠ [] := (by decide +kernel : ∀ q ∈ conditionals, q.2 ≠ []) _ hab
    have hvu := v_union (a, b) hab ha h1
    obtain ⟨-, -, -, h4, h5, -⟩ := conditionals_letters _ hab
    have lift : ∀ {F : Cell → Num} {P m' : Cell → ℝ}, Gives (Component.getP p.self (condStr a b) false lw) g (condStr a b) F →
        (∀ c, g.Has c → F c = tab g P m' a b c) → HasTab (Component.getP p.self) g lw P m' a b := by
      rintro F P m' ⟨A, hA, hA'⟩ hF
      have hA'' := (isArr_cond_iff h4 h5).1 hA'
      refine ⟨A, by simpa [distStr, hbm] using hA, hA''.1, fun c hc => (hA''.2 c hc).trans (hF c hc)⟩
    by_cases ho : (a, b) ∈ ownConditionals
    · simp only [ownConditionals, List.mem_cons, Prod.mk.injEq, List.not_mem_nil, or_false] at ho
      rcases ho with ⟨rfl, rfl⟩ | ⟨rfl, rfl⟩ | ⟨rfl, rfl⟩
      · cases lw with
        | true =>
          refine std (lift (h.getP_xt_light false (hlw rfl)) fun c hc => ?_)
          have e : (m.pop g).cells g ['t'] = m.spread g := by rw [ingr_cells]; rfl
          rw [e]
          simp [tab, Grid.condWt, dvol, show unionStr ['x'] ['t'] = ['t','x'] by decide +kernel]
        | false =>
          refine ⟨fun d => m.probX g d * m.probZ g d / g.nv, fun _ => 1, lift (h.getP_xt false) fun c hc => ?_, fun _ _ _ => rfl,
            fun c hc h0 => ⟨one_ne_zero, fun φ => ?_⟩⟩
          · have e : unionStr ['x'] ['t'] = ['t','x'] := by decide +kernel
            simp [tab, condTable, dvol, e, marg_xz h hc]
          · have e : (m.pop g).amount g L false ['t'] c = m.probT g c := by
              rw [Pop.amount_eq h.proper hok]
              simp only [Pop.wt, Bool.false_eq_true, if_false, one_mul]
              rw [ingr_cells]
              exact marg_spread_t h.norm h.proper hc
            have e' : g.marg (fun d => φ d * (Pop.wt L false d * (m.pop g).cells g ['t'] d)) ['t'] c =
                m.probT g c * g.marg (fun d => φ d * (m.probX g d * m.probZ g d / g.nv)) ['t'] c := by
              rw [mul_marg (φ := m.probT g) (w := ['t']) (fun c d hcd => by
                simp [coords, coord1] at hcd; simp [Ingredients.probT, hcd])]
              congr 1; funext d
              rw [ingr_cells]
              simp only [Pop.wt, Bool.false_eq_true, if_false, one_mul]
              show φ d * (m.probT g d * m.probX g d * m.probZ g d / g.nv) = _
              ring
            rw [e'] at *
            rw [e] at h0
            simp only [Pop.norm, List.cons_ne_nil, false_and, if_false, e]
            field_simp
      · exact absurd rfl ha
      · cases lw with
        | true =>
          refine std (lift (h.getP_ztx_light false (hlw rfl)) fun c hc => ?_)
          have e : (m.pop g).cells g ['t','x'] = m.spread g := by rw [ingr_cells]; rfl
          rw [e]
          simp [tab, Grid.condWt, dvol, show unionStr ['z'] ['t','x'] = ['t','x','z'] by decide +kernel]
        | false =>
          refine ⟨fun d => m.probZ g d / g.nv, fun _ => 1, lift (h.getP_ztx false) fun c hc => ?_, fun _ _ _ => rfl,
            fun c hc h0 => ⟨one_ne_zero, fun φ => ?_⟩⟩
          · have e : unionStr ['z'] ['t','x'] = ['t','x','z'] := by decide +kernel
            simp [tab, condTable, dvol, e, marg_z h hc]
          · have e : (m.pop g).amount g L false ['t','x'] c = m.probT g c * m.probX g c := by
              rw [Pop.amount_eq h.proper hok]
              simp only [Pop.wt, Bool.false_eq_true, if_false, one_mul]
              rw [ingr_cells]
              exact marg_spread_tx h.norm h.proper hc
            have e' : g.marg (fun d => φ d * (Pop.wt L false d * (m.pop g).cells g ['t','x'] d)) ['t','x'] c =
                (m.probT g c * m.probX g c) * g.marg (fun d => φ d * (m.probZ g d / g.nv)) ['t','x'] c := by
              rw [mul_marg (φ := fun c => m.probT g c * m.probX g c) (w := ['t','x']) (fun c d hcd => by
                simp [coords, coord1] at hcd; simp [Ingredients.probT, Ingredients.probX, hcd])]
              congr 1; funext d
              rw [ingr_cells]
              simp only [Pop.wt, Bool.false_eq_true, if_false, one_mul]
              show φ d * (m.probT g d * m.probX g d * m.probZ g d / g.nv) = _
              ring
            rw [e'] at *
            rw [e] at h0
            simp only [Pop.norm, List.cons_ne_nil, false_and, if_false, e]
            rw [div_one, mul_div_cancel_left₀ _ h0]
    · refine std (lift (getP_cond_of_contract (h.contract lw hlw) false (a, b) hab (Param.logP_none p _ hab ho)) fun c hc => ?_)
      have e : pick (m.joint g) (m.spread g) (unionStr a b) = pick (m.joint g) (m.spread g) b := by
        simp only [pick, hvu]
      rw [ingr_cells]
      simp [tab, Grid.condWt, hbm, dvol, paramMarg, e]

theorem ParamIs.says_noV (ybar : Option (Arr Num)) (h : ParamIs p g m L) (hlw : lw = true → 0 < totalLight g L (m.spread g))
    (hab : ValidPair a b) (h1 : a.length = 1) (ha : a ≠ ['v']) :
    MemberSays (Component.child p.self ybar) (m.pop g) g L lw a b (fun c => c) ok := by
  obtain ⟨P, m', hT, hm, hv⟩ := h.tab_noV hlw hab h1 ha
  obtain ⟨e1, e2⟩ := param_hc_none (p := p) hab h1 ha
  refine answers_of_tab ybar h.proper h.cubeIs hab h1 e1 e2 hT hm fun k hk φ c hc h0 => ?_
  have hk' : k ≠ 'v' := by
    rintro rfl
    rcases single_cases hab h1 with ⟨q, hq, rfl⟩ | rfl
    · have : PyStr.replaceX [q] = [q] := by fin_cases hq <;> rfl
      rw [this] at hk
      simp only [List.mem_singleton] at hk
      exact ha (by rw [hk])
    · exact absurd hk (by decide)
  obtain ⟨f1, f2⟩ := hv c hc h0
  exact ⟨f1, by rw [f2 (fun d => φ (g.value k d)), Pop.num_eq h.proper h.pop_ok hk']⟩

/-- Expectations over the stars of a parametric component. -/
theorem velVal_num (h : ParamIs p g m L) (hlw : lw = true → 0 < totalLight g L (m.spread g)) (hb : 'v' ∉ b) {G : Cell → ℝ} (hG : OnTX G)
    {φ : ℝ → ℝ} (hφ : ∀ d, G d = ∫ v, φ v ∂(normal (m.mu d.t d.x d.y) (m.sig d.t d.x d.y))) (c : Cell)
    (h0 : (m.pop g).amount g L lw b c ≠ 0) :
    g.marg (PS g m L lw) b c ≠ 0 ∧
    velVal g m L lw b G c = (m.pop g).num g L lw b 'v' φ c / (m.pop g).norm g L lw b c := by
  have hok := h.pop_ok
  have hcells : (m.pop g).cells g b = m.spread g := by rw [ingr_cells]; simp [pick, hb]
  set T : ℝ := if lw then totalLight g L (m.spread g) else 1 with hTdef
  have hT : T ≠ 0 := by
    rw [hTdef]; split
    · next e => exact (hlw e).ne'
    · exact one_ne_zero
  have eP : ∀ d, PS g m L lw d = Pop.wt L lw d * m.spread g d / T := fun d => wtd_wt _ d
  have e1 : g.marg (PS g m L lw) b c = (m.pop g).amount g L lw b c / T := by
    rw [Pop.amount_eq h.proper hok, hcells, ← marg_div_const]
    congr 1; funext d; exact eP d
  have hGv : ∀ (d : Cell) v, G { d with v := v } = G d := fun d v => hG _ _ (coords_noV (by decide) d v)
  have e2 : g.marg (fun d => PS g m L lw d * G d) b c = (m.pop g).num g L lw b 'v' φ c / T := by
    have : (m.pop g).num g L lw b 'v' φ c = g.marg (fun d => Pop.wt L lw d * m.spread g d * G d) b c := by
      unfold Pop.num
      rw [if_pos rfl, ← sumCells_noV h.proper]
      · unfold Grid.marg
        congr 1; funext d
        split
        · show Pop.wt L lw d * (m.probTXZ g d * ∫ v, φ v ∂(normal (m.mu d.t d.x d.y) (m.sig d.t d.x d.y))) / g.nv =
            Pop.wt L lw d * (m.probTXZ g d / g.nv) * G d
          rw [hφ]; ring
        · simp
      · intro d v
        rw [coords_noV hb]
        rfl
    rw [this, ← marg_div_const]
    congr 1; funext d
    rw [eP]; ring
  refine ⟨by rw [e1]; exact div_ne_zero h0 hT, ?_⟩
  unfold velVal
  rw [e1, e2]
  unfold Pop.norm
  by_cases hbn : b = []
  · subst hbn
    have ht : (m.pop g).amount g L lw [] c = T := by
      have := PS_total h lw hlw
      rw [← marg_nil (PS g m L lw) (c := c), e1] at this
      rw [div_eq_iff hT] at this
      rw [this, one_mul]
    cases lw with
    | false => simp [ht, hTdef]
    | true =>
      simp only [Bool.true_eq_false, and_false, if_false]
      rw [ht]
      field_simp
  · simp only [hbn, false_and, if_false]
    field_simp

/-- Velocities. Given age, position and metallicity the centre at the first metallicity is used. -/
theorem ParamIs.says_v (ybar : Option (Arr Num)) (h : ParamIs p g m L)
    (hlw : lw = true → 0 < totalLight g L (m.spread g)) (hb : ValidPair ['v'] b) :
    MemberSays (Component.child p.self ybar) (m.pop g) g L lw ['v'] b
      (fun c => if b = ['t','x','z'] then { c with z := 0 } else c) (p.f2 = 1) := by
  have hv := noV_of_valid hb
  have hr : PyStr.replaceX ['v'] = ['v'] := rfl
  have hs : compShape ['v'] = [] := by decide
  have hi : compIdx 'v' = [] := by decide
  refine ⟨?_, fun hf j M Fm hM => ?_⟩
  · obtain ⟨r, r1, ⟨r2, r3⟩, -⟩ := h.mean_all lw hlw hb
    refine ⟨r, fun k c => r.get (compIdx k ++ coords b c), r1, ⟨by rw [r2, hs]; rfl, fun _ _ _ _ => rfl⟩, fun k hk c hc h0 => ?_⟩
    obtain rfl : k = 'v' := by simpa [hr] using hk
    obtain ⟨e1, e2⟩ := velVal_num h hlw hv (mu_onTX m) (φ := fun x => x) (fun d => (normal_mean _ _).symm) c h0
    beta_reduce
    rw [hi, List.nil_append, r3 c hc e1, e2]
  · have hMs : M.shape = g.shapeOf b := by rw [hM.1, hs]; rfl
    obtain ⟨r, r1, r2, r3⟩ := h.ncm_pt lw hlw j hb hMs
    refine ⟨r, fun k c => r.get (compIdx k ++ coords b c), r1, ⟨by rw [r2, hs]; rfl, fun _ _ _ _ => rfl⟩, fun k hk c μ hc h0 hμ => ?_⟩
    obtain rfl : k = 'v' := by simpa [hr] using hk
    obtain ⟨e1, e2⟩ := velVal_num h hlw hv (gmom_onTX m p.f2 μ j) (φ := fun x => (x - μ) ^ j) (fun d => by rw [hf, gmom_one]) c h0
    have hcc : g.Has (if b = ['t','x','z'] then { c with z := 0 } else c) := by
      split
      · exact ⟨hc.1, hc.2.1, hc.2.2.1, hc.2.2.2.1, h.proper.nz⟩
      · exact hc
    beta_reduce
    rw [hi, List.nil_append, r3 c μ hc e1 (by
      have := hM.2 'v' (by simp [hr]) _ hcc
      rw [hi, List.nil_append] at this
      exact this.trans hμ), e2]

/-- As `IsMember`; for parametric components the value of `scipy.special.factorial2(-1)` is 1. -/
inductive IsMember1 (g : Grid) (L : ℕ → ℕ → ℝ) (ch : Child) (q : Pop) : Prop
  | plain (cube : IFUCube) (stored : Arr Num) (ρ : Cell → ℝ) (ybar : Option (Arr Num)) (is : BaseIs cube stored g ρ L)
      (eq : ch = Component.child (baseSelf cube stored) ybar) (pop : q = tablePop g ρ)
  | parametric (p : Param) (m : Ingredients) (ybar : Option (Arr Num)) (is : ParamIs p g m L) (f2 : p.f2 = 1)
      (eq : ch = Component.child p.self ybar) (pop : q = m.pop g)

theorem noV_of_var (hab : ValidPair a b) (h1 : a.length = 1) (hk : 'v' ∈ PyStr.replaceX a) : a = ['v'] := by
  rcases single_cases hab h1 with ⟨q, hq, rfl⟩ | rfl
  · have : PyStr.replaceX [q] = [q] := by fin_cases hq <;> rfl
    rw [this] at hk
    simp only [List.mem_singleton] at hk
    rw [hk]
  · exact absurd hk (by decide)

theorem MemberSays.weaken {ch : Child} {q : Pop} {cen : Cell → Cell} (h : MemberSays ch q g L lw a b cen ok) :
    MemberSays ch q g L lw a b (fun c => c) False := ⟨h.mean, fun e => e.elim⟩

theorem plain_says {cube : IFUCube} {stored : Arr Num} {ρ : Cell → ℝ} (ybar : Option (Arr Num)) (h : BaseIs cube stored g ρ L)
    (hlw : lw = true → 0 < (tablePop g ρ).lightOf g L ['t','x','z']) (hab : ValidPair a b) (h1 : a.length = 1) :
    MemberSays (Component.child (baseSelf cube stored) ybar) (tablePop g ρ) g L lw a b (fun c => c) ok :=
  h.answers ybar (fun e => by
    have := hlw e
    rwa [Pop.lightOf_eq h.proper (tablePop_ok h.proper h.nonneg), tablePop_light h.proper] at this) hab h1
    (fun hk => by
      have := noV_of_var hab h1 hk
      subst this
      exact noV_of_valid hab)

theorem ParamIs.tot_of_light (h : ParamIs p g m L) (hlw : lw = true → 0 < (m.pop g).lightOf g L ['t','x','z']) (e : lw = true) :
    0 < totalLight g L (m.spread g) := by
  have := hlw e
  rwa [Pop.lightOf_eq h.proper h.pop_ok, ingr_cells] at this

theorem param_says (ybar : Option (Arr Num)) (h : ParamIs p g m L)
    (hlw : lw = true → 0 < (m.pop g).lightOf g L ['t','x','z']) (hab : ValidPair a b) (h1 : a.length = 1) :
    MemberSays (Component.child p.self ybar) (m.pop g) g L lw a b
      (fun c => if a = ['v'] ∧ b = ['t','x','z'] then { c with z := 0 } else c) (p.f2 = 1) := by
  by_cases ha : a = ['v']
  · subst ha
    simp only [true_and]
    exact h.says_v ybar (h.tot_of_light hlw) hab
  · simp only [ha, false_and, if_false]
    exact h.says_noV ybar (h.tot_of_light hlw) hab h1 ha

theorem IsMember.says {ch : Child} {q : Pop} (h : IsMember g L ch q) (hlw : lw = true → 0 < q.lightOf g L ['t','x','z'])
    (hab : ValidPair a b) (h1 : a.length = 1) : MemberSays ch q g L lw a b (fun c => c) False := by
  cases h with
  | plain cube st ρ ybar h e e' => subst e e'; exact plain_says ybar h hlw hab h1
  | parametric p m ybar h e e' => subst e e'; exact (param_says ybar h hlw hab h1).weaken

theorem IsMember1.says {ch : Child} {q : Pop} (h : IsMember1 g L ch q) (hlw : lw = true → 0 < q.lightOf g L ['t','x','z'])
    (hab : ValidPair a b) (h1 : a.length = 1) (hn : ¬ (a = ['v'] ∧ b = ['t','x','z'])) :
    MemberSays ch q g L lw a b (fun c => c) True := by
  cases h with
  | plain cube st ρ ybar h e e' => subst e e'; exact plain_says ybar h hlw hab h1
  | parametric p m ybar h hf e e' =>
    subst e e'
    have := param_says ybar h hlw hab h1
    simp only [hn, if_false] at this
    exact ⟨this.mean, fun _ => this.ncm hf⟩

end PKM
