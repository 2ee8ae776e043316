import Verif.PopSpec
import Verif.Props.VelMoments
import Verif.Props.MixMoments

/-! Lemmas: mixtures of plain and parametric components. -/

open scoped Classical
open MeasureTheory

noncomputable section

namespace PKM
open Np Component

variable {g : Grid} {L : ℕ → ℕ → ℝ} {lw : Bool}

/-! ### Sums -/

theorem sumCells_sumV (f : Cell → ℝ) :
    g.sumCells f = Ingredients.sumTXZ g (fun c => ∑ v : Fin g.nv, f { c with v := v }) := by
  unfold Grid.sumCells Ingredients.sumTXZ
  refine Finset.sum_congr rfl fun t _ => ?_
  rw [Finset.sum_comm]; refine Finset.sum_congr rfl fun x _ => ?_
  rw [Finset.sum_comm]; refine Finset.sum_congr rfl fun y _ => ?_
  rw [Finset.sum_comm]

theorem sumTXZ_congr {f f' : Cell → ℝ} (h : ∀ c, f c = f' c) : Ingredients.sumTXZ g f = Ingredients.sumTXZ g f' := by
  rw [funext h]

theorem sumTXZ_mul (k : ℝ) (f : Cell → ℝ) : Ingredients.sumTXZ g (fun c => k * f c) = k * Ingredients.sumTXZ g f := by
  simp only [Ingredients.sumTXZ, Finset.mul_sum]

theorem sumTXZ_sum {n : ℕ} (f : Fin n → Cell → ℝ) :
    Ingredients.sumTXZ g (fun c => ∑ i, f i c) = ∑ i, Ingredients.sumTXZ g (f i) := by
  unfold Ingredients.sumTXZ
  rw [Finset.sum_comm (s := (Finset.univ : Finset (Fin n)))]; refine Finset.sum_congr rfl fun t _ => ?_
  rw [Finset.sum_comm (s := (Finset.univ : Finset (Fin n)))]; refine Finset.sum_congr rfl fun x _ => ?_
  rw [Finset.sum_comm (s := (Finset.univ : Finset (Fin n)))]; refine Finset.sum_congr rfl fun y _ => ?_
  rw [Finset.sum_comm]

/-- The population knows no velocity besides its velocity distribution, and numbers of stars are not negative. -/
structure Pop.Ok (q : Pop) (g : Grid) : Prop where
  noV : ∀ φ c v, q.vel φ { c with v := v } = q.vel φ c
  joint : ∀ c, g.Has c → 0 ≤ q.joint c
  stars : ∀ c, g.Has c → 0 ≤ q.stars c
  within : ∀ c, g.Has c → q.stars c = 0 → q.joint c = 0
  reached : ∀ c, g.Has c → q.stars c ≠ 0 → ∃ v < g.nv, q.joint { c with v := v } ≠ 0

/-- A cell distribution with the right marginals in age, position and metallicity. -/
def Pop.flat (q : Pop) (g : Grid) (c : Cell) : ℝ := q.stars c / g.nv

/-- The cell distribution which serves the variables `w`. -/
def Pop.cells (q : Pop) (g : Grid) (w : PyStr) : Cell → ℝ := pick q.joint (q.flat g) w

theorem wt_noV (c : Cell) (v : ℕ) : Pop.wt L lw { c with v := v } = Pop.wt L lw c := rfl

theorem Pop.amount_eq (hg : g.Proper) {q : Pop} (h : q.Ok g) (w : PyStr) (c : Cell) :
    q.amount g L lw w c = g.marg (fun d => Pop.wt L lw d * q.cells g w d) w c := by
  unfold Pop.amount Pop.cells pick
  split
  · rfl
  · next hv =>
    rw [← sumCells_noV hg]
    · unfold Grid.marg
      congr 1; funext d
      split
      · unfold Pop.flat; ring
      · simp
    · intro d v
      rw [coords_noV hv, wt_noV]
      unfold Pop.stars
      rw [h.noV]

theorem Pop.lightOf_eq (hg : g.Proper) {q : Pop} (h : q.Ok g) (w : PyStr) :
    q.lightOf g L w = totalLight g L (q.cells g w) := by
  unfold Pop.lightOf Pop.cells pick totalLight
  split
  · rfl
  · rw [← sumCells_noV hg]
    · congr 1; funext d; unfold Pop.flat; ring
    · intro d v; unfold Pop.stars; rw [h.noV]

/-- Stars that shine, shine in the velocity range. -/
theorem Pop.Ok.light_pos {q : Pop} (h : q.Ok g) (hg : g.Proper) (hL : ∀ t z, 0 ≤ L t z)
    (hl : 0 < q.lightOf g L ['t','x','z']) (w : PyStr) : 0 < q.lightOf g L w := by
  rw [Pop.lightOf_eq hg h] at hl ⊢
  unfold Pop.cells pick at hl ⊢
  rw [if_neg (by decide)] at hl
  split
  · obtain ⟨c, hc, h1⟩ := exists_pos_of_sumCells_pos hl
    have hs : q.stars c ≠ 0 := by
      intro e; simp [Pop.flat, e] at h1
    have hL' : 0 < L c.t c.z := lt_of_le_of_ne (hL _ _) (by intro e; simp [← e] at h1)
    obtain ⟨v, hv, hj⟩ := h.reached c hc hs
    have hc' : g.Has { c with v := v } := ⟨hc.1, hv, hc.2.2⟩
    exact sumCells_pos_of (fun d hd => mul_nonneg (hL _ _) (h.joint d hd)) hc'
      (mul_pos hL' (lt_of_le_of_ne (h.joint _ hc') (Ne.symm hj)))
  · exact hl

theorem wtd_wt (P : Cell → ℝ) (d : Cell) :
    wtdP g L P lw d = Pop.wt L lw d * P d / (if lw then totalLight g L P else 1) := by
  unfold wtdP Pop.wt
  cases lw <;> simp [Grid.lightP, totalLight]

theorem marg_div_const (f : Cell → ℝ) (k : ℝ) (w : PyStr) (c : Cell) :
    g.marg (fun d => f d / k) w c = g.marg f w c / k := by
  simp only [div_eq_inv_mul]; exact marg_mul_const g _ f w c

theorem Pop.marginal_eq (hg : g.Proper) {q : Pop} (h : q.Ok g) (w : PyStr) (c : Cell) :
    q.marginal g L lw w c = g.marg (wtdP g L (q.cells g w) lw) w c := by
  unfold Pop.marginal
  rw [Pop.amount_eq hg h, Pop.lightOf_eq hg h, ← marg_div_const]
  congr 1; funext d
  rw [wtd_wt]

/-! ### The two kinds of members -/

theorem tablePop_stars (ρ : Cell → ℝ) (c : Cell) :
    (tablePop g ρ).stars c = ∑ v : Fin g.nv, massP g ρ { c with v := v } := by
  simp [Pop.stars, tablePop, massP]

theorem tablePop_ok (hg : g.Proper) {ρ : Cell → ℝ} (hρ : ∀ c, 0 ≤ ρ c) : (tablePop g ρ).Ok g := by
  have hn : ∀ c, g.Has c → ∀ v : Fin g.nv, 0 ≤ massP g ρ { c with v := v } := fun c hc v =>
    massP_nonneg hg hρ ⟨hc.1, v.2, hc.2.2⟩
  refine ⟨fun φ c v => rfl, fun c hc => massP_nonneg hg hρ hc, fun c hc => ?_, fun c hc h => ?_, fun c hc h => ?_⟩
  · rw [tablePop_stars]; exact Finset.sum_nonneg fun v _ => hn c hc v
  · rw [tablePop_stars] at h
    exact (Finset.sum_eq_zero_iff_of_nonneg fun v _ => hn c hc v).1 h ⟨c.v, hc.2.1⟩ (Finset.mem_univ _)
  · rw [tablePop_stars] at h
    obtain ⟨v, -, hv⟩ := Finset.exists_ne_zero_of_sum_ne_zero h
    exact ⟨v, v.2, hv⟩

theorem tablePop_sum (hg : g.Proper) (ρ : Cell → ℝ) (k : Cell → ℝ) (hk : ∀ c v, k { c with v := v } = k c) :
    g.sumCells (fun d => k d * (tablePop g ρ).flat g d) = g.sumCells (fun d => k d * massP g ρ d) := by
  have e1 : g.sumCells (fun d => k d * (tablePop g ρ).flat g d) =
      Ingredients.sumTXZ g (fun d => k d * (tablePop g ρ).stars d) := by
    rw [← sumCells_noV hg]
    · congr 1; funext d; unfold Pop.flat; ring
    · intro d v; rw [hk]; rfl
  rw [e1, sumCells_sumV]
  congr 1; funext d
  simp only [hk]
  rw [tablePop_stars, Finset.mul_sum]

theorem tablePop_marg (hg : g.Proper) (ρ : Cell → ℝ) (k : Cell → ℝ)
    (hk : ∀ c v, k { c with v := v } = k c) (w : PyStr) (c : Cell) :
    g.marg (fun d => k d * (tablePop g ρ).cells g w d) w c = g.marg (fun d => k d * massP g ρ d) w c := by
  unfold Pop.cells pick
  split
  · rfl
  · next hv =>
    have := tablePop_sum hg ρ (fun d => if coords w d = coords w c then k d else 0)
      (fun d v => by beta_reduce; rw [coords_noV hv, hk])
    simp only [ite_mul, zero_mul] at this
    exact this

theorem tablePop_light (hg : g.Proper) (ρ : Cell → ℝ) (w : PyStr) :
    totalLight g L ((tablePop g ρ).cells g w) = totalLight g L (massP g ρ) := by
  unfold Pop.cells pick
  split
  · rfl
  · exact tablePop_sum hg ρ (fun d => L d.t d.z) (fun _ _ => rfl)

theorem tablePop_marginal (hg : g.Proper) {ρ : Cell → ℝ} (hρ : ∀ c, 0 ≤ ρ c) (w : PyStr) (c : Cell) :
    (tablePop g ρ).marginal g L lw w c = g.marg (wtdP g L (massP g ρ) lw) w c := by
  rw [Pop.marginal_eq hg (tablePop_ok hg hρ)]
  have e := tablePop_marg hg ρ (fun d => Pop.wt L lw d) (fun _ _ => rfl) w c
  rw [show wtdP g L (massP g ρ) lw = fun d => Pop.wt L lw d * massP g ρ d / (if lw then totalLight g L (massP g ρ) else 1)
      from funext fun d => wtd_wt _ d,
    show wtdP g L ((tablePop g ρ).cells g w) lw = fun d => Pop.wt L lw d * (tablePop g ρ).cells g w d /
      (if lw then totalLight g L ((tablePop g ρ).cells g w) else 1) from funext fun d => wtd_wt _ d,
    marg_div_const, marg_div_const, e, tablePop_light hg]

theorem ingr_stars (m : Ingredients) : (m.pop g).stars = m.probTXZ g := by
  funext c; simp [Pop.stars, Ingredients.pop]

theorem ingr_flat (m : Ingredients) : (m.pop g).flat g = m.spread g := by
  funext c; simp only [Pop.flat, ingr_stars]; rfl

theorem ingr_cells (m : Ingredients) (w : PyStr) : (m.pop g).cells g w = pick (m.joint g) (m.spread g) w := by
  simp only [Pop.cells, ingr_flat]; rfl

theorem ParamIs.pop_ok {p : Param} {m : Ingredients} (h : ParamIs p g m L) : (m.pop g).Ok g := by
  refine ⟨fun φ c v => rfl, fun c hc => h.norm.joint_nonneg h.proper hc, fun c hc => ?_, fun c hc h0 => ?_, fun c hc h0 => ?_⟩
  · rw [ingr_stars]
    have := h.norm.spread_nonneg h.proper hc
    have hn : (0:ℝ) < g.nv := by have := h.proper.nv; positivity
    unfold Ingredients.spread at this
    have e := mul_nonneg this hn.le
    rwa [div_mul_cancel₀ _ hn.ne'] at e
  · rw [ingr_stars] at h0
    show m.probTXZ g c * _ = 0
    rw [h0, zero_mul]
  · rw [ingr_stars] at h0
    refine ⟨c.v, hc.2.1, mul_ne_zero h0 (probV_pos h hc).ne'⟩

/-- Member of a mixture: a plain or a parametric component on bins `g`, with the light `L`, whose stars are `q`. -/
inductive IsMember (g : Grid) (L : ℕ → ℕ → ℝ) (ch : Child) (q : Pop) : Prop
  | plain (cube : IFUCube) (stored : Arr Num) (ρ : Cell → ℝ) (ybar : Option (Arr Num)) (is : BaseIs cube stored g ρ L)
      (eq : ch = Component.child (baseSelf cube stored) ybar) (pop : q = tablePop g ρ)
  | parametric (p : Param) (m : Ingredients) (ybar : Option (Arr Num)) (is : ParamIs p g m L)
      (eq : ch = Component.child p.self ybar) (pop : q = m.pop g)

/-- `m` is a mixture of `n > 0` components; member `i` has weight `ω i` and stars `pop i`. -/
structure MixOf (m : Mix) (g : Grid) (n : ℕ) (ω : ℕ → ℝ) (pop : ℕ → Pop) (L : ℕ → ℕ → ℝ) : Prop where
  pos : 0 < n
  cubeIs : CubeIs m.cube g
  light : IsArr g ['t','z'] m.cube.ssps.lightWeights (fun c => .fin (L c.t c.z))
  children : m.children.length = n
  weights : m.weights = (List.range n).map ω
  wpos : ∀ i < n, 0 < ω i
  member : ∀ (i : ℕ) (hi : i < m.children.length), IsMember g L m.children[i] (pop i)

namespace IsMember
variable {ch : Child} {q : Pop}

theorem proper (h : IsMember g L ch q) : g.Proper := by
  cases h with
  | plain _ _ _ _ h => exact h.proper
  | parametric _ _ _ h => exact h.proper

theorem lightNonneg (h : IsMember g L ch q) : ∀ t z, 0 ≤ L t z := by
  cases h with
  | plain _ _ _ _ h => exact h.lightNonneg
  | parametric _ _ _ h => exact h.lightNonneg

theorem ok (h : IsMember g L ch q) : q.Ok g := by
  cases h with
  | plain _ _ _ _ h _ e => subst e; exact tablePop_ok h.proper h.nonneg
  | parametric _ _ _ h _ e => subst e; exact h.pop_ok

theorem childMarg (h : IsMember g L ch q) (density : Bool) {w : PyStr} (hw : w ∈ marginals) :
    Gives (childMarg ch w density) g w (fun c => Num.lg (g.marg (q.cells g w) w c / dvol g density w c)) := by
  cases h with
  | plain cube st ρ _ h e e' =>
    subst e e'
    have := h.marginal density false (by simp) hw
    simp only [wtdP, Bool.false_eq_true, if_false] at this
    refine Gives.congr this fun c hc => ?_
    have e := tablePop_marg h.proper ρ (fun _ => 1) (fun _ _ => rfl) w c
    simp only [one_mul] at e
    rw [← e]
  | parametric p m _ h e e' =>
    subst e e'
    have := h.marginal density false (by simp) hw
    simp only [wtdP, Bool.false_eq_true, if_false] at this
    rw [ingr_cells]
    exact this

/-- What the member itself returns. -/
theorem getP_marg (h : IsMember g L ch q) (density lw : Bool) (hlw : lw = true → 0 < q.lightOf g L ['t','x','z']) {w : PyStr}
    (hw : w ∈ marginals) :
    Gives (ch.getP w density lw) g w (fun c => .fin (q.marginal g L lw w c / dvol g density w c)) := by
  cases h with
  | plain cube st ρ _ h e e' =>
    subst e e'
    refine (getP_marg_of_contract (h.contract lw fun e => ?_) density w hw).congr fun c hc => ?_
    · have := hlw e
      rwa [Pop.lightOf_eq h.proper (tablePop_ok h.proper h.nonneg), tablePop_light h.proper] at this
    · rw [tablePop_marginal h.proper h.nonneg]
  | parametric p m _ h e e' =>
    subst e e'
    refine (getP_marg_of_contract (h.contract lw fun e => ?_) density w hw).congr fun c hc => ?_
    · have := hlw e
      rwa [Pop.lightOf_eq h.proper h.pop_ok, ingr_cells] at this
    · rw [Pop.marginal_eq h.proper h.pop_ok, ingr_cells]; rfl

end IsMember

/-! ### Mixtures -/

/-- No stars. -/
def noPop : Pop := ⟨fun _ => 0, fun _ _ => 0⟩

theorem noPop_ok : noPop.Ok g :=
  ⟨fun _ _ _ => rfl, fun _ _ => le_rfl, fun _ _ => le_rfl, fun _ _ _ => rfl, fun _ _ h => absurd rfl h⟩

/-- The first `n` populations. -/
def padPop (n : ℕ) (pop : ℕ → Pop) (i : ℕ) : Pop := if i < n then pop i else noPop
/-- The first `n` weights. -/
def padW (n : ℕ) (ω : ℕ → ℝ) (i : ℕ) : ℝ := if i < n then ω i else 1

theorem padPop_fin {n : ℕ} (pop : ℕ → Pop) (i : Fin n) : padPop n pop i = pop i := if_pos i.2
theorem padW_fin {n : ℕ} (ω : ℕ → ℝ) (i : Fin n) : padW n ω i = ω i := if_pos i.2

theorem mixPop_stars (n : ℕ) (ω : ℕ → ℝ) (pop : ℕ → Pop) (c : Cell) :
    (mixPop n ω pop).stars c = ∑ i : Fin n, ω i * (pop i).stars c := rfl

theorem mixPop_cells (n : ℕ) (ω : ℕ → ℝ) (pop : ℕ → Pop) (w : PyStr) :
    (mixPop n ω pop).cells g w = mixP n ω (fun i => (pop i).cells g w) := by
  funext c
  unfold Pop.cells pick mixP
  split
  · rfl
  · simp only [Pop.flat, mixPop_stars, div_eq_mul_inv, Finset.sum_mul, mul_assoc]

theorem mixPop_pad (n : ℕ) (ω : ℕ → ℝ) (pop : ℕ → Pop) : mixPop n (padW n ω) (padPop n pop) = mixPop n ω pop := by
  unfold mixPop
  congr 1
  · funext c; exact Finset.sum_congr rfl fun i _ => by rw [padPop_fin, padW_fin]
  · funext φ c; exact Finset.sum_congr rfl fun i _ => by rw [padPop_fin, padW_fin]

theorem mixP_pad (n : ℕ) (ω : ℕ → ℝ) (pop : ℕ → Pop) (w : PyStr) :
    mixP n (padW n ω) (fun i => pick (padPop n pop i).joint ((padPop n pop i).flat g) w) =
      (mixPop n ω pop).cells g w := by
  rw [← mixPop_pad, mixPop_cells]; rfl

namespace MixOf
variable {m : Mix} {n : ℕ} {ω : ℕ → ℝ} {pop : ℕ → Pop}

theorem mem (h : MixOf m g n ω pop L) {i : ℕ} (hi : i < n) :
    ∃ hi' : i < m.children.length, IsMember g L m.children[i] (pop i) :=
  ⟨h.children ▸ hi, h.member i _⟩

theorem proper (h : MixOf m g n ω pop L) : g.Proper := (h.mem h.pos).2.proper
theorem lightNonneg (h : MixOf m g n ω pop L) : ∀ t z, 0 ≤ L t z := (h.mem h.pos).2.lightNonneg

theorem ok (h : MixOf m g n ω pop L) {i : ℕ} (hi : i < n) : (pop i).Ok g := (h.mem hi).2.ok

theorem padOk (h : MixOf m g n ω pop L) (i : ℕ) : (padPop n pop i).Ok g := by
  unfold padPop; split
  · next hi => exact h.ok hi
  · exact noPop_ok

theorem flat_nonneg {q : Pop} (h : q.Ok g) {c : Cell} (hc : g.Has c) : 0 ≤ q.flat g c :=
  div_nonneg (h.stars c hc) (Nat.cast_nonneg _)

theorem is (h : MixOf m g n ω pop L) :
    MixIs m g n (padW n ω) (fun i => (padPop n pop i).joint) (fun i => (padPop n pop i).flat g) L where
  pos := h.pos
  proper := h.proper
  cubeIs := h.cubeIs
  children := h.children
  weights := by simp [h.weights]
  weight i hi := by simp [h.weights, List.getD, hi, padW]
  wpos i := by
    unfold padW; split
    · next hi => exact h.wpos i hi
    · exact one_pos
  child i hi density w hw := by
    have e : padPop n pop i = pop i := if_pos (h.children ▸ hi)
    rw [e]
    exact (h.member i hi).childMarg density hw
  nonnegP i c hc := (h.padOk i).joint c hc
  nonnegQ i c hc := flat_nonneg (h.padOk i) hc
  absCont i c hc h0 := marg_zero_of_pointwise (fun d hd => flat_nonneg (h.padOk i) hd) (fun d hd e => by
    refine (h.padOk i).within d hd ?_
    have hn : (g.nv : ℝ) ≠ 0 := by have := h.proper.nv; positivity
    rcases div_eq_zero_iff.1 e with e | e
    · exact e
    · exact absurd e hn) h0
  light := h.light
  lightNonneg := h.lightNonneg

theorem mixOk (h : MixOf m g n ω pop L) : (mixPop n ω pop).Ok g := by
  have hs : ∀ c, g.Has c → ∀ i : Fin n, 0 ≤ ω i * (pop i).stars c := fun c hc i =>
    mul_nonneg (h.wpos i i.2).le ((h.ok i.2).stars c hc)
  have hj : ∀ c, g.Has c → ∀ i : Fin n, 0 ≤ ω i * (pop i).joint c := fun c hc i =>
    mul_nonneg (h.wpos i i.2).le ((h.ok i.2).joint c hc)
  refine ⟨fun φ c v => ?_, fun c hc => ?_, fun c hc => ?_, fun c hc h0 => ?_,
    fun c hc h0 => ?_⟩
  · show ∑ i : Fin n, _ = ∑ i : Fin n, _
    exact Finset.sum_congr rfl fun i _ => by rw [(h.ok i.2).noV]
  · show (0:ℝ) ≤ ∑ i : Fin n, _
    exact Finset.sum_nonneg fun i _ => hj c hc i
  · rw [mixPop_stars]; exact Finset.sum_nonneg fun i _ => hs c hc i
  · rw [mixPop_stars] at h0
    show ∑ i : Fin n, _ = (0:ℝ)
    refine Finset.sum_eq_zero fun i _ => ?_
    have := (Finset.sum_eq_zero_iff_of_nonneg fun (i : Fin n) _ => hs c hc i).1 h0 i (Finset.mem_univ _)
    rw [(h.ok i.2).within c hc ((mul_eq_zero.1 this).resolve_left (h.wpos i i.2).ne'), mul_zero]
  · rw [mixPop_stars] at h0
    obtain ⟨i, -, hi⟩ := Finset.exists_ne_zero_of_sum_ne_zero h0
    obtain ⟨v, hv, hj0⟩ := (h.ok i.2).reached c hc (right_ne_zero_of_mul hi)
    refine ⟨v, hv, ne_of_gt ?_⟩
    have hc' : g.Has { c with v := v } := ⟨hc.1, hv, hc.2.2⟩
    exact Finset.sum_pos' (fun k _ => hj _ hc' k)
      ⟨i, Finset.mem_univ _, mul_pos (h.wpos i i.2) (lt_of_le_of_ne ((h.ok i.2).joint _ hc') (Ne.symm hj0))⟩

/-- A mixture that shines, shines in the velocity range. -/
theorem mixLight_pos (h : MixOf m g n ω pop L) (hl : 0 < (mixPop n ω pop).lightOf g L ['t','x','z']) (w : PyStr) :
    0 < mixLight g n (padW n ω) L (fun i => (padPop n pop i).joint) (fun i => (padPop n pop i).flat g) w := by
  unfold mixLight
  rw [mixP_pad, ← Pop.lightOf_eq h.proper h.mixOk]
  exact h.mixOk.light_pos h.proper h.lightNonneg hl w

end MixOf

theorem amount_mixPop (n : ℕ) (ω : ℕ → ℝ) (pop : ℕ → Pop) (w : PyStr) (c : Cell) :
    (mixPop n ω pop).amount g L lw w c = ∑ i : Fin n, ω i * (pop i).amount g L lw w c := by
  unfold Pop.amount
  split
  · simp only [← sumCells_mul]
    rw [← sumCells_fsum]
    congr 1; funext d
    split
    · simp only [mixPop, Finset.mul_sum]
      exact Finset.sum_congr rfl fun i _ => by ring
    · simp
  · simp only [← sumTXZ_mul]
    rw [← sumTXZ_sum]
    congr 1; funext d
    split
    · simp only [mixPop_stars, Finset.mul_sum]
      exact Finset.sum_congr rfl fun i _ => by ring
    · simp

theorem lightOf_mixPop (n : ℕ) (ω : ℕ → ℝ) (pop : ℕ → Pop) (w : PyStr) :
    (mixPop n ω pop).lightOf g L w = ∑ i : Fin n, ω i * (pop i).lightOf g L w := by
  unfold Pop.lightOf
  split
  · simp only [← sumCells_mul]
    rw [← sumCells_fsum]
    congr 1; funext d
    simp only [mixPop, Finset.mul_sum]
    exact Finset.sum_congr rfl fun i _ => by ring
  · simp only [← sumTXZ_mul]
    rw [← sumTXZ_sum]
    congr 1; funext d
    simp only [mixPop_stars, Finset.mul_sum]
    exact Finset.sum_congr rfl fun i _ => by ring

end PKM
