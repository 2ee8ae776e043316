import Verif.Props.GivenOnly
import Verif.Props.Fluxes
import Verif.Props.PointSymmetry

/-!
# C107: similar components give similar answers

The distance of two distributions is the sum of the absolute differences of their probabilities,
`np.sum(np.abs(a.get_p(w) - b.get_p(w)))`.
-/

open scoped Classical

noncomputable section

namespace PKM
open Np Component

variable {g : Grid} {L : ℕ → ℕ → ℝ} {lw : Bool} {o o' : Obj} {q q' : Pop}

/-! ### Specification -/

/-- `np.sum(np.abs(p - p'))` is `d`. -/
def Apart (p p' : Arr Num) (d : ℝ) : Prop := ∃ r, Np.sub p p' = .ok r ∧ sumAll (map Num.abs r) = scalar (.fin d)

/-- A plain component, a parametric component or a mixture, on the bins `g`, whose stars are `q`. If it is asked for light
its stars (those of each member) shine. -/
inductive Describes (g : Grid) (L : ℕ → ℕ → ℝ) (lw : Bool) : Obj → Pop → Prop
  | plain {cube : IFUCube} {stored : Arr Num} {ρ : Cell → ℝ} (h : BaseIs cube stored g ρ L) (hl : lw = true → (tablePop g ρ).Shines g L) :
      Describes g L lw (obj (baseSelf cube stored)) (tablePop g ρ)
  | parametric {p : Param} {m : Ingredients} (h : ParamIs p g m L) (hl : lw = true → (m.pop g).Shines g L) :
      Describes g L lw (obj p.self) (m.pop g)
  | mixture {m : Mix} {n : ℕ} {ω : ℕ → ℝ} {pop : ℕ → Pop} (h : MixOf m g n ω pop L) (hl : lw = true → ∀ i < n, (pop i).Shines g L)
      (h0 : ∀ i < n, ∀ c, (pop i).amount g L lw [] c ≠ 0) : Describes g L lw (Mix.obj m) (mixPop n ω pop)

/-! ### Lemmas -/

/-- The sign of the difference of two distributions of `w`. -/
def signOf (g : Grid) (R : Cell → ℝ) (w : PyStr) (c : Cell) : ℝ := if 0 ≤ g.marg R w c then 1 else -1

theorem signOf_move {R : Cell → ℝ} {w : PyStr} {c d : Cell} (h : coords w d = coords w c) : signOf g R w d = signOf g R w c := by
  unfold signOf Grid.marg
  rw [h]

theorem signOf_mul (R : Cell → ℝ) (w : PyStr) (c : Cell) : g.marg (fun d => signOf g R w d * R d) w c = |g.marg R w c| := by
  rw [marg_mul_of_coords (fun d hd => signOf_move hd)]
  unfold signOf
  split
  · next h => rw [one_mul, abs_of_nonneg h]
  · next h => rw [abs_of_neg (not_le.1 h)]; ring

theorem signOf_abs (R : Cell → ℝ) (w : PyStr) (c : Cell) : |signOf g R w c| = 1 := by
  unfold signOf; split <;> simp

theorem total_nonneg (hg : g.Proper) {w : PyStr} (hw : w ∈ marginals) {Q : Cell → ℝ} (h : ∀ c, g.Has c → 0 ≤ g.marg Q w c) : 0 ≤ g.sumCells Q := by
  have hc : g.Has ⟨0, 0, 0, 0, 0⟩ := ⟨hg.nt, hg.nv, hg.nx, hg.ny, hg.nz⟩
  rw [← sumOver_marg_total g Q hw hc]
  refine sumOver_nonneg _ (fun ch hch => ?_) hc h
  have : ∀ w ∈ marginals, ∀ ch ∈ (PyStr.replaceX w).reverse, AxisChar ch := by unfold AxisChar; decide +kernel
  exact this w hw ch hch

theorem sumCells_sub (F G : Cell → ℝ) : g.sumCells (fun c => F c - G c) = g.sumCells F - g.sumCells G := by
  simp only [Grid.sumCells, Finset.sum_sub_distrib]

theorem marg_sub (F G : Cell → ℝ) (w : PyStr) (c : Cell) : g.marg (fun c => F c - G c) w c = g.marg F w c - g.marg G w c := by
  unfold Grid.marg
  rw [← sumCells_sub]
  congr 1; funext d
  split <;> simp

/-- The distance of the distributions of `w`. -/
def gap (g : Grid) (R : Cell → ℝ) (w : PyStr) : ℝ := g.sumCells fun d => signOf g R w d * R d

theorem apart_marg (hg : g.Proper) {w : PyStr} (hw : w ∈ marginals) {A A' : Arr Num} {P P' : Cell → ℝ}
    (h : IsArr g w A (fun c => .fin (g.marg P w c))) (h' : IsArr g w A' (fun c => .fin (g.marg P' w c))) :
    Apart A A' (gap g (fun d => P d - P' d) w) := by
  obtain ⟨r, h1, h2⟩ := h.bop (· - ·) h'.barr
  refine ⟨r, h1, sumAll_marg hg hw ((h2.map Num.abs).congr fun c _ => ?_)⟩
  rw [signOf_mul, marg_sub]
  rfl

/-- What changes with `w` only, and by at most `k` either way, differs on average by at most `k` times the distance. -/
theorem gap_bound (hg : g.Proper) {w : PyStr} (hw : w ∈ marginals) {R f : Cell → ℝ} {k : ℝ}
    (hf : ∀ c d, coords w d = coords w c → f d = f c) (hk : ∀ c, g.Has c → |f c| ≤ k) :
    |g.sumCells fun d => f d * R d| ≤ k * gap g R w := by
  have key : ∀ s : ℝ, |s| = 1 → 0 ≤ k * gap g R w - s * g.sumCells fun d => f d * R d := fun s hs => by
    unfold gap
    rw [← sumCells_mul, ← sumCells_mul, ← sumCells_sub]
    refine total_nonneg hg hw fun c hc => ?_
    have e : (fun d => k * (signOf g R w d * R d) - s * (f d * R d)) = fun d => k * (signOf g R w d * R d) - (s * f d) * R d := by
      funext d; ring
    rw [e, marg_sub, marg_mul_const, signOf_mul, marg_mul_of_coords (fun d hd => by rw [hf c d hd])]
    have h1 : s * f c * g.marg R w c ≤ |s * f c * g.marg R w c| := le_abs_self _
    rw [abs_mul, abs_mul, hs, one_mul] at h1
    have := mul_le_mul_of_nonneg_right (hk c hc) (abs_nonneg (g.marg R w c))
    linarith
  refine abs_le.2 ⟨?_, ?_⟩
  · have := key (-1) (by simp); linarith
  · have := key 1 (by simp); linarith

theorem nested_coords {w w' : PyStr} (hw : (w, w') ∈ nested) {c d : Cell} (h : coords w d = coords w c) : coords w' d = coords w' c := by
  obtain ⟨h1, h2, -⟩ := nested_facts _ hw
  have hs : ∀ p ∈ nested, ∀ ch ∈ PyStr.replaceX p.2, ch ∈ PyStr.replaceX p.1 := by decide +kernel
  rw [coords_letters _ (marginals_chars _ h1), coords_letters _ (marginals_chars _ h1)] at h
  rw [coords_letters _ (marginals_chars _ h2), coords_letters _ (marginals_chars _ h2)]
  refine List.map_congr_left fun ch hch => ?_
  exact List.map_inj_left.1 h ch (hs _ hw ch hch)

theorem gap_nested (hg : g.Proper) {w w' : PyStr} (hw : (w, w') ∈ nested) (R : Cell → ℝ) : gap g R w' ≤ gap g R w := by
  obtain ⟨h1, -⟩ := nested_facts _ hw
  have := gap_bound hg h1 (R := R) (f := signOf g R w') (k := 1) (fun c d h => signOf_move (nested_coords hw h))
    (fun c _ => (signOf_abs R w' c).le)
  rw [one_mul] at this
  exact (le_abs_self _).trans this

namespace Describes

theorem proper (h : Describes g L lw o q) : g.Proper := by
  cases h with
  | plain h => exact h.proper
  | parametric h => exact h.proper
  | mixture h => exact h.proper

theorem ok (h : Describes g L lw o q) : q.Ok g := by
  cases h with
  | plain h => exact tablePop_ok h.proper h.nonneg
  | parametric h => exact h.pop_ok
  | mixture h => exact h.mixOk

theorem shines (h : Describes g L lw o q) : lw = true → q.Shines g L := by
  cases h with
  | plain h hl => exact hl
  | parametric h hl => exact hl
  | mixture h hl => exact fun e => mix_shines h (hl e)

theorem table (h : Describes g L lw o q) {w : PyStr} (hw : w ∈ marginals) :
    Gives (o.getP w false lw) g w (fun c => .fin (g.marg (wtdP g L (q.cells g w) lw) w c)) := by
  have ho := h.ok
  have hg := h.proper
  have e : ∀ c, q.marginal g L lw w c / dvol g false w c = g.marg (wtdP g L (q.cells g w) lw) w c := fun c => by
    rw [Pop.marginal_eq hg ho]; simp [dvol]
  cases h with
  | plain h hl =>
    have := (IsMember.plain _ _ _ none h rfl rfl).getP_marg false lw hl hw
    exact this.congr fun c _ => by rw [e]
  | parametric h hl =>
    have := (IsMember.parametric _ _ none h rfl rfl).getP_marg false lw hl hw
    exact this.congr fun c _ => by rw [e]
  | mixture h hl h0 =>
    obtain ⟨p, h1, h2, h3⟩ := C65_marginals h false lw (fun e => mix_shines h (hl e)) w hw
    exact ⟨p, h1, h2, fun c hc => (h3 c hc).trans (congrArg Num.fin (e c))⟩

theorem meanAt (h : Describes g L lw o q) (hN : lw = false → ∀ c, q.amount g L false [] c = 1) {k : Char} (hk : k ∈ ['t','x','y','z']) :
    ∃ M, o.getMean (varOf k) lw = .ok M ∧ M.get (compIdx k) = .fin (q.mean g L lw [] k ⟨0, 0, 0, 0, 0⟩) := by
  have hab : ValidPair (varOf k) [] := by
    have : ∀ k ∈ ['t','x','y','z'], ValidPair (varOf k) [] := by decide +kernel
    exact this k hk
  have h1 : (varOf k).length = 1 := by fin_cases hk <;> rfl
  have hk' : k ∈ PyStr.replaceX (varOf k) := by fin_cases hk <;> decide
  have hg := h.proper
  have hc : g.Has ⟨0, 0, 0, 0, 0⟩ := ⟨hg.nt, hg.nv, hg.nx, hg.ny, hg.nz⟩
  have hn : ∀ c, q.amount g L lw [] c ≠ 0 := fun c => by
    cases e : lw with
    | false => rw [hN e]; norm_num
    | true =>
      have := h.shines e
      unfold Pop.Shines at this
      rw [Pop.lightOf_eq hg h.ok] at this
      rw [Pop.amount_eq hg h.ok, marg_nil]
      exact this.ne'
  have hno : ∀ c, q.norm g L lw [] c = q.amount g L lw [] c := fun c => by
    unfold Pop.norm
    split
    · next e => rw [e.2, hN e.2]
    · rfl
  have key : ∀ (c : Cell), coords [] c = [] := fun _ => rfl
  cases h with
  | plain h hl =>
    obtain ⟨M, F, e, i, v⟩ := (plain_says (ok := True) none h hl hab h1).mean
    refine ⟨M, e, ?_⟩
    have := i.2 k hk' _ hc
    rw [key, List.append_nil, v k hk' _ hc (hn _), hno] at this
    exact this
  | parametric h hl =>
    obtain ⟨M, F, e, i, v⟩ := (param_says none h hl hab h1).mean
    refine ⟨M, e, ?_⟩
    have := i.2 k hk' _ hc
    rw [key, List.append_nil, v k hk' _ hc (hn _), hno] at this
    exact this
  | mixture h hl h0 =>
    obtain ⟨M, F, e, i, v⟩ := h.mean_at hl (.inr (by simp)) hab h1
    refine ⟨M, e, ?_⟩
    have := i.2 k hk' _ hc
    rw [key, List.append_nil, v k hk' _ hc ⟨fun i hi => h0 i hi _, fun _ e => hN e _⟩] at this
    exact this

end Describes

theorem mean_sum (hg : g.Proper) (ho : q.Ok g) (hN : lw = false → ∀ c, q.amount g L false [] c = 1) {k : Char} (hk : k ∈ ['t','x','y','z']) (c : Cell) :
    q.mean g L lw [] k c = g.sumCells fun d => g.value k d * wtdP g L (q.cells g (varOf k)) lw d := by
  have hkv : k ≠ 'v' := by fin_cases hk <;> decide
  have hv : 'v' ∉ varOf k := by fin_cases hk <;> decide
  have e : q.cells g (varOf k) = q.cells g [] := by
    unfold Pop.cells pick
    rw [if_neg hv, if_neg (by simp)]
  unfold Pop.mean
  rw [e, Pop.expect_num, Pop.num_eq hg ho hkv, marg_nil]
  have ha : q.amount g L lw [] c = if lw then totalLight g L (q.cells g []) else 1 := by
    cases lw with
    | false => rw [hN rfl]; rfl
    | true => rw [Pop.amount_eq hg ho, marg_nil]; rfl
  rw [ha, div_eq_inv_mul, ← sumCells_mul]
  congr 1; funext d
  rw [wtd_wt]
  ring

theorem wtd_total (hg : g.Proper) (ho : q.Ok g) (hs : lw = true → q.Shines g L) (hN : lw = false → ∀ c, q.amount g L false [] c = 1) :
    g.sumCells (wtdP g L (q.cells g []) lw) = 1 := by
  cases lw with
  | false =>
    have := hN rfl ⟨0, 0, 0, 0, 0⟩
    rw [Pop.amount_eq hg ho, marg_nil] at this
    rw [← this]
    congr 1; funext d
    rw [wtd_wt]; simp
  | true =>
    have := hs rfl
    unfold Pop.Shines at this
    rw [Pop.lightOf_eq hg ho] at this
    have e : totalLight g L (q.cells g ['t','x','z']) = totalLight g L (q.cells g []) := by
      unfold Pop.cells pick; rw [if_neg (by decide), if_neg (by simp)]
    rw [e] at this
    have : g.sumCells (wtdP g L (q.cells g []) true) = (totalLight g L (q.cells g []))⁻¹ * totalLight g L (q.cells g []) := by
      conv_rhs => rw [totalLight, ← sumCells_mul]
      congr 1; funext d
      rw [wtd_wt, div_eq_inv_mul]
      rfl
    rw [this, inv_mul_cancel₀ (by linarith)]

/-! ### Theorems -/

/-- Two components whose distributions of some variables are close have distributions of fewer variables that are at least as close, weighted by mass
or light. For components that are not plain, the velocity is either among the fewer variables or not among the others. -/
theorem C107_distributions (h : Describes g L lw o q) (h' : Describes g L lw o' q') (w w' : PyStr) (hw : (w, w') ∈ nested)
    (hv : 'v' ∈ w → 'v' ∈ w') :
    ∃ p p' r r' d e, o.getP w false lw = .ok p ∧ o'.getP w false lw = .ok p' ∧ o.getP w' false lw = .ok r ∧ o'.getP w' false lw = .ok r' ∧
      Apart p p' d ∧ Apart r r' e ∧ e ≤ d := by
  obtain ⟨h1, h2, -⟩ := nested_facts _ hw
  obtain ⟨p, e1, f1⟩ := h.table h1
  obtain ⟨p', e2, f2⟩ := h'.table h1
  obtain ⟨r, e3, f3⟩ := h.table h2
  obtain ⟨r', e4, f4⟩ := h'.table h2
  have hsub : 'v' ∈ w' → 'v' ∈ w := by
    have : ∀ p ∈ nested, 'v' ∈ p.2 → 'v' ∈ p.1 := by decide +kernel
    exact this _ hw
  have e : ∀ s : Pop, s.cells g w' = s.cells g w := fun s => by
    unfold Pop.cells pick
    exact if_congr ⟨hsub, hv⟩ rfl rfl
  rw [e] at f3 f4
  exact ⟨p, p', r, r', _, _, e1, e2, e3, e4, apart_marg h.proper h1 f1 f2, apart_marg h.proper h2 f3 f4, gap_nested h.proper hw _⟩

/-- For plain components the velocity is like any other variable. -/
theorem C107_distributions_plain {cube cube' : IFUCube} {stored stored' : Arr Num} {ρ ρ' : Cell → ℝ} (h : BaseIs cube stored g ρ L)
    (h' : BaseIs cube' stored' g ρ' L) (hl : lw = true → 0 < totalLight g L (massP g ρ)) (hl' : lw = true → 0 < totalLight g L (massP g ρ'))
    (w w' : PyStr) (hw : (w, w') ∈ nested) :
    ∃ p p' r r' d e, getP (baseSelf cube stored) w false lw = .ok p ∧ getP (baseSelf cube' stored') w false lw = .ok p' ∧
      getP (baseSelf cube stored) w' false lw = .ok r ∧ getP (baseSelf cube' stored') w' false lw = .ok r' ∧
      Apart p p' d ∧ Apart r r' e ∧ e ≤ d := by
  obtain ⟨h1, h2, -⟩ := nested_facts _ hw
  have hd : ∀ w c, dvol g false w c = 1 := fun _ _ => rfl
  obtain ⟨p, e1, f1⟩ := getP_marg_of_contract (h.contract lw hl) false w h1
  obtain ⟨p', e2, f2⟩ := getP_marg_of_contract (h'.contract lw hl') false w h1
  obtain ⟨r, e3, f3⟩ := getP_marg_of_contract (h.contract lw hl) false w' h2
  obtain ⟨r', e4, f4⟩ := getP_marg_of_contract (h'.contract lw hl') false w' h2
  simp only [hd, div_one] at f1 f2 f3 f4
  exact ⟨p, p', r, r', _, _, e1, e2, e3, e4, apart_marg h.proper h1 f1 f2, apart_marg h.proper h2 f3 f4, gap_nested h.proper hw _⟩

/-- The means of two components differ by at most half the distance of their distributions times the distance between the first and the last bin. -/
theorem C107_means (h : Describes g L lw o q) (h' : Describes g L lw o' q') (hN : lw = false → ∀ c, q.amount g L false [] c = 1)
    (hN' : lw = false → ∀ c, q'.amount g L false [] c = 1) (k : Char) (hk : k ∈ ['t','x','y','z']) :
    ∃ M M' p p' μ μ' d, o.getMean (varOf k) lw = .ok M ∧ o'.getMean (varOf k) lw = .ok M' ∧ o.getP (varOf k) false lw = .ok p ∧
      o'.getP (varOf k) false lw = .ok p' ∧ M.get (compIdx k) = .fin μ ∧ M'.get (compIdx k) = .fin μ' ∧ Apart p p' d ∧
      |μ - μ'| ≤ (centre (g.edge k) (g.bins k - 1) - centre (g.edge k) 0) / 2 * d := by
  have hg := h.proper
  have hw : varOf k ∈ marginals := by fin_cases hk <;> decide
  obtain ⟨p, e1, f1⟩ := h.table hw
  obtain ⟨p', e2, f2⟩ := h'.table hw
  obtain ⟨M, e3, f3⟩ := h.meanAt hN hk
  obtain ⟨M', e4, f4⟩ := h'.meanAt hN' hk
  refine ⟨M, M', p, p', _, _, _, e3, e4, e1, e2, f3, f4, apart_marg hg hw f1 f2, ?_⟩
  rw [mean_sum hg h.ok hN hk, mean_sum hg h'.ok hN' hk, ← sumCells_sub]
  have hv : 'v' ∉ varOf k := by fin_cases hk <;> decide
  have ec : ∀ s : Pop, s.cells g (varOf k) = s.cells g [] := fun s => by
    unfold Pop.cells pick
    rw [if_neg hv, if_neg (by simp)]
  have t1 := wtd_total hg h.ok h.shines hN
  have t2 := wtd_total hg h'.ok h'.shines hN'
  rw [ec, ec]
  have es : g.sumCells (fun d => g.value k d * wtdP g L (q.cells g []) lw d - g.value k d * wtdP g L (q'.cells g []) lw d) =
      g.sumCells fun d => (g.value k d - (centre (g.edge k) (g.bins k - 1) + centre (g.edge k) 0) / 2) *
        (wtdP g L (q.cells g []) lw d - wtdP g L (q'.cells g []) lw d) := by
    have : (fun d => (g.value k d - (centre (g.edge k) (g.bins k - 1) + centre (g.edge k) 0) / 2) *
        (wtdP g L (q.cells g []) lw d - wtdP g L (q'.cells g []) lw d)) = fun d =>
        (g.value k d * wtdP g L (q.cells g []) lw d - g.value k d * wtdP g L (q'.cells g []) lw d) -
        (centre (g.edge k) (g.bins k - 1) + centre (g.edge k) 0) / 2 * (wtdP g L (q.cells g []) lw d - wtdP g L (q'.cells g []) lw d) := by
      funext d; ring
    rw [this, sumCells_sub (fun d => g.value k d * wtdP g L (q.cells g []) lw d - g.value k d * wtdP g L (q'.cells g []) lw d), sumCells_mul,
      sumCells_sub (wtdP g L (q.cells g []) lw), t1, t2]
    ring
  rw [es]
  refine gap_bound hg hw (fun c d e => ?_) fun c hc => ?_
  · have : g.value k d = g.value k c := by
      fin_cases hk <;> simp_all [varOf, coords, coord1, Grid.value]
    rw [this]
  · have hlt := edges_increasing hg k
    have hi : ∃ i < g.bins k, g.value k c = centre (g.edge k) i := by
      obtain ⟨c1, c2, c3, c4, c5⟩ := hc
      fin_cases hk
      · exact ⟨c.t, c1, rfl⟩
      · exact ⟨c.x, c3, rfl⟩
      · exact ⟨c.y, c4, rfl⟩
      · exact ⟨c.z, c5, rfl⟩
    obtain ⟨i, hi, e⟩ := hi
    have a1 := centres_mono hlt (Nat.zero_le i) hi
    have a2 := centres_mono hlt (i := i) (j := g.bins k - 1) (by omega) (by omega)
    rw [e, abs_le]
    constructor <;> linarith

/-- Two mixtures of the same members with different weights: their distributions differ by at most the sum of the changes of the weights, each times the
stars of the member. -/
theorem C107_weights {m m' : Mix} {n : ℕ} {ω ω' : ℕ → ℝ} {pop : ℕ → Pop} (h : MixOf m g n ω pop L) (h' : MixOf m' g n ω' pop L) (w : PyStr)
    (hw : w ∈ marginals) :
    ∃ p p' d, ∃ T : ℕ → ℝ, Mix.getP m w true false false = .ok p ∧ Mix.getP m' w true false false = .ok p' ∧ Apart p p' d ∧
      (∀ (i : ℕ) (hi : i < m.children.length), ∃ r, m.children[i].getP w false false = .ok r ∧ sumAll r = scalar (.fin (T i))) ∧
      d ≤ ∑ i : Fin n, |ω i - ω' i| * T i := by
  have hg : g.Proper := (h.member 0 (by rw [h.children]; exact h.pos)).proper
  have tab : ∀ {m : Mix} {ω : ℕ → ℝ}, MixOf m g n ω pop L →
      Gives (Mix.getP m w true false false) g w (fun c => .fin (g.marg ((mixPop n ω pop).cells g w) w c)) := fun h => by
    obtain ⟨p, h1, h2, h3⟩ := C65_marginals h false false (by simp) w hw
    refine ⟨p, h1, h2, fun c hc => (h3 c hc).trans ?_⟩
    rw [Pop.marginal_eq hg h.mixOk]
    simp [wtdP]
  obtain ⟨p, e1, f1⟩ := tab h
  obtain ⟨p', e2, f2⟩ := tab h'
  refine ⟨p, p', _, fun i => g.sumCells ((pop i).cells g w), e1, e2, apart_marg hg hw f1 f2, fun i hi => ?_, ?_⟩
  · have hm := h.member i hi
    obtain ⟨r, r1, r2⟩ := hm.getP_marg false false (by simp) hw
    refine ⟨r, r1, sumAll_marg hg hw (r2.congr fun c _ => ?_)⟩
    rw [Pop.marginal_eq hg hm.ok]
    simp [wtdP, dvol]
  · have e : (fun d => (mixPop n ω pop).cells g w d - (mixPop n ω' pop).cells g w d) = fun d => ∑ i : Fin n, (ω i - ω' i) * (pop i).cells g w d := by
      funext d
      rw [mixPop_cells, mixPop_cells]
      unfold mixP
      rw [← Finset.sum_sub_distrib]
      exact Finset.sum_congr rfl fun i _ => by ring
    rw [e]
    unfold gap
    simp only [Finset.mul_sum]
    rw [sumCells_fsum]
    refine Finset.sum_le_sum fun i _ => ?_
    rw [← sumCells_mul, ← sub_nonneg, ← sumCells_sub]
    refine sumCells_nonneg fun c hc => ?_
    have h0 : 0 ≤ (pop i).cells g w c := by
      have hm := (h.member i (by rw [h.children]; exact i.2)).ok
      unfold Pop.cells pick
      split
      · exact hm.joint c hc
      · exact div_nonneg (hm.stars c hc) (Nat.cast_nonneg _)
    have h1 := le_abs_self (signOf g (fun d => ∑ i : Fin n, (ω i - ω' i) * (pop i).cells g w d) w c * (ω i - ω' i))
    rw [abs_mul, signOf_abs, one_mul] at h1
    have := mul_le_mul_of_nonneg_right h1 h0
    linarith

theorem gap_full (R : Cell → ℝ) : gap g R ['t','v','x','z'] = g.sumCells fun c => |R c| := by
  unfold gap
  refine sumCells_has fun c hc => ?_
  have := signOf_mul (g := g) R ['t','v','x','z'] c
  rwa [marg_full hc, marg_full hc] at this

/-- Templates with fluxes of at most `B` either way: at each wavelength the datacubes of two plain components, with as many velocity bins as wavelengths,
differ over all pixels by at most `B` times the distance of their distributions. -/
theorem C107_datacube {interp : ℕ → (ℕ → ℂ) → ℝ → ℂ} {sp : Spectra} {S : ℕ → ℕ → ℕ → ℝ} {n v0 : ℕ} {cube cube' : IFUCube} {stored stored' : Arr Num}
    {ρ ρ' : Cell → ℝ} (hI : Interp interp) (h : BaseIs cube stored g ρ L) (h' : BaseIs cube' stored' g ρ' L) (hS : SpectraAre sp g S n n)
    (h0 : ZeroBin g.nv g.v v0) (hw : ∀ i < g.nv, width g.v i = sp.dv) (hmid : v0 = g.nv / 2) (hm : 6 ≤ g.nv) (hnv : g.nv = n) (B : ℝ)
    (hB : ∀ t < g.nt, ∀ z < g.nz, ∀ k < n, |S t z k| ≤ B) : ∀ batch ∈ batches, ∀ batch' ∈ batches,
    ∃ y y' p p' d, ∃ u u' : ℕ → ℕ → ℕ → ℝ, evaluateYbar interp (baseSelf cube stored) sp batch = .ok y ∧
      evaluateYbar interp (baseSelf cube' stored') sp batch' = .ok y' ∧ getP (baseSelf cube stored) ['t','v','x','z'] false false = .ok p ∧
      getP (baseSelf cube' stored') ['t','v','x','z'] false false = .ok p' ∧ Apart p p' d ∧
      (∀ k < n, ∀ i < g.nx, ∀ j < g.ny, y.get [k, i, j] = .fin (u k i j) ∧ y'.get [k, i, j] = .fin (u' k i j)) ∧
      ∀ k < n, ∑ i : Fin g.nx, ∑ j : Fin g.ny, |u k i j - u' k i j| ≤ B * d := by
  have hg := h.proper
  have hn : 0 < n := by omega
  have hv : VelocityOk g.nv g.v sp.dv v0 := by
    refine ⟨fun i hi => ?_, fun i hi => ?_, hmid⟩
    · rw [hw i hi, sub_self, abs_zero]; positivity
    · have h1 := hg.v i (by omega)
      have h2 := hg.v (i + 1) hi
      unfold centre
      linarith
  have cubeOf : ∀ {cube : IFUCube} {stored : Arr Num} {ρ : Cell → ℝ}, BaseIs cube stored g ρ L → ∀ batch ∈ batches,
      ∃ y, evaluateYbar interp (baseSelf cube stored) sp batch = .ok y ∧ ∀ k < n, ∀ i < g.nx, ∀ j < g.ny, y.get [k, i, j] =
        .fin (∑ t : Fin g.nt, ∑ z : Fin g.nz, ∑ v : Fin g.nv, S t z (((k : ℤ) - ((v : ℤ) - v0)) % g.nv).toNat * massP g ρ ⟨t, v, i, j, z⟩) := by
    intro cube stored ρ h batch hb
    obtain ⟨y, e1, e2⟩ := plain_batches hI h hn hS h0 hv hm hb
    obtain ⟨y0, f1, f2⟩ := plain_batches hI h hn hS h0 hv hm (batch := "none".toList) (by simp [batches])
    obtain ⟨r, r1, r2⟩ := C26_convolution hI h hS h0 hv hm hnv
    obtain rfl : y0 = r := by rw [f1] at r1; exact Except.ok.inj r1
    refine ⟨y, e1, fun k hk i hi j hj => (e2.2 k hk i hi j hj).trans ((f2.2 k hk i hi j hj).symm.trans ((r2 k hk i hi j hj).trans ?_))⟩
    subst hnv
    congr 1
    refine Finset.sum_congr rfl fun t _ => Finset.sum_congr rfl fun z _ => Finset.sum_congr rfl fun v _ => ?_
    simp only [massP, Grid.cellVolume, hw v v.2]
  intro batch hb batch' hb'
  obtain ⟨y, y1, y2⟩ := cubeOf h batch hb
  obtain ⟨y', y1', y2'⟩ := cubeOf h' batch' hb'
  have hd : ∀ w c, dvol g false w c = 1 := fun _ _ => rfl
  obtain ⟨p, e1, f1⟩ := getP_marg_of_contract (h.contract false (by simp)) false ['t','v','x','z'] (by decide)
  obtain ⟨p', e2, f2⟩ := getP_marg_of_contract (h'.contract false (by simp)) false ['t','v','x','z'] (by decide)
  simp only [hd, div_one] at f1 f2
  refine ⟨y, y', p, p', _, _, _, y1, y1', e1, e2, apart_marg hg (by decide) f1 f2, fun k hk i hi j hj => ⟨y2 k hk i hi j hj, y2' k hk i hi j hj⟩, fun k hk => ?_⟩
  rw [gap_full]
  have hmod : ∀ v : ℕ, (((k : ℤ) - ((v : ℤ) - v0)) % g.nv).toNat < n := fun v => by
    have := Int.emod_lt_of_pos ((k : ℤ) - ((v : ℤ) - v0)) (b := g.nv) (by omega)
    have := Int.emod_nonneg ((k : ℤ) - ((v : ℤ) - v0)) (b := g.nv) (by omega)
    omega
  have hsum : ∀ F : Cell → ℝ, g.sumCells F = ∑ i : Fin g.nx, ∑ j : Fin g.ny, ∑ t : Fin g.nt, ∑ z : Fin g.nz, ∑ v : Fin g.nv, F ⟨t, v, i, j, z⟩ := fun F => by
    rw [sumCells_sumV]
    unfold Ingredients.sumTXZ
    rw [Finset.sum_comm]
    refine Finset.sum_congr rfl fun i _ => ?_
    rw [Finset.sum_comm]
  rw [← sumCells_mul, hsum]
  refine Finset.sum_le_sum fun i _ => Finset.sum_le_sum fun j _ => ?_
  simp only [← Finset.sum_sub_distrib, ← mul_sub]
  refine (Finset.abs_sum_le_sum_abs _ _).trans (Finset.sum_le_sum fun t _ => ?_)
  refine (Finset.abs_sum_le_sum_abs _ _).trans (Finset.sum_le_sum fun z _ => ?_)
  refine (Finset.abs_sum_le_sum_abs _ _).trans (Finset.sum_le_sum fun v _ => ?_)
  rw [abs_mul]
  exact mul_le_mul_of_nonneg_right (hB t t.2 z z.2 _ (hmod v)) (abs_nonneg _)

/-! ### A case that meets the hypotheses -/

/-- The disk of the examples and the mixture of it with a plain component, weighted by light: positions are at least as close as positions and ages, and the
mean positions differ by at most half the width of the image times that. -/
example : ∃ (m : Mix) (p : Param), ∃ A A' B B' C C' d e M M' μ μ', getP p.self ['t','x'] false true = .ok A ∧ Mix.getP m ['t','x'] true false true = .ok A' ∧
    getP p.self ['x'] false true = .ok B ∧ Mix.getP m ['x'] true false true = .ok B' ∧ Apart A A' d ∧ Apart B B' e ∧ e ≤ d ∧
    getP p.self ['v'] false true = .ok C ∧ Mix.getP m ['v'] true false true = .ok C' ∧
    Component.getMean p.self ['x'] true = .ok M ∧ Mix.getMean m ['x'] true = .ok M' ∧ M.get [0] = .fin μ ∧ M'.get [0] = .fin μ' ∧
    |μ - μ'| ≤ (4 / 5 - -4 / 5) / 2 * e := by
  obtain ⟨cube, m, p, mi, -, hP, -, hM, hl⟩ := demoPopMix 1
  have hS : (mi.pop demoGrid).Shines demoGrid demoL := hl 0 (by norm_num)
  have d1 : Describes demoGrid demoL true (obj p.self) (mi.pop demoGrid) := .parametric hP fun _ => hS
  have d2 : Describes demoGrid demoL true (Mix.obj m) _ := .mixture hM (fun _ => hl) fun i hi c => by
    have hm := hM.member i (by rw [hM.children]; exact hi)
    have := hl i hi
    unfold Pop.Shines at this
    rw [Pop.lightOf_eq demoGrid_proper hm.ok] at this
    rw [Pop.amount_eq demoGrid_proper hm.ok, marg_nil]
    exact this.ne'
  obtain ⟨A, A', B, B', d, e, a1, a2, a3, a4, a5, a6, a7⟩ := C107_distributions d1 d2 ['t','x'] ['x'] (by decide) (by decide)
  obtain ⟨C, C', -, -, -, -, c1, c2, -⟩ := C107_distributions d1 d2 ['v'] ['v'] (by decide) (by decide)
  obtain ⟨M, M', B2, B2', μ, μ', e2, m1, m2, m3, m4, m5, m6, m7, m8⟩ := C107_means d1 d2 (by simp) (by simp) 'x' (by decide)
  obtain rfl : B = B2 := by injection a3.symm.trans m3
  obtain rfl : B' = B2' := by injection a4.symm.trans m4
  obtain rfl : e = e2 := by
    obtain ⟨r, r1, r2⟩ := a6
    obtain ⟨r', r1', r2'⟩ := m7
    obtain rfl : r = r' := by injection r1.symm.trans r1'
    have := congrFun (congrArg Arr.get (r2.symm.trans r2')) []
    simpa [scalar] using this
  refine ⟨m, p, A, A', B, B', C, C', d, e, M, M', μ, μ', a1, a2, a3, a4, a5, a6, a7, c1, c2, m1, m2, m5, m6, ?_⟩
  have e0 : centre (demoGrid.edge 'x') (demoGrid.bins 'x' - 1) = 4 / 5 := by
    show centre demoGrid.x 4 = _
    norm_num [demoGrid, cubeGrid, centre, evenEdges]
  have e1 : centre (demoGrid.edge 'x') 0 = -4 / 5 := by
    show centre demoGrid.x 0 = _
    norm_num [demoGrid, cubeGrid, centre, evenEdges]
  rwa [e0, e1] at m8

/-- Plain components: two normalised ones, by mass; from all variables to velocities. -/
example : ∃ cube : IFUCube, ∃ p p' r r' d e, getP (baseSelf cube demoStored) ['t','v'] false false = .ok p ∧
    getP (baseSelf cube demoStored1) ['t','v'] false false = .ok p' ∧ getP (baseSelf cube demoStored) ['t'] false false = .ok r ∧
    getP (baseSelf cube demoStored1) ['t'] false false = .ok r' ∧ Apart p p' d ∧ Apart r r' e ∧ e ≤ d := by
  obtain ⟨cube, -, -, hB, -⟩ := demoBase
  have hB1 : BaseIs cube demoStored1 demoGrid demoRho1 demoL :=
    ⟨hB.proper, hB.cubeIs, ⟨rfl, fun c _ => rfl⟩, fun c => (demoRho1_pos c).le, hB.light, hB.lightNonneg⟩
  exact ⟨cube, C107_distributions_plain hB hB1 (by simp) (by simp) ['t','v'] ['t'] (by decide)⟩

/-- Weights 1/4 and 3/4 changed to 1/2 and 1/2. -/
example : ∃ (m m' : Mix), ∃ p p' d, ∃ T : ℕ → ℝ, m.weights = [1 / 4, 3 / 4] ∧ m'.weights = [1 / 2, 1 / 2] ∧ Mix.getP m ['t','z'] true false false = .ok p ∧
    Mix.getP m' ['t','z'] true false false = .ok p' ∧ Apart p p' d ∧ d ≤ 1 / 4 * T 0 + 1 / 4 * T 1 ∧
    ∀ (i : ℕ) (hi : i < m.children.length), ∃ r, m.children[i].getP ['t','z'] false false = .ok r ∧ sumAll r = scalar (.fin (T i)) := by
  obtain ⟨cube, m, p, mi, hi, -, -, hM, -⟩ := demoPopMix 1
  have hM' : MixOf { m with weights := [1 / 2, 1 / 2] } demoGrid 2 (fun _ => 1 / 2) (fun i => if i = 0 then mi.pop demoGrid else
      tablePop demoGrid demoRho) demoL :=
    ⟨by norm_num, hM.cubeIs, hM.light, hM.children, by simp [List.range_succ], fun i _ => by norm_num, hM.member⟩
  obtain ⟨p, p', d, T, h1, h2, h3, h4, h5⟩ := C107_weights hM hM' ['t','z'] (by decide)
  refine ⟨m, _, p, p', d, T, ?_, rfl, h1, h2, h3, ?_, h4⟩
  · rw [hM.weights]; simp [List.range_succ]
  · refine h5.trans (le_of_eq ?_)
    norm_num [Fin.sum_univ_two, abs_of_pos, abs_of_neg]

/-- Datacubes: two uniform components, one with twice the density of the other, 7 velocity bins, templates with one line. -/
example {interp : ℕ → (ℕ → ℂ) → ℝ → ℂ} (hI : Interp interp) : ∃ (cube : IFUCube) (stored : Arr Num) (sp : Spectra),
    BaseIs cube (uniformStored 2 3 7) (uniformGrid 2 3 7 (-70, 70)) (fun _ => 1) demoL ∧
    BaseIs cube stored (uniformGrid 2 3 7 (-70, 70)) (fun _ => 2) demoL ∧ SpectraAre sp (uniformGrid 2 3 7 (-70, 70)) oneLine 7 7 ∧
    ∃ p p' d, getP (baseSelf cube (uniformStored 2 3 7)) ['t','v','x','z'] false false = .ok p ∧
      getP (baseSelf cube stored) ['t','v','x','z'] false false = .ok p' ∧ Apart p p' d ∧
      ∃ y y', ∃ u u' : ℕ → ℕ → ℕ → ℝ, evaluateYbar interp (baseSelf cube (uniformStored 2 3 7)) sp "none".toList = .ok y ∧
        evaluateYbar interp (baseSelf cube stored) sp "spaxel".toList = .ok y' ∧ y.get [3, 1, 2] = .fin (u 3 1 2) ∧ y'.get [3, 1, 2] = .fin (u' 3 1 2) ∧
        ∑ i : Fin 2, ∑ j : Fin 3, |u 3 i j - u' 3 i j| ≤ 1 * d := by
  obtain ⟨cube, sp, -, h, -, hdv, h5, h6, h7⟩ := ybar_demo
  obtain ⟨sp', hS, hdv'⟩ := plainSpectra_exist oneLine
  have h2 : BaseIs cube ⟨(uniformStored 2 3 7).shape, fun _ => Num.lg 2⟩ (uniformGrid 2 3 7 (-70, 70)) (fun _ => 2) demoL :=
    ⟨h.proper, h.cubeIs, ⟨h.stored.1, fun _ _ => rfl⟩, fun _ => by norm_num, h.light, h.lightNonneg⟩
  obtain ⟨y, y', p, p', d, u, u', a1, a2, a3, a4, a5, a6, a7⟩ := C107_datacube hI h h2 hS h5 (fun i hi => (h7 i hi).trans (hdv.trans hdv'.symm)) rfl
    (by show 6 ≤ 7; norm_num) rfl 1 (fun t _ z _ k _ => by unfold oneLine; split_ifs <;> norm_num) "none".toList (by decide) "spaxel".toList (by decide)
  obtain ⟨b1, b2⟩ := a6 3 (by norm_num) 1 (by show 1 < 2; norm_num) 2 (by show 2 < 3; norm_num)
  exact ⟨cube, _, sp', h, h2, hS, p, p', d, a3, a4, a5, y, y', u, u', a1, a2, b1, b2, a7 3 (by norm_num)⟩

end PKM
