import Verif.Props.PopDerived
import Verif.Props.Moments
import Verif.Props.Truncation
import Verif.Props.Coarse

/-!
# C90: means, variances and covariances of groups of stars add up to those of all stars

Grouping the stars by the variables `b`: the mean of all stars is the average of the means of the groups, weighted by the
probabilities of the groups. Their variance is the average of the variances within the groups, plus the variance of the
means of the groups; the same holds for covariances. Everything is stated in terms of what `get_p`, `get_mean`,
`get_variance` and `get_covariance` return. Entries of groups without stars are not numbers; they do not count.
-/

open scoped Classical
open MeasureTheory

noncomputable section

namespace PKM
open Np Component

/-- The number in an array; anything if there is none. -/
def entry (A : Arr Num) (i : List ℕ) : ℝ := (A.get i).toReal

/-- Laws of total expectation and of total variance of the quantity `k`, for the groups of stars by `b`. -/
def SpreadAdds (o : Obj) (g : Grid) (lw : Bool) (k : Char) (b : PyStr) : Prop :=
  ∃ (p m V M T : Arr Num) (μ σ2 : ℝ), o.getP b false lw = .ok p ∧
    o.getMean (condStr (varOf k) b) lw = .ok m ∧ o.getVariance (condStr (varOf k) b) lw = .ok V ∧
    o.getMean (varOf k) lw = .ok M ∧ o.getVariance (varOf k) lw = .ok T ∧
    M.get (compIdx k) = .fin μ ∧ T.get (compIdx k) = .fin σ2 ∧
    (∀ c, g.Has c → ∃ r : ℝ, 0 ≤ r ∧ p.get (coords b c) = .fin r ∧
      (r ≠ 0 → ∃ x s : ℝ, m.get (compIdx k ++ coords b c) = .fin x ∧ V.get (compIdx k ++ coords b c) = .fin s ∧ 0 ≤ s)) ∧
    sumShape (g.shapeOf b) (fun i => entry p i) = 1 ∧
    μ = sumShape (g.shapeOf b) (fun i => entry p i * entry m (compIdx k ++ i)) ∧
    σ2 = sumShape (g.shapeOf b) (fun i => entry p i * (entry V (compIdx k ++ i) + (entry m (compIdx k ++ i) - μ) ^ 2))

/-- Law of total covariance of the quantities `k`, `k'`, for the groups of stars by `b`. -/
def CovarianceAdds (o : Obj) (g : Grid) (lw : Bool) (k k' : Char) (b : PyStr) : Prop :=
  ∃ (p m m' C M M' T : Arr Num) (μ μ' γ : ℝ), o.getP b false lw = .ok p ∧
    o.getMean (condStr (varOf k) b) lw = .ok m ∧ o.getMean (condStr (varOf k') b) lw = .ok m' ∧
    o.getCovariance (condStr (varOf k ++ varOf k') b) lw = .ok C ∧
    o.getMean (varOf k) lw = .ok M ∧ o.getMean (varOf k') lw = .ok M' ∧ o.getCovariance (varOf k ++ varOf k') lw = .ok T ∧
    M.get (compIdx k) = .fin μ ∧ M'.get (compIdx k') = .fin μ' ∧ T.get (compIdx k ++ compIdx k') = .fin γ ∧
    (∀ c, g.Has c → ∃ r : ℝ, 0 ≤ r ∧ p.get (coords b c) = .fin r ∧ (r ≠ 0 → ∃ x x' s : ℝ, m.get (compIdx k ++ coords b c) = .fin x ∧
      m'.get (compIdx k' ++ coords b c) = .fin x' ∧ C.get (compIdx k ++ compIdx k' ++ coords b c) = .fin s)) ∧
    γ = sumShape (g.shapeOf b) (fun i => entry p i * (entry C (compIdx k ++ compIdx k' ++ i) +
      (entry m (compIdx k ++ i) - μ) * (entry m' (compIdx k' ++ i) - μ')))

variable {g : Grid} {L : ℕ → ℕ → ℝ} {lw : Bool} {a b : PyStr} {q : Pop}

/-! ### Sums over groups -/

theorem sum_groups (hg : g.Proper) (hb : b ∈ marginals) {F : List ℕ → ℝ} {P : Cell → ℝ}
    (h : ∀ c, g.Has c → F (coords b c) = g.marg P b c) : sumShape (g.shapeOf b) F = g.sumCells P := by
  have hf : ∀ w ∈ marginals, (PyStr.replaceX w).Nodup ∧
      (∀ ch ∈ PyStr.replaceX w, ch ∈ ['t','v','x','y','z']) := by decide +kernel
  have hc : g.Has ⟨0, 0, 0, 0, 0⟩ := ⟨hg.nt, hg.nv, hg.nx, hg.ny, hg.nz⟩
  obtain ⟨k1, k2⟩ := hf b hb
  rw [shapeOf_letters g (marginals_chars b hb), sumShape_letters g _ _ (g.marg P b) ⟨0, 0, 0, 0, 0⟩ k1 k2 hc, sumOver_marg_total g _ hb hc]
  intro d hd
  rw [← coords_letters d (marginals_chars b hb), h d hd]

/-- Groups with probabilities `p`, means `m`, `m'` and covariances `C`, of stars with the cell distributions `A` (all
stars), `X`, `Y`, `W` (sums of the quantities and of their product). -/
theorem groups_add (hg : g.Proper) (hb : b ∈ marginals) {A X Y W : Cell → ℝ} {p m m' C : List ℕ → ℝ}
    (hp : ∀ c, g.Has c → p (coords b c) = g.marg A b c)
    (hx : ∀ c, g.Has c → p (coords b c) * m (coords b c) = g.marg X b c)
    (hy : ∀ c, g.Has c → p (coords b c) * m' (coords b c) = g.marg Y b c)
    (hw : ∀ c, g.Has c → p (coords b c) * C (coords b c) = g.marg W b c - p (coords b c) * (m (coords b c) * m' (coords b c)))
    (h1 : g.sumCells A = 1) :
    sumShape (g.shapeOf b) p = 1 ∧ sumShape (g.shapeOf b) (fun i => p i * m i) = g.sumCells X ∧
    sumShape (g.shapeOf b) (fun i => p i * (C i + (m i - g.sumCells X) * (m' i - g.sumCells Y))) =
      g.sumCells W - g.sumCells X * g.sumCells Y := by
  refine ⟨by rw [sum_groups hg hb hp, h1], sum_groups hg hb hx, ?_⟩
  rw [sum_groups hg hb (P := fun d => W d + (-g.sumCells Y * X d + (-g.sumCells X * Y d + g.sumCells X * g.sumCells Y * A d)))]
  · rw [← marg_nil (c := ⟨0, 0, 0, 0, 0⟩), marg_add, marg_add, marg_add, marg_smul, marg_smul, marg_smul]
    simp only [marg_nil]
    rw [h1]; ring
  · intro c hc
    rw [marg_add, marg_add, marg_add, marg_smul, marg_smul, marg_smul, ← hp c hc, ← hx c hc, ← hy c hc]
    linear_combination hw c hc

/-! ### Populations -/

/-- Share of a cell in the sums of a function of a quantity; velocities are spread evenly over the bins, as only groups
without regard to velocity are considered. -/
def Pop.share (q : Pop) (g : Grid) (L : ℕ → ℕ → ℝ) (lw : Bool) (k : Char) (φ : ℝ → ℝ) (d : Cell) : ℝ :=
  if k = 'v' then Pop.wt L lw d * q.vel φ d / g.nv else φ (g.value k d) * (Pop.wt L lw d * q.flat g d)

theorem cells_noV (hv : 'v' ∉ b) : q.cells g b = q.flat g := by simp [Pop.cells, pick, hv]

theorem num_share (hg : g.Proper) (hok : q.Ok g) (hv : 'v' ∉ b) (k : Char) (φ : ℝ → ℝ) (c : Cell) :
    q.num g L lw b k φ c = g.marg (q.share g L lw k φ) b c := by
  by_cases hk : k = 'v'
  · subst hk
    unfold Pop.num Pop.share Grid.marg
    simp only [if_true]
    rw [← sumCells_noV hg]
    · congr 1; funext d
      split
      · rfl
      · simp
    · intro d v
      rw [coords_noV hv, wt_noV, hok.noV]
  · rw [Pop.num_eq hg hok hk, cells_noV hv]
    unfold Pop.share
    simp only [if_neg hk]

theorem amount_share (hg : g.Proper) (hok : q.Ok g) (hv : 'v' ∉ b) (c : Cell) :
    q.amount g L lw b c = g.marg (fun d => Pop.wt L lw d * q.flat g d) b c := by
  rw [Pop.amount_eq hg hok, cells_noV hv]

theorem empty_functional {E : Polynomial ℝ →ₗ[ℝ] ℝ} (hE : ∀ p, 0 ≤ E (p ^ 2)) (h1 : E 1 = 0) (p : Polynomial ℝ) : E p = 0 := by
  have key : ∀ s : ℝ, 0 ≤ 2 * s * E p + E (p ^ 2) := fun s => by
    have := hE (Polynomial.C s + p)
    have e : (Polynomial.C s + p) ^ 2 = s ^ 2 • (1 : Polynomial ℝ) + (2 * s) • p + p ^ 2 := by
      simp only [Polynomial.smul_eq_C_mul, Polynomial.C_mul, Polynomial.C_pow, Polynomial.C_ofNat, mul_one]; ring
    rw [e, map_add, map_add, map_smul, map_smul, h1] at this
    simpa using this
  by_contra hne
  have := key (-(E (p ^ 2) + 1) / (2 * E p))
  have e : 2 * (-(E (p ^ 2) + 1) / (2 * E p)) * E p = -(E (p ^ 2) + 1) := by field_simp
  rw [e] at this
  linarith

/-- Where there are no stars there is nothing to add. -/
theorem num_empty (hg : g.Proper) (hok : q.Ok g) (hP : q.Poly g) (hL : ∀ t z, 0 ≤ L t z) (hv : 'v' ∉ b) (k : Char)
    (p : Polynomial ℝ) {c : Cell} (h0 : q.amount g L lw b c = 0) : q.num g L lw b k (fun x => p.eval x) c = 0 := by
  rw [num_share hg hok hv]
  have hnn : ∀ d, g.Has d → 0 ≤ Pop.wt L lw d * q.flat g d := fun d hd =>
    mul_nonneg (wt_nonneg hL d) (MixOf.flat_nonneg hok hd)
  rw [amount_share hg hok hv] at h0
  by_cases hk : k = 'v'
  · subst hk
    obtain ⟨E, hE1, hE2⟩ := hP
    have hz := fun d hd => sumCells_zero_term (f := fun d => if coords b d = coords b c then Pop.wt L lw d * q.flat g d else 0)
      (fun d hd => by split_ifs; exacts [hnn d hd, le_rfl]) h0 (c := d) hd
    have : g.marg (q.share g L lw 'v' (fun x => p.eval x)) b c = g.marg (fun _ => (0 : ℝ) * 0) b c := marg_congr fun d hd e => by
      have h := hz d hd
      rw [if_pos e] at h
      unfold Pop.share
      rw [if_pos rfl]
      rcases mul_eq_zero.1 h with h | h
      · rw [h]; simp
      · have hn : (g.nv : ℝ) ≠ 0 := by have := hg.nv; positivity
        have hs : q.vel (fun x => (1 : Polynomial ℝ).eval x) d = 0 := by
          simp only [Polynomial.eval_one]
          unfold Pop.flat at h
          exact (div_eq_zero_iff.1 h).resolve_right hn
        rw [hE1 d 1 hd] at hs
        rw [hE1 d p hd, empty_functional (hE2 d hd) hs]; simp
    rw [this, marg_smul, zero_mul]
  · unfold Pop.share
    simp only [if_neg hk]
    exact marg_zero_mul hnn h0

theorem cov_formula (hg : g.Proper) (hok : q.Ok g) (hv : 'v' ∉ b) {k k' : Char} (hk : k ≠ 'v') (hk' : k' ≠ 'v') {c : Cell}
    (h0 : q.amount g L lw b c ≠ 0) :
    q.cov g L lw b k k' c = g.marg (fun d => g.value k d * g.value k' d * (Pop.wt L lw d * q.flat g d)) b c / q.amount g L lw b c -
      q.mean g L lw b k c * q.mean g L lw b k' c := by
  unfold Pop.cov
  rw [expectOf_eq hg hok (fun d v => by rw [value_noV hk, value_noV hk']), cells_noV hv]
  have e1 : q.mean g L lw b k c * q.amount g L lw b c = g.marg (fun d => g.value k d * (Pop.wt L lw d * q.flat g d)) b c := by
    unfold Pop.mean
    rw [Pop.expect_num, div_mul_cancel₀ _ h0, num_share hg hok hv]
    unfold Pop.share
    simp only [if_neg hk]
  have e2 : q.mean g L lw b k' c * q.amount g L lw b c = g.marg (fun d => g.value k' d * (Pop.wt L lw d * q.flat g d)) b c := by
    unfold Pop.mean
    rw [Pop.expect_num, div_mul_cancel₀ _ h0, num_share hg hok hv]
    unfold Pop.share
    simp only [if_neg hk']
  have e3 := amount_share (L := L) (lw := lw) hg hok hv c
  generalize q.mean g L lw b k c = μ at *
  generalize q.mean g L lw b k' c = μ' at *
  have : (fun d => (g.value k d - μ) * (g.value k' d - μ') * (Pop.wt L lw d * q.flat g d)) = fun d =>
      g.value k d * g.value k' d * (Pop.wt L lw d * q.flat g d) + (-μ' * (g.value k d * (Pop.wt L lw d * q.flat g d)) +
        (-μ * (g.value k' d * (Pop.wt L lw d * q.flat g d)) + μ * μ' * (Pop.wt L lw d * q.flat g d))) := by
    funext d; ring
  rw [this, marg_add, marg_add, marg_add, marg_smul, marg_smul, marg_smul, ← e1, ← e2, ← e3, div_eq_iff h0, sub_mul, div_mul_cancel₀ _ h0]
  ring

section
variable {o : Obj} {ask ask' : PyStr → Prop} {good good' : Cell → Prop}

theorem share_const (k : Char) : q.share g L lw k (fun _ => 1) = fun d => Pop.wt L lw d * q.flat g d := by
  funext d
  unfold Pop.share Pop.flat Pop.stars
  split
  · rw [mul_div_assoc]
  · rw [one_mul]

theorem origin_has (hg : g.Proper) : g.Has ⟨0, 0, 0, 0, 0⟩ := ⟨hg.nt, hg.nv, hg.nx, hg.ny, hg.nz⟩

theorem pop_total (hP : PopAt o q g L lw [] ask' good') (hg' : good' ⟨0, 0, 0, 0, 0⟩) :
    q.amount g L lw [] ⟨0, 0, 0, 0, 0⟩ = (if lw then q.lightOf g L [] else 1) := by
  cases lw with
  | false => exact (hP.stars _ (origin_has hP.proper) hg').2 rfl rfl
  | true => rw [amount_nil_light hP.proper hP.ok, if_pos rfl]

theorem lightOf_noV (hv : 'v' ∉ b) : q.lightOf g L b = q.lightOf g L [] := by simp [Pop.lightOf, hv]

theorem pop_spread (hP : PopAt o q g L lw b ask good) (hN : PopAt o q g L lw [] ask' good')
    (hp : ∃ p, o.getP b false lw = .ok p ∧ ∀ c, g.Has c → p.get (coords b c) = .fin (q.marginal g L lw b c))
    (hgood : ∀ c, g.Has c → q.amount g L lw b c ≠ 0 → good c) (hgood' : good' ⟨0, 0, 0, 0, 0⟩) (hv : 'v' ∉ b)
    {k : Char} (hk : k ∈ ['t','v','x','y','z']) (hb : (varOf k, b) ∈ conditionals) (ha : ask (varOf k)) (ha' : ask' (varOf k)) :
    SpreadAdds o g lw k b := by
  have hg := hP.proper
  have hok := hP.ok
  have hc0 := origin_has hg
  obtain ⟨-, hb0⟩ := conditionals_ne_nil hb
  obtain ⟨-, -, -, -, h5, -, -, h8, h9, -⟩ := conditionals_letters _ hb
  obtain ⟨h1, h2, -⟩ := quantity_facts hk
  obtain ⟨m, Fm, em, im, vm⟩ := hP.mean _ (.inr hb) h1
  obtain ⟨M, FM, eM, iM, vM⟩ := hN.mean _ (.inl ⟨rfl, h8⟩) h1
  obtain ⟨V, _, eV, -, -, -, vV⟩ := hP.spread hk (.inr hb) ha
  obtain ⟨T, _, eT, -, -, -, vT⟩ := hN.spread hk (.inl ⟨rfl, h8⟩) ha'
  obtain ⟨p, ep, vp⟩ := hp
  rw [distStr, if_neg hb0] at em eV
  rw [distStr, if_pos rfl] at eM eT
  obtain ⟨t1, -, t3, -⟩ := vT _ hc0 hgood'
  have tM := (iM.2 k h2 _ hc0).trans (vM k h2 _ hc0 hgood')
  simp only [coords, List.flatMap_nil, List.append_nil] at t1 tM
  have hT := hok.light_b (lw := lw) hg hP.lightNonneg hP.light b
  have htot := pop_total hN hgood'
  rw [← lightOf_noV (b := b) hv] at htot
  set Z := (if lw then q.lightOf g L b else 1) with hZ
  have hm : ∀ c, q.marginal g L lw b c = q.amount g L lw b c / Z := fun _ => rfl
  have hnn : ∀ c, g.Has c → 0 ≤ q.marginal g L lw b c := fun c hc => by
    rw [Pop.marginal_eq hg hok]
    exact marg_nonneg (fun d hd => by
      rw [wtd_wt]
      refine div_nonneg (mul_nonneg (wt_nonneg hP.lightNonneg d) (hok.cells_nonneg b hd)) ?_
      split
      · exact sumCells_nonneg fun d hd => mul_nonneg (hP.lightNonneg _ _) (hok.cells_nonneg b hd)
      · exact zero_le_one) b c
  -- entries of the answers
  have hpe : ∀ c, g.Has c → entry p (coords b c) = q.marginal g L lw b c := fun c hc => by
    unfold entry; rw [vp c hc]; rfl
  have hme : ∀ c, g.Has c → q.amount g L lw b c ≠ 0 → m.get (compIdx k ++ coords b c) = .fin (q.mean g L lw b k c) := fun c hc h0 =>
    (im.2 k h2 c hc).trans (vm k h2 c hc (hgood c hc h0))
  have hX : ∀ c, g.Has c → entry p (coords b c) * entry m (compIdx k ++ coords b c) =
      g.marg (fun d => q.share g L lw k (fun x => x) d / Z) b c := fun c hc => by
    rw [hpe c hc, hm, marg_div_const, ← num_share hg hok hv]
    by_cases h0 : q.amount g L lw b c = 0
    · have := num_empty (L := L) (lw := lw) hg hok hP.poly hP.lightNonneg hv k Polynomial.X h0
      simp only [Polynomial.eval_X] at this
      rw [h0, this]; simp
    · unfold entry
      rw [hme c hc h0]
      show _ * (q.num g L lw b k (fun x => x) c / q.amount g L lw b c) = _
      field_simp
  have key := groups_add (p := entry p) (m := fun i => entry m (compIdx k ++ i)) (m' := fun i => entry m (compIdx k ++ i))
    (C := fun i => entry V (compIdx k ++ i)) hg h9
    (A := fun d => q.share g L lw k (fun _ => 1) d / Z) (X := fun d => q.share g L lw k (fun x => x) d / Z)
    (Y := fun d => q.share g L lw k (fun x => x) d / Z) (W := fun d => q.share g L lw k (fun x => x ^ 2) d / Z)
    (fun c hc => by
      rw [hpe c hc, hm, amount_share hg hok hv, marg_div_const]
      simp only [share_const k])
    hX hX (fun c hc => ?_) ?_
  rotate_left
  · rw [hpe c hc, hm, marg_div_const, ← num_share hg hok hv]
    by_cases h0 : q.amount g L lw b c = 0
    · have := num_empty (L := L) (lw := lw) hg hok hP.poly hP.lightNonneg hv k (Polynomial.X ^ 2) h0
      simp only [Polynomial.eval_X, Polynomial.eval_pow] at this
      rw [h0, this]; simp
    · unfold entry
      obtain ⟨v1, -, v3, -⟩ := vV c hc (hgood c hc h0)
      rw [hme c hc h0, v1, v3, Pop.expect_num]
      simp only [Num.toReal]
      have : q.amount g L lw b c / Z * (q.num g L lw b k (fun x => x ^ 2) c / q.amount g L lw b c) =
          q.num g L lw b k (fun x => x ^ 2) c / Z := by field_simp
      rw [mul_sub, this]; ring
  · rw [← marg_nil (c := ⟨0, 0, 0, 0, 0⟩), marg_div_const]
    simp only [share_const k]
    rw [← amount_share hg hok (by simp), htot, div_self hT]
  · obtain ⟨k1, k2, k3⟩ := key
    have e1 : g.sumCells (fun d => q.share g L lw k (fun x => x) d / Z) = q.mean g L lw [] k ⟨0, 0, 0, 0, 0⟩ := by
      rw [← marg_nil (c := ⟨0, 0, 0, 0, 0⟩), marg_div_const, ← num_share hg hok (by simp), ← htot]; rfl
    have e2 : g.sumCells (fun d => q.share g L lw k (fun x => x ^ 2) d / Z) = q.expect g L lw [] k (fun x => x ^ 2) ⟨0, 0, 0, 0, 0⟩ := by
      rw [← marg_nil (c := ⟨0, 0, 0, 0, 0⟩), marg_div_const, ← num_share hg hok (by simp), ← htot]; rfl
    rw [e1, e2] at k3
    rw [e1] at k2
    refine ⟨p, m, V, M, T, _, _, ep, em, eV, eM, eT, tM, t1, fun c hc => ⟨_, hnn c hc, vp c hc, fun h0 => ?_⟩, k1, k2.symm, ?_⟩
    · have h0' : q.amount g L lw b c ≠ 0 := fun e => h0 (by rw [hm, e, zero_div])
      obtain ⟨v1, v2, -⟩ := vV c hc (hgood c hc h0')
      exact ⟨_, _, hme c hc h0', v1, v2⟩
    · rw [t3, sq (q.mean g L lw [] k _), ← k3]
      simp only [sq]
theorem pop_covariance (hP : PopAt o q g L lw b ask good) (hN : PopAt o q g L lw [] ask' good')
    (hp : ∃ p, o.getP b false lw = .ok p ∧ ∀ c, g.Has c → p.get (coords b c) = .fin (q.marginal g L lw b c))
    (hgood : ∀ c, g.Has c → q.amount g L lw b c ≠ 0 → good c) (hgood' : good' ⟨0, 0, 0, 0, 0⟩) (hv : 'v' ∉ b)
    {k k' : Char} (hk : k ∈ ['t','x','y','z']) (hk' : k' ∈ ['t','x','y','z']) (hb : (varOf k ++ varOf k', b) ∈ conditionals) :
    CovarianceAdds o g lw k k' b := by
  have hg := hP.proper
  have hok := hP.ok
  have hc0 := origin_has hg
  have hkv : k ≠ 'v' := by rintro rfl; exact absurd hk (by decide)
  have hkv' : k' ≠ 'v' := by rintro rfl; exact absurd hk' (by decide)
  have hk5 : k ∈ ['t','v','x','y','z'] := by simp only [List.mem_cons, List.not_mem_nil, or_false] at hk ⊢; tauto
  have hk5' : k' ∈ ['t','v','x','y','z'] := by simp only [List.mem_cons, List.not_mem_nil, or_false] at hk' ⊢; tauto
  obtain ⟨h1, h2, -⟩ := quantity_facts hk5
  obtain ⟨h1', h2', -⟩ := quantity_facts hk5'
  obtain ⟨a0, e0⟩ := List.length_eq_one_iff.1 h1
  obtain ⟨a1, e1⟩ := List.length_eq_one_iff.1 h1'
  obtain ⟨-, hb0⟩ := conditionals_ne_nil hb
  obtain ⟨-, -, -, -, h5, -, -, h8, h9, -⟩ := conditionals_letters _ hb
  unfold CovarianceAdds
  rw [e0, e1] at hb h8 ⊢
  rw [e0] at h2
  rw [e1] at h2'
  simp only [List.cons_append, List.nil_append] at hb h8 ⊢
  have n1 : ValidPair [a0, a1] [] := .inl ⟨rfl, h8⟩
  obtain ⟨b1, b2⟩ := validPair_sub (.inr hb)
  obtain ⟨c1, c2⟩ := validPair_sub n1
  obtain ⟨m, Fm, em, im, vm⟩ := hP.mean _ b1 rfl
  obtain ⟨m', Fm', em', im', vm'⟩ := hP.mean _ b2 rfl
  obtain ⟨M, FM, eM, iM, vM⟩ := hN.mean _ c1 rfl
  obtain ⟨M', FM', eM', iM', vM'⟩ := hN.mean _ c2 rfl
  obtain ⟨C, eC, -, vC⟩ := hP.covariance (.inr hb)
  obtain ⟨T, eT, -, vT⟩ := hN.covariance n1
  obtain ⟨p, ep, vp⟩ := hp
  rw [distStr, if_neg hb0] at em em' eC
  rw [distStr, if_pos rfl] at eM eM' eT
  have t1 := vT k h2 k' h2' _ hc0 hgood'
  have tM := (iM.2 k h2 _ hc0).trans (vM k h2 _ hc0 hgood')
  have tM' := (iM'.2 k' h2' _ hc0).trans (vM' k' h2' _ hc0 hgood')
  simp only [coords, List.flatMap_nil, List.append_nil] at t1 tM tM'
  have hT := hok.light_b (lw := lw) hg hP.lightNonneg hP.light b
  have htot := pop_total hN hgood'
  rw [← lightOf_noV (b := b) hv] at htot
  have hA0 : q.amount g L lw [] ⟨0, 0, 0, 0, 0⟩ ≠ 0 := (hN.stars _ hc0 hgood').1
  rw [Pop.givenCov, if_neg hkv, if_neg hkv', cov_formula hg hok (by simp) hkv hkv' hA0] at t1
  set Z := (if lw then q.lightOf g L b else 1) with hZ
  have hm : ∀ c, q.marginal g L lw b c = q.amount g L lw b c / Z := fun _ => rfl
  have hnn : ∀ c, g.Has c → 0 ≤ q.marginal g L lw b c := fun c hc => by
    rw [Pop.marginal_eq hg hok]
    exact marg_nonneg (fun d hd => by
      rw [wtd_wt]
      refine div_nonneg (mul_nonneg (wt_nonneg hP.lightNonneg d) (hok.cells_nonneg b hd)) ?_
      split
      · exact sumCells_nonneg fun d hd => mul_nonneg (hP.lightNonneg _ _) (hok.cells_nonneg b hd)
      · exact zero_le_one) b c
  have hpe : ∀ c, g.Has c → entry p (coords b c) = q.marginal g L lw b c := fun c hc => by
    unfold entry; rw [vp c hc]; rfl
  have hme : ∀ c, g.Has c → q.amount g L lw b c ≠ 0 → m.get (compIdx k ++ coords b c) = .fin (q.mean g L lw b k c) := fun c hc h0 =>
    (im.2 k h2 c hc).trans (vm k h2 c hc (hgood c hc h0))
  have hme' : ∀ c, g.Has c → q.amount g L lw b c ≠ 0 → m'.get (compIdx k' ++ coords b c) = .fin (q.mean g L lw b k' c) := fun c hc h0 =>
    (im'.2 k' h2' c hc).trans (vm' k' h2' c hc (hgood c hc h0))
  have hce : ∀ c, g.Has c → q.amount g L lw b c ≠ 0 → C.get (compIdx k ++ compIdx k' ++ coords b c) = .fin (q.cov g L lw b k k' c) :=
    fun c hc h0 => by rw [vC k h2 k' h2' c hc (hgood c hc h0), Pop.givenCov, if_neg hkv, if_neg hkv']
  have hX : ∀ (A : Arr Num) (j : Char), (∀ c, g.Has c → q.amount g L lw b c ≠ 0 → A.get (compIdx j ++ coords b c) = .fin (q.mean g L lw b j c)) →
      ∀ c, g.Has c → entry p (coords b c) * entry A (compIdx j ++ coords b c) =
      g.marg (fun d => q.share g L lw j (fun x => x) d / Z) b c := fun A j hA c hc => by
    rw [hpe c hc, hm, marg_div_const, ← num_share hg hok hv]
    by_cases h0 : q.amount g L lw b c = 0
    · have := num_empty (L := L) (lw := lw) hg hok hP.poly hP.lightNonneg hv j Polynomial.X h0
      simp only [Polynomial.eval_X] at this
      rw [h0, this]; simp
    · unfold entry
      rw [hA c hc h0]
      show _ * (q.num g L lw b j (fun x => x) c / q.amount g L lw b c) = _
      field_simp
  have key := groups_add (p := entry p) (m := fun i => entry m (compIdx k ++ i)) (m' := fun i => entry m' (compIdx k' ++ i))
    (C := fun i => entry C (compIdx k ++ compIdx k' ++ i)) hg h9
    (A := fun d => q.share g L lw k (fun _ => 1) d / Z) (X := fun d => q.share g L lw k (fun x => x) d / Z)
    (Y := fun d => q.share g L lw k' (fun x => x) d / Z)
    (W := fun d => g.value k d * g.value k' d * (Pop.wt L lw d * q.flat g d) / Z)
    (fun c hc => by
      rw [hpe c hc, hm, amount_share hg hok hv, marg_div_const]
      simp only [share_const k])
    (hX m k hme) (hX m' k' hme') (fun c hc => ?_) ?_
  rotate_left
  · rw [hpe c hc, hm, marg_div_const]
    by_cases h0 : q.amount g L lw b c = 0
    · have hz : g.marg (fun d => g.value k d * g.value k' d * (Pop.wt L lw d * q.flat g d)) b c = 0 :=
        marg_zero_mul (fun d hd => mul_nonneg (wt_nonneg hP.lightNonneg d) (MixOf.flat_nonneg hok hd)) (by rwa [amount_share hg hok hv] at h0)
      rw [h0, hz]; simp
    · unfold entry
      rw [hme c hc h0, hme' c hc h0, hce c hc h0, cov_formula hg hok hv hkv hkv' h0]
      simp only [Num.toReal]
      generalize g.marg (fun d => g.value k d * g.value k' d * (Pop.wt L lw d * q.flat g d)) b c = N
      have : q.amount g L lw b c / Z * (N / q.amount g L lw b c) = N / Z := by field_simp
      rw [mul_sub, this]
  · rw [← marg_nil (c := ⟨0, 0, 0, 0, 0⟩), marg_div_const]
    simp only [share_const k]
    rw [← amount_share hg hok (by simp), htot, div_self hT]
  · obtain ⟨k1, k2, k3⟩ := key
    have e : ∀ j, g.sumCells (fun d => q.share g L lw j (fun x => x) d / Z) = q.mean g L lw [] j ⟨0, 0, 0, 0, 0⟩ := fun j => by
      rw [← marg_nil (c := ⟨0, 0, 0, 0, 0⟩), marg_div_const, ← num_share hg hok (by simp), ← htot]; rfl
    rw [e, e, ← marg_nil (c := ⟨0, 0, 0, 0, 0⟩), marg_div_const, ← htot] at k3
    refine ⟨p, m, m', C, M, M', T, _, _, _, ep, em, em', eC, eM, eM', eT, tM, tM', t1, fun c hc => ⟨_, hnn c hc, vp c hc, fun h0 => ?_⟩,
      k3.symm⟩
    have h0' : q.amount g L lw b c ≠ 0 := fun e => h0 (by rw [hm, e, zero_div])
    exact ⟨_, _, _, hme c hc h0', hme' c hc h0', hce c hc h0'⟩
end

/-! ### C90 -/

section plain
variable {cube : IFUCube} {stored : Arr Num} {ρ : Cell → ℝ}

theorem groups_Ex {P : Cell → ℝ} (hb0 : b ≠ []) (hP : ∀ d, g.Has d → 0 ≤ P d) (φ : Cell → ℝ) (c : Cell) :
    g.marg P b c * (if g.marg P b c = 0 then 0 else Ex g P b c φ) = g.marg (fun d => φ d * P d) b c := by
  split
  · next h0 => rw [h0, zero_mul, marg_zero_mul hP h0]
  · next h0 =>
    unfold Ex
    rw [condWt_pos_of_ne hb0, mul_div_cancel₀ _ h0]

/-- Plain components (any groups, both weightings). The probabilities that it was made with must add up to one. -/
theorem C90_plain (h : BaseIs cube stored g ρ L) (hlw : lw = true → 0 < totalLight g L (massP g ρ))
    (hN : g.sumCells (massP g ρ) = 1) (k : Char) (hk : k ∈ ['t','v','x','y','z']) (b : PyStr) (hb : (varOf k, b) ∈ conditionals) :
    SpreadAdds (obj (baseSelf cube stored)) g lw k b := by
  have hg := h.proper
  have hc0 := origin_has hg
  obtain ⟨-, hb0⟩ := conditionals_ne_nil hb
  obtain ⟨-, -, -, -, h5, -, -, h8, h9, -⟩ := conditionals_letters _ hb
  obtain ⟨m, em, -, vm⟩ := C13_means h hlw k hk b (.inr hb)
  obtain ⟨M, eM, -, vM⟩ := C13_means h hlw k hk [] (.inl ⟨rfl, h8⟩)
  obtain ⟨_, _, V, _, -, -, eV, -, vV⟩ := C16_variance h hlw k hk b (.inr hb) (fun e => absurd e hb0)
  obtain ⟨_, _, T, _, -, -, eT, -, vT⟩ := C16_variance h hlw k hk [] (.inl ⟨rfl, h8⟩) (fun _ _ => hN)
  obtain ⟨p, ep, -, vp⟩ := getP_marg_of_contract (h.contract lw hlw) false b h9
  rw [distStr, if_neg hb0] at em eV
  rw [distStr, if_pos rfl] at eM eT
  have hP := fun d hd => h.wtd_nonneg lw (c := d) hd
  have h1 := total_one (lw := lw) hlw (fun _ => hN)
  set P := wtdP g L (massP g ρ) lw with hPd
  have hE : ∀ φ, Ex g P [] ⟨0, 0, 0, 0, 0⟩ φ = g.sumCells (fun d => φ d * P d) := fun φ => by
    unfold Ex
    simp [Grid.condWt, marg_nil]
  obtain ⟨-, -, σ2, t1, -, t3, -⟩ := vT _ hc0 (by simp [Grid.condWt])
  have tM := vM _ hc0
  rw [expect_eq, if_neg (by simp [Grid.condWt])] at tM
  simp only [coords, List.flatMap_nil, List.append_nil] at t1 tM
  rw [hE] at tM
  rw [hE, hE] at t3
  simp only [dvol, Bool.false_eq_true, if_false, div_one] at vp
  have hpe : ∀ c, g.Has c → entry p (coords b c) = g.marg P b c := fun c hc => by unfold entry; rw [vp c hc]; rfl
  have hX : ∀ c, g.Has c → entry p (coords b c) * entry m (compIdx k ++ coords b c) = g.marg (fun d => g.value k d * P d) b c := fun c hc => by
    rw [hpe c hc, ← groups_Ex hb0 hP]
    unfold entry
    rw [vm c hc, expect_eq, condWt_pos_of_ne hb0]
    split <;> rfl
  have key := groups_add (p := entry p) (m := fun i => entry m (compIdx k ++ i)) (m' := fun i => entry m (compIdx k ++ i))
    (C := fun i => entry V (compIdx k ++ i)) hg h9 (W := fun d => g.value k d ^ 2 * P d) hpe hX hX (fun c hc => ?_) h1
  · obtain ⟨k1, k2, k3⟩ := key
    refine ⟨p, m, V, M, T, _, _, ep, em, eV, eM, eT, tM, t1, fun c hc => ⟨_, marg_nonneg hP b c, vp c hc, fun h0 => ?_⟩, k1, k2.symm, ?_⟩
    · rw [← condWt_pos_of_ne hb0] at h0
      obtain ⟨-, -, s, s1, s2, -⟩ := vV c hc h0
      exact ⟨_, s, by rw [vm c hc, expect_eq, if_neg h0], s1, s2⟩
    · rw [t3, sq (g.sumCells _), ← k3]
      simp only [sq]
  · rw [hpe c hc]
    by_cases h0 : g.marg P b c = 0
    · rw [h0, marg_zero_mul hP h0]; simp
    · obtain ⟨-, -, s, s1, -, s3, -⟩ := vV c hc (by rwa [condWt_pos_of_ne hb0])
      unfold entry
      rw [s1, vm c hc, expect_eq, if_neg (by rwa [condWt_pos_of_ne hb0]), s3]
      simp only [Num.toReal]
      rw [mul_sub, ← groups_Ex hb0 hP (fun d => g.value k d ^ 2), if_neg h0, sq (Ex g P b c (g.value k))]

theorem C90_plain_covariance (h : BaseIs cube stored g ρ L) (hlw : lw = true → 0 < totalLight g L (massP g ρ))
    (hN : g.sumCells (massP g ρ) = 1) (k k' : Char) (hk : k ∈ ['t','v','x','y','z']) (hk' : k' ∈ ['t','v','x','y','z']) (b : PyStr)
    (hb : (varOf k ++ varOf k', b) ∈ conditionals) : CovarianceAdds (obj (baseSelf cube stored)) g lw k k' b := by
  have hg := h.proper
  have hc0 := origin_has hg
  obtain ⟨h1, h2, -⟩ := quantity_facts hk
  obtain ⟨h1', h2', -⟩ := quantity_facts hk'
  obtain ⟨a0, e0⟩ := List.length_eq_one_iff.1 h1
  obtain ⟨a1, e1⟩ := List.length_eq_one_iff.1 h1'
  obtain ⟨-, hb0⟩ := conditionals_ne_nil hb
  obtain ⟨-, -, -, -, h5, -, -, h8, h9, -⟩ := conditionals_letters _ hb
  have hb' := hb
  rw [e0, e1] at hb' h8
  simp only [List.cons_append, List.nil_append] at hb' h8
  have n1 : ValidPair [a0, a1] [] := .inl ⟨rfl, h8⟩
  obtain ⟨b1, b2⟩ := validPair_sub (.inr hb')
  obtain ⟨c1, c2⟩ := validPair_sub n1
  rw [← e0] at b1 c1
  rw [← e1] at b2 c2
  obtain ⟨m, em, -, vm⟩ := C13_means h hlw k hk b b1
  obtain ⟨M, eM, -, vM⟩ := C13_means h hlw k hk [] c1
  obtain ⟨m', em', -, vm'⟩ := C13_means h hlw k' hk' b b2
  obtain ⟨M', eM', -, vM'⟩ := C13_means h hlw k' hk' [] c2
  obtain ⟨C, eC, vC⟩ := C18_formula h hlw a0 a1 b (.inr hb') (fun e => absurd e hb0)
  obtain ⟨T, eT, vT⟩ := C18_formula h hlw a0 a1 [] n1 (fun _ _ => hN)
  obtain ⟨p, ep, -, vp⟩ := getP_marg_of_contract (h.contract lw hlw) false b h9
  rw [distStr, if_neg hb0] at em em' eC
  rw [distStr, if_pos rfl] at eM eM' eT
  have hP := fun d hd => h.wtd_nonneg lw (c := d) hd
  have h1 := total_one (lw := lw) hlw (fun _ => hN)
  set P := wtdP g L (massP g ρ) lw with hPd
  have hE : ∀ φ, Ex g P [] ⟨0, 0, 0, 0, 0⟩ φ = g.sumCells (fun d => φ d * P d) := fun φ => by
    unfold Ex
    simp [Grid.condWt, marg_nil]
  have t1 := vT k k' e0 e1 _ hc0 (by simp [Grid.condWt])
  have tM := vM _ hc0
  have tM' := vM' _ hc0
  rw [expect_eq, if_neg (by simp [Grid.condWt])] at tM tM'
  simp only [coords, List.flatMap_nil, List.append_nil] at t1 tM tM'
  rw [hE] at tM tM'
  rw [hE, hE, hE] at t1
  simp only [dvol, Bool.false_eq_true, if_false, div_one] at vp
  have hpe : ∀ c, g.Has c → entry p (coords b c) = g.marg P b c := fun c hc => by unfold entry; rw [vp c hc]; rfl
  have hX : ∀ c, g.Has c → entry p (coords b c) * entry m (compIdx k ++ coords b c) = g.marg (fun d => g.value k d * P d) b c := fun c hc => by
    rw [hpe c hc, ← groups_Ex hb0 hP]
    unfold entry
    rw [vm c hc, expect_eq, condWt_pos_of_ne hb0]
    split <;> rfl
  have hX' : ∀ c, g.Has c → entry p (coords b c) * entry m' (compIdx k' ++ coords b c) = g.marg (fun d => g.value k' d * P d) b c := fun c hc => by
    rw [hpe c hc, ← groups_Ex hb0 hP]
    unfold entry
    rw [vm' c hc, expect_eq, condWt_pos_of_ne hb0]
    split <;> rfl
  have key := groups_add (p := entry p) (m := fun i => entry m (compIdx k ++ i)) (m' := fun i => entry m' (compIdx k' ++ i))
    (C := fun i => entry C (compIdx k ++ compIdx k' ++ i)) hg h9 (W := fun d => g.value k d * g.value k' d * P d) hpe hX hX' (fun c hc => ?_) h1
  · obtain ⟨k1, k2, k3⟩ := key
    have ee : varOf k ++ varOf k' = [a0, a1] := by rw [e0, e1]; rfl
    refine ⟨p, m, m', C, M, M', T, _, _, _, ep, em, em', by rw [ee]; exact eC, eM, eM', by rw [ee]; exact eT, tM, tM', t1,
      fun c hc => ⟨_, marg_nonneg hP b c, vp c hc, fun h0 => ?_⟩, k3.symm⟩
    rw [← condWt_pos_of_ne hb0] at h0
    exact ⟨_, _, _, by rw [vm c hc, expect_eq, if_neg h0], by rw [vm' c hc, expect_eq, if_neg h0], vC k k' e0 e1 c hc h0⟩
  · rw [hpe c hc]
    by_cases h0 : g.marg P b c = 0
    · rw [h0, marg_zero_mul hP h0]; simp
    · have h0' : g.condWt P b c ≠ 0 := by rwa [condWt_pos_of_ne hb0]
      unfold entry
      rw [vC k k' e0 e1 c hc h0', vm c hc, vm' c hc, expect_eq, expect_eq, if_neg h0', if_neg h0']
      simp only [Num.toReal]
      rw [mul_sub, ← groups_Ex hb0 hP (fun d => g.value k d * g.value k' d), if_neg h0]
end plain

section parametric
variable {p : Param} {m : Ingredients}

theorem param_groups (h : ParamIs p g m L) (hl : lw = true → (m.pop g).Shines g L) (hb : b ∈ marginals) :
    ∃ r, (obj p.self).getP b false lw = .ok r ∧ ∀ c, g.Has c → r.get (coords b c) = .fin ((m.pop g).marginal g L lw b c) := by
  obtain ⟨r, h1, -, h3⟩ := getP_marg_of_contract (h.contract lw (h.tot_of_light hl)) false b hb
  refine ⟨r, h1, fun c hc => ?_⟩
  rw [h3 c hc, Pop.marginal_eq h.proper h.pop_ok, ingr_cells]
  simp [dvol, paramMarg]

theorem param_somewhere (h : ParamIs p g m L) (hl : lw = true → (m.pop g).Shines g L) (c : Cell) : (m.pop g).amount g L lw [] c ≠ 0 := by
  cases lw with
  | false => rw [h.amount_nil]; exact one_ne_zero
  | true =>
    rw [amount_nil_light h.proper h.pop_ok]
    exact (h.pop_ok.light_pos h.proper h.lightNonneg (hl rfl) []).ne'

/-- Parametric components after any history of setters: groups by age, pixel, metallicity. -/
theorem C90_parametric (h : ParamIs p g m L) (hf : p.f2 = 1) (hl : lw = true → (m.pop g).Shines g L) (k : Char)
    (hk : k ∈ ['t','v','x','y','z']) (b : PyStr) (hb : (varOf k, b) ∈ conditionals) (hv : 'v' ∉ b) :
    SpreadAdds (obj p.self) g lw k b := by
  have h9 : b ∈ marginals := (conditionals_letters _ hb).2.2.2.2.2.2.2.2.1
  exact pop_spread (h.popAt hf hl b) (h.popAt hf hl []) (param_groups h hl h9) (fun c _ h0 => h0) (param_somewhere h hl _) hv hk hb trivial trivial

theorem C90_parametric_covariance (h : ParamIs p g m L) (hf : p.f2 = 1) (hl : lw = true → (m.pop g).Shines g L) (k k' : Char)
    (hk : k ∈ ['t','x','y','z']) (hk' : k' ∈ ['t','x','y','z']) (b : PyStr) (hb : (varOf k ++ varOf k', b) ∈ conditionals) (hv : 'v' ∉ b) :
    CovarianceAdds (obj p.self) g lw k k' b := by
  have h9 : b ∈ marginals := (conditionals_letters _ hb).2.2.2.2.2.2.2.2.1
  exact pop_covariance (h.popAt hf hl b) (h.popAt hf hl []) (param_groups h hl h9) (fun c _ h0 => h0) (param_somewhere h hl _) hv hk hk' hb

/-- The restriction is needed: groups by velocity bins do not contain all stars of a parametric component, so the
probabilities of the groups never add up to one. -/
theorem C90_velocity_bins (h : ParamIs p g m L) (k : Char) (b : PyStr) (hb : b ∈ marginals) (hv : 'v' ∈ b) :
    ¬ SpreadAdds (obj p.self) g false k b := by
  rintro ⟨r, -, -, -, -, -, -, h1, -, -, -, -, -, -, -, h2, -⟩
  obtain ⟨r', h1', h3⟩ := param_groups (lw := false) h (by simp) hb
  obtain rfl : r = r' := by
    have := h1.symm.trans h1'
    injection this
  have e := sum_groups h.proper hb (F := entry r) (P := fun d => m.joint g d) fun c hc => by
    unfold entry
    rw [h3 c hc, Pop.marginal_eq h.proper h.pop_ok, ingr_cells]
    simp [pick, hv, wtdP, Num.toReal]
  rw [h2] at e
  have e2 : g.sumCells (fun d => m.joint g d) < 1 := by
    have h1 := h.amount_nil ⟨0, 0, 0, 0, 0⟩
    have e1 : Ingredients.sumTXZ g (fun d => m.probTXZ g d) = 1 := by
      rw [← h1]
      unfold Pop.amount
      rw [if_neg (by simp)]
      refine sumTXZ_congr fun d => ?_
      rw [if_pos (by rfl), ingr_stars]
      simp [Pop.wt]
    rw [sumCells_sumV, ← e1]
    have e3 : Ingredients.sumTXZ g (fun d => ∑ v : Fin g.nv, m.joint g { d with v := v }) =
        Ingredients.sumTXZ g (fun d => m.probTXZ g d * probRange g m d) := sumTXZ_has h.proper fun d hd => by
      rw [← sum_probV h hd, Finset.mul_sum]
      rfl
    rw [e3]
    refine sumTXZ_lt h.proper (fun d hd => ?_) (fun d hd => ?_) (by rw [e1]; exact one_pos)
    · exact mul_le_of_le_one_right (h.norm.probTXZ_nonneg h.proper hd) (probRange_lt_one h d).le
    · exact fun e => mul_lt_of_lt_one_right e (probRange_lt_one h d)
  exact absurd e2 (by rw [← e]; exact lt_irrefl _)

end parametric

section mixture
variable {m : Mix} {n : ℕ} {ω : ℕ → ℝ} {pop : ℕ → Pop}

theorem mix_groups (h : MixOf m g n ω pop L) (hl : lw = true → ∀ i < n, (pop i).Shines g L) (hb : b ∈ marginals) :
    ∃ r, (Mix.obj m).getP b false lw = .ok r ∧ ∀ c, g.Has c → r.get (coords b c) = .fin ((mixPop n ω pop).marginal g L lw b c) := by
  obtain ⟨r, h1, -, h3⟩ := C65_marginals h false lw (fun e => mix_shines h (hl e)) b hb
  exact ⟨r, h1, fun c hc => by rw [h3 c hc]; simp⟩

/-- Mixtures of plain and parametric components with all weights positive that add up to one, if all members have stars in the
groups where the mixture has. -/
theorem C90_mixture (h : MixOf m g n ω pop L) (hl : lw = true → ∀ i < n, (pop i).Shines g L)
    (hm : ∀ (i : ℕ) (hi : i < m.children.length), IsMember1 g L m.children[i] (pop i))
    (hN : ∀ c, lw = false → (mixPop n ω pop).amount g L false [] c = 1)
    (hall : ∀ i < n, (pop i).amount g L lw [] ⟨0, 0, 0, 0, 0⟩ ≠ 0)
    (k : Char) (hk : k ∈ ['t','v','x','y','z']) (b : PyStr) (hb : (varOf k, b) ∈ conditionals) (hv : 'v' ∉ b)
    (hvb : ¬ (k = 'v' ∧ b = ['t','x','z']))
    (hstars : ∀ c, g.Has c → (mixPop n ω pop).amount g L lw b c ≠ 0 → ∀ i < n, (pop i).amount g L lw b c ≠ 0) :
    SpreadAdds (Mix.obj m) g lw k b := by
  have h9 : b ∈ marginals := (conditionals_letters _ hb).2.2.2.2.2.2.2.2.1
  obtain ⟨-, hb0⟩ := conditionals_ne_nil hb
  exact pop_spread (h.popAt hl hm b (.inr hv)) (h.popAt hl hm [] (.inr (by simp))) (mix_groups h hl h9)
    (fun c hc h0 => ⟨hstars c hc h0, fun e => absurd e hb0⟩) ⟨hall, fun _ e => hN _ e⟩ hv hk hb
    (fun e => hvb ⟨varOf_v hk e.1, e.2⟩) (fun e => absurd e.2 (by simp))

theorem C90_mixture_covariance (h : MixOf m g n ω pop L) (hl : lw = true → ∀ i < n, (pop i).Shines g L)
    (hm : ∀ (i : ℕ) (hi : i < m.children.length), IsMember1 g L m.children[i] (pop i))
    (hN : ∀ c, lw = false → (mixPop n ω pop).amount g L false [] c = 1)
    (hall : ∀ i < n, (pop i).amount g L lw [] ⟨0, 0, 0, 0, 0⟩ ≠ 0)
    (k k' : Char) (hk : k ∈ ['t','x','y','z']) (hk' : k' ∈ ['t','x','y','z']) (b : PyStr)
    (hb : (varOf k ++ varOf k', b) ∈ conditionals) (hv : 'v' ∉ b)
    (hstars : ∀ c, g.Has c → (mixPop n ω pop).amount g L lw b c ≠ 0 → ∀ i < n, (pop i).amount g L lw b c ≠ 0) :
    CovarianceAdds (Mix.obj m) g lw k k' b := by
  have h9 : b ∈ marginals := (conditionals_letters _ hb).2.2.2.2.2.2.2.2.1
  obtain ⟨-, hb0⟩ := conditionals_ne_nil hb
  exact pop_covariance (h.popAt hl hm b (.inr hv)) (h.popAt hl hm [] (.inr (by simp))) (mix_groups h hl h9)
    (fun c hc h0 => ⟨hstars c hc h0, fun e => absurd e hb0⟩) ⟨hall, fun _ e => hN _ e⟩ hv hk hk' hb

end mixture

/-! ### Consequences -/

theorem sumShape_nonneg : ∀ (s : List ℕ) {f : List ℕ → ℝ}, (∀ i, InBox s i → 0 ≤ f i) → 0 ≤ sumShape s f
  | [], f, h => h [] trivial
  | n :: s, f, h => Finset.sum_nonneg fun j _ => sumShape_nonneg s fun i hi => h _ ⟨j.2, hi⟩

theorem sumShape_zero : ∀ (s : List ℕ) {f : List ℕ → ℝ}, (∀ i, InBox s i → 0 ≤ f i) → sumShape s f = 0 → ∀ i, InBox s i → f i = 0
  | [], f, _, h0, [], _ => h0
  | n :: s, f, h, h0, j :: i, hi => by
    have := (Finset.sum_eq_zero_iff_of_nonneg fun (j : Fin n) _ => sumShape_nonneg s fun i hi => h (j :: i) ⟨j.2, hi⟩).1 h0 ⟨j, hi.1⟩ (Finset.mem_univ _)
    exact sumShape_zero s (fun i hi' => h (j :: i) ⟨hi.1, hi'⟩) this i hi.2

theorem sumShape_add : ∀ (s : List ℕ) (f f' : List ℕ → ℝ), sumShape s (fun i => f i + f' i) = sumShape s f + sumShape s f'
  | [], _, _ => rfl
  | n :: s, f, f' => by simp only [sumShape, sumShape_add s, Finset.sum_add_distrib]

/-- Grouping never increases the spread: the variances within the groups are on average at most that of all stars. They are
equal to it on average only if the means of all groups with stars agree. -/
theorem C90_narrower {o : Obj} (hg : g.Proper) {k : Char} (hb : b ∈ marginals) (h : SpreadAdds o g lw k b) :
    ∃ (p m V M T : Arr Num) (σ2 : ℝ), o.getP b false lw = .ok p ∧
    o.getMean (condStr (varOf k) b) lw = .ok m ∧ o.getVariance (condStr (varOf k) b) lw = .ok V ∧
    o.getMean (varOf k) lw = .ok M ∧ o.getVariance (varOf k) lw = .ok T ∧ T.get (compIdx k) = .fin σ2 ∧
    sumShape (g.shapeOf b) (fun i => entry p i * entry V (compIdx k ++ i)) ≤ σ2 ∧
    (sumShape (g.shapeOf b) (fun i => entry p i * entry V (compIdx k ++ i)) = σ2 ↔
      ∀ c, g.Has c → p.get (coords b c) ≠ .fin 0 → m.get (compIdx k ++ coords b c) = M.get (compIdx k)) := by
  obtain ⟨p, m, V, M, T, μ, σ2, h1, h2, h3, h4, h5, h6, h7, h8, -, h10, h11⟩ := h
  refine ⟨p, m, V, M, T, σ2, h1, h2, h3, h4, h5, h7, ?_⟩
  have hs : σ2 = sumShape (g.shapeOf b) (fun i => entry p i * entry V (compIdx k ++ i)) +
      sumShape (g.shapeOf b) (fun i => entry p i * (entry m (compIdx k ++ i) - μ) ^ 2) := by
    rw [h11, ← sumShape_add]
    simp only [mul_add]
  have hbn : ∀ w ∈ marginals, w.Nodup := by decide +kernel
  have hcell : ∀ i, InBox (g.shapeOf b) i → ∃ c, g.Has c ∧ coords b c = i := fun i hi => cell_of hg (hbn b hb) (marginals_chars b hb) hi
  have hp0 : ∀ c, g.Has c → 0 ≤ entry p (coords b c) := fun c hc => by
    obtain ⟨r, r0, r1, -⟩ := h8 c hc
    unfold entry; rw [r1]; exact r0
  have hn : ∀ i, InBox (g.shapeOf b) i → 0 ≤ entry p i * (entry m (compIdx k ++ i) - μ) ^ 2 := fun i hi => by
    obtain ⟨c, hc, rfl⟩ := hcell i hi
    exact mul_nonneg (hp0 c hc) (sq_nonneg _)
  refine ⟨by linarith [sumShape_nonneg _ hn], fun e c hc h0 => ?_, fun e => ?_⟩
  · obtain ⟨r, r0, r1, r2⟩ := h8 c hc
    have hr : r ≠ 0 := fun e => h0 (by rw [r1, e])
    obtain ⟨x, s, x1, -⟩ := r2 hr
    have z := sumShape_zero _ hn (by linarith) (coords b c) (inBox_coords hc b)
    unfold entry at z
    rw [r1, x1] at z
    simp only [Num.toReal, mul_eq_zero, hr, false_or] at z
    rw [x1, h6]
    have : x - μ = 0 := by simpa using z
    rw [sub_eq_zero.1 this]
  · have : sumShape (g.shapeOf b) (fun i => entry p i * (entry m (compIdx k ++ i) - μ) ^ 2) = sumShape (g.shapeOf b) (fun _ => (0 : ℝ) * 0) := by
      refine sumShape_congr _ fun i hi => ?_
      obtain ⟨c, hc, rfl⟩ := hcell i hi
      obtain ⟨r, r0, r1, r2⟩ := h8 c hc
      unfold entry
      rw [r1]
      by_cases hr : r = 0
      · simp [hr, Num.toReal]
      · rw [e c hc (by rw [r1]; simpa using hr), h6]
        simp [Num.toReal]
    have z : ∀ s : List ℕ, sumShape s (fun _ => (0 : ℝ) * 0) = 0 := fun s => by
      induction s with
      | nil => simp [sumShape]
      | cons n s ih => simp [sumShape, ih] at *; simp [ih]
    rw [z] at this
    linarith

/-! ### The hypotheses are met -/

/-- The table of C13 has pixels without stars; its ages are grouped by pixels and by velocity, by light and by mass. -/
example : ∃ cube, SpreadAdds (obj (baseSelf cube demoStored)) demoGrid true 't' ['x'] ∧
    SpreadAdds (obj (baseSelf cube demoStored)) demoGrid false 't' ['v'] ∧
    CovarianceAdds (obj (baseSelf cube demoStored)) demoGrid true 't' 'v' ['x'] := by
  obtain ⟨cube, -, -, h, h1, hl, -, -⟩ := demoBase
  exact ⟨cube, C90_plain h (fun _ => hl) h1 't' (by decide) _ (by decide), C90_plain h (by simp) h1 't' (by decide) _ (by decide),
    C90_plain_covariance h (fun _ => hl) h1 't' 'v' (by decide) (by decide) _ (by decide)⟩

/-- The disk of C49 after all its setters: velocities by age and pixel; ages and metallicities by pixel. -/
example : ∃ p m, ParamIs p demoGrid m demoL ∧ SpreadAdds (obj p.self) demoGrid true 'v' ['t','x'] ∧
    CovarianceAdds (obj p.self) demoGrid true 't' 'z' ['x'] ∧ ¬ SpreadAdds (obj p.self) demoGrid false 't' ['v'] := by
  obtain ⟨p, m, h, hS, -, hf, t0, ht, hpos⟩ := demoDisk_pos 1
  have hl : (m.pop demoGrid).Shines demoGrid demoL := by
    unfold Pop.Shines
    rw [Pop.lightOf_eq h.proper h.pop_ok, ingr_cells]
    exact hS.tot h.proper
  exact ⟨p, m, h, C90_parametric h hf (fun _ => hl) 'v' (by decide) _ (by decide) (by decide),
    C90_parametric_covariance h hf (fun _ => hl) 't' 'z' (by decide) (by decide) _ (by decide) (by decide),
    C90_velocity_bins h 't' _ (by decide) (by decide)⟩

/-- A mixture of two disks: velocities by age, and ages and metallicities by pixel. -/
example : ∃ m, SpreadAdds (Mix.obj m) demoGrid false 'v' ['t'] ∧ CovarianceAdds (Mix.obj m) demoGrid false 't' 'z' ['x'] := by
  obtain ⟨m, p, hi, h, hf, hM, hm⟩ := flatMix_exists (fun t => if t = 0 then 99 else 101)
  have e := mixPop_halves ((flatIngr (fun t => if t = 0 then 99 else 101)).pop demoGrid)
  exact ⟨m, C90_mixture hM (by simp) hm (fun c _ => by rw [e]; exact flat_amount c) (fun i _ => by rw [flat_amount]; norm_num) 'v' (by decide) _
    (by decide) (by decide) (by decide) (fun c _ h0 i _ => by rwa [e] at h0),
    C90_mixture_covariance hM (by simp) hm (fun c _ => by rw [e]; exact flat_amount c) (fun i _ => by rw [flat_amount]; norm_num) 't' 'z' (by decide)
    (by decide) _ (by decide) (by decide) (fun c _ h0 i _ => by rwa [e] at h0)⟩

end PKM
