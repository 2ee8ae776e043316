import Verif.MixMoments
import Verif.Props.Mixture
import Verif.Props.LMoments

/-!
# C29: means and central moments of mixtures

`g.expect P φ b c` (Spec) is the expectation of `φ` under the cell distribution `P` given the value
of the variables `b` at the cell `c`; `mixRho n ω ρ` is the density `Σ_i ω_i ρ_i` of the mixture.
-/

open scoped Classical

noncomputable section

namespace PKM
open Np Component

variable {m : Mix} {g : Grid} {n : ℕ} {ω : ℕ → ℝ} {ρ : ℕ → Cell → ℝ} {L : ℕ → ℕ → ℝ} {lw : Bool}

/-- Share of member `i` in the (light-weighted) mixture. -/
def shareOf (g : Grid) (n : ℕ) (ω : ℕ → ℝ) (L : ℕ → ℕ → ℝ) (ρ : ℕ → Cell → ℝ) (lw : Bool) (i : ℕ) : ℝ :=
  if lw then totalLight g L (massP g (ρ i)) / ∑ k : Fin n, ω k * totalLight g L (massP g (ρ k)) else 1

/-- Distribution of member `i`, mass or light weighted. -/
def memP (g : Grid) (L : ℕ → ℕ → ℝ) (ρ : ℕ → Cell → ℝ) (lw : Bool) (i : ℕ) : Cell → ℝ :=
  wtdP g L (massP g (ρ i)) lw

theorem totalLight_pos_sum (h : PlainMix m g n ω ρ L)
    (hT : ∀ i < n, 0 < totalLight g L (massP g (ρ i))) :
    0 < ∑ k : Fin n, ω k * totalLight g L (massP g (ρ k)) :=
  Finset.sum_pos (fun k _ => mul_pos (h.wpos k) (hT k k.2)) ⟨⟨0, h.pos⟩, Finset.mem_univ _⟩

theorem mix_light_pos (h : PlainMix m g n ω ρ L) (hT : ∀ i < n, 0 < totalLight g L (massP g (ρ i)))
    (w : PyStr) : 0 < mixLight g n ω L (fun i => massP g (ρ i)) (fun i => massP g (ρ i)) w := by
  unfold mixLight
  rw [totalLight_mixP]
  simpa only [pick_same] using totalLight_pos_sum h hT

theorem rowP_share (hT : lw = true → ∀ i < n, 0 < totalLight g L (massP g (ρ i))) {i : ℕ} (hi : i < n) (d : Cell) :
    rowP g n ω L (fun i => massP g (ρ i)) lw i d = (ω i * shareOf g n ω L ρ lw i) * memP g L ρ lw i d := by
  unfold rowP shareOf memP wtdP
  cases lw with
  | false => simp
  | true =>
    have h1 := (hT rfl i hi).ne'
    simp only [if_true, Grid.lightP]
    rw [show g.sumCells (fun d => L d.t d.z * massP g (ρ i) d) = totalLight g L (massP g (ρ i)) from rfl]
    field_simp

theorem mix_decomp (h : PlainMix m g n ω ρ L)
    (hT : lw = true → ∀ i < n, 0 < totalLight g L (massP g (ρ i))) (d : Cell) :
    wtdP g L (massP g (mixRho n ω ρ)) lw d =
      ∑ i : Fin n, (ω i * shareOf g n ω L ρ lw i) * memP g L ρ lw i d := by
  rw [← mixP_massP, ← sum_rowP]
  exact Finset.sum_congr rfl fun i _ => rowP_share hT i.2 d

theorem marg_decomp (h : PlainMix m g n ω ρ L)
    (hT : lw = true → ∀ i < n, 0 < totalLight g L (massP g (ρ i))) (φ : Cell → ℝ) (b : PyStr) (c : Cell) :
    g.marg (fun d => φ d * wtdP g L (massP g (mixRho n ω ρ)) lw d) b c =
      ∑ i : Fin n, (ω i * shareOf g n ω L ρ lw i) * g.marg (fun d => φ d * memP g L ρ lw i d) b c := by
  simp only [← marg_mul_const]
  rw [← marg_fsum]
  congr 1
  funext d
  rw [mix_decomp h hT, Finset.mul_sum]
  exact Finset.sum_congr rfl fun i _ => by ring

theorem marg_decomp1 (h : PlainMix m g n ω ρ L)
    (hT : lw = true → ∀ i < n, 0 < totalLight g L (massP g (ρ i))) (b : PyStr) (c : Cell) :
    g.marg (wtdP g L (massP g (mixRho n ω ρ)) lw) b c =
      ∑ i : Fin n, (ω i * shareOf g n ω L ρ lw i) * g.marg (memP g L ρ lw i) b c := by
  have := marg_decomp h hT (fun _ => 1) b c
  simpa only [one_mul] using this

theorem share_pos (h : PlainMix m g n ω ρ L)
    (hT : lw = true → ∀ i < n, 0 < totalLight g L (massP g (ρ i))) {i : ℕ} (hi : i < n) :
    0 < ω i * shareOf g n ω L ρ lw i := by
  refine mul_pos (h.wpos i) ?_
  unfold shareOf
  split_ifs with e
  · exact div_pos (hT e i hi) (totalLight_pos_sum h (hT e))
  · exact one_pos

theorem memP_nonneg (h : PlainMix m g n ω ρ L) (i : ℕ) {d : Cell} (hd : g.Has d) : 0 ≤ memP g L ρ lw i d := by
  obtain ⟨s, hB⟩ := h.base
  unfold memP wtdP
  split
  · exact div_nonneg (mul_nonneg (hB.lightNonneg _ _) (massP_nonneg hB.proper (h.nonneg i) hd))
      (sumCells_nonneg fun d hd => mul_nonneg (hB.lightNonneg _ _) (massP_nonneg hB.proper (h.nonneg i) hd))
  · exact massP_nonneg hB.proper (h.nonneg i) hd

/-- The light reweightings: total light of each member over that of the mixture. -/
theorem reweight_is (h : PlainMix m g n ω ρ L)
    (hT : lw = true → ∀ i < n, 0 < totalLight g L (massP g (ρ i))) :
    ∃ X, Mix.reweight m lw = .ok X ∧ X.shape = [n] ∧
      ∀ i < n, X.get [i] = .fin (shareOf g n ω L ρ lw i) := by
  cases lw with
  | false => exact ⟨_, rfl, by simp [full, h.children], fun i _ => rfl⟩
  | true =>
    have hpos := totalLight_pos_sum h (hT rfl)
    obtain ⟨pm, hpm, hpm'⟩ := Mix.getP_marg h.is false false (w := ['t','z']) (by decide) (by simp)
    obtain ⟨A, H, hA, hAs, hAv⟩ := gather_marg (m := m) (g := g) (b := ['t','z'])
      (f := fun c => c.getP ['t','z'] false false) (F := fun i c => .fin (g.marg (massP g (ρ i)) ['t','z'] c))
      h.pos h.children (fun i hi => by
        obtain ⟨st, y, e, hb⟩ := h.plain i hi
        rw [e]
        refine (getP_marg_of_contract (hb.contract false (by simp)) false ['t','z'] (by decide)).congr ?_
        intro c _; simp [dvol, wtdP])
    have hl := h.is.light
    have hproper := h.is.proper
    have hcell : g.Has ⟨0, 0, 0, 0, 0⟩ := ⟨hproper.nt, hproper.nv, hproper.nx, hproper.ny, hproper.nz⟩
    have hmm : ∀ (P : Cell → ℝ) (c : Cell), L c.t c.z * g.marg P ['t','z'] c =
        g.marg (fun d => L d.t d.z * P d) ['t','z'] c := fun P c =>
      mul_marg (φ := fun d => L d.t d.z) (fun d e hde => by
        simp only [coords, List.flatMap_cons, List.flatMap_nil, coord1] at hde
        simp at hde; simp [hde]) P c
    obtain ⟨B, hB, hBs, hBv⟩ := bop_lead' (· * ·) (A := m.cube.ssps.lightWeights) (B := A) (n := n)
      (by rw [hAs.1, hl.1])
    have hBL : Lead g n ['t','z'] B (fun i c => .fin (g.marg (fun d => L d.t d.z * massP g (ρ i) d) ['t','z'] c)) := by
      refine ⟨by rw [hBs, hAs.1], fun i hi c hc => ?_⟩
      rw [hBv i _ hi (by rw [hl.1]; exact inBox_coords hc _), hl.2 c hc, hAs.2 i hi _ (inBox_coords hc _),
        hAv i hi c hc, Num.fin_mul, hmm]
    have hBLL := (lead_letters (marginals_chars _ (by decide))).1 hBL
    obtain ⟨S, hS, hSL⟩ := hBLL.sum (S := ['z','t']) (by decide) (by unfold AxisChar; decide)
      (by unfold removable; decide) (axes := [1, 2]) (by unfold axesOK1; decide)
    obtain ⟨C, hC, hC'⟩ := hl.bop (· * ·) hpm'.barr
    have hC'' : IsArr g ['t','z'] C (fun c => .fin (g.marg (fun d => L d.t d.z *
        mixP n ω (fun i => massP g (ρ i)) d) ['t','z'] c)) :=
      hC'.congr fun c _ => by simp [dvol, wtdP, pick_same, hmm]
    have hall := sumAll_marg hproper (w := ['t','z']) (by decide) hC''
    obtain ⟨R, hR, hRs, hRv⟩ := bop_scalar_right (· / ·) S (.fin (totalLight g L (mixP n ω (fun i => massP g (ρ i)))))
    refine ⟨R, ?_, ?_, fun i hi => ?_⟩
    · simp only [Mix.reweight, if_true, Mix.lightReweightings, hpm, hA, Py.ok_bind, mul, div, hB, hS, hC, hall]
      exact hR
    · rw [hRs, hSL.1]; rfl
    · have h1 : S.get [i] = .fin (totalLight g L (massP g (ρ i))) := by
        have := (hSL.2 i hi).2 _ hcell
        beta_reduce at this
        rw [sumOver_fin, show (['z','t'] : List Char) = (PyStr.replaceX ['t','z']).reverse from by decide,
          sumOver_marg_total g _ (by decide) hcell] at this
        exact this
      rw [hRv [i] (by rw [hSL.1]; exact ⟨hi, trivial⟩), h1, totalLight_mixP]
      exact Num.fin_div _ _ hpos.ne'

theorem weights_facts (h : PlainMix m g n ω ρ L) : m.weights.length = n ∧ ∀ i < n, m.weights.getD i 0 = ω i := by
  rw [h.weights]
  refine ⟨by simp, fun i hi => by simp [hi]⟩

/-- Expectation under the mixture, `nan` where some member has no probability at the conditioner. -/
def mixE (g : Grid) (n : ℕ) (ω : ℕ → ℝ) (L : ℕ → ℕ → ℝ) (ρ : ℕ → Cell → ℝ) (lw : Bool) (φ : Cell → ℝ)
    (b : PyStr) (c : Cell) : Num :=
  if ∃ i < n, g.condWt (wtdP g L (massP g (ρ i)) lw) b c = 0 then .nan
  else g.expect (wtdP g L (massP g (mixRho n ω ρ)) lw) φ b c

theorem member_tab (h : PlainMix m g n ω ρ L)
    (hT : lw = true → ∀ i < n, 0 < totalLight g L (massP g (ρ i))) {a b : PyStr} (hab : ValidPair a b)
    {i : ℕ} (hi : i < m.children.length) : ∃ stored ybar,
    m.children[i] = Component.child (baseSelf m.cube stored) ybar ∧ BaseIs m.cube stored g (ρ i) L ∧
      HasTab (Component.getP (baseSelf m.cube stored)) g lw (memP g L ρ lw i) (g.condWt (memP g L ρ lw i) b) a b ∧
      Contract (baseSelf m.cube stored) g lw (g.marg (memP g L ρ lw i)) := by
  obtain ⟨st, y, e, hb⟩ := h.plain i hi
  have hi' : i < n := h.children ▸ hi
  have hC := hb.contract lw (fun e => hT e i hi')
  exact ⟨st, y, e, hb, hasTab_of_contract hC hab fun _ => baseLogP_none _ _ (condStr_not_marginal a b), hC⟩

/-- The weighted means of the members are those of the mixture. -/
theorem mix_ratio (h : PlainMix m g n ω ρ L)
    (hT : lw = true → ∀ i < n, 0 < totalLight g L (massP g (ρ i))) {b : PyStr} (hb : b ≠ [])
    (φ : Cell → ℝ) {c : Cell} (hc : g.Has c) (hm : ∀ i < n, g.condWt (memP g L ρ lw i) b c ≠ 0) (v : ℝ) (hv : v ≠ 0) :
    (∑ i : Fin n, g.marg (memP g L ρ lw i) b c / v * (ω i * shareOf g n ω L ρ lw i) *
        (g.marg (fun d => φ d * memP g L ρ lw i d) b c / g.condWt (memP g L ρ lw i) b c)) /
      (g.marg (wtdP g L (massP g (mixRho n ω ρ)) lw) b c / v) =
    g.marg (fun d => φ d * wtdP g L (massP g (mixRho n ω ρ)) lw d) b c /
      g.condWt (wtdP g L (massP g (mixRho n ω ρ)) lw) b c := by
  simp only [Grid.condWt, hb, if_false] at hm ⊢
  rw [marg_decomp h hT]
  have : ∀ i : Fin n, g.marg (memP g L ρ lw i) b c / v * (ω i * shareOf g n ω L ρ lw i) *
        (g.marg (fun d => φ d * memP g L ρ lw i d) b c / g.marg (memP g L ρ lw i) b c) =
      ((ω i * shareOf g n ω L ρ lw i) * g.marg (fun d => φ d * memP g L ρ lw i d) b c) * v⁻¹ := by
    intro i
    have := hm i i.2
    field_simp
  simp only [this, ← Finset.sum_mul]
  have hp : g.marg (wtdP g L (massP g (mixRho n ω ρ)) lw) b c ≠ 0 := by
    rw [marg_decomp1 h hT]
    refine (Finset.sum_pos (fun i _ => mul_pos (share_pos h hT i.2) ?_) ⟨⟨0, h.pos⟩, Finset.mem_univ _⟩).ne'
    exact lt_of_le_of_ne (marg_nonneg (fun d hd => memP_nonneg h i hd) b c) (hm i i.2).symm
  field_simp

theorem mix_wt_pos (h : PlainMix m g n ω ρ L)
    (hT : lw = true → ∀ i < n, 0 < totalLight g L (massP g (ρ i))) {b : PyStr} (hb : b ≠ [])
    {c : Cell} {i : ℕ} (hi : i < n) (hm : g.marg (memP g L ρ lw i) b c ≠ 0) :
    0 < g.marg (wtdP g L (massP g (mixRho n ω ρ)) lw) b c := by
  rw [marg_decomp1 h hT]
  refine Finset.sum_pos' (fun k _ => mul_nonneg (share_pos h hT k.2).le
    (marg_nonneg (fun d hd => memP_nonneg h k hd) b c)) ⟨⟨i, hi⟩, Finset.mem_univ _, ?_⟩
  exact mul_pos (share_pos h hT hi) (lt_of_le_of_ne (marg_nonneg (fun d hd => memP_nonneg h i hd) b c) hm.symm)

/-- Conditional entries: from members' expectations to `mixE`. -/
theorem mixE_cond (h : PlainMix m g n ω ρ L)
    (hT : lw = true → ∀ i < n, 0 < totalLight g L (massP g (ρ i))) {b : PyStr} (hb : b ≠ [])
    (φ : Cell → ℝ) {c : Cell} (hc : g.Has c) (v : ℝ) (hv : v ≠ 0) {F : ℕ → Num}
    (hF : ∀ i < n, F i = expectM g (memP g L ρ lw i) (g.condWt (memP g L ρ lw i) b) φ b c) :
    (∑ i : Fin n, Num.fin (g.marg (memP g L ρ lw i) b c / v) * .fin (ω i) * .fin (shareOf g n ω L ρ lw i) * F i) /
      .fin (g.marg (wtdP g L (massP g (mixRho n ω ρ)) lw) b c / v) = mixE g n ω L ρ lw φ b c := by
  unfold mixE
  split_ifs with he
  · obtain ⟨i, hi, h0⟩ := he
    rw [Num.sum_eq_nan (Finset.mem_univ (⟨i, hi⟩ : Fin n)) (by
      simp only [hF i hi]
      unfold expectM memP
      rw [if_pos h0]; simp), Num.nan_div]
  · push_neg at he
    have he' : ∀ i < n, g.condWt (memP g L ρ lw i) b c ≠ 0 := he
    have h0 : g.condWt (wtdP g L (massP g (mixRho n ω ρ)) lw) b c ≠ 0 := by
      have := mix_wt_pos (c := c) h hT hb h.pos (by simpa [Grid.condWt, hb] using he' 0 h.pos)
      simpa [Grid.condWt, hb] using this.ne'
    have h0' : g.marg (wtdP g L (massP g (mixRho n ω ρ)) lw) b c ≠ 0 := by simpa [Grid.condWt, hb] using h0
    have : ∀ i : Fin n, Num.fin (g.marg (memP g L ρ lw i) b c / v) * .fin (ω i) * .fin (shareOf g n ω L ρ lw i) * F i =
        .fin (g.marg (memP g L ρ lw i) b c / v * (ω i * shareOf g n ω L ρ lw i) *
        (g.marg (fun d => φ d * memP g L ρ lw i d) b c / g.condWt (memP g L ρ lw i) b c)) := by
      intro i
      rw [hF i i.2, expectM, if_neg (he' i i.2)]
      simp only [Num.fin_mul, mul_assoc]
    simp only [this, Num.fin_sum]
    rw [Num.fin_div _ _ (div_ne_zero h0' hv), mix_ratio h hT hb φ hc he' v hv]
    unfold Grid.expect
    rw [if_neg h0]

/-- Unconditional entries. -/
theorem mixE_marg (h : PlainMix m g n ω ρ L)
    (hT : lw = true → ∀ i < n, 0 < totalLight g L (massP g (ρ i))) (φ : Cell → ℝ) (c : Cell) {F : ℕ → Num}
    (hF : ∀ i < n, F i = expectM g (memP g L ρ lw i) (g.condWt (memP g L ρ lw i) []) φ [] c) :
    ∑ i : Fin n, .fin (ω i) * .fin (shareOf g n ω L ρ lw i) * F i = mixE g n ω L ρ lw φ [] c := by
  have : ∀ i : Fin n, Num.fin (ω i) * .fin (shareOf g n ω L ρ lw i) * F i =
      .fin ((ω i * shareOf g n ω L ρ lw i) * g.marg (fun d => φ d * memP g L ρ lw i d) [] c) := by
    intro i
    rw [hF i i.2]
    simp [expectM, Grid.condWt]
  simp only [this, Num.fin_sum, ← marg_decomp h hT]
  simp [mixE, Grid.condWt, Grid.expect]

theorem mix_mean_is (h : PlainMix m g n ω ρ L)
    (hT : lw = true → ∀ i < n, 0 < totalLight g L (massP g (ρ i))) {a b : PyStr} (hab : ValidPair a b)
    (h1 : a.length = 1) :
    ∃ r, Mix.getMean m (distStr a b) lw = .ok r ∧ IsMom g a b r (fun q => mixE g n ω L ρ lw (g.value q) b) := by
  obtain ⟨X, hX, hXs, hx⟩ := reweight_is h hT
  obtain ⟨hw, hω⟩ := weights_facts h
  have hproper := h.is.proper
  have hmean : ∀ (i : ℕ) (hi : i < m.children.length), ∃ r, m.children[i].getMean (distStr a b) lw = .ok r ∧
      IsMom g a b r (fun q => expectM g (memP g L ρ lw i) (g.condWt (memP g L ρ lw i) b) (g.value q) b) := by
    intro i hi
    obtain ⟨st, y, e, hb, ht, -⟩ := member_tab h hT hab hi
    rw [e]
    exact getMean_table hb.proper hb.cubeIs hab h1 rfl ht (respects_condWt _ b)
  by_cases hb : b = []
  · subst hb
    have ha : a ∈ marginals := by
      rcases hab with ⟨-, ha⟩ | hab
      · exact ha
      · exact absurd hab (by have : ∀ p ∈ conditionals, p.2 ≠ [] := (by decide +kernel); exact fun h => this _ h rfl)
    have hds : distStr a [] = a := by simp [distStr]
    rw [hds] at hmean ⊢
    obtain ⟨r, hr, hr'⟩ := Mix.mean_marg_raw ha h1 h.pos h.children hw hω hmean hX hXs hx
    exact ⟨r, hr, hr'.congr fun q hq c hc => mixE_marg h hT (g.value q) c (fun i _ => rfl)⟩
  · have hab' : (a, b) ∈ conditionals := hab.resolve_left (fun e => hb e.1)
    have hds : distStr a b = condStr a b := by simp [distStr, hb]
    rw [hds] at hmean ⊢
    have hbm : b ∈ marginals := (conditionals_letters _ hab').2.2.2.2.2.2.2.2.1
    have hp : ∀ (i : ℕ) (hi : i < m.children.length), Gives (m.children[i].getP b true lw) g b
        (fun c => .fin (g.marg (memP g L ρ lw i) b c / g.volOf b c)) := by
      intro i hi
      obtain ⟨st, y, e, hB, ht, hC⟩ := member_tab h hT hab hi
      rw [e]
      refine (getP_marg_of_contract hC true b hbm).congr ?_
      intro c _; simp [dvol]
    have hd : Gives (Mix.getP m b true true lw) g b
        (fun c => .fin (g.marg (wtdP g L (massP g (mixRho n ω ρ)) lw) b c / g.volOf b c)) := by
      refine (Mix.getP_marg h.is true lw hbm (fun e => mix_light_pos h (hT e) b)).congr ?_
      intro c _; simp [dvol, pick_same, mixP_massP]
    obtain ⟨r, hr, hr'⟩ := Mix.mean_cond_raw hab' h1 h.pos h.children hw hω hmean hp hX hXs hx hd
    refine ⟨r, hr, hr'.congr fun q hq c hc => ?_⟩
    have hv : g.volOf b c ≠ 0 := by
      have := (dvol_pos hproper hc true b).ne'
      simpa [dvol] using this
    exact mixE_cond h hT hb (g.value q) hc (g.volOf b c) hv (fun i _ => rfl)

theorem mean_expect (P : Cell → ℝ) (q : Char) (b : PyStr) {c : Cell} (h : g.condWt P b c ≠ 0) :
    g.expect P (g.value q) b c = .fin (g.mean P q b c) := by
  simp [Grid.expect, Grid.mean, h]

theorem mix_central_is (h : PlainMix m g n ω ρ L)
    (hT : lw = true → ∀ i < n, 0 < totalLight g L (massP g (ρ i))) {a b : PyStr} (hab : ValidPair a b)
    (h1 : a.length = 1) (j : ℕ) :
    ∃ r, Mix.getCentralMoment m (distStr a b) j lw = .ok r ∧ IsMom g a b r (fun q => mixE g n ω L ρ lw
      (fun d => (g.value q d - g.mean (wtdP g L (massP g (mixRho n ω ρ)) lw) q b d) ^ j) b) := by
  set PM := wtdP g L (massP g (mixRho n ω ρ)) lw with hPM
  obtain ⟨M, hM, hM'⟩ := mix_mean_is h hT hab h1
  obtain ⟨X, hX, hXs, hx⟩ := reweight_is h hT
  obtain ⟨hw, hω⟩ := weights_facts h
  have hproper := h.is.proper
  have hresp : ∀ q, Respects b (g.mean PM q b) := fun q => respects_meanM (respects_condWt _ b) q
  have hncm : ∀ (i : ℕ) (hi : i < m.children.length), ∃ r F',
      m.children[i].getNcm (distStr a b) j M lw = .ok r ∧ IsMom g a b r F' ∧
      ∀ q ∈ PyStr.replaceX a, ∀ c, g.Has c → (g.condWt (memP g L ρ lw i) b c ≠ 0 →
          mixE g n ω L ρ lw (g.value q) b c = .fin (g.mean PM q b c)) →
        F' q c = expectM g (memP g L ρ lw i) (g.condWt (memP g L ρ lw i) b)
          (fun d => (g.value q d - g.mean PM q b d) ^ j) b c := by
    intro i hi
    obtain ⟨st, y, e, hb, ht, -⟩ := member_tab h hT hab hi
    rw [e]
    exact getNoncentral_pointwise hb.proper hb.cubeIs hab h1 rfl ht (respects_condWt _ b) hM' hresp j
  choose R F' hR1 hR2 hR3 using hncm
  let F : ℕ → Char → Cell → Num := fun i => if hi : i < m.children.length then F' i hi else fun _ _ => .nan
  have hF : ∀ (i : ℕ) (hi : i < m.children.length), F i = F' i hi := fun i hi => by simp only [F, dif_pos hi]
  have hncm' : ∀ (i : ℕ) (hi : i < m.children.length), ∃ r,
      m.children[i].getNcm (distStr a b) j M lw = .ok r ∧ IsMom g a b r (F i) := fun i hi =>
    ⟨R i hi, hR1 i hi, by rw [hF i hi]; exact hR2 i hi⟩
  by_cases hb : b = []
  · subst hb
    have ha : a ∈ marginals := by
      rcases hab with ⟨-, ha⟩ | hab
      · exact ha
      · exact absurd hab (by have : ∀ p ∈ conditionals, p.2 ≠ [] := (by decide +kernel); exact fun h => this _ h rfl)
    have hds : distStr a [] = a := by simp [distStr]
    rw [hds] at hM hncm' ⊢
    obtain ⟨r, hr, hr'⟩ := Mix.central_marg_raw ha h1 h.pos h.children hw hω hM hncm' hX hXs hx
      (fun e i _ => by simp [shareOf, e])
    refine ⟨r, hr, hr'.congr fun q hq c hc => mixE_marg (F := fun i => F i q c) h hT _ c (fun i hi => ?_)⟩
    beta_reduce
    have hi' : i < m.children.length := by rw [h.children]; exact hi
    rw [hF i hi']
    refine hR3 i hi' q hq c hc fun _ => ?_
    rw [← mean_expect]
    · simp [mixE, Grid.condWt, hPM]
    · simp [Grid.condWt]
  · have hab' : (a, b) ∈ conditionals := hab.resolve_left (fun e => hb e.1)
    have hds : distStr a b = condStr a b := by simp [distStr, hb]
    rw [hds] at hM hncm' ⊢
    have hbm : b ∈ marginals := (conditionals_letters _ hab').2.2.2.2.2.2.2.2.1
    obtain ⟨W, hW, hWl⟩ := Mix.getP_marg_rows h.is true lw hbm (fun e => mix_light_pos h (hT e) b)
    obtain ⟨r, hr, hr'⟩ := Mix.central_cond_raw hab' h1 h.pos h.children hM hncm' hW hWl
    refine ⟨r, hr, hr'.congr fun q hq c hc => ?_⟩
    have hv : g.volOf b c ≠ 0 := by
      have := (dvol_pos hproper hc true b).ne'
      simpa [dvol] using this
    have hrow : ∀ i : Fin n, g.marg (rowP g n ω L (fun i => pick (massP g (ρ i)) (massP g (ρ i)) b) lw i) b c =
        (ω i * shareOf g n ω L ρ lw i) * g.marg (memP g L ρ lw i) b c := by
      intro i
      simp only [pick_same]
      rw [← marg_mul_const]
      congr 1; funext d
      exact rowP_share hT i.2 d
    simp only [hrow, dvol, if_true, Num.fin_sum, div_eq_mul_inv _ (g.volOf b c), ← Finset.sum_mul]
    rw [← marg_decomp1 h hT]
    by_cases he : ∃ i < n, g.condWt (memP g L ρ lw i) b c = 0
    · obtain ⟨i, hi, h0⟩ := he
      have hi' : i < m.children.length := by rw [h.children]; exact hi
      rw [mixE, if_pos ⟨i, hi, h0⟩, Num.sum_eq_nan (Finset.mem_univ (⟨i, hi⟩ : Fin n)), Num.nan_div]
      simp only [hF i hi']
      rw [hR3 i hi' q hq c hc (fun e => absurd h0 e), expectM, if_pos h0, Num.mul_nan]
    · rw [← mixE_cond h hT hb _ hc (g.volOf b c) hv (F := fun i => F i q c), div_eq_mul_inv _ (g.volOf b c)]
      · congr 1
        refine Finset.sum_congr rfl fun (i : Fin n) _ => ?_
        simp only [Num.fin_mul]
        congr 2
        rw [div_eq_mul_inv]; ring
      · intro i hi
        have hi' : i < m.children.length := by rw [h.children]; exact hi
        simp only [hF i hi']
        refine hR3 i hi' q hq c hc fun _ => ?_
        rw [mixE]
        rw [if_neg (show ¬ ∃ i < n, g.condWt (wtdP g L (massP g (ρ i)) lw) b c = 0 from he)]
        refine mean_expect _ _ _ ?_
        push_neg at he
        have := mix_wt_pos (c := c) h hT hb h.pos (by simpa [Grid.condWt, hb] using he 0 h.pos)
        simpa [Grid.condWt, hb] using this.ne'

/-! ### C29 -/

/-- `get_mean` of a mixture, mass or light weighted: wherever every member has some probability at
the conditioner, the entry is the mean of the mixture's own distribution. The full claim would be
that this holds wherever the mixture has some probability at the conditioner; where one of the members
has none the entry is `nan` (see `C29_fails_at_empty_members`). The unconditional means are always
those of the mixture. -/
theorem C29_mean_partial (h : PlainMix m g n ω ρ L)
    (hT : lw = true → ∀ i < n, 0 < totalLight g L (massP g (ρ i)))
    (q : Char) (hq : q ∈ ['t','v','x','y','z']) (b : PyStr) (hb : ValidPair (varOf q) b) :
    ∃ r, Mix.getMean m (distStr (varOf q) b) lw = .ok r ∧ r.shape = compShape (varOf q) ++ g.shapeOf b ∧
      ∀ c, g.Has c →
        ((∀ i < n, g.condWt (wtdP g L (massP g (ρ i)) lw) b c ≠ 0) → r.get (compIdx q ++ coords b c) =
          g.expect (wtdP g L (massP g (mixRho n ω ρ)) lw) (g.value q) b c) ∧
        ((∃ i < n, g.condWt (wtdP g L (massP g (ρ i)) lw) b c = 0) →
          r.get (compIdx q ++ coords b c) = .nan) := by
  obtain ⟨h1, h2, -⟩ := quantity_facts hq
  obtain ⟨r, hr, hr'⟩ := mix_mean_is h hT hb h1
  refine ⟨r, hr, hr'.1, fun c hc => ⟨fun hne => ?_, fun he => ?_⟩⟩
  · rw [hr'.2 q h2 c hc]
    exact if_neg (by push_neg; exact hne)
  · rw [hr'.2 q h2 c hc]
    exact if_pos he

/-- `get_central_moment` of a mixture, of any order: the central moment of the mixture's own
distribution about the mixture's mean, with the same exception as `C29_mean_partial`. -/
theorem C29_central_moment_partial (h : PlainMix m g n ω ρ L)
    (hT : lw = true → ∀ i < n, 0 < totalLight g L (massP g (ρ i)))
    (q : Char) (hq : q ∈ ['t','v','x','y','z']) (b : PyStr) (hb : ValidPair (varOf q) b) (j : ℕ) :
    ∃ r, Mix.getCentralMoment m (distStr (varOf q) b) j lw = .ok r ∧
      r.shape = compShape (varOf q) ++ g.shapeOf b ∧
      ∀ c, g.Has c →
        ((∀ i < n, g.condWt (wtdP g L (massP g (ρ i)) lw) b c ≠ 0) → r.get (compIdx q ++ coords b c) =
          g.expect (wtdP g L (massP g (mixRho n ω ρ)) lw)
            (fun d => (g.value q d - g.mean (wtdP g L (massP g (mixRho n ω ρ)) lw) q b d) ^ j) b c) ∧
        ((∃ i < n, g.condWt (wtdP g L (massP g (ρ i)) lw) b c = 0) →
          r.get (compIdx q ++ coords b c) = .nan) := by
  obtain ⟨h1, h2, -⟩ := quantity_facts hq
  obtain ⟨r, hr, hr'⟩ := mix_central_is h hT hb h1 j
  refine ⟨r, hr, hr'.1, fun c hc => ⟨fun hne => ?_, fun he => ?_⟩⟩
  · rw [hr'.2 q h2 c hc]
    exact if_neg (by push_neg; exact hne)
  · rw [hr'.2 q h2 c hc]
    exact if_pos he

/-- Unconditional means and central moments are those of the mixture without exception. -/
theorem C29_unconditional (h : PlainMix m g n ω ρ L)
    (hT : lw = true → ∀ i < n, 0 < totalLight g L (massP g (ρ i)))
    (q : Char) (hq : q ∈ ['t','v','x','y','z']) (j : ℕ) :
    ∃ r s, Mix.getMean m (varOf q) lw = .ok r ∧ Mix.getCentralMoment m (varOf q) j lw = .ok s ∧
      r.get (compIdx q) = .fin (g.sumCells fun d =>
        g.value q d * wtdP g L (massP g (mixRho n ω ρ)) lw d) ∧
      s.get (compIdx q) = .fin (g.sumCells fun d =>
        (g.value q d - g.sumCells fun d => g.value q d * wtdP g L (massP g (mixRho n ω ρ)) lw d) ^ j *
          wtdP g L (massP g (mixRho n ω ρ)) lw d) := by
  have hb : ValidPair (varOf q) [] := .inl ⟨rfl, by fin_cases hq <;> decide⟩
  have hproper := h.is.proper
  have hcell : g.Has ⟨0, 0, 0, 0, 0⟩ := ⟨hproper.nt, hproper.nv, hproper.nx, hproper.ny, hproper.nz⟩
  have hds : distStr (varOf q) [] = varOf q := by simp [distStr]
  obtain ⟨r, hr, -, hr'⟩ := C29_mean_partial h hT q hq [] hb
  obtain ⟨s, hs, -, hs'⟩ := C29_central_moment_partial h hT q hq [] hb j
  rw [hds] at hr hs
  refine ⟨r, s, hr, hs, ?_, ?_⟩
  · have := (hr' _ hcell).1 (fun i _ => by simp [Grid.condWt])
    simpa [coords, Grid.expect, Grid.condWt, Grid.marg] using this
  · have := (hs' _ hcell).1 (fun i _ => by simp [Grid.condWt])
    simpa [coords, Grid.expect, Grid.condWt, Grid.marg, Grid.mean] using this

/-- Where all members have some probability at every conditioner the methods which a mixture
inherits (variance, covariance, L-moments...) see a consistent distribution. -/
theorem mix_std (h : PlainMix m g n ω ρ L)
    (hT : lw = true → ∀ i < n, 0 < totalLight g L (massP g (ρ i))) (b : PyStr)
    (hne : ∀ c, g.Has c → ∀ i < n, g.condWt (wtdP g L (massP g (ρ i)) lw) b c ≠ 0) :
    StdAt (Mix.obj m) g lw (wtdP g L (massP g (mixRho n ω ρ)) lw) b := by
  have hE : ∀ φ c, g.Has c → mixE g n ω L ρ lw φ b c =
      g.expect (wtdP g L (massP g (mixRho n ω ρ)) lw) φ b c := fun φ c hc => by
    rw [mixE, if_neg (by push_neg; exact hne c hc)]
  refine ⟨h.is.proper, h.is.cubeIs, fun d hd => ?_, fun a hab => ?_, fun a hab h1 => ?_, fun a hab h1 j => ?_⟩
  · rw [mix_decomp h hT]
    exact Finset.sum_nonneg fun i _ => mul_nonneg (share_pos h hT i.2).le (memP_nonneg h i hd)
  · rcases hab with ⟨rfl, ha⟩ | hab
    · obtain ⟨A, hA, hA'⟩ := Mix.getP_marg h.is false lw ha (fun e => mix_light_pos h (hT e) a)
      have hu : unionStr a [] = a := by
        have : ∀ a ∈ marginals, unionStr a [] = a := by decide +kernel
        exact this a ha
      have hA'' := (isArr_iff (marginals_chars a ha)).1 hA'
      refine ⟨A, by simpa [distStr, Mix.obj] using hA, ?_⟩
      have e : PyStr.replaceX a ++ PyStr.replaceX [] = PyStr.replaceX a := by simp [PyStr.replaceX]
      rw [e]
      refine ⟨hA''.1, fun c hc => (hA''.2 c hc).trans ?_⟩
      simp [tab, condTable, Grid.condWt, hu, dvol, pick_same, mixP_massP]
    · obtain ⟨-, -, -, h4, h5, -, -, -, h9, -⟩ := conditionals_letters _ hab
      have hb : b ≠ [] := by
        rintro rfl
        have : ([] : PyStr) ∉ marginals := by decide +kernel
        exact this h9
      obtain ⟨A, hA, hA'⟩ := Mix.getP_cond h.is false lw (a, b) hab (fun e w => mix_light_pos h (hT e) w)
      refine ⟨A, by simpa [distStr, hb, Mix.obj] using hA, ?_⟩
      have hA'' := (isArr_cond_iff h4 h5).1 hA'
      refine ⟨hA''.1, fun c hc => (hA''.2 c hc).trans ?_⟩
      simp [tab, Grid.condWt, hb, dvol, pick_same, mixP_massP]
  · obtain ⟨r, hr, hr'⟩ := mix_mean_is h hT hab h1
    exact ⟨r, hr, hr'.congr fun q _ c hc => hE _ c hc⟩
  · obtain ⟨r, hr, hr'⟩ := mix_central_is h hT hab h1 j
    exact ⟨r, hr, hr'.congr fun q _ c hc => hE _ c hc⟩

/-- Covariances of a mixture are those of the mixture's distribution. -/
theorem C29_covariance (h : PlainMix m g n ω ρ L)
    (hT : lw = true → ∀ i < n, 0 < totalLight g L (massP g (ρ i))) (a0 a1 : Char) (b : PyStr)
    (hab : ValidPair [a0, a1] b)
    (hne : ∀ c, g.Has c → ∀ i < n, g.condWt (wtdP g L (massP g (ρ i)) lw) b c ≠ 0) :
    ∃ r, (Mix.obj m).getCovariance (distStr [a0, a1] b) lw = .ok r ∧
      r.shape = compShape [a0] ++ compShape [a1] ++ g.shapeOf b ∧
      ∀ q q', varOf q = [a0] → varOf q' = [a1] → ∀ c, g.Has c →
        r.get (compIdx q ++ compIdx q' ++ coords b c) =
          g.expect (wtdP g L (massP g (mixRho n ω ρ)) lw) (fun d =>
            (g.value q d - g.mean (wtdP g L (massP g (mixRho n ω ρ)) lw) q b d) *
            (g.value q' d - g.mean (wtdP g L (massP g (mixRho n ω ρ)) lw) q' b d)) b c := by
  obtain ⟨r, hr, hr1, hr2⟩ := (mix_std h hT b hne).covariance hab
  exact ⟨r, hr, hr1, fun q q' hq hq' c hc => hr2 q (varOf_mem hq) q' (varOf_mem hq') c hc⟩

/-- L-moments of a mixture are those of the mixture's distribution. -/
theorem C29_l_moments (h : PlainMix m g n ω ρ L)
    (hT : lw = true → ∀ i < n, 0 < totalLight g L (massP g (ρ i)))
    (q : Char) (hq : q ∈ ['t','v','z']) (b : PyStr) (hb : ValidPair [q] b) (j : ℕ) (hj : 1 ≤ j)
    (hne : ∀ c, g.Has c → ∀ i < n, g.condWt (wtdP g L (massP g (ρ i)) lw) b c ≠ 0) :
    Gives ((Mix.obj m).getLMoment (distStr [q] b) j lw) g b (fun c =>
      if g.condWt (wtdP g L (massP g (mixRho n ω ρ)) lw) b c = 0 then .nan else
        .fin (lmoment (g.bins q) (g.edge q) (g.binProb (wtdP g L (massP g (mixRho n ω ρ)) lw) q b c) j)) :=
  getLMoment_std (mix_std h hT b hne) hq hb j hj

/-- The full claim is false: in a mixture of two components of which one has no mass in a pixel, the
mean velocity and the velocity dispersion of the mixture in that pixel come out as `nan`, although
the mixture has a positive probability there, its velocity distribution in that pixel is defined and has a
finite mean. -/
theorem C29_fails_at_empty_members : ∃ cube m, IFUCube.init demoSSPs 5 6 4 (-1, 1) (0, 3) (-100, 300) = .ok cube ∧
    Mix.init cube [Component.child (baseSelf cube demoStored) none,
      Component.child (baseSelf cube demoStored1) none] [1 / 4, 3 / 4] = .ok m ∧
    (∃ p, Mix.getP m ['v','_','x'] true true false = .ok p ∧ ∀ v < 4, ∃ y : ℝ, p.get [v, 0, 0] = .fin y) ∧
    (∃ y : ℝ, demoGrid.expect (massP demoGrid (mixRho 2 demoWeights demoRhos)) (demoGrid.value 'v') ['x']
      ⟨0, 0, 0, 0, 0⟩ = .fin y) ∧
    (∃ r, Mix.getMean m ['v','_','x'] false = .ok r ∧ r.get [0, 0] = .nan) ∧
    ∃ r, Mix.getCentralMoment m ['v','_','x'] 2 false = .ok r ∧ r.get [0, 0] = .nan := by
  obtain ⟨cube, m, h1, h2, h, hw, hN, hT, h0, hpos⟩ := demoMix
  have hproper := h.is.proper
  have hcell : demoGrid.Has ⟨0, 0, 0, 0, 0⟩ := ⟨hproper.nt, hproper.nv, hproper.nx, hproper.ny, hproper.nz⟩
  have hlw : (false = true → ∀ i < 2, 0 < totalLight demoGrid demoL (massP demoGrid (demoRhos i))) := fun _ => hT
  have hmp : 0 < demoGrid.marg (wtdP demoGrid demoL (massP demoGrid (mixRho 2 demoWeights demoRhos)) false)
      ['x'] ⟨0, 0, 0, 0, 0⟩ := mix_wt_pos (lw := false) h hlw (by simp) (i := 1) (by norm_num)
      (by have := (hpos ['x'] _ hcell).ne'; simpa [memP, wtdP] using this)
  have hmp' : 0 < demoGrid.marg (massP demoGrid (mixRho 2 demoWeights demoRhos)) ['x'] ⟨0, 0, 0, 0, 0⟩ := by
    simpa [wtdP] using hmp
  have hex : ∃ i < 2, demoGrid.condWt (wtdP demoGrid demoL (massP demoGrid (demoRhos i)) false) ['x']
      ⟨0, 0, 0, 0, 0⟩ = 0 := ⟨0, by norm_num, by simpa [Grid.condWt, wtdP] using h0⟩
  refine ⟨cube, m, h1, h2, ?_, ?_, ?_, ?_⟩
  · obtain ⟨p, hp, -, hp'⟩ := C27_conditionals h true ['v'] ['x'] (by decide)
    refine ⟨p, hp, fun v hv => ?_⟩
    have hc : demoGrid.Has ⟨0, v, 0, 0, 0⟩ := ⟨hproper.nt, hv, hproper.nx, hproper.ny, hproper.nz⟩
    have := hp' _ hc
    have e : demoGrid.marg (massP demoGrid (mixRho 2 demoWeights demoRhos)) ['x'] ⟨0, v, 0, 0, 0⟩ =
      demoGrid.marg (massP demoGrid (mixRho 2 demoWeights demoRhos)) ['x'] ⟨0, 0, 0, 0, 0⟩ := rfl
    unfold Grid.condP at this
    rw [e, if_neg hmp'.ne', Num.fin_div _ _ (by
      have := (dvol_pos hproper hc true ['v']).ne'; simpa [dvol] using this)] at this
    exact ⟨_, this⟩
  · exact ⟨_, by rw [Grid.expect, if_neg (by simpa [Grid.condWt] using hmp'.ne')]⟩
  · obtain ⟨r, hr, -, hr'⟩ := C29_mean_partial (lw := false) h hlw 'v' (by decide) ['x'] (by decide)
    exact ⟨r, hr, (hr' _ hcell).2 hex⟩
  · obtain ⟨r, hr, -, hr'⟩ := C29_central_moment_partial (lw := false) h hlw 'v' (by decide) ['x'] (by decide) 2
    exact ⟨r, hr, (hr' _ hcell).2 hex⟩

/-- The hypotheses are met: the light-weighted mean metallicity of the demonstration mixture. -/
example : ∃ m r s, PlainMix m demoGrid 2 demoWeights demoRhos demoL ∧
    Mix.getMean m ['z'] true = .ok r ∧ Mix.getCentralMoment m ['z'] 3 true = .ok s := by
  obtain ⟨cube, m, -, -, h, hw, hN, hT, -⟩ := demoMix
  obtain ⟨r, s, hr, hs, -⟩ := C29_unconditional (lw := true) h (fun _ => hT) 'z' (by decide) 3
  exact ⟨m, r, s, h, hr, hs⟩

end PKM
