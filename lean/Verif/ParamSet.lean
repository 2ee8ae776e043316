import Verif.ParamApi
import Verif.Beta

/-! Lemmas: what the setters of parametric components store. -/

open scoped Classical
open MeasureTheory ProbabilityTheory

noncomputable section

namespace PKM
open Np Component

variable {p : Param} {g : Grid} {m : Ingredients} {L : ℕ → ℕ → ℝ}

theorem mono_edges {n : ℕ} {e : ℕ → ℝ} (h : ∀ i < n, e i < e (i + 1)) : ∀ {i j : ℕ}, i ≤ j → j ≤ n → e i ≤ e j := by
  intro i j hij
  induction j, hij using Nat.le_induction with
  | base => intro _; exact le_rfl
  | succ j _ ih => intro hj; exact (ih (by omega)).trans (h j (by omega)).le

theorem strict_edges {n : ℕ} {e : ℕ → ℝ} (h : ∀ i < n, e i < e (i + 1)) {i j : ℕ} (hij : i < j) (hj : j ≤ n) :
    e i < e j := (h i (by omega)).trans_le (mono_edges h hij hj)

theorem at_first {a : Arr Num} {n : ℕ} {f : ℕ → ℝ} (h : Is1 a (n + 1) f) :
    ∃ r, getitem [.at 0] a = .ok r ∧ r.get [] = .fin (f 0) := by
  refine ⟨⟨[], fun i => a.get (ixIdx [.at 0] a.shape i)⟩, ?_, ?_⟩
  · simp [getitem, h.shape, ixShape]
  · simp [h.shape, ixIdx, h.get 0 (by omega)]

theorem at_last {a : Arr Num} {n : ℕ} {f : ℕ → ℝ} (h : Is1 a (n + 1) f) :
    ∃ r, getitem [.at (-1)] a = .ok r ∧ r.get [] = .fin (f n) := by
  refine ⟨⟨[], fun i => a.get (ixIdx [.at (-1)] a.shape i)⟩, ?_, ?_⟩
  · simp [getitem, h.shape, ixShape]
  · simp [h.shape, ixIdx, h.get n (by omega)]

/-! ### Star formation history -/

/-- The ages rescaled to the unit interval. -/
def unitAge (g : Grid) (x : ℝ) : ℝ := (x - g.t 0) / (g.t g.nt - g.t 0)

theorem setPt_stores (hc : CubeIs p.cube g) (hg : g.Proper) {lmd phi : ℝ} (ha : 0 < lmd * phi)
    (hb : 0 < lmd * (1 - phi)) (hab : 1 < lmd * phi ∨ 1 < lmd * (1 - phi)) (q : ℝ × ℝ) :
    ∃ A, p.setPt lmd phi q = .ok { p with
        tPars := some ⟨betaPpfNum (lmd * phi) (lmd * (1 - phi)) (.fin (g.t 0)) (.fin (g.t g.nt - g.t 0)) q.1,
          betaPpfNum (lmd * phi) (lmd * (1 - phi)) (.fin (g.t 0)) (.fin (g.t g.nt - g.t 0)) q.2,
          betaPpfNum (lmd * phi) (lmd * (1 - phi)) (.fin (g.t 0)) (.fin (g.t g.nt - g.t 0)) q.2 -
          betaPpfNum (lmd * phi) (lmd * (1 - phi)) (.fin (g.t 0)) (.fin (g.t g.nt - g.t 0)) q.1⟩
        logPt := some A } ∧
      IsArr g ['t'] A (fun c => Num.lg ((betaMeasure (lmd * phi) (lmd * (1 - phi))).real
        (Set.Ioc (unitAge g (g.t c.t)) (unitAge g (g.t (c.t + 1)))) / width g.t c.t)) := by
  obtain ⟨e0, h1, h2⟩ := at_first hc.tEdges
  obtain ⟨e1, h3, h4⟩ := at_last hc.tEdges
  have hs : 0 < g.t g.nt - g.t 0 := sub_pos.2 (strict_edges hg.t hg.nt le_rfl)
  set a := lmd * phi with hadef
  set b := lmd * (1 - phi) with hbdef
  have he : MArr (bump g 't') [some 't'] p.cube.ssps.tEdges (fun c => .fin (g.t c.t)) :=
    Is1.marr (g := bump g 't') (ch := 't') (a := p.cube.ssps.tEdges) (F := g.t) hc.tEdges
  have he' : MArr (bump g 't') [some 't']
      (map (betaLogcdf a b (.fin (g.t 0)) (.fin (g.t g.nt - g.t 0))) p.cube.ssps.tEdges)
      (fun c => Num.lg (betaCdf a b (unitAge g (g.t c.t)))) := (he.map _).congr fun c _ => by
    simp only [betaLogcdf, Num.fin_sub, Num.fin_div _ _ hs.ne', scaleOk, ha, hb, hs, and_self, if_true, unitAge]
  obtain ⟨hi, k1, k2⟩ := he'.upper (g := g) (by decide) (by simp)
  obtain ⟨lo, k3, k4⟩ := he'.lower (g := g) (by decide) (by simp)
  obtain ⟨r, k5, k6⟩ := MArr.logDiff k2 k4 (fun c _ => betaCdf_nonneg _) (fun c _ => betaCdf_nonneg _)
  obtain ⟨d, k7, k8⟩ := volumeElement_marr hc hg (w := ['t']) (by decide) (by decide)
  have hmono : ∀ c, g.Has c → unitAge g (g.t c.t) ≤ unitAge g (g.t (c.t + 1)) := fun c hc' => by
    unfold unitAge
    have := hg.t _ hc'.1
    gcongr
  obtain ⟨A, k9, k10⟩ := k6.subL (R := [some 't']) (k8.map Num.log)
    (fun c hc' => sub_nonneg.2 (betaCdf_mono ha hb (hmono c hc'))) (fun c hc' => volOf_pos hg hc' _) rfl
  refine ⟨A, ?_, k10.isArr (w := ['t']) (by decide) |>.congr fun c hc' => ?_⟩
  · have hif : ¬ ((if a > 1.0 then 1 else 0) + (if b > 1 then 1 else 0) < 1) := by
      rcases hab with h | h
      · rw [if_pos (show a > 1.0 by norm_num; exact h)]; omega
      · rw [if_pos (show b > 1 from h)]; omega
    have hab' : Param.betaAB lmd phi = (a, b) := by
      simp [Param.betaAB, hadef, hbdef]; norm_num
    unfold Param.setPt
    rw [hab']
    simp only [hif, if_false, h1, h2, h3, h4, Py.ok_bind, Num.fin_sub, k1, k3, k5, k7, k9]
  · beta_reduce
    rw [beta_Ioc ha hb (hmono c hc'), volOf_t]
    rfl

theorem sfh_sum (hg : g.Proper) {a b : ℝ} (ha : 0 < a) (hb : 0 < b) :
    ∑ t : Fin g.nt, (betaMeasure a b).real (Set.Ioc (unitAge g (g.t t)) (unitAge g (g.t (t + 1)))) = 1 := by
  have hs : 0 < g.t g.nt - g.t 0 := sub_pos.2 (strict_edges hg.t hg.nt le_rfl)
  have key : ∀ n ≤ g.nt, ∑ t ∈ Finset.range n,
      (betaMeasure a b).real (Set.Ioc (unitAge g (g.t t)) (unitAge g (g.t (t + 1)))) =
      betaCdf a b (unitAge g (g.t n)) := by
    intro n
    induction n with
    | zero => intro _; simp [unitAge, betaCdf_zero ha hb]
    | succ n ih =>
      intro hn
      rw [Finset.sum_range_succ, ih (by omega), beta_Ioc ha hb]
      · ring
      · unfold unitAge
        have := hg.t n (by omega)
        gcongr
  rw [Fin.sum_univ_eq_sum_range (fun t => (betaMeasure a b).real
    (Set.Ioc (unitAge g (g.t t)) (unitAge g (g.t (t + 1))))), key _ le_rfl]
  rw [unitAge, div_self hs.ne', betaCdf_one ha hb]

/-- `get_p('t')` reads only the stored star formation history. -/
theorem getP_t (hc : CubeIs p.cube g) (hg : g.Proper) {A : Arr Num} {q : ℕ → ℝ} (hA : p.logPt = some A)
    (hA' : IsArr g ['t'] A (fun c => Num.lg (q c.t))) (hq : ∀ t < g.nt, 0 ≤ q t) (density : Bool) :
    Gives (getP p.self ['t'] density false) g ['t']
      (fun c => .fin (q c.t * width g.t c.t / dvol g density ['t'] c)) := by
  have h3 := IsArr.marr (by decide) hA'
  have key : IsL (p.tMass density) g ['t'] (fun c => q c.t * width g.t c.t / dvol g density ['t'] c) := by
    cases density with
    | true =>
      refine ⟨A, by simp [Param.tMass, Param.attr, hA, Param.onlyIf], h3.congr fun c hc' => ?_⟩
      have := volOf_pos hg hc' ['t']
      simp only [dvol, if_true]
      rw [← volOf_t, mul_div_assoc, div_self this.ne', mul_one]
    | false =>
      obtain ⟨d, h1, h2⟩ := volumeElement_marr hc hg (w := ['t']) (by decide) (by decide)
      obtain ⟨r, h4, h5⟩ := h3.iaddL (h2.map Num.log) (fun c hc' => hq _ hc'.1)
        (fun c hc' => volOf_nonneg hg hc' _) rfl
      refine ⟨r, by simp [Param.tMass, Param.attr, hA, Param.onlyIf, Param.logVol, h1, h4],
        h5.congr fun c hc' => ?_⟩
      simp [dvol, volOf_t]
  obtain ⟨B, h1, h2⟩ := key
  refine ⟨map Num.exp B, ?_, ((h2.isArr (w := ['t']) (by decide)).map Num.exp).congr fun c hc' => ?_⟩
  · have : p.self.logP ['t'] = some p.t := rfl
    simp [getP, getLogP, getLogMarginal, this, Param.t, h1]
  · exact Num.exp_lg (div_nonneg (mul_nonneg (hq _ hc'.1) (by have := hg.t _ hc'.1; unfold width; linarith))
      (dvol_pos hg hc' _ _).le)

end PKM
