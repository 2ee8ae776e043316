import Verif.ParamSet
import Verif.Props.Parametric

/-!
# C31, C36: star formation histories and quantities that vary with age

`p.setPt lmd phi (q1, q2)` is `component.set_p_t(lmd, phi, cdf_start_end=(q1, q2))`; it returns the
updated component. The beta distribution with shape parameters `a`, `b` is Mathlib's `betaMeasure a b`.
-/

open scoped Classical
open MeasureTheory ProbabilityTheory

noncomputable section

namespace PKM
open Np Component

variable {p : Param} {g : Grid}

/-! ### C31 -/

/-- Probability that `Beta(a, b)`, stretched over the age range of the grid, gives to age bin `t`. -/
def ageBinProb (g : Grid) (a b : ℝ) (t : ℕ) : ℝ :=
  (betaMeasure a b).real (Set.Ioc ((g.t t - g.t 0) / (g.t g.nt - g.t 0)) ((g.t (t + 1) - g.t 0) / (g.t g.nt - g.t 0)))

theorem ageBinProb_nonneg (g : Grid) (a b : ℝ) (t : ℕ) : 0 ≤ ageBinProb g a b t := measureReal_nonneg

/-- After `set_p_t` with parameters of a beta distribution that is not bimodal, `get_p('t')` gives every
age bin its beta probability (as a density: over the bin width), and the probabilities sum to one. -/
theorem C31_bins (hc : CubeIs p.cube g) (hg : g.Proper) (lmd phi : ℝ) (hl : 0 < lmd) (h0 : 0 < phi)
    (h1 : phi < 1) (hu : 1 < lmd * phi ∨ 1 < lmd * (1 - phi)) (q : ℝ × ℝ) :
    ∃ p' r d, p.setPt lmd phi q = .ok p' ∧
      getP p'.self ['t'] false false = .ok r ∧ r.shape = [g.nt] ∧
      (∀ t < g.nt, r.get [t] = .fin (ageBinProb g (lmd * phi) (lmd * (1 - phi)) t)) ∧
      ∑ t : Fin g.nt, r.get [t] = .fin 1 ∧
      getP p'.self ['t'] true false = .ok d ∧ d.shape = [g.nt] ∧
      (∀ t < g.nt, d.get [t] = .fin (ageBinProb g (lmd * phi) (lmd * (1 - phi)) t / (g.t (t + 1) - g.t t))) := by
  have ha : 0 < lmd * phi := mul_pos hl h0
  have hb : 0 < lmd * (1 - phi) := mul_pos hl (by linarith)
  obtain ⟨A, h2, h3⟩ := setPt_stores hc hg ha hb hu q
  obtain ⟨tp, h2⟩ : ∃ tp, p.setPt lmd phi q = .ok { p with tPars := some tp, logPt := some A } := ⟨_, h2⟩
  have hw : ∀ t < g.nt, 0 < width g.t t := fun t ht => sub_pos.2 (hg.t t ht)
  have key := fun density => getP_t (p := { p with tPars := some tp, logPt := some A }) (g := g) hc hg rfl
    (q := fun t => ageBinProb g (lmd * phi) (lmd * (1 - phi)) t / width g.t t) h3
    (fun t ht => div_nonneg (ageBinProb_nonneg _ _ _ _) (hw t ht).le) density
  obtain ⟨r, h4, h5, h6⟩ := key false
  obtain ⟨d, h7, h8, h9⟩ := key true
  have hcell : ∀ t < g.nt, g.Has ⟨t, 0, 0, 0, 0⟩ := fun t ht => ⟨ht, hg.nv, hg.nx, hg.ny, hg.nz⟩
  have hr : ∀ t < g.nt, r.get [t] = .fin (ageBinProb g (lmd * phi) (lmd * (1 - phi)) t) := fun t ht => by
    have := h6 ⟨t, 0, 0, 0, 0⟩ (hcell t ht)
    simp only [coords, coord1, List.flatMap_cons, List.flatMap_nil, if_true, List.append_nil] at this
    rw [this]
    simp only [dvol, Bool.false_eq_true, if_false, div_one]
    rw [div_mul_cancel₀ _ (hw t ht).ne']
  refine ⟨_, r, d, h2, h4, h5, hr, ?_, h7, h8, fun t ht => ?_⟩
  · rw [Num.sum_congr_fin _ (fun t : Fin g.nt => r.get [(t : ℕ)])
      (fun t : Fin g.nt => ageBinProb g (lmd * phi) (lmd * (1 - phi)) t) fun t _ => hr t t.2]
    congr 1
    exact sfh_sum hg ha hb
  · have := h9 ⟨t, 0, 0, 0, 0⟩ (hcell t ht)
    simp only [coords, coord1, List.flatMap_cons, List.flatMap_nil, if_true, List.append_nil] at this
    rw [this]
    simp only [dvol, if_true, volOf_t]
    rw [div_mul_cancel₀ _ (hw t ht).ne']
    rfl

/-- Parameters of a bimodal (or flat) beta distribution are rejected. -/
theorem C31_rejects (p : Param) (lmd phi : ℝ) (ha : lmd * phi ≤ 1) (hb : lmd * (1 - phi) ≤ 1) (q : ℝ × ℝ) :
    p.setPt lmd phi q = .error .valueError := by
  have hab' : Param.betaAB lmd phi = (lmd * phi, lmd * (1 - phi)) := by
    simp [Param.betaAB]; norm_num
  unfold Param.setPt
  rw [hab']
  simp only
  rw [if_pos]
  rw [if_neg (by norm_num; exact ha), if_neg (not_lt.2 hb)]; norm_num

/-- Disagreement: parameters that are not those of a beta distribution (`phi` outside `(0, 1)`) are not
rejected when `lmd` is large enough; the star formation history is then all nan. -/
theorem C31_invalid_accepted (hc : CubeIs p.cube g) (hg : g.Proper) (lmd phi : ℝ)
    (hu : 1 < lmd * phi ∨ 1 < lmd * (1 - phi)) (hx : lmd * phi ≤ 0 ∨ lmd * (1 - phi) ≤ 0) (q : ℝ × ℝ) :
    ∃ p' r, p.setPt lmd phi q = .ok p' ∧ getP p'.self ['t'] false false = .ok r ∧ r.shape = [g.nt] ∧
      ∀ t < g.nt, r.get [t] = .nan := by
  obtain ⟨e0, h1, h2⟩ := at_first hc.tEdges
  obtain ⟨e1, h3, h4⟩ := at_last hc.tEdges
  set a := lmd * phi with hadef
  set b := lmd * (1 - phi) with hbdef
  have hnot : ∀ S : Prop, ¬ (0 < a ∧ 0 < b ∧ S) := fun S h => by
    rcases hx with h' | h' <;> [exact absurd h.1 (not_lt.2 h'); exact absurd h.2.1 (not_lt.2 h')]
  have he : MArr (bump g 't') [some 't'] p.cube.ssps.tEdges (fun c => .fin (g.t c.t)) :=
    Is1.marr (g := bump g 't') (ch := 't') (a := p.cube.ssps.tEdges) (F := g.t) hc.tEdges
  have he' : MArr (bump g 't') [some 't']
      (map (betaLogcdf a b (.fin (g.t 0)) (.fin (g.t g.nt - g.t 0))) p.cube.ssps.tEdges)
      (fun _ => .nan) := (he.map _).congr fun c _ => by
    simp only [betaLogcdf, hnot, if_false]
    split <;> rfl
  obtain ⟨hi, k1, k2⟩ := he'.upper (g := g) (by decide) (by simp)
  obtain ⟨lo, k3, k4⟩ := he'.lower (g := g) (by decide) (by simp)
  obtain ⟨r, k5, k5', k6⟩ := logDiff_get (hi := hi) (lo := lo) (by rw [k2.1, k4.1])
  have k6' : MArr g [some 't'] r (fun _ => .nan) := by
    refine ⟨k5'.trans k2.1, fun c hc' => ?_⟩
    rw [k6 _ (by rw [k2.1]; exact coordsM_inBox hc' _), k2.2 c hc', k4.2 c hc']
    simp
  obtain ⟨d, k7, k8⟩ := volumeElement_marr hc hg (w := ['t']) (by decide) (by decide)
  obtain ⟨A, k9, k10⟩ := MArr.bop (R := [some 't']) (· - ·) k6' (k8.map Num.log) rfl
  have k9' : Np.sub r (map Num.log d) = .ok A := k9
  obtain ⟨B, k11, k12⟩ := MArr.iop (· + ·) k10 (k8.map Num.log) rfl
  have k11' : Np.iadd A (map Num.log d) = .ok B := k11
  have hif : ¬ ((if a > 1.0 then 1 else 0) + (if b > 1 then 1 else 0) < 1) := by
    rcases hu with h | h
    · rw [if_pos (show a > 1.0 by norm_num; exact h)]; omega
    · rw [if_pos (show b > 1 from h)]; omega
  have hab' : Param.betaAB lmd phi = (a, b) := by
    simp [Param.betaAB, hadef, hbdef]; norm_num
  have e1' : ∃ tp, p.setPt lmd phi q = .ok { p with tPars := some tp, logPt := some A } := by
    unfold Param.setPt
    rw [hab']
    simp only [hif, if_false, h1, h2, h3, h4, Py.ok_bind, Num.fin_sub, k1, k3, k5, k7, k9']
    exact ⟨_, rfl⟩
  obtain ⟨tp, e1'⟩ := e1'
  refine ⟨_, map Num.exp B, e1', ?_, ?_, fun t ht => ?_⟩
  · have e2 : ({ p with tPars := some tp, logPt := some A } : Param).self.logP ['t'] =
      some ({ p with tPars := some tp, logPt := some A } : Param).t := rfl
    simp [getP, getLogP, getLogMarginal, e2, Param.t, Param.tMass, Param.attr, Param.onlyIf, Param.logVol,
      k7, k11']
  · exact k12.1
  · have := k12.2 ⟨t, 0, 0, 0, 0⟩ ⟨ht, hg.nv, hg.nx, hg.ny, hg.nz⟩
    simp only [Num.nan_sub, Num.nan_add] at this
    show Num.exp (B.get [t]) = _
    have e : B.get [t] = .nan := this
    rw [e]; rfl

/-! ### C36 -/

/-- Linear ramp from `f0` (up to `s`) to `f1` (from `e` on). -/
def ramp (s e f0 f1 τ : ℝ) : ℝ :=
  if τ < s then f0 else if e < τ then f1 else f0 + (f1 - f0) * ((τ - s) / (e - s))

theorem ramp_frac {s e : ℝ} (h : s < e) (f0 f1 τ : ℝ) : ∃ k, 0 ≤ k ∧ k ≤ 1 ∧ ramp s e f0 f1 τ = f0 + (f1 - f0) * k ∧
    k = max 0 (min 1 ((τ - s) / (e - s))) := by
  have hd : 0 < e - s := by linarith
  refine ⟨_, le_max_left _ _, max_le zero_le_one (min_le_left _ _), ?_, rfl⟩
  unfold ramp
  split
  · next h1 =>
    have : (τ - s) / (e - s) < 0 := div_neg_of_neg_of_pos (by linarith) hd
    rw [min_eq_right (by linarith), max_eq_left (by linarith)]; ring
  · next h1 =>
    split
    · next h2 =>
      have : 1 < (τ - s) / (e - s) := by rw [lt_div_iff₀ hd]; linarith
      rw [min_eq_left (by linarith), max_eq_right (by linarith)]; ring
    · next h2 =>
      have e1 : (τ - s) / (e - s) ≤ 1 := by rw [div_le_one hd]; linarith
      have e2 : 0 ≤ (τ - s) / (e - s) := div_nonneg (by linarith) hd.le
      rw [min_eq_right e1, max_eq_right e2]

theorem interp_gives (hc : CubeIs p.cube g) {s e : ℝ} (h : s < e)
    (hp : p.tPars = some ⟨.fin s, .fin e, .fin (e - s)⟩) (f0 f1 : ℝ) :
    ∃ r, p.linearInterpolateT f0 f1 = .ok r ∧ Is1 r g.nt (fun t => ramp s e f0 f1 (centre g.t t)) := by
  refine ⟨map (fun t =>
    let f := Num.fin f0 + Num.fin (f1 - f0) / Num.fin (e - s) * (t - Num.fin s)
    let f := if t.lt (Num.fin s) then .fin f0 else f
    if (Num.fin e).lt t then .fin f1 else f) p.cube.ssps.tCents,
    by simp only [Param.linearInterpolateT, hp, Param.attr, Py.ok_bind], hc.tCents.shape,
    fun t ht => ?_⟩
  have hd : e - s ≠ 0 := by linarith
  simp only [Np.map, hc.tCents.get t ht, Num.fin_div _ _ hd, Num.fin_sub, Num.fin_mul, Num.fin_add, Num.lt, ramp]
  by_cases h1 : centre g.t t < s
  · have : ¬ e < centre g.t t := by linarith
    simp [h1, this]
  · by_cases h2 : e < centre g.t t
    · simp [h1, h2]
    · simp only [h1, h2, if_false]
      congr 1
      ring

/-- Quantities declared by their values for young and old stars: after `set_p_t` with
`cdf_start_end=(q1, q2)` they equal the first value for ages up to the `q1`-quantile `s` of the star
formation history, the second one from its `q2`-quantile `e` on, lie between the two values, and are
monotone in age. -/
theorem C36_between_limits (hc : CubeIs p.cube g) (hg : g.Proper) (lmd phi : ℝ) (hl : 0 < lmd) (h0 : 0 < phi)
    (h1 : phi < 1) (hu : 1 < lmd * phi ∨ 1 < lmd * (1 - phi)) (q1 q2 : ℝ) (hq1 : 0 ≤ q1) (hq : q1 < q2)
    (hq2 : q2 ≤ 1) :
    ∃ p' s e, p.setPt lmd phi (q1, q2) = .ok p' ∧ g.t 0 ≤ s ∧ s < e ∧ e ≤ g.t g.nt ∧
      (betaMeasure (lmd * phi) (lmd * (1 - phi))).real (Set.Iic ((s - g.t 0) / (g.t g.nt - g.t 0))) = q1 ∧
      (betaMeasure (lmd * phi) (lmd * (1 - phi))).real (Set.Iic ((e - g.t 0) / (g.t g.nt - g.t 0))) = q2 ∧
      ∀ young old : ℝ, ∃ (r : Arr Num) (f : ℕ → ℝ), p'.linearInterpolateT young old = .ok r ∧ r.shape = [g.nt] ∧
        ∀ t < g.nt, r.get [t] = .fin (f t) ∧
          (centre g.t t ≤ s → f t = young) ∧ (e ≤ centre g.t t → f t = old) ∧
          min young old ≤ f t ∧ f t ≤ max young old ∧
          (∀ t' < g.nt, t ≤ t' → (young ≤ old → f t ≤ f t') ∧ (old ≤ young → f t' ≤ f t)) := by
  have ha : 0 < lmd * phi := mul_pos hl h0
  have hb : 0 < lmd * (1 - phi) := mul_pos hl (by linarith)
  obtain ⟨A, h2, -⟩ := setPt_stores hc hg ha hb hu (q1, q2)
  have hS : 0 < g.t g.nt - g.t 0 := sub_pos.2 (strict_edges hg.t hg.nt le_rfl)
  set a := lmd * phi
  set b := lmd * (1 - phi)
  obtain ⟨a1, a2, a3⟩ := betaPpf_spec ha hb hq1 (hq.le.trans hq2)
  obtain ⟨b1, b2, b3⟩ := betaPpf_spec ha hb (hq1.trans hq.le) hq2
  have hlt := betaPpf_strict ha hb hq1 hq hq2
  have e1 : betaPpfNum a b (.fin (g.t 0)) (.fin (g.t g.nt - g.t 0)) q1 =
      .fin (betaPpf a b q1 * (g.t g.nt - g.t 0) + g.t 0) := by
    simp [betaPpfNum, ha, hb, scaleOk, hS, hq1, hq.le.trans hq2]
  have e2 : betaPpfNum a b (.fin (g.t 0)) (.fin (g.t g.nt - g.t 0)) q2 =
      .fin (betaPpf a b q2 * (g.t g.nt - g.t 0) + g.t 0) := by
    simp [betaPpfNum, ha, hb, scaleOk, hS, hq1.trans hq.le, hq2]
  have hse : betaPpf a b q1 * (g.t g.nt - g.t 0) + g.t 0 < betaPpf a b q2 * (g.t g.nt - g.t 0) + g.t 0 := by
    have := mul_lt_mul_of_pos_right hlt hS
    linarith
  refine ⟨_, betaPpf a b q1 * (g.t g.nt - g.t 0) + g.t 0, betaPpf a b q2 * (g.t g.nt - g.t 0) + g.t 0, h2,
    by have := mul_nonneg a1 hS.le; linarith, hse,
    by have := mul_le_mul_of_nonneg_right b2 hS.le; linarith, ?_, ?_, fun young old => ?_⟩
  · rw [show (betaPpf a b q1 * (g.t g.nt - g.t 0) + g.t 0 - g.t 0) / (g.t g.nt - g.t 0) = betaPpf a b q1 by
      field_simp; ring]
    exact a3
  · rw [show (betaPpf a b q2 * (g.t g.nt - g.t 0) + g.t 0 - g.t 0) / (g.t g.nt - g.t 0) = betaPpf a b q2 by
      field_simp; ring]
    exact b3
  · set s := betaPpf a b q1 * (g.t g.nt - g.t 0) + g.t 0 with hs
    set e := betaPpf a b q2 * (g.t g.nt - g.t 0) + g.t 0 with he
    have hd : 0 < e - s := by linarith
    obtain ⟨r, k1, k2⟩ := interp_gives (p := { p with
        tPars := some ⟨betaPpfNum a b (.fin (g.t 0)) (.fin (g.t g.nt - g.t 0)) q1,
          betaPpfNum a b (.fin (g.t 0)) (.fin (g.t g.nt - g.t 0)) q2,
          betaPpfNum a b (.fin (g.t 0)) (.fin (g.t g.nt - g.t 0)) q2 -
          betaPpfNum a b (.fin (g.t 0)) (.fin (g.t g.nt - g.t 0)) q1⟩
        logPt := some A }) (g := g) hc hse (by simp only [e1, e2, Num.fin_sub]) young old
    refine ⟨r, _, k1, k2.shape, fun t ht => ⟨k2.get t ht, fun h => ?_, fun h => ?_, ?_, ?_, fun t' ht' htt => ?_⟩⟩
    · obtain ⟨k, -, -, h4, h5⟩ := ramp_frac hse young old (centre g.t t)
      have : (centre g.t t - s) / (e - s) ≤ 0 := div_nonpos_of_nonpos_of_nonneg (by linarith) hd.le
      rw [min_eq_right (by linarith), max_eq_left this] at h5
      rw [h4, h5]; ring
    · obtain ⟨k, -, -, h4, h5⟩ := ramp_frac hse young old (centre g.t t)
      have : 1 ≤ (centre g.t t - s) / (e - s) := by rw [le_div_iff₀ hd]; linarith
      rw [min_eq_left this, max_eq_right zero_le_one] at h5
      rw [h4, h5]; ring
    · obtain ⟨k, k1, k2, h4, h5⟩ := ramp_frac hse young old (centre g.t t)
      rw [h4]
      rcases le_total young old with h | h
      · rw [min_eq_left h]; nlinarith
      · rw [min_eq_right h]; nlinarith
    · obtain ⟨k, k1, k2, h4, h5⟩ := ramp_frac hse young old (centre g.t t)
      rw [h4]
      rcases le_total young old with h | h
      · rw [max_eq_right h]; nlinarith
      · rw [max_eq_left h]; nlinarith
    · obtain ⟨k, -, -, h4, h5⟩ := ramp_frac hse young old (centre g.t t)
      obtain ⟨k', -, -, h4', h5'⟩ := ramp_frac hse young old (centre g.t t')
      have hcc : centre g.t t ≤ centre g.t t' := by
        have := mono_edges hg.t (i := t) (j := t') htt ht'.le
        have := mono_edges hg.t (i := t + 1) (j := t' + 1) (by omega) ht'
        unfold centre; linarith
      have hkk : k ≤ k' := by
        rw [h5, h5']
        have : (centre g.t t - s) / (e - s) ≤ (centre g.t t' - s) / (e - s) := by gcongr
        exact max_le_max le_rfl (min_le_min le_rfl this)
      rw [h4, h4']
      constructor <;> intro h <;> nlinarith

end PKM
