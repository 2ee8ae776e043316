import Verif.StreamLemmas

/-! Lemmas: `set_p_t` prepares the other setters; reading the stored `p(x|t)`. -/

open scoped Classical
open MeasureTheory ProbabilityTheory

noncomputable section

namespace PKM
open Np Component

variable {p : Param} {g : Grid} {f2 : ℝ} {center : ℝ × ℝ} {rotation : ℝ}

theorem Built.congr {p' : Param} (h : Built p g f2 center rotation) (h1 : p'.cube = p.cube) (h2 : p'.f2 = p.f2)
    (h3 : p'.xxp = p.xxp) (h4 : p'.yyp = p.yyp) (h5 : p'.zGrid = p.zGrid) : Built p' g f2 center rotation :=
  ⟨h1 ▸ h.cubeIs, h2.trans h.f2, by rw [h3, h1]; exact h.xxp, by rw [h4, h1]; exact h.yyp, by rw [h1, h5]; exact h.zGrid⟩

/-- `set_p_t` with valid parameters. -/
theorem setPt_aged (hc : CubeIs p.cube g) (hg : g.Proper) {lmd phi : ℝ} (hl : 0 < lmd) (h0 : 0 < phi)
    (h1 : phi < 1) (hu : 1 < lmd * phi ∨ 1 < lmd * (1 - phi)) {q : ℝ × ℝ} (hq1 : 0 ≤ q.1) (hq : q.1 < q.2)
    (hq2 : q.2 ≤ 1) :
    ∃ s e A, g.t 0 ≤ s ∧ s < e ∧ e ≤ g.t g.nt ∧
      p.setPt lmd phi q = .ok { p with tPars := some ⟨.fin s, .fin e, .fin (e - s)⟩, logPt := some A } ∧
      IsArr g ['t'] A (fun c => Num.lg (ageBinProb g (lmd * phi) (lmd * (1 - phi)) c.t / width g.t c.t)) := by
  have ha : 0 < lmd * phi := mul_pos hl h0
  have hb : 0 < lmd * (1 - phi) := mul_pos hl (by linarith)
  obtain ⟨A, h2, h3⟩ := setPt_stores hc hg ha hb hu q
  have hs : 0 < g.t g.nt - g.t 0 := sub_pos.2 (strict_edges hg.t hg.nt le_rfl)
  have k : ∀ r, 0 ≤ r → r ≤ 1 → betaPpfNum (lmd * phi) (lmd * (1 - phi)) (.fin (g.t 0)) (.fin (g.t g.nt - g.t 0)) r =
      .fin (betaPpf (lmd * phi) (lmd * (1 - phi)) r * (g.t g.nt - g.t 0) + g.t 0) := fun r r0 r1 => by
    unfold betaPpfNum
    rw [if_pos ⟨ha, hb, by simpa [scaleOk] using hs, r0, r1⟩, Num.fin_mul, Num.fin_add]
  rw [k _ hq1 (hq.le.trans hq2), k _ (hq1.trans hq.le) hq2, Num.fin_sub] at h2
  have hst := betaPpf_strict ha hb hq1 hq hq2
  obtain ⟨s1, -, -⟩ := betaPpf_spec ha hb hq1 (hq.le.trans hq2)
  obtain ⟨-, s2, -⟩ := betaPpf_spec ha hb (hq1.trans hq.le) hq2
  exact ⟨_, _, A, by nlinarith, by nlinarith, by nlinarith, h2, h3⟩

theorem getP_xt_stored (hc : CubeIs p.cube g) (hg : g.Proper) {A : Arr Num} {q : Cell → ℝ}
    (hA : p.logPxt = some A) (hA' : MArr g (['x','y','t'].map some) A (fun c => Num.lg (q c)))
    (hq : ∀ c, g.Has c → 0 ≤ q c) (density : Bool) :
    Gives (getP p.self (condStr ['x'] ['t']) density false) g (condStr ['x'] ['t'])
      (fun c => .fin (q c * (width g.x c.x * width g.y c.y) / dvol g density ['x'] c)) := by
  have key : IsL (p.xtMass density) g ['x','y','t']
      (fun c => q c * (width g.x c.x * width g.y c.y) / dvol g density ['x'] c) := by
    cases density with
    | true =>
      refine ⟨A, by simp [Param.xtMass, Param.attr, hA, Param.onlyIf], hA'.congr fun c hc' => ?_⟩
      have := volOf_pos hg hc' ['x']
      simp only [dvol, if_true]
      rw [← volOf_x, mul_div_assoc, div_self this.ne', mul_one]
    | false =>
      obtain ⟨r, h4, h5⟩ := hA'.iaddL (logDxDy_marr hc hg) hq
        (fun c hc' => (mul_pos (sub_pos.2 (hg.x _ hc'.2.2.1)) (sub_pos.2 (hg.y _ hc'.2.2.2.1))).le) rfl
      refine ⟨r, by simp [Param.xtMass, Param.attr, hA, Param.onlyIf, h4], h5.congr fun c hc' => ?_⟩
      simp [dvol]
  have hq' : ((['x'],['t']) : PyStr × PyStr) ∈ conditionals := by decide +kernel
  refine (getP_own (p := p) hq' (f := p.xt) rfl density false (IsL.cond hq' key)).congr fun c hc' => ?_
  exact Num.exp_lg (div_nonneg (mul_nonneg (hq _ hc')
    (mul_pos (sub_pos.2 (hg.x _ hc'.2.2.1)) (sub_pos.2 (hg.y _ hc'.2.2.2.1))).le) (dvol_pos hg hc' _ _).le)

end PKM
