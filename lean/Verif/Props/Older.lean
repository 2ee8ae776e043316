import Verif.Older
import Verif.Props.Metal

/-!
# C86: a greater `phi` makes an older population

`p.setPt lmd phi q` is `component.set_p_t(lmd, phi, cdf_start_end=q)`.  `π t` and `κ t` are entries of the mass-weighted
and light-weighted `get_p('t', density=False)`, `μ` and `ν` those of `get_mean('t')`.  Age bins run from young to old.
-/

open scoped Classical
open MeasureTheory ProbabilityTheory

noncomputable section

namespace PKM
open Np Component

variable {p p' : Param} {g : Grid} {f2 : ℝ} {center : ℝ × ℝ} {rotation : ℝ}

/-- Below every age the first of two populations has no more stars than the second. -/
def Older (n : ℕ) (π π' : ℕ → ℝ) : Prop := ∀ k ≤ n, ∑ i ∈ Finset.range k, π i ≤ ∑ i ∈ Finset.range k, π' i

/-- Below every age inside the range the first has fewer stars than the second. -/
def StrictlyOlder (n : ℕ) (π π' : ℕ → ℝ) : Prop :=
  ∀ k, 0 < k → k < n → ∑ i ∈ Finset.range k, π i < ∑ i ∈ Finset.range k, π' i

/-- Of any two bins, the first distribution favours the later one more than the second does. -/
def StrictlyTilted (n : ℕ) (π π' : ℕ → ℝ) : Prop := ∀ i j, i < j → j < n → π i * π' j < π j * π' i

theorem centre_t_lt (hg : g.Proper) {i j : ℕ} (h : i < j) (hj : j < g.nt) : centre g.t i < centre g.t j := by
  have h1 := hg.t j hj
  have h2 := hg.t i (by omega)
  have h3 := mono_edges hg.t (i := i + 1) (j := j) h hj.le
  unfold centre; linarith

theorem tilted_older (hg : g.Proper) {π π' : ℕ → ℝ} (h1 : ∑ t : Fin g.nt, π t = 1) (h1' : ∑ t : Fin g.nt, π' t = 1)
    (h : Tilted g.nt π' π) : Older g.nt π' π ∧ ∑ t : Fin g.nt, centre g.t t * π t ≤ ∑ t : Fin g.nt, centre g.t t * π' t :=
  ⟨h.richer h1' h1, (expect_cross (v := centre g.t) h1' h1 h fun _ _ hij hj => (centre_t_lt hg hij hj).le).1⟩

theorem tilted_strict (hg : g.Proper) (hn : 2 ≤ g.nt) {π π' : ℕ → ℝ} (h1 : ∑ t : Fin g.nt, π t = 1)
    (h1' : ∑ t : Fin g.nt, π' t = 1) (h : StrictlyTilted g.nt π' π) :
    StrictlyOlder g.nt π' π ∧ ∑ t : Fin g.nt, centre g.t t * π t < ∑ t : Fin g.nt, centre g.t t * π' t :=
  ⟨(cross_richer h1' h1 h).2, (expect_cross (v := centre g.t) h1' h1 (fun i j a b => (h i j a b).le)
    fun _ _ hij hj => (centre_t_lt hg hij hj).le).2
    ⟨0, 1, by omega, by omega, centre_t_lt hg (by omega) (by omega), h 0 1 (by omega) (by omega)⟩⟩

/-- The mean age, from the distribution of ages. -/
theorem mean_age (hc : CubeIs p.cube g) (hg : g.Proper) {lw : Bool} {r : Arr Num} {π : ℕ → ℝ}
    (h1 : getP p.self ['t'] false lw = .ok r) (h2 : r.shape = [g.nt]) (h3 : ∀ t < g.nt, r.get [t] = .fin (π t)) :
    ∃ M, getMean p.self ['t'] lw = .ok M ∧ M.shape = [] ∧ M.get [] = .fin (∑ t : Fin g.nt, centre g.t t * π t) := by
  have hm : MArr g (some 't' :: []) r (fun c => .fin (π c.t)) :=
    ⟨h2, fun c hc' => by simpa [coordM, coordL] using h3 _ hc'.1⟩
  obtain ⟨M, m1, m2⟩ := meanDefault_tvz (s := p.self) (w := ['t']) (lw := lw) (a := 't')
    (B := []) hc (by decide) (by intro d hd; simp at hd) rfl ⟨r, h1, hm⟩
  refine ⟨M, m1, m2.1, ?_⟩
  have := m2.2 ⟨0, 0, 0, 0, 0⟩ ⟨hg.nt, hg.nv, hg.nx, hg.ny, hg.nz⟩
  have e : M.get [] = sum1D g 't' (fun c => .fin (g.value 't' c)) (fun c => .fin (π c.t)) ⟨0, 0, 0, 0, 0⟩ := this
  rw [e]
  exact Num.sum_congr_fin _ _ (fun t : Fin g.nt => centre g.t t * π t) fun t _ => rfl

theorem ageBinProb_cross (hg : g.Proper) {a b a' b' : ℝ} (ha : 0 < a) (hb : 0 < b) (ha' : 0 < a') (hb' : 0 < b')
    (h1 : a ≤ a') (h2 : b' ≤ b) (hne : a < a' ∨ b' < b) : StrictlyTilted g.nt (ageBinProb g a' b') (ageBinProb g a b) := by
  intro i j hij hj
  have hs : 0 < g.t g.nt - g.t 0 := sub_pos.2 (strict_edges hg.t hg.nt le_rfl)
  refine beta_cross ha hb ha' hb' h1 h2 hne (div_nonneg (sub_nonneg.2 (mono_edges hg.t (Nat.zero_le _) (by omega))) hs.le)
    (div_lt_div_of_pos_right (sub_lt_sub_right (hg.t i (by omega)) _) hs)
    (div_le_div_of_nonneg_right (sub_le_sub_right (mono_edges hg.t hij hj.le) _) hs.le)
    (div_lt_div_of_pos_right (sub_lt_sub_right (hg.t j hj) _) hs) ((div_le_one hs).2 (sub_le_sub_right (mono_edges hg.t hj le_rfl) _))

/-- `set_p_t` called with two sets of parameters on the same component.  If the second gives no smaller `lmd * phi` and
no greater `lmd * (1 - phi)`, then its stars are older: it has no more of them below any age, their mean age is at least
as great, and the window of build-up it sets begins and ends no earlier.  All this is strict if one of the parameters
differs (and there is more than one age bin). -/
theorem C86_older (hc : CubeIs p.cube g) (hg : g.Proper) (lmd phi lmd' phi' : ℝ) (q : ℝ × ℝ) (hv : ValidSfh lmd phi q)
    (hv' : ValidSfh lmd' phi' q) (ha : lmd * phi ≤ lmd' * phi') (hb : lmd' * (1 - phi') ≤ lmd * (1 - phi)) :
    ∃ p1 p2 r r' M M', ∃ π π' : ℕ → ℝ, ∃ μ μ' s s' e e' : ℝ, p.setPt lmd phi q = .ok p1 ∧ p.setPt lmd' phi' q = .ok p2 ∧
      getP p1.self "t".toList false false = .ok r ∧ r.shape = [g.nt] ∧ (∀ t < g.nt, r.get [t] = .fin (π t)) ∧
      getP p2.self "t".toList false false = .ok r' ∧ r'.shape = [g.nt] ∧ (∀ t < g.nt, r'.get [t] = .fin (π' t)) ∧
      getMean p1.self "t".toList false = .ok M ∧ M.shape = [] ∧ M.get [] = .fin μ ∧
      getMean p2.self "t".toList false = .ok M' ∧ M'.shape = [] ∧ M'.get [] = .fin μ' ∧
      p1.tPars = some ⟨.fin s, .fin e, .fin (e - s)⟩ ∧ p2.tPars = some ⟨.fin s', .fin e', .fin (e' - s')⟩ ∧
      Tilted g.nt π' π ∧ Older g.nt π' π ∧ μ ≤ μ' ∧ s ≤ s' ∧ e ≤ e' ∧
      (lmd * phi < lmd' * phi' ∨ lmd' * (1 - phi') < lmd * (1 - phi) →
        StrictlyTilted g.nt π' π ∧ (2 ≤ g.nt → StrictlyOlder g.nt π' π ∧ μ < μ') ∧ (0 < q.1 → s < s') ∧ (q.2 < 1 → e < e')) := by
  obtain ⟨l0, f0, f1, hu, q1, q2, q3⟩ := hv
  obtain ⟨l0', f0', f1', hu', -⟩ := hv'
  have a0 : 0 < lmd * phi := mul_pos l0 f0
  have b0 : 0 < lmd * (1 - phi) := mul_pos l0 (by linarith)
  have a0' : 0 < lmd' * phi' := mul_pos l0' f0'
  have b0' : 0 < lmd' * (1 - phi') := mul_pos l0' (by linarith)
  have hs : 0 < g.t g.nt - g.t 0 := sub_pos.2 (strict_edges hg.t hg.nt le_rfl)
  have win : ∀ {lmd phi : ℝ}, 0 < lmd * phi → 0 < lmd * (1 - phi) → (1 < lmd * phi ∨ 1 < lmd * (1 - phi)) →
      ∃ p1, p.setPt lmd phi q = .ok p1 ∧ p1.cube = p.cube ∧
        p1.tPars = some ⟨.fin (betaPpf (lmd * phi) (lmd * (1 - phi)) q.1 * (g.t g.nt - g.t 0) + g.t 0),
          .fin (betaPpf (lmd * phi) (lmd * (1 - phi)) q.2 * (g.t g.nt - g.t 0) + g.t 0),
          .fin (betaPpf (lmd * phi) (lmd * (1 - phi)) q.2 * (g.t g.nt - g.t 0) + g.t 0 -
            (betaPpf (lmd * phi) (lmd * (1 - phi)) q.1 * (g.t g.nt - g.t 0) + g.t 0))⟩ := fun {lmd phi} ha hb hu => by
    obtain ⟨A, h2, -⟩ := setPt_stores hc hg ha hb hu q
    have k : ∀ r, 0 ≤ r → r ≤ 1 → betaPpfNum (lmd * phi) (lmd * (1 - phi)) (.fin (g.t 0)) (.fin (g.t g.nt - g.t 0)) r =
        .fin (betaPpf (lmd * phi) (lmd * (1 - phi)) r * (g.t g.nt - g.t 0) + g.t 0) := fun r r0 r1 => by
      unfold betaPpfNum
      rw [if_pos ⟨ha, hb, by simpa [scaleOk] using hs, r0, r1⟩, Num.fin_mul, Num.fin_add]
    rw [k _ q1 (q2.le.trans q3), k _ (q1.trans q2.le) q3, Num.fin_sub] at h2
    exact ⟨_, h2, rfl, rfl⟩
  obtain ⟨p1, r, -, s1, s2, s3, s4, s5, -⟩ := C31_bins hc hg lmd phi l0 f0 f1 hu q
  obtain ⟨p2, r', -, s1', s2', s3', s4', s5', -⟩ := C31_bins hc hg lmd' phi' l0' f0' f1' hu' q
  obtain ⟨p1', w1, w2, w3⟩ := win a0 b0 hu
  obtain rfl : p1 = p1' := Except.ok.inj (s1.symm.trans w1)
  obtain ⟨p2', w1', w2', w3'⟩ := win a0' b0' hu'
  obtain rfl : p2 = p2' := Except.ok.inj (s1'.symm.trans w1')
  obtain ⟨M, m1, m2, m3⟩ := mean_age (p := p1) (w2 ▸ hc) hg s2 s3 s4
  obtain ⟨M', m1', m2', m3'⟩ := mean_age (p := p2) (w2' ▸ hc) hg s2' s3' s4'
  have sum1 := sfh_sum hg a0 b0
  have sum2 := sfh_sum hg a0' b0'
  obtain ⟨x1, x2⟩ := betaPpf_cross a0 b0 a0' b0' ha hb q1 (q2.le.trans q3)
  obtain ⟨y1, y2⟩ := betaPpf_cross a0 b0 a0' b0' ha hb (q1.trans q2.le) q3
  have tl : Tilted g.nt (ageBinProb g (lmd' * phi') (lmd' * (1 - phi'))) (ageBinProb g (lmd * phi) (lmd * (1 - phi))) := by
    by_cases hne : lmd * phi < lmd' * phi' ∨ lmd' * (1 - phi') < lmd * (1 - phi)
    · exact fun i j hij hj => (ageBinProb_cross hg a0 b0 a0' b0' ha hb hne i j hij hj).le
    · push Not at hne
      rw [le_antisymm ha hne.1, le_antisymm hb hne.2]
      exact fun i j _ _ => (mul_comm _ _).le
  obtain ⟨o1, o2⟩ := tilted_older hg sum1 sum2 tl
  refine ⟨p1, p2, r, r', M, M', _, _, _, _, _, _, _, _, s1, s1', s2, s3, s4, s2', s3', s4', m1, m2, m3, m1', m2', m3', w3, w3',
    tl, o1, o2, by nlinarith, by nlinarith, fun hne => ?_⟩
  have st := ageBinProb_cross hg a0 b0 a0' b0' ha hb hne
  refine ⟨st, fun hn => tilted_strict hg hn sum1 sum2 st, fun h => ?_, fun h => ?_⟩
  · have := x2 hne h (q2.trans_le q3)
    nlinarith
  · have := y2 hne (q1.trans_lt q2) h
    nlinarith

/-- The same `lmd`, a greater `phi`: strictly older. -/
theorem C86_phi (hc : CubeIs p.cube g) (hg : g.Proper) (hn : 2 ≤ g.nt) (lmd phi phi' : ℝ) (q : ℝ × ℝ)
    (hv : ValidSfh lmd phi q) (hv' : ValidSfh lmd phi' q) (h : phi < phi') :
    ∃ p1 p2 r r' M M', ∃ π π' : ℕ → ℝ, ∃ μ μ' : ℝ, p.setPt lmd phi q = .ok p1 ∧ p.setPt lmd phi' q = .ok p2 ∧
      getP p1.self "t".toList false false = .ok r ∧ (∀ t < g.nt, r.get [t] = .fin (π t)) ∧
      getP p2.self "t".toList false false = .ok r' ∧ (∀ t < g.nt, r'.get [t] = .fin (π' t)) ∧
      getMean p1.self "t".toList false = .ok M ∧ M.get [] = .fin μ ∧ getMean p2.self "t".toList false = .ok M' ∧ M'.get [] = .fin μ' ∧
      StrictlyOlder g.nt π' π ∧ μ < μ' := by
  have h1 : lmd * phi < lmd * phi' := mul_lt_mul_of_pos_left h hv.1
  have h2 : lmd * (1 - phi') ≤ lmd * (1 - phi) := mul_le_mul_of_nonneg_left (by linarith) hv.1.le
  obtain ⟨p1, p2, r, r', M, M', π, π', μ, μ', _, _, _, _, a1, a2, a3, -, a4, a5, -, a6, a7, -, a8, a9, -, b1, -, -, -, -, -, -, -, b2⟩ :=
    C86_older hc hg lmd phi lmd phi' q hv hv' h1.le h2
  exact ⟨p1, p2, r, r', M, M', π, π', μ, μ', a1, a2, a3, a4, a5, a6, a7, a8, a9, b1, ((b2 (Or.inl h1)).2.1 hn).1, ((b2 (Or.inl h1)).2.1 hn).2⟩

/-! ### Weighting by light -/

theorem sumTXZ_age (f : Cell → ℝ) {c : Cell} (hc : g.Has c) :
    Ingredients.sumTXZ g (fun d => if coords ['t'] d = coords ['t'] c then f d else 0) =
      ∑ x : Fin g.nx, ∑ y : Fin g.ny, ∑ z : Fin g.nz, f ⟨c.t, 0, x, y, z⟩ := by
  unfold Ingredients.sumTXZ
  rw [Finset.sum_eq_single ⟨c.t, hc.1⟩]
  · exact Finset.sum_congr rfl fun x _ => Finset.sum_congr rfl fun y _ => Finset.sum_congr rfl fun z _ =>
      if_pos (by simp [coords, coord1])
  · exact fun t _ h => Finset.sum_eq_zero fun x _ => Finset.sum_eq_zero fun y _ => Finset.sum_eq_zero fun z _ => if_neg fun e =>
      h (Fin.ext (by show (t : ℕ) = c.t; simpa [coords, coord1] using e))
  · simp

/-- Light per unit mass of the stars of age bin `t`. -/
def lightAt (g : Grid) (m : Ingredients) (L : ℕ → ℕ → ℝ) (t : ℕ) : ℝ :=
  ∑ x : Fin g.nx, ∑ y : Fin g.ny, ∑ z : Fin g.nz, L t z * (m.probX g ⟨t, 0, x, y, z⟩ * m.probZ g ⟨t, 0, x, y, z⟩)

theorem lightAt_nonneg {m : Ingredients} {L : ℕ → ℕ → ℝ} (h : ParamIs p g m L) {t : ℕ} (ht : t < g.nt) : 0 ≤ lightAt g m L t :=
  Finset.sum_nonneg fun x _ => Finset.sum_nonneg fun y _ => Finset.sum_nonneg fun z _ => mul_nonneg (h.lightNonneg _ _)
    (mul_nonneg (mul_nonneg (h.norm.px _ _ _) (mul_nonneg (sub_pos.2 (h.proper.x _ x.2)).le (sub_pos.2 (h.proper.y _ y.2)).le))
      (mul_nonneg (h.norm.pz _ _ _ _) (sub_pos.2 (h.proper.z _ z.2)).le))

theorem lightAt_pos {m : Ingredients} {L : ℕ → ℕ → ℝ} (h : ParamIs p g m L) (hL : ∀ t < g.nt, ∀ z < g.nz, 0 < L t z) {t : ℕ}
    (ht : t < g.nt) : 0 < lightAt g m L t := by
  have hx : ∀ x : Fin g.nx, ∀ y : Fin g.ny, 0 ≤ m.px t x y * (width g.x x * width g.y y) := fun x y =>
    mul_nonneg (h.norm.px _ _ _) (mul_nonneg (sub_pos.2 (h.proper.x _ x.2)).le (sub_pos.2 (h.proper.y _ y.2)).le)
  have hz : ∀ (x : Fin g.nx) (y : Fin g.ny) (z : Fin g.nz), 0 ≤ m.pz t x y z * width g.z z := fun x y z =>
    mul_nonneg (h.norm.pz _ _ _ _) (sub_pos.2 (h.proper.z _ z.2)).le
  obtain ⟨x, -, k1⟩ := Finset.exists_ne_zero_of_sum_ne_zero (h.norm.sumX t ht ▸ one_ne_zero)
  obtain ⟨y, -, k2⟩ := Finset.exists_ne_zero_of_sum_ne_zero k1
  obtain ⟨z, -, k3⟩ := Finset.exists_ne_zero_of_sum_ne_zero (h.norm.sumZ t ht x x.2 y y.2 ▸ one_ne_zero)
  have nn : ∀ (x : Fin g.nx) (y : Fin g.ny) (z : Fin g.nz), 0 ≤ L t z * (m.probX g ⟨t, 0, x, y, z⟩ * m.probZ g ⟨t, 0, x, y, z⟩) :=
    fun x y z => mul_nonneg (h.lightNonneg _ _) (mul_nonneg (hx x y) (hz x y z))
  exact Finset.sum_pos' (fun x _ => Finset.sum_nonneg fun y _ => Finset.sum_nonneg fun z _ => nn x y z) ⟨x, Finset.mem_univ _,
    Finset.sum_pos' (fun y _ => Finset.sum_nonneg fun z _ => nn x y z) ⟨y, Finset.mem_univ _,
    Finset.sum_pos' (fun z _ => nn x y z) ⟨z, Finset.mem_univ _, mul_pos (hL t ht z z.2)
      (mul_pos ((hx x y).lt_of_ne k2.symm) ((hz x y z).lt_of_ne k3.symm))⟩⟩⟩

/-- Ages weighted by mass and by light. -/
theorem light_ages {m : Ingredients} {L : ℕ → ℕ → ℝ} (h : ParamIs p g m L) (hl : Shines g m L) :
    ∃ r s : Arr Num, ∃ k : ℝ, 0 < k ∧ getP p.self ['t'] false false = .ok r ∧ r.shape = [g.nt] ∧
      (∀ t < g.nt, r.get [t] = .fin (m.pt t * width g.t t)) ∧ getP p.self ['t'] false true = .ok s ∧ s.shape = [g.nt] ∧
      (∀ t < g.nt, s.get [t] = .fin (k * lightAt g m L t * (m.pt t * width g.t t))) ∧
      ∑ t : Fin g.nt, k * lightAt g m L t * (m.pt t * width g.t t) = 1 := by
  have hg := h.proper
  obtain ⟨r, r1, r2, r3⟩ := C32_marginals h false false (by simp) ['t'] (by decide)
  obtain ⟨s, s1, s2, s3⟩ := C32_marginals h false true (fun _ => hl) ['t'] (by decide)
  have hS : 0 < Ingredients.sumTXZ g (fun d => L d.t d.z * m.probTXZ g d) := hl
  set S := Ingredients.sumTXZ g (fun d => L d.t d.z * m.probTXZ g d) with eS
  have hc : ∀ t < g.nt, g.Has ⟨t, 0, 0, 0, 0⟩ := fun t ht => ⟨ht, hg.nv, hg.nx, hg.ny, hg.nz⟩
  have e1 : ∀ t < g.nt, m.marginal g L false ['t'] ⟨t, 0, 0, 0, 0⟩ = m.pt t * width g.t t := fun t ht => by
    rw [Ingredients.marginal, if_neg (by decide), sumTXZ_age _ (hc t ht)]
    simp only [Ingredients.weightTXZ, Bool.false_eq_true, if_false, Ingredients.probTXZ, Ingredients.probT,
      Ingredients.probX, Ingredients.probZ]
    have a : ∀ (x : Fin g.nx) (y : Fin g.ny), ∑ z : Fin g.nz, m.pt t * width g.t t * (m.px t x y * (width g.x x * width g.y y)) *
        (m.pz t x y z * width g.z z) = m.pt t * width g.t t * (m.px t x y * (width g.x x * width g.y y)) := fun x y => by
      rw [← Finset.mul_sum, h.norm.sumZ t ht x x.2 y y.2, mul_one]
    simp only [a]
    simp only [← Finset.mul_sum]
    rw [h.norm.sumX t ht, mul_one]
  have e2 : ∀ t < g.nt, m.marginal g L true ['t'] ⟨t, 0, 0, 0, 0⟩ = S⁻¹ * lightAt g m L t * (m.pt t * width g.t t) := fun t ht => by
    rw [Ingredients.marginal, if_neg (by decide), sumTXZ_age _ (hc t ht), lightAt]
    simp only [Finset.mul_sum, Finset.sum_mul]
    refine Finset.sum_congr rfl fun x _ => Finset.sum_congr rfl fun y _ => Finset.sum_congr rfl fun z _ => ?_
    rw [Ingredients.weightTXZ, if_pos rfl, ← eS, Ingredients.probTXZ, div_eq_mul_inv, Ingredients.probT]
    ring
  refine ⟨r, s, S⁻¹, inv_pos.2 hS, r1, r2, fun t ht => ?_, s1, s2, fun t ht => ?_, ?_⟩
  · have := r3 _ (hc t ht)
    rw [e1 t ht] at this
    simpa [coords, coord1] using this
  · have := s3 _ (hc t ht)
    rw [e2 t ht] at this
    simpa [coords, coord1] using this
  · have a : ∀ t : Fin g.nt, S⁻¹ * lightAt g m L t * (m.pt t * width g.t t) = S⁻¹ * (m.pt t * width g.t t * lightAt g m L t) :=
      fun t => by ring
    simp only [a]
    rw [← Finset.mul_sum, inv_mul_eq_one₀ hS.ne', eS, Ingredients.sumTXZ]
    refine Finset.sum_congr rfl fun t _ => ?_
    rw [lightAt]
    simp only [Finset.mul_sum]
    refine Finset.sum_congr rfl fun x _ => Finset.sum_congr rfl fun y _ => Finset.sum_congr rfl fun z _ => ?_
    rw [Ingredients.probTXZ, Ingredients.probT]
    ring

/-- Two components on one cube whose stars of each age have the same positions and metallicities: if the first is older
by mass in the sense of `Tilted`, so it is by light. -/
theorem C86_light {m m' : Ingredients} {L : ℕ → ℕ → ℝ} (h : ParamIs p g m L) (h' : ParamIs p' g m' L) (hl : Shines g m L)
    (hl' : Shines g m' L) (hx : getP p'.self "x_t".toList false false = getP p.self "x_t".toList false false)
    (hz : getP p'.self "z_tx".toList false false = getP p.self "z_tx".toList false false) :
    ∃ r r' s s' M M', ∃ π π' κ κ' : ℕ → ℝ, ∃ ν ν' : ℝ,
      getP p.self "t".toList false false = .ok r ∧ (∀ t < g.nt, r.get [t] = .fin (π t)) ∧
      getP p'.self "t".toList false false = .ok r' ∧ (∀ t < g.nt, r'.get [t] = .fin (π' t)) ∧
      getP p.self "t".toList false true = .ok s ∧ (∀ t < g.nt, s.get [t] = .fin (κ t)) ∧
      getP p'.self "t".toList false true = .ok s' ∧ (∀ t < g.nt, s'.get [t] = .fin (κ' t)) ∧
      getMean p.self "t".toList true = .ok M ∧ M.get [] = .fin ν ∧ getMean p'.self "t".toList true = .ok M' ∧ M'.get [] = .fin ν' ∧
      (Tilted g.nt π' π → Tilted g.nt κ' κ ∧ Older g.nt κ' κ ∧ ν ≤ ν') ∧
      (StrictlyTilted g.nt π' π → 2 ≤ g.nt → (∀ t < g.nt, ∀ z < g.nz, 0 < L t z) →
        StrictlyTilted g.nt κ' κ ∧ StrictlyOlder g.nt κ' κ ∧ ν < ν') := by
  have hg := h.proper
  obtain ⟨r, s, k, k0, r1, r2, r3, s1, s2, s3, t1⟩ := light_ages h hl
  obtain ⟨r', s', k', k0', r1', r2', r3', s1', s2', s3', t1'⟩ := light_ages h' hl'
  obtain ⟨M, m1, -, m3⟩ := mean_age h.cubeIs hg s1 s2 s3
  obtain ⟨M', m1', -, m3'⟩ := mean_age h'.cubeIs hg s1' s2' s3'
  have el : ∀ t < g.nt, lightAt g m' L t = lightAt g m L t := fun t ht => by
    obtain ⟨⟨q1, a1, -, a3⟩, -, ⟨q2, b1, -, b3⟩⟩ := C32_ingredients h false
    obtain ⟨⟨q1', a1', -, a3'⟩, -, ⟨q2', b1', -, b3'⟩⟩ := C32_ingredients h' false
    obtain rfl : q1 = q1' := Except.ok.inj (a1.symm.trans (hx.symm.trans a1'))
    obtain rfl : q2 = q2' := Except.ok.inj (b1.symm.trans (hz.symm.trans b1'))
    refine Finset.sum_congr rfl fun x _ => Finset.sum_congr rfl fun y _ => Finset.sum_congr rfl fun z _ => ?_
    have hc : g.Has ⟨t, 0, x, y, z⟩ := ⟨ht, hg.nv, x.2, y.2, z.2⟩
    have e1 := Num.fin.inj ((a3 _ hc).symm.trans (a3' _ hc))
    have e2 := Num.fin.inj ((b3 _ hc).symm.trans (b3' _ hc))
    simp only [Bool.false_eq_true, if_false, div_one] at e1 e2
    rw [e1, e2]
  have cr : ∀ i j, i < j → j < g.nt →
      k' * lightAt g m' L i * (m'.pt i * width g.t i) * (k * lightAt g m L j * (m.pt j * width g.t j)) =
        k * k' * (lightAt g m L i * lightAt g m L j) * ((m'.pt i * width g.t i) * (m.pt j * width g.t j)) ∧
      k' * lightAt g m' L j * (m'.pt j * width g.t j) * (k * lightAt g m L i * (m.pt i * width g.t i)) =
        k * k' * (lightAt g m L i * lightAt g m L j) * ((m'.pt j * width g.t j) * (m.pt i * width g.t i)) := fun i j hij hj => by
    rw [el i (hij.trans hj), el j hj]
    constructor <;> ring
  refine ⟨r, r', s, s', M, M', fun t => m.pt t * width g.t t, fun t => m'.pt t * width g.t t,
    fun t => k * lightAt g m L t * (m.pt t * width g.t t), fun t => k' * lightAt g m' L t * (m'.pt t * width g.t t), _, _,
    r1, r3, r1', r3', s1, s3, s1', s3', m1, m3, m1', m3', fun hT => ?_, fun hT hn hL => ?_⟩
  · have ht : Tilted g.nt (fun t => k' * lightAt g m' L t * (m'.pt t * width g.t t)) (fun t => k * lightAt g m L t * (m.pt t * width g.t t)) :=
      fun i j hij hj => by
        beta_reduce
        rw [(cr i j hij hj).1, (cr i j hij hj).2]
        have := lightAt_nonneg h (hij.trans hj)
        have := lightAt_nonneg h hj
        exact mul_le_mul_of_nonneg_left (hT i j hij hj) (by positivity)
    exact ⟨ht, tilted_older hg t1 t1' ht⟩
  · have ht : StrictlyTilted g.nt (fun t => k' * lightAt g m' L t * (m'.pt t * width g.t t)) (fun t => k * lightAt g m L t * (m.pt t * width g.t t)) :=
      fun i j hij hj => by
        beta_reduce
        rw [(cr i j hij hj).1, (cr i j hij hj).2]
        have := lightAt_pos h hL (hij.trans hj)
        have := lightAt_pos h hL hj
        exact mul_lt_mul_of_pos_left (hT i j hij hj) (by positivity)
    exact ⟨ht, tilted_strict hg hn t1 t1' ht⟩

theorem getP_stored {q : PyStr × PyStr} (hq : q ∈ conditionals) {f : Bool → Bool → Py (Arr Num)}
    (hf : p.logP (condStr q.1 q.2) = some f) {density lw : Bool} {A : Arr Num} (h : f density lw = .ok A) :
    getP p.self (condStr q.1 q.2) density lw = .ok (map Num.exp A) := by
  obtain ⟨-, -, -, h4, h5, -⟩ := conditionals_letters q hq
  have hs := split_condStr (a := q.1) (b := q.2) (DistChars.noUnderscore h4) (DistChars.noUnderscore h5)
  have hself : p.self.logP (condStr q.1 q.2) = some f := hf
  simp [getP, getLogP, getLogConditional, hasUnderscore_condStr, getLogMarginal, hself, h, hs]

/-- A component made by the constructor and setters (`Sound`, all five parts set), on which `set_p_t` is called again
with `phi` or with a greater `phi'`: with the latter it is strictly older also by light. -/
theorem C86_recall {L : ℕ → ℕ → ℝ} (h : Sound p g f2 center rotation) (hg : g.Proper) (hn : 2 ≤ g.nt)
    (hset : ∀ f : Field, none ∉ f.get p) (hl : IsArr g ['t','z'] p.cube.ssps.lightWeights (fun c => .fin (L c.t c.z)))
    (hL : ∀ t z, 0 < L t z) (lmd phi phi' : ℝ) (q : ℝ × ℝ) (hv : ValidSfh lmd phi q) (hv' : ValidSfh lmd phi' q) (hp : phi < phi') :
    ∃ p1 p2 s s' M M', ∃ κ κ' : ℕ → ℝ, ∃ ν ν' : ℝ, p.setPt lmd phi q = .ok p1 ∧ p.setPt lmd phi' q = .ok p2 ∧
      getP p1.self "t".toList false true = .ok s ∧ (∀ t < g.nt, s.get [t] = .fin (κ t)) ∧
      getP p2.self "t".toList false true = .ok s' ∧ (∀ t < g.nt, s'.get [t] = .fin (κ' t)) ∧
      getMean p1.self "t".toList true = .ok M ∧ M.get [] = .fin ν ∧ getMean p2.self "t".toList true = .ok M' ∧ M'.get [] = .fin ν' ∧
      StrictlyOlder g.nt κ' κ ∧ ν < ν' := by
  have h1 : lmd * phi < lmd * phi' := mul_lt_mul_of_pos_left hp hv.1
  have h2 : lmd * (1 - phi') ≤ lmd * (1 - phi) := mul_le_mul_of_nonneg_left (by linarith) hv.1.le
  obtain ⟨p1, p2, r, r', _, _, π, π', _, _, _, _, _, _, a1, a2, a3, -, a4, a5, -, a6, -, -, -, -, -, -, -, -, -, -, -, -, -, b2⟩ :=
    C86_older h.built.cubeIs hg lmd phi lmd phi' q hv hv' h1.le h2
  have st := (b2 (Or.inl h1)).1
  have prep : ∀ {phi : ℝ} {p1 : Param}, ValidSfh lmd phi q → p.setPt lmd phi q = .ok p1 →
      ∃ m, ParamIs p1 g m L ∧ Shines g m L := fun {phi p1} hv e => by
    obtain ⟨p1', k1, k2⟩ := h.setPt hg hv
    obtain rfl : p1 = p1' := Except.ok.inj (e.symm.trans k1)
    have w := setPt_writes k1
    have hset1 : ∀ f : Field, none ∉ f.get p1 := fun f => by
      by_cases hf : f = .age
      · subst hf
        obtain ⟨s, e', A, -, -, -, k, -⟩ := setPt_aged h.built.cubeIs hg hv.1 hv.2.1 hv.2.2.1 hv.2.2.2.1 hv.2.2.2.2.1 hv.2.2.2.2.2.1 hv.2.2.2.2.2.2
        rw [Except.ok.inj (k1.symm.trans k)]
        simp [Field.get]
      · rw [w.frame hf]; exact hset f
    obtain ⟨m, i1, i2, i3⟩ := k2.paramIs hg (L := L) (by rw [w.cube]; exact hl) (fun t z => (hL t z).le) hset1
    exact ⟨m, i1, i1.shines (fun t _ z _ => hL t z) i2 i3⟩
  obtain ⟨m, i1, i2⟩ := prep hv a1
  obtain ⟨m', i1', i2'⟩ := prep hv' a2
  have same : getP p2.self "x_t".toList false false = getP p1.self "x_t".toList false false ∧
      getP p2.self "z_tx".toList false false = getP p1.self "z_tx".toList false false := by
    have ok := fun {phi : ℝ} (hv : ValidSfh lmd phi q) => setPt_aged h.built.cubeIs hg hv.1 hv.2.1 hv.2.2.1 hv.2.2.2.1 hv.2.2.2.2.1 hv.2.2.2.2.2.1 hv.2.2.2.2.2.2
    obtain ⟨_, _, _, -, -, -, k, -⟩ := ok hv
    obtain ⟨_, _, _, -, -, -, k', -⟩ := ok hv'
    obtain ⟨X, x1, -⟩ := i1.xtMass false
    obtain ⟨Z, z1, -⟩ := i1.ztxMass false
    have x2 : p2.xtMass false = .ok X := by
      rw [Except.ok.inj (a1.symm.trans k)] at x1
      rw [Except.ok.inj (a2.symm.trans k')]; exact x1
    have z2 : p2.ztxMass false = .ok Z := by
      rw [Except.ok.inj (a1.symm.trans k)] at z1
      rw [Except.ok.inj (a2.symm.trans k')]; exact z1
    have hX : ((['x'],['t']) : PyStr × PyStr) ∈ conditionals := by decide +kernel
    have hZ : ((['z'],['t','x']) : PyStr × PyStr) ∈ conditionals := by decide +kernel
    exact ⟨(getP_stored (density := false) (lw := false) (f := p2.xt) hX rfl x2).trans (getP_stored (density := false) (lw := false) (f := p1.xt) hX rfl x1).symm,
      (getP_stored (density := false) (lw := false) (f := p2.ztx) hZ rfl z2).trans (getP_stored (density := false) (lw := false) (f := p1.ztx) hZ rfl z1).symm⟩
  obtain ⟨ρ, ρ', s, s', M, M', σ, σ', κ, κ', ν, ν', c1, c2, c3, c4, c5, c6, c7, c8, c9, d1, d2, d3, -, d4⟩ :=
    C86_light i1 i1' i2 i2' same.1 same.2
  obtain rfl : r = ρ := Except.ok.inj (a3.symm.trans c1)
  obtain rfl : r' = ρ' := Except.ok.inj (a5.symm.trans c3)
  have e1 : ∀ t < g.nt, σ t = π t := fun t ht => Num.fin.inj ((c2 t ht).symm.trans (a4 t ht))
  have e2 : ∀ t < g.nt, σ' t = π' t := fun t ht => Num.fin.inj ((c4 t ht).symm.trans (a6 t ht))
  obtain ⟨-, o1, o2⟩ := d4 (fun i j hij hj => by
    rw [e1 i (hij.trans hj), e1 j hj, e2 i (hij.trans hj), e2 j hj]; exact st i j hij hj) hn fun t _ z _ => hL t z
  exact ⟨p1, p2, s, s', M, M', κ, κ', ν, ν', a1, a2, c5, c6, c7, c8, c9, d1, d2, d3, o1, o2⟩

/-! ### The hypotheses are met -/

/-- `lmd = 2`, `phi` 0.4 and 0.8: mean ages on the example grid. -/
example : ∃ (p p1 p2 : Param) (M M' : Arr Num) (μ μ' : ℝ), CubeIs p.cube demoGrid ∧ p.setPt 2 0.4 (0.05, 0.95) = .ok p1 ∧
    p.setPt 2 0.8 (0.05, 0.95) = .ok p2 ∧ getMean p1.self "t".toList false = .ok M ∧ M.get [] = .fin μ ∧
    getMean p2.self "t".toList false = .ok M' ∧ M'.get [] = .fin μ' ∧ μ < μ' := by
  obtain ⟨cube, -, h, -⟩ := demoCube_exists
  obtain ⟨p, -, hb, -⟩ := init_built h demoGrid_proper 1 (0, 0) 0
  obtain ⟨p1, p2, r, r', M, M', π, π', μ, μ', a1, a2, -, -, -, -, a7, a8, a9, b1, -, b2⟩ := C86_phi hb.cubeIs demoGrid_proper
    (by norm_num [demoGrid, cubeGrid]) 2 0.4 0.8 (0.05, 0.95) (by norm_num [ValidSfh]) (by norm_num [ValidSfh]) (by norm_num)
  exact ⟨p, p1, p2, M, M', μ, μ', hb.cubeIs, a1, a2, a7, a8, a9, b1, b2⟩

/-- A disk with all parts set, by light. -/
example : ∃ (p p1 p2 : Param) (M M' : Arr Num) (μ μ' : ℝ), Sound p demoGrid 1 (0, 0) 0 ∧ p.setPt 2 0.4 (0.05, 0.95) = .ok p1 ∧
    p.setPt 2 0.8 (0.05, 0.95) = .ok p2 ∧ getMean p1.self "t".toList true = .ok M ∧ M.get [] = .fin μ ∧
    getMean p2.self "t".toList true = .ok M' ∧ M'.get [] = .fin μ' ∧ μ < μ' := by
  obtain ⟨cube, -, hc, hs⟩ := demoCube_exists
  obtain ⟨p0, k1, k2, k3, k4⟩ := init_sound hc demoGrid_proper 1 (0, 0) 0
  rcases disk_history demoGrid_proper demo_offcentre demoCalls p0 k3 demoCalls_valid with ⟨p, j1, j2, j3⟩ | ⟨-, -, j⟩
  · have hf : ∀ f : Field, none ∉ f.get p := fun f => by
      rw [(set_fields (base := fun p => p) (fun {s s' k} h => disk_writes h) demoCalls p0 p j1
        (fun f => Or.inr (k4 f)) f).1]
      right
      cases f <;> simp [demoCalls, DiskCall.field]
    have hl := demo_light (cube := p.cube) (by rw [j3, k2, hs])
    obtain ⟨p1, p2, s, s', M, M', κ, κ', ν, ν', a1, a2, -, -, -, -, a7, a8, a9, b1, -, b2⟩ := C86_recall j2 demoGrid_proper
      (by norm_num [demoGrid, cubeGrid]) hf hl demoL_pos 2 0.4 0.8 (0.05, 0.95) (by norm_num [ValidSfh])
      (by norm_num [ValidSfh]) (by norm_num)
    exact ⟨p, p1, p2, M, M', ν, ν', j2, a1, a2, a7, a8, a9, b1, b2⟩
  · exfalso
    obtain ⟨pre, k, post, j1, j2, j3⟩ := j
    cases pre with
    | nil => simp only [List.nil_append, demoCalls, List.cons.injEq] at j1; rw [← j1.1] at j3; exact j3.1 rfl
    | cons k' pre =>
      simp only [List.cons_append, demoCalls, List.cons.injEq] at j1
      exact j2 k' (by simp) (by rw [← j1.1]; rfl)

end PKM
