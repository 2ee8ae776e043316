import Verif.Props.LBounds
import Verif.Props.Bright

/-!
# C115: few stars are many dispersions away from the mean

`get_p`, `get_mean` and `get_variance` answer about the same stars.  So at most `variance / k²` of the stars of the distribution that `get_p` returns are `k` or
farther from the mean that `get_mean` returns, and the variance is limited by how far the mean is from the ends of the grid.
-/

open scoped Classical

noncomputable section

namespace PKM
open Np Component

variable {cube : IFUCube} {stored : Arr Num} {g : Grid} {ρ : Cell → ℝ} {L : ℕ → ℕ → ℝ} {lw : Bool} {n : ℕ} {e π : ℕ → ℝ} {μ v : ℝ} {b : PyStr}

/-! ### Specification -/

/-- Probability of the bins whose centres fulfil `S`. -/
def probWhere (n : ℕ) (e π : ℕ → ℝ) (S : ℝ → Prop) : ℝ := ∑ i ∈ Finset.range n, if S (centre e i) then π i else 0

/-- What the mean `μ` and the variance `v` say about `n` bins with edges `e` and probabilities `π`. -/
structure Concentrated (n : ℕ) (e π : ℕ → ℝ) (μ v : ℝ) : Prop where
  /-- Chebyshev: stars at a distance of `k` or more -/
  far : ∀ k > 0, probWhere n e π (fun x => k ≤ |x - μ|) ≤ v / k ^ 2
  /-- Cantelli: stars above or below -/
  above : ∀ k > 0, probWhere n e π (fun x => k ≤ x - μ) ≤ v / (v + k ^ 2)
  below : ∀ k > 0, probWhere n e π (fun x => k ≤ μ - x) ≤ v / (v + k ^ 2)
  /-- Bhatia and Davis -/
  ends : v ≤ (centre e (n - 1) - μ) * (μ - centre e 0)
  /-- no spread means one bin -/
  none : v = 0 ↔ ∃ i < n, π i = 1

/-- The distribution, mean and variance that `o` returns for `q` given `b` belong together. -/
def AnswersAgree (o : Obj) (g : Grid) (lw : Bool) (q : Char) (b : PyStr) (good : Cell → Prop) : Prop :=
  ∃ A M V, o.getP (distStr [q] b) false lw = .ok A ∧ o.getMean (distStr [q] b) lw = .ok M ∧ o.getVariance (distStr [q] b) lw = .ok V ∧
    ∀ c, g.Has c → good c → ∃ (π : ℕ → ℝ) (μ v : ℝ), (∀ i < g.bins q, A.get (i :: coords b c) = .fin (π i)) ∧ M.get (coords b c) = .fin μ ∧
      V.get (coords b c) = .fin v ∧ Concentrated (g.bins q) (g.edge q) π μ v

/-! ### Lemmas -/

theorem concentrated (hn : 0 < n) (he : ∀ i < n, e i < e (i + 1)) (hp : ∀ i < n, 0 ≤ π i) (h1 : ∑ i ∈ Finset.range n, π i = 1)
    (hμ : μ = ∑ i ∈ Finset.range n, centre e i * π i) (hv : v = ∑ i ∈ Finset.range n, centre e i ^ 2 * π i - μ ^ 2) : Concentrated n e π μ v := by
  have about : ∀ u, ∑ i ∈ Finset.range n, (centre e i - μ + u) ^ 2 * π i = v + u ^ 2 := fun u => by
    have : ∀ i, (centre e i - μ + u) ^ 2 * π i = centre e i ^ 2 * π i + 2 * (u - μ) * (centre e i * π i) + (u - μ) ^ 2 * π i := fun i => by ring
    simp only [this, Finset.sum_add_distrib, ← Finset.mul_sum, ← hμ, h1]
    rw [hv]; ring
  have v0 : 0 ≤ v := by
    have := about 0
    have h := Finset.sum_nonneg fun i (hi : i ∈ Finset.range n) => mul_nonneg (sq_nonneg (centre e i - μ + 0)) (hp i (Finset.mem_range.1 hi))
    rw [this] at h
    linarith
  have tail : ∀ (S : ℝ → Prop) (u a : ℝ), (∀ x, S x → a ≤ (x - μ + u) ^ 2) → a * probWhere n e π S ≤ v + u ^ 2 := by
    intro S u a h
    rw [← about u]
    unfold probWhere
    rw [Finset.mul_sum]
    refine Finset.sum_le_sum fun i hi => ?_
    have hi := hp i (Finset.mem_range.1 hi)
    split_ifs with hS
    · exact mul_le_mul_of_nonneg_right (h _ hS) hi
    · rw [mul_zero]; positivity
  have cantelli : ∀ (k : ℝ) (S : ℝ → Prop) (s : ℝ), 0 < k → s ^ 2 = 1 → (∀ x, S x → k ≤ s * (x - μ)) → probWhere n e π S ≤ v / (v + k ^ 2) := by
    intro k S s hk hs h
    have := tail S (s * (v / k)) ((k + v / k) ^ 2) fun x hx => by
      have h2 := h x hx
      have h3 : 0 ≤ v / k := div_nonneg v0 hk.le
      have h4 : (x - μ + s * (v / k)) ^ 2 = (s * (x - μ) + v / k) ^ 2 := by
        have : (s * (x - μ) + v / k) ^ 2 = s ^ 2 * (x - μ) ^ 2 + 2 * s * (x - μ) * (v / k) + (v / k) ^ 2 := by ring
        rw [this, hs]
        have : (x - μ + s * (v / k)) ^ 2 = (x - μ) ^ 2 + 2 * s * (x - μ) * (v / k) + s ^ 2 * (v / k) ^ 2 := by ring
        rw [this, hs]; ring
      rw [h4]
      exact pow_le_pow_left₀ (by positivity) (by linarith) 2
    rw [mul_pow, hs, one_mul] at this
    have hvk : 0 < v + k ^ 2 := by positivity
    rw [le_div_iff₀ hvk]
    have e1 : (k + v / k) ^ 2 = (v + k ^ 2) ^ 2 / k ^ 2 := by field_simp; ring
    have e2 : v + (v / k) ^ 2 = v * (v + k ^ 2) / k ^ 2 := by field_simp; ring
    rw [e1, e2, div_mul_eq_mul_div, div_le_div_iff_of_pos_right (by positivity)] at this
    have h5 : (v + k ^ 2) * (probWhere n e π S * (v + k ^ 2)) ≤ (v + k ^ 2) * v := by nlinarith
    exact le_of_mul_le_mul_left h5 hvk
  refine ⟨fun k hk => ?_, fun k hk => ?_, fun k hk => ?_, ?_, ?_⟩
  · rw [le_div_iff₀ (by positivity), mul_comm]
    have := tail (fun x => k ≤ |x - μ|) 0 (k ^ 2) fun x hx => by
      rw [add_zero, ← sq_abs (x - μ)]
      exact pow_le_pow_left₀ hk.le hx 2
    simpa using this
  · exact cantelli k _ 1 hk (by norm_num) fun x hx => by rw [one_mul]; exact hx
  · exact cantelli k _ (-1) hk (by norm_num) fun x hx => by linarith
  · have h : 0 ≤ ∑ i ∈ Finset.range n, (centre e (n - 1) - centre e i) * (centre e i - centre e 0) * π i :=
      Finset.sum_nonneg fun i hi => by
        have hi := Finset.mem_range.1 hi
        exact mul_nonneg (mul_nonneg (sub_nonneg.2 (centres_mono he (by omega) (by omega))) (sub_nonneg.2 (centres_mono he (by omega) hi))) (hp i hi)
    have : ∀ i, (centre e (n - 1) - centre e i) * (centre e i - centre e 0) * π i =
        (centre e (n - 1) + centre e 0) * (centre e i * π i) - centre e (n - 1) * centre e 0 * π i - centre e i ^ 2 * π i := fun i => by ring
    simp only [this, Finset.sum_sub_distrib, ← Finset.mul_sum, ← hμ, h1] at h
    nlinarith
  · constructor
    · intro hz
      have ha := about 0
      simp only [add_zero, hz] at ha
      have z := (Finset.sum_eq_zero_iff_of_nonneg fun i hi => mul_nonneg (sq_nonneg _) (hp i (Finset.mem_range.1 hi))).1 (ha.trans (by norm_num))
      obtain ⟨i, hi, h⟩ : ∃ i ∈ Finset.range n, π i ≠ 0 := by
        by_contra hc
        push Not at hc
        rw [Finset.sum_eq_zero hc] at h1
        exact zero_ne_one h1
      have at_i : ∀ j ∈ Finset.range n, π j ≠ 0 → centre e j = μ := fun j hj h => by
        have := (mul_eq_zero.1 (z j hj)).resolve_right h
        linarith [pow_eq_zero_iff two_ne_zero |>.1 this]
      refine ⟨i, Finset.mem_range.1 hi, ?_⟩
      rw [← h1, Finset.sum_eq_single i]
      · intro j hj hji
        by_contra hne
        have h2 := (at_i j hj hne).trans (at_i i hi h).symm
        have st : ∀ i j, i < j → j < n → centre e i < centre e j := fun i j hij hj => by
          have a := centres_mono he (show i ≤ j - 1 by omega) (by omega)
          have b := he (j - 1) (by omega)
          have d := he j hj
          rw [show j - 1 + 1 = j by omega] at b
          have : centre e (j - 1) < centre e j := by unfold centre; rw [show j - 1 + 1 = j by omega]; linarith
          linarith
        rcases lt_or_gt_of_ne hji with hlt | hlt
        · exact absurd h2 (st j i hlt (Finset.mem_range.1 hi)).ne
        · exact absurd h2 (st i j hlt (Finset.mem_range.1 hj)).ne'
      · intro hni; exact absurd hi hni
    · rintro ⟨i, hi, h⟩
      have oth : ∀ j ∈ Finset.range n, j ≠ i → π j = 0 := fun j hj hji => by
        have := Finset.add_sum_erase (Finset.range n) π (Finset.mem_range.2 hi)
        rw [h1, h] at this
        have h2 : ∑ x ∈ (Finset.range n).erase i, π x = 0 := by linarith
        exact (Finset.sum_eq_zero_iff_of_nonneg fun x hx => hp x (Finset.mem_range.1 (Finset.mem_of_mem_erase hx))).1 h2 j
          (Finset.mem_erase.2 ⟨hji, hj⟩)
      rw [Finset.sum_eq_single i (fun j hj hji => by rw [oth j hj hji, mul_zero]) (fun hni => absurd (Finset.mem_range.2 hi) hni), h, mul_one] at hμ hv
      rw [hv, hμ]; ring

theorem bins_positive (hg : g.Proper) {q : Char} (hq : q ∈ ['t','v','z']) : 0 < g.bins q := by
  fin_cases hq
  · exact hg.nt
  · exact hg.nv
  · exact hg.nz

/-! ### C115 -/

/-- **C115, plain components** (from a table, from particles): ages, velocities and metallicities. -/
theorem C115_plain (h : BaseIs cube stored g ρ L) (hlw : lw = true → 0 < totalLight g L (massP g ρ))
    (q : Char) (hq : q ∈ ['t','v','z']) (b : PyStr) (hb : ValidPair [q] b) (hN : b = [] → lw = false → g.sumCells (massP g ρ) = 1) :
    AnswersAgree (obj (baseSelf cube stored)) g lw q b (fun c => g.condWt (wtdP g L (massP g ρ) lw) b c ≠ 0) := by
  have hst := h.std hlw b
  have hv : varOf q = [q] := by fin_cases hq <;> rfl
  have hci : compIdx q = [] := by fin_cases hq <;> rfl
  have hr : q ∈ PyStr.replaceX [q] := by fin_cases hq <;> decide
  obtain ⟨A, hA, hA'⟩ := hst.tab _ hb
  obtain ⟨M, hM, hM'⟩ := hst.mean _ hb rfl
  obtain ⟨_, _, V, _, -, -, hV, -, hV2⟩ := C16_variance h hlw q (by fin_cases hq <;> decide) b (by rw [hv]; exact hb) hN
  rw [hv] at hV
  have hlead := lead_of_tab hq hb (respects_condWt _ b) hA'
  refine ⟨A, M, V, hA, hM, hV, fun c hc h0 => ?_⟩
  obtain ⟨-, -, v, hv1, -, hv2, -⟩ := hV2 c hc h0
  rw [hci] at hv1
  have hm := hM'.2 q hr c hc
  beta_reduce at hm
  rw [hci, expect_eq, if_neg h0] at hm
  have eq : g.value q = fun d => centre (g.edge q) (binIdx q d) := funext (bin_value hq)
  refine ⟨g.binProb (wtdP g L (massP g ρ) lw) q b c, _, v, fun i hi => (hlead.2 i hi c hc).trans (if_neg h0), hm, hv1, ?_⟩
  refine concentrated (bins_positive h.proper hq) (edges_increasing h.proper q) (fun i _ => binProb_nonneg (fun d hd => h.wtd_nonneg lw hd) q b c i)
    (cdf_total (q := q) h0 fun e => total_one hlw (hN e)) ?_ ?_
  · rw [sum_binProb _ _ _ _ (fun i => centre (g.edge q) i), eq]
  · rw [sum_binProb _ _ _ _ (fun i => centre (g.edge q) i ^ 2), hv2, eq]

theorem PopAt.agree {o : Obj} {q : Pop} {ask : PyStr → Prop} {good : Cell → Prop} {k : Char} (hP : PopAt o q g L lw b ask good)
    (hS : ShareTab o q g L lw k b good) (hk : k ∈ ['t','z']) (hb : ValidPair [k] b) (ha : ask [k]) : AnswersAgree o g lw k b good := by
  have hkv : k ≠ 'v' := by rintro rfl; exact absurd hk (by decide)
  have hk3 : k ∈ ['t','v','z'] := by fin_cases hk <;> decide
  have hvar : varOf k = [k] := by fin_cases hk <;> rfl
  obtain ⟨P, m, ⟨A, hA, hA'⟩, hm, hv⟩ := hS
  obtain ⟨M, F, eM, iM, vM⟩ := hP.mean [k] hb rfl
  obtain ⟨V, _, eV, -, -, -, vV⟩ := hP.spread (k := k) (by fin_cases hk <;> decide) (by rw [hvar]; exact hb) (by rw [hvar]; exact ha)
  rw [hvar] at eV
  have hlead := lead_of_tab hk3 hb hm hA'
  have hi : compIdx k = [] := by fin_cases hk <;> rfl
  have hr : k ∈ PyStr.replaceX [k] := by fin_cases hk <;> decide
  refine ⟨A, M, V, hA, eM, eV, fun c hc h0 => ?_⟩
  have e1 := (iM.2 k hr c hc).trans (vM k hr c hc h0)
  obtain ⟨e2, -, e3, -⟩ := vV c hc h0
  rw [hi] at e1 e2
  have hex : ∀ φ : ℝ → ℝ, q.expect g L lw b k φ c = ∑ i ∈ Finset.range (g.bins k), φ (centre (g.edge k) i) * q.binShare g L lw b k c i := by
    intro φ
    rw [sum_binShare hP.proper hP.ok hkv c (fun i => φ (centre (g.edge k) i)), Pop.expect_num, Pop.num_eq hP.proper hP.ok hkv,
      expectOf_eq hP.proper hP.ok (fun d v => by rw [binIdx_noV hkv])]
    simp only [bin_value hk3]
  refine ⟨q.binShare g L lw b k c, _, _, fun i hi => ?_, e1, e2, ?_⟩
  · rw [hlead.2 i hi c hc]
    beta_reduce
    rw [if_neg (hv c hc h0).1, (hv c hc h0).2]
  · refine concentrated (bins_positive hP.proper hk3) (edges_increasing hP.proper k)
      (fun i _ => binShare_nonneg hP.proper hP.ok hP.lightNonneg hkv c i) (cdf_binShare hP.proper hP.ok hkv (hP.stars c hc h0).1) ?_ ?_
    · exact hex fun x => x
    · rw [e3, hex fun x => x ^ 2]

/-- **C115, parametric components**: ages and metallicities. -/
theorem C115_parametric {p : Param} {m : Ingredients} (h : ParamIs p g m L) (hf : p.f2 = 1) (hl : lw = true → (m.pop g).Shines g L)
    (q : Char) (hq : q ∈ ['t','z']) (b : PyStr) (hb : ValidPair [q] b) :
    AnswersAgree (obj p.self) g lw q b (fun c => (m.pop g).amount g L lw b c ≠ 0) :=
  (h.popAt hf hl b).agree (h.shareTab hl hq hb) hq hb trivial

/-- **C115, mixtures**: ages and metallicities, where all members have stars; weighted by light not given velocities (there the means are wrong, C66). -/
theorem C115_mixture {m : Mix} {N : ℕ} {ω : ℕ → ℝ} {pop : ℕ → Pop} (h : MixOf m g N ω pop L) (hl : lw = true → ∀ i < N, (pop i).Shines g L)
    (hm : ∀ (i : ℕ) (hi : i < m.children.length), IsMember1 g L m.children[i] (pop i))
    (q : Char) (hq : q ∈ ['t','z']) (b : PyStr) (hb : ValidPair [q] b) (hv : lw = false ∨ 'v' ∉ b) :
    AnswersAgree (Mix.obj m) g lw q b (fun c => (∀ i < N, (pop i).amount g L lw b c ≠ 0) ∧
      (b = [] → lw = false → (mixPop N ω pop).amount g L false [] c = 1)) :=
  (h.popAt hl hm b hv).agree (h.shareTab hl hq hb) hq hb (by fin_cases hq <;> simp)

/-- The components of the examples of C114 and C69 meet the hypotheses. -/
example : ∃ cube, BaseIs cube (uniformStored 1 1 2) (uniformGrid 1 1 2 (-1, 1)) (fun _ => 1) demoL ∧ (uniformGrid 1 1 2 (-1, 1)).Has ⟨1, 1, 0, 0, 2⟩ ∧
    (uniformGrid 1 1 2 (-1, 1)).condWt (wtdP (uniformGrid 1 1 2 (-1, 1)) demoL (massP (uniformGrid 1 1 2 (-1, 1)) (fun _ => 1)) false) ['t'] ⟨1, 1, 0, 0, 2⟩ ≠ 0 ∧
    AnswersAgree (obj (baseSelf cube (uniformStored 1 1 2))) (uniformGrid 1 1 2 (-1, 1)) false 'v' ['t']
      (fun c => (uniformGrid 1 1 2 (-1, 1)).condWt (wtdP (uniformGrid 1 1 2 (-1, 1)) demoL (massP (uniformGrid 1 1 2 (-1, 1)) (fun _ => 1)) false) ['t'] c ≠ 0) := by
  obtain ⟨cube, -, hB⟩ := uniformBase 1 1 2 one_pos one_pos two_pos (-1, 1) (by norm_num)
  have hc : (uniformGrid 1 1 2 (-1, 1)).Has ⟨1, 1, 0, 0, 2⟩ := by simp [Grid.Has, uniformGrid, cubeGrid]
  exact ⟨cube, hB, hc, uniform_weight 1 1 2 one_pos one_pos two_pos (-1, 1) (by norm_num) ['t'] hc,
    C115_plain hB (by simp) 'v' (by decide) ['t'] (by decide) (by simp)⟩

example : ∃ m p t0, demoGrid.Has ⟨t0, 0, 0, 0, 0⟩ ∧ AnswersAgree (Mix.obj m) demoGrid true 'z' ['t'] (fun c => (∀ i < 2, (p i).amount demoGrid demoL true ['t'] c ≠ 0) ∧
    (['t'] = [] → true = false → (mixPop 2 (fun i => if i = 0 then 1 / 4 else 3 / 4) p).amount demoGrid demoL false [] c = 1)) := by
  obtain ⟨cube, p, mi, t0, hP, hf, ht, hpos, hmk⟩ := demoStarMix
  have hc : demoGrid.Has ⟨t0, 0, 0, 0, 0⟩ := by
    refine ⟨ht, ?_, ?_, ?_, ?_⟩ <;> norm_num [demoGrid, cubeGrid]
  obtain ⟨m, -, -, hB, h, hl, hm⟩ := hmk _ _ hc hc
  exact ⟨m, _, t0, hc, C115_mixture h (fun _ => hl) hm 'z' (by decide) ['t'] (by decide) (.inr (by decide))⟩

end PKM
