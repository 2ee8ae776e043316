import Verif.Props.MixMoments
import Verif.Props.PopMix
import Verif.Props.Ybar
import Verif.PopDerived

/-!
# C73: a component rebuilt from the table of another

`table = other.get_log_p('tvxz')` (densities, by mass) and `Component(cube, table)`, for another component which is a
mixture of plain components, a parametric component, or any mixture. `Same r r' g w`: the calls `r` and `r'` both return, arrays
of equal shape, with equal entries (nan included).
-/

open scoped Classical

noncomputable section

namespace PKM
open Np Component

variable {g : Grid} {L : ℕ → ℕ → ℝ} {m : Mix} {n : ℕ} {ω : ℕ → ℝ} {pop : ℕ → Pop} {ρ : ℕ → Cell → ℝ}

/-- Both calls return arrays of the same shape: `s`, followed by the axes of the variables `w`. At position `i` of the
leading axes they agree in all cells `ok`. -/
def SameWhere (ok : Cell → Prop) (s i : List ℕ) (r r' : Py (Arr Num)) (g : Grid) (w : PyStr) : Prop :=
  ∃ p p', r = .ok p ∧ r' = .ok p' ∧ p.shape = s ++ g.shapeOf w ∧ p'.shape = s ++ g.shapeOf w ∧
    ∀ c, g.Has c → ok c → p.get (i ++ coords w c) = p'.get (i ++ coords w c)

/-- Both calls return the same array of the variables `w`. -/
def Same (r r' : Py (Arr Num)) (g : Grid) (w : PyStr) : Prop := SameWhere (fun _ => True) [] [] r r' g w

theorem Same.of_gives {r r' : Py (Arr Num)} {w : PyStr} {f f' : Cell → Num} (h : Gives r g w f) (h' : Gives r' g w f')
    (e : ∀ c, g.Has c → f c = f' c) : Same r r' g w := by
  obtain ⟨p, h1, h2, h3⟩ := h
  obtain ⟨p', h1', h2', h3'⟩ := h'
  refine ⟨p, p', h1, h1', h2, h2', fun c hc _ => ?_⟩
  rw [List.nil_append, h3 c hc, h3' c hc, e c hc]

/-- The table of any mixture. -/
theorem Mix.getLogP_table {P Q : ℕ → Cell → ℝ} (h : MixIs m g n ω P Q L) :
    Gives (Mix.getLogP m ['t','v','x','z'] true true false) g ['t','v','x','z']
      (fun c => Num.lg ((∑ i : Fin n, ω i * P i c) / g.cellVolume c)) := by
  have hw : ['t','v','x','z'] ∈ marginals := by decide
  obtain ⟨A, hA, hA'⟩ := Mix.marginalRows_is h true false hw (by simp)
  have hnn : ∀ i < n, ∀ c, g.Has c → 0 ≤ g.marg (rowP g n ω L (fun i => pick (P i) (Q i) ['t','v','x','z']) false i)
      ['t','v','x','z'] c / dvol g true ['t','v','x','z'] c := fun i _ c hc =>
    div_nonneg (margRow_nonneg h false _ _ i c) (dvol_pos h.proper hc _ _).le
  obtain ⟨r, hr, hr'⟩ := hA'.collapse_lg hnn
  refine ⟨r, ?_, hr'.congr fun c hc => ?_⟩
  · simp [Mix.getLogP, marginal_noUnderscore hw, hA, hr]
  · simp only [div_eq_mul_inv, ← Finset.sum_mul, sum_marg_rowP]
    rw [marg_full hc]
    have e : ∀ i, pick (P i) (Q i) ['t','v','x','z'] = P i := fun i => if_pos (by decide)
    simp only [wtdP, Bool.false_eq_true, if_false, dvol, if_true, volOf_tvxz, mixP, e]

/-! ### Mixtures of plain components -/

/-- The table of a mixture of plain components makes a component, with the density `Σ_i weight_i density_i`. -/
theorem PlainMix.table (h : PlainMix m g n ω ρ L) : ∃ table, Mix.getLogP m ['t','v','x','z'] true true false = .ok table ∧
    Component.init m.cube table = .ok table ∧ BaseIs m.cube table g (mixRho n ω ρ) L := by
  obtain ⟨s, hB⟩ := h.base
  obtain ⟨A, hA, hA'⟩ := Mix.getLogP_table h.is
  refine ⟨A, hA, (C04_constructor_shape hB.cubeIs hB.proper A).1 ?_, hB.proper, hB.cubeIs, ⟨hA'.1, fun c hc => ?_⟩,
    fun c => Finset.sum_nonneg fun i _ => mul_nonneg (h.wpos i).le (h.nonneg i c), hB.light, hB.lightNonneg⟩
  · rw [hA'.1]; simp [Grid.shapeOf, Grid.shape1]
  · rw [hA'.2 c hc]
    have := (cellVolume_pos hB.proper hc).ne'
    unfold massP mixRho
    beta_reduce
    rw [Finset.sum_div]
    congr 1
    exact Finset.sum_congr rfl fun i _ => by field_simp

theorem PlainMix.light_pos (h : PlainMix m g n ω ρ L) (hT : ∀ i < n, 0 < totalLight g L (massP g (ρ i))) :
    0 < totalLight g L (massP g (mixRho n ω ρ)) := by
  rw [← mixP_massP, totalLight_mixP]
  exact Finset.sum_pos (fun k _ => mul_pos (h.wpos k) (hT k k.2)) ⟨⟨0, h.pos⟩, Finset.mem_univ _⟩

/-- A plain component with the density of the mixture answers all 65 queries like the mixture. -/
theorem PlainMix.agrees {table : Arr Num} (h : PlainMix m g n ω ρ L) (hB : BaseIs m.cube table g (mixRho n ω ρ) L) (density lw : Bool)
    (hT : lw = true → 0 < totalLight g L (massP g (mixRho n ω ρ))) :
    (∀ w ∈ marginals, Same (getP (baseSelf m.cube table) w density lw) (Mix.getP m w true density lw) g w) ∧
    ∀ a b, (a, b) ∈ conditionals →
      Same (getP (baseSelf m.cube table) (condStr a b) density lw) (Mix.getP m (condStr a b) true density lw) g (condStr a b) := by
  refine ⟨fun w hw => ?_, fun a b hab => ?_⟩
  · refine Same.of_gives (getP_marg_of_contract (hB.contract lw hT) density w hw)
      (Mix.getP_marg h.is density lw hw fun e => ?_) fun c _ => ?_
    · unfold mixLight; simp only [pick_same, mixP_massP]; exact hT e
    · simp only [pick_same, mixP_massP]
  · refine Same.of_gives (getP_cond_of_contract (hB.contract lw hT) density (a, b) hab
      (baseLogP_none _ _ (condStr_not_marginal a b))) (Mix.getP_cond h.is density lw (a, b) hab fun e w => ?_) fun c _ => ?_
    · unfold mixLight; simp only [pick_same, mixP_massP]; exact hT e
    · simp only [pick_same, mixP_massP]

/-- The moments of a component `table` and of the mixture `m` of components with densities `ρ i` agree: means and central moments of all
orders wherever all members have stars, covariances and L-moments if they do in all cells. -/
def SameMoments (table : Arr Num) (m : Mix) (g : Grid) (n : ℕ) (ρ : ℕ → Cell → ℝ) (L : ℕ → ℕ → ℝ) (lw : Bool) : Prop :=
  ∀ b, (∀ q ∈ ['t','v','x','y','z'], ValidPair (varOf q) b →
      SameWhere (fun c => ∀ i < n, g.condWt (wtdP g L (massP g (ρ i)) lw) b c ≠ 0) (compShape (varOf q)) (compIdx q)
        (getMean (baseSelf m.cube table) (distStr (varOf q) b) lw) (Mix.getMean m (distStr (varOf q) b) lw) g b ∧
      ∀ j, SameWhere (fun c => ∀ i < n, g.condWt (wtdP g L (massP g (ρ i)) lw) b c ≠ 0) (compShape (varOf q)) (compIdx q)
        (getCentralMoment (baseSelf m.cube table) (distStr (varOf q) b) j lw)
        (Mix.getCentralMoment m (distStr (varOf q) b) j lw) g b) ∧
    ((∀ c, g.Has c → ∀ i < n, g.condWt (wtdP g L (massP g (ρ i)) lw) b c ≠ 0) →
      (∀ a0 a1, ValidPair [a0, a1] b → ∀ q q', varOf q = [a0] → varOf q' = [a1] →
        SameWhere (fun _ => True) (compShape [a0] ++ compShape [a1]) (compIdx q ++ compIdx q')
          ((obj (baseSelf m.cube table)).getCovariance (distStr [a0, a1] b) lw)
          ((Mix.obj m).getCovariance (distStr [a0, a1] b) lw) g b) ∧
      ∀ q ∈ ['t','v','z'], ValidPair [q] b → ∀ j : ℕ, 1 ≤ j →
        Same ((obj (baseSelf m.cube table)).getLMoment (distStr [q] b) j lw) ((Mix.obj m).getLMoment (distStr [q] b) j lw) g b)

theorem PlainMix.agrees_moments {lw : Bool} {table : Arr Num} (h : PlainMix m g n ω ρ L) (hB : BaseIs m.cube table g (mixRho n ω ρ) L)
    (hT : lw = true → ∀ i < n, 0 < totalLight g L (massP g (ρ i))) : SameMoments table m g n ρ L lw := by
  have hlw : lw = true → 0 < totalLight g L (massP g (mixRho n ω ρ)) := fun e => h.light_pos (hT e)
  refine fun b => ⟨fun q hq hb => ⟨?_, fun j => ?_⟩, fun hne => ⟨fun a0 a1 hab q q' e e' => ?_, fun q hq hb j hj => ?_⟩⟩
  · obtain ⟨r, h1, h2, h3⟩ := C13_means hB hlw q hq b hb
    obtain ⟨r', h1', h2', h3'⟩ := C29_mean_partial h hT q hq b hb
    exact ⟨r, r', h1, h1', h2, h2', fun c hc hok => by rw [h3 c hc, (h3' c hc).1 hok]⟩
  · obtain ⟨r, h1, h2, h3⟩ := C16_central_moments hB hlw q hq b hb j
    obtain ⟨r', h1', h2', h3'⟩ := C29_central_moment_partial h hT q hq b hb j
    exact ⟨r, r', h1, h1', h2, h2', fun c hc hok => by rw [h3 c hc, (h3' c hc).1 hok]⟩
  · obtain ⟨r, h1, h2, h3⟩ := C18_covariance hB hlw a0 a1 b hab
    obtain ⟨r', h1', h2', h3'⟩ := C29_covariance h hT a0 a1 b hab hne
    exact ⟨r, r', h1, h1', h2, h2', fun c hc _ => by rw [h3 q q' e e' c hc, h3' q q' e e' c hc]⟩
  · exact Same.of_gives (C20_l_moments hB hlw q hq b hb j hj) (C29_l_moments h hT q hq b hb j hj hne) fun c _ => rfl

/-- A component made from the table of a mixture of plain components answers all 65 queries like the mixture: by mass and by
light, as probability and as density. -/
theorem C73_plain_distributions (h : PlainMix m g n ω ρ L) : ∃ table,
    Mix.getLogP m ['t','v','x','z'] true true false = .ok table ∧ Component.init m.cube table = .ok table ∧
    ∀ density lw, (lw = true → 0 < totalLight g L (massP g (mixRho n ω ρ))) →
      (∀ w ∈ marginals, Same (getP (baseSelf m.cube table) w density lw) (Mix.getP m w true density lw) g w) ∧
      ∀ a b, (a, b) ∈ conditionals →
        Same (getP (baseSelf m.cube table) (condStr a b) density lw) (Mix.getP m (condStr a b) true density lw) g (condStr a b) := by
  obtain ⟨A, hA, hI, hB⟩ := h.table
  exact ⟨A, hA, hI, fun density lw hT => h.agrees hB density lw hT⟩

/-- So do its moments: means and central moments of all orders wherever all members have stars (elsewhere the mixture
answers nan, C29), covariances and L-moments. -/
theorem C73_plain_moments {lw : Bool} (h : PlainMix m g n ω ρ L) (hT : lw = true → ∀ i < n, 0 < totalLight g L (massP g (ρ i))) :
    ∃ table, Mix.getLogP m ['t','v','x','z'] true true false = .ok table ∧ Component.init m.cube table = .ok table ∧
      SameMoments table m g n ρ L lw := by
  obtain ⟨A, hA, hI, hB⟩ := h.table
  exact ⟨A, hA, hI, h.agrees_moments hB hT⟩

/-! ### Datacubes -/

theorem ybarFT_linear {interp : ℕ → (ℕ → ℂ) → ℝ → ℂ} (hI : Interp interp) (S : ℕ → ℕ → ℕ → ℝ) (nl N v0 : ℕ) (dv a b : ℝ)
    (ρ1 ρ2 : Cell → ℝ) (k x w : ℕ) : ybarFT interp g S (fun c => a * ρ1 c + b * ρ2 c) nl N v0 dv k x w =
      a * ybarFT interp g S ρ1 nl N v0 dv k x w + b * ybarFT interp g S ρ2 nl N v0 dv k x w := by
  simp only [ybarFT_eq]
  rw [← mul_assoc, ← mul_assoc, ← mul_assoc, ← mul_assoc, ← add_mul, ← add_mul]
  congr 2
  rw [Finset.mul_sum, Finset.mul_sum, ← Finset.sum_add_distrib]
  refine Finset.sum_congr rfl fun t _ => ?_
  rw [Finset.mul_sum, Finset.mul_sum, ← Finset.sum_add_distrib]
  refine Finset.sum_congr rfl fun z _ => ?_
  have : (fun j => Fft.rfft g.nv g.nv (fun i => a * ρ1 ⟨t, (i + v0) % g.nv, x, w, z⟩ +
      b * ρ2 ⟨t, (i + v0) % g.nv, x, w, z⟩) j * (dv : ℂ)) = fun j =>
      (a : ℂ) * (Fft.rfft g.nv g.nv (fun i => ρ1 ⟨t, (i + v0) % g.nv, x, w, z⟩) j * (dv : ℂ)) +
      (b : ℂ) * (Fft.rfft g.nv g.nv (fun i => ρ2 ⟨t, (i + v0) % g.nv, x, w, z⟩) j * (dv : ℂ)) := by
    funext j
    rw [Fft.rfft_linear]
    ring
  simp only [this, hI.linear]
  rw [← mul_assoc a, ← mul_assoc b, ← add_mul, ← Fft.irfft_linear]
  congr 2
  funext j
  ring

theorem ybarFT_mixRho {interp : ℕ → (ℕ → ℂ) → ℝ → ℂ} (hI : Interp interp) (S : ℕ → ℕ → ℕ → ℝ) (nl N v0 : ℕ) (dv : ℝ)
    (ω : ℕ → ℝ) (ρ : ℕ → Cell → ℝ) (k x w : ℕ) : ∀ n, ybarFT interp g S (mixRho n ω ρ) nl N v0 dv k x w =
      ∑ i : Fin n, ω i * ybarFT interp g S (ρ i) nl N v0 dv k x w
  | 0 => by
    have := ybarFT_linear (g := g) hI S nl N v0 dv 0 0 (ρ 0) (ρ 0) k x w
    simp only [zero_mul, add_zero] at this
    rw [show mixRho 0 ω ρ = fun _ => 0 from by funext c; simp [mixRho], this]
    simp
  | n + 1 => by
    have e : mixRho (n + 1) ω ρ = fun c => 1 * mixRho n ω ρ c + ω n * ρ n c := by
      funext c; simp [mixRho, Fin.sum_univ_castSucc]
    rw [e, ybarFT_linear hI, ybarFT_mixRho hI S nl N v0 dv ω ρ k x w n, Fin.sum_univ_castSucc]
    simp

theorem PlainMix.agrees_datacube {interp : ℕ → (ℕ → ℂ) → ℝ → ℂ} {sp : Spectra} {S : ℕ → ℕ → ℕ → ℝ} {nl N v0 : ℕ} (hI : Interp interp)
    {table : Arr Num} (h : PlainMix m g n ω ρ L) (hB : BaseIs m.cube table g (mixRho n ω ρ) L)
    (hN : 0 < N) (hS : SpectraAre sp g S nl N) (h0 : ZeroBin g.nv g.v v0)
    (hv : VelocityOk g.nv g.v sp.dv v0) (hm : 6 ≤ g.nv)
    (hY : ∀ (i : ℕ) (hi : i < m.children.length), ∃ stored Y, m.children[i] = Component.child (baseSelf m.cube stored) (some Y) ∧
      BaseIs m.cube stored g (ρ i) L ∧ evaluateYbar interp (baseSelf m.cube stored) sp "none".toList = .ok Y) :
    ∃ y y', Mix.evaluateYbar m = .ok { m with ybar := some y } ∧
      evaluateYbar interp (baseSelf m.cube table) sp "none".toList = .ok y' ∧
      y.shape = [N, g.nx, g.ny] ∧ y'.shape = [N, g.nx, g.ny] ∧
      ∀ k < N, ∀ x < g.nx, ∀ w < g.ny, y.get [k, x, w] = y'.get [k, x, w] := by
  have hhalf : 4 ≤ Fft.half g.nv := by unfold Fft.half; omega
  obtain ⟨⟨y', a0, b0, c0⟩, -⟩ := (evaluateYbar_is hI.loc hB hN hS h0 hv).2 hhalf
  have key : ∀ i, ∃ Y : Arr Num, ∀ hi : i < m.children.length, m.children[i].ybar = some Y ∧
      Is3 Y N g.nx g.ny (fun k x y => .fin (ybarFT interp g S (ρ i) nl N v0 sp.dv k x y)) := by
    intro i
    by_cases hi : i < m.children.length
    · obtain ⟨st, Y, e, hb, hy⟩ := hY i hi
      obtain ⟨⟨Y', a1, b1⟩, -⟩ := (evaluateYbar_is hI.loc hb hN hS h0 hv).2 hhalf
      rw [hy] at a1
      injection a1 with a1
      subst a1
      exact ⟨Y, fun _ => ⟨by rw [e]; rfl, b1⟩⟩
    · exact ⟨y', fun hi' => absurd hi' hi⟩
  choose Y hY' using key
  have hl : m.weights.length = n := by simp [h.weights]
  obtain ⟨y, d1, d2, d3⟩ := C30_weighted_sum m Y [N, g.nx, g.ny]
    (List.ne_nil_of_length_pos (by rw [h.children]; exact h.pos)) (by rw [h.children, hl])
    fun i hi => ⟨(hY' i hi).1, (hY' i hi).2.1⟩
  refine ⟨y, y', d1, a0, d2, b0, fun k hk x hx w hw => ?_⟩
  rw [d3 [k, x, w] ⟨hk, hx, hw, trivial⟩, c0 k hk x hx w hw]
  beta_reduce
  rw [ybarFT_mixRho hI]
  have e : ∀ i : Fin m.weights.length, Num.fin m.weights[i] * (Y i).get [k, x, w] =
      .fin (ω i * ybarFT interp g S (ρ i) nl N v0 sp.dv k x w) := by
    intro i
    have hi : (i : ℕ) < m.children.length := by rw [h.children, ← hl]; exact i.2
    have e1 : m.weights[i] = ω i := by simp [h.weights]
    rw [(hY' i hi).2.2 k hk x hx w hw, e1, Num.fin_mul]
  simp only [e, Num.fin_sum]
  subst hl
  rfl

/-- The datacube of the mixture (from the evaluated datacubes of its members) is that of the component made from its table. -/
theorem C73_plain_datacube {interp : ℕ → (ℕ → ℂ) → ℝ → ℂ} {sp : Spectra} {S : ℕ → ℕ → ℕ → ℝ} {nl N v0 : ℕ} (hI : Interp interp)
    (h : PlainMix m g n ω ρ L) (hN : 0 < N) (hS : SpectraAre sp g S nl N) (h0 : ZeroBin g.nv g.v v0)
    (hv : VelocityOk g.nv g.v sp.dv v0) (hm : 6 ≤ g.nv)
    (hY : ∀ (i : ℕ) (hi : i < m.children.length), ∃ stored Y, m.children[i] = Component.child (baseSelf m.cube stored) (some Y) ∧
      BaseIs m.cube stored g (ρ i) L ∧ evaluateYbar interp (baseSelf m.cube stored) sp "none".toList = .ok Y) :
    ∃ table y y', Mix.getLogP m ['t','v','x','z'] true true false = .ok table ∧ Component.init m.cube table = .ok table ∧
      Mix.evaluateYbar m = .ok { m with ybar := some y } ∧
      evaluateYbar interp (baseSelf m.cube table) sp "none".toList = .ok y' ∧
      y.shape = [N, g.nx, g.ny] ∧ y'.shape = [N, g.nx, g.ny] ∧
      ∀ k < N, ∀ x < g.nx, ∀ w < g.ny, y.get [k, x, w] = y'.get [k, x, w] := by
  obtain ⟨A, hA, hIn, hB⟩ := h.table
  obtain ⟨y, y', h1⟩ := h.agrees_datacube hI hB hN hS h0 hv hm hY
  exact ⟨A, y, y', hA, hIn, h1⟩

/-! ### Parametric components and mixtures with them -/

/-- All stars have velocities in the range of the grid, bin by bin. -/
def Pop.Inside (q : Pop) (g : Grid) : Prop := ∀ c, g.Has c → ∑ v : Fin g.nv, q.joint { c with v := v } = q.stars c

/-- Density with the probabilities `q.joint`. -/
def Pop.rho (q : Pop) (g : Grid) (c : Cell) : ℝ := if g.Has c then q.joint c / g.cellVolume c else 0

variable {q : Pop} {lw : Bool}

theorem sumCells_onGrid {f f' : Cell → ℝ} (h : ∀ d, g.Has d → f d = f' d) : g.sumCells f = g.sumCells f' :=
  Finset.sum_congr rfl fun t _ => Finset.sum_congr rfl fun v _ => Finset.sum_congr rfl fun x _ => Finset.sum_congr rfl fun y _ =>
    Finset.sum_congr rfl fun z _ => h _ ⟨t.2, v.2, x.2, y.2, z.2⟩

theorem Pop.rho_joint (hg : g.Proper) {c : Cell} (hc : g.Has c) : (tablePop g (q.rho g)).joint c = q.joint c := by
  have := (cellVolume_pos hg hc).ne'
  simp only [tablePop, Pop.rho, if_pos hc]
  field_simp

theorem Pop.rho_stars (hg : g.Proper) (hi : q.Inside g) {c : Cell} (hc : g.Has c) : (tablePop g (q.rho g)).stars c = q.stars c := by
  rw [← hi c hc, tablePop_stars]
  exact Finset.sum_congr rfl fun v _ => Pop.rho_joint hg ⟨hc.1, v.2, hc.2.2⟩

theorem Pop.rho_amount (hg : g.Proper) {w : PyStr} (hw : 'v' ∈ w ∨ q.Inside g) (c : Cell) :
    (tablePop g (q.rho g)).amount g L lw w c = q.amount g L lw w c := by
  unfold Pop.amount
  split
  · exact sumCells_onGrid fun d hd => by rw [Pop.rho_joint hg hd]
  · next hv => exact sumTXZ_has hg fun d hd => by rw [Pop.rho_stars hg (hw.resolve_left hv) hd]

theorem Pop.rho_light (hg : g.Proper) {w : PyStr} (hw : 'v' ∈ w ∨ q.Inside g) :
    (tablePop g (q.rho g)).lightOf g L w = q.lightOf g L w := by
  unfold Pop.lightOf
  split
  · exact sumCells_onGrid fun d hd => by rw [Pop.rho_joint hg hd]
  · next hv => exact sumTXZ_has hg fun d hd => by rw [Pop.rho_stars hg (hw.resolve_left hv) hd]

theorem Pop.rho_marginal (hg : g.Proper) {w : PyStr} (hw : 'v' ∈ w ∨ q.Inside g) (c : Cell) :
    (tablePop g (q.rho g)).marginal g L lw w c = q.marginal g L lw w c := by
  unfold Pop.marginal
  rw [Pop.rho_amount hg hw, Pop.rho_light hg hw]

theorem Pop.rho_cond (hg : g.Proper) {a b : PyStr} (hab : (a, b) ∈ conditionals) (hw : 'v' ∈ b ∨ q.Inside g) (c : Cell) :
    (tablePop g (q.rho g)).cond g L lw a b c = q.cond g L lw a b c := by
  have hsub : ∀ p ∈ conditionals, 'v' ∈ p.2 → 'v' ∈ unionStr p.1 p.2 := by decide +kernel
  unfold Pop.cond
  rw [Pop.rho_marginal hg hw, Pop.rho_marginal hg (hw.imp_left (hsub _ hab))]

/-- A component made from a table of the joint probabilities of the population. -/
theorem Pop.tabulated {cube : IFUCube} {A : Arr Num} (hg : g.Proper) (hc : CubeIs cube g) (hq : q.Ok g)
    (hl : IsArr g ['t','z'] cube.ssps.lightWeights (fun c => .fin (L c.t c.z))) (hL : ∀ t z, 0 ≤ L t z)
    (hA : IsArr g ['t','v','x','z'] A (fun c => Num.lg (q.joint c / g.cellVolume c))) :
    Component.init cube A = .ok A ∧ BaseIs cube A g (q.rho g) L := by
  refine ⟨(C04_constructor_shape hc hg A).1 (by rw [hA.1]; simp [Grid.shapeOf, Grid.shape1]), hg, hc, ⟨hA.1, fun c hc => ?_⟩,
    fun c => ?_, hl, hL⟩
  · rw [hA.2 c hc]
    simp only [Pop.rho, if_pos hc]
  · unfold Pop.rho
    split
    · next hc => exact div_nonneg (hq.joint c hc) (cellVolume_pos hg hc).le
    · exact le_rfl

/-- What a component made from such a table answers. -/
theorem Pop.table_marg {cube : IFUCube} {A : Arr Num} (h : BaseIs cube A g (q.rho g) L) (density lw : Bool)
    (hl : lw = true → 0 < (tablePop g (q.rho g)).lightOf g L ['t','x','z']) {w : PyStr} (hw : w ∈ marginals) :
    Gives (getP (baseSelf cube A) w density lw) g w (fun c => .fin ((tablePop g (q.rho g)).marginal g L lw w c / dvol g density w c)) :=
  (IsMember.plain cube A _ none h rfl rfl : IsMember g L (Component.child (baseSelf cube A) none) _).getP_marg density lw hl hw

theorem Pop.table_cond {cube : IFUCube} {A : Arr Num} (h : BaseIs cube A g (q.rho g) L) (density lw : Bool)
    (hl : lw = true → 0 < (tablePop g (q.rho g)).lightOf g L ['t','x','z']) {a b : PyStr} (hab : (a, b) ∈ conditionals) :
    Gives (getP (baseSelf cube A) (condStr a b) density lw) g (condStr a b) (fun c =>
      (tablePop g (q.rho g)).cond g L lw a b c / .fin (dvol g density a c)) := by
  have hT : lw = true → 0 < totalLight g L (massP g (q.rho g)) := fun e => by
    have := hl e
    rwa [Pop.lightOf_eq h.proper (tablePop_ok h.proper h.nonneg), tablePop_light h.proper] at this
  refine Gives.congr (getP_cond_of_contract (h.contract lw hT) density (a, b) hab
      (baseLogP_none _ _ (condStr_not_marginal a b))) fun c hc => ?_
  have hd := dvol_pos h.proper hc density a
  unfold Pop.cond condTable
  rw [tablePop_marginal h.proper h.nonneg, tablePop_marginal h.proper h.nonneg]
  split
  · simp
  · rw [Num.fin_div _ _ hd.ne']

theorem Pop.table_light (hg : g.Proper) (hq : q.Ok g) (hL : ∀ t z, 0 ≤ L t z) (hs : q.Shines g L) :
    0 < (tablePop g (q.rho g)).lightOf g L ['t','x','z'] := by
  have h1 := hq.light_pos hg hL hs ['t','v','x','z']
  rw [← Pop.rho_light hg (Or.inl (by decide))] at h1
  have hn : ∀ c, 0 ≤ q.rho g c := fun c => by
    unfold Pop.rho
    split
    · next hc => exact div_nonneg (hq.joint c hc) (cellVolume_pos hg hc).le
    · exact le_rfl
  rw [Pop.lightOf_eq hg (tablePop_ok hg hn), tablePop_light hg] at h1 ⊢
  exact h1

theorem Pop.table_same {cube : IFUCube} {A : Arr Num} (h : BaseIs cube A g (q.rho g) L) (hq : q.Ok g) (density lw : Bool)
    (hs : lw = true → q.Shines g L) {f : PyStr → Py (Arr Num)}
    (hm : ∀ w ∈ marginals, 'v' ∈ w ∨ q.Inside g → Gives (f w) g w (fun c => .fin (q.marginal g L lw w c / dvol g density w c)))
    (hc : ∀ a b, (a, b) ∈ conditionals → 'v' ∈ b ∨ q.Inside g → Gives (f (condStr a b)) g (condStr a b)
      (fun c => q.cond g L lw a b c / .fin (dvol g density a c))) :
    (∀ w ∈ marginals, 'v' ∈ w ∨ q.Inside g → Same (getP (baseSelf cube A) w density lw) (f w) g w) ∧
    ∀ a b, (a, b) ∈ conditionals → 'v' ∈ b ∨ q.Inside g →
      Same (getP (baseSelf cube A) (condStr a b) density lw) (f (condStr a b)) g (condStr a b) := by
  have hl := fun e => Pop.table_light h.proper hq h.lightNonneg (hs e)
  refine ⟨fun w hw hv => ?_, fun a b hab hv => ?_⟩
  · exact Same.of_gives (Pop.table_marg h density lw hl hw) (hm w hw hv) fun c _ => by
      beta_reduce; rw [Pop.rho_marginal h.proper hv]
  · exact Same.of_gives (Pop.table_cond h density lw hl hab) (hc a b hab hv) fun c _ => by
      beta_reduce; rw [Pop.rho_cond h.proper hab hv]

/-- A component made from the table of any mixture answers all marginals over the velocity, and all conditionals given the velocity,
like the mixture; and all 65 distributions if no member has stars outside the velocity range. -/
theorem C73_mixture_partial (h : MixOf m g n ω pop L) : ∃ table, Mix.getLogP m ['t','v','x','z'] true true false = .ok table ∧
    Component.init m.cube table = .ok table ∧
    ∀ density lw, (lw = true → (mixPop n ω pop).Shines g L) →
      (∀ w ∈ marginals, 'v' ∈ w ∨ (mixPop n ω pop).Inside g →
        Same (getP (baseSelf m.cube table) w density lw) (Mix.getP m w true density lw) g w) ∧
      ∀ a b, (a, b) ∈ conditionals → 'v' ∈ b ∨ (mixPop n ω pop).Inside g →
        Same (getP (baseSelf m.cube table) (condStr a b) density lw) (Mix.getP m (condStr a b) true density lw) g (condStr a b) := by
  obtain ⟨A, hA, hA'⟩ := Mix.getLogP_table h.is
  obtain ⟨hI, hB⟩ := Pop.tabulated (q := mixPop n ω pop) (L := L) h.proper h.cubeIs h.mixOk h.light h.lightNonneg (A := A)
    ⟨hA'.1, fun c hc => by
      rw [hA'.2 c hc]
      beta_reduce
      have : (mixPop n ω pop).joint c = (mixPop n (padW n ω) (padPop n pop)).joint c := by rw [mixPop_pad]
      rw [this]; rfl⟩
  refine ⟨A, hA, hI, fun density lw hl => Pop.table_same hB h.mixOk density lw hl (f := fun w => Mix.getP m w true density lw)
    (fun w hw _ => ?_) fun a b hab _ => ?_⟩
  · obtain ⟨p, h1, h2, h3⟩ := C65_marginals h density lw hl w hw
    exact ⟨p, h1, h2, h3⟩
  · obtain ⟨p, h1, h2, h3⟩ := C65_conditionals h density lw hl a b hab
    exact ⟨p, h1, by rw [h2, shapeOf_condStr], fun c hc => by rw [coords_condStr]; exact h3 c hc⟩

variable {p : Param} {mi : Ingredients}

theorem ParamIs.rho_stars (h : ParamIs p g mi L) {c : Cell} (hc : g.Has c) :
    (tablePop g ((mi.pop g).rho g)).stars c = mi.probTXZ g c * probRange g mi c := by
  rw [tablePop_stars, ← sum_probV h hc, Finset.mul_sum]
  exact Finset.sum_congr rfl fun v _ => Pop.rho_joint (q := mi.pop g) h.proper (c := { c with v := v }) ⟨hc.1, v.2, hc.2.2⟩

theorem sumTXZ_lt (hg : g.Proper) {f f' : Cell → ℝ} (h : ∀ d, g.Has d → f d ≤ f' d) (h0 : ∀ d, g.Has d → 0 < f' d → f d < f' d)
    (hp : 0 < Ingredients.sumTXZ g f') : Ingredients.sumTXZ g f < Ingredients.sumTXZ g f' := by
  have hd : ∀ (t : Fin g.nt) (x : Fin g.nx) (y : Fin g.ny) (z : Fin g.nz), g.Has ⟨t, 0, x, y, z⟩ :=
    fun t x y z => ⟨t.2, hg.nv, x.2, y.2, z.2⟩
  obtain ⟨t, x, y, z, hlt⟩ : ∃ (t : Fin g.nt) (x : Fin g.nx) (y : Fin g.ny) (z : Fin g.nz), 0 < f' ⟨t, 0, x, y, z⟩ := by
    by_contra hcon
    push Not at hcon
    exact absurd (Finset.sum_nonpos fun t _ => Finset.sum_nonpos fun x _ => Finset.sum_nonpos fun y _ =>
      Finset.sum_nonpos fun z _ => hcon t x y z) (not_le.2 hp)
  unfold Ingredients.sumTXZ
  refine Finset.sum_lt_sum (fun t _ => Finset.sum_le_sum fun x _ => Finset.sum_le_sum fun y _ => Finset.sum_le_sum fun z _ =>
    h _ (hd t x y z)) ⟨t, Finset.mem_univ _, ?_⟩
  refine Finset.sum_lt_sum (fun x _ => Finset.sum_le_sum fun y _ => Finset.sum_le_sum fun z _ =>
    h _ (hd t x y z)) ⟨x, Finset.mem_univ _, ?_⟩
  refine Finset.sum_lt_sum (fun y _ => Finset.sum_le_sum fun z _ => h _ (hd t x y z)) ⟨y, Finset.mem_univ _, ?_⟩
  exact Finset.sum_lt_sum (fun z _ => h _ (hd t x y z)) ⟨z, Finset.mem_univ _, h0 _ (hd t x y z) hlt⟩

theorem ParamIs.amount_lt (h : ParamIs p g mi L) {w : PyStr} (hv : 'v' ∉ w) (c : Cell)
    (hp : 0 < (mi.pop g).amount g L false w c) :
    (tablePop g ((mi.pop g).rho g)).amount g L false w c < (mi.pop g).amount g L false w c := by
  unfold Pop.amount at hp ⊢
  rw [if_neg hv] at hp ⊢
  rw [if_neg hv]
  have h1 : ∀ d, g.Has d → 0 ≤ mi.probTXZ g d := fun d hd => h.norm.probTXZ_nonneg h.proper hd
  refine sumTXZ_lt h.proper (fun d hd => ?_) (fun d hd => ?_) hp
  · split
    · rw [h.rho_stars hd, ingr_stars]
      simp only [Pop.wt, Bool.false_eq_true, if_false, one_mul]
      exact mul_le_of_le_one_right (h1 d hd) (probRange_lt_one h d).le
    · exact le_rfl
  · split
    · rw [h.rho_stars hd, ingr_stars]
      simp only [Pop.wt, Bool.false_eq_true, if_false, one_mul]
      exact fun e => mul_lt_of_lt_one_right e (probRange_lt_one h d)
    · exact fun e => absurd e (lt_irrefl _)

theorem ParamIs.not_inside (h : ParamIs p g mi L) : ¬ (mi.pop g).Inside g := by
  intro hi
  have h1 : (mi.pop g).amount g L false [] ⟨0, 0, 0, 0, 0⟩ = 1 := by
    rw [Pop.amount_eq h.proper h.pop_ok, ingr_cells]
    have := PS_total h false (by simp)
    simp only [Grid.marg, coords, Pop.wt, pick, List.flatMap_nil, if_true, Bool.false_eq_true, if_false, one_mul, List.not_mem_nil]
    exact this
  have := h.amount_lt (w := []) (by simp) ⟨0, 0, 0, 0, 0⟩ (by rw [h1]; exact one_pos)
  rw [Pop.rho_amount h.proper (Or.inr hi)] at this
  exact lt_irrefl _ this

theorem ParamIs.table (h : ParamIs p g mi L) : ∃ table, getLogP p.self ['t','v','x','z'] true false = .ok table ∧
    Component.init p.cube table = .ok table ∧ BaseIs p.cube table g ((mi.pop g).rho g) L := by
  obtain ⟨A, hA, hA'⟩ := h.marginal true false (by simp) (w := ['t','v','x','z']) (by decide)
  obtain ⟨hI, hB⟩ := Pop.tabulated (q := mi.pop g) (L := L) h.proper h.cubeIs h.pop_ok h.light h.lightNonneg (A := A)
    ⟨hA'.1, fun c hc => by
      rw [hA'.2 c hc]
      beta_reduce
      rw [marg_full hc]
      have e : pick (mi.joint g) (mi.spread g) ['t','v','x','z'] = mi.joint g := if_pos (by decide)
      simp only [wtdP, Bool.false_eq_true, if_false, dvol, if_true, volOf_tvxz, e]
      rfl⟩
  exact ⟨A, by simp [getLogP, hA], hI, hB⟩

/-- The same for a parametric component (which always has stars outside the velocity range). -/
theorem C73_parametric_partial (h : ParamIs p g mi L) : ∃ table, getLogP p.self ['t','v','x','z'] true false = .ok table ∧
    Component.init p.cube table = .ok table ∧
    ∀ density lw, (lw = true → Shines g mi L) →
      (∀ w ∈ marginals, 'v' ∈ w → Same (getP (baseSelf p.cube table) w density lw) (getP p.self w density lw) g w) ∧
      ∀ a b, (a, b) ∈ conditionals → 'v' ∈ b →
        Same (getP (baseSelf p.cube table) (condStr a b) density lw) (getP p.self (condStr a b) density lw) g (condStr a b) := by
  obtain ⟨A, hA, hI, hB⟩ := h.table
  refine ⟨A, hA, hI, fun density lw hl => ?_⟩
  have hs : lw = true → (mi.pop g).Shines g L := fun e => by
    unfold Pop.Shines
    rw [Pop.lightOf_eq h.proper h.pop_ok, ingr_cells]
    exact (hl e).tot h.proper
  have hc : lw = true → 0 < totalLight g L (mi.spread g) := fun e => (hl e).tot h.proper
  have hM : ∀ w c, paramMarg g mi L lw w c = (mi.pop g).marginal g L lw w c := fun w c => by
    rw [Pop.marginal_eq h.proper h.pop_ok, ingr_cells]; rfl
  have hv : ∀ a b, (a, b) ∈ conditionals → 'v' ∈ b → (a, b) ∉ [(['x'],['t']), (['v'],['t','x']), (['z'],['t','x'])] := by
    intro a b _ hv hm
    simp only [List.mem_cons, Prod.mk.injEq, List.not_mem_nil, or_false] at hm
    rcases hm with ⟨-, rfl⟩ | ⟨-, rfl⟩ | ⟨-, rfl⟩ <;> exact absurd hv (by decide)
  have hno : ¬ (mi.pop g).Inside g := h.not_inside
  have key := Pop.table_same hB h.pop_ok density lw hs (f := fun w => getP p.self w density lw)
    (fun w hw _ => (IsMember.parametric p mi none h rfl rfl : IsMember g L (Component.child p.self none) _).getP_marg density lw hs hw)
    fun a b hab hv' => ?_
  · exact ⟨fun w hw hv => key.1 w hw (Or.inl hv), fun a b hab hv => key.2 a b hab (Or.inl hv)⟩
  · refine (getP_cond_of_contract (h.contract lw hc) density (a, b) hab (p.logP_none _ hab (hv a b hab (hv'.resolve_right hno)))).congr
      fun c hc => ?_
    have hd := dvol_pos h.proper hc density a
    simp only [hM]
    unfold Pop.cond condTable
    split
    · simp
    · rw [Num.fin_div _ _ hd.ne']

/-- The rest of the claim is false: all distributions without the velocity (7 marginals) come out too small, in all bins
which contain stars, because stars outside of the velocity range are missing in the table. -/
theorem C73_parametric_lost (h : ParamIs p g mi L) (density : Bool) : ∃ table,
    getLogP p.self ['t','v','x','z'] true false = .ok table ∧ Component.init p.cube table = .ok table ∧
    ∀ w ∈ marginals, 'v' ∉ w → ∃ r r', getP (baseSelf p.cube table) w density false = .ok r ∧ getP p.self w density false = .ok r' ∧
      ∀ c, g.Has c → ∃ a b : ℝ, r.get (coords w c) = .fin a ∧ r'.get (coords w c) = .fin b ∧ 0 ≤ b ∧ (0 < b → a < b) := by
  obtain ⟨A, hA, hI, hB⟩ := h.table
  refine ⟨A, hA, hI, fun w hw hv => ?_⟩
  obtain ⟨r, r1, -, r2⟩ := Pop.table_marg hB density false (by simp) hw
  obtain ⟨r', s1, -, s2⟩ := (IsMember.parametric p mi none h rfl rfl :
    IsMember g L (Component.child p.self none) _).getP_marg density false (by simp) hw
  refine ⟨r, r', r1, s1, fun c hc => ⟨_, _, r2 c hc, s2 c hc, ?_, ?_⟩⟩
  · refine div_nonneg ?_ (dvol_pos h.proper hc _ _).le
    rw [Pop.marginal_eq h.proper h.pop_ok, ingr_cells]
    exact marg_nonneg (fun d hd => h.pick_nn false w d hd) w c
  · have hd := dvol_pos h.proper hc density w
    intro hb
    have e : ∀ q : Pop, q.marginal g L false w c = q.amount g L false w c := fun q => by simp [Pop.marginal]
    rw [e] at hb ⊢
    rw [e]
    have := (div_pos_iff_of_pos_right hd).1 hb
    gcongr
    exact h.amount_lt hv c this

/-! ### The hypotheses can be met -/

/-- The mixture of two plain components of the earlier examples: light-weighted distribution of metallicity. -/
example : ∃ m table, Mix.getLogP m ['t','v','x','z'] true true false = .ok table ∧
    Same (getP (baseSelf m.cube table) ['z'] true true) (Mix.getP m ['z'] true true true) demoGrid ['z'] := by
  obtain ⟨cube, m, -, -, h, -, -, hT, -⟩ := demoMix
  obtain ⟨A, hA, -, hS⟩ := C73_plain_distributions h
  exact ⟨m, A, hA, (hS true true fun _ => h.light_pos hT).1 ['z'] (by decide)⟩

/-- Its unconditional moments satisfy the condition on the members. -/
example : ∃ m table, Mix.getLogP m ['t','v','x','z'] true true false = .ok table ∧
    Same ((obj (baseSelf m.cube table)).getLMoment ['v'] 3 true) ((Mix.obj m).getLMoment ['v'] 3 true) demoGrid [] := by
  obtain ⟨cube, m, -, -, h, -, -, hT, -⟩ := demoMix
  obtain ⟨A, hA, -, hS⟩ := C73_plain_moments (lw := true) h fun _ => hT
  exact ⟨m, A, hA, ((hS []).2 fun c _ i _ => by simp [Grid.condWt]).2 'v' (by decide) (by decide) 3 (by norm_num)⟩

/-- A disk, and a mixture of it with a plain component. -/
example : ∃ (p : Param) (m : Mix) (A B : Arr Num),
    Same (getP (baseSelf p.cube A) ['t','v'] true true) (getP p.self ['t','v'] true true) demoGrid ['t','v'] ∧
    Same (getP (baseSelf m.cube B) (condStr ['t'] ['v']) true true) (Mix.getP m (condStr ['t'] ['v']) true true true) demoGrid
      (condStr ['t'] ['v']) := by
  obtain ⟨p, mi, hP, hS, -⟩ := demoDisk_exists 1
  obtain ⟨cube, m, p', mi', -, -, -, h, hl⟩ := demoPopMix 1
  obtain ⟨A, -, -, hA⟩ := C73_parametric_partial hP
  obtain ⟨B, -, -, hB⟩ := C73_mixture_partial h
  exact ⟨p, m, A, B, (hA true true fun _ => hS).1 _ (by decide) (by decide),
    (hB true true fun _ => mix_shines h hl).2 _ _ (by decide) (Or.inl (by decide))⟩

/-- Log densities of a component at rest. -/
def restStored : Arr Num := ⟨[2, 7, 2, 3, 3], fun i => if i.getD 1 0 = 3 then Num.lg 1 else Num.lg 0⟩

/-- Datacubes: two plain components on seven velocity bins, one of them at rest, with evaluated datacubes. -/
example : ∃ (interp : ℕ → (ℕ → ℂ) → ℝ → ℂ) (sp : Spectra) (m : Mix) (table y y' : Arr Num), m.children.length = 2 ∧
    Mix.getLogP m ['t','v','x','z'] true true false = .ok table ∧
    Mix.evaluateYbar m = .ok { m with ybar := some y } ∧
    evaluateYbar interp (baseSelf m.cube table) sp "none".toList = .ok y' ∧ y.get [3, 1, 2] = y'.get [3, 1, 2] := by
  obtain ⟨cube, sp, -, h2, h3, h4, h5, h6, h7⟩ := ybar_demo
  let ρ : ℕ → Cell → ℝ := fun i c => if i = 0 then 1 else if c.v = 3 then 1 else 0
  have hB : BaseIs cube restStored (uniformGrid 2 3 7 (-70, 70)) (ρ 1) demoL := by
    refine ⟨h2.proper, h2.cubeIs, ⟨rfl, fun c _ => ?_⟩, fun c => ?_, h2.light, h2.lightNonneg⟩
    · show (if c.v = 3 then Num.lg 1 else Num.lg 0) = Num.lg (if c.v = 3 then 1 else 0)
      split_ifs <;> rfl
    · show (0 : ℝ) ≤ if c.v = 3 then 1 else 0
      split_ifs <;> norm_num
  have hv : VelocityOk (uniformGrid 2 3 7 (-70, 70)).nv (uniformGrid 2 3 7 (-70, 70)).v sp.dv 3 := h6
  obtain ⟨y0, -, -, e0, -⟩ := C23_batches interp_exists h2 (by norm_num) h3 h5 hv (by show 6 ≤ 7; norm_num)
  obtain ⟨y1, -, -, e1, -⟩ := C23_batches interp_exists hB (by norm_num) h3 h5 hv (by show 6 ≤ 7; norm_num)
  let m : Mix := ⟨cube, [Component.child (baseSelf cube (uniformStored 2 3 7)) (some y0),
    Component.child (baseSelf cube restStored) (some y1)], [1 / 4, 3 / 4], none⟩
  have hY : ∀ (i : ℕ) (hi : i < m.children.length), ∃ stored Y, m.children[i] = Component.child (baseSelf m.cube stored) (some Y) ∧
      BaseIs m.cube stored (uniformGrid 2 3 7 (-70, 70)) (ρ i) demoL ∧
      evaluateYbar (fun m Y x => Y (min (m - 1) ⌊x * (m - 1 : ℝ) + 1 / 2⌋₊)) (baseSelf m.cube stored) sp "none".toList = .ok Y := by
    intro i hi
    have : i < 2 := hi
    interval_cases i
    · exact ⟨_, _, rfl, h2, e0⟩
    · exact ⟨_, _, rfl, hB, e1⟩
  have hP : PlainMix m (uniformGrid 2 3 7 (-70, 70)) 2 (fun i => if i = 0 then 1 / 4 else 3 / 4) ρ demoL := by
    refine ⟨by norm_num, rfl, by simp [List.range_succ, m], fun i => by split_ifs <;> norm_num, fun i c => ?_, fun i hi => ?_⟩
    · show (0 : ℝ) ≤ if i = 0 then 1 else if c.v = 3 then 1 else 0
      split_ifs <;> norm_num
    · obtain ⟨st, Y, k1, k2, -⟩ := hY i hi
      exact ⟨st, _, k1, k2⟩
  obtain ⟨A, y, y', k1, -, k2, k3, -, -, k4⟩ := C73_plain_datacube interp_exists hP (by norm_num) h3 h5 hv (by show 6 ≤ 7; norm_num) hY
  exact ⟨_, sp, m, A, y, y', rfl, k1, k2, k3, k4 3 (by norm_num) 1 (by show 1 < 2; norm_num) 2 (by show 2 < 3; norm_num)⟩

end PKM
