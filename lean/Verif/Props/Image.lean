import Verif.Props.PopMix
import Verif.Props.ParamYbar
import Verif.Props.AgeMetal
import Verif.Props.Shared
import Verif.Props.Mixture
import Verif.Props.FluxUnit

/-!
# C102: the datacube summed over wavelength is the light-weighted image

A user who sums a datacube over wavelength expects the image `get_p('x', light_weighted=True)`, up to the total flux. The light
weights are sums of the spectra over the wavelengths of the library; the datacube is made of spectra that have been resampled to
even steps in the logarithm of wavelength. The claim is true for libraries in which resampling multiplies the total of all
spectra by the same number, and in general up to the largest ratio of these numbers. It is false in general.

* `CollapsesTo y P g n lo hi`: in every pixel the share of the flux of the datacube `y` is between `lo` and `hi` times the entry of
  the image `P`. With `lo = hi = 1` it is the entry.
* `Kept g S n L κ₁ κ₂`: the totals of the spectra `S t z`, sampled at `n` pixels, are between `κ₁` and `κ₂` times the light weights.
-/

open scoped Classical
open MeasureTheory ProbabilityTheory

noncomputable section

namespace PKM
open Np Component SharedSsps

variable {p : Param} {g : Grid} {m : Ingredients} {L : ℕ → ℕ → ℝ} {sp : Spectra} {S : ℕ → ℕ → ℕ → ℝ} {n v0 : ℕ} {κ₁ κ₂ : ℝ}
  {interp : ℕ → (ℕ → ℂ) → ℝ → ℂ} {cube : IFUCube} {stored : Arr Num} {ρ : Cell → ℝ} {q : Pop} {y P : Arr Num}

/-- The share of each pixel in the flux of the datacube `y` with `n` wavelengths is between `lo` and `hi` times its entry in `P`. -/
def CollapsesTo (y P : Arr Num) (g : Grid) (n : ℕ) (lo hi : ℝ) : Prop :=
  y.shape = [n, g.nx, g.ny] ∧ P.shape = [g.nx, g.ny] ∧ ∃ F : ℕ → ℕ → ℝ,
    (∀ i < g.nx, ∀ j < g.ny, ∑ k ∈ Finset.range n, y.get [k, i, j] = .fin (F i j)) ∧
    0 < ∑ i : Fin g.nx, ∑ j : Fin g.ny, F i j ∧
    ∀ i < g.nx, ∀ j < g.ny, ∃ u, P.get [i, j] = .fin u ∧
      lo * u ≤ F i j / (∑ i : Fin g.nx, ∑ j : Fin g.ny, F i j) ∧ F i j / (∑ i : Fin g.nx, ∑ j : Fin g.ny, F i j) ≤ hi * u

/-- With both bounds 1, the image is the datacube summed over wavelength and divided by the total flux. -/
theorem collapses_one (h : CollapsesTo y P g n 1 1) : ∃ F : ℕ → ℕ → ℝ,
    (∀ i < g.nx, ∀ j < g.ny, ∑ k ∈ Finset.range n, y.get [k, i, j] = .fin (F i j)) ∧
    ∀ i < g.nx, ∀ j < g.ny, P.get [i, j] = .fin (F i j / ∑ i : Fin g.nx, ∑ j : Fin g.ny, F i j) := by
  obtain ⟨-, -, F, h1, -, h2⟩ := h
  refine ⟨F, h1, fun i hi j hj => ?_⟩
  obtain ⟨u, e, h3, h4⟩ := h2 i hi j hj
  rw [e, le_antisymm h4 (by simpa using h3), one_mul]

/-- Resampling multiplies the light of each template by a number between `κ₁` and `κ₂`. -/
def Kept (g : Grid) (S : ℕ → ℕ → ℕ → ℝ) (n : ℕ) (L : ℕ → ℕ → ℝ) (κ₁ κ₂ : ℝ) : Prop :=
  0 < κ₁ ∧ 0 < κ₂ ∧ ∀ t < g.nt, ∀ z < g.nz,
    κ₁ * L t z ≤ ∑ k ∈ Finset.range n, S t z k ∧ ∑ k ∈ Finset.range n, S t z k ≤ κ₂ * L t z

/-! ### From fluxes of pixels to the image -/

/-- Light from a pixel if the light of a star is `B`. -/
def pixelLight (q : Pop) (g : Grid) (B : ℕ → ℕ → ℝ) (i j : ℕ) : ℝ :=
  ∑ t : Fin g.nt, ∑ z : Fin g.nz, B t z * q.stars ⟨t, 0, i, j, z⟩

theorem pixelLight_total (q : Pop) (g : Grid) (B : ℕ → ℕ → ℝ) :
    ∑ i : Fin g.nx, ∑ j : Fin g.ny, pixelLight q g B i j = q.lightOf g B ['x'] := by
  unfold pixelLight Pop.lightOf
  rw [if_neg (by decide)]
  unfold Ingredients.sumTXZ
  simp only [Finset.sum_comm (γ := Fin g.nt)]

theorem image_marginal (hg : g.Proper) {i j : ℕ} (hi : i < g.nx) (hj : j < g.ny) :
    q.marginal g L true ['x'] ⟨0, 0, i, j, 0⟩ = pixelLight q g L i j / q.lightOf g L ['x'] := by
  unfold Pop.marginal Pop.amount
  rw [if_neg (by decide), sumTXZ_pix _ ⟨hg.nt, hg.nv, hi, hj, hg.nz⟩]
  rfl

theorem image_of_flux (hg : g.Proper) (hq : ∀ c, g.Has c → 0 ≤ q.stars c) (hL : ∀ t < g.nt, ∀ z < g.nz, 0 ≤ L t z)
    (hl : 0 < q.lightOf g L ['x']) (hk : Kept g S n L κ₁ κ₂)
    (hs : y.shape = [n, g.nx, g.ny])
    (hy : ∀ i < g.nx, ∀ j < g.ny, ∑ k ∈ Finset.range n, y.get [k, i, j] = .fin (pixelLight q g (sspFlux S n) i j))
    (hP : IsArr g ['x'] P (fun c => .fin (q.marginal g L true ['x'] c))) : CollapsesTo y P g n (κ₁ / κ₂) (κ₂ / κ₁) := by
  obtain ⟨k1, k2, hk⟩ := hk
  have hb : ∀ i < g.nx, ∀ j < g.ny, κ₁ * pixelLight q g L i j ≤ pixelLight q g (sspFlux S n) i j ∧
      pixelLight q g (sspFlux S n) i j ≤ κ₂ * pixelLight q g L i j := fun i hi j hj => by
    unfold pixelLight
    simp only [Finset.mul_sum]
    constructor <;> refine Finset.sum_le_sum fun t _ => Finset.sum_le_sum fun z _ => ?_
    · rw [← mul_assoc]
      exact mul_le_mul_of_nonneg_right (hk t t.2 z z.2).1 (hq _ ⟨t.2, hg.nv, hi, hj, z.2⟩)
    · rw [← mul_assoc]
      exact mul_le_mul_of_nonneg_right (hk t t.2 z z.2).2 (hq _ ⟨t.2, hg.nv, hi, hj, z.2⟩)
  have hT : κ₁ * q.lightOf g L ['x'] ≤ q.lightOf g (sspFlux S n) ['x'] ∧ q.lightOf g (sspFlux S n) ['x'] ≤ κ₂ * q.lightOf g L ['x'] := by
    rw [← pixelLight_total, ← pixelLight_total]
    simp only [Finset.mul_sum]
    exact ⟨Finset.sum_le_sum fun i _ => Finset.sum_le_sum fun j _ => (hb i i.2 j j.2).1,
      Finset.sum_le_sum fun i _ => Finset.sum_le_sum fun j _ => (hb i i.2 j j.2).2⟩
  have hT0 : 0 < q.lightOf g (sspFlux S n) ['x'] := lt_of_lt_of_le (mul_pos k1 hl) hT.1
  refine ⟨hs, by rw [hP.1]; rfl, pixelLight q g (sspFlux S n), hy, ?_, fun i hi j hj => ?_⟩
  · rw [pixelLight_total]; exact hT0
  · refine ⟨pixelLight q g L i j / q.lightOf g L ['x'], ?_, ?_⟩
    · exact (hP.2 ⟨0, 0, i, j, 0⟩ ⟨hg.nt, hg.nv, hi, hj, hg.nz⟩).trans (congrArg Num.fin (image_marginal hg hi hj))
    · rw [pixelLight_total]
      obtain ⟨b1, b2⟩ := hb i hi j hj
      obtain ⟨t1, t2⟩ := hT
      have h0 : 0 ≤ pixelLight q g L i j := Finset.sum_nonneg fun t _ => Finset.sum_nonneg fun z _ =>
        mul_nonneg (hL t t.2 z z.2) (hq _ ⟨t.2, hg.nv, hi, hj, z.2⟩)
      rw [div_mul_div_comm, div_mul_div_comm]
      constructor
      · exact div_le_div₀ (le_trans (mul_nonneg k1.le h0) b1) b1 hT0 t2
      · exact div_le_div₀ (mul_nonneg k2.le h0) b2 (mul_pos k1 hl) t1

/-! ### Members -/

/-- The three batch modes. -/
def batchModes : List PyStr := ["none".toList, "column".toList, "spaxel".toList]

/-- Bins of velocity for which plain components have datacubes: as wide as the pixels of the spectra, the middle one at zero. -/
def FitVelocities (g : Grid) (dv : ℝ) : Prop :=
  6 ≤ g.nv ∧ ZeroBin g.nv g.v (g.nv / 2) ∧ ∀ i < g.nv, width g.v i = dv

theorem plain_flux (hI : Interp interp) (h : BaseIs cube stored g ρ L) (hn : 0 < n) (hS : SpectraAre sp g S n n) (hv : FitVelocities g sp.dv)
    {batch : PyStr} (hb : batch ∈ batchModes) :
    ∃ y, evaluateYbar interp (baseSelf cube stored) sp batch = .ok y ∧ y.shape = [n, g.nx, g.ny] ∧
      ∀ i < g.nx, ∀ j < g.ny, ∃ f : ℕ → ℝ, (∀ k < n, y.get [k, i, j] = .fin (f k)) ∧
        ∑ k ∈ Finset.range n, f k = pixelLight (tablePop g ρ) g (sspFlux S n) i j := by
  obtain ⟨h6, h0, hw⟩ := hv
  have hok : VelocityOk g.nv g.v sp.dv (g.nv / 2) := by
    refine ⟨fun i hi => ?_, fun i hi => ?_, rfl⟩
    · rw [hw i hi, sub_self, abs_zero]; positivity
    · have h1 := h.proper.v i (by omega)
      have h2 := h.proper.v (i + 1) hi
      unfold PKM.centre
      linarith
  obtain ⟨y1, y2, y3, a1, a2, a3, b1, b2, b3, hc, -⟩ := C23_batches hI h hn hS h0 hok h6
  obtain ⟨r, hr, hf⟩ := C24_flux hI h hn hS le_rfl h0 hw rfl h6
  obtain rfl : r = y1 := by rw [a1] at hr; injection hr with e; exact e.symm
  have key : ∀ y : Arr Num, (∀ k < n, ∀ i < g.nx, ∀ j < g.ny, ∃ u : ℝ, r.get [k, i, j] = .fin u ∧ y.get [k, i, j] = .fin u) →
      ∀ i < g.nx, ∀ j < g.ny, ∃ f : ℕ → ℝ, (∀ k < n, y.get [k, i, j] = .fin (f k)) ∧
        ∑ k ∈ Finset.range n, f k = pixelLight (tablePop g ρ) g (sspFlux S n) i j := by
    intro y hy i hi j hj
    have : ∀ k, ∃ u : ℝ, k < n → r.get [k, i, j] = .fin u ∧ y.get [k, i, j] = .fin u := fun k => by
      by_cases hk : k < n
      · obtain ⟨u, hu⟩ := hy k hk i hi j hj; exact ⟨u, fun _ => hu⟩
      · exact ⟨0, fun h => absurd h hk⟩
    choose f hf' using this
    refine ⟨f, fun k hk => (hf' k hk).2, ?_⟩
    have e := hf i hi j hj
    rw [Finset.sum_congr rfl fun k hk => (hf' k (Finset.mem_range.1 hk)).1, Num.fin_sum] at e
    injection e with e
    rw [e]
    refine Finset.sum_congr rfl fun t _ => Finset.sum_congr rfl fun z _ => ?_
    rw [marg_txz t.2 hi hj z.2, tablePop_stars]
  simp only [batchModes, List.mem_cons, List.not_mem_nil, or_false] at hb
  rcases hb with rfl | rfl | rfl
  · exact ⟨r, a1, b1, key r fun k hk i hi j hj => by obtain ⟨u, u1, -⟩ := hc k hk i hi j hj; exact ⟨u, u1, u1⟩⟩
  · exact ⟨y2, a2, b2, key y2 fun k hk i hi j hj => by obtain ⟨u, u1, u2, -⟩ := hc k hk i hi j hj; exact ⟨u, u1, u2⟩⟩
  · exact ⟨y3, a3, b3, key y3 fun k hk i hi j hj => by obtain ⟨u, u1, -, u3⟩ := hc k hk i hi j hj; exact ⟨u, u1, u3⟩⟩

theorem param_flux (h : ParamIs p g m L) (hn : 0 < n) (hS : SpectraAre sp g S n n) (hdv : 0 < sp.dv) {batch : PyStr} (hb : batch ∈ batchModes) :
    ∃ y, p.evaluateYbar sp batch = .ok y ∧ y.shape = [n, g.nx, g.ny] ∧
      ∀ i < g.nx, ∀ j < g.ny, ∃ f : ℕ → ℝ, (∀ k < n, y.get [k, i, j] = .fin (f k)) ∧
        ∑ k ∈ Finset.range n, f k = pixelLight (m.pop g) g (sspFlux S n) i j := by
  obtain ⟨y1, y2, y3, a1, a2, a3, b1, b2, b3, hc, -⟩ := C63_batches h hn hS hdv
  obtain ⟨r, hr, hf⟩ := C63_flux h hn hS le_rfl hdv
  obtain rfl : r = y1 := by rw [a1] at hr; injection hr with e; exact e.symm
  have key : ∀ y : Arr Num, (∀ k < n, ∀ i < g.nx, ∀ j < g.ny, ∃ u : ℝ, r.get [k, i, j] = .fin u ∧ y.get [k, i, j] = .fin u) →
      ∀ i < g.nx, ∀ j < g.ny, ∃ f : ℕ → ℝ, (∀ k < n, y.get [k, i, j] = .fin (f k)) ∧
        ∑ k ∈ Finset.range n, f k = pixelLight (m.pop g) g (sspFlux S n) i j := by
    intro y hy i hi j hj
    have : ∀ k, ∃ u : ℝ, k < n → r.get [k, i, j] = .fin u ∧ y.get [k, i, j] = .fin u := fun k => by
      by_cases hk : k < n
      · obtain ⟨u, hu⟩ := hy k hk i hi j hj; exact ⟨u, fun _ => hu⟩
      · exact ⟨0, fun h => absurd h hk⟩
    choose f hf' using this
    refine ⟨f, fun k hk => (hf' k hk).2, ?_⟩
    have e := hf i hi j hj
    rw [Finset.sum_congr rfl fun k hk => (hf' k (Finset.mem_range.1 hk)).1, Num.fin_sum] at e
    injection e with e
    rw [e]
    refine Finset.sum_congr rfl fun t _ => Finset.sum_congr rfl fun z _ => ?_
    rw [ingr_stars]
  simp only [batchModes, List.mem_cons, List.not_mem_nil, or_false] at hb
  rcases hb with rfl | rfl | rfl
  · exact ⟨r, a1, b1, key r fun k hk i hi j hj => by obtain ⟨u, u1, -⟩ := hc k hk i hi j hj; exact ⟨u, u1, u1⟩⟩
  · exact ⟨y2, a2, b2, key y2 fun k hk i hi j hj => by obtain ⟨u, u1, u2, -⟩ := hc k hk i hi j hj; exact ⟨u, u1, u2⟩⟩
  · exact ⟨y3, a3, b3, key y3 fun k hk i hi j hj => by obtain ⟨u, u1, -, u3⟩ := hc k hk i hi j hj; exact ⟨u, u1, u3⟩⟩

/-- A plain or parametric member whose datacube has been evaluated, in any batch mode. -/
inductive Photographed (interp : ℕ → (ℕ → ℂ) → ℝ → ℂ) (sp : Spectra) (g : Grid) (L : ℕ → ℕ → ℝ) (ch : Child) (q : Pop) : Prop
  | plain (cube : IFUCube) (stored : Arr Num) (ρ : Cell → ℝ) (batch : PyStr) (y : Arr Num) (is : BaseIs cube stored g ρ L)
      (mem : batch ∈ batchModes) (eval : evaluateYbar interp (baseSelf cube stored) sp batch = .ok y)
      (eq : ch = Component.child (baseSelf cube stored) (some y)) (pop : q = tablePop g ρ)
  | parametric (p : Param) (m : Ingredients) (batch : PyStr) (y : Arr Num) (is : ParamIs p g m L)
      (mem : batch ∈ batchModes) (eval : p.evaluateYbar sp batch = .ok y)
      (eq : ch = Component.child p.self (some y)) (pop : q = m.pop g)

theorem Photographed.member {ch : Child} (h : Photographed interp sp g L ch q) : IsMember g L ch q := by
  cases h with
  | plain cube stored ρ batch y is mem eval eq pop => exact .plain cube stored ρ _ is eq pop
  | parametric p m batch y is mem eval eq pop => exact .parametric p m _ is eq pop

theorem Photographed.flux {ch : Child} (h : Photographed interp sp g L ch q) (hI : Interp interp) (hn : 0 < n) (hS : SpectraAre sp g S n n)
    (hdv : 0 < sp.dv) (hv : FitVelocities g sp.dv) : ∃ y, ch.ybar = some y ∧ y.shape = [n, g.nx, g.ny] ∧
      ∀ i < g.nx, ∀ j < g.ny, ∃ f : ℕ → ℝ, (∀ k < n, y.get [k, i, j] = .fin (f k)) ∧
        ∑ k ∈ Finset.range n, f k = pixelLight q g (sspFlux S n) i j := by
  cases h with
  | plain cube stored ρ batch y is mem eval eq pop =>
    subst eq pop
    obtain ⟨y', e, h1, h2⟩ := plain_flux hI is hn hS hv mem
    rw [eval] at e
    injection e with e
    subst e
    exact ⟨y, rfl, h1, h2⟩
  | parametric p m batch y is mem eval eq pop =>
    subst eq pop
    obtain ⟨y', e, h1, h2⟩ := param_flux is hn hS hdv mem
    rw [eval] at e
    injection e with e
    subst e
    exact ⟨y, rfl, h1, h2⟩

/-! ### C102 -/

/-- Plain components, in all batch modes: the shares of the pixels in the flux of the datacube are the light-weighted image, up to the ratio
of the largest to the smallest number by which resampling multiplies the light of a template. -/
theorem C102_plain_partial (hI : Interp interp) (h : BaseIs cube stored g ρ L) (hl : 0 < totalLight g L (massP g ρ)) (hn : 0 < n)
    (hS : SpectraAre sp g S n n) (hv : FitVelocities g sp.dv) (hk : Kept g S n L κ₁ κ₂) {batch : PyStr} (hb : batch ∈ batchModes) :
    ∃ y P, evaluateYbar interp (baseSelf cube stored) sp batch = .ok y ∧ Component.getP (baseSelf cube stored) "x".toList false true = .ok P ∧
      CollapsesTo y P g n (κ₁ / κ₂) (κ₂ / κ₁) := by
  obtain ⟨y, hy, hs, hf⟩ := plain_flux hI h hn hS hv hb
  have hm : IsMember g L (Component.child (baseSelf cube stored) none) (tablePop g ρ) := .plain cube stored ρ none h rfl rfl
  have hsh : 0 < (tablePop g ρ).lightOf g L ['t','x','z'] := by
    rw [Pop.lightOf_eq h.proper (tablePop_ok h.proper h.nonneg), tablePop_light h.proper]; exact hl
  obtain ⟨P, hP, hPs, hPg⟩ := hm.getP_marg false true (fun _ => hsh) (w := "x".toList) (by decide)
  refine ⟨y, P, hy, hP, image_of_flux h.proper hm.ok.stars (fun t _ z _ => h.lightNonneg t z) (hm.ok.light_pos h.proper h.lightNonneg hsh _)
    hk hs (fun i hi j hj => ?_) ⟨hPs, fun c hc => ?_⟩⟩
  · obtain ⟨f, h1, h2⟩ := hf i hi j hj
    rw [Finset.sum_congr rfl fun k hk => h1 k (Finset.mem_range.1 hk), Num.fin_sum, h2]
  · refine (hPg c hc).trans ?_
    simp only [dvol, Bool.false_eq_true, if_false, div_one]
    rfl

/-- Parametric components: the same. -/
theorem C102_parametric_partial (h : ParamIs p g m L) (hl : (m.pop g).Shines g L) (hn : 0 < n) (hS : SpectraAre sp g S n n)
    (hdv : 0 < sp.dv) (hk : Kept g S n L κ₁ κ₂) {batch : PyStr} (hb : batch ∈ batchModes) :
    ∃ y P, p.evaluateYbar sp batch = .ok y ∧ Component.getP p.self "x".toList false true = .ok P ∧ CollapsesTo y P g n (κ₁ / κ₂) (κ₂ / κ₁) := by
  obtain ⟨y, hy, hs, hf⟩ := param_flux h hn hS hdv hb
  have hm : IsMember g L (Component.child p.self none) (m.pop g) := .parametric p m none h rfl rfl
  obtain ⟨P, hP, hPs, hPg⟩ := hm.getP_marg false true (fun _ => hl) (w := "x".toList) (by decide)
  refine ⟨y, P, hy, hP, image_of_flux h.proper hm.ok.stars (fun t _ z _ => h.lightNonneg t z) (hm.ok.light_pos h.proper h.lightNonneg hl _)
    hk hs (fun i hi j hj => ?_) ⟨hPs, fun c hc => ?_⟩⟩
  · obtain ⟨f, h1, h2⟩ := hf i hi j hj
    rw [Finset.sum_congr rfl fun k hk => h1 k (Finset.mem_range.1 hk), Num.fin_sum, h2]
  · refine (hPg c hc).trans ?_
    simp only [dvol, Bool.false_eq_true, if_false, div_one]
    rfl

/-- Mixtures of any number of plain and parametric members with evaluated datacubes: the same. -/
theorem C102_mixture_partial {m : Mix} {N : ℕ} {ω : ℕ → ℝ} {pop : ℕ → Pop} (hI : Interp interp) (h : MixOf m g N ω pop L)
    (hl : (mixPop N ω pop).Shines g L) (hn : 0 < n) (hS : SpectraAre sp g S n n) (hdv : 0 < sp.dv) (hv : FitVelocities g sp.dv)
    (hk : Kept g S n L κ₁ κ₂) (hc : ∀ (i : ℕ) (hi : i < m.children.length), Photographed interp sp g L m.children[i] (pop i)) :
    ∃ y P, m.evaluateYbar = .ok { m with ybar := some y } ∧ m.getP "x".toList true false true = .ok P ∧
      CollapsesTo y P g n (κ₁ / κ₂) (κ₂ / κ₁) := by
  have hfl := fun (i : ℕ) (hi : i < N) => (hc i (by rw [h.children]; exact hi)).flux hI hn hS hdv hv
  have : ∀ i, ∃ Y : Arr Num, ∀ hi : i < m.children.length, m.children[i].ybar = some Y ∧ Y.shape = [n, g.nx, g.ny] ∧
      ∀ a < g.nx, ∀ b < g.ny, ∃ f : ℕ → ℝ, (∀ k < n, Y.get [k, a, b] = .fin (f k)) ∧
        ∑ k ∈ Finset.range n, f k = pixelLight (pop i) g (sspFlux S n) a b := fun i => by
    by_cases hi : i < m.children.length
    · obtain ⟨Y, hY⟩ := hfl i (by rwa [← h.children]); exact ⟨Y, fun _ => hY⟩
    · exact ⟨full [] 0, fun h => absurd h hi⟩
  choose Y hY using this
  have hlen : m.children.length = m.weights.length := by rw [h.children, h.weights]; simp
  obtain ⟨y, hy, hs, hyg⟩ := C30_weighted_sum m Y [n, g.nx, g.ny] (by
    intro e; have := h.children; rw [e] at this; have := h.pos; simp at *; omega) hlen (fun i hi => ⟨(hY i hi).1, (hY i hi).2.1⟩)
  obtain ⟨P, hP, hPs, hPg⟩ := C65_marginals h false true (fun _ => hl) "x".toList (by decide)
  refine ⟨y, P, hy, hP, image_of_flux h.proper h.mixOk.stars (fun t _ z _ => h.lightNonneg t z)
    (h.mixOk.light_pos h.proper h.lightNonneg hl _) hk hs (fun a ha b hb => ?_) ⟨hPs, fun c hc => ?_⟩⟩
  · have : ∀ i : Fin m.weights.length, ∃ f : ℕ → ℝ, (∀ k < n, (Y i).get [k, a, b] = .fin (f k)) ∧
        ∑ k ∈ Finset.range n, f k = pixelLight (pop i) g (sspFlux S n) a b := fun i => (hY i (by rw [hlen]; exact i.2)).2.2 a ha b hb
    choose f hf using this
    have e : ∀ k ∈ Finset.range n, y.get [k, a, b] = .fin (∑ i : Fin m.weights.length, m.weights[i] * f i k) := fun k hk => by
      rw [hyg _ (by simp [InBox, Finset.mem_range.1 hk, ha, hb])]
      rw [← Num.fin_sum]
      refine Finset.sum_congr rfl fun i _ => ?_
      rw [(hf i).1 k (Finset.mem_range.1 hk)]
      simp
    rw [Finset.sum_congr rfl e, Num.fin_sum, Finset.sum_comm]
    congr 1
    simp only [← Finset.mul_sum, (hf _).2]
    have hw : m.weights.length = N := by rw [h.weights]; simp
    have e2 : ∑ i : Fin m.weights.length, m.weights[i] * pixelLight (pop i) g (sspFlux S n) a b =
        ∑ i : Fin N, ω i * pixelLight (pop i) g (sspFlux S n) a b :=
      Fintype.sum_equiv (finCongr hw) _ _ fun i => by simp [h.weights]
    rw [e2]
    unfold pixelLight
    simp only [mixPop_stars, Finset.mul_sum]
    rw [Finset.sum_comm]
    refine Finset.sum_congr rfl fun t _ => ?_
    rw [Finset.sum_comm]
    exact Finset.sum_congr rfl fun z _ => Finset.sum_congr rfl fun i _ => by ring
  · refine (hPg c hc).trans ?_
    simp only [Bool.false_eq_true, if_false, div_one]
    rfl

/-! ### Cubes constructed from a library -/

section
variable {K : Interp1d} {s : SharedSsps} {a : CubeArgs} {M nt nz : ℕ} {t z : ℕ → ℝ} {lib : ℕ → ℕ → ℕ → ℝ}

/-- The bins of a cube made with the arguments `a` from a library with age edges `t` and metallicity edges `z`. -/
def argsGrid (a : CubeArgs) (nt nz : ℕ) (t z : ℕ → ℝ) : Grid := cubeGrid nt nz t z a.nx.toNat a.ny.toNat a.nv.toNat a.x1rng a.x2rng a.vrng

/-- An odd number of velocity bins, at least seven, around zero. -/
def Centred (a : CubeArgs) : Prop := 7 ≤ a.nv.toNat ∧ a.nv.toNat % 2 = 1 ∧ a.vrng.1 = - a.vrng.2 ∧ 1 / 10 ^ 8 < binWidth a

theorem Centred.fit (h : Centred a) : FitVelocities (argsGrid a nt nz t z) (binWidth a) := by
  obtain ⟨h7, hodd, hr, hw⟩ := h
  have hnv : (a.nv : ℝ) = (a.nv.toNat : ℝ) := by
    have : (a.nv.toNat : ℤ) = a.nv := Int.toNat_of_nonneg (by omega)
    exact_mod_cast this.symm
  have hn0 : (a.nv.toNat : ℝ) ≠ 0 := Nat.cast_ne_zero.2 (by omega)
  have hv : ∀ i, (argsGrid a nt nz t z).v i = a.vrng.1 + i * binWidth a := fun i => by
    simp only [argsGrid, cubeGrid, evenEdges, binWidth, hnv]
  have hV : a.vrng.1 = - (a.nv.toNat * binWidth a / 2) := by
    unfold binWidth
    rw [hnv, mul_div_cancel₀ _ hn0, hr]
    ring
  have hc : ∀ i, PKM.centre (argsGrid a nt nz t z).v i = (i + 1 / 2 - a.nv.toNat / 2) * binWidth a := fun i => by
    unfold PKM.centre
    rw [hv, hv, hV]
    push_cast
    ring
  refine ⟨show 6 ≤ a.nv.toNat by omega, ⟨show a.nv.toNat / 2 < a.nv.toNat by omega, ?_, fun i hi => ?_⟩, fun i _ => ?_⟩
  · have e : ((a.nv.toNat / 2 : ℕ) : ℝ) + 1 / 2 - a.nv.toNat / 2 = 0 := by
      have : 2 * (a.nv.toNat / 2) + 1 = a.nv.toNat := by omega
      have : 2 * ((a.nv.toNat / 2 : ℕ) : ℝ) + 1 = a.nv.toNat := by exact_mod_cast this
      linarith
    show |PKM.centre _ (a.nv.toNat / 2)| ≤ _
    rw [hc, e, zero_mul, abs_zero]
    positivity
  · have hi' : i < a.nv.toNat / 2 := hi
    rw [hc, abs_mul, abs_of_pos (show 0 < binWidth a from lt_trans (by positivity) hw)]
    have : 2 * i + 3 ≤ a.nv.toNat := by omega
    have : 2 * (i : ℝ) + 3 ≤ a.nv.toNat := by exact_mod_cast this
    have h1 : 1 ≤ |(i : ℝ) + 1 / 2 - a.nv.toNat / 2| := le_abs.2 (Or.inr (by linarith))
    nlinarith
  · unfold width
    rw [hv, hv]
    push_cast
    ring

theorem cube_base (hK : Interpolates K) (hg : GridIs s.grid M nt nz t z lib) (hM : s.grid.lmd.length = M) (h0 : ∀ k i j, 0 ≤ lib k i j)
    (hp : (argsGrid a nt nz t z).Proper) (hc : (makeCube K a s).1 = .ok cube) (ha : 0 < binWidth a) (hρ : ∀ c, 0 ≤ ρ c)
    (hst : IsArr (argsGrid a nt nz t z) ['t','v','x','z'] stored (fun c => Num.lg (ρ c))) :
    BaseIs cube stored (argsGrid a nt nz t z) ρ (fun t z => ∑ k ∈ Finset.range M, lib k z t) := by
  obtain ⟨l, sp, -, -, -, hcube, -⟩ := C59_ready hK hg hM hc ha
  obtain ⟨l', lw, -, -, hlw, hs, -⟩ := makeCube_ok hc
  have hl : cube.ssps.lightWeights = lw := by
    rw [← (C50_unchanged hc []).2]
    show (makeCube K a s).2.toSSPs.lightWeights = lw
    rw [hs]
    rfl
  obtain ⟨lw', e, hl1, hl2⟩ := lightWeights_is hg
  obtain rfl : lw' = lw := by rw [hlw] at e; injection e with e; exact e.symm
  refine ⟨hp, hcube, hst, hρ, ?_, fun t z => Finset.sum_nonneg fun k _ => h0 _ _ _⟩
  rw [hl]
  exact ⟨hl1, fun c hc => hl2 _ hc.1 _ hc.2.2.2.2⟩

/-- If all templates of the library are multiples of one spectrum, a plain component on a cube constructed from it has the image it should
have: the datacube summed over wavelength and divided by the total is `get_p('x', density=False, light_weighted=True)`. The interpolation is
assumed to be linear, as scipy's are, and not to cancel the flux. -/
theorem C102_grey (hI : Interp interp) (hK : Interpolates K) (hlin : ∀ kind x c Y w, K.eval kind x (fun j => c * Y j) w = c * K.eval kind x Y w)
    {A : ℕ → ℕ → ℝ} {e : ℕ → ℝ} (hA : ∀ i j, 0 ≤ A i j) (he : ∀ k, 0 ≤ e k) (he0 : 0 < ∑ k ∈ Finset.range M, e k)
    (hg : GridIs s.grid M nt nz t z (fun k i j => A i j * e k)) (hM : s.grid.lmd.length = M) (ha : Centred a)
    (hp : (argsGrid a nt nz t z).Proper) (hc : (makeCube K a s).1 = .ok cube)
    (hflux : ∀ l, (makeCube K a s).2.log = some l →
      0 < ∑ k ∈ Finset.range l.w.length, K.eval a.kind (s.grid.lmd.map Real.log) e (l.w.getD k 0))
    (hρ : ∀ c, 0 ≤ ρ c) (hst : IsArr (argsGrid a nt nz t z) ['t','v','x','z'] stored (fun c => Num.lg (ρ c)))
    (hl : 0 < totalLight (argsGrid a nt nz t z) (fun t z => A z t) (massP (argsGrid a nt nz t z) ρ)) {batch : PyStr} (hb : batch ∈ batchModes) :
    ∃ n y P, evaluateShared interp (baseSelf cube stored) (makeCube K a s).2 batch = .ok y ∧
      Component.getP (baseSelf cube stored) "x".toList false true = .ok P ∧ CollapsesTo y P (argsGrid a nt nz t z) n 1 1 := by
  have hw : 0 < binWidth a := lt_trans (by positivity) ha.2.2.2
  have hB := cube_base hK hg hM (fun k i j => mul_nonneg (hA i j) (he k)) hp hc hw hρ hst
  obtain ⟨l, sp, hlog, hdv, hS, -, hev⟩ := C59_ready hK hg hM hc hw
  obtain ⟨l', lw, -, hlen, -, hs, -⟩ := makeCube_ok hc
  obtain rfl : l' = l := by rw [hs] at hlog; simpa using hlog
  have hF := hflux _ hlog
  set E := ∑ k ∈ Finset.range M, e k with hE
  set F := ∑ k ∈ Finset.range l'.w.length, K.eval a.kind (s.grid.lmd.map Real.log) e (l'.w.getD k 0) with hFd
  have hL : (fun t z => ∑ k ∈ Finset.range M, A z t * e k) = fun t z => A z t * E := by
    funext t z; rw [hE, Finset.mul_sum]
  have hlight : 0 < totalLight (argsGrid a nt nz t z) (fun t z => ∑ k ∈ Finset.range M, A z t * e k) (massP (argsGrid a nt nz t z) ρ) := by
    rw [hL]
    have : totalLight (argsGrid a nt nz t z) (fun t z => A z t * E) (massP (argsGrid a nt nz t z) ρ) =
        E * totalLight (argsGrid a nt nz t z) (fun t z => A z t) (massP (argsGrid a nt nz t z) ρ) := by
      unfold totalLight
      rw [← sumCells_mul]
      exact congrArg _ (funext fun d => by ring)
    rw [this]
    exact mul_pos he0 hl
  have hk : Kept (argsGrid a nt nz t z) (fun i j k => K.eval a.kind (s.grid.lmd.map Real.log) (fun m => A j i * e m) (l'.w.getD k 0))
      l'.w.length (fun t z => ∑ k ∈ Finset.range M, A z t * e k) (F / E) (F / E) := by
    refine ⟨div_pos hF he0, div_pos hF he0, fun i hi j hj => ?_⟩
    have : ∑ k ∈ Finset.range l'.w.length, K.eval a.kind (s.grid.lmd.map Real.log) (fun m => A j i * e m) (l'.w.getD k 0) =
        F / E * ∑ k ∈ Finset.range M, A j i * e k := by
      simp only [hlin, ← Finset.mul_sum, ← hE, ← hFd]
      field_simp
    exact ⟨this.ge, this.le⟩
  obtain ⟨y, P, hy, hP, hR⟩ := C102_plain_partial hI hB hlight (Nat.pos_of_ne_zero hlen) hS (by rw [hdv]; exact ha.fit) hk hb
  rw [div_self (div_pos hF he0).ne'] at hR
  exact ⟨_, y, P, by rw [hev]; exact hy, hP, hR⟩

end

/-! ### The claim fails in general -/

/-- Five wavelengths, in even steps of the logarithm, as far apart as the pixels of a cube with velocity bins of 20 km/s. -/
def steps : List ℝ := (List.range 5).map fun k : ℕ => Real.exp (k * (20 / 299792))

/-- A library of two ages and two metallicities with the spectra `lib`. -/
def stepData (lib : ℕ → ℕ → ℕ → ℝ) : MilesData where
  tUnq := [1, 2]
  zUnq := [0, 1]
  lmd := steps
  X := ⟨[5, 4], fun i => .fin (lib (i.getD 0 0) (i.getD 1 0 / 2) (i.getD 1 0 % 2))⟩

theorem stepData_are (lib : ℕ → ℕ → ℕ → ℝ) : DataAre (stepData lib) 5 2 2 (fun j => j + 1) (fun i => i) lib := by
  refine ⟨⟨rfl, fun j hj => ?_⟩, ⟨rfl, fun i hi => ?_⟩, by simp [stepData, steps], rfl, fun k _ i _ j hj => ?_⟩
  · have : j = 0 ∨ j = 1 := by omega
    rcases this with rfl | rfl <;> simp [stepData]; norm_num
  · have : i = 0 ∨ i = 1 := by omega
    rcases this with rfl | rfl <;> simp [stepData]
  · have e1 : (i * 2 + j) / 2 = i := by omega
    have e2 : (i * 2 + j) % 2 = j := by omega
    simp [stepData, e1, e2]

/-- Edges of the two ages and of the two metallicities. -/
def stepT : ℕ → ℝ := edgeOf 2 fun j => j + 1
def stepZ : ℕ → ℝ := edgeOf 2 fun i => i

theorem stepProper : (argsGrid (demoArgs 20) 2 2 stepT stepZ).Proper := by
  have hl : ∀ r : ℝ × ℝ, r.1 < r.2 → ∀ n, 0 < n → ∀ i, evenEdges r n i < evenEdges r n (i + 1) := fun r hr n hn i => by
    unfold evenEdges
    have : (0 : ℝ) < n := by exact_mod_cast hn
    have := div_pos (sub_pos.2 hr) this
    push_cast
    linarith
  refine ⟨by decide, by decide, by decide, by decide, by decide, ?_, fun i _ => hl _ ?_ _ (by decide) i, fun i _ => hl _ ?_ _ (by decide) i,
    fun i _ => hl _ ?_ _ (by decide) i, ?_⟩
  · refine edgeOf_lt (n := 0) (x := fun j => j + 1) (fun i _ => by push_cast; linarith) ?_
    rintro ⟨-, h⟩
    norm_num at h
  · norm_num [demoArgs]
  · norm_num [demoArgs]
  · norm_num [demoArgs]
  · refine edgeOf_lt (n := 0) (x := fun i => i) (fun i _ => by push_cast; linarith) ?_
    rintro ⟨h, -⟩
    norm_num [lowEdge, abs_of_neg] at h

section
variable {K : Interp1d} {lib : ℕ → ℕ → ℕ → ℝ}

/-- The four pixels of the cube are at the first four wavelengths of the library. -/
theorem step_pixels (hK : Interpolates K) {G : SspGrid} (hg : GridIs G 5 2 2 stepT stepZ lib) (hG : G.lmd = steps)
    (hc : (makeCube K (demoArgs 20) (fresh G)).1 = .ok cube) :
    ∃ l, (makeCube K (demoArgs 20) (fresh G)).2.log = some l ∧ l.w.length = 4 ∧ ∀ k < 4, ∀ Y : ℕ → ℝ,
      K.eval "cubic".toList (G.lmd.map Real.log) Y (l.w.getD k 0) = Y k := by
  have hlog : G.lmd.map Real.log = (List.range 5).map fun k : ℕ => (k : ℝ) * (20 / 299792) := by
    rw [hG]; simp [steps]
  obtain ⟨l, lo, hi, h1, h2, h3, h4, h5, h6, -⟩ := C59_pixels (n := 5) hK (s := fresh G) hg (by simp [fresh, hG, steps]) hc
    (by rw [demoArgs_width]; norm_num)
  rw [demoArgs_width] at h5 h6
  have hm : ∀ x, x ∈ (fresh G).grid.lmd.map Real.log ↔ ∃ k : ℕ, k < 5 ∧ (k : ℝ) * (20 / 299792) = x := fun x => by
    show x ∈ G.lmd.map Real.log ↔ _
    rw [hlog]; simp
  have hlo : lo = 0 := by
    obtain ⟨k, -, hk⟩ := (hm lo).1 h2.1
    have a1 : lo ≤ 0 := h2.2 ((hm 0).2 ⟨0, by norm_num, by norm_num⟩)
    have : (0 : ℝ) ≤ k * (20 / 299792) := by positivity
    linarith
  have hhi : hi = 4 * (20 / 299792) := by
    obtain ⟨k, hk5, hk⟩ := (hm hi).1 h3.1
    have a1 : 4 * (20 / 299792) ≤ hi := h3.2 ((hm _).2 ⟨4, by norm_num, by norm_num⟩)
    have : (k : ℝ) ≤ 4 := by exact_mod_cast (by omega : k ≤ 4)
    nlinarith
  subst hlo hhi
  have hlen : l.w.length = 4 := by
    have a1 : (4 : ℝ) ≤ l.w.length := by nlinarith
    have a2 : 4 ≤ l.w.length := by exact_mod_cast a1
    by_contra hne
    have := (h5 4 (by omega))
    rw [this.1] at this
    norm_num at this
  have hchk : K.check "cubic".toList (G.lmd.map Real.log).length = .ok () := by
    obtain ⟨l, lw, hl, -⟩ := makeCube_ok hc
    unfold resampled at hl
    obtain ⟨_, h1, _⟩ := bind_ok hl
    split_ifs at h1
    exact h1
  refine ⟨l, h1, hlen, fun k hk Y => ?_⟩
  have e : l.w.getD k 0 = (G.lmd.map Real.log).getD k 0 := by
    rw [(h5 k (by omega)).1, hlog]
    rw [List.getD_eq_getElem?_getD, List.getElem?_map, List.getElem?_range (by omega)]
    simp
  rw [e]
  refine hK.nodes _ _ _ _ hchk ?_ (by rw [hlog]; simp; omega)
  rw [hlog]
  simp only [List.pairwise_map]
  exact List.pairwise_lt_range.imp fun {a b} h => by
    have : (a : ℝ) < b := by exact_mod_cast h
    nlinarith

theorem step_constructed (K : Interp1d) {G : SspGrid} (hg : GridIs G 5 2 2 stepT stepZ lib) (hlmd : G.lmd = steps)
    (hchk : K.check "cubic".toList 5 = .ok ()) : ∃ cube, (makeCube K (demoArgs 20) (fresh G)).1 = .ok cube := by
  have hst2 : ∀ x ∈ steps, 0 < x := fun x hx => by
    simp only [steps, List.mem_map] at hx
    obtain ⟨k, -, rfl⟩ := hx
    exact Real.exp_pos _
  exact (C59_constructed (K := K) (a := demoArgs 20) (s := fresh G) (n := 5) hg (by simp [fresh, hlmd, steps])
    (by simp only [fresh, hlmd]; exact hst2) (by simp [demoArgs]) (by simp [demoArgs]) (by simp [demoArgs]) (by norm_num [demoArgs])).2
    ⟨hchk, Real.exp ((0 : ℕ) * (20 / 299792)), by simp only [fresh, hlmd, steps]; exact List.mem_map_of_mem (by simp), Real.exp ((1 : ℕ) * (20 / 299792)),
      by simp only [fresh, hlmd, steps]; exact List.mem_map_of_mem (by simp), fun e => by
        have := Real.exp_injective e
        norm_num at this⟩

/-- Old stars (age bin 0) shine at the last wavelength only, young ones at the first wavelength only. -/
def apart (k _ j : ℕ) : ℝ := if j = 0 then (if k = 4 then 1 else 0) else if k = 0 then 1 else 0

/-- Stars of age bin 0 in the column of pixels 0 and of age bin 1 in column 1, with density `u`. -/
def twoAges (u : ℝ) (c : Cell) : ℝ := if c.t = c.x then u else 0

/-- It fails in general: a library of which all templates have the same light, and a component, with mass 1, that shines in all pixels
according to `get_p('x', light_weighted=True)`, but whose datacube has no flux at all in half of them. The reason: the last wavelength of the library is left
out of the datacube and counted in the light weights. -/
theorem C102_wrong (hI : Interp interp) (hK : Interpolates K) (hchk : K.check "cubic".toList 5 = .ok ()) :
    ∃ G cube stored ρ y P, SspGrid.init0 (stepData apart) = .ok G ∧ (makeCube K (demoArgs 20) (fresh G)).1 = .ok cube ∧
      BaseIs cube stored (argsGrid (demoArgs 20) 2 2 stepT stepZ) ρ (fun _ _ => 1) ∧
      (argsGrid (demoArgs 20) 2 2 stepT stepZ).sumCells (massP (argsGrid (demoArgs 20) 2 2 stepT stepZ) ρ) = 1 ∧
      evaluateShared interp (baseSelf cube stored) (makeCube K (demoArgs 20) (fresh G)).2 "none".toList = .ok y ∧
      Component.getP (baseSelf cube stored) "x".toList false true = .ok P ∧ y.shape = [4, 2, 3] ∧
      ∀ j < 3, ∑ k ∈ Finset.range 4, y.get [k, 0, j] = .fin 0 ∧ (∃ f, 0 < f ∧ ∑ k ∈ Finset.range 4, y.get [k, 1, j] = .fin f) ∧
        (∃ u, 0 < u ∧ P.get [0, j] = .fin u) ∧ ∃ u, 0 < u ∧ P.get [1, j] = .fin u := by
  obtain ⟨G, hG, hg, hlmd, -⟩ := init0_is (nt := 0) (nz := 0) (stepData_are apart) (by norm_num) (by norm_num)
  have hg : GridIs G 5 2 2 stepT stepZ apart := hg
  have hlmd : G.lmd = steps := hlmd
  have hpr := stepProper
  obtain ⟨cube, hc⟩ := step_constructed K hg hlmd hchk
  set g := argsGrid (demoArgs 20) 2 2 stepT stepZ with hgd
  have hm1 : ∀ u c, massP g (twoAges u) c = u * massP g (twoAges 1) c := fun u c => by
    unfold massP twoAges
    split <;> ring
  have hM : 0 < g.sumCells (massP g (twoAges 1)) := by
    refine sumCells_pos_of (c := ⟨0, 0, 0, 0, 0⟩) (fun c hc => massP_nonneg hpr (fun c => by unfold twoAges; split <;> norm_num) hc)
      ⟨hpr.nt, hpr.nv, hpr.nx, hpr.ny, hpr.nz⟩ ?_
    unfold massP twoAges
    rw [if_pos rfl, one_mul]
    exact cellVolume_pos hpr ⟨hpr.nt, hpr.nv, hpr.nx, hpr.ny, hpr.nz⟩
  obtain ⟨u, hu⟩ : ∃ u, u = 1 / g.sumCells (massP g (twoAges 1)) := ⟨_, rfl⟩
  have hu0 : 0 < u := by rw [hu]; positivity
  have hρ : ∀ c, 0 ≤ twoAges u c := fun c => by unfold twoAges; split <;> linarith
  have hmass : g.sumCells (massP g (twoAges u)) = 1 := by
    rw [show massP g (twoAges u) = fun c => u * massP g (twoAges 1) c from funext fun c => hm1 u c, sumCells_mul, hu, one_div,
      inv_mul_cancel₀ hM.ne']
  have hL : (fun t z => ∑ k ∈ Finset.range 5, apart k z t) = fun _ _ => 1 := by
    funext t z
    unfold apart
    by_cases h : t = 0 <;> simp [h, Finset.sum_range_succ]
  let stored : Arr Num := ⟨[2, 7, 2, 3, 2], fun i => Num.lg (twoAges u ⟨i.getD 0 0, i.getD 1 0, i.getD 2 0, i.getD 3 0, i.getD 4 0⟩)⟩
  have hB : BaseIs cube stored g (twoAges u) (fun t z => ∑ k ∈ Finset.range 5, apart k z t) :=
    cube_base (M := 5) hK (s := fresh G) hg (by simp [fresh, hlmd, steps]) (fun k i j => by unfold apart; split_ifs <;> norm_num) hpr hc
      (by rw [demoArgs_width]; norm_num) hρ ⟨rfl, fun _ _ => rfl⟩
  rw [hL] at hB
  obtain ⟨l, hlog, hlen, hev⟩ := step_pixels hK hg hlmd hc
  obtain ⟨l', sp, hlog', hdv, hS, -, heval⟩ := C59_ready (n := 5) hK (s := fresh G) hg (by simp [fresh, hlmd, steps]) hc
    (by rw [demoArgs_width]; norm_num)
  obtain rfl : l = l' := by rw [hlog] at hlog'; simpa using hlog'
  rw [hlen] at hS
  have hfit : FitVelocities g sp.dv := by
    rw [hdv]
    exact Centred.fit ⟨by decide, by decide, by simp [demoArgs], by rw [demoArgs_width]; norm_num⟩
  obtain ⟨y, hy, hys, hyf⟩ := plain_flux hI hB (by norm_num) hS hfit (batch := "none".toList) (by decide)
  have hlight : 0 < totalLight g (fun _ _ => 1) (massP g (twoAges u)) := by
    unfold totalLight
    simp only [one_mul, hmass]
    norm_num
  have hm : IsMember g (fun _ _ => 1) (Component.child (baseSelf cube stored) none) (tablePop g (twoAges u)) := .plain cube stored _ none hB rfl rfl
  have hsh : 0 < (tablePop g (twoAges u)).lightOf g (fun _ _ => 1) ['t','x','z'] := by
    rw [Pop.lightOf_eq hpr (tablePop_ok hpr hρ), tablePop_light hpr]; exact hlight
  obtain ⟨P, hP, hPs, hPg⟩ := hm.getP_marg false true (fun _ => hsh) (w := "x".toList) (by decide)
  have hstars : ∀ t x y z, t < 2 → x < 2 → y < 3 → z < 2 → (t = x → 0 < (tablePop g (twoAges u)).stars ⟨t, 0, x, y, z⟩) ∧
      (t ≠ x → (tablePop g (twoAges u)).stars ⟨t, 0, x, y, z⟩ = 0) := fun t x y z h1 h2 h3 h4 => by
    rw [tablePop_stars]
    constructor
    · intro e
      refine Finset.sum_pos (fun v _ => ?_) ⟨⟨0, hpr.nv⟩, Finset.mem_univ _⟩
      simp only [massP, twoAges, if_pos e]
      exact mul_pos hu0 (cellVolume_pos hpr ⟨h1, v.2, h2, h3, h4⟩)
    · intro e
      exact Finset.sum_eq_zero fun v _ => by simp only [massP, twoAges, if_neg e, zero_mul]
  have hPpos : ∀ i < 2, ∀ j < 3, ∃ w, 0 < w ∧ P.get [i, j] = .fin w := fun i hi j hj => by
    refine ⟨pixelLight (tablePop g (twoAges u)) g (fun _ _ => 1) i j / (tablePop g (twoAges u)).lightOf g (fun _ _ => 1) ['x'], ?_, ?_⟩
    rotate_left
    · refine (hPg ⟨0, 0, i, j, 0⟩ ⟨hpr.nt, hpr.nv, hi, hj, hpr.nz⟩).trans (congrArg Num.fin ?_)
      simp only [dvol, Bool.false_eq_true, if_false, div_one]
      exact image_marginal hpr hi hj
    · refine div_pos ?_ (hm.ok.light_pos hpr (fun _ _ => zero_le_one) hsh _)
      have hnn : ∀ t z : Fin 2, 0 ≤ (1 : ℝ) * (tablePop g (twoAges u)).stars ⟨t, 0, i, j, z⟩ := fun t z => by
        rw [one_mul]
        exact hm.ok.stars _ ⟨t.2, hpr.nv, hi, hj, z.2⟩
      show 0 < ∑ t : Fin 2, ∑ z : Fin 2, (1 : ℝ) * (tablePop g (twoAges u)).stars ⟨t, 0, i, j, z⟩
      refine Finset.sum_pos' (fun t _ => Finset.sum_nonneg fun z _ => hnn t z) ⟨⟨i, hi⟩, Finset.mem_univ _, ?_⟩
      refine Finset.sum_pos' (fun z _ => hnn _ z) ⟨0, Finset.mem_univ _, ?_⟩
      rw [one_mul]
      exact (hstars i i j 0 hi hi hj (by norm_num)).1 rfl
  have hF : ∀ t z, sspFlux (fun i j k => K.eval (demoArgs 20).kind ((fresh G).grid.lmd.map Real.log) (fun m => apart m j i) (l.w.getD k 0)) 4 t z =
      if t = 0 then 0 else 1 := fun t z => by
    unfold sspFlux
    refine (Finset.sum_congr rfl fun k hk => hev k (Finset.mem_range.1 hk) (fun m => apart m z t)).trans ?_
    unfold apart
    by_cases h : t = 0 <;> simp [h, Finset.sum_range_succ]
  refine ⟨G, cube, stored, twoAges u, y, P, hG, hc, hB, hmass, by rw [heval]; exact hy, hP, hys, fun j hj => ⟨?_, ?_, hPpos 0 (by norm_num) j hj,
    hPpos 1 (by norm_num) j hj⟩⟩
  · obtain ⟨f, h1, h2⟩ := hyf 0 (by decide) j hj
    rw [Finset.sum_congr rfl fun k hk => h1 k (Finset.mem_range.1 hk), Num.fin_sum, h2]
    congr 1
    unfold pixelLight
    refine Finset.sum_eq_zero fun t _ => Finset.sum_eq_zero fun z _ => ?_
    rw [hF]
    by_cases h : (t : ℕ) = 0
    · rw [if_pos h, zero_mul]
    · rw [(hstars t 0 j z t.2 (by norm_num) hj z.2).2 h, mul_zero]
  · obtain ⟨f, h1, h2⟩ := hyf 1 (by decide) j hj
    refine ⟨_, ?_, by rw [Finset.sum_congr rfl fun k hk => h1 k (Finset.mem_range.1 hk), Num.fin_sum, h2]⟩
    unfold pixelLight
    simp only [hF]
    have hnn : ∀ t z : Fin 2, 0 ≤ (if (t : ℕ) = 0 then (0 : ℝ) else 1) * (tablePop g (twoAges u)).stars ⟨t, 0, 1, j, z⟩ := fun t z =>
      mul_nonneg (by split <;> norm_num) (hm.ok.stars _ ⟨t.2, hpr.nv, show 1 < 2 by norm_num, hj, z.2⟩)
    show 0 < ∑ t : Fin 2, ∑ z : Fin 2, (if (t : ℕ) = 0 then (0 : ℝ) else 1) * (tablePop g (twoAges u)).stars ⟨t, 0, 1, j, z⟩
    refine Finset.sum_pos' (fun t _ => Finset.sum_nonneg fun z _ => hnn t z) ⟨1, Finset.mem_univ _, ?_⟩
    refine Finset.sum_pos' (fun z _ => hnn _ z) ⟨0, Finset.mem_univ _, ?_⟩
    simp only [Fin.val_one, one_ne_zero, if_false, one_mul]
    exact (hstars 1 1 j 0 (by norm_num) (by norm_num) hj (by norm_num)).1 rfl

end

/-! ### Instances -/

theorem demo_kept : Kept (uniformGrid 2 3 7 (-70, 70)) demoSpec 7 demoL 49 119 := by
  refine ⟨by norm_num, by norm_num, fun t ht z hz => ?_⟩
  have ht : t < 2 := ht
  have hz : z < 3 := hz
  interval_cases t <;> interval_cases z <;> norm_num [demoSpec, demoL, Finset.sum_range_succ]

/-- A uniform component on a cube with seven velocity bins; its datacube has the image to within a factor of 119/49. Two copies of it in
a mixture. -/
example : ∃ (cube : IFUCube) (sp : Spectra) (interp : ℕ → (ℕ → ℂ) → ℝ → ℂ) (y P Y Q : Arr Num),
    evaluateYbar interp (baseSelf cube (uniformStored 2 3 7)) sp "column".toList = .ok y ∧
    Component.getP (baseSelf cube (uniformStored 2 3 7)) "x".toList false true = .ok P ∧
    CollapsesTo y P (uniformGrid 2 3 7 (-70, 70)) 7 (49 / 119) (119 / 49) ∧
    ∃ mx : Mix, mx.children = [Component.child (baseSelf cube (uniformStored 2 3 7)) (some y), Component.child (baseSelf cube (uniformStored 2 3 7)) (some y)] ∧
      mx.evaluateYbar = .ok { mx with ybar := some Y } ∧ mx.getP "x".toList true false true = .ok Q ∧
      CollapsesTo Y Q (uniformGrid 2 3 7 (-70, 70)) 7 (49 / 119) (119 / 49) := by
  obtain ⟨cube, sp, -, h, hS, hdv, h5, h6, h7⟩ := ybar_demo
  have hv : FitVelocities (uniformGrid 2 3 7 (-70, 70)) sp.dv := ⟨by decide, h5, h7⟩
  have hpos : ∀ c, (uniformGrid 2 3 7 (-70, 70)).Has c → 0 < demoL c.t c.z * massP (uniformGrid 2 3 7 (-70, 70)) (fun _ => 1) c := fun c hc =>
    mul_pos (by unfold demoL; positivity) (mul_pos one_pos (cellVolume_pos h.proper hc))
  have hl : 0 < totalLight (uniformGrid 2 3 7 (-70, 70)) demoL (massP (uniformGrid 2 3 7 (-70, 70)) fun _ => 1) :=
    sumCells_pos_of (c := ⟨0, 0, 0, 0, 0⟩) (fun c hc => (hpos c hc).le) ⟨by decide, by decide, by decide, by decide, by decide⟩
      (hpos _ ⟨by decide, by decide, by decide, by decide, by decide⟩)
  obtain ⟨y, P, e1, e2, e3⟩ := C102_plain_partial interp_exists h hl (by norm_num) hS hv demo_kept (batch := "column".toList) (by decide)
  have hsh : (tablePop (uniformGrid 2 3 7 (-70, 70)) fun _ => 1).Shines (uniformGrid 2 3 7 (-70, 70)) demoL := by
    unfold Pop.Shines
    rw [Pop.lightOf_eq h.proper (tablePop_ok h.proper h.nonneg), tablePop_light h.proper]; exact hl
  let mx : Mix := ⟨cube, [Component.child (baseSelf cube (uniformStored 2 3 7)) (some y), Component.child (baseSelf cube (uniformStored 2 3 7)) (some y)],
    [1 / 4, 3 / 4], none⟩
  have hmx : MixOf mx (uniformGrid 2 3 7 (-70, 70)) 2 (fun i => if i = 0 then 1 / 4 else 3 / 4) (fun _ => tablePop (uniformGrid 2 3 7 (-70, 70)) fun _ => 1) demoL := by
    refine ⟨by norm_num, h.cubeIs, h.light, rfl, by simp [mx, List.range_succ], fun i hi => by split <;> norm_num, fun i hi => ?_⟩
    have : i < 2 := hi
    interval_cases i <;> exact .plain cube _ _ _ h rfl rfl
  obtain ⟨Y, Q, f1, f2, f3⟩ := C102_mixture_partial interp_exists hmx (mix_shines hmx fun _ _ => hsh) (by norm_num) hS (by rw [hdv]; norm_num) hv
    demo_kept (fun i hi => by
      have : i < 2 := hi
      interval_cases i <;> exact .plain cube _ _ "column".toList y h (by decide) e1 rfl rfl)
  exact ⟨cube, sp, _, y, P, Y, Q, e1, e2, e3, mx, rfl, f1, f2, f3⟩

/-- A disk with spectra whose totals are 8 times the light weights: the image is exact. -/
example : ∃ (p : Param) (sp : Spectra) (y P : Arr Num), p.evaluateYbar sp "spaxel".toList = .ok y ∧
    Component.getP p.self "x".toList false true = .ok P ∧ CollapsesTo y P demoGrid 8 1 1 := by
  obtain ⟨p, m, h, hl, -⟩ := demoDisk_exists 1
  obtain ⟨sp, h1, h2⟩ := anySpectra_exist (fun t _ _ => t + 1) 8 100
  obtain ⟨y, P, e1, e2, e3⟩ := C102_parametric_partial (κ₁ := 8) (κ₂ := 8) h (show 0 < (m.pop demoGrid).lightOf demoGrid demoL ['t','x','z'] from by
    rw [Pop.lightOf_eq h.proper h.pop_ok, ingr_cells]; exact hl.tot h.proper) (by norm_num) h1 (by rw [h2]; norm_num)
    ⟨by norm_num, by norm_num, fun t _ z _ => by simp only [demoL, Finset.sum_const, Finset.card_range, nsmul_eq_mul]; norm_num⟩ (batch := "spaxel".toList) (by decide)
  rw [div_self (by norm_num)] at e3
  exact ⟨p, sp, y, P, e1, e2, e3⟩

theorem pointsK_linear (kind : PyStr) (x : List ℝ) (c : ℝ) (Y : ℕ → ℝ) (w : ℝ) :
    pointsK.eval kind x (fun j => c * Y j) w = c * pointsK.eval kind x Y w := by
  simp only [pointsK]
  split <;> simp

/-- A library of templates with spectra 1, 2, 4, 8, 16 times the number of the age bin plus one. -/
example : ∃ (G : SspGrid) (cube : IFUCube) (stored y P : Arr Num) (interp : ℕ → (ℕ → ℂ) → ℝ → ℂ) (n : ℕ),
    SspGrid.init0 (stepData fun k _ j => (j + 1) * 2 ^ k) = .ok G ∧ (makeCube pointsK (demoArgs 20) (fresh G)).1 = .ok cube ∧
    evaluateShared interp (baseSelf cube stored) (makeCube pointsK (demoArgs 20) (fresh G)).2 "none".toList = .ok y ∧
    Component.getP (baseSelf cube stored) "x".toList false true = .ok P ∧
    CollapsesTo y P (argsGrid (demoArgs 20) 2 2 stepT stepZ) n 1 1 := by
  obtain ⟨G, hG, hg, hlmd, -⟩ := init0_is (nt := 0) (nz := 0) (stepData_are fun k _ j => (j + 1) * 2 ^ k) (by norm_num) (by norm_num)
  have hg : GridIs G 5 2 2 stepT stepZ (fun k _ j => (j + 1) * 2 ^ k) := hg
  have hlmd : G.lmd = steps := hlmd
  obtain ⟨cube, hc⟩ := step_constructed pointsK hg hlmd rfl
  have hpr := stepProper
  obtain ⟨l, hlog, hlen, hev⟩ := step_pixels pointsK_interpolates hg hlmd hc
  have hc0 : (argsGrid (demoArgs 20) 2 2 stepT stepZ).Has ⟨0, 0, 0, 0, 0⟩ := ⟨hpr.nt, hpr.nv, hpr.nx, hpr.ny, hpr.nz⟩
  obtain ⟨n, y, P, e1, e2, e3⟩ := C102_grey (A := fun _ j => (j : ℝ) + 1) (e := fun k => 2 ^ k) (stored := ⟨[2, 7, 2, 3, 2], fun i => Num.lg
      (twoAges 1 ⟨i.getD 0 0, i.getD 1 0, i.getD 2 0, i.getD 3 0, i.getD 4 0⟩)⟩) (ρ := twoAges 1) interp_exists pointsK_interpolates pointsK_linear
    (fun _ j => by positivity) (fun k => by positivity) (by norm_num [Finset.sum_range_succ]) (M := 5) (s := fresh G) hg (by simp [fresh, hlmd, steps])
    ⟨by decide, by decide, by simp [demoArgs], by rw [demoArgs_width]; norm_num⟩ hpr hc (fun l' hl' => by
      obtain rfl : l = l' := by rw [hlog] at hl'; simpa using hl'
      rw [hlen]
      exact Finset.sum_pos (fun k hk => by
        have := hev k (Finset.mem_range.1 hk) (fun k => 2 ^ k)
        rw [show (demoArgs 20).kind = "cubic".toList from rfl, show (fresh G).grid.lmd = G.lmd from rfl, this]
        positivity) (by simp))
    (fun c => by unfold twoAges; split <;> norm_num) ⟨rfl, fun _ _ => rfl⟩
    (sumCells_pos_of (c := ⟨0, 0, 0, 0, 0⟩) (fun c hc => mul_nonneg (by positivity) (massP_nonneg hpr (fun c => by unfold twoAges; split <;> norm_num) hc))
      hc0 (mul_pos (by positivity) (mul_pos (by simp [twoAges]) (cellVolume_pos hpr hc0)))) (batch := "none".toList) (by decide)
  exact ⟨G, cube, _, y, P, _, n, hG, hc, e1, e2, e3⟩

/-- An interpolation for which `C102_wrong` applies. -/
example : Interpolates pointsK ∧ pointsK.check "cubic".toList 5 = .ok () ∧ ∃ interp, Interp interp := ⟨pointsK_interpolates, rfl, _, interp_exists⟩

end PKM
