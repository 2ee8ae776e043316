import Verif.Parametric
import Verif.ParamSpec
import Verif.MArrLog
import Verif.MixLemmas

/-! Lemmas: the distributions of a parametric component. -/

open scoped Classical
open MeasureTheory

noncomputable section

namespace PKM
open Np Component

instance {w : PyStr} : Decidable (DistChars w) := by unfold DistChars; infer_instance
instance {ch : Char} : Decidable (AxisChar ch) := by unfold AxisChar; infer_instance

/-- A parametric component whose setters have been called, on a cube representing the grid `g`: its
stored arrays are the logarithms of the densities `m`, its velocity fields those of `m`, and the SSP
light weights are `L`. -/
structure ParamIs (p : Param) (g : Grid) (m : Ingredients) (L : ℕ → ℕ → ℝ) : Prop where
  proper : g.Proper
  cubeIs : CubeIs p.cube g
  norm : m.Normalised g
  logPt : ∃ A, p.logPt = some A ∧ IsArr g ['t'] A (fun c => Num.lg (m.pt c.t))
  logPxt : ∃ A, p.logPxt = some A ∧ IsArr g (condStr ['x'] ['t']) A (fun c => Num.lg (m.px c.t c.x c.y))
  logPztx : ∃ A, p.logPztx = some A ∧
    IsArr g (condStr ['z'] ['t','x']) A (fun c => Num.lg (m.pz c.t c.x c.y c.z))
  muV : ∃ A, p.muV = some A ∧ IsArr g ['t','x'] A (fun c => .fin (m.mu c.t c.x c.y))
  sigV : ∃ A, p.sigV = some A ∧ IsArr g ['t','x'] A (fun c => .fin (m.sig c.t c.x c.y))
  light : IsArr g ['t','z'] p.cube.ssps.lightWeights (fun c => .fin (L c.t c.z))
  lightNonneg : ∀ t z, 0 ≤ L t z

/-- The call returns an array of logarithms with axes `U`. -/
def IsL (e : Py (Arr Num)) (g : Grid) (U : List Char) (q : Cell → ℝ) : Prop :=
  ∃ A, e = .ok A ∧ MArr g (U.map some) A (fun c => Num.lg (q c))

theorem IsL.congr {e : Py (Arr Num)} {g : Grid} {U : List Char} {q q' : Cell → ℝ} (h : IsL e g U q)
    (hq : ∀ c, g.Has c → q c = q' c) : IsL e g U q' := by
  obtain ⟨A, h1, h2⟩ := h
  exact ⟨A, h1, h2.congr fun c hc => by rw [hq c hc]⟩

theorem IsL.gives {e : Py (Arr Num)} {g : Grid} {w : PyStr} (hw : DistChars w) {q : Cell → ℝ}
    (h : IsL e g (PyStr.replaceX w) q) : Gives e g w (fun c => Num.lg (q c)) := by
  obtain ⟨A, h1, h2⟩ := h
  exact ⟨A, h1, h2.isArr hw⟩

variable {p : Param} {g : Grid} {m : Ingredients} {L : ℕ → ℕ → ℝ}

/-! ### Real valued facts -/

theorem volOf_append (g : Grid) (a b : PyStr) (c : Cell) : g.volOf (a ++ b) c = g.volOf a c * g.volOf b c := by
  simp [Grid.volOf]

theorem volOf_t (g : Grid) (c : Cell) : g.volOf ['t'] c = width g.t c.t := by simp [Grid.volOf, Grid.width1]
theorem volOf_v (g : Grid) (c : Cell) : g.volOf ['v'] c = width g.v c.v := by simp [Grid.volOf, Grid.width1]
theorem volOf_x (g : Grid) (c : Cell) : g.volOf ['x'] c = width g.x c.x * width g.y c.y := by
  simp [Grid.volOf, Grid.width1]
theorem volOf_z (g : Grid) (c : Cell) : g.volOf ['z'] c = width g.z c.z := by simp [Grid.volOf, Grid.width1]

theorem dvol_append (g : Grid) (d : Bool) (a b : PyStr) (c : Cell) :
    dvol g d (a ++ b) c = dvol g d a c * dvol g d b c := by
  unfold dvol; split <;> simp [volOf_append]

theorem dvol_cons (g : Grid) (d : Bool) (a : Char) (b : PyStr) (c : Cell) (hb : b ≠ []) :
    dvol g d (a :: b) c = dvol g d [a] c * dvol g d b c := dvol_append g d [a] b c

section
variable (hn : m.Normalised g) (hg : g.Proper)
include hn hg

theorem Ingredients.Normalised.probT_nonneg {c : Cell} (hc : g.Has c) : 0 ≤ m.probT g c :=
  mul_nonneg (hn.pt _) (by have := hg.t _ hc.1; unfold width; linarith)

theorem Ingredients.Normalised.probX_nonneg {c : Cell} (hc : g.Has c) : 0 ≤ m.probX g c :=
  mul_nonneg (hn.px _ _ _) (mul_nonneg (by have := hg.x _ hc.2.2.1; unfold width; linarith)
    (by have := hg.y _ hc.2.2.2.1; unfold width; linarith))

theorem Ingredients.Normalised.probZ_nonneg {c : Cell} (hc : g.Has c) : 0 ≤ m.probZ g c :=
  mul_nonneg (hn.pz _ _ _ _) (by have := hg.z _ hc.2.2.2.2; unfold width; linarith)

theorem Ingredients.Normalised.probTXZ_nonneg {c : Cell} (hc : g.Has c) : 0 ≤ m.probTXZ g c :=
  mul_nonneg (mul_nonneg (hn.probT_nonneg hg hc) (hn.probX_nonneg hg hc)) (hn.probZ_nonneg hg hc)

theorem Ingredients.Normalised.joint_nonneg {c : Cell} (hc : g.Has c) : 0 ≤ m.joint g c :=
  mul_nonneg (hn.probTXZ_nonneg hg hc) measureReal_nonneg

theorem Ingredients.Normalised.spread_nonneg {c : Cell} (hc : g.Has c) : 0 ≤ m.spread g c :=
  div_nonneg (hn.probTXZ_nonneg hg hc) (by positivity)

theorem marg_spread_txz {c : Cell} (hc : g.Has c) :
    g.marg (m.spread g) ['t','x','z'] c = m.probTXZ g c := by
  rw [marg_eq_sumOver g _ _ (by decide) c hc]
  have hv : (g.nv : ℝ) ≠ 0 := by have := hg.nv; positivity
  show ∑ _j : Fin g.nv, m.probTXZ g c / g.nv = _
  simp
  field_simp

theorem marg_spread_tx {c : Cell} (hc : g.Has c) :
    g.marg (m.spread g) ['t','x'] c = m.probT g c * m.probX g c := by
  rw [← sumOver_marg_nested g _ (w := ['t','x','z']) (by decide +kernel) hc,
    sumOver_congr (f' := m.probTXZ g) _ (by decide) hc (fun d hd => marg_spread_txz hn hg hd)]
  have := hn.sumZ c.t hc.1 c.x hc.2.2.1 c.y hc.2.2.2.1
  show ∑ j : Fin g.nz, m.probT g c * m.probX g c * (m.pz c.t c.x c.y j * width g.z j) = _
  rw [← Finset.mul_sum, this, mul_one]

theorem marg_spread_t {c : Cell} (hc : g.Has c) :
    g.marg (m.spread g) ['t'] c = m.probT g c := by
  rw [← sumOver_marg_nested g _ (w := ['t','x']) (by decide +kernel) hc,
    sumOver_congr (f' := fun c => m.probT g c * m.probX g c) _ (by decide) hc
      (fun d hd => marg_spread_tx hn hg hd)]
  have := hn.sumX c.t hc.1
  show ∑ x : Fin g.nx, ∑ y : Fin g.ny, m.probT g c * (m.px c.t x y * (width g.x x * width g.y y)) = _
  simp only [← Finset.mul_sum, this, mul_one]

theorem marg_joint_tvx {c : Cell} (hc : g.Has c) :
    g.marg (m.joint g) ['t','v','x'] c = m.probT g c * m.probX g c * m.probV g c := by
  rw [marg_eq_sumOver g _ _ (by decide) c hc]
  have := hn.sumZ c.t hc.1 c.x hc.2.2.1 c.y hc.2.2.2.1
  show ∑ j : Fin g.nz, m.probT g c * m.probX g c * (m.pz c.t c.x c.y j * width g.z j) * m.probV g c = _
  rw [← Finset.sum_mul, ← Finset.mul_sum, this, mul_one]

end

/-! ### Elements -/

theorem ParamIs.logDxDy (h : ParamIs p g m L) :
    MArr g [] p.logDxDy (fun c => Num.lg (g.volOf ['x'] c)) := by
  refine ⟨rfl, fun c hc => ?_⟩
  have h1 := h.proper.x _ hc.2.2.1
  have h2 := h.proper.y _ hc.2.2.2.1
  simp only [Param.logDxDy, Np.scalar, h.cubeIs.dx c.x hc.2.2.1, h.cubeIs.dy c.y hc.2.2.2.1, Num.log_fin]
  rw [Num.lg_add (by unfold width; linarith) (by unfold width; linarith), volOf_x]

theorem ParamIs.logVol (h : ParamIs p g m L) {w : PyStr} (hw : DistChars w) (hx : 'x' ∉ w) :
    ∃ d, p.logVol w = .ok d ∧ MArr g ((PyStr.replaceX w).map some) d (fun c => Num.lg (g.volOf w c)) := by
  obtain ⟨d, h1, h2⟩ := volumeElement_marr h.cubeIs h.proper hw hx
  exact ⟨map Num.log d, by simp [Param.logVol, h1], h2.map Num.log⟩

theorem volOf_nonneg {g : Grid} (hg : g.Proper) {c : Cell} (hc : g.Has c) (w : PyStr) : 0 ≤ g.volOf w c :=
  (volOf_pos hg hc w).le

/-- `(A.T + log_dvol).T` for the variable of the first axis. -/
theorem ParamIs.addT (h : ParamIs p g m L) {ch : Char} (hch : ch ∈ ['t','v','z']) {U : List Char} {A : Arr Num}
    {q : Cell → ℝ} (hA : MArr g ((ch :: U).map some) A (fun c => Num.lg (q c)))
    (hq : ∀ c, g.Has c → 0 ≤ q c) :
    IsL (do let d ← p.logVol [ch]; Param.addT A d) g (ch :: U) (fun c => q c * g.volOf [ch] c) := by
  have hd : DistChars [ch] := by intro a ha; simp at ha; subst ha; simp at hch ⊢; tauto
  have hx : 'x' ∉ [ch] := by simp at hch ⊢; rcases hch with rfl | rfl | rfl <;> decide
  obtain ⟨d, h1, h2⟩ := h.logVol hd hx
  have h2' : MArr g [some ch] d (fun c => Num.lg (g.volOf [ch] c)) := by
    have e : PyStr.replaceX [ch] = [ch] := by simp at hch; rcases hch with rfl | rfl | rfl <;> decide
    rwa [e] at h2
  obtain ⟨r, h3, h4⟩ := MArr.bop (R := ((ch :: U).map some).reverse) (· + ·) hA.T h2' (by
    cases U <;> simp [joinR, joinM])
  refine ⟨T r, ?_, ?_⟩
  · simp only [h1, Py.ok_bind, Param.addT, Np.add, h3]
  · have := h4.T
    simp only [List.reverse_reverse] at this
    exact this.congr fun c hc => Num.lg_add (hq c hc) (volOf_nonneg h.proper hc _)

/-- `(A.T - log_dvol).T` for the variable of the first axis. -/
theorem ParamIs.subT (h : ParamIs p g m L) {ch : Char} (hch : ch ∈ ['t','v','z']) {U : List Char} {A : Arr Num}
    {q : Cell → ℝ} (hA : MArr g ((ch :: U).map some) A (fun c => Num.lg (q c)))
    (hq : ∀ c, g.Has c → 0 ≤ q c) :
    IsL (do let d ← p.logVol [ch]; let q ← sub (T A) d; .ok (T q)) g (ch :: U)
      (fun c => q c / g.volOf [ch] c) := by
  have hd : DistChars [ch] := by intro a ha; simp at ha; subst ha; simp at hch ⊢; tauto
  have hx : 'x' ∉ [ch] := by simp at hch ⊢; rcases hch with rfl | rfl | rfl <;> decide
  obtain ⟨d, h1, h2⟩ := h.logVol hd hx
  have h2' : MArr g [some ch] d (fun c => Num.lg (g.volOf [ch] c)) := by
    have e : PyStr.replaceX [ch] = [ch] := by simp at hch; rcases hch with rfl | rfl | rfl <;> decide
    rwa [e] at h2
  obtain ⟨r, h3, h4⟩ := MArr.bop (R := ((ch :: U).map some).reverse) (· - ·) hA.T h2' (by
    cases U <;> simp [joinR, joinM])
  refine ⟨T r, ?_, ?_⟩
  · simp only [h1, Py.ok_bind, Np.sub, h3]
  · have := h4.T
    simp only [List.reverse_reverse] at this
    exact this.congr fun c hc => Num.lg_sub (hq c hc) (volOf_pos h.proper hc _)

/-! ### Mass-weighted building blocks -/

theorem ParamIs.xtMass (h : ParamIs p g m L) (density : Bool) :
    IsL (p.xtMass density) g ['x','y','t'] (fun c => m.probX g c / dvol g density ['x'] c) := by
  obtain ⟨A, h1, h2⟩ := h.logPxt
  have h3 := larr_iff.1 ((isArr_cond_iff (by decide) (by decide)).1 h2)
  cases density with
  | true =>
    refine ⟨A, by simp [Param.xtMass, Param.attr, h1, Param.onlyIf], h3.congr fun c hc => ?_⟩
    have := volOf_pos h.proper hc ['x']
    simp only [dvol, if_true, Ingredients.probX]
    rw [← volOf_x, mul_div_assoc, div_self this.ne', mul_one]
  | false =>
    obtain ⟨r, h4, h5⟩ := h3.iaddL h.logDxDy (fun c _ => h.norm.px _ _ _)
      (fun c hc => volOf_nonneg h.proper hc _) rfl
    refine ⟨r, by simp [Param.xtMass, Param.attr, h1, Param.onlyIf, h4], h5.congr fun c hc => ?_⟩
    simp [dvol, Ingredients.probX, volOf_x]

theorem ParamIs.tMass (h : ParamIs p g m L) (density : Bool) :
    IsL (p.tMass density) g ['t'] (fun c => m.probT g c / dvol g density ['t'] c) := by
  obtain ⟨A, h1, h2⟩ := h.logPt
  have h3 := IsArr.marr (by decide) h2
  cases density with
  | true =>
    refine ⟨A, by simp [Param.tMass, Param.attr, h1, Param.onlyIf], h3.congr fun c hc => ?_⟩
    have := volOf_pos h.proper hc ['t']
    simp only [dvol, if_true, Ingredients.probT]
    rw [← volOf_t, mul_div_assoc, div_self this.ne', mul_one]
  | false =>
    obtain ⟨d, hd, hd'⟩ := h.logVol (w := ['t']) (by decide) (by decide)
    obtain ⟨r, h4, h5⟩ := h3.iaddL hd' (fun c _ => h.norm.pt _)
      (fun c hc => volOf_nonneg h.proper hc _) rfl
    refine ⟨r, by simp [Param.tMass, Param.attr, h1, Param.onlyIf, hd, h4], h5.congr fun c hc => ?_⟩
    simp [dvol, Ingredients.probT, volOf_t]

theorem ParamIs.vtxMass (h : ParamIs p g m L) (density : Bool) :
    IsL (p.vtxMass density) g ['v','t','x','y'] (fun c => m.probV g c / dvol g density ['v'] c) := by
  obtain ⟨mu, h1, h2⟩ := h.muV
  obtain ⟨sg, h3, h4⟩ := h.sigV
  have h2' := IsArr.marr (by decide) h2
  have h4' := IsArr.marr (by decide) h4
  have he : MArr (bump g 'v') [some 'v'] p.cube.vEdg (fun c => .fin (g.v c.v)) := by
    have := Is1.marr (g := bump g 'v') (ch := 'v') (a := p.cube.vEdg) (F := g.v) h.cubeIs.vEdg
    exact this
  obtain ⟨e, he1, he2⟩ := he.getitem [.all, .na, .na, .na] (R := [some 'v', none, none, none]) rfl
  obtain ⟨lo, hl1, hl2⟩ := he2.lower (g := g) (by decide) (by simp)
  obtain ⟨hi, hh1, hh2⟩ := he2.upper (g := g) (by decide) (by simp)
  obtain ⟨c0, k1, k2⟩ := MArr.normLogcdf (R := ['v','t','x','y'].map some) h2' h4' hl2
    (fun c _ => h.norm.sig _ _ _) rfl rfl
  obtain ⟨c1, k3, k4⟩ := MArr.normLogcdf (R := ['v','t','x','y'].map some) h2' h4' hh2
    (fun c _ => h.norm.sig _ _ _) rfl rfl
  obtain ⟨r, k5, k6⟩ := MArr.logDiff k4 k2 (fun c _ => stdPhi_nonneg _) (fun c _ => stdPhi_nonneg _)
  have k7 : MArr g (['v','t','x','y'].map some) r (fun c => Num.lg (m.probV g c)) := k6.congr fun c hc => by
    have := h.proper.v _ hc.2.1
    unfold Ingredients.probV
    rw [normal_Ioc (h.norm.sig _ _ _) this.le]
    rfl
  have e0 : p.vtxMass density = Param.onlyIf density (fun r => do
      let d ← p.logVol ['v']
      let q ← sub (T r) d
      .ok (T q)) r := by
    simp only [Param.vtxMass, Param.attr, h1, h3, he1, hl1, hh1, k1, k3, k5, Py.ok_bind]
  rw [e0]
  cases density with
  | true =>
    exact h.subT (by simp) k7 (fun c _ => measureReal_nonneg)
  | false =>
    exact ⟨r, rfl, k7.congr fun c _ => by simp [dvol]⟩

theorem ParamIs.ztxMass (h : ParamIs p g m L) (density : Bool) :
    IsL (p.ztxMass density) g ['z','t','x','y'] (fun c => m.probZ g c / dvol g density ['z'] c) := by
  obtain ⟨A, h1, h2⟩ := h.logPztx
  have h3 := larr_iff.1 ((isArr_cond_iff (by decide) (by decide)).1 h2)
  cases density with
  | true =>
    refine ⟨A, by simp [Param.ztxMass, Param.attr, h1, Param.onlyIf], h3.congr fun c hc => ?_⟩
    have := volOf_pos h.proper hc ['z']
    simp only [dvol, if_true, Ingredients.probZ]
    rw [← volOf_z, mul_div_assoc, div_self this.ne', mul_one]
  | false =>
    have e0 : p.ztxMass false = (do let d ← p.logVol ['z']; Param.addT A d) := by
      simp [Param.ztxMass, Param.attr, h1, Param.onlyIf]
    rw [e0]
    exact (h.addT (ch := 'z') (by simp) h3 (fun c _ => h.norm.pz _ _ _ _)).congr fun c hc => by
      simp [dvol, Ingredients.probZ, volOf_z]

theorem ParamIs.txMass (h : ParamIs p g m L) (density : Bool) :
    IsL (p.txMass density) g ['t','x','y']
      (fun c => m.probT g c * m.probX g c / dvol g density ['t','x'] c) := by
  obtain ⟨A, h1, h2⟩ := h.xtMass density
  obtain ⟨B, h3, h4⟩ := h.tMass density
  obtain ⟨r, h5, h6⟩ := h2.addL h4
    (fun c hc => div_nonneg (h.norm.probX_nonneg h.proper hc) (dvol_pos h.proper hc _ _).le)
    (fun c hc => div_nonneg (h.norm.probT_nonneg h.proper hc) (dvol_pos h.proper hc _ _).le)
    (R := ['x','y','t'].map some) rfl
  obtain ⟨s, h7, h8⟩ := h6.moveaxis (src := [-1]) (dst := [0]) (R := ['t','x','y'].map some)
    (by decide +kernel)
  refine ⟨s, by simp [Param.txMass, h1, h3, h5, h7], h8.congr fun c hc => ?_⟩
  beta_reduce
  rw [dvol_cons g density 't' ['x'] c (by simp)]
  congr 1
  have := (dvol_pos h.proper hc density ['x']).ne'
  have := (dvol_pos h.proper hc density ['t']).ne'
  field_simp

theorem ParamIs.txzMass (h : ParamIs p g m L) (density : Bool) :
    IsL (p.txzMass density) g ['t','x','y','z']
      (fun c => m.probTXZ g c / dvol g density ['t','x','z'] c) := by
  obtain ⟨A, h1, h2⟩ := h.txMass density
  obtain ⟨B, h3, h4⟩ := h.ztxMass density
  obtain ⟨A', h5, h6⟩ := h2.getitem [.all, .all, .all, .na] (R := [some 't', some 'x', some 'y', none]) rfl
  obtain ⟨B', h7, h8⟩ := h4.moveaxis (src := [0]) (dst := [-1]) (R := ['t','x','y','z'].map some)
    (by decide +kernel)
  obtain ⟨r, h9, h10⟩ := h6.addL h8
    (fun c hc => div_nonneg (mul_nonneg (h.norm.probT_nonneg h.proper hc) (h.norm.probX_nonneg h.proper hc))
      (dvol_pos h.proper hc _ _).le)
    (fun c hc => div_nonneg (h.norm.probZ_nonneg h.proper hc) (dvol_pos h.proper hc _ _).le)
    (R := ['t','x','y','z'].map some) rfl
  refine ⟨r, by simp [Param.txzMass, h1, h3, h5, h7, h9], h10.congr fun c hc => ?_⟩
  beta_reduce
  rw [show (['t','x','z'] : PyStr) = ['t','x'] ++ ['z'] from rfl, dvol_append]
  congr 1
  have := (dvol_pos h.proper hc density ['t','x']).ne'
  have := (dvol_pos h.proper hc density ['z']).ne'
  unfold Ingredients.probTXZ
  field_simp

theorem ParamIs.tvxzMass (h : ParamIs p g m L) (density : Bool) :
    IsL (p.tvxzMass density) g ['t','v','x','y','z']
      (fun c => m.joint g c / dvol g density ['t','v','x','z'] c) := by
  obtain ⟨A, h1, h2⟩ := h.txzMass density
  obtain ⟨B, h3, h4⟩ := h.vtxMass density
  obtain ⟨A', h5, h6⟩ := h2.getitem [.all, .na, .all, .all, .all]
    (R := [some 't', none, some 'x', some 'y', some 'z']) rfl
  obtain ⟨B', h7, h8⟩ := h4.getitem [.all, .all, .all, .all, .na]
    (R := [some 'v', some 't', some 'x', some 'y', none]) rfl
  obtain ⟨B'', h9, h10⟩ := h8.moveaxis (src := [0]) (dst := [1])
    (R := [some 't', some 'v', some 'x', some 'y', none]) (by decide +kernel)
  obtain ⟨r, h11, h12⟩ := h10.addL h6
    (fun c hc => div_nonneg measureReal_nonneg (dvol_pos h.proper hc _ _).le)
    (fun c hc => div_nonneg (h.norm.probTXZ_nonneg h.proper hc) (dvol_pos h.proper hc _ _).le)
    (R := ['t','v','x','y','z'].map some) rfl
  refine ⟨r, by simp [Param.tvxzMass, h1, h3, h5, h7, h9, h11], h12.congr fun c hc => ?_⟩
  beta_reduce
  rw [dvol_cons g density 't' ['v','x','z'] c (by simp), dvol_cons g density 'v' ['x','z'] c (by simp),
    dvol_cons g density 't' ['x','z'] c (by simp)]
  congr 1
  have := (dvol_pos h.proper hc density ['t']).ne'
  have := (dvol_pos h.proper hc density ['v']).ne'
  have := (dvol_pos h.proper hc density ['x','z']).ne'
  unfold Ingredients.joint Ingredients.probV
  field_simp

end PKM
