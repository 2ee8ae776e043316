import Verif.VelMoments

/-! Lemmas: the velocity moments of parametric components, as seen by the callers of `get_mean`,
`get_noncentral_moment` and `get_central_moment`. -/

open scoped Classical
open MeasureTheory ProbabilityTheory

noncomputable section

namespace PKM
open Np Component

variable {p : Param} {g : Grid} {m : Ingredients} {L : ℕ → ℕ → ℝ}
  {M N R : List (Option Char)} {A B : Arr Num} {f : Cell → Num}

theorem Param.getP_self (p : Param) (w : PyStr) (density lw : Bool) : p.getP w density lw = Component.getP p.self w density lw := rfl

theorem paramMarg_noV {w : PyStr} (hw : 'v' ∉ w) (lw : Bool) : paramMarg g m L lw w = g.marg (PS g m L lw) w := by
  simp only [paramMarg, pick, hw, if_false, PS]

theorem ParamIs.weights (h : ParamIs p g m L) (lw : Bool) (hlw : lw = true → 0 < totalLight g L (m.spread g))
    (a b : PyStr) (hab : (a, b) ∈ conditionals) (ho : (a, b) ∉ ownConditionals) (hv : 'v' ∉ unionStr a b) (hb : 'v' ∉ b) :
    ∃ W, p.getP (condStr a b) false lw = .ok W ∧ MArr g ((PyStr.replaceX a ++ PyStr.replaceX b).map some) W
      (fun c => condTable (g.marg (PS g m L lw) (unionStr a b) c) (g.marg (PS g m L lw) b c) 1) := by
  obtain ⟨W, h1, h2⟩ := getP_cond_of_contract (h.contract lw hlw) false (a, b) hab (p.logP_none _ hab ho)
  obtain ⟨-, -, -, h4, h5, -⟩ := conditionals_letters _ hab
  refine ⟨W, h1, (larr_iff.1 ((isArr_cond_iff h4 h5).1 h2)).congr fun c _ => ?_⟩
  rw [paramMarg_noV hv, paramMarg_noV hb]
  rfl

theorem ParamIs.weightsT (h : ParamIs p g m L) (hl : 0 < totalLight g L (m.spread g)) :
    ∃ W, p.getP (condStr ['x'] ['t']) false true = .ok W ∧ MArr g (['x','y','t'].map some) W
      (fun c => condTable (g.marg (PS g m L true) ['t','x'] c) (g.marg (PS g m L true) ['t'] c) 1) := by
  obtain ⟨W, h1, h2⟩ := h.getP_xt_light false hl
  exact ⟨W, h1, larr_iff.1 ((isArr_cond_iff (by decide) (by decide)).1 h2)⟩

theorem ParamIs.weightsTmass (h : ParamIs p g m L) :
    ∃ W, p.getP (condStr ['x'] ['t']) false false = .ok W ∧ MArr g (['x','y','t'].map some) W
      (fun c => .fin (m.probX g c)) := by
  obtain ⟨W, h1, h2⟩ := h.getP_xt false
  exact ⟨W, h1, (larr_iff.1 ((isArr_cond_iff (by decide) (by decide)).1 h2)).congr fun c _ => by simp [dvol]⟩

theorem ncm_dispatch (p : Param) (j : ℕ) (MU : Arr Num) (lw : Bool) :
    getNoncentralMoment p.self ['v','_','t','x'] j MU lw = p.ncmVtx j MU lw ∧
    getNoncentralMoment p.self ['v','_','x'] j MU lw = p.ncmVx j MU lw ∧
    getNoncentralMoment p.self ['v','_','t'] j MU lw = p.ncmVt j MU lw ∧
    getNoncentralMoment p.self ['v'] j MU lw = p.ncmV j MU lw ∧
    getNoncentralMoment p.self ['v','_','t','x','z'] j MU lw = p.ncmVtxz j MU lw ∧
    getNoncentralMoment p.self ['v','_','t','z'] j MU lw = p.ncmVtz j MU lw ∧
    getNoncentralMoment p.self ['v','_','x','z'] j MU lw = p.ncmVxz j MU lw ∧
    getNoncentralMoment p.self ['v','_','z'] j MU lw = p.ncmVz j MU lw :=
  ⟨rfl, rfl, rfl, rfl, rfl, rfl, rfl, rfl⟩

theorem mean_dispatch (p : Param) (lw : Bool) :
    getMean p.self ['v','_','t','x'] lw = p.meanVtx lw ∧
    getMean p.self ['v','_','x'] lw = p.meanVx lw ∧
    getMean p.self ['v','_','t'] lw = p.meanVt lw ∧
    getMean p.self ['v'] lw = p.meanV lw ∧
    getMean p.self ['v','_','t','x','z'] lw = p.meanVtxz lw ∧
    getMean p.self ['v','_','t','z'] lw = p.meanVtz lw ∧
    getMean p.self ['v','_','x','z'] lw = p.meanVxz lw ∧
    getMean p.self ['v','_','z'] lw = p.meanVz lw :=
  ⟨rfl, rfl, rfl, rfl, rfl, rfl, rfl, rfl⟩

/-- Moments about `a` given the conditioners of a case. -/
theorem ParamIs.ncm_nested (h : ParamIs p g m L) (lw : Bool) (hlw : lw = true → 0 < totalLight g L (m.spread g)) (j : ℕ)
    {q : Bool × PyStr × List ℤ} (hq : q ∈ velCases) (hqt : q.2.1 = ['t'] → lw = true) {MU : Arr Num} {al : List ℕ → Num}
    {a : List ℕ → ℝ} (hMU : IsArr g q.2.1 MU (fun c => al (coords q.2.1 c)))
    (hal : ∀ c, g.Has c → g.marg (PS g m L lw) q.2.1 c ≠ 0 → al (coords q.2.1 c) = .fin (a (coords q.2.1 c))) :
    ∃ r, getNoncentralMoment p.self (condStr ['v'] q.2.1) j MU lw = .ok r ∧ IsArr g q.2.1 r (fun c =>
      condTable (g.marg (fun d => PS g m L lw d *
        gmom p.f2 (m.mu d.t d.x d.y) (m.sig d.t d.x d.y) (a (coords q.2.1 c)) j) q.2.1 c)
        (g.marg (PS g m L lw) q.2.1 c) 1) := by
  obtain ⟨-, dx, dt, -, -, dtz, dxz, dz⟩ := ncm_dispatch p j MU lw
  have hM := hMU.marr (velCases_facts q hq).2.1
  have hq' := hq
  simp only [velCases, List.mem_cons, List.not_mem_nil, or_false] at hq'
  rcases hq' with rfl | rfl | rfl | rfl | rfl
  · obtain ⟨W, w1, w2⟩ := h.weights lw hlw ['t'] ['x'] (by decide +kernel) (by decide +kernel) (by decide) (by decide)
    obtain ⟨r, r1, r2⟩ := h.momentNested lw j hq w2 hM rfl hal
    exact ⟨r, by simp only [condStr, List.cons_append, List.nil_append] at w1 ⊢; simp only [dx, Param.ncmVx, w1, Py.ok_bind, r1], r2⟩
  · obtain rfl := hqt rfl
    obtain ⟨W, w1, w2⟩ := h.weightsT (hlw rfl)
    obtain ⟨W', w3, w4⟩ := w2.moveaxis (src := [-1]) (dst := [0]) (R := ['t','x','y'].map some) (by decide +kernel)
    obtain ⟨M', m1, m2⟩ := hM.getitem [.all, .na, .na] (R := [some 't', none, none]) rfl
    obtain ⟨r, r1, r2⟩ := h.momentNested true j hq w4 m2 rfl hal
    exact ⟨r, by simp only [condStr, List.cons_append, List.nil_append] at w1 ⊢; simp only [dt, Param.ncmVt, w1, w3, m1, Py.ok_bind, r1], r2⟩
  · obtain ⟨W, w1, w2⟩ := h.weights lw hlw ['x'] ['t','z'] (by decide +kernel) (by decide +kernel) (by decide) (by decide)
    obtain ⟨W', w3, w4⟩ := w2.moveaxis (src := [-2]) (dst := [0]) (R := ['t','x','y','z'].map some) (by decide +kernel)
    obtain ⟨M', m1, m2⟩ := hM.getitem [.all, .na, .na, .all] (R := [some 't', none, none, some 'z']) rfl
    obtain ⟨r, r1, r2⟩ := h.momentNested lw j hq w4 m2 rfl hal
    exact ⟨r, by simp only [condStr, List.cons_append, List.nil_append] at w1 ⊢; simp only [dtz, Param.ncmVtz, w1, w3, m1, Py.ok_bind, r1], r2⟩
  · obtain ⟨W, w1, w2⟩ := h.weights lw hlw ['t'] ['x','z'] (by decide +kernel) (by decide +kernel) (by decide) (by decide)
    obtain ⟨M', m1, m2⟩ := hM.getitem [.na] (R := [none, some 'x', some 'y', some 'z']) rfl
    obtain ⟨r, r1, r2⟩ := h.momentNested lw j hq w2 m2 rfl hal
    exact ⟨r, by simp only [condStr, List.cons_append, List.nil_append] at w1 ⊢; simp only [dxz, Param.ncmVxz, w1, m1, Py.ok_bind, r1], r2⟩
  · obtain ⟨W, w1, w2⟩ := h.weights lw hlw ['t','x'] ['z'] (by decide +kernel) (by decide +kernel) (by decide) (by decide)
    obtain ⟨M', m1, m2⟩ := hM.getitem [.na, .na, .na] (R := [none, none, none, some 'z']) rfl
    obtain ⟨r, r1, r2⟩ := h.momentNested lw j hq w2 m2 rfl hal
    exact ⟨r, by simp only [condStr, List.cons_append, List.nil_append] at w1 ⊢; simp only [dz, Param.ncmVz, w1, m1, Py.ok_bind, r1], r2⟩

theorem ParamIs.mean_nested (h : ParamIs p g m L) (lw : Bool) (hlw : lw = true → 0 < totalLight g L (m.spread g))
    {q : Bool × PyStr × List ℤ} (hq : q ∈ velCases) (hqt : q.2.1 = ['t'] → lw = true) :
    ∃ r, getMean p.self (condStr ['v'] q.2.1) lw = .ok r ∧ IsArr g q.2.1 r (fun c =>
      condTable (g.marg (fun d => PS g m L lw d * m.mu d.t d.x d.y) q.2.1 c) (g.marg (PS g m L lw) q.2.1 c) 1) := by
  obtain ⟨-, dx, dt, -, -, dtz, dxz, dz⟩ := mean_dispatch p lw
  obtain ⟨f1, f2, -, -, -, -, -, -, -, -, f10⟩ := velCases_facts q hq
  have hq' := hq
  simp only [velCases, List.mem_cons, List.not_mem_nil, or_false] at hq'
  obtain ⟨E, e1, e2⟩ := h.meanVtx lw
  obtain ⟨F, k1, k2⟩ := h.meanVtxz lw
  rcases hq' with rfl | rfl | rfl | rfl | rfl
  · obtain ⟨W, w1, w2⟩ := h.weights lw hlw ['t'] ['x'] (by decide +kernel) (by decide +kernel) (by decide) (by decide)
    obtain ⟨X, r, r1, r2, r3⟩ := meanNested h.proper f1 f2 f10 (axes := [0]) (U := ['t','x','y']) e2 w2 (by decide +kernel) (by decide +kernel)
      (by decide +kernel) (by decide +kernel)
    exact ⟨r, by simp only [condStr, List.cons_append, List.nil_append] at w1 ⊢; simp only [dx, Param.meanVx, e1, w1, Py.ok_bind, r1, r2], r3⟩
  · obtain rfl := hqt rfl
    obtain ⟨W, w1, w2⟩ := h.weightsT (hlw rfl)
    obtain ⟨E', w3, w4⟩ := e2.moveaxis (src := [0]) (dst := [-1]) (R := ['x','y','t'].map some) (by decide +kernel)
    obtain ⟨X, r, r1, r2, r3⟩ := meanNested h.proper f1 f2 f10 (axes := [0, 1]) (U := ['x','y','t']) w4 w2 (by decide +kernel) (by decide +kernel)
      (by decide +kernel) (by decide +kernel)
    exact ⟨r, by simp only [condStr, List.cons_append, List.nil_append] at w1 ⊢; simp only [dt, Param.meanVt, e1, w1, w3, Py.ok_bind, r1, r2], r3⟩
  · obtain ⟨W, w1, w2⟩ := h.weights lw hlw ['x'] ['t','z'] (by decide +kernel) (by decide +kernel) (by decide) (by decide)
    obtain ⟨E', w3, w4⟩ := k2.moveaxis (src := [0]) (dst := [2]) (R := ['x','y','t','z'].map some) (by decide +kernel)
    obtain ⟨X, r, r1, r2, r3⟩ := meanNested h.proper f1 f2 f10 (axes := [0, 1]) (U := ['x','y','t','z']) w4 w2 (by decide +kernel) (by decide +kernel)
      (by decide +kernel) (by decide +kernel)
    exact ⟨r, by simp only [condStr, List.cons_append, List.nil_append] at w1 ⊢; simp only [dtz, Param.meanVtz, k1, w1, w3, Py.ok_bind, r1, r2], r3⟩
  · obtain ⟨W, w1, w2⟩ := h.weights lw hlw ['t'] ['x','z'] (by decide +kernel) (by decide +kernel) (by decide) (by decide)
    obtain ⟨X, r, r1, r2, r3⟩ := meanNested h.proper f1 f2 f10 (axes := [0]) (U := ['t','x','y','z']) k2 w2 (by decide +kernel) (by decide +kernel)
      (by decide +kernel) (by decide +kernel)
    exact ⟨r, by simp only [condStr, List.cons_append, List.nil_append] at w1 ⊢; simp only [dxz, Param.meanVxz, k1, w1, Py.ok_bind, r1, r2], r3⟩
  · obtain ⟨W, w1, w2⟩ := h.weights lw hlw ['t','x'] ['z'] (by decide +kernel) (by decide +kernel) (by decide) (by decide)
    obtain ⟨X, r, r1, r2, r3⟩ := meanNested h.proper f1 f2 f10 (axes := [0, 1, 2]) (U := ['t','x','y','z']) k2 w2 (by decide +kernel) (by decide +kernel)
      (by decide +kernel) (by decide +kernel)
    exact ⟨r, by simp only [condStr, List.cons_append, List.nil_append] at w1 ⊢; simp only [dz, Param.meanVz, k1, w1, Py.ok_bind, r1, r2], r3⟩

/-! ### Conditioners whose weights are always finite -/

/-- Moments with finite weights. -/
theorem ParamIs.momentPlain (h : ParamIs p g m L) (lw : Bool) (j : ℕ) {b : PyStr} (hb : DistChars b) (hbv : 'v' ∉ b)
    {W MU : Arr Num} {w : Cell → ℝ} {a : List ℕ → ℝ} {S : List Char} {axes : List ℤ} {MW : List (Option Char)}
    (hMW : MW = ['t','x','y'].map some ∨ MW = [some 't', none, none]) (hW : MArr g MW W (fun c => .fin (w c))) (hw : ∀ c v, w { c with v := v } = w c)
    (hMU : MArr g N MU (fun c => .fin (a (coords b c))))
    (hN : joinR (['t','x','y'].map some).reverse N.reverse = some (['t','x','y'].map some).reverse)
    (hr : removable (['t','x','y'] ++ ['v']) S)
    (hax : axesD (['t','x','y'] ++ ['v']) axes S) (hV : (['t','x','y'] ++ ['v']).diff S = PyStr.replaceX b ++ ['v'])
    (hVl : lettersOK (PyStr.replaceX b ++ ['v'])) (hSv : 'v' ∉ S) (hlast : axesD (PyStr.replaceX b ++ ['v']) [-1] ['v'])
    (hdiff : (PyStr.replaceX b ++ ['v']).diff ['v'] = PyStr.replaceX b)
    (hx : ∀ u ∈ S, AxisChar u ∧ u ∉ PyStr.replaceX b) :
    ∃ r, p.momentV axes false W j MU lw = .ok r ∧ IsArr g b r (fun c =>
      .fin (sumOver g S (fun d => w d * gmom p.f2 (m.mu d.t d.x d.y) (m.sig d.t d.x d.y) (a (coords b c)) j) c)) := by
  obtain ⟨r, h1, h2⟩ := h.momentV' false lw j hW hMU (by rcases hMW with rfl | rfl <;> rfl)
    (by rcases hMW with rfl | rfl <;> rfl) (by rcases hMW with rfl | rfl <;> decide) hN (fun c v => by rw [hw]) (fun c v => by rw [coords_noV hbv])
    hr hax hV hVl hSv hlast hdiff
  refine ⟨r, h1, MArr.isArr hb (h2.congr fun c hc => ?_)⟩
  have := momV_eval (m := m) (f2 := p.f2) (j := j) (W := w) (D := fun _ => 1) h.proper (S := S)
    (al := fun c => .fin (a (coords b c))) (a := a (coords b c)) (c := c)
    (fun u hu d i => by rw [coords_setL hb (hx u hu).1 (hx u hu).2]) (fun _ _ _ _ => rfl) (fun _ => rfl)
  simp only [condTable, one_ne_zero, if_false, div_one] at this
  exact this

/-- Given age and position. -/
theorem ParamIs.ncm_tx (h : ParamIs p g m L) (lw : Bool) (j : ℕ) {MU : Arr Num} {a : List ℕ → ℝ}
    (hMU : IsArr g ['t','x'] MU (fun c => .fin (a (coords ['t','x'] c)))) :
    ∃ r, p.ncmVtx j MU lw = .ok r ∧ IsArr g ['t','x'] r (fun c =>
      .fin (gmom p.f2 (m.mu c.t c.x c.y) (m.sig c.t c.x c.y) (a (coords ['t','x'] c)) j)) := by
  obtain ⟨d, d1, d2, -⟩ := volumeElement_plain h.cubeIs h.proper.nx h.proper.ny (w := ['t','x']) (by decide)
  have hW : MArr g [some 't', none, none] (full d.shape (.fin 1)) (fun _ => .fin 1) := by
    refine ⟨?_, fun _ _ => rfl⟩
    rw [show (full d.shape (Num.fin 1)).shape = d.shape from rfl, d2]
    rfl
  obtain ⟨r, r1, r2⟩ := h.momentPlain lw j (b := ['t','x']) (by decide) (by decide) (S := []) (axes := []) (w := fun _ => 1)
    (Or.inr rfl) hW (fun _ _ => rfl) (hMU.marr (by decide)) rfl (by simp [removable]) (by decide +kernel)
    (by decide +kernel) (by decide +kernel) (by decide) (by decide +kernel) (by decide +kernel) (by simp)
  refine ⟨r, by simp only [Param.ncmVtx, d1, Py.ok_bind, r1], r2.congr fun c _ => ?_⟩
  simp [sumOver]

/-- Without conditioners. -/
theorem ParamIs.ncm_v (h : ParamIs p g m L) (lw : Bool) (hlw : lw = true → 0 < totalLight g L (m.spread g)) (j : ℕ)
    {MU : Arr Num} {a : List ℕ → ℝ} (hMU : IsArr g [] MU (fun _ => .fin (a []))) :
    ∃ r, p.ncmV j MU lw = .ok r ∧ IsArr g [] r (fun _ => .fin (g.sumCells (fun d => PS g m L lw d *
      gmom p.f2 (m.mu d.t d.x d.y) (m.sig d.t d.x d.y) (a []) j))) := by
  obtain ⟨W, w1, w2⟩ := getP_marg_of_contract (h.contract lw hlw) false ['t','x'] (by decide)
  rw [paramMarg_noV (by decide)] at w2
  have w3 : MArr g (['t','x','y'].map some) W (fun c => .fin (g.marg (PS g m L lw) ['t','x'] c)) :=
    (IsArr.marr (by decide) w2).congr fun c _ => by simp [dvol]
  obtain ⟨r, r1, r2⟩ := h.momentPlain lw j (b := []) (by decide) (by decide) (S := ['y','x','t']) (axes := [0, 1, 2])
    (Or.inl rfl) w3 (fun c v => by simp only [Grid.marg, coords_noV (w := ['t','x']) (by decide)])
    (hMU.marr (by decide)) rfl (by decide +kernel) (by decide +kernel)
    (by decide +kernel) (by decide +kernel) (by decide) (by decide +kernel) (by decide +kernel)
    (by unfold AxisChar; decide +kernel)
  refine ⟨r, ?_, r2.congr fun c hc => ?_⟩
  · have w1' : p.getP ['t','x'] false lw = .ok W := w1
    simp only [Param.ncmV, w1', Py.ok_bind, r1]
  · have hG : OnTX (fun d => gmom p.f2 (m.mu d.t d.x d.y) (m.sig d.t d.x d.y) (a []) j) := fun c d hcd => by
      simp [coords, coord1] at hcd; simp [hcd]
    rw [← sumOver_marg_total g _ (w := ['t','x']) (by decide) hc]
    congr 1
    refine sumOver_congr _ (by unfold AxisChar; decide +kernel) hc fun d _ => ?_
    exact marg_onTX hG false d

/-- Mass-weighted, given age: the weights are `p(x|t)` itself. -/
theorem ParamIs.ncm_t (h : ParamIs p g m L) (j : ℕ) {MU : Arr Num} {a : List ℕ → ℝ}
    (hMU : IsArr g ['t'] MU (fun c => .fin (a (coords ['t'] c)))) :
    ∃ r, p.ncmVt j MU false = .ok r ∧ IsArr g ['t'] r (fun c => .fin (∑ x : Fin g.nx, ∑ y : Fin g.ny,
      m.probX g { c with x := x, y := y } *
        gmom p.f2 (m.mu c.t x y) (m.sig c.t x y) (a (coords ['t'] c)) j)) := by
  obtain ⟨W, w1, w2⟩ := h.weightsTmass
  obtain ⟨W', w3, w4⟩ := w2.moveaxis (src := [-1]) (dst := [0]) (R := ['t','x','y'].map some) (by decide +kernel)
  obtain ⟨M', m1, m2⟩ := (hMU.marr (by decide)).getitem [.all, .na, .na] (R := [some 't', none, none]) rfl
  obtain ⟨r, r1, r2⟩ := h.momentPlain false j (b := ['t']) (by decide) (by decide) (S := ['y','x']) (axes := [1, 2])
    (Or.inl rfl) w4 (fun c v => rfl) m2 rfl (by decide +kernel) (by decide +kernel)
    (by decide +kernel) (by decide +kernel) (by decide) (by decide +kernel) (by decide +kernel)
    (by unfold AxisChar; decide +kernel)
  refine ⟨r, ?_, r2.congr fun c hc => rfl⟩
  simp only [condStr, List.cons_append, List.nil_append] at w1
  simp only [Param.ncmVt, w1, w3, m1, Py.ok_bind, r1]

/-- Means without conditioners and given age. -/
theorem ParamIs.mean_v (h : ParamIs p g m L) (lw : Bool) (hlw : lw = true → 0 < totalLight g L (m.spread g)) :
    ∃ r, p.meanV lw = .ok r ∧ IsArr g [] r (fun _ => .fin (g.sumCells (fun d => PS g m L lw d * m.mu d.t d.x d.y))) := by
  obtain ⟨W, w1, w2⟩ := getP_marg_of_contract (h.contract lw hlw) false ['t','x'] (by decide)
  rw [paramMarg_noV (by decide)] at w2
  have w3 : MArr g (['t','x','y'].map some) W (fun c => .fin (g.marg (PS g m L lw) ['t','x'] c)) :=
    (IsArr.marr (by decide) w2).congr fun c _ => by simp [dvol]
  obtain ⟨E, e1, e2⟩ := h.meanVtx lw
  obtain ⟨X, x1, x2⟩ := MArr.bop (R := ['t','x','y'].map some) (· * ·) e2 w3 rfl
  have x3 : MArr g (['t','x','y'].map some) X (fun c => .fin (m.mu c.t c.x c.y * g.marg (PS g m L lw) ['t','x'] c)) := x2
  have c0 : g.Has ⟨0, 0, 0, 0, 0⟩ := ⟨h.proper.nt, h.proper.nv, h.proper.nx, h.proper.ny, h.proper.nz⟩
  have hs := x3.sumAll (by decide) c0
  have w1' : p.getP ['t','x'] false lw = .ok W := w1
  refine ⟨_, by simp only [Param.meanV, e1, w1', Np.mul, x1, Py.ok_bind]; rfl, ?_⟩
  rw [hs]
  refine ⟨rfl, fun c hc => ?_⟩
  have hG : OnTX (fun d => m.mu d.t d.x d.y) := fun c d hcd => by
    simp [coords, coord1] at hcd; simp [hcd]
  simp only [Np.scalar]
  rw [← sumOver_marg_total g _ (w := ['t','x']) (by decide) c0]
  congr 1
  refine sumOver_congr _ (by unfold AxisChar; decide +kernel) c0 fun d _ => ?_
  rw [mul_comm]
  exact marg_onTX hG false d

theorem ParamIs.mean_t (h : ParamIs p g m L) :
    ∃ r, p.meanVt false = .ok r ∧ IsArr g ['t'] r (fun c => .fin (∑ x : Fin g.nx, ∑ y : Fin g.ny,
      m.probX g { c with x := x, y := y } * m.mu c.t x y)) := by
  obtain ⟨W, w1, w2⟩ := h.weightsTmass
  obtain ⟨E, e1, e2⟩ := h.meanVtx false
  obtain ⟨E', w3, w4⟩ := e2.moveaxis (src := [0]) (dst := [-1]) (R := ['x','y','t'].map some) (by decide +kernel)
  obtain ⟨X, x1, x2⟩ := MArr.bop (R := ['x','y','t'].map some) (· * ·) w4 w2 rfl
  have x3 : MArr g (['x','y','t'].map some) X (fun c => .fin (m.mu c.t c.x c.y * m.probX g c)) := x2
  obtain ⟨r, r1, r2⟩ := x3.sumL (S := ['y','x']) (V := ['t']) (axes := [0, 1]) (by decide) (by decide +kernel)
    (by decide +kernel) (by decide +kernel)
  refine ⟨r, ?_, MArr.isArr (w := ['t']) (by decide) (r2.congr fun c hc => ?_)⟩
  · simp only [condStr, List.cons_append, List.nil_append] at w1
    simp only [Param.meanVt, e1, w1, w3, Np.mul, x1, Py.ok_bind, r1]
  · rw [sumOver_fin]
    congr 1
    show ∑ x : Fin g.nx, ∑ y : Fin g.ny, _ = _
    refine Finset.sum_congr rfl fun x _ => Finset.sum_congr rfl fun y _ => ?_
    rw [mul_comm]
    rfl

/-- Given age, position and metallicity: only the centre at the first metallicity is used. -/
theorem ParamIs.ncm_txz (h : ParamIs p g m L) (lw : Bool) (j : ℕ) {MU : Arr Num} {a : List ℕ → ℝ}
    (hMU : IsArr g ['t','x','z'] MU (fun c => .fin (a (coords ['t','x','z'] c)))) :
    ∃ r, p.ncmVtxz j MU lw = .ok r ∧ IsArr g ['t','x','z'] r (fun c =>
      .fin (gmom p.f2 (m.mu c.t c.x c.y) (m.sig c.t c.x c.y) (a [c.t, c.x, c.y, 0]) j)) := by
  have hz := h.proper.nz
  have hs : MU.shape = [g.nt, g.nx, g.ny, g.nz] := hMU.1
  have hM : IsArr g ['t','x'] ⟨[g.nt, g.nx, g.ny], fun i => MU.get (i ++ [0])⟩ (fun c => .fin (a (coords ['t','x'] c ++ [0]))) := by
    refine ⟨rfl, fun c hc => ?_⟩
    have := hMU.2 { c with z := 0 } ⟨hc.1, hc.2.1, hc.2.2.1, hc.2.2.2.1, hz⟩
    exact this
  have e : getitem [.all, .all, .all, .at 0] MU = .ok ⟨[g.nt, g.nx, g.ny], fun i => MU.get (ixIdx [.all, .all, .all, .at 0] MU.shape i)⟩ := by
    unfold getitem
    rw [hs]
    simp [ixShape, hz]
  have hM' : IsArr g ['t','x'] ⟨[g.nt, g.nx, g.ny], fun i => MU.get (ixIdx [.all, .all, .all, .at 0] MU.shape i)⟩
      (fun c => .fin (a (coords ['t','x'] c ++ [0]))) := by
    refine ⟨rfl, fun c hc => ?_⟩
    have := hM.2 c hc
    rw [hs]
    exact this
  obtain ⟨r, r1, r2⟩ := h.ncm_tx lw j (a := fun i => a (i ++ [0])) hM'
  obtain ⟨q, q1, q2⟩ := h.spreadZ (IsArr.marr (by decide) r2)
  exact ⟨q, by simp only [Param.ncmVtxz, e, r1, q1, Py.ok_bind], MArr.isArr (by decide) q2⟩

/-! ### All conditioners -/

def velConds : List PyStr := [[], ['t'], ['x'], ['z'], ['t','x'], ['t','z'], ['x','z'], ['t','x','z']]

theorem velConds_of_valid {b : PyStr} (h : ValidPair ['v'] b) : b ∈ velConds := by
  rcases h with ⟨rfl, -⟩ | h
  · decide
  · have : ∀ q ∈ conditionals, q.1 = ['v'] → q.2 ∈ velConds := by decide +kernel
    exact this _ h rfl

/-- Expectation of a function of age and pixel. -/
def velVal (g : Grid) (m : Ingredients) (L : ℕ → ℕ → ℝ) (lw : Bool) (b : PyStr) (G : Cell → ℝ) (c : Cell) : ℝ :=
  g.marg (fun d => PS g m L lw d * G d) b c / g.marg (PS g m L lw) b c

/-- The array holds these expectations, where there are any stars. -/
def IsVel (g : Grid) (m : Ingredients) (L : ℕ → ℕ → ℝ) (lw : Bool) (b : PyStr) (r : Arr Num) (G : Cell → Cell → ℝ) : Prop :=
  r.shape = g.shapeOf b ∧ ∀ c, g.Has c → g.marg (PS g m L lw) b c ≠ 0 →
    r.get (coords b c) = .fin (velVal g m L lw b (G c) c)

theorem IsVel.table {b : PyStr} {r : Arr Num} {lw : Bool} {G : Cell → Cell → ℝ}
    (h : IsArr g b r (fun c => condTable (g.marg (fun d => PS g m L lw d * G c d) b c) (g.marg (PS g m L lw) b c) 1)) :
    IsVel g m L lw b r G :=
  ⟨h.1, fun c hc h0 => by rw [h.2 c hc]; simp [condTable, h0, velVal]⟩

theorem IsVel.plain {zIn : Bool} {r : Arr Num} {lw : Bool} {G : Cell → Cell → ℝ} (hG : ∀ c, OnTX (G c))
    (h : IsArr g (wU zIn) r (fun c => .fin (G c c))) : IsVel g m L lw (wU zIn) r G :=
  ⟨h.1, fun c hc h0 => by
    rw [h.2 c hc, velVal, ← marg_onTX (hG c), mul_div_cancel_left₀ _ h0]⟩

theorem PS_total (h : ParamIs p g m L) (lw : Bool) (hlw : lw = true → 0 < totalLight g L (m.spread g)) :
    g.sumCells (PS g m L lw) = 1 := by
  have c0 : g.Has ⟨0, 0, 0, 0, 0⟩ := ⟨h.proper.nt, h.proper.nv, h.proper.nx, h.proper.ny, h.proper.nz⟩
  cases lw with
  | false =>
    show g.sumCells (m.spread g) = 1
    rw [← sumOver_marg_total g _ (w := ['t']) (by decide) c0,
      sumOver_congr (f' := m.probT g) _ (by unfold AxisChar; decide +kernel) c0 (fun d hd => marg_spread_t h.norm h.proper hd)]
    exact h.norm.sumT
  | true =>
    have h0 := hlw rfl
    have : ∀ c, PS g m L true c = (1 / totalLight g L (m.spread g)) * (L c.t c.z * m.spread g c) := by
      intro c; simp only [PS, wtdP, if_true, Grid.lightP, totalLight]; ring
    have e : g.sumCells (PS g m L true) = (1 / totalLight g L (m.spread g)) * totalLight g L (m.spread g) := by
      conv_rhs => rhs; unfold totalLight
      simp only [Grid.sumCells, this, Finset.mul_sum]
    rw [e, one_div, inv_mul_cancel₀ h0.ne']

theorem probX_val (h : ParamIs p g m L) {G : Cell → ℝ} (hG : OnTX G) {c : Cell} (hc : g.Has c)
    (h0 : g.marg (PS g m L false) ['t'] c ≠ 0) :
    ∑ x : Fin g.nx, ∑ y : Fin g.ny, m.probX g { c with x := x, y := y } * G { c with x := x, y := y } =
      velVal g m L false ['t'] G c := by
  have e1 : g.marg (PS g m L false) ['t'] c = m.probT g c := marg_spread_t h.norm h.proper hc
  unfold velVal
  rw [e1] at h0 ⊢
  rw [eq_div_iff h0, ← sumOver_marg_nested g _ (w := ['t','x']) (by decide +kernel) hc,
    sumOver_congr (f' := fun d => m.probT g d * m.probX g d * G d) _ (by unfold AxisChar; decide +kernel) hc]
  · show _ = ∑ x : Fin g.nx, ∑ y : Fin g.ny, m.probT g c * m.probX g { c with x := x, y := y } * G { c with x := x, y := y }
    simp only [Finset.sum_mul]
    refine Finset.sum_congr rfl fun x _ => Finset.sum_congr rfl fun y _ => by ring
  · intro d hd
    refine (marg_onTX (P := PS g m L false) hG false d).symm.trans ?_
    have : g.marg (PS g m L false) (wU false) d = m.probT g d * m.probX g d := marg_spread_tx h.norm h.proper hd
    rw [this]

theorem gmom_onTX (m : Ingredients) (f2 a : ℝ) (j : ℕ) : OnTX (fun d => gmom f2 (m.mu d.t d.x d.y) (m.sig d.t d.x d.y) a j) :=
  fun c d hcd => by simp [coords, coord1] at hcd; simp [hcd]

theorem mu_onTX (m : Ingredients) : OnTX (fun d => m.mu d.t d.x d.y) :=
  fun c d hcd => by simp [coords, coord1] at hcd; simp [hcd]

/-- Moments about an array of centres; the centres need be finite only where there are stars. -/
theorem ParamIs.ncm_all (h : ParamIs p g m L) (lw : Bool) (hlw : lw = true → 0 < totalLight g L (m.spread g)) (j : ℕ)
    {b : PyStr} (hb : ValidPair ['v'] b) {MU : Arr Num} {a : List ℕ → ℝ} (hs : MU.shape = g.shapeOf b)
    (hal : ∀ c, g.Has c → g.marg (PS g m L lw) b c ≠ 0 ∨ b ∈ [[], ['t','x'], ['t','x','z']] ∨ (b = ['t'] ∧ lw = false) →
      MU.get (coords b c) = .fin (a (coords b c)))
    (hz : b = ['t','x','z'] → ∀ c, g.Has c → a (coords b c) = a (coords b { c with z := 0 })) :
    ∃ r, getNoncentralMoment p.self (distStr ['v'] b) j MU lw = .ok r ∧ IsVel g m L lw b r (fun c d =>
      gmom p.f2 (m.mu d.t d.x d.y) (m.sig d.t d.x d.y) (a (coords b c)) j) := by
  obtain ⟨dtx, -, dt, dn, dtxz, -, -, -⟩ := ncm_dispatch p j MU lw
  have hM : IsArr g b MU (fun c => MU.get (coords b c)) := ⟨hs, fun c hc => rfl⟩
  have nest : ∀ q ∈ velCases, b = q.2.1 → (q.2.1 = ['t'] → lw = true) →
      ∃ r, getNoncentralMoment p.self (distStr ['v'] b) j MU lw = .ok r ∧ IsVel g m L lw b r (fun c d =>
      gmom p.f2 (m.mu d.t d.x d.y) (m.sig d.t d.x d.y) (a (coords b c)) j) := by
    rintro q hq rfl hqt
    obtain ⟨r, r1, r2⟩ := h.ncm_nested lw hlw j hq hqt (al := MU.get) (a := a) hM (fun c hc h0 => hal c hc (Or.inl h0))
    have hne : q.2.1 ≠ [] := (by decide +kernel : ∀ q ∈ velCases, q.2.1 ≠ []) q hq
    exact ⟨r, by rw [distStr, if_neg hne]; exact r1, IsVel.table r2⟩
  have hb' := velConds_of_valid hb
  simp only [velConds, List.mem_cons, List.not_mem_nil, or_false] at hb'
  rcases hb' with rfl | rfl | rfl | rfl | rfl | rfl | rfl | rfl
  · obtain ⟨r, r1, r2⟩ := h.ncm_v lw hlw j (a := a) (hM.congr fun c hc => hal c hc (Or.inr (Or.inl (by decide))))
    refine ⟨r, dn.trans r1, r2.1, fun c hc h0 => ?_⟩
    rw [r2.2 c hc, velVal, marg_nil, marg_nil, PS_total h lw hlw, div_one]
    rfl
  · cases lw with
    | true => exact nest (false, ['t'], [1, 2]) (by decide +kernel) rfl (fun _ => rfl)
    | false =>
      obtain ⟨r, r1, r2⟩ := h.ncm_t j (a := a) (hM.congr fun c hc => hal c hc (Or.inr (Or.inr ⟨rfl, rfl⟩)))
      refine ⟨r, dt.trans r1, r2.1, fun c hc h0 => ?_⟩
      rw [r2.2 c hc, ← probX_val h (gmom_onTX m _ _ _) hc h0]
  · exact nest (false, ['x'], [0]) (by decide +kernel) rfl (by simp)
  · exact nest (true, ['z'], [0, 1, 2]) (by decide +kernel) rfl (by simp)
  · obtain ⟨r, r1, r2⟩ := h.ncm_tx lw j (a := a) (hM.congr fun c hc => hal c hc (Or.inr (Or.inl (by decide))))
    exact ⟨r, dtx.trans r1, IsVel.plain (zIn := false) (G := fun c d => gmom p.f2 (m.mu d.t d.x d.y) (m.sig d.t d.x d.y)
      (a (coords ['t','x'] c)) j) (fun c => gmom_onTX m _ _ _) r2⟩
  · exact nest (true, ['t','z'], [1, 2]) (by decide +kernel) rfl (by simp)
  · exact nest (true, ['x','z'], [0]) (by decide +kernel) rfl (by simp)
  · obtain ⟨r, r1, r2⟩ := h.ncm_txz lw j (a := a) (hM.congr fun c hc => hal c hc (Or.inr (Or.inl (by decide))))
    refine ⟨r, dtxz.trans r1, IsVel.plain (zIn := true) (G := fun c d => gmom p.f2 (m.mu d.t d.x d.y) (m.sig d.t d.x d.y)
      (a (coords ['t','x','z'] c)) j) (fun c => gmom_onTX m _ _ _) (r2.congr fun c hc => ?_)⟩
    beta_reduce
    rw [hz rfl c hc]
    rfl

theorem ParamIs.mean_all (h : ParamIs p g m L) (lw : Bool) (hlw : lw = true → 0 < totalLight g L (m.spread g))
    {b : PyStr} (hb : ValidPair ['v'] b) :
    ∃ r, getMean p.self (distStr ['v'] b) lw = .ok r ∧ IsVel g m L lw b r (fun _ d => m.mu d.t d.x d.y) ∧
      ∀ c, g.Has c → b ∈ [[], ['t','x'], ['t','x','z']] ∨ (b = ['t'] ∧ lw = false) →
        (∃ y, r.get (coords b c) = .fin y) ∧ (b = ['t','x'] ∨ b = ['t','x','z'] → r.get (coords b c) = .fin (m.mu c.t c.x c.y)) := by
  obtain ⟨dtx, -, dt, dn, dtxz, -, -, -⟩ := mean_dispatch p lw
  have nest : ∀ q ∈ velCases, b = q.2.1 → (q.2.1 = ['t'] → lw = true) →
      ∃ r, getMean p.self (distStr ['v'] b) lw = .ok r ∧ IsVel g m L lw b r (fun _ d => m.mu d.t d.x d.y) ∧
      ∀ c, g.Has c → b ∈ [[], ['t','x'], ['t','x','z']] ∨ (b = ['t'] ∧ lw = false) →
        (∃ y, r.get (coords b c) = .fin y) ∧ (b = ['t','x'] ∨ b = ['t','x','z'] → r.get (coords b c) = .fin (m.mu c.t c.x c.y)) := by
    rintro q hq rfl hqt
    obtain ⟨r, r1, r2⟩ := h.mean_nested lw hlw hq hqt
    have hne : q.2.1 ≠ [] := by clear r1 r2 hqt hb; revert q; decide +kernel
    have hne' : q.2.1 ∉ [[], ['t','x'], ['t','x','z']] := by clear r1 r2 hqt hb hne; revert q; decide +kernel
    refine ⟨r, by rw [distStr, if_neg hne]; exact r1, IsVel.table (G := fun _ d => m.mu d.t d.x d.y) r2, fun c hc hh => ?_⟩
    rcases hh with hh | ⟨h1, h2⟩
    · exact absurd hh hne'
    · rw [hqt h1] at h2; simp at h2
  have hb' := velConds_of_valid hb
  simp only [velConds, List.mem_cons, List.not_mem_nil, or_false] at hb'
  rcases hb' with rfl | rfl | rfl | rfl | rfl | rfl | rfl | rfl
  · obtain ⟨r, r1, r2⟩ := h.mean_v lw hlw
    refine ⟨r, dn.trans r1, ⟨r2.1, fun c hc h0 => ?_⟩, fun c hc _ => ⟨⟨_, r2.2 c hc⟩, by simp⟩⟩
    rw [r2.2 c hc, velVal, marg_nil, marg_nil, PS_total h lw hlw, div_one]
  · cases lw with
    | true => exact nest (false, ['t'], [1, 2]) (by decide +kernel) rfl (fun _ => rfl)
    | false =>
      obtain ⟨r, r1, r2⟩ := h.mean_t
      refine ⟨r, dt.trans r1, ⟨r2.1, fun c hc h0 => ?_⟩, fun c hc _ => ⟨⟨_, r2.2 c hc⟩, by simp⟩⟩
      rw [r2.2 c hc, ← probX_val h (mu_onTX m) hc h0]
  · exact nest (false, ['x'], [0]) (by decide +kernel) rfl (by simp)
  · exact nest (true, ['z'], [0, 1, 2]) (by decide +kernel) rfl (by simp)
  · obtain ⟨r, r1, r2⟩ := h.meanVtx lw
    have r3 := MArr.isArr (w := ['t','x']) (by decide) r2
    exact ⟨r, dtx.trans r1, IsVel.plain (zIn := false) (G := fun _ d => m.mu d.t d.x d.y) (fun c => mu_onTX m) r3,
      fun c hc _ => ⟨⟨_, r3.2 c hc⟩, fun _ => r3.2 c hc⟩⟩
  · exact nest (true, ['t','z'], [1, 2]) (by decide +kernel) rfl (by simp)
  · exact nest (true, ['x','z'], [0]) (by decide +kernel) rfl (by simp)
  · obtain ⟨r, r1, r2⟩ := h.meanVtxz lw
    have r3 := MArr.isArr (w := ['t','x','z']) (by decide) r2
    exact ⟨r, dtxz.trans r1, IsVel.plain (zIn := true) (G := fun _ d => m.mu d.t d.x d.y) (fun c => mu_onTX m) r3,
      fun c hc _ => ⟨⟨_, r3.2 c hc⟩, fun _ => r3.2 c hc⟩⟩

/-- `get_central_moment('v...')` passes the mean on as the centre. -/
theorem central_eq (hg : g.Proper) (hcube : CubeIs p.cube g) {b : PyStr} (hb : ValidPair ['v'] b) {j : ℕ} {lw : Bool}
    {M : Arr Num} (hM : getMean p.self (distStr ['v'] b) lw = .ok M) :
    getCentralMoment p.self (distStr ['v'] b) j lw = getNoncentralMoment p.self (distStr ['v'] b) j M lw := by
  obtain ⟨h2, h3, h4, h5, -⟩ := validPair_facts _ b hb
  have hh := headVar_distStr h4 h5
  unfold getCentralMoment
  rw [hh, if_pos (by rfl), if_pos (by decide), hM]
  by_cases hb : b = []
  · have : '_' ∉ distStr ['v'] b := by simp only [distStr, hb, if_true]; decide
    simp only [this, if_false, Py.ok_bind]
  · have hd : distStr ['v'] b = condStr ['v'] b := by simp [distStr, hb]
    have : '_' ∈ distStr ['v'] b := by rw [hd]; exact hasUnderscore_condStr _ b
    obtain ⟨v, hv, -⟩ := volumeElement_plain hcube hg.nx hg.ny h5
    have hcv : condVars (distStr ['v'] b) = .ok b := by rw [hd]; exact condVars_condStr h4 h5
    have hv' : p.self.cube.constructVolumeElement b = .ok v := hv
    simp only [this, if_true, hcv, Py.ok_bind, hv']

theorem ParamIs.central_all (h : ParamIs p g m L) (lw : Bool) (hlw : lw = true → 0 < totalLight g L (m.spread g)) (j : ℕ)
    {b : PyStr} (hb : ValidPair ['v'] b) :
    ∃ r, getCentralMoment p.self (distStr ['v'] b) j lw = .ok r ∧ IsVel g m L lw b r (fun c d =>
      gmom p.f2 (m.mu d.t d.x d.y) (m.sig d.t d.x d.y) (velVal g m L lw b (fun d => m.mu d.t d.x d.y) c) j) := by
  obtain ⟨M, h1, h2, h3⟩ := h.mean_all lw hlw hb
  obtain ⟨r, r1, r2⟩ := h.ncm_all lw hlw j hb (MU := M) (a := fun i => (M.get i).toReal) h2.1
    (fun c hc hh => by
      rcases hh with hh | hh
      · rw [h2.2 c hc hh]; rfl
      · obtain ⟨⟨y, hy⟩, -⟩ := h3 c hc hh
        rw [hy]; rfl)
    (fun hb' c hc => by
      subst hb'
      have e1 := (h3 c hc (Or.inl (by decide))).2 (Or.inr rfl)
      have e2 := (h3 { c with z := 0 } ⟨hc.1, hc.2.1, hc.2.2.1, hc.2.2.2.1, h.proper.nz⟩ (Or.inl (by decide))).2 (Or.inr rfl)
      beta_reduce
      rw [e1, e2])
  refine ⟨r, (central_eq h.proper h.cubeIs hb h1).trans r1, r2.1, fun c hc h0 => ?_⟩
  rw [r2.2 c hc h0]
  beta_reduce
  rw [h2.2 c hc h0]
  rfl

end PKM
