import Verif.Props.VelMoments

/-! Lemmas: velocity moments of parametric components about centres that are numbers in some bins only. -/

open scoped Classical

noncomputable section

namespace PKM
open Np Component

variable {p : Param} {g : Grid} {m : Ingredients} {L : ℕ → ℕ → ℝ} {N : List (Option Char)}

/-- Where the centre `MU` of a bin is a number `a`, the entry of `r` is the moment about `a`. -/
def MomAt (p : Param) (g : Grid) (m : Ingredients) (L : ℕ → ℕ → ℝ) (lw : Bool) (j : ℕ) (b : PyStr) (al : Cell → Num) (r : Arr Num) : Prop :=
  r.shape = g.shapeOf b ∧ ∀ c a, g.Has c → g.marg (PS g m L lw) b c ≠ 0 → al c = .fin a →
    r.get (coords b c) = .fin (velVal g m L lw b (fun d => gmom p.f2 (m.mu d.t d.x d.y) (m.sig d.t d.x d.y) a j) c)

theorem ParamIs.momentNested_pt (h : ParamIs p g m L) (lw : Bool) (j : ℕ) {q : Bool × PyStr × List ℤ} (hq : q ∈ velCases)
    {W MU : Arr Num} {al : List ℕ → Num}
    (hW : MArr g ((lettersV q.1).map some) W (fun c => condTable (g.marg (PS g m L lw) (wU q.1) c)
      (g.marg (PS g m L lw) q.2.1 c) 1))
    (hMU : MArr g N MU (fun c => al (coords q.2.1 c)))
    (hN : joinR ((lettersV q.1).map some).reverse N.reverse = some ((lettersV q.1).map some).reverse) :
    ∃ r, p.momentV q.2.2 q.1 W j MU lw = .ok r ∧ MomAt p g m L lw j q.2.1 (fun c => al (coords q.2.1 c)) r := by
  obtain ⟨f1, f2, f2', f3, f4, f5, f6, f7, f8, f9, f10⟩ := velCases_facts q hq
  have hv : ∀ (w : PyStr), 'v' ∉ w → ∀ (c : Cell) v, g.marg (PS g m L lw) w { c with v := v } = g.marg (PS g m L lw) w c :=
    fun w hw c v => by simp only [Grid.marg, coords_noV hw]
  obtain ⟨r, h1, h2⟩ := h.momentV q.1 lw j hW hMU hN
    (fun c v => by rw [hv _ f2', hv]; cases q.1 <;> decide) (fun c v => by rw [coords_noV f2']) f3 f4 f5 f6 f7 f8 f9
  have h2' := MArr.isArr f2 h2
  refine ⟨r, h1, h2'.1, fun c a hc h0 ha => ?_⟩
  have hG : ∀ a, OnTX (fun d => gmom p.f2 (m.mu d.t d.x d.y) (m.sig d.t d.x d.y) a j) := fun a c d hcd => by
    simp [coords, coord1] at hcd; simp [hcd]
  rw [h2'.2 c hc]
  beta_reduce
  rw [momV_eval h.proper (a := a)
    (fun u hu d i => by rw [coords_setL f2 (f10 u hu).1 (f10 u hu).2])
    (fun u hu d i => marg_setL g _ f2 (f10 u hu).1 (f10 u hu).2 d i) (fun _ => ha),
    sumOver_weights (hG _) f1 hc, if_neg h0]
  rfl

theorem ParamIs.ncm_nested_pt (h : ParamIs p g m L) (lw : Bool) (hlw : lw = true → 0 < totalLight g L (m.spread g)) (j : ℕ)
    {q : Bool × PyStr × List ℤ} (hq : q ∈ velCases) (hqt : q.2.1 = ['t'] → lw = true) {MU : Arr Num} {al : List ℕ → Num}
    (hMU : IsArr g q.2.1 MU (fun c => al (coords q.2.1 c))) :
    ∃ r, getNoncentralMoment p.self (condStr ['v'] q.2.1) j MU lw = .ok r ∧
      MomAt p g m L lw j q.2.1 (fun c => al (coords q.2.1 c)) r := by
  obtain ⟨-, dx, dt, -, -, dtz, dxz, dz⟩ := ncm_dispatch p j MU lw
  have hM := hMU.marr (velCases_facts q hq).2.1
  have hq' := hq
  simp only [velCases, List.mem_cons, List.not_mem_nil, or_false] at hq'
  rcases hq' with rfl | rfl | rfl | rfl | rfl
  · obtain ⟨W, w1, w2⟩ := h.weights lw hlw ['t'] ['x'] (by decide +kernel) (by decide +kernel) (by decide) (by decide)
    obtain ⟨r, r1, r2⟩ := h.momentNested_pt lw j hq w2 hM rfl
    exact ⟨r, by simp only [condStr, List.cons_append, List.nil_append] at w1 ⊢; simp only [dx, Param.ncmVx, w1, Py.ok_bind, r1], r2⟩
  · obtain rfl := hqt rfl
    obtain ⟨W, w1, w2⟩ := h.weightsT (hlw rfl)
    obtain ⟨W', w3, w4⟩ := w2.moveaxis (src := [-1]) (dst := [0]) (R := ['t','x','y'].map some) (by decide +kernel)
    obtain ⟨M', m1, m2⟩ := hM.getitem [.all, .na, .na] (R := [some 't', none, none]) rfl
    obtain ⟨r, r1, r2⟩ := h.momentNested_pt true j hq w4 m2 rfl
    exact ⟨r, by simp only [condStr, List.cons_append, List.nil_append] at w1 ⊢; simp only [dt, Param.ncmVt, w1, w3, m1, Py.ok_bind, r1], r2⟩
  · obtain ⟨W, w1, w2⟩ := h.weights lw hlw ['x'] ['t','z'] (by decide +kernel) (by decide +kernel) (by decide) (by decide)
    obtain ⟨W', w3, w4⟩ := w2.moveaxis (src := [-2]) (dst := [0]) (R := ['t','x','y','z'].map some) (by decide +kernel)
    obtain ⟨M', m1, m2⟩ := hM.getitem [.all, .na, .na, .all] (R := [some 't', none, none, some 'z']) rfl
    obtain ⟨r, r1, r2⟩ := h.momentNested_pt lw j hq w4 m2 rfl
    exact ⟨r, by simp only [condStr, List.cons_append, List.nil_append] at w1 ⊢; simp only [dtz, Param.ncmVtz, w1, w3, m1, Py.ok_bind, r1], r2⟩
  · obtain ⟨W, w1, w2⟩ := h.weights lw hlw ['t'] ['x','z'] (by decide +kernel) (by decide +kernel) (by decide) (by decide)
    obtain ⟨M', m1, m2⟩ := hM.getitem [.na] (R := [none, some 'x', some 'y', some 'z']) rfl
    obtain ⟨r, r1, r2⟩ := h.momentNested_pt lw j hq w2 m2 rfl
    exact ⟨r, by simp only [condStr, List.cons_append, List.nil_append] at w1 ⊢; simp only [dxz, Param.ncmVxz, w1, m1, Py.ok_bind, r1], r2⟩
  · obtain ⟨W, w1, w2⟩ := h.weights lw hlw ['t','x'] ['z'] (by decide +kernel) (by decide +kernel) (by decide) (by decide)
    obtain ⟨M', m1, m2⟩ := hM.getitem [.na, .na, .na] (R := [none, none, none, some 'z']) rfl
    obtain ⟨r, r1, r2⟩ := h.momentNested_pt lw j hq w2 m2 rfl
    exact ⟨r, by simp only [condStr, List.cons_append, List.nil_append] at w1 ⊢; simp only [dz, Param.ncmVz, w1, m1, Py.ok_bind, r1], r2⟩

/-- Moments with finite weights. -/
theorem ParamIs.momentPlain_pt (h : ParamIs p g m L) (lw : Bool) (j : ℕ) {b : PyStr} (hb : DistChars b) (hbv : 'v' ∉ b)
    {W MU : Arr Num} {w : Cell → ℝ} {al : List ℕ → Num} {S : List Char} {axes : List ℤ} {MW : List (Option Char)}
    (hMW : MW = ['t','x','y'].map some ∨ MW = [some 't', none, none]) (hW : MArr g MW W (fun c => .fin (w c))) (hw : ∀ c v, w { c with v := v } = w c)
    (hMU : MArr g N MU (fun c => al (coords b c)))
    (hN : joinR (['t','x','y'].map some).reverse N.reverse = some (['t','x','y'].map some).reverse)
    (hr : removable (['t','x','y'] ++ ['v']) S)
    (hax : axesD (['t','x','y'] ++ ['v']) axes S) (hV : (['t','x','y'] ++ ['v']).diff S = PyStr.replaceX b ++ ['v'])
    (hVl : lettersOK (PyStr.replaceX b ++ ['v'])) (hSv : 'v' ∉ S) (hlast : axesD (PyStr.replaceX b ++ ['v']) [-1] ['v'])
    (hdiff : (PyStr.replaceX b ++ ['v']).diff ['v'] = PyStr.replaceX b)
    (hx : ∀ u ∈ S, AxisChar u ∧ u ∉ PyStr.replaceX b) :
    ∃ r F, p.momentV axes false W j MU lw = .ok r ∧ IsArr g b r F ∧ ∀ c a, g.Has c → al (coords b c) = .fin a → F c =
      .fin (sumOver g S (fun d => w d * gmom p.f2 (m.mu d.t d.x d.y) (m.sig d.t d.x d.y) a j) c) := by
  obtain ⟨r, h1, h2⟩ := h.momentV' false lw j hW hMU (by rcases hMW with rfl | rfl <;> rfl)
    (by rcases hMW with rfl | rfl <;> rfl) (by rcases hMW with rfl | rfl <;> decide) hN (fun c v => by rw [hw]) (fun c v => by rw [coords_noV hbv])
    hr hax hV hVl hSv hlast hdiff
  refine ⟨r, _, h1, MArr.isArr hb h2, fun c a hc ha => ?_⟩
  have := momV_eval (m := m) (f2 := p.f2) (j := j) (W := w) (D := fun _ => 1) h.proper (S := S)
    (al := fun c => al (coords b c)) (a := a) (c := c)
    (fun u hu d i => by rw [coords_setL hb (hx u hu).1 (hx u hu).2]) (fun _ _ _ _ => rfl) (fun _ => ha)
  simp only [condTable, one_ne_zero, if_false, div_one] at this
  exact this

theorem ParamIs.ncm_tx_pt (h : ParamIs p g m L) (lw : Bool) (j : ℕ) {MU : Arr Num} (hs : MU.shape = g.shapeOf ['t','x']) :
    ∃ r F, p.ncmVtx j MU lw = .ok r ∧ IsArr g ['t','x'] r F ∧ ∀ c a, g.Has c → MU.get (coords ['t','x'] c) = .fin a → F c =
      .fin (gmom p.f2 (m.mu c.t c.x c.y) (m.sig c.t c.x c.y) a j) := by
  obtain ⟨d, d1, d2, -⟩ := volumeElement_plain h.cubeIs h.proper.nx h.proper.ny (w := ['t','x']) (by decide)
  have hW : MArr g [some 't', none, none] (full d.shape (.fin 1)) (fun _ => .fin 1) := by
    refine ⟨?_, fun _ _ => rfl⟩
    rw [show (full d.shape (Num.fin 1)).shape = d.shape from rfl, d2]
    rfl
  have hM : IsArr g ['t','x'] MU (fun c => MU.get (coords ['t','x'] c)) := ⟨hs, fun c hc => rfl⟩
  obtain ⟨r, F, r1, r2, r3⟩ := h.momentPlain_pt lw j (b := ['t','x']) (by decide) (by decide) (S := []) (axes := []) (w := fun _ => 1)
    (Or.inr rfl) hW (fun _ _ => rfl) (hM.marr (by decide)) rfl (by simp [removable]) (by decide +kernel)
    (by decide +kernel) (by decide +kernel) (by decide) (by decide +kernel) (by decide +kernel) (by simp)
  refine ⟨r, F, by simp only [Param.ncmVtx, d1, Py.ok_bind, r1], r2, fun c a hc ha => ?_⟩
  rw [r3 c a hc ha]
  simp [sumOver]

theorem ParamIs.ncm_v_pt (h : ParamIs p g m L) (lw : Bool) (hlw : lw = true → 0 < totalLight g L (m.spread g)) (j : ℕ)
    {MU : Arr Num} (hs : MU.shape = g.shapeOf []) :
    ∃ r F, p.ncmV j MU lw = .ok r ∧ IsArr g [] r F ∧ ∀ c a, g.Has c → MU.get (coords [] c) = .fin a →
      F c = .fin (g.sumCells (fun d => PS g m L lw d *
      gmom p.f2 (m.mu d.t d.x d.y) (m.sig d.t d.x d.y) a j)) := by
  obtain ⟨W, w1, w2⟩ := getP_marg_of_contract (h.contract lw hlw) false ['t','x'] (by decide)
  rw [paramMarg_noV (by decide)] at w2
  have w3 : MArr g (['t','x','y'].map some) W (fun c => .fin (g.marg (PS g m L lw) ['t','x'] c)) :=
    (IsArr.marr (by decide) w2).congr fun c _ => by simp [dvol]
  have hM : IsArr g [] MU (fun c => MU.get (coords [] c)) := ⟨hs, fun c hc => rfl⟩
  obtain ⟨r, F, r1, r2, r3⟩ := h.momentPlain_pt lw j (b := []) (by decide) (by decide) (S := ['y','x','t']) (axes := [0, 1, 2])
    (Or.inl rfl) w3 (fun c v => by simp only [Grid.marg, coords_noV (w := ['t','x']) (by decide)])
    (hM.marr (by decide)) rfl (by decide +kernel) (by decide +kernel)
    (by decide +kernel) (by decide +kernel) (by decide) (by decide +kernel) (by decide +kernel)
    (by unfold AxisChar; decide +kernel)
  refine ⟨r, F, ?_, r2, fun c a hc ha => ?_⟩
  · have w1' : p.getP ['t','x'] false lw = .ok W := w1
    simp only [Param.ncmV, w1', Py.ok_bind, r1]
  · have hG : OnTX (fun d => gmom p.f2 (m.mu d.t d.x d.y) (m.sig d.t d.x d.y) a j) := fun c d hcd => by
      simp [coords, coord1] at hcd; simp [hcd]
    rw [r3 c a hc ha, ← sumOver_marg_total g _ (w := ['t','x']) (by decide) hc]
    congr 1
    refine sumOver_congr _ (by unfold AxisChar; decide +kernel) hc fun d _ => ?_
    exact marg_onTX hG false d

theorem ParamIs.ncm_t_pt (h : ParamIs p g m L) (j : ℕ) {MU : Arr Num} (hs : MU.shape = g.shapeOf ['t']) :
    ∃ r F, p.ncmVt j MU false = .ok r ∧ IsArr g ['t'] r F ∧ ∀ c a, g.Has c → MU.get (coords ['t'] c) = .fin a →
      F c = .fin (∑ x : Fin g.nx, ∑ y : Fin g.ny,
      m.probX g { c with x := x, y := y } * gmom p.f2 (m.mu c.t x y) (m.sig c.t x y) a j) := by
  obtain ⟨W, w1, w2⟩ := h.weightsTmass
  obtain ⟨W', w3, w4⟩ := w2.moveaxis (src := [-1]) (dst := [0]) (R := ['t','x','y'].map some) (by decide +kernel)
  have hM : IsArr g ['t'] MU (fun c => MU.get (coords ['t'] c)) := ⟨hs, fun c hc => rfl⟩
  obtain ⟨M', m1, m2⟩ := (hM.marr (by decide)).getitem [.all, .na, .na] (R := [some 't', none, none]) rfl
  obtain ⟨r, F, r1, r2, r3⟩ := h.momentPlain_pt false j (b := ['t']) (by decide) (by decide) (S := ['y','x']) (axes := [1, 2])
    (Or.inl rfl) w4 (fun c v => rfl) m2 rfl (by decide +kernel) (by decide +kernel)
    (by decide +kernel) (by decide +kernel) (by decide) (by decide +kernel) (by decide +kernel)
    (by unfold AxisChar; decide +kernel)
  refine ⟨r, F, ?_, r2, fun c a hc ha => r3 c a hc ha⟩
  simp only [condStr, List.cons_append, List.nil_append] at w1
  simp only [Param.ncmVt, w1, w3, m1, Py.ok_bind, r1]

theorem ParamIs.ncm_txz_pt (h : ParamIs p g m L) (lw : Bool) (j : ℕ) {MU : Arr Num} (hs : MU.shape = g.shapeOf ['t','x','z']) :
    ∃ r F, p.ncmVtxz j MU lw = .ok r ∧ IsArr g ['t','x','z'] r F ∧
      ∀ c a, g.Has c → MU.get (coords ['t','x','z'] { c with z := 0 }) = .fin a → F c =
      .fin (gmom p.f2 (m.mu c.t c.x c.y) (m.sig c.t c.x c.y) a j) := by
  have hz := h.proper.nz
  have hs : MU.shape = [g.nt, g.nx, g.ny, g.nz] := hs
  have e : getitem [.all, .all, .all, .at 0] MU = .ok ⟨[g.nt, g.nx, g.ny], fun i => MU.get (ixIdx [.all, .all, .all, .at 0] MU.shape i)⟩ := by
    unfold getitem
    rw [hs]
    simp [ixShape, hz]
  obtain ⟨r, F, r1, r2, r3⟩ := h.ncm_tx_pt lw j (MU := ⟨[g.nt, g.nx, g.ny], fun i => MU.get (ixIdx [.all, .all, .all, .at 0] MU.shape i)⟩) rfl
  obtain ⟨q, q1, q2⟩ := h.spreadZ (IsArr.marr (by decide) r2)
  refine ⟨q, F, by simp only [Param.ncmVtxz, e, r1, q1, Py.ok_bind], MArr.isArr (by decide) q2, fun c a hc ha => ?_⟩
  rw [r3 c a hc ?_]
  show MU.get (ixIdx [.all, .all, .all, .at 0] MU.shape (coords ['t','x'] c)) = _
  rw [hs]
  exact ha

/-- Moments about an array of centres: the entry for a bin needs the centre of that bin only.  Given age, position and
metallicity the centre at the first metallicity is used. -/
theorem ParamIs.ncm_pt (h : ParamIs p g m L) (lw : Bool) (hlw : lw = true → 0 < totalLight g L (m.spread g)) (j : ℕ)
    {b : PyStr} (hb : ValidPair ['v'] b) {MU : Arr Num} (hs : MU.shape = g.shapeOf b) :
    ∃ r, getNoncentralMoment p.self (distStr ['v'] b) j MU lw = .ok r ∧
      MomAt p g m L lw j b (fun c => MU.get (coords b (if b = ['t','x','z'] then { c with z := 0 } else c))) r := by
  obtain ⟨dtx, -, dt, dn, dtxz, -, -, -⟩ := ncm_dispatch p j MU lw
  have hM : IsArr g b MU (fun c => MU.get (coords b c)) := ⟨hs, fun c hc => rfl⟩
  have nest : ∀ q ∈ velCases, b = q.2.1 → (q.2.1 = ['t'] → lw = true) →
      ∃ r, getNoncentralMoment p.self (distStr ['v'] b) j MU lw = .ok r ∧
      MomAt p g m L lw j b (fun c => MU.get (coords b (if b = ['t','x','z'] then { c with z := 0 } else c))) r := by
    rintro q hq rfl hqt
    obtain ⟨r, r1, r2⟩ := h.ncm_nested_pt lw hlw j hq hqt (al := MU.get) hM
    have hne : q.2.1 ≠ [] := (by decide +kernel : ∀ q ∈ velCases, q.2.1 ≠ []) q hq
    have hne' : q.2.1 ≠ ['t','x','z'] := (by decide +kernel : ∀ q ∈ velCases, q.2.1 ≠ ['t','x','z']) q hq
    refine ⟨r, by rw [distStr, if_neg hne]; exact r1, ?_⟩
    simp only [if_neg hne']
    exact r2
  have plain : ∀ (zIn : Bool) {r : Arr Num} {F : Cell → Num} {al : Cell → Num}, IsArr g (wU zIn) r F →
      (∀ c a, g.Has c → al c = .fin a → F c = .fin (gmom p.f2 (m.mu c.t c.x c.y) (m.sig c.t c.x c.y) a j)) →
      MomAt p g m L lw j (wU zIn) al r := fun zIn r F al h1 h2 => ⟨h1.1, fun c a hc h0 ha => by
    rw [h1.2 c hc, h2 c a hc ha, velVal, ← marg_onTX (gmom_onTX m _ _ _), mul_div_cancel_left₀ _ h0]⟩
  have hb' := velConds_of_valid hb
  simp only [velConds, List.mem_cons, List.not_mem_nil, or_false] at hb'
  rcases hb' with rfl | rfl | rfl | rfl | rfl | rfl | rfl | rfl
  · obtain ⟨r, F, r1, r2, r3⟩ := h.ncm_v_pt lw hlw j hs
    refine ⟨r, dn.trans r1, r2.1, fun c a hc h0 ha => ?_⟩
    rw [r2.2 c hc, r3 c a hc ha, velVal, marg_nil, marg_nil, PS_total h lw hlw, div_one]
  · cases lw with
    | true => exact nest (false, ['t'], [1, 2]) (by decide +kernel) rfl (fun _ => rfl)
    | false =>
      obtain ⟨r, F, r1, r2, r3⟩ := h.ncm_t_pt j hs
      refine ⟨r, dt.trans r1, r2.1, fun c a hc h0 ha => ?_⟩
      rw [r2.2 c hc, r3 c a hc ha, ← probX_val h (gmom_onTX m _ _ _) hc h0]
  · exact nest (false, ['x'], [0]) (by decide +kernel) rfl (by simp)
  · exact nest (true, ['z'], [0, 1, 2]) (by decide +kernel) rfl (by simp)
  · obtain ⟨r, F, r1, r2, r3⟩ := h.ncm_tx_pt lw j hs
    exact ⟨r, dtx.trans r1, plain false r2 r3⟩
  · exact nest (true, ['t','z'], [1, 2]) (by decide +kernel) rfl (by simp)
  · exact nest (true, ['x','z'], [0]) (by decide +kernel) rfl (by simp)
  · obtain ⟨r, F, r1, r2, r3⟩ := h.ncm_txz_pt lw j hs
    exact ⟨r, dtxz.trans r1, plain true r2 r3⟩

end PKM
