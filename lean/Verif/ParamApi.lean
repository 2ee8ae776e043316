import Verif.ParamMarg

/-! Lemmas: the interface contract of parametric components and their conditional distributions. -/

open scoped Classical
open MeasureTheory

noncomputable section

namespace PKM
open Np Component

variable {p : Param} {g : Grid} {m : Ingredients} {L : ℕ → ℕ → ℝ}

theorem marg_zero_of_pointwise {P Q : Cell → ℝ} (hQ : ∀ d, g.Has d → 0 ≤ Q d)
    (h0 : ∀ d, g.Has d → Q d = 0 → P d = 0) {b : PyStr} {c : Cell} (h : g.marg Q b c = 0) :
    g.marg P b c = 0 := by
  have hz : ∀ d, g.Has d → (if coords b d = coords b c then Q d else 0) = 0 := fun d hd =>
    sumCells_zero_term (f := fun d => if coords b d = coords b c then Q d else 0)
      (fun e he => by split <;> [exact hQ e he; exact le_rfl]) h hd
  unfold Grid.marg Grid.sumCells
  refine Finset.sum_eq_zero fun t _ => Finset.sum_eq_zero fun v _ => Finset.sum_eq_zero fun x _ =>
    Finset.sum_eq_zero fun y _ => Finset.sum_eq_zero fun z _ => ?_
  have := hz ⟨t, v, x, y, z⟩ ⟨t.2, v.2, x.2, y.2, z.2⟩
  beta_reduce
  split
  · next e => rw [if_pos e] at this; exact h0 _ ⟨t.2, v.2, x.2, y.2, z.2⟩ this
  · rfl

theorem sumCells_pos_of {f : Cell → ℝ} (hf : ∀ c, g.Has c → 0 ≤ f c) {c : Cell} (hc : g.Has c)
    (h : 0 < f c) : 0 < g.sumCells f := by
  rcases (sumCells_nonneg hf).lt_or_eq with h1 | h1
  · exact h1
  · have := sumCells_zero_term hf h1.symm hc
    linarith

theorem exists_pos_of_sumCells_pos {f : Cell → ℝ} (h : 0 < g.sumCells f) : ∃ c, g.Has c ∧ 0 < f c := by
  by_contra hcon
  push Not at hcon
  have : g.sumCells f ≤ 0 := by
    unfold Grid.sumCells
    exact Finset.sum_nonpos fun t _ => Finset.sum_nonpos fun v _ => Finset.sum_nonpos fun x _ =>
      Finset.sum_nonpos fun y _ => Finset.sum_nonpos fun z _ => hcon _ ⟨t.2, v.2, x.2, y.2, z.2⟩
  linarith

theorem probV_pos (h : ParamIs p g m L) {c : Cell} (hc : g.Has c) : 0 < m.probV g c :=
  normal_Ioc_pos (h.norm.sig _ _ _) (h.proper.v _ hc.2.1)

/-- If some stars shine, both normalisations of light-weighted distributions are positive. -/
theorem ParamIs.lit (h : ParamIs p g m L) (hl : 0 < totalLight g L (m.spread g)) :
    0 < totalLight g L (m.joint g) := by
  obtain ⟨c, hc, h1⟩ := exists_pos_of_sumCells_pos hl
  refine sumCells_pos_of (fun d hd => mul_nonneg (h.lightNonneg _ _) (h.norm.joint_nonneg h.proper hd)) hc ?_
  have hv := probV_pos h hc
  have hn : (0 : ℝ) < g.nv := by have := h.proper.nv; positivity
  unfold Ingredients.spread at h1
  unfold Ingredients.joint
  have : 0 < L c.t c.z * m.probTXZ g c := by
    rw [← mul_div_assoc] at h1
    exact (div_pos_iff_of_pos_right hn).1 h1
  rw [← mul_assoc]
  positivity

/-- The joint distribution behind the marginal `w`. -/
def paramMarg (g : Grid) (m : Ingredients) (L : ℕ → ℕ → ℝ) (lw : Bool) (w : PyStr) : Cell → ℝ :=
  g.marg (wtdP g L (pick (m.joint g) (m.spread g) w) lw) w

theorem ParamIs.pick_nn (h : ParamIs p g m L) (lw : Bool) (w : PyStr) (c : Cell) (hc : g.Has c) :
    0 ≤ wtdP g L (pick (m.joint g) (m.spread g) w) lw c := by
  unfold pick; split
  · exact h.nnJ lw c hc
  · exact h.nnS lw c hc

theorem ParamIs.ac (h : ParamIs p g m L) (lw : Bool) (hlw : lw = true → 0 < totalLight g L (m.spread g))
    (c : Cell) (hc : g.Has c) (h0 : wtdP g L (m.spread g) lw c = 0) : wtdP g L (m.joint g) lw c = 0 := by
  have hn : (g.nv : ℝ) ≠ 0 := by have := h.proper.nv; positivity
  have e : m.joint g c = m.spread g c * (g.nv * m.probV g c) := by
    unfold Ingredients.joint Ingredients.spread; field_simp
  cases lw with
  | false =>
    simp only [wtdP, Bool.false_eq_true, if_false] at h0 ⊢
    rw [e, h0, zero_mul]
  | true =>
    simp only [wtdP, if_true, Grid.lightP] at h0 ⊢
    have hl := hlw rfl
    unfold totalLight at hl
    rcases div_eq_zero_iff.1 h0 with h1 | h1
    · rw [e, ← mul_assoc, h1]; simp
    · rw [h1] at hl; exact absurd hl (lt_irrefl _)

theorem ParamIs.contract (h : ParamIs p g m L) (lw : Bool)
    (hlw : lw = true → 0 < totalLight g L (m.spread g)) :
    Contract p.self g lw (paramMarg g m L lw) where
  proper := h.proper
  cube := h.cubeIs
  nonneg w c _ _ := marg_nonneg (fun d hd => h.pick_nn lw w d hd) w c
  marg density w hw := h.marginal density lw (fun e => ⟨hlw e, h.lit (hlw e)⟩) hw
  absCont q c hq hc h0 := by
    have hsub : ∀ q ∈ conditionals, 'v' ∈ q.2 → 'v' ∈ unionStr q.1 q.2 := by decide +kernel
    have hz := fun (P : Cell → ℝ) (hP : ∀ d, g.Has d → 0 ≤ P d) (e : g.marg P q.2 c = 0) =>
      marg_zero_of_subset hP (fun d => coords_union_eq q hq c d) e
    unfold paramMarg pick at h0 ⊢
    by_cases hv : 'v' ∈ q.2
    · have hv' := hsub q hq hv
      simp only [hv, hv', if_true] at h0 ⊢
      exact hz _ (h.nnJ lw) h0
    · simp only [hv, if_false] at h0
      split
      · exact hz _ (h.nnJ lw) (marg_zero_of_pointwise (h.nnS lw) (h.ac lw hlw) h0)
      · exact hz _ (h.nnS lw) h0

/-- The three conditional distributions that have a method of their own. -/
def ownConditionals : List (PyStr × PyStr) := [(['x'],['t']), (['v'],['t','x']), (['z'],['t','x'])]

theorem Param.logP_none (p : Param) : ∀ q ∈ conditionals, q ∉ ownConditionals →
    p.logP (condStr q.1 q.2) = none := by
  have key : ∀ q ∈ conditionals, q ∉ ownConditionals → condStr q.1 q.2 ∉ 
      [['t'], ['t','v'], ['t','x'], ['t','z'], ['t','v','x'], ['t','v','z'], ['t','x','z'],
       ['t','v','x','z'], ['v'], ['v','x'], ['v','z'], ['v','x','z'], ['x'], ['x','z'], ['z'],
       ['x','_','t'], ['v','_','t','x'], ['z','_','t','x']] := by decide +kernel
  intro q hq ho
  have := key q hq ho
  simp only [List.mem_cons, List.not_mem_nil, or_false, not_or] at this
  simp only [Param.logP, this, if_false]

theorem getP_own {q : PyStr × PyStr} (hq : q ∈ conditionals) {f : Bool → Bool → Py (Arr Num)}
    (hf : p.logP (condStr q.1 q.2) = some f) (density lw : Bool) {F : Cell → Num}
    (h : Gives (f density lw) g (condStr q.1 q.2) F) :
    Gives (getP p.self (condStr q.1 q.2) density lw) g (condStr q.1 q.2) (fun c => Num.exp (F c)) := by
  obtain ⟨-, -, -, h4, h5, -⟩ := conditionals_letters q hq
  have hs := split_condStr (a := q.1) (b := q.2) (DistChars.noUnderscore h4) (DistChars.noUnderscore h5)
  obtain ⟨A, k1, k2⟩ := h
  have hself : p.self.logP (condStr q.1 q.2) = some f := hf
  refine ⟨map Num.exp A, ?_, k2.map Num.exp⟩
  simp [getP, getLogP, getLogConditional, hasUnderscore_condStr, getLogMarginal, hself, k1, hs]

theorem IsL.cond {e : Py (Arr Num)} {q : PyStr × PyStr} (hq : q ∈ conditionals) {f : Cell → Num}
    (h : ∃ A, e = .ok A ∧ MArr g ((PyStr.replaceX q.1 ++ PyStr.replaceX q.2).map some) A f) :
    Gives e g (condStr q.1 q.2) f := by
  obtain ⟨-, -, -, h4, h5, -⟩ := conditionals_letters q hq
  obtain ⟨A, h1, h2⟩ := h
  exact ⟨A, h1, (isArr_cond_iff h4 h5).2 (larr_iff.2 h2)⟩

section
variable (h : ParamIs p g m L) (density : Bool)
include h

/-! #### Mass weighted: the ingredients themselves -/

theorem ParamIs.getP_xt : Gives (getP p.self (condStr ['x'] ['t']) density false) g (condStr ['x'] ['t'])
    (fun c => .fin (m.probX g c / dvol g density ['x'] c)) := by
  have hq : ((['x'],['t']) : PyStr × PyStr) ∈ conditionals := by decide +kernel
  refine (getP_own (p := p) hq (f := p.xt) rfl density false (IsL.cond hq (h.xtMass density))).congr fun c hc => ?_
  exact Num.exp_lg (div_nonneg (h.norm.probX_nonneg h.proper hc) (dvol_pos h.proper hc _ _).le)

theorem ParamIs.getP_vtx : Gives (getP p.self (condStr ['v'] ['t','x']) density false) g
    (condStr ['v'] ['t','x']) (fun c => .fin (m.probV g c / dvol g density ['v'] c)) := by
  have hq : ((['v'],['t','x']) : PyStr × PyStr) ∈ conditionals := by decide +kernel
  refine (getP_own (p := p) hq (f := p.vtx) rfl density false (IsL.cond hq (h.vtxMass density))).congr fun c hc => ?_
  exact Num.exp_lg (div_nonneg measureReal_nonneg (dvol_pos h.proper hc _ _).le)

theorem ParamIs.getP_ztx : Gives (getP p.self (condStr ['z'] ['t','x']) density false) g
    (condStr ['z'] ['t','x']) (fun c => .fin (m.probZ g c / dvol g density ['z'] c)) := by
  have hq : ((['z'],['t','x']) : PyStr × PyStr) ∈ conditionals := by decide +kernel
  refine (getP_own (p := p) hq (f := p.ztx) rfl density false (IsL.cond hq (h.ztxMass density))).congr fun c hc => ?_
  exact Num.exp_lg (div_nonneg (h.norm.probZ_nonneg h.proper hc) (dvol_pos h.proper hc _ _).le)

end

/-! #### Light weighted: ratios -/

/-- Logarithm of a ratio of tables; nan where the denominator vanishes. -/
def ctLog (j k d : ℝ) : Num := if k = 0 then .nan else Num.lg (j / k / d)

theorem exp_ctLog {j k d : ℝ} (hj : 0 ≤ j) (hk : 0 ≤ k) (hd : 0 < d) :
    Num.exp (ctLog j k d) = condTable j k d := by
  unfold ctLog condTable
  split
  · rfl
  · exact Num.exp_lg (by positivity)

theorem lg_sub_ctLog {j k a b d : ℝ} (hj : 0 ≤ j) (hk : 0 ≤ k) (ha : 0 < a) (hb : 0 < b) (hd : a = b * d)
    (hac : k = 0 → j = 0) : Num.lg (j / a) - Num.lg (k / b) = ctLog j k d := by
  unfold ctLog
  split
  · next h => simp [h, hac h]
  · next h =>
    have hk' : 0 < k := lt_of_le_of_ne hk (Ne.symm h)
    rw [Num.lg_sub (by positivity) (by positivity)]
    congr 1
    subst hd
    field_simp

theorem ctLog_add {j k d e : ℝ} (hj : 0 ≤ j) (hk : 0 ≤ k) (hd : 0 < d) (he : 0 < e) :
    ctLog j k d + Num.lg e = ctLog j k (d / e) := by
  unfold ctLog
  split
  · simp
  · rw [Num.lg_add (by positivity) he.le]; congr 1; field_simp

theorem ctLog_sub {j k d e : ℝ} (hj : 0 ≤ j) (hk : 0 ≤ k) (hd : 0 < d) (he : 0 < e) :
    ctLog j k d - Num.lg e = ctLog j k (d * e) := by
  unfold ctLog
  split
  · simp
  · rw [Num.lg_sub (by positivity) he]; congr 1; field_simp

/-- `(A.T op log_dvol).T` for the variable of the first axis. -/
theorem ParamIs.opT (h : ParamIs p g m L) (op : Num → Num → Num) {ch : Char} (hch : ch ∈ ['t','v','z'])
    {U : List Char} {A : Arr Num} {f : Cell → Num} (hA : MArr g ((ch :: U).map some) A f) :
    ∃ d r, p.logVol [ch] = .ok d ∧ Np.bop op (T A) d = .ok r ∧
      MArr g ((ch :: U).map some) (T r) (fun c => op (f c) (Num.lg (g.volOf [ch] c))) := by
  have hd : DistChars [ch] := by intro a ha; simp at ha; subst ha; simp at hch ⊢; tauto
  have hx : 'x' ∉ [ch] := by simp at hch ⊢; rcases hch with rfl | rfl | rfl <;> decide
  obtain ⟨d, h1, h2⟩ := h.logVol hd hx
  have h2' : MArr g [some ch] d (fun c => Num.lg (g.volOf [ch] c)) := by
    have e : PyStr.replaceX [ch] = [ch] := by simp at hch; rcases hch with rfl | rfl | rfl <;> decide
    rwa [e] at h2
  obtain ⟨r, h3, h4⟩ := MArr.bop (R := ((ch :: U).map some).reverse) op hA.T h2' (by
    cases U <;> simp [joinR, joinM])
  refine ⟨d, r, h1, h3, ?_⟩
  have := h4.T
  simpa only [List.reverse_reverse] using this

section
variable (h : ParamIs p g m L) (density : Bool) (hl : 0 < totalLight g L (m.spread g))
include h hl

/-- Light-weighted `p(t, x)` as computed inside other methods. -/
theorem ParamIs.txOf : ∃ a dz b c, p.txz true true = .ok a ∧ p.logVol ['z'] = .ok dz ∧ Np.add a dz = .ok b ∧
    logsumexp [-1] b = .ok c ∧
    MArr g (['t','x','y','z'].map some) a (fun c => Num.lg
      (g.marg (wtdP g L (m.spread g) true) ['t','x','z'] c / g.volOf ['t','x','z'] c)) ∧
    MArr g (['t','x','y'].map some) c (fun c => Num.lg
      (g.marg (wtdP g L (m.spread g) true) ['t','x'] c / g.volOf ['t','x'] c)) := by
  obtain ⟨a, h1, h2⟩ := h.txz true true (fun _ => hl)
  obtain ⟨dz, h3, h4⟩ := h.logVol (w := ['z']) (by decide) (by decide)
  obtain ⟨b, h5, h6⟩ := h2.addL h4
    (fun c hc => div_nonneg (marg_nonneg (h.nnS true) _ _) (dvol_pos h.proper hc _ _).le)
    (fun c hc => volOf_nonneg h.proper hc _) (R := ['t','x','y','z'].map some) rfl
  have key : IsL (do
      let a ← p.txz true true
      let a ← Param.onlyIf true (fun a => do let d ← p.logVol ['z']; Np.add a d) a
      logsumexp [-1] a) g ['t','x','y'] _ :=
    margStep (w := ['t','x','z']) (w' := ['t','x']) (x := ['z']) h.proper (h.txz true true (fun _ => hl))
      (h.nnS true) (by decide +kernel) (by decide +kernel) (by intro c; simp [Grid.volOf]; ring)
      (fun A q hA hq => by
        obtain ⟨r, k3, k4⟩ := MArr.addL (R := ['t','x','y','z'].map some) hA h4 hq
          (fun c hc => volOf_nonneg h.proper hc _) rfl
        exact ⟨r, by simp [h3, k3], k4⟩)
  obtain ⟨c, k1, k2⟩ := key
  simp only [h1, h3, h5, Param.onlyIf, if_true, Py.ok_bind] at k1
  exact ⟨a, dz, b, c, h1, h3, h5, k1, h2, k2⟩

theorem ParamIs.sacz (c : Cell) (h0 : g.marg (wtdP g L (m.spread g) true) ['t','x'] c = 0) :
    g.marg (wtdP g L (m.spread g) true) ['t','x','z'] c = 0 :=
  marg_zero_of_subset (h.nnS true) (fun d hd => by simp [coords, coord1] at hd ⊢; tauto) h0

theorem ParamIs.sact (c : Cell) (h0 : g.marg (wtdP g L (m.spread g) true) ['t'] c = 0) :
    g.marg (wtdP g L (m.spread g) true) ['t','x'] c = 0 :=
  marg_zero_of_subset (h.nnS true) (fun d hd => by simp [coords, coord1] at hd ⊢; tauto) h0

theorem ParamIs.getP_xt_light : Gives (getP p.self (condStr ['x'] ['t']) density true) g (condStr ['x'] ['t'])
    (fun c => condTable (g.marg (wtdP g L (m.spread g) true) ['t','x'] c)
      (g.marg (wtdP g L (m.spread g) true) ['t'] c) (dvol g density ['x'] c)) := by
  have hq : ((['x'],['t']) : PyStr × PyStr) ∈ conditionals := by decide +kernel
  obtain ⟨a, dz, b, c, h1, h2, h3, h4, h5, h6⟩ := h.txOf hl
  obtain ⟨t, h7, h8⟩ := h.t true true (fun _ => hl)
  obtain ⟨r, h9, h10⟩ := MArr.bop (R := ['y','x','t'].map some) (· - ·) h6.T h8 rfl
  obtain ⟨s, h11, h12⟩ := h10.T.moveaxis (src := [0]) (dst := [-1]) (R := ['x','y','t'].map some)
    (by decide +kernel)
  have nn := fun w c => marg_nonneg (h.nnS true) w c
  have h13 : MArr g (['x','y','t'].map some) s (fun c => ctLog (g.marg (wtdP g L (m.spread g) true) ['t','x'] c)
      (g.marg (wtdP g L (m.spread g) true) ['t'] c) (g.volOf ['x'] c)) := h12.congr fun c hc => by
    simp only [dvol, if_true]
    exact lg_sub_ctLog (nn _ _) (nn _ _) (volOf_pos h.proper hc _) (volOf_pos h.proper hc _)
      (volOf_append g ['t'] ['x'] c) (h.sact hl c)
  have e0 : p.xt density true = Param.onlyIf (!density) (fun a => iadd a p.logDxDy) s := by
    simp [Param.xt, h1, h2, h3, h4, h7, Np.sub, h9, h11]
  have key : ∃ A, p.xt density true = .ok A ∧ MArr g (['x','y','t'].map some) A (fun c =>
      ctLog (g.marg (wtdP g L (m.spread g) true) ['t','x'] c)
      (g.marg (wtdP g L (m.spread g) true) ['t'] c) (dvol g density ['x'] c)) := by
    rw [e0]
    cases density with
    | true => exact ⟨s, rfl, h13⟩
    | false =>
      obtain ⟨A, k1, k2⟩ := MArr.iop (· + ·) h13 h.logDxDy rfl
      refine ⟨A, k1, k2.congr fun c hc => ?_⟩
      have := volOf_pos h.proper hc ['x']
      rw [ctLog_add (nn _ _) (nn _ _) this this, div_self this.ne']
      simp [dvol]
  refine (getP_own (p := p) hq (f := p.xt) rfl density true (IsL.cond hq key)).congr fun c hc => ?_
  exact exp_ctLog (nn _ _) (nn _ _) (dvol_pos h.proper hc _ _)

theorem ParamIs.getP_ztx_light : Gives (getP p.self (condStr ['z'] ['t','x']) density true) g
    (condStr ['z'] ['t','x'])
    (fun c => condTable (g.marg (wtdP g L (m.spread g) true) ['t','x','z'] c)
      (g.marg (wtdP g L (m.spread g) true) ['t','x'] c) (dvol g density ['z'] c)) := by
  have hq : ((['z'],['t','x']) : PyStr × PyStr) ∈ conditionals := by decide +kernel
  obtain ⟨a, dz, b, c, h1, h2, h3, h4, h5, h6⟩ := h.txOf hl
  obtain ⟨r, h9, h10⟩ := MArr.bop (R := ['z','y','x','t'].map some) (· - ·) h5.T h6.T rfl
  obtain ⟨s, h11, h12⟩ := h10.T.moveaxis (src := [-1]) (dst := [0]) (R := ['z','t','x','y'].map some)
    (by decide +kernel)
  have nn := fun w c => marg_nonneg (h.nnS true) w c
  have h13 : MArr g (['z','t','x','y'].map some) s (fun c => ctLog
      (g.marg (wtdP g L (m.spread g) true) ['t','x','z'] c)
      (g.marg (wtdP g L (m.spread g) true) ['t','x'] c) (g.volOf ['z'] c)) := h12.congr fun c hc => by
    exact lg_sub_ctLog (nn _ _) (nn _ _) (volOf_pos h.proper hc _) (volOf_pos h.proper hc _)
      (volOf_append g ['t','x'] ['z'] c) (h.sacz hl c)
  have e0 : p.ztx density true = Param.onlyIf (!density)
      (fun a => do let d ← p.logVol ['z']; Param.addT a d) s := by
    simp [Param.ztx, h1, h2, h3, h4, Np.sub, h9, h11]
  have key : ∃ A, p.ztx density true = .ok A ∧ MArr g (['z','t','x','y'].map some) A (fun c =>
      ctLog (g.marg (wtdP g L (m.spread g) true) ['t','x','z'] c)
      (g.marg (wtdP g L (m.spread g) true) ['t','x'] c) (dvol g density ['z'] c)) := by
    rw [e0]
    cases density with
    | true => exact ⟨s, rfl, h13⟩
    | false =>
      obtain ⟨d, A, k1, k2, k3⟩ := h.opT (· + ·) (ch := 'z') (by simp) h13
      refine ⟨T A, by simp [Param.onlyIf, Param.addT, k1, Np.add, k2], k3.congr fun c hc => ?_⟩
      have := volOf_pos h.proper hc ['z']
      rw [ctLog_add (nn _ _) (nn _ _) this this, div_self this.ne']
      simp [dvol]
  refine (getP_own (p := p) hq (f := p.ztx) rfl density true (IsL.cond hq key)).congr fun c hc => ?_
  exact exp_ctLog (nn _ _) (nn _ _) (dvol_pos h.proper hc _ _)

theorem ParamIs.getP_vtx_light : Gives (getP p.self (condStr ['v'] ['t','x']) density true) g
    (condStr ['v'] ['t','x'])
    (fun c => condTable (g.marg (wtdP g L (m.joint g) true) ['t','v','x'] c)
      (g.marg (wtdP g L (m.joint g) true) ['t','x'] c) (dvol g density ['v'] c)) := by
  have hq : ((['v'],['t','x']) : PyStr × PyStr) ∈ conditionals := by decide +kernel
  have hJ := h.lit hl
  have nn := fun w c => marg_nonneg (h.nnJ true) w c
  obtain ⟨a, h1, h2⟩ := h.tvxz false true (fun _ => hJ)
  have h2' : MArr g (['t','v','x','y','z'].map some) a
      (fun c => Num.lg (g.marg (wtdP g L (m.joint g) true) ['t','v','x','z'] c)) :=
    h2.congr fun c _ => by simp [dvol]
  obtain ⟨tvx, h3, h4⟩ := h2'.lse (fun c _ => nn _ c) (by decide) (S := extraL ['t','v','x','z'] ['t','v','x'])
    (by decide) (axes := [-1]) (by decide +kernel) (V := ['t','v','x','y']) (by decide)
  have h4' : MArr g (['t','v','x','y'].map some) tvx
      (fun c => Num.lg (g.marg (wtdP g L (m.joint g) true) ['t','v','x'] c)) :=
    h4.congr fun c hc => by rw [sumOver_marg_nested g _ (by decide +kernel) hc]
  obtain ⟨tx, h5, h6⟩ := h4'.lse (fun c _ => nn _ c) (by decide) (S := extraL ['t','v','x'] ['t','x'])
    (by decide) (axes := [1]) (by decide +kernel) (V := ['t','x','y']) (by decide)
  have h6' : MArr g (['t','x','y'].map some) tx
      (fun c => Num.lg (g.marg (wtdP g L (m.joint g) true) ['t','x'] c)) :=
    h6.congr fun c hc => by rw [sumOver_marg_nested g _ (by decide +kernel) hc]
  obtain ⟨tx', h7, h8⟩ := h6'.getitem [.all, .na, .all, .all] (R := [some 't', none, some 'x', some 'y']) rfl
  obtain ⟨r, h9, h10⟩ := MArr.bop (R := ['t','v','x','y'].map some) (· - ·) h4' h8 rfl
  obtain ⟨s, h11, h12⟩ := h10.moveaxis (src := [0]) (dst := [1]) (R := ['v','t','x','y'].map some)
    (by decide +kernel)
  have hz : ∀ c, g.marg (wtdP g L (m.joint g) true) ['t','x'] c = 0 →
      g.marg (wtdP g L (m.joint g) true) ['t','v','x'] c = 0 := fun c h0 =>
    marg_zero_of_subset (h.nnJ true) (fun d hd => by simp [coords, coord1] at hd ⊢; tauto) h0
  have h13 : MArr g (['v','t','x','y'].map some) s (fun c => ctLog
      (g.marg (wtdP g L (m.joint g) true) ['t','v','x'] c)
      (g.marg (wtdP g L (m.joint g) true) ['t','x'] c) 1) := h12.congr fun c hc => by
    have := lg_sub_ctLog (a := 1) (b := 1) (d := 1) (nn ['t','v','x'] c) (nn ['t','x'] c) one_pos one_pos
      (by norm_num) (hz c)
    simpa using this
  have e0 : p.vtx density true = Param.onlyIf density (fun r => do
      let d ← p.logVol ['v']
      let q ← sub (T r) d
      .ok (T q)) s := by
    simp [Param.vtx, h1, h3, h5, h7, Np.sub, h9, h11]
  have key : ∃ A, p.vtx density true = .ok A ∧ MArr g (['v','t','x','y'].map some) A (fun c =>
      ctLog (g.marg (wtdP g L (m.joint g) true) ['t','v','x'] c)
      (g.marg (wtdP g L (m.joint g) true) ['t','x'] c) (dvol g density ['v'] c)) := by
    rw [e0]
    cases density with
    | false => exact ⟨s, rfl, h13⟩
    | true =>
      obtain ⟨d, A, k1, k2, k3⟩ := h.opT (· - ·) (ch := 'v') (by simp) h13
      refine ⟨T A, by simp [Param.onlyIf, k1, Np.sub, k2], k3.congr fun c hc => ?_⟩
      have := volOf_pos h.proper hc ['v']
      rw [ctLog_sub (nn _ _) (nn _ _) one_pos this]
      simp [dvol]
  refine (getP_own (p := p) hq (f := p.vtx) rfl density true (IsL.cond hq key)).congr fun c hc => ?_
  exact exp_ctLog (nn _ _) (nn _ _) (dvol_pos h.proper hc _ _)

end

end PKM
