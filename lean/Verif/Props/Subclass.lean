import Verif.Subclass
import Verif.LMoment
import Verif.Props.Ybar

/-!
# C75: components written by users

The documented way of adding a kind of component is to subclass `Component` and to override `_get_log_p_tvxz` (and possibly more of the
methods `_get_log_p_*`, `get_mean_*`).  Every method of the API then has to answer for the new distribution.
-/

open scoped Classical

noncomputable section

namespace PKM
open Np Component

variable {cube : IFUCube} {stored : Arr Num} {g : Grid} {ρ : Cell → ℝ} {L : ℕ → ℕ → ℝ} {lw : Bool} {own : Overrides} {P : Cell → ℝ}

/-- The methods of the subclass tell the truth about the distribution with the probability `P` in each cell, as far as they answer: the
joint distribution has to be there; other marginals, conditionals and means may be; a conditional may be not implemented. -/
structure Truthful (own : Overrides) (g : Grid) (lw : Bool) (P : Cell → ℝ) : Prop where
  nonneg : ∀ d, g.Has d → 0 ≤ P d
  joint : ∃ f, own.logP ['t','v','x','z'] = some f
  marg : ∀ w ∈ marginals, ∀ f, own.logP w = some f → ∀ density, Gives (f density lw) g w
    (fun c => Num.lg (g.marg P w c / dvol g density w c))
  cond : ∀ a b, (a, b) ∈ conditionals → ∀ f, own.logP (condStr a b) = some f → ∀ density,
    f density lw = .error .attributeError ∨ f density lw = .error .notImplementedError ∨
    ∃ F, Gives (f density lw) g (condStr a b) F ∧
      ∀ c, g.Has c → (F c).exp = condTable (g.marg P (unionStr a b) c) (g.marg P b c) (dvol g density a c)
  mean : ∀ a b, ValidPair a b → a.length = 1 → ∀ f, own.mean (distStr a b) = some f →
    ∃ r, f lw = .ok r ∧ IsMom g a b r (fun q => g.expect P (g.value q) b)

/-- A marginal computed from the joint distribution. -/
theorem margOf_gives (hg : g.Proper) (hP : ∀ d, g.Has d → 0 ≤ P d) {joint : Bool → Bool → Py (Arr Num)}
    (hj : Gives (joint false lw) g ['t','v','x','z'] (fun c => Num.lg (P c)))
    {w : PyStr} (hw : w ∈ marginals) (hr : removable ['t','v','x','y','z'] (complL w))
    (hdiff : (['t','v','x','y','z'] : List Char).diff (complL w) = PyStr.replaceX w)
    {axes : List ℤ} (ha : axesOK ['t','v','x','y','z'] axes (complL w))
    {vol : Py (Arr Num)} (hv : ∃ d, vol = .ok d ∧ BArr g w d (fun c => .fin (g.volOf w c))) (density : Bool) :
    Gives (margOf joint axes vol density lw) g w (fun c => Num.lg (g.marg P w c / dvol g density w c)) := by
  have hax : ∀ ch ∈ (['t','v','x','y','z'] : List Char), AxisChar ch := fun ch hc => hc
  obtain ⟨A, hA, hA'⟩ := hj
  have hE' := (isArr_iff (by intro ch hc; exact hc)).1 (hA'.map Num.exp)
  obtain ⟨r, hr1, hr2⟩ := LArr.sum hE' (by decide) hax hr ha
  have hr3 : IsArr g w r (fun c => .fin (g.marg P w c)) := by
    refine IsArr.congr (f := sumOver g (complL w) (fun d => (Num.lg (P d)).exp)) ((isArr_iff (marginals_chars w hw)).2 ?_) fun c hc => ?_
    · rw [← hdiff]; exact hr2
    · rw [sumOver_congr (f' := fun d => Num.fin (P d)) _ complL_axis hc (fun d hd => Num.exp_lg (hP d hd)), sumOver_fin,
        marg_eq_sumOver g _ w hw c hc]
  have hr4 := hr3.map Num.log
  have e : margOf joint axes vol density lw = (if density = true then do
      let d ← vol
      isub (Np.map Num.log r) (Np.map Num.log d) else .ok (Np.map Num.log r)) := by
    simp only [margOf, hA, Py.ok_bind, logsumexp, hr1]
  rw [e]
  cases density with
  | false => exact ⟨_, rfl, hr4.congr fun c hc => by simp [dvol, Num.log_fin]⟩
  | true =>
    obtain ⟨d, rfl, hd⟩ := hv
    obtain ⟨C, hC, hC'⟩ := hr4.iop (· - ·) (hd.map Num.log)
    refine ⟨C, by simp [isub, hC], hC'.congr (fun c hc => ?_)⟩
    simp only [dvol, if_true, Num.log_fin]
    exact Num.lg_sub (marg_nonneg hP w c) (volOf_pos hg hc _)

/-- The inherited marginals. -/
theorem inherited_gives (hg : g.Proper) (hc : CubeIs cube g) (hP : ∀ d, g.Has d → 0 ≤ P d) {joint : Bool → Bool → Py (Arr Num)}
    (hj : ∀ density, Gives (joint density lw) g ['t','v','x','z'] (fun c => Num.lg (g.marg P ['t','v','x','z'] c / dvol g density ['t','v','x','z'] c)))
    {w : PyStr} (hw : w ∈ marginals) :
    ∃ f, inheritedLogP cube joint w = some f ∧
      ∀ density, Gives (f density lw) g w (fun c => Num.lg (g.marg P w c / dvol g density w c)) := by
  have hvol : ∃ d, cube.constructVolumeElement w = .ok d ∧ BArr g w d (fun c => .fin (g.volOf w c)) := by
    obtain ⟨d, h1, -, h2⟩ := volumeElement_plain hc hg.nx hg.ny (marginals_chars w hw)
    exact ⟨d, h1, h2⟩
  have hj0 : Gives (joint false lw) g ['t','v','x','z'] (fun c => Num.lg (P c)) := (hj false).congr fun c hc => by
    rw [marg_full hc]; simp [dvol]
  have hw0 := hw
  simp only [marginals, List.mem_cons, List.not_mem_nil, or_false] at hw
  rcases hw with e | e | e | e | e | e | e | e | e | e | e | e | e | e | e <;> subst e <;>
    simp only [inheritedLogP, List.cons.injEq, reduceCtorEq, Char.reduceEq,
      and_self, and_true, and_false, if_true, if_false, Option.some.injEq, exists_eq_left'] <;>
    first
    | exact fun density => margOf_gives hg hP hj0 hw0 (by decide) (by decide) (by decide) hvol density
    | skip
  · refine fun density => margOf_gives hg hP hj0 hw0 (by decide) (by decide) (by decide) ⟨_, rfl, ?_⟩ density
    have hd := hc.deltaT
    refine IsArr.barr ⟨by simp [hd.shape, Grid.shapeOf, Grid.shape1], fun c hc => ?_⟩
    simp [coords, coord1, hd.get _ hc.1, Grid.volOf, Grid.width1]
  · exact hj

theorem Truthful.contract (hg : g.Proper) (hc : CubeIs cube g) (h : Truthful own g lw P) : Contract (subSelf cube stored own) g lw (g.marg P) where
  proper := hg
  cube := hc
  nonneg w c _ _ := marg_nonneg h.nonneg w c
  marg density w hw := by
    obtain ⟨f, hf⟩ := h.joint
    unfold getLogMarginal subSelf
    cases e : own.logP w with
    | some f => simpa only [e] using h.marg w hw f e density
    | none =>
      obtain ⟨f', h1, h2⟩ := inherited_gives hg hc h.nonneg (joint := f) (h.marg _ (by decide) f hf) hw
      simp only [e, hf, Option.getD_some, h1]
      exact h2 density
  absCont p c hp hc h0 := marg_zero_of_subset h.nonneg (fun d => coords_union_eq p hp c d) h0

theorem inherited_none (joint : Bool → Bool → Py (Arr Num)) {w : PyStr} (hw : w ∉ marginals) : inheritedLogP cube joint w = none := by
  simp only [marginals, List.mem_cons, List.not_mem_nil, or_false, not_or] at hw
  unfold inheritedLogP
  simp [hw]

/-- All 15 marginal distributions: `get_p` and its densities are those of the distribution `P`. -/
theorem C75_marginals (hg : g.Proper) (hc : CubeIs cube g) (h : Truthful own g lw P) (w : PyStr) (hw : w ∈ marginals) :
    ∃ p d, getP (subSelf cube stored own) w false lw = .ok p ∧ getP (subSelf cube stored own) w true lw = .ok d ∧
      p.shape = g.shapeOf w ∧ d.shape = g.shapeOf w ∧ ∀ c, g.Has c →
        p.get (coords w c) = .fin (g.marg P w c) ∧ d.get (coords w c) = .fin (g.marg P w c / g.volOf w c) := by
  obtain ⟨p, hp, hp1, hp2⟩ := getP_marg_of_contract (h.contract (stored := stored) hg hc) false w hw
  obtain ⟨d, hd, hd1, hd2⟩ := getP_marg_of_contract (h.contract (stored := stored) hg hc) true w hw
  exact ⟨p, d, hp, hd, hp1, hd1, fun c hc => ⟨(hp2 c hc).trans (by simp [dvol]), (hd2 c hc).trans (by simp [dvol])⟩⟩

/-- What `get_log_p` of a conditional does with the subclass's own method. -/
theorem C75_fallback (a b : PyStr) (hab : (a, b) ∈ conditionals) (f : Bool → Bool → Py (Arr Num)) (hf : own.logP (condStr a b) = some f)
    (density lw : Bool) :
    getLogP (subSelf cube stored own) (condStr a b) density lw =
      if f density lw = .error .attributeError ∨ f density lw = .error .notImplementedError then
        getLogP (subSelf cube stored { own with logP := Function.update own.logP (condStr a b) none }) (condStr a b) density lw
      else f density lw := by
  obtain ⟨-, -, -, h4, h5, -, h7, -, h9, h10⟩ := conditionals_letters _ hab
  have hs := split_condStr (a := a) (b := b) (DistChars.noUnderscore h4) (DistChars.noUnderscore h5)
  have ne : ∀ w ∈ marginals, w ≠ condStr a b := fun w hw e => condStr_not_marginal a b (e ▸ hw)
  have key : ∀ w ∈ marginals, ∀ d l, getLogMarginal (subSelf cube stored { own with logP := Function.update own.logP (condStr a b) none }) w d l =
      getLogMarginal (subSelf cube stored own) w d l := by
    intro w hw d l
    simp only [getLogMarginal, subSelf, Function.update_of_ne (ne w hw), Function.update_of_ne (ne _ (show ['t','v','x','z'] ∈ marginals by decide))]
  have e1 : getLogMarginal (subSelf cube stored own) (condStr a b) density lw = f density lw := by
    simp only [getLogMarginal, subSelf, hf]
  have e2 : getLogMarginal (subSelf cube stored { own with logP := Function.update own.logP (condStr a b) none }) (condStr a b) density lw =
      .error .attributeError := by
    simp only [getLogMarginal, subSelf, Function.update_self, inherited_none _ (condStr_not_marginal a b)]
  have e3 : condFromJoint (subSelf cube stored { own with logP := Function.update own.logP (condStr a b) none }) (condStr a b) a b density lw =
      condFromJoint (subSelf cube stored own) (condStr a b) a b density lw := by
    simp only [condFromJoint, h7, key _ h9, key _ h10]
    rfl
  simp only [getLogP, hasUnderscore_condStr, if_true, getLogConditional, hs, e1, e2, e3]
  cases f density lw with
  | ok r => simp
  | error e => cases e <;> simp

theorem Truthful.cond_gives (hg : g.Proper) (hc : CubeIs cube g) (h : Truthful own g lw P) (density : Bool) (p : PyStr × PyStr) (hp : p ∈ conditionals) :
    Gives (getP (subSelf cube stored own) (condStr p.1 p.2) density lw) g (condStr p.1 p.2)
      (fun c => condTable (g.marg P (unionStr p.1 p.2) c) (g.marg P p.2 c) (dvol g density p.1 c)) := by
  obtain ⟨a, b⟩ := p
  cases e : own.logP (condStr a b) with
  | none =>
    exact getP_cond_of_contract (h.contract (stored := stored) hg hc) density (a, b) hp (by
      simp only [subSelf, e]; exact inherited_none _ (condStr_not_marginal a b))
  | some f =>
    have fb := C75_fallback (cube := cube) (stored := stored) a b hp f e density lw
    have h' : Truthful { own with logP := Function.update own.logP (condStr a b) none } g lw P := by
      have ne : ∀ w ∈ marginals, w ≠ condStr a b := fun w hw e => condStr_not_marginal a b (e ▸ hw)
      refine ⟨h.nonneg, ?_, fun w hw f hf => h.marg w hw f ?_, fun a' b' hab' f hf => ?_, h.mean⟩
      · simpa only [Function.update_of_ne (ne _ (show ['t','v','x','z'] ∈ marginals by decide))] using h.joint
      · simpa only [Function.update_of_ne (ne w hw)] using hf
      · by_cases e' : condStr a' b' = condStr a b
        · simp [e'] at hf
        · exact h.cond a' b' hab' f (by simpa only [Function.update_of_ne e'] using hf)
    have base := getP_cond_of_contract (h'.contract (stored := stored) hg hc) density (a, b) hp (by
      simp only [subSelf, Function.update_self]; exact inherited_none _ (condStr_not_marginal a b))
    rcases h.cond a b hp f e density with e1 | e1 | ⟨F, ⟨A, hA, hA'⟩, hF⟩
    · rw [if_pos (.inl e1)] at fb
      simpa only [getP, fb] using base
    · rw [if_pos (.inr e1)] at fb
      simpa only [getP, fb] using base
    · rw [if_neg (by simp [hA])] at fb
      exact ⟨Np.map Num.exp A, by simp [getP, fb, hA], (hA'.map Num.exp).congr fun c hc => hF c hc⟩

/-- All 50 conditional distributions, whether the subclass implements them or not. -/
theorem C75_conditionals (hg : g.Proper) (hc : CubeIs cube g) (h : Truthful own g lw P) (a b : PyStr) (hab : (a, b) ∈ conditionals) :
    ∃ p d, getP (subSelf cube stored own) (condStr a b) false lw = .ok p ∧ getP (subSelf cube stored own) (condStr a b) true lw = .ok d ∧
      p.shape = g.shapeOf a ++ g.shapeOf b ∧ d.shape = g.shapeOf a ++ g.shapeOf b ∧ ∀ c, g.Has c →
        p.get (coords a c ++ coords b c) = g.condP P a b c ∧ d.get (coords a c ++ coords b c) * .fin (g.volOf a c) = g.condP P a b c := by
  obtain ⟨p, hp, hp1, hp2⟩ := h.cond_gives (stored := stored) hg hc false (a, b) hab
  obtain ⟨d, hd, hd1, hd2⟩ := h.cond_gives (stored := stored) hg hc true (a, b) hab
  refine ⟨p, d, hp, hd, by rw [hp1, shapeOf_condStr], by rw [hd1, shapeOf_condStr], fun c hc => ?_⟩
  rw [← coords_condStr, hp2 c hc, hd2 c hc]
  have := volOf_pos hg hc a
  simp only [dvol, condTable, Grid.condP, if_true, Bool.false_eq_true, if_false, div_one]
  refine ⟨trivial, ?_⟩
  split
  · rfl
  · rw [Num.fin_mul, div_mul_cancel₀ _ this.ne']

theorem Truthful.tab (hg : g.Proper) (hc : CubeIs cube g) (h : Truthful own g lw P) {a b : PyStr} (hab : ValidPair a b) :
    HasTab (getP (subSelf cube stored own)) g lw P (g.condWt P b) a b := by
  rcases hab with ⟨rfl, ha⟩ | hab
  · exact hasTab_of_contract (h.contract (stored := stored) hg hc) (.inl ⟨rfl, ha⟩) (fun e => absurd rfl e)
  · obtain ⟨-, -, -, h4, h5, -, -, -, h9, -⟩ := conditionals_letters _ hab
    have hb : b ≠ [] := by
      rintro rfl
      have : ([] : PyStr) ∉ marginals := by decide +kernel
      exact this h9
    obtain ⟨A, hA, hA'⟩ := h.cond_gives (stored := stored) hg hc false (a, b) hab
    refine ⟨A, by simpa [distStr, hb] using hA, ?_⟩
    have hA'' := (isArr_cond_iff h4 h5).1 hA'
    refine ⟨hA''.1, fun c hc => (hA''.2 c hc).trans ?_⟩
    simp [PKM.tab, Grid.condWt, hb, dvol]

theorem Truthful.std (hg : g.Proper) (hc : CubeIs cube g) (h : Truthful own g lw P) (hn : ∀ w, own.ncm w = none) (b : PyStr) :
    StdAt (Component.obj (subSelf cube stored own)) g lw P b := by
  have hT : ∀ a, ValidPair a b → HasTab (getP (subSelf cube stored own)) g lw P (g.condWt P b) a b := fun a hab => h.tab hg hc hab
  have hm := respects_condWt (g := g) P b
  have hmean : ∀ a, ValidPair a b → a.length = 1 → ∃ r, getMean (subSelf cube stored own) (distStr a b) lw = .ok r ∧
      IsMom g a b r (fun q => expectM g P (g.condWt P b) (g.value q) b) := by
    intro a hab h1
    cases e : own.mean (distStr a b) with
    | none => exact getMean_table hg hc hab h1 e (hT a hab) hm
    | some f =>
      obtain ⟨h2, h3, h4, h5, -⟩ := validPair_facts a b hab
      obtain ⟨r, hr, hr'⟩ := h.mean a b hab h1 f e
      exact ⟨r, by simp [getMean, headVar_distStr h4 h5, h1, subSelf, e, hr], hr'⟩
  exact ⟨hg, hc, h.nonneg, hT, hmean, fun a hab h1 j =>
    getCentral_of_mean hg hc hab h1 (hn _) (hT a hab) hm (hmean a hab h1) j⟩

/-- Means, central moments, covariances and L-moments are those of `P`. -/
theorem C75_moments (hg : g.Proper) (hc : CubeIs cube g) (h : Truthful own g lw P) (hn : ∀ w, own.ncm w = none) (b : PyStr) :
    (∀ q ∈ ['t','v','x','y','z'], ValidPair (varOf q) b →
      (∃ r, getMean (subSelf cube stored own) (distStr (varOf q) b) lw = .ok r ∧ r.shape = compShape (varOf q) ++ g.shapeOf b ∧
        ∀ c, g.Has c → r.get (compIdx q ++ coords b c) = g.expect P (g.value q) b c) ∧
      ∀ j, ∃ r, getCentralMoment (subSelf cube stored own) (distStr (varOf q) b) j lw = .ok r ∧ r.shape = compShape (varOf q) ++ g.shapeOf b ∧
        ∀ c, g.Has c → r.get (compIdx q ++ coords b c) = g.expect P (fun d => (g.value q d - g.mean P q b d) ^ j) b c) ∧
    (∀ a0 a1, ValidPair [a0, a1] b → ∃ r, (Component.obj (subSelf cube stored own)).getCovariance (distStr [a0, a1] b) lw = .ok r ∧
      IsCov g a0 a1 b r (fun q q' => g.expect P (fun d => (g.value q d - g.mean P q b d) * (g.value q' d - g.mean P q' b d)) b)) ∧
    (∀ q ∈ ['t','v','z'], ValidPair [q] b → ∀ j : ℕ, 1 ≤ j → ∃ r,
      (Component.obj (subSelf cube stored own)).getLMoment (distStr [q] b) j lw = .ok r ∧ IsArr g b r (fun c =>
        if g.condWt P b c = 0 then .nan else .fin (lmoment (g.bins q) (g.edge q) (g.binProb P q b c) j))) := by
  have S := h.std (stored := stored) hg hc hn b
  refine ⟨fun q hq hb => ?_, fun a0 a1 hab => S.covariance hab, fun q hq hb j hj => getLMoment_std S hq hb j hj⟩
  obtain ⟨h1, h2, -⟩ := quantity_facts hq
  obtain ⟨r, hr, hr'⟩ := S.mean _ hb h1
  refine ⟨⟨r, hr, hr'.1, fun c hc => hr'.2 q h2 c hc⟩, fun j => ?_⟩
  obtain ⟨r, hr, hr'⟩ := S.central _ hb h1 j
  exact ⟨r, hr, hr'.1, fun c hc => hr'.2 q h2 c hc⟩

/-- A hook for a mean is used as it is: nothing replaces it if it raises an exception (unlike a hook for a conditional). -/
theorem C75_own_mean (w : PyStr) (hw : (headVar w).length = 1) (f : Bool → Py (Arr Num)) (hf : own.mean w = some f) (lw : Bool) :
    getMean (subSelf cube stored own) w lw = f lw := by
  simp [getMean, hw, subSelf, hf]

/-- A subclass with its own joint distribution does not use the array given to `Component.__init__`, in any method. -/
theorem C75_stored_unused (f : Bool → Bool → Py (Arr Num)) (hf : own.logP ['t','v','x','z'] = some f) (stored' : Arr Num) :
    subSelf cube stored own = subSelf cube stored' own := by
  simp only [subSelf, hf, Option.getD_some]

/-- The datacube of the subclass is that of a plain component with the same density. -/
theorem C75_datacube {interp : ℕ → (ℕ → ℂ) → ℝ → ℂ} {S : ℕ → ℕ → ℕ → ℝ} {n v0 : ℕ} {sp : Spectra} {stored' : Arr Num} (hI : Interp interp)
    (h : BaseIs cube stored' g ρ L) (ht : Truthful own g false (massP g ρ)) (hn : 0 < n) (hS : SpectraAre sp g S n n)
    (h0 : ZeroBin g.nv g.v v0) (hv : VelocityOk g.nv g.v sp.dv v0) (hm : 6 ≤ g.nv) (batch : PyStr)
    (hb : batch ∈ ["none".toList, "column".toList, "spaxel".toList]) :
    ∃ y y', evaluateYbar interp (subSelf cube stored own) sp batch = .ok y ∧ evaluateYbar interp (baseSelf cube stored') sp batch = .ok y' ∧
      y.shape = [n, g.nx, g.ny] ∧ y'.shape = [n, g.nx, g.ny] ∧
      ∀ k < n, ∀ x < g.nx, ∀ z < g.ny, y.get [k, x, z] = y'.get [k, x, z] := by
  obtain ⟨p, hp, hs, hg⟩ := getP_marg_of_contract (ht.contract (stored := stored) h.proper h.cubeIs) true ['t','v','x','z'] (by decide)
  have hp' : Is5 p g.nt g.nv g.nx g.ny g.nz (fun t v x y z => .fin (ρ ⟨t, v, x, y, z⟩)) := by
    refine ⟨hs, fun t ht v hv x hx y hy z hz => ?_⟩
    have hc : g.Has ⟨t, v, x, y, z⟩ := ⟨ht, hv, hx, hy, hz⟩
    have e := hg _ hc
    beta_reduce at e
    rw [marg_full hc] at e
    have hpos := cellVolume_pos h.proper hc
    have e' : massP g ρ ⟨t, v, x, y, z⟩ / dvol g true ['t','v','x','z'] ⟨t, v, x, y, z⟩ = ρ ⟨t, v, x, y, z⟩ := by
      simp only [dvol, if_true, volOf_tvxz, massP]
      field_simp
    rw [e'] at e
    simpa [coords, coord1] using e
  obtain ⟨⟨y1, a1, b1, c1⟩, e2, e3, -⟩ := (evaluateYbar_of hI.loc (s := subSelf cube stored own) h.proper h.cubeIs hp hp' hn hS h0 hv).2
    (by unfold Fft.half; omega)
  obtain ⟨⟨y1', a1', b1', c1'⟩, e2', e3', -⟩ := (evaluateYbar_is hI.loc h hn hS h0 hv).2 (by unfold Fft.half; omega)
  obtain ⟨y2, a2, b2, c2⟩ := e2 rfl
  obtain ⟨y3, a3, b3, c3⟩ := e3 rfl
  obtain ⟨y2', a2', b2', c2'⟩ := e2' rfl
  obtain ⟨y3', a3', b3', c3'⟩ := e3' rfl
  simp only [List.mem_cons, List.not_mem_nil, or_false] at hb
  rcases hb with rfl | rfl | rfl
  · exact ⟨y1, y1', a1, a1', b1, b1', fun k hk x hx z hz => (c1 k hk x hx z hz).trans (c1' k hk x hx z hz).symm⟩
  · exact ⟨y2, y2', a2, a2', b2, b2', fun k hk x hx z hz => (c2 k hk x hx z hz).trans (c2' k hk x hx z hz).symm⟩
  · exact ⟨y3, y3', a3, a3', b3, b3', fun k hk x hx z hz => (c3 k hk x hx z hz).trans (c3' k hk x hx z hz).symm⟩

/-- A subclass that wraps a plain component: its joint distribution is that of the component, and `_get_log_p_t_x` is declared but not
implemented. -/
def wrapper (cube : IFUCube) (stored : Arr Num) : Overrides where
  logP w := if w = ['t','v','x','z'] then some (logPtvxz cube stored)
    else if w = condStr ['t'] ['x'] then some (fun _ _ => .error .notImplementedError) else none
  mean _ := none
  ncm _ := none

theorem wrapper_truthful (h : BaseIs cube stored g ρ L) (hlw : lw = true → 0 < totalLight g L (massP g ρ)) :
    Truthful (wrapper cube stored) g lw (wtdP g L (massP g ρ) lw) := by
  refine ⟨fun d hd => h.wtd_nonneg lw hd, ⟨_, rfl⟩, fun w hw f hf density => ?_, fun a b hab f hf density => ?_, fun a b _ _ f hf => by cases hf⟩
  · have hne : w ≠ condStr ['t'] ['x'] := fun e => condStr_not_marginal _ _ (e ▸ hw)
    simp only [wrapper, if_neg hne] at hf
    split at hf
    · next e =>
      subst e
      obtain rfl := Option.some.inj hf
      refine (h.logPtvxz density lw hlw).congr fun c hc => ?_
      rw [marg_full hc]
    · cases hf
  · have hne : condStr a b ≠ ['t','v','x','z'] := fun e => condStr_not_marginal a b (e ▸ by decide)
    simp only [wrapper, if_neg hne] at hf
    split at hf
    · obtain rfl := Option.some.inj hf
      exact .inr (.inl rfl)
    · cases hf

/-- The wrapper of a uniform component: its `p(t|x)` is answered although not implemented, and its datacube is that of the component. -/
example : ∃ (cube : IFUCube) (sp : Spectra) (stored : Arr Num), ∃ p y y',
    getP (subSelf cube stored (wrapper cube (uniformStored 2 3 7))) "t_x".toList false false = .ok p ∧ p.shape = [2, 2, 3] ∧
    evaluateYbar (fun m Y x => Y (min (m - 1) ⌊x * (m - 1 : ℝ) + 1 / 2⌋₊)) (subSelf cube stored (wrapper cube (uniformStored 2 3 7))) sp "column".toList =
      .ok y ∧
    evaluateYbar (fun m Y x => Y (min (m - 1) ⌊x * (m - 1 : ℝ) + 1 / 2⌋₊)) (baseSelf cube (uniformStored 2 3 7)) sp "column".toList = .ok y' ∧
    y.shape = y'.shape := by
  obtain ⟨cube, sp, -, h2, h3, h4, h5, h6, h7⟩ := ybar_demo
  have ht := wrapper_truthful (lw := false) h2 (by simp)
  obtain ⟨p, -, hp, -, hs, -⟩ := C75_conditionals (stored := scalar .nan) h2.proper h2.cubeIs ht ['t'] ['x'] (by decide)
  obtain ⟨y, y', a1, a2, a3, a4, -⟩ := C75_datacube (stored := scalar .nan) interp_exists h2 (by simpa [wtdP] using ht) (by norm_num) h3 h5 h6
    (by show 6 ≤ 7; norm_num) "column".toList (by simp)
  exact ⟨cube, sp, scalar .nan, p, y, y', hp, hs, a1, a2, a3.trans a4.symm⟩

end PKM
