import Verif.Axes

/-! Lemmas: the marginals of a plain `Component`. -/

open scoped Classical

noncomputable section

namespace PKM
open Np Component

/-- Probability mass of the cells for the density `ρ`. -/
def massP (g : Grid) (ρ : Cell → ℝ) (c : Cell) : ℝ := ρ c * g.cellVolume c

/-- Mass- or light-weighted probability of the cells. -/
def wtdP (g : Grid) (L : ℕ → ℕ → ℝ) (P : Cell → ℝ) (lw : Bool) : Cell → ℝ :=
  if lw then g.lightP L P else P

/-- A component has been built on the cube `cube` representing the grid `g` from the array of log
densities `stored`, whose entries are `log ρ` with `ρ ≥ 0` (`-inf` allowed), and the SSP light
weights are `L t z ≥ 0`. -/
structure BaseIs (cube : IFUCube) (stored : Arr Num) (g : Grid) (ρ : Cell → ℝ) (L : ℕ → ℕ → ℝ) :
    Prop where
  proper : g.Proper
  cubeIs : CubeIs cube g
  stored : IsArr g ['t','v','x','z'] stored (fun c => Num.lg (ρ c))
  nonneg : ∀ c, 0 ≤ ρ c
  light : IsArr g ['t','z'] cube.ssps.lightWeights (fun c => .fin (L c.t c.z))
  lightNonneg : ∀ t z, 0 ≤ L t z

theorem volOf_tvxz (g : Grid) (c : Cell) : g.volOf ['t','v','x','z'] c = g.cellVolume c := by
  simp [Grid.volOf, Grid.width1, Grid.cellVolume]; ring

theorem cellVolume_pos {g : Grid} (hg : g.Proper) {c : Cell} (hc : g.Has c) : 0 < g.cellVolume c := by
  rw [← volOf_tvxz]; exact volOf_pos hg hc _

theorem sumShape_fin : ∀ (s : List ℕ) (f : List ℕ → ℝ),
    sumShape s (fun i => Num.fin (f i)) = .fin (sumShape s f)
  | [], _ => rfl
  | n :: s, f => by simp only [sumShape, sumShape_fin s, Num.fin_sum]

theorem sumShape_congr {α : Type} [AddCommMonoid α] : ∀ (s : List ℕ) {f f' : List ℕ → α},
    (∀ i, InBox s i → f i = f' i) → sumShape s f = sumShape s f'
  | [], f, f', h => h [] trivial
  | n :: s, f, f', h => by
    simp only [sumShape]
    exact Finset.sum_congr rfl (fun j _ => sumShape_congr s (fun i hi => h _ ⟨j.2, hi⟩))

/-- Sum over all entries of an array representing `tvxz`. -/
theorem sumAll_tvxz {g : Grid} {A : Arr Num} {f : Cell → ℝ}
    (h : IsArr g ['t','v','x','z'] A (fun c => .fin (f c))) :
    sumAll A = scalar (.fin (g.sumCells f)) := by
  unfold sumAll
  congr 1
  rw [h.1]
  have h2 := h.2
  rw [forall_cell] at h2
  simp [coords, coord1] at h2
  simp only [Grid.shapeOf, Grid.shape1, List.flatMap_cons, List.flatMap_nil, Grid.sumCells,
    ← Num.fin_sum]
  simp [sumShape]
  refine Finset.sum_congr rfl fun t _ => Finset.sum_congr rfl fun v _ => Finset.sum_congr rfl
    fun x _ => Finset.sum_congr rfl fun y _ => Finset.sum_congr rfl fun z _ => ?_
  simpa using h2 t v x y z

theorem barr_scalar (g : Grid) (w : PyStr) (x : Num) : BArr g w (scalar x) (fun _ => x) := by
  refine ⟨by simp [scalar], fun c _ => rfl⟩

/-- `light_weights[:,na,na,na,:]` broadcasts against the joint. -/
theorem barr_light {g : Grid} {A : Arr Num} {f : Cell → Num} (h : IsArr g ['t','z'] A f) :
    ∃ r, getitem [.all, .na, .na, .na, .all] A = .ok r ∧ BArr g ['t','v','x','z'] r f := by
  obtain ⟨hs, hg⟩ := h
  simp [Grid.shapeOf, Grid.shape1] at hs
  refine ⟨⟨[g.nt, 1, 1, 1, g.nz], fun i => A.get (ixIdx [.all, .na, .na, .na, .all] A.shape i)⟩,
    ?_, ?_, ?_⟩
  · simp [getitem, hs, ixShape]
  · simp [Grid.shapeOf, Grid.shape1, bshapeR]
  · rw [forall_cell] at hg ⊢
    intro t v x y z
    have := hg t v x y z
    simp [coords, coord1] at this
    simp [coords, coord1, bproj, hs, ixIdx, this]

theorem sumCells_nonneg {g : Grid} {f : Cell → ℝ} (h : ∀ c, g.Has c → 0 ≤ f c) : 0 ≤ g.sumCells f := by
  rw [forall_cell] at h
  exact Finset.sum_nonneg fun t _ => Finset.sum_nonneg fun v _ => Finset.sum_nonneg fun x _ =>
    Finset.sum_nonneg fun y _ => Finset.sum_nonneg fun z _ => h t v x y z

theorem massP_nonneg {g : Grid} (hg : g.Proper) {ρ : Cell → ℝ} (hρ : ∀ c, 0 ≤ ρ c) {c : Cell}
    (hc : g.Has c) : 0 ≤ massP g ρ c := mul_nonneg (hρ c) (cellVolume_pos hg hc).le

/-- Total light. -/
def totalLight (g : Grid) (L : ℕ → ℕ → ℝ) (P : Cell → ℝ) : ℝ :=
  g.sumCells (fun d => L d.t d.z * P d)

section
variable {cube : IFUCube} {stored : Arr Num} {g : Grid} {ρ : Cell → ℝ} {L : ℕ → ℕ → ℝ}

theorem BaseIs.wtd_nonneg (h : BaseIs cube stored g ρ L) (lw : Bool) {c : Cell} (hc : g.Has c) :
    0 ≤ wtdP g L (massP g ρ) lw c := by
  unfold wtdP
  split
  · exact div_nonneg (mul_nonneg (h.lightNonneg _ _) (massP_nonneg h.proper h.nonneg hc))
      (sumCells_nonneg fun d hd =>
        mul_nonneg (h.lightNonneg _ _) (massP_nonneg h.proper h.nonneg hd))
  · exact massP_nonneg h.proper h.nonneg hc

theorem BaseIs.logPtvxz (h : BaseIs cube stored g ρ L) (density lw : Bool)
    (hlw : lw = true → 0 < totalLight g L (massP g ρ)) :
    Gives (Component.logPtvxz cube stored density lw) g ['t','v','x','z']
      (fun c => Num.lg (wtdP g L (massP g ρ) lw c / dvol g density ['t','v','x','z'] c)) := by
  obtain ⟨d, hd, -, hdb⟩ := volumeElement_plain h.cubeIs h.proper.nx h.proper.ny
    (w := ['t','v','x','z']) (by intro ch hc; exact hc)
  have hld := hdb.map Num.log
  obtain ⟨A, hA, hA'⟩ := h.stored.iop (· + ·) hld
  have hA2 : IsArr g ['t','v','x','z'] A (fun c => Num.lg (massP g ρ c)) := hA'.congr (fun c hc => by
    rw [Num.log_fin, volOf_tvxz]
    exact Num.lg_add (h.nonneg c) (cellVolume_pos h.proper hc).le)
  -- the optional light-weighting step
  have step : ∃ B, (if lw = true then applyLight cube A else .ok A) = .ok B ∧
      IsArr g ['t','v','x','z'] B (fun c => Num.lg (wtdP g L (massP g ρ) lw c)) := by
    cases lw with
    | false => exact ⟨A, by simp, by simpa [wtdP] using hA2⟩
    | true =>
      obtain ⟨l, hl, hl'⟩ := barr_light h.light
      obtain ⟨B, hB, hB'⟩ := hA2.iop (· + ·) (hl'.map Num.log)
      have hB2 : IsArr g ['t','v','x','z'] B (fun c => Num.lg (L c.t c.z * massP g ρ c)) :=
        hB'.congr (fun c hc => by
          rw [Num.log_fin, Num.lg_add (massP_nonneg h.proper h.nonneg hc) (h.lightNonneg _ _), mul_comm])
      have hexp : IsArr g ['t','v','x','z'] (Np.map Num.exp B)
          (fun c => .fin (L c.t c.z * massP g ρ c)) := (hB2.map Num.exp).congr (fun c hc =>
        Num.exp_lg (mul_nonneg (h.lightNonneg _ _) (massP_nonneg h.proper h.nonneg hc)))
      have hn : logsumexpAll B = scalar (Num.lg (totalLight g L (massP g ρ))) := by
        unfold logsumexpAll
        rw [sumAll_tvxz hexp]; rfl
      obtain ⟨C, hC, hC'⟩ := hB2.iop (· - ·) (barr_scalar g _ (Num.lg (totalLight g L (massP g ρ))))
      refine ⟨C, by simp [applyLight, hl, iadd, hB, hn, isub, hC], hC'.congr (fun c hc => ?_)⟩
      show Num.lg _ - Num.lg _ = _
      rw [Num.lg_sub (mul_nonneg (h.lightNonneg _ _) (massP_nonneg h.proper h.nonneg hc)) (hlw rfl)]
      simp [wtdP, Grid.lightP, totalLight]
  obtain ⟨B, hB, hB'⟩ := step
  have e : Component.logPtvxz cube stored density lw =
      (if density = true then isub B (Np.map Num.log d) else .ok B) := by
    simp only [Component.logPtvxz, hd, Py.ok_bind, iadd, hA, hB]
  rw [e]
  cases density with
  | false => exact ⟨B, rfl, by simpa [dvol] using hB'⟩
  | true =>
    obtain ⟨C, hC, hC'⟩ := hB'.iop (· - ·) hld
    refine ⟨C, by simp [isub, hC], hC'.congr (fun c hc => ?_)⟩
    rw [Num.log_fin, Num.lg_sub (h.wtd_nonneg lw hc) (volOf_pos h.proper hc _)]
    simp [dvol]

theorem sumOver_nonneg {g : Grid} : ∀ (S : List Char) {f : Cell → ℝ} {c : Cell},
    (∀ ch ∈ S, AxisChar ch) → g.Has c → (∀ d, g.Has d → 0 ≤ f d) → 0 ≤ sumOver g S f c
  | [], _, _, _, hc, h => h _ hc
  | s :: S, f, c, hS, hc, h => by
    simp only [sumOver]
    apply sumOver_nonneg S (fun ch hc => hS ch (by simp [hc])) hc
    intro d hd
    exact Finset.sum_nonneg (fun j _ => h _ (has_setL hd (hS s (by simp)) j.2))

theorem marg_nonneg {g : Grid} {P : Cell → ℝ} (hP : ∀ d, g.Has d → 0 ≤ P d) (w : PyStr) (c : Cell) :
    0 ≤ g.marg P w c :=
  sumCells_nonneg fun d hd => by split <;> [exact hP d hd; exact le_rfl]

theorem sumCells_zero_term {f : Cell → ℝ} (hf : ∀ c, g.Has c → 0 ≤ f c) (h0 : g.sumCells f = 0)
    {c : Cell} (hc : g.Has c) : f c = 0 := by
  obtain ⟨h1, h2, h3, h4, h5⟩ := hc
  rw [forall_cell] at hf
  unfold Grid.sumCells at h0
  rw [Finset.sum_eq_zero_iff_of_nonneg (fun t _ => Finset.sum_nonneg fun v _ => Finset.sum_nonneg
    fun x _ => Finset.sum_nonneg fun y _ => Finset.sum_nonneg fun z _ => hf t v x y z)] at h0
  have h0 := h0 ⟨c.t, h1⟩ (Finset.mem_univ _)
  rw [Finset.sum_eq_zero_iff_of_nonneg (fun v _ => Finset.sum_nonneg
    fun x _ => Finset.sum_nonneg fun y _ => Finset.sum_nonneg fun z _ => hf _ v x y z)] at h0
  have h0 := h0 ⟨c.v, h2⟩ (Finset.mem_univ _)
  rw [Finset.sum_eq_zero_iff_of_nonneg (fun x _ => Finset.sum_nonneg fun y _ =>
    Finset.sum_nonneg fun z _ => hf _ _ x y z)] at h0
  have h0 := h0 ⟨c.x, h3⟩ (Finset.mem_univ _)
  rw [Finset.sum_eq_zero_iff_of_nonneg (fun y _ => Finset.sum_nonneg fun z _ => hf _ _ _ y z)] at h0
  have h0 := h0 ⟨c.y, h4⟩ (Finset.mem_univ _)
  rw [Finset.sum_eq_zero_iff_of_nonneg (fun z _ => hf _ _ _ _ z)] at h0
  exact h0 ⟨c.z, h5⟩ (Finset.mem_univ _)

/-- Light-weighting a component without any light: every entry is nan. -/
theorem BaseIs.logPtvxz_dark (h : BaseIs cube stored g ρ L) (density : Bool)
    (h0 : totalLight g L (massP g ρ) = 0) :
    Gives (Component.logPtvxz cube stored density true) g ['t','v','x','z'] (fun _ => Num.nan) := by
  obtain ⟨d, hd, -, hdb⟩ := volumeElement_plain h.cubeIs h.proper.nx h.proper.ny
    (w := ['t','v','x','z']) (by intro ch hc; exact hc)
  have hld := hdb.map Num.log
  obtain ⟨A, hA, hA'⟩ := h.stored.iop (· + ·) hld
  have hA2 : IsArr g ['t','v','x','z'] A (fun c => Num.lg (massP g ρ c)) := hA'.congr (fun c hc => by
    rw [Num.log_fin, volOf_tvxz]
    exact Num.lg_add (h.nonneg c) (cellVolume_pos h.proper hc).le)
  obtain ⟨l, hl, hl'⟩ := barr_light h.light
  obtain ⟨B, hB, hB'⟩ := hA2.iop (· + ·) (hl'.map Num.log)
  have hB2 : IsArr g ['t','v','x','z'] B (fun c => Num.lg (L c.t c.z * massP g ρ c)) :=
    hB'.congr (fun c hc => by
      rw [Num.log_fin, Num.lg_add (massP_nonneg h.proper h.nonneg hc) (h.lightNonneg _ _), mul_comm])
  have hexp : IsArr g ['t','v','x','z'] (Np.map Num.exp B)
      (fun c => .fin (L c.t c.z * massP g ρ c)) := (hB2.map Num.exp).congr (fun c hc =>
    Num.exp_lg (mul_nonneg (h.lightNonneg _ _) (massP_nonneg h.proper h.nonneg hc)))
  have hn : logsumexpAll B = scalar (Num.lg (totalLight g L (massP g ρ))) := by
    unfold logsumexpAll
    rw [sumAll_tvxz hexp]; rfl
  obtain ⟨C, hC, hC'⟩ := hB2.iop (· - ·) (barr_scalar g _ (Num.lg (totalLight g L (massP g ρ))))
  have hC2 : IsArr g ['t','v','x','z'] C (fun _ => Num.nan) := hC'.congr (fun c hc => by
    have : L c.t c.z * massP g ρ c = 0 := sumCells_zero_term (g := g)
      (f := fun d => L d.t d.z * massP g ρ d)
      (fun d hd => mul_nonneg (h.lightNonneg _ _) (massP_nonneg h.proper h.nonneg hd)) h0 hc
    simp [this, h0])
  have e : Component.logPtvxz cube stored density true =
      (if density = true then isub C (Np.map Num.log d) else .ok C) := by
    simp [Component.logPtvxz, hd, iadd, hA, applyLight, hl, hB, hn, isub, hC]
  rw [e]
  cases density with
  | false => exact ⟨C, rfl, hC2⟩
  | true =>
    obtain ⟨D, hD, hD'⟩ := hC2.iop (· - ·) hld
    exact ⟨D, by simp [isub, hD], hD'.congr (fun c _ => by simp)⟩

/-- A marginal over letters complementary to `w`, from the joint. -/
theorem BaseIs.logPmarg_gen (h : BaseIs cube stored g ρ L) (density lw : Bool) {f : Cell → Num}
    (hf : Gives (Component.logPtvxz cube stored false lw) g ['t','v','x','z'] f)
    {w : PyStr} (hw' : DistChars w) (hr : removable ['t','v','x','y','z'] (complL w))
    (hdiff : (['t','v','x','y','z'] : List Char).diff (complL w) = PyStr.replaceX w)
    {axes : List ℤ} (ha : axesOK ['t','v','x','y','z'] axes (complL w))
    {vol : Py (Arr Num)} (hv : ∃ d, vol = .ok d ∧ BArr g w d (fun c => .fin (g.volOf w c))) :
    Gives (Component.logPmarg cube stored axes vol density lw) g w
      (fun c => if density then Num.log (sumOver g (complL w) (fun d => (f d).exp) c) -
          Num.lg (g.volOf w c) else Num.log (sumOver g (complL w) (fun d => (f d).exp) c)) := by
  have hax : ∀ ch ∈ (['t','v','x','y','z'] : List Char), AxisChar ch := fun ch hc => hc
  obtain ⟨A, hA, hA'⟩ := hf
  have hE := hA'.map Num.exp
  have hE' := (isArr_iff (by intro ch hc; exact hc)).1 hE
  obtain ⟨r, hr1, hr2⟩ := LArr.sum hE' (by decide) hax hr ha
  have hr3 : IsArr g w r (sumOver g (complL w) (fun d => (f d).exp)) := by
    refine (isArr_iff hw').2 ?_
    rw [← hdiff]; exact hr2
  have hr4 := hr3.map Num.log
  have e : Component.logPmarg cube stored axes vol density lw = (if density = true then do
      let d ← vol
      isub (Np.map Num.log r) (Np.map Num.log d) else .ok (Np.map Num.log r)) := by
    simp only [Component.logPmarg, hA, Py.ok_bind, logsumexp, hr1]
  rw [e]
  cases density with
  | false => exact ⟨_, rfl, by simpa using hr4⟩
  | true =>
    obtain ⟨d, rfl, hd⟩ := hv
    obtain ⟨C, hC, hC'⟩ := hr4.iop (· - ·) (hd.map Num.log)
    exact ⟨C, by simp [isub, hC], hC'.congr (fun c hc => by simp [Num.log_fin])⟩

theorem marginals_chars : ∀ w ∈ marginals, DistChars w := by
  unfold DistChars; decide +kernel

theorem BaseIs.marginal_gen (h : BaseIs cube stored g ρ L) (density lw : Bool) {f f' : Cell → Num}
    (hf : Gives (Component.logPtvxz cube stored false lw) g ['t','v','x','z'] f)
    (hf' : Gives (Component.logPtvxz cube stored true lw) g ['t','v','x','z'] f')
    {w : PyStr} (hw : w ∈ marginals) :
    Gives (getLogMarginal (baseSelf cube stored) w density lw) g w
      (fun c => if w = ['t','v','x','z'] then (if density then f' c else f c) else
        if density then Num.log (sumOver g (complL w) (fun d => (f d).exp) c) -
          Num.lg (g.volOf w c) else Num.log (sumOver g (complL w) (fun d => (f d).exp) c)) := by
  have hw' := marginals_chars w hw
  have hvol : ∃ d, cube.constructVolumeElement w = .ok d ∧ BArr g w d (fun c => .fin (g.volOf w c)) := by
    obtain ⟨d, h1, -, h2⟩ := volumeElement_plain h.cubeIs h.proper.nx h.proper.ny hw'
    exact ⟨d, h1, h2⟩
  simp only [marginals, List.mem_cons, List.not_mem_nil, or_false] at hw
  rcases hw with e | e | e | e | e | e | e | e | e | e | e | e | e | e | e <;> subst e <;>
    simp only [getLogMarginal, baseSelf, baseLogP, List.cons.injEq, reduceCtorEq, Char.reduceEq,
      and_self, and_true, and_false, if_true, if_false] <;>
    first
    | exact h.logPmarg_gen density lw hf hw' (by decide) (by decide) (by decide) hvol
    | skip
  · refine h.logPmarg_gen density lw hf hw' (by decide) (by decide) (by decide) ⟨_, rfl, ?_⟩
    have hd := h.cubeIs.deltaT
    refine IsArr.barr ⟨by simp [hd.shape, Grid.shapeOf, Grid.shape1], fun c hc => ?_⟩
    simp [coords, coord1, hd.get _ hc.1, Grid.volOf, Grid.width1]
  · cases density with
    | false => simpa using hf
    | true => simpa using hf'

theorem complL_axis {w : PyStr} : ∀ ch ∈ complL w, AxisChar ch := by
  intro ch hc
  have := (List.mem_filter.1 hc).1
  unfold AxisChar; fin_cases this <;> simp

/-- All 15 marginals of a plain component. -/
theorem BaseIs.marginal (h : BaseIs cube stored g ρ L) (density lw : Bool)
    (hlw : lw = true → 0 < totalLight g L (massP g ρ)) {w : PyStr} (hw : w ∈ marginals) :
    Gives (getLogMarginal (baseSelf cube stored) w density lw) g w
      (fun c => Num.lg (g.marg (wtdP g L (massP g ρ) lw) w c / dvol g density w c)) := by
  refine (h.marginal_gen density lw (h.logPtvxz false lw hlw) (h.logPtvxz true lw hlw) hw).congr
    (fun c hc => ?_)
  have e : sumOver g (complL w) (fun d => (Num.lg (wtdP g L (massP g ρ) lw d /
      dvol g false ['t','v','x','z'] d)).exp) c = .fin (g.marg (wtdP g L (massP g ρ) lw) w c) := by
    rw [sumOver_congr (f' := fun d => Num.fin (wtdP g L (massP g ρ) lw d)) _ complL_axis hc
      (fun d hd => by simp only [dvol, Bool.false_eq_true, if_false, div_one]
                      exact Num.exp_lg (h.wtd_nonneg lw hd)), sumOver_fin,
      marg_eq_sumOver g _ w hw c hc]
  split
  · next e =>
    subst e
    rw [marg_eq_sumOver g _ _ hw c hc]
    cases density <;> simp [complL, PyStr.replaceX, sumOver]
  · rw [e]
    cases density with
    | false => simp [dvol, Num.log_fin]
    | true =>
      simp only [if_true, Num.log_fin, dvol]
      exact Num.lg_sub (marg_nonneg (fun d hd => h.wtd_nonneg lw hd) w c) (volOf_pos h.proper hc _)

/-- Without any light all light-weighted marginals are nan. -/
theorem BaseIs.marginal_dark (h : BaseIs cube stored g ρ L) (density : Bool)
    (h0 : totalLight g L (massP g ρ) = 0) {w : PyStr} (hw : w ∈ marginals) :
    Gives (getLogMarginal (baseSelf cube stored) w density true) g w (fun _ => Num.nan) := by
  refine (h.marginal_gen density true (h.logPtvxz_dark false h0) (h.logPtvxz_dark true h0) hw).congr
    (fun c hc => ?_)
  simp [sumOver_nan h.proper]

theorem marg_zero_of_subset {P : Cell → ℝ} (hP : ∀ d, g.Has d → 0 ≤ P d) {a b : PyStr} {c : Cell}
    (hsub : ∀ d, coords a d = coords a c → coords b d = coords b c)
    (h0 : g.marg P b c = 0) : g.marg P a c = 0 := by
  apply le_antisymm _ (marg_nonneg hP a c)
  rw [← h0]
  unfold Grid.marg Grid.sumCells
  refine Finset.sum_le_sum fun t _ => Finset.sum_le_sum fun v _ => Finset.sum_le_sum
    fun x _ => Finset.sum_le_sum fun y _ => Finset.sum_le_sum fun z _ => ?_
  have := hP ⟨t, v, x, y, z⟩ ⟨t.2, v.2, x.2, y.2, z.2⟩
  show (if _ then _ else _) ≤ (if _ then _ else _)
  split_ifs with h1 h2
  · exact le_rfl
  · exact absurd (hsub _ h1) h2
  · exact this
  · exact le_rfl

theorem coords_union_eq : ∀ p ∈ conditionals, ∀ c d, coords (unionStr p.1 p.2) d =
    coords (unionStr p.1 p.2) c → coords p.2 d = coords p.2 c := by
  intro p hp c d
  obtain ⟨-, h2, -, h4, h5, h6, -⟩ := conditionals_letters p hp
  rw [coords_letters _ h6, coords_letters _ h6, coords_letters _ h5, coords_letters _ h5]
  intro h
  apply List.map_congr_left
  intro ch hch
  exact (List.map_inj_left.1 h) ch (h2 ch (by simp [hch]))

/-- A plain component fulfils the contract with the marginals of its joint distribution. -/
theorem BaseIs.contract (h : BaseIs cube stored g ρ L) (lw : Bool)
    (hlw : lw = true → 0 < totalLight g L (massP g ρ)) :
    Contract (baseSelf cube stored) g lw (g.marg (wtdP g L (massP g ρ) lw)) where
  proper := h.proper
  cube := h.cubeIs
  nonneg w c _ _ := marg_nonneg (fun d hd => h.wtd_nonneg lw hd) w c
  marg density w hw := h.marginal density lw hlw hw
  absCont p c hp hc h0 := marg_zero_of_subset (fun d hd => h.wtd_nonneg lw hd)
    (fun d => coords_union_eq p hp c d) h0

theorem baseLogP_none (cube : IFUCube) (stored : Arr Num) {w : PyStr} (hw : w ∉ marginals) :
    baseLogP cube stored w = none := by
  simp only [marginals, List.mem_cons, List.not_mem_nil, or_false, not_or] at hw
  unfold baseLogP
  simp [hw]

theorem condStr_not_marginal (a b : PyStr) : condStr a b ∉ marginals := by
  intro h
  exact (marginals_chars _ h).noUnderscore (hasUnderscore_condStr a b)

end

end PKM
