import Verif.ParamLemmas

/-! Lemmas: the 15 marginals of a parametric component, with both weightings. -/

open scoped Classical
open MeasureTheory

noncomputable section

namespace PKM
open Np Component

variable {p : Param} {g : Grid} {m : Ingredients} {L : ℕ → ℕ → ℝ}

theorem wtdP_nonneg {P : Cell → ℝ} (hP : ∀ c, g.Has c → 0 ≤ P c) (hL : ∀ t z, 0 ≤ L t z) (lw : Bool)
    {c : Cell} (hc : g.Has c) : 0 ≤ wtdP g L P lw c := by
  unfold wtdP
  split
  · exact div_nonneg (mul_nonneg (hL _ _) (hP c hc)) (sumCells_nonneg fun d hd => mul_nonneg (hL _ _) (hP d hd))
  · exact hP c hc

theorem marg_lightP (g : Grid) (L : ℕ → ℕ → ℝ) (P : Cell → ℝ) {w : PyStr}
    (hw : w = ['t','v','x','z'] ∨ w = ['t','x','z']) (c : Cell) :
    g.marg (g.lightP L P) w c = L c.t c.z * g.marg P w c / totalLight g L P := by
  have e : g.lightP L P = fun d => (1 / totalLight g L P) * (L d.t d.z * P d) := by
    funext d; simp only [Grid.lightP, totalLight]; ring
  rw [e, marg_mul_const, marg_mul_of_coords]
  · ring
  · rcases hw with rfl | rfl
    · intro d hd; simp [coords, coord1] at hd; simp [hd]
    · intro d hd; simp [coords, coord1] at hd; simp [hd]

theorem sumOver_light (g : Grid) (L : ℕ → ℕ → ℝ) (P : Cell → ℝ) {w : PyStr} (hm : w ∈ marginals)
    (hw : w = ['t','v','x','z'] ∨ w = ['t','x','z']) {c : Cell} (hc : g.Has c) :
    sumOver g (PyStr.replaceX w).reverse (fun d => g.marg P w d * L d.t d.z) c = totalLight g L P := by
  have e : ∀ d, g.marg P w d * L d.t d.z = g.marg (fun d => L d.t d.z * P d) w d := by
    intro d
    rw [marg_mul_of_coords, mul_comm]
    rcases hw with rfl | rfl
    · intro e he; simp [coords, coord1] at he; simp [he]
    · intro e he; simp [coords, coord1] at he; simp [he]
  simp only [e]
  rw [sumOver_marg_total g _ hm hc]
  rfl

/-- Light weights as an array. -/
theorem ParamIs.logLight (h : ParamIs p g m L) (ix : List Ix) {R : List (Option Char)}
    (hix : ixM ix [some 't', some 'z'] = some R) :
    ∃ l, getitem ix p.cube.ssps.lightWeights = .ok l ∧
      MArr g R (map Num.log l) (fun c => Num.lg (L c.t c.z)) := by
  obtain ⟨l, h1, h2⟩ := (IsArr.marr (by decide) h.light).getitem ix hix
  exact ⟨l, h1, h2.map Num.log⟩

theorem marg_tvxz (g : Grid) (P : Cell → ℝ) {c : Cell} (hc : g.Has c) :
    g.marg P ['t','v','x','z'] c = P c := by
  rw [marg_eq_sumOver g _ _ (by decide) c hc]; rfl

theorem ParamIs.txz (h : ParamIs p g m L) (density lw : Bool)
    (hlw : lw = true → 0 < totalLight g L (m.spread g)) :
    IsL (p.txz density lw) g ['t','x','y','z']
      (fun c => g.marg (wtdP g L (m.spread g) lw) ['t','x','z'] c / dvol g density ['t','x','z'] c) := by
  obtain ⟨A, h1, h2⟩ := h.txzMass density
  cases lw with
  | false =>
    exact ⟨A, by simp [Param.txz, h1], h2.congr fun c hc => by
      simp [wtdP, marg_spread_txz h.norm h.proper hc]⟩
  | true =>
    obtain ⟨B, h3, h4⟩ := h.txzMass false
    obtain ⟨l, h5, h6⟩ := h.logLight [.all, .na, .na, .all] (R := [some 't', none, none, some 'z']) rfl
    have nn : ∀ d c, g.Has c → 0 ≤ m.probTXZ g c / dvol g d ['t','x','z'] c := fun d c hc =>
      div_nonneg (h.norm.probTXZ_nonneg h.proper hc) (dvol_pos h.proper hc _ _).le
    obtain ⟨ml, h7, h8⟩ := h4.addL h6 (nn false) (fun c _ => h.lightNonneg _ _)
      (R := ['t','x','y','z'].map some) rfl
    obtain ⟨r, h9, h10⟩ := h2.addL h6 (nn density) (fun c _ => h.lightNonneg _ _)
      (R := ['t','x','y','z'].map some) rfl
    have c0 : g.Has ⟨0, 0, 0, 0, 0⟩ := ⟨h.proper.nt, h.proper.nv, h.proper.nx, h.proper.ny, h.proper.nz⟩
    have hs := h8.lseAll (fun c hc => mul_nonneg (nn false c hc) (h.lightNonneg _ _)) (by decide) c0
    have e : sumOver g ['t','x','y','z'].reverse
        (fun c => m.probTXZ g c / dvol g false ['t','x','z'] c * L c.t c.z) ⟨0, 0, 0, 0, 0⟩ =
        totalLight g L (m.spread g) := by
      rw [← sumOver_light g L (m.spread g) (w := ['t','x','z']) (by decide) (Or.inr rfl) c0]
      exact sumOver_congr _ (by decide) c0 fun d hd => by
        simp [dvol, marg_spread_txz h.norm h.proper hd]
    rw [e] at hs
    obtain ⟨s, h11, h12⟩ := h10.subL (MArr.scalar g (Num.lg (totalLight g L (m.spread g))))
      (fun c hc => mul_nonneg (nn density c hc) (h.lightNonneg _ _)) (fun _ _ => hlw rfl)
      (R := ['t','x','y','z'].map some) rfl
    refine ⟨s, by simp [Param.txz, h1, h3, h5, h7, h9, hs, h11], h12.congr fun c hc => ?_⟩
    simp only [wtdP, if_true, marg_lightP g L _ (Or.inr rfl), marg_spread_txz h.norm h.proper hc]
    congr 1; ring

theorem ParamIs.tvxz (h : ParamIs p g m L) (density lw : Bool)
    (hlw : lw = true → 0 < totalLight g L (m.joint g)) :
    IsL (p.tvxz density lw) g ['t','v','x','y','z']
      (fun c => g.marg (wtdP g L (m.joint g) lw) ['t','v','x','z'] c / dvol g density ['t','v','x','z'] c) := by
  obtain ⟨A, h1, h2⟩ := h.tvxzMass density
  cases lw with
  | false =>
    exact ⟨A, by simp [Param.tvxz, h1], h2.congr fun c hc => by
      simp [wtdP, marg_tvxz _ _ hc]⟩
  | true =>
    obtain ⟨B, h3, h4⟩ := h.tvxzMass false
    obtain ⟨l, h5, h6⟩ := h.logLight [.all, .na, .na, .na, .all]
      (R := [some 't', none, none, none, some 'z']) rfl
    have nn : ∀ d c, g.Has c → 0 ≤ m.joint g c / dvol g d ['t','v','x','z'] c := fun d c hc =>
      div_nonneg (h.norm.joint_nonneg h.proper hc) (dvol_pos h.proper hc _ _).le
    obtain ⟨ml, h7, h8⟩ := h4.addL h6 (nn false) (fun c _ => h.lightNonneg _ _)
      (R := ['t','v','x','y','z'].map some) rfl
    obtain ⟨r, h9, h10⟩ := h2.addL h6 (nn density) (fun c _ => h.lightNonneg _ _)
      (R := ['t','v','x','y','z'].map some) rfl
    have c0 : g.Has ⟨0, 0, 0, 0, 0⟩ := ⟨h.proper.nt, h.proper.nv, h.proper.nx, h.proper.ny, h.proper.nz⟩
    have hs := h8.lseAll (fun c hc => mul_nonneg (nn false c hc) (h.lightNonneg _ _)) (by decide) c0
    have e : sumOver g ['t','v','x','y','z'].reverse
        (fun c => m.joint g c / dvol g false ['t','v','x','z'] c * L c.t c.z) ⟨0, 0, 0, 0, 0⟩ =
        totalLight g L (m.joint g) := by
      rw [← sumOver_light g L (m.joint g) (w := ['t','v','x','z']) (by decide) (Or.inl rfl) c0]
      exact sumOver_congr _ (by decide) c0 fun d hd => by
        simp [dvol, marg_tvxz _ _ hd]
    rw [e] at hs
    obtain ⟨s, h11, h12⟩ := h10.subL (MArr.scalar g (Num.lg (totalLight g L (m.joint g))))
      (fun c hc => mul_nonneg (nn density c hc) (h.lightNonneg _ _)) (fun _ _ => hlw rfl)
      (R := ['t','v','x','y','z'].map some) rfl
    refine ⟨s, by simp [Param.tvxz, h1, h3, h5, h7, h9, hs, h11], h12.congr fun c hc => ?_⟩
    simp only [wtdP, if_true, marg_lightP g L _ (Or.inl rfl), marg_tvxz _ _ hc]
    congr 1; ring

/-! ### Marginalisation steps -/

theorem volOf_setL (g : Grid) {w : PyStr} (hw : DistChars w) {u : Char} (hu : AxisChar u)
    (h : u ∉ PyStr.replaceX w) (c : Cell) (j : ℕ) : g.volOf w (setL c u j) = g.volOf w c := by
  unfold Grid.volOf
  congr 1
  apply List.map_congr_left
  intro ch hch
  have h1 := hw ch hch
  have h2 : ∀ a ∈ PyStr.replaceX [ch], a ≠ u := by
    intro a ha e
    subst e
    apply h
    clear h1 hw
    induction w with
    | nil => simp at hch
    | cons b w ih =>
      rcases List.mem_cons.1 hch with rfl | hch
      · simp only [PyStr.replaceX] at ha ⊢
        split at ha <;> split <;> simp_all
        tauto
      · have := ih hch (fun h1 => h (by simp only [PyStr.replaceX]; split <;> simp [h1]))
        simp only [PyStr.replaceX]
        split <;> simp [this]
  unfold AxisChar at hu
  fin_cases h1 <;> fin_cases hu <;> simp_all [PyStr.replaceX, Grid.width1, setL]

/-- The pattern shared by most of the marginals: add the widths of the variables that go, then sum over
them. -/
theorem margStep (hg : g.Proper) {e : Py (Arr Num)} {w w' : PyStr} {P : Cell → ℝ} {density : Bool}
    (he : IsL e g (PyStr.replaceX w) (fun c => g.marg P w c / dvol g density w c))
    (hP : ∀ c, g.Has c → 0 ≤ P c) (hw : (w, w') ∈ nested) {axes : List ℤ}
    (ha : axesD (PyStr.replaceX w) axes (extraL w w')) {x : PyStr} {extra : Arr Num → Py (Arr Num)}
    (hvol : ∀ c, g.volOf w c = g.volOf w' c * g.volOf x c)
    (hx : ∀ (A : Arr Num) (q : Cell → ℝ), MArr g ((PyStr.replaceX w).map some) A (fun c => Num.lg (q c)) →
      (∀ c, g.Has c → 0 ≤ q c) → IsL (extra A) g (PyStr.replaceX w) (fun c => q c * g.volOf x c)) :
    IsL (do let a ← e
            let a ← Param.onlyIf density extra a
            logsumexp axes a) g (PyStr.replaceX w') (fun c => g.marg P w' c / dvol g density w' c) := by
  obtain ⟨n1, n2, n3, n4, n5, n6, n7, n8, n9, n10⟩ := nested_facts _ hw
  obtain ⟨A, h1, h2⟩ := he
  have nn : ∀ c, g.Has c → 0 ≤ g.marg P w c / dvol g density w c := fun c hc =>
    div_nonneg (marg_nonneg hP _ _) (dvol_pos hg hc _ _).le
  have key : ∃ B, Param.onlyIf density extra A = .ok B ∧
      MArr g ((PyStr.replaceX w).map some) B (fun c => Num.lg (g.marg P w c / dvol g density w' c)) := by
    cases density with
    | false => exact ⟨A, rfl, h2.congr fun c _ => by simp [dvol]⟩
    | true =>
      obtain ⟨B, h3, h4⟩ := hx A _ h2 nn
      refine ⟨B, h3, h4.congr fun c hc => ?_⟩
      simp only [dvol, if_true, hvol]
      congr 1
      have := (volOf_pos hg hc w').ne'
      have := (volOf_pos hg hc x).ne'
      field_simp
  obtain ⟨B, h3, h4⟩ := key
  obtain ⟨r, h5, h6⟩ := MArr.lse h4 (fun c hc => div_nonneg (marg_nonneg hP _ _) (dvol_pos hg hc _ _).le)
    ⟨n6, n7⟩ n8 ha n10
  refine ⟨r, by simp [h1, h3, h5], h6.congr fun c hc => ?_⟩
  have hS : ∀ ch ∈ extraL w w', AxisChar ch := fun ch hch => n7 ch (removable_sub n8 ch hch)
  rw [sumOver_div_inv (q := g.marg P w) (d := dvol g density w') hS hc (fun _ _ => rfl), 
    sumOver_marg_nested g P hw hc]
  intro u hu e j
  have hnot : u ∉ PyStr.replaceX w' := by
    have := (List.mem_filter.1 (List.mem_reverse.1 hu)).2
    simpa using this
  unfold dvol
  split
  · exact volOf_setL g (marginals_chars _ n2) (hS u hu) hnot e j
  · rfl

theorem joinR_nil (M : List (Option Char)) : joinR M.reverse [] = some M.reverse := by
  cases M.reverse <;> rfl

/-- Extra step `+= log dx + log dy`. -/
theorem ParamIs.extraX (h : ParamIs p g m L) {U : List Char} (A : Arr Num) (q : Cell → ℝ)
    (hA : MArr g (U.map some) A (fun c => Num.lg (q c))) (hq : ∀ c, g.Has c → 0 ≤ q c) :
    IsL (iadd A p.logDxDy) g U (fun c => q c * g.volOf ['x'] c) :=
  hA.iaddL h.logDxDy hq (fun c hc => volOf_nonneg h.proper hc _) (joinR_nil _)

/-- Extra step `+= log dz` on the last axis. -/
theorem ParamIs.extraZ (h : ParamIs p g m L) {U : List Char} (A : Arr Num) (q : Cell → ℝ)
    (hA : MArr g ((U ++ ['z']).map some) A (fun c => Num.lg (q c))) (hq : ∀ c, g.Has c → 0 ≤ q c) :
    IsL (do let d ← p.logVol ['z']; iadd A d) g (U ++ ['z']) (fun c => q c * g.volOf ['z'] c) := by
  obtain ⟨d, h1, h2⟩ := h.logVol (w := ['z']) (by decide) (by decide)
  obtain ⟨r, h3, h4⟩ := hA.iaddL h2 hq (fun c hc => volOf_nonneg h.proper hc _)
    (by simp only [List.map_append, List.reverse_append]
        simp [PyStr.replaceX, joinR, joinM]
        cases (List.map some U).reverse <;> simp [joinR])
  exact ⟨r, by simp [h1, h3], h4⟩

section
variable (h : ParamIs p g m L)
include h

theorem ParamIs.nnS (lw : Bool) (c : Cell) (hc : g.Has c) : 0 ≤ wtdP g L (m.spread g) lw c :=
  wtdP_nonneg (fun _ hd => h.norm.spread_nonneg h.proper hd) h.lightNonneg lw hc

theorem ParamIs.nnJ (lw : Bool) (c : Cell) (hc : g.Has c) : 0 ≤ wtdP g L (m.joint g) lw c :=
  wtdP_nonneg (fun _ hd => h.norm.joint_nonneg h.proper hd) h.lightNonneg lw hc

section
variable (density lw : Bool) (hlw : lw = true → 0 < totalLight g L (m.spread g))
include hlw

theorem ParamIs.tz : IsL (p.tz density lw) g ['t','z']
    (fun c => g.marg (wtdP g L (m.spread g) lw) ['t','z'] c / dvol g density ['t','z'] c) :=
  margStep (w := ['t','x','z']) (w' := ['t','z']) (x := ['x']) h.proper (h.txz density lw hlw) (h.nnS lw)
    (by decide +kernel) (by decide +kernel) (by intro c; simp [Grid.volOf]; ring) h.extraX

theorem ParamIs.xz : IsL (p.xz density lw) g ['x','y','z']
    (fun c => g.marg (wtdP g L (m.spread g) lw) ['x','z'] c / dvol g density ['x','z'] c) :=
  margStep (w := ['t','x','z']) (w' := ['x','z']) (x := ['t']) h.proper (h.txz density lw hlw) (h.nnS lw)
    (by decide +kernel) (by decide +kernel) (by intro c; simp [Grid.volOf]; ring)
    (fun A q hA hq => h.addT (U := ['x','y','z']) (by simp) hA hq)

theorem ParamIs.z : IsL (p.z density lw) g ['z']
    (fun c => g.marg (wtdP g L (m.spread g) lw) ['z'] c / dvol g density ['z'] c) :=
  margStep (w := ['t','z']) (w' := ['z']) (x := ['t']) h.proper (h.tz density lw hlw) (h.nnS lw)
    (by decide +kernel) (by decide +kernel) (by intro c; simp [Grid.volOf]; ring)
    (fun A q hA hq => h.addT (U := ['z']) (by simp) hA hq)

theorem ParamIs.tx : IsL (p.tx density lw) g ['t','x','y']
    (fun c => g.marg (wtdP g L (m.spread g) lw) ['t','x'] c / dvol g density ['t','x'] c) := by
  cases lw with
  | true =>
    exact margStep (w := ['t','x','z']) (w' := ['t','x']) (x := ['z']) h.proper (h.txz density true hlw)
      (h.nnS true) (by decide +kernel) (by decide +kernel) (by intro c; simp [Grid.volOf]; ring)
      (fun A q hA hq => h.extraZ (U := ['t','x','y']) A q hA hq)
  | false =>
    exact (h.txMass density).congr fun c hc => by simp [wtdP, marg_spread_tx h.norm h.proper hc]

theorem ParamIs.t : IsL (p.t density lw) g ['t']
    (fun c => g.marg (wtdP g L (m.spread g) lw) ['t'] c / dvol g density ['t'] c) := by
  cases lw with
  | false =>
    exact (h.tMass density).congr fun c hc => by simp [wtdP, marg_spread_t h.norm h.proper hc]
  | true =>
    have key : IsL (do
        let a ← p.tz true true
        let a ← Param.onlyIf true (fun a => do let d ← p.logVol ['z']; Np.add a d) a
        logsumexp [1] a) g ['t'] _ :=
      margStep (w := ['t','z']) (w' := ['t']) (x := ['z']) h.proper (h.tz true true hlw) (h.nnS true)
        (by decide +kernel) (by decide +kernel) (by intro c; simp [Grid.volOf])
        (fun A q hA hq => by
          obtain ⟨d, h1, h2⟩ := h.logVol (w := ['z']) (by decide) (by decide)
          obtain ⟨r, h3, h4⟩ := MArr.addL (R := ['t','z'].map some) hA h2 hq
            (fun c hc => volOf_nonneg h.proper hc _) rfl
          exact ⟨r, by simp [h1, h3], h4⟩)
    obtain ⟨A, k1, k2⟩ := key
    have e : p.t density true =
        Param.onlyIf (!density) (fun a => do let d ← p.logVol ['t']; iadd a d) A := by
      rw [Param.t, if_pos rfl]
      revert k1
      simp only [Param.onlyIf, if_true]
      generalize p.tz true true = m1
      generalize p.logVol ['z'] = m2
      intro k1
      match m1, m2, k1 with
      | .ok a, .ok b, k1 =>
        simp only [Py.ok_bind] at k1 ⊢
        revert k1
        generalize Np.add a b = m3
        intro k1
        match m3, k1 with
        | .ok c, k1 => simp only [Py.ok_bind] at k1 ⊢; rw [k1]; rfl
    rw [e]
    cases density with
    | true => exact ⟨A, rfl, k2⟩
    | false =>
      obtain ⟨d, h1, h2⟩ := h.logVol (w := ['t']) (by decide) (by decide)
      obtain ⟨r, h3, h4⟩ := k2.iaddL h2
        (fun c hc => div_nonneg (marg_nonneg (h.nnS true) _ _) (dvol_pos h.proper hc _ _).le)
        (fun c hc => volOf_nonneg h.proper hc _) rfl
      refine ⟨r, by simp [Param.onlyIf, h1, h3], h4.congr fun c hc => ?_⟩
      have := (volOf_pos h.proper hc ['t']).ne'
      simp only [dvol, if_true, Bool.false_eq_true, if_false]
      congr 1; field_simp

theorem ParamIs.x : IsL (p.x density lw) g ['x','y']
    (fun c => g.marg (wtdP g L (m.spread g) lw) ['x'] c / dvol g density ['x'] c) := by
  cases lw with
  | true =>
    exact margStep (w := ['t','x','z']) (w' := ['x']) (x := ['t','z']) h.proper (h.txz density true hlw)
      (h.nnS true) (by decide +kernel) (by decide +kernel) (by intro c; simp [Grid.volOf]; ring)
      (fun A q hA hq => by
        obtain ⟨d, h1, h2⟩ := h.logVol (w := ['t','z']) (by decide) (by decide)
        obtain ⟨d', h3, h4⟩ := h2.getitem [.all, .na, .na, .all] (R := [some 't', none, none, some 'z']) rfl
        obtain ⟨r, h5, h6⟩ := hA.iaddL h4 hq (fun c hc => volOf_nonneg h.proper hc _) rfl
        exact ⟨r, by simp [h1, h3, h5], h6⟩)
  | false =>
    obtain ⟨A, h1, h2⟩ := h.xtMass density
    obtain ⟨B, h3, h4⟩ := h.tMass false
    have nx : ∀ c, g.Has c → 0 ≤ m.probX g c / dvol g density ['x'] c := fun c hc =>
      div_nonneg (h.norm.probX_nonneg h.proper hc) (dvol_pos h.proper hc _ _).le
    have nt : ∀ c, g.Has c → 0 ≤ m.probT g c / dvol g false ['t'] c := fun c hc =>
      div_nonneg (h.norm.probT_nonneg h.proper hc) (dvol_pos h.proper hc _ _).le
    obtain ⟨r, h5, h6⟩ := h2.addL h4 nx nt (R := ['x','y','t'].map some) rfl
    obtain ⟨s, h7, h8⟩ := h6.lse (fun c hc => mul_nonneg (nx c hc) (nt c hc)) (by decide) (S := ['t'])
      (by decide) (axes := [-1]) (by decide +kernel) (V := ['x','y']) rfl
    refine ⟨s, by simp [Param.x, h1, h3, h5, h7], h8.congr fun c hc => ?_⟩
    congr 1
    rw [sumOver_div_inv (q := g.marg (m.spread g) ['t','x']) (d := dvol g density ['x']) (by decide) hc
      (fun d hd => ?_)]
    · have := sumOver_marg_nested g (m.spread g) (w := ['t','x']) (w' := ['x']) (by decide +kernel) hc
      simp only [wtdP, Bool.false_eq_true, if_false]
      rw [← this]; rfl
    · intro u hu e j
      simp at hu; subst hu
      unfold dvol
      split
      · exact volOf_setL g (by decide) (by decide) (by decide) e j
      · rfl
    · rw [marg_spread_tx h.norm h.proper hd]
      simp only [dvol, Bool.false_eq_true, if_false]
      ring

end

section
variable (density lw : Bool) (hlw : lw = true → 0 < totalLight g L (m.joint g))
include hlw

theorem ParamIs.tvx : IsL (p.tvx density lw) g ['t','v','x','y']
    (fun c => g.marg (wtdP g L (m.joint g) lw) ['t','v','x'] c / dvol g density ['t','v','x'] c) := by
  cases lw with
  | true =>
    exact margStep (w := ['t','v','x','z']) (w' := ['t','v','x']) (x := ['z']) h.proper
      (h.tvxz density true hlw)
      (h.nnJ true) (by decide +kernel) (by decide +kernel) (by intro c; simp [Grid.volOf]; try ring)
      (fun A q hA hq => h.extraZ (U := ['t','v','x','y']) A q hA hq)
  | false =>
    obtain ⟨A, h1, h2⟩ := h.txMass density
    obtain ⟨B, h3, h4⟩ := h.vtxMass density
    obtain ⟨A', h5, h6⟩ := h2.getitem [.all, .na, .all, .all] (R := [some 't', none, some 'x', some 'y']) rfl
    obtain ⟨B', h7, h8⟩ := h4.moveaxis (src := [0]) (dst := [1]) (R := ['t','v','x','y'].map some)
      (by decide +kernel)
    obtain ⟨r, h9, h10⟩ := h6.addL h8
      (fun c hc => div_nonneg (mul_nonneg (h.norm.probT_nonneg h.proper hc) (h.norm.probX_nonneg h.proper hc))
        (dvol_pos h.proper hc _ _).le)
      (fun c hc => div_nonneg measureReal_nonneg (dvol_pos h.proper hc _ _).le)
      (R := ['t','v','x','y'].map some) rfl
    refine ⟨r, by simp [Param.tvx, h1, h3, h5, h7, h9], h10.congr fun c hc => ?_⟩
    simp only [wtdP, Bool.false_eq_true, if_false, marg_joint_tvx h.norm h.proper hc]
    rw [dvol_cons g density 't' ['v','x'] c (by simp), dvol_cons g density 'v' ['x'] c (by simp),
      dvol_cons g density 't' ['x'] c (by simp)]
    congr 1
    have := (dvol_pos h.proper hc density ['t']).ne'
    have := (dvol_pos h.proper hc density ['v']).ne'
    have := (dvol_pos h.proper hc density ['x']).ne'
    field_simp

theorem ParamIs.tv : IsL (p.tv density lw) g ['t','v']
    (fun c => g.marg (wtdP g L (m.joint g) lw) ['t','v'] c / dvol g density ['t','v'] c) :=
  margStep (w := ['t','v','x']) (w' := ['t','v']) (x := ['x']) h.proper (h.tvx density lw hlw) (h.nnJ lw)
    (by decide +kernel) (by decide +kernel) (by intro c; simp [Grid.volOf]; try ring) h.extraX

theorem ParamIs.tvz : IsL (p.tvz density lw) g ['t','v','z']
    (fun c => g.marg (wtdP g L (m.joint g) lw) ['t','v','z'] c / dvol g density ['t','v','z'] c) :=
  margStep (w := ['t','v','x','z']) (w' := ['t','v','z']) (x := ['x']) h.proper (h.tvxz density lw hlw) (h.nnJ lw)
    (by decide +kernel) (by decide +kernel) (by intro c; simp [Grid.volOf]; ring) h.extraX

theorem ParamIs.vx : IsL (p.vx density lw) g ['v','x','y']
    (fun c => g.marg (wtdP g L (m.joint g) lw) ['v','x'] c / dvol g density ['v','x'] c) :=
  margStep (w := ['t','v','x']) (w' := ['v','x']) (x := ['t']) h.proper (h.tvx density lw hlw) (h.nnJ lw)
    (by decide +kernel) (by decide +kernel) (by intro c; simp [Grid.volOf]; ring)
    (fun A q hA hq => h.addT (U := ['v','x','y']) (by simp) hA hq)

theorem ParamIs.vxz : IsL (p.vxz density lw) g ['v','x','y','z']
    (fun c => g.marg (wtdP g L (m.joint g) lw) ['v','x','z'] c / dvol g density ['v','x','z'] c) :=
  margStep (w := ['t','v','x','z']) (w' := ['v','x','z']) (x := ['t']) h.proper (h.tvxz density lw hlw) (h.nnJ lw)
    (by decide +kernel) (by decide +kernel) (by intro c; simp [Grid.volOf]; ring)
    (fun A q hA hq => h.addT (U := ['v','x','y','z']) (by simp) hA hq)

theorem ParamIs.vz : IsL (p.vz density lw) g ['v','z']
    (fun c => g.marg (wtdP g L (m.joint g) lw) ['v','z'] c / dvol g density ['v','z'] c) :=
  margStep (w := ['v','x','z']) (w' := ['v','z']) (x := ['x']) h.proper (h.vxz density lw hlw) (h.nnJ lw)
    (by decide +kernel) (by decide +kernel) (by intro c; simp [Grid.volOf]; ring) h.extraX

theorem ParamIs.v : IsL (p.v density lw) g ['v']
    (fun c => g.marg (wtdP g L (m.joint g) lw) ['v'] c / dvol g density ['v'] c) :=
  margStep (w := ['t','v','x']) (w' := ['v']) (x := ['t','x']) h.proper (h.tvx density lw hlw) (h.nnJ lw)
    (by decide +kernel) (by decide +kernel) (by intro c; simp [Grid.volOf]; ring)
    (fun A q hA hq => by
      obtain ⟨B, h1, h2⟩ := h.addT (ch := 't') (U := ['v','x','y']) (by simp) hA hq
      obtain ⟨C, h3, h4⟩ := h.extraX (U := ['t','v','x','y']) B _ h2
        (fun c hc => mul_nonneg (hq c hc) (volOf_nonneg h.proper hc _))
      refine ⟨C, ?_, h4.congr fun c hc => ?_⟩
      · obtain ⟨d, k1, -⟩ := h.logVol (w := ['t']) (by decide) (by decide)
        simp only [k1, Py.ok_bind] at h1
        simp only [k1, Py.ok_bind, h1, h3]
      · beta_reduce
        rw [show (['t','x'] : PyStr) = ['t'] ++ ['x'] from rfl, volOf_append, mul_assoc])

end

/-- All 15 marginals. -/
theorem ParamIs.marginal (density lw : Bool)
    (hlw : lw = true → 0 < totalLight g L (m.spread g) ∧ 0 < totalLight g L (m.joint g))
    {w : PyStr} (hw : w ∈ marginals) :
    Gives (getLogMarginal p.self w density lw) g w
      (fun c => Num.lg (g.marg (wtdP g L (pick (m.joint g) (m.spread g) w) lw) w c / dvol g density w c)) := by
  have hS := fun e => (hlw e).1
  have hJ := fun e => (hlw e).2
  simp only [marginals, List.mem_cons, List.not_mem_nil, or_false] at hw
  rcases hw with e | e | e | e | e | e | e | e | e | e | e | e | e | e | e <;> subst e
  · exact (h.t density lw hS).gives (w := ['t']) (by decide)
  · exact (h.v density lw hJ).gives (w := ['v']) (by decide)
  · exact (h.x density lw hS).gives (w := ['x']) (by decide)
  · exact (h.z density lw hS).gives (w := ['z']) (by decide)
  · exact (h.tv density lw hJ).gives (w := ['t','v']) (by decide)
  · exact (h.tx density lw hS).gives (w := ['t','x']) (by decide)
  · exact (h.tz density lw hS).gives (w := ['t','z']) (by decide)
  · exact (h.vx density lw hJ).gives (w := ['v','x']) (by decide)
  · exact (h.vz density lw hJ).gives (w := ['v','z']) (by decide)
  · exact (h.xz density lw hS).gives (w := ['x','z']) (by decide)
  · exact (h.tvx density lw hJ).gives (w := ['t','v','x']) (by decide)
  · exact (h.tvz density lw hJ).gives (w := ['t','v','z']) (by decide)
  · exact (h.txz density lw hS).gives (w := ['t','x','z']) (by decide)
  · exact (h.vxz density lw hJ).gives (w := ['v','x','z']) (by decide)
  · exact (h.tvxz density lw hJ).gives (w := ['t','v','x','z']) (by decide)

end

end PKM
