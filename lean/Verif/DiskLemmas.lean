import Verif.Disk
import Verif.Props.Enrich

/-! Lemmas: the setters of growing disks. -/

open scoped Classical
open MeasureTheory ProbabilityTheory

noncomputable section

namespace PKM
open Np Component

variable {p : Param} {g : Grid} {f2 : ℝ} {center : ℝ × ℝ} {rotation : ℝ}

/-! ### The frame of a component -/

/-- Coordinates of the centre of a pixel in the frame of a component. -/
def frameX (g : Grid) (center : ℝ × ℝ) (rotation : ℝ) (c : Cell) : ℝ :=
  Real.cos rotation * (centre g.x c.x - center.1) + -Real.sin rotation * (centre g.y c.y - center.2)
def frameY (g : Grid) (center : ℝ × ℝ) (rotation : ℝ) (c : Cell) : ℝ :=
  Real.sin rotation * (centre g.x c.x - center.1) + Real.cos rotation * (centre g.y c.y - center.2)

theorem rotated_marr {cube : IFUCube} (hc : CubeIs cube g) :
    MArr g [some 'x', some 'y'] (Param.rotated cube center rotation 0) (fun c => .fin (frameX g center rotation c)) ∧
    MArr g [some 'x', some 'y'] (Param.rotated cube center rotation 1) (fun c => .fin (frameY g center rotation c)) := by
  constructor
  · refine ⟨by simp [Param.rotated, hc.nx, hc.ny, sizeM, sizeL], fun c h => ?_⟩
    simp [Param.rotated, coordM, coordL, hc.x.get _ h.2.2.1, hc.y.get _ h.2.2.2.1, frameX]
  · refine ⟨by simp [Param.rotated, hc.nx, hc.ny, sizeM, sizeL], fun c h => ?_⟩
    simp [Param.rotated, coordM, coordL, hc.x.get _ h.2.2.1, hc.y.get _ h.2.2.2.1, frameY]

theorem Built.xxp_marr (h : Built p g f2 center rotation) :
    MArr g [some 'x', some 'y'] p.xxp (fun c => .fin (frameX g center rotation c)) := by
  rw [h.xxp]; exact (rotated_marr h.cubeIs).1

theorem Built.yyp_marr (h : Built p g f2 center rotation) :
    MArr g [some 'x', some 'y'] p.yyp (fun c => .fin (frameY g center rotation c)) := by
  rw [h.yyp]; exact (rotated_marr h.cubeIs).2

/-- Elliptical radius with axis ratio `q`. -/
def ellR (g : Grid) (center : ℝ × ℝ) (rotation q : ℝ) (c : Cell) : ℝ :=
  Real.sqrt (frameX g center rotation c ^ 2 + (frameY g center rotation c / q) ^ 2)

theorem ellR_nonneg (g : Grid) (center : ℝ × ℝ) (rotation q : ℝ) (c : Cell) : 0 ≤ ellR g center rotation q c :=
  Real.sqrt_nonneg _

theorem Built.ellRadius (h : Built p g f2 center rotation) {M R : List (Option Char)} {Q : Arr Num} {q : Cell → ℝ}
    (hQ : MArr g M Q (fun c => .fin (q c))) (hq : ∀ c, g.Has c → 0 < q c)
    (hj : joinR [some 'y', some 'x'] M.reverse = some R.reverse)
    (hj' : joinR [some 'y', some 'x'] R.reverse = some R.reverse) :
    ∃ r, p.ellRadius Q = .ok r ∧ MArr g R r (fun c => .fin (ellR g center rotation (q c) c)) := by
  obtain ⟨yq, h1, h2⟩ := MArr.bop (R := R) (· / ·) h.yyp_marr hQ hj
  have h1' : Np.div p.yyp Q = .ok yq := h1
  obtain ⟨r, h3, h4⟩ := MArr.bop (R := R) (· + ·) (h.xxp_marr.map Num.sq) (h2.map Num.sq) hj'
  have h3' : Np.add (map Num.sq p.xxp) (map Num.sq yq) = .ok r := h3
  refine ⟨map Num.sqrt r, by simp only [Param.ellRadius, h1', h3', Py.ok_bind], (h4.map Num.sqrt).congr fun c hc => ?_⟩
  beta_reduce
  rw [Num.fin_div _ _ (hq c hc).ne']
  simp only [Num.sq, Num.fin_mul, Num.fin_add]
  rw [Num.sqrt_fin (add_nonneg (mul_self_nonneg _) (mul_self_nonneg _))]
  unfold ellR
  rw [pow_two, pow_two]

/-! ### Interpolation in age -/

/-- A component with a star formation history: quantities vary between the ages `s` and `e`. -/
def Aged (p : Param) (s e : ℝ) : Prop := p.tPars = some ⟨.fin s, .fin e, .fin (e - s)⟩ ∧ s < e

/-- The value at age bin `t` of a quantity with (young, old) limits. -/
def atAge (g : Grid) (s e : ℝ) (lims : ℝ × ℝ) (t : ℕ) : ℝ := ramp s e lims.1 lims.2 (centre g.t t)

theorem atAge_mem {s e : ℝ} (h : s < e) (g : Grid) (lims : ℝ × ℝ) (t : ℕ) :
    min lims.1 lims.2 ≤ atAge g s e lims t ∧ atAge g s e lims t ≤ max lims.1 lims.2 := by
  obtain ⟨k, k1, k2, h4, -⟩ := ramp_frac h lims.1 lims.2 (centre g.t t)
  unfold atAge
  rw [h4]
  rcases le_total lims.1 lims.2 with h | h
  · rw [min_eq_left h, max_eq_right h]; constructor <;> nlinarith
  · rw [min_eq_right h, max_eq_left h]; constructor <;> nlinarith

theorem atAge_pos {s e : ℝ} (h : s < e) (g : Grid) {lims : ℝ × ℝ} (h1 : 0 < lims.1) (h2 : 0 < lims.2) (t : ℕ) :
    0 < atAge g s e lims t := lt_of_lt_of_le (lt_min h1 h2) (atAge_mem h g lims t).1

theorem atAge_nonneg {s e : ℝ} (h : s < e) (g : Grid) {lims : ℝ × ℝ} (h1 : 0 ≤ lims.1) (h2 : 0 ≤ lims.2) (t : ℕ) :
    0 ≤ atAge g s e lims t := le_trans (le_min h1 h2) (atAge_mem h g lims t).1

theorem Aged.interp (hc : CubeIs p.cube g) {s e : ℝ} (h : Aged p s e) (lims : ℝ × ℝ) :
    ∃ r, p.linearInterpolateT lims.1 lims.2 = .ok r ∧
      MArr g [some 't'] r (fun c => .fin (atAge g s e lims c.t)) := by
  obtain ⟨r, h1, h2⟩ := interp_gives hc h.2 h.1 lims.1 lims.2
  exact ⟨r, h1, Is1.marr (g := g) (ch := 't') (F := fun t => atAge g s e lims t) h2⟩

theorem Aged.interp3 (hc : CubeIs p.cube g) {s e : ℝ} (h : Aged p s e) (lims : ℝ × ℝ) :
    ∃ r, p.interpT3 lims = .ok r ∧ MArr g [some 't', none, none] r (fun c => .fin (atAge g s e lims c.t)) := by
  obtain ⟨r, h1, h2⟩ := h.interp hc lims
  obtain ⟨r', h3, h4⟩ := h2.getitem [.all, .na, .na] (R := [some 't', none, none]) rfl
  exact ⟨r', by simp only [Param.interpT3, h1, Py.ok_bind, h3], h4⟩

theorem pyAssert_pos {c : Prop} (h : c) : pyAssert c = .ok () := by simp [pyAssert, h]
theorem pyAssert_neg {c : Prop} (h : ¬ c) : pyAssert c = .error .assertionError := by simp [pyAssert, h]

theorem logDxDy_marr (hc : CubeIs p.cube g) (hg : g.Proper) :
    MArr g [] p.logDxDy (fun c => Num.lg (width g.x c.x * width g.y c.y)) := by
  refine ⟨rfl, fun c h => ?_⟩
  have h1 := hg.x _ h.2.2.1
  have h2 := hg.y _ h.2.2.2.1
  simp only [Param.logDxDy, Np.scalar, hc.dx c.x h.2.2.1, hc.dy c.y h.2.2.2.1, Num.log_fin]
  rw [Num.lg_add (by unfold width; linarith) (by unfold width; linarith)]

/-! ### `set_p_x_t` of a growing disk -/

/-- Cored power law, not normalised: `(r + rc) ^ -alpha`. -/
def coredRho (g : Grid) (center : ℝ × ℝ) (rotation s e : ℝ) (q rc alpha : ℝ × ℝ) (c : Cell) : ℝ :=
  (ellR g center rotation (atAge g s e q c.t) c + atAge g s e rc c.t) ^ (-atAge g s e alpha c.t)

/-- Total over the pixels. -/
def pixTotal (g : Grid) (ρ : Cell → ℝ) (c : Cell) : ℝ :=
  ∑ i : Fin g.nx, ∑ j : Fin g.ny, ρ { c with x := i, y := j } * (width g.x i * width g.y j)

theorem pixTotal_pos (hg : g.Proper) {ρ : Cell → ℝ} (hρ : ∀ c, 0 < ρ c) (c : Cell) : 0 < pixTotal g ρ c := by
  refine Finset.sum_pos (fun i _ => Finset.sum_pos (fun j _ => mul_pos (hρ _) (mul_pos (sub_pos.2 (hg.x i i.2))
    (sub_pos.2 (hg.y j j.2)))) ⟨⟨0, hg.ny⟩, Finset.mem_univ _⟩) ⟨⟨0, hg.nx⟩, Finset.mem_univ _⟩

theorem pixTotal_norm (hg : g.Proper) {ρ : Cell → ℝ} (hρ : ∀ c, 0 < ρ c) (c : Cell) :
    ∑ i : Fin g.nx, ∑ j : Fin g.ny, ρ { c with x := i, y := j } / pixTotal g ρ c * (width g.x i * width g.y j) = 1 := by
  have h := (pixTotal_pos hg hρ c).ne'
  have e : ∀ (i : Fin g.nx) (j : Fin g.ny), ρ { c with x := i, y := j } / pixTotal g ρ c * (width g.x i * width g.y j) =
      ρ { c with x := i, y := j } * (width g.x i * width g.y j) * (pixTotal g ρ c)⁻¹ := fun i j => by ring
  simp only [e, ← Finset.sum_mul]
  exact mul_inv_cancel₀ h

theorem coredRho_pos {s e : ℝ} (h : s < e) {q rc alpha : ℝ × ℝ} (hr1 : 0 < rc.1) (hr2 : 0 < rc.2) (c : Cell) :
    0 < coredRho g center rotation s e q rc alpha c :=
  Real.rpow_pos_of_pos (add_pos_of_nonneg_of_pos (ellR_nonneg _ _ _ _ _) (atAge_pos h g hr1 hr2 _)) _

theorem disk_setPxt (hb : Built p g f2 center rotation) (hg : g.Proper) {s e : ℝ} (ha : Aged p s e)
    {q rc alpha : ℝ × ℝ} (hq : 0 < q.1 ∧ 0 < q.2) (hr : 0 < rc.1 ∧ 0 < rc.2) (hal : 0 ≤ alpha.1 ∧ 0 ≤ alpha.2) :
    ∃ A, GrowingDisk.setPxt p q rc alpha = .ok { p with logPxt := some A } ∧
      MArr g (['x','y','t'].map some) A (fun c => Num.lg (coredRho g center rotation s e q rc alpha c /
        pixTotal g (coredRho g center rotation s e q rc alpha) c)) := by
  obtain ⟨Q, a1, a2⟩ := ha.interp3 hb.cubeIs q
  obtain ⟨C, a3, a4⟩ := ha.interp3 hb.cubeIs rc
  obtain ⟨E, a5, a6⟩ := ha.interp3 hb.cubeIs alpha
  obtain ⟨R, a7, a8⟩ := hb.ellRadius (R := ['t','x','y'].map some) a2
    (fun c _ => atAge_pos ha.2 g hq.1 hq.2 _) rfl rfl
  obtain ⟨S, b1, b2⟩ := MArr.bop (R := ['t','x','y'].map some) (· + ·) a8 a4 rfl
  have b1' : Np.add R C = .ok S := b1
  obtain ⟨P, b3, b4⟩ := MArr.bop (R := ['t','x','y'].map some) (· * ·) (a6.map Num.neg) (b2.map Num.log) rfl
  have b3' : Np.mul (map Num.neg E) (map Num.log S) = .ok P := b3
  have hρ := fun c => coredRho_pos (g := g) (center := center) (rotation := rotation) (q := q) (alpha := alpha)
    ha.2 hr.1 hr.2 c
  set ρ := coredRho g center rotation s e q rc alpha with hρd
  have b4' : MArr g (['t','x','y'].map some) P (fun c => Num.lg (ρ c)) := b4.congr fun c _ => by
    have hpos : 0 < ellR g center rotation (atAge g s e q c.t) c + atAge g s e rc c.t :=
      add_pos_of_nonneg_of_pos (ellR_nonneg _ _ _ _ _) (atAge_pos ha.2 g hr.1 hr.2 _)
    beta_reduce
    rw [Num.fin_add, Num.log_fin, Num.lg_pos hpos]
    simp only [Num.neg, Num.fin_mul]
    rw [Num.lg_pos (hρ c), hρd]
    unfold coredRho
    rw [Real.log_rpow hpos]
  have hv : ∀ c, g.Has c → 0 ≤ width g.x c.x * width g.y c.y := fun c hc =>
    mul_nonneg (sub_pos.2 (hg.x _ hc.2.2.1)).le (sub_pos.2 (hg.y _ hc.2.2.2.1)).le
  obtain ⟨W, b5, b6⟩ := MArr.addL (R := ['t','x','y'].map some) b4' (logDxDy_marr hb.cubeIs hg)
    (fun c _ => (hρ c).le) hv rfl
  obtain ⟨N, b7, b8⟩ := MArr.lse (U := ['t','x','y']) (S := ['y','x']) (V := ['t']) b6
    (fun c hc => mul_nonneg (hρ c).le (hv c hc)) (by decide) (by decide) (axes := [1, 2]) (by decide +kernel)
    (by decide)
  have b8' : MArr g (['t'].map some) N (fun c => Num.lg (pixTotal g ρ c)) := b8
  obtain ⟨Z, b9, b10⟩ := MArr.subL (R := ['y','x','t'].map some) b4'.T b8' (fun c _ => (hρ c).le)
    (fun c _ => pixTotal_pos hg hρ c) rfl
  obtain ⟨A, b11, b12⟩ := b10.T.moveaxis (src := [0]) (dst := [-1]) (R := ['x','y','t'].map some) (by decide +kernel)
  refine ⟨A, ?_, b12⟩
  unfold GrowingDisk.setPxt
  rw [pyAssert_pos (by norm_num; exact hq), pyAssert_pos (by norm_num; exact hr), pyAssert_pos (by norm_num; exact hal)]
  simp only [Py.ok_bind, a1, a3, a5, a7, b1', b3', b5, b7, b9, b11]

/-! ### Largest distance along the major axis -/

theorem indices_mem : ∀ {s i : List ℕ}, InBox s i ↔ i ∈ indices s
  | [], [] => by simp [indices, InBox]
  | [], _ :: _ => by simp [indices, InBox]
  | _ :: _, [] => by simp [indices, InBox]
  | n :: s, i :: r => by
    simp only [InBox, indices, List.mem_flatMap, List.mem_range, List.mem_map, List.cons.injEq]
    constructor
    · rintro ⟨h1, h2⟩
      exact ⟨i, h1, r, indices_mem.1 h2, rfl, rfl⟩
    · rintro ⟨j, h1, r', h2, rfl, rfl⟩
      exact ⟨h1, indices_mem.2 h2⟩

theorem Num.max_fin (a b : ℝ) : Num.max (.fin a) (.fin b) = .fin (Max.max a b) := by
  unfold Num.max
  rw [if_neg (by simp)]
  simp only [Num.lt]
  by_cases h : a < b
  · simp only [h, if_true, max_eq_right h.le]
  · simp only [h, if_false, max_eq_left (not_lt.1 h)]

theorem foldl_max : ∀ (l : List ℝ) (a : ℝ), ∃ m, (l.map Num.fin).foldl Num.max (.fin a) = .fin m ∧
    (m = a ∨ m ∈ l) ∧ a ≤ m ∧ ∀ x ∈ l, x ≤ m
  | [], a => ⟨a, rfl, Or.inl rfl, le_rfl, by simp⟩
  | b :: l, a => by
    obtain ⟨m, h1, h2, h3, h4⟩ := foldl_max l (Max.max a b)
    refine ⟨m, by simp only [List.map_cons, List.foldl_cons, Num.max_fin]; exact h1, ?_,
      le_trans (le_max_left _ _) h3, fun x hx => ?_⟩
    · rcases h2 with h | h
      · rcases max_choice a b with e | e
        · left; rw [h, e]
        · right; rw [h, e]; simp
      · right; simp [h]
    · rcases List.mem_cons.1 hx with rfl | hx
      · exact le_trans (le_max_right _ _) h3
      · exact h4 x hx

/-- `np.max` of an array of finite numbers is attained and is an upper bound. -/
theorem amax_spec {a : Arr Num} {f : List ℕ → ℝ} (hf : ∀ i, InBox a.shape i → a.get i = .fin (f i))
    {i0 : List ℕ} (h0 : InBox a.shape i0) :
    ∃ m, amax a = .ok (.fin m) ∧ (∃ i, InBox a.shape i ∧ f i = m) ∧ ∀ i, InBox a.shape i → f i ≤ m := by
  have hmap : (indices a.shape).map a.get = ((indices a.shape).map f).map Num.fin := by
    rw [List.map_map]
    exact List.map_congr_left fun i hi => hf i (indices_mem.2 hi)
  have h0' := indices_mem.1 h0
  unfold amax
  rw [hmap]
  rcases hl : indices a.shape with _ | ⟨j, l⟩
  · rw [hl] at h0'; simp at h0'
  · simp only [List.map_cons]
    obtain ⟨m, h1, h2, h3, h4⟩ := foldl_max (l.map f) (f j)
    refine ⟨m, by rw [h1], ?_, fun i hi => ?_⟩
    · rcases h2 with h | h
      · exact ⟨j, indices_mem.2 (by rw [hl]; simp), h.symm⟩
      · obtain ⟨i, hi, rfl⟩ := List.mem_map.1 h
        exact ⟨i, indices_mem.2 (by rw [hl]; simp [hi]), rfl⟩
    · have := indices_mem.1 hi
      rw [hl] at this
      rcases List.mem_cons.1 this with rfl | h
      · exact h3
      · exact h4 _ (List.mem_map.2 ⟨i, h, rfl⟩)

/-- `m` is the largest distance of a pixel centre from the minor axis. -/
def MaxX (g : Grid) (center : ℝ × ℝ) (rotation m : ℝ) : Prop :=
  (∃ c, g.Has c ∧ |frameX g center rotation c| = m) ∧ ∀ c, g.Has c → |frameX g center rotation c| ≤ m

theorem Built.amax (hb : Built p g f2 center rotation) (hg : g.Proper) :
    ∃ m, Np.amax (map Num.abs p.xxp) = .ok (.fin m) ∧ MaxX g center rotation m := by
  have hx := hb.xxp_marr
  have hs : (map Num.abs p.xxp).shape = [g.nx, g.ny] := hx.1
  have hget : ∀ i j, i < g.nx → j < g.ny → (map Num.abs p.xxp).get [i, j] =
      .fin |frameX g center rotation ⟨0, 0, i, j, 0⟩| := fun i j hi hj => by
    have := hx.2 ⟨0, 0, i, j, 0⟩ ⟨hg.nt, hg.nv, hi, hj, hg.nz⟩
    show Num.abs (p.xxp.get [i, j]) = _
    have e : p.xxp.get [i, j] = .fin (frameX g center rotation ⟨0, 0, i, j, 0⟩) := this
    rw [e]; rfl
  have hbox : ∀ i, InBox (map Num.abs p.xxp).shape i → ∃ a b, i = [a, b] ∧ a < g.nx ∧ b < g.ny := by
    intro i hi
    rw [hs] at hi
    match i, hi with
    | [a, b], hi => exact ⟨a, b, rfl, hi.1, hi.2.1⟩
  obtain ⟨m, h1, ⟨i, hi, h2⟩, h3⟩ := amax_spec (a := map Num.abs p.xxp)
    (f := fun i => |frameX g center rotation ⟨0, 0, i.getD 0 0, i.getD 1 0, 0⟩|)
    (fun i hi => by
      obtain ⟨a, b, rfl, ha, hb'⟩ := hbox i hi
      exact hget a b ha hb') (i0 := [0, 0]) (by rw [hs]; exact ⟨hg.nx, hg.ny, trivial⟩)
  refine ⟨m, h1, ?_, fun c hc => ?_⟩
  · obtain ⟨a, b, rfl, ha, hb'⟩ := hbox i hi
    exact ⟨⟨0, 0, a, b, 0⟩, ⟨hg.nt, hg.nv, ha, hb', hg.nz⟩, h2⟩
  · exact h3 [c.x, c.y] (by rw [hs]; exact ⟨hc.2.2.1, hc.2.2.2.1, trivial⟩)

/-! ### Fields that vary from an inner to an outer value -/

/-- Power law from `a` at the centre to `b` at `x = 1`, constant beyond. -/
def fade (a b x α : ℝ) : ℝ := a + (b - a) * min 1 (x ^ α)

theorem fade_mem {a b x α : ℝ} (hx : 0 ≤ x) : min a b ≤ fade a b x α ∧ fade a b x α ≤ max a b := by
  have h1 : 0 ≤ min 1 (x ^ α) := le_min zero_le_one (Real.rpow_nonneg hx _)
  have h2 : min 1 (x ^ α) ≤ 1 := min_le_left _ _
  unfold fade
  rcases le_total a b with h | h
  · rw [min_eq_left h, max_eq_right h]; constructor <;> nlinarith
  · rw [min_eq_right h, max_eq_left h]; constructor <;> nlinarith

theorem Num.rpow_fin {x α : ℝ} (hx : 0 ≤ x) (hα : 0 ≤ α) : Num.rpow (.fin x) (.fin α) = .fin (x ^ α) := by
  unfold Num.rpow
  by_cases h : α = 0
  · simp [h]
  · simp [h, not_lt.2 hx, not_lt.2 hα]

theorem clipOut_fade {a b u : ℝ} {inc : Prop} (h1 : inc → a ≤ b) (h2 : ¬ inc → b ≤ a) :
    GrowingDisk.clipOut inc (.fin b) (.fin (a + (b - a) * u)) = .fin (a + (b - a) * min 1 u) := by
  unfold GrowingDisk.clipOut
  simp only [Num.lt]
  by_cases hi : inc
  · have hab := h1 hi
    simp only [hi, if_true]
    by_cases h : b < a + (b - a) * u
    · simp only [h, if_true]
      have hu : 1 ≤ u := by
        by_contra hcon
        have : (b - a) * u ≤ (b - a) * 1 := mul_le_mul_of_nonneg_left (not_le.1 hcon).le (by linarith)
        linarith
      rw [min_eq_left hu]; congr 1; ring
    · simp only [h, if_false]
      rcases hab.lt_or_eq with hlt | heq
      · have hu : u ≤ 1 := by
          by_contra hcon
          have : (b - a) * 1 < (b - a) * u := mul_lt_mul_of_pos_left (not_le.1 hcon) (by linarith)
          linarith
        rw [min_eq_right hu]
      · rw [heq]; simp
  · have hab := h2 hi
    simp only [hi, if_false]
    by_cases h : a + (b - a) * u < b
    · simp only [h, if_true]
      have hu : 1 ≤ u := by
        by_contra hcon
        have : (b - a) * 1 ≤ (b - a) * u := mul_le_mul_of_nonpos_left (not_le.1 hcon).le (by linarith)
        linarith
      rw [min_eq_left hu]; congr 1; ring
    · simp only [h, if_false]
      rcases hab.lt_or_eq with hlt | heq
      · have hu : u ≤ 1 := by
          by_contra hcon
          have : (b - a) * u < (b - a) * 1 := mul_lt_mul_of_neg_left (not_le.1 hcon) (by linarith)
          linarith
        rw [min_eq_right hu]
      · rw [heq]; simp

theorem disk_tDep (hb : Built p g f2 center rotation) (hg : g.Proper) {q alpha tIn tOut tMin tMax m : ℝ} (hq : 0 < q)
    (hal : 0 ≤ alpha) (h1 : 0.1 ≤ tMin) (h2 : tMax ≤ 13) (h3 : tMin ≤ tIn ∧ tIn ≤ tMax) (h4 : tMin ≤ tOut ∧ tOut ≤ tMax)
    (hm : MaxX g center rotation m) (hm0 : 0 < m) :
    ∃ A, GrowingDisk.setTDep p q alpha tIn tOut tMin tMax = { p with tDep := some A }.setPztx ∧
      MArr g (['x','y'].map some) A (fun c => .fin (fade tIn tOut (ellR g center rotation q c / m) alpha)) := by
  obtain ⟨R, a1, a2⟩ := hb.ellRadius (R := ['x','y'].map some) (MArr.scalar g (.fin q)) (q := fun _ => q)
    (fun _ _ => hq) rfl rfl
  obtain ⟨m', a3, a4⟩ := hb.amax hg
  have hmm : m' = m := by
    obtain ⟨⟨c, hc, e⟩, hu⟩ := hm
    obtain ⟨⟨c', hc', e'⟩, hu'⟩ := a4
    refine le_antisymm ?_ ?_
    · rw [← e']; exact hu _ hc'
    · rw [← e]; exact hu' _ hc
  subst hmm
  obtain ⟨F, a5, a6⟩ := MArr.bop (R := ['x','y'].map some) (· / ·) a2 (MArr.scalar g (.fin m')) rfl
  have a5' : Np.div R (scalar (.fin m')) = .ok F := a5
  refine ⟨map (GrowingDisk.clipOut (tIn ≤ tOut) (.fin tOut))
    (map (fun x => Num.fin tIn + Num.fin (tOut - tIn) * Num.rpow x (.fin alpha)) F), ?_,
    ((a6.map _).map _).congr fun c _ => ?_⟩
  · unfold GrowingDisk.setTDep
    rw [pyAssert_pos (by norm_num; exact hq), pyAssert_pos (by norm_num; exact hal), pyAssert_pos h1,
      pyAssert_pos (by norm_num; exact h2), pyAssert_pos h3, pyAssert_pos h4]
    simp only [Py.ok_bind, a1, a3, a5']
  · beta_reduce
    rw [Num.fin_div _ _ hm0.ne', Num.rpow_fin (div_nonneg (ellR_nonneg _ _ _ _ _) hm0.le) hal, Num.fin_mul, Num.fin_add,
      clipOut_fade id (fun h => (not_le.1 h).le)]
    rfl

theorem disk_setTDep (hb : Built p g f2 center rotation) (hg : g.Proper) {q alpha tIn tOut tMin tMax m : ℝ} (hq : 0 < q)
    (hal : 0 ≤ alpha) (h1 : 0.1 ≤ tMin) (h2 : tMax ≤ 13) (h3 : tMin ≤ tIn ∧ tIn ≤ tMax) (h4 : tMin ≤ tOut ∧ tOut ≤ tMax)
    (hm : MaxX g center rotation m) (hm0 : 0 < m) :
    ∃ A B, GrowingDisk.setTDep p q alpha tIn tOut tMin tMax = .ok { p with tDep := some A, logPztx := some B } ∧
      MArr g (['x','y'].map some) A (fun c => .fin (fade tIn tOut (ellR g center rotation q c / m) alpha)) ∧
      MArr g (['z','t','x','y'].map some) B
        (fun c => Num.lg (metalDens g (gasMetal g (Param.nearest p.zGrid (A.get [c.x, c.y])) c.t) c.z)) := by
  obtain ⟨A, k1, k2⟩ := disk_tDep hb hg hq hal h1 h2 h3 h4 hm hm0
  obtain ⟨g1, -, g3⟩ := hb.grid hg
  obtain ⟨B, k3, k4⟩ := enrichmentBase_gives (p := { p with tDep := some A }) hb.cubeIs hg (ζ := gasMetal g)
    (by rw [g1]; norm_num) (fun i _ k hk => ⟨(g3 i k hk).1, (g3 i k hk).2.1⟩) (tDep := A) k2.1
  exact ⟨A, B, by rw [k1]; simp only [Param.setPztx, Param.attr, Py.ok_bind, k3], k2, k4⟩

/-! ### `set_sig_v` -/

/-- The velocity dispersion of a growing disk. -/
def diskSig (g : Grid) (center : ℝ × ℝ) (rotation s e m : ℝ) (q alpha sIn sOut : ℝ × ℝ) (c : Cell) : ℝ :=
  fade (atAge g s e sIn c.t) (atAge g s e sOut c.t) (ellR g center rotation (atAge g s e q c.t) c / m)
    (atAge g s e alpha c.t)

theorem disk_setSigV (hb : Built p g f2 center rotation) (hg : g.Proper) {s e m : ℝ} (ha : Aged p s e)
    {q alpha sIn sOut : ℝ × ℝ} (hq : 0 < q.1 ∧ 0 < q.2) (hal : 0 ≤ alpha.1 ∧ 0 ≤ alpha.2) (hi : 0 < sIn.1 ∧ 0 < sIn.2)
    (ho : 0 < sOut.1 ∧ 0 < sOut.2) (hm : MaxX g center rotation m) (hm0 : 0 < m) :
    ∃ A, GrowingDisk.setSigV p q alpha sIn sOut = .ok { p with sigV := some A } ∧
      MArr g (['t','x','y'].map some) A (fun c => .fin (diskSig g center rotation s e m q alpha sIn sOut c)) := by
  obtain ⟨Q, a1, a2⟩ := ha.interp3 hb.cubeIs q
  obtain ⟨E, a3, a4⟩ := ha.interp3 hb.cubeIs alpha
  obtain ⟨I, a5, a6⟩ := ha.interp3 hb.cubeIs sIn
  obtain ⟨O, a7, a8⟩ := ha.interp3 hb.cubeIs sOut
  obtain ⟨R, b1, b2⟩ := hb.ellRadius (R := ['t','x','y'].map some) a2
    (fun c _ => atAge_pos ha.2 g hq.1 hq.2 _) rfl rfl
  obtain ⟨D, b3, b4⟩ := MArr.bop (R := [some 't', none, none]) (· - ·) a8 a6 rfl
  have b3' : Np.sub O I = .ok D := b3
  obtain ⟨m', b5, b6⟩ := hb.amax hg
  have hmm : m' = m := by
    obtain ⟨⟨c, hc, e⟩, hu⟩ := hm
    obtain ⟨⟨c', hc', e'⟩, hu'⟩ := b6
    refine le_antisymm ?_ ?_
    · rw [← e']; exact hu _ hc'
    · rw [← e]; exact hu' _ hc
  subst hmm
  obtain ⟨F, b7, b8⟩ := MArr.bop (R := ['t','x','y'].map some) (· / ·) b2 (MArr.scalar g (.fin m')) rfl
  have b7' : Np.div R (scalar (.fin m')) = .ok F := b7
  obtain ⟨P, b9, b10⟩ := MArr.bop (R := ['t','x','y'].map some) Num.rpow b8 a4 rfl
  obtain ⟨W, c1, c2⟩ := MArr.bop (R := ['t','x','y'].map some) (· * ·) b4 b10 rfl
  have c1' : Np.mul D P = .ok W := c1
  obtain ⟨S, c3, c4⟩ := MArr.bop (R := ['t','x','y'].map some) (· + ·) a6 c2 rfl
  have c3' : Np.add I W = .ok S := c3
  have hnt : p.cube.getVariableSize ['t'] = .ok g.nt := by
    simp [IFUCube.getVariableSize, IFUCube.getVariableValues, IFUCube.pyLen, hb.cubeIs.tCents.shape]
  refine ⟨⟨S.shape, fun i => if i.getD 0 0 < g.nt then GrowingDisk.clipOut
    ((I.get [i.getD 0 0, 0, 0]).lt (O.get [i.getD 0 0, 0, 0])) (O.get [i.getD 0 0, 0, 0]) (S.get i) else S.get i⟩, ?_,
    c4.1, fun c hc => ?_⟩
  · unfold GrowingDisk.setSigV
    rw [pyAssert_pos (by norm_num; exact hq), pyAssert_pos (by norm_num; exact hal), pyAssert_pos (by norm_num; exact hi),
      pyAssert_pos (by norm_num; exact ho)]
    simp only [Py.ok_bind, a1, a3, a5, a7, b1, b3', b5, b7', b9, c1', c3', hnt]
  · have e1 : I.get [c.t, 0, 0] = .fin (atAge g s e sIn c.t) := a6.2 c hc
    have e2 : O.get [c.t, 0, 0] = .fin (atAge g s e sOut c.t) := a8.2 c hc
    show (if c.t < g.nt then GrowingDisk.clipOut ((I.get [c.t, 0, 0]).lt (O.get [c.t, 0, 0])) (O.get [c.t, 0, 0])
      (S.get (['t','x','y'].map some |>.map (coordM c))) else _) = _
    rw [if_pos hc.1, c4.2 c hc, e1, e2]
    beta_reduce
    rw [Num.fin_div _ _ hm0.ne', Num.rpow_fin (div_nonneg (ellR_nonneg _ _ _ _ _) hm0.le)
      (atAge_nonneg ha.2 g hal.1 hal.2 _), Num.fin_sub, Num.fin_mul, Num.fin_add,
      clipOut_fade (inc := (Num.fin (atAge g s e sIn c.t)).lt (Num.fin (atAge g s e sOut c.t)))
        (fun h => le_of_lt h) (fun h => not_lt.1 h)]
    rfl

/-! ### `set_mu_v` -/

/-- The mean velocity of a growing disk. -/
def diskMu (g : Grid) (center : ℝ × ℝ) (rotation s e : ℝ) (q rmax vmax : ℝ × ℝ) (c : Cell) : ℝ :=
  27 * atAge g s e vmax c.t * atAge g s e rmax c.t ^ 2 * frameX g center rotation c /
    (ellR g center rotation (atAge g s e q c.t) c + 2 * atAge g s e rmax c.t) ^ 3

theorem ellR_cos (g : Grid) (center : ℝ × ℝ) (rotation q : ℝ) (c : Cell) :
    ellR g center rotation q c * Real.cos (Complex.arg ⟨frameX g center rotation c, frameY g center rotation c / q⟩) =
      frameX g center rotation c := by
  have hn : ‖(⟨frameX g center rotation c, frameY g center rotation c / q⟩ : ℂ)‖ = ellR g center rotation q c := by
    rw [Complex.norm_def, Complex.normSq_mk, ellR, pow_two, pow_two]
  by_cases h : (⟨frameX g center rotation c, frameY g center rotation c / q⟩ : ℂ) = 0
  · have := congrArg Complex.re h
    simp only [Complex.zero_re] at this
    rw [← hn, h, this]; simp
  · rw [Complex.cos_arg h, hn]
    have : ellR g center rotation q c ≠ 0 := by rw [← hn]; exact norm_ne_zero_iff.2 h
    field_simp

theorem disk_setMuV (hb : Built p g f2 center rotation) {s e : ℝ} (ha : Aged p s e)
    {q rmax vmax : ℝ × ℝ} (hq : 0 < q.1 ∧ 0 < q.2) (hr : 0 < rmax.1 ∧ 0 < rmax.2)
    (hv : (0 ≤ vmax.1 ∧ 0 ≤ vmax.2) ∨ (vmax.1 ≤ 0 ∧ vmax.2 ≤ 0)) :
    ∃ A, GrowingDisk.setMuV p q rmax vmax = .ok { p with muV := some A } ∧
      MArr g (['t','x','y'].map some) A (fun c => .fin (diskMu g center rotation s e q rmax vmax c)) := by
  obtain ⟨Q, a1, a2⟩ := ha.interp hb.cubeIs q
  obtain ⟨R, a3, a4⟩ := ha.interp hb.cubeIs rmax
  obtain ⟨V, a5, a6⟩ := ha.interp hb.cubeIs vmax
  have a7 := a4.map (fun r => Num.fin 2.0 * r)
  obtain ⟨S, b1, b2⟩ := MArr.bop (R := [some 't']) (· + ·) a4 a7 rfl
  have b1' : Np.add R (map (fun r => Num.fin 2.0 * r) R) = .ok S := b1
  obtain ⟨K, b3, b4⟩ := MArr.bop (R := [some 't']) (· * ·) a6 (b2.map (fun r => Num.npow r 3)) rfl
  have b3' : Np.mul V (map (fun r => Num.npow r 3) S) = .ok K := b3
  obtain ⟨K2, b5, b6⟩ := MArr.bop (R := [some 't']) (· / ·) b4 a4 rfl
  have b5' : Np.div K R = .ok K2 := b5
  obtain ⟨Q', c1, c2⟩ := a2.getitem [.all, .na, .na] (R := [some 't', none, none]) rfl
  obtain ⟨C, c3, c4⟩ := a7.getitem [.all, .na, .na] (R := [some 't', none, none]) rfl
  obtain ⟨K3, c5, c6⟩ := b6.getitem [.all, .na, .na] (R := [some 't', none, none]) rfl
  obtain ⟨Y, d1, d2⟩ := MArr.bop (R := ['t','x','y'].map some) (· / ·) hb.yyp_marr c2 rfl
  have d1' : Np.div p.yyp Q' = .ok Y := d1
  obtain ⟨TH, d3, d4⟩ := MArr.bop (R := ['t','x','y'].map some) Num.arctan2 d2 hb.xxp_marr rfl
  obtain ⟨RR, d5, d6⟩ := hb.ellRadius (R := ['t','x','y'].map some) c2
    (fun c _ => atAge_pos ha.2 g hq.1 hq.2 _) rfl rfl
  obtain ⟨X1, e1, e2⟩ := MArr.bop (R := ['t','x','y'].map some) (· * ·) c6 d6 rfl
  have e1' : Np.mul K3 RR = .ok X1 := e1
  obtain ⟨X2, e3, e4⟩ := MArr.bop (R := ['t','x','y'].map some) (· + ·) d6 c4 rfl
  have e3' : Np.add RR C = .ok X2 := e3
  obtain ⟨X3, e5, e6⟩ := MArr.bop (R := ['t','x','y'].map some) (· / ·) e2 (e4.map (fun r => Num.npow r 3)) rfl
  have e5' : Np.div X1 (map (fun r => Num.npow r 3) X2) = .ok X3 := e5
  obtain ⟨X4, e7, e8⟩ := MArr.bop (R := ['t','x','y'].map some) (· * ·) e6 (d4.map Num.cos) rfl
  have e7' : Np.mul X3 (map Num.cos TH) = .ok X4 := e7
  refine ⟨X4, ?_, e8.congr fun c hc => ?_⟩
  · unfold GrowingDisk.setMuV
    rw [pyAssert_pos (by norm_num; exact hq), pyAssert_pos hv]
    simp only [Py.ok_bind, a1, a3, a5, b1', b3', b5', c1, c3, c5, d1', d3, d5, e1', e3', e5', e7']
  · have hR := atAge_pos ha.2 g hr.1 hr.2 c.t
    have hQ := atAge_pos ha.2 g hq.1 hq.2 c.t
    have hE := ellR_nonneg g center rotation (atAge g s e q c.t) c
    have h3 : ∀ x : ℝ, Num.npow (.fin x) 3 = .fin (x ^ 3) := fun x => by simp [Num.npow]
    beta_reduce
    rw [Num.fin_div _ _ hQ.ne']
    simp only [Num.arctan2, Num.cos, Num.fin_mul, Num.fin_add, h3]
    rw [Num.fin_div _ _ hR.ne', Num.fin_mul, Num.fin_div _ _ (by positivity), Num.fin_mul]
    congr 1
    have hc' := ellR_cos g center rotation (atAge g s e q c.t) c
    generalize Real.cos (Complex.arg ⟨frameX g center rotation c, frameY g center rotation c / atAge g s e q c.t⟩) = K
      at hc' ⊢
    rw [diskMu, ← hc']
    generalize ellR g center rotation (atAge g s e q c.t) c = E at hE ⊢
    generalize atAge g s e rmax c.t = r at hR ⊢
    have h2 : (2.0:ℝ) = 2 := by norm_num
    rw [h2]
    field_simp
    ring

end PKM
