import Verif.Props.Particle
import Verif.Props.Moments

/-!
# C76: distributions, means and dispersions of components made from particles are those of the particles

Distributions are exact. Means and dispersions are computed from the centres of the bins, and are within half a bin width of those of the
particles.
-/

open scoped Classical

noncomputable section

namespace PKM
open Np Component

variable {cube : IFUCube} {g : Grid} {L : ℕ → ℕ → ℝ} {lw : Bool}

/-! ### Specification -/

/-- `cell s` is the cell that contains the star `s`, for all stars in range. -/
def Grid.Locates (g : Grid) (cell : Star → Cell) : Prop := ∀ s, g.inRange s → g.Has (cell s) ∧ g.inCell (cell s) s

/-- The star is in range, and in the same bins of the variables `b` as the cell `c`. -/
def Grid.Selected (g : Grid) (cell : Star → Cell) (b : PyStr) (c : Cell) (s : Star) : Prop := g.inRange s ∧ coords b (cell s) = coords b c

/-- Mass, or luminosity, of a star. -/
def starWeight (L : ℕ → ℕ → ℝ) (lw : Bool) (cell : Star → Cell) (s : Star) : ℝ := if lw then L (cell s).t (cell s).z * s.mass else s.mass

/-- Weighted sum over the selected stars. -/
def starSum (S : List Star) (sel : Star → Prop) (wt f : Star → ℝ) : ℝ := (S.map fun s => if sel s then f s * wt s else 0).sum

/-- Total weight of the selected stars. -/
def starTotal (S : List Star) (sel : Star → Prop) (wt : Star → ℝ) : ℝ := starSum S sel wt fun _ => 1

/-- Weighted mean over the selected stars. -/
def starMean (S : List Star) (sel : Star → Prop) (wt f : Star → ℝ) : ℝ := starSum S sel wt f / starTotal S sel wt

/-- Weighted standard deviation over the selected stars. -/
def starDispersion (S : List Star) (sel : Star → Prop) (wt f : Star → ℝ) : ℝ :=
  Real.sqrt (starMean S sel wt fun s => (f s - starMean S sel wt f) ^ 2)

/-- The quantity `q` of a star. -/
def Star.coord (q : Char) (s : Star) : ℝ :=
  (if q = 't' then s.t else if q = 'v' then s.v else if q = 'x' then s.x else if q = 'y' then s.y else s.z).toReal

/-! ### Lemmas -/

namespace Pos
variable {Ω : Type} {E : (Ω → ℝ) → ℝ}

theorem mono (h : Pos E) {X Y : Ω → ℝ} (hXY : ∀ d, X d ≤ Y d) : E X ≤ E Y := by
  have := h.nonneg (fun d => Y d - X d) fun d => sub_nonneg.2 (hXY d)
  rw [h.sub] at this
  linarith

/-- Functions that differ by at most `k` have means that differ by at most `k`. -/
theorem mean_close (h : Pos E) {X Y : Ω → ℝ} {k : ℝ} (hXY : ∀ d, |X d - Y d| ≤ k) : |E X - E Y| ≤ k := by
  rw [← h.sub, abs_le]
  constructor
  · have := h.mono (X := fun _ => -k) (Y := fun d => X d - Y d) fun d => (abs_le.1 (hXY d)).1
    rwa [h.const] at this
  · have := h.mono (X := fun d => X d - Y d) (Y := fun _ => k) fun d => (abs_le.1 (hXY d)).2
    rwa [h.const] at this

theorem minkowski (h : Pos E) (X Y : Ω → ℝ) :
    Real.sqrt (E fun d => X d ^ 2) ≤ Real.sqrt (E fun d => Y d ^ 2) + Real.sqrt (E fun d => (X d - Y d) ^ 2) := by
  have hA : 0 ≤ E (fun d => Y d ^ 2) := h.nonneg _ fun d => sq_nonneg _
  have hB : 0 ≤ E (fun d => (X d - Y d) ^ 2) := h.nonneg _ fun d => sq_nonneg _
  have hc := h.cauchy Y (fun d => X d - Y d)
  have e : (fun d => X d ^ 2) = fun d => (Y d ^ 2 + 2 * (Y d * (X d - Y d))) + (X d - Y d) ^ 2 := by funext d; ring
  rw [e, h.add, h.add, h.smul]
  refine Real.sqrt_le_iff.2 ⟨by positivity, ?_⟩
  have h1 := Real.sq_sqrt hA
  have h2 := Real.sq_sqrt hB
  have h3 : E (fun d => Y d * (X d - Y d)) ≤ Real.sqrt (E fun d => Y d ^ 2) * Real.sqrt (E fun d => (X d - Y d) ^ 2) := by
    rw [← Real.sqrt_mul hA]
    exact Real.le_sqrt_of_sq_le hc
  nlinarith

/-- Functions that differ by at most `k` have standard deviations that differ by at most `k`. -/
theorem sd_close (h : Pos E) {X Y : Ω → ℝ} {k : ℝ} (hk : 0 ≤ k) (hXY : ∀ d, |X d - Y d| ≤ k) :
    |Real.sqrt (E fun d => (X d - E X) ^ 2) - Real.sqrt (E fun d => (Y d - E Y) ^ 2)| ≤ k := by
  have hv : ∀ D : Ω → ℝ, E (fun d => (D d - E D) ^ 2) ≤ E (fun d => D d ^ 2) := by
    intro D
    have e := h.cov D D
    simp only [← pow_two] at e
    rw [e]
    nlinarith [sq_nonneg (E D)]
  have hd : Real.sqrt (E fun d => ((X d - E X) - (Y d - E Y)) ^ 2) ≤ k := by
    refine Real.sqrt_le_iff.2 ⟨hk, ?_⟩
    have e : (fun d => ((X d - E X) - (Y d - E Y)) ^ 2) = fun d => ((X d - Y d) - E fun d => X d - Y d) ^ 2 := by
      funext d; rw [h.sub]; ring
    rw [e]
    refine (hv fun d => X d - Y d).trans ?_
    have := h.mono (X := fun d => (X d - Y d) ^ 2) (Y := fun _ => k ^ 2) fun d => sq_le_sq' (by linarith [(abs_le.1 (hXY d)).1]) (abs_le.1 (hXY d)).2
    rwa [h.const] at this
  have hd' : Real.sqrt (E fun d => ((Y d - E Y) - (X d - E X)) ^ 2) ≤ k := by
    have e : (fun d => ((Y d - E Y) - (X d - E X)) ^ 2) = fun d => ((X d - E X) - (Y d - E Y)) ^ 2 := by funext d; ring
    rwa [e]
  have a := h.minkowski (fun d => X d - E X) (fun d => Y d - E Y)
  have b := h.minkowski (fun d => Y d - E Y) (fun d => X d - E X)
  rw [abs_le]
  constructor <;> linarith

end Pos

theorem starSum_nil (sel : Star → Prop) (wt f : Star → ℝ) : starSum [] sel wt f = 0 := rfl

theorem starSum_cons (s : Star) (S : List Star) (sel : Star → Prop) (wt f : Star → ℝ) :
    starSum (s :: S) sel wt f = (if sel s then f s * wt s else 0) + starSum S sel wt f := by simp [starSum]

theorem starSum_add (S : List Star) (sel : Star → Prop) (wt f f' : Star → ℝ) :
    starSum S sel wt (fun s => f s + f' s) = starSum S sel wt f + starSum S sel wt f' := by
  induction S with
  | nil => simp [starSum_nil]
  | cons s S ih =>
    simp only [starSum_cons, ih]
    split_ifs <;> ring

theorem starSum_smul (S : List Star) (sel : Star → Prop) (wt : Star → ℝ) (k : ℝ) (f : Star → ℝ) :
    starSum S sel wt (fun s => k * f s) = k * starSum S sel wt f := by
  induction S with
  | nil => simp [starSum_nil]
  | cons s S ih =>
    simp only [starSum_cons, ih]
    split_ifs <;> ring

theorem starSum_congr {S : List Star} {sel : Star → Prop} {wt f f' : Star → ℝ} (h : ∀ s ∈ S, sel s → f s = f' s) :
    starSum S sel wt f = starSum S sel wt f' := by
  unfold starSum
  congr 1
  refine List.map_congr_left fun s hs => ?_
  split_ifs with e
  · rw [h s hs e]
  · rfl

theorem starSum_nonneg {S : List Star} {sel : Star → Prop} {wt f : Star → ℝ} (hw : ∀ s ∈ S, sel s → 0 ≤ wt s) (hf : ∀ s ∈ S, sel s → 0 ≤ f s) :
    0 ≤ starSum S sel wt f := by
  refine List.sum_nonneg fun x hx => ?_
  obtain ⟨s, hs, rfl⟩ := List.mem_map.1 hx
  split_ifs with e
  · exact mul_nonneg (hf s hs e) (hw s hs e)
  · exact le_rfl

/-- Weighted means over stars are positive functionals. -/
theorem pos_starMean {S : List Star} {sel : Star → Prop} {wt : Star → ℝ} (hw : ∀ s ∈ S, sel s → 0 ≤ wt s) (h0 : 0 < starTotal S sel wt) :
    Pos (starMean S sel wt) where
  add f f' := by unfold starMean; rw [starSum_add, add_div]
  smul k f := by unfold starMean; rw [starSum_smul, mul_div_assoc]
  nonneg f hf := div_nonneg (starSum_nonneg hw fun s _ _ => hf s) h0.le
  one := div_self h0.ne'

section
variable {cell : Star → Cell}

/-- Sums over cells as sums over stars. -/
theorem sum_stars (hg : g.Proper) (hl : g.Locates cell) (S : List Star) (F : Cell → ℝ) :
    g.sumCells (fun d => F d * g.massIn S d) = (S.map fun s => if g.inRange s then F (cell s) * s.mass else 0).sum := by
  induction S with
  | nil => simp [Grid.massIn, Grid.sumCells]
  | cons s S ih =>
    have e : (fun d => F d * g.massIn (s :: S) d) = fun d => (if g.inCell d s then F d * s.mass else 0) + F d * g.massIn S d := by
      funext d; simp only [Grid.massIn, List.map_cons, List.sum_cons, mul_add]
      congr 1
      split_ifs <;> ring
    rw [e, sumCells_add, ih]
    have e2 : g.sumCells (fun d => if g.inCell d s then F d * s.mass else 0) =
        g.sumCells (fun d => if g.inCell d s then F (cell s) * s.mass else 0) := by
      rw [← marg_nil (g := g) (c := cell s), ← marg_nil (g := g) (c := cell s)]
      refine marg_congr fun d hd _ => ?_
      by_cases h : g.inCell d s
      · have hr : g.inRange s := (C39_partition hg s).1.2 ⟨d, hd, h⟩
        obtain ⟨h1, h2⟩ := hl s hr
        rw [(C39_partition hg s).2 d (cell s) hd h1 h h2]
      · simp [h]
    rw [e2, sum_inCell hg]
    simp

variable {S : List Star}

theorem starP (hg : g.Proper) {d : Cell} (hd : g.Has d) : massP g (g.starDensity S) d = g.massIn S d / g.massCovered S := by
  have := cellVolume_pos hg hd
  simp only [massP, Grid.starDensity, hd, if_true]
  field_simp

theorem starP_sum (hg : g.Proper) (hl : g.Locates cell) (F : Cell → ℝ) :
    g.sumCells (fun d => F d * massP g (g.starDensity S) d) = starSum S g.inRange (·.mass) (fun s => F (cell s)) / g.massCovered S := by
  have e : g.sumCells (fun d => F d * massP g (g.starDensity S) d) = g.sumCells (fun d => (1 / g.massCovered S) * (F d * g.massIn S d)) := by
    rw [← marg_nil (g := g) (c := ⟨0, 0, 0, 0, 0⟩), ← marg_nil (g := g) (c := ⟨0, 0, 0, 0, 0⟩)]
    refine marg_congr fun d hd _ => ?_
    rw [starP hg hd]; ring
  rw [e, sumCells_mul, sum_stars hg hl]
  unfold starSum
  ring

theorem starLight (hg : g.Proper) (hl : g.Locates cell) :
    totalLight g L (massP g (g.starDensity S)) = starTotal S g.inRange (starWeight L true cell) / g.massCovered S := by
  unfold totalLight
  rw [starP_sum hg hl (fun d => L d.t d.z)]
  unfold starTotal starSum starWeight
  simp

/-- Sums over the cells, weighted by mass or light, are sums over the stars. -/
theorem wtd_stars (hg : g.Proper) (hl : g.Locates cell) (h0 : 0 < g.massCovered S)
    (h1 : lw = true → 0 < starTotal S g.inRange (starWeight L true cell)) (b : PyStr) (c : Cell) (φ : Cell → ℝ) :
    g.marg (fun d => φ d * wtdP g L (massP g (g.starDensity S)) lw d) b c =
      starSum S (g.Selected cell b c) (starWeight L lw cell) (fun s => φ (cell s)) / starTotal S g.inRange (starWeight L lw cell) := by
  have sel : ∀ wt f : Star → ℝ, starSum S g.inRange wt (fun s => if coords b (cell s) = coords b c then f s else 0) =
      starSum S (g.Selected cell b c) wt f := by
    intro wt f
    unfold starSum Grid.Selected
    congr 1
    refine List.map_congr_left fun s _ => ?_
    by_cases h : g.inRange s <;> by_cases h' : coords b (cell s) = coords b c <;> simp [h, h']
  have hm : g.massCovered S = starTotal S g.inRange (starWeight L false cell) := by
    unfold starTotal starSum starWeight Grid.massCovered; simp
  cases lw with
  | false =>
    unfold Grid.marg
    have e : g.sumCells (fun d => if coords b d = coords b c then φ d * wtdP g L (massP g (g.starDensity S)) false d else 0) =
        g.sumCells (fun d => (if coords b d = coords b c then φ d else 0) * massP g (g.starDensity S) d) := by
      congr 1; funext d
      split_ifs <;> simp [wtdP]
    rw [e, starP_sum hg hl, ← sel, ← hm]
    unfold starSum starWeight
    simp
  | true =>
    have hT := h1 rfl
    unfold Grid.marg
    have e : g.sumCells (fun d => if coords b d = coords b c then φ d * wtdP g L (massP g (g.starDensity S)) true d else 0) =
        g.sumCells (fun d => (1 / totalLight g L (massP g (g.starDensity S))) *
          (((if coords b d = coords b c then φ d else 0) * L d.t d.z) * massP g (g.starDensity S) d)) := by
      congr 1; funext d
      simp only [wtdP, if_true, Grid.lightP, totalLight]
      split_ifs
      · ring
      · ring
    rw [e, sumCells_mul, starP_sum hg hl, starLight hg hl, ← sel]
    have e2 : starSum S g.inRange (·.mass) (fun s => (if coords b (cell s) = coords b c then φ (cell s) else 0) * L (cell s).t (cell s).z) =
        starSum S g.inRange (starWeight L true cell) (fun s => if coords b (cell s) = coords b c then φ (cell s) else 0) := by
      unfold starSum starWeight
      congr 1
      refine List.map_congr_left fun s _ => ?_
      simp only [if_true]
      split_ifs <;> ring
    rw [e2]
    field_simp

theorem wtd_stars_one (hg : g.Proper) (hl : g.Locates cell) (h0 : 0 < g.massCovered S)
    (h1 : lw = true → 0 < starTotal S g.inRange (starWeight L true cell)) (b : PyStr) (c : Cell) :
    g.marg (wtdP g L (massP g (g.starDensity S)) lw) b c =
      starTotal S (g.Selected cell b c) (starWeight L lw cell) / starTotal S g.inRange (starWeight L lw cell) := by
  have := wtd_stars hg hl h0 h1 b c (fun _ => 1)
  simpa only [one_mul, starTotal] using this

/-- Expectations over the cells are means over the stars. -/
theorem Ex_stars (hg : g.Proper) (hl : g.Locates cell) (h0 : 0 < g.massCovered S)
    (h1 : 0 < starTotal S g.inRange (starWeight L lw cell)) (b : PyStr) (c : Cell) (φ : Cell → ℝ) :
    Ex g (wtdP g L (massP g (g.starDensity S)) lw) b c φ =
      starMean S (g.Selected cell b c) (starWeight L lw cell) (fun s => φ (cell s)) := by
  have h1' : lw = true → 0 < starTotal S g.inRange (starWeight L true cell) := fun e => by subst e; exact h1
  unfold Ex Grid.condWt
  rw [wtd_stars hg hl h0 h1' b c φ]
  unfold starMean
  split_ifs with hb
  · subst hb
    have : g.Selected cell [] c = g.inRange := by funext s; simp [Grid.Selected, coords]
    rw [this, div_one]
  · rw [wtd_stars_one hg hl h0 h1' b c]
    by_cases h2 : starTotal S (g.Selected cell b c) (starWeight L lw cell) = 0
    · rw [h2]; simp
    · field_simp

end

/-- There is such a cell for every star in range. -/
theorem locates_exists (hg : g.Proper) : ∃ cell, g.Locates cell :=
  ⟨fun s => if h : ∃ c, g.Has c ∧ g.inCell c s then h.choose else ⟨0, 0, 0, 0, 0⟩, fun s hs => by
    have h := (C39_partition hg s).1.1 hs
    beta_reduce
    rw [dif_pos h]
    exact h.choose_spec⟩

theorem inBin_close {e : ℕ → ℝ} {n i : ℕ} {x : Num} {k : ℝ} (h : InBin e n i x) (hk : width e i ≤ 2 * k) : |centre e i - x.toReal| ≤ k := by
  obtain ⟨r, rfl, h1, h2⟩ := h
  have h3 : r ≤ e (i + 1) := by
    rcases h2 with h2 | ⟨h2, h3⟩
    · exact h2.le
    · rw [h3, ← h2]
  unfold width at hk
  unfold centre
  show |_ - r| ≤ k
  rw [abs_le]
  constructor <;> linarith

theorem coord_close {cell : Star → Cell} (hl : g.Locates cell) {q : Char} {k : ℝ} (hk : ∀ i < g.bins q, width (g.edge q) i ≤ 2 * k)
    {s : Star} (hs : g.inRange s) : |g.value q (cell s) - s.coord q| ≤ k := by
  obtain ⟨⟨a1, a2, a3, a4, a5⟩, b1, b2, b3, b4, b5⟩ := hl s hs
  unfold Grid.value Star.coord
  unfold Grid.edge Grid.bins at hk
  split_ifs at hk ⊢
  · exact inBin_close b1 (hk _ a1)
  · exact inBin_close b2 (hk _ a2)
  · exact inBin_close b3 (hk _ a3)
  · exact inBin_close b4 (hk _ a4)
  · exact inBin_close b5 (hk _ a5)

theorem starWeight_nonneg {cell : Star → Cell} {S : List Star} (hL : ∀ t z, 0 ≤ L t z) (hm : ∀ s ∈ S, 0 ≤ s.mass) :
    ∀ s ∈ S, 0 ≤ starWeight L lw cell s := by
  intro s hs
  unfold starWeight
  split
  · exact mul_nonneg (hL _ _) (hm s hs)
  · exact hm s hs

theorem coords_union_iff : ∀ p ∈ conditionals, ∀ d c, coords (unionStr p.1 p.2) d = coords (unionStr p.1 p.2) c ↔
    coords p.1 d = coords p.1 c ∧ coords p.2 d = coords p.2 c := by
  intro p hp d c
  obtain ⟨-, h2, h3, h4, h5, h6, -⟩ := conditionals_letters p hp
  simp only [coords_letters _ h6, coords_letters _ h4, coords_letters _ h5, List.map_inj_left]
  refine ⟨fun h => ⟨fun ch hc => h ch (h2 ch (by simp [hc])), fun ch hc => h ch (h2 ch (by simp [hc]))⟩, fun h ch hc => ?_⟩
  rcases List.mem_append.1 (h3 ch hc) with h' | h'
  · exact h.1 ch h'
  · exact h.2 ch h'

/-! ### Results -/

section
variable {cell : Star → Cell} {S : List Star}

theorem condWt_stars_ne (hg : g.Proper) (hl : g.Locates cell) (h0 : 0 < g.massCovered S)
    (h1 : 0 < starTotal S g.inRange (starWeight L lw cell)) {b : PyStr} {c : Cell}
    (hpos : 0 < starTotal S (g.Selected cell b c) (starWeight L lw cell)) : g.condWt (wtdP g L (massP g (g.starDensity S)) lw) b c ≠ 0 := by
  have h1' : lw = true → 0 < starTotal S g.inRange (starWeight L true cell) := fun e => by subst e; exact h1
  unfold Grid.condWt
  split
  · norm_num
  · rw [wtd_stars_one hg hl h0 h1' b c]
    exact (div_pos hpos h1).ne'

/-- The coordinate of selected stars, the bin centre of others. -/
def nearCoord (g : Grid) (cell : Star → Cell) (q : Char) (sel : Star → Prop) (s : Star) : ℝ := if sel s then s.coord q else g.value q (cell s)

theorem nearCoord_close (hl : g.Locates cell) {q : Char} {k : ℝ} (hk0 : 0 ≤ k) (hk : ∀ i < g.bins q, width (g.edge q) i ≤ 2 * k) (b : PyStr) (c : Cell)
    (s : Star) : |g.value q (cell s) - nearCoord g cell q (g.Selected cell b c) s| ≤ k := by
  unfold nearCoord
  split_ifs with h
  · exact coord_close hl hk h.1
  · simpa using hk0

theorem starMean_congr {sel : Star → Prop} {wt f f' : Star → ℝ} (h : ∀ s ∈ S, sel s → f s = f' s) :
    starMean S sel wt f = starMean S sel wt f' := by
  unfold starMean
  rw [starSum_congr h]

/-- A positive total needs a selected star. -/
theorem exists_selected {sel : Star → Prop} {wt : Star → ℝ} (h : 0 < starTotal S sel wt) : ∃ s ∈ S, sel s := by
  by_contra hne
  push Not at hne
  have : starTotal S sel wt = 0 := by
    unfold starTotal starSum
    refine List.sum_eq_zero fun x hx => ?_
    obtain ⟨s, hs, rfl⟩ := List.mem_map.1 hx
    rw [if_neg (hne s hs)]
  exact h.ne' this

theorem near_nonneg (hl : g.Locates cell) {q : Char} {k : ℝ} (hk : ∀ i < g.bins q, width (g.edge q) i ≤ 2 * k) {b : PyStr} {c : Cell} {wt : Star → ℝ}
    (hpos : 0 < starTotal S (g.Selected cell b c) wt) : 0 ≤ k := by
  obtain ⟨s, -, hs⟩ := exists_selected hpos
  exact (abs_nonneg _).trans (coord_close hl hk hs.1)

theorem mean_near (hl : g.Locates cell) {q : Char} {k : ℝ} {b : PyStr} {c : Cell} {wt : Star → ℝ} (hw : ∀ s ∈ S, g.Selected cell b c s → 0 ≤ wt s)
    (hpos : 0 < starTotal S (g.Selected cell b c) wt) (hk : ∀ i < g.bins q, width (g.edge q) i ≤ 2 * k) :
    |starMean S (g.Selected cell b c) wt (fun s => g.value q (cell s)) - starMean S (g.Selected cell b c) wt (Star.coord q)| ≤ k := by
  have hE := pos_starMean hw hpos
  have e : starMean S (g.Selected cell b c) wt (Star.coord q) = starMean S (g.Selected cell b c) wt (nearCoord g cell q (g.Selected cell b c)) :=
    starMean_congr fun s _ hs => by simp [nearCoord, hs]
  rw [e]
  exact hE.mean_close (nearCoord_close hl (near_nonneg hl hk hpos) hk b c)

theorem disp_near (hl : g.Locates cell) {q : Char} {k : ℝ} {b : PyStr} {c : Cell} {wt : Star → ℝ} (hw : ∀ s ∈ S, g.Selected cell b c s → 0 ≤ wt s)
    (hpos : 0 < starTotal S (g.Selected cell b c) wt) (hk : ∀ i < g.bins q, width (g.edge q) i ≤ 2 * k) :
    |Real.sqrt (starMean S (g.Selected cell b c) wt fun s =>
        (g.value q (cell s) - starMean S (g.Selected cell b c) wt fun s => g.value q (cell s)) ^ 2) -
      starDispersion S (g.Selected cell b c) wt (Star.coord q)| ≤ k := by
  have hE := pos_starMean hw hpos
  have e : starMean S (g.Selected cell b c) wt (Star.coord q) = starMean S (g.Selected cell b c) wt (nearCoord g cell q (g.Selected cell b c)) :=
    starMean_congr fun s _ hs => by simp [nearCoord, hs]
  have e2 : starDispersion S (g.Selected cell b c) wt (Star.coord q) = Real.sqrt (starMean S (g.Selected cell b c) wt fun s =>
      (nearCoord g cell q (g.Selected cell b c) s - starMean S (g.Selected cell b c) wt (nearCoord g cell q (g.Selected cell b c))) ^ 2) := by
    unfold starDispersion
    rw [e]
    congr 1
    exact starMean_congr fun s _ hs => by simp [nearCoord, hs]
  rw [e2]
  exact hE.sd_close (near_nonneg hl hk hpos) (nearCoord_close hl (near_nonneg hl hk hpos) hk b c)

/-- All marginal and conditional distributions are the fractions of the mass, or light, of the particles. -/
theorem C76_distributions (hc : CubeIs cube g) (hg : g.Proper)
    (hlight : IsArr g ['t','z'] cube.ssps.lightWeights (fun c => .fin (L c.t c.z))) (hL : ∀ t z, 0 ≤ L t z) (hl : g.Locates cell)
    (hm : ∀ s ∈ S, 0 ≤ s.mass) (h0 : 0 < g.massCovered S) (h1 : 0 < starTotal S g.inRange (starWeight L lw cell)) :
    ∃ stored rep, fromStars cube S = .ok (stored, rep) ∧
      (∀ w ∈ marginals, ∃ p, getP (baseSelf cube stored) w false lw = .ok p ∧ p.shape = g.shapeOf w ∧ ∀ c, g.Has c →
        p.get (coords w c) = .fin (starTotal S (g.Selected cell w c) (starWeight L lw cell) / starTotal S g.inRange (starWeight L lw cell))) ∧
      ∀ a b, (a, b) ∈ conditionals → ∃ p, getP (baseSelf cube stored) (condStr a b) false lw = .ok p ∧ p.shape = g.shapeOf a ++ g.shapeOf b ∧
        ∀ c, g.Has c → p.get (coords a c ++ coords b c) =
          if starTotal S (g.Selected cell b c) (starWeight L lw cell) = 0 then .nan else
            .fin (starTotal S (fun s => g.Selected cell a c s ∧ g.Selected cell b c s) (starWeight L lw cell) /
              starTotal S (g.Selected cell b c) (starWeight L lw cell)) := by
  obtain ⟨st, e1, h⟩ := C39_component hc hg hlight hL S hm h0
  have h1' : lw = true → 0 < starTotal S g.inRange (starWeight L true cell) := fun e => by subst e; exact h1
  have hlw : lw = true → 0 < totalLight g L (massP g (g.starDensity S)) := fun e => by
    rw [starLight hg hl]; exact div_pos (h1' e) h0
  refine ⟨st, _, e1, fun w hw => ?_, fun a b hab => ?_⟩
  · obtain ⟨p, hp, hs, hp'⟩ := getP_marg_of_contract (h.contract lw hlw) false w hw
    refine ⟨p, hp, hs, fun c hc => ?_⟩
    rw [hp' c hc]
    beta_reduce
    rw [wtd_stars_one hg hl h0 h1' w c]
    simp [dvol]
  · obtain ⟨p, hp, hs, hp'⟩ := getP_cond_of_contract (h.contract lw hlw) false (a, b) hab (baseLogP_none _ _ (condStr_not_marginal a b))
    refine ⟨p, hp, by rw [hs, shapeOf_condStr], fun c hc => ?_⟩
    rw [← coords_condStr, hp' c hc]
    beta_reduce
    rw [wtd_stars_one hg hl h0 h1' b c, wtd_stars_one hg hl h0 h1' _ c]
    have hsel : g.Selected cell (unionStr a b) c = fun s => g.Selected cell a c s ∧ g.Selected cell b c s := by
      funext s
      have := coords_union_iff (a, b) hab (cell s) c
      simp only [Grid.Selected, eq_iff_iff]
      tauto
    simp only [condTable, dvol, Bool.false_eq_true, if_false, div_one]
    rw [hsel]
    by_cases h2 : starTotal S (g.Selected cell b c) (starWeight L lw cell) = 0
    · simp [h2]
    · rw [if_neg (div_ne_zero h2 h1.ne'), if_neg h2]
      congr 1
      field_simp

/-- Means are within half a bin width of those of the particles; where there are no particles they are nan. -/
theorem C76_means (hc : CubeIs cube g) (hg : g.Proper)
    (hlight : IsArr g ['t','z'] cube.ssps.lightWeights (fun c => .fin (L c.t c.z))) (hL : ∀ t z, 0 ≤ L t z) (hl : g.Locates cell)
    (hm : ∀ s ∈ S, 0 ≤ s.mass) (h0 : 0 < g.massCovered S) (h1 : 0 < starTotal S g.inRange (starWeight L lw cell))
    (q : Char) (hq : q ∈ ['t','v','x','y','z']) (b : PyStr) (hb : ValidPair (varOf q) b) (k : ℝ)
    (hk : ∀ i < g.bins q, width (g.edge q) i ≤ 2 * k) :
    ∃ stored rep r, fromStars cube S = .ok (stored, rep) ∧ getMean (baseSelf cube stored) (distStr (varOf q) b) lw = .ok r ∧
      r.shape = compShape (varOf q) ++ g.shapeOf b ∧ ∀ c, g.Has c →
        (0 < starTotal S (g.Selected cell b c) (starWeight L lw cell) → ∃ m : ℝ, r.get (compIdx q ++ coords b c) = .fin m ∧
          |m - starMean S (g.Selected cell b c) (starWeight L lw cell) (Star.coord q)| ≤ k) ∧
        (starTotal S (g.Selected cell b c) (starWeight L lw cell) = 0 → r.get (compIdx q ++ coords b c) = .nan) := by
  obtain ⟨st, e1, h⟩ := C39_component hc hg hlight hL S hm h0
  have h1' : lw = true → 0 < starTotal S g.inRange (starWeight L true cell) := fun e => by subst e; exact h1
  have hlw : lw = true → 0 < totalLight g L (massP g (g.starDensity S)) := fun e => by
    rw [starLight hg hl]; exact div_pos (h1' e) h0
  obtain ⟨r, hr, hr1, hr2⟩ := C13_means h hlw q hq b hb
  refine ⟨st, _, r, e1, hr, hr1, fun c hc => ⟨fun hpos => ?_, fun hz => ?_⟩⟩
  · have hne := condWt_stars_ne hg hl h0 h1 hpos
    refine ⟨_, (hr2 c hc).trans (by rw [expect_eq, if_neg hne]), ?_⟩
    rw [Ex_stars hg hl h0 h1]
    exact mean_near hl (fun s hs _ => starWeight_nonneg hL hm s hs) hpos hk
  · have hz' : g.condWt (wtdP g L (massP g (g.starDensity S)) lw) b c = 0 := by
      have hb : b ≠ [] := by
        rintro rfl
        have : g.Selected cell [] c = g.inRange := by funext s; simp [Grid.Selected, coords]
        rw [this] at hz
        exact h1.ne' hz
      rw [Grid.condWt, if_neg hb, wtd_stars_one hg hl h0 h1' b c, hz, zero_div]
    rw [hr2 c hc, expect_eq, if_pos hz']

/-- Dispersions are within half a bin width of the standard deviations of the particles. -/
theorem C76_dispersions (hc : CubeIs cube g) (hg : g.Proper)
    (hlight : IsArr g ['t','z'] cube.ssps.lightWeights (fun c => .fin (L c.t c.z))) (hL : ∀ t z, 0 ≤ L t z) (hl : g.Locates cell)
    (hm : ∀ s ∈ S, 0 ≤ s.mass) (h0 : 0 < g.massCovered S) (h1 : 0 < starTotal S g.inRange (starWeight L lw cell))
    (q : Char) (hq : q ∈ ['t','v','x','y','z']) (b : PyStr) (hb : ValidPair (varOf q) b) (k : ℝ)
    (hk : ∀ i < g.bins q, width (g.edge q) i ≤ 2 * k) :
    ∃ stored rep D, fromStars cube S = .ok (stored, rep) ∧ (obj (baseSelf cube stored)).getDispersion (distStr (varOf q) b) lw = .ok D ∧
      ∀ c, g.Has c → 0 < starTotal S (g.Selected cell b c) (starWeight L lw cell) → ∃ σ : ℝ, D.get (compIdx q ++ coords b c) = .fin σ ∧
        |σ - starDispersion S (g.Selected cell b c) (starWeight L lw cell) (Star.coord q)| ≤ k := by
  obtain ⟨st, e1, h⟩ := C39_component hc hg hlight hL S hm h0
  have h1' : lw = true → 0 < starTotal S g.inRange (starWeight L true cell) := fun e => by subst e; exact h1
  have hlw : lw = true → 0 < totalLight g L (massP g (g.starDensity S)) := fun e => by
    rw [starLight hg hl]; exact div_pos (h1' e) h0
  have hN : b = [] → lw = false → g.sumCells (massP g (g.starDensity S)) = 1 := by
    rintro rfl rfl
    have e := wtd_stars_one (lw := false) (L := L) hg hl h0 (by simp) [] ⟨0, 0, 0, 0, 0⟩
    have e' : g.Selected cell [] ⟨0, 0, 0, 0, 0⟩ = g.inRange := by funext s; simp [Grid.Selected, coords]
    rw [marg_nil, e', div_self h1.ne'] at e
    simpa [wtdP] using e
  obtain ⟨_, _, V, D, -, -, -, hD, hD'⟩ := C16_variance h hlw q hq b hb hN
  refine ⟨st, _, D, e1, hD, fun c hc hpos => ?_⟩
  obtain ⟨-, -, v, -, -, hv, hD2⟩ := hD' c hc (condWt_stars_ne hg hl h0 h1 hpos)
  refine ⟨_, hD2, ?_⟩
  have hw := fun s (hs : s ∈ S) (_ : g.Selected cell b c s) => starWeight_nonneg (lw := lw) (cell := cell) hL hm s hs
  have hE := pos_starMean hw hpos
  have e := hE.cov (fun s => g.value q (cell s)) (fun s => g.value q (cell s))
  simp only [← pow_two] at e
  rw [hv, Ex_stars hg hl h0 h1, Ex_stars hg hl h0 h1, ← e]
  exact disp_near hl hw hpos hk

end

/-! ### The hypotheses are met -/

theorem demoStars_light (cell : Star → Cell) : 0 < starTotal demoStars demoGrid.inRange (starWeight demoL true cell) := by
  have h : demoGrid.massCovered demoStars ≤ starTotal demoStars demoGrid.inRange (starWeight demoL true cell) := by
    unfold Grid.massCovered starTotal starSum
    refine List.sum_le_sum fun s hs => ?_
    split_ifs
    · have h0 : 0 ≤ s.mass := by
        simp only [demoStars, List.mem_cons, List.not_mem_nil, or_false] at hs
        rcases hs with rfl | rfl | rfl <;> norm_num
      simp only [starWeight, if_true, one_mul, demoL]
      nlinarith [(Nat.cast_nonneg (cell s).t : (0 : ℝ) ≤ _)]
    · exact le_refl 0
  rw [demoStars_covered] at h
  linarith

/-- The three particles of the example of C39, weighted by light: the mean velocity is within 50 km/s of the one of the particles, since
bins are 100 km/s wide, and so is the dispersion. -/
example : ∃ cube cell stored rep r m D σ, CubeIs cube demoGrid ∧ demoGrid.Locates cell ∧ fromStars cube demoStars = .ok (stored, rep) ∧
    getMean (baseSelf cube stored) ['v'] true = .ok r ∧ r.get [] = .fin m ∧
    |m - starMean demoStars demoGrid.inRange (starWeight demoL true cell) (Star.coord 'v')| ≤ 50 ∧
    (obj (baseSelf cube stored)).getDispersion ['v'] true = .ok D ∧ D.get [] = .fin σ ∧
    |σ - starDispersion demoStars demoGrid.inRange (starWeight demoL true cell) (Star.coord 'v')| ≤ 50 := by
  obtain ⟨cube, -, hc, hs⟩ := demoCube_exists
  obtain ⟨cell, hl⟩ := locates_exists demoGrid_proper
  have hw : ∀ i < demoGrid.bins 'v', width (demoGrid.edge 'v') i ≤ 2 * 50 := by
    intro i _
    simp [Grid.edge, demoGrid, cubeGrid, evenEdges, width]
    norm_num
    linarith
  have h0 : 0 < demoGrid.massCovered demoStars := by rw [demoStars_covered]; norm_num
  have hm : ∀ s ∈ demoStars, 0 ≤ s.mass := by simp [demoStars]
  have hsel : demoGrid.Selected cell [] ⟨0, 0, 0, 0, 0⟩ = demoGrid.inRange := by funext s; simp [Grid.Selected, coords]
  have hH : demoGrid.Has ⟨0, 0, 0, 0, 0⟩ := by simp [Grid.Has, demoGrid, cubeGrid]
  obtain ⟨st, rep, r, e1, e2, -, e3⟩ := C76_means (lw := true) hc demoGrid_proper (demo_light hs) (fun t z => (demoL_pos t z).le) hl hm h0
    (demoStars_light cell) 'v' (by simp) [] (Or.inl ⟨rfl, by decide +kernel⟩) 50 hw
  obtain ⟨st', rep', D, e1', e2', e3'⟩ := C76_dispersions (lw := true) hc demoGrid_proper (demo_light hs) (fun t z => (demoL_pos t z).le) hl hm h0
    (demoStars_light cell) 'v' (by simp) [] (Or.inl ⟨rfl, by decide +kernel⟩) 50 hw
  have e := e1.symm.trans e1'
  injection e with e
  injection e with ea eb
  subst ea
  have hp : 0 < starTotal demoStars (demoGrid.Selected cell [] ⟨0, 0, 0, 0, 0⟩) (starWeight demoL true cell) := by rw [hsel]; exact demoStars_light cell
  obtain ⟨m, m1, m2⟩ := (e3 _ hH).1 hp
  obtain ⟨σ, s1, s2⟩ := e3' _ hH hp
  rw [hsel] at m2 s2
  exact ⟨cube, cell, st, rep, r, m, D, σ, hc, hl, e1, e2, m1, m2, e2', s1, s2⟩

end PKM
