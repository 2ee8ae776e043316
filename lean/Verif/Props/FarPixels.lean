import Verif.Props.FarStars
import Verif.Props.MixMoments

/-!
# C116: few stars are far from the centre of the image

`get_p('x')`, `get_mean('x')` and `get_variance('x')`, given anything else or not, answer about the same stars in two dimensions: at most
`(variance of x1 + variance of x2) / k²` of the stars of the image are in pixels at a distance `k` or more from the mean position.
-/

open scoped Classical

noncomputable section

namespace PKM
open Np Component

variable {cube : IFUCube} {stored : Arr Num} {g : Grid} {ρ : Cell → ℝ} {L : ℕ → ℕ → ℝ} {lw : Bool} {b : PyStr}

/-! ### Specification -/

/-- Probability of the pixels whose centres fulfil `S`. -/
def imageWhere (g : Grid) (π : ℕ → ℕ → ℝ) (S : ℝ → ℝ → Prop) : ℝ :=
  ∑ i ∈ Finset.range g.nx, ∑ j ∈ Finset.range g.ny, if S (centre g.x i) (centre g.y j) then π i j else 0

/-- What the mean position `(μx, μy)` and the variances `vx`, `vy` say about an image `π`. -/
structure ImageConcentrated (g : Grid) (π : ℕ → ℕ → ℝ) (μx μy vx vy : ℝ) : Prop where
  /-- the pixels hold all stars -/
  all : imageWhere g π (fun _ _ => True) = 1
  /-- pixels at a distance of `k` or more -/
  far : ∀ k > 0, imageWhere g π (fun x y => k ≤ √((x - μx) ^ 2 + (y - μy) ^ 2)) ≤ (vx + vy) / k ^ 2
  /-- pixels `k` or more to the left or right, above or below -/
  farX : ∀ k > 0, imageWhere g π (fun x _ => k ≤ |x - μx|) ≤ vx / k ^ 2
  farY : ∀ k > 0, imageWhere g π (fun _ y => k ≤ |y - μy|) ≤ vy / k ^ 2
  /-- the variances are limited by the distances of the mean from the outermost pixels -/
  endsX : vx ≤ (centre g.x (g.nx - 1) - μx) * (μx - centre g.x 0)
  endsY : vy ≤ (centre g.y (g.ny - 1) - μy) * (μy - centre g.y 0)
  /-- no spread means one pixel -/
  point : vx = 0 ∧ vy = 0 ↔ ∃ i < g.nx, ∃ j < g.ny, π i j = 1

/-- The image, mean position and variances that `o` returns given `b` belong together. -/
def ImageAgrees (o : Obj) (g : Grid) (lw : Bool) (b : PyStr) (good : Cell → Prop) : Prop :=
  ∃ A M V, o.getP (distStr ['x'] b) false lw = .ok A ∧ o.getMean (distStr ['x'] b) lw = .ok M ∧ o.getVariance (distStr ['x'] b) lw = .ok V ∧
    ∀ c, g.Has c → good c → ∃ (π : ℕ → ℕ → ℝ) (μx μy vx vy : ℝ),
      (∀ i < g.nx, ∀ j < g.ny, A.get (i :: j :: coords b c) = .fin (π i j)) ∧
      M.get (0 :: coords b c) = .fin μx ∧ M.get (1 :: coords b c) = .fin μy ∧
      V.get (0 :: coords b c) = .fin vx ∧ V.get (1 :: coords b c) = .fin vy ∧ ImageConcentrated g π μx μy vx vy

/-! ### Lemmas -/

/-- Probability of a pixel given `b` at `c`. -/
def pixelProb (g : Grid) (P : Cell → ℝ) (b : PyStr) (c : Cell) (i j : ℕ) : ℝ :=
  g.marg (fun d => if d.x = i ∧ d.y = j then P d else 0) b c / g.condWt P b c

theorem marg_union_pixel (h : ValidPair ['x'] b) (P : Cell → ℝ) (c : Cell) (i j : ℕ) :
    g.marg P (unionStr ['x'] b) (setL (setL c 'x' i) 'y' j) = g.marg (fun d => if d.x = i ∧ d.y = j then P d else 0) b c := by
  obtain ⟨h1, h2, h3, h4, h5, h6, h7⟩ := validPair_facts ['x'] b h
  have hr : PyStr.replaceX ['x'] = ['x', 'y'] := by decide
  have hx : AxisChar 'x' := by unfold AxisChar; decide
  have hy : AxisChar 'y' := by unfold AxisChar; decide
  rw [hr] at h1 h2 h6 h7
  have hxb : 'x' ∉ PyStr.replaceX b ∧ 'y' ∉ PyStr.replaceX b := by
    simp only [List.cons_append, List.nil_append, List.nodup_cons, List.mem_cons, not_or] at h1
    exact ⟨h1.1.2, h1.2.1⟩
  have key : ∀ d, coords (unionStr ['x'] b) d = coords (unionStr ['x'] b) (setL (setL c 'x' i) 'y' j) ↔
      (coords b d = coords b c ∧ d.x = i ∧ d.y = j) := by
    intro d
    have ex : coordL d 'x' = d.x := rfl
    have ey : coordL d 'y' = d.y := rfl
    rw [coords_letters _ (marginals_chars _ h5), coords_letters _ (marginals_chars _ h5),
      coords_letters _ h4, coords_letters _ h4, List.map_inj_left, List.map_inj_left]
    constructor
    · intro hh
      refine ⟨fun ch hch => ?_, ?_, ?_⟩
      · have hA : AxisChar ch := h2 ch (by simp [hch])
        have := hh ch (h6 ch (by simp [hch]))
        rwa [coordL_setL hy hA, if_neg (fun e : ch = 'y' => hxb.2 (e ▸ hch)), coordL_setL hx hA, if_neg (fun e : ch = 'x' => hxb.1 (e ▸ hch))] at this
      · have := hh 'x' (h6 'x' (by simp))
        rwa [coordL_setL hy hx, if_neg (by decide), coordL_setL hx hx, if_pos rfl] at this
      · have := hh 'y' (h6 'y' (by simp))
        rwa [coordL_setL hy hy, if_pos rfl] at this
    · rintro ⟨hh, hi, hj⟩ ch hch
      have hch' := h7 ch hch
      have hA : AxisChar ch := h2 ch hch'
      rw [coordL_setL hy hA, coordL_setL hx hA]
      by_cases e : ch = 'y'
      · rw [if_pos e, e, ey, hj]
      · rw [if_neg e]
        by_cases e' : ch = 'x'
        · rw [if_pos e', e', ex, hi]
        · rw [if_neg e']
          refine hh ch ?_
          simp only [List.cons_append, List.nil_append, List.mem_cons] at hch'
          tauto
  unfold Grid.marg
  congr 1
  funext d
  simp only [key]
  by_cases h1 : coords b d = coords b c <;> by_cases h2 : d.x = i ∧ d.y = j <;> simp [h1, h2]

theorem pixel_table {A : Arr Num} {P m : Cell → ℝ} (h : ValidPair ['x'] b) (hm : Respects b m)
    (hA : LArr g (PyStr.replaceX ['x'] ++ PyStr.replaceX b) A (tab g P m ['x'] b)) {c : Cell} (hc : g.Has c) (h0 : m c ≠ 0)
    {i j : ℕ} (hi : i < g.nx) (hj : j < g.ny) :
    A.get (i :: j :: coords b c) = .fin (g.marg (fun d => if d.x = i ∧ d.y = j then P d else 0) b c / m c) := by
  obtain ⟨h1, h2, h3, h4, -⟩ := validPair_facts ['x'] b h
  have hr : PyStr.replaceX ['x'] = ['x', 'y'] := by decide
  have hx : AxisChar 'x' := by unfold AxisChar; decide
  have hy : AxisChar 'y' := by unfold AxisChar; decide
  rw [hr] at hA h1
  have hxb : 'x' ∉ PyStr.replaceX b ∧ 'y' ∉ PyStr.replaceX b := by
    simp only [List.cons_append, List.nil_append, List.nodup_cons, List.mem_cons, not_or] at h1
    exact ⟨h1.1.2, h1.2.1⟩
  have hco : coords b (setL (setL c 'x' i) 'y' j) = coords b c := (coords_setL h4 hy hxb.2 _ _).trans (coords_setL h4 hx hxb.1 _ _)
  have := hA.2 (setL (setL c 'x' i) 'y' j) (has_setL (has_setL hc hx hi) hy hj)
  rw [List.map_append, ← coords_letters _ h4, hco] at this
  have hw : m (setL (setL c 'x' i) 'y' j) = m c := hm _ _ hco
  rw [tab_fin (by rw [hw]; exact h0), hw, marg_union_pixel h] at this
  exact this

/-- Sums over the pixels are expectations. -/
theorem sum_pixelProb (P : Cell → ℝ) (c : Cell) (φ : ℕ → ℕ → ℝ) :
    ∑ i ∈ Finset.range g.nx, ∑ j ∈ Finset.range g.ny, φ i j * pixelProb g P b c i j = Ex g P b c (fun d => φ d.x d.y) := by
  unfold pixelProb Ex
  simp only [← mul_div_assoc, ← marg_smul]
  simp only [div_eq_mul_inv, ← Finset.sum_mul, marg_sum]
  congr 1
  apply marg_congr
  intro d hd _
  rw [Finset.sum_eq_single d.x, Finset.sum_eq_single d.y]
  · simp
  · intro k _ hk; simp [Ne.symm hk]
  · intro h; exact absurd (Finset.mem_range.2 hd.2.2.2.1) h
  · intro k _ hk
    exact Finset.sum_eq_zero fun j _ => by simp [Ne.symm hk]
  · intro h; exact absurd (Finset.mem_range.2 hd.2.2.1) h

theorem pixelProb_nonneg {P : Cell → ℝ} (hP : ∀ d, g.Has d → 0 ≤ P d) (c : Cell) (i j : ℕ) : 0 ≤ pixelProb g P b c i j := by
  refine div_nonneg (sumCells_nonneg fun d hd => ?_) (condWt_nonneg hP)
  beta_reduce
  split_ifs
  · exact hP d hd
  all_goals exact le_rfl

theorem centres_inj {n : ℕ} {e : ℕ → ℝ} (he : ∀ i < n, e i < e (i + 1)) {i j : ℕ} (hi : i < n) (hj : j < n) (h : centre e i = centre e j) : i = j := by
  have st : ∀ i j, i < j → j < n → centre e i < centre e j := fun i j hij hj => by
    have a := centres_mono he (show i ≤ j - 1 by omega) (by omega)
    have b := he (j - 1) (by omega)
    have d := he j hj
    rw [show j - 1 + 1 = j by omega] at b
    have : centre e (j - 1) < centre e j := by unfold centre; rw [show j - 1 + 1 = j by omega]; linarith
    linarith
  by_contra hne
  rcases lt_or_gt_of_ne hne with hlt | hlt
  · exact absurd h (st i j hlt hj).ne
  · exact absurd h (st j i hlt hi).ne'

theorem image_concentrated {P : Cell → ℝ} (hg : g.Proper) (hP : ∀ d, g.Has d → 0 ≤ P d) {c : Cell} (h0 : g.condWt P b c ≠ 0)
    (hN : b = [] → g.sumCells P = 1) :
    ImageConcentrated g (pixelProb g P b c) (Ex g P b c (g.value 'x')) (Ex g P b c (g.value 'y'))
      (Ex g P b c (fun d => (g.value 'x' d - Ex g P b c (g.value 'x')) ^ 2)) (Ex g P b c (fun d => (g.value 'y' d - Ex g P b c (g.value 'y')) ^ 2)) := by
  have E := pos_Ex hP h0 hN
  have vx : ∀ d, g.value 'x' d = centre g.x d.x := fun d => rfl
  have vy : ∀ d, g.value 'y' d = centre g.y d.y := fun d => rfl
  have where_ : ∀ S : ℝ → ℝ → Prop, imageWhere g (pixelProb g P b c) S =
      Ex g P b c (fun d => if S (g.value 'x' d) (g.value 'y' d) then 1 else 0) := by
    intro S
    refine Eq.trans ?_ (sum_pixelProb P c (fun i j => if S (centre g.x i) (centre g.y j) then (1 : ℝ) else 0))
    unfold imageWhere
    exact Finset.sum_congr rfl fun i _ => Finset.sum_congr rfl fun j _ => by split_ifs <;> simp
  have mono : ∀ φ ψ : Cell → ℝ, (∀ d, g.Has d → φ d ≤ ψ d) → Ex g P b c φ ≤ Ex g P b c ψ := by
    intro φ ψ h
    have h1 : 0 ≤ Ex g P b c (fun d => ψ d + (-1) * φ d) := Ex_nonneg hP fun d hd => by have := h d hd; linarith
    rw [E.add, E.smul] at h1
    linarith
  have cheb : ∀ (S : ℝ → ℝ → Prop) (φ : Cell → ℝ) (k : ℝ), 0 < k → (∀ d, 0 ≤ φ d) → (∀ d, S (g.value 'x' d) (g.value 'y' d) → k ^ 2 ≤ φ d) →
      imageWhere g (pixelProb g P b c) S ≤ Ex g P b c φ / k ^ 2 := by
    intro S φ k hk hφ h
    rw [le_div_iff₀ (by positivity), where_, mul_comm, ← E.smul]
    refine mono _ _ fun d _ => ?_
    split_ifs with hS
    · rw [mul_one]; exact h d hS
    · rw [mul_zero]; exact hφ d
  have ends : ∀ (f : Cell → ℝ) (lo hi : ℝ), (∀ d, g.Has d → lo ≤ f d ∧ f d ≤ hi) →
      Ex g P b c (fun d => (f d - Ex g P b c f) ^ 2) ≤ (hi - Ex g P b c f) * (Ex g P b c f - lo) := by
    intro f lo hi h
    set μ := Ex g P b c f
    have h1 : 0 ≤ Ex g P b c (fun d => (hi - f d) * (f d - lo)) := Ex_nonneg hP fun d hd =>
      mul_nonneg (sub_nonneg.2 (h d hd).2) (sub_nonneg.2 (h d hd).1)
    have e1 : Ex g P b c (fun d => (hi - f d) * (f d - lo)) = Ex g P b c (fun d => (hi - μ) * (μ - lo) * 1 + ((hi + lo - 2 * μ) * (f d + (-μ) * 1) + (-1) * (f d - μ) ^ 2)) :=
      congrArg _ (funext fun d => by ring)
    rw [e1, E.add, E.smul, E.one, E.add, E.smul, E.add, E.smul, E.one, E.smul] at h1
    have : Ex g P b c f = μ := rfl
    rw [show Ex g P b c (fun d => f d) = μ from rfl] at h1
    nlinarith
  have hX : ∀ i < g.nx, g.x i < g.x (i + 1) := hg.x
  have hY : ∀ i < g.ny, g.y i < g.y (i + 1) := hg.y
  refine ⟨?_, fun k hk => ?_, fun k hk => ?_, fun k hk => ?_, ?_, ?_, ?_⟩
  · rw [where_]
    simp only [if_true]
    exact E.one
  · rw [← E.add]
    refine cheb _ _ k hk (fun d => by positivity) fun d hS => ?_
    exact (Real.le_sqrt hk.le (by positivity)).1 hS
  · refine cheb _ _ k hk (fun d => sq_nonneg _) fun d hS => ?_
    rw [← sq_abs (_ - _)]
    exact pow_le_pow_left₀ hk.le hS 2
  · refine cheb _ _ k hk (fun d => sq_nonneg _) fun d hS => ?_
    rw [← sq_abs (_ - _)]
    exact pow_le_pow_left₀ hk.le hS 2
  · exact ends _ _ _ fun d hd => ⟨centres_mono hX (Nat.zero_le _) hd.2.2.1, centres_mono hX (by have := hd.2.2.1; omega) (by have := hd.2.2.1; omega)⟩
  · exact ends _ _ _ fun d hd => ⟨centres_mono hY (Nat.zero_le _) hd.2.2.2.1, centres_mono hY (by have := hd.2.2.2.1; omega) (by have := hd.2.2.2.1; omega)⟩
  · have hπ := pixelProb_nonneg (b := b) hP c
    have tot : ∑ q ∈ Finset.range g.nx ×ˢ Finset.range g.ny, pixelProb g P b c q.1 q.2 = 1 := by
      rw [Finset.sum_product]
      have := sum_pixelProb (g := g) (b := b) P c (fun _ _ => 1)
      simp only [one_mul] at this
      rw [this]; exact E.one
    have var : ∀ φ : ℕ → ℕ → ℝ, Ex g P b c (fun d => φ d.x d.y) = ∑ q ∈ Finset.range g.nx ×ˢ Finset.range g.ny, φ q.1 q.2 * pixelProb g P b c q.1 q.2 := by
      intro φ
      rw [Finset.sum_product, sum_pixelProb]
    set μx := Ex g P b c (g.value 'x')
    set μy := Ex g P b c (g.value 'y')
    have ex := var (fun i j => (centre g.x i - μx) ^ 2)
    have ey := var (fun i j => (centre g.y j - μy) ^ 2)
    have ax := var (fun i j => centre g.x i)
    have ay := var (fun i j => centre g.y j)
    constructor
    · rintro ⟨z1, z2⟩
      have zx := (Finset.sum_eq_zero_iff_of_nonneg fun q _ => mul_nonneg (sq_nonneg _) (hπ _ _)).1 (ex.symm.trans z1)
      have zy := (Finset.sum_eq_zero_iff_of_nonneg fun q _ => mul_nonneg (sq_nonneg _) (hπ _ _)).1 (ey.symm.trans z2)
      obtain ⟨q, hq, h⟩ : ∃ q ∈ Finset.range g.nx ×ˢ Finset.range g.ny, pixelProb g P b c q.1 q.2 ≠ 0 := by
        by_contra hc
        push Not at hc
        rw [Finset.sum_eq_zero hc] at tot
        exact zero_ne_one tot
      have at_ : ∀ r ∈ Finset.range g.nx ×ˢ Finset.range g.ny, pixelProb g P b c r.1 r.2 ≠ 0 → centre g.x r.1 = μx ∧ centre g.y r.2 = μy := fun r hr h => by
        have a1 := (mul_eq_zero.1 (zx r hr)).resolve_right h
        have a2 := (mul_eq_zero.1 (zy r hr)).resolve_right h
        exact ⟨by linarith [pow_eq_zero_iff two_ne_zero |>.1 a1], by linarith [pow_eq_zero_iff two_ne_zero |>.1 a2]⟩
      have hq' := Finset.mem_product.1 hq
      refine ⟨q.1, Finset.mem_range.1 hq'.1, q.2, Finset.mem_range.1 hq'.2, ?_⟩
      rw [← tot, Finset.sum_eq_single q]
      · intro r hr hrq
        by_contra hne
        have hr' := Finset.mem_product.1 hr
        have b1 := at_ r hr hne
        have b2 := at_ q hq h
        exact hrq (Prod.ext (centres_inj hX (Finset.mem_range.1 hr'.1) (Finset.mem_range.1 hq'.1) (b1.1.trans b2.1.symm))
          (centres_inj hY (Finset.mem_range.1 hr'.2) (Finset.mem_range.1 hq'.2) (b1.2.trans b2.2.symm)))
      · intro hni; exact absurd hq hni
    · rintro ⟨i, hi, j, hj, h⟩
      have hm : (i, j) ∈ Finset.range g.nx ×ˢ Finset.range g.ny := Finset.mem_product.2 ⟨Finset.mem_range.2 hi, Finset.mem_range.2 hj⟩
      have oth : ∀ r ∈ Finset.range g.nx ×ˢ Finset.range g.ny, r ≠ (i, j) → pixelProb g P b c r.1 r.2 = 0 := fun r hr hne => by
        have := Finset.add_sum_erase _ (fun r : ℕ × ℕ => pixelProb g P b c r.1 r.2) hm
        rw [tot] at this
        simp only [h] at this
        have h2 : ∑ x ∈ (Finset.range g.nx ×ˢ Finset.range g.ny).erase (i, j), pixelProb g P b c x.1 x.2 = 0 := by linarith
        exact (Finset.sum_eq_zero_iff_of_nonneg fun x _ => hπ _ _).1 h2 r (Finset.mem_erase.2 ⟨hne, hr⟩)
      have only : ∀ φ : ℕ → ℕ → ℝ, ∑ q ∈ Finset.range g.nx ×ˢ Finset.range g.ny, φ q.1 q.2 * pixelProb g P b c q.1 q.2 = φ i j := fun φ => by
        rw [Finset.sum_eq_single (i, j) (fun r hr hne => by rw [oth r hr hne, mul_zero]) (fun hni => absurd hm hni)]
        simp only [h, mul_one]
      have mx : μx = centre g.x i := ax.trans (only fun i _ => centre g.x i)
      have my : μy = centre g.y j := ay.trans (only fun _ j => centre g.y j)
      exact ⟨(ex.trans (only fun i _ => (centre g.x i - μx) ^ 2)).trans (by rw [mx]; ring),
        (ey.trans (only fun _ j => (centre g.y j - μy) ^ 2)).trans (by rw [my]; ring)⟩

theorem StdAt.image {o : Obj} {P : Cell → ℝ} (h : StdAt o g lw P b) (hb : ValidPair ['x'] b) (hN : b = [] → g.sumCells P = 1) :
    ImageAgrees o g lw b (fun c => g.condWt P b c ≠ 0) := by
  obtain ⟨A, hA, hA'⟩ := h.tab _ hb
  obtain ⟨M, hM, hM'⟩ := h.mean _ hb rfl
  obtain ⟨V, hV, hV'⟩ := h.centralEx hb rfl 2
  have hx : 'x' ∈ PyStr.replaceX ['x'] := by decide
  have hy : 'y' ∈ PyStr.replaceX ['x'] := by decide
  refine ⟨A, M, V, hA, hM, hV, fun c hc h0 => ?_⟩
  exact ⟨_, _, _, _, _, fun i hi j hj => pixel_table hb (respects_condWt _ b) hA' hc h0 hi hj, (hM'.2 'x' hx c hc).trans (if_neg h0), (hM'.2 'y' hy c hc).trans (if_neg h0),
    (hV'.2 'x' hx c hc).trans (if_neg h0), (hV'.2 'y' hy c hc).trans (if_neg h0), image_concentrated h.proper h.nonneg h0 hN⟩

/-- Averages over the stars of a population are expectations of a table. -/
theorem pop_image {q : Pop} (hg : g.Proper) (hok : q.Ok g) (hL : ∀ t z, 0 ≤ L t z) {c : Cell} (h0 : q.amount g L lw b c ≠ 0) :
    ImageConcentrated g (fun i j => g.marg (fun d => (if d.x = i ∧ d.y = j then 1 else 0) * (Pop.wt L lw d * q.cells g b d)) b c / q.amount g L lw b c)
      (q.mean g L lw b 'x' c) (q.mean g L lw b 'y' c) (q.variance g L lw b 'x' c) (q.variance g L lw b 'y' c) := by
  have hA : 0 < q.amount g L lw b c := lt_of_le_of_ne (hok.amount_nonneg hg hL b c) h0.symm
  have hW : ∀ φ : Cell → ℝ, g.marg (fun d => φ d * (Pop.wt L lw d * q.cells g b d / q.amount g L lw b c)) b c =
      g.marg (fun d => φ d * (Pop.wt L lw d * q.cells g b d)) b c / q.amount g L lw b c := fun φ => by
    rw [div_eq_inv_mul, ← marg_smul]
    exact congrArg (fun f => g.marg f b c) (funext fun d => by ring)
  have h1 : g.marg (fun d => Pop.wt L lw d * q.cells g b d / q.amount g L lw b c) b c = 1 := by
    have := hW fun _ => 1
    simp only [one_mul] at this
    rw [this, ← Pop.amount_eq hg hok, div_self h0]
  have hc1 : g.condWt (fun d => Pop.wt L lw d * q.cells g b d / q.amount g L lw b c) b c = 1 := by
    unfold Grid.condWt
    split_ifs
    · rfl
    · exact h1
  have hE : ∀ φ : Cell → ℝ, Ex g (fun d => Pop.wt L lw d * q.cells g b d / q.amount g L lw b c) b c φ =
      g.marg (fun d => φ d * (Pop.wt L lw d * q.cells g b d)) b c / q.amount g L lw b c := fun φ => by
    unfold Ex
    rw [hc1, div_one, hW]
  have key := image_concentrated (b := b) (c := c) (P := fun d => Pop.wt L lw d * q.cells g b d / q.amount g L lw b c) hg
    (fun d hd => div_nonneg (mul_nonneg (wt_nonneg hL d) (hok.cells_nonneg b hd)) hA.le) (by rw [hc1]; exact one_ne_zero)
    (fun e => by subst e; rw [← marg_nil]; exact h1)
  have hq : ∀ k, k ≠ 'v' → ∀ φ : ℝ → ℝ, q.expect g L lw b k φ c = Ex g (fun d => Pop.wt L lw d * q.cells g b d / q.amount g L lw b c) b c (fun d => φ (g.value k d)) :=
    fun k hk φ => by rw [hE, Pop.expect_num, Pop.num_eq hg hok hk]
  have hm : ∀ k, k ≠ 'v' → q.mean g L lw b k c = Ex g (fun d => Pop.wt L lw d * q.cells g b d / q.amount g L lw b c) b c (g.value k) :=
    fun k hk => hq k hk fun x => x
  have hv : ∀ k, k ≠ 'v' → q.variance g L lw b k c = Ex g (fun d => Pop.wt L lw d * q.cells g b d / q.amount g L lw b c) b c
      (fun d => (g.value k d - Ex g (fun d => Pop.wt L lw d * q.cells g b d / q.amount g L lw b c) b c (g.value k)) ^ 2) := fun k hk => by
    rw [← hm k hk]
    exact hq k hk fun x => (x - q.mean g L lw b k c) ^ 2
  have hp : pixelProb g (fun d => Pop.wt L lw d * q.cells g b d / q.amount g L lw b c) b c =
      fun i j => g.marg (fun d => (if d.x = i ∧ d.y = j then 1 else 0) * (Pop.wt L lw d * q.cells g b d)) b c / q.amount g L lw b c := by
    funext i j
    unfold pixelProb
    rw [hc1, div_one, ← hW]
    exact congrArg (fun f => g.marg f b c) (funext fun d => by split_ifs <;> simp)
  rw [hm 'x' (by decide), hm 'y' (by decide), hv 'x' (by decide), hv 'y' (by decide), ← hp]
  exact key

/-! ### C116 -/

/-- **C116, components** with a table of densities or made from particles. -/
theorem C116_plain (h : BaseIs cube stored g ρ L) (hlw : lw = true → 0 < totalLight g L (massP g ρ)) (b : PyStr) (hb : ValidPair ['x'] b)
    (hN : b = [] → lw = false → g.sumCells (massP g ρ) = 1) :
    ImageAgrees (obj (baseSelf cube stored)) g lw b (fun c => g.condWt (wtdP g L (massP g ρ) lw) b c ≠ 0) :=
  (h.std hlw b).image hb fun e => total_one hlw (hN e)

/-- **C116, parametric components**: disks and streams. -/
theorem C116_parametric {p : Param} {m : Ingredients} (h : ParamIs p g m L) (hf : p.f2 = 1) (hl : lw = true → (m.pop g).Shines g L)
    (b : PyStr) (hb : ValidPair ['x'] b) : ImageAgrees (obj p.self) g lw b (fun c => (m.pop g).amount g L lw b c ≠ 0) := by
  have hP := h.popAt hf hl b
  obtain ⟨P, m', ⟨A, hA, hA'⟩, hm, hv⟩ := h.tab_noV (h.tot_of_light hl) hb rfl (by decide)
  obtain ⟨M, F, eM, iM, vM⟩ := hP.mean ['x'] hb rfl
  obtain ⟨V, G, eV, iV, vV⟩ := hP.central ['x'] hb rfl trivial 2
  have hx : 'x' ∈ PyStr.replaceX ['x'] := by decide
  have hy : 'y' ∈ PyStr.replaceX ['x'] := by decide
  refine ⟨A, M, V, hA, eM, eV, fun c hc h0 => ?_⟩
  refine ⟨_, _, _, _, _, fun i hi j hj => ?_, (iM.2 'x' hx c hc).trans (vM 'x' hx c hc h0), (iM.2 'y' hy c hc).trans (vM 'y' hy c hc h0),
    (iV.2 'x' hx c hc).trans (vV 'x' hx c hc h0), (iV.2 'y' hy c hc).trans (vV 'y' hy c hc h0), pop_image h.proper h.pop_ok h.lightNonneg h0⟩
  rw [pixel_table hb hm hA' hc (hv c hc h0).1 hi hj, ← h.norm_amount, ← (hv c hc h0).2]
  congr 3
  funext d
  split_ifs <;> simp

/-- **C116, mixtures** of components with tables, where all members have stars. -/
theorem C116_mixture {m : Mix} {n : ℕ} {ω : ℕ → ℝ} {ρ : ℕ → Cell → ℝ} (h : PlainMix m g n ω ρ L)
    (hT : lw = true → ∀ i < n, 0 < totalLight g L (massP g (ρ i))) (b : PyStr) (hb : ValidPair ['x'] b)
    (hN : b = [] → lw = false → g.sumCells (massP g (mixRho n ω ρ)) = 1)
    (hne : ∀ c, g.Has c → ∀ i < n, g.condWt (wtdP g L (massP g (ρ i)) lw) b c ≠ 0) :
    ImageAgrees (Mix.obj m) g lw b (fun c => g.condWt (wtdP g L (massP g (mixRho n ω ρ)) lw) b c ≠ 0) :=
  (mix_std h hT b hne).image hb fun e => total_one (fun e => by
    have := mix_light_pos h (hT e) []
    unfold mixLight at this
    simpa only [pick_same, mixP_massP] using this) (hN e)

/-- **C116, mixtures** of all kinds of components, at values of `b` where all members have stars; weighted by light not given velocities (there the means
are wrong, C66). -/
theorem C116_mixture_any {mx : Mix} {n : ℕ} {ω : ℕ → ℝ} {pop : ℕ → Pop} (h : MixOf mx g n ω pop L) (hl : lw = true → ∀ i < n, (pop i).Shines g L)
    (hm : ∀ (i : ℕ) (hi : i < mx.children.length), IsMember1 g L mx.children[i] (pop i)) (b : PyStr) (hb : ValidPair ['x'] b) (hv : lw = false ∨ 'v' ∉ b) :
    ImageAgrees (Mix.obj mx) g lw b (fun c => (∀ i < n, (pop i).amount g L lw b c ≠ 0) ∧
      (b = [] → lw = false → (mixPop n ω pop).amount g L false [] c = 1)) := by
  have hP := h.popAt hl hm b hv
  have hs : lw = true → (mixPop n ω pop).Shines g L := fun e => mix_shines h (hl e)
  obtain ⟨A, hA, hA'⟩ := h.tab_is hs hb
  obtain ⟨M, F, eM, iM, vM⟩ := hP.mean ['x'] hb rfl
  obtain ⟨V, G, eV, iV, vV⟩ := hP.central ['x'] hb rfl (by simp) 2
  have hx : 'x' ∈ PyStr.replaceX ['x'] := by decide
  have hy : 'y' ∈ PyStr.replaceX ['x'] := by decide
  refine ⟨A, M, V, hA, eM, eV, fun c hc hgood => ?_⟩
  have hA0 := (h.mixAmount_pos hgood.1).ne'
  have hT := h.mixOk.light_b (lw := lw) h.proper h.lightNonneg hs
  have hM : (mixPop n ω pop).marginal g L lw b c ≠ 0 := div_ne_zero hA0 (hT b)
  have hcw := condWt_marginal (b := b) h.proper h.mixOk h.lightNonneg hs hgood.2
  refine ⟨_, _, _, _, _, fun i hi j hj => ?_, (iM.2 'x' hx c hc).trans (vM 'x' hx c hc hgood), (iM.2 'y' hy c hc).trans (vM 'y' hy c hc hgood),
    (iV.2 'x' hx c hc).trans (vV 'x' hx c hc hgood), (iV.2 'y' hy c hc).trans (vV 'y' hy c hc hgood), pop_image h.proper h.mixOk h.lightNonneg hA0⟩
  have hu : 'v' ∈ unionStr ['x'] b ↔ 'v' ∈ b := by
    rcases hb with ⟨rfl, hm⟩ | hm
    · rw [show unionStr ['x'] [] = ['x'] by decide +kernel]; simp
    · exact v_union (['x'], b) hm (by simp) rfl
  have hcells : (mixPop n ω pop).cells g (unionStr ['x'] b) = (mixPop n ω pop).cells g b := by simp [Pop.cells, pick, hu]
  have hlt : (if lw then (mixPop n ω pop).lightOf g L (unionStr ['x'] b) else 1) = (if lw then (mixPop n ω pop).lightOf g L b else 1) := by
    simp [Pop.lightOf, hu]
  have hw := wtd_marg (L := L) (lw := lw) h.proper h.mixOk (unionStr ['x'] b) (fun d => if d.x = i ∧ d.y = j then 1 else 0) c b
  simp only [ite_mul, one_mul, zero_mul] at hw
  rw [pixel_table hb (respects_condWt _ b) hA' hc (by rw [hcw]; exact hM) hi hj, hcw, hw, hcells, hlt]
  unfold Pop.marginal
  rw [div_div_div_cancel_right₀ (hT b)]
  simp only [ite_mul, one_mul, zero_mul]

/-- The image of the component of the examples of C20, which has stars in all cells, at one age. -/
example : ∃ cube, BaseIs cube (uniformStored 1 1 2) (uniformGrid 1 1 2 (-1, 1)) (fun _ => 1) demoL ∧ (uniformGrid 1 1 2 (-1, 1)).Has ⟨1, 1, 0, 0, 2⟩ ∧
    (uniformGrid 1 1 2 (-1, 1)).condWt (wtdP (uniformGrid 1 1 2 (-1, 1)) demoL (massP (uniformGrid 1 1 2 (-1, 1)) (fun _ => 1)) false) ['t'] ⟨1, 1, 0, 0, 2⟩ ≠ 0 ∧
    ImageAgrees (obj (baseSelf cube (uniformStored 1 1 2))) (uniformGrid 1 1 2 (-1, 1)) false ['t']
      (fun c => (uniformGrid 1 1 2 (-1, 1)).condWt (wtdP (uniformGrid 1 1 2 (-1, 1)) demoL (massP (uniformGrid 1 1 2 (-1, 1)) (fun _ => 1)) false) ['t'] c ≠ 0) := by
  obtain ⟨cube, -, hB⟩ := uniformBase 1 1 2 one_pos one_pos two_pos (-1, 1) (by norm_num)
  have hc : (uniformGrid 1 1 2 (-1, 1)).Has ⟨1, 1, 0, 0, 2⟩ := by simp [Grid.Has, uniformGrid, cubeGrid]
  exact ⟨cube, hB, hc, uniform_weight 1 1 2 one_pos one_pos two_pos (-1, 1) (by norm_num) ['t'] hc,
    C116_plain hB (by simp) ['t'] (by decide) (by simp)⟩

/-- The images of the component and the mixture of the earlier examples, with 5 by 6 pixels, weighted by light. -/
example : ∃ m cube, PlainMix m demoGrid 2 demoWeights demoRhos demoL ∧ BaseIs cube demoStored1 demoGrid demoRho1 demoL ∧
    ImageAgrees (Mix.obj m) demoGrid true [] (fun c => demoGrid.condWt (wtdP demoGrid demoL (massP demoGrid (mixRho 2 demoWeights demoRhos)) true) [] c ≠ 0) := by
  obtain ⟨cube, m, -, -, h, -, hN, hT, -⟩ := demoMix
  obtain ⟨cube, h1, -, hB, -⟩ := demoBase
  refine ⟨m, cube, h, ⟨hB.proper, hB.cubeIs, ⟨rfl, fun c _ => rfl⟩, fun c => (demoRho1_pos c).le, hB.light, hB.lightNonneg⟩,
    C116_mixture h (fun _ => hT) [] (by decide) (by simp) fun c _ i _ => by simp [Grid.condWt]⟩

/-- The image of the disk of C49 after all its setters. -/
example : ∃ p m, ParamIs p demoGrid m demoL ∧ p.f2 = 1 ∧ (∀ c, (m.pop demoGrid).amount demoGrid demoL false [] c ≠ 0) ∧
    ImageAgrees (obj p.self) demoGrid false [] (fun c => (m.pop demoGrid).amount demoGrid demoL false [] c ≠ 0) := by
  obtain ⟨p, m, h, hS, -, hf, -⟩ := demoDisk_pos 1
  exact ⟨p, m, h, hf, fun c => by rw [h.amount_nil]; exact one_ne_zero, C116_parametric h hf (by simp) [] (by decide)⟩

/-- The image, at one age, of the mixture of the examples of C66, weighted by light. -/
example : ∃ m p t0, demoGrid.Has ⟨t0, 0, 0, 0, 0⟩ ∧ ImageAgrees (Mix.obj m) demoGrid true ['t'] (fun c => (∀ i < 2, (p i).amount demoGrid demoL true ['t'] c ≠ 0) ∧
    (['t'] = [] → true = false → (mixPop 2 (fun i => if i = 0 then 1 / 4 else 3 / 4) p).amount demoGrid demoL false [] c = 1)) := by
  obtain ⟨cube, p, mi, t0, hP, hf, ht, hpos, hmk⟩ := demoStarMix
  have hc : demoGrid.Has ⟨t0, 0, 0, 0, 0⟩ := by
    refine ⟨ht, ?_, ?_, ?_, ?_⟩ <;> norm_num [demoGrid, cubeGrid]
  obtain ⟨m, -, -, hB, h, hl, hm⟩ := hmk _ _ hc hc
  exact ⟨m, _, t0, hc, C116_mixture_any h (fun _ => hl) hm ['t'] (by decide) (.inr (by decide))⟩

end PKM
