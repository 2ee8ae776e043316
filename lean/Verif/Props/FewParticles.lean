import Verif.Props.Similar
import Verif.Props.Coarse

/-!
# C108: a few particles change little

Two lists of particles have the particles `S` in common, in any order; the first has also the particles `D`, the second `D'`. The components made from them
are as close as the mass (or light) of `D` and `D'` allows. In particular leaving out, adding or changing particles with a fraction `ε` of the mass in range
moves at most `2 ε` of the probabilities of any distribution.
-/

open scoped Classical

noncomputable section

namespace PKM
open Np Component

variable {cube : IFUCube} {g : Grid} {L : ℕ → ℕ → ℝ} {lw : Bool} {cell : Star → Cell} {S D D' T T' : List Star}

/-! ### Specification -/

/-- Mass, or light, of the particles in range. -/
def weightOf (g : Grid) (L : ℕ → ℕ → ℝ) (lw : Bool) (cell : Star → Cell) (T : List Star) : ℝ := starTotal T g.inRange (starWeight L lw cell)

/-- Twice the fraction that particles of weight `b`, or those of weight `b'` in their place, make of the whole with the common particles of weight `a`. -/
def allowance (a b b' : ℝ) : ℝ := 2 * max b b' / (a + max b b')

/-! ### Lemmas -/

theorem starSum_perm {T T' : List Star} (h : T.Perm T') (sel : Star → Prop) (wt f : Star → ℝ) : starSum T sel wt f = starSum T' sel wt f :=
  (h.map _).sum_eq

theorem starSum_append (S D : List Star) (sel : Star → Prop) (wt f : Star → ℝ) : starSum (S ++ D) sel wt f = starSum S sel wt f + starSum D sel wt f := by
  simp [starSum]

theorem starSum_abs {T : List Star} {sel : Star → Prop} {wt f : Star → ℝ} (hw : ∀ s ∈ T, sel s → 0 ≤ wt s) (hf : ∀ s ∈ T, sel s → |f s| ≤ 1) :
    |starSum T sel wt f| ≤ starTotal T sel wt := by
  induction T with
  | nil => simp [starTotal, starSum]
  | cons s T ih =>
    unfold starTotal at ih ⊢
    rw [starSum_cons, starSum_cons]
    refine (abs_add_le _ _).trans (add_le_add ?_ (ih (fun s hs => hw s (by simp [hs])) fun s hs => hf s (by simp [hs])))
    split_ifs with e
    · rw [abs_mul, abs_of_nonneg (hw s (by simp) e)]
      exact mul_le_mul_of_nonneg_right (hf s (by simp) e) (hw s (by simp) e)
    · simp

theorem allowance_bound {a b b' s d d' : ℝ} (ha : 0 ≤ a) (hb : 0 ≤ b) (hb' : 0 ≤ b') (h : 0 < a + b) (h' : 0 < a + b') (hs : |s| ≤ a) (hd : |d| ≤ b)
    (hd' : |d'| ≤ b') : (s + d) / (a + b) - (s + d') / (a + b') ≤ allowance a b b' := by
  obtain ⟨s1, s2⟩ := abs_le.1 hs
  obtain ⟨d1, d2⟩ := abs_le.1 hd
  obtain ⟨e1, e2⟩ := abs_le.1 hd'
  unfold allowance
  rcases le_total b' b with hbb | hbb
  · rw [max_eq_left hbb, div_sub_div _ _ h.ne' h'.ne', div_le_div_iff₀ (by positivity) h]
    have : (s + d) * (a + b') - (a + b) * (s + d') ≤ 2 * b * (a + b') := by
      nlinarith [mul_nonneg (sub_nonneg.2 hbb) (by linarith : 0 ≤ s + a), mul_nonneg h'.le (by linarith : 0 ≤ b - d), mul_nonneg h.le (by linarith : 0 ≤ d' + b')]
    nlinarith
  · rw [max_eq_right hbb, div_sub_div _ _ h.ne' h'.ne', div_le_div_iff₀ (by positivity) h']
    have : (s + d) * (a + b') - (a + b) * (s + d') ≤ 2 * b' * (a + b) := by
      nlinarith [mul_nonneg (sub_nonneg.2 hbb) (by linarith : 0 ≤ a - s), mul_nonneg h'.le (by linarith : 0 ≤ b - d), mul_nonneg h.le (by linarith : 0 ≤ d' + b')]
    nlinarith

/-- Any function of modulus one has nearly the same average over both lists. -/
theorem average_close (hg : g.Proper) (hL : ∀ t z, 0 ≤ L t z) (hl : g.Locates cell) (hT : T.Perm (S ++ D)) (hT' : T'.Perm (S ++ D'))
    (hm : ∀ s ∈ S ++ D ++ D', 0 ≤ s.mass) (h0 : 0 < g.massCovered T) (h0' : 0 < g.massCovered T') (h1 : 0 < weightOf g L lw cell T)
    (h1' : 0 < weightOf g L lw cell T') {φ : Cell → ℝ} (hφ : ∀ c, |φ c| ≤ 1) :
    g.sumCells (fun d => φ d * (wtdP g L (massP g (g.starDensity T)) lw d - wtdP g L (massP g (g.starDensity T')) lw d)) ≤
      allowance (weightOf g L lw cell S) (weightOf g L lw cell D) (weightOf g L lw cell D') := by
  have hw : ∀ {A : List Star}, (∀ s ∈ A, 0 ≤ s.mass) → ∀ s ∈ A, g.inRange s → 0 ≤ starWeight L lw cell s := fun hA s hs _ => by
    unfold starWeight
    split_ifs
    · exact mul_nonneg (hL _ _) (hA s hs)
    · exact hA s hs
  have mS : ∀ s ∈ S, 0 ≤ s.mass := fun s hs => hm s (by simp [hs])
  have mD : ∀ s ∈ D, 0 ≤ s.mass := fun s hs => hm s (by simp [hs])
  have mD' : ∀ s ∈ D', 0 ≤ s.mass := fun s hs => hm s (by simp [hs])
  have sel : g.Selected cell [] ⟨0, 0, 0, 0, 0⟩ = g.inRange := by
    funext s; simp [Grid.Selected, coords]
  have split : ∀ {T D : List Star}, T.Perm (S ++ D) → weightOf g L lw cell T = weightOf g L lw cell S + weightOf g L lw cell D := fun h => by
    unfold weightOf starTotal
    rw [starSum_perm h, starSum_append]
  have key : ∀ {T D : List Star}, T.Perm (S ++ D) → 0 < g.massCovered T → 0 < weightOf g L lw cell T →
      g.sumCells (fun d => φ d * wtdP g L (massP g (g.starDensity T)) lw d) =
        (starSum S g.inRange (starWeight L lw cell) (fun s => φ (cell s)) + starSum D g.inRange (starWeight L lw cell) (fun s => φ (cell s))) /
          (weightOf g L lw cell S + weightOf g L lw cell D) := fun h h0 h1 => by
    have := wtd_stars (lw := lw) (L := L) hg hl h0 (fun e => by subst e; exact h1) [] ⟨0, 0, 0, 0, 0⟩ φ
    rw [marg_nil, sel, starSum_perm h, starSum_append] at this
    rw [this, ← split h]
    rfl
  have e : (fun d => φ d * (wtdP g L (massP g (g.starDensity T)) lw d - wtdP g L (massP g (g.starDensity T')) lw d)) =
      fun d => φ d * wtdP g L (massP g (g.starDensity T)) lw d - φ d * wtdP g L (massP g (g.starDensity T')) lw d := by
    funext d; ring
  have nn : ∀ {A : List Star}, (∀ s ∈ A, 0 ≤ s.mass) → 0 ≤ weightOf g L lw cell A := fun hA => starSum_nonneg (hw hA) fun _ _ _ => zero_le_one
  rw [e, sumCells_sub, key hT h0 h1, key hT' h0' h1']
  exact allowance_bound (nn mS) (nn mD) (nn mD') (by rw [← split hT]; exact h1) (by rw [← split hT']; exact h1')
    (starSum_abs (hw mS) fun s _ _ => hφ _) (starSum_abs (hw mD) fun s _ _ => hφ _) (starSum_abs (hw mD') fun s _ _ => hφ _)

/-! ### Theorems -/

/-- Every distribution of the two components, by mass or light, differs by at most the allowance. -/
theorem C108_distributions (hc : CubeIs cube g) (hg : g.Proper) (hlight : IsArr g ['t','z'] cube.ssps.lightWeights (fun c => .fin (L c.t c.z)))
    (hL : ∀ t z, 0 ≤ L t z) (hl : g.Locates cell) (hT : T.Perm (S ++ D)) (hT' : T'.Perm (S ++ D')) (hm : ∀ s ∈ S ++ D ++ D', 0 ≤ s.mass)
    (h0 : 0 < g.massCovered T) (h0' : 0 < g.massCovered T') (h1 : 0 < weightOf g L lw cell T) (h1' : 0 < weightOf g L lw cell T') :
    ∃ stored stored' rep rep', fromStars cube T = .ok (stored, rep) ∧ fromStars cube T' = .ok (stored', rep') ∧ ∀ w ∈ marginals, ∃ p p' d,
      getP (baseSelf cube stored) w false lw = .ok p ∧ getP (baseSelf cube stored') w false lw = .ok p' ∧ Apart p p' d ∧
      d ≤ allowance (weightOf g L lw cell S) (weightOf g L lw cell D) (weightOf g L lw cell D') := by
  obtain ⟨st, e1, b1⟩ := C39_component hc hg hlight hL T (fun s hs => hm s (by have := hT.mem_iff.1 hs; simp at this ⊢; tauto)) h0
  obtain ⟨st', e2, b2⟩ := C39_component hc hg hlight hL T' (fun s hs => hm s (by have := hT'.mem_iff.1 hs; simp at this ⊢; tauto)) h0'
  have l1 : lw = true → 0 < totalLight g L (massP g (g.starDensity T)) := fun e => by
    subst e; rw [starLight hg hl]; exact div_pos h1 h0
  have l2 : lw = true → 0 < totalLight g L (massP g (g.starDensity T')) := fun e => by
    subst e; rw [starLight hg hl]; exact div_pos h1' h0'
  refine ⟨st, st', _, _, e1, e2, fun w hw => ?_⟩
  have hd : ∀ w c, dvol g false w c = 1 := fun _ _ => rfl
  obtain ⟨p, p1, p2⟩ := getP_marg_of_contract (b1.contract lw l1) false w hw
  obtain ⟨p', p1', p2'⟩ := getP_marg_of_contract (b2.contract lw l2) false w hw
  simp only [hd, div_one] at p2 p2'
  exact ⟨p, p', _, p1, p1', apart_marg hg hw p2 p2', average_close hg hL hl hT hT' hm h0 h0' h1 h1' fun c => (signOf_abs _ w c).le⟩

/-- Every mean over all stars differs by at most half the allowance times the distance of the first and last bin. -/
theorem C108_means (hc : CubeIs cube g) (hg : g.Proper) (hlight : IsArr g ['t','z'] cube.ssps.lightWeights (fun c => .fin (L c.t c.z)))
    (hL : ∀ t z, 0 ≤ L t z) (hl : g.Locates cell) (hT : T.Perm (S ++ D)) (hT' : T'.Perm (S ++ D')) (hm : ∀ s ∈ S ++ D ++ D', 0 ≤ s.mass)
    (h0 : 0 < g.massCovered T) (h0' : 0 < g.massCovered T') (h1 : 0 < weightOf g L lw cell T) (h1' : 0 < weightOf g L lw cell T')
    (k : Char) (hk : k ∈ ['t','v','x','y','z']) :
    ∃ stored stored' rep rep' M M' μ μ', fromStars cube T = .ok (stored, rep) ∧ fromStars cube T' = .ok (stored', rep') ∧
      getMean (baseSelf cube stored) (varOf k) lw = .ok M ∧ getMean (baseSelf cube stored') (varOf k) lw = .ok M' ∧
      M.get (compIdx k) = .fin μ ∧ M'.get (compIdx k) = .fin μ' ∧
      |μ - μ'| ≤ (centre (g.edge k) (g.bins k - 1) - centre (g.edge k) 0) / 2 *
        allowance (weightOf g L lw cell S) (weightOf g L lw cell D) (weightOf g L lw cell D') := by
  obtain ⟨st, e1, b1⟩ := C39_component hc hg hlight hL T (fun s hs => hm s (by have := hT.mem_iff.1 hs; simp at this ⊢; tauto)) h0
  obtain ⟨st', e2, b2⟩ := C39_component hc hg hlight hL T' (fun s hs => hm s (by have := hT'.mem_iff.1 hs; simp at this ⊢; tauto)) h0'
  have l1 : lw = true → 0 < totalLight g L (massP g (g.starDensity T)) := fun e => by
    subst e; rw [starLight hg hl]; exact div_pos h1 h0
  have l2 : lw = true → 0 < totalLight g L (massP g (g.starDensity T')) := fun e => by
    subst e; rw [starLight hg hl]; exact div_pos h1' h0'
  have hv : ValidPair (varOf k) [] := (by decide +kernel : ∀ k ∈ ['t','v','x','y','z'], ValidPair (varOf k) []) k hk
  have hw : varOf k ∈ marginals := by fin_cases hk <;> decide
  have hH : g.Has ⟨0, 0, 0, 0, 0⟩ := ⟨hg.nt, hg.nv, hg.nx, hg.ny, hg.nz⟩
  have mean : ∀ {st : Arr Num} {ρ : Cell → ℝ}, BaseIs cube st g ρ L → (lw = true → 0 < totalLight g L (massP g ρ)) →
      ∃ M, getMean (baseSelf cube st) (varOf k) lw = .ok M ∧ M.get (compIdx k) = .fin (g.sumCells fun d => g.value k d * wtdP g L (massP g ρ) lw d) := fun b l => by
    obtain ⟨M, m1, -, m2⟩ := C13_means b l k hk [] hv
    refine ⟨M, m1, ?_⟩
    have := m2 _ hH
    rw [expect_eq, show coords [] (⟨0, 0, 0, 0, 0⟩ : Cell) = [] from rfl, List.append_nil] at this
    rw [this, if_neg (by simp [Grid.condWt])]
    simp [Ex, Grid.condWt, marg_nil]
  obtain ⟨M, m1, m2⟩ := mean b1 l1
  obtain ⟨M', m1', m2'⟩ := mean b2 l2
  refine ⟨st, st', _, _, M, M', _, _, e1, e2, m1, m1', m2, m2', ?_⟩
  have one : ∀ {T : List Star}, 0 < g.massCovered T → 0 < weightOf g L lw cell T → g.sumCells (wtdP g L (massP g (g.starDensity T)) lw) = 1 := fun h0 h1 => by
    have := wtd_stars_one (lw := lw) (L := L) hg hl h0 (fun e => by subst e; exact h1) [] ⟨0, 0, 0, 0, 0⟩
    rw [marg_nil] at this
    rw [this]
    have sel : g.Selected cell [] ⟨0, 0, 0, 0, 0⟩ = g.inRange := by
      funext s; simp [Grid.Selected, coords]
    rw [sel]
    exact div_self h1.ne'
  rw [← sumCells_sub]
  have es : g.sumCells (fun d => g.value k d * wtdP g L (massP g (g.starDensity T)) lw d - g.value k d * wtdP g L (massP g (g.starDensity T')) lw d) =
      g.sumCells fun d => (g.value k d - (centre (g.edge k) (g.bins k - 1) + centre (g.edge k) 0) / 2) *
        (wtdP g L (massP g (g.starDensity T)) lw d - wtdP g L (massP g (g.starDensity T')) lw d) := by
    have : (fun d => (g.value k d - (centre (g.edge k) (g.bins k - 1) + centre (g.edge k) 0) / 2) *
        (wtdP g L (massP g (g.starDensity T)) lw d - wtdP g L (massP g (g.starDensity T')) lw d)) = fun d =>
        (g.value k d * wtdP g L (massP g (g.starDensity T)) lw d - g.value k d * wtdP g L (massP g (g.starDensity T')) lw d) -
        (centre (g.edge k) (g.bins k - 1) + centre (g.edge k) 0) / 2 *
          (wtdP g L (massP g (g.starDensity T)) lw d - wtdP g L (massP g (g.starDensity T')) lw d) := by
      funext d; ring
    rw [this, sumCells_sub (fun d => g.value k d * wtdP g L (massP g (g.starDensity T)) lw d - g.value k d * wtdP g L (massP g (g.starDensity T')) lw d),
      sumCells_mul, sumCells_sub (wtdP g L (massP g (g.starDensity T)) lw), one h0 h1, one h0' h1']
    ring
  rw [es]
  have hlt := edges_increasing hg k
  have hbin : 0 < g.bins k := by
    have := hg.nt; have := hg.nv; have := hg.nx; have := hg.ny; have := hg.nz
    unfold Grid.bins
    split_ifs <;> assumption
  refine (gap_bound hg hw (fun c d e => ?_) fun c hc => ?_).trans
    (mul_le_mul_of_nonneg_left (average_close hg hL hl hT hT' hm h0 h0' h1 h1' fun c => (signOf_abs _ (varOf k) c).le) ?_)
  · have : g.value k d = g.value k c := by
      fin_cases hk <;> simp_all [varOf, coords, coord1, Grid.value]
    rw [this]
  · have hi : ∃ i < g.bins k, g.value k c = centre (g.edge k) i := by
      obtain ⟨c1, c2, c3, c4, c5⟩ := hc
      fin_cases hk
      · exact ⟨c.t, c1, rfl⟩
      · exact ⟨c.v, c2, rfl⟩
      · exact ⟨c.x, c3, rfl⟩
      · exact ⟨c.y, c4, rfl⟩
      · exact ⟨c.z, c5, rfl⟩
    obtain ⟨i, hi, e⟩ := hi
    have a1 := centres_mono hlt (Nat.zero_le i) hi
    have a2 := centres_mono hlt (i := i) (j := g.bins k - 1) (by omega) (by omega)
    rw [e, abs_le]
    constructor <;> linarith
  · have := centres_mono hlt (Nat.zero_le (g.bins k - 1)) (by omega)
    linarith

theorem weightOf_mass (T : List Star) : weightOf g L false cell T = g.massCovered T := by
  unfold weightOf starTotal starSum Grid.massCovered starWeight
  simp

theorem apart_unique {p p' : Arr Num} {d e : ℝ} (h : Apart p p' d) (h' : Apart p p' e) : d = e := by
  obtain ⟨r, r1, r2⟩ := h
  obtain ⟨r', r1', r2'⟩ := h'
  obtain rfl : r = r' := by injection r1.symm.trans r1'
  have := congrFun (congrArg Arr.get (r2.symm.trans r2')) []
  simpa [scalar] using this

/-- Templates with fluxes of at most `B` either way: at each wavelength the datacubes differ over all pixels by at most `B` times the allowance by mass. -/
theorem C108_datacube {interp : ℕ → (ℕ → ℂ) → ℝ → ℂ} {sp : Spectra} {F : ℕ → ℕ → ℕ → ℝ} {n v0 : ℕ} (hI : Interp interp) (hc : CubeIs cube g)
    (hg : g.Proper) (hlight : IsArr g ['t','z'] cube.ssps.lightWeights (fun c => .fin (L c.t c.z)))
    (hL : ∀ t z, 0 ≤ L t z) (hT : T.Perm (S ++ D)) (hT' : T'.Perm (S ++ D')) (hm : ∀ s ∈ S ++ D ++ D', 0 ≤ s.mass)
    (h0 : 0 < g.massCovered T) (h0' : 0 < g.massCovered T') (hS : SpectraAre sp g F n n)
    (hz : ZeroBin g.nv g.v v0) (hw : ∀ i < g.nv, width g.v i = sp.dv) (hmid : v0 = g.nv / 2) (h6 : 6 ≤ g.nv) (hnv : g.nv = n) (B : ℝ) (hB0 : 0 ≤ B)
    (hB : ∀ t < g.nt, ∀ z < g.nz, ∀ k < n, |F t z k| ≤ B) : ∀ batch ∈ batches, ∀ batch' ∈ batches,
    ∃ stored stored' rep rep' y y', ∃ u u' : ℕ → ℕ → ℕ → ℝ, fromStars cube T = .ok (stored, rep) ∧ fromStars cube T' = .ok (stored', rep') ∧
      evaluateYbar interp (baseSelf cube stored) sp batch = .ok y ∧ evaluateYbar interp (baseSelf cube stored') sp batch' = .ok y' ∧
      (∀ k < n, ∀ i < g.nx, ∀ j < g.ny, y.get [k, i, j] = .fin (u k i j) ∧ y'.get [k, i, j] = .fin (u' k i j)) ∧
      ∀ k < n, ∑ i : Fin g.nx, ∑ j : Fin g.ny, |u k i j - u' k i j| ≤ B * allowance (g.massCovered S) (g.massCovered D) (g.massCovered D') := by
  intro batch hb batch' hb'
  obtain ⟨cell, hl⟩ := locates_exists hg
  obtain ⟨st, e1, b1⟩ := C39_component hc hg hlight hL T (fun s hs => hm s (by have := hT.mem_iff.1 hs; simp at this ⊢; tauto)) h0
  obtain ⟨st', e2, b2⟩ := C39_component hc hg hlight hL T' (fun s hs => hm s (by have := hT'.mem_iff.1 hs; simp at this ⊢; tauto)) h0'
  obtain ⟨a, a', rep, rep', f1, f2, f3⟩ := C108_distributions (lw := false) hc hg hlight hL hl hT hT' hm h0 h0' (by rw [weightOf_mass]; exact h0)
    (by rw [weightOf_mass]; exact h0')
  obtain ⟨rfl, -⟩ := Prod.mk.inj (Except.ok.inj (e1.symm.trans f1))
  obtain ⟨rfl, -⟩ := Prod.mk.inj (Except.ok.inj (e2.symm.trans f2))
  obtain ⟨p, p', d, g1, g2, g3, g4⟩ := f3 ['t','v','x','z'] (by decide)
  obtain ⟨y, y', r, r', d', u, u', y1, y2, y3, y4, y5, y6, y7⟩ := C107_datacube hI b1 b2 hS hz hw hmid h6 hnv B hB batch hb batch' hb'
  obtain rfl := Except.ok.inj (g1.symm.trans y3)
  obtain rfl := Except.ok.inj (g2.symm.trans y4)
  obtain rfl := apart_unique g3 y5
  rw [weightOf_mass, weightOf_mass, weightOf_mass] at g4
  exact ⟨_, _, _, _, y, y', u, u', f1, f2, y1, y2, y6, fun k hk => (y7 k hk).trans (mul_le_mul_of_nonneg_left g4 hB0)⟩

/-- Moving particles within their bins changes nothing. -/
theorem C108_within_bins (hc : CubeIs cube g) (hg : g.Proper) (T : List Star) (move : Star → Star) (hmass : ∀ s ∈ T, (move s).mass = s.mass)
    (hmove : ∀ s ∈ T, ∀ c, g.Has c → (g.inCell c (move s) ↔ g.inCell c s)) :
    ∃ st st', fromStars cube T = .ok (st, g.report T) ∧ fromStars cube (T.map move) = .ok (st', g.report (T.map move)) ∧
      st.shape = st'.shape ∧ (g.report (T.map move)).nLost = (g.report T).nLost ∧ ∀ c, g.Has c → g.massCovered T ≠ 0 →
        st.get [c.t, c.v, c.x, c.y, c.z] = st'.get [c.t, c.v, c.x, c.y, c.z] := by
  have e : ∀ c, g.Has c → g.massIn (T.map move) c = 1 * g.massIn T c := fun c hc => by
    simp only [Grid.massIn, List.map_map, one_mul]
    congr 1
    refine List.map_congr_left fun s hs => ?_
    simp only [Function.comp, hmove s hs c hc, hmass s hs]
  obtain ⟨st, st', h1, h2, h3, h4⟩ := same_stored hc hg one_ne_zero e
  refine ⟨st, st', h1, h2, h3, ?_, h4⟩
  have : ∀ s ∈ T, (¬ g.inRange (move s) ↔ ¬ g.inRange s) := fun s hs => by
    rw [(C39_partition hg _).1, (C39_partition hg _).1]
    refine not_congr (exists_congr fun c => and_congr_right fun hc => hmove s hs c hc)
  simp only [Grid.report, List.countP_map]
  exact List.countP_congr fun s hs => by simpa using this s hs

/-! ### A case that meets the hypotheses -/

/-- The example of three particles, with masses 3, 1 and, out of range, 7. Without the one of mass 1 no distribution changes by more than 1/2 and no mean velocity by
more than 75, a quarter of the distance of the first and last velocity bin. -/
example : ∃ cube stored stored' rep rep' M M' μ μ', CubeIs cube demoGrid ∧ fromStars cube demoStars = .ok (stored, rep) ∧
    fromStars cube [demoStars[2], demoStars[0]] = .ok (stored', rep') ∧ (∀ w ∈ marginals, ∃ p p' d, getP (baseSelf cube stored) w false false = .ok p ∧
      getP (baseSelf cube stored') w false false = .ok p' ∧ Apart p p' d ∧ d ≤ 1 / 2) ∧
    getMean (baseSelf cube stored) ['v'] false = .ok M ∧ getMean (baseSelf cube stored') ['v'] false = .ok M' ∧ M.get [] = .fin μ ∧ M'.get [] = .fin μ' ∧
    |μ - μ'| ≤ 75 := by
  obtain ⟨cube, -, hc, hs⟩ := demoCube_exists
  obtain ⟨cell, hl⟩ := locates_exists demoGrid_proper
  have r : ∀ (e : ℕ → ℝ) (n : ℕ) (x : ℝ), InRange e n (.fin x) ↔ e 0 ≤ x ∧ x ≤ e n := by
    intro e n x; simp [InRange]
  have nr : ∀ (e : ℕ → ℝ) (n : ℕ), ¬ InRange e n .nan := by intro e n; simp [InRange]
  have c1 : demoGrid.massCovered [demoStars[0], demoStars[2]] = 3 := by
    simp only [Grid.massCovered, demoStars, List.getElem_cons_zero, List.getElem_cons_succ, List.map_cons, List.map_nil, Grid.inRange, r, nr, false_and,
      and_false, if_false]
    simp only [demoGrid, cubeGrid, evenEdges]
    norm_num
  have c2 : demoGrid.massCovered [demoStars[1]] = 1 := by
    simp only [Grid.massCovered, demoStars, List.getElem_cons_zero, List.getElem_cons_succ, List.map_cons, List.map_nil, Grid.inRange, r]
    simp only [demoGrid, cubeGrid, evenEdges]
    norm_num
  have c3 : demoGrid.massCovered [] = 0 := rfl
  have p1 : demoStars.Perm ([demoStars[0], demoStars[2]] ++ [demoStars[1]]) := by
    unfold demoStars
    simp only [List.getElem_cons_zero, List.getElem_cons_succ, List.cons_append, List.nil_append]
    exact (List.Perm.swap _ _ []).cons _
  have p2 : [demoStars[2], demoStars[0]].Perm ([demoStars[0], demoStars[2]] ++ []) := List.Perm.swap _ _ []
  have hm : ∀ s ∈ [demoStars[0], demoStars[2]] ++ [demoStars[1]] ++ [], 0 ≤ s.mass := by
    intro s hs
    simp only [demoStars, List.getElem_cons_zero, List.getElem_cons_succ, List.cons_append, List.nil_append, List.mem_cons, List.not_mem_nil, or_false,
      List.append_nil] at hs
    rcases hs with rfl | rfl | rfl <;> norm_num
  have c0 : 0 < demoGrid.massCovered demoStars := by rw [demoStars_covered]; norm_num
  have c0' : (0 : ℝ) < demoGrid.massCovered [demoStars[2], demoStars[0]] := by
    have : demoGrid.massCovered [demoStars[2], demoStars[0]] = 3 := by
      rw [← c1]; exact ((List.Perm.swap _ _ []).map _).sum_eq
    rw [this]; norm_num
  have ea : allowance 3 1 0 = 1 / 2 := by norm_num [allowance]
  obtain ⟨st, st', rep, rep', e1, e2, e3⟩ := C108_distributions (lw := false) hc demoGrid_proper (demo_light hs) (fun t z => (demoL_pos t z).le) hl p1 p2 hm c0 c0'
    (by rw [weightOf_mass]; exact c0) (by rw [weightOf_mass]; exact c0')
  obtain ⟨_, _, _, _, M, M', μ, μ', f1, f2, f3, f4, f5, f6, f7⟩ := C108_means (lw := false) hc demoGrid_proper (demo_light hs) (fun t z => (demoL_pos t z).le) hl p1 p2 hm
    c0 c0' (by rw [weightOf_mass]; exact c0) (by rw [weightOf_mass]; exact c0') 'v' (by decide)
  obtain ⟨rfl, -⟩ := Prod.mk.inj (Except.ok.inj (e1.symm.trans f1))
  obtain ⟨rfl, -⟩ := Prod.mk.inj (Except.ok.inj (e2.symm.trans f2))
  rw [weightOf_mass, weightOf_mass, weightOf_mass, c1, c2, c3, ea] at e3 f7
  refine ⟨cube, st, st', rep, rep', M, M', μ, μ', hc, e1, e2, e3, f3, f4, f5, f6, f7.trans (le_of_eq ?_)⟩
  show (centre demoGrid.v 3 - centre demoGrid.v 0) / 2 * (1 / 2) = 75
  norm_num [demoGrid, cubeGrid, centre, evenEdges]

/-- A particle in the first age bin moved within it. -/
example : ∃ cube st st' rep rep', CubeIs cube demoGrid ∧
    fromStars cube [⟨.fin (1 / 4), .fin 0, .fin 0, .fin 1, .fin 2, 3⟩] = .ok (st, rep) ∧ fromStars cube [⟨.fin (1 / 2), .fin 0, .fin 0, .fin 1, .fin 2, 3⟩] = .ok (st', rep') ∧
    st.shape = st'.shape := by
  obtain ⟨cube, -, hc, hs⟩ := demoCube_exists
  obtain ⟨st, st', h1, h2, h3, -⟩ := C108_within_bins hc demoGrid_proper [⟨.fin (1 / 4), .fin 0, .fin 0, .fin 1, .fin 2, 3⟩] (fun s => { s with t := .fin (1 / 2) })
    (by simp) (by
      intro s hs c hc
      simp only [List.mem_singleton] at hs
      subst hs
      have : ∀ x : ℝ, 0 < x → x < 1 → (InBin demoGrid.t demoGrid.nt c.t (.fin x) ↔ c.t = 0) := fun x h0 h1 => by
        obtain ⟨c1, -⟩ := hc
        have c2 : c.t < 2 := c1
        have e : ∀ i : ℕ, demoGrid.t i = (i : ℝ) ^ 2 := fun i => rfl
        have en : demoGrid.nt = 2 := rfl
        unfold InBin
        interval_cases h : c.t
        · simp only [en, e, iff_true]
          exact ⟨x, rfl, by push_cast; linarith, .inl (by push_cast; linarith)⟩
        · simp only [en, e]
          constructor
          · rintro ⟨y, hy, hy1, -⟩
            injection hy with hy
            subst hy
            push_cast at hy1
            linarith
          · simp
      unfold Grid.inCell
      rw [this _ (by norm_num) (by norm_num), this _ (by norm_num) (by norm_num)])
  exact ⟨cube, st, st', _, _, hc, h1, h2, h3⟩

/-- Datacubes: without a tenth of the mass the fluxes at one wavelength change in total by at most a fifth of the largest flux of the templates. -/
example {interp : ℕ → (ℕ → ℂ) → ℝ → ℂ} (hI : Interp interp) : ∃ (cube : IFUCube) (sp : Spectra) (stored stored' : Arr Num) (rep rep' : LossReport) (y y' : Arr Num),
    ∃ u u' : ℕ → ℕ → ℕ → ℝ, SpectraAre sp (uniformGrid 2 3 7 (-70, 70)) oneLine 7 7 ∧
    fromStars cube [⟨.fin 1, .fin 0, .fin 0, .fin 1, .fin 2, 9⟩, ⟨.fin 2, .fin 30, .fin 0, .fin 2, .fin 2, 1⟩] = .ok (stored, rep) ∧
    fromStars cube [⟨.fin 1, .fin 0, .fin 0, .fin 1, .fin 2, 9⟩] = .ok (stored', rep') ∧
    evaluateYbar interp (baseSelf cube stored) sp "none".toList = .ok y ∧ evaluateYbar interp (baseSelf cube stored') sp "spaxel".toList = .ok y' ∧
    y.get [3, 1, 2] = .fin (u 3 1 2) ∧ y'.get [3, 1, 2] = .fin (u' 3 1 2) ∧ ∑ i : Fin 2, ∑ j : Fin 3, |u 3 i j - u' 3 i j| ≤ 1 / 5 := by
  obtain ⟨cube, sp, -, h, -, hdv, h5, h6, h7⟩ := ybar_demo
  obtain ⟨sp', hS, hdv'⟩ := plainSpectra_exist oneLine
  have r : ∀ (e : ℕ → ℝ) (n : ℕ) (x : ℝ), InRange e n (.fin x) ↔ e 0 ≤ x ∧ x ≤ e n := by
    intro e n x; simp [InRange]
  have c1 : (uniformGrid 2 3 7 (-70, 70)).massCovered [⟨.fin 1, .fin 0, .fin 0, .fin 1, .fin 2, 9⟩] = 9 := by
    simp only [Grid.massCovered, List.map_cons, List.map_nil, Grid.inRange, r]
    simp only [uniformGrid, cubeGrid, evenEdges]
    norm_num
  have c2 : (uniformGrid 2 3 7 (-70, 70)).massCovered [⟨.fin 2, .fin 30, .fin 0, .fin 2, .fin 2, 1⟩] = 1 := by
    simp only [Grid.massCovered, List.map_cons, List.map_nil, Grid.inRange, r]
    simp only [uniformGrid, cubeGrid, evenEdges]
    norm_num
  have c12 : (uniformGrid 2 3 7 (-70, 70)).massCovered [⟨.fin 1, .fin 0, .fin 0, .fin 1, .fin 2, 9⟩, ⟨.fin 2, .fin 30, .fin 0, .fin 2, .fin 2, 1⟩] = 10 := by
    simp only [Grid.massCovered, List.map_cons, List.map_nil, Grid.inRange, r]
    simp only [uniformGrid, cubeGrid, evenEdges]
    norm_num
  obtain ⟨st, st', rep, rep', y, y', u, u', a1, a2, a3, a4, a5, a6⟩ := C108_datacube (S := [⟨.fin 1, .fin 0, .fin 0, .fin 1, .fin 2, 9⟩])
    (D := [⟨.fin 2, .fin 30, .fin 0, .fin 2, .fin 2, 1⟩]) (D' := []) hI h.cubeIs h.proper h.light h.lightNonneg (.refl _) (.refl _) (by simp)
    (by show 0 < (uniformGrid 2 3 7 (-70, 70)).massCovered [_, _]; rw [c12]; norm_num) (by show 0 < (uniformGrid 2 3 7 (-70, 70)).massCovered [_]; rw [c1]; norm_num)
    hS h5 (fun i hi => (h7 i hi).trans (hdv.trans hdv'.symm)) rfl
    (by show 6 ≤ 7; norm_num) rfl 1 zero_le_one (fun t _ z _ k _ => by unfold oneLine; split_ifs <;> norm_num) "none".toList (by decide) "spaxel".toList (by decide)
  obtain ⟨b1, b2⟩ := a5 3 (by norm_num) 1 (by show 1 < 2; norm_num) 2 (by show 2 < 3; norm_num)
  have c3 : (uniformGrid 2 3 7 (-70, 70)).massCovered [] = 0 := rfl
  have ea : allowance 9 1 0 = 1 / 5 := by norm_num [allowance]
  rw [c1, c2, c3, ea, one_mul] at a6
  exact ⟨cube, sp', st, st', rep, rep', y, y', u, u', hS, a1, a2, a3, a4, b1, b2, a6 3 (by norm_num)⟩

end PKM
