import Verif.Props.NearlyBright
import Verif.Props.FieldOfView
import Verif.Props.StreamEnds
import Verif.Props.Indep

/-!
# C110: where the setters give every age and every place the same, ages and metallicities do not depend on places and velocities

The stars of a stream, and of a growing disk whose limits are the same for the young and the old and whose depletion time is the same at the centre and far
out, form two independent pairs: age and metallicity, position and velocity.
-/

open scoped Classical
open MeasureTheory

noncomputable section

namespace PKM
open Np Component

variable {g : Grid} {L : ℕ → ℕ → ℝ} {lw : Bool} {p : Param} {m : Ingredients} {c : Cell} {f2 : ℝ} {center : ℝ × ℝ} {rotation : ℝ}

/-! ### Specification -/

/-- Position and velocity do not depend on age, nor metallicity on position. -/
structure Ingredients.Even (m : Ingredients) (g : Grid) : Prop where
  px : ∀ t < g.nt, ∀ x < g.nx, ∀ y < g.ny, m.px t x y = m.px 0 x y
  pz : ∀ t < g.nt, ∀ x < g.nx, ∀ y < g.ny, ∀ z < g.nz, m.pz t x y z = m.pz t 0 0 z
  mu : ∀ t < g.nt, ∀ x < g.nx, ∀ y < g.ny, m.mu t x y = m.mu 0 x y
  sig : ∀ t < g.nt, ∀ x < g.nx, ∀ y < g.ny, m.sig t x y = m.sig 0 x y

/-- The variables of `w` that are in `G`. -/
def part (G w : PyStr) : PyStr := w.filter (· ∈ G)

/-- The age and the metallicity; the velocity and the position. -/
def kinds : List PyStr := [['t','z'], ['v','x']]

/-! ### Sums that factor -/

theorem coords_iff {d : Cell} {b : PyStr} : coords b d = coords b c ↔ ∀ k ∈ b, coord1 d k = coord1 c k :=
  ⟨coords_mem, fun h => by
    unfold coords
    rw [List.flatMap_def, List.flatMap_def]
    exact congrArg _ (List.map_congr_left h)⟩

def Known (w : PyStr) : Prop := ∀ k ∈ w, k = 't' ∨ k = 'v' ∨ k = 'x' ∨ k = 'z'

theorem coords_parts {w : PyStr} (hw : Known w) {d : Cell} : coords w d = coords w c ↔
    coords (part ['t','z'] w) d = coords (part ['t','z'] w) c ∧ coords (part ['v','x'] w) d = coords (part ['v','x'] w) c := by
  simp only [coords_iff, part, List.mem_filter]
  constructor
  · exact fun h => ⟨fun k hk => h k hk.1, fun k hk => h k hk.1⟩
  · rintro ⟨h1, h2⟩ k hk
    rcases hw k hk with rfl | rfl | rfl | rfl
    · exact h1 _ ⟨hk, by decide⟩
    · exact h2 _ ⟨hk, by decide⟩
    · exact h2 _ ⟨hk, by decide⟩
    · exact h1 _ ⟨hk, by decide⟩

theorem coords_age (w : PyStr) (d : Cell) : coords (part ['t','z'] w) d = coords (part ['t','z'] w) ⟨d.t, 0, 0, 0, d.z⟩ := by
  rw [coords_iff]
  intro k hk
  simp only [part, List.mem_filter, List.mem_cons, List.not_mem_nil, or_false, decide_eq_true_eq] at hk
  rcases hk.2 with rfl | rfl <;> simp [coord1]

theorem coords_sky (w : PyStr) (d : Cell) : coords (part ['v','x'] w) d = coords (part ['v','x'] w) ⟨0, d.v, d.x, d.y, 0⟩ := by
  rw [coords_iff]
  intro k hk
  simp only [part, List.mem_filter, List.mem_cons, List.not_mem_nil, or_false, decide_eq_true_eq] at hk
  rcases hk.2 with rfl | rfl <;> simp [coord1]

/-- Sum over ages and metallicities. -/
def sumTZ (g : Grid) (A : ℕ → ℕ → ℝ) (w : PyStr) (c : Cell) : ℝ :=
  ∑ t : Fin g.nt, ∑ z : Fin g.nz, if coords (part ['t','z'] w) ⟨t, 0, 0, 0, z⟩ = coords (part ['t','z'] w) c then A t z else 0

/-- Sum over positions. -/
def sumXY (g : Grid) (B : ℕ → ℕ → ℝ) (w : PyStr) (c : Cell) : ℝ :=
  ∑ x : Fin g.nx, ∑ y : Fin g.ny, if coords (part ['v','x'] w) ⟨0, 0, x, y, 0⟩ = coords (part ['v','x'] w) c then B x y else 0

/-- Sum over positions and velocities. -/
def sumVXY (g : Grid) (B : ℕ → ℕ → ℕ → ℝ) (w : PyStr) (c : Cell) : ℝ :=
  ∑ v : Fin g.nv, ∑ x : Fin g.nx, ∑ y : Fin g.ny, if coords (part ['v','x'] w) ⟨0, v, x, y, 0⟩ = coords (part ['v','x'] w) c then B v x y else 0

theorem sumTXZ_factor (hg : g.Proper) {w : PyStr} (hw : Known w) {F : Cell → ℝ} {A : ℕ → ℕ → ℝ} {B : ℕ → ℕ → ℝ}
    (hF : ∀ d, g.Has d → F d = A d.t d.z * B d.x d.y) :
    Ingredients.sumTXZ g (fun d => if coords w d = coords w c then F d else 0) = sumTZ g A w c * sumXY g B w c := by
  have e : ∀ d, g.Has d → d.v = 0 → (if coords w d = coords w c then F d else 0) =
      (if coords (part ['t','z'] w) ⟨d.t, 0, 0, 0, d.z⟩ = coords (part ['t','z'] w) c then A d.t d.z else 0) *
      (if coords (part ['v','x'] w) ⟨0, 0, d.x, d.y, 0⟩ = coords (part ['v','x'] w) c then B d.x d.y else 0) := fun d hd hv => by
    have h2 := coords_sky w d
    rw [hv] at h2
    rw [← coords_age, ← h2, hF d hd]
    simp only [coords_parts hw, ← ite_and, mul_ite, ite_mul, zero_mul, mul_zero]
    split_ifs <;> simp_all
  unfold Ingredients.sumTXZ sumTZ sumXY
  rw [Finset.sum_mul]
  refine Finset.sum_congr rfl fun t _ => ?_
  simp only [Finset.mul_sum, Finset.sum_mul]
  refine Finset.sum_congr rfl fun x _ => Finset.sum_congr rfl fun y _ => Finset.sum_congr rfl fun z _ => ?_
  exact e ⟨t, 0, x, y, z⟩ ⟨t.2, hg.nv, x.2, y.2, z.2⟩ rfl

theorem sumCells_factor {w : PyStr} (hw : Known w) {F : Cell → ℝ} {A : ℕ → ℕ → ℝ} {B : ℕ → ℕ → ℕ → ℝ}
    (hF : ∀ d, g.Has d → F d = A d.t d.z * B d.v d.x d.y) :
    g.sumCells (fun d => if coords w d = coords w c then F d else 0) = sumTZ g A w c * sumVXY g B w c := by
  have e : ∀ d, g.Has d → (if coords w d = coords w c then F d else 0) =
      (if coords (part ['t','z'] w) ⟨d.t, 0, 0, 0, d.z⟩ = coords (part ['t','z'] w) c then A d.t d.z else 0) *
      (if coords (part ['v','x'] w) ⟨0, d.v, d.x, d.y, 0⟩ = coords (part ['v','x'] w) c then B d.v d.x d.y else 0) := fun d hd => by
    rw [← coords_age, ← coords_sky, hF d hd]
    simp only [coords_parts hw, ← ite_and, mul_ite, ite_mul, zero_mul, mul_zero]
    split_ifs <;> simp_all
  unfold Grid.sumCells sumTZ sumVXY
  rw [Finset.sum_mul]
  refine Finset.sum_congr rfl fun t _ => ?_
  simp only [Finset.mul_sum, Finset.sum_mul]
  refine Finset.sum_congr rfl fun v _ => Finset.sum_congr rfl fun x _ => Finset.sum_congr rfl fun y _ => Finset.sum_congr rfl fun z _ => ?_
  exact e ⟨t, v, x, y, z⟩ ⟨t.2, v.2, x.2, y.2, z.2⟩

/-! ### Amounts and expectations of an even population -/

/-- Weighted probability of an age and a metallicity. -/
def ageWt (m : Ingredients) (g : Grid) (L : ℕ → ℕ → ℝ) (lw : Bool) (t z : ℕ) : ℝ :=
  (if lw then L t z else 1) * (m.pt t * width g.t t * (m.pz t 0 0 z * width g.z z))

/-- Probability of a pixel. -/
def skyWt (m : Ingredients) (g : Grid) (x y : ℕ) : ℝ := m.px 0 x y * (width g.x x * width g.y y)

/-- Positions, with those velocities that count in `w`, weighted with `ψ`. -/
def skySum (m : Ingredients) (g : Grid) (ψ : ℕ → ℕ → ℕ → ℝ) (w : PyStr) (c : Cell) : ℝ :=
  if 'v' ∈ w then sumVXY g (fun v x y => ψ v x y * (skyWt m g x y * m.probV g ⟨0, v, x, y, 0⟩)) w c else sumXY g (fun x y => ψ 0 x y * skyWt m g x y) w c

section
variable (E : m.Even g) (hg : g.Proper)
include E hg

theorem Even.stars {d : Cell} (hd : g.Has d) : Pop.wt L lw d * m.probTXZ g d = ageWt m g L lw d.t d.z * skyWt m g d.x d.y := by
  unfold Pop.wt Ingredients.probTXZ Ingredients.probT Ingredients.probX Ingredients.probZ ageWt skyWt
  rw [E.px _ hd.1 _ hd.2.2.1 _ hd.2.2.2.1, E.pz _ hd.1 _ hd.2.2.1 _ hd.2.2.2.1 _ hd.2.2.2.2]
  ring

theorem Even.probV {d : Cell} (hd : g.Has d) : m.probV g d = m.probV g ⟨0, d.v, d.x, d.y, 0⟩ := by
  unfold Ingredients.probV
  rw [E.mu _ hd.1 _ hd.2.2.1 _ hd.2.2.2.1, E.sig _ hd.1 _ hd.2.2.1 _ hd.2.2.2.1]

/-- The weighted sum that `amount` and `num` are made of. -/
theorem Even.sum {w : PyStr} (hw : Known w) {f : Cell → ℝ} {α : ℕ → ℕ → ℝ} {ψ : ℕ → ℕ → ℕ → ℝ}
    (hf : ∀ d, g.Has d → ('v' ∉ w → d.v = 0) → f d = α d.t d.z * ψ d.v d.x d.y) :
    (if 'v' ∈ w then g.sumCells (fun d => if coords w d = coords w c then Pop.wt L lw d * (f d * (m.pop g).joint d) else 0)
      else Ingredients.sumTXZ g (fun d => if coords w d = coords w c then Pop.wt L lw d * (f { d with v := 0 } * (m.pop g).stars d) else 0)) =
    sumTZ g (fun t z => α t z * ageWt m g L lw t z) w c * skySum m g ψ w c := by
  unfold skySum
  split
  · next hv =>
    refine sumCells_factor hw fun d hd => ?_
    show Pop.wt L lw d * (f d * (m.probTXZ g d * m.probV g d)) = _
    have e := Even.stars E hg (L := L) (lw := lw) hd
    rw [hf d hd (absurd hv), Even.probV E hg hd]
    linear_combination (α d.t d.z * ψ d.v d.x d.y * m.probV g ⟨0, d.v, d.x, d.y, 0⟩) * e
  · next hv =>
    refine sumTXZ_factor hg hw fun d hd => ?_
    rw [ingr_stars]
    have e := Even.stars E hg (L := L) (lw := lw) hd
    rw [hf { d with v := 0 } ⟨hd.1, hg.nv, hd.2.2⟩ fun _ => rfl]
    linear_combination (α d.t d.z * ψ 0 d.x d.y) * e

theorem Even.amount {w : PyStr} (hw : Known w) : (m.pop g).amount g L lw w c = sumTZ g (ageWt m g L lw) w c * skySum m g (fun _ _ _ => 1) w c := by
  have := Even.sum E hg (L := L) (lw := lw) (c := c) hw (f := fun _ => 1) (α := fun _ _ => 1) (ψ := fun _ _ _ => 1) fun d hd _ => by simp
  simp only [one_mul] at this
  exact this

end

theorem part_idem (G w : PyStr) : part G (part G w) = part G w := by simp [part]

theorem part_other (w : PyStr) : part ['v','x'] (part ['t','z'] w) = [] ∧ part ['t','z'] (part ['v','x'] w) = [] := by
  simp only [part, List.filter_filter, List.filter_eq_nil_iff]
  constructor <;> intro a _ <;> simp <;> rintro (rfl | rfl) <;> simp

theorem sumTZ_part {A : ℕ → ℕ → ℝ} {w w' : PyStr} (h : part ['t','z'] w = part ['t','z'] w') : sumTZ g A w c = sumTZ g A w' c := by
  unfold sumTZ; rw [h]

theorem mem_part {w : PyStr} : 'v' ∈ w ↔ 'v' ∈ part ['v','x'] w := by simp [part]

theorem skySum_part {ψ : ℕ → ℕ → ℕ → ℝ} {w w' : PyStr} (h : part ['v','x'] w = part ['v','x'] w') : skySum m g ψ w c = skySum m g ψ w' c := by
  unfold skySum sumVXY sumXY
  rw [h]
  refine if_congr ?_ rfl rfl
  rw [mem_part, h, ← mem_part]

/-- What a sum over positions with velocities in the grid adds up to. -/
def gridFraction (m : Ingredients) (g : Grid) : ℝ := ∑ v : Fin g.nv, ∑ x : Fin g.nx, ∑ y : Fin g.ny, skyWt m g x y * m.probV g ⟨0, v, x, y, 0⟩

section
variable (E : m.Even g) (h : ParamIs p g m L)
include E h

theorem Even.sky_nil {w : PyStr} (hw : part ['v','x'] w = []) : skySum m g (fun _ _ _ => 1) w c = 1 := by
  rw [skySum_part (w' := []) hw]
  unfold skySum sumXY skyWt
  rw [if_neg (by simp)]
  simp only [part, List.filter_nil, coords, List.flatMap_nil, if_true, one_mul]
  exact h.norm.sumX 0 h.proper.nt

theorem Even.light (w : PyStr) : (m.pop g).lightOf g L w = sumTZ g (ageWt m g L true) [] c * (if 'v' ∈ w then gridFraction m g else 1) := by
  have hK : Known [] := by simp [Known]
  unfold Pop.lightOf
  split
  · have := sumCells_factor (c := c) hK (F := fun d => L d.t d.z * (m.pop g).joint d) (A := ageWt m g L true) (B := fun v x y => skyWt m g x y * m.probV g ⟨0, v, x, y, 0⟩)
      fun d hd => by
        have e := Even.stars E h.proper (L := L) (lw := true) hd
        simp only [Pop.wt, if_true] at e
        show L d.t d.z * (m.probTXZ g d * m.probV g d) = _
        rw [Even.probV E h.proper hd]
        linear_combination (m.probV g ⟨0, d.v, d.x, d.y, 0⟩) * e
    simpa [coords, sumVXY, part, gridFraction] using this
  · have := Even.amount E h.proper (L := L) (lw := true) (c := c) hK
    rw [Even.sky_nil E h rfl] at this
    simpa [Pop.amount, Pop.wt, coords] using this

theorem Even.marginal {w : PyStr} (hw : Known w) : (m.pop g).marginal g L lw w c = sumTZ g (ageWt m g L lw) w c * skySum m g (fun _ _ _ => 1) w c /
    (if lw then sumTZ g (ageWt m g L true) [] c * (if 'v' ∈ w then gridFraction m g else 1) else 1) := by
  rw [Pop.marginal, Even.amount E h.proper hw, Even.light E h w]

theorem Even.all_mass : sumTZ g (ageWt m g L false) [] c = 1 := by
  have := Even.amount E h.proper (L := L) (lw := false) (c := c) (w := []) (by simp [Known])
  rw [Even.sky_nil E h rfl, mul_one, h.amount_nil] at this
  exact this.symm

end

theorem known_union (a b : PyStr) : Known (unionStr a b) := fun k hk => by
  simp only [unionStr, List.mem_filter, List.mem_cons, List.not_mem_nil, or_false] at hk
  exact hk.1

theorem cond_marg : ∀ q ∈ conditionals, q.2 ∈ marginals := by decide +kernel
theorem cond_noVel : ∀ q ∈ conditionals, q.1 = ['v'] → 'v' ∉ q.2 := by decide +kernel
theorem cond_ne : ∀ q ∈ conditionals, q.2 ≠ [] := by decide +kernel
theorem union_nil : ∀ w ∈ marginals, unionStr w [] = w := by decide +kernel
theorem known_cond : ∀ q ∈ conditionals, Known q.2 := by unfold Known; decide +kernel
theorem known_marg : ∀ w ∈ marginals, Known w := by unfold Known; decide +kernel

theorem known_part {G w : PyStr} (hw : Known w) : Known (part G w) := fun k hk => hw k (List.mem_of_mem_filter hk)

theorem parts_age : ∀ q ∈ conditionals, (∀ k ∈ q.1, k ∈ ['t','z']) →
    part ['t','z'] (unionStr q.1 q.2) = part ['t','z'] (unionStr q.1 (part ['t','z'] q.2)) ∧ part ['v','x'] (unionStr q.1 q.2) = part ['v','x'] q.2 ∧
    part ['v','x'] (unionStr q.1 (part ['t','z'] q.2)) = [] ∧ part ['v','x'] (part ['t','z'] q.2) = [] ∧ ValidPair q.1 (part ['t','z'] q.2) := by decide +kernel

theorem pair_facts : ∀ a ∈ [['t'], ['z'], ['t','z']], ∀ b ∈ [['v'], ['x'], ['v','x']], a ∈ marginals ∧ b ∈ marginals ∧ unionStr a b ∈ marginals ∧
    part ['t','z'] (unionStr a b) = part ['t','z'] a ∧ part ['v','x'] (unionStr a b) = part ['v','x'] b ∧ part ['v','x'] a = [] ∧ part ['t','z'] b = [] := by
  decide +kernel

theorem replace_mem {G : PyStr} {k q : Char} (hk : k ∈ G) (hq : q ∈ PyStr.replaceX [k]) : q ∈ PyStr.replaceX G := by
  have hq : q ∈ if k = 'x' then ['x', 'y'] else [k] := hq
  induction G with
  | nil => cases hk
  | cons k' G ih =>
    rw [PyStr.replaceX]
    rcases List.mem_cons.1 hk with rfl | hk
    · split at hq <;> simp_all
      rcases hq with rfl | rfl <;> simp
    · split <;> simp [ih hk]

theorem replace_v {k : Char} (hq : 'v' ∈ PyStr.replaceX [k]) : k = 'v' := by
  simp only [PyStr.replaceX, List.mem_flatMap, List.mem_singleton, exists_eq_left] at hq
  split at hq <;> simp at hq
  exact hq.symm

theorem parts_sky : ∀ q ∈ conditionals, (∀ k ∈ q.1, k ∈ ['v','x']) →
    part ['v','x'] (unionStr q.1 q.2) = part ['v','x'] (unionStr q.1 (part ['v','x'] q.2)) ∧ part ['t','z'] (unionStr q.1 q.2) = part ['t','z'] q.2 ∧
    part ['t','z'] (unionStr q.1 (part ['v','x'] q.2)) = [] ∧ part ['t','z'] (part ['v','x'] q.2) = [] ∧ ValidPair q.1 (part ['v','x'] q.2) := by decide +kernel

theorem part_valid {G a b : PyStr} (hG : G ∈ kinds) (hab : (a, b) ∈ conditionals) (ha : ∀ k ∈ a, k ∈ G) : ValidPair a (part G b) ∧ part G b ≠ ['t','x'] := by
  simp only [kinds, List.mem_cons, List.not_mem_nil, or_false] at hG
  rcases hG with rfl | rfl
  · refine ⟨(parts_age _ hab ha).2.2.2.2, fun e => ?_⟩
    have : 'x' ∈ part ['t','z'] b := by rw [e]; decide
    simp [part] at this
  · refine ⟨(parts_sky _ hab ha).2.2.2.2, fun e => ?_⟩
    have : 't' ∈ part ['v','x'] b := by rw [e]; decide
    simp [part] at this

section
variable (E : m.Even g) (h : ParamIs p g m L) (hl : lw = true → (m.pop g).Shines g L)
include E h hl

theorem Even.all_ne : sumTZ g (ageWt m g L lw) [] c ≠ 0 := by
  cases lw with
  | false => rw [Even.all_mass E h]; exact one_ne_zero
  | true =>
    have := (hl rfl).ne'
    rw [Pop.Shines, Even.light E h (c := c), if_neg (by decide), mul_one] at *
    exact this

theorem Even.range_ne : lw = true → gridFraction m g ≠ 0 := fun e => by
  have := (lights_ne h hl).1
  rw [if_pos e, Even.light E h (c := ⟨0, 0, 0, 0, 0⟩), if_pos (by decide)] at this
  exact right_ne_zero_of_mul this

/-- The distribution of `a` given `b` is that given the part of `b` of the kind of `a`. -/
theorem Even.ratio {G a b : PyStr} (hG : G ∈ kinds) (hab : (a, b) ∈ conditionals) (ha : ∀ k ∈ a, k ∈ G) (h0 : (m.pop g).marginal g L lw b c ≠ 0) :
    (m.pop g).marginal g L lw (part G b) c ≠ 0 ∧
    (m.pop g).marginal g L lw (unionStr a b) c / (m.pop g).marginal g L lw b c =
      (m.pop g).marginal g L lw (unionStr a (part G b)) c / (m.pop g).marginal g L lw (part G b) c := by
  have kb : Known b := known_cond _ hab
  have kp := known_part (G := G) kb
  have n0 := Even.all_ne E h hl (c := c)
  have r0 := Even.range_ne E h hl
  rw [Even.marginal E h kb] at h0 ⊢
  rw [Even.marginal E h (known_union _ _), Even.marginal E h (known_union _ _), Even.marginal E h kp]
  have nb := div_ne_zero_iff.1 h0
  have nT := left_ne_zero_of_mul nb.1
  have nX := right_ne_zero_of_mul nb.1
  simp only [kinds, List.mem_cons, List.not_mem_nil, or_false] at hG
  rcases hG with rfl | rfl
  · obtain ⟨e1, e2, e3, e4, -⟩ := parts_age _ hab ha
    dsimp only at e1 e2 e3 e4
    have v1 : ('v' ∈ unionStr a b) ↔ 'v' ∈ b := by rw [mem_part, e2, ← mem_part]
    have v2 : ¬ ('v' ∈ unionStr a (part ['t','z'] b)) := by rw [mem_part, e3]; simp
    have v3 : ¬ ('v' ∈ part ['t','z'] b) := by rw [mem_part, e4]; simp
    rw [Even.sky_nil E h e3, Even.sky_nil E h e4, skySum_part (ψ := fun _ _ _ => 1) e2, sumTZ_part e1, sumTZ_part (part_idem ['t','z'] b), if_neg v2, if_neg v3,
      if_congr v1 rfl rfl]
    generalize (if lw then sumTZ g (ageWt m g L true) [] c * (if 'v' ∈ b then gridFraction m g else 1) else 1) = D at *
    have nD : (if lw then sumTZ g (ageWt m g L true) [] c * 1 else 1) ≠ 0 := by
      split
      · next e => subst e; simpa using n0
      · exact one_ne_zero
    have nb2 := nb.2
    generalize (if lw then sumTZ g (ageWt m g L true) [] c * 1 else 1) = D' at *
    constructor
    · exact div_ne_zero (by simpa using nT) nD
    · field_simp
  · obtain ⟨e1, e2, e3, e4, -⟩ := parts_sky _ hab ha
    dsimp only at e1 e2 e3 e4
    have v1 : ('v' ∈ unionStr a b) ↔ 'v' ∈ unionStr a (part ['v','x'] b) := by rw [mem_part, e1, ← mem_part]
    have v2 : ('v' ∈ part ['v','x'] b) ↔ 'v' ∈ b := mem_part.symm
    rw [skySum_part (ψ := fun _ _ _ => 1) e1, skySum_part (ψ := fun _ _ _ => 1) (part_idem ['v','x'] b), sumTZ_part e2, sumTZ_part (w' := []) e3, sumTZ_part (w' := []) e4,
      if_congr v1 rfl rfl, if_congr v2 rfl rfl]
    have nD : ∀ w : PyStr, (if lw then sumTZ g (ageWt m g L true) [] c * (if 'v' ∈ w then gridFraction m g else 1) else 1) ≠ 0 := fun w => by
      split
      · next e =>
        refine mul_ne_zero (by subst e; exact n0) ?_
        split
        · exact r0 e
        · exact one_ne_zero
      · exact one_ne_zero
    have n1 := nD b
    have n2 := nD (unionStr a (part ['v','x'] b))
    clear nD
    refine ⟨div_ne_zero (mul_ne_zero n0 nX) n1, ?_⟩
    field_simp

theorem Even.marginal_nil : (m.pop g).marginal g L lw [] c = 1 := by
  rw [Even.marginal E h (by simp [Known]), Even.sky_nil E h rfl, if_neg (show ¬ 'v' ∈ ([] : PyStr) by simp)]
  cases lw with
  | false => rw [Even.all_mass E h]; simp
  | true =>
    have := Even.all_ne E h hl (c := c)
    simp only [if_true, mul_one]
    exact div_self this

end

/-! ### What `get_p` returns -/

theorem ParamIs.dist_where (h : ParamIs p g m L) (E : m.Even g) (density : Bool) (hl : lw = true → (m.pop g).Shines g L) {a b : PyStr} (hab : ValidPair a b)
    (hv : ¬ (lw = true ∧ a = ['v'] ∧ b = ['t','x'])) :
    ∃ r, getP p.self (distStr a b) density lw = .ok r ∧ r.shape = g.shapeOf a ++ g.shapeOf b ∧ ∀ c, g.Has c → (m.pop g).marginal g L lw b c ≠ 0 →
      r.get (coords a c ++ coords b c) = .fin ((m.pop g).marginal g L lw (unionStr a b) c / (m.pop g).marginal g L lw b c / (if density then g.volOf a c else 1)) := by
  have ls : lw = true → Shines g m L := fun e => param_shines.1 (hl e)
  rcases hab with ⟨rfl, ha⟩ | hab
  · obtain ⟨r, r1, r2, r3⟩ := C32_marginals h density lw ls a ha
    refine ⟨r, r1, by rw [r2]; simp [Grid.shapeOf], fun c hc _ => ?_⟩
    rw [Even.marginal_nil E h hl, div_one, union_nil a ha, ingr_marginal h, ← r3 c hc]
    simp [coords]
  · have hb := cond_ne _ hab
    rw [distStr, if_neg hb]
    by_cases hva : 'v' ∈ a
    · by_cases ho : a = ['v'] ∧ b = ['t','x']
      · obtain ⟨rfl, rfl⟩ := ho
        have : lw = false := by simpa using hv
        subst this
        obtain ⟨-, ⟨r, r1, r2, r3⟩, -⟩ := C32_ingredients h density
        refine ⟨r, r1, r2, fun c hc h0 => ?_⟩
        refine Eq.trans (r3 c hc) (congrArg (fun u => Num.fin (u / _)) ?_)
        rw [ingr_marginal h, mass_marginal h] at h0 ⊢
        rw [ingr_marginal h, mass_marginal h, show unionStr ['v'] ['t','x'] = ['t','v','x'] by decide, amount_tvx hc, mul_div_cancel_right₀ _ h0]
      · obtain ⟨r, r1, r2, r3⟩ := C32_conditionals h density lw ls a b hab (by
          simp only [List.mem_cons, Prod.mk.injEq, List.not_mem_nil, or_false, not_or]
          refine ⟨fun e => ?_, fun e => ho e, fun e => ?_⟩
          · rw [e.1] at hva; simp at hva
          · rw [e.1] at hva; simp at hva)
        refine ⟨r, r1, r2, fun c hc h0 => ?_⟩
        rw [ingr_marginal h] at h0
        rw [r3 c hc, if_neg h0, ingr_marginal h, ingr_marginal h]
    · obtain ⟨r, r1, r2, r3⟩ := h.cond_where density hl hab hva
      refine ⟨r, r1, r2, fun c hc h0 => ?_⟩
      rw [r3 c hc h0, dvol_eq]

/-! ### Moments -/

/-- The value does not involve what is not of the kind of `k`. -/
theorem value_age {k : Char} (hk : k = 't' ∨ k = 'z') (d : Cell) : g.value k d = g.value k ⟨d.t, 0, 0, 0, d.z⟩ := by
  rcases hk with rfl | rfl <;> simp [Grid.value]

theorem value_sky {k : Char} (hk : k = 'x' ∨ k = 'y') (d : Cell) : g.value k d = g.value k ⟨0, 0, d.x, d.y, 0⟩ := by
  rcases hk with rfl | rfl <;> simp [Grid.value]

section
variable (E : m.Even g) (h : ParamIs p g m L)
include E h

theorem Even.expect_age {b : PyStr} (hb : Known b) {k : Char} (hk : k = 't' ∨ k = 'z') (φ : ℝ → ℝ) (h0 : (m.pop g).amount g L lw b c ≠ 0) :
    (m.pop g).expect g L lw b k φ c = sumTZ g (fun t z => φ (g.value k ⟨t, 0, 0, 0, z⟩) * ageWt m g L lw t z) b c / sumTZ g (ageWt m g L lw) b c := by
  have hv : k ≠ 'v' := by rintro rfl; simp at hk
  have := Even.sum E h.proper (L := L) (lw := lw) (c := c) hb (f := fun d => φ (g.value k d)) (α := fun t z => φ (g.value k ⟨t, 0, 0, 0, z⟩)) (ψ := fun _ _ _ => 1)
    fun d hd _ => by rw [value_age hk d, mul_one]
  simp only [value_noV hv] at this
  unfold Pop.expect
  rw [if_neg hv, this, Even.amount E h.proper hb]
  rw [Even.amount E h.proper hb] at h0
  exact mul_div_mul_right _ _ (right_ne_zero_of_mul h0)

/-- Sum of `φ` over the stars of some places, with the velocities that count. -/
def skyNum (m : Ingredients) (g : Grid) (b : PyStr) (k : Char) (φ : ℝ → ℝ) (c : Cell) : ℝ :=
  if k = 'v' then sumXY g (fun x y => (∫ v, φ v ∂(normal (m.mu 0 x y) (m.sig 0 x y))) * skyWt m g x y) b c
  else skySum m g (fun _ x y => φ (g.value k ⟨0, 0, x, y, 0⟩)) b c

theorem Even.expect_sky {b : PyStr} (hb : Known b) {k : Char} (hk : k = 'x' ∨ k = 'y' ∨ k = 'v') (hv : k = 'v' → 'v' ∉ b) (φ : ℝ → ℝ)
    (h0 : (m.pop g).amount g L lw b c ≠ 0) : (m.pop g).expect g L lw b k φ c = skyNum m g b k φ c / skySum m g (fun _ _ _ => 1) b c := by
  unfold Pop.expect skyNum
  rw [Even.amount E h.proper hb] at h0 ⊢
  by_cases hkv : k = 'v'
  · rw [if_pos hkv, if_pos hkv, sumTXZ_factor h.proper hb (A := ageWt m g L lw)
      (B := fun x y => (∫ v, φ v ∂(normal (m.mu 0 x y) (m.sig 0 x y))) * skyWt m g x y) fun d hd => ?_]
    · exact mul_div_mul_left _ _ (left_ne_zero_of_mul h0)
    · have e := Even.stars E h.proper (L := L) (lw := lw) hd
      show Pop.wt L lw d * (m.probTXZ g d * ∫ v, φ v ∂(normal (m.mu d.t d.x d.y) (m.sig d.t d.x d.y))) = _
      rw [E.mu _ hd.1 _ hd.2.2.1 _ hd.2.2.2.1, E.sig _ hd.1 _ hd.2.2.1 _ hd.2.2.2.1]
      linear_combination (∫ v, φ v ∂(normal (m.mu 0 d.x d.y) (m.sig 0 d.x d.y))) * e
  · have hk' : k = 'x' ∨ k = 'y' := by tauto
    have := Even.sum E h.proper (L := L) (lw := lw) (c := c) hb (f := fun d => φ (g.value k d)) (α := fun _ _ => 1)
      (ψ := fun _ x y => φ (g.value k ⟨0, 0, x, y, 0⟩)) fun d hd _ => by rw [value_sky hk' d, one_mul]
    simp only [value_noV hkv, one_mul] at this
    rw [if_neg hkv, if_neg hkv, this]
    exact mul_div_mul_left _ _ (left_ne_zero_of_mul h0)

end

theorem skyNum_part {b b' : PyStr} (h : part ['v','x'] b = part ['v','x'] b') (k : Char) (φ : ℝ → ℝ) : skyNum m g b k φ c = skyNum m g b' k φ c := by
  unfold skyNum
  rw [skySum_part h]
  unfold sumXY
  rw [h]

section
variable (E : m.Even g) (h : ParamIs p g m L) (hl : lw = true → (m.pop g).Shines g L)
include E h hl

theorem Even.amount_ne {G b : PyStr} (hG : G ∈ kinds) (hb : Known b) (h0 : (m.pop g).amount g L lw b c ≠ 0) : (m.pop g).amount g L lw (part G b) c ≠ 0 := by
  rw [Even.amount E h.proper (known_part hb)]
  rw [Even.amount E h.proper hb] at h0
  simp only [kinds, List.mem_cons, List.not_mem_nil, or_false] at hG
  rcases hG with rfl | rfl
  · rw [sumTZ_part (part_idem ['t','z'] b), Even.sky_nil E h (part_other b).1, mul_one]
    exact left_ne_zero_of_mul h0
  · rw [skySum_part (part_idem ['v','x'] b), sumTZ_part (w' := []) (part_other b).2]
    exact mul_ne_zero (Even.all_ne E h hl) (right_ne_zero_of_mul h0)

theorem Even.expect {G b : PyStr} (hG : G ∈ kinds) (hb : Known b) {k : Char} (hk : k ∈ PyStr.replaceX G) (hv : k = 'v' → 'v' ∉ b) (φ : ℝ → ℝ)
    (h0 : (m.pop g).amount g L lw b c ≠ 0) : (m.pop g).expect g L lw b k φ c = (m.pop g).expect g L lw (part G b) k φ c := by
  have h1 := Even.amount_ne E h hl hG hb h0
  simp only [kinds, List.mem_cons, List.not_mem_nil, or_false] at hG
  rcases hG with rfl | rfl
  · have hk' : k = 't' ∨ k = 'z' := by simpa [PyStr.replaceX] using hk
    rw [Even.expect_age E h hb hk' φ h0, Even.expect_age E h (known_part hb) hk' φ h1, sumTZ_part (part_idem ['t','z'] b), sumTZ_part (part_idem ['t','z'] b)]
  · have hk' : k = 'x' ∨ k = 'y' ∨ k = 'v' := by
      have : k = 'v' ∨ k = 'x' ∨ k = 'y' := by simpa [PyStr.replaceX] using hk
      tauto
    rw [Even.expect_sky E h hb hk' hv φ h0, Even.expect_sky E h (known_part hb) hk' (fun e hm => hv e (List.mem_of_mem_filter hm)) φ h1,
      skyNum_part (part_idem ['v','x'] b), skySum_part (part_idem ['v','x'] b)]

end

/-! ### Covariances -/

theorem sumTZ_sub (A : ℕ → ℕ → ℝ) (W : ℕ → ℕ → ℝ) (μ : ℝ) (w : PyStr) :
    sumTZ g (fun t z => (A t z - μ) * W t z) w c = sumTZ g (fun t z => A t z * W t z) w c - μ * sumTZ g W w c := by
  unfold sumTZ
  rw [Finset.mul_sum, ← Finset.sum_sub_distrib]
  refine Finset.sum_congr rfl fun t _ => ?_
  rw [Finset.mul_sum, ← Finset.sum_sub_distrib]
  refine Finset.sum_congr rfl fun z _ => ?_
  split <;> ring

section
variable (E : m.Even g) (h : ParamIs p g m L)
include E h

theorem Even.deviation {b : PyStr} (hb : Known b) {k : Char} (hk : k = 't' ∨ k = 'z') (h0 : (m.pop g).amount g L lw b c ≠ 0) :
    sumTZ g (fun t z => (g.value k ⟨t, 0, 0, 0, z⟩ - (m.pop g).mean g L lw b k c) * ageWt m g L lw t z) b c = 0 := by
  have e : (m.pop g).mean g L lw b k c = _ := Even.expect_age E h hb hk (fun x => x) h0
  rw [Even.amount E h.proper hb] at h0
  rw [sumTZ_sub, e, div_mul_cancel₀ _ (left_ne_zero_of_mul h0), sub_self]

theorem Even.cov {b : PyStr} (hb : Known b) {k k' : Char} (hk : k = 't' ∨ k = 'z') (hk' : k' = 'x' ∨ k' = 'y' ∨ k' = 'v')
    (h0 : (m.pop g).amount g L lw b c ≠ 0) : (m.pop g).givenCov g L lw b k k' c = 0 ∧ (m.pop g).givenCov g L lw b k' k c = 0 := by
  have hv : k ≠ 'v' := by rintro rfl; simp at hk
  have hd := Even.deviation E h hb hk h0
  unfold Pop.givenCov
  rw [if_neg hv, if_neg hv]
  by_cases hkv : k' = 'v'
  · rw [if_pos hkv, if_pos hkv, and_self]
    unfold Pop.binCov
    rw [sumCells_factor hb (A := fun t z => (g.value k ⟨t, 0, 0, 0, z⟩ - (m.pop g).mean g L lw b k c) * ageWt m g L lw t z)
      (B := fun v x y => (centre g.v v - (m.pop g).mean g L lw b 'v' c) * (skyWt m g x y * m.probV g ⟨0, v, x, y, 0⟩)) fun d hd => ?_, hd]
    · simp
    · have e := Even.stars E h.proper (L := L) (lw := lw) hd
      show Pop.wt L lw d * (_ * (m.probTXZ g d * m.probV g d)) = _
      rw [Even.probV E h.proper hd, value_age hk d]
      linear_combination ((centre g.v d.v - (m.pop g).mean g L lw b 'v' c) * (g.value k ⟨d.t, 0, 0, 0, d.z⟩ - (m.pop g).mean g L lw b k c) *
        m.probV g ⟨0, d.v, d.x, d.y, 0⟩) * e
  · rw [if_neg hkv, if_neg hkv]
    have hk2 : k' = 'x' ∨ k' = 'y' := by tauto
    have key := Even.sum E h.proper (L := L) (lw := lw) (c := c) hb
      (f := fun d => (g.value k d - (m.pop g).mean g L lw b k c) * (g.value k' d - (m.pop g).mean g L lw b k' c))
      (α := fun t z => g.value k ⟨t, 0, 0, 0, z⟩ - (m.pop g).mean g L lw b k c)
      (ψ := fun _ x y => g.value k' ⟨0, 0, x, y, 0⟩ - (m.pop g).mean g L lw b k' c) fun d hd _ => by rw [value_age hk d, value_sky hk2 d]
    rw [hd, zero_mul] at key
    simp only [value_noV hv, value_noV hkv] at key
    have e1 : (m.pop g).cov g L lw b k k' c = 0 := by
      unfold Pop.cov Pop.expectOf
      rw [key, zero_div]
    refine ⟨e1, ?_⟩
    unfold Pop.cov at e1 ⊢
    rw [← e1]
    congr 1; funext d; ring

end

/-! ### What is claimed -/

/-- Ages and metallicities on one side and positions and velocities on the other are independent in all that the component returns. -/
structure NoGradients (p : Param) (g : Grid) : Prop where
  /-- Joint distributions are products. -/
  product : ∀ lw density, ∀ a ∈ [['t'], ['z'], ['t','z']], ∀ b ∈ [['v'], ['x'], ['v','x']],
    ∃ A B J, getP p.self a density lw = .ok A ∧ getP p.self b density lw = .ok B ∧ getP p.self (unionStr a b) density lw = .ok J ∧
      ∀ c, g.Has c → ∃ u v : ℝ, A.get (coords a c) = .fin u ∧ B.get (coords b c) = .fin v ∧ J.get (coords (unionStr a b) c) = .fin (u * v)
  /-- Of the conditions only those of the same kind matter. -/
  given : ∀ lw density, ∀ G ∈ kinds, ∀ a b, (a, b) ∈ conditionals → (∀ k ∈ a, k ∈ G) → ¬ (lw = true ∧ a = ['v'] ∧ b = ['t','x']) →
    ∃ r r', getP p.self (condStr a b) density lw = .ok r ∧ getP p.self (distStr a (part G b)) density lw = .ok r' ∧
      ∀ c, g.Has c → Populated p lw b c → ∃ u : ℝ, r.get (coords a c ++ coords b c) = .fin u ∧ r'.get (coords a c ++ coords (part G b) c) = .fin u
  /-- So for means and central moments. -/
  moments : ∀ lw, ∀ G ∈ kinds, ∀ k ∈ G, ∀ b, ValidPair [k] b → ∀ j : ℕ,
    ∃ M M' r r', getMean p.self (distStr [k] b) lw = .ok M ∧ getMean p.self (distStr [k] (part G b)) lw = .ok M' ∧
      getCentralMoment p.self (distStr [k] b) j lw = .ok r ∧ getCentralMoment p.self (distStr [k] (part G b)) j lw = .ok r' ∧
      ∀ c, g.Has c → Populated p lw b c → ∀ q ∈ PyStr.replaceX [k], ∃ u w : ℝ,
        M.get (compIdx q ++ coords b c) = .fin u ∧ M'.get (compIdx q ++ coords (part G b) c) = .fin u ∧
        r.get (compIdx q ++ coords b c) = .fin w ∧ r'.get (compIdx q ++ coords (part G b) c) = .fin w
  /-- Covariances between the two kinds are 0. -/
  covariance : ∀ lw b, ∀ k k', ([k, k'] : PyStr) ∈ [['t','v'], ['t','x'], ['v','z'], ['x','z']] → ValidPair [k, k'] b →
    ∃ C, (obj p.self).getCovariance (distStr [k, k'] b) lw = .ok C ∧
      ∀ c, g.Has c → Populated p lw b c → ∀ q ∈ PyStr.replaceX [k], ∀ q' ∈ PyStr.replaceX [k'], C.get (compIdx q ++ compIdx q' ++ coords b c) = .fin 0
  /-- Light lies where mass lies, and moves alike. -/
  light : ∀ density, ∃ X X', getP p.self ['x'] density true = .ok X ∧ getP p.self ['x'] density false = .ok X' ∧
    ∀ c, g.Has c → ∃ u : ℝ, X.get [c.x, c.y] = .fin u ∧ X'.get [c.x, c.y] = .fin u
  lightMoments : ∀ k ∈ ['v','x'], ∀ b, ValidPair [k] b → (∀ q ∈ b, q ∈ ['v','x']) → ∀ j : ℕ, ∃ M M' r r', getMean p.self (distStr [k] b) true = .ok M ∧
    getMean p.self (distStr [k] b) false = .ok M' ∧ getCentralMoment p.self (distStr [k] b) j true = .ok r ∧
    getCentralMoment p.self (distStr [k] b) j false = .ok r' ∧
      ∀ c, g.Has c → Populated p false b c → ∀ q ∈ PyStr.replaceX [k], ∃ u w : ℝ,
        M.get (compIdx q ++ coords b c) = .fin u ∧ M'.get (compIdx q ++ coords b c) = .fin u ∧
        r.get (compIdx q ++ coords b c) = .fin w ∧ r'.get (compIdx q ++ coords b c) = .fin w

/-- The datacube is that of one spectrum, the same in all pixels before the velocities broaden it: the average of the templates, each weighted with the
fraction of the stars that have its age and metallicity. -/
def OneSpectrum (p : Param) (g : Grid) : Prop :=
  ∀ (sp sp' : Spectra) (S S' : ℕ → ℕ → ℕ → ℝ) (n : ℕ), 0 < n → SpectraAre sp g S n n → SpectraAre sp' g S' n n → sp'.dv = sp.dv →
    ∀ (A : Arr Num) (u : ℕ → ℕ → ℝ), getP p.self ['t','z'] false false = .ok A → (∀ t < g.nt, ∀ z < g.nz, A.get [t, z] = .fin (u t z)) →
      (∀ t < g.nt, ∀ z < g.nz, ∀ k < n, S' t z k = ∑ t' : Fin g.nt, ∑ z' : Fin g.nz, u t' z' * S t' z' k) →
      ∀ batch ∈ ["none".toList, "column".toList, "spaxel".toList], ∃ y y', p.evaluateYbar sp batch = .ok y ∧ p.evaluateYbar sp' batch = .ok y' ∧
        y.shape = [n, g.nx, g.ny] ∧ y'.shape = [n, g.nx, g.ny] ∧ ∀ k < n, ∀ i < g.nx, ∀ j < g.ny, y.get [k, i, j] = y'.get [k, i, j]

/-! ### Proofs for any even component -/

section
variable (E : m.Even g) (h : ParamIs p g m L)
include E h

theorem Populated.amount_ne (hl : lw = true → (m.pop g).Shines g L) {b : PyStr} (hb : b = [] ∨ b ∈ marginals) (hc : g.Has c) (hP : Populated p lw b c) :
    (m.pop g).amount g L lw b c ≠ 0 := by
  rcases hb with rfl | hb
  · have : (m.pop g).marginal g L lw [] c ≠ 0 := by rw [Even.marginal_nil E h hl]; exact one_ne_zero
    rw [Pop.marginal] at this
    exact (div_ne_zero_iff.1 this).1
  · obtain ⟨B, b1, b2⟩ := hP.resolve_left (by rintro rfl; exact absurd hb (by decide))
    obtain ⟨B', c1, -, c3⟩ := C32_marginals h false lw (fun e => param_shines.1 (hl e)) b hb
    obtain rfl : B = B' := Except.ok.inj (b1.symm.trans c1)
    rw [c3 c hc] at b2
    simp only [Bool.false_eq_true, if_false, div_one] at b2
    rw [← ingr_marginal h, Pop.marginal] at b2
    exact (div_ne_zero_iff.1 fun e => b2 (congrArg Num.fin e)).1

theorem Even.product (density : Bool) (hl : lw = true → (m.pop g).Shines g L) {a b : PyStr} (ha : a ∈ [['t'], ['z'], ['t','z']]) (hb : b ∈ [['v'], ['x'], ['v','x']]) :
    ∃ A B J, getP p.self a density lw = .ok A ∧ getP p.self b density lw = .ok B ∧ getP p.self (unionStr a b) density lw = .ok J ∧
      ∀ c, g.Has c → ∃ u v : ℝ, A.get (coords a c) = .fin u ∧ B.get (coords b c) = .fin v ∧ J.get (coords (unionStr a b) c) = .fin (u * v) := by
  have ls : lw = true → Shines g m L := fun e => param_shines.1 (hl e)
  obtain ⟨ma, mb, mu, e1, e2, e3, e4⟩ := pair_facts a ha b hb
  obtain ⟨A, a1, -, a3⟩ := C32_marginals h density lw ls a ma
  obtain ⟨B, b1, -, b3⟩ := C32_marginals h density lw ls b mb
  obtain ⟨J, j1, -, j3⟩ := C32_marginals h density lw ls (unionStr a b) mu
  refine ⟨A, B, J, a1, b1, j1, fun c hc => ⟨_, _, a3 c hc, b3 c hc, (j3 c hc).trans (congrArg Num.fin ?_)⟩⟩
  have n0 := Even.all_ne E h hl (c := c)
  have r0 := Even.range_ne E h hl
  have vb : 'v' ∈ unionStr a b ↔ 'v' ∈ b := by rw [mem_part, e2, ← mem_part]
  have va : 'v' ∉ a := by rw [mem_part, e3]; simp
  have ev : g.volOf (unionStr a b) c = g.volOf a c * g.volOf b c := by
    simp only [List.mem_cons, List.not_mem_nil, or_false] at ha hb
    rcases ha with rfl | rfl | rfl <;> rcases hb with rfl | rfl | rfl <;> simp [unionStr, Grid.volOf, Grid.width1] <;> ring
  rw [← ingr_marginal h, ← ingr_marginal h, ← ingr_marginal h, Even.marginal E h (known_union _ _), Even.marginal E h (known_marg _ ma),
    Even.marginal E h (known_marg _ mb), Even.sky_nil E h e3, skySum_part (ψ := fun _ _ _ => 1) e2, sumTZ_part e1, sumTZ_part (w := b) (w' := []) e4, if_neg va,
    if_congr vb rfl rfl, ev]
  have mass : lw = false → sumTZ g (ageWt m g L lw) [] c = 1 := fun e => by subst e; exact Even.all_mass E h
  have nD : lw = true → (if 'v' ∈ b then gridFraction m g else 1) ≠ 0 := fun e => by
    split
    · exact r0 e
    · exact one_ne_zero
  generalize (if 'v' ∈ b then gridFraction m g else 1) = D at *
  cases lw with
  | false =>
    rw [mass rfl]
    cases density <;> simp <;> ring
  | true =>
    have nD := nD rfl
    simp only [if_true]
    generalize sumTZ g (ageWt m g L true) [] c = T at *
    cases density
    · simp only [Bool.false_eq_true, if_false]
      field_simp
    · have q1 := (volOf_pos h.proper hc a).ne'
      have q2 := (volOf_pos h.proper hc b).ne'
      simp only [if_true]
      field_simp

theorem Even.given (density : Bool) (hl : lw = true → (m.pop g).Shines g L) {G : PyStr} (hG : G ∈ kinds) {a b : PyStr} (hab : (a, b) ∈ conditionals)
    (ha : ∀ k ∈ a, k ∈ G) (hx : ¬ (lw = true ∧ a = ['v'] ∧ b = ['t','x'])) :
    ∃ r r', getP p.self (condStr a b) density lw = .ok r ∧ getP p.self (distStr a (part G b)) density lw = .ok r' ∧
      ∀ c, g.Has c → Populated p lw b c → ∃ u : ℝ, r.get (coords a c ++ coords b c) = .fin u ∧ r'.get (coords a c ++ coords (part G b) c) = .fin u := by
  obtain ⟨hv', hn⟩ := part_valid hG hab ha
  obtain ⟨r, r1, -, r3⟩ := h.dist_where E density hl (.inr hab) hx
  obtain ⟨r', r1', -, r3'⟩ := h.dist_where E density hl hv' (fun e => hn e.2.2)
  rw [distStr, if_neg (cond_ne _ hab)] at r1
  refine ⟨r, r', r1, r1', fun c hc hP => ?_⟩
  have h0 := Populated.amount_ne E h hl (.inr (cond_marg _ hab)) hc hP
  have h1 : (m.pop g).marginal g L lw b c ≠ 0 := by
    rw [Pop.marginal]
    refine div_ne_zero h0 ?_
    split
    · next e => exact h.pop_ok.light_ne h.proper h.lightNonneg (hl e) _
    · exact one_ne_zero
  obtain ⟨k1, k2⟩ := Even.ratio E h hl hG hab ha h1
  exact ⟨_, r3 c hc h1, (r3' c hc k1).trans (by rw [k2])⟩

theorem Even.moments (hf : p.f2 = 1) (hl : lw = true → (m.pop g).Shines g L) {G : PyStr} (hG : G ∈ kinds) {k : Char} (hk : k ∈ G) {b : PyStr} (hb : ValidPair [k] b) (j : ℕ) :
    ∃ M M' r r', getMean p.self (distStr [k] b) lw = .ok M ∧ getMean p.self (distStr [k] (part G b)) lw = .ok M' ∧
      getCentralMoment p.self (distStr [k] b) j lw = .ok r ∧ getCentralMoment p.self (distStr [k] (part G b)) j lw = .ok r' ∧
      ∀ c, g.Has c → Populated p lw b c → ∀ q ∈ PyStr.replaceX [k], ∃ u w : ℝ,
        M.get (compIdx q ++ coords b c) = .fin u ∧ M'.get (compIdx q ++ coords (part G b) c) = .fin u ∧
        r.get (compIdx q ++ coords b c) = .fin w ∧ r'.get (compIdx q ++ coords (part G b) c) = .fin w := by
  have hb' : ValidPair [k] (part G b) := by
    rcases hb with ⟨rfl, hm⟩ | hab
    · exact .inl ⟨rfl, hm⟩
    · exact (part_valid hG hab (by simpa using hk)).1
  have hm : b = [] ∨ b ∈ marginals := hb.imp And.left fun hab => cond_marg _ hab
  have hkn : Known b := hm.elim (fun e => by rw [e]; simp [Known]) (known_marg _)
  obtain ⟨M, F, m1, m2, m3⟩ := (h.popAt hf hl b).mean [k] hb rfl
  obtain ⟨M', F', m1', m2', m3'⟩ := (h.popAt hf hl (part G b)).mean [k] hb' rfl
  obtain ⟨r, R, r1, r2, r3⟩ := (h.popAt hf hl b).central [k] hb rfl trivial j
  obtain ⟨r', R', r1', r2', r3'⟩ := (h.popAt hf hl (part G b)).central [k] hb' rfl trivial j
  refine ⟨M, M', r, r', m1, m1', r1, r1', fun c hc hP q hq => ?_⟩
  have h0 := Populated.amount_ne E h hl hm hc hP
  have h1 := Even.amount_ne E h hl hG hkn h0
  have hqG : q ∈ PyStr.replaceX G := replace_mem hk hq
  have hqv : q = 'v' → 'v' ∉ b := fun e => by
    subst e
    have : k = 'v' := replace_v hq
    subst this
    rcases hb with ⟨rfl, -⟩ | hab
    · simp
    · exact cond_noVel _ hab rfl
  have ee := fun φ => Even.expect E h hl hG hkn hqG hqv φ h0
  have em : (m.pop g).mean g L lw b q c = (m.pop g).mean g L lw (part G b) q c := ee _
  have ec : (m.pop g).central g L lw b q j c = (m.pop g).central g L lw (part G b) q j c := by
    unfold Pop.central
    rw [em, ee]
  refine ⟨_, _, (m2.2 q hq c hc).trans (m3 q hq c hc h0), ?_, (r2.2 q hq c hc).trans (r3 q hq c hc h0), ?_⟩
  · rw [em]; exact (m2'.2 q hq c hc).trans (m3' q hq c hc h1)
  · rw [ec]; exact (r2'.2 q hq c hc).trans (r3' q hq c hc h1)

theorem Even.covariance (hf : p.f2 = 1) (hl : lw = true → (m.pop g).Shines g L) {b : PyStr} {k k' : Char}
    (hk : ([k, k'] : PyStr) ∈ [['t','v'], ['t','x'], ['v','z'], ['x','z']]) (hb : ValidPair [k, k'] b) :
    ∃ C, (obj p.self).getCovariance (distStr [k, k'] b) lw = .ok C ∧
      ∀ c, g.Has c → Populated p lw b c → ∀ q ∈ PyStr.replaceX [k], ∀ q' ∈ PyStr.replaceX [k'], C.get (compIdx q ++ compIdx q' ++ coords b c) = .fin 0 := by
  have hm : b = [] ∨ b ∈ marginals := hb.imp And.left fun hab => cond_marg _ hab
  have hkn : Known b := hm.elim (fun e => by rw [e]; simp [Known]) (known_marg _)
  obtain ⟨C, c1, -, c3⟩ := (h.popAt hf hl b).covariance hb
  refine ⟨C, c1, fun c hc hP q hq q' hq' => ?_⟩
  have h0 := Populated.amount_ne E h hl hm hc hP
  refine (c3 q hq q' hq' c hc h0).trans (congrArg Num.fin ?_)
  simp only [List.mem_cons, List.cons.injEq, and_true, List.not_mem_nil, or_false] at hk
  rcases hk with ⟨rfl, rfl⟩ | ⟨rfl, rfl⟩ | ⟨rfl, rfl⟩ | ⟨rfl, rfl⟩ <;> simp [PyStr.replaceX] at hq hq' <;> subst_vars
  · exact (Even.cov E h hkn (by simp) (by simp) h0).1
  · exact (Even.cov E h hkn (by simp) (by tauto) h0).1
  · exact (Even.cov E h hkn (by simp) (by simp) h0).2
  · exact (Even.cov E h hkn (by simp) (by tauto) h0).2

/-- Averages over places do not depend on the weighting. -/
theorem Even.light_expect (hl : (m.pop g).Shines g L) {b : PyStr} (hb : ∀ q ∈ b, q ∈ ['v','x']) {k : Char} (hk : k = 'x' ∨ k = 'y' ∨ k = 'v') (hv : k = 'v' → 'v' ∉ b)
    (h0 : (m.pop g).amount g L false b c ≠ 0) : (m.pop g).amount g L true b c ≠ 0 ∧
      ∀ φ, (m.pop g).expect g L true b k φ c = (m.pop g).expect g L false b k φ c := by
  have hkn : Known b := fun q hq => by have := hb q hq; simp at this; tauto
  have hp : part ['t','z'] b = [] := by
    simp only [part, List.filter_eq_nil_iff]
    intro q hq
    have := hb q hq
    simp at this
    rcases this with rfl | rfl <;> simp
  have n := Even.all_ne E h (lw := true) (fun _ => hl) (c := c)
  have h1 : (m.pop g).amount g L true b c ≠ 0 := by
    rw [Even.amount E h.proper hkn] at h0 ⊢
    rw [sumTZ_part (w' := []) hp]
    exact mul_ne_zero n (right_ne_zero_of_mul h0)
  exact ⟨h1, fun φ => by rw [Even.expect_sky E h hkn hk hv φ h1, Even.expect_sky E h hkn hk hv φ h0]⟩

theorem Even.lightMoments (hf : p.f2 = 1) (hl : (m.pop g).Shines g L) {k : Char} (hk : k ∈ ['v','x']) {b : PyStr} (hb : ValidPair [k] b) (hs : ∀ q ∈ b, q ∈ ['v','x']) (j : ℕ) :
    ∃ M M' r r', getMean p.self (distStr [k] b) true = .ok M ∧
    getMean p.self (distStr [k] b) false = .ok M' ∧ getCentralMoment p.self (distStr [k] b) j true = .ok r ∧
    getCentralMoment p.self (distStr [k] b) j false = .ok r' ∧
      ∀ c, g.Has c → Populated p false b c → ∀ q ∈ PyStr.replaceX [k], ∃ u w : ℝ,
        M.get (compIdx q ++ coords b c) = .fin u ∧ M'.get (compIdx q ++ coords b c) = .fin u ∧
        r.get (compIdx q ++ coords b c) = .fin w ∧ r'.get (compIdx q ++ coords b c) = .fin w := by
  have hm : b = [] ∨ b ∈ marginals := hb.imp And.left fun hab => cond_marg _ hab
  obtain ⟨M, F, m1, m2, m3⟩ := (h.popAt hf (lw := true) (fun _ => hl) b).mean [k] hb rfl
  obtain ⟨M', F', m1', m2', m3'⟩ := (h.popAt hf (lw := false) (by simp) b).mean [k] hb rfl
  obtain ⟨r, R, r1, r2, r3⟩ := (h.popAt hf (lw := true) (fun _ => hl) b).central [k] hb rfl trivial j
  obtain ⟨r', R', r1', r2', r3'⟩ := (h.popAt hf (lw := false) (by simp) b).central [k] hb rfl trivial j
  refine ⟨M, M', r, r', m1, m1', r1, r1', fun c hc hP q hq => ?_⟩
  have h0 := Populated.amount_ne E h (lw := false) (by simp) hm hc hP
  have hq' : q = 'x' ∨ q = 'y' ∨ q = 'v' := by
    have : q = 'v' ∨ q = 'x' ∨ q = 'y' := by simpa [PyStr.replaceX] using replace_mem (G := ['v','x']) hk hq
    tauto
  have hqv : q = 'v' → 'v' ∉ b := fun e => by
    subst e
    have : k = 'v' := replace_v hq
    subst this
    rcases hb with ⟨rfl, -⟩ | hab
    · simp
    · exact cond_noVel _ hab rfl
  obtain ⟨h1, ee⟩ := Even.light_expect E h hl hs hq' hqv h0
  have em : (m.pop g).mean g L true b q c = (m.pop g).mean g L false b q c := ee _
  have ec : (m.pop g).central g L true b q j c = (m.pop g).central g L false b q j c := by
    unfold Pop.central
    rw [em, ee]
  refine ⟨_, _, (m2.2 q hq c hc).trans (m3 q hq c hc h1), ?_, (r2.2 q hq c hc).trans (r3 q hq c hc h1), ?_⟩
  · rw [em]; exact (m2'.2 q hq c hc).trans (m3' q hq c hc h0)
  · rw [ec]; exact (r2'.2 q hq c hc).trans (r3' q hq c hc h0)

theorem Even.lightX (hl : (m.pop g).Shines g L) (density : Bool) : ∃ X X', getP p.self ['x'] density true = .ok X ∧ getP p.self ['x'] density false = .ok X' ∧
    ∀ c, g.Has c → ∃ u : ℝ, X.get [c.x, c.y] = .fin u ∧ X'.get [c.x, c.y] = .fin u := by
  obtain ⟨X, a1, -, a3⟩ := C32_marginals h density true (fun _ => param_shines.1 hl) ['x'] (by decide)
  obtain ⟨X', b1, -, b3⟩ := C32_marginals h density false (by simp) ['x'] (by decide)
  refine ⟨X, X', a1, b1, fun c hc => ⟨_, a3 c hc, (b3 c hc).trans (congrArg (fun u => Num.fin (u / _)) ?_)⟩⟩
  have n := Even.all_ne E h (lw := true) (fun _ => hl) (c := c)
  have hK : Known ['x'] := by simp [Known]
  rw [← ingr_marginal h, ← ingr_marginal h, Even.marginal E h hK, Even.marginal E h hK, sumTZ_part (w := ['x']) (w' := []) rfl,
    sumTZ_part (w := ['x']) (w' := []) rfl, Even.all_mass E h]
  simp only [Bool.false_eq_true, if_false, if_true, if_neg (show ¬ 'v' ∈ ['x'] by decide)]
  field_simp

/-- **C110** for a component whose position and velocity do not depend on age, nor metallicity on position. -/
theorem C110_even (hf : p.f2 = 1) (hl : (m.pop g).Shines g L) : NoGradients p g where
  product lw density _ ha _ hb := Even.product E h density (fun _ => hl) ha hb
  given lw density _ hG _ _ hab ha hx := Even.given E h density (fun _ => hl) hG hab ha hx
  moments lw _ hG _ hk _ hb j := Even.moments E h hf (fun _ => hl) hG hk hb j
  covariance lw _ _ _ hk hb := Even.covariance E h hf (fun _ => hl) hk hb
  light density := Even.lightX E h hl density
  lightMoments _ hk _ hb hs j := Even.lightMoments E h hf hl hk hb hs j

end

/-! ### Datacubes -/

/-- One spectrum broadened and shifted by a Gaussian. -/
def broadened (n : ℕ) (F : ℕ → ℂ) (s : ℕ → ℝ) (k : ℕ) : ℝ := Fft.irfft n (fun w => Fft.rfft n n s w * F w) k

theorem broadened_sum {ι : Type} (I : Finset ι) (n : ℕ) (F : ℕ → ℂ) (a : ι → ℝ) (s : ι → ℕ → ℝ) (k : ℕ) :
    broadened n F (fun j => ∑ i ∈ I, a i * s i j) k = ∑ i ∈ I, a i * broadened n F (s i) k := by
  unfold broadened
  rw [← Fft.irfft_sum]
  congr 1
  funext w
  simp only [Fft.rfft]
  rw [Finset.sum_mul]
  simp only [Finset.sum_mul, Finset.mul_sum]
  rw [Finset.sum_comm]
  refine Finset.sum_congr rfl fun j hj => ?_
  rw [if_pos (Finset.mem_range.1 hj)]
  push_cast
  rw [Finset.sum_mul, Finset.sum_mul]
  refine Finset.sum_congr rfl fun i _ => ?_
  rw [if_pos (Finset.mem_range.1 hj)]
  ring

theorem broadened_congr {n : ℕ} {F : ℕ → ℂ} {s s' : ℕ → ℝ} (h : ∀ j < n, s j = s' j) (k : ℕ) : broadened n F s k = broadened n F s' k := by
  unfold broadened
  congr 1
  funext w
  rw [rfft_congr h]

section
variable (E : m.Even g) (h : ParamIs p g m L)
include E h

theorem Even.ybar {sp : Spectra} {S : ℕ → ℕ → ℕ → ℝ} {n : ℕ} {x y : ℕ} (hx : x < g.nx) (hy : y < g.ny) (k : ℕ) :
    Param.ybarOf g m sp S n n k x y = skyWt m g x y * broadened n (fun w => gaussFT (m.mu 0 x y) (m.sig 0 x y) (Param.freq sp n w))
      (fun j => ∑ q : Fin g.nt × Fin g.nz, ageWt m g L false q.1 q.2 * S q.1 q.2 j) k := by
  rw [ybarOf_eq, broadened_sum, Finset.mul_sum, Fintype.sum_prod_type]
  refine Finset.sum_congr rfl fun t _ => Finset.sum_congr rfl fun z _ => ?_
  have e := Even.stars E h.proper (L := L) (lw := false) (d := ⟨t, 0, x, y, z⟩) ⟨t.2, h.proper.nv, hx, hy, z.2⟩
  simp only [Pop.wt, Bool.false_eq_true, if_false, one_mul] at e
  rw [e, E.mu t t.2 x hx y hy, E.sig t t.2 x hx y hy,
    broadened_congr (s := S t z) (s' := padded n (S t z)) (fun j hj => by rw [padded, if_pos hj])]
  unfold broadened
  ring

/-- **C110, datacubes.** The datacube of a component without gradients is what it would be if all templates were one and the same: the average of the
templates, weighted with the distribution of age and metallicity. -/
theorem C110_even_datacube : OneSpectrum p g := by
  intro sp sp' S S' n hn hS hS' hdv A u hA hu hmean batch hb
  obtain ⟨A', a1, -, a3⟩ := C32_marginals h false false (by simp) ['t','z'] (by decide)
  obtain rfl : A = A' := Except.ok.inj (hA.symm.trans a1)
  have hw : ∀ t < g.nt, ∀ z < g.nz, u t z = ageWt m g L false t z := fun t ht z hz => by
    have hc : g.Has ⟨t, 0, 0, 0, z⟩ := ⟨ht, h.proper.nv, h.proper.nx, h.proper.ny, hz⟩
    have e := Num.fin.inj ((hu t ht z hz).symm.trans (a3 _ hc))
    simp only [Bool.false_eq_true, if_false, div_one] at e
    rw [← ingr_marginal h, Even.marginal E h (by simp [Known]), Even.sky_nil E h rfl] at e
    rw [e]
    simp only [Bool.false_eq_true, if_false, div_one, mul_one]
    unfold sumTZ
    rw [Finset.sum_eq_single ⟨t, ht⟩, Finset.sum_eq_single ⟨z, hz⟩]
    · simp
    · intro z' _ hne
      rw [if_neg]
      simp [part, coords, coord1, Fin.ext_iff] at hne ⊢
      exact hne
    · simp
    · intro t' _ hne
      refine Finset.sum_eq_zero fun z' _ => ?_
      rw [if_neg]
      simp [part, coords, coord1, Fin.ext_iff] at hne ⊢
      exact fun e => absurd e hne
    · simp
  have one : ∑ q : Fin g.nt × Fin g.nz, ageWt m g L false q.1 q.2 = 1 := by
    have := Even.all_mass E h (c := ⟨0, 0, 0, 0, 0⟩)
    rw [← this, Fintype.sum_prod_type]
    simp [sumTZ, part, coords]
  have hf : ∀ w, Param.freq sp' n w = Param.freq sp n w := fun w => by unfold Param.freq; rw [hdv]
  have key : ∀ k x y, x < g.nx → y < g.ny → Param.ybarOf g m sp S n n k x y = Param.ybarOf g m sp' S' n n k x y := fun k x y hx hy => by
    rw [Even.ybar E h hx hy, Even.ybar E h hx hy]
    simp only [hf]
    congr 1
    refine broadened_congr (fun j hj => ?_) k
    have : ∀ q : Fin g.nt × Fin g.nz, S' q.1 q.2 j = ∑ q : Fin g.nt × Fin g.nz, ageWt m g L false q.1 q.2 * S q.1 q.2 j := fun q => by
      rw [hmean q.1 q.1.2 q.2 q.2.2 j hj, Fintype.sum_prod_type]
      exact Finset.sum_congr rfl fun t _ => Finset.sum_congr rfl fun z _ => by rw [hw t t.2 z z.2]
    simp only [this]
    rw [← Finset.sum_mul, one, one_mul]
  obtain ⟨⟨y1, b1, c1, d1⟩, e2, e3, -⟩ := Param.evaluateYbar_is h hn hS
  obtain ⟨⟨y1', b1', c1', d1'⟩, e2', e3', -⟩ := Param.evaluateYbar_is h hn hS'
  obtain ⟨y2, b2, c2, d2⟩ := e2 rfl
  obtain ⟨y2', b2', c2', d2'⟩ := e2' rfl
  obtain ⟨y3, b3, c3, d3⟩ := e3 rfl
  obtain ⟨y3', b3', c3', d3'⟩ := e3' rfl
  simp only [List.mem_cons, List.not_mem_nil, or_false] at hb
  rcases hb with rfl | rfl | rfl
  · exact ⟨y1, y1', b1, b1', c1, c1', fun k hk x hx y hy => (d1 k hk x hx y hy).trans ((congrArg Num.fin (key k x y hx hy)).trans (d1' k hk x hx y hy).symm)⟩
  · exact ⟨y2, y2', b2, b2', c2, c2', fun k hk x hx y hy => (d2 k hk x hx y hy).trans ((congrArg Num.fin (key k x y hx hy)).trans (d2' k hk x hx y hy).symm)⟩
  · exact ⟨y3, y3', b3, b3', c3, c3', fun k hk x hx y hy => (d3 k hk x hx y hy).trans ((congrArg Num.fin (key k x y hx hy)).trans (d3' k hk x hx y hy).symm)⟩

end

/-! ### Histories -/

/-- The call gives every age the same, and every place the same depletion time. -/
def DiskCall.Alike : DiskCall → Prop
  | .setPt _ _ _ => True
  | .setPxt q rc alpha => q.1 = q.2 ∧ rc.1 = rc.2 ∧ alpha.1 = alpha.2
  | .setTDep _ _ tIn tOut _ _ => tIn = tOut
  | .setMuV q rmax vmax => q.1 = q.2 ∧ rmax.1 = rmax.2 ∧ vmax.1 = vmax.2
  | .setSigV q alpha sIn sOut => q.1 = q.2 ∧ alpha.1 = alpha.2 ∧ sIn.1 = sIn.2 ∧ sOut.1 = sOut.2

/-- The stored arrays do not depend on age, that of the metallicities not on position. -/
structure AgeFree (p : Param) (g : Grid) : Prop where
  space : ∀ A, p.logPxt = some A → ∀ t < g.nt, ∀ x < g.nx, ∀ y < g.ny, A.get [x, y, t] = A.get [x, y, 0]
  metal : ∀ A, p.logPztx = some A → ∀ t < g.nt, ∀ x < g.nx, ∀ y < g.ny, ∀ z < g.nz, A.get [z, t, x, y] = A.get [z, t, 0, 0]
  mean : ∀ A, p.muV = some A → ∀ t < g.nt, ∀ x < g.nx, ∀ y < g.ny, A.get [t, x, y] = A.get [0, x, y]
  disp : ∀ A, p.sigV = some A → ∀ t < g.nt, ∀ x < g.nx, ∀ y < g.ny, A.get [t, x, y] = A.get [0, x, y]

theorem AgeFree.init {p0 : Param} (k4 : ∀ f : Field, ∀ a ∈ f.get p0, a = none) : AgeFree p0 g := by
  have none_of : ∀ f : Field, ∀ a ∈ f.get p0, ∀ A, a ≠ some A := fun f a ha A e => by rw [k4 f a ha] at e; cases e
  exact ⟨fun A hA => absurd hA (none_of .space _ (by simp [Field.get]) A), fun A hA => absurd hA (none_of .metal _ (by simp [Field.get]) A),
    fun A hA => absurd hA (none_of .mean _ (by simp [Field.get]) A), fun A hA => absurd hA (none_of .disp _ (by simp [Field.get]) A)⟩

theorem AgeFree.setPt (hM : AgeFree p g) {lmd phi : ℝ} {q : ℝ × ℝ} {p' : Param} (hr : p.setPt lmd phi q = .ok p') : AgeFree p' g := by
  have hw := setPt_writes (p := p) (lmd := lmd) (phi := phi) (q := q) (p' := p') hr
  have f1 := hw.frame (f' := .space) (by decide)
  have f2 := hw.frame (f' := .metal) (by decide)
  have f3 := hw.frame (f' := .mean) (by decide)
  have f4 := hw.frame (f' := .disp) (by decide)
  simp only [Field.get, List.cons.injEq, and_true] at f1 f2 f3 f4
  exact ⟨by rw [f1]; exact hM.space, by rw [f2.2]; exact hM.metal, by rw [f3]; exact hM.mean, by rw [f4]; exact hM.disp⟩

/-- What an array of positions holds at another age. -/
theorem MArr.same_xyt {A : Arr Num} {f : Cell → Num} (h : MArr g (['x','y','t'].map some) A f) (hg : g.Proper)
    (hf : ∀ t x y, f ⟨t, 0, x, y, 0⟩ = f ⟨0, 0, x, y, 0⟩) : ∀ t < g.nt, ∀ x < g.nx, ∀ y < g.ny, A.get [x, y, t] = A.get [x, y, 0] :=
  fun t ht x hx y hy => Eq.trans (h.2 ⟨t, 0, x, y, 0⟩ ⟨ht, hg.nv, hx, hy, hg.nz⟩) ((hf t x y).trans (h.2 ⟨0, 0, x, y, 0⟩ ⟨hg.nt, hg.nv, hx, hy, hg.nz⟩).symm)

theorem MArr.same_txy {A : Arr Num} {f : Cell → Num} (h : MArr g (['t','x','y'].map some) A f) (hg : g.Proper)
    (hf : ∀ t x y, f ⟨t, 0, x, y, 0⟩ = f ⟨0, 0, x, y, 0⟩) : ∀ t < g.nt, ∀ x < g.nx, ∀ y < g.ny, A.get [t, x, y] = A.get [0, x, y] :=
  fun t ht x hx y hy => Eq.trans (h.2 ⟨t, 0, x, y, 0⟩ ⟨ht, hg.nv, hx, hy, hg.nz⟩) ((hf t x y).trans (h.2 ⟨0, 0, x, y, 0⟩ ⟨hg.nt, hg.nv, hx, hy, hg.nz⟩).symm)

theorem atAge_same {s e : ℝ} {a : ℝ × ℝ} (h : a.1 = a.2) (t : ℕ) : atAge g s e a t = a.1 := by
  have : a = (a.1, a.1) := Prod.ext rfl h.symm
  rw [this]
  exact atAge_const s e a.1 t

theorem AgeFree.disk (h : Sound p g f2 center rotation) (hM : AgeFree p g) (hg : g.Proper) (hx : ∃ c, g.Has c ∧ frameX g center rotation c ≠ 0)
    (k : DiskCall) (hv : k.Valid) (he : k.Alike) (ht : p.logPt ≠ none ∨ k.field = .age ∨ k.field = .metal) {p' : Param} (hr : k.run p = .ok p') : AgeFree p' g := by
  obtain ⟨m, -, hm⟩ := h.built.amax hg
  have hm0 : 0 < m := by
    obtain ⟨c, hc, hne⟩ := hx
    exact (abs_pos.2 hne).trans_le (hm.2 c hc)
  cases k with
  | setPt lmd phi q => exact hM.setPt hr
  | setPxt q rc alpha =>
    obtain ⟨s, e, ha⟩ := h.aged (by simpa [DiskCall.field] using ht)
    obtain ⟨v1, v2, v3⟩ := hv
    obtain ⟨A, k1, k2⟩ := disk_setPxt h.built hg ha v1 v2 v3
    obtain rfl : _ = p' := Except.ok.inj (k1.symm.trans hr)
    refine ⟨fun B hB => ?_, hM.metal, hM.mean, hM.disp⟩
    cases hB
    refine k2.same_xyt hg fun t x y => ?_
    have e0 : ∀ t x y, coredRho g center rotation s e q rc alpha ⟨t, 0, x, y, 0⟩ = coredRho g center rotation s e q rc alpha ⟨0, 0, x, y, 0⟩ := fun t x y => by
      unfold coredRho
      simp only [atAge_same he.1, atAge_same he.2.1, atAge_same he.2.2]
      rfl
    beta_reduce
    unfold pixTotal
    rw [e0 t]
    simp only [e0 t]
  | setTDep q alpha tIn tOut tMin tMax =>
    obtain ⟨v1, v2, v3, v4, v5, v6⟩ := hv
    obtain ⟨A, B, k1, k3, k2⟩ := disk_setTDep h.built hg v1 v2 v3 v4 v5 v6 hm hm0
    obtain rfl : _ = p' := Except.ok.inj (k1.symm.trans hr)
    refine ⟨hM.space, fun B' hB t ht' x hx y hy z hz => ?_, hM.mean, hM.disp⟩
    cases hB
    obtain rfl : tIn = tOut := he
    have hA : ∀ x < g.nx, ∀ y < g.ny, A.get [x, y] = .fin tIn := fun x hx y hy => by
      refine Eq.trans (k3.2 ⟨0, 0, x, y, 0⟩ ⟨hg.nt, hg.nv, hx, hy, hg.nz⟩) ?_
      beta_reduce
      simp [fade]
    refine Eq.trans (k2.2 ⟨t, 0, x, y, z⟩ ⟨ht', hg.nv, hx, hy, hz⟩) (Eq.trans ?_ (k2.2 ⟨t, 0, 0, 0, z⟩ ⟨ht', hg.nv, hg.nx, hg.ny, hz⟩).symm)
    beta_reduce
    dsimp only
    rw [hA x hx y hy, hA 0 hg.nx 0 hg.ny]
  | setMuV q rmax vmax =>
    obtain ⟨s, e, ha⟩ := h.aged (by simpa [DiskCall.field] using ht)
    obtain ⟨v1, v2, v3⟩ := hv
    obtain ⟨A, k1, k2⟩ := disk_setMuV h.built ha v1 v2 v3
    obtain rfl : _ = p' := Except.ok.inj (k1.symm.trans hr)
    refine ⟨hM.space, hM.metal, fun B hB => ?_, hM.disp⟩
    cases hB
    refine k2.same_txy hg fun t x y => ?_
    beta_reduce
    unfold diskMu
    simp only [atAge_same he.1, atAge_same he.2.1, atAge_same he.2.2]
    rfl
  | setSigV q alpha sIn sOut =>
    obtain ⟨s, e, ha⟩ := h.aged (by simpa [DiskCall.field] using ht)
    obtain ⟨v1, v2, v3, v4⟩ := hv
    obtain ⟨A, k1, k2⟩ := disk_setSigV h.built hg ha v1 v2 v3 v4 hm hm0
    obtain rfl : _ = p' := Except.ok.inj (k1.symm.trans hr)
    refine ⟨hM.space, hM.metal, hM.mean, fun B hB => ?_⟩
    cases hB
    refine k2.same_txy hg fun t x y => ?_
    beta_reduce
    unfold diskSig
    simp only [atAge_same he.1, atAge_same he.2.1, atAge_same he.2.2.1, atAge_same he.2.2.2]
    rfl

theorem AgeFree.calls (hg : g.Proper) (hx : ∃ c, g.Has c ∧ frameX g center rotation c ≠ 0) :
    ∀ (ks : List DiskCall) (p p' : Param), Sound p g f2 center rotation → AgeFree p g → (∀ k ∈ ks, k.Valid ∧ k.Alike) →
      runAll DiskCall.run p ks = .ok p' → Sound p' g f2 center rotation ∧ AgeFree p' g ∧ p'.cube = p.cube
  | [], p, p', h, hM, _, hr => by cases hr; exact ⟨h, hM, rfl⟩
  | k :: ks, p, p', h, hM, hv, hr => by
    obtain ⟨hk, he⟩ := hv k List.mem_cons_self
    by_cases ht : p.logPt ≠ none ∨ k.field = .age ∨ k.field = .metal
    · obtain ⟨p1, k1, k2⟩ := h.disk hg hx k hk ht
      have hr' : runAll DiskCall.run p1 ks = .ok p' := by
        have : (DiskCall.run p k >>= fun q => runAll DiskCall.run q ks) = .ok p' := hr
        rwa [k1] at this
      obtain ⟨a, b, c⟩ := AgeFree.calls hg hx ks p1 p' k2 (hM.disk h hg hx k hk he ht k1) (fun k' hk' => hv k' (List.mem_cons_of_mem _ hk')) hr'
      exact ⟨a, b, c.trans (disk_writes k1).cube⟩
    · push Not at ht
      have : (DiskCall.run p k >>= fun q => runAll DiskCall.run q ks) = .ok p' := hr
      rw [h.disk_early k hk ht.1 ht.2] at this
      cases this

theorem AgeFree.stream {s s1 : Stream} (h : SoundStream s g f2 center rotation) (hM : AgeFree s.base g) (hg : g.Proper) (c : StreamCall) (hv : c.Valid)
    (ht : s.base.logPxt ≠ none ∨ c.field ≠ .mean) (hr : c.run s = .ok s1) : AgeFree s1.base g := by
  cases c with
  | setPt lmd phi q =>
    obtain ⟨p1, j1, j2⟩ := bind_ok hr
    cases j2
    exact hM.setPt j1
  | setPxt theta muR sig n =>
    obtain ⟨v1, v2, v3, v4, v5⟩ := hv
    obtain ⟨A, k1, k2⟩ := stream_setPxt h.base.built hg (muR := muR) (le_min v1.1 v2.1) (max_le v1.2 v2.2) v3 v4 v5
    obtain rfl : _ = s1 := Except.ok.inj (k1.symm.trans hr)
    refine ⟨fun B hB => ?_, hM.metal, hM.mean, hM.disp⟩
    cases hB
    exact k2.same_xyt hg fun t x y => rfl
  | setTDep τ =>
    obtain ⟨B, k1, k2⟩ := stream_setTDep h.base.built hg τ
    obtain rfl : _ = s1 := Except.ok.inj (k1.symm.trans hr)
    refine ⟨hM.space, fun B' hB t ht x hx y hy z hz => ?_, hM.mean, hM.disp⟩
    cases hB
    exact Eq.trans (k2.2 ⟨t, 0, x, y, z⟩ ⟨ht, hg.nv, hx, hy, hz⟩) (k2.2 ⟨t, 0, 0, 0, z⟩ ⟨ht, hg.nv, hg.nx, hg.ny, hz⟩).symm
  | setMuV lims =>
    have h1 : s.base.logPxt ≠ none := by simpa [StreamCall.field] using ht
    obtain ⟨θ, e⟩ := Option.ne_none_iff_exists'.1 fun e => h1 (h.space.1 e)
    obtain ⟨A, k1, k2⟩ := stream_setMuV h.base.built (lims := lims) e (h.theta θ e)
    obtain rfl : _ = s1 := Except.ok.inj (k1.symm.trans hr)
    refine ⟨hM.space, hM.metal, fun B hB => ?_, hM.disp⟩
    cases hB
    exact k2.same_txy hg fun t x y => rfl
  | setSigV sigV =>
    obtain ⟨A, k1, k2⟩ := stream_setSigV h.base.built sigV
    obtain rfl : _ = s1 := Except.ok.inj (k1.symm.trans hr)
    refine ⟨hM.space, hM.metal, hM.mean, fun B hB => ?_⟩
    cases hB
    exact k2.same_txy hg fun t x y => rfl

theorem AgeFree.streamCalls (hg : g.Proper) : ∀ (ks : List StreamCall) (s s1 : Stream), SoundStream s g f2 center rotation → AgeFree s.base g → (∀ c ∈ ks, c.Valid) →
    runAll StreamCall.run s ks = .ok s1 → SoundStream s1 g f2 center rotation ∧ AgeFree s1.base g ∧ s1.base.cube = s.base.cube
  | [], s, s1, h, hM, _, hr => by cases hr; exact ⟨h, hM, rfl⟩
  | c :: ks, s, s1, h, hM, hv, hr => by
    have hc := hv c List.mem_cons_self
    obtain ⟨s2, k1, hr⟩ := bind_ok (show (StreamCall.run s c >>= fun q => runAll StreamCall.run q ks) = .ok s1 from hr)
    have ht : s.base.logPxt ≠ none ∨ c.field ≠ .mean := by
      by_contra hn
      exact early_mean h hn k1
    obtain ⟨s2'', k3, k2⟩ := h.step hg c hc ht
    obtain rfl : s2 = s2'' := Except.ok.inj (k1.symm.trans k3)
    obtain ⟨e2, e3, e4⟩ := AgeFree.streamCalls hg ks s2 s1 k2 (hM.stream h hg c hc ht k1) (fun c' hc' => hv c' (List.mem_cons_of_mem _ hc')) hr
    exact ⟨e2, e3, e4.trans (stream_writes k1).1.cube⟩

theorem AgeFree.even (hM : AgeFree p g) (h : ParamIs p g m L) (hx : ∀ t < g.nt, ∀ x < g.nx, ∀ y < g.ny, 0 < m.px t x y)
    (hz : ∀ t < g.nt, ∀ x < g.nx, ∀ y < g.ny, ∀ z < g.nz, 0 < m.pz t x y z) : m.Even g := by
  have hg := h.proper
  have hc : ∀ {t x y z}, t < g.nt → x < g.nx → y < g.ny → z < g.nz → g.Has ⟨t, 0, x, y, z⟩ := fun a b c d => ⟨a, hg.nv, b, c, d⟩
  obtain ⟨A, a1, -, a3⟩ := h.logPxt
  obtain ⟨B, b1, -, b3⟩ := h.logPztx
  obtain ⟨C, c1, -, c3⟩ := h.muV
  obtain ⟨D, d1, -, d3⟩ := h.sigV
  refine ⟨fun t ht x hx' y hy => ?_, fun t ht x hx' y hy z hz' => ?_, fun t ht x hx' y hy => ?_, fun t ht x hx' y hy => ?_⟩
  · have e := hM.space A a1 t ht x hx' y hy
    have e1 := a3 _ (hc ht hx' hy hg.nz)
    have e2 := a3 _ (hc hg.nt hx' hy hg.nz)
    simp only [coords, condStr, List.flatMap_append, List.flatMap_cons, List.flatMap_nil, coord1] at e1 e2
    exact lg_injective (hx t ht x hx' y hy) (hx 0 hg.nt x hx' y hy) (e1.symm.trans (e.trans e2))
  · have e := hM.metal B b1 t ht x hx' y hy z hz'
    have e1 := b3 _ (hc ht hx' hy hz')
    have e2 := b3 _ (hc ht hg.nx hg.ny hz')
    simp only [coords, condStr, List.flatMap_append, List.flatMap_cons, List.flatMap_nil, coord1] at e1 e2
    exact lg_injective (hz t ht x hx' y hy z hz') (hz t ht 0 hg.nx 0 hg.ny z hz') (e1.symm.trans (e.trans e2))
  · have e := hM.mean C c1 t ht x hx' y hy
    have e1 := c3 _ (hc ht hx' hy hg.nz)
    have e2 := c3 _ (hc hg.nt hx' hy hg.nz)
    simp only [coords, List.flatMap_cons, List.flatMap_nil, coord1] at e1 e2
    exact Num.fin.inj (e1.symm.trans (e.trans e2))
  · have e := hM.disp D d1 t ht x hx' y hy
    have e1 := d3 _ (hc ht hx' hy hg.nz)
    have e2 := d3 _ (hc hg.nt hx' hy hg.nz)
    simp only [coords, List.flatMap_cons, List.flatMap_nil, coord1] at e1 e2
    exact Num.fin.inj (e1.symm.trans (e.trans e2))

/-! ### C110 -/

/-- **C110, streams.** Any history of valid setter calls that makes a complete stream. -/
theorem C110_streams {cube : IFUCube} (hc : CubeIs cube g) (hg : g.Proper) (hl : IsArr g ['t','z'] cube.ssps.lightWeights (fun c => .fin (L c.t c.z)))
    (hL : ∀ t z, 0 < L t z) (ks : List StreamCall) (hv : ∀ k ∈ ks, k.Valid) (hall : ∀ f : Field, ∃ k ∈ ks, k.field = f) {s : Stream}
    (hp : makeStream 1 cube center rotation ks = .ok s) : NoGradients s.base g ∧ OneSpectrum s.base g := by
  obtain ⟨p0, k1, k2, k3, k4⟩ := init_sound hc hg 1 center rotation
  have hr : runAll StreamCall.run ⟨p0, none⟩ ks = .ok s := by
    unfold makeStream Stream.init at hp
    rwa [k1] at hp
  have n : p0.logPxt = none := k4 .space _ (by simp [Field.get])
  obtain ⟨e2, e3, e4⟩ := AgeFree.streamCalls (f2 := 1) (center := center) (rotation := rotation) hg ks ⟨p0, none⟩ s ⟨k3, by simp, by simp [n]⟩ (AgeFree.init k4) hv hr
  have hf : ∀ f : Field, none ∉ f.get s.base := fun f => by
    rw [(set_fields (base := fun s => s.base) (fun {s s' k} h => (stream_writes h).1) ks ⟨p0, none⟩ s hr (fun f => Or.inr (k4 f)) f).1]
    exact Or.inr (hall f)
  obtain ⟨m, i1, i2, i3⟩ := e2.base.paramIs hg (by rw [e4, k2]; exact hl) (fun t z => (hL t z).le) hf
  exact ⟨C110_even (e3.even i1 i2 i3) i1 e2.base.built.f2 (param_shines.2 (i1.shines (fun t _ z _ => hL t z) i2 i3)), C110_even_datacube (e3.even i1 i2 i3) i1⟩

/-- **C110, disks.** Any history of valid setter calls that makes a complete growing disk, all of them giving every age the same and the depletion time in the
centre the same as far out. -/
theorem C110_disks {cube : IFUCube} (hc : CubeIs cube g) (hg : g.Proper) (hl : IsArr g ['t','z'] cube.ssps.lightWeights (fun c => .fin (L c.t c.z)))
    (hL : ∀ t z, 0 < L t z) (hx : ∃ c, g.Has c ∧ frameX g center rotation c ≠ 0) (ks : List DiskCall) (hv : ∀ k ∈ ks, k.Valid) (he : ∀ k ∈ ks, k.Alike)
    (hall : ∀ f : Field, ∃ k ∈ ks, k.field = f) (hp : makeDisk 1 cube center rotation ks = .ok p) : NoGradients p g ∧ OneSpectrum p g := by
  obtain ⟨p0, k1, k2, k3, k4⟩ := init_sound hc hg 1 center rotation
  have hr : runAll DiskCall.run p0 ks = .ok p := by
    unfold makeDisk at hp
    rwa [k1] at hp
  obtain ⟨e2, e3, e4⟩ := AgeFree.calls hg hx ks p0 p k3 (AgeFree.init k4) (fun k hk => ⟨hv k hk, he k hk⟩) hr
  have hf : ∀ f : Field, none ∉ f.get p := fun f => by
    rw [(set_fields (base := fun p => p) (fun {s s' k} h => disk_writes h) ks p0 p hr (fun f => Or.inr (k4 f)) f).1]
    exact Or.inr (hall f)
  obtain ⟨m, i1, i2, i3⟩ := e2.paramIs hg (by rw [e4, k2]; exact hl) (fun t z => (hL t z).le) hf
  exact ⟨C110_even (e3.even i1 i2 i3) i1 e2.built.f2 (param_shines.2 (i1.shines (fun t _ z _ => hL t z) i2 i3)), C110_even_datacube (e3.even i1 i2 i3) i1⟩

/-! ### The hypotheses are met -/

/-- Ages and velocities of the stars of a stream do not vary together, although its mean velocity runs from -50 to 100 along the track. -/
example : ∃ (cube : IFUCube) (s : Stream) (C : Arr Num),
    makeStream 1 cube (0, 3 / 2) 0 [.setPt 15 0.5 (0.05, 0.95), .setPxt (0, 1) (1 / 2, 1) (1 / 4) 10, .setTDep 5, .setMuV (-50, 100), .setSigV 20] = .ok s ∧
    NoGradients s.base demoGrid ∧ OneSpectrum s.base demoGrid ∧ (obj s.base.self).getCovariance ['t','v'] true = .ok C ∧ C.get [] = .fin 0 := by
  obtain ⟨cube, -, hc, hs⟩ := demoCube_exists
  have hpi := Real.two_le_pi
  let ks : List StreamCall := [.setPt 15 0.5 (0.05, 0.95), .setPxt (0, 1) (1 / 2, 1) (1 / 4) 10, .setTDep 5, .setMuV (-50, 100), .setSigV 20]
  have hv : ∀ c ∈ ks, c.Valid := by
    intro c hc
    simp only [ks, List.mem_cons, List.not_mem_nil, or_false] at hc
    rcases hc with rfl | rfl | rfl | rfl | rfl
    · simp only [StreamCall.Valid, ValidSfh]; norm_num
    · refine ⟨⟨by linarith, by linarith⟩, ⟨?_, ?_⟩, by norm_num, by norm_num, by norm_num⟩
      · show -Real.pi ≤ 1; linarith
      · show 1 ≤ Real.pi; linarith
    · trivial
    · trivial
    · show (0:ℝ) < 20; norm_num
  obtain ⟨p0, k1, k2, k3, k4⟩ := init_sound hc demoGrid_proper 1 (0, 3 / 2) 0
  have n : p0.logPxt = none := k4 .space _ (by simp [Field.get])
  rcases stream_history demoGrid_proper ks ⟨p0, none⟩ ⟨k3, by simp, by simp [n]⟩ hv with ⟨s, j1, j2, j3⟩ | ⟨-, -, j⟩
  · have hp : makeStream 1 cube (0, 3 / 2) 0 ks = .ok s := by
      unfold makeStream Stream.init
      rw [k1]; exact j1
    obtain ⟨hN, hO⟩ := C110_streams (L := fun t _ => t + 1) hc demoGrid_proper
      (by rw [hs]; exact ⟨rfl, fun c _ => rfl⟩) (fun t _ => by positivity) ks hv (fun f => by cases f <;> simp [ks, StreamCall.field]) hp
    obtain ⟨C, c1, c2⟩ := hN.covariance true [] 't' 'v' (by decide) (.inl ⟨rfl, by decide⟩)
    exact ⟨cube, s, C, hp, hN, hO, c1, c2 ⟨0, 0, 0, 0, 0⟩ (by simp [Grid.Has, demoGrid, cubeGrid]) (.inl rfl) 't' (by decide) 'v' (by decide)⟩
  · exfalso
    obtain ⟨pre, k, post, j1, j2, j3⟩ := j
    match pre, j1, j2 with
    | [], j1, _ => simp only [List.nil_append, ks, List.cons.injEq] at j1; rw [← j1.1] at j3; cases j3
    | [_], j1, _ => simp only [List.cons_append, List.nil_append, ks, List.cons.injEq] at j1; rw [← j1.2.1] at j3; cases j3
    | k1 :: k2 :: pre, j1, j2 =>
      simp only [List.cons_append, ks, List.cons.injEq] at j1
      exact j2 k2 (by simp) (by rw [← j1.2.1]; rfl)

/-- A disk without gradients. -/
def evenCalls : List DiskCall :=
  [.setPt 15 0.5 (0.05, 0.95), .setPxt (0.5, 0.5) (0.1, 0.1) (2, 2), .setTDep 0.1 1.5 3 3 0.1 13, .setMuV (0.5, 0.5) (1, 1) (250, 250), .setSigV (1, 1) (1, 1) (20, 20) (10, 10)]

/-- The mean velocity of its stars is the same whatever their age. -/
example : ∃ (cube : IFUCube) (p : Param), makeDisk 1 cube (0, 3 / 2) 0 evenCalls = .ok p ∧ NoGradients p demoGrid ∧ OneSpectrum p demoGrid ∧
    ∃ M M', getMean p.self ['v','_','t','x'] true = .ok M ∧ getMean p.self ['v','_','x'] true = .ok M' ∧
      ∀ c, demoGrid.Has c → Populated p true ['t','x'] c → ∃ u : ℝ, M.get [c.t, c.x, c.y] = .fin u ∧ M'.get [c.x, c.y] = .fin u := by
  obtain ⟨cube, -, hc, hs⟩ := demoCube_exists
  have hv : ∀ k ∈ evenCalls, k.Valid := by
    intro k hk
    simp only [evenCalls, List.mem_cons, List.not_mem_nil, or_false] at hk
    rcases hk with rfl | rfl | rfl | rfl | rfl <;> norm_num [DiskCall.Valid, ValidSfh]
  have he : ∀ k ∈ evenCalls, k.Alike := by
    intro k hk
    simp only [evenCalls, List.mem_cons, List.not_mem_nil, or_false] at hk
    rcases hk with rfl | rfl | rfl | rfl | rfl <;> simp [DiskCall.Alike]
  have off : ∃ c, demoGrid.Has c ∧ frameX demoGrid (0, 3 / 2) 0 c ≠ 0 :=
    ⟨⟨0, 0, 0, 0, 0⟩, by simp [Grid.Has, demoGrid, cubeGrid], by simp [frameX, centre, demoGrid, cubeGrid, evenEdges]; norm_num⟩
  obtain ⟨p0, k1, k2, k3, k4⟩ := init_sound hc demoGrid_proper 1 (0, 3 / 2) 0
  rcases disk_history demoGrid_proper off evenCalls p0 k3 hv with ⟨p, j1, j2, j3⟩ | ⟨-, -, j⟩
  · have hp : makeDisk 1 cube (0, 3 / 2) 0 evenCalls = .ok p := by
      unfold makeDisk
      rw [k1]; exact j1
    obtain ⟨hN, hO⟩ := C110_disks (L := fun t _ => t + 1) hc demoGrid_proper
      (by rw [hs]; exact ⟨rfl, fun c _ => rfl⟩) (fun t _ => by positivity) off evenCalls hv he (fun f => by cases f <;> simp [evenCalls, DiskCall.field]) hp
    obtain ⟨M, M', _, _, m1, m2, -, -, m3⟩ := hN.moments true ['v','x'] (by decide) 'v' (by decide) ['t','x'] (.inr (by decide +kernel)) 2
    refine ⟨cube, p, hp, hN, hO, M, M', m1, m2, fun c hc hP => ?_⟩
    obtain ⟨u, w, e1, e2, -⟩ := m3 c hc hP 'v' (by decide)
    exact ⟨u, e1, e2⟩
  · exfalso
    obtain ⟨pre, k, post, j1, j2, j3⟩ := j
    cases pre with
    | nil => simp only [List.nil_append, evenCalls, List.cons.injEq] at j1; rw [← j1.1] at j3; exact j3.1 rfl
    | cons k' pre =>
      simp only [List.cons_append, evenCalls, List.cons.injEq] at j1
      exact j2 k' List.mem_cons_self (by rw [← j1.1]; rfl)

end PKM
