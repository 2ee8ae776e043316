import Verif.Component
import Verif.CubeLemmas

/-! Lemmas: from the marginals of a component to its conditionals. -/

open scoped Classical

noncomputable section

namespace PKM
open Np Component

/-- The 50 pairs, listed. -/
theorem conditionals_eq : conditionals = [
  (['t'],['v']), (['t'],['x']), (['t'],['z']), (['t'],['v','x']), (['t'],['v','z']),
  (['t'],['x','z']), (['t'],['v','x','z']),
  (['v'],['t']), (['v'],['x']), (['v'],['z']), (['v'],['t','x']), (['v'],['t','z']),
  (['v'],['x','z']), (['v'],['t','x','z']),
  (['x'],['t']), (['x'],['v']), (['x'],['z']), (['x'],['t','v']), (['x'],['t','z']),
  (['x'],['v','z']), (['x'],['t','v','z']),
  (['z'],['t']), (['z'],['v']), (['z'],['x']), (['z'],['t','v']), (['z'],['t','x']),
  (['z'],['v','x']), (['z'],['t','v','x']),
  (['t','v'],['x']), (['t','v'],['z']), (['t','v'],['x','z']),
  (['t','x'],['v']), (['t','x'],['z']), (['t','x'],['v','z']),
  (['t','z'],['v']), (['t','z'],['x']), (['t','z'],['v','x']),
  (['v','x'],['t']), (['v','x'],['z']), (['v','x'],['t','z']),
  (['v','z'],['t']), (['v','z'],['x']), (['v','z'],['t','x']),
  (['x','z'],['t']), (['x','z'],['v']), (['x','z'],['t','v']),
  (['t','v','x'],['z']), (['t','v','z'],['x']), (['t','x','z'],['v']), (['v','x','z'],['t'])] := by
  decide +kernel

deriving instance DecidableEq for Except

/-- For each pair, the axis order used by `moveaxis`, evaluated. -/
def condOrder (p : PyStr × PyStr) : Py (List ℕ) :=
  moveOrder (PyStr.replaceX (unionStr p.1 p.2)).length
    (oldPos (PyStr.replaceX (PyStr.sorted (p.1 ++ p.2))) (PyStr.replaceX p.2))
    (newPos (PyStr.replaceX p.2).length)

/-- The order that lists the axes of the dependent variables, then those of the conditioners. -/
def condOrderSpec (p : PyStr × PyStr) : List ℕ :=
  (PyStr.replaceX p.1 ++ PyStr.replaceX p.2).map
    (fun ch => (PyStr.replaceX (unionStr p.1 p.2)).idxOf ch)

theorem condOrder_eq : ∀ p ∈ conditionals, condOrder p = .ok (condOrderSpec p) := by
  decide +kernel


/-- Axis length for one axis letter (`x`,`y` are the two position axes). -/
def sizeL (g : Grid) (ch : Char) : ℕ :=
  if ch = 't' then g.nt else if ch = 'v' then g.nv else if ch = 'x' then g.nx
  else if ch = 'y' then g.ny else g.nz

/-- Coordinate of a cell for one axis letter. -/
def coordL (c : Cell) (ch : Char) : ℕ :=
  if ch = 't' then c.t else if ch = 'v' then c.v else if ch = 'x' then c.x
  else if ch = 'y' then c.y else c.z

theorem shapeOf_letters (g : Grid) {w : PyStr} (h : DistChars w) :
    g.shapeOf w = (PyStr.replaceX w).map (sizeL g) := by
  induction w with
  | nil => rfl
  | cons a w ih =>
    have ih' := ih (fun ch hc => h ch (by simp [hc]))
    have ha := h a (by simp)
    have : g.shapeOf (a :: w) = g.shape1 a ++ g.shapeOf w := by simp [Grid.shapeOf]
    rw [this, ih']
    fin_cases ha <;> simp [PyStr.replaceX, sizeL, Grid.shape1]

theorem coords_letters (c : Cell) {w : PyStr} (h : DistChars w) :
    coords w c = (PyStr.replaceX w).map (coordL c) := by
  induction w with
  | nil => rfl
  | cons a w ih =>
    have ih' := ih (fun ch hc => h ch (by simp [hc]))
    have ha := h a (by simp)
    have : coords (a :: w) c = coord1 c a ++ coords w c := by simp [coords]
    rw [this, ih']
    fin_cases ha <;> simp [PyStr.replaceX, coordL, coord1]

theorem getD_map_idxOf {β : Type} (U : List Char) (f : Char → β) (d : β) {ch : Char} (h : ch ∈ U) :
    (U.map f).getD (U.idxOf ch) d = f ch := by
  have hl : U.idxOf ch < U.length := List.idxOf_lt_length_of_mem h
  simp [List.getD, hl]

theorem idxOf_map_idxOf {U W : List Char} (hWU : ∀ ch ∈ W, ch ∈ U) {ch : Char}
    (hU : ch ∈ U) : (W.map U.idxOf).idxOf (U.idxOf ch) = W.idxOf ch := by
  induction W with
  | nil => rfl
  | cons a W ih =>
    have ih' := ih (fun c hc => hWU c (by simp [hc]))
    simp only [List.map_cons, List.idxOf_cons]
    have hinj : U.idxOf a = U.idxOf ch ↔ a = ch := by
      constructor
      · intro h
        exact (List.idxOf_inj (hWU a (by simp))).1 h
      · rintro rfl; rfl
    by_cases hac : a = ch
    · simp [hac]
    · have : ¬ U.idxOf a = U.idxOf ch := fun h => hac (hinj.1 h)
      have e1 : (U.idxOf a == U.idxOf ch) = false := by simpa using this
      have e2 : (a == ch) = false := by simpa using hac
      rw [e1, e2, ih']

/-- Transposing an array representing `u` by the order of the letters of a permutation `W`. -/
theorem transpose_letters {α : Type} (U W : List Char) (hU : U.Nodup) (hWU : ∀ ch ∈ W, ch ∈ U)
    (hUW : ∀ ch ∈ U, ch ∈ W) (A : Arr α) (size : Char → ℕ) (hs : A.shape = U.map size)
    (co : Char → ℕ) :
    (transpose (W.map U.idxOf) A).shape = W.map size ∧
    (transpose (W.map U.idxOf) A).get (W.map co) = A.get (U.map co) := by
  constructor
  · simp only [transpose, List.map_map, hs]
    apply List.map_congr_left
    intro ch hch
    exact getD_map_idxOf U size 0 (hWU ch hch)
  · simp only [transpose, hs]
    congr 1
    apply List.ext_getElem
    · simp
    · intro m h1 h2
      simp only [List.length_map, List.length_range] at h1 h2
      simp only [List.getElem_map, List.getElem_range]
      have hm : U.idxOf U[m] = m := hU.idxOf_getElem m h1
      have hmem : U[m] ∈ U := List.getElem_mem h1
      have := idxOf_map_idxOf hWU hmem
      rw [hm] at this
      rw [this]
      exact getD_map_idxOf W co 0 (hUW _ hmem)

theorem conditionals_letters : ∀ p ∈ conditionals,
    (PyStr.replaceX (unionStr p.1 p.2)).Nodup ∧
    (∀ ch ∈ PyStr.replaceX p.1 ++ PyStr.replaceX p.2, ch ∈ PyStr.replaceX (unionStr p.1 p.2)) ∧
    (∀ ch ∈ PyStr.replaceX (unionStr p.1 p.2), ch ∈ PyStr.replaceX p.1 ++ PyStr.replaceX p.2) ∧
    (∀ ch ∈ p.1, ch ∈ ['t','v','x','z']) ∧ (∀ ch ∈ p.2, ch ∈ ['t','v','x','z']) ∧
    (∀ ch ∈ unionStr p.1 p.2, ch ∈ ['t','v','x','z']) ∧
    PyStr.sorted (p.1 ++ p.2) = unionStr p.1 p.2 ∧ p.1 ∈ marginals ∧ p.2 ∈ marginals ∧
    unionStr p.1 p.2 ∈ marginals := by
  decide +kernel

theorem moveaxis_cond (g : Grid) (p : PyStr × PyStr) (hp : p ∈ conditionals) (A : Arr Num)
    (f : Cell → Num) (hA : IsArr g (unionStr p.1 p.2) A f) :
    Gives (moveaxis (oldPos (PyStr.replaceX (PyStr.sorted (p.1 ++ p.2))) (PyStr.replaceX p.2))
      (newPos (PyStr.replaceX p.2).length) A) g (condStr p.1 p.2) f := by
  obtain ⟨h1, h2, h3, h4, h5, h6, -⟩ := conditionals_letters p hp
  have ho := condOrder_eq p hp
  have hs : A.shape = (PyStr.replaceX (unionStr p.1 p.2)).map (sizeL g) := by
    rw [hA.1, shapeOf_letters g h6]
  have hl : A.shape.length = (PyStr.replaceX (unionStr p.1 p.2)).length := by rw [hs]; simp
  refine ⟨transpose (condOrderSpec p) A, ?_, ?_, ?_⟩
  · have : moveOrder A.shape.length
      (oldPos (PyStr.replaceX (PyStr.sorted (p.1 ++ p.2))) (PyStr.replaceX p.2))
      (newPos (PyStr.replaceX p.2).length) = .ok (condOrderSpec p) := by rw [hl]; exact ho
    simp [moveaxis, this]
  · rw [shapeOf_condStr, shapeOf_letters g h4, shapeOf_letters g h5, ← List.map_append]
    exact (transpose_letters _ _ h1 h2 h3 A (sizeL g) hs (fun _ => 0)).1
  · intro c hc
    rw [coords_condStr, coords_letters c h4, coords_letters c h5, ← List.map_append]
    have := (transpose_letters _ _ h1 h2 h3 A (sizeL g) hs (coordL c)).2
    refine this.trans ?_
    rw [← coords_letters c h6]
    exact hA.2 c hc

/-! ### Conditionals from marginals -/

/-- Divisor applied when a density is requested. -/
def dvol (g : Grid) (density : Bool) (w : PyStr) (c : Cell) : ℝ := if density then g.volOf w c else 1

/-- Interface contract of a component: all 15 marginals, with or without light weights (`lw`), are the
tables `Mrg w` (per unit volume if a density is requested). `Mrg` of a set of variables vanishes
wherever `Mrg` of a subset does. -/
structure Contract (s : Self) (g : Grid) (lw : Bool) (Mrg : PyStr → Cell → ℝ) : Prop where
  proper : g.Proper
  cube : CubeIs s.cube g
  nonneg : ∀ w c, w ∈ marginals → g.Has c → 0 ≤ Mrg w c
  marg : ∀ density w, w ∈ marginals → Gives (getLogMarginal s w density lw) g w
    (fun c => Num.lg (Mrg w c / dvol g density w c))
  absCont : ∀ p c, p ∈ conditionals → g.Has c → Mrg p.2 c = 0 → Mrg (unionStr p.1 p.2) c = 0

/-- Conditional of two tables. -/
def condTable (j m d : ℝ) : Num := if m = 0 then .nan else .fin (j / m / d)

theorem condTable_exp {j m d : ℝ} (hj : 0 ≤ j) (hm : 0 ≤ m) (hd : 0 < d) (hac : m = 0 → j = 0) :
    Num.exp (Num.lg j - Num.lg m - Num.lg d) = condTable j m d := by
  unfold condTable
  split
  · next h => rw [hac h, h]; simp
  · next h =>
    have hm' : 0 < m := lt_of_le_of_ne hm (Ne.symm h)
    rw [Num.lg_sub hj hm', Num.lg_sub (by positivity) hd, Num.exp_lg (by positivity)]

theorem condTable_exp' {j m : ℝ} (hj : 0 ≤ j) (hm : 0 ≤ m) (hac : m = 0 → j = 0) :
    Num.exp (Num.lg j - Num.lg m) = condTable j m 1 := by
  have := condTable_exp hj hm one_pos hac
  rw [← this, Num.lg_pos one_pos]
  generalize Num.lg j - Num.lg m = q
  cases q <;> simp <;> rfl

theorem width1_pos {g : Grid} (hg : g.Proper) {c : Cell} (hc : g.Has c) (ch : Char) :
    0 < g.width1 c ch := by
  obtain ⟨h1, h2, h3, h4, h5⟩ := hc
  have a1 := hg.t _ h1; have a2 := hg.v _ h2; have a3 := hg.x _ h3; have a4 := hg.y _ h4
  have a5 := hg.z _ h5
  unfold Grid.width1 width
  split_ifs <;> first | exact mul_pos (by linarith) (by linarith) | linarith

theorem volOf_pos {g : Grid} (hg : g.Proper) {c : Cell} (hc : g.Has c) (w : PyStr) :
    0 < g.volOf w c := by
  unfold Grid.volOf
  induction w with
  | nil => simp
  | cons a w ih => simpa using mul_pos (width1_pos hg hc a) ih

theorem dvol_pos {g : Grid} (hg : g.Proper) {c : Cell} (hc : g.Has c) (density : Bool) (w : PyStr) :
    0 < dvol g density w c := by
  unfold dvol; split
  · exact volOf_pos hg hc w
  · exact one_pos

/-- BArr of a trailing operand: an array representing `b` broadcasts against `a_b`. -/
theorem barr_trailing {g : Grid} {a b : PyStr} {B : Arr Num} {f : Cell → Num} (h : IsArr g b B f) :
    BArr g (condStr a b) B f := by
  constructor
  · rw [h.1, shapeOf_condStr, List.reverse_append]
    have := bshapeR_append (s := (g.shapeOf b).reverse) (t := (g.shapeOf b).reverse)
      (s' := []) (t' := (g.shapeOf a).reverse) rfl (bshapeR_self _) (bshapeR_nil_left _)
    simpa using this
  · intro c hc
    have hb := inBox_coords hc b
    have : bproj B.shape (coords (condStr a b) c) = coords b c := by
      unfold bproj
      rw [h.1, coords_condStr, List.reverse_append]
      have e : ∀ (l m n : List ℕ), l.length = m.length →
          List.zipWith bidx l (m ++ n) = List.zipWith bidx l m := by
        intro l m n hl
        have := List.zipWith_append (f := bidx) (l₁ := l) (l₁' := []) (l₂ := m) (l₂' := n) hl
        simpa using this
      rw [e _ _ _ (by simp [inBox_length hb]), ← List.reverse_zipWith (inBox_length hb).symm,
        List.reverse_reverse, zipWith_bidx_self hb]
    rw [this, h.2 c hc]

theorem condFromJoint_gen {s : Self} {g : Grid} {lw : Bool} (hg : g.Proper) (hcube : CubeIs s.cube g)
    (density : Bool) (p : PyStr × PyStr) (hp : p ∈ conditionals) {fJ fM : Cell → Num}
    (hJ : Gives (getLogMarginal s (unionStr p.1 p.2) false lw) g (unionStr p.1 p.2) fJ)
    (hM : Gives (getLogMarginal s p.2 false lw) g p.2 fM) :
    Gives (condFromJoint s (condStr p.1 p.2) p.1 p.2 density lw) g (condStr p.1 p.2)
      (fun c => if density then fJ c - fM c - Num.lg (g.volOf p.1 c) else fJ c - fM c) := by
  obtain ⟨-, -, -, h4, h5, h6, h7, h8, h9, h10⟩ := conditionals_letters p hp
  obtain ⟨J, hJ, hJ'⟩ := hJ
  obtain ⟨M, hM, hM'⟩ := hM
  obtain ⟨J2, hJ2, hJ2'⟩ := moveaxis_cond g p hp J _ hJ'
  obtain ⟨C, hC, hC'⟩ := hJ2'.bop (· - ·) (barr_trailing (a := p.1) hM')
  rw [h7] at hJ2
  have e1 : condFromJoint s (condStr p.1 p.2) p.1 p.2 density lw = (if density = true then do
      let dvol ← s.cube.constructVolumeElement (condStr p.1 p.2)
      sub C (map Num.log dvol) else .ok C) := by
    simp only [condFromJoint, h7, hJ, hM, Py.ok_bind, hJ2, sub, hC]
  rw [e1]
  cases density with
  | false =>
    refine ⟨C, rfl, hC'.congr ?_⟩
    intro c _; simp
  | true =>
    obtain ⟨d, hd, hd'⟩ := volumeElement_cond hcube hg.nx hg.ny (a := p.1) (b := p.2) h4 h5
    obtain ⟨R, hR, hR'⟩ := hC'.bop (· - ·) (hd'.map Num.log)
    refine ⟨R, by simp [hd, sub, hR], hR'.congr ?_⟩
    intro c _; simp [Num.log_fin]

theorem condFromJoint_gives {s : Self} {g : Grid} {lw : Bool} {Mrg : PyStr → Cell → ℝ}
    (h : Contract s g lw Mrg) (density : Bool) (p : PyStr × PyStr) (hp : p ∈ conditionals) :
    Gives (condFromJoint s (condStr p.1 p.2) p.1 p.2 density lw) g (condStr p.1 p.2)
      (fun c => if density then
          Num.lg (Mrg (unionStr p.1 p.2) c) - Num.lg (Mrg p.2 c) - Num.lg (g.volOf p.1 c)
        else Num.lg (Mrg (unionStr p.1 p.2) c) - Num.lg (Mrg p.2 c)) := by
  obtain ⟨-, -, -, h4, h5, h6, h7, h8, h9, h10⟩ := conditionals_letters p hp
  refine (condFromJoint_gen h.proper h.cube density p hp (h.marg false _ h10)
    (h.marg false _ h9)).congr (fun c _ => ?_)
  simp [dvol]

theorem hasUnderscore_condStr (a b : PyStr) : '_' ∈ condStr a b := by simp [condStr]

/-- All 50 conditionals of a component without hard-coded conditional methods. -/
theorem getP_cond_of_contract {s : Self} {g : Grid} {lw : Bool} {Mrg : PyStr → Cell → ℝ}
    (h : Contract s g lw Mrg) (density : Bool) (p : PyStr × PyStr) (hp : p ∈ conditionals)
    (hn : s.logP (condStr p.1 p.2) = none) :
    Gives (getP s (condStr p.1 p.2) density lw) g (condStr p.1 p.2)
      (fun c => condTable (Mrg (unionStr p.1 p.2) c) (Mrg p.2 c) (dvol g density p.1 c)) := by
  obtain ⟨-, -, -, h4, h5, h6, h7, h8, h9, h10⟩ := conditionals_letters p hp
  obtain ⟨C, hC, hC'⟩ := condFromJoint_gives h density p hp
  have hs := split_condStr (a := p.1) (b := p.2) (DistChars.noUnderscore h4) (DistChars.noUnderscore h5)
  refine ⟨map Num.exp C, ?_, (hC'.map Num.exp).congr ?_⟩
  · simp [getP, getLogP, getLogConditional, hasUnderscore_condStr, hs, getLogMarginal, hn, hC]
  · intro c hc
    have hj := h.nonneg _ c h10 hc
    have hm := h.nonneg _ c h9 hc
    cases density with
    | false => simpa [dvol] using condTable_exp' hj hm (h.absCont p c hp hc)
    | true => simpa [dvol] using condTable_exp hj hm (volOf_pos h.proper hc _) (h.absCont p c hp hc)

/-- All 15 marginals. -/
theorem getP_marg_of_contract {s : Self} {g : Grid} {lw : Bool} {Mrg : PyStr → Cell → ℝ}
    (h : Contract s g lw Mrg) (density : Bool) (w : PyStr) (hw : w ∈ marginals) :
    Gives (getP s w density lw) g w (fun c => .fin (Mrg w c / dvol g density w c)) := by
  obtain ⟨A, hA, hA'⟩ := h.marg density w hw
  have hu : '_' ∉ w := by
    have : ∀ w ∈ marginals, '_' ∉ w := by decide +kernel
    exact this w hw
  refine ⟨map Num.exp A, by simp [getP, getLogP, hu, hA], (hA'.map Num.exp).congr ?_⟩
  intro c hc
  exact Num.exp_lg (div_nonneg (h.nonneg w c hw hc) (dvol_pos h.proper hc _ _).le)

end PKM
