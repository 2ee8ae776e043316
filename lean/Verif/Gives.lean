import Verif.Cube
import Verif.Spec

/-!
# Relating arrays of the model to the specification

`Gives m g w f`: the API call `m` succeeds and returns an array with one axis per variable of `w`
(two for `x`), of the right lengths, whose entry at the coordinates of every cell `c` is `f c`.
`CubeIs c g`: the cube object `c` represents the grid `g`.
-/

open scoped Classical

noncomputable section

namespace PKM
open Np

/-- Array `a` represents the function `f` of the variables `w`. -/
def IsArr (g : Grid) (w : PyStr) (a : Arr Num) (f : Cell → Num) : Prop :=
  a.shape = g.shapeOf w ∧ ∀ c, g.Has c → a.get (coords w c) = f c

/-- The call `m` returns an array representing the function `f` of the variables `w`. -/
def Gives (m : Py (Arr Num)) (g : Grid) (w : PyStr) (f : Cell → Num) : Prop :=
  ∃ a, m = .ok a ∧ IsArr g w a f

/-- Array `a` broadcasts to an array representing the function `f` of `w`. -/
def BArr (g : Grid) (w : PyStr) (a : Arr Num) (f : Cell → Num) : Prop :=
  bshapeR a.shape.reverse (g.shapeOf w).reverse = some (g.shapeOf w).reverse ∧
  ∀ c, g.Has c → a.get (bproj a.shape (coords w c)) = f c

/-- One-dimensional array of finite numbers. -/
structure Is1 (a : Arr Num) (n : ℕ) (f : ℕ → ℝ) : Prop where
  shape : a.shape = [n]
  get : ∀ i, i < n → a.get [i] = .fin (f i)

/-- The cube object represents the grid: this is what `IFUCube(ssps, ...)` establishes
(proved in `Verif/Props/Cube.lean`). -/
structure CubeIs (c : IFUCube) (g : Grid) : Prop where
  tEdges : Is1 c.ssps.tEdges (g.nt + 1) g.t
  zEdges : Is1 c.ssps.zEdges (g.nz + 1) g.z
  tCents : Is1 c.ssps.tCents g.nt (centre g.t)
  zCents : Is1 c.ssps.zCents g.nz (centre g.z)
  deltaT : Is1 c.ssps.deltaT g.nt (width g.t)
  deltaZ : Is1 c.ssps.deltaZ g.nz (width g.z)
  vEdg : Is1 c.vEdg (g.nv + 1) g.v
  x : Is1 c.x g.nx (centre g.x)
  y : Is1 c.y g.ny (centre g.y)
  dx : ∀ i, i < g.nx → c.dx = .fin (width g.x i)
  dy : ∀ i, i < g.ny → c.dy = .fin (width g.y i)
  nx : c.nx = g.nx
  ny : c.ny = g.ny

/-! ### Basic facts -/

theorem bshapeR_self (s : List ℕ) : bshapeR s s = some s := by
  induction s with
  | nil => simp
  | cons n s ih => simp [bshapeR, ih]

theorem inBox_length : ∀ {s i : List ℕ}, InBox s i → i.length = s.length
  | [], [], _ => rfl
  | _ :: _, _ :: _, h => by simp [inBox_length h.2]

theorem zipWith_bidx_self : ∀ {s i : List ℕ}, InBox s i → List.zipWith bidx s i = i
  | [], [], _ => rfl
  | n :: s, j :: i, h => by simp [zipWith_bidx_self h.2, bidx_lt h.1]

theorem bproj_self {s i : List ℕ} (h : InBox s i) : bproj s i = i := by
  unfold bproj
  rw [← List.reverse_zipWith (inBox_length h).symm, List.reverse_reverse, zipWith_bidx_self h]

theorem inBox_append : ∀ {s i : List ℕ} {s' i' : List ℕ}, InBox s i → InBox s' i' →
    InBox (s ++ s') (i ++ i')
  | [], [], _, _, _, h => h
  | _ :: _, _ :: _, _, _, h, h' => ⟨h.1, inBox_append h.2 h'⟩

theorem inBox_coord1 {g : Grid} {c : Cell} (h : g.Has c) (ch : Char) :
    InBox (g.shape1 ch) (coord1 c ch) := by
  obtain ⟨h1, h2, h3, h4, h5⟩ := h
  unfold Grid.shape1 coord1
  split_ifs <;> simp [InBox, *]

theorem inBox_coords {g : Grid} {c : Cell} (h : g.Has c) (w : PyStr) :
    InBox (g.shapeOf w) (coords w c) := by
  induction w with
  | nil => exact trivial
  | cons ch w ih => exact inBox_append (inBox_coord1 h ch) ih

theorem IsArr.barr {g : Grid} {w : PyStr} {a : Arr Num} {f : Cell → Num} (h : IsArr g w a f) :
    BArr g w a f := by
  refine ⟨by rw [h.1, bshapeR_self], fun c hc => ?_⟩
  rw [h.1, bproj_self (inBox_coords hc w), h.2 c hc]

theorem IsArr.bop {g : Grid} {w : PyStr} {a b : Arr Num} {f h : Cell → Num}
    (op : Num → Num → Num) (ha : IsArr g w a f) (hb : BArr g w b h) :
    Gives (Np.bop op a b) g w (fun c => op (f c) (h c)) := by
  have key : bshapeR a.shape.reverse b.shape.reverse = some (g.shapeOf w).reverse := by
    rw [ha.1]; rw [← hb.1]
    generalize b.shape.reverse = l1
    have h1 := hb.1
    clear hb ha
    -- broadcasting is symmetric
    have sym : ∀ l1 l2, bshapeR l1 l2 = bshapeR l2 l1 := by
      intro l1
      induction l1 with
      | nil => intro l2; simp
      | cons x xs ih =>
        intro l2
        cases l2 with
        | nil => simp
        | cons y ys =>
          have hd : bdim x y = bdim y x := by
            unfold bdim; split_ifs <;> simp_all
          simp only [bshapeR, hd, ih ys]
    exact sym _ _
  refine ⟨⟨g.shapeOf w, fun i => op (a.get (bproj a.shape i)) (b.get (bproj b.shape i))⟩,
    ?_, rfl, ?_⟩
  · simp [Np.bop, key]
  · intro c hc
    simp only
    rw [ha.barr.2 c hc, hb.2 c hc]

/-- An in-place operation has the entries of the operation that makes a new array. -/
theorem iop_of_bop {α β : Type} {f : α → β → α} {a r : Arr α} {b : Arr β} (h : Np.bop f a b = .ok r) (hs : r.shape = a.shape) :
    ∃ r', Np.iop f a b = .ok r' ∧ r'.shape = a.shape ∧ ∀ i, InBox a.shape i → r'.get i = r.get i := by
  refine ⟨⟨a.shape, fun i => f (a.get i) (b.get (bproj b.shape i))⟩, by simp [Np.iop, h, hs], rfl, fun i hi => ?_⟩
  unfold Np.bop at h
  split at h
  · cases h
    show f (a.get i) _ = f (a.get (bproj a.shape i)) _
    rw [bproj_self hi]
  · cases h

theorem IsArr.iop {g : Grid} {w : PyStr} {a b : Arr Num} {f h : Cell → Num}
    (op : Num → Num → Num) (ha : IsArr g w a f) (hb : BArr g w b h) :
    Gives (Np.iop op a b) g w (fun c => op (f c) (h c)) := by
  obtain ⟨r, hr, hr'⟩ := ha.bop op hb
  obtain ⟨r', k1, k2, k3⟩ := iop_of_bop hr (hr'.1.trans ha.1.symm)
  exact ⟨r', k1, k2.trans ha.1, fun c hc => (k3 _ (ha.1 ▸ inBox_coords hc w)).trans (hr'.2 c hc)⟩

theorem IsArr.bop' {g : Grid} {w : PyStr} {a b : Arr Num} {f h : Cell → Num}
    (op : Num → Num → Num) (ha : BArr g w a f) (hb : IsArr g w b h) :
    Gives (Np.bop op a b) g w (fun c => op (f c) (h c)) := by
  refine ⟨⟨g.shapeOf w, fun i => op (a.get (bproj a.shape i)) (b.get (bproj b.shape i))⟩,
    ?_, rfl, ?_⟩
  · have : bshapeR a.shape.reverse b.shape.reverse = some (g.shapeOf w).reverse := by
      rw [hb.1, ha.1]
    simp [Np.bop, this]
  · intro c hc
    simp only
    rw [ha.2 c hc, hb.barr.2 c hc]

theorem IsArr.map {g : Grid} {w : PyStr} {a : Arr Num} {f : Cell → Num} (k : Num → Num)
    (h : IsArr g w a f) : IsArr g w (Np.map k a) (fun c => k (f c)) :=
  ⟨h.1, fun c hc => by simp [Np.map, h.2 c hc]⟩

theorem BArr.map {g : Grid} {w : PyStr} {a : Arr Num} {f : Cell → Num} (k : Num → Num)
    (h : BArr g w a f) : BArr g w (Np.map k a) (fun c => k (f c)) :=
  ⟨h.1, fun c hc => by simp [Np.map, h.2 c hc]⟩

theorem IsArr.congr {g : Grid} {w : PyStr} {a : Arr Num} {f f' : Cell → Num}
    (h : IsArr g w a f) (hf : ∀ c, g.Has c → f c = f' c) : IsArr g w a f' :=
  ⟨h.1, fun c hc => (h.2 c hc).trans (hf c hc)⟩

theorem Gives.congr {m : Py (Arr Num)} {g : Grid} {w : PyStr} {f f' : Cell → Num}
    (h : Gives m g w f) (hf : ∀ c, g.Has c → f c = f' c) : Gives m g w f' := by
  obtain ⟨a, h1, h2⟩ := h
  exact ⟨a, h1, h2.congr hf⟩

/-- Quantifying over cells of the grid is quantifying over five bounded indices. -/
theorem forall_cell {g : Grid} {P : Cell → Prop} :
    (∀ c, g.Has c → P c) ↔
    ∀ (t : Fin g.nt) (v : Fin g.nv) (x : Fin g.nx) (y : Fin g.ny) (z : Fin g.nz),
      P ⟨t, v, x, y, z⟩ := by
  constructor
  · intro h t v x y z; exact h _ ⟨t.2, v.2, x.2, y.2, z.2⟩
  · rintro h ⟨t, v, x, y, z⟩ ⟨h1, h2, h3, h4, h5⟩
    exact h ⟨t, h1⟩ ⟨v, h2⟩ ⟨x, h3⟩ ⟨y, h4⟩ ⟨z, h5⟩

end PKM
