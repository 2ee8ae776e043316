import Verif.ModelGrid
import Verif.Gives

/-!
# What a `modelGrid` is supposed to be
-/

open scoped Classical

noncomputable section

namespace PKM
open Np

/-- Edges of the axes. -/
def EdgesAre (es : List (Arr Num)) (ps : List (ℕ × (ℕ → ℝ))) : Prop := List.Forall₂ (fun e p => Is1 e (p.1 + 1) p.2) es ps

/-- Point of the parameter space at the centre of a cell. -/
def cellPoint (ps : List (ℕ × (ℕ → ℝ))) (c : List ℕ) (a : ℕ) : ℝ := centre (ps.getD a (0, fun _ => 0)).2 (c.getD a 0)

/-- What a mask function is supposed to be: it looks at each point by itself. `m x`: leave out the point with coordinates `x`. -/
def MaskIs (d : ℕ) (f : MaskFn) (m : (ℕ → Num) → Bool) : Prop :=
  (∀ x y : ℕ → Num, (∀ a < d, x a = y a) → m x = m y) ∧
  ∀ (A : Arr Num) (s : List ℕ), A.shape = d :: s → ∃ B, f A = .ok B ∧ B.shape = s ∧ ∀ i, InBox s i → B.get i = m (fun a => A.get (a :: i))

/-- The points left out by an optional mask. -/
def leftOut (m : Option ((ℕ → Num) → Bool)) (x : ℕ → ℝ) : Bool := match m with
  | none => false
  | some m => m (fun a => .fin (x a))

/-- An optional mask function. -/
def OptMaskIs (d : ℕ) : Option MaskFn → Option ((ℕ → Num) → Bool) → Prop
  | none, none => True
  | some f, some m => MaskIs d f m
  | _, _ => False

/-- What `_get_par_grid` is supposed to compute: the columns are the cells that are not left out, in row-major order. -/
structure ParGridIs (G : ParGrid) (ps : List (ℕ × (ℕ → ℝ))) (m : Option ((ℕ → Num) → Bool)) (cells : List (List ℕ)) : Prop where
  edges : List.Forall₂ (fun e p => Is1 e (p.1 + 1) p.2) G.edges ps
  widths : List.Forall₂ (fun e p => Is1 e p.1 (width p.2)) G.widths ps
  cents : List.Forall₂ (fun e p => Is1 e p.1 (centre p.2)) G.cents ps
  sorted : cells.Pairwise (· < ·)
  mem : ∀ c, c ∈ cells ↔ InBox (ps.map Prod.fst) c ∧ leftOut m (cellPoint ps c) = false
  parsShape : G.pars.shape = [ps.length, cells.length]
  pars : ∀ a < ps.length, ∀ k (hk : k < cells.length), G.pars.get [a, k] = .fin (cellPoint ps cells[k] a)
  idxShape : G.idx.shape = [ps.length, cells.length]
  idx : ∀ a < ps.length, ∀ k (hk : k < cells.length), G.idx.get [a, k] = cells[k].getD a 0
  maskShape : G.maskNd.shape = ps.map Prod.fst
  mask : ∀ c, InBox (ps.map Prod.fst) c → G.maskNd.get c = leftOut m (cellPoint ps c)

end PKM
