import Verif.Num
import Mathlib.Data.List.Sort

/-!
# The part of numpy / scipy.special used by popkinmocks

Arrays of every rank and size, with numpy's broadcasting, axis handling and error cases.
Every definition is a model of the library function named in its comment, as it is called from
the cited lines of /repo.  Simplification: reductions over an axis of length 0 return the neutral
element (scipy raises); no array of a constructed cube has such an axis.
-/

open scoped Classical

noncomputable section

namespace PKM

/-- Python exception classes raised (or caught) in /repo/popkinmocks. -/
inductive PyErr
  | valueError | attributeError | assertionError | indexError | typeError
  | notImplementedError | unboundLocalError | fileNotFoundError | keyError
  | zeroDivisionError | fileExistsError | isADirectoryError | notADirectoryError
  deriving DecidableEq

/-- Result of a Python call: a value or an exception. -/
abbrev Py := Except PyErr

/-- A numpy array: shape and element access (only indices inside the shape are meaningful). -/
structure Arr (α : Type) where
  shape : List ℕ
  get : List ℕ → α

namespace Np

/-! ### Broadcasting -/

/-- numpy broadcasting of two axis lengths. -/
def bdim (a b : ℕ) : Option ℕ :=
  if a = b then some a else if a = 1 then some b else if b = 1 then some a else none

@[simp] theorem bdim_self (a : ℕ) : bdim a a = some a := by simp [bdim]
@[simp] theorem bdim_one_left (a : ℕ) : bdim 1 a = some a := by unfold bdim; split <;> simp_all
@[simp] theorem bdim_one_right (a : ℕ) : bdim a 1 = some a := by unfold bdim; split <;> simp_all

/-- Broadcast shape of two *reversed* shapes (numpy aligns trailing axes). -/
def bshapeR : List ℕ → List ℕ → Option (List ℕ)
  | [], ys => some ys
  | xs, [] => some xs
  | x :: xs, y :: ys => match bdim x y, bshapeR xs ys with
    | some d, some r => some (d :: r)
    | _, _ => none

@[simp] theorem bshapeR_nil_left (s : List ℕ) : bshapeR [] s = some s := by
  cases s <;> simp [bshapeR]
@[simp] theorem bshapeR_nil_right (s : List ℕ) : bshapeR s [] = some s := by
  cases s <;> simp [bshapeR]

/-- Index used on an axis of length `n` of an operand (length-1 axes are repeated). -/
def bidx (n i : ℕ) : ℕ := if n = 1 then 0 else i

@[simp] theorem bidx_fin {n : ℕ} (i : Fin n) : bidx n i = i := by unfold bidx; split <;> omega
@[simp] theorem bidx_one (i : ℕ) : bidx 1 i = 0 := by simp [bidx]
@[simp] theorem bidx_zero (n : ℕ) : bidx n 0 = 0 := by simp [bidx]
theorem bidx_lt {n i : ℕ} (h : i < n) : bidx n i = i := by unfold bidx; split <;> omega

/-- Project an index of the broadcast result to an operand of shape `shape`. -/
def bproj (shape idx : List ℕ) : List ℕ :=
  (List.zipWith bidx shape.reverse idx.reverse).reverse

/-- numpy element-wise binary operation; `ValueError` if shapes cannot be broadcast
("operands could not be broadcast together"). -/
def bop {α β γ : Type} (f : α → β → γ) (a : Arr α) (b : Arr β) : Py (Arr γ) :=
  match bshapeR a.shape.reverse b.shape.reverse with
  | some s => .ok ⟨s.reverse, fun i => f (a.get (bproj a.shape i)) (b.get (bproj b.shape i))⟩
  | none => .error .valueError

/-- `a + b` on arrays. -/
def add (a b : Arr Num) : Py (Arr Num) := bop (· + ·) a b
/-- `a - b` on arrays. -/
def sub (a b : Arr Num) : Py (Arr Num) := bop (· - ·) a b
/-- `a * b` on arrays. -/
def mul (a b : Arr Num) : Py (Arr Num) := bop (· * ·) a b
/-- `a / b` on arrays. -/
def div (a b : Arr Num) : Py (Arr Num) := bop (· / ·) a b

/-- In-place `a += b`, `a -= b`: as `bop`, but the result must have the shape of `a`
("non-broadcastable output operand" is a `ValueError`). -/
def iop {α β : Type} (f : α → β → α) (a : Arr α) (b : Arr β) : Py (Arr α) := do
  let r ← bop f a b
  if r.shape = a.shape then .ok ⟨a.shape, fun i => f (a.get i) (b.get (bproj b.shape i))⟩ else .error .valueError

/-- `a += b`. -/
def iadd (a b : Arr Num) : Py (Arr Num) := iop (· + ·) a b
/-- `a -= b`. -/
def isub (a b : Arr Num) : Py (Arr Num) := iop (· - ·) a b

/-- Element-wise function (`np.exp(a)`, `np.log(a)`, `a ** 0.5`, ...). -/
def map {α β : Type} (f : α → β) (a : Arr α) : Arr β := ⟨a.shape, fun i => f (a.get i)⟩

/-- A Python/numpy scalar as a 0-dimensional array. -/
def scalar {α : Type} (x : α) : Arr α := ⟨[], fun _ => x⟩

/-- `np.full(shape, x)`, `np.ones`, `np.zeros`. -/
def full {α : Type} (s : List ℕ) (x : α) : Arr α := ⟨s, fun _ => x⟩

/-- One-dimensional array with given entries. -/
def vec {α : Type} (n : ℕ) (f : ℕ → α) : Arr α := ⟨[n], fun i => f (i.headD 0)⟩

/-- `a.T`. -/
def T {α : Type} (a : Arr α) : Arr α := ⟨a.shape.reverse, fun i => a.get i.reverse⟩

/-! ### Axes -/

/-- `normalize_axis_index`: negative axes count from the end; out of range raises `AxisError`
(a subclass of `ValueError`). -/
def normAxis (ndim : ℕ) (ax : ℤ) : Py ℕ :=
  let k := if ax < 0 then ax + ndim else ax
  if 0 ≤ k ∧ k < ndim then .ok k.toNat else .error .valueError

/-- `np.sum(a, k)` over one (already normalised) axis. -/
def sumAxis1 {α : Type} [AddCommMonoid α] (k : ℕ) (a : Arr α) : Arr α :=
  ⟨a.shape.eraseIdx k, fun i => ∑ j : Fin (a.shape.getD k 0), a.get (i.insertIdx k j)⟩

/-- `np.sum(a, axes)`; repeated axes raise `ValueError`.  Axes are removed from the highest. -/
def sum {α : Type} [AddCommMonoid α] (axes : List ℤ) (a : Arr α) : Py (Arr α) := do
  let ks ← axes.mapM (normAxis a.shape.length)
  if ks.Nodup then
    .ok ((ks.insertionSort (· ≥ ·)).foldl (fun a k => sumAxis1 k a) a)
  else .error .valueError

/-- `np.sum(a)` over all axes (recursion over the shape). -/
def sumShape {α : Type} [AddCommMonoid α] : List ℕ → (List ℕ → α) → α
  | [], f => f []
  | n :: s, f => ∑ j : Fin n, sumShape s (fun i => f (j :: i))

/-- `np.sum(a)`. -/
def sumAll {α : Type} [AddCommMonoid α] (a : Arr α) : Arr α := scalar (sumShape a.shape a.get)

/-- `scipy.special.logsumexp(a, axes)`: mathematical value `log(sum(exp(a)))`
(scipy shifts by the maximum to avoid overflow, which exact arithmetic does not need). -/
def logsumexp (axes : List ℤ) (a : Arr Num) : Py (Arr Num) := do
  let s ← sum axes (map Num.exp a)
  .ok (map Num.log s)

/-- `scipy.special.logsumexp(a)` over all axes. -/
def logsumexpAll (a : Arr Num) : Arr Num := map Num.log (sumAll (map Num.exp a))

/-- `scipy.special.logsumexp(a, axes, b=b)` = `log(sum(b * exp(a)))`. -/
def logsumexpB (axes : List ℤ) (b : Arr Num) (a : Arr Num) : Py (Arr Num) := do
  let e ← mul b (map Num.exp a)
  let s ← sum axes e
  .ok (map Num.log s)

/-- `np.transpose(a, order)`. -/
def transpose {α : Type} (order : List ℕ) (a : Arr α) : Arr α :=
  ⟨order.map (fun k => a.shape.getD k 0),
   fun i => a.get ((List.range a.shape.length).map (fun m => i.getD (order.idxOf m) 0))⟩

/-- Insert the (destination, source) pairs, sorted by destination, into `order`
(numpy `moveaxis`: `for dest, src in sorted(zip(destination, source)): order.insert(dest, src)`). -/
def insertAxes (order : List ℕ) (ps : List (ℕ × ℕ)) : List ℕ :=
  (ps.insertionSort (fun p q => p.1 < q.1 ∨ (p.1 = q.1 ∧ p.2 ≤ q.2))).foldl
    (fun o p => o.insertIdx p.1 p.2) order

/-- Axis order computed by `np.moveaxis` for an array with `ndim` axes, with numpy's error cases. -/
def moveOrder (ndim : ℕ) (src dst : List ℤ) : Py (List ℕ) := do
  let s ← src.mapM (normAxis ndim)
  if s.Nodup then
    let d ← dst.mapM (normAxis ndim)
    if d.Nodup then
      if s.length = d.length then
        .ok (insertAxes ((List.range ndim).filter (fun n => n ∉ s)) (d.zip s))
      else .error .valueError
    else .error .valueError
  else .error .valueError

/-- `np.moveaxis(a, source, destination)`. -/
def moveaxis {α : Type} (src dst : List ℤ) (a : Arr α) : Py (Arr α) := do
  let order ← moveOrder a.shape.length src dst
  .ok (transpose order a)

/-! ### Indexing -/

/-- One entry of a basic index expression. -/
inductive Ix
  | na                         -- np.newaxis
  | all                        -- `:` or `slice(0, None)`
  | sl (start : ℤ) (stop : Option ℤ)  -- `start:stop`
  | at (i : ℤ)                 -- an integer

/-- Normalised start of a slice on an axis of length `n`. -/
def slStart (n : ℕ) (a : ℤ) : ℕ := if a < 0 then (a + n).toNat else min a.toNat n
/-- Normalised stop of a slice on an axis of length `n`. -/
def slStop (n : ℕ) : Option ℤ → ℕ
  | none => n
  | some b => slStart n b
/-- Length of a slice. -/
def slLen (n : ℕ) (a : ℤ) (b : Option ℤ) : ℕ := slStop n b - slStart n a

/-- Shape of `a[ix]`; `IndexError` for out-of-range integers or too many indices. -/
def ixShape : List Ix → List ℕ → Py (List ℕ)
  | [], s => .ok s
  | .na :: r, s => do let t ← ixShape r s; .ok (1 :: t)
  | .all :: r, n :: s => do let t ← ixShape r s; .ok (n :: t)
  | .sl a b :: r, n :: s => do let t ← ixShape r s; .ok (slLen n a b :: t)
  | .at i :: r, n :: s =>
      let k := if i < 0 then i + n else i
      if 0 ≤ k ∧ k < n then ixShape r s else .error .indexError
  | _ :: _, [] => .error .indexError

/-- Index of the source array read by entry `i` of `a[ix]`. -/
def ixIdx : List Ix → List ℕ → List ℕ → List ℕ
  | [], _, i => i
  | .na :: r, s, _ :: i => ixIdx r s i
  | .all :: r, _ :: s, j :: i => j :: ixIdx r s i
  | .sl a _ :: r, n :: s, j :: i => (slStart n a + j) :: ixIdx r s i
  | .at k :: r, n :: s, i => (if k < 0 then k + n else k).toNat :: ixIdx r s i
  | _, _, _ => []

/-- `a[ix]` (basic indexing). -/
def getitem {α : Type} (ix : List Ix) (a : Arr α) : Py (Arr α) := do
  let s ← ixShape ix a.shape
  .ok ⟨s, fun i => a.get (ixIdx ix a.shape i)⟩

/-! ### Joining -/

/-- `np.concatenate((a, b))` along axis 0; remaining axes must agree. -/
def concat0 {α : Type} (a b : Arr α) : Py (Arr α) :=
  match a.shape, b.shape with
  | n :: s, m :: t => if s = t then
      .ok ⟨(n + m) :: s, fun i => if i.headD 0 < n then a.get i else b.get ((i.headD 0 - n) :: i.tail)⟩
      else .error .valueError
  | _, _ => .error .valueError

/-- `np.array([a_0, ..., a_{k-1}])` of equally shaped arrays: new first axis
(ragged input raises `ValueError`). -/
def stack {α : Type} [Inhabited α] (as : List (Arr α)) : Py (Arr α) :=
  match as with
  | [] => .ok ⟨[0], fun _ => default⟩
  | a :: r => if ∀ b ∈ r, b.shape = a.shape then
      .ok ⟨(r.length + 1) :: a.shape, fun i => ((a :: r).getD (i.headD 0) a).get i.tail⟩
      else .error .valueError

/-- `np.cumsum(a, axis=0)`. -/
def cumsum0 {α : Type} [AddCommMonoid α] (a : Arr α) : Arr α :=
  ⟨a.shape, fun i => ∑ j ∈ Finset.range (i.headD 0 + 1), a.get (j :: i.tail)⟩

/-- `np.broadcast_to(a, shape)`. -/
def broadcastTo {α : Type} (s : List ℕ) (a : Arr α) : Py (Arr α) :=
  match bshapeR a.shape.reverse s.reverse with
  | some t => if t = s.reverse then .ok ⟨s, fun i => a.get (bproj a.shape i)⟩ else .error .valueError
  | none => .error .valueError

/-! ### Row-major reshape -/

/-- Row-major (C order) position of an index. -/
def ravel : List ℕ → List ℕ → ℕ
  | _ :: s, i :: r => i * s.prod + ravel s r
  | _, _ => 0

/-- Inverse of `ravel`. -/
def unravel : List ℕ → ℕ → List ℕ
  | [], _ => []
  | _ :: s, k => (k / s.prod) :: unravel s (k % s.prod)

/-- `np.reshape(a, s)` for a fully specified shape. -/
def reshape {α : Type} (s : List ℕ) (a : Arr α) : Py (Arr α) :=
  if s.prod = a.shape.prod then .ok ⟨s, fun i => a.get (unravel a.shape (ravel s i))⟩
  else .error .valueError

end Np

/-! ### Reading off results -/

/-- The indices inside a shape. -/
def InBox : List ℕ → List ℕ → Prop
  | [], [] => True
  | n :: s, i :: r => i < n ∧ InBox s r
  | _, _ => False

/-- `Yields m s f`: the call `m` returns (no exception) an array of shape `s` whose entry at every
index inside the shape is `f` of the index. -/
def Yields {α : Type} (m : Py (Arr α)) (s : List ℕ) (f : List ℕ → α) : Prop :=
  ∃ a, m = .ok a ∧ a.shape = s ∧ ∀ i, InBox s i → a.get i = f i

@[simp] theorem forall_inBox_nil {P : List ℕ → Prop} : (∀ i, InBox [] i → P i) ↔ P [] := by
  constructor
  · intro h; exact h [] trivial
  · intro h i hi; cases i with
    | nil => exact h
    | cons a b => exact hi.elim

@[simp] theorem forall_inBox_cons {n : ℕ} {s : List ℕ} {P : List ℕ → Prop} :
    (∀ i, InBox (n :: s) i → P i) ↔ ∀ j : Fin n, ∀ i, InBox s i → P ((j : ℕ) :: i) := by
  constructor
  · intro h j i hi; exact h _ ⟨j.2, hi⟩
  · intro h i hi
    cases i with
    | nil => exact hi.elim
    | cons a b => exact h ⟨a, hi.1⟩ b hi.2

theorem Yields.of_eq {α : Type} {m : Py (Arr α)} {s : List ℕ} {f : List ℕ → α} (a : Arr α)
    (h : m = .ok a) (hs : a.shape = s) (hf : ∀ i, InBox s i → a.get i = f i) : Yields m s f :=
  ⟨a, h, hs, hf⟩

theorem Yields.congr {α : Type} {m : Py (Arr α)} {s : List ℕ} {f g : List ℕ → α}
    (h : Yields m s f) (hfg : ∀ i, InBox s i → f i = g i) : Yields m s g := by
  obtain ⟨a, h1, h2, h3⟩ := h
  exact ⟨a, h1, h2, fun i hi => (h3 i hi).trans (hfg i hi)⟩

@[simp] theorem Py.ok_bind {α β : Type} (a : α) (f : α → Py β) :
    ((Except.ok a : Py α) >>= f) = f a := rfl
@[simp] theorem Py.error_bind {α β : Type} (e : PyErr) (f : α → Py β) :
    ((Except.error e : Py α) >>= f) = Except.error e := rfl
@[simp] theorem Py.pure_eq {α : Type} (a : α) : (pure a : Py α) = Except.ok a := rfl

end PKM
