import Verif.Np

/-!
# Memory

The other modules treat arrays as values. Here arrays live in memory: a name refers to an array object, assignment and attribute
access copy the reference, slices and transposes are views into the same buffer, and `a += b` writes to the buffer of `a`.
Functions that use in-place updates are modelled a second time on top of this module, and shown to compute the same values.
-/

open scoped Classical

noncomputable section

namespace PKM
open Np

/-- The memory: buffers `0, ..., next - 1` are allocated; `drawn` numbers have been taken from the global random generator. -/
structure Heap where
  next : ℕ
  mem : ℕ → Arr Num
  drawn : ℕ

/-- A numpy array object: a whole buffer, or a view with its own shape and the buffer index of each of its entries. -/
structure Ptr where
  buf : ℕ
  view : Option (List ℕ × (List ℕ → List ℕ))

/-- The contents of an array object. -/
def Heap.val (h : Heap) (o : Ptr) : Arr Num :=
  match o.view with
  | none => h.mem o.buf
  | some (s, f) => ⟨s, fun i => (h.mem o.buf).get (f i)⟩

/-- The object exists. -/
def Heap.Has (h : Heap) (o : Ptr) : Prop := o.buf < h.next

/-- A Python call that may use memory: a result or an exception, and the new memory. -/
def H (α : Type) := Heap → Py α × Heap

namespace H

instance : Monad H where
  pure a := fun h => (.ok a, h)
  bind m k := fun h => match m h with
    | (.ok a, h') => k a h'
    | (.error e, h') => (.error e, h')

/-- `raise`. -/
def throw {α : Type} (e : PyErr) : H α := fun h => (.error e, h)

/-- A computation without effect on memory. -/
def lift {α : Type} (p : Py α) : H α := fun h => (p, h)

/-- `try: m  except (AttributeError, NotImplementedError): k`. -/
def tryExcept {α : Type} (m k : H α) : H α := fun h => match m h with
  | (.error .attributeError, h') => k h'
  | (.error .notImplementedError, h') => k h'
  | r => r

/-- The contents of an object. -/
def read (o : Ptr) : H (Arr Num) := fun h => (.ok (h.val o), h)

/-- A new array object. -/
def alloc (a : Arr Num) : H Ptr := fun h =>
  (.ok ⟨h.next, none⟩, { h with next := h.next + 1, mem := Function.update h.mem h.next a })

/-- A numpy function that returns a new array. -/
def new (p : Py (Arr Num)) : H Ptr := do alloc (← lift p)

/-- Write the contents `a` to an object; through a view only the entries of the view are changed. (Indices outside the shape of
the buffer have no entry in Python; what the model keeps there is fixed by the last two lines, and never matters.) -/
def write (o : Ptr) (a : Arr Num) : H Unit := fun h =>
  (.ok (), { h with mem := Function.update h.mem o.buf (match o.view with
    | none => a
    | some (s, f) => ⟨(h.mem o.buf).shape, fun p =>
        if hp : ∃ i, InBox s i ∧ f i = p then a.get hp.choose
        else if InBox (h.mem o.buf).shape p then (h.mem o.buf).get p
        else if hp : ∃ i, f i = p then a.get hp.choose
        else (h.mem o.buf).get p⟩) })

/-- `o += b`, `o -= b`. -/
def iop (f : Num → Num → Num) (o : Ptr) (b : Arr Num) : H Unit := do
  let a ← read o
  let r ← lift (Np.iop f a b)
  write o r

/-- `a[ix]` with basic indexing: a view. -/
def getitem (ix : List Ix) (o : Ptr) : H Ptr := do
  let a ← read o
  let s ← lift (ixShape ix a.shape)
  pure ⟨o.buf, some (s, fun i =>
    let j := ixIdx ix a.shape i
    match o.view with
    | none => j
    | some (_, f) => f j)⟩

/-- `a.T`: a view. -/
def T (o : Ptr) : H Ptr := do
  let a ← read o
  pure ⟨o.buf, some (a.shape.reverse, fun i => match o.view with
    | none => i.reverse
    | some (_, f) => f i.reverse)⟩

/-- `np.moveaxis(a, source, destination)`: a view. -/
def moveaxis (src dst : List ℤ) (o : Ptr) : H Ptr := do
  let a ← read o
  let order ← lift (moveOrder a.shape.length src dst)
  pure ⟨o.buf, some (order.map (fun k => a.shape.getD k 0), fun i =>
    let j := (List.range a.shape.length).map (fun m => i.getD (order.idxOf m) 0)
    match o.view with
    | none => j
    | some (_, f) => f j)⟩

end H

/-! ### Reasoning -/

/-- `h'` comes after `h`, and the buffers below `n` are unchanged. -/
structure Heap.Keeps (n : ℕ) (h h' : Heap) : Prop where
  next : h.next ≤ h'.next
  mem : ∀ b < n, h'.mem b = h.mem b

theorem Heap.Keeps.refl (n : ℕ) (h : Heap) : Heap.Keeps n h h := ⟨le_rfl, fun _ _ => rfl⟩

theorem Heap.Keeps.trans {n : ℕ} {h h' h'' : Heap} (a : Heap.Keeps n h h') (b : Heap.Keeps n h' h'') : Heap.Keeps n h h'' :=
  ⟨a.next.trans b.next, fun k hk => (b.mem k hk).trans (a.mem k hk)⟩

theorem Heap.Keeps.mono {n m : ℕ} {h h' : Heap} (a : Heap.Keeps n h h') (hm : m ≤ n) : Heap.Keeps m h h' :=
  ⟨a.next, fun k hk => a.mem k (hk.trans_le hm)⟩

theorem Heap.Keeps.val {n : ℕ} {h h' : Heap} (a : Heap.Keeps n h h') {o : Ptr} (ho : o.buf < n) : h'.val o = h.val o := by
  unfold Heap.val
  rw [a.mem _ ho]

/-- The call `m`, made in memory `h`, leaves the buffers below `n` as they are and has the outcome of the memoryless call `p`;
results are related by `R`. -/
def Run {α β : Type} (n : ℕ) (h : Heap) (m : H α) (p : Py β) (R : Heap → α → β → Prop) : Prop :=
  Heap.Keeps n h (m h).2 ∧ match (m h).1, p with
    | .ok a, .ok b => R (m h).2 a b
    | .error e, .error e' => e = e'
    | _, _ => False

section
variable {α β γ δ : Type} {n : ℕ} {h : Heap}

theorem Run.mono {m : H α} {p : Py β} {R R' : Heap → α → β → Prop} (hr : Run n h m p R) {k : ℕ} (hk : k ≤ n)
    (hR : ∀ h' a b, Heap.Keeps n h h' → R h' a b → R' h' a b) : Run k h m p R' := by
  obtain ⟨h1, h2⟩ := hr
  refine ⟨h1.mono hk, ?_⟩
  revert h2
  generalize hm : m h = r at *
  obtain ⟨r, h'⟩ := r
  cases r <;> cases p <;> simp
  exact hR _ _ _ h1

theorem Run.bind {m : H α} {p : Py β} {R : Heap → α → β → Prop} {k : α → H γ} {q : β → Py δ} {R' : Heap → γ → δ → Prop}
    (h1 : Run n h m p R) (h2 : ∀ h' a b, p = .ok b → Heap.Keeps n h h' → R h' a b → Run n h' (k a) (q b) R') :
    Run n h (m >>= k) (p >>= q) R' := by
  obtain ⟨h1, h3⟩ := h1
  have e : (m >>= k) h = match m h with
    | (.ok a, h') => k a h'
    | (.error e, h') => (.error e, h') := rfl
  unfold Run
  rw [e]
  revert h1 h3
  generalize m h = r
  obtain ⟨r, h'⟩ := r
  intro h1 h3
  cases r with
  | error e => cases p with
    | error e' => exact ⟨h1, h3⟩
    | ok b => exact h3.elim
  | ok a => cases p with
    | error e' => exact h3.elim
    | ok b =>
      obtain ⟨h4, h5⟩ := h2 h' a b rfl h1 h3
      exact ⟨h1.trans h4, h5⟩

theorem Run.pure {a : α} {b : β} {R : Heap → α → β → Prop} (hR : R h a b) : Run n h (pure a) (pure b) R :=
  ⟨.refl _ _, hR⟩

theorem Run.ok {a : α} {b : β} {R : Heap → α → β → Prop} (hR : R h a b) : Run n h (Pure.pure a) (.ok b) R :=
  ⟨.refl _ _, hR⟩

theorem Run.throw {e : PyErr} {R : Heap → α → β → Prop} : Run n h (H.throw e) (.error e) R := ⟨.refl _ _, rfl⟩

theorem Run.lift {p : Py α} {R : Heap → α → α → Prop} (hR : ∀ a, p = .ok a → R h a a) : Run n h (H.lift p) p R := by
  refine ⟨.refl _ _, ?_⟩
  cases p with
  | ok a => exact hR a rfl
  | error e => rfl

/-- The result is an object with the contents computed by the memoryless call. -/
def Points (h : Heap) (o : Ptr) (a : Arr Num) : Prop := h.Has o ∧ h.val o = a

/-- The result is a new array, not shared with anything older than `n`. -/
def Fresh (n : ℕ) (h : Heap) (o : Ptr) (a : Arr Num) : Prop := n ≤ o.buf ∧ o.view = none ∧ Points h o a

theorem Points.keep {h' : Heap} {o : Ptr} {a : Arr Num} (hp : Points h o a) (hk : Heap.Keeps n h h') (hn : o.buf < n) :
    Points h' o a :=
  ⟨lt_of_lt_of_le hp.1 hk.next, (hk.val hn).trans hp.2⟩

theorem Run.read {o : Ptr} {a : Arr Num} (ho : Points h o a) :
    Run n h (H.read o) (.ok a) (fun h' x y => h' = h ∧ x = a ∧ y = a) :=
  ⟨.refl _ _, rfl, ho.2, rfl⟩

theorem Run.alloc (a : Arr Num) (hn : n ≤ h.next) :
    Run n h (H.alloc a) (.ok a) (fun h' o b => b = a ∧ o.buf = h.next ∧ Heap.Keeps h.next h h' ∧ Fresh h.next h' o a ∧ h'.drawn = h.drawn) := by
  have k : Heap.Keeps h.next h (H.alloc a h).2 := ⟨Nat.le_succ _, fun b hb => by simp [H.alloc, hb.ne]⟩
  refine ⟨k.mono hn, rfl, rfl, k, ⟨le_rfl, rfl, Nat.lt_succ_self _, ?_⟩, rfl⟩
  simp [H.alloc, Heap.val]

/-- A numpy function that returns a new array: nothing older is changed. -/
theorem Run.new (p : Py (Arr Num)) (hn : n ≤ h.next) :
    Run n h (H.new p) p (fun h' o a => p = .ok a ∧ o.buf = h.next ∧ Heap.Keeps h.next h h' ∧ Fresh h.next h' o a ∧ h'.drawn = h.drawn) := by
  cases p with
  | error e => exact ⟨.refl _ _, rfl⟩
  | ok a =>
    obtain ⟨h1, -, h2⟩ := Run.alloc (n := n) a hn
    exact ⟨h1, rfl, h2⟩

/-- An in-place update of a new array: nothing older than it is changed. -/
theorem Run.iop {o : Ptr} {a b : Arr Num} (f : Num → Num → Num) (ho : Fresh n h o a) :
    Run n h (H.iop f o b) (Np.iop f a b) (fun h' _ r => Np.iop f a b = .ok r ∧ Fresh n h' o r ∧ h'.next = h.next ∧
      ∀ k ≠ o.buf, h'.mem k = h.mem k) := by
  obtain ⟨h1, h2, h3, h4⟩ := ho
  have e : H.iop f o b h = match Np.iop f a b with
      | .ok r => H.write o r h
      | .error e => (.error e, h) := by
    subst h4
    cases hs : Np.iop f (h.val o) b <;> simp [H.iop, Bind.bind, H.read, H.lift, hs]
  unfold Run
  rw [e]
  cases hr : Np.iop f a b with
  | error e => exact ⟨.refl _ _, rfl⟩
  | ok r =>
    have m : ∀ k ≠ o.buf, (H.write o r h).2.mem k = h.mem k := fun k hk => by simp [H.write, hk]
    refine ⟨⟨le_rfl, fun k hk => m k (by omega)⟩, rfl, ⟨h1, h2, h3, ?_⟩, rfl, m⟩
    simp [H.write, Heap.val, h2]

theorem val_getitem (o : Ptr) (ix : List Ix) (s : List ℕ) :
    h.val ⟨o.buf, some (s, fun i =>
      let j := ixIdx ix (h.val o).shape i
      match o.view with
      | none => j
      | some (_, f) => f j)⟩ = ⟨s, fun i => (h.val o).get (ixIdx ix (h.val o).shape i)⟩ := by
  unfold Heap.val
  rcases o with ⟨b, _ | ⟨t, f⟩⟩ <;> rfl

/-- A view. -/
theorem Run.getitem {o : Ptr} {a : Arr Num} (ix : List Ix) (ho : Points h o a) :
    Run n h (H.getitem ix o) (Np.getitem ix a) (fun h' v r => h' = h ∧ v.buf = o.buf ∧ Points h v r) := by
  obtain ⟨h1, h2⟩ := ho
  have e : H.getitem ix o h = match ixShape ix a.shape with
      | .ok s => (.ok ⟨o.buf, some (s, fun i =>
          let j := ixIdx ix a.shape i
          match o.view with
          | none => j
          | some (_, f) => f j)⟩, h)
      | .error e => (.error e, h) := by
    subst h2
    cases hs : ixShape ix (h.val o).shape <;> simp [H.getitem, Bind.bind, Pure.pure, H.read, H.lift, hs]
  unfold Run
  rw [e]
  unfold Np.getitem
  cases hs : ixShape ix a.shape with
  | error e => exact ⟨.refl _ _, rfl⟩
  | ok s =>
    refine ⟨.refl _ _, rfl, rfl, h1, ?_⟩
    subst h2
    exact val_getitem o ix s

/-- `a.T`. -/
theorem Run.T {o : Ptr} {a : Arr Num} (ho : Points h o a) :
    Run n h (H.T o) (.ok (Np.T a)) (fun h' v r => r = Np.T a ∧ h' = h ∧ v.buf = o.buf ∧ Points h v r) := by
  obtain ⟨h1, rfl⟩ := ho
  refine ⟨.refl _ _, rfl, rfl, rfl, h1, ?_⟩
  unfold Heap.val
  rcases o with ⟨b, _ | ⟨t, f⟩⟩ <;> rfl

theorem val_moveaxis (o : Ptr) (order : List ℕ) :
    h.val ⟨o.buf, some (order.map (fun k => (h.val o).shape.getD k 0), fun i =>
      let j := (List.range (h.val o).shape.length).map (fun m => i.getD (order.idxOf m) 0)
      match o.view with
      | none => j
      | some (_, f) => f j)⟩ = transpose order (h.val o) := by
  unfold Heap.val transpose
  rcases o with ⟨b, _ | ⟨t, f⟩⟩ <;> rfl

/-- `np.moveaxis`. -/
theorem Run.moveaxis {o : Ptr} {a : Arr Num} (src dst : List ℤ) (ho : Points h o a) :
    Run n h (H.moveaxis src dst o) (Np.moveaxis src dst a) (fun h' v r => h' = h ∧ v.buf = o.buf ∧ Points h v r) := by
  obtain ⟨h1, h2⟩ := ho
  have e : H.moveaxis src dst o h = match moveOrder a.shape.length src dst with
      | .ok order => (.ok ⟨o.buf, some (order.map (fun k => a.shape.getD k 0), fun i =>
          let j := (List.range a.shape.length).map (fun m => i.getD (order.idxOf m) 0)
          match o.view with
          | none => j
          | some (_, f) => f j)⟩, h)
      | .error e => (.error e, h) := by
    subst h2
    cases hs : moveOrder (h.val o).shape.length src dst <;> simp [H.moveaxis, Bind.bind, Pure.pure, H.read, H.lift, hs]
  unfold Run
  rw [e]
  unfold Np.moveaxis
  cases hs : moveOrder a.shape.length src dst with
  | error e => exact ⟨.refl _ _, rfl⟩
  | ok s =>
    refine ⟨.refl _ _, rfl, rfl, h1, ?_⟩
    subst h2
    exact val_moveaxis o s

end

end PKM
