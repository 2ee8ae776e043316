import Verif.HeapComp

/-!
# The queries in memory compute what the memoryless queries compute, and change nothing
-/

open scoped Classical

noncomputable section

namespace PKM
open Np

/-- `h'` comes after `h`; all buffers of `h` are unchanged. -/
def Heap.Up (h h' : Heap) : Prop := Heap.Keeps h.next h h'

theorem Heap.Up.refl (h : Heap) : Heap.Up h h := Heap.Keeps.refl _ _

theorem Heap.Up.trans {h h' h'' : Heap} (a : Heap.Up h h') (b : Heap.Up h' h'') : Heap.Up h h'' :=
  Heap.Keeps.trans a (Heap.Keeps.mono b a.next)

theorem Points.up {h h' : Heap} {o : Ptr} {a : Arr Num} (hp : Points h o a) (hu : Heap.Up h h') : Points h' o a :=
  hp.keep hu hp.1

/-- The object is new (possibly a view of a new array). -/
def Own (n : ℕ) (h : Heap) (o : Ptr) (a : Arr Num) : Prop := n ≤ o.buf ∧ Points h o a

theorem Fresh.own {n : ℕ} {h : Heap} {o : Ptr} {a : Arr Num} (hf : Fresh n h o a) : Own n h o a := ⟨hf.1, hf.2.2⟩

theorem Fresh.pt {n : ℕ} {h : Heap} {o : Ptr} {a : Arr Num} (hf : Fresh n h o a) : Points h o a := hf.2.2

theorem Own.pt {n : ℕ} {h : Heap} {o : Ptr} {a : Arr Num} (hf : Own n h o a) : Points h o a := hf.2

theorem Fresh.mono {n m : ℕ} {h : Heap} {o : Ptr} {a : Arr Num} (hf : Fresh n h o a) (hm : m ≤ n) : Fresh m h o a :=
  ⟨hm.trans hf.1, hf.2⟩

theorem Fresh.up {n : ℕ} {h h' : Heap} {o : Ptr} {a : Arr Num} (hf : Fresh n h o a) (hu : Heap.Up h h') : Fresh n h' o a :=
  ⟨hf.1, hf.2.1, hf.2.2.up hu⟩

theorem Own.mono {n m : ℕ} {h : Heap} {o : Ptr} {a : Arr Num} (hf : Own n h o a) (hm : m ≤ n) : Own m h o a :=
  ⟨hm.trans hf.1, hf.2⟩

section
variable {α β γ δ : Type} {n : ℕ} {h : Heap}

/-- A call that changes nothing that existed before, followed by more. -/
theorem Run.call {m : H α} {p : Py β} {R : Heap → α → β → Prop} {k : α → H γ} {q : β → Py δ} {R' : Heap → γ → δ → Prop}
    (hn : n ≤ h.next) (h1 : Run h.next h m p R) (h2 : ∀ h' a b, Heap.Up h h' → R h' a b → Run n h' (k a) (q b) R') :
    Run n h (m >>= k) (p >>= q) R' :=
  Run.bind (R := fun h' a b => Heap.Up h h' ∧ R h' a b) (h1.mono hn fun _ _ _ hk hR => ⟨hk, hR⟩)
    fun h' a b _ _ hR => h2 h' a b hR.1 hR.2

/-- The last call of a function. -/
theorem Run.ret {m : H α} {p : Py β} {R R' : Heap → α → β → Prop} (hn : n ≤ h.next) (h1 : Run h.next h m p R)
    (h2 : ∀ h' a b, R h' a b → R' h' a b) : Run n h m p R' :=
  h1.mono hn fun _ _ _ _ hR => h2 _ _ _ hR

theorem Run.own {m : H Ptr} {p : Py (Arr Num)} (hn : n ≤ h.next) (h1 : Run h.next h m p (Own h.next)) : Run n h m p (Own n) :=
  h1.ret hn fun _ _ _ hR => hR.mono hn

/-- A step without a counterpart in the memoryless call. -/
theorem Run.skip {m : H α} {k : α → H γ} {p : Py δ} {R' : Heap → γ → δ → Prop} {x : β} {R : Heap → α → β → Prop}
    (h1 : Run n h m (.ok x) R) (h2 : ∀ h' a, Heap.Keeps n h h' → R h' a x → Run n h' (k a) p R') : Run n h (m >>= k) p R' :=
  Run.bind (q := fun _ => p) h1 fun h' a b hb hk hR => h2 h' a hk (by cases hb; exact hR)

theorem Run.op1 {o : Ptr} {a : Arr Num} (f : Arr Num → Py (Arr Num)) (ho : Points h o a) :
    Run h.next h (H.op1 f o) (f a) (Fresh h.next) := by
  refine Run.skip (Run.read ho) fun h' x _ hx => ?_
  obtain ⟨rfl, rfl, -⟩ := hx
  exact (Run.new _ le_rfl).mono le_rfl fun _ _ _ _ hr => hr.2.2.2.1

theorem Run.op2 {o o' : Ptr} {a b : Arr Num} (f : Arr Num → Arr Num → Py (Arr Num)) (ho : Points h o a) (ho' : Points h o' b) :
    Run h.next h (H.op2 f o o') (f a b) (Fresh h.next) := by
  refine Run.skip (Run.read ho) fun h' x _ hx => ?_
  obtain ⟨rfl, rfl, -⟩ := hx
  refine Run.skip (Run.read ho') fun h' x _ hx => ?_
  obtain ⟨rfl, rfl, -⟩ := hx
  exact (Run.new _ le_rfl).mono le_rfl fun _ _ _ _ hr => hr.2.2.2.1

theorem Run.map {o : Ptr} {a : Arr Num} (f : Num → Num) (ho : Points h o a) :
    Run h.next h (H.map f o) (.ok (Np.map f a)) (Fresh h.next) := Run.op1 _ ho

theorem Run.fresh (a : Arr Num) : Run h.next h (H.new (.ok a)) (.ok a) (Fresh h.next) :=
  (Run.new _ le_rfl).mono le_rfl fun _ _ _ _ hr => hr.2.2.2.1

/-- `H.map` inside a function. -/
theorem Run.stepMap {o : Ptr} {a : Arr Num} {f : Num → Num} {k : Ptr → H γ} {p : Py δ} {R' : Heap → γ → δ → Prop} (hn : n ≤ h.next)
    (ho : Points h o a) (h2 : ∀ h' r, Heap.Up h h' → Fresh h.next h' r (Np.map f a) → Run n h' (k r) p R') :
    Run n h (H.map f o >>= k) p R' :=
  Run.skip (R := fun h' r b => Heap.Up h h' ∧ Fresh h.next h' r b) ((Run.map f ho).mono hn fun _ _ _ hk hR => ⟨hk, hR⟩)
    fun h' r _ hR => h2 h' r hR.1 hR.2

/-- `H.new` of a value inside a function. -/
theorem Run.stepNew {a : Arr Num} {k : Ptr → H γ} {p : Py δ} {R' : Heap → γ → δ → Prop} (hn : n ≤ h.next)
    (h2 : ∀ h' r, Heap.Up h h' → Fresh h.next h' r a → Run n h' (k r) p R') :
    Run n h (H.new (.ok a) >>= k) p R' :=
  Run.skip (R := fun h' r b => Heap.Up h h' ∧ Fresh h.next h' r b) ((Run.fresh a).mono hn fun _ _ _ hk hR => ⟨hk, hR⟩)
    fun h' r _ hR => h2 h' r hR.1 hR.2

/-- `H.op1` with a function that cannot fail, inside a function. -/
theorem Run.stepOk {o : Ptr} {a : Arr Num} {f : Arr Num → Arr Num} {k : Ptr → H γ} {p : Py δ} {R' : Heap → γ → δ → Prop}
    (hn : n ≤ h.next) (ho : Points h o a) (h2 : ∀ h' r, Heap.Up h h' → Fresh h.next h' r (f a) → Run n h' (k r) p R') :
    Run n h (H.op1 (fun x => .ok (f x)) o >>= k) p R' :=
  Run.skip (R := fun h' r b => Heap.Up h h' ∧ Fresh h.next h' r b)
    ((Run.op1 (fun x => .ok (f x)) ho).mono hn fun _ _ _ hk hR => ⟨hk, hR⟩) fun h' r _ hR => h2 h' r hR.1 hR.2

/-- `a.T` inside a function. -/
theorem Run.stepT {o : Ptr} {a : Arr Num} {k : Ptr → H γ} {p : Py δ} {R' : Heap → γ → δ → Prop} (ho : Points h o a)
    (h2 : ∀ v, v.buf = o.buf → Points h v (Np.T a) → Run n h (k v) p R') : Run n h (H.T o >>= k) p R' :=
  Run.skip (Run.T ho) fun h' v _ hv => by
    obtain ⟨-, rfl, h3, h4⟩ := hv
    exact h2 v h3 h4

/-- A view inside a function. -/
theorem Run.stepIx {o : Ptr} {a : Arr Num} {ix : List Ix} {k : Ptr → H γ} {q : Arr Num → Py δ} {R' : Heap → γ → δ → Prop}
    (ho : Points h o a) (h2 : ∀ v b, v.buf = o.buf → Points h v b → Run n h (k v) (q b) R') :
    Run n h (H.getitem ix o >>= k) (Np.getitem ix a >>= q) R' :=
  Run.bind (Run.getitem ix ho) fun h' v b _ _ hv => by
    obtain ⟨rfl, h3, h4⟩ := hv
    exact h2 v b h3 h4

/-- `H.op1` inside a function. -/
theorem Run.step1 {o : Ptr} {a : Arr Num} {f : Arr Num → Py (Arr Num)} {k : Ptr → H γ} {q : Arr Num → Py δ}
    {R' : Heap → γ → δ → Prop} (hn : n ≤ h.next) (ho : Points h o a)
    (h2 : ∀ h' r b, Heap.Up h h' → Fresh h.next h' r b → Run n h' (k r) (q b) R') :
    Run n h (H.op1 f o >>= k) (f a >>= q) R' := Run.call hn (Run.op1 f ho) h2

/-- `H.op2` inside a function. -/
theorem Run.step2 {o o' : Ptr} {a a' : Arr Num} {f : Arr Num → Arr Num → Py (Arr Num)} {k : Ptr → H γ} {q : Arr Num → Py δ}
    {R' : Heap → γ → δ → Prop} (hn : n ≤ h.next) (ho : Points h o a) (ho' : Points h o' a')
    (h2 : ∀ h' r b, Heap.Up h h' → Fresh h.next h' r b → Run n h' (k r) (q b) R') :
    Run n h (H.op2 f o o' >>= k) (f a a' >>= q) R' := Run.call hn (Run.op2 f ho ho') h2

/-- `o += b` on a new array. -/
theorem Run.iop2 {o b : Ptr} {a y : Arr Num} (f : Num → Num → Num) (ho : Fresh n h o a) (hb : Points h b y) :
    Run n h (H.iop2 f o b) (Np.iop f a y) (fun h' _ r => Fresh n h' o r ∧ h'.next = h.next ∧ ∀ k ≠ o.buf, h'.mem k = h.mem k) := by
  refine Run.skip (Run.read hb) fun h' x _ hx => ?_
  obtain ⟨rfl, rfl, -⟩ := hx
  exact (Run.iop f ho).mono le_rfl fun _ _ _ _ hr => hr.2

/-- `try ... except (AttributeError, NotImplementedError)`. -/
theorem Run.tryExcept {m k : H α} {p q : Py β} {R : Heap → α → β → Prop} (h1 : Run n h m p R)
    (h2 : ∀ h', Heap.Keeps n h h' → Run n h' k q R) :
    Run n h (H.tryExcept m k) (match p with
      | .ok r => .ok r
      | .error .attributeError => q
      | .error .notImplementedError => q
      | .error e => .error e) R := by
  obtain ⟨h3, h4⟩ := h1
  have h2' := h2 _ h3
  unfold Run H.tryExcept at *
  revert h3 h4 h2'
  generalize m h = r
  obtain ⟨r, h'⟩ := r
  intro h3 h4 h2'
  cases r with
  | ok a => cases p with
    | ok b => exact ⟨h3, h4⟩
    | error e => exact h4.elim
  | error e => cases p with
    | ok b => exact h4.elim
    | error e' =>
      obtain rfl : e = e' := h4
      cases e <;> first | exact ⟨h3.trans h2'.1, h2'.2⟩ | exact ⟨h3, rfl⟩

theorem H.bind_assoc (m : H α) (f : α → H β) (g : β → H γ) : (m >>= f) >>= g = m >>= fun a => f a >>= g := by
  funext h
  show (match (match m h with
    | (.ok a, h') => f a h'
    | (.error e, h') => (.error e, h')) with
    | (.ok a, h') => g a h'
    | (.error e, h') => (.error e, h')) = match m h with
    | (.ok a, h') => (match f a h' with
      | (.ok a, h') => g a h'
      | (.error e, h') => (.error e, h'))
    | (.error e, h') => (.error e, h')
  rcases m h with ⟨_ | _, _⟩ <;> rfl

theorem Points.other {h' : Heap} {o p : Ptr} {a : Arr Num} (hp : Points h p a) (hn : h'.next = h.next)
    (hm : ∀ k ≠ o.buf, h'.mem k = h.mem k) (hne : p.buf ≠ o.buf) : Points h' p a := by
  refine ⟨by unfold Heap.Has; rw [hn]; exact hp.1, ?_⟩
  rw [← hp.2]
  unfold Heap.val
  rw [hm _ hne]

end

/-- Object `o` is one of the first `n` buffers and has the contents `a`. -/
def OldAt (n : ℕ) (h : Heap) (o : Ptr) (a : Arr Num) : Prop := o.buf < n ∧ Points h o a

theorem OldAt.keep {n m : ℕ} {h h' : Heap} {o : Ptr} {a : Arr Num} (ho : OldAt n h o a) (hk : Heap.Keeps m h h') (hm : n ≤ m) :
    OldAt n h' o a := ⟨ho.1, ho.2.keep hk (ho.1.trans_le hm)⟩

/-- The cube `c` is stored at `hc`, in the first `n` buffers. -/
structure CubeAt (n : ℕ) (h : Heap) (hc : HCube) (c : IFUCube) : Prop where
  le : n ≤ h.next
  deltaT : OldAt n h hc.deltaT c.ssps.deltaT
  deltaZ : OldAt n h hc.deltaZ c.ssps.deltaZ
  tCents : OldAt n h hc.tCents c.ssps.tCents
  zCents : OldAt n h hc.zCents c.ssps.zCents
  tEdges : OldAt n h hc.tEdges c.ssps.tEdges
  zEdges : OldAt n h hc.zEdges c.ssps.zEdges
  lightWeights : OldAt n h hc.lightWeights c.ssps.lightWeights
  x : OldAt n h hc.x c.x
  y : OldAt n h hc.y c.y
  vEdg : OldAt n h hc.vEdg c.vEdg
  dx : hc.dx = c.dx
  dy : hc.dy = c.dy

section
variable {n m : ℕ} {h h' : Heap} {hc : HCube} {c : IFUCube}

theorem CubeAt.keep (hh : CubeAt n h hc c) (hk : Heap.Keeps m h h') (hm : n ≤ m) : CubeAt n h' hc c :=
  ⟨hh.le.trans hk.next, hh.deltaT.keep hk hm, hh.deltaZ.keep hk hm, hh.tCents.keep hk hm, hh.zCents.keep hk hm, hh.tEdges.keep hk hm,
    hh.zEdges.keep hk hm, hh.lightWeights.keep hk hm, hh.x.keep hk hm, hh.y.keep hk hm, hh.vEdg.keep hk hm, hh.dx, hh.dy⟩

theorem CubeAt.up (hh : CubeAt n h hc c) (hk : Heap.Up h h') : CubeAt n h' hc c := hh.keep hk hh.le

theorem volDa_run (hh : CubeAt n h hc c) (var : Char) {prev : Option Ptr} {prev' : Option (Arr Num)}
    (hp : ∀ d, prev = some d → ∃ a, prev' = some a ∧ Points h d a) (hp0 : prev = none → prev' = none) :
    Run h.next h (hc.volDa var prev) (c.volDa var prev') Points := by
  unfold HCube.volDa IFUCube.volDa
  split_ifs with h1 h2 h3 h4 h5
  · exact Run.ok hh.deltaT.2
  · refine Run.stepIx hh.vEdg.2 fun v b _ hv => ?_
    refine Run.stepIx hh.vEdg.2 fun v' b' _ hv' => ?_
    exact (Run.op2 _ hv hv').ret le_rfl fun _ _ _ hR => hR.pt
  · rw [hh.dx]
    exact (Run.fresh _).ret le_rfl fun _ _ _ hR => hR.pt
  · rw [hh.dy]
    exact (Run.fresh _).ret le_rfl fun _ _ _ hR => hR.pt
  · exact Run.ok hh.deltaZ.2
  · cases prev with
    | none => rw [hp0 rfl]; exact Run.throw
    | some d =>
      obtain ⟨a, rfl, ha⟩ := hp d rfl
      exact Run.ok ha

theorem volLoop_run (hh : CubeAt n h hc c) (nd : ℕ) {k : ℕ} (hk : k ≤ h.next) (vs : List Char) : ∀ (count : ℕ) (prev : Option Ptr)
    (prev' : Option (Arr Num)) (d : Ptr) (d' : Arr Num), (∀ d, prev = some d → ∃ a, prev' = some a ∧ Points h d a) →
    (prev = none → prev' = none) → Own k h d d' →
    Run k h (hc.volLoop nd count vs prev d) (c.volLoop nd count vs prev' d') (Own k) := by
  induction vs generalizing h with
  | nil => intro count prev prev' d d' _ _ hd; exact Run.ok hd
  | cons var rest ih =>
    intro count prev prev' d d' hp hp0 hd
    unfold HCube.volLoop IFUCube.volLoop
    refine Run.call hk (volDa_run hh var hp hp0) fun h1 a b u1 ha => ?_
    refine Run.stepIx ha fun v b' _ hv => ?_
    refine Run.step2 (hk.trans u1.next) (hd.2.up u1) hv fun h2 r e u2 hr => ?_
    refine ih ((hh.up u1).up u2) (hk.trans (u1.trans u2).next) _ _ _ _ _ ?_ (by simp) (hr.own.mono (hk.trans u1.next))
    rintro _ ⟨rfl⟩
    exact ⟨b, rfl, ha.up u2⟩

theorem volStart_run (hh : CubeAt n h hc c) (dist : PyStr) :
    Run h.next h (hc.volStart dist) (c.volLoop dist.length 0 dist none (full (List.replicate dist.length 1) (.fin 1))) (Own h.next) := by
  refine Run.stepNew le_rfl fun h1 r u1 hr => ?_
  exact volLoop_run (hh.up u1) _ u1.next _ _ _ _ _ _ (by simp) (by simp) hr.own

theorem volView_run {k : ℕ} {d : Ptr} {d' : Arr Num} (extra : ℕ) (hd : Own k h d d') :
    Run k h (HCube.volView extra d) (Np.getitem (List.replicate d'.shape.length .all ++ List.replicate extra .na) d') (Own k) := by
  refine Run.skip (Run.read hd.2) fun h1 x _ hx => ?_
  obtain ⟨rfl, rfl, -⟩ := hx
  refine (Run.getitem _ hd.2).mono le_rfl fun h2 v r _ hv => ?_
  obtain ⟨rfl, h3, h4⟩ := hv
  exact ⟨h3 ▸ hd.1, h4⟩

theorem constructVolumeElement_run (hh : CubeAt n h hc c) (w : PyStr) :
    Run h.next h (hc.constructVolumeElement w) (c.constructVolumeElement w) (Own h.next) := by
  unfold HCube.constructVolumeElement IFUCube.constructVolumeElement
  split_ifs with h1
  · rcases PyStr.split '_' w with _ | ⟨a, _ | ⟨b, _ | ⟨d, r⟩⟩⟩
    · exact Run.throw
    · exact Run.throw
    · refine Run.call le_rfl (volStart_run hh _) fun h2 v e u hv => ?_
      exact volView_run _ hv
    · exact Run.throw
  · refine Run.call le_rfl (volStart_run hh _) fun h2 v e u hv => ?_
    have := volView_run 0 hv
    rw [List.replicate_zero, List.append_nil] at this
    exact this

theorem getVariableValues_run (hh : CubeAt n h hc c) (w : PyStr) :
    Run h.next h (hc.getVariableValues w) (c.getVariableValues w) Points := by
  unfold HCube.getVariableValues IFUCube.getVariableValues
  split_ifs with h1 h2 h3 h4 h5
  · exact Run.ok hh.tCents.2
  · refine Run.stepIx hh.vEdg.2 fun v b _ hv => ?_
    refine Run.stepIx hh.vEdg.2 fun v' b' _ hv' => ?_
    refine Run.step2 le_rfl hv hv' fun h3 r e u hr => ?_
    exact (Run.map _ hr.pt).ret u.next fun _ _ _ hR => hR.pt
  · exact Run.ok hh.zCents.2
  · exact Run.ok hh.x.2
  · exact Run.ok hh.y.2
  · exact Run.throw

theorem spatialEdges_run {x : Ptr} {X : Arr Num} {dx : Num} (hx : Points h x X) :
    Run h.next h (HCube.spatialEdges x dx) (IFUCube.spatialEdges X dx) Points := by
  unfold HCube.spatialEdges IFUCube.spatialEdges
  refine Run.step1 (f := fun a => sub a (scalar (dx / .fin 2))) le_rfl hx fun h1 r b u1 hr => ?_
  refine Run.stepIx (hx.up u1) fun v b' _ hv => ?_
  refine Run.step1 (f := fun a => add a (scalar (dx / .fin 2))) u1.next hv fun h2 r2 b2 u2 hr2 => ?_
  refine Run.step1 (f := fun a => stack [a]) (u1.trans u2).next hr2.pt fun h3 r3 b3 u3 hr3 => ?_
  exact (Run.op2 _ ((hr.pt.up u2).up u3) hr3.pt).ret ((u1.trans u2).trans u3).next fun _ _ _ hR => hR.pt

theorem getVariableEdges_run (hh : CubeAt n h hc c) (w : PyStr) :
    Run h.next h (hc.getVariableEdges w) (c.getVariableEdges w) Points := by
  unfold HCube.getVariableEdges IFUCube.getVariableEdges
  split_ifs with h1 h2 h3 h4 h5
  · exact Run.ok hh.tEdges.2
  · exact Run.ok hh.vEdg.2
  · exact Run.ok hh.zEdges.2
  · rw [hh.dx]; exact spatialEdges_run hh.x.2
  · rw [hh.dy]; exact spatialEdges_run hh.y.2
  · exact Run.throw

theorem getVariableSize_run (hh : CubeAt n h hc c) (w : PyStr) :
    Run h.next h (hc.getVariableSize w) (c.getVariableSize w) (fun _ a b => a = b) := by
  refine Run.call le_rfl (getVariableValues_run hh w) fun h1 a b u ha => ?_
  refine Run.skip (Run.read ha) fun h1 x _ hx => ?_
  obtain ⟨rfl, rfl, -⟩ := hx
  exact Run.lift fun _ _ => rfl

theorem shapeLoop_run (hh : CubeAt n h hc c) {k : ℕ} (hk : k ≤ h.next) (vs : List Char) :
    Run k h (hc.shapeLoop vs) (c.shapeLoop vs) (fun _ a b => a = b) := by
  induction vs generalizing h with
  | nil => exact Run.ok rfl
  | cons var rest ih =>
    unfold HCube.shapeLoop IFUCube.shapeLoop
    unfold HCube.axisShape
    by_cases hx : var = 'x'
    · simp only [hx, if_true]
      show Run k h ((do
        let n1 ← hc.getVariableSize ['x','1']
        let n2 ← hc.getVariableSize ['x','2']
        pure [n1, n2]) >>= fun d => do
          let r ← hc.shapeLoop rest
          pure (d ++ r)) _ _
      rw [H.bind_assoc]
      refine Run.call hk (getVariableSize_run hh _) fun h1 a b u hab => ?_
      rw [H.bind_assoc]
      refine Run.call (hk.trans u.next) (getVariableSize_run (hh.up u) _) fun h2 a' b' u' hab' => ?_
      subst hab hab'
      show Run k h2 (hc.shapeLoop rest >>= fun r => pure ([a, a'] ++ r)) (c.shapeLoop rest >>= fun r => .ok ([a, a'] ++ r)) _
      refine Run.bind (ih ((hh.up u).up u') (hk.trans (u.trans u').next)) fun h2 a' b' _ _ hab' => ?_
      subst hab'
      exact Run.ok rfl
    · simp only [hx, if_false]
      show Run k h ((do
        let n ← hc.getVariableSize [var]
        pure [n]) >>= fun d => do
          let r ← hc.shapeLoop rest
          pure (d ++ r)) _ _
      rw [H.bind_assoc]
      refine Run.call hk (getVariableSize_run hh _) fun h1 a b u hab => ?_
      subst hab
      show Run k h1 (hc.shapeLoop rest >>= fun r => pure ([a] ++ r)) (c.shapeLoop rest >>= fun r => .ok ([a] ++ r)) _
      refine Run.bind (ih (hh.up u) (hk.trans u.next)) fun h2 a' b' _ _ hab' => ?_
      subst hab'
      exact Run.ok rfl

theorem getDistributionShape_run (hh : CubeAt n h hc c) (w : PyStr) :
    Run h.next h (hc.getDistributionShape w) (c.getDistributionShape w) (fun _ a b => a = b) := shapeLoop_run hh le_rfl _

end

end PKM
