import Verif.HeapParamLemmas
import Verif.Props.History

/-!
# C64: parametric components over any history

A user holds a parametric component and some arrays: arrays they made, and answers of earlier queries. They set parameters, ask
queries, and overwrite arrays they hold, in any order.
-/

open scoped Classical

noncomputable section

namespace PKM
open Np

/-! ### Specification -/

/-- The five parameters of a parametric component: p(t), p(x|t), p(z|t,x) and mean and dispersion of p(v|t,x). -/
inductive ParamField
  | pt | pxt | pztx | muV | sigV

/-- Rebinding an attribute of the component. -/
def HParam.set (hp : HParam) (o : Ptr) : ParamField → HParam
  | .pt => { hp with logPt := some o }
  | .pxt => { hp with logPxt := some o }
  | .pztx => { hp with logPztx := some o }
  | .muV => { hp with muV := some o }
  | .sigV => { hp with sigV := some o }

/-- The same for the memoryless component. -/
def Param.set (p : Param) (a : Arr Num) : ParamField → Param
  | .pt => { p with logPt := some a }
  | .pxt => { p with logPxt := some a }
  | .pztx => { p with logPztx := some a }
  | .muV => { p with muV := some a }
  | .sigV => { p with sigV := some a }

/-- What a user can do: make an array, overwrite the `k`-th array they hold (also through a view), ask a query, or set a parameter
(parametric.py:83-127, 283-307, growing_disk.py:30-69, 116-240, stream.py:28-92, 103-138): every setter computes a new array,
here of any contents, and binds the attribute to it. -/
inductive ParamOp
  | make (a : Arr Num)
  | edit (k : ℕ) (a : Arr Num)
  | ask (q : Query)
  | set (f : ParamField) (a : Arr Num)

/-- The queries whose answer is the component's own array of mean velocities: `get_mean("v_tx")` and `get_mean("v_txz")`. -/
def Query.isMeanV : Query → Prop
  | .mean w _ => w = "v_tx".toList ∨ w = "v_txz".toList
  | _ => False

/-- Memory, the attributes of the component, and the arrays held by the user; those that answer one of these two queries are marked. -/
structure ParamState where
  heap : Heap
  comp : HParam
  held : List (Ptr × Bool)

/-- The array objects held by the user. -/
def ParamState.ptrs (st : ParamState) : List Ptr := st.held.map Prod.fst

/-- Effect of one action. -/
def ParamOp.run (ppf : ℝ → ℝ) (st : ParamState) : ParamOp → ParamState
  | .make a => match H.new (.ok a) st.heap with
    | (.ok r, h) => ⟨h, st.comp, st.held ++ [(r, false)]⟩
    | (.error _, h) => ⟨h, st.comp, st.held⟩
  | .edit k a => match st.held[k]? with
    | some r => ⟨(H.write r.1 a st.heap).2, st.comp, st.held⟩
    | none => st
  | .ask q => match q.run st.comp.f2 ppf st.comp.self st.ptrs st.heap with
    | (.ok r, h) => ⟨h, st.comp, st.held ++ [(r, decide q.isMeanV)]⟩
    | (.error _, h) => ⟨h, st.comp, st.held⟩
  | .set f a => match H.new (.ok a) st.heap with
    | (.ok r, h) => ⟨h, st.comp.set r f, st.held⟩
    | (.error _, h) => ⟨h, st.comp, st.held⟩

/-- Effect of one action on the parameters, as the user thinks of them: only setting a parameter changes one. -/
def ParamOp.spec (p : Param) : ParamOp → Param
  | .set f a => p.set a f
  | _ => p

/-- The history does not overwrite answers of `get_mean("v_tx")` and `get_mean("v_txz")`. -/
def Careful (ppf : ℝ → ℝ) : ParamState → List ParamOp → Prop
  | _, [] => True
  | st, op :: ops => (∀ k a, op = .edit k a → ∀ r, st.held[k]? = some r → r.2 = false) ∧ Careful ppf (op.run ppf st) ops

/-- The component `p`, but with the parameters that the memory contains at present. -/
def HParam.inMemory (hp : HParam) (h : Heap) (p : Param) : Param :=
  { p with
    logPt := hp.logPt.map h.val, logPxt := hp.logPxt.map h.val, logPztx := hp.logPztx.map h.val, muV := hp.muV.map h.val,
    sigV := hp.sigV.map h.val }

/-- The buffers of the component, other than the one of the mean velocities. -/
def HParam.bufs (hp : HParam) : List ℕ :=
  [hp.cube.deltaT.buf, hp.cube.deltaZ.buf, hp.cube.tCents.buf, hp.cube.zCents.buf, hp.cube.tEdges.buf, hp.cube.zEdges.buf,
    hp.cube.lightWeights.buf, hp.cube.x.buf, hp.cube.y.buf, hp.cube.vEdg.buf] ++
  (hp.logPt.toList ++ hp.logPxt.toList ++ hp.logPztx.toList ++ hp.sigV.toList).map Ptr.buf

/-- The component `p` in memory, in any arrangement in which the array of mean velocities has a buffer of its own. -/
def ParamStored (h : Heap) (hp : HParam) (p : Param) : Prop :=
  ParamAt h.next h hp p ∧ ∀ m, hp.muV = some m → m.buf ∉ hp.bufs

/-! ### Helpers -/

section
variable {n m : ℕ} {h h' : Heap} {hp : HParam} {p : Param} {c : Param} {ppf : ℝ → ℝ} {st : ParamState}

theorem OptAt.val {o : Option Ptr} {a : Option (Arr Num)} (ho : OptAt n h o a) : o.map h.val = a := by
  rcases o with _ | o <;> rcases a with _ | a
  · rfl
  · exact ho.elim
  · exact ho.elim
  · simp [ho.2.2]

theorem ParamAt.inMemory (hh : ParamAt n h hp p) : hp.inMemory h p = p := by
  unfold HParam.inMemory
  rw [hh.logPt.val, hh.logPxt.val, hh.logPztx.val, hh.muV.val, hh.sigV.val]

/-- Existing arrays, in the first `n` buffers. -/
def OptIn (n : ℕ) (h : Heap) (o : Option Ptr) : Prop := ∀ r, o = some r → r.buf < n ∧ h.Has r

theorem OptAt.in' {o : Option Ptr} {a : Option (Arr Num)} (ho : OptAt n h o a) : OptIn n h o := by
  rcases o with _ | o <;> rcases a with _ | a
  · simp [OptIn]
  · exact ho.elim
  · exact ho.elim
  · intro r hr
    cases hr
    exact ⟨ho.1, ho.2.1⟩

theorem OptIn.at' {o : Option Ptr} (ho : OptIn n h o) : OptAt n h o (o.map h.val) := by
  rcases o with _ | o
  · trivial
  · exact ⟨(ho o rfl).1, (ho o rfl).2, rfl⟩

theorem OldAt.more {o : Ptr} {a : Arr Num} (ho : OldAt n h o a) (hm : n ≤ m) : OldAt m h o a := ⟨ho.1.trans_le hm, ho.2⟩

theorem CubeAt.more {hc : HCube} {c : IFUCube} (hh : CubeAt n h hc c) (hm : n ≤ m) (hm' : m ≤ h.next) : CubeAt m h hc c :=
  ⟨hm', hh.deltaT.more hm, hh.deltaZ.more hm, hh.tCents.more hm, hh.zCents.more hm, hh.tEdges.more hm, hh.zEdges.more hm,
    hh.lightWeights.more hm, hh.x.more hm, hh.y.more hm, hh.vEdg.more hm, hh.dx, hh.dy⟩

theorem OptAt.more {o : Option Ptr} {a : Option (Arr Num)} (ho : OptAt n h o a) (hm : n ≤ m) : OptAt m h o a := by
  rcases o with _ | o <;> rcases a with _ | a
  · trivial
  · exact ho.elim
  · exact ho.elim
  · exact OldAt.more ho hm

theorem ParamAt.more (hh : ParamAt n h hp p) (hm : n ≤ m) (hm' : m ≤ h.next) : ParamAt m h hp p :=
  ⟨hh.cube.more hm hm', hh.f2, hh.logPt.more hm, hh.logPxt.more hm, hh.logPztx.more hm, hh.muV.more hm, hh.sigV.more hm⟩

/-- Overwriting a buffer that the component does not use, other than for its mean velocities. -/
theorem ParamAt.write (hh : ParamAt n h hp p) {r : Ptr} (hr : r.buf ∉ hp.bufs) (a : Arr Num) :
    ParamAt n (H.write r a h).2 hp { p with muV := hp.muV.map (H.write r a h).2.val } := by
  have old {o : Ptr} {x : Arr Num} (ho : OldAt n h o x) (hb : o.buf ∈ hp.bufs) : OldAt n (H.write r a h).2 o x :=
    ⟨ho.1, ho.2.other rfl (fun k hk => by simp [H.write, hk]) fun e => hr (e ▸ hb)⟩
  have opt {o : Option Ptr} {x : Option (Arr Num)} (ho : OptAt n h o x) (hb : ∀ q, o = some q → q.buf ∈ hp.bufs) :
      OptAt n (H.write r a h).2 o x := by
    rcases o with _ | o <;> rcases x with _ | x
    · trivial
    · exact ho.elim
    · exact ho.elim
    · exact old ho (hb o rfl)
  refine ⟨⟨hh.cube.le, old hh.cube.deltaT ?_, old hh.cube.deltaZ ?_, old hh.cube.tCents ?_, old hh.cube.zCents ?_, old hh.cube.tEdges ?_,
    old hh.cube.zEdges ?_, old hh.cube.lightWeights ?_, old hh.cube.x ?_, old hh.cube.y ?_, old hh.cube.vEdg ?_, hh.cube.dx, hh.cube.dy⟩,
    hh.f2, opt hh.logPt ?_, opt hh.logPxt ?_, opt hh.logPztx ?_, ?_, opt hh.sigV ?_⟩
  iterate 10 simp [HParam.bufs]
  · intro q hq; simp [HParam.bufs, hq]
  · intro q hq; simp [HParam.bufs, hq]
  · intro q hq; simp [HParam.bufs, hq]
  · exact OptIn.at' fun q hq => hh.muV.in' q hq
  · intro q hq; simp [HParam.bufs, hq]

/-- What holds in every reachable state. -/
structure ParamInv (c : Param) (st : ParamState) : Prop where
  comp : ParamAt st.heap.next st.heap st.comp (st.comp.inMemory st.heap c)
  apart : ∀ m, st.comp.muV = some m → m.buf ∉ st.comp.bufs
  held : ∀ r ∈ st.held, st.heap.Has r.1 ∧ r.1.buf ∉ st.comp.bufs ∧ (r.2 = false → ∀ m, st.comp.muV = some m → m.buf ≠ r.1.buf)

theorem bufs_lt (hh : ParamAt n h hp p) {b : ℕ} (hb : b ∈ hp.bufs) : b < n := by
  have := hh.cube
  simp only [HParam.bufs, List.mem_append, List.mem_cons, List.not_mem_nil, or_false, List.mem_map, Option.mem_toList, Option.mem_def] at hb
  rcases hb with hb | ⟨o, hb, rfl⟩
  · rcases hb with rfl | rfl | rfl | rfl | rfl | rfl | rfl | rfl | rfl | rfl
    exacts [this.deltaT.1, this.deltaZ.1, this.tCents.1, this.zCents.1, this.tEdges.1, this.zEdges.1, this.lightWeights.1, this.x.1,
      this.y.1, this.vEdg.1]
  · rcases hb with ((hb | hb) | hb) | hb
    exacts [(hh.logPt.in' o hb).1, (hh.logPxt.in' o hb).1, (hh.logPztx.in' o hb).1, (hh.sigV.in' o hb).1]

theorem ParamInv.keep (hi : ParamInv c st) {h' : Heap} (hk : Heap.Keeps st.heap.next st.heap h') :
    ParamAt st.heap.next h' st.comp (st.comp.inMemory st.heap c) ∧ st.comp.inMemory h' c = st.comp.inMemory st.heap c := by
  have h1 := hi.comp.keep hk le_rfl
  exact ⟨h1, h1.inMemory⟩

theorem Query.isMeanV_iff (q : Query) : q.isMeanV ↔ q.shares sharedMean := by
  cases q <;> exact Iff.rfl

theorem paramQuery_run (hi : ParamInv c st) (q : Query) :
    Run st.heap.next st.heap (q.run st.comp.f2 ppf st.comp.self st.ptrs)
      (q.value st.comp.f2 ppf (st.comp.inMemory st.heap c).self (st.ptrs.map st.heap.val)) (Got q.isMeanV st.heap.next) := by
  rw [q.isMeanV_iff]
  refine query_sound (paramSound _ _ _) hi.comp (fun r hr => ?_) q
  obtain ⟨x, hx, rfl⟩ := List.mem_map.1 hr
  exact (hi.held x hx).1

/-- The answers that are not new arrays are found in the array of mean velocities. -/
theorem meanV_in (hi : ParamInv c st) {q : Query} (hq : q.isMeanV) {r : Ptr}
    (hr : (q.run st.comp.f2 ppf st.comp.self st.ptrs st.heap).1 = .ok r) : InMu st.comp r := by
  have key {m : H Ptr} {v : Py (Arr Num)}
      (hm : Run st.heap.next st.heap m v (fun h' o a => h' = st.heap ∧ Points st.heap o a ∧ InMu st.comp o))
      (hr : (m st.heap).1 = .ok r) : InMu st.comp r := by
    obtain ⟨-, h2⟩ := hm
    rw [hr] at h2
    cases v with
    | error e => exact h2.elim
    | ok b => exact h2.2.2
  cases q with
  | mean w lw =>
    rcases hq with rfl | rfl
    · exact key (m := st.comp.meanVtx lw) (meanVtx_in hi.comp lw) hr
    · exact key (m := st.comp.meanVtxz lw) (meanVtxz_in hi.comp lw) hr
  | _ => exact hq.elim

theorem new_run (a : Arr Num) (h : Heap) : ∃ r h', H.new (.ok a) h = (.ok r, h') ∧ Heap.Keeps h.next h h' ∧ h'.Has r ∧
    h.next ≤ r.buf ∧ h'.val r = a := by
  have := Run.new (n := h.next) (h := h) (.ok a) le_rfl
  obtain ⟨h1, h2⟩ := this
  revert h1 h2
  rcases hx : H.new (.ok a) h with ⟨x, h'⟩
  intro h1 h2
  cases x with
  | error e => exact h2.elim
  | ok r =>
    obtain ⟨-, -, -, h3, -⟩ := h2
    exact ⟨r, h', rfl, h1, h3.pt.1, h3.1, h3.pt.2⟩

/-- Every action keeps the invariant. -/
theorem ParamInv.step (hi : ParamInv c st) (op : ParamOp) : ParamInv c (op.run ppf st) := by
  obtain ⟨h, hp, held⟩ := st
  have hmu : ∀ m, hp.muV = some m → m.buf < h.next := fun m hm => (hi.comp.muV.in' m hm).1
  cases op with
  | make a =>
    obtain ⟨r, h', e, h1, h2, h3, -⟩ := new_run a h
    simp only [ParamOp.run, e]
    obtain ⟨k1, k2⟩ := hi.keep h1
    refine ⟨?_, hi.apart, fun x hx => ?_⟩
    · show ParamAt h'.next h' hp (hp.inMemory h' c)
      rw [k2]; exact k1.more h1.next le_rfl
    · rcases List.mem_append.1 hx with hx | hx
      · obtain ⟨a1, a2⟩ := hi.held x hx
        exact ⟨lt_of_lt_of_le a1 h1.next, a2⟩
      · obtain rfl : x = (r, false) := by simpa using hx
        exact ⟨h2, fun hb => absurd (bufs_lt hi.comp hb) (not_lt.2 h3), fun _ m hm => ((hmu m hm).trans_le h3).ne⟩
  | edit k a =>
    simp only [ParamOp.run]
    cases hk : held[k]? with
    | none => exact hi
    | some r =>
      obtain ⟨a1, a2, a3⟩ := hi.held r (List.mem_of_getElem? hk)
      refine ⟨?_, hi.apart, fun x hx => hi.held x hx⟩
      have := hi.comp.write a2 a
      have e := this.inMemory
      show ParamAt h.next _ hp (hp.inMemory (H.write r.1 a h).2 c)
      have e' : hp.inMemory (H.write r.1 a h).2 c = { hp.inMemory h c with muV := hp.muV.map (H.write r.1 a h).2.val } := e
      rw [e']
      exact this
  | ask q =>
    have hr := paramQuery_run (ppf := ppf) hi q
    have hm := meanV_in (ppf := ppf) hi (q := q)
    obtain ⟨h1, h2⟩ := hr
    simp only [ParamOp.run]
    revert hm h1 h2
    rcases q.run hp.f2 ppf hp.self (ParamState.ptrs ⟨h, hp, held⟩) h with ⟨x, h'⟩
    intro hm h1 h2
    obtain ⟨k1, k2⟩ := hi.keep h1
    have hold : ∀ x ∈ held, h'.Has x.1 ∧ x.1.buf ∉ hp.bufs ∧ (x.2 = false → ∀ m, hp.muV = some m → m.buf ≠ x.1.buf) := fun x hx =>
      ⟨lt_of_lt_of_le (hi.held x hx).1 h1.next, (hi.held x hx).2⟩
    have hcomp : ParamAt h'.next h' hp (hp.inMemory h' c) := by rw [k2]; exact k1.more h1.next le_rfl
    cases x with
    | error e => exact ⟨hcomp, hi.apart, hold⟩
    | ok r =>
      refine ⟨hcomp, hi.apart, fun x hx => ?_⟩
      rcases List.mem_append.1 hx with hx | hx
      · exact hold x hx
      · obtain rfl : x = (r, decide q.isMeanV) := by simpa using hx
        cases hv : q.value hp.f2 ppf (hp.inMemory h c).self ((ParamState.ptrs ⟨h, hp, held⟩).map h.val) with
        | error e => rw [hv] at h2; exact h2.elim
        | ok b =>
          rw [hv] at h2
          refine ⟨h2.2.1, ?_, fun hs m hm' => ?_⟩
          · by_cases hq : q.isMeanV
            · obtain ⟨m, e1, e2⟩ := hm hq rfl
              show r.buf ∉ hp.bufs
              rw [e2]
              exact hi.apart m e1
            · exact fun hb => absurd (bufs_lt hi.comp hb) (not_lt.2 (h2.1 hq))
          · have hq : ¬ q.isMeanV := by simpa using hs
            exact ((hmu m hm').trans_le (h2.1 hq)).ne
  | set f a =>
    obtain ⟨r, h', e, h1, h2, h3, h4⟩ := new_run a h
    simp only [ParamOp.run, e]
    obtain ⟨k1, k2⟩ := hi.keep h1
    have k3 := k1.more h1.next le_rfl
    have hr : OptAt h'.next h' (some r) ((some r).map h'.val) := ⟨h2, h2, rfl⟩
    have hset : ParamAt h'.next h' (hp.set r f) ((hp.set r f).inMemory h' c) := by
      rw [← k2] at k3
      cases f
      · exact ⟨k3.cube, k3.f2, hr, k3.logPxt, k3.logPztx, k3.muV, k3.sigV⟩
      · exact ⟨k3.cube, k3.f2, k3.logPt, hr, k3.logPztx, k3.muV, k3.sigV⟩
      · exact ⟨k3.cube, k3.f2, k3.logPt, k3.logPxt, hr, k3.muV, k3.sigV⟩
      · exact ⟨k3.cube, k3.f2, k3.logPt, k3.logPxt, k3.logPztx, hr, k3.sigV⟩
      · exact ⟨k3.cube, k3.f2, k3.logPt, k3.logPxt, k3.logPztx, k3.muV, hr⟩
    have hb : ∀ b ∈ (hp.set r f).bufs, b ∈ hp.bufs ∨ b = r.buf := by
      intro b hb
      cases f <;> simp only [HParam.set, HParam.bufs, List.mem_append, List.map_append, Option.toList_some, List.map_cons, List.map_nil,
        List.mem_cons, List.not_mem_nil, or_false] at hb ⊢ <;> tauto
    have hmu' : ∀ m, (hp.set r f).muV = some m → hp.muV = some m ∨ m = r := by
      intro m hm
      cases f <;> simp only [HParam.set, Option.some.injEq] at hm <;> tauto
    refine ⟨hset, fun m hm hb' => ?_, fun x hx => ⟨lt_of_lt_of_le (hi.held x hx).1 h1.next, fun hb' => ?_, fun hs m hm => ?_⟩⟩
    · rcases hmu' m hm with hm' | rfl
      · rcases hb _ hb' with h5 | h5
        · exact hi.apart m hm' h5
        · exact absurd (hmu m hm') (not_lt.2 (h5 ▸ h3))
      · -- the new array is the mean velocity
        have hf : f = .muV := by
          by_contra hf
          have : hp.muV = some m := by
            cases f <;> simp_all [HParam.set]
          exact absurd (hmu m this) (not_lt.2 h3)
        subst hf
        exact absurd (bufs_lt hi.comp (show m.buf ∈ hp.bufs from hb')) (not_lt.2 h3)
    · rcases hb _ hb' with hb' | hb'
      · exact (hi.held x hx).2.1 hb'
      · exact absurd (hi.held x hx).1 (not_lt.2 (show h.next ≤ x.1.buf from hb' ▸ h3))
    · rcases hmu' m hm with hm | rfl
      · exact (hi.held x hx).2.2 hs m hm
      · intro e
        exact absurd (hi.held x hx).1 (not_lt.2 (show h.next ≤ x.1.buf from e ▸ h3))

theorem ParamInv.history (hi : ParamInv c st) (ops : List ParamOp) : ParamInv c (ops.foldl (ParamOp.run ppf) st) := by
  induction ops generalizing st with
  | nil => exact hi
  | cons op ops ih => exact ih (hi.step op)

theorem ParamInv.start (hs : ParamStored h hp p) : ParamInv p ⟨h, hp, []⟩ :=
  ⟨by show ParamAt h.next h hp (hp.inMemory h p); rw [hs.1.inMemory]; exact hs.1, hs.2, fun r hr => by simp at hr⟩

/-- One careful action changes the parameters as the user thinks. -/
theorem ParamInv.careful (hi : ParamInv c st) (op : ParamOp) (hc : ∀ k a, op = .edit k a → ∀ r, st.held[k]? = some r → r.2 = false) :
    (op.run ppf st).comp.inMemory (op.run ppf st).heap c = op.spec (st.comp.inMemory st.heap c) := by
  obtain ⟨h, hp, held⟩ := st
  cases op with
  | make a =>
    obtain ⟨r, h', e, h1, -, -, -⟩ := new_run a h
    simp only [ParamOp.run, e, ParamOp.spec]
    exact (hi.keep h1).2
  | edit k a =>
    simp only [ParamOp.run, ParamOp.spec]
    cases hk : held[k]? with
    | none => rfl
    | some r =>
      obtain ⟨a1, a2, a3⟩ := hi.held r (List.mem_of_getElem? hk)
      have hf := hc k a rfl r hk
      have e := (hi.comp.write a2 a).inMemory
      have e' : hp.inMemory (H.write r.1 a h).2 c = { hp.inMemory h c with muV := hp.muV.map (H.write r.1 a h).2.val } := e
      show hp.inMemory (H.write r.1 a h).2 c = hp.inMemory h c
      rw [e']
      have : hp.muV.map (H.write r.1 a h).2.val = hp.muV.map h.val := by
        cases hm : hp.muV with
        | none => rfl
        | some m =>
          have hb := a3 hf m hm
          have hp' : Points h m (h.val m) := ⟨(hi.comp.muV.in' m hm).2, rfl⟩
          exact congrArg some (hp'.other (h' := (H.write r.1 a h).2) rfl (fun k hk => by simp [H.write, hk]) hb).2
      rw [this]
      rfl
  | ask q =>
    have h1 := (paramQuery_run (ppf := ppf) hi q).1
    simp only [ParamOp.run, ParamOp.spec]
    revert h1
    rcases q.run hp.f2 ppf hp.self (ParamState.ptrs ⟨h, hp, held⟩) h with ⟨x, h'⟩
    intro h1
    cases x <;> exact (hi.keep h1).2
  | set f a =>
    obtain ⟨r, h', e, h1, -, -, h4⟩ := new_run a h
    simp only [ParamOp.run, e, ParamOp.spec]
    have k2 := (hi.keep h1).2
    show (hp.set r f).inMemory h' c = (hp.inMemory h c).set a f
    have k2' : hp.inMemory h' c = hp.inMemory h c := k2
    rw [← k2']
    cases f <;> simp [HParam.set, HParam.inMemory, Param.set, h4]

theorem Run.agreeGot {s : Prop} {x : H Ptr} {v : Py (Arr Num)} (hr : Run n h x v (Got s m)) : Agree (x h) v := by
  obtain ⟨-, h3⟩ := hr
  unfold Agree
  revert h3
  rcases x h with ⟨y, h'⟩
  cases y <;> cases v <;> simp only [imp_self]
  exact fun h => h.2.2

/-! ### Theorems -/

/-- After any history, also one that overwrites every answer, every query has the outcome it has for the parameters that are in memory
at present, and for the original cube. -/
theorem C64_answers (hs : ParamStored h hp p) (ops : List ParamOp) (q : Query) :
    let st := ops.foldl (ParamOp.run ppf) ⟨h, hp, []⟩
    Agree (q.run st.comp.f2 ppf st.comp.self st.ptrs st.heap)
      (q.value st.comp.f2 ppf (st.comp.inMemory st.heap p).self (st.ptrs.map st.heap.val)) := by
  intro st
  exact (paramQuery_run ((ParamInv.start hs).history ops) q).agreeGot

/-- The parameters in memory are those last set: after any history that does not overwrite answers of `get_mean("v_tx")` and
`get_mean("v_txz")`, of queries that succeed or raise, of parameters set and of answers overwritten. -/
theorem C64_parameters (hs : ParamStored h hp p) {ops : List ParamOp} (hc : Careful ppf ⟨h, hp, []⟩ ops) :
    let st := ops.foldl (ParamOp.run ppf) ⟨h, hp, []⟩
    st.comp.inMemory st.heap p = ops.foldl ParamOp.spec p := by
  have key : ∀ (ops : List ParamOp) (st : ParamState), ParamInv p st → Careful ppf st ops →
      (ops.foldl (ParamOp.run ppf) st).comp.inMemory (ops.foldl (ParamOp.run ppf) st).heap p =
        ops.foldl ParamOp.spec (st.comp.inMemory st.heap p) := by
    intro ops
    induction ops with
    | nil => intro st _ _; rfl
    | cons op ops ih =>
      intro st hi hc
      have h1 := ih (op.run ppf st) (hi.step op) hc.2
      rw [List.foldl_cons, List.foldl_cons, h1, hi.careful op hc.1]
  have := key ops ⟨h, hp, []⟩ (ParamInv.start hs) hc
  rw [show (ParamState.mk h hp []).comp.inMemory (ParamState.mk h hp []).heap p = p from hs.1.inMemory] at this
  exact this

/-- So a query asked after such a history has the outcome it has for a component on which only the parameters have been set. -/
theorem C64_history_irrelevant (hs : ParamStored h hp p) {ops : List ParamOp} (hc : Careful ppf ⟨h, hp, []⟩ ops) (q : Query) :
    let st := ops.foldl (ParamOp.run ppf) ⟨h, hp, []⟩
    Agree (q.run st.comp.f2 ppf st.comp.self st.ptrs st.heap)
      (q.value st.comp.f2 ppf (ops.foldl ParamOp.spec p).self (st.ptrs.map st.heap.val)) := by
  intro st
  have := C64_answers (ppf := ppf) hs ops q
  rw [← C64_parameters hs hc]
  exact this

/-- No history, careful or not, changes the cube. -/
theorem C64_cube (hs : ParamStored h hp p) (ops : List ParamOp) :
    let st := ops.foldl (ParamOp.run ppf) ⟨h, hp, []⟩
    let hc := st.comp.cube
    hc = hp.cube ∧
    st.heap.val hc.deltaT = p.cube.ssps.deltaT ∧ st.heap.val hc.deltaZ = p.cube.ssps.deltaZ ∧
    st.heap.val hc.tCents = p.cube.ssps.tCents ∧ st.heap.val hc.zCents = p.cube.ssps.zCents ∧
    st.heap.val hc.tEdges = p.cube.ssps.tEdges ∧ st.heap.val hc.zEdges = p.cube.ssps.zEdges ∧
    st.heap.val hc.lightWeights = p.cube.ssps.lightWeights ∧
    st.heap.val hc.x = p.cube.x ∧ st.heap.val hc.y = p.cube.y ∧ st.heap.val hc.vEdg = p.cube.vEdg := by
  have hcube : ∀ (ops : List ParamOp) (st : ParamState), (ops.foldl (ParamOp.run ppf) st).comp.cube = st.comp.cube := by
    intro ops
    induction ops with
    | nil => intro st; rfl
    | cons op ops ih =>
      intro st
      rw [List.foldl_cons, ih]
      cases op with
      | make a =>
        obtain ⟨r, h', e, -⟩ := new_run a st.heap
        simp only [ParamOp.run, e]
      | edit k a =>
        simp only [ParamOp.run]
        cases st.held[k]? <;> rfl
      | ask q =>
        simp only [ParamOp.run]
        rcases q.run st.comp.f2 ppf st.comp.self st.ptrs st.heap with ⟨_ | _, _⟩ <;> rfl
      | set f a =>
        obtain ⟨r, h', e, -⟩ := new_run a st.heap
        simp only [ParamOp.run, e]
        cases f <;> rfl
  intro st hc
  have hi := ((ParamInv.start hs).history (ppf := ppf) ops).comp.cube
  exact ⟨hcube ops _, hi.deltaT.2.2, hi.deltaZ.2.2, hi.tCents.2.2, hi.zCents.2.2, hi.tEdges.2.2, hi.zEdges.2.2,
    hi.lightWeights.2.2, hi.x.2.2, hi.y.2.2, hi.vEdg.2.2⟩

/-- Answers stay what they were: asking a query, or setting a parameter, changes no array that the user holds; this includes answers
of `get_mean("v_tx")` when the mean velocity is set again. -/
theorem C64_answers_kept (hs : ParamStored h hp p) (ops : List ParamOp) (op : ParamOp) (hop : ∀ k a, op ≠ .edit k a) :
    let st := ops.foldl (ParamOp.run ppf) ⟨h, hp, []⟩
    ∀ r ∈ st.ptrs, (op.run ppf st).heap.val r = st.heap.val r := by
  intro st r hr
  have hi : ParamInv p st := (ParamInv.start hs).history ops
  obtain ⟨x, hx, rfl⟩ := List.mem_map.1 hr
  have hlt : x.1.buf < st.heap.next := (hi.held x hx).1
  have : Heap.Keeps st.heap.next st.heap (op.run ppf st).heap := by
    cases op with
    | make a =>
      obtain ⟨r, h', e, h1, -⟩ := new_run a st.heap
      simp only [ParamOp.run, e]; exact h1
    | edit k a => exact absurd rfl (hop k a)
    | ask q =>
      have h1 := (paramQuery_run (ppf := ppf) hi q).1
      simp only [ParamOp.run]
      revert h1
      rcases q.run st.comp.f2 ppf st.comp.self st.ptrs st.heap with ⟨_ | _, _⟩ <;> exact id
    | set f a =>
      obtain ⟨r, h', e, h1, -⟩ := new_run a st.heap
      simp only [ParamOp.run, e]; exact h1
  exact this.val hlt

/-- Every answer other than those of `get_mean("v_tx")` and `get_mean("v_txz")` is an array of its own: it shares memory with no array
of the user and none of the component. -/
theorem C64_answers_new (hs : ParamStored h hp p) (ops : List ParamOp) {q : Query} (hq : ¬ q.isMeanV) :
    let st := ops.foldl (ParamOp.run ppf) ⟨h, hp, []⟩
    ∀ r, (q.run st.comp.f2 ppf st.comp.self st.ptrs st.heap).1 = .ok r →
      (∀ r' ∈ st.ptrs, r'.buf ≠ r.buf) ∧ r.buf ∉ st.comp.bufs ∧ ∀ m, st.comp.muV = some m → m.buf ≠ r.buf := by
  intro st r hr
  have hi : ParamInv p st := (ParamInv.start hs).history ops
  have h2 := (paramQuery_run (ppf := ppf) hi q).2
  rw [hr] at h2
  cases hv : q.value st.comp.f2 ppf (st.comp.inMemory st.heap p).self (st.ptrs.map st.heap.val) with
  | error e => rw [hv] at h2; exact h2.elim
  | ok b =>
    rw [hv] at h2
    have hn := h2.1 hq
    refine ⟨fun r' hr' => ?_, fun hb => absurd (bufs_lt hi.comp hb) (not_lt.2 hn), fun m hm => ((hi.comp.muV.in' m hm).1.trans_le hn).ne⟩
    obtain ⟨x, hx, rfl⟩ := List.mem_map.1 hr'
    exact (lt_of_lt_of_le (hi.held x hx).1 hn).ne

/-- The two exceptions: `get_mean("v_tx")` hands out the component's own array. Overwriting the answer with `b` has the effect of setting
the mean velocity to `b`. -/
theorem C64_mean_shared (hs : ParamStored h hp p) {m : Ptr} (hm : hp.muV = some m) (hv : m.view = none) (lw : Bool) (b : Arr Num)
    (q : Query) :
    let st := [.ask (.mean "v_tx".toList lw), .edit 0 b].foldl (ParamOp.run ppf) ⟨h, hp, []⟩
    Agree (q.run st.comp.f2 ppf st.comp.self st.ptrs st.heap) (q.value st.comp.f2 ppf (p.set b .muV).self (st.ptrs.map st.heap.val)) := by
  intro st
  have h1 := C64_answers (ppf := ppf) hs [.ask (.mean "v_tx".toList lw), .edit 0 b] q
  have e1 : (Query.mean "v_tx".toList lw).run hp.f2 ppf hp.self [] h = (.ok m, h) := by
    show hp.meanVtx lw h = _
    unfold HParam.meanVtx
    rw [hm]
    rfl
  have e2 : ParamOp.run ppf ⟨h, hp, []⟩ (.ask (.mean "v_tx".toList lw)) = ⟨h, hp, [(m, decide (Query.mean "v_tx".toList lw).isMeanV)]⟩ := by
    simp only [ParamOp.run, ParamState.ptrs, List.map_nil, e1, List.nil_append]
  have e3 : st = ⟨(H.write m b h).2, hp, [(m, decide (Query.mean "v_tx".toList lw).isMeanV)]⟩ := by
    show ParamOp.run ppf (ParamOp.run ppf ⟨h, hp, []⟩ (.ask (.mean "v_tx".toList lw))) (.edit 0 b) = _
    rw [e2]
    rfl
  have e4 : st.comp.inMemory st.heap p = p.set b .muV := by
    rw [e3]
    have := (hs.1.write (hs.2 m hm) b).inMemory
    refine this.trans ?_
    have : (H.write m b h).2.val m = b := by simp [H.write, Heap.val, hv]
    simp [Param.set, hm, this]
  have h1' : Agree (q.run st.comp.f2 ppf st.comp.self st.ptrs st.heap)
    (q.value st.comp.f2 ppf (st.comp.inMemory st.heap p).self (st.ptrs.map st.heap.val)) := h1
  rw [e4] at h1'
  exact h1'

end

/-! ### The hypotheses are met: every parametric component can be stored in memory -/

/-- Fifteen buffers. -/
def storeParamHeap (p : Param) : Heap where
  next := 15
  mem k := [p.cube.ssps.deltaT, p.cube.ssps.deltaZ, p.cube.ssps.tCents, p.cube.ssps.zCents, p.cube.ssps.tEdges, p.cube.ssps.zEdges,
    p.cube.ssps.lightWeights, p.cube.x, p.cube.y, p.cube.vEdg, p.logPt.getD p.cube.x, p.logPxt.getD p.cube.x, p.logPztx.getD p.cube.x,
    p.muV.getD p.cube.x, p.sigV.getD p.cube.x].getD k p.cube.x
  drawn := 0

def storeParam (p : Param) : HParam where
  cube := storeCube p.cube
  f2 := p.f2
  logPt := p.logPt.map fun _ => ⟨10, none⟩
  logPxt := p.logPxt.map fun _ => ⟨11, none⟩
  logPztx := p.logPztx.map fun _ => ⟨12, none⟩
  muV := p.muV.map fun _ => ⟨13, none⟩
  sigV := p.sigV.map fun _ => ⟨14, none⟩

theorem storedParam (p : Param) : ParamStored (storeParamHeap p) (storeParam p) p := by
  have at' (k : ℕ) (hk : k < 15) (b : Arr Num) (hb : (storeParamHeap p).mem k = b) : OldAt 15 (storeParamHeap p) ⟨k, none⟩ b := ⟨hk, hk, hb⟩
  have opt (k : ℕ) (hk : k < 15) (b : Option (Arr Num)) (hb : (storeParamHeap p).mem k = b.getD p.cube.x) :
      OptAt 15 (storeParamHeap p) (b.map fun _ => ⟨k, none⟩) b := by
    cases b with
    | none => trivial
    | some b => exact at' k hk b hb
  refine ⟨⟨⟨le_rfl, at' 0 (by omega) _ rfl, at' 1 (by omega) _ rfl, at' 2 (by omega) _ rfl, at' 3 (by omega) _ rfl,
    at' 4 (by omega) _ rfl, at' 5 (by omega) _ rfl, at' 6 (by omega) _ rfl, at' 7 (by omega) _ rfl, at' 8 (by omega) _ rfl,
    at' 9 (by omega) _ rfl, rfl, rfl⟩, rfl, opt 10 (by omega) _ rfl, opt 11 (by omega) _ rfl, opt 12 (by omega) _ rfl,
    opt 13 (by omega) _ rfl, opt 14 (by omega) _ rfl⟩, fun m hm => ?_⟩
  obtain ⟨a, ha, rfl⟩ : ∃ a, p.muV = some a ∧ (⟨13, none⟩ : Ptr) = m := by
    simpa [storeParam] using hm
  rcases p with ⟨c, f2, _ | _, _ | _, _ | _, _ | _, _ | _⟩ <;> simp [HParam.bufs, storeParam, storeCube]

/-- A history that sets parameters, overwrites answers, and asks for the shared array without overwriting it. -/
def demoParamHistory (a junk : Arr Num) : List ParamOp :=
  [.ask (.p "t".toList true true), .edit 0 junk, .set .muV a, .ask (.mean "v_tx".toList false), .ask (.lMoment "v_x".toList 3 false)]

/-- It is careful. -/
theorem demoParamHistory_careful (ppf : ℝ → ℝ) (p : Param) (a junk : Arr Num) :
    Careful ppf ⟨storeParamHeap p, storeParam p, []⟩ (demoParamHistory a junk) := by
  refine ⟨by simp, ?_, by simp, by simp, by simp, trivial⟩
  intro k b _ r hr
  simp only [ParamOp.run] at hr
  revert hr
  rcases (Query.p "t".toList true true).run (storeParam p).f2 ppf (storeParam p).self
    (ParamState.ptrs ⟨storeParamHeap p, storeParam p, []⟩) (storeParamHeap p) with ⟨_ | x, h'⟩
  · simp
  · intro hr
    have := List.mem_of_getElem? hr
    obtain rfl : r = (x, decide (Query.p "t".toList true true).isMeanV) := by simpa using this
    exact decide_eq_false id

attribute [local irreducible] Agree in
/-- After it, `get_p("v_x")` gives what it gives for the component with the new mean velocity and the other parameters as before. -/
example (ppf : ℝ → ℝ) (p : Param) (a junk : Arr Num) :
    let st := (demoParamHistory a junk).foldl (ParamOp.run ppf) ⟨storeParamHeap p, storeParam p, []⟩
    Agree ((Query.p "v_x".toList true false).run st.comp.f2 ppf st.comp.self st.ptrs st.heap)
      ((Query.p "v_x".toList true false).value st.comp.f2 ppf (p.set a .muV).self (st.ptrs.map st.heap.val)) :=
  C64_history_irrelevant (storedParam p) (demoParamHistory_careful ppf p a junk) (.p "v_x".toList true false)

attribute [local irreducible] Agree in
example (ppf : ℝ → ℝ) (p : Param) (a b : Arr Num) (hp : p.muV = some a) :
    let st := [.ask (.mean "v_tx".toList true), .edit 0 b].foldl (ParamOp.run ppf) ⟨storeParamHeap p, storeParam p, []⟩
    Agree ((Query.central "v".toList 2 false).run st.comp.f2 ppf st.comp.self st.ptrs st.heap)
      ((Query.central "v".toList 2 false).value st.comp.f2 ppf (p.set b .muV).self (st.ptrs.map st.heap.val)) :=
  C64_mean_shared (storedParam p) (m := ⟨13, none⟩) (by simp [storeParam, hp]) rfl true b _

example (ppf : ℝ → ℝ) (p : Param) (a junk : Arr Num) :
    let st := (demoParamHistory a junk).foldl (ParamOp.run ppf) ⟨storeParamHeap p, storeParam p, []⟩
    ∀ r, ((Query.p "v_x".toList true false).run st.comp.f2 ppf st.comp.self st.ptrs st.heap).1 = .ok r →
      (∀ r' ∈ st.ptrs, r'.buf ≠ r.buf) ∧ r.buf ∉ st.comp.bufs ∧ ∀ m, st.comp.muV = some m → m.buf ≠ r.buf :=
  C64_answers_new (storedParam p) (demoParamHistory a junk) (q := .p "v_x".toList true false) id

end PKM
