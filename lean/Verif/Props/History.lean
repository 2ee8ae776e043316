import Verif.HeapQuery
import Verif.Props.Base

/-!
# C48: queries never change a component

A user holds a component (with its cube) and some arrays: arrays they made, and arrays returned by earlier queries. They ask
queries, and overwrite arrays they hold, in any order.
-/

open scoped Classical

noncomputable section

namespace PKM
open Np

/-! ### Specification -/

/-- A query, with its arguments. `f2` (the value of `factorial2(-1)`) and `ppf` (the normal quantile function) belong to scipy.
The centre of `noncentral` is the `k`-th array held by the user. -/
inductive Query
  | p (w : PyStr) (density lw : Bool)
  | logP (w : PyStr) (density lw : Bool)
  | mean (w : PyStr) (lw : Bool)
  | noncentral (w : PyStr) (j : ℕ) (k : ℕ) (lw : Bool)
  | central (w : PyStr) (j : ℕ) (lw : Bool)
  | variance (w : PyStr) (lw : Bool)
  | dispersion (w : PyStr) (lw : Bool)
  | normalised (w : PyStr) (j : ℕ) (lw : Bool)
  | excess (w : PyStr) (j : ℕ) (lw : Bool)
  | covariance (w : PyStr) (lw : Bool)
  | correlation (w : PyStr) (lw : Bool)
  | lMoment (w : PyStr) (j : ℤ) (lw : Bool)
  | normalisedL (w : PyStr) (j : ℤ) (lw : Bool)
  | excessL (w : PyStr) (j : ℤ) (lw : Bool)
  | volume (w : PyStr)

/-- The query made in memory, for a user who holds the array objects `held`. -/
def Query.run (f2 : ℝ) (ppf : ℝ → ℝ) (s : HSelf) (held : List Ptr) : Query → H Ptr
  | .p w d lw => HComp.getP s w d lw
  | .logP w d lw => HComp.getLogP s w d lw
  | .mean w lw => HComp.getMean s w lw
  | .noncentral w j k lw => match held[k]? with
    | some mu => HComp.getNoncentralMoment s w j mu lw
    | none => H.throw .indexError
  | .central w j lw => HComp.getCentralMoment s w j lw
  | .variance w lw => (HComp.obj s).getVariance w lw
  | .dispersion w lw => (HComp.obj s).getDispersion w lw
  | .normalised w j lw => (HComp.obj s).getNormalisedCentralMoment w j lw
  | .excess w j lw => (HComp.obj s).getExcessCentralMoment f2 w j lw
  | .covariance w lw => (HComp.obj s).getCovariance w lw
  | .correlation w lw => (HComp.obj s).getCorrelation w lw
  | .lMoment w j lw => (HComp.obj s).getLMoment w j lw
  | .normalisedL w j lw => (HComp.obj s).getNormalisedLMoment w j lw
  | .excessL w j lw => (HComp.obj s).getExcessLMoment ppf w j lw
  | .volume w => s.cube.constructVolumeElement w

/-- What the query returns according to the memoryless model, in which a component is the immutable pair of a cube and a density;
`held` are the contents of the arrays held by the user. -/
def Query.value (f2 : ℝ) (ppf : ℝ → ℝ) (s : Self) (held : List (Arr Num)) : Query → Py (Arr Num)
  | .p w d lw => Component.getP s w d lw
  | .logP w d lw => Component.getLogP s w d lw
  | .mean w lw => Component.getMean s w lw
  | .noncentral w j k lw => match held[k]? with
    | some mu => Component.getNoncentralMoment s w j mu lw
    | none => .error .indexError
  | .central w j lw => Component.getCentralMoment s w j lw
  | .variance w lw => (Component.obj s).getVariance w lw
  | .dispersion w lw => (Component.obj s).getDispersion w lw
  | .normalised w j lw => (Component.obj s).getNormalisedCentralMoment w j lw
  | .excess w j lw => (Component.obj s).getExcessCentralMoment f2 w j lw
  | .covariance w lw => (Component.obj s).getCovariance w lw
  | .correlation w lw => (Component.obj s).getCorrelation w lw
  | .lMoment w j lw => (Component.obj s).getLMoment w j lw
  | .normalisedL w j lw => (Component.obj s).getNormalisedLMoment w j lw
  | .excessL w j lw => (Component.obj s).getExcessLMoment ppf w j lw
  | .volume w => s.cube.constructVolumeElement w

/-- What a user can do: make an array, overwrite the `k`-th array they hold (also through a view), or ask a query. -/
inductive UserOp
  | make (a : Arr Num)
  | edit (k : ℕ) (a : Arr Num)
  | ask (q : Query)

/-- Effect on the memory and on the arrays held. -/
def UserOp.run (f2 : ℝ) (ppf : ℝ → ℝ) (s : HSelf) (st : Heap × List Ptr) : UserOp → Heap × List Ptr
  | .make a => match H.new (.ok a) st.1 with
    | (.ok r, h) => (h, st.2 ++ [r])
    | (.error _, h) => (h, st.2)
  | .edit k a => match st.2[k]? with
    | some r => ((H.write r a st.1).2, st.2)
    | none => st
  | .ask q => match q.run f2 ppf s st.2 st.1 with
    | (.ok r, h) => (h, st.2 ++ [r])
    | (.error _, h) => (h, st.2)

/-- A component in memory: its cube and density occupy buffers of the memory `h`, in any arrangement (they may share buffers). -/
def Stored (h : Heap) (hc : HCube) (c : IFUCube) (o : Ptr) (a : Arr Num) : Prop :=
  CubeAt h.next h hc c ∧ OldAt h.next h o a

/-- Two outcomes agree: the same exception, or an array with the same contents. -/
def Agree (out : Py Ptr × Heap) (v : Py (Arr Num)) : Prop :=
  match out.1, v with
  | .ok r, .ok a => out.2.val r = a
  | .error e, .error e' => e = e'
  | _, _ => False

/-! ### Theorems -/

theorem Run.agree {n m : ℕ} {h : Heap} {x : H Ptr} {v : Py (Arr Num)} (hr : Run n h x v (Own m)) : Agree (x h) v := by
  obtain ⟨-, h3⟩ := hr
  unfold Agree
  revert h3
  rcases x h with ⟨y, h'⟩
  cases y <;> cases v <;> simp only [imp_self]
  exact fun h => h.2.2

section
variable {f2 : ℝ} {ppf : ℝ → ℝ} {n : ℕ} {hc : HCube} {c : IFUCube} {o : Ptr} {a : Arr Num}

/-- The arrays held by the user exist, and none shares a buffer with the component. -/
def HeldOk (n : ℕ) (st : Heap × List Ptr) : Prop := ∀ r ∈ st.2, n ≤ r.buf ∧ st.1.Has r

/-- The answer to the query may be an array of the component. -/
def Query.shares (sh : PyStr → Prop) : Query → Prop
  | .mean w _ => sh w
  | _ => False

theorem query_sound {sh : PyStr → Prop} {I : Heap → Prop} {hs : HSelf} {s : Self} (S : MemSound n sh I hs s) {h : Heap} {held : List Ptr}
    (hi : I h) (hh : ∀ r ∈ held, h.Has r) (q : Query) :
    Run h.next h (q.run f2 ppf hs held) (q.value f2 ppf s (held.map h.val)) (Got (q.shares sh) h.next) := by
  have O := S.obj
  have got {m : H Ptr} {v : Py (Arr Num)} {c : Prop} (hr : Run h.next h m v (Own h.next)) : Run h.next h m v (Got c h.next) :=
    hr.ret le_rfl fun _ _ _ hR => hR.got
  cases q with
  | p w d lw => exact got (getP_run S hi w d lw)
  | logP w d lw => exact got (getLogP_run S hi w d lw)
  | mean w lw => exact getMean_run S hi w lw
  | noncentral w j k lw =>
    simp only [Query.run, Query.value, List.getElem?_map]
    cases hk : held[k]? with
    | none => exact Run.throw
    | some mu => exact got (getNoncentralMoment_run S hi w j ⟨hh mu (List.mem_of_getElem? hk), rfl⟩ lw)
  | central w j lw => exact got (getCentralMoment_run S hi w j lw)
  | variance w lw => exact got (getVariance_run O hi w lw)
  | dispersion w lw => exact got (getDispersion_run O hi w lw)
  | normalised w j lw => exact got (getNormalisedCentralMoment_run O hi w j lw)
  | excess w j lw => exact got (getExcessCentralMoment_run f2 O hi w j lw)
  | covariance w lw => exact got (getCovariance_run O hi w lw)
  | correlation w lw => exact got (getCorrelation_run O hi w lw)
  | lMoment w j lw => exact got (getLMoment_run O hi w j lw)
  | normalisedL w j lw => exact got (getNormalisedLMoment_run O hi w j lw)
  | excessL w j lw => exact got (getExcessLMoment_run ppf O hi w j lw)
  | volume w => exact got (constructVolumeElement_run (S.cube h hi) w)

theorem query_run {h : Heap} {held : List Ptr} (hi : CubeAt n h hc c ∧ OldAt n h o a) (hh : ∀ r ∈ held, h.Has r) (q : Query) :
    Run h.next h (q.run f2 ppf (HComp.baseSelf hc o) held) (q.value f2 ppf (Component.baseSelf c a) (held.map h.val)) (Own h.next) := by
  refine (query_sound (f2 := f2) (ppf := ppf) (baseSound n hc c o a) hi hh q).ret le_rfl fun _ _ _ hR => ⟨hR.1 ?_, hR.2⟩
  cases q <;> exact id

theorem user_step {st : Heap × List Ptr} (hi : CubeAt n st.1 hc c ∧ OldAt n st.1 o a) (hh : HeldOk n st) (op : UserOp) :
    Heap.Keeps n st.1 (op.run f2 ppf (HComp.baseSelf hc o) st).1 ∧ HeldOk n (op.run f2 ppf (HComp.baseSelf hc o) st) := by
  obtain ⟨h, held⟩ := st
  have add {m : H Ptr} {p : Py (Arr Num)} (hr : Run h.next h m p (Own h.next)) :
      Heap.Keeps n h (match m h with
        | (.ok r, h) => (h, held ++ [r])
        | (.error _, h) => (h, held) : Heap × List Ptr).1 ∧ HeldOk n (match m h with
        | (.ok r, h) => (h, held ++ [r])
        | (.error _, h) => (h, held)) := by
    obtain ⟨h1, h2⟩ := hr
    have hn : n ≤ h.next := hi.1.le
    revert h1 h2
    rcases m h with ⟨r, h'⟩
    intro h1 h2
    have hold : ∀ x ∈ held, n ≤ x.buf ∧ h'.Has x := fun x hx => ⟨(hh x hx).1, lt_of_lt_of_le (hh x hx).2 h1.next⟩
    cases r with
    | error e => exact ⟨h1.mono hn, hold⟩
    | ok r =>
      refine ⟨h1.mono hn, fun x hx => ?_⟩
      rcases List.mem_append.1 hx with hx | hx
      · exact hold x hx
      · obtain rfl : x = r := by simpa using hx
        cases p with
        | error e => exact h2.elim
        | ok b => exact ⟨hn.trans h2.1, h2.2.1⟩
  cases op with
  | make b => exact add ((Run.fresh b).ret le_rfl fun _ _ _ hR => hR.own)
  | ask q => exact add (query_run hi (fun r hr => (hh r hr).2) q)
  | edit k b =>
    simp only [UserOp.run]
    cases hk : held[k]? with
    | none => exact ⟨.refl _ _, hh⟩
    | some r =>
      have hr := hh r (List.mem_of_getElem? hk)
      refine ⟨⟨le_rfl, fun j hj => ?_⟩, fun x hx => hh x hx⟩
      have : j ≠ r.buf := by have := hr.1; omega
      simp [H.write, this]

theorem user_history {st : Heap × List Ptr} (hi : CubeAt n st.1 hc c ∧ OldAt n st.1 o a) (hh : HeldOk n st) (ops : List UserOp) :
    Heap.Keeps n st.1 (ops.foldl (UserOp.run f2 ppf (HComp.baseSelf hc o)) st).1 ∧
      HeldOk n (ops.foldl (UserOp.run f2 ppf (HComp.baseSelf hc o)) st) := by
  induction ops generalizing st with
  | nil => exact ⟨.refl _ _, hh⟩
  | cons op ops ih =>
    obtain ⟨h1, h2⟩ := user_step (f2 := f2) (ppf := ppf) hi hh op
    obtain ⟨h3, h4⟩ := ih ⟨hi.1.keep h1 le_rfl, hi.2.keep h1 le_rfl⟩ h2
    exact ⟨h1.trans h3, h4⟩

/-- No history of queries, and of edits of the returned arrays, changes the density given to the component, or any array of its
cube: bin widths, centres and edges, positions, velocity edges, light weights. Queries may succeed or raise. -/
theorem C48_unchanged {h : Heap} (hs : Stored h hc c o a) (ops : List UserOp) :
    let h' := (ops.foldl (UserOp.run f2 ppf (HComp.baseSelf hc o)) (h, [])).1
    h'.val o = a ∧
    h'.val hc.deltaT = c.ssps.deltaT ∧ h'.val hc.deltaZ = c.ssps.deltaZ ∧
    h'.val hc.tCents = c.ssps.tCents ∧ h'.val hc.zCents = c.ssps.zCents ∧
    h'.val hc.tEdges = c.ssps.tEdges ∧ h'.val hc.zEdges = c.ssps.zEdges ∧
    h'.val hc.lightWeights = c.ssps.lightWeights ∧
    h'.val hc.x = c.x ∧ h'.val hc.y = c.y ∧ h'.val hc.vEdg = c.vEdg := by
  obtain ⟨h1, -⟩ := user_history (f2 := f2) (ppf := ppf) (st := (h, [])) hs (fun _ hr => by simp at hr) ops
  have h2 := hs.1.keep h1 le_rfl
  exact ⟨(hs.2.keep h1 le_rfl).2.2, h2.deltaT.2.2, h2.deltaZ.2.2, h2.tCents.2.2, h2.zCents.2.2, h2.tEdges.2.2, h2.zEdges.2.2,
    h2.lightWeights.2.2, h2.x.2.2, h2.y.2.2, h2.vEdg.2.2⟩

/-- Results do not depend on the history: after any history, every query has the outcome it has for the original density and cube. -/
theorem C48_answers {h : Heap} (hs : Stored h hc c o a) (ops : List UserOp) (q : Query) :
    let st := ops.foldl (UserOp.run f2 ppf (HComp.baseSelf hc o)) (h, [])
    Agree (q.run f2 ppf (HComp.baseSelf hc o) st.2 st.1) (q.value f2 ppf (Component.baseSelf c a) (st.2.map st.1.val)) := by
  intro st
  obtain ⟨h1, h2⟩ := user_history (f2 := f2) (ppf := ppf) (st := (h, [])) hs (fun _ hr => by simp at hr) ops
  have h3 := query_run (f2 := f2) (ppf := ppf) (held := st.2) ⟨hs.1.keep h1 le_rfl, hs.2.keep h1 le_rfl⟩
    (fun r hr => (h2 r hr).2) q
  exact h3.agree

/-- Answers stay what they were: a later query changes no array that the user holds (the answers of earlier queries, the centre
given to `get_noncentral_moment`); and each answer is an array of its own, sharing memory with none of the others. -/
theorem C48_answers_kept {h : Heap} (hs : Stored h hc c o a) (ops : List UserOp) (q : Query) :
    let st := ops.foldl (UserOp.run f2 ppf (HComp.baseSelf hc o)) (h, [])
    let st' := UserOp.run f2 ppf (HComp.baseSelf hc o) st (.ask q)
    ∀ r ∈ st.2, st'.1.val r = st.1.val r ∧ ∀ r', st'.2 = st.2 ++ [r'] → r'.buf ≠ r.buf := by
  intro st st' r hr
  obtain ⟨h1, h2⟩ := user_history (f2 := f2) (ppf := ppf) (st := (h, [])) hs (fun _ hr => by simp at hr) ops
  obtain ⟨h3, h4⟩ := query_run (f2 := f2) (ppf := ppf) (held := st.2) ⟨hs.1.keep h1 le_rfl, hs.2.keep h1 le_rfl⟩
    (fun r hr => (h2 r hr).2) q
  have hlt : r.buf < st.1.next := (h2 r hr).2
  have hst' : st' = UserOp.run f2 ppf (HComp.baseSelf hc o) st (.ask q) := rfl
  simp only [UserOp.run] at hst'
  revert h3 h4 hst'
  rcases q.run f2 ppf (HComp.baseSelf hc o) st.2 st.1 with ⟨x, h'⟩
  intro h3 h4 hst'
  cases x with
  | error e =>
    simp only at hst'
    rw [hst']
    refine ⟨h3.val hlt, fun r' hr' => ?_⟩
    have := congrArg List.length hr'
    simp at this
  | ok x =>
    simp only at hst'
    rw [hst']
    refine ⟨h3.val hlt, fun r' hr' => ?_⟩
    obtain rfl : x = r' := by simpa using hr'
    cases hv : q.value f2 ppf (Component.baseSelf c a) (st.2.map st.1.val) with
    | error e => rw [hv] at h4; exact h4.elim
    | ok b =>
      rw [hv] at h4
      have h5 : st.1.next ≤ x.buf := h4.1
      omega

end

/-! ### What is shared

`get_variable_values` and `get_variable_edges` hand out the cube's own arrays, and the constructor keeps the user's array. -/

/-- The array returned by `get_variable_values("t")` is the cube's own: after overwriting it, queries have the outcome they have for a
cube with the new ages. -/
theorem C48_values_shared {f2 : ℝ} {ppf : ℝ → ℝ} {h : Heap} {hc : HCube} {c : IFUCube} {o : Ptr} {a : Arr Num} (hs : Stored h hc c o a)
    (b : Arr Num) (hv : hc.tCents.view = none)
    (hsep : ∀ p ∈ [hc.deltaT, hc.deltaZ, hc.zCents, hc.tEdges, hc.zEdges, hc.lightWeights, hc.x, hc.y, hc.vEdg, o],
      p.buf ≠ hc.tCents.buf) (q : Query) :
    ∃ r, (hc.getVariableValues ['t'] h).1 = .ok r ∧
      Agree (q.run f2 ppf (HComp.baseSelf hc o) [] (H.write r b h).2)
        (q.value f2 ppf (Component.baseSelf { c with ssps := { c.ssps with tCents := b } } a) []) := by
  refine ⟨hc.tCents, rfl, ?_⟩
  have other {p : Ptr} {x : Arr Num} (hp : p.buf ≠ hc.tCents.buf) (h1 : OldAt h.next h p x) :
      OldAt h.next (H.write hc.tCents b h).2 p x :=
    ⟨h1.1, h1.2.other rfl (fun k hk => by simp [H.write, hk]) hp⟩
  simp only [List.mem_cons, List.not_mem_nil, or_false, forall_eq_or_imp, forall_eq] at hsep
  obtain ⟨s1, s2, s3, s4, s5, s6, s7, s8, s9, s10⟩ := hsep
  have h1 : CubeAt h.next (H.write hc.tCents b h).2 hc { c with ssps := { c.ssps with tCents := b } } :=
    ⟨le_rfl, other s1 hs.1.deltaT, other s2 hs.1.deltaZ, ⟨hs.1.tCents.1, hs.1.tCents.2.1, by simp [H.write, Heap.val, hv]⟩,
      other s3 hs.1.zCents, other s4 hs.1.tEdges, other s5 hs.1.zEdges, other s6 hs.1.lightWeights, other s7 hs.1.x, other s8 hs.1.y,
      other s9 hs.1.vEdg, hs.1.dx, hs.1.dy⟩
  exact (query_run (held := []) ⟨h1, other s10 hs.2⟩ (by simp) q).agree

/-- Bin centres in `v`, and spatial edges, are new arrays. -/
theorem C48_values_new {h : Heap} {hc : HCube} {c : IFUCube} (hh : CubeAt h.next h hc c) :
    (∀ r, (hc.getVariableValues ['v'] h).1 = .ok r → h.next ≤ r.buf) ∧
    ∀ r, (hc.getVariableEdges ['x', '1'] h).1 = .ok r ∨ (hc.getVariableEdges ['x', '2'] h).1 = .ok r → h.next ≤ r.buf := by
  have key {m : H Ptr} {p : Py (Arr Num)} (hr : Run h.next h m p (Own h.next)) (r : Ptr) (h1 : (m h).1 = .ok r) : h.next ≤ r.buf := by
    obtain ⟨-, h2⟩ := hr
    rw [h1] at h2
    cases p with
    | error e => exact h2.elim
    | ok b => exact h2.1
  have edges {x : Ptr} {X : Arr Num} {dx : Num} (hx : Points h x X) :
      Run h.next h (HCube.spatialEdges x dx) (IFUCube.spatialEdges X dx) (Own h.next) := by
    unfold HCube.spatialEdges IFUCube.spatialEdges
    refine Run.step1 (f := fun a => sub a (scalar (dx / .fin 2))) le_rfl hx fun h1 r b u1 hr => ?_
    refine Run.stepIx (hx.up u1) fun v b' _ hv => ?_
    refine Run.step1 (f := fun a => add a (scalar (dx / .fin 2))) u1.next hv fun h2 r2 b2 u2 hr2 => ?_
    refine Run.step1 (f := fun a => stack [a]) (u1.trans u2).next hr2.pt fun h3 r3 b3 u3 hr3 => ?_
    have U := ((u1.trans u2).trans u3).next
    exact (Run.op2 _ ((hr.pt.up u2).up u3) hr3.pt).ret U fun _ _ _ hR => hR.own.mono U
  refine ⟨key (p := c.getVariableValues ['v']) ?_, ?_⟩
  · unfold HCube.getVariableValues IFUCube.getVariableValues
    simp only [show ¬ (['v'] : PyStr) = ['t'] by decide, if_false, if_true]
    refine Run.stepIx hh.vEdg.2 fun v b _ hv => ?_
    refine Run.stepIx hh.vEdg.2 fun v' b' _ hv' => ?_
    refine Run.step2 le_rfl hv hv' fun h3 r e u hr => ?_
    exact (Run.map _ hr.pt).ret u.next fun _ _ _ hR => hR.own.mono u.next
  · rintro r (hr | hr)
    · exact key (m := hc.getVariableEdges ['x', '1']) (edges hh.x.2) r hr
    · exact key (m := hc.getVariableEdges ['x', '2']) (edges hh.y.2) r hr

/-- The constructor keeps the user's array: after overwriting that array, queries have the outcome they have for the new density. -/
theorem C48_density_shared {f2 : ℝ} {ppf : ℝ → ℝ} {h : Heap} {hc : HCube} {c : IFUCube} {o : Ptr} {a : Arr Num}
    (hs : Stored h hc c o a) (b : Arr Num) (hv : o.view = none)
    (hsep : ∀ p ∈ [hc.deltaT, hc.deltaZ, hc.tCents, hc.zCents, hc.tEdges, hc.zEdges, hc.lightWeights, hc.x, hc.y, hc.vEdg],
      p.buf ≠ o.buf) (q : Query) :
    Agree (q.run f2 ppf (HComp.baseSelf hc o) [] (H.write o b h).2) (q.value f2 ppf (Component.baseSelf c b) []) := by
  have other {p : Ptr} {x : Arr Num} (hp : p.buf ≠ o.buf) (h1 : OldAt h.next h p x) : OldAt h.next (H.write o b h).2 p x :=
    ⟨h1.1, h1.2.other rfl (fun k hk => by simp [H.write, hk]) hp⟩
  simp only [List.mem_cons, List.not_mem_nil, or_false, forall_eq_or_imp, forall_eq] at hsep
  obtain ⟨s1, s2, s3, s4, s5, s6, s7, s8, s9, s10⟩ := hsep
  have h1 : CubeAt h.next (H.write o b h).2 hc c :=
    ⟨le_rfl, other s1 hs.1.deltaT, other s2 hs.1.deltaZ, other s3 hs.1.tCents, other s4 hs.1.zCents, other s5 hs.1.tEdges,
      other s6 hs.1.zEdges, other s7 hs.1.lightWeights, other s8 hs.1.x, other s9 hs.1.y, other s10 hs.1.vEdg, hs.1.dx, hs.1.dy⟩
  exact (query_run (held := []) ⟨h1, hs.2.1, hs.2.2.1, by simp [H.write, Heap.val, hv]⟩ (by simp) q).agree

/-! ### The hypotheses are met: every cube and density can be stored in memory -/

/-- Eleven buffers. -/
def storeHeap (c : IFUCube) (a : Arr Num) : Heap where
  next := 11
  mem k := [c.ssps.deltaT, c.ssps.deltaZ, c.ssps.tCents, c.ssps.zCents, c.ssps.tEdges, c.ssps.zEdges, c.ssps.lightWeights, c.x, c.y,
    c.vEdg, a].getD k a
  drawn := 0

def storeCube (c : IFUCube) : HCube where
  deltaT := ⟨0, none⟩
  deltaZ := ⟨1, none⟩
  tCents := ⟨2, none⟩
  zCents := ⟨3, none⟩
  tEdges := ⟨4, none⟩
  zEdges := ⟨5, none⟩
  lightWeights := ⟨6, none⟩
  x := ⟨7, none⟩
  y := ⟨8, none⟩
  vEdg := ⟨9, none⟩
  dx := c.dx
  dy := c.dy

theorem stored (c : IFUCube) (a : Arr Num) : Stored (storeHeap c a) (storeCube c) c ⟨10, none⟩ a := by
  have at' (k : ℕ) (hk : k < 11) (b : Arr Num) (hb : (storeHeap c a).mem k = b) : OldAt 11 (storeHeap c a) ⟨k, none⟩ b := ⟨hk, hk, hb⟩
  exact ⟨⟨le_rfl, at' 0 (by omega) _ rfl, at' 1 (by omega) _ rfl, at' 2 (by omega) _ rfl, at' 3 (by omega) _ rfl,
    at' 4 (by omega) _ rfl, at' 5 (by omega) _ rfl, at' 6 (by omega) _ rfl, at' 7 (by omega) _ rfl, at' 8 (by omega) _ rfl,
    at' 9 (by omega) _ rfl, rfl, rfl⟩, at' 10 (by omega) _ rfl⟩

/-- A history with edits of answers, and a query that uses an edited answer. -/
def demoHistory (junk : Arr Num) : List UserOp :=
  [.ask (.p ['t'] true true), .edit 0 junk, .ask (.lMoment ['v', '_', 'x'] 3 false), .ask (.noncentral ['t'] 2 0 false), .edit 1 junk]

attribute [local irreducible] Agree in
/-- After it, `get_p("t_x")` still gives what it gives for the original density. -/
example (f2 : ℝ) (ppf : ℝ → ℝ) (c : IFUCube) (a junk : Arr Num) :
    let st := (demoHistory junk).foldl (UserOp.run f2 ppf (HComp.baseSelf (storeCube c) ⟨10, none⟩)) (storeHeap c a, [])
    Agree ((Query.p ['t', '_', 'x'] true false).run f2 ppf (HComp.baseSelf (storeCube c) ⟨10, none⟩) st.2 st.1)
      ((Query.p ['t', '_', 'x'] true false).value f2 ppf (Component.baseSelf c a) (st.2.map st.1.val)) :=
  C48_answers (stored c a) (demoHistory junk) (.p ['t', '_', 'x'] true false)

example (f2 : ℝ) (ppf : ℝ → ℝ) (c : IFUCube) (a b : Arr Num) :
    ∃ r, ((storeCube c).getVariableValues ['t'] (storeHeap c a)).1 = .ok r ∧
      Agree ((Query.mean ['t'] false).run f2 ppf (HComp.baseSelf (storeCube c) ⟨10, none⟩) [] (H.write r b (storeHeap c a)).2)
        ((Query.mean ['t'] false).value f2 ppf (Component.baseSelf { c with ssps := { c.ssps with tCents := b } } a) []) :=
  C48_values_shared (stored c a) b rfl (by simp [storeCube]) _

example (f2 : ℝ) (ppf : ℝ → ℝ) (c : IFUCube) (a b : Arr Num) :
    Agree ((Query.mean ['t'] false).run f2 ppf (HComp.baseSelf (storeCube c) ⟨10, none⟩) [] (H.write ⟨10, none⟩ b (storeHeap c a)).2)
      ((Query.mean ['t'] false).value f2 ppf (Component.baseSelf c b) []) :=
  C48_density_shared (stored c a) b rfl (by simp [storeCube]) _

end PKM
