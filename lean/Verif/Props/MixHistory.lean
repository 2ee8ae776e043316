import Verif.HeapMixLemmas
import Verif.Props.ParamHistory

/-!
# C67: mixtures over any history

A user holds a cube, components on it, lists of components, mixtures made of such lists, and arrays: arrays they made, answers of earlier
queries, and data cubes taken from components. Components may be members of several mixtures. In any order, the user sets parameters of
components, evaluates data cubes, asks components and mixtures queries, makes lists and mixtures, replaces entries of lists, and
overwrites arrays they hold.
-/

open scoped Classical

noncomputable section

namespace PKM
open Np

/-! ### Specification -/

/-- A component other than a mixture, in memory: with a density array, or parametric. -/
inductive HCore
  | plain (cube : HCube) (dens : Ptr)
  | param (comp : HParam)

/-- The same, without memory. -/
inductive Core
  | plain (cube : IFUCube) (dens : Arr Num)
  | param (comp : Param)

def HCore.self : HCore → HSelf
  | .plain c o => HComp.baseSelf c o
  | .param p => p.self

def Core.self : Core → Self
  | .plain c a => Component.baseSelf c a
  | .param p => p.self

/-- Rebinding a parameter; a component with a density array has none. -/
def HCore.set (o : Ptr) (f : ParamField) : HCore → HCore
  | .plain c d => .plain c d
  | .param p => .param (p.set o f)

def Core.set (a : Arr Num) (f : ParamField) : Core → Core
  | .plain c d => .plain c d
  | .param p => .param (p.set a f)

/-- A component with its data cube `ybar`, if it has been evaluated. -/
structure HMember where
  core : HCore
  ybar : Option Ptr

structure Member where
  core : Core
  ybar : Option (Arr Num)

def HMember.child (m : HMember) : HChild := HComp.child m.core.self m.ybar
def Member.child (m : Member) : Child := Component.child m.core.self m.ybar

/-- A mixture (mixture.py:26-33): it refers to the user's list of components, by its number, and to an array of weights. -/
structure HMixture where
  list : ℕ
  nCmps : ℕ
  weights : Ptr
  ybar : Option Ptr

structure Mixture where
  list : ℕ
  weights : List ℝ
  ybar : Option (Arr Num)

/-- The objects: the cube, the components, the lists of components (by number), the mixtures. -/
structure HObjects where
  cube : HCube
  members : List HMember
  lists : List (List ℕ)
  mixes : List HMixture

structure Objects where
  cube : IFUCube
  members : List Member
  lists : List (List ℕ)
  mixes : List Mixture

/-- A mixture as it is at present: its members are those in the list now, with their present attributes. -/
def HObjects.toMix (st : HObjects) (x : HMixture) : HMix where
  cube := st.cube
  children := (st.lists.getD x.list []).filterMap fun i => st.members[i]?.map HMember.child
  nCmps := x.nCmps
  weights := x.weights
  ybar := x.ybar

def Objects.toMix (w : Objects) (x : Mixture) : Mix where
  cube := w.cube
  children := (w.lists.getD x.list []).filterMap fun i => w.members[i]?.map Member.child
  weights := x.weights
  ybar := x.ybar

/-- A query to a mixture. `rows` and `logRows` are `get_p` and `get_log_p` with `collapse_cmps=False`. The centre of `noncentral` is
the `k`-th array held by the user. -/
inductive MixQuery
  | p (w : PyStr) (density lw : Bool)
  | logP (w : PyStr) (density lw : Bool)
  | rows (w : PyStr) (density lw : Bool)
  | logRows (w : PyStr) (density lw : Bool)
  | mean (w : PyStr) (lw : Bool)
  | noncentral (w : PyStr) (j : ℕ) (k : ℕ) (lw : Bool)
  | central (w : PyStr) (j : ℕ) (lw : Bool)
  | variance (w : PyStr) (lw : Bool)
  | dispersion (w : PyStr) (lw : Bool)
  | normalised (w : PyStr) (j : ℕ) (lw : Bool)
  | excess (w : PyStr) (j : ℕ) (lw : Bool)
  | covariance (w : PyStr) (lw : Bool)
  | correlation (w : PyStr) (lw : Bool)
  | lMoment (w : PyStr) (j : ℤ) (lw : Bool)
  | normalisedL (w : PyStr) (j : ℤ) (lw : Bool)
  | excessL (w : PyStr) (j : ℤ) (lw : Bool)

/-- The query made in memory. -/
def MixQuery.run (f2 : ℝ) (ppf : ℝ → ℝ) (m : HMix) (held : List Ptr) : MixQuery → H Ptr
  | .p w d lw => m.getP w true d lw
  | .logP w d lw => m.getLogP w true d lw
  | .rows w d lw => m.getP w false d lw
  | .logRows w d lw => m.getLogP w false d lw
  | .mean w lw => m.getMean w lw
  | .noncentral w j k lw => match held[k]? with
    | some mu => m.getNcm w j mu lw
    | none => H.throw .indexError
  | .central w j lw => m.getCentralMoment w j lw
  | .variance w lw => m.obj.getVariance w lw
  | .dispersion w lw => m.obj.getDispersion w lw
  | .normalised w j lw => m.obj.getNormalisedCentralMoment w j lw
  | .excess w j lw => m.obj.getExcessCentralMoment f2 w j lw
  | .covariance w lw => m.obj.getCovariance w lw
  | .correlation w lw => m.obj.getCorrelation w lw
  | .lMoment w j lw => m.obj.getLMoment w j lw
  | .normalisedL w j lw => m.obj.getNormalisedLMoment w j lw
  | .excessL w j lw => m.obj.getExcessLMoment ppf w j lw

/-- What it returns according to the memoryless model. -/
def MixQuery.value (f2 : ℝ) (ppf : ℝ → ℝ) (m : Mix) (held : List (Arr Num)) : MixQuery → Py (Arr Num)
  | .p w d lw => m.getP w true d lw
  | .logP w d lw => m.getLogP w true d lw
  | .rows w d lw => m.getP w false d lw
  | .logRows w d lw => m.getLogP w false d lw
  | .mean w lw => m.getMean w lw
  | .noncentral w j k lw => match held[k]? with
    | some mu => m.child.getNcm w j mu lw
    | none => .error .indexError
  | .central w j lw => m.getCentralMoment w j lw
  | .variance w lw => m.obj.getVariance w lw
  | .dispersion w lw => m.obj.getDispersion w lw
  | .normalised w j lw => m.obj.getNormalisedCentralMoment w j lw
  | .excess w j lw => m.obj.getExcessCentralMoment f2 w j lw
  | .covariance w lw => m.obj.getCovariance w lw
  | .correlation w lw => m.obj.getCorrelation w lw
  | .lMoment w j lw => m.obj.getLMoment w j lw
  | .normalisedL w j lw => m.obj.getNormalisedLMoment w j lw
  | .excessL w j lw => m.obj.getExcessLMoment ppf w j lw

/-- Memory, the objects, and the arrays held by the user; marked are those that belong to a component or mixture (answers of
`get_mean("v_tx")` and `get_mean("v_txz")` of a component, and data cubes). -/
structure MixState where
  heap : Heap
  obj : HObjects
  held : List (Ptr × Bool)

/-- The array objects held by the user. -/
def MixState.ptrs (st : MixState) : List Ptr := st.held.map Prod.fst

/-- Their contents. -/
def MixState.vals (st : MixState) : List (Arr Num) := st.ptrs.map st.heap.val

/-- What a user can do:
* `make`: make an array; `edit`: overwrite the `k`-th array they hold (also through a view);
* `ask`: ask the `i`-th component a query; `askMix`: ask the `j`-th mixture a query;
* `set`: set a parameter of the `i`-th component; `ybar`: evaluate its data cube; both compute a new array, here of any contents;
* `list`: make a list of components; `replace`: `l[pos] = component i`, for the `l`-th list;
* `mix`: `Mixture(cube, l, weights)` with the `l`-th list and the `k`-th array held;
* `evalYbar`: `evaluate_ybar` of the `j`-th mixture;
* `grab`, `grabMix`: read the attribute `ybar` of a component or mixture. -/
inductive MixOp
  | make (a : Arr Num)
  | edit (k : ℕ) (a : Arr Num)
  | ask (i : ℕ) (q : Query)
  | askMix (j : ℕ) (q : MixQuery)
  | set (i : ℕ) (f : ParamField) (a : Arr Num)
  | ybar (i : ℕ) (a : Arr Num)
  | list (ids : List ℕ)
  | replace (l pos i : ℕ)
  | mix (l k : ℕ)
  | evalYbar (j : ℕ)
  | grab (i : ℕ)
  | grabMix (j : ℕ)

/-- Asking a component. -/
def MixState.ask (f2 : ℝ) (ppf : ℝ → ℝ) (st : MixState) (i : ℕ) (q : Query) : Py Ptr × Heap :=
  match st.obj.members[i]? with
  | some m => q.run f2 ppf m.core.self st.ptrs st.heap
  | none => (.error .indexError, st.heap)

/-- Asking a mixture. -/
def MixState.askMix (f2 : ℝ) (ppf : ℝ → ℝ) (st : MixState) (j : ℕ) (q : MixQuery) : Py Ptr × Heap :=
  match st.obj.mixes[j]? with
  | some x => q.run f2 ppf (st.obj.toMix x) st.ptrs st.heap
  | none => (.error .indexError, st.heap)

/-- The answers according to the memoryless model. -/
def Objects.ask (f2 : ℝ) (ppf : ℝ → ℝ) (w : Objects) (held : List (Arr Num)) (i : ℕ) (q : Query) : Py (Arr Num) :=
  match w.members[i]? with
  | some m => q.value f2 ppf m.core.self held
  | none => .error .indexError

def Objects.askMix (f2 : ℝ) (ppf : ℝ → ℝ) (w : Objects) (held : List (Arr Num)) (j : ℕ) (q : MixQuery) : Py (Arr Num) :=
  match w.mixes[j]? with
  | some x => q.value f2 ppf (w.toMix x) held
  | none => .error .indexError

/-- The entries of an array of weights: a one-dimensional array of finite numbers. -/
def weightsIn (a : Arr Num) (ws : List ℝ) : Prop := a.shape = [ws.length] ∧ ∀ i < ws.length, a.get [i] = .fin (ws.getD i 0)

/-- The checks of the constructor (mixture.py:27-33) for `n` components and the array of weights `a`: the weights, if they pass.
(Arrays with entries that are not finite do not pass; weights with more than one axis are not modelled and count as not passing.) -/
def mixWeights (n : ℕ) (a : Arr Num) : Option (List ℝ) :=
  if h : ∃ ws, weightsIn a ws ∧ n = ws.length ∧ (∀ x ∈ ws, 0 < x) ∧ Mix.isCloseOne ws.sum then some h.choose else none

/-- Keep an answer. -/
def MixState.push (st : MixState) (mark : Bool) : Py Ptr × Heap → MixState
  | (.ok r, h) => ⟨h, st.obj, st.held ++ [(r, mark)]⟩
  | (.error _, h) => ⟨h, st.obj, st.held⟩

/-- Effect of one action. -/
def MixOp.run (f2 : ℝ) (ppf : ℝ → ℝ) (st : MixState) : MixOp → MixState
  | .make a => st.push false (H.new (.ok a) st.heap)
  | .edit k a => match st.held[k]? with
    | some r => ⟨(H.write r.1 a st.heap).2, st.obj, st.held⟩
    | none => st
  | .ask i q => st.push (decide q.isMeanV) (st.ask f2 ppf i q)
  | .askMix j q => st.push false (st.askMix f2 ppf j q)
  | .set i f a => match st.obj.members[i]?, H.new (.ok a) st.heap with
    | some m, (.ok r, h) => ⟨h, { st.obj with members := st.obj.members.set i { m with core := m.core.set r f } }, st.held⟩
    | _, _ => st
  | .ybar i a => match st.obj.members[i]?, H.new (.ok a) st.heap with
    | some m, (.ok r, h) => ⟨h, { st.obj with members := st.obj.members.set i { m with ybar := some r } }, st.held⟩
    | _, _ => st
  | .list ids => if ∀ i ∈ ids, i < st.obj.members.length then ⟨st.heap, { st.obj with lists := st.obj.lists ++ [ids] }, st.held⟩ else st
  | .replace l pos i => match st.obj.lists[l]? with
    | some ids => if i < st.obj.members.length then
        ⟨st.heap, { st.obj with lists := st.obj.lists.set l (ids.set pos i) }, st.held⟩ else st
    | none => st
  | .mix l k => match st.obj.lists[l]?, st.vals[k]? with
    | some ids, some a => match mixWeights ids.length a with
      | some ws => match H.new (.ok (vec ws.length (fun i => .fin (ws.getD i 0)))) st.heap with
        | (.ok r, h) => ⟨h, { st.obj with mixes := st.obj.mixes ++ [⟨l, ids.length, r, none⟩] }, st.held⟩
        | _ => st
      | none => st
    | _, _ => st
  | .evalYbar j => match st.obj.mixes[j]? with
    | some x => match (st.obj.toMix x).evaluateYbar st.heap with
      | (.ok m, h) => ⟨h, { st.obj with mixes := st.obj.mixes.set j { x with ybar := m.ybar } }, st.held⟩
      | (.error _, h) => ⟨h, st.obj, st.held⟩
    | none => st
  | .grab i => match st.obj.members[i]? with
    | some m => match m.ybar with
      | some y => ⟨st.heap, st.obj, st.held ++ [(y, true)]⟩
      | none => st
    | none => st
  | .grabMix j => match st.obj.mixes[j]? with
    | some x => match x.ybar with
      | some y => ⟨st.heap, st.obj, st.held ++ [(y, true)]⟩
      | none => st
    | none => st

/-- Effect of one action on the objects, as the user thinks of them: queries, and overwriting arrays, change nothing; setting a
parameter of a component, or evaluating its data cube, changes that component; a new mixture gets the weights that the array `weights`
contains at that moment; `evaluate_ybar` sets the data cube of the mixture from the data cubes its members have at that moment.
`held` are the contents of the arrays of the user. -/
def MixOp.spec (w : Objects) (held : List (Arr Num)) : MixOp → Objects
  | .set i f a => match w.members[i]? with
    | some m => { w with members := w.members.set i { m with core := m.core.set a f } }
    | none => w
  | .ybar i a => match w.members[i]? with
    | some m => { w with members := w.members.set i { m with ybar := some a } }
    | none => w
  | .list ids => if ∀ i ∈ ids, i < w.members.length then { w with lists := w.lists ++ [ids] } else w
  | .replace l pos i => match w.lists[l]? with
    | some ids => if i < w.members.length then { w with lists := w.lists.set l (ids.set pos i) } else w
    | none => w
  | .mix l k => match w.lists[l]?, held[k]? with
    | some ids, some a => match mixWeights ids.length a with
      | some ws => { w with mixes := w.mixes ++ [⟨l, ws, none⟩] }
      | none => w
    | _, _ => w
  | .evalYbar j => match w.mixes[j]? with
    | some x => match (w.toMix x).evaluateYbar with
      | .ok m => { w with mixes := w.mixes.set j { x with ybar := m.ybar } }
      | .error _ => w
    | none => w
  | _ => w

/-- The objects after a history, as the user thinks of them. -/
def ideal (f2 : ℝ) (ppf : ℝ → ℝ) : MixState → Objects → List MixOp → Objects
  | _, w, [] => w
  | st, w, op :: ops => ideal f2 ppf (op.run f2 ppf st) (op.spec w st.vals) ops

/-- The action does not overwrite an array that belongs to a component or mixture. -/
def MixOp.careful (st : MixState) (op : MixOp) : Prop := ∀ k a, op = .edit k a → ∀ r, st.held[k]? = some r → r.2 = false

/-- No action of the history does. -/
def CarefulMix (f2 : ℝ) (ppf : ℝ → ℝ) : MixState → List MixOp → Prop
  | _, [] => True
  | st, op :: ops => op.careful st ∧ CarefulMix f2 ppf (op.run f2 ppf st) ops

/-! ### Objects in memory -/

def HCube.bufs (c : HCube) : List ℕ :=
  [c.deltaT.buf, c.deltaZ.buf, c.tCents.buf, c.zCents.buf, c.tEdges.buf, c.zEdges.buf, c.lightWeights.buf, c.x.buf, c.y.buf, c.vEdg.buf]

/-- Buffers of a component that are never handed out. -/
def HCore.Private (b : ℕ) : HCore → Prop
  | .plain c d => b ∈ c.bufs ∨ b = d.buf
  | .param p => b ∈ p.bufs

/-- Buffers that are handed out by queries. -/
def HCore.Public (b : ℕ) : HCore → Prop
  | .plain _ _ => False
  | .param p => ∃ m, p.muV = some m ∧ m.buf = b

def HObjects.Private (st : HObjects) (b : ℕ) : Prop :=
  b ∈ st.cube.bufs ∨ (∃ m ∈ st.members, m.core.Private b) ∨ ∃ x ∈ st.mixes, x.weights.buf = b

def HObjects.Public (st : HObjects) (b : ℕ) : Prop :=
  (∃ m ∈ st.members, m.core.Public b ∨ ∃ y, m.ybar = some y ∧ y.buf = b) ∨ ∃ x ∈ st.mixes, ∃ y, x.ybar = some y ∧ y.buf = b

/-- The component is stored in the first `n` buffers. -/
def CoreAt (n : ℕ) (h : Heap) : HCore → Core → Prop
  | .plain hc o, .plain c a => CubeAt n h hc c ∧ OldAt n h o a
  | .param hp, .param p => ParamAt n h hp p
  | _, _ => False

structure MemberAt (n : ℕ) (h : Heap) (x : HMember) (y : Member) : Prop where
  core : CoreAt n h x.core y.core
  ybar : OptAt n h x.ybar y.ybar

/-- The mixture is stored in the first `n` buffers; it has as many weights as members. -/
structure MixtureAt (n : ℕ) (h : Heap) (lists : List (List ℕ)) (x : HMixture) (y : Mixture) : Prop where
  list : x.list = y.list
  ids : ∃ ids, lists[x.list]? = some ids ∧ ids.length = y.weights.length
  nCmps : x.nCmps = y.weights.length
  weights : OldAt n h x.weights (vec y.weights.length (fun i => .fin (y.weights.getD i 0)))
  ybar : OptAt n h x.ybar y.ybar

/-- The objects are stored in the first `n` buffers, in any arrangement. -/
structure ObjectsAt (n : ℕ) (h : Heap) (st : HObjects) (w : Objects) : Prop where
  cube : CubeAt n h st.cube w.cube
  members : List.Forall₂ (MemberAt n h) st.members w.members
  lists : st.lists = w.lists
  valid : ∀ l ∈ st.lists, ∀ i ∈ l, i < st.members.length
  mixes : List.Forall₂ (MixtureAt n h st.lists) st.mixes w.mixes

/-- The objects `w` are stored in memory, such that public and private arrays have different buffers; the user holds no array. -/
def MixStored (st : MixState) (w : Objects) : Prop :=
  ObjectsAt st.heap.next st.heap st.obj w ∧ (∀ b, st.obj.Public b → ¬ st.obj.Private b) ∧ st.held = []

/-- Two components that differ at most in their mean velocities. -/
def Core.Alike : Core → Core → Prop
  | .plain c a, .plain c' a' => c = c' ∧ a = a'
  | .param p, .param p' => ∃ mu, p = { p' with muV := mu }
  | _, _ => False

/-- Objects that differ at most in the mean velocities of components, and in data cubes. -/
structure Objects.Alike (w w' : Objects) : Prop where
  cube : w.cube = w'.cube
  members : List.Forall₂ (fun m m' : Member => m.core.Alike m'.core) w.members w'.members
  lists : w.lists = w'.lists
  mixes : List.Forall₂ (fun x x' : Mixture => x.list = x'.list ∧ x.weights = x'.weights) w.mixes w'.mixes

/-! ### Helpers -/

section lists
variable {α β γ : Type}

theorem forall₂_set {R : α → β → Prop} {l : List α} {l' : List β} (hl : List.Forall₂ R l l') {x : α} {y : β} (hx : R x y) :
    ∀ i, List.Forall₂ R (l.set i x) (l'.set i y) := by
  induction hl with
  | nil => intro i; exact .nil
  | cons h1 h2 ih =>
    intro i
    cases i with
    | zero => exact .cons hx h2
    | succ i => exact .cons h1 (ih i)

theorem forall₂_get {R : α → β → Prop} {l : List α} {l' : List β} (hl : List.Forall₂ R l l') :
    ∀ i : ℕ, (l[i]? = none ∧ l'[i]? = none) ∨ ∃ x y, l[i]? = some x ∧ l'[i]? = some y ∧ R x y := by
  induction hl with
  | nil => intro i; exact .inl ⟨rfl, rfl⟩
  | @cons a b l l' h1 h2 ih =>
    intro i
    cases i with
    | zero => exact .inr ⟨a, b, rfl, rfl, h1⟩
    | succ i => simpa using ih i

theorem forall₂_choose {R R' : α → β → Prop} {Q : β → β → Prop} {P : α → Prop} {l : List α} {l' : List β} (hl : List.Forall₂ R l l')
    (hs : ∀ x ∈ l, ∀ y, R x y → ∃ y', R' x y' ∧ Q y' y ∧ (P x → y' = y)) :
    ∃ l'', List.Forall₂ R' l l'' ∧ List.Forall₂ Q l'' l' ∧ ((∀ x ∈ l, P x) → l'' = l') := by
  induction hl with
  | nil => exact ⟨[], .nil, .nil, fun _ => rfl⟩
  | @cons a b l l' h1 h2 ih =>
    obtain ⟨y, h3, h3', h4⟩ := hs a (by simp) b h1
    obtain ⟨l'', h5, h5', h6⟩ := ih fun x hx => hs x (List.mem_cons_of_mem _ hx)
    exact ⟨y :: l'', .cons h3 h5, .cons h3' h5', fun hp => by
      rw [h4 (hp a (by simp)), h6 fun x hx => hp x (List.mem_cons_of_mem _ hx)]⟩

theorem forall₂_lookup {δ : Type} {R : α → β → Prop} {S : γ → δ → Prop} {l : List α} {l' : List β} (hl : List.Forall₂ R l l') {f : α → γ}
    {g : β → δ} (hf : ∀ x y, R x y → S (f x) (g y)) (ids : List ℕ) :
    List.Forall₂ S (ids.filterMap fun i => l[i]?.map f) (ids.filterMap fun i => l'[i]?.map g) := by
  induction ids with
  | nil => exact .nil
  | cons i ids ih =>
    rcases forall₂_get hl i with ⟨h1, h2⟩ | ⟨x, y, h1, h2, h3⟩
    · simpa [h1, h2] using ih
    · simpa [h1, h2] using ⟨hf x y h3, ih⟩

theorem lookup_length {l : List α} (f : α → γ) (ids : List ℕ) (hv : ∀ i ∈ ids, i < l.length) :
    (ids.filterMap fun i => l[i]?.map f).length = ids.length := by
  induction ids with
  | nil => rfl
  | cons i ids ih =>
    have h1 : i < l.length := hv i (by simp)
    simp [List.getElem?_eq_getElem h1, ih fun j hj => hv j (List.mem_cons_of_mem _ hj)]

end lists

section
variable {f2 : ℝ} {ppf : ℝ → ℝ} {n m : ℕ} {h h' : Heap} {st : MixState} {w w' : Objects}

theorem weightsIn_unique {a : Arr Num} {ws ws' : List ℝ} (h1 : weightsIn a ws) (h2 : weightsIn a ws') : ws = ws' := by
  have hl : ws.length = ws'.length := by simpa using h1.1.symm.trans h2.1
  refine List.ext_getElem hl fun i h3 h4 => ?_
  have e := (h1.2 i h3).symm.trans (h2.2 i h4)
  simpa [List.getD_eq_getElem?_getD, List.getElem?_eq_getElem h3, List.getElem?_eq_getElem h4] using e

/-- The checks are those of `Mix.init`. -/
theorem mixWeights_some {k : ℕ} {a : Arr Num} {ws : List ℝ} : mixWeights k a = some ws ↔
    weightsIn a ws ∧ k = ws.length ∧ (∀ x ∈ ws, 0 < x) ∧ Mix.isCloseOne ws.sum := by
  unfold mixWeights
  split_ifs with h
  · have := h.choose_spec
    constructor
    · intro e
      rw [Option.some.injEq] at e
      exact e ▸ this
    · intro h1
      rw [weightsIn_unique this.1 h1.1]
  · simp only [reduceCtorEq, false_iff]
    exact fun h1 => h ⟨ws, h1⟩

theorem mixWeights_init {c : IFUCube} {children : List Child} {a : Arr Num} {ws : List ℝ} (ha : mixWeights children.length a = some ws) :
    Mix.init c children ws = .ok ⟨c, children, ws, none⟩ := by
  obtain ⟨-, h1, h2, h3⟩ := mixWeights_some.1 ha
  unfold Mix.init
  rw [if_pos h1, if_pos h2, if_pos h3]

/-! #### Storage -/

theorem cubeBufs_lt {hc : HCube} {c : IFUCube} (hh : CubeAt n h hc c) {b : ℕ} (hb : b ∈ hc.bufs) : b < n := by
  simp only [HCube.bufs, List.mem_cons, List.not_mem_nil, or_false] at hb
  rcases hb with rfl | rfl | rfl | rfl | rfl | rfl | rfl | rfl | rfl | rfl
  exacts [hh.deltaT.1, hh.deltaZ.1, hh.tCents.1, hh.zCents.1, hh.tEdges.1, hh.zEdges.1, hh.lightWeights.1, hh.x.1, hh.y.1, hh.vEdg.1]

theorem OldAt.write {o r : Ptr} {x : Arr Num} (ho : OldAt n h o x) (hb : o.buf ≠ r.buf) (a : Arr Num) : OldAt n (H.write r a h).2 o x :=
  ⟨ho.1, ho.2.other rfl (fun k hk => by simp [H.write, hk]) hb⟩

theorem CubeAt.write {hc : HCube} {c : IFUCube} (hh : CubeAt n h hc c) {r : Ptr} (hr : r.buf ∉ hc.bufs) (a : Arr Num) :
    CubeAt n (H.write r a h).2 hc c := by
  have ne {o : Ptr} (ho : o.buf ∈ hc.bufs) : o.buf ≠ r.buf := fun e => hr (e ▸ ho)
  refine ⟨hh.le, hh.deltaT.write (ne ?_) a, hh.deltaZ.write (ne ?_) a, hh.tCents.write (ne ?_) a, hh.zCents.write (ne ?_) a,
    hh.tEdges.write (ne ?_) a, hh.zEdges.write (ne ?_) a, hh.lightWeights.write (ne ?_) a, hh.x.write (ne ?_) a, hh.y.write (ne ?_) a,
    hh.vEdg.write (ne ?_) a, hh.dx, hh.dy⟩ <;> simp [HCube.bufs]

theorem OptAt.write {o : Option Ptr} {x : Option (Arr Num)} (ho : OptAt n h o x) (r : Ptr) (a : Arr Num) :
    ∃ x', x' = o.map (H.write r a h).2.val ∧ OptAt n (H.write r a h).2 o x' ∧ ((∀ q, o = some q → q.buf ≠ r.buf) → x' = x) := by
  refine ⟨_, rfl, OptIn.at' fun q hq => ho.in' q hq, fun hb => ?_⟩
  rcases o with _ | o <;> rcases x with _ | x
  · rfl
  · exact ho.elim
  · exact ho.elim
  · exact congrArg some (OldAt.write (show OldAt n h o x from ho) (hb o rfl) a).2.2

theorem CoreAt.keep {x : HCore} {y : Core} (hh : CoreAt n h x y) (hk : Heap.Keeps m h h') (hm : n ≤ m) : CoreAt n h' x y := by
  cases x <;> cases y
  · exact ⟨hh.1.keep hk hm, hh.2.keep hk hm⟩
  · exact hh.elim
  · exact hh.elim
  · exact ParamAt.keep hh hk hm

theorem CoreAt.more {x : HCore} {y : Core} (hh : CoreAt n h x y) (hm : n ≤ m) (hm' : m ≤ h.next) : CoreAt m h x y := by
  cases x <;> cases y
  · exact ⟨hh.1.more hm hm', hh.2.more hm⟩
  · exact hh.elim
  · exact hh.elim
  · exact ParamAt.more hh hm hm'

theorem CoreAt.private_lt {x : HCore} {y : Core} (hh : CoreAt n h x y) {b : ℕ} (hb : x.Private b) : b < n := by
  cases x <;> cases y
  · rcases hb with hb | rfl
    · exact cubeBufs_lt hh.1 hb
    · exact hh.2.1
  · exact hh.elim
  · exact hh.elim
  · exact bufs_lt hh hb

theorem CoreAt.public_lt {x : HCore} {y : Core} (hh : CoreAt n h x y) {b : ℕ} (hb : x.Public b) : b < n := by
  cases x <;> cases y
  · exact hb.elim
  · exact hb.elim
  · exact hh.elim
  · obtain ⟨m, h1, rfl⟩ := hb
    exact ((ParamAt.muV hh).in' m h1).1

theorem CoreAt.write {x : HCore} {y : Core} (hh : CoreAt n h x y) {r : Ptr} (hr : ¬ x.Private r.buf) (a : Arr Num) :
    ∃ y', CoreAt n (H.write r a h).2 x y' ∧ y'.Alike y ∧ (¬ x.Public r.buf → y' = y) := by
  cases x <;> cases y
  · refine ⟨.plain _ _, ⟨hh.1.write (fun hb => hr (.inl hb)) a, hh.2.write (fun e => hr (.inr e.symm)) a⟩, ⟨rfl, rfl⟩, fun _ => rfl⟩
  · exact hh.elim
  · exact hh.elim
  · rename_i hp p
    have hp' : ParamAt n h hp p := hh
    refine ⟨.param _, hp'.write hr a, ⟨_, rfl⟩, fun hb => ?_⟩
    obtain ⟨x', e, -, h2⟩ := hp'.muV.write r a
    rw [← e, h2 fun q hq e => hb ⟨q, hq, e⟩]

theorem coreSound (x : HCore) (y : Core) (hh : CoreAt n h x y) : MemSound n sharedMean (fun h => CoreAt n h x y) x.self y.self := by
  cases x <;> cases y
  · rename_i hc o c a
    have S := baseSound n hc c o a
    exact ⟨S.cube, S.keep, S.logP, fun w => .inl ⟨rfl, rfl⟩, S.ncm⟩
  · exact hh.elim
  · exact hh.elim
  · exact paramSound _ _ _

theorem MemberAt.keep {x : HMember} {y : Member} (hh : MemberAt n h x y) (hk : Heap.Keeps m h h') (hm : n ≤ m) : MemberAt n h' x y :=
  ⟨hh.core.keep hk hm, hh.ybar.keep hk hm⟩

theorem MemberAt.more {x : HMember} {y : Member} (hh : MemberAt n h x y) (hm : n ≤ m) (hm' : m ≤ h.next) : MemberAt m h x y :=
  ⟨hh.core.more hm hm', hh.ybar.more hm⟩

variable {ls : List (List ℕ)}

theorem MixtureAt.keep {x : HMixture} {y : Mixture} (hh : MixtureAt n h ls x y) (hk : Heap.Keeps m h h') (hm : n ≤ m) :
    MixtureAt n h' ls x y := ⟨hh.list, hh.ids, hh.nCmps, hh.weights.keep hk hm, hh.ybar.keep hk hm⟩

theorem MixtureAt.more {x : HMixture} {y : Mixture} (hh : MixtureAt n h ls x y) (hm : n ≤ m) : MixtureAt m h ls x y :=
  ⟨hh.list, hh.ids, hh.nCmps, hh.weights.more hm, hh.ybar.more hm⟩

variable {obj obj' : HObjects}

theorem ObjectsAt.keep (hh : ObjectsAt n h obj w) (hk : Heap.Keeps m h h') (hm : n ≤ m) : ObjectsAt n h' obj w :=
  ⟨hh.cube.keep hk hm, hh.members.imp fun _ _ hx => hx.keep hk hm, hh.lists, hh.valid, hh.mixes.imp fun _ _ hx => hx.keep hk hm⟩

theorem ObjectsAt.more (hh : ObjectsAt n h obj w) (hm : n ≤ m) (hm' : m ≤ h.next) : ObjectsAt m h obj w :=
  ⟨hh.cube.more hm hm', hh.members.imp fun _ _ hx => hx.more hm hm', hh.lists, hh.valid, hh.mixes.imp fun _ _ hx => hx.more hm⟩

theorem forall₂_mem {α β : Type} {R : α → β → Prop} {l : List α} {l' : List β} (hl : List.Forall₂ R l l') {x : α} (hx : x ∈ l) :
    ∃ y, R x y := by
  induction hl with
  | nil => cases hx
  | cons h1 h2 ih =>
    rcases List.mem_cons.1 hx with rfl | hx
    · exact ⟨_, h1⟩
    · exact ih hx

theorem ObjectsAt.private_lt (hh : ObjectsAt n h obj w) {b : ℕ} (hb : obj.Private b) : b < n := by
  rcases hb with hb | ⟨x, hx, hb⟩ | ⟨x, hx, rfl⟩
  · exact cubeBufs_lt hh.cube hb
  · obtain ⟨y, hy⟩ := forall₂_mem hh.members hx
    exact hy.core.private_lt hb
  · obtain ⟨y, hy⟩ := forall₂_mem hh.mixes hx
    exact hy.weights.1

theorem ObjectsAt.public_lt (hh : ObjectsAt n h obj w) {b : ℕ} (hb : obj.Public b) : b < n := by
  rcases hb with ⟨x, hx, hb | ⟨o, ho, rfl⟩⟩ | ⟨x, hx, o, ho, rfl⟩
  · obtain ⟨y, hy⟩ := forall₂_mem hh.members hx
    exact hy.core.public_lt hb
  · obtain ⟨y, hy⟩ := forall₂_mem hh.members hx
    exact (hy.ybar.in' o ho).1
  · obtain ⟨y, hy⟩ := forall₂_mem hh.mixes hx
    exact (hy.ybar.in' o ho).1

theorem Core.Alike.refl (y : Core) : y.Alike y := by
  cases y
  · exact ⟨rfl, rfl⟩
  · exact ⟨_, rfl⟩

/-- Overwriting an array that is not private. -/
theorem ObjectsAt.write (hh : ObjectsAt n h obj w) {r : Ptr} (hr : ¬ obj.Private r.buf) (a : Arr Num) :
    ∃ w', ObjectsAt n (H.write r a h).2 obj w' ∧ w'.Alike w ∧ (¬ obj.Public r.buf → w' = w) := by
  obtain ⟨ms, h1, h1', h2⟩ := forall₂_choose (R' := MemberAt n (H.write r a h).2) (Q := fun m m' => m.core.Alike m'.core)
    (P := fun x => ¬ x.core.Public r.buf ∧ ∀ y, x.ybar = some y → y.buf ≠ r.buf) hh.members (by
      intro x hx y hy
      obtain ⟨c, h1, h2, h3⟩ := hy.core.write (fun hb => hr (.inr (.inl ⟨x, hx, hb⟩))) a
      obtain ⟨b, -, h4, h5⟩ := hy.ybar.write r a
      refine ⟨⟨c, b⟩, ⟨h1, h4⟩, h2, fun hp => ?_⟩
      rw [h3 hp.1, h5 hp.2])
  obtain ⟨xs, h3, h3', h4⟩ := forall₂_choose (R' := MixtureAt n (H.write r a h).2 obj.lists)
    (Q := fun x x' => x.list = x'.list ∧ x.weights = x'.weights) (P := fun x => ∀ y, x.ybar = some y → y.buf ≠ r.buf) hh.mixes (by
      intro x hx y hy
      obtain ⟨b, -, h4, h5⟩ := hy.ybar.write r a
      refine ⟨⟨y.list, y.weights, b⟩, ⟨hy.list, hy.ids, hy.nCmps, hy.weights.write (fun e => hr (.inr (.inr ⟨x, hx, e⟩))) a, h4⟩,
        ⟨rfl, rfl⟩, fun hp => ?_⟩
      rw [h5 hp])
  refine ⟨⟨w.cube, ms, w.lists, xs⟩, ⟨hh.cube.write (fun hb => hr (.inl hb)) a, h1, hh.lists, hh.valid, h3⟩, ⟨rfl, h1', rfl, h3'⟩,
    fun hb => ?_⟩
  rw [h2 fun x hx => ⟨fun hp => hb (.inl ⟨x, hx, .inl hp⟩), fun y hy e => hb (.inl ⟨x, hx, .inr ⟨y, hy, e⟩⟩)⟩,
    h4 fun x hx y hy e => hb (.inr ⟨x, hx, y, hy, e⟩)]

/-- What holds in every reachable state. -/
structure MixInv (st : MixState) (w : Objects) : Prop where
  obj : ObjectsAt st.heap.next st.heap st.obj w
  apart : ∀ b, st.obj.Public b → ¬ st.obj.Private b
  held : ∀ r ∈ st.held, st.heap.Has r.1 ∧ ¬ st.obj.Private r.1.buf ∧ (r.2 = false → ¬ st.obj.Public r.1.buf)

theorem MixInv.grow (hi : MixInv st w) (hk : Heap.Keeps st.heap.next st.heap h') : MixInv ⟨h', st.obj, st.held⟩ w :=
  ⟨(hi.obj.keep hk le_rfl).more hk.next le_rfl, hi.apart, fun r hr => ⟨lt_of_lt_of_le (hi.held r hr).1 hk.next, (hi.held r hr).2⟩⟩

theorem MixInv.add (hi : MixInv st w) {r : Ptr} {b : Bool} (h1 : st.heap.Has r) (h2 : ¬ st.obj.Private r.buf)
    (h3 : b = false → ¬ st.obj.Public r.buf) : MixInv ⟨st.heap, st.obj, st.held ++ [(r, b)]⟩ w := by
  refine ⟨hi.obj, hi.apart, fun x hx => ?_⟩
  rcases List.mem_append.1 hx with hx | hx
  · exact hi.held x hx
  · obtain rfl : x = (r, b) := by simpa using hx
    exact ⟨h1, h2, h3⟩

/-- Binding an attribute to a new array. -/
theorem MixInv.rebind (hi : MixInv st w) (hk : Heap.Keeps st.heap.next st.heap h') {r : ℕ} (hr : st.heap.next ≤ r)
    (hobj : ObjectsAt h'.next h' obj' w') (hpriv : ∀ b, obj'.Private b → st.obj.Private b ∨ b = r)
    (hpub : ∀ b, obj'.Public b → st.obj.Public b ∨ b = r)
    (hnot : (∀ b, obj'.Private b → st.obj.Private b) ∨ ∀ b, obj'.Public b → st.obj.Public b) : MixInv ⟨h', obj', st.held⟩ w' := by
  refine ⟨hobj, fun b h1 h2 => ?_, fun x hx => ⟨lt_of_lt_of_le (hi.held x hx).1 hk.next, fun h1 => ?_, fun h1 h2 => ?_⟩⟩
  · rcases hpub b h1 with h3 | rfl
    · rcases hpriv b h2 with h4 | rfl
      · exact hi.apart b h3 h4
      · exact absurd (hi.obj.public_lt h3) (not_lt.2 hr)
    · rcases hnot with h5 | h5
      · exact absurd (hi.obj.private_lt (h5 _ h2)) (not_lt.2 hr)
      · exact absurd (hi.obj.public_lt (h5 _ h1)) (not_lt.2 hr)
  · rcases hpriv _ h1 with h3 | h3
    · exact (hi.held x hx).2.1 h3
    · exact absurd (hi.held x hx).1 (not_lt.2 (show st.heap.next ≤ x.1.buf from h3 ▸ hr))
  · rcases hpub _ h2 with h3 | h3
    · exact (hi.held x hx).2.2 h1 h3
    · exact absurd (hi.held x hx).1 (not_lt.2 (show st.heap.next ≤ x.1.buf from h3 ▸ hr))

/-! #### Queries -/

theorem held_has (hi : MixInv st w) : ∀ r ∈ st.ptrs, st.heap.Has r := by
  intro r hr
  obtain ⟨x, hx, rfl⟩ := List.mem_map.1 hr
  exact (hi.held x hx).1

theorem memberQuery_run (hi : MixInv st w) {x : HMember} {y : Member} (hx : MemberAt st.heap.next st.heap x y) (q : Query) :
    Run st.heap.next st.heap (q.run f2 ppf x.core.self st.ptrs) (q.value f2 ppf y.core.self st.vals) (Got q.isMeanV st.heap.next) := by
  rw [q.isMeanV_iff]
  exact query_sound (coreSound _ _ hx.core) hx.core (held_has hi) q

/-- An answer is a new array or found in a public one. -/
theorem memberQuery_in (hi : MixInv st w) {x : HMember} {y : Member} (hx : MemberAt st.heap.next st.heap x y) {q : Query} {r : Ptr}
    (hr : (q.run f2 ppf x.core.self st.ptrs st.heap).1 = .ok r) :
    st.heap.next ≤ r.buf ∨ (q.isMeanV ∧ x.core.Public r.buf) := by
  have key {s : Prop} {m : H Ptr} {v : Py (Arr Num)} (hm : Run st.heap.next st.heap m v (Got s st.heap.next)) (hs : ¬ s)
      (hr : (m st.heap).1 = .ok r) : st.heap.next ≤ r.buf := by
    obtain ⟨-, h2⟩ := hm
    rw [hr] at h2
    cases v with
    | error e => exact h2.elim
    | ok b => exact h2.1 hs
  by_cases hq : q.isMeanV
  · obtain ⟨hcore, -⟩ := hx
    revert hcore hr
    obtain ⟨c, yb⟩ := x
    obtain ⟨c', yb'⟩ := y
    cases c with
    | plain hc o =>
      cases c' with
      | param => exact fun _ h => h.elim
      | plain c a =>
        intro hr hh
        have := query_sound (f2 := f2) (ppf := ppf) (baseSound _ hc c o a) hh (held_has hi) q
        refine .inl (key this ?_ hr)
        cases q <;> exact id
    | param hp =>
      cases c' with
      | plain => exact fun _ h => h.elim
      | param p =>
        intro hr hh
        have key {m : H Ptr} {v : Py (Arr Num)}
            (hm : Run st.heap.next st.heap m v (fun h' o a => h' = st.heap ∧ Points st.heap o a ∧ InMu hp o))
            (hr : (m st.heap).1 = .ok r) : (HCore.param hp).Public r.buf := by
          obtain ⟨-, h2⟩ := hm
          rw [hr] at h2
          cases v with
          | error e => exact h2.elim
          | ok b =>
            obtain ⟨-, -, m, e1, e2⟩ := h2
            exact ⟨m, e1, e2.symm⟩
        cases q with
        | mean w lw =>
          refine .inr ⟨hq, ?_⟩
          rcases hq with rfl | rfl
          · exact key (m := hp.meanVtx lw) (meanVtx_in hh lw) hr
          · exact key (m := hp.meanVtxz lw) (meanVtxz_in hh lw) hr
        | _ => exact hq.elim
  · exact .inl (key (memberQuery_run (f2 := f2) (ppf := ppf) hi hx q) hq hr)

theorem mixSound (hh : ObjectsAt n h obj w) {x : HMixture} {y : Mixture} (hx : MixtureAt n h obj.lists x y) :
    MixSound n (fun h' => ObjectsAt n h' obj w ∧ MixtureAt n h' obj.lists x y) (obj.toMix x) (w.toMix y) where
  cube h hi := hi.1.cube
  keep h h' hi hk := ⟨hi.1.keep hk le_rfl, hi.2.keep hk le_rfl⟩
  weights h hi := hi.2.weights
  children := by
    show List.Forall₂ _ ((obj.lists.getD x.list []).filterMap _) ((w.lists.getD y.list []).filterMap _)
    rw [← hh.lists, ← hx.list]
    -- the members at corresponding positions
    have hm : List.Forall₂ (fun a b => ∀ h', ObjectsAt n h' obj w → MemberAt n h' a b) obj.members w.members := by
      rw [List.forall₂_iff_get]
      refine ⟨hh.members.length_eq, fun i h1 h2 h' hi => (List.forall₂_iff_get.1 hi.members).2 i h1 h2⟩
    refine forall₂_lookup hm (fun a b hab => ?_) _
    exact childSound (coreSound (h := h) _ _ (hab h hh).core) (fun h' hi => (hab h' hi.1).core) fun h' hi => (hab h' hi.1).ybar
  len := by
    obtain ⟨ids, h1, h2⟩ := hx.ids
    show ((w.lists.getD y.list []).filterMap _).length = y.weights.length
    rw [← hh.lists, ← hx.list, List.getD_eq_getElem?_getD, h1, Option.getD_some, lookup_length, h2]
    intro i hi
    rw [← hh.members.length_eq]
    exact hh.valid ids (List.mem_of_getElem? h1) i hi
  nCmps := by
    obtain ⟨ids, h1, h2⟩ := hx.ids
    show x.nCmps = ((w.lists.getD y.list []).filterMap _).length
    rw [← hh.lists, ← hx.list, List.getD_eq_getElem?_getD, h1, Option.getD_some, lookup_length, h2, hx.nCmps]
    intro i hi
    rw [← hh.members.length_eq]
    exact hh.valid ids (List.mem_of_getElem? h1) i hi

theorem mixQuery_sound {I : Heap → Prop} {hm : HMix} {mx : Mix} (S : MixSound n I hm mx) {held : List Ptr} (hi : I h)
    (hh : ∀ r ∈ held, h.Has r) (q : MixQuery) :
    Run h.next h (q.run f2 ppf hm held) (q.value f2 ppf mx (held.map h.val)) (Own h.next) := by
  have O := S.obj
  cases q with
  | p w d lw => exact (mixP_run S hi w true d lw).ret le_rfl fun _ _ _ hR => hR.own
  | logP w d lw => exact (mixLogP_run S hi w true d lw).ret le_rfl fun _ _ _ hR => hR.own
  | rows w d lw => exact (mixP_run S hi w false d lw).ret le_rfl fun _ _ _ hR => hR.own
  | logRows w d lw => exact (mixLogP_run S hi w false d lw).ret le_rfl fun _ _ _ hR => hR.own
  | mean w lw => exact mixMean_run S hi w lw
  | noncentral w j k lw =>
    simp only [MixQuery.run, MixQuery.value, List.getElem?_map]
    cases hk : held[k]? with
    | none => exact Run.throw
    | some mu => exact mixNcm_run S hi w j ⟨hh mu (List.mem_of_getElem? hk), rfl⟩ lw
  | central w j lw => exact mixCentral_run S hi w j lw
  | variance w lw => exact getVariance_run O hi w lw
  | dispersion w lw => exact getDispersion_run O hi w lw
  | normalised w j lw => exact getNormalisedCentralMoment_run O hi w j lw
  | excess w j lw => exact getExcessCentralMoment_run f2 O hi w j lw
  | covariance w lw => exact getCovariance_run O hi w lw
  | correlation w lw => exact getCorrelation_run O hi w lw
  | lMoment w j lw => exact getLMoment_run O hi w j lw
  | normalisedL w j lw => exact getNormalisedLMoment_run O hi w j lw
  | excessL w j lw => exact getExcessLMoment_run ppf O hi w j lw

theorem mixQuery_run (hi : MixInv st w) {x : HMixture} {y : Mixture} (hx : MixtureAt st.heap.next st.heap st.obj.lists x y) (q : MixQuery) :
    Run st.heap.next st.heap (q.run f2 ppf (st.obj.toMix x) st.ptrs) (q.value f2 ppf (w.toMix y) st.vals) (Own st.heap.next) :=
  mixQuery_sound (mixSound hi.obj hx) ⟨hi.obj, hx⟩ (held_has hi) q

theorem ask_agree (hi : MixInv st w) (i : ℕ) (q : Query) : Agree (st.ask f2 ppf i q) (w.ask f2 ppf st.vals i q) := by
  unfold MixState.ask Objects.ask
  rcases forall₂_get hi.obj.members i with ⟨h1, h2⟩ | ⟨x, y, h1, h2, h3⟩
  · rw [h1, h2]; rfl
  · rw [h1, h2]; exact (memberQuery_run hi h3 q).agreeGot

theorem askMix_agree (hi : MixInv st w) (j : ℕ) (q : MixQuery) : Agree (st.askMix f2 ppf j q) (w.askMix f2 ppf st.vals j q) := by
  unfold MixState.askMix Objects.askMix
  rcases forall₂_get hi.obj.mixes j with ⟨h1, h2⟩ | ⟨x, y, h1, h2, h3⟩
  · rw [h1, h2]; rfl
  · rw [h1, h2]; exact (mixQuery_run hi h3 q).agree

theorem ask_keeps (hi : MixInv st w) (i : ℕ) (q : Query) : Heap.Keeps st.heap.next st.heap (st.ask f2 ppf i q).2 := by
  unfold MixState.ask
  rcases forall₂_get hi.obj.members i with ⟨h1, h2⟩ | ⟨x, y, h1, h2, h3⟩
  · rw [h1]; exact .refl _ _
  · rw [h1]; exact (memberQuery_run hi h3 q).1

theorem askMix_keeps (hi : MixInv st w) (j : ℕ) (q : MixQuery) : Heap.Keeps st.heap.next st.heap (st.askMix f2 ppf j q).2 := by
  unfold MixState.askMix
  rcases forall₂_get hi.obj.mixes j with ⟨h1, h2⟩ | ⟨x, y, h1, h2, h3⟩
  · rw [h1]; exact .refl _ _
  · rw [h1]; exact (mixQuery_run hi h3 q).1

/-- The answer of a mixture is a new array. -/
theorem askMix_new (hi : MixInv st w) (j : ℕ) (q : MixQuery) {r : Ptr} {h' : Heap} (hr : st.askMix f2 ppf j q = (.ok r, h')) :
    st.heap.next ≤ r.buf ∧ h'.Has r := by
  unfold MixState.askMix at hr
  rcases forall₂_get hi.obj.mixes j with ⟨h1, h2⟩ | ⟨x, y, h1, h2, h3⟩
  · rw [h1] at hr; cases hr
  · rw [h1] at hr
    have h4 := (mixQuery_run (f2 := f2) (ppf := ppf) hi h3 q).2
    dsimp only at hr
    rw [hr] at h4
    cases hv : q.value f2 ppf (w.toMix y) st.vals with
    | error e => rw [hv] at h4; exact h4.elim
    | ok b => rw [hv] at h4; exact ⟨h4.1, h4.2.1⟩

theorem ask_in (hi : MixInv st w) (i : ℕ) (q : Query) {r : Ptr} {h' : Heap} (hr : st.ask f2 ppf i q = (.ok r, h')) :
    (st.heap.next ≤ r.buf ∨ (q.isMeanV ∧ st.obj.Public r.buf)) ∧ h'.Has r := by
  unfold MixState.ask at hr
  rcases forall₂_get hi.obj.members i with ⟨h1, h2⟩ | ⟨x, y, h1, h2, h3⟩
  · rw [h1] at hr; cases hr
  · rw [h1] at hr
    dsimp only at hr
    constructor
    · refine (memberQuery_in (f2 := f2) (ppf := ppf) hi h3 (q := q) (r := r) (by rw [hr])).imp id fun h4 => ⟨h4.1, ?_⟩
      exact .inl ⟨x, List.mem_of_getElem? h1, .inl h4.2⟩
    · have h4 := (memberQuery_run (f2 := f2) (ppf := ppf) hi h3 q).2
      rw [hr] at h4
      cases hv : q.value f2 ppf y.core.self st.vals with
      | error e => rw [hv] at h4; exact h4.elim
      | ok b => rw [hv] at h4; exact h4.2.1

/-! #### Actions -/

theorem Objects.Alike.refl (w : Objects) : w.Alike w :=
  ⟨rfl, List.forall₂_same.2 fun _ _ => Core.Alike.refl _, rfl, List.forall₂_same.2 fun _ _ => ⟨rfl, rfl⟩⟩

theorem Core.Alike.trans {x y z : Core} (h1 : x.Alike y) (h2 : y.Alike z) : x.Alike z := by
  cases x <;> cases y <;> cases z <;> first | exact h1.elim | exact h2.elim | skip
  · exact ⟨h1.1.trans h2.1, h1.2.trans h2.2⟩
  · obtain ⟨a, rfl⟩ := h1
    obtain ⟨b, rfl⟩ := h2
    exact ⟨a, rfl⟩

theorem forall₂_trans {α : Type} {R : α → α → Prop} (hR : ∀ x y z, R x y → R y z → R x z) {l l' l'' : List α} (h1 : List.Forall₂ R l l')
    (h2 : List.Forall₂ R l' l'') : List.Forall₂ R l l'' := by
  induction h1 generalizing l'' with
  | nil => exact h2
  | cons a b ih =>
    cases h2 with
    | cons c d => exact .cons (hR _ _ _ a c) (ih d)

theorem Objects.Alike.trans {w w' w'' : Objects} (h1 : w.Alike w') (h2 : w'.Alike w'') : w.Alike w'' :=
  ⟨h1.cube.trans h2.cube, forall₂_trans (fun _ _ _ a b => a.trans b) h1.members h2.members, h1.lists.trans h2.lists,
    forall₂_trans (fun _ _ _ a b => ⟨a.1.trans b.1, a.2.trans b.2⟩) h1.mixes h2.mixes⟩

theorem Core.Alike.set {x y : Core} (h1 : x.Alike y) (a : Arr Num) (f : ParamField) : (x.set a f).Alike (y.set a f) := by
  cases x <;> cases y <;> first | exact h1.elim | skip
  · exact h1
  · obtain ⟨mu, rfl⟩ := h1
    cases f
    · exact ⟨mu, rfl⟩
    · exact ⟨mu, rfl⟩
    · exact ⟨mu, rfl⟩
    · exact ⟨some a, rfl⟩
    · exact ⟨mu, rfl⟩

/-- Actions treat alike objects alike. -/
theorem Objects.Alike.spec {w w' : Objects} (h : w.Alike w') (held : List (Arr Num)) (op : MixOp) :
    (op.spec w held).Alike (op.spec w' held) := by
  cases op with
  | make | edit | ask | askMix | grab | grabMix => exact h
  | set i f a =>
    simp only [MixOp.spec]
    rcases forall₂_get h.members i with ⟨h1, h2⟩ | ⟨x, y, h1, h2, h3⟩
    · rw [h1, h2]; exact h
    · rw [h1, h2]; exact ⟨h.cube, forall₂_set h.members (Core.Alike.set h3 a f) i, h.lists, h.mixes⟩
  | ybar i a =>
    simp only [MixOp.spec]
    rcases forall₂_get h.members i with ⟨h1, h2⟩ | ⟨x, y, h1, h2, h3⟩
    · rw [h1, h2]; exact h
    · rw [h1, h2]
      exact ⟨h.cube, forall₂_set (x := { x with ybar := some a }) (y := { y with ybar := some a }) h.members h3 i, h.lists, h.mixes⟩
  | list ids =>
    simp only [MixOp.spec, h.members.length_eq]
    split_ifs
    · exact ⟨h.cube, h.members, by rw [h.lists], h.mixes⟩
    · exact h
  | replace l pos i =>
    simp only [MixOp.spec, h.members.length_eq, h.lists]
    cases w'.lists[l]? with
    | none => exact h
    | some ids =>
      dsimp only
      split_ifs
      · exact ⟨h.cube, h.members, rfl, h.mixes⟩
      · exact h
  | mix l k =>
    simp only [MixOp.spec, h.lists]
    cases w'.lists[l]? with
    | none => exact h
    | some ids =>
      cases held[k]? with
      | none => exact h
      | some a =>
        dsimp only
        cases mixWeights ids.length a with
        | none => exact h
        | some ws => exact ⟨h.cube, h.members, rfl, List.rel_append h.mixes (.cons ⟨rfl, rfl⟩ .nil)⟩
  | evalYbar j =>
    simp only [MixOp.spec]
    have key (w : Objects) (x : Mixture) (hx : w.mixes[j]? = some x) :
        (match (w.toMix x).evaluateYbar with
          | .ok m => { w with mixes := w.mixes.set j { x with ybar := m.ybar } }
          | .error _ => w : Objects).Alike w ∧ w.Alike (match (w.toMix x).evaluateYbar with
          | .ok m => { w with mixes := w.mixes.set j { x with ybar := m.ybar } }
          | .error _ => w) := by
      cases (w.toMix x).evaluateYbar with
      | error e => exact ⟨.refl _, .refl _⟩
      | ok m =>
        have r := Objects.Alike.refl w
        have e : w.mixes = w.mixes.set j x := by
          refine (List.ext_getElem? fun k => ?_)
          rw [List.getElem?_set]
          split_ifs with h1 h2
          · rw [← h1, hx]
          · rw [← h1] at *
            exact List.getElem?_eq_none (not_lt.1 h2)
          · rfl
        constructor
        · refine ⟨rfl, r.members, rfl, ?_⟩
          have := forall₂_set (x := { x with ybar := m.ybar }) (y := x) r.mixes ⟨rfl, rfl⟩ j
          rw [← e] at this
          exact this
        · refine ⟨rfl, r.members, rfl, ?_⟩
          have := forall₂_set (x := x) (y := { x with ybar := m.ybar }) r.mixes ⟨rfl, rfl⟩ j
          rw [← e] at this
          exact this
    rcases forall₂_get h.mixes j with ⟨h1, h2⟩ | ⟨x, y, h1, h2, h3⟩
    · rw [h1, h2]; exact h
    · rw [h1, h2]
      exact (key w x h1).1.trans (h.trans (key w' y h2).2)

theorem MixInv.push (hi : MixInv st w) {b : Bool} {out : Py Ptr × Heap} (hk : Heap.Keeps st.heap.next st.heap out.2)
    (hr : ∀ r h', out = (.ok r, h') → (st.heap.next ≤ r.buf ∨ (b = true ∧ st.obj.Public r.buf)) ∧ h'.Has r) : MixInv (st.push b out) w := by
  obtain ⟨x, h'⟩ := out
  have hg := hi.grow hk
  cases x with
  | error e => exact hg
  | ok r =>
    obtain ⟨h1, h2⟩ := hr r h' rfl
    refine hg.add (st := ⟨h', st.obj, st.held⟩) h2 (fun hb => ?_) fun hf hb => ?_
    · rcases h1 with h1 | h1
      · exact absurd (hi.obj.private_lt hb) (not_lt.2 h1)
      · exact hi.apart _ h1.2 hb
    · rcases h1 with h1 | h1
      · exact absurd (hi.obj.public_lt hb) (not_lt.2 h1)
      · rw [hf] at h1; exact absurd h1.1 (by simp)

theorem HCore.set_private {x : HCore} {r : Ptr} {f : ParamField} {b : ℕ} (hb : (x.set r f).Private b) : x.Private b ∨ b = r.buf := by
  cases x with
  | plain => exact .inl hb
  | param hp =>
    have hb' : b ∈ (hp.set r f).bufs := hb
    show b ∈ hp.bufs ∨ _
    cases f <;> simp only [HParam.set, HParam.bufs, List.mem_append, List.map_append, Option.toList_some, List.map_cons, List.map_nil,
      List.mem_cons, List.not_mem_nil, or_false] at hb' ⊢ <;> tauto

theorem HCore.set_public {x : HCore} {r : Ptr} {f : ParamField} {b : ℕ} (hb : (x.set r f).Public b) : x.Public b ∨ b = r.buf := by
  cases x with
  | plain => exact .inl hb
  | param hp =>
    obtain ⟨m, h1, rfl⟩ := hb
    cases f
    iterate 3 exact .inl ⟨m, h1, rfl⟩
    · simp only [HParam.set, Option.some.injEq] at h1
      exact .inr (by rw [h1])
    · exact .inl ⟨m, h1, rfl⟩

theorem HCore.set_either {x : HCore} {r : Ptr} {f : ParamField} : (∀ b, (x.set r f).Private b → x.Private b) ∨
    ∀ b, (x.set r f).Public b → x.Public b := by
  cases x with
  | plain => exact .inl fun b hb => hb
  | param hp =>
    cases f
    iterate 3 exact .inr fun b hb => hb
    · exact .inl fun b hb => hb
    · exact .inr fun b hb => hb

theorem CoreAt.set {x : HCore} {y : Core} (hh : CoreAt n h x y) {r : Ptr} {a : Arr Num} (hr : OldAt n h r a) (f : ParamField) :
    CoreAt n h (x.set r f) (y.set a f) := by
  cases x <;> cases y
  · exact hh
  · exact hh.elim
  · exact hh.elim
  · have k3 : ParamAt _ _ _ _ := hh
    have hr : OptAt n h (some r) (some a) := hr
    cases f
    · exact ⟨k3.cube, k3.f2, hr, k3.logPxt, k3.logPztx, k3.muV, k3.sigV⟩
    · exact ⟨k3.cube, k3.f2, k3.logPt, hr, k3.logPztx, k3.muV, k3.sigV⟩
    · exact ⟨k3.cube, k3.f2, k3.logPt, k3.logPxt, hr, k3.muV, k3.sigV⟩
    · exact ⟨k3.cube, k3.f2, k3.logPt, k3.logPxt, k3.logPztx, hr, k3.sigV⟩
    · exact ⟨k3.cube, k3.f2, k3.logPt, k3.logPxt, k3.logPztx, k3.muV, hr⟩

/-- Replacing the `i`-th component by one with an attribute bound to a new array. -/
theorem MixInv.setMember (hi : MixInv st w) (hk : Heap.Keeps st.heap.next st.heap h') {r : Ptr} (hr : st.heap.next ≤ r.buf) {i : ℕ}
    {x x' : HMember} {y' : Member} (hx : st.obj.members[i]? = some x) (h2 : MemberAt h'.next h' x' y')
    (hpriv : ∀ b, x'.core.Private b → x.core.Private b ∨ b = r.buf)
    (hpub : ∀ b, (x'.core.Public b ∨ ∃ y, x'.ybar = some y ∧ y.buf = b) → (x.core.Public b ∨ ∃ y, x.ybar = some y ∧ y.buf = b) ∨ b = r.buf)
    (hnot : (∀ b, x'.core.Private b → x.core.Private b) ∨
      ∀ b, (x'.core.Public b ∨ ∃ y, x'.ybar = some y ∧ y.buf = b) → (x.core.Public b ∨ ∃ y, x.ybar = some y ∧ y.buf = b)) :
    MixInv ⟨h', { st.obj with members := st.obj.members.set i x' }, st.held⟩ { w with members := w.members.set i y' } := by
  have hg := (hi.grow hk).obj
  have hxm := List.mem_of_getElem? hx
  refine hi.rebind hk hr ⟨hg.cube, forall₂_set hg.members h2 i, hg.lists, ?_, hg.mixes⟩ ?_ ?_ ?_
  · intro l hl j hj
    show j < (st.obj.members.set i x').length
    rw [List.length_set]
    exact hg.valid l hl j hj
  · rintro b (hb | ⟨z, hz, hb⟩ | hb)
    · exact .inl (.inl hb)
    · rcases List.mem_or_eq_of_mem_set hz with hz | rfl
      · exact .inl (.inr (.inl ⟨z, hz, hb⟩))
      · exact (hpriv b hb).imp (fun hb => .inr (.inl ⟨x, hxm, hb⟩)) id
    · exact .inl (.inr (.inr hb))
  · rintro b (⟨z, hz, hb⟩ | hb)
    · rcases List.mem_or_eq_of_mem_set hz with hz | rfl
      · exact .inl (.inl ⟨z, hz, hb⟩)
      · exact (hpub b hb).imp (fun hb => .inl ⟨x, hxm, hb⟩) id
    · exact .inl (.inr hb)
  · refine hnot.imp (fun hn => ?_) fun hn => ?_
    · rintro b (hb | ⟨z, hz, hb⟩ | hb)
      · exact .inl hb
      · rcases List.mem_or_eq_of_mem_set hz with hz | rfl
        · exact .inr (.inl ⟨z, hz, hb⟩)
        · exact .inr (.inl ⟨x, hxm, hn b hb⟩)
      · exact .inr (.inr hb)
    · rintro b (⟨z, hz, hb⟩ | hb)
      · rcases List.mem_or_eq_of_mem_set hz with hz | rfl
        · exact .inl ⟨z, hz, hb⟩
        · exact .inl ⟨x, hxm, hn b hb⟩
      · exact .inr hb

/-- Every action keeps the invariant, with the objects changed as the user thinks; overwriting an array that belongs to a component or
mixture can change mean velocities and data cubes besides. -/
theorem MixInv.step (hi : MixInv st w) (op : MixOp) : ∃ w', MixInv (op.run f2 ppf st) w' ∧ w'.Alike (op.spec w st.vals) ∧
    (op.careful st → w' = op.spec w st.vals) := by
  have ok {op : MixOp} {w' : Objects} (h : MixInv (op.run f2 ppf st) w') (e : w' = op.spec w st.vals) :
      ∃ w', MixInv (op.run f2 ppf st) w' ∧ w'.Alike (op.spec w st.vals) ∧ (op.careful st → w' = op.spec w st.vals) :=
    ⟨w', h, e ▸ .refl _, fun _ => e⟩
  cases op with
  | make a =>
    refine ok (w' := w) ?_ rfl
    obtain ⟨r, h', e, h1, h2, h3, -⟩ := new_run a st.heap
    refine hi.push (out := H.new (.ok a) st.heap) (by rw [e]; exact h1) fun r' h'' e' => ?_
    rw [e] at e'
    cases e'
    exact ⟨.inl h3, h2⟩
  | edit k a =>
    simp only [MixOp.run]
    cases hk : st.held[k]? with
    | none => exact ⟨w, hi, .refl _, fun _ => rfl⟩
    | some r =>
      obtain ⟨a1, a2, a3⟩ := hi.held r (List.mem_of_getElem? hk)
      obtain ⟨w', h1, h2, h3⟩ := hi.obj.write a2 a
      exact ⟨w', ⟨h1, hi.apart, fun x hx => hi.held x hx⟩, h2, fun hc => h3 (a3 (hc k a rfl r hk))⟩
  | ask i q =>
    refine ok (w' := w) ?_ rfl
    refine hi.push (ask_keeps hi i q) fun r h' e => ?_
    obtain ⟨h1, h2⟩ := ask_in hi i q e
    exact ⟨h1.imp id fun h3 => ⟨decide_eq_true h3.1, h3.2⟩, h2⟩
  | askMix j q =>
    refine ok (w' := w) ?_ rfl
    refine hi.push (askMix_keeps hi j q) fun r h' e => ?_
    obtain ⟨h1, h2⟩ := askMix_new hi j q e
    exact ⟨.inl h1, h2⟩
  | set i f a =>
    refine ok ?_ rfl
    obtain ⟨r, h', e, h1, h2, h3, h4⟩ := new_run a st.heap
    simp only [MixOp.run, MixOp.spec, e]
    rcases forall₂_get hi.obj.members i with ⟨e1, e2⟩ | ⟨x, y, e1, e2, hx⟩
    · rw [e1, e2]; exact hi
    · rw [e1, e2]
      have hx' := (hx.keep h1 le_rfl).more h1.next le_rfl
      refine hi.setMember h1 h3 e1 ⟨hx'.core.set ⟨h2, h2, h4⟩ f, hx'.ybar⟩ (fun b hb => HCore.set_private hb) ?_ ?_
      · rintro b (hb | hb)
        · exact (HCore.set_public hb).imp .inl id
        · exact .inl (.inr hb)
      · refine HCore.set_either.imp id fun hn => ?_
        rintro b (hb | hb)
        · exact .inl (hn b hb)
        · exact .inr hb
  | ybar i a =>
    refine ok ?_ rfl
    obtain ⟨r, h', e, h1, h2, h3, h4⟩ := new_run a st.heap
    simp only [MixOp.run, MixOp.spec, e]
    rcases forall₂_get hi.obj.members i with ⟨e1, e2⟩ | ⟨x, y, e1, e2, hx⟩
    · rw [e1, e2]; exact hi
    · rw [e1, e2]
      have hx' := (hx.keep h1 le_rfl).more h1.next le_rfl
      refine hi.setMember h1 h3 e1 ⟨hx'.core, ⟨h2, h2, h4⟩⟩ (fun b hb => .inl hb) ?_ (.inl fun b hb => hb)
      rintro b (hb | ⟨z, hz, rfl⟩)
      · exact .inl (.inl hb)
      · obtain rfl : r = z := by simpa using hz
        exact .inr rfl
  | list ids =>
    refine ok ?_ rfl
    simp only [MixOp.run, MixOp.spec, hi.obj.members.length_eq]
    split_ifs with hv
    · refine ⟨⟨hi.obj.cube, hi.obj.members, by simp [hi.obj.lists], ?_, hi.obj.mixes.imp fun x y hx => ?_⟩, hi.apart, hi.held⟩
      · intro l hl
        rcases List.mem_append.1 hl with hl | hl
        · exact hi.obj.valid l hl
        · obtain rfl : l = ids := by simpa using hl
          intro i hi'
          show i < st.obj.members.length
          rw [hi.obj.members.length_eq]
          exact hv i hi'
      · obtain ⟨ids', h1, h2⟩ := hx.ids
        refine ⟨hx.list, ⟨ids', ?_, h2⟩, hx.nCmps, hx.weights, hx.ybar⟩
        show (st.obj.lists ++ [ids])[x.list]? = _
        rw [List.getElem?_append_left (List.getElem?_eq_some_iff.1 h1).1, h1]
    · exact hi
  | replace l pos i =>
    refine ok ?_ rfl
    simp only [MixOp.run, MixOp.spec, hi.obj.members.length_eq, ← hi.obj.lists]
    cases hl : st.obj.lists[l]? with
    | none => exact hi
    | some ids =>
      dsimp only
      split_ifs with hv
      · refine ⟨⟨hi.obj.cube, hi.obj.members, by simp [hi.obj.lists], ?_, hi.obj.mixes.imp fun x y hx => ?_⟩, hi.apart, hi.held⟩
        · intro l' hl'
          rcases List.mem_or_eq_of_mem_set hl' with hl' | rfl
          · exact hi.obj.valid l' hl'
          · intro j hj
            rcases List.mem_or_eq_of_mem_set hj with hj | rfl
            · exact hi.obj.valid ids (List.mem_of_getElem? hl) j hj
            · show j < st.obj.members.length
              rw [hi.obj.members.length_eq]
              exact hv
        · obtain ⟨ids', h1, h2⟩ := hx.ids
          refine ⟨hx.list, ?_, hx.nCmps, hx.weights, hx.ybar⟩
          show ∃ ids'', (st.obj.lists.set l (ids.set pos i))[x.list]? = some ids'' ∧ _
          by_cases he : l = x.list
          · subst he
            rw [hl] at h1
            cases h1
            exact ⟨ids.set pos i, by rw [List.getElem?_set_self (List.getElem?_eq_some_iff.1 hl).1], by rw [List.length_set, h2]⟩
          · exact ⟨ids', by rw [List.getElem?_set_ne he, h1], h2⟩
      · exact hi
  | mix l k =>
    refine ok ?_ rfl
    simp only [MixOp.run, MixOp.spec, ← hi.obj.lists]
    cases hl : st.obj.lists[l]? with
    | none => exact hi
    | some ids =>
      cases st.vals[k]? with
      | none => exact hi
      | some a =>
        dsimp only
        cases hw : mixWeights ids.length a with
        | none => exact hi
        | some ws =>
          dsimp only
          obtain ⟨-, hlen, -⟩ := mixWeights_some.1 hw
          obtain ⟨r, h', e, h1, h2, h3, h4⟩ := new_run (vec ws.length (fun i => .fin (ws.getD i 0))) st.heap
          rw [e]
          have hg := (hi.grow h1).obj
          refine hi.rebind h1 h3 ⟨hg.cube, hg.members, rfl, hg.valid, List.rel_append hg.mixes (.cons ?_ .nil)⟩ ?_ ?_ (.inr ?_)
          · exact ⟨rfl, ⟨ids, hl, hlen⟩, hlen, ⟨h2, h2, h4⟩, trivial⟩
          · rintro b (hb | hb | ⟨z, hz, hb⟩)
            · exact .inl (.inl hb)
            · exact .inl (.inr (.inl hb))
            · rcases List.mem_append.1 hz with hz | hz
              · exact .inl (.inr (.inr ⟨z, hz, hb⟩))
              · obtain rfl : z = _ := by simpa using hz
                exact .inr hb.symm
          · rintro b (hb | ⟨z, hz, y, hy, hb⟩)
            · exact .inl (.inl hb)
            · rcases List.mem_append.1 hz with hz | hz
              · exact .inl (.inr ⟨z, hz, y, hy, hb⟩)
              · obtain rfl : z = _ := by simpa using hz
                cases hy
          · rintro b (hb | ⟨z, hz, y, hy, hb⟩)
            · exact .inl hb
            · rcases List.mem_append.1 hz with hz | hz
              · exact .inr ⟨z, hz, y, hy, hb⟩
              · obtain rfl : z = _ := by simpa using hz
                cases hy
  | evalYbar j =>
    refine ok ?_ rfl
    simp only [MixOp.run, MixOp.spec]
    rcases forall₂_get hi.obj.mixes j with ⟨e1, e2⟩ | ⟨x, y, e1, e2, hx⟩
    · rw [e1, e2]; exact hi
    · rw [e1, e2]
      obtain ⟨h1, h2⟩ := evaluateYbar_run (mixSound hi.obj hx) ⟨hi.obj, hx⟩
      dsimp only
      revert h1 h2
      rcases (st.obj.toMix x).evaluateYbar st.heap with ⟨z, h'⟩
      rcases (w.toMix y).evaluateYbar with e | v
      · intro h1 h2
        cases z with
        | error => exact hi.grow h1
        | ok => exact h2.elim
      · intro h1 h2
        cases z with
        | error => exact h2.elim
        | ok z =>
          obtain ⟨o, a, rfl, rfl, ho⟩ := h2
          have hg := (hi.grow h1).obj
          have hx' := (hx.keep h1 le_rfl).more h1.next
          have hxm := List.mem_of_getElem? e1
          refine hi.rebind h1 ho.1 ⟨hg.cube, hg.members, hg.lists, hg.valid, forall₂_set hg.mixes ?_ j⟩ ?_ ?_ (.inl ?_)
          · exact ⟨hx'.list, hx'.ids, hx'.nCmps, hx'.weights, ⟨ho.pt.1, ho.pt⟩⟩
          · rintro b (hb | hb | ⟨z, hz, hb⟩)
            · exact .inl (.inl hb)
            · exact .inl (.inr (.inl hb))
            · rcases List.mem_or_eq_of_mem_set hz with hz | rfl
              · exact .inl (.inr (.inr ⟨z, hz, hb⟩))
              · exact .inl (.inr (.inr ⟨x, hxm, hb⟩))
          · rintro b (hb | ⟨z, hz, y, hy, hb⟩)
            · exact .inl (.inl hb)
            · rcases List.mem_or_eq_of_mem_set hz with hz | rfl
              · exact .inl (.inr ⟨z, hz, y, hy, hb⟩)
              · obtain rfl : o = y := by simpa using hy
                exact .inr hb.symm
          · rintro b (hb | hb | ⟨z, hz, hb⟩)
            · exact .inl hb
            · exact .inr (.inl hb)
            · rcases List.mem_or_eq_of_mem_set hz with hz | rfl
              · exact .inr (.inr ⟨z, hz, hb⟩)
              · exact .inr (.inr ⟨x, hxm, hb⟩)
  | grab i =>
    refine ok (w' := w) ?_ rfl
    simp only [MixOp.run]
    rcases forall₂_get hi.obj.members i with ⟨e1, -⟩ | ⟨x, y, e1, -, hx⟩
    · rw [e1]; exact hi
    · rw [e1]
      dsimp only
      cases hy : x.ybar with
      | none => exact hi
      | some o =>
        have hp : st.obj.Public o.buf := .inl ⟨x, List.mem_of_getElem? e1, .inr ⟨o, hy, rfl⟩⟩
        exact hi.add (hx.ybar.in' o hy).2 (hi.apart _ hp) (by simp)
  | grabMix j =>
    refine ok (w' := w) ?_ rfl
    simp only [MixOp.run]
    rcases forall₂_get hi.obj.mixes j with ⟨e1, -⟩ | ⟨x, y, e1, -, hx⟩
    · rw [e1]; exact hi
    · rw [e1]
      dsimp only
      cases hy : x.ybar with
      | none => exact hi
      | some o =>
        have hp : st.obj.Public o.buf := .inr ⟨x, List.mem_of_getElem? e1, o, hy, rfl⟩
        exact hi.add (hx.ybar.in' o hy).2 (hi.apart _ hp) (by simp)

/-- Every history. -/
theorem MixInv.history (hi : MixInv st w) (ops : List MixOp) : ∃ w', MixInv (ops.foldl (MixOp.run f2 ppf) st) w' ∧
    w'.Alike (ideal f2 ppf st w ops) ∧ (CarefulMix f2 ppf st ops → w' = ideal f2 ppf st w ops) := by
  have alike : ∀ (ops : List MixOp) (st : MixState) (w w' : Objects), w.Alike w' → (ideal f2 ppf st w ops).Alike (ideal f2 ppf st w' ops) := by
    intro ops
    induction ops with
    | nil => intro st w w' h; exact h
    | cons op ops ih => intro st w w' h; exact ih _ _ _ (h.spec _ op)
  induction ops generalizing st w with
  | nil => exact ⟨w, hi, .refl _, fun _ => rfl⟩
  | cons op ops ih =>
    obtain ⟨w1, h1, h2, h3⟩ := hi.step (f2 := f2) (ppf := ppf) op
    obtain ⟨w2, h4, h5, h6⟩ := ih h1
    refine ⟨w2, h4, h5.trans (alike ops _ _ _ h2), fun hc => ?_⟩
    rw [h6 hc.2, h3 hc.1]
    rfl

theorem MixInv.start (hs : MixStored st w) : MixInv st w := ⟨hs.1, hs.2.1, fun r hr => by rw [hs.2.2] at hr; cases hr⟩

theorem careful_inv (hs : MixStored st w) {ops : List MixOp} (hc : CarefulMix f2 ppf st ops) :
    MixInv (ops.foldl (MixOp.run f2 ppf) st) (ideal f2 ppf st w ops) := by
  obtain ⟨w', h1, -, h2⟩ := (MixInv.start hs).history (f2 := f2) (ppf := ppf) ops
  rw [← h2 hc]
  exact h1

theorem ideal_append (ops ops' : List MixOp) : ∀ (st : MixState) (w : Objects), ideal f2 ppf st w (ops ++ ops') =
    ideal f2 ppf (ops.foldl (MixOp.run f2 ppf) st) (ideal f2 ppf st w ops) ops' := by
  induction ops with
  | nil => intro st w; rfl
  | cons op ops ih => intro st w; exact ih _ _

theorem careful_append (ops ops' : List MixOp) : ∀ (st : MixState), CarefulMix f2 ppf st (ops ++ ops') ↔
    CarefulMix f2 ppf st ops ∧ CarefulMix f2 ppf (ops.foldl (MixOp.run f2 ppf) st) ops' := by
  induction ops with
  | nil => intro st; simp [CarefulMix]
  | cons op ops ih => intro st; simp only [List.cons_append, CarefulMix, ih, and_assoc, List.foldl_cons]

/-! ### Theorems -/

/-- After any history that does not overwrite arrays that belong to components or mixtures, every query of every component and every
mixture has the outcome it has for the objects as the user thinks of them: queries have changed nothing, mixtures have the weights
given at construction, and members are seen with the parameters set last. -/
theorem C67_answers (hs : MixStored st w) {ops : List MixOp} (hc : CarefulMix f2 ppf st ops) :
    let st' := ops.foldl (MixOp.run f2 ppf) st
    let w' := ideal f2 ppf st w ops
    (∀ i q, Agree (st'.ask f2 ppf i q) (w'.ask f2 ppf st'.vals i q)) ∧
    ∀ j q, Agree (st'.askMix f2 ppf j q) (w'.askMix f2 ppf st'.vals j q) := by
  have hi := careful_inv (f2 := f2) (ppf := ppf) hs hc
  exact ⟨fun i q => ask_agree hi i q, fun j q => askMix_agree hi j q⟩

/-- After any history, careful or not: the answers are those for objects that differ from these at most in the mean velocities of
parametric components and in data cubes. -/
theorem C67_answers_any (hs : MixStored st w) (ops : List MixOp) :
    let st' := ops.foldl (MixOp.run f2 ppf) st
    ∃ w' : Objects, w'.Alike (ideal f2 ppf st w ops) ∧
      (∀ i q, Agree (st'.ask f2 ppf i q) (w'.ask f2 ppf st'.vals i q)) ∧
      ∀ j q, Agree (st'.askMix f2 ppf j q) (w'.askMix f2 ppf st'.vals j q) := by
  obtain ⟨w', h1, h2, -⟩ := (MixInv.start hs).history (f2 := f2) (ppf := ppf) ops
  exact ⟨w', h2, fun i q => ask_agree h1 i q, fun j q => askMix_agree h1 j q⟩

/-- The data cubes of components and mixtures, read by the user after a careful history, are those of the objects as the user thinks of
them. -/
theorem C67_ybar (hs : MixStored st w) {ops : List MixOp} (hc : CarefulMix f2 ppf st ops) :
    let st' := ops.foldl (MixOp.run f2 ppf) st
    let w' := ideal f2 ppf st w ops
    (st'.obj.members.map fun m => m.ybar.map st'.heap.val) = w'.members.map Member.ybar ∧
    (st'.obj.mixes.map fun x => x.ybar.map st'.heap.val) = w'.mixes.map Mixture.ybar := by
  have hi := careful_inv (f2 := f2) (ppf := ppf) hs hc
  have key {α β γ : Type} {R : α → β → Prop} {l : List α} {l' : List β} {f : α → γ} {g : β → γ} (hl : List.Forall₂ R l l')
      (hR : ∀ x y, R x y → f x = g y) : l.map f = l'.map g := by
    induction hl with
    | nil => rfl
    | cons h1 _ ih => simp [hR _ _ h1, ih]
  exact ⟨key hi.obj.members fun x y hx => hx.ybar.val, key hi.obj.mixes fun x y hx => hx.ybar.val⟩

theorem step_keeps (hi : MixInv st w) (op : MixOp) (hop : ∀ k a, op ≠ .edit k a) :
    Heap.Keeps st.heap.next st.heap (op.run f2 ppf st).heap := by
  have push {b : Bool} {out : Py Ptr × Heap} (h : Heap.Keeps st.heap.next st.heap out.2) :
      Heap.Keeps st.heap.next st.heap (st.push b out).heap := by
    obtain ⟨x, h'⟩ := out
    cases x <;> exact h
  cases op with
  | make a =>
    obtain ⟨r, h', e, h1, -⟩ := new_run a st.heap
    exact push (out := H.new (.ok a) st.heap) (by rw [e]; exact h1)
  | edit k a => exact absurd rfl (hop k a)
  | ask i q => exact push (ask_keeps hi i q)
  | askMix j q => exact push (askMix_keeps hi j q)
  | set i f a =>
    obtain ⟨r, h', e, h1, -⟩ := new_run a st.heap
    simp only [MixOp.run, e]
    cases st.obj.members[i]? with
    | none => exact .refl _ _
    | some m => exact h1
  | ybar i a =>
    obtain ⟨r, h', e, h1, -⟩ := new_run a st.heap
    simp only [MixOp.run, e]
    cases st.obj.members[i]? with
    | none => exact .refl _ _
    | some m => exact h1
  | list ids =>
    simp only [MixOp.run]
    split_ifs <;> exact .refl _ _
  | replace l pos i =>
    simp only [MixOp.run]
    cases st.obj.lists[l]? with
    | none => exact .refl _ _
    | some ids => dsimp only; split_ifs <;> exact .refl _ _
  | mix l k =>
    simp only [MixOp.run]
    cases st.obj.lists[l]? with
    | none => exact .refl _ _
    | some ids =>
      cases st.vals[k]? with
      | none => exact .refl _ _
      | some a =>
        dsimp only
        cases mixWeights ids.length a with
        | none => exact .refl _ _
        | some ws =>
          obtain ⟨r, h', e, h1, -⟩ := new_run (vec ws.length (fun i => .fin (ws.getD i 0))) st.heap
          dsimp only
          rw [e]
          exact h1
  | evalYbar j =>
    simp only [MixOp.run]
    rcases forall₂_get hi.obj.mixes j with ⟨e1, e2⟩ | ⟨x, y, e1, e2, hx⟩
    · rw [e1]; exact .refl _ _
    · rw [e1]
      obtain ⟨h1, -⟩ := evaluateYbar_run (mixSound hi.obj hx) ⟨hi.obj, hx⟩
      dsimp only
      revert h1
      rcases (st.obj.toMix x).evaluateYbar st.heap with ⟨_ | _, h'⟩ <;> exact id
  | grab i =>
    simp only [MixOp.run]
    cases st.obj.members[i]? with
    | none => exact .refl _ _
    | some m =>
      dsimp only
      cases m.ybar <;> exact .refl _ _
  | grabMix j =>
    simp only [MixOp.run]
    cases st.obj.mixes[j]? with
    | none => exact .refl _ _
    | some m =>
      dsimp only
      cases m.ybar <;> exact .refl _ _

/-- Arrays stay what they were: no action other than overwriting an array changes an array that the user holds, be it an argument, an
answer, or a data cube; this includes the arrays of members handed out earlier, when mixtures are asked or evaluated. -/
theorem C67_arrays_kept (hs : MixStored st w) (ops : List MixOp) (op : MixOp) (hop : ∀ k a, op ≠ .edit k a) :
    let st' := ops.foldl (MixOp.run f2 ppf) st
    ∀ r ∈ st'.ptrs, (op.run f2 ppf st').heap.val r = st'.heap.val r := by
  intro st' r hr
  obtain ⟨w', hi, -⟩ := (MixInv.start hs).history (f2 := f2) (ppf := ppf) ops
  exact (step_keeps hi op hop).val (held_has hi r hr)

/-- Every answer of a mixture is an array of its own: it shares memory with no array of the user, none of the members, and none of any
mixture; also for the queries to which members answer with arrays of their own. -/
theorem C67_answers_new (hs : MixStored st w) (ops : List MixOp) (j : ℕ) (q : MixQuery) :
    let st' := ops.foldl (MixOp.run f2 ppf) st
    ∀ r, (st'.askMix f2 ppf j q).1 = .ok r → (∀ r' ∈ st'.ptrs, r'.buf ≠ r.buf) ∧ ¬ st'.obj.Private r.buf ∧ ¬ st'.obj.Public r.buf := by
  intro st' r hr
  obtain ⟨w', hi, -⟩ := (MixInv.start hs).history (f2 := f2) (ppf := ppf) ops
  obtain ⟨h1, -⟩ := askMix_new hi j q (r := r) (h' := (st'.askMix f2 ppf j q).2) (Prod.ext hr rfl)
  exact ⟨fun r' hr' => (lt_of_lt_of_le (held_has hi r' hr') h1).ne, fun hb => absurd (hi.obj.private_lt hb) (not_lt.2 h1),
    fun hb => absurd (hi.obj.public_lt hb) (not_lt.2 h1)⟩

/-- `evaluate_ybar` of a mixture makes an array of its own: the data cube shares memory with no array of the user (such as data cubes of
members read before), none of the members and none of any mixture, also if there is one member only. So overwriting a data cube of a
member later does not change that of the mixture. If `evaluate_ybar` raises, the mixture has the data cube it had. -/
theorem C67_ybar_new (hs : MixStored st w) (ops : List MixOp) (j : ℕ) :
    let st' := ops.foldl (MixOp.run f2 ppf) st
    let st'' := MixOp.run f2 ppf st' (.evalYbar j)
    ∀ x o, st''.obj.mixes[j]? = some x → x.ybar = some o →
      st'.obj.mixes[j]? = some x ∨ (∀ r ∈ st''.ptrs, r.buf ≠ o.buf) ∧ ¬ st'.obj.Private o.buf ∧ ¬ st'.obj.Public o.buf := by
  intro st' st'' x o hx ho
  obtain ⟨w', hi, -⟩ := (MixInv.start hs).history (f2 := f2) (ppf := ppf) ops
  have e : st'' = MixOp.run f2 ppf st' (.evalYbar j) := rfl
  simp only [MixOp.run] at e
  rcases forall₂_get hi.obj.mixes j with ⟨e1, e2⟩ | ⟨z, y, e1, e2, hz⟩
  · rw [show st'.obj.mixes[j]? = none from e1] at e
    rw [e] at hx
    exact .inl hx
  · rw [show st'.obj.mixes[j]? = some z from e1] at e
    obtain ⟨h1, h2⟩ := evaluateYbar_run (mixSound hi.obj hz) ⟨hi.obj, hz⟩
    dsimp only at e
    rcases hz' : (st'.obj.toMix z).evaluateYbar st'.heap with ⟨v | v, h'⟩
    · rw [hz'] at e
      rw [e] at hx
      exact .inl hx
    · rw [hz'] at e
      rw [show (st'.obj.toMix z).evaluateYbar (ops.foldl (MixOp.run f2 ppf) st).heap = (.ok v, h') from hz'] at h2
      cases hv : (w'.toMix y).evaluateYbar with
      | error => rw [hv] at h2; exact h2.elim
      | ok v' =>
        rw [hv] at h2
        obtain ⟨o', a, rfl, -, hf⟩ := h2
        have hx' : (st'.obj.mixes.set j { z with ybar := some o' })[j]? = some x := by
          rw [e] at hx
          exact hx
        rw [List.getElem?_set_self (List.getElem?_eq_some_iff.1 e1).1] at hx'
        cases hx'
        obtain rfl : o' = o := by simpa using ho
        have hn : st'.heap.next ≤ o'.buf := hf.1
        refine .inr ⟨fun r hr => ?_, fun hb => absurd (hi.obj.private_lt hb) (not_lt.2 hn), fun hb => absurd (hi.obj.public_lt hb) (not_lt.2 hn)⟩
        have hr' : r ∈ st'.ptrs := by rw [e] at hr; exact hr
        exact (lt_of_lt_of_le (held_has hi r hr') hn).ne

/-- The weights are copied: overwriting the array given to the constructor does not change the mixture. -/
theorem C67_weights_copied (hs : MixStored st w) {ops : List MixOp} (hc : CarefulMix f2 ppf st ops) {l k : ℕ} {ids : List ℕ}
    {r : Ptr} {ws : List ℝ} (hl : (ideal f2 ppf st w ops).lists[l]? = some ids)
    (hr : (ops.foldl (MixOp.run f2 ppf) st).held[k]? = some (r, false))
    (hw : weightsIn ((ops.foldl (MixOp.run f2 ppf) st).heap.val r) ws) (hlen : ids.length = ws.length) (hpos : ∀ x ∈ ws, 0 < x)
    (hsum : Mix.isCloseOne ws.sum) (b : Arr Num) (q : MixQuery) :
    let st' := (ops ++ [MixOp.mix l k, .edit k b]).foldl (MixOp.run f2 ppf) st
    let w' := ideal f2 ppf st w ops
    Agree (st'.askMix f2 ppf w'.mixes.length q) (q.value f2 ppf (w'.toMix ⟨l, ws, none⟩) st'.vals) := by
  intro st' w'
  have hi := careful_inv (f2 := f2) (ppf := ppf) hs hc
  have hv : (ops.foldl (MixOp.run f2 ppf) st).vals[k]? = some ((ops.foldl (MixOp.run f2 ppf) st).heap.val r) := by
    simp [MixState.vals, MixState.ptrs, hr]
  have hmw : mixWeights ids.length ((ops.foldl (MixOp.run f2 ppf) st).heap.val r) = some ws := mixWeights_some.2 ⟨hw, hlen, hpos, hsum⟩
  have hl' : (ops.foldl (MixOp.run f2 ppf) st).obj.lists[l]? = some ids := by rw [hi.obj.lists]; exact hl
  have hheld : (MixOp.run f2 ppf (ops.foldl (MixOp.run f2 ppf) st) (.mix l k)).held = (ops.foldl (MixOp.run f2 ppf) st).held := by
    obtain ⟨o, h', e, -⟩ := new_run (vec ws.length (fun i => .fin (ws.getD i 0))) (ops.foldl (MixOp.run f2 ppf) st).heap
    simp only [MixOp.run, hl', hv, hmw, e]
  have hc' : CarefulMix f2 ppf st (ops ++ [.mix l k, .edit k b]) := by
    rw [careful_append]
    refine ⟨hc, by simp [MixOp.careful], ?_, trivial⟩
    intro k' a' e r' hr'
    obtain ⟨rfl, rfl⟩ : k = k' ∧ b = a' := by simpa using e
    rw [hheld, hr] at hr'
    cases hr'
    rfl
  have h1 := (C67_answers (f2 := f2) (ppf := ppf) hs hc').2 w'.mixes.length q
  have e1 : ideal f2 ppf st w (ops ++ [.mix l k, .edit k b]) = { w' with mixes := w'.mixes ++ [⟨l, ws, none⟩] } := by
    rw [ideal_append]
    show MixOp.spec w' _ (.mix l k) = _
    simp only [MixOp.spec, hv]
    rw [show w'.lists[l]? = some ids from hl]
    simp only [hmw]
  have h2 : Agree (st'.askMix f2 ppf w'.mixes.length q)
    ((ideal f2 ppf st w (ops ++ [.mix l k, .edit k b])).askMix f2 ppf st'.vals w'.mixes.length q) := h1
  rw [e1] at h2
  unfold Objects.askMix at h2
  simp only [List.getElem?_concat_length] at h2
  exact h2

/-- The list of components is not copied: replacing an entry of the list given to the constructor replaces that member of the mixture. -/
theorem C67_list_shared (hs : MixStored st w) {ops : List MixOp} (hc : CarefulMix f2 ppf st ops) {j pos i : ℕ} {x : Mixture}
    {ids : List ℕ} (hx : (ideal f2 ppf st w ops).mixes[j]? = some x) (hl : (ideal f2 ppf st w ops).lists[x.list]? = some ids)
    (hm : i < (ideal f2 ppf st w ops).members.length) (q : MixQuery) :
    let st' := (ops ++ [MixOp.replace x.list pos i]).foldl (MixOp.run f2 ppf) st
    let w' := ideal f2 ppf st w ops
    Agree (st'.askMix f2 ppf j q) (q.value f2 ppf
      { w'.toMix x with children := (ids.set pos i).filterMap fun i => w'.members[i]?.map Member.child } st'.vals) := by
  intro st' w'
  have hc' : CarefulMix f2 ppf st (ops ++ [.replace x.list pos i]) := by
    rw [careful_append]
    exact ⟨hc, by simp [MixOp.careful], trivial⟩
  have h1 := (C67_answers (f2 := f2) (ppf := ppf) hs hc').2 j q
  have e1 : ideal f2 ppf st w (ops ++ [.replace x.list pos i]) = { w' with lists := w'.lists.set x.list (ids.set pos i) } := by
    rw [ideal_append]
    show MixOp.spec w' (ops.foldl (MixOp.run f2 ppf) st).vals (.replace x.list pos i) = _
    simp only [MixOp.spec]
    rw [show w'.lists[x.list]? = some ids from hl]
    exact if_pos hm
  have h2 : Agree (st'.askMix f2 ppf j q) ((ideal f2 ppf st w (ops ++ [.replace x.list pos i])).askMix f2 ppf st'.vals j q) := h1
  rw [e1] at h2
  unfold Objects.askMix at h2
  rw [show ({ w' with lists := w'.lists.set x.list (ids.set pos i) } : Objects).mixes[j]? = some x from hx] at h2
  have e2 : ({ w' with lists := w'.lists.set x.list (ids.set pos i) } : Objects).toMix x =
      { w'.toMix x with children := (ids.set pos i).filterMap fun i => w'.members[i]?.map Member.child } := by
    have : (w'.lists.set x.list (ids.set pos i)).getD x.list [] = ids.set pos i := by
      rw [List.getD_eq_getElem?_getD, List.getElem?_set_self (List.getElem?_eq_some_iff.1 hl).1, Option.getD_some]
    simp only [Objects.toMix, this]
  rw [← e2]
  exact h2

end
/-! ### The hypotheses are met

Two components, a parametric one `p` and one with the density `a`, on the cube of `p`. -/

def demoMixHeap (p : Param) (a : Arr Num) : Heap where
  next := 16
  mem k := if k = 15 then a else (storeParamHeap p).mem k
  drawn := 0

def demoMixState (p : Param) (a : Arr Num) : MixState where
  heap := demoMixHeap p a
  obj := ⟨storeCube p.cube, [⟨.param (storeParam p), none⟩, ⟨.plain (storeCube p.cube) ⟨15, none⟩, none⟩], [], []⟩
  held := []

def demoObjects (p : Param) (a : Arr Num) : Objects := ⟨p.cube, [⟨.param p, none⟩, ⟨.plain p.cube a, none⟩], [], []⟩

theorem demoMixStored (p : Param) (a : Arr Num) : MixStored (demoMixState p a) (demoObjects p a) := by
  have at' (k : ℕ) (hk : k < 16) (b : Arr Num) (hb : (demoMixHeap p a).mem k = b) : OldAt 16 (demoMixHeap p a) ⟨k, none⟩ b := ⟨hk, hk, hb⟩
  have opt (k : ℕ) (hk : k < 16) (b : Option (Arr Num)) (hb : (demoMixHeap p a).mem k = b.getD p.cube.x) :
      OptAt 16 (demoMixHeap p a) (b.map fun _ => ⟨k, none⟩) b := by
    cases b with
    | none => trivial
    | some b => exact at' k hk b hb
  have hc : CubeAt 16 (demoMixHeap p a) (storeCube p.cube) p.cube :=
    ⟨le_rfl, at' 0 (by omega) _ rfl, at' 1 (by omega) _ rfl, at' 2 (by omega) _ rfl, at' 3 (by omega) _ rfl,
      at' 4 (by omega) _ rfl, at' 5 (by omega) _ rfl, at' 6 (by omega) _ rfl, at' 7 (by omega) _ rfl, at' 8 (by omega) _ rfl,
      at' 9 (by omega) _ rfl, rfl, rfl⟩
  have hp : ParamAt 16 (demoMixHeap p a) (storeParam p) p :=
    ⟨hc, rfl, opt 10 (by omega) _ rfl, opt 11 (by omega) _ rfl, opt 12 (by omega) _ rfl, opt 13 (by omega) _ rfl, opt 14 (by omega) _ rfl⟩
  have hb : ∀ b ∈ (storeCube p.cube).bufs, b ≤ 9 := by simp [HCube.bufs, storeCube]
  refine ⟨⟨hc, .cons ⟨hp, trivial⟩ (.cons ⟨⟨hc, at' 15 (by omega) _ rfl⟩, trivial⟩ .nil), rfl, by simp [demoMixState], .nil⟩, ?_, rfl⟩
  rintro b (⟨x, hx, h1 | ⟨y, hy, -⟩⟩ | ⟨x, hx, -⟩) h2
  · simp only [demoMixState, List.mem_cons, List.not_mem_nil, or_false] at hx
    rcases hx with rfl | rfl
    · obtain ⟨m, h3, rfl⟩ := h1
      have h13 : m.buf = 13 := by
        obtain ⟨a, ha, rfl⟩ : ∃ a, p.muV = some a ∧ (⟨13, none⟩ : Ptr) = m := by simpa [storeParam] using h3
        rfl
      have h4 := (storedParam p).2 m h3
      rcases h2 with h2 | ⟨z, hz, h2⟩ | ⟨z, hz, -⟩
      · have := hb _ h2; omega
      · simp only [demoMixState, List.mem_cons, List.not_mem_nil, or_false] at hz
        rcases hz with rfl | rfl
        · exact h4 h2
        · rcases h2 with h2 | h2
          · have := hb _ h2; omega
          · rw [h13] at h2; cases h2
      · cases hz
    · exact h1
  · simp only [demoMixState, List.mem_cons, List.not_mem_nil, or_false] at hx
    rcases hx with rfl | rfl <;> cases hy
  · cases hx

/-- Weights 1/4 and 3/4. -/
def historyWeights : Arr Num := vec 2 fun i => .fin ([1 / 4, 3 / 4].getD i 0)

/-- The user makes a mixture of the two, overwrites the array of weights, sets the mean velocity of the first member to `b`, asks the
mixture for its mean velocity and overwrites the answer. -/
def demoMixHistory (b junk : Arr Num) : List MixOp :=
  [.make historyWeights, .list [0, 1], .mix 0 0, .edit 0 junk, .set 0 .muV b, .askMix 0 (.mean "v_tx".toList false), .edit 1 junk]

/-- A history without queries to components, and without reading data cubes, is careful. -/
theorem careful_of (f2 : ℝ) (ppf : ℝ → ℝ) (ops : List MixOp) (ho : ∀ op ∈ ops, (∀ i q, op ≠ .ask i q) ∧ (∀ i, op ≠ .grab i) ∧ ∀ j, op ≠ .grabMix j) :
    ∀ st : MixState, (∀ r ∈ st.held, r.2 = false) → CarefulMix f2 ppf st ops := by
  induction ops with
  | nil => intro st _; trivial
  | cons op ops ih =>
    intro st hs
    refine ⟨fun k a _ r hr => hs r (List.mem_of_getElem? hr), ih (fun o h => ho o (List.mem_cons_of_mem _ h)) _ ?_⟩
    have push (out : Py Ptr × Heap) : ∀ r ∈ (st.push false out).held, r.2 = false := by
      obtain ⟨x, h'⟩ := out
      cases x with
      | error => exact hs
      | ok r =>
        intro x hx
        rcases List.mem_append.1 hx with hx | hx
        · exact hs x hx
        · obtain rfl : x = (r, false) := by simpa using hx
          rfl
    have h1 := ho op (by simp)
    cases op with
    | make a => exact push _
    | askMix j q => exact push _
    | ask i q => exact absurd rfl (h1.1 i q)
    | grab i => exact absurd rfl (h1.2.1 i)
    | grabMix j => exact absurd rfl (h1.2.2 j)
    | edit k a => simp only [MixOp.run]; split <;> exact hs
    | set i f a => simp only [MixOp.run]; split <;> exact hs
    | ybar i a => simp only [MixOp.run]; split <;> exact hs
    | list ids => simp only [MixOp.run]; split <;> exact hs
    | replace l pos i => simp only [MixOp.run]; split <;> [split; skip] <;> exact hs
    | mix l k => simp only [MixOp.run]; split <;> [(split <;> [split; skip]); skip] <;> exact hs
    | evalYbar j => simp only [MixOp.run]; split <;> [split; skip] <;> exact hs

theorem demoMix_careful (f2 : ℝ) (ppf : ℝ → ℝ) (p : Param) (a b junk : Arr Num) :
    CarefulMix f2 ppf (demoMixState p a) (demoMixHistory b junk) :=
  careful_of f2 ppf _ (by simp [demoMixHistory]) _ (by simp [demoMixState])

theorem historyWeights_in : weightsIn historyWeights [1 / 4, 3 / 4] := ⟨rfl, fun i hi => rfl⟩

theorem historyWeights_ok : mixWeights 2 historyWeights = some [1 / 4, 3 / 4] :=
  mixWeights_some.2 ⟨historyWeights_in, rfl, by simp, by norm_num [Mix.isCloseOne]⟩

/-- The objects after that history: the mean velocity of the first component is new, all else is as at construction. -/
theorem demoMix_ideal (f2 : ℝ) (ppf : ℝ → ℝ) (p : Param) (a b junk : Arr Num) :
    ideal f2 ppf (demoMixState p a) (demoObjects p a) (demoMixHistory b junk) =
      ⟨p.cube, [⟨.param (p.set b .muV), none⟩, ⟨.plain p.cube a, none⟩], [[0, 1]], [⟨0, [1 / 4, 3 / 4], none⟩]⟩ := by
  have hv : (MixOp.run f2 ppf (MixOp.run f2 ppf (demoMixState p a) (.make historyWeights)) (.list [0, 1])).vals[0]? = some historyWeights := by
    simp only [MixOp.run]
    split_ifs <;> rfl
  have e : MixOp.spec (demoObjects p a) (MixOp.run f2 ppf (demoMixState p a) (.make historyWeights)).vals (.list [0, 1]) =
      { demoObjects p a with lists := [[0, 1]] } := by
    simp only [MixOp.spec]
    exact if_pos (by simp [demoObjects])
  have e' : MixOp.spec { demoObjects p a with lists := [[0, 1]] }
      (MixOp.run f2 ppf (MixOp.run f2 ppf (demoMixState p a) (.make historyWeights)) (.list [0, 1])).vals (.mix 0 0) =
      { demoObjects p a with lists := [[0, 1]], mixes := [⟨0, [1 / 4, 3 / 4], none⟩] } := by
    simp only [MixOp.spec, hv, List.getElem?_cons_zero, List.length_cons, List.length_nil, Nat.zero_add, Nat.reduceAdd, historyWeights_ok]
    rfl
  unfold demoMixHistory ideal
  rw [show MixOp.spec (demoObjects p a) (demoMixState p a).vals (.make historyWeights) = demoObjects p a from rfl]
  unfold ideal
  rw [e]
  unfold ideal
  rw [e']
  rfl

attribute [local irreducible] Agree in
/-- After it, every query to the mixture has the outcome it has for the mixture, with weights 1/4 and 3/4, of `p` with the new mean
velocity and of the component with the density `a`. -/
example (f2 : ℝ) (ppf : ℝ → ℝ) (p : Param) (a b junk : Arr Num) (q : MixQuery) :
    let st := (demoMixHistory b junk).foldl (MixOp.run f2 ppf) (demoMixState p a)
    Agree (st.askMix f2 ppf 0 q) (q.value f2 ppf
      ⟨p.cube, [Component.child (p.set b .muV).self none, Component.child (Component.baseSelf p.cube a) none], [1 / 4, 3 / 4], none⟩
      st.vals) := by
  intro st
  have h1 := (C67_answers (demoMixStored p a) (demoMix_careful f2 ppf p a b junk)).2 0 q
  rw [demoMix_ideal] at h1
  exact h1

attribute [local irreducible] Agree in
/-- The hypotheses of `C67_weights_copied` are met. -/
example (f2 : ℝ) (ppf : ℝ → ℝ) (p : Param) (a b : Arr Num) (q : MixQuery) :
    let ops := [MixOp.make historyWeights, .list [0, 1]]
    let st := (ops ++ [MixOp.mix 0 0, .edit 0 b]).foldl (MixOp.run f2 ppf) (demoMixState p a)
    Agree (st.askMix f2 ppf 0 q) (q.value f2 ppf
      ⟨p.cube, [Component.child p.self none, Component.child (Component.baseSelf p.cube a) none], [1 / 4, 3 / 4], none⟩ st.vals) := by
  intro ops st
  have e : ideal f2 ppf (demoMixState p a) (demoObjects p a) ops = { demoObjects p a with lists := [[0, 1]] } := by
    unfold ops ideal ideal ideal
    simp only [MixOp.spec]
    exact if_pos (by simp [demoObjects])
  have hh : (ops.foldl (MixOp.run f2 ppf) (demoMixState p a)).held[0]? = some (⟨16, none⟩, false) ∧
      (ops.foldl (MixOp.run f2 ppf) (demoMixState p a)).heap.val ⟨16, none⟩ = historyWeights := by
    simp only [ops, List.foldl_cons, List.foldl_nil]
    simp only [MixOp.run]
    split_ifs <;> exact ⟨rfl, rfl⟩
  have h1 := C67_weights_copied (f2 := f2) (ppf := ppf) (demoMixStored p a) (ops := ops) (careful_of f2 ppf _ (by simp [ops]) _ (by simp [demoMixState]))
    (l := 0) (k := 0) (ids := [0, 1]) (by rw [e]; rfl) hh.1 (by rw [hh.2]; exact historyWeights_in) rfl (by simp) (by norm_num [Mix.isCloseOne]) b q
  rw [e] at h1
  exact h1

attribute [local irreducible] Agree in
/-- The hypotheses of `C67_list_shared` are met: after `l[1] = l[0]`, both members of the mixture are the parametric component. -/
example (f2 : ℝ) (ppf : ℝ → ℝ) (p : Param) (a b junk : Arr Num) (q : MixQuery) :
    let st := (demoMixHistory b junk ++ [MixOp.replace 0 1 0]).foldl (MixOp.run f2 ppf) (demoMixState p a)
    Agree (st.askMix f2 ppf 0 q) (q.value f2 ppf
      ⟨p.cube, [Component.child (p.set b .muV).self none, Component.child (p.set b .muV).self none], [1 / 4, 3 / 4], none⟩ st.vals) := by
  intro st
  have e := demoMix_ideal f2 ppf p a b junk
  have h1 := C67_list_shared (f2 := f2) (ppf := ppf) (demoMixStored p a) (demoMix_careful f2 ppf p a b junk) (j := 0) (pos := 1) (i := 0)
    (x := ⟨0, [1 / 4, 3 / 4], none⟩) (ids := [0, 1]) (by rw [e]; rfl) (by rw [e]; rfl) (by rw [e]; simp) q
  rw [e] at h1
  exact h1

/-- A history in which a member is evaluated, its data cube read and overwritten, is not careful. -/
example (f2 : ℝ) (ppf : ℝ → ℝ) (p : Param) (a b junk : Arr Num) :
    ¬ CarefulMix f2 ppf (demoMixState p a) [.ybar 0 b, .grab 0, .edit 0 junk] := by
  rintro ⟨-, -, h, -⟩
  have := h 0 junk rfl (⟨16, none⟩, true) rfl
  cases this

end PKM
