import Verif.HeapMix
import Verif.HeapParamLemmas

/-!
# The queries of mixtures in memory
-/

open scoped Classical

noncomputable section

namespace PKM
open Np

/-- While `I` holds, the methods of a member in memory return what the memoryless methods return and change nothing that is older. -/
structure ChildSound (n : ℕ) (I : Heap → Prop) (hc : HChild) (c : Child) : Prop where
  logP : ∀ w, Matched I (hc.logP w) (c.logP w)
  getP : ∀ w d lw h, I h → Run h.next h (hc.getP w d lw) (c.getP w d lw) (Own h.next)
  getMean : ∀ w lw h, I h → Run h.next h (hc.getMean w lw) (c.getMean w lw) Points
  getNcm : ∀ w j mu mu' lw h, I h → Points h mu mu' → Run h.next h (hc.getNcm w j mu lw) (c.getNcm w j mu' lw) (Own h.next)
  ybar : ∀ h, I h → OptAt n h hc.ybar c.ybar

/-- The same for a mixture of such members, with one weight per member. -/
structure MixSound (n : ℕ) (I : Heap → Prop) (hm : HMix) (m : Mix) : Prop where
  cube : ∀ h, I h → CubeAt n h hm.cube m.cube
  keep : ∀ h h', I h → Heap.Keeps n h h' → I h'
  weights : ∀ h, I h → OldAt n h hm.weights m.weightArr
  children : List.Forall₂ (ChildSound n I) hm.children m.children
  len : m.children.length = m.weights.length
  nCmps : hm.nCmps = m.children.length

theorem childSound {n : ℕ} {sh : PyStr → Prop} {I J : Heap → Prop} {hs : HSelf} {s : Self} (S : MemSound n sh J hs s)
    (hJ : ∀ h, I h → J h) {hy : Option Ptr} {y : Option (Arr Num)} (hY : ∀ h, I h → OptAt n h hy y) :
    ChildSound n I (HComp.child hs hy) (Component.child s y) where
  logP w := by
    rcases S.logP w with h1 | ⟨f, f', h1, h2, h3⟩
    · exact .inl h1
    · exact .inr ⟨f, f', h1, h2, fun d lw h hi => h3 d lw h (hJ h hi)⟩
  getP w d lw h hi := getP_run S (hJ h hi) w d lw
  getMean w lw h hi := (getMean_run S (hJ h hi) w lw).ret le_rfl fun _ _ _ hR => hR.2
  getNcm w j mu mu' lw h hi hm := getNoncentralMoment_run S (hJ h hi) w j hm lw
  ybar := hY

section
variable {n k : ℕ} {I : Heap → Prop} {hm : HMix} {m : Mix} {h h' : Heap} {o : Ptr} {a : Arr Num}

theorem MixSound.up (S : MixSound n I hm m) (hi : I h) (hu : Heap.Up h h') : I h' := S.keep h h' hi (hu.mono (S.cube h hi).le)

theorem MixSound.down (S : MixSound n I hm m) (hi : I h) (hk : Heap.Keeps k h h') (hn : n ≤ k) : I h' := S.keep h h' hi (hk.mono hn)

theorem H.pure_step {α β : Type} (a : α) (f : α → H β) : (pure a >>= f) = f a := rfl

/-- A position and the weight found there. -/
def WeightIs (I : Heap → Prop) (hm : HMix) (i : ℕ) (w : ℝ) : Prop := ∀ h, I h → (h.val hm.weights).get [i] = .fin w

theorem weight_run (S : MixSound n I hm m) (hi : I h) {i : ℕ} {w : ℝ} (hw : WeightIs I hm i w) {γ δ : Type} {f : Num → H γ} {p : Py δ}
    {R : Heap → γ → δ → Prop} (h2 : Run k h (f (.fin w)) p R) : Run k h (hm.weight i >>= f) p R := by
  unfold HMix.weight
  rw [H.bind_assoc]
  refine Run.skip (Run.read (S.weights h hi).2) fun h' x _ hx => ?_
  obtain ⟨rfl, rfl, -⟩ := hx
  have := hw h' hi
  rw [(S.weights h' hi).2.2] at this
  show Run k h' (f (m.weightArr.get [i])) p R
  rw [this]
  exact h2

/-- The pairs visited by the loops over members and weights. -/
def Zipped (n : ℕ) (I : Heap → Prop) (hm : HMix) (x : HChild × ℕ) (y : Child × ℝ) : Prop :=
  ChildSound n I x.1 y.1 ∧ WeightIs I hm x.2 y.2

theorem zipped_run (S : MixSound n I hm m) (hi : I h) :
    Run k h hm.zipped (.ok (m.children.zip m.weights)) (fun h' l l' => h' = h ∧ List.Forall₂ (Zipped n I hm) l l' ∧
      l'.length = hm.nCmps) := by
  refine Run.skip (Run.read (S.weights h hi).2) fun h' x _ hx => ?_
  obtain ⟨rfl, rfl, -⟩ := hx
  refine Run.ok ⟨rfl, ?_, by rw [List.length_zip, S.nCmps, ← S.len, min_self]⟩
  show List.Forall₂ _ (hm.children.zip (List.range m.weights.length)) _
  rw [List.forall₂_iff_get]
  have hl : hm.children.length = m.children.length := S.children.length_eq
  refine ⟨by simp [hl], fun i h1 h2 => ?_⟩
  have h1' : i < hm.children.length := by simp at h1; exact h1.1
  have h2' : i < m.weights.length := by simp at h1; exact h1.2
  simp only [List.get_eq_getElem, List.getElem_zip, List.getElem_range]
  refine ⟨(List.forall₂_iff_get.1 S.children).2 i h1' (hl ▸ h1'), fun h'' hi' => ?_⟩
  rw [(S.weights h'' hi').2.2]
  show Num.fin (m.weights.getD i 0) = _
  rw [List.getD_eq_getElem?_getD, List.getElem?_eq_getElem h2', Option.getD_some]

/-! ### `evaluate_ybar` -/

theorem addYbar_run (S : MixSound n I hm m) (hn : n ≤ k) {l : List (HChild × ℕ)} {l' : List (Child × ℝ)}
    (hl : List.Forall₂ (Zipped n I hm) l l') : ∀ {h : Heap} {a : Arr Num}, I h → k ≤ h.next → Fresh k h o a →
    Run k h (hm.addYbar o l) (Mix.addYbar a l') (fun h' _ r => Fresh k h' o r) := by
  induction hl with
  | nil => intro h a _ _ ho; exact Run.ok ho
  | @cons x y l l' hx hl ih =>
    intro h a hi hk ho
    obtain ⟨c, i⟩ := x
    obtain ⟨c', w⟩ := y
    unfold HMix.addYbar Mix.addYbar
    refine weight_run S hi hx.2 ?_
    have hy := hx.1.ybar h hi
    unfold HMix.childYbar Mix.childYbar
    dsimp only at hy ⊢
    rcases h1 : c.ybar with _ | y <;> rcases h2 : c'.ybar with _ | y' <;> rw [h1, h2] at hy
    · exact Run.throw
    · exact hy.elim
    · exact hy.elim
    · dsimp only
      rw [H.pure_step, Py.ok_bind]
      refine Run.stepMap hk hy.2 fun h1 wy u1 r1 => ?_
      refine Run.stepIop (ho.up u1) r1.pt fun h2 r k2 r2 _ e2 => ?_
      exact ih (S.down (S.up hi u1) k2 hn) (by rw [e2]; exact hk.trans u1.next) r2

/-- `evaluate_ybar`: the new `ybar` is a new array with the right contents, all else is as before. -/
theorem evaluateYbar_run (S : MixSound n I hm m) (hi : I h) :
    Run h.next h hm.evaluateYbar m.evaluateYbar (fun h' x y => ∃ o a, x = { hm with ybar := some o } ∧ y = { m with ybar := some a } ∧
      Fresh h.next h' o a) := by
  unfold HMix.evaluateYbar Mix.evaluateYbar
  have hc := S.children
  rcases h1 : hm.children with _ | ⟨c, cs⟩ <;> rcases h2 : m.children with _ | ⟨c', cs'⟩ <;> rw [h1, h2] at hc
  · exact Run.throw
  · cases hc
  · cases hc
  · obtain ⟨hx, -⟩ := List.forall₂_cons.1 hc
    have hy := hx.ybar h hi
    unfold HMix.childYbar Mix.childYbar
    dsimp only at hy ⊢
    rcases h3 : c.ybar with _ | y <;> rcases h4 : c'.ybar with _ | y' <;> rw [h3, h4] at hy
    · exact Run.throw
    · exact hy.elim
    · exact hy.elim
    · dsimp only
      rw [H.pure_step, Py.ok_bind, ← h2]
      refine Run.stepOk (f := fun a => full a.shape (.fin 0)) le_rfl hy.2 fun h1 o u1 r1 => ?_
      have hi1 := S.up hi u1
      refine Run.skip (zipped_run S hi1) fun h2 l _ hl => ?_
      obtain ⟨rfl, hl, -⟩ := hl
      refine Run.bind (addYbar_run S (S.cube h hi).le hl hi1 u1.next r1) fun h3 _ r _ _ hr => ?_
      exact Run.ok ⟨o, r, rfl, rfl, hr⟩

/-! ### Distributions -/

theorem logPi_run (S : MixSound n I hm m) (hi : I h) (w : PyStr) (d : Bool) {x : HChild × ℕ} {y : Child × ℝ} (hx : Zipped n I hm x y) :
    Run h.next h (hm.logPi w d x) (Mix.logPi w d y) (Fresh h.next) := by
  unfold HMix.logPi Mix.logPi
  refine weight_run S hi hx.2 ?_
  rcases hx.1.logP w with ⟨h1, h2⟩ | ⟨f, f', h1, h2, h3⟩
  · rw [h1, h2]; exact Run.throw
  · rw [h1, h2]
    refine Run.call le_rfl (h3 d false h hi) fun h1 o a u r => ?_
    exact (Run.map _ r.2).ret u.next fun _ _ _ hR => hR.mono u.next

/-- The array after row `i` is set to `b`. -/
def rowSet (i : ℕ) (b a : Arr Num) : Arr Num :=
  ⟨a.shape, fun p => match p with
    | [] => a.get []
    | j :: t => if j = i then b.get t else a.get (j :: t)⟩

/-- Writing through the view `o[i]` of a whole array. -/
theorem writeRow {N : ℕ} {s : List ℕ} {i : ℕ} {b : Arr Num} (ho : Fresh k h o a) (hs : a.shape = N :: s) :
    Run k h (H.write ⟨o.buf, some (s, fun p => i :: p)⟩ b) (.ok ()) (fun h' _ _ => Fresh k h' o (rowSet i b a) ∧ h'.next = h.next ∧
      ∀ q ≠ o.buf, h'.mem q = h.mem q) := by
  obtain ⟨h1, h2, h3, h4⟩ := ho
  obtain ⟨buf, view⟩ := o
  dsimp only at h1 h2 h3
  subst h2
  have h4' : h.mem buf = a := h4
  have m : ∀ q ≠ buf, (H.write ⟨buf, some (s, fun p => i :: p)⟩ b h).2.mem q = h.mem q := fun q hq => by simp [H.write, hq]
  refine ⟨⟨le_rfl, fun q hq => m q (by omega)⟩, ⟨h1, rfl, h3, ?_⟩, rfl, m⟩
  show (H.write ⟨buf, some (s, fun p => i :: p)⟩ b h).2.mem buf = _
  simp only [H.write, Function.update_self, h4', rowSet]
  congr 1
  funext p
  rcases p with _ | ⟨j, t⟩
  · simp
  · by_cases hj : j = i
    · subst hj
      show _ = if j = j then b.get t else a.get (j :: t)
      rw [if_pos rfl]
      by_cases ht : InBox s t
      · have hp : ∃ q, InBox s q ∧ j :: q = j :: t := ⟨t, ht, rfl⟩
        rw [dif_pos hp, (List.cons.inj hp.choose_spec.2).2]
      · have hp : ¬ ∃ q, InBox s q ∧ j :: q = j :: t := fun ⟨q, h5, h6⟩ => ht ((List.cons.inj h6).2 ▸ h5)
        have hq : ∃ q, j :: q = j :: t := ⟨t, rfl⟩
        rw [dif_neg hp, hs, if_neg fun hb => ht hb.2, dif_pos hq, (List.cons.inj hq.choose_spec).2]
    · show _ = if j = i then b.get t else a.get (j :: t)
      rw [if_neg hj, dif_neg fun ⟨q, _, h6⟩ => hj (List.cons.inj h6).1.symm, dif_neg fun ⟨q, h6⟩ => hj (List.cons.inj h6).1.symm]
      split_ifs <;> rfl

/-- The view `o[i]`. -/
theorem rowView {N : ℕ} {s : List ℕ} {i : ℕ} (ho : Fresh k h o a) (hs : a.shape = N :: s) (hi : i < N) :
    H.getitem [.at i] o h = (.ok ⟨o.buf, some (s, fun p => i :: p)⟩, h) := by
  obtain ⟨h1, h2, h3, h4⟩ := ho
  obtain ⟨buf, view⟩ := o
  dsimp only at h1 h2 h3
  subst h2
  simp only [H.getitem, Bind.bind, Pure.pure, H.read, H.lift, h4, hs, ixShape, ixIdx]
  have e : (if (i : ℤ) < 0 then (i : ℤ) + N else i) = i := if_neg (by omega)
  rw [if_pos (by rw [e]; omega)]
  simp only [e, Int.toNat_natCast]

theorem firstRow_run {N : ℕ} (hN : 0 < N) (ho : Points h o a) :
    Run h.next h (H.firstRow N 0 o) (.ok (rowSet 0 a ⟨N :: a.shape, fun i => if InBox (N :: a.shape) i then .fin 0 else a.get i.tail⟩))
      (Fresh h.next) := by
  unfold H.firstRow
  refine Run.skip (Run.read ho) fun h' x _ hx => ?_
  obtain ⟨rfl, rfl, -⟩ := hx
  refine Run.stepNew le_rfl fun h1 r u1 hr => ?_
  have e := rowView hr rfl hN
  have hw := writeRow (i := 0) (b := x) hr rfl
  have : Run h'.next h1 (H.getitem [.at ((0 : ℕ) : ℤ)] r) (.ok ()) (fun h2 v _ => h2 = h1 ∧ v = ⟨r.buf, some (x.shape, fun p => 0 :: p)⟩) := by
    unfold Run
    rw [e]
    exact ⟨.refl _ _, rfl, rfl⟩
  refine Run.skip this fun h2 v _ hv => ?_
  obtain ⟨rfl, rfl⟩ := hv
  refine Run.skip hw fun h3 _ _ h4 => ?_
  exact Run.ok h4.1

theorem setRow_run {N i : ℕ} {s : List ℕ} {r : Ptr} {b : Arr Num} (ho : Fresh k h o a) (hs : a.shape = N :: s) (hi : i < N)
    (hr : Points h r b) : Run k h (H.setRow o i r) (Np.broadcastTo s b >>= fun b => .ok (rowSet i b a))
      (fun h' _ x => Fresh k h' o x ∧ h'.next = h.next) := by
  unfold H.setRow
  refine Run.skip (Run.read hr) fun h' x _ hx => ?_
  obtain ⟨rfl, rfl, -⟩ := hx
  have e := rowView ho hs hi
  have hv : Run k h' (H.getitem [.at (i : ℤ)] o) (.ok ()) (fun h2 v _ => h2 = h' ∧ v = ⟨o.buf, some (s, fun p => i :: p)⟩) := by
    unfold Run
    rw [e]
    exact ⟨.refl _ _, rfl, rfl⟩
  refine Run.skip hv fun h2 v _ hv => ?_
  obtain ⟨rfl, rfl⟩ := hv
  refine Run.skip (x := h2.val ⟨o.buf, some (s, fun p => i :: p)⟩) (Run.read ⟨ho.2.2.1, rfl⟩) fun h3 y _ hy => ?_
  obtain ⟨rfl, rfl, -⟩ := hy
  show Run k h3 (H.lift (Np.broadcastTo s x) >>= fun b => _) _ _
  refine Run.bind (R := fun h' a b => h' = h3 ∧ a = b) (Run.lift fun _ _ => ⟨rfl, rfl⟩) fun h4 b b' _ _ hb => ?_
  obtain ⟨rfl, rfl⟩ := hb
  have := (writeRow (i := i) (b := b) ho hs).2
  exact ⟨(writeRow (i := i) (b := b) ho hs).1, this.1, this.2.1⟩

/-- The array after the rows `i`, `i + 1`, ... are set. -/
def rowsSet : ℕ → List (Arr Num) → Arr Num → Arr Num
  | _, [], a => a
  | i, b :: r, a => rowsSet (i + 1) r (rowSet i b a)

theorem rowsSet_shape (r : List (Arr Num)) : ∀ (i : ℕ) (a : Arr Num), (rowsSet i r a).shape = a.shape := by
  induction r with
  | nil => intro i a; rfl
  | cons b r ih => intro i a; exact ih _ _

theorem rowsSet_get (r : List (Arr Num)) : ∀ (i : ℕ) (a : Arr Num) (j : ℕ) (t : List ℕ), (rowsSet i r a).get (j :: t) =
    if i ≤ j ∧ j < i + r.length then (r.getD (j - i) a).get t else a.get (j :: t) := by
  induction r with
  | nil => intro i a j t; rw [if_neg (by simp)]; rfl
  | cons b r ih =>
    intro i a j t
    show (rowsSet (i + 1) r (rowSet i b a)).get (j :: t) = _
    rw [ih]
    by_cases hj : j = i
    · subst hj
      rw [if_neg (by omega), if_pos (by simp)]
      simp [rowSet]
    · by_cases hlt : i + 1 ≤ j ∧ j < i + 1 + r.length
      · rw [if_pos hlt, if_pos (by simp only [List.length_cons]; omega)]
        obtain ⟨q, rfl⟩ : ∃ q, j = i + 1 + q := ⟨j - (i + 1), by omega⟩
        have hq : q < r.length := by omega
        rw [show i + 1 + q - (i + 1) = q by omega, show i + 1 + q - i = q + 1 by omega, List.getD_cons_succ]
        simp only [List.getD_eq_getElem?_getD, List.getElem?_eq_getElem hq, Option.getD_some]
      · rw [if_neg hlt, if_neg (by simp only [List.length_cons]; omega)]
        simp [rowSet, hj]

theorem rowsSet_nil (r : List (Arr Num)) : ∀ (i : ℕ) (a : Arr Num), (rowsSet i r a).get [] = a.get [] := by
  induction r with
  | nil => intro i a; rfl
  | cons b r ih => intro i a; exact ih _ _

theorem rowsFrom_run (S : MixSound n I hm m) {f : HChild × ℕ → H Ptr} {f' : Child × ℝ → Py (Arr Num)}
    (hf : ∀ x y, Zipped n I hm x y → ∀ h, I h → Run h.next h (f x) (f' y) (Fresh h.next)) (hn : n ≤ k)
    {l : List (HChild × ℕ)} {l' : List (Child × ℝ)} (hl : List.Forall₂ (Zipped n I hm) l l') {N : ℕ} {s : List ℕ} :
    ∀ {h : Heap} {a : Arr Num} (i : ℕ), I h → k ≤ h.next → Fresh k h o a → a.shape = N :: s → i + l.length ≤ N →
    Run k h (HMix.rowsFrom f o i l) (Mix.rowsLoop f' (some s) l' >>= fun r => .ok (rowsSet i r a)) (Fresh k) := by
  induction hl with
  | nil => intro h a i _ _ ho _ _; exact Run.ok ho
  | @cons x y l l' hx hl ih =>
    intro h a i hi hk ho hs hN
    unfold HMix.rowsFrom Mix.rowsLoop
    rw [Py.bind_assoc]
    refine Run.call hk (hf x y hx h hi) fun h1 r b u1 hr => ?_
    rw [Py.bind_assoc]
    have e : (Np.broadcastTo s b >>= fun b => (Mix.rowsLoop f' (some s) l' >>= fun rest => Except.ok (b :: rest)) >>= fun r =>
        (.ok (rowsSet i r a) : Py (Arr Num))) =
        (Np.broadcastTo s b >>= fun b => .ok (rowSet i b a)) >>= fun a' => Mix.rowsLoop f' (some s) l' >>= fun r => .ok (rowsSet (i + 1) r a') := by
      rw [Py.bind_assoc]
      congr 1
      funext b
      rw [Py.bind_assoc]
      rfl
    rw [e]
    refine Run.bind (setRow_run (ho.up u1) hs (by simp at hN; omega) hr.pt) fun h2 _ a' ha' hk2 h3 => ?_
    have hs' : a'.shape = N :: s := by
      rcases hb : Np.broadcastTo s b with _ | b' <;> rw [hb] at ha'
      · cases ha'
      · obtain rfl : rowSet i b' a = a' := by cases ha'; rfl
        exact hs
    exact ih (i + 1) (S.down (S.up hi u1) hk2 hn) (by rw [h3.2]; exact hk.trans u1.next) h3.1 hs' (by simp at hN; omega)

theorem Py.of_bind {α β : Type} {x : Py α} {f : α → Py β} {b : β} (h : (x >>= f) = .ok b) : ∃ a, x = .ok a ∧ f a = .ok b := by
  cases x with
  | error e => cases h
  | ok a => exact ⟨a, rfl, h⟩

theorem rowsLoop_length {f' : Child × ℝ → Py (Arr Num)} (l' : List (Child × ℝ)) : ∀ (s : Option (List ℕ)) (r : List (Arr Num)),
    Mix.rowsLoop f' s l' = .ok r → r.length = l'.length := by
  induction l' with
  | nil => intro s r hr; rcases s with _ | s <;> (cases hr; rfl)
  | cons y l' ih =>
    intro s r hr
    rcases s with _ | s
    · unfold Mix.rowsLoop at hr
      obtain ⟨a, _, hr⟩ := Py.of_bind hr
      obtain ⟨rest, h1, hr⟩ := Py.of_bind hr
      cases hr
      simp [ih _ _ h1]
    · unfold Mix.rowsLoop at hr
      obtain ⟨a, _, hr⟩ := Py.of_bind hr
      obtain ⟨b, _, hr⟩ := Py.of_bind hr
      obtain ⟨rest, h1, hr⟩ := Py.of_bind hr
      cases hr
      simp [ih _ _ h1]

theorem massWtd_run (S : MixSound n I hm m) (hi : I h) (w : PyStr) (d : Bool) :
    Run h.next h (hm.massWtd w d) (m.massWtd w d) (Fresh h.next) := by
  unfold HMix.massWtd Mix.massWtd
  refine Run.skip (zipped_run S hi) fun h1 l _ hl => ?_
  obtain ⟨rfl, hl, hlen⟩ := hl
  revert hlen
  generalize m.children.zip m.weights = l' at hl
  intro hlen
  rcases hl with _ | ⟨hx, hl⟩
  · exact Run.throw
  · rename_i x y l l'
    unfold HMix.rows Mix.rowsLoop
    rw [Py.bind_assoc]
    refine Run.call le_rfl (logPi_run S hi w d hx) fun h2 o a u2 r2 => ?_
    rw [Py.bind_assoc]
    have hN : 0 < hm.nCmps := by rw [← hlen]; simp
    refine Run.skip (R := fun h' o a => Heap.Up h2 h' ∧ Fresh h2.next h' o a)
      ((firstRow_run hN r2.pt).mono u2.next fun _ _ _ hk hR => ⟨hk, hR⟩) fun h3 o3 _ r3 => ?_
    obtain ⟨u3, r3⟩ := r3
    have U3 := u2.trans u3
    have e : (Mix.rowsLoop (Mix.logPi w d) (some a.shape) l' >>= fun rest => (.ok (a :: rest) : Py (List (Arr Num))) >>= fun rows =>
        match rows with
        | [] => .error .unboundLocalError
        | a :: r => .ok ⟨(r.length + 1) :: a.shape, fun i => ((a :: r).getD (i.headD 0) a).get i.tail⟩) =
        (Mix.rowsLoop (Mix.logPi w d) (some a.shape) l' >>= fun r => .ok (rowsSet 1 r (rowSet 0 a
          ⟨hm.nCmps :: a.shape, fun i => if InBox (hm.nCmps :: a.shape) i then .fin 0 else a.get i.tail⟩))) := by
      rcases hr : Mix.rowsLoop (Mix.logPi w d) (some a.shape) l' with _ | r
      · rfl
      · have hrl := rowsLoop_length _ _ _ hr
        have hN' : hm.nCmps = r.length + 1 := by rw [← hlen, hrl]; simp
        show (.ok _ : Py (Arr Num)) = .ok _
        congr 1
        rw [hN']
        generalize hg : rowsSet 1 r (rowSet 0 a ⟨(r.length + 1) :: a.shape, fun i => if InBox ((r.length + 1) :: a.shape) i then
          Num.fin 0 else a.get i.tail⟩) = g
        have hsh : g.shape = (r.length + 1) :: a.shape := by rw [← hg, rowsSet_shape]; rfl
        obtain ⟨gs, gg⟩ := g
        dsimp only at hsh
        subst hsh
        congr 1
        funext p
        have hgp : gg p = (rowsSet 1 r (rowSet 0 a ⟨(r.length + 1) :: a.shape, fun i => if InBox ((r.length + 1) :: a.shape) i then
          Num.fin 0 else a.get i.tail⟩)).get p := by rw [hg]
        rw [hgp]
        rcases p with _ | ⟨j, t⟩
        · rw [rowsSet_nil]
          show ((a :: r).getD 0 a).get [] = if InBox ((r.length + 1) :: a.shape) [] then Num.fin 0 else a.get []
          rw [if_neg fun hb : InBox ((r.length + 1) :: a.shape) [] => (hb : False)]
          rfl
        · rw [rowsSet_get]
          show ((a :: r).getD j a).get t = _
          rcases j with _ | j
          · rw [if_neg (by omega)]
            simp [rowSet]
          · rw [List.getD_cons_succ]
            by_cases hj : j < r.length
            · rw [if_pos (by omega), Nat.add_sub_cancel]
              simp only [List.getD_eq_getElem?_getD, List.getElem?_eq_getElem hj, Option.getD_some]
            · rw [if_neg (by omega)]
              simp only [List.getD_eq_getElem?_getD, List.getElem?_eq_none (not_lt.1 hj), Option.getD_none]
              simp only [rowSet, Nat.succ_ne_zero, if_false]
              rw [if_neg fun hb => by have : j + 1 < r.length + 1 := hb.1; omega]
              rfl
    refine Eq.mpr (congrArg (fun q => Run h1.next h3 _ q _) e) ?_
    have hll : l.length = l'.length := hl.length_eq
    refine rowsFrom_run S (fun x y hx h hi => logPi_run S hi w d hx) (S.cube h1 hi).le hl 1 (S.up hi U3) U3.next (r3.mono u2.next) rfl ?_
    rw [hll, ← hlen]
    simp [Nat.add_comm]

theorem perVolume_run (S : MixSound n I hm m) (hi : I h) (w : PyStr) (hk : k ≤ h.next) (ho : Fresh k h o a) :
    Run k h (hm.perVolume w o) (do
      let d ← m.cube.constructVolumeElement w
      isub a (Np.map Num.log d)) (Fresh k) := by
  unfold HMix.perVolume
  refine Run.call hk (constructVolumeElement_run (S.cube h hi) w) fun h1 d d' u1 r1 => ?_
  refine Run.stepMap (hk.trans u1.next) r1.2 fun h2 l u2 r2 => ?_
  have := Run.bind (k := fun _ => (pure o : H Ptr)) (q := fun x => (.ok x : Py (Arr Num))) (R' := Fresh k)
    (Run.iop2 (· - ·) ((ho.up u1).up u2) r2.pt) fun h' _ r _ _ hr => Run.ok hr.1
  rw [Py.bind_ret] at this
  exact this

/-- `if c: p = f(p)` for a numpy function that returns a new array. -/
theorem Run.stepIf {γ δ : Type} {c : Prop} [Decidable c] {f : Arr Num → Py (Arr Num)} {g : Ptr → H γ} {q : Arr Num → Py δ}
    {R' : Heap → γ → δ → Prop} (hk : k ≤ h.next) (ho : Fresh k h o a)
    (h2 : ∀ h' r b, Heap.Up h h' → Fresh k h' r b → Run k h' (g r) (q b) R') :
    Run k h (H.onlyIf (decide c) (H.op1 f) o >>= g) ((if c then f a else .ok a : Py (Arr Num)) >>= q) R' := by
  unfold H.onlyIf
  by_cases hc : c
  · simp only [hc, decide_true, if_true]
    exact Run.step1 hk ho.pt fun h' r b u hr => h2 h' r b u (hr.mono hk)
  · simp only [hc, decide_false, if_false]
    exact h2 h o a (.refl _) ho

theorem lightWtd_run (S : MixSound n I hm m) (hi : I h) (w : PyStr) (d : Bool) :
    Run h.next h (hm.lightWtd w d) (m.lightWtd w d) (Fresh h.next) := by
  unfold HMix.lightWtd Mix.lightWtd
  have hlw : Run h.next h (if 'v' ∈ w then H.getitem [.na, .all, .na, .na, .na, .all] hm.cube.lightWeights
      else H.getitem [.na, .all, .na, .na, .all] hm.cube.lightWeights : H Ptr)
      (if 'v' ∈ w then getitem [.na, .all, .na, .na, .na, .all] m.cube.ssps.lightWeights
      else getitem [.na, .all, .na, .na, .all] m.cube.ssps.lightWeights : Py (Arr Num)) (fun h' v r => h' = h ∧ Points h v r) := by
    have := (S.cube h hi).lightWeights.2
    split_ifs
    · exact (Run.getitem _ this).mono le_rfl fun _ _ _ _ hR => ⟨hR.1, hR.2.2⟩
    · exact (Run.getitem _ this).mono le_rfl fun _ _ _ _ hR => ⟨hR.1, hR.2.2⟩
  refine Run.bind hlw fun h1 v b _ _ hv => ?_
  obtain ⟨rfl, hv⟩ := hv
  refine Run.call le_rfl (massWtd_run S hi _ false) fun h2 p p' u2 r2 => ?_
  refine Run.stepMap u2.next (hv.up u2) fun h3 l u3 r3 => ?_
  have U3 := u2.trans u3
  refine Run.step2 U3.next (r2.pt.up u3) r3.pt fun h4 q q' u4 r4 => ?_
  have U4 := U3.trans u4
  refine Run.stepOk (f := logsumexpAll) U4.next r4.pt fun h5 nm u5 r5 => ?_
  have U5 := U4.trans u5
  refine Run.stepIop ((r4.mono U3.next).up u5) r5.pt fun h6 q6 k6 r6 _ e6 => ?_
  have hn6 : h1.next ≤ h6.next := by rw [e6]; exact U5.next
  have hi6 : I h6 := S.down (S.up hi U5) k6 (S.cube h1 hi).le
  refine Run.stepIf hn6 r6 fun h7 o7 a7 u7 r7 => ?_
  refine Run.stepIf (hn6.trans u7.next) r7 fun h8 o8 a8 u8 r8 => ?_
  have U8 := u7.trans u8
  refine Run.stepIf (hn6.trans U8.next) r8 fun h9 o9 a9 u9 r9 => ?_
  have U9 := U8.trans u9
  cases d with
  | false => exact Run.ok r9
  | true => exact perVolume_run S (S.up hi6 U9) w (hn6.trans U9.next) r9

theorem marginalRows_run (S : MixSound n I hm m) (hi : I h) (w : PyStr) (d lw : Bool) :
    Run h.next h (hm.marginalRows w d lw) (m.marginalRows w d lw) (Fresh h.next) := by
  unfold HMix.marginalRows Mix.marginalRows
  cases lw
  · exact massWtd_run S hi w d
  · exact lightWtd_run S hi w d

theorem collapseIf_run (hk : k ≤ h.next) (c : Bool) (ho : Fresh k h o a) :
    Run k h (HMix.collapseIf c o) (Mix.collapseIf c a) (Fresh k) := by
  unfold HMix.collapseIf Mix.collapseIf H.onlyIf
  cases c
  · exact Run.ok ho
  · exact (Run.op1 _ ho.pt).ret hk fun _ _ _ hR => hR.mono hk

theorem conditionalRows_run (S : MixSound n I hm m) (hi : I h) (w : PyStr) (d lw : Bool) :
    Run h.next h (hm.conditionalRows w d lw) (m.conditionalRows w d lw) (Fresh h.next) := by
  unfold HMix.conditionalRows Mix.conditionalRows
  rcases PyStr.split '_' w with _ | ⟨a, _ | ⟨b, _ | ⟨e, r⟩⟩⟩
  · exact Run.throw
  · exact Run.throw
  · refine Run.call le_rfl (marginalRows_run S hi _ false lw) fun h1 o1 a1 u1 r1 => ?_
    refine Run.call u1.next (marginalRows_run S (S.up hi u1) _ false lw) fun h2 o2 a2 u2 r2 => ?_
    have U2 := u1.trans u2
    have hc : Run h2.next h2 (HMix.collapseIf true o2) (Mix.collapseIf true a2) (Fresh h2.next) := Run.op1 _ r2.pt
    refine Run.call U2.next hc fun h3 o3 a3 u3 r3 => ?_
    refine Run.stepMove (r1.pt.up (u2.trans u3)) fun v b _ hv => ?_
    have U3 := U2.trans u3
    refine Run.step2 U3.next hv r3.pt fun h4 o4 a4 u4 r4 => ?_
    have U4 := U3.trans u4
    cases d with
    | false => exact Run.ok (r4.mono U3.next)
    | true =>
      simp only [if_true]
      refine Run.call U4.next (constructVolumeElement_run (S.cube _ (S.up hi U4)) w) fun h5 o5 a5 u5 r5 => ?_
      refine Run.stepMap (U4.trans u5).next r5.2 fun h6 o6 u6 r6 => ?_
      have U6 := (U4.trans u5).trans u6
      exact (Run.op2 _ (r4.pt.up (u5.trans u6)) r6.pt).ret U6.next fun _ _ _ hR => hR.mono U6.next
  · exact Run.throw

theorem mixLogP_run (S : MixSound n I hm m) (hi : I h) (w : PyStr) (c d lw : Bool) :
    Run h.next h (hm.getLogP w c d lw) (m.getLogP w c d lw) (Fresh h.next) := by
  unfold HMix.getLogP Mix.getLogP
  have h1 : Run h.next h (if '_' ∈ w then hm.conditionalRows w d lw else hm.marginalRows w d lw : H Ptr)
      (if '_' ∈ w then m.conditionalRows w d lw else m.marginalRows w d lw : Py (Arr Num)) (Fresh h.next) := by
    split_ifs
    · exact conditionalRows_run S hi w d lw
    · exact marginalRows_run S hi w d lw
  refine Run.call le_rfl h1 fun h1 o1 a1 u1 r1 => ?_
  exact collapseIf_run u1.next c r1

theorem mixP_run (S : MixSound n I hm m) (hi : I h) (w : PyStr) (c d lw : Bool) :
    Run h.next h (hm.getP w c d lw) (m.getP w c d lw) (Fresh h.next) := by
  refine Run.call le_rfl (mixLogP_run S hi w c d lw) fun h1 o1 a1 u1 r1 => ?_
  exact (Run.map _ r1.pt).ret u1.next fun _ _ _ hR => hR.mono u1.next

/-! ### Moments -/

theorem eachChild_run (S : MixSound n I hm m) {J : Heap → Prop} (hJ : ∀ h h', J h → Heap.Up h h' → J h') {f : HChild → H Ptr}
    {f' : Child → Py (Arr Num)}
    (hf : ∀ x y, ChildSound n I x y → ∀ h, I h → J h → Run h.next h (f x) (f' y) Points) {l : List HChild} {l' : List Child}
    (hl : List.Forall₂ (ChildSound n I) l l') : ∀ {h : Heap}, I h → J h →
    Run h.next h (H.eachChild f l) (l'.mapM f') (fun h' os as => List.Forall₂ (Points h') os as) := by
  induction hl with
  | nil => intro h _ _; exact Run.ok .nil
  | @cons x y l l' hx hl ih =>
    intro h hi hj
    rw [List.mapM_cons]
    unfold H.eachChild
    refine Run.call le_rfl (hf x y hx h hi hj) fun h1 o1 a1 u1 r1 => ?_
    refine Run.bind (R := fun h' os as => List.Forall₂ (Points h') os as ∧ Heap.Up h1 h') ((ih (S.up hi u1) (hJ _ _ hj u1)).mono u1.next
      fun h' _ _ hk hR => ⟨hR, hk⟩) fun h2 os as _ _ r2 => ?_
    exact Run.ok (.cons (r1.up r2.2) r2.1)

theorem gather_run (S : MixSound n I hm m) (hi : I h) {J : Heap → Prop} (hJ : ∀ h h', J h → Heap.Up h h' → J h') (hj : J h)
    {f : HChild → H Ptr} {f' : Child → Py (Arr Num)}
    (hf : ∀ x y, ChildSound n I x y → ∀ h, I h → J h → Run h.next h (f x) (f' y) Points) :
    Run h.next h (hm.gather f) (m.gather f') (Fresh h.next) := by
  unfold HMix.gather Mix.gather
  refine Run.call le_rfl (eachChild_run S hJ hf S.children hi hj) fun h1 o1 a1 u1 r1 => ?_
  exact (stackN_run r1).ret u1.next fun _ _ _ hR => hR.mono u1.next

theorem gatherP_run (S : MixSound n I hm m) (hi : I h) (w : PyStr) (d lw : Bool) :
    Run h.next h (hm.gather fun c => c.getP w d lw) (m.gather fun c => c.getP w d lw) (Fresh h.next) :=
  gather_run S hi (J := fun _ => True) (fun _ _ _ _ => trivial) trivial fun _ _ hx h hi _ =>
    (hx.getP w d lw h hi).ret le_rfl fun _ _ _ hR => hR.2

theorem gatherMean_run (S : MixSound n I hm m) (hi : I h) (w : PyStr) (lw : Bool) :
    Run h.next h (hm.gather fun c => c.getMean w lw) (m.gather fun c => c.getMean w lw) (Fresh h.next) :=
  gather_run S hi (J := fun _ => True) (fun _ _ _ _ => trivial) trivial fun _ _ hx h hi _ => hx.getMean w lw h hi

/-- All members read the same centre `mu`, which none of them changes. -/
theorem gatherNcm_run (S : MixSound n I hm m) (hi : I h) (w : PyStr) (j : ℕ) (ho : Points h o a) (lw : Bool) :
    Run h.next h (hm.gather fun c => c.getNcm w j o lw) (m.gather fun c => c.getNcm w j a lw) (Fresh h.next) :=
  gather_run S hi (J := fun h => Points h o a) (fun _ _ hp hu => hp.up hu) ho fun _ _ hx h hi hp =>
    (hx.getNcm w j o a lw h hi hp).ret le_rfl fun _ _ _ hR => hR.2

theorem lightReweightings_run (S : MixSound n I hm m) (hi : I h) :
    Run h.next h hm.lightReweightings m.lightReweightings (Fresh h.next) := by
  unfold HMix.lightReweightings Mix.lightReweightings
  refine Run.call le_rfl (mixP_run S hi _ _ _ _) fun h1 o1 a1 u1 r1 => ?_
  refine Run.call u1.next (gatherP_run S (S.up hi u1) _ _ _) fun h2 o2 a2 u2 r2 => ?_
  have U2 := u1.trans u2
  have c2 := (S.cube _ (S.up hi U2)).lightWeights.2
  refine Run.step2 U2.next c2 r2.pt fun h3 o3 a3 u3 r3 => ?_
  have U3 := U2.trans u3
  refine Run.step1 U3.next r3.pt fun h4 o4 a4 u4 r4 => ?_
  have U4 := U3.trans u4
  refine Run.step2 U4.next (c2.up (u3.trans u4)) (r1.pt.up (u2.trans (u3.trans u4))) fun h5 o5 a5 u5 r5 => ?_
  have U5 := U4.trans u5
  refine Run.stepOk (f := sumAll) U5.next r5.pt fun h6 o6 u6 r6 => ?_
  have U6 := U5.trans u6
  exact (Run.op2 _ (r4.pt.up (u5.trans u6)) r6.pt).ret U6.next fun _ _ _ hR => hR.mono U6.next

theorem reweight_run (S : MixSound n I hm m) (hi : I h) (lw : Bool) :
    Run h.next h (hm.reweight lw) (m.reweight lw) (Fresh h.next) := by
  unfold HMix.reweight Mix.reweight
  cases lw
  · rw [S.nCmps]; exact Run.fresh _
  · exact lightReweightings_run S hi

theorem addAxis_run (w : PyStr) (ho : Points h o a) :
    Run k h (HMix.addAxis w o) (if Component.headVar w = ['x'] then getitem [.all, .na] a else .ok a : Py (Arr Num))
      (fun h' v r => h' = h ∧ Points h v r) := by
  unfold HMix.addAxis
  split_ifs
  · exact (Run.getitem _ ho).mono le_rfl fun _ _ _ _ hR => ⟨hR.1, hR.2.2⟩
  · exact Run.ok ⟨rfl, ho⟩

/-- `get_mean` of a mixture is a new array, also where the members hand out arrays of their own. -/
theorem mixMean_run (S : MixSound n I hm m) (hi : I h) (w : PyStr) (lw : Bool) :
    Run h.next h (hm.getMean w lw) (m.getMean w lw) (Own h.next) := by
  unfold HMix.getMean Mix.getMean
  refine Run.call le_rfl (gatherMean_run S hi w lw) fun h1 o1 a1 u1 r1 => ?_
  refine Run.call u1.next (reweight_run S (S.up hi u1) lw) fun h2 o2 a2 u2 r2 => ?_
  have U2 := u1.trans u2
  have hi2 := S.up hi U2
  split_ifs
  · refine Run.bind (R := fun h' x y => h' = h2 ∧ x = y) (Run.lift fun _ _ => ⟨rfl, rfl⟩) fun h3 cd cd' _ _ hb => ?_
    obtain ⟨rfl, rfl⟩ := hb
    refine Run.call U2.next (gatherP_run S hi2 cd true lw) fun h4 o4 a4 u4 r4 => ?_
    refine Run.stepT r4.pt fun v4 _ p4 => ?_
    have U4 := U2.trans u4
    refine Run.step2 U4.next p4 (S.weights _ (S.up hi U4)).2 fun h5 o5 a5 u5 r5 => ?_
    refine Run.stepT r5.pt fun v5 _ p5 => ?_
    refine Run.bind (addAxis_run w p5) fun h6 v6 a6 _ _ p6 => ?_
    obtain ⟨rfl, p6⟩ := p6
    have U5 := U4.trans u5
    refine Run.call U5.next (mixP_run S (S.up hi U5) cd true true lw) fun h7 o7 a7 u7 r7 => ?_
    have U7 := U5.trans u7
    refine Run.stepT (p6.up u7) fun v7 _ p7 => ?_
    refine Run.step2 U7.next p7 (r2.pt.up (u4.trans (u5.trans u7))) fun h8 o8 a8 u8 r8 => ?_
    have U8 := U7.trans u8
    refine Run.stepT (r1.pt.up (u2.trans (u4.trans (u5.trans (u7.trans u8))))) fun v8 _ p8 => ?_
    refine Run.step2 U8.next r8.pt p8 fun h9 o9 a9 u9 r9 => ?_
    have U9 := U8.trans u9
    refine Run.step1 U9.next r9.pt fun h10 o10 a10 u10 r10 => ?_
    have U10 := U9.trans u10
    refine Run.stepT r10.pt fun v10 _ p10 => ?_
    exact (Run.op2 _ p10 (r7.pt.up (u8.trans (u9.trans u10)))).ret U10.next fun _ _ _ hR => hR.own.mono U10.next
  · refine Run.step2 U2.next (S.weights _ hi2).2 r2.pt fun h3 o3 a3 u3 r3 => ?_
    have U3 := U2.trans u3
    refine Run.stepT (r1.pt.up (u2.trans u3)) fun v3 _ p3 => ?_
    refine Run.step2 U3.next r3.pt p3 fun h4 o4 a4 u4 r4 => ?_
    have U4 := U3.trans u4
    refine Run.step1 U4.next r4.pt fun h5 o5 a5 u5 r5 => ?_
    refine (Run.T r5.pt).mono le_rfl fun h6 v b _ hv => ?_
    obtain ⟨rfl, rfl, e, hv⟩ := hv
    exact ⟨e ▸ U4.next.trans r5.1, hv⟩

theorem mixCentral_run (S : MixSound n I hm m) (hi : I h) (w : PyStr) (j : ℕ) (lw : Bool) :
    Run h.next h (hm.getCentralMoment w j lw) (m.getCentralMoment w j lw) (Own h.next) := by
  unfold HMix.getCentralMoment Mix.getCentralMoment
  refine Run.call le_rfl (mixMean_run S hi w lw) fun h1 o1 a1 u1 r1 => ?_
  refine Run.call u1.next (gatherNcm_run S (S.up hi u1) w j r1.2 lw) fun h2 o2 a2 u2 r2 => ?_
  have U2 := u1.trans u2
  have hi2 := S.up hi U2
  split_ifs with hc hl
  · refine Run.bind (R := fun h' x y => h' = h2 ∧ x = y) (Run.lift fun _ _ => ⟨rfl, rfl⟩) fun h3 cd cd' _ _ hb => ?_
    obtain ⟨rfl, rfl⟩ := hb
    refine Run.call U2.next (mixP_run S hi2 cd false true lw) fun h4 o4 a4 u4 r4 => ?_
    refine Run.bind (addAxis_run w r4.pt) fun h6 v6 a6 _ _ p6 => ?_
    obtain ⟨rfl, p6⟩ := p6
    have U4 := U2.trans u4
    refine Run.step2 U4.next p6 (r2.pt.up u4) fun h5 o5 a5 u5 r5 => ?_
    have U5 := U4.trans u5
    refine Run.step1 U5.next r5.pt fun h7 o7 a7 u7 r7 => ?_
    have U7 := U5.trans u7
    refine Run.step1 U7.next (p6.up (u5.trans u7)) fun h8 o8 a8 u8 r8 => ?_
    have U8 := U7.trans u8
    exact (Run.op2 _ (r7.pt.up u8) r8.pt).ret U8.next fun _ _ _ hR => hR.own.mono U8.next
  · refine Run.stepMove r2.pt fun v b _ hv => ?_
    refine Run.call U2.next (lightReweightings_run S hi2) fun h3 o3 a3 u3 r3 => ?_
    have U3 := U2.trans u3
    refine Run.step2 U3.next (S.weights _ (S.up hi U3)).2 r3.pt fun h4 o4 a4 u4 r4 => ?_
    have U4 := U3.trans u4
    refine Run.step2 U4.next r4.pt (hv.up (u3.trans u4)) fun h5 o5 a5 u5 r5 => ?_
    have U5 := U4.trans u5
    exact (Run.op1 _ r5.pt).ret U5.next fun _ _ _ hR => hR.own.mono U5.next
  · refine Run.stepMove r2.pt fun v b _ hv => ?_
    refine Run.step2 U2.next (S.weights _ hi2).2 hv fun h4 o4 a4 u4 r4 => ?_
    have U4 := U2.trans u4
    exact (Run.op1 _ r4.pt).ret U4.next fun _ _ _ hR => hR.own.mono U4.next

/-! ### All methods -/

theorem MixSound.obj (S : MixSound n I hm m) : MemObj n (fun _ => False) I hm.obj m.obj where
  cube := S.cube
  keep := S.keep
  getP w d lw h hi := (mixP_run S hi w true d lw).ret le_rfl fun _ _ _ hR => hR.own
  getMean w lw h hi := (mixMean_run S hi w lw).ret le_rfl fun _ _ _ hR => hR.got
  getCentralMoment w j lw h hi := mixCentral_run S hi w j lw

theorem MixSound.ncm (S : MixSound n I hm m) : MemSound n (fun _ => False) I hm.ncmSelf
    { cube := m.cube, logP := fun w => some (fun d l => m.getLogP w true d l), meanHC := fun _ => none, ncmHC := fun _ => none } where
  cube := S.cube
  keep := S.keep
  logP w := .inr ⟨_, _, rfl, rfl, fun d lw h hi => (mixLogP_run S hi w true d lw).ret le_rfl fun _ _ _ hR => hR.own⟩
  mean w := .inl ⟨rfl, rfl⟩
  ncm w := .inl ⟨rfl, rfl⟩

theorem mixNcm_run (S : MixSound n I hm m) (hi : I h) (w : PyStr) (j : ℕ) (ho : Points h o a) (lw : Bool) :
    Run h.next h (hm.getNcm w j o lw) (m.child.getNcm w j a lw) (Own h.next) :=
  getNoncentralMoment_run S.ncm hi w j ho lw

end
end PKM
