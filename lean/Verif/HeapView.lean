import Verif.HeapQuery
import Verif.MomentApi

/-!
# In-place updates through views that reach every entry of a new array

`(a.T - b).T` and `np.moveaxis` give views; `+=` on such a view writes to the array that was made for `a.T - b`.
-/

open scoped Classical

noncomputable section

namespace PKM
open Np

/-- The buffer index of an entry of an array object. -/
def Ptr.idx (o : Ptr) (i : List ℕ) : List ℕ :=
  match o.view with
  | none => i
  | some (_, f) => f i

/-- Every entry of the buffer is an entry of the object. -/
def CoversBuf (h : Heap) (o : Ptr) : Prop :=
  ∀ p, InBox (h.mem o.buf).shape p → ∃ i, InBox (h.val o).shape i ∧ o.idx i = p

section
variable {n : ℕ} {h : Heap} {o : Ptr} {a : Arr Num}

theorem val_idx (h : Heap) (o : Ptr) (i : List ℕ) : (h.val o).get i = (h.mem o.buf).get (o.idx i) := by
  unfold Heap.val Ptr.idx
  rcases o with ⟨b, _ | ⟨s, f⟩⟩ <;> rfl

theorem CoversBuf.whole (hv : o.view = none) : CoversBuf h o := by
  intro p hp
  refine ⟨p, ?_, by simp [Ptr.idx, hv]⟩
  rcases o with ⟨b, v⟩
  subst hv
  exact hp

theorem Fresh.covers (hf : Fresh n h o a) : CoversBuf h o := .whole hf.2.1

/-- `a.T` of an object that covers its buffer. -/
theorem Run.coverT (ho : Points h o a) (hc : CoversBuf h o) :
    Run n h (H.T o) (.ok (Np.T a)) (fun h' v r => r = Np.T a ∧ h' = h ∧ v.buf = o.buf ∧ Points h v r ∧ CoversBuf h v) := by
  obtain ⟨h1, rfl⟩ := ho
  obtain ⟨k1, k2, k3, k4, k5⟩ := Run.T (n := n) (h := h) (o := o) ⟨h1, rfl⟩
  refine ⟨k1, k2, k3, k4, k5, fun p hp => ?_⟩
  obtain ⟨i, hi, rfl⟩ := hc p hp
  refine ⟨i.reverse, ?_, ?_⟩
  · show InBox (h.val o).shape.reverse i.reverse
    exact inBox_reverse_iff hi
  · unfold Ptr.idx
    rcases o with ⟨b, _ | ⟨s, f⟩⟩ <;> simp

/-- Reordering the axes reaches every index. -/
theorem transpose_reach {order s p : List ℕ} (ho : order.Perm (List.range s.length)) (hp : InBox s p) :
    ∃ i, InBox (order.map (fun k => s.getD k 0)) i ∧ (List.range s.length).map (fun m => i.getD (order.idxOf m) 0) = p := by
  have hl : p.length = s.length := inBox_length hp
  have hlt : ∀ k < s.length, p.getD k 0 < s.getD k 0 := by
    clear ho hl
    induction s generalizing p with
    | nil => intro k hk; simp at hk
    | cons a s ih =>
      cases p with
      | nil => exact hp.elim
      | cons b p =>
        intro k hk
        cases k with
        | zero => exact hp.1
        | succ k => exact ih hp.2 k (by simpa using hk)
  refine ⟨order.map (fun k => p.getD k 0), ?_, ?_⟩
  · have hmem : ∀ k ∈ order, k < s.length := fun k hk => by simpa using ho.mem_iff.1 hk
    clear ho
    induction order with
    | nil => trivial
    | cons k order ih => exact ⟨hlt k (hmem k (by simp)), ih fun k' hk' => hmem k' (by simp [hk'])⟩
  · apply List.ext_getElem
    · simp [hl]
    · intro m h1 h2
      have hm : m < s.length := by simpa using h1
      have hmo : m ∈ order := ho.mem_iff.2 (by simpa using hm)
      have hix : order.idxOf m < order.length := List.idxOf_lt_length_iff.2 hmo
      simp only [List.getElem_map, List.getElem_range]
      simp only [List.getD_eq_getElem?_getD, List.getElem?_map]
      rw [List.getElem?_eq_getElem hix]
      simp only [Option.map_some, Option.getD_some, List.getElem_idxOf]
      rw [List.getElem?_eq_getElem h2, Option.getD_some]

/-- `np.moveaxis(a, 0, -1)`: the order of the axes. -/
theorem moveOrder_first {k : ℕ} {order : List ℕ} (h1 : moveOrder k [0] [-1] = .ok order) : order.Perm (List.range k) := by
  rcases k with _ | k
  · simp [moveOrder, normAxis] at h1
  · have e1 : normAxis (k + 1) 0 = .ok 0 := by simp [normAxis]
    have e2 : normAxis (k + 1) (-1) = .ok k := by
      have : (-1 : ℤ) + ((k : ℤ) + 1) = k := by ring
      simp [normAxis, this]
    simp [moveOrder, e1, e2, insertAxes] at h1
    rw [← h1]
    have hl : ((List.range (k + 1)).filter (fun n => !decide (n = 0))).length = k := by
      rw [List.range_succ_eq_map, List.filter_cons]
      simp [List.filter_map, Function.comp_def]
    refine (List.perm_insertIdx _ _ (by omega)).trans ?_
    rw [List.range_succ_eq_map, List.filter_cons]
    simp [List.filter_map, Function.comp_def]

/-- `np.moveaxis(a, 0, -1)` of an object that covers its buffer. -/
theorem Run.coverMove (ho : Points h o a) (hc : CoversBuf h o) :
    Run n h (H.moveaxis [0] [-1] o) (Np.moveaxis [0] [-1] a)
      (fun h' v r => h' = h ∧ v.buf = o.buf ∧ Points h v r ∧ CoversBuf h v) := by
  obtain ⟨h1, rfl⟩ := ho
  obtain ⟨k1, k2⟩ := Run.moveaxis (n := n) (h := h) (o := o) [0] [-1] ⟨h1, rfl⟩
  refine ⟨k1, ?_⟩
  have e : H.moveaxis [0] [-1] o h = match moveOrder (h.val o).shape.length [0] [-1] with
      | .ok order => (.ok ⟨o.buf, some (order.map (fun k => (h.val o).shape.getD k 0), fun i =>
          let j := (List.range (h.val o).shape.length).map (fun m => i.getD (order.idxOf m) 0)
          match o.view with
          | none => j
          | some (_, f) => f j)⟩, h)
      | .error e => (.error e, h) := by
    cases hs : moveOrder (h.val o).shape.length [0] [-1]
    · simp [H.moveaxis, Bind.bind, Pure.pure, H.read, H.lift, hs]
    · simp [H.moveaxis, Bind.bind, Pure.pure, H.read, H.lift, hs]
      rfl
  revert k2
  rw [e]
  unfold Np.moveaxis
  cases hs : moveOrder (h.val o).shape.length [0] [-1] with
  | error e => exact id
  | ok order =>
    rintro ⟨k2, k3, k4⟩
    refine ⟨k2, k3, k4, fun p hp => ?_⟩
    obtain ⟨i, hi, rfl⟩ := hc p hp
    obtain ⟨j, hj, hj'⟩ := transpose_reach (moveOrder_first hs) hi
    refine ⟨j, hj, ?_⟩
    unfold Ptr.idx
    rw [← hj']

/-- `o += x` with a number `x`, through a view that covers a new array. -/
theorem Run.iopNum (f : Num → Num → Num) (x : Num) (ho : Own n h o a) (hc : CoversBuf h o) :
    Run n h (H.iop f o (scalar x)) (Np.iop f a (scalar x)) (fun h' _ r => Own n h' o r ∧ h'.next = h.next ∧
      ∀ k ≠ o.buf, h'.mem k = h.mem k) := by
  obtain ⟨h1, h2, rfl⟩ := ho
  have er : Np.iop f (h.val o) (scalar x) = .ok ⟨(h.val o).shape, fun i => f ((h.val o).get i) x⟩ := by
    simp [Np.iop, Np.bop, scalar]
  have e : H.iop f o (scalar x) h = H.write o ⟨(h.val o).shape, fun i => f ((h.val o).get i) x⟩ h := by
    simp [H.iop, Bind.bind, H.read, H.lift, er]
  unfold Run
  rw [er, e]
  have m : ∀ k ≠ o.buf, (H.write o ⟨(h.val o).shape, fun i => f ((h.val o).get i) x⟩ h).2.mem k = h.mem k :=
    fun k hk => by simp [H.write, hk]
  refine ⟨⟨le_rfl, fun k hk => m k (by omega)⟩, ⟨h1, h2, ?_⟩, rfl, m⟩
  rcases o with ⟨b, _ | ⟨s, g⟩⟩
  · simp [H.write, Heap.val]
  · unfold CoversBuf Ptr.idx at hc
    simp only [H.write, Heap.val, Function.update_self] at hc ⊢
    congr 1
    funext i
    by_cases h3 : ∃ i', InBox s i' ∧ g i' = g i
    · rw [dif_pos h3, h3.choose_spec.2]
    · rw [dif_neg h3, if_neg fun hb => h3 (hc _ hb), dif_pos ⟨i, rfl⟩, (⟨i, rfl⟩ : ∃ i', g i' = g i).choose_spec]

end
end PKM
