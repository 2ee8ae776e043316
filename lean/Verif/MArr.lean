import Verif.Axes

/-!
Lemmas: arrays described by one letter or a blank per axis (`none`: an axis of length one made by
`np.newaxis`), closed under the numpy operations of the moment code.
-/

open scoped Classical

noncomputable section

namespace PKM
open Np

/-- Axis length. -/
def sizeM (g : Grid) : Option Char → ℕ
  | none => 1
  | some ch => sizeL g ch

/-- Coordinate of a cell. -/
def coordM (c : Cell) : Option Char → ℕ
  | none => 0
  | some ch => coordL c ch

/-- The array has the axes `M` and represents the function `f`. -/
def MArr (g : Grid) (M : List (Option Char)) (A : Arr Num) (f : Cell → Num) : Prop :=
  A.shape = M.map (sizeM g) ∧ ∀ c, g.Has c → A.get (M.map (coordM c)) = f c

theorem MArr.congr {g : Grid} {M : List (Option Char)} {A : Arr Num} {f f' : Cell → Num}
    (h : MArr g M A f) (hf : ∀ c, g.Has c → f c = f' c) : MArr g M A f' :=
  ⟨h.1, fun c hc => (h.2 c hc).trans (hf c hc)⟩

theorem larr_iff {g : Grid} {U : List Char} {A : Arr Num} {f : Cell → Num} :
    LArr g U A f ↔ MArr g (U.map some) A f := by
  unfold LArr MArr
  simp only [List.map_map]
  rfl

theorem coordL_lt {g : Grid} {c : Cell} (h : g.Has c) (ch : Char) : coordL c ch < sizeL g ch := by
  obtain ⟨h1, h2, h3, h4, h5⟩ := h
  unfold coordL sizeL; split_ifs <;> assumption

theorem coordM_lt {g : Grid} {c : Cell} (h : g.Has c) (o : Option Char) : coordM c o < sizeM g o := by
  cases o with
  | none => simp [coordM, sizeM]
  | some ch => exact coordL_lt h ch

/-- Broadcast of two axis descriptions. -/
def joinM : Option Char → Option Char → Option (Option Char)
  | none, y => some y
  | x, none => some x
  | some a, some b => if a = b then some (some a) else none

/-- Broadcast of two reversed lists of axes. -/
def joinR : List (Option Char) → List (Option Char) → Option (List (Option Char))
  | [], ys => some ys
  | xs, [] => some xs
  | x :: xs, y :: ys => match joinM x y, joinR xs ys with
    | some d, some r => some (d :: r)
    | _, _ => none

theorem joinM_dim (g : Grid) {x y d : Option Char} (h : joinM x y = some d) :
    bdim (sizeM g x) (sizeM g y) = some (sizeM g d) := by
  cases x <;> cases y <;> simp [joinM] at h
  · subst h; simp [sizeM]
  · subst h; simp [sizeM]
  · subst h; simp [sizeM]
  · obtain ⟨rfl, rfl⟩ := h; simp

theorem joinM_left (g : Grid) {c : Cell} (hc : g.Has c) {x y d : Option Char} (h : joinM x y = some d) :
    bidx (sizeM g x) (coordM c d) = coordM c x ∧ bidx (sizeM g y) (coordM c d) = coordM c y := by
  have key : ∀ o : Option Char, bidx (sizeM g o) (coordM c o) = coordM c o := fun o =>
    bidx_lt (coordM_lt hc o)
  cases x <;> cases y <;> simp [joinM] at h
  · subst h; exact ⟨key _, key _⟩
  · subst h; exact ⟨by simp [sizeM, coordM], key _⟩
  · subst h; exact ⟨key _, by simp [sizeM, coordM]⟩
  · obtain ⟨rfl, rfl⟩ := h; exact ⟨key _, key _⟩

theorem joinR_shape (g : Grid) : ∀ (xs ys r : List (Option Char)), joinR xs ys = some r →
    bshapeR (xs.map (sizeM g)) (ys.map (sizeM g)) = some (r.map (sizeM g))
  | [], ys, r, h => by simp [joinR] at h; subst h; simp
  | x :: xs, [], r, h => by simp [joinR] at h; subst h; simp
  | x :: xs, y :: ys, r, h => by
    simp only [joinR] at h
    split at h
    · next d q hd hq =>
      simp at h; subst h
      simp [bshapeR, joinM_dim g hd, joinR_shape g xs ys q hq]
    · simp at h

theorem joinR_idx (g : Grid) {c : Cell} (hc : g.Has c) : ∀ (xs ys r : List (Option Char)),
    joinR xs ys = some r →
    List.zipWith bidx (xs.map (sizeM g)) (r.map (coordM c)) = xs.map (coordM c) ∧
    List.zipWith bidx (ys.map (sizeM g)) (r.map (coordM c)) = ys.map (coordM c)
  | [], ys, r, h => by
    simp [joinR] at h; subst h
    exact ⟨by simp, by simpa using fun y _ => bidx_lt (coordM_lt hc y)⟩
  | x :: xs, [], r, h => by
    simp [joinR] at h; subst h
    generalize x :: xs = ys
    exact ⟨by simpa using fun y _ => bidx_lt (coordM_lt hc y), by simp⟩
  | x :: xs, y :: ys, r, h => by
    simp only [joinR] at h
    split at h
    · next d q hd hq =>
      simp at h; subst h
      obtain ⟨h1, h2⟩ := joinR_idx g hc xs ys q hq
      obtain ⟨h3, h4⟩ := joinM_left g hc hd
      simp [h1, h2, h3, h4]
    · simp at h

/-- Element-wise operations. -/
theorem MArr.bop {g : Grid} {M N R : List (Option Char)} {A B : Arr Num} {f h : Cell → Num}
    (op : Num → Num → Num) (hA : MArr g M A f) (hB : MArr g N B h)
    (hj : joinR M.reverse N.reverse = some R.reverse) :
    ∃ r, Np.bop op A B = .ok r ∧ MArr g R r (fun c => op (f c) (h c)) := by
  have hs := joinR_shape g _ _ _ hj
  simp only [List.map_reverse] at hs
  refine ⟨⟨R.map (sizeM g), fun i => op (A.get (bproj A.shape i)) (B.get (bproj B.shape i))⟩, ?_, rfl,
    fun c hc => ?_⟩
  · simp [Np.bop, hA.1, hB.1, hs]
  · obtain ⟨h1, h2⟩ := joinR_idx g hc _ _ _ hj
    simp only [List.map_reverse] at h1 h2
    simp only [bproj, hA.1, hB.1, h1, h2, List.reverse_reverse, hA.2 c hc, hB.2 c hc]

theorem MArr.map {g : Grid} {M : List (Option Char)} {A : Arr Num} {f : Cell → Num} (k : Num → Num)
    (h : MArr g M A f) : MArr g M (Np.map k A) (fun c => k (f c)) :=
  ⟨h.1, fun c hc => by simp [Np.map, h.2 c hc]⟩

theorem MArr.T {g : Grid} {M : List (Option Char)} {A : Arr Num} {f : Cell → Num}
    (h : MArr g M A f) : MArr g M.reverse (Np.T A) f :=
  ⟨by simp [Np.T, h.1], fun c hc => by simp [Np.T, h.2 c hc]⟩

theorem MArr.scalar (g : Grid) (x : Num) : MArr g [] (Np.scalar x) (fun _ => x) :=
  ⟨rfl, fun _ _ => rfl⟩

/-- Index expressions made of `:` and `np.newaxis`. -/
def ixM : List Ix → List (Option Char) → Option (List (Option Char))
  | [], M => some M
  | .na :: r, M => (ixM r M).map (none :: ·)
  | .all :: r, o :: M => (ixM r M).map (o :: ·)
  | _, _ => none

theorem ixM_shape (g : Grid) : ∀ (ix : List Ix) (M R : List (Option Char)), ixM ix M = some R →
    ixShape ix (M.map (sizeM g)) = .ok (R.map (sizeM g)) ∧
    ∀ c, ixIdx ix (M.map (sizeM g)) (R.map (coordM c)) = M.map (coordM c)
  | [], M, R, h => by simp [ixM] at h; subst h; simp [ixShape, ixIdx]
  | .na :: r, M, R, h => by
    simp only [ixM, Option.map_eq_some_iff] at h
    obtain ⟨q, hq, rfl⟩ := h
    obtain ⟨h1, h2⟩ := ixM_shape g r M q hq
    simp [ixShape, ixIdx, h1, h2, sizeM]
  | .all :: r, [], R, h => by simp [ixM] at h
  | .all :: r, o :: M, R, h => by
    simp only [ixM, Option.map_eq_some_iff] at h
    obtain ⟨q, hq, rfl⟩ := h
    obtain ⟨h1, h2⟩ := ixM_shape g r M q hq
    simp [ixShape, ixIdx, h1, h2]
  | .sl _ _ :: r, M, R, h => by cases M <;> simp [ixM] at h
  | .at _ :: r, M, R, h => by cases M <;> simp [ixM] at h

theorem MArr.getitem {g : Grid} {M R : List (Option Char)} {A : Arr Num} {f : Cell → Num}
    (h : MArr g M A f) (ix : List Ix) (hix : ixM ix M = some R) :
    ∃ r, Np.getitem ix A = .ok r ∧ MArr g R r f := by
  obtain ⟨h1, h2⟩ := ixM_shape g ix M R hix
  refine ⟨⟨R.map (sizeM g), fun i => A.get (ixIdx ix A.shape i)⟩, ?_, rfl, fun c hc => ?_⟩
  · simp [Np.getitem, h.1, h1]
  · simp only [h.1, h2, h.2 c hc]

theorem insertIdx_map_split {α β : Type} (f : α → β) (b : β) : ∀ (l r : List α),
    ((l ++ r).map f).insertIdx l.length b = l.map f ++ b :: r.map f
  | [], r => by simp
  | a :: l, r => by
    have := insertIdx_map_split f b l r
    rw [List.map_append] at this
    simp [List.insertIdx_succ_cons, this]

/-- Summing over the axis of letter `ch`, which stands at position `M.length`. -/
theorem MArr.sumAxis1 {g : Grid} {M N : List (Option Char)} {ch : Char} {A : Arr Num} {f : Cell → Num}
    (h : MArr g (M ++ some ch :: N) A f) (hch : AxisChar ch)
    (hA : ∀ d, some d ∈ M ++ N → AxisChar d ∧ d ≠ ch) :
    MArr g (M ++ N) (Np.sumAxis1 M.length A) (fun c => ∑ j : Fin (sizeL g ch), f (setL c ch j)) := by
  refine ⟨?_, fun c hc => ?_⟩
  · simp only [Np.sumAxis1, h.1]
    simp [List.map_append, List.eraseIdx_append_of_length_le]
  · simp only [Np.sumAxis1]
    have hs : A.shape.getD M.length 0 = sizeL g ch := by
      rw [h.1]; simp [sizeM]
    rw [hs]
    refine Finset.sum_congr rfl fun j _ => ?_
    have e : ((M ++ N).map (coordM c)).insertIdx M.length (j : ℕ) =
        (M ++ some ch :: N).map (coordM (setL c ch j)) := by
      rw [insertIdx_map_split, List.map_append, List.map_cons]
      have hc' : ∀ o ∈ M ++ N, coordM (setL c ch j) o = coordM c o := by
        intro o ho
        cases o with
        | none => rfl
        | some d =>
          obtain ⟨h1, h2⟩ := hA d ho
          simp only [coordM]
          rw [coordL_setL hch h1, if_neg h2]
      have e1 : M.map (coordM (setL c ch j)) = M.map (coordM c) :=
        List.map_congr_left fun o ho => hc' o (by simp [ho])
      have e2 : N.map (coordM (setL c ch j)) = N.map (coordM c) :=
        List.map_congr_left fun o ho => hc' o (by simp [ho])
      rw [e1, e2]
      congr 2
      simp only [coordM]
      rw [coordL_setL hch hch, if_pos rfl]
    rw [e]
    exact h.2 _ (has_setL hc hch j.2)

theorem normAxis_nonneg {n k : ℕ} (h : k < n) : normAxis n (k : ℤ) = .ok k := by
  unfold normAxis
  have h0 : ¬ ((k : ℤ) < 0) := by omega
  simp only [h0, if_false]
  rw [if_pos ⟨by omega, by omega⟩]; simp

theorem normAxis_neg {n k : ℕ} (h : k < n) : normAxis n ((k : ℤ) - n) = .ok k := by
  unfold normAxis
  have h0 : ((k : ℤ) - n < 0) := by omega
  simp only [h0, if_true]
  rw [if_pos ⟨by omega, by omega⟩]; simp

/-- `np.sum(A, ax)` over one axis, counted from the front or from the back. -/
theorem MArr.sum1 {g : Grid} {M N : List (Option Char)} {ch : Char} {A : Arr Num} {f : Cell → Num}
    (h : MArr g (M ++ some ch :: N) A f) (hch : AxisChar ch)
    (hA : ∀ d, some d ∈ M ++ N → AxisChar d ∧ d ≠ ch) {ax : ℤ}
    (hax : ax = M.length ∨ ax = (M.length : ℤ) - (M.length + N.length + 1 : ℕ)) :
    ∃ r, Np.sum [ax] A = .ok r ∧
      MArr g (M ++ N) r (fun c => ∑ j : Fin (sizeL g ch), f (setL c ch j)) := by
  have hl : A.shape.length = M.length + N.length + 1 := by rw [h.1]; simp; omega
  have hn : normAxis A.shape.length ax = .ok M.length := by
    rw [hl]
    rcases hax with rfl | rfl
    · exact normAxis_nonneg (by omega)
    · exact normAxis_neg (by omega)
  exact ⟨Np.sumAxis1 M.length A, by simp [Np.sum, hn], h.sumAxis1 hch hA⟩

/-- `np.sum(A, (0, 1))`. -/
theorem MArr.sum01 {g : Grid} {N : List (Option Char)} {a b : Char} {A : Arr Num} {f : Cell → Num}
    (h : MArr g (some a :: some b :: N) A f) (ha : AxisChar a) (hb : AxisChar b) (hab : a ≠ b)
    (hA : ∀ d, some d ∈ N → AxisChar d ∧ d ≠ a ∧ d ≠ b) :
    ∃ r, Np.sum [0, 1] A = .ok r ∧ MArr g N r (fun c => ∑ i : Fin (sizeL g a),
      ∑ j : Fin (sizeL g b), f (setL (setL c a i) b j)) := by
  have hl : A.shape.length = N.length + 2 := by rw [h.1]; simp
  have h1 := MArr.sumAxis1 (M := [some a]) (N := N) h hb (by
    intro d hd
    rcases List.mem_append.1 hd with hd | hd
    · have : d = a := by simpa using hd
      subst this; exact ⟨ha, hab⟩
    · exact ⟨(hA d hd).1, (hA d hd).2.2⟩)
  have h2 := MArr.sumAxis1 (M := []) (N := N) h1 ha (by
    intro d hd
    exact ⟨(hA d (by simpa using hd)).1, (hA d (by simpa using hd)).2.1⟩)
  refine ⟨_, ?_, h2⟩
  have n0 : normAxis A.shape.length 0 = .ok 0 := by
    have := normAxis_nonneg (n := A.shape.length) (k := 0) (by omega); simpa using this
  have n1 : normAxis A.shape.length 1 = .ok 1 := by
    have := normAxis_nonneg (n := A.shape.length) (k := 1) (by omega); simpa using this
  simp [Np.sum, n0, n1, List.insertionSort, List.orderedInsert]

theorem joinM_self (o : Option Char) : joinM o o = some o := by cases o <;> simp [joinM]

theorem joinR_self (M : List (Option Char)) : joinR M M = some M := by
  induction M with
  | nil => rfl
  | cons o M ih => simp [joinR, joinM_self, ih]

theorem joinR_append_left (B X Y : List (Option Char)) :
    joinR (B ++ X) (B ++ Y) = (joinR X Y).map (B ++ ·) := by
  induction B with
  | nil => simp
  | cons o B ih =>
    simp only [List.cons_append, joinR, joinM_self, ih]
    cases joinR X Y <;> simp

theorem joinR_nil_left (M : List (Option Char)) : joinR [] M = some M := by cases M <;> rfl
theorem joinR_nil_right (M : List (Option Char)) : joinR M [] = some M := by cases M <;> rfl

/-- `np.array([A, B])` of two arrays of equal shape. -/
def StackIs (g : Grid) (M : List (Option Char)) (A : Arr Num) (f1 f2 : Cell → Num) : Prop :=
  A.shape = 2 :: M.map (sizeM g) ∧
  ∀ c, g.Has c → A.get (0 :: M.map (coordM c)) = f1 c ∧ A.get (1 :: M.map (coordM c)) = f2 c

theorem MArr.stack2 {g : Grid} {M : List (Option Char)} {A B : Arr Num} {f h : Cell → Num}
    (hA : MArr g M A f) (hB : MArr g M B h) :
    ∃ r, Np.stack [A, B] = .ok r ∧ StackIs g M r f h := by
  refine ⟨⟨2 :: A.shape, fun i => ([A, B].getD (i.headD 0) A).get i.tail⟩, ?_, ?_, fun c hc => ?_⟩
  · simp [Np.stack, hA.1, hB.1]
  · simp [hA.1]
  · exact ⟨by simpa using hA.2 c hc, by simpa using hB.2 c hc⟩

end PKM
