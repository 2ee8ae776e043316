import Verif.MixLemmas

/-! Lemmas: arrays with a leading component axis of arbitrary row shape, and their transposes. -/

open scoped Classical

noncomputable section

namespace PKM
open Np Component

/-- `A` has `n` rows of shape `s`, with entries `F i j`. -/
def Stk (n : ℕ) (s : List ℕ) (A : Arr Num) (F : ℕ → List ℕ → Num) : Prop :=
  A.shape = n :: s ∧ ∀ i < n, ∀ j, InBox s j → A.get (i :: j) = F i j

variable {n : ℕ} {s : List ℕ} {A B : Arr Num} {F G : ℕ → List ℕ → Num}

theorem T_T (a : Arr Num) : T (T a) = a := by
  obtain ⟨sh, get⟩ := a
  simp [T]

theorem Stk.congr (h : Stk n s A F) (hF : ∀ i < n, ∀ j, InBox s j → F i j = G i j) : Stk n s A G :=
  ⟨h.1, fun i hi j hj => (h.2 i hi j hj).trans (hF i hi j hj)⟩

/-- Operation on transposed arrays: axes are aligned from the front. -/
theorem bopT (op : Num → Num → Num) {r : List ℕ} (h : bshapeR A.shape B.shape = some r) :
    ∃ R, bop op (T A) (T B) = .ok (T R) ∧ R.shape = r ∧ ∀ i, R.get i =
      op (A.get (List.zipWith bidx A.shape i)) (B.get (List.zipWith bidx B.shape i)) := by
  refine ⟨⟨r, fun i => op (A.get (List.zipWith bidx A.shape i)) (B.get (List.zipWith bidx B.shape i))⟩,
    ?_, rfl, fun _ => rfl⟩
  simp [bop, T, h, bproj]

theorem zipWith_box : ∀ {s i : List ℕ}, InBox s i → List.zipWith bidx s i = i
  | [], [], _ => rfl
  | n :: s, j :: i, h => by simp [zipWith_box h.2, bidx_lt h.1]

/-- Multiply each row by a number. -/
theorem Stk.scaleR (op : Num → Num → Num) (h : Stk n s A F) {X : Arr Num} {x : ℕ → Num}
    (hX : X.shape = [n]) (hx : ∀ i < n, X.get [i] = x i) :
    ∃ R, bop op (T A) X = .ok (T R) ∧ Stk n s R (fun i j => op (F i j) (x i)) := by
  have hs : bshapeR A.shape (T X).shape = some (n :: s) := by
    simp [h.1, T, hX, bshapeR]
  obtain ⟨R, h1, h2, h3⟩ := bopT op hs
  rw [T_T] at h1
  refine ⟨R, h1, h2, fun i hi j hj => ?_⟩
  rw [h3]
  have e1 : List.zipWith bidx A.shape (i :: j) = i :: j := by
    rw [h.1]; exact zipWith_box (show InBox (n :: s) (i :: j) from ⟨hi, hj⟩)
  have e2 : List.zipWith bidx (T X).shape (i :: j) = [i] := by
    simp [T, hX, bidx_lt hi]
  rw [e1, e2, h.2 i hi j hj]
  simp [T, hx i hi]

/-- The same from the left. -/
theorem Stk.scaleL (op : Num → Num → Num) (h : Stk n s A F) {X : Arr Num} {x : ℕ → Num}
    (hX : X.shape = [n]) (hx : ∀ i < n, X.get [i] = x i) :
    ∃ R, bop op X (T A) = .ok (T R) ∧ Stk n s R (fun i j => op (x i) (F i j)) := by
  have hs : bshapeR (T X).shape A.shape = some (n :: s) := by
    simp [h.1, T, hX, bshapeR]
  obtain ⟨R, h1, h2, h3⟩ := bopT op hs
  rw [T_T] at h1
  refine ⟨R, h1, h2, fun i hi j hj => ?_⟩
  rw [h3]
  have e1 : List.zipWith bidx A.shape (i :: j) = i :: j := by
    rw [h.1]; exact zipWith_box (show InBox (n :: s) (i :: j) from ⟨hi, hj⟩)
  have e2 : List.zipWith bidx (T X).shape (i :: j) = [i] := by
    simp [T, hX, bidx_lt hi]
  rw [e1, e2, h.2 i hi j hj]
  simp [T, hx i hi]

/-- Transposed stacks of equal shape. -/
theorem Stk.bopT_same (op : Num → Num → Num) (h : Stk n s A F) (h' : Stk n s B G) :
    ∃ R, bop op (T A) (T B) = .ok (T R) ∧ Stk n s R (fun i j => op (F i j) (G i j)) := by
  have hs : bshapeR A.shape B.shape = some (n :: s) := by
    rw [h.1, h'.1, bshapeR_self]
  obtain ⟨R, h1, h2, h3⟩ := bopT op hs
  refine ⟨R, h1, h2, fun i hi j hj => ?_⟩
  have e : ∀ {C : Arr Num}, C.shape = n :: s → List.zipWith bidx C.shape (i :: j) = i :: j := by
    intro C hC
    rw [hC]; exact zipWith_box (show InBox (n :: s) (i :: j) from ⟨hi, hj⟩)
  rw [h3, e h.1, e h'.1, h.2 i hi j hj, h'.2 i hi j hj]

/-- A stack with rows of shape `1 × s` against one with rows `k × s`, both transposed. -/
theorem Stk.bopT_one (op : Num → Num → Num) {k : ℕ} (h : Stk n (1 :: s) A F) (h' : Stk n (k :: s) B G) :
    ∃ R, bop op (T A) (T B) = .ok (T R) ∧
      Stk n (k :: s) R (fun i j => op (F i (0 :: j.tail)) (G i j)) := by
  have hs : bshapeR A.shape B.shape = some (n :: k :: s) := by
    simp [h.1, h'.1, bshapeR, bshapeR_self]
  obtain ⟨R, h1, h2, h3⟩ := bopT op hs
  refine ⟨R, h1, h2, fun i hi j hj => ?_⟩
  rcases j with _ | ⟨a, j⟩
  · exact hj.elim
  have e1 : List.zipWith bidx A.shape (i :: a :: j) = i :: 0 :: j := by
    rw [h.1]; simp [bidx_lt hi, zipWith_box hj.2]
  have e2 : List.zipWith bidx B.shape (i :: a :: j) = i :: a :: j := by
    rw [h'.1]; simp [bidx_lt hi, bidx_lt hj.1, zipWith_box hj.2]
  rw [h3, e1, e2, h.2 i hi (0 :: j) ⟨by norm_num, hj.2⟩, h'.2 i hi _ hj]
  rfl

theorem bshapeR_reverse : ∀ {a b r : List ℕ}, a.length = b.length → bshapeR a b = some r →
    bshapeR a.reverse b.reverse = some r.reverse
  | [], [], r, _, h => by simp at h; subst h; simp
  | x :: a, y :: b, r, hl, h => by
    simp only [bshapeR] at h
    rcases hd : bdim x y with _ | d
    · rw [hd] at h; simp at h
    · rcases hr : bshapeR a b with _ | r'
      · rw [hd, hr] at h; simp at h
      · rw [hd, hr] at h
        simp only [Option.some.injEq] at h
        subst h
        rw [List.reverse_cons, List.reverse_cons, List.reverse_cons]
        refine bshapeR_append (by simpa using hl) (bshapeR_reverse (by simpa using hl) hr) ?_
        simp [bshapeR, hd]
  | [], _ :: _, _, hl, _ => by simp at hl
  | _ :: _, [], _, hl, _ => by simp at hl

/-- Operation on arrays with equally many axes. -/
theorem bopE (op : Num → Num → Num) {r : List ℕ} (hl : A.shape.length = B.shape.length)
    (h : bshapeR A.shape B.shape = some r) :
    ∃ R, bop op A B = .ok R ∧ R.shape = r ∧ ∀ i, i.length = A.shape.length → R.get i =
      op (A.get (List.zipWith bidx A.shape i)) (B.get (List.zipWith bidx B.shape i)) := by
  refine ⟨⟨r, fun i => op (A.get (bproj A.shape i)) (B.get (bproj B.shape i))⟩, ?_, rfl, fun i hi => ?_⟩
  · simp [bop, bshapeR_reverse hl h]
  · simp only
    rw [bproj_eqlen hi.symm, bproj_eqlen (hl ▸ hi.symm)]

/-- A stack with rows of shape `1 × s` against one with rows `k × s`. -/
theorem Stk.bop_one (op : Num → Num → Num) {k : ℕ} (h : Stk n (1 :: s) A F) (h' : Stk n (k :: s) B G) :
    ∃ R, bop op A B = .ok R ∧ Stk n (k :: s) R (fun i j => op (F i (0 :: j.tail)) (G i j)) := by
  have hs : bshapeR A.shape B.shape = some (n :: k :: s) := by
    simp [h.1, h'.1, bshapeR, bshapeR_self]
  obtain ⟨R, h1, h2, h3⟩ := bopE op (by simp [h.1, h'.1]) hs
  refine ⟨R, h1, h2, fun i hi j hj => ?_⟩
  rcases j with _ | ⟨a, j⟩
  · exact hj.elim
  have e1 : List.zipWith bidx A.shape (i :: a :: j) = i :: 0 :: j := by
    rw [h.1]; simp [bidx_lt hi, zipWith_box hj.2]
  have e2 : List.zipWith bidx B.shape (i :: a :: j) = i :: a :: j := by
    rw [h'.1]; simp [bidx_lt hi, bidx_lt hj.1, zipWith_box hj.2]
  rw [h3 _ (by simp [h.1, inBox_length hj.2]), e1, e2, h.2 i hi (0 :: j) ⟨by norm_num, hj.2⟩, h'.2 i hi _ hj]
  rfl

theorem Stk.bop_same (op : Num → Num → Num) (h : Stk n s A F) (h' : Stk n s B G) :
    ∃ R, bop op A B = .ok R ∧ Stk n s R (fun i j => op (F i j) (G i j)) := by
  obtain ⟨R, h1, h2, h3⟩ := PKM.bop_same op (A := A) (B := B) (h.1.trans h'.1.symm)
  refine ⟨R, h1, h2.trans h.1, fun i hi j hj => ?_⟩
  rw [h3 _ (by rw [h.1]; exact ⟨hi, hj⟩), h.2 i hi j hj, h'.2 i hi j hj]

/-- `a[:, np.newaxis]`. -/
theorem Stk.newaxis (h : Stk n s A F) :
    ∃ R, getitem [.all, .na] A = .ok R ∧ Stk n (1 :: s) R (fun i j => F i j.tail) := by
  refine ⟨⟨n :: 1 :: s, fun i => A.get (ixIdx [.all, .na] A.shape i)⟩, ?_, rfl, fun i hi j hj => ?_⟩
  · simp [getitem, h.1, ixShape]
  · rcases j with _ | ⟨a, j⟩
    · exact hj.elim
    simp only [h.1, ixIdx]
    exact h.2 i hi j hj.2

/-- Sum over the component axis, which is the last of the transposed array. -/
theorem Stk.sumLast (h : Stk n s A F) :
    ∃ R, Np.sum [-1] (T A) = .ok (T R) ∧ R.shape = s ∧ ∀ j, InBox s j → R.get j = ∑ i : Fin n, F i j := by
  have hl : (T A).shape.length = s.length + 1 := by simp [T, h.1]
  have hn : normAxis (T A).shape.length (-1) = .ok s.length := by
    rw [hl]; unfold normAxis; simp
  have hg : (T A).shape.getD s.length 0 = n := by
    simp [T, h.1, List.getD]
  refine ⟨T (sumAxis1 s.length (T A)), ?_, ?_, fun j hj => ?_⟩
  · rw [T_T]; simp [Np.sum, hn]
  · have : (s.reverse ++ [n]).eraseIdx s.length = s.reverse := by
      rw [List.eraseIdx_append_of_length_le (by simp)]; simp
    simp [T, sumAxis1, h.1, this]
  · show ∑ k : Fin ((T A).shape.getD s.length 0), (T A).get (j.reverse.insertIdx s.length (k : ℕ)) = _
    rw [hg]
    refine Finset.sum_congr rfl fun i _ => ?_
    have : j.reverse.insertIdx s.length (i : ℕ) = j.reverse ++ [(i : ℕ)] := by
      rw [← inBox_length hj, ← List.length_reverse, List.insertIdx_length_self]
    rw [this]
    simpa [T] using h.2 i i.2 j hj

theorem Stk.sumFirst (h : Stk n s A F) :
    ∃ R, Np.sum [0] A = .ok R ∧ R.shape = s ∧ ∀ j, InBox s j → R.get j = ∑ i : Fin n, F i j := by
  have hn : normAxis A.shape.length 0 = .ok 0 := by
    have := normAxis_nonneg (n := A.shape.length) (k := 0) (by rw [h.1]; simp)
    simpa using this
  refine ⟨sumAxis1 0 A, ?_, ?_, fun c hc => ?_⟩
  · simp [Np.sum, hn]
  · simp [sumAxis1, h.1]
  · simp only [sumAxis1]
    have hs : A.shape.getD 0 0 = n := by simp [h.1]
    rw [hs]
    exact Finset.sum_congr rfl fun k _ => by simpa using h.2 k k.2 c hc

/-- Stacking one array per member. -/
theorem Mix.gather_is {m : Mix} {f : Child → Py (Arr Num)} {R : ℕ → Arr Num} (hn : 0 < m.children.length)
    (h : ∀ (i : ℕ) (hi : i < m.children.length), f m.children[i] = .ok (R i) ∧ (R i).shape = s) :
    ∃ A, Mix.gather m f = .ok A ∧ Stk m.children.length s A (fun i j => (R i).get j) := by
  have key : ∀ (cs : List Child) (Q : ℕ → Arr Num),
      (∀ (i : ℕ) (hi : i < cs.length), f cs[i] = .ok (Q i)) →
      cs.mapM f = .ok ((List.range cs.length).map Q) := by
    intro cs
    induction cs with
    | nil => intro _ _; rfl
    | cons c cs ih =>
      intro Q hQ
      have h0 := hQ 0 (by simp)
      have h1 := ih (fun i => Q (i + 1)) (fun i hi => by
        have := hQ (i + 1) (by simpa using hi)
        rwa [List.getElem_cons_succ] at this)
      simp only [List.getElem_cons_zero] at h0
      rw [List.mapM_cons, h0]
      simp only [Py.ok_bind, h1, Py.pure_eq, List.length_cons, List.range_succ_eq_map, List.map_cons,
        List.map_map]
      rfl
  have h1 := key m.children R (fun i hi => (h i hi).1)
  obtain ⟨k, hk⟩ : ∃ k, m.children.length = k + 1 := ⟨m.children.length - 1, by omega⟩
  have hsh : ∀ i < m.children.length, (R i).shape = s := fun i hi => (h i hi).2
  rw [hk] at h1 hsh ⊢
  rw [List.range_succ_eq_map, List.map_cons, List.map_map] at h1
  have hall : ∀ b ∈ (List.range k).map (R ∘ Nat.succ), b.shape = (R 0).shape := by
    intro b hb
    obtain ⟨i, hi, rfl⟩ := List.mem_map.1 hb
    rw [hsh 0 (by omega), Function.comp, hsh _ (by have := List.mem_range.1 hi; omega)]
  refine ⟨_, by simp only [Mix.gather, h1, Py.ok_bind, stack]; exact if_pos hall, ?_, fun i hi j hj => ?_⟩
  · simp [hsh 0 (by omega)]
  · simp only [List.headD_cons, List.tail_cons]
    cases i with
    | zero => simp
    | succ i => simp [List.getD, show i < k by omega]

end PKM
