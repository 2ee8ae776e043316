import Verif.MArr
import Verif.Moments
import Verif.BaseLemmas

/-! Lemmas: what the array expressions of the moment methods compute. -/

open scoped Classical

noncomputable section

namespace PKM
open Np Component

variable {g : Grid}

/-- Axes `B` are named by letters different from those in `l`. -/
def FreshB (l : List Char) (B : List (Option Char)) : Prop :=
  ∀ d, some d ∈ B → AxisChar d ∧ d ∉ l

theorem MArr.val_sub {a : Char} {B : List (Option Char)} {V M : Arr Num} {v m : Cell → Num}
    (hV : MArr g [some a] V v) (hM : MArr g B M m) :
    ∃ i d, Np.getitem [.na] M = .ok i ∧ Np.sub V (Np.T i) = .ok d ∧
      MArr g (B.reverse ++ [some a]) d (fun c => v c - m c) := by
  obtain ⟨i, hi, hi'⟩ := hM.getitem [.na] (R := none :: B) (by simp [ixM])
  obtain ⟨d, hd, hd'⟩ := MArr.bop (R := B.reverse ++ [some a]) (· - ·) hV hi'.T (by
    simp [joinR, joinM, joinR_nil_left])
  exact ⟨i, d, hi, hd, hd'⟩

theorem powDelta_gives {a : Char} {B : List (Option Char)} {V M : Arr Num} {v m : Cell → Num} (j : ℕ)
    (hV : MArr g [some a] V v) (hM : MArr g B M m) :
    ∃ d, powDelta V M j = .ok d ∧
      MArr g (B.reverse ++ [some a]) d (fun c => (v c - m c).npow j) := by
  obtain ⟨i, d, h1, h2, h3⟩ := hV.val_sub hM
  exact ⟨_, by simp [powDelta, h1, h2], h3.map (fun x => x.npow j)⟩

/-- `(val.T * p.T).T` summed over axis 0. -/
theorem weightedSum {a : Char} {B : List (Option Char)} {V P : Arr Num} {v f : Cell → Num}
    (ha : AxisChar a) (hB : FreshB [a] B)
    (hV : MArr g [some a] V v) (hP : MArr g (some a :: B) P f) :
    ∃ r q, Np.mul (Np.T V) (Np.T P) = .ok q ∧ Np.sum [0] (Np.T q) = .ok r ∧
      MArr g B r (fun c => ∑ j : Fin (sizeL g a), v (setL c a j) * f (setL c a j)) := by
  obtain ⟨q, hq, hq'⟩ := MArr.bop (R := B.reverse ++ [some a]) (· * ·) hV.T hP.T (by
    simp [joinR, joinM, joinR_nil_left])
  have h2 : MArr g (some a :: B) (Np.T q) (fun c => v c * f c) := by simpa using hq'.T
  obtain ⟨r, hr, hr'⟩ := MArr.sum1 (M := []) (N := B) (ax := 0) h2 ha (by
    intro d hd
    have := hB d (by simpa using hd)
    exact ⟨this.1, by simpa using this.2⟩) (by simp)
  exact ⟨r, q, hq, hr, hr'⟩

/-- `(W * p.T).T` summed over axis 0, for `W` with axes in reversed order. -/
theorem weightedSum' {a : Char} {B : List (Option Char)} {W P : Arr Num} {v f : Cell → Num}
    (ha : AxisChar a) (hB : FreshB [a] B)
    (hW : MArr g (B.reverse ++ [some a]) W v) (hP : MArr g (some a :: B) P f) :
    ∃ r q, Np.mul W (Np.T P) = .ok q ∧ Np.sum [0] (Np.T q) = .ok r ∧
      MArr g B r (fun c => ∑ j : Fin (sizeL g a), v (setL c a j) * f (setL c a j)) := by
  obtain ⟨q, hq, hq'⟩ := MArr.bop (R := B.reverse ++ [some a]) (· * ·) hW hP.T (by
    simp [joinR_self, joinR, joinM])
  have h2 : MArr g (some a :: B) (Np.T q) (fun c => v c * f c) := by simpa using hq'.T
  obtain ⟨r, hr, hr'⟩ := MArr.sum1 (M := []) (N := B) (ax := 0) h2 ha (by
    intro d hd
    have := hB d (by simpa using hd)
    exact ⟨this.1, by simpa using this.2⟩) (by simp)
  exact ⟨r, q, hq, hr, hr'⟩

/-- `W.T * p` summed over axis 0. -/
theorem weightedSum'' {a : Char} {B : List (Option Char)} {W P : Arr Num} {v f : Cell → Num}
    (ha : AxisChar a) (hB : FreshB [a] B)
    (hW : MArr g (B.reverse ++ [some a]) W v) (hP : MArr g (some a :: B) P f) :
    ∃ r q, Np.mul (Np.T W) P = .ok q ∧ Np.sum [0] q = .ok r ∧
      MArr g B r (fun c => ∑ j : Fin (sizeL g a), v (setL c a j) * f (setL c a j)) := by
  have hW' : MArr g (some a :: B) (Np.T W) v := by simpa using hW.T
  obtain ⟨q, hq, hq'⟩ := MArr.bop (R := some a :: B) (· * ·) hW' hP (joinR_self _)
  obtain ⟨r, hr, hr'⟩ := MArr.sum1 (M := []) (N := B) (ax := 0) hq' ha (by
    intro d hd
    have := hB d (by simpa using hd)
    exact ⟨this.1, by simpa using this.2⟩) (by simp)
  exact ⟨r, q, hq, hr, hr'⟩

/-- `np.sum(x * p.T, -1).T`. -/
theorem weightedSumLast {a : Char} {B : List (Option Char)} {V P : Arr Num} {v f : Cell → Num}
    (ha : AxisChar a) (hB : FreshB [a] B)
    (hV : MArr g [some a] V v) (hP : MArr g (some a :: B) P f) :
    ∃ r q, Np.mul V (Np.T P) = .ok q ∧ Np.sum [-1] q = .ok r ∧
      MArr g B (Np.T r) (fun c => ∑ j : Fin (sizeL g a), v (setL c a j) * f (setL c a j)) := by
  obtain ⟨q, hq, hq'⟩ := MArr.bop (R := B.reverse ++ [some a]) (· * ·) hV hP.T (by
    simp [joinR, joinM, joinR_nil_left])
  obtain ⟨r, hr, hr'⟩ := MArr.sum1 (M := B.reverse) (N := []) (ax := -1) hq' ha (by
    intro d hd
    have := hB d (by simpa using hd)
    exact ⟨this.1, by simpa using this.2⟩) (by right; push_cast; simp)
  refine ⟨r, q, hq, hr, by simpa using hr'.T⟩

/-- The two arrays `np.sum(p, 1)`, `np.sum(p, 0)` of a position distribution. -/
theorem splitXY {B : List (Option Char)} {P : Arr Num} {f : Cell → Num} (hB : FreshB ['x','y'] B)
    (hP : MArr g (some 'x' :: some 'y' :: B) P f) :
    ∃ p1 p2, Np.sum [1] P = .ok p1 ∧ Np.sum [0] P = .ok p2 ∧
      MArr g (some 'x' :: B) p1 (fun c => ∑ j : Fin (sizeL g 'y'), f (setL c 'y' j)) ∧
      MArr g (some 'y' :: B) p2 (fun c => ∑ j : Fin (sizeL g 'x'), f (setL c 'x' j)) := by
  obtain ⟨p1, h1, h1'⟩ := MArr.sum1 (M := [some 'x']) (N := B) (ax := 1) hP (by unfold AxisChar; decide) (by
    intro d hd
    simp only [List.mem_append, List.mem_singleton, Option.some.injEq] at hd
    rcases hd with rfl | hd
    · exact ⟨by unfold AxisChar; decide, by decide⟩
    · have := hB d hd
      exact ⟨this.1, fun e => this.2 (by simp [e])⟩) (by simp)
  obtain ⟨p2, h2, h2'⟩ := MArr.sum1 (M := []) (N := some 'y' :: B) (ax := 0) hP
    (by unfold AxisChar; decide) (by
    intro d hd
    simp only [List.nil_append, List.mem_cons, Option.some.injEq] at hd
    rcases hd with rfl | hd
    · exact ⟨by unfold AxisChar; decide, by decide⟩
    · have := hB d hd
      exact ⟨this.1, fun e => this.2 (by simp [e])⟩) (by simp)
  exact ⟨p1, p2, h1, h2, by simpa using h1', by simpa using h2'⟩

theorem unpack2_stack {M : List (Option Char)} {A : Arr Num} {f1 f2 : Cell → Num}
    (h : StackIs g M A f1 f2) :
    ∃ A1 A2, unpack2 A = .ok (A1, A2) ∧ MArr g M A1 f1 ∧ MArr g M A2 f2 := by
  refine ⟨⟨M.map (sizeM g), fun i => A.get (0 :: i)⟩, ⟨M.map (sizeM g), fun i => A.get (1 :: i)⟩,
    ?_, ⟨rfl, fun c hc => (h.2 c hc).1⟩, ⟨rfl, fun c hc => (h.2 c hc).2⟩⟩
  simp [unpack2, h.1]

/-! ### The cube's bin centres -/

theorem marr_is1 {a : Char} (ha : AxisChar a) {A : Arr Num} {f : ℕ → ℝ} (h : Is1 A (sizeL g a) f) :
    MArr g [some a] A (fun c => .fin (f (coordL c a))) :=
  ⟨by simp [h.shape, sizeM], fun c hc => by simpa [coordM] using h.get _ (coordL_lt hc a)⟩

theorem values_marr {cube : IFUCube} (h : CubeIs cube g) :
    (∀ a ∈ (['t','v','z'] : List Char), ∃ V, cube.getVariableValues [a] = .ok V ∧
      MArr g [some a] V (fun c => .fin (g.value a c))) ∧
    MArr g [some 'x'] cube.x (fun c => .fin (g.value 'x' c)) ∧
    MArr g [some 'y'] cube.y (fun c => .fin (g.value 'y' c)) := by
  refine ⟨fun a ha => ?_, ?_, ?_⟩
  · fin_cases ha
    · exact ⟨cube.ssps.tCents, by simp [IFUCube.getVariableValues],
        (marr_is1 (g := g) (a := 't') (by unfold AxisChar; decide) h.tCents)⟩
    · obtain ⟨d, hd, hd'⟩ := mid_edges h.vEdg
      exact ⟨d, by simpa [IFUCube.getVariableValues] using hd,
        (marr_is1 (g := g) (a := 'v') (by unfold AxisChar; decide) hd')⟩
    · exact ⟨cube.ssps.zCents, by simp [IFUCube.getVariableValues],
        (marr_is1 (g := g) (a := 'z') (by unfold AxisChar; decide) h.zCents)⟩
  · exact marr_is1 (g := g) (a := 'x') (by unfold AxisChar; decide) h.x
  · exact marr_is1 (g := g) (a := 'y') (by unfold AxisChar; decide) h.y

/-! ### Means and moments -/

/-- Sum over one axis of weight times table. -/
def sum1D (g : Grid) (a : Char) (ψ f : Cell → Num) (c : Cell) : Num :=
  ∑ j : Fin (sizeL g a), ψ (setL c a j) * f (setL c a j)

/-- Sum over axis `a` of weight times the table summed over axis `b`. -/
def sum2D (g : Grid) (a b : Char) (ψ f : Cell → Num) (c : Cell) : Num :=
  ∑ j : Fin (sizeL g a), ψ (setL c a j) * ∑ k : Fin (sizeL g b), f (setL (setL c a j) b k)

theorem meanDefault_tvz {s : Self} (hcube : CubeIs s.cube g) {w : PyStr} {lw : Bool} {a : Char}
    (ha : a ∈ ['t','v','z']) {B : List (Option Char)} (hB : FreshB [a] B) (hw : headVar w = [a])
    {f : Cell → Num} (hp : ∃ P, getP s w false lw = .ok P ∧ MArr g (some a :: B) P f) :
    ∃ r, meanDefault s w lw = .ok r ∧ MArr g B r (sum1D g a (fun c => .fin (g.value a c)) f) := by
  obtain ⟨P, hP, hP'⟩ := hp
  obtain ⟨V, hV, hV'⟩ := (values_marr hcube).1 a ha
  obtain ⟨r, q, hq, hr, hr'⟩ := weightedSum (by unfold AxisChar; fin_cases ha <;> decide) hB hV' hP'
  refine ⟨r, ?_, hr'⟩
  have : [a] ∈ [['t'], ['v'], ['z']] := by fin_cases ha <;> decide
  simp only [meanDefault, hP, Py.ok_bind, this, if_true, hw, hV, hq, hr]

theorem meanDefault_x {s : Self} (hcube : CubeIs s.cube g) {w : PyStr} {lw : Bool}
    {B : List (Option Char)} (hB : FreshB ['x','y'] B) (hw : headVar w = ['x'])
    {f : Cell → Num} (hp : ∃ P, getP s w false lw = .ok P ∧ MArr g (some 'x' :: some 'y' :: B) P f) :
    ∃ r, meanDefault s w lw = .ok r ∧ StackIs g B r
      (sum2D g 'x' 'y' (fun c => .fin (g.value 'x' c)) f)
      (sum2D g 'y' 'x' (fun c => .fin (g.value 'y' c)) f) := by
  obtain ⟨P, hP, hP'⟩ := hp
  obtain ⟨-, hx, hy⟩ := values_marr hcube
  obtain ⟨p1, p2, h1, h2, h1', h2'⟩ := splitXY hB hP'
  have hBx : FreshB ['x'] B := fun d hd => ⟨(hB d hd).1, fun e => (hB d hd).2 (by simp at e; simp [e])⟩
  have hBy : FreshB ['y'] B := fun d hd => ⟨(hB d hd).1, fun e => (hB d hd).2 (by simp at e; simp [e])⟩
  obtain ⟨r1, q1, hq1, hr1, hr1'⟩ := weightedSumLast (by unfold AxisChar; decide) hBx hx h1'
  obtain ⟨r2, q2, hq2, hr2, hr2'⟩ := weightedSumLast (by unfold AxisChar; decide) hBy hy h2'
  obtain ⟨r, hr, hr'⟩ := hr1'.stack2 hr2'
  refine ⟨r, ?_, hr'⟩
  have h0 : (['x'] : PyStr) ∉ [['t'], ['v'], ['z']] := by decide
  simp only [meanDefault, hP, Py.ok_bind, h0, if_false, hw, if_true, h1, h2, hq1, hr1, hq2, hr2, hr]

theorem momentDefault_tvz {s : Self} (hcube : CubeIs s.cube g) {w : PyStr} {lw : Bool} {a : Char}
    (ha : a ∈ ['t','v','z']) {B : List (Option Char)} (hB : FreshB [a] B) (hw : headVar w = [a])
    {f m : Cell → Num} (hp : ∃ P, getP s w false lw = .ok P ∧ MArr g (some a :: B) P f)
    {M : Arr Num} (hM : MArr g B M m) (j : ℕ) :
    ∃ r, momentDefault s w j M lw = .ok r ∧
      MArr g B r (sum1D g a (fun c => (.fin (g.value a c) - m c).npow j) f) := by
  obtain ⟨P, hP, hP'⟩ := hp
  obtain ⟨V, hV, hV'⟩ := (values_marr hcube).1 a ha
  obtain ⟨d, hd, hd'⟩ := powDelta_gives j hV' hM
  obtain ⟨r, q, hq, hr, hr'⟩ := weightedSum' (by unfold AxisChar; fin_cases ha <;> decide) hB hd' hP'
  refine ⟨r, ?_, hr'⟩
  have : [a] ∈ [['t'], ['v'], ['z']] := by fin_cases ha <;> decide
  simp only [momentDefault, hP, Py.ok_bind, this, if_true, hw, hV, hd, hq, hr]

theorem momentDefault_x {s : Self} (hcube : CubeIs s.cube g) {w : PyStr} {lw : Bool}
    {B : List (Option Char)} (hB : FreshB ['x','y'] B) (hw : headVar w = ['x'])
    {f m1 m2 : Cell → Num}
    (hp : ∃ P, getP s w false lw = .ok P ∧ MArr g (some 'x' :: some 'y' :: B) P f)
    {M : Arr Num} (hM : StackIs g B M m1 m2) (j : ℕ) :
    ∃ r, momentDefault s w j M lw = .ok r ∧ StackIs g B r
      (sum2D g 'x' 'y' (fun c => (.fin (g.value 'x' c) - m1 c).npow j) f)
      (sum2D g 'y' 'x' (fun c => (.fin (g.value 'y' c) - m2 c).npow j) f) := by
  obtain ⟨P, hP, hP'⟩ := hp
  obtain ⟨-, hx, hy⟩ := values_marr hcube
  obtain ⟨p1, p2, h1, h2, h1', h2'⟩ := splitXY hB hP'
  have hBx : FreshB ['x'] B := fun d hd => ⟨(hB d hd).1, fun e => (hB d hd).2 (by simp at e; simp [e])⟩
  have hBy : FreshB ['y'] B := fun d hd => ⟨(hB d hd).1, fun e => (hB d hd).2 (by simp at e; simp [e])⟩
  obtain ⟨M1, M2, hMM, hM1, hM2⟩ := unpack2_stack hM
  obtain ⟨d1, hd1, hd1'⟩ := powDelta_gives j hx hM1
  obtain ⟨d2, hd2, hd2'⟩ := powDelta_gives j hy hM2
  obtain ⟨r1, q1, hq1, hr1, hr1'⟩ := weightedSum'' (by unfold AxisChar; decide) hBx hd1' h1'
  obtain ⟨r2, q2, hq2, hr2, hr2'⟩ := weightedSum'' (by unfold AxisChar; decide) hBy hd2' h2'
  obtain ⟨r, hr, hr'⟩ := hr1'.stack2 hr2'
  refine ⟨r, ?_, hr'⟩
  have h0 : (['x'] : PyStr) ∉ [['t'], ['v'], ['z']] := by decide
  simp only [momentDefault, hP, Py.ok_bind, h0, if_false, hw, if_true, h1, h2, hMM, hd1, hd2, hq1,
    hr1, hq2, hr2, hr]

/-! ### Covariance -/

/-- Sum over two axes of table times two weights. -/
def sumCov (g : Grid) (a b : Char) (f ψ0 ψ1 : Cell → Num) (c : Cell) : Num :=
  ∑ i : Fin (sizeL g a), ∑ j : Fin (sizeL g b),
    f (setL (setL c a i) b j) * ψ0 (setL (setL c a i) b j) * ψ1 (setL (setL c a i) b j)

theorem delta_gives {a : Char} {B : List (Option Char)} {V M : Arr Num} {v m : Cell → Num}
    (hV : MArr g [some a] V v) (hM : MArr g B M m) :
    ∃ d, Obj.delta V M = .ok d ∧ MArr g (some a :: B) d (fun c => v c - m c) := by
  obtain ⟨i, d, h1, h2, h3⟩ := hV.val_sub hM
  exact ⟨Np.T d, by simp [Obj.delta, h1, h2], by simpa using h3.T⟩

theorem joinR_first (B : List (Option Char)) (a b : Char) :
    joinR (some a :: some b :: B).reverse (some a :: none :: B).reverse =
      some (some a :: some b :: B).reverse := by
  simp [joinR_append_left, joinR, joinM]

theorem joinR_second (B : List (Option Char)) (a b : Char) :
    joinR (some a :: some b :: B).reverse (none :: some b :: B).reverse =
      some (some a :: some b :: B).reverse := by
  simp [joinR_append_left, joinR, joinM]

/-- `p * d0[:, na] * d1[na, :]` summed over the first two axes. -/
theorem covSum_gives {a b : Char} {B : List (Option Char)} {P D0 D1 : Arr Num} {f e0 e1 : Cell → Num}
    (ha : AxisChar a) (hb : AxisChar b) (hab : a ≠ b) (hB : FreshB [a, b] B)
    (hP : MArr g (some a :: some b :: B) P f) (h0 : MArr g (some a :: B) D0 e0)
    (h1 : MArr g (some b :: B) D1 e1) :
    ∃ r, Obj.covSum P D0 D1 [.all, .na] [.na, .all] = .ok r ∧ MArr g B r (sumCov g a b f e0 e1) := by
  obtain ⟨i0, hi0, hi0'⟩ := h0.getitem [.all, .na] (R := some a :: none :: B) (by simp [ixM])
  obtain ⟨i1, hi1, hi1'⟩ := h1.getitem [.na, .all] (R := none :: some b :: B) (by simp [ixM])
  obtain ⟨q, hq, hq'⟩ := MArr.bop (R := some a :: some b :: B) (· * ·) hP hi0' (joinR_first B a b)
  obtain ⟨q2, hq2, hq2'⟩ := MArr.bop (R := some a :: some b :: B) (· * ·) hq' hi1' (joinR_second B a b)
  obtain ⟨r, hr, hr'⟩ := hq2'.sum01 ha hb hab (fun d hd => by
    have := hB d hd
    simp only [List.mem_cons, List.not_mem_nil, or_false, not_or] at this
    exact this)
  exact ⟨r, by simp [Obj.covSum, hi0, mul, hq, hi1, hq2, hr], hr'⟩

/-- `p * d0[na, :] * d1[:, na]` summed over the first two axes. -/
theorem covSum_gives' {a b : Char} {B : List (Option Char)} {P D0 D1 : Arr Num} {f e0 e1 : Cell → Num}
    (ha : AxisChar a) (hb : AxisChar b) (hab : a ≠ b) (hB : FreshB [a, b] B)
    (hP : MArr g (some a :: some b :: B) P f) (h0 : MArr g (some b :: B) D0 e0)
    (h1 : MArr g (some a :: B) D1 e1) :
    ∃ r, Obj.covSum P D0 D1 [.na, .all] [.all, .na] = .ok r ∧ MArr g B r (sumCov g a b f e0 e1) := by
  obtain ⟨i0, hi0, hi0'⟩ := h0.getitem [.na, .all] (R := none :: some b :: B) (by simp [ixM])
  obtain ⟨i1, hi1, hi1'⟩ := h1.getitem [.all, .na] (R := some a :: none :: B) (by simp [ixM])
  obtain ⟨q, hq, hq'⟩ := MArr.bop (R := some a :: some b :: B) (· * ·) hP hi0' (joinR_second B a b)
  obtain ⟨q2, hq2, hq2'⟩ := MArr.bop (R := some a :: some b :: B) (· * ·) hq' hi1' (joinR_first B a b)
  obtain ⟨r, hr, hr'⟩ := hq2'.sum01 ha hb hab (fun d hd => by
    have := hB d hd
    simp only [List.mem_cons, List.not_mem_nil, or_false, not_or] at this
    exact this)
  exact ⟨r, by simp [Obj.covSum, hi0, mul, hq, hi1, hq2, hr], hr'⟩

end PKM
