import Verif.LMoment

/-! Lemmas: arrays whose first axis numbers the components of a mixture. -/

open scoped Classical

noncomputable section

namespace PKM
open Np

/-- Row `i` of an array. -/
def rowA {α : Type} (A : Arr α) (i : ℕ) : Arr α := ⟨A.shape.tail, fun j => A.get (i :: j)⟩

section
variable {g : Grid} {n : ℕ} {b : PyStr} {A B : Arr Num} {f f' : ℕ → Cell → Num}

theorem lead_iff (hs : A.shape = n :: g.shapeOf b) :
    Lead g n b A f ↔ ∀ i < n, IsArr g b (rowA A i) (f i) := by
  constructor
  · intro h i hi
    exact ⟨by simp [rowA, hs], fun c hc => h.2 i hi c hc⟩
  · intro h
    exact ⟨hs, fun i hi c hc => (h i hi).2 c hc⟩

/-- Letters version of `Lead`. -/
def LLead (g : Grid) (n : ℕ) (U : List Char) (A : Arr Num) (f : ℕ → Cell → Num) : Prop :=
  A.shape = n :: U.map (sizeL g) ∧ ∀ i < n, LArr g U (rowA A i) (f i)

theorem lead_letters (hb : DistChars b) : Lead g n b A f ↔ LLead g n (PyStr.replaceX b) A f := by
  unfold LLead
  constructor
  · intro h
    refine ⟨by rw [h.1, shapeOf_letters g hb], fun i hi => ?_⟩
    exact (isArr_iff hb).1 ((lead_iff h.1).1 h i hi)
  · rintro ⟨h1, h2⟩
    have hs : A.shape = n :: g.shapeOf b := by rw [h1, shapeOf_letters g hb]
    exact (lead_iff hs).2 fun i hi => (isArr_iff hb).2 (h2 i hi)

theorem rowA_sumAxis1 (k : ℕ) {s : List ℕ} (hs : A.shape = n :: s) (i : ℕ) :
    rowA (sumAxis1 (k + 1) A) i = sumAxis1 k (rowA A i) := by
  obtain ⟨sh, get⟩ := A
  simp only at hs
  subst hs
  rfl

theorem foldSum_rows : ∀ (ks : List ℕ) (A : Arr Num) (s : List ℕ), A.shape = n :: s →
    ((ks.map (· + 1)).foldl (fun a k => sumAxis1 k a) A).shape =
      n :: (ks.foldl (fun a k => sumAxis1 k a) (⟨s, fun _ => .nan⟩ : Arr Num)).shape ∧
    ∀ i, rowA ((ks.map (· + 1)).foldl (fun a k => sumAxis1 k a) A) i =
      ks.foldl (fun a k => sumAxis1 k a) (rowA A i)
  | [], A, s, h => ⟨h, fun _ => rfl⟩
  | k :: ks, A, s, h => by
    have h1 : (sumAxis1 (k + 1) A).shape = n :: s.eraseIdx k := by simp [sumAxis1, h]
    obtain ⟨e1, e2⟩ := foldSum_rows ks (sumAxis1 (k + 1) A) (s.eraseIdx k) h1
    refine ⟨?_, fun i => ?_⟩
    · simp only [List.map_cons, List.foldl_cons]
      rw [e1]
      congr 1
      have key : ∀ (ks : List ℕ) (X Y : Arr Num), X.shape = Y.shape →
          (ks.foldl (fun a k => sumAxis1 k a) X).shape = (ks.foldl (fun a k => sumAxis1 k a) Y).shape := by
        intro ks
        induction ks with
        | nil => intro X Y h; exact h
        | cons k ks ih => intro X Y h; exact ih _ _ (by simp [sumAxis1, h])
      exact key ks _ _ rfl
    · simp only [List.map_cons, List.foldl_cons]
      rw [e2, rowA_sumAxis1 k h]

/-- Axis arguments on an array with one extra leading axis. -/
def axesOK1 (U : List Char) (axes : List ℤ) (S : List Char) : Prop :=
  axes.mapM (normAxis (U.length + 1)) = .ok (((posL U S).map (· + 1)).reverse) ∧ (posL U S).Nodup ∧
  (((posL U S).map (· + 1)).reverse).insertionSort (· ≥ ·) = (posL U S).map (· + 1)

instance {U axes S} : Decidable (axesOK1 U axes S) := by unfold axesOK1; infer_instance

theorem LLead.sum {U : List Char} (h : LLead g n U A f) (hU : U.Nodup) (hA : ∀ ch ∈ U, AxisChar ch)
    {S : List Char} (hr : removable U S) {axes : List ℤ} (ha : axesOK1 U axes S) :
    ∃ r, Np.sum axes A = .ok r ∧ LLead g n (U.diff S) r (fun i => sumOver g S (f i)) := by
  obtain ⟨e1, e2⟩ := foldSum_rows (posL U S) A _ h.1
  have hl : A.shape.length = U.length + 1 := by rw [h.1]; simp
  have hnd : ((posL U S).map (· + 1)).reverse.Nodup := by
    rw [List.nodup_reverse]; exact ha.2.1.map (fun a b h => by simpa using h)
  have hfold : ∀ i < n, LArr g (U.diff S) (rowA (((posL U S).map (· + 1)).foldl
      (fun a k => sumAxis1 k a) A) i) (sumOver g S (f i)) := by
    intro i hi
    rw [e2]
    exact LArr.foldSum S (h.2 i hi) hU hA hr
  refine ⟨((posL U S).map (· + 1)).foldl (fun a k => sumAxis1 k a) A, ?_, ?_, hfold⟩
  · simp only [Np.sum, hl, ha.1, Py.ok_bind, if_pos hnd, ha.2.2]
  · rw [e1]
    congr 1
    have hx : LArr g U (⟨U.map (sizeL g), fun _ => .nan⟩ : Arr Num) (fun _ => .nan) :=
      ⟨rfl, fun _ _ => rfl⟩
    exact (LArr.foldSum S hx hU hA hr).1

theorem LLead.map {U : List Char} (h : LLead g n U A f) (k : Num → Num) :
    LLead g n U (Np.map k A) (fun i c => k (f i c)) :=
  ⟨h.1, fun i hi => ⟨(h.2 i hi).1, fun c hc => congrArg k ((h.2 i hi).2 c hc)⟩⟩

theorem LLead.congr {U : List Char} (h : LLead g n U A f) (hf : ∀ k < n, ∀ c, g.Has c → f k c = f' k c) :
    LLead g n U A f' :=
  ⟨h.1, fun i hi => ⟨(h.2 i hi).1, fun c hc => ((h.2 i hi).2 c hc).trans (hf i hi c hc)⟩⟩

theorem sumOver_div (g : Grid) (S : List Char) (f : Cell → ℝ) (c : Cell) (k : ℝ) :
    sumOver g S (fun d => f d / k) c = sumOver g S f c / k := by
  simp only [div_eq_inv_mul]
  exact sumOver_mul g _ S f c

/-- An optional log-sum-exp over the axes of the letters `S`. -/
theorem LLead.lseIf {U : List Char} {q : ℕ → Cell → ℝ} (h : LLead g n U A (fun i c => Num.lg (q i c)))
    (hq : ∀ i < n, ∀ c, g.Has c → 0 ≤ q i c)
    (hU : U.Nodup) (hA : ∀ ch ∈ U, AxisChar ch) (p : Prop) [Decidable p] {S : List Char}
    (hr : p → removable U S) {axes : List ℤ} (ha : p → axesOK1 U axes S)
    (hS : ∀ ch ∈ S, AxisChar ch) :
    ∃ r, (if p then logsumexp axes A else (.ok A : Py (Arr Num))) = .ok r ∧
      LLead g n (if p then U.diff S else U) r
        (fun i c => Num.lg (sumOver g (if p then S else []) (q i) c)) := by
  by_cases hp : p
  · have h1 := h.map Num.exp
    obtain ⟨r, hr1, hr2⟩ := h1.sum hU hA (hr hp) (ha hp)
    refine ⟨Np.map Num.log r, by simp [hp, logsumexp, hr1], ?_⟩
    simp only [if_pos hp]
    refine (hr2.map Num.log).congr fun i hi c hc => ?_
    rw [sumOver_congr (f' := fun d => Num.fin (q i d)) S hS hc (fun d hd => Num.exp_lg (hq i hi d hd)),
      sumOver_fin, Num.log_fin]
  · exact ⟨A, by simp [hp], by simpa [hp, sumOver] using h⟩

theorem bshapeR_symm : ∀ l1 l2, bshapeR l1 l2 = bshapeR l2 l1 := by
  intro l1
  induction l1 with
  | nil => intro l2; simp
  | cons x xs ih =>
    intro l2
    cases l2 with
    | nil => simp
    | cons y ys =>
      have hd : bdim x y = bdim y x := by
        unfold bdim; split_ifs <;> simp_all
      simp only [bshapeR, hd, ih ys]

theorem bshapeR_len : ∀ {l s r : List ℕ}, bshapeR l s = some r → l.length ≤ r.length
  | [], s, r, h => by simp
  | a :: l, [], r, h => by simp at h; subst h; simp
  | a :: l, b :: s, r, h => by
    simp only [bshapeR] at h
    split at h
    · next d q hd hq =>
      cases h
      have := bshapeR_len hq
      simpa using this
    · cases h

theorem bshapeR_snoc : ∀ {l s r : List ℕ} (m : ℕ), l.length ≤ s.length → bshapeR l s = some r →
    bshapeR l (s ++ [m]) = some (r ++ [m])
  | [], s, r, m, _, h => by simp at h; subst h; simp
  | a :: l, [], r, m, hl, h => by simp at hl
  | a :: l, b :: s, r, m, hl, h => by
    simp only [bshapeR] at h
    split at h
    · next d q hd hq =>
      cases h
      have := bshapeR_snoc m (by simpa using hl) hq
      simp [bshapeR, hd, this]
    · cases h

/-- Broadcasting an operand that knows nothing of the component axis. -/
theorem Lead.bopB (op : Num → Num → Num) {q : Cell → Num} (h : Lead g n b A f) (hB : BArr g b B q) :
    ∃ r, Np.bop op A B = .ok r ∧ Lead g n b r (fun i c => op (f i c) (q c)) := by
  have hl : B.shape.reverse.length ≤ (g.shapeOf b).reverse.length := bshapeR_len hB.1
  have hsh : bshapeR A.shape.reverse B.shape.reverse = some (n :: g.shapeOf b).reverse := by
    rw [h.1, bshapeR_symm, List.reverse_cons]
    exact bshapeR_snoc n hl hB.1
  refine ⟨⟨n :: g.shapeOf b, fun i => op (A.get (bproj A.shape i)) (B.get (bproj B.shape i))⟩, ?_, rfl, ?_⟩
  · simp [Np.bop, hsh]
  · intro i hi c hc
    have e1 : bproj A.shape (i :: coords b c) = i :: coords b c := by
      rw [h.1]; exact bproj_self ⟨hi, inBox_coords hc b⟩
    have e2 : bproj B.shape (i :: coords b c) = bproj B.shape (coords b c) := by
      unfold bproj
      congr 1
      rw [List.reverse_cons]
      have hlen : B.shape.reverse.length ≤ (coords b c).reverse.length := by
        have := inBox_length (inBox_coords hc b)
        simp at hl ⊢; omega
      have : ∀ (l m : List ℕ) (k : ℕ), l.length ≤ m.length →
          List.zipWith bidx l (m ++ [k]) = List.zipWith bidx l m := by
        intro l
        induction l with
        | nil => intros; rfl
        | cons a l ih =>
          intro m k hm
          cases m with
          | nil => simp at hm
          | cons d m => simp only [List.cons_append, List.zipWith_cons_cons]
                        rw [ih m k (by simpa using hm)]
      exact this _ _ _ hlen
    simp only [e1, e2, h.2 i hi c hc, hB.2 c hc]

theorem Lead.iopB (op : Num → Num → Num) {q : Cell → Num} (h : Lead g n b A f) (hB : BArr g b B q) :
    ∃ r, Np.iop op A B = .ok r ∧ Lead g n b r (fun i c => op (f i c) (q c)) := by
  obtain ⟨r, h1, h2⟩ := h.bopB op hB
  obtain ⟨r', k1, k2, k3⟩ := iop_of_bop h1 (h2.1.trans h.1.symm)
  exact ⟨r', k1, k2.trans h.1, fun i hi c hc =>
    (k3 _ (by rw [h.1]; exact ⟨hi, inBox_coords hc b⟩)).trans (h2.2 i hi c hc)⟩

/-- Sum over everything. -/
theorem Lead.sumAll {q : ℕ → Cell → ℝ} (hb : DistChars b) (hnd : (PyStr.replaceX b).Nodup)
    (hA : ∀ ch ∈ PyStr.replaceX b, AxisChar ch) (h : Lead g n b A (fun i c => .fin (q i c)))
    {c : Cell} (hc : g.Has c) :
    Np.sumAll A = scalar (.fin (∑ i : Fin n, sumOver g (PyStr.replaceX b).reverse (q i) c)) := by
  unfold Np.sumAll
  congr 1
  rw [h.1]
  simp only [sumShape, ← Num.fin_sum]
  refine Finset.sum_congr rfl fun i _ => ?_
  rw [shapeOf_letters g hb, sumShape_letters g _ _ (fun c => .fin (q i c)) c hnd hA hc
    (fun d hd => by rw [← coords_letters d hb]; exact h.2 i i.2 d hd)]
  exact sumOver_fin g _ _ c

/-- The order of axes produced for a mixture's joint. -/
theorem condOrder1_eq : ∀ p ∈ conditionals,
    moveOrder ((PyStr.replaceX (unionStr p.1 p.2)).length + 1)
      (Component.oldPos ('i' :: PyStr.replaceX (PyStr.sorted (p.1 ++ p.2))) (PyStr.replaceX p.2))
      (Component.newPos (PyStr.replaceX p.2).length) =
    .ok (0 :: (condOrderSpec p).map (· + 1)) := by
  decide +kernel

theorem idxOf_map_succ (l : List ℕ) (m : ℕ) : (l.map (· + 1)).idxOf (m + 1) = l.idxOf m := by
  induction l with
  | nil => rfl
  | cons a l ih => simp only [List.map_cons, List.idxOf_cons, ih]; simp

theorem rowA_transpose {α : Type} (order : List ℕ) {X : Arr α} {s : List ℕ} (hs : X.shape = n :: s)
    (i : ℕ) : rowA (transpose (0 :: order.map (· + 1)) X) i = transpose order (rowA X i) := by
  obtain ⟨sh, get⟩ := X
  simp only at hs
  subst hs
  simp only [rowA, transpose, List.map_cons, List.tail_cons, List.map_map]
  congr 1
  funext j
  congr 1
  simp only [List.length_cons, List.range_succ_eq_map, List.map_cons, List.map_map]
  congr 1
  apply List.map_congr_left
  intro m _
  simp only [Function.comp, Nat.succ_eq_add_one]
  rw [List.idxOf_cons]
  simp [idxOf_map_succ]

theorem Lead.moveaxis (p : PyStr × PyStr) (hp : p ∈ conditionals)
    (h : Lead g n (unionStr p.1 p.2) A f) :
    ∃ r, Np.moveaxis (Component.oldPos ('i' :: PyStr.replaceX (PyStr.sorted (p.1 ++ p.2)))
        (PyStr.replaceX p.2)) (Component.newPos (PyStr.replaceX p.2).length) A = .ok r ∧
      Lead g n (condStr p.1 p.2) r f := by
  obtain ⟨h1, h2, h3, h4, h5, h6, -⟩ := conditionals_letters p hp
  have hl : A.shape.length = (PyStr.replaceX (unionStr p.1 p.2)).length + 1 := by
    rw [h.1, shapeOf_letters g h6]; simp
  have hrow : ∀ i < n, IsArr g (condStr p.1 p.2)
      (rowA (transpose (0 :: (condOrderSpec p).map (· + 1)) A) i) (f i) := by
    intro i hi
    rw [rowA_transpose _ h.1]
    obtain ⟨r, hr1, hr2⟩ := moveaxis_cond g p hp (rowA A i) (f i) ((lead_iff h.1).1 h i hi)
    have hl' : (rowA A i).shape.length = (PyStr.replaceX (unionStr p.1 p.2)).length := by
      simp [rowA, h.1, shapeOf_letters g h6]
    have ho := condOrder_eq p hp
    unfold condOrder at ho
    simp only [Np.moveaxis, hl', ho, Py.ok_bind, Except.ok.injEq] at hr1
    rw [hr1]; exact hr2
  refine ⟨transpose (0 :: (condOrderSpec p).map (· + 1)) A, ?_, ?_⟩
  · simp only [Np.moveaxis, hl, condOrder1_eq p hp, Py.ok_bind]
  · refine (lead_iff ?_).2 hrow
    have hs : A.shape = n :: (PyStr.replaceX (unionStr p.1 p.2)).map (sizeL g) := by
      rw [h.1, shapeOf_letters g h6]
    rw [shapeOf_condStr, shapeOf_letters g h4, shapeOf_letters g h5, ← List.map_append]
    have := (transpose_letters _ _ h1 h2 h3 (⟨(PyStr.replaceX (unionStr p.1 p.2)).map (sizeL g),
      fun _ => ()⟩ : Arr Unit) (sizeL g) rfl (fun _ => 0)).1
    rw [← this]
    simp only [transpose, hs, List.map_cons, condOrderSpec, List.map_map]
    congr 1

end
end PKM
