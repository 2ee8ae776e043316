import Verif.CompLemmas

/-! Lemmas: arrays described by one letter per axis, and sums over axes. -/

open scoped Classical

noncomputable section

namespace PKM
open Np

/-- The array `A` has one axis per letter of `U` and represents the function `f`. -/
def LArr (g : Grid) (U : List Char) (A : Arr Num) (f : Cell → Num) : Prop :=
  A.shape = U.map (sizeL g) ∧ ∀ c, g.Has c → A.get (U.map (coordL c)) = f c

theorem isArr_iff {g : Grid} {w : PyStr} (h : DistChars w) {A : Arr Num} {f : Cell → Num} :
    IsArr g w A f ↔ LArr g (PyStr.replaceX w) A f := by
  unfold IsArr LArr
  rw [shapeOf_letters g h]
  simp only [coords_letters _ h]

/-- Replace one coordinate of a cell. -/
def setL (c : Cell) (ch : Char) (j : ℕ) : Cell :=
  if ch = 't' then { c with t := j } else if ch = 'v' then { c with v := j }
  else if ch = 'x' then { c with x := j } else if ch = 'y' then { c with y := j }
  else { c with z := j }

/-- Letters that name an axis. -/
def AxisChar (ch : Char) : Prop := ch ∈ ['t','v','x','y','z']

theorem coordL_setL {c : Cell} {a b : Char} (ha : AxisChar a) (hb : AxisChar b) (j : ℕ) :
    coordL (setL c a j) b = if b = a then j else coordL c b := by
  unfold AxisChar at ha hb
  fin_cases ha <;> fin_cases hb <;> simp [coordL, setL]

theorem has_setL {g : Grid} {c : Cell} (h : g.Has c) {a : Char} (ha : AxisChar a) {j : ℕ}
    (hj : j < sizeL g a) : g.Has (setL c a j) := by
  obtain ⟨h1, h2, h3, h4, h5⟩ := h
  unfold AxisChar at ha
  fin_cases ha <;> simp_all [Grid.Has, setL, sizeL]

theorem insertIdx_erase_map (U : List Char) (hU : U.Nodup) {ch : Char} (hch : ch ∈ U)
    {β : Type} (f f' : Char → β) (b : β) (hb : f' ch = b) (hf : ∀ d ∈ U, d ≠ ch → f d = f' d) :
    ((U.erase ch).map f).insertIdx (U.idxOf ch) b = U.map f' := by
  induction U with
  | nil => simp at hch
  | cons a U ih =>
    have ⟨ha, hU'⟩ := List.nodup_cons.1 hU
    by_cases e : a = ch
    · subst e
      simp only [List.erase_cons_head, List.idxOf_cons_self, List.insertIdx_zero, List.map_cons, hb]
      congr 1
      apply List.map_congr_left
      intro d hd
      exact hf d (by simp [hd]) (fun e => ha (e ▸ hd))
    · have hch' : ch ∈ U := by
        rcases List.mem_cons.1 hch with h | h
        · exact absurd h.symm e
        · exact h
      have ih' := ih hU' hch' (fun d hd => hf d (by simp [hd]))
      have e1 : (a == ch) = false := by simpa using e
      simp only [List.erase_cons, e1, List.idxOf_cons, cond_false, List.map_cons,
        List.insertIdx_succ_cons, Bool.false_eq_true, if_false, ih']
      rw [hf a (by simp) e]

/-- Summing over the axis of letter `ch`. -/
theorem LArr.sumAxis1 {g : Grid} {U : List Char} {A : Arr Num} {f : Cell → Num} (h : LArr g U A f)
    (hU : U.Nodup) (hA : ∀ ch ∈ U, AxisChar ch) {ch : Char} (hch : ch ∈ U) :
    LArr g (U.erase ch) (Np.sumAxis1 (U.idxOf ch) A)
      (fun c => ∑ j : Fin (sizeL g ch), f (setL c ch j)) := by
  constructor
  · simp only [Np.sumAxis1, h.1]
    rw [List.eraseIdx_map, List.eraseIdx_idxOf_eq_erase]
  · intro c hc
    simp only [Np.sumAxis1]
    have hs : A.shape.getD (U.idxOf ch) 0 = sizeL g ch := by
      rw [h.1]; exact getD_map_idxOf U _ 0 hch
    rw [hs]
    apply Finset.sum_congr rfl
    intro j _
    rw [insertIdx_erase_map U hU hch (coordL c) (coordL (setL c ch j)) _ ?_ ?_]
    · exact h.2 _ (has_setL hc (hA ch hch) j.2)
    · rw [coordL_setL (hA ch hch) (hA ch hch)]; simp
    · intro d hd hne
      rw [coordL_setL (hA ch hch) (hA d hd)]; simp [hne]

/-- Axis numbers met when the letters `S` are removed from `U` one after the other. -/
def posL : List Char → List Char → List ℕ
  | _, [] => []
  | U, s :: S => U.idxOf s :: posL (U.erase s) S

/-- The axes argument denotes, on an array with letters `U`, the letters `S`. -/
def axesOK (U : List Char) (axes : List ℤ) (S : List Char) : Prop :=
  axes.mapM (normAxis U.length) = .ok ((posL U S).reverse) ∧ (posL U S).Nodup ∧
  ((posL U S).reverse).insertionSort (· ≥ ·) = posL U S

/-- Nested sum over the values of the letters `S`. -/
def sumOver {α : Type} [AddCommMonoid α] (g : Grid) : List Char → (Cell → α) → Cell → α
  | [], f => f
  | s :: S, f => sumOver g S (fun c => ∑ j : Fin (sizeL g s), f (setL c s j))

/-- All letters `S` occur, once each. -/
def removable : List Char → List Char → Prop
  | _, [] => True
  | U, s :: S => s ∈ U ∧ removable (U.erase s) S

theorem LArr.foldSum {g : Grid} : ∀ (S : List Char) {U : List Char} {A : Arr Num} {f : Cell → Num},
    LArr g U A f → U.Nodup → (∀ ch ∈ U, AxisChar ch) → removable U S →
    LArr g (U.diff S) ((posL U S).foldl (fun a k => Np.sumAxis1 k a) A) (sumOver g S f)
  | [], U, A, f, h, _, _, _ => by simpa [posL, sumOver] using h
  | s :: S, U, A, f, h, hU, hA, hr => by
    have h1 := h.sumAxis1 hU hA hr.1
    have := LArr.foldSum S h1 (hU.erase s) (fun ch hc => hA ch (List.mem_of_mem_erase hc)) hr.2
    simpa [posL, sumOver, List.diff_cons] using this

theorem LArr.sum {g : Grid} {U : List Char} {A : Arr Num} {f : Cell → Num} (h : LArr g U A f)
    (hU : U.Nodup) (hA : ∀ ch ∈ U, AxisChar ch) {S : List Char} (hr : removable U S)
    {axes : List ℤ} (ha : axesOK U axes S) :
    ∃ r, Np.sum axes A = .ok r ∧ LArr g (U.diff S) r (sumOver g S f) := by
  refine ⟨_, ?_, LArr.foldSum S h hU hA hr⟩
  have hl : A.shape.length = U.length := by rw [h.1]; simp
  simp [Np.sum, hl, ha.1, ha.2.1, ha.2.2]

instance {U axes S} : Decidable (axesOK U axes S) := by unfold axesOK; infer_instance

instance decRemovable : ∀ {U S}, Decidable (removable U S)
  | _, [] => inferInstanceAs (Decidable True)
  | U, s :: S => by
    have := @decRemovable (U.erase s) S
    unfold removable
    infer_instance

theorem sumOver_fin (g : Grid) : ∀ (S : List Char) (f : Cell → ℝ) (c : Cell),
    sumOver g S (fun d => Num.fin (f d)) c = .fin (sumOver g S f c)
  | [], _, _ => rfl
  | s :: S, f, c => by
    simp only [sumOver, Num.fin_sum]
    exact sumOver_fin g S _ c

theorem sumOver_congr {α : Type} [AddCommMonoid α] {g : Grid} : ∀ (S : List Char) {f f' : Cell → α}
    {c : Cell}, (∀ ch ∈ S, AxisChar ch) → g.Has c → (∀ d, g.Has d → f d = f' d) →
    sumOver g S f c = sumOver g S f' c
  | [], _, _, _, _, hc, h => h _ hc
  | s :: S, f, f', c, hS, hc, h => by
    simp only [sumOver]
    apply sumOver_congr S (fun ch hc => hS ch (by simp [hc])) hc
    intro d hd
    exact Finset.sum_congr rfl (fun j _ => h _ (has_setL hd (hS s (by simp)) j.2))

/-- Letters summed over by the marginal `w`, from the last axis to the first. -/
def complL (w : PyStr) : List Char :=
  (['z','y','x','v','t'] : List Char).filter (fun ch => ch ∉ PyStr.replaceX w)

theorem marg_eq_sumOver (g : Grid) (P : Cell → ℝ) : ∀ w ∈ marginals, ∀ c, g.Has c →
    g.marg P w c = sumOver g (complL w) P c := by
  intro w hw
  rw [forall_cell]
  intro t v x y z
  simp only [marginals, List.mem_cons, List.not_mem_nil, or_false] at hw
  rcases hw with h | h | h | h | h | h | h | h | h | h | h | h | h | h | h <;> subst h <;>
    simp [Grid.marg, Grid.sumCells, complL, PyStr.replaceX, sumOver, coords, coord1, setL, sizeL,
      Fin.val_inj, ite_and, Finset.sum_ite_irrel] <;> rfl

/-! ### Algebra of nested sums -/

theorem setL_comm {a b : Char} (ha : AxisChar a) (hb : AxisChar b) (hab : a ≠ b) (c : Cell) (i j : ℕ) :
    setL (setL c a i) b j = setL (setL c b j) a i := by
  unfold AxisChar at ha hb
  fin_cases ha <;> fin_cases hb <;> simp_all [setL]

theorem setL_self {a : Char} (c : Cell) (i j : ℕ) :
    setL (setL c a i) a j = setL c a j := by
  unfold setL; split_ifs <;> rfl

theorem sumOver_append {α : Type} [AddCommMonoid α] (g : Grid) : ∀ (S T : List Char) (f : Cell → α),
    sumOver g (S ++ T) f = sumOver g T (sumOver g S f)
  | [], _, _ => rfl
  | s :: S, T, f => by simp only [List.cons_append, sumOver]; exact sumOver_append g S T _

theorem sumOver_setL {α : Type} [AddCommMonoid α] (g : Grid) : ∀ (S : List Char) (f : Cell → α)
    {u : Char} (j : ℕ) (c : Cell), u ∉ S → AxisChar u → (∀ ch ∈ S, AxisChar ch) →
    sumOver g S (fun d => f (setL d u j)) c = sumOver g S f (setL c u j)
  | [], _, _, _, _, _, _, _ => rfl
  | s :: S, f, u, j, c, hu, hau, hS => by
    simp only [sumOver]
    have hus : u ≠ s := fun e => hu (by simp [e])
    have := sumOver_setL g S (fun d => ∑ i : Fin (sizeL g s), f (setL d s i)) j c
      (fun h => hu (by simp [h])) hau (fun ch hc => hS ch (by simp [hc]))
    rw [← this]
    congr 1
    funext d
    exact Finset.sum_congr rfl fun i _ => by rw [setL_comm (hS s (by simp)) hau hus.symm]

theorem sumOver_sum {α ι : Type} [AddCommMonoid α] (g : Grid) (s : Finset ι) : ∀ (S : List Char)
    (f : ι → Cell → α) (c : Cell), sumOver g S (fun d => ∑ i ∈ s, f i d) c = ∑ i ∈ s, sumOver g S (f i) c
  | [], _, _ => rfl
  | u :: S, f, c => by
    simp only [sumOver]
    rw [← sumOver_sum g s S]
    congr 1
    funext d
    rw [Finset.sum_comm]

/-- The sum over all entries of a function of indices. -/
theorem sumShape_letters {α : Type} [AddCommMonoid α] (g : Grid) : ∀ (U : List Char) (F : List ℕ → α)
    (f : Cell → α) (c : Cell), U.Nodup → (∀ ch ∈ U, AxisChar ch) → g.Has c →
    (∀ d, g.Has d → F (U.map (coordL d)) = f d) →
    sumShape (U.map (sizeL g)) F = sumOver g U.reverse f c
  | [], F, f, c, _, _, hc, h => h c hc
  | u :: U, F, f, c, hU, hA, hc, h => by
    have ⟨hu, hU'⟩ := List.nodup_cons.1 hU
    have hA' : ∀ ch ∈ U, AxisChar ch := fun ch hc => hA ch (by simp [hc])
    have hau := hA u (by simp)
    simp only [List.map_cons, sumShape, List.reverse_cons, sumOver_append, sumOver]
    refine Finset.sum_congr rfl fun j _ => ?_
    rw [← sumOver_setL g U.reverse f j c (by simpa using hu) hau (by simpa using hA')]
    refine sumShape_letters g U _ _ c hU' hA' hc fun d hd => ?_
    rw [← h _ (has_setL hd hau j.2)]
    congr 1
    simp only [List.map_cons, coordL_setL hau hau, if_true]
    congr 1
    apply List.map_congr_left
    intro ch hch
    rw [coordL_setL hau (hA' ch hch), if_neg]
    exact fun e => hu (e ▸ hch)

theorem sumOver_perm {α : Type} [AddCommMonoid α] (g : Grid) {S S' : List Char} (h : S.Perm S') :
    ∀ (_ : S.Nodup) (_ : ∀ ch ∈ S, AxisChar ch) (f : Cell → α), sumOver g S f = sumOver g S' f := by
  induction h with
  | nil => intros; rfl
  | cons a h ih =>
    intro hn hA f
    simp only [sumOver]
    exact ih (List.nodup_cons.1 hn).2 (fun ch hc => hA ch (by simp [hc])) _
  | swap a b l =>
    intro hn hA f
    simp only [sumOver]
    congr 1
    funext c
    rw [Finset.sum_comm]
    refine Finset.sum_congr rfl fun i _ => Finset.sum_congr rfl fun j _ => ?_
    rw [setL_comm (hA a (by simp)) (hA b (by simp))]
    intro e; simp [e] at hn
  | trans h1 h2 ih1 ih2 =>
    intro hn hA f
    rw [ih1 hn hA, ih2 (h1.nodup_iff.1 hn) (fun ch hc => hA ch (h1.mem_iff.2 hc))]

theorem sumOver_all (g : Grid) (f : Cell → ℝ) (c : Cell) :
    sumOver g ['z','y','x','v','t'] f c = g.sumCells f := rfl

/-- Summing a marginal over the letters of its string gives the total. -/
theorem sumOver_marg_total (g : Grid) (P : Cell → ℝ) {w : PyStr} (hw : w ∈ marginals) {c : Cell}
    (hc : g.Has c) : sumOver g (PyStr.replaceX w).reverse (g.marg P w) c = g.sumCells P := by
  have hch : ∀ w ∈ marginals, (∀ ch ∈ PyStr.replaceX w, AxisChar ch) ∧
      (complL w ++ (PyStr.replaceX w).reverse).Perm ['z','y','x','v','t'] := by
    unfold AxisChar; decide +kernel
  obtain ⟨h1, h2⟩ := hch w hw
  rw [sumOver_congr (f' := sumOver g (complL w) P) _ (by simpa using h1) hc
    (fun d hd => marg_eq_sumOver g P w hw d hd), ← sumOver_append,
    sumOver_perm g h2 (h2.nodup_iff.2 (by decide)) (fun ch hc => ?_)]
  · rfl
  · have := h2.mem_iff.1 hc
    unfold AxisChar; fin_cases this <;> simp

/-- Letters of `w` that do not occur in `w'`, last axis first. -/
def extraL (w w' : PyStr) : List Char :=
  ((PyStr.replaceX w).filter (fun ch => ch ∉ PyStr.replaceX w')).reverse

/-- The axis numbers of an array representing `w` that belong to variables not in `w'`. -/
def extraAxes (w w' : PyStr) : List ℤ :=
  ((List.range (PyStr.replaceX w).length).filter
    (fun k => (PyStr.replaceX w).getD k ' ' ∉ PyStr.replaceX w')).map (fun k : ℕ => (k : ℤ))

/-- `w'` is a marginal string whose variables are among those of the marginal string `w`. -/
def nested : List (PyStr × PyStr) :=
  (marginals ×ˢ marginals).filter (fun p => ∀ ch ∈ p.2, ch ∈ p.1)

theorem nested_facts : ∀ p ∈ nested, p.1 ∈ marginals ∧ p.2 ∈ marginals ∧
    (complL p.1 ++ extraL p.1 p.2).Perm (complL p.2) ∧ (complL p.2).Nodup ∧
    (∀ ch ∈ complL p.2, ch ∈ ['t','v','x','y','z']) ∧ (PyStr.replaceX p.1).Nodup ∧
    (∀ ch ∈ PyStr.replaceX p.1, ch ∈ ['t','v','x','y','z']) ∧
    removable (PyStr.replaceX p.1) (extraL p.1 p.2) ∧
    axesOK (PyStr.replaceX p.1) (extraAxes p.1 p.2) (extraL p.1 p.2) ∧
    (PyStr.replaceX p.1).diff (extraL p.1 p.2) = PyStr.replaceX p.2 := by
  decide +kernel

theorem sumOver_marg_nested (g : Grid) (P : Cell → ℝ) {w w' : PyStr} (hw : (w, w') ∈ nested) {c : Cell}
    (hc : g.Has c) : sumOver g (extraL w w') (g.marg P w) c = g.marg P w' c := by
  obtain ⟨h1, h2, h3, h4, h5, h6, h7, -⟩ := nested_facts _ hw
  have hx : ∀ ch ∈ extraL w w', AxisChar ch := fun ch hch =>
    h7 ch ((List.mem_filter.1 (List.mem_reverse.1 hch)).1)
  rw [sumOver_congr (f' := sumOver g (complL w) P) _ hx hc
    (fun d hd => marg_eq_sumOver g P w h1 d hd), ← sumOver_append,
    sumOver_perm g h3 (h3.nodup_iff.2 h4) (fun ch hch => h5 ch (h3.mem_iff.1 hch)),
    ← marg_eq_sumOver g P w' h2 c hc]

/-- Setting a coordinate that `b` does not mention does not change its marginal. -/
theorem marg_setL (g : Grid) (P : Cell → ℝ) {b : PyStr} (hb : DistChars b) {u : Char} (hu : AxisChar u)
    (h : u ∉ PyStr.replaceX b) (c : Cell) (j : ℕ) : g.marg P b (setL c u j) = g.marg P b c := by
  have hA : ∀ ch ∈ PyStr.replaceX b, AxisChar ch := by
    intro ch hch
    have := replaceX_chars hb ch hch
    unfold AxisChar; exact this
  have : coords b (setL c u j) = coords b c := by
    rw [coords_letters _ hb, coords_letters _ hb]
    apply List.map_congr_left
    intro ch hch
    rw [coordL_setL hu (hA ch hch), if_neg (fun e : ch = u => h (e ▸ hch))]
  simp only [Grid.marg, this]

/-- Nested sums only see a function that ignores the summed letters as a constant factor. -/
theorem sumOver_inv {α : Type} [AddCommMonoid α] (g : Grid) : ∀ (S : List Char) (F : Cell → Cell → α)
    (c : Cell), (∀ u ∈ S, ∀ (d : Cell) (j : ℕ), F (setL d u j) = F d) →
    sumOver g S (fun d => F d d) c = sumOver g S (F c) c
  | [], _, _, _ => rfl
  | u :: S, F, c, h => by
    simp only [sumOver]
    have e : (fun d => ∑ j : Fin (sizeL g u), F (setL d u j) (setL d u j)) =
        fun d => ∑ j : Fin (sizeL g u), F d (setL d u j) := by
      funext d
      exact Finset.sum_congr rfl fun j _ => by rw [h u (by simp)]
    rw [e]
    exact sumOver_inv g S (fun d e => ∑ j : Fin (sizeL g u), F d (setL e u j)) c
      (fun v hv d j => by
        funext e
        exact Finset.sum_congr rfl fun i _ => by rw [h v (by simp [hv])])

theorem sumOver_mul (g : Grid) (k : ℝ) : ∀ (S : List Char) (f : Cell → ℝ) (c : Cell),
    sumOver g S (fun d => k * f d) c = k * sumOver g S f c
  | [], _, _ => rfl
  | u :: S, f, c => by
    simp only [sumOver, ← Finset.mul_sum]
    exact sumOver_mul g k S _ c

theorem conditionals_axes : ∀ p ∈ conditionals,
    (PyStr.replaceX p.1 ++ PyStr.replaceX p.2).Nodup ∧
    (∀ ch ∈ PyStr.replaceX p.1 ++ PyStr.replaceX p.2, ch ∈ ['t','v','x','y','z']) ∧
    removable (PyStr.replaceX p.1 ++ PyStr.replaceX p.2) (PyStr.replaceX p.1).reverse ∧
    axesOK (PyStr.replaceX p.1 ++ PyStr.replaceX p.2)
      ((List.range (PyStr.replaceX p.1).length).map (fun k : ℕ => (k : ℤ)))
      (PyStr.replaceX p.1).reverse ∧
    (PyStr.replaceX p.1 ++ PyStr.replaceX p.2).diff (PyStr.replaceX p.1).reverse =
      PyStr.replaceX p.2 ∧
    (unionStr p.1 p.2, p.2) ∈ nested ∧ (unionStr p.1 p.2, p.1) ∈ nested ∧
    (extraL (unionStr p.1 p.2) p.2).Perm (PyStr.replaceX p.1).reverse := by
  decide +kernel

theorem isArr_cond_iff {g : Grid} {a b : PyStr} (ha : DistChars a) (hb : DistChars b) {A : Arr Num}
    {f : Cell → Num} : IsArr g (condStr a b) A f ↔
      LArr g (PyStr.replaceX a ++ PyStr.replaceX b) A f := by
  unfold IsArr LArr
  rw [shapeOf_condStr, shapeOf_letters g ha, shapeOf_letters g hb, List.map_append]
  simp only [coords_condStr, coords_letters _ ha, coords_letters _ hb, List.map_append]

theorem sumOver_cond (g : Grid) (P : Cell → ℝ) (p : PyStr × PyStr) (hp : p ∈ conditionals) {c : Cell}
    (hc : g.Has c) (d : ℝ) : sumOver g (PyStr.replaceX p.1).reverse
      (fun c => condTable (g.marg P (unionStr p.1 p.2) c) (g.marg P p.2 c) d) c =
    if g.marg P p.2 c = 0 then sumOver g (PyStr.replaceX p.1).reverse (fun _ => Num.nan) c
    else .fin (1 / d) := by
  obtain ⟨h1, h2, h3, h4, h5, h6, -, h7⟩ := conditionals_axes p hp
  obtain ⟨-, -, -, k4, k5, k6, -⟩ := conditionals_letters p hp
  have hA1 : ∀ ch ∈ (PyStr.replaceX p.1).reverse, AxisChar ch := fun ch hch =>
    h2 ch (by simp at hch; simp [hch])
  have key := sumOver_inv g (PyStr.replaceX p.1).reverse
    (fun e c => condTable (g.marg P (unionStr p.1 p.2) c) (g.marg P p.2 e) d) c (by
      intro u hu e j
      have hu' : u ∉ PyStr.replaceX p.2 := by
        intro h
        exact (List.nodup_append.1 h1).2.2 u (by simpa using hu) u h rfl
      rw [marg_setL g P k5 (hA1 u hu) hu'])
  rw [key]
  by_cases hm : g.marg P p.2 c = 0
  · simp [hm, condTable]
  · simp only [condTable, hm, if_false]
    rw [sumOver_fin]
    congr 1
    have : ∀ e, g.marg P (unionStr p.1 p.2) e / g.marg P p.2 c / d =
        (1 / g.marg P p.2 c / d) * g.marg P (unionStr p.1 p.2) e := fun e => by ring
    simp only [this]
    rw [sumOver_mul, ← sumOver_perm g h7 (h7.nodup_iff.2 (List.nodup_reverse.2
      (List.nodup_append.1 h1).1)) (fun ch hch => hA1 ch (h7.mem_iff.1 hch)),
      sumOver_marg_nested g P h6 hc]
    field_simp

theorem sumOver_nan {g : Grid} (hg : g.Proper) : ∀ (S : List Char) (c : Cell),
    sumOver g S (fun _ => Num.nan) c = .nan
  | [], _ => rfl
  | s :: S, c => by
    have hs : 0 < sizeL g s := by
      have := hg.nt; have := hg.nv; have := hg.nx; have := hg.ny; have := hg.nz
      unfold sizeL; split_ifs <;> assumption
    have : ∑ _j : Fin (sizeL g s), Num.nan = Num.nan :=
      Num.sum_eq_nan (i := ⟨0, hs⟩) (Finset.mem_univ _) rfl
    simp only [sumOver, this]
    exact sumOver_nan hg S c

end PKM
