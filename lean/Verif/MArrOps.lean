import Verif.MArr
import Verif.BaseLemmas
import Verif.Scipy

/-! Lemmas: more numpy operations on arrays described by axis letters. -/

open scoped Classical

noncomputable section

namespace PKM
open Np

variable {g : Grid} {M N R : List (Option Char)} {A B : Arr Num} {f h : Cell → Num}

theorem coordsM_inBox {c : Cell} (hc : g.Has c) (M : List (Option Char)) :
    InBox (M.map (sizeM g)) (M.map (coordM c)) := by
  induction M with
  | nil => trivial
  | cons o M ih => exact ⟨coordM_lt hc o, ih⟩

/-- In-place operations. -/
theorem MArr.iop (op : Num → Num → Num) (hA : MArr g M A f) (hB : MArr g N B h)
    (hj : joinR M.reverse N.reverse = some M.reverse) :
    ∃ r, Np.iop op A B = .ok r ∧ MArr g M r (fun c => op (f c) (h c)) := by
  obtain ⟨r, h1, h2⟩ := MArr.bop op hA hB hj
  obtain ⟨r', k1, k2, k3⟩ := iop_of_bop h1 (h2.1.trans hA.1.symm)
  exact ⟨r', k1, k2.trans hA.1, fun c hc => (k3 _ (hA.1 ▸ coordsM_inBox hc M)).trans (h2.2 c hc)⟩

/-- Reordering of axes. -/
theorem MArr.transpose {order : List ℕ} (hA : MArr g M A f) (h1 : ∀ k ∈ order, k < M.length)
    (h2 : ∀ m < M.length, m ∈ order) (hR : R = order.map (fun k => M.getD k none)) :
    MArr g R (Np.transpose order A) f := by
  subst hR
  refine ⟨?_, fun c hc => ?_⟩
  · simp only [Np.transpose, hA.1, List.map_map]
    apply List.map_congr_left
    intro k hk
    have := h1 k hk
    simp [List.getD_eq_getElem?_getD, this]
  · rw [← hA.2 c hc]
    simp only [Np.transpose, hA.1, List.length_map]
    congr 1
    apply List.ext_getElem
    · simp
    · intro m hm1 hm2
      simp only [List.length_map, List.length_range] at hm1 hm2
      have hmem := h2 m hm1
      have hlt : order.idxOf m < order.length := List.idxOf_lt_length_of_mem hmem
      have e : order[order.idxOf m] = m := List.getElem_idxOf hlt
      simp [List.getD_eq_getElem?_getD, hlt, hm1, e]

/-- What `np.moveaxis` does to the axis letters. -/
def moveM (src dst : List ℤ) (M : List (Option Char)) : Option (List (Option Char)) :=
  match moveOrder M.length src dst with
  | .ok order => if (∀ k ∈ order, k < M.length) ∧ (∀ m ∈ List.range M.length, m ∈ order) then
      some (order.map (fun k => M.getD k none)) else none
  | .error _ => none

theorem MArr.moveaxis (hA : MArr g M A f) {src dst : List ℤ} (hm : moveM src dst M = some R) :
    ∃ r, Np.moveaxis src dst A = .ok r ∧ MArr g R r f := by
  unfold moveM at hm
  split at hm
  · next order ho =>
    split at hm
    · next hk =>
      simp at hm
      refine ⟨Np.transpose order A, ?_, MArr.transpose hA hk.1 (fun m hm => hk.2 m (by simpa using hm)) hm.symm⟩
      have : A.shape.length = M.length := by rw [hA.1]; simp
      simp [Np.moveaxis, this, ho]
    · simp at hm
  · simp at hm

/-- Letters stand for axes and are distinct. -/
def lettersOK (U : List Char) : Prop := U.Nodup ∧ ∀ ch ∈ U, ch ∈ ['t','v','x','y','z']

instance {U : List Char} : Decidable (lettersOK U) := by unfold lettersOK; infer_instance

/-- The axes argument, in any order, denotes the letters `S` on an array with letters `U`. -/
def axesD (U : List Char) (axes : List ℤ) (S : List Char) : Prop :=
  match axes.mapM (normAxis U.length) with
  | .ok ks => ks.Nodup ∧ ks.insertionSort (· ≥ ·) = posL U S
  | .error _ => False

instance {U axes S} : Decidable (axesD U axes S) := by unfold axesD; split <;> infer_instance

/-- `np.sum` over letters `S`. -/
theorem MArr.sumL {U V : List Char} (hA : MArr g (U.map some) A f) (hU : lettersOK U)
    {S : List Char} (hr : removable U S) {axes : List ℤ} (ha : axesD U axes S) (hV : U.diff S = V) :
    ∃ r, Np.sum axes A = .ok r ∧ MArr g (V.map some) r (sumOver g S f) := by
  subst hV
  refine ⟨_, ?_, larr_iff.1 (LArr.foldSum S (larr_iff.2 hA) hU.1 hU.2 hr)⟩
  have hl : A.shape.length = U.length := by rw [hA.1]; simp
  unfold axesD at ha
  split at ha
  · next ks hk => simp [Np.sum, hl, hk, ha.1, ha.2]
  · exact ha.elim

theorem removable_sub : ∀ {U S : List Char}, removable U S → ∀ ch ∈ S, ch ∈ U
  | _, [], _, _, h => by simp at h
  | U, s :: S, hr, ch, h => by
    rcases List.mem_cons.1 h with rfl | h
    · exact hr.1
    · exact List.mem_of_mem_erase (removable_sub hr.2 ch h)

/-- `logsumexp` over letters `S` of an array of logarithms. -/
theorem MArr.lse {U V : List Char} {q : Cell → ℝ} (hA : MArr g (U.map some) A (fun c => Num.lg (q c)))
    (hq : ∀ c, g.Has c → 0 ≤ q c) (hU : lettersOK U)
    {S : List Char} (hr : removable U S) {axes : List ℤ} (ha : axesD U axes S)
    (hV : U.diff S = V) :
    ∃ r, Np.logsumexp axes A = .ok r ∧
      MArr g (V.map some) r (fun c => Num.lg (sumOver g S q c)) := by
  have hS : ∀ ch ∈ S, AxisChar ch := fun ch hch => hU.2 ch (removable_sub hr ch hch)
  have h1 : MArr g (U.map some) (Np.map Num.exp A) (fun c => .fin (q c)) :=
    (hA.map Num.exp).congr fun c hc => Num.exp_lg (hq c hc)
  obtain ⟨r, h2, h3⟩ := MArr.sumL h1 hU hr ha hV
  refine ⟨Np.map Num.log r, by simp [Np.logsumexp, h2], (h3.map Num.log).congr fun c hc => ?_⟩
  rw [sumOver_fin, Num.log_fin]

/-- A function that ignores the summed letters is a constant factor. -/
theorem sumOver_div_inv {S : List Char} (hS : ∀ ch ∈ S, AxisChar ch) {q d p : Cell → ℝ} {c : Cell}
    (hc : g.Has c) (hp : ∀ c, g.Has c → p c = q c / d c)
    (hd : ∀ u ∈ S, ∀ (e : Cell) (j : ℕ), d (setL e u j) = d e) :
    sumOver g S p c = sumOver g S q c / d c := by
  rw [sumOver_congr (f' := fun e => q e / d e) S hS hc hp]
  rw [sumOver_inv g S (fun a b => q b / d a) c (fun u hu e j => by funext b; rw [hd u hu])]
  simp only [div_eq_inv_mul]
  rw [sumOver_mul]

/-- Grid arrays as letter arrays. -/
theorem Is1.marr {a : Arr Num} {F : ℕ → ℝ} {ch : Char} (hA : Is1 a (sizeL g ch) F) :
    MArr g [some ch] a (fun c => .fin (F (coordL c ch))) :=
  ⟨by simp [hA.shape, sizeM], fun c hc => hA.get _ (coordL_lt hc ch)⟩

theorem IsArr.marr {w : PyStr} (hw : DistChars w) (hA : IsArr g w A f) :
    MArr g ((PyStr.replaceX w).map some) A f := larr_iff.1 ((isArr_iff hw).1 hA)

theorem MArr.isArr {w : PyStr} (hw : DistChars w) (hA : MArr g ((PyStr.replaceX w).map some) A f) :
    IsArr g w A f := (isArr_iff hw).2 (larr_iff.2 hA)

/-- Volume elements without `x`. -/
theorem volumeElement_marr {cube : IFUCube} (hc : CubeIs cube g) (hg : g.Proper) {w : PyStr}
    (hw : DistChars w) (hx : 'x' ∉ w) :
    ∃ d, cube.constructVolumeElement w = .ok d ∧
      MArr g ((PyStr.replaceX w).map some) d (fun c => .fin (g.volOf w c)) := by
  obtain ⟨d, h1, h2, h3⟩ := volumeElement_plain hc hg.nx hg.ny hw
  refine ⟨d, h1, IsArr.marr hw ?_⟩
  have hs : d.shape = g.shapeOf w := by
    rw [h2, shapeOf_letters g hw]
    apply List.map_congr_left
    intro ch hch
    have hch' : ch ∈ w := by
      clear h1 h2 h3 hw
      induction w with
      | nil => simp [PyStr.replaceX] at hch
      | cons a w ih =>
        have ha : a ≠ 'x' := fun e => hx (by simp [e])
        simp only [PyStr.replaceX, List.flatMap_cons, if_neg ha, List.singleton_append,
          List.mem_cons] at hch
        rcases hch with rfl | hch
        · simp
        · exact List.mem_cons_of_mem _ (ih (fun e => hx (by simp [e])) hch)
    have hne : ch ≠ 'x' := fun e => hx (e ▸ hch')
    have hne' : ch ≠ 'y' := by
      intro e; subst e
      have := hw _ hch'
      simp at this
    unfold volDim sizeL
    have := hw _ hch'
    simp at this
    rcases this with rfl | rfl | rfl | rfl <;> simp_all
  refine ⟨hs, fun c hc => ?_⟩
  have := h3.2 c hc
  rwa [hs, bproj_self (inBox_coords hc w)] at this

/-- `log(exp(hi) - exp(lo))`. -/
theorem logDiff_get {hi lo : Arr Num} (hs : lo.shape = hi.shape) :
    ∃ r, logDiff hi lo = .ok r ∧ r.shape = hi.shape ∧ ∀ i, InBox hi.shape i →
      r.get i = Num.log (Num.fin 1 * Num.exp (hi.get i) + Num.fin (-1) * Num.exp (lo.get i)) := by
  set s := hi.shape with hsd
  set S : Arr Num := ⟨2 :: s, fun i => ([hi, lo].getD (i.headD 0) hi).get i.tail⟩ with hS
  have h1 : stack [hi, lo] = .ok S := by simp [stack, hs, S, hsd]
  set b : Arr Num := vec 2 (fun i => if i = 0 then .fin 1 else .fin (-1)) with hb
  set E : Arr Num := ⟨s.reverse ++ [2], fun i => b.get (bproj [2] i) * Num.exp ((T S).get (bproj (s.reverse ++ [2]) i))⟩ with hE
  have h2 : mul b (map Num.exp (T S)) = .ok E := by
    simp [mul, bop, map, b, vec, T, S, E, bshapeR]
  have hn : normAxis (s.length + 1) (-1) = .ok s.length := by
    have := normAxis_neg (n := s.length + 1) (k := s.length) (by omega)
    have e : ((s.length : ℤ) - ((s.length + 1 : ℕ) : ℤ)) = -1 := by push_cast; ring
    rwa [e] at this
  refine ⟨T (map Num.log (sumAxis1 s.length E)), ?_, ?_, ?_⟩
  · simp only [logDiff, h1, Py.ok_bind, logsumexpB]
    have : mul (vec 2 fun i => if i = 0 then Num.fin 1 else Num.fin (-1)) (map Num.exp (T S)) = .ok E := h2
    rw [this]
    have hl : E.shape.length = s.length + 1 := by simp [E]
    simp [Np.sum, hl, hn]
  · simp [T, map, sumAxis1, E, List.eraseIdx_append_of_length_le]
  · intro i hi'
    have hl := inBox_length hi'
    have e0 : E.shape.getD s.length 0 = 2 := by simp [E]
    simp only [T, map, sumAxis1]
    rw [e0, Fin.sum_univ_two]
    have key : ∀ k : ℕ, k < 2 → i.reverse.insertIdx s.length k = i.reverse ++ [k] := by
      intro k _
      have : s.length = i.reverse.length := by simp [hl]
      rw [this, List.insertIdx_length_self]
    have hp : ∀ k : ℕ, k < 2 → bproj (s.reverse ++ [2]) (i.reverse ++ [k]) = i.reverse ++ [k] := by
      intro k hk
      have e1 : s.reverse ++ [2] = (2 :: s).reverse := by simp
      have e2 : i.reverse ++ [k] = (k :: i).reverse := by simp
      rw [e1, e2]
      simp only [bproj, List.reverse_reverse]
      rw [zipWith_bidx_self (s := 2 :: s) (i := k :: i) ⟨hk, hi'⟩]
    have hq : ∀ k : ℕ, k < 2 → bproj [2] (i.reverse ++ [k]) = [k] := by
      intro k hk
      simp [bproj, bidx_lt hk]
    have g0 : E.get (i.reverse.insertIdx s.length ((0 : Fin 2) : ℕ)) = Num.fin 1 * Num.exp (hi.get i) := by
      rw [key _ (by simp)]
      simp only [E]
      rw [hp _ (by simp), hq _ (by simp)]
      simp [b, vec, T, S]
    have g1 : E.get (i.reverse.insertIdx s.length ((1 : Fin 2) : ℕ)) = Num.fin (-1) * Num.exp (lo.get i) := by
      rw [key _ (by simp)]
      simp only [E]
      rw [hp _ (by simp), hq _ (by simp)]
      simp [b, vec, T, S]
    rw [g0, g1]

/-- Difference of two logarithms of distribution functions. -/
theorem MArr.logDiff {hi lo : Arr Num} {a b : Cell → ℝ}
    (h1 : MArr g M hi (fun c => Num.lg (a c))) (h2 : MArr g M lo (fun c => Num.lg (b c)))
    (hb : ∀ c, g.Has c → 0 ≤ b c) (ha : ∀ c, g.Has c → 0 ≤ a c) :
    ∃ r, PKM.logDiff hi lo = .ok r ∧ MArr g M r (fun c => Num.lg (a c - b c)) := by
  obtain ⟨r, e1, e2, e3⟩ := logDiff_get (hi := hi) (lo := lo) (by rw [h1.1, h2.1])
  refine ⟨r, e1, e2.trans h1.1, fun c hc => ?_⟩
  rw [e3 _ (by rw [h1.1]; exact coordsM_inBox hc M), h1.2 c hc, h2.2 c hc, Num.exp_lg (ha c hc),
    Num.exp_lg (hb c hc)]
  simp [Num.log_fin, sub_eq_add_neg]

end PKM
