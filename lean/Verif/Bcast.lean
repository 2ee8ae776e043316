import Verif.Np

/-! General lemmas about broadcasting arrays of equal rank, and about adding axes. -/

open scoped Classical

noncomputable section

namespace PKM
open Np

/-- Shapes `s`, `t` of equal rank broadcast to `r`, axis by axis. -/
inductive BC : List ℕ → List ℕ → List ℕ → Prop
  | nil : BC [] [] []
  | cons {a b d : ℕ} {s t r : List ℕ} : bdim a b = some d → BC s t r → BC (a :: s) (b :: t) (d :: r)

theorem BC.append {s t r s' t' r' : List ℕ} (h : BC s t r) (h' : BC s' t' r') :
    BC (s ++ s') (t ++ t') (r ++ r') := by
  induction h with
  | nil => exact h'
  | cons hd _ ih => exact .cons hd ih

theorem BC.self (s : List ℕ) : BC s s s := by
  induction s with
  | nil => exact .nil
  | cons a s ih => exact .cons (by simp) ih

theorem BC.ones_left (s : List ℕ) : BC (List.replicate s.length 1) s s := by
  induction s with
  | nil => exact .nil
  | cons a s ih => exact .cons (by simp) ih

theorem BC.ones_right (s : List ℕ) : BC s (List.replicate s.length 1) s := by
  induction s with
  | nil => exact .nil
  | cons a s ih => exact .cons (by simp) ih

theorem BC.length_left {s t r : List ℕ} (h : BC s t r) : s.length = r.length := by
  induction h with
  | nil => rfl
  | cons _ _ ih => simp [ih]

theorem BC.length_right {s t r : List ℕ} (h : BC s t r) : t.length = r.length := by
  induction h with
  | nil => rfl
  | cons _ _ ih => simp [ih]

theorem bshapeR_append : ∀ {s t r s' t' r' : List ℕ}, s.length = t.length →
    bshapeR s t = some r → bshapeR s' t' = some r' → bshapeR (s ++ s') (t ++ t') = some (r ++ r')
  | [], [], r, s', t', r', _, h, h' => by
      simp at h; subst h; simpa using h'
  | a :: s, b :: t, r, s', t', r', hl, h, h' => by
      simp only [bshapeR] at h
      split at h
      · next d q hd hq =>
        simp at h; subst h
        have := bshapeR_append (by simpa using hl) hq h'
        simp [bshapeR, hd, this]
      · simp at h

theorem BC.bshapeR {s t r : List ℕ} (h : BC s t r) :
    bshapeR s.reverse t.reverse = some r.reverse := by
  induction h with
  | nil => simp
  | @cons a b d s t r hd h ih =>
    simp only [List.reverse_cons]
    refine bshapeR_append ?_ ih ?_
    · simp [h.length_left, h.length_right]
    · simp [Np.bshapeR, hd]

/-- Broadcasting projection for equal rank. -/
theorem bproj_eqlen {s i : List ℕ} (h : s.length = i.length) : bproj s i = List.zipWith bidx s i := by
  unfold bproj
  rw [← List.reverse_zipWith h, List.reverse_reverse]

theorem bop_of_BC {α β γ : Type} (f : α → β → γ) {a : Arr α} {b : Arr β} {r : List ℕ}
    (h : BC a.shape b.shape r) :
    ∃ c, bop f a b = .ok c ∧ c.shape = r ∧ ∀ i, i.length = r.length →
      c.get i = f (a.get (List.zipWith bidx a.shape i)) (b.get (List.zipWith bidx b.shape i)) := by
  refine ⟨⟨r, fun i => f (a.get (bproj a.shape i)) (b.get (bproj b.shape i))⟩, ?_, rfl, ?_⟩
  · simp [bop, h.bshapeR]
  · intro i hi
    simp only
    rw [bproj_eqlen (by rw [h.length_left, hi]), bproj_eqlen (by rw [h.length_right, hi])]

theorem zipWith_bidx_ones (k : ℕ) : ∀ (i : List ℕ), i.length = k →
    List.zipWith bidx (List.replicate k 1) i = List.replicate k 0 := by
  induction k with
  | zero => intro i hi; simp
  | succ k ih =>
    intro i hi
    cases i with
    | nil => simp at hi
    | cons a i => simp [List.replicate_succ, ih i (by simpa using hi)]

theorem zipWith_bidx_box : ∀ {s i : List ℕ}, InBox s i → List.zipWith bidx s i = i
  | [], [], _ => rfl
  | n :: s, j :: i, h => by simp [zipWith_bidx_box h.2, bidx_lt h.1]

theorem ixShape_replicate_all : ∀ (s : List ℕ) (r : List Ix) (t : List ℕ),
    ixShape (List.replicate s.length .all ++ r) (s ++ t) =
      (do let q ← ixShape r t; .ok (s ++ q))
  | [], r, t => by
      simp only [List.length_nil, List.replicate_zero, List.nil_append]
      cases ixShape r t <;> rfl
  | n :: s, r, t => by
      simp only [List.length_cons, List.replicate_succ, List.cons_append, ixShape,
        ixShape_replicate_all s r t]
      cases ixShape r t <;> rfl

theorem ixShape_replicate_na (k : ℕ) (r : List Ix) (t : List ℕ) :
    ixShape (List.replicate k .na ++ r) t = (do let q ← ixShape r t; .ok (List.replicate k 1 ++ q)) := by
  induction k with
  | zero => simp only [List.replicate_zero, List.nil_append]; cases ixShape r t <;> rfl
  | succ k ih =>
    simp only [List.replicate_succ, List.cons_append, ixShape, ih]
    cases ixShape r t <;> rfl

theorem ixIdx_replicate_na : ∀ (j : List ℕ) (r : List Ix) (t i : List ℕ),
    ixIdx (List.replicate j.length .na ++ r) t (j ++ i) = ixIdx r t i
  | [], r, t, i => rfl
  | a :: j, r, t, i => by
      simp only [List.length_cons, List.replicate_succ, List.cons_append, ixIdx,
        ixIdx_replicate_na j r t i]

theorem ixIdx_replicate_all : ∀ (s j : List ℕ) (r : List Ix) (t i : List ℕ), s.length = j.length →
    ixIdx (List.replicate s.length .all ++ r) (s ++ t) (j ++ i) = j ++ ixIdx r t i
  | [], [], r, t, i, _ => rfl
  | n :: s, a :: j, r, t, i, h => by
      simp only [List.length_cons, List.replicate_succ, List.cons_append, ixIdx,
        ixIdx_replicate_all s j r t i (by simpa using h)]

end PKM
