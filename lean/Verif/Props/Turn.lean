import Verif.Props.Protocol
import Verif.ParamYbar

/-!
# C81: full and half turns of parametric components

A component turned by 2π is the same component. A growing disk turned by π is the disk which rotates the other way: all
answers are equal, whatever setters are called, valid or not, in any order, on any cube.
-/

open scoped Classical

noncomputable section

namespace PKM
open Np Component

/-! ### Specification -/

/-- The call with the opposite sense of rotation: `vmax` negated in `set_mu_v`, all other calls as they are. -/
def DiskCall.reversed : DiskCall → DiskCall
  | .setMuV q rmax vmax => .setMuV q rmax (-vmax.1, -vmax.2)
  | k => k

/-- `GrowingDisk(cube, center, rotation)` followed by calls of setters. -/
def makeDisk (f2 : ℝ) (cube : IFUCube) (center : ℝ × ℝ) (rotation : ℝ) (calls : List DiskCall) : Py Param := do
  let p ← Param.init f2 cube center rotation
  runAll DiskCall.run p calls

/-- `Stream(cube, center, rotation)` followed by calls of setters. -/
def makeStream (f2 : ℝ) (cube : IFUCube) (center : ℝ × ℝ) (rotation : ℝ) (calls : List StreamCall) : Py Stream := do
  let s ← Stream.init f2 cube center rotation
  runAll StreamCall.run s calls

/-- Every query gives the same array or raises the same exception: distributions, means, central moments, covariances,
L-moments, datacubes. -/
structure AnswerAlike (p p' : Param) : Prop where
  cube : p.cube = p'.cube
  dist : ∀ w density lw, getP p.self w density lw = getP p'.self w density lw
  logDist : ∀ w density lw, getLogP p.self w density lw = getLogP p'.self w density lw
  mean : ∀ w lw, getMean p.self w lw = getMean p'.self w lw
  central : ∀ w j lw, getCentralMoment p.self w j lw = getCentralMoment p'.self w j lw
  covariance : ∀ w lw, (obj p.self).getCovariance w lw = (obj p'.self).getCovariance w lw
  lmoment : ∀ w (j : ℕ) lw, (obj p.self).getLMoment w j lw = (obj p'.self).getLMoment w j lw
  datacube : ∀ sp batch, p.evaluateYbar sp batch = p'.evaluateYbar sp batch

/-- Both raise the same exception, or both return components that answer alike. -/
def MadeAlike (r r' : Py Param) : Prop :=
  (∃ e, r = .error e ∧ r' = .error e) ∨ ∃ p p', r = .ok p ∧ r' = .ok p' ∧ AnswerAlike p p'

/-! ### Lemmas: negation -/

namespace Num

theorem infSign_neg (r : ℝ) : infSign (-r) = neg (infSign r) := by
  unfold infSign
  rcases lt_trichotomy r 0 with h | h | h
  · rw [if_pos (by linarith), if_neg (by linarith), if_pos h]; rfl
  · subst h; simp [neg]
  · rw [if_neg (by linarith), if_pos (by linarith), if_pos h]; rfl

theorem neg_neg' (a : Num) : neg (neg a) = a := by cases a <;> simp [neg]

theorem neg_add' (a b : Num) : neg (a + b) = neg a + neg b := by
  show neg (add a b) = add (neg a) (neg b)
  cases a <;> cases b <;> simp [add, neg]; ring

theorem neg_mul' (a b : Num) : neg a * b = neg (a * b) := by
  show mul (neg a) b = neg (mul a b)
  cases a <;> cases b <;> simp only [mul, neg, infSign_neg, neg_neg', _root_.neg_mul] <;> exact (neg_neg' _).symm

theorem mul_neg' (a b : Num) : a * neg b = neg (a * b) := by
  show mul a (neg b) = neg (mul a b)
  cases a <;> cases b <;> simp only [mul, neg, infSign_neg, neg_neg', _root_.mul_neg] <;> exact (neg_neg' _).symm

theorem neg_div' (a b : Num) : neg a / b = neg (a / b) := by
  show div (neg a) b = neg (div a b)
  cases a <;> cases b <;> simp [div, neg]
  · split
    · exact infSign_neg _
    · simp [neg, _root_.neg_div]
  · split <;> rfl
  · split <;> rfl

theorem sq_neg' (a : Num) : sq (neg a) = sq a := by unfold sq; rw [neg_mul', mul_neg', neg_neg']

theorem abs_neg' (a : Num) : abs (neg a) = abs a := by cases a <;> simp [abs, neg]

end Num

/-- A vector `(x, y)` other than the origin and its opposite. -/
theorem cos_opposite {x y : ℝ} (h : x ≠ 0 ∨ y ≠ 0) : Real.cos (Complex.arg ⟨-x, -y⟩) = -Real.cos (Complex.arg ⟨x, y⟩) := by
  have hz : (⟨x, y⟩ : ℂ) ≠ 0 := fun e => by
    have h1 := congrArg Complex.re e
    have h2 := congrArg Complex.im e
    simp only [Complex.zero_re, Complex.zero_im] at h1 h2
    rcases h with h | h <;> contradiction
  have hn : (⟨-x, -y⟩ : ℂ) = -⟨x, y⟩ := by apply Complex.ext <;> simp
  rw [hn, Complex.cos_arg (neg_ne_zero.2 hz), Complex.cos_arg hz, norm_neg]
  simp [neg_div]

/-! ### Lemmas: broadcasting -/

theorem bdim_right_one {a b : ℕ} (h : bdim a b = some 1) : a = 1 := by
  unfold bdim at h
  split at h
  · simpa using h
  · split at h
    · assumption
    · split at h
      · simpa using h
      · simp at h

theorem zip_zip_left : ∀ {s u t : List ℕ} (i : List ℕ), bshapeR s u = some t →
    List.zipWith bidx s (List.zipWith bidx t i) = List.zipWith bidx s i
  | [], _, _, _, _ => by simp
  | _ :: _, [], t, i, h => by
    simp only [bshapeR_nil_right, Option.some.injEq] at h
    subst h
    rename_i a s
    cases i with
    | nil => simp
    | cons j i =>
      simp only [List.zipWith_cons_cons, List.cons.injEq]
      refine ⟨by unfold bidx; split <;> rfl, zip_zip_left (u := []) i (by simp)⟩
  | a :: s, b :: u, t, i, h => by
    simp only [bshapeR] at h
    split at h
    · next d r hd hr =>
      simp only [Option.some.injEq] at h
      subst h
      cases i with
      | nil => simp
      | cons j i =>
        simp only [List.zipWith_cons_cons, List.cons.injEq]
        refine ⟨?_, zip_zip_left i hr⟩
        unfold bidx
        by_cases h1 : a = 1
        · simp [h1]
        · rw [if_neg h1, if_neg h1, if_neg]
          rintro rfl
          exact h1 (bdim_right_one hd)
    · simp at h

theorem bdim_comm (a b : ℕ) : bdim a b = bdim b a := by
  unfold bdim
  split_ifs <;> simp_all

theorem bshapeR_comm : ∀ s t : List ℕ, bshapeR s t = bshapeR t s
  | [], t => by simp
  | _ :: _, [] => by simp
  | a :: s, b :: t => by simp only [bshapeR]; rw [bdim_comm, bshapeR_comm s t]

/-- What a successful element-wise operation returns. -/
theorem bop_entries {α β γ : Type} {f : α → β → γ} {a : Arr α} {b : Arr β} {c : Arr γ} (h : bop f a b = .ok c) :
    (∀ i, c.get i = f (a.get (bproj a.shape i)) (b.get (bproj b.shape i))) ∧
    (∀ i, bproj a.shape (bproj c.shape i) = bproj a.shape i) ∧ ∀ i, bproj b.shape (bproj c.shape i) = bproj b.shape i := by
  unfold bop at h
  split at h
  · next s hs =>
    cases h
    refine ⟨fun i => rfl, fun i => ?_, fun i => ?_⟩
    · simp only [bproj, List.reverse_reverse]
      rw [zip_zip_left _ hs]
    · simp only [bproj, List.reverse_reverse]
      rw [zip_zip_left _ (by rw [bshapeR_comm]; exact hs)]
  · cases h

theorem map_map' {α β γ : Type} (f : β → γ) (h : α → β) (a : Arr α) : map f (map h a) = map (fun x => f (h x)) a := rfl

theorem bop_map_left {α α' β γ γ' : Type} {f : α → β → γ} {f' : α' → β → γ'} {u : α → α'} {v : γ → γ'} (h : ∀ a b, f' (u a) b = v (f a b))
    (a : Arr α) (b : Arr β) : bop f' (map u a) b = (do let c ← bop f a b; .ok (map v c)) := by
  unfold bop
  show (match bshapeR a.shape.reverse b.shape.reverse with | some s => _ | none => _) = _
  cases bshapeR a.shape.reverse b.shape.reverse with
  | some s =>
    show Except.ok (Arr.mk _ fun i => f' (u _) _) = Except.ok (Arr.mk _ fun i => v _)
    simp only [h]; rfl
  | none => rfl

theorem getitem_map {α β : Type} (f : α → β) (ix : List Ix) (a : Arr α) :
    getitem ix (map f a) = (do let c ← getitem ix a; .ok (map f c)) := by
  unfold getitem
  show (do let s ← ixShape ix a.shape; _) = _
  cases ixShape ix a.shape <;> rfl

theorem Py.bind_assoc' {α β γ : Type} (r : Py α) (f : α → Py β) (k : β → Py γ) :
    (r >>= f) >>= k = r >>= fun a => f a >>= k := by cases r <;> rfl

/-! ### Lemmas: half turns -/

/-- `p'` is `p` with all positions reflected through its centre. -/
structure Opposite (p p' : Param) : Prop where
  xxp : p'.xxp = map Num.neg p.xxp
  yyp : p'.yyp = map Num.neg p.yyp
  rest : p' = { p with rotation := p'.rotation, xxp := p'.xxp, yyp := p'.yyp }

theorem Param.alike {p p' : Param} {r : ℝ} {X Y : Arr Num} (h : p' = { p with rotation := r, xxp := X, yyp := Y }) : AnswerAlike p' p := by
  have e : p'.self = p.self := by subst h; rfl
  refine ⟨by subst h; rfl, fun _ _ _ => by rw [e], fun _ _ _ => by rw [e], fun _ _ => by rw [e], fun _ _ _ => by rw [e],
    fun _ _ => by rw [e], fun _ _ _ => by rw [e], fun _ _ => by subst h; rfl⟩

theorem Opposite.alike {p p' : Param} (h : Opposite p p') : AnswerAlike p' p := Param.alike h.rest

theorem Opposite.ellRadius {p p' : Param} (h : Opposite p p') (q : Arr Num) : p'.ellRadius q = p.ellRadius q := by
  unfold Param.ellRadius
  rw [h.xxp, h.yyp]
  unfold Np.div
  rw [bop_map_left (f := (· / ·)) (v := Num.neg) Num.neg_div']
  rw [Py.bind_assoc']
  refine congrArg _ (funext fun y => ?_)
  simp only [Py.ok_bind, map_map', Num.sq_neg']

theorem Opposite.interp {p p' : Param} (h : Opposite p p') (a b : ℝ) : p'.linearInterpolateT a b = p.linearInterpolateT a b := by
  rw [h.rest]; rfl

theorem Opposite.interp3 {p p' : Param} (h : Opposite p p') (l : ℝ × ℝ) : p'.interpT3 l = p.interpT3 l := by
  unfold Param.interpT3; rw [h.interp]

theorem Opposite.amax {p p' : Param} (h : Opposite p p') : Np.amax (map Num.abs p'.xxp) = Np.amax (map Num.abs p.xxp) := by
  rw [h.xxp, map_map']; simp only [Num.abs_neg']

theorem interp_neg (p : Param) (a b : ℝ) :
    p.linearInterpolateT (-a) (-b) = (do let f ← p.linearInterpolateT a b; .ok (map Num.neg f)) := by
  unfold Param.linearInterpolateT
  rw [Py.bind_assoc']
  refine congrArg _ (funext fun tp => ?_)
  simp only [Py.ok_bind, map_map']
  congr 2
  funext t
  have e1 : Num.fin (-b - -a) = Num.neg (Num.fin (b - a)) := by simp only [Num.neg]; congr 1; ring
  have e2 : ∀ r : ℝ, Num.fin (-r) = Num.neg (Num.fin r) := fun r => rfl
  rw [e1, e2, e2, Num.neg_div', Num.neg_mul', ← Num.neg_add']
  split
  · rfl
  · split <;> rfl

/-- Results related by `Opposite`, or equal exceptions. -/
def OppositeR (r r' : Py Param) : Prop := (∃ e, r = .error e ∧ r' = .error e) ∨ ∃ p p', r = .ok p ∧ r' = .ok p' ∧ Opposite p p'

theorem OppositeR.bind {α : Type} {r : Py α} {f f' : α → Py Param} (h : ∀ a, r = .ok a → OppositeR (f a) (f' a)) :
    OppositeR (r >>= f) (r >>= f') := by
  cases r with
  | error e => exact Or.inl ⟨e, rfl, rfl⟩
  | ok a => exact h a rfl

theorem OppositeR.ite {c : Prop} [Decidable c] {a a' b b' : Py Param} (h : OppositeR a a') (h' : OppositeR b b') :
    OppositeR (if c then a else b) (if c then a' else b') := by
  split
  · exact h
  · exact h'

theorem Opposite.ok {p p' : Param} (h : Opposite p p') {q q' : Param} (h1 : q.xxp = p.xxp) (h2 : q.yyp = p.yyp) (h3 : q'.xxp = p'.xxp)
    (h4 : q'.yyp = p'.yyp) (h5 : q' = { q with rotation := q'.rotation, xxp := q'.xxp, yyp := q'.yyp }) : OppositeR (.ok q) (.ok q') :=
  Or.inr ⟨q, q', rfl, rfl, by rw [h3, h1, h.xxp], by rw [h4, h2, h.yyp], h5⟩

/-- One entry of the velocity field. -/
theorem mu_entry (k x y d : Num) :
    k * Num.sqrt (Num.sq x + Num.sq y) / d * Num.cos (Num.arctan2 (Num.neg y) (Num.neg x)) =
      Num.neg (k * Num.sqrt (Num.sq x + Num.sq y) / d) * Num.cos (Num.arctan2 y x) := by
  rw [Num.neg_mul']
  match x, y with
  | .fin x, .fin y =>
    by_cases h : x = 0 ∧ y = 0
    · obtain ⟨rfl, rfl⟩ := h
      have e0 : Num.sqrt (Num.sq (.fin 0) + Num.sq (.fin 0)) = .fin 0 := by
        have e : Num.sq (.fin 0) = .fin 0 := congrArg Num.fin (by simp : (0 : ℝ) * 0 = 0)
        rw [e]
        show Num.sqrt (.fin (0 + 0)) = _
        simp [Num.sqrt]
      have e1 : Num.neg (.fin 0) = .fin 0 := by simp [Num.neg]
      have e2 : k * Num.fin 0 = .fin 0 ∨ k * Num.fin 0 = .nan := by
        show Num.mul _ _ = _ ∨ Num.mul _ _ = _
        cases k <;> simp [Num.mul, Num.infSign]
      have e3 : k * Num.fin 0 / d = .fin 0 ∨ k * Num.fin 0 / d = .nan := by
        rcases e2 with e | e <;> rw [e]
        · show Num.div _ _ = _ ∨ Num.div _ _ = _
          cases d with
          | fin d => by_cases h : d = 0 <;> simp [Num.div, h, Num.infSign]
          | _ => simp [Num.div]
        · right
          show Num.div _ _ = _
          cases d <;> rfl
      rw [e0, ← Num.neg_mul', e1]
      rcases e3 with e | e <;> rw [e]
      · rw [e1]
      · rfl
    · rw [← Num.mul_neg']
      congr 1
      show Num.fin _ = Num.fin _
      rw [cos_opposite]
      by_contra hc
      push Not at hc
      exact h hc
  | .pinf, y => exact nan_both _ (by cases y <;> rfl) (by cases y <;> rfl)
  | .ninf, y => exact nan_both _ (by cases y <;> rfl) (by cases y <;> rfl)
  | .nan, y => exact nan_both _ (by cases y <;> rfl) (by cases y <;> rfl)
  | .fin _, .pinf => exact nan_both _ rfl rfl
  | .fin _, .ninf => exact nan_both _ rfl rfl
  | .fin _, .nan => exact nan_both _ rfl rfl
where
  nan_both (a : Num) {b c : Num} (hb : b = .nan) (hc : c = .nan) : a * b = Num.neg (a * c) := by
    subst hb; subst hc
    show Num.mul a .nan = Num.neg (Num.mul a .nan)
    cases a <;> rfl

/-- The velocity field from the distances on. -/
theorem mu_field {X Y Q k rc yq : Arr Num} (hy : Np.div Y Q = .ok yq) (F : Arr Num → Py Param) :
    (do let th ← bop Num.arctan2 (map Num.neg yq) (map Num.neg X)
        let rr ← (do let y ← Np.div Y Q; let s ← Np.add (map Num.sq X) (map Num.sq y); .ok (map Num.sqrt s))
        let a ← Np.mul k rr
        let d ← Np.add rr rc
        let a ← Np.div a (map (fun r => Num.npow r 3) d)
        let mu ← Np.mul a (map Num.cos th)
        F mu) =
    (do let th ← bop Num.arctan2 yq X
        let rr ← (do let y ← Np.div Y Q; let s ← Np.add (map Num.sq X) (map Num.sq y); .ok (map Num.sqrt s))
        let a ← Np.mul (map Num.neg k) rr
        let d ← Np.add rr rc
        let a ← Np.div a (map (fun r => Num.npow r 3) d)
        let mu ← Np.mul a (map Num.cos th)
        F mu) := by
  have hth : bop Num.arctan2 (map Num.neg yq) (map Num.neg X) =
      (bop Num.arctan2 yq X) >>= fun th => .ok (⟨th.shape, fun i => Num.arctan2 (Num.neg (yq.get (bproj yq.shape i)))
        (Num.neg (X.get (bproj X.shape i)))⟩ : Arr Num) := by
    unfold bop
    show (match bshapeR yq.shape.reverse X.shape.reverse with | some s => _ | none => _) = _
    cases bshapeR yq.shape.reverse X.shape.reverse <;> rfl
  rw [hth, Py.bind_assoc']
  cases h1 : bop Num.arctan2 yq X with
  | error e => rfl
  | ok th =>
  simp only [Py.ok_bind, hy]
  cases h2 : Np.add (map Num.sq X) (map Num.sq yq) with
  | error e => rfl
  | ok ss =>
  simp only [Py.ok_bind]
  have hk : Np.mul (map Num.neg k) (map Num.sqrt ss) = Np.mul k (map Num.sqrt ss) >>= fun a => .ok (map Num.neg a) :=
    bop_map_left (f := (· * ·)) Num.neg_mul' _ _
  rw [hk, Py.bind_assoc']
  cases h3 : Np.mul k (map Num.sqrt ss) with
  | error e => rfl
  | ok a =>
  simp only [Py.ok_bind]
  cases h4 : Np.add (map Num.sqrt ss) rc with
  | error e => rfl
  | ok d =>
  simp only [Py.ok_bind]
  have hd : Np.div (map Num.neg a) (map (fun r => Num.npow r 3) d) = Np.div a (map (fun r => Num.npow r 3) d) >>= fun a => .ok (map Num.neg a) :=
    bop_map_left (f := (· / ·)) Num.neg_div' _ _
  rw [hd, Py.bind_assoc']
  cases h5 : Np.div a (map (fun r => Num.npow r 3) d) with
  | error e => rfl
  | ok A =>
  simp only [Py.ok_bind]
  refine congrArg (· >>= F) ?_
  have c1 := bop_entries h1
  have c2 := bop_entries h2
  have c3 := bop_entries h3
  have c5 := bop_entries h5
  unfold Np.mul bop
  show (match bshapeR A.shape.reverse th.shape.reverse with | some s => _ | none => _) =
    (match bshapeR A.shape.reverse th.shape.reverse with | some s => _ | none => _)
  cases h6 : bshapeR A.shape.reverse th.shape.reverse with
  | none => rfl
  | some s =>
    refine congrArg Except.ok (congrArg (Arr.mk _) (funext fun i => ?_))
    show A.get (bproj A.shape i) * Num.cos (Num.arctan2 (Num.neg (yq.get (bproj yq.shape (bproj th.shape i))))
        (Num.neg (X.get (bproj X.shape (bproj th.shape i))))) = Num.neg (A.get (bproj A.shape i)) * Num.cos (th.get (bproj th.shape i))
    have g1 := c1.1 (bproj th.shape i)
    have g5 := c5.1 (bproj A.shape i)
    rw [c5.2.1] at g5
    have g3 := c3.1 (bproj a.shape i)
    rw [c3.2.2] at g3
    have g2 := c2.1 (bproj ss.shape i)
    rw [c2.2.1, c2.2.2] at g2
    have g3' : a.get (bproj a.shape i) = k.get (bproj k.shape (bproj a.shape i)) * Num.sqrt (ss.get (bproj ss.shape i)) := g3
    have g2' : ss.get (bproj ss.shape i) = Num.sq (X.get (bproj X.shape i)) + Num.sq (yq.get (bproj yq.shape i)) := g2
    rw [c1.2.1, c1.2.2] at g1
    rw [g1, g5, g3', g2', c1.2.1, c1.2.2]
    exact mu_entry _ _ _ _

theorem Opposite.muV {p p' : Param} (h : Opposite p p') (q rmax vmax : ℝ × ℝ) :
    OppositeR (GrowingDisk.setMuV p q rmax (-vmax.1, -vmax.2)) (GrowingDisk.setMuV p' q rmax vmax) := by
  unfold GrowingDisk.setMuV
  refine OppositeR.bind fun _ _ => ?_
  have hs : ((0 ≤ -vmax.1 ∧ 0 ≤ -vmax.2) ∨ (-vmax.1 ≤ 0 ∧ -vmax.2 ≤ 0)) ↔ ((0 ≤ vmax.1 ∧ 0 ≤ vmax.2) ∨ (vmax.1 ≤ 0 ∧ vmax.2 ≤ 0)) := by
    simp only [neg_nonneg, neg_nonpos]
    exact Or.comm
  rw [show pyAssert ((0 ≤ -vmax.1 ∧ 0 ≤ -vmax.2) ∨ (-vmax.1 ≤ 0 ∧ -vmax.2 ≤ 0)) = pyAssert ((0 ≤ vmax.1 ∧ 0 ≤ vmax.2) ∨ (vmax.1 ≤ 0 ∧ vmax.2 ≤ 0)) from congrArg pyAssert (propext hs)]
  refine OppositeR.bind fun _ _ => ?_
  rw [h.interp, h.interp, h.interp]
  refine OppositeR.bind fun qa _ => ?_
  refine OppositeR.bind fun rm _ => ?_
  rw [interp_neg, Py.bind_assoc']
  refine OppositeR.bind fun vm _ => ?_
  rw [Py.ok_bind]
  refine OppositeR.bind fun rs _ => ?_
  rw [show Np.mul (map Num.neg vm) (map (fun r => Num.npow r 3) rs) = Np.mul vm (map (fun r => Num.npow r 3) rs) >>= fun a => .ok (map Num.neg a) from
    bop_map_left (f := (· * ·)) Num.neg_mul' _ _, Py.bind_assoc']
  refine OppositeR.bind fun k1 _ => ?_
  rw [Py.ok_bind]
  rw [show Np.div (map Num.neg k1) rm = Np.div k1 rm >>= fun a => .ok (map Num.neg a) from
    bop_map_left (f := (· / ·)) Num.neg_div' _ _, Py.bind_assoc']
  refine OppositeR.bind fun k2 _ => ?_
  rw [Py.ok_bind]
  refine OppositeR.bind fun q3 _ => ?_
  refine OppositeR.bind fun rc _ => ?_
  rw [getitem_map, Py.bind_assoc']
  refine OppositeR.bind fun k _ => ?_
  rw [Py.ok_bind]
  rw [show Np.div p'.yyp q3 = Np.div p.yyp q3 >>= fun a => .ok (map Num.neg a) by
    rw [h.yyp]; exact bop_map_left (f := (· / ·)) Num.neg_div' _ _, Py.bind_assoc']
  refine OppositeR.bind fun yq hy => ?_
  rw [Py.ok_bind]
  rw [h.ellRadius, h.xxp]
  have key := mu_field (X := p.xxp) (k := k) (rc := rc) hy (fun mu => Except.ok { p' with xxp := map Num.neg p.xxp, muV := some mu })
  refine Eq.mp (congrArg (OppositeR _) key.symm) ?_
  refine OppositeR.bind fun th _ => ?_
  refine OppositeR.bind fun rr _ => ?_
  refine OppositeR.bind fun a _ => ?_
  refine OppositeR.bind fun d _ => ?_
  refine OppositeR.bind fun A _ => ?_
  refine OppositeR.bind fun mu _ => ?_
  exact h.ok rfl rfl h.xxp.symm rfl (by rw [h.rest])

theorem Opposite.pxt {p p' : Param} (h : Opposite p p') (q rc al : ℝ × ℝ) :
    OppositeR (GrowingDisk.setPxt p q rc al) (GrowingDisk.setPxt p' q rc al) := by
  unfold GrowingDisk.setPxt
  simp only [h.interp3, h.ellRadius]
  have e : p'.logDxDy = p.logDxDy := by rw [h.rest]; rfl
  rw [e]
  repeat refine OppositeR.bind fun _ _ => ?_
  exact h.ok rfl rfl rfl rfl (by rw [h.rest])

theorem Opposite.sigV {p p' : Param} (h : Opposite p p') (q al a b : ℝ × ℝ) :
    OppositeR (GrowingDisk.setSigV p q al a b) (GrowingDisk.setSigV p' q al a b) := by
  unfold GrowingDisk.setSigV
  simp only [h.interp3, h.ellRadius, h.amax]
  have e : p'.cube = p.cube := by rw [h.rest]
  rw [e]
  repeat refine OppositeR.bind fun _ _ => ?_
  exact h.ok rfl rfl rfl rfl (by rw [h.rest])

theorem Opposite.tDep {p p' : Param} (h : Opposite p p') (q al a b c d : ℝ) :
    OppositeR (GrowingDisk.setTDep p q al a b c d) (GrowingDisk.setTDep p' q al a b c d) := by
  unfold GrowingDisk.setTDep
  simp only [h.ellRadius, h.amax]
  iterate 9 refine OppositeR.bind fun _ _ => ?_
  unfold Param.setPztx
  refine OppositeR.bind fun t _ => ?_
  rw [show Param.enrichmentBase { p' with tDep := _ } t = Param.enrichmentBase { p with tDep := _ } t by rw [h.rest]; rfl]
  refine OppositeR.bind fun _ _ => ?_
  exact h.ok rfl rfl rfl rfl (by rw [h.rest])

theorem Opposite.pt {p p' : Param} (h : Opposite p p') (l f : ℝ) (c : ℝ × ℝ) :
    OppositeR (p.setPt l f c) (p'.setPt l f c) := by
  unfold Param.setPt
  have e : p'.cube = p.cube := by rw [h.rest]
  rw [e]
  refine OppositeR.ite (Or.inl ⟨_, rfl, rfl⟩) ?_
  · iterate 7 refine OppositeR.bind fun _ _ => ?_
    exact h.ok rfl rfl rfl rfl (by rw [h.rest])

theorem Opposite.call {p p' : Param} (h : Opposite p p') (k : DiskCall) : OppositeR (DiskCall.run p k.reversed) (DiskCall.run p' k) := by
  cases k
  · exact h.pt _ _ _
  · exact h.pxt _ _ _
  · exact h.tDep _ _ _ _ _ _
  · exact h.muV _ _ _
  · exact h.sigV _ _ _ _

theorem Opposite.calls {p p' : Param} (h : Opposite p p') : ∀ ks : List DiskCall,
    OppositeR (runAll DiskCall.run p (ks.map DiskCall.reversed)) (runAll DiskCall.run p' ks)
  | [] => Or.inr ⟨p, p', rfl, rfl, h⟩
  | k :: ks => by
    show OppositeR (DiskCall.run p k.reversed >>= fun q => runAll DiskCall.run q (ks.map DiskCall.reversed)) (DiskCall.run p' k >>= fun q => runAll DiskCall.run q ks)
    rcases h.call k with ⟨e, h1, h2⟩ | ⟨q, q', h1, h2, h3⟩
    · rw [h1, h2]; exact Or.inl ⟨e, rfl, rfl⟩
    · rw [h1, h2]; exact h3.calls ks

theorem rotated_opposite (cube : IFUCube) (center : ℝ × ℝ) (rotation : ℝ) (l : ℕ) :
    Param.rotated cube center (rotation + Real.pi) l = map Num.neg (Param.rotated cube center rotation l) := by
  unfold Param.rotated
  refine congrArg (Arr.mk _) (funext fun i => ?_)
  dsimp only
  have e : ∀ r : ℝ, Num.fin (-r) = Num.neg (.fin r) := fun _ => rfl
  rw [Num.neg_add', ← Num.neg_mul', ← Num.neg_mul', ← e, ← e, Real.cos_add_pi, Real.sin_add_pi]
  congr 3
  · rw [if_pos rfl, if_pos rfl]; split <;> rfl
  · rw [if_neg one_ne_zero, if_neg one_ne_zero]; split <;> simp

theorem init_opposite (f2 : ℝ) (cube : IFUCube) (center : ℝ × ℝ) (rotation : ℝ) :
    OppositeR (Param.init f2 cube center rotation) (Param.init f2 cube center (rotation + Real.pi)) := by
  unfold Param.init
  refine OppositeR.bind fun zg _ => Or.inr ⟨_, _, rfl, rfl, rotated_opposite _ _ _ 0, rotated_opposite _ _ _ 1, rfl⟩

/-! ### Lemmas: full turns -/

/-- The program returns what the other one returns, changed by `T`, or raises the same exception. -/
def UpTo {σ : Type} (T : σ → σ) (r r' : Py σ) : Prop := r' = r >>= fun s => .ok (T s)

theorem UpTo.bind {α σ : Type} {T : σ → σ} {r : Py α} {f f' : α → Py σ} (h : ∀ a, UpTo T (f a) (f' a)) : UpTo T (r >>= f) (r >>= f') := by
  cases r with
  | error e => rfl
  | ok a => exact h a

theorem UpTo.ite {σ : Type} {T : σ → σ} {c : Prop} [Decidable c] {a a' b b' : Py σ} (h : UpTo T a a') (h' : UpTo T b b') :
    UpTo T (if c then a else b) (if c then a' else b') := by
  split
  · exact h
  · exact h'

theorem UpTo.calls {σ κ : Type} {T : σ → σ} {run : σ → κ → Py σ} (h : ∀ s k, UpTo T (run s k) (run (T s) k)) :
    ∀ (ks : List κ) (s : σ), UpTo T (runAll run s ks) (runAll run (T s) ks)
  | [], s => rfl
  | k :: ks, s => by
    have e := h s k
    unfold UpTo at e ⊢
    show (run (T s) k >>= fun q => runAll run q ks) = (run s k >>= fun q => runAll run q ks) >>= _
    rw [e]
    cases hr : run s k with
    | error e => rfl
    | ok q => exact UpTo.calls h ks q

/-- The component with another value of the attribute `rotation`. -/
def Param.withRotation (r : ℝ) (p : Param) : Param := { p with rotation := r }

theorem disk_upTo (r : ℝ) (p : Param) (k : DiskCall) : UpTo (Param.withRotation r) (DiskCall.run p k) (DiskCall.run (p.withRotation r) k) := by
  cases k
  · refine UpTo.ite rfl ?_
    iterate 7 refine UpTo.bind fun _ => ?_
    rfl
  · show UpTo _ (GrowingDisk.setPxt _ _ _ _) (GrowingDisk.setPxt _ _ _ _)
    unfold GrowingDisk.setPxt
    iterate 13 refine UpTo.bind fun _ => ?_
    rfl
  · show UpTo _ (GrowingDisk.setTDep _ _ _ _ _ _ _) (GrowingDisk.setTDep _ _ _ _ _ _ _)
    unfold GrowingDisk.setTDep Param.setPztx
    iterate 11 refine UpTo.bind fun _ => ?_
    rfl
  · show UpTo _ (GrowingDisk.setMuV _ _ _ _) (GrowingDisk.setMuV _ _ _ _)
    unfold GrowingDisk.setMuV
    iterate 18 refine UpTo.bind fun _ => ?_
    rfl
  · show UpTo _ (GrowingDisk.setSigV _ _ _ _ _) (GrowingDisk.setSigV _ _ _ _ _)
    unfold GrowingDisk.setSigV
    iterate 16 refine UpTo.bind fun _ => ?_
    rfl

/-- The stream with another value of the attribute `rotation`. -/
def Stream.withRotation (r : ℝ) (s : Stream) : Stream := { s with base := s.base.withRotation r }

theorem stream_upTo (r : ℝ) (s : Stream) (k : StreamCall) :
    UpTo (Stream.withRotation r) (StreamCall.run s k) (StreamCall.run (s.withRotation r) k) := by
  cases k with
  | setPt lmd phi q =>
    have h : UpTo (Param.withRotation r) (s.base.setPt lmd phi q) ((s.base.withRotation r).setPt lmd phi q) := disk_upTo r s.base (.setPt lmd phi q)
    show ((s.base.withRotation r).setPt lmd phi q >>= _) = _
    unfold UpTo at h
    rw [h]
    show _ = (s.base.setPt lmd phi q >>= _) >>= _
    cases s.base.setPt lmd phi q <;> rfl
  | setPxt theta muR sig n =>
    show UpTo _ (Stream.setPxt _ _ _ _ _) (Stream.setPxt _ _ _ _ _)
    unfold Stream.setPxt
    iterate 12 refine UpTo.bind fun _ => ?_
    rfl
  | setTDep τ =>
    show UpTo _ (Stream.setTDep _ _) (Stream.setTDep _ _)
    unfold Stream.setTDep Param.setPztx
    show _ = _
    simp only [Py.bind_assoc']
    refine congrArg _ (funext fun _ => ?_)
    refine congrArg₂ _ rfl (funext fun _ => ?_)
    rfl
  | setMuV lims =>
    show UpTo _ (Stream.setMuV _ _) (Stream.setMuV _ _)
    unfold Stream.setMuV
    iterate 5 refine UpTo.bind fun _ => ?_
    rfl
  | setSigV v =>
    show UpTo _ (Stream.setSigV _ _) (Stream.setSigV _ _)
    unfold Stream.setSigV
    iterate 1 refine UpTo.bind fun _ => ?_
    rfl

theorem rotated_full (cube : IFUCube) (center : ℝ × ℝ) (rotation : ℝ) (n : ℤ) (l : ℕ) :
    Param.rotated cube center (rotation + n * (2 * Real.pi)) l = Param.rotated cube center rotation l := by
  unfold Param.rotated
  rw [Real.cos_add_int_mul_two_pi, Real.sin_add_int_mul_two_pi]

theorem init_full (f2 : ℝ) (cube : IFUCube) (center : ℝ × ℝ) (rotation : ℝ) (n : ℤ) :
    UpTo (Param.withRotation (rotation + n * (2 * Real.pi))) (Param.init f2 cube center rotation)
      (Param.init f2 cube center (rotation + n * (2 * Real.pi))) := by
  unfold Param.init
  rw [rotated_full, rotated_full]
  refine UpTo.bind fun zg => rfl

theorem UpTo.thenCalls {σ κ : Type} {T : σ → σ} {run : σ → κ → Py σ} (h : ∀ s k, UpTo T (run s k) (run (T s) k)) {r r' : Py σ} (hr : UpTo T r r')
    (ks : List κ) : UpTo T (r >>= fun s => runAll run s ks) (r' >>= fun s => runAll run s ks) := by
  unfold UpTo at hr
  rw [hr]
  cases r with
  | error e => rfl
  | ok s => exact UpTo.calls h ks s

/-! ### Theorems -/

/-- **C81.** A growing disk made with the angle `rotation + 2πn` and one made with `rotation` cannot be told apart, whatever setters are called on
both: the same exceptions, and equal answers to every query. -/
theorem C81_full_turn (f2 : ℝ) (cube : IFUCube) (center : ℝ × ℝ) (rotation : ℝ) (n : ℤ) (calls : List DiskCall) :
    MadeAlike (makeDisk f2 cube center (rotation + n * (2 * Real.pi)) calls) (makeDisk f2 cube center rotation calls) := by
  have h := (init_full f2 cube center rotation n).thenCalls (fun s k => disk_upTo _ s k) calls
  unfold makeDisk
  unfold UpTo at h
  rw [h]
  cases hr : (Param.init f2 cube center rotation >>= fun s => runAll DiskCall.run s calls) with
  | error e => exact Or.inl ⟨e, rfl, rfl⟩
  | ok p => exact Or.inr ⟨_, p, rfl, rfl, Param.alike rfl⟩

/-- **C81.** So for streams. -/
theorem C81_full_turn_stream (f2 : ℝ) (cube : IFUCube) (center : ℝ × ℝ) (rotation : ℝ) (n : ℤ) (calls : List StreamCall) :
    (∃ e, makeStream f2 cube center (rotation + n * (2 * Real.pi)) calls = .error e ∧ makeStream f2 cube center rotation calls = .error e) ∨
    ∃ s s', makeStream f2 cube center (rotation + n * (2 * Real.pi)) calls = .ok s ∧ makeStream f2 cube center rotation calls = .ok s' ∧
      s.thetaLims = s'.thetaLims ∧ AnswerAlike s.base s'.base := by
  have hi : UpTo (Stream.withRotation (rotation + n * (2 * Real.pi))) (Stream.init f2 cube center rotation)
      (Stream.init f2 cube center (rotation + n * (2 * Real.pi))) := by
    have h := init_full f2 cube center rotation n
    unfold UpTo at h
    unfold Stream.init UpTo
    rw [h]
    cases Param.init f2 cube center rotation <;> rfl
  have h := hi.thenCalls (fun s k => stream_upTo _ s k) calls
  unfold makeStream
  unfold UpTo at h
  rw [h]
  cases hr : (Stream.init f2 cube center rotation >>= fun s => runAll StreamCall.run s calls) with
  | error e => exact Or.inl ⟨e, rfl, rfl⟩
  | ok s => exact Or.inr ⟨_, s, rfl, rfl, rfl, Param.alike rfl⟩

/-- **C81.** A growing disk made with the angle `rotation + π` is the one made with `rotation` that turns the other way. -/
theorem C81_half_turn (f2 : ℝ) (cube : IFUCube) (center : ℝ × ℝ) (rotation : ℝ) (calls : List DiskCall) :
    MadeAlike (makeDisk f2 cube center (rotation + Real.pi) calls) (makeDisk f2 cube center rotation (calls.map DiskCall.reversed)) := by
  unfold makeDisk
  rcases init_opposite f2 cube center rotation with ⟨e, h1, h2⟩ | ⟨p, p', h1, h2, h⟩
  · rw [h1, h2]; exact Or.inl ⟨e, rfl, rfl⟩
  · rw [h1, h2]
    show MadeAlike (runAll DiskCall.run p' calls) (runAll DiskCall.run p (calls.map DiskCall.reversed))
    rcases h.calls calls with ⟨e, h3, h4⟩ | ⟨q, q', h3, h4, h5⟩
    · exact Or.inl ⟨e, h4, h3⟩
    · exact Or.inr ⟨q', q, h4, h3, h5.alike⟩

/-- Not about nothing: on the demonstration cube a disk turned by half a turn is made by the five setters, called as in the documentation, and the one that
turns the other way too; neither raises an exception. -/
example : ∃ cube p p', makeDisk 1 cube (0, 0) (0 + Real.pi) demoCalls = .ok p ∧
    makeDisk 1 cube (0, 0) 0 (demoCalls.map DiskCall.reversed) = .ok p' ∧ DiskCall.setMuV (0.5, 0.5) (0.1, 1) (-50, -250) ∈ demoCalls.map DiskCall.reversed := by
  obtain ⟨cube, -, hc, hs⟩ := demoCube_exists
  obtain ⟨p0, k1, k2, k3, k4⟩ := init_sound hc demoGrid_proper 1 (0, 0) 0
  have hv : ∀ k ∈ demoCalls.map DiskCall.reversed, k.Valid := by
    intro k hk
    simp only [demoCalls, List.map_cons, List.map_nil, DiskCall.reversed, List.mem_cons, List.not_mem_nil, or_false] at hk
    rcases hk with rfl | rfl | rfl | rfl | rfl <;> norm_num [DiskCall.Valid, ValidSfh]
  rcases disk_history demoGrid_proper demo_offcentre _ p0 k3 hv with ⟨p, j1, j2, j3⟩ | ⟨-, -, j⟩
  · have h : makeDisk 1 cube (0, 0) 0 (demoCalls.map DiskCall.reversed) = .ok p := by
      unfold makeDisk
      rw [k1]; exact j1
    rcases C81_half_turn 1 cube (0, 0) 0 demoCalls with ⟨e, -, h2⟩ | ⟨q, q', h1, h2, -⟩
    · rw [h] at h2; cases h2
    · exact ⟨cube, q, q', h1, h2, by simp [demoCalls, DiskCall.reversed]⟩
  · exfalso
    obtain ⟨pre, k, post, j1, j2, j3⟩ := j
    cases pre with
    | nil => simp only [List.nil_append, demoCalls, List.map_cons, DiskCall.reversed, List.cons.injEq] at j1; rw [← j1.1] at j3; exact j3.1 rfl
    | cons k' pre =>
      simp only [List.cons_append, demoCalls, List.map_cons, DiskCall.reversed, List.cons.injEq] at j1
      exact j2 k' (by simp) (by rw [← j1.1]; rfl)

end PKM
