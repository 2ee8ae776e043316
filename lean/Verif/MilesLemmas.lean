import Verif.Miles
import Verif.SspInit

/-! Lemmas about reading the SSP files. -/

open scoped Classical

noncomputable section

namespace PKM
open Np

namespace PyStr

theorem split_no {c : Char} : ∀ {w : PyStr}, c ∉ w → split c w = [w]
  | [], _ => rfl
  | x :: r, h => by
    have h1 : ¬ x = c := fun e => h (by simp [e])
    have h2 : c ∉ r := fun e => h (by simp [e])
    simp [split, h1, split_no h2]

theorem split_app {c : Char} : ∀ {a : PyStr} (b : PyStr), c ∉ a → split c (a ++ c :: b) = a :: split c b
  | [], b, _ => by simp [split]
  | x :: r, b, h => by
    have h1 : ¬ x = c := fun e => h (by simp [e])
    have h2 : c ∉ r := fun e => h (by simp [e])
    simp [split, h1, split_app b h2]

theorem split2_no {a b : Char} : ∀ {w : PyStr}, ¬ [a, b] <:+: w → split2 a b w = [w]
  | [], _ => rfl
  | [x], _ => rfl
  | x :: y :: r, h => by
    have h1 : ¬ (x = a ∧ y = b) := fun e => h ⟨[], r, by simp [e.1, e.2]⟩
    have h2 : ¬ [a, b] <:+: y :: r := fun ⟨p, q, e⟩ => h ⟨x :: p, q, by simp [← e]⟩
    rw [split2, if_neg h1, split2_no h2]

theorem split2_app {a b : Char} (e : PyStr) : ∀ {w : PyStr}, a ∉ w → split2 a b (w ++ a :: b :: e) = w :: split2 a b e
  | [], _ => by simp [split2]
  | [x], h => by
    have h1 : ¬ x = a := fun q => h (by simp [q])
    have := split2_app (a := a) (b := b) e (w := []) (by simp)
    simp only [List.nil_append] at this
    show split2 a b (x :: a :: b :: e) = _
    rw [split2, if_neg (by simp [h1]), this]
  | x :: y :: r, h => by
    have h1 : ¬ x = a := fun q => h (by simp [q])
    have h2 : a ∉ y :: r := fun q => h (by simp [List.mem_cons.1 q])
    have := split2_app (a := a) (b := b) e h2
    show split2 a b (x :: y :: (r ++ a :: b :: e)) = _
    rw [split2, if_neg (by simp [h1])]
    simp only [List.cons_append] at this
    rw [this]

end PyStr

/-! ### Documented file names -/

/-- Value of decimal digits `a` before and `b` after the point. -/
def decimal (a b : PyStr) : ℝ :=
  ((Nat.ofDigits 10 (((a ++ b).map (fun c => c.toNat - 48)).reverse) : ℕ) : ℝ) / 10 ^ b.length

/-- A file name `<imf>Z<m|p><za>.<zb>T<ta>.<tb>_i<tail>`. -/
structure FileName where
  imf : PyStr
  neg : Bool
  za : PyStr
  zb : PyStr
  ta : PyStr
  tb : PyStr
  tail : PyStr

namespace FileName

/-- The part of the name that encodes the metallicity. -/
def zstr (f : FileName) : PyStr := (if f.neg then 'm' else 'p') :: (f.za ++ '.' :: f.zb)
/-- The part of the name that encodes the age. -/
def tstr (f : FileName) : PyStr := f.ta ++ '.' :: f.tb
/-- The file name. -/
def str (f : FileName) : PyStr := f.imf ++ 'Z' :: (f.zstr ++ 'T' :: (f.tstr ++ '_' :: 'i' :: f.tail))
/-- Its metallicity. -/
def z (f : FileName) : ℝ := if f.neg then -decimal f.za f.zb else decimal f.za f.zb
/-- Its age. -/
def t (f : FileName) : ℝ := decimal f.ta f.tb

/-- Names of the documented form: digits around the points, no further `Z`, at most one `T` (as in `iTp0.00`) and no `_i` after the age. -/
structure Ok (f : FileName) : Prop where
  imf : 'Z' ∉ f.imf
  za : ∀ c ∈ f.za, c.isDigit
  zb : ∀ c ∈ f.zb, c.isDigit
  ta : ∀ c ∈ f.ta, c.isDigit
  tb : ∀ c ∈ f.tb, c.isDigit
  zne : f.za ++ f.zb ≠ []
  tne : f.ta ++ f.tb ≠ []
  tailZ : 'Z' ∉ f.tail
  tailT : f.tail.count 'T' ≤ 1
  tailI : ¬ ['_', 'i'] <:+: f.tail

end FileName

theorem natVal_eq (s : PyStr) : PyStr.natVal s = Nat.ofDigits 10 ((s.map (fun c => c.toNat - 48)).reverse) := by
  unfold PyStr.natVal
  induction s using List.reverseRecOn with
  | nil => rfl
  | append_singleton l x ih =>
    rw [List.foldl_append, ih]
    simp only [List.foldl_cons, List.foldl_nil, List.map_append, List.map_cons, List.map_nil, List.reverse_append, List.reverse_cons,
      List.reverse_nil, List.nil_append, List.cons_append, Nat.ofDigits_cons]
    simp [add_comm]

theorem decimal_eq (a b : PyStr) : (PyStr.natVal a : ℝ) + PyStr.natVal b / 10 ^ b.length = decimal a b := by
  have h10 : (10 : ℝ) ^ b.length ≠ 0 := by positivity
  unfold decimal
  rw [List.map_append, List.reverse_append, Nat.ofDigits_append, ← natVal_eq, ← natVal_eq]
  push_cast
  simp only [List.length_reverse, List.length_map]
  field_simp
  ring

theorem digit_ne {c d : Char} (h : c.isDigit) (hd : ¬ d.isDigit) : c ≠ d := fun e => hd (e ▸ h)

theorem not_mem_digits {d : Char} {s : PyStr} (h : ∀ c ∈ s, c.isDigit) (hd : ¬ d.isDigit) : d ∉ s := fun hm => hd (h d hm)

theorem unsignedFloat_is {a b : PyStr} (ha : ∀ c ∈ a, c.isDigit) (hb : ∀ c ∈ b, c.isDigit) (hne : a ++ b ≠ []) :
    PyStr.unsignedFloat (a ++ '.' :: b) = .ok (decimal a b) := by
  have h1 : '.' ∉ a := not_mem_digits ha (by decide)
  have h2 : '.' ∉ b := not_mem_digits hb (by decide)
  unfold PyStr.unsignedFloat
  rw [PyStr.split_app b h1, PyStr.split_no h2]
  simp only
  rw [if_pos ⟨ha, hb, hne⟩, decimal_eq]

theorem float_is {a b : PyStr} (ha : ∀ c ∈ a, c.isDigit) (hb : ∀ c ∈ b, c.isDigit) (hne : a ++ b ≠ []) :
    PyStr.float (a ++ '.' :: b) = .ok (decimal a b) := by
  rw [← unsignedFloat_is ha hb hne]
  cases a with
  | nil => rfl
  | cons c r =>
    have hc := ha c (by simp)
    have h1 : c ≠ '-' := digit_ne hc (by decide)
    have h2 : c ≠ '+' := digit_ne hc (by decide)
    unfold PyStr.float
    split
    · next h => exact absurd (List.cons.inj h).1 h1
    · next h => exact absurd (List.cons.inj h).1 h2
    · rfl

/-- The arrays of the object that hold the parts of the names of `fs`. -/
def MilesFiles.of (fs : List FileName) : MilesFiles where
  modfiles := fs.map FileName.str
  imf := fs.map FileName.imf
  zstr := fs.map FileName.zstr
  z := fs.map FileName.z
  tstr := fs.map FileName.tstr
  t := fs.map FileName.t
  endstr := fs.map FileName.tail

theorem splitModfile_is (m : MilesFiles) {f : FileName} (h : f.Ok) :
    splitModfile m f.str = .ok
      { m with imf := m.imf ++ [f.imf], zstr := m.zstr ++ [f.zstr], z := m.z ++ [f.z],
               tstr := m.tstr ++ [f.tstr], t := m.t ++ [f.t], endstr := m.endstr ++ [f.tail] } := by
  have dz : ∀ c : Char, ¬ c.isDigit → c ≠ '.' → c ≠ 'm' → c ≠ 'p' → c ∉ f.zstr := by
    intro c hc h1 h2 h3 hm
    simp only [FileName.zstr, List.mem_cons, List.mem_append] at hm
    rcases hm with hm | hm | hm | hm
    · cases f.neg <;> simp_all
    · exact not_mem_digits h.za hc hm
    · exact h1 hm
    · exact not_mem_digits h.zb hc hm
  have dt : ∀ c : Char, ¬ c.isDigit → c ≠ '.' → c ∉ f.tstr := by
    intro c hc h1 hm
    simp only [FileName.tstr, List.mem_cons, List.mem_append] at hm
    rcases hm with hm | hm | hm
    · exact not_mem_digits h.ta hc hm
    · exact h1 hm
    · exact not_mem_digits h.tb hc hm
  have hZ : 'Z' ∉ f.zstr ++ 'T' :: (f.tstr ++ '_' :: 'i' :: f.tail) := by
    simp only [List.mem_append, List.mem_cons, not_or]
    exact ⟨dz 'Z' (by decide) (by decide) (by decide) (by decide), by decide, dt 'Z' (by decide) (by decide), by decide, by decide, h.tailZ⟩
  have e1 : PyStr.split 'Z' f.str = [f.imf, f.zstr ++ 'T' :: (f.tstr ++ '_' :: 'i' :: f.tail)] := by
    rw [FileName.str, PyStr.split_app _ h.imf, PyStr.split_no hZ]
  have e2 : joinBasti (PyStr.split 'T' (f.zstr ++ 'T' :: (f.tstr ++ '_' :: 'i' :: f.tail))) =
      [f.zstr, f.tstr ++ '_' :: 'i' :: f.tail] := by
    rw [PyStr.split_app _ (dz 'T' (by decide) (by decide) (by decide) (by decide))]
    by_cases hT : 'T' ∈ f.tail
    · obtain ⟨p, q, hp, hpn⟩ := List.append_of_mem hT |>.elim fun p ⟨q, e⟩ => (⟨p, q, e, by
        have := h.tailT
        rw [e, List.count_append, List.count_cons_self] at this
        exact ⟨List.count_eq_zero.1 (by omega), List.count_eq_zero.1 (by omega)⟩⟩ : ∃ p q, f.tail = p ++ 'T' :: q ∧ 'T' ∉ p ∧ 'T' ∉ q)
      have hs : f.tstr ++ '_' :: 'i' :: f.tail = (f.tstr ++ '_' :: 'i' :: p) ++ 'T' :: q := by rw [hp]; simp
      have hn : 'T' ∉ f.tstr ++ '_' :: 'i' :: p := by
        simp only [List.mem_append, List.mem_cons, not_or]
        exact ⟨dt 'T' (by decide) (by decide), by decide, by decide, hpn.1⟩
      rw [hs, PyStr.split_app _ hn, PyStr.split_no hpn.2]
      rfl
    · have hn : 'T' ∉ f.tstr ++ '_' :: 'i' :: f.tail := by
        simp only [List.mem_append, List.mem_cons, not_or]
        exact ⟨dt 'T' (by decide) (by decide), by decide, by decide, hT⟩
      rw [PyStr.split_no hn]
      rfl
  have e3 : PyStr.split2 '_' 'i' (f.tstr ++ '_' :: 'i' :: f.tail) = [f.tstr, f.tail] := by
    rw [PyStr.split2_app _ (dt '_' (by decide) (by decide)), PyStr.split2_no h.tailI]
  have ez : (if (if f.neg then 'm' else 'p') = 'm' then do let x ← PyStr.float (f.za ++ '.' :: f.zb); .ok (-x)
    else if (if f.neg then 'm' else 'p') = 'p' then PyStr.float (f.za ++ '.' :: f.zb)
    else .error .valueError : Py ℝ) = .ok f.z := by
    rw [float_is h.za h.zb h.zne]
    cases hn : f.neg
    · simp [FileName.z, hn]
    · simp [FileName.z, hn]
  have et : PyStr.float f.tstr = .ok f.t := float_is h.ta h.tb h.tne
  have ec : listAt f.zstr 0 = .ok (if f.neg then 'm' else 'p') := rfl
  have etl : f.zstr.tail = f.za ++ '.' :: f.zb := rfl
  unfold splitModfile
  simp only [e1, listAt, List.getElem?_cons_zero, List.getElem?_cons_succ, Py.ok_bind, e2, e3]
  simp only [listAt] at ec
  rw [ec, Py.ok_bind, etl, ez, Py.ok_bind, et, Py.ok_bind]
  rfl

theorem splitModfiles_is {fs : List FileName} (h : ∀ f ∈ fs, f.Ok) :
    splitModfiles (fs.map FileName.str) = .ok (MilesFiles.of fs) := by
  have key : ∀ (l : List FileName) (m : MilesFiles), (∀ f ∈ l, f.Ok) → (l.map FileName.str).foldlM splitModfile m =
      .ok { m with imf := m.imf ++ l.map FileName.imf, zstr := m.zstr ++ l.map FileName.zstr, z := m.z ++ l.map FileName.z,
                   tstr := m.tstr ++ l.map FileName.tstr, t := m.t ++ l.map FileName.t, endstr := m.endstr ++ l.map FileName.tail } := by
    intro l
    induction l with
    | nil => intro m _; simp
    | cons f r ih =>
      intro m hl
      rw [List.map_cons, List.foldlM_cons, splitModfile_is m (hl f (by simp)), Py.ok_bind, ih _ (fun g hg => hl g (by simp [hg]))]
      simp
  unfold splitModfiles
  rw [key fs _ h]
  simp [MilesFiles.of]

/-! ### Selecting files -/

theorem listAt_map {α β : Type} (g : α → β) (l : List α) {k : ℕ} (hk : k < l.length) : listAt (l.map g) k = .ok (g l[k]) := by
  simp [listAt, hk]

theorem gather_is {α β : Type} (g : α → β) (l : List α) (p : ℕ → Prop) [DecidablePred p] :
    gather (l.map g) ((List.range l.length).filter p) =
      .ok (((List.range l.length).filter p).filterMap (fun k => (l[k]?).map g)) := by
  have key : ∀ idx : List ℕ, (∀ k ∈ idx, k < l.length) → gather (l.map g) idx = .ok (idx.filterMap (fun k => (l[k]?).map g)) := by
    intro idx
    unfold gather
    induction idx with
    | nil => intro _; rfl
    | cons k r ih =>
      intro h
      have hk := h k (by simp)
      rw [List.mapM_cons, listAt_map g l hk, Py.ok_bind, ih (fun j hj => h j (by simp [hj])), Py.ok_bind]
      simp [hk]
  exact key _ (fun k hk => List.mem_range.1 (List.mem_filter.1 hk).1)

theorem filter_range {α β : Type} (g : α → β) (l : List α) (q : α → Prop) (p : ℕ → Prop) [DecidablePred q] [DecidablePred p] (hp : ∀ k (hk : k < l.length), p k ↔ q l[k]) :
    ((List.range l.length).filter p).filterMap (fun k => (l[k]?).map g) = (l.filter q).map g := by
  induction l using List.reverseRecOn with
  | nil => rfl
  | append_singleton l x ih =>
    have h1 := ih (fun k hk => by
      have := hp k (by simp; omega)
      rwa [List.getElem_append_left hk] at this)
    have h2 : p l.length ↔ q x := by simpa using hp l.length (by simp)
    have h3 : ((List.range l.length).filter p).filterMap (fun k => ((l ++ [x])[k]?).map g) =
        ((List.range l.length).filter p).filterMap (fun k => (l[k]?).map g) := by
      refine List.filterMap_congr fun k hk => ?_
      have hk' := List.mem_range.1 (List.mem_filter.1 hk).1
      rw [List.getElem?_append_left hk']
    rw [List.length_append, List.length_singleton, List.range_succ, List.filter_append, List.filterMap_append, h3, h1,
      List.filter_append, List.map_append]
    congr 1
    by_cases hq : q x
    · simp [h2.2 hq, hq]
    · simp [mt h2.1 hq, hq]

theorem select_is (fs : List FileName) (c : ℝ → ℝ → Prop) :
    (MilesFiles.of fs).select (whereZT (MilesFiles.of fs) c) = .ok (MilesFiles.of (fs.filter (fun f => c f.z f.t))) := by
  have hw : whereZT (MilesFiles.of fs) c = (List.range fs.length).filter
      (fun k => c ((fs.map FileName.z).getD k 0) ((fs.map FileName.t).getD k 0)) := by
    simp [whereZT, MilesFiles.of]
  have hp : ∀ k (hk : k < fs.length), c ((fs.map FileName.z).getD k 0) ((fs.map FileName.t).getD k 0) ↔ c fs[k].z fs[k].t := by
    intro k hk
    simp [List.getD, hk]
  have key : ∀ {β : Type} (g : FileName → β), gather (fs.map g) (whereZT (MilesFiles.of fs) c) =
      .ok ((fs.filter (fun f => c f.z f.t)).map g) := by
    intro β g
    rw [hw, gather_is, filter_range g fs (fun f => c f.z f.t) _ hp]
  unfold MilesFiles.select
  simp only [MilesFiles.of] at key ⊢
  simp only [key, Py.ok_bind]

theorem joinModfiles_one {fs : List FileName} {f : FileName} {z t : ℝ} (h : fs.filter (fun f => f.z = z ∧ f.t = t) = [f]) :
    joinModfiles (MilesFiles.of fs) z t = .ok f.str := by
  have hw : whereZT (MilesFiles.of fs) (fun z' t' => t' = t ∧ z' = z) = (List.range fs.length).filter
      (fun k => (fs.map FileName.t).getD k 0 = t ∧ (fs.map FileName.z).getD k 0 = z) := by
    simp [whereZT, MilesFiles.of]
  have hp : ∀ k (hk : k < fs.length), ((fs.map FileName.t).getD k 0 = t ∧ (fs.map FileName.z).getD k 0 = z) ↔
      (fs[k].z = z ∧ fs[k].t = t) := by
    intro k hk
    simp [List.getD, hk, and_comm]
  have h1 := filter_range id fs (fun f => f.z = z ∧ f.t = t) _ hp
  rw [h] at h1
  have hall : ∀ k ∈ (List.range fs.length).filter (fun k => (fs.map FileName.t).getD k 0 = t ∧ (fs.map FileName.z).getD k 0 = z),
      k < fs.length := fun k hk => List.mem_range.1 (List.mem_filter.1 hk).1
  unfold joinModfiles
  rw [hw]
  generalize (List.range fs.length).filter (fun k => (fs.map FileName.t).getD k 0 = t ∧ (fs.map FileName.z).getD k 0 = z) = idx at h1 hall
  match idx, h1, hall with
  | [], h1, _ => simp at h1
  | [k], h1, hall =>
    have hk := hall k (by simp)
    simp [hk] at h1
    simp only [MilesFiles.of, listAt_map _ _ hk, Py.ok_bind, h1]
    rfl
  | a :: b :: r, h1, hall =>
    have ha := hall a (by simp)
    have hb := hall b (by simp)
    simp [ha, hb] at h1

theorem joinModfiles_other {fs : List FileName} {z t : ℝ} (h : (fs.filter (fun f => f.z = z ∧ f.t = t)).length ≠ 1) :
    joinModfiles (MilesFiles.of fs) z t = .error .valueError := by
  have hw : whereZT (MilesFiles.of fs) (fun z' t' => t' = t ∧ z' = z) = (List.range fs.length).filter
      (fun k => (fs.map FileName.t).getD k 0 = t ∧ (fs.map FileName.z).getD k 0 = z) := by
    simp [whereZT, MilesFiles.of]
  have hp : ∀ k (hk : k < fs.length), ((fs.map FileName.t).getD k 0 = t ∧ (fs.map FileName.z).getD k 0 = z) ↔
      (fs[k].z = z ∧ fs[k].t = t) := by
    intro k hk
    simp [List.getD, hk, and_comm]
  have h1 := filter_range id fs (fun f => f.z = z ∧ f.t = t) _ hp
  have hall : ∀ k ∈ (List.range fs.length).filter (fun k => (fs.map FileName.t).getD k 0 = t ∧ (fs.map FileName.z).getD k 0 = z),
      k < fs.length := fun k hk => List.mem_range.1 (List.mem_filter.1 hk).1
  unfold joinModfiles
  rw [hw]
  rw [List.map_id] at h1
  generalize (List.range fs.length).filter (fun k => (fs.map FileName.t).getD k 0 = t ∧ (fs.map FileName.z).getD k 0 = z) = idx at h1 hall
  match idx, h1, hall with
  | [], h1, _ => rfl
  | [k], h1, hall =>
    have hk := hall k (by simp)
    rw [← h1] at h
    simp [hk] at h
  | a :: b :: r, h1, hall => rfl

end PKM
