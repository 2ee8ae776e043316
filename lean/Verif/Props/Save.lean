import Verif.Save
import Verif.Props.Mixture
import Verif.Props.Shared
import Verif.ParamMarg

/-!
# Saving components: C51, C62
-/

open scoped Classical

noncomputable section

namespace PKM
open Np Component

/-! ### Specification -/

/-- A name of a file or directory. -/
structure ProperName (n : PyStr) : Prop where
  ne : n ≠ []
  slash : '/' ∉ n
  dot : n ≠ ".".toList
  dots : n ≠ "..".toList

/-- The string `a/b/c/` for names `a`, `b`, `c`; `/a/b/c/` if absolute. -/
def dirString (abs : Bool) (cs : List PyStr) : PyStr := (if abs then ['/'] else []) ++ cs.flatMap (· ++ ['/'])

/-- Where absolute and relative paths start. -/
def Fs.base (fs : Fs) (abs : Bool) : List PyStr := if abs then [] else fs.cwd

/-- Names of directories for `dirString`: proper, and at least one if relative. -/
structure ProperDir (abs : Bool) (cs : List PyStr) : Prop where
  proper : ∀ n ∈ cs, ProperName n
  some : abs = true ∨ cs ≠ []

/-- The directories `p`, `p/c1`, `p/c1/c2`, .. exist, up to and without the last one. -/
def Fs.Parents (fs : Fs) (p cs : List PyStr) : Prop := ∀ k < cs.length, fs.node (p ++ cs.take k) = some .dir

/-! ### Helpers -/

theorem split_slash {n : PyStr} (h : '/' ∉ n) (r : PyStr) : PyStr.split '/' (n ++ '/' :: r) = n :: PyStr.split '/' r := by
  induction n with
  | nil => simp [PyStr.split]
  | cons x n ih =>
    have hx : x ≠ '/' := fun e => h (by simp [e])
    have := ih (fun e => h (by simp [e]))
    simp only [List.cons_append, PyStr.split, if_neg hx, this]

theorem split_none {n : PyStr} (h : '/' ∉ n) : PyStr.split '/' n = [n] := by
  induction n with
  | nil => rfl
  | cons x n ih =>
    have hx : x ≠ '/' := fun e => h (by simp [e])
    have := ih (fun e => h (by simp [e]))
    simp only [PyStr.split, if_neg hx, this]

theorem names_flat {cs : List PyStr} (h : ∀ n ∈ cs, ProperName n) (r : PyStr) :
    Fs.names (cs.flatMap (· ++ ['/']) ++ r) = cs ++ Fs.names r := by
  induction cs with
  | nil => rfl
  | cons n cs ih =>
    have hn := h n (by simp)
    have e : (n :: cs).flatMap (· ++ ['/']) ++ r = n ++ '/' :: (cs.flatMap (· ++ ['/']) ++ r) := by simp
    have ih' := ih (fun m hm => h m (by simp [hm]))
    unfold Fs.names at ih' ⊢
    rw [e, split_slash hn.slash, List.filter_cons_of_pos (by simpa using hn.ne), ih', List.cons_append]

theorem names_dir {abs : Bool} {cs : List PyStr} (h : ∀ n ∈ cs, ProperName n) (r : PyStr) :
    Fs.names (dirString abs cs ++ r) = cs ++ Fs.names r := by
  cases abs
  · exact names_flat h r
  · have : Fs.names ('/' :: (cs.flatMap (· ++ ['/']) ++ r)) = Fs.names (cs.flatMap (· ++ ['/']) ++ r) := by
      simp [Fs.names, PyStr.split]
    simp only [dirString, if_true, List.cons_append, List.nil_append]
    rw [this, names_flat h r]

theorem names_name {f : PyStr} (h : ProperName f) : Fs.names f = [f] := by
  simp [Fs.names, split_none h.slash, h.ne]

theorem names_nil : Fs.names [] = [] := by simp [Fs.names, PyStr.split]

theorem start_dir (fs : Fs) {abs : Bool} {cs : List PyStr} (h : ProperDir abs cs) (r : PyStr) :
    fs.start (dirString abs cs ++ r) = fs.base abs := by
  cases abs
  · cases cs with
    | nil => rcases h.some with h | h <;> simp at h
    | cons n cs =>
      obtain ⟨x, n', rfl⟩ := List.exists_cons_of_ne_nil (h.proper n (by simp)).ne
      have : x ≠ '/' := fun e => (h.proper (x :: n') (by simp)).slash (by simp [e])
      simp [Fs.start, Fs.base, dirString, this]
  · simp [Fs.start, Fs.base, dirString]

theorem dirString_ne {abs : Bool} {cs : List PyStr} (h : ProperDir abs cs) (r : PyStr) : dirString abs cs ++ r ≠ [] := by
  cases abs
  · cases cs with
    | nil => rcases h.some with h | h <;> simp at h
    | cons n cs => simp [dirString]
  · simp [dirString]

theorem walk_ok {fs : Fs} {ns : List PyStr} (h : ∀ n ∈ ns, ProperName n) {p q : List PyStr} (hw : fs.walk p ns = .ok q) : q = p ++ ns := by
  induction ns generalizing p with
  | nil =>
    simp only [Fs.walk] at hw
    injection hw with hw
    simp [hw]
  | cons n ns ih =>
    have hn := h n (by simp)
    unfold Fs.walk at hw
    obtain ⟨_, -, hw⟩ := bind_ok hw
    rw [if_neg hn.dot, if_neg hn.dots] at hw
    rw [ih (fun m hm => h m (by simp [hm])) hw]
    simp

theorem walk_is {fs : Fs} {ns : List PyStr} (h : ∀ n ∈ ns, ProperName n) {p : List PyStr} (hd : fs.Parents p ns) :
    fs.walk p ns = .ok (p ++ ns) := by
  induction ns generalizing p with
  | nil => simp [Fs.walk]
  | cons n ns ih =>
    have hn := h n (by simp)
    have h0 := hd 0 (by simp)
    simp only [List.take_zero, List.append_nil] at h0
    have := ih (p := p ++ [n]) (fun m hm => h m (by simp [hm])) (fun k hk => by
      have := hd (k + 1) (by simpa using hk)
      simpa using this)
    unfold Fs.walk
    simp only [Fs.inDir, h0, Py.ok_bind, if_neg hn.dot, if_neg hn.dots, this]
    simp

/-- The first missing directory stops the resolution. -/
theorem walk_missing {fs : Fs} {ns : List PyStr} (h : ∀ n ∈ ns, ProperName n) {p : List PyStr} {k : ℕ} (hk : k < ns.length)
    (hd : ∀ j < k, fs.node (p ++ ns.take j) = some .dir) (hm : fs.node (p ++ ns.take k) = none) :
    fs.walk p ns = .error .fileNotFoundError := by
  induction ns generalizing p k with
  | nil => simp at hk
  | cons n ns ih =>
    have hn := h n (by simp)
    unfold Fs.walk
    cases k with
    | zero =>
      simp only [List.take_zero, List.append_nil] at hm
      simp only [Fs.inDir, hm]
      rfl
    | succ k =>
      have h0 := hd 0 (by omega)
      simp only [List.take_zero, List.append_nil] at h0
      simp only [Fs.inDir, h0, Py.ok_bind, if_neg hn.dot, if_neg hn.dots]
      refine ih (p := p ++ [n]) (fun m hm => h m (by simp [hm])) (k := k) (by simpa using hk) (fun j hj => ?_) ?_
      · have := hd (j + 1) (by omega)
        simpa using this
      · simpa using hm

theorem set_same (fs : Fs) (p : List PyStr) (x : FsNode) : (fs.set p x).node p = some x := by simp [Fs.set]

theorem set_other (fs : Fs) {p q : List PyStr} (x : FsNode) (h : q ≠ p) : (fs.set p x).node q = fs.node q := by
  simp [Fs.set, h]

theorem mkdir_sets {fs fs' : Fs} {s : PyStr} (h : fs.mkdir s = .ok fs') : ∃ p, fs.node p = none ∧ fs' = fs.set p .dir := by
  unfold Fs.mkdir at h
  split at h
  · cases h
  split at h
  · cases h
  obtain ⟨p, -, h⟩ := bind_ok h
  obtain ⟨_, -, h⟩ := bind_ok h
  split at h
  · cases h
  split at h
  · cases h
  · rename_i hn
    injection h with h
    exact ⟨_, hn, h.symm⟩

theorem openWb_sets {fs fs' : Fs} {s : PyStr} {p : List PyStr} (h : fs.openWb s = .ok (p, fs')) :
    fs.node p ≠ some .dir ∧ fs' = fs.set p (.file []) := by
  unfold Fs.openWb at h
  split at h
  · cases h
  split at h
  · cases h
  obtain ⟨q, -, h⟩ := bind_ok h
  obtain ⟨_, -, h⟩ := bind_ok h
  split at h
  · cases h
  split at h
  · cases h
  · rename_i hn
    split at h
    · cases h
    injection h with h
    obtain ⟨rfl, rfl⟩ := Prod.mk.inj h
    exact ⟨by rw [hn]; simp, rfl⟩
  · rename_i hn
    split at h
    · cases h
    injection h with h
    obtain ⟨rfl, rfl⟩ := Prod.mk.inj h
    exact ⟨by rw [hn]; simp, rfl⟩

theorem ensureDir_sets {fs fs1 : Fs} {direc : Option PyStr} {d : PyStr} (h : ensureDir direc fs = .ok (d, fs1)) :
    direc = some d ∧ (fs1 = fs ∨ ∃ p, fs.node p = none ∧ fs1 = fs.set p .dir) := by
  cases direc with
  | none => cases h
  | some d' =>
    simp only [ensureDir] at h
    split at h
    · injection h with h
      obtain ⟨rfl, rfl⟩ := Prod.mk.inj h
      exact ⟨rfl, Or.inl rfl⟩
    · cases hm : fs.mkdir d' with
      | error e => rw [hm] at h; cases h
      | ok fs' =>
        rw [hm] at h
        injection h with h
        obtain ⟨rfl, rfl⟩ := Prod.mk.inj h
        exact ⟨rfl, Or.inr (mkdir_sets hm)⟩

theorem set_set (fs : Fs) (p : List PyStr) (x y : FsNode) : (fs.set p x).set p y = fs.set p y := by
  simp [Fs.set]

/-- Writing to `a/b/f` goes to that path. -/
theorem openWb_path {fs fs' : Fs} {abs : Bool} {cs : List PyStr} {f : PyStr} (h : ProperDir abs cs) (hf : ProperName f) {p : List PyStr}
    (ho : fs.openWb (dirString abs cs ++ f) = .ok (p, fs')) : p = fs.base abs ++ cs ++ [f] := by
  unfold Fs.openWb at ho
  rw [if_neg (dirString_ne h f), names_dir h.proper, names_name hf, start_dir fs h] at ho
  simp only [List.getLast?_append, List.getLast?_singleton, Option.some_or, List.dropLast_append_of_ne_nil (List.cons_ne_nil f []),
    List.dropLast_singleton, List.append_nil] at ho
  obtain ⟨q, hq, ho⟩ := bind_ok ho
  obtain ⟨_, -, ho⟩ := bind_ok ho
  rw [walk_ok h.proper hq] at ho
  split at ho
  · cases ho
  split at ho
  · cases ho
  · split at ho
    · cases ho
    injection ho with ho
    exact (Prod.mk.inj ho).1.symm
  · split at ho
    · cases ho
    injection ho with ho
    exact (Prod.mk.inj ho).1.symm

theorem last_name {s f : PyStr} (hf : ProperName f) : (s ++ f).getLast? ≠ some '/' := by
  intro h
  rw [List.getLast?_append_of_ne_nil _ hf.ne] at h
  exact hf.slash (List.mem_of_getLast? h)

theorem openWb_is {fs : Fs} {abs : Bool} {cs : List PyStr} {f : PyStr} (h : ProperDir abs cs) (hf : ProperName f)
    (hp : fs.Parents (fs.base abs) cs) (hd : fs.node (fs.base abs ++ cs) = some .dir) (ht : fs.node (fs.base abs ++ cs ++ [f]) ≠ some .dir) :
    fs.openWb (dirString abs cs ++ f) = .ok (fs.base abs ++ cs ++ [f], fs.set (fs.base abs ++ cs ++ [f]) (.file [])) := by
  unfold Fs.openWb
  rw [if_neg (dirString_ne h f), names_dir h.proper, names_name hf, start_dir fs h]
  simp only [List.getLast?_append, List.getLast?_singleton, Option.some_or, List.dropLast_append_of_ne_nil (List.cons_ne_nil f []),
    List.dropLast_singleton, List.append_nil, walk_is h.proper hp, Py.ok_bind, Fs.inDir, hd, hf.dot, hf.dots, or_self, if_false,
    Bool.false_eq_true]
  have hl : ¬ ((List.getLast? f).or (List.getLast? (dirString abs cs)) = some '/') := by
    have := last_name (s := dirString abs cs) hf
    rwa [List.getLast?_append] at this
  cases hn : fs.node (fs.base abs ++ cs ++ [f]) with
  | none => simp only [hl, if_false]
  | some x =>
    cases x with
    | dir => exact absurd hn ht
    | file d => simp only [hl, if_false]

theorem isdir_is {fs : Fs} {abs : Bool} {cs : List PyStr} (h : ProperDir abs cs) (hp : fs.Parents (fs.base abs) cs) :
    fs.isdir (dirString abs cs) = decide (fs.node (fs.base abs ++ cs) = some .dir) := by
  have e := names_dir (abs := abs) h.proper []
  have e2 := start_dir fs h []
  have e3 := dirString_ne h []
  rw [List.append_nil] at e e2 e3
  rw [names_nil, List.append_nil] at e
  unfold Fs.isdir
  rw [if_neg e3, e, e2]
  simp only [walk_is h.proper hp]
  cases hn : fs.node (fs.base abs ++ cs) with
  | none => simp
  | some x => cases x <;> simp

theorem mkdir_is {fs : Fs} {abs : Bool} {cs : List PyStr} (h : ProperDir abs cs) (hp : fs.Parents (fs.base abs) cs) (hne : cs ≠ [])
    (hm : fs.node (fs.base abs ++ cs) = none) : fs.mkdir (dirString abs cs) = .ok (fs.set (fs.base abs ++ cs) .dir) := by
  have e := names_dir (abs := abs) h.proper []
  have e2 := start_dir fs h []
  have e3 := dirString_ne h []
  rw [List.append_nil] at e e2 e3
  rw [names_nil, List.append_nil] at e
  obtain ⟨cs', n, rfl⟩ : ∃ cs' n, cs = cs' ++ [n] := ⟨_, _, (List.dropLast_append_getLast hne).symm⟩
  have hn := h.proper n (by simp)
  have hp' : fs.Parents (fs.base abs) cs' := fun k hk => by
    have := hp k (by simp; omega)
    rwa [List.take_append_of_le_length hk.le] at this
  have hl : fs.node (fs.base abs ++ cs') = some .dir := by
    have := hp cs'.length (by simp)
    rwa [List.take_left'] at this
    rfl
  unfold Fs.mkdir
  rw [if_neg e3, e, e2]
  rw [← List.append_assoc] at hm
  simp only [List.getLast?_append, List.getLast?_singleton, Option.some_or, List.dropLast_append_of_ne_nil (List.cons_ne_nil n []),
    List.dropLast_singleton, List.append_nil, walk_is (fun m hm => h.proper m (by simp [hm])) hp', Py.ok_bind, Fs.inDir, hl, hn.dot, hn.dots,
    or_self, if_false, hm, List.append_assoc]
  simp only [List.append_assoc] at hm
  simp only [hm]

theorem base_set (fs : Fs) (p : List PyStr) (x : FsNode) (abs : Bool) : (fs.set p x).base abs = fs.base abs := rfl

theorem ensureDir_is {fs : Fs} {abs : Bool} {cs : List PyStr} (h : ProperDir abs cs) (hp : fs.Parents (fs.base abs) cs)
    (hd : fs.node (fs.base abs ++ cs) = some .dir ∨ (cs ≠ [] ∧ fs.node (fs.base abs ++ cs) = none)) :
    ∃ fs1, ensureDir (some (dirString abs cs)) fs = .ok (dirString abs cs, fs1) ∧ fs1.node (fs.base abs ++ cs) = some .dir ∧
      fs1.cwd = fs.cwd ∧ ∀ q, q ≠ fs.base abs ++ cs → fs1.node q = fs.node q := by
  rcases hd with hd | ⟨hne, hd⟩
  · exact ⟨fs, by simp [ensureDir, isdir_is h hp, hd], hd, rfl, fun _ _ => rfl⟩
  · refine ⟨fs.set (fs.base abs ++ cs) .dir, ?_, set_same _ _ _, rfl, fun q hq => set_other _ _ hq⟩
    simp [ensureDir, isdir_is h hp, hd, mkdir_is h hp hne hd, Except.map]

theorem parents_congr {fs fs1 : Fs} {p cs : List PyStr} (h : fs.Parents p cs) (h1 : ∀ q, q ≠ p ++ cs → fs1.node q = fs.node q) :
    fs1.Parents p cs := fun k hk => by
  rw [h1 _ (fun e => ?_)]
  · exact h k hk
  · have := congrArg List.length e
    simp at this
    omega

/-! ### C51 -/

/-- `dill_dump(f, "a/b/")`: if the directories above `a/b` exist and `a/b` is a directory or missing, then afterwards it is a directory, the file
`a/b/f` holds the pickled component, and nothing else has changed. -/
theorem C51_saved {fs : Fs} {abs : Bool} {cs : List PyStr} {f : PyStr} (h : ProperDir abs cs) (hf : ProperName f)
    (hp : fs.Parents (fs.base abs) cs)
    (hd : fs.node (fs.base abs ++ cs) = some .dir ∨ (cs ≠ [] ∧ fs.node (fs.base abs ++ cs) = none))
    (ht : fs.node (fs.base abs ++ cs ++ [f]) ≠ some .dir) (data : List UInt8) :
    ∃ fs', dillDump ⟨data, none⟩ f (some (dirString abs cs)) fs = (.ok (), fs') ∧
      fs'.node (fs.base abs ++ cs) = some .dir ∧ fs'.node (fs.base abs ++ cs ++ [f]) = some (.file data) ∧
      (∀ q, q ≠ fs.base abs ++ cs → q ≠ fs.base abs ++ cs ++ [f] → fs'.node q = fs.node q) ∧
      fs'.read (dirString abs cs ++ f) = .ok data := by
  obtain ⟨fs1, e1, n1, c1, o1⟩ := ensureDir_is h hp hd
  have b1 : fs1.base abs = fs.base abs := by simp [Fs.base, c1]
  have hne : fs.base abs ++ cs ++ [f] ≠ fs.base abs ++ cs := by simp
  have hne' : fs.base abs ++ cs ≠ fs.base abs ++ cs ++ [f] := by simp
  have e2 := openWb_is (fs := fs1) h hf (by rw [b1]; exact parents_congr hp o1) (by rw [b1]; exact n1) (by rw [b1, o1 _ hne]; exact ht)
  rw [b1] at e2
  set P := fs.base abs ++ cs with hP
  have key : ∀ q, q ≠ P → q ≠ P ++ [f] → (fs1.set (P ++ [f]) (.file data)).node q = fs.node q := fun q a b => by
    rw [set_other _ _ b, o1 q a]
  refine ⟨fs1.set (P ++ [f]) (.file data), ?_, ?_, set_same _ _ _, key, ?_⟩
  · simp only [dillDump, e1, e2, set_set]
  · rw [set_other _ _ hne', n1]
  · have hb : (fs1.set (P ++ [f]) (.file data)).base abs = fs.base abs := b1
    have hw : (fs1.set (P ++ [f]) (.file data)).walk (fs.base abs) (cs ++ [f]) = .ok (P ++ [f]) := by
      rw [walk_is, ← List.append_assoc]
      · intro n hn
        rcases List.mem_append.1 hn with hn | hn
        · exact h.proper n hn
        · rw [List.mem_singleton.1 hn]; exact hf
      · intro k hk
        simp only [List.length_append, List.length_singleton] at hk
        rw [List.take_append_of_le_length (by omega)]
        rcases Nat.lt_or_ge k cs.length with hk' | hk'
        · have hl : (fs.base abs ++ cs.take k).length < P.length := by simp [hP]; omega
          rw [set_other _ _ (fun e => by have := congrArg List.length e; simp at this hl; omega),
            o1 _ (fun e => by rw [e] at hl; omega)]
          exact hp k hk'
        · rw [List.take_of_length_le hk', ← hP, set_other _ _ hne', n1]
    unfold Fs.read
    rw [if_neg (dirString_ne h f), names_dir h.proper, names_name hf, start_dir _ h, hb, hw]
    simp only [Py.ok_bind, set_same, last_name hf, if_false]

/-- What a call or a crash during a call can do: create one directory, then write one file. -/
theorem dump_cases (pk : Pickle) (fname : PyStr) (direc : Option PyStr) (fs fs' : Fs)
    (h : fs' = (dillDump pk fname direc fs).2 ∨ fs' ∈ dillCrash pk fname direc fs) :
    fs' = fs ∨ ∃ d fs1, ensureDir direc fs = .ok (d, fs1) ∧ (fs' = fs1 ∨ ∃ P k, (fs1.openWb (d ++ fname)).map Prod.fst = .ok P ∧
      fs1.node P ≠ some .dir ∧ k ≤ pk.data.length ∧ fs' = fs1.set P (.file (pk.data.take k))) := by
  rcases h with h | h
  · unfold dillDump at h
    cases he : ensureDir direc fs with
    | error e => rw [he] at h; exact Or.inl h
    | ok r =>
      obtain ⟨d, fs1⟩ := r
      simp only [he] at h
      cases ho : fs1.openWb (d ++ fname) with
      | error e => simp only [ho] at h; exact Or.inr ⟨d, fs1, rfl, Or.inl h⟩
      | ok r =>
        obtain ⟨P, fs2⟩ := r
        simp only [ho] at h
        obtain ⟨h1, rfl⟩ := openWb_sets ho
        refine Or.inr ⟨d, fs1, rfl, Or.inr ⟨P, pk.data.length, by rw [ho]; rfl, h1, le_rfl, ?_⟩⟩
        rw [h, set_set, List.take_length]
  · rcases h with h | ⟨d, fs1, he, h⟩
    · exact Or.inl h
    · refine Or.inr ⟨d, fs1, he, ?_⟩
      rcases h with h | ⟨P, fs2, ho, k, hk, h⟩
      · exact Or.inl h
      · obtain ⟨h1, rfl⟩ := openWb_sets ho
        exact Or.inr ⟨P, k, by rw [ho]; rfl, h1, hk, by rw [h, set_set]⟩

theorem ensureDir_keeps {fs fs1 : Fs} {direc : Option PyStr} {d : PyStr} (h : ensureDir direc fs = .ok (d, fs1)) (q : List PyStr) (x : FsNode)
    (hq : fs.node q = some x) : fs1.node q = some x := by
  obtain ⟨-, rfl | ⟨D, hD, rfl⟩⟩ := ensureDir_sets h
  · exact hq
  · rw [set_other _ _ (fun e => by rw [e, hD] at hq; cases hq), hq]

/-- For all arguments, whatever the outcome, and if the call is cut short: directories are never lost, and at most one existing file
changes. -/
theorem C51_frame (pk : Pickle) (fname : PyStr) (direc : Option PyStr) (fs fs' : Fs)
    (h : fs' = (dillDump pk fname direc fs).2 ∨ fs' ∈ dillCrash pk fname direc fs) :
    (∀ q, fs.node q = some .dir → fs'.node q = some .dir) ∧
    ∃ P, ∀ q ≠ P, ∀ x, fs.node q = some (.file x) → fs'.node q = some (.file x) := by
  rcases dump_cases pk fname direc fs fs' h with rfl | ⟨d, fs1, he, rfl | ⟨P, k, -, hP, -, rfl⟩⟩
  · exact ⟨fun q hq => hq, [], fun q _ x hq => hq⟩
  · exact ⟨fun q hq => ensureDir_keeps he q _ hq, [], fun q _ x hq => ensureDir_keeps he q _ hq⟩
  · refine ⟨fun q hq => ?_, P, fun q hne x hq => ?_⟩
    · have := ensureDir_keeps he q _ hq
      rw [set_other _ _ (fun e => by rw [e] at this; exact hP this), this]
    · rw [set_other _ _ hne, ensureDir_keeps he q _ hq]

theorem mkdir_path {fs fs' : Fs} {abs : Bool} {cs : List PyStr} (h : ProperDir abs cs) (hm : fs.mkdir (dirString abs cs) = .ok fs') :
    fs.node (fs.base abs ++ cs) = none ∧ fs' = fs.set (fs.base abs ++ cs) .dir := by
  have e := names_dir (abs := abs) h.proper []
  have e2 := start_dir fs h []
  have e3 := dirString_ne h []
  rw [List.append_nil] at e e2 e3
  rw [names_nil, List.append_nil] at e
  unfold Fs.mkdir at hm
  rw [if_neg e3, e, e2] at hm
  rcases List.eq_nil_or_concat cs with rfl | ⟨cs', n, hcs⟩
  · simp at hm
  · rw [List.concat_eq_append] at hcs
    subst hcs
    simp only [List.getLast?_append, List.getLast?_singleton, Option.some_or, List.dropLast_append_of_ne_nil (List.cons_ne_nil n []),
      List.dropLast_singleton, List.append_nil] at hm
    obtain ⟨q, hq, hm⟩ := bind_ok hm
    obtain ⟨_, -, hm⟩ := bind_ok hm
    rw [walk_ok (fun m hm => h.proper m (by simp [hm])) hq] at hm
    rw [← List.append_assoc]
    split at hm
    · cases hm
    split at hm
    · cases hm
    · rename_i hn
      injection hm with hm
      exact ⟨hn, hm.symm⟩

theorem ensureDir_path {fs fs1 : Fs} {abs : Bool} {cs : List PyStr} {d : PyStr} (h : ProperDir abs cs)
    (he : ensureDir (some (dirString abs cs)) fs = .ok (d, fs1)) :
    d = dirString abs cs ∧ (fs1 = fs ∨ fs.node (fs.base abs ++ cs) = none ∧ fs1 = fs.set (fs.base abs ++ cs) .dir) := by
  simp only [ensureDir] at he
  split at he
  · injection he with he
    obtain ⟨rfl, rfl⟩ := Prod.mk.inj he
    exact ⟨rfl, Or.inl rfl⟩
  · cases hm : fs.mkdir (dirString abs cs) with
    | error e => rw [hm] at he; cases he
    | ok fs' =>
      rw [hm] at he
      injection he with he
      obtain ⟨rfl, rfl⟩ := Prod.mk.inj he
      exact ⟨rfl, Or.inr (mkdir_path h hm)⟩

/-- With `direc` a directory string (relative or absolute) and `fname` a name, whatever the outcome and also if the call is cut short: every path
other than `direc` and `direc`/`fname` is as before, `direc` is as before or a new directory, and the file holds what it held before or
a beginning of the new data. -/
theorem C51_crash (pk : Pickle) {fs fs' : Fs} {abs : Bool} {cs : List PyStr} {f : PyStr} (hc : ProperDir abs cs) (hf : ProperName f)
    (h : fs' = (dillDump pk f (some (dirString abs cs)) fs).2 ∨ fs' ∈ dillCrash pk f (some (dirString abs cs)) fs) :
    (∀ q, q ≠ fs.base abs ++ cs → q ≠ fs.base abs ++ cs ++ [f] → fs'.node q = fs.node q) ∧
    (fs'.node (fs.base abs ++ cs) = fs.node (fs.base abs ++ cs) ∨
      fs.node (fs.base abs ++ cs) = none ∧ fs'.node (fs.base abs ++ cs) = some .dir) ∧
    (fs'.node (fs.base abs ++ cs ++ [f]) = fs.node (fs.base abs ++ cs ++ [f]) ∨
      ∃ k ≤ pk.data.length, fs'.node (fs.base abs ++ cs ++ [f]) = some (.file (pk.data.take k))) := by
  have hne : fs.base abs ++ cs ++ [f] ≠ fs.base abs ++ cs := by simp
  have hne' : fs.base abs ++ cs ≠ fs.base abs ++ cs ++ [f] := by simp
  rcases dump_cases pk _ _ fs fs' h with rfl | ⟨d, fs1, he, rfl | ⟨P, k, ho, hP, hk, rfl⟩⟩
  · exact ⟨fun q _ _ => rfl, Or.inl rfl, Or.inl rfl⟩
  · obtain ⟨-, rfl | ⟨hn, rfl⟩⟩ := ensureDir_path hc he
    · exact ⟨fun q _ _ => rfl, Or.inl rfl, Or.inl rfl⟩
    · exact ⟨fun q h1 _ => set_other _ _ h1, Or.inr ⟨hn, set_same _ _ _⟩, Or.inl (set_other _ _ hne)⟩
  · obtain ⟨rfl, h1⟩ := ensureDir_path hc he
    cases ho' : fs1.openWb (dirString abs cs ++ f) with
    | error e => rw [ho'] at ho; cases ho
    | ok r =>
      obtain ⟨P', fs2⟩ := r
      rw [ho'] at ho
      injection ho with ho
      have hP' := openWb_path hc hf ho'
      have hb : fs1.base abs = fs.base abs := by
        rcases h1 with rfl | ⟨-, rfl⟩ <;> rfl
      replace ho : P' = P := ho
      rw [hb, ho] at hP'
      subst hP'
      refine ⟨fun q h2 h3 => ?_, ?_, Or.inr ⟨k, hk, set_same _ _ _⟩⟩
      · rw [set_other _ _ h3]
        rcases h1 with rfl | ⟨-, rfl⟩
        · rfl
        · exact set_other _ _ h2
      · rw [set_other _ _ hne']
        rcases h1 with rfl | ⟨hn, rfl⟩
        · exact Or.inl rfl
        · exact Or.inr ⟨hn, set_same _ _ _⟩

/-- A save to `a/b/f`. -/
structure SaveCall where
  pk : Pickle
  abs : Bool
  cs : List PyStr
  f : PyStr
  dir : ProperDir abs cs
  name : ProperName f

/-- The file system after a sequence of calls, each of which may fail. -/
def afterSaves (calls : List SaveCall) (fs : Fs) : Fs :=
  calls.foldl (fun fs c => (dillDump c.pk c.f (some (dirString c.abs c.cs)) fs).2) fs

theorem dump_cwd (pk : Pickle) (fname : PyStr) (direc : Option PyStr) (fs : Fs) : (dillDump pk fname direc fs).2.cwd = fs.cwd := by
  have h1 : ∀ {d fs1}, ensureDir direc fs = .ok (d, fs1) → fs1.cwd = fs.cwd := fun {d fs1} h => by
    obtain ⟨-, rfl | ⟨D, -, rfl⟩⟩ := ensureDir_sets h <;> rfl
  rcases dump_cases pk fname direc fs _ (Or.inl rfl) with h | ⟨d, fs1, he, h | ⟨P, k, -, -, -, h⟩⟩
  · rw [h]
  · rw [h, h1 he]
  · rw [h]
    show fs1.cwd = fs.cwd
    exact h1 he

/-- Saved files stay: after any sequence of saves to other files, successful or not, a file still holds what it held before. -/
theorem C51_kept (calls : List SaveCall) (fs : Fs) (P : List PyStr) (data : List UInt8) (hP : fs.node P = some (.file data))
    (h : ∀ c ∈ calls, fs.base c.abs ++ c.cs ++ [c.f] ≠ P) : (afterSaves calls fs).node P = some (.file data) := by
  induction calls generalizing fs with
  | nil => exact hP
  | cons c calls ih =>
    show (afterSaves calls (dillDump c.pk c.f (some (dirString c.abs c.cs)) fs).2).node P = _
    obtain ⟨h1, h2, -⟩ := C51_crash c.pk c.dir c.name (fs := fs) (Or.inl rfl)
    refine ih _ ?_ (fun c' hc' => ?_)
    · by_cases hd : P = fs.base c.abs ++ c.cs
      · subst hd
        rcases h2 with h2 | ⟨h2, -⟩
        · rw [h2, hP]
        · rw [hP] at h2; cases h2
      · rw [h1 P hd (fun e => h c (by simp) e.symm), hP]
    · have : (dillDump c.pk c.f (some (dirString c.abs c.cs)) fs).2.base c'.abs = fs.base c'.abs := by
        simp [Fs.base, dump_cwd]
      rw [this]
      exact h c' (by simp [hc'])

/-- Saving is not atomic: a crash while an existing file is overwritten can leave it empty. -/
theorem C51_not_atomic {fs : Fs} {abs : Bool} {cs : List PyStr} {f : PyStr} (h : ProperDir abs cs) (hf : ProperName f)
    (hp : fs.Parents (fs.base abs) cs) (hd : fs.node (fs.base abs ++ cs) = some .dir) {old : List UInt8}
    (ht : fs.node (fs.base abs ++ cs ++ [f]) = some (.file old)) (pk : Pickle) :
    ∃ fs' ∈ dillCrash pk f (some (dirString abs cs)) fs, fs'.node (fs.base abs ++ cs ++ [f]) = some (.file []) := by
  have e1 : ensureDir (some (dirString abs cs)) fs = .ok (dirString abs cs, fs) := by simp [ensureDir, isdir_is h hp, hd]
  have e2 := openWb_is h hf hp hd (by rw [ht]; simp)
  exact ⟨_, Or.inr ⟨_, _, e1, Or.inr ⟨_, _, e2, 0, by omega, rfl⟩⟩, set_same _ _ _⟩

/-- A component that cannot be pickled: the exception of `dill` is raised, and what the file held before is gone. -/
theorem C51_unpicklable {fs : Fs} {abs : Bool} {cs : List PyStr} {f : PyStr} (h : ProperDir abs cs) (hf : ProperName f)
    (hp : fs.Parents (fs.base abs) cs) (hd : fs.node (fs.base abs ++ cs) = some .dir) {old : List UInt8}
    (ht : fs.node (fs.base abs ++ cs ++ [f]) = some (.file old)) (part : List UInt8) (e : PyErr) :
    ∃ fs', dillDump ⟨part, some e⟩ f (some (dirString abs cs)) fs = (.error e, fs') ∧
      fs'.node (fs.base abs ++ cs ++ [f]) = some (.file part) := by
  have e1 : ensureDir (some (dirString abs cs)) fs = .ok (dirString abs cs, fs) := by simp [ensureDir, isdir_is h hp, hd]
  have e2 := openWb_is h hf hp hd (by rw [ht]; simp)
  refine ⟨fs.set (fs.base abs ++ cs ++ [f]) (.file part), ?_, set_same _ _ _⟩
  simp only [dillDump, e1, e2, set_set]

/-- Only the last directory is created: if one above it is missing, `FileNotFoundError` is raised and nothing is changed. -/
theorem C51_nested {fs : Fs} {abs : Bool} {cs : List PyStr} (h : ProperDir abs cs) {k : ℕ} (hk : k + 1 < cs.length)
    (hd : ∀ j ≤ k, fs.node (fs.base abs ++ cs.take j) = some .dir) (hm : fs.node (fs.base abs ++ cs.take (k + 1)) = none)
    (pk : Pickle) (f : PyStr) : dillDump pk f (some (dirString abs cs)) fs = (.error .fileNotFoundError, fs) := by
  have e := names_dir (abs := abs) h.proper []
  have e2 := start_dir fs h []
  have e3 := dirString_ne h []
  rw [List.append_nil] at e e2 e3
  rw [names_nil, List.append_nil] at e
  have w1 := walk_missing h.proper hk (fun j hj => hd j (by omega)) hm
  have h1 : fs.isdir (dirString abs cs) = false := by
    unfold Fs.isdir
    rw [if_neg e3, e, e2, w1]
  have h2 : fs.mkdir (dirString abs cs) = .error .fileNotFoundError := by
    unfold Fs.mkdir
    rw [if_neg e3, e, e2]
    rcases List.eq_nil_or_concat cs with rfl | ⟨cs', n, hcs⟩
    · simp at hk
    · rw [List.concat_eq_append] at hcs
      subst hcs
      simp only [List.length_append, List.length_singleton] at hk
      simp only [List.getLast?_append, List.getLast?_singleton, Option.some_or, List.dropLast_append_of_ne_nil (List.cons_ne_nil n []),
        List.dropLast_singleton, List.append_nil]
      rcases Nat.lt_or_ge (k + 1) cs'.length with hk' | hk'
      · rw [walk_missing (k := k + 1) (fun m hm => h.proper m (by simp [hm])) hk' (fun j hj => ?_) ?_]
        · rfl
        · rwa [List.take_append_of_le_length (by omega)] at hm
        · have := hd j (by omega)
          rwa [List.take_append_of_le_length (by omega)] at this
      · have hk2 : k + 1 = cs'.length := by omega
        rw [walk_is (fun m hm => h.proper m (by simp [hm])) (fun j hj => ?_)]
        · rw [List.take_append_of_le_length (by omega), List.take_of_length_le hk'] at hm
          simp only [Py.ok_bind, Fs.inDir, hm]
          rfl
        · have := hd j (by omega)
          rwa [List.take_append_of_le_length (by omega)] at this
  simp only [dillDump, ensureDir, h1, h2, Except.map, Bool.false_eq_true, if_false]

/-- If `direc` names a file, `FileExistsError` is raised and nothing is changed. -/
theorem C51_blocked {fs : Fs} {abs : Bool} {cs : List PyStr} (h : ProperDir abs cs) (hne : cs ≠ []) (hp : fs.Parents (fs.base abs) cs)
    {x : List UInt8} (hx : fs.node (fs.base abs ++ cs) = some (.file x)) (pk : Pickle) (f : PyStr) :
    dillDump pk f (some (dirString abs cs)) fs = (.error .fileExistsError, fs) := by
  have e := names_dir (abs := abs) h.proper []
  have e2 := start_dir fs h []
  have e3 := dirString_ne h []
  rw [List.append_nil] at e e2 e3
  rw [names_nil, List.append_nil] at e
  have h1 : fs.isdir (dirString abs cs) = false := by rw [isdir_is h hp, hx]; simp
  have h2 : fs.mkdir (dirString abs cs) = .error .fileExistsError := by
    unfold Fs.mkdir
    rw [if_neg e3, e, e2]
    obtain ⟨cs', n, rfl⟩ : ∃ cs' n, cs = cs' ++ [n] := ⟨_, _, (List.dropLast_append_getLast hne).symm⟩
    have hn := h.proper n (by simp)
    have hp' : fs.Parents (fs.base abs) cs' := fun k hk => by
      have := hp k (by simp; omega)
      rwa [List.take_append_of_le_length hk.le] at this
    have hl : fs.node (fs.base abs ++ cs') = some .dir := by
      have := hp cs'.length (by simp)
      rwa [List.take_left'] at this
      rfl
    simp only [List.getLast?_append, List.getLast?_singleton, Option.some_or, List.dropLast_append_of_ne_nil (List.cons_ne_nil n []),
      List.dropLast_singleton, List.append_nil, walk_is (fun m hm => h.proper m (by simp [hm])) hp', Py.ok_bind, Fs.inDir, hl, hn.dot, hn.dots,
      or_self, if_false, List.append_assoc, hx]
  simp only [dillDump, ensureDir, h1, h2, Except.map, Bool.false_eq_true, if_false]

/-- If `direc`/`fname` is a directory, `IsADirectoryError` is raised and nothing is changed. -/
theorem C51_is_directory {fs : Fs} {abs : Bool} {cs : List PyStr} {f : PyStr} (h : ProperDir abs cs) (hf : ProperName f)
    (hp : fs.Parents (fs.base abs) cs) (hd : fs.node (fs.base abs ++ cs) = some .dir) (ht : fs.node (fs.base abs ++ cs ++ [f]) = some .dir)
    (pk : Pickle) : dillDump pk f (some (dirString abs cs)) fs = (.error .isADirectoryError, fs) := by
  have e1 : ensureDir (some (dirString abs cs)) fs = .ok (dirString abs cs, fs) := by simp [ensureDir, isdir_is h hp, hd]
  have e2 : fs.openWb (dirString abs cs ++ f) = .error .isADirectoryError := by
    unfold Fs.openWb
    rw [if_neg (dirString_ne h f), names_dir h.proper, names_name hf, start_dir fs h]
    simp only [List.getLast?_append, List.getLast?_singleton, Option.some_or, List.dropLast_append_of_ne_nil (List.cons_ne_nil f []),
      List.dropLast_singleton, List.append_nil, walk_is h.proper hp, Py.ok_bind, Fs.inDir, hd, hf.dot, hf.dots, or_self, if_false, ht]
  simp only [dillDump, e1, e2]

/-- Without `direc`, which is declared optional, `TypeError` is raised. -/
theorem C51_default (pk : Pickle) (f : PyStr) (fs : Fs) : dillDump pk f none fs = (.error .typeError, fs) := rfl

/-- If `direc` does not end with a slash, `dill_dump(f, "a/b")` makes the directory `a/b` but writes the file `a/bf` beside it. -/
theorem C51_no_slash {fs : Fs} {abs : Bool} {cs : List PyStr} {n f : PyStr} (h : ∀ m ∈ cs, ProperName m) (hn : ProperName n) (hf : ProperName f)
    (hp : fs.Parents (fs.base abs) cs) (hd : fs.node (fs.base abs ++ cs) = some .dir)
    (hm : fs.node (fs.base abs ++ cs ++ [n]) = none) (ht : fs.node (fs.base abs ++ cs ++ [n ++ f]) = none) (data : List UInt8) :
    ∃ fs', dillDump ⟨data, none⟩ f (some (dirString abs cs ++ n)) fs = (.ok (), fs') ∧
      fs'.node (fs.base abs ++ cs ++ [n]) = some .dir ∧ fs'.node (fs.base abs ++ cs ++ [n ++ f]) = some (.file data) ∧
      ∀ q, q ≠ fs.base abs ++ cs ++ [n] → q ≠ fs.base abs ++ cs ++ [n ++ f] → fs'.node q = fs.node q := by
  have hst : ∀ {m : PyStr}, ProperName m → (dirString abs cs ++ m ≠ [] ∧ fs.start (dirString abs cs ++ m) = fs.base abs) := by
    intro m hm'
    by_cases hc : abs = true ∨ cs ≠ []
    · exact ⟨dirString_ne ⟨h, hc⟩ m, start_dir fs ⟨h, hc⟩ m⟩
    · push Not at hc
      obtain ⟨h1, rfl⟩ := hc
      have h1 : abs = false := by simpa using h1
      subst h1
      obtain ⟨x, m', rfl⟩ := List.exists_cons_of_ne_nil hm'.ne
      have : x ≠ '/' := fun e => hm'.slash (by simp [e])
      simp [dirString, Fs.start, Fs.base, this]
  have hnf : ProperName (n ++ f) := by
    obtain ⟨x, n', rfl⟩ := List.exists_cons_of_ne_nil hn.ne
    obtain ⟨y, f', rfl⟩ := List.exists_cons_of_ne_nil hf.ne
    refine ⟨by simp, fun e => ?_, fun e => ?_, fun e => ?_⟩
    · rcases List.mem_append.1 e with e | e
      · exact hn.slash e
      · exact hf.slash e
    · have := congrArg List.length e
      simp at this
    · have hx : x = '.' := by
        have := congrArg List.head? e
        simpa using this
      have hl := congrArg List.length e
      simp at hl
      have hn' : n' = [] := List.eq_nil_of_length_eq_zero (by omega)
      subst hn'
      exact hn.dot (by rw [hx]; rfl)
  have names1 : Fs.names (dirString abs cs ++ n) = cs ++ [n] := by rw [names_dir h, names_name hn]
  have names2 : Fs.names (dirString abs cs ++ (n ++ f)) = cs ++ [n ++ f] := by rw [names_dir h, names_name hnf]
  have hpn : fs.Parents (fs.base abs) (cs ++ [n]) := fun k hk => by
    simp only [List.length_append, List.length_singleton] at hk
    rw [List.take_append_of_le_length (by omega)]
    rcases Nat.lt_or_ge k cs.length with hk' | hk'
    · exact hp k hk'
    · rw [List.take_of_length_le hk', hd]
  have hall : ∀ m ∈ cs ++ [n], ProperName m := fun m hm => by
    rcases List.mem_append.1 hm with hm | hm
    · exact h m hm
    · rw [List.mem_singleton.1 hm]; exact hn
  have h1 : fs.isdir (dirString abs cs ++ n) = false := by
    unfold Fs.isdir
    rw [if_neg (hst hn).1, names1, (hst hn).2, walk_is hall hpn]
    simp only [← List.append_assoc, hm]
  have h2 : fs.mkdir (dirString abs cs ++ n) = .ok (fs.set (fs.base abs ++ cs ++ [n]) .dir) := by
    unfold Fs.mkdir
    rw [if_neg (hst hn).1, names1, (hst hn).2]
    simp only [List.getLast?_append, List.getLast?_singleton, Option.some_or, List.dropLast_append_of_ne_nil (List.cons_ne_nil n []),
      List.dropLast_singleton, List.append_nil, walk_is h hp, Py.ok_bind, Fs.inDir, hd, hn.dot, hn.dots, or_self, if_false, hm]
  set fs1 := fs.set (fs.base abs ++ cs ++ [n]) .dir with hfs1
  have hlen : ∀ k ≤ cs.length, fs1.node (fs.base abs ++ cs.take k) = fs.node (fs.base abs ++ cs.take k) := fun k hk =>
    set_other _ _ (fun e => by have := congrArg List.length e; simp at this; omega)
  have hd1 : fs1.node (fs.base abs ++ cs) = some .dir := by
    have := hlen cs.length le_rfl
    rw [List.take_length] at this
    rw [this, hd]
  have hnn : n ++ f ≠ n := by simpa using hf.ne
  have ht1 : fs1.node (fs.base abs ++ cs ++ [n ++ f]) = none := by
    rw [set_other _ _ (fun e => hnn (by simpa using e)), ht]
  have h3 : fs1.openWb ((dirString abs cs ++ n) ++ f) =
      .ok (fs.base abs ++ cs ++ [n ++ f], fs1.set (fs.base abs ++ cs ++ [n ++ f]) (.file [])) := by
    unfold Fs.openWb
    rw [List.append_assoc, if_neg (hst hnf).1, names2, show fs1.start (dirString abs cs ++ (n ++ f)) = fs.base abs from (hst hnf).2]
    have hl := last_name (s := dirString abs cs) hnf
    generalize dirString abs cs ++ (n ++ f) = str at hl
    simp only [hl, List.getLast?_append, List.getLast?_singleton, Option.some_or, List.dropLast_append_of_ne_nil (List.cons_ne_nil (n ++ f) []),
      List.dropLast_singleton, List.append_nil, walk_is h (fun k hk => by rw [hlen k hk.le, hp k hk] : fs1.Parents (fs.base abs) cs),
      Py.ok_bind, Fs.inDir, hd1, hnf.dot, hnf.dots, or_self, if_false, ht1]
  refine ⟨fs1.set (fs.base abs ++ cs ++ [n ++ f]) (.file data), ?_, ?_, set_same _ _ _, fun q a b => ?_⟩
  · simp only [dillDump, ensureDir, h1, h2, Except.map, Bool.false_eq_true, if_false, h3, set_set]
  · rw [set_other _ _ (fun e => hnn (by simpa using e.symm)), set_same]
  · rw [set_other _ _ b, set_other _ _ a]

/-! ### C62 -/

theorem npzName_dir {abs : Bool} {cs : List PyStr} {f : PyStr} (hc : ProperDir abs cs) :
    npzName (dirString abs cs ++ f) = dirString abs cs ++ npzName f := by
  obtain ⟨d, hd⟩ : ∃ d, dirString abs cs = d ++ ['/'] := by
    rcases List.eq_nil_or_concat cs with rfl | ⟨cs', n, hcs⟩
    · rcases hc.some with h | h
      · subst h
        exact ⟨[], rfl⟩
      · exact absurd rfl h
    · rw [List.concat_eq_append] at hcs
      subst hcs
      exact ⟨(if abs then ['/'] else []) ++ (cs'.flatMap (· ++ ['/']) ++ n), by simp [dirString]⟩
  have hiff : ".npz".toList <:+ dirString abs cs ++ f ↔ ".npz".toList <:+ f := by
    constructor
    · intro h
      have h2 : '/' :: f <:+ dirString abs cs ++ f := ⟨d, by rw [hd]; simp⟩
      rcases List.suffix_or_suffix_of_suffix h h2 with h3 | h3
      · rcases List.suffix_cons_iff.1 h3 with h4 | h4
        · have := congrArg List.head? h4
          simp at this
        · exact h4
      · have := h3.subset (List.mem_cons_self)
        exact absurd this (by decide)
    · intro h
      exact h.trans (List.suffix_append _ _)
  unfold npzName
  by_cases h : ".npz".toList <:+ f
  · rw [if_pos h, if_pos (hiff.2 h)]
  · rw [if_neg h, if_neg (fun h' => h (hiff.1 h')), List.append_assoc]

theorem npzName_proper {f : PyStr} (hf : ProperName f) : ProperName (npzName f) := by
  unfold npzName
  split
  · exact hf
  · have hl : 1 ≤ f.length := List.length_pos_iff.2 hf.ne
    refine ⟨by simp, fun e => ?_, fun e => ?_, fun e => ?_⟩
    · rcases List.mem_append.1 e with e | e
      · exact hf.slash e
      · exact absurd e (by decide)
    · have := congrArg List.length e
      simp at this
    · have := congrArg List.length e
      simp at this

/-- `save_numpy` of a mixture of plain components that has been evaluated: the archive `direc`/`fname`.npz holds the density of the mixture with
axes ordered position, velocity, metallicity, age, the spectra, edges and the evaluated cube; nothing else changes. -/
theorem C62_archive {m : Mix} {g : Grid} {n : ℕ} {ω : ℕ → ℝ} {ρ : ℕ → Cell → ℝ} {L : ℕ → ℕ → ℝ} (h : PlainMix m g n ω ρ L)
    (npz : NpzData → List UInt8) (s : SharedSsps) {l : LogGrid} (hl : s.log = some l) {S : Arr ℝ} (hS : reshapeInfer s.grid.parDims l.Xw = .ok S)
    {y : Arr Num} (hy : m.ybar = some y) (yobs : Option (Arr Num))
    {fs : Fs} {abs : Bool} {cs : List PyStr} {f : PyStr} (hc : ProperDir abs cs) (hf : ProperName f)
    (hp : fs.Parents (fs.base abs) cs)
    (hd : fs.node (fs.base abs ++ cs) = some .dir ∨ (cs ≠ [] ∧ fs.node (fs.base abs ++ cs) = none))
    (ht : fs.node (fs.base abs ++ cs ++ [npzName f]) ≠ some .dir) :
    ∃ fs' x, saveNumpy npz (.mixture m) s f yobs (some (dirString abs cs)) fs = (.ok (), fs') ∧
      fs'.node (fs.base abs ++ cs ++ [npzName f]) = some (.file (npz x)) ∧ fs'.node (fs.base abs ++ cs) = some .dir ∧
      (∀ q, q ≠ fs.base abs ++ cs → q ≠ fs.base abs ++ cs ++ [npzName f] → fs'.node q = fs.node q) ∧
      x.yobs = yobs ∧ x.ybar = y ∧ x.w = l.w ∧ x.S = S ∧ x.vEdg = m.cube.vEdg ∧ x.zEdges = s.grid.zEdges ∧ x.tEdges = s.grid.tEdges ∧
      x.f.shape = [g.nx, g.ny, g.nv, g.nz, g.nt] ∧
      ∀ c, g.Has c → x.f.get [c.x, c.y, c.v, c.z, c.t] = .fin (mixRho n ω ρ c) := by
  obtain ⟨p, hgp, hps, hpg⟩ := C27_marginals h true "tvxz".toList (by decide)
  have hps' : p.shape = [g.nt, g.nv, g.nx, g.ny, g.nz] := hps
  have ho : moveOrder 5 [0, 1, 2, 3, 4] [4, 2, 0, 1, 3] = .ok [2, 3, 1, 4, 0] := by decide +kernel
  have hm : moveaxis [0, 1, 2, 3, 4] [4, 2, 0, 1, 3] p = .ok (transpose [2, 3, 1, 4, 0] p) := by
    have : p.shape.length = 5 := by rw [hps']; rfl
    rw [moveaxis, this, ho]
    rfl
  obtain ⟨fs1, e1, n1, c1, o1⟩ := ensureDir_is hc hp hd
  have b1 : fs1.base abs = fs.base abs := by simp [Fs.base, c1]
  have hne : fs.base abs ++ cs ++ [npzName f] ≠ fs.base abs ++ cs := by simp
  have hne' : fs.base abs ++ cs ≠ fs.base abs ++ cs ++ [npzName f] := by simp
  have e2 := openWb_is (fs := fs1) hc (npzName_proper hf) (by rw [b1]; exact parents_congr hp o1) (by rw [b1]; exact n1)
    (by rw [b1, o1 _ hne]; exact ht)
  rw [b1] at e2
  refine ⟨_, ⟨yobs, m.cube.nx, m.cube.ny, m.cube.x1rng, m.cube.x2rng, S, l.w, s.grid.zEdges, s.grid.tEdges, y, m.cube.vEdg,
    transpose [2, 3, 1, 4, 0] p⟩, ?_, set_same fs1 _ _, ?_, ?_, rfl, rfl, rfl, rfl, rfl, rfl, rfl, ?_, ?_⟩
  · simp only [saveNumpy, e1, npzData, hgp, hm, hl, hS, hy, Py.ok_bind, npzName_dir hc, e2, set_set]
  · rw [set_other _ _ hne', n1]
  · intro q a b
    rw [set_other _ _ b, o1 q a]
  · show List.map _ _ = _
    rw [hps']
    rfl
  · intro c hcell
    have := hpg c hcell
    rw [show coords "tvxz".toList c = [c.t, c.v, c.x, c.y, c.z] from rfl] at this
    have e : (transpose [2, 3, 1, 4, 0] p).get [c.x, c.y, c.v, c.z, c.t] = p.get [c.t, c.v, c.x, c.y, c.z] := by
      show p.get (List.map _ (List.range p.shape.length)) = _
      rw [hps']
      rfl
    show (transpose [2, 3, 1, 4, 0] p).get _ = _
    rw [e, this]
    have hv := cellVolume_pos h.is.proper hcell
    simp only [if_true]
    rw [show ("tvxz".toList : PyStr) = ['t','v','x','z'] from rfl, marg_tvxz g _ hcell, volOf_tvxz, massP, mul_div_assoc, div_self hv.ne', mul_one]

/-- Other components cannot be saved: `TypeError`. The directory has been made by then; nothing else is changed. -/
theorem C62_other (npz : NpzData → List UInt8) (s : SharedSsps) (f : PyStr) (yobs : Option (Arr Num)) {fs : Fs} {abs : Bool} {cs : List PyStr}
    (hc : ProperDir abs cs) (hp : fs.Parents (fs.base abs) cs)
    (hd : fs.node (fs.base abs ++ cs) = some .dir ∨ (cs ≠ [] ∧ fs.node (fs.base abs ++ cs) = none)) :
    ∃ fs', saveNumpy npz .other s f yobs (some (dirString abs cs)) fs = (.error .typeError, fs') ∧
      fs'.node (fs.base abs ++ cs) = some .dir ∧ ∀ q, q ≠ fs.base abs ++ cs → fs'.node q = fs.node q := by
  obtain ⟨fs1, e1, n1, -, o1⟩ := ensureDir_is hc hp hd
  exact ⟨fs1, by simp only [saveNumpy, e1], n1, o1⟩

/-- A mixture that has not been evaluated raises `AttributeError`, with the directory already made. -/
theorem C62_unevaluated {m : Mix} {g : Grid} {n : ℕ} {ω : ℕ → ℝ} {ρ : ℕ → Cell → ℝ} {L : ℕ → ℕ → ℝ} (h : PlainMix m g n ω ρ L)
    (npz : NpzData → List UInt8) (s : SharedSsps) {l : LogGrid} (hl : s.log = some l) {S : Arr ℝ} (hS : reshapeInfer s.grid.parDims l.Xw = .ok S)
    (hy : m.ybar = none) (f : PyStr) (yobs : Option (Arr Num)) {fs : Fs} {abs : Bool} {cs : List PyStr}
    (hc : ProperDir abs cs) (hp : fs.Parents (fs.base abs) cs)
    (hd : fs.node (fs.base abs ++ cs) = some .dir ∨ (cs ≠ [] ∧ fs.node (fs.base abs ++ cs) = none)) :
    ∃ fs', saveNumpy npz (.mixture m) s f yobs (some (dirString abs cs)) fs = (.error .attributeError, fs') ∧
      fs'.node (fs.base abs ++ cs) = some .dir ∧ ∀ q, q ≠ fs.base abs ++ cs → fs'.node q = fs.node q := by
  obtain ⟨p, hgp, hps, -⟩ := C27_marginals h true "tvxz".toList (by decide)
  have hps' : p.shape = [g.nt, g.nv, g.nx, g.ny, g.nz] := hps
  have ho : moveOrder 5 [0, 1, 2, 3, 4] [4, 2, 0, 1, 3] = .ok [2, 3, 1, 4, 0] := by decide +kernel
  have hm : moveaxis [0, 1, 2, 3, 4] [4, 2, 0, 1, 3] p = .ok (transpose [2, 3, 1, 4, 0] p) := by
    have : p.shape.length = 5 := by rw [hps']; rfl
    rw [moveaxis, this, ho]
    rfl
  obtain ⟨fs1, e1, n1, -, o1⟩ := ensureDir_is hc hp hd
  exact ⟨fs1, by simp only [saveNumpy, e1, npzData, hgp, hm, hl, hS, hy, Py.ok_bind], n1, o1⟩

/-! ### Non-vacuity -/

/-- A file system with the directory `/home`, the working directory, which holds a file `old`. -/
def demoFs : Fs where
  node := fun p => if p = [] ∨ p = ["home".toList] then some .dir else if p = ["home".toList, "old".toList] then some (.file [1, 2]) else none
  cwd := ["home".toList]

theorem proper_data : ProperName "data".toList := ⟨by decide, by decide, by decide, by decide⟩
theorem proper_old : ProperName "old".toList := ⟨by decide, by decide, by decide, by decide⟩
theorem proper_home : ProperName "home".toList := ⟨by decide, by decide, by decide, by decide⟩
theorem proper_file : ProperName "a.dill".toList := ⟨by decide, by decide, by decide, by decide⟩

theorem dir_data : ProperDir false ["data".toList] := ⟨fun n hn => by rw [List.mem_singleton.1 hn]; exact proper_data, Or.inr (by simp)⟩
theorem dir_home : ProperDir true ["home".toList] := ⟨fun n hn => by rw [List.mem_singleton.1 hn]; exact proper_home, Or.inl rfl⟩

/-- Instance: `dill_dump("a.dill", "data/")`, then three further saves, one of which fails. -/
example : ∃ fs', dillDump ⟨[7, 8, 9], none⟩ "a.dill".toList (some "data/".toList) demoFs = (.ok (), fs') ∧
    fs'.read "data/a.dill".toList = .ok [7, 8, 9] ∧
    (afterSaves [⟨⟨[1], none⟩, true, ["home".toList], "a.dill".toList, dir_home, proper_file⟩,
      ⟨⟨[1], some .typeError⟩, true, ["home".toList], "old".toList, dir_home, proper_old⟩,
      ⟨⟨[], none⟩, false, ["data".toList], "old".toList, dir_data, proper_old⟩] fs').node ["home".toList, "data".toList, "a.dill".toList] =
        some (.file [7, 8, 9]) := by
  obtain ⟨fs', h1, -, h3, -, h5⟩ := C51_saved (fs := demoFs) (abs := false) dir_data proper_file
    (fun k hk => by
      have : k = 0 := by simpa using hk
      subst this
      simp [demoFs, Fs.base])
    (Or.inr ⟨by simp, by simp [demoFs, Fs.base]⟩) (by simp [demoFs, Fs.base]) [7, 8, 9]
  have hcwd : fs'.cwd = demoFs.cwd := by
    have := dump_cwd ⟨[7, 8, 9], none⟩ "a.dill".toList (some (dirString false ["data".toList])) demoFs
    rw [h1] at this
    exact this
  refine ⟨fs', h1, h5, C51_kept _ fs' _ _ h3 ?_⟩
  intro c hc
  simp only [List.mem_cons, List.not_mem_nil, or_false] at hc
  rcases hc with rfl | rfl | rfl <;> simp [Fs.base, hcwd, demoFs]

/-- Instance: overwriting the file `old` can lose it. -/
example : ∃ fs' ∈ dillCrash ⟨[5], none⟩ "old".toList (some "/home/".toList) demoFs, fs'.node ["home".toList, "old".toList] = some (.file []) :=
  C51_not_atomic (abs := true) dir_home proper_old
    (fun k hk => by
      have : k = 0 := by simpa using hk
      subst this
      simp [demoFs, Fs.base])
    (by simp [demoFs, Fs.base]) (old := [1, 2]) (by simp [demoFs, Fs.base]) _

/-- Instance: without the slash the file is `dataa.dill`. -/
example : ∃ fs', dillDump ⟨[5], none⟩ "a.dill".toList (some "data".toList) demoFs = (.ok (), fs') ∧
    fs'.node ["home".toList, "dataa.dill".toList] = some (.file [5]) := by
  obtain ⟨fs', h1, -, h3, -⟩ := C51_no_slash (fs := demoFs) (abs := false) (cs := []) (fun m hm => by simp at hm) proper_data proper_file
    (fun k hk => by simp at hk) (by simp [demoFs, Fs.base]) (by simp [demoFs, Fs.base]) (by simp [demoFs, Fs.base]) [5]
  exact ⟨fs', h1, h3⟩

/-- Instance: `a/b/` below a missing directory. -/
example : dillDump ⟨[5], none⟩ "a.dill".toList (some "data/old/".toList) demoFs = (.error .fileNotFoundError, demoFs) :=
  C51_nested (abs := false) (cs := ["data".toList, "old".toList]) (k := 0)
    ⟨fun n hn => by
      simp only [List.mem_cons, List.not_mem_nil, or_false] at hn
      rcases hn with rfl | rfl
      · exact proper_data
      · exact proper_old, Or.inr (by simp)⟩ (by simp)
    (fun j hj => by
      have : j = 0 := by omega
      subst this
      simp [demoFs, Fs.base]) (by simp [demoFs, Fs.base]) _ _

/-- Instance: an evaluated mixture and resampled spectra meet the hypotheses of `C62_archive`. -/
example (s : SharedSsps) (hs : s.grid.parDims = [3, 2]) (npz : NpzData → List UInt8) : ∃ m s' fs' x,
    saveNumpy npz (.mixture m) s' "a.dill".toList none (some "data/".toList) demoFs = (.ok (), fs') ∧
    fs'.node ["home".toList, "data".toList, "a.dill.npz".toList] = some (.file (npz x)) ∧
    x.f.shape = [demoGrid.nx, demoGrid.ny, demoGrid.nv, demoGrid.nz, demoGrid.nt] := by
  obtain ⟨cube, m, -, -, h, -⟩ := demoMix
  have h' : PlainMix { m with ybar := some (full [4, 5, 6] (Num.fin 1)) } demoGrid 2 demoWeights demoRhos demoL :=
    ⟨h.pos, h.children, h.weights, h.wpos, h.nonneg, h.plain⟩
  have hS : reshapeInfer [3, 2] (⟨[4, 6], fun _ => 1⟩ : Arr ℝ) = .ok ⟨[4, 3, 2], fun _ => 1⟩ := rfl
  have e : npzName "a.dill".toList = "a.dill.npz".toList := by
    have : ¬ ".npz".toList <:+ "a.dill".toList := by decide
    rw [npzName, if_neg this]
    rfl
  obtain ⟨fs', x, h1, h2, -, -, -, -, -, -, -, -, -, h3, -⟩ := C62_archive h' npz
    { s with log := some ⟨100, [1, 2, 3, 4], ⟨[4, 6], fun _ => 1⟩⟩ } rfl (by rw [hs]; exact hS) rfl none (fs := demoFs) (abs := false) dir_data
    proper_file
    (fun k hk => by
      have : k = 0 := by simpa using hk
      subst this
      simp [demoFs, Fs.base])
    (Or.inr ⟨by simp, by simp [demoFs, Fs.base]⟩) (by rw [e]; simp [demoFs, Fs.base])
  rw [e] at h2
  exact ⟨_, _, fs', x, h1, h2, h3⟩

end PKM
