import Verif.AttemptStream
import Verif.Props.Protocol
import Verif.VelApi

/-!
# C106: what a rejected setter call leaves behind

A program may catch the exception of a rejected setter call and go on with the component. For growing disks it finds the
component as it was. For streams `set_p_x_t` can reject a call after it has stored the new angles: the track is the old
one, and a later `set_mu_v` uses the new angles.
-/

open scoped Classical

noncomputable section

namespace PKM
open Np Component Body Param

variable {p : Param} {s : Stream} {o : StreamObj} {g : Grid} {f2 : ℝ} {center : ℝ × ℝ} {rotation : ℝ}

/-! ### Specification -/

/-- A sequence of two numbers. -/
def pairOf : List ℝ → Option (ℝ × ℝ)
  | [a, b] => some (a, b)
  | _ => none

/-- The call, if every sequence among its arguments has two entries and no argument is missing. -/
def DiskTry.asCall : DiskTry → Option DiskCall
  | .setPt (some lmd) (some phi) q => (pairOf q).map (DiskCall.setPt lmd phi)
  | .setPt _ _ _ => none
  | .setPxt q rc alpha => (pairOf q).bind fun q => (pairOf rc).bind fun rc => (pairOf alpha).map fun alpha => .setPxt q rc alpha
  | .setTDep q alpha tIn tOut tMin tMax => some (.setTDep q alpha tIn tOut tMin tMax)
  | .setMuV q rmax vmax => (pairOf q).bind fun q => (pairOf rmax).bind fun rmax => (pairOf vmax).map fun vmax => .setMuV q rmax vmax
  | .setSigV q alpha sIn sOut => (pairOf q).bind fun q => (pairOf alpha).bind fun alpha => (pairOf sIn).bind fun sIn =>
      (pairOf sOut).map fun sOut => .setSigV q alpha sIn sOut

/-- The call, if moreover the number of points of the track is not negative. -/
def StreamTry.asCall : StreamTry → Option StreamCall
  | .setPt (some lmd) (some phi) q => (pairOf q).map (StreamCall.setPt lmd phi)
  | .setPt _ _ _ => none
  | .setPxt theta muR sig n => if n < 0 then none else
      (pairOf theta).bind fun theta => (pairOf muR).map fun muR => .setPxt theta muR sig n.toNat
  | .setTDep τ => some (.setTDep τ)
  | .setMuV lims => (pairOf lims).map .setMuV
  | .setSigV sigV => some (.setSigV sigV)

/-- Not one of the calls of `set_p_x_t` that store their angles and are then rejected: those whose angles are in the
documented range but that have another number of angles or of radii than two, or a negative number of points. -/
def StreamTry.Careful : StreamTry → Prop
  | .setPxt theta muR sig n => (StreamTry.setPxt theta muR sig n).asCall ≠ none ∨ theta = [] ∨ ∃ a ∈ theta, a < -Real.pi ∨ Real.pi < a
  | _ => True

/-! ### Lemmas -/

theorem pairOf_some {l : List ℝ} {a : ℝ × ℝ} (h : pairOf l = some a) : l = [a.1, a.2] := by
  unfold pairOf at h
  split at h
  · cases h; rfl
  · cases h

theorem pairOf_pair (a : ℝ × ℝ) : pairOf [a.1, a.2] = some a := rfl

/-- A statement that raises and changes nothing. -/
def Refuses {σ : Type} (b : Body σ Unit) (s : σ) : Prop := ∃ e, b s = (.error e, s)

theorem Refuses.ev {σ α : Type} {s : σ} {x : Py α} {f : α → Body σ Unit} (h : ∀ a, x = .ok a → Refuses (f a) s) :
    Refuses (Body.ev x >>= f) s := by
  cases x with
  | error e => exact ⟨e, rfl⟩
  | ok a => exact h a rfl

theorem Refuses.ite {σ : Type} {s : σ} {c : Prop} [Decidable c] {a b : Body σ Unit} (h1 : Refuses a s) (h2 : Refuses b s) :
    Refuses (if c then a else b) s := by
  by_cases h : c
  · rw [if_pos h]; exact h1
  · rw [if_neg h]; exact h2

theorem setPt_rejected (lmd phi : Option ℝ) (q : List ℝ) (h : pairOf q = none ∨ lmd = none ∨ phi = none) :
    Refuses (setPtBody lmd phi q) p := by
  unfold setPtBody
  show Refuses (Body.ev (notNone lmd) >>= _) p
  refine Refuses.ev fun l hl => Refuses.ev fun φ hφ => ?_
  refine Refuses.ite (a := Body.ev (.error .valueError)) ⟨_, rfl⟩ ?_
  refine Refuses.ev fun _ _ => Refuses.ev fun _ _ => Refuses.ev fun q' hq => ?_
  rw [notNone_ok hl, notNone_ok hφ, unpack_ok hq] at h
  simp [pairOf] at h

/-- A chain of expressions and one assignment at the end. -/
theorem Clean.error_of {b : Body Param Unit} (h : Clean b p) (h' : ∀ p', b p ≠ (.ok (), p')) : ∃ e, b p = (.error e, p) := by
  rcases hb : b p with ⟨r, p'⟩
  cases r with
  | error e => exact ⟨e, by rw [h e p' hb]⟩
  | ok u => exact absurd hb (h' p')

theorem disk_body (hb : Built p g f2 center rotation) (hg : g.Proper) (k : DiskTry) :
    (∀ c, k.asCall = some c → k.body p = fromPy p (c.run p)) ∧ (k.asCall = none → ∃ e, k.body p = (.error e, p)) := by
  cases k with
  | setPt lmd phi q =>
    constructor
    · intro c hc
      cases lmd with
      | none => simp [DiskTry.asCall] at hc
      | some lmd =>
        cases phi with
        | none => simp [DiskTry.asCall] at hc
        | some phi =>
          simp only [DiskTry.asCall, Option.map_eq_some_iff] at hc
          obtain ⟨q', h1, rfl⟩ := hc
          rw [pairOf_some h1]
          exact setPt_total hb.cubeIs hg lmd phi q'
    · intro hc
      refine setPt_rejected lmd phi q ?_
      cases lmd with
      | none => exact .inr (.inl rfl)
      | some lmd =>
        cases phi with
        | none => exact .inr (.inr rfl)
        | some phi => exact .inl (by simpa [DiskTry.asCall] using hc)
  | setPxt a b c =>
    constructor
    · intro d hd
      simp only [DiskTry.asCall, Option.bind_eq_some_iff, Option.map_eq_some_iff] at hd
      obtain ⟨a', h1, b', h2, c', h3, rfl⟩ := hd
      rw [pairOf_some h1, pairOf_some h2, pairOf_some h3]
      exact setPxt_pairs a' b' c'
    · intro hc
      refine Clean.error_of (Clean.object ?_) fun p' h => ?_
      · iterate 13 refine Clean.ev fun _ _ => ?_
        exact Clean.assign _
      · obtain ⟨_, -, h⟩ := ev_ok (object_eq.symm.trans h)
        iterate 2 obtain ⟨_, -, h⟩ := ev_ok h
        obtain ⟨_, h1, h⟩ := ev_ok h
        obtain ⟨_, h2, h⟩ := ev_ok h
        obtain ⟨_, h3, h⟩ := ev_ok h
        obtain ⟨a', rfl⟩ := interpL3_ok h1
        obtain ⟨b', rfl⟩ := interpL3_ok h2
        obtain ⟨c', rfl⟩ := interpL3_ok h3
        exact absurd hc (by simp [DiskTry.asCall, pairOf])
  | setTDep q alpha tIn tOut tMin tMax =>
    refine ⟨fun c hc => ?_, fun h => absurd h (by simp [DiskTry.asCall])⟩
    cases hc
    exact setTDep_total hb hg q alpha tIn tOut tMin tMax
  | setMuV a b c =>
    constructor
    · intro d hd
      simp only [DiskTry.asCall, Option.bind_eq_some_iff, Option.map_eq_some_iff] at hd
      obtain ⟨a', h1, b', h2, c', h3, rfl⟩ := hd
      rw [pairOf_some h1, pairOf_some h2, pairOf_some h3]
      exact setMuV_pairs a' b' c'
    · intro hc
      refine Clean.error_of (Clean.object ?_) fun p' h => ?_
      · iterate 18 refine Clean.ev fun _ _ => ?_
        exact Clean.assign _
      · obtain ⟨_, -, h⟩ := ev_ok (object_eq.symm.trans h)
        obtain ⟨_, -, h⟩ := ev_ok h
        obtain ⟨_, h1, h⟩ := ev_ok h
        obtain ⟨_, h2, h⟩ := ev_ok h
        obtain ⟨_, h3, h⟩ := ev_ok h
        obtain ⟨a', rfl⟩ := interpL_ok h1
        obtain ⟨b', rfl⟩ := interpL_ok h2
        obtain ⟨c', rfl⟩ := interpL_ok h3
        exact absurd hc (by simp [DiskTry.asCall, pairOf])
  | setSigV a b c d =>
    constructor
    · intro e he
      simp only [DiskTry.asCall, Option.bind_eq_some_iff, Option.map_eq_some_iff] at he
      obtain ⟨a', h1, b', h2, c', h3, d', h4, rfl⟩ := he
      rw [pairOf_some h1, pairOf_some h2, pairOf_some h3, pairOf_some h4]
      exact setSigV_pairs a' b' c' d'
    · intro hc
      refine Clean.error_of (Clean.object ?_) fun p' h => ?_
      · iterate 16 refine Clean.ev fun _ _ => ?_
        exact Clean.assign _
      · obtain ⟨_, -, h⟩ := ev_ok (object_eq.symm.trans h)
        iterate 3 obtain ⟨_, -, h⟩ := ev_ok h
        obtain ⟨_, h1, h⟩ := ev_ok h
        obtain ⟨_, h2, h⟩ := ev_ok h
        obtain ⟨_, h3, h⟩ := ev_ok h
        obtain ⟨_, h4, h⟩ := ev_ok h
        obtain ⟨a', rfl⟩ := interpL3_ok h1
        obtain ⟨b', rfl⟩ := interpL3_ok h2
        obtain ⟨c', rfl⟩ := interpL3_ok h3
        obtain ⟨d', rfl⟩ := interpL3_ok h4
        exact absurd hc (by simp [DiskTry.asCall, pairOf])

/-- One call: rejected and nothing changed, or the call with pairs succeeds. -/
theorem disk_try (hb : Built p g f2 center rotation) (hg : g.Proper) (k : DiskTry) :
    (∃ e, k.body p = (.error e, p) ∧ ∀ c p', k.asCall = some c → c.run p ≠ .ok p') ∨
      ∃ c p', k.asCall = some c ∧ c.run p = .ok p' ∧ k.body p = (.ok (), p') := by
  obtain ⟨h1, h2⟩ := disk_body hb hg k
  cases hk : k.asCall with
  | none =>
    obtain ⟨e, he⟩ := h2 hk
    exact .inl ⟨e, he, fun c p' h => by cases h⟩
  | some c =>
    have h := h1 c hk
    cases hr : c.run p with
    | error e =>
      rw [hr] at h
      exact .inl ⟨e, h, fun c' p' h' => by cases h'; rw [hr]; intro h; cases h⟩
    | ok p' =>
      rw [hr] at h
      exact .inr ⟨c, p', rfl, hr, h⟩

theorem disk_tries (hg : g.Proper) : ∀ (ks : List DiskTry) (p : Param), Built p g f2 center rotation →
    Built (tryAll DiskTry.body p ks) g f2 center rotation ∧ ∃ cs, (accepted DiskTry.body p ks).map DiskTry.asCall = cs.map some ∧
      runAll (fun p k => DiskCall.run p k) p cs = .ok (tryAll DiskTry.body p ks)
  | [], p, hb => ⟨hb, [], rfl, rfl⟩
  | k :: ks, p, hb => by
    rcases disk_try hb hg k with ⟨e, h, -⟩ | ⟨c, p', h1, h2, h3⟩
    · simp only [tryAll, accepted, h]
      exact disk_tries hg ks p hb
    · simp only [tryAll, accepted, h3]
      obtain ⟨k1, cs, k2, k3⟩ := disk_tries hg ks p' ((disk_writes h2).built hb)
      exact ⟨k1, c :: cs, by simp [h1, k2], by simp only [runAll, h2, Py.ok_bind, k3]⟩

/-! ### Growing disks -/

/-- A program makes any setter calls on a new growing disk, with any numbers and any lengths of sequences, and catches
every exception. Whatever it has done so far: a rejected call leaves the disk as it was; a call is accepted exactly if
its arguments have the right number and the method succeeds; and the disk is the one made by the accepted calls alone. -/
theorem C106_disk {cube : IFUCube} (hc : CubeIs cube g) (hg : g.Proper) (f2 : ℝ) (center : ℝ × ℝ) (rotation : ℝ)
    (ks : List DiskTry) : ∃ p0, Param.init f2 cube center rotation = .ok p0 ∧
      (∀ (k : DiskTry) e p', k.body (tryAll DiskTry.body p0 ks) = (.error e, p') → p' = tryAll DiskTry.body p0 ks) ∧
      (∀ (k : DiskTry) p', k.body (tryAll DiskTry.body p0 ks) = (.ok (), p') ↔
        ∃ c, k.asCall = some c ∧ c.run (tryAll DiskTry.body p0 ks) = .ok p') ∧
      ∃ cs, (accepted DiskTry.body p0 ks).map DiskTry.asCall = cs.map some ∧
        runAll (fun p k => DiskCall.run p k) p0 cs = .ok (tryAll DiskTry.body p0 ks) := by
  obtain ⟨p0, h1, hb, -⟩ := init_built hc hg f2 center rotation
  obtain ⟨k1, k2⟩ := disk_tries hg ks p0 hb
  refine ⟨p0, h1, fun k e p' h => ?_, fun k p' => ?_, k2⟩
  · rcases disk_try k1 hg k with ⟨e', h', -⟩ | ⟨c, p'', -, -, h'⟩
    · rw [h'] at h
      exact (congrArg Prod.snd h).symm
    · rw [h'] at h
      exact absurd (congrArg Prod.fst h) (by intro h; cases h)
  · rcases disk_try k1 hg k with ⟨e', h', h''⟩ | ⟨c, p'', j1, j2, h'⟩
    · rw [h']
      exact ⟨fun h => absurd (congrArg Prod.fst h) (by intro h; cases h), fun ⟨c, i1, i2⟩ => absurd i2 (h'' c p' i1)⟩
    · rw [h']
      refine ⟨fun h => ⟨c, j1, by rw [j2, show p'' = p' from congrArg Prod.snd h]⟩, fun ⟨c', i1, i2⟩ => ?_⟩
      rw [j1] at i1
      cases i1
      rw [j2] at i2
      cases i2
      rfl

/-! ### Lemmas on streams -/

theorem foldl_min_le (l : List ℝ) (x : ℝ) : l.foldl min x ≤ x ∧ ∀ a ∈ l, l.foldl min x ≤ a := by
  induction l generalizing x with
  | nil => exact ⟨le_refl _, fun a h => by cases h⟩
  | cons b l ih =>
    obtain ⟨h1, h2⟩ := ih (min x b)
    refine ⟨h1.trans (min_le_left _ _), fun a ha => ?_⟩
    rcases List.mem_cons.1 ha with rfl | ha
    · exact h1.trans (min_le_right _ _)
    · exact h2 a ha

theorem le_foldl_max (l : List ℝ) (x : ℝ) : x ≤ l.foldl max x ∧ ∀ a ∈ l, a ≤ l.foldl max x := by
  induction l generalizing x with
  | nil => exact ⟨le_refl _, fun a h => by cases h⟩
  | cons b l ih =>
    obtain ⟨h1, h2⟩ := ih (max x b)
    refine ⟨(le_max_left _ _).trans h1, fun a ha => ?_⟩
    rcases List.mem_cons.1 ha with rfl | ha
    · exact (le_max_right _ _).trans h1
    · exact h2 a ha

/-- Rejected for the angles, or the angles are fine. -/
theorem setPxt_angles (θ r : List ℝ) (sig : ℝ) (n : ℤ) (o : StreamObj) :
    (∃ e, StreamObj.setPxtBody θ r sig n o = (.error e, o)) ∨ (θ ≠ [] ∧ (∀ a ∈ θ, -Real.pi ≤ a ∧ a ≤ Real.pi) ∧
      ((StreamTry.setPxt θ r sig n).asCall = none → ∃ e, StreamObj.setPxtBody θ r sig n o = (.error e, { o with theta := some θ }))) := by
  cases θ with
  | nil => exact .inl ⟨_, rfl⟩
  | cons x l =>
    unfold StreamObj.setPxtBody
    by_cases h1 : l.foldl min x ≥ -Real.pi
    · by_cases h2 : l.foldl max x ≤ Real.pi
      · refine .inr ⟨by simp, fun a ha => ?_, fun hc => ?_⟩
        · rcases List.mem_cons.1 ha with rfl | ha
          · exact ⟨h1.trans (foldl_min_le _ _).1, (le_foldl_max _ _).1.trans h2⟩
          · exact ⟨h1.trans ((foldl_min_le _ _).2 a ha), ((le_foldl_max _ _).2 a ha).trans h2⟩
        · suffices hR : Refuses (do
              let s ← object
              let p := s.base
              let th ← ev (unpack (x :: l))
              if n < 0 then ev (.error .valueError)
              else do
                let smp := Stream.linspaceR th.1 th.2 n.toNat
                let mr ← ev (unpack r)
                let muRs : ℕ → Num := fun k => .fin mr.1 + .fin (mr.2 - mr.1) * (.fin (smp k - th.1) / .fin (th.2 - th.1))
                let muX := vec n.toNat (fun k => muRs k * .fin (Real.cos (smp k)))
                let muY := vec n.toNat (fun k => muRs k * .fin (Real.sin (smp k)))
                let ts ← ev (p.cube.getVariableValues ['t'])
                let nt ← ev (IFUCube.pyLen ts)
                let lx ← ev (Stream.logPix p.xxp muX sig p.cube.dx)
                let ly ← ev (Stream.logPix p.yyp muY sig p.cube.dy)
                let l ← ev (add lx ly)
                let l ← ev (logsumexp [-1] l)
                let l ← ev (isub l (logsumexpAll l))
                let l ← ev (isub l p.logDxDy)
                let l ← ev (broadcastTo (nt :: l.shape) l)
                let l ← ev (moveaxis [0] [-1] l)
                assign fun s => { s with base := { s.base with logPxt := some l } } : Body StreamObj Unit)
              { o with theta := some (x :: l) } by
            obtain ⟨e, he⟩ := hR
            refine ⟨e, ?_⟩
            refine (ev_eq (x := StreamObj.minL (x :: l)) rfl).trans ?_
            refine (ev_eq (pyAssert_pos h1)).trans ?_
            refine (ev_eq (x := StreamObj.maxL (x :: l)) rfl).trans ?_
            refine (ev_eq (pyAssert_pos h2)).trans ?_
            exact assign_eq.trans he
          show Refuses (Body.ev (unpack (x :: l)) >>= _) _
          refine Refuses.ev fun th hth => ?_
          by_cases hn : n < 0
          · rw [if_pos hn]; exact ⟨_, rfl⟩
          · rw [if_neg hn]
            refine Refuses.ev fun mr hmr => ?_
            exfalso
            simp only [StreamTry.asCall, if_neg hn, unpack_ok hth, unpack_ok hmr, pairOf_pair] at hc
            cases hc
      · left
        refine ⟨.assertionError, ?_⟩
        refine (ev_eq (x := StreamObj.minL (x :: l)) rfl).trans ?_
        refine (ev_eq (pyAssert_pos h1)).trans ?_
        refine (ev_eq (x := StreamObj.maxL (x :: l)) rfl).trans ?_
        exact (congrArg (fun x => (ev x >>= _ : Body StreamObj Unit) o) (pyAssert_neg h2)).trans rfl
    · left
      refine ⟨.assertionError, ?_⟩
      refine (ev_eq (x := StreamObj.minL (x :: l)) rfl).trans ?_
      exact (congrArg (fun x => (ev x >>= _ : Body StreamObj Unit) o) (pyAssert_neg h1)).trans rfl

theorem setPxt_asCall {θ r : List ℝ} {sig : ℝ} {n : ℤ} {c : StreamCall} (h : (StreamTry.setPxt θ r sig n).asCall = some c) :
    ∃ θ' r' m, θ = [θ'.1, θ'.2] ∧ r = [r'.1, r'.2] ∧ n = ((m : ℕ) : ℤ) ∧ c = .setPxt θ' r' sig m := by
  simp only [StreamTry.asCall] at h
  split at h
  · cases h
  · rename_i hn
    simp only [Option.bind_eq_some_iff, Option.map_eq_some_iff] at h
    obtain ⟨a', h1, b', h2, rfl⟩ := h
    exact ⟨a', b', n.toNat, pairOf_some h1, pairOf_some h2, by omega, rfl⟩

theorem setMuV_clean (lims : List ℝ) (o : StreamObj) : Clean (StreamObj.setMuVBody lims) o := by
  refine Clean.object ?_
  iterate 10 refine Clean.ev fun _ _ => ?_
  exact Clean.assign _

theorem setMuV_done {lims : List ℝ} {o' : StreamObj} (h : StreamObj.setMuVBody lims o = (.ok (), o')) :
    (∃ l, pairOf lims = some l) ∧ ∃ A, o' = { o with base := { o.base with muV := some A } } := by
  obtain ⟨_, -, h⟩ := ev_ok (object_eq.symm.trans h)
  iterate 3 obtain ⟨_, -, h⟩ := ev_ok h
  obtain ⟨l, h1, h⟩ := ev_ok h
  iterate 4 obtain ⟨_, -, h⟩ := ev_ok h
  obtain ⟨A, -, h⟩ := ev_ok h
  exact ⟨⟨l, by rw [unpack_ok h1]; rfl⟩, A, (congrArg Prod.snd h).symm⟩

/-- One call on a stream in any state. -/
theorem stream_try (hb : Built o.base g f2 center rotation) (hg : g.Proper) (k : StreamTry) :
    (∃ e, k.body o = (.error e, o)) ∨
    (∃ θ r sig n e, k = .setPxt θ r sig n ∧ ¬ k.Careful ∧ k.body o = (.error e, { o with theta := some θ })) ∨
    ∃ o', k.body o = (.ok (), o') ∧ Built o'.base g f2 center rotation := by
  cases k with
  | setPt lmd phi q =>
    rcases disk_try hb hg (.setPt lmd phi q) with ⟨e, h, -⟩ | ⟨c, p', -, h2, h3⟩
    · left
      refine ⟨e, ?_⟩
      show ((setPtBody lmd phi q o.base).1, ({ o with base := (setPtBody lmd phi q o.base).2 } : StreamObj)) = _
      have h' : setPtBody lmd phi q o.base = _ := h
      rw [h']
    · right; right
      refine ⟨{ o with base := p' }, ?_, (disk_writes h2).built hb⟩
      show ((setPtBody lmd phi q o.base).1, ({ o with base := (setPtBody lmd phi q o.base).2 } : StreamObj)) = _
      have h' : setPtBody lmd phi q o.base = _ := h3
      rw [h']
  | setPxt θ r sig n =>
    rcases setPxt_angles θ r sig n o with h | ⟨h1, h2, h3⟩
    · exact .inl h
    · cases hc : (StreamTry.setPxt θ r sig n).asCall with
      | none =>
        obtain ⟨e, he⟩ := h3 hc
        refine .inr (.inl ⟨θ, r, sig, n, e, rfl, ?_, he⟩)
        rintro (h | h | ⟨a, ha, h⟩)
        · exact h hc
        · exact h1 h
        · have := h2 a ha
          rcases h with h | h <;> linarith
      | some c =>
        obtain ⟨θ', r', m, rfl, rfl, rfl, -⟩ := setPxt_asCall hc
        have h := stream_setPxt_pairs hb none θ' r' sig m
        cases hr : (⟨o.base, none⟩ : Stream).setPxt θ' r' sig m with
        | error e => rw [hr] at h; exact .inl ⟨e, h⟩
        | ok s' =>
          rw [hr] at h
          exact .inr (.inr ⟨s'.asObj, h, (stream_writes (k := .setPxt θ' r' sig m) hr).1.built hb⟩)
  | setTDep τ =>
    obtain ⟨h1, s', h2⟩ := stream_setTDep_total (s := ⟨o.base, none⟩) hb hg τ
    rw [h2] at h1
    refine .inr (.inr ⟨⟨s'.base, o.theta⟩, ?_, (stream_writes (k := .setTDep τ) h2).1.built hb⟩)
    exact congrArg (fun x : Py Unit × StreamObj => (x.1, (⟨x.2.base, o.theta⟩ : StreamObj))) h1
  | setMuV lims =>
    rcases hr : StreamObj.setMuVBody lims o with ⟨x, o'⟩
    cases x with
    | error e =>
      have := setMuV_clean lims o e o' hr
      subst this
      exact .inl ⟨e, hr⟩
    | ok u =>
      obtain ⟨-, A, rfl⟩ := setMuV_done hr
      exact .inr (.inr ⟨_, hr, hb.congr rfl rfl rfl rfl rfl⟩)
  | setSigV sigV =>
    have e2 : IFUCube.pyLen o.base.cube.ssps.tCents = .ok g.nt := by simp [IFUCube.pyLen, hb.cubeIs.tCents.shape]
    exact .inr (.inr ⟨_, object_eq.trans ((ev_eq e2).trans rfl), hb.congr rfl rfl rfl rfl rfl⟩)

/-- One careful call on a stream whose angles are two or none. -/
theorem stream_careful (hb : Built s.base g f2 center rotation) (hg : g.Proper) (k : StreamTry) (hk : k.Careful) :
    (∃ e, k.body s.asObj = (.error e, s.asObj) ∧ ∀ c s', k.asCall = some c → c.run s ≠ .ok s') ∨
      ∃ c s', k.asCall = some c ∧ c.run s = .ok s' ∧ k.body s.asObj = (.ok (), s'.asObj) := by
  have key : (∀ c, k.asCall = some c → k.body s.asObj = fromPy s.asObj ((c.run s).map Stream.asObj)) ∧
      (k.asCall = none → ∃ e, k.body s.asObj = (.error e, s.asObj)) := by
    cases k with
    | setPt lmd phi q =>
      obtain ⟨h1, h2⟩ := disk_body hb hg (.setPt lmd phi q)
      constructor
      · intro c hc
        cases lmd with
        | none => simp [StreamTry.asCall] at hc
        | some lmd =>
          cases phi with
          | none => simp [StreamTry.asCall] at hc
          | some phi =>
            simp only [StreamTry.asCall, Option.map_eq_some_iff] at hc
            obtain ⟨q', k1, rfl⟩ := hc
            rw [pairOf_some k1]
            refine (onBase_fromPy (setPt_total hb.cubeIs hg lmd phi q')).trans ?_
            show _ = fromPy s.asObj (Except.map _ (s.base.setPt lmd phi q' >>= _))
            cases s.base.setPt lmd phi q' <;> rfl
      · intro hc
        obtain ⟨e, he⟩ := setPt_rejected (p := s.base) lmd phi q (by
          cases lmd with
          | none => exact .inr (.inl rfl)
          | some lmd =>
            cases phi with
            | none => exact .inr (.inr rfl)
            | some phi => exact .inl (by simpa [StreamTry.asCall] using hc))
        refine ⟨e, ?_⟩
        show ((setPtBody lmd phi q s.base).1, (⟨(setPtBody lmd phi q s.base).2, s.asObj.theta⟩ : StreamObj)) = _
        rw [he]; rfl
    | setPxt θ r sig n =>
      constructor
      · intro c hc
        obtain ⟨θ', r', m, rfl, rfl, rfl, rfl⟩ := setPxt_asCall hc
        exact stream_setPxt_pairs (o := s.asObj) hb s.thetaLims θ' r' sig m
      · intro hc
        rcases setPxt_angles θ r sig n s.asObj with h | ⟨h1, h2, -⟩
        · exact h
        · exfalso
          rcases hk with h | h | ⟨a, ha, h⟩
          · exact h hc
          · exact h1 h
          · have := h2 a ha
            rcases h with h | h <;> linarith
    | setTDep τ =>
      refine ⟨fun c hc => ?_, fun h => absurd h (by simp [StreamTry.asCall])⟩
      cases hc
      exact (stream_setTDep_total hb hg τ).1
    | setMuV lims =>
      constructor
      · intro c hc
        simp only [StreamTry.asCall, Option.map_eq_some_iff] at hc
        obtain ⟨l, k1, rfl⟩ := hc
        rw [pairOf_some k1]
        exact stream_setMuV_pairs hb l
      · intro hc
        rcases hr : StreamObj.setMuVBody lims s.asObj with ⟨x, o'⟩
        cases x with
        | error e =>
          cases setMuV_clean lims s.asObj e o' hr
          exact ⟨e, hr⟩
        | ok u =>
          obtain ⟨⟨l, h⟩, -⟩ := setMuV_done hr
          simp [StreamTry.asCall, h] at hc
    | setSigV sigV =>
      refine ⟨fun c hc => ?_, fun h => absurd h (by simp [StreamTry.asCall])⟩
      cases hc
      exact stream_setSigV_total hb sigV
  obtain ⟨h1, h2⟩ := key
  cases hc : k.asCall with
  | none =>
    obtain ⟨e, he⟩ := h2 hc
    exact .inl ⟨e, he, fun c p' h => by cases h⟩
  | some c =>
    have h := h1 c hc
    cases hr : c.run s with
    | error e =>
      rw [hr] at h
      exact .inl ⟨e, h, fun c' p' h' => by cases h'; rw [hr]; intro h; cases h⟩
    | ok p' =>
      rw [hr] at h
      exact .inr ⟨c, p', rfl, hr, h⟩

theorem stream_tries (hg : g.Proper) : ∀ (ks : List StreamTry) (o : StreamObj), Built o.base g f2 center rotation →
    Built (tryAll StreamTry.body o ks).base g f2 center rotation
  | [], o, hb => hb
  | k :: ks, o, hb => by
    rcases stream_try hb hg k with ⟨e, h⟩ | ⟨θ, r, sig, n, e, -, -, h⟩ | ⟨o', h, hb'⟩
    all_goals
      simp only [tryAll, h]
    · exact stream_tries hg ks o hb
    · exact stream_tries hg ks _ hb
    · exact stream_tries hg ks o' hb'

theorem stream_careful_tries (hg : g.Proper) : ∀ (ks : List StreamTry) (s : Stream), Built s.base g f2 center rotation →
    (∀ k ∈ ks, k.Careful) → ∃ cs s', (accepted StreamTry.body s.asObj ks).map StreamTry.asCall = cs.map some ∧
      runAll (fun s k => StreamCall.run s k) s cs = .ok s' ∧ tryAll StreamTry.body s.asObj ks = s'.asObj ∧ Built s'.base g f2 center rotation
  | [], s, hb, _ => ⟨[], s, rfl, rfl, rfl, hb⟩
  | k :: ks, s, hb, hk => by
    rcases stream_careful hb hg k (hk k (by simp)) with ⟨e, h, -⟩ | ⟨c, s', h1, h2, h3⟩
    · simp only [tryAll, accepted, h]
      exact stream_careful_tries hg ks s hb fun k' h' => hk k' (by simp [h'])
    · simp only [tryAll, accepted, h3]
      obtain ⟨cs, s'', k1, k2, k3, k4⟩ := stream_careful_tries hg ks s' ((stream_writes h2).1.built hb) fun k' h' => hk k' (by simp [h'])
      exact ⟨c :: cs, s'', by simp [h1, k1], by simp only [runAll, h2, Py.ok_bind, k2], k3, k4⟩

/-! ### Streams -/

/-- A program makes any setter calls on a new stream and catches every exception. A rejected call leaves everything the
queries read as it was; it leaves the whole object as it was unless it is one of the calls of `set_p_x_t` that are not
careful, which leave their angles behind. If all calls were careful, the stream is the one made by the accepted calls
alone, and the next call is accepted exactly if its arguments have the right number and the method succeeds.

Missing: calls of `set_p_x_t` that are not careful (`C106_stream_wrong`). -/
theorem C106_stream_partial {cube : IFUCube} (hc : CubeIs cube g) (hg : g.Proper) (f2 : ℝ) (center : ℝ × ℝ) (rotation : ℝ)
    (ks : List StreamTry) : ∃ s0, Stream.init f2 cube center rotation = .ok s0 ∧
      (∀ (k : StreamTry) e o', k.body (tryAll StreamTry.body s0.asObj ks) = (.error e, o') →
        o'.base = (tryAll StreamTry.body s0.asObj ks).base ∧ (k.Careful → o' = tryAll StreamTry.body s0.asObj ks) ∧
        (o' = tryAll StreamTry.body s0.asObj ks ∨ ∃ θ r sig n, k = .setPxt θ r sig n ∧ o'.theta = some θ)) ∧
      ((∀ k ∈ ks, k.Careful) → ∃ cs s, (accepted StreamTry.body s0.asObj ks).map StreamTry.asCall = cs.map some ∧
        runAll (fun s k => StreamCall.run s k) s0 cs = .ok s ∧ tryAll StreamTry.body s0.asObj ks = s.asObj ∧
        ∀ (k : StreamTry), k.Careful → ∀ s', k.body s.asObj = (.ok (), Stream.asObj s') ↔ ∃ c, k.asCall = some c ∧ c.run s = .ok s') := by
  obtain ⟨p0, h1, hb, -⟩ := init_built hc hg f2 center rotation
  have hb' : Built (⟨p0, none⟩ : Stream).base g f2 center rotation := hb
  refine ⟨⟨p0, none⟩, by simp only [Stream.init, h1, Py.ok_bind], fun k e o' h => ?_, fun hk => ?_⟩
  · rcases stream_try (stream_tries hg ks (⟨p0, none⟩ : Stream).asObj hb) hg k with ⟨e', h'⟩ | ⟨θ, r, sig, n, e', h1, h2, h'⟩ | ⟨o'', h', -⟩
    · rw [h'] at h
      cases h
      exact ⟨rfl, fun _ => rfl, .inl rfl⟩
    · rw [h'] at h
      cases h
      exact ⟨rfl, fun h => absurd h h2, .inr ⟨θ, r, sig, n, h1, rfl⟩⟩
    · rw [h'] at h
      exact absurd (congrArg Prod.fst h) (by intro h; cases h)
  · obtain ⟨cs, s, k1, k2, k3, k4⟩ := stream_careful_tries hg ks ⟨p0, none⟩ hb' hk
    refine ⟨cs, s, k1, k2, k3, fun k hk s' => ?_⟩
    have inj : ∀ {a b : Stream}, a.asObj = b.asObj → a = b := fun {a b} h => by
      obtain ⟨ab, at'⟩ := a
      obtain ⟨bb, bt⟩ := b
      simp only [Stream.asObj, StreamObj.mk.injEq] at h
      obtain ⟨rfl, h⟩ := h
      cases at' <;> cases bt <;> simp at h
      · rfl
      · rw [Prod.ext h.1 h.2]
    rcases stream_careful k4 hg k hk with ⟨e', h', h''⟩ | ⟨c, p'', j1, j2, h'⟩
    · rw [h']
      exact ⟨fun h => absurd (congrArg Prod.fst h) (by intro h; cases h), fun ⟨c, i1, i2⟩ => absurd i2 (h'' c s' i1)⟩
    · rw [h']
      refine ⟨fun h => ⟨c, j1, by rw [j2, inj (congrArg Prod.snd h)]⟩, fun ⟨c', i1, i2⟩ => ?_⟩
      rw [j1] at i1
      cases i1
      rw [j2] at i2
      cases i2
      rfl

/-- The program makes a half circle above the centre, asks in vain for one below it with a negative number of points
(`ValueError`, caught), and sets the velocities along the track from 0 to 100. The accepted calls are those of the
program that never asked for the second track. There the mean velocity is less than 100 in every pixel; here it is 100
in every pixel. -/
theorem C106_stream_wrong : ∃ (cube : IFUCube) (s0 : Stream) (bad good : List StreamTry) (A B : Arr Num), CubeIs cube demoGrid ∧
    Stream.init 1 cube (0, 0) 0 = .ok s0 ∧
    bad = [.setPxt [0, Real.pi] [1, 1] 1 75, .setPxt [-Real.pi, 0] [1, 1] 1 (-1), .setMuV [0, 100]] ∧
    good = [.setPxt [0, Real.pi] [1, 1] 1 75, .setMuV [0, 100]] ∧
    accepted StreamTry.body s0.asObj bad = good ∧ accepted StreamTry.body s0.asObj good = good ∧
    getMean (tryAll StreamTry.body s0.asObj good).base.self ['v','_','t','x'] false = .ok A ∧
    getMean (tryAll StreamTry.body s0.asObj bad).base.self ['v','_','t','x'] false = .ok B ∧
    ∀ c, demoGrid.Has c → (∃ v, A.get [c.t, c.x, c.y] = .fin v ∧ v < 100) ∧ B.get [c.t, c.x, c.y] = .fin 100 := by
  obtain ⟨cube, -, hc, hs⟩ := demoCube_exists
  obtain ⟨p0, k1, hb, -⟩ := init_built hc demoGrid_proper 1 (0, 0) 0
  have hpi := Real.pi_pos
  obtain ⟨T, t1, -⟩ := stream_setPxt (s := ⟨p0, none⟩) hb demoGrid_proper (theta := (0, Real.pi)) (muR := (1, 1)) (sig := 1) (n := 75)
    (by simp [hpi.le]) (by simp [hpi.le]) (by simpa using hpi.ne) one_pos (by norm_num)
  have hb1 : Built { p0 with logPxt := some T } demoGrid 1 (0, 0) 0 := hb.congr rfl rfl rfl rfl rfl
  have e1 : (StreamTry.setPxt [0, Real.pi] [1, 1] 1 75).body (⟨p0, none⟩ : Stream).asObj =
      (.ok (), (⟨{ p0 with logPxt := some T }, some (0, Real.pi)⟩ : Stream).asObj) := by
    have := stream_setPxt_pairs (o := (⟨p0, none⟩ : Stream).asObj) hb none (0, Real.pi) (1, 1) 1 75
    exact this.trans (by rw [show ((⟨(⟨p0, none⟩ : Stream).asObj.base, none⟩ : Stream).setPxt (0, Real.pi) (1, 1) 1 75) = _ from t1]; rfl)
  have e2 : (StreamTry.setPxt [-Real.pi, 0] [1, 1] 1 (-1)).body (⟨{ p0 with logPxt := some T }, some (0, Real.pi)⟩ : Stream).asObj =
      (.error .valueError, (⟨{ p0 with logPxt := some T }, some (-Real.pi, 0)⟩ : Stream).asObj) := by
    show StreamObj.setPxtBody _ _ _ _ _ = _
    unfold StreamObj.setPxtBody
    refine (ev_eq (x := StreamObj.minL [-Real.pi, 0]) rfl).trans ?_
    refine (ev_eq (pyAssert_pos (by simp [hpi.le]))).trans ?_
    refine (ev_eq (x := StreamObj.maxL [-Real.pi, 0]) rfl).trans ?_
    refine (ev_eq (pyAssert_pos (by simp [hpi.le]))).trans ?_
    refine assign_eq.trans (object_eq.trans ?_)
    refine (ev_eq (x := unpack [-Real.pi, 0]) rfl).trans ?_
    refine (congrFun (if_pos (by norm_num)) _).trans ?_
    rfl
  obtain ⟨s2, A, a1, a2, -, a3⟩ := C38_velocity (s := ⟨{ p0 with logPxt := some T }, some (0, Real.pi)⟩) hb1 (0, Real.pi) (0, 100) rfl
    (by simpa using hpi.ne)
  obtain ⟨s3, B, b1, b2, -, b3⟩ := C38_velocity (s := ⟨{ p0 with logPxt := some T }, some (-Real.pi, 0)⟩) hb1 (-Real.pi, 0) (0, 100) rfl
    (by simpa using hpi.ne')
  have e3 : (StreamTry.setMuV [0, 100]).body (⟨{ p0 with logPxt := some T }, some (0, Real.pi)⟩ : Stream).asObj = (.ok (), s2.asObj) :=
    (stream_setMuV_pairs hb1 (0, 100)).trans (by rw [a1]; rfl)
  have e4 : (StreamTry.setMuV [0, 100]).body (⟨{ p0 with logPxt := some T }, some (-Real.pi, 0)⟩ : Stream).asObj = (.ok (), s3.asObj) :=
    (stream_setMuV_pairs hb1 (0, 100)).trans (by rw [b1]; rfl)
  refine ⟨cube, ⟨p0, none⟩, _, _, A, B, hc, by simp only [Stream.init, k1, Py.ok_bind], rfl, rfl, ?_, ?_, ?_, ?_, fun c hc => ?_⟩
  · simp only [accepted, e1, e2, e4]
  · simp only [accepted, e1, e3]
  · simp only [tryAll, e1, e3]
    rw [(mean_dispatch _ _).1]
    show attr s2.base.muV = _
    rw [a2]; rfl
  · simp only [tryAll, e1, e2, e4]
    rw [(mean_dispatch _ _).1]
    show attr s3.base.muV = _
    rw [b2]; rfl
  · obtain ⟨φ, v, i1, i2, -, -, -, -, -, -, i3⟩ := a3 c hc
    obtain ⟨ψ, w, j1, j2, -, -, -, -, j3, -, -⟩ := b3 c hc
    have hy : 0 < frameY demoGrid (0, 0) 0 c := by
      have : 0 < centre demoGrid.y c.y := by
        simp only [centre, demoGrid, cubeGrid, evenEdges]
        push_cast
        positivity
      simpa [frameY] using this
    have hφ : 0 ≤ φ := i1 ▸ Complex.arg_nonneg_iff.2 hy.le
    have hφ' : φ < Real.pi := i1 ▸ Complex.arg_lt_pi_iff.2 (.inr hy.ne')
    refine ⟨⟨v, i2, ?_⟩, ?_⟩
    · have := i3 (by simpa [hpi.le] using hφ) (by simpa [hpi.le] using hφ'.le)
      simp only [sub_zero] at this
      nlinarith
    · rw [j2, (j3 (by simpa using hpi)).2 (by simpa using j1 ▸ Complex.arg_nonneg_iff.2 hy.le)]

/-- A disk whose history has rejected calls: one without `phi` and one whose sequence has three entries. -/
example : ∃ (p0 p : Param) (ks : List DiskTry), Built p0 demoGrid 1 (0, 0) 0 ∧
    ks = [.setPt (some 15) none [0.05, 0.95], .setPt (some 15) (some 0.5) [0.05, 0.5, 0.95], .setPt (some 15) (some 0.5) [0.05, 0.95]] ∧
    accepted DiskTry.body p0 ks = [.setPt (some 15) (some 0.5) [0.05, 0.95]] ∧
    Param.setPt p0 15 0.5 (0.05, 0.95) = .ok p ∧ tryAll DiskTry.body p0 ks = p := by
  obtain ⟨cube, -, hc, hs⟩ := demoCube_exists
  obtain ⟨p0, k1, k2, k3, k4⟩ := init_sound hc demoGrid_proper 1 (0, 0) 0
  obtain ⟨p, j1, j2⟩ := k3.disk demoGrid_proper demo_offcentre (.setPt 15 0.5 (0.05, 0.95))
    (demoCalls_valid _ (by simp [demoCalls])) (Or.inr (Or.inl rfl))
  obtain ⟨e1, h1⟩ := setPt_rejected (p := p0) (some 15) none [0.05, 0.95] (.inr (.inr rfl))
  obtain ⟨e2, h2⟩ := setPt_rejected (p := p0) (some 15) (some 0.5) [0.05, 0.5, 0.95] (.inl rfl)
  have h3 : setPtBody (some 15) (some 0.5) [0.05, 0.95] p0 = (.ok (), p) :=
    (setPt_total k3.built.cubeIs demoGrid_proper 15 0.5 (0.05, 0.95)).trans (by rw [show p0.setPt 15 0.5 (0.05, 0.95) = .ok p from j1]; rfl)
  refine ⟨p0, p, _, k3.built, rfl, ?_, j1, ?_⟩
  · simp only [accepted, DiskTry.body, h1, h2, h3]
  · simp only [tryAll, DiskTry.body, h1, h2, h3]

/-- A careful history of a stream, whose first two calls are rejected: the angles are set too late, and then are too large. -/
example : ∃ (s0 s : Stream) (ks : List StreamTry), Built s0.base demoGrid 1 (0, 0) 0 ∧
    ks = [.setMuV [0, 100], .setPxt [0, 5] [1, 1] 1 75, .setPxt [0, 2] [1, 1] 1 75] ∧ (∀ k ∈ ks, k.Careful) ∧
    accepted StreamTry.body s0.asObj ks = [.setPxt [0, 2] [1, 1] 1 75] ∧ s0.setPxt (0, 2) (1, 1) 1 75 = .ok s ∧
    tryAll StreamTry.body s0.asObj ks = s.asObj := by
  obtain ⟨cube, -, hc, hs⟩ := demoCube_exists
  obtain ⟨p0, k1, hb, -⟩ := init_built hc demoGrid_proper 1 (0, 0) 0
  have hpi := Real.pi_pos
  have hpi2 := Real.two_le_pi
  have hpi4 : Real.pi < 5 := by linarith [Real.pi_le_four]
  obtain ⟨T, t1, -⟩ := stream_setPxt (s := ⟨p0, none⟩) hb demoGrid_proper (theta := (0, 2)) (muR := (1, 1)) (sig := 1) (n := 75)
    (by simp [hpi.le]) (by simpa using hpi2) (by norm_num) one_pos (by norm_num)
  have c1 : (StreamTry.setPxt [0, 5] [1, 1] 1 75).Careful := .inr (.inr ⟨5, by simp, .inr hpi4⟩)
  obtain ⟨e1, h1⟩ : ∃ e, (StreamTry.setMuV [0, 100]).body (⟨p0, none⟩ : Stream).asObj = (.error e, (⟨p0, none⟩ : Stream).asObj) := by
    rcases stream_careful (s := ⟨p0, none⟩) hb demoGrid_proper (.setMuV [0, 100]) trivial with ⟨e, h, -⟩ | ⟨c, s', h2, h3, -⟩
    · exact ⟨e, h⟩
    · cases h2
      obtain ⟨_, -, h⟩ := bind_ok h3
      obtain ⟨_, h, -⟩ := bind_ok h
      cases h
  obtain ⟨e2, h2⟩ : ∃ e, (StreamTry.setPxt [0, 5] [1, 1] 1 75).body (⟨p0, none⟩ : Stream).asObj = (.error e, (⟨p0, none⟩ : Stream).asObj) := by
    rcases setPxt_angles [0, 5] [1, 1] 1 75 (⟨p0, none⟩ : Stream).asObj with h | ⟨-, h, -⟩
    · exact h
    · exact absurd (h 5 (by simp)).2 (not_le.2 hpi4)
  have h3 : (StreamTry.setPxt [0, 2] [1, 1] 1 75).body (⟨p0, none⟩ : Stream).asObj =
      (.ok (), (⟨{ p0 with logPxt := some T }, some (0, 2)⟩ : Stream).asObj) := by
    have := stream_setPxt_pairs (o := (⟨p0, none⟩ : Stream).asObj) hb none (0, 2) (1, 1) 1 75
    exact this.trans (by rw [show ((⟨(⟨p0, none⟩ : Stream).asObj.base, none⟩ : Stream).setPxt (0, 2) (1, 1) 1 75) = _ from t1]; rfl)
  refine ⟨⟨p0, none⟩, ⟨{ p0 with logPxt := some T }, some (0, 2)⟩, _, hb, rfl, fun k hk => ?_, ?_, t1, ?_⟩
  · simp only [List.mem_cons, List.not_mem_nil, or_false] at hk
    rcases hk with rfl | rfl | rfl
    · trivial
    · exact c1
    · exact .inl (by simp [StreamTry.asCall, pairOf])
  · simp only [accepted, h1, h2, h3]
  · simp only [tryAll, h1, h2, h3]

end PKM
