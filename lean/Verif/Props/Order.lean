import Verif.Props.Turn

/-!
# C84: which setter calls matter

A parametric component is set up by calling its setters, in some order, possibly several times. Nothing is
re-computed: a setter stores what it computes from its arguments and from at most one other part of the component -
for a growing disk `set_p_x_t`, `set_mu_v` and `set_sig_v` read the star-formation history, for a stream `set_mu_v`
reads the angles given to `set_p_x_t`.

Specification: `lastOf f ks` is the last call of the history `ks` that sets part `f`; `origin f ks` is that call
together with the last call, among those made before it, of the part it reads.
-/

open scoped Classical
open MeasureTheory ProbabilityTheory

noncomputable section

namespace PKM
open Np Component

variable {p : Param} {g : Grid} {f2 : ℝ} {center : ℝ × ℝ} {rotation : ℝ} {L : ℕ → ℕ → ℝ}

/-! ### Specification -/

/-- The part of a growing disk that a call reads: positions, mean velocities and dispersions of each age are laid out
between the start and the end of star formation. -/
def DiskCall.reads : DiskCall → Option Field
  | .setPt .. => none
  | .setPxt .. => some .age
  | .setTDep .. => none
  | .setMuV .. => some .age
  | .setSigV .. => some .age

/-- The part of a stream that a call reads: the velocity is laid out between the angles of the ends. -/
def StreamCall.reads : StreamCall → Option Field
  | .setMuV _ => some .space
  | _ => none

section
variable {κ : Type} (field : κ → Field) (reads : κ → Option Field)

/-- The last call that sets part `f`; the history is read backwards. -/
def lastBack (f : Field) : List κ → Option κ
  | [] => none
  | k :: before => if field k = f then some k else lastBack f before

/-- The last call that sets part `f`, with the last call of the part it reads among those before it. -/
def originBack (f : Field) : List κ → Option (κ × Option κ)
  | [] => none
  | k :: before => if field k = f then some (k, (reads k).bind fun r => lastBack field r before) else originBack f before

/-- The last call of a history that sets part `f`. -/
def lastOf (f : Field) (ks : List κ) : Option κ := lastBack field f ks.reverse

/-- The last call of a history that sets part `f`, with the last call of the part it reads made before it. -/
def origin (f : Field) (ks : List κ) : Option (κ × Option κ) := originBack field reads f ks.reverse

end

/-! ### Histories in general -/

theorem runAll_snoc {σ κ : Type} {run : σ → κ → Py σ} {ks : List κ} {k : κ} {s s' : σ} (h : runAll run s (ks ++ [k]) = .ok s') :
    ∃ s1, runAll run s ks = .ok s1 ∧ run s1 k = .ok s' := by
  rw [runAll_append] at h
  obtain ⟨s1, h1, h2⟩ := bind_ok h
  obtain ⟨s2, h2, h3⟩ := bind_ok h2
  cases h3
  exact ⟨s1, h1, h2⟩

/-- States whose calls write one slot each and read at most one other slot. -/
structure Slotted {σ κ β φ : Type} (run : σ → κ → Py σ) (field : κ → Field) (reads : κ → Option Field) (slot : Field → σ → β)
    (frame : σ → φ) : Prop where
  same : ∀ {s s1 : σ} {k : κ}, run s k = .ok s1 → frame s1 = frame s ∧ ∀ f, f ≠ field k → slot f s1 = slot f s
  reads_none : ∀ {k k' : κ} {r : Field}, reads k = some r → field k' = r → reads k' = none
  det : ∀ {s s' s1 : σ} {k : κ}, frame s' = frame s → (∀ r ∈ reads k, slot r s' = slot r s) → run s k = .ok s1 →
    ∃ s1', run s' k = .ok s1' ∧ slot (field k) s1' = slot (field k) s1

section
variable {σ κ β φ : Type} {run : σ → κ → Py σ} {field : κ → Field} {reads : κ → Option Field} {slot : Field → σ → β} {frame : σ → φ}

theorem Slotted.frame_eq (H : Slotted run field reads slot frame) {s : σ} : ∀ (ks : List κ) {s1 : σ}, runAll run s ks = .ok s1 → frame s1 = frame s := by
  intro ks
  induction ks using List.reverseRecOn with
  | nil => intro s1 h; cases h; rfl
  | append_singleton ks k ih =>
    intro s1 h
    obtain ⟨s2, h1, h2⟩ := runAll_snoc h
    rw [(H.same h2).1, ih h1]

/-- A slot that reads nothing depends on its last call only. -/
theorem Slotted.plain (H : Slotted run field reads slot frame) {s : σ} {f : Field} (hf : ∀ k, field k = f → reads k = none) (ks ks' : List κ) {s1 s1' : σ}
    (h : runAll run s ks = .ok s1) (h' : runAll run s ks' = .ok s1') (he : lastOf field f ks = lastOf field f ks') : slot f s1 = slot f s1' := by
  have key : ∀ (ks : List κ) {s1 : σ}, runAll run s ks = .ok s1 →
      (lastOf field f ks = none → slot f s1 = slot f s) ∧
      (∀ k, lastOf field f ks = some k → field k = f ∧ ∃ s2, run s k = .ok s2 ∧ slot f s1 = slot f s2) := by
    intro ks
    induction ks using List.reverseRecOn with
    | nil => intro s1 h; cases h; exact ⟨fun _ => rfl, fun k h => by simp [lastOf, lastBack] at h⟩
    | append_singleton ks k ih =>
      intro s1 h
      obtain ⟨s2, h1, h2⟩ := runAll_snoc h
      have ih := ih h1
      simp only [lastOf, List.reverse_append, List.reverse_cons, List.reverse_nil, List.nil_append, List.cons_append, lastBack] at ih ⊢
      by_cases e : field k = f
      · simp only [e, if_true, reduceCtorEq, false_implies, Option.some.injEq, true_and]
        rintro k' rfl
        obtain ⟨s3, j1, j2⟩ := H.det (s' := s) (H.frame_eq ks h1).symm (by simp [hf k e]) h2
        exact ⟨e, s3, j1, by rw [← e]; exact j2.symm⟩
      · simp only [e, if_false]
        rw [(H.same h2).2 f (Ne.symm e)]
        exact ih
  obtain ⟨a1, a2⟩ := key ks h
  obtain ⟨b1, b2⟩ := key ks' h'
  cases hl : lastOf field f ks with
  | none => rw [a1 hl, b1 (he ▸ hl)]
  | some k =>
    obtain ⟨-, s2, c1, c2⟩ := a2 k hl
    obtain ⟨-, s2', d1, d2⟩ := b2 k (he ▸ hl)
    rw [c1] at d1
    cases d1
    rw [c2, d2]

theorem origin_split {f : Field} : ∀ (ks : List κ), (origin field reads f ks = none ∧ ∀ k ∈ ks, field k ≠ f) ∨
    ∃ pre k post, ks = pre ++ k :: post ∧ field k = f ∧ (∀ k' ∈ post, field k' ≠ f) ∧
      origin field reads f ks = some (k, (reads k).bind fun r => lastOf field r pre) := by
  intro ks
  induction ks using List.reverseRecOn with
  | nil => exact Or.inl ⟨rfl, by simp⟩
  | append_singleton ks k ih =>
    simp only [origin, List.reverse_append, List.reverse_cons, List.reverse_nil, List.nil_append, List.cons_append, originBack] at ih ⊢
    by_cases e : field k = f
    · exact Or.inr ⟨ks, k, [], rfl, e, by simp, by simp only [e, if_true]; rfl⟩
    · simp only [e, if_false]
      rcases ih with ⟨h1, h2⟩ | ⟨pre, k', post, h1, h2, h3, h4⟩
      · refine Or.inl ⟨h1, fun k' hk' => ?_⟩
        rcases List.mem_append.1 hk' with h | h
        · exact h2 _ h
        · rw [List.mem_singleton.1 h]; exact e
      · refine Or.inr ⟨pre, k', post ++ [k], by simp [h1], h2, fun k'' hk'' => ?_, h4⟩
        rcases List.mem_append.1 hk'' with h | h
        · exact h3 _ h
        · rw [List.mem_singleton.1 h]; exact e

theorem Slotted.after (H : Slotted run field reads slot frame) {f : Field} : ∀ (ks : List κ) {s s1 : σ}, runAll run s ks = .ok s1 → (∀ k ∈ ks, field k ≠ f) →
    slot f s1 = slot f s := by
  intro ks
  induction ks with
  | nil => intro s s1 h _; cases h; rfl
  | cons k ks ih =>
    intro s s1 h hf
    obtain ⟨s2, h1, h2⟩ := bind_ok h
    rw [ih h2 fun k' hk' => hf k' (by simp [hk']), (H.same h1).2 f (Ne.symm (hf k (by simp)))]

/-- Every slot depends on the last call that sets it and on the last call before that of what it reads. -/
theorem Slotted.slots (H : Slotted run field reads slot frame) {s : σ} (ks ks' : List κ) {s1 s1' : σ} (h : runAll run s ks = .ok s1)
    (h' : runAll run s ks' = .ok s1') (f : Field) (he : origin field reads f ks = origin field reads f ks') : slot f s1 = slot f s1' := by
  rcases origin_split (field := field) (reads := reads) (f := f) ks with ⟨a1, a2⟩ | ⟨pre, k, post, rfl, a2, a3, a4⟩
  · rcases origin_split (field := field) (reads := reads) (f := f) ks' with ⟨b1, b2⟩ | ⟨pre', k', post', rfl, b2, b3, b4⟩
    · rw [H.after ks h a2, H.after ks' h' b2]
    · rw [a1, b4] at he; cases he
  · rcases origin_split (field := field) (reads := reads) (f := f) ks' with ⟨b1, b2⟩ | ⟨pre', k', post', rfl, b2, b3, b4⟩
    · rw [a4, b1] at he; cases he
    · rw [a4, b4] at he
      simp only [Option.some.injEq, Prod.mk.injEq] at he
      obtain ⟨rfl, he⟩ := he
      rw [runAll_append] at h h'
      obtain ⟨u, c1, c2⟩ := bind_ok h
      obtain ⟨v, c2, c3⟩ := bind_ok c2
      obtain ⟨u', d1, d2⟩ := bind_ok h'
      obtain ⟨v', d2, d3⟩ := bind_ok d2
      rw [H.after post c3 a3, H.after post' d3 b3]
      obtain ⟨v2, e1, e2⟩ := H.det (s' := u') (by rw [H.frame_eq pre c1, H.frame_eq pre' d1]) (fun r hr => by
        have hr' : reads k = some r := hr
        simp only [hr', Option.bind_some] at he
        exact H.plain (fun k' hk' => H.reads_none hr' hk') pre' pre d1 c1 he.symm) c2
      rw [d2] at e1
      cases e1
      rw [← a2, e2]

end

/-! ### What the setters of a growing disk read -/

/-- The attributes written by the setter of part `f`. -/
def diskSlot (f : Field) (p : Param) : Option TPars × List (Option (Arr Num)) := (if f = .age then p.tPars else none, f.get p)

/-- The attributes written by the constructor. -/
def blank (p : Param) : Param :=
  { p with tPars := none, logPt := none, logPxt := none, tDep := none, logPztx := none, muV := none, sigV := none }

theorem Writes.slots {f : Field} {p' : Param} (h : Writes p f p') :
    blank p' = blank p ∧ ∀ f', f' ≠ f → diskSlot f' p' = diskSlot f' p := by
  cases h <;> refine ⟨rfl, fun f' hf => ?_⟩ <;> cases f' <;> first | rfl | exact absurd rfl hf

theorem blank_ext {p' : Param} (h : blank p' = blank p) (hs : ∀ f, diskSlot f p' = diskSlot f p) : p' = p := by
  have h1 := hs .age
  have h2 := hs .space
  have h3 := hs .metal
  have h4 := hs .mean
  have h5 := hs .disp
  obtain ⟨⟩ := p
  obtain ⟨⟩ := p'
  simp only [blank, diskSlot, Field.get, Param.mk.injEq, Prod.mk.injEq, List.cons.injEq, and_true, if_true, reduceCtorEq, if_false, true_and] at h h1 h2 h3 h4 h5
  simp only [Param.mk.injEq]
  tauto

theorem linearInterpolateT_congr {p' : Param} (hc : p'.cube = p.cube) (ht : p'.tPars = p.tPars) (a b : ℝ) :
    p'.linearInterpolateT a b = p.linearInterpolateT a b := by
  simp only [Param.linearInterpolateT, hc, ht]

theorem interpT3_congr {p' : Param} (hc : p'.cube = p.cube) (ht : p'.tPars = p.tPars) (l : ℝ × ℝ) : p'.interpT3 l = p.interpT3 l := by
  simp only [Param.interpT3, linearInterpolateT_congr hc ht]

theorem ellRadius_congr {p' : Param} (hx : p'.xxp = p.xxp) (hy : p'.yyp = p.yyp) (q : Arr Num) : p'.ellRadius q = p.ellRadius q := by
  simp only [Param.ellRadius, hx, hy]

theorem setPztx_local {p' p1 : Param} (hc : p'.cube = p.cube) (hz : p'.zGrid = p.zGrid) (ht : p'.tDep = p.tDep) (hr : p.setPztx = .ok p1) :
    ∃ p1', p'.setPztx = .ok p1' ∧ diskSlot .metal p1' = diskSlot .metal p1 := by
  simp only [Param.setPztx] at hr ⊢
  obtain ⟨x1, q1, hr⟩ := bind_ok hr
  obtain ⟨x2, q2, hr⟩ := bind_ok hr
  cases hr
  have e : p'.enrichmentBase x1 = p.enrichmentBase x1 := by simp only [Param.enrichmentBase, hc, hz]
  refine ⟨{ p' with logPztx := some x2 }, by simp only [ht, q1, Py.ok_bind, e, q2], ?_⟩
  simp only [diskSlot, Field.get, reduceCtorEq, if_false, ht]

theorem setPt_local {p' p1 : Param} (hs : p'.cube = p.cube) {lmd phi : ℝ} {q : ℝ × ℝ} (hr : p.setPt lmd phi q = .ok p1) :
    ∃ p1', p'.setPt lmd phi q = .ok p1' ∧ diskSlot .age p1' = diskSlot .age p1 := by
  unfold Param.setPt at hr ⊢
  by_cases hc : (if (Param.betaAB lmd phi).1 > 1.0 then 1 else 0) + (if (Param.betaAB lmd phi).2 > 1 then 1 else 0) < 1
  · simp only [hc, if_true] at hr
    cases hr
  · simp only [hc, if_false] at hr ⊢
    obtain ⟨x1, q1, hr⟩ := bind_ok hr
    obtain ⟨x2, q2, hr⟩ := bind_ok hr
    obtain ⟨x3, q3, hr⟩ := bind_ok hr
    obtain ⟨x4, q4, hr⟩ := bind_ok hr
    obtain ⟨x5, q5, hr⟩ := bind_ok hr
    obtain ⟨x6, q6, hr⟩ := bind_ok hr
    obtain ⟨x7, q7, hr⟩ := bind_ok hr
    cases hr
    refine ⟨{ p' with
      tPars := some ⟨betaPpfNum (Param.betaAB lmd phi).1 (Param.betaAB lmd phi).2 (x1.get []) (x2.get [] - x1.get []) q.1,
        betaPpfNum (Param.betaAB lmd phi).1 (Param.betaAB lmd phi).2 (x1.get []) (x2.get [] - x1.get []) q.2,
        betaPpfNum (Param.betaAB lmd phi).1 (Param.betaAB lmd phi).2 (x1.get []) (x2.get [] - x1.get []) q.2 -
          betaPpfNum (Param.betaAB lmd phi).1 (Param.betaAB lmd phi).2 (x1.get []) (x2.get [] - x1.get []) q.1⟩
      logPt := some x7 }, ?_, rfl⟩
    simp only [hs, q1, q2, q3, q4, q5, q6, q7, Py.ok_bind]

theorem disk_local {p' p1 : Param} {k : DiskCall} (hb : blank p' = blank p) (hs : ∀ r ∈ k.reads, diskSlot r p' = diskSlot r p) (hr : k.run p = .ok p1) :
    ∃ p1', k.run p' = .ok p1' ∧ diskSlot k.field p1' = diskSlot k.field p1 := by
  have hc : p'.cube = p.cube := (congrArg Param.cube hb : (blank p').cube = (blank p).cube)
  have hx : p'.xxp = p.xxp := (congrArg Param.xxp hb : (blank p').xxp = (blank p).xxp)
  have hy : p'.yyp = p.yyp := (congrArg Param.yyp hb : (blank p').yyp = (blank p).yyp)
  have hz : p'.zGrid = p.zGrid := (congrArg Param.zGrid hb : (blank p').zGrid = (blank p).zGrid)
  have hd : p'.logDxDy = p.logDxDy := by simp only [Param.logDxDy, hc]
  cases k with
  | setPt lmd phi q => exact setPt_local hc hr
  | setPxt q rc alpha =>
    have ht : p'.tPars = p.tPars := by have := congrArg Prod.fst (hs .age rfl); simpa [diskSlot] using this
    simp only [DiskCall.run, GrowingDisk.setPxt, interpT3_congr hc ht, ellRadius_congr hx hy, hd] at hr ⊢
    obtain ⟨x1, q1, hr⟩ := bind_ok hr
    obtain ⟨x2, q2, hr⟩ := bind_ok hr
    obtain ⟨x3, q3, hr⟩ := bind_ok hr
    obtain ⟨x4, q4, hr⟩ := bind_ok hr
    obtain ⟨x5, q5, hr⟩ := bind_ok hr
    obtain ⟨x6, q6, hr⟩ := bind_ok hr
    obtain ⟨x7, q7, hr⟩ := bind_ok hr
    obtain ⟨x8, q8, hr⟩ := bind_ok hr
    obtain ⟨x9, q9, hr⟩ := bind_ok hr
    obtain ⟨x10, q10, hr⟩ := bind_ok hr
    obtain ⟨x11, q11, hr⟩ := bind_ok hr
    obtain ⟨x12, q12, hr⟩ := bind_ok hr
    obtain ⟨x13, q13, hr⟩ := bind_ok hr
    cases hr
    exact ⟨{ p' with logPxt := some x13 }, by simp only [q1, q2, q3, q4, q5, q6, q7, q8, q9, q10, q11, q12, q13, Py.ok_bind], rfl⟩
  | setTDep q alpha tIn tOut tMin tMax =>
    simp only [DiskCall.run, GrowingDisk.setTDep, ellRadius_congr hx hy] at hr ⊢
    rw [show (map Num.abs p'.xxp) = map Num.abs p.xxp by rw [hx]]
    obtain ⟨x1, q1, hr⟩ := bind_ok hr
    obtain ⟨x2, q2, hr⟩ := bind_ok hr
    obtain ⟨x3, q3, hr⟩ := bind_ok hr
    obtain ⟨x4, q4, hr⟩ := bind_ok hr
    obtain ⟨x5, q5, hr⟩ := bind_ok hr
    obtain ⟨x6, q6, hr⟩ := bind_ok hr
    obtain ⟨x7, q7, hr⟩ := bind_ok hr
    obtain ⟨x8, q8, hr⟩ := bind_ok hr
    obtain ⟨x9, q9, hr⟩ := bind_ok hr
    simp only [q1, q2, q3, q4, q5, q6, q7, q8, q9, Py.ok_bind]
    exact setPztx_local (p := { p with tDep := some (map (GrowingDisk.clipOut (tIn ≤ tOut) (Num.fin tOut))
      (map (fun x => Num.fin tIn + Num.fin (tOut - tIn) * x.rpow (Num.fin alpha)) x9)) }) (by exact hc) (by exact hz) (by rfl) hr
  | setMuV q rmax vmax =>
    have ht : p'.tPars = p.tPars := by have := congrArg Prod.fst (hs .age rfl); simpa [diskSlot] using this
    simp only [DiskCall.run, GrowingDisk.setMuV, linearInterpolateT_congr hc ht, ellRadius_congr hx hy, hx, hy] at hr ⊢
    obtain ⟨x1, q1, hr⟩ := bind_ok hr
    obtain ⟨x2, q2, hr⟩ := bind_ok hr
    obtain ⟨x3, q3, hr⟩ := bind_ok hr
    obtain ⟨x4, q4, hr⟩ := bind_ok hr
    obtain ⟨x5, q5, hr⟩ := bind_ok hr
    obtain ⟨x6, q6, hr⟩ := bind_ok hr
    obtain ⟨x7, q7, hr⟩ := bind_ok hr
    obtain ⟨x8, q8, hr⟩ := bind_ok hr
    obtain ⟨x9, q9, hr⟩ := bind_ok hr
    obtain ⟨x10, q10, hr⟩ := bind_ok hr
    obtain ⟨x11, q11, hr⟩ := bind_ok hr
    obtain ⟨x12, q12, hr⟩ := bind_ok hr
    obtain ⟨x13, q13, hr⟩ := bind_ok hr
    obtain ⟨x14, q14, hr⟩ := bind_ok hr
    obtain ⟨x15, q15, hr⟩ := bind_ok hr
    obtain ⟨x16, q16, hr⟩ := bind_ok hr
    obtain ⟨x17, q17, hr⟩ := bind_ok hr
    obtain ⟨x18, q18, hr⟩ := bind_ok hr
    cases hr
    exact ⟨{ p' with xxp := p.xxp, yyp := p.yyp, muV := some x18 }, by simp only [q1, q2, q3, q4, q5, q6, q7, q8, q9, q10, q11, q12, q13, q14, q15, q16, q17, q18, Py.ok_bind], rfl⟩
  | setSigV q alpha sIn sOut =>
    have ht : p'.tPars = p.tPars := by have := congrArg Prod.fst (hs .age rfl); simpa [diskSlot] using this
    simp only [DiskCall.run, GrowingDisk.setSigV, interpT3_congr hc ht, ellRadius_congr hx hy, hx, hc] at hr ⊢
    obtain ⟨x1, q1, hr⟩ := bind_ok hr
    obtain ⟨x2, q2, hr⟩ := bind_ok hr
    obtain ⟨x3, q3, hr⟩ := bind_ok hr
    obtain ⟨x4, q4, hr⟩ := bind_ok hr
    obtain ⟨x5, q5, hr⟩ := bind_ok hr
    obtain ⟨x6, q6, hr⟩ := bind_ok hr
    obtain ⟨x7, q7, hr⟩ := bind_ok hr
    obtain ⟨x8, q8, hr⟩ := bind_ok hr
    obtain ⟨x9, q9, hr⟩ := bind_ok hr
    obtain ⟨x10, q10, hr⟩ := bind_ok hr
    obtain ⟨x11, q11, hr⟩ := bind_ok hr
    obtain ⟨x12, q12, hr⟩ := bind_ok hr
    obtain ⟨x13, q13, hr⟩ := bind_ok hr
    obtain ⟨x14, q14, hr⟩ := bind_ok hr
    obtain ⟨x15, q15, hr⟩ := bind_ok hr
    obtain ⟨x16, q16, hr⟩ := bind_ok hr
    cases hr
    exact ⟨{ p' with cube := p.cube, xxp := p.xxp, sigV := _ }, by simp only [q1, q2, q3, q4, q5, q6, q7, q8, q9, q10, q11, q12, q13, q14, q15, q16, Py.ok_bind, hc], rfl⟩

theorem disk_slotted : Slotted (fun p k => DiskCall.run p k) DiskCall.field DiskCall.reads diskSlot blank where
  same h := (disk_writes h).slots
  reads_none {k k' r} h h' := by
    cases k <;> simp only [DiskCall.reads, reduceCtorEq, Option.some.injEq] at h <;> subst h <;>
      cases k' <;> simp_all [DiskCall.field, DiskCall.reads]
  det hf hr h := disk_local hf hr h

/-! ### What the setters of a stream read -/

/-- The attributes written by the setter of part `f` of a stream. -/
def streamSlot (f : Field) (s : Stream) : Option (ℝ × ℝ) × Option TPars × List (Option (Arr Num)) :=
  (if f = .space then s.thetaLims else none, diskSlot f s.base)

/-- The attributes written by the constructor of a stream. -/
def streamBlank (s : Stream) : Param := blank s.base

theorem stream_local {s s' s1 : Stream} {k : StreamCall} (hb : streamBlank s' = streamBlank s) (hs : ∀ r ∈ k.reads, streamSlot r s' = streamSlot r s)
    (hr : k.run s = .ok s1) : ∃ s1', k.run s' = .ok s1' ∧ streamSlot k.field s1' = streamSlot k.field s1 := by
  have hc : s'.base.cube = s.base.cube := (congrArg Param.cube hb : (blank s'.base).cube = (blank s.base).cube)
  have hx : s'.base.xxp = s.base.xxp := (congrArg Param.xxp hb : (blank s'.base).xxp = (blank s.base).xxp)
  have hy : s'.base.yyp = s.base.yyp := (congrArg Param.yyp hb : (blank s'.base).yyp = (blank s.base).yyp)
  have hz : s'.base.zGrid = s.base.zGrid := (congrArg Param.zGrid hb : (blank s'.base).zGrid = (blank s.base).zGrid)
  have hd : s'.base.logDxDy = s.base.logDxDy := by simp only [Param.logDxDy, hc]
  cases k with
  | setPt lmd phi q =>
    simp only [StreamCall.run] at hr ⊢
    obtain ⟨x1, q1, hr⟩ := bind_ok hr
    cases hr
    obtain ⟨y, j1, j2⟩ := setPt_local (p' := s'.base) hc q1
    exact ⟨{ s' with base := y }, by simp only [j1, Py.ok_bind], congrArg (Prod.mk (none : Option (ℝ × ℝ))) j2⟩
  | setPxt theta muR sig n =>
    simp only [StreamCall.run, Stream.setPxt, hc, hx, hy, hd] at hr ⊢
    obtain ⟨x1, q1, hr⟩ := bind_ok hr
    obtain ⟨x2, q2, hr⟩ := bind_ok hr
    obtain ⟨x3, q3, hr⟩ := bind_ok hr
    obtain ⟨x4, q4, hr⟩ := bind_ok hr
    obtain ⟨x5, q5, hr⟩ := bind_ok hr
    obtain ⟨x6, q6, hr⟩ := bind_ok hr
    obtain ⟨x7, q7, hr⟩ := bind_ok hr
    obtain ⟨x8, q8, hr⟩ := bind_ok hr
    obtain ⟨x9, q9, hr⟩ := bind_ok hr
    obtain ⟨x10, q10, hr⟩ := bind_ok hr
    obtain ⟨x11, q11, hr⟩ := bind_ok hr
    obtain ⟨x12, q12, hr⟩ := bind_ok hr
    cases hr
    refine ⟨⟨{ s'.base with cube := s.base.cube, xxp := s.base.xxp, yyp := s.base.yyp, logPxt := some x12 }, some theta⟩, ?_, rfl⟩
    simp only [q1, q2, q3, q4, q5, q6, q7, q8, q9, q10, q11, q12, Py.ok_bind]
  | setTDep τ =>
    simp only [StreamCall.run, Stream.setTDep] at hr ⊢
    obtain ⟨x1, q1, hr⟩ := bind_ok hr
    cases hr
    obtain ⟨y, j1, j2⟩ := setPztx_local (p := { s.base with tDep := some (full [s.base.cube.nx, s.base.cube.ny] (.fin τ)) }) (p' := { s'.base with tDep := some (full [s'.base.cube.nx, s'.base.cube.ny] (.fin τ)) }) hc hz
      (by simp only [hc]) q1
    exact ⟨{ s' with base := y }, by simp only [j1, Py.ok_bind], congrArg (Prod.mk (none : Option (ℝ × ℝ))) j2⟩
  | setMuV lims =>
    have ht : s'.thetaLims = s.thetaLims := by have := congrArg Prod.fst (hs .space rfl); simpa [streamSlot] using this
    simp only [StreamCall.run, Stream.setMuV, ht] at hr ⊢
    rw [hc, hx, hy]
    obtain ⟨x1, q1, hr⟩ := bind_ok hr
    obtain ⟨x2, q2, hr⟩ := bind_ok hr
    obtain ⟨x3, q3, hr⟩ := bind_ok hr
    obtain ⟨x4, q4, hr⟩ := bind_ok hr
    obtain ⟨x5, q5, hr⟩ := bind_ok hr
    cases hr
    refine ⟨⟨{ s'.base with cube := s.base.cube, xxp := s.base.xxp, yyp := s.base.yyp, muV := some x5 }, s.thetaLims⟩, ?_, rfl⟩
    simp only [q1, q2, q3, q4, q5, Py.ok_bind]
  | setSigV sigV =>
    simp only [StreamCall.run, Stream.setSigV] at hr ⊢
    obtain ⟨x1, q1, hr⟩ := bind_ok hr
    cases hr
    refine ⟨{ s' with base := { s'.base with sigV := some (full [x1, s.base.cube.nx, s.base.cube.ny] (.fin sigV)) } }, ?_, rfl⟩
    simp only [hc, q1, Py.ok_bind]

theorem stream_slotted : Slotted (fun s k => StreamCall.run s k) StreamCall.field StreamCall.reads streamSlot streamBlank where
  same {s s1 k} h := by
    obtain ⟨h1, h2⟩ := stream_writes h
    refine ⟨h1.slots.1, fun f hf => ?_⟩
    simp only [streamSlot, h1.slots.2 f hf]
    by_cases e : f = .space
    · simp only [e, if_true, h2 (e ▸ Ne.symm hf)]
    · simp only [e, if_false]
  reads_none {k k' r} h h' := by
    cases k <;> simp only [StreamCall.reads, reduceCtorEq, Option.some.injEq] at h <;> subst h <;>
      cases k' <;> simp_all [StreamCall.field, StreamCall.reads]
  det hf hr h := stream_local hf hr h

theorem streamBlank_ext {s s' : Stream} (h : streamBlank s' = streamBlank s) (hs : ∀ f, streamSlot f s' = streamSlot f s) : s' = s := by
  have h1 : s'.base = s.base := blank_ext h fun f => congrArg Prod.snd (hs f)
  have h2 : s'.thetaLims = s.thetaLims := by have := congrArg Prod.fst (hs .space); simpa [streamSlot] using this
  obtain ⟨b, t⟩ := s
  obtain ⟨b', t'⟩ := s'
  simp only at h1 h2
  rw [h1, h2]

/-! ### C84 -/

/-- Two histories of setter calls on the same growing disk that both succeed leave the same object - hence answer every
query alike - if for every part they agree on the last call that sets it and, for positions, velocities and dispersions,
on the last `set_p_t` made before that call. -/
theorem C84_disk (p0 p p' : Param) (ks ks' : List DiskCall) (h : runAll (fun p k => DiskCall.run p k) p0 ks = .ok p)
    (h' : runAll (fun p k => DiskCall.run p k) p0 ks' = .ok p')
    (he : ∀ f, origin DiskCall.field DiskCall.reads f ks = origin DiskCall.field DiskCall.reads f ks') : p = p' :=
  blank_ext (by rw [disk_slotted.frame_eq ks h, disk_slotted.frame_eq ks' h']) fun f => disk_slotted.slots ks ks' h h' f (he f)

/-- The same for streams, whose only dependence is that of the mean velocity on the angles last given to `set_p_x_t`. -/
theorem C84_stream (s0 s s' : Stream) (ks ks' : List StreamCall) (h : runAll (fun s k => StreamCall.run s k) s0 ks = .ok s)
    (h' : runAll (fun s k => StreamCall.run s k) s0 ks' = .ok s')
    (he : ∀ f, origin StreamCall.field StreamCall.reads f ks = origin StreamCall.field StreamCall.reads f ks') : s = s' :=
  streamBlank_ext (by rw [stream_slotted.frame_eq ks h, stream_slotted.frame_eq ks' h']) fun f => stream_slotted.slots ks ks' h h' f (he f)

theorem lastOf_cons {κ : Type} {field : κ → Field} {f : Field} {k : κ} (ks : List κ) (hk : field k = f) (h : ∀ k' ∈ ks, field k' ≠ f) :
    lastOf field f (k :: ks) = some k := by
  induction ks using List.reverseRecOn with
  | nil => simp [lastOf, lastBack, hk]
  | append_singleton ks k' ih =>
    have ih := ih fun k'' hk'' => h k'' (by simp [hk''])
    have h1 := h k' (by simp)
    simp only [lastOf, List.reverse_cons, List.reverse_append, List.reverse_nil, List.nil_append, List.cons_append, lastBack, h1, if_false] at ih ⊢
    exact ih

/-- After one `set_p_t`, the order of the other setters does not matter: if each is called at most once, with valid
parameters, any two orders succeed and leave the same object. -/
theorem C84_order {cube : IFUCube} (hc : CubeIs cube g) (hg : g.Proper) (f2 : ℝ) (center : ℝ × ℝ) (rotation : ℝ)
    (hx : ∃ c, g.Has c ∧ frameX g center rotation c ≠ 0) (lmd phi : ℝ) (q : ℝ × ℝ) (h1 : ValidSfh lmd phi q) (ks ks' : List DiskCall)
    (hv : ∀ k ∈ ks, k.Valid) (hn : (ks.map DiskCall.field).Nodup) (ha : ∀ k ∈ ks, k.field ≠ .age) (hp : ks.Perm ks') :
    ∃ p0 p, Param.init f2 cube center rotation = .ok p0 ∧
      runAll (fun p k => DiskCall.run p k) p0 (.setPt lmd phi q :: ks) = .ok p ∧
      runAll (fun p k => DiskCall.run p k) p0 (.setPt lmd phi q :: ks') = .ok p := by
  obtain ⟨p0, k1, k2, k3, k4⟩ := init_sound hc hg f2 center rotation
  have run : ∀ ks : List DiskCall, (∀ k ∈ ks, k.Valid) → ∃ p, runAll (fun p k => DiskCall.run p k) p0 (.setPt lmd phi q :: ks) = .ok p := by
    intro ks hv
    rcases disk_history hg hx (.setPt lmd phi q :: ks) p0 k3 (by rintro k (_ | ⟨_, h⟩); exacts [h1, hv k h]) with ⟨p, j1, -⟩ | ⟨-, -, pre, k, post, j1, j2, j3⟩
    · exact ⟨p, j1⟩
    · exfalso
      cases pre with
      | nil => simp only [List.nil_append, List.cons.injEq] at j1; rw [← j1.1] at j3; exact j3.1 rfl
      | cons k' pre =>
        simp only [List.cons_append, List.cons.injEq] at j1
        exact j2 k' (by simp) (by rw [← j1.1]; rfl)
  obtain ⟨p, r1⟩ := run ks hv
  obtain ⟨p', r2⟩ := run ks' fun k hk => hv k (hp.mem_iff.2 hk)
  have orig : ∀ (ks : List DiskCall), (∀ k ∈ ks, k.field ≠ .age) → ∀ f,
      (origin DiskCall.field DiskCall.reads f (.setPt lmd phi q :: ks) = none ∧ f ≠ .age ∧ ∀ k ∈ ks, k.field ≠ f) ∨
      (f = .age ∧ origin DiskCall.field DiskCall.reads f (.setPt lmd phi q :: ks) = some (.setPt lmd phi q, none)) ∨
      ∃ k ∈ ks, k.field = f ∧ origin DiskCall.field DiskCall.reads f (.setPt lmd phi q :: ks) = some (k, k.reads.bind fun _ => some (.setPt lmd phi q)) := by
    intro ks ha f
    rcases origin_split (field := DiskCall.field) (reads := DiskCall.reads) (f := f) (.setPt lmd phi q :: ks) with ⟨j1, j2⟩ | ⟨pre, k, post, j1, j2, j3, j4⟩
    · exact Or.inl ⟨j1, fun e => j2 (.setPt lmd phi q) (by simp) e.symm, fun k hk => j2 k (by simp [hk])⟩
    · rw [j4]
      cases pre with
      | nil =>
        simp only [List.nil_append, List.cons.injEq] at j1
        rw [← j1.1] at j2 ⊢
        exact Or.inr (Or.inl ⟨j2.symm, rfl⟩)
      | cons k0 pre =>
        simp only [List.cons_append, List.cons.injEq] at j1
        refine Or.inr (Or.inr ⟨k, by simp [j1.2], j2, ?_⟩)
        have hl : lastOf DiskCall.field .age (k0 :: pre) = some (.setPt lmd phi q) := by
          rw [← j1.1]
          exact lastOf_cons pre rfl fun k' hk' => ha k' (by simp [j1.2, hk'])
        have hr : k.reads = none ∨ k.reads = some .age := by cases k <;> simp [DiskCall.reads]
        rcases hr with hr | hr <;> simp [hr, hl]
  refine ⟨p0, p, k1, r1, ?_⟩
  rw [C84_disk p0 p p' _ _ r1 r2 fun f => ?_]
  · exact r2
  · rcases orig ks ha f with ⟨a1, a2, a3⟩ | ⟨a1, a2⟩ | ⟨k, a1, a2, a3⟩ <;>
      rcases orig ks' (fun k hk => ha k (hp.mem_iff.2 hk)) f with ⟨b1, b2, b3⟩ | ⟨b1, b2⟩ | ⟨k', b1, b2, b3⟩
    · rw [a1, b1]
    · exact absurd b1 a2
    · exact absurd b2 (a3 k' (hp.mem_iff.2 b1))
    · exact absurd a1 b2
    · rw [a2, b2]
    · exact absurd (b2.trans a1) (ha k' (hp.mem_iff.2 b1))
    · exact absurd a2 (b3 k (hp.mem_iff.1 a1))
    · exact absurd (a2.trans b1) (ha k a1)
    · have : k = k' := List.inj_on_of_nodup_map hn a1 (hp.mem_iff.2 b1) (a2.trans b2.symm)
      rw [a3, b3, this]

/-- What is stale stays stale: once a disk is set up, a later `set_p_t` changes `get_p('x_t')`, `get_p('z_tx')` and `get_p('v_tx')` in no entry,
although positions, mean velocities and dispersions were laid out between the start and end of the previous history. -/
theorem C84_stale {m : Ingredients} (hp : ParamIs p g m L) (p' : Param) (ks : List DiskCall) (h : runAll (fun p k => DiskCall.run p k) p ks = .ok p') (hk : ∀ k ∈ ks, k.field = .age)
    (density : Bool) :
    getP p'.self (condStr ['x'] ['t']) density false = getP p.self (condStr ['x'] ['t']) density false ∧
    getP p'.self (condStr ['z'] ['t','x']) density false = getP p.self (condStr ['z'] ['t','x']) density false ∧
    getP p'.self (condStr ['v'] ['t','x']) density false = getP p.self (condStr ['v'] ['t','x']) density false := by
  have hb : blank p' = blank p := disk_slotted.frame_eq ks h
  have e : ∀ f : Field, f ≠ .age → diskSlot f p' = diskSlot f p := fun f hf => disk_slotted.after ks h fun k hk' => by rw [hk k hk']; exact hf.symm
  have hc : p'.cube = p.cube := (congrArg Param.cube hb : (blank p').cube = (blank p).cube)
  have h1 : p'.logPxt = p.logPxt := by simpa [diskSlot, Field.get] using e .space (by simp)
  have h2 : p'.logPztx = p.logPztx := by
    have := e .metal (by simp)
    simp only [diskSlot, Field.get, Prod.mk.injEq, List.cons.injEq] at this
    exact this.2.2.1
  have h3 : p'.muV = p.muV := by simpa [diskSlot, Field.get] using e .mean (by simp)
  have h4 : p'.sigV = p.sigV := by simpa [diskSlot, Field.get] using e .disp (by simp)
  have x1 : ∀ d, p'.xt d false = p.xt d false := fun d => by
    simp only [Param.xt, Param.xtMass, h1, Param.logDxDy, hc, Bool.false_eq_true, if_false]
  have x2 : ∀ d, p'.ztx d false = p.ztx d false := fun d => by
    simp only [Param.ztx, Param.ztxMass, h2, Param.logVol, hc, Bool.false_eq_true, if_false]
  have x3 : ∀ d, p'.vtx d false = p.vtx d false := fun d => by
    simp only [Param.vtx, Param.vtxMass, h3, h4, Param.logVol, hc, Bool.false_eq_true, if_false]
  have key : ∀ {f f' : Bool → Bool → Py (Arr Num)} {a b : PyStr} {A : Arr Num}, '_' ∉ a → '_' ∉ b → p.logP (condStr a b) = some f →
      p'.logP (condStr a b) = some f' → f' density false = f density false → f density false = .ok A →
      getP p'.self (condStr a b) density false = getP p.self (condStr a b) density false := by
    intro f f' a b A ha hb h1 h2 h3 h4
    have e1 : p.self.logP (condStr a b) = some f := h1
    have e2 : p'.self.logP (condStr a b) = some f' := h2
    simp only [getP, getLogP, getLogConditional, hasUnderscore_condStr, getLogMarginal, e1, e2, h3, h4, split_condStr ha hb]
  obtain ⟨A1, y1, -⟩ := hp.xtMass density
  obtain ⟨A2, y2, -⟩ := hp.ztxMass density
  obtain ⟨A3, y3, -⟩ := hp.vtxMass density
  refine ⟨key (by decide) (by decide) (f := p.xt) (f' := p'.xt) rfl rfl (x1 density) y1,
    key (by decide) (by decide) (f := p.ztx) (f' := p'.ztx) rfl rfl (x2 density) y2,
    key (by decide) (by decide) (f := p.vtx) (f' := p'.vtx) rfl rfl (x3 density) y3⟩

/-! ### The hypotheses are met, and the order does matter -/

theorem setPt_between (hc : CubeIs p.cube g) (hg : g.Proper) {lmd phi : ℝ} {q : ℝ × ℝ} (hv : ValidSfh lmd phi q) :
    ∃ A, p.setPt lmd phi q = .ok { p with
      tPars := some ⟨.fin (betaPpf (lmd * phi) (lmd * (1 - phi)) q.1 * (g.t g.nt - g.t 0) + g.t 0),
        .fin (betaPpf (lmd * phi) (lmd * (1 - phi)) q.2 * (g.t g.nt - g.t 0) + g.t 0),
        .fin (betaPpf (lmd * phi) (lmd * (1 - phi)) q.2 * (g.t g.nt - g.t 0) + g.t 0 -
          (betaPpf (lmd * phi) (lmd * (1 - phi)) q.1 * (g.t g.nt - g.t 0) + g.t 0))⟩, logPt := some A } ∧
      betaPpf (lmd * phi) (lmd * (1 - phi)) q.1 * (g.t g.nt - g.t 0) + g.t 0 <
        betaPpf (lmd * phi) (lmd * (1 - phi)) q.2 * (g.t g.nt - g.t 0) + g.t 0 := by
  obtain ⟨hl, h0, h1, hu, hq1, hq, hq2⟩ := hv
  have ha : 0 < lmd * phi := mul_pos hl h0
  have hb : 0 < lmd * (1 - phi) := mul_pos hl (by linarith)
  obtain ⟨A, h2, h3⟩ := setPt_stores hc hg ha hb hu q
  have hs : 0 < g.t g.nt - g.t 0 := sub_pos.2 (strict_edges hg.t hg.nt le_rfl)
  have k : ∀ r, 0 ≤ r → r ≤ 1 → betaPpfNum (lmd * phi) (lmd * (1 - phi)) (.fin (g.t 0)) (.fin (g.t g.nt - g.t 0)) r =
      .fin (betaPpf (lmd * phi) (lmd * (1 - phi)) r * (g.t g.nt - g.t 0) + g.t 0) := fun r r0 r1 => by
    unfold betaPpfNum
    rw [if_pos ⟨ha, hb, by simpa [scaleOk] using hs, r0, r1⟩, Num.fin_mul, Num.fin_add]
  rw [k _ hq1 (hq.le.trans hq2), k _ (hq1.trans hq.le) hq2, Num.fin_sub] at h2
  have hst := betaPpf_strict ha hb hq1 hq hq2
  exact ⟨A, h2, by nlinarith⟩

theorem betaPpf_cdf {a b x : ℝ} (ha : 0 < a) (hb : 0 < b) (h0 : 0 ≤ x) (h1 : x ≤ 1) : betaPpf a b (betaCdf a b x) = x := by
  have c0 : 0 ≤ betaCdf a b x := by
    rcases h0.eq_or_lt with h | h
    · rw [← h, betaCdf_zero ha hb]
    · have := betaCdf_strict ha hb le_rfl h1 h; rw [betaCdf_zero ha hb] at this; exact this.le
  have c1 : betaCdf a b x ≤ 1 := by
    rcases h1.eq_or_lt with h | h
    · rw [h, betaCdf_one ha hb]
    · have := betaCdf_strict ha hb h0 le_rfl h; rw [betaCdf_one ha hb] at this; exact this.le
  obtain ⟨k0, k1, k2⟩ := betaPpf_spec ha hb c0 c1
  rcases lt_trichotomy (betaPpf a b (betaCdf a b x)) x with h | h | h
  · exact absurd k2 (betaCdf_strict ha hb k0 h1 h).ne
  · exact h
  · exact absurd k2 (betaCdf_strict ha hb h0 k1 h).ne'

/-- The star-formation histories of the witness: all the mass, and the mass formed in the younger half of the age range. -/
def fullSfh : DiskCall := .setPt 4 0.5 (0, 1)
def youngSfh : DiskCall := .setPt 4 0.5 (0, betaCdf 2 2 (1 / 2))
def steepening : DiskCall := .setPxt (1, 1) (1, 1) (0, 1)

theorem young_range : 0 < betaCdf 2 2 (1 / 2) ∧ betaCdf 2 2 (1 / 2) < 1 := by
  have h1 := betaCdf_strict (a := 2) (b := 2) two_pos two_pos (x := 0) (y := 1 / 2) le_rfl (by norm_num) (by norm_num)
  have h2 := betaCdf_strict (a := 2) (b := 2) two_pos two_pos (x := 1 / 2) (y := 1) (by norm_num) le_rfl (by norm_num)
  rw [betaCdf_zero two_pos two_pos] at h1
  rw [betaCdf_one two_pos two_pos] at h2
  exact ⟨h1, h2⟩

/-- The order does matter for `set_p_t` itself: with the very same arguments, re-running `set_p_t` after `set_p_x_t`
and before it give different spatial distributions. -/
theorem C84_matters {cube : IFUCube} (hc : CubeIs cube demoGrid) : ∃ p0 p p' r r', Param.init 1 cube (0, 0) 0 = .ok p0 ∧
    runAll (fun p k => DiskCall.run p k) p0 [fullSfh, steepening, youngSfh] = .ok p ∧
    runAll (fun p k => DiskCall.run p k) p0 [fullSfh, youngSfh, steepening] = .ok p' ∧
    getP p.self ['x','_','t'] false false = .ok r ∧ getP p'.self ['x','_','t'] false false = .ok r' ∧
    (r.get [2, 0, 1] ≠ r'.get [2, 0, 1] ∨ r.get [2, 1, 1] ≠ r'.get [2, 1, 1]) := by
  have hg := demoGrid_proper
  have y1 := young_range
  have v1 : ValidSfh 4 0.5 (0, 1) := by norm_num [ValidSfh]
  have v2 : ValidSfh 4 0.5 (0, betaCdf 2 2 (1 / 2)) := by
    refine ⟨by norm_num, by norm_num, by norm_num, by norm_num, le_rfl, y1.1, y1.2.le⟩
  have e0 : betaPpf 2 2 0 = 0 := by have := betaPpf_cdf (a := 2) (b := 2) two_pos two_pos le_rfl zero_le_one; rwa [betaCdf_zero two_pos two_pos] at this
  have e1 : betaPpf 2 2 1 = 1 := by have := betaPpf_cdf (a := 2) (b := 2) two_pos two_pos zero_le_one le_rfl; rwa [betaCdf_one two_pos two_pos] at this
  have e2 : betaPpf 2 2 (betaCdf 2 2 (1 / 2)) = 1 / 2 := betaPpf_cdf two_pos two_pos (by norm_num) (by norm_num)
  have ab : (4 * 0.5 : ℝ) = 2 ∧ (4 * (1 - 0.5) : ℝ) = 2 := by norm_num
  have tt : demoGrid.t demoGrid.nt = 4 ∧ demoGrid.t 0 = 0 := by norm_num [demoGrid, cubeGrid]
  obtain ⟨p0, i1, hb, -⟩ := init_built hc hg 1 (0, 0) 0
  have sq : (0 : ℝ) < 1 ∧ (0 : ℝ) < 1 := by norm_num
  have sa : (0 : ℝ) ≤ 0 ∧ (0 : ℝ) ≤ 1 := by norm_num
  -- the first history
  obtain ⟨A, a1, a2⟩ := setPt_between hb.cubeIs hg v1
  set p1 : Param := { p0 with
      tPars := some ⟨.fin (betaPpf (4 * 0.5) (4 * (1 - 0.5)) 0 * (demoGrid.t demoGrid.nt - demoGrid.t 0) + demoGrid.t 0),
        .fin (betaPpf (4 * 0.5) (4 * (1 - 0.5)) 1 * (demoGrid.t demoGrid.nt - demoGrid.t 0) + demoGrid.t 0),
        .fin (betaPpf (4 * 0.5) (4 * (1 - 0.5)) 1 * (demoGrid.t demoGrid.nt - demoGrid.t 0) + demoGrid.t 0 -
          (betaPpf (4 * 0.5) (4 * (1 - 0.5)) 0 * (demoGrid.t demoGrid.nt - demoGrid.t 0) + demoGrid.t 0))⟩, logPt := some A } with hp1
  have b1 : Built p1 demoGrid 1 (0, 0) 0 := hb.congr rfl rfl rfl rfl rfl
  have g1 : Aged p1 0 4 := by
    refine ⟨?_, by norm_num⟩
    rw [hp1]
    simp only [ab.1, ab.2, tt.1, tt.2, e0, e1]
    norm_num
  obtain ⟨p2, r, c1, c2, -, -, c3⟩ := C37_spatial b1 hg g1 (1, 1) (1, 1) (0, 1) sq sq sa
  have w2 : Writes p1 .space p2 := disk_writes (k := .setPxt (1, 1) (1, 1) (0, 1)) c1
  obtain ⟨p5, d1⟩ : ∃ p5, p2.setPt 4 0.5 (0, betaCdf 2 2 (1 / 2)) = .ok p5 := by
    obtain ⟨A', d1, -⟩ := setPt_between (p := p2) (g := demoGrid) (w2.cube ▸ b1.cubeIs) hg v2
    exact ⟨_, d1⟩
  -- the second history
  obtain ⟨B, m1, m2⟩ := setPt_between (p := p1) (g := demoGrid) b1.cubeIs hg v2
  set p3 : Param := { p1 with
      tPars := some ⟨.fin (betaPpf (4 * 0.5) (4 * (1 - 0.5)) 0 * (demoGrid.t demoGrid.nt - demoGrid.t 0) + demoGrid.t 0),
        .fin (betaPpf (4 * 0.5) (4 * (1 - 0.5)) (betaCdf 2 2 (1 / 2)) * (demoGrid.t demoGrid.nt - demoGrid.t 0) + demoGrid.t 0),
        .fin (betaPpf (4 * 0.5) (4 * (1 - 0.5)) (betaCdf 2 2 (1 / 2)) * (demoGrid.t demoGrid.nt - demoGrid.t 0) + demoGrid.t 0 -
          (betaPpf (4 * 0.5) (4 * (1 - 0.5)) 0 * (demoGrid.t demoGrid.nt - demoGrid.t 0) + demoGrid.t 0))⟩, logPt := some B } with hp3
  have b3 : Built p3 demoGrid 1 (0, 0) 0 := b1.congr rfl rfl rfl rfl rfl
  have g3 : Aged p3 0 2 := by
    refine ⟨?_, by norm_num⟩
    rw [hp3]
    simp only [ab.1, ab.2, tt.1, tt.2, e0, e2]
    norm_num
  obtain ⟨p4, r', f1, f2, -, -, f3⟩ := C37_spatial b3 hg g3 (1, 1) (1, 1) (0, 1) sq sq sa
  obtain ⟨S, hS, c3⟩ := c3 1 (by norm_num [demoGrid, cubeGrid])
  obtain ⟨S', hS', f3⟩ := f3 1 (by norm_num [demoGrid, cubeGrid])
  have nx : 2 < demoGrid.nx := by norm_num [demoGrid, cubeGrid]
  have ny : 0 < demoGrid.ny ∧ 1 < demoGrid.ny := by norm_num [demoGrid, cubeGrid]
  obtain ⟨u0, o0, c4, c5⟩ := c3 2 nx 0 ny.1
  obtain ⟨u1, o1, c6, c7⟩ := c3 2 nx 1 ny.2
  obtain ⟨w0, q0, f4, f5⟩ := f3 2 nx 0 ny.1
  obtain ⟨w1, q1, f6, f7⟩ := f3 2 nx 1 ny.2
  have al : atAge demoGrid 0 4 (0, 1) 1 = 5 / 8 ∧ atAge demoGrid 0 2 (0, 1) 1 = 1 ∧ atAge demoGrid 0 4 (1, 1) 1 = 1 ∧ atAge demoGrid 0 2 (1, 1) 1 = 1 := by
    norm_num [atAge, ramp, centre, demoGrid, cubeGrid]
  have fx : ∀ y, frameX demoGrid (0, 0) 0 ⟨1, 0, 2, y, 0⟩ = 0 := fun y => by
    simp [frameX, centre, demoGrid, cubeGrid, evenEdges]; norm_num
  have fy : frameY demoGrid (0, 0) 0 ⟨1, 0, 2, 0, 0⟩ = 1 / 4 ∧ frameY demoGrid (0, 0) 0 ⟨1, 0, 2, 1, 0⟩ = 3 / 4 := by
    simp [frameY, centre, demoGrid, cubeGrid, evenEdges]; norm_num
  have wd : demoGrid.x (2 + 1) - demoGrid.x 2 = 2 / 5 ∧ demoGrid.y (0 + 1) - demoGrid.y 0 = 1 / 2 ∧ demoGrid.y (1 + 1) - demoGrid.y 1 = 1 / 2 := by
    norm_num [demoGrid, cubeGrid, evenEdges]
  have sr : Real.sqrt ((0 : ℝ) ^ 2 + (1 / 4 / 1) ^ 2) + 1 = 5 / 4 ∧ Real.sqrt ((0 : ℝ) ^ 2 + (3 / 4 / 1) ^ 2) + 1 = 7 / 4 := by
    constructor
    · rw [show (0 : ℝ) ^ 2 + (1 / 4 / 1) ^ 2 = (1 / 4) ^ 2 by norm_num, Real.sqrt_sq (by norm_num)]; norm_num
    · rw [show (0 : ℝ) ^ 2 + (3 / 4 / 1) ^ 2 = (3 / 4) ^ 2 by norm_num, Real.sqrt_sq (by norm_num)]; norm_num
  rw [al.1, al.2.2.1, fx, fy.1, wd.1, wd.2.1, sr.1] at c5
  rw [al.1, al.2.2.1, fx, fy.2, wd.1, wd.2.2, sr.2] at c7
  rw [al.2.1, al.2.2.2, fx, fy.1, wd.1, wd.2.1, sr.1] at f5
  rw [al.2.1, al.2.2.2, fx, fy.2, wd.1, wd.2.2, sr.2] at f7
  refine ⟨p0, p5, p4, r, r', i1, ?_, ?_, ?_, f2, ?_⟩
  · simp only [runAll, fullSfh, youngSfh, steepening, DiskCall.run, a1, Py.ok_bind, c1, d1]
  · simp only [runAll, fullSfh, youngSfh, steepening, DiskCall.run, a1, Py.ok_bind, m1, f1]
  · rw [← c2]
    have w5 : Writes p2 .age p5 := disk_writes (k := .setPt 4 0.5 (0, betaCdf 2 2 (1 / 2))) d1
    have e5 : p5.xt false false = p2.xt false false := by cases w5; rfl
    have l5 : p5.self.logP ['x','_','t'] = some p5.xt := rfl
    have l2 : p2.self.logP ['x','_','t'] = some p2.xt := rfl
    cases hx : p2.xt false false with
    | ok A => simp [getP, getLogP, getLogConditional, getLogMarginal, l5, l2, e5, hx]
    | error e =>
      exfalso
      have hm : p2.xtMass false = .error e := hx
      have ht : getLogMarginal p2.self ['t','x'] false false = .error e := by
        have : p2.self.logP ['t','x'] = some p2.tx := rfl
        simp only [getLogMarginal, this, Param.tx, Param.txMass, hm, Bool.false_eq_true, if_false]
        rfl
      have hb : ∀ f : Arr Num → Py (Arr Num), ((.error e : Py (Arr Num)) >>= f) = .error e := fun _ => rfl
      have hj : condFromJoint p2.self ['x','_','t'] ['x'] ['t'] false false = .error e := by
        have : PyStr.sorted (['x'] ++ ['t']) = ['t','x'] := by decide
        simp only [condFromJoint, this, ht, hb]
      have : getLogConditional p2.self ['x','_','t'] false false = .error e := by
        have hs : PyStr.split '_' ['x','_','t'] = [['x'], ['t']] := by decide
        have hu : '_' ∈ (['x','_','t'] : PyStr) := by decide
        simp only [getLogConditional, hu, if_true, hs, getLogMarginal, l2, hx]
        cases e <;> first | rfl | exact hj
      have hu : '_' ∈ (['x','_','t'] : PyStr) := by decide
      simp only [getP, getLogP, hu, if_true, this, hb] at c2
      cases c2
  · by_contra hcon
    push Not at hcon
    rw [c4, f4, c6, f6] at hcon
    simp only [Num.fin.injEq] at hcon
    have E1 : u0 / u1 = (7 / 5 : ℝ) ^ (5 / 8 : ℝ) := by
      have h1 : (7 / 5 : ℝ) ^ (5 / 8 : ℝ) = (7 / 4 : ℝ) ^ (5 / 8 : ℝ) / (5 / 4 : ℝ) ^ (5 / 8 : ℝ) := by
        rw [← Real.div_rpow (by norm_num) (by norm_num)]; norm_num
      have h2 : 0 < (7 / 4 : ℝ) ^ (5 / 8 : ℝ) := Real.rpow_pos_of_pos (by norm_num) _
      have h3 : 0 < (5 / 4 : ℝ) ^ (5 / 8 : ℝ) := Real.rpow_pos_of_pos (by norm_num) _
      rw [c5, c7, h1, Real.rpow_neg (by norm_num), Real.rpow_neg (by norm_num)]
      set α := (7 / 4 : ℝ) ^ (5 / 8 : ℝ)
      set β := (5 / 4 : ℝ) ^ (5 / 8 : ℝ)
      clear_value α β
      field_simp
    have E2 : w0 / w1 = (7 / 5 : ℝ) := by
      rw [f5, f7, Real.rpow_neg (by norm_num), Real.rpow_neg (by norm_num), Real.rpow_one, Real.rpow_one]
      field_simp
    rw [hcon.1, hcon.2, E2] at E1
    have : (7 / 5 : ℝ) ^ (5 / 8 : ℝ) < (7 / 5 : ℝ) ^ (1 : ℝ) := Real.rpow_lt_rpow_of_exponent_lt (by norm_num) (by norm_num)
    rw [Real.rpow_one, ← E1] at this
    exact lt_irrefl _ this

/-- Two histories to which `C84_disk` applies: a repeated `set_p_x_t`, and the remaining setters in another order. -/
example (f : Field) : origin DiskCall.field DiskCall.reads f
      [.setPt 15 0.5 (0.05, 0.95), .setPxt (1, 1) (2, 2) (0, 0), .setMuV (0.5, 0.5) (0.1, 1) (50, 250), .setPxt (0.5, 0.1) (0.5, 0.1) (0.5, 2)] =
    origin DiskCall.field DiskCall.reads f
      [.setPt 3 0.4 (0.1, 0.9), .setPt 15 0.5 (0.05, 0.95), .setPxt (0.5, 0.1) (0.5, 0.1) (0.5, 2), .setMuV (0.5, 0.5) (0.1, 1) (50, 250)] := by
  cases f <;> simp [origin, originBack, lastBack, DiskCall.field, DiskCall.reads]

/-- The demonstration set-up in the reverse order of the last four calls. -/
example : ∃ cube p0 p, CubeIs cube demoGrid ∧ Param.init 1 cube (0, 0) 0 = .ok p0 ∧
    runAll (fun p k => DiskCall.run p k) p0 demoCalls = .ok p ∧
    runAll (fun p k => DiskCall.run p k) p0 (.setPt 15 0.5 (0.05, 0.95) :: demoCalls.tail.reverse) = .ok p := by
  obtain ⟨cube, -, hc, -⟩ := demoCube_exists
  obtain ⟨p0, p, h1, h2, h3⟩ := C84_order hc demoGrid_proper 1 (0, 0) 0 demo_offcentre 15 0.5 (0.05, 0.95) (by norm_num [ValidSfh]) demoCalls.tail
    demoCalls.tail.reverse (fun k hk => demoCalls_valid k (List.mem_of_mem_tail hk)) (by simp [demoCalls, DiskCall.field])
    (by simp [demoCalls, DiskCall.field]) (List.reverse_perm _).symm
  exact ⟨cube, p0, p, hc, h1, h2, h3⟩

end PKM
