import Verif.Protocol
import Verif.Props.Disk

/-!
# C49: the set-up protocol of parametric components

A history is a list of setter calls (`DiskCall`, `StreamCall`), run in order by `runAll`; `k.field` is
the part of the component that call `k` sets, `Field.get p f` are the attributes that hold it.
-/

open scoped Classical
open MeasureTheory ProbabilityTheory

noncomputable section

namespace PKM
open Np Component

variable {p : Param} {g : Grid} {f2 : ℝ} {center : ℝ × ℝ} {rotation : ℝ} {L : ℕ → ℕ → ℝ}

/-! ### Queries before the setters -/

theorem ite_some {α : Type} {c : Prop} [Decidable c] {a f : α} {b : Option α} (h : (if c then some a else b) = some f) :
    a = f ∨ b = some f := by
  by_cases hc : c
  · simp only [hc, if_true, Option.some.injEq] at h; exact Or.inl h
  · simp only [hc, if_false] at h; exact Or.inr h

theorem fresh_fails (hc : CubeIs p.cube g) (h1 : p.logPt = none) (h2 : p.logPxt = none) (h3 : p.logPztx = none)
    (h4 : p.muV = none) (density lw : Bool) :
    (∀ w ∈ marginals, getLogMarginal p.self w density lw = .error .attributeError) ∧
    (∀ q ∈ conditionals, getLogMarginal p.self (condStr q.1 q.2) density lw = .error .attributeError) := by
  have b : ∀ {α β : Type} (e : PyErr) (f : α → Py β), ((.error e : Py α) >>= f) = .error e := fun _ _ => rfl
  have m1 : ∀ d, p.xtMass d = .error .attributeError := fun d => by simp only [Param.xtMass, h2, Param.attr, b]
  have m2 : ∀ d, p.tMass d = .error .attributeError := fun d => by simp only [Param.tMass, h1, Param.attr, b]
  have m3 : ∀ d, p.ztxMass d = .error .attributeError := fun d => by simp only [Param.ztxMass, h3, Param.attr, b]
  have m4 : ∀ d, p.vtxMass d = .error .attributeError := fun d => by
    have hv : MArr (bump g 'v') [some 'v'] p.cube.vEdg (fun c => .fin (g.v c.v)) :=
      Is1.marr (g := bump g 'v') (ch := 'v') (F := g.v) hc.vEdg
    obtain ⟨V, k1, -⟩ := hv.getitem [.all, .na, .na, .na] (R := [some 'v', none, none, none]) rfl
    simp only [Param.vtxMass, k1, Py.ok_bind, h4, Param.attr, b]
  have m5 : ∀ d, p.txMass d = .error .attributeError := fun d => by simp only [Param.txMass, m1, b]
  have m6 : ∀ d, p.txzMass d = .error .attributeError := fun d => by simp only [Param.txzMass, m5, b]
  have m7 : ∀ d, p.tvxzMass d = .error .attributeError := fun d => by simp only [Param.tvxzMass, m6, b]
  have n1 : ∀ d l, p.txz d l = .error .attributeError := fun d l => by simp only [Param.txz, m6, b]
  have n2 : ∀ d l, p.tvxz d l = .error .attributeError := fun d l => by simp only [Param.tvxz, m7, b]
  have n3 : ∀ d l, p.tz d l = .error .attributeError := fun d l => by simp only [Param.tz, n1, b]
  have n4 : ∀ d l, p.t d l = .error .attributeError := fun d l => by
    cases l <;> simp only [Param.t, n3, b, m2, if_true, Bool.false_eq_true, if_false]
  have n5 : ∀ d l, p.tx d l = .error .attributeError := fun d l => by
    cases l <;> simp only [Param.tx, n1, b, m5, if_true, Bool.false_eq_true, if_false]
  have n6 : ∀ d l, p.xt d l = .error .attributeError := fun d l => by
    cases l <;> simp only [Param.xt, n1, b, m1, if_true, Bool.false_eq_true, if_false]
  have n7 : ∀ d l, p.vtx d l = .error .attributeError := fun d l => by
    cases l <;> simp only [Param.vtx, n2, b, m4, if_true, Bool.false_eq_true, if_false]
  have n8 : ∀ d l, p.ztx d l = .error .attributeError := fun d l => by
    cases l <;> simp only [Param.ztx, n1, b, m3, if_true, Bool.false_eq_true, if_false]
  have n9 : ∀ d l, p.tvx d l = .error .attributeError := fun d l => by
    cases l <;> simp only [Param.tvx, n2, b, m5, if_true, Bool.false_eq_true, if_false]
  have n10 : ∀ d l, p.tv d l = .error .attributeError := fun d l => by simp only [Param.tv, n9, b]
  have n11 : ∀ d l, p.tvz d l = .error .attributeError := fun d l => by simp only [Param.tvz, n2, b]
  have n12 : ∀ d l, p.v d l = .error .attributeError := fun d l => by simp only [Param.v, n9, b]
  have n13 : ∀ d l, p.vx d l = .error .attributeError := fun d l => by simp only [Param.vx, n9, b]
  have n14 : ∀ d l, p.vxz d l = .error .attributeError := fun d l => by simp only [Param.vxz, n2, b]
  have n15 : ∀ d l, p.vz d l = .error .attributeError := fun d l => by simp only [Param.vz, n14, b]
  have n16 : ∀ d l, p.x d l = .error .attributeError := fun d l => by
    cases l <;> simp only [Param.x, n1, b, m1, if_true, Bool.false_eq_true, if_false]
  have n17 : ∀ d l, p.xz d l = .error .attributeError := fun d l => by simp only [Param.xz, n1, b]
  have n18 : ∀ d l, p.z d l = .error .attributeError := fun d l => by simp only [Param.z, n3, b]
  have key : ∀ w f, p.logP w = some f → f density lw = .error .attributeError := by
    intro w f h
    unfold Param.logP at h
    repeat (obtain rfl | h := ite_some h; · first
      | exact n1 _ _ | exact n2 _ _ | exact n3 _ _ | exact n4 _ _ | exact n5 _ _ | exact n6 _ _ | exact n7 _ _
      | exact n8 _ _ | exact n9 _ _ | exact n10 _ _ | exact n11 _ _ | exact n12 _ _ | exact n13 _ _
      | exact n14 _ _ | exact n15 _ _ | exact n16 _ _ | exact n17 _ _ | exact n18 _ _)
    cases h
  have key' : ∀ w, getLogMarginal p.self w density lw = .error .attributeError := fun w => by
    unfold getLogMarginal
    have : p.self.logP w = p.logP w := rfl
    rw [this]
    cases h : p.logP w with
    | none => rfl
    | some f => exact key w f h
  exact ⟨fun w _ => key' w, fun q _ => key' _⟩

/-- Right after construction every one of the 65 queries raises `AttributeError`, for both weightings, as
probability and as density. -/
theorem C49_before {cube : IFUCube} (hc : CubeIs cube g) (hg : g.Proper) (f2 : ℝ) (center : ℝ × ℝ) (rotation : ℝ) :
    ∃ p, Param.init f2 cube center rotation = .ok p ∧ ∀ density lw,
      (∀ w ∈ marginals, getP p.self w density lw = .error .attributeError) ∧
      (∀ q ∈ conditionals, getP p.self (condStr q.1 q.2) density lw = .error .attributeError) := by
  obtain ⟨p, k1, hb, -, -, h4, h5, -, h7, h8, -⟩ := init_built hc hg f2 center rotation
  refine ⟨p, k1, fun density lw => ?_⟩
  have F := fun d => fresh_fails hb.cubeIs h4 h5 h7 h8 d lw
  refine ⟨fun w hw => ?_, fun q hq => ?_⟩
  · have hu : '_' ∉ w := by revert w; decide
    simp only [getP, getLogP, hu, if_false, (F density).1 w hw]
    rfl
  · have hj : PyStr.sorted (q.1 ++ q.2) ∈ marginals ∧ '_' ∉ q.1 ∧ '_' ∉ q.2 := by
      revert q; decide +kernel
    have hu : '_' ∈ condStr q.1 q.2 := by simp [condStr]
    simp only [getP, getLogP, hu, if_true, getLogConditional, split_condStr hj.2.1 hj.2.2, (F density).2 q hq,
      condFromJoint, (F false).1 _ hj.1]
    rfl

/-! ### Queries after the setters -/

/-- Every one of the 65 queries returns an array. -/
def Answers (p : Param) : Prop :=
  ∀ density lw, (∀ w ∈ marginals, ∃ r, getP p.self w density lw = .ok r) ∧
    (∀ q ∈ conditionals, ∃ r, getP p.self (condStr q.1 q.2) density lw = .ok r)

theorem ParamIs.populated {m : Ingredients} (h : ParamIs p g m L)
    (hx : ∀ t < g.nt, ∀ x < g.nx, ∀ y < g.ny, 0 < m.px t x y)
    (hz : ∀ t < g.nt, ∀ x < g.nx, ∀ y < g.ny, ∀ z < g.nz, 0 < m.pz t x y z) :
    ∃ t < g.nt, ∀ c, g.Has c → c.t = t → 0 < m.probTXZ g c := by
  have hg := h.proper
  obtain ⟨t, ht⟩ : ∃ t : Fin g.nt, 0 < m.pt t := by
    by_contra hcon
    push Not at hcon
    have : ∑ t : Fin g.nt, m.pt t * width g.t t ≤ 0 :=
      Finset.sum_nonpos fun t _ => mul_nonpos_of_nonpos_of_nonneg (hcon t) (sub_pos.2 (hg.t t t.2)).le
    rw [h.norm.sumT] at this
    linarith
  refine ⟨t, t.2, fun c hc e => ?_⟩
  obtain ⟨h1, h2, h3, h4, h5⟩ := hc
  have a1 := hx c.t h1 c.x h3 c.y h4
  have a2 := hz c.t h1 c.x h3 c.y h4 c.z h5
  have a3 : 0 < width g.t c.t := sub_pos.2 (hg.t _ h1)
  have a4 : 0 < width g.x c.x * width g.y c.y := mul_pos (sub_pos.2 (hg.x _ h3)) (sub_pos.2 (hg.y _ h4))
  have a5 : 0 < width g.z c.z := sub_pos.2 (hg.z _ h5)
  rw [← e] at ht
  simp only [Ingredients.probTXZ, Ingredients.probT, Ingredients.probX, Ingredients.probZ]
  positivity

theorem ParamIs.shines {m : Ingredients} (h : ParamIs p g m L) (hL : ∀ t < g.nt, ∀ z < g.nz, 0 < L t z)
    (hx : ∀ t < g.nt, ∀ x < g.nx, ∀ y < g.ny, 0 < m.px t x y)
    (hz : ∀ t < g.nt, ∀ x < g.nx, ∀ y < g.ny, ∀ z < g.nz, 0 < m.pz t x y z) : Shines g m L := by
  have hg := h.proper
  have hw : ∀ t < g.nt, 0 < width g.t t := fun t ht => sub_pos.2 (hg.t t ht)
  obtain ⟨t, ht⟩ : ∃ t : Fin g.nt, 0 < m.pt t := by
    by_contra hcon
    push Not at hcon
    have : ∑ t : Fin g.nt, m.pt t * width g.t t ≤ 0 :=
      Finset.sum_nonpos fun t _ => mul_nonpos_of_nonpos_of_nonneg (hcon t) (hw t t.2).le
    rw [h.norm.sumT] at this
    linarith
  unfold Shines Ingredients.sumTXZ
  have key : ∀ (t : Fin g.nt) (x : Fin g.nx) (y : Fin g.ny) (z : Fin g.nz),
      (0 < m.pt t → 0 < L t z * m.probTXZ g ⟨t, 0, x, y, z⟩) ∧ 0 ≤ L t z * m.probTXZ g ⟨t, 0, x, y, z⟩ := fun t x y z => by
    have a1 := hL t t.2 z z.2
    have a2 := hw t t.2
    have a3 := hx t t.2 x x.2 y y.2
    have a4 := hz t t.2 x x.2 y y.2 z z.2
    have a5 : 0 < width g.x x * width g.y y := mul_pos (sub_pos.2 (hg.x x x.2)) (sub_pos.2 (hg.y y y.2))
    have a6 : 0 < width g.z z := sub_pos.2 (hg.z z z.2)
    simp only [Ingredients.probTXZ, Ingredients.probT, Ingredients.probX, Ingredients.probZ]
    have a7 := h.norm.pt t
    exact ⟨fun a8 => by positivity, by positivity⟩
  refine Finset.sum_pos' (fun t _ => Finset.sum_nonneg fun x _ => Finset.sum_nonneg fun y _ =>
    Finset.sum_nonneg fun z _ => (key t x y z).2) ⟨t, Finset.mem_univ _, ?_⟩
  exact Finset.sum_pos (fun x _ => Finset.sum_pos (fun y _ => Finset.sum_pos (fun z _ => (key t x y z).1 ht)
    ⟨⟨0, hg.nz⟩, Finset.mem_univ _⟩) ⟨⟨0, hg.ny⟩, Finset.mem_univ _⟩) ⟨⟨0, hg.nx⟩, Finset.mem_univ _⟩

theorem ParamIs.answers {m : Ingredients} (h : ParamIs p g m L) (hs : Shines g m L) : Answers p := fun density lw => by
  refine ⟨fun w hw => ?_, fun q hq => ?_⟩
  · obtain ⟨r, h1, -⟩ := C32_marginals h density lw (fun _ => hs) w hw
    exact ⟨r, h1⟩
  · by_cases ho : q ∈ [((['x'],['t']) : PyStr × PyStr), (['v'],['t','x']), (['z'],['t','x'])]
    · simp only [List.mem_cons, List.not_mem_nil, or_false] at ho
      have i1 := C32_ingredients h density
      have i2 := C32_light_ingredients h density hs
      cases lw with
      | false =>
        rcases ho with rfl | rfl | rfl
        · obtain ⟨r, k, -⟩ := i1.1; exact ⟨r, k⟩
        · obtain ⟨r, k, -⟩ := i1.2.1; exact ⟨r, k⟩
        · obtain ⟨r, k, -⟩ := i1.2.2; exact ⟨r, k⟩
      | true =>
        rcases ho with rfl | rfl | rfl
        · obtain ⟨r, k, -⟩ := i2.1; exact ⟨r, k⟩
        · obtain ⟨r, k, -⟩ := i2.2.1; exact ⟨r, k⟩
        · obtain ⟨r, k, -⟩ := i2.2.2; exact ⟨r, k⟩
    · obtain ⟨r, h1, -⟩ := C32_conditionals h density lw (fun _ => hs) q.1 q.2 hq ho
      exact ⟨r, h1⟩

theorem Sound.answers (h : Sound p g f2 center rotation) (hg : g.Proper)
    (hl : IsArr g ['t','z'] p.cube.ssps.lightWeights (fun c => .fin (L c.t c.z))) (hL : ∀ t z, 0 < L t z)
    (hs : ∀ f : Field, none ∉ f.get p) : Answers p := by
  obtain ⟨m, k1, k2, k3⟩ := h.paramIs hg hl (fun t z => (hL t z).le) hs
  exact k1.answers (k1.shines (fun t _ z _ => hL t z) k2 k3)

/-! ### Histories of a growing disk -/

theorem unset {f : Field} (h : ∀ a ∈ f.get p, a = none) : ¬ none ∉ f.get p := fun hn => by
  cases f <;> simp only [Field.get, List.mem_cons, List.not_mem_nil, or_false, forall_eq, forall_eq_or_imp] at h hn <;>
    simp_all

/-- Which attributes are set after a history, given which were set before. -/
theorem set_fields {σ κ : Type} {run : σ → κ → Py σ} {base : σ → Param} {field : κ → Field}
    (hw : ∀ {s s' : σ} {k : κ}, run s k = .ok s' → Writes (base s) (field k) (base s')) :
    ∀ (ks : List κ) (s s' : σ), runAll run s ks = .ok s' →
      (∀ f : Field, (∀ a ∈ f.get (base s), a ≠ none) ∨ (∀ a ∈ f.get (base s), a = none)) →
      ∀ f : Field, (none ∉ f.get (base s') ↔ none ∉ f.get (base s) ∨ ∃ k ∈ ks, field k = f) ∧
        ((∀ k ∈ ks, field k ≠ f) → f.get (base s') = f.get (base s)) := by
  intro ks
  induction ks with
  | nil =>
    intro s s' h _ f
    cases h
    simp
  | cons k ks ih =>
    intro s s' h h0 f
    obtain ⟨s1, h1, h2⟩ := bind_ok h
    have w := hw h1
    have h0' : ∀ f : Field, (∀ a ∈ f.get (base s1), a ≠ none) ∨ (∀ a ∈ f.get (base s1), a = none) := fun f => by
      by_cases e : f = field k
      · left
        intro a ha e'
        rw [e] at ha
        exact w.sets (e' ▸ ha)
      · rw [w.frame e]; exact h0 f
    obtain ⟨i1, i2⟩ := ih s1 s' h2 h0' f
    refine ⟨?_, fun hne => ?_⟩
    · rw [i1]
      by_cases e : f = field k
      · subst e
        simp only [w.sets, not_false_iff, true_or, List.mem_cons, exists_eq_or_imp, or_true]
      · rw [w.frame e]
        simp only [List.mem_cons, exists_eq_or_imp, Ne.symm e, false_or]
    · rw [i2 fun k' hk' => hne k' (by simp [hk']), w.frame (Ne.symm (hne k (by simp)))]

/-- A call that needs the age limits. -/
def DiskCall.needsAge (k : DiskCall) : Prop := k.field ≠ .age ∧ k.field ≠ .metal

theorem disk_history (hg : g.Proper) (hx : ∃ c, g.Has c ∧ frameX g center rotation c ≠ 0) :
    ∀ (ks : List DiskCall) (p : Param), Sound p g f2 center rotation → (∀ k ∈ ks, k.Valid) →
      (∃ p', runAll (fun p k => DiskCall.run p k) p ks = .ok p' ∧ Sound p' g f2 center rotation ∧
        p'.cube = p.cube) ∨
      (runAll (fun p k => DiskCall.run p k) p ks = .error .attributeError ∧ p.logPt = none ∧
        ∃ pre k post, ks = pre ++ k :: post ∧ (∀ k' ∈ pre, k'.field ≠ .age) ∧ k.needsAge) := by
  intro ks
  induction ks with
  | nil => intro p h _; exact Or.inl ⟨p, rfl, h, rfl⟩
  | cons k ks ih =>
    intro p h hv
    have hk := hv k (by simp)
    by_cases ht : p.logPt ≠ none ∨ k.field = .age ∨ k.field = .metal
    · obtain ⟨p1, k1, k2⟩ := h.disk hg hx k hk ht
      have w := disk_writes k1
      rcases ih p1 k2 (fun k' hk' => hv k' (by simp [hk'])) with ⟨p', j1, j2, j3⟩ | ⟨j1, j2, pre, k', post, j3, j4, j5⟩
      · exact Or.inl ⟨p', by simp only [runAll, k1, Py.ok_bind, j1], j2, j3.trans w.cube⟩
      · have hka : k.field ≠ .age := fun e => by
          rw [e] at w
          have := w.sets
          simp [Field.get, j2] at this
        have hp : p.logPt = none := by
          have := w.frame (f' := .age) (Ne.symm hka)
          simp only [Field.get, List.cons.injEq, and_true] at this
          rw [← this, j2]
        refine Or.inr ⟨by simp only [runAll, k1, Py.ok_bind, j1], hp, k :: pre, k', post, by simp [j3], ?_, j5⟩
        intro k'' hk''
        rcases List.mem_cons.1 hk'' with rfl | h'
        · exact hka
        · exact j4 _ h'
    · push Not at ht
      refine Or.inr ⟨?_, ht.1, [], k, ks, rfl, by simp, ht.2⟩
      simp only [runAll, h.disk_early k hk ht.1 ht.2]
      rfl

/-- All histories of valid setter calls on a new growing disk: either some call that needs the age limits comes
before the first `set_p_t`, and then `AttributeError` is raised; or all calls succeed, exactly the attributes whose
setter was called are set, and once all five setters were called, in any order and any number of times, every one of
the 65 queries returns an array. -/
theorem C49_disk {cube : IFUCube} (hc : CubeIs cube g) (hg : g.Proper)
    (hl : IsArr g ['t','z'] cube.ssps.lightWeights (fun c => .fin (L c.t c.z))) (hL : ∀ t z, 0 < L t z)
    (f2 : ℝ) (center : ℝ × ℝ) (rotation : ℝ) (hx : ∃ c, g.Has c ∧ frameX g center rotation c ≠ 0)
    (ks : List DiskCall) (hv : ∀ k ∈ ks, k.Valid) :
    ∃ p0, Param.init f2 cube center rotation = .ok p0 ∧
      ((∃ p, runAll (fun p k => DiskCall.run p k) p0 ks = .ok p ∧
          (∀ f : Field, none ∉ f.get p ↔ ∃ k ∈ ks, k.field = f) ∧
          ((∀ f : Field, ∃ k ∈ ks, k.field = f) → Answers p)) ∨
        (runAll (fun p k => DiskCall.run p k) p0 ks = .error .attributeError ∧
          ∃ pre k post, ks = pre ++ k :: post ∧ (∀ k' ∈ pre, k'.field ≠ .age) ∧ k.needsAge)) := by
  obtain ⟨p0, k1, k2, k3, k4⟩ := init_sound hc hg f2 center rotation
  refine ⟨p0, k1, ?_⟩
  rcases disk_history hg hx ks p0 k3 hv with ⟨p, j1, j2, j3⟩ | ⟨j1, -, j2⟩
  · left
    have hf : ∀ f : Field, none ∉ f.get p ↔ ∃ k ∈ ks, k.field = f := fun f => by
      rw [(set_fields (base := fun p => p) (fun {s s' k} h => disk_writes h) ks p0 p j1 (fun f => Or.inr (k4 f)) f).1]
      refine or_iff_right fun h => ?_
      exact unset (k4 f) h
    refine ⟨p, j1, hf, fun hall => j2.answers hg ?_ hL fun f => (hf f).2 (hall f)⟩
    rw [j3, k2]; exact hl
  · exact Or.inr ⟨j1, j2⟩

/-- In the documented order (`set_p_t` first) no history fails. -/
theorem C49_disk_documented {cube : IFUCube} (hc : CubeIs cube g) (hg : g.Proper)
    (hl : IsArr g ['t','z'] cube.ssps.lightWeights (fun c => .fin (L c.t c.z))) (hL : ∀ t z, 0 < L t z)
    (f2 : ℝ) (center : ℝ × ℝ) (rotation : ℝ) (hx : ∃ c, g.Has c ∧ frameX g center rotation c ≠ 0)
    (lmd phi : ℝ) (q : ℝ × ℝ) (h1 : ValidSfh lmd phi q) (ks : List DiskCall) (hv : ∀ k ∈ ks, k.Valid)
    (hall : ∀ f : Field, f ≠ .age → ∃ k ∈ ks, k.field = f) :
    ∃ p0 p, Param.init f2 cube center rotation = .ok p0 ∧
      runAll (fun p k => DiskCall.run p k) p0 (.setPt lmd phi q :: ks) = .ok p ∧ Answers p := by
  obtain ⟨p0, k1, h⟩ := C49_disk hc hg hl hL f2 center rotation hx (.setPt lmd phi q :: ks)
    (by rintro k (_ | ⟨_, h⟩); exacts [h1, hv k h])
  rcases h with ⟨p, j1, -, j2⟩ | ⟨-, pre, k, post, j1, j2, j3⟩
  · refine ⟨p0, p, k1, j1, j2 fun f => ?_⟩
    by_cases e : f = .age
    · exact ⟨.setPt lmd phi q, by simp, e.symm⟩
    · obtain ⟨k, h1, h2⟩ := hall f e
      exact ⟨k, by simp [h1], h2⟩
  · exfalso
    cases pre with
    | nil => simp only [List.nil_append, List.cons.injEq] at j1; rw [← j1.1] at j3; exact j3.1 rfl
    | cons k' pre =>
      simp only [List.cons_append, List.cons.injEq] at j1
      exact j2 k' (by simp) (by rw [← j1.1]; rfl)

/-- Calls change only the attributes of their own setter: whatever the state, after any further successful history
the attributes whose setter was not called are the ones they were. In particular re-running `set_p_t` leaves
positions, enrichment and velocities as they were. -/
theorem C49_frame (p p' : Param) (ks : List DiskCall) (h : runAll (fun p k => DiskCall.run p k) p ks = .ok p')
    (f : Field) (hf : ∀ k ∈ ks, k.field ≠ f) : f.get p' = f.get p := by
  induction ks generalizing p with
  | nil => cases h; rfl
  | cons k ks ih =>
    obtain ⟨p1, h1, h2⟩ := bind_ok h
    rw [ih p1 h2 fun k' hk' => hf k' (by simp [hk']), (disk_writes h1).frame (Ne.symm (hf k (by simp)))]

/-! ### Histories of a stream -/

theorem stream_history (hg : g.Proper) :
    ∀ (ks : List StreamCall) (s : Stream), SoundStream s g f2 center rotation → (∀ k ∈ ks, k.Valid) →
      (∃ s', runAll (fun s k => StreamCall.run s k) s ks = .ok s' ∧ SoundStream s' g f2 center rotation ∧
        s'.base.cube = s.base.cube) ∨
      (runAll (fun s k => StreamCall.run s k) s ks = .error .attributeError ∧ s.base.logPxt = none ∧
        ∃ pre k post, ks = pre ++ k :: post ∧ (∀ k' ∈ pre, k'.field ≠ .space) ∧ k.field = .mean) := by
  intro ks
  induction ks with
  | nil => intro s h _; exact Or.inl ⟨s, rfl, h, rfl⟩
  | cons k ks ih =>
    intro s h hv
    have hk := hv k (by simp)
    by_cases ht : s.base.logPxt ≠ none ∨ k.field ≠ .mean
    · obtain ⟨s1, k1, k2⟩ := h.step hg k hk ht
      have w := (stream_writes k1).1
      rcases ih s1 k2 (fun k' hk' => hv k' (by simp [hk'])) with ⟨s', j1, j2, j3⟩ | ⟨j1, j2, pre, k', post, j3, j4, j5⟩
      · exact Or.inl ⟨s', by simp only [runAll, k1, Py.ok_bind, j1], j2, j3.trans w.cube⟩
      · have hka : k.field ≠ .space := fun e => by
          rw [e] at w
          have := w.sets
          simp [Field.get, j2] at this
        have hp : s.base.logPxt = none := by
          have := w.frame (f' := .space) (Ne.symm hka)
          simp only [Field.get, List.cons.injEq, and_true] at this
          rw [← this, j2]
        refine Or.inr ⟨by simp only [runAll, k1, Py.ok_bind, j1], hp, k :: pre, k', post, by simp [j3], ?_, j5⟩
        intro k'' hk''
        rcases List.mem_cons.1 hk'' with rfl | h'
        · exact hka
        · exact j4 _ h'
    · push Not at ht
      refine Or.inr ⟨?_, ht.1, [], k, ks, rfl, by simp, ht.2⟩
      cases k with
      | setMuV lims =>
        simp only [runAll, StreamCall.run, C38_order h.base.built lims (h.space.2 ht.1)]
        rfl
      | _ => simp [StreamCall.field] at ht

/-- All histories of valid setter calls on a new stream: either `set_mu_v` comes before the first `set_p_x_t`, and
then `AttributeError` is raised; or all calls succeed, exactly the attributes whose setter was called are set, and
once all five setters were called every query returns an array. -/
theorem C49_stream {cube : IFUCube} (hc : CubeIs cube g) (hg : g.Proper)
    (hl : IsArr g ['t','z'] cube.ssps.lightWeights (fun c => .fin (L c.t c.z))) (hL : ∀ t z, 0 < L t z)
    (f2 : ℝ) (center : ℝ × ℝ) (rotation : ℝ) (ks : List StreamCall) (hv : ∀ k ∈ ks, k.Valid) :
    ∃ s0, Stream.init f2 cube center rotation = .ok s0 ∧
      ((∃ s, runAll (fun s k => StreamCall.run s k) s0 ks = .ok s ∧
          (∀ f : Field, none ∉ f.get s.base ↔ ∃ k ∈ ks, k.field = f) ∧
          ((∀ f : Field, ∃ k ∈ ks, k.field = f) → Answers s.base)) ∨
        (runAll (fun s k => StreamCall.run s k) s0 ks = .error .attributeError ∧
          ∃ pre k post, ks = pre ++ k :: post ∧ (∀ k' ∈ pre, k'.field ≠ .space) ∧ k.field = .mean)) := by
  obtain ⟨p0, k1, k2, k3, k4⟩ := init_sound hc hg f2 center rotation
  have hs : SoundStream ⟨p0, none⟩ g f2 center rotation := ⟨k3, by simp, by
    have := k4 .space
    simp [Field.get] at this
    simp [this]⟩
  refine ⟨⟨p0, none⟩, by simp only [Stream.init, k1, Py.ok_bind], ?_⟩
  rcases stream_history hg ks ⟨p0, none⟩ hs hv with ⟨s, j1, j2, j3⟩ | ⟨j1, -, j2⟩
  · left
    have hf : ∀ f : Field, none ∉ f.get s.base ↔ ∃ k ∈ ks, k.field = f := fun f => by
      rw [(set_fields (run := fun s k => StreamCall.run s k) (base := fun s : Stream => s.base) (fun {s s' k} h => (stream_writes h).1) ks ⟨p0, none⟩ s j1
        (fun f => Or.inr (k4 f)) f).1]
      refine or_iff_right fun h => ?_
      exact unset (k4 f) h
    refine ⟨s, j1, hf, fun hall => j2.base.answers hg ?_ hL fun f => (hf f).2 (hall f)⟩
    rw [j3, k2]; exact hl
  · exact Or.inr ⟨j1, j2⟩

/-- The frame property for streams. -/
theorem C49_stream_frame (s s' : Stream) (ks : List StreamCall)
    (h : runAll (fun s k => StreamCall.run s k) s ks = .ok s')
    (f : Field) (hf : ∀ k ∈ ks, k.field ≠ f) : f.get s'.base = f.get s.base := by
  induction ks generalizing s with
  | nil => cases h; rfl
  | cons k ks ih =>
    obtain ⟨s1, h1, h2⟩ := bind_ok h
    rw [ih s1 h2 fun k' hk' => hf k' (by simp [hk']), (stream_writes h1).1.frame (Ne.symm (hf k (by simp)))]

/-! ### The hypotheses are met -/

/-- A demonstration disk, with the default parameters of every setter. -/
def demoCalls : List DiskCall :=
  [.setPt 15 0.5 (0.05, 0.95), .setPxt (0.5, 0.1) (0.5, 0.1) (0.5, 2), .setTDep 0.1 1.5 0.5 6 0.1 13,
    .setMuV (0.5, 0.5) (0.1, 1) (50, 250), .setSigV (0.5, 0.1) (1.5, 2.5) (50, 250) (10, 100)]

theorem demoCalls_valid : ∀ k ∈ demoCalls, k.Valid := by
  intro k hk
  simp only [demoCalls, List.mem_cons, List.not_mem_nil, or_false] at hk
  rcases hk with rfl | rfl | rfl | rfl | rfl <;> norm_num [DiskCall.Valid, ValidSfh]

theorem demo_offcentre : ∃ c, demoGrid.Has c ∧ frameX demoGrid (0, 0) 0 c ≠ 0 :=
  ⟨⟨0, 0, 0, 0, 0⟩, by simp [Grid.Has, demoGrid, cubeGrid], by
    simp [frameX, centre, demoGrid, cubeGrid, evenEdges]; norm_num⟩

theorem demo_light {cube : IFUCube} (h : cube.ssps = demoSSPs) :
    IsArr demoGrid ['t','z'] cube.ssps.lightWeights (fun c => .fin (demoL c.t c.z)) := by
  rw [h]
  refine ⟨rfl, fun c _ => ?_⟩
  simp [demoSSPs, coords, coord1, demoL]

theorem demoL_pos (t z : ℕ) : 0 < demoL t z := by unfold demoL; positivity

/-- A disk made by the constructor and the five setters meets the hypotheses of the theorems on parametric
distributions (C32, C33, C34) and every query returns an array. -/
theorem demoDisk_pos (f2 : ℝ) : ∃ p m, ParamIs p demoGrid m demoL ∧ Shines demoGrid m demoL ∧ Answers p ∧ p.f2 = f2 ∧
    ∃ t < demoGrid.nt, ∀ c, demoGrid.Has c → c.t = t → 0 < m.probTXZ demoGrid c := by
  obtain ⟨cube, -, hc, hs⟩ := demoCube_exists
  obtain ⟨p0, k1, k2, k3, k4⟩ := init_sound hc demoGrid_proper f2 (0, 0) 0
  rcases disk_history demoGrid_proper demo_offcentre demoCalls p0 k3 demoCalls_valid with ⟨p, j1, j2, j3⟩ | ⟨-, -, j⟩
  · have hf : ∀ f : Field, none ∉ f.get p := fun f => by
      rw [(set_fields (base := fun p => p) (fun {s s' k} h => disk_writes h) demoCalls p0 p j1
        (fun f => Or.inr (k4 f)) f).1]
      right
      cases f
      · exact ⟨_, List.mem_cons_self, rfl⟩
      · exact ⟨_, List.mem_cons_of_mem _ List.mem_cons_self, rfl⟩
      · exact ⟨_, List.mem_cons_of_mem _ (List.mem_cons_of_mem _ List.mem_cons_self), rfl⟩
      · exact ⟨_, List.mem_cons_of_mem _ (List.mem_cons_of_mem _ (List.mem_cons_of_mem _ List.mem_cons_self)), rfl⟩
      · exact ⟨_, List.mem_cons_of_mem _ (List.mem_cons_of_mem _ (List.mem_cons_of_mem _ (List.mem_cons_of_mem _
          List.mem_cons_self))), rfl⟩
    have hl := demo_light (cube := p.cube) (by rw [j3, k2, hs])
    obtain ⟨m, i1, i2, i3⟩ := j2.paramIs demoGrid_proper hl (fun t z => (demoL_pos t z).le) hf
    have hsh := i1.shines (fun t _ z _ => demoL_pos t z) i2 i3
    exact ⟨p, m, i1, hsh, i1.answers hsh, j2.built.f2, i1.populated i2 i3⟩
  · exfalso
    obtain ⟨pre, k, post, j1, j2, j3⟩ := j
    cases pre with
    | nil => simp only [List.nil_append, demoCalls, List.cons.injEq] at j1; rw [← j1.1] at j3; exact j3.1 rfl
    | cons k' pre =>
      simp only [List.cons_append, demoCalls, List.cons.injEq] at j1
      exact j2 k' (by simp) (by rw [← j1.1]; rfl)

theorem demoDisk_exists (f2 : ℝ) : ∃ p m, ParamIs p demoGrid m demoL ∧ Shines demoGrid m demoL ∧ Answers p ∧ p.f2 = f2 := by
  obtain ⟨p, m, h1, h2, h3, h4, -⟩ := demoDisk_pos f2
  exact ⟨p, m, h1, h2, h3, h4⟩

/-- The hypotheses of the theorems on disks (C37) are met after `set_p_t` with its documented parameters. -/
example : ∃ (p : Param) (t0 t1 : ℝ), Built p demoGrid 1 (0, 0) 0 ∧ Aged p t0 t1 ∧
    ∃ p', GrowingDisk.setPxt p (0.5, 0.1) (0.5, 0.1) (0.5, 2) = .ok p' := by
  obtain ⟨cube, -, hc, hs⟩ := demoCube_exists
  obtain ⟨p0, k1, k2, k3, k4⟩ := init_sound hc demoGrid_proper 1 (0, 0) 0
  obtain ⟨s, e, A, -, a1, -, a2, -⟩ := setPt_aged k3.built.cubeIs demoGrid_proper (lmd := 15) (phi := 0.5)
    (q := (0.05, 0.95)) (by norm_num) (by norm_num) (by norm_num) (Or.inl (by norm_num)) (by norm_num) (by norm_num)
    (by norm_num)
  obtain ⟨p1, j1, j2⟩ := k3.disk demoGrid_proper demo_offcentre (.setPt 15 0.5 (0.05, 0.95))
    (demoCalls_valid _ (by simp [demoCalls])) (Or.inr (Or.inl rfl))
  have ha : Aged p1 s e := by
    rw [DiskCall.run, a2] at j1
    cases j1
    exact ⟨rfl, a1⟩
  obtain ⟨p', -, i1, -⟩ := C37_spatial j2.built demoGrid_proper ha (0.5, 0.1) (0.5, 0.1) (0.5, 2)
    (by norm_num) (by norm_num) (by norm_num)
  exact ⟨p1, s, e, j2.built, ha, p', i1⟩

/-- A history of a stream with all five setters; a stream made by the constructor meets the hypotheses of the
theorems on streams (C38). -/
example : ∃ (s0 s : Stream), Stream.init 1 (Classical.choose demoCube_exists) (0, 0) 0 = .ok s0 ∧ Built s0.base demoGrid 1 (0, 0) 0 ∧
    runAll (fun s k => StreamCall.run s k) s0
      [.setTDep 5, .setPxt (-1, 2) (0.5, 1) 0.1 100, .setMuV (-50, 100), .setSigV 20, .setPt 15 0.5 (0.05, 0.95)] = .ok s ∧
    Answers s.base := by
  obtain ⟨-, hc, hs⟩ := Classical.choose_spec demoCube_exists
  have hpi := Real.two_le_pi
  obtain ⟨s0, k1, h⟩ := C49_stream hc demoGrid_proper (demo_light hs) demoL_pos 1 (0, 0) 0
    [.setTDep 5, .setPxt (-1, 2) (0.5, 1) 0.1 100, .setMuV (-50, 100), .setSigV 20, .setPt 15 0.5 (0.05, 0.95)] (by
      intro k hk
      simp only [List.mem_cons, List.not_mem_nil, or_false] at hk
      rcases hk with rfl | rfl | rfl | rfl | rfl
      · trivial
      · refine ⟨⟨?_, ?_⟩, ⟨?_, ?_⟩, ?_, ?_, ?_⟩ <;> norm_num <;> linarith
      · trivial
      · norm_num [StreamCall.Valid]
      · norm_num [StreamCall.Valid, ValidSfh])
  have hb : Built s0.base demoGrid 1 (0, 0) 0 := by
    obtain ⟨p0, i1, i2, -⟩ := init_built hc demoGrid_proper 1 (0, 0) 0
    simp only [Stream.init, i1, Py.ok_bind, Except.ok.injEq] at k1
    rw [← k1]; exact i2
  rcases h with ⟨s, j1, -, j2⟩ | ⟨-, pre, k, post, j1, j2, j3⟩
  · refine ⟨s0, s, k1, hb, j1, j2 fun f => ?_⟩
    cases f
    · exact ⟨.setPt 15 0.5 (0.05, 0.95), by simp, rfl⟩
    · exact ⟨.setPxt (-1, 2) (0.5, 1) 0.1 100, by simp, rfl⟩
    · exact ⟨.setTDep 5, by simp, rfl⟩
    · exact ⟨.setMuV (-50, 100), by simp, rfl⟩
    · exact ⟨.setSigV 20, by simp, rfl⟩
  · exfalso
    cases pre with
    | nil => simp only [List.nil_append, List.cons.injEq] at j1; rw [← j1.1] at j3; simp [StreamCall.field] at j3
    | cons k' pre =>
      simp only [List.cons_append, List.cons.injEq] at j1
      obtain ⟨-, j1⟩ := j1
      cases pre with
      | nil => simp only [List.nil_append, List.cons.injEq] at j1; rw [← j1.1] at j3; simp [StreamCall.field] at j3
      | cons k'' pre =>
        simp only [List.cons_append, List.cons.injEq] at j1
        exact j2 k'' (by simp) (by rw [← j1.1]; rfl)

/-- A history that fails: velocities before ages. -/
example : ∃ p0 : Param, (∃ cube, Param.init 1 cube (0, 0) 0 = .ok p0) ∧
    runAll (fun p k => DiskCall.run p k) p0 [.setMuV (0.5, 0.5) (0.1, 1) (50, 250)] = .error .attributeError := by
  obtain ⟨cube, -, hc, hs⟩ := demoCube_exists
  obtain ⟨p0, k1, k2, k3, k4⟩ := init_sound hc demoGrid_proper 1 (0, 0) 0
  refine ⟨p0, ⟨cube, k1⟩, ?_⟩
  have := k4 .age
  simp only [Field.get, List.mem_singleton, forall_eq] at this
  simp only [runAll, k3.disk_early (.setMuV (0.5, 0.5) (0.1, 1) (50, 250)) (demoCalls_valid _ (by simp [demoCalls])) this
    (by simp [DiskCall.field])]
  rfl

end PKM
