import Verif.Setup

/-!
# Histories of setter calls

A history is a list of setter calls on one object, run in order; it stops at the first exception.
-/

open scoped Classical
open MeasureTheory ProbabilityTheory

noncomputable section

namespace PKM
open Np Component

/-- A call of one of the five setters of a `GrowingDisk` (parametric.py:83, growing_disk.py:30, 70, 116, 171). -/
inductive DiskCall where
  | setPt (lmd phi : ℝ) (q : ℝ × ℝ)
  | setPxt (q rc alpha : ℝ × ℝ)
  | setTDep (q alpha tIn tOut tMin tMax : ℝ)
  | setMuV (q rmax vmax : ℝ × ℝ)
  | setSigV (q alpha sIn sOut : ℝ × ℝ)

/-- The method the call goes to. -/
def DiskCall.run (p : Param) : DiskCall → Py Param
  | .setPt lmd phi q => p.setPt lmd phi q
  | .setPxt q rc alpha => GrowingDisk.setPxt p q rc alpha
  | .setTDep q alpha tIn tOut tMin tMax => GrowingDisk.setTDep p q alpha tIn tOut tMin tMax
  | .setMuV q rmax vmax => GrowingDisk.setMuV p q rmax vmax
  | .setSigV q alpha sIn sOut => GrowingDisk.setSigV p q alpha sIn sOut

/-- A call of one of the five setters of a `Stream` (parametric.py:83, stream.py:28, 93, 103, 129). -/
inductive StreamCall where
  | setPt (lmd phi : ℝ) (q : ℝ × ℝ)
  | setPxt (theta muR : ℝ × ℝ) (sig : ℝ) (n : ℕ)
  | setTDep (τ : ℝ)
  | setMuV (lims : ℝ × ℝ)
  | setSigV (sigV : ℝ)

def StreamCall.run (s : Stream) : StreamCall → Py Stream
  | .setPt lmd phi q => do let p ← s.base.setPt lmd phi q; .ok { s with base := p }
  | .setPxt theta muR sig n => s.setPxt theta muR sig n
  | .setTDep τ => s.setTDep τ
  | .setMuV lims => s.setMuV lims
  | .setSigV sigV => s.setSigV sigV

/-- Calls in order, up to the first exception. -/
def runAll {σ κ : Type} (run : σ → κ → Py σ) : σ → List κ → Py σ
  | s, [] => .ok s
  | s, k :: ks => do let s' ← run s k; runAll run s' ks

/-- The five things a component needs, in the order of the setters. -/
inductive Field where
  | age | space | metal | mean | disp
deriving DecidableEq

/-- The attributes that hold them. -/
def Field.get (p : Param) : Field → List (Option (Arr Num))
  | .age => [p.logPt]
  | .space => [p.logPxt]
  | .metal => [p.tDep, p.logPztx]
  | .mean => [p.muV]
  | .disp => [p.sigV]

def DiskCall.field : DiskCall → Field
  | .setPt .. => .age
  | .setPxt .. => .space
  | .setTDep .. => .metal
  | .setMuV .. => .mean
  | .setSigV .. => .disp

def StreamCall.field : StreamCall → Field
  | .setPt .. => .age
  | .setPxt .. => .space
  | .setTDep .. => .metal
  | .setMuV .. => .mean
  | .setSigV .. => .disp

/-- Parameters of `set_p_t` that describe a star formation history (see C31). -/
def ValidSfh (lmd phi : ℝ) (q : ℝ × ℝ) : Prop :=
  0 < lmd ∧ 0 < phi ∧ phi < 1 ∧ (1 < lmd * phi ∨ 1 < lmd * (1 - phi)) ∧ 0 ≤ q.1 ∧ q.1 < q.2 ∧ q.2 ≤ 1

/-- Parameters in their documented ranges. -/
def DiskCall.Valid : DiskCall → Prop
  | .setPt lmd phi q => ValidSfh lmd phi q
  | .setPxt q rc alpha => (0 < q.1 ∧ 0 < q.2) ∧ (0 < rc.1 ∧ 0 < rc.2) ∧ (0 ≤ alpha.1 ∧ 0 ≤ alpha.2)
  | .setTDep q alpha tIn tOut tMin tMax => 0 < q ∧ 0 ≤ alpha ∧ 0.1 ≤ tMin ∧ tMax ≤ 13 ∧ (tMin ≤ tIn ∧ tIn ≤ tMax) ∧
      (tMin ≤ tOut ∧ tOut ≤ tMax)
  | .setMuV q rmax vmax => (0 < q.1 ∧ 0 < q.2) ∧ (0 < rmax.1 ∧ 0 < rmax.2) ∧
      ((0 ≤ vmax.1 ∧ 0 ≤ vmax.2) ∨ (vmax.1 ≤ 0 ∧ vmax.2 ≤ 0))
  | .setSigV q alpha sIn sOut => (0 < q.1 ∧ 0 < q.2) ∧ (0 ≤ alpha.1 ∧ 0 ≤ alpha.2) ∧ (0 < sIn.1 ∧ 0 < sIn.2) ∧
      (0 < sOut.1 ∧ 0 < sOut.2)

def StreamCall.Valid : StreamCall → Prop
  | .setPt lmd phi q => ValidSfh lmd phi q
  | .setPxt theta _ sig n => (-Real.pi ≤ theta.1 ∧ theta.1 ≤ Real.pi) ∧ (-Real.pi ≤ theta.2 ∧ theta.2 ≤ Real.pi) ∧
      theta.1 ≠ theta.2 ∧ 0 < sig ∧ 0 < n
  | .setTDep _ => True
  | .setMuV _ => True
  | .setSigV sigV => 0 < sigV

variable {p : Param} {g : Grid} {f2 : ℝ} {center : ℝ × ℝ} {rotation : ℝ}

/-! ### Which attributes a call writes -/

theorem bind_ok {α β : Type} {x : Py α} {f : α → Py β} {b : β} (h : (x >>= f) = .ok b) : ∃ a, x = .ok a ∧ f a = .ok b := by
  cases x with
  | error e => cases h
  | ok a => exact ⟨a, rfl, h⟩

/-- A setter call that succeeds returns the same component with the attributes of one field replaced. -/
inductive Writes (p : Param) : Field → Param → Prop
  | age (tp A) : Writes p .age { p with tPars := some tp, logPt := some A }
  | space (A) : Writes p .space { p with logPxt := some A }
  | metal (A B) : Writes p .metal { p with tDep := some A, logPztx := some B }
  | mean (A) : Writes p .mean { p with muV := some A }
  | disp (A) : Writes p .disp { p with sigV := some A }

theorem setPt_writes {lmd phi : ℝ} {q : ℝ × ℝ} {p' : Param} (h : p.setPt lmd phi q = .ok p') : Writes p .age p' := by
  unfold Param.setPt at h
  by_cases hc : (if (Param.betaAB lmd phi).1 > 1.0 then 1 else 0) + (if (Param.betaAB lmd phi).2 > 1 then 1 else 0) < 1
  · simp only [hc, if_true] at h
    cases h
  · simp only [hc, if_false] at h
    iterate 8 first
      | (obtain ⟨_, -, h⟩ := bind_ok h)
      | skip
    cases h
    exact .age _ _

theorem setPztx_writes {A : Arr Num} {p' : Param} (h : { p with tDep := some A }.setPztx = .ok p') :
    Writes p .metal p' := by
  simp only [Param.setPztx, Param.attr, Py.ok_bind] at h
  obtain ⟨B, -, h⟩ := bind_ok h
  cases h
  exact .metal _ _

theorem disk_writes {k : DiskCall} {p' : Param} (h : k.run p = .ok p') : Writes p k.field p' := by
  cases k with
  | setPt lmd phi q => exact setPt_writes h
  | setPxt q rc alpha =>
    simp only [DiskCall.run, GrowingDisk.setPxt] at h
    iterate 16 first
      | (obtain ⟨_, -, h⟩ := bind_ok h)
      | skip
    cases h
    exact .space _
  | setTDep q alpha tIn tOut tMin tMax =>
    simp only [DiskCall.run, GrowingDisk.setTDep] at h
    iterate 9 obtain ⟨_, -, h⟩ := bind_ok h
    exact setPztx_writes h
  | setMuV q rmax vmax =>
    simp only [DiskCall.run, GrowingDisk.setMuV] at h
    iterate 24 first
      | (obtain ⟨_, -, h⟩ := bind_ok h)
      | skip
    cases h
    exact .mean _
  | setSigV q alpha sIn sOut =>
    simp only [DiskCall.run, GrowingDisk.setSigV] at h
    iterate 24 first
      | (obtain ⟨_, -, h⟩ := bind_ok h)
      | skip
    cases h
    exact .disp _

theorem stream_writes {s s' : Stream} {k : StreamCall} (h : k.run s = .ok s') : Writes s.base k.field s'.base ∧
    (k.field ≠ .space → s'.thetaLims = s.thetaLims) := by
  cases k with
  | setPt lmd phi q =>
    simp only [StreamCall.run] at h
    obtain ⟨p', h1, h⟩ := bind_ok h
    cases h
    exact ⟨setPt_writes h1, fun _ => rfl⟩
  | setPxt theta muR sig n =>
    simp only [StreamCall.run, Stream.setPxt] at h
    iterate 16 first
      | (obtain ⟨_, -, h⟩ := bind_ok h)
      | skip
    cases h
    exact ⟨.space _, fun h => absurd rfl h⟩
  | setTDep τ =>
    simp only [StreamCall.run, Stream.setTDep] at h
    obtain ⟨p', h1, h⟩ := bind_ok h
    cases h
    exact ⟨setPztx_writes h1, fun _ => rfl⟩
  | setMuV lims =>
    simp only [StreamCall.run, Stream.setMuV] at h
    iterate 6 first
      | (obtain ⟨_, -, h⟩ := bind_ok h)
      | skip
    cases h
    exact ⟨.mean _, fun _ => rfl⟩
  | setSigV sigV =>
    simp only [StreamCall.run, Stream.setSigV] at h
    obtain ⟨_, -, h⟩ := bind_ok h
    cases h
    exact ⟨.disp _, fun _ => rfl⟩

theorem Writes.frame {f f' : Field} {p' : Param} (h : Writes p f p') (hne : f' ≠ f) : f'.get p' = f'.get p := by
  cases h <;> cases f' <;> first | rfl | exact absurd rfl hne

theorem Writes.sets {f : Field} {p' : Param} (h : Writes p f p') : none ∉ f.get p' := by
  cases h <;> simp [Field.get]

theorem Writes.built {f : Field} {p' : Param} (h : Writes p f p') (hb : Built p g f2 center rotation) :
    Built p' g f2 center rotation := by
  cases h <;> exact hb.congr rfl rfl rfl rfl rfl

theorem Writes.cube {f : Field} {p' : Param} (h : Writes p f p') : p'.cube = p.cube := by cases h <;> rfl

theorem runAll_append {σ κ : Type} (run : σ → κ → Py σ) (s : σ) (a b : List κ) :
    runAll run s (a ++ b) = (runAll run s a >>= fun s' => runAll run s' b) := by
  induction a generalizing s with
  | nil => rfl
  | cons k ks ih =>
    simp only [List.cons_append, runAll]
    cases run s k with
    | error e => rfl
    | ok s' => exact ih s'

/-! ### The state invariant -/

/-- Every attribute that is set is what it should be. -/
structure Sound (p : Param) (g : Grid) (f2 : ℝ) (center : ℝ × ℝ) (rotation : ℝ) : Prop where
  built : Built p g f2 center rotation
  aged : p.logPt ≠ none → ∃ s e, Aged p s e
  unaged : p.logPt = none → p.tPars = none
  age : ∀ A, p.logPt = some A → ∃ q : ℕ → ℝ, (∀ t < g.nt, 0 ≤ q t) ∧ ∑ t : Fin g.nt, q t * width g.t t = 1 ∧
    IsArr g ['t'] A (fun c => Num.lg (q c.t))
  space : ∀ A, p.logPxt = some A → ∃ q : ℕ → ℕ → ℕ → ℝ, (∀ t < g.nt, ∀ x < g.nx, ∀ y < g.ny, 0 < q t x y) ∧
    (∀ t < g.nt, ∑ x : Fin g.nx, ∑ y : Fin g.ny, q t x y * (width g.x x * width g.y y) = 1) ∧
    MArr g (['x','y','t'].map some) A (fun c => Num.lg (q c.t c.x c.y))
  metal : ∀ A, p.logPztx = some A → ∃ q : ℕ → ℕ → ℕ → ℕ → ℝ,
    (∀ t < g.nt, ∀ x < g.nx, ∀ y < g.ny, ∀ z < g.nz, 0 < q t x y z) ∧
    (∀ t < g.nt, ∀ x < g.nx, ∀ y < g.ny, ∑ z : Fin g.nz, q t x y z * width g.z z = 1) ∧
    MArr g (['z','t','x','y'].map some) A (fun c => Num.lg (q c.t c.x c.y c.z))
  mean : ∀ A, p.muV = some A → ∃ q : ℕ → ℕ → ℕ → ℝ, MArr g (['t','x','y'].map some) A (fun c => .fin (q c.t c.x c.y))
  disp : ∀ A, p.sigV = some A → ∃ q : ℕ → ℕ → ℕ → ℝ, (∀ t < g.nt, ∀ x < g.nx, ∀ y < g.ny, 0 < q t x y) ∧
    MArr g (['t','x','y'].map some) A (fun c => .fin (q c.t c.x c.y))

theorem init_sound {cube : IFUCube} (hc : CubeIs cube g) (hg : g.Proper) (f2 : ℝ) (center : ℝ × ℝ) (rotation : ℝ) :
    ∃ p, Param.init f2 cube center rotation = .ok p ∧ p.cube = cube ∧ Sound p g f2 center rotation ∧
      ∀ f : Field, ∀ a ∈ f.get p, a = none := by
  obtain ⟨p, h1, hb, h2, h3, h4, h5, h6, h7, h8, h9⟩ := init_built hc hg f2 center rotation
  refine ⟨p, h1, h2, ⟨hb, fun h => absurd h4 h, fun _ => h3, by simp [h4], by simp [h5], by simp [h7], by simp [h8],
    by simp [h9]⟩, fun f => ?_⟩
  cases f <;> simp [Field.get, *]

/-- A component all of whose attributes are set answers every query. -/
theorem Sound.paramIs (h : Sound p g f2 center rotation) (hg : g.Proper) {L : ℕ → ℕ → ℝ}
    (hl : IsArr g ['t','z'] p.cube.ssps.lightWeights (fun c => .fin (L c.t c.z))) (hL : ∀ t z, 0 ≤ L t z)
    (hs : ∀ f : Field, none ∉ f.get p) :
    ∃ m, ParamIs p g m L ∧ (∀ t < g.nt, ∀ x < g.nx, ∀ y < g.ny, 0 < m.px t x y) ∧
      (∀ t < g.nt, ∀ x < g.nx, ∀ y < g.ny, ∀ z < g.nz, 0 < m.pz t x y z) := by
  have o : ∀ {a : Option (Arr Num)}, none ∉ [a] → ∃ A, a = some A := fun {a} h => by
    cases a with
    | none => simp at h
    | some A => exact ⟨A, rfl⟩
  obtain ⟨A1, a1⟩ := o (hs .age)
  obtain ⟨A2, a2⟩ := o (hs .space)
  obtain ⟨A3, a3⟩ : ∃ A, p.logPztx = some A := by
    have := hs .metal
    cases h : p.logPztx with
    | none => simp [Field.get, h] at this
    | some A => exact ⟨A, rfl⟩
  obtain ⟨A4, a4⟩ := o (hs .mean)
  obtain ⟨A5, a5⟩ := o (hs .disp)
  obtain ⟨q1, b1, c1, d1⟩ := h.age A1 a1
  obtain ⟨q2, b2, c2, d2⟩ := h.space A2 a2
  obtain ⟨q3, b3, c3, d3⟩ := h.metal A3 a3
  obtain ⟨q4, d4⟩ := h.mean A4 a4
  obtain ⟨q5, b5, d5⟩ := h.disp A5 a5
  let m : Ingredients :=
    { pt := fun t => if t < g.nt then q1 t else 0
      px := fun t x y => if t < g.nt ∧ x < g.nx ∧ y < g.ny then q2 t x y else 0
      pz := fun t x y z => if t < g.nt ∧ x < g.nx ∧ y < g.ny ∧ z < g.nz then q3 t x y z else 0
      mu := q4
      sig := fun t x y => if t < g.nt ∧ x < g.nx ∧ y < g.ny then q5 t x y else 1 }
  refine ⟨m, ⟨hg, h.built.cubeIs, ⟨fun t => ?_, fun t x y => ?_, fun t x y z => ?_, fun t x y => ?_, ?_, fun t ht => ?_,
    fun t ht x hx y hy => ?_⟩, ⟨A1, a1, d1.congr fun c hc => ?_⟩, ⟨A2, a2, ?_⟩, ⟨A3, a3, ?_⟩,
    ⟨A4, a4, d4.isArr (w := ['t','x']) (by decide)⟩, ⟨A5, a5, ?_⟩, hl, hL⟩, fun t ht x hx y hy => ?_,
    fun t ht x hx y hy z hz => ?_⟩
  · show 0 ≤ if t < g.nt then q1 t else 0
    split_ifs with h
    · exact b1 t h
    · exact le_rfl
  · show 0 ≤ if t < g.nt ∧ x < g.nx ∧ y < g.ny then q2 t x y else 0
    split_ifs with h
    · exact (b2 t h.1 x h.2.1 y h.2.2).le
    · exact le_rfl
  · show 0 ≤ if t < g.nt ∧ x < g.nx ∧ y < g.ny ∧ z < g.nz then q3 t x y z else 0
    split_ifs with h
    · exact (b3 t h.1 x h.2.1 y h.2.2.1 z h.2.2.2).le
    · exact le_rfl
  · show 0 < if t < g.nt ∧ x < g.nx ∧ y < g.ny then q5 t x y else 1
    split_ifs with h
    · exact b5 t h.1 x h.2.1 y h.2.2
    · exact zero_lt_one
  · rw [← c1]
    exact Finset.sum_congr rfl fun t _ => by simp only [m, t.2, if_true]
  · rw [← c2 t ht]
    exact Finset.sum_congr rfl fun x _ => Finset.sum_congr rfl fun y _ => by simp only [m, ht, x.2, y.2, and_self, if_true]
  · rw [← c3 t ht x hx y hy]
    exact Finset.sum_congr rfl fun z _ => by simp only [m, ht, hx, hy, z.2, and_self, if_true]
  · simp only [m, hc.1, if_true]
  · refine (isArr_cond_iff (by decide) (by decide)).2 (larr_iff.2 (d2.congr fun c hc => ?_))
    simp only [m, hc.1, hc.2.2.1, hc.2.2.2.1, and_self, if_true]
  · refine (isArr_cond_iff (by decide) (by decide)).2 (larr_iff.2 (d3.congr fun c hc => ?_))
    simp only [m, hc.1, hc.2.2.1, hc.2.2.2.1, hc.2.2.2.2, and_self, if_true]
  · refine MArr.isArr (w := ['t','x']) (by decide) (d5.congr fun c hc => ?_)
    simp only [m, hc.1, hc.2.2.1, hc.2.2.2.1, and_self, if_true]
  · simp only [m, ht, hx, hy, and_self, if_true]; exact b2 t ht x hx y hy
  · simp only [m, ht, hx, hy, hz, and_self, if_true]; exact b3 t ht x hx y hy z hz

/-! ### The setters keep the invariant -/

section
variable (h : Sound p g f2 center rotation)
include h

theorem Sound.withAge {s e : ℝ} {A : Arr Num} (hse : s < e) {q : ℕ → ℝ} (h1 : ∀ t < g.nt, 0 ≤ q t)
    (h2 : ∑ t : Fin g.nt, q t * width g.t t = 1) (h3 : IsArr g ['t'] A (fun c => Num.lg (q c.t))) :
    Sound { p with tPars := some ⟨.fin s, .fin e, .fin (e - s)⟩, logPt := some A } g f2 center rotation :=
  ⟨h.built.congr rfl rfl rfl rfl rfl, fun _ => ⟨s, e, rfl, hse⟩, fun h => by simp at h,
    fun B hB => by cases hB; exact ⟨q, h1, h2, h3⟩, h.space, h.metal, h.mean, h.disp⟩

theorem Sound.setPt (hg : g.Proper) {lmd phi : ℝ} {q : ℝ × ℝ} (hv : ValidSfh lmd phi q) :
    ∃ p', p.setPt lmd phi q = .ok p' ∧ Sound p' g f2 center rotation := by
  obtain ⟨v1, v2, v3, v4, v5, v6, v7⟩ := hv
  obtain ⟨s, e, A, -, hse, -, k1, k2⟩ := setPt_aged h.built.cubeIs hg v1 v2 v3 v4 v5 v6 v7
  have hw : ∀ t < g.nt, 0 < width g.t t := fun t ht => sub_pos.2 (hg.t t ht)
  refine ⟨_, k1, h.withAge hse
    (q := fun t => ageBinProb g (lmd * phi) (lmd * (1 - phi)) t / width g.t t) (fun t ht => div_nonneg (ageBinProb_nonneg _ _ _ _) (hw t ht).le) ?_ k2⟩
  refine Eq.trans ?_ (sfh_sum hg (mul_pos v1 v2) (mul_pos v1 (by linarith : 0 < 1 - phi)))
  exact Finset.sum_congr rfl fun t _ => div_mul_cancel₀ _ (hw t t.2).ne'

theorem Sound.withSpace {A : Arr Num} {q : ℕ → ℕ → ℕ → ℝ}
    (h1 : ∀ t < g.nt, ∀ x < g.nx, ∀ y < g.ny, 0 < q t x y)
    (h2 : ∀ t < g.nt, ∑ x : Fin g.nx, ∑ y : Fin g.ny, q t x y * (width g.x x * width g.y y) = 1)
    (h3 : MArr g (['x','y','t'].map some) A (fun c => Num.lg (q c.t c.x c.y))) :
    Sound { p with logPxt := some A } g f2 center rotation :=
  ⟨h.built.congr rfl rfl rfl rfl rfl, h.aged, h.unaged, h.age,
    fun B hB => by cases hB; exact ⟨q, h1, h2, h3⟩, h.metal, h.mean, h.disp⟩

theorem Sound.withMetal (hg : g.Proper) {A B : Arr Num} {z : ℕ → ℕ → ℕ → ℕ}
    (h3 : MArr g (['z','t','x','y'].map some) B
      (fun c => Num.lg (metalDens g (gasMetal g (z c.t c.x c.y) c.t) c.z))) :
    Sound { p with tDep := some A, logPztx := some B } g f2 center rotation := by
  obtain ⟨-, -, g3⟩ := h.built.grid hg
  refine ⟨h.built.congr rfl rfl rfl rfl rfl, h.aged, h.unaged, h.age, h.space,
    fun B' hB => ?_, h.mean, h.disp⟩
  cases hB
  refine ⟨fun t x y k => metalDens g (gasMetal g (z t x y) t) k, fun t ht x _ y _ k hk => ?_, fun t ht x _ y _ => ?_, h3⟩
  · have := (g3 (z t x y) t ht).2.1
    exact div_pos (metalProb_pos hg this hk) (metalTotal_pos hg this)
  · exact metalDens_sum hg (g3 (z t x y) t ht).2.1

theorem Sound.withMean {A : Arr Num} {q : ℕ → ℕ → ℕ → ℝ}
    (h3 : MArr g (['t','x','y'].map some) A (fun c => .fin (q c.t c.x c.y))) :
    Sound { p with muV := some A } g f2 center rotation :=
  ⟨h.built.congr rfl rfl rfl rfl rfl, h.aged, h.unaged, h.age, h.space, h.metal,
    fun B hB => by cases hB; exact ⟨q, h3⟩, h.disp⟩

theorem Sound.withDisp {A : Arr Num} {q : ℕ → ℕ → ℕ → ℝ}
    (h1 : ∀ t < g.nt, ∀ x < g.nx, ∀ y < g.ny, 0 < q t x y)
    (h3 : MArr g (['t','x','y'].map some) A (fun c => .fin (q c.t c.x c.y))) :
    Sound { p with sigV := some A } g f2 center rotation :=
  ⟨h.built.congr rfl rfl rfl rfl rfl, h.aged, h.unaged, h.age, h.space, h.metal, h.mean,
    fun B hB => by cases hB; exact ⟨q, h1, h3⟩⟩

/-- A valid call on a growing disk succeeds and keeps the invariant, if `set_p_t` ran before. -/
theorem Sound.disk (hg : g.Proper) (hx : ∃ c, g.Has c ∧ frameX g center rotation c ≠ 0) (k : DiskCall) (hv : k.Valid)
    (ht : p.logPt ≠ none ∨ k.field = .age ∨ k.field = .metal) :
    ∃ p', k.run p = .ok p' ∧ Sound p' g f2 center rotation := by
  obtain ⟨m, -, hm⟩ := h.built.amax hg
  have hm0 : 0 < m := by
    obtain ⟨c, hc, hne⟩ := hx
    exact (abs_pos.2 hne).trans_le (hm.2 c hc)
  cases k with
  | setPt lmd phi q => exact h.setPt hg hv
  | setPxt q rc alpha =>
    obtain ⟨s, e, ha⟩ := h.aged (by simpa [DiskCall.field] using ht)
    obtain ⟨v1, v2, v3⟩ := hv
    obtain ⟨A, k1, k2⟩ := disk_setPxt h.built hg ha v1 v2 v3
    have hρp : ∀ c, 0 < coredRho g center rotation s e q rc alpha c := fun c => coredRho_pos ha.2 v2.1 v2.2 c
    refine ⟨_, k1, h.withSpace (q := fun t x y => coredRho g center rotation s e q rc alpha ⟨t, 0, x, y, 0⟩ /
        pixTotal g (coredRho g center rotation s e q rc alpha) ⟨t, 0, x, y, 0⟩)
      (fun t _ x _ y _ => div_pos (hρp _) (pixTotal_pos hg hρp _)) (fun t _ => pixTotal_norm hg hρp ⟨t, 0, 0, 0, 0⟩) k2⟩
  | setTDep q alpha tIn tOut tMin tMax =>
    obtain ⟨v1, v2, v3, v4, v5, v6⟩ := hv
    obtain ⟨A, B, k1, -, k2⟩ := disk_setTDep h.built hg v1 v2 v3 v4 v5 v6 hm hm0
    exact ⟨_, k1, h.withMetal hg (z := fun _ x y => Param.nearest p.zGrid (A.get [x, y])) k2⟩
  | setMuV q rmax vmax =>
    obtain ⟨s, e, ha⟩ := h.aged (by simpa [DiskCall.field] using ht)
    obtain ⟨v1, v2, v3⟩ := hv
    obtain ⟨A, k1, k2⟩ := disk_setMuV h.built ha v1 v2 v3
    exact ⟨_, k1, h.withMean (q := fun t x y => diskMu g center rotation s e q rmax vmax ⟨t, 0, x, y, 0⟩) k2⟩
  | setSigV q alpha sIn sOut =>
    obtain ⟨s, e, ha⟩ := h.aged (by simpa [DiskCall.field] using ht)
    obtain ⟨v1, v2, v3, v4⟩ := hv
    obtain ⟨A, k1, k2⟩ := disk_setSigV h.built hg ha v1 v2 v3 v4 hm hm0
    refine ⟨_, k1, h.withDisp (q := fun t x y => diskSig g center rotation s e m q alpha sIn sOut ⟨t, 0, x, y, 0⟩)
      (fun t _ x _ y _ => ?_) k2⟩
    have hR : 0 ≤ ellR g center rotation (atAge g s e q t) ⟨t, 0, x, y, 0⟩ / m :=
      div_nonneg (ellR_nonneg _ _ _ _ _) hm0.le
    exact (lt_min (atAge_pos ha.2 g v3.1 v3.2 t) (atAge_pos ha.2 g v4.1 v4.2 t)).trans_le (fade_mem hR).1

/-- Otherwise it raises `AttributeError`. -/
theorem Sound.disk_early (k : DiskCall) (hv : k.Valid) (ht : p.logPt = none)
    (hk : k.field ≠ .age ∧ k.field ≠ .metal) : k.run p = .error .attributeError := by
  have hi : ∀ a b, p.linearInterpolateT a b = .error .attributeError := fun a b => by
    simp only [Param.linearInterpolateT, h.unaged ht, Param.attr]; rfl
  have hi3 : ∀ l, p.interpT3 l = .error .attributeError := fun l => by
    simp only [Param.interpT3, hi]; rfl
  cases k with
  | setPt lmd phi q => simp [DiskCall.field] at hk
  | setTDep q alpha tIn tOut tMin tMax => simp [DiskCall.field] at hk
  | setPxt q rc alpha =>
    obtain ⟨v1, v2, v3⟩ := hv
    simp only [DiskCall.run, GrowingDisk.setPxt]
    rw [pyAssert_pos (by norm_num; exact v1), pyAssert_pos (by norm_num; exact v2), pyAssert_pos (by norm_num; exact v3)]
    simp only [Py.ok_bind, hi3]; rfl
  | setMuV q rmax vmax =>
    obtain ⟨v1, v2, v3⟩ := hv
    simp only [DiskCall.run, GrowingDisk.setMuV]
    rw [pyAssert_pos (by norm_num; exact v1), pyAssert_pos v3]
    simp only [Py.ok_bind, hi]; rfl
  | setSigV q alpha sIn sOut =>
    obtain ⟨v1, v2, v3, v4⟩ := hv
    simp only [DiskCall.run, GrowingDisk.setSigV]
    rw [pyAssert_pos (by norm_num; exact v1), pyAssert_pos (by norm_num; exact v2), pyAssert_pos (by norm_num; exact v3),
      pyAssert_pos (by norm_num; exact v4)]
    simp only [Py.ok_bind, hi3]; rfl

end

/-- The invariant for streams. -/
structure SoundStream (s : Stream) (g : Grid) (f2 : ℝ) (center : ℝ × ℝ) (rotation : ℝ) : Prop where
  base : Sound s.base g f2 center rotation
  theta : ∀ θ, s.thetaLims = some θ → θ.1 ≠ θ.2
  space : s.thetaLims = none ↔ s.base.logPxt = none

theorem SoundStream.step {s : Stream} (h : SoundStream s g f2 center rotation) (hg : g.Proper) (k : StreamCall)
    (hv : k.Valid) (ht : s.base.logPxt ≠ none ∨ k.field ≠ .mean) :
    ∃ s', k.run s = .ok s' ∧ SoundStream s' g f2 center rotation := by
  cases k with
  | setPt lmd phi q =>
    obtain ⟨p', k1, k2⟩ := h.base.setPt hg hv
    have hw := setPt_writes k1
    refine ⟨{ s with base := p' }, by simp only [StreamCall.run, k1, Py.ok_bind], k2, h.theta, ?_⟩
    have := hw.frame (f' := .space) (by decide)
    simp only [Field.get, List.cons.injEq, and_true] at this
    rw [this]; exact h.space
  | setPxt theta muR sig n =>
    obtain ⟨v1, v2, v3, v4, v5⟩ := hv
    obtain ⟨A, k1, k2⟩ := stream_setPxt h.base.built hg (muR := muR) (le_min v1.1 v2.1) (max_le v1.2 v2.2) v3 v4 v5
    have hT := streamTotal_pos (center := center) (rotation := rotation) (theta := theta) (muR := muR) hg v4 v5
    have hA : ∀ x < g.nx, ∀ y < g.ny, 0 < width g.x x * width g.y y := fun x hx y hy =>
      mul_pos (sub_pos.2 (hg.x _ hx)) (sub_pos.2 (hg.y _ hy))
    refine ⟨_, k1, ⟨h.base.withSpace (q := fun _ x y => streamW g center rotation theta muR sig n ⟨0, 0, x, y, 0⟩ /
        streamTotal g center rotation theta muR sig n / (width g.x x * width g.y y))
      (fun t _ x hx y hy => div_pos (div_pos (streamW_pos hg v4 v5 hx hy) hT) (hA x hx y hy)) (fun t ht => ?_) k2, ?_, ?_⟩⟩
    · have e : ∀ (x : Fin g.nx) (y : Fin g.ny), streamW g center rotation theta muR sig n ⟨0, 0, x, y, 0⟩ /
          streamTotal g center rotation theta muR sig n / (width g.x x * width g.y y) * (width g.x x * width g.y y) =
          streamW g center rotation theta muR sig n ⟨0, 0, x, y, 0⟩ * (streamTotal g center rotation theta muR sig n)⁻¹ :=
        fun x y => by rw [div_mul_cancel₀ _ (hA x x.2 y y.2).ne', div_eq_mul_inv]
      simp only [e, ← Finset.sum_mul]
      exact mul_inv_cancel₀ hT.ne'
    · intro θ hθ
      cases hθ; exact v3
    · simp
  | setTDep τ =>
    obtain ⟨B, k1, k2⟩ := stream_setTDep h.base.built hg τ
    exact ⟨_, k1, h.base.withMetal hg (z := fun _ _ _ => Param.nearest s.base.zGrid (.fin τ)) k2, h.theta, h.space⟩
  | setMuV lims =>
    have h1 : s.base.logPxt ≠ none := by simpa [StreamCall.field] using ht
    obtain ⟨θ, hθ⟩ := Option.ne_none_iff_exists'.1 fun e => h1 (h.space.1 e)
    obtain ⟨A, k1, k2⟩ := stream_setMuV h.base.built (lims := lims) hθ (h.theta θ hθ)
    exact ⟨_, k1, h.base.withMean (q := fun _ x y => streamMu g center rotation θ lims ⟨0, 0, x, y, 0⟩) k2, h.theta, h.space⟩
  | setSigV sigV =>
    obtain ⟨A, k1, k2⟩ := stream_setSigV h.base.built sigV
    exact ⟨_, k1, h.base.withDisp (q := fun _ _ _ => sigV) (fun _ _ _ _ _ _ => hv) k2, h.theta, h.space⟩

end PKM
