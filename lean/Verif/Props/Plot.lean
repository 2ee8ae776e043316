import Verif.Plot
import Verif.Enrich
import Verif.Protocol
import Verif.Props.Cube
import Verif.Props.Ssp

/-!
# C53, C60, C61: plots

Specification: `drawnEdge` are the boundaries of the bins of a variable on an axis of an image: the bin edges for positions and velocity, equal
parts of the unit interval for ages and metallicities. `Covers d r c ..` says that the entry in row `r` (from the top) and column `c` of the
drawn image covers the given rectangle.
-/

open scoped Classical

noncomputable section

namespace PKM
open Np Component PlotCube

/-- Boundary `i` of the `n` bins with edges `e` of variable `var` in an image. -/
def drawnEdge (var : PyStr) (n : ℕ) (e : ℕ → ℝ) (i : ℕ) : ℝ :=
  if var = "t".toList ∨ var = "z".toList then i / n else e i

/-- An image of `nr` rows and `nc` columns fills its rectangle with equal cells, the first row on top: cell `(r, c)` is the rectangle
`[x0, x1] × [y0, y1]`. -/
def Covers (d : Drawing) (r c : ℕ) (x0 x1 y0 y1 : ℝ) : Prop :=
  ∃ L R B T : ℝ, ∃ nr nc : ℕ, d.left = .fin L ∧ d.right = .fin R ∧ d.bottom = .fin B ∧ d.top = .fin T ∧ d.image.shape = [nr, nc] ∧
    x0 = L + c * ((R - L) / nc) ∧ x1 = L + (c + 1) * ((R - L) / nc) ∧
    y1 = T - r * ((T - B) / nr) ∧ y0 = T - (r + 1) * ((T - B) / nr)

/-- Axis label of a variable. -/
def axisName (var : PyStr) : String :=
  if var = "t".toList then "$t$ [Gyr]" else if var = "v".toList then "$v$ [km/s]" else if var = "z".toList then "$z$ [M/H]"
  else if var = "x1".toList then "$x_1$" else "$x_2$"

/-- Tick marks of a variable in an image: the positions and labels that the SSP object has for ages or for metallicities; none for the
other variables, whose axes matplotlib marks. -/
def drawnTicks (k : Ticks) (var : PyStr) : Option (List ℝ × List ℝ) :=
  if var = "t".toList then some (k.imgT, k.t) else if var = "z".toList then some (k.imgZ, k.z) else none

/-- A cube with the given ranges, stored as tuples. -/
structure TupleCube (p : PlotCube) (nt nz : ℕ) (t z : ℕ → ℝ) (nx ny nv : ℕ) (x1rng x2rng vrng : ℝ × ℝ) : Prop where
  cube : CubeIs p.cube (cubeGrid nt nz t z nx ny nv x1rng x2rng vrng)
  rng1 : p.rng1 = .tup [.fin x1rng.1, .fin x1rng.2]
  rng2 : p.rng2 = .tup [.fin x2rng.1, .fin x2rng.2]
  nt : 0 < nt
  nz : 0 < nz
  nx : 0 < nx
  ny : 0 < ny
  nv : 0 < nv

variable {p : PlotCube} {nt nz nx ny nv : ℕ} {t z : ℕ → ℝ} {x1rng x2rng vrng : ℝ × ℝ}

/-! ### Helpers -/

theorem evenEdges_ends (r : ℝ × ℝ) {n : ℕ} (hn : 0 < n) : evenEdges r n 0 = r.1 ∧ evenEdges r n n = r.2 := by
  have : (n : ℝ) ≠ 0 := by exact_mod_cast hn.ne'
  constructor
  · simp [evenEdges]
  · simp only [evenEdges]
    field_simp
    ring

theorem imageExtent_is (h : TupleCube p nt nz t z nx ny nv x1rng x2rng vrng) {var : PyStr} {n : ℕ} {e : ℕ → ℝ}
    (hv : (cubeGrid nt nz t z nx ny nv x1rng x2rng vrng).variable var = some (n, e)) :
    0 < n ∧ p.imageExtent var = .ok (.tup [.fin (drawnEdge var n e 0), .fin (drawnEdge var n e n)]) ∧
      (∀ i, drawnEdge var n e i = drawnEdge var n e 0 + i * ((drawnEdge var n e n - drawnEdge var n e 0) / n)) ∧
      getAxisLabel var = .ok (axisName var).toList ∧ p.getTicks var = .ok (drawnTicks p.ticks var) := by
  have hev : ∀ (r : ℝ × ℝ) {n : ℕ} (hn : 0 < n) (i : ℕ), evenEdges r n i = evenEdges r n 0 + i * ((evenEdges r n n - evenEdges r n 0) / n) := by
    intro r n hn i
    rw [(evenEdges_ends r hn).1, (evenEdges_ends r hn).2]
    rfl
  unfold Grid.variable at hv
  split_ifs at hv with h1 h2 h3 h4 h5 <;>
    (simp only [Option.some.injEq, Prod.mk.injEq] at hv; obtain ⟨rfl, rfl⟩ := hv; subst var)
  · have hn : (nt : ℝ) ≠ 0 := by exact_mod_cast h.nt.ne'
    refine ⟨h.nt, ?_, ?_, by decide, rfl⟩
    · simp [imageExtent, drawnEdge, cubeGrid, hn]
    · intro i
      simp [drawnEdge, cubeGrid, hn]
      field_simp
  · obtain ⟨a, ea, ha⟩ := h.cube.vEdg.at (k := 0) (by omega)
    obtain ⟨b, eb, hb⟩ := h.cube.vEdg.last
    simp only [Nat.cast_zero] at ea
    refine ⟨h.nv, ?_, ?_, by decide, rfl⟩
    · simp [imageExtent, extentObj, ends, ea, eb, ha.get, hb.get, drawnEdge]
    · intro i
      have := hev vrng h.nv i
      simpa [drawnEdge, cubeGrid] using this
  · have hn : (nz : ℝ) ≠ 0 := by exact_mod_cast h.nz.ne'
    refine ⟨h.nz, ?_, ?_, by decide, rfl⟩
    · simp [imageExtent, drawnEdge, cubeGrid, hn]
    · intro i
      simp [drawnEdge, cubeGrid, hn]
      field_simp
  · refine ⟨h.nx, ?_, ?_, by decide, rfl⟩
    · have := evenEdges_ends x1rng h.nx
      simp [imageExtent, extentObj, drawnEdge, cubeGrid, h.rng1, this]
    · intro i
      have := hev x1rng h.nx i
      simpa [drawnEdge, cubeGrid] using this
  · refine ⟨h.ny, ?_, ?_, by decide, rfl⟩
    · have := evenEdges_ends x2rng h.ny
      simp [imageExtent, extentObj, drawnEdge, cubeGrid, h.rng2, this]
    · intro i
      have := hev x2rng h.ny i
      simpa [drawnEdge, cubeGrid] using this

/-! ### C53 -/

/-- `imshow(img, view=[v0, v1])` for any two of the five variables and any image with one entry per pair of bins: the entry of bins
`i`, `j` is drawn over the rectangle between the boundaries of bin `i` of `v0` horizontally and bin `j` of `v1` vertically (upwards);
axes are labelled with the names of `v0` and `v1`, and marked with their tick marks; no list changes. -/
theorem C53_image (h : TupleCube p nt nz t z nx ny nv x1rng x2rng vrng) {v0 v1 : PyStr} {n0 n1 : ℕ} {e0 e1 : ℕ → ℝ}
    (h0 : (cubeGrid nt nz t z nx ny nv x1rng x2rng vrng).variable v0 = some (n0, e0))
    (h1 : (cubeGrid nt nz t z nx ny nv x1rng x2rng vrng).variable v1 = some (n1, e1)) {img : Arr Num} (hi : img.shape = [n0, n1])
    (label : Bool) (m : Lists) :
    ∃ d, p.imshow img [v0, v1] label m = (.ok d, m) ∧
      (∀ i < n0, ∀ j < n1, ∃ r c, d.image.get [r, c] = img.get [i, j] ∧ Covers d r c (drawnEdge v0 n0 e0 i) (drawnEdge v0 n0 e0 (i + 1))
        (drawnEdge v1 n1 e1 j) (drawnEdge v1 n1 e1 (j + 1))) ∧
      d.labels = (if label then [(axisName v0).toList, (axisName v1).toList] else []) ∧
      d.ticks = (if label then some [drawnTicks p.ticks v0, drawnTicks p.ticks v1] else none) := by
  obtain ⟨p0, a0, b0, c0, d0⟩ := imageExtent_is h h0
  obtain ⟨p1, a1, b1, c1, d1⟩ := imageExtent_is h h1
  have hrect : ∀ i < n0, ∀ j < n1, ∀ d : Drawing, d.image = ⟨[n1, n0], fun k => img.get [k.getD 1 0, n1 - 1 - k.getD 0 0]⟩ →
      d.left = .fin (drawnEdge v0 n0 e0 0) → d.right = .fin (drawnEdge v0 n0 e0 n0) → d.bottom = .fin (drawnEdge v1 n1 e1 0) →
      d.top = .fin (drawnEdge v1 n1 e1 n1) →
      ∃ r c, d.image.get [r, c] = img.get [i, j] ∧ Covers d r c (drawnEdge v0 n0 e0 i) (drawnEdge v0 n0 e0 (i + 1))
        (drawnEdge v1 n1 e1 j) (drawnEdge v1 n1 e1 (j + 1)) := by
    intro i hi' j hj d q1 q2 q3 q4 q5
    refine ⟨n1 - 1 - j, i, ?_, _, _, _, _, n1, n0, q2, q3, q4, q5, by rw [q1], ?_, ?_, ?_, ?_⟩
    · rw [q1]
      show img.get [i, n1 - 1 - (n1 - 1 - j)] = _
      congr 3
      omega
    · exact b0 i
    · rw [b0 (i + 1)]; push_cast; rfl
    · have e : ((n1 - 1 - j : ℕ) : ℝ) = n1 - 1 - j := by
        have : ((n1 - 1 - j : ℕ) : ℤ) = n1 - 1 - j := by omega
        exact_mod_cast this
      have hn : (n1 : ℝ) ≠ 0 := by exact_mod_cast p1.ne'
      rw [b1 (j + 1), e]
      push_cast
      field_simp
      ring
    · have e : ((n1 - 1 - j : ℕ) : ℝ) = n1 - 1 - j := by
        have : ((n1 - 1 - j : ℕ) : ℤ) = n1 - 1 - j := by omega
        exact_mod_cast this
      have hn : (n1 : ℝ) ≠ 0 := by exact_mod_cast p1.ne'
      rw [b1 j, e]
      field_simp
      ring
  cases label with
  | false =>
    refine ⟨⟨⟨[n1, n0], fun k => img.get [k.getD 1 0, n1 - 1 - k.getD 0 0]⟩, _, _, _, _, none, []⟩, ?_,
      fun i hi' j hj => hrect i hi' j hj _ rfl rfl rfl rfl rfl, rfl, rfl⟩
    simp [imshow, flipudT, hi, a0, a1, PySeq.iadd, PySeq.items, finish, axImshow]
  | true =>
    refine ⟨⟨⟨[n1, n0], fun k => img.get [k.getD 1 0, n1 - 1 - k.getD 0 0]⟩, _, _, _, _, some [drawnTicks p.ticks v0, drawnTicks p.ticks v1],
      [(axisName v0).toList, (axisName v1).toList]⟩, ?_, fun i hi' j hj => hrect i hi' j hj _ rfl rfl rfl rfl rfl, rfl, rfl⟩
    simp [imshow, flipudT, hi, a0, a1, PySeq.iadd, PySeq.items, finish, axImshow, decorate, c0, c1, d0, d1]

/-- Calls with fewer than two names raise `IndexError`, those with a name that is none of the five raise `ValueError`; no list changes. -/
theorem C53_refused (h : TupleCube p nt nz t z nx ny nv x1rng x2rng vrng) {n0 n1 : ℕ} {img : Arr Num} (hi : img.shape = [n0, n1])
    (label : Bool) (m : Lists) :
    p.imshow img [] label m = (.error .indexError, m) ∧
    (∀ v0 ∈ ["t".toList, "v".toList, "x1".toList, "x2".toList, "z".toList], p.imshow img [v0] label m = (.error .indexError, m)) ∧
    (∀ v0 rest, v0 ∉ ["t".toList, "v".toList, "x1".toList, "x2".toList, "z".toList] → p.imshow img (v0 :: rest) label m = (.error .valueError, m)) ∧
    ∀ v0 ∈ ["t".toList, "v".toList, "x1".toList, "x2".toList, "z".toList], ∀ v1 rest,
      v1 ∉ ["t".toList, "v".toList, "x1".toList, "x2".toList, "z".toList] → p.imshow img (v0 :: v1 :: rest) label m = (.error .valueError, m) := by
  have good : ∀ v0 ∈ ["t".toList, "v".toList, "x1".toList, "x2".toList, "z".toList], ∃ a, p.imageExtent v0 = .ok a := by
    intro v0 hv
    have hg : ∃ n e, (cubeGrid nt nz t z nx ny nv x1rng x2rng vrng).variable v0 = some (n, e) := by
      simp only [List.mem_cons, List.not_mem_nil, or_false] at hv
      rcases hv with rfl | rfl | rfl | rfl | rfl <;> exact ⟨_, _, rfl⟩
    obtain ⟨n, e, hg⟩ := hg
    obtain ⟨-, a, -⟩ := imageExtent_is h hg
    exact ⟨_, a⟩
  have bad : ∀ v0 ∉ ["t".toList, "v".toList, "x1".toList, "x2".toList, "z".toList], p.imageExtent v0 = .error .valueError := by
    intro v0 hv
    simp only [List.mem_cons, List.not_mem_nil, or_false, not_or] at hv
    obtain ⟨a, b, c, d, e⟩ := hv
    simp only [imageExtent, a, b, c, d, e, or_self, if_false]
  refine ⟨by simp [imshow, flipudT, hi], fun v0 hv => ?_, fun v0 rest hv => ?_, fun v0 hv v1 rest hv1 => ?_⟩
  · obtain ⟨a, ha⟩ := good v0 hv
    simp [imshow, flipudT, hi, ha]
  · simp [imshow, flipudT, hi, bad v0 hv]
  · obtain ⟨a, ha⟩ := good v0 hv
    simp [imshow, flipudT, hi, ha, bad v1 hv1]

/-- A call of `imshow` with any arguments. -/
structure ImshowCall where
  img : Arr Num
  view : List PyStr
  label : Bool

/-- The lists after a history of calls of `imshow`. -/
def afterImages (p : PlotCube) (calls : List ImshowCall) (m : Lists) : Lists :=
  calls.foldl (fun m q => (p.imshow q.img q.view q.label m).2) m

/-- If both ranges of the cube are tuples, no history of calls of `imshow`, with any arguments, successful or not, changes any list
(tuples and numbers cannot change). What is missing: cubes constructed with lists as ranges (see `C53_list_grows`). -/
theorem C53_unchanged_partial {a b : List Num} (h1 : p.rng1 = .tup a) (h2 : p.rng2 = .tup b) (calls : List ImshowCall) (m : Lists) :
    afterImages p calls m = m := by
  have hext : ∀ v s, p.imageExtent v = .ok s → ∃ l, s = .tup l := by
    intro v s hs
    have hends : ∀ e s, ends e = .ok s → ∃ l, s = .tup l := by
      intro e s hs
      unfold ends at hs
      obtain ⟨a, _, hs⟩ := bind_ok hs
      obtain ⟨b, _, hs⟩ := bind_ok hs
      injection hs with hs
      exact ⟨_, hs.symm⟩
    unfold imageExtent extentObj at hs
    split_ifs at hs <;> first | exact hends _ _ hs | (injection hs with hs; exact ⟨_, by first | exact hs.symm.trans h1 | exact hs.symm.trans h2 | exact hs.symm⟩)
  have step : ∀ q : ImshowCall, ∀ m, (p.imshow q.img q.view q.label m).2 = m := by
    intro q m
    unfold imshow
    cases flipudT q.img with
    | error e => rfl
    | ok img =>
      match q.view with
      | [] => rfl
      | [v0] =>
        cases h0 : p.imageExtent v0 <;> simp only [h0]
      | v0 :: v1 :: rest =>
        cases h0 : p.imageExtent v0 with
        | error e => simp only [h0]
        | ok a =>
          obtain ⟨l, rfl⟩ := hext _ _ h0
          cases h1 : p.imageExtent v1 with
          | error e => simp only [h0, h1]
          | ok b =>
            obtain ⟨l', rfl⟩ := hext _ _ h1
            simp only [h0, h1, PySeq.iadd]
  induction calls generalizing m with
  | nil => rfl
  | cons q calls ih =>
    show afterImages p calls (p.imshow q.img q.view q.label m).2 = m
    rw [step, ih]

/-- A range given as list is extended by every image with this variable on the horizontal axis: a cube whose `x1rng` is a list has it
followed by the extent of the second variable, every time. -/
theorem C53_list_grows {i : ℕ} (h1 : p.rng1 = .lst i) {v1 : PyStr} {s : PySeq} (hv : p.imageExtent v1 = .ok s) {img : Arr Num}
    {n0 n1 : ℕ} (hi : img.shape = [n0, n1]) (label : Bool) (m : Lists) :
    (p.imshow img ["x1".toList, v1] label m).2 i = m i ++ s.items m := by
  have h0 : p.imageExtent "x1".toList = .ok (.lst i) := by simp [imageExtent, extentObj, h1]
  unfold imshow
  simp only [flipudT, hi, h0, hv, PySeq.iadd, Function.update_self]

/-- Consequence: an image of (x1, v) followed by an image of (x1, x2) on a cube with list `x1rng`. The second image is drawn with the
velocity range as vertical extent. (The range of the cube has six entries by then.) -/
theorem C53_stale_extent {i : ℕ} (h1 : p.rng1 = .lst i) (h2 : p.rng2 = .tup [.fin x2rng.1, .fin x2rng.2])
    {n : ℕ} {e : ℕ → ℝ} (hv : Is1 p.cube.vEdg (n + 1) e) {m : Lists} (hm : m i = [.fin x1rng.1, .fin x1rng.2])
    {img img' : Arr Num} {n0 n1 n0' n1' : ℕ} (hi : img.shape = [n0, n1]) (hi' : img'.shape = [n0', n1']) :
    ∃ d d' m', p.imshow img ["x1".toList, "v".toList] true m = (.ok d, m') ∧ (p.imshow img' ["x1".toList, "x2".toList] true m').1 = .ok d' ∧
      d'.bottom = .fin (e 0) ∧ d'.top = .fin (e n) ∧
      m' i = [.fin x1rng.1, .fin x1rng.2, .fin (e 0), .fin (e n)] := by
  obtain ⟨a, ea, ha⟩ := hv.at (k := 0) (by omega)
  obtain ⟨b, eb, hb⟩ := hv.last
  simp only [Nat.cast_zero] at ea
  have x0 : p.imageExtent "x1".toList = .ok (.lst i) := by simp [imageExtent, extentObj, h1]
  have x1 : p.imageExtent "x2".toList = .ok (.tup [.fin x2rng.1, .fin x2rng.2]) := by simp [imageExtent, extentObj, h2]
  have xv : p.imageExtent "v".toList = .ok (.tup [.fin (e 0), .fin (e n)]) := by
    simp [imageExtent, extentObj, ends, ea, eb, ha.get, hb.get]
  have l0 : getAxisLabel "x1".toList = .ok "$x_1$".toList := by decide
  have l1 : getAxisLabel "x2".toList = .ok "$x_2$".toList := by decide
  have lv : getAxisLabel "v".toList = .ok "$v$ [km/s]".toList := by decide
  have k0 : p.getTicks "x1".toList = .ok none := rfl
  have k1 : p.getTicks "x2".toList = .ok none := rfl
  have kv : p.getTicks "v".toList = .ok none := rfl
  have A : ∃ d, p.imshow img ["x1".toList, "v".toList] true m =
      (.ok d, Function.update m i [.fin x1rng.1, .fin x1rng.2, .fin (e 0), .fin (e n)]) := by
    unfold imshow
    simp only [flipudT, hi, x0, xv, PySeq.iadd, PySeq.items, hm, finish, Function.update_self, List.cons_append, List.nil_append, axImshow,
      Py.ok_bind, if_true, decorate, k0, kv, l0, lv]
    exact ⟨_, rfl⟩
  have B : ∀ m' : Lists, m' i = [.fin x1rng.1, .fin x1rng.2, .fin (e 0), .fin (e n)] →
      ∃ d', (p.imshow img' ["x1".toList, "x2".toList] true m').1 = .ok d' ∧ d'.bottom = .fin (e 0) ∧ d'.top = .fin (e n) := by
    intro m' hm'
    unfold imshow
    simp only [flipudT, hi', x0, x1, PySeq.iadd, PySeq.items, hm', finish, Function.update_self, List.cons_append, List.nil_append,
      axImshow, Py.ok_bind, if_true, decorate, k0, k1, l0, l1]
    exact ⟨_, rfl, rfl, rfl⟩
  obtain ⟨d, hd⟩ := A
  obtain ⟨d', h1', h2', h3'⟩ := B _ (Function.update_self i _ m)
  exact ⟨d, d', _, hd, h1', h2', h3', Function.update_self i _ m⟩

/-- A tuple `x1rng` with a list `x2rng` cannot be shown at all with the default view. -/
theorem C53_mixed {a : List Num} {i : ℕ} (h1 : p.rng1 = .tup a) (h2 : p.rng2 = .lst i) {img : Arr Num} {n0 n1 : ℕ}
    (hi : img.shape = [n0, n1]) (label : Bool) (m : Lists) :
    p.imshow img ["x1".toList, "x2".toList] label m = (.error .typeError, m) := by
  have x0 : p.imageExtent "x1".toList = .ok (.tup a) := by simp [imageExtent, extentObj, h1]
  have x1 : p.imageExtent "x2".toList = .ok (.lst i) := by simp [imageExtent, extentObj, h2]
  unfold imshow
  simp only [flipudT, hi, x0, x1, PySeq.iadd]

/-- Unknown variables raise `ValueError` and change nothing. -/
theorem C53_unknown (g : Grid) {v0 v1 : PyStr} (hv : g.variable v0 = none ∨ (g.variable v0 ≠ none ∧ g.variable v1 = none)) {img : Arr Num}
    {n0 n1 : ℕ} (hi : img.shape = [n0, n1]) (label : Bool) (m : Lists) (hends : ∃ s, ends p.cube.vEdg = .ok s) :
    p.imshow img [v0, v1] label m = (.error .valueError, m) := by
  have bad : ∀ v, g.variable v = none → p.imageExtent v = .error .valueError := by
    intro v hv
    unfold Grid.variable at hv
    split_ifs at hv
    simp [imageExtent, *]
  have good : ∀ v, g.variable v ≠ none → ∃ s, p.imageExtent v = .ok s := by
    intro v hv
    obtain ⟨s, hs⟩ := hends
    unfold Grid.variable at hv
    split_ifs at hv with h1 h2 h3 h4 h5
    · exact ⟨.tup [.fin 0, .fin 1], by subst h1; simp [imageExtent]⟩
    · exact ⟨s, by subst h2; simp [imageExtent, extentObj, hs]⟩
    · exact ⟨.tup [.fin 0, .fin 1], by subst h3; simp [imageExtent]⟩
    · exact ⟨p.rng1, by subst h4; simp [imageExtent, extentObj]⟩
    · exact ⟨p.rng2, by subst h5; simp [imageExtent, extentObj]⟩
    · exact absurd rfl hv
  unfold imshow
  rcases hv with hv | ⟨h0, h1⟩
  · simp only [flipudT, hi, bad _ hv]
  · obtain ⟨s, hs⟩ := good _ h0
    simp only [flipudT, hi, hs, bad _ h1]

/-! ### C60 -/

theorem interp_bin {n k : ℕ} {e : ℕ → ℝ} (he : ∀ i < n, e i < e (i + 1)) (hk : k < n) {x : ℝ} (h0 : e 0 < x) (hn : x < e n)
    (h1 : e k ≤ x) (h2 : x ≤ e (k + 1)) :
    Param.interp (n + 1) e (fun i : ℕ => (i : ℝ) / n) x = (k + (x - e k) / (e (k + 1) - e k)) / n := by
  have hmono := strictMonoOn_edges he
  have hn0 : (n : ℝ) ≠ 0 := by
    have : n ≠ 0 := by omega
    exact_mod_cast this
  have hd : e (k + 1) - e k ≠ 0 := by linarith [he k hk]
  have hd' : (e (k + 1) - e k) ≠ 0 := by
    have := he k hk
    exact ne_of_gt (by linarith)
  unfold Param.interp
  rw [if_neg (not_le.2 h0), Nat.add_sub_cancel, if_neg (not_le.2 hn)]
  obtain ⟨a1, a2, a3⟩ := lastLe_spec e x (n + 1) (by omega) h0.le
  set j := Param.lastLe e x (n + 1)
  have hjn : j < n := by
    by_contra hge
    have : j = n := by omega
    rw [this] at a2
    linarith
  rcases lt_or_eq_of_le h2 with h2 | h2
  · have hj : j = k := by
      rcases lt_trichotomy j k with h | h | h
      · have := a3 k (by omega) h
        linarith
      · exact h
      · have h3 : e (k + 1) ≤ e j := hmono.monotoneOn (by show k + 1 ≤ n; omega) (by show j ≤ n; omega) (by omega)
        linarith
    simp only [hj]
    push_cast
    field_simp
    ring
  · have hkn : k + 1 < n := by
      rcases Nat.lt_or_ge (k + 1) n with h | h
      · exact h
      · have : k + 1 = n := by omega
        rw [this] at h2
        linarith
    have hj : j = k + 1 := by
      rcases lt_trichotomy j (k + 1) with h | h | h
      · have := a3 (k + 1) (by omega) h
        linarith
      · exact h
      · have h3 : e (k + 1) < e j := hmono (by show k + 1 ≤ n; omega) (by show j ≤ n; omega) h
        linarith
    simp only [hj, h2]
    push_cast
    field_simp
    ring

theorem tickPositions_is {edges : Arr Num} {n : ℕ} {e : ℕ → ℝ} (h : Is1 edges (n + 1) e) (dflt : List ℝ) (old new : Option (List ℝ)) :
    tickPositions dflt old new edges n = .ok
      ((new.getD (old.getD dflt)).filter (fun x => decide (e 0 < x ∧ x < e n)),
        ((new.getD (old.getD dflt)).filter (fun x => decide (e 0 < x ∧ x < e n))).map
          (Param.interp (n + 1) (fun i => finPart (edges.get [i])) (fun i : ℕ => (i : ℝ) / n))) := by
  obtain ⟨a, ea, ha⟩ := h.at (k := 0) (by omega)
  obtain ⟨b, eb, hb⟩ := h.last
  simp only [Nat.cast_zero] at ea
  simp only [tickPositions, ea, eb, Py.ok_bind, ha.get, hb.get, h.shape, List.headD_cons]
  rfl

theorem interp_congr {n : ℕ} {xs xs' ys : ℕ → ℝ} {x : ℝ} (h : ∀ i ≤ n, xs i = xs' i) (hlt : x < xs n) (h0 : xs 0 < x) :
    Param.interp (n + 1) xs ys x = Param.interp (n + 1) xs' ys x := by
  have hl : ∀ m ≤ n + 1, Param.lastLe xs x m = Param.lastLe xs' x m := by
    intro m hm
    induction m with
    | zero => rfl
    | succ m ih => simp only [Param.lastLe, h m (by omega), ih (by omega)]
  obtain ⟨a1, a2, -⟩ := lastLe_spec xs x (n + 1) (by omega) h0.le
  have hj : Param.lastLe xs x (n + 1) < n := by
    by_contra hge
    have : Param.lastLe xs x (n + 1) = n := by omega
    rw [this] at a2
    linarith
  unfold Param.interp
  simp only [Nat.add_sub_cancel, h 0 (by omega), h n le_rfl, ← hl (n + 1) le_rfl, h _ (by omega : Param.lastLe xs x (n + 1) ≤ n),
    h _ (by omega : Param.lastLe xs x (n + 1) + 1 ≤ n)]

/-- Ticks of a variable with `n` bins with increasing edges `e`: the labels are the requested values strictly between the outermost edges
(requested now, else earlier, else the default), in the order given; the tick of a value in bin `k` is placed in the `k`-th of `n` equal
parts of the unit interval, which is where an image shows bin `k`, at the same relative position. -/
theorem C60_ticks {edges : Arr Num} {n : ℕ} {e : ℕ → ℝ} (h : Is1 edges (n + 1) e) (he : ∀ i < n, e i < e (i + 1)) (dflt : List ℝ)
    (old new : Option (List ℝ)) :
    ∃ labels pos, tickPositions dflt old new edges n = .ok (labels, pos) ∧ pos.length = labels.length ∧
      labels = (new.getD (old.getD dflt)).filter (fun x => decide (e 0 < x ∧ x < e n)) ∧
      ∀ q < labels.length, ∀ k < n, e k ≤ labels.getD q 0 → labels.getD q 0 ≤ e (k + 1) →
        pos.getD q 0 = (k + (labels.getD q 0 - e k) / (e (k + 1) - e k)) / n ∧
        (k : ℝ) / n ≤ pos.getD q 0 ∧ pos.getD q 0 ≤ ((k + 1 : ℕ) : ℝ) / n := by
  refine ⟨_, _, tickPositions_is h dflt old new, by simp, rfl, ?_⟩
  intro q hq k hk h1 h2
  set labels := (new.getD (old.getD dflt)).filter (fun x => decide (e 0 < x ∧ x < e n)) with hlab
  have hmem : labels.getD q 0 ∈ labels := by
    rw [List.getD_eq_getElem?_getD, List.getElem?_eq_getElem hq]
    exact List.getElem_mem hq
  have hin : e 0 < labels.getD q 0 ∧ labels.getD q 0 < e n := by
    have := (List.mem_filter.1 hmem).2
    simpa using this
  have hpos : (labels.map (Param.interp (n + 1) (fun i => finPart (edges.get [i])) (fun i : ℕ => (i : ℝ) / n))).getD q 0 =
      (k + (labels.getD q 0 - e k) / (e (k + 1) - e k)) / n := by
    rw [List.getD_eq_getElem?_getD, List.getElem?_map, List.getElem?_eq_getElem hq]
    have e1 : labels[q] = labels.getD q 0 := by
      rw [List.getD_eq_getElem?_getD, List.getElem?_eq_getElem hq]
      rfl
    rw [Option.map_some, Option.getD_some]
    have hf : ∀ i ≤ n, (fun i => finPart (edges.get [i])) i = e i := by
      intro i hi
      show finPart (edges.get [i]) = e i
      rw [h.get i (by omega)]
      rfl
    rw [e1, interp_congr hf (hin.2.trans_eq (hf n le_rfl).symm) ((hf 0 (by omega)).trans_lt hin.1)]
    exact interp_bin he hk hin.1 hin.2 h1 h2
  have hn0 : (0 : ℝ) < n := by
    have : 0 < n := by omega
    exact_mod_cast this
  have hd : 0 < e (k + 1) - e k := by linarith [he k hk]
  refine ⟨hpos, ?_, ?_⟩
  · rw [hpos, div_le_div_iff_of_pos_right hn0]
    have : 0 ≤ (labels.getD q 0 - e k) / (e (k + 1) - e k) := div_nonneg (by linarith) hd.le
    linarith
  · rw [hpos, div_le_div_iff_of_pos_right hn0]
    have : (labels.getD q 0 - e k) / (e (k + 1) - e k) ≤ 1 := (div_le_one hd).2 (by linarith)
    push_cast
    linarith

/-- Rebinning does not move the ticks. If the rebinning factor divides the number of bins they are still right: the tick of a value in the new bin
`K` (edges `e'`) is in the `K`-th of the `n / r` equal parts of the unit interval. What is missing: factors that do not divide the number of
bins (see `C60_rebin_wrong`). -/
theorem C60_rebin_partial {edges : Arr Num} {n r : ℕ} {e e' : ℕ → ℝ} (h : Is1 edges (n + 1) e) (he : ∀ i < n, e i < e (i + 1))
    (hr : 0 < r) (hdiv : r ∣ n) (he' : OuterEdges e e' n r) (dflt : List ℝ) (old new : Option (List ℝ)) :
    ∃ labels pos, tickPositions dflt old new edges n = .ok (labels, pos) ∧
      ∀ q < labels.length, ∀ K < n / r, e' K ≤ labels.getD q 0 → labels.getD q 0 ≤ e' (K + 1) →
        (K : ℝ) / (n / r : ℕ) ≤ pos.getD q 0 ∧ pos.getD q 0 ≤ ((K + 1 : ℕ) : ℝ) / (n / r : ℕ) := by
  obtain ⟨labels, pos, h1, -, -, h2⟩ := C60_ticks h he dflt old new
  refine ⟨labels, pos, h1, fun q hq K hK a1 a2 => ?_⟩
  obtain ⟨N, rfl⟩ := hdiv
  rw [Nat.mul_div_cancel_left N hr] at hK ⊢
  have hK1 : (K + 1) * r ≤ r * N := by
    rw [mul_comm r N]
    exact Nat.mul_le_mul_right r hK
  have hKr : K * r ≤ r * N := le_trans (Nat.mul_le_mul_right r (by omega)) hK1
  rw [he', min_eq_left hKr] at a1
  rw [he', min_eq_left hK1] at a2
  set x := labels.getD q 0
  -- the original bin
  obtain ⟨k, hk1, hk2, hk3, hk4⟩ : ∃ k, K * r ≤ k ∧ k < (K + 1) * r ∧ e k ≤ x ∧ x ≤ e (k + 1) := by
    have key : ∀ d, d ≤ r → x ≤ e (K * r + d) → (0 < d) → ∃ k, K * r ≤ k ∧ k < K * r + d ∧ e k ≤ x ∧ x ≤ e (k + 1) := by
      intro d
      induction d with
      | zero => intro _ _ h; omega
      | succ d ih =>
        intro hd hx _
        by_cases hc : e (K * r + d) ≤ x
        · exact ⟨K * r + d, by omega, by omega, hc, hx⟩
        · have hd0 : 0 < d := by
            rcases Nat.eq_zero_or_pos d with rfl | h
            · exact absurd a1 hc
            · exact h
          obtain ⟨k, q1, q2, q3, q4⟩ := ih (by omega) (not_le.1 hc).le hd0
          exact ⟨k, q1, by omega, q3, q4⟩
    have e1 : (K + 1) * r = K * r + r := by ring
    rw [e1] at a2 ⊢
    exact key r le_rfl a2 hr
  obtain ⟨-, b1, b2⟩ := h2 q hq k (by omega) hk3 hk4
  have hr0 : (0 : ℝ) < r := by exact_mod_cast hr
  have hN0 : (0 : ℝ) < N := by
    have : 0 < N := by omega
    exact_mod_cast this
  constructor
  · refine le_trans ?_ b1
    rw [div_le_div_iff₀ hN0 (by push_cast; positivity)]
    have : ((K * r : ℕ) : ℝ) ≤ k := by exact_mod_cast hk1
    push_cast at this ⊢
    nlinarith
  · refine le_trans b2 ?_
    rw [div_le_div_iff₀ (by push_cast; positivity) hN0]
    have : ((k + 1 : ℕ) : ℝ) ≤ ((K + 1) * r : ℕ) := by exact_mod_cast hk2
    push_cast at this ⊢
    nlinarith

/-- Ticks at positions `pos` with values `labels` on an axis that shows `n` bins with edges `e` as equal parts of the unit interval: every tick
is in the part of the bin that holds its value. -/
def Placed (labels pos : List ℝ) (n : ℕ) (e : ℕ → ℝ) : Prop :=
  pos.length = labels.length ∧ ∀ q < labels.length, ∀ k < n, e k ≤ labels.getD q 0 → labels.getD q 0 ≤ e (k + 1) →
    (k : ℝ) / n ≤ pos.getD q 0 ∧ pos.getD q 0 ≤ ((k + 1 : ℕ) : ℝ) / n

/-- `set_tick_positions` on an SSP object with ages in the bins `t` and metallicities in the bins `z`, rebinned or not, places the ticks
of both variables right. -/
theorem C60_object {g : SspGrid} {n nt nz : ℕ} {t z : ℕ → ℝ} {S : ℕ → ℕ → ℕ → ℝ} (h : GridIs g n nt nz t z S)
    (hz : ∀ i < nz, z i < z (i + 1)) (ht : ∀ j < nt, t j < t (j + 1)) (old : Option Ticks) (tNew zNew : Option (List ℝ)) :
    ∃ ticks, setTickPositions g old tNew zNew = .ok ticks ∧ Placed ticks.t ticks.imgT nt t ∧ Placed ticks.z ticks.imgZ nz z ∧
      (∀ l, tNew = some l → ∀ x, x ∈ ticks.t ↔ x ∈ l ∧ t 0 < x ∧ x < t nt) ∧
      (∀ l, zNew = some l → ∀ x, x ∈ ticks.z ↔ x ∈ l ∧ z 0 < x ∧ x < z nz) := by
  obtain ⟨lt, pt, e1, l1, f1, c1⟩ := C60_ticks h.tEdges ht [1 / 10, 1, 5, 13] (old.map Ticks.t) tNew
  obtain ⟨lz, pz, e2, l2, f2, c2⟩ := C60_ticks h.zEdges hz [-2, -1, 0] (old.map Ticks.z) zNew
  refine ⟨⟨lt, lz, pt, pz⟩, ?_, ⟨l1, fun q hq k hk a b => (c1 q hq k hk a b).2⟩, ⟨l2, fun q hq k hk a b => (c2 q hq k hk a b).2⟩, ?_, ?_⟩
  · simp only [setTickPositions, h.dims, List.getD_cons_succ, List.getD_cons_zero, e1, e2, Py.ok_bind]
  · rintro l rfl x
    show x ∈ lt ↔ _
    rw [f1]
    simp [List.mem_filter]
  · rintro l rfl x
    show x ∈ lz ↔ _
    rw [f2]
    simp [List.mem_filter]

/-- A new SSP object: the constructor places the ticks before it rebins. They are right for the ages if `age_rebin` divides the number of
ages and for the metallicities if `z_rebin` divides the number of metallicities; in particular without rebinning. What is missing: other
factors (see `C60_rebin_wrong`). -/
theorem C60_new_partial {d : MilesData} {g : SspGrid} {n nt nz : ℕ} {t z : ℕ → ℝ} {S : ℕ → ℕ → ℕ → ℝ} (hd : SspGrid.init0 d = .ok g)
    (h : GridIs g n nt nz t z S) (hz : ∀ i < nz, z i < z (i + 1)) (ht : ∀ j < nt, t j < t (j + 1)) {ageRebin zRebin : ℕ}
    (ha : 0 < ageRebin) (hb : 0 < zRebin) (hn : 0 < n) (hnz : 0 < nz) (hnt : 0 < nt) :
    ∃ g' t' z' S' ticks, sspTicks d ageRebin zRebin = .ok (g', ticks) ∧
      GridIs g' n ⌈(nt : ℚ) / ageRebin⌉₊ ⌈(nz : ℚ) / zRebin⌉₊ t' z' S' ∧
      (ageRebin ∣ nt → Placed ticks.t ticks.imgT ⌈(nt : ℚ) / ageRebin⌉₊ t') ∧
      (zRebin ∣ nz → Placed ticks.z ticks.imgZ ⌈(nz : ℚ) / zRebin⌉₊ z') := by
  obtain ⟨g', t', z', S', hg', hG, hot, hoz, -⟩ := C42_rebin h hz ht ha hb hn hnz hnt
  have ceil : ∀ {a r : ℕ}, 0 < r → r ∣ a → ⌈(a : ℚ) / r⌉₊ = a / r := by
    rintro a r hr ⟨b, rfl⟩
    have : (r : ℚ) ≠ 0 := by exact_mod_cast hr.ne'
    rw [Nat.mul_div_cancel_left b hr]
    push_cast
    rw [mul_div_cancel_left₀ _ this, Nat.ceil_natCast]
  obtain ⟨lt, pt, e1, l1, -, -⟩ := C60_ticks h.tEdges ht [1 / 10, 1, 5, 13] none none
  obtain ⟨lz, pz, e2, l2, -, -⟩ := C60_ticks h.zEdges hz [-2, -1, 0] none none
  refine ⟨g', t', z', S', ⟨lt, lz, pt, pz⟩, ?_, hG, ?_, ?_⟩
  · simp only [sspTicks, setTickPositions, h.dims, List.getD_cons_succ, List.getD_cons_zero, Option.map_none, hd, e1, e2, Py.ok_bind, hg']
  · intro hdiv
    obtain ⟨lt', pt', e1', c1⟩ := C60_rebin_partial h.tEdges ht ha hdiv hot [1 / 10, 1, 5, 13] none none
    rw [e1] at e1'
    injection e1' with e1'
    obtain ⟨rfl, rfl⟩ := Prod.mk.inj e1'
    rw [ceil ha hdiv]
    exact ⟨l1, c1⟩
  · intro hdiv
    obtain ⟨lz', pz', e2', c2⟩ := C60_rebin_partial h.zEdges hz hb hdiv hoz [-2, -1, 0] none none
    rw [e2] at e2'
    injection e2' with e2'
    obtain ⟨rfl, rfl⟩ := Prod.mk.inj e2'
    rw [ceil hb hdiv]
    exact ⟨l2, c2⟩

/-- Rebinning by a factor that does not divide the number of bins leaves ticks in the wrong cell: of three bins with edges 0, 1, 2, 3 rebinned by
two, the first new bin is [0, 2], shown in the lower half of the axis; the tick of 1.9 is above the middle. -/
theorem C60_rebin_wrong : ∃ pos, tickPositions [] none (some [19 / 10]) (vec 4 (fun i => .fin i)) 3 = .ok ([19 / 10], [pos]) ∧
    (∃ e', OuterEdges (fun i : ℕ => (i : ℝ)) e' 3 2 ∧ e' 0 ≤ (19 / 10 : ℝ) ∧ (19 / 10 : ℝ) ≤ e' 1) ∧ ¬ pos ≤ ((1 : ℕ) : ℝ) / (2 : ℕ) := by
  have h : Is1 (vec 4 (fun i => .fin (i : ℝ))) (3 + 1) (fun i : ℕ => (i : ℝ)) := ⟨rfl, fun i _ => rfl⟩
  obtain ⟨labels, pos, h1, h2, h3, h4⟩ := C60_ticks h (fun i _ => by push_cast; linarith) [] none (some [19 / 10])
  have hl : labels = [19 / 10] := by
    rw [h3]
    simp only [Option.getD_some]
    rw [List.filter_cons_of_pos (by norm_num), List.filter_nil]
  subst hl
  obtain ⟨a, rfl⟩ : ∃ a, pos = [a] := List.length_eq_one_iff.1 h2
  have := (h4 0 (by simp) 1 (by norm_num) (by norm_num) (by norm_num)).1
  refine ⟨a, h1, ⟨fun i => ((min (i * 2) 3 : ℕ) : ℝ), fun i => rfl, by norm_num, by norm_num⟩, ?_⟩
  simp only [List.getD_cons_zero] at this
  rw [this]
  norm_num

/-! ### C61 -/

/-- `plot(var, arr)` draws the entries of `arr` at the bin centres and labels the axis with the variable. -/
theorem C61_physical {g : Grid} (h : CubeIs p.cube g) (hg : g.Proper) {var : PyStr} {n : ℕ} {e : ℕ → ℝ} (hv : g.variable var = some (n, e))
    {arr : Arr Num} (ha : arr.shape = [n]) :
    ∃ c, p.plot var arr "physical".toList = .ok c ∧ c.x.shape = [n] ∧ (∀ i < n, c.x.get [i] = .fin ((e i + e (i + 1)) / 2)) ∧ c.y = arr ∧
      c.label = (axisName var).toList := by
  obtain ⟨-, ⟨a, ea, ha1, ha2⟩, -⟩ := C03_values_edges h hg var n e hv
  have hl : getAxisLabel var = .ok (axisName var).toList := by
    unfold Grid.variable at hv
    split_ifs at hv with h1 h2 h3 h4 h5 <;> (subst var; decide)
  refine ⟨⟨a, arr, none, _⟩, ?_, ha1, ha2, rfl, rfl⟩
  simp only [plot, if_true, ea, Py.ok_bind, axPlot, ha1, ha, hl]
  rfl

/-- With `xspacing="discrete"` the `n` entries are drawn at equally spaced points of the unit interval; the point of bin `k` is in the
`k`-th of `n` equal parts, so that it agrees with the ticks. -/
theorem C61_discrete {g : Grid} (h : CubeIs p.cube g) {var : PyStr} {n : ℕ} {e : ℕ → ℝ} (hv : g.variable var = some (n, e))
    {arr : Arr Num} (ha : arr.shape = [n]) (hn : 0 < n) :
    ∃ c, p.plot var arr "discrete".toList = .ok c ∧ c.x.shape = [n] ∧
      (∀ k < n, ∃ x : ℝ, c.x.get [k] = .fin x ∧ (k : ℝ) / n ≤ x ∧ x ≤ ((k + 1 : ℕ) : ℝ) / n) ∧ c.y = arr ∧
      c.label = (axisName var).toList ∧ c.ticks = drawnTicks p.ticks var := by
  have hl : getAxisLabel var = .ok (axisName var).toList := by
    unfold Grid.variable at hv
    split_ifs at hv with h1 h2 h3 h4 h5 <;> (subst var; decide)
  have hends : ∀ {a : Arr Num} {m : ℕ} {f : ℕ → ℝ}, Is1 a (m + 1) f → ∃ s, ends a = .ok s := by
    intro a m f hf
    obtain ⟨x, ex, -⟩ := hf.at (k := 0) (by omega)
    obtain ⟨y, ey, -⟩ := hf.last
    simp only [Nat.cast_zero] at ex
    refine ⟨.tup [x.get [], y.get []], ?_⟩
    simp only [ends, ex, ey, Py.ok_bind]
  obtain ⟨s, hs⟩ : ∃ s, p.extentObj var = .ok s := by
    unfold Grid.variable at hv
    split_ifs at hv with h1 h2 h3 h4 h5 <;> subst var
    · exact hends h.tEdges
    · exact hends h.vEdg
    · exact hends h.zEdges
    · exact ⟨p.rng1, by simp [extentObj]⟩
    · exact ⟨p.rng2, by simp [extentObj]⟩
  have ht : p.getTicks var = .ok (drawnTicks p.ticks var) := by
    unfold Grid.variable at hv
    split_ifs at hv with h1 h2 h3 h4 h5 <;> (subst var; rfl)
  refine ⟨⟨vec n (fun i => .fin (0 + i * ((1 - 0) / ((n : ℝ) - 1)))), arr, drawnTicks p.ticks var, (axisName var).toList⟩, ?_, rfl, ?_,
    rfl, rfl, rfl⟩
  · have hne : ¬ ("discrete".toList : PyStr) = "physical".toList := by decide
    have hlin : linspace 0 1 (([n] : List ℕ).prod : ℕ) = .ok (vec n (fun i => .fin (0 + i * ((1 - 0) / ((n : ℝ) - 1))))) := by
      simp [linspace]
    simp only [plot, hne, if_false, if_true, ha, hlin, hs, Py.ok_bind, ht, axPlot, vec, List.headD_cons, hl]
  · intro k hk
    refine ⟨0 + k * ((1 - 0) / ((n : ℝ) - 1)), rfl, ?_⟩
    have hn0 : (0 : ℝ) < n := by exact_mod_cast hn
    have hk' : (k : ℝ) + 1 ≤ n := by exact_mod_cast hk
    have hk0 : (0 : ℝ) ≤ k := by positivity
    rcases Nat.lt_or_ge 1 n with h1 | h1
    · have h1' : (0 : ℝ) < (n : ℝ) - 1 := by
        have : (1 : ℝ) < n := by exact_mod_cast h1
        linarith
      have e1 : (0 : ℝ) + k * ((1 - 0) / ((n : ℝ) - 1)) = k / ((n : ℝ) - 1) := by ring
      rw [e1]
      constructor
      · rw [div_le_div_iff₀ hn0 h1']
        nlinarith
      · rw [div_le_div_iff₀ h1' hn0]
        push_cast
        nlinarith
    · have : n = 1 := by omega
      subst this
      have : k = 0 := by omega
      subst this
      norm_num

/-- Any other spacing raises `UnboundLocalError`. -/
theorem C61_spacing (var : PyStr) (arr : Arr Num) {s : PyStr} (h1 : s ≠ "physical".toList) (h2 : s ≠ "discrete".toList) :
    p.plot var arr s = .error .unboundLocalError := by
  simp only [plot, h1, h2, if_false]

/-- `plot_spectrum(arr)`: an array as long as the list of wavelengths is drawn against them, else an array as long as the list of
log-wavelengths is drawn against their exponentials, and any other array raises `UnboundLocalError`. -/
theorem C61_spectrum {arr : Arr Num} {n : ℕ} {s : List ℕ} (ha : arr.shape = n :: s) :
    (n = p.lmd.length → ∃ c, p.plotSpectrum arr = .ok c ∧ c.y = arr ∧ Is1 c.x n (fun i => p.lmd.getD i 0)) ∧
    (n ≠ p.lmd.length → n = p.w.length → ∃ c, p.plotSpectrum arr = .ok c ∧ c.y = arr ∧ Is1 c.x n (fun i => Real.exp (p.w.getD i 0))) ∧
    (n ≠ p.lmd.length → n ≠ p.w.length → p.plotSpectrum arr = .error .unboundLocalError) := by
  refine ⟨fun h => ⟨⟨vecOf p.lmd, arr, none, "Wavelength [$\\AA$]".toList⟩, ?_, rfl, ?_⟩,
    fun h1 h2 => ⟨⟨vecOf (p.w.map Real.exp), arr, none, "Wavelength [$\\AA$]".toList⟩, ?_, rfl, ?_⟩, fun h1 h2 => ?_⟩
  · simp only [plotSpectrum, ha, h, if_true]
  · rw [h]; exact vecOf_is p.lmd
  · simp only [plotSpectrum, ha, h1, if_false]
    rw [if_pos h2]
  · have := vecOf_is (p.w.map Real.exp)
    rw [List.length_map, ← h2] at this
    refine this.congr fun i hi => ?_
    rw [List.getD_eq_getElem?_getD, List.getElem?_map, List.getElem?_eq_getElem (by omega)]
    rw [List.getD_eq_getElem?_getD, List.getElem?_eq_getElem (by omega)]
    rfl
  · simp only [plotSpectrum, ha, h1, h2, if_false]

/-- If there are as many wavelengths as log-wavelengths, spectra sampled in log-wavelength are drawn against the wrong wavelengths. -/
theorem C61_ambiguous : ∃ (lmd w : List ℝ), lmd.length = w.length ∧ ∀ p : PlotCube, p.lmd = lmd → p.w = w → ∀ arr : Arr Num,
    arr.shape = [w.length] → ∃ c, p.plotSpectrum arr = .ok c ∧ ∃ k < w.length, c.x.get [k] ≠ .fin (Real.exp (w.getD k 0)) := by
  refine ⟨[1, 2, 4], [0, 1, 2], rfl, fun p h1 h2 arr ha => ?_⟩
  obtain ⟨c, hc, -, hx⟩ := (C61_spectrum (p := p) (s := []) ha).1 (by rw [h1]; rfl)
  refine ⟨c, hc, 1, by norm_num, ?_⟩
  rw [hx.get 1 (by norm_num), h1]
  simp only [List.getD_cons_succ, List.getD_cons_zero]
  intro h
  injection h with h
  have := Real.add_one_lt_exp (one_ne_zero)
  have h3 : (1 : ℝ) + 1 = 2 := by norm_num
  rw [h3] at this
  rw [← h] at this
  exact lt_irrefl _ this

/-! ### Non-vacuity -/

/-- A cube made by the constructor with tuples as ranges, and the default ticks. -/
theorem plot_demo : ∃ p, TupleCube p 2 3 (fun i => (i : ℝ) ^ 2) (fun i => (i : ℝ) ^ 2) 5 6 4 (-1, 1) (0, 3) (-100, 300) := by
  obtain ⟨c, -, h2, -⟩ := C03_constructor demoSSPs_are 5 6 4 (by norm_num) (by norm_num) (by norm_num) (-1, 1) (0, 3) (-100, 300)
  exact ⟨⟨c, .tup [.fin (-1), .fin 1], .tup [.fin 0, .fin 3], ⟨[1], [1], [1 / 2], [1 / 3]⟩, [5000, 5001], [1, 2, 3]⟩, h2, rfl, rfl,
    by norm_num, by norm_num, by norm_num, by norm_num, by norm_num⟩

/-- Instance: an image of age against x2. -/
example : ∃ p : PlotCube, ∃ d m, p.imshow ⟨[2, 6], fun i => .fin (i.getD 0 0)⟩ ["t".toList, "x2".toList] true m = (.ok d, m) ∧
    d.labels = ["$t$ [Gyr]".toList, "$x_2$".toList] := by
  obtain ⟨p, hp⟩ := plot_demo
  obtain ⟨d, h1, -, h2, -⟩ := C53_image hp (v0 := "t".toList) (v1 := "x2".toList) rfl rfl (img := ⟨[2, 6], fun i => .fin (i.getD 0 0)⟩) rfl true
    (fun _ => [])
  exact ⟨p, d, _, h1, h2⟩

/-- Instance: a cube with lists as ranges meets the hypotheses of `C53_stale_extent`. -/
example : ∃ p : PlotCube, ∃ m : Lists, p.rng1 = .lst 0 ∧ p.rng2 = .tup [.fin 0, .fin 3] ∧ m 0 = [.fin (-1), .fin 1] ∧
    Is1 p.cube.vEdg (4 + 1) (evenEdges (-100, 300) 4) := by
  obtain ⟨p, hp⟩ := plot_demo
  exact ⟨{ p with rng1 := .lst 0 }, fun _ => [.fin (-1), .fin 1], rfl, hp.rng2, rfl, hp.cube.vEdg⟩

/-- Instance: four bins rebinned by two, a tick at 2.5. -/
example : ∃ pos, tickPositions [] none (some [5 / 2]) (vec 5 (fun i => .fin i)) 4 = .ok ([5 / 2], [pos]) ∧ 1 / 2 ≤ pos ∧ pos ≤ 1 := by
  have h : Is1 (vec 5 (fun i => .fin (i : ℝ))) (4 + 1) (fun i : ℕ => (i : ℝ)) := ⟨rfl, fun i _ => rfl⟩
  obtain ⟨labels, pos, h1, h2, h3, -⟩ := C60_ticks h (fun i _ => by push_cast; linarith) [] none (some [5 / 2])
  obtain ⟨labels', pos', h1', h4⟩ := C60_rebin_partial (r := 2) (e' := fun i => ((min (i * 2) 4 : ℕ) : ℝ)) h
    (fun i _ => by push_cast; linarith) (by norm_num) (by norm_num) (fun i => rfl) [] none (some [5 / 2])
  have hl : labels = [5 / 2] := by
    rw [h3]
    simp only [Option.getD_some]
    rw [List.filter_cons_of_pos (by norm_num), List.filter_nil]
  subst hl
  rw [h1] at h1'
  injection h1' with h1'
  obtain ⟨rfl, rfl⟩ := Prod.mk.inj h1'
  obtain ⟨a, rfl⟩ : ∃ a, pos = [a] := List.length_eq_one_iff.1 h2
  have := h4 0 (by simp) 1 (by norm_num) (by norm_num) (by norm_num)
  refine ⟨a, h1, ?_, ?_⟩ <;> simp at this <;> linarith

/-- Instance: the demonstration data with ages rebinned by two. -/
example : ∃ g' t' z' S' ticks, sspTicks demoData 2 1 = .ok (g', ticks) ∧ GridIs g' 2 ⌈((4 : ℕ) : ℚ) / (2 : ℕ)⌉₊ ⌈((3 : ℕ) : ℚ) / (1 : ℕ)⌉₊ t' z' S' ∧
    Placed ticks.t ticks.imgT ⌈((4 : ℕ) : ℚ) / (2 : ℕ)⌉₊ t' := by
  obtain ⟨g, h1, h2, -⟩ := init0_is (nt := 2) (nz := 1) demoData_are (by norm_num) (by norm_num)
  obtain ⟨g', t', z', S', ticks, a, b, c, -⟩ := C60_new_partial h1 h2 (edgeOf_lt demo_z.1 demo_z.2) (edgeOf_lt demo_t.1 demo_t.2) (ageRebin := 2) (zRebin := 1) (by norm_num)
    (by norm_num) (by norm_num) (by norm_num) (by norm_num)
  exact ⟨g', t', z', S', ticks, a, b, c (by norm_num)⟩

end PKM
