import Verif.CubeLemmas

/-! Lemmas: what `IFUCube(...)` establishes. -/

open scoped Classical

noncomputable section

namespace PKM
open Np

/-- Attributes of an SSP object with `nt` age bins with edges `t` and `nz` metallicity bins with
edges `z` (established by `milesSSPs.__init__`, see `Verif/Ssp.lean`). -/
structure SspsAre (s : SSPs) (nt nz : ℕ) (t z : ℕ → ℝ) : Prop where
  tEdges : Is1 s.tEdges (nt + 1) t
  zEdges : Is1 s.zEdges (nz + 1) z
  tCents : Is1 s.tCents nt (centre t)
  zCents : Is1 s.zCents nz (centre z)
  deltaT : Is1 s.deltaT nt (width t)
  deltaZ : Is1 s.deltaZ nz (width z)

/-- Edges of `n` equal bins of the interval `r`. -/
def evenEdges (r : ℝ × ℝ) (n : ℕ) (i : ℕ) : ℝ := r.1 + i * ((r.2 - r.1) / n)

/-- The grid of a cube with equal bins in x1, x2, v over the given ranges. -/
def cubeGrid (nt nz : ℕ) (t z : ℕ → ℝ) (nx ny nv : ℕ) (x1rng x2rng vrng : ℝ × ℝ) : Grid where
  nt := nt
  nv := nv
  nx := nx
  ny := ny
  nz := nz
  t := t
  v := evenEdges vrng nv
  x := evenEdges x1rng nx
  y := evenEdges x2rng ny
  z := z

theorem linspace_is (r : ℝ × ℝ) (n : ℕ) :
    ∃ a, linspace r.1 r.2 (n + 1) = .ok a ∧ Is1 a (n + 1) (evenEdges r n) := by
  refine ⟨vec (n + 1) (fun i => .fin (r.1 + i * ((r.2 - r.1) / n))), ?_, rfl, fun i _ => rfl⟩
  have h1 : ¬ ((n : ℤ) + 1 < 0) := by omega
  have h2 : ((n : ℤ) + 1).toNat = n + 1 := by omega
  simp [linspace, h1, h2]

theorem width_even (r : ℝ × ℝ) (n i : ℕ) : width (evenEdges r n) i = (r.2 - r.1) / n := by
  simp [width, evenEdges]; ring

theorem centre_even (r : ℝ × ℝ) (n i : ℕ) :
    centre (evenEdges r n) i = evenEdges r n i + (r.2 - r.1) / n / 2 := by
  simp [centre, evenEdges]; ring

/-- The block of lines computing one spatial axis (ifu_cube.py:36-41). -/
def axisBlock (r : ℝ × ℝ) (num : ℤ) : Py (Arr Num × Arr Num) := do
  let x_edge ← linspace r.1 r.2 num
  let a ← getitem [.at 1] x_edge
  let b ← getitem [.at 0] x_edge
  let dx ← sub a b
  let h ← getitem [.sl 0 (some (-1))] x_edge
  let x ← add h (map (fun d => d / .fin 2) dx)
  .ok (dx, x)

/-- Zero-dimensional array holding a finite number. -/
structure Is0 (a : Arr Num) (x : ℝ) : Prop where
  shape : a.shape = []
  get : a.get [] = .fin x

theorem Is1.at {a : Arr Num} {n : ℕ} {f : ℕ → ℝ} (h : Is1 a n f) {k : ℕ} (hk : k < n) :
    ∃ r, getitem [.at k] a = .ok r ∧ Is0 r (f k) := by
  refine ⟨⟨[], fun i => a.get (ixIdx [.at k] [n] i)⟩, ?_, rfl, ?_⟩
  · have h1 : (k : ℤ) < n := by omega
    have h2 : ¬ (k : ℤ) < 0 := by omega
    simp [getitem, ixShape, h.shape, h1, h2]
  · have h2 : ¬ (k : ℤ) < 0 := by omega
    simp [ixIdx, h2, h.get k hk]

theorem Is1.last {a : Arr Num} {n : ℕ} {f : ℕ → ℝ} (h : Is1 a (n + 1) f) :
    ∃ r, getitem [.at (-1)] a = .ok r ∧ Is0 r (f n) := by
  refine ⟨⟨[], fun i => a.get (ixIdx [.at (-1)] [n + 1] i)⟩, ?_, rfl, ?_⟩
  · simp [getitem, ixShape, h.shape]
  · simp [ixIdx, h.get n (by omega)]

theorem Is1.init {a : Arr Num} {n : ℕ} {f : ℕ → ℝ} (h : Is1 a (n + 1) f) :
    ∃ r, getitem [.sl 0 (some (-1))] a = .ok r ∧ Is1 r n f := by
  refine ⟨⟨[n], fun i => a.get (ixIdx [.sl 0 (some (-1))] [n + 1] i)⟩, ?_, rfl, ?_⟩
  · simp [getitem, ixShape, h.shape, slLen, slStop, slStart]
  · intro i hi
    simp [ixIdx, slStart, h.get i (by omega)]

theorem Is1.tail {a : Arr Num} {n : ℕ} {f : ℕ → ℝ} (h : Is1 a (n + 1) f) :
    ∃ r, getitem [.sl 1 none] a = .ok r ∧ Is1 r n (fun i => f (i + 1)) := by
  refine ⟨⟨[n], fun i => a.get (ixIdx [.sl 1 none] [n + 1] i)⟩, ?_, rfl, ?_⟩
  · simp [getitem, ixShape, h.shape, slLen, slStop, slStart]
  · intro i hi
    simp [ixIdx, slStart, add_comm 1 i, h.get (i + 1) (by omega)]

theorem Is0.bop {a b : Arr Num} {x y z : ℝ} (op : Num → Num → Num) (ha : Is0 a x) (hb : Is0 b y)
    (hop : op (.fin x) (.fin y) = .fin z) : ∃ r, Np.bop op a b = .ok r ∧ Is0 r z := by
  refine ⟨⟨[], fun i => op (a.get (bproj a.shape i)) (b.get (bproj b.shape i))⟩, ?_, rfl, ?_⟩
  · simp [Np.bop, ha.shape, hb.shape]
  · simp [ha.shape, hb.shape, bproj, ha.get, hb.get, hop]

theorem Is1.bop {a b : Arr Num} {n : ℕ} {f k m : ℕ → ℝ} (op : Num → Num → Num) (ha : Is1 a n f)
    (hb : Is1 b n k) (hop : ∀ i < n, op (.fin (f i)) (.fin (k i)) = .fin (m i)) :
    ∃ r, Np.bop op a b = .ok r ∧ Is1 r n m := by
  refine ⟨⟨[n], fun i => op (a.get (bproj a.shape i)) (b.get (bproj b.shape i))⟩, ?_, rfl, ?_⟩
  · simp [Np.bop, ha.shape, hb.shape, bshapeR]
  · intro i hi
    simp [ha.shape, hb.shape, bproj, bidx_lt hi, ha.get i hi, hb.get i hi, hop i hi]

theorem Is1.bop0 {a b : Arr Num} {n : ℕ} {f m : ℕ → ℝ} {y : ℝ} (op : Num → Num → Num) (ha : Is1 a n f)
    (hb : Is0 b y) (hop : ∀ i < n, op (.fin (f i)) (.fin y) = .fin (m i)) :
    ∃ r, Np.bop op a b = .ok r ∧ Is1 r n m := by
  refine ⟨⟨[n], fun i => op (a.get (bproj a.shape i)) (b.get (bproj b.shape i))⟩, ?_, rfl, ?_⟩
  · simp [Np.bop, ha.shape, hb.shape]
  · intro i hi
    simp [ha.shape, hb.shape, bproj, bidx_lt hi, ha.get i hi, hb.get, hop i hi]

theorem Is1.map {a : Arr Num} {n : ℕ} {f m : ℕ → ℝ} (op : Num → Num) (ha : Is1 a n f)
    (hop : ∀ i < n, op (.fin (f i)) = .fin (m i)) : Is1 (Np.map op a) n m :=
  ⟨ha.shape, fun i hi => by simp [Np.map, ha.get i hi, hop i hi]⟩

theorem Is0.map {a : Arr Num} {x y : ℝ} (op : Num → Num) (ha : Is0 a x)
    (hop : op (.fin x) = .fin y) : Is0 (Np.map op a) y :=
  ⟨ha.shape, by simp [Np.map, ha.get, hop]⟩

theorem Is1.congr {a : Arr Num} {n : ℕ} {f k : ℕ → ℝ} (h : Is1 a n f) (e : ∀ i < n, f i = k i) :
    Is1 a n k := ⟨h.shape, fun i hi => by rw [h.get i hi, e i hi]⟩

theorem Is0.scalar (x : ℝ) : Is0 (Np.scalar (.fin x)) x := ⟨rfl, rfl⟩

theorem axisBlock_is (r : ℝ × ℝ) (n : ℕ) (hn : 0 < n) :
    ∃ dx x, axisBlock r (n + 1) = .ok (dx, x) ∧ Is0 dx ((r.2 - r.1) / n) ∧
      Is1 x n (centre (evenEdges r n)) := by
  obtain ⟨a, ha, h⟩ := linspace_is r n
  obtain ⟨a1, e1, h1⟩ := h.at (k := 1) (by omega)
  obtain ⟨a0, e0, h0⟩ := h.at (k := 0) (by omega)
  obtain ⟨d, ed, hd⟩ := h1.bop (· - ·) h0 (z := (r.2 - r.1) / n) (by
    rw [Num.fin_sub]; congr 1; exact width_even r n 0)
  obtain ⟨b, eb, hb⟩ := h.init
  have hm := hd.map (fun d => d / .fin 2) (y := (r.2 - r.1) / n / 2) (Num.fin_div _ _ (by norm_num))
  obtain ⟨x, ex, hx⟩ := hb.bop0 (· + ·) hm (m := centre (evenEdges r n)) (by
    intro i _; rw [Num.fin_add, centre_even])
  refine ⟨d, x, ?_, hd, hx⟩
  simp only [Nat.cast_one, Nat.cast_zero] at e1 e0
  simp [axisBlock, ha, e1, e0, sub, ed, eb, add, ex]

theorem init_eq (ssps : SSPs) (nx1 nx2 nv : ℤ) (x1rng x2rng vrng : ℝ × ℝ) :
    IFUCube.init ssps nx1 nx2 nv x1rng x2rng vrng = (do
      let (dx, x) ← axisBlock x1rng (nx1 + 1)
      let (dy, y) ← axisBlock x2rng (nx2 + 1)
      let v_edg ← linspace vrng.1 vrng.2 (nv + 1)
      let a ← getitem [.at 1] v_edg
      let b ← getitem [.at 0] v_edg
      let _dv ← sub a b
      .ok { ssps := ssps, nx := nx1.toNat, ny := nx2.toNat, x1rng := x1rng, x2rng := x2rng,
            dx := dx.get [], dy := dy.get [], x := x, y := y, nv := nv.toNat, vEdg := v_edg }) := by
  simp only [IFUCube.init, axisBlock, bind_assoc, Py.ok_bind]

/-- Construction succeeds for positive bin counts and the cube represents the even grid. -/
theorem init_is {s : SSPs} {nt nz : ℕ} {t z : ℕ → ℝ} (hs : SspsAre s nt nz t z) (nx ny nv : ℕ)
    (hx : 0 < nx) (hy : 0 < ny) (hv : 0 < nv) (x1rng x2rng vrng : ℝ × ℝ) :
    ∃ c, IFUCube.init s nx ny nv x1rng x2rng vrng = .ok c ∧
      CubeIs c (cubeGrid nt nz t z nx ny nv x1rng x2rng vrng) ∧ c.ssps = s ∧
      c.x1rng = x1rng ∧ c.x2rng = x2rng := by
  obtain ⟨dx, x, e1, h1, h1'⟩ := axisBlock_is x1rng nx hx
  obtain ⟨dy, y, e2, h2, h2'⟩ := axisBlock_is x2rng ny hy
  obtain ⟨v, ev, hv'⟩ := linspace_is vrng nv
  obtain ⟨a1, ea1, ha1⟩ := hv'.at (k := 1) (by omega)
  obtain ⟨a0, ea0, ha0⟩ := hv'.at (k := 0) (by omega)
  obtain ⟨d, ed, hd⟩ := ha1.bop (· - ·) ha0 (Num.fin_sub _ _)
  simp only [Nat.cast_one, Nat.cast_zero] at ea1 ea0
  refine ⟨⟨s, nx, ny, x1rng, x2rng, dx.get [], dy.get [], x, y, nv, v⟩, ?_, ?_, rfl, rfl, rfl⟩
  · rw [init_eq]
    simp [e1, e2, ev, ea1, ea0, sub, ed]
  · exact {
      tEdges := hs.tEdges
      zEdges := hs.zEdges
      tCents := hs.tCents
      zCents := hs.zCents
      deltaT := hs.deltaT
      deltaZ := hs.deltaZ
      vEdg := hv'
      x := h1'
      y := h2'
      dx := fun i _ => by rw [h1.get]; exact congrArg _ (width_even x1rng nx i).symm
      dy := fun i _ => by rw [h2.get]; exact congrArg _ (width_even x2rng ny i).symm
      nx := rfl
      ny := rfl }

/-- A spatial axis without bins, or a negative number of bins, raises. -/
theorem axisBlock_err (r : ℝ × ℝ) (num : ℤ) (h : num < 2) :
    axisBlock r num = .error (if num < 0 then .valueError else .indexError) := by
  unfold axisBlock linspace
  split
  · rfl
  · next hn =>
    have : num = 0 ∨ num = 1 := by omega
    rcases this with rfl | rfl <;> simp [getitem, ixShape, vec]

end PKM
