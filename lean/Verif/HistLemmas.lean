import Verif.Particle
import Verif.Props.Base

/-! Lemmas about the histogram of particles. -/

open scoped Classical

noncomputable section

namespace PKM
open Np

/-! ### Specification -/

/-- A star particle: position in the five dimensions (possibly nan or infinite) and mass. -/
structure Star where
  t : Num
  v : Num
  x : Num
  y : Num
  z : Num
  mass : ℝ

/-- The value lies in bin `i` of the `n` bins with edges `e`: bins are half-open, the last one is closed. -/
def InBin (e : ℕ → ℝ) (n i : ℕ) (x : Num) : Prop :=
  ∃ r, x = .fin r ∧ e i ≤ r ∧ (r < e (i + 1) ∨ (i + 1 = n ∧ r = e n))

/-- The value lies in the range of the bins. -/
def InRange (e : ℕ → ℝ) (n : ℕ) (x : Num) : Prop := ∃ r, x = .fin r ∧ e 0 ≤ r ∧ r ≤ e n

/-- The particle lies in the cell. -/
def Grid.inCell (g : Grid) (c : Cell) (s : Star) : Prop :=
  InBin g.t g.nt c.t s.t ∧ InBin g.v g.nv c.v s.v ∧ InBin g.x g.nx c.x s.x ∧ InBin g.y g.ny c.y s.y ∧ InBin g.z g.nz c.z s.z

/-- The particle lies in the region covered by the grid. -/
def Grid.inRange (g : Grid) (s : Star) : Prop :=
  InRange g.t g.nt s.t ∧ InRange g.v g.nv s.v ∧ InRange g.x g.nx s.x ∧ InRange g.y g.ny s.y ∧ InRange g.z g.nz s.z

/-- Mass in a cell. -/
def Grid.massIn (g : Grid) (S : List Star) (c : Cell) : ℝ := (S.map fun s => if g.inCell c s then s.mass else 0).sum

/-- Mass in the region covered by the grid. -/
def Grid.massCovered (g : Grid) (S : List Star) : ℝ := (S.map fun s => if g.inRange s then s.mass else 0).sum

/-! ### Bins -/

variable {e : Arr Num} {f : ℕ → ℝ} {n i : ℕ}

theorem incr_le (h : ∀ k < n, f k < f (k + 1)) {a b : ℕ} (hab : a ≤ b) (hb : b ≤ n) : f a ≤ f b := by
  induction b with
  | zero => simp_all
  | succ b ih =>
    rcases Nat.lt_or_ge a (b + 1) with h1 | h1
    · exact (ih (by omega) (by omega)).trans (h b (by omega)).le
    · obtain rfl : a = b + 1 := by omega
      exact le_rfl

theorem incr_lt (h : ∀ k < n, f k < f (k + 1)) {a b : ℕ} (hab : a < b) (hb : b ≤ n) : f a < f b :=
  (h a (by omega)).trans_le (incr_le h hab hb)

theorem countP_threshold (p : ℕ → Prop) (m N : ℕ) (hm : m ≤ N) (h1 : ∀ k < m, p k) (h2 : ∀ k, m ≤ k → k < N → ¬p k) :
    (List.range N).countP (fun k => p k) = m := by
  induction N with
  | zero => simp; omega
  | succ N ih =>
    rw [List.range_succ, List.countP_append]
    rcases Nat.lt_or_ge N m with h | h
    · obtain rfl : m = N + 1 := by omega
      have : (List.range N).countP (fun k => p k) = N := by
        rw [List.countP_eq_length.2]
        · simp
        · intro k hk; simp at hk ⊢; exact h1 k (by omega)
      rw [this]
      simp [h1 N (by omega)]
    · rw [ih h (fun k hk hk' => h2 k hk (by omega))]
      simp [h2 N h (by omega)]

theorem searchRight_spec (he : Is1 e (n + 1) f) (hf : ∀ k < n, f k < f (k + 1)) (r : ℝ) (m : ℕ) (hm : m ≤ n + 1)
    (h1 : ∀ k < m, f k ≤ r) (h2 : m ≤ n → r < f m) : searchRight e (.fin r) = m := by
  unfold searchRight
  have hs : e.shape.headD 0 = n + 1 := by rw [he.shape]; rfl
  simp only [reduceCtorEq, if_false, hs]
  refine countP_threshold (fun k => Num.le (e.get [k]) (.fin r)) m (n + 1) hm ?_ ?_
  · intro k hk
    rw [he.get k (by omega)]
    exact h1 k hk
  · intro k hk hk'
    rw [he.get k hk']
    show ¬ f k ≤ r
    have := incr_le hf hk (by omega : k ≤ n)
    have := h2 (by omega)
    linarith

/-- Where a finite value lies. -/
theorem locate (hf : ∀ k < n, f k < f (k + 1)) (r : ℝ) : r < f 0 ∨ (∃ i < n, f i ≤ r ∧ r < f (i + 1)) ∨ f n ≤ r := by
  induction n with
  | zero => rcases lt_or_ge r (f 0) with h | h <;> tauto
  | succ n ih =>
    rcases ih (fun k hk => hf k (by omega)) with h | ⟨i, h1, h2⟩ | h
    · exact Or.inl h
    · exact Or.inr (Or.inl ⟨i, by omega, h2⟩)
    · rcases lt_or_ge r (f (n + 1)) with h' | h'
      · exact Or.inr (Or.inl ⟨n, by omega, h, h'⟩)
      · exact Or.inr (Or.inr h')

theorem InBin.unique (hf : ∀ k < n, f k < f (k + 1)) {i j : ℕ} (hi : i < n) (hj : j < n) {x : Num} (h : InBin f n i x)
    (h' : InBin f n j x) : i = j := by
  obtain ⟨r, rfl, h1, h2⟩ := h
  obtain ⟨r', e, h3, h4⟩ := h'
  obtain rfl : r = r' := by simpa using e
  have key : ∀ a b : ℕ, a < b → b < n → (r < f (a + 1) ∨ (a + 1 = n ∧ r = f n)) → f b ≤ r → False := by
    intro a b hab hb h h'
    rcases h with h | ⟨h, -⟩
    · have := incr_le hf (a := a + 1) (b := b) (by omega) (by omega); linarith
    · omega
  rcases Nat.lt_trichotomy i j with h | h | h
  · exact (key i j h hj h2 h3).elim
  · exact h
  · exact (key j i h hi h4 h1).elim

theorem binNumber_inBin (he : Is1 e (n + 1) f) (hf : ∀ k < n, f k < f (k + 1)) (hi : i < n) {x : Num}
    (h : InBin f n i x) : binNumber e x = i + 1 := by
  obtain ⟨r, rfl, h1, h2⟩ := h
  have hs : e.shape.headD 0 = n + 1 := by rw [he.shape]; rfl
  unfold binNumber
  rw [hs, Nat.add_sub_cancel, he.get n (by omega)]
  rcases h2 with h2 | ⟨rfl, rfl⟩
  · have : ¬ Num.eqv (.fin r) (.fin (f n)) := by
      rintro ⟨-, e⟩
      have e : r = f n := by simpa using e
      have := incr_le hf (a := i + 1) (b := n) (by omega) le_rfl
      linarith
    simp only [this, if_false]
    exact searchRight_spec he hf r (i + 1) (by omega) (fun k hk => (incr_le hf (by omega) (by omega)).trans h1) (fun _ => h2)
  · have : Num.eqv (.fin (f (i + 1))) (.fin (f (i + 1))) := ⟨by simp, rfl⟩
    simp only [this, if_true]
    rw [searchRight_spec he hf _ (i + 2) (by omega) (fun k hk => incr_le hf (by omega) le_rfl) (fun h => by omega)]
    rfl

theorem exists_bin (hn : 0 < n) (hf : ∀ k < n, f k < f (k + 1)) {x : Num} (h : InRange f n x) : ∃ i < n, InBin f n i x := by
  obtain ⟨r, rfl, h1, h2⟩ := h
  rcases locate hf r with h | ⟨i, hi, h3, h4⟩ | h
  · linarith
  · exact ⟨i, hi, r, rfl, h3, Or.inl h4⟩
  · refine ⟨n - 1, by omega, r, rfl, (incr_le hf (by omega) le_rfl).trans h, Or.inr ⟨by omega, le_antisymm h2 h⟩⟩

theorem InBin.inRange (hf : ∀ k < n, f k < f (k + 1)) (hi : i < n) {x : Num} (h : InBin f n i x) : InRange f n x := by
  obtain ⟨r, rfl, h1, h2⟩ := h
  refine ⟨r, rfl, (incr_le hf (Nat.zero_le _) (by omega)).trans h1, ?_⟩
  rcases h2 with h2 | ⟨-, rfl⟩
  · exact h2.le.trans (incr_le hf (by omega) le_rfl)
  · exact le_rfl

theorem binNumber_outside (he : Is1 e (n + 1) f) (hf : ∀ k < n, f k < f (k + 1)) {x : Num} (h : ¬ InRange f n x)
    (hi : i < n) : binNumber e x ≠ i + 1 := by
  have hs : e.shape.headD 0 = n + 1 := by rw [he.shape]; rfl
  have hne : ¬ Num.eqv x (.fin (f n)) := by
    rintro ⟨-, rfl⟩
    exact h ⟨f n, rfl, incr_le hf (Nat.zero_le _) le_rfl, le_rfl⟩
  unfold binNumber
  rw [hs, Nat.add_sub_cancel, he.get n (by omega)]
  simp only [hne, if_false]
  cases x with
  | fin r =>
    rcases lt_or_ge r (f 0) with h1 | h1
    · rw [searchRight_spec he hf r 0 (by omega) (by simp) (fun _ => h1)]; omega
    · have h2 : f n < r := by
        by_contra h2
        exact h ⟨r, rfl, h1, not_lt.1 h2⟩
      rw [searchRight_spec he hf r (n + 1) le_rfl (fun k hk => (incr_le hf (by omega) le_rfl).trans h2.le) (fun h => by omega)]
      omega
  | nan => simp only [searchRight, if_true, hs]; omega
  | pinf =>
    have : searchRight e .pinf = n + 1 := by
      simp only [searchRight, reduceCtorEq, if_false, hs]
      refine countP_threshold (fun k => Num.le (e.get [k]) .pinf) (n + 1) (n + 1) le_rfl ?_ (by omega)
      intro k hk; rw [he.get k hk]; trivial
    omega
  | ninf =>
    have : searchRight e .ninf = 0 := by
      simp only [searchRight, reduceCtorEq, if_false, hs]
      refine countP_threshold (fun k => Num.le (e.get [k]) .ninf) 0 (n + 1) (by omega) (by omega) ?_
      intro k _ hk; rw [he.get k hk]; exact id
    omega

/-- The bin number is right. -/
theorem binNumber_iff (hn : 0 < n) (he : Is1 e (n + 1) f) (hf : ∀ k < n, f k < f (k + 1)) (hi : i < n) (x : Num) :
    binNumber e x = i + 1 ↔ InBin f n i x := by
  constructor
  · intro h
    by_cases hr : InRange f n x
    · obtain ⟨j, hj, h'⟩ := exists_bin hn hf hr
      have := binNumber_inBin he hf hj h'
      obtain rfl : i = j := by omega
      exact h'
    · exact (binNumber_outside he hf hr hi h).elim
  · exact binNumber_inBin he hf hi

theorem sum_inBin (hn : 0 < n) (hf : ∀ k < n, f k < f (k + 1)) (x : Num) (w : ℝ) :
    ∑ i : Fin n, (if InBin f n i x then w else 0) = if InRange f n x then w else 0 := by
  by_cases hr : InRange f n x
  · obtain ⟨j, hj, h⟩ := exists_bin hn hf hr
    rw [Finset.sum_eq_single ⟨j, hj⟩]
    · simp [h, hr]
    · intro b _ hb
      have : ¬ InBin f n b x := fun h' => hb (Fin.ext (h'.unique hf b.2 hj h))
      simp [this]
    · simp
  · simp only [hr, if_false]
    refine Finset.sum_eq_zero fun i _ => ?_
    have : ¬ InBin f n i x := fun h => hr (h.inRange hf i.2)
    simp [this]

/-! ### Cells -/

variable {g : Grid}

theorem sum_inCell (hg : g.Proper) (s : Star) (w : ℝ) :
    g.sumCells (fun c => if g.inCell c s then w else 0) = if g.inRange s then w else 0 := by
  have e : ∀ c, (if g.inCell c s then w else 0) =
      if InBin g.t g.nt c.t s.t then (if InBin g.v g.nv c.v s.v then (if InBin g.x g.nx c.x s.x then
        (if InBin g.y g.ny c.y s.y then (if InBin g.z g.nz c.z s.z then w else 0) else 0) else 0) else 0) else 0 := by
    intro c
    simp only [Grid.inCell]
    by_cases h1 : InBin g.t g.nt c.t s.t <;> by_cases h2 : InBin g.v g.nv c.v s.v <;>
      by_cases h3 : InBin g.x g.nx c.x s.x <;> by_cases h4 : InBin g.y g.ny c.y s.y <;> simp [h1, h2, h3, h4]
  have pull : ∀ {m : ℕ} (P : Prop) (F : Fin m → ℝ), ∑ i, (if P then F i else 0) = if P then ∑ i, F i else 0 := by
    intro m P F; split <;> simp
  simp only [Grid.sumCells, e, pull, sum_inBin hg.nz hg.z, sum_inBin hg.ny hg.y, sum_inBin hg.nx hg.x,
    sum_inBin hg.nv hg.v, sum_inBin hg.nt hg.t]
  simp only [Grid.inRange]
  by_cases h1 : InRange g.t g.nt s.t <;> by_cases h2 : InRange g.v g.nv s.v <;>
    by_cases h3 : InRange g.x g.nx s.x <;> by_cases h4 : InRange g.y g.ny s.y <;> simp [h1, h2, h3, h4]

theorem sumCells_add (g : Grid) (F G : Cell → ℝ) : g.sumCells (fun c => F c + G c) = g.sumCells F + g.sumCells G := by
  simp only [Grid.sumCells, Finset.sum_add_distrib]

theorem sum_massIn (hg : g.Proper) (S : List Star) : g.sumCells (g.massIn S) = g.massCovered S := by
  induction S with
  | nil => simp [Grid.massIn, Grid.massCovered, Grid.sumCells]
  | cons s S ih =>
    have e : g.massIn (s :: S) = fun c => (if g.inCell c s then s.mass else 0) + g.massIn S c := by
      funext c; simp [Grid.massIn]
    rw [e, sumCells_add, ih, sum_inCell hg]
    simp [Grid.massCovered]

/-! ### The constructor -/

/-- The data arrays passed to the constructor. -/
def starData (S : List Star) : List (List Num) := [S.map (·.t), S.map (·.v), S.map (·.x), S.map (·.y), S.map (·.z)]

theorem map_range_getD {α β : Type} (l : List α) (d : α) (F : α → β) :
    (List.range l.length).map (fun k => F (l.getD k d)) = l.map F := by
  refine List.ext_getElem (by simp) fun k h1 h2 => ?_
  simp at h1 h2 ⊢
  simp [h1]

theorem histRows_none (S : List Star) : histRows (starData S) none S.length =
    S.map fun s => ([s.t, s.v, s.x, s.y, s.z], .fin 1) := by
  refine Eq.trans ?_ (map_range_getD S ⟨.nan, .nan, .nan, .nan, .nan, 0⟩ _)
  refine List.map_congr_left fun k hk => ?_
  simp at hk
  simp [starData, hk]

theorem histRows_some (S : List Star) : histRows (starData S) (some (S.map fun s => .fin s.mass)) S.length =
    S.map fun s => ([s.t, s.v, s.x, s.y, s.z], .fin s.mass) := by
  refine Eq.trans ?_ (map_range_getD S ⟨.nan, .nan, .nan, .nan, .nan, 0⟩ _)
  refine List.map_congr_left fun k hk => ?_
  simp at hk
  simp [starData, hk]

theorem sum_fin_list {α : Type} (l : List α) (F : α → ℝ) : (l.map fun a => Num.fin (F a)).sum = .fin (l.map F).sum := by
  induction l with
  | nil => rfl
  | cons a l ih => simp [ih]

/-- What was printed. -/
def Grid.report (g : Grid) (S : List Star) : LossReport where
  nLost := S.countP (fun s => ¬ g.inRange s)
  nTotal := S.length
  perVar := [(g.t, g.nt, fun s : Star => s.t), (g.v, g.nv, fun s => s.v), (g.x, g.nx, fun s => s.x), (g.y, g.ny, fun s => s.y),
    (g.z, g.nz, fun s => s.z)].map fun q =>
      (S.countP (fun s => Num.lt (q.2.2 s) (.fin (q.1 0))), S.countP (fun s => Num.lt (.fin (q.1 q.2.1)) (q.2.2 s)))

theorem inRange_iff (f : ℕ → ℝ) (n : ℕ) (x : Num) : (Num.le (.fin (f 0)) x ∧ Num.le x (.fin (f n))) ↔ InRange f n x := by
  unfold InRange
  cases x <;> simp [Num.le]

theorem fromParticle_eval {cube : IFUCube} (hc : CubeIs cube g) (hg : g.Proper) (S : List Star) (W : Option (List Num))
    (hl : ∀ w ∈ W, w.length = S.length)
    (hW : histRows (starData S) W S.length = S.map fun s => ([s.t, s.v, s.x, s.y, s.z], .fin s.mass)) :
    ∃ stored, fromParticle cube (S.map (·.t)) (S.map (·.v)) (S.map (·.x)) (S.map (·.y)) (S.map (·.z)) W =
      .ok (stored, g.report S) ∧ IsArr g ['t','v','x','z'] stored (fun c =>
        Num.log (.fin (g.massIn S c / g.cellVolume c) / .fin (g.massCovered S))) := by
  obtain ⟨⟨et, et1, et2, et3⟩, -⟩ := C03_values_edges hc hg ['t'] g.nt g.t rfl
  obtain ⟨⟨ev, ev1, ev2, ev3⟩, -⟩ := C03_values_edges hc hg ['v'] g.nv g.v rfl
  obtain ⟨⟨ex, ex1, ex2, ex3⟩, -⟩ := C03_values_edges hc hg ['x','1'] g.nx g.x rfl
  obtain ⟨⟨ey, ey1, ey2, ey3⟩, -⟩ := C03_values_edges hc hg ['x','2'] g.ny g.y rfl
  obtain ⟨⟨ez, ez1, ez2, ez3⟩, -⟩ := C03_values_edges hc hg ['z'] g.nz g.z rfl
  have it : Is1 et (g.nt + 1) g.t := ⟨et2, et3⟩
  have iv : Is1 ev (g.nv + 1) g.v := ⟨ev2, ev3⟩
  have ix : Is1 ex (g.nx + 1) g.x := ⟨ex2, ex3⟩
  have iy : Is1 ey (g.ny + 1) g.y := ⟨ey2, ey3⟩
  have iz : Is1 ez (g.nz + 1) g.z := ⟨ez2, ez3⟩
  have hE : [['t'], ['v'], ['x','1'], ['x','2'], ['z']].mapM cube.getVariableEdges = .ok [et, ev, ex, ey, ez] := by
    simp [List.mapM_cons, et1, ev1, ex1, ey1, ez1]
  -- entries of the histogram
  have hh : ∀ t v x y z, g.Has ⟨t, v, x, y, z⟩ → (S.map fun s => if List.zipWith binNumber [et, ev, ex, ey, ez]
      [s.t, s.v, s.x, s.y, s.z] = [t, v, x, y, z].map (· + 1) then Num.fin s.mass else 0).sum = .fin (g.massIn S ⟨t, v, x, y, z⟩) := by
    intro t v x y z hc
    rw [Grid.massIn, ← sum_fin_list]
    congr 1
    refine List.map_congr_left fun s _ => ?_
    have e : (List.zipWith binNumber [et, ev, ex, ey, ez] [s.t, s.v, s.x, s.y, s.z] = [t, v, x, y, z].map (· + 1)) ↔
        g.inCell ⟨t, v, x, y, z⟩ s := by
      simp only [List.zipWith_cons_cons, List.zipWith_nil_right, List.map_cons, List.map_nil, List.cons.injEq, and_true,
        binNumber_iff hg.nt it hg.t hc.1, binNumber_iff hg.nv iv hg.v hc.2.1, binNumber_iff hg.nx ix hg.x hc.2.2.1,
        binNumber_iff hg.ny iy hg.y hc.2.2.2.1, binNumber_iff hg.nz iz hg.z hc.2.2.2.2, Grid.inCell]
    simp only [e]
    split <;> rfl
  let hist : List ℕ → Num := fun i =>
    (S.map fun s => if List.zipWith binNumber [et, ev, ex, ey, ez] [s.t, s.v, s.x, s.y, s.z] = i.map (· + 1) then Num.fin s.mass else 0).sum
  have hsum : sumShape [g.nt, g.nv, g.nx, g.ny, g.nz] hist = .fin (g.massCovered S) := by
    have := sumAll_tvxz (g := g) (A := ⟨[g.nt, g.nv, g.nx, g.ny, g.nz], hist⟩) (f := g.massIn S)
      ⟨rfl, fun c hc => hh c.t c.v c.x c.y c.z hc⟩
    have := congrArg (fun a => a.get []) this
    rw [← sum_massIn hg]
    exact this
  let P : Arr Num := ⟨[g.nt, g.nv, g.nx, g.ny, g.nz], fun i => divWidths [et, ev, ex, ey, ez] i (hist i) / .fin (g.massCovered S)⟩
  have hP : histogramdd (starData S) [et, ev, ex, ey, ez] W = .ok P := by
    have n1 : ((starData S).headD []).length = S.length := by simp [starData]
    have n2 : ¬ ∃ s ∈ starData S, s.length ≠ S.length := by simp [starData]
    have n3 : ¬ ∃ w ∈ W, w.length ≠ S.length := by simpa using hl
    have mono : ∀ {e : Arr Num} {n : ℕ} {f : ℕ → ℝ}, Is1 e (n + 1) f → (∀ k < n, f k < f (k + 1)) →
        ∀ i, i + 1 < e.shape.headD 0 → ¬ Num.lt (e.get [i + 1]) (e.get [i]) := by
      intro e n f he hf i hi
      rw [he.shape] at hi
      simp at hi
      rw [he.get _ (by omega), he.get _ (by omega)]
      exact not_lt.2 (hf i (by omega)).le
    have n4 : ¬ ∃ e ∈ [et, ev, ex, ey, ez], ∃ i, i + 1 < e.shape.headD 0 ∧ Num.lt (e.get [i + 1]) (e.get [i]) := by
      rintro ⟨e, he, i, h1, h2⟩
      simp only [List.mem_cons, List.not_mem_nil, or_false] at he
      rcases he with rfl | rfl | rfl | rfl | rfl
      · exact mono it hg.t i h1 h2
      · exact mono iv hg.v i h1 h2
      · exact mono ix hg.x i h1 h2
      · exact mono iy hg.y i h1 h2
      · exact mono iz hg.z i h1 h2
    have n5 : [et, ev, ex, ey, ez].map (fun e => e.shape.headD 0 - 1) = [g.nt, g.nv, g.nx, g.ny, g.nz] := by
      simp [et2, ev2, ex2, ey2, ez2]
    simp only [histogramdd, n1, n2, n3, n4, if_false, n5, hW, List.map_map, Function.comp_def]
    simp only [P, hist, ← hsum]
  have hinit : Component.init cube (map Num.log P) = .ok (map Num.log P) := (C04_constructor_shape hc hg _).1 rfl
  refine ⟨map Num.log P, ?_, rfl, fun c hc => ?_⟩
  · have n2 : ¬ ∃ s ∈ [S.map (·.t), S.map (·.v), S.map (·.x), S.map (·.y), S.map (·.z)], s.length ≠ (S.map (·.t)).length := by simp
    have hP' : histogramdd [S.map (·.t), S.map (·.v), S.map (·.x), S.map (·.y), S.map (·.z)] [et, ev, ex, ey, ez] W = .ok P := hP
    simp only [fromParticle, hE, n2, if_false, hP', hinit, Py.ok_bind]
    congr 2
    have hb : ∀ s : Star, inBounds [et, ev, ex, ey, ez] [s.t, s.v, s.x, s.y, s.z] ↔ g.inRange s := by
      intro s
      simp only [inBounds, edgeLims, List.zip_cons_cons, List.zip_nil_right, List.mem_cons, List.not_mem_nil, or_false,
        forall_eq_or_imp, forall_eq, et2, ev2, ex2, ey2, ez2, List.headD_cons, Nat.add_sub_cancel]
      rw [et3 0 (by omega), et3 _ (by omega), ev3 0 (by omega), ev3 _ (by omega), ex3 0 (by omega), ex3 _ (by omega),
        ey3 0 (by omega), ey3 _ (by omega), ez3 0 (by omega), ez3 _ (by omega)]
      simp only [inRange_iff, Grid.inRange]
    have hr := histRows_none S
    simp only [starData] at hr
    simp only [List.length_map, hr, Grid.report]
    congr 1
    · rw [List.countP_map]
      simp only [Function.comp_def, hb]
      have := List.length_eq_countP_add_countP (fun s => decide (g.inRange s)) (l := S)
      simp only [decide_not]
      simp at this ⊢
      omega
    · simp only [List.zip_cons_cons, List.zip_nil_right, List.map_cons, List.map_nil, List.countP_map, Function.comp_def, edgeLims,
        et2, ev2, ex2, ey2, ez2, List.headD_cons, Nat.add_sub_cancel,
        et3 0 (by omega), et3 g.nt (by omega), ev3 0 (by omega), ev3 g.nv (by omega), ex3 0 (by omega), ex3 g.nx (by omega),
        ey3 0 (by omega), ey3 g.ny (by omega), ez3 0 (by omega), ez3 g.nz (by omega)]
  · have e : coords ['t','v','x','z'] c = [c.t, c.v, c.x, c.y, c.z] := rfl
    rw [e]
    have hx := hh c.t c.v c.x c.y c.z hc
    have w : ∀ {a b : ℝ}, a < b → b - a ≠ 0 := fun h => (sub_pos.2 h).ne'
    show Num.log (divWidths [et, ev, ex, ey, ez] [c.t, c.v, c.x, c.y, c.z] (hist [c.t, c.v, c.x, c.y, c.z]) / _) = _
    have e2 : hist [c.t, c.v, c.x, c.y, c.z] = .fin (g.massIn S c) := hx
    rw [e2]
    simp only [divWidths]
    rw [et3 _ (by have := hc.1; omega), et3 _ (by have := hc.1; omega), ev3 _ (by have := hc.2.1; omega), ev3 _ (by have := hc.2.1; omega),
      ex3 _ (by have := hc.2.2.1; omega), ex3 _ (by have := hc.2.2.1; omega), ey3 _ (by have := hc.2.2.2.1; omega),
      ey3 _ (by have := hc.2.2.2.1; omega), ez3 _ (by have := hc.2.2.2.2; omega), ez3 _ (by have := hc.2.2.2.2; omega)]
    simp only [Num.fin_sub]
    rw [Num.fin_div _ _ (w (hg.t _ hc.1)), Num.fin_div _ _ (w (hg.v _ hc.2.1)), Num.fin_div _ _ (w (hg.x _ hc.2.2.1)),
      Num.fin_div _ _ (w (hg.y _ hc.2.2.2.1)), Num.fin_div _ _ (w (hg.z _ hc.2.2.2.2))]
    simp only [Grid.cellVolume, width, div_div]

end PKM
