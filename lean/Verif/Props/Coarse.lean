import Verif.Props.Join
import Verif.NoiseLemmas

/-!
# C79: coarser grids

The same particles on two cubes: the bins of the second are unions of bins of the first.
-/

open scoped Classical

noncomputable section

namespace PKM
open Np Component

/-! ### Specification -/

/-- Each of the `n'` bins between the edges `e'` consists of `k` adjacent bins of the `n` bins between the edges `e`. -/
structure Nested (k n n' : ℕ) (e e' : ℕ → ℝ) : Prop where
  pos : 0 < k
  bins : n = k * n'
  edges : ∀ i ≤ n', e' i = e (k * i)

/-- The bins of `g'` consist of `k.t` bins of `g` in age, `k.v` in velocity, and so on. -/
structure Grid.Coarser (g g' : Grid) (k : Cell) : Prop where
  t : Nested k.t g.nt g'.nt g.t g'.t
  v : Nested k.v g.nv g'.nv g.v g'.v
  x : Nested k.x g.nx g'.nx g.x g'.x
  y : Nested k.y g.ny g'.ny g.y g'.y
  z : Nested k.z g.nz g'.nz g.z g'.z

/-- Index of an entry of the block of `K` fine entries that make up coarse entry `I`; `o` is its place in the block. -/
def fineIndex (K I o : List ℕ) : List ℕ := List.zipWith (· + ·) (List.zipWith (· * ·) K I) o

/-- Entry `I` of `p'` is the sum of the entries of `p` in block `I`. -/
def SumOfBlock (K : List ℕ) (p p' : Arr Num) (I : List ℕ) : Prop :=
  ∃ f : List ℕ → ℝ, (∀ o ∈ allIndices K, p.get (fineIndex K I o) = .fin (f o)) ∧ p'.get I = .fin ((allIndices K).map f).sum

/-- Entry `I` of `p'` and all entries of `p` in block `I` are nan. -/
def NanBlock (K : List ℕ) (p p' : Arr Num) (I : List ℕ) : Prop := (∀ o ∈ allIndices K, p.get (fineIndex K I o) = .nan) ∧ p'.get I = .nan

/-! ### Lemmas -/

variable {k n n' : ℕ} {e e' : ℕ → ℝ}

theorem edges_le (he : ∀ i < n, e i < e (i + 1)) {a b : ℕ} (hab : a ≤ b) (hb : b ≤ n) : e a ≤ e b := by
  induction b, hab using Nat.le_induction with
  | base => exact le_rfl
  | succ b hab ih => exact (ih (by omega)).trans (he b (by omega)).le

theorem edges_lt (he : ∀ i < n, e i < e (i + 1)) {a b : ℕ} (hab : a < b) (hb : b ≤ n) : e a < e b :=
  (he a (by omega)).trans_le (edges_le he hab hb)

theorem Nested.coarse_pos (h : Nested k n n' e e') (hn : 0 < n) : 0 < n' := Nat.pos_of_ne_zero fun e => by have := h.bins; subst e; simp at this; omega

theorem Nested.coarse_lt (h : Nested k n n' e e') (he : ∀ i < n, e i < e (i + 1)) : ∀ i < n', e' i < e' (i + 1) := by
  intro i hi
  rw [h.edges i hi.le, h.edges (i + 1) hi]
  refine edges_lt he (Nat.mul_lt_mul_of_pos_left (Nat.lt_succ_self i) h.pos) ?_
  rw [h.bins]
  exact Nat.mul_le_mul_left k hi

theorem Nested.inBin (h : Nested k n n' e e') (he : ∀ i < n, e i < e (i + 1)) {j : ℕ} (hj : j < n) {x : Num} (hx : InBin e n j x) :
    InBin e' n' (j / k) x := by
  obtain ⟨r, rfl, h1, h2⟩ := hx
  have hjk : j / k < n' := by
    rw [Nat.div_lt_iff_lt_mul h.pos, mul_comm]
    rw [← h.bins]; exact hj
  have h3 := Nat.mul_div_le j k
  have h4 := Nat.lt_mul_div_succ j h.pos
  have hle : k * (j / k + 1) ≤ n := by rw [h.bins]; exact Nat.mul_le_mul_left k hjk
  refine ⟨r, rfl, ?_, ?_⟩
  · rw [h.edges _ hjk.le]
    exact (edges_le he h3 hj.le).trans h1
  · rw [h.edges _ hjk]
    rcases h2 with h2 | ⟨h2, h2'⟩
    · exact .inl (h2.trans_le (edges_le he h4 hle))
    · right
      refine ⟨?_, ?_⟩
      · have : k * n' ≤ k * (j / k + 1) := by rw [← h.bins]; omega
        have := Nat.le_of_mul_le_mul_left this h.pos
        omega
      · rw [h.edges _ le_rfl, ← h.bins]; exact h2'

theorem Nested.inRange (h : Nested k n n' e e') (x : Num) : InRange e' n' x ↔ InRange e n x := by
  unfold InRange
  rw [h.edges 0 (Nat.zero_le _), h.edges n' le_rfl, ← h.bins, mul_zero]

/-- The coarse cell that contains a fine cell. -/
def Cell.over (c k : Cell) : Cell := ⟨c.t / k.t, c.v / k.v, c.x / k.x, c.y / k.y, c.z / k.z⟩

variable {g g' : Grid} {kc : Cell}

theorem Grid.Coarser.proper (h : g.Coarser g' kc) (hg : g.Proper) : g'.Proper :=
  ⟨h.t.coarse_pos hg.nt, h.v.coarse_pos hg.nv, h.x.coarse_pos hg.nx, h.y.coarse_pos hg.ny, h.z.coarse_pos hg.nz,
    h.t.coarse_lt hg.t, h.v.coarse_lt hg.v, h.x.coarse_lt hg.x, h.y.coarse_lt hg.y, h.z.coarse_lt hg.z⟩

theorem Grid.Coarser.inRange (h : g.Coarser g' kc) (s : Star) : g'.inRange s ↔ g.inRange s := by
  unfold Grid.inRange
  rw [h.t.inRange, h.v.inRange, h.x.inRange, h.y.inRange, h.z.inRange]

theorem Nested.div_lt (h : Nested k n n' e e') {j : ℕ} (hj : j < n) : j / k < n' := by
  rw [Nat.div_lt_iff_lt_mul h.pos, mul_comm]
  rw [← h.bins]; exact hj

theorem Grid.Coarser.locates (h : g.Coarser g' kc) (hg : g.Proper) {cell : Star → Cell} (hl : g.Locates cell) :
    g'.Locates fun s => (cell s).over kc := by
  intro s hs
  obtain ⟨⟨a1, a2, a3, a4, a5⟩, b1, b2, b3, b4, b5⟩ := hl s ((h.inRange s).1 hs)
  exact ⟨⟨h.t.div_lt a1, h.v.div_lt a2, h.x.div_lt a3, h.y.div_lt a4, h.z.div_lt a5⟩,
    h.t.inBin hg.t a1 b1, h.v.inBin hg.v a2 b2, h.x.inBin hg.x a3 b3, h.y.inBin hg.y a4 b4, h.z.inBin hg.z a5 b5⟩

theorem Grid.Coarser.covered (h : g.Coarser g' kc) (S : List Star) : g'.massCovered S = g.massCovered S := by
  simp only [Grid.massCovered, h.inRange]

theorem coord1_over (c : Cell) (ch : Char) : coord1 (c.over kc) ch = List.zipWith (· / ·) (coord1 c ch) (coord1 kc ch) := by
  unfold coord1; split_ifs <;> rfl

theorem coord1_len (c d : Cell) (ch : Char) : (coord1 c ch).length = (coord1 d ch).length := by
  unfold coord1; split_ifs <;> rfl

theorem coords_over (c : Cell) (w : PyStr) : coords w (c.over kc) = List.zipWith (· / ·) (coords w c) (coords w kc) := by
  unfold coords
  induction w with
  | nil => rfl
  | cons ch w ih => rw [List.flatMap_cons, List.flatMap_cons, List.flatMap_cons, ih, coord1_over, List.zipWith_append (coord1_len _ _ _)]

theorem Grid.Coarser.shape1 (h : g.Coarser g' kc) (ch : Char) : g.shape1 ch = List.zipWith (· * ·) (coord1 kc ch) (g'.shape1 ch) := by
  unfold coord1 Grid.shape1
  split_ifs
  · simp [h.t.bins]
  · simp [h.v.bins]
  · simp [h.x.bins, h.y.bins]
  · simp [h.z.bins]
  · rfl

theorem shape1_len (g : Grid) (c : Cell) (ch : Char) : (coord1 c ch).length = (g.shape1 ch).length := by
  unfold coord1 Grid.shape1; split_ifs <;> rfl

theorem Grid.Coarser.shapeOf (h : g.Coarser g' kc) (w : PyStr) : g.shapeOf w = List.zipWith (· * ·) (coords w kc) (g'.shapeOf w) := by
  unfold coords Grid.shapeOf
  induction w with
  | nil => rfl
  | cons ch w ih => rw [List.flatMap_cons, List.flatMap_cons, List.flatMap_cons, ih, h.shape1, List.zipWith_append (shape1_len _ _ _)]

theorem inBox_fine : ∀ {K N I o : List ℕ}, K.length = N.length → InBox N I → InBox K o → InBox (List.zipWith (· * ·) K N) (fineIndex K I o)
  | [], [], [], [], _, _, _ => trivial
  | k :: K, n :: N, i :: I, o :: O, hl, h1, h2 => by
    refine ⟨?_, inBox_fine (by simpa using hl) h1.2 h2.2⟩
    have a := h1.1
    have b := h2.1
    calc k * i + o < k * i + k := by omega
      _ = k * (i + 1) := by ring
      _ ≤ k * n := Nat.mul_le_mul_left k a

/-- An entry lies in exactly one block, at one place. -/
theorem block_indicator : ∀ (K I J : List ℕ) (a : ℝ), K.length = I.length → J.length = K.length → (∀ k ∈ K, 0 < k) →
    ((allIndices K).map fun o => if J = fineIndex K I o then a else 0).sum = if List.zipWith (· / ·) J K = I then a else 0
  | [], [], [], a, _, _, _ => by simp [allIndices, fineIndex]
  | k :: K, i :: I, j :: J, a, h1, h2, h3 => by
    have ih := block_indicator K I J a (by simpa using h1) (by simpa using h2) fun k hk => h3 k (List.mem_cons_of_mem _ hk)
    have hk := h3 k List.mem_cons_self
    have e1 : ((allIndices (k :: K)).map fun o => if j :: J = fineIndex (k :: K) (i :: I) o then a else 0).sum =
        ((List.range k).map fun m => if j = k * i + m then (if List.zipWith (· / ·) J K = I then a else 0) else 0).sum := by
      rw [← ih, allIndices, List.map_flatMap, List.flatMap_def, List.sum_flatten, List.map_map]
      congr 1
      refine List.map_congr_left fun m _ => ?_
      simp only [Function.comp, List.map_map]
      by_cases hj : j = k * i + m
      · rw [if_pos hj]
        congr 1
        refine List.map_congr_left fun o _ => ?_
        refine if_congr ?_ rfl rfl
        simp [fineIndex, hj]
      · rw [if_neg hj]
        apply List.sum_eq_zero
        intro x hx
        obtain ⟨o, -, rfl⟩ := List.mem_map.1 hx
        simp [fineIndex, hj]
    rw [e1]
    have e2 : ∀ v : ℝ, ((List.range k).map fun m => if j = k * i + m then v else 0).sum = if j / k = i then v else 0 := by
      intro v
      have : ((List.range k).map fun m => if j = k * i + m then v else 0).sum = ∑ m ∈ Finset.range k, if j = k * i + m then v else 0 := rfl
      rw [this]
      split_ifs with hd
      · subst hd
        rw [Finset.sum_eq_single (j % k)]
        · rw [if_pos (Nat.div_add_mod j k).symm]
        · intro m hm hne
          rw [if_neg]
          intro e
          have := Nat.div_add_mod j k
          omega
        · intro h
          exact absurd (Finset.mem_range.2 (Nat.mod_lt j hk)) h
      · refine Finset.sum_eq_zero fun m hm => ?_
        rw [if_neg]
        rintro rfl
        apply hd
        rw [Nat.mul_add_div hk, Nat.div_eq_of_lt (Finset.mem_range.1 hm), add_zero]
    rw [e2]
    simp only [List.zipWith_cons_cons, List.cons.injEq]
    split_ifs <;> simp_all

theorem coords_other {c d : Cell} {ch : Char} {w : PyStr} (hw : ch ∉ w) (h : ∀ u, u ≠ ch → coord1 d u = coord1 c u) : coords w d = coords w c := by
  unfold coords
  refine List.flatMap_congr fun u hu => h u ?_
  rintro rfl
  exact hw hu

/-- Every index of an array of a distribution belongs to a cell. -/
theorem cell_of (hg : g.Proper) : ∀ {w : PyStr} {i : List ℕ}, w.Nodup → (∀ ch ∈ w, ch ∈ ['t','v','x','z']) → InBox (g.shapeOf w) i →
    ∃ c, g.Has c ∧ coords w c = i
  | [], i, _, _, h => ⟨⟨0, 0, 0, 0, 0⟩, ⟨hg.nt, hg.nv, hg.nx, hg.ny, hg.nz⟩, by cases i with
    | nil => rfl
    | cons a i => exact h.elim⟩
  | ch :: w, i, h1, h2, h3 => by
    obtain ⟨h1a, h1b⟩ := List.nodup_cons.1 h1
    have e : g.shapeOf (ch :: w) = g.shape1 ch ++ g.shapeOf w := by simp [Grid.shapeOf]
    have e' : ∀ c, coords (ch :: w) c = coord1 c ch ++ coords w c := fun c => by simp [coords]
    rw [e] at h3
    have ih := fun {i} => cell_of hg (w := w) (i := i) h1b fun u hu => h2 u (List.mem_cons_of_mem _ hu)
    have hch := h2 ch List.mem_cons_self
    simp only [List.mem_cons, List.not_mem_nil, or_false] at hch
    rcases hch with rfl | rfl | rfl | rfl
    · match i, h3 with
      | a :: i, h3 =>
        obtain ⟨c, hc, rfl⟩ := ih h3.2
        refine ⟨{ c with t := a }, ⟨h3.1, hc.2⟩, ?_⟩
        rw [e', coords_other h1a (c := c) (fun u hu => by simp [coord1, hu])]
        rfl
    · match i, h3 with
      | a :: i, h3 =>
        obtain ⟨c, hc, rfl⟩ := ih h3.2
        refine ⟨{ c with v := a }, ⟨hc.1, h3.1, hc.2.2⟩, ?_⟩
        rw [e', coords_other h1a (c := c) (fun u hu => by simp [coord1, hu])]
        rfl
    · match i, h3 with
      | a :: b :: i, h3 =>
        obtain ⟨c, hc, rfl⟩ := ih h3.2.2
        refine ⟨{ c with x := a, y := b }, ⟨hc.1, hc.2.1, h3.1, h3.2.1, hc.2.2.2.2⟩, ?_⟩
        rw [e', coords_other h1a (c := c) (fun u hu => by simp [coord1, hu])]
        rfl
    · match i, h3 with
      | a :: i, h3 =>
        obtain ⟨c, hc, rfl⟩ := ih h3.2
        refine ⟨{ c with z := a }, ⟨hc.1, hc.2.1, hc.2.2.1, hc.2.2.2.1, h3.1⟩, ?_⟩
        rw [e', coords_other h1a (c := c) (fun u hu => by simp [coord1, hu])]
        rfl

theorem coords_pos (h : g.Coarser g' kc) (w : PyStr) : ∀ k ∈ coords w kc, 0 < k := by
  intro k hk
  obtain ⟨ch, -, hk⟩ := List.mem_flatMap.1 hk
  unfold coord1 at hk
  have := h.t.pos; have := h.v.pos; have := h.x.pos; have := h.y.pos; have := h.z.pos
  split_ifs at hk <;> simp at hk <;> omega

theorem coords_len (w : PyStr) (c d : Cell) : (coords w c).length = (coords w d).length := by
  unfold coords
  simp only [List.length_flatMap]
  congr 1
  exact List.map_congr_left fun ch _ => coord1_len _ _ _

theorem starTotal_add_list {ι : Type} (S : List Star) (sel : ι → Star → Prop) (sel' : Star → Prop) (wt : Star → ℝ) (l : List ι)
    (h : ∀ s, ∀ a : ℝ, (l.map fun i => if sel i s then a else 0).sum = if sel' s then a else 0) :
    starTotal S sel' wt = (l.map fun i => starTotal S (sel i) wt).sum := by
  unfold starTotal starSum
  induction S with
  | nil => simp
  | cons s S ih =>
    simp only [List.map_cons, List.sum_cons]
    rw [ih, ← h s, List.sum_map_add]

/-- The mass (or light) in a coarse cell is the sum over the fine cells in it. -/
theorem selected_sum (h : g.Coarser g' kc) {cell : Star → Cell} (S : List Star) (wt : Star → ℝ) (w : PyStr) (c' : Cell) :
    starTotal S (g'.Selected (fun s => (cell s).over kc) w c') wt =
      ((allIndices (coords w kc)).map fun o => starTotal S (fun s => g.inRange s ∧ coords w (cell s) = fineIndex (coords w kc) (coords w c') o) wt).sum := by
  refine starTotal_add_list S _ _ wt _ fun s a => ?_
  unfold Grid.Selected
  rw [coords_over, h.inRange]
  by_cases hs : g.inRange s
  · simp only [hs, true_and]
    exact block_indicator _ _ _ a (coords_len _ _ _) (coords_len _ _ _) (coords_pos h w)
  · simp [hs]

theorem fine_div : ∀ {K I o : List ℕ}, K.length = I.length → InBox K o → List.zipWith (· / ·) (fineIndex K I o) K = I
  | [], [], [], _, _ => rfl
  | k :: K, i :: I, o :: O, h, h2 => by
    have a := h2.1
    have := fine_div (K := K) (I := I) (by simpa using h) h2.2
    simp only [fineIndex, List.zipWith_cons_cons] at this ⊢
    rw [this, Nat.mul_add_div (by omega), Nat.div_eq_of_lt a, add_zero]

theorem div_ones : ∀ {K I : List ℕ}, K.length = I.length → (∀ k ∈ K, k = 1) → List.zipWith (· / ·) I K = I
  | [], [], _, _ => rfl
  | k :: K, i :: I, h, h1 => by
    rw [List.zipWith_cons_cons, div_ones (by simpa using h) fun k hk => h1 k (List.mem_cons_of_mem _ hk), h1 k List.mem_cons_self, Nat.div_one]

theorem Nested.ends (h : Nested k n n' e e') : e' 0 = e 0 ∧ e' n' = e n := by
  rw [h.edges 0 (Nat.zero_le _), h.edges n' le_rfl, ← h.bins, mul_zero]
  exact ⟨rfl, rfl⟩

theorem Grid.Coarser.report (h : g.Coarser g' kc) (S : List Star) : g'.report S = g.report S := by
  unfold Grid.report
  simp only [h.inRange, List.map_cons, List.map_nil, h.t.ends.1, h.t.ends.2, h.v.ends.1, h.v.ends.2, h.x.ends.1, h.x.ends.2, h.y.ends.1, h.y.ends.2, h.z.ends.1, h.z.ends.2]

theorem selected_append {g : Grid} {cell : Star → Cell} {a b : PyStr} {d : Cell} :
    (fun s => g.Selected cell a d s ∧ g.Selected cell b d s) = g.Selected cell (a ++ b) d := by
  funext s
  have hap : ∀ c, coords (a ++ b) c = coords a c ++ coords b c := fun c => by simp [coords]
  unfold Grid.Selected
  rw [hap, hap]
  refine propext ⟨fun h => ⟨h.1.1, by rw [h.1.2, h.2.2]⟩, fun h => ?_⟩
  obtain ⟨h1, h2⟩ := List.append_inj h.2 (coords_len _ _ _)
  exact ⟨⟨h.1, h1⟩, h.1, h2⟩

/-! ### Results -/

variable {cube cube' : IFUCube} {L L' : ℕ → ℕ → ℝ} {lw : Bool} {cell : Star → Cell} {S : List Star}

/-- Each probability of the coarse component is the sum of the probabilities of the fine component in its block, for all 15 marginal
distributions by mass; by light if stars in the same coarse bin of age and metallicity are as bright in both cubes. For conditional
distributions `p(a|b)` the same holds if the bins of `b` are the same in both cubes; coarse and fine entries are nan together. Both constructors
report the same losses. -/
theorem C79_sums (hk : g.Coarser g' kc) (hc : CubeIs cube g) (hc' : CubeIs cube' g') (hg : g.Proper)
    (hlight : IsArr g ['t','z'] cube.ssps.lightWeights (fun c => .fin (L c.t c.z))) (hL : ∀ t z, 0 ≤ L t z)
    (hlight' : IsArr g' ['t','z'] cube'.ssps.lightWeights (fun c => .fin (L' c.t c.z))) (hL' : ∀ t z, 0 ≤ L' t z)
    (hLL : lw = true → ∀ t z, L t z = L' (t / kc.t) (z / kc.z)) (hl : g.Locates cell)
    (hm : ∀ s ∈ S, 0 ≤ s.mass) (h0 : 0 < g.massCovered S) (h1 : 0 < starTotal S g.inRange (starWeight L lw cell)) :
    ∃ stored stored' rep, fromStars cube S = .ok (stored, rep) ∧ fromStars cube' S = .ok (stored', rep) ∧
      (∀ w ∈ marginals, ∃ p p', getP (baseSelf cube stored) w false lw = .ok p ∧ getP (baseSelf cube' stored') w false lw = .ok p' ∧
        p.shape = g.shapeOf w ∧ p'.shape = g'.shapeOf w ∧
        ∀ c', g'.Has c' → SumOfBlock (coords w kc) p p' (coords w c')) ∧
      ∀ a b, (a, b) ∈ conditionals → (∀ n ∈ coords b kc, n = 1) → ∃ p p', getP (baseSelf cube stored) (condStr a b) false lw = .ok p ∧
        getP (baseSelf cube' stored') (condStr a b) false lw = .ok p' ∧ p.shape = g.shapeOf (a ++ b) ∧ p'.shape = g'.shapeOf (a ++ b) ∧
        ∀ c', g'.Has c' → SumOfBlock (coords (a ++ b) kc) p p' (coords (a ++ b) c') ∨ NanBlock (coords (a ++ b) kc) p p' (coords (a ++ b) c') := by
  have hwt : starWeight L' lw (fun s => (cell s).over kc) = starWeight L lw cell := by
    funext s
    unfold starWeight
    split_ifs with e
    · rw [hLL e]; rfl
    · rfl
  have hir : g'.inRange = g.inRange := by funext s; exact propext (hk.inRange s)
  have hg' := hk.proper hg
  obtain ⟨st, rep, e1, m1, d1⟩ := C76_distributions hc hg hlight hL hl hm h0 h1
  obtain ⟨st', rep', e2, m2, d2⟩ := C76_distributions hc' hg' hlight' hL' (hk.locates hg hl) hm (by rw [hk.covered]; exact h0)
    (by rw [hwt, hir]; exact h1)
  rw [hwt, hir] at m2
  rw [hwt] at d2
  have hrep : rep' = rep := by
    obtain ⟨_, a1, -⟩ := fromStars_eval hc hg S
    obtain ⟨_, a2, -⟩ := fromStars_eval hc' hg' S
    rw [e1] at a1
    rw [e2, hk.report] at a2
    injection a1 with a1
    injection a2 with a2
    injection a1 with _ a1
    injection a2 with _ a2
    rw [a1, a2]
  subst hrep
  refine ⟨st, st', rep', e1, e2, fun w hw => ?_, fun a b hab hb => ?_⟩
  · obtain ⟨p, a1, a2, a3⟩ := m1 w hw
    obtain ⟨p', b1, b2, b3⟩ := m2 w hw
    refine ⟨p, p', a1, b1, a2, b2, fun c' hc' => ?_⟩
    have hnd : w.Nodup := (by decide : ∀ w ∈ marginals, w.Nodup) w hw
    have hch : ∀ ch ∈ w, ch ∈ ['t','v','x','z'] := (by decide : ∀ w ∈ marginals, ∀ ch ∈ w, ch ∈ ['t','v','x','z']) w hw
    refine ⟨fun o => starTotal S (fun s => g.inRange s ∧ coords w (cell s) = fineIndex (coords w kc) (coords w c') o) (starWeight L lw cell) /
      starTotal S g.inRange (starWeight L lw cell), fun o ho => ?_, ?_⟩
    · have hb : InBox (g.shapeOf w) (fineIndex (coords w kc) (coords w c') o) := by
        rw [hk.shapeOf w]
        refine inBox_fine ?_ (inBox_coords hc' w) (mem_allIndices.1 ho)
        rw [← inBox_length (inBox_coords hc' w)]
        exact coords_len _ _ _
      obtain ⟨d, hd, hd'⟩ := cell_of hg hnd hch hb
      beta_reduce
      rw [← hd', a3 d hd]
      rfl
    · rw [b3 c' hc', selected_sum hk]
      congr 1
      rw [div_eq_mul_inv, ← List.sum_map_mul_right]
      rfl
  · obtain ⟨p, a1, a2, a3⟩ := d1 a b hab
    obtain ⟨p', b1, b2, b3⟩ := d2 a b hab
    refine ⟨p, p', a1, b1, by rw [a2]; simp [Grid.shapeOf], by rw [b2]; simp [Grid.shapeOf], fun c' hc' => ?_⟩
    have hnd : (a ++ b).Nodup := (by decide +kernel : ∀ q ∈ conditionals, (q.1 ++ q.2).Nodup) (a, b) hab
    have hch : ∀ ch ∈ a ++ b, ch ∈ ['t','v','x','z'] :=
      (by decide +kernel : ∀ q ∈ conditionals, ∀ ch ∈ q.1 ++ q.2, ch ∈ ['t','v','x','z']) (a, b) hab
    have hap : ∀ c, coords (a ++ b) c = coords a c ++ coords b c := fun c => by simp [coords]
    have hover : ∀ d, coords b (d.over kc) = coords b d := fun d => by
      rw [coords_over, div_ones (coords_len _ _ _) hb]
    have hfine : ∀ o ∈ allIndices (coords (a ++ b) kc), ∃ d, g.Has d ∧ coords (a ++ b) d = fineIndex (coords (a ++ b) kc) (coords (a ++ b) c') o ∧
        coords b d = coords b c' := fun o ho => by
      have hbx : InBox (g.shapeOf (a ++ b)) (fineIndex (coords (a ++ b) kc) (coords (a ++ b) c') o) := by
        rw [hk.shapeOf]
        refine inBox_fine ?_ (inBox_coords hc' _) (mem_allIndices.1 ho)
        rw [← inBox_length (inBox_coords hc' (a ++ b))]
        exact coords_len _ _ _
      obtain ⟨d, hd, hd'⟩ := cell_of hg hnd hch hbx
      refine ⟨d, hd, hd', ?_⟩
      have := fine_div (coords_len (a ++ b) kc c') (mem_allIndices.1 ho)
      rw [← hd', ← coords_over, hap, hap] at this
      rw [← hover d]
      exact (List.append_inj this (coords_len _ _ _)).2
    have hden : ∀ d, coords b d = coords b c' → starTotal S (g.Selected cell b d) (starWeight L lw cell) =
        starTotal S (g'.Selected (fun s => (cell s).over kc) b c') (starWeight L lw cell) := fun d hd => by
      congr 1
      funext s
      unfold Grid.Selected
      rw [hover, hd, hk.inRange]
    have hnum : ∀ d, (fun s => g.Selected cell a d s ∧ g.Selected cell b d s) = fun s => g.inRange s ∧ coords (a ++ b) (cell s) = coords (a ++ b) d :=
      fun d => selected_append
    have hnum' : (fun s => g'.Selected (fun s => (cell s).over kc) a c' s ∧ g'.Selected (fun s => (cell s).over kc) b c' s) =
        g'.Selected (fun s => (cell s).over kc) (a ++ b) c' := selected_append
    have h3 := b3 c' hc'
    rw [← hap] at h3
    by_cases hz : starTotal S (g'.Selected (fun s => (cell s).over kc) b c') (starWeight L lw cell) = 0
    · right
      rw [if_pos hz] at h3
      refine ⟨fun o ho => ?_, h3⟩
      obtain ⟨d, hd, hd', hd''⟩ := hfine o ho
      rw [← hd', hap, a3 d hd, hden d hd'', if_pos hz]
    · left
      rw [if_neg hz] at h3
      refine ⟨fun o => starTotal S (fun s => g.inRange s ∧ coords (a ++ b) (cell s) = fineIndex (coords (a ++ b) kc) (coords (a ++ b) c') o)
        (starWeight L lw cell) / starTotal S (g'.Selected (fun s => (cell s).over kc) b c') (starWeight L lw cell), fun o ho => ?_, ?_⟩
      · obtain ⟨d, hd, hd', hd''⟩ := hfine o ho
        beta_reduce
        rw [← hd', hap, a3 d hd, hden d hd'', if_neg hz, hnum, hap]
      · rw [h3, hnum', selected_sum hk]
        congr 1
        rw [div_eq_mul_inv, ← List.sum_map_mul_right]
        rfl

/-! ### Lemmas on datacubes -/

/-- The flux density of a spaxel, per area. -/
def spaxelFT (interp : ℕ → (ℕ → ℂ) → ℝ → ℂ) (nt nv nz : ℕ) (wt wz : ℕ → ℝ) (S : ℕ → ℕ → ℕ → ℝ) (f : ℕ → ℕ → ℕ → ℝ) (nl n v0 : ℕ) (dv : ℝ) (k : ℕ) : ℝ :=
  ∑ t : Fin nt, ∑ z : Fin nz, Fft.irfft n (fun w => Fft.rfft nl n (S t z) w * interp (Fft.half nv)
      (fun j => Fft.rfft nv nv (fun i => f t ((i + v0) % nv) z) j * (dv : ℂ))
      ((w : ℝ) / ((Fft.half n : ℕ) - 1 : ℝ))) k * (wt t * wz z)

theorem ybarFT_spaxel (interp : ℕ → (ℕ → ℂ) → ℝ → ℂ) (g : Grid) (S : ℕ → ℕ → ℕ → ℝ) (ρ : Cell → ℝ) (nl n v0 : ℕ) (dv : ℝ) (k x y : ℕ) :
    ybarFT interp g S ρ nl n v0 dv k x y =
      spaxelFT interp g.nt g.nv g.nz (width g.t) (width g.z) S (fun t v z => ρ ⟨t, v, x, y, z⟩) nl n v0 dv k * width g.x x * width g.y y := rfl

theorem spaxelFT_congr {interp : ℕ → (ℕ → ℂ) → ℝ → ℂ} {nt nv nz : ℕ} {wt wz wt' wz' : ℕ → ℝ} {S : ℕ → ℕ → ℕ → ℝ} {f f' : ℕ → ℕ → ℕ → ℝ}
    {nl n v0 : ℕ} {dv : ℝ} {k : ℕ} (hnv : 0 < nv) (h1 : ∀ t < nt, wt t = wt' t) (h2 : ∀ z < nz, wz z = wz' z)
    (h3 : ∀ t < nt, ∀ v < nv, ∀ z < nz, f t v z = f' t v z) :
    spaxelFT interp nt nv nz wt wz S f nl n v0 dv k = spaxelFT interp nt nv nz wt' wz' S f' nl n v0 dv k := by
  unfold spaxelFT
  refine Finset.sum_congr rfl fun t _ => Finset.sum_congr rfl fun z _ => ?_
  rw [h1 t t.2, h2 z z.2]
  have : (fun i => f t ((i + v0) % nv) z) = fun i => f' t ((i + v0) % nv) z := funext fun i => h3 t t.2 _ (Nat.mod_lt _ hnv) z z.2
  rw [this]

theorem spaxelFT_linear {interp : ℕ → (ℕ → ℂ) → ℝ → ℂ} (hI : Interp interp) {nt nv nz : ℕ} {wt wz : ℕ → ℝ} {S : ℕ → ℕ → ℕ → ℝ} {nl n v0 : ℕ}
    {dv : ℝ} {k : ℕ} (a b : ℝ) (f1 f2 : ℕ → ℕ → ℕ → ℝ) :
    spaxelFT interp nt nv nz wt wz S (fun t v z => a * f1 t v z + b * f2 t v z) nl n v0 dv k =
      a * spaxelFT interp nt nv nz wt wz S f1 nl n v0 dv k + b * spaxelFT interp nt nv nz wt wz S f2 nl n v0 dv k := by
  unfold spaxelFT
  rw [Finset.mul_sum, Finset.mul_sum, ← Finset.sum_add_distrib]
  refine Finset.sum_congr rfl fun t _ => ?_
  rw [Finset.mul_sum, Finset.mul_sum, ← Finset.sum_add_distrib]
  refine Finset.sum_congr rfl fun z _ => ?_
  have : (fun j => Fft.rfft nv nv (fun i => a * f1 t ((i + v0) % nv) z + b * f2 t ((i + v0) % nv) z) j * (dv : ℂ)) = fun j =>
      (a : ℂ) * (Fft.rfft nv nv (fun i => f1 t ((i + v0) % nv) z) j * (dv : ℂ)) +
      (b : ℂ) * (Fft.rfft nv nv (fun i => f2 t ((i + v0) % nv) z) j * (dv : ℂ)) := by
    funext j
    rw [Fft.rfft_linear]
    ring
  simp only [this, hI.linear]
  rw [← mul_assoc a, ← mul_assoc b, ← add_mul, ← Fft.irfft_linear]
  congr 2
  funext j
  ring

theorem spaxelFT_sum {interp : ℕ → (ℕ → ℂ) → ℝ → ℂ} (hI : Interp interp) {nt nv nz : ℕ} {wt wz : ℕ → ℝ} {S : ℕ → ℕ → ℕ → ℝ} {nl n v0 : ℕ}
    {dv : ℝ} {k : ℕ} {ι : Type} (a : ι → ℝ) (f : ι → ℕ → ℕ → ℕ → ℝ) : ∀ l : List ι,
    spaxelFT interp nt nv nz wt wz S (fun t v z => (l.map fun o => a o * f o t v z).sum) nl n v0 dv k =
      (l.map fun o => a o * spaxelFT interp nt nv nz wt wz S (f o) nl n v0 dv k).sum
  | [] => by
    have := spaxelFT_linear hI (nt := nt) (nv := nv) (nz := nz) (wt := wt) (wz := wz) (S := S) (nl := nl) (n := n) (v0 := v0) (dv := dv) (k := k) 0 0
      (fun _ _ _ => 0) (fun _ _ _ => 0)
    simpa using this
  | o :: l => by
    have := spaxelFT_linear hI (nt := nt) (nv := nv) (nz := nz) (wt := wt) (wz := wz) (S := S) (nl := nl) (n := n) (v0 := v0) (dv := dv) (k := k)
      (a o) 1 (f o) (fun t v z => (l.map fun o => a o * f o t v z).sum)
    rw [spaxelFT_sum hI a f l] at this
    simp only [one_mul] at this
    simpa using this

theorem selected_all (hg : g.Proper) (hl : g.Locates cell) {c : Cell} (hc : g.Has c) (s : Star) :
    g.Selected cell ['t','v','x','z'] c s ↔ g.inCell c s := by
  constructor
  · rintro ⟨h1, h2⟩
    have h3 := (hl s h1).2
    have : cell s = c := by
      generalize cell s = d at h2
      obtain ⟨d1, d2, d3, d4, d5⟩ := d
      obtain ⟨c1, c2, c3, c4, c5⟩ := c
      simpa [coords, coord1] using h2
    rwa [this] at h3
  · intro h
    have h1 := (C39_partition hg s).1.2 ⟨c, hc, h⟩
    refine ⟨h1, ?_⟩
    rw [(C39_partition hg s).2 _ _ (hl s h1).1 hc (hl s h1).2 h]

theorem massIn_total (hg : g.Proper) (hl : g.Locates cell) {c : Cell} (hc : g.Has c) (S : List Star) :
    g.massIn S c = starTotal S (g.Selected cell ['t','v','x','z'] c) (fun s => s.mass) := by
  unfold Grid.massIn starTotal starSum
  simp only [selected_all hg hl hc, one_mul]

theorem allIndices_spatial (kx ky : ℕ) : allIndices [1, 1, kx, ky, 1] = (allIndices [kx, ky]).map fun o => [0, 0, o.getD 0 0, o.getD 1 0, 0] := by
  simp [allIndices, List.range_one, List.map_flatMap, List.flatMap_map, Function.comp_def]

theorem allIndices_image (kx ky : ℕ) : allIndices [1, kx, ky] = (allIndices [kx, ky]).map fun o => 0 :: o := by
  simp [allIndices, List.range_one]

/-- Mass in a cell of a grid with coarser spatial bins. -/
theorem massIn_spatial (hk : g.Coarser g' kc) (hg : g.Proper) (hl : g.Locates cell) (h1 : kc.t = 1) (h2 : kc.v = 1) (h3 : kc.z = 1)
    {t v X Y z : ℕ} (hc : g'.Has ⟨t, v, X, Y, z⟩) (S : List Star) :
    g'.massIn S ⟨t, v, X, Y, z⟩ = ((allIndices [kc.x, kc.y]).map fun o => g.massIn S ⟨t, v, kc.x * X + o.getD 0 0, kc.y * Y + o.getD 1 0, z⟩).sum := by
  rw [massIn_total (hk.proper hg) (hk.locates hg hl) hc, selected_sum hk]
  have e : coords ['t','v','x','z'] kc = [1, 1, kc.x, kc.y, 1] := by simp [coords, coord1, h1, h2, h3]
  rw [e, allIndices_spatial, List.map_map]
  congr 1
  refine List.map_congr_left fun o ho => ?_
  have ho := mem_allIndices.1 ho
  match o, ho with
  | [ox, oy], ho =>
    obtain ⟨a1, a2, a3, a4, a5⟩ := hc
    have b1 := hk.t.bins; have b2 := hk.v.bins; have b3 := hk.z.bins
    rw [h1, one_mul] at b1
    rw [h2, one_mul] at b2
    rw [h3, one_mul] at b3
    have hx : kc.x * X + ox < g.nx := by
      rw [hk.x.bins]
      calc kc.x * X + ox < kc.x * X + kc.x := by have := ho.1; omega
        _ = kc.x * (X + 1) := by ring
        _ ≤ kc.x * g'.nx := Nat.mul_le_mul_left _ a3
    have hy : kc.y * Y + oy < g.ny := by
      rw [hk.y.bins]
      calc kc.y * Y + oy < kc.y * Y + kc.y := by have := ho.2.1; omega
        _ = kc.y * (Y + 1) := by ring
        _ ≤ kc.y * g'.ny := Nat.mul_le_mul_left _ a4
    show _ = g.massIn S ⟨t, v, kc.x * X + ox, kc.y * Y + oy, z⟩
    rw [massIn_total hg hl (c := ⟨t, v, kc.x * X + ox, kc.y * Y + oy, z⟩) ⟨by rw [b1]; exact a1, by rw [b2]; exact a2, hx, hy, by rw [b3]; exact a5⟩]
    have e' : ∀ c : Cell, coords ['t','v','x','z'] c = [c.t, c.v, c.x, c.y, c.z] := fun c => by simp [coords, coord1]
    have e'' : fineIndex [1, 1, kc.x, kc.y, 1] [t, v, X, Y, z] [0, 0, ox, oy, 0] = [t, v, kc.x * X + ox, kc.y * Y + oy, z] := by simp [fineIndex]
    show starTotal S (fun s => g.inRange s ∧ coords ['t','v','x','z'] (cell s) =
      fineIndex [1, 1, kc.x, kc.y, 1] (coords ['t','v','x','z'] ⟨t, v, X, Y, z⟩) [0, 0, ox, oy, 0]) _ = _
    rw [e' ⟨t, v, X, Y, z⟩, e'']
    congr 1

/-- With coarser spatial bins only, each entry of the datacube of the coarse component is the sum of the entries of the fine datacube at the same
wavelength in its block of spaxels. -/
theorem C79_datacube {interp : ℕ → (ℕ → ℂ) → ℝ → ℂ} {sp : Spectra} {F : ℕ → ℕ → ℕ → ℝ} {nl n v0 : ℕ} (hI : Interp interp)
    (hk : g.Coarser g' kc) (hc : CubeIs cube g) (hc' : CubeIs cube' g') (hg : g.Proper)
    (hlight : IsArr g ['t','z'] cube.ssps.lightWeights (fun c => .fin (L c.t c.z))) (hL : ∀ t z, 0 ≤ L t z)
    (hlight' : IsArr g' ['t','z'] cube'.ssps.lightWeights (fun c => .fin (L' c.t c.z))) (hL' : ∀ t z, 0 ≤ L' t z)
    (h1 : kc.t = 1) (h2 : kc.v = 1) (h3 : kc.z = 1) (hm : ∀ s ∈ S, 0 ≤ s.mass) (h0 : 0 < g.massCovered S)
    (hn : 0 < n) (hS : SpectraAre sp g F nl n) (hz : ZeroBin g.nv g.v v0) (hv : VelocityOk g.nv g.v sp.dv v0) (h6 : 6 ≤ g.nv) :
    ∃ stored stored' rep r r', fromStars cube S = .ok (stored, rep) ∧ fromStars cube' S = .ok (stored', rep) ∧
      evaluateYbar interp (baseSelf cube stored) sp "none".toList = .ok r ∧
      evaluateYbar interp (baseSelf cube' stored') sp "none".toList = .ok r' ∧ r.shape = [n, g.nx, g.ny] ∧ r'.shape = [n, g'.nx, g'.ny] ∧
      ∀ k < n, ∀ X < g'.nx, ∀ Y < g'.ny, SumOfBlock [1, kc.x, kc.y] r r' [k, X, Y] := by
  obtain ⟨cell, hl⟩ := locates_exists hg
  have hg' := hk.proper hg
  have b1 := hk.t.bins
  have b2 := hk.v.bins
  have b3 := hk.z.bins
  rw [h1, one_mul] at b1
  rw [h2, one_mul] at b2
  rw [h3, one_mul] at b3
  have ht : ∀ i ≤ g.nt, g'.t i = g.t i := fun i hi => by rw [hk.t.edges i (b1 ▸ hi), h1, one_mul]
  have hve : ∀ i ≤ g.nv, g'.v i = g.v i := fun i hi => by rw [hk.v.edges i (b2 ▸ hi), h2, one_mul]
  have hze : ∀ i ≤ g.nz, g'.z i = g.z i := fun i hi => by rw [hk.z.edges i (b3 ▸ hi), h3, one_mul]
  have hcen : ∀ i < g.nv, centre g'.v i = centre g.v i := fun i hi => by unfold centre; rw [hve i hi.le, hve (i + 1) hi]
  have hwid : ∀ i < g.nv, width g'.v i = width g.v i := fun i hi => by unfold width; rw [hve i hi.le, hve (i + 1) hi]
  have hz' : ZeroBin g'.nv g'.v v0 := by
    rw [← b2]
    exact ⟨hz.1, by rw [hcen _ hz.1]; exact hz.2.1, fun i hi => by rw [hcen i (hi.trans hz.1)]; exact hz.2.2 i hi⟩
  have hv' : VelocityOk g'.nv g'.v sp.dv v0 := by
    rw [← b2]
    exact ⟨fun i hi => by rw [hwid i hi]; exact hv.1 i hi,
      fun i hi => by rw [hcen i (by omega), hcen (i + 1) hi]; exact hv.2.1 i hi, hv.2.2⟩
  have hS' : SpectraAre sp g' F nl n := ⟨hS.len, hS.nFft, by rw [hS.dims, b1, b3], by rw [hS.shape, b1, b3],
    by rw [← b1, ← b3]; exact hS.get⟩
  have hhalf : 4 ≤ Fft.half g.nv := by unfold Fft.half; omega
  obtain ⟨st, e1, B⟩ := C39_component hc hg hlight hL S hm h0
  obtain ⟨st', e2, B'⟩ := C39_component hc' hg' hlight' hL' S hm (by rw [hk.covered]; exact h0)
  rw [hk.report] at e2
  obtain ⟨⟨r, q1, q2, q3⟩, -⟩ := (evaluateYbar_is hI.loc B hn hS hz hv).2 hhalf
  obtain ⟨⟨r', p1, p2, p3⟩, -⟩ := (evaluateYbar_is hI.loc B' hn hS' hz' hv').2 (by rw [← b2]; exact hhalf)
  refine ⟨st, st', _, r, r', e1, e2, q1, p1, q2, p2, fun k hk' X hX Y hY => ?_⟩
  have hfx : ∀ o, InBox [kc.x, kc.y] o → kc.x * X + o.getD 0 0 < g.nx ∧ kc.y * Y + o.getD 1 0 < g.ny := fun o ho => by
    match o, ho with
    | [ox, oy], ho =>
      constructor
      · show kc.x * X + ox < g.nx
        rw [hk.x.bins]
        calc kc.x * X + ox < kc.x * X + kc.x := by have := ho.1; omega
          _ = kc.x * (X + 1) := by ring
          _ ≤ kc.x * g'.nx := Nat.mul_le_mul_left _ hX
      · show kc.y * Y + oy < g.ny
        rw [hk.y.bins]
        calc kc.y * Y + oy < kc.y * Y + kc.y := by have := ho.2.1; omega
          _ = kc.y * (Y + 1) := by ring
          _ ≤ kc.y * g'.ny := Nat.mul_le_mul_left _ hY
  refine ⟨fun o => ybarFT interp g F (g.starDensity S) nl n v0 sp.dv k (kc.x * X + o.getD 1 0) (kc.y * Y + o.getD 2 0), fun o ho => ?_, ?_⟩
  · rw [allIndices_image] at ho
    obtain ⟨o, ho', rfl⟩ := List.mem_map.1 ho
    clear ho
    have ho := mem_allIndices.1 ho'
    have hf := hfx o ho
    match o, ho with
    | [ox, oy], ho =>
      have := q3 k hk' _ hf.1 _ hf.2
      simpa [fineIndex] using this
  · rw [p3 k hk' X hX Y hY, allIndices_image, List.map_map]
    beta_reduce
    refine congrArg Num.fin ?_
    have hX0 : 0 < width g'.x X := sub_pos.2 (hg'.x X hX)
    have hY0 : 0 < width g'.y Y := sub_pos.2 (hg'.y Y hY)
    have key : ∀ t < g'.nt, ∀ v < g'.nv, ∀ z < g'.nz, g'.starDensity S ⟨t, v, X, Y, z⟩ = ((allIndices [kc.x, kc.y]).map fun o =>
        (width g.x (kc.x * X + o.getD 0 0) * width g.y (kc.y * Y + o.getD 1 0) / (width g'.x X * width g'.y Y)) *
          g.starDensity S ⟨t, v, kc.x * X + o.getD 0 0, kc.y * Y + o.getD 1 0, z⟩).sum := by
      intro t ht' v hv'' z hz''
      have hc : g'.Has ⟨t, v, X, Y, z⟩ := ⟨ht', hv'', hX, hY, hz''⟩
      have T0 : 0 < width g.t t := sub_pos.2 (hg.t t (b1 ▸ ht'))
      have V0 : 0 < width g.v v := sub_pos.2 (hg.v v (b2 ▸ hv''))
      have Z0 : 0 < width g.z z := sub_pos.2 (hg.z z (b3 ▸ hz''))
      have wt : width g'.t t = width g.t t := by unfold width; rw [ht t (b1 ▸ ht'.le), ht (t + 1) (b1 ▸ ht')]
      have wv : width g'.v v = width g.v v := hwid v (b2 ▸ hv'')
      have wz : width g'.z z = width g.z z := by unfold width; rw [hze z (b3 ▸ hz''.le), hze (z + 1) (b3 ▸ hz'')]
      unfold Grid.starDensity
      rw [if_pos hc, massIn_spatial hk hg hl h1 h2 h3 hc, hk.covered]
      simp only [Grid.cellVolume]
      rw [wt, wv, wz, div_div, div_eq_mul_inv, ← List.sum_map_mul_right]
      congr 1
      refine List.map_congr_left fun o ho => ?_
      have hf := hfx o (mem_allIndices.1 ho)
      rw [if_pos ⟨b1 ▸ ht', b2 ▸ hv'', hf.1, hf.2, b3 ▸ hz''⟩]
      have X1 : 0 < width g.x (kc.x * X + o.getD 0 0) := sub_pos.2 (hg.x _ hf.1)
      have Y1 : 0 < width g.y (kc.y * Y + o.getD 1 0) := sub_pos.2 (hg.y _ hf.2)
      field_simp
    beta_reduce
    rw [ybarFT_spaxel, spaxelFT_congr hg'.nv (fun _ _ => rfl) (fun _ _ => rfl) key, spaxelFT_sum hI, mul_assoc, ← List.sum_map_mul_right]
    congr 1
    refine List.map_congr_left fun o ho => ?_
    show _ = ybarFT interp g F (g.starDensity S) nl n v0 sp.dv k (kc.x * X + o.getD 0 0) (kc.y * Y + o.getD 1 0)
    rw [ybarFT_spaxel, ← b1, ← b2, ← b3, spaxelFT_congr hg.nv (wt := width g'.t) (wt' := width g.t) (wz := width g'.z) (wz' := width g.z)
      (fun i hi => by unfold width; rw [ht i hi.le, ht (i + 1) hi]) (fun i hi => by unfold width; rw [hze i hi.le, hze (i + 1) hi])
      (fun _ _ _ _ _ _ => rfl)]
    field_simp

/-! ### Cubes made by the constructor -/

theorem evenEdges_nested (r : ℝ × ℝ) {k n : ℕ} (hk : 0 < k) : Nested k (k * n) n (evenEdges r (k * n)) (evenEdges r n) := by
  refine ⟨hk, rfl, fun i _ => ?_⟩
  unfold evenEdges
  push_cast
  have : (k : ℝ) ≠ 0 := by exact_mod_cast hk.ne'
  by_cases hn : (n : ℝ) = 0
  · simp [hn]
  · field_simp

theorem same_nested (n : ℕ) (e : ℕ → ℝ) : Nested 1 n n e e := ⟨one_pos, (one_mul n).symm, fun i _ => by rw [one_mul]⟩

/-- Two cubes over the same ranges and spectra, one of them with multiples of the numbers of bins of the other, are such a pair. -/
theorem C79_constructor {s : SSPs} {nt nz : ℕ} {t z : ℕ → ℝ} (hs : SspsAre s nt nz t z) {nx ny nv kx ky kv : ℕ} (hx : 0 < nx) (hy : 0 < ny)
    (hv : 0 < nv) (hkx : 0 < kx) (hky : 0 < ky) (hkv : 0 < kv) (x1rng x2rng vrng : ℝ × ℝ) :
    ∃ cube cube', IFUCube.init s (kx * nx : ℕ) (ky * ny : ℕ) (kv * nv : ℕ) x1rng x2rng vrng = .ok cube ∧
      IFUCube.init s nx ny nv x1rng x2rng vrng = .ok cube' ∧ cube.ssps = s ∧ cube'.ssps = s ∧
      CubeIs cube (cubeGrid nt nz t z (kx * nx) (ky * ny) (kv * nv) x1rng x2rng vrng) ∧
      CubeIs cube' (cubeGrid nt nz t z nx ny nv x1rng x2rng vrng) ∧
      (cubeGrid nt nz t z (kx * nx) (ky * ny) (kv * nv) x1rng x2rng vrng).Coarser (cubeGrid nt nz t z nx ny nv x1rng x2rng vrng) ⟨1, kv, kx, ky, 1⟩ := by
  obtain ⟨c, h1, h2, h3, -⟩ := C03_constructor hs (kx * nx) (ky * ny) (kv * nv) (Nat.mul_pos hkx hx) (Nat.mul_pos hky hy) (Nat.mul_pos hkv hv)
    x1rng x2rng vrng
  obtain ⟨c', h1', h2', h3', -⟩ := C03_constructor hs nx ny nv hx hy hv x1rng x2rng vrng
  exact ⟨c, c', h1, h1', h3, h3', h2, h2', same_nested _ _, evenEdges_nested _ hkv, evenEdges_nested _ hkx, evenEdges_nested _ hky, same_nested _ _⟩

/-- The grid of 5 × 6 spaxels and 4 velocity bins with 5 × 3 and 2, by light: `p(x|t)` sums two fine spaxels, nan where there is no star. -/
example : ∃ cube cube' stored stored' rep p p' g', CubeIs cube demoGrid ∧ CubeIs cube' g' ∧ demoGrid.Coarser g' ⟨1, 2, 1, 2, 1⟩ ∧
    fromStars cube demoStars = .ok (stored, rep) ∧ fromStars cube' demoStars = .ok (stored', rep) ∧
    getP (baseSelf cube stored) (condStr ['x'] ['t']) false true = .ok p ∧ getP (baseSelf cube' stored') (condStr ['x'] ['t']) false true = .ok p' ∧
    p.shape = [5, 6, 2] ∧ p'.shape = [5, 3, 2] ∧ (SumOfBlock [1, 2, 1] p p' [2, 1, 1] ∨ NanBlock [1, 2, 1] p p' [2, 1, 1]) := by
  obtain ⟨cube, cube', -, -, hs, hs', hc, hc', hk⟩ := C79_constructor demoSSPs_are (nx := 5) (ny := 3) (nv := 2) (kx := 1) (ky := 2) (kv := 2)
    (by norm_num) (by norm_num) (by norm_num) one_pos two_pos two_pos (-1, 1) (0, 3) (-100, 300)
  obtain ⟨cell, hl⟩ := locates_exists demoGrid_proper
  have hlight' : IsArr (cubeGrid 2 3 (fun i => (i : ℝ) ^ 2) (fun i => (i : ℝ) ^ 2) 5 3 2 (-1, 1) (0, 3) (-100, 300)) ['t','z']
      cube'.ssps.lightWeights (fun c => .fin (demoL c.t c.z)) := by
    rw [hs']
    refine ⟨rfl, fun c _ => ?_⟩
    simp [demoSSPs, coords, coord1, demoL]
  have h0 : 0 < starTotal demoStars demoGrid.inRange (starWeight demoL true cell) := by
    have h4 : 0 < demoGrid.massCovered demoStars := by rw [demoStars_covered]; norm_num
    refine lt_of_lt_of_le h4 ?_
    unfold Grid.massCovered starTotal starSum
    refine List.sum_le_sum fun s hs => ?_
    have hm : 0 ≤ s.mass := (by simp [demoStars] : ∀ s ∈ demoStars, 0 ≤ s.mass) s hs
    split_ifs
    · have : 1 ≤ demoL (cell s).t (cell s).z := by unfold demoL; norm_num
      simp only [starWeight, if_true, one_mul]
      nlinarith
    · exact le_rfl
  obtain ⟨st, st', rep, h1, h2, -, h3⟩ := C79_sums (cube := cube) (cube' := cube') (lw := true) (S := demoStars) hk hc hc' demoGrid_proper (demo_light hs)
    (fun t z => (demoL_pos t z).le) hlight' (fun t z => (demoL_pos t z).le) (fun _ t z => by rw [Nat.div_one, Nat.div_one]) hl (by simp [demoStars])
    (by show 0 < demoGrid.massCovered _; rw [demoStars_covered]; norm_num) h0
  obtain ⟨p, p', a1, a2, a3, a4, a5⟩ := h3 ['x'] ['t'] (by decide +kernel) (by simp [coords, coord1])
  exact ⟨cube, cube', st, st', rep, p, p', _, hc, hc', hk, h1, h2, a1, a2, a3, a4, a5 ⟨1, 0, 2, 1, 0⟩ (by simp [Grid.Has, cubeGrid])⟩

def demoSlow : List Star := [⟨.fin 1, .fin 20, .fin 0, .fin 2, .fin 3, 2⟩, ⟨.fin 2, .fin (-70), .fin 1, .fin 1, .fin 9, 1⟩]

/-- Datacubes: 2 × 3 spaxels and 2 × 1. -/
example : ∃ (interp : ℕ → (ℕ → ℂ) → ℝ → ℂ) (cube cube' : IFUCube) (sp : Spectra) (stored stored' r r' : Arr Num) (rep : LossReport),
    fromStars cube demoSlow = .ok (stored, rep) ∧ fromStars cube' demoSlow = .ok (stored', rep) ∧
    evaluateYbar interp (baseSelf cube stored) sp "none".toList = .ok r ∧ evaluateYbar interp (baseSelf cube' stored') sp "none".toList = .ok r' ∧
    r.shape = [7, 2, 3] ∧ r'.shape = [7, 2, 1] ∧ SumOfBlock [1, 1, 3] r r' [4, 1, 0] := by
  obtain ⟨_, sp, -, -, h3, h4, h5, h6, -⟩ := ybar_demo
  obtain ⟨cube, h1, B⟩ := uniformBase 2 3 7 (by norm_num) (by norm_num) (by norm_num) (-70, 70) (by norm_num)
  obtain ⟨cube', h1', B'⟩ := uniformBase 2 1 7 (by norm_num) (by norm_num) (by norm_num) (-70, 70) (by norm_num)
  have hk : (uniformGrid 2 3 7 (-70, 70)).Coarser (uniformGrid 2 1 7 (-70, 70)) ⟨1, 1, 1, 3, 1⟩ :=
    ⟨same_nested _ _, same_nested _ _, same_nested _ _, evenEdges_nested (0, 3) (k := 3) (n := 1) (by norm_num), same_nested _ _⟩
  have h0 : 0 < (uniformGrid 2 3 7 (-70, 70)).massCovered demoSlow := by
    have r : ∀ (e : ℕ → ℝ) (n : ℕ) (x : ℝ), InRange e n (.fin x) ↔ e 0 ≤ x ∧ x ≤ e n := by
      intro e n x; simp [InRange]
    simp only [Grid.massCovered, demoSlow, List.map_cons, List.map_nil, Grid.inRange, r]
    simp only [uniformGrid, cubeGrid, evenEdges]
    norm_num
  obtain ⟨st, st', rep, r, r', a1, a2, a3, a4, a5, a6, a7⟩ := C79_datacube interp_exists hk B.cubeIs B'.cubeIs B.proper B.light B.lightNonneg
    B'.light B'.lightNonneg rfl rfl rfl (S := demoSlow) (by simp [demoSlow]) h0 (by norm_num) h3 h5 h6 (by show 6 ≤ 7; norm_num)
  exact ⟨_, cube, cube', sp, st, st', r, r', rep, a1, a2, a3, a4, a5, a6, a7 4 (by norm_num) 1 (by show 1 < 2; norm_num) 0 (by show 0 < 1; norm_num)⟩

end PKM
