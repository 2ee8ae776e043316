import Verif.ModelGridLemmas
import Mathlib.Order.Lex
import Mathlib.Data.List.Lex
import Mathlib.Data.List.Sort

/-!
# C71: the grid of SSP parameters of any dimension
-/

open scoped Classical

noncomputable section

namespace PKM
open Np

/-- Arguments with one triple (number of bins, lower limit, upper limit) per parameter. -/
def gridArgs (n : ℤ) (lo hi : ℝ) (axes : List (ℕ × ℝ × ℝ)) (X : Arr Num) (mask : Option (Option MaskFn)) : GridArgs :=
  { n := n, lmdMin := lo, lmdMax := hi, npars := axes.length, parDims := axes.map Prod.fst,
    parLims := axes.map (fun a => [a.2.1, a.2.2]), X := X, mask := mask }

/-- Number of bins and edges of each axis: equal bins between the limits. -/
def evenAxes (axes : List (ℕ × ℝ × ℝ)) : List (ℕ × (ℕ → ℝ)) := axes.map (fun a => (a.1, evenEdges a.2 a.1))

theorem evenAxes_dims (axes : List (ℕ × ℝ × ℝ)) : (evenAxes axes).map Prod.fst = axes.map Prod.fst := by
  rw [evenAxes, List.map_map]
  rfl

theorem check_ok {n : ℤ} {lo hi : ℝ} {axes : List (ℕ × ℝ × ℝ)} {X : Arr Num} {mask : Option MaskFn} {m : Option ((ℕ → Num) → Bool)}
    (hne : axes ≠ []) (hsize : (axes.map Prod.fst).prod ≤ 100000) (hm : OptMaskIs axes.length mask m) :
    checkParInput (gridArgs n lo hi axes X (some mask)) = .ok mask := by
  unfold checkParInput
  rw [if_neg (by simp [gridArgs]), if_neg (by simp [gridArgs, hne]), if_neg (by simpa [gridArgs] using hsize)]
  cases mask with
  | none => rfl
  | some f =>
    cases m with
    | none => exact hm.elim
    | some m =>
      obtain ⟨B, hB, -⟩ := hm.2 (full [axes.length, 3] (.fin 0)) [3] rfl
      show (do let _ ← f (full [axes.length, 3] (.fin 0)); .ok (some f) : Py (Option MaskFn)) = _
      rw [hB, Py.ok_bind]

theorem init_step {a : GridArgs} {k : ℕ} (hn : a.n = k + 1) :
    ∃ lmd, Is1 lmd (k + 1) (evenEdges (a.lmdMin, a.lmdMax) k) ∧ GridObj.init a = (do
      let mask ← checkParInput a
      let edges ← evenParEdges a.parDims a.parLims
      let g ← parGrid a.npars a.parDims mask edges
      let p := g.pars.shape.getLastD 0
      .ok { n := a.n, lmd := lmd, deltaLmd := (a.lmdMax - a.lmdMin) / a.n, grid := g, p := p, minNP := min a.n p, X := a.X } : Py GridObj) := by
  obtain ⟨lmd, h1, h2⟩ := linspace_is (a.lmdMin, a.lmdMax) k
  refine ⟨lmd, h2, ?_⟩
  unfold GridObj.init
  rw [hn, h1, Py.ok_bind, if_neg (by omega), ← hn]

/-- **C71.** For any number of parameters, any numbers of bins (together at most 100000), any limits and any mask that looks at each point
by itself: construction succeeds. Every axis is cut into equal bins between its limits, with the widths and centres of these bins. The
columns of `pars` and `par_idx` are the cells of the grid that the mask does not leave out, each exactly once, in lexicographic order; they
hold the centre of the cell and its indices. `p` is the number of columns. The wavelengths are evenly spaced from one limit to the other. -/
theorem C71_grid_partial (k : ℕ) (lo hi : ℝ) (axes : List (ℕ × ℝ × ℝ)) (X : Arr Num) (mask : Option MaskFn) (m : Option ((ℕ → Num) → Bool))
    (hne : axes ≠ []) (hsize : (axes.map Prod.fst).prod ≤ 100000) (hm : OptMaskIs axes.length mask m) :
    ∃ o cells, GridObj.init (gridArgs (k + 1) lo hi axes X (some mask)) = .ok o ∧ ParGridIs o.grid (evenAxes axes) m cells ∧
      o.p = cells.length ∧ o.minNP = min ((k : ℤ) + 1) cells.length ∧ Is1 o.lmd (k + 1) (evenEdges (lo, hi) k) ∧ o.X = X := by
  obtain ⟨lmd, hl, hi'⟩ := init_step (a := gridArgs (k + 1) lo hi axes X (some mask)) (k := k) rfl
  obtain ⟨es, h1, h2⟩ := evenParEdges_is axes
  obtain ⟨G, cells, h3, h4⟩ := parGrid_is (ps := evenAxes axes) h2 (by simpa [evenAxes] using hne) (mask := mask) (m := m)
    (by simpa [evenAxes] using hm)
  rw [evenAxes_dims] at h3
  have hp : G.pars.shape.getLastD 0 = cells.length := by
    rw [h4.parsShape]
    rfl
  refine ⟨⟨k + 1, lmd, (hi - lo) / ((k + 1 : ℤ) : ℝ), G, cells.length, min (k + 1) cells.length, X⟩, cells, ?_, h4, rfl, rfl, hl, rfl⟩
  rw [hi', check_ok hne hsize hm, Py.ok_bind]
  show (do let edges ← evenParEdges (axes.map Prod.fst) (axes.map (fun a : ℕ × ℝ × ℝ => [a.2.1, a.2.2])); _) = _
  rw [h1, Py.ok_bind]
  have h3' : parGrid axes.length (axes.map Prod.fst) mask es = .ok G := by simpa [evenAxes] using h3
  show (do let g ← parGrid axes.length (axes.map Prod.fst) mask es; _) = _
  rw [h3', Py.ok_bind]
  show Except.ok _ = _
  simp only [gridArgs, hp]

/-- **C71.** Every cell that is not left out is one column, and no column is repeated. -/
theorem C71_columns {G : ParGrid} {ps : List (ℕ × (ℕ → ℝ))} {m : Option ((ℕ → Num) → Bool)} {cells : List (List ℕ)}
    (h : ParGridIs G ps m cells) (c : List ℕ) (hc : InBox (ps.map Prod.fst) c) (hm : leftOut m (cellPoint ps c) = false) :
    ∃! k, k < cells.length ∧ ∀ a < ps.length, G.idx.get [a, k] = c.getD a 0 := by
  obtain ⟨k, hk, rfl⟩ := List.getElem_of_mem ((h.mem c).2 ⟨hc, hm⟩)
  refine ⟨k, ⟨hk, fun a ha => h.idx a ha k hk⟩, ?_⟩
  rintro l ⟨hl, hl'⟩
  have hbox := ((h.mem _).1 (List.getElem_mem hl)).1
  have e : cells[l] = cells[k] := by
    have l1 := inBox_len hbox
    have l2 := inBox_len hc
    refine List.ext_getElem (l1.trans l2.symm) fun a ha ha' => ?_
    have h1 := hl' a (by rw [List.length_map] at l1; omega)
    rw [h.idx a (by rw [List.length_map] at l1; omega) l hl] at h1
    rw [List.getD_eq_getElem?_getD, List.getD_eq_getElem?_getD, List.getElem?_eq_getElem ha, List.getElem?_eq_getElem ha'] at h1
    simpa using h1
  have hnd : cells.Nodup := h.sorted.imp fun hab => ne_of_lt hab
  exact (hnd.getElem_inj_iff).1 e

/-- Without a mask, all cells in row-major order. -/
theorem cells_all {G : ParGrid} {ps : List (ℕ × (ℕ → ℝ))} {cells : List (List ℕ)} (h : ParGridIs G ps none cells) :
    cells = (List.range (ps.map Prod.fst).prod).map (unravel (ps.map Prod.fst)) := by
  have hs : ((List.range (ps.map Prod.fst).prod).map (unravel (ps.map Prod.fst))).Pairwise (· < ·) := by
    rw [List.pairwise_map]
    exact List.pairwise_lt_range.imp_of_mem fun {a b} _ hb hab => unravel_lt _ _ _ hab (List.mem_range.1 hb)
  have hnd : ∀ l : List (List ℕ), l.Pairwise (· < ·) → l.Nodup := fun l hl => hl.imp fun hab => ne_of_lt hab
  refine List.Perm.eq_of_pairwise (le := (· < ·)) (fun a b _ _ h1 h2 => absurd h1 (lt_asymm h2)) h.sorted hs ?_
  rw [List.perm_ext_iff_of_nodup (hnd _ h.sorted) (hnd _ hs)]
  intro c
  rw [h.mem c, List.mem_map]
  constructor
  · rintro ⟨hc, -⟩
    exact ⟨ravel _ c, List.mem_range.2 (ravel_lt _ _ hc), unravel_ravel _ _ hc⟩
  · rintro ⟨k, hk, rfl⟩
    exact ⟨inBox_unravel _ _ (List.mem_range.1 hk), rfl⟩

/-- **C71.** The grid of `milesSSPs`, which passes the edges of metallicity and age and sets no mask: column `i * nt + j` belongs to
metallicity bin `i` and age bin `j`. The index table is the one used in C42 to C48. -/
theorem C71_miles {zE tE : Arr Num} {nz nt : ℕ} {z t : ℕ → ℝ} (hz : Is1 zE (nz + 1) z) (ht : Is1 tE (nt + 1) t) :
    ∃ G P, parGrid 2 [nz, nt] none [zE, tE] = .ok G ∧ parIdxOf nz nt = .ok P ∧ G.pars.shape = [2, nz * nt] ∧ G.idx.shape = P.shape ∧
      ∀ i < nz, ∀ j < nt, G.pars.get [0, i * nt + j] = .fin (centre z i) ∧ G.pars.get [1, i * nt + j] = .fin (centre t j) ∧
        G.idx.get [0, i * nt + j] = i ∧ G.idx.get [1, i * nt + j] = j ∧
        P.get [0, i * nt + j] = i ∧ P.get [1, i * nt + j] = j ∧ G.maskNd.get [i, j] = false := by
  obtain ⟨G, cells, hG, h⟩ := parGrid_is (es := [zE, tE]) (ps := [(nz, z), (nt, t)]) (.cons hz (.cons ht .nil)) (by simp)
    (mask := none) (m := none) trivial
  obtain ⟨P, hP, hPs, hPg⟩ := parIdxOf_is nz nt
  have hc := cells_all h
  have hprod : ([(nz, z), (nt, t)].map Prod.fst).prod = nz * nt := by simp
  have hcl : cells.length = nz * nt := by rw [hc, List.length_map, List.length_range, hprod]
  refine ⟨G, P, hG, hP, by rw [h.parsShape, hcl]; rfl, by rw [h.idxShape, hcl, hPs]; rfl, fun i hi j hj => ?_⟩
  have hb : InBox ([(nz, z), (nt, t)].map Prod.fst) [i, j] := ⟨hi, hj, trivial⟩
  have hr : ravel ([(nz, z), (nt, t)].map Prod.fst) [i, j] = i * nt + j := by simp [ravel]
  have hk : i * nt + j < cells.length := by
    rw [hcl, ← hr, ← hprod]
    exact ravel_lt _ _ hb
  have hget : cells[i * nt + j] = [i, j] := by
    have e := unravel_ravel _ _ hb
    rw [hr] at e
    simp only [hc, List.getElem_map, List.getElem_range]
    exact e
  have e0 := h.pars 0 (by simp) _ hk
  have e1 := h.pars 1 (by simp) _ hk
  have i0 := h.idx 0 (by simp) _ hk
  have i1 := h.idx 1 (by simp) _ hk
  rw [hget] at e0 e1 i0 i1
  exact ⟨e0, e1, i0, i1, (hPg i hi j hj).1, (hPg i hi j hj).2, h.mask _ hb⟩

/-- **C71.** Wrong arguments are refused: a negative number of wavelengths, a number of bin counts or limits other than the number of
parameters, and grids of more than 100000 cells with `ValueError`; no wavelengths at all with `ZeroDivisionError`. -/
theorem C71_rejects (a : GridArgs) :
    (a.n < 0 → GridObj.init a = .error .valueError) ∧ (a.n = 0 → GridObj.init a = .error .zeroDivisionError) ∧
    (0 < a.n → (a.parDims.length ≠ a.npars ∨ a.parLims.length ≠ a.npars ∨ a.npars = 0 ∨ (∃ r ∈ a.parLims, r.length ≠ 2) ∨
      100000 < a.parDims.prod) → GridObj.init a = .error .valueError) := by
  refine ⟨fun h => ?_, fun h => ?_, fun h h' => ?_⟩
  · unfold GridObj.init linspace
    rw [if_pos h]
    rfl
  · unfold GridObj.init
    rw [h]
    simp only [linspace, if_neg (lt_irrefl (0 : ℤ)), if_true]
    rfl
  · obtain ⟨k, hk⟩ := Int.eq_succ_of_zero_lt h
    obtain ⟨lmd, -, e⟩ := init_step (a := a) (k := k) hk
    rw [e]
    have : checkParInput a = .error .valueError := by
      unfold checkParInput
      by_cases h1 : a.parDims.length ≠ a.npars
      · rw [if_pos h1]
      rw [if_neg h1]
      by_cases h2 : ¬ (a.parLims ≠ [] ∧ a.parLims.length = a.npars ∧ ∀ r ∈ a.parLims, r.length = 2)
      · rw [if_pos h2]
      rw [if_neg h2]
      push Not at h1 h2
      rcases h' with h' | h' | h' | ⟨r, hr, h'⟩ | h'
      · exact absurd h1 h'
      · exact absurd h2.2.1 h'
      · exact absurd (List.length_eq_zero_iff.1 (h2.2.1.trans h')) h2.1
      · exact absurd (h2.2.2 r hr) h'
      · rw [if_pos h']
    rw [this]
    rfl

/-- **C71.** A mask function that fails on the probe (zeros, one row per parameter and three columns) stops the construction with its own
exception. -/
theorem C71_probe (k : ℕ) (lo hi : ℝ) (axes : List (ℕ × ℝ × ℝ)) (X : Arr Num) (f : MaskFn) (hne : axes ≠ [])
    (hsize : (axes.map Prod.fst).prod ≤ 100000) (e : PyErr) (hf : f (full [axes.length, 3] (.fin 0)) = .error e) :
    GridObj.init (gridArgs (k + 1) lo hi axes X (some (some f))) = .error e := by
  obtain ⟨lmd, -, hi'⟩ := init_step (a := gridArgs (k + 1) lo hi axes X (some (some f))) (k := k) rfl
  rw [hi']
  have : checkParInput (gridArgs (k + 1) lo hi axes X (some (some f))) = .error e := by
    unfold checkParInput
    rw [if_neg (by simp [gridArgs]), if_neg (by simp [gridArgs, hne]), if_neg (by simpa [gridArgs] using hsize)]
    show (do let _ ← f (full [axes.length, 3] (.fin 0)); .ok (some f) : Py (Option MaskFn)) = _
    rw [hf]
    rfl
  rw [this]
  rfl

/-- **C71, refuted for the base class.** `modelGrid` itself has no attribute `par_mask_function`, so no arguments construct it; correct
arguments end in `AttributeError`. -/
theorem C71_base_class (a : GridArgs) (h : a.mask = none) : (∃ e, GridObj.init a = .error e) ∧
    (0 < a.n → a.npars ≠ 0 → a.parDims.length = a.npars → a.parLims.length = a.npars → (∀ r ∈ a.parLims, r.length = 2) →
      a.parDims.prod ≤ 100000 → GridObj.init a = .error .attributeError) := by
  have key : 0 < a.n → a.npars ≠ 0 → a.parDims.length = a.npars → a.parLims.length = a.npars → (∀ r ∈ a.parLims, r.length = 2) →
      a.parDims.prod ≤ 100000 → GridObj.init a = .error .attributeError := by
    intro hn h0 h1 h2 h3 h4
    obtain ⟨k, hk⟩ := Int.eq_succ_of_zero_lt hn
    obtain ⟨lmd, -, e⟩ := init_step (a := a) (k := k) hk
    have hne : a.parLims ≠ [] := fun e => h0 (by rw [← h2, e]; rfl)
    have : checkParInput a = .error .attributeError := by
      unfold checkParInput
      rw [if_neg (by simpa using h1), if_neg (by push Not; exact ⟨hne, h2, h3⟩), if_neg (by omega), h]
    rw [e, this]
    rfl
  refine ⟨?_, key⟩
  obtain ⟨r1, r2, r3⟩ := C71_rejects a
  rcases lt_trichotomy a.n 0 with hn | hn | hn
  · exact ⟨_, r1 hn⟩
  · exact ⟨_, r2 hn⟩
  · by_cases hbad : a.parDims.length ≠ a.npars ∨ a.parLims.length ≠ a.npars ∨ a.npars = 0 ∨ (∃ r ∈ a.parLims, r.length ≠ 2) ∨
      100000 < a.parDims.prod
    · exact ⟨_, r3 hn hbad⟩
    · push Not at hbad
      exact ⟨_, key hn hbad.2.2.1 hbad.1 hbad.2.1 hbad.2.2.2.1 (by omega)⟩

theorem Py.split_bind {α β : Type} {x : Py α} {f : α → Py β} {b : β} (h : (x >>= f) = .ok b) : ∃ a, x = .ok a ∧ f a = .ok b := by
  cases x with
  | error e => exact absurd h (by simp [bind, Except.bind])
  | ok a => exact ⟨a, rfl, h⟩

/-- **C71, refuted.** `delta_lmd` of a `modelGrid` is never the spacing of its wavelengths (unless both limits are equal): it divides by
the number of wavelengths instead of the number of intervals. -/
theorem C71_spacing_wrong (a : GridArgs) (o : GridObj) (h : GridObj.init a = .ok o) (hn : 2 ≤ a.n) (hlim : a.lmdMin ≠ a.lmdMax) :
    ∃ l0 l1, o.lmd.get [0] = .fin l0 ∧ o.lmd.get [1] = .fin l1 ∧ o.deltaLmd ≠ l1 - l0 ∧ o.deltaLmd * a.n = (l1 - l0) * (a.n - 1) := by
  obtain ⟨k, hk⟩ := Int.eq_succ_of_zero_lt (a := a.n) (by omega)
  obtain ⟨lmd, hl, e⟩ := init_step (a := a) (k := k) hk
  rw [e] at h
  obtain ⟨mk, -, h⟩ := Py.split_bind h
  obtain ⟨es, -, h⟩ := Py.split_bind h
  obtain ⟨g, -, h⟩ := Py.split_bind h
  have ho := (Except.ok.inj h).symm
  have hk1 : 0 < k := by omega
  have hkr : (0 : ℝ) < k := by exact_mod_cast hk1
  have hnr : (a.n : ℝ) = k + 1 := by
    rw [hk]
    push_cast
    rfl
  refine ⟨_, _, by rw [ho]; exact hl.get 0 (by omega), by rw [ho]; exact hl.get 1 (by omega), ?_, ?_⟩
  · rw [ho]
    show (a.lmdMax - a.lmdMin) / a.n ≠ _
    rw [hnr]
    simp only [evenEdges]
    intro hh
    have hd : a.lmdMax - a.lmdMin ≠ 0 := sub_ne_zero.2 (Ne.symm hlim)
    have h2 : (a.lmdMax - a.lmdMin) / (k + 1) = (a.lmdMax - a.lmdMin) / k := by
      rw [hh]
      push_cast
      ring
    rw [div_eq_div_iff (by positivity) hkr.ne'] at h2
    have := mul_left_cancel₀ hd h2
    linarith
  · rw [ho]
    show (a.lmdMax - a.lmdMin) / a.n * a.n = _
    rw [hnr]
    simp only [evenEdges]
    field_simp
    push_cast
    ring

/-- **C71.** The reader of the library: without a directory it fails with `AttributeError` instead of listing the directories, the empty
name fails with `IndexError`, and any other name gets exactly one trailing slash more if it has none. -/
theorem C71_mod_dir :
    modDir none = .error .attributeError ∧ modDir (some []) = .error .indexError ∧
    ∀ (s : PyStr) (c : Char), modDir (some (s ++ [c])) = .ok (.inr (if c = '/' then s ++ ['/'] else s ++ [c, '/'])) := by
  refine ⟨rfl, rfl, fun s c => ?_⟩
  unfold modDir
  simp only [List.getLast?_concat]
  by_cases hc : c = '/' <;> simp [hc]

/-! ### The hypotheses can be met -/

/-- Leave out the points whose coordinates add up to more than one. -/
def demoMask : MaskFn := fun A => match A.shape with
  | 2 :: s => .ok ⟨s, fun i => decide (Num.lt (.fin 1) (A.get (0 :: i) + A.get (1 :: i)))⟩
  | _ => .error .valueError

theorem demoMask_is : MaskIs 2 demoMask (fun x => decide (Num.lt (.fin 1) (x 0 + x 1))) := by
  refine ⟨fun x y h => by beta_reduce; rw [h 0 (by omega), h 1 (by omega)], fun A s hs => ?_⟩
  unfold demoMask
  rw [hs]
  exact ⟨_, rfl, rfl, fun _ _ => rfl⟩

/-- Two parameters, two bins each, the upper right cell left out: three columns. -/
example : ∃ o cells, GridObj.init (gridArgs 5 4000 8000 [(2, 0, 1), (2, 0, 1)] (full [5, 3] (.fin 1)) (some (some demoMask))) = .ok o ∧
    ParGridIs o.grid (evenAxes [(2, 0, 1), (2, 0, 1)]) (some fun x => decide (Num.lt (.fin 1) (x 0 + x 1))) cells ∧
    [0, 1] ∈ cells ∧ [1, 1] ∉ cells := by
  obtain ⟨o, cells, h1, h2, -⟩ := C71_grid_partial 4 4000 8000 [(2, 0, 1), (2, 0, 1)] (full [5, 3] (.fin 1)) (some demoMask)
    (some fun x => decide (Num.lt (.fin 1) (x 0 + x 1))) (by simp) (by norm_num) demoMask_is
  have e01 : cellPoint (evenAxes [(2, 0, 1), (2, 0, 1)]) [0, 1] 0 + cellPoint (evenAxes [(2, 0, 1), (2, 0, 1)]) [0, 1] 1 = 1 := by
    norm_num [cellPoint, evenAxes, evenEdges, centre]
  have e11 : cellPoint (evenAxes [(2, 0, 1), (2, 0, 1)]) [1, 1] 0 + cellPoint (evenAxes [(2, 0, 1), (2, 0, 1)]) [1, 1] 1 = 3 / 2 := by
    norm_num [cellPoint, evenAxes, evenEdges, centre]
  refine ⟨o, cells, by exact_mod_cast h1, h2, (h2.mem _).2 ⟨⟨by simp, by simp, trivial⟩, ?_⟩, fun h => ?_⟩
  · refine decide_eq_false fun (h : (1 : ℝ) < _ + _) => ?_
    rw [e01] at h
    exact lt_irrefl _ h
  · have h3 := ((h2.mem _).1 h).2
    refine absurd (of_decide_eq_false h3) (not_not.2 (show (1 : ℝ) < _ + _ from ?_))
    rw [e11]
    norm_num

/-- A grid to which `C71_spacing_wrong` applies. -/
example : ∃ o, GridObj.init (gridArgs 3 0 6 [(2, 0, 1)] (full [3, 2] (.fin 1)) (some none)) = .ok o ∧ o.deltaLmd = 2 := by
  obtain ⟨o, cells, h1, -, -, -, hl, -⟩ := C71_grid_partial 2 0 6 [(2, 0, 1)] (full [3, 2] (.fin 1)) none none (by simp) (by norm_num) trivial
  refine ⟨o, by exact_mod_cast h1, ?_⟩
  obtain ⟨l0, l1, h0, h1', -, h3⟩ := C71_spacing_wrong _ o h1 (by simp [gridArgs]) (by simp [gridArgs])
  rw [hl.get 0 (by omega)] at h0
  rw [hl.get 1 (by omega)] at h1'
  have a0 := Num.fin.inj h0
  have a1 := Num.fin.inj h1'
  rw [← a0, ← a1] at h3
  norm_num [gridArgs, evenEdges] at h3
  linarith

end PKM
