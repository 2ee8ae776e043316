import Verif.Gives
import Verif.Bcast

/-! Lemmas about the volume element and variable accessors of a cube that represents a grid. -/

open scoped Classical

noncomputable section

namespace PKM
open Np

theorem Is1.fin {a : Arr Num} {n : ℕ} {f : ℕ → ℝ} (h : Is1 a n f) (i : Fin n) :
    a.get [(i : ℕ)] = .fin (f i) := h.get i i.2

/-- `e[1:] - e[:-1]` of an edge array gives the bin widths. -/
theorem diff_edges {a : Arr Num} {n : ℕ} {f : ℕ → ℝ} (h : Is1 a (n + 1) f) :
    ∃ d, (do let hi ← getitem [.sl 1 none] a
             let lo ← getitem [.sl 0 (some (-1))] a
             sub hi lo : Py (Arr Num)) = .ok d ∧ Is1 d n (width f) := by
  have hl : slLen (n + 1) 1 none = n := by simp [slLen, slStop, slStart]
  have hl' : slLen (n + 1) 0 (some (-1)) = n := by simp [slLen, slStop, slStart]
  refine ⟨⟨[n], fun i => a.get (ixIdx [.sl 1 none] [n+1] (bproj [n] i)) -
    a.get (ixIdx [.sl 0 (some (-1))] [n+1] (bproj [n] i))⟩, ?_, rfl, ?_⟩
  · simp [getitem, ixShape, h.shape, sub, bop, hl, hl', bshapeR]
  · intro i hi
    have h0 := h.get i (by omega)
    have h1 := h.get (i + 1) (by omega)
    have : bproj [n] [i] = [i] := by simp [bproj, bidx_lt hi]
    simp only [this]
    have e1 : ixIdx [.sl 1 none] [n+1] [i] = [i + 1] := by
      simp [ixIdx, slStart]; omega
    have e2 : ixIdx [.sl 0 (some (-1))] [n+1] [i] = [i] := by
      simp [ixIdx, slStart]
    rw [e1, e2, h0, h1]; simp [width]

/-- `(e[:-1] + e[1:]) / 2` of an edge array gives the bin centres. -/
theorem mid_edges {a : Arr Num} {n : ℕ} {f : ℕ → ℝ} (h : Is1 a (n + 1) f) :
    ∃ d, (do let lo ← getitem [.sl 0 (some (-1))] a
             let hi ← getitem [.sl 1 none] a
             let s ← add lo hi
             .ok (Np.map (fun d => d / .fin 2) s) : Py (Arr Num)) = .ok d ∧
      Is1 d n (centre f) := by
  have hl : slLen (n + 1) 1 none = n := by simp [slLen, slStop, slStart]
  have hl' : slLen (n + 1) 0 (some (-1)) = n := by simp [slLen, slStop, slStart]
  refine ⟨⟨[n], fun i => (a.get (ixIdx [.sl 0 (some (-1))] [n+1] (bproj [n] i)) +
    a.get (ixIdx [.sl 1 none] [n+1] (bproj [n] i))) / .fin 2⟩, ?_, rfl, ?_⟩
  · simp [getitem, ixShape, h.shape, add, bop, hl, hl', bshapeR, Np.map]
  · intro i hi
    have h0 := h.get i (by omega)
    have h1 := h.get (i + 1) (by omega)
    have : bproj [n] [i] = [i] := by simp [bproj, bidx_lt hi]
    simp only [this]
    have e1 : ixIdx [.sl 1 none] [n+1] [i] = [i + 1] := by
      simp [ixIdx, slStart]; omega
    have e2 : ixIdx [.sl 0 (some (-1))] [n+1] [i] = [i] := by
      simp [ixIdx, slStart]
    rw [e1, e2, h0, h1, Num.fin_add, Num.fin_div _ _ (by norm_num)]; rfl

/-! ### The volume element -/

/-- Length of the axis of the volume element for one character (`y` = second position axis). -/
def volDim (g : Grid) (ch : Char) : ℕ :=
  if ch = 't' then g.nt else if ch = 'v' then g.nv else if ch = 'z' then g.nz else 1

/-- Width factor for one character. Position bins all have the width of bin 0. -/
def volW (g : Grid) (ch : Char) (i : ℕ) : ℝ :=
  if ch = 't' then width g.t i else if ch = 'v' then width g.v i
  else if ch = 'x' then width g.x 0 else if ch = 'y' then width g.y 0
  else width g.z i

/-- Product of width factors. -/
def volProd (g : Grid) : List Char → List ℕ → ℝ
  | ch :: r, i :: is => volW g ch i * volProd g r is
  | _, _ => 1

theorem volProd_append (g : Grid) : ∀ (p : List Char) (i : List ℕ) (q : List Char) (j : List ℕ),
    p.length = i.length → volProd g (p ++ q) (i ++ j) = volProd g p i * volProd g q j
  | [], [], q, j, _ => by simp [volProd]
  | a :: p, b :: i, q, j, h => by
      simp [volProd, volProd_append g p i q j (by simpa using h), mul_assoc]

theorem volDa_is {c : IFUCube} {g : Grid} (h : CubeIs c g) (hx : 0 < g.nx) (hy : 0 < g.ny)
    {ch : Char} (hch : ch ∈ ['t','v','x','y','z']) (p : Option (Arr Num)) :
    ∃ d, c.volDa ch p = .ok d ∧ Is1 d (volDim g ch) (volW g ch) := by
  fin_cases hch
  · exact ⟨c.ssps.deltaT, by simp [IFUCube.volDa], h.deltaT⟩
  · obtain ⟨d, hd, hd'⟩ := diff_edges h.vEdg
    exact ⟨d, by simpa [IFUCube.volDa] using hd, hd'⟩
  · refine ⟨_, by simp [IFUCube.volDa]; rfl, rfl, ?_⟩
    intro i _
    exact h.dx 0 hx
  · refine ⟨_, by simp [IFUCube.volDa]; rfl, rfl, ?_⟩
    intro i _
    exact h.dy 0 hy
  · exact ⟨c.ssps.deltaZ, by simp [IFUCube.volDa], h.deltaZ⟩

theorem inBox_length' : ∀ {s i : List ℕ}, InBox s i → s.length = i.length := fun h =>
  (inBox_length h).symm

theorem inBox_replicate_one (k : ℕ) : InBox (List.replicate k 1) (List.replicate k 0) := by
  induction k with
  | zero => exact trivial
  | succ k ih => exact ⟨by norm_num, ih⟩

theorem inBox_ones : ∀ {k : ℕ} {i : List ℕ}, InBox (List.replicate k 1) i → i = List.replicate k 0
  | 0, [], _ => rfl
  | k + 1, a :: i, h => by
      have := inBox_ones (k := k) h.2
      have h1 : a < 1 := h.1
      simp [List.replicate_succ, this]; omega

theorem inBox_split : ∀ {s t i : List ℕ}, InBox (s ++ t) i →
    ∃ j k, i = j ++ k ∧ InBox s j ∧ InBox t k
  | [], t, i, h => ⟨[], i, rfl, trivial, h⟩
  | n :: s, t, a :: i, h => by
      obtain ⟨j, k, rfl, hj, hk⟩ := inBox_split h.2
      exact ⟨a :: j, k, rfl, ⟨h.1, hj⟩, hk⟩

theorem volLoop_is {c : IFUCube} {g : Grid} (h : CubeIs c g) (hx : 0 < g.nx) (hy : 0 < g.ny) :
    ∀ (rest : List Char) (pre : List Char) (prev : Option (Arr Num)) (dvol : Arr Num) (ndim : ℕ),
    (∀ ch ∈ rest, ch ∈ ['t','v','x','y','z']) →
    ndim = pre.length + rest.length →
    dvol.shape = pre.map (volDim g) ++ List.replicate rest.length 1 →
    (∀ i, InBox (pre.map (volDim g)) i →
      dvol.get (i ++ List.replicate rest.length 0) = .fin (volProd g pre i)) →
    ∃ r, c.volLoop ndim pre.length rest prev dvol = .ok r ∧
      r.shape = (pre ++ rest).map (volDim g) ∧
      ∀ i, InBox ((pre ++ rest).map (volDim g)) i → r.get i = .fin (volProd g (pre ++ rest) i)
  | [], pre, prev, dvol, ndim, _, _, hs, hg => by
      refine ⟨dvol, rfl, by simpa using hs, fun i hi => ?_⟩
      simpa using hg i (by simpa using hi)
  | ch :: rest, pre, prev, dvol, ndim, hch, hn, hs, hg => by
      obtain ⟨da, hda, hd⟩ := volDa_is h hx hy (hch ch (by simp)) prev
      have hn' : ndim - pre.length - 1 = rest.length := by simp at hn; omega
      -- the reshaped width array
      have hsh : ixShape (List.replicate pre.length .na ++ [.all] ++ List.replicate rest.length .na)
          da.shape = .ok (List.replicate pre.length 1 ++ volDim g ch :: List.replicate rest.length 1) := by
        rw [List.append_assoc, ixShape_replicate_na, hd.shape]
        have := ixShape_replicate_na rest.length [] []
        simp only [List.append_nil, ixShape, Py.ok_bind] at this
        simp [ixShape, this]
      let d2 : Arr Num := ⟨List.replicate pre.length 1 ++ volDim g ch :: List.replicate rest.length 1,
        fun i => da.get (ixIdx (List.replicate pre.length .na ++ [.all] ++
          List.replicate rest.length .na) da.shape i)⟩
      have hd2 : getitem (List.replicate pre.length .na ++ [.all] ++
          List.replicate (ndim - pre.length - 1) .na) da = .ok d2 := by
        rw [hn', getitem, hsh]; rfl
      have hbc : BC dvol.shape d2.shape
          (pre.map (volDim g) ++ volDim g ch :: List.replicate rest.length 1) := by
        rw [hs]
        refine BC.append ?_ ?_
        · have := BC.ones_right (pre.map (volDim g)); simpa using this
        · rw [List.length_cons, List.replicate_succ]
          exact .cons (by simp) (BC.self _)
      obtain ⟨dv2, hm, hms, hmg⟩ := bop_of_BC (· * ·) hbc
      have hms' : dv2.shape = (pre ++ [ch]).map (volDim g) ++ List.replicate rest.length 1 := by
        rw [hms]; simp
      have ih := volLoop_is h hx hy rest (pre ++ [ch]) (some da) dv2 ndim
        (fun q hq => hch q (by simp [hq])) (by simp at hn ⊢; omega) hms' ?_
      · obtain ⟨r, hr, hrs, hrg⟩ := ih
        refine ⟨r, ?_, by simpa using hrs, fun i hi => ?_⟩
        · have hl : (pre ++ [ch]).length = pre.length + 1 := by simp
          rw [hl] at hr
          simp only [IFUCube.volLoop, hda, Py.ok_bind, hd2]
          have : Np.mul dvol d2 = .ok dv2 := hm
          rw [this, Py.ok_bind, hr]
        · have := hrg i (by simpa using hi)
          simpa using this
      · intro i hi
        rw [List.map_append] at hi
        obtain ⟨j, k, rfl, hj, hk⟩ := inBox_split hi
        cases k with
        | nil => exact hk.elim
        | cons k k' =>
          cases k' with
          | cons _ _ => exact hk.2.elim
          | nil =>
            have hjl : j.length = pre.length := by rw [← inBox_length' hj]; simp
            have hk1 : k < volDim g ch := hk.1
            rw [hmg _ (by simp [hjl])]
            have e1 : List.zipWith bidx dvol.shape (j ++ [k] ++ List.replicate rest.length 0) =
                j ++ List.replicate (ch :: rest).length 0 := by
              rw [hs, List.append_assoc, List.zipWith_append (by simp [hjl]), zipWith_bidx_box hj]
              congr 1
              exact zipWith_bidx_ones _ _ (by simp)
            have e2 : List.zipWith bidx d2.shape (j ++ [k] ++ List.replicate rest.length 0) =
                List.replicate pre.length 0 ++ k :: List.replicate rest.length 0 := by
              show List.zipWith bidx (List.replicate pre.length 1 ++ volDim g ch ::
                List.replicate rest.length 1) _ = _
              rw [List.append_assoc, List.zipWith_append (by simp [hjl]),
                zipWith_bidx_ones _ _ hjl]
              simp [bidx_lt hk1]
            rw [e1, e2, hg j hj]
            have e3 : d2.get (List.replicate pre.length 0 ++ k :: List.replicate rest.length 0) =
                .fin (volW g ch k) := by
              show da.get (ixIdx (List.replicate pre.length .na ++ [.all] ++
                List.replicate rest.length .na) da.shape _) = _
              have := ixIdx_replicate_na (List.replicate pre.length 0)
                ([.all] ++ List.replicate rest.length .na) da.shape
                (k :: List.replicate rest.length 0)
              rw [List.length_replicate] at this
              rw [List.append_assoc, this, hd.shape]
              have h2 := ixIdx_replicate_na (List.replicate rest.length 0) [] [] []
              simp only [List.length_replicate, List.append_nil] at h2
              simp [ixIdx, h2, hd.get k hk1]
            rw [e3, Num.fin_mul, volProd_append g _ _ _ _ (by simp [hjl])]
            simp [volProd]

/-- Characters that may appear in a distribution string. -/
def DistChars (w : PyStr) : Prop := ∀ ch ∈ w, ch ∈ ['t','v','x','z']

theorem replaceX_chars {w : PyStr} (h : DistChars w) :
    ∀ ch ∈ PyStr.replaceX w, ch ∈ ['t','v','x','y','z'] := by
  induction w with
  | nil => simp [PyStr.replaceX]
  | cons a w ih =>
    have ih' := ih (fun ch hc => h ch (by simp [hc]))
    have ha := h a (by simp)
    intro ch hch
    simp only [PyStr.replaceX] at hch
    split at hch
    · simp only [List.mem_cons] at hch
      rcases hch with rfl | rfl | hch
      · simp
      · simp
      · exact ih' ch hch
    · simp only [List.mem_cons] at hch
      rcases hch with rfl | hch
      · revert ha; simp; tauto
      · exact ih' ch hch

/-- Axis lengths of the volume element broadcast to the axis lengths of the distribution. -/
theorem BC_vol (g : Grid) {w : PyStr} (h : DistChars w) :
    BC ((PyStr.replaceX w).map (volDim g)) (g.shapeOf w) (g.shapeOf w) := by
  induction w with
  | nil => exact .nil
  | cons a w ih =>
    have ih' := ih (fun ch hc => h ch (by simp [hc]))
    have ha := h a (by simp)
    have : g.shapeOf (a :: w) = g.shape1 a ++ g.shapeOf w := by simp [Grid.shapeOf]
    rw [this]
    fin_cases ha
    · simpa [PyStr.replaceX, volDim, Grid.shape1] using BC.cons (bdim_self _) ih'
    · simpa [PyStr.replaceX, volDim, Grid.shape1] using BC.cons (bdim_self _) ih'
    · simpa [PyStr.replaceX, volDim, Grid.shape1] using
        BC.cons (bdim_one_left g.nx) (BC.cons (bdim_one_left g.ny) ih')
    · simpa [PyStr.replaceX, volDim, Grid.shape1] using BC.cons (bdim_self _) ih'

theorem zipWith_bidx_of_BC : ∀ {s t r i : List ℕ}, BC s t r → InBox t i → t = r →
    InBox s (List.zipWith bidx s i)
  | [], _, _, i, h, hi, ht => by cases h; cases i <;> simp_all [InBox]
  | a :: s, b :: t, d :: r, j :: i, .cons hd h, hi, ht => by
      obtain ⟨rfl, rfl⟩ := List.cons.inj ht
      refine ⟨?_, zipWith_bidx_of_BC h hi.2 rfl⟩
      have h1 := hi.1
      unfold bidx
      split
      · next h => omega
      · next hn =>
        unfold bdim at hd
        split at hd
        · next e => omega
        · simp at hd
          omega

theorem volProd_coords {c : IFUCube} {g : Grid} (h : CubeIs c g) {w : PyStr} (hw : DistChars w)
    {cell : Cell} (hc : g.Has cell) :
    volProd g (PyStr.replaceX w) (List.zipWith bidx ((PyStr.replaceX w).map (volDim g)) (coords w cell))
      = g.volOf w cell := by
  obtain ⟨h1, h2, h3, h4, h5⟩ := hc
  have hx : width g.x 0 = width g.x cell.x := by
    have e1 := h.dx 0 (by omega); have e2 := h.dx _ h3
    rw [e1] at e2; exact Num.fin_injective e2
  have hy : width g.y 0 = width g.y cell.y := by
    have e1 := h.dy 0 (by omega); have e2 := h.dy _ h4
    rw [e1] at e2; exact Num.fin_injective e2
  induction w with
  | nil => simp [PyStr.replaceX, volProd, Grid.volOf]
  | cons a w ih =>
    have ih' := ih (fun ch hc => hw ch (by simp [hc]))
    have ha := hw a (by simp)
    have e1 : coords (a :: w) cell = coord1 cell a ++ coords w cell := by simp [coords]
    have e2 : g.volOf (a :: w) cell = g.width1 cell a * g.volOf w cell := by simp [Grid.volOf]
    rw [e1, e2, ← ih']
    fin_cases ha <;>
      simp [PyStr.replaceX, volDim, coord1, Grid.width1, volProd, volW, bidx_lt, h1, h2, h5, hx, hy,
        mul_assoc]

theorem split_noUnderscore : ∀ {w : PyStr}, '_' ∉ w → PyStr.split '_' w = [w]
  | [], _ => rfl
  | a :: w, h => by
      have ha : a ≠ '_' := fun e => h (by simp [e])
      have := split_noUnderscore (w := w) (fun e => h (by simp [e]))
      simp [PyStr.split, ha, this]

theorem split_condStr : ∀ {a b : PyStr}, '_' ∉ a → '_' ∉ b → PyStr.split '_' (condStr a b) = [a, b]
  | [], b, _, hb => by simp [condStr, PyStr.split, split_noUnderscore hb]
  | c :: a, b, ha, hb => by
      have hc : c ≠ '_' := fun e => ha (by simp [e])
      have := split_condStr (a := a) (b := b) (fun e => ha (by simp [e])) hb
      simp only [condStr] at this
      simp [condStr, PyStr.split, hc, this]

theorem DistChars.noUnderscore {w : PyStr} (h : DistChars w) : '_' ∉ w := fun hc => by
  have := h _ hc; revert this; decide

theorem shapeOf_length {w : PyStr} (h : DistChars w) (g : Grid) :
    (PyStr.replaceX w).length = (g.shapeOf w).length := by
  have := (BC_vol g h).length_left
  simpa using this

/-- Volume element of a string without underscore. -/
theorem volumeElement_plain {c : IFUCube} {g : Grid} (h : CubeIs c g) (hx : 0 < g.nx) (hy : 0 < g.ny)
    {w : PyStr} (hw : DistChars w) :
    ∃ a, c.constructVolumeElement w = .ok a ∧ a.shape = (PyStr.replaceX w).map (volDim g) ∧
      BArr g w a (fun cell => .fin (g.volOf w cell)) := by
  obtain ⟨r, hr, hrs, hrg⟩ := volLoop_is h hx hy (PyStr.replaceX w) [] none
    (full (List.replicate (PyStr.replaceX w).length 1) (.fin 1)) (PyStr.replaceX w).length
    (replaceX_chars hw) (by simp) (by simp [full]) (by
      intro i hi; cases i with
      | nil => simp [full, volProd]
      | cons _ _ => exact hi.elim)
  simp only [List.nil_append, List.length_nil] at hr hrs hrg
  have hix : ixShape (List.replicate r.shape.length .all) r.shape = .ok r.shape := by
    have := ixShape_replicate_all r.shape [] []
    simpa [ixShape] using this
  have hget : ∀ i, i.length = r.shape.length →
      ixIdx (List.replicate r.shape.length .all) r.shape i = i := by
    intro i hi
    have := ixIdx_replicate_all r.shape i [] [] [] hi.symm
    simpa [ixIdx] using this
  refine ⟨⟨r.shape, fun i => r.get (ixIdx (List.replicate r.shape.length .all) r.shape i)⟩, ?_, hrs,
    ?_, ?_⟩
  · simp [IFUCube.constructVolumeElement, hw.noUnderscore, hr, getitem, hix]
  · simp only [hrs]; exact (BC_vol g hw).bshapeR
  · intro cell hc
    have hb := inBox_coords hc w
    simp only
    rw [bproj_eqlen (by rw [hrs, ← inBox_length' hb]; simp [shapeOf_length hw g]), hrs]
    have hb2 := zipWith_bidx_of_BC (BC_vol g hw) hb rfl
    rw [hrs] at hget
    rw [hget _ (inBox_length hb2), hrg _ hb2, volProd_coords h hw hc]

theorem shapeOf_condStr (g : Grid) (a b : PyStr) :
    g.shapeOf (condStr a b) = g.shapeOf a ++ g.shapeOf b := by
  simp [condStr, Grid.shapeOf, Grid.shape1]

theorem coords_condStr (cell : Cell) (a b : PyStr) :
    coords (condStr a b) cell = coords a cell ++ coords b cell := by
  simp [condStr, coords, coord1]

/-- Volume element of a conditional string: that of the dependent variables. -/
theorem volumeElement_cond_shape {c : IFUCube} {g : Grid} (h : CubeIs c g) (hx : 0 < g.nx)
    (hy : 0 < g.ny) {a b : PyStr} (ha : DistChars a) (hb : DistChars b) :
    ∃ d, c.constructVolumeElement (condStr a b) = .ok d ∧
      d.shape = (PyStr.replaceX a).map (volDim g) ++ List.replicate (PyStr.replaceX b).length 1 ∧
      BArr g (condStr a b) d (fun cell => .fin (g.volOf a cell)) := by
  obtain ⟨r, hr, hrs, hrg⟩ := volLoop_is h hx hy (PyStr.replaceX a) [] none
    (full (List.replicate (PyStr.replaceX a).length 1) (.fin 1)) (PyStr.replaceX a).length
    (replaceX_chars ha) (by simp) (by simp [full]) (by
      intro i hi; cases i with
      | nil => simp [full, volProd]
      | cons _ _ => exact hi.elim)
  simp only [List.nil_append, List.length_nil] at hr hrs hrg
  have hix : ixShape (List.replicate r.shape.length .all ++ List.replicate (PyStr.replaceX b).length .na)
      r.shape = .ok (r.shape ++ List.replicate (PyStr.replaceX b).length 1) := by
    have := ixShape_replicate_all r.shape (List.replicate (PyStr.replaceX b).length .na) []
    rw [List.append_nil] at this
    rw [this]
    have := ixShape_replicate_na (PyStr.replaceX b).length [] []
    simp only [List.append_nil] at this
    rw [this]; simp [ixShape]
  have hget : ∀ i j, i.length = r.shape.length → j.length = (PyStr.replaceX b).length →
      ixIdx (List.replicate r.shape.length .all ++ List.replicate (PyStr.replaceX b).length .na)
        r.shape (i ++ j) = i := by
    intro i j hi hj
    have := ixIdx_replicate_all r.shape i (List.replicate (PyStr.replaceX b).length .na) [] j hi.symm
    rw [List.append_nil] at this
    rw [this, ← hj]
    have := ixIdx_replicate_na j [] [] []
    simp only [List.append_nil] at this
    rw [this]; simp [ixIdx]
  refine ⟨⟨r.shape ++ List.replicate (PyStr.replaceX b).length 1, fun i => r.get
    (ixIdx (List.replicate r.shape.length .all ++ List.replicate (PyStr.replaceX b).length .na)
      r.shape i)⟩, ?_, by simp only [hrs], ?_, ?_⟩
  · have hm : '_' ∈ condStr a b := by simp [condStr]
    simp [IFUCube.constructVolumeElement, hm, split_condStr ha.noUnderscore hb.noUnderscore, hr,
      getitem, hix]
  · simp only [hrs, shapeOf_condStr]
    refine BC.bshapeR (BC.append (BC_vol g ha) ?_)
    rw [shapeOf_length hb g]
    exact BC.ones_left _
  · intro cell hc
    have hba := inBox_coords hc a
    have hbb := inBox_coords hc b
    have hl : (List.map (volDim g) (PyStr.replaceX a)).length = (coords a cell).length := by
      rw [← inBox_length' hba]; simp [shapeOf_length ha g]
    have hl2 : (PyStr.replaceX b).length = (coords b cell).length := by
      rw [← inBox_length' hbb]; simp [shapeOf_length hb g]
    simp only [coords_condStr]
    rw [bproj_eqlen (by rw [hrs, List.length_append, List.length_append, hl]; simp [hl2]), hrs,
      List.zipWith_append hl]
    have hb2 := zipWith_bidx_of_BC (BC_vol g ha) hba rfl
    rw [hrs] at hget
    rw [hget _ _ (inBox_length hb2) (by simp [hl2]), hrg _ hb2, volProd_coords h ha hc]

theorem volumeElement_cond {c : IFUCube} {g : Grid} (h : CubeIs c g) (hx : 0 < g.nx) (hy : 0 < g.ny)
    {a b : PyStr} (ha : DistChars a) (hb : DistChars b) :
    ∃ d, c.constructVolumeElement (condStr a b) = .ok d ∧
      BArr g (condStr a b) d (fun cell => .fin (g.volOf a cell)) := by
  obtain ⟨d, h1, -, h2⟩ := volumeElement_cond_shape h hx hy ha hb
  exact ⟨d, h1, h2⟩

end PKM
