import Verif.Ssp
import Verif.YbarLemmas
import Verif.InitLemmas

/-! Lemmas about the SSP parameter grid: edges, rebinning. -/

open scoped Classical

noncomputable section

namespace PKM
open Np

/-- The object describes a grid of `nz` metallicity bins with edges `z`, `nt` age bins with edges `t`, and holds the spectra
`S k i j` (wavelength `k`, metallicity bin `i`, age bin `j`) at `n` wavelengths, in column `i * nt + j`. -/
structure GridIs (g : SspGrid) (n nt nz : ℕ) (t z : ℕ → ℝ) (S : ℕ → ℕ → ℕ → ℝ) : Prop where
  tEdges : Is1 g.tEdges (nt + 1) t
  zEdges : Is1 g.zEdges (nz + 1) z
  tCents : Is1 g.tCents nt (centre t)
  zCents : Is1 g.zCents nz (centre z)
  deltaT : Is1 g.deltaT nt (width t)
  deltaZ : Is1 g.deltaZ nz (width z)
  dims : g.parDims = [nz, nt]
  xShape : g.X.shape = [n, nz * nt]
  x : ∀ k < n, ∀ i < nz, ∀ j < nt, g.X.get [k, i * nt + j] = .fin (S k i j)

/-- Number of groups of `r` consecutive bins out of `n`, the last one possibly smaller. -/
def groups (n r : ℕ) : ℕ := (n + r - 1) / r

/-- Edge `i` after merging groups of `r` of the `n` bins. -/
def groupEdge (e : ℕ → ℝ) (n r i : ℕ) : ℝ := e (min (i * r) n)

/-- The bins merged into group `i`. -/
def group (n r i : ℕ) : Finset ℕ := Finset.Ico (i * r) (min ((i + 1) * r) n)

theorem groups_le {n r i : ℕ} (hr : 0 < r) (hi : i < groups n r) : i * r < n := by
  unfold groups at hi
  have h := (Nat.lt_div_iff_mul_lt hr).1 hi
  have e : (n + r - 1) - (r - 1) = n := by omega
  omega

theorem groups_ge {n r : ℕ} (hr : 0 < r) : n ≤ groups n r * r := by
  unfold groups
  have h := Nat.div_add_mod (n + r - 1) r
  have h2 := Nat.mod_lt (n + r - 1) hr
  have e : r * ((n + r - 1) / r) = (n + r - 1) / r * r := Nat.mul_comm _ _
  omega

theorem groups_pos {n r : ℕ} (hr : 0 < r) (hn : 0 < n) : 0 < groups n r :=
  Nat.div_pos (by omega) hr

theorem edgeCents_is {a : Arr Num} {n : ℕ} {f : ℕ → ℝ} (h : Is1 a (n + 1) f) :
    ∃ d, edgeCents a = .ok d ∧ Is1 d n (centre f) := mid_edges h

theorem edgeWidths_is {a : Arr Num} {n : ℕ} {f : ℕ → ℝ} (h : Is1 a (n + 1) f) :
    ∃ d, edgeWidths a = .ok d ∧ Is1 d n (width f) := diff_edges h

theorem Is0.stack {a : Arr Num} {x : ℝ} (h : Is0 a x) : ∃ r, Np.stack [a] = .ok r ∧ Is1 r 1 (fun _ => x) := by
  refine ⟨⟨[1], fun i => ([a].getD (i.headD 0) a).get i.tail⟩, by simp [Np.stack, h.shape], rfl, ?_⟩
  intro i hi
  obtain rfl : i = 0 := by omega
  simp [h.get]

theorem Is1.concat {a b : Arr Num} {n m : ℕ} {f k : ℕ → ℝ} (ha : Is1 a n f) (hb : Is1 b m k) :
    ∃ r, concat0 a b = .ok r ∧ Is1 r (n + m) (fun i => if i < n then f i else k (i - n)) := by
  refine ⟨⟨[n + m], fun i => if i.headD 0 < n then a.get i else b.get ((i.headD 0 - n) :: i.tail)⟩,
    by simp [concat0, ha.shape, hb.shape], rfl, ?_⟩
  intro i hi
  simp only [List.headD_cons, List.tail_cons]
  by_cases h : i < n
  · simp only [h, if_true]; exact ha.get i h
  · simp only [h, if_false]; exact hb.get (i - n) (by omega)

theorem stride_is {a : Arr Num} {n r : ℕ} {f : ℕ → ℝ} (h : Is1 a (n + 1) f) (hr : 0 < r) :
    ∃ s, stride r a = .ok s ∧ Is1 s (n / r + 1) (fun i => f (i * r)) := by
  have e : (n + 1 + r - 1) / r = n / r + 1 := by
    rw [show n + 1 + r - 1 = n + r by omega, Nat.add_div_right _ hr]
  refine ⟨⟨[(n + 1 + r - 1) / r], fun i => a.get (i.headD 0 * r :: i.tail)⟩, ?_, by rw [e], ?_⟩
  · simp [stride, h.shape, hr.ne']
  · intro i hi
    refine h.get (i * r) ?_
    have := Nat.div_mul_le_self n r
    have := Nat.mul_le_mul_right r (Nat.lt_succ_iff.1 hi)
    omega

theorem eqv_fin (a b : ℝ) : Num.eqv (.fin a) (.fin b) ↔ a = b := by simp [Num.eqv]

theorem rebinEdges_is {a : Arr Num} {n r : ℕ} {e : ℕ → ℝ} (h : Is1 a (n + 1) e) (hr : 0 < r)
    (hd : ∀ i < n, e i ≠ e n) :
    ∃ s, rebinEdges a r = .ok s ∧ Is1 s (groups n r + 1) (groupEdge e n r) := by
  obtain ⟨s, hs, hs'⟩ := stride_is h hr
  obtain ⟨x, hx, hx'⟩ := hs'.last
  obtain ⟨y, hy, hy'⟩ := h.last
  have hle : n / r * r ≤ n := Nat.div_mul_le_self n r
  by_cases hdvd : n / r * r = n
  · have hg : groups n r = n / r := by
      unfold groups
      rw [Nat.div_eq_iff hr]
      omega
    refine ⟨s, ?_, ?_⟩
    · simp only [rebinEdges, hs, hx, hy, Py.ok_bind, hx'.get, hy'.get, eqv_fin, hdvd, if_true]
    · rw [hg]
      refine hs'.congr fun i hi => ?_
      have := Nat.mul_le_mul_right r (Nat.lt_succ_iff.1 hi)
      simp only [groupEdge]
      rw [Nat.min_eq_left (by omega)]
  · have hlt : n / r * r < n := by omega
    have hg : groups n r = n / r + 1 := by
      have := Nat.lt_mul_div_succ n hr
      have e : r * (n / r + 1) = n / r * r + r := by ring
      unfold groups
      rw [Nat.div_eq_iff hr, Nat.add_mul]
      omega
    obtain ⟨l, hl, hl'⟩ := hy'.stack
    obtain ⟨c, hc, hc'⟩ := hs'.concat hl'
    refine ⟨c, ?_, ?_⟩
    · simp only [rebinEdges, hs, hx, hy, Py.ok_bind, hx'.get, hy'.get, eqv_fin, hd _ hlt, if_false, hl, hc]
    · rw [hg]
      refine hc'.congr fun i hi => ?_
      simp only [groupEdge]
      split_ifs with hi'
      · have := Nat.mul_le_mul_right r (Nat.lt_succ_iff.1 hi')
        rw [Nat.min_eq_left (by omega)]
      · have : i = n / r + 1 := by omega
        have h2 := Nat.lt_mul_div_succ n hr
        have e : r * (n / r + 1) = i * r := by rw [this]; ring
        rw [Nat.min_eq_right (by omega)]

theorem rebinSlice_is {a s : Arr Num} {n r i : ℕ} {e : ℕ → ℝ} (h : Is1 a (n + 1) e) (hr : 0 < r)
    (hd : ∀ i < n, e i ≠ e n) (hs : Is1 s (groups n r + 1) (groupEdge e n r)) (hi : i < groups n r) :
    ∃ b, rebinSlice a s r i = .ok (.sl ((i * r : ℕ) : ℤ) b) ∧ slStart n ((i * r : ℕ) : ℤ) = i * r ∧
      slLen n ((i * r : ℕ) : ℤ) b = min ((i + 1) * r) n - i * r := by
  obtain ⟨x, hx, hx'⟩ := hs.at (k := i + 1) (by omega)
  obtain ⟨y, hy, hy'⟩ := h.last
  have hin := groups_le hr hi
  have hstart : slStart n ((i * r : ℕ) : ℤ) = i * r := by
    have h0 : ¬ ((i * r : ℕ) : ℤ) < 0 := by omega
    rw [slStart, if_neg h0, Int.toNat_natCast, Nat.min_eq_left hin.le]
  by_cases hl : n ≤ (i + 1) * r
  · refine ⟨none, ?_, hstart, ?_⟩
    · simp only [rebinSlice, hx, hy, Py.ok_bind, hx'.get, hy'.get, eqv_fin, groupEdge, Nat.min_eq_right hl, if_true]
    · rw [slLen, hstart, Nat.min_eq_right hl]; rfl
  · refine ⟨some (((i + 1) * r : ℕ) : ℤ), ?_, hstart, ?_⟩
    · simp only [rebinSlice, hx, hy, Py.ok_bind, hx'.get, hy'.get, eqv_fin, groupEdge, Nat.min_eq_left (le_of_not_ge hl),
        hd _ (lt_of_not_ge hl), if_false]
    · have h0 : ¬ (((i + 1) * r : ℕ) : ℤ) < 0 := by omega
      rw [slLen, hstart, slStop, slStart, if_neg h0, Int.toNat_natCast]

theorem sum_group {M : Type} [AddCommMonoid M] (n r i : ℕ) (f : ℕ → M) :
    ∑ j : Fin (min ((i + 1) * r) n - i * r), f (i * r + j) = ∑ a ∈ group n r i, f a := by
  rw [group, Finset.sum_Ico_eq_sum_range, Finset.sum_range]

/-- Average of the spectra in a pair of groups, weighted with the bin areas. -/
def groupMean (nz nt zr tr : ℕ) (z t : ℕ → ℝ) (S : ℕ → ℕ → ℕ → ℝ) (k i j : ℕ) : ℝ :=
  (∑ a ∈ group nz zr i, ∑ b ∈ group nt tr j, S k a b * (width z a * width t b)) /
    ∑ a ∈ group nz zr i, ∑ b ∈ group nt tr j, width z a * width t b

theorem sort12 : ([1, 2] : List ℕ).insertionSort (· ≥ ·) = [2, 1] := by decide

theorem sum12 (n a b : ℕ) (f : List ℕ → Num) : Np.sum [1, 2] (⟨[n, a, b], f⟩ : Arr Num) =
    .ok ⟨[n], fun m => ∑ i : Fin a, ∑ j : Fin b, f ((m.insertIdx 1 (i : ℕ)).insertIdx 2 (j : ℕ))⟩ := by
  have h1 : normAxis 3 1 = .ok 1 := by simp [normAxis]
  have h2 : normAxis 3 2 = .ok 2 := by simp [normAxis]
  simp only [Np.sum, List.mapM_cons, List.mapM_nil, List.length_cons, List.length_nil, Nat.reduceAdd, h1, h2, Py.ok_bind,
    Py.pure_eq]
  rw [if_pos (by decide), sort12]
  rfl

theorem width_sum (e : ℕ → ℝ) {a b : ℕ} (h : a ≤ b) : ∑ i ∈ Finset.Ico a b, width e i = e b - e a :=
  Finset.sum_Ico_sub e h

theorem group_width {n r i : ℕ} (hr : 0 < r) (hi : i < groups n r) (e : ℕ → ℝ) :
    ∑ a ∈ group n r i, width e a = width (groupEdge e n r) i := by
  have hin := groups_le hr hi
  have h2 : i * r ≤ (i + 1) * r := Nat.mul_le_mul_right r (Nat.le_succ i)
  rw [group, width_sum e (by omega), width, groupEdge, groupEdge, Nat.min_eq_left hin.le]

theorem groupEdge_lt {n r i : ℕ} (hr : 0 < r) (hi : i < groups n r) {e : ℕ → ℝ} (he : StrictMonoOn e (Set.Iic n)) :
    groupEdge e n r i < groupEdge e n r (i + 1) := by
  have hin := groups_le hr hi
  have e2 : (i + 1) * r = i * r + r := by ring
  exact he (by simp) (by simp) (by omega)

theorem area_sum {nz nt zr tr i j : ℕ} (hz : 0 < zr) (ht : 0 < tr) (hi : i < groups nz zr) (hj : j < groups nt tr)
    (z t : ℕ → ℝ) : ∑ a ∈ group nz zr i, ∑ b ∈ group nt tr j, width z a * width t b =
      width (groupEdge z nz zr) i * width (groupEdge t nt tr) j := by
  rw [← group_width hz hi, ← group_width ht hj, Finset.sum_mul_sum]

/-- Two-dimensional array. -/
def Is2 {α : Type} (A : Arr α) (a b : ℕ) (f : ℕ → ℕ → α) : Prop :=
  A.shape = [a, b] ∧ ∀ i < a, ∀ j < b, A.get [i, j] = f i j

theorem col_lt {nz nt i j : ℕ} (hi : i < nz) (hj : j < nt) : i * nt + j < nz * nt := by
  calc i * nt + j < i * nt + nt := by omega
    _ = (i + 1) * nt := by ring
    _ ≤ nz * nt := Nat.mul_le_mul_right _ hi

theorem unravel_col {n p k c : ℕ} (hc : c < p) : unravel [n, p] (k * p + c) = [k, c] := by
  simp only [unravel, List.prod_cons, List.prod_nil, mul_one, Nat.div_one]
  rw [Nat.add_comm, Nat.add_mul_div_right _ _ (by omega), Nat.div_eq_of_lt hc, Nat.add_mul_mod_self_right,
    Nat.mod_eq_of_lt hc, Nat.zero_add]

theorem unravel3 {n a b k i j : ℕ} (hi : i < a) (hj : j < b) :
    unravel [n, a, b] (k * (a * b) + (i * b + j)) = [k, i, j] := by
  have h := col_lt hi hj
  have e : unravel [n, a, b] (k * (a * b) + (i * b + j)) = k :: unravel [a, b] (i * b + j) := by
    rw [unravel]
    simp only [List.prod_cons, List.prod_nil, mul_one]
    rw [Nat.add_comm, Nat.add_mul_div_right _ _ (by omega), Nat.div_eq_of_lt h, Nat.add_mul_mod_self_right,
      Nat.mod_eq_of_lt h, Nat.zero_add]
  rw [e, unravel_col hj]

theorem gridX_is {g : SspGrid} {n nt nz : ℕ} {t z : ℕ → ℝ} {S : ℕ → ℕ → ℕ → ℝ} (h : GridIs g n nt nz t z S)
    (hz : 0 < nz) (ht : 0 < nt) :
    ∃ X, reshapeInfer g.parDims g.X = .ok X ∧ Is3 X n nz nt (fun k i j => .fin (S k i j)) := by
  have hp : 0 < nz * nt := Nat.mul_pos hz ht
  have e : n * (nz * nt) / (nz * nt) = n := Nat.mul_div_cancel _ hp
  refine ⟨⟨[n, nz, nt], fun i => g.X.get (unravel g.X.shape (ravel [n, nz, nt] i))⟩, ?_, rfl, ?_⟩
  · simp [reshapeInfer, reshape, h.dims, h.xShape, hz.ne', ht.ne', e]
  · intro k hk i hi j hj
    have e2 : ravel [n, nz, nt] [k, i, j] = k * (nz * nt) + (i * nt + j) := by simp [ravel]
    simp only [e2, h.xShape, unravel_col (col_lt hi hj), h.x k hk i hi j hj]

theorem areas_is {g : SspGrid} {n nt nz : ℕ} {t z : ℕ → ℝ} {S : ℕ → ℕ → ℕ → ℝ} (h : GridIs g n nt nz t z S) :
    ∃ a b d, getitem [.all, .na] g.deltaZ = .ok a ∧ getitem [.na, .all] g.deltaT = .ok b ∧ mul a b = .ok d ∧
      Is2 d nz nt (fun i j => .fin (width z i * width t j)) := by
  refine ⟨⟨[nz, 1], fun i => g.deltaZ.get (ixIdx [.all, .na] [nz] i)⟩, ⟨[1, nt], fun i => g.deltaT.get (ixIdx [.na, .all] [nt] i)⟩,
    ⟨[nz, nt], fun i => g.deltaZ.get (ixIdx [.all, .na] [nz] (bproj [nz, 1] i)) *
      g.deltaT.get (ixIdx [.na, .all] [nt] (bproj [1, nt] i))⟩, ?_, ?_, ?_, rfl, ?_⟩
  · simp [getitem, ixShape, h.deltaZ.shape]
  · simp [getitem, ixShape, h.deltaT.shape]
  · simp [mul, bop, bshapeR]
  · intro i hi j hj
    simp [bproj, ixIdx, bidx_lt hi, bidx_lt hj, h.deltaZ.get i hi, h.deltaT.get j hj]

theorem mul32 {X D : Arr Num} {n a b : ℕ} {f : ℕ → ℕ → ℕ → ℝ} {d : ℕ → ℕ → ℝ} (hX : Is3 X n a b (fun k i j => .fin (f k i j)))
    (hD : Is2 D a b (fun i j => .fin (d i j))) :
    ∃ r, mul X D = .ok r ∧ Is3 r n a b (fun k i j => .fin (f k i j * d i j)) := by
  refine ⟨⟨[n, a, b], fun i => X.get (bproj [n, a, b] i) * D.get (bproj [a, b] i)⟩, ?_, rfl, ?_⟩
  · simp [mul, bop, hX.1, hD.1, bshapeR]
  · intro k hk i hi j hj
    simp [bproj, bidx_lt hk, bidx_lt hi, bidx_lt hj, hX.2 k hk i hi j hj, hD.2 i hi j hj]

theorem rebinCell_is {g : SspGrid} {n nt nz : ℕ} {t z : ℕ → ℝ} {S : ℕ → ℕ → ℕ → ℝ} (h : GridIs g n nt nz t z S)
    {zr tr : ℕ} (hzr : 0 < zr) (htr : 0 < tr) (hz : StrictMonoOn z (Set.Iic nz)) (ht : StrictMonoOn t (Set.Iic nt))
    {newZ newT Xd D : Arr Num} (hZ : Is1 newZ (groups nz zr + 1) (groupEdge z nz zr))
    (hT : Is1 newT (groups nt tr + 1) (groupEdge t nt tr))
    (hX : Is3 Xd n nz nt (fun k i j => .fin (S k i j * (width z i * width t j))))
    (hD : Is2 D nz nt (fun i j => .fin (width z i * width t j))) {i j : ℕ} (hi : i < groups nz zr) (hj : j < groups nt tr) :
    ∃ q, rebinCell g newZ newT Xd D zr tr i j = .ok q ∧ Is1 q n (fun k => groupMean nz nt zr tr z t S k i j) := by
  have hdz : ∀ i < nz, z i ≠ z nz := fun i hi => (hz (by simp [hi.le]) (by simp) hi).ne
  have hdt : ∀ i < nt, t i ≠ t nt := fun i hi => (ht (by simp [hi.le]) (by simp) hi).ne
  obtain ⟨bz, hbz, hsz, hlz⟩ := rebinSlice_is h.zEdges hzr hdz hZ hi
  obtain ⟨bt, hbt, hst, hlt⟩ := rebinSlice_is h.tEdges htr hdt hT hj
  set lz := min ((i + 1) * zr) nz - i * zr with hlz0
  set lt := min ((j + 1) * tr) nt - j * tr with hlt0
  have hA : getitem [.all, .sl ((i * zr : ℕ) : ℤ) bz, .sl ((j * tr : ℕ) : ℤ) bt] Xd = .ok ⟨[n, lz, lt], fun m =>
      Xd.get (ixIdx [.all, .sl ((i * zr : ℕ) : ℤ) bz, .sl ((j * tr : ℕ) : ℤ) bt] [n, nz, nt] m)⟩ := by
    simp only [getitem, hX.1, ixShape, Py.ok_bind, hlz, hlt]
  have hB : getitem [.sl ((i * zr : ℕ) : ℤ) bz, .sl ((j * tr : ℕ) : ℤ) bt] D = .ok ⟨[lz, lt], fun m =>
      D.get (ixIdx [.sl ((i * zr : ℕ) : ℤ) bz, .sl ((j * tr : ℕ) : ℤ) bt] [nz, nt] m)⟩ := by
    simp only [getitem, hD.1, ixShape, Py.ok_bind, hlz, hlt]
  have hS : Np.sum [1, 2] (⟨[n, lz, lt], fun m =>
      Xd.get (ixIdx [.all, .sl ((i * zr : ℕ) : ℤ) bz, .sl ((j * tr : ℕ) : ℤ) bt] [n, nz, nt] m)⟩ : Arr Num) = .ok ⟨[n], fun m =>
      ∑ a : Fin lz, ∑ b : Fin lt, Xd.get (ixIdx [.all, .sl ((i * zr : ℕ) : ℤ) bz, .sl ((j * tr : ℕ) : ℤ) bt] [n, nz, nt]
        ((m.insertIdx 1 (a : ℕ)).insertIdx 2 (b : ℕ)))⟩ := by
    exact sum12 _ _ _ _
  have hden : 0 < width (groupEdge z nz zr) i * width (groupEdge t nt tr) j :=
    mul_pos (sub_pos.2 (groupEdge_lt hzr hi hz)) (sub_pos.2 (groupEdge_lt htr hj ht))
  have hsum : sumShape [lz, lt] (fun m => D.get (ixIdx [.sl ((i * zr : ℕ) : ℤ) bz, .sl ((j * tr : ℕ) : ℤ) bt] [nz, nt] m)) =
      .fin (∑ a ∈ group nz zr i, ∑ b ∈ group nt tr j, width z a * width t b) := by
    simp only [sumShape]
    rw [← sum_group, ← Num.fin_sum]
    refine Finset.sum_congr rfl fun a _ => ?_
    rw [← sum_group, ← Num.fin_sum]
    refine Finset.sum_congr rfl fun b _ => ?_
    simp only [ixIdx, hsz, hst]
    exact hD.2 _ (by have := a.2; omega) _ (by have := b.2; omega)
  refine ⟨⟨[n], fun m => (∑ a : Fin lz, ∑ b : Fin lt, Xd.get (ixIdx [.all, .sl ((i * zr : ℕ) : ℤ) bz, .sl ((j * tr : ℕ) : ℤ) bt] [n, nz, nt]
        (((bproj [n] m).insertIdx 1 (a : ℕ)).insertIdx 2 (b : ℕ)))) /
        .fin (∑ a ∈ group nz zr i, ∑ b ∈ group nt tr j, width z a * width t b)⟩, ?_, rfl, ?_⟩
  · simp only [rebinCell, hbz, hbt, Py.ok_bind, hA, hS, hB, sumAll, hsum, div, bop, scalar]
    simp
  · intro k hk
    have hb : bproj [n] [k] = [k] := by simp [bproj, bidx_lt hk]
    have hnum : (∑ a : Fin lz, ∑ b : Fin lt, Xd.get (ixIdx [.all, .sl ((i * zr : ℕ) : ℤ) bz, .sl ((j * tr : ℕ) : ℤ) bt] [n, nz, nt]
        (([k].insertIdx 1 (a : ℕ)).insertIdx 2 (b : ℕ)))) =
        .fin (∑ a ∈ group nz zr i, ∑ b ∈ group nt tr j, S k a b * (width z a * width t b)) := by
      rw [← sum_group, ← Num.fin_sum]
      refine Finset.sum_congr rfl fun a _ => ?_
      rw [← sum_group, ← Num.fin_sum]
      refine Finset.sum_congr rfl fun b _ => ?_
      simp only [List.insertIdx_succ_cons, List.insertIdx_zero, ixIdx, hsz, hst]
      exact hX.2 k hk _ (by have := a.2; omega) _ (by have := b.2; omega)
    simp only [hb, hnum]
    rw [Num.fin_div _ _ (by rw [area_sum hzr htr hi hj]; exact hden.ne')]
    rfl

theorem rebinX_is {g : SspGrid} {n nt nz : ℕ} {t z : ℕ → ℝ} {S : ℕ → ℕ → ℕ → ℝ} (h : GridIs g n nt nz t z S)
    {zr tr : ℕ} (hzr : 0 < zr) (htr : 0 < tr) (hz : StrictMonoOn z (Set.Iic nz)) (ht : StrictMonoOn t (Set.Iic nt))
    (hn : 0 < n) (hnz : 0 < nz) (hnt : 0 < nt)
    {newZ newT : Arr Num} (hZ : Is1 newZ (groups nz zr + 1) (groupEdge z nz zr))
    (hT : Is1 newT (groups nt tr + 1) (groupEdge t nt tr)) :
    ∃ X, rebinX g newZ newT (groups nz zr) (groups nt tr) zr tr = .ok X ∧ X.shape = [n, groups nz zr * groups nt tr] ∧
      ∀ k < n, ∀ i < groups nz zr, ∀ j < groups nt tr, X.get [k, i * groups nt tr + j] =
        .fin (groupMean nz nt zr tr z t S k i j) := by
  obtain ⟨X, hX, hX'⟩ := gridX_is h hnz hnt
  obtain ⟨dz, dt, D, hdz, hdt, hD, hD'⟩ := areas_is h
  obtain ⟨Xd, hXd, hXd'⟩ := mul32 hX' hD'
  have hhead : X.shape.headD 0 = n := by rw [hX'.1]; rfl
  obtain ⟨r, hr, hr1, hr2⟩ := foldlM_range (n := groups nz zr) (a := full [n, groups nz zr, groups nt tr] (Num.fin 0))
    (fun y (i : ℕ) => (List.range (groups nt tr)).foldlM (fun y (j : ℕ) => do
      let q ← rebinCell g newZ newT Xd D zr tr i j
      Component.setSpaxel y i j q) y)
    (fun m y => y.shape = [n, groups nz zr, groups nt tr] ∧ ∀ k < n, ∀ i < m, ∀ j < groups nt tr,
      y.get [k, i, j] = .fin (groupMean nz nt zr tr z t S k i j))
    ⟨rfl, fun k _ x hx => absurd hx (Nat.not_lt_zero x)⟩ (by
      intro i hi y ⟨hy1, hy2⟩
      obtain ⟨r, hr, hr1, hr2, hr3⟩ := foldlM_range (n := groups nt tr) (a := y)
        (fun y (j : ℕ) => do
          let q ← rebinCell g newZ newT Xd D zr tr i j
          Component.setSpaxel y i j q)
        (fun m y => y.shape = [n, groups nz zr, groups nt tr] ∧ (∀ k < n, ∀ x < i, ∀ j < groups nt tr,
          y.get [k, x, j] = .fin (groupMean nz nt zr tr z t S k x j)) ∧ ∀ k < n, ∀ j < m,
          y.get [k, i, j] = .fin (groupMean nz nt zr tr z t S k i j))
        ⟨hy1, hy2, fun k _ j hj => absurd hj (Nat.not_lt_zero j)⟩ (by
          intro j hj y ⟨hy1, hy2, hy3⟩
          obtain ⟨q, hq, hq'⟩ := rebinCell_is h hzr htr hz ht hZ hT hXd' hD' hi hj
          obtain ⟨b, hb1, hb2⟩ := broadcastTo_same hq'.shape
          refine ⟨⟨[n, groups nz zr, groups nt tr], fun k => if k.getD 1 0 = i ∧ k.getD 2 0 = j then b.get [k.getD 0 0]
            else y.get k⟩, ?_, rfl, ?_, ?_⟩
          · simp only [hq, Py.ok_bind, Component.setSpaxel, hy1]
            simp [hb1]
          · intro k hk x hx j' hj'
            simp only [List.getD_cons_succ, List.getD_cons_zero]
            rw [if_neg (by omega)]
            exact hy2 k hk x hx j' hj'
          · intro k hk j' hj'
            simp only [List.getD_cons_succ, List.getD_cons_zero, true_and]
            split_ifs with e
            · rw [hb2 [k] ⟨hk, trivial⟩, hq'.get k hk, e]
            · exact hy3 k hk j' (by omega))
      refine ⟨r, hr, hr1, fun k hk x hx j hj => ?_⟩
      rcases Nat.lt_succ_iff_lt_or_eq.1 hx with hx | hx
      · exact hr2 k hk x hx j hj
      · rw [hx]; exact hr3 k hk j hj)
  refine ⟨⟨[n, groups nz zr * groups nt tr], fun i => r.get (unravel r.shape (ravel [n, groups nz zr * groups nt tr] i))⟩, ?_, rfl, ?_⟩
  · simp only [rebinX, hX, hdz, hdt, hD, hXd, Py.ok_bind, hhead]
    rw [hr]
    simp [hn.ne', reshape, hr1]
  · intro k hk i hi j hj
    have e : ravel [n, groups nz zr * groups nt tr] [k, i * groups nt tr + j] =
        k * (groups nz zr * groups nt tr) + (i * groups nt tr + j) := by simp [ravel]
    simp only [e, hr1, unravel3 hi hj]
    exact hr2 k hk i hi j hj

/-- `_rebin_par_grid` on any grid. -/
theorem rebin_is {g : SspGrid} {n nt nz : ℕ} {t z : ℕ → ℝ} {S : ℕ → ℕ → ℕ → ℝ} (h : GridIs g n nt nz t z S)
    {zr tr : ℕ} (hzr : 0 < zr) (htr : 0 < tr) (hz : StrictMonoOn z (Set.Iic nz)) (ht : StrictMonoOn t (Set.Iic nt))
    (hn : 0 < n) (hnz : 0 < nz) (hnt : 0 < nt) :
    ∃ g', g.rebin tr zr = .ok g' ∧
      GridIs g' n (groups nt tr) (groups nz zr) (groupEdge t nt tr) (groupEdge z nz zr) (groupMean nz nt zr tr z t S) ∧
      g'.lmd = g.lmd ∧ g'.parIdx = g.parIdx ∧ g'.xw = g.xw := by
  have hdz : ∀ i < nz, z i ≠ z nz := fun i hi => (hz (by simp [hi.le]) (by simp) hi).ne
  have hdt : ∀ i < nt, t i ≠ t nt := fun i hi => (ht (by simp [hi.le]) (by simp) hi).ne
  obtain ⟨zE, hzE, hzE'⟩ := rebinEdges_is h.zEdges hzr hdz
  obtain ⟨tE, htE, htE'⟩ := rebinEdges_is h.tEdges htr hdt
  obtain ⟨zC, hzC, hzC'⟩ := edgeCents_is hzE'
  obtain ⟨tC, htC, htC'⟩ := edgeCents_is htE'
  obtain ⟨dz, hdz1, hdz'⟩ := edgeWidths_is hzE'
  obtain ⟨dt, hdt1, hdt'⟩ := edgeWidths_is htE'
  have ez : zC.shape.headD 0 = groups nz zr := by rw [hzC'.shape]; rfl
  have et : tC.shape.headD 0 = groups nt tr := by rw [htC'.shape]; rfl
  obtain ⟨X, hX, hX1, hX2⟩ := rebinX_is h hzr htr hz ht hn hnz hnt hzE' htE'
  refine ⟨{ g with deltaT := dt, deltaZ := dz, zCents := zC, tCents := tC, zEdges := zE, tEdges := tE,
                   parDims := [groups nz zr, groups nt tr], X := X }, ?_, ⟨htE', hzE', htC', hzC', hdt', hdz', rfl, hX1, hX2⟩, rfl, rfl, rfl⟩
  simp only [SspGrid.rebin, hzE, hzC, hdz1, htE, htC, hdt1, Py.ok_bind, ez, et, hX]

end PKM
