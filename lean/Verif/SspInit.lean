import Verif.SspLemmas

/-! Lemmas about the construction of the SSP object: bin edges, index pairs, single spectra, light weights. -/

open scoped Classical

noncomputable section

namespace PKM
open Np

theorem strictMonoOn_edges {e : ℕ → ℝ} {n : ℕ} (h : ∀ i < n, e i < e (i + 1)) : StrictMonoOn e (Set.Iic n) := by
  intro a ha b hb hab
  have hb' : b ≤ n := hb
  clear ha hb
  induction b, hab using Nat.le_induction with
  | base => exact h a (by omega)
  | succ b hab ih => exact (ih (by omega)).trans (h b (by omega))

/-- The lowest edge before it is compared with zero: half a spacing below the first value. -/
def lowEdge (x : ℕ → ℝ) : ℝ := x 0 - (x 1 - x 0) / 2

/-- Edges of the bins around the `n` values `x`: midpoints inside, half a spacing outside, and a lowest edge within 0.011 of zero
replaced by zero. -/
def edgeOf (n : ℕ) (x : ℕ → ℝ) (i : ℕ) : ℝ :=
  if i = 0 then if |lowEdge x| < 11 / 1000 then 0 else lowEdge x
  else if i < n then (x (i - 1) + x i) / 2 else x (n - 1) + (x (n - 1) - x (n - 2)) / 2

theorem parEdgeLims_is {a : Arr Num} {n : ℕ} {x : ℕ → ℝ} (h : Is1 a (n + 2) x) :
    ∃ e, parEdgeLims a = .ok e ∧ Is1 e (n + 3) (edgeOf (n + 2) x) := by
  obtain ⟨hi, hhi, hhi'⟩ := h.tail
  obtain ⟨lo, hlo, hlo'⟩ := h.init
  obtain ⟨dx, hdx, hdx'⟩ := Is1.bop (m := fun i => x (i + 1) - x i) (fun p q : Num => p - q) hhi' hlo' (fun i _ => Num.fin_sub _ _)
  have hh := Is1.map (m := fun i => (x (i + 1) - x i) / 2) (fun d : Num => d / .fin 2) hdx' (fun i _ => Num.fin_div _ _ (by norm_num))
  obtain ⟨xl, hxl, hxl'⟩ := Is1.bop (m := fun i => (x i + x (i + 1)) / 2) (fun p q : Num => p - q) hhi' hh
    (fun i _ => by rw [Num.fin_sub]; congr 1; ring)
  obtain ⟨xh, hxh, hxh'⟩ := Is1.bop (m := fun i => (x i + x (i + 1)) / 2) (fun p q : Num => p + q) hlo' hh
    (fun i _ => by rw [Num.fin_add]; congr 1; ring)
  obtain ⟨x0, hx0, hx0'⟩ := h.at (k := 0) (by omega)
  obtain ⟨d0, hd0, hd0'⟩ := hdx'.at (k := 0) (by omega)
  have hd0h := Is0.map (y := (x 1 - x 0) / 2) (fun d : Num => d / .fin 2) hd0' (Num.fin_div _ _ (by norm_num))
  obtain ⟨f, hf, hf'⟩ := Is0.bop (z := lowEdge x) (fun p q : Num => p - q) hx0' hd0h (Num.fin_sub _ _)
  obtain ⟨fs, hfs, hfs'⟩ := hf'.stack
  obtain ⟨L, hL, hL'⟩ := hfs'.concat hxl'
  obtain ⟨xn, hxn, hxn'⟩ := h.last
  obtain ⟨dn, hdn, hdn'⟩ := hdx'.last
  have hdnh := Is0.map (y := (x (n + 1) - x n) / 2) (fun d : Num => d / .fin 2) hdn' (Num.fin_div _ _ (by norm_num))
  obtain ⟨l, hl, hl'⟩ := Is0.bop (z := x (n + 1) + (x (n + 1) - x n) / 2) (fun p q : Num => p + q) hxn' hdnh (Num.fin_add _ _)
  obtain ⟨ls, hls, hls'⟩ := hl'.stack
  obtain ⟨R, hR, hR'⟩ := hxh'.concat hls'
  have hL2 : Is1 L (n + 1 + 1) (fun i => if i < 1 then lowEdge x else (x (i - 1) + x i) / 2) :=
    ⟨by rw [hL'.shape]; congr 1; omega, fun i hi => by
      rw [hL'.get i (by omega)]
      by_cases h1 : i < 1
      · simp [h1]
      · simp only [h1, if_false]
        rw [show i - 1 + 1 = i by omega]⟩
  obtain ⟨a1, ha1, ha1'⟩ := hL2.tail
  obtain ⟨b1, hb1, hb1'⟩ := hR'.init
  have hclose : allclose a1 b1 := by
    intro i hi
    rw [ha1'.shape] at hi
    simp only [List.headD_cons] at hi
    rw [ha1'.get i hi, hb1'.get i hi]
    simp only [isclose, hi, if_true]
    rw [if_neg (by omega), show i + 1 - 1 = i by omega, sub_self, abs_zero]
    positivity
  obtain ⟨e0, he0, he0'⟩ := hL2.at (k := 0) (by omega)
  obtain ⟨eR, heR, heR'⟩ := hR'.last
  obtain ⟨eS, heS, heS'⟩ := heR'.stack
  have hF : Is1 (if Num.lt (Num.abs (e0.get [])) (.fin (11 / 1000)) then setFirst (.fin 0) L else L) (n + 2)
      (fun i => if i = 0 then if |lowEdge x| < 11 / 1000 then 0 else lowEdge x else (x (i - 1) + x i) / 2) := by
    rw [he0'.get]
    simp only [Nat.zero_lt_one, if_true]
    by_cases hs : |lowEdge x| < 11 / 1000
    · have : Num.lt (Num.abs (.fin (lowEdge x))) (.fin (11 / 1000)) := by simpa [Num.abs, Num.lt] using hs
      simp only [this, hs, if_true]
      refine ⟨hL2.shape, fun i hi => ?_⟩
      by_cases h0 : i = 0
      · simp [setFirst, h0]
      · have := hL2.get i hi
        rw [if_neg (by omega)] at this
        simp [setFirst, h0, this]
    · have : ¬ Num.lt (Num.abs (.fin (lowEdge x))) (.fin (11 / 1000)) := by simpa [Num.abs, Num.lt] using hs
      simp only [this, hs, if_false]
      refine hL2.congr fun i _ => ?_
      by_cases h0 : i = 0
      · simp [h0]
      · simp [h0]
  obtain ⟨E, hE, hE'⟩ := hF.concat heS'
  refine ⟨E, ?_, ⟨by rw [hE'.shape], fun i hi => ?_⟩⟩
  · replace hdx : sub hi lo = .ok dx := hdx
    replace hxl : sub hi (Np.map (fun d : Num => d / .fin 2) dx) = .ok xl := hxl
    replace hxh : add lo (Np.map (fun d : Num => d / .fin 2) dx) = .ok xh := hxh
    replace hf : sub x0 (Np.map (fun d : Num => d / .fin 2) d0) = .ok f := hf
    replace hl : add xn (Np.map (fun d : Num => d / .fin 2) dn) = .ok l := hl
    rw [Nat.cast_zero] at hx0 hd0 he0
    unfold parEdgeLims
    rw [hhi, Py.ok_bind, hlo, Py.ok_bind, hdx, Py.ok_bind, hxl, Py.ok_bind, hxh, Py.ok_bind, hx0, Py.ok_bind, hd0, Py.ok_bind,
      hf, Py.ok_bind, hfs, Py.ok_bind, hL, Py.ok_bind, hxn, Py.ok_bind, hdn, Py.ok_bind, hl, Py.ok_bind, hls, Py.ok_bind,
      hR, Py.ok_bind, ha1, Py.ok_bind, hb1, Py.ok_bind, if_pos hclose, he0, Py.ok_bind, heR, Py.ok_bind, heS, Py.ok_bind]
    exact hE
  · rw [hE'.get i (by omega)]
    congr 1
    simp only [edgeOf]
    by_cases h0 : i = 0
    · simp [h0]
    · by_cases h1 : i < n + 2
      · simp [h0, h1]
      · simp [h0, h1]

theorem parEdgeLims_short {a : Arr Num} {n : ℕ} {x : ℕ → ℝ} (h : Is1 a n x) (hn : n < 2) :
    parEdgeLims a = .error .indexError := by
  interval_cases n
  · simp [parEdgeLims, getitem, ixShape, h.shape, slLen, slStop, slStart, sub, add, bop, bshapeR, Np.map]
  · simp [parEdgeLims, getitem, ixShape, h.shape, slLen, slStop, slStart, sub, add, bop, bshapeR, Np.map]

/-- When the bins of `edgeOf` contain their values: the lowest edge was not moved above the lowest value. -/
theorem edgeOf_first {x : ℕ → ℝ} {n : ℕ} (h01 : x 0 < x 1) :
    edgeOf n x 0 < x 0 ↔ ¬ (|lowEdge x| < 11 / 1000 ∧ x 0 ≤ 0) := by
  have hl : lowEdge x < x 0 := by unfold lowEdge; linarith
  simp only [edgeOf, if_true]
  by_cases hs : |lowEdge x| < 11 / 1000
  · simp [hs]
  · simp [hs, hl]

theorem edgeOf_bins {x : ℕ → ℝ} {n : ℕ} (hx : ∀ i, i + 1 < n + 2 → x i < x (i + 1)) :
    (∀ i, 0 < i → i < n + 2 → edgeOf (n + 2) x i < x i) ∧ ∀ i < n + 2, x i < edgeOf (n + 2) x (i + 1) := by
  constructor
  · intro i h0 hi
    have h := hx (i - 1) (by omega)
    rw [show i - 1 + 1 = i by omega] at h
    simp only [edgeOf, h0.ne', hi, if_true, if_false]
    linarith
  · intro i hi
    by_cases h : i + 1 < n + 2
    · have := hx i h
      simp only [edgeOf, Nat.succ_ne_zero, h, if_true, if_false, Nat.add_sub_cancel]
      linarith
    · have := hx n (by omega)
      obtain rfl : i = n + 1 := by omega
      simp only [edgeOf, Nat.succ_ne_zero, h, if_false]
      rw [show n + 2 - 1 = n + 1 by omega, show n + 2 - 2 = n by omega]
      linarith

theorem edgeOf_lt {x : ℕ → ℝ} {n : ℕ} (hx : ∀ i, i + 1 < n + 2 → x i < x (i + 1))
    (h0 : ¬ (|lowEdge x| < 11 / 1000 ∧ x 0 ≤ 0)) : ∀ i < n + 2, edgeOf (n + 2) x i < edgeOf (n + 2) x (i + 1) := by
  obtain ⟨h1, h2⟩ := edgeOf_bins hx
  intro i hi
  refine lt_trans ?_ (h2 i hi)
  rcases Nat.eq_zero_or_pos i with rfl | hp
  · exact (edgeOf_first (hx 0 (by omega))).2 h0
  · exact h1 i hp hi

theorem vecOf_is (l : List ℝ) : Is1 (vecOf l) l.length (fun i => l.getD i 0) := ⟨rfl, fun _ _ => rfl⟩

/-! ### Index pairs -/

theorem parIdxOf_is (nz nt : ℕ) : ∃ P, parIdxOf nz nt = .ok P ∧ P.shape = [2, nz * nt] ∧
    ∀ i < nz, ∀ j < nt, P.get [0, i * nt + j] = i ∧ P.get [1, i * nt + j] = j := by
  have hs : Np.stack [(⟨[nz, nt], fun i => i.getD 0 0⟩ : Arr ℕ), ⟨[nz, nt], fun i => i.getD 1 0⟩] = .ok
      ⟨[2, nz, nt], fun i => ([(⟨[nz, nt], fun i => i.getD 0 0⟩ : Arr ℕ), ⟨[nz, nt], fun i => i.getD 1 0⟩].getD (i.headD 0)
        ⟨[nz, nt], fun i => i.getD 0 0⟩).get i.tail⟩ := by simp [Np.stack]
  refine ⟨⟨[2, nz * nt], fun i => ([(⟨[nz, nt], fun i => i.getD 0 0⟩ : Arr ℕ), ⟨[nz, nt], fun i => i.getD 1 0⟩].getD
    ((unravel [2, nz, nt] (ravel [2, nz * nt] i)).headD 0) ⟨[nz, nt], fun i => i.getD 0 0⟩).get
      (unravel [2, nz, nt] (ravel [2, nz * nt] i)).tail⟩, ?_, rfl, ?_⟩
  · simp only [parIdxOf, hs, Py.ok_bind, reshape]
    simp
  · intro i hi j hj
    have e : ∀ k, ravel [2, nz * nt] [k, i * nt + j] = k * (nz * nt) + (i * nt + j) := fun k => by simp [ravel]
    simp only [e, unravel3 hi hj]
    simp

/-! ### Construction -/

/-- The data read from the files: `nz * nt` spectra with the ages `t` and metallicities `z`, at `n` wavelengths. -/
structure DataAre (d : MilesData) (n nt nz : ℕ) (t z : ℕ → ℝ) (S : ℕ → ℕ → ℕ → ℝ) : Prop where
  t : d.tUnq.length = nt ∧ ∀ j < nt, d.tUnq.getD j 0 = t j
  z : d.zUnq.length = nz ∧ ∀ i < nz, d.zUnq.getD i 0 = z i
  lmd : d.lmd.length = n
  xShape : d.X.shape = [n, nz * nt]
  x : ∀ k < n, ∀ i < nz, ∀ j < nt, d.X.get [k, i * nt + j] = .fin (S k i j)

theorem init0_is {d : MilesData} {n nt nz : ℕ} {t z : ℕ → ℝ} {S : ℕ → ℕ → ℕ → ℝ} (h : DataAre d n (nt + 2) (nz + 2) t z S)
    (hn : 0 < n) (hsize : (nz + 2) * (nt + 2) ≤ 100000) :
    ∃ g, SspGrid.init0 d = .ok g ∧ GridIs g n (nt + 2) (nz + 2) (edgeOf (nt + 2) t) (edgeOf (nz + 2) z) S ∧ g.lmd = d.lmd ∧
      g.xw = none ∧ g.parIdx.shape = [2, (nz + 2) * (nt + 2)] ∧
      ∀ i < nz + 2, ∀ j < nt + 2, g.parIdx.get [0, i * (nt + 2) + j] = i ∧ g.parIdx.get [1, i * (nt + 2) + j] = j := by
  have ht : Is1 (vecOf d.tUnq) (nt + 2) t := by
    have := (vecOf_is d.tUnq).congr (k := t) (fun i hi => h.t.2 i (by rw [h.t.1] at hi; exact hi))
    rwa [h.t.1] at this
  have hz : Is1 (vecOf d.zUnq) (nz + 2) z := by
    have := (vecOf_is d.zUnq).congr (k := z) (fun i hi => h.z.2 i (by rw [h.z.1] at hi; exact hi))
    rwa [h.z.1] at this
  obtain ⟨tE, htE, htE'⟩ := parEdgeLims_is ht
  obtain ⟨zE, hzE, hzE'⟩ := parEdgeLims_is hz
  obtain ⟨tC, htC, htC'⟩ := edgeCents_is htE'
  obtain ⟨zC, hzC, hzC'⟩ := edgeCents_is hzE'
  obtain ⟨dt, hdt, hdt'⟩ := edgeWidths_is htE'
  obtain ⟨dz, hdz, hdz'⟩ := edgeWidths_is hzE'
  obtain ⟨P, hP, hP1, hP2⟩ := parIdxOf_is (nz + 2) (nt + 2)
  have hl : d.lmd ≠ [] := by
    intro e
    have := h.lmd
    rw [e] at this
    simp at this
    omega
  refine ⟨{ lmd := d.lmd, zEdges := zE, tEdges := tE, zCents := zC, tCents := tC, deltaZ := dz, deltaT := dt,
            parDims := [nz + 2, nt + 2], X := d.X, parIdx := P, xw := none }, ?_,
    ⟨htE', hzE', htC', hzC', hdt', hdz', rfl, h.xShape, h.x⟩, rfl, rfl, hP1, hP2⟩
  unfold SspGrid.init0
  rw [if_neg hl, htE, Py.ok_bind, hzE, Py.ok_bind, h.z.1, h.t.1, if_neg (by omega), hdz, Py.ok_bind, hzC, Py.ok_bind, hdt,
    Py.ok_bind, htC, Py.ok_bind, hP, Py.ok_bind]

/-! ### Single spectra -/

theorem col_get {P : Arr ℕ} {p c : ℕ} (h : P.shape = [2, p]) (hc : c < p) :
    ∃ r, getitem [.all, .at (c : ℤ)] P = .ok r ∧ r.get [0] = P.get [0, c] ∧ r.get [1] = P.get [1, c] := by
  have h1 : (c : ℤ) < p := by omega
  have h2 : ¬ (c : ℤ) < 0 := by omega
  refine ⟨⟨[2], fun i => P.get (ixIdx [.all, .at (c : ℤ)] [2, p] i)⟩, ?_, ?_, ?_⟩
  · simp [getitem, ixShape, h, h1, h2]
  · simp [ixIdx, h2]
  · simp [ixIdx, h2]

theorem col_err {α : Type} {P : Arr α} {m p c : ℕ} (h : P.shape = [m, p]) (hc : p ≤ c) :
    getitem [.all, .at (c : ℤ)] P = .error .indexError := by
  have h1 : ¬ (c : ℤ) < p := by omega
  have h2 : ¬ (c : ℤ) < 0 := by omega
  simp [getitem, ixShape, h, h1, h2]

theorem colX {X : Arr Num} {n p c : ℕ} {f : ℕ → ℝ} (h : X.shape = [n, p]) (hc : c < p) (hx : ∀ k < n, X.get [k, c] = .fin (f k)) :
    ∃ r, getitem [.all, .at (c : ℤ)] X = .ok r ∧ Is1 r n f := by
  have h1 : (c : ℤ) < p := by omega
  have h2 : ¬ (c : ℤ) < 0 := by omega
  refine ⟨⟨[n], fun i => X.get (ixIdx [.all, .at (c : ℤ)] [n, p] i)⟩, ?_, rfl, ?_⟩
  · simp [getitem, ixShape, h, h1, h2]
  · intro k hk
    simp [ixIdx, h2, hx k hk]

theorem Is1.at_err {a : Arr Num} {n k : ℕ} {f : ℕ → ℝ} (h : Is1 a n f) (hk : n ≤ k) :
    getitem [.at (k : ℤ)] a = .error .indexError := by
  have h1 : ¬ (k : ℤ) < n := by omega
  have h2 : ¬ (k : ℤ) < 0 := by omega
  simp [getitem, ixShape, h.shape, h1, h2]

/-- Row-major index pairs of a grid with `nt0` ages. -/
def IdxAre (P : Arr ℕ) (nz0 nt0 : ℕ) : Prop :=
  P.shape = [2, nz0 * nt0] ∧ ∀ i < nz0, ∀ j < nt0, P.get [0, i * nt0 + j] = i ∧ P.get [1, i * nt0 + j] = j

/-- The lookup of `get_ssp` when the index pairs belong to a grid with `nz0`, `nt0` bins and the spectra to one with `nz`, `nt`. -/
theorem getSsp_ok {g : SspGrid} {n nt nz nz0 nt0 : ℕ} {t z : ℕ → ℝ} {S : ℕ → ℕ → ℕ → ℝ} (h : GridIs g n nt nz t z S)
    (hP : IdxAre g.parIdx nz0 nt0) {i j : ℕ} (hi : i < nz) (hj : j < nt) (hi0 : i < nz0) (hj0 : j < nt0) {i' j' : ℕ} (hi' : i' < nz)
    (hj' : j' < nt) (he : i * nt0 + j = i' * nt + j') :
    ∃ s, g.getSsp ((i * nt0 + j : ℕ) : ℤ) "wavelength".toList = .ok (.fin (centre t j), .fin (centre z i), s) ∧
      Is1 s n (fun k => S k i' j') := by
  obtain ⟨r, hr, hr0, hr1⟩ := col_get hP.1 (col_lt hi0 hj0)
  obtain ⟨p0, p1⟩ := hP.2 i hi0 j hj0
  obtain ⟨zz, hzz, hzz'⟩ := h.zCents.at hi
  obtain ⟨tt, htt, htt'⟩ := h.tCents.at hj
  obtain ⟨s, hs, hs'⟩ := colX (f := fun k => S k i' j') h.xShape (col_lt hi' hj') (fun k hk => h.x k hk i' hi' j' hj')
  refine ⟨s, ?_, hs'⟩
  rw [he] at hr p0 p1 ⊢
  rw [he] at hr0 hr1
  unfold SspGrid.getSsp
  rw [hr, Py.ok_bind, hr0, p0, hzz, Py.ok_bind, hr1, p1, htt, Py.ok_bind, if_pos rfl, hs, Py.ok_bind, hzz'.get, htt'.get]

/-- Lookup of an index pair outside the present grid. -/
theorem getSsp_out {g : SspGrid} {n nt nz nz0 nt0 : ℕ} {t z : ℕ → ℝ} {S : ℕ → ℕ → ℕ → ℝ} (h : GridIs g n nt nz t z S)
    (hP : IdxAre g.parIdx nz0 nt0) {i j : ℕ} (hi0 : i < nz0) (hj0 : j < nt0) (hout : nz ≤ i ∨ nt ≤ j) (sp : PyStr) :
    g.getSsp ((i * nt0 + j : ℕ) : ℤ) sp = .error .indexError := by
  obtain ⟨r, hr, hr0, hr1⟩ := col_get hP.1 (col_lt hi0 hj0)
  obtain ⟨p0, p1⟩ := hP.2 i hi0 j hj0
  unfold SspGrid.getSsp
  rw [hr, Py.ok_bind, hr0, p0]
  by_cases hi : i < nz
  · obtain ⟨zz, hzz, hzz'⟩ := h.zCents.at hi
    rw [hzz, Py.ok_bind, hr1, p1, h.tCents.at_err (by omega), Py.error_bind]
  · rw [h.zCents.at_err (by omega), Py.error_bind]

/-! ### Light weights -/

theorem sort0 : ([0] : List ℕ).insertionSort (· ≥ ·) = [0] := by decide

theorem sum0_is (n p : ℕ) (f : List ℕ → Num) : Np.sum [0] (⟨[n, p], f⟩ : Arr Num) =
    .ok ⟨[p], fun m => ∑ k : Fin n, f (m.insertIdx 0 (k : ℕ))⟩ := by
  have h1 : normAxis 2 0 = .ok 0 := by simp [normAxis]
  simp only [Np.sum, List.mapM_cons, List.mapM_nil, List.length_cons, List.length_nil, Nat.reduceAdd, h1, Py.ok_bind,
    Py.pure_eq]
  rw [if_pos (by decide), sort0]
  rfl

theorem lightWeights_is {g : SspGrid} {n nt nz : ℕ} {t z : ℕ → ℝ} {S : ℕ → ℕ → ℕ → ℝ} (h : GridIs g n nt nz t z S) :
    ∃ L, g.lightWeights = .ok L ∧ Is2 L nt nz (fun j i => .fin (∑ k ∈ Finset.range n, S k i j)) := by
  have hs : Np.sum [0] g.X = .ok ⟨[nz * nt], fun m => ∑ k : Fin n, g.X.get (m.insertIdx 0 (k : ℕ))⟩ := by
    have e : g.X = ⟨[n, nz * nt], g.X.get⟩ := by rw [← h.xShape]
    rw [e]
    exact sum0_is _ _ _
  refine ⟨T ⟨[nz, nt], fun i => ∑ k : Fin n, g.X.get ((unravel [nz * nt] (ravel [nz, nt] i)).insertIdx 0 (k : ℕ))⟩, ?_, rfl, ?_⟩
  · simp only [SspGrid.lightWeights, hs, Py.ok_bind, h.dims, reshape]
    simp
  · intro j hj i hi
    have e : ravel [nz, nt] [i, j] = i * nt + j := by simp [ravel]
    have e2 : unravel [nz * nt] (i * nt + j) = [i * nt + j] := by simp [unravel]
    simp only [T, List.reverse_cons, List.reverse_nil, List.nil_append, List.cons_append, e, e2, List.insertIdx_zero]
    rw [Finset.sum_range, ← Num.fin_sum]
    exact Finset.sum_congr rfl fun k _ => h.x k k.2 i hi j hj

end PKM
