import Verif.Ybar
import Verif.BaseLemmas

/-! Lemmas: what `evaluate_ybar` computes, entry by entry. -/

open scoped Classical

noncomputable section

namespace PKM
open Np Component

/-- Array of rank 3 with given entries. -/
def Is3 {α : Type} (A : Arr α) (a b c : ℕ) (f : ℕ → ℕ → ℕ → α) : Prop :=
  A.shape = [a, b, c] ∧ ∀ i < a, ∀ j < b, ∀ k < c, A.get [i, j, k] = f i j k

/-- Array of rank 4 with given entries. -/
def Is4 {α : Type} (A : Arr α) (a b c d : ℕ) (f : ℕ → ℕ → ℕ → ℕ → α) : Prop :=
  A.shape = [a, b, c, d] ∧ ∀ i < a, ∀ j < b, ∀ k < c, ∀ l < d, A.get [i, j, k, l] = f i j k l

/-- Array of rank 5 with given entries. -/
def Is5 {α : Type} (A : Arr α) (a b c d e : ℕ) (f : ℕ → ℕ → ℕ → ℕ → ℕ → α) : Prop :=
  A.shape = [a, b, c, d, e] ∧ ∀ i < a, ∀ j < b, ∀ k < c, ∀ l < d, ∀ m < e, A.get [i, j, k, l, m] = f i j k l m

variable {g : Grid} {cube : IFUCube} {sp : Spectra} {Fs Fp : Arr ℂ} {h n : ℕ} {FS : ℕ → ℕ → ℕ → ℂ}
  {FP : ℕ → ℕ → ℕ → ℕ → ℕ → ℂ}

/-- Value of the datacube at `(k, x, y)` for spectra `FS t w z` and densities `FP t w x y z` in
Fourier space. -/
def ybarVal (g : Grid) (n : ℕ) (FS : ℕ → ℕ → ℕ → ℂ) (FP : ℕ → ℕ → ℕ → ℕ → ℕ → ℂ) (k x y : ℕ) : ℝ :=
  (∑ t : Fin g.nt, ∑ z : Fin g.nz, Fft.irfft n (fun w => FS t w z * FP t w x y z) k *
    (width g.t t * width g.z z)) * width g.x x * width g.y y

theorem irfft_congr {n : ℕ} {Y Y' : ℕ → ℂ} (hn : 0 < n) (hY : ∀ j < Fft.half n, Y j = Y' j) (k : ℕ) :
    Fft.irfft n Y k = Fft.irfft n Y' k := by
  unfold Fft.irfft
  rw [hY 0 (by simp [Fft.half])]
  congr 2
  refine Finset.sum_congr rfl fun j hj => ?_
  rw [hY j (Finset.mem_Ico.1 hj).2]

theorem sort04 : ([0, 4] : List ℕ).insertionSort (· ≥ ·) = [4, 0] := by decide
theorem sort03 : ([0, 3] : List ℕ).insertionSort (· ≥ ·) = [3, 0] := by decide
theorem sort02 : ([0, 2] : List ℕ).insertionSort (· ≥ ·) = [2, 0] := by decide

theorem fin_dx (hc : CubeIs cube g) {x : ℕ} (hx : x < g.nx) : cube.dx = .fin (width g.x x) := hc.dx x hx
theorem fin_dy (hc : CubeIs cube g) {y : ℕ} (hy : y < g.ny) : cube.dy = .fin (width g.y y) := hc.dy y hy

/-- `np.sum(irfft(F) * dtz, (0,2)) * dx * dy` for an array of rank 3. -/
theorem sumSpectra3 {F : Arr ℂ} {dtz : Arr Num} {nt h  nz : ℕ} {f : ℕ → ℕ → ℕ → ℂ} {dt dz : ℕ → ℝ}
    (hF : Is3 F nt h  nz f) (hh : h = Fft.half sp.nFft) (hn : 0 < sp.nFft)
    (hd : Is3 dtz nt 1  nz (fun i _  k => .fin (dt i * dz k))) {dx dy : ℝ}
    (hdx : cube.dx = .fin dx) (hdy : cube.dy = .fin dy) :
    ∃ r, sumSpectra sp cube F dtz [0, 2] = .ok r ∧ r.shape = [sp.nFft] ∧ ∀ k < sp.nFft,
      r.get [k] = .fin ((∑ t : Fin nt, ∑ z : Fin nz, Fft.irfft sp.nFft (fun w => f t w z) k *
        (dt t * dz z)) * dx * dy) := by
  have hm : ∃ y, mul (map Num.fin (irfftAxis 1 sp.nFft F)) dtz = .ok y ∧
      Is3 y nt sp.nFft  nz (fun t k z =>
        .fin (Fft.irfft sp.nFft (fun w => f t w z) k * (dt t * dz z))) := by
    refine ⟨⟨[nt, sp.nFft, nz], fun i => (map Num.fin (irfftAxis 1 sp.nFft F)).get
      (bproj (map Num.fin (irfftAxis 1 sp.nFft F)).shape i) * dtz.get (bproj dtz.shape i)⟩, ?_, rfl, ?_⟩
    · simp [mul, bop, map, irfftAxis, hF.1, hd.1, bshapeR]
    · intro t ht k hk z hz
      simp only [map, irfftAxis, hF.1, hd.1]
      simp only [List.set_cons_succ, List.set_cons_zero, bproj, List.reverse_cons, List.reverse_nil,
        List.nil_append, List.cons_append, List.zipWith_cons_cons, List.zipWith_nil_left, bidx_lt ht,
        bidx_lt hk, bidx_lt hz, bidx_one, List.getD_cons_succ, List.getD_cons_zero]
      rw [hd.2 t ht 0 one_pos z hz, ← Num.fin_mul]
      congr 2
      exact irfft_congr hn (fun j hj => hF.2 t ht j (hh ▸ hj) z hz) k
  obtain ⟨⟨ys, Y⟩, hy, hy1, hy2⟩ := hm
  simp only at hy1
  subst hy1
  refine ⟨map (fun a => a * cube.dx * cube.dy) (sumAxis1 0 (sumAxis1 2 ⟨[nt, sp.nFft, nz], Y⟩)), ?_, rfl, ?_⟩
  · have a0 : normAxis 3 0 = .ok 0 := by simp [normAxis]
    have a2 : normAxis 3 2 = .ok 2 := by simp [normAxis]
    simp only [sumSpectra, hy, Py.ok_bind, Np.sum, List.length_cons, List.length_nil, Nat.reduceAdd,
      List.mapM_cons, a0, a2, List.mapM_nil, Py.pure_eq]
    rw [if_pos (by decide), sort02]; rfl
  · intro k hk
    simp only [map, hdx, hdy]
    have : (∑ t : Fin nt, ∑ z : Fin nz, Y [(t : ℕ), k, (z : ℕ)]) = .fin (∑ t : Fin nt, ∑ z : Fin nz,
        Fft.irfft sp.nFft (fun w => f t w z) k * (dt t * dz z)) :=
      Num.sum_congr_fin _ _ _ fun t _ => Num.sum_congr_fin _ _ _ fun z _ => hy2 t t.2 k hk z z.2
    show (∑ t : Fin nt, ∑ z : Fin nz, Y [(t : ℕ), k, (z : ℕ)]) * _ * _ = _
    rw [this, Num.fin_mul, Num.fin_mul]

/-- `np.sum(irfft(F) * dtz, (0,3)) * dx * dy` for an array of rank 4. -/
theorem sumSpectra4 {F : Arr ℂ} {dtz : Arr Num} {nt h nx nz : ℕ} {f : ℕ → ℕ → ℕ → ℕ → ℂ} {dt dz : ℕ → ℝ}
    (hF : Is4 F nt h nx nz f) (hh : h = Fft.half sp.nFft) (hn : 0 < sp.nFft)
    (hd : Is4 dtz nt 1 1 nz (fun i _ _ k => .fin (dt i * dz k))) {dx dy : ℝ}
    (hdx : cube.dx = .fin dx) (hdy : cube.dy = .fin dy) :
    ∃ r, sumSpectra sp cube F dtz [0, 3] = .ok r ∧ r.shape = [sp.nFft, nx] ∧ ∀ k < sp.nFft, ∀ x < nx,
      r.get [k, x] = .fin ((∑ t : Fin nt, ∑ z : Fin nz, Fft.irfft sp.nFft (fun w => f t w x z) k *
        (dt t * dz z)) * dx * dy) := by
  have hm : ∃ y, mul (map Num.fin (irfftAxis 1 sp.nFft F)) dtz = .ok y ∧
      Is4 y nt sp.nFft nx nz (fun t k x z =>
        .fin (Fft.irfft sp.nFft (fun w => f t w x z) k * (dt t * dz z))) := by
    refine ⟨⟨[nt, sp.nFft, nx, nz], fun i => (map Num.fin (irfftAxis 1 sp.nFft F)).get
      (bproj (map Num.fin (irfftAxis 1 sp.nFft F)).shape i) * dtz.get (bproj dtz.shape i)⟩, ?_, rfl, ?_⟩
    · simp [mul, bop, map, irfftAxis, hF.1, hd.1, bshapeR]
    · intro t ht k hk x hx z hz
      simp only [map, irfftAxis, hF.1, hd.1]
      simp only [List.set_cons_succ, List.set_cons_zero, bproj, List.reverse_cons, List.reverse_nil,
        List.nil_append, List.cons_append, List.zipWith_cons_cons, List.zipWith_nil_left, bidx_lt ht,
        bidx_lt hk, bidx_lt hz, bidx_lt hx, bidx_one, List.getD_cons_succ, List.getD_cons_zero]
      rw [hd.2 t ht 0 one_pos 0 one_pos z hz, ← Num.fin_mul]
      congr 2
      exact irfft_congr hn (fun j hj => hF.2 t ht j (hh ▸ hj) x hx z hz) k
  obtain ⟨⟨ys, Y⟩, hy, hy1, hy2⟩ := hm
  simp only at hy1
  subst hy1
  refine ⟨map (fun a => a * cube.dx * cube.dy) (sumAxis1 0 (sumAxis1 3 ⟨[nt, sp.nFft, nx, nz], Y⟩)), ?_, rfl, ?_⟩
  · have a0 : normAxis 4 0 = .ok 0 := by simp [normAxis]
    have a2 : normAxis 4 3 = .ok 3 := by simp [normAxis]
    simp only [sumSpectra, hy, Py.ok_bind, Np.sum, List.length_cons, List.length_nil, Nat.reduceAdd,
      List.mapM_cons, a0, a2, List.mapM_nil, Py.pure_eq]
    rw [if_pos (by decide), sort03]; rfl
  · intro k hk x hx
    simp only [map, hdx, hdy]
    have : (∑ t : Fin nt, ∑ z : Fin nz, Y [(t : ℕ), k, x, (z : ℕ)]) = .fin (∑ t : Fin nt, ∑ z : Fin nz,
        Fft.irfft sp.nFft (fun w => f t w x z) k * (dt t * dz z)) :=
      Num.sum_congr_fin _ _ _ fun t _ => Num.sum_congr_fin _ _ _ fun z _ => hy2 t t.2 k hk x hx z z.2
    show (∑ t : Fin nt, ∑ z : Fin nz, Y [(t : ℕ), k, x, (z : ℕ)]) * _ * _ = _
    rw [this, Num.fin_mul, Num.fin_mul]

/-- `np.sum(irfft(F) * dtz, (0,4)) * dx * dy` for an array of rank 5. -/
theorem sumSpectra5 {F : Arr ℂ} {dtz : Arr Num} {nt h nx ny nz : ℕ} {f : ℕ → ℕ → ℕ → ℕ → ℕ → ℂ} {dt dz : ℕ → ℝ}
    (hF : Is5 F nt h nx ny nz f) (hh : h = Fft.half sp.nFft) (hn : 0 < sp.nFft)
    (hd : Is5 dtz nt 1 1 1 nz (fun i _ _ _ k => .fin (dt i * dz k))) {dx dy : ℝ}
    (hdx : cube.dx = .fin dx) (hdy : cube.dy = .fin dy) :
    ∃ r, sumSpectra sp cube F dtz [0, 4] = .ok r ∧ r.shape = [sp.nFft, nx, ny] ∧ ∀ k < sp.nFft, ∀ x < nx, ∀ y < ny,
      r.get [k, x, y] = .fin ((∑ t : Fin nt, ∑ z : Fin nz, Fft.irfft sp.nFft (fun w => f t w x y z) k *
        (dt t * dz z)) * dx * dy) := by
  have hm : ∃ y, mul (map Num.fin (irfftAxis 1 sp.nFft F)) dtz = .ok y ∧
      Is5 y nt sp.nFft nx ny nz (fun t k x y z =>
        .fin (Fft.irfft sp.nFft (fun w => f t w x y z) k * (dt t * dz z))) := by
    refine ⟨⟨[nt, sp.nFft, nx, ny, nz], fun i => (map Num.fin (irfftAxis 1 sp.nFft F)).get
      (bproj (map Num.fin (irfftAxis 1 sp.nFft F)).shape i) * dtz.get (bproj dtz.shape i)⟩, ?_, rfl, ?_⟩
    · simp [mul, bop, map, irfftAxis, hF.1, hd.1, bshapeR]
    · intro t ht k hk x hx y hy z hz
      simp only [map, irfftAxis, hF.1, hd.1]
      simp only [List.set_cons_succ, List.set_cons_zero, bproj, List.reverse_cons, List.reverse_nil,
        List.nil_append, List.cons_append, List.zipWith_cons_cons, List.zipWith_nil_left, bidx_lt ht,
        bidx_lt hk, bidx_lt hz, bidx_lt hx, bidx_lt hy, bidx_one, List.getD_cons_succ, List.getD_cons_zero]
      rw [hd.2 t ht 0 one_pos 0 one_pos 0 one_pos z hz, ← Num.fin_mul]
      congr 2
      exact irfft_congr hn (fun j hj => hF.2 t ht j (hh ▸ hj) x hx y hy z hz) k
  obtain ⟨⟨ys, Y⟩, hy, hy1, hy2⟩ := hm
  simp only at hy1
  subst hy1
  refine ⟨map (fun a => a * cube.dx * cube.dy) (sumAxis1 0 (sumAxis1 4 ⟨[nt, sp.nFft, nx, ny, nz], Y⟩)), ?_, rfl, ?_⟩
  · have a0 : normAxis 5 0 = .ok 0 := by simp [normAxis]
    have a2 : normAxis 5 4 = .ok 4 := by simp [normAxis]
    simp only [sumSpectra, hy, Py.ok_bind, Np.sum, List.length_cons, List.length_nil, Nat.reduceAdd,
      List.mapM_cons, a0, a2, List.mapM_nil, Py.pure_eq]
    rw [if_pos (by decide), sort04]; rfl
  · intro k hk x hx y hy
    simp only [map, hdx, hdy]
    have : (∑ t : Fin nt, ∑ z : Fin nz, Y [(t : ℕ), k, x, y, (z : ℕ)]) = .fin (∑ t : Fin nt, ∑ z : Fin nz,
        Fft.irfft sp.nFft (fun w => f t w x y z) k * (dt t * dz z)) :=
      Num.sum_congr_fin _ _ _ fun t _ => Num.sum_congr_fin _ _ _ fun z _ => hy2 t t.2 k hk x hx y hy z z.2
    show (∑ t : Fin nt, ∑ z : Fin nz, Y [(t : ℕ), k, x, y, (z : ℕ)]) * _ * _ = _
    rw [this, Num.fin_mul, Num.fin_mul]

theorem bop_ex {α β γ : Type} (f : α → β → γ) {a : Arr α} {b : Arr β} {s : List ℕ}
    (h : bshapeR a.shape.reverse b.shape.reverse = some s.reverse) :
    ∃ r, bop f a b = .ok r ∧ r.shape = s ∧ ∀ i, r.get i = f (a.get (bproj a.shape i)) (b.get (bproj b.shape i)) :=
  ⟨⟨s, fun i => f (a.get (bproj a.shape i)) (b.get (bproj b.shape i))⟩, by simp [bop, h], rfl, fun _ => rfl⟩

theorem getitem_ex {α : Type} (ix : List Ix) {a : Arr α} {s : List ℕ} (h : ixShape ix a.shape = .ok s) :
    ∃ r, getitem ix a = .ok r ∧ r.shape = s ∧ ∀ i, r.get i = a.get (ixIdx ix a.shape i) :=
  ⟨⟨s, fun i => a.get (ixIdx ix a.shape i)⟩, by simp [getitem, h], rfl, fun _ => rfl⟩

theorem dtz3 (hc : CubeIs cube g) : ∃ a b d, getitem [.all, .na, .na] cube.ssps.deltaT = .ok a ∧
    getitem [.na, .na, .all] cube.ssps.deltaZ = .ok b ∧ mul a b = .ok d ∧
    Is3 d g.nt 1 g.nz (fun i _ k => .fin (width g.t i * width g.z k)) := by
  have ht := hc.deltaT
  have hz := hc.deltaZ
  obtain ⟨a, ha, ha1, ha2⟩ := getitem_ex [.all, .na, .na] (a := cube.ssps.deltaT) (s := [g.nt, 1, 1])
    (by simp [ht.shape, ixShape])
  obtain ⟨b, hb, hb1, hb2⟩ := getitem_ex [.na, .na, .all] (a := cube.ssps.deltaZ) (s := [1, 1, g.nz])
    (by simp [hz.shape, ixShape])
  obtain ⟨d, hd, hd1, hd2⟩ := bop_ex (· * ·) (a := a) (b := b) (s := [g.nt, 1, g.nz])
    (by simp [ha1, hb1, bshapeR])
  refine ⟨a, b, d, ha, hb, hd, hd1, ?_⟩
  intro i hi j0 hj0 k hk
  simp [hd2, ha2, hb2, ha1, hb1, ht.shape, hz.shape, bproj, bidx_lt hi, bidx_lt hk, ixIdx, ht.get i hi, hz.get k hk]

theorem dtz4 (hc : CubeIs cube g) : ∃ a b d, getitem [.all, .na, .na, .na] cube.ssps.deltaT = .ok a ∧
    getitem [.na, .na, .na, .all] cube.ssps.deltaZ = .ok b ∧ mul a b = .ok d ∧
    Is4 d g.nt 1 1 g.nz (fun i _ _ k => .fin (width g.t i * width g.z k)) := by
  have ht := hc.deltaT
  have hz := hc.deltaZ
  obtain ⟨a, ha, ha1, ha2⟩ := getitem_ex [.all, .na, .na, .na] (a := cube.ssps.deltaT) (s := [g.nt, 1, 1, 1])
    (by simp [ht.shape, ixShape])
  obtain ⟨b, hb, hb1, hb2⟩ := getitem_ex [.na, .na, .na, .all] (a := cube.ssps.deltaZ) (s := [1, 1, 1, g.nz])
    (by simp [hz.shape, ixShape])
  obtain ⟨d, hd, hd1, hd2⟩ := bop_ex (· * ·) (a := a) (b := b) (s := [g.nt, 1, 1, g.nz])
    (by simp [ha1, hb1, bshapeR])
  refine ⟨a, b, d, ha, hb, hd, hd1, ?_⟩
  intro i hi j0 hj0 j1 hj1 k hk
  simp [hd2, ha2, hb2, ha1, hb1, ht.shape, hz.shape, bproj, bidx_lt hi, bidx_lt hk, ixIdx, ht.get i hi, hz.get k hk]

theorem dtz5 (hc : CubeIs cube g) : ∃ a b d, getitem [.all, .na, .na, .na, .na] cube.ssps.deltaT = .ok a ∧
    getitem [.na, .na, .na, .na, .all] cube.ssps.deltaZ = .ok b ∧ mul a b = .ok d ∧
    Is5 d g.nt 1 1 1 g.nz (fun i _ _ _ k => .fin (width g.t i * width g.z k)) := by
  have ht := hc.deltaT
  have hz := hc.deltaZ
  obtain ⟨a, ha, ha1, ha2⟩ := getitem_ex [.all, .na, .na, .na, .na] (a := cube.ssps.deltaT) (s := [g.nt, 1, 1, 1, 1])
    (by simp [ht.shape, ixShape])
  obtain ⟨b, hb, hb1, hb2⟩ := getitem_ex [.na, .na, .na, .na, .all] (a := cube.ssps.deltaZ) (s := [1, 1, 1, 1, g.nz])
    (by simp [hz.shape, ixShape])
  obtain ⟨d, hd, hd1, hd2⟩ := bop_ex (· * ·) (a := a) (b := b) (s := [g.nt, 1, 1, 1, g.nz])
    (by simp [ha1, hb1, bshapeR])
  refine ⟨a, b, d, ha, hb, hd, hd1, ?_⟩
  intro i hi j0 hj0 j1 hj1 j2 hj2 k hk
  simp [hd2, ha2, hb2, ha1, hb1, ht.shape, hz.shape, bproj, bidx_lt hi, bidx_lt hk, ixIdx, ht.get i hi, hz.get k hk]

/-- Broadcast product of the spectra with the density, all pixels at once. -/
theorem prod5 {nt h nx ny nz : ℕ} (hs : Is3 Fs nt h nz FS) (hp : Is5 Fp nt h nx ny nz FP) :
    ∃ A F, getitem [.all, .all, .na, .na, .all] Fs = .ok A ∧ bop (· * ·) A Fp = .ok F ∧
      Is5 F nt h nx ny nz (fun t w x y z => FS t w z * FP t w x y z) := by
  obtain ⟨a, ha, ha1, ha2⟩ := getitem_ex [.all, .all, .na, .na, .all] (a := Fs) (s := [nt, h, 1, 1, nz])
    (by simp [hs.1, ixShape])
  obtain ⟨d, hd, hd1, hd2⟩ := bop_ex (· * ·) (a := a) (b := Fp) (s := [nt, h, nx, ny, nz])
    (by simp [ha1, hp.1, bshapeR])
  refine ⟨a, d, ha, hd, hd1, ?_⟩
  intro t ht w hw x hx y hy z hz
  simp [hd2, ha2, ha1, hs.1, bproj, hp.1, bidx_lt ht, bidx_lt hw, bidx_lt hx, bidx_lt hy, bidx_lt hz, ixIdx,
    hs.2 t ht w hw z hz, hp.2 t ht w hw x hx y hy z hz]

/-- One column of pixels. -/
theorem prod4 {nt h nx ny nz : ℕ} (hs : Is3 Fs nt h nz FS) (hp : Is5 Fp nt h nx ny nz FP) :
    ∃ A, getitem [.all, .all, .na, .all] Fs = .ok A ∧ ∀ y < ny,
      ∃ P F, getitem [.all, .all, .all, .at (y : ℤ), .all] Fp = .ok P ∧ bop (· * ·) A P = .ok F ∧
      Is4 F nt h nx nz (fun t w x z => FS t w z * FP t w x y z) := by
  obtain ⟨a, ha, ha1, ha2⟩ := getitem_ex [.all, .all, .na, .all] (a := Fs) (s := [nt, h, 1, nz])
    (by simp [hs.1, ixShape])
  refine ⟨a, ha, fun y hy => ?_⟩
  have hy0 : ¬ ((y : ℤ) < 0) := by omega
  obtain ⟨b, hb, hb1, hb2⟩ := getitem_ex [.all, .all, .all, .at (y : ℤ), .all] (a := Fp) (s := [nt, h, nx, nz])
    (by simp [hp.1, ixShape, hy0, hy])
  obtain ⟨d, hd, hd1, hd2⟩ := bop_ex (· * ·) (a := a) (b := b) (s := [nt, h, nx, nz])
    (by simp [ha1, hb1, bshapeR])
  refine ⟨b, d, hb, hd, hd1, ?_⟩
  intro t ht w hw x hx z hz
  simp [hd2, ha2, ha1, hb2, hb1, hs.1, hp.1, bproj, bidx_lt ht, bidx_lt hw, bidx_lt hx, bidx_lt hz, ixIdx, hy0,
    hs.2 t ht w hw z hz, hp.2 t ht w hw x hx y hy z hz]

/-- One pixel. -/
theorem prod3 {nt h nx ny nz : ℕ} (hs : Is3 Fs nt h nz FS) (hp : Is5 Fp nt h nx ny nz FP) {x y : ℕ}
    (hx : x < nx) (hy : y < ny) :
      ∃ P F, getitem [.all, .all, .at (x : ℤ), .at (y : ℤ), .all] Fp = .ok P ∧ bop (· * ·) Fs P = .ok F ∧
      Is3 F nt h nz (fun t w z => FS t w z * FP t w x y z) := by
  have hx0 : ¬ ((x : ℤ) < 0) := by omega
  have hy0 : ¬ ((y : ℤ) < 0) := by omega
  obtain ⟨b, hb, hb1, hb2⟩ := getitem_ex [.all, .all, .at (x : ℤ), .at (y : ℤ), .all] (a := Fp) (s := [nt, h, nz])
    (by simp [hp.1, ixShape, hy0, hy, hx0, hx])
  obtain ⟨d, hd, hd1, hd2⟩ := bop_ex (· * ·) (a := Fs) (b := b) (s := [nt, h, nz])
    (by simp [hs.1, hb1, bshapeR])
  refine ⟨b, d, hb, hd, hd1, ?_⟩
  intro t ht w hw z hz
  simp [hd2, hb2, hb1, hs.1, hp.1, bproj, bidx_lt ht, bidx_lt hw, bidx_lt hz, ixIdx, hy0, hx0,
    hs.2 t ht w hw z hz, hp.2 t ht w hw x hx y hy z hz]

theorem ybarNone_is (hg : g.Proper) (hc : CubeIs cube g) (hs : Is3 Fs g.nt h g.nz FS)
    (hp : Is5 Fp g.nt h g.nx g.ny g.nz FP) (hh : h = Fft.half sp.nFft) (hn : 0 < sp.nFft) :
    ∃ r, ybarNone sp cube Fs Fp = .ok r ∧
      Is3 r sp.nFft g.nx g.ny (fun k x y => .fin (ybarVal g sp.nFft FS FP k x y)) := by
  obtain ⟨a, b, d, ha, hb, hd, hd'⟩ := dtz5 hc
  obtain ⟨A, F, hA, hF, hF'⟩ := prod5 hs hp
  obtain ⟨r, hr, hr1, hr2⟩ := sumSpectra5 (sp := sp) hF' hh hn hd' (fin_dx hc hg.nx) (fin_dy hc hg.ny)
  refine ⟨r, by simp only [ybarNone, ha, hb, hd, hA, hF, hr, Py.ok_bind], hr1, fun k hk x hx y hy => ?_⟩
  rw [hr2 k hk x hx y hy]
  have e1 := Num.fin_injective ((fin_dx hc hx).symm.trans (fin_dx hc hg.nx))
  have e2 := Num.fin_injective ((fin_dy hc hy).symm.trans (fin_dy hc hg.ny))
  simp only [ybarVal, e1, e2]

theorem broadcastTo_same {α : Type} {s : List ℕ} {a : Arr α} (h : a.shape = s) :
    ∃ b, broadcastTo s a = .ok b ∧ ∀ i, InBox s i → b.get i = a.get i := by
  subst h
  refine ⟨⟨a.shape, fun i => a.get (bproj a.shape i)⟩, ?_, fun i hi => ?_⟩
  · simp [broadcastTo, bshapeR_self]
  · simp only [bproj_self hi]

/-- Invariant rule for `foldlM` over `range n`. -/
theorem foldlM_range {α : Type} (f : α → ℕ → Py α) (I : ℕ → α → Prop) {n : ℕ} {a : α} (h0 : I 0 a)
    (hs : ∀ i < n, ∀ a, I i a → ∃ b, f a i = .ok b ∧ I (i + 1) b) :
    ∃ b, (List.range n).foldlM f a = .ok b ∧ I n b := by
  induction n with
  | zero => exact ⟨a, rfl, h0⟩
  | succ n ih =>
    obtain ⟨b, hb, hI⟩ := ih (fun i hi => hs i (by omega))
    obtain ⟨c, hc, hI'⟩ := hs n (by omega) b hI
    refine ⟨c, ?_, hI'⟩
    rw [List.range_succ, List.foldlM_append, hb]
    simp [hc]

theorem ybarColumn_is (hg : g.Proper) (hc : CubeIs cube g) (hs : Is3 Fs g.nt h g.nz FS)
    (hp : Is5 Fp g.nt h g.nx g.ny g.nz FP) (hh : h = Fft.half sp.nFft) (hn : 0 < sp.nFft)
    (hl : sp.Xw.shape.headD 0 = sp.nFft) :
    ∃ r, ybarColumn sp cube Fs Fp = .ok r ∧
      Is3 r sp.nFft g.nx g.ny (fun k x y => .fin (ybarVal g sp.nFft FS FP k x y)) := by
  obtain ⟨a, b, d, ha, hb, hd, hd'⟩ := dtz4 hc
  obtain ⟨A, hA, hF⟩ := prod4 hs hp
  obtain ⟨r, hr, hr1, hr2⟩ := foldlM_range (n := g.ny) (a := full [sp.nFft, g.nx, g.ny] (Num.fin 0))
    (fun y (i : ℕ) => do
      let P ← getitem [.all, .all, .all, .at i, .all] Fp
      let F ← bop (· * ·) A P
      let yi ← sumSpectra sp cube F d [0, 3]
      setColumn y i yi)
    (fun m y => y.shape = [sp.nFft, g.nx, g.ny] ∧ ∀ k < sp.nFft, ∀ x < g.nx, ∀ j < m, j < g.ny →
      y.get [k, x, j] = .fin (ybarVal g sp.nFft FS FP k x j))
    ⟨rfl, fun k _ x _ j hj => absurd hj (Nat.not_lt_zero j)⟩ (by
      intro i hi y ⟨hy1, hy2⟩
      obtain ⟨P, F, hP, hF1, hF2⟩ := hF i hi
      obtain ⟨s, hs1, hs2, hs3⟩ := sumSpectra4 (sp := sp) hF2 hh hn hd' (fin_dx hc hg.nx) (fin_dy hc hi)
      obtain ⟨t, ht1, ht2⟩ := broadcastTo_same hs2
      refine ⟨⟨[sp.nFft, g.nx, g.ny], fun k => if k.getD 2 0 = i then t.get [k.getD 0 0, k.getD 1 0] else y.get k⟩,
        ?_, rfl, ?_⟩
      · simp only [hP, hF1, hs1, Py.ok_bind, setColumn, hy1]
        simp [ht1]
      · intro k hk x hx j hj hj'
        simp only [List.getD_cons_succ, List.getD_cons_zero]
        split_ifs with e
        · rw [ht2 [k, x] ⟨hk, hx, trivial⟩, hs3 k hk x hx, e]
          have e1 := Num.fin_injective ((fin_dx hc hx).symm.trans (fin_dx hc hg.nx))
          simp only [ybarVal, e1]
        · exact hy2 k hk x hx j (by omega) hj')
  refine ⟨r, ?_, hr1, fun k hk x hx y hy => hr2 k hk x hx y hy hy⟩
  simp only [ybarColumn, ha, hb, hd, hA, Py.ok_bind, hl, hc.nx, hc.ny]
  exact hr

theorem ybarSpaxel_is (hg : g.Proper) (hc : CubeIs cube g) (hs : Is3 Fs g.nt h g.nz FS)
    (hp : Is5 Fp g.nt h g.nx g.ny g.nz FP) (hh : h = Fft.half sp.nFft) (hn : 0 < sp.nFft)
    (hl : sp.Xw.shape.headD 0 = sp.nFft) :
    ∃ r, ybarSpaxel sp cube Fs Fp = .ok r ∧
      Is3 r sp.nFft g.nx g.ny (fun k x y => .fin (ybarVal g sp.nFft FS FP k x y)) := by
  obtain ⟨a, b, d, ha, hb, hd, hd'⟩ := dtz3 hc
  obtain ⟨r, hr, hr1, hr2⟩ := foldlM_range (n := g.nx) (a := full [sp.nFft, g.nx, g.ny] (Num.fin 0))
    (fun y (i : ℕ) =>
      (List.range g.ny).foldlM (fun y (j : ℕ) => do
        let P ← getitem [.all, .all, .at i, .at j, .all] Fp
        let F ← bop (· * ·) Fs P
        let yij ← sumSpectra sp cube F d [0, 2]
        setSpaxel y i j yij) y)
    (fun m y => y.shape = [sp.nFft, g.nx, g.ny] ∧ ∀ k < sp.nFft, ∀ x < m, ∀ j < g.ny,
      y.get [k, x, j] = .fin (ybarVal g sp.nFft FS FP k x j))
    ⟨rfl, fun k _ x hx => absurd hx (Nat.not_lt_zero x)⟩ (by
      intro i hi y ⟨hy1, hy2⟩
      obtain ⟨r, hr, hr1, hr2, hr3⟩ := foldlM_range (n := g.ny) (a := y)
        (fun y (j : ℕ) => do
          let P ← getitem [.all, .all, .at i, .at j, .all] Fp
          let F ← bop (· * ·) Fs P
          let yij ← sumSpectra sp cube F d [0, 2]
          setSpaxel y i j yij)
        (fun m y => y.shape = [sp.nFft, g.nx, g.ny] ∧ (∀ k < sp.nFft, ∀ x < i, ∀ j < g.ny,
          y.get [k, x, j] = .fin (ybarVal g sp.nFft FS FP k x j)) ∧ ∀ k < sp.nFft, ∀ j < m,
          y.get [k, i, j] = .fin (ybarVal g sp.nFft FS FP k i j))
        ⟨hy1, hy2, fun k _ j hj => absurd hj (Nat.not_lt_zero j)⟩ (by
          intro j hj y ⟨hy1, hy2, hy3⟩
          obtain ⟨P, F, hP, hF1, hF2⟩ := prod3 hs hp hi hj
          obtain ⟨s, hs1, hs2, hs3⟩ := sumSpectra3 (sp := sp) hF2 hh hn hd' (fin_dx hc hi) (fin_dy hc hj)
          obtain ⟨t, ht1, ht2⟩ := broadcastTo_same hs2
          refine ⟨⟨[sp.nFft, g.nx, g.ny], fun k => if k.getD 1 0 = i ∧ k.getD 2 0 = j then t.get [k.getD 0 0]
            else y.get k⟩, ?_, rfl, ?_, ?_⟩
          · simp only [hP, hF1, hs1, Py.ok_bind, setSpaxel, hy1]
            simp [ht1]
          · intro k hk x hx j' hj'
            simp only [List.getD_cons_succ, List.getD_cons_zero]
            rw [if_neg (by omega)]
            exact hy2 k hk x hx j' hj'
          · intro k hk j' hj'
            simp only [List.getD_cons_succ, List.getD_cons_zero, true_and]
            split_ifs with e
            · rw [ht2 [k] ⟨hk, trivial⟩, hs3 k hk, e]
              rfl
            · exact hy3 k hk j' (by omega))
      refine ⟨r, hr, hr1, fun k hk x hx j hj => ?_⟩
      rcases Nat.lt_succ_iff_lt_or_eq.1 hx with hx | hx
      · exact hr2 k hk x hx j hj
      · rw [hx]; exact hr3 k hk j hj)
  refine ⟨r, ?_, hr1, fun k hk x hx y hy => hr2 k hk x hx y hy⟩
  simp only [ybarSpaxel, ha, hb, hd, Py.ok_bind, hl, hc.nx, hc.ny]
  exact hr

/-! ### Spectra -/

/-- The SSP object holds the spectra `S t z` (sampled at `nl` pixels) and their transforms of length
`n`. -/
structure SpectraAre (sp : Spectra) (g : Grid) (S : ℕ → ℕ → ℕ → ℝ) (nl n : ℕ) : Prop where
  len : sp.Xw.shape.headD 0 = nl
  nFft : sp.nFft = n
  dims : sp.parDims = [g.nz, g.nt]
  shape : sp.FXw.shape = [Fft.half n, g.nz * g.nt]
  get : ∀ w < Fft.half n, ∀ t < g.nt, ∀ z < g.nz, sp.FXw.get [w, z * g.nt + t] = Fft.rfft nl n (S t z) w

/-- `_calculate_fourier_transform()` on an array of spectra (first axis wavelength, second axis
`z * nt + t`) establishes this. -/
theorem fourier_is {Xw : Arr ℝ} {S : ℕ → ℕ → ℕ → ℝ} {nl : ℕ} (dv : ℝ) (hs : Xw.shape = [nl, g.nz * g.nt])
    (hX : ∀ k < nl, ∀ t < g.nt, ∀ z < g.nz, Xw.get [k, z * g.nt + t] = S t z k) :
    ∃ sp, Spectra.fourier dv Xw [g.nz, g.nt] none = .ok sp ∧ SpectraAre sp g S nl nl ∧ sp.dv = dv := by
  refine ⟨⟨dv, Xw, nl, T ⟨[g.nz * g.nt, Fft.half nl], fun i =>
    Fft.rfft nl nl (fun j => (T Xw).get (i.set 1 j)) (i.getD 1 0)⟩, [g.nz, g.nt]⟩, ?_, ⟨?_, rfl, rfl, ?_, ?_⟩, rfl⟩
  · simp [Spectra.fourier, hs, T]
  · simp [hs]
  · simp [T]
  · intro w hw t ht z hz
    simp only [T, List.reverse_cons, List.reverse_nil, List.nil_append, List.cons_append, List.set_cons_succ,
      List.set_cons_zero, List.getD_cons_succ, List.getD_cons_zero]
    unfold Fft.rfft
    refine Finset.sum_congr rfl fun j hj => ?_
    have hj := Finset.mem_range.1 hj
    rw [if_pos hj, if_pos hj]
    beta_reduce
    rw [hX j hj t ht z hz]

theorem fourierSpectra_is {S : ℕ → ℕ → ℕ → ℝ} {nl n : ℕ} (hg : g.Proper) (h : SpectraAre sp g S nl n) :
    ∃ Fs, fourierSpectra sp = .ok Fs ∧
      Is3 Fs g.nt (Fft.half n) g.nz (fun t w z => Fft.rfft nl n (S t z) w) := by
  have hp : g.nz * g.nt ≠ 0 := Nat.mul_ne_zero hg.nz.ne' hg.nt.ne'
  have e1 : reshapeInfer sp.parDims sp.FXw = .ok ⟨[Fft.half n, g.nz, g.nt], fun i =>
      sp.FXw.get (unravel sp.FXw.shape (ravel [Fft.half n, g.nz, g.nt] i))⟩ := by
    have : Fft.half n * (g.nz * g.nt) / (g.nz * g.nt) = Fft.half n :=
      Nat.mul_div_cancel _ (Nat.pos_of_ne_zero hp)
    simp [reshapeInfer, reshape, h.dims, h.shape, hg.nz.ne', hg.nt.ne', this]
  have e2 : moveOrder 3 [-1] [0] = .ok [2, 0, 1] := by
    simp [moveOrder, normAxis]; decide
  refine ⟨transpose [2, 0, 1] ⟨[Fft.half n, g.nz, g.nt], fun i =>
      sp.FXw.get (unravel sp.FXw.shape (ravel [Fft.half n, g.nz, g.nt] i))⟩, ?_, rfl, ?_⟩
  · simp only [fourierSpectra, e1, Py.ok_bind, moveaxis, List.length_cons, List.length_nil, Nat.reduceAdd, e2]
  · intro t ht w hw z hz
    have hi : (List.range 3).map (fun m => [t, w, z].getD ([2, 0, 1].idxOf m) 0) = [w, z, t] := by rfl
    simp only [transpose, List.length_cons, List.length_nil, Nat.reduceAdd, hi, h.shape]
    have hr : ravel [Fft.half n, g.nz, g.nt] [w, z, t] = w * (g.nz * g.nt) + (z * g.nt + t) := by
      simp [ravel]
    have hlt : z * g.nt + t < g.nz * g.nt := by
      calc z * g.nt + t < z * g.nt + g.nt := by omega
        _ = (z + 1) * g.nt := by ring
        _ ≤ g.nz * g.nt := Nat.mul_le_mul_right _ hz
    have hu : unravel [Fft.half n, g.nz * g.nt] (w * (g.nz * g.nt) + (z * g.nt + t)) = [w, z * g.nt + t] := by
      have hpos := Nat.pos_of_ne_zero hp
      simp only [unravel, List.prod_cons, List.prod_nil, mul_one, Nat.div_one]
      rw [Nat.add_comm, Nat.add_mul_div_right _ _ hpos, Nat.div_eq_of_lt hlt, Nat.add_mul_mod_self_right,
        Nat.mod_eq_of_lt hlt, Nat.zero_add]
    rw [hr, hu, h.get w hw t ht z hz]

/-- Fourier transform of the rolled density at one `(t, x, y, z)`. -/
def densFT (interp : ℕ → (ℕ → ℂ) → ℝ → ℂ) (ρ : Cell → ℝ) (nv v0 : ℕ) (dv : ℝ) (k : ℕ) (t w x y z : ℕ) : ℂ :=
  interp (Fft.half nv) (fun j => Fft.rfft nv nv
    (fun i => ρ ⟨t, (i + (nv - (nv - v0) % nv)) % nv, x, y, z⟩) j * (dv : ℂ)) ((w : ℝ) / (k - 1 : ℝ))

/-- The interpolant depends on the given points only. -/
def InterpLocal (interp : ℕ → (ℕ → ℂ) → ℝ → ℂ) : Prop :=
  ∀ m Y Y', 4 ≤ m → (∀ j < m, Y j = Y' j) → ∀ x, interp m Y x = interp m Y' x

theorem rfft_congr {n : ℕ} {x x' : ℕ → ℝ} (hx : ∀ j < n, x j = x' j) (k : ℕ) :
    Fft.rfft n n x k = Fft.rfft n n x' k :=
  Finset.sum_congr rfl fun j hj => by
    have hj := Finset.mem_range.1 hj
    rw [if_pos hj, if_pos hj, hx j hj]

theorem fourierDensity_is {interp : ℕ → (ℕ → ℂ) → ℝ → ℂ} (hI : InterpLocal interp) {p : Arr Num} {ρ : Cell → ℝ}
    (hg : g.Proper) (hp : Is5 p g.nt g.nv g.nx g.ny g.nz (fun t v x y z => .fin (ρ ⟨t, v, x, y, z⟩)))
    (v0 : ℕ) (dv : ℝ) (k : ℕ) :
    (Fft.half g.nv < 4 → fourierDensity interp p v0 dv k = .error .valueError) ∧
    (4 ≤ Fft.half g.nv → ∃ Fp, fourierDensity interp p v0 dv k = .ok Fp ∧
      Is5 Fp g.nt k g.nx g.ny g.nz (densFT interp ρ g.nv v0 dv k)) := by
  have hs : ∀ q : Arr ℝ, q.shape = [g.nt, g.nv, g.nx, g.ny, g.nz] →
      (map (fun z => z * (dv : ℂ)) (rfftAxis 1 (rollAxis (q.shape.getD 1 0 - v0) 1 q))).shape.getD 1 0 =
        Fft.half g.nv := by
    intro q hq; simp [map, rfftAxis, rollAxis, hq]
  have hq : (map finPart p).shape =
    [g.nt, g.nv, g.nx, g.ny, g.nz] := hp.1
  constructor
  · intro hlt
    unfold fourierDensity interpAxis1
    exact if_pos (lt_of_eq_of_lt (hs _ hq) hlt)
  · intro hle
    unfold fourierDensity interpAxis1
    refine ⟨_, if_neg (not_lt.2 (hle.trans_eq (hs _ hq).symm)), ?_, ?_⟩
    · simp [map, rfftAxis, rollAxis, hp.1]
    · intro t ht w hw x hx y hy z hz
      unfold densFT
      dsimp only
      rw [hs _ hq]
      refine hI _ _ _ hle (fun j hj => ?_) _
      simp only [map, rfftAxis, rollAxis, hp.1, List.set_cons_succ, List.set_cons_zero, List.getD_cons_succ,
        List.getD_cons_zero]
      congr 1
      apply rfft_congr
      intro i hi
      rw [hp.2 t ht _ (Nat.mod_lt _ hg.nv) x hx y hy z hz]
      rfl

/-! ### Velocity grid -/

theorem vCentres_is {vE : Arr Num} {n : ℕ} {e : ℕ → ℝ} (h : Is1 vE (n + 1) e) :
    ∃ v, vCentres vE = .ok v ∧ Is1 v n (centre e) := by
  obtain ⟨a, ha, ha1, ha2⟩ := getitem_ex [.sl 0 (some (-1))] (a := vE) (s := [n])
    (by simp [h.shape, ixShape, slLen, slStop, slStart])
  obtain ⟨b, hb, hb1, hb2⟩ := getitem_ex [.sl 1 none] (a := vE) (s := [n])
    (by simp [h.shape, ixShape, slLen, slStop, slStart])
  obtain ⟨d, hd, hd1, hd2⟩ := bop_ex (· + ·) (a := a) (b := b) (s := [n]) (by simp [ha1, hb1, bshapeR])
  refine ⟨map (fun d => d / .fin 2) d, ?_, hd1, fun i hi => ?_⟩
  · simp only [vCentres, ha, hb, Py.ok_bind, Np.add, hd]
  · have e1 : ixIdx [.sl 0 (some (-1))] [n + 1] [i] = [i] := by simp [ixIdx, slStart]
    have e2 : ixIdx [.sl 1 none] [n + 1] [i] = [i + 1] := by simp [ixIdx, slStart]; omega
    simp only [map, hd2, ha2, hb2, ha1, hb1, h.shape, bproj, List.reverse_cons, List.reverse_nil,
      List.nil_append, List.zipWith_cons_cons, List.zipWith_nil_left, bidx_lt hi, e1, e2]
    rw [h.get i (by omega), h.get (i + 1) (by omega), Num.fin_add, Num.fin_div _ _ two_ne_zero]
    rfl

/-- The bin found by the search for `v = 0`. -/
def ZeroBin (n : ℕ) (e : ℕ → ℝ) (v0 : ℕ) : Prop :=
  v0 < n ∧ |centre e v0| ≤ 1 / 10 ^ 8 ∧ ∀ i < v0, 1 / 10 ^ 8 < |centre e i|

theorem isclose_zero (a : ℝ) : isclose (.fin a) (.fin 0) ↔ |a| ≤ 1 / 10 ^ 8 := by simp [isclose]

theorem v0Idx_is {v : Arr Num} {n : ℕ} {e : ℕ → ℝ} (h : Is1 v n (centre e)) :
    (∀ v0, v0Idx v = .ok v0 ↔ ZeroBin n e v0) ∧
    (v0Idx v = .error .indexError ↔ ∀ i < n, 1 / 10 ^ 8 < |centre e i|) := by
  have hs : v.shape.headD 0 = n := by rw [h.shape]; rfl
  have hcl : ∀ i < n, isclose (v.get [i]) (.fin 0) ↔ |centre e i| ≤ 1 / 10 ^ 8 := fun i hi => by
    rw [h.get i hi, isclose_zero]
  unfold v0Idx
  rw [hs]
  constructor
  · intro v0
    cases hf : (List.range n).find? (fun i => decide (isclose (v.get [i]) (.fin 0))) with
    | none =>
      simp only [List.find?_eq_none, List.mem_range, decide_eq_true_eq] at hf
      simp only [reduceCtorEq, false_iff]
      rintro ⟨h1, h2, -⟩
      exact hf v0 h1 ((hcl v0 h1).2 h2)
    | some k =>
      rw [List.find?_range_eq_some] at hf
      obtain ⟨h1, h2, h3⟩ := hf
      simp only [decide_eq_true_eq] at h1
      have hk : k < n := by simpa using h2
      have h3' : ∀ i < k, 1 / 10 ^ 8 < |centre e i| := fun i hi => by
        have := h3 i hi
        simp only [Bool.not_eq_true', decide_eq_false_iff_not] at this
        rw [hcl i (by omega)] at this
        exact not_le.1 this
      have hZ : ZeroBin n e k := ⟨hk, (hcl k hk).1 h1, h3'⟩
      constructor
      · intro e'
        injection e' with e'
        subst e'
        exact hZ
      · rintro ⟨g1, g2, g3⟩
        have : k = v0 := by
          rcases lt_trichotomy k v0 with hlt | heq | hgt
          · exact absurd hZ.2.1 (not_le.2 (g3 k hlt))
          · exact heq
          · exact absurd g2 (not_le.2 (h3' v0 hgt))
        rw [this]
  · cases hf : (List.range n).find? (fun i => decide (isclose (v.get [i]) (.fin 0))) with
    | none =>
      simp only [List.find?_eq_none, List.mem_range, decide_eq_true_eq] at hf
      simp only [true_iff]
      intro i hi
      have := hf i hi
      rw [hcl i hi] at this
      exact not_le.1 this
    | some k =>
      rw [List.find?_range_eq_some] at hf
      obtain ⟨h1, h2, -⟩ := hf
      simp only [decide_eq_true_eq] at h1
      have hk : k < n := by simpa using h2
      simp only [reduceCtorEq, false_iff, not_forall]
      exact ⟨k, hk, not_lt.2 ((hcl k hk).1 h1)⟩

/-- The three conditions on the velocity bins: widths equal to `dv` up to rounding tolerance, centres in
ascending order, and the (first) bin at zero velocity is the middle one. -/
def VelocityOk (n : ℕ) (e : ℕ → ℝ) (dv : ℝ) (v0 : ℕ) : Prop :=
  (∀ i < n, |width e i - dv| ≤ 1 / 10 ^ 8 + 1 / 10 ^ 5 * |dv|) ∧
  (∀ i, i + 1 < n → centre e i ≤ centre e (i + 1)) ∧ v0 = n / 2

theorem validateVEdg_is {vE : Arr Num} {n : ℕ} {e : ℕ → ℝ} (h : Is1 vE (n + 1) e) (dv : ℝ) :
    (∀ v0, ZeroBin n e v0 → validateVEdg vE dv = if VelocityOk n e dv v0 then .ok () else .error .valueError) ∧
    ((∀ i < n, 1 / 10 ^ 8 < |centre e i|) → validateVEdg vE dv = .error .indexError) := by
  obtain ⟨a, ha, ha1, ha2⟩ := getitem_ex [.sl 0 (some (-1))] (a := vE) (s := [n])
    (by simp [h.shape, ixShape, slLen, slStop, slStart])
  obtain ⟨b, hb, hb1, hb2⟩ := getitem_ex [.sl 1 none] (a := vE) (s := [n])
    (by simp [h.shape, ixShape, slLen, slStop, slStart])
  obtain ⟨d, hd, hd1, hd2⟩ := bop_ex (· - ·) (a := b) (b := a) (s := [n]) (by simp [ha1, hb1, bshapeR])
  obtain ⟨v, hv, hv'⟩ := vCentres_is h
  have hdv : ∀ i < n, d.get [i] = .fin (width e i) := by
    intro i hi
    have e1 : ixIdx [.sl 0 (some (-1))] [n + 1] [i] = [i] := by simp [ixIdx, slStart]
    have e2 : ixIdx [.sl 1 none] [n + 1] [i] = [i + 1] := by simp [ixIdx, slStart]; omega
    simp only [map, hd2, ha2, hb2, ha1, hb1, h.shape, bproj, List.reverse_cons, List.reverse_nil,
      List.nil_append, List.zipWith_cons_cons, List.zipWith_nil_left, bidx_lt hi, e1, e2]
    rw [h.get i (by omega), h.get (i + 1) (by omega), Num.fin_sub]
    rfl
  have hn : v.shape.headD 0 = n := by rw [hv'.shape]; rfl
  have hdn : d.shape.headD 0 = n := by rw [hd1]; rfl
  have c1 : (∀ i < d.shape.headD 0, isclose (d.get [i]) (.fin dv)) ↔
      ∀ i < n, |width e i - dv| ≤ 1 / 10 ^ 8 + 1 / 10 ^ 5 * |dv| := by
    rw [hdn]
    refine forall_congr' fun i => forall_congr' fun hi => ?_
    rw [hdv i hi]
    rfl
  have c2 : (∀ i, i + 1 < v.shape.headD 0 → numLe (v.get [i]) (v.get [i + 1])) ↔
      ∀ i, i + 1 < n → centre e i ≤ centre e (i + 1) := by
    rw [hn]
    refine forall_congr' fun i => forall_congr' fun hi => ?_
    rw [hv'.get i (by omega), hv'.get (i + 1) hi]
    rfl
  have run : validateVEdg vE dv = (v0Idx v).bind fun v0 =>
      if (∀ i < d.shape.headD 0, isclose (d.get [i]) (.fin dv)) ∧
        (∀ i, i + 1 < v.shape.headD 0 → numLe (v.get [i]) (v.get [i + 1])) ∧
        (if v.shape.headD 0 % 2 = 1 then 2 * v0 = v.shape.headD 0 - 1 else 2 * v0 = v.shape.headD 0)
      then .ok () else .error .valueError := by
    simp only [validateVEdg, ha, hb, Py.ok_bind, Np.sub, hd, hv]
    rfl
  constructor
  · intro v0 h0
    rw [run, ((v0Idx_is hv').1 v0).2 h0]
    show (if _ then _ else _) = (if _ then _ else _)
    have : ((∀ i < d.shape.headD 0, isclose (d.get [i]) (.fin dv)) ∧
        (∀ i, i + 1 < v.shape.headD 0 → numLe (v.get [i]) (v.get [i + 1])) ∧
        (if v.shape.headD 0 % 2 = 1 then 2 * v0 = v.shape.headD 0 - 1 else 2 * v0 = v.shape.headD 0)) ↔
        VelocityOk n e dv v0 := by
      rw [c1, c2, hn]
      unfold VelocityOk
      refine and_congr_right' (and_congr_right' ?_)
      split <;> omega
    simp only [this]
  · intro h0
    rw [run, (v0Idx_is hv').2.2 h0]
    rfl

theorem sumCells_single {f : Cell → ℝ} {c : Cell} (hc : g.Has c) (h0 : ∀ d, d ≠ c → f d = 0) :
    g.sumCells f = f c := by
  obtain ⟨h1, h2, h3, h4, h5⟩ := hc
  obtain ⟨t, v, x, y, z⟩ := c
  unfold Grid.sumCells
  rw [Finset.sum_eq_single (⟨t, h1⟩ : Fin g.nt), Finset.sum_eq_single (⟨v, h2⟩ : Fin g.nv),
    Finset.sum_eq_single (⟨x, h3⟩ : Fin g.nx), Finset.sum_eq_single (⟨y, h4⟩ : Fin g.ny),
    Finset.sum_eq_single (⟨z, h5⟩ : Fin g.nz)]
  · intro i _ hi
    refine h0 _ fun he => hi (Fin.ext ?_)
    injection he
  · intro hn; exact absurd (Finset.mem_univ _) hn
  · intro i _ hi
    refine Finset.sum_eq_zero fun _ _ => h0 _ fun he => hi (Fin.ext ?_)
    injection he
  · intro hn; exact absurd (Finset.mem_univ _) hn
  · intro i _ hi
    refine Finset.sum_eq_zero fun _ _ => Finset.sum_eq_zero fun _ _ => h0 _ fun he => hi (Fin.ext ?_)
    injection he
  · intro hn; exact absurd (Finset.mem_univ _) hn
  · intro i _ hi
    refine Finset.sum_eq_zero fun _ _ => Finset.sum_eq_zero fun _ _ => Finset.sum_eq_zero fun _ _ =>
      h0 _ fun he => hi (Fin.ext ?_)
    injection he
  · intro hn; exact absurd (Finset.mem_univ _) hn
  · intro i _ hi
    refine Finset.sum_eq_zero fun _ _ => Finset.sum_eq_zero fun _ _ => Finset.sum_eq_zero fun _ _ =>
      Finset.sum_eq_zero fun _ _ => h0 _ fun he => hi (Fin.ext ?_)
    injection he
  · intro hn; exact absurd (Finset.mem_univ _) hn

theorem marg_full {P : Cell → ℝ} {c : Cell} (hc : g.Has c) : g.marg P ['t','v','x','z'] c = P c := by
  unfold Grid.marg
  rw [sumCells_single hc, if_pos rfl]
  intro d hd
  rw [if_neg]
  intro he
  apply hd
  obtain ⟨t, v, x, y, z⟩ := c
  obtain ⟨t', v', x', y', z'⟩ := d
  simpa [coords, coord1] using he

theorem joint_is {stored : Arr Num} {ρ : Cell → ℝ} {L : ℕ → ℕ → ℝ} (h : BaseIs cube stored g ρ L) :
    ∃ p, getP (baseSelf cube stored) "tvxz".toList true false = .ok p ∧
      Is5 p g.nt g.nv g.nx g.ny g.nz (fun t v x y z => .fin (ρ ⟨t, v, x, y, z⟩)) := by
  obtain ⟨p, hp, hs, hg⟩ := getP_marg_of_contract (h.contract false (by simp)) true ['t','v','x','z']
    (by decide)
  refine ⟨p, hp, hs, fun t ht v hv x hx y hy z hz => ?_⟩
  have hc : g.Has ⟨t, v, x, y, z⟩ := ⟨ht, hv, hx, hy, hz⟩
  have e := hg _ hc
  beta_reduce at e
  have hm : g.marg (wtdP g L (massP g ρ) false) ['t','v','x','z'] ⟨t, v, x, y, z⟩ =
      massP g ρ ⟨t, v, x, y, z⟩ := by
    rw [marg_full hc]
    rfl
  rw [hm] at e
  simp only [dvol, if_true, volOf_tvxz] at e
  rw [massP, mul_div_assoc, div_self (cellVolume_pos h.proper hc).ne', mul_one] at e
  exact e

theorem roll_idx {nv v0 : ℕ} (h : v0 < nv) (i : ℕ) : (i + (nv - (nv - v0) % nv)) % nv = (i + v0) % nv := by
  rcases Nat.eq_zero_or_pos v0 with rfl | hp
  · simp
  · have : (nv - v0) % nv = nv - v0 := Nat.mod_eq_of_lt (by omega)
    rw [this, Nat.sub_sub_self h.le]

/-- The datacube in Fourier space. -/
def ybarFT (interp : ℕ → (ℕ → ℂ) → ℝ → ℂ) (g : Grid) (S : ℕ → ℕ → ℕ → ℝ) (ρ : Cell → ℝ) (nl n v0 : ℕ) (dv : ℝ)
    (k x y : ℕ) : ℝ :=
  ybarVal g n (fun t w z => Fft.rfft nl n (S t z) w) (fun t w x y z => interp (Fft.half g.nv)
    (fun j => Fft.rfft g.nv g.nv (fun i => ρ ⟨t, (i + v0) % g.nv, x, y, z⟩) j * (dv : ℂ))
    ((w : ℝ) / ((Fft.half n : ℕ) - 1 : ℝ))) k x y

theorem ybarFT_eq (interp : ℕ → (ℕ → ℂ) → ℝ → ℂ) (g : Grid) (S : ℕ → ℕ → ℕ → ℝ) (ρ : Cell → ℝ) (nl n v0 : ℕ) (dv : ℝ)
    (k x y : ℕ) : ybarFT interp g S ρ nl n v0 dv k x y =
    (∑ t : Fin g.nt, ∑ z : Fin g.nz, Fft.irfft n (fun w => Fft.rfft nl n (S t z) w * interp (Fft.half g.nv)
      (fun j => Fft.rfft g.nv g.nv (fun i => ρ ⟨t, (i + v0) % g.nv, x, y, z⟩) j * (dv : ℂ))
      ((w : ℝ) / ((Fft.half n : ℕ) - 1 : ℝ))) k * (width g.t t * width g.z z)) * width g.x x * width g.y y := rfl

/-- The datacube of any object with the density `ρ`. -/
theorem evaluateYbar_of {interp : ℕ → (ℕ → ℂ) → ℝ → ℂ} (hI : InterpLocal interp) {s : Self}
    {ρ : Cell → ℝ} (hg : g.Proper) (hc : CubeIs s.cube g) {p : Arr Num} (hp : getP s "tvxz".toList true false = .ok p)
    (hp' : Is5 p g.nt g.nv g.nx g.ny g.nz (fun t v x y z => .fin (ρ ⟨t, v, x, y, z⟩))) {S : ℕ → ℕ → ℕ → ℝ} {nl n : ℕ} (hn : 0 < n)
    (hS : SpectraAre sp g S nl n) {v0 : ℕ} (h0 : ZeroBin g.nv g.v v0) (hv : VelocityOk g.nv g.v sp.dv v0) :
    (Fft.half g.nv < 4 → ∀ batch, evaluateYbar interp s sp batch = .error .valueError) ∧
    (4 ≤ Fft.half g.nv →
      (∃ r, evaluateYbar interp s sp "none".toList = .ok r ∧
        Is3 r n g.nx g.ny (fun k x y => .fin (ybarFT interp g S ρ nl n v0 sp.dv k x y))) ∧
      (nl = n → ∃ r, evaluateYbar interp s sp "column".toList = .ok r ∧
        Is3 r n g.nx g.ny (fun k x y => .fin (ybarFT interp g S ρ nl n v0 sp.dv k x y))) ∧
      (nl = n → ∃ r, evaluateYbar interp s sp "spaxel".toList = .ok r ∧
        Is3 r n g.nx g.ny (fun k x y => .fin (ybarFT interp g S ρ nl n v0 sp.dv k x y))) ∧
      ∀ batch, batch ∉ ["none".toList, "column".toList, "spaxel".toList] →
        evaluateYbar interp s sp batch = .error .valueError) := by
  have hval : validateVEdg s.cube.vEdg sp.dv = .ok () := by
    rw [(validateVEdg_is hc.vEdg sp.dv).1 v0 h0, if_pos hv]
  obtain ⟨Fs, hFs, hFs'⟩ := fourierSpectra_is hg hS
  obtain ⟨v, hv1, hv2⟩ := vCentres_is hc.vEdg
  have hz := ((v0Idx_is hv2).1 v0).2 h0
  have hsh : Fs.shape.getD 1 0 = Fft.half n := by rw [hFs'.1]; rfl
  obtain ⟨d1, d2⟩ := fourierDensity_is hI hg hp' v0 sp.dv (Fft.half n)
  have run : ∀ batch, evaluateYbar interp s sp batch =
      (fourierDensity interp p v0 sp.dv (Fft.half n)).bind fun Fp =>
        if batch = "none".toList then ybarNone sp s.cube Fs Fp
        else if batch = "column".toList then ybarColumn sp s.cube Fs Fp
        else if batch = "spaxel".toList then ybarSpaxel sp s.cube Fs Fp
        else .error .valueError := by
    intro batch
    simp only [evaluateYbar, hval, hFs, hp, hv1, hz, Py.ok_bind, hsh]
    rfl
  refine ⟨fun hlt batch => by rw [run, d1 hlt]; rfl, fun hle => ?_⟩
  obtain ⟨Fp, hFp, hFp'⟩ := d2 hle
  have run' : ∀ batch, evaluateYbar interp s sp batch =
        if batch = "none".toList then ybarNone sp s.cube Fs Fp
        else if batch = "column".toList then ybarColumn sp s.cube Fs Fp
        else if batch = "spaxel".toList then ybarSpaxel sp s.cube Fs Fp
        else .error .valueError := by
    intro batch
    rw [run, hFp]
    rfl
  have hval' : ∀ k x y, ybarVal g n (fun t w z => Fft.rfft nl n (S t z) w)
      (densFT interp ρ g.nv v0 sp.dv (Fft.half n)) k x y = ybarFT interp g S ρ nl n v0 sp.dv k x y := by
    intro k x y
    unfold ybarFT densFT
    simp only [roll_idx h0.1]
  have hnF := hS.nFft
  subst hnF
  refine ⟨?_, ?_, ?_, ?_⟩
  · rw [run', if_pos rfl]
    simpa only [hval'] using ybarNone_is hg hc hFs' hFp' rfl hn
  · intro he
    rw [run', if_neg (by decide), if_pos rfl]
    simpa only [hval'] using ybarColumn_is hg hc hFs' hFp' rfl hn (hS.len.trans he)
  · intro he
    rw [run', if_neg (by decide), if_neg (by decide), if_pos rfl]
    simpa only [hval'] using ybarSpaxel_is hg hc hFs' hFp' rfl hn (hS.len.trans he)
  · intro batch hb
    simp only [List.mem_cons, List.not_mem_nil, or_false, not_or] at hb
    rw [run', if_neg hb.1, if_neg hb.2.1, if_neg hb.2.2]

theorem evaluateYbar_is {interp : ℕ → (ℕ → ℂ) → ℝ → ℂ} (hI : InterpLocal interp) {stored : Arr Num}
    {ρ : Cell → ℝ} {L : ℕ → ℕ → ℝ} (h : BaseIs cube stored g ρ L) {S : ℕ → ℕ → ℕ → ℝ} {nl n : ℕ} (hn : 0 < n)
    (hS : SpectraAre sp g S nl n) {v0 : ℕ} (h0 : ZeroBin g.nv g.v v0) (hv : VelocityOk g.nv g.v sp.dv v0) :
    (Fft.half g.nv < 4 → ∀ batch, evaluateYbar interp (baseSelf cube stored) sp batch = .error .valueError) ∧
    (4 ≤ Fft.half g.nv →
      (∃ r, evaluateYbar interp (baseSelf cube stored) sp "none".toList = .ok r ∧
        Is3 r n g.nx g.ny (fun k x y => .fin (ybarFT interp g S ρ nl n v0 sp.dv k x y))) ∧
      (nl = n → ∃ r, evaluateYbar interp (baseSelf cube stored) sp "column".toList = .ok r ∧
        Is3 r n g.nx g.ny (fun k x y => .fin (ybarFT interp g S ρ nl n v0 sp.dv k x y))) ∧
      (nl = n → ∃ r, evaluateYbar interp (baseSelf cube stored) sp "spaxel".toList = .ok r ∧
        Is3 r n g.nx g.ny (fun k x y => .fin (ybarFT interp g S ρ nl n v0 sp.dv k x y))) ∧
      ∀ batch, batch ∉ ["none".toList, "column".toList, "spaxel".toList] →
        evaluateYbar interp (baseSelf cube stored) sp batch = .error .valueError) := by
  obtain ⟨p, hp, hp'⟩ := joint_is h
  exact evaluateYbar_of hI h.proper h.cubeIs hp hp' hn hS h0 hv

theorem evaluateYbar_invalid {interp : ℕ → (ℕ → ℂ) → ℝ → ℂ} {s : Self} (h : CubeIs s.cube g) :
    (∀ v0, ZeroBin g.nv g.v v0 → ¬ VelocityOk g.nv g.v sp.dv v0 → ∀ batch,
      evaluateYbar interp s sp batch = .error .valueError) ∧
    ((∀ i < g.nv, 1 / 10 ^ 8 < |centre g.v i|) → ∀ batch,
      evaluateYbar interp s sp batch = .error .indexError) := by
  constructor
  · intro v0 h0 hv batch
    have : validateVEdg s.cube.vEdg sp.dv = .error .valueError := by
      rw [(validateVEdg_is h.vEdg sp.dv).1 v0 h0, if_neg hv]
    simp only [evaluateYbar, this]
    rfl
  · intro h0 batch
    have : validateVEdg s.cube.vEdg sp.dv = .error .indexError := (validateVEdg_is h.vEdg sp.dv).2 h0
    simp only [evaluateYbar, this]
    rfl

end PKM
