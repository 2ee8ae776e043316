import Verif.ParamYbar
import Verif.YbarLemmas
import Verif.Trig
import Verif.Props.Parametric

/-! Evaluation of the model of `ParametricComponent.evaluate_ybar`. -/

open scoped Classical

noncomputable section

namespace PKM
open Np Component

/-- `IsMat A a b f`: shape `(a, b)` and entries `f`. -/
def IsMat {α : Type} (A : Arr α) (a b : ℕ) (f : ℕ → ℕ → α) : Prop :=
  A.shape = [a, b] ∧ ∀ i < a, ∀ j < b, A.get [i, j] = f i j

namespace Param

variable {h nt nx ny nz : ℕ} {mu sig : ℕ → ℕ → ℕ → ℝ} {om : ℕ → ℝ}

theorem fourierV4 {M S : Arr Num} {O : Arr ℝ} (hM : Is3 M nt nx ny fun t x y => .fin (mu t x y))
    (hS : Is3 S nt nx ny fun t x y => .fin (sig t x y)) (hO : O.shape = [h]) (hO' : ∀ w < h, O.get [w] = om w) :
    ∃ o F, getitem [.all, .na, .na, .na] O = .ok o ∧ fourierV M S o = .ok F ∧
      Is4 F h nt nx ny fun w t x y => gaussFT (mu t x y) (sig t x y) (om w) := by
  obtain ⟨o, ho, ho1, ho2⟩ := getitem_ex [.all, .na, .na, .na] (a := O) (s := [h, 1, 1, 1]) (by simp [hO, ixShape])
  obtain ⟨a, ha, ha1, ha2⟩ := bop_ex (fun m (w : ℝ) => -Complex.I * (finPart m : ℂ) * (w : ℂ)) (a := M) (b := o)
    (s := [h, nt, nx, ny]) (by simp [hM.1, ho1, bshapeR])
  obtain ⟨b, hb, hb1, hb2⟩ := bop_ex (fun s (w : ℝ) => (finPart s : ℂ) * (w : ℂ)) (a := S) (b := o)
    (s := [h, nt, nx, ny]) (by simp [hS.1, ho1, bshapeR])
  obtain ⟨e, he, he1, he2⟩ := bop_ex (fun (x y : ℂ) => x - 0.5 * y ^ 2) (a := a) (b := b)
    (s := [h, nt, nx, ny]) (by simp [ha1, hb1, bshapeR])
  refine ⟨o, map Complex.exp e, ho, by simp only [fourierV, ha, hb, he, Py.ok_bind], he1, ?_⟩
  intro w hw t ht x hx y hy
  simp [map, he2, ha2, hb2, ho2, ha1, hb1, ho1, hM.1, hS.1, hO, bproj, bidx_lt ht, bidx_lt hw, bidx_lt hx, bidx_lt hy, ixIdx, hO' w hw,
    hM.2 t ht x hx y hy, hS.2 t ht x hx y hy, gaussFT, finPart]

theorem fourierV3 {M S : Arr Num} {O : Arr ℝ} (hM : Is3 M nt nx ny fun t x y => .fin (mu t x y))
    (hS : Is3 S nt nx ny fun t x y => .fin (sig t x y)) (hO : O.shape = [h]) (hO' : ∀ w < h, O.get [w] = om w) :
    ∃ o, getitem [.all, .na, .na] O = .ok o ∧ ∀ y < ny, ∃ m s F, getitem [.all, .all, .at (y : ℤ)] M = .ok m ∧
      getitem [.all, .all, .at (y : ℤ)] S = .ok s ∧ fourierV m s o = .ok F ∧
      Is3 F h nt nx fun w t x => gaussFT (mu t x y) (sig t x y) (om w) := by
  obtain ⟨o, ho, ho1, ho2⟩ := getitem_ex [.all, .na, .na] (a := O) (s := [h, 1, 1]) (by simp [hO, ixShape])
  refine ⟨o, ho, fun y hy => ?_⟩
  have hy0 : ¬ ((y : ℤ) < 0) := by omega
  obtain ⟨m, hm, hm1, hm2⟩ := getitem_ex [.all, .all, .at (y : ℤ)] (a := M) (s := [nt, nx])
    (by simp [hM.1, ixShape, hy, hy0])
  obtain ⟨s, hs, hs1, hs2⟩ := getitem_ex [.all, .all, .at (y : ℤ)] (a := S) (s := [nt, nx])
    (by simp [hS.1, ixShape, hy, hy0])
  obtain ⟨a, ha, ha1, ha2⟩ := bop_ex (fun m (w : ℝ) => -Complex.I * (finPart m : ℂ) * (w : ℂ)) (a := m) (b := o)
    (s := [h, nt, nx]) (by simp [hm1, ho1, bshapeR])
  obtain ⟨b, hb, hb1, hb2⟩ := bop_ex (fun s (w : ℝ) => (finPart s : ℂ) * (w : ℂ)) (a := s) (b := o)
    (s := [h, nt, nx]) (by simp [hs1, ho1, bshapeR])
  obtain ⟨e, he, he1, he2⟩ := bop_ex (fun (x y : ℂ) => x - 0.5 * y ^ 2) (a := a) (b := b)
    (s := [h, nt, nx]) (by simp [ha1, hb1, bshapeR])
  refine ⟨m, s, map Complex.exp e, hm, hs, by simp only [fourierV, ha, hb, he, Py.ok_bind], he1, ?_⟩
  intro w hw t ht x hx
  simp [map, he2, ha2, hb2, ho2, ha1, hb1, ho1, hm1, hm2, hs1, hs2, hM.1, hS.1, hO, bproj, bidx_lt ht, bidx_lt hw,
    bidx_lt hx, ixIdx, hy0, hO' w hw, hM.2 t ht x hx y hy, hS.2 t ht x hx y hy, gaussFT, finPart]

theorem fourierV2 {M S : Arr Num} {O : Arr ℝ} (hM : Is3 M nt nx ny fun t x y => .fin (mu t x y))
    (hS : Is3 S nt nx ny fun t x y => .fin (sig t x y)) (hO : O.shape = [h]) (hO' : ∀ w < h, O.get [w] = om w) :
    ∃ o, getitem [.all, .na] O = .ok o ∧ ∀ x < nx, ∀ y < ny, ∃ m s F,
      getitem [.all, .at (x : ℤ), .at (y : ℤ)] M = .ok m ∧
      getitem [.all, .at (x : ℤ), .at (y : ℤ)] S = .ok s ∧ fourierV m s o = .ok F ∧
      IsMat F h nt fun w t => gaussFT (mu t x y) (sig t x y) (om w) := by
  obtain ⟨o, ho, ho1, ho2⟩ := getitem_ex [.all, .na] (a := O) (s := [h, 1]) (by simp [hO, ixShape])
  refine ⟨o, ho, fun x hx y hy => ?_⟩
  have hx0 : ¬ ((x : ℤ) < 0) := by omega
  have hy0 : ¬ ((y : ℤ) < 0) := by omega
  obtain ⟨m, hm, hm1, hm2⟩ := getitem_ex [.all, .at (x : ℤ), .at (y : ℤ)] (a := M) (s := [nt])
    (by simp [hM.1, ixShape, hy, hy0, hx, hx0])
  obtain ⟨s, hs, hs1, hs2⟩ := getitem_ex [.all, .at (x : ℤ), .at (y : ℤ)] (a := S) (s := [nt])
    (by simp [hS.1, ixShape, hy, hy0, hx, hx0])
  obtain ⟨a, ha, ha1, ha2⟩ := bop_ex (fun m (w : ℝ) => -Complex.I * (finPart m : ℂ) * (w : ℂ)) (a := m) (b := o)
    (s := [h, nt]) (by simp [hm1, ho1, bshapeR])
  obtain ⟨b, hb, hb1, hb2⟩ := bop_ex (fun s (w : ℝ) => (finPart s : ℂ) * (w : ℂ)) (a := s) (b := o)
    (s := [h, nt]) (by simp [hs1, ho1, bshapeR])
  obtain ⟨e, he, he1, he2⟩ := bop_ex (fun (x y : ℂ) => x - 0.5 * y ^ 2) (a := a) (b := b)
    (s := [h, nt]) (by simp [ha1, hb1, bshapeR])
  refine ⟨m, s, map Complex.exp e, hm, hs, by simp only [fourierV, ha, hb, he, Py.ok_bind], he1, ?_⟩
  intro w hw t ht
  simp [map, he2, ha2, hb2, ho2, ha1, hb1, ho1, hm1, hm2, hs1, hs2, hM.1, hS.1, hO, bproj, bidx_lt ht, bidx_lt hw,
    ixIdx, hy0, hx0, hO' w hw, hM.2 t ht x hx y hy, hS.2 t ht x hx y hy, gaussFT, finPart]

variable {P : ℕ → ℕ → ℕ → ℕ → ℂ} {FV : ℕ → ℕ → ℕ → ℕ → ℂ} {FS : ℕ → ℕ → ℕ → ℂ} {A V S : Arr ℂ}

/-- Transform of the spectrum of pixel `(x, y)`. -/
def spaxelFT (nt nz : ℕ) (P : ℕ → ℕ → ℕ → ℕ → ℂ) (FV : ℕ → ℕ → ℕ → ℕ → ℂ) (FS : ℕ → ℕ → ℕ → ℂ) (x y w : ℕ) : ℂ :=
  ∑ z ∈ Finset.range nz, ∑ t ∈ Finset.range nt, P t x y z * (FV w t x y * FS w z t)

theorem einsum4 (hA : Is4 A nt nx ny nz P) (hV : Is4 V h nt nx ny FV) (hS : Is3 S h nz nt FS) :
    ∃ F, einsum [(['t','x','y','z'], A), (['w','t','x','y'], V), (['w','z','t'], S)] ['w','x','y'] = .ok F ∧
      Is3 F h nx ny fun w x y => spaxelFT nt nz P FV FS x y w := by
  unfold einsum
  rw [if_pos (by simp [labelSizes, labelSize, hA.1, hV.1, hS.1, List.lookup])]
  refine ⟨_, rfl, by simp [labelSizes, labelSize, hA.1, hV.1, hS.1, List.lookup], ?_⟩
  intro w hw x hx y hy
  have e : ((['t','x','y','z'] ++ (['w','t','x','y'] ++ (['w','z','t'] ++ []))).dedup.filter (· ∉ ['w','x','y'])) =
      ['z','t'] := by decide
  simp only [List.flatMap_cons, List.flatMap_nil, e]
  simp only [List.map_cons, List.map_nil, sumLabels, labelSizes, labelSize, hA.1, hV.1, hS.1]
  simp only [spaxelFT]
  refine Finset.sum_congr (by simp [List.lookup, hA.1, hV.1, hS.1]) fun z hz =>
    Finset.sum_congr (by simp [List.lookup, hA.1, hV.1, hS.1]) fun t ht => ?_
  have hz := Finset.mem_range.1 hz
  have ht := Finset.mem_range.1 ht
  simp [Function.update, labelEnv, List.idxOf_cons, hA.2 t ht x hx y hy z hz, hV.2 w hw t ht x hx y hy, hS.2 w hw z hz t ht]

theorem einsum3 (hA : Is4 A nt nx ny nz P) {y : ℕ} (hy : y < ny) (hV : Is3 V h nt nx fun w t x => FV w t x y)
    (hS : Is3 S h nz nt FS) :
    ∃ B F, getitem [.all, .all, .at (y : ℤ), .all] A = .ok B ∧
      einsum [(['t','x','z'], B), (['w','t','x'], V), (['w','z','t'], S)] ['w','x'] = .ok F ∧
      IsMat F h nx fun w x => spaxelFT nt nz P FV FS x y w := by
  have hy0 : ¬ ((y : ℤ) < 0) := by omega
  obtain ⟨B, hB, hB1, hB2⟩ := getitem_ex [.all, .all, .at (y : ℤ), .all] (a := A) (s := [nt, nx, nz])
    (by simp [hA.1, ixShape, hy, hy0])
  refine ⟨B, ?_⟩
  unfold einsum
  rw [if_pos (by simp [labelSizes, labelSize, hB1, hV.1, hS.1, List.lookup])]
  refine ⟨_, hB, rfl, by simp [labelSizes, labelSize, hB1, hV.1, hS.1, List.lookup], ?_⟩
  intro w hw x hx
  have e : ((['t','x','z'] ++ (['w','t','x'] ++ (['w','z','t'] ++ []))).dedup.filter (· ∉ ['w','x'])) =
      ['z','t'] := by decide
  simp only [List.flatMap_cons, List.flatMap_nil, e]
  simp only [List.map_cons, List.map_nil, sumLabels, labelSizes, labelSize, hB1, hV.1, hS.1]
  simp only [spaxelFT]
  refine Finset.sum_congr (by simp [List.lookup, hB1, hV.1, hS.1]) fun z hz =>
    Finset.sum_congr (by simp [List.lookup, hB1, hV.1, hS.1]) fun t ht => ?_
  have hz := Finset.mem_range.1 hz
  have ht := Finset.mem_range.1 ht
  simp [Function.update, labelEnv, List.idxOf_cons, hB2, hA.1, ixIdx, hy0, hA.2 t ht x hx y hy z hz, hV.2 w hw t ht x hx,
    hS.2 w hw z hz t ht]

theorem einsum2 (hA : Is4 A nt nx ny nz P) {x y : ℕ} (hx : x < nx) (hy : y < ny)
    (hV : IsMat V h nt fun w t => FV w t x y) (hS : Is3 S h nz nt FS) :
    ∃ B F, getitem [.all, .at (x : ℤ), .at (y : ℤ), .all] A = .ok B ∧
      einsum [(['t','z'], B), (['w','t'], V), (['w','z','t'], S)] ['w'] = .ok F ∧
      F.shape = [h] ∧ ∀ w < h, F.get [w] = spaxelFT nt nz P FV FS x y w := by
  have hx0 : ¬ ((x : ℤ) < 0) := by omega
  have hy0 : ¬ ((y : ℤ) < 0) := by omega
  obtain ⟨B, hB, hB1, hB2⟩ := getitem_ex [.all, .at (x : ℤ), .at (y : ℤ), .all] (a := A) (s := [nt, nz])
    (by simp [hA.1, ixShape, hy, hy0, hx, hx0])
  refine ⟨B, ?_⟩
  unfold einsum
  rw [if_pos (by simp [labelSizes, labelSize, hB1, hV.1, hS.1, List.lookup])]
  refine ⟨_, hB, rfl, by simp [labelSizes, labelSize, hB1, hV.1, hS.1, List.lookup], ?_⟩
  intro w hw
  have e : ((['t','z'] ++ (['w','t'] ++ (['w','z','t'] ++ []))).dedup.filter (· ∉ ['w'])) =
      ['z','t'] := by decide
  simp only [List.flatMap_cons, List.flatMap_nil, e]
  simp only [List.map_cons, List.map_nil, sumLabels, labelSizes, labelSize, hB1, hV.1, hS.1]
  simp only [spaxelFT]
  refine Finset.sum_congr (by simp [List.lookup, hB1, hV.1, hS.1]) fun z hz =>
    Finset.sum_congr (by simp [List.lookup, hB1, hV.1, hS.1]) fun t ht => ?_
  have hz := Finset.mem_range.1 hz
  have ht := Finset.mem_range.1 ht
  simp [Function.update, labelEnv, List.idxOf_cons, hB2, hA.1, ixIdx, hy0, hx0, hA.2 t ht x hx y hy z hz, hV.2 w hw t ht,
    hS.2 w hw z hz t ht]

/-! ### The three branches -/

variable {p : Param} {g : Grid} {m : Ingredients} {L : ℕ → ℕ → ℝ} {sp : Spectra} {S' : ℕ → ℕ → ℕ → ℝ} {nl n : ℕ}

/-- Frequency `w` of the code. -/
def freq (sp : Spectra) (n w : ℕ) : ℝ := w * (Real.pi / ((Fft.half n : ℕ) - 1 : ℝ)) / sp.dv

/-- Value of the datacube at `(k, x, y)`. -/
def ybarAt (g : Grid) (m : Ingredients) (sp : Spectra) (P : ℕ → ℕ → ℕ → ℕ → ℂ) (FS : ℕ → ℕ → ℕ → ℂ) (n k x y : ℕ) : ℝ :=
  Fft.irfft n (spaxelFT g.nt g.nz P (fun w t x y => gaussFT (m.mu t x y) (m.sig t x y) (freq sp n w)) FS x y) k

theorem omega_is (hF : sp.FXw.shape = [Fft.half n, g.nz * g.nt]) :
    (omega sp).shape = [Fft.half n] ∧ ∀ w < Fft.half n, (omega sp).get [w] = freq sp n w := by
  simp [omega, hF, vec, freq]

theorem ybarNone_is {M Sg : Arr Num} (hmu : p.muV = some M) (hsig : p.sigV = some Sg)
    (hM : Is3 M g.nt g.nx g.ny fun t x y => .fin (m.mu t x y))
    (hSg : Is3 Sg g.nt g.nx g.ny fun t x y => .fin (m.sig t x y))
    (hF : sp.FXw.shape = [Fft.half n, g.nz * g.nt]) (hn : 0 < n) (hnF : sp.nFft = n)
    (hA : Is4 A g.nt g.nx g.ny g.nz P) (hS : Is3 S (Fft.half n) g.nz g.nt FS) :
    ∃ r, p.ybarNone sp A S = .ok r ∧ Is3 r n g.nx g.ny fun k x y => .fin (ybarAt g m sp P FS n k x y) := by
  obtain ⟨o1, o2⟩ := omega_is (sp := sp) (g := g) hF
  obtain ⟨o, V, ho, hV, hV'⟩ := fourierV4 hM hSg o1 o2
  obtain ⟨F, hF1, hF2⟩ := einsum4 hA hV' hS
  refine ⟨map Num.fin (irfftAxis 0 sp.nFft F), ?_, ?_, ?_⟩
  · simp only [ybarNone, ho, hmu, hsig, attr, hV, hF1, Py.ok_bind]
  · simp [map, irfftAxis, hF2.1, hnF]
  · intro k hk x hx y hy
    simp only [map, irfftAxis, List.set_cons_zero, List.getD_cons_zero, hnF]
    congr 1
    exact irfft_congr hn (fun j hj => hF2.2 j hj x hx y hy) k

theorem ybarColumn_is {M Sg : Arr Num} (hmu : p.muV = some M) (hsig : p.sigV = some Sg)
    (hM : Is3 M g.nt g.nx g.ny fun t x y => .fin (m.mu t x y))
    (hSg : Is3 Sg g.nt g.nx g.ny fun t x y => .fin (m.sig t x y))
    (hF : sp.FXw.shape = [Fft.half n, g.nz * g.nt]) (hn : 0 < n) (hnF : sp.nFft = n)
    (hA : Is4 A g.nt g.nx g.ny g.nz P) (hS : Is3 S (Fft.half n) g.nz g.nt FS)
    (hX : p.cube.nx = g.nx) (hY : p.cube.ny = g.ny) (hl : sp.Xw.shape.headD 0 = n) :
    ∃ r, p.ybarColumn sp A S = .ok r ∧ Is3 r n g.nx g.ny fun k x y => .fin (ybarAt g m sp P FS n k x y) := by
  obtain ⟨o1, o2⟩ := omega_is (sp := sp) (g := g) hF
  obtain ⟨o, ho, hV⟩ := fourierV3 hM hSg o1 o2
  obtain ⟨r, hr, hr1, hr2⟩ := foldlM_range (n := g.ny) (a := full [n, g.nx, g.ny] (Num.fin 0))
    (fun y (i : ℕ) => do
      let mu ← attr p.muV
      let mu ← getitem [.all, .all, .at i] mu
      let sig ← attr p.sigV
      let sig ← getitem [.all, .all, .at i] sig
      let Fv ← fourierV mu sig o
      let Pi ← getitem [.all, .all, .at i, .all] A
      let F ← einsum [(['t','x','z'], Pi), (['w','t','x'], Fv), (['w','z','t'], S)] ['w','x']
      setColumn y i (map Num.fin (irfftAxis 0 sp.nFft F)))
    (fun q y => y.shape = [n, g.nx, g.ny] ∧ ∀ k < n, ∀ x < g.nx, ∀ j < q, j < g.ny →
      y.get [k, x, j] = .fin (ybarAt g m sp P FS n k x j))
    ⟨rfl, fun k _ x _ j hj => absurd hj (Nat.not_lt_zero j)⟩ (by
      intro i hi y ⟨hy1, hy2⟩
      obtain ⟨mu, sig, V, h1, h2, h3, h4⟩ := hV i hi
      obtain ⟨B, F, h5, h6, h7⟩ := einsum3 (FV := fun w t x y => gaussFT (m.mu t x y) (m.sig t x y) (freq sp n w))
        hA hi h4 hS
      obtain ⟨t, ht1, ht2⟩ := broadcastTo_same (a := map Num.fin (irfftAxis 0 sp.nFft F)) (s := [n, g.nx])
        (by simp [map, irfftAxis, h7.1, hnF])
      refine ⟨⟨[n, g.nx, g.ny], fun k => if k.getD 2 0 = i then t.get [k.getD 0 0, k.getD 1 0] else y.get k⟩,
        ?_, rfl, ?_⟩
      · simp only [hmu, hsig, attr, h1, h2, h3, h5, h6, Py.ok_bind, setColumn, hy1]
        simp [ht1]
      · intro k hk x hx j hj hj'
        simp only [List.getD_cons_succ, List.getD_cons_zero]
        split_ifs with e
        · rw [ht2 [k, x] ⟨hk, hx, trivial⟩, e]
          simp only [map, irfftAxis, List.set_cons_zero, List.getD_cons_zero, hnF]
          congr 1
          exact irfft_congr hn (fun j hj => h7.2 j hj x hx) k
        · exact hy2 k hk x hx j (by omega) hj')
  refine ⟨r, ?_, hr1, fun k hk x hx y hy => hr2 k hk x hx y hy hy⟩
  simp only [ybarColumn, ho, Py.ok_bind, hl, hX, hY]
  exact hr

theorem ybarSpaxel_is {M Sg : Arr Num} (hmu : p.muV = some M) (hsig : p.sigV = some Sg)
    (hM : Is3 M g.nt g.nx g.ny fun t x y => .fin (m.mu t x y))
    (hSg : Is3 Sg g.nt g.nx g.ny fun t x y => .fin (m.sig t x y))
    (hF : sp.FXw.shape = [Fft.half n, g.nz * g.nt]) (hn : 0 < n) (hnF : sp.nFft = n)
    (hA : Is4 A g.nt g.nx g.ny g.nz P) (hS : Is3 S (Fft.half n) g.nz g.nt FS)
    (hX : p.cube.nx = g.nx) (hY : p.cube.ny = g.ny) (hl : sp.Xw.shape.headD 0 = n) :
    ∃ r, p.ybarSpaxel sp A S = .ok r ∧ Is3 r n g.nx g.ny fun k x y => .fin (ybarAt g m sp P FS n k x y) := by
  obtain ⟨o1, o2⟩ := omega_is (sp := sp) (g := g) hF
  obtain ⟨o, ho, hV⟩ := fourierV2 hM hSg o1 o2
  obtain ⟨r, hr, hr1, hr2⟩ := foldlM_range (n := g.nx) (a := full [n, g.nx, g.ny] (Num.fin 0))
    (fun y (i : ℕ) =>
      (List.range g.ny).foldlM (fun y (j : ℕ) => do
        let mu ← attr p.muV
        let mu ← getitem [.all, .at i, .at j] mu
        let sig ← attr p.sigV
        let sig ← getitem [.all, .at i, .at j] sig
        let Fv ← fourierV mu sig o
        let Pij ← getitem [.all, .at i, .at j, .all] A
        let F ← einsum [(['t','z'], Pij), (['w','t'], Fv), (['w','z','t'], S)] ['w']
        setSpaxel y i j (map Num.fin (irfftAxis 0 sp.nFft F))) y)
    (fun q y => y.shape = [n, g.nx, g.ny] ∧ ∀ k < n, ∀ x < q, ∀ j < g.ny,
      y.get [k, x, j] = .fin (ybarAt g m sp P FS n k x j))
    ⟨rfl, fun k _ x hx => absurd hx (Nat.not_lt_zero x)⟩ (by
      intro i hi y ⟨hy1, hy2⟩
      obtain ⟨r, hr, hr1, hr2, hr3⟩ := foldlM_range (n := g.ny) (a := y)
        (fun y (j : ℕ) => do
          let mu ← attr p.muV
          let mu ← getitem [.all, .at i, .at j] mu
          let sig ← attr p.sigV
          let sig ← getitem [.all, .at i, .at j] sig
          let Fv ← fourierV mu sig o
          let Pij ← getitem [.all, .at i, .at j, .all] A
          let F ← einsum [(['t','z'], Pij), (['w','t'], Fv), (['w','z','t'], S)] ['w']
          setSpaxel y i j (map Num.fin (irfftAxis 0 sp.nFft F)))
        (fun q y => y.shape = [n, g.nx, g.ny] ∧ (∀ k < n, ∀ x < i, ∀ j < g.ny,
          y.get [k, x, j] = .fin (ybarAt g m sp P FS n k x j)) ∧ ∀ k < n, ∀ j < q,
          y.get [k, i, j] = .fin (ybarAt g m sp P FS n k i j))
        ⟨hy1, hy2, fun k _ j hj => absurd hj (Nat.not_lt_zero j)⟩ (by
          intro j hj y ⟨hy1, hy2, hy3⟩
          obtain ⟨mu, sig, V, h1, h2, h3, h4⟩ := hV i hi j hj
          obtain ⟨B, F, h5, h6, h7, h8⟩ := einsum2
            (FV := fun w t x y => gaussFT (m.mu t x y) (m.sig t x y) (freq sp n w)) hA hi hj h4 hS
          obtain ⟨t, ht1, ht2⟩ := broadcastTo_same (a := map Num.fin (irfftAxis 0 sp.nFft F)) (s := [n])
            (by simp [map, irfftAxis, h7, hnF])
          refine ⟨⟨[n, g.nx, g.ny], fun k => if k.getD 1 0 = i ∧ k.getD 2 0 = j then t.get [k.getD 0 0]
            else y.get k⟩, ?_, rfl, ?_, ?_⟩
          · simp only [hmu, hsig, attr, h1, h2, h3, h5, h6, Py.ok_bind, setSpaxel, hy1]
            simp [ht1]
          · intro k hk x hx j' hj'
            simp only [List.getD_cons_succ, List.getD_cons_zero]
            rw [if_neg (by omega)]
            exact hy2 k hk x hx j' hj'
          · intro k hk j' hj'
            simp only [List.getD_cons_succ, List.getD_cons_zero, true_and]
            split_ifs with e
            · rw [ht2 [k] ⟨hk, trivial⟩, e]
              simp only [map, irfftAxis, List.set_cons_zero, List.getD_cons_zero, hnF]
              congr 1
              exact irfft_congr hn (fun w hw => h8 w hw) k
            · exact hy3 k hk j' (by omega))
      refine ⟨r, hr, hr1, fun k hk x hx j hj => ?_⟩
      rcases Nat.lt_succ_iff_lt_or_eq.1 hx with hx | hx
      · exact hr2 k hk x hx j hj
      · rw [hx]; exact hr3 k hk j hj)
  refine ⟨r, ?_, hr1, fun k hk x hx y hy => hr2 k hk x hx y hy⟩
  simp only [ybarSpaxel, ho, Py.ok_bind, hl, hX, hY]
  exact hr

/-- The probability of `(t, x, z)`. -/
theorem marginal_txz (m : Ingredients) (L : ℕ → ℕ → ℝ) {c : Cell} (hc : g.Has c) :
    m.marginal g L false ['t','x','z'] c = m.probTXZ g c := by
  have hcoord : ∀ d : Cell, coords ['t','x','z'] d = coords ['t','x','z'] c ↔
      d.t = c.t ∧ d.x = c.x ∧ d.y = c.y ∧ d.z = c.z := by
    intro d; simp [coords, coord1]
  have hv : ¬ 'v' ∈ (['t','x','z'] : PyStr) := by decide
  obtain ⟨h1, h2, h3, h4, h5⟩ := hc
  simp only [Ingredients.marginal, if_neg hv, hcoord, Ingredients.sumTXZ, Ingredients.weightTXZ, Bool.false_eq_true, if_false]
  rw [Finset.sum_eq_single (⟨c.t, h1⟩ : Fin g.nt), Finset.sum_eq_single (⟨c.x, h3⟩ : Fin g.nx),
    Finset.sum_eq_single (⟨c.y, h4⟩ : Fin g.ny), Finset.sum_eq_single (⟨c.z, h5⟩ : Fin g.nz), if_pos ⟨rfl, rfl, rfl, rfl⟩]
  · rfl
  · intro i _ hi
    rw [if_neg]
    rintro ⟨-, -, -, h⟩
    exact hi (Fin.ext h)
  · intro hn; exact absurd (Finset.mem_univ _) hn
  · intro i _ hi
    refine Finset.sum_eq_zero fun _ _ => ?_
    rw [if_neg]
    rintro ⟨-, -, h, -⟩
    exact hi (Fin.ext h)
  · intro hn; exact absurd (Finset.mem_univ _) hn
  · intro i _ hi
    refine Finset.sum_eq_zero fun _ _ => Finset.sum_eq_zero fun _ _ => ?_
    rw [if_neg]
    rintro ⟨-, h, -⟩
    exact hi (Fin.ext h)
  · intro hn; exact absurd (Finset.mem_univ _) hn
  · intro i _ hi
    refine Finset.sum_eq_zero fun _ _ => Finset.sum_eq_zero fun _ _ => Finset.sum_eq_zero fun _ _ => ?_
    rw [if_neg]
    rintro ⟨h, -⟩
    exact hi (Fin.ext h)
  · intro hn; exact absurd (Finset.mem_univ _) hn

theorem isArr_tx {A : Arr Num} {f : ℕ → ℕ → ℕ → Num} (hg : g.Proper)
    (h : IsArr g ['t','x'] A (fun c => f c.t c.x c.y)) : Is3 A g.nt g.nx g.ny f := by
  refine ⟨h.1, fun t ht x hx y hy => ?_⟩
  exact h.2 ⟨t, 0, x, y, 0⟩ ⟨ht, hg.nv, hx, hy, hg.nz⟩

theorem reshapeFXw (hg : g.Proper) (h : SpectraAre sp g S' nl n) :
    ∃ Fs, reshapeInfer sp.parDims sp.FXw = .ok Fs ∧
      Is3 Fs (Fft.half n) g.nz g.nt (fun w z t => Fft.rfft nl n (S' t z) w) := by
  have hp : g.nz * g.nt ≠ 0 := Nat.mul_ne_zero hg.nz.ne' hg.nt.ne'
  refine ⟨⟨[Fft.half n, g.nz, g.nt], fun i =>
      sp.FXw.get (unravel sp.FXw.shape (ravel [Fft.half n, g.nz, g.nt] i))⟩, ?_, rfl, ?_⟩
  · have : Fft.half n * (g.nz * g.nt) / (g.nz * g.nt) = Fft.half n :=
      Nat.mul_div_cancel _ (Nat.pos_of_ne_zero hp)
    simp [reshapeInfer, reshape, h.dims, h.shape, hg.nz.ne', hg.nt.ne', this]
  · intro w hw z hz t ht
    have hr : ravel [Fft.half n, g.nz, g.nt] [w, z, t] = w * (g.nz * g.nt) + (z * g.nt + t) := by
      simp [ravel]
    have hlt : z * g.nt + t < g.nz * g.nt := by
      calc z * g.nt + t < z * g.nt + g.nt := by omega
        _ = (z + 1) * g.nt := by ring
        _ ≤ g.nz * g.nt := Nat.mul_le_mul_right _ hz
    have hu : unravel [Fft.half n, g.nz * g.nt] (w * (g.nz * g.nt) + (z * g.nt + t)) = [w, z * g.nt + t] := by
      have hpos := Nat.pos_of_ne_zero hp
      simp only [unravel, List.prod_cons, List.prod_nil, mul_one, Nat.div_one]
      rw [Nat.add_comm, Nat.add_mul_div_right _ _ hpos, Nat.div_eq_of_lt hlt, Nat.add_mul_mod_self_right,
        Nat.mod_eq_of_lt hlt, Nat.zero_add]
    simp only [h.shape]
    rw [hr, hu, h.get w hw t ht z hz]

/-- Value of the datacube at `(k, x, y)`. -/
def ybarOf (g : Grid) (m : Ingredients) (sp : Spectra) (S : ℕ → ℕ → ℕ → ℝ) (nl n k x y : ℕ) : ℝ :=
  ybarAt g m sp (fun t x y z => ((m.probTXZ g ⟨t, 0, x, y, z⟩ : ℝ) : ℂ)) (fun w z t => Fft.rfft nl n (S t z) w) n k x y

theorem evaluateYbar_is (h : ParamIs p g m L) (hn : 0 < n) (hS : SpectraAre sp g S' nl n) :
    (∃ r, p.evaluateYbar sp "none".toList = .ok r ∧
      Is3 r n g.nx g.ny fun k x y => .fin (ybarOf g m sp S' nl n k x y)) ∧
    (nl = n → ∃ r, p.evaluateYbar sp "column".toList = .ok r ∧
      Is3 r n g.nx g.ny fun k x y => .fin (ybarOf g m sp S' nl n k x y)) ∧
    (nl = n → ∃ r, p.evaluateYbar sp "spaxel".toList = .ok r ∧
      Is3 r n g.nx g.ny fun k x y => .fin (ybarOf g m sp S' nl n k x y)) ∧
    ∀ batch, batch ∉ ["none".toList, "column".toList, "spaxel".toList] →
      p.evaluateYbar sp batch = .error .valueError := by
  obtain ⟨q, hq, hq1, hq2⟩ := C32_marginals h false false (by simp) ['t','x','z'] (by decide)
  have hA : Is4 (map (fun a => ((finPart a : ℝ) : ℂ)) q) g.nt g.nx g.ny g.nz
      (fun t x y z => ((m.probTXZ g ⟨t, 0, x, y, z⟩ : ℝ) : ℂ)) := by
    refine ⟨by simpa [map, Grid.shapeOf, Grid.shape1] using hq1, fun t ht x hx y hy z hz => ?_⟩
    have hc : g.Has ⟨t, 0, x, y, z⟩ := ⟨ht, h.proper.nv, hx, hy, hz⟩
    have e := hq2 ⟨t, 0, x, y, z⟩ hc
    rw [marginal_txz m L hc] at e
    simp only [coords, coord1, List.flatMap_cons, List.flatMap_nil, List.cons_append, List.nil_append,
      Bool.false_eq_true, if_false, div_one] at e
    simp only [map]
    rw [show q.get [t, x, y, z] = .fin (m.probTXZ g ⟨t, 0, x, y, z⟩) from e]
    rfl
  obtain ⟨Fs, hFs, hFs'⟩ := reshapeFXw h.proper hS
  obtain ⟨M, hM, hM'⟩ := h.muV
  obtain ⟨Sg, hSg, hSg'⟩ := h.sigV
  have hM'' := isArr_tx (f := fun t x y => .fin (m.mu t x y)) h.proper hM'
  have hSg'' := isArr_tx (f := fun t x y => .fin (m.sig t x y)) h.proper hSg'
  have hq : Component.getP p.self "txz".toList false false = .ok q := hq
  refine ⟨?_, fun e => ?_, fun e => ?_, fun batch hb => ?_⟩
  · obtain ⟨r, hr, hr'⟩ := ybarNone_is hM hSg hM'' hSg'' hS.shape hn hS.nFft hA hFs'
    exact ⟨r, by simp only [evaluateYbar, hq, hFs, Py.ok_bind, if_true]; exact hr, hr'⟩
  · obtain ⟨r, hr, hr'⟩ := ybarColumn_is hM hSg hM'' hSg'' hS.shape hn hS.nFft hA hFs' h.cubeIs.nx h.cubeIs.ny
      (hS.len.trans e)
    refine ⟨r, ?_, hr'⟩
    unfold evaluateYbar
    rw [hq, Py.ok_bind, hFs, Py.ok_bind]
    rw [if_neg (by decide), if_pos rfl]
    exact hr
  · obtain ⟨r, hr, hr'⟩ := ybarSpaxel_is hM hSg hM'' hSg'' hS.shape hn hS.nFft hA hFs' h.cubeIs.nx h.cubeIs.ny
      (hS.len.trans e)
    refine ⟨r, ?_, hr'⟩
    unfold evaluateYbar
    rw [hq, Py.ok_bind, hFs, Py.ok_bind]
    rw [if_neg (by decide), if_neg (by decide), if_pos rfl]
    exact hr
  · simp only [List.mem_cons, List.not_mem_nil, or_false, not_or] at hb
    simp only [evaluateYbar, hq, hFs, Py.ok_bind, if_neg hb.1, if_neg hb.2.1, if_neg hb.2.2]

end Param
end PKM
