import Verif.DiskLemmas

/-! Lemmas: the setters of streams. -/

open scoped Classical
open MeasureTheory ProbabilityTheory

noncomputable section

namespace PKM
open Np Component

variable {s : Stream} {p : Param} {g : Grid} {f2 : ℝ} {center : ℝ × ℝ} {rotation : ℝ}
  {M N R : List (Option Char)} {A : Arr Num} {f : Cell → Num}

/-- `np.broadcast_to(a, (nt,) + a.shape)`. -/
theorem MArr.broadcastT (hA : MArr g M A f)
    (hj : joinR M.reverse (some 't' :: M).reverse = some (some 't' :: M).reverse) :
    ∃ r, broadcastTo (g.nt :: A.shape) A = .ok r ∧ MArr g (some 't' :: M) r f := by
  have hs := joinR_shape g _ _ _ hj
  simp only [List.map_reverse] at hs
  have e : g.nt :: A.shape = (some 't' :: M).map (sizeM g) := by rw [hA.1]; rfl
  rw [e]
  refine ⟨⟨(some 't' :: M).map (sizeM g), fun i => A.get (bproj A.shape i)⟩, ?_, rfl, fun c hc => ?_⟩
  · unfold broadcastTo
    rw [hA.1, hs]
    simp
  · obtain ⟨h1, -⟩ := joinR_idx g hc _ _ _ hj
    simp only [List.map_reverse] at h1
    simp only [bproj, hA.1, h1, List.reverse_reverse, hA.2 c hc]

/-- The grid with the velocity axis replaced by `n` sample points. -/
def sampled (g : Grid) (n : ℕ) : Grid := { g with nv := n }

theorem sampled_has {n : ℕ} (hv : 0 < g.nv) {c : Cell} (hc : (sampled g n).Has c) : g.Has { c with v := 0 } :=
  ⟨hc.1, hv, hc.2.2.1, hc.2.2.2.1, hc.2.2.2.2⟩

theorem MArr.toSampled {n : ℕ} (hv : 0 < g.nv) (h : MArr g [some 'x', some 'y'] A f)
    (hf : ∀ c, f c = f { c with v := 0 }) : MArr (sampled g n) [some 'x', some 'y'] A f :=
  ⟨h.1, fun c hc => by rw [hf]; exact h.2 _ (sampled_has hv hc)⟩

theorem MArr.ofSampled {n : ℕ} (hn : 0 < n) (h : MArr (sampled g n) [some 'x', some 'y'] A f)
    (hf : ∀ c, f c = f { c with v := 0 }) : MArr g [some 'x', some 'y'] A f :=
  ⟨h.1, fun c hc => by
    rw [hf]
    exact h.2 { c with v := 0 } ⟨hc.1, hn, hc.2.2.1, hc.2.2.2.1, hc.2.2.2.2⟩⟩

theorem MArr.normLogcdfS {μ x : Cell → ℝ} {sig : ℝ} {loc X : Arr Num}
    (hl : MArr g M loc (fun c => .fin (μ c)))
    (hx : MArr g N X (fun c => .fin (x c))) (hσ : 0 < sig)
    (hj : joinR N.reverse M.reverse = some R.reverse) (hj' : joinR R.reverse [] = some R.reverse) :
    ∃ r, PKM.normLogcdf loc (Np.scalar (Num.fin sig)) X = .ok r ∧
      MArr g R r (fun c => Num.lg (stdPhi ((x c - μ c) / sig))) := by
  obtain ⟨d, h1, h2⟩ := MArr.bop (· - ·) hx hl hj
  obtain ⟨e, h3, h4⟩ := MArr.bop (R := R) (· / ·) h2 (MArr.scalar g (.fin sig)) hj'
  obtain ⟨r, h5, h6⟩ := MArr.bop (R := R) (fun z s => if scaleOk s then normLogcdf01 z else .nan) h4
    (MArr.scalar g (.fin sig)) hj'
  have e1 : Np.sub X loc = .ok d := h1
  have e2 : Np.div d (Np.scalar (Num.fin sig)) = .ok e := h3
  refine ⟨r, by simp only [PKM.normLogcdf, e1, e2, Py.ok_bind]; exact h5, h6.congr fun c hc => ?_⟩
  simp only [Num.fin_sub, Num.fin_div _ _ hσ.ne', scaleOk, hσ, if_true, normLogcdf01]

/-- Probability of a pixel in one coordinate, for one sample point. -/
theorem logPix_gives {X MU : Arr Num} {x : Cell → ℝ} {μ : ℕ → ℝ} {n : ℕ} {sig d : ℝ} {D : Num} (hσ : 0 < sig)
    (hd : 0 < d) (hD : D = .fin d) (hv : 0 < g.nv) (hX : MArr g [some 'x', some 'y'] X (fun c => .fin (x c)))
    (hx : ∀ c, x c = x { c with v := 0 }) (hM : Is1 MU n μ) :
    ∃ r, Stream.logPix X MU sig D = .ok r ∧ MArr (sampled g n) (['x','y','v'].map some) r
      (fun c => Num.lg ((normal (μ c.v) sig).real (Set.Ioc (x c - d / 2) (x c + d / 2)))) := by
  subst hD
  have h0 : MArr (sampled g n) [some 'x', some 'y'] X (fun c => .fin (x c)) :=
    hX.toSampled hv fun c => by rw [hx]
  have hm : MArr (sampled g n) [some 'v'] MU (fun c => .fin (μ c.v)) :=
    Is1.marr (g := sampled g n) (ch := 'v') (F := μ) hM
  have e2 : (Num.fin d / Num.fin 2.0) = .fin (d / 2) := by
    rw [Num.fin_div _ _ (by norm_num)]; norm_num
  obtain ⟨C, h1, h2⟩ := h0.getitem [.all, .all, .na] (R := [some 'x', some 'y', none]) rfl
  obtain ⟨H, h3, h4⟩ := MArr.bop (R := [some 'x', some 'y', none]) (· + ·) h2
    (MArr.scalar (sampled g n) (.fin (d / 2))) rfl
  have h3' : Np.add C (scalar (.fin (d / 2))) = .ok H := h3
  obtain ⟨L, h5, h6⟩ := MArr.bop (R := [some 'x', some 'y', none]) (· - ·) h2
    (MArr.scalar (sampled g n) (.fin (d / 2))) rfl
  have h5' : Np.sub C (scalar (.fin (d / 2))) = .ok L := h5
  obtain ⟨H', k1, k2⟩ := MArr.normLogcdfS (R := ['x','y','v'].map some) hm h4 hσ rfl rfl
  obtain ⟨L', k3, k4⟩ := MArr.normLogcdfS (R := ['x','y','v'].map some) hm h6 hσ rfl rfl
  obtain ⟨r, k5, k6⟩ := MArr.logDiff k2 k4 (fun c _ => stdPhi_nonneg _) (fun c _ => stdPhi_nonneg _)
  refine ⟨r, by simp only [Stream.logPix, e2, h1, h3', h5', k1, k3, k5, Py.ok_bind], k6.congr fun c _ => ?_⟩
  rw [normal_Ioc hσ (by linarith)]
  simp only [sub_eq_add_neg]

/-! ### `set_p_x_t` of a stream -/

/-- Angle and radius of the `k`-th of `n` sample points on the track. -/
def trackTheta (theta : ℝ × ℝ) (n k : ℕ) : ℝ := Stream.linspaceR theta.1 theta.2 n k
def trackR (theta muR : ℝ × ℝ) (n k : ℕ) : ℝ :=
  muR.1 + (muR.2 - muR.1) * ((trackTheta theta n k - theta.1) / (theta.2 - theta.1))

/-- Probability that a blob of size `sig` around a point of the track gives to the pixel, summed over
the sample points. -/
def streamW (g : Grid) (center : ℝ × ℝ) (rotation : ℝ) (theta muR : ℝ × ℝ) (sig : ℝ) (n : ℕ) (c : Cell) : ℝ :=
  ∑ k : Fin n,
    (normal (trackR theta muR n k * Real.cos (trackTheta theta n k)) sig).real
      (Set.Ioc (frameX g center rotation c - width g.x c.x / 2) (frameX g center rotation c + width g.x c.x / 2)) *
    (normal (trackR theta muR n k * Real.sin (trackTheta theta n k)) sig).real
      (Set.Ioc (frameY g center rotation c - width g.y c.y / 2) (frameY g center rotation c + width g.y c.y / 2))

/-- Sum of the weights over the pixels. -/
def streamTotal (g : Grid) (center : ℝ × ℝ) (rotation : ℝ) (theta muR : ℝ × ℝ) (sig : ℝ) (n : ℕ) : ℝ :=
  ∑ i : Fin g.nx, ∑ j : Fin g.ny, streamW g center rotation theta muR sig n ⟨0, 0, i, j, 0⟩

theorem streamW_pos (hg : g.Proper) {theta muR : ℝ × ℝ} {sig : ℝ} {n : ℕ} (hσ : 0 < sig) (hn : 0 < n) {c : Cell}
    (hx : c.x < g.nx) (hy : c.y < g.ny) : 0 < streamW g center rotation theta muR sig n c := by
  have h1 := sub_pos.2 (hg.x _ hx)
  have h2 := sub_pos.2 (hg.y _ hy)
  refine Finset.sum_pos (fun k _ => mul_pos (normal_Ioc_pos hσ ?_) (normal_Ioc_pos hσ ?_))
    ⟨⟨0, hn⟩, Finset.mem_univ _⟩
  · unfold width; linarith
  · unfold width; linarith

theorem streamTotal_pos (hg : g.Proper) {theta muR : ℝ × ℝ} {sig : ℝ} {n : ℕ} (hσ : 0 < sig) (hn : 0 < n) :
    0 < streamTotal g center rotation theta muR sig n :=
  Finset.sum_pos (fun i _ => Finset.sum_pos (fun j _ => streamW_pos hg hσ hn i.2 j.2)
    ⟨⟨0, hg.ny⟩, Finset.mem_univ _⟩) ⟨⟨0, hg.nx⟩, Finset.mem_univ _⟩

theorem width_const_x {cube : IFUCube} (hc : CubeIs cube g) {i j : ℕ} (hi : i < g.nx) (hj : j < g.nx) :
    width g.x i = width g.x j := by
  have := (hc.dx i hi).symm.trans (hc.dx j hj)
  exact Num.fin_injective this

theorem width_const_y {cube : IFUCube} (hc : CubeIs cube g) {i j : ℕ} (hi : i < g.ny) (hj : j < g.ny) :
    width g.y i = width g.y j := by
  have := (hc.dy i hi).symm.trans (hc.dy j hj)
  exact Num.fin_injective this

theorem stream_setPxt (hb : Built s.base g f2 center rotation) (hg : g.Proper) {theta muR : ℝ × ℝ} {sig : ℝ} {n : ℕ}
    (h1 : -Real.pi ≤ min theta.1 theta.2) (h2 : max theta.1 theta.2 ≤ Real.pi) (hθ : theta.1 ≠ theta.2)
    (hσ : 0 < sig) (hn : 0 < n) :
    ∃ A, s.setPxt theta muR sig n = .ok { base := { s.base with logPxt := some A }, thetaLims := some theta } ∧
      MArr g (['x','y','t'].map some) A (fun c => Num.lg (streamW g center rotation theta muR sig n c /
        streamTotal g center rotation theta muR sig n / (width g.x c.x * width g.y c.y))) := by
  have hc := hb.cubeIs
  have hd : theta.2 - theta.1 ≠ 0 := sub_ne_zero.2 (Ne.symm hθ)
  have hw0 : 0 < width g.x 0 := sub_pos.2 (hg.x 0 hg.nx)
  have hh0 : 0 < width g.y 0 := sub_pos.2 (hg.y 0 hg.ny)
  have hr : ∀ k, (Num.fin muR.1 + Num.fin (muR.2 - muR.1) * (Num.fin (Stream.linspaceR theta.1 theta.2 n k - theta.1) /
      Num.fin (theta.2 - theta.1))) = .fin (trackR theta muR n k) := fun k => by
    rw [Num.fin_div _ _ hd, Num.fin_mul, Num.fin_add]; rfl
  have hmx : Is1 (vec n (fun k => (Num.fin muR.1 + Num.fin (muR.2 - muR.1) *
      (Num.fin (Stream.linspaceR theta.1 theta.2 n k - theta.1) / Num.fin (theta.2 - theta.1))) *
      Num.fin (Real.cos (Stream.linspaceR theta.1 theta.2 n k)))) n
      (fun k => trackR theta muR n k * Real.cos (trackTheta theta n k)) :=
    ⟨rfl, fun k _ => by simp only [vec, List.headD_cons, hr, Num.fin_mul]; rfl⟩
  have hmy : Is1 (vec n (fun k => (Num.fin muR.1 + Num.fin (muR.2 - muR.1) *
      (Num.fin (Stream.linspaceR theta.1 theta.2 n k - theta.1) / Num.fin (theta.2 - theta.1))) *
      Num.fin (Real.sin (Stream.linspaceR theta.1 theta.2 n k)))) n
      (fun k => trackR theta muR n k * Real.sin (trackTheta theta n k)) :=
    ⟨rfl, fun k _ => by simp only [vec, List.headD_cons, hr, Num.fin_mul]; rfl⟩
  obtain ⟨X, a1, a2⟩ := logPix_gives hσ hw0 (hc.dx 0 hg.nx) hg.nv hb.xxp_marr (fun c => rfl) hmx
  obtain ⟨Y, a3, a4⟩ := logPix_gives hσ hh0 (hc.dy 0 hg.ny) hg.nv hb.yyp_marr (fun c => rfl) hmy
  obtain ⟨P, a5, a6⟩ := MArr.addL (R := ['x','y','v'].map some) a2 a4 (fun _ _ => measureReal_nonneg)
    (fun _ _ => measureReal_nonneg) rfl
  obtain ⟨S, a7, a8⟩ := MArr.lse (U := ['x','y','v']) (S := ['v']) (V := ['x','y']) a6
    (fun _ _ => mul_nonneg measureReal_nonneg measureReal_nonneg) (by decide) (by decide) (axes := [-1])
    (by decide +kernel) (by decide)
  have a9 : MArr g (['x','y'].map some) S (fun c => Num.lg (streamW g center rotation theta muR sig n c)) := by
    refine (MArr.ofSampled hn a8 fun c => rfl).congr fun c hc' => ?_
    congr 1
    show ∑ k : Fin n, _ = _
    unfold streamW
    rw [width_const_x hc hc'.2.2.1 hg.nx, width_const_y hc hc'.2.2.2.1 hg.ny]
    rfl
  have hW : ∀ c, g.Has c → 0 < streamW g center rotation theta muR sig n c :=
    fun c hc' => streamW_pos hg hσ hn hc'.2.2.1 hc'.2.2.2.1
  have b1 : logsumexpAll S = scalar (Num.lg (streamTotal g center rotation theta muR sig n)) :=
    MArr.lseAll (U := ['x','y']) a9 (fun c hc' => (hW c hc').le) (by decide)
      (c := ⟨0, 0, 0, 0, 0⟩) ⟨hg.nt, hg.nv, hg.nx, hg.ny, hg.nz⟩
  have hT := streamTotal_pos (center := center) (rotation := rotation) (theta := theta) (muR := muR) hg hσ hn
  obtain ⟨S2, b2, b3⟩ := MArr.iop (· - ·) a9 (MArr.scalar g (Num.lg (streamTotal g center rotation theta muR sig n))) rfl
  have b2' : isub S (scalar (Num.lg (streamTotal g center rotation theta muR sig n))) = .ok S2 := b2
  obtain ⟨S3, b4, b5⟩ := MArr.iop (· - ·) b3 (logDxDy_marr hc hg) rfl
  have b4' : isub S2 s.base.logDxDy = .ok S3 := b4
  obtain ⟨S4, b6, b7⟩ := b5.broadcastT rfl
  obtain ⟨A, b8, b9⟩ := b7.moveaxis (src := [0]) (dst := [-1]) (R := ['x','y','t'].map some) (by decide +kernel)
  refine ⟨A, ?_, b9.congr fun c hc' => ?_⟩
  · have e1 : s.base.cube.getVariableValues ['t'] = .ok s.base.cube.ssps.tCents := by
      simp [IFUCube.getVariableValues]
    have e2 : IFUCube.pyLen s.base.cube.ssps.tCents = .ok g.nt := by simp [IFUCube.pyLen, hc.tCents.shape]
    unfold Stream.setPxt
    rw [pyAssert_pos (show min theta.1 theta.2 ≥ -Real.pi from h1), pyAssert_pos h2]
    simp only [Py.ok_bind, e1, e2, a1, a3, a5, a7, b1, b2', b4', b6, b8]
  · beta_reduce
    have v1 : 0 < width g.x c.x := sub_pos.2 (hg.x _ hc'.2.2.1)
    have v2 : 0 < width g.y c.y := sub_pos.2 (hg.y _ hc'.2.2.2.1)
    rw [Num.lg_sub (hW c hc').le hT, Num.lg_sub (div_nonneg (hW c hc').le hT.le) (mul_pos v1 v2)]

/-! ### `set_mu_v`, `set_sig_v`, `set_t_dep` -/

/-- Polar angle of a pixel in the frame of the component. -/
def frameTheta (g : Grid) (center : ℝ × ℝ) (rotation : ℝ) (c : Cell) : ℝ :=
  Complex.arg ⟨frameX g center rotation c, frameY g center rotation c⟩

/-- Fraction of the way from angle `theta.1` to angle `theta.2`, limited to `[0, 1]`. -/
def alongTrack (theta : ℝ × ℝ) (φ : ℝ) : ℝ := max 0 (min 1 ((φ - theta.1) / (theta.2 - theta.1)))

/-- Mean velocity of a stream. -/
def streamMu (g : Grid) (center : ℝ × ℝ) (rotation : ℝ) (theta lims : ℝ × ℝ) (c : Cell) : ℝ :=
  lims.1 + (lims.2 - lims.1) * alongTrack theta (frameTheta g center rotation c)

theorem muAt_fin {lo hi a b φ : ℝ} (h : a < b) :
    Stream.muAt lo hi a b (.fin φ) = .fin (lo + (hi - lo) * max 0 (min 1 ((φ - a) / (b - a)))) := by
  have hd : 0 < b - a := by linarith
  unfold Stream.muAt
  simp only [Num.lt, Num.le]
  by_cases h1 : a < φ ∧ φ < b
  · simp only [h1, and_self, if_true]
    rw [Num.fin_sub, Num.fin_div _ _ hd.ne', Num.fin_mul, Num.fin_add]
    rw [min_eq_right (by rw [div_le_one hd]; linarith), max_eq_right (div_nonneg (by linarith) hd.le)]
    congr 1; ring
  · simp only [h1, if_false]
    by_cases h2 : b ≤ φ
    · simp only [h2, if_true]
      rw [min_eq_left (by rw [le_div_iff₀ hd]; linarith), max_eq_right zero_le_one]
      congr 1; ring
    · simp only [h2, if_false]
      have h3 : φ ≤ a := by
        by_contra hcon
        exact h1 ⟨not_le.1 hcon, not_le.1 h2⟩
      simp only [h3, if_true]
      have : (φ - a) / (b - a) ≤ 0 := div_nonpos_of_nonpos_of_nonneg (by linarith) hd.le
      rw [min_eq_right (by linarith), max_eq_left this]
      congr 1; ring

theorem stream_setMuV (hb : Built s.base g f2 center rotation) {theta lims : ℝ × ℝ}
    (ht : s.thetaLims = some theta) (hθ : theta.1 ≠ theta.2) :
    ∃ A, s.setMuV lims = .ok { s with base := { s.base with muV := some A } } ∧
      MArr g (['t','x','y'].map some) A (fun c => .fin (streamMu g center rotation theta lims c)) := by
  have hc := hb.cubeIs
  obtain ⟨TH, a1, a2⟩ := MArr.bop (R := ['x','y'].map some) Num.arctan2 hb.yyp_marr hb.xxp_marr rfl
  have e1 : s.base.cube.getVariableValues ['t'] = .ok s.base.cube.ssps.tCents := by
    simp [IFUCube.getVariableValues]
  have e2 : IFUCube.pyLen s.base.cube.ssps.tCents = .ok g.nt := by simp [IFUCube.pyLen, hc.tCents.shape]
  have key : ∃ lo hi, (if theta.1 < theta.2 then (lims.1, lims.2) else (lims.2, lims.1)) = (lo, hi) ∧
      ∀ c, Stream.muAt lo hi (min theta.1 theta.2) (max theta.1 theta.2) (.fin (frameTheta g center rotation c)) =
        .fin (streamMu g center rotation theta lims c) := by
    rcases lt_or_gt_of_ne hθ with h | h
    · refine ⟨_, _, if_pos h, fun c => ?_⟩
      rw [min_eq_left h.le, max_eq_right h.le, muAt_fin h]
      rfl
    · refine ⟨_, _, if_neg (not_lt.2 h.le), fun c => ?_⟩
      rw [min_eq_right h.le, max_eq_left h.le, muAt_fin h]
      unfold streamMu alongTrack
      congr 1
      have e : (frameTheta g center rotation c - theta.2) / (theta.1 - theta.2) =
          1 - (frameTheta g center rotation c - theta.1) / (theta.2 - theta.1) := by
        have : theta.2 - theta.1 ≠ 0 := by linarith
        have : theta.1 - theta.2 ≠ 0 := by linarith
        field_simp; ring
      rw [e]
      generalize (frameTheta g center rotation c - theta.1) / (theta.2 - theta.1) = u
      have : max 0 (min 1 (1 - u)) = 1 - max 0 (min 1 u) := by
        rcases le_total u 0 with h0 | h0
        · rw [min_eq_left (by linarith), min_eq_right (by linarith), max_eq_left h0, max_eq_right zero_le_one]; ring
        · rcases le_total u 1 with h1 | h1
          · rw [min_eq_right (by linarith), min_eq_right h1, max_eq_right h0, max_eq_right (by linarith)]
          · rw [min_eq_right (by linarith), min_eq_left h1, max_eq_right zero_le_one, max_eq_left (by linarith)]; ring
      rw [this]; ring
  obtain ⟨lo, hi, k1, k2⟩ := key
  have a3 : MArr g (['x','y'].map some) (map (Stream.muAt lo hi (min theta.1 theta.2) (max theta.1 theta.2)) TH)
      (fun c => .fin (streamMu g center rotation theta lims c)) := (a2.map _).congr fun c _ => k2 c
  obtain ⟨A, a4, a5⟩ := a3.broadcastT rfl
  refine ⟨A, ?_, a5⟩
  unfold Stream.setMuV
  simp only [a1, ht, Param.attr, Py.ok_bind, k1, e1, e2, a4]

theorem stream_setSigV (hb : Built s.base g f2 center rotation) (sigV : ℝ) :
    ∃ A, s.setSigV sigV = .ok { s with base := { s.base with sigV := some A } } ∧
      MArr g (['t','x','y'].map some) A (fun _ => .fin sigV) := by
  have e2 : IFUCube.pyLen s.base.cube.ssps.tCents = .ok g.nt := by simp [IFUCube.pyLen, hb.cubeIs.tCents.shape]
  refine ⟨full [g.nt, s.base.cube.nx, s.base.cube.ny] (.fin sigV), by simp only [Stream.setSigV, e2, Py.ok_bind], ?_,
    fun _ _ => rfl⟩
  simp [full, hb.cubeIs.nx, hb.cubeIs.ny, sizeM, sizeL]

theorem stream_setTDep (hb : Built s.base g f2 center rotation) (hg : g.Proper) (τ : ℝ) :
    ∃ B, s.setTDep τ = .ok { s with base := { s.base with
        tDep := some (full [s.base.cube.nx, s.base.cube.ny] (.fin τ)), logPztx := some B } } ∧
      MArr g (['z','t','x','y'].map some) B
        (fun c => Num.lg (metalDens g (gasMetal g (Param.nearest s.base.zGrid (.fin τ)) c.t) c.z)) := by
  obtain ⟨g1, -, g3⟩ := hb.grid hg
  obtain ⟨B, k3, k4⟩ := enrichmentBase_gives
    (p := { s.base with tDep := some (full [s.base.cube.nx, s.base.cube.ny] (.fin τ)) }) hb.cubeIs hg
    (ζ := gasMetal g) (by rw [g1]; norm_num) (fun i _ k hk => ⟨(g3 i k hk).1, (g3 i k hk).2.1⟩)
    (tDep := full [s.base.cube.nx, s.base.cube.ny] (.fin τ)) (by simp [full, hb.cubeIs.nx, hb.cubeIs.ny])
  exact ⟨B, by simp only [Stream.setTDep, Param.setPztx, Param.attr, Py.ok_bind, k3], k4⟩

end PKM
