import Verif.Props.Disk
import Verif.Props.Cube

/-! C38, the degenerate track: a stream that starts and ends at the same angle. -/

open scoped Classical
open MeasureTheory ProbabilityTheory

noncomputable section

namespace PKM
open Np Component

variable {s : Stream} {p : Param} {g : Grid} {f2 : ℝ} {center : ℝ × ℝ} {rotation : ℝ}
  {M N R : List (Option Char)} {A : Arr Num} {f : Cell → Num}

/-- Around a centre that is nan the distribution function is nan. -/
theorem MArr.normLogcdf_nan {x : Cell → ℝ} {sig : ℝ} {loc X : Arr Num}
    (hl : MArr g M loc (fun _ => .nan))
    (hx : MArr g N X (fun c => .fin (x c)))
    (hj : joinR N.reverse M.reverse = some R.reverse) (hj' : joinR R.reverse [] = some R.reverse) :
    ∃ r, PKM.normLogcdf loc (Np.scalar (Num.fin sig)) X = .ok r ∧ MArr g R r (fun _ => .nan) := by
  obtain ⟨d, h1, h2⟩ := MArr.bop (· - ·) hx hl hj
  obtain ⟨e, h3, h4⟩ := MArr.bop (R := R) (· / ·) h2 (MArr.scalar g (.fin sig)) hj'
  obtain ⟨r, h5, h6⟩ := MArr.bop (R := R) (fun z s => if scaleOk s then normLogcdf01 z else .nan) h4
    (MArr.scalar g (.fin sig)) hj'
  have e1 : Np.sub X loc = .ok d := h1
  have e2 : Np.div d (Np.scalar (Num.fin sig)) = .ok e := h3
  refine ⟨r, by simp only [PKM.normLogcdf, e1, e2, Py.ok_bind]; exact h5, h6.congr fun c hc => ?_⟩
  beta_reduce
  rw [Num.sub_nan, Num.nan_div]
  simp [normLogcdf01]

theorem MArr.logDiff_nan {hi lo : Arr Num} (h1 : MArr g M hi (fun _ => .nan)) (h2 : MArr g M lo (fun _ => .nan)) :
    ∃ r, PKM.logDiff hi lo = .ok r ∧ MArr g M r (fun _ => .nan) := by
  obtain ⟨r, e1, e2, e3⟩ := logDiff_get (hi := hi) (lo := lo) (by rw [h1.1, h2.1])
  refine ⟨r, e1, e2.trans h1.1, fun c hc => ?_⟩
  rw [e3 _ (by rw [h1.1]; exact coordsM_inBox hc M), h1.2 c hc, h2.2 c hc]
  simp

theorem logPix_nan {X MU : Arr Num} {x : Cell → ℝ} {n : ℕ} {sig d : ℝ} {D : Num}
    (hD : D = .fin d) (hv : 0 < g.nv) (hX : MArr g [some 'x', some 'y'] X (fun c => .fin (x c)))
    (hx : ∀ c, x c = x { c with v := 0 }) (hM : MArr (sampled g n) [some 'v'] MU (fun _ => .nan)) :
    ∃ r, Stream.logPix X MU sig D = .ok r ∧ MArr (sampled g n) (['x','y','v'].map some) r (fun _ => .nan) := by
  subst hD
  have h0 : MArr (sampled g n) [some 'x', some 'y'] X (fun c => .fin (x c)) :=
    hX.toSampled hv fun c => by rw [hx]
  have e2 : (Num.fin d / Num.fin 2.0) = .fin (d / 2) := by
    rw [Num.fin_div _ _ (by norm_num)]; norm_num
  obtain ⟨C, h1, h2⟩ := h0.getitem [.all, .all, .na] (R := [some 'x', some 'y', none]) rfl
  obtain ⟨H, h3, h4⟩ := MArr.bop (R := [some 'x', some 'y', none]) (· + ·) h2
    (MArr.scalar (sampled g n) (.fin (d / 2))) rfl
  have h3' : Np.add C (scalar (.fin (d / 2))) = .ok H := h3
  obtain ⟨L, h5, h6⟩ := MArr.bop (R := [some 'x', some 'y', none]) (· - ·) h2
    (MArr.scalar (sampled g n) (.fin (d / 2))) rfl
  have h5' : Np.sub C (scalar (.fin (d / 2))) = .ok L := h5
  obtain ⟨H', k1, k2⟩ := MArr.normLogcdf_nan (R := ['x','y','v'].map some) (sig := sig) (x := fun c => x c + d / 2) hM h4 rfl rfl
  obtain ⟨L', k3, k4⟩ := MArr.normLogcdf_nan (R := ['x','y','v'].map some) (sig := sig) (x := fun c => x c - d / 2) hM h6 rfl rfl
  obtain ⟨r, k5, k6⟩ := MArr.logDiff_nan k2 k4
  exact ⟨r, by simp only [Stream.logPix, e2, h1, h3', h5', k1, k3, k5, Py.ok_bind], k6⟩

/-- Disagreement: the two angles of the track may be equal. The call succeeds, and then the stored density and the
answer to `get_p('x_t')` are nan for every pixel and every age; no exception is raised. -/
theorem C38_equal_angles (hb : Built s.base g f2 center rotation) (hg : g.Proper) (θ : ℝ) (muR : ℝ × ℝ) (sig : ℝ)
    (n : ℕ) (hθ : -Real.pi ≤ θ ∧ θ ≤ Real.pi) (hn : 0 < n) :
    ∃ s' A, s.setPxt (θ, θ) muR sig n = .ok s' ∧ s'.base.logPxt = some A ∧ A.shape = [g.nx, g.ny, g.nt] ∧
      (∀ x < g.nx, ∀ y < g.ny, ∀ t < g.nt, A.get [x, y, t] = .nan) ∧
      ∀ density, ∃ r, getP s'.base.self ['x','_','t'] density false = .ok r ∧ r.shape = [g.nx, g.ny, g.nt] ∧
        ∀ x < g.nx, ∀ y < g.ny, ∀ t < g.nt, r.get [x, y, t] = .nan := by
  have hc := hb.cubeIs
  have hmu : ∀ u : ℕ → Num, MArr (sampled g n) [some 'v'] (vec n (fun k => (Num.fin muR.1 +
      Num.fin (muR.2 - muR.1) * (Num.fin (Stream.linspaceR θ θ n k - θ) / Num.fin (θ - θ))) * u k))
      (fun _ => .nan) := fun u => ⟨rfl, fun c _ => by
    have e : Num.fin (Stream.linspaceR θ θ n c.v - θ) / Num.fin (θ - θ) = .nan := by
      simp [Stream.linspaceR]
    show (Num.fin muR.1 + Num.fin (muR.2 - muR.1) * (Num.fin (Stream.linspaceR θ θ n c.v - θ) / Num.fin (θ - θ))) * u c.v = .nan
    rw [e]; simp⟩
  obtain ⟨X, a1, a2⟩ := logPix_nan (sig := sig) (hc.dx 0 hg.nx) hg.nv hb.xxp_marr (fun c => rfl)
    (hmu fun k => .fin (Real.cos (Stream.linspaceR θ θ n k)))
  obtain ⟨Y, a3, a4⟩ := logPix_nan (sig := sig) (hc.dy 0 hg.ny) hg.nv hb.yyp_marr (fun c => rfl)
    (hmu fun k => .fin (Real.sin (Stream.linspaceR θ θ n k)))
  obtain ⟨P, a5, a6⟩ := MArr.bop (R := ['x','y','v'].map some) (· + ·) a2 a4 rfl
  have a5' : Np.add X Y = .ok P := a5
  obtain ⟨S, a7, a8⟩ := MArr.sumL (U := ['x','y','v']) (S := ['v']) (V := ['x','y']) (a6.map Num.exp)
    (by decide) (by decide) (axes := [-1]) (by decide +kernel) (by decide)
  have a7' : logsumexp [-1] P = .ok (map Num.log S) := by
    simp only [logsumexp, a7, Py.ok_bind]
  have a9 : MArr g (['x','y'].map some) (map Num.log S) (fun _ => .nan) := by
    refine MArr.ofSampled hn ((a8.map Num.log).congr fun c _ => ?_) fun c => rfl
    have : sumOver (sampled g n) ['v'] (fun c => Num.exp (Num.nan + Num.nan)) c = .nan := by
      show ∑ j : Fin n, Num.exp (Num.nan + Num.nan) = .nan
      exact Num.sum_eq_nan (Finset.mem_univ (⟨0, hn⟩ : Fin n)) (by simp)
    rw [this]; rfl
  obtain ⟨S2, b2, b3⟩ := MArr.iop (· - ·) a9 (MArr.scalar g ((logsumexpAll (map Num.log S)).get [])) rfl
  have b2' : isub (map Num.log S) (logsumexpAll (map Num.log S)) = .ok S2 := b2
  obtain ⟨S3, b4, b5⟩ := MArr.iop (· - ·) b3 (logDxDy_marr hc hg) rfl
  have b4' : isub S2 s.base.logDxDy = .ok S3 := b4
  obtain ⟨S4, b6, b7⟩ := b5.broadcastT rfl
  obtain ⟨A, b8, b9⟩ := b7.moveaxis (src := [0]) (dst := [-1]) (R := ['x','y','t'].map some) (by decide +kernel)
  have e1 : s.base.cube.getVariableValues ['t'] = .ok s.base.cube.ssps.tCents := by
    simp [IFUCube.getVariableValues]
  have e2 : IFUCube.pyLen s.base.cube.ssps.tCents = .ok g.nt := by simp [IFUCube.pyLen, hc.tCents.shape]
  have b10 : MArr g (['x','y','t'].map some) A (fun _ => .nan) := b9.congr fun c _ => by simp
  refine ⟨{ base := { s.base with logPxt := some A }, thetaLims := some (θ, θ) }, A, ?_, rfl, b10.1,
    fun x hx y hy t ht => b10.2 ⟨t, 0, x, y, 0⟩ ⟨ht, hg.nv, hx, hy, hg.nz⟩, fun density => ?_⟩
  · unfold Stream.setPxt
    rw [pyAssert_pos (by simpa using hθ.1), pyAssert_pos (by simpa using hθ.2)]
    simp only [Py.ok_bind, e1, e2, a1, a3, a5', a7', b2', b4', b6, b8]
  · set p : Param := { s.base with logPxt := some A } with hp
    have key : ∃ B, p.xtMass density = .ok B ∧ MArr g (['x','y','t'].map some) B (fun _ => .nan) := by
      cases density with
      | true => exact ⟨A, by simp [hp, Param.xtMass, Param.attr, Param.onlyIf], b10⟩
      | false =>
        obtain ⟨B, h1, h2⟩ := MArr.iop (· + ·) b10 (logDxDy_marr (p := p) hc hg) rfl
        have h1' : iadd A p.logDxDy = .ok B := h1
        refine ⟨B, ?_, h2.congr fun c _ => by simp⟩
        have : p.logPxt = some A := rfl
        simp only [Param.xtMass, Param.attr, Param.onlyIf, this]
        simpa using h1'
    have hq' : ((['x'],['t']) : PyStr × PyStr) ∈ conditionals := by decide +kernel
    obtain ⟨r, h1, h2⟩ := getP_own (p := p) hq' (f := p.xt) rfl density false (IsL.cond hq' key)
    exact ⟨r, h1, h2.1, fun x hx y hy t ht => h2.2 ⟨t, 0, x, y, 0⟩ ⟨ht, hg.nv, hx, hy, hg.nz⟩⟩

/-- The angles `(1, 1)` are accepted for a stream on the demonstration cube. -/
example : ∃ (s s' : Stream) (A : Arr Num), s.setPxt (1, 1) (0.7, 0.1) 0.03 75 = .ok s' ∧
    s'.base.logPxt = some A ∧ A.get [4, 5, 1] = .nan := by
  obtain ⟨cube, -, hc, -⟩ := demoCube_exists
  obtain ⟨p, -, hb, -⟩ := init_built hc demoGrid_proper 1 (0, 0) 0
  have hpi := Real.two_le_pi
  obtain ⟨s', A, h1, h2, -, h3, -⟩ := C38_equal_angles (s := ⟨p, none⟩) hb demoGrid_proper 1 (0.7, 0.1) 0.03 75
    ⟨by linarith, by linarith⟩ (by norm_num)
  exact ⟨_, s', A, h1, h2, h3 4 (by decide) 5 (by decide) 1 (by decide)⟩

end PKM
