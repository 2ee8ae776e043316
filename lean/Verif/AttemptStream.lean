import Verif.AttemptLemmas
import Verif.StreamLemmas

/-! # Lemmas on calls of the setters of streams that may be rejected -/

open scoped Classical

noncomputable section

namespace PKM
open Np Body Param

variable {p : Param} {s : Stream} {g : Grid} {f2 : ℝ} {center : ℝ × ℝ} {rotation : ℝ}

/-- The object with two angles, or none. -/
def Stream.asObj (s : Stream) : StreamObj := ⟨s.base, s.thetaLims.map fun a => [a.1, a.2]⟩

theorem onBase_fromPy {b : Body Param Unit} {r : Py Param} (h : b s.base = fromPy s.base r) :
    StreamObj.onBase b s.asObj = fromPy s.asObj (r.map fun p => Stream.asObj { s with base := p }) := by
  show ((b s.base).1, (⟨(b s.base).2, s.asObj.theta⟩ : StreamObj)) = _
  cases r with
  | error e => rw [h]; rfl
  | ok a => rw [h]; rfl

theorem logPix_total {X MU : Arr Num} {n : ℕ} (sig : ℝ) (D : Num) (hX : X.shape = [g.nx, g.ny]) (hM : MU.shape = [n]) :
    ∃ r, Stream.logPix X MU sig D = .ok r ∧ r.shape = [g.nx, g.ny, n] := by
  have h0 : MArr (sampled g n) [some 'x', some 'y'] X _ := marr_shape hX
  have hm : MArr (sampled g n) [some 'v'] MU _ := marr_shape hM
  have hs := MArr.scalar (sampled g n) (.fin sig)
  obtain ⟨C, h1, h2⟩ := h0.getitem [.all, .all, .na] (R := [some 'x', some 'y', none]) rfl
  have cdf : ∀ {Z f}, MArr (sampled g n) [some 'x', some 'y', none] Z f →
      ∃ r, normLogcdf MU (scalar (.fin sig)) Z = .ok r ∧ ∃ f', MArr (sampled g n) (['x','y','v'].map some) r f' := fun {Z f} hZ => by
    obtain ⟨d, k1, k2⟩ := MArr.bop (R := ['x','y','v'].map some) (· - ·) hZ hm rfl
    obtain ⟨z, k3, k4⟩ := MArr.bop (R := ['x','y','v'].map some) (· / ·) k2 hs rfl
    obtain ⟨r, k5, k6⟩ := MArr.bop (R := ['x','y','v'].map some) (fun z s => if scaleOk s then normLogcdf01 z else .nan) k4 hs rfl
    have k1' : sub Z MU = .ok d := k1
    have k3' : div d (scalar (.fin sig)) = .ok z := k3
    exact ⟨r, by simp only [normLogcdf, k1', k3', Py.ok_bind]; exact k5, _, k6⟩
  obtain ⟨H, h3, h4⟩ := MArr.bop (R := [some 'x', some 'y', none]) (· + ·) h2 (MArr.scalar (sampled g n) (D / .fin 2.0)) rfl
  obtain ⟨L, h5, h6⟩ := MArr.bop (R := [some 'x', some 'y', none]) (· - ·) h2 (MArr.scalar (sampled g n) (D / .fin 2.0)) rfl
  have h3' : Np.add C (scalar (D / .fin 2.0)) = .ok H := h3
  have h5' : Np.sub C (scalar (D / .fin 2.0)) = .ok L := h5
  obtain ⟨H', k1, f1, k2⟩ := cdf h4
  obtain ⟨L', k3, f3, k4⟩ := cdf h6
  obtain ⟨r, k5, f5, k6⟩ := logDiff_total k2 k4
  exact ⟨r, by simp only [Stream.logPix, h1, h3', h5', k1, k3, k5, Py.ok_bind], k6.1⟩

/-- What follows the assignment of the angles never fails. -/
theorem track_total (hb : Built p g f2 center rotation) {n : ℕ} {MX MY : Arr Num} (sig : ℝ) (hX : MX.shape = [n]) (hY : MY.shape = [n]) :
    ∃ lx ly l1 l2 l3 l4 l5 l6, Stream.logPix p.xxp MX sig p.cube.dx = .ok lx ∧ Stream.logPix p.yyp MY sig p.cube.dy = .ok ly ∧
      add lx ly = .ok l1 ∧ logsumexp [-1] l1 = .ok l2 ∧ isub l2 (logsumexpAll l2) = .ok l3 ∧ isub l3 p.logDxDy = .ok l4 ∧
      broadcastTo (g.nt :: l4.shape) l4 = .ok l5 ∧ moveaxis [0] [-1] l5 = .ok l6 := by
  obtain ⟨lx, a1, a2⟩ := logPix_total sig p.cube.dx hb.xxp_marr.1 hX
  obtain ⟨ly, a3, a4⟩ := logPix_total sig p.cube.dy hb.yyp_marr.1 hY
  have b1 : MArr (sampled g n) (['x','y','v'].map some) lx _ := marr_shape a2
  have b2 : MArr (sampled g n) (['x','y','v'].map some) ly _ := marr_shape a4
  obtain ⟨l1, b3, b4⟩ := MArr.bop (R := ['x','y','v'].map some) (· + ·) b1 b2 rfl
  obtain ⟨S, b5, b6⟩ := MArr.sumL (U := ['x','y','v']) (S := ['v']) (V := ['x','y']) (b4.map Num.exp) (by decide) (by decide)
    (axes := [-1]) (by decide +kernel) (by decide)
  have c1 : MArr g (['x','y'].map some) (map Num.log S) _ := marr_shape b6.1
  obtain ⟨l3, c2, c3⟩ := MArr.iop (· - ·) c1 (B := logsumexpAll (map Num.log S)) (N := []) (marr_shape rfl) rfl
  obtain ⟨l4, c4, c5⟩ := MArr.iop (· - ·) c3 (B := p.logDxDy) (N := []) (marr_shape rfl) rfl
  obtain ⟨l5, c6, c7⟩ := c5.broadcastT rfl
  obtain ⟨l6, c8, c9⟩ := c7.moveaxis (src := [0]) (dst := [-1]) (R := ['x','y','t'].map some) (by decide +kernel)
  refine ⟨lx, ly, l1, _, l3, l4, l5, l6, a1, a3, b3, ?_, c2, c4, c6, c8⟩
  simp only [logsumexp, b5, Py.ok_bind]

theorem stream_setPxt_pairs {o : StreamObj} (hb : Built o.base g f2 center rotation) (t : Option (ℝ × ℝ)) (θ r : ℝ × ℝ) (sig : ℝ) (n : ℕ) :
    StreamObj.setPxtBody [θ.1, θ.2] [r.1, r.2] sig n o = fromPy o (((⟨o.base, t⟩ : Stream).setPxt θ r sig n).map Stream.asObj) := by
  unfold StreamObj.setPxtBody Stream.setPxt
  refine (ev_eq (x := StreamObj.minL [θ.1, θ.2]) rfl).trans ?_
  by_cases h1 : min θ.1 θ.2 ≥ -Real.pi
  · refine (ev_eq (pyAssert_pos h1)).trans ?_
    refine (ev_eq (x := StreamObj.maxL [θ.1, θ.2]) rfl).trans ?_
    by_cases h2 : max θ.1 θ.2 ≤ Real.pi
    · refine (ev_eq (pyAssert_pos h2)).trans ?_
      refine assign_eq.trans (object_eq.trans ?_)
      refine (ev_eq (x := unpack [θ.1, θ.2]) rfl).trans ?_
      refine (congrFun (if_neg (by omega)) _).trans ?_
      refine (ev_eq (x := unpack [r.1, r.2]) rfl).trans ?_
      obtain ⟨lx, ly, l1, l2, l3, l4, l5, l6, k1, k2, k3, k4, k5, k6, k7, k8⟩ := track_total hb (n := n) sig
        (MX := vec n fun k => (Num.fin r.1 + Num.fin (r.2 - r.1) * (Num.fin (Stream.linspaceR θ.1 θ.2 n k - θ.1) / Num.fin (θ.2 - θ.1))) *
          Num.fin (Real.cos (Stream.linspaceR θ.1 θ.2 n k)))
        (MY := vec n fun k => (Num.fin r.1 + Num.fin (r.2 - r.1) * (Num.fin (Stream.linspaceR θ.1 θ.2 n k - θ.1) / Num.fin (θ.2 - θ.1))) *
          Num.fin (Real.sin (Stream.linspaceR θ.1 θ.2 n k))) rfl rfl
      have e1 : o.base.cube.getVariableValues ['t'] = .ok o.base.cube.ssps.tCents := by simp [IFUCube.getVariableValues]
      have e2 : IFUCube.pyLen o.base.cube.ssps.tCents = .ok g.nt := by simp [IFUCube.pyLen, hb.cubeIs.tCents.shape]
      rw [pyAssert_pos h1, pyAssert_pos h2]
      simp only [Py.ok_bind, e1, e2, k1, k2, k3, k4, k5, k6, k7, k8]
      refine (ev_eq e1).trans ?_
      refine (ev_eq e2).trans ?_
      refine (ev_eq k1).trans ?_
      refine (ev_eq k2).trans ?_
      refine (ev_eq k3).trans ?_
      refine (ev_eq k4).trans ?_
      refine (ev_eq k5).trans ?_
      refine (ev_eq k6).trans ?_
      refine (ev_eq k7).trans ?_
      refine (ev_eq k8).trans ?_
      rfl
    · rw [pyAssert_pos h1, pyAssert_neg h2]
      refine (congrArg (fun x => (ev x >>= _ : Body StreamObj Unit) o) (pyAssert_neg h2)).trans ?_
      rfl
  · rw [pyAssert_neg h1]
    refine (congrArg (fun x => (ev x >>= _ : Body StreamObj Unit) o) (pyAssert_neg h1)).trans ?_
    rfl

theorem stream_setTDep_total (hb : Built s.base g f2 center rotation) (hg : g.Proper) (τ : ℝ) :
    StreamObj.setTDepBody τ s.asObj = fromPy s.asObj ((s.setTDep τ).map Stream.asObj) ∧ ∃ s', s.setTDep τ = .ok s' := by
  obtain ⟨B, k1, k2⟩ := setPztx_total hb hg (t := full [s.base.cube.nx, s.base.cube.ny] (.fin τ))
    (by simp [full, hb.cubeIs.nx, hb.cubeIs.ny])
  have e : s.setTDep τ = .ok { s with base := { s.base with tDep := some (full [s.base.cube.nx, s.base.cube.ny] (.fin τ)), logPztx := some B } } := by
    unfold Stream.setTDep
    rw [k1]
    rfl
  refine ⟨?_, _, e⟩
  rw [e]
  unfold StreamObj.setTDepBody
  refine assign_eq.trans ?_
  show ((setPztxBody _).1, (⟨(setPztxBody _).2, s.asObj.theta⟩ : StreamObj)) = _
  have k2' : setPztxBody { s.base with tDep := some (full [s.base.cube.nx, s.base.cube.ny] (.fin τ)) } = _ := k2
  refine (congrArg (fun x : Py Unit × Param => (x.1, (⟨x.2, s.asObj.theta⟩ : StreamObj))) k2').trans ?_
  rfl

theorem stream_setSigV_total (hb : Built s.base g f2 center rotation) (sigV : ℝ) :
    StreamObj.setSigVBody sigV s.asObj = fromPy s.asObj ((s.setSigV sigV).map Stream.asObj) := by
  have e2 : IFUCube.pyLen s.base.cube.ssps.tCents = .ok g.nt := by simp [IFUCube.pyLen, hb.cubeIs.tCents.shape]
  unfold StreamObj.setSigVBody Stream.setSigV
  refine object_eq.trans ((ev_eq e2).trans ?_)
  simp only [e2, Py.ok_bind]
  rfl

theorem stream_setMuV_pairs (hb : Built s.base g f2 center rotation) (l : ℝ × ℝ) :
    StreamObj.setMuVBody [l.1, l.2] s.asObj = fromPy s.asObj ((s.setMuV l).map Stream.asObj) := by
  obtain ⟨TH, a1, a2⟩ := MArr.bop (R := ['x','y'].map some) Num.arctan2 hb.yyp_marr hb.xxp_marr rfl
  have e1 : s.base.cube.getVariableValues ['t'] = .ok s.base.cube.ssps.tCents := by simp [IFUCube.getVariableValues]
  have e2 : IFUCube.pyLen s.base.cube.ssps.tCents = .ok g.nt := by simp [IFUCube.pyLen, hb.cubeIs.tCents.shape]
  unfold StreamObj.setMuVBody Stream.setMuV
  refine object_eq.trans ((ev_eq a1).trans ?_)
  simp only [a1, Py.ok_bind]
  cases hθ : s.thetaLims with
  | none =>
    have : attr s.asObj.theta = .error .attributeError := by simp [Stream.asObj, hθ, attr]
    refine (congrArg (fun x => (ev x >>= _ : Body StreamObj Unit) s.asObj) this).trans ?_
    rfl
  | some θ =>
    have h1 : attr s.asObj.theta = .ok [θ.1, θ.2] := by simp [Stream.asObj, hθ, attr]
    refine (ev_eq h1).trans ?_
    refine (ev_eq (x := StreamObj.entry [θ.1, θ.2] 0) rfl).trans ?_
    refine (ev_eq (x := StreamObj.entry [θ.1, θ.2] 1) rfl).trans ?_
    refine (ev_eq (x := unpack [l.1, l.2]) rfl).trans ?_
    refine (ev_eq (x := StreamObj.minL [θ.1, θ.2]) rfl).trans ?_
    refine (ev_eq (x := StreamObj.maxL [θ.1, θ.2]) rfl).trans ?_
    obtain ⟨mu, hmu, -⟩ := (a2.map (Stream.muAt (if θ.1 < θ.2 then (l.1, l.2) else (l.2, l.1)).1
      (if θ.1 < θ.2 then (l.1, l.2) else (l.2, l.1)).2 (min θ.1 θ.2) (max θ.1 θ.2))).broadcastT rfl
    refine (ev_eq e1).trans ?_
    refine (ev_eq e2).trans ?_
    refine (ev_eq hmu).trans ?_
    simp only [attr, Py.ok_bind, e1, e2]
    rw [hmu, ← hθ]
    rfl

end PKM
