import Verif.Attempt

/-! # Lemmas on setter calls that may be rejected -/

open scoped Classical

noncomputable section

namespace PKM
open Np Body Param

variable {σ α β : Type} {s : σ} {p : Param} {g : Grid} {f2 : ℝ} {center : ℝ × ℝ} {rotation : ℝ}

/-- The outcome of a method that assigns at its end only. -/
def fromPy (s : σ) : Py σ → Py Unit × σ
  | .ok s' => (.ok (), s')
  | .error e => (.error e, s)

theorem ev_step {x : Py α} {f : α → Body σ Unit} {k : α → Py σ} (h : ∀ a, x = .ok a → f a s = fromPy s (k a)) :
    (ev x >>= f) s = fromPy s (x >>= k) := by
  cases x with
  | error e => rfl
  | ok a => exact h a rfl

theorem ev_ok {x : Py α} {f : α → Body σ β} {b : β} {s' : σ} (h : (ev x >>= f) s = (.ok b, s')) :
    ∃ a, x = .ok a ∧ f a s = (.ok b, s') := by
  cases x with
  | error e => exact absurd (congrArg Prod.fst h) (by intro h; cases h)
  | ok a => exact ⟨a, rfl, h⟩

theorem object_eq {f : σ → Body σ β} : (object >>= f) s = f s s := rfl

theorem assign_eq {u : σ → σ} {f : Unit → Body σ β} : (assign u >>= f) s = f () (u s) := rfl

theorem ev_eq {x : Py α} {f : α → Body σ β} {a : α} (h : x = .ok a) : (ev x >>= f) s = f a s := by subst h; rfl

theorem ev_both {x : Py α} {f : α → Body σ Unit} {k : α → Py σ} {a : α} {s' : σ} (h : x = .ok a)
    (h' : f a s = fromPy s' (k a)) : (ev x >>= f) s = fromPy s' (x >>= k) := by subst h; exact h'

/-- A statement that leaves the object as it was if it raises. -/
def Clean (b : Body σ Unit) (s : σ) : Prop := ∀ e s', b s = (.error e, s') → s' = s

theorem Clean.ev {x : Py α} {f : α → Body σ Unit} (h : ∀ a, x = .ok a → Clean (f a) s) : Clean (ev x >>= f) s := by
  cases x with
  | error e =>
    intro e' s' h'
    exact (congrArg Prod.snd h').symm
  | ok a => exact h a rfl

theorem Clean.object {f : σ → Body σ Unit} (h : Clean (f s) s) : Clean (object >>= f) s := h

theorem Clean.assign (u : σ → σ) : Clean (assign u) s := fun e s' h =>
  absurd (congrArg Prod.fst h) (by intro h; cases h)

theorem Clean.raise (e : PyErr) : Clean (Body.ev (.error e)) s := fun _ _ h => (congrArg Prod.snd h).symm

theorem fromPy_clean {r : Py σ} {e : PyErr} {s' : σ} (h : fromPy s r = (.error e, s')) : s' = s := by
  cases r with
  | error e => exact (congrArg Prod.snd h).symm
  | ok a => exact absurd (congrArg Prod.fst h) (by intro h; cases h)

theorem fromPy_ok {r : Py σ} {s' : σ} : fromPy s r = (.ok (), s') ↔ r = .ok s' := by
  cases r with
  | error e => exact ⟨fun h => absurd (congrArg Prod.fst h) (by intro h; cases h), fun h => by cases h⟩
  | ok a => exact ⟨fun h => congrArg Except.ok (congrArg Prod.snd h), fun h => by cases h; rfl⟩

/-! ### Arguments -/

theorem splat_ok {l : List ℝ} {a : ℝ × ℝ} (h : splat l = .ok a) : l = [a.1, a.2] := by
  unfold splat at h
  split at h
  · cases h; rfl
  · cases h

theorem unpack_ok {l : List ℝ} {a : ℝ × ℝ} (h : unpack l = .ok a) : l = [a.1, a.2] := by
  unfold unpack at h
  split at h
  · cases h; rfl
  · cases h

theorem notNone_ok {x : Option ℝ} {a : ℝ} (h : notNone x = .ok a) : x = some a := by
  cases x with
  | none => cases h
  | some x => cases h; rfl

theorem interpL_ok {l : List ℝ} {A : Arr Num} (h : p.interpL l = .ok A) : ∃ a : ℝ × ℝ, l = [a.1, a.2] := by
  obtain ⟨a, h1, -⟩ := bind_ok h
  exact ⟨a, splat_ok h1⟩

theorem interpL3_ok {l : List ℝ} {A : Arr Num} (h : p.interpL3 l = .ok A) : ∃ a : ℝ × ℝ, l = [a.1, a.2] := by
  obtain ⟨a, h1, -⟩ := bind_ok h
  exact interpL_ok h1

theorem interpL_pair (a : ℝ × ℝ) : p.interpL [a.1, a.2] = p.linearInterpolateT a.1 a.2 := rfl
theorem interpL3_pair (a : ℝ × ℝ) : p.interpL3 [a.1, a.2] = p.interpT3 a := rfl

theorem all_pair {a : ℝ × ℝ} {P : ℝ → Prop} : (∀ x ∈ [a.1, a.2], P x) ↔ P a.1 ∧ P a.2 := by simp

/-! ### What never fails -/

theorem marr_shape {M : List (Option Char)} {A : Arr Num} (h : A.shape = M.map (sizeM g)) :
    MArr g M A (fun c => A.get (M.map (coordM c))) := ⟨h, fun _ _ => rfl⟩

theorem logDiff_total {M : List (Option Char)} {hi lo : Arr Num} {f k : Cell → Num} (h1 : MArr g M hi f) (h2 : MArr g M lo k) :
    ∃ r, logDiff hi lo = .ok r ∧ ∃ f', MArr g M r f' := by
  obtain ⟨r, e1, e2, -⟩ := logDiff_get (hi := hi) (lo := lo) (by rw [h1.1, h2.1])
  exact ⟨r, e1, _, marr_shape (e2.trans h1.1)⟩

theorem Built.tdep_shape (hb : Built p g f2 center rotation) (hg : g.Proper) (q : ℝ) (k : Num → Num) :
    ∃ rr m f, p.ellRadius (scalar (.fin q)) = .ok rr ∧ Np.amax (map Num.abs p.xxp) = .ok m ∧ div rr (scalar m) = .ok f ∧
      (map k f).shape = [g.nx, g.ny] := by
  obtain ⟨Y, a1, a2⟩ := MArr.bop (R := ['x','y'].map some) (· / ·) hb.yyp_marr (MArr.scalar g (.fin q)) rfl
  obtain ⟨S, a3, a4⟩ := MArr.bop (R := ['x','y'].map some) (· + ·) (hb.xxp_marr.map Num.sq) (a2.map Num.sq) rfl
  obtain ⟨m, a5, -⟩ := hb.amax hg
  have a6 := a4.map Num.sqrt
  obtain ⟨f, a7, a8⟩ := MArr.bop (R := ['x','y'].map some) (· / ·) a6 (MArr.scalar g (.fin m)) rfl
  refine ⟨_, _, f, ?_, a5, a7, a8.1⟩
  have b1 : div p.yyp (scalar (.fin q)) = .ok Y := a1
  have b3 : add (map Num.sq p.xxp) (map Num.sq Y) = .ok S := a3
  simp only [Param.ellRadius, b1, b3, Py.ok_bind]

/-! ### Growing disks -/

theorem setPxt_pairs (a b c : ℝ × ℝ) :
    GrowingDisk.setPxtBody [a.1, a.2] [b.1, b.2] [c.1, c.2] p = fromPy p (GrowingDisk.setPxt p a b c) := by
  unfold GrowingDisk.setPxtBody GrowingDisk.setPxt
  simp only [all_pair, interpL3_pair]
  show (_ : Py Unit × Param) = _
  iterate 13 refine ev_step fun _ _ => ?_
  rfl

theorem setMuV_pairs (a b c : ℝ × ℝ) :
    GrowingDisk.setMuVBody [a.1, a.2] [b.1, b.2] [c.1, c.2] p = fromPy p (GrowingDisk.setMuV p a b c) := by
  unfold GrowingDisk.setMuVBody GrowingDisk.setMuV
  simp only [all_pair, interpL_pair]
  iterate 18 refine ev_step fun _ _ => ?_
  rfl

theorem setSigV_pairs (a b c d : ℝ × ℝ) :
    GrowingDisk.setSigVBody [a.1, a.2] [b.1, b.2] [c.1, c.2] [d.1, d.2] p = fromPy p (GrowingDisk.setSigV p a b c d) := by
  unfold GrowingDisk.setSigVBody GrowingDisk.setSigV
  simp only [all_pair, interpL3_pair]
  iterate 16 refine ev_step fun _ _ => ?_
  rfl

theorem setPztx_total (hb : Built p g f2 center rotation) (hg : g.Proper) {t : Arr Num} (ht : t.shape = [g.nx, g.ny]) :
    ∃ B, { p with tDep := some t }.setPztx = .ok { p with tDep := some t, logPztx := some B } ∧
      setPztxBody { p with tDep := some t } = (.ok (), { p with tDep := some t, logPztx := some B }) := by
  obtain ⟨hn, hz⟩ := hb.grid hg
  obtain ⟨B, k1, -⟩ := enrichmentBase_gives (p := { p with tDep := some t }) hb.cubeIs hg (ζ := gasMetal g)
    (by show 0 < p.zGrid.nDep; omega) (fun i _ k hk => ⟨(hz.2 i k hk).1, (hz.2 i k hk).2.1⟩) ht
  refine ⟨B, by simp only [Param.setPztx, Param.attr, Py.ok_bind, k1], ?_⟩
  exact (ev_eq k1).trans rfl

theorem setTDep_total (hb : Built p g f2 center rotation) (hg : g.Proper) (q alpha tIn tOut tMin tMax : ℝ) :
    GrowingDisk.setTDepBody q alpha tIn tOut tMin tMax p = fromPy p (GrowingDisk.setTDep p q alpha tIn tOut tMin tMax) := by
  unfold GrowingDisk.setTDepBody GrowingDisk.setTDep
  iterate 6 refine ev_step fun _ _ => ?_
  obtain ⟨rr, m, f, h1, h2, h3, h4⟩ := hb.tdep_shape hg q id
  refine ev_step fun rr' k1 => ?_
  refine ev_step fun m' k2 => ?_
  refine ev_step fun f' k3 => ?_
  cases h1.symm.trans k1
  cases h2.symm.trans k2
  cases h3.symm.trans k3
  obtain ⟨B, k4, k5⟩ := setPztx_total hb hg (t := map (GrowingDisk.clipOut (tIn ≤ tOut) (.fin tOut))
    (map (fun x => Num.fin tIn + Num.fin (tOut - tIn) * Num.rpow x (.fin alpha)) f)) h4
  rw [k4]
  exact k5

theorem setPt_total (hc : CubeIs p.cube g) (hg : g.Proper) (lmd phi : ℝ) (q : ℝ × ℝ) :
    setPtBody (some lmd) (some phi) [q.1, q.2] p = fromPy p (p.setPt lmd phi q) := by
  unfold Param.setPtBody Param.setPt
  refine object_eq.trans ?_
  beta_reduce
  refine (ev_eq (x := notNone (some lmd)) rfl).trans ?_
  refine (ev_eq (x := notNone (some phi)) rfl).trans ?_
  generalize betaAB lmd phi = ab
  obtain ⟨a, b⟩ := ab
  by_cases h : (if a > 1.0 then 1 else 0) + (if b > 1 then 1 else 0) < 1
  · exact (congrFun (if_pos h) p).trans (Eq.trans (b := fromPy p (.error .valueError)) rfl (congrArg (fromPy p) (if_pos h).symm))
  · refine (congrFun (if_neg h) p).trans (Eq.trans ?_ (congrArg (fromPy p) (if_neg h).symm))
    refine ev_step fun e0 _ => ?_
    refine ev_step fun e1 _ => ?_
    have he : MArr (bump g 't') [some 't'] p.cube.ssps.tEdges (fun c => .fin (g.t c.t)) :=
      Is1.marr (g := bump g 't') (ch := 't') (a := p.cube.ssps.tEdges) (F := g.t) hc.tEdges
    have he' := he.map (betaLogcdf a b (e0.get []) (e1.get [] - e0.get []))
    obtain ⟨hi, k1, k2⟩ := he'.upper (g := g) (by decide) (by simp)
    obtain ⟨lo, k3, k4⟩ := he'.lower (g := g) (by decide) (by simp)
    obtain ⟨r, k5, f', k6⟩ := logDiff_total k2 k4
    obtain ⟨d, k7, k8⟩ := volumeElement_marr hc hg (w := ['t']) (by decide) (by decide)
    obtain ⟨A, k9, k10⟩ := MArr.bop (R := [some 't']) (· - ·) k6 (k8.map Num.log) rfl
    have k9' : Np.sub r (map Num.log d) = .ok A := k9
    refine (ev_eq (x := unpack [q.1, q.2]) rfl).trans ?_
    refine ev_both k1 (ev_both k3 (ev_both k5 (ev_both k7 (ev_both k9' rfl))))

end PKM
