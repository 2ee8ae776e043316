import Verif.HeapParam
import Verif.HeapView

/-!
# The queries of parametric components in memory
-/

open scoped Classical

noncomputable section

namespace PKM
open Np

/-- An attribute: not set, or a reference to one of the first `n` buffers. -/
def OptAt (n : ℕ) (h : Heap) (o : Option Ptr) (a : Option (Arr Num)) : Prop :=
  match o, a with
  | none, none => True
  | some o, some a => OldAt n h o a
  | _, _ => False

/-- The parametric component `p` is stored at `hp`, in the first `n` buffers. -/
structure ParamAt (n : ℕ) (h : Heap) (hp : HParam) (p : Param) : Prop where
  cube : CubeAt n h hp.cube p.cube
  f2 : hp.f2 = p.f2
  logPt : OptAt n h hp.logPt p.logPt
  logPxt : OptAt n h hp.logPxt p.logPxt
  logPztx : OptAt n h hp.logPztx p.logPztx
  muV : OptAt n h hp.muV p.muV
  sigV : OptAt n h hp.sigV p.sigV

section
variable {n m k : ℕ} {h h' : Heap} {hp : HParam} {p : Param} {o : Ptr} {a : Arr Num}

theorem OptAt.keep {o : Option Ptr} {a : Option (Arr Num)} (ho : OptAt n h o a) (hk : Heap.Keeps m h h') (hm : n ≤ m) :
    OptAt n h' o a := by
  rcases o with _ | o <;> rcases a with _ | a
  · trivial
  · exact ho.elim
  · exact ho.elim
  · exact OldAt.keep ho hk hm

theorem ParamAt.keep (hh : ParamAt n h hp p) (hk : Heap.Keeps m h h') (hm : n ≤ m) : ParamAt n h' hp p :=
  ⟨hh.cube.keep hk hm, hh.f2, hh.logPt.keep hk hm, hh.logPxt.keep hk hm, hh.logPztx.keep hk hm, hh.muV.keep hk hm, hh.sigV.keep hk hm⟩

theorem ParamAt.up (hh : ParamAt n h hp p) (hu : Heap.Up h h') : ParamAt n h' hp p := hh.keep hu hh.cube.le

theorem attr_run {o : Option Ptr} {a : Option (Arr Num)} (ho : OptAt n h o a) :
    Run k h (HParam.attr o) (Param.attr a) (fun h' o a => h' = h ∧ Points h o a) := by
  rcases o with _ | o <;> rcases a with _ | a
  · exact Run.throw
  · exact ho.elim
  · exact ho.elim
  · exact Run.ok ⟨rfl, ho.2⟩

/-- Reading an attribute inside a function. -/
theorem Run.stepAttr {γ δ : Type} {o : Option Ptr} {a : Option (Arr Num)} {f : Ptr → H γ} {q : Arr Num → Py δ}
    {R' : Heap → γ → δ → Prop} (ho : OptAt n h o a) (h2 : ∀ o a, Points h o a → Run k h (f o) (q a) R') :
    Run k h (HParam.attr o >>= f) (Param.attr a >>= q) R' :=
  Run.bind (attr_run ho) fun h' o a _ _ hr => by
    obtain ⟨rfl, hr⟩ := hr
    exact h2 o a hr

/-- `np.moveaxis` inside a function. -/
theorem Run.stepMove {γ δ : Type} {src dst : List ℤ} {f : Ptr → H γ} {q : Arr Num → Py δ} {R' : Heap → γ → δ → Prop}
    (ho : Points h o a) (h2 : ∀ v b, v.buf = o.buf → Points h v b → Run k h (f v) (q b) R') :
    Run k h (H.moveaxis src dst o >>= f) (Np.moveaxis src dst a >>= q) R' :=
  Run.bind (Run.moveaxis src dst ho) fun h' v b _ _ hr => by
    obtain ⟨rfl, h3, hr⟩ := hr
    exact h2 v b h3 hr

theorem Run.onlyIf {R : Heap → Ptr → Arr Num → Prop} {c : Bool} {f : Ptr → H Ptr} {q : Arr Num → Py (Arr Num)} (h0 : R h o a)
    (h1 : Run k h (f o) (q a) R) : Run k h (H.onlyIf c f o) (Param.onlyIf c q a) R := by
  unfold H.onlyIf Param.onlyIf
  cases c
  · exact Run.ok h0
  · exact h1

theorem iaddNum_run (x : Num) (ho : Own k h o a) (hc : CoversBuf h o) :
    Run k h (H.iaddNum x o) (iadd a (scalar x)) (Own k) := by
  have := Run.bind (k := fun _ => (pure o : H Ptr)) (q := fun x => (.ok x : Py (Arr Num))) (R' := Own k)
    (Run.iopNum (· + ·) x ho hc) fun h' _ r _ _ hr => Run.ok hr.1
  rw [Py.bind_ret] at this
  exact this

theorem iaddNum_fresh (x : Num) (ho : Fresh k h o a) : Run k h (H.iaddNum x o) (iadd a (scalar x)) (Fresh k) := by
  have := Run.bind (k := fun _ => (pure o : H Ptr)) (q := fun x => (.ok x : Py (Arr Num))) (R' := Fresh k)
    (Run.iop (b := scalar x) (· + ·) ho) fun h' _ r _ _ hr => Run.ok hr.2.1
  rw [Py.bind_ret] at this
  exact this

theorem iaddArr_run {b : Ptr} {y : Arr Num} (ho : Fresh k h o a) (hb : Points h b y) :
    Run k h (H.iaddArr b o) (iadd a y) (Fresh k) := by
  have := Run.bind (k := fun _ => (pure o : H Ptr)) (q := fun x => (.ok x : Py (Arr Num))) (R' := Fresh k)
    (Run.iop2 (· + ·) ho hb) fun h' _ r _ _ hr => Run.ok hr.1
  rw [Py.bind_ret] at this
  exact this

theorem logDxDy_eq (hh : ParamAt n h hp p) : scalar hp.logDxDy = p.logDxDy := by
  unfold HParam.logDxDy Param.logDxDy
  rw [hh.cube.dx, hh.cube.dy]

theorem logVol_run (hh : ParamAt n h hp p) (w : PyStr) : Run h.next h (hp.logVol w) (p.logVol w) (Fresh h.next) := by
  unfold HParam.logVol Param.logVol
  refine Run.call le_rfl (constructVolumeElement_run hh.cube w) fun h1 o a u r => ?_
  exact (Run.map _ r.2).ret u.next fun _ _ _ hR => hR.mono u.next

/-- `(a.T + b).T`: a view that covers a new array. -/
theorem addT_run {b : Ptr} {y : Arr Num} (ho : Points h o a) (hb : Points h b y) :
    Run h.next h (HParam.addT o b) (Param.addT a y) (fun h' v r => Own h.next h' v r ∧ CoversBuf h' v) := by
  unfold HParam.addT Param.addT
  refine Run.stepT ho fun v _ hv => ?_
  refine Run.step2 le_rfl hv hb fun h1 o1 a1 u r => ?_
  refine (Run.coverT r.pt r.covers).mono le_rfl fun h2 w b2 _ hw => ?_
  obtain ⟨rfl, rfl, h3, h4, h5⟩ := hw
  exact ⟨⟨h3 ▸ r.1, h4⟩, h5⟩

theorem perV_run (hh : ParamAt n h hp p) (ho : Points h o a) :
    Run h.next h (hp.perV o) (do
      let d ← p.logVol ['v']
      let q ← sub (T a) d
      .ok (T q)) (Own h.next) := by
  unfold HParam.perV
  refine Run.call le_rfl (logVol_run hh _) fun h1 o1 a1 u1 r1 => ?_
  refine Run.stepT (ho.up u1) fun v _ hv => ?_
  refine Run.step2 u1.next hv r1.pt fun h2 o2 a2 u2 r2 => ?_
  refine (Run.T r2.pt).mono le_rfl fun h3 w b _ hw => ?_
  obtain ⟨rfl, rfl, h3, h4⟩ := hw
  exact ⟨h3 ▸ u1.next.trans r2.1, h4⟩

/-- `d = np.log(volume element); a += d` on an array made earlier in the same function. -/
theorem volIadd_run (hh : ParamAt n h hp p) (w : PyStr) (hk : k ≤ h.next) (ho : Fresh k h o a) :
    Run k h (do let d ← hp.logVol w; H.iaddArr d o) (do let d ← p.logVol w; iadd a d) (Fresh k) := by
  refine Run.call hk (logVol_run hh w) fun h1 o1 a1 u1 r1 => ?_
  exact iaddArr_run (ho.up u1) r1.pt

/-- `d = np.log(volume element); a = (a.T + d).T`. -/
theorem volAddT_run (hh : ParamAt n h hp p) (w : PyStr) (hk : k ≤ h.next) (ho : Points h o a) :
    Run k h (do let d ← hp.logVol w; HParam.addT o d) (do let d ← p.logVol w; Param.addT a d) (Own k) := by
  refine Run.call hk (logVol_run hh w) fun h1 o1 a1 u1 r1 => ?_
  exact (addT_run (ho.up u1) r1.pt).ret (hk.trans u1.next) fun _ _ _ hR => hR.1.mono (hk.trans u1.next)

theorem xtMass_run (hh : ParamAt n h hp p) (d : Bool) : Run h.next h (hp.xtMass d) (p.xtMass d) (Fresh h.next) := by
  unfold HParam.xtMass Param.xtMass
  refine Run.stepAttr hh.logPxt fun o a ho => ?_
  refine Run.stepOk (f := id) le_rfl ho fun h1 o1 u1 r1 => ?_
  rw [← logDxDy_eq hh]
  exact Run.onlyIf r1 (iaddNum_fresh _ r1)

theorem tMass_run (hh : ParamAt n h hp p) (d : Bool) : Run h.next h (hp.tMass d) (p.tMass d) (Fresh h.next) := by
  unfold HParam.tMass Param.tMass
  refine Run.stepAttr hh.logPt fun o a ho => ?_
  refine Run.stepOk (f := id) le_rfl ho fun h1 o1 u1 r1 => ?_
  exact Run.onlyIf r1 (volIadd_run (hh.up u1) _ u1.next r1)

theorem ztxMass_run (hh : ParamAt n h hp p) (d : Bool) : Run h.next h (hp.ztxMass d) (p.ztxMass d) (Own h.next) := by
  unfold HParam.ztxMass Param.ztxMass
  refine Run.stepAttr hh.logPztx fun o a ho => ?_
  refine Run.stepOk (f := id) le_rfl ho fun h1 o1 u1 r1 => ?_
  exact Run.onlyIf r1.own (volAddT_run (hh.up u1) _ u1.next r1.pt)

theorem logcdf_run {mu sig x : Ptr} {mu' sig' x' : Arr Num} (h1 : Points h mu mu') (h2 : Points h sig sig') (h3 : Points h x x') :
    Run h.next h (HParam.vtxMass.logcdf mu sig x) (normLogcdf mu' sig' x') (Fresh h.next) := by
  refine Run.skip (Run.read h1) fun h' y _ hy => ?_
  obtain ⟨rfl, rfl, -⟩ := hy
  refine Run.skip (Run.read h2) fun h' y _ hy => ?_
  obtain ⟨rfl, rfl, -⟩ := hy
  refine Run.skip (Run.read h3) fun h' y _ hy => ?_
  obtain ⟨rfl, rfl, -⟩ := hy
  exact (Run.new _ le_rfl).mono le_rfl fun _ _ _ _ hr => hr.2.2.2.1

theorem vtxMass_run (hh : ParamAt n h hp p) (d : Bool) : Run h.next h (hp.vtxMass d) (p.vtxMass d) (Own h.next) := by
  unfold HParam.vtxMass Param.vtxMass
  refine Run.stepIx hh.cube.vEdg.2 fun v b _ hb => ?_
  refine Run.stepAttr hh.muV fun mu mu' hmu => ?_
  refine Run.stepAttr hh.sigV fun sig sig' hsig => ?_
  refine Run.stepIx hb fun lo lo' _ hlo => ?_
  refine Run.call le_rfl (logcdf_run hmu hsig hlo) fun h1 o1 a1 u1 r1 => ?_
  refine Run.stepIx (hb.up u1) fun hi hi' _ hhi => ?_
  refine Run.call u1.next (logcdf_run (hmu.up u1) (hsig.up u1) hhi) fun h2 o2 a2 u2 r2 => ?_
  have U2 := u1.trans u2
  refine Run.step2 U2.next r2.pt (r1.pt.up u2) fun h3 o3 a3 u3 r3 => ?_
  have U3 := U2.trans u3
  exact Run.onlyIf (r3.own.mono U2.next) ((perV_run (hh.up U3) r3.pt).own U3.next)

theorem txMass_run (hh : ParamAt n h hp p) (d : Bool) : Run h.next h (hp.txMass d) (p.txMass d) (Own h.next) := by
  unfold HParam.txMass Param.txMass
  refine Run.call le_rfl (xtMass_run hh d) fun h1 o1 a1 u1 r1 => ?_
  refine Run.call u1.next (tMass_run (hh.up u1) d) fun h2 o2 a2 u2 r2 => ?_
  have U2 := u1.trans u2
  refine Run.step2 U2.next (r1.pt.up u2) r2.pt fun h3 o3 a3 u3 r3 => ?_
  refine (Run.moveaxis _ _ r3.pt).mono le_rfl fun h4 v b _ hv => ?_
  obtain ⟨rfl, h4, h5⟩ := hv
  exact ⟨h4 ▸ U2.next.trans r3.1, h5⟩

theorem txzMass_run (hh : ParamAt n h hp p) (d : Bool) : Run h.next h (hp.txzMass d) (p.txzMass d) (Fresh h.next) := by
  unfold HParam.txzMass Param.txzMass
  refine Run.call le_rfl (txMass_run hh d) fun h1 o1 a1 u1 r1 => ?_
  refine Run.call u1.next (ztxMass_run (hh.up u1) d) fun h2 o2 a2 u2 r2 => ?_
  have U2 := u1.trans u2
  refine Run.stepIx (r1.2.up u2) fun v b _ hb => Run.stepMove r2.2 fun v' b' _ hb' => ?_
  exact (Run.op2 _ hb hb').ret U2.next fun _ _ _ hR => hR.mono U2.next

/-- The light weighting at the end of `_get_log_p_txz` and `_get_log_p_tvxz`. -/
theorem lightWeight_run (hh : ParamAt n h hp p) (hk : k ≤ h.next) (ix : List Ix) {m r : Ptr} {m' r' : Arr Num} (hm : Points h m m')
    (hr : Points h r r') :
    Run k h (do
      let l ← H.getitem ix hp.cube.lightWeights
      let l ← H.map Num.log l
      let ml ← H.op2 add m l
      let norm ← H.op1 (fun a => .ok (logsumexpAll a)) ml
      let r ← H.op2 add r l
      H.op2 sub r norm) (do
      let l ← getitem ix p.cube.ssps.lightWeights
      let l := map Num.log l
      let ml ← add m' l
      let r ← add r' l
      sub r (logsumexpAll ml)) (Fresh k) := by
  refine Run.stepIx hh.cube.lightWeights.2 fun v b _ hb => ?_
  refine Run.stepMap hk hb fun h1 l u1 hl => ?_
  refine Run.step2 (hk.trans u1.next) (hm.up u1) hl.pt fun h2 o2 a2 u2 r2 => ?_
  have U2 := u1.trans u2
  refine Run.stepOk (f := logsumexpAll) (hk.trans U2.next) r2.pt fun h3 o3 u3 r3 => ?_
  have U3 := U2.trans u3
  refine Run.step2 (hk.trans U3.next) (hr.up U3) (hl.pt.up (u2.trans u3)) fun h4 o4 a4 u4 r4 => ?_
  have U4 := U3.trans u4
  exact (Run.op2 _ r4.pt (r3.pt.up u4)).ret (hk.trans U4.next) fun _ _ _ hR => hR.mono (hk.trans U4.next)

theorem txz_run (hh : ParamAt n h hp p) (d lw : Bool) : Run h.next h (hp.txz d lw) (p.txz d lw) (Fresh h.next) := by
  unfold HParam.txz Param.txz
  refine Run.call le_rfl (txzMass_run hh d) fun h1 o1 a1 u1 r1 => ?_
  cases lw
  · exact Run.ok r1
  · simp only [if_true]
    refine Run.call u1.next (txzMass_run (hh.up u1) false) fun h2 o2 a2 u2 r2 => ?_
    have U2 := u1.trans u2
    exact lightWeight_run (hh.up U2) U2.next _ r2.pt (r1.pt.up u2)

theorem tvxzMass_run (hh : ParamAt n h hp p) (d : Bool) : Run h.next h (hp.tvxzMass d) (p.tvxzMass d) (Fresh h.next) := by
  unfold HParam.tvxzMass Param.tvxzMass
  refine Run.call le_rfl (txzMass_run hh d) fun h1 o1 a1 u1 r1 => ?_
  refine Run.call u1.next (vtxMass_run (hh.up u1) d) fun h2 o2 a2 u2 r2 => ?_
  have U2 := u1.trans u2
  refine Run.stepIx r2.2 fun v b _ hb => Run.stepMove hb fun v' b' _ hb' => ?_
  refine Run.stepIx (r1.pt.up u2) fun v2 b2 _ hb2 => ?_
  exact (Run.op2 _ hb' hb2).ret U2.next fun _ _ _ hR => hR.mono U2.next

theorem tvxz_run (hh : ParamAt n h hp p) (d lw : Bool) : Run h.next h (hp.tvxz d lw) (p.tvxz d lw) (Fresh h.next) := by
  unfold HParam.tvxz Param.tvxz
  refine Run.call le_rfl (tvxzMass_run hh d) fun h1 o1 a1 u1 r1 => ?_
  cases lw
  · exact Run.ok r1
  · simp only [if_true]
    refine Run.call u1.next (tvxzMass_run (hh.up u1) false) fun h2 o2 a2 u2 r2 => ?_
    have U2 := u1.trans u2
    exact lightWeight_run (hh.up U2) U2.next _ r2.pt (r1.pt.up u2)

/-- `+= log dx dy` under a condition, then one more numpy call. -/
theorem dxdyThen_run (hh : ParamAt n h hp p) (hn : n ≤ k) (ho : Fresh k h o a) (hk : k ≤ h.next) (d : Bool)
    (f : Arr Num → Py (Arr Num)) :
    Run k h (do
      let a ← H.onlyIf d (H.iaddNum hp.logDxDy) o
      H.op1 f a) (do
      let a ← Param.onlyIf d (fun a => iadd a p.logDxDy) a
      f a) (Fresh k) := by
  rw [← logDxDy_eq hh]
  refine Run.bind (Run.onlyIf (R := Fresh k) ho (iaddNum_fresh _ ho)) fun h1 o1 a1 _ hk1 r1 => ?_
  have hle : k ≤ h1.next := hk.trans hk1.next
  exact (Run.op1 f r1.pt).ret hle fun _ _ _ hR => hR.mono hle

/-- `+= log volume` under a condition, then one more numpy call. -/
theorem volThen_run (hh : ParamAt n h hp p) (ho : Fresh k h o a) (hk : k ≤ h.next) (d : Bool) (w : PyStr)
    (f : Arr Num → Py (Arr Num)) :
    Run k h (do
      let a ← H.onlyIf d (fun a => do let d ← hp.logVol w; H.iaddArr d a) o
      H.op1 f a) (do
      let a ← Param.onlyIf d (fun a => do let d ← p.logVol w; iadd a d) a
      f a) (Fresh k) := by
  refine Run.bind (Run.onlyIf (R := Fresh k) ho (volIadd_run hh w hk ho)) fun h1 o1 a1 _ hk1 r1 => ?_
  have hle : k ≤ h1.next := hk.trans hk1.next
  exact (Run.op1 f r1.pt).ret hle fun _ _ _ hR => hR.mono hle

/-- `(a.T + log volume).T` under a condition, then one more numpy call. -/
theorem volTThen_run (hh : ParamAt n h hp p) (ho : Own k h o a) (hk : k ≤ h.next) (d : Bool) (w : PyStr)
    (f : Arr Num → Py (Arr Num)) :
    Run k h (do
      let a ← H.onlyIf d (fun a => do let d ← hp.logVol w; HParam.addT a d) o
      H.op1 f a) (do
      let a ← Param.onlyIf d (fun a => do let d ← p.logVol w; Param.addT a d) a
      f a) (Fresh k) := by
  refine Run.bind (Run.onlyIf (R := Own k) ho (volAddT_run hh w hk ho.2)) fun h1 o1 a1 _ hk1 r1 => ?_
  have hle : k ≤ h1.next := hk.trans hk1.next
  exact (Run.op1 f r1.2).ret hle fun _ _ _ hR => hR.mono hle

theorem tz_run (hh : ParamAt n h hp p) (d lw : Bool) : Run h.next h (hp.tz d lw) (p.tz d lw) (Fresh h.next) := by
  unfold HParam.tz Param.tz
  refine Run.call le_rfl (txz_run hh d lw) fun h1 o1 a1 u1 r1 => ?_
  exact dxdyThen_run (hh.up u1) hh.cube.le r1 u1.next d _

theorem t_run (hh : ParamAt n h hp p) (d lw : Bool) : Run h.next h (hp.t d lw) (p.t d lw) (Fresh h.next) := by
  unfold HParam.t Param.t
  cases lw
  · exact tMass_run hh d
  · simp only [if_true]
    refine Run.call le_rfl (tz_run hh true true) fun h1 o1 a1 u1 r1 => ?_
    refine Run.call u1.next (logVol_run (hh.up u1) _) fun h2 o2 a2 u2 r2 => ?_
    have U2 := u1.trans u2
    refine Run.step2 U2.next (r1.pt.up u2) r2.pt fun h3 o3 a3 u3 r3 => ?_
    have U3 := U2.trans u3
    refine Run.step1 U3.next r3.pt fun h4 o4 a4 u4 r4 => ?_
    have U4 := U3.trans u4
    have r4' := r4.mono U3.next
    exact Run.onlyIf r4' (volIadd_run (hh.up U4) _ U4.next r4')

theorem tx_run (hh : ParamAt n h hp p) (d lw : Bool) : Run h.next h (hp.tx d lw) (p.tx d lw) (Own h.next) := by
  unfold HParam.tx Param.tx
  cases lw
  · exact txMass_run hh d
  · simp only [if_true]
    refine Run.call le_rfl (txz_run hh d true) fun h1 o1 a1 u1 r1 => ?_
    exact (volThen_run (hh.up u1) r1 u1.next d _ _).mono le_rfl fun _ _ _ _ hR => hR.own

theorem xt_run (hh : ParamAt n h hp p) (d lw : Bool) : Run h.next h (hp.xt d lw) (p.xt d lw) (Own h.next) := by
  unfold HParam.xt Param.xt
  cases lw
  · exact (xtMass_run hh d).mono le_rfl fun _ _ _ _ hR => hR.own
  · simp only [if_true]
    refine Run.call le_rfl (txz_run hh true true) fun h1 o1 a1 u1 r1 => ?_
    refine Run.call u1.next (logVol_run (hh.up u1) _) fun h2 o2 a2 u2 r2 => ?_
    have U2 := u1.trans u2
    refine Run.step2 U2.next (r1.pt.up u2) r2.pt fun h3 o3 a3 u3 r3 => ?_
    have U3 := U2.trans u3
    refine Run.step1 U3.next r3.pt fun h4 o4 a4 u4 r4 => ?_
    have U4 := U3.trans u4
    refine Run.call U4.next (t_run (hh.up U4) true true) fun h5 o5 a5 u5 r5 => ?_
    have U5 := U4.trans u5
    refine Run.stepT (r4.pt.up u5) fun v _ hv => ?_
    refine Run.step2 U5.next hv r5.pt fun h6 o6 a6 u6 r6 => ?_
    have U6 := U5.trans u6
    refine Run.skip (Run.coverT r6.pt r6.covers) fun h7 v7 _ hv7 => ?_
    obtain ⟨-, rfl, b7, p7, c7⟩ := hv7
    refine Run.bind (Run.coverMove p7 c7) fun h8 v8 b8 _ _ hv8 => ?_
    obtain ⟨rfl, e8, p8, c8⟩ := hv8
    have own : Own h.next h8 v8 b8 := ⟨by rw [e8, b7]; exact U5.next.trans r6.1, p8⟩
    rw [← logDxDy_eq hh]
    exact Run.onlyIf own (iaddNum_run _ own c8)

theorem vtx_run (hh : ParamAt n h hp p) (d lw : Bool) : Run h.next h (hp.vtx d lw) (p.vtx d lw) (Own h.next) := by
  unfold HParam.vtx Param.vtx
  cases lw
  · exact vtxMass_run hh d
  · simp only [if_true]
    refine Run.call le_rfl (tvxz_run hh false true) fun h1 o1 a1 u1 r1 => ?_
    refine Run.step1 u1.next r1.pt fun h2 o2 a2 u2 r2 => ?_
    have U2 := u1.trans u2
    refine Run.step1 U2.next r2.pt fun h3 o3 a3 u3 r3 => ?_
    have U3 := U2.trans u3
    refine Run.stepIx r3.pt fun v b _ hb => ?_
    refine Run.step2 U3.next (r2.pt.up u3) hb fun h4 o4 a4 u4 r4 => ?_
    have U4 := U3.trans u4
    refine Run.stepMove r4.pt fun v' b' e hb' => ?_
    exact Run.onlyIf ⟨by rw [e]; exact U3.next.trans r4.1, hb'⟩ ((perV_run (hh.up U4) hb').own U4.next)

theorem ztx_run (hh : ParamAt n h hp p) (d lw : Bool) : Run h.next h (hp.ztx d lw) (p.ztx d lw) (Own h.next) := by
  unfold HParam.ztx Param.ztx
  cases lw
  · exact ztxMass_run hh d
  · simp only [if_true]
    refine Run.call le_rfl (txz_run hh true true) fun h1 o1 a1 u1 r1 => ?_
    refine Run.call u1.next (logVol_run (hh.up u1) _) fun h2 o2 a2 u2 r2 => ?_
    have U2 := u1.trans u2
    refine Run.step2 U2.next (r1.pt.up u2) r2.pt fun h3 o3 a3 u3 r3 => ?_
    have U3 := U2.trans u3
    refine Run.step1 U3.next r3.pt fun h4 o4 a4 u4 r4 => ?_
    have U4 := U3.trans u4
    refine Run.stepT (r1.pt.up (u2.trans (u3.trans u4))) fun v _ hv => Run.stepT r4.pt fun v' _ hv' => ?_
    refine Run.step2 U4.next hv hv' fun h5 o5 a5 u5 r5 => ?_
    have U5 := U4.trans u5
    refine Run.stepT r5.pt fun v5 e5 hv5 => ?_
    refine Run.stepMove hv5 fun v6 b6 e6 hv6 => ?_
    exact Run.onlyIf ⟨by rw [e6, e5]; exact U4.next.trans r5.1, hv6⟩ (volAddT_run (hh.up U5) _ U5.next hv6)

theorem tvx_run (hh : ParamAt n h hp p) (d lw : Bool) : Run h.next h (hp.tvx d lw) (p.tvx d lw) (Fresh h.next) := by
  unfold HParam.tvx Param.tvx
  cases lw
  · simp only [Bool.false_eq_true, if_false]
    refine Run.call le_rfl (txMass_run hh d) fun h1 o1 a1 u1 r1 => ?_
    refine Run.call u1.next (vtxMass_run (hh.up u1) d) fun h2 o2 a2 u2 r2 => ?_
    have U2 := u1.trans u2
    refine Run.stepIx (r1.2.up u2) fun v b _ hb => Run.stepMove r2.2 fun v' b' _ hb' => ?_
    exact (Run.op2 _ hb hb').ret U2.next fun _ _ _ hR => hR.mono U2.next
  · simp only [if_true]
    refine Run.call le_rfl (tvxz_run hh d true) fun h1 o1 a1 u1 r1 => ?_
    exact volThen_run (hh.up u1) r1 u1.next d _ _

theorem tv_run (hh : ParamAt n h hp p) (d lw : Bool) : Run h.next h (hp.tv d lw) (p.tv d lw) (Fresh h.next) := by
  unfold HParam.tv Param.tv
  refine Run.call le_rfl (tvx_run hh d lw) fun h1 o1 a1 u1 r1 => ?_
  exact dxdyThen_run (hh.up u1) hh.cube.le r1 u1.next d _

theorem tvz_run (hh : ParamAt n h hp p) (d lw : Bool) : Run h.next h (hp.tvz d lw) (p.tvz d lw) (Fresh h.next) := by
  unfold HParam.tvz Param.tvz
  refine Run.call le_rfl (tvxz_run hh d lw) fun h1 o1 a1 u1 r1 => ?_
  exact dxdyThen_run (hh.up u1) hh.cube.le r1 u1.next d _

theorem v_run (hh : ParamAt n h hp p) (d lw : Bool) : Run h.next h (hp.v d lw) (p.v d lw) (Fresh h.next) := by
  unfold HParam.v Param.v
  refine Run.call le_rfl (tvx_run hh d lw) fun h1 o1 a1 u1 r1 => ?_
  refine Run.bind (R := Own h.next) (Run.onlyIf r1.own ?_) fun h2 o2 a2 _ hk2 r2 => ?_
  · refine Run.call u1.next (logVol_run (hh.up u1) _) fun h2 o2 a2 u2 r2 => ?_
    have U2 := u1.trans u2
    refine Run.call U2.next (addT_run (r1.pt.up u2) r2.pt) fun h3 o3 a3 u3 r3 => ?_
    rw [← logDxDy_eq hh]
    exact iaddNum_run _ (r3.1.mono U2.next) r3.2
  · have hle : h.next ≤ h2.next := u1.next.trans hk2.next
    exact (Run.op1 _ r2.2).ret hle fun _ _ _ hR => hR.mono hle

theorem vx_run (hh : ParamAt n h hp p) (d lw : Bool) : Run h.next h (hp.vx d lw) (p.vx d lw) (Fresh h.next) := by
  unfold HParam.vx Param.vx
  refine Run.call le_rfl (tvx_run hh d lw) fun h1 o1 a1 u1 r1 => ?_
  exact volTThen_run (hh.up u1) r1.own u1.next d _ _

theorem vxz_run (hh : ParamAt n h hp p) (d lw : Bool) : Run h.next h (hp.vxz d lw) (p.vxz d lw) (Fresh h.next) := by
  unfold HParam.vxz Param.vxz
  refine Run.call le_rfl (tvxz_run hh d lw) fun h1 o1 a1 u1 r1 => ?_
  exact volTThen_run (hh.up u1) r1.own u1.next d _ _

theorem vz_run (hh : ParamAt n h hp p) (d lw : Bool) : Run h.next h (hp.vz d lw) (p.vz d lw) (Fresh h.next) := by
  unfold HParam.vz Param.vz
  refine Run.call le_rfl (vxz_run hh d lw) fun h1 o1 a1 u1 r1 => ?_
  exact dxdyThen_run (hh.up u1) hh.cube.le r1 u1.next d _

theorem x_run (hh : ParamAt n h hp p) (d lw : Bool) : Run h.next h (hp.x d lw) (p.x d lw) (Fresh h.next) := by
  unfold HParam.x Param.x
  cases lw
  · simp only [Bool.false_eq_true, if_false]
    refine Run.call le_rfl (xtMass_run hh d) fun h1 o1 a1 u1 r1 => ?_
    refine Run.call u1.next (tMass_run (hh.up u1) false) fun h2 o2 a2 u2 r2 => ?_
    have U2 := u1.trans u2
    refine Run.step2 U2.next (r1.pt.up u2) r2.pt fun h3 o3 a3 u3 r3 => ?_
    have U3 := U2.trans u3
    exact (Run.op1 _ r3.pt).ret U3.next fun _ _ _ hR => hR.mono U3.next
  · simp only [if_true]
    refine Run.call le_rfl (txz_run hh d true) fun h1 o1 a1 u1 r1 => ?_
    refine Run.bind (R := Fresh h.next) (Run.onlyIf r1 ?_) fun h2 o2 a2 _ hk2 r2 => ?_
    · refine Run.call u1.next (logVol_run (hh.up u1) _) fun h2 o2 a2 u2 r2 => ?_
      refine Run.stepIx r2.pt fun v b _ hb => ?_
      exact iaddArr_run (r1.up u2) hb
    · have hle : h.next ≤ h2.next := u1.next.trans hk2.next
      exact (Run.op1 _ r2.pt).ret hle fun _ _ _ hR => hR.mono hle

theorem xz_run (hh : ParamAt n h hp p) (d lw : Bool) : Run h.next h (hp.xz d lw) (p.xz d lw) (Fresh h.next) := by
  unfold HParam.xz Param.xz
  refine Run.call le_rfl (txz_run hh d lw) fun h1 o1 a1 u1 r1 => ?_
  exact volTThen_run (hh.up u1) r1.own u1.next d _ _

theorem z_run (hh : ParamAt n h hp p) (d lw : Bool) : Run h.next h (hp.z d lw) (p.z d lw) (Fresh h.next) := by
  unfold HParam.z Param.z
  refine Run.call le_rfl (tz_run hh d lw) fun h1 o1 a1 u1 r1 => ?_
  exact volTThen_run (hh.up u1) r1.own u1.next d _ _

theorem paramLogP_matched (n : ℕ) (hp : HParam) (p : Param) (w : PyStr) :
    Matched (fun h => ParamAt n h hp p) (hp.logP w) (p.logP w) := by
  have F {f : Bool → Bool → H Ptr} {f' : Bool → Bool → Py (Arr Num)}
      (hf : ∀ {h : Heap}, ParamAt n h hp p → ∀ d lw, Run h.next h (f d lw) (f' d lw) (Fresh h.next)) :
      Matched (fun h => ParamAt n h hp p) (some f) (some f') :=
    .inr ⟨_, _, rfl, rfl, fun d lw h hi => (hf hi d lw).ret le_rfl fun _ _ _ hR => hR.own⟩
  have O {f : Bool → Bool → H Ptr} {f' : Bool → Bool → Py (Arr Num)}
      (hf : ∀ {h : Heap}, ParamAt n h hp p → ∀ d lw, Run h.next h (f d lw) (f' d lw) (Own h.next)) :
      Matched (fun h => ParamAt n h hp p) (some f) (some f') :=
    .inr ⟨_, _, rfl, rfl, fun d lw h hi => hf hi d lw⟩
  unfold HParam.logP Param.logP
  refine .ite _ (F t_run) (.ite _ (F tv_run) (.ite _ (O tx_run) (.ite _ (F tz_run) (.ite _ (F tvx_run) (.ite _ (F tvz_run)
    (.ite _ (F txz_run) (.ite _ (F tvxz_run) (.ite _ (F v_run) (.ite _ (F vx_run) (.ite _ (F vz_run) (.ite _ (F vxz_run)
    (.ite _ (F x_run) (.ite _ (F xz_run) (.ite _ (F z_run) (.ite _ (O xt_run) (.ite _ (O vtx_run) (.ite _ (O ztx_run)
    (.inl ⟨rfl, rfl⟩))))))))))))))))))

theorem paramP_sound (n : ℕ) (hp : HParam) (p : Param) : MemSound n (fun _ => False) (fun h => ParamAt n h hp p)
    ⟨hp.cube, hp.logP, fun _ => none, fun _ => none⟩ ⟨p.cube, p.logP, fun _ => none, fun _ => none⟩ where
  cube h hi := hi.cube
  keep h h' hi hk := hi.keep hk le_rfl
  mean w := .inl ⟨rfl, rfl⟩
  ncm w := .inl ⟨rfl, rfl⟩
  logP w := paramLogP_matched n hp p w

theorem paramGetP_run (hh : ParamAt n h hp p) (w : PyStr) (d lw : Bool) :
    Run h.next h (hp.getP w d lw) (p.getP w d lw) (Own h.next) := getP_run (paramP_sound n hp p) hh w d lw

/-! ### Moments -/

theorem val_broadcastTo (o : Ptr) (s : List ℕ) :
    h.val ⟨o.buf, some (s, fun i =>
      let j := bproj (h.val o).shape i
      match o.view with
      | none => j
      | some (_, f) => f j)⟩ = ⟨s, fun i => (h.val o).get (bproj (h.val o).shape i)⟩ := by
  unfold Heap.val
  rcases o with ⟨b, _ | ⟨t, f⟩⟩ <;> rfl

theorem Run.broadcastTo (s : List ℕ) (ho : Points h o a) :
    Run k h (H.broadcastTo s o) (Np.broadcastTo s a) (fun h' v r => h' = h ∧ v.buf = o.buf ∧ Points h v r) := by
  obtain ⟨h1, rfl⟩ := ho
  have e : H.broadcastTo s o h = match Np.broadcastTo s (h.val o) with
      | .ok _ => (.ok ⟨o.buf, some (s, fun i =>
          let j := bproj (h.val o).shape i
          match o.view with
          | none => j
          | some (_, f) => f j)⟩, h)
      | .error e => (.error e, h) := by
    cases hs : Np.broadcastTo s (h.val o)
    · simp [H.broadcastTo, Bind.bind, Pure.pure, H.read, H.lift, hs]
    · simp only [H.broadcastTo, Bind.bind, Pure.pure, H.read, H.lift, hs]
      rfl
  unfold Run
  rw [e]
  cases hs : Np.broadcastTo s (h.val o) with
  | error e => exact ⟨.refl _ _, rfl⟩
  | ok r =>
    refine ⟨.refl _ _, rfl, rfl, h1, ?_⟩
    rw [val_broadcastTo]
    unfold Np.broadcastTo at hs
    split at hs
    · split_ifs at hs
      · cases hs; rfl
    · cases hs

/-- Same buffer. -/
theorem spreadZ_run (hh : ParamAt n h hp p) (ho : Points h o a) :
    Run k h (hp.spreadZ o) (p.spreadZ a) (fun h' v r => h' = h ∧ v.buf = o.buf ∧ Points h v r) := by
  unfold HParam.spreadZ Param.spreadZ
  refine Run.skip (Run.read hh.cube.deltaZ.2) fun h' x _ hx => ?_
  obtain ⟨rfl, rfl, -⟩ := hx
  refine Run.skip (Run.read ho) fun h' x _ hx => ?_
  obtain ⟨rfl, rfl, -⟩ := hx
  refine Run.bind (Run.broadcastTo _ ho) fun h2 v b _ _ hv => ?_
  obtain ⟨rfl, e1, p1⟩ := hv
  refine (Run.moveaxis _ _ p1).mono le_rfl fun h3 v' b' _ hv' => ?_
  obtain ⟨rfl, e2, p2⟩ := hv'
  exact ⟨rfl, e2.trans e1, p2⟩

theorem centralVtx_run (hh : ParamAt n h hp p) (j : ℕ) : Run h.next h (hp.centralVtx j) (p.centralVtx j) (Own h.next) := by
  unfold HParam.centralVtx Param.centralVtx HParam.fact2 Param.fact2
  rw [hh.f2]
  refine Run.stepAttr hh.sigV fun s s' hs => ?_
  split_ifs
  · exact (Run.map _ hs).ret le_rfl fun _ _ _ hR => hR.own
  · exact (Run.map _ hs).ret le_rfl fun _ _ _ hR => hR.own
  · exact (Run.op1 (fun s => .ok (full s.shape (.fin 0))) hs).ret le_rfl fun _ _ _ hR => hR.own

theorem centralVtxz_run (hh : ParamAt n h hp p) (j : ℕ) : Run h.next h (hp.centralVtxz j) (p.centralVtxz j) (Own h.next) := by
  unfold HParam.centralVtxz Param.centralVtxz
  refine Run.call le_rfl (centralVtx_run hh j) fun h1 o1 a1 u1 r1 => ?_
  refine (spreadZ_run (hh.up u1) r1.2).mono le_rfl fun h2 v b _ hv => ?_
  obtain ⟨rfl, e, pv⟩ := hv
  exact ⟨e ▸ r1.1, pv⟩

/-- Found in the component's own array of mean velocities. -/
def InMu (hp : HParam) (o : Ptr) : Prop := ∃ m, hp.muV = some m ∧ o.buf = m.buf

theorem meanVtx_in (hh : ParamAt n h hp p) (lw : Bool) :
    Run k h (hp.meanVtx lw) (p.meanVtx lw) (fun h' o a => h' = h ∧ Points h o a ∧ InMu hp o) := by
  unfold HParam.meanVtx Param.meanVtx InMu
  have := hh.muV
  rcases hm : hp.muV with _ | m <;> rcases ha : p.muV with _ | a <;> rw [hm, ha] at this
  · exact Run.throw
  · exact this.elim
  · exact this.elim
  · exact Run.ok ⟨rfl, this.2, m, rfl, rfl⟩

theorem meanVtxz_in (hh : ParamAt n h hp p) (lw : Bool) :
    Run k h (hp.meanVtxz lw) (p.meanVtxz lw) (fun h' o a => h' = h ∧ Points h o a ∧ InMu hp o) := by
  unfold HParam.meanVtxz Param.meanVtxz
  refine Run.bind (meanVtx_in hh lw) fun h1 o1 a1 _ _ r1 => ?_
  obtain ⟨rfl, r1, m, r2, r3⟩ := r1
  exact (spreadZ_run hh r1).mono le_rfl fun _ _ _ _ hv => ⟨hv.1, hv.2.2, m, r2, hv.2.1.trans r3⟩

theorem meanVtx_run (hh : ParamAt n h hp p) (lw : Bool) : Run k h (hp.meanVtx lw) (p.meanVtx lw) (fun h' o a => h' = h ∧ Points h o a) :=
  (meanVtx_in hh lw).mono le_rfl fun _ _ _ _ hR => ⟨hR.1, hR.2.1⟩

theorem meanVtxz_run (hh : ParamAt n h hp p) (lw : Bool) :
    Run k h (hp.meanVtxz lw) (p.meanVtxz lw) (fun h' o a => h' = h ∧ Points h o a) :=
  (meanVtxz_in hh lw).mono le_rfl fun _ _ _ _ hR => ⟨hR.1, hR.2.1⟩

/-- All the objects of a list. -/
theorem each_run {f : ℕ → H Ptr} {f' : ℕ → Py (Arr Num)} (I : Heap → Prop) (hI : ∀ h h', I h → Heap.Up h h' → I h')
    (hf : ∀ j h, I h → Run h.next h (f j) (f' j) (Own h.next)) (l : List ℕ) : ∀ (h : Heap), I h →
    Run h.next h (H.each f l) (l.mapM f') (fun h' os as => List.Forall₂ (Points h') os as) := by
  induction l with
  | nil => intro h _; exact Run.ok .nil
  | cons j l ih =>
    intro h hi
    rw [List.mapM_cons]
    unfold H.each
    refine Run.call le_rfl (hf j h hi) fun h1 o1 a1 u1 r1 => ?_
    refine Run.bind (R := fun h' os as => List.Forall₂ (Points h') os as ∧ Heap.Up h1 h') ((ih h1 (hI _ _ hi u1)).mono u1.next
      fun h' _ _ hk hR => ⟨hR, hk⟩) fun h2 os as _ _ r2 => ?_
    exact Run.ok (.cons (r1.2.up r2.2) r2.1)

theorem stackN_run {l : List Ptr} {l' : List (Arr Num)} (hl : List.Forall₂ (Points h) l l') :
    Run h.next h (H.stackN l) (stack l') (Fresh h.next) := by
  have e : l.map h.val = l' := by
    induction hl with
    | nil => rfl
    | cons h1 _ ih => simp [h1.2, ih]
  unfold H.stackN Run
  beta_reduce
  rw [e]
  exact (Run.new (stack l') le_rfl).mono le_rfl fun _ _ _ _ hr => hr.2.2.2.1

theorem tabulate_run {f : ℕ → H Ptr} {f' : ℕ → Py (Arr Num)} (hf : ∀ j h, ParamAt n h hp p → Run h.next h (f j) (f' j) (Own h.next))
    (hh : ParamAt n h hp p) (j : ℕ) : Run h.next h (HParam.tabulate f j) (Param.tabulate f' j) (Fresh h.next) := by
  unfold HParam.tabulate Param.tabulate
  refine Run.call le_rfl (each_run (fun h => ParamAt n h hp p) (fun _ _ hi hu => hi.up hu) hf _ h hh) fun h1 o1 a1 u1 r1 => ?_
  exact (stackN_run r1).ret u1.next fun _ _ _ hR => hR.mono u1.next

theorem momentV_run (hh : ParamAt n h hp p) (axes : List ℤ) (zIn : Bool) {pi mu : Ptr} {pi' mu' : Arr Num} (hpi : Points h pi pi') (j : ℕ)
    (hmu : Points h mu mu') (lw : Bool) :
    Run h.next h (hp.momentV axes zIn pi j mu lw) (p.momentV axes zIn pi' j mu' lw) (Fresh h.next) := by
  unfold HParam.momentV Param.momentV
  have he : Run h.next h (if zIn then hp.meanVtxz lw else hp.meanVtx lw : H Ptr) (if zIn then p.meanVtxz lw else p.meanVtx lw : Py (Arr Num))
      (fun h' o a => h' = h ∧ Points h o a) := by
    cases zIn
    · exact meanVtx_run hh lw
    · exact meanVtxz_run hh lw
  refine Run.bind he fun h1 e e' _ _ r1 => ?_
  obtain ⟨rfl, r1⟩ := r1
  refine Run.skip (Run.read r1) fun h' x _ hx => ?_
  obtain ⟨rfl, rfl, -⟩ := hx
  refine Run.bind (R := fun h'' a b => h'' = h' ∧ a = b) (Run.lift fun _ _ => ⟨rfl, rfl⟩) fun h2 b b' _ _ hb => ?_
  obtain ⟨rfl, rfl⟩ := hb
  refine Run.step2 le_rfl r1 hmu fun h3 o3 a3 u3 r3 => ?_
  refine Run.stepIx r3.pt fun v4 b4 _ r4 => Run.stepIx (hpi.up u3) fun v5 b5 _ r5 => ?_
  have ht : Run h3.next h3 (HParam.tabulate (if zIn then hp.centralVtxz else hp.centralVtx) j)
      (Param.tabulate (if zIn then p.centralVtxz else p.centralVtx) j) (Fresh h3.next) := by
    refine tabulate_run (fun j h hh => ?_) (hh.up u3) j
    cases zIn
    · exact centralVtx_run hh j
    · exact centralVtxz_run hh j
  refine Run.call u3.next ht fun h6 o6 a6 u6 r6 => ?_
  have U6 := u3.trans u6
  refine Run.stepMove r6.pt fun v7 b7 _ r7 => ?_
  refine Run.step1 U6.next (r4.up u6) fun h8 o8 a8 u8 r8 => ?_
  have U8 := U6.trans u8
  refine Run.step2 U8.next r8.pt (r7.up u8) fun h9 o9 a9 u9 r9 => ?_
  have U9 := U8.trans u9
  refine Run.step2 U9.next r9.pt (r5.up (u6.trans (u8.trans u9))) fun h10 o10 a10 u10 r10 => ?_
  have U10 := U9.trans u10
  refine Run.step1 U10.next r10.pt fun h11 o11 a11 u11 r11 => ?_
  have U11 := U10.trans u11
  refine Run.step1 (f := fun x => mul (vec (j + 1) (fun k => .fin (Nat.choose j k))) x) U11.next r11.pt fun h12 o12 a12 u12 r12 => ?_
  have U12 := U11.trans u12
  exact (Run.op1 _ r12.pt).ret U12.next fun _ _ _ hR => hR.mono U12.next

theorem ncmVtx_run (hh : ParamAt n h hp p) (j : ℕ) {mu : Ptr} {mu' : Arr Num} (hmu : Points h mu mu') (lw : Bool) :
    Run h.next h (hp.ncmVtx j mu lw) (p.ncmVtx j mu' lw) (Own h.next) := by
  unfold HParam.ncmVtx Param.ncmVtx
  refine Run.call le_rfl (constructVolumeElement_run hh.cube _) fun h1 o1 a1 u1 r1 => ?_
  refine Run.stepOk (f := fun d => full d.shape (.fin 1)) u1.next r1.2 fun h2 o2 u2 r2 => ?_
  have U2 := u1.trans u2
  exact (momentV_run (hh.up U2) _ _ r2.pt j (hmu.up U2) lw).ret U2.next fun _ _ _ hR => hR.own.mono U2.next

theorem ncmVx_run (hh : ParamAt n h hp p) (j : ℕ) {mu : Ptr} {mu' : Arr Num} (hmu : Points h mu mu') (lw : Bool) :
    Run h.next h (hp.ncmVx j mu lw) (p.ncmVx j mu' lw) (Own h.next) := by
  unfold HParam.ncmVx Param.ncmVx
  refine Run.call le_rfl (paramGetP_run hh _ _ _) fun h1 o1 a1 u1 r1 => ?_
  exact (momentV_run (hh.up u1) _ _ r1.2 j (hmu.up u1) lw).ret u1.next fun _ _ _ hR => hR.own.mono u1.next

theorem ncmVt_run (hh : ParamAt n h hp p) (j : ℕ) {mu : Ptr} {mu' : Arr Num} (hmu : Points h mu mu') (lw : Bool) :
    Run h.next h (hp.ncmVt j mu lw) (p.ncmVt j mu' lw) (Own h.next) := by
  unfold HParam.ncmVt Param.ncmVt
  refine Run.call le_rfl (paramGetP_run hh _ _ _) fun h1 o1 a1 u1 r1 => ?_
  refine Run.stepMove r1.2 fun v2 b2 _ r2 => Run.stepIx (hmu.up u1) fun v3 b3 _ r3 => ?_
  exact (momentV_run (hh.up u1) _ _ r2 j r3 lw).ret u1.next fun _ _ _ hR => hR.own.mono u1.next

theorem ncmV_run (hh : ParamAt n h hp p) (j : ℕ) {mu : Ptr} {mu' : Arr Num} (hmu : Points h mu mu') (lw : Bool) :
    Run h.next h (hp.ncmV j mu lw) (p.ncmV j mu' lw) (Own h.next) := by
  unfold HParam.ncmV Param.ncmV
  refine Run.call le_rfl (paramGetP_run hh _ _ _) fun h1 o1 a1 u1 r1 => ?_
  exact (momentV_run (hh.up u1) _ _ r1.2 j (hmu.up u1) lw).ret u1.next fun _ _ _ hR => hR.own.mono u1.next

theorem ncmVtxz_run (hh : ParamAt n h hp p) (j : ℕ) {mu : Ptr} {mu' : Arr Num} (hmu : Points h mu mu') (lw : Bool) :
    Run h.next h (hp.ncmVtxz j mu lw) (p.ncmVtxz j mu' lw) (Own h.next) := by
  unfold HParam.ncmVtxz Param.ncmVtxz
  refine Run.stepIx hmu fun v1 b1 _ r1 => ?_
  refine Run.call le_rfl (ncmVtx_run hh j r1 lw) fun h2 o2 a2 u2 r2 => ?_
  refine (spreadZ_run (hh.up u2) r2.2).mono le_rfl fun h3 v b _ hv => ?_
  obtain ⟨rfl, e, pv⟩ := hv
  exact ⟨e ▸ r2.1, pv⟩

theorem ncmVtz_run (hh : ParamAt n h hp p) (j : ℕ) {mu : Ptr} {mu' : Arr Num} (hmu : Points h mu mu') (lw : Bool) :
    Run h.next h (hp.ncmVtz j mu lw) (p.ncmVtz j mu' lw) (Own h.next) := by
  unfold HParam.ncmVtz Param.ncmVtz
  refine Run.call le_rfl (paramGetP_run hh _ _ _) fun h1 o1 a1 u1 r1 => ?_
  refine Run.stepMove r1.2 fun v2 b2 _ r2 => Run.stepIx (hmu.up u1) fun v3 b3 _ r3 => ?_
  exact (momentV_run (hh.up u1) _ _ r2 j r3 lw).ret u1.next fun _ _ _ hR => hR.own.mono u1.next

theorem ncmVxz_run (hh : ParamAt n h hp p) (j : ℕ) {mu : Ptr} {mu' : Arr Num} (hmu : Points h mu mu') (lw : Bool) :
    Run h.next h (hp.ncmVxz j mu lw) (p.ncmVxz j mu' lw) (Own h.next) := by
  unfold HParam.ncmVxz Param.ncmVxz
  refine Run.call le_rfl (paramGetP_run hh _ _ _) fun h1 o1 a1 u1 r1 => ?_
  refine Run.stepIx (hmu.up u1) fun v3 b3 _ r3 => ?_
  exact (momentV_run (hh.up u1) _ _ r1.2 j r3 lw).ret u1.next fun _ _ _ hR => hR.own.mono u1.next

theorem ncmVz_run (hh : ParamAt n h hp p) (j : ℕ) {mu : Ptr} {mu' : Arr Num} (hmu : Points h mu mu') (lw : Bool) :
    Run h.next h (hp.ncmVz j mu lw) (p.ncmVz j mu' lw) (Own h.next) := by
  unfold HParam.ncmVz Param.ncmVz
  refine Run.call le_rfl (paramGetP_run hh _ _ _) fun h1 o1 a1 u1 r1 => ?_
  refine Run.stepIx (hmu.up u1) fun v3 b3 _ r3 => ?_
  exact (momentV_run (hh.up u1) _ _ r1.2 j r3 lw).ret u1.next fun _ _ _ hR => hR.own.mono u1.next

theorem meanVx_run (hh : ParamAt n h hp p) (lw : Bool) : Run h.next h (hp.meanVx lw) (p.meanVx lw) (Own h.next) := by
  unfold HParam.meanVx Param.meanVx
  refine Run.bind (meanVtx_run hh lw) fun h0 e e' _ _ re => ?_
  obtain ⟨rfl, re⟩ := re
  refine Run.call le_rfl (paramGetP_run hh _ _ _) fun h1 o1 a1 u1 r1 => ?_
  refine Run.step2 u1.next (re.up u1) r1.2 fun h2 o2 a2 u2 r2 => ?_
  exact (Run.op1 _ r2.pt).ret (u1.trans u2).next fun _ _ _ hR => hR.own.mono (u1.trans u2).next

theorem meanVt_run (hh : ParamAt n h hp p) (lw : Bool) : Run h.next h (hp.meanVt lw) (p.meanVt lw) (Own h.next) := by
  unfold HParam.meanVt Param.meanVt
  refine Run.bind (meanVtx_run hh lw) fun h0 e e' _ _ re => ?_
  obtain ⟨rfl, re⟩ := re
  refine Run.call le_rfl (paramGetP_run hh _ _ _) fun h1 o1 a1 u1 r1 => ?_
  refine Run.stepMove (re.up u1) fun v b _ rv => ?_
  refine Run.step2 u1.next rv r1.2 fun h2 o2 a2 u2 r2 => ?_
  exact (Run.op1 _ r2.pt).ret (u1.trans u2).next fun _ _ _ hR => hR.own.mono (u1.trans u2).next

theorem meanV_run (hh : ParamAt n h hp p) (lw : Bool) : Run h.next h (hp.meanV lw) (p.meanV lw) (Own h.next) := by
  unfold HParam.meanV Param.meanV
  refine Run.bind (meanVtx_run hh lw) fun h0 e e' _ _ re => ?_
  obtain ⟨rfl, re⟩ := re
  refine Run.call le_rfl (paramGetP_run hh _ _ _) fun h1 o1 a1 u1 r1 => ?_
  refine Run.step2 u1.next (re.up u1) r1.2 fun h2 o2 a2 u2 r2 => ?_
  exact (Run.op1 (fun a => .ok (sumAll a)) r2.pt).ret (u1.trans u2).next fun _ _ _ hR => hR.own.mono (u1.trans u2).next

theorem meanVtz_run (hh : ParamAt n h hp p) (lw : Bool) : Run h.next h (hp.meanVtz lw) (p.meanVtz lw) (Own h.next) := by
  unfold HParam.meanVtz Param.meanVtz
  refine Run.bind (meanVtxz_run hh lw) fun h0 e e' _ _ re => ?_
  obtain ⟨rfl, re⟩ := re
  refine Run.call le_rfl (paramGetP_run hh _ _ _) fun h1 o1 a1 u1 r1 => ?_
  refine Run.stepMove (re.up u1) fun v b _ rv => ?_
  refine Run.step2 u1.next rv r1.2 fun h2 o2 a2 u2 r2 => ?_
  exact (Run.op1 _ r2.pt).ret (u1.trans u2).next fun _ _ _ hR => hR.own.mono (u1.trans u2).next

theorem meanVxz_run (hh : ParamAt n h hp p) (lw : Bool) : Run h.next h (hp.meanVxz lw) (p.meanVxz lw) (Own h.next) := by
  unfold HParam.meanVxz Param.meanVxz
  refine Run.bind (meanVtxz_run hh lw) fun h0 e e' _ _ re => ?_
  obtain ⟨rfl, re⟩ := re
  refine Run.call le_rfl (paramGetP_run hh _ _ _) fun h1 o1 a1 u1 r1 => ?_
  refine Run.step2 u1.next (re.up u1) r1.2 fun h2 o2 a2 u2 r2 => ?_
  exact (Run.op1 _ r2.pt).ret (u1.trans u2).next fun _ _ _ hR => hR.own.mono (u1.trans u2).next

theorem meanVz_run (hh : ParamAt n h hp p) (lw : Bool) : Run h.next h (hp.meanVz lw) (p.meanVz lw) (Own h.next) := by
  unfold HParam.meanVz Param.meanVz
  refine Run.bind (meanVtxz_run hh lw) fun h0 e e' _ _ re => ?_
  obtain ⟨rfl, re⟩ := re
  refine Run.call le_rfl (paramGetP_run hh _ _ _) fun h1 o1 a1 u1 r1 => ?_
  refine Run.step2 u1.next (re.up u1) r1.2 fun h2 o2 a2 u2 r2 => ?_
  exact (Run.op1 _ r2.pt).ret (u1.trans u2).next fun _ _ _ hR => hR.own.mono (u1.trans u2).next

/-- The means that are views of the component's own array. -/
def sharedMean (w : PyStr) : Prop := w = ['v','_','t','x'] ∨ w = ['v','_','t','x','z']

/-- The two forms of a mean agree in memory. -/
def MeanMatched (n : ℕ) (hp : HParam) (p : Param) (w : PyStr) (f : Option (Bool → H Ptr)) (f' : Option (Bool → Py (Arr Num))) : Prop :=
  (f = none ∧ f' = none) ∨ ∃ g g', f = some g ∧ f' = some g' ∧
    ∀ lw h, ParamAt n h hp p → Run h.next h (g lw) (g' lw) (Got (sharedMean w) h.next)

theorem MeanMatched.ite {w : PyStr} {c : Prop} [Decidable c] {f g : Option (Bool → H Ptr)} {f' g' : Option (Bool → Py (Arr Num))}
    (h1 : c → MeanMatched n hp p w f f') (h2 : MeanMatched n hp p w g g') :
    MeanMatched n hp p w (if c then f else g) (if c then f' else g') := by
  by_cases hc : c
  · rw [if_pos hc, if_pos hc]; exact h1 hc
  · rw [if_neg hc, if_neg hc]; exact h2

theorem paramMean_matched (n : ℕ) (hp : HParam) (p : Param) (w : PyStr) : MeanMatched n hp p w (hp.meanHC w) (p.meanHC w) := by
  have O {f : Bool → H Ptr} {f' : Bool → Py (Arr Num)}
      (hf : ∀ {h : Heap}, ParamAt n h hp p → ∀ lw, Run h.next h (f lw) (f' lw) (Own h.next)) :
      MeanMatched n hp p w (some f) (some f') :=
    .inr ⟨_, _, rfl, rfl, fun lw h hi => (hf hi lw).ret le_rfl fun _ _ _ hR => hR.got⟩
  have S {f : Bool → H Ptr} {f' : Bool → Py (Arr Num)} (hw : sharedMean w)
      (hf : ∀ {h : Heap}, ParamAt n h hp p → ∀ lw, Run h.next h (f lw) (f' lw) (fun h' o a => h' = h ∧ Points h o a)) :
      MeanMatched n hp p w (some f) (some f') :=
    .inr ⟨_, _, rfl, rfl, fun lw h hi => (hf hi lw).ret le_rfl fun _ _ _ hR => ⟨fun hs => (hs hw).elim, hR.1 ▸ hR.2⟩⟩
  unfold HParam.meanHC Param.meanHC
  refine .ite (fun hw => S (.inl hw) fun hi lw => meanVtx_run hi lw) (.ite (fun _ => O meanVx_run) (.ite (fun _ => O meanVt_run)
    (.ite (fun _ => O meanV_run) (.ite (fun hw => S (.inr hw) fun hi lw => meanVtxz_run hi lw) (.ite (fun _ => O meanVtz_run)
    (.ite (fun _ => O meanVxz_run) (.ite (fun _ => O meanVz_run) (.inl ⟨rfl, rfl⟩))))))))

/-- The two forms of a central moment agree in memory. -/
def NcmMatched (n : ℕ) (hp : HParam) (p : Param) (f : Option (ℕ → Ptr → Bool → H Ptr))
    (f' : Option (ℕ → Arr Num → Bool → Py (Arr Num))) : Prop :=
  (f = none ∧ f' = none) ∨ ∃ g g', f = some g ∧ f' = some g' ∧
    ∀ j mu mu' lw h, ParamAt n h hp p → Points h mu mu' → Run h.next h (g j mu lw) (g' j mu' lw) (Own h.next)

theorem NcmMatched.ite {c : Prop} [Decidable c] {f g : Option (ℕ → Ptr → Bool → H Ptr)}
    {f' g' : Option (ℕ → Arr Num → Bool → Py (Arr Num))} (h1 : NcmMatched n hp p f f') (h2 : NcmMatched n hp p g g') :
    NcmMatched n hp p (if c then f else g) (if c then f' else g') := by
  by_cases hc : c
  · rw [if_pos hc, if_pos hc]; exact h1
  · rw [if_neg hc, if_neg hc]; exact h2

theorem paramNcm_matched (n : ℕ) (hp : HParam) (p : Param) (w : PyStr) : NcmMatched n hp p (hp.ncmHC w) (p.ncmHC w) := by
  have O {f : ℕ → Ptr → Bool → H Ptr} {f' : ℕ → Arr Num → Bool → Py (Arr Num)}
      (hf : ∀ {h : Heap}, ParamAt n h hp p → ∀ j {mu : Ptr} {mu' : Arr Num}, Points h mu mu' → ∀ lw,
        Run h.next h (f j mu lw) (f' j mu' lw) (Own h.next)) : NcmMatched n hp p (some f) (some f') :=
    .inr ⟨_, _, rfl, rfl, fun j mu mu' lw h hi hm => hf hi j hm lw⟩
  unfold HParam.ncmHC Param.ncmHC
  refine .ite (O ncmVtx_run) (.ite (O ncmVx_run) (.ite (O ncmVt_run) (.ite (O ncmV_run) (.ite (O ncmVtxz_run) (.ite (O ncmVtz_run)
    (.ite (O ncmVxz_run) (.ite (O ncmVz_run) (.inl ⟨rfl, rfl⟩))))))))

/-- The queries of a parametric component are sound in memory. -/
theorem paramSound (n : ℕ) (hp : HParam) (p : Param) :
    MemSound n sharedMean (fun h => ParamAt n h hp p) hp.self p.self where
  cube h hi := hi.cube
  keep h h' hi hk := hi.keep hk le_rfl
  logP w := paramLogP_matched n hp p w
  mean w := paramMean_matched n hp p w
  ncm w := paramNcm_matched n hp p w

end
end PKM
