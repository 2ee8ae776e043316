import Verif.HeapCompLemmas

/-!
# Queries of a component: same results as without memory, and nothing old is changed
-/

open scoped Classical

noncomputable section

namespace PKM
open Np

/-- The result has the contents `a`; and it is a new array, unless `sh`. -/
def Got (sh : Prop) (n : ℕ) (h : Heap) (o : Ptr) (a : Arr Num) : Prop := (¬ sh → n ≤ o.buf) ∧ Points h o a

theorem Own.got {sh : Prop} {n : ℕ} {h : Heap} {o : Ptr} {a : Arr Num} (hf : Own n h o a) : Got sh n h o a := ⟨fun _ => hf.1, hf.2⟩

theorem Got.mono {sh : Prop} {n m : ℕ} {h : Heap} {o : Ptr} {a : Arr Num} (hf : Got sh n h o a) (hm : m ≤ n) : Got sh m h o a :=
  ⟨fun hs => hm.trans (hf.1 hs), hf.2⟩

/-- The component `s` is stored at `hs`, in the first `n` buffers, when `I` holds; each of its own methods returns a new array with
the right contents and changes no older buffer; but the `get_mean_*` methods of the distributions `sh` may return an old array. -/
structure MemSound (n : ℕ) (sh : PyStr → Prop) (I : Heap → Prop) (hs : HSelf) (s : Self) : Prop where
  cube : ∀ h, I h → CubeAt n h hs.cube s.cube
  keep : ∀ h h', I h → Heap.Keeps n h h' → I h'
  logP : ∀ w, (hs.logP w = none ∧ s.logP w = none) ∨ ∃ f f', hs.logP w = some f ∧ s.logP w = some f' ∧
    ∀ d lw h, I h → Run h.next h (f d lw) (f' d lw) (Own h.next)
  mean : ∀ w, (hs.meanHC w = none ∧ s.meanHC w = none) ∨ ∃ f f', hs.meanHC w = some f ∧ s.meanHC w = some f' ∧
    ∀ lw h, I h → Run h.next h (f lw) (f' lw) (Got (sh w) h.next)
  ncm : ∀ w, (hs.ncmHC w = none ∧ s.ncmHC w = none) ∨ ∃ f f', hs.ncmHC w = some f ∧ s.ncmHC w = some f' ∧
    ∀ j mu mu' lw h, I h → Points h mu mu' → Run h.next h (f j mu lw) (f' j mu' lw) (Own h.next)

section
variable {n : ℕ} {sh : PyStr → Prop} {I : Heap → Prop} {hs : HSelf} {s : Self} {h h' : Heap}

theorem MemSound.up (S : MemSound n sh I hs s) (hi : I h) (hu : Heap.Up h h') : I h' := S.keep h h' hi (hu.mono (S.cube h hi).le)

theorem getLogMarginal_run (S : MemSound n sh I hs s) (hi : I h) (w : PyStr) (d lw : Bool) :
    Run h.next h (HComp.getLogMarginal hs w d lw) (Component.getLogMarginal s w d lw) (Own h.next) := by
  unfold HComp.getLogMarginal Component.getLogMarginal
  rcases S.logP w with ⟨h1, h2⟩ | ⟨f, f', h1, h2, h3⟩
  · rw [h1, h2]; exact Run.throw
  · rw [h1, h2]; exact h3 d lw h hi

theorem condFromJoint_run (S : MemSound n sh I hs s) (hi : I h) {k : ℕ} (hk : k ≤ h.next) (w a b : PyStr) (d lw : Bool) :
    Run k h (HComp.condFromJoint hs w a b d lw) (Component.condFromJoint s w a b d lw) (Own k) := by
  unfold HComp.condFromJoint Component.condFromJoint
  refine Run.call hk (getLogMarginal_run S hi _ _ _) fun h1 o1 a1 u1 r1 => ?_
  refine Run.call (hk.trans u1.next) (getLogMarginal_run S (S.up hi u1) _ _ _) fun h2 o2 a2 u2 r2 => ?_
  refine Run.bind (Run.moveaxis _ _ (r1.2.up u2)) fun h3 o3 a3 _ _ r3 => ?_
  obtain ⟨rfl, -, r3⟩ := r3
  refine Run.step2 (hk.trans (u1.trans u2).next) r3 r2.2 fun h4 o4 a4 u4 r4 => ?_
  have hk' := hk.trans (u1.trans u2).next
  cases d with
  | false => exact Run.ok (r4.own.mono hk')
  | true =>
    simp only [if_true]
    have hi' := S.up (S.up (S.up hi u1) u2) u4
    refine Run.call (hk'.trans u4.next) (constructVolumeElement_run (S.cube _ hi') _) fun h5 o5 a5 u5 r5 => ?_
    refine Run.stepMap (hk'.trans (u4.trans u5).next) r5.2 fun h6 o6 u6 r6 => ?_
    refine (Run.op2 _ ((r4.pt.up u5).up u6) r6.pt).ret (hk'.trans ((u4.trans u5).trans u6).next) fun _ _ _ hR => ?_
    exact hR.own.mono (hk'.trans ((u4.trans u5).trans u6).next)

theorem getLogP_run (S : MemSound n sh I hs s) (hi : I h) (w : PyStr) (d lw : Bool) :
    Run h.next h (HComp.getLogP hs w d lw) (Component.getLogP s w d lw) (Own h.next) := by
  unfold HComp.getLogP Component.getLogP HComp.getLogConditional Component.getLogConditional
  split_ifs with h1
  · rcases PyStr.split '_' w with _ | ⟨a, _ | ⟨b, _ | ⟨d, r⟩⟩⟩
    · exact Run.throw
    · exact Run.throw
    · have t := Run.tryExcept (getLogMarginal_run S hi w d lw) fun h2 hk =>
        condFromJoint_run S (S.up hi hk) hk.next w a b d lw
      simp only
      cases hp : Component.getLogMarginal s w d lw with
      | ok r => rw [hp] at t; exact t
      | error e => rw [hp] at t; cases e <;> exact t
    · exact Run.throw
  · exact getLogMarginal_run S hi _ _ _

theorem getP_run (S : MemSound n sh I hs s) (hi : I h) (w : PyStr) (d lw : Bool) :
    Run h.next h (HComp.getP hs w d lw) (Component.getP s w d lw) (Own h.next) := by
  refine Run.call le_rfl (getLogP_run S hi w d lw) fun h1 o a u r => ?_
  exact (Run.map _ r.2).ret u.next fun _ _ _ hR => hR.own.mono u.next

theorem meanDefault_run (S : MemSound n sh I hs s) (hi : I h) (w : PyStr) (lw : Bool) :
    Run h.next h (HComp.meanDefault hs w lw) (Component.meanDefault s w lw) (Own h.next) := by
  unfold HComp.meanDefault Component.meanDefault
  refine Run.call le_rfl (getP_run S hi w false lw) fun h1 o a u r => ?_
  have hi1 := S.up hi u
  split_ifs
  · refine Run.call u.next (getVariableValues_run (S.cube _ hi1) _) fun h2 o2 a2 u2 r2 => ?_
    refine Run.stepT r2 fun v2 _ hv2 => Run.stepT (r.2.up u2) fun v1 _ hv1 => ?_
    refine Run.step2 (u.trans u2).next hv2 hv1 fun h3 o3 a3 u3 r3 => ?_
    refine Run.stepT r3.pt fun v3 _ hv3 => ?_
    exact (Run.op1 _ hv3).ret ((u.trans u2).trans u3).next fun _ _ _ hR => hR.own.mono ((u.trans u2).trans u3).next
  · refine Run.step1 u.next r.2 fun h2 o2 a2 u2 r2 => ?_
    refine Run.step1 (u.trans u2).next (r.2.up u2) fun h3 o3 a3 u3 r3 => ?_
    have c3 := S.cube _ (S.up (S.up hi1 u2) u3)
    refine Run.stepT (r2.pt.up u3) fun v2 _ hv2 => ?_
    refine Run.step2 ((u.trans u2).trans u3).next c3.x.2 hv2 fun h4 o4 a4 u4 r4 => ?_
    refine Run.step1 (((u.trans u2).trans u3).trans u4).next r4.pt fun h5 o5 a5 u5 r5 => ?_
    have U5 := (((u.trans u2).trans u3).trans u4).trans u5
    refine Run.stepT (((r3.pt).up u4).up u5) fun v3 _ hv3 => ?_
    refine Run.step2 U5.next (c3.y.2.up (u4.trans u5)) hv3 fun h6 o6 a6 u6 r6 => ?_
    refine Run.step1 (U5.trans u6).next r6.pt fun h7 o7 a7 u7 r7 => ?_
    refine Run.stepT (r5.pt.up (u6.trans u7)) fun v5 _ hv5 => Run.stepT r7.pt fun v7 _ hv7 => ?_
    have U7 := (U5.trans u6).trans u7
    exact (Run.op2 _ hv5 hv7).ret U7.next fun _ _ _ hR => hR.own.mono U7.next
  · exact Run.throw

theorem getMean_run (S : MemSound n sh I hs s) (hi : I h) (w : PyStr) (lw : Bool) :
    Run h.next h (HComp.getMean hs w lw) (Component.getMean s w lw) (Got (sh w) h.next) := by
  unfold HComp.getMean Component.getMean
  split_ifs
  · rcases S.mean w with ⟨h1, h2⟩ | ⟨f, f', h1, h2, h3⟩
    · rw [h1, h2]; exact (meanDefault_run S hi w lw).ret le_rfl fun _ _ _ hR => hR.got
    · rw [h1, h2]; exact h3 lw h hi
  · exact Run.throw

theorem unpack2_run {k : ℕ} {mu : Ptr} {mu' : Arr Num} (hm : Points h mu mu') :
    Run k h (HComp.unpack2 mu) (Component.unpack2 mu') (fun h' a b => h' = h ∧ Points h a.1 b.1 ∧ Points h a.2 b.2) := by
  unfold HComp.unpack2
  refine Run.skip (Run.read hm) fun h1 x _ hx => ?_
  obtain ⟨rfl, rfl, -⟩ := hx
  unfold HComp.unpack2.rows Component.unpack2
  rcases hs : x.shape with _ | ⟨m, t⟩
  · exact Run.throw
  · simp only
    split_ifs with h2
    · subst h2
      have e (b : ℤ) (hb : b = 0 ∨ b = 1) : Np.getitem [.at b] x = .ok ⟨t, fun i => x.get (b.toNat :: i)⟩ := by
        unfold Np.getitem
        rw [hs]
        rcases hb with rfl | rfl <;> simp [ixShape, ixIdx]
      have r0 := Run.getitem (n := k) [.at 0] hm
      have r1 := Run.getitem (n := k) [.at 1] hm
      rw [e 0 (.inl rfl)] at r0
      rw [e 1 (.inr rfl)] at r1
      refine Run.skip r0 fun h2 a _ ha => ?_
      obtain ⟨rfl, -, ha⟩ := ha
      refine Run.skip r1 fun h2 b _ hb => ?_
      obtain ⟨rfl, -, hb⟩ := hb
      exact Run.ok ⟨rfl, ha, hb⟩
    · exact Run.throw

theorem powDelta_run {val mu : Ptr} {val' mu' : Arr Num} (hv : Points h val val') (hm : Points h mu mu') (j : ℕ) :
    Run h.next h (HComp.powDelta val mu j) (Component.powDelta val' mu' j) (Fresh h.next) := by
  unfold HComp.powDelta Component.powDelta
  refine Run.stepIx hm fun v b _ hb => Run.stepT hb fun vT _ hT => ?_
  refine Run.step2 le_rfl hv hT fun h1 o a u r => ?_
  exact (Run.map _ r.pt).ret u.next fun _ _ _ hR => hR.mono u.next

theorem momentDefault_run (S : MemSound n sh I hs s) (hi : I h) (w : PyStr) (j : ℕ) {mu : Ptr} {mu' : Arr Num} (hm : Points h mu mu')
    (lw : Bool) : Run h.next h (HComp.momentDefault hs w j mu lw) (Component.momentDefault s w j mu' lw) (Own h.next) := by
  unfold HComp.momentDefault Component.momentDefault
  refine Run.call le_rfl (getP_run S hi w false lw) fun h1 o a u r => ?_
  have hi1 := S.up hi u
  split_ifs
  · refine Run.call u.next (getVariableValues_run (S.cube _ hi1) _) fun h2 o2 a2 u2 r2 => ?_
    refine Run.call (u.trans u2).next (powDelta_run r2 (hm.up (u.trans u2)) j) fun h3 o3 a3 u3 r3 => ?_
    refine Run.stepT (r.2.up (u2.trans u3)) fun v1 _ hv1 => ?_
    have U3 := (u.trans u2).trans u3
    refine Run.step2 U3.next r3.pt hv1 fun h4 o4 a4 u4 r4 => ?_
    refine Run.stepT r4.pt fun v4 _ hv4 => ?_
    exact (Run.op1 _ hv4).ret (U3.trans u4).next fun _ _ _ hR => hR.own.mono (U3.trans u4).next
  · refine Run.step1 u.next r.2 fun h2 o2 a2 u2 r2 => ?_
    refine Run.step1 (u.trans u2).next (r.2.up u2) fun h3 o3 a3 u3 r3 => ?_
    have U3 := (u.trans u2).trans u3
    have c3 := S.cube _ (S.up (S.up hi1 u2) u3)
    refine Run.bind (unpack2_run (hm.up U3)) fun h4 om am _ _ hm4 => ?_
    obtain ⟨rfl, m1, m2⟩ := hm4
    obtain ⟨am1, am2⟩ := am
    refine Run.call U3.next (powDelta_run c3.x.2 m1 j) fun h5 o5 a5 u5 r5 => ?_
    refine Run.call (U3.trans u5).next (powDelta_run (c3.y.2.up u5) (m2.up u5) j) fun h6 o6 a6 u6 r6 => ?_
    have U6 := (U3.trans u5).trans u6
    refine Run.stepT (r5.pt.up u6) fun v5 _ hv5 => ?_
    refine Run.step2 U6.next hv5 (r2.pt.up (u3.trans (u5.trans u6))) fun h7 o7 a7 u7 r7 => ?_
    refine Run.step1 (U6.trans u7).next r7.pt fun h8 o8 a8 u8 r8 => ?_
    have U8 := (U6.trans u7).trans u8
    refine Run.stepT (r6.pt.up (u7.trans u8)) fun v6 _ hv6 => ?_
    refine Run.step2 U8.next hv6 (r3.pt.up (u5.trans (u6.trans (u7.trans u8)))) fun h9 o9 a9 u9 r9 => ?_
    refine Run.step1 (U8.trans u9).next r9.pt fun h10 o10 a10 u10 r10 => ?_
    have U10 := (U8.trans u9).trans u10
    exact (Run.op2 (fun a b => stack [a, b]) (r8.pt.up (u9.trans u10)) r10.pt).ret U10.next fun _ _ _ hR => hR.own.mono U10.next
  · exact Run.throw

theorem getNoncentralMoment_run (S : MemSound n sh I hs s) (hi : I h) (w : PyStr) (j : ℕ) {mu : Ptr} {mu' : Arr Num} (hm : Points h mu mu')
    (lw : Bool) : Run h.next h (HComp.getNoncentralMoment hs w j mu lw) (Component.getNoncentralMoment s w j mu' lw) (Own h.next) := by
  unfold HComp.getNoncentralMoment Component.getNoncentralMoment
  split_ifs
  · rcases S.ncm w with ⟨h1, h2⟩ | ⟨f, f', h1, h2, h3⟩
    · rw [h1, h2]; exact momentDefault_run S hi w j hm lw
    · rw [h1, h2]; exact h3 j mu mu' lw h hi hm
  · exact Run.throw

theorem centre_run (S : MemSound n sh I hs s) (hi : I h) (w : PyStr) (lw : Bool) :
    Run h.next h (HComp.centre hs w lw) (if Component.headVar w ∈ [['t'], ['v'], ['z']] then Component.getMean s w lw
      else if Component.headVar w = ['x'] then do
        let m ← Component.getMean s w lw
        let (mu1, mu2) ← Component.unpack2 m
        stack [mu1, mu2]
      else .error .assertionError : Py (Arr Num)) (Got (sh w) h.next) := by
  unfold HComp.centre
  split_ifs
  · exact getMean_run S hi w lw
  · refine Run.call le_rfl (getMean_run S hi w lw) fun h1 o a u r => ?_
    refine Run.bind (unpack2_run r.2) fun h4 om am _ _ hm4 => ?_
    obtain ⟨rfl, m1, m2⟩ := hm4
    obtain ⟨am1, am2⟩ := am
    exact (Run.op2 (fun a b => stack [a, b]) m1 m2).ret u.next fun _ _ _ hR => (hR.own.mono u.next).got
  · exact Run.throw

theorem getCentralMoment_run (S : MemSound n sh I hs s) (hi : I h) (w : PyStr) (j : ℕ) (lw : Bool) :
    Run h.next h (HComp.getCentralMoment hs w j lw) (Component.getCentralMoment s w j lw) (Own h.next) := by
  unfold HComp.getCentralMoment Component.getCentralMoment
  by_cases hl : (Component.headVar w).length = 1
  · simp only [hl, if_true]
    refine Run.call le_rfl (centre_run S hi w lw) fun h1 o a u r => ?_
    have hi1 := S.up hi u
    split_ifs
    · refine Run.call u.next (R := fun h' a b => h' = h1 ∧ a = b) (Run.lift fun _ _ => ⟨rfl, rfl⟩) fun h2 b b' _ hb => ?_
      obtain ⟨rfl, rfl⟩ := hb
      refine Run.call u.next (constructVolumeElement_run (S.cube _ hi1) _) fun h3 o3 a3 u3 r3 => ?_
      exact (getNoncentralMoment_run S (S.up hi1 u3) w j (r.2.up u3) lw).own (u.trans u3).next
    · exact (getNoncentralMoment_run S hi1 w j r.2 lw).own u.next
  · simp only [hl, if_false]
    exact Run.throw

end

/-! ### The base component -/

section
variable {n : ℕ} {h h' : Heap} {hc : HCube} {c : IFUCube} {o : Ptr} {a : Arr Num}

/-- `+=` inside a function: `o` gets the new contents, all other buffers stay. -/
theorem Run.stepIop {γ δ : Type} {b : Ptr} {y : Arr Num} {f : Num → Num → Num} {k : Unit → H γ} {q : Arr Num → Py δ}
    {R' : Heap → γ → δ → Prop} (ho : Fresh n h o a) (hb : Points h b y)
    (h2 : ∀ h' r, Heap.Keeps n h h' → Fresh n h' o r → (∀ p x, p.buf ≠ o.buf → Points h p x → Points h' p x) →
      h'.next = h.next → Run n h' (k ()) (q r) R') :
    Run n h (H.iop2 f o b >>= k) (Np.iop f a y >>= q) R' :=
  Run.bind (Run.iop2 f ho hb) fun h' _ r _ hk hr =>
    h2 h' r hk hr.1 (fun _ _ hne hp => hp.other hr.2.1 hr.2.2 hne) hr.2.1

theorem Py.bind_assoc {α β γ : Type} (m : Py α) (f : α → Py β) (g : β → Py γ) : (m >>= f) >>= g = m >>= fun a => f a >>= g := by
  cases m <;> rfl

theorem Py.bind_ret {α : Type} (m : Py α) : (m >>= fun x => (.ok x : Py α)) = m := by
  cases m <;> rfl

theorem logPtvxz_run (hh : CubeAt n h hc c) (ho : OldAt n h o a) (d lw : Bool) :
    Run h.next h (HComp.logPtvxz hc o d lw) (Component.logPtvxz c a d lw) (Fresh h.next) := by
  unfold HComp.logPtvxz Component.logPtvxz
  refine Run.stepOk (f := id) le_rfl ho.2 fun h1 p u1 hp => ?_
  have c1 := hh.up u1
  refine Run.call u1.next (constructVolumeElement_run c1 _) fun h2 dv dv' u2 hdv => ?_
  refine Run.stepMap (u1.trans u2).next hdv.2 fun h3 ld u3 hld => ?_
  have U3 := (u1.trans u2).trans u3
  have hp3 := (hp.up u2).up u3
  have c3 := (c1.up u2).up u3
  have hne : ld.buf ≠ p.buf := by
    have h4 : p.buf < h1.next := hp.pt.1
    have h5 := hld.1
    have h6 := u2.next
    omega
  refine Run.stepIop hp3 hld.pt fun h4 r hk4 hr hoth hn4 => ?_
  have hld4 := hoth _ _ hne hld.pt
  have tail : ∀ h5 (r5 : Arr Num), Fresh h.next h5 p r5 → Points h5 ld (Np.map Num.log dv') →
      Run h.next h5 (do
        let _ ← (if d then H.isub p ld else pure () : H Unit)
        pure p) (if d then isub r5 (Np.map Num.log dv') else .ok r5) (Fresh h.next) := by
    intro h5 r5 hr5 hl5
    cases d with
    | false => exact Run.ok hr5
    | true =>
      simp only [if_true]
      have := Run.bind (k := fun _ => (pure p : H Ptr)) (q := fun x => (.ok x : Py (Arr Num))) (R' := Fresh h.next)
        (Run.iop2 (· - ·) hr5 hl5) fun h6 _ r6 _ _ hr6 => Run.ok hr6.1
      rw [Py.bind_ret] at this
      exact this
  have hle4 : h.next ≤ h4.next := by rw [hn4]; exact U3.next
  cases lw with
  | false => exact tail h4 r hr hld4
  | true =>
    simp only [if_true]
    unfold HComp.applyLight Component.applyLight
    have c4 := c3.keep hk4 hh.le
    show Run h.next h4 ((do
        let l ← H.getitem [.all, .na, .na, .na, .all] hc.lightWeights
        let logLw ← H.map Num.log l
        H.iadd p logLw
        let norm ← H.op1 (fun a => .ok (logsumexpAll a)) p
        H.isub p norm) >>= fun _ => _) _ _
    rw [H.bind_assoc, Py.bind_assoc]
    refine Run.stepIx c4.lightWeights.2 fun v b _ hb => ?_
    rw [H.bind_assoc]
    refine Run.stepMap hle4 hb fun h5 l u5 hl => ?_
    rw [H.bind_assoc, Py.bind_assoc]
    refine Run.stepIop (hr.up u5) hl.pt fun h6 r6 hk6 hr6 hoth6 hn6 => ?_
    rw [H.bind_assoc]
    refine Run.stepOk (f := logsumexpAll) (by rw [hn6]; exact hle4.trans u5.next) hr6.pt fun h7 m u7 hm => ?_
    refine Run.stepIop (hr6.up u7) hm.pt fun h8 r8 hk8 hr8 hoth8 hn8 => ?_
    exact tail h8 r8 hr8 (hoth8 _ _ hne ((hoth6 _ _ hne (hld4.up u5)).up u7))

theorem logPmarg_run (hh : CubeAt n h hc c) (ho : OldAt n h o a) (axes : List ℤ) {vol : H Ptr} {vol' : Py (Arr Num)}
    (hv : ∀ h', CubeAt n h' hc c → Run h'.next h' vol vol' Points) (d lw : Bool) :
    Run h.next h (HComp.logPmarg hc o axes vol d lw) (Component.logPmarg c a axes vol' d lw) (Own h.next) := by
  unfold HComp.logPmarg Component.logPmarg
  refine Run.call le_rfl (logPtvxz_run hh ho false lw) fun h1 p p' u1 hp => ?_
  refine Run.step1 u1.next hp.pt fun h2 r r' u2 hr => ?_
  have U2 := u1.trans u2
  cases d with
  | false => exact Run.ok (hr.own.mono u1.next)
  | true =>
    simp only [if_true]
    refine Run.call U2.next (hv h2 ((hh.up u1).up u2)) fun h3 v v' u3 hv3 => ?_
    refine Run.stepMap (U2.trans u3).next hv3 fun h4 l u4 hl => ?_
    have := Run.bind (k := fun _ => (pure r : H Ptr)) (q := fun x => (.ok x : Py (Arr Num))) (R' := Own h.next)
        (Run.iop2 (· - ·) ((((hr.mono u1.next).up u3).up u4)) hl.pt) fun h6 _ r6 _ _ hr6 => Run.ok hr6.1.own
    rw [Py.bind_ret] at this
    exact this

/-- Both methods are missing, or both exist and agree. -/
def Matched (I : Heap → Prop) (x : Option (Bool → Bool → H Ptr)) (y : Option (Bool → Bool → Py (Arr Num))) : Prop :=
  (x = none ∧ y = none) ∨ ∃ f f', x = some f ∧ y = some f' ∧ ∀ d lw h, I h → Run h.next h (f d lw) (f' d lw) (Own h.next)

theorem Matched.ite {I : Heap → Prop} {x x' : Option (Bool → Bool → H Ptr)} {y y' : Option (Bool → Bool → Py (Arr Num))} (p : Prop)
    [Decidable p] (h1 : Matched I x y) (h2 : Matched I x' y') : Matched I (if p then x else x') (if p then y else y') := by
  split_ifs
  · exact h1
  · exact h2

theorem baseSound (n : ℕ) (hc : HCube) (c : IFUCube) (o : Ptr) (a : Arr Num) :
    MemSound n (fun _ => False) (fun h => CubeAt n h hc c ∧ OldAt n h o a) (HComp.baseSelf hc o) (Component.baseSelf c a) where
  cube h hi := hi.1
  keep h h' hi hk := ⟨hi.1.keep hk le_rfl, hi.2.keep hk le_rfl⟩
  mean w := .inl ⟨rfl, rfl⟩
  ncm w := .inl ⟨rfl, rfl⟩
  logP w := by
    have vol (w : PyStr) (h' : Heap) (hc' : CubeAt n h' hc c) :
        Run h'.next h' (hc.constructVolumeElement w) (c.constructVolumeElement w) Points :=
      (constructVolumeElement_run hc' _).ret le_rfl fun _ _ _ hR => hR.2
    have m (axes : List ℤ) (w : PyStr) : Matched (fun h => CubeAt n h hc c ∧ OldAt n h o a)
        (some (HComp.logPmarg hc o axes (hc.constructVolumeElement w)))
        (some (Component.logPmarg c a axes (c.constructVolumeElement w))) :=
      .inr ⟨_, _, rfl, rfl, fun d lw h hi => logPmarg_run hi.1 hi.2 axes (vol w) d lw⟩
    show Matched _ (HComp.baseLogP hc o w) (Component.baseLogP c a w)
    unfold HComp.baseLogP Component.baseLogP
    refine .ite _ (.inr ⟨_, _, rfl, rfl, fun d lw h hi => logPmarg_run hi.1 hi.2 _ (fun h' hc' => Run.ok hc'.deltaT.2) d lw⟩) ?_
    iterate 6 refine .ite _ (m _ _) ?_
    refine .ite _ (.inr ⟨_, _, rfl, rfl, fun d lw h hi => (logPtvxz_run hi.1 hi.2 d lw).ret le_rfl fun _ _ _ hR => hR.own⟩) ?_
    iterate 7 refine .ite _ (m _ _) ?_
    exact .inl ⟨rfl, rfl⟩

end

/-! ### Derived moments -/

/-- The public methods of `o` are implemented by those of `ho`. -/
structure MemObj (n : ℕ) (sh : PyStr → Prop) (I : Heap → Prop) (ho : HObj) (o : Obj) : Prop where
  cube : ∀ h, I h → CubeAt n h ho.cube o.cube
  keep : ∀ h h', I h → Heap.Keeps n h h' → I h'
  getP : ∀ w d lw h, I h → Run h.next h (ho.getP w d lw) (o.getP w d lw) (Own h.next)
  getMean : ∀ w lw h, I h → Run h.next h (ho.getMean w lw) (o.getMean w lw) (Got (sh w) h.next)
  getCentralMoment : ∀ w j lw h, I h → Run h.next h (ho.getCentralMoment w j lw) (o.getCentralMoment w j lw) (Own h.next)

theorem MemSound.obj {n : ℕ} {sh : PyStr → Prop} {I : Heap → Prop} {hs : HSelf} {s : Self} (S : MemSound n sh I hs s) :
    MemObj n sh I (HComp.obj hs) (Component.obj s) where
  cube := S.cube
  keep := S.keep
  getP w d lw _ hi := getP_run S hi w d lw
  getMean w lw _ hi := getMean_run S hi w lw
  getCentralMoment w j lw _ hi := getCentralMoment_run S hi w j lw

section
variable {n : ℕ} {sh : PyStr → Prop} {I : Heap → Prop} {ho : HObj} {o : Obj} {h h' : Heap}

theorem MemObj.up (S : MemObj n sh I ho o) (hi : I h) (hu : Heap.Up h h') : I h' := S.keep h h' hi (hu.mono (S.cube h hi).le)

theorem getVariance_run (S : MemObj n sh I ho o) (hi : I h) (w : PyStr) (lw : Bool) :
    Run h.next h (ho.getVariance w lw) (o.getVariance w lw) (Own h.next) := S.getCentralMoment w 2 lw h hi

theorem getDispersion_run (S : MemObj n sh I ho o) (hi : I h) (w : PyStr) (lw : Bool) :
    Run h.next h (ho.getDispersion w lw) (o.getDispersion w lw) (Own h.next) := by
  refine Run.call le_rfl (S.getCentralMoment w 2 lw h hi) fun h1 p a u r => ?_
  exact (Run.map _ r.2).ret u.next fun _ _ _ hR => hR.own.mono u.next

theorem getNormalisedCentralMoment_run (S : MemObj n sh I ho o) (hi : I h) (w : PyStr) (j : ℕ) (lw : Bool) :
    Run h.next h (ho.getNormalisedCentralMoment w j lw) (o.getNormalisedCentralMoment w j lw) (Own h.next) := by
  refine Run.call le_rfl (S.getCentralMoment w j lw h hi) fun h1 p a u r => ?_
  refine Run.call u.next (getDispersion_run S (S.up hi u) w lw) fun h2 p2 a2 u2 r2 => ?_
  refine Run.stepMap (u.trans u2).next r2.2 fun h3 p3 u3 r3 => ?_
  have U := (u.trans u2).trans u3
  exact (Run.op2 _ (r.2.up (u2.trans u3)) r3.pt).ret U.next fun _ _ _ hR => hR.own.mono U.next

theorem getExcessCentralMoment_run (f2 : ℝ) (S : MemObj n sh I ho o) (hi : I h) (w : PyStr) (j : ℕ) (lw : Bool) :
    Run h.next h (ho.getExcessCentralMoment f2 w j lw) (o.getExcessCentralMoment f2 w j lw) (Own h.next) := by
  refine Run.call le_rfl (getNormalisedCentralMoment_run S hi w j lw) fun h1 p a u r => ?_
  exact (Run.op1 (fun a => sub a (scalar (.fin (Obj.normalisedCentralMomentNormal f2 j)))) r.2).ret u.next
    fun _ _ _ hR => hR.own.mono u.next

theorem delta_run {val mu : Ptr} {val' mu' : Arr Num} (hv : Points h val val') (hm : Points h mu mu') :
    Run h.next h (HObj.delta val mu) (Obj.delta val' mu') Points := by
  unfold HObj.delta Obj.delta
  refine Run.stepIx hm fun v b _ hb => Run.stepT hb fun vT _ hT => ?_
  refine Run.step2 le_rfl hv hT fun h1 p a u r => ?_
  refine (Run.T r.pt).mono u.next fun _ _ _ _ hR => ?_
  obtain ⟨-, rfl, -, h4⟩ := hR
  exact h4

theorem covSum_run {p d0 d1 : Ptr} {p' d0' d1' : Arr Num} (hp : Points h p p') (h0 : Points h d0 d0') (h1 : Points h d1 d1')
    (ix0 ix1 : List Ix) : Run h.next h (HObj.covSum p d0 d1 ix0 ix1) (Obj.covSum p' d0' d1' ix0 ix1) (Fresh h.next) := by
  unfold HObj.covSum Obj.covSum
  refine Run.stepIx h0 fun v b _ hb => ?_
  refine Run.step2 le_rfl hp hb fun h2 q q' u2 hq => ?_
  refine Run.stepIx (h1.up u2) fun v1 b1 _ hb1 => ?_
  refine Run.step2 u2.next hq.pt hb1 fun h3 q3 q3' u3 hq3 => ?_
  exact (Run.op1 _ hq3.pt).ret (u2.trans u3).next fun _ _ _ hR => hR.mono (u2.trans u3).next

/-- What `covVar` returns: one array of bin centres, or two for the position. -/
def CovIs (dvar : Char) (h : Heap) (x : Ptr × List Ptr) (y : Arr Num × List (Arr Num)) : Prop :=
  Points h x.1 y.1 ∧ ((dvar ≠ 'x' ∧ ∃ v v', x.2 = [v] ∧ y.2 = [v'] ∧ Points h v v') ∨
    (dvar = 'x' ∧ ∃ v1 v2 v1' v2', x.2 = [v1, v2] ∧ y.2 = [v1', v2'] ∧ Points h v1 v1' ∧ Points h v2 v2'))

theorem covVar_run (S : MemObj n sh I ho o) (hi : I h) (w : PyStr) (dvar : Char) (lw : Bool) :
    Run h.next h (ho.covVar w dvar lw) (o.covVar w dvar lw) (CovIs dvar) := by
  unfold HObj.covVar Obj.covVar
  refine Run.call le_rfl (S.getMean w lw h hi) fun h1 p a u r => ?_
  have c1 := S.cube _ (S.up hi u)
  split_ifs with hd
  · refine Run.call u.next (getVariableValues_run c1 _) fun h2 p2 a2 u2 r2 => ?_
    exact Run.ok ⟨r.2.up u2, .inl ⟨hd, _, _, rfl, rfl, r2⟩⟩
  · refine Run.call u.next (getVariableValues_run c1 _) fun h2 p2 a2 u2 r2 => ?_
    refine Run.call (u.trans u2).next (getVariableValues_run (c1.up u2) _) fun h3 p3 a3 u3 r3 => ?_
    exact Run.ok ⟨(r.2.up u2).up u3, .inr ⟨not_not.1 hd, _, _, _, _, rfl, rfl, r2.up u3, r3⟩⟩

theorem CovIs.up {dvar : Char} {x : Ptr × List Ptr} {y : Arr Num × List (Arr Num)} (hx : CovIs dvar h x y) (hu : Heap.Up h h') :
    CovIs dvar h' x y := by
  refine ⟨hx.1.up hu, hx.2.imp ?_ ?_⟩
  · rintro ⟨h1, v, v', h2, h3, h4⟩; exact ⟨h1, v, v', h2, h3, h4.up hu⟩
  · rintro ⟨h1, v1, v2, v1', v2', h2, h3, h4, h5⟩; exact ⟨h1, v1, v2, v1', v2', h2, h3, h4.up hu, h5.up hu⟩

theorem unpackRows_run {k : ℕ} {m : Ptr} {m' : Arr Num} (hm : Points h m m') :
    Run k h (HObj.unpackRows m) (Obj.covCore.unpackRows m') (fun h' a b => h' = h ∧ Points h a.1 b.1 ∧ Points h a.2 b.2) := by
  unfold HObj.unpackRows Obj.covCore.unpackRows
  refine Run.stepIx hm fun v b _ hb => Run.stepIx hm fun v' b' _ hb' => ?_
  exact Run.ok ⟨rfl, hb, hb'⟩

theorem covX_run {p m x1 x2 mn vn : Ptr} {p' m' x1' x2' mn' vn' : Arr Num} (hp : Points h p p') (hm : Points h m m')
    (h1 : Points h x1 x1') (h2 : Points h x2 x2') (hmn : Points h mn mn') (hvn : Points h vn vn') (k1 k2 : ℤ) (ixx ixn : List Ix) :
    Run h.next h (HObj.covX p m x1 x2 mn vn k1 k2 ixx ixn) (do
      let (mx1, mx2) ← Obj.covCore.unpackRows m'
      let dx1 ← Obj.delta x1' mx1
      let dx2 ← Obj.delta x2' mx2
      let dn ← Obj.delta vn' mn'
      let p1 ← sum [k1] p'
      let c1 ← Obj.covSum p1 dx1 dn ixx ixn
      let p2 ← sum [k2] p'
      let c2 ← Obj.covSum p2 dx2 dn ixx ixn
      stack [c1, c2]) (Own h.next) := by
  unfold HObj.covX
  refine Run.bind (unpackRows_run hm) fun h0 om am _ _ hm4 => ?_
  obtain ⟨rfl, m1, m2⟩ := hm4
  obtain ⟨am1, am2⟩ := am
  refine Run.call le_rfl (delta_run h1 m1) fun h3 o3 a3 u3 r3 => ?_
  refine Run.call u3.next (delta_run (h2.up u3) (m2.up u3)) fun h4 o4 a4 u4 r4 => ?_
  have U4 := u3.trans u4
  refine Run.call U4.next (delta_run (hvn.up U4) (hmn.up U4)) fun h5 o5 a5 u5 r5 => ?_
  have U5 := U4.trans u5
  refine Run.step1 U5.next (hp.up U5) fun h6 o6 a6 u6 r6 => ?_
  have U6 := U5.trans u6
  refine Run.call U6.next (covSum_run r6.pt (r3.up (u4.trans (u5.trans u6))) (r5.up u6) _ _) fun h7 o7 a7 u7 r7 => ?_
  have U7 := U6.trans u7
  refine Run.step1 U7.next (hp.up U7) fun h8 o8 a8 u8 r8 => ?_
  have U8 := U7.trans u8
  refine Run.call U8.next (covSum_run r8.pt (r4.up (u5.trans (u6.trans (u7.trans u8)))) (r5.up (u6.trans (u7.trans u8))) _ _)
    fun h9 o9 a9 u9 r9 => ?_
  have U9 := U8.trans u9
  exact (Run.op2 (fun a b => stack [a, b]) (r7.pt.up (u8.trans u9)) r9.pt).ret U9.next fun _ _ _ hR => hR.own.mono U9.next

theorem covCore_run (S : MemObj n sh I ho o) (hi : I h) (w : PyStr) (a0 a1 : Char) (w0 w1 : PyStr) (lw : Bool) :
    Run h.next h (ho.covCore w a0 a1 w0 w1 lw) (o.covCore w a0 a1 w0 w1 lw) (Own h.next) := by
  unfold HObj.covCore Obj.covCore
  refine Run.call le_rfl (covVar_run S hi w0 a0 lw) fun h1 x0 y0 u1 r1 => ?_
  refine Run.call u1.next (covVar_run S (S.up hi u1) w1 a1 lw) fun h2 x1 y1 u2 r2 => ?_
  have U2 := u1.trans u2
  obtain ⟨m0, v0⟩ := x0
  obtain ⟨m0', v0'⟩ := y0
  obtain ⟨m1, v1⟩ := x1
  obtain ⟨m1', v1'⟩ := y1
  refine Run.call U2.next (S.getP w false lw h2 (S.up hi U2)) fun h3 p p' u3 r3 => ?_
  have U3 := U2.trans u3
  have r1 := r1.up (u2.trans u3)
  have r2 := r2.up u3
  obtain ⟨g1, g2⟩ := r1
  obtain ⟨g3, g4⟩ := r2
  simp only at g1 g2 g3 g4
  rcases g2 with ⟨n0, v, v', rfl, rfl, hv⟩ | ⟨n0, v, z, v', z', rfl, rfl, hv, hz⟩ <;>
    rcases g4 with ⟨n1, e, e', rfl, rfl, he⟩ | ⟨n1, e, f, e', f', rfl, rfl, he, hf⟩
  · simp only [n0, n1, ne_eq, not_false_eq_true, and_self, if_true, List.getD_cons_zero]
    refine Run.call U3.next (delta_run hv g1) fun h4 o4 a4 u4 r4 => ?_
    refine Run.call (U3.trans u4).next (delta_run (he.up u4) (g3.up u4)) fun h5 o5 a5 u5 r5 => ?_
    have U5 := (U3.trans u4).trans u5
    exact (covSum_run (r3.2.up (u4.trans u5)) (r4.up u5) r5 _ _).ret U5.next fun _ _ _ hR => hR.own.mono U5.next
  · simp only [n0, n1, ne_eq, not_false_eq_true, not_true_eq_false, and_false, if_false, List.getD_cons_zero, List.getD_cons_succ]
    exact (covX_run r3.2 g3 he hf g1 hv 2 1 _ _).own U3.next
  · subst n0
    simp only [ne_eq, not_true_eq_false, false_and, if_false, if_true, List.getD_cons_zero, List.getD_cons_succ]
    exact (covX_run r3.2 g1 hv hz g3 he 1 0 _ _).own U3.next
  · subst n0
    simp only [ne_eq, not_true_eq_false, false_and, if_false, if_true, List.getD_cons_zero, List.getD_cons_succ]
    exact (covX_run r3.2 g1 hv hz g3 he 1 0 _ _).own U3.next

theorem getCovariance_run (S : MemObj n sh I ho o) (hi : I h) (w : PyStr) (lw : Bool) :
    Run h.next h (ho.getCovariance w lw) (o.getCovariance w lw) (Own h.next) := by
  unfold HObj.getCovariance Obj.getCovariance
  split_ifs
  · rcases PyStr.split '_' w with _ | ⟨a, _ | ⟨b, _ | ⟨d, r⟩⟩⟩
    · exact Run.throw
    · exact Run.throw
    · rcases a with _ | ⟨a0, _ | ⟨a1, _ | ⟨a2, r⟩⟩⟩
      · exact Run.throw
      · exact Run.throw
      · exact covCore_run S hi _ _ _ _ _ _
      · exact Run.throw
    · exact Run.throw
  · rcases w with _ | ⟨a0, _ | ⟨a1, _ | ⟨a2, r⟩⟩⟩
    · exact Run.throw
    · exact Run.throw
    · exact covCore_run S hi _ _ _ _ _ _
    · exact Run.throw

theorem corCore_run (S : MemObj n sh I ho o) (hi : I h) (w w0 w1 : PyStr) (lw : Bool) :
    Run h.next h (ho.corCore w w0 w1 lw) (o.corCore w w0 w1 lw) (Own h.next) := by
  refine Run.call le_rfl (getCovariance_run S hi w lw) fun h1 o1 a1 u1 r1 => ?_
  refine Run.call u1.next (getVariance_run S (S.up hi u1) w0 lw) fun h2 o2 a2 u2 r2 => ?_
  have U2 := u1.trans u2
  refine Run.call U2.next (getVariance_run S (S.up hi U2) w1 lw) fun h3 o3 a3 u3 r3 => ?_
  refine Run.step2 (U2.trans u3).next (r2.2.up u3) r3.2 fun h4 o4 a4 u4 r4 => ?_
  refine Run.stepMap ((U2.trans u3).trans u4).next r4.pt fun h5 o5 u5 r5 => ?_
  have U5 := ((U2.trans u3).trans u4).trans u5
  exact (Run.op2 _ (r1.2.up (u2.trans (u3.trans (u4.trans u5)))) r5.pt).ret U5.next fun _ _ _ hR => hR.own.mono U5.next

theorem getCorrelation_run (S : MemObj n sh I ho o) (hi : I h) (w : PyStr) (lw : Bool) :
    Run h.next h (ho.getCorrelation w lw) (o.getCorrelation w lw) (Own h.next) := by
  unfold HObj.getCorrelation Obj.getCorrelation
  split_ifs
  · rcases PyStr.split '_' w with _ | ⟨a, _ | ⟨b, _ | ⟨d, r⟩⟩⟩
    · exact Run.throw
    · exact Run.throw
    · rcases a with _ | ⟨a0, _ | ⟨a1, _ | ⟨a2, r⟩⟩⟩
      · exact Run.throw
      · exact Run.throw
      · exact corCore_run S hi _ _ _ _
      · exact Run.throw
    · exact Run.throw
  · rcases w with _ | ⟨a0, _ | ⟨a1, _ | ⟨a2, r⟩⟩⟩
    · exact Run.throw
    · exact Run.throw
    · exact corCore_run S hi _ _ _ _
    · exact Run.throw

theorem lZero_run (S : MemObj n sh I ho o) (hi : I h) (b : Option PyStr) :
    Run h.next h (ho.lZero b) (match b with
      | none => .ok (full [1] (.fin 0))
      | some b => do
        let s ← o.cube.getDistributionShape b
        .ok (full (1 :: s) (.fin 0)) : Py (Arr Num)) (Fresh h.next) := by
  cases b with
  | none => exact Run.fresh _
  | some b =>
    refine Run.call le_rfl (getDistributionShape_run (S.cube h hi) b) fun h1 x y u hxy => ?_
    subst hxy
    exact (Run.fresh _).ret u.next fun _ _ _ hR => hR.mono u.next

theorem getLMoment_run (S : MemObj n sh I ho o) (hi : I h) (w : PyStr) (j : ℤ) (lw : Bool) :
    Run h.next h (ho.getLMoment w j lw) (o.getLMoment w j lw) (Own h.next) := by
  unfold HObj.getLMoment Obj.getLMoment
  by_cases hl : (Component.headVar w).length = 1
  · simp only [hl, if_true]
    refine Run.call le_rfl (R := fun h' a b => h' = h ∧ a = b) (Run.lift fun _ _ => ⟨rfl, rfl⟩) fun h2 b b' _ hb => ?_
    obtain ⟨rfl, rfl⟩ := hb
    refine Run.call le_rfl (S.getP w false lw _ hi) fun h3 o3 a3 u3 r3 => ?_
    refine Run.stepOk (f := cumsum0) u3.next r3.2 fun h4 o4 u4 r4 => ?_
    have U4 := u3.trans u4
    refine Run.call U4.next (lZero_run S (S.up hi U4) b) fun h5 o5 a5 u5 r5 => ?_
    have U5 := U4.trans u5
    refine Run.step2 U5.next r5.pt (r4.pt.up u5) fun h6 o6 a6 u6 r6 => ?_
    have U6 := U5.trans u6
    refine Run.stepIx r6.pt fun v b1 _ hb1 => Run.stepIx r6.pt fun v' b2 _ hb2 => ?_
    refine Run.step2 U6.next hb1 hb2 fun h7 o7 a7 u7 r7 => ?_
    split_ifs
    · exact Run.throw
    · have U7 := U6.trans u7
      refine Run.stepMap U7.next (r6.pt.up u7) fun h8 o8 u8 r8 => ?_
      have U8 := U7.trans u8
      refine Run.call U8.next (getVariableEdges_run (S.cube _ (S.up hi U8)) _) fun h9 o9 a9 u9 r9 => ?_
      have U9 := U8.trans u9
      refine Run.stepT (r8.pt.up u9) fun vT _ hT => ?_
      refine Run.step2 U9.next r9 hT fun h10 o10 a10 u10 r10 => ?_
      have U10 := U9.trans u10
      refine Run.stepT r10.pt fun yT _ hyT => ?_
      refine Run.stepIx hyT fun v1 b1 _ hb1 => Run.stepIx hyT fun v2 b2 _ hb2 => ?_
      refine Run.step2 U10.next hb1 hb2 fun h11 o11 a11 u11 r11 => ?_
      have U11 := U10.trans u11
      refine Run.stepMap U11.next r11.pt fun h12 o12 u12 r12 => ?_
      have U12 := U11.trans u12
      refine Run.step2 U12.next r12.pt (r7.pt.up (u8.trans (u9.trans (u10.trans (u11.trans u12))))) fun h13 o13 a13 u13 r13 => ?_
      have U13 := U12.trans u13
      exact (Run.op1 _ r13.pt).ret U13.next fun _ _ _ hR => hR.own.mono U13.next
  · simp only [hl, if_false]
    exact Run.throw

theorem getNormalisedLMoment_run (S : MemObj n sh I ho o) (hi : I h) (w : PyStr) (j : ℤ) (lw : Bool) :
    Run h.next h (ho.getNormalisedLMoment w j lw) (o.getNormalisedLMoment w j lw) (Own h.next) := by
  refine Run.call le_rfl (getLMoment_run S hi w 2 lw) fun h1 o1 a1 u1 r1 => ?_
  refine Run.call u1.next (getLMoment_run S (S.up hi u1) w j lw) fun h2 o2 a2 u2 r2 => ?_
  have U2 := u1.trans u2
  exact (Run.op2 _ r2.2 (r1.2.up u2)).ret U2.next fun _ _ _ hR => hR.own.mono U2.next

theorem getExcessLMoment_run (ppf : ℝ → ℝ) (S : MemObj n sh I ho o) (hi : I h) (w : PyStr) (j : ℤ) (lw : Bool) :
    Run h.next h (ho.getExcessLMoment ppf w j lw) (o.getExcessLMoment ppf w j lw) (Own h.next) := by
  refine Run.call le_rfl (getNormalisedLMoment_run S hi w j lw) fun h1 o1 a1 u1 r1 => ?_
  refine Run.call u1.next (R := fun h' a b => h' = h1 ∧ a = b) (Run.lift fun _ _ => ⟨rfl, rfl⟩) fun h2 b b' _ hb => ?_
  obtain ⟨rfl, rfl⟩ := hb
  exact (Run.op1 (fun a => sub a (scalar b)) r1.2).ret u1.next fun _ _ _ hR => hR.own.mono u1.next

end
end PKM
