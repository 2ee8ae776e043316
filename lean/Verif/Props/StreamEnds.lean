import Verif.Props.Units

/-!
# C94: a stream described from its other end is the same stream

The limits `theta_lims`, `mu_r_lims` and `mu_v_lims` of a stream are values at its two ends. Which end is named first does not matter: after any history
of setter calls, the stream made with the ends named in the other order answers every query alike.
-/

open scoped Classical

noncomputable section

namespace PKM
open Np Component

variable {p p' : Param} {g : Grid} {L : ℕ → ℕ → ℝ} {f2 : ℝ} {center : ℝ × ℝ} {rotation : ℝ}

/-! ### Specification -/

/-- The same call with the ends of the stream named in the other order. -/
def StreamCall.fromOtherEnd : StreamCall → StreamCall
  | .setPxt theta muR sig n => .setPxt (theta.2, theta.1) (muR.2, muR.1) sig n
  | .setMuV lims => .setMuV (lims.2, lims.1)
  | c => c

/-- The track is sampled at both ends: at least two points. -/
def StreamCall.BothEnds : StreamCall → Prop
  | .setPxt _ _ _ n => 2 ≤ n
  | _ => True

/-- All queries have equal answers. -/
structure SameAnswers (p p' : Param) (g : Grid) : Prop where
  marg : ∀ density lw, ∀ w ∈ marginals, ∃ q q', getP p.self w density lw = .ok q ∧ getP p'.self w density lw = .ok q' ∧ q.shape = g.shapeOf w ∧
    q'.shape = g.shapeOf w ∧ ∀ c, g.Has c → q'.get (coords w c) = q.get (coords w c)
  cond : ∀ density lw, ∀ v w, (v, w) ∈ conditionals → ∃ q q', getP p.self (condStr v w) density lw = .ok q ∧ getP p'.self (condStr v w) density lw = .ok q' ∧
    q.shape = g.shapeOf v ++ g.shapeOf w ∧ q'.shape = g.shapeOf v ++ g.shapeOf w ∧ ∀ c, g.Has c →
      q'.get (coords v c ++ coords w c) = q.get (coords v c ++ coords w c)
  /-- means, moments, covariances and correlations, wherever there are stars -/
  mean : p.f2 = 1 → ∀ lw w, ∀ q ∈ ['t','v','x','y','z'], ValidPair (varOf q) w → ∃ r r', getMean p.self (distStr (varOf q) w) lw = .ok r ∧
    getMean p'.self (distStr (varOf q) w) lw = .ok r' ∧ r.shape = compShape (varOf q) ++ g.shapeOf w ∧ r'.shape = r.shape ∧
    ∀ c, g.Has c → Populated p lw w c → r'.get (compIdx q ++ coords w c) = r.get (compIdx q ++ coords w c)
  central : p.f2 = 1 → ∀ lw w (j : ℕ), ∀ q ∈ ['t','v','x','y','z'], ValidPair (varOf q) w → ∃ r r', getCentralMoment p.self (distStr (varOf q) w) j lw = .ok r ∧
    getCentralMoment p'.self (distStr (varOf q) w) j lw = .ok r' ∧ r.shape = compShape (varOf q) ++ g.shapeOf w ∧ r'.shape = r.shape ∧
    ∀ c, g.Has c → Populated p lw w c → r'.get (compIdx q ++ coords w c) = r.get (compIdx q ++ coords w c)
  covariance : p.f2 = 1 → ∀ lw w v v', ValidPair [v, v'] w → ∃ r r', (obj p.self).getCovariance (distStr [v, v'] w) lw = .ok r ∧
    (obj p'.self).getCovariance (distStr [v, v'] w) lw = .ok r' ∧ r.shape = compShape [v] ++ compShape [v'] ++ g.shapeOf w ∧ r'.shape = r.shape ∧
    ∀ q ∈ PyStr.replaceX [v], ∀ q' ∈ PyStr.replaceX [v'], ∀ c, g.Has c → Populated p lw w c →
      r'.get (compIdx q ++ compIdx q' ++ coords w c) = r.get (compIdx q ++ compIdx q' ++ coords w c)
  correlation : p.f2 = 1 → ∀ lw w v v', ValidPair [v, v'] w → ∃ r r', (obj p.self).getCorrelation (distStr [v, v'] w) lw = .ok r ∧
    (obj p'.self).getCorrelation (distStr [v, v'] w) lw = .ok r' ∧ r.shape = compShape [v] ++ compShape [v'] ++ g.shapeOf w ∧ r'.shape = r.shape ∧
    ∀ q ∈ PyStr.replaceX [v], ∀ q' ∈ PyStr.replaceX [v'], ∀ c, g.Has c → Populated p lw w c →
      r'.get (compIdx q ++ compIdx q' ++ coords w c) = r.get (compIdx q ++ compIdx q' ++ coords w c)
  lmoment : ∀ lw w (j : ℕ), 1 ≤ j → ∀ q ∈ ['t','v','z'], ValidPair [q] w → ∃ A r r', getP p.self (distStr [q] w) false lw = .ok A ∧
    (obj p.self).getLMoment (distStr [q] w) j lw = .ok r ∧ (obj p'.self).getLMoment (distStr [q] w) j lw = .ok r' ∧ r.shape = g.shapeOf w ∧
    r'.shape = g.shapeOf w ∧ ∀ c, g.Has c → (∀ i < g.bins q, A.get (i :: coords w c) ≠ .nan) → r'.get (coords w c) = r.get (coords w c)
  datacube : ∀ sp S n, 0 < n → SpectraAre sp g S n n → ∀ batch ∈ ["none".toList, "column".toList, "spaxel".toList], ∃ y y',
    p.evaluateYbar sp batch = .ok y ∧ p'.evaluateYbar sp batch = .ok y' ∧ y.shape = [n, g.nx, g.ny] ∧ y'.shape = [n, g.nx, g.ny] ∧
    ∀ w < n, ∀ i < g.nx, ∀ j < g.ny, y'.get [w, i, j] = y.get [w, i, j]

/-! ### Lemmas -/

theorem SameSky.sameAnswers (h : SameSky p p' g 1 0 0) : SameAnswers p p' g where
  marg d lw w hw := by
    obtain ⟨q, q', h1, h2, h3, h4, h5⟩ := h.marg d lw w hw
    refine ⟨q, q', h1, h2, h3, h4, fun c hc => ?_⟩
    obtain ⟨u, e, e'⟩ := h5 c hc
    rw [e, e']; simp
  cond d lw v w hw := by
    obtain ⟨q, q', h1, h2, h3, h4, h5⟩ := h.cond d lw v w hw
    refine ⟨q, q', h1, h2, h3, h4, fun c hc => ?_⟩
    rcases h5 c hc with ⟨e, e'⟩ | ⟨u, e, e'⟩ <;> rw [e, e']
    simp
  mean hf lw w q hq hw := by
    obtain ⟨r, r', h1, h2, h3, h4, h5⟩ := h.mean hf lw w q hq hw
    refine ⟨r, r', h1, h2, h3, h4, fun c hc h0 => ?_⟩
    obtain ⟨u, e, e'⟩ := h5 c hc h0
    rw [e, e']
    simp [newValue]
  central hf lw w j q hq hw := by
    obtain ⟨r, r', h1, h2, h3, h4, h5⟩ := h.central hf lw w j q hq hw
    refine ⟨r, r', h1, h2, h3, h4, fun c hc h0 => ?_⟩
    obtain ⟨u, e, e'⟩ := h5 c hc h0
    rw [e, e']
    simp [unitOf]
  covariance hf lw w v v' hw := by
    obtain ⟨r, r', h1, h2, h3, h4, h5⟩ := h.covariance hf lw w v v' hw
    refine ⟨r, r', h1, h2, h3, h4, fun q hq q' hq' c hc h0 => ?_⟩
    obtain ⟨u, e, e'⟩ := h5 q hq q' hq' c hc h0
    rw [e, e']
    simp [unitOf]
  correlation := h.correlation
  lmoment := h.lmoment
  datacube := h.datacube

theorem linspace_reverse {a b : ℝ} {n k : ℕ} (hn : 2 ≤ n) (hk : k < n) : Stream.linspaceR b a n k = Stream.linspaceR a b n (n - 1 - k) := by
  unfold Stream.linspaceR
  have h1 : ((n - 1 - k : ℕ) : ℝ) = (n : ℝ) - 1 - k := by
    rw [Nat.cast_sub (by omega), Nat.cast_sub (by omega)]; simp
  have h2 : (n : ℝ) - 1 ≠ 0 := by
    have : (2 : ℝ) ≤ n := by exact_mod_cast hn
    linarith
  rw [h1]
  field_simp
  ring

theorem track_reverse {theta muR : ℝ × ℝ} {n k : ℕ} (hn : 2 ≤ n) (hk : k < n) (hθ : theta.1 ≠ theta.2) :
    trackTheta (theta.2, theta.1) n k = trackTheta theta n (n - 1 - k) ∧
      trackR (theta.2, theta.1) (muR.2, muR.1) n k = trackR theta muR n (n - 1 - k) := by
  have h1 : trackTheta (theta.2, theta.1) n k = trackTheta theta n (n - 1 - k) := linspace_reverse hn hk
  refine ⟨h1, ?_⟩
  unfold trackR
  rw [h1]
  have h2 : theta.2 - theta.1 ≠ 0 := sub_ne_zero.2 (Ne.symm hθ)
  have h3 : theta.1 - theta.2 ≠ 0 := sub_ne_zero.2 hθ
  dsimp only
  generalize trackTheta theta n (n - 1 - k) = τ
  rw [show (τ - theta.2) / (theta.1 - theta.2) = 1 - (τ - theta.1) / (theta.2 - theta.1) by field_simp; ring]
  ring

theorem streamW_reverse {theta muR : ℝ × ℝ} {sig : ℝ} {n : ℕ} (hn : 2 ≤ n) (hθ : theta.1 ≠ theta.2) (c : Cell) :
    streamW g center rotation (theta.2, theta.1) (muR.2, muR.1) sig n c = streamW g center rotation theta muR sig n c := by
  unfold streamW
  rw [← Equiv.sum_comp Fin.revPerm]
  refine Finset.sum_congr rfl fun k _ => ?_
  have hk : (Fin.revPerm k : Fin n).val < n := (Fin.revPerm k).2
  obtain ⟨h1, h2⟩ := track_reverse (muR := muR) hn hk hθ
  have e : n - 1 - (Fin.revPerm k : Fin n).val = k.val := by
    rw [Fin.revPerm_apply, Fin.val_rev]; omega
  rw [h1, h2, e]

theorem streamTotal_reverse {theta muR : ℝ × ℝ} {sig : ℝ} {n : ℕ} (hn : 2 ≤ n) (hθ : theta.1 ≠ theta.2) :
    streamTotal g center rotation (theta.2, theta.1) (muR.2, muR.1) sig n = streamTotal g center rotation theta muR sig n := by
  unfold streamTotal
  simp only [streamW_reverse hn hθ]

theorem streamMu_reverse {theta lims : ℝ × ℝ} (hθ : theta.1 ≠ theta.2) (c : Cell) :
    streamMu g center rotation (theta.2, theta.1) (lims.2, lims.1) c = streamMu g center rotation theta lims c := by
  unfold streamMu alongTrack
  have h2 : theta.2 - theta.1 ≠ 0 := sub_ne_zero.2 (Ne.symm hθ)
  have h3 : theta.1 - theta.2 ≠ 0 := sub_ne_zero.2 hθ
  dsimp only
  generalize frameTheta g center rotation c = φ
  rw [show (φ - theta.2) / (theta.1 - theta.2) = 1 - (φ - theta.1) / (theta.2 - theta.1) by field_simp; ring]
  generalize (φ - theta.1) / (theta.2 - theta.1) = u
  have : max 0 (min 1 (1 - u)) = 1 - max 0 (min 1 u) := by
    rcases le_total u 0 with h0 | h0
    · rw [min_eq_left (by linarith), min_eq_right (by linarith), max_eq_right zero_le_one, max_eq_left h0]; ring
    rcases le_total u 1 with h1 | h1
    · rw [min_eq_right (by linarith), min_eq_right h1, max_eq_right (by linarith), max_eq_right h0]
    · rw [min_eq_right (by linarith), min_eq_left h1, max_eq_left (by linarith), max_eq_right zero_le_one]; ring
  rw [this]; ring

theorem similar_id (g : Grid) : g.similar 1 0 0 = g := by unfold Grid.similar; simp

theorem fromOtherEnd_valid {c : StreamCall} (h : c.Valid) : c.fromOtherEnd.Valid := by
  cases c with
  | setPxt theta muR sig n => exact ⟨h.2.1, h.1, h.2.2.1.symm, h.2.2.2⟩
  | _ => exact h

theorem fromOtherEnd_field (c : StreamCall) : c.fromOtherEnd.field = c.field := by cases c <;> rfl

/-- The limits of the angle named in the other order. -/
def swapped (o : Option (ℝ × ℝ)) : Option (ℝ × ℝ) := o.map fun θ => (θ.2, θ.1)

/-- One call. -/
theorem otherEnd_step {s s' s1 s1' : Stream} (h : SoundStream s g f2 center rotation) (h' : SoundStream s' g f2 center rotation)
    (hU : InUnits s.base s'.base g 1) (hθ : s'.thetaLims = swapped s.thetaLims) (hg : g.Proper) (c : StreamCall) (hv : c.Valid) (hb : c.BothEnds)
    (ht : s.base.logPxt ≠ none ∨ c.field ≠ .mean) (hr : c.run s = .ok s1) (hr' : c.fromOtherEnd.run s' = .ok s1') :
    InUnits s1.base s1'.base g 1 ∧ s1'.thetaLims = swapped s1.thetaLims := by
  cases c with
  | setPt lmd phi q =>
    obtain ⟨p1, j1, j2⟩ := bind_ok hr
    obtain ⟨p1', j1', j2'⟩ := bind_ok hr'
    cases j2
    cases j2'
    exact ⟨hU.setPt j1 j1', hθ⟩
  | setPxt theta muR sig n =>
    obtain ⟨v1, v2, v3, v4, v5⟩ := hv
    obtain ⟨A, k1, k2⟩ := stream_setPxt h.base.built hg (muR := muR) (le_min v1.1 v2.1) (max_le v1.2 v2.2) v3 v4 v5
    obtain ⟨A', k1', k2'⟩ := stream_setPxt h'.base.built hg (theta := (theta.2, theta.1)) (muR := (muR.2, muR.1)) (le_min v2.1 v1.1) (max_le v2.2 v1.2)
      v3.symm v4 v5
    obtain rfl : _ = s1 := Except.ok.inj (k1.symm.trans hr)
    obtain rfl : _ = s1' := Except.ok.inj (k1'.symm.trans hr')
    refine ⟨⟨hU.ssps, hU.f2, hU.zGrid, hU.tPars, hU.logPt, fun B hB => ?_, hU.metal, hU.mean, hU.disp⟩, rfl⟩
    cases hB
    have hT := streamTotal_pos (center := center) (rotation := rotation) (theta := theta) (muR := muR) hg v4 v5
    refine ⟨A', _, rfl, fun c hc => ?_, k2, k2'.congr fun c hc => ?_⟩
    · exact div_pos (div_pos (streamW_pos hg v4 v5 hc.2.2.1 hc.2.2.2.1) hT)
        (mul_pos (sub_pos.2 (hg.x _ hc.2.2.1)) (sub_pos.2 (hg.y _ hc.2.2.2.1)))
    · rw [streamW_reverse hb v3, streamTotal_reverse hb v3]; simp
  | setTDep τ =>
    obtain ⟨B, k1, k2⟩ := stream_setTDep h.base.built hg τ
    obtain ⟨B', k1', k2'⟩ := stream_setTDep h'.base.built hg τ
    obtain rfl : _ = s1 := Except.ok.inj (k1.symm.trans hr)
    obtain rfl : _ = s1' := Except.ok.inj (k1'.symm.trans hr')
    refine ⟨⟨hU.ssps, hU.f2, hU.zGrid, hU.tPars, hU.logPt, hU.space, fun B hB => ?_, hU.mean, hU.disp⟩, hθ⟩
    cases hB
    refine ⟨B', _, rfl, k2, k2'.congr fun c hc => ?_⟩
    rw [hU.zGrid]
  | setMuV lims =>
    have h1 : s.base.logPxt ≠ none := by simpa [StreamCall.field] using ht
    obtain ⟨θ, e⟩ := Option.ne_none_iff_exists'.1 fun e => h1 (h.space.1 e)
    have hn := h.theta θ e
    have e' : s'.thetaLims = some (θ.2, θ.1) := by rw [hθ, e]; rfl
    obtain ⟨A, k1, k2⟩ := stream_setMuV h.base.built (lims := lims) e hn
    obtain ⟨A', k1', k2'⟩ := stream_setMuV h'.base.built (lims := (lims.2, lims.1)) e' hn.symm
    obtain rfl : _ = s1 := Except.ok.inj (k1.symm.trans hr)
    obtain rfl : _ = s1' := Except.ok.inj (k1'.symm.trans hr')
    refine ⟨⟨hU.ssps, hU.f2, hU.zGrid, hU.tPars, hU.logPt, hU.space, hU.metal, fun B hB => ?_, hU.disp⟩, hθ⟩
    cases hB
    refine ⟨A', _, rfl, k2, k2'.congr fun c hc => ?_⟩
    rw [streamMu_reverse hn]
  | setSigV sigV =>
    obtain ⟨A, k1, k2⟩ := stream_setSigV h.base.built sigV
    obtain ⟨A', k1', k2'⟩ := stream_setSigV h'.base.built sigV
    obtain rfl : _ = s1 := Except.ok.inj (k1.symm.trans hr)
    obtain rfl : _ = s1' := Except.ok.inj (k1'.symm.trans hr')
    refine ⟨⟨hU.ssps, hU.f2, hU.zGrid, hU.tPars, hU.logPt, hU.space, hU.metal, hU.mean, fun B hB => ?_⟩, hθ⟩
    cases hB
    exact ⟨A', _, rfl, k2, k2'⟩

/-- A velocity asked for before the track is set: the call fails. -/
theorem early_mean {s s1 : Stream} (h : SoundStream s g f2 center rotation) {c : StreamCall} (hn : ¬ (s.base.logPxt ≠ none ∨ c.field ≠ .mean)) :
    c.run s ≠ .ok s1 := by
  intro hr
  push Not at hn
  cases c with
  | setMuV lims =>
    have e : s.thetaLims = none := h.space.2 hn.1
    simp only [StreamCall.run, Stream.setMuV, e] at hr
    obtain ⟨_, _, j⟩ := bind_ok hr
    obtain ⟨_, j, _⟩ := bind_ok j
    cases j
  | _ => simp [StreamCall.field] at hn

theorem otherEnd_calls (hg : g.Proper) : ∀ (ks : List StreamCall) (s s' s1 : Stream), SoundStream s g f2 center rotation →
    SoundStream s' g f2 center rotation → InUnits s.base s'.base g 1 → s'.thetaLims = swapped s.thetaLims → (∀ c ∈ ks, c.Valid ∧ c.BothEnds) →
    runAll StreamCall.run s ks = .ok s1 → ∃ s1', runAll StreamCall.run s' (ks.map StreamCall.fromOtherEnd) = .ok s1' ∧
      SoundStream s1 g f2 center rotation ∧ SoundStream s1' g f2 center rotation ∧ InUnits s1.base s1'.base g 1 ∧
      s1'.thetaLims = swapped s1.thetaLims ∧ s1.base.cube = s.base.cube
  | [], s, s', s1, h, h', hU, hθ, _, hr => by cases hr; exact ⟨s', rfl, h, h', hU, hθ, rfl⟩
  | c :: ks, s, s', s1, h, h', hU, hθ, hv, hr => by
    obtain ⟨hc, hb⟩ := hv c List.mem_cons_self
    obtain ⟨s2, k1, hr⟩ := bind_ok (show (StreamCall.run s c >>= fun q => runAll StreamCall.run q ks) = .ok s1 from hr)
    have ht : s.base.logPxt ≠ none ∨ c.field ≠ .mean := by
      by_contra hn
      exact early_mean h hn k1
    obtain ⟨s2', k1', k2'⟩ := h'.step hg c.fromOtherEnd (fromOtherEnd_valid hc) (by
      rw [fromOtherEnd_field]
      refine ht.imp (fun h1 => ?_) id
      obtain ⟨A, e⟩ := Option.ne_none_iff_exists'.1 h1
      obtain ⟨A', -, e', -⟩ := hU.space A e
      rw [e']; simp)
    obtain ⟨s2'', k3, k2⟩ := h.step hg c hc ht
    obtain rfl : s2 = s2'' := Except.ok.inj (k1.symm.trans k3)
    obtain ⟨f1, f3⟩ := otherEnd_step h h' hU hθ hg c hc hb ht k1 k1'
    obtain ⟨s1', e1, e2, e3, e4, e5, e6⟩ := otherEnd_calls hg ks s2 s2' s1 k2 k2' f1 f3 (fun c' hc' => hv c' (List.mem_cons_of_mem _ hc')) hr
    refine ⟨s1', ?_, e2, e3, e4, e5, e6.trans (stream_writes k1).1.cube⟩
    show (c.fromOtherEnd.run s' >>= fun q => runAll StreamCall.run q (ks.map StreamCall.fromOtherEnd)) = .ok s1'
    rw [k1']; exact e1

/-! ### C94 -/

/-- **C94.** Take any history of valid setter calls that makes a complete stream, its track sampled at two points or more. The calls with the two ends
named in the other order make a stream too, and the two answer every query alike. -/
theorem C94_other_end {cube : IFUCube} (hc : CubeIs cube g) (hg : g.Proper)
    (hl : IsArr g ['t','z'] cube.ssps.lightWeights (fun c => .fin (L c.t c.z))) (hL : ∀ t z, 0 < L t z)
    (ks : List StreamCall) (hv : ∀ k ∈ ks, k.Valid) (hb : ∀ k ∈ ks, k.BothEnds) (hall : ∀ f : Field, ∃ k ∈ ks, k.field = f) {s : Stream}
    (hp : makeStream f2 cube center rotation ks = .ok s) :
    ∃ s', makeStream f2 cube center rotation (ks.map StreamCall.fromOtherEnd) = .ok s' ∧ SameAnswers s.base s'.base g := by
  obtain ⟨p0, k1, k2, k3, k4⟩ := init_sound hc hg f2 center rotation
  have hr : runAll StreamCall.run ⟨p0, none⟩ ks = .ok s := by
    unfold makeStream Stream.init at hp
    rwa [k1] at hp
  have none_of : ∀ f : Field, ∀ a ∈ f.get p0, ∀ A, a ≠ some A := fun f a ha A e => by rw [k4 f a ha] at e; cases e
  have n : p0.logPxt = none := k4 .space _ (by simp [Field.get])
  have hU : InUnits p0 p0 g 1 := ⟨rfl, rfl, rfl, rfl, rfl, fun A hA => absurd hA (none_of .space _ (by simp [Field.get]) A),
    fun A hA => absurd hA (none_of .metal _ (by simp [Field.get]) A), fun A hA => absurd hA (none_of .mean _ (by simp [Field.get]) A),
    fun A hA => absurd hA (none_of .disp _ (by simp [Field.get]) A)⟩
  obtain ⟨s', e1, e2, e3, e4, -, e5⟩ := otherEnd_calls (f2 := f2) (center := center) (rotation := rotation) hg ks ⟨p0, none⟩ ⟨p0, none⟩ s
    ⟨k3, by simp, by simp [n]⟩ ⟨k3, by simp, by simp [n]⟩ hU rfl (fun c h => ⟨hv c h, hb c h⟩) hr
  refine ⟨s', ?_, ?_⟩
  · unfold makeStream Stream.init
    rw [k1]; exact e1
  have hf : ∀ f : Field, none ∉ f.get s.base := fun f => by
    rw [(set_fields (base := fun s => s.base) (fun {s s' k} h => (stream_writes h).1) ks ⟨p0, none⟩ s hr (fun f => Or.inr (k4 f)) f).1]
    exact Or.inr (hall f)
  obtain ⟨m, i1, i2, i3⟩ := e2.base.paramIs hg (by rw [e5, k2]; exact hl) (fun t z => (hL t z).le) hf
  have j : ParamIs s'.base (g.similar 1 0 0) (m.rescaled 1) L := e4.paramIs i1 (by rw [similar_id]; exact e3.base.built.cubeIs) one_pos i2
  exact (i1.sameSky j (i1.shines (fun t _ z _ => hL t z) i2 i3) one_pos e4.f2).sameAnswers

/-- With one sample point the track is the first end alone: `set_p_x_t` stores the distribution of a round blob there, whatever the other end is. So
the condition on the number of points is needed. -/
theorem C94_one_point {s : Stream} (h : SoundStream s g f2 center rotation) (hg : g.Proper) {theta muR : ℝ × ℝ} {sig : ℝ}
    (hv : (StreamCall.setPxt theta muR sig 1).Valid) :
    ∃ s' A, s.setPxt theta muR sig 1 = .ok s' ∧ s'.base.logPxt = some A ∧ A.shape = [g.nx, g.ny, g.nt] ∧ ∃ T : ℝ, 0 < T ∧
      ∀ c, g.Has c → A.get [c.x, c.y, c.t] = .fin (Real.log (
        (normal (muR.1 * Real.cos theta.1) sig).real (Set.Ioc (frameX g center rotation c - width g.x c.x / 2) (frameX g center rotation c + width g.x c.x / 2)) *
        (normal (muR.1 * Real.sin theta.1) sig).real (Set.Ioc (frameY g center rotation c - width g.y c.y / 2) (frameY g center rotation c + width g.y c.y / 2))
        / T / (width g.x c.x * width g.y c.y))) := by
  obtain ⟨v1, v2, v3, v4, v5⟩ := hv
  obtain ⟨A, k1, k2⟩ := stream_setPxt h.base.built hg (muR := muR) (le_min v1.1 v2.1) (max_le v1.2 v2.2) v3 v4 v5
  have hT := streamTotal_pos (center := center) (rotation := rotation) (theta := theta) (muR := muR) hg v4 v5
  refine ⟨_, A, k1, rfl, ?_, _, hT, fun c hc => ?_⟩
  · have := k2.1
    simpa [sizeM, sizeL] using this
  · have e := k2.2 c hc
    have hW := streamW_pos (center := center) (rotation := rotation) (theta := theta) (muR := muR) hg v4 v5 hc.2.2.1 hc.2.2.2.1
    have hA : 0 < width g.x c.x * width g.y c.y := mul_pos (sub_pos.2 (hg.x _ hc.2.2.1)) (sub_pos.2 (hg.y _ hc.2.2.2.1))
    beta_reduce at e
    rw [Num.lg_pos (div_pos (div_pos hW hT) hA)] at e
    have e0 : trackTheta theta 1 0 = theta.1 := by simp [trackTheta, Stream.linspaceR]
    have e1 : trackR theta muR 1 0 = muR.1 := by simp [trackR, e0]
    have eW : streamW g center rotation theta muR sig 1 c =
        (normal (muR.1 * Real.cos theta.1) sig).real (Set.Ioc (frameX g center rotation c - width g.x c.x / 2) (frameX g center rotation c + width g.x c.x / 2)) *
        (normal (muR.1 * Real.sin theta.1) sig).real (Set.Ioc (frameY g center rotation c - width g.y c.y / 2) (frameY g center rotation c + width g.y c.y / 2)) := by
      simp [streamW, e0, e1]
    rw [← eW]
    simpa [coordM, coordL] using e

/-! ### The hypotheses are met -/

/-- A stream from the angle 0 to the angle 1, and the stream from the angle 1 to the angle 0. -/
example : ∃ (cube : IFUCube) (s s' : Stream) (M M' : Arr Num) (u : ℝ),
    makeStream 1 cube (0, 3 / 2) 0 [.setPt 15 0.5 (0.05, 0.95), .setPxt (0, 1) (1 / 2, 1) (1 / 4) 10, .setTDep 5, .setMuV (-50, 100), .setSigV 20] = .ok s ∧
    makeStream 1 cube (0, 3 / 2) 0 [.setPt 15 0.5 (0.05, 0.95), .setPxt (1, 0) (1, 1 / 2) (1 / 4) 10, .setTDep 5, .setMuV (100, -50), .setSigV 20] = .ok s' ∧
    getP s.base.self "x".toList false true = .ok M ∧ getP s'.base.self "x".toList false true = .ok M' ∧ M.get [1, 2] = .fin u ∧ M'.get [1, 2] = .fin u := by
  obtain ⟨cube, -, hc, hs⟩ := demoCube_exists
  have hpi := Real.two_le_pi
  let ks : List StreamCall := [.setPt 15 0.5 (0.05, 0.95), .setPxt (0, 1) (1 / 2, 1) (1 / 4) 10, .setTDep 5, .setMuV (-50, 100), .setSigV 20]
  have hv : ∀ c ∈ ks, c.Valid := by
    intro c hc
    simp only [ks, List.mem_cons, List.not_mem_nil, or_false] at hc
    rcases hc with rfl | rfl | rfl | rfl | rfl
    · simp only [StreamCall.Valid, ValidSfh]; norm_num
    · refine ⟨⟨by linarith, by linarith⟩, ⟨?_, ?_⟩, by norm_num, by norm_num, by norm_num⟩
      · show -Real.pi ≤ 1; linarith
      · show 1 ≤ Real.pi; linarith
    · trivial
    · trivial
    · show (0:ℝ) < 20; norm_num
  have hb : ∀ c ∈ ks, c.BothEnds := by
    intro c hc
    simp only [ks, List.mem_cons, List.not_mem_nil, or_false] at hc
    rcases hc with rfl | rfl | rfl | rfl | rfl
    · trivial
    · show 2 ≤ 10; norm_num
    all_goals trivial
  obtain ⟨p0, k1, k2, k3, k4⟩ := init_sound hc demoGrid_proper 1 (0, 3 / 2) 0
  have n : p0.logPxt = none := k4 .space _ (by simp [Field.get])
  rcases stream_history demoGrid_proper ks ⟨p0, none⟩ ⟨k3, by simp, by simp [n]⟩ hv with ⟨s, j1, j2, j3⟩ | ⟨-, -, j⟩
  · have hp : makeStream 1 cube (0, 3 / 2) 0 ks = .ok s := by
      unfold makeStream Stream.init
      rw [k1]; exact j1
    obtain ⟨s', e1, e2⟩ := C94_other_end (L := fun t _ => t + 1) hc demoGrid_proper
      (by rw [hs]; exact ⟨rfl, fun c _ => rfl⟩) (fun t _ => by positivity) ks hv hb (fun f => by cases f <;> simp [ks, StreamCall.field]) hp
    obtain ⟨M, M', m1, m2, -, -, m3⟩ := e2.marg false true ['x'] (by decide)
    obtain ⟨m, i1, i2, i3⟩ := j2.base.paramIs (L := fun t _ => t + 1) demoGrid_proper
      (by rw [j3, k2, hs]; exact ⟨rfl, fun c _ => rfl⟩) (fun t z => by positivity)
      (fun f => by
        rw [(set_fields (base := fun s => s.base) (fun {s s' k} h => (stream_writes h).1) ks ⟨p0, none⟩ s j1 (fun f => Or.inr (k4 f)) f).1]
        exact Or.inr (by cases f <;> simp [ks, StreamCall.field]))
    obtain ⟨q, q1, -, q2⟩ := C32_marginals i1 false true (fun _ => i1.shines (fun t _ z _ => by positivity) i2 i3) ['x'] (by decide)
    obtain rfl := Except.ok.inj (q1.symm.trans m1)
    have h12 : demoGrid.Has ⟨0, 0, 1, 2, 0⟩ := by simp [Grid.Has, demoGrid, cubeGrid]
    exact ⟨cube, s, s', q, M', _, hp, e1, m1, m2, q2 _ h12, (m3 _ h12).trans (q2 _ h12)⟩
  · exfalso
    obtain ⟨pre, k, post, j1, j2, j3⟩ := j
    match pre, j1, j2 with
    | [], j1, _ => simp only [List.nil_append, ks, List.cons.injEq] at j1; rw [← j1.1] at j3; cases j3
    | [_], j1, _ => simp only [List.cons_append, List.nil_append, ks, List.cons.injEq] at j1; rw [← j1.2.1] at j3; cases j3
    | k1 :: k2 :: pre, j1, j2 =>
      simp only [List.cons_append, ks, List.cons.injEq] at j1
      exact j2 k2 (by simp) (by rw [← j1.2.1]; rfl)

end PKM
