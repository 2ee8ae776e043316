import Verif.Props.NoGradient
import Verif.Props.Kinematics

/-!
# C111: no mean velocity leaves the limits given to the setters, and no dispersion is smaller or greater than they allow

The mean velocities and the variances that a component returns are averages over ages, pixels and metallicities.  So they obey bounds that the arguments of
`set_mu_v` and `set_sig_v` alone decide.
-/

open scoped Classical
open MeasureTheory

noncomputable section

namespace PKM
open Np Component

variable {g : Grid} {L : ℕ → ℕ → ℝ} {lw : Bool} {p : Param} {m : Ingredients} {f2 : ℝ} {center : ℝ × ℝ} {rotation : ℝ}

/-! ### Specification -/

/-- Every mean velocity `u`, given any variables and weighted by mass or light, lies between `lo` and `hi`; the variance `v` there lies between `s0` squared
and `s1` squared plus `(hi - u) * (u - lo)`, which is at most the square of `(hi - lo) / 2`. -/
def SpeedsBetween (p : Param) (g : Grid) (lo hi s0 s1 : ℝ) : Prop :=
  ∀ lw b, ValidPair ['v'] b → ∃ M V, getMean p.self (distStr ['v'] b) lw = .ok M ∧ (obj p.self).getVariance (distStr ['v'] b) lw = .ok V ∧
    ∀ c, g.Has c → Populated p lw b c → ∃ u v : ℝ, M.get (coords b c) = .fin u ∧ V.get (coords b c) = .fin v ∧
      (lo ≤ u ∧ u ≤ hi) ∧ s0 ^ 2 ≤ v ∧ v ≤ s1 ^ 2 + (hi - u) * (u - lo) ∧ v ≤ s1 ^ 2 + ((hi - lo) / 2) ^ 2

/-- The calls of `set_mu_v` and `set_sig_v` of a disk have arguments within these limits. -/
def DiskCall.Limited (hi s0 s1 : ℝ) : DiskCall → Prop
  | .setMuV _ _ vmax => |vmax.1| ≤ hi ∧ |vmax.2| ≤ hi
  | .setSigV _ _ sIn sOut => (s0 ≤ sIn.1 ∧ s0 ≤ sIn.2 ∧ s0 ≤ sOut.1 ∧ s0 ≤ sOut.2) ∧ sIn.1 ≤ s1 ∧ sIn.2 ≤ s1 ∧ sOut.1 ≤ s1 ∧ sOut.2 ≤ s1
  | _ => True

/-- The same for a stream. -/
def StreamCall.Limited (lo hi s0 s1 : ℝ) : StreamCall → Prop
  | .setMuV lims => (lo ≤ lims.1 ∧ lims.1 ≤ hi) ∧ lo ≤ lims.2 ∧ lims.2 ≤ hi
  | .setSigV sigV => s0 ≤ sigV ∧ sigV ≤ s1
  | _ => True

/-! ### Averages -/

/-- What is the same everywhere is its own average. -/
theorem marginal_sum (m : Ingredients) (lw : Bool) {b : PyStr} (hb : 'v' ∉ b) (k : ℝ) (c : Cell) :
    Ingredients.sumTXZ g (fun d => if coords b d = coords b c then m.weightTXZ g L lw d * k else 0) = m.marginal g L lw b c * k := by
  rw [Ingredients.marginal, if_neg hb, mul_comm, ← sumTXZ_mul]
  refine congrArg _ (funext fun d => ?_)
  split_ifs
  · exact mul_comm _ _
  · simp

/-- Averages of ages, pixels and metallicities. -/
def Ingredients.average (m : Ingredients) (g : Grid) (L : ℕ → ℕ → ℝ) (lw : Bool) (b : PyStr) (F : Cell → ℝ) (c : Cell) : ℝ :=
  Ingredients.sumTXZ g (fun d => if coords b d = coords b c then m.weightTXZ g L lw d * F d else 0) / m.marginal g L lw b c

theorem average_le (hg : g.Proper) (hw : ∀ d, g.Has d → 0 ≤ m.weightTXZ g L lw d) {b : PyStr} {c : Cell} (h0 : 0 < m.marginal g L lw b c) {F G : Cell → ℝ}
    (h : ∀ d, g.Has d → F d ≤ G d) : m.average g L lw b F c ≤ m.average g L lw b G c := by
  unfold Ingredients.average
  refine div_le_div_of_nonneg_right (sumTXZ_le hg fun d hd => ?_) h0.le
  split_ifs
  · exact mul_le_mul_of_nonneg_left (h d hd) (hw d hd)
  · exact le_rfl

theorem average_const {b : PyStr} (hb : 'v' ∉ b) {c : Cell} (h0 : 0 < m.marginal g L lw b c) (k : ℝ) : m.average g L lw b (fun _ => k) c = k := by
  unfold Ingredients.average
  rw [marginal_sum m lw hb, mul_div_cancel_left₀ _ h0.ne']

theorem average_add (F G : Cell → ℝ) (b : PyStr) (c : Cell) : m.average g L lw b (fun d => F d + G d) c = m.average g L lw b F c + m.average g L lw b G c := by
  unfold Ingredients.average
  rw [← add_div, ← sumTXZ_add]
  refine congrArg₂ _ (congrArg _ (funext fun d => ?_)) rfl
  split_ifs
  · exact mul_add _ _ _
  · simp

theorem average_mul (k : ℝ) (F : Cell → ℝ) (b : PyStr) (c : Cell) : m.average g L lw b (fun d => k * F d) c = k * m.average g L lw b F c := by
  unfold Ingredients.average
  rw [mul_div_assoc', ← sumTXZ_mul]
  refine congrArg₂ _ (congrArg _ (funext fun d => ?_)) rfl
  split_ifs
  · exact mul_left_comm _ _ _
  · simp

theorem velExpect_mean (b : PyStr) (c : Cell) : m.velExpect g L lw b (fun v => v) c = m.average g L lw b (fun d => m.mu d.t d.x d.y) c := by
  unfold Ingredients.velExpect Ingredients.average
  simp only [normal_mean]

theorem velExpect_square (a : ℝ) (b : PyStr) (c : Cell) : m.velExpect g L lw b (fun v => (v - a) ^ 2) c =
    m.average g L lw b (fun d => m.sig d.t d.x d.y ^ 2) c + m.average g L lw b (fun d => (m.mu d.t d.x d.y - a) ^ 2) c := by
  rw [← average_add]
  unfold Ingredients.velExpect Ingredients.average
  simp only [spread_about]

/-- The bounds, for the averages. -/
theorem average_bounds (hg : g.Proper) (hw : ∀ d, g.Has d → 0 ≤ m.weightTXZ g L lw d) {b : PyStr} (hb : 'v' ∉ b) {c : Cell} (h0 : 0 < m.marginal g L lw b c)
    {lo hi s0 s1 : ℝ} (hs0 : 0 ≤ s0) (hmu : ∀ d, g.Has d → lo ≤ m.mu d.t d.x d.y ∧ m.mu d.t d.x d.y ≤ hi)
    (hsig : ∀ d, g.Has d → s0 ≤ m.sig d.t d.x d.y ∧ m.sig d.t d.x d.y ≤ s1) :
    let u := m.velExpect g L lw b (fun v => v) c
    let v := m.velExpect g L lw b (fun v => (v - u) ^ 2) c
    (lo ≤ u ∧ u ≤ hi) ∧ s0 ^ 2 ≤ v ∧ v ≤ s1 ^ 2 + (hi - u) * (u - lo) ∧ v ≤ s1 ^ 2 + ((hi - lo) / 2) ^ 2 := by
  intro u v
  have hu : u = m.average g L lw b (fun d => m.mu d.t d.x d.y) c := velExpect_mean b c
  have hv : v = m.average g L lw b (fun d => m.sig d.t d.x d.y ^ 2) c + m.average g L lw b (fun d => (m.mu d.t d.x d.y - u) ^ 2) c := velExpect_square u b c
  have u1 : lo ≤ u := by
    rw [hu, ← average_const hb h0 lo]
    exact average_le hg hw h0 fun d hd => (hmu d hd).1
  have u2 : u ≤ hi := by
    rw [hu, ← average_const hb h0 hi]
    exact average_le hg hw h0 fun d hd => (hmu d hd).2
  have v1 : s0 ^ 2 ≤ m.average g L lw b (fun d => m.sig d.t d.x d.y ^ 2) c := by
    rw [← average_const hb h0 (s0 ^ 2)]
    exact average_le hg hw h0 fun d hd => pow_le_pow_left₀ hs0 (hsig d hd).1 2
  have v2 : m.average g L lw b (fun d => m.sig d.t d.x d.y ^ 2) c ≤ s1 ^ 2 := by
    rw [← average_const hb h0 (s1 ^ 2)]
    exact average_le hg hw h0 fun d hd => pow_le_pow_left₀ (hs0.trans (hsig d hd).1) (hsig d hd).2 2
  have v3 : 0 ≤ m.average g L lw b (fun d => (m.mu d.t d.x d.y - u) ^ 2) c := by
    refine (average_const (m := m) hb h0 0).symm.trans_le ?_
    exact average_le hg hw h0 fun d hd => sq_nonneg _
  have v4 : m.average g L lw b (fun d => (m.mu d.t d.x d.y - u) ^ 2) c ≤ (hi - u) * (u - lo) := by
    have : m.average g L lw b (fun d => (hi + lo - 2 * u) * m.mu d.t d.x d.y + (u ^ 2 - hi * lo)) c = (hi - u) * (u - lo) := by
      rw [average_add, average_mul, average_const hb h0, ← hu]
      ring
    rw [← this]
    exact average_le hg hw h0 fun d hd => by nlinarith [mul_nonneg (sub_nonneg.2 (hmu d hd).1) (sub_nonneg.2 (hmu d hd).2)]
  refine ⟨⟨u1, u2⟩, by linarith, by linarith, ?_⟩
  nlinarith [sq_nonneg (hi + lo - 2 * u)]

/-! ### What the setters store -/

/-- The bounds, for the stored arrays. -/
structure Stores (p : Param) (g : Grid) (lo hi s0 s1 : ℝ) : Prop where
  mean : ∀ A, p.muV = some A → ∀ t < g.nt, ∀ x < g.nx, ∀ y < g.ny, ∃ u : ℝ, A.get [t, x, y] = .fin u ∧ lo ≤ u ∧ u ≤ hi
  disp : ∀ A, p.sigV = some A → ∀ t < g.nt, ∀ x < g.nx, ∀ y < g.ny, ∃ u : ℝ, A.get [t, x, y] = .fin u ∧ s0 ≤ u ∧ u ≤ s1

section
variable {lo hi s0 s1 : ℝ}

theorem Stores.init {p0 : Param} (k4 : ∀ f : Field, ∀ a ∈ f.get p0, a = none) : Stores p0 g lo hi s0 s1 := by
  have none_of : ∀ f : Field, ∀ a ∈ f.get p0, ∀ A, a ≠ some A := fun f a ha A e => by rw [k4 f a ha] at e; cases e
  exact ⟨fun A hA => absurd hA (none_of .mean _ (by simp [Field.get]) A), fun A hA => absurd hA (none_of .disp _ (by simp [Field.get]) A)⟩

/-- A setter that writes neither. -/
theorem Stores.frame {p' : Param} (hM : Stores p g lo hi s0 s1) (h1 : p'.muV = p.muV) (h2 : p'.sigV = p.sigV) : Stores p' g lo hi s0 s1 :=
  ⟨by rw [h1]; exact hM.mean, by rw [h2]; exact hM.disp⟩

theorem Stores.disk (h : Sound p g f2 center rotation) (hM : Stores p g (-hi) hi s0 s1) (hg : g.Proper) (hx : ∃ c, g.Has c ∧ frameX g center rotation c ≠ 0)
    (k : DiskCall) (hv : k.Valid) (he : k.Limited hi s0 s1) (ht : p.logPt ≠ none ∨ k.field = .age ∨ k.field = .metal) {p' : Param} (hr : k.run p = .ok p') :
    Stores p' g (-hi) hi s0 s1 := by
  have hw := disk_writes hr
  have other : k.field ≠ .mean → k.field ≠ .disp → Stores p' g (-hi) hi s0 s1 := fun n1 n2 => by
    have f3 := hw.frame (f' := .mean) n1.symm
    have f4 := hw.frame (f' := .disp) n2.symm
    simp only [Field.get, List.cons.injEq, and_true] at f3 f4
    exact hM.frame f3 f4
  cases k with
  | setPt lmd phi q => exact other (by simp [DiskCall.field]) (by simp [DiskCall.field])
  | setPxt q rc alpha => exact other (by simp [DiskCall.field]) (by simp [DiskCall.field])
  | setTDep q alpha tIn tOut tMin tMax => exact other (by simp [DiskCall.field]) (by simp [DiskCall.field])
  | setMuV q rmax vmax =>
    obtain ⟨s, e, ha⟩ := h.aged (by simpa [DiskCall.field] using ht)
    obtain ⟨v1, v2, v3⟩ := hv
    obtain ⟨p1, A, k1, k2, -, k3⟩ := C37_rotation h.built hg ha q rmax vmax v1 v2 v3
    obtain rfl : p1 = p' := Except.ok.inj (k1.symm.trans hr)
    have f4 := hw.frame (f' := .disp) (by simp [DiskCall.field])
    simp only [Field.get, List.cons.injEq, and_true] at f4
    refine ⟨fun B hB t ht x hx y hy => ?_, by rw [f4]; exact hM.disp⟩
    obtain rfl : A = B := Option.some.inj (k2.symm.trans hB)
    obtain ⟨u, u1, -, u2, -⟩ := k3 t ht x hx y hy
    exact ⟨u, u1, abs_le.1 (u2.trans (max_le he.1 he.2))⟩
  | setSigV q alpha sIn sOut =>
    obtain ⟨s, e, ha⟩ := h.aged (by simpa [DiskCall.field] using ht)
    obtain ⟨v1, v2, v3, v4⟩ := hv
    obtain ⟨p1, A, k1, k2, -, k3⟩ := C37_dispersion h.built hg ha hx q alpha sIn sOut v1 v2 v3 v4
    obtain rfl : p1 = p' := Except.ok.inj (k1.symm.trans hr)
    have f3 := hw.frame (f' := .mean) (by simp [DiskCall.field])
    simp only [Field.get, List.cons.injEq, and_true] at f3
    refine ⟨by rw [f3]; exact hM.mean, fun B hB t ht x hx y hy => ?_⟩
    obtain rfl : A = B := Option.some.inj (k2.symm.trans hB)
    obtain ⟨u, u1, -, -, -, u2, u3, -⟩ := k3 t ht x hx y hy
    obtain ⟨⟨l1, l2, l3, l4⟩, l5, l6, l7, l8⟩ := he
    exact ⟨u, u1, (le_min (le_min l1 l2) (le_min l3 l4)).trans u2, u3.trans (max_le (max_le l5 l6) (max_le l7 l8))⟩

theorem Stores.calls (hg : g.Proper) (hx : ∃ c, g.Has c ∧ frameX g center rotation c ≠ 0) :
    ∀ (ks : List DiskCall) (p p' : Param), Sound p g f2 center rotation → Stores p g (-hi) hi s0 s1 → (∀ k ∈ ks, k.Valid ∧ k.Limited hi s0 s1) →
      runAll DiskCall.run p ks = .ok p' → Sound p' g f2 center rotation ∧ Stores p' g (-hi) hi s0 s1 ∧ p'.cube = p.cube
  | [], p, p', h, hM, _, hr => by cases hr; exact ⟨h, hM, rfl⟩
  | k :: ks, p, p', h, hM, hv, hr => by
    obtain ⟨hk, he⟩ := hv k List.mem_cons_self
    by_cases ht : p.logPt ≠ none ∨ k.field = .age ∨ k.field = .metal
    · obtain ⟨p1, k1, k2⟩ := h.disk hg hx k hk ht
      have hr' : runAll DiskCall.run p1 ks = .ok p' := by
        have : (DiskCall.run p k >>= fun q => runAll DiskCall.run q ks) = .ok p' := hr
        rwa [k1] at this
      obtain ⟨a, b, c⟩ := Stores.calls hg hx ks p1 p' k2 (hM.disk h hg hx k hk he ht k1) (fun k' hk' => hv k' (List.mem_cons_of_mem _ hk')) hr'
      exact ⟨a, b, c.trans (disk_writes k1).cube⟩
    · push Not at ht
      have : (DiskCall.run p k >>= fun q => runAll DiskCall.run q ks) = .ok p' := hr
      rw [h.disk_early k hk ht.1 ht.2] at this
      cases this

theorem streamMu_mem {theta lims : ℝ × ℝ} (c : Cell) (h1 : lo ≤ lims.1 ∧ lims.1 ≤ hi) (h2 : lo ≤ lims.2 ∧ lims.2 ≤ hi) :
    lo ≤ streamMu g center rotation theta lims c ∧ streamMu g center rotation theta lims c ≤ hi := by
  unfold streamMu
  have a0 : 0 ≤ alongTrack theta (frameTheta g center rotation c) := le_max_left _ _
  have a1 : alongTrack theta (frameTheta g center rotation c) ≤ 1 := max_le zero_le_one (min_le_left _ _)
  generalize alongTrack theta (frameTheta g center rotation c) = κ at *
  constructor <;> nlinarith [mul_nonneg a0 (sub_nonneg.2 h2.1), mul_nonneg a0 (sub_nonneg.2 h2.2), mul_nonneg (sub_nonneg.2 a1) (sub_nonneg.2 h1.1),
    mul_nonneg (sub_nonneg.2 a1) (sub_nonneg.2 h1.2)]

theorem Stores.stream {s s1' : Stream} (h : SoundStream s g f2 center rotation) (hM : Stores s.base g lo hi s0 s1) (hg : g.Proper) (c : StreamCall)
    (he : c.Limited lo hi s0 s1) (ht : s.base.logPxt ≠ none ∨ c.field ≠ .mean) (hr : c.run s = .ok s1') : Stores s1'.base g lo hi s0 s1 := by
  have hw := (stream_writes hr).1
  have other : c.field ≠ .mean → c.field ≠ .disp → Stores s1'.base g lo hi s0 s1 := fun n1 n2 => by
    have f3 := hw.frame (f' := .mean) n1.symm
    have f4 := hw.frame (f' := .disp) n2.symm
    simp only [Field.get, List.cons.injEq, and_true] at f3 f4
    exact hM.frame f3 f4
  cases c with
  | setPt lmd phi q => exact other (by simp [StreamCall.field]) (by simp [StreamCall.field])
  | setPxt theta muR sig n => exact other (by simp [StreamCall.field]) (by simp [StreamCall.field])
  | setTDep τ => exact other (by simp [StreamCall.field]) (by simp [StreamCall.field])
  | setMuV lims =>
    have h1 : s.base.logPxt ≠ none := by simpa [StreamCall.field] using ht
    obtain ⟨θ, e⟩ := Option.ne_none_iff_exists'.1 fun e => h1 (h.space.1 e)
    obtain ⟨A, k1, k2⟩ := stream_setMuV h.base.built (lims := lims) e (h.theta θ e)
    obtain rfl : _ = s1' := Except.ok.inj (k1.symm.trans hr)
    refine ⟨fun B hB t ht x hx y hy => ?_, hM.disp⟩
    cases hB
    exact ⟨_, k2.2 ⟨t, 0, x, y, 0⟩ ⟨ht, hg.nv, hx, hy, hg.nz⟩, streamMu_mem _ he.1 he.2⟩
  | setSigV sigV =>
    obtain ⟨A, k1, k2⟩ := stream_setSigV h.base.built sigV
    obtain rfl : _ = s1' := Except.ok.inj (k1.symm.trans hr)
    refine ⟨hM.mean, fun B hB t ht x hx y hy => ?_⟩
    cases hB
    exact ⟨_, k2.2 ⟨t, 0, x, y, 0⟩ ⟨ht, hg.nv, hx, hy, hg.nz⟩, he⟩

theorem Stores.streamCalls (hg : g.Proper) : ∀ (ks : List StreamCall) (s s1' : Stream), SoundStream s g f2 center rotation → Stores s.base g lo hi s0 s1 →
    (∀ c ∈ ks, c.Valid ∧ c.Limited lo hi s0 s1) → runAll StreamCall.run s ks = .ok s1' → Stores s1'.base g lo hi s0 s1
  | [], s, s1', h, hM, _, hr => by cases hr; exact hM
  | c :: ks, s, s1', h, hM, hv, hr => by
    obtain ⟨hc, he⟩ := hv c List.mem_cons_self
    obtain ⟨s2, k1, hr⟩ := bind_ok (show (StreamCall.run s c >>= fun q => runAll StreamCall.run q ks) = .ok s1' from hr)
    have ht : s.base.logPxt ≠ none ∨ c.field ≠ .mean := by
      by_contra hn
      exact early_mean h hn k1
    obtain ⟨s2'', k3, k2⟩ := h.step hg c hc ht
    obtain rfl : s2 = s2'' := Except.ok.inj (k1.symm.trans k3)
    exact Stores.streamCalls hg ks s2 s1' k2 (hM.stream h hg c he ht k1) (fun c' hc' => hv c' (List.mem_cons_of_mem _ hc')) hr

/-- What is stored is what the component is made of. -/
theorem Stores.mu (hM : Stores p g lo hi s0 s1) (h : ParamIs p g m L) (d : Cell) (hd : g.Has d) : lo ≤ m.mu d.t d.x d.y ∧ m.mu d.t d.x d.y ≤ hi := by
  obtain ⟨C, c1, -, c3⟩ := h.muV
  obtain ⟨u, u1, u2⟩ := hM.mean C c1 d.t hd.1 d.x hd.2.2.1 d.y hd.2.2.2.1
  obtain rfl : m.mu d.t d.x d.y = u := Num.fin.inj ((c3 d hd).symm.trans u1)
  exact u2

theorem Stores.sig (hM : Stores p g lo hi s0 s1) (h : ParamIs p g m L) (d : Cell) (hd : g.Has d) : s0 ≤ m.sig d.t d.x d.y ∧ m.sig d.t d.x d.y ≤ s1 := by
  obtain ⟨C, c1, -, c3⟩ := h.sigV
  obtain ⟨u, u1, u2⟩ := hM.disp C c1 d.t hd.1 d.x hd.2.2.1 d.y hd.2.2.2.1
  obtain rfl : m.sig d.t d.x d.y = u := Num.fin.inj ((c3 d hd).symm.trans u1)
  exact u2

theorem marginal_pos (h : ParamIs p g m L) (hl : Shines g m L) (lw : Bool) {b : PyStr} (hb : ValidPair ['v'] b) {c : Cell} (hc : g.Has c)
    (hp : Populated p lw b c) : 0 < m.marginal g L lw b c := by
  have hv := noV_of_valid hb
  refine lt_of_le_of_ne ?_ (Populated.ne h hl (valid_marginals hb) hc hp).symm
  rw [Ingredients.marginal, if_neg hv]
  refine sumTXZ_nonneg h.proper fun d hd => ?_
  split_ifs
  · exact stars_weight h lw (fun _ => hl) d hd
  · exact le_rfl

theorem Stores.between (hM : Stores p g lo hi s0 s1) (h : ParamIs p g m L) (hf : p.f2 = 1) (hl : Shines g m L) (hs0 : 0 ≤ s0) :
    SpeedsBetween p g lo hi s0 s1 := by
  intro lw b hb
  obtain ⟨M, m1, -, m2⟩ := C34_mean h lw (fun _ => hl) hb
  obtain ⟨V, n1, -, n2⟩ := C34_central h hf lw (fun _ => hl) 2 hb
  refine ⟨M, V, m1, n1, fun c hc hp => ?_⟩
  have h0 := marginal_pos h hl lw hb hc hp
  exact ⟨_, _, m2 c hc h0.ne', n2 c hc h0.ne',
    average_bounds h.proper (stars_weight h lw fun _ => hl) (noV_of_valid hb) h0 hs0 (hM.mu h) (hM.sig h)⟩

/-- Where position is given, all stars move alike. -/
theorem velExpect_pixel {b : PyStr} (hb : 'v' ∉ b) (hx : 'x' ∈ b) {c : Cell} (hc : g.Has c) (hg : g.Proper) (h0 : 0 < m.marginal g L lw b c) {σ : ℝ}
    (hmu : ∀ t < g.nt, ∀ x < g.nx, ∀ y < g.ny, m.mu t x y = m.mu 0 x y) (hsig : ∀ d, g.Has d → m.sig d.t d.x d.y = σ) (φ : ℝ → ℝ) :
    m.velExpect g L lw b φ c = ∫ v, φ v ∂(normal (m.mu c.t c.x c.y) σ) := by
  refine Eq.trans ?_ (average_const (m := m) hb h0 _)
  unfold Ingredients.velExpect Ingredients.average
  have : ∀ d, g.Has d → (if coords b d = coords b c then m.weightTXZ g L lw d * ∫ v, φ v ∂(normal (m.mu d.t d.x d.y) (m.sig d.t d.x d.y)) else 0) =
      if coords b d = coords b c then m.weightTXZ g L lw d * ∫ v, φ v ∂(normal (m.mu c.t c.x c.y) σ) else 0 := fun d hd => by
    by_cases e : coords b d = coords b c
    · rw [if_pos e, if_pos e, hsig d hd, hmu d.t hd.1 d.x hd.2.2.1 d.y hd.2.2.2.1, hmu c.t hc.1 c.x hc.2.2.1 c.y hc.2.2.2.1]
      have : d.x = c.x ∧ d.y = c.y := by simpa [coord1] using coords_iff.1 e 'x' hx
      rw [this.1, this.2]
    · rw [if_neg e, if_neg e]
  exact congrArg₂ _ (le_antisymm (sumTXZ_le hg fun d hd => (this d hd).le) (sumTXZ_le hg fun d hd => (this d hd).ge)) rfl

theorem limits_exist {σ : ℝ} : ∀ ks : List StreamCall, (∀ k ∈ ks, ∀ σ', k = .setSigV σ' → σ' = σ) → ∃ B : ℝ, ∀ k ∈ ks, k.Limited (-B) B σ σ
  | [], _ => ⟨0, by simp⟩
  | k :: ks, h => by
    obtain ⟨B, hB⟩ := limits_exist ks fun k' hk' => h k' (List.mem_cons_of_mem _ hk')
    have up : ∀ {B' : ℝ}, B ≤ B' → ∀ k' ∈ ks, k'.Limited (-B') B' σ σ := fun hBB k' hk' => by
      have := hB k' hk'
      cases k' <;> simp only [StreamCall.Limited] at this ⊢
      · exact ⟨⟨by linarith, by linarith⟩, by linarith, by linarith⟩
      · exact this
    have hk := h k List.mem_cons_self
    cases k with
    | setMuV l =>
      refine ⟨max B (max |l.1| |l.2|), fun k' hk' => ?_⟩
      rcases List.mem_cons.1 hk' with rfl | hk'
      · exact ⟨abs_le.1 ((le_max_left _ _).trans (le_max_right _ _)), abs_le.1 ((le_max_right _ _).trans (le_max_right _ _))⟩
      · exact up (le_max_left _ _) k' hk'
    | setSigV σ' =>
      refine ⟨B, fun k' hk' => ?_⟩
      rcases List.mem_cons.1 hk' with rfl | hk'
      · exact ⟨(hk _ rfl).ge, (hk _ rfl).le⟩
      · exact hB k' hk'
    | _ =>
      refine ⟨B, fun k' hk' => ?_⟩
      rcases List.mem_cons.1 hk' with rfl | hk'
      · trivial
      · exact hB k' hk'

end

/-! ### C111 -/

/-- **C111, streams.** Any history of valid setter calls that makes a complete stream, with velocities between `lo` and `hi` and dispersions between `s0` and
`s1`. -/
theorem C111_streams {cube : IFUCube} (hc : CubeIs cube g) (hg : g.Proper) (hl : IsArr g ['t','z'] cube.ssps.lightWeights (fun c => .fin (L c.t c.z)))
    (hL : ∀ t z, 0 < L t z) (ks : List StreamCall) (hv : ∀ k ∈ ks, k.Valid) (hall : ∀ f : Field, ∃ k ∈ ks, k.field = f) {s : Stream}
    (hp : makeStream 1 cube center rotation ks = .ok s) {lo hi s0 s1 : ℝ} (hs0 : 0 ≤ s0) (he : ∀ k ∈ ks, k.Limited lo hi s0 s1) :
    SpeedsBetween s.base g lo hi s0 s1 := by
  obtain ⟨p0, k1, k2, k3, k4⟩ := init_sound hc hg 1 center rotation
  have hr : runAll StreamCall.run ⟨p0, none⟩ ks = .ok s := by
    unfold makeStream Stream.init at hp
    rwa [k1] at hp
  have n : p0.logPxt = none := k4 .space _ (by simp [Field.get])
  obtain ⟨e2, -, e4⟩ := AgeFree.streamCalls (f2 := 1) (center := center) (rotation := rotation) hg ks ⟨p0, none⟩ s ⟨k3, by simp, by simp [n]⟩ (AgeFree.init k4) hv hr
  have e3 := Stores.streamCalls (f2 := 1) (center := center) (rotation := rotation) hg ks ⟨p0, none⟩ s ⟨k3, by simp, by simp [n]⟩ (Stores.init k4)
    (fun k hk => ⟨hv k hk, he k hk⟩) hr
  have hf : ∀ f : Field, none ∉ f.get s.base := fun f => by
    rw [(set_fields (base := fun s => s.base) (fun {s s' k} h => (stream_writes h).1) ks ⟨p0, none⟩ s hr (fun f => Or.inr (k4 f)) f).1]
    exact Or.inr (hall f)
  obtain ⟨m, i1, i2, i3⟩ := e2.base.paramIs hg (by rw [e4, k2]; exact hl) (fun t z => (hL t z).le) hf
  exact e3.between i1 e2.base.built.f2 (i1.shines (fun t _ z _ => hL t z) i2 i3) hs0

/-- **C111, disks.** Any history of valid setter calls that makes a complete growing disk, with speeds of at most `hi` and dispersions between `s0` and `s1`. -/
theorem C111_disks {cube : IFUCube} (hc : CubeIs cube g) (hg : g.Proper) (hl : IsArr g ['t','z'] cube.ssps.lightWeights (fun c => .fin (L c.t c.z)))
    (hL : ∀ t z, 0 < L t z) (hx : ∃ c, g.Has c ∧ frameX g center rotation c ≠ 0) (ks : List DiskCall) (hv : ∀ k ∈ ks, k.Valid)
    (hall : ∀ f : Field, ∃ k ∈ ks, k.field = f) (hp : makeDisk 1 cube center rotation ks = .ok p) {hi s0 s1 : ℝ} (hs0 : 0 ≤ s0)
    (he : ∀ k ∈ ks, k.Limited hi s0 s1) : SpeedsBetween p g (-hi) hi s0 s1 := by
  obtain ⟨p0, k1, k2, k3, k4⟩ := init_sound hc hg 1 center rotation
  have hr : runAll DiskCall.run p0 ks = .ok p := by
    unfold makeDisk at hp
    rwa [k1] at hp
  obtain ⟨e2, e3, e4⟩ := Stores.calls hg hx ks p0 p k3 (Stores.init k4) (fun k hk => ⟨hv k hk, he k hk⟩) hr
  have hf : ∀ f : Field, none ∉ f.get p := fun f => by
    rw [(set_fields (base := fun p => p) (fun {s s' k} h => disk_writes h) ks p0 p hr (fun f => Or.inr (k4 f)) f).1]
    exact Or.inr (hall f)
  obtain ⟨m, i1, i2, i3⟩ := e2.paramIs hg (by rw [e4, k2]; exact hl) (fun t z => (hL t z).le) hf
  exact e3.between i1 e2.built.f2 (i1.shines (fun t _ z _ => hL t z) i2 i3) hs0

/-- **C111, in one pixel of a stream.** Given the position, and whatever else, the mean velocity is the one that `set_mu_v` stored for this position, and the
central moments are those of a normal distribution of the dispersion given to `set_sig_v`. -/
theorem C111_stream_pixels {cube : IFUCube} (hc : CubeIs cube g) (hg : g.Proper) (hl : IsArr g ['t','z'] cube.ssps.lightWeights (fun c => .fin (L c.t c.z)))
    (hL : ∀ t z, 0 < L t z) (ks : List StreamCall) (hv : ∀ k ∈ ks, k.Valid) (hall : ∀ f : Field, ∃ k ∈ ks, k.field = f) {s : Stream}
    (hp : makeStream 1 cube center rotation ks = .ok s) {σ : ℝ} (he : ∀ k ∈ ks, ∀ σ', k = .setSigV σ' → σ' = σ) (lw : Bool) {b : PyStr}
    (hb : ValidPair ['v'] b) (hx : 'x' ∈ b) (j : ℕ) :
    ∃ M C U, getMean s.base.self (distStr ['v'] b) lw = .ok M ∧ getCentralMoment s.base.self (distStr ['v'] b) j lw = .ok C ∧ s.base.muV = some U ∧
      ∀ c, g.Has c → Populated s.base lw b c →
        M.get (coords b c) = U.get [0, c.x, c.y] ∧ C.get (coords b c) = .fin (∫ v, v ^ j ∂(normal 0 σ)) := by
  obtain ⟨p0, k1, k2, k3, k4⟩ := init_sound hc hg 1 center rotation
  have hr : runAll StreamCall.run ⟨p0, none⟩ ks = .ok s := by
    unfold makeStream Stream.init at hp
    rwa [k1] at hp
  have n : p0.logPxt = none := k4 .space _ (by simp [Field.get])
  obtain ⟨B, hB⟩ := limits_exist ks he
  obtain ⟨e2, e5, e4⟩ := AgeFree.streamCalls (f2 := 1) (center := center) (rotation := rotation) hg ks ⟨p0, none⟩ s ⟨k3, by simp, by simp [n]⟩ (AgeFree.init k4) hv hr
  have e3 := Stores.streamCalls (f2 := 1) (center := center) (rotation := rotation) hg ks ⟨p0, none⟩ s ⟨k3, by simp, by simp [n]⟩ (Stores.init k4)
    (fun k hk => ⟨hv k hk, hB k hk⟩) hr
  have hf : ∀ f : Field, none ∉ f.get s.base := fun f => by
    rw [(set_fields (base := fun s => s.base) (fun {s s' k} h => (stream_writes h).1) ks ⟨p0, none⟩ s hr (fun f => Or.inr (k4 f)) f).1]
    exact Or.inr (hall f)
  obtain ⟨m, i1, i2, i3⟩ := e2.base.paramIs hg (by rw [e4, k2]; exact hl) (fun t z => (hL t z).le) hf
  have hS := i1.shines (fun t _ z _ => hL t z) i2 i3
  have E := e5.even i1 i2 i3
  have hsig : ∀ d, g.Has d → m.sig d.t d.x d.y = σ := fun d hd => le_antisymm (e3.sig i1 d hd).2 (e3.sig i1 d hd).1
  have hvb := noV_of_valid hb
  obtain ⟨M, m1, -, m2⟩ := C34_mean i1 lw (fun _ => hS) hb
  obtain ⟨C, n1, -, n2⟩ := C34_central i1 e2.base.built.f2 lw (fun _ => hS) j hb
  obtain ⟨U, u1, u2⟩ := i1.muV
  refine ⟨M, C, U, m1, n1, u1, fun c hc hP => ?_⟩
  have h0 := marginal_pos i1 hS lw hb hc hP
  have ev := fun φ => velExpect_pixel (lw := lw) (L := L) hvb hx hc hg h0 E.mu hsig φ
  rw [m2 c hc h0.ne', n2 c hc h0.ne', ev (fun v => v), normal_mean, ev, normal_moment]
  refine ⟨?_, ?_⟩
  · rw [E.mu c.t hc.1 c.x hc.2.2.1 c.y hc.2.2.2.1]
    exact (u2.2 ⟨0, 0, c.x, c.y, 0⟩ ⟨hg.nt, hg.nv, hc.2.2.1, hc.2.2.2.1, hg.nz⟩).symm
  · have := normal_moment 0 σ 0 j
    simp only [sub_zero] at this
    rw [this]
    simp only [sub_self]

/-- **C111, hotter streams.** Replacing the dispersion `σ` of a stream by `σ'` adds the same to all its variances of the velocity, `σ'` squared minus `σ`
squared, whatever is given and whatever the weights, and leaves its mean velocities as they are. -/
theorem C111_hotter_streams {s : Stream} (h : SoundStream s g 1 center rotation) (hg : g.Proper)
    (hset : ∀ f : Field, none ∉ f.get s.base) (hl : IsArr g ['t','z'] s.base.cube.ssps.lightWeights (fun c => .fin (L c.t c.z)))
    (hL : ∀ t z, 0 < L t z) {σ σ' : ℝ} (h1 : 0 < σ) (h2 : 0 < σ') :
    ∃ s1 s2, s.setSigV σ = .ok s1 ∧ s.setSigV σ' = .ok s2 ∧ ∀ lw b, ValidPair ['v'] b →
      ∃ M M' V V', getMean s1.base.self (distStr ['v'] b) lw = .ok M ∧ getMean s2.base.self (distStr ['v'] b) lw = .ok M' ∧
        (obj s1.base.self).getVariance (distStr ['v'] b) lw = .ok V ∧ (obj s2.base.self).getVariance (distStr ['v'] b) lw = .ok V' ∧
        ∀ c, g.Has c → Populated s.base lw b c → ∃ u v : ℝ, M.get (coords b c) = .fin u ∧ M'.get (coords b c) = .fin u ∧
          V.get (coords b c) = .fin v ∧ V'.get (coords b c) = .fin (v + (σ' ^ 2 - σ ^ 2)) := by
  obtain ⟨m, hp, hpx, hpz⟩ := h.base.paramIs hg hl (fun t z => (hL t z).le) hset
  obtain ⟨A, a1, a2⟩ := stream_setSigV h.base.built σ
  obtain ⟨A', b1, b2⟩ := stream_setSigV h.base.built σ'
  have q1 := hp.withDisp (q := fun _ _ _ => σ) (fun _ _ _ => h1) (a2.congr fun c hc => rfl)
  have q2 := hp.withDisp (q := fun _ _ _ => σ') (fun _ _ _ => h2) (b2.congr fun c hc => rfl)
  have hS := hp.shines (fun t _ z _ => hL t z) hpx hpz
  refine ⟨_, _, a1, b1, fun lw b hb => ?_⟩
  have hvb := noV_of_valid hb
  have s1 := q1.shines (fun t _ z _ => hL t z) hpx hpz
  have s2 := q2.shines (fun t _ z _ => hL t z) hpx hpz
  obtain ⟨M, m1, -, m2⟩ := C34_mean q1 lw (fun _ => s1) hb
  obtain ⟨M', m1', -, m2'⟩ := C34_mean q2 lw (fun _ => s2) hb
  obtain ⟨V, n1, -, n2⟩ := C34_central q1 h.base.built.f2 lw (fun _ => s1) 2 hb
  obtain ⟨V', n1', -, n2'⟩ := C34_central q2 h.base.built.f2 lw (fun _ => s2) 2 hb
  refine ⟨M, M', V, V', m1, m1', n1, n1', fun c hc hP => ?_⟩
  have h0 := marginal_pos hp hS lw hb hc hP
  have e1 : Ingredients.marginal { m with sig := fun _ _ _ => σ } g L lw b c = m.marginal g L lw b c := marginal_moving m m.mu _ lw hvb c
  have e2 : Ingredients.marginal { m with sig := fun _ _ _ => σ' } g L lw b c = m.marginal g L lw b c := marginal_moving m m.mu _ lw hvb c
  have av : ∀ (τ : ℝ) (F : Cell → ℝ), Ingredients.average { m with sig := fun _ _ _ => τ } g L lw b F c = m.average g L lw b F c := fun τ F => by
    unfold Ingredients.average
    rw [marginal_moving m m.mu _ lw hvb c, weightTXZ_moving m m.mu]
  rw [m2 c hc (by rw [e1]; exact h0.ne'), m2' c hc (by rw [e2]; exact h0.ne'), n2 c hc (by rw [e1]; exact h0.ne'), n2' c hc (by rw [e2]; exact h0.ne')]
  simp only [velExpect_mean, velExpect_square, av, average_const hvb h0]
  exact ⟨_, _, rfl, rfl, rfl, congrArg _ (by ring)⟩

/-! ### The hypotheses are met -/

/-- A stream whose mean velocity runs from -50 to 100 along the track, with a dispersion of 20: its variance is between 400 and 6025, in any pixel 400, and
with a dispersion of 30 it is greater by 500. -/
example : ∃ (cube : IFUCube) (s s1 s2 : Stream) (M V C W W' : Arr Num) (u v w : ℝ),
    makeStream 1 cube (0, 3 / 2) 0 [.setPt 15 0.5 (0.05, 0.95), .setPxt (0, 1) (1 / 2, 1) (1 / 4) 10, .setTDep 5, .setMuV (-50, 100), .setSigV 20] = .ok s ∧
    getMean s.base.self ['v'] true = .ok M ∧ (obj s.base.self).getVariance ['v'] true = .ok V ∧ M.get [] = .fin u ∧ V.get [] = .fin v ∧
    (-50 ≤ u ∧ u ≤ 100) ∧ 400 ≤ v ∧ v ≤ 6025 ∧ getCentralMoment s.base.self ['v','_','t','x'] 2 true = .ok C ∧
    (∀ c, demoGrid.Has c → Populated s.base true ['t','x'] c → C.get [c.t, c.x, c.y] = .fin 400) ∧
    s.setSigV 20 = .ok s1 ∧ s.setSigV 30 = .ok s2 ∧ (obj s1.base.self).getVariance ['v'] true = .ok W ∧ (obj s2.base.self).getVariance ['v'] true = .ok W' ∧
    W.get [] = .fin w ∧ W'.get [] = .fin (w + 500) := by
  obtain ⟨cube, -, hc, hs⟩ := demoCube_exists
  have hpi := Real.two_le_pi
  let ks : List StreamCall := [.setPt 15 0.5 (0.05, 0.95), .setPxt (0, 1) (1 / 2, 1) (1 / 4) 10, .setTDep 5, .setMuV (-50, 100), .setSigV 20]
  have hv : ∀ c ∈ ks, c.Valid := by
    intro c hc
    simp only [ks, List.mem_cons, List.not_mem_nil, or_false] at hc
    rcases hc with rfl | rfl | rfl | rfl | rfl
    · simp only [StreamCall.Valid, ValidSfh]; norm_num
    · refine ⟨⟨by linarith, by linarith⟩, ⟨?_, ?_⟩, by norm_num, by norm_num, by norm_num⟩
      · show -Real.pi ≤ 1; linarith
      · show 1 ≤ Real.pi; linarith
    · trivial
    · trivial
    · show (0:ℝ) < 20; norm_num
  obtain ⟨p0, k1, k2, k3, k4⟩ := init_sound hc demoGrid_proper 1 (0, 3 / 2) 0
  have n : p0.logPxt = none := k4 .space _ (by simp [Field.get])
  rcases stream_history demoGrid_proper ks ⟨p0, none⟩ ⟨k3, by simp, by simp [n]⟩ hv with ⟨s, j1, j2, j3⟩ | ⟨-, -, j⟩
  · have hp : makeStream 1 cube (0, 3 / 2) 0 ks = .ok s := by
      unfold makeStream Stream.init
      rw [k1]; exact j1
    have hlight : IsArr demoGrid ['t','z'] cube.ssps.lightWeights (fun c => .fin ((c.t : ℝ) + 1)) := by rw [hs]; exact ⟨rfl, fun c _ => rfl⟩
    have hall : ∀ f : Field, ∃ k ∈ ks, k.field = f := fun f => by cases f <;> simp [ks, StreamCall.field]
    have hlim : ∀ k ∈ ks, k.Limited (-50) 100 20 20 := by
      intro k hk
      simp only [ks, List.mem_cons, List.not_mem_nil, or_false] at hk
      rcases hk with rfl | rfl | rfl | rfl | rfl <;> norm_num [StreamCall.Limited]
    have o : demoGrid.Has ⟨0, 0, 0, 0, 0⟩ := by simp [Grid.Has, demoGrid, cubeGrid]
    obtain ⟨M, V, m1, m2, m3⟩ := C111_streams (L := fun t _ => t + 1) hc demoGrid_proper hlight (fun t _ => by positivity) ks hv hall hp
      (by norm_num) hlim true [] (by decide)
    obtain ⟨u, v, u1, u2, u3, u4, -, u5⟩ := m3 _ o (.inl rfl)
    obtain ⟨_, C, _, -, c1, -, c2⟩ := C111_stream_pixels (L := fun t _ => t + 1) hc demoGrid_proper hlight (fun t _ => by positivity) ks hv hall hp
      (σ := 20) (by simp [ks]) true (b := ['t','x']) (by decide) (by simp) 2
    have hf : ∀ f : Field, none ∉ f.get s.base := fun f => by
      rw [(set_fields (base := fun s => s.base) (fun {s s' k} h => (stream_writes h).1) ks ⟨p0, none⟩ s j1 (fun f => Or.inr (k4 f)) f).1]
      exact Or.inr (hall f)
    obtain ⟨s1, s2, d1, d2, d3⟩ := C111_hotter_streams (L := fun t _ => t + 1) j2 demoGrid_proper hf (by rw [j3, k2]; exact hlight) (fun t _ => by positivity)
      (σ := 20) (σ' := 30) (by norm_num) (by norm_num)
    obtain ⟨_, _, W, W', -, -, w1, w2, w3⟩ := d3 true [] (by decide)
    obtain ⟨_, w, -, -, w4, w5⟩ := w3 _ o (.inl rfl)
    refine ⟨cube, s, s1, s2, M, V, C, W, W', u, v, w, hp, m1, m2, u1, u2, u3, by linarith, by linarith, c1, fun c hc hP => ?_, d1, d2, w1, w2, w4, ?_⟩
    · refine (c2 c hc hP).2.trans (congrArg _ ?_)
      have := spread_about 0 20 0
      simp only [sub_zero] at this
      rw [this]
      norm_num
    · refine w5.trans (congrArg _ ?_)
      norm_num
  · exfalso
    obtain ⟨pre, k, post, j1, j2, j3⟩ := j
    match pre, j1, j2 with
    | [], j1, _ => simp only [List.nil_append, ks, List.cons.injEq] at j1; rw [← j1.1] at j3; cases j3
    | [_], j1, _ => simp only [List.cons_append, List.nil_append, ks, List.cons.injEq] at j1; rw [← j1.2.1] at j3; cases j3
    | k1 :: k2 :: pre, j1, j2 =>
      simp only [List.cons_append, ks, List.cons.injEq] at j1
      exact j2 k2 (by simp) (by rw [← j1.2.1]; rfl)

/-- A disk that turns at no more than 250, with dispersions between 10 and 250: no mean velocity is beyond 250, and no variance below 100 or above 125000. -/
example : ∃ (cube : IFUCube) (p : Param) (M V : Arr Num) (u v : ℝ), makeDisk 1 cube (0, 0) 0 demoCalls = .ok p ∧
    getMean p.self ['v'] true = .ok M ∧ (obj p.self).getVariance ['v'] true = .ok V ∧ M.get [] = .fin u ∧ V.get [] = .fin v ∧
    (-250 ≤ u ∧ u ≤ 250) ∧ 100 ≤ v ∧ v ≤ 125000 := by
  obtain ⟨cube, -, hc, hs⟩ := demoCube_exists
  obtain ⟨p0, k1, k2, k3, k4⟩ := init_sound hc demoGrid_proper 1 (0, 0) 0
  have hlim : ∀ k ∈ demoCalls, k.Limited 250 10 250 := by
    intro k hk
    simp only [demoCalls, List.mem_cons, List.not_mem_nil, or_false] at hk
    rcases hk with rfl | rfl | rfl | rfl | rfl <;> norm_num [DiskCall.Limited]
  rcases disk_history demoGrid_proper demo_offcentre demoCalls p0 k3 demoCalls_valid with ⟨p, j1, j2, j3⟩ | ⟨-, -, j⟩
  · have hp : makeDisk 1 cube (0, 0) 0 demoCalls = .ok p := by
      unfold makeDisk
      rw [k1]; exact j1
    obtain ⟨M, V, m1, m2, m3⟩ := C111_disks (L := fun t _ => t + 1) hc demoGrid_proper (by rw [hs]; exact ⟨rfl, fun c _ => rfl⟩) (fun t _ => by positivity)
      demo_offcentre demoCalls demoCalls_valid (fun f => by cases f <;> simp [demoCalls, DiskCall.field]) hp (by norm_num) hlim true [] (by decide)
    obtain ⟨u, v, u1, u2, u3, u4, -, u5⟩ := m3 ⟨0, 0, 0, 0, 0⟩ (by simp [Grid.Has, demoGrid, cubeGrid]) (.inl rfl)
    exact ⟨cube, p, M, V, u, v, hp, m1, m2, u1, u2, u3, by linarith, by linarith⟩
  · exfalso
    obtain ⟨pre, k, post, j1, j2, j3⟩ := j
    cases pre with
    | nil => simp only [List.nil_append, demoCalls, List.cons.injEq] at j1; rw [← j1.1] at j3; exact j3.1 rfl
    | cons k' pre =>
      simp only [List.cons_append, demoCalls, List.cons.injEq] at j1
      exact j2 k' List.mem_cons_self (by rw [← j1.1]; rfl)

end PKM
