import Verif.Metal
import Verif.Props.Disk
import Verif.PopLemmas
import Verif.Props.Protocol

/-!
# C85: younger stars, and stars from gas that is used up faster, are richer in metals

`A` holds the depletion times `set_t_dep` stored.  `R z t x y` and `μ t x y` are the entries of `get_p('z_tx')` and of
`get_mean('z_tx')`: the distribution and the mean of metallicity for stars of age bin `t` in pixel `(x, y)`.
Later age bins are older.  `Richer` compares two distributions at every threshold.
-/

open scoped Classical
open MeasureTheory ProbabilityTheory

noncomputable section

namespace PKM
open Np Component

variable {p : Param} {g : Grid} {f2 : ℝ} {center : ℝ × ℝ} {rotation : ℝ}

/-- Below every threshold the first of two distributions over `n` bins has no more than the second. -/
def Richer (n : ℕ) (π π' : ℕ → ℝ) : Prop := ∀ k ≤ n, ∑ i ∈ Finset.range k, π i ≤ ∑ i ∈ Finset.range k, π' i

/-- Of any two bins, the first distribution favours the later one at least as much as the second does. -/
def Tilted (n : ℕ) (π π' : ℕ → ℝ) : Prop := ∀ i j, i < j → j < n → π i * π' j ≤ π j * π' i

/-- Below every threshold inside the range the first has less than the second. -/
def StrictlyRicher (n : ℕ) (π π' : ℕ → ℝ) : Prop :=
  ∀ k, 0 < k → k < n → ∑ i ∈ Finset.range k, π i < ∑ i ∈ Finset.range k, π' i

theorem range_eq_fin {n k : ℕ} (hk : k ≤ n) (f : ℕ → ℝ) :
    ∑ i ∈ Finset.range k, f i = - ∑ i : Fin n, (if (i : ℕ) < k then -1 else 0) * f i := by
  rw [← Finset.sum_range (fun i => (if i < k then (-1 : ℝ) else 0) * f i), ← Finset.sum_neg_distrib]
  have : Finset.range k = (Finset.range n).filter (· < k) := by ext i; simp; omega
  rw [this, Finset.sum_filter]
  exact Finset.sum_congr rfl fun i _ => by split <;> simp

theorem Tilted.richer {n : ℕ} {π π' : ℕ → ℝ} (hr : Tilted n π π') (h1 : ∑ i : Fin n, π i = 1) (h1' : ∑ i : Fin n, π' i = 1) :
    Richer n π π' := by
  intro k hk
  rw [range_eq_fin hk, range_eq_fin hk]
  refine neg_le_neg (expect_cross (v := fun i => if i < k then -1 else 0) h1 h1' hr ?_).1
  intro i j h _
  beta_reduce
  split_ifs <;> first | omega | norm_num

theorem cross_richer {n : ℕ} {π π' : ℕ → ℝ} (h1 : ∑ i : Fin n, π i = 1) (h1' : ∑ i : Fin n, π' i = 1)
    (hr : ∀ i j, i < j → j < n → π i * π' j < π j * π' i) : Richer n π π' ∧ StrictlyRicher n π π' := by
  have hv : ∀ k : ℕ, ∀ i j : ℕ, i < j → j < n → (if i < k then (-1 : ℝ) else 0) ≤ if j < k then -1 else 0 := by
    intro k i j h _
    split_ifs <;> first | omega | norm_num
  constructor
  · intro k hk
    rw [range_eq_fin hk, range_eq_fin hk]
    exact neg_le_neg (expect_cross h1 h1' (fun i j a b => (hr i j a b).le) (hv k)).1
  · intro k h0 hk
    rw [range_eq_fin hk.le, range_eq_fin hk.le]
    refine neg_lt_neg ((expect_cross h1 h1' (fun i j a b => (hr i j a b).le) (hv k)).2 ⟨0, k, h0, hk, ?_, hr 0 k h0 hk⟩)
    simp [h0]

/-- Fraction of the stars in metallicity bin `z` when the gas has metallicity `ζ`. -/
abbrev metalFrac (g : Grid) (ζ : ℝ) (z : ℕ) : ℝ := metalDens g ζ z * width g.z z

theorem centre_z_lt (hg : g.Proper) {i j : ℕ} (h : i < j) (hj : j < g.nz) : centre g.z i < centre g.z j := by
  have h1 := hg.z j hj
  have h2 := hg.z i (by omega)
  have h3 := mono_edges hg.z (i := i + 1) (j := j) h hj.le
  unfold centre; linarith

theorem metal_richer (hg : g.Proper) {ζ ζ' : ℝ} (h0 : 0 < ζ') (h : ζ' ≤ ζ) :
    Tilted g.nz (metalFrac g ζ) (metalFrac g ζ') ∧ Richer g.nz (metalFrac g ζ) (metalFrac g ζ') ∧
    ∑ z : Fin g.nz, centre g.z z * metalFrac g ζ' z ≤ ∑ z : Fin g.nz, centre g.z z * metalFrac g ζ z ∧
    (ζ' < ζ → 2 ≤ g.nz → StrictlyRicher g.nz (metalFrac g ζ) (metalFrac g ζ') ∧
      ∑ z : Fin g.nz, centre g.z z * metalFrac g ζ' z < ∑ z : Fin g.nz, centre g.z z * metalFrac g ζ z) := by
  rcases h.lt_or_eq with h | rfl
  · have hr : ∀ i j, i < j → j < g.nz → metalFrac g ζ i * metalFrac g ζ' j < metalFrac g ζ j * metalFrac g ζ' i :=
      fun i j hij hj => metalDens_cross hg h0 h hij hj
    have s1 := metalDens_sum hg (h0.trans h)
    have s2 := metalDens_sum hg h0
    obtain ⟨r1, r2⟩ := cross_richer s1 s2 hr
    obtain ⟨e1, e2⟩ := expect_cross (v := centre g.z) s1 s2 (fun i j a b => (hr i j a b).le)
      fun i j hij hj => (centre_z_lt hg hij hj).le
    exact ⟨fun i j a b => (hr i j a b).le, r1, e1, fun _ hn => ⟨r2, e2 ⟨0, 1, by omega, by omega, centre_z_lt hg (by omega) (by omega), hr 0 1 (by omega) (by omega)⟩⟩⟩
  · exact ⟨fun i j _ _ => (mul_comm _ _).le, fun _ _ => le_rfl, le_rfl, fun h => absurd h (lt_irrefl _)⟩

/-- The answers read from a stored enrichment model. -/
theorem metal_answers (hc : CubeIs p.cube g) (hg : g.Proper) {B : Arr Num} {ζ : ℕ → ℕ → ℕ → ℝ}
    (hz : ∀ t < g.nt, ∀ x < g.nx, ∀ y < g.ny, 0 < ζ t x y) (hB : p.logPztx = some B)
    (hB' : MArr g (['z','t','x','y'].map some) B (fun c => Num.lg (metalDens g (ζ c.t c.x c.y) c.z))) :
    ∃ r M, getP p.self (condStr ['z'] ['t','x']) false false = .ok r ∧ r.shape = [g.nz, g.nt, g.nx, g.ny] ∧
      getMean p.self (condStr ['z'] ['t','x']) false = .ok M ∧ M.shape = [g.nt, g.nx, g.ny] ∧
      (∀ z < g.nz, ∀ t < g.nt, ∀ x < g.nx, ∀ y < g.ny, r.get [z, t, x, y] = .fin (metalFrac g (ζ t x y) z)) ∧
      (∀ t < g.nt, ∀ x < g.nx, ∀ y < g.ny, M.get [t, x, y] =
        .fin (∑ z : Fin g.nz, centre g.z z * metalFrac g (ζ t x y) z)) := by
  have hd : ∀ c, g.Has c → 0 < metalDens g (ζ c.t c.x c.y) c.z := fun c hc' =>
    div_pos (metalProb_pos hg (hz _ hc'.1 _ hc'.2.2.1 _ hc'.2.2.2.1) hc'.2.2.2.2)
      (metalTotal_pos hg (hz _ hc'.1 _ hc'.2.2.1 _ hc'.2.2.2.1))
  obtain ⟨r, h3, h4, h5⟩ := getP_ztx_stored hc hg hB hB' (fun c hc' => (hd c hc').le) false
  have hr : ∀ z < g.nz, ∀ t < g.nt, ∀ x < g.nx, ∀ y < g.ny, r.get [z, t, x, y] = .fin (metalFrac g (ζ t x y) z) :=
    fun z hz t ht x hx y hy => by
      have := h5 ⟨t, 0, x, y, z⟩ ⟨ht, hg.nv, hx, hy, hz⟩
      simpa [coords, coord1, condStr, dvol] using this
  have hm : MArr g (some 'z' :: ['t','x','y'].map some) r (fun c => .fin (metalFrac g (ζ c.t c.x c.y) c.z)) :=
    ⟨h4, fun c hc' => by
      simpa [coordM, coordL] using hr _ hc'.2.2.2.2 _ hc'.1 _ hc'.2.2.1 _ hc'.2.2.2.1⟩
  obtain ⟨M, m1, m2⟩ := meanDefault_tvz (s := p.self) (w := condStr ['z'] ['t','x']) (lw := false) (a := 'z')
    (B := ['t','x','y'].map some) hc (by decide) (by intro d hd; simp at hd; rcases hd with rfl | rfl | rfl <;> exact ⟨by simp [AxisChar], by simp⟩) rfl ⟨r, h3, hm⟩
  refine ⟨r, M, h3, h4, m1, by simpa [sizeM, sizeL] using m2.1, hr, fun t ht x hx y hy => ?_⟩
  have := m2.2 ⟨t, 0, x, y, 0⟩ ⟨ht, hg.nv, hx, hy, hg.nz⟩
  have e : M.get [t, x, y] = sum1D g 'z' (fun c => .fin (g.value 'z' c)) (fun c => .fin (metalFrac g (ζ c.t c.x c.y) c.z)) ⟨t, 0, x, y, 0⟩ := this
  rw [e]
  exact Num.sum_congr_fin _ _ (fun z : Fin g.nz => centre g.z z * metalFrac g (ζ t x y) z) fun z _ => rfl

/-- After `set_t_dep` has stored depletion times `A[x, y]`: stars at least as young, from gas with a depletion time
at most as long, are at least as rich in metals.  They are strictly richer if they are younger, or if their
depletion times have two of the tabulated ones between them. -/
theorem C85_richer (hb : Built p g f2 center rotation) (hg : g.Proper) (h0 : 0 ≤ g.t 0) (h1 : g.t g.nt ≤ 100)
    {A : Arr Num} (hA : p.tDep = some A) (hs : A.shape = [g.nx, g.ny]) :
    ∃ p' r M, ∃ R : ℕ → ℕ → ℕ → ℕ → ℝ, ∃ μ : ℕ → ℕ → ℕ → ℝ, p.setPztx = .ok p' ∧
      getP p'.self "z_tx".toList false false = .ok r ∧
      r.shape = [g.nz, g.nt, g.nx, g.ny] ∧ getMean p'.self "z_tx".toList false = .ok M ∧ M.shape = [g.nt, g.nx, g.ny] ∧
      (∀ z < g.nz, ∀ t < g.nt, ∀ x < g.nx, ∀ y < g.ny, r.get [z, t, x, y] = .fin (R t x y z)) ∧
      (∀ t < g.nt, ∀ x < g.nx, ∀ y < g.ny, M.get [t, x, y] = .fin (μ t x y)) ∧
      ∀ t t' x y x' y' τ τ', t ≤ t' → t' < g.nt → x < g.nx → y < g.ny → x' < g.nx → y' < g.ny →
        A.get [x, y] = .fin τ → A.get [x', y'] = .fin τ' → τ ≤ τ' →
        Tilted g.nz (R t x y) (R t' x' y') ∧ Richer g.nz (R t x y) (R t' x' y') ∧ μ t' x' y' ≤ μ t x y ∧
        (2 ≤ g.nz → (t < t' ∨ ∃ j, j + 1 < 1000 ∧ τ ≤ Param.logspace 0.1 10.0 1000 j ∧ Param.logspace 0.1 10.0 1000 (j + 1) ≤ τ') →
          StrictlyRicher g.nz (R t x y) (R t' x' y') ∧ μ t' x' y' < μ t x y) := by
  obtain ⟨g1, g2, g3⟩ := hb.grid hg
  have hn : 0 < p.zGrid.nDep := by rw [g1]; norm_num
  obtain ⟨B, k1, k2⟩ := enrichmentBase_gives hb.cubeIs hg (ζ := gasMetal g) hn
    (fun i _ k hk => ⟨(g3 i k hk).1, (g3 i k hk).2.1⟩) hs
  obtain ⟨r, M, a1, a2, a3, a4, a5, a6⟩ := metal_answers (p := { p with logPztx := some B })
    (ζ := fun t x y => gasMetal g (Param.nearest p.zGrid (A.get [x, y])) t) hb.cubeIs hg
    (fun t ht x _ y _ => (g3 _ t ht).2.1) rfl k2
  refine ⟨_, r, M, fun t x y => metalFrac g (gasMetal g (Param.nearest p.zGrid (A.get [x, y])) t),
    fun t x y => ∑ z : Fin g.nz, centre g.z z * metalFrac g (gasMetal g (Param.nearest p.zGrid (A.get [x, y])) t) z,
    by simp only [Param.setPztx, Param.attr, hA, Py.ok_bind, k1], a1, a2, a3, a4, a5, a6, ?_⟩
  intro t t' x y x' y' τ τ' htt ht' hx hy hx' hy' e e' hτ
  have hz : ∀ i j, i < j → p.zGrid.tDep i < p.zGrid.tDep j := fun i j h => by rw [g2]; exact logspace_lt h
  simp only [e, e']
  have m1 := nearest_mono (zg := p.zGrid) hn hz hτ
  have d1 : gasMetal g (Param.nearest p.zGrid (.fin τ')) t' ≤ gasMetal g (Param.nearest p.zGrid (.fin τ')) t := by
    rcases htt.lt_or_eq with h | rfl
    · exact (gasMetal_age hg h0 h1 _ h ht').le
    · exact le_rfl
  have d2 : gasMetal g (Param.nearest p.zGrid (.fin τ')) t ≤ gasMetal g (Param.nearest p.zGrid (.fin τ)) t := by
    rcases m1.lt_or_eq with h | h
    · exact (gasMetal_dep hg h0 h1 h (by omega)).le
    · rw [h]
  obtain ⟨c0, c1, c2, c3⟩ := metal_richer hg (g3 (Param.nearest p.zGrid (.fin τ')) t' ht').2.1 (d1.trans d2)
  refine ⟨c0, c1, c2, fun hnz hlt => c3 ?_ hnz⟩
  rcases hlt with h | ⟨j, j1, j2, j3⟩
  · exact (gasMetal_age hg h0 h1 _ h ht').trans_le d2
  · have := nearest_apart (zg := p.zGrid) (τ := τ) (τ' := τ') hz (by rw [g1]; exact j1) (by rw [g2]; exact j2) (by rw [g2]; exact j3)
    exact d1.trans_lt (gasMetal_dep hg h0 h1 this (by omega))

/-! ### Growing disks and streams -/

/-- `GrowingDisk.set_t_dep`: with a depletion time that grows outwards, stars of one age (or an older one) are poorer
in metals in pixels at greater elliptical radius; with one that falls outwards, richer (for one age or a younger one). -/
theorem C85_disk (hb : Built p g f2 center rotation) (hg : g.Proper) (h0 : 0 ≤ g.t 0) (h1 : g.t g.nt ≤ 100)
    (hx : ∃ c, g.Has c ∧ frameX g center rotation c ≠ 0)
    (q alpha tIn tOut tMin tMax : ℝ) (hq : 0 < q) (hal : 0 ≤ alpha) (ha : 0.1 ≤ tMin) (hb' : tMax ≤ 13)
    (h3 : tMin ≤ tIn ∧ tIn ≤ tMax) (h4 : tMin ≤ tOut ∧ tOut ≤ tMax) :
    ∃ p' r M, ∃ R : ℕ → ℕ → ℕ → ℕ → ℝ, ∃ μ : ℕ → ℕ → ℕ → ℝ,
      GrowingDisk.setTDep p q alpha tIn tOut tMin tMax = .ok p' ∧
      getP p'.self "z_tx".toList false false = .ok r ∧ getMean p'.self "z_tx".toList false = .ok M ∧
      (∀ z < g.nz, ∀ t < g.nt, ∀ x < g.nx, ∀ y < g.ny, r.get [z, t, x, y] = .fin (R t x y z)) ∧
      (∀ t < g.nt, ∀ x < g.nx, ∀ y < g.ny, M.get [t, x, y] = .fin (μ t x y)) ∧
      ∀ t t' x y x' y', t < g.nt → t' < g.nt → x < g.nx → y < g.ny → x' < g.nx → y' < g.ny →
        frameX g center rotation ⟨0, 0, x, y, 0⟩ ^ 2 + (frameY g center rotation ⟨0, 0, x, y, 0⟩ / q) ^ 2 ≤
          frameX g center rotation ⟨0, 0, x', y', 0⟩ ^ 2 + (frameY g center rotation ⟨0, 0, x', y', 0⟩ / q) ^ 2 →
        (tIn ≤ tOut → t ≤ t' → Tilted g.nz (R t x y) (R t' x' y') ∧ Richer g.nz (R t x y) (R t' x' y') ∧ μ t' x' y' ≤ μ t x y) ∧
        (tOut ≤ tIn → t' ≤ t → Tilted g.nz (R t' x' y') (R t x y) ∧ Richer g.nz (R t' x' y') (R t x y) ∧ μ t x y ≤ μ t' x' y') := by
  obtain ⟨m, -, hm⟩ := hb.amax hg
  have hm0 : 0 < m := by
    obtain ⟨c, hc, hne⟩ := hx
    exact (abs_pos.2 hne).trans_le (hm.2 c hc)
  obtain ⟨A, k1, k2⟩ := disk_tDep hb hg hq hal ha hb' h3 h4 hm hm0
  have hb2 : Built { p with tDep := some A } g f2 center rotation :=
    ⟨hb.cubeIs, hb.f2, hb.xxp, hb.yyp, hb.zGrid⟩
  obtain ⟨p', r, M, R, μ, s1, s2, -, s4, -, s6, s7, s8⟩ := C85_richer hb2 hg h0 h1 rfl k2.1
  refine ⟨p', r, M, R, μ, by rw [k1]; exact s1, s2, s4, s6, s7, fun t t' x y x' y' ht ht' hx hy hx' hy' hR => ?_⟩
  have e := k2.2 ⟨0, 0, x, y, 0⟩ ⟨hg.nt, hg.nv, hx, hy, hg.nz⟩
  have e' := k2.2 ⟨0, 0, x', y', 0⟩ ⟨hg.nt, hg.nv, hx', hy', hg.nz⟩
  have hR0 : ∀ c, 0 ≤ ellR g center rotation q c / m := fun c => div_nonneg (ellR_nonneg _ _ _ _ _) hm0.le
  have l1 : (ellR g center rotation q ⟨0, 0, x, y, 0⟩ / m) ^ alpha ≤ (ellR g center rotation q ⟨0, 0, x', y', 0⟩ / m) ^ alpha :=
    Real.rpow_le_rpow (hR0 _) (by gcongr; exact Real.sqrt_le_sqrt hR) hal
  have l2 := min_le_min_left 1 l1
  constructor
  · intro hio htt
    obtain ⟨a1, a2, a3, -⟩ := s8 t t' x y x' y' _ _ htt ht' hx hy hx' hy' e e' (by
      simp only [fade]; nlinarith)
    exact ⟨a1, a2, a3⟩
  · intro hio htt
    obtain ⟨a1, a2, a3, -⟩ := s8 t' t x' y' x y _ _ htt ht hx' hy' hx hy e' e (by
      simp only [fade]; nlinarith)
    exact ⟨a1, a2, a3⟩

/-- `Stream.set_t_dep`: one metallicity distribution for each age, strictly richer for younger stars. -/
theorem C85_stream {s : Stream} (hb : Built s.base g f2 center rotation) (hg : g.Proper) (h0 : 0 ≤ g.t 0) (h1 : g.t g.nt ≤ 100)
    (τ : ℝ) :
    ∃ s' r M, ∃ R : ℕ → ℕ → ℝ, ∃ μ : ℕ → ℝ, s.setTDep τ = .ok s' ∧
      getP s'.base.self "z_tx".toList false false = .ok r ∧ getMean s'.base.self "z_tx".toList false = .ok M ∧
      (∀ z < g.nz, ∀ t < g.nt, ∀ x < g.nx, ∀ y < g.ny, r.get [z, t, x, y] = .fin (R t z)) ∧
      (∀ t < g.nt, ∀ x < g.nx, ∀ y < g.ny, M.get [t, x, y] = .fin (μ t)) ∧
      ∀ t t', t < t' → t' < g.nt → Richer g.nz (R t) (R t') ∧ μ t' ≤ μ t ∧
        (2 ≤ g.nz → StrictlyRicher g.nz (R t) (R t') ∧ μ t' < μ t) := by
  obtain ⟨g1, -, g3⟩ := hb.grid hg
  obtain ⟨B, k1, k2⟩ := stream_setTDep hb hg τ
  obtain ⟨r, M, a1, -, a3, -, a5, a6⟩ := metal_answers (p := { s.base with
        tDep := some (full [s.base.cube.nx, s.base.cube.ny] (.fin τ)), logPztx := some B })
    (ζ := fun t _ _ => gasMetal g (Param.nearest s.base.zGrid (.fin τ)) t) hb.cubeIs hg
    (fun t ht x _ y _ => (g3 _ t ht).2.1) rfl k2
  refine ⟨_, r, M, fun t => metalFrac g (gasMetal g (Param.nearest s.base.zGrid (.fin τ)) t),
    fun t => ∑ z : Fin g.nz, centre g.z z * metalFrac g (gasMetal g (Param.nearest s.base.zGrid (.fin τ)) t) z,
    k1, a1, a3, a5, a6, fun t t' htt ht' => ?_⟩
  have hlt := gasMetal_age hg h0 h1 (Param.nearest s.base.zGrid (.fin τ)) htt ht'
  obtain ⟨-, c1, c2, c3⟩ := metal_richer hg (g3 (Param.nearest s.base.zGrid (.fin τ)) t' ht').2.1 hlt.le
  exact ⟨c1, c2, c3 hlt⟩

/-! ### Weighting by light -/

theorem sumTXZ_line (f : Cell → ℝ) {c : Cell} (hc : g.Has c) :
    Ingredients.sumTXZ g (fun d => if coords ['t','x'] d = coords ['t','x'] c then f d else 0) =
      ∑ z : Fin g.nz, f ⟨c.t, 0, c.x, c.y, z⟩ := by
  obtain ⟨h1, -, h2, h3, -⟩ := hc
  unfold Ingredients.sumTXZ
  rw [Finset.sum_eq_single ⟨c.t, h1⟩, Finset.sum_eq_single ⟨c.x, h2⟩, Finset.sum_eq_single ⟨c.y, h3⟩]
  · exact Finset.sum_congr rfl fun z _ => if_pos (by simp [coords, coord1])
  · exact fun y _ h => Finset.sum_eq_zero fun z _ => if_neg fun e => h (Fin.ext (by show (y : ℕ) = c.y; simp [coords, coord1] at e; tauto))
  · simp
  · exact fun x _ h => Finset.sum_eq_zero fun y _ => Finset.sum_eq_zero fun z _ => if_neg fun e =>
      h (Fin.ext (by show (x : ℕ) = c.x; simp [coords, coord1] at e; tauto))
  · simp
  · exact fun t _ h => Finset.sum_eq_zero fun x _ => Finset.sum_eq_zero fun y _ => Finset.sum_eq_zero fun z _ => if_neg fun e =>
      h (Fin.ext (by show (t : ℕ) = c.t; simp [coords, coord1] at e; tauto))
  · simp

theorem sumTXZ_point (f : Cell → ℝ) {c : Cell} (hc : g.Has c) :
    Ingredients.sumTXZ g (fun d => if coords ['t','x','z'] d = coords ['t','x','z'] c then f d else 0) =
      f ⟨c.t, 0, c.x, c.y, c.z⟩ := by
  have e : ∀ d, (if coords ['t','x','z'] d = coords ['t','x','z'] c then f d else 0) =
      if coords ['t','x'] d = coords ['t','x'] c then (if d.z = c.z then f d else 0) else 0 := fun d => by
    rw [← ite_and]
    refine if_congr ?_ rfl rfl
    simp [coords, coord1]
    tauto
  rw [sumTXZ_congr e, sumTXZ_line (fun d => if d.z = c.z then f d else 0) hc,
    Finset.sum_eq_single ⟨c.z, hc.2.2.2.2⟩]
  · simp
  · exact fun z _ h => if_neg fun e => h (Fin.ext e)
  · simp

/-- Weighting by light keeps the order: if at one age the stars of one pixel are richer than those of another in the
sense of `Tilted`, so they are in the light-weighted distributions, wherever these are defined. -/
theorem C85_light {m : Ingredients} {L : ℕ → ℕ → ℝ} (h : ParamIs p g m L) (hl : Shines g m L) :
    ∃ r q, getP p.self "z_tx".toList false false = .ok r ∧ getP p.self "z_tx".toList false true = .ok q ∧
      ∀ t x y x' y', t < g.nt → x < g.nx → y < g.ny → x' < g.nx → y' < g.ny → ∀ π π' κ κ' : ℕ → ℝ,
        (∀ z < g.nz, r.get [z, t, x, y] = .fin (π z) ∧ r.get [z, t, x', y'] = .fin (π' z)) →
        (∀ z < g.nz, q.get [z, t, x, y] = .fin (κ z) ∧ q.get [z, t, x', y'] = .fin (κ' z)) →
        Tilted g.nz π π' → Tilted g.nz κ κ' ∧ Richer g.nz κ κ' := by
  obtain ⟨r, r1, -, r3⟩ := (C32_ingredients h false).2.2
  obtain ⟨q, q1, -, q3⟩ := (C32_light_ingredients h false hl).2.2
  refine ⟨r, q, r1, q1, fun t x y x' y' ht hx hy hx' hy' π π' κ κ' hπ hκ hT => ?_⟩
  have hS : 0 < Ingredients.sumTXZ g (fun d => L d.t d.z * m.probTXZ g d) := hl
  set S := Ingredients.sumTXZ g (fun d => L d.t d.z * m.probTXZ g d) with eS
  -- the light of the pixel at this age, and the entry of the light-weighted distribution
  have key : ∀ x y, x < g.nx → y < g.ny → ∀ π κ : ℕ → ℝ, (∀ z < g.nz, r.get [z, t, x, y] = .fin (π z)) →
      (∀ z < g.nz, q.get [z, t, x, y] = .fin (κ z)) → ∃ k, 0 ≤ k ∧ (∀ z < g.nz, κ z = k * (L t z * π z)) ∧
        ∑ z : Fin g.nz, κ z = 1 := by
    intro x y hx hy π κ hπ hκ
    have hc : ∀ z < g.nz, g.Has ⟨t, 0, x, y, z⟩ := fun z hz => ⟨ht, h.proper.nv, hx, hy, hz⟩
    have hT : 0 ≤ m.probT g ⟨t, 0, x, y, 0⟩ := h.norm.probT_nonneg h.proper (hc 0 h.proper.nz)
    have hX : 0 ≤ m.probX g ⟨t, 0, x, y, 0⟩ := mul_nonneg (h.norm.px _ _ _)
      (mul_nonneg (sub_pos.2 (h.proper.x _ hx)).le (sub_pos.2 (h.proper.y _ hy)).le)
    have ew : ∀ z < g.nz, m.weightTXZ g L true ⟨t, 0, x, y, z⟩ =
        m.probT g ⟨t, 0, x, y, 0⟩ * m.probX g ⟨t, 0, x, y, 0⟩ / S * (L t z * π z) := fun z hz => by
      have e1 := r3 _ (hc z hz)
      rw [hπ z hz] at e1
      have e2 : π z = m.probZ g ⟨t, 0, x, y, z⟩ := by
        have := Num.fin.inj e1
        simpa using this
      rw [e2, Ingredients.weightTXZ, if_pos rfl, ← eS, Ingredients.probTXZ]
      show L t z * (m.probT g ⟨t, 0, x, y, 0⟩ * m.probX g ⟨t, 0, x, y, 0⟩ * _) / S = _
      ring
    have em : ∀ z < g.nz, m.marginal g L true ['t','x'] ⟨t, 0, x, y, z⟩ = ∑ z : Fin g.nz, m.weightTXZ g L true ⟨t, 0, x, y, z⟩ :=
      fun z hz => by
        rw [Ingredients.marginal, if_neg (by decide)]
        exact sumTXZ_line _ (hc z hz)
    set W := ∑ z : Fin g.nz, m.weightTXZ g L true ⟨t, 0, x, y, z⟩ with eW
    have hne : W ≠ 0 := fun e => by
      have := q3 _ (hc 0 h.proper.nz)
      rw [em 0 h.proper.nz, if_pos e, hκ 0 h.proper.nz] at this
      cases this
    have hW : 0 ≤ W := Finset.sum_nonneg fun z _ => by
      rw [ew z z.2]
      have e1 := r3 _ (hc z z.2)
      rw [hπ z z.2] at e1
      have e2 : π z = m.probZ g ⟨t, 0, x, y, z⟩ := by
        have := Num.fin.inj e1
        simpa using this
      have : 0 ≤ π z := e2 ▸ mul_nonneg (h.norm.pz _ _ _ _) (sub_pos.2 (h.proper.z _ z.2)).le
      have := h.lightNonneg t z
      positivity
    have ek : ∀ z < g.nz, κ z = m.weightTXZ g L true ⟨t, 0, x, y, z⟩ / W := fun z hz => by
      have e1 := q3 _ (hc z hz)
      rw [em z hz, if_neg hne, hκ z hz] at e1
      have e2 := Num.fin.inj e1
      rw [Ingredients.marginal, if_neg (by decide), sumTXZ_point _ (hc z hz)] at e2
      simpa using e2
    refine ⟨m.probT g ⟨t, 0, x, y, 0⟩ * m.probX g ⟨t, 0, x, y, 0⟩ / S / W, by positivity, fun z hz => ?_, ?_⟩
    · rw [ek z hz, ew z hz]; ring
    · rw [Finset.sum_congr rfl fun (z : Fin g.nz) _ => ek z z.2, ← Finset.sum_div, ← eW, div_self hne]
  obtain ⟨k, k0, k1, k2⟩ := key x y hx hy π κ (fun z hz => (hπ z hz).1) fun z hz => (hκ z hz).1
  obtain ⟨k', k0', k1', k2'⟩ := key x' y' hx' hy' π' κ' (fun z hz => (hπ z hz).2) fun z hz => (hκ z hz).2
  have ht : Tilted g.nz κ κ' := fun i j hij hj => by
    rw [k1 i (hij.trans hj), k1' j hj, k1 j hj, k1' i (hij.trans hj)]
    have e1 : k * (L t i * π i) * (k' * (L t j * π' j)) = k * k' * L t i * L t j * (π i * π' j) := by ring
    have e2 : k * (L t j * π j) * (k' * (L t i * π' i)) = k * k' * L t i * L t j * (π j * π' i) := by ring
    rw [e1, e2]
    have := h.lightNonneg t i
    have := h.lightNonneg t j
    exact mul_le_mul_of_nonneg_left (hT i j hij hj) (by positivity)
  exact ⟨ht, ht.richer k2 k2'⟩

/-- The light-weighted distributions of a growing disk (`Sound`: made by the constructor and setters; all five parts
set) after `set_t_dep`: at one age, with a depletion time that grows outwards, light-weighted metallicities are lower
in pixels at greater elliptical radius, and with one that falls outwards higher. -/
theorem C85_disk_light {L : ℕ → ℕ → ℝ} (h : Sound p g f2 center rotation) (hg : g.Proper) (h0 : 0 ≤ g.t 0) (h1 : g.t g.nt ≤ 100)
    (hset : ∀ f : Field, none ∉ f.get p) (hl : IsArr g ['t','z'] p.cube.ssps.lightWeights (fun c => .fin (L c.t c.z)))
    (hL : ∀ t z, 0 < L t z) (hx : ∃ c, g.Has c ∧ frameX g center rotation c ≠ 0)
    (q alpha tIn tOut tMin tMax : ℝ) (hq : 0 < q) (hal : 0 ≤ alpha) (ha : 0.1 ≤ tMin) (hb' : tMax ≤ 13)
    (h3 : tMin ≤ tIn ∧ tIn ≤ tMax) (h4 : tMin ≤ tOut ∧ tOut ≤ tMax) :
    ∃ p' r, GrowingDisk.setTDep p q alpha tIn tOut tMin tMax = .ok p' ∧ getP p'.self "z_tx".toList false true = .ok r ∧
      ∀ t x y x' y', t < g.nt → x < g.nx → y < g.ny → x' < g.nx → y' < g.ny → ∀ κ κ' : ℕ → ℝ,
        (∀ z < g.nz, r.get [z, t, x, y] = .fin (κ z) ∧ r.get [z, t, x', y'] = .fin (κ' z)) →
        frameX g center rotation ⟨0, 0, x, y, 0⟩ ^ 2 + (frameY g center rotation ⟨0, 0, x, y, 0⟩ / q) ^ 2 ≤
          frameX g center rotation ⟨0, 0, x', y', 0⟩ ^ 2 + (frameY g center rotation ⟨0, 0, x', y', 0⟩ / q) ^ 2 →
        (tIn ≤ tOut → Tilted g.nz κ κ' ∧ Richer g.nz κ κ') ∧ (tOut ≤ tIn → Tilted g.nz κ' κ ∧ Richer g.nz κ' κ) := by
  obtain ⟨p', r, M, R, μ, s1, s2, -, s4, -, s6⟩ := C85_disk h.built hg h0 h1 hx q alpha tIn tOut tMin tMax hq hal ha hb' h3 h4
  obtain ⟨p'', j1, j2⟩ := h.disk hg hx (.setTDep q alpha tIn tOut tMin tMax) ⟨hq, hal, ha, hb', h3, h4⟩ (Or.inr (Or.inr rfl))
  have e : DiskCall.run p (.setTDep q alpha tIn tOut tMin tMax) = .ok p' := s1
  obtain rfl : p' = p'' := Except.ok.inj (e.symm.trans j1)
  have w : Writes p .metal p' := disk_writes j1
  have hset' : ∀ f : Field, none ∉ f.get p' := fun f => by
    by_cases hf : f = .metal
    · subst hf; cases w; simp [Field.get]
    · rw [w.frame hf]; exact hset f
  obtain ⟨m, i1, i2, i3⟩ := j2.paramIs hg (by rw [w.cube]; exact hl) (fun t z => (hL t z).le) hset'
  obtain ⟨r', κr, a1, a2, a3⟩ := C85_light i1 (i1.shines (fun t _ z _ => hL t z) i2 i3)
  obtain rfl : r = r' := Except.ok.inj (s2.symm.trans a1)
  refine ⟨p', κr, s1, a2, fun t x y x' y' ht hx hy hx' hy' κ κ' hκ hR => ?_⟩
  obtain ⟨b1, b2⟩ := s6 t t x y x' y' ht ht hx hy hx' hy' hR
  exact ⟨fun hio => a3 t x y x' y' ht hx hy hx' hy' _ _ κ κ' (fun z hz => ⟨s4 z hz t ht x hx y hy, s4 z hz t ht x' hx' y' hy'⟩) hκ
    (b1 hio le_rfl).1, fun hio => a3 t x' y' x y ht hx' hy' hx hy _ _ κ' κ
    (fun z hz => ⟨s4 z hz t ht x' hx' y' hy', s4 z hz t ht x hx y hy⟩) (fun z hz => ⟨(hκ z hz).2, (hκ z hz).1⟩) (b2 hio le_rfl).1⟩

/-! ### The hypotheses are met -/

theorem demo_young : 0 ≤ demoGrid.t 0 ∧ demoGrid.t demoGrid.nt ≤ 100 := by
  constructor <;> norm_num [demoGrid, cubeGrid]

/-- Depletion times 0.1 in the first row of pixels and 10 elsewhere: at each age the mean metallicity of the first row
is strictly greater, and in each pixel that of the younger stars. -/
example : ∃ (p p' : Param) (M : Arr Num) (a b c : ℝ), Built p demoGrid 1 (0, 0) 0 ∧ p.setPztx = .ok p' ∧
    getMean p'.self "z_tx".toList false = .ok M ∧ M.get [0, 0, 0] = .fin a ∧ M.get [0, 1, 0] = .fin b ∧
    M.get [1, 1, 0] = .fin c ∧ c < b ∧ b < a := by
  obtain ⟨cube, -, h, -⟩ := demoCube_exists
  obtain ⟨p, -, hb, -⟩ := init_built h demoGrid_proper 1 (0, 0) 0
  have hb' : Built { p with tDep := some ⟨[5, 6], fun i => .fin (if i.headD 0 = 0 then 0.1 else 10)⟩ } demoGrid 1 (0, 0) 0 :=
    ⟨hb.cubeIs, hb.f2, hb.xxp, hb.yyp, hb.zGrid⟩
  obtain ⟨p', r, M, R, μ, s1, -, -, s4, -, -, s7, s8⟩ := C85_richer hb' demoGrid_proper demo_young.1 demo_young.2 rfl rfl
  have n : 1 < demoGrid.nt ∧ 1 < demoGrid.nx ∧ 0 < demoGrid.ny ∧ 2 ≤ demoGrid.nz := by norm_num [demoGrid, cubeGrid]
  obtain ⟨n1, n2, n3, n4⟩ := n
  refine ⟨_, p', M, μ 0 0 0, μ 0 1 0, μ 1 1 0, hb', s1, s4, s7 _ (by omega) _ (by omega) _ n3, s7 _ (by omega) _ n2 _ n3,
    s7 _ n1 _ n2 _ n3, ?_, ?_⟩
  · exact ((s8 0 1 1 0 1 0 10 10 (by omega) n1 n2 n3 n2 n3 (by simp) (by simp) le_rfl).2.2.2 n4 (Or.inl (by omega))).2
  · obtain ⟨l0, l1, l2⟩ := logspace_props
    refine ((s8 0 0 0 0 1 0 0.1 10 le_rfl (by omega) (by omega) n3 n2 n3 (by simp) (by simp) (by norm_num)).2.2.2 n4
      (Or.inr ⟨0, by norm_num, l0.ge, l1 ▸ (l2 1 999 (by norm_num)).le⟩)).2

/-- A disk whose depletion time grows from 0.5 to 6 meets the hypotheses of `C85_disk` and `C85_disk_light`. -/
example : ∃ (p p' : Param) (r q : Arr Num), Sound p demoGrid 1 (0, 0) 0 ∧
    GrowingDisk.setTDep p 0.1 1.5 0.5 6 0.1 13 = .ok p' ∧ getP p'.self "z_tx".toList false true = .ok q ∧
    getP p'.self "z_tx".toList false false = .ok r := by
  obtain ⟨cube, -, hc, hs⟩ := demoCube_exists
  obtain ⟨p0, k1, k2, k3, k4⟩ := init_sound hc demoGrid_proper 1 (0, 0) 0
  rcases disk_history demoGrid_proper demo_offcentre demoCalls p0 k3 demoCalls_valid with ⟨p, j1, j2, j3⟩ | ⟨-, -, j⟩
  · have hf : ∀ f : Field, none ∉ f.get p := fun f => by
      rw [(set_fields (base := fun p => p) (fun {s s' k} h => disk_writes h) demoCalls p0 p j1
        (fun f => Or.inr (k4 f)) f).1]
      right
      cases f <;> simp [demoCalls, DiskCall.field]
    have hl := demo_light (cube := p.cube) (by rw [j3, k2, hs])
    obtain ⟨p', q, a1, a2, -⟩ := C85_disk_light j2 demoGrid_proper demo_young.1 demo_young.2 hf hl demoL_pos demo_offcentre
      0.1 1.5 0.5 6 0.1 13 (by norm_num) (by norm_num) (by norm_num) (by norm_num) (by norm_num) (by norm_num)
    obtain ⟨p'', r, M, R, μ, b1, b2, -⟩ := C85_disk j2.built demoGrid_proper demo_young.1 demo_young.2 demo_offcentre
      0.1 1.5 0.5 6 0.1 13 (by norm_num) (by norm_num) (by norm_num) (by norm_num) (by norm_num) (by norm_num)
    obtain rfl : p' = p'' := Except.ok.inj (a1.symm.trans b1)
    exact ⟨p, p', r, q, j2, a1, a2, b2⟩
  · exfalso
    obtain ⟨pre, k, post, j1, j2, j3⟩ := j
    cases pre with
    | nil => simp only [List.nil_append, demoCalls, List.cons.injEq] at j1; rw [← j1.1] at j3; exact j3.1 rfl
    | cons k' pre =>
      simp only [List.cons_append, demoCalls, List.cons.injEq] at j1
      exact j2 k' (by simp) (by rw [← j1.1]; rfl)

end PKM
