import Verif.ParamSet

/-! Lemmas: the chemical enrichment model. -/

open scoped Classical
open MeasureTheory ProbabilityTheory

noncomputable section

namespace PKM
open Np Component

variable {p : Param} {g : Grid}

/-! ### Interpolation -/

theorem lastLe_spec (xs : ℕ → ℝ) (x : ℝ) : ∀ n, 0 < n → xs 0 ≤ x →
    Param.lastLe xs x n < n ∧ xs (Param.lastLe xs x n) ≤ x ∧ ∀ j < n, Param.lastLe xs x n < j → x < xs j := by
  intro n
  induction n with
  | zero => intro h; omega
  | succ n ih =>
    intro _ h0
    unfold Param.lastLe
    split
    · next h => exact ⟨by omega, h, fun j hj hj' => by omega⟩
    · next h =>
      rcases Nat.eq_zero_or_pos n with rfl | hn
      · exact absurd h0 h
      · obtain ⟨h1, h2, h3⟩ := ih hn h0
        refine ⟨by omega, h2, fun j hj hj' => ?_⟩
        rcases Nat.lt_succ_iff_lt_or_eq.1 hj with h4 | h4
        · exact h3 j h4 hj'
        · rw [h4]; exact not_le.1 h

/-- `np.interp` of a strictly decreasing table is between the last and the first entry. -/
theorem interp_range {n : ℕ} {xs ys : ℕ → ℝ} {x : ℝ} (hn : 0 < n) (hy : ∀ i, i + 1 < n → ys (i + 1) < ys i)
    (hx : x < xs (n - 1)) : ys (n - 1) ≤ Param.interp n xs ys x ∧ Param.interp n xs ys x ≤ ys 0 ∧
      (1 < n → ys (n - 1) < Param.interp n xs ys x) := by
  have hanti : ∀ {i j : ℕ}, i ≤ j → j < n → ys j ≤ ys i := by
    intro i j hij
    induction j, hij using Nat.le_induction with
    | base => intro _; exact le_rfl
    | succ j _ ih => intro hj; exact (hy j hj).le.trans (ih (by omega))
  unfold Param.interp
  split
  · next h0 =>
    refine ⟨hanti (by omega) (by omega), le_rfl, fun h1 => ?_⟩
    exact (hanti (i := 1) (j := n - 1) (by omega) (by omega)).trans_lt (hy 0 (by omega))
  · next h0 =>
    rw [if_neg (not_le.2 hx)]
    push Not at h0
    obtain ⟨h1, h2, h3⟩ := lastLe_spec xs x n hn h0.le
    simp only
    set k := Param.lastLe xs x n
    have hk : k + 1 < n := by
      by_contra hcon
      have : k = n - 1 := by omega
      rw [this] at h2
      linarith
    have h4 := h3 (k + 1) hk (by omega)
    have hd : 0 < xs (k + 1) - xs k := by linarith
    have h5 := hy k hk
    have hf : (ys (k + 1) - ys k) / (xs (k + 1) - xs k) * (x - xs k) =
        (ys (k + 1) - ys k) * ((x - xs k) / (xs (k + 1) - xs k)) := by ring
    have hfr0 : 0 ≤ (x - xs k) / (xs (k + 1) - xs k) := div_nonneg (by linarith) hd.le
    have hfr1 : (x - xs k) / (xs (k + 1) - xs k) < 1 := by rw [div_lt_one hd]; linarith
    rw [hf]
    have h6 := hanti (i := k + 1) (j := n - 1) (by omega) (by omega)
    have h7 := hanti (i := 0) (j := k) (by omega) (by omega)
    have h8 : ys (k + 1) < ys k + (ys (k + 1) - ys k) * ((x - xs k) / (xs (k + 1) - xs k)) := by nlinarith
    refine ⟨by linarith, by nlinarith, fun _ => by linarith⟩

theorem ahat_pos : 0 < Param.ahat := by unfold Param.ahat; positivity
theorem bhat_pos : 0 < Param.bhat := by unfold Param.bhat; norm_num
theorem zMax_pos : 0 < Param.zMax := by
  have := ahat_pos
  unfold Param.zMax; positivity

theorem zTab_last {n : ℕ} (hn : 1 < n) : Param.zTab n (n - 1) = 0 := by
  have : (n : ℝ) - 1 ≠ 0 := by
    have : (1:ℝ) < n := by exact_mod_cast hn
    linarith
  unfold Param.zTab
  rw [Nat.cast_sub hn.le]
  push_cast
  field_simp
  ring

theorem zTab_zero (n : ℕ) : Param.zTab n 0 = Param.zMax := by simp [Param.zTab]

theorem zTab_anti {n : ℕ} (hn : 1 < n) (i : ℕ) : Param.zTab n (i + 1) < Param.zTab n i := by
  have h1 : (0:ℝ) < n - 1 := by
    have : (1:ℝ) < n := by exact_mod_cast hn
    linarith
  have := div_pos zMax_pos h1
  unfold Param.zTab
  push_cast
  have e : (0 - Param.zMax) / ((n:ℝ) - 1) = -(Param.zMax / (n - 1)) := by ring
  rw [e]; nlinarith

/-- The metallicities tabulated at construction: positive and at most the largest tabulated one. -/
theorem zInterpGrid_gives {cube : IFUCube} (hc : CubeIs cube g) (hg : g.Proper) {lo hi : ℝ} {nDep nz : ℕ}
    (hz : 1 < nz) :
    ∃ zg, Param.zInterpGrid cube lo hi nDep nz = .ok zg ∧ zg.nDep = nDep ∧
      zg.tDep = Param.logspace lo hi nDep ∧ ∀ i k, k < g.nt → ∃ ζ, zg.z i k = .fin ζ ∧ 0 < ζ ∧ ζ ≤ Param.zMax ∧
        ζ = Param.interp nz (fun m => Param.ageAt (g.t g.nt) (Param.logspace lo hi nDep i) (Param.zTab nz m))
          (Param.zTab nz) (centre g.t k) := by
  obtain ⟨r, h1, h2⟩ := at_last hc.tEdges
  have hd : ∃ zg, Param.zInterpGrid cube lo hi nDep nz = .ok zg ∧ zg = (⟨nDep, Param.logspace lo hi nDep,
      fun i k => match r.get [], cube.ssps.tCents.get [k] with
        | .fin h, .fin t => .fin (Param.interp nz (fun m => Param.ageAt h (Param.logspace lo hi nDep i)
            (Param.zTab nz m)) (Param.zTab nz) t)
        | _, _ => .nan⟩ : ZGrid) := ⟨_, by simp only [Param.zInterpGrid, h1, Py.ok_bind]; rfl, rfl⟩
  obtain ⟨zg, hz1, hz2⟩ := hd
  refine ⟨zg, hz1, by rw [hz2], by rw [hz2], fun i k hk => ?_⟩
  rw [hz2]
  simp only [h2, hc.tCents.get k hk]
  have hx : centre g.t k < Param.ageAt (g.t g.nt) (Param.logspace lo hi nDep i) (Param.zTab nz (nz - 1)) := by
    rw [zTab_last hz]
    have := hg.t k hk
    have := mono_edges hg.t (i := k + 1) (j := g.nt) hk le_rfl
    simp only [Param.ageAt, mul_zero, zero_div, sub_zero]
    unfold centre; linarith
  obtain ⟨-, a2, a3⟩ := interp_range (xs := fun m => Param.ageAt (g.t g.nt) (Param.logspace lo hi nDep i)
    (Param.zTab nz m)) (ys := Param.zTab nz) (by omega) (fun i _ => zTab_anti hz i) hx
  refine ⟨_, rfl, ?_, ?_, rfl⟩
  · have := a3 hz
    rw [zTab_last hz] at this
    exact this
  · rw [zTab_zero] at a2; exact a2

/-- The tabulated ages increase, as `np.interp` requires. -/
theorem ageAt_anti {tH tDep z z' : ℝ} (ht : 0 < tDep) (h0 : 0 ≤ z') (h : z' < z) (h1 : z ≤ Param.zMax) :
    Param.ageAt tH tDep z < Param.ageAt tH tDep z' := by
  have ha := ahat_pos
  have hb := bhat_pos
  have hz : 0 < z := h0.trans_lt h
  have key : Param.ahat * z ^ Param.bhat < 1 := by
    have e1 : z ^ Param.bhat ≤ Param.zMax ^ Param.bhat := Real.rpow_le_rpow hz.le h1 hb.le
    have e2 : Param.zMax ^ Param.bhat = Param.ahat⁻¹ * (0.9999 : ℝ) ^ Param.bhat := by
      unfold Param.zMax
      rw [Real.mul_rpow (by positivity) (by norm_num), ← Real.rpow_mul ha.le]
      rw [show -1.0 / Param.bhat * Param.bhat = -1 by
        rw [div_mul_cancel₀ _ hb.ne']; norm_num, Real.rpow_neg_one]
    have e3 : (0.9999 : ℝ) ^ Param.bhat < 1 := Real.rpow_lt_one (by norm_num) (by norm_num) hb
    calc Param.ahat * z ^ Param.bhat ≤ Param.ahat * (Param.ahat⁻¹ * (0.9999 : ℝ) ^ Param.bhat) := by
          rw [← e2]; gcongr
      _ = (0.9999 : ℝ) ^ Param.bhat := by field_simp
      _ < 1 := e3
  have key' : Param.ahat * z' ^ Param.bhat ≤ Param.ahat * z ^ Param.bhat := by gcongr
  unfold Param.ageAt
  have : tDep * z' / (1 - Param.ahat * z' ^ Param.bhat) < tDep * z / (1 - Param.ahat * z ^ Param.bhat) := by
    have hd : 0 < 1 - Param.ahat * z ^ Param.bhat := by linarith
    calc tDep * z' / (1 - Param.ahat * z' ^ Param.bhat) ≤ tDep * z' / (1 - Param.ahat * z ^ Param.bhat) := by
          gcongr
          
      _ < _ := by gcongr
  linarith

/-! ### The model -/

theorem argmin_spec {n : ℕ} (hn : 0 < n) (f : ℕ → ℝ) :
    Param.argmin n f < n ∧ ∀ j < n, f (Param.argmin n f) ≤ f j := by
  have hne : {i | i < n ∧ ∀ j < n, f i ≤ f j}.Nonempty := by
    obtain ⟨i, hi, h⟩ := Finset.exists_min_image (Finset.range n) f ⟨0, Finset.mem_range.2 hn⟩
    exact ⟨i, Finset.mem_range.1 hi, fun j hj => h j (Finset.mem_range.2 hj)⟩
  exact Nat.sInf_mem hne

theorem nearest_lt {zg : ZGrid} (h : 0 < zg.nDep) (t : Num) : Param.nearest zg t < zg.nDep := by
  unfold Param.nearest
  split
  · exact (argmin_spec h _).1
  · exact h

/-- Gaussian probability of the metallicity bin `k` (edges are logarithms) for gas of metallicity `ζ`. -/
def metalProb (g : Grid) (ζ : ℝ) (k : ℕ) : ℝ :=
  (normal ζ (Real.sqrt (Param.ahat * ζ ^ Param.bhat))).real (Set.Ioc ((10:ℝ) ^ g.z k) ((10:ℝ) ^ g.z (k + 1)))

/-- The density in bin `k`: the Gaussian probabilities, normalised as a density in log metallicity. -/
def metalDens (g : Grid) (ζ : ℝ) (k : ℕ) : ℝ :=
  metalProb g ζ k / ∑ j : Fin g.nz, metalProb g ζ j * width g.z j

theorem metalSig_pos {ζ : ℝ} (h : 0 < ζ) : 0 < Real.sqrt (Param.ahat * ζ ^ Param.bhat) :=
  Real.sqrt_pos.2 (mul_pos ahat_pos (Real.rpow_pos_of_pos h _))

theorem metalProb_pos (hg : g.Proper) {ζ : ℝ} (h : 0 < ζ) {k : ℕ} (hk : k < g.nz) : 0 < metalProb g ζ k :=
  normal_Ioc_pos (metalSig_pos h) (Real.rpow_lt_rpow_of_exponent_lt (by norm_num) (hg.z k hk))

theorem metalTotal_pos (hg : g.Proper) {ζ : ℝ} (h : 0 < ζ) :
    0 < ∑ j : Fin g.nz, metalProb g ζ j * width g.z j :=
  Finset.sum_pos (fun j _ => mul_pos (metalProb_pos hg h j.2) (sub_pos.2 (hg.z j j.2)))
    ⟨⟨0, hg.nz⟩, Finset.mem_univ _⟩

theorem metalDens_sum (hg : g.Proper) {ζ : ℝ} (h : 0 < ζ) :
    ∑ k : Fin g.nz, metalDens g ζ k * width g.z k = 1 := by
  have := (metalTotal_pos hg h).ne'
  have e : ∀ k : Fin g.nz, metalDens g ζ k * width g.z k =
      metalProb g ζ k * width g.z k * (∑ j : Fin g.nz, metalProb g ζ j * width g.z j)⁻¹ := fun k => by
    unfold metalDens; ring
  simp only [e]
  rw [← Finset.sum_mul, mul_inv_cancel₀ this]

theorem enrichmentBase_gives (hc : CubeIs p.cube g) (hg : g.Proper) {ζ : ℕ → ℕ → ℝ} (hn : 0 < p.zGrid.nDep)
    (hz : ∀ i < p.zGrid.nDep, ∀ k < g.nt, p.zGrid.z i k = .fin (ζ i k) ∧ 0 < ζ i k) {tDep : Arr Num}
    (ht : tDep.shape = [g.nx, g.ny]) :
    ∃ A, p.enrichmentBase tDep = .ok A ∧ MArr g (['z','t','x','y'].map some) A
      (fun c => Num.lg (metalDens g (ζ (Param.nearest p.zGrid (tDep.get [c.x, c.y])) c.t) c.z)) := by
  set zMu : Arr Num := ⟨[g.nt, g.nx, g.ny], fun i =>
    p.zGrid.z (Param.nearest p.zGrid (tDep.get [i.getD 1 0, i.getD 2 0])) (i.getD 0 0)⟩ with hzMu
  have h1 : MArr g (['t','x','y'].map some) zMu
      (fun c => .fin (ζ (Param.nearest p.zGrid (tDep.get [c.x, c.y])) c.t)) :=
    ⟨rfl, fun c hc' => (hz _ (nearest_lt hn _) c.t hc'.1).1⟩
  have hpos : ∀ c, g.Has c → 0 < ζ (Param.nearest p.zGrid (tDep.get [c.x, c.y])) c.t :=
    fun c hc' => (hz _ (nearest_lt hn _) c.t hc'.1).2
  have h2 : MArr g (['t','x','y'].map some) (map Param.zSig zMu) (fun c => .fin (Real.sqrt (Param.ahat *
      ζ (Param.nearest p.zGrid (tDep.get [c.x, c.y])) c.t ^ Param.bhat))) := (h1.map _).congr fun c hc' => by
    have := hpos c hc'
    simp only [Param.zSig, this.le, if_true]
    rw [Num.sqrt_fin]
    exact mul_nonneg ahat_pos.le (Real.rpow_nonneg this.le _)
  have he : MArr (bump g 'z') [some 'z'] p.cube.ssps.zEdges (fun c => .fin (g.z c.z)) :=
    Is1.marr (g := bump g 'z') (ch := 'z') (a := p.cube.ssps.zEdges) (F := g.z) hc.zEdges
  have he' : MArr (bump g 'z') [some 'z'] (map Param.pow10 p.cube.ssps.zEdges) (fun c => .fin ((10:ℝ) ^ g.z c.z)) :=
    he.map _
  obtain ⟨E, h3, h4⟩ := he'.getitem [.all, .na, .na, .na] (R := [some 'z', none, none, none]) rfl
  have hp : (0:ℕ) < sizeL g 'z' := hg.nz
  have hM : ∀ d, some d ∈ ['t','x','y'].map some → AxisChar d ∧ d ≠ 'z' := by
    intro d hd
    simp only [List.map_cons, List.map_nil, List.mem_cons, Option.some.injEq, List.not_mem_nil, or_false] at hd
    rcases hd with rfl | rfl | rfl <;> exact ⟨by decide, by decide⟩
  have b1 := h1.bump (ch := 'z') (by decide) hM (fun c j => rfl) hp
  have b2 := h2.bump (ch := 'z') (by decide) hM (fun c j => rfl) hp
  have hposb : ∀ c, (bump g 'z').Has c → 0 < ζ (Param.nearest p.zGrid (tDep.get [c.x, c.y])) c.t :=
    fun c hc' => (hz _ (nearest_lt hn _) c.t hc'.1).2
  obtain ⟨C, h5, h6⟩ := MArr.normLogcdf (R := ['z','t','x','y'].map some) b1 b2 h4
    (fun c hc' => metalSig_pos (hposb c hc')) rfl rfl
  obtain ⟨hi, k1, k2⟩ := MArr.upper (ch := 'z') (g := g) (M := ['t','x','y'].map some) (by decide) h6 hM
  obtain ⟨lo, k3, k4⟩ := MArr.lower (ch := 'z') (g := g) (M := ['t','x','y'].map some) (by decide) h6 hM
  obtain ⟨r, k5, k6⟩ := MArr.logDiff k2 k4 (fun c _ => stdPhi_nonneg _) (fun c _ => stdPhi_nonneg _)
  have k6' : MArr g (['z','t','x','y'].map some) r
      (fun c => Num.lg (metalProb g (ζ (Param.nearest p.zGrid (tDep.get [c.x, c.y])) c.t) c.z)) :=
    k6.congr fun c hc' => by
      have h := hpos c hc'
      unfold metalProb
      rw [normal_Ioc (metalSig_pos h)
        (Real.rpow_le_rpow_of_exponent_le (by norm_num) (hg.z _ hc'.2.2.2.2).le)]
      rfl
  obtain ⟨d, k7, k8⟩ := volumeElement_marr hc hg (w := ['z']) (by decide) (by decide)
  have hnn : ∀ c, g.Has c → 0 ≤ metalProb g (ζ (Param.nearest p.zGrid (tDep.get [c.x, c.y])) c.t) c.z :=
    fun c hc' => measureReal_nonneg
  obtain ⟨w, k9, k10⟩ := MArr.addL (R := ['y','x','t','z'].map some) k6'.T (k8.map Num.log) hnn
    (fun c hc' => volOf_nonneg hg hc' _) rfl
  obtain ⟨N, k11, k12⟩ := MArr.lse (U := ['y','x','t','z']) (S := ['z']) (V := ['y','x','t']) k10
    (fun c hc' => mul_nonneg (hnn c hc') (volOf_nonneg hg hc' _)) (by decide) (by decide)
    (axes := [-1]) (by decide +kernel) (by decide)
  have hsum : ∀ c, sumOver g ['z'] (fun c => metalProb g (ζ (Param.nearest p.zGrid (tDep.get [c.x, c.y])) c.t) c.z *
      g.volOf ['z'] c) c = ∑ j : Fin g.nz, metalProb g (ζ (Param.nearest p.zGrid (tDep.get [c.x, c.y])) c.t) j *
        width g.z j := fun c => by
    show ∑ j : Fin g.nz, metalProb g (ζ (Param.nearest p.zGrid (tDep.get [c.x, c.y])) c.t) j *
      g.volOf ['z'] { c with z := j } = _
    simp only [volOf_z]
  have k12' : MArr g (['y','x','t'].map some) N (fun c => Num.lg (∑ j : Fin g.nz,
      metalProb g (ζ (Param.nearest p.zGrid (tDep.get [c.x, c.y])) c.t) j * width g.z j)) :=
    k12.congr fun c _ => by beta_reduce; rw [hsum]
  obtain ⟨A, k13, k14⟩ := MArr.subL (R := ['z','t','x','y'].map some) k6' k12'.T hnn
    (fun c hc' => metalTotal_pos hg (hpos c hc')) rfl
  refine ⟨A, ?_, k14⟩
  have e1 : IFUCube.pyLen p.cube.ssps.tCents = .ok g.nt := by simp [IFUCube.pyLen, hc.tCents.shape]
  unfold Param.enrichmentBase
  rw [if_neg (by rw [ht, hc.nx, hc.ny]; simp)]
  simp only [e1, hc.nx, hc.ny, Py.ok_bind, ← hzMu, h3, h5, k1, k3, k5, k7, k9, k11, k13, Py.pure_eq]

/-- A component as its constructor leaves it, up to the fields written by setters. -/
structure Built (p : Param) (g : Grid) (f2 : ℝ) (center : ℝ × ℝ) (rotation : ℝ) : Prop where
  cubeIs : CubeIs p.cube g
  f2 : p.f2 = f2
  xxp : p.xxp = Param.rotated p.cube center rotation 0
  yyp : p.yyp = Param.rotated p.cube center rotation 1
  zGrid : Param.zInterpGrid p.cube 0.1 10.0 1000 1000 = .ok p.zGrid

/-- The constructor succeeds on every cube. -/
theorem init_built {cube : IFUCube} (hc : CubeIs cube g) (hg : g.Proper) (f2 : ℝ) (center : ℝ × ℝ)
    (rotation : ℝ) : ∃ p, Param.init f2 cube center rotation = .ok p ∧ Built p g f2 center rotation ∧
      p.cube = cube ∧ p.tPars = none ∧ p.logPt = none ∧ p.logPxt = none ∧ p.tDep = none ∧ p.logPztx = none ∧
      p.muV = none ∧ p.sigV = none := by
  obtain ⟨zg, h1, -⟩ := zInterpGrid_gives hc hg (lo := 0.1) (hi := 10.0) (nDep := 1000) (nz := 1000) (by norm_num)
  refine ⟨{ cube := cube, center := center, rotation := rotation,
            xxp := Param.rotated cube center rotation 0, yyp := Param.rotated cube center rotation 1,
            zGrid := zg, f2 := f2, tPars := none, logPt := none, logPxt := none, tDep := none,
            logPztx := none, muV := none, sigV := none }, ?_, ⟨hc, rfl, rfl, rfl, h1⟩, rfl, rfl, rfl, rfl, rfl, rfl,
        rfl, rfl⟩
  simp only [Param.init, h1, Py.ok_bind]

/-- The metallicity the model assigns to age bin `t` for depletion time `τ`. -/
def gasMetal (g : Grid) (i t : ℕ) : ℝ :=
  Param.interp 1000 (fun m => Param.ageAt (g.t g.nt) (Param.logspace 0.1 10.0 1000 i) (Param.zTab 1000 m))
    (Param.zTab 1000) (centre g.t t)

theorem Built.grid {f2 : ℝ} {center : ℝ × ℝ} {rotation : ℝ} (h : Built p g f2 center rotation) (hg : g.Proper) :
    p.zGrid.nDep = 1000 ∧ p.zGrid.tDep = Param.logspace 0.1 10.0 1000 ∧
      ∀ i k, k < g.nt → p.zGrid.z i k = .fin (gasMetal g i k) ∧ 0 < gasMetal g i k ∧
        gasMetal g i k ≤ Param.zMax := by
  obtain ⟨zg, h1, h2, h3, h4⟩ := zInterpGrid_gives h.cubeIs hg (lo := 0.1) (hi := 10.0) (nDep := 1000)
    (nz := 1000) (by norm_num)
  have e : p.zGrid = zg := by have := h.zGrid; rw [h1] at this; exact (Except.ok.inj this).symm
  rw [e]
  refine ⟨h2, h3, fun i k hk => ?_⟩
  obtain ⟨ζ, k1, k2, k3, k4⟩ := h4 i k hk
  have : ζ = gasMetal g i k := k4
  rw [← this]; exact ⟨k1, k2, k3⟩

/-- `get_p('z_tx')` reads only the stored enrichment model. -/
theorem getP_ztx_stored (hc : CubeIs p.cube g) (hg : g.Proper) {A : Arr Num} {q : Cell → ℝ}
    (hA : p.logPztx = some A) (hA' : MArr g (['z','t','x','y'].map some) A (fun c => Num.lg (q c)))
    (hq : ∀ c, g.Has c → 0 ≤ q c) (density : Bool) :
    Gives (getP p.self (condStr ['z'] ['t','x']) density false) g (condStr ['z'] ['t','x'])
      (fun c => .fin (q c * width g.z c.z / dvol g density ['z'] c)) := by
  have key : IsL (p.ztxMass density) g ['z','t','x','y'] (fun c => q c * width g.z c.z / dvol g density ['z'] c) := by
    cases density with
    | true =>
      refine ⟨A, by simp [Param.ztxMass, Param.attr, hA, Param.onlyIf], hA'.congr fun c hc' => ?_⟩
      have := volOf_pos hg hc' ['z']
      simp only [dvol, if_true]
      rw [← volOf_z, mul_div_assoc, div_self this.ne', mul_one]
    | false =>
      obtain ⟨d, h1, h2⟩ := volumeElement_marr hc hg (w := ['z']) (by decide) (by decide)
      obtain ⟨r, h4, h5⟩ := MArr.addL (R := ['y','x','t','z'].map some) hA'.T (h2.map Num.log) hq
        (fun c hc' => volOf_nonneg hg hc' _) rfl
      refine ⟨T r, by simp [Param.ztxMass, Param.attr, hA, Param.onlyIf, Param.logVol, h1, h4, Param.addT],
        h5.T.congr fun c hc' => ?_⟩
      simp [dvol, volOf_z]
  have hq' : ((['z'],['t','x']) : PyStr × PyStr) ∈ conditionals := by decide +kernel
  refine (getP_own (p := p) hq' (f := p.ztx) rfl density false (IsL.cond hq' key)).congr fun c hc' => ?_
  exact Num.exp_lg (div_nonneg (mul_nonneg (hq _ hc') (by have := hg.z _ hc'.2.2.2.2; unfold width; linarith))
    (dvol_pos hg hc' _ _).le)

end PKM
