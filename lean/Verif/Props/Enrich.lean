import Verif.Enrich
import Verif.Props.Sfh

/-!
# C35: the chemical enrichment model

`set_t_dep` stores a depletion time-scale for every pixel and ends with `set_p_z_tx`, which is
`p.setPztx`.  `Built p g …` says that `p` was made by the constructor on a cube representing `g`.
The age at which gas with depletion time `τ` reaches metallicity `ζ` is `Param.ageAt t_H τ ζ`
(Zhu et al. 2020); `Param.zMax` is the largest tabulated metallicity.
-/

open scoped Classical
open MeasureTheory ProbabilityTheory

noncomputable section

namespace PKM
open Np Component

variable {p : Param} {g : Grid} {f2 : ℝ} {center : ℝ × ℝ} {rotation : ℝ}

/-- The tabulated depletion times cover 0.1 to 10, increasing. -/
theorem logspace_props : Param.logspace 0.1 10.0 1000 0 = 0.1 ∧ Param.logspace 0.1 10.0 1000 999 = 10 ∧
    ∀ i j, i < j → Param.logspace 0.1 10.0 1000 i < Param.logspace 0.1 10.0 1000 j := by
  have e1 : Real.logb 10 (0.1:ℝ) = -1 := by
    rw [show (0.1:ℝ) = 10 ^ (-1:ℝ) by rw [Real.rpow_neg_one]; norm_num,
      Real.logb_rpow (by norm_num) (by norm_num)]
  have e2 : Real.logb 10 (10.0:ℝ) = 1 := by
    rw [show (10.0:ℝ) = 10 by norm_num]
    exact Real.logb_self_eq_one (by norm_num)
  refine ⟨?_, ?_, fun i j h => ?_⟩
  · simp only [Param.logspace, e1]; norm_num [Real.rpow_neg_one]
  · simp only [Param.logspace, e1, e2]; norm_num
  · simp only [Param.logspace, e1, e2]
    apply Real.rpow_lt_rpow_of_exponent_lt (by norm_num)
    have : (i:ℝ) < j := by exact_mod_cast h
    norm_num
    linarith

/-- After `set_t_dep` has stored depletion times `A[x, y]`, `get_p('z_tx')` is a distribution over
metallicity for every age and pixel, and pixels with the same depletion time have the same one.
Bin `z` gets a weight proportional to the probability that a Gaussian around the gas metallicity
`ζ`, `0 < ζ ≤ zMax`, gives to the bin, times the width of the bin in log metallicity; `ζ` depends on the age and
on the tabulated depletion time nearest to the requested one. -/
theorem C35_normalised (hb : Built p g f2 center rotation) (hg : g.Proper) {A : Arr Num} (hA : p.tDep = some A)
    (hs : A.shape = [g.nx, g.ny]) :
    ∃ p' r, p.setPztx = .ok p' ∧ getP p'.self (condStr ['z'] ['t','x']) false false = .ok r ∧
      r.shape = [g.nz, g.nt, g.nx, g.ny] ∧
      (∀ t < g.nt, ∀ x < g.nx, ∀ y < g.ny, ∑ z : Fin g.nz, r.get [(z : ℕ), t, x, y] = .fin 1) ∧
      (∀ z < g.nz, ∀ t < g.nt, ∀ x < g.nx, ∀ y < g.ny, ∃ v, r.get [z, t, x, y] = .fin v ∧ 0 < v) ∧
      (∀ z < g.nz, ∀ t < g.nt, ∀ x < g.nx, ∀ y < g.ny, ∀ x' < g.nx, ∀ y' < g.ny,
        A.get [x, y] = A.get [x', y'] → r.get [z, t, x, y] = r.get [z, t, x', y']) ∧
      (∀ x < g.nx, ∀ y < g.ny, ∀ τ, A.get [x, y] = .fin τ → ∃ i < 1000,
        (∀ j < 1000, |τ - Param.logspace 0.1 10.0 1000 i| ≤ |τ - Param.logspace 0.1 10.0 1000 j|) ∧
        ∀ t < g.nt, ∃ ζ S, ζ = gasMetal g i t ∧ 0 < ζ ∧ ζ ≤ Param.zMax ∧ 0 < S ∧
          ∀ z < g.nz, r.get [z, t, x, y] = .fin
            ((normal ζ (Real.sqrt (Param.ahat * ζ ^ Param.bhat))).real
              (Set.Ioc ((10:ℝ) ^ g.z z) ((10:ℝ) ^ g.z (z + 1))) * (g.z (z + 1) - g.z z) / S)) := by
  obtain ⟨g1, g2, g3⟩ := hb.grid hg
  have hn : 0 < p.zGrid.nDep := by rw [g1]; norm_num
  obtain ⟨B, h1, h2⟩ := enrichmentBase_gives hb.cubeIs hg (ζ := gasMetal g) hn
    (fun i _ k hk => ⟨(g3 i k hk).1, (g3 i k hk).2.1⟩) hs
  have hd : ∀ c, g.Has c → 0 < metalDens g (gasMetal g (Param.nearest p.zGrid (A.get [c.x, c.y])) c.t) c.z :=
    fun c hc => div_pos (metalProb_pos hg (g3 _ _ hc.1).2.1 hc.2.2.2.2) (metalTotal_pos hg (g3 _ _ hc.1).2.1)
  obtain ⟨r, h3, h4, h5⟩ := getP_ztx_stored (p := { p with logPztx := some B }) hb.cubeIs hg rfl h2
    (fun c hc => (hd c hc).le) false
  have hr : ∀ z < g.nz, ∀ t < g.nt, ∀ x < g.nx, ∀ y < g.ny, r.get [z, t, x, y] =
      .fin (metalDens g (gasMetal g (Param.nearest p.zGrid (A.get [x, y])) t) z * width g.z z) :=
    fun z hz t ht x hx y hy => by
      have := h5 ⟨t, 0, x, y, z⟩ ⟨ht, hg.nv, hx, hy, hz⟩
      simpa [coords, coord1, condStr, dvol] using this
  refine ⟨_, r, by simp only [Param.setPztx, Param.attr, hA, Py.ok_bind, h1], h3, h4, fun t ht x hx y hy => ?_,
    fun z hz t ht x hx y hy => ⟨_, hr z hz t ht x hx y hy, mul_pos (hd ⟨t, 0, x, y, z⟩ ⟨ht, hg.nv, hx, hy, hz⟩)
      (sub_pos.2 (hg.z z hz))⟩, fun z hz t ht x hx y hy x' hx' y' hy' e => ?_, fun x hx y hy τ hτ => ?_⟩
  · rw [Num.sum_congr_fin _ (fun z : Fin g.nz => r.get [(z:ℕ), t, x, y])
      (fun z : Fin g.nz => metalDens g (gasMetal g (Param.nearest p.zGrid (A.get [x, y])) t) z * width g.z z)
      fun z _ => hr z z.2 t ht x hx y hy]
    rw [metalDens_sum hg (g3 _ t ht).2.1]
  · rw [hr z hz t ht x hx y hy, hr z hz t ht x' hx' y' hy', e]
  · obtain ⟨a1, a2⟩ := argmin_spec hn (fun i => |τ - p.zGrid.tDep i|)
    have e : Param.nearest p.zGrid (A.get [x, y]) = Param.argmin p.zGrid.nDep (fun i => |τ - p.zGrid.tDep i|) := by
      rw [hτ]; rfl
    rw [← e] at a1 a2
    rw [g1] at a1 a2
    simp only [g2] at a2
    refine ⟨_, a1, a2, fun t ht => ⟨_, _, rfl, (g3 _ t ht).2.1, (g3 _ t ht).2.2, metalTotal_pos hg
      (g3 (Param.nearest p.zGrid (A.get [x, y])) t ht).2.1, fun z hz => ?_⟩⟩
    rw [hr z hz t ht x hx y hy, metalDens, metalProb, width, div_mul_eq_mul_div]

theorem interp_bracket {n : ℕ} {xs ys : ℕ → ℝ} {x : ℝ} (hn : 0 < n) (hy : ∀ i, i + 1 < n → ys (i + 1) < ys i)
    (h0 : xs 0 < x) (hx : x < xs (n - 1)) : ∃ k, k + 1 < n ∧ xs k ≤ x ∧ x < xs (k + 1) ∧
      ys (k + 1) ≤ Param.interp n xs ys x ∧ Param.interp n xs ys x ≤ ys k := by
  unfold Param.interp
  rw [if_neg (not_le.2 h0), if_neg (not_le.2 hx)]
  obtain ⟨h1, h2, h3⟩ := lastLe_spec xs x n hn h0.le
  simp only
  set k := Param.lastLe xs x n
  have hk : k + 1 < n := by
    by_contra hcon
    have : k = n - 1 := by omega
    rw [this] at h2
    linarith
  have h4 := h3 (k + 1) hk (by omega)
  have hd : 0 < xs (k + 1) - xs k := by linarith
  have h5 := hy k hk
  have hf : (ys (k + 1) - ys k) / (xs (k + 1) - xs k) * (x - xs k) =
      (ys (k + 1) - ys k) * ((x - xs k) / (xs (k + 1) - xs k)) := by ring
  have hfr0 : 0 ≤ (x - xs k) / (xs (k + 1) - xs k) := div_nonneg (by linarith) hd.le
  have hfr1 : (x - xs k) / (xs (k + 1) - xs k) < 1 := by rw [div_lt_one hd]; linarith
  exact ⟨k, hk, h2, h4, by rw [hf]; nlinarith, by rw [hf]; nlinarith⟩

/-- The interpolated gas metallicity stays in the tabulated range, and is within one table step of the
metallicity at which gas with that depletion time reaches the age of the bin, if there is one in range. -/
theorem C35_interpolated (hg : g.Proper) (i t : ℕ) (ht : t < g.nt) :
    0 < gasMetal g i t ∧ gasMetal g i t ≤ Param.zMax ∧
      ∀ ζ, 0 ≤ ζ → ζ ≤ Param.zMax →
        Param.ageAt (g.t g.nt) (Param.logspace 0.1 10.0 1000 i) ζ = centre g.t t →
        |gasMetal g i t - ζ| ≤ Param.zMax / 999 := by
  have hz := zMax_pos
  have hL : 0 < Param.logspace 0.1 10.0 1000 i := by unfold Param.logspace; positivity
  have hx : centre g.t t < Param.ageAt (g.t g.nt) (Param.logspace 0.1 10.0 1000 i) (Param.zTab 1000 (1000 - 1)) := by
    rw [zTab_last (by norm_num)]
    have := hg.t t ht
    have := mono_edges hg.t (i := t + 1) (j := g.nt) ht le_rfl
    simp only [Param.ageAt, mul_zero, zero_div, sub_zero]
    unfold centre; linarith
  obtain ⟨-, a2, a3⟩ := interp_range (n := 1000) (xs := fun m => Param.ageAt (g.t g.nt) (Param.logspace 0.1 10.0 1000 i)
    (Param.zTab 1000 m)) (ys := Param.zTab 1000) (by omega) (fun i _ => zTab_anti (by norm_num) i) hx
  have a3 := a3 (by norm_num)
  rw [zTab_last (by norm_num)] at a3
  have a2' := a2
  rw [zTab_zero] at a2
  refine ⟨a3, a2, fun ζ h0 h1 hζ => ?_⟩
  have anti : ∀ {a b}, 0 ≤ a → b ≤ Param.zMax → Param.ageAt (g.t g.nt) (Param.logspace 0.1 10.0 1000 i) a <
      Param.ageAt (g.t g.nt) (Param.logspace 0.1 10.0 1000 i) b → b < a := fun {a b} ha hb h => by
    by_contra hcon
    rcases (not_lt.1 hcon).lt_or_eq with h' | h'
    · exact absurd h (not_lt.2 (ageAt_anti hL ha h' hb).le)
    · rw [h'] at h; exact lt_irrefl _ h
  have antile : ∀ {a b}, 0 ≤ a → b ≤ Param.zMax → Param.ageAt (g.t g.nt) (Param.logspace 0.1 10.0 1000 i) a ≤
      Param.ageAt (g.t g.nt) (Param.logspace 0.1 10.0 1000 i) b → b ≤ a := fun {a b} ha hb h => by
    by_contra hcon
    exact absurd h (not_le.2 (ageAt_anti hL ha (not_le.1 hcon) hb))
  have hstep : ∀ k : ℕ, Param.zTab 1000 k - Param.zTab 1000 (k + 1) = Param.zMax / 999 := fun k => by
    unfold Param.zTab; push_cast; ring
  have hdiv : 0 < Param.zMax / 999 := by positivity
  rcases le_or_gt (centre g.t t) (Param.ageAt (g.t g.nt) (Param.logspace 0.1 10.0 1000 i) (Param.zTab 1000 0)) with h | h
  · have e : gasMetal g i t = Param.zMax := by
      unfold gasMetal Param.interp
      rw [if_pos h, zTab_zero]
    rw [← hζ, zTab_zero] at h
    have := antile h0 le_rfl h
    rw [e, show Param.zMax - ζ = 0 by linarith, abs_zero]
    exact hdiv.le
  · obtain ⟨k, hk, b1, b2, b3, b4⟩ := interp_bracket (n := 1000)
      (xs := fun m => Param.ageAt (g.t g.nt) (Param.logspace 0.1 10.0 1000 i) (Param.zTab 1000 m))
      (ys := Param.zTab 1000) (by norm_num) (fun i _ => zTab_anti (by norm_num) i) h hx
    have hmono : Antitone (Param.zTab 1000) := antitone_nat_of_succ_le fun n => (zTab_anti (by norm_num) n).le
    have c1 : 0 ≤ Param.zTab 1000 k := by
      rw [← zTab_last (n := 1000) (by norm_num)]; exact hmono (by omega)
    have c2 : Param.zTab 1000 (k + 1) ≤ Param.zMax := by
      rw [← zTab_zero 1000]; exact hmono (by omega)
    rw [← hζ] at b1 b2
    have d1 := antile c1 h1 b1
    have d2 := anti h0 c2 b2
    have := hstep k
    have e : gasMetal g i t = Param.interp 1000 (fun m => Param.ageAt (g.t g.nt) (Param.logspace 0.1 10.0 1000 i)
      (Param.zTab 1000 m)) (Param.zTab 1000) (centre g.t t) := rfl
    rw [← e] at b3 b4
    rw [abs_le]
    constructor <;> linarith

/-- The table handed to `np.interp` has increasing ages, as that function requires. -/
theorem C35_table_increasing (tH τ : ℝ) (hτ : 0 < τ) (k : ℕ) (hk : k + 1 < 1000) :
    Param.ageAt tH τ (Param.zTab 1000 k) < Param.ageAt tH τ (Param.zTab 1000 (k + 1)) := by
  have hmono : Antitone (Param.zTab 1000) := antitone_nat_of_succ_le fun n => (zTab_anti (by norm_num) n).le
  refine ageAt_anti hτ ?_ (zTab_anti (by norm_num) k) ?_
  · rw [← zTab_last (n := 1000) (by norm_num)]; exact hmono (by omega)
  · rw [← zTab_zero 1000]; exact hmono (by omega)

/-- `evaluate_chemical_enrichment_model(t_dep)` returns, for one depletion time, a density over
metallicity for every age, which integrates to one. -/
theorem C35_evaluate (hb : Built p g f2 center rotation) (hg : g.Proper) (τ : ℝ) :
    ∃ r, p.enrichment τ = .ok r ∧ r.shape = [g.nz, g.nt] ∧
      (∀ t < g.nt, ∑ z : Fin g.nz, r.get [(z : ℕ), t] * .fin (g.z (z + 1) - g.z z) = .fin 1) ∧
      (∀ z < g.nz, ∀ t < g.nt, ∃ v, r.get [z, t] = .fin v ∧ 0 < v) := by
  obtain ⟨g1, g2, g3⟩ := hb.grid hg
  have hn : 0 < p.zGrid.nDep := by rw [g1]; norm_num
  obtain ⟨B, h1, h2⟩ := enrichmentBase_gives hb.cubeIs hg (ζ := gasMetal g) hn
    (fun i _ k hk => ⟨(g3 i k hk).1, (g3 i k hk).2.1⟩) (tDep := full [g.nx, g.ny] (.fin τ)) rfl
  have hsz : B.shape = [g.nz, g.nt, g.nx, g.ny] := h2.1
  have hB : ∀ z < g.nz, ∀ t < g.nt, B.get [z, t, 0, 0] =
      Num.lg (metalDens g (gasMetal g (Param.nearest p.zGrid (.fin τ)) t) z) := fun z hz t ht =>
    h2.2 ⟨t, 0, 0, 0, z⟩ ⟨ht, hg.nv, hg.nx, hg.ny, hz⟩
  have hd : ∀ z < g.nz, ∀ t < g.nt, 0 < metalDens g (gasMetal g (Param.nearest p.zGrid (.fin τ)) t) z :=
    fun z hz t ht => div_pos (metalProb_pos hg (g3 _ _ ht).2.1 hz) (metalTotal_pos hg (g3 _ _ ht).2.1)
  have e1 : (map Num.exp B).shape = [g.nz, g.nt, g.nx, g.ny] := hsz
  obtain ⟨r, h3, h4, h5⟩ : ∃ r, getitem [.all, .all, .at 0, .at 0] (map Num.exp B) = .ok r ∧ r.shape = [g.nz, g.nt] ∧
      ∀ z < g.nz, ∀ t < g.nt, r.get [z, t] = Num.exp (B.get [z, t, 0, 0]) := by
    refine ⟨⟨[g.nz, g.nt], fun i => (map Num.exp B).get (ixIdx [.all, .all, .at 0, .at 0] (map Num.exp B).shape i)⟩,
      ?_, rfl, fun z hz t ht => ?_⟩
    · simp [getitem, e1, ixShape, hg.nx, hg.ny]
    · show (map Num.exp B).get _ = _
      rw [e1]
      simp [ixIdx, hg.nx, hg.ny, map]
  have hr : ∀ z < g.nz, ∀ t < g.nt, r.get [z, t] =
      .fin (metalDens g (gasMetal g (Param.nearest p.zGrid (.fin τ)) t) z) := fun z hz t ht => by
    rw [h5 z hz t ht, hB z hz t ht, Num.exp_lg (hd z hz t ht).le]
  refine ⟨r, ?_, h4, fun t ht => ?_, fun z hz t ht => ⟨_, hr z hz t ht, hd z hz t ht⟩⟩
  · rw [← hb.cubeIs.nx, ← hb.cubeIs.ny] at h1
    simp only [Param.enrichment, h1, Py.ok_bind, h3]
  · rw [Num.sum_congr_fin _ (fun z : Fin g.nz => r.get [(z:ℕ), t] * .fin (g.z (z + 1) - g.z z))
      (fun z : Fin g.nz => metalDens g (gasMetal g (Param.nearest p.zGrid (.fin τ)) t) z * width g.z z)
      fun z _ => by rw [hr z z.2 t ht, Num.fin_mul]; rfl]
    rw [metalDens_sum hg (g3 _ t ht).2.1]

/-- The hypotheses are met: a component on the demonstration cube with constant depletion time 3. -/
example : ∃ p A, Built p demoGrid 1 (0, 0) 0 ∧ p.tDep = some A ∧ A.shape = [demoGrid.nx, demoGrid.ny] ∧
    ∃ q, p.setPztx = .ok q := by
  obtain ⟨c, -, h, -⟩ := demoCube_exists
  obtain ⟨p, -, hb, -⟩ := init_built h demoGrid_proper 1 (0, 0) 0
  have hb' : Built { p with tDep := some (full [demoGrid.nx, demoGrid.ny] (.fin 3)) } demoGrid 1 (0, 0) 0 :=
    ⟨hb.cubeIs, hb.f2, hb.xxp, hb.yyp, hb.zGrid⟩
  obtain ⟨q, -, h1, -⟩ := C35_normalised hb' demoGrid_proper rfl rfl
  exact ⟨_, _, hb', rfl, rfl, q, h1⟩

/-- The hypotheses of `C31_bins` and `C36_between_limits` are met: `set_p_t(lmd=15, phi=0.5)`. -/
example : ∃ p : Param, CubeIs p.cube demoGrid ∧ demoGrid.Proper ∧ (0:ℝ) < 15 ∧ (0:ℝ) < 0.5 ∧ (0.5:ℝ) < 1 ∧
    (1:ℝ) < 15 * 0.5 ∧ ∃ q, p.setPt 15 0.5 (0.05, 0.95) = .ok q := by
  obtain ⟨c, -, h, -⟩ := demoCube_exists
  obtain ⟨p, -, hb, -⟩ := init_built h demoGrid_proper 1 (0, 0) 0
  obtain ⟨q, r, d, h1, -⟩ := C31_bins hb.cubeIs demoGrid_proper 15 0.5 (by norm_num) (by norm_num) (by norm_num)
    (Or.inl (by norm_num)) (0.05, 0.95)
  exact ⟨p, hb.cubeIs, demoGrid_proper, by norm_num, by norm_num, by norm_num, by norm_num, q, h1⟩

/-- The hypotheses of `C31_rejects` and `C31_invalid_accepted` are met. -/
example : (1:ℝ) * 0.5 ≤ 1 ∧ (1:ℝ) * (1 - 0.5) ≤ 1 ∧ (1:ℝ) < 2 * 2 ∧ (2:ℝ) * (1 - 2) ≤ 0 := by norm_num

end PKM
