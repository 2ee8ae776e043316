import Verif.Enrich

/-! Lemmas: the order of metallicity distributions in the enrichment model. -/

open scoped Classical NNReal
open MeasureTheory ProbabilityTheory Set

noncomputable section

namespace PKM
open Np Component

/-! ### Interpolation in a decreasing table -/

section
variable {n : ℕ} {xs ys : ℕ → ℝ}

theorem table_lt (hx : ∀ i, i + 1 < n → xs i < xs (i + 1)) {i j : ℕ} (h : i < j) (hj : j < n) : xs i < xs j := by
  induction j, h using Nat.le_induction with
  | base => exact hx i hj
  | succ j h ih => exact (ih (by omega)).trans (hx j hj)

theorem table_le (hx : ∀ i, i + 1 < n → xs i < xs (i + 1)) {i j : ℕ} (h : i ≤ j) (hj : j < n) : xs i ≤ xs j := by
  rcases h.lt_or_eq with h | rfl
  · exact (table_lt hx h hj).le
  · exact le_rfl

/-- Between two neighbouring points the interpolation is linear. -/
theorem interp_on (hx : ∀ i, i + 1 < n → xs i < xs (i + 1)) {k : ℕ} (hk : k + 1 < n) {s : ℝ} (h0 : 0 ≤ s) (h1 : s ≤ 1) :
    Param.interp n xs ys (xs k + s * (xs (k + 1) - xs k)) = ys k + s * (ys (k + 1) - ys k) := by
  have hd : 0 < xs (k + 1) - xs k := sub_pos.2 (hx k hk)
  set x := xs k + s * (xs (k + 1) - xs k) with e
  have b0 : xs k ≤ x := by rw [e]; nlinarith
  have b1 : x ≤ xs (k + 1) := by rw [e]; nlinarith
  have s0 : x = xs k → s = 0 := fun h => by
    rw [e] at h
    have : s * (xs (k + 1) - xs k) = 0 := by linarith
    exact (mul_eq_zero.1 this).resolve_right hd.ne'
  have s1 : x = xs (k + 1) → s = 1 := fun h => by
    rw [e] at h
    have : (s - 1) * (xs (k + 1) - xs k) = 0 := by linarith
    linarith [(mul_eq_zero.1 this).resolve_right hd.ne']
  unfold Param.interp
  split_ifs with c1 c2
  · have : k = 0 := by
      by_contra hne
      have := table_lt hx (Nat.pos_of_ne_zero hne) (by omega)
      linarith
    subst this
    rw [s0 (le_antisymm c1 b0)]; ring
  · have : k + 1 = n - 1 := by
      by_contra hne
      have := table_lt hx (i := k + 1) (j := n - 1) (by omega) (by omega)
      linarith
    rw [← this] at c2 ⊢
    rw [s1 (le_antisymm b1 c2)]; ring
  · obtain ⟨l1, l2, l3⟩ := lastLe_spec xs x n (by omega) (not_le.1 c1).le
    simp only
    set L := Param.lastLe xs x n
    have hL : L + 1 < n := by
      by_contra hne
      have : L = n - 1 := by omega
      rw [this] at l2; exact c2 l2
    have l4 := l3 (L + 1) hL (by omega)
    rcases lt_trichotomy k L with h | h | h
    · have hle := table_le hx (i := k + 1) (j := L) h (by omega)
      have ex : x = xs (k + 1) := le_antisymm b1 (hle.trans l2)
      have eL : L = k + 1 := by
        by_contra hne
        have := table_lt hx (i := k + 1) (j := L) (by omega) (by omega)
        linarith
      rw [s1 ex, eL, ex]; ring
    · rw [← h, e]
      field_simp
      ring
    · have := table_le hx (i := L + 1) (j := k) h (by omega)
      linarith

theorem interp_seg (hx : ∀ i, i + 1 < n → xs i < xs (i + 1)) {x : ℝ} (h0 : xs 0 ≤ x) (h1 : x < xs (n - 1)) (hn : 0 < n) :
    ∃ k s, k + 1 < n ∧ 0 ≤ s ∧ s < 1 ∧ x = xs k + s * (xs (k + 1) - xs k) := by
  obtain ⟨l1, l2, l3⟩ := lastLe_spec xs x n hn h0
  set L := Param.lastLe xs x n
  have hL : L + 1 < n := by
    by_contra hne
    have : L = n - 1 := by omega
    rw [this] at l2; linarith
  have l4 := l3 (L + 1) hL (by omega)
  have hd : 0 < xs (L + 1) - xs L := sub_pos.2 (hx L hL)
  refine ⟨L, (x - xs L) / (xs (L + 1) - xs L), hL, div_nonneg (by linarith) hd.le, ?_, ?_⟩
  · rw [div_lt_one hd]; linarith
  · rw [div_mul_cancel₀ _ hd.ne']; ring

/-- In an increasing table of decreasing values, the interpolation decreases. -/
theorem interp_lt (hx : ∀ i, i + 1 < n → xs i < xs (i + 1)) (hy : ∀ i, i + 1 < n → ys (i + 1) < ys i) {x x' : ℝ}
    (h0 : xs 0 ≤ x) (h : x < x') (h1 : x' < xs (n - 1)) (hn : 0 < n) :
    Param.interp n xs ys x' < Param.interp n xs ys x := by
  obtain ⟨k, s, hk, s0, s1, rfl⟩ := interp_seg hx h0 (h.trans h1) hn
  obtain ⟨k', s', hk', s0', s1', rfl⟩ := interp_seg hx (h0.trans h.le) h1 hn
  rw [interp_on hx hk s0 s1.le, interp_on hx hk' s0' s1'.le]
  have d := hx k hk
  have d' := hx k' hk'
  have e := hy k hk
  have e' := hy k' hk'
  rcases lt_trichotomy k k' with hkk | rfl | hkk
  · have hle : ys k' ≤ ys (k + 1) := by
      have := table_le (xs := fun i => - ys i) (n := n) (fun i hi => neg_lt_neg (hy i hi)) (i := k + 1) (j := k') hkk (by omega)
      simpa using this
    nlinarith
  · have : s < s' := by
      by_contra hcon
      nlinarith [mul_nonneg (sub_nonneg.2 (not_lt.1 hcon)) (sub_nonneg.2 d.le)]
    nlinarith
  · have := table_le hx (i := k' + 1) (j := k) hkk (by omega)
    nlinarith

/-- Moving the points of the table to the left lowers the interpolation. -/
theorem interp_shift {xs' : ℕ → ℝ} (hx : ∀ i, i + 1 < n → xs i < xs (i + 1)) (hx' : ∀ i, i + 1 < n → xs' i < xs' (i + 1))
    (hy : ∀ i, i + 1 < n → ys (i + 1) < ys i) (hl : ∀ i, i + 1 < n → xs' i < xs i) (he : xs' (n - 1) = xs (n - 1)) {x : ℝ}
    (h0 : xs 0 ≤ x) (h1 : x < xs (n - 1)) (hn : 0 < n) : Param.interp n xs' ys x < Param.interp n xs ys x := by
  obtain ⟨k, s, hk, s0, s1, rfl⟩ := interp_seg hx h0 h1 hn
  rw [interp_on hx hk s0 s1.le, ← interp_on (ys := ys) hx' hk s0 s1.le]
  have hk1 : xs' (k + 1) ≤ xs (k + 1) := by
    rcases (show k + 1 ≤ n - 1 by omega).lt_or_eq with h | h
    · exact (hl (k + 1) (by omega)).le
    · rw [h, he]
  have hd := hx' k hk
  have h2 := table_le hx' (i := 0) (j := k) (by omega) (by omega)
  have h3 := hl k hk
  exact interp_lt hx' hy (by nlinarith) (by nlinarith) (he ▸ h1) hn

end

/-! ### Gas metallicities -/

theorem bhat_lt : Param.bhat < 1 := by unfold Param.bhat; norm_num

theorem zMax_rpow : Param.ahat * Param.zMax ^ Param.bhat = (0.9999 : ℝ) ^ Param.bhat := by
  have ha := ahat_pos
  have hb := bhat_pos
  unfold Param.zMax
  rw [Real.mul_rpow (by positivity) (by norm_num), ← Real.rpow_mul ha.le]
  rw [show -1.0 / Param.bhat * Param.bhat = -1 by
    rw [div_mul_cancel₀ _ hb.ne']; norm_num, Real.rpow_neg_one]
  field_simp

theorem gas_left {z : ℝ} (h0 : 0 ≤ z) (h1 : z ≤ Param.zMax) : 0 < 1 - Param.ahat * z ^ Param.bhat := by
  have ha := ahat_pos
  have hb := bhat_pos
  have e1 : z ^ Param.bhat ≤ Param.zMax ^ Param.bhat := Real.rpow_le_rpow h0 h1 hb.le
  have e3 : (0.9999 : ℝ) ^ Param.bhat < 1 := Real.rpow_lt_one (by norm_num) (by norm_num) hb
  have := zMax_rpow
  nlinarith

/-- Gas that is used up more slowly takes longer to reach a metallicity. -/
theorem ageAt_dep {tH τ τ' z : ℝ} (h : τ < τ') (h0 : 0 < z) (h1 : z ≤ Param.zMax) :
    Param.ageAt tH τ' z < Param.ageAt tH τ z := by
  have := gas_left h0.le h1
  unfold Param.ageAt
  gcongr

theorem one_le_zMax : 0.9999 ≤ Param.zMax := by
  have hb := bhat_pos
  unfold Param.zMax
  have : 1 ≤ Param.ahat ^ (-1.0 / Param.bhat) := by
    refine Real.one_le_rpow_of_pos_of_le_one_of_nonpos ahat_pos ?_ ?_
    · unfold Param.ahat
      exact Real.rpow_le_one_of_one_le_of_nonpos (by norm_num) (by norm_num)
    · exact div_nonpos_of_nonpos_of_nonneg (by norm_num) hb.le
  linarith

/-- The largest tabulated metallicity is not reached within a hundred Gyr. -/
theorem zMax_late {tH τ : ℝ} (hτ : 0.1 ≤ τ) (ht : tH ≤ 100) : Param.ageAt tH τ Param.zMax < 0 := by
  have h1 := one_le_zMax
  have h2 : (0.9999 : ℝ) ≤ (0.9999 : ℝ) ^ Param.bhat :=
    Real.self_le_rpow_of_le_one (by norm_num) (by norm_num) bhat_lt.le
  have h3 := gas_left zMax_pos.le le_rfl
  unfold Param.ageAt
  rw [zMax_rpow] at h3 ⊢
  have h4 : 100 < τ * Param.zMax / (1 - (0.9999:ℝ) ^ Param.bhat) := by
    rw [lt_div_iff₀ h3]
    nlinarith
  linarith

variable {p : Param} {g : Grid}

theorem logspace_lt {i j : ℕ} (h : i < j) : Param.logspace 0.1 10.0 1000 i < Param.logspace 0.1 10.0 1000 j := by
  have e1 : Real.logb 10 (0.1:ℝ) = -1 := by
    rw [show (0.1:ℝ) = 10 ^ (-1:ℝ) by rw [Real.rpow_neg_one]; norm_num,
      Real.logb_rpow (by norm_num) (by norm_num)]
  have e2 : Real.logb 10 (10.0:ℝ) = 1 := by
    rw [show (10.0:ℝ) = 10 by norm_num]
    exact Real.logb_self_eq_one (by norm_num)
  simp only [Param.logspace, e1, e2]
  apply Real.rpow_lt_rpow_of_exponent_lt (by norm_num)
  have : (i:ℝ) < j := by exact_mod_cast h
  norm_num
  linarith

theorem logspace_ge (i : ℕ) : 0.1 ≤ Param.logspace 0.1 10.0 1000 i := by
  have e : Param.logspace 0.1 10.0 1000 0 = 0.1 := by
    simp only [Param.logspace, Nat.cast_zero, zero_mul, add_zero]
    exact Real.rpow_logb (by norm_num) (by norm_num) (by norm_num)
  rcases Nat.eq_zero_or_pos i with rfl | h
  · exact e.ge
  · exact e.symm.le.trans (logspace_lt h).le

theorem zTab_mem {k : ℕ} (hk : k < 1000) : 0 ≤ Param.zTab 1000 k ∧ Param.zTab 1000 k ≤ Param.zMax := by
  have hmono : Antitone (Param.zTab 1000) := antitone_nat_of_succ_le fun n => (zTab_anti (by norm_num) n).le
  constructor
  · rw [← zTab_last (n := 1000) (by norm_num)]; exact hmono (by omega)
  · rw [← zTab_zero 1000]; exact hmono (by omega)

theorem gas_table (tH : ℝ) (i : ℕ) : ∀ k, k + 1 < 1000 →
    Param.ageAt tH (Param.logspace 0.1 10.0 1000 i) (Param.zTab 1000 k) <
      Param.ageAt tH (Param.logspace 0.1 10.0 1000 i) (Param.zTab 1000 (k + 1)) := fun k hk =>
  ageAt_anti ((by norm_num : (0:ℝ) < 0.1).trans_le (logspace_ge i)) (zTab_mem hk).1 (zTab_anti (by norm_num) k) (zTab_mem (by omega)).2

theorem gas_top (hg : g.Proper) (i : ℕ) {t : ℕ} (ht : t < g.nt) :
    centre g.t t < Param.ageAt (g.t g.nt) (Param.logspace 0.1 10.0 1000 i) (Param.zTab 1000 (1000 - 1)) := by
  rw [zTab_last (by norm_num)]
  have := hg.t t ht
  have := mono_edges hg.t (i := t + 1) (j := g.nt) ht le_rfl
  simp only [Param.ageAt, mul_zero, zero_div, sub_zero]
  unfold centre; linarith

theorem centre_lt (hg : g.Proper) {t t' : ℕ} (h : t < t') (ht : t' < g.nt) : centre g.t t < centre g.t t' := by
  have h1 := hg.t t' ht
  have h2 := hg.t t (by omega)
  have h3 := mono_edges hg.t (i := t + 1) (j := t') h ht.le
  unfold centre; linarith

theorem gas_bottom (hg : g.Proper) (h0 : 0 ≤ g.t 0) (h1 : g.t g.nt ≤ 100) (i : ℕ) {t : ℕ} (ht : t < g.nt) :
    Param.ageAt (g.t g.nt) (Param.logspace 0.1 10.0 1000 i) (Param.zTab 1000 0) ≤ centre g.t t := by
  rw [zTab_zero]
  have h2 := zMax_late (logspace_ge i) h1
  have h3 := hg.t t ht
  have h4 := mono_edges hg.t (i := 0) (j := t) (by omega) ht.le
  unfold centre; linarith

/-- Older stars formed from gas that is poorer in metals. -/
theorem gasMetal_age (hg : g.Proper) (h0 : 0 ≤ g.t 0) (h1 : g.t g.nt ≤ 100) (i : ℕ) {t t' : ℕ} (h : t < t') (ht : t' < g.nt) :
    gasMetal g i t' < gasMetal g i t :=
  interp_lt (gas_table _ i) (fun k _ => zTab_anti (by norm_num) k) (gas_bottom hg h0 h1 i (by omega)) (centre_lt hg h ht)
    (gas_top hg i ht) (by norm_num)

/-- Gas that is used up more slowly is poorer in metals. -/
theorem gasMetal_dep (hg : g.Proper) (h0 : 0 ≤ g.t 0) (h1 : g.t g.nt ≤ 100) {i i' : ℕ} (h : i < i') {t : ℕ} (ht : t < g.nt) :
    gasMetal g i' t < gasMetal g i t := by
  refine interp_shift (xs := fun m => Param.ageAt (g.t g.nt) (Param.logspace 0.1 10.0 1000 i) (Param.zTab 1000 m))
    (xs' := fun m => Param.ageAt (g.t g.nt) (Param.logspace 0.1 10.0 1000 i') (Param.zTab 1000 m)) (gas_table _ i)
    (gas_table _ i') (fun k _ => zTab_anti (by norm_num) k) (fun k hk => ?_) ?_ (gas_bottom hg h0 h1 i ht)
    (gas_top hg i ht) (by norm_num)
  · exact ageAt_dep (logspace_lt h) ((zTab_mem hk).1.trans_lt (zTab_anti (by norm_num) k)) (zTab_mem (by omega)).2
  · rw [zTab_last (by norm_num)]
    simp [Param.ageAt]

theorem argmin_first {n : ℕ} (hn : 0 < n) (f : ℕ → ℝ) {j : ℕ} (h : j < Param.argmin n f) : f (Param.argmin n f) < f j := by
  obtain ⟨h1, h2⟩ := argmin_spec hn f
  by_contra hcon
  have : j ∈ {i | i < n ∧ ∀ j < n, f i ≤ f j} := ⟨h.trans h1, fun k hk => (not_lt.1 hcon).trans (h2 k hk)⟩
  have := Nat.sInf_le this
  exact absurd h (not_lt.2 this)

/-- The nearest tabulated depletion time grows with the depletion time. -/
theorem nearest_mono {zg : ZGrid} (hn : 0 < zg.nDep) (hz : ∀ i j, i < j → zg.tDep i < zg.tDep j) {τ τ' : ℝ} (h : τ ≤ τ') :
    Param.nearest zg (.fin τ) ≤ Param.nearest zg (.fin τ') := by
  unfold Param.nearest
  simp only
  by_contra hcon
  have hcon := not_le.1 hcon
  have h1 := argmin_first hn (fun i => |τ - zg.tDep i|) hcon
  have h2 := (argmin_spec hn (fun i => |τ' - zg.tDep i|)).2 _ (argmin_spec hn (fun i => |τ - zg.tDep i|)).1
  have h3 := hz _ _ hcon
  rcases abs_cases (τ - zg.tDep (Param.argmin zg.nDep fun i => |τ - zg.tDep i|)) with ⟨e1, _⟩ | ⟨e1, _⟩ <;>
  rcases abs_cases (τ - zg.tDep (Param.argmin zg.nDep fun i => |τ' - zg.tDep i|)) with ⟨e2, _⟩ | ⟨e2, _⟩ <;>
  rcases abs_cases (τ' - zg.tDep (Param.argmin zg.nDep fun i => |τ - zg.tDep i|)) with ⟨e3, _⟩ | ⟨e3, _⟩ <;>
  rcases abs_cases (τ' - zg.tDep (Param.argmin zg.nDep fun i => |τ' - zg.tDep i|)) with ⟨e4, _⟩ | ⟨e4, _⟩ <;>
  linarith

/-- Depletion times with two tabulated ones between them have different nearest ones. -/
theorem nearest_apart {zg : ZGrid} (hz : ∀ i j, i < j → zg.tDep i < zg.tDep j) {τ τ' : ℝ} {j : ℕ}
    (hj : j + 1 < zg.nDep) (h : τ ≤ zg.tDep j) (h' : zg.tDep (j + 1) ≤ τ') :
    Param.nearest zg (.fin τ) < Param.nearest zg (.fin τ') := by
  have hn : 0 < zg.nDep := by omega
  have a1 : Param.nearest zg (.fin τ) ≤ j := by
    unfold Param.nearest
    simp only
    by_contra hcon
    have h1 := argmin_first hn (fun i => |τ - zg.tDep i|) (not_le.1 hcon)
    have h2 := hz _ _ (not_le.1 hcon)
    rw [abs_of_nonpos (by linarith), abs_of_nonpos (by linarith)] at h1
    linarith
  have a2 : j + 1 ≤ Param.nearest zg (.fin τ') := by
    unfold Param.nearest
    simp only
    by_contra hcon
    have h1 := (argmin_spec hn (fun i => |τ' - zg.tDep i|)).2 (j + 1) hj
    have h2 := hz _ _ (not_le.1 hcon)
    rw [abs_of_nonneg (by linarith), abs_of_nonneg (by linarith)] at h1
    linarith
  omega

/-! ### Gaussians with greater mean -/

theorem normal_integral (μ : ℝ) {σ : ℝ} (hσ : 0 < σ) {a b : ℝ} (h : a ≤ b) :
    (normal μ σ).real (Ioc a b) = ∫ x in a..b, gaussianPDFReal μ (σ ^ 2).toNNReal x := by
  have hv : (σ ^ 2).toNNReal ≠ 0 := by
    simp only [ne_eq, Real.toNNReal_eq_zero, not_le]; positivity
  unfold normal
  rw [measureReal_def, gaussianReal_apply_eq_integral μ hv, intervalIntegral.integral_of_le h,
    ENNReal.toReal_ofReal (integral_nonneg fun x => gaussianPDFReal_nonneg _ _ _)]

/-- The ratio of the densities grows. -/
theorem pdf_cross {μ μ' v v' : ℝ} (hv' : 0 < v') (hv : v' ≤ v) (hr : μ' / v' < μ / v) {u w : ℝ} (hu : 0 ≤ u) (h : u < w) :
    gaussianPDFReal μ v.toNNReal u * gaussianPDFReal μ' v'.toNNReal w <
      gaussianPDFReal μ v.toNNReal w * gaussianPDFReal μ' v'.toNNReal u := by
  have hv0 : 0 < v := hv'.trans_le hv
  have p1 : 0 < (√(2 * Real.pi * v))⁻¹ := by have := Real.pi_pos; positivity
  have p2 : 0 < (√(2 * Real.pi * v'))⁻¹ := by have := Real.pi_pos; positivity
  simp only [gaussianPDFReal, Real.coe_toNNReal _ hv0.le, Real.coe_toNNReal _ hv'.le]
  rw [mul_mul_mul_comm, mul_mul_mul_comm _ (Real.exp (-(w - μ) ^ 2 / (2 * v))), ← Real.exp_add, ← Real.exp_add]
  refine mul_lt_mul_of_pos_left (Real.exp_lt_exp.2 ?_) (mul_pos p1 p2)
  have e1 : -(u - μ) ^ 2 / (2 * v) + -(w - μ') ^ 2 / (2 * v') - (-(w - μ) ^ 2 / (2 * v) + -(u - μ') ^ 2 / (2 * v')) =
      (w - u) * ((w + u) * (1 / v - 1 / v') / 2 - (μ / v - μ' / v')) := by
    field_simp; ring
  have e2 : 1 / v - 1 / v' ≤ 0 := sub_nonpos.2 (one_div_le_one_div_of_le hv' hv)
  have e3 : (w + u) * (1 / v - 1 / v') ≤ 0 := mul_nonpos_of_nonneg_of_nonpos (by linarith) e2
  nlinarith

theorem continuous_pdf (μ : ℝ) (v : ℝ≥0) : Continuous (gaussianPDFReal μ v) := by
  rw [gaussianPDFReal_def]
  fun_prop

theorem normal_cross {μ μ' σ σ' : ℝ} (hσ' : 0 < σ') (hs : σ' ≤ σ) (hr : μ' / σ' ^ 2 < μ / σ ^ 2) {a b c d : ℝ}
    (ha : 0 ≤ a) (hab : a < b) (hbc : b ≤ c) (hcd : c < d) :
    (normal μ σ).real (Ioc a b) * (normal μ' σ').real (Ioc c d) <
      (normal μ σ).real (Ioc c d) * (normal μ' σ').real (Ioc a b) := by
  have hσ : 0 < σ := hσ'.trans_le hs
  have hv' : (0:ℝ) < σ' ^ 2 := by positivity
  have hv : σ' ^ 2 ≤ σ ^ 2 := by gcongr
  have hne : (σ' ^ 2).toNNReal ≠ 0 := by
    simp only [ne_eq, Real.toNNReal_eq_zero, not_le]; exact hv'
  set f := gaussianPDFReal μ (σ ^ 2).toNNReal with hf
  set f' := gaussianPDFReal μ' (σ' ^ 2).toNNReal with hf'
  have fpos : ∀ x, 0 < f' x := fun x => gaussianPDFReal_pos _ _ _ hne
  have cross : ∀ {u w}, 0 ≤ u → u < w → f u * f' w < f w * f' u := fun hu h => pdf_cross hv' hv hr hu h
  have c1 : Continuous f := continuous_pdf _ _
  have c2 : Continuous f' := continuous_pdf _ _
  set k := f b / f' b with hk
  have l1 : (normal μ σ).real (Ioc a b) < k * (normal μ' σ').real (Ioc a b) := by
    rw [normal_integral μ hσ hab.le, normal_integral μ' hσ' hab.le, ← intervalIntegral.integral_const_mul]
    refine intervalIntegral.integral_lt_integral_of_continuousOn_of_le_of_exists_lt hab c1.continuousOn
      (continuous_const.mul c2).continuousOn (fun x hx => ?_) ⟨a, ⟨le_rfl, hab.le⟩, ?_⟩
    · rcases hx.2.lt_or_eq with h | rfl
      · rw [hk, div_mul_eq_mul_div, le_div_iff₀ (fpos b)]
        exact (cross (ha.trans hx.1.le) h).le
      · rw [hk, div_mul_cancel₀ _ (fpos x).ne']
    · rw [hk, div_mul_eq_mul_div, lt_div_iff₀ (fpos b)]
      exact cross ha hab
  have l2 : k * (normal μ' σ').real (Ioc c d) < (normal μ σ).real (Ioc c d) := by
    rw [normal_integral μ hσ hcd.le, normal_integral μ' hσ' hcd.le, ← intervalIntegral.integral_const_mul]
    refine intervalIntegral.integral_lt_integral_of_continuousOn_of_le_of_exists_lt hcd
      (continuous_const.mul c2).continuousOn c1.continuousOn (fun x hx => ?_) ⟨d, ⟨hcd.le, le_rfl⟩, ?_⟩
    · rw [hk, div_mul_eq_mul_div, div_le_iff₀ (fpos b)]
      exact (cross (ha.trans hab.le) (hbc.trans_lt hx.1)).le
    · rw [hk, div_mul_eq_mul_div, div_lt_iff₀ (fpos b)]
      exact cross (ha.trans hab.le) (hbc.trans_lt hcd)
  have p1 := normal_Ioc_pos (μ := μ') hσ' hab
  have p2 := normal_Ioc_pos (μ := μ') hσ' hcd
  nlinarith

theorem metal_ratio {ζ ζ' : ℝ} (h0 : 0 < ζ') (h : ζ' < ζ) :
    √(Param.ahat * ζ' ^ Param.bhat) ≤ √(Param.ahat * ζ ^ Param.bhat) ∧
      ζ' / √(Param.ahat * ζ' ^ Param.bhat) ^ 2 < ζ / √(Param.ahat * ζ ^ Param.bhat) ^ 2 := by
  have ha := ahat_pos
  have hb := bhat_pos
  have hz : 0 < ζ := h0.trans h
  refine ⟨Real.sqrt_le_sqrt (by gcongr), ?_⟩
  rw [Real.sq_sqrt (by positivity), Real.sq_sqrt (by positivity)]
  have e : ∀ {x : ℝ}, 0 < x → x / (Param.ahat * x ^ Param.bhat) = x ^ (1 - Param.bhat) / Param.ahat := fun {x} hx => by
    rw [Real.rpow_sub hx, Real.rpow_one, div_div, mul_comm]
  rw [e h0, e hz]
  have := Real.rpow_lt_rpow h0.le h (sub_pos.2 bhat_lt)
  gcongr

/-- Gas of greater metallicity gives greater weight to the richer of two bins. -/
theorem metalDens_cross (hg : g.Proper) {ζ ζ' : ℝ} (h0 : 0 < ζ') (h : ζ' < ζ) {i j : ℕ} (hij : i < j) (hj : j < g.nz) :
    metalDens g ζ i * width g.z i * (metalDens g ζ' j * width g.z j) <
      metalDens g ζ j * width g.z j * (metalDens g ζ' i * width g.z i) := by
  obtain ⟨h1, h2⟩ := metal_ratio h0 h
  have hi : i < g.nz := hij.trans hj
  have key : metalProb g ζ i * metalProb g ζ' j < metalProb g ζ j * metalProb g ζ' i :=
    normal_cross (metalSig_pos h0) h1 h2 (by positivity) (Real.rpow_lt_rpow_of_exponent_lt (by norm_num) (hg.z i hi))
      (Real.rpow_le_rpow_of_exponent_le (by norm_num) (mono_edges hg.z hij hj.le))
      (Real.rpow_lt_rpow_of_exponent_lt (by norm_num) (hg.z j hj))
  have t1 := metalTotal_pos hg (h0.trans h)
  have t2 := metalTotal_pos hg h0
  have w1 : 0 < width g.z i := sub_pos.2 (hg.z i hi)
  have w2 : 0 < width g.z j := sub_pos.2 (hg.z j hj)
  unfold metalDens
  set S := ∑ j : Fin g.nz, metalProb g ζ j * width g.z j
  set S' := ∑ j : Fin g.nz, metalProb g ζ' j * width g.z j
  have e1 : metalProb g ζ i / S * width g.z i * (metalProb g ζ' j / S' * width g.z j) =
      metalProb g ζ i * metalProb g ζ' j * (width g.z i * width g.z j / (S * S')) := by field_simp
  have e2 : metalProb g ζ j / S * width g.z j * (metalProb g ζ' i / S' * width g.z i) =
      metalProb g ζ j * metalProb g ζ' i * (width g.z i * width g.z j / (S * S')) := by field_simp
  rw [e1, e2]
  exact mul_lt_mul_of_pos_right key (by positivity)

/-- If the ratio of two distributions grows, every growing quantity has a greater expectation in the first. -/
theorem expect_cross {n : ℕ} {π π' v : ℕ → ℝ} (h1 : ∑ i : Fin n, π i = 1) (h1' : ∑ i : Fin n, π' i = 1)
    (hr : ∀ i j, i < j → j < n → π i * π' j ≤ π j * π' i) (hv : ∀ i j, i < j → j < n → v i ≤ v j) :
    ∑ i : Fin n, v i * π' i ≤ ∑ i : Fin n, v i * π i ∧
      ((∃ i j, i < j ∧ j < n ∧ v i < v j ∧ π i * π' j < π j * π' i) → ∑ i : Fin n, v i * π' i < ∑ i : Fin n, v i * π i) := by
  have e : ∑ i : Fin n, ∑ j : Fin n, (v i - v j) * (π i * π' j - π j * π' i) =
      2 * (∑ i : Fin n, v i * π i - ∑ i : Fin n, v i * π' i) := by
    have s1 : ∑ i : Fin n, ∑ j : Fin n, v i * π i * π' j = ∑ i : Fin n, v i * π i :=
      Finset.sum_congr rfl fun i _ => by rw [← Finset.mul_sum, h1', mul_one]
    have s2 : ∑ i : Fin n, ∑ j : Fin n, v i * π' i * π j = ∑ i : Fin n, v i * π' i :=
      Finset.sum_congr rfl fun i _ => by rw [← Finset.mul_sum, h1, mul_one]
    have s3 : ∑ i : Fin n, ∑ j : Fin n, v j * π j * π' i = ∑ i : Fin n, v i * π i := by rw [Finset.sum_comm]; exact s1
    have s4 : ∑ i : Fin n, ∑ j : Fin n, v j * π' j * π i = ∑ i : Fin n, v i * π' i := by rw [Finset.sum_comm]; exact s2
    calc _ = ∑ i : Fin n, ∑ j : Fin n, (v i * π i * π' j - v i * π' i * π j + v j * π j * π' i - v j * π' j * π i) :=
          Finset.sum_congr rfl fun i _ => Finset.sum_congr rfl fun j _ => by ring
      _ = _ := by
          simp only [Finset.sum_add_distrib, Finset.sum_sub_distrib]
          rw [s1, s2, s3, s4]; ring
  have hnn : ∀ i j : Fin n, 0 ≤ (v i - v j) * (π i * π' j - π j * π' i) := fun i j => by
    rcases lt_trichotomy i.1 j.1 with h | h | h
    · exact mul_nonneg_of_nonpos_of_nonpos (sub_nonpos.2 (hv _ _ h j.2)) (sub_nonpos.2 (hr _ _ h j.2))
    · rw [h]; simp
    · exact mul_nonneg (sub_nonneg.2 (hv _ _ h i.2)) (sub_nonneg.2 (by linarith [hr _ _ h i.2]))
  constructor
  · have : 0 ≤ ∑ i : Fin n, ∑ j : Fin n, (v i - v j) * (π i * π' j - π j * π' i) :=
      Finset.sum_nonneg fun i _ => Finset.sum_nonneg fun j _ => hnn i j
    linarith
  · rintro ⟨i, j, hij, hj, a1, a2⟩
    have : 0 < ∑ i : Fin n, ∑ j : Fin n, (v i - v j) * (π i * π' j - π j * π' i) :=
      Finset.sum_pos' (fun i _ => Finset.sum_nonneg fun j _ => hnn i j) ⟨⟨i, hij.trans hj⟩, Finset.mem_univ _,
        Finset.sum_pos' (fun j _ => hnn _ j) ⟨⟨j, hj⟩, Finset.mem_univ _,
          mul_pos_of_neg_of_neg (sub_neg.2 a1) (sub_neg.2 a2)⟩⟩
    linarith

end PKM
