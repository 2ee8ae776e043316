import Verif.Props.Noise
import Verif.Gauss
import Verif.ModelGridLemmas
import Mathlib.Probability.HasLawExists
import Mathlib.Probability.Moments.Covariance

/-!
# C78: the law of the noise

The numbers delivered by numpy's generator are independent standard normal random variables `Z 0, Z 1, ...`. `observe Z c calls h` are the
arrays returned by successive calls of `get_noisy_data`, with any kinds of noise and signal-to-noise ratios, starting in memory `h`.
-/

open scoped Classical
open MeasureTheory ProbabilityTheory

noncomputable section

namespace PKM
open Np

/-! ### Specification -/

/-- Independent standard normal random variables. -/
structure StandardNormals {Ω : Type} [MeasurableSpace Ω] (P : Measure Ω) (Z : ℕ → Ω → ℝ) : Prop where
  indep : iIndepFun Z P
  law : ∀ n, HasLaw (Z n) (normal 0 1) P

/-- Standard deviation of the noise in a voxel with flux `f`, if the brightest voxel has flux `M`. -/
def noiseLevel (k : NoiseKind) (snr M f : ℝ) : ℝ :=
  match k with
  | .constantSNR => f / snr
  | .shotNoise => Real.sqrt (M * f) / snr

/-- `M` is the flux of the brightest voxel. -/
def Brightest (s : List ℕ) (Y : List ℕ → ℝ) (M : ℝ) : Prop := (∃ i, InBox s i ∧ Y i = M) ∧ ∀ i, InBox s i → Y i ≤ M

/-- Arrays returned by successive calls of `get_noisy_data(snr=snr)`; `none` for a call that raises. -/
def observe (z : ℕ → ℝ) (c : NoiseTarget) : List (NoiseKind × ℝ) → Heap → List (Option (Arr Num))
  | [], _ => []
  | (k, snr) :: r, h => match getNoisyData z c k (.fin snr) h with
    | (.ok p, h') => some (h'.val p) :: observe z c r h'
    | (.error _, h') => none :: observe z c r h'

/-- Entry `i` of the array returned by call `j`. -/
def voxel (z : ℕ → ℝ) (c : NoiseTarget) (calls : List (NoiseKind × ℝ)) (h : Heap) (j : ℕ) (i : List ℕ) : ℝ :=
  match (observe z c calls h)[j]? with
  | some (some a) => (a.get i).toReal
  | _ => 0

/-! ### Lemmas -/

variable {z : ℕ → ℝ} {c : NoiseTarget} {o : Ptr} {h : Heap} {y : Arr Num} {s : List ℕ} {Y : List ℕ → ℝ} {M : ℝ}

theorem sigma_level (hy : IsCube y s Y) (h0 : ∀ i, InBox s i → 0 ≤ Y i) (hM : Brightest s Y M) (k : NoiseKind) {snr : ℝ} (hs : 0 < snr) :
    ∃ σ, sigmaOf k y (.fin snr) = .ok σ ∧ IsCube σ s (fun i => noiseLevel k snr M (Y i)) := by
  cases k with
  | constantSNR =>
    obtain ⟨σ, h1, h2, h3⟩ := C40_constant hy hs
    exact ⟨σ, h1, h2, fun i hi => (h3 i hi).1⟩
  | shotNoise =>
    obtain ⟨⟨i1, a1, a2⟩, a3⟩ := hM
    obtain ⟨σ, i0, h1, h2, h3, h4, h5⟩ := shot_sigma hy ⟨i1, a1⟩ h0 hs
    refine ⟨σ, h1, h2, fun i hi => ?_⟩
    have : Y i0 = M := le_antisymm (a3 i0 h3) (a2 ▸ h4 i1 a1)
    simp only [noiseLevel]
    rw [h5 i hi, this, Real.sqrt_mul (this ▸ h0 i0 h3)]

theorem noiseLevel_nonneg (k : NoiseKind) {snr f : ℝ} (hs : 0 < snr) (hf : 0 ≤ f) : 0 ≤ noiseLevel k snr M f := by
  cases k
  · exact div_nonneg hf hs.le
  · exact div_nonneg (Real.sqrt_nonneg _) hs.le

theorem noiseLevel_pos (k : NoiseKind) {snr : ℝ} (hs : 0 < snr) (hM : 0 < M) {f : ℝ} (hf : 0 < f) : 0 < noiseLevel k snr M f := by
  cases k
  · exact div_pos hf hs
  · exact div_pos (Real.sqrt_pos.2 (mul_pos hM hf)) hs

/-- One call. -/
theorem observe_step (hc : c.ybar = some o) (hp : Points h o y) (hy : IsCube y s Y) (h0 : ∀ i, InBox s i → 0 ≤ Y i) (hM : Brightest s Y M)
    (hM0 : 0 < M) (k : NoiseKind) {snr : ℝ} (hs : 0 < snr) :
    ∃ r h', getNoisyData z c k (.fin snr) h = (.ok r, h') ∧ Points h' o y ∧ h'.drawn = h.drawn + s.prod ∧
      IsCube (h'.val r) s (fun i => Y i + noiseLevel k snr M (Y i) * z (h.drawn + ravel s i)) := by
  obtain ⟨σ, e1, e2⟩ := sigma_level hy h0 hM k hs
  obtain ⟨-, h2⟩ := getNoisyData_draws (z := z) hc hp le_rfl k (.fin snr)
  obtain ⟨a, h3, h4⟩ := noisy_value z h.drawn k hy e1 e2 fun i hi => noiseLevel_nonneg k hs (h0 i hi)
  rw [h3] at h2
  rcases hr : getNoisyData z c k (.fin snr) h with ⟨r, h'⟩
  rw [hr] at h2
  cases r with
  | error e => exact h2.elim
  | ok r =>
    obtain ⟨⟨h5, h6⟩, h7⟩ := h2
    refine ⟨r, h', rfl, h6, ?_, h5.2.2.2 ▸ h4⟩
    rw [h7 σ e1 (e2.1.trans hy.1.symm), drawsOf, if_neg, hy.1]
    intro hz
    obtain ⟨⟨i, a1, a2⟩, -⟩ := hM
    have := hz i (by rw [e2.1]; exact a1)
    rw [e2.2 i a1] at this
    injection this with this
    exact (noiseLevel_pos k hs hM0 (a2 ▸ hM0 : 0 < Y i)).ne' this

/-- All calls. -/
theorem observe_eval (hc : c.ybar = some o) (hy : IsCube y s Y) (h0 : ∀ i, InBox s i → 0 ≤ Y i) (hM : Brightest s Y M) (hM0 : 0 < M) :
    ∀ (calls : List (NoiseKind × ℝ)) (h : Heap), Points h o y → (∀ q ∈ calls, 0 < q.2) → ∀ (j : ℕ) (hj : j < calls.length), ∃ a,
      (observe z c calls h)[j]? = some (some a) ∧
      IsCube a s (fun i => Y i + noiseLevel calls[j].1 calls[j].2 M (Y i) * z (h.drawn + (j * s.prod + ravel s i)))
  | [], _, _, _, _, hj => absurd hj (by simp)
  | (k, snr) :: r, h, hp, hs, j, hj => by
    obtain ⟨p, h', e1, e2, e3, e4⟩ := observe_step (z := z) hc hp hy h0 hM hM0 k (hs (k, snr) (by simp))
    simp only [observe, e1]
    cases j with
    | zero => exact ⟨_, rfl, by simpa using e4⟩
    | succ j =>
      obtain ⟨a, f1, f2⟩ := observe_eval hc hy h0 hM hM0 r h' e2 (fun q hq => hs q (List.mem_cons_of_mem _ hq)) j (by simpa using hj)
      refine ⟨a, by simpa using f1, ?_⟩
      have e : ∀ i, h'.drawn + (j * s.prod + ravel s i) = h.drawn + ((j + 1) * s.prod + ravel s i) := fun i => by rw [e3]; ring
      simpa only [e, List.getElem_cons_succ] using f2

theorem voxel_eval (hc : c.ybar = some o) (hp : Points h o y) (hy : IsCube y s Y) (h0 : ∀ i, InBox s i → 0 ≤ Y i) (hM : Brightest s Y M)
    (hM0 : 0 < M) {calls : List (NoiseKind × ℝ)} (hs : ∀ q ∈ calls, 0 < q.2) {j : ℕ} (hj : j < calls.length) {i : List ℕ} (hi : InBox s i) :
    voxel z c calls h j i = Y i + noiseLevel calls[j].1 calls[j].2 M (Y i) * z (h.drawn + (j * s.prod + ravel s i)) := by
  obtain ⟨a, h1, h2⟩ := observe_eval (z := z) hc hy h0 hM hM0 calls h hp hs j hj
  simp only [voxel, h1, h2.2 i hi]
  rfl

/-- Different calls and voxels use different draws. -/
theorem draw_injective (n d : ℕ) (s : List ℕ) :
    Function.Injective fun p : Fin n × {i // InBox s i} => d + ((p.1 : ℕ) * s.prod + ravel s p.2.1) := by
  rintro ⟨j, i, hi⟩ ⟨j', i', hi'⟩ e
  have h1 := ravel_lt s i hi
  have h2 := ravel_lt s i' hi'
  have e' : (j : ℕ) * s.prod + ravel s i = j' * s.prod + ravel s i' := by simpa using e
  have hp : 0 < s.prod := by omega
  have hj : (j : ℕ) = j' := by
    have a : ((j : ℕ) * s.prod + ravel s i) / s.prod = j := by
      rw [mul_comm, Nat.mul_add_div hp, Nat.div_eq_of_lt h1, add_zero]
    have b : ((j' : ℕ) * s.prod + ravel s i') / s.prod = j' := by
      rw [mul_comm, Nat.mul_add_div hp, Nat.div_eq_of_lt h2, add_zero]
    rw [← a, ← b, e']
  rw [hj] at e'
  have hr : ravel s i = ravel s i' := by omega
  have : i = i' := by rw [← unravel_ravel s i hi, hr, unravel_ravel s i' hi']
  subst this
  obtain rfl := Fin.ext hj
  rfl

/-! ### Results -/

variable {Ω : Type} [MeasurableSpace Ω] {P : Measure Ω} {Z : ℕ → Ω → ℝ}

/-- Every call returns an array of the shape of the datacube, whatever is drawn. Entry `i` has a normal distribution whose mean is the flux and
whose standard deviation is the level of the noise; all entries of all arrays are independent. -/
theorem C78_law (hZ : StandardNormals P Z) (hc : c.ybar = some o) (hp : Points h o y) (hy : IsCube y s Y) (h0 : ∀ i, InBox s i → 0 ≤ Y i)
    (hM : Brightest s Y M) (hM0 : 0 < M) {calls : List (NoiseKind × ℝ)} (hs : ∀ q ∈ calls, 0 < q.2) :
    (∀ ω, (observe (fun n => Z n ω) c calls h).length = calls.length ∧ ∀ j < calls.length, ∃ a,
      (observe (fun n => Z n ω) c calls h)[j]? = some (some a) ∧ a.shape = s ∧
      ∀ i, InBox s i → a.get i = .fin (voxel (fun n => Z n ω) c calls h j i)) ∧
    (∀ (j : Fin calls.length) (i : List ℕ), InBox s i →
      HasLaw (fun ω => voxel (fun n => Z n ω) c calls h j i) (normal (Y i) (noiseLevel calls[j].1 calls[j].2 M (Y i))) P) ∧
    iIndepFun (fun (p : Fin calls.length × {i // InBox s i}) ω => voxel (fun n => Z n ω) c calls h p.1 p.2) P := by
  refine ⟨fun ω => ⟨?_, fun j hj => ?_⟩, fun j i hi => ?_, ?_⟩
  · have : ∀ (calls : List (NoiseKind × ℝ)) (h : Heap), (observe (fun n => Z n ω) c calls h).length = calls.length := by
      intro calls
      induction calls with
      | nil => intro h; rfl
      | cons q r ih =>
        intro h
        simp only [observe]
        split <;> simp [ih]
    exact this _ _
  · obtain ⟨a, h1, h2⟩ := observe_eval (z := fun n => Z n ω) hc hy h0 hM hM0 calls h hp hs j hj
    exact ⟨a, h1, h2.1, fun i hi => by rw [voxel_eval hc hp hy h0 hM hM0 hs hj hi, h2.2 i hi]⟩
  · have e : (fun ω => voxel (fun n => Z n ω) c calls h j i) = (fun u => noiseLevel calls[j].1 calls[j].2 M (Y i) * u + Y i) ∘
        Z (h.drawn + (j * s.prod + ravel s i)) := by
      funext ω
      rw [voxel_eval hc hp hy h0 hM hM0 hs j.2 hi]
      simp only [Function.comp, Fin.getElem_fin]
      ring
    rw [e]
    refine HasLaw.comp ⟨by fun_prop, ?_⟩ (hZ.law _)
    have : normal 0 1 = gaussianReal 0 1 := by simp [normal]
    rw [this, normal_map]
  · have e : (fun (p : Fin calls.length × {i // InBox s i}) ω => voxel (fun n => Z n ω) c calls h p.1 p.2) = fun p =>
        (fun u => Y p.2.1 + noiseLevel calls[p.1].1 calls[p.1].2 M (Y p.2.1) * u) ∘ Z (h.drawn + ((p.1 : ℕ) * s.prod + ravel s p.2.1)) := by
      funext p ω
      rw [voxel_eval hc hp hy h0 hM hM0 hs p.1.2 p.2.2]
      rfl
    rw [e]
    exact (hZ.indep.precomp (draw_injective calls.length h.drawn s)).comp _ fun p => by fun_prop

theorem length_allIndices : ∀ s : List ℕ, (allIndices s).length = s.prod
  | [] => rfl
  | n :: s => by
    simp only [allIndices, List.length_flatMap, List.length_map, length_allIndices s, List.prod_cons]
    simp

theorem integral_list {ι : Type} (l : List ι) (f : ι → Ω → ℝ) (hf : ∀ i ∈ l, Integrable (f i) P ∧ P[f i] = 1) :
    Integrable (fun ω => (l.map fun i => f i ω).sum) P ∧ P[fun ω => (l.map fun i => f i ω).sum] = (l.length : ℝ) := by
  induction l with
  | nil => simp
  | cons i l ih =>
    obtain ⟨h1, h2⟩ := ih fun k hk => hf k (List.mem_cons_of_mem _ hk)
    obtain ⟨h3, h4⟩ := hf i List.mem_cons_self
    simp only [List.map_cons, List.sum_cons, List.length_cons]
    refine ⟨h3.add h1, ?_⟩
    rw [integral_add h3 h1, h2, h4]
    push_cast
    ring

theorem normal_centre (μ σ : ℝ) : ∫ x, x ∂(normal μ σ) = μ := integral_id_gaussianReal

theorem normal_spread (μ σ : ℝ) : Var[id; normal μ σ] = σ ^ 2 := by
  unfold normal
  rw [variance_id_gaussianReal, Real.coe_toNNReal _ (sq_nonneg σ)]

/-- Hence the mean of each entry is the flux, its variance the square of the level of the noise; entries of one array, and arrays of different
calls, are uncorrelated. The mean over flux is `snr` in all voxels with flux (constant signal-to-noise ratio) or in the brightest voxel
(shot noise); the variance of shot noise is proportional to the flux. The expected sum of squared deviations, in units of the level, is the number of voxels. -/
theorem C78_moments (hZ : StandardNormals P Z) (hc : c.ybar = some o) (hp : Points h o y) (hy : IsCube y s Y) (h0 : ∀ i, InBox s i → 0 < Y i)
    (hM : Brightest s Y M) {calls : List (NoiseKind × ℝ)} (hs : ∀ q ∈ calls, 0 < q.2) (j : Fin calls.length) :
    let X (j : Fin calls.length) (i : List ℕ) (ω : Ω) : ℝ := voxel (fun n => Z n ω) c calls h j i
    let σ (j : Fin calls.length) (i : List ℕ) : ℝ := Real.sqrt Var[X j i; P]
    (∀ i, InBox s i → P[X j i] = Y i ∧ σ j i = noiseLevel calls[j].1 calls[j].2 M (Y i)) ∧
    (∀ i, InBox s i → ∀ j' i', InBox s i' → (j, i) ≠ (j', i') → cov[X j i, X j' i'; P] = 0) ∧
    (calls[j].1 = .constantSNR → ∀ i, InBox s i → P[X j i] / σ j i = calls[j].2) ∧
    (calls[j].1 = .shotNoise → ∀ i, InBox s i → (Y i = M → P[X j i] / σ j i = calls[j].2) ∧ P[X j i] / σ j i ≤ calls[j].2 ∧
      σ j i ^ 2 / P[X j i] = M / calls[j].2 ^ 2) ∧
    P[fun ω => ((allIndices s).map fun i => ((X j i ω - Y i) / σ j i) ^ 2).sum] = (s.prod : ℝ) := by
  intro X σ
  have : IsProbabilityMeasure P := hZ.indep.isProbabilityMeasure
  have hM0 : 0 < M := by obtain ⟨⟨i, a1, rfl⟩, -⟩ := hM; exact h0 i a1
  obtain ⟨-, hlaw, hind⟩ := C78_law hZ hc hp hy (fun i hi => (h0 i hi).le) hM hM0 hs
  have hsj : 0 < calls[j].2 := hs _ (List.getElem_mem j.2)
  have hm : ∀ j i, InBox s i → P[X j i] = Y i := fun j i hi => by
    have := (hlaw j i hi).integral_eq
    rw [this]
    exact normal_centre _ _
  have hv : ∀ j i, InBox s i → Var[X j i; P] = noiseLevel calls[j].1 calls[j].2 M (Y i) ^ 2 := fun j i hi => by
    rw [(hlaw j i hi).variance_eq, normal_spread]
  have hσ : ∀ i, InBox s i → σ j i = noiseLevel calls[j].1 calls[j].2 M (Y i) := fun i hi => by
    show Real.sqrt _ = _
    rw [hv j i hi, Real.sqrt_sq (noiseLevel_nonneg _ hsj (h0 i hi).le)]
  have hL : ∀ i, InBox s i → 0 < noiseLevel calls[j].1 calls[j].2 M (Y i) := fun i hi => noiseLevel_pos _ hsj hM0 (h0 i hi)
  have hmem : ∀ j i, InBox s i → MemLp (X j i) 2 P := fun j i hi => by
    have := memLp_id_gaussianReal (μ := Y i) (v := (noiseLevel calls[j].1 calls[j].2 M (Y i) ^ 2).toNNReal) 2
    have e := (hlaw j i hi).map_eq
    unfold normal at e
    rw [← e] at this
    exact (memLp_map_measure_iff (by fun_prop) (hlaw j i hi).aemeasurable).1 this
  refine ⟨fun i hi => ⟨hm j i hi, hσ i hi⟩, fun i hi j' i' hi' hne => ?_, fun hk i hi => ?_, fun hk i hi => ⟨fun e => ?_, ?_, ?_⟩, ?_⟩
  · have := hind.indepFun (i := (j, ⟨i, hi⟩)) (j := (j', ⟨i', hi'⟩)) (by
      intro e
      apply hne
      injection e with e1 e2
      rw [e1]
      injection e2 with e2
      rw [e2])
    exact this.covariance_eq_zero (hmem j i hi) (hmem j' i' hi')
  · rw [hm j i hi, hσ i hi, hk]
    have := h0 i hi
    simp only [noiseLevel]
    field_simp
  · rw [hm j i hi, hσ i hi, hk, e]
    simp only [noiseLevel]
    rw [Real.sqrt_mul_self hM0.le]
    field_simp
  · rw [hm j i hi, hσ i hi, hk]
    simp only [noiseLevel]
    have h1 := h0 i hi
    rw [div_div_eq_mul_div, div_le_iff₀ (Real.sqrt_pos.2 (mul_pos hM0 h1)), mul_comm]
    refine mul_le_mul_of_nonneg_left ?_ hsj.le
    exact Real.le_sqrt_of_sq_le (by nlinarith [hM.2 i hi])
  · rw [hm j i hi, hσ i hi, hk]
    simp only [noiseLevel]
    have h1 := h0 i hi
    rw [div_pow, Real.sq_sqrt (mul_pos hM0 h1).le]
    field_simp
  · have hterm : ∀ i, InBox s i → Integrable (fun ω => ((X j i ω - Y i) / σ j i) ^ 2) P ∧ P[fun ω => ((X j i ω - Y i) / σ j i) ^ 2] = 1 := by
      intro i hi
      have e1 : (fun ω => ((X j i ω - Y i) / σ j i) ^ 2) = fun ω => (σ j i ^ 2)⁻¹ * (X j i ω - Y i) ^ 2 := by
        funext ω; rw [div_pow]; ring
      have e2 : MemLp (fun ω => X j i ω - Y i) 2 P := (hmem j i hi).sub (memLp_const _)
      refine ⟨?_, ?_⟩
      · rw [e1]; exact e2.integrable_sq.const_mul _
      · rw [e1, integral_const_mul]
        have := variance_eq_integral (hlaw j i hi).aemeasurable
        have e3 := hm j i hi
        have e4 := hv j i hi
        simp only [X] at e3 e4
        rw [e3, e4] at this
        simp only [X]
        rw [← this, hσ i hi]
        exact inv_mul_cancel₀ (pow_ne_zero 2 (hL i hi).ne')
    have := integral_list (P := P) (allIndices s) (fun i ω => ((X j i ω - Y i) / σ j i) ^ 2) fun i hi => hterm i (mem_allIndices.1 hi)
    rw [this.2, length_allIndices]

/-- Such random variables exist; two calls, of different kinds, on a cube of six voxels. -/
example : ∃ (Ω : Type) (_ : MeasurableSpace Ω) (P : Measure Ω) (Z : ℕ → Ω → ℝ), StandardNormals P Z ∧
    HasLaw (fun ω => voxel (fun n => Z n ω) ⟨some ⟨0, none⟩⟩ [(.constantSNR, 100), (.shotNoise, 10)] demoHeap 1 [0, 1, 0])
      (normal 2 (Real.sqrt (6 * 2) / 10)) P := by
  have : IsProbabilityMeasure (normal 0 1) := by unfold normal; infer_instance
  obtain ⟨Ω, mΩ, P, Z, -, h2, h3, -⟩ := exists_iid ℕ (normal 0 1)
  have hZ : StandardNormals P Z := ⟨h3, h2⟩
  refine ⟨Ω, mΩ, P, Z, hZ, ?_⟩
  have := (C78_law (c := ⟨some ⟨0, none⟩⟩) (h := demoHeap) (y := demoFlux) (s := [2, 3, 1]) (Y := fun i => 1 + ravel [2, 3, 1] i) (M := 6)
    (calls := [(.constantSNR, 100), (.shotNoise, 10)]) hZ rfl ⟨Nat.zero_lt_one, rfl⟩ ⟨rfl, fun i _ => rfl⟩ (fun i _ => by positivity)
    ⟨⟨[1, 2, 0], by simp [InBox], by norm_num [ravel]⟩, fun i hi => ?_⟩ (by norm_num) (by simp)).2.1 1 [0, 1, 0] (by simp [InBox])
  · have e : (1 : ℝ) + ravel [2, 3, 1] [0, 1, 0] = 2 := by norm_num [ravel]
    simp only [e] at this
    exact this
  · have := ravel_lt [2, 3, 1] i hi
    have : ravel [2, 3, 1] i ≤ 5 := by simp at this; omega
    have : (ravel [2, 3, 1] i : ℝ) ≤ 5 := by exact_mod_cast this
    linarith

end PKM
