import Verif.VelApi
import Verif.ParamCentral
import Verif.Props.Protocol

/-!
# C34: velocity moments of parametric components

`getMean p.self w lw`, `getCentralMoment p.self w j lw` and `getNoncentralMoment p.self w j mu lw` are
`component.get_mean(w, light_weighted)`, `component.get_central_moment(w, j, light_weighted)` and
`component.get_noncentral_moment(w, j, mu, light_weighted)`.
`p.f2` is the value which `scipy.special.factorial2(-1)` returns: 1 in releases of scipy in which it
is extended to negative odd numbers as `(-1)!! = 1`, 0 in others.
-/

open scoped Classical
open MeasureTheory ProbabilityTheory

noncomputable section

namespace PKM
open Np Component

variable {p : Param} {g : Grid} {m : Ingredients} {L : ℕ → ℕ → ℝ}

/-! ### Specification -/

/-- Expectation of `φ(v)` given the bins of the variables `b` at `c`: ages, pixels and metallicities are
weighted by the distribution of the component, and velocities at an age and pixel are normal, with no
truncation to the velocity grid. -/
def Ingredients.velExpect (m : Ingredients) (g : Grid) (L : ℕ → ℕ → ℝ) (lw : Bool) (b : PyStr) (φ : ℝ → ℝ) (c : Cell) : ℝ :=
  sumTXZ g (fun d => if coords b d = coords b c then
    m.weightTXZ g L lw d * ∫ v, φ v ∂(normal (m.mu d.t d.x d.y) (m.sig d.t d.x d.y)) else 0) / m.marginal g L lw b c

/-! ### Lemmas -/

theorem marg_PS (hg : g.Proper) (lw : Bool) {b : PyStr} (hb : 'v' ∉ b) {G : Cell → ℝ} (hG : OnTX G) (c : Cell) :
    g.marg (fun d => PS g m L lw d * G d) b c =
      Ingredients.sumTXZ g (fun d => if coords b d = coords b c then m.weightTXZ g L lw d * G d else 0) := by
  have hGv : ∀ (d : Cell) v, G { d with v := v } = G d := fun d v => hG _ _ (coords_noV (by decide) d v)
  rw [← sumCells_noV hg]
  · unfold Grid.marg
    congr 1; funext d
    split
    · cases lw
      · show m.probTXZ g d / g.nv * G d = _
        simp only [Ingredients.weightTXZ]; simp; ring
      · have e := totalLight_spread (L := L) (m := m) hg
        unfold totalLight at e
        simp only [PS, wtdP, if_true, Grid.lightP, Ingredients.weightTXZ, e]
        unfold Ingredients.spread
        ring
    · simp
  · intro d v
    rw [coords_noV hb, hGv]
    rfl

theorem normal_mean (μ σ : ℝ) : ∫ v, v ∂(normal μ σ) = μ := by
  have := gmom_one μ σ 0 1
  simpa [gmom, Finset.sum_range_succ, momF] using this.symm

theorem noV_of_valid {b : PyStr} (hb : ValidPair ['v'] b) : 'v' ∉ b := by
  have := velConds_of_valid hb
  revert this
  have : ∀ b ∈ velConds, 'v' ∉ b := by decide
  exact this b

theorem velVal_eq (hg : g.Proper) (lw : Bool) {b : PyStr} (hb : 'v' ∉ b) {G : Cell → ℝ} (hG : OnTX G) {φ : ℝ → ℝ}
    (hφ : ∀ d, G d = ∫ v, φ v ∂(normal (m.mu d.t d.x d.y) (m.sig d.t d.x d.y))) (c : Cell) :
    velVal g m L lw b G c = m.velExpect g L lw b φ c := by
  unfold velVal Ingredients.velExpect
  rw [marg_PS hg lw hb hG, ← paramMarg_eq hg, paramMarg_noV hb]
  simp only [hφ]

theorem marginal_PS (hg : g.Proper) (lw : Bool) {b : PyStr} (hb : 'v' ∉ b) (c : Cell) :
    m.marginal g L lw b c = g.marg (PS g m L lw) b c := by
  rw [← paramMarg_eq hg, paramMarg_noV hb]

/-! ### C34 -/

/-- Means of the velocity, for all conditioners and both weightings. -/
theorem C34_mean (h : ParamIs p g m L) (lw : Bool) (hl : lw = true → Shines g m L) {b : PyStr} (hb : ValidPair ['v'] b) :
    ∃ r, getMean p.self (distStr ['v'] b) lw = .ok r ∧ r.shape = g.shapeOf b ∧
      ∀ c, g.Has c → m.marginal g L lw b c ≠ 0 →
        r.get (coords b c) = .fin (m.velExpect g L lw b (fun v => v) c) := by
  have hv := noV_of_valid hb
  obtain ⟨r, h1, ⟨h2, h3⟩, -⟩ := h.mean_all lw (fun e => (hl e).tot h.proper) hb
  refine ⟨r, h1, h2, fun c hc h0 => ?_⟩
  rw [marginal_PS h.proper lw hv] at h0
  rw [h3 c hc h0, velVal_eq h.proper lw hv (mu_onTX m) (fun d => (normal_mean _ _).symm)]

/-- Central moments of every order. -/
theorem C34_central (h : ParamIs p g m L) (hf : p.f2 = 1) (lw : Bool) (hl : lw = true → Shines g m L) (j : ℕ) {b : PyStr}
    (hb : ValidPair ['v'] b) :
    ∃ r, getCentralMoment p.self (distStr ['v'] b) j lw = .ok r ∧ r.shape = g.shapeOf b ∧
      ∀ c, g.Has c → m.marginal g L lw b c ≠ 0 →
        r.get (coords b c) = .fin (m.velExpect g L lw b (fun v => (v - m.velExpect g L lw b (fun v => v) c) ^ j) c) := by
  have hv := noV_of_valid hb
  obtain ⟨r, h1, h2, h3⟩ := h.central_all lw (fun e => (hl e).tot h.proper) j hb
  refine ⟨r, h1, h2, fun c hc h0 => ?_⟩
  rw [marginal_PS h.proper lw hv] at h0
  rw [h3 c hc h0, velVal_eq h.proper lw hv (gmom_onTX m _ _ _) (fun d => by rw [hf, gmom_one]),
    velVal_eq h.proper lw hv (mu_onTX m) (fun d => (normal_mean _ _).symm)]

/-- Moments about any array of finite centres, one per bin of the conditioners. For the conditioners
age, position and metallicity the centres must not depend on metallicity (`C34_ignores_z`). -/
theorem C34_noncentral (h : ParamIs p g m L) (hf : p.f2 = 1) (lw : Bool) (hl : lw = true → Shines g m L) (j : ℕ) {b : PyStr}
    (hb : ValidPair ['v'] b) {MU : Arr Num} {a : List ℕ → ℝ} (hs : MU.shape = g.shapeOf b)
    (hMU : ∀ c, g.Has c → MU.get (coords b c) = .fin (a (coords b c)))
    (hz : b = ['t','x','z'] → ∀ c, g.Has c → a (coords b c) = a (coords b { c with z := 0 })) :
    ∃ r, getNoncentralMoment p.self (distStr ['v'] b) j MU lw = .ok r ∧ r.shape = g.shapeOf b ∧
      ∀ c, g.Has c → m.marginal g L lw b c ≠ 0 →
        r.get (coords b c) = .fin (m.velExpect g L lw b (fun v => (v - a (coords b c)) ^ j) c) := by
  have hv := noV_of_valid hb
  obtain ⟨r, h1, h2, h3⟩ := h.ncm_all lw (fun e => (hl e).tot h.proper) j hb hs (fun c hc _ => hMU c hc) hz
  refine ⟨r, h1, h2, fun c hc h0 => ?_⟩
  rw [marginal_PS h.proper lw hv] at h0
  rw [h3 c hc h0, velVal_eq h.proper lw hv (gmom_onTX m _ _ _) (fun d => by rw [hf, gmom_one])]

/-- `(j-1)!!` for even `j`, zero for odd `j`: the moments of a standard normal variable. -/
def evenDouble (j : ℕ) : ℝ := if Even j then (Nat.doubleFactorial (j - 1) : ℝ) else 0

theorem gmom_centre (μ σ : ℝ) (j : ℕ) : gmom 1 μ σ μ j = evenDouble j * σ ^ j := by
  unfold gmom
  rw [Finset.sum_range_succ, Finset.sum_eq_zero fun k hk => ?_]
  · simp only [momF_one, stdMom, evenDouble, Nat.even_iff]
    simp
    ring_nf
  · have : j - k ≠ 0 := by have := Finset.mem_range.1 hk; omega
    simp [this]

/-- Given age and position (and metallicity) central moments are those of one normal distribution, in every
bin, with stars or without: zero for odd orders and `(j-1)!! sigma^j` for even ones. -/
theorem C34_closed_form (h : ParamIs p g m L) (hf : p.f2 = 1) (lw : Bool) (j : ℕ) {b : PyStr}
    (hb : b = ['t','x'] ∨ b = ['t','x','z']) :
    ∃ r, getCentralMoment p.self (distStr ['v'] b) j lw = .ok r ∧ r.shape = g.shapeOf b ∧
      ∀ c, g.Has c → r.get (coords b c) = .fin (evenDouble j * m.sig c.t c.x c.y ^ j) := by
  obtain ⟨dtx, -, -, -, dtxz, -, -, -⟩ := mean_dispatch p lw
  rcases hb with rfl | rfl
  · obtain ⟨M, h1, h2⟩ := h.meanVtx lw
    have h3 := MArr.isArr (w := ['t','x']) (by decide) h2
    obtain ⟨r, r1, r2⟩ := h.ncm_tx lw j (MU := M) (a := fun i => (M.get i).toReal)
      ⟨h3.1, fun c hc => by beta_reduce; rw [h3.2 c hc]; rfl⟩
    refine ⟨r, ?_, r2.1, fun c hc => ?_⟩
    · rw [central_eq (b := ['t','x']) h.proper h.cubeIs (by decide +kernel) (dtx.trans h1)]
      exact r1
    · rw [r2.2 c hc]
      beta_reduce
      rw [h3.2 c hc, hf]
      exact congrArg _ (gmom_centre _ _ _)
  · obtain ⟨M, h1, h2⟩ := h.meanVtxz lw
    have h3 := MArr.isArr (w := ['t','x','z']) (by decide) h2
    obtain ⟨r, r1, r2⟩ := h.ncm_txz lw j (MU := M) (a := fun i => (M.get i).toReal)
      ⟨h3.1, fun c hc => by beta_reduce; rw [h3.2 c hc]; rfl⟩
    refine ⟨r, ?_, r2.1, fun c hc => ?_⟩
    · rw [central_eq (b := ['t','x','z']) h.proper h.cubeIs (by decide +kernel) (dtxz.trans h1)]
      exact r1
    · have e : M.get [c.t, c.x, c.y, 0] = .fin (m.mu c.t c.x c.y) :=
        h3.2 { c with z := 0 } ⟨hc.1, hc.2.1, hc.2.2.1, hc.2.2.2.1, h.proper.nz⟩
      rw [r2.2 c hc]
      beta_reduce
      rw [e, hf]
      exact congrArg _ (gmom_centre _ _ _)

/-- Where no stars (no light) have the values of the conditioners the results are nan, except for the conditioners
age and position (and metallicity), `C34_closed_form`, and mass-weighted for age. -/
theorem C34_empty (h : ParamIs p g m L) (lw : Bool) (hl : lw = true → Shines g m L) (j : ℕ) {b : PyStr}
    (hb : b ∈ [['x'], ['z'], ['t','z'], ['x','z']] ∨ (b = ['t'] ∧ lw = true)) :
    ∃ r s, getMean p.self (condStr ['v'] b) lw = .ok r ∧ getCentralMoment p.self (condStr ['v'] b) j lw = .ok s ∧
      ∀ c, g.Has c → m.marginal g L lw b c = 0 → r.get (coords b c) = .nan ∧ s.get (coords b c) = .nan := by
  have hq : ∃ q ∈ velCases, b = q.2.1 ∧ (q.2.1 = ['t'] → lw = true) := by
    simp only [List.mem_cons, List.not_mem_nil, or_false] at hb
    rcases hb with (rfl | rfl | rfl | rfl) | ⟨rfl, rfl⟩
    · exact ⟨(false, ['x'], [0]), by decide +kernel, rfl, by simp⟩
    · exact ⟨(true, ['z'], [0, 1, 2]), by decide +kernel, rfl, by simp⟩
    · exact ⟨(true, ['t','z'], [1, 2]), by decide +kernel, rfl, by simp⟩
    · exact ⟨(true, ['x','z'], [0]), by decide +kernel, rfl, by simp⟩
    · exact ⟨(false, ['t'], [1, 2]), by decide +kernel, rfl, fun _ => rfl⟩
  obtain ⟨q, hq, rfl, hqt⟩ := hq
  have hlw := fun e => (hl e).tot h.proper
  obtain ⟨r, h1, h2⟩ := h.mean_nested lw hlw hq hqt
  obtain ⟨s, h3, h4⟩ := h.ncm_nested lw hlw j hq hqt (MU := r) (al := r.get) (a := fun i => (r.get i).toReal)
    ⟨h2.1, fun c hc => rfl⟩ (fun c hc h0 => by rw [h2.2 c hc]; simp [condTable, h0, Num.toReal])
  have hne : q.2.1 ≠ [] ∧ ValidPair ['v'] q.2.1 ∧ 'v' ∉ q.2.1 :=
    (by decide +kernel : ∀ q ∈ velCases, q.2.1 ≠ [] ∧ ValidPair ['v'] q.2.1 ∧ 'v' ∉ q.2.1) q hq
  have e : distStr ['v'] q.2.1 = condStr ['v'] q.2.1 := by rw [distStr, if_neg hne.1]
  refine ⟨r, s, h1, ?_, fun c hc h0 => ?_⟩
  · have := central_eq (j := j) h.proper h.cubeIs hne.2.1 (e ▸ h1)
    rw [e] at this
    rw [this, h3]
  · rw [marginal_PS h.proper lw hne.2.2] at h0
    rw [h2.2 c hc, h4.2 c hc]
    simp [condTable, h0]

/-! ### Disagreements -/

/-- Moments given age, position and metallicity are taken about the centres at the first metallicity. -/
theorem C34_ignores_z (h : ParamIs p g m L) (hf : p.f2 = 1) (lw : Bool) (j : ℕ) {MU : Arr Num} {a : List ℕ → ℝ}
    (hs : MU.shape = g.shapeOf ['t','x','z']) (hMU : ∀ c, g.Has c → MU.get [c.t, c.x, c.y, c.z] = .fin (a [c.t, c.x, c.y, c.z])) :
    ∃ r, getNoncentralMoment p.self (condStr ['v'] ['t','x','z']) j MU lw = .ok r ∧
      ∀ c, g.Has c → r.get [c.t, c.x, c.y, c.z] =
        .fin (∫ v, (v - a [c.t, c.x, c.y, 0]) ^ j ∂(normal (m.mu c.t c.x c.y) (m.sig c.t c.x c.y))) := by
  obtain ⟨r, r1, r2⟩ := h.ncm_txz lw j (MU := MU) (a := a) ⟨hs, fun c hc => hMU c hc⟩
  refine ⟨r, r1, fun c hc => ?_⟩
  have := r2.2 c hc
  beta_reduce at this
  rw [hf, gmom_one] at this
  exact this

/-- So they are wrong for centres that depend on metallicity. -/
theorem C34_ignores_z_wrong : ∃ p g m L, ParamIs p g m L ∧ p.f2 = 1 ∧ ∃ (MU : Arr Num) (a : List ℕ → ℝ) (r : Arr Num) (c : Cell),
    MU.shape = g.shapeOf ['t','x','z'] ∧ (∀ c, g.Has c → MU.get (coords ['t','x','z'] c) = .fin (a (coords ['t','x','z'] c))) ∧
    getNoncentralMoment p.self (condStr ['v'] ['t','x','z']) 1 MU false = .ok r ∧ g.Has c ∧
    r.get (coords ['t','x','z'] c) ≠
      .fin (∫ v, (v - a (coords ['t','x','z'] c)) ^ 1 ∂(normal (m.mu c.t c.x c.y) (m.sig c.t c.x c.y))) := by
  obtain ⟨p, m, h, -, -, hf⟩ := demoDisk_exists 1
  let a : List ℕ → ℝ := fun i => (i.getD 3 0 : ℕ)
  let MU : Arr Num := ⟨demoGrid.shapeOf ['t','x','z'], fun i => .fin (a i)⟩
  obtain ⟨r, r1, r2⟩ := C34_ignores_z h hf false 1 (MU := MU) (a := a) rfl (fun c hc => rfl)
  have hc : demoGrid.Has ⟨0, 0, 0, 0, 1⟩ := by unfold Grid.Has demoGrid; decide
  refine ⟨p, demoGrid, m, demoL, h, hf, MU, a, r, ⟨0, 0, 0, 0, 1⟩, rfl, fun c hc => rfl, r1, hc, ?_⟩
  have e : coords ['t','x','z'] ⟨0, 0, 0, 0, 1⟩ = [0, 0, 0, 1] := by decide
  have := r2 _ hc
  rw [e, this, ← gmom_one, ← gmom_one]
  simp [gmom, Finset.sum_range_succ, momF, a]
  intro h; linarith

/-- If `factorial2(-1)` is not 1 the term of the expansion without dispersion is scaled. -/
theorem C34_factorial2 (h : ParamIs p g m L) (lw : Bool) (j : ℕ) {MU : Arr Num} {a : List ℕ → ℝ}
    (hs : MU.shape = g.shapeOf ['t','x']) (hMU : ∀ c, g.Has c → MU.get [c.t, c.x, c.y] = .fin (a [c.t, c.x, c.y])) :
    ∃ r, getNoncentralMoment p.self (condStr ['v'] ['t','x']) j MU lw = .ok r ∧
      ∀ c, g.Has c → r.get [c.t, c.x, c.y] =
        .fin (∫ v, (v - a [c.t, c.x, c.y]) ^ j ∂(normal (m.mu c.t c.x c.y) (m.sig c.t c.x c.y)) -
          (1 - p.f2) * (m.mu c.t c.x c.y - a [c.t, c.x, c.y]) ^ j) := by
  obtain ⟨r, r1, r2⟩ := h.ncm_tx lw j (MU := MU) (a := a) ⟨hs, fun c hc => hMU c hc⟩
  refine ⟨r, r1, fun c hc => ?_⟩
  refine (r2.2 c hc).trans (congrArg _ ?_)
  rw [← gmom_one]
  unfold gmom
  rw [Finset.sum_range_succ', Finset.sum_range_succ']
  have e : ∀ k, momF p.f2 (k + 1) = momF 1 (k + 1) := fun k => by simp [momF]
  have e' : coords ['t','x'] c = [c.t, c.x, c.y] := rfl
  simp only [e, e']
  simp [momF]
  ring

/-- With a release of scipy where `factorial2(-1)` is 0, the central moment of order 0 is 0 instead of 1. -/
theorem C34_factorial2_wrong : ∃ p g m L, ParamIs p g m L ∧ p.f2 = 0 ∧ ∃ (r : Arr Num),
    getCentralMoment p.self (condStr ['v'] ['t','x']) 0 false = .ok r ∧ ∀ c, g.Has c → r.get (coords ['t','x'] c) = .fin 0 := by
  obtain ⟨p, m, h, -, -, hf⟩ := demoDisk_exists 0
  obtain ⟨dtx, -⟩ := mean_dispatch p false
  obtain ⟨M, h1, h2⟩ := h.meanVtx false
  have h3 := MArr.isArr (w := ['t','x']) (by decide) h2
  obtain ⟨r, r1, r2⟩ := h.ncm_tx false 0 (MU := M) (a := fun i => (M.get i).toReal)
    ⟨h3.1, fun c hc => by beta_reduce; rw [h3.2 c hc]; rfl⟩
  refine ⟨p, demoGrid, m, demoL, h, hf, r, ?_, fun c hc => ?_⟩
  · have := central_eq (j := 0) (b := ['t','x']) h.proper h.cubeIs (by decide +kernel) (dtx.trans h1)
    exact this.trans r1
  · rw [r2.2 c hc]
    simp [gmom, momF, hf]

/-! ### The methods `get_central_moment_v*`

`p.centralMethod w` is the method `component.get_central_moment_<w>`, which `get_central_moment` does not call. -/

/-- Called directly, the methods of all eight conditioners give the central moments. Four of them need an argument `mu`,
whose value does not matter. -/
theorem C34_methods (h : ParamIs p g m L) (hf : p.f2 = 1) (lw : Bool) (hl : lw = true → Shines g m L) (j : ℕ) {b : PyStr}
    (hb : ValidPair ['v'] b) {mu : Option (Arr Num)} (hmu : mu ≠ none ↔ b ∈ [[], ['z'], ['t','z'], ['x','z']]) :
    ∃ f r, p.centralMethod (distStr ['v'] b) = some f ∧ f j mu lw = .ok r ∧ r.shape = g.shapeOf b ∧
      ∀ c, g.Has c → m.marginal g L lw b c ≠ 0 →
        r.get (coords b c) = .fin (m.velExpect g L lw b (fun v => (v - m.velExpect g L lw b (fun v => v) c) ^ j) c) := by
  obtain ⟨r, r1, r2, r3⟩ := C34_central h hf lw hl j hb
  obtain ⟨M, hM, -⟩ := C34_mean h lw hl hb
  rw [central_eq h.proper h.cubeIs hb hM] at r1
  have hb' := velConds_of_valid hb
  simp only [velConds, List.mem_cons, List.not_mem_nil, or_false] at hb'
  obtain ⟨-, dx, dt, d0, -, dtz, dxz, dz⟩ := mean_dispatch p lw
  obtain ⟨-, nx, nt, n0, -, ntz, nxz, nz⟩ := ncm_dispatch p j M lw
  have closed : ∀ {w : PyStr} {C : Arr Num}, w = ['t','x'] ∨ w = ['t','x','z'] → w = b →
      C.shape = g.shapeOf w → (∀ c, g.Has c → C.get (coords w c) = .fin (m.sig c.t c.x c.y ^ j * momF p.f2 j)) →
      ∀ c, g.Has c → m.marginal g L lw w c ≠ 0 →
        C.get (coords w c) = .fin (m.velExpect g L lw w (fun v => (v - m.velExpect g L lw w (fun v => v) c) ^ j) c) := by
    rintro w C hw rfl hs hC c hc h0
    obtain ⟨r', q1, q2, q3⟩ := C34_closed_form h hf lw j hw
    rw [central_eq h.proper h.cubeIs hb hM, r1] at q1
    cases q1
    rw [← r3 c hc h0, q3 c hc, hC c hc, hf]
    simp only [momF, evenDouble, Nat.even_iff]
    congr 1
    by_cases hj : j % 2 = 0
    · simp only [hj, if_true]
      by_cases h0 : j = 0 <;> simp [h0, mul_comm]
    · simp [hj]
  have hin : ∀ w : PyStr, w = b → w ∈ [[], ['z'], ['t','z'], ['x','z']] → ∃ x, mu = some x :=
    fun w hw h => Option.ne_none_iff_exists'.1 (hmu.2 (hw ▸ h))
  have hout : ∀ w : PyStr, w = b → w ∉ [[], ['z'], ['t','z'], ['x','z']] → mu = none :=
    fun w hw h => by_contra fun e => h (hw ▸ hmu.1 e)
  rcases hb' with rfl | rfl | rfl | rfl | rfl | rfl | rfl | rfl
  · obtain ⟨x, rfl⟩ := hin _ rfl (by decide)
    exact ⟨_, r, rfl, by rw [Param.centralV, ← d0, show getMean p.self ['v'] lw = _ from hM]; exact n0.symm.trans r1, r2, r3⟩
  · obtain rfl := hout _ rfl (by decide)
    exact ⟨_, r, rfl, by
      show p.centralVt j lw = _
      rw [Param.centralVt, ← dt, show getMean p.self ['v','_','t'] lw = _ from hM]; exact nt.symm.trans r1, r2, r3⟩
  · obtain rfl := hout _ rfl (by decide)
    exact ⟨_, r, rfl, by
      show p.centralVx j lw = _
      rw [Param.centralVx, ← dx, show getMean p.self ['v','_','x'] lw = _ from hM]; exact nx.symm.trans r1, r2, r3⟩
  · obtain ⟨x, rfl⟩ := hin _ rfl (by decide)
    exact ⟨_, r, rfl, by rw [Param.centralVz, ← dz, show getMean p.self ['v','_','z'] lw = _ from hM]; exact nz.symm.trans r1, r2, r3⟩
  · obtain rfl := hout _ rfl (by decide)
    obtain ⟨C, c1, c2⟩ := h.centralVtx j
    have c3 := MArr.isArr (w := ['t','x']) (by decide) c2
    exact ⟨_, C, rfl, c1, c3.1, closed (.inl rfl) rfl c3.1 c3.2⟩
  · obtain ⟨x, rfl⟩ := hin _ rfl (by decide)
    exact ⟨_, r, rfl, by rw [Param.centralVtz, ← dtz, show getMean p.self ['v','_','t','z'] lw = _ from hM]; exact ntz.symm.trans r1, r2, r3⟩
  · obtain ⟨x, rfl⟩ := hin _ rfl (by decide)
    exact ⟨_, r, rfl, by rw [Param.centralVxz, ← dxz, show getMean p.self ['v','_','x','z'] lw = _ from hM]; exact nxz.symm.trans r1, r2, r3⟩
  · obtain rfl := hout _ rfl (by decide)
    obtain ⟨C, c1, c2⟩ := h.centralVtxz j
    have c3 := MArr.isArr (w := ['t','x','z']) (by decide) c2
    exact ⟨_, C, rfl, c1, c3.1, closed (.inr rfl) rfl c3.1 c3.2⟩

/-- The four methods raise `TypeError` when called as documented, that is without `mu`. -/
theorem C34_methods_mu (p : Param) (j : ℕ) (lw : Bool) {b : PyStr} (hb : b ∈ [[], ['z'], ['t','z'], ['x','z']]) :
    ∃ f, p.centralMethod (distStr ['v'] b) = some f ∧ f j none lw = .error .typeError := by
  simp only [List.mem_cons, List.not_mem_nil, or_false] at hb
  rcases hb with rfl | rfl | rfl | rfl <;> exact ⟨_, rfl, rfl⟩

/-! ### The hypotheses are met -/

/-- C34_mean, C34_central, C34_closed_form at a disk made by its setters, both weightings. -/
example (lw : Bool) : ∃ p m, ParamIs p demoGrid m demoL ∧ p.f2 = 1 ∧ (lw = true → Shines demoGrid m demoL) ∧
    ∀ b, ValidPair ['v'] b → ∃ c, demoGrid.Has c ∧ m.marginal demoGrid demoL lw b c ≠ 0 := by
  obtain ⟨p, m, h, hs, -, hf⟩ := demoDisk_exists 1
  refine ⟨p, m, h, hf, fun _ => hs, fun b hb => ?_⟩
  have c0 : demoGrid.Has ⟨0, 0, 0, 0, 0⟩ := ⟨h.proper.nt, h.proper.nv, h.proper.nx, h.proper.ny, h.proper.nz⟩
  have ht := PS_total h lw (fun _ => hs.tot h.proper)
  have hv := noV_of_valid hb
  by_contra hn
  push Not at hn
  simp only [marginal_PS h.proper lw hv] at hn
  by_cases hb0 : b = []
  · subst hb0
    have := hn _ c0
    rw [marg_nil, ht] at this
    norm_num at this
  · have hm : b ∈ marginals ∧ ∀ u ∈ (PyStr.replaceX b).reverse, AxisChar u := by
      have := velConds_of_valid hb
      have key : ∀ b ∈ velConds, b ≠ [] → b ∈ marginals ∧ ∀ u ∈ (PyStr.replaceX b).reverse, AxisChar u := by
        unfold AxisChar; decide +kernel
      exact key b this hb0
    rw [← sumOver_marg_total demoGrid _ hm.1 c0, sumOver_congr (f' := fun _ => 0) _ hm.2 c0 (fun d hd => hn d hd)] at ht
    have z : ∀ (u : List Char) (c : Cell), sumOver demoGrid u (fun _ => (0 : ℝ)) c = 0 := by
      intro u
      induction u with
      | nil => intro c; rfl
      | cons a u ih => intro c; simp [sumOver, ih]
    rw [z] at ht
    norm_num at ht

end PKM
