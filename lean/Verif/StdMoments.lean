import Verif.MomentMath
import Verif.Props.Base

/-! Lemmas: objects whose tables, means and central moments are those of one measure `P`. -/

open scoped Classical

noncomputable section

namespace PKM
open Np Component

/-- `o` computes tables, means and central moments of the measure `P` given `b`. -/
structure StdAt (o : Obj) (g : Grid) (lw : Bool) (P : Cell → ℝ) (b : PyStr) : Prop where
  proper : g.Proper
  cube : CubeIs o.cube g
  nonneg : ∀ d, g.Has d → 0 ≤ P d
  tab : ∀ a, ValidPair a b → HasTab o.getP g lw P (g.condWt P b) a b
  mean : ∀ a, ValidPair a b → a.length = 1 → ∃ r, o.getMean (distStr a b) lw = .ok r ∧
    IsMom g a b r (fun q => g.expect P (g.value q) b)
  central : ∀ a, ValidPair a b → a.length = 1 → ∀ j, ∃ r, o.getCentralMoment (distStr a b) j lw = .ok r ∧
    IsMom g a b r (fun q => g.expect P (fun d => (g.value q d - g.mean P q b d) ^ j) b)

variable {cube : IFUCube} {stored : Arr Num} {g : Grid} {ρ : Cell → ℝ} {L : ℕ → ℕ → ℝ} {lw : Bool}

/-- Probability tables of a self fulfilling the contract without hard-coded conditional. -/
theorem hasTab_of_contract {s : Self} {P : Cell → ℝ} (h : Contract s g lw (g.marg P)) {a b : PyStr}
    (hab : ValidPair a b) (hn : b ≠ [] → s.logP (condStr a b) = none) :
    HasTab (getP s) g lw P (g.condWt P b) a b := by
  rcases hab with ⟨rfl, ha⟩ | hab
  · obtain ⟨A, hA, hA'⟩ := getP_marg_of_contract h false a ha
    have hu : unionStr a [] = a := by
      have : ∀ a ∈ marginals, unionStr a [] = a := by decide +kernel
      exact this a ha
    have hA'' := (isArr_iff (marginals_chars a ha)).1 hA'
    refine ⟨A, by simpa [distStr] using hA, ?_⟩
    have e : PyStr.replaceX a ++ PyStr.replaceX [] = PyStr.replaceX a := by simp [PyStr.replaceX]
    rw [e]
    refine ⟨hA''.1, fun c hc => (hA''.2 c hc).trans ?_⟩
    simp [tab, condTable, Grid.condWt, hu, dvol]
  · obtain ⟨-, -, -, h4, h5, -, -, -, h9, -⟩ := conditionals_letters _ hab
    have hb : b ≠ [] := by
      rintro rfl
      have : ([] : PyStr) ∉ marginals := by decide +kernel
      exact this h9
    obtain ⟨A, hA, hA'⟩ := getP_cond_of_contract h false (a, b) hab (hn hb)
    refine ⟨A, by simpa [distStr, hb] using hA, ?_⟩
    have hA'' := (isArr_cond_iff h4 h5).1 hA'
    refine ⟨hA''.1, fun c hc => (hA''.2 c hc).trans ?_⟩
    simp [tab, Grid.condWt, hb, dvol]

/-- Base components. -/
theorem BaseIs.std (h : BaseIs cube stored g ρ L) (hlw : lw = true → 0 < totalLight g L (massP g ρ))
    (b : PyStr) : StdAt (Component.obj (baseSelf cube stored)) g lw (wtdP g L (massP g ρ) lw) b := by
  have hC := h.contract lw hlw
  have hT : ∀ a, ValidPair a b → HasTab (getP (baseSelf cube stored)) g lw (wtdP g L (massP g ρ) lw)
      (g.condWt (wtdP g L (massP g ρ) lw) b) a b := fun a hab =>
    hasTab_of_contract hC hab fun _ => baseLogP_none _ _ (condStr_not_marginal a b)
  have hm := respects_condWt (g := g) (wtdP g L (massP g ρ) lw) b
  have hmean : ∀ a, ValidPair a b → a.length = 1 → ∃ r, getMean (baseSelf cube stored) (distStr a b) lw = .ok r ∧
      IsMom g a b r (fun q => expectM g (wtdP g L (massP g ρ) lw) (g.condWt (wtdP g L (massP g ρ) lw) b)
        (g.value q) b) := fun a hab h1 =>
    getMean_table h.proper h.cubeIs hab h1 rfl (hT a hab) hm
  exact ⟨h.proper, h.cubeIs, fun d hd => h.wtd_nonneg lw hd, hT, hmean, fun a hab h1 j =>
    getCentral_of_mean h.proper h.cubeIs hab h1 rfl (hT a hab) hm (hmean a hab h1) j⟩

/-- Facts about the five quantities. -/
theorem quantity_facts {q : Char} (hq : q ∈ ['t','v','x','y','z']) :
    (varOf q).length = 1 ∧ q ∈ PyStr.replaceX (varOf q) ∧ varOf q ∈ [['t'],['v'],['x'],['z']] := by
  have : ∀ q ∈ ['t','v','x','y','z'], (varOf q).length = 1 ∧ q ∈ PyStr.replaceX (varOf q) ∧
    varOf q ∈ [['t'],['v'],['x'],['z']] := by decide +kernel
  exact this q hq

namespace StdAt
variable {o : Obj} {P : Cell → ℝ} {b : PyStr}

theorem mean_at {d c : Cell} {q : Char} (e : coords b d = coords b c) :
    g.mean P q b d = Ex g P b c (g.value q) := by
  rw [← mean_eq]
  simp only [Grid.mean, respects_condWt (g := g) P b d c e, respects_marg (g := g) _ b d c e]

theorem centralEx (h : StdAt o g lw P b) {a : PyStr} (hab : ValidPair a b) (h1 : a.length = 1) (j : ℕ) :
    ∃ r, o.getCentralMoment (distStr a b) j lw = .ok r ∧ IsMom g a b r (fun q c =>
      if g.condWt P b c = 0 then .nan else
        .fin (Ex g P b c (fun d => (g.value q d - Ex g P b c (g.value q)) ^ j))) := by
  obtain ⟨r, hr, hr'⟩ := h.central a hab h1 j
  refine ⟨r, hr, hr'.congr fun q _ c hc => ?_⟩
  have key := Ex_congr (g := g) (P := P) (b := b) (c := c)
    (φ := fun d => (g.value q d - g.mean P q b d) ^ j)
    (ψ := fun d => (g.value q d - Ex g P b c (g.value q)) ^ j) fun d hd e => by
      rw [mean_at e]
  rw [expect_eq, key]

/-- Covariances. -/
theorem covariance (h : StdAt o g lw P b) {a0 a1 : Char} (hab : ValidPair [a0, a1] b) :
    ∃ r, o.getCovariance (distStr [a0, a1] b) lw = .ok r ∧ IsCov g a0 a1 b r (fun q q' =>
      g.expect P (fun d => (g.value q d - g.mean P q b d) * (g.value q' d - g.mean P q' b d)) b) := by
  obtain ⟨h0, h1⟩ := validPair_sub hab
  obtain ⟨M0, hM0, hM0'⟩ := h.mean _ h0 rfl
  obtain ⟨M1, hM1, hM1'⟩ := h.mean _ h1 rfl
  rw [getCovariance_eq hab]
  exact covCore_table h.proper h.cube hab (h.tab _ hab) (respects_condWt P b) hM0 hM1 hM0' hM1'
    (μ := fun q => g.mean P q b) (fun q => respects_meanM (respects_condWt P b) q)
    (fun q _ d _ hne => by rw [expect_eq, if_neg hne, mean_eq])
    (fun q _ d _ hne => by rw [expect_eq, if_neg hne, mean_eq])

theorem covarianceEx (h : StdAt o g lw P b) {a0 a1 : Char} (hab : ValidPair [a0, a1] b) :
    ∃ r, o.getCovariance (distStr [a0, a1] b) lw = .ok r ∧ IsCov g a0 a1 b r (fun q q' c =>
      if g.condWt P b c = 0 then .nan else .fin (Ex g P b c (fun d =>
        (g.value q d - Ex g P b c (g.value q)) * (g.value q' d - Ex g P b c (g.value q'))))) := by
  obtain ⟨r, hr, hr'⟩ := h.covariance hab
  refine ⟨r, hr, hr'.1, fun q hq q' hq' c hc => (hr'.2 q hq q' hq' c hc).trans ?_⟩
  have key := Ex_congr (g := g) (P := P) (b := b) (c := c)
    (φ := fun d => (g.value q d - g.mean P q b d) * (g.value q' d - g.mean P q' b d))
    (ψ := fun d => (g.value q d - Ex g P b c (g.value q)) * (g.value q' d - Ex g P b c (g.value q')))
    fun d hd e => by rw [mean_at e, mean_at e]
  beta_reduce
  rw [expect_eq, key]

end StdAt

theorem varOf_mem {q a : Char} (h : varOf q = [a]) : q ∈ PyStr.replaceX [a] := by
  unfold varOf at h
  split at h
  · next e =>
    simp only [List.cons.injEq, and_true] at h
    subst h e; decide
  · simp only [List.cons.injEq, and_true] at h
    subst h
    simp only [PyStr.replaceX]
    split <;> simp_all

/-- Binary operation with a scalar. -/
theorem bop_scalar_right (op : Num → Num → Num) (A : Arr Num) (x : Num) :
    ∃ r, Np.bop op A (Np.scalar x) = .ok r ∧ r.shape = A.shape ∧
      ∀ i, InBox A.shape i → r.get i = op (A.get i) x := by
  refine ⟨⟨A.shape, fun i => op (A.get (bproj A.shape i)) x⟩, ?_, rfl, ?_⟩
  · simp [Np.bop, Np.scalar]
  · intro i hi
    simp only [bproj_self hi]

end PKM
