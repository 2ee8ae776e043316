import Verif.PopDerived
import Verif.Props.PopMoments

/-! Lemmas: mixtures answer like the union of their members' stars. -/

open scoped Classical

noncomputable section

namespace PKM
open Np Component

variable {g : Grid} {L : ℕ → ℕ → ℝ} {lw : Bool} {a b : PyStr} {m : Mix} {n : ℕ} {ω : ℕ → ℝ} {pop : ℕ → Pop}

theorem varOf_v {k : Char} (hk : k ∈ ['t','v','x','y','z']) (e : varOf k = ['v']) : k = 'v' := by
  fin_cases hk <;> first | rfl | exact absurd e (by decide)

theorem IsMember.poly {ch : Child} {q : Pop} (h : IsMember g L ch q) : q.Poly g := by
  cases h with
  | plain cube st ρ ybar h e e' => subst e'; exact tablePop_poly h.proper h.nonneg
  | parametric p m ybar h e e' => subst e'; exact ingr_poly m h.pop_ok

/-- Where a mixture answers like the union of its members: all members have stars there, and masses add up to one if all are
asked for. -/
def mixGood (g : Grid) (L : ℕ → ℕ → ℝ) (lw : Bool) (n : ℕ) (ω : ℕ → ℝ) (pop : ℕ → Pop) (b : PyStr) (c : Cell) : Prop :=
  (∀ i < n, (pop i).amount g L lw b c ≠ 0) ∧ (b = [] → lw = false → (mixPop n ω pop).amount g L false [] c = 1)

theorem MixOf.mean_at (h : MixOf m g n ω pop L) (hl : lw = true → ∀ i < n, (pop i).Shines g L) (hv : lw = false ∨ 'v' ∉ b)
    (hab : ValidPair a b) (h1 : a.length = 1) : ∃ M F, Mix.getMean m (distStr a b) lw = .ok M ∧ IsMom g a b M F ∧
    ∀ k ∈ PyStr.replaceX a, ∀ c, g.Has c → mixGood g L lw n ω pop b c → F k c = .fin ((mixPop n ω pop).mean g L lw b k c) := by
  obtain ⟨M, F, e, i, v⟩ := h.mean_is hl hab h1
  refine ⟨M, F, e, i, fun k hk c hc hgood => ?_⟩
  rw [v k hk c hc hgood.1]
  unfold Pop.mean
  by_cases e : b = []
  · subst e
    rw [if_pos rfl, expect_nil h k _ c (hgood.2 rfl)]
  · rw [if_neg e, ← h.shares_expect hl _ hgood.1]
    unfold mixMean
    simp only [fun i : Fin n => h.share_same hv i.2]

theorem MixOf.central_at (h : MixOf m g n ω pop L) (hl : lw = true → ∀ i < n, (pop i).Shines g L)
    (hm : ∀ (i : ℕ) (hi : i < m.children.length), IsMember1 g L m.children[i] (pop i)) (hv : lw = false ∨ 'v' ∉ b)
    (hab : ValidPair a b) (h1 : a.length = 1) (hvb : ¬ (a = ['v'] ∧ b = ['t','x','z'])) (j : ℕ) :
    ∃ r F, Mix.getCentralMoment m (distStr a b) j lw = .ok r ∧ IsMom g a b r F ∧
    ∀ k ∈ PyStr.replaceX a, ∀ c, g.Has c → mixGood g L lw n ω pop b c → F k c = .fin ((mixPop n ω pop).central g L lw b k j c) := by
  obtain ⟨M, Fm, e, i, v⟩ := h.mean_at hl hv hab h1
  obtain ⟨r, F, hr, hr', hF⟩ := h.central_is hl hab h1 j e i (cen := fun _ c => c) (fun i hi =>
    (hm i hi).says (fun e => hl e i (h.children ▸ hi)) hab h1 hvb)
  refine ⟨r, F, hr, hr', fun k hk c hc hgood => ?_⟩
  rw [hF k hk c (fun _ => (mixPop n ω pop).mean g L lw b k c) hc hgood.1 (fun _ _ => v k hk c hc hgood)]
  unfold Pop.central
  by_cases e : b = []
  · subst e
    have := nil_sum h hl k (fun x => (x - (mixPop n ω pop).mean g L lw [] k c) ^ j) c
    simp only [Num.fin_mul, Num.fin_sum] at this
    rw [if_pos rfl, this, expect_nil h k _ c (hgood.2 rfl)]
  · rw [if_neg e, h.shares_expect hl _ hgood.1]

theorem MixOf.tab_is (h : MixOf m g n ω pop L) (hl : lw = true → (mixPop n ω pop).Shines g L) (hab : ValidPair a b) :
    HasTab (Mix.obj m).getP g lw (wtdP g L ((mixPop n ω pop).cells g (unionStr a b)) lw)
      (g.condWt (wtdP g L ((mixPop n ω pop).cells g b) lw) b) a b := by
  rcases hab with ⟨rfl, ha⟩ | hab
  · obtain ⟨A, hA, hA'⟩ := Mix.getP_marg h.is false lw ha (fun e => h.mixLight_pos (hl e) a)
    have hu : unionStr a [] = a := (by decide +kernel : ∀ a ∈ marginals, unionStr a [] = a) a ha
    have hA'' := (isArr_iff (marginals_chars a ha)).1 hA'
    refine ⟨A, by simpa [distStr, Mix.obj] using hA, ?_⟩
    rw [show PyStr.replaceX a ++ PyStr.replaceX [] = PyStr.replaceX a by simp [PyStr.replaceX]]
    refine ⟨hA''.1, fun c hc => (hA''.2 c hc).trans ?_⟩
    beta_reduce
    rw [mixP_pad]
    simp [tab, condTable, Grid.condWt, hu, dvol]
  · obtain ⟨-, -, -, h4, h5, -, -, -, h9, -⟩ := conditionals_letters _ hab
    have hb : b ≠ [] := (by decide +kernel : ∀ q ∈ conditionals, q.2 ≠ []) _ hab
    obtain ⟨A, hA, hA'⟩ := Mix.getP_cond h.is false lw (a, b) hab (fun e w => h.mixLight_pos (hl e) w)
    refine ⟨A, by simpa [distStr, hb, Mix.obj] using hA, ?_⟩
    have hA'' := (isArr_cond_iff h4 h5).1 hA'
    refine ⟨hA''.1, fun c hc => (hA''.2 c hc).trans ?_⟩
    beta_reduce
    rw [mixP_pad, mixP_pad]
    simp [tab, Grid.condWt, hb, dvol]

theorem MixOf.popAt (h : MixOf m g n ω pop L) (hl : lw = true → ∀ i < n, (pop i).Shines g L)
    (hm : ∀ (i : ℕ) (hi : i < m.children.length), IsMember1 g L m.children[i] (pop i)) (b : PyStr) (hv : lw = false ∨ 'v' ∉ b) :
    PopAt (Mix.obj m) (mixPop n ω pop) g L lw b (fun a => ¬ (a = ['v'] ∧ b = ['t','x','z'])) (mixGood g L lw n ω pop b) :=
  ⟨h.proper, h.cubeIs, h.mixOk, mixPop_poly h.wpos fun i hi => (h.member i (h.children.symm ▸ hi)).poly,
    h.lightNonneg, fun e => mix_shines h (hl e),
    fun c _ hgood => ⟨(h.mixAmount_pos hgood.1).ne', hgood.2⟩, fun a hab h1 => h.mean_at hl hv hab h1,
    fun a hab h1 ha j => h.central_at hl hm hv hab h1 ha j, fun a hab _ => h.tab_is (fun e => mix_shines h (hl e)) hab⟩

end PKM
