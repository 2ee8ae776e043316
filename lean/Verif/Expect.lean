import Verif.MomentLemmas

/-! Lemmas: sums of weights against a (conditional) probability table are expectations. -/

open scoped Classical

noncomputable section

namespace PKM
open Np Component

variable {g : Grid}

theorem validPair_facts : ∀ a b : PyStr, ValidPair a b →
    (PyStr.replaceX a ++ PyStr.replaceX b).Nodup ∧
    (∀ ch ∈ PyStr.replaceX a ++ PyStr.replaceX b, ch ∈ ['t','v','x','y','z']) ∧
    DistChars a ∧ DistChars b ∧ unionStr a b ∈ marginals ∧
    (∀ ch ∈ PyStr.replaceX a ++ PyStr.replaceX b, ch ∈ PyStr.replaceX (unionStr a b)) ∧
    (∀ ch ∈ PyStr.replaceX (unionStr a b), ch ∈ PyStr.replaceX a ++ PyStr.replaceX b) := by
  unfold DistChars
  have h1 : ∀ a ∈ marginals, (PyStr.replaceX a).Nodup ∧ (∀ ch ∈ PyStr.replaceX a, ch ∈ ['t','v','x','y','z']) ∧
    (∀ ch ∈ a, ch ∈ ['t','v','x','z']) ∧ unionStr a [] = a := by decide +kernel
  rintro a b (⟨rfl, ha⟩ | h)
  · obtain ⟨h1, h2, h3, h4⟩ := h1 a ha
    rw [h4]
    simpa [PyStr.replaceX] using ⟨h1, by simpa using h2, by simpa using h3, ha⟩
  · obtain ⟨h1, h2, h3, h4, h5, h6, -, h7⟩ := conditionals_axes _ h
    obtain ⟨-, k2, k3, k4, k5, k6, -, k8, k9, k10⟩ := conditionals_letters _ h
    exact ⟨h1, h2, k4, k5, k10, k2, k3⟩

theorem axis_size_pos (hg : g.Proper) (s : Char) : 0 < sizeL g s := by
  have := hg.nt; have := hg.nv; have := hg.nx; have := hg.ny; have := hg.nz
  unfold sizeL; split_ifs <;> assumption

theorem sum_nan (hg : g.Proper) (s : Char) {f : Fin (sizeL g s) → Num} (h : ∀ j, f j = .nan) :
    ∑ j, f j = .nan :=
  Num.sum_eq_nan (i := ⟨0, axis_size_pos hg s⟩) (Finset.mem_univ _) (h _)

theorem sumOver_pair (P : Cell → ℝ) {a b : PyStr} (h : ValidPair a b) {c : Cell} (hc : g.Has c) :
    sumOver g (PyStr.replaceX a).reverse (g.marg P (unionStr a b)) c = g.marg P b c := by
  rcases h with ⟨rfl, ha⟩ | h
  · have h4 : ∀ a ∈ marginals, unionStr a [] = a := by decide +kernel
    rw [h4 a ha, sumOver_marg_total g P ha hc]
    simp [Grid.marg, coords]
  · obtain ⟨h1, h2, h3, h4, h5, h6, -, h7⟩ := conditionals_axes _ h
    simp only at h7 h1 h2
    have hA1 : ∀ ch ∈ (PyStr.replaceX a).reverse, AxisChar ch := fun ch hch =>
      h2 ch (by simp at hch; simp [hch])
    rw [← sumOver_perm g h7 (h7.nodup_iff.2 (List.nodup_reverse.2 (List.nodup_append.1 h1).1))
      (fun ch hch => hA1 ch (h7.mem_iff.1 hch)), sumOver_marg_nested g P h6 hc]

theorem coords_setL {b : PyStr} (hb : DistChars b) {u : Char} (hu : AxisChar u)
    (h : u ∉ PyStr.replaceX b) (c : Cell) (j : ℕ) : coords b (setL c u j) = coords b c := by
  rw [coords_letters _ hb, coords_letters _ hb]
  apply List.map_congr_left
  intro ch hch
  have hA : AxisChar ch := replaceX_chars hb ch hch
  rw [coordL_setL hu hA, if_neg (fun e : ch = u => h (e ▸ hch))]

/-- `φ` only depends on the variables `w`. -/
def Respects (w : PyStr) (φ : Cell → ℝ) : Prop := ∀ d d', coords w d = coords w d' → φ d = φ d'

theorem mul_marg {w : PyStr} {φ : Cell → ℝ} (hφ : Respects w φ) (P : Cell → ℝ) (d : Cell) :
    φ d * g.marg P w d = g.marg (fun e => φ e * P e) w d := by
  simp only [Grid.marg, Grid.sumCells, Finset.mul_sum]
  refine Finset.sum_congr rfl fun t _ => Finset.sum_congr rfl fun v _ => Finset.sum_congr rfl
    fun x _ => Finset.sum_congr rfl fun y _ => Finset.sum_congr rfl fun z _ => ?_
  split_ifs with h
  · rw [hφ _ _ h]
  · simp

theorem weighted_pair (P : Cell → ℝ) {a b : PyStr} (h : ValidPair a b) {φ : Cell → ℝ}
    (hφ : Respects (unionStr a b) φ) {c : Cell} (hc : g.Has c) :
    sumOver g (PyStr.replaceX a).reverse (fun d => φ d * g.marg P (unionStr a b) d) c =
      g.marg (fun d => φ d * P d) b c := by
  have : (fun d => φ d * g.marg P (unionStr a b) d) = g.marg (fun d => φ d * P d) (unionStr a b) :=
    funext fun d => mul_marg hφ P d
  rw [this, sumOver_pair _ h hc]

/-- The table of a distribution: `m` is the weight of the conditioning event. -/
def tab (g : Grid) (P m : Cell → ℝ) (a b : PyStr) (c : Cell) : Num :=
  condTable (g.marg P (unionStr a b) c) (m c) 1

/-- `m` does not depend on the dependent variables. -/
def Indep (a : PyStr) (m : Cell → ℝ) : Prop :=
  ∀ u ∈ PyStr.replaceX a, ∀ (d : Cell) (j : ℕ), m (setL d u j) = m d

theorem tab_fin {P m : Cell → ℝ} {a b : PyStr} {d : Cell} (h : m d ≠ 0) :
    tab g P m a b d = .fin (g.marg P (unionStr a b) d / m d) := by
  simp [tab, condTable, h]

theorem tab_nan {P m : Cell → ℝ} {a b : PyStr} {d : Cell} (h : m d = 0) :
    tab g P m a b d = .nan := by
  simp [tab, condTable, h]

/-- Result of an expectation with conditioning weight `m`. -/
def expectM (g : Grid) (P m φ : Cell → ℝ) (b : PyStr) (c : Cell) : Num :=
  if m c = 0 then .nan else .fin (g.marg (fun d => φ d * P d) b c / m c)

variable {P m φ φ' : Cell → ℝ} {ψ ψ' : Cell → Num}

/-- Moving along a dependent axis does not change the conditioners. -/
theorem coords_dep {a b : PyStr} (h : ValidPair a b) {c : Cell} (_ : g.Has c) {u : Char}
    (hu : u ∈ PyStr.replaceX a) (j : ℕ) : coords b (setL c u j) = coords b c := by
  obtain ⟨h1, h2, h3, h4, -⟩ := validPair_facts a b h
  exact coords_setL h4 (h2 u (by simp [hu])) (fun e => (List.nodup_append.1 h1).2.2 u hu u e rfl) c j

theorem sum1D_table (hg : g.Proper) {q : Char} {b : PyStr} (hq : q ∈ ['t','v','z'])
    (h : ValidPair [q] b) (hm : Indep [q] m) (hφ : Respects (unionStr [q] b) φ) {c : Cell}
    (hψ : ∀ d, g.Has d → coords b d = coords b c → m d ≠ 0 → ψ d = .fin (φ d)) (hc : g.Has c) :
    sum1D g q ψ (tab g P m [q] b) c = expectM g P m φ b c := by
  have hr : PyStr.replaceX [q] = [q] := by fin_cases hq <;> rfl
  have hax : AxisChar q := by unfold AxisChar; fin_cases hq <;> decide
  have hmq : ∀ d j, m (setL d q j) = m d := fun d j => hm q (by simp [hr]) d j
  unfold expectM sum1D
  by_cases h0 : m c = 0
  · rw [if_pos h0]
    exact sum_nan hg q fun j => by rw [tab_nan (by rw [hmq, h0])]; simp
  · rw [if_neg h0, ← weighted_pair P h hφ hc, hr]
    simp only [List.reverse_singleton, sumOver]
    have : ∀ j : Fin (sizeL g q), ψ (setL c q j) * tab g P m [q] b (setL c q j) =
        .fin (φ (setL c q j) * g.marg P (unionStr [q] b) (setL c q j) / m c) := by
      intro j
      rw [hψ _ (has_setL hc hax j.2) (coords_dep h hc (by simp [hr]) j) (by rw [hmq]; exact h0), tab_fin (by rw [hmq]; exact h0), hmq]
      simp [mul_div_assoc]
    rw [Finset.sum_congr rfl fun j _ => this j, Num.fin_sum]
    simp only [div_eq_mul_inv, Finset.sum_mul]

theorem axis_x : AxisChar 'x' := by unfold AxisChar; decide
theorem axis_y : AxisChar 'y' := by unfold AxisChar; decide

theorem sum2D_table (hg : g.Proper) {q q' : Char} {b : PyStr} (hq : (q, q') ∈ [('x','y'),('y','x')])
    (h : ValidPair ['x'] b) (hm : Indep ['x'] m) (hφ : Respects (unionStr ['x'] b) φ)
    (hφ' : ∀ d k, φ (setL d q' k) = φ d) {c : Cell}
    (hψ : ∀ d, g.Has d → coords b d = coords b c → m d ≠ 0 → ψ d = .fin (φ d)) (hc : g.Has c) :
    sum2D g q q' ψ (tab g P m ['x'] b) c = expectM g P m φ b c := by
  have hr : PyStr.replaceX ['x'] = ['x','y'] := rfl
  have hax : AxisChar q ∧ AxisChar q' ∧ q ≠ q' ∧ q ∈ ['x','y'] ∧ q' ∈ ['x','y'] := by
    fin_cases hq
    · exact ⟨axis_x, axis_y, by decide⟩
    · exact ⟨axis_y, axis_x, by decide⟩
  obtain ⟨hx, hy, hne, hqm, hqm'⟩ := hax
  have hm1 : ∀ d j, m (setL d q j) = m d := fun d j => hm q (by rw [hr]; exact hqm) d j
  have hm2 : ∀ d j, m (setL d q' j) = m d := fun d j => hm q' (by rw [hr]; exact hqm') d j
  unfold expectM sum2D
  by_cases h0 : m c = 0
  · rw [if_pos h0]
    refine sum_nan hg q fun j => ?_
    rw [sum_nan hg q' fun k => tab_nan (by rw [hm2, hm1, h0])]; simp
  · rw [if_neg h0, ← weighted_pair P h hφ hc, hr]
    have hp : (['x','y'] : List Char).reverse.Perm [q', q] := by fin_cases hq <;> decide
    rw [sumOver_perm g hp (by decide) (by unfold AxisChar; decide)]
    simp only [sumOver]
    have : ∀ j : Fin (sizeL g q), ψ (setL c q j) *
        ∑ k : Fin (sizeL g q'), tab g P m ['x'] b (setL (setL c q j) q' k) =
        .fin ((∑ k : Fin (sizeL g q'), φ (setL (setL c q j) q' k) *
          g.marg P (unionStr ['x'] b) (setL (setL c q j) q' k)) / m c) := by
      intro j
      rw [hψ _ (has_setL hc hx j.2) (coords_dep h hc (by rw [hr]; exact hqm) j) (by rw [hm1]; exact h0),
        Finset.sum_congr rfl fun (k : Fin (sizeL g q')) _ => (tab_fin (by rw [hm2, hm1]; exact h0) :
          tab g P m ['x'] b (setL (setL c q j) q' k) = _), Num.fin_sum, Num.fin_mul]
      congr 1
      simp only [hm1, hm2, hφ', Finset.mul_sum, div_eq_mul_inv, Finset.sum_mul, mul_assoc]
    rw [Finset.sum_congr rfl fun j _ => this j, Num.fin_sum]
    simp only [div_eq_mul_inv, Finset.sum_mul]

/-- Covariance sums, no position among the dependent variables. -/
theorem sumCov_table (hg : g.Proper) {q q' : Char} {b : PyStr} (hq : q ∈ ['t','v','z'])
    (hq' : q' ∈ ['t','v','z']) (hne : q ≠ q') (h : ValidPair [q, q'] b) (hm : Indep [q, q'] m)
    (hφ : Respects (unionStr [q, q'] b) φ) (hφ' : Respects (unionStr [q, q'] b) φ') {c : Cell}
    (hψ : ∀ d, g.Has d → coords b d = coords b c → m d ≠ 0 → ψ d = .fin (φ d))
    (hψ' : ∀ d, g.Has d → coords b d = coords b c → m d ≠ 0 → ψ' d = .fin (φ' d)) (hc : g.Has c) :
    sumCov g q q' (tab g P m [q, q'] b) ψ ψ' c = expectM g P m (fun d => φ d * φ' d) b c := by
  have hr : PyStr.replaceX [q, q'] = [q, q'] := by fin_cases hq <;> fin_cases hq' <;> rfl
  have hx : AxisChar q := by unfold AxisChar; fin_cases hq <;> decide
  have hy : AxisChar q' := by unfold AxisChar; fin_cases hq' <;> decide
  have hm1 : ∀ d j, m (setL d q j) = m d := fun d j => hm q (by simp [hr]) d j
  have hm2 : ∀ d j, m (setL d q' j) = m d := fun d j => hm q' (by simp [hr]) d j
  unfold expectM sumCov
  by_cases h0 : m c = 0
  · rw [if_pos h0]
    refine sum_nan hg q fun j => sum_nan hg q' fun k => ?_
    rw [tab_nan (by rw [hm2, hm1, h0])]; simp
  · have hφφ : Respects (unionStr [q, q'] b) (fun d => φ d * φ' d) := fun d d' e => by
      simp only [hφ d d' e, hφ' d d' e]
    rw [if_neg h0, ← weighted_pair P h hφφ hc, hr]
    simp only [List.reverse_cons, List.reverse_nil, List.nil_append, List.cons_append, sumOver]
    have : ∀ (j : Fin (sizeL g q)) (k : Fin (sizeL g q')),
        tab g P m [q, q'] b (setL (setL c q j) q' k) * ψ (setL (setL c q j) q' k) *
          ψ' (setL (setL c q j) q' k) =
        .fin ((φ (setL (setL c q j) q' k) * φ' (setL (setL c q j) q' k)) *
          g.marg P (unionStr [q, q'] b) (setL (setL c q j) q' k) / m c) := by
      intro j k
      have hh := has_setL (has_setL hc hx j.2) hy k.2
      have hmm : m (setL (setL c q j) q' k) ≠ 0 := by rw [hm2, hm1]; exact h0
      have he : coords b (setL (setL c q j) q' k) = coords b c :=
        (coords_dep h (has_setL hc hx j.2) (by simp [hr]) k).trans (coords_dep h hc (by simp [hr]) j)
      rw [tab_fin hmm, hψ _ hh he hmm, hψ' _ hh he hmm, Num.fin_mul, Num.fin_mul, hm2, hm1]
      congr 1; ring
    rw [Finset.sum_congr rfl fun j _ => Finset.sum_congr rfl fun k _ => this j k]
    simp only [Num.fin_sum, div_eq_mul_inv, Finset.sum_mul]

/-- Covariance sums with a position: the table is first summed over the other position axis `p'`. -/
theorem sumCovX_table (hg : g.Proper) {p p' n : Char} {a b : PyStr} (hp : (p, p') ∈ [('x','y'),('y','x')])
    (hn : n ∈ ['t','v','z']) {q0 q1 : Char} (hq : (q0 = p ∧ q1 = n) ∨ (q0 = n ∧ q1 = p))
    (hr : (PyStr.replaceX a).reverse.Perm [p', q1, q0])
    (h : ValidPair a b) (hm : Indep a m)
    (hφ : Respects (unionStr a b) φ) (hφ' : Respects (unionStr a b) φ')
    (hi : ∀ d k, φ (setL d p' k) = φ d) (hi' : ∀ d k, φ' (setL d p' k) = φ' d) {c : Cell}
    (hψ : ∀ d, g.Has d → coords b d = coords b c → m d ≠ 0 → ψ d = .fin (φ d))
    (hψ' : ∀ d, g.Has d → coords b d = coords b c → m d ≠ 0 → ψ' d = .fin (φ' d)) (hc : g.Has c) :
    sumCov g q0 q1 (fun d => ∑ k : Fin (sizeL g p'), tab g P m a b (setL d p' k)) ψ ψ' c =
      expectM g P m (fun d => φ d * φ' d) b c := by
  have hxn : AxisChar n := by unfold AxisChar; fin_cases hn <;> decide
  have hxp : AxisChar p ∧ AxisChar p' := by
    fin_cases hp
    · exact ⟨axis_x, axis_y⟩
    · exact ⟨axis_y, axis_x⟩
  have hx : AxisChar q0 := by rcases hq with ⟨rfl, -⟩ | ⟨rfl, -⟩; exacts [hxp.1, hxn]
  have hy : AxisChar q1 := by rcases hq with ⟨-, rfl⟩ | ⟨-, rfl⟩; exacts [hxn, hxp.1]
  have hmem : ∀ u ∈ [p', q1, q0], u ∈ PyStr.replaceX a := fun u hu => by
    have := hr.mem_iff.2 hu; simpa using this
  have hm0 : ∀ d j, m (setL d q0 j) = m d := fun d j => hm q0 (hmem _ (by simp)) d j
  have hm1 : ∀ d j, m (setL d q1 j) = m d := fun d j => hm q1 (hmem _ (by simp)) d j
  have hm2 : ∀ d j, m (setL d p' j) = m d := fun d j => hm p' (hmem _ (by simp)) d j
  obtain ⟨hnd, hax, -⟩ := validPair_facts a b h
  unfold expectM sumCov
  by_cases h0 : m c = 0
  · rw [if_pos h0]
    refine sum_nan hg q0 fun j => sum_nan hg q1 fun k => ?_
    beta_reduce
    rw [sum_nan hg p' fun l => tab_nan (by rw [hm2, hm1, hm0, h0])]; simp
  · have hφφ : Respects (unionStr a b) (fun d => φ d * φ' d) := fun d d' e => by
      simp only [hφ d d' e, hφ' d d' e]
    rw [if_neg h0, ← weighted_pair P h hφφ hc,
      sumOver_perm g hr (List.nodup_reverse.2 (List.nodup_append.1 hnd).1)
        (fun ch hch => hax ch (by simp at hch; simp [hch]))]
    simp only [sumOver]
    have : ∀ (j : Fin (sizeL g q0)) (k : Fin (sizeL g q1)),
        (∑ l : Fin (sizeL g p'), tab g P m a b (setL (setL (setL c q0 j) q1 k) p' l)) *
          ψ (setL (setL c q0 j) q1 k) * ψ' (setL (setL c q0 j) q1 k) =
        .fin ((∑ l : Fin (sizeL g p'), φ (setL (setL (setL c q0 j) q1 k) p' l) *
          φ' (setL (setL (setL c q0 j) q1 k) p' l) *
          g.marg P (unionStr a b) (setL (setL (setL c q0 j) q1 k) p' l)) / m c) := by
      intro j k
      have hh := has_setL (has_setL hc hx j.2) hy k.2
      have hmm : m (setL (setL c q0 j) q1 k) ≠ 0 := by rw [hm1, hm0]; exact h0
      have he : coords b (setL (setL c q0 j) q1 k) = coords b c :=
        (coords_dep h (has_setL hc hx j.2) (hmem _ (by simp)) k).trans (coords_dep h hc (hmem _ (by simp)) j)
      rw [Finset.sum_congr rfl fun (l : Fin (sizeL g p')) _ => (tab_fin (by rw [hm2]; exact hmm) :
          tab g P m a b (setL (setL (setL c q0 j) q1 k) p' l) = _), Num.fin_sum,
        hψ _ hh he hmm, hψ' _ hh he hmm, Num.fin_mul, Num.fin_mul]
      congr 1
      simp only [hi, hi', hm2, hm1, hm0, div_eq_mul_inv, Finset.sum_mul]
      exact Finset.sum_congr rfl fun l _ => by ring
    rw [Finset.sum_congr rfl fun j _ => Finset.sum_congr rfl fun k _ => this j k]
    simp only [Num.fin_sum, div_eq_mul_inv, Finset.sum_mul]

end PKM
