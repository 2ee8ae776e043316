import Verif.MixArr
import Verif.StdMoments

/-! Lemmas: means and central moments of a mixture from those of its members. -/

open scoped Classical

noncomputable section

namespace PKM
open Np Component

section
variable {m : Mix} {g : Grid} {n : ℕ} {ω : ℕ → ℝ} {lw : Bool} {a b : PyStr}

theorem weightArr_shape (hw : m.weights.length = n) : (Mix.weightArr m).shape = [n] := by
  simp [Mix.weightArr, vec, hw]

theorem weightArr_get (hω : ∀ i < n, m.weights.getD i 0 = ω i) : ∀ i < n, (Mix.weightArr m).get [i] = .fin (ω i) := by
  intro i hi
  simp only [Mix.weightArr, vec, List.headD_cons, hω i hi]

/-- Members' arrays for one variable. -/
theorem gather_mom {f : Child → Py (Arr Num)} {F : ℕ → Char → Cell → Num} (hn : 0 < n)
    (hc : m.children.length = n)
    (h : ∀ (i : ℕ) (hi : i < m.children.length), ∃ r, f m.children[i] = .ok r ∧ IsMom g a b r (F i)) :
    ∃ A H, Mix.gather m f = .ok A ∧ Stk n (compShape a ++ g.shapeOf b) A H ∧
      ∀ i < n, ∀ q ∈ PyStr.replaceX a, ∀ c, g.Has c → H i (compIdx q ++ coords b c) = F i q c := by
  choose R hR1 hR2 using h
  let R' : ℕ → Arr Num := fun i => if hi : i < m.children.length then R i hi else ⟨[], fun _ => .nan⟩
  obtain ⟨A, hA, hA'⟩ := Mix.gather_is (m := m) (f := f) (R := R') (s := compShape a ++ g.shapeOf b)
    (by rw [hc]; exact hn) (fun i hi => by
      simp only [R', dif_pos hi]
      exact ⟨hR1 i hi, (hR2 i hi).1⟩)
  rw [hc] at hA'
  refine ⟨A, _, hA, hA', fun i hi q hq c hcell => ?_⟩
  have hi' : i < m.children.length := by rw [hc]; exact hi
  simp only [R', dif_pos hi']
  exact (hR2 i hi').2 q hq c hcell

/-- Members' marginal distributions. -/
theorem gather_marg {f : Child → Py (Arr Num)} {F : ℕ → Cell → Num} (hn : 0 < n)
    (hc : m.children.length = n)
    (h : ∀ (i : ℕ) (hi : i < m.children.length), Gives (f m.children[i]) g b (F i)) :
    ∃ A H, Mix.gather m f = .ok A ∧ Stk n (g.shapeOf b) A H ∧
      ∀ i < n, ∀ c, g.Has c → H i (coords b c) = F i c := by
  choose R hR1 hR2 using h
  let R' : ℕ → Arr Num := fun i => if hi : i < m.children.length then R i hi else ⟨[], fun _ => .nan⟩
  obtain ⟨A, hA, hA'⟩ := Mix.gather_is (m := m) (f := f) (R := R') (s := g.shapeOf b)
    (by rw [hc]; exact hn) (fun i hi => by
      simp only [R', dif_pos hi]
      exact ⟨hR1 i hi, (hR2 i hi).1⟩)
  rw [hc] at hA'
  refine ⟨A, _, hA, hA', fun i hi c hcell => ?_⟩
  have hi' : i < m.children.length := by rw [hc]; exact hi
  simp only [R', dif_pos hi']
  exact (hR2 i hi').2 c hcell

theorem compShape_tvz {q : Char} (hq : q ∈ ['t','v','z']) : compShape [q] = [] ∧ PyStr.replaceX [q] = [q] ∧
    compIdx q = [] ∧ [q] ≠ ['x'] := by
  fin_cases hq <;> decide

/-- Conditional means. -/
theorem Mix.mean_cond_raw {F : ℕ → Char → Cell → Num} {p : ℕ → Cell → Num} {d : Cell → Num}
    {X : Arr Num} {x : ℕ → Num} (hab : (a, b) ∈ conditionals) (h1 : a.length = 1)
    (hn : 0 < n) (hc : m.children.length = n) (hw : m.weights.length = n)
    (hω : ∀ i < n, m.weights.getD i 0 = ω i)
    (hmean : ∀ (i : ℕ) (hi : i < m.children.length), ∃ r, m.children[i].getMean (condStr a b) lw = .ok r ∧
      IsMom g a b r (F i))
    (hp : ∀ (i : ℕ) (hi : i < m.children.length), Gives (m.children[i].getP b true lw) g b (p i))
    (hX : Mix.reweight m lw = .ok X) (hXs : X.shape = [n]) (hx : ∀ i < n, X.get [i] = x i)
    (hd : Gives (Mix.getP m b true true lw) g b d) :
    ∃ r, Mix.getMean m (condStr a b) lw = .ok r ∧ IsMom g a b r (fun q c =>
      (∑ i : Fin n, p i c * .fin (ω i) * x i * F i q c) / d c) := by
  obtain ⟨-, -, -, h4, h5, -⟩ := conditionals_letters _ hab
  have hV : ValidPair a b := .inr hab
  obtain ⟨M, H, hM, hMs, hMv⟩ := gather_mom (f := fun c => c.getMean (condStr a b) lw) hn hc hmean
  obtain ⟨W, K, hW, hWs, hWv⟩ := gather_marg (f := fun c => c.getP b true lw) hn hc hp
  obtain ⟨D, hD, hDs, hDv⟩ := hd
  obtain ⟨W1, hW1, hW1s⟩ := hWs.scaleR (· * ·) (weightArr_shape hw) (weightArr_get hω)
  have hb : b ≠ [] := by rintro rfl; exact absurd hab (by have : ∀ p ∈ conditionals, p.2 ≠ [] := (by decide +kernel); exact fun h => this _ h rfl)
  have hds : distStr a b = condStr a b := by simp [distStr, hb]
  have hh : headVar (condStr a b) = a := hds ▸ headVar_distStr h4 h5
  have hcv := condVars_condStr (a := a) (b := b) h4 h5
  have hu := hasUnderscore_condStr a b
  rcases single_cases hV h1 with ⟨q, hq, rfl⟩ | rfl
  · obtain ⟨e1, e2, e3, e4⟩ := compShape_tvz hq
    rw [e1, List.nil_append] at hMs
    obtain ⟨A, hA, hAs⟩ := hW1s.scaleR (· * ·) hXs hx
    obtain ⟨B, hB, hBs⟩ := hAs.bopT_same (· * ·) hMs
    obtain ⟨S, hS, hSs, hSv⟩ := hBs.sumLast
    obtain ⟨r, hr, hrs, hrv⟩ := bop_same (· / ·) (A := S) (B := D) (hSs.trans hDs.symm)
    refine ⟨r, ?_, ?_, ?_⟩
    · simp only [Mix.getMean, hM, Py.ok_bind, hX, hu, if_true, hh, hcv, hW, mul, hW1, T_T, e4, if_false, hD, hA, hB, hS, div, hr]
    · rw [hrs, hSs, e1]; rfl
    · intro q' hq' c hcell
      obtain rfl : q' = q := by simpa [e2] using hq'
      have hbox := inBox_coords (g := g) hcell b
      rw [e3, List.nil_append, hrv _ (hSs ▸ hbox), hSv _ hbox, hDv c hcell]
      congr 1
      refine Finset.sum_congr rfl fun (i : Fin n) _ => ?_
      have := hMv i i.2 q' hq' c hcell
      rw [e3, List.nil_append] at this
      simp only [hWv i i.2 c hcell, this]
  · have e1 : compShape ['x'] = [2] := by decide
    rw [e1] at hMs
    obtain ⟨W2, hW2, hW2s⟩ := hW1s.newaxis
    obtain ⟨A, hA, hAs⟩ := hW2s.scaleR (· * ·) hXs hx
    obtain ⟨B, hB, hBs⟩ := hAs.bopT_one (· * ·) hMs
    obtain ⟨S, hS, hSs, hSv⟩ := hBs.sumLast
    obtain ⟨r, hr, hrs, hrv⟩ := bop_lead (· / ·) (A := S) (B := D) (n := 2) (by rw [hSs, hDs])
    refine ⟨r, ?_, ?_, ?_⟩
    · simp only [Mix.getMean, hM, Py.ok_bind, hX, hu, if_true, hh, hcv, hW, mul, hW1, T_T, hW2, hD, hA, hB, hS, div, hr]
    · rw [hrs, hSs, e1]; rfl
    · intro q hq c hcell
      have hbox := inBox_coords (g := g) hcell b
      obtain ⟨k, hk, hk2⟩ : ∃ k, compIdx q = [k] ∧ k < 2 := by
        have : q = 'x' ∨ q = 'y' := by simpa [PyStr.replaceX] using hq
        rcases this with rfl | rfl
        · exact ⟨0, by decide, by norm_num⟩
        · exact ⟨1, by decide, by norm_num⟩
      have hMv' := fun i hi => hMv i hi q hq c hcell
      rw [hk] at hMv' ⊢
      rw [List.singleton_append, hrv _ _ hk2 (hDs ▸ hbox), hSv (k :: coords b c) ⟨hk2, hbox⟩, hDv c hcell]
      congr 1
      refine Finset.sum_congr rfl fun (i : Fin n) _ => ?_
      have := hMv' i i.2
      rw [List.singleton_append] at this
      simp only [List.tail_cons, hWv i i.2 c hcell, this]

/-- Unconditional means. -/
theorem Mix.mean_marg_raw {F : ℕ → Char → Cell → Num} {X : Arr Num} {x : ℕ → Num}
    (ha : a ∈ marginals) (h1 : a.length = 1)
    (hn : 0 < n) (hc : m.children.length = n) (hw : m.weights.length = n)
    (hω : ∀ i < n, m.weights.getD i 0 = ω i)
    (hmean : ∀ (i : ℕ) (hi : i < m.children.length), ∃ r, m.children[i].getMean a lw = .ok r ∧
      IsMom g a [] r (F i))
    (hX : Mix.reweight m lw = .ok X) (hXs : X.shape = [n]) (hx : ∀ i < n, X.get [i] = x i) :
    ∃ r, Mix.getMean m a lw = .ok r ∧ IsMom g a [] r (fun q c =>
      ∑ i : Fin n, .fin (ω i) * x i * F i q c) := by
  have hu := marginal_noUnderscore ha
  obtain ⟨M, H, hM, hMs, hMv⟩ := gather_mom (f := fun c => c.getMean a lw) hn hc hmean
  have hws := weightArr_shape (m := m) hw
  have hwv := weightArr_get (m := m) hω
  obtain ⟨A, hA, hAs, hAv⟩ := bop_same (· * ·) (A := Mix.weightArr m) (B := X) (hws.trans hXs.symm)
  obtain ⟨B, hB, hBs⟩ := hMs.scaleL (· * ·) (hAs.trans hws) (x := fun i => .fin (ω i) * x i)
    (fun i hi => by rw [hAv [i] (by rw [hws]; exact ⟨hi, trivial⟩), hwv i hi, hx i hi])
  obtain ⟨S, hS, hSs, hSv⟩ := hBs.sumLast
  refine ⟨S, ?_, hSs, fun q hq c hcell => ?_⟩
  · simp only [Mix.getMean, hM, Py.ok_bind, hX, hu, if_false, mul, hA, hB, hS, T_T]
  · rw [hSv _ (inBox_comp (singles a ha h1) hq hcell)]
    exact Finset.sum_congr rfl fun (i : Fin n) _ => by rw [hMv i i.2 q hq c hcell]

/-- Conditional central moments. -/
theorem Mix.central_cond_raw {F : ℕ → Char → Cell → Num} {p : ℕ → Cell → Num} {j : ℕ} {M W : Arr Num}
    (hab : (a, b) ∈ conditionals) (h1 : a.length = 1) (hn : 0 < n) (hc : m.children.length = n)
    (hM : Mix.getMean m (condStr a b) lw = .ok M)
    (hncm : ∀ (i : ℕ) (hi : i < m.children.length), ∃ r,
      m.children[i].getNcm (condStr a b) j M lw = .ok r ∧ IsMom g a b r (F i))
    (hW : Mix.getP m b false true lw = .ok W) (hWl : Lead g n b W p) :
    ∃ r, Mix.getCentralMoment m (condStr a b) j lw = .ok r ∧ IsMom g a b r (fun q c =>
      (∑ i : Fin n, p i c * F i q c) / ∑ i : Fin n, p i c) := by
  obtain ⟨-, -, -, h4, h5, -⟩ := conditionals_letters _ hab
  have hV : ValidPair a b := .inr hab
  obtain ⟨N, H, hN, hNs, hNv⟩ := gather_mom (f := fun c => c.getNcm (condStr a b) j M lw) hn hc hncm
  have hb : b ≠ [] := by rintro rfl; exact absurd hab (by have : ∀ p ∈ conditionals, p.2 ≠ [] := (by decide +kernel); exact fun h => this _ h rfl)
  have hds : distStr a b = condStr a b := by simp [distStr, hb]
  have hh : headVar (condStr a b) = a := hds ▸ headVar_distStr h4 h5
  have hcv := condVars_condStr (a := a) (b := b) h4 h5
  have hu := hasUnderscore_condStr a b
  have hWs : Stk n (g.shapeOf b) W (fun i j => W.get (i :: j)) := ⟨hWl.1, fun _ _ _ _ => rfl⟩
  rcases single_cases hV h1 with ⟨q, hq, rfl⟩ | rfl
  · obtain ⟨e1, e2, e3, e4⟩ := compShape_tvz hq
    rw [e1, List.nil_append] at hNs
    obtain ⟨A, hA, hAs⟩ := hWs.bop_same (· * ·) hNs
    obtain ⟨S, hS, hSs, hSv⟩ := hAs.sumFirst
    obtain ⟨D, hD, hDs, hDv⟩ := hWs.sumFirst
    obtain ⟨r, hr, hrs, hrv⟩ := bop_same (· / ·) (A := S) (B := D) (hSs.trans hDs.symm)
    refine ⟨r, ?_, ?_, ?_⟩
    · simp only [Mix.getCentralMoment, hM, Py.ok_bind, hN, hu, if_true, hh, hcv, hW, mul, e4, if_false, hA, hS, hD, div, hr]
    · rw [hrs, hSs, e1]; rfl
    · intro q' hq' c hcell
      obtain rfl : q' = q := by simpa [e2] using hq'
      have hbox := inBox_coords (g := g) hcell b
      rw [e3, List.nil_append, hrv _ (hSs ▸ hbox), hSv _ hbox, hDv _ hbox]
      congr 1
      · refine Finset.sum_congr rfl fun (i : Fin n) _ => ?_
        have := hNv i i.2 q' hq' c hcell
        rw [e3, List.nil_append] at this
        simp only [this, hWl.2 i i.2 c hcell]
      · exact Finset.sum_congr rfl fun (i : Fin n) _ => hWl.2 i i.2 c hcell
  · have e1 : compShape ['x'] = [2] := by decide
    rw [e1] at hNs
    obtain ⟨W2, hW2, hW2s⟩ := hWs.newaxis
    obtain ⟨A, hA, hAs⟩ := hW2s.bop_one (· * ·) hNs
    obtain ⟨S, hS, hSs, hSv⟩ := hAs.sumFirst
    obtain ⟨D, hD, hDs, hDv⟩ := hW2s.sumFirst
    obtain ⟨r, hr, hrs, hrv⟩ := bopE (· / ·) (A := S) (B := D) (r := 2 :: g.shapeOf b) (by rw [hSs, hDs]; rfl)
      (by rw [hSs, hDs]; simp [bshapeR, bshapeR_self])
    refine ⟨r, ?_, ?_, ?_⟩
    · simp only [Mix.getCentralMoment, hM, Py.ok_bind, hN, hu, if_true, hh, hcv, hW, mul, hW2, hA, hS, hD, div, hr]
    · rw [hrs, e1]; rfl
    · intro q hq c hcell
      have hbox := inBox_coords (g := g) hcell b
      obtain ⟨k, hk, hk2⟩ : ∃ k, compIdx q = [k] ∧ k < 2 := by
        have : q = 'x' ∨ q = 'y' := by simpa [PyStr.replaceX] using hq
        rcases this with rfl | rfl
        · exact ⟨0, by decide, by norm_num⟩
        · exact ⟨1, by decide, by norm_num⟩
      have hNv' := fun i hi => hNv i hi q hq c hcell
      rw [hk] at hNv' ⊢
      have hkb : InBox ([2] ++ g.shapeOf b) (k :: coords b c) := ⟨hk2, hbox⟩
      have z1 : List.zipWith bidx S.shape (k :: coords b c) = k :: coords b c := by
        rw [hSs]; exact zipWith_box hkb
      have z2 : List.zipWith bidx D.shape (k :: coords b c) = 0 :: coords b c := by
        rw [hDs]; simp [zipWith_box hbox]
      rw [List.singleton_append, hrv _ (by rw [hSs, inBox_length hkb]; rfl), z1, z2, hSv _ hkb,
        hDv (0 :: coords b c) ⟨by norm_num, hbox⟩]
      congr 1
      · refine Finset.sum_congr rfl fun (i : Fin n) _ => ?_
        have := hNv' i i.2
        rw [List.singleton_append] at this
        simp only [List.tail_cons, this, hWl.2 i i.2 c hcell]
      · exact Finset.sum_congr rfl fun (i : Fin n) _ => hWl.2 i i.2 c hcell

/-- `np.moveaxis(a, 0, -1)` on one or two axes. -/
theorem moveaxis_first {s : List ℕ} {A : Arr Num} {H : ℕ → List ℕ → Num} (hs : s = [] ∨ s = [2]) (h : Stk n s A H) :
    ∃ R, Np.moveaxis [0] [-1] A = .ok R ∧ R.shape = s ++ [n] ∧ ∀ i < n, ∀ j, InBox s j → R.get (j ++ [i]) = H i j := by
  obtain ⟨sh, get⟩ := A
  obtain ⟨h1, h2⟩ := h
  simp only at h1 h2
  subst h1
  rcases hs with rfl | rfl
  · have : moveOrder 1 [0] [-1] = .ok [0] := by decide +kernel
    refine ⟨transpose [0] ⟨[n], get⟩, by simp [Np.moveaxis, this], by simp [transpose], fun i hi j hj => ?_⟩
    cases j with
    | nil => simpa [transpose, List.range_succ] using h2 i hi [] trivial
    | cons _ _ => exact hj.elim
  · have : moveOrder 2 [0] [-1] = .ok [1, 0] := by decide +kernel
    refine ⟨transpose [1, 0] ⟨[n, 2], get⟩, by simp [Np.moveaxis, this], by simp [transpose], fun i hi j hj => ?_⟩
    rcases j with _ | ⟨k, _ | _⟩
    · exact hj.elim
    · simpa [transpose, List.range_succ, List.idxOf_cons] using h2 i hi [k] hj
    · exact hj.2.elim

/-- Weighted sum over the last axis. -/
theorem sumLast_weighted {s : List ℕ} {A X : Arr Num} {H : ℕ → List ℕ → Num} {x : ℕ → Num}
    (hA : A.shape = s ++ [n]) (hv : ∀ i < n, ∀ j, InBox s j → A.get (j ++ [i]) = H i j)
    (hX : X.shape = [n]) (hx : ∀ i < n, X.get [i] = x i) :
    ∃ B R, mul X A = .ok B ∧ Np.sum [-1] B = .ok R ∧ R.shape = s ∧
      ∀ j, InBox s j → R.get j = ∑ i : Fin n, x i * H i j := by
  have hT : Stk n s.reverse (T A) (fun i j => A.get (j.reverse ++ [i])) := by
    refine ⟨by simp [T, hA], fun i hi j hj => by simp [T]⟩
  obtain ⟨R0, h1, h2⟩ := hT.scaleL (· * ·) hX hx
  rw [T_T] at h1
  obtain ⟨S, h3, h4, h5⟩ := h2.sumLast
  refine ⟨T R0, T S, h1, h3, by simp [T, h4], fun j hj => ?_⟩
  show S.get j.reverse = _
  rw [h5 _ (inBox_reverse_iff hj)]
  refine Finset.sum_congr rfl fun (i : Fin n) _ => ?_
  rw [List.reverse_reverse, hv i i.2 j hj]

/-- Unconditional central moments. -/
theorem Mix.central_marg_raw {F : ℕ → Char → Cell → Num} {X : Arr Num} {x : ℕ → Num} {j : ℕ} {M : Arr Num}
    (ha : a ∈ marginals) (h1 : a.length = 1) (hn : 0 < n) (hc : m.children.length = n)
    (hw : m.weights.length = n) (hω : ∀ i < n, m.weights.getD i 0 = ω i)
    (hM : Mix.getMean m a lw = .ok M)
    (hncm : ∀ (i : ℕ) (hi : i < m.children.length), ∃ r,
      m.children[i].getNcm a j M lw = .ok r ∧ IsMom g a [] r (F i))
    (hX : Mix.reweight m lw = .ok X) (hXs : X.shape = [n]) (hx : ∀ i < n, X.get [i] = x i)
    (hx1 : lw = false → ∀ i < n, x i = .fin 1) :
    ∃ r, Mix.getCentralMoment m a j lw = .ok r ∧ IsMom g a [] r (fun q c =>
      ∑ i : Fin n, .fin (ω i) * x i * F i q c) := by
  have hu := marginal_noUnderscore ha
  obtain ⟨N, H, hN, hNs, hNv⟩ := gather_mom (f := fun c => c.getNcm a j M lw) hn hc hncm
  have e0 : g.shapeOf [] = [] := rfl
  rw [e0, List.append_nil] at hNs
  have hsh : compShape a = [] ∨ compShape a = [2] := by
    have := singles a ha h1
    fin_cases this <;> decide
  obtain ⟨N', hN', hN's, hN'v⟩ := moveaxis_first hsh hNs
  have hws := weightArr_shape (m := m) hw
  have hwv := weightArr_get (m := m) hω
  cases lw with
  | true =>
    obtain ⟨A, hA, hAs, hAv⟩ := bop_same (· * ·) (A := Mix.weightArr m) (B := X) (hws.trans hXs.symm)
    obtain ⟨B, S, hB, hS, hSs, hSv⟩ := sumLast_weighted hN's hN'v (hAs.trans hws)
      (x := fun i => .fin (ω i) * x i)
      (fun i hi => by rw [hAv [i] (by rw [hws]; exact ⟨hi, trivial⟩), hwv i hi, hx i hi])
    have hX' : Mix.lightReweightings m = .ok X := hX
    refine ⟨S, ?_, by rw [hSs]; simp [e0], fun q hq c hcell => ?_⟩
    · have hA' : mul (Mix.weightArr m) X = .ok A := hA
      simp only [Mix.getCentralMoment, hM, Py.ok_bind, hN, hu, if_false, hN', if_true, hX', hA', hB, hS]
    · have hbox := inBox_comp (b := []) (singles a ha h1) hq hcell
      rw [e0, List.append_nil] at hbox
      have hcd : compIdx q ++ coords [] c = compIdx q := by simp [coords]
      rw [hcd] at hbox ⊢
      rw [hSv _ hbox]
      refine Finset.sum_congr rfl fun (i : Fin n) _ => ?_
      rw [← hNv i i.2 q hq c hcell, hcd]
  | false =>
    obtain ⟨B, S, hB, hS, hSs, hSv⟩ := sumLast_weighted hN's hN'v hws (x := fun i => .fin (ω i)) hwv
    refine ⟨S, ?_, by rw [hSs]; simp [e0], fun q hq c hcell => ?_⟩
    · simp only [Mix.getCentralMoment, hM, Py.ok_bind, hN, hu, if_false, hN', hB, hS, Bool.false_eq_true]
    · have hbox := inBox_comp (b := []) (singles a ha h1) hq hcell
      rw [e0, List.append_nil] at hbox
      have hcd : compIdx q ++ coords [] c = compIdx q := by simp [coords]
      rw [hcd] at hbox ⊢
      rw [hSv _ hbox]
      refine Finset.sum_congr rfl fun (i : Fin n) _ => ?_
      rw [← hNv i i.2 q hq c hcell, hcd, hx1 rfl i i.2]
      simp

end
end PKM
