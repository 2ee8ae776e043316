import Verif.StdMoments

/-! Lemmas: what the array expressions of `get_l_moment` compute. -/

open scoped Classical

noncomputable section

namespace PKM
open Np Component

variable {g : Grid}

/-- Array with a first axis of length `n` followed by the axes of the conditioners `b`. -/
def Lead (g : Grid) (n : ℕ) (b : PyStr) (A : Arr Num) (f : ℕ → Cell → Num) : Prop :=
  A.shape = n :: g.shapeOf b ∧ ∀ k < n, ∀ c, g.Has c → A.get (k :: coords b c) = f k c

variable {n : ℕ} {b : PyStr} {A B : Arr Num} {f f' : ℕ → Cell → Num}

theorem Lead.cumsum (h : Lead g n b A f) :
    Lead g n b (cumsum0 A) (fun k c => ∑ j ∈ Finset.range (k + 1), f j c) :=
  ⟨h.1, fun k hk c hc => by
    simp only [cumsum0, List.headD_cons, List.tail_cons]
    exact Finset.sum_congr rfl fun j hj => h.2 j (by have := Finset.mem_range.1 hj; omega) c hc⟩

theorem Lead.map (h : Lead g n b A f) (k : Num → Num) : Lead g n b (Np.map k A) (fun i c => k (f i c)) :=
  ⟨h.1, fun i hi c hc => by simp only [Np.map, h.2 i hi c hc]⟩

theorem Lead.concat (h : Lead g n b A f) (z : Num) :
    ∃ r, concat0 (full (1 :: g.shapeOf b) z) A = .ok r ∧
      Lead g (n + 1) b r (fun k c => if k = 0 then z else f (k - 1) c) := by
  refine ⟨⟨(n + 1) :: g.shapeOf b, fun i => if i.headD 0 < 1 then z else A.get ((i.headD 0 - 1) :: i.tail)⟩,
    ?_, ?_⟩
  · simp [concat0, full, h.1, Nat.add_comm]
  · refine ⟨rfl, fun k hk c hc => ?_⟩
    simp only [List.headD_cons, List.tail_cons]
    by_cases h0 : k = 0
    · simp [h0]
    · have hk1 : ¬ k < 1 := by omega
      simp only [hk1, h0, if_false]
      exact h.2 _ (by omega) c hc

theorem Lead.tail (h : Lead g (n + 1) b A f) :
    ∃ r, getitem [.sl 1 none] A = .ok r ∧ Lead g n b r (fun k => f (k + 1)) := by
  refine ⟨⟨n :: g.shapeOf b, fun i => A.get (ixIdx [.sl 1 none] A.shape i)⟩, ?_, ?_⟩
  · simp [getitem, h.1, ixShape, slLen, slStop, slStart]
  · refine ⟨rfl, fun k hk c hc => ?_⟩
    simp only [h.1, ixIdx, slStart]
    rw [← h.2 (k + 1) (by omega) c hc]
    congr 2
    simp; omega

theorem Lead.init (h : Lead g (n + 1) b A f) :
    ∃ r, getitem [.sl 0 (some (-1))] A = .ok r ∧ Lead g n b r f := by
  refine ⟨⟨n :: g.shapeOf b, fun i => A.get (ixIdx [.sl 0 (some (-1))] A.shape i)⟩, ?_, ?_⟩
  · simp [getitem, h.1, ixShape, slLen, slStop, slStart]
  · refine ⟨rfl, fun k hk c hc => ?_⟩
    simp only [h.1, ixIdx, slStart]
    rw [← h.2 k (by omega) c hc]
    congr 2
    simp

theorem Lead.bop (op : Num → Num → Num) (h : Lead g n b A f) (h' : Lead g n b B f') :
    ∃ r, Np.bop op A B = .ok r ∧ Lead g n b r (fun k c => op (f k c) (f' k c)) := by
  obtain ⟨r, h1, h2, h3⟩ := bop_same op (A := A) (B := B) (h.1.trans h'.1.symm)
  refine ⟨r, h1, h2.trans h.1, fun k hk c hc => ?_⟩
  rw [h3 _ (by rw [h.1]; exact ⟨hk, inBox_coords hc b⟩), h.2 k hk c hc, h'.2 k hk c hc]

theorem Lead.sum (h : Lead g n b A f) :
    ∃ r, Np.sum [0] A = .ok r ∧ IsArr g b r (fun c => ∑ k : Fin n, f k c) := by
  have hn : normAxis A.shape.length 0 = .ok 0 := by
    have := normAxis_nonneg (n := A.shape.length) (k := 0) (by rw [h.1]; simp)
    simpa using this
  refine ⟨sumAxis1 0 A, ?_, ?_, fun c hc => ?_⟩
  · simp [Np.sum, hn]
  · simp [sumAxis1, h.1]
  · simp only [sumAxis1]
    have hs : A.shape.getD 0 0 = n := by simp [h.1]
    rw [hs]
    exact Finset.sum_congr rfl fun k _ => by simpa using h.2 k k.2 c hc

/-- `(x * a.T).T` multiplies along the first axis. -/
theorem Lead.scale {X : Arr Num} {e : ℕ → ℝ} (hX : Is1 X n e) (h : Lead g n b A f) :
    ∃ r, Np.mul X (T A) = .ok r ∧ Lead g n b (T r) (fun k c => .fin (e k) * f k c) := by
  refine ⟨⟨(n :: g.shapeOf b).reverse, fun i => X.get (bproj X.shape i) * (T A).get (bproj (T A).shape i)⟩,
    ?_, ?_, fun k hk c hc => ?_⟩
  · have hs : bshapeR X.shape.reverse (T A).shape.reverse = some (n :: g.shapeOf b) := by
      simp only [T, List.reverse_reverse, hX.shape, h.1]
      simp [bshapeR]
    simp only [Np.mul, Np.bop, hs]
  · simp [T]
  · have hin : InBox (n :: g.shapeOf b) (k :: coords b c) := ⟨hk, inBox_coords hc b⟩
    have e1 : bproj X.shape (k :: coords b c).reverse = [k] := by
      simp only [bproj, hX.shape, List.reverse_reverse]
      simp [bidx_lt hk]
    have e2 : bproj (T A).shape (k :: coords b c).reverse = (k :: coords b c).reverse := by
      apply bproj_self
      simp only [T, h.1]
      exact inBox_reverse_iff hin
    have e3 : (T A).get (k :: coords b c).reverse = f k c := by
      simp only [T, List.reverse_reverse]; exact h.2 k hk c hc
    simp only [T] at e3 ⊢
    show X.get (bproj X.shape (k :: coords b c).reverse) *
      A.get (bproj (T A).shape (k :: coords b c).reverse).reverse = _
    rw [e1, e2, hX.get k hk, e3]

theorem Lead.congr (h : Lead g n b A f) (hf : ∀ k < n, ∀ c, g.Has c → f k c = f' k c) : Lead g n b A f' :=
  ⟨h.1, fun k hk c hc => (h.2 k hk c hc).trans (hf k hk c hc)⟩

theorem legendre_eq : ∀ n x, Obj.legendre n x = legendreP n x
  | 0, _ => rfl
  | 1, _ => rfl
  | n + 2, x => by simp only [Obj.legendre, legendreP, legendre_eq (n + 1), legendre_eq n]

theorem binIdx_eq (q : Char) (c : Cell) : binIdx q c = coordL c q := rfl

theorem marg_union_setL {q : Char} (hq : q ∈ ['t','v','z']) (h : ValidPair [q] b) (P : Cell → ℝ) (c : Cell)
    (k : ℕ) : g.marg P (unionStr [q] b) (setL c q k) =
      g.marg (fun d => if binIdx q d = k then P d else 0) b c := by
  obtain ⟨h1, h2, h3, h4, h5, h6, h7⟩ := validPair_facts [q] b h
  have hr : PyStr.replaceX [q] = [q] := by fin_cases hq <;> rfl
  have hax : AxisChar q := by unfold AxisChar; fin_cases hq <;> decide
  rw [hr] at h1 h2 h6 h7
  have hqb : q ∉ PyStr.replaceX b := by
    simp only [List.singleton_append, List.nodup_cons] at h1; exact h1.1
  have key : ∀ d, coords (unionStr [q] b) d = coords (unionStr [q] b) (setL c q k) ↔
      (coords b d = coords b c ∧ binIdx q d = k) := by
    intro d
    rw [coords_letters _ (marginals_chars _ h5), coords_letters _ (marginals_chars _ h5),
      coords_letters _ h4, coords_letters _ h4, List.map_inj_left, List.map_inj_left, binIdx_eq]
    constructor
    · intro hh
      refine ⟨fun ch hch => ?_, ?_⟩
      · have := hh ch (h6 ch (by simp [hch]))
        rwa [coordL_setL hax (h2 ch (by simp [hch])), if_neg (fun e : ch = q => hqb (e ▸ hch))] at this
      · have := hh q (h6 q (by simp))
        rwa [coordL_setL hax hax, if_pos rfl] at this
    · rintro ⟨hh, hk⟩ ch hch
      have hch' := h7 ch hch
      rw [coordL_setL hax (h2 ch hch')]
      by_cases e : ch = q
      · rw [if_pos e, e, hk]
      · rw [if_neg e]
        refine hh ch ?_
        simp only [List.singleton_append, List.mem_cons] at hch'
        tauto
  unfold Grid.marg
  congr 1
  funext d
  simp only [key]
  by_cases h1 : coords b d = coords b c <;> by_cases h2 : binIdx q d = k <;> simp [h1, h2]

/-- Probability that `q` lies in its bin `k`, given `b` at `c`, from a table with conditioning weight `m`. -/
def binP (g : Grid) (P m : Cell → ℝ) (q : Char) (b : PyStr) (c : Cell) (k : ℕ) : ℝ :=
  g.marg (fun d => if binIdx q d = k then P d else 0) b c / m c

/-- Values of the table of one variable. -/
theorem lead_of_tab {q : Char} (hq : q ∈ ['t','v','z']) (h : ValidPair [q] b) {P m : Cell → ℝ} (hm : Respects b m)
    (hA : LArr g (PyStr.replaceX [q] ++ PyStr.replaceX b) A (tab g P m [q] b)) :
    Lead g (g.bins q) b A (fun k c => if m c = 0 then .nan else .fin (binP g P m q b c k)) := by
  obtain ⟨h1, h2, h3, h4, -⟩ := validPair_facts [q] b h
  have hr : PyStr.replaceX [q] = [q] := by fin_cases hq <;> rfl
  have hax : AxisChar q := by unfold AxisChar; fin_cases hq <;> decide
  rw [hr] at hA h1 h2
  have hqb : q ∉ PyStr.replaceX b := by
    simp only [List.singleton_append, List.nodup_cons] at h1; exact h1.1
  refine ⟨?_, fun k hk c hc => ?_⟩
  · rw [hA.1, List.map_append, ← shapeOf_letters g h4]; rfl
  · have hs : k < sizeL g q := hk
    have := hA.2 (setL c q k) (has_setL hc hax hs)
    rw [List.map_append, ← coords_letters _ h4, coords_setL h4 hax hqb] at this
    simp only [List.map_cons, List.map_nil, List.singleton_append, coordL_setL hax hax, if_true] at this
    rw [this]
    have hw : m (setL c q k) = m c := hm _ _ (coords_setL h4 hax hqb c k)
    beta_reduce
    split_ifs with h0
    · exact tab_nan (by rw [hw, h0])
    · rw [tab_fin (by rw [hw]; exact h0), hw, marg_union_setL hq h]; rfl

/-- `get_l_moment` for an order `j ≥ 1`. -/
theorem getLMoment_tab {o : Obj} {lw : Bool} {P m : Cell → ℝ} (hg : g.Proper) (hcube : CubeIs o.cube g) {q : Char}
    (hq : q ∈ ['t','v','z']) (hb : ValidPair [q] b) (hT : HasTab o.getP g lw P m [q] b) (hm : Respects b m) (j : ℕ) (hj : 1 ≤ j) :
    ∃ r, o.getLMoment (distStr [q] b) j lw = .ok r ∧ IsArr g b r (fun c =>
      if m c = 0 then .nan else
        .fin (lmoment (g.bins q) (g.edge q) (binP g P m q b c) j)) := by
  obtain ⟨h1, h2, h3, h4, -⟩ := validPair_facts [q] b hb
  obtain ⟨A, hA, hA'⟩ := hT
  have L0 := lead_of_tab hq hb hm hA'
  have L1 : Lead g (g.bins q) b (cumsum0 A) (fun k c => if m c = 0 then .nan else
      .fin (cdf (binP g P m q b c) (k + 1))) := L0.cumsum.congr fun k hk c hc => by
    split_ifs with h0
    · exact Num.sum_eq_nan (i := 0) (by simp) rfl
    · rw [Num.fin_sum]; rfl
  obtain ⟨F, hF, hF'⟩ := L1.concat (.fin 0)
  have hnp : g.bins q ≠ 0 := (axis_size_pos hg q).ne'
  obtain ⟨F1, hF1, hF1'⟩ := hF'.tail
  obtain ⟨F0, hF0, hF0'⟩ := hF'.init
  obtain ⟨dF, hdF, hdF'⟩ := hF1'.bop (· - ·) hF0'
  have hE : ∃ X, o.cube.getVariableEdges [q] = .ok X ∧ Is1 X (g.bins q + 1) (g.edge q) := by
    have hc := hcube
    fin_cases hq
    · exact ⟨_, by simp [IFUCube.getVariableEdges], hc.tEdges⟩
    · exact ⟨_, by simp [IFUCube.getVariableEdges], hc.vEdg⟩
    · exact ⟨_, by simp [IFUCube.getVariableEdges], hc.zEdges⟩
  obtain ⟨X, hX, hX'⟩ := hE
  have hG := hF'.map (fun f => Obj.polyNum (Obj.legendre (j - 1)) (.fin 2 * f - .fin 1))
  obtain ⟨y, hy, hy'⟩ := hG.scale hX'
  obtain ⟨y0, hy0, hy0'⟩ := hy'.init
  obtain ⟨y1, hy1, hy1'⟩ := hy'.tail
  obtain ⟨s, hs, hs'⟩ := hy0'.bop (· + ·) hy1'
  obtain ⟨t, ht, ht'⟩ := (hs'.map (fun d => d / .fin 2)).bop (· * ·) hdF'
  obtain ⟨r, hr, hr'⟩ := ht'.sum
  have hh := headVar_distStr h3 h4
  have hzero : ((if (distStr [q] b).length = 1 then .ok none else (condVars (distStr [q] b)).map some :
      Py (Option PyStr)) >>= fun cond => (match cond with
      | none => .ok (full [1] (.fin 0))
      | some b => do
        let s ← o.cube.getDistributionShape b
        .ok (full (1 :: s) (.fin 0)) : Py (Arr Num))) = .ok (full (1 :: g.shapeOf b) (Num.fin 0)) := by
    by_cases hb0 : b = []
    · subst hb0; simp [distStr, Grid.shapeOf]
    · have hd : distStr [q] b = condStr [q] b := by simp [distStr, hb0]
      have hl : (condStr [q] b).length ≠ 1 := by simp [condStr]
      have hsh := C02_distribution_shape hcube hg b (by
        intro ch hch
        have := h4 ch hch
        simp only [List.mem_cons, List.not_mem_nil, or_false] at this ⊢; tauto)
      rw [hd, if_neg hl, condVars_condStr h3 h4]
      simp [Except.map, hsh]
  refine ⟨r, ?_, hr'.1, fun c hc => ?_⟩
  · have hj1 : ¬ ((j : ℤ) - 1 < 0) := by omega
    have hj2 : ((j : ℤ) - 1).toNat = j - 1 := by omega
    have e : o.getLMoment (distStr [q] b) j lw = (do
        let zero ← ((if (distStr [q] b).length = 1 then .ok none else (condVars (distStr [q] b)).map some :
          Py (Option PyStr)) >>= fun cond => (match cond with
          | none => .ok (full [1] (.fin 0))
          | some b => do
            let s ← o.cube.getDistributionShape b
            .ok (full (1 :: s) (.fin 0)) : Py (Arr Num)))
        let F ← concat0 zero (cumsum0 A)
        let F1 ← getitem [.sl 1 none] F
        let F0 ← getitem [.sl 0 (some (-1))] F
        let dF ← sub F1 F0
        let g := Np.map (fun f => Obj.polyNum (Obj.legendre (j - 1)) (.fin 2 * f - .fin 1)) F
        let x ← o.cube.getVariableEdges [q]
        let y ← mul x (T g)
        let y := T y
        let y0 ← getitem [.sl 0 (some (-1))] y
        let y1 ← getitem [.sl 1 none] y
        let q ← add y0 y1
        let q ← mul (Np.map (fun d => d / .fin 2) q) dF
        Np.sum [0] q) := by
      unfold Obj.getLMoment
      rw [hh, if_pos (by rfl), hA]
      simp only [hj1, hj2, if_false, Py.ok_bind]
      split_ifs
      · rfl
      · cases condVars (distStr [q] b) <;> simp [Except.map]
    rw [e, hzero]
    simp only [Py.ok_bind, hF, hF1, hF0, Np.sub, hdF, hX, hy, hy0, hy1, Np.add, hs, Np.mul, ht, hr]
    simp only [Np.mul] at hy
    simp only [hy, Py.ok_bind, hy0, hy1, hs, ht, hr]
  · rw [hr'.2 c hc]
    by_cases h0 : m c = 0
    · simp only [h0, if_true]
      refine Num.sum_eq_nan (i := ⟨0, Nat.pos_of_ne_zero hnp⟩) (Finset.mem_univ _) ?_
      simp
    · simp only [h0, if_false]
      rw [lmoment, ← Fin.sum_univ_eq_sum_range (fun i => (g.edge q i * legendreP (j - 1) (2 * cdf (binP g P m q b c) i - 1) +
        g.edge q (i + 1) * legendreP (j - 1) (2 * cdf (binP g P m q b c) (i + 1) - 1)) / 2 *
          binP g P m q b c i) (g.bins q)]
      refine Num.sum_congr_fin _ _ _ fun k _ => ?_
      have e0 : (if (k : ℕ) = 0 then Num.fin 0 else Num.fin (cdf (binP g P m q b c) ((k : ℕ) - 1 + 1))) =
          .fin (cdf (binP g P m q b c) k) := by
        split_ifs with hk
        · simp [hk, cdf]
        · congr 2; omega
      simp only [e0, Nat.add_eq_zero_iff, one_ne_zero, and_false, if_false, Nat.add_sub_cancel, Num.fin_sub,
        Num.fin_mul, Obj.polyNum, Num.fin_add, legendre_eq]
      rw [Num.fin_div _ _ two_ne_zero, Num.fin_mul]
      congr 2
      simp [cdf, Finset.sum_range_succ]

theorem getLMoment_std {o : Obj} {lw : Bool} {P : Cell → ℝ} (hst : StdAt o g lw P b) {q : Char}
    (hq : q ∈ ['t','v','z']) (hb : ValidPair [q] b) (j : ℕ) (hj : 1 ≤ j) :
    ∃ r, o.getLMoment (distStr [q] b) j lw = .ok r ∧ IsArr g b r (fun c =>
      if g.condWt P b c = 0 then .nan else
        .fin (lmoment (g.bins q) (g.edge q) (g.binProb P q b c) j)) :=
  getLMoment_tab hst.proper hst.cube hq hb (hst.tab _ hb) (respects_condWt P b) j hj

/-- An order below 1 is rejected. -/
theorem getLMoment_order {o : Obj} {lw : Bool} {P : Cell → ℝ} (hst : StdAt o g lw P b) {q : Char}
    (hq : q ∈ ['t','v','z']) (hb : ValidPair [q] b) (j : ℤ) (hj : j < 1) :
    o.getLMoment (distStr [q] b) j lw = .error .valueError := by
  obtain ⟨h1, h2, h3, h4, -⟩ := validPair_facts [q] b hb
  obtain ⟨A, hA, hA'⟩ := hst.tab _ hb
  have L1 := (lead_of_tab hq hb (respects_condWt P b) hA').cumsum
  obtain ⟨F, hF, hF'⟩ := L1.concat (.fin 0)
  obtain ⟨F1, hF1, hF1'⟩ := hF'.tail
  obtain ⟨F0, hF0, hF0'⟩ := hF'.init
  obtain ⟨dF, hdF, hdF'⟩ := hF1'.bop (· - ·) hF0'
  have hh := headVar_distStr h3 h4
  have hj1 : j - 1 < 0 := by omega
  unfold Obj.getLMoment
  rw [hh, if_pos (by rfl), hA]
  by_cases hb0 : b = []
  · subst hb0
    have hF : concat0 (full [1] (Num.fin 0)) (cumsum0 A) = .ok F := hF
    simp [distStr, hF, hF1, hF0, Np.sub, hdF, hj1]
  · have hd : distStr [q] b = condStr [q] b := by simp [distStr, hb0]
    have hl : (condStr [q] b).length ≠ 1 := by simp [condStr]
    have hsh := C02_distribution_shape hst.cube hst.proper b (by
      intro ch hch
      have := h4 ch hch
      simp only [List.mem_cons, List.not_mem_nil, or_false] at this ⊢; tauto)
    rw [hd, if_neg hl, condVars_condStr h3 h4]
    simp [Except.map, hsh, hF, hF1, hF0, Np.sub, hdF, hj1]

end PKM
