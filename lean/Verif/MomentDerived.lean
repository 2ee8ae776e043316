import Verif.MomentApi

/-! Lemmas: covariance, correlation and normalised moments of an object whose probability tables,
means and central moments are known. -/

open scoped Classical

noncomputable section

namespace PKM
open Np Component

variable {g : Grid} {o : Obj} {lw : Bool}

/-- Result for two variables: `F q q'` for each pair of quantities. -/
def IsCov (g : Grid) (a0 a1 : Char) (b : PyStr) (r : Arr Num) (F : Char → Char → Cell → Num) : Prop :=
  r.shape = compShape [a0] ++ compShape [a1] ++ g.shapeOf b ∧
  ∀ q ∈ PyStr.replaceX [a0], ∀ q' ∈ PyStr.replaceX [a1], ∀ c, g.Has c →
    r.get (compIdx q ++ compIdx q' ++ coords b c) = F q q' c

/-- The six pairs of variables, in alphabetical order. -/
def varPairs : List (Char × Char) :=
  [('t','v'), ('t','x'), ('t','z'), ('v','x'), ('v','z'), ('x','z')]

theorem varPairs_mem {a0 a1 : Char} {b : PyStr} (h : ValidPair [a0, a1] b) : (a0, a1) ∈ varPairs := by
  have key : ∀ a ∈ marginals, a.length = 2 → ∃ p ∈ varPairs, a = [p.1, p.2] := by decide +kernel
  have ha : [a0, a1] ∈ marginals := by
    rcases h with h | h
    · exact h.2
    · exact (conditionals_letters _ h).2.2.2.2.2.2.2.1
  obtain ⟨p, hp, e⟩ := key _ ha rfl
  simp only [List.cons.injEq, and_true] at e
  obtain ⟨rfl, rfl⟩ := e
  exact hp

theorem validPair_sub {a0 a1 : Char} {b : PyStr} (h : ValidPair [a0, a1] b) :
    ValidPair [a0] b ∧ ValidPair [a1] b := by
  have key1 : ∀ p ∈ conditionals, p.1.length = 2 → ([p.1.getD 0 ' '], p.2) ∈ conditionals ∧
      ([p.1.getD 1 ' '], p.2) ∈ conditionals := by decide +kernel
  have key2 : ∀ a ∈ marginals, a.length = 2 → [a.getD 0 ' '] ∈ marginals ∧ [a.getD 1 ' '] ∈ marginals := by
    decide +kernel
  rcases h with ⟨rfl, h⟩ | h
  · obtain ⟨h1, h2⟩ := key2 _ h rfl
    exact ⟨.inl ⟨rfl, h1⟩, .inl ⟨rfl, h2⟩⟩
  · obtain ⟨h1, h2⟩ := key1 _ h rfl
    exact ⟨.inr h1, .inr h2⟩

variable {P m : Cell → ℝ}

theorem rows_of_stack {M : List (Option Char)} {A : Arr Num} {f1 f2 : Cell → Num}
    (h : StackIs g M A f1 f2) :
    ∃ A1 A2, Obj.covCore.unpackRows A = .ok (A1, A2) ∧ MArr g M A1 f1 ∧ MArr g M A2 f2 := by
  refine ⟨⟨M.map (sizeM g), fun i => A.get (0 :: i)⟩, ⟨M.map (sizeM g), fun i => A.get (1 :: i)⟩,
    ?_, ⟨rfl, fun c hc => (h.2 c hc).1⟩, ⟨rfl, fun c hc => (h.2 c hc).2⟩⟩
  simp [Obj.covCore.unpackRows, Np.getitem, h.1, ixShape, ixIdx]

theorem sumOver_xy_first {B : List (Option Char)} {n : Char} (hn : n ∈ ['t','v','z'])
    (hB : FreshB ['x','y',n] B) {P : Arr Num} {f : Cell → Num}
    (hP : MArr g (some 'x' :: some 'y' :: some n :: B) P f) :
    ∃ p1 p2, Np.sum [1] P = .ok p1 ∧ Np.sum [0] P = .ok p2 ∧
      MArr g (some 'x' :: some n :: B) p1 (fun c => ∑ j : Fin (sizeL g 'y'), f (setL c 'y' j)) ∧
      MArr g (some 'y' :: some n :: B) p2 (fun c => ∑ j : Fin (sizeL g 'x'), f (setL c 'x' j)) := by
  refine splitXY (B := some n :: B) ?_ hP
  intro d hd
  rcases List.mem_cons.1 hd with e | hd
  · simp only [Option.some.injEq] at e
    subst e
    refine ⟨?_, ?_⟩
    · unfold AxisChar; fin_cases hn <;> decide
    · fin_cases hn <;> decide
  · exact ⟨(hB d hd).1, fun e => (hB d hd).2 (by simp at e ⊢; tauto)⟩

theorem sumOver_xy_second {B : List (Option Char)} {n : Char} (hn : n ∈ ['t','v','z'])
    (hB : FreshB ['x','y',n] B) {P : Arr Num} {f : Cell → Num}
    (hP : MArr g (some n :: some 'x' :: some 'y' :: B) P f) :
    ∃ p1 p2, Np.sum [2] P = .ok p1 ∧ Np.sum [1] P = .ok p2 ∧
      MArr g (some n :: some 'x' :: B) p1 (fun c => ∑ j : Fin (sizeL g 'y'), f (setL c 'y' j)) ∧
      MArr g (some n :: some 'y' :: B) p2 (fun c => ∑ j : Fin (sizeL g 'x'), f (setL c 'x' j)) := by
  have hnn : AxisChar n ∧ n ≠ 'x' ∧ n ≠ 'y' := by
    refine ⟨by unfold AxisChar; fin_cases hn <;> decide, ?_⟩
    fin_cases hn <;> decide
  obtain ⟨p1, h1, h1'⟩ := MArr.sum1 (M := [some n, some 'x']) (N := B) (ax := 2) hP axis_y (by
    intro d hd
    simp only [List.cons_append, List.nil_append, List.mem_cons, Option.some.injEq] at hd
    rcases hd with rfl | rfl | hd
    · exact ⟨hnn.1, hnn.2.2⟩
    · exact ⟨axis_x, by decide⟩
    · have := hB d hd
      exact ⟨this.1, fun e => this.2 (by simp [e])⟩) (by simp)
  obtain ⟨p2, h2, h2'⟩ := MArr.sum1 (M := [some n]) (N := some 'y' :: B) (ax := 1) hP axis_x (by
    intro d hd
    simp only [List.cons_append, List.nil_append, List.mem_cons, Option.some.injEq] at hd
    rcases hd with rfl | rfl | hd
    · exact ⟨hnn.1, hnn.2.1⟩
    · exact ⟨axis_y, by decide⟩
    · have := hB d hd
      exact ⟨this.1, fun e => this.2 (by simp [e])⟩) (by simp)
  exact ⟨p1, p2, h1, h2, by simpa using h1', by simpa using h2'⟩

theorem values_x12 (cube : IFUCube) : cube.getVariableValues ['x','1'] = .ok cube.x ∧
    cube.getVariableValues ['x','2'] = .ok cube.y := by
  constructor <;> simp [IFUCube.getVariableValues]

theorem isMom_of_stack {b : PyStr} (hb : DistChars b) {r : Arr Num} {f1 f2 : Cell → Num}
    (h : StackIs g ((PyStr.replaceX b).map some) r f1 f2) : IsMom g ['x'] b r (fun q => if q = 'x' then f1 else f2) :=
  (isMom_x hb).2 (by simpa using h)

/-- The core of `get_covariance`: means may come from anywhere; the answer at a conditioner where they are the numbers `μ`. -/
theorem covCore_pointwise (hg : g.Proper) (hcube : CubeIs o.cube g) {a0 a1 : Char} {b : PyStr}
    (h : ValidPair [a0, a1] b) (hT : HasTab o.getP g lw P m [a0, a1] b) (hm : Respects b m)
    {w0 w1 : PyStr} {M0 M1 : Arr Num} (hM0 : o.getMean w0 lw = .ok M0) (hM1 : o.getMean w1 lw = .ok M1)
    {F0 F1 : Char → Cell → Num} (hF0 : IsMom g [a0] b M0 F0) (hF1 : IsMom g [a1] b M1 F1)
    {μ : Char → Cell → ℝ} (hμ : ∀ q, Respects b (μ q)) :
    ∃ r, Obj.covCore o (distStr [a0, a1] b) a0 a1 w0 w1 lw = .ok r ∧
      r.shape = compShape [a0] ++ compShape [a1] ++ g.shapeOf b ∧
      ∀ q ∈ PyStr.replaceX [a0], ∀ q' ∈ PyStr.replaceX [a1], ∀ c, g.Has c →
        (m c ≠ 0 → F0 q c = .fin (μ q c)) → (m c ≠ 0 → F1 q' c = .fin (μ q' c)) →
        r.get (compIdx q ++ compIdx q' ++ coords b c) = expectM g P m
          (fun d => (g.value q d - μ q d) * (g.value q' d - μ q' d)) b c := by
  obtain ⟨h2, h3, h4, h5, -⟩ := validPair_facts _ b h
  have hI := indep_of_respects h hm
  obtain ⟨A, hA, hA'⟩ := hT
  rw [larr_iff, List.map_append] at hA'
  have hFr := freshB h
  have hresp : ∀ q ∈ PyStr.replaceX [a0, a1], Respects (unionStr [a0, a1] b)
      (fun d => g.value q d - μ q d) := by
    intro q hq d d' e
    simp only [respects_value (g := g) h hq d d' e, (hμ q).union_right h d d' e]
  have hμI : ∀ q, ∀ u ∈ PyStr.replaceX [a0, a1], ∀ d k, μ q (setL d u k) = μ q d := fun q =>
    indep_of_respects h (hμ q)
  have loc : ∀ {a : Char} {M : Arr Num} {F : Char → Cell → Num}, IsMom g [a] b M F → ∀ q ∈ PyStr.replaceX [a], ∀ c, g.Has c →
      (m c ≠ 0 → F q c = .fin (μ q c)) → ∀ d, g.Has d → coords b d = coords b c → m d ≠ 0 → F q d = .fin (μ q d) := by
    intro a M F hF q hq c hc hcF d hd e hne
    rw [← hF.2 q hq d hd, e, hF.2 q hq c hc, hcF (by rwa [hm c d e.symm]), hμ q c d e.symm]
  obtain ⟨hvals, hx, hy⟩ := values_marr hcube
  have hp := varPairs_mem h
  have hcase : (a0 ∈ (['t','v','z'] : List Char) ∧ a1 ∈ (['t','v','z'] : List Char) ∧ a0 ≠ a1) ∨
      (a0 = 'x' ∧ a1 ∈ (['t','v','z'] : List Char)) ∨ (a1 = 'x' ∧ a0 ∈ (['t','v','z'] : List Char)) := by
    simp only [varPairs, List.mem_cons, Prod.mk.injEq, List.not_mem_nil, or_false] at hp
    rcases hp with ⟨rfl, rfl⟩ | ⟨rfl, rfl⟩ | ⟨rfl, rfl⟩ | ⟨rfl, rfl⟩ | ⟨rfl, rfl⟩ | ⟨rfl, rfl⟩ <;> decide
  rcases hcase with ⟨ha0, ha1, hne⟩ | ⟨rfl, ha1⟩ | ⟨rfl, ha0⟩
  · have hx0 : a0 ≠ 'x' := by rintro rfl; revert ha0; decide
    have hx1 : a1 ≠ 'x' := by rintro rfl; revert ha1; decide
    have hr : PyStr.replaceX [a0, a1] = [a0, a1] := by simp [PyStr.replaceX, hx0, hx1]
    have hr0 : PyStr.replaceX [a0] = [a0] := by simp [PyStr.replaceX, hx0]
    have hr1 : PyStr.replaceX [a1] = [a1] := by simp [PyStr.replaceX, hx1]
    rw [hr] at hA' hFr
    obtain ⟨V0, hV0, hV0'⟩ := hvals a0 ha0
    obtain ⟨V1, hV1, hV1'⟩ := hvals a1 ha1
    obtain ⟨d0, hd0, hd0'⟩ := delta_gives hV0' ((isMom_tvz ha0 h5).1 hF0)
    obtain ⟨d1, hd1, hd1'⟩ := delta_gives hV1' ((isMom_tvz ha1 h5).1 hF1)
    obtain ⟨r, hr', hrr⟩ := covSum_gives (h3 a0 (by simp [hr])) (h3 a1 (by simp [hr])) hne hFr hA' hd0' hd1'
    refine ⟨r, ?_, ?_⟩
    · simp only [Obj.covCore, Obj.covVar, hM0, hM1, Py.ok_bind, hx0, hx1, ne_eq, not_false_eq_true,
        if_true, hV0, hV1, hA, and_self, List.getD_cons_zero, hd0, hd1, hr']
    · have this := (isMom_tvz (g := g) (q := 't') (b := b) (by decide) h5 (r := r) (F := fun _ => _)).2 hrr
      have c0 : compShape [a0] = [] := by simp [compShape, hx0]
      have c1 : compShape [a1] = [] := by simp [compShape, hx1]
      refine ⟨by rw [c0, c1]; exact this.1, fun q hq q' hq' c hc g0 g1 => ?_⟩
      have l0 := loc hF0 q hq c hc g0
      have l1 := loc hF1 q' hq' c hc g1
      rw [hr0, List.mem_singleton] at hq
      rw [hr1, List.mem_singleton] at hq'
      subst hq hq'
      have i0 : compIdx q = [] := by fin_cases ha0 <;> decide
      have i1 : compIdx q' = [] := by fin_cases ha1 <;> decide
      rw [i0, i1]
      exact (this.2 't' (by decide) c hc).trans (sumCov_table hg ha0 ha1 hne h hI (hresp _ (by simp [hr])) (hresp _ (by simp [hr]))
            (fun d hd e hne => by rw [l0 d hd e hne]; simp) (fun d hd e hne => by rw [l1 d hd e hne]; simp) hc)
  · have hx1 : a1 ≠ 'x' := by rintro rfl; revert ha1; decide
    have hr : PyStr.replaceX ['x', a1] = ['x', 'y', a1] := by simp [PyStr.replaceX, hx1]
    have hr1 : PyStr.replaceX [a1] = [a1] := by simp [PyStr.replaceX, hx1]
    have hr0 : PyStr.replaceX ['x'] = ['x','y'] := rfl
    rw [hr] at hA' hFr
    have hax1 : AxisChar a1 ∧ a1 ≠ 'y' := by
      refine ⟨by unfold AxisChar; fin_cases ha1 <;> decide, by fin_cases ha1 <;> decide⟩
    obtain ⟨V1, hV1, hV1'⟩ := hvals a1 ha1
    obtain ⟨m1, m2, hmm, hm1, hm2⟩ := rows_of_stack ((isMom_x h5).1 hF0)
    obtain ⟨e1, he1, he1'⟩ := delta_gives hx hm1
    obtain ⟨e2, he2, he2'⟩ := delta_gives hy hm2
    obtain ⟨dn, hdn, hdn'⟩ := delta_gives hV1' ((isMom_tvz ha1 h5).1 hF1)
    obtain ⟨p1, p2, hp1, hp2, hp1', hp2'⟩ := sumOver_xy_first ha1 hFr hA'
    have hFx : FreshB ['x', a1] ((PyStr.replaceX b).map some) := fun d hd =>
      ⟨(hFr d hd).1, fun e => (hFr d hd).2 (by simp at e ⊢; tauto)⟩
    have hFy : FreshB ['y', a1] ((PyStr.replaceX b).map some) := fun d hd =>
      ⟨(hFr d hd).1, fun e => (hFr d hd).2 (by simp at e ⊢; tauto)⟩
    obtain ⟨c1, hc1, hc1'⟩ := covSum_gives axis_x hax1.1 hx1.symm hFx hp1' he1' hdn'
    obtain ⟨c2, hc2, hc2'⟩ := covSum_gives axis_y hax1.1 hax1.2.symm hFy hp2' he2' hdn'
    obtain ⟨r, hrr, hrr'⟩ := hc1'.stack2 hc2'
    refine ⟨r, ?_, ?_⟩
    · obtain ⟨v1, v2⟩ := values_x12 o.cube
      simp only [Obj.covCore, Obj.covVar, hM0, hM1, Py.ok_bind, hx1, ne_eq, not_true_eq_false,
        not_false_eq_true, if_true, if_false, hV1, hA, false_and, List.getD_cons_zero,
        List.getD_cons_succ, v1, v2, hmm, he1, he2, hdn, hp1, hp2, hc1, hc2, hrr]
    · have hperm : ∀ p p' : Char, (p, p') ∈ [('x','y'),('y','x')] →
          (PyStr.replaceX ['x', a1]).reverse.Perm [p', a1, p] := by
        intro p p' hpp
        rw [hr]
        fin_cases ha1 <;> fin_cases hpp <;> decide
      have hnx : ∀ (k : ℕ) (d : Cell), g.value a1 (setL d 'x' k) = g.value a1 d := fun k d =>
        value_setL hax1.1 axis_x hx1 d k
      have hny : ∀ (k : ℕ) (d : Cell), g.value a1 (setL d 'y' k) = g.value a1 d := fun k d =>
        value_setL hax1.1 axis_y hax1.2 d k
      have c1' : compShape [a1] = [] := by simp [compShape, hx1]
      have this := isMom_of_stack h5 hrr'
      refine ⟨by rw [c1']; simpa using this.1, fun q hq q' hq' c hc g0 g1 => ?_⟩
      have l0 := loc hF0 q hq c hc g0
      have l1 := loc hF1 q' hq' c hc g1
      rw [hr1, List.mem_singleton] at hq'
      subst hq'
      have i1 : compIdx q' = [] := by fin_cases ha1 <;> decide
      rw [i1, List.append_nil]
      refine (this.2 q hq c hc).trans ?_
      simp only [hr0, List.mem_cons, List.not_mem_nil, or_false] at hq
      rcases hq with rfl | rfl
      · exact (congrFun (if_pos rfl) c).trans <| sumCovX_table hg (p := 'x') (p' := 'y') (n := q') (by decide) ha1 (.inl ⟨rfl, rfl⟩)
          (hperm _ _ (by decide)) h hI (hresp 'x' (by simp [hr])) (hresp q' (by simp [hr]))
          (fun d k => by simp only [value_setL axis_x axis_y (by decide) d k, hμI 'x' 'y' (by simp [hr])])
          (fun d k => by simp only [hny, hμI q' 'y' (by simp [hr])])
          (fun d hd e hne => by rw [l0 d hd e hne]; simp) (fun d hd e hne => by rw [l1 d hd e hne]; simp) hc
      · exact (congrFun (if_neg (by decide)) c).trans <| sumCovX_table hg (p := 'y') (p' := 'x') (n := q') (by decide) ha1 (.inl ⟨rfl, rfl⟩)
          (hperm _ _ (by decide)) h hI (hresp 'y' (by simp [hr])) (hresp q' (by simp [hr]))
          (fun d k => by simp only [value_setL axis_y axis_x (by decide) d k, hμI 'y' 'x' (by simp [hr])])
          (fun d k => by simp only [hnx, hμI q' 'x' (by simp [hr])])
          (fun d hd e hne => by rw [l0 d hd e hne]; simp) (fun d hd e hne => by rw [l1 d hd e hne]; simp) hc
  · have hx0 : a0 ≠ 'x' := by rintro rfl; revert ha0; decide
    have hr : PyStr.replaceX [a0, 'x'] = [a0, 'x', 'y'] := by simp [PyStr.replaceX, hx0]
    have hr0 : PyStr.replaceX [a0] = [a0] := by simp [PyStr.replaceX, hx0]
    have hr1 : PyStr.replaceX ['x'] = ['x','y'] := rfl
    rw [hr] at hA' hFr
    have hFr' : FreshB ['x','y',a0] ((PyStr.replaceX b).map some) := fun d hd =>
      ⟨(hFr d hd).1, fun e => (hFr d hd).2 (by simp at e ⊢; tauto)⟩
    have hax0 : AxisChar a0 ∧ a0 ≠ 'y' := by
      refine ⟨by unfold AxisChar; fin_cases ha0 <;> decide, by fin_cases ha0 <;> decide⟩
    obtain ⟨V0, hV0, hV0'⟩ := hvals a0 ha0
    obtain ⟨m1, m2, hmm, hm1, hm2⟩ := rows_of_stack ((isMom_x h5).1 hF1)
    obtain ⟨e1, he1, he1'⟩ := delta_gives hx hm1
    obtain ⟨e2, he2, he2'⟩ := delta_gives hy hm2
    obtain ⟨dn, hdn, hdn'⟩ := delta_gives hV0' ((isMom_tvz ha0 h5).1 hF0)
    obtain ⟨p1, p2, hp1, hp2, hp1', hp2'⟩ := sumOver_xy_second ha0 hFr' hA'
    have hFx : FreshB [a0, 'x'] ((PyStr.replaceX b).map some) := fun d hd =>
      ⟨(hFr d hd).1, fun e => (hFr d hd).2 (by simp at e ⊢; tauto)⟩
    have hFy : FreshB [a0, 'y'] ((PyStr.replaceX b).map some) := fun d hd =>
      ⟨(hFr d hd).1, fun e => (hFr d hd).2 (by simp at e ⊢; tauto)⟩
    obtain ⟨c1, hc1, hc1'⟩ := covSum_gives' hax0.1 axis_x hx0 hFx hp1' he1' hdn'
    obtain ⟨c2, hc2, hc2'⟩ := covSum_gives' hax0.1 axis_y hax0.2 hFy hp2' he2' hdn'
    obtain ⟨r, hrr, hrr'⟩ := hc1'.stack2 hc2'
    refine ⟨r, ?_, ?_⟩
    · obtain ⟨v1, v2⟩ := values_x12 o.cube
      simp only [Obj.covCore, Obj.covVar, hM0, hM1, Py.ok_bind, hx0, ne_eq, not_true_eq_false,
        not_false_eq_true, if_true, if_false, hV0, hA, and_false, List.getD_cons_zero,
        List.getD_cons_succ, v1, v2, hmm, he1, he2, hdn, hp1, hp2, hc1, hc2, hrr]
    · have hperm : ∀ p p' : Char, (p, p') ∈ [('x','y'),('y','x')] →
          (PyStr.replaceX [a0, 'x']).reverse.Perm [p', p, a0] := by
        intro p p' hpp
        rw [hr]
        fin_cases ha0 <;> fin_cases hpp <;> decide
      have hnx : ∀ (k : ℕ) (d : Cell), g.value a0 (setL d 'x' k) = g.value a0 d := fun k d =>
        value_setL hax0.1 axis_x hx0 d k
      have hny : ∀ (k : ℕ) (d : Cell), g.value a0 (setL d 'y' k) = g.value a0 d := fun k d =>
        value_setL hax0.1 axis_y hax0.2 d k
      have hcm : ∀ q c, expectM g P m (fun d => (g.value q d - μ q d) * (g.value a0 d - μ a0 d)) b c =
          expectM g P m (fun d => (g.value a0 d - μ a0 d) * (g.value q d - μ q d)) b c := by
        intro q c; simp only [mul_comm (g.value q _ - μ q _)]
      have c1' : compShape [a0] = [] := by simp [compShape, hx0]
      have this := isMom_of_stack h5 hrr'
      refine ⟨by rw [c1']; simpa using this.1, fun q hq q' hq' c hc g0 g1 => ?_⟩
      have l0 := loc hF0 q hq c hc g0
      have l1 := loc hF1 q' hq' c hc g1
      rw [hr0, List.mem_singleton] at hq
      subst hq
      have i1 : compIdx q = [] := by fin_cases ha0 <;> decide
      rw [i1, List.nil_append]
      refine (this.2 q' hq' c hc).trans ?_
      simp only [hr1, List.mem_cons, List.not_mem_nil, or_false] at hq'
      rcases hq' with rfl | rfl
      · exact (congrFun (if_pos rfl) c).trans <| (sumCovX_table hg (p := 'x') (p' := 'y') (n := q) (by decide) ha0 (.inr ⟨rfl, rfl⟩)
          (hperm _ _ (by decide)) h hI (hresp 'x' (by simp [hr])) (hresp q (by simp [hr]))
          (fun d k => by simp only [value_setL axis_x axis_y (by decide) d k, hμI 'x' 'y' (by simp [hr])])
          (fun d k => by simp only [hny, hμI q 'y' (by simp [hr])])
          (fun d hd e hne => by rw [l1 d hd e hne]; simp) (fun d hd e hne => by rw [l0 d hd e hne]; simp) hc).trans (hcm _ _)
      · exact (congrFun (if_neg (by decide)) c).trans <| (sumCovX_table hg (p := 'y') (p' := 'x') (n := q) (by decide) ha0 (.inr ⟨rfl, rfl⟩)
          (hperm _ _ (by decide)) h hI (hresp 'y' (by simp [hr])) (hresp q (by simp [hr]))
          (fun d k => by simp only [value_setL axis_y axis_x (by decide) d k, hμI 'y' 'x' (by simp [hr])])
          (fun d k => by simp only [hnx, hμI q 'x' (by simp [hr])])
          (fun d hd e hne => by rw [l1 d hd e hne]; simp) (fun d hd e hne => by rw [l0 d hd e hne]; simp) hc).trans (hcm _ _)

/-- The core of `get_covariance`: means may come from anywhere, as long as they are the numbers `μ`
wherever the conditioning event is possible. -/
theorem covCore_table (hg : g.Proper) (hcube : CubeIs o.cube g) {a0 a1 : Char} {b : PyStr}
    (h : ValidPair [a0, a1] b) (hT : HasTab o.getP g lw P m [a0, a1] b) (hm : Respects b m)
    {w0 w1 : PyStr} {M0 M1 : Arr Num} (hM0 : o.getMean w0 lw = .ok M0) (hM1 : o.getMean w1 lw = .ok M1)
    {F0 F1 : Char → Cell → Num} (hF0 : IsMom g [a0] b M0 F0) (hF1 : IsMom g [a1] b M1 F1)
    {μ : Char → Cell → ℝ} (hμ : ∀ q, Respects b (μ q))
    (h0 : ∀ q ∈ PyStr.replaceX [a0], ∀ d, g.Has d → m d ≠ 0 → F0 q d = .fin (μ q d))
    (h1 : ∀ q ∈ PyStr.replaceX [a1], ∀ d, g.Has d → m d ≠ 0 → F1 q d = .fin (μ q d)) :
    ∃ r, Obj.covCore o (distStr [a0, a1] b) a0 a1 w0 w1 lw = .ok r ∧
      IsCov g a0 a1 b r (fun q q' => expectM g P m
        (fun d => (g.value q d - μ q d) * (g.value q' d - μ q' d)) b) := by
  obtain ⟨r, hr, hs, hv⟩ := covCore_pointwise hg hcube h hT hm hM0 hM1 hF0 hF1 hμ
  exact ⟨r, hr, hs, fun q hq q' hq' c hc => hv q hq q' hq' c hc (h0 q hq c hc) (h1 q' hq' c hc)⟩

/-- `get_covariance` takes the string apart as expected. -/
theorem getCovariance_eq {a0 a1 : Char} {b : PyStr} (h : ValidPair [a0, a1] b) :
    o.getCovariance (distStr [a0, a1] b) lw =
      o.covCore (distStr [a0, a1] b) a0 a1 (distStr [a0] b) (distStr [a1] b) lw := by
  obtain ⟨-, -, h4, h5, -⟩ := validPair_facts _ b h
  unfold Obj.getCovariance
  by_cases hb : b = []
  · have hu : '_' ∉ distStr [a0, a1] b := by simp only [distStr, hb, if_true]; exact h4.noUnderscore
    rw [if_neg hu]
    simp [distStr, hb]
  · have hd : distStr [a0, a1] b = condStr [a0, a1] b := by simp [distStr, hb]
    have hu : '_' ∈ distStr [a0, a1] b := by rw [hd]; exact hasUnderscore_condStr _ b
    rw [if_pos hu, hd, split_condStr h4.noUnderscore h5.noUnderscore]
    simp [distStr, hb, condStr]

theorem getCorrelation_eq {a0 a1 : Char} {b : PyStr} (h : ValidPair [a0, a1] b) :
    o.getCorrelation (distStr [a0, a1] b) lw =
      o.corCore (distStr [a0, a1] b) (distStr [a0] b) (distStr [a1] b) lw := by
  obtain ⟨-, -, h4, h5, -⟩ := validPair_facts _ b h
  unfold Obj.getCorrelation
  by_cases hb : b = []
  · have hu : '_' ∉ distStr [a0, a1] b := by simp only [distStr, hb, if_true]; exact h4.noUnderscore
    rw [if_neg hu]
    simp [distStr, hb]
  · have hd : distStr [a0, a1] b = condStr [a0, a1] b := by simp [distStr, hb]
    have hu : '_' ∈ distStr [a0, a1] b := by rw [hd]; exact hasUnderscore_condStr _ b
    rw [if_pos hu, hd, split_condStr h4.noUnderscore h5.noUnderscore]
    simp [distStr, hb, condStr]

/-- Product of results for two different variables, at most one of which is the position. -/
theorem IsMom.bop2 {a0 a1 : Char} {b : PyStr} (h : (a0, a1) ∈ varPairs) (op : Num → Num → Num)
    {r r' : Arr Num} {F F' : Char → Cell → Num} (h0 : IsMom g [a0] b r F) (h1 : IsMom g [a1] b r' F') :
    ∃ s, Np.bop op r r' = .ok s ∧ IsCov g a0 a1 b s (fun q q' c => op (F q c) (F' q' c)) := by
  have hsh : ∀ a ∈ (['t','v','z'] : List Char), compShape [a] = [] ∧ compIdx a = [] ∧
      PyStr.replaceX [a] = [a] := by decide
  have hcase : (a0 ∈ (['t','v','z'] : List Char) ∧ a1 ∈ (['t','v','z'] : List Char)) ∨
      (a0 = 'x' ∧ a1 ∈ (['t','v','z'] : List Char)) ∨ (a1 = 'x' ∧ a0 ∈ (['t','v','z'] : List Char)) := by
    simp only [varPairs, List.mem_cons, Prod.mk.injEq, List.not_mem_nil, or_false] at h
    rcases h with ⟨rfl, rfl⟩ | ⟨rfl, rfl⟩ | ⟨rfl, rfl⟩ | ⟨rfl, rfl⟩ | ⟨rfl, rfl⟩ | ⟨rfl, rfl⟩ <;> decide
  rcases hcase with ⟨ha0, ha1⟩ | ⟨rfl, ha1⟩ | ⟨rfl, ha0⟩
  · obtain ⟨c0, i0, r0⟩ := hsh a0 ha0
    obtain ⟨c1, i1, r1⟩ := hsh a1 ha1
    have s0 : r.shape = g.shapeOf b := by rw [h0.1, c0]; rfl
    have s1 : r'.shape = g.shapeOf b := by rw [h1.1, c1]; rfl
    obtain ⟨s, hs, hs1, hs2⟩ := bop_same op (A := r) (B := r') (s0.trans s1.symm)
    refine ⟨s, hs, by rw [c0, c1]; exact hs1.trans s0, fun q hq q' hq' c hc => ?_⟩
    rw [r0, List.mem_singleton] at hq
    rw [r1, List.mem_singleton] at hq'
    subst hq hq'
    have k0 := h0.2 q (by simp [r0]) c hc
    have k1 := h1.2 q' (by simp [r1]) c hc
    rw [i0, List.nil_append] at k0
    rw [i1, List.nil_append] at k1
    rw [i0, i1, List.nil_append, List.nil_append, hs2 _ (by rw [s0]; exact inBox_coords hc b), k0, k1]
  · obtain ⟨c1, i1, r1⟩ := hsh a1 ha1
    have s1 : r'.shape = g.shapeOf b := by rw [h1.1, c1]; rfl
    have s0 : r.shape = 2 :: r'.shape := by rw [h0.1, s1]; rfl
    obtain ⟨s, hs, hs1, hs2⟩ := bop_lead op (A := r) (B := r') s0
    refine ⟨s, hs, by rw [c1, List.append_nil]; exact hs1.trans h0.1, fun q hq q' hq' c hc => ?_⟩
    rw [r1, List.mem_singleton] at hq'
    subst hq'
    have k1 := h1.2 q' (by simp [r1]) c hc
    have k0 := h0.2 q hq c hc
    rw [i1, List.nil_append] at k1
    rw [i1, List.append_nil]
    have hq2 : ∃ k < 2, compIdx q = [k] := by
      have : ∀ q ∈ PyStr.replaceX ['x'], ∃ k < 2, compIdx q = [k] := by
        intro q hq
        simp only [PyStr.replaceX, if_true, List.mem_cons, List.not_mem_nil, or_false] at hq
        rcases hq with rfl | rfl
        · exact ⟨0, by norm_num, by decide⟩
        · exact ⟨1, by norm_num, by decide⟩
      exact this q hq
    obtain ⟨k, hk, hki⟩ := hq2
    rw [hki] at k0 ⊢
    simp only [List.cons_append, List.nil_append] at k0 ⊢
    rw [hs2 k _ hk (by rw [s1]; exact inBox_coords hc b), k0, k1]
  · obtain ⟨c0, i0, r0⟩ := hsh a0 ha0
    have s0 : r.shape = g.shapeOf b := by rw [h0.1, c0]; rfl
    have s1 : r'.shape = 2 :: r.shape := by rw [h1.1, s0]; rfl
    obtain ⟨s, hs, hs1, hs2⟩ := bop_lead' op (A := r) (B := r') s1
    refine ⟨s, hs, by rw [c0, List.nil_append]; exact hs1.trans h1.1, fun q hq q' hq' c hc => ?_⟩
    rw [r0, List.mem_singleton] at hq
    subst hq
    have k0 := h0.2 q (by simp [r0]) c hc
    have k1 := h1.2 q' hq' c hc
    rw [i0, List.nil_append] at k0
    rw [i0, List.nil_append]
    have hq2 : ∃ k < 2, compIdx q' = [k] := by
      simp only [PyStr.replaceX, if_true, List.mem_cons, List.not_mem_nil, or_false] at hq'
      rcases hq' with rfl | rfl
      · exact ⟨0, by norm_num, by decide⟩
      · exact ⟨1, by norm_num, by decide⟩
    obtain ⟨k, hk, hki⟩ := hq2
    rw [hki] at k1 ⊢
    simp only [List.cons_append, List.nil_append] at k1 ⊢
    rw [hs2 k _ hk (by rw [s0]; exact inBox_coords hc b), k0, k1]

theorem IsCov.map {a0 a1 : Char} {b : PyStr} {r : Arr Num} {F : Char → Char → Cell → Num}
    (k : Num → Num) (h : IsCov g a0 a1 b r F) :
    IsCov g a0 a1 b (Np.map k r) (fun q q' c => k (F q q' c)) :=
  ⟨h.1, fun q hq q' hq' c hc => by
    simp only [Np.map, h.2 q hq q' hq' c hc]⟩

theorem inBox_compIdx {a : Char} {q : Char} (ha : a ∈ ['t','v','x','z']) (hq : q ∈ PyStr.replaceX [a]) :
    InBox (compShape [a]) (compIdx q) := by
  fin_cases ha <;> revert q <;> simp [PyStr.replaceX, compShape, compIdx, InBox]

theorem IsCov.bop {a0 a1 : Char} {b : PyStr} (hp : (a0, a1) ∈ varPairs) {r r' : Arr Num}
    {F F' : Char → Char → Cell → Num} (op : Num → Num → Num) (h : IsCov g a0 a1 b r F)
    (h' : IsCov g a0 a1 b r' F') :
    ∃ s, Np.bop op r r' = .ok s ∧ IsCov g a0 a1 b s (fun q q' c => op (F q q' c) (F' q q' c)) := by
  have hv : ∀ p ∈ varPairs, p.1 ∈ (['t','v','x','z'] : List Char) ∧ p.2 ∈ (['t','v','x','z'] : List Char) := by
    decide
  obtain ⟨v0, v1⟩ := hv _ hp
  obtain ⟨s, h1, h2, h3⟩ := bop_same op (A := r) (B := r') (h.1.trans h'.1.symm)
  refine ⟨s, h1, h2.trans h.1, fun q hq q' hq' c hc => ?_⟩
  have hin : InBox r.shape (compIdx q ++ compIdx q' ++ coords b c) := by
    rw [h.1]
    exact inBox_append (inBox_append (inBox_compIdx v0 hq) (inBox_compIdx v1 hq')) (inBox_coords hc b)
  rw [h3 _ hin, h.2 q hq q' hq' c hc, h'.2 q hq q' hq' c hc]

/-- Correlation from covariance and variances. -/
theorem corCore_table {a0 a1 : Char} {b : PyStr} (h : ValidPair [a0, a1] b)
    {C : Arr Num} {F : Char → Char → Cell → Num} (hC : o.getCovariance (distStr [a0, a1] b) lw = .ok C)
    (hC' : IsCov g a0 a1 b C F) {V0 V1 : Arr Num} {G0 G1 : Char → Cell → Num}
    (hV0 : o.getCentralMoment (distStr [a0] b) 2 lw = .ok V0) (hV0' : IsMom g [a0] b V0 G0)
    (hV1 : o.getCentralMoment (distStr [a1] b) 2 lw = .ok V1) (hV1' : IsMom g [a1] b V1 G1) :
    ∃ r, o.getCorrelation (distStr [a0, a1] b) lw = .ok r ∧
      IsCov g a0 a1 b r (fun q q' c => F q q' c / Num.sqrt (G0 q c * G1 q' c)) := by
  have hp := varPairs_mem h
  obtain ⟨v, hv, hv'⟩ := IsMom.bop2 hp (· * ·) hV0' hV1'
  obtain ⟨r, hr, hr'⟩ := IsCov.bop hp (· / ·) hC' (hv'.map Num.sqrt)
  refine ⟨r, ?_, hr'⟩
  rw [getCorrelation_eq h]
  simp only [Obj.corCore, Obj.getVariance, hC, hV0, hV1, Py.ok_bind, mul, hv, Np.div, hr]

/-- Normalised central moments. -/
theorem getNormalised_table {a b : PyStr} (ha : a ∈ [['t'],['v'],['x'],['z']]) {w : PyStr} {j : ℕ}
    {C V : Arr Num} {F G : Char → Cell → Num}
    (hC : o.getCentralMoment w j lw = .ok C) (hC' : IsMom g a b C F)
    (hV : o.getCentralMoment w 2 lw = .ok V) (hV' : IsMom g a b V G) :
    ∃ r, o.getNormalisedCentralMoment w j lw = .ok r ∧
      IsMom g a b r (fun q c => F q c / (Num.sqrt (G q c)).npow j) := by
  obtain ⟨r, hr, hr'⟩ := IsMom.bop ha (· / ·) hC' ((hV'.map Num.sqrt).map (fun x => x.npow j))
  exact ⟨r, by simp [Obj.getNormalisedCentralMoment, Obj.getDispersion, hC, hV, Np.div, hr], hr'⟩

end PKM
