import Verif.Setup
import Verif.Props.Parametric

/-! Lemmas: the velocity moments of parametric components. -/

open scoped Classical
open MeasureTheory ProbabilityTheory

noncomputable section

namespace PKM
open Np Component

variable {p : Param} {g : Grid} {m : Ingredients} {L : ℕ → ℕ → ℝ}
  {M N R : List (Option Char)} {A B : Arr Num} {f : Cell → Num}

/-! ### The axis of the binomial expansion -/

theorem sizeM_sampled (g : Grid) (n : ℕ) (hM : some 'v' ∉ M) : M.map (sizeM (sampled g n)) = M.map (sizeM g) := by
  refine List.map_congr_left fun o ho => ?_
  cases o with
  | none => rfl
  | some ch =>
    have : ch ≠ 'v' := fun e => hM (e ▸ ho)
    simp [sizeM, sizeL, sampled, this]

theorem coordM_noV (c : Cell) (v : ℕ) (hM : some 'v' ∉ M) : M.map (coordM { c with v := v }) = M.map (coordM c) := by
  refine List.map_congr_left fun o ho => ?_
  cases o with
  | none => rfl
  | some ch =>
    have : ch ≠ 'v' := fun e => hM (e ▸ ho)
    simp [coordM, coordL, this]

theorem MArr.toG {n : ℕ} (hv : 0 < g.nv) (hM : some 'v' ∉ M) (h : MArr g M A f) :
    MArr (sampled g n) M A (fun c => f { c with v := 0 }) :=
  ⟨by rw [sizeM_sampled g n hM]; exact h.1, fun c hc => by
    beta_reduce
    rw [← h.2 _ (sampled_has hv hc), coordM_noV c 0 hM]⟩

theorem MArr.fromG {n : ℕ} (hn : 0 < n) (hM : some 'v' ∉ M) (h : MArr (sampled g n) M A f) :
    MArr g M A (fun c => f { c with v := 0 }) :=
  ⟨by rw [← sizeM_sampled g n hM]; exact h.1, fun c hc => by
    beta_reduce
    rw [← h.2 { c with v := 0 } ⟨hc.1, hn, hc.2.2⟩, coordM_noV c 0 hM]⟩

/-- Powers with exponents that vary along the last axis. -/
theorem MArr.powN {J : Arr ℕ} {k : Cell → ℕ} (hA : MArr g M A f) (hs : J.shape = N.map (sizeM g))
    (hJ : ∀ c, g.Has c → J.get (N.map (coordM c)) = k c) (hj : joinR M.reverse N.reverse = some R.reverse) :
    ∃ r, Np.bop (fun x k => Num.npow x k) A J = .ok r ∧ MArr g R r (fun c => (f c).npow (k c)) := by
  have hs' := joinR_shape g _ _ _ hj
  simp only [List.map_reverse] at hs'
  refine ⟨⟨R.map (sizeM g), fun i => Num.npow (A.get (bproj A.shape i)) (J.get (bproj J.shape i))⟩, ?_, rfl,
    fun c hc => ?_⟩
  · simp [Np.bop, hA.1, hs, hs']
  · obtain ⟨h1, h2⟩ := joinR_idx g hc _ _ _ hj
    simp only [List.map_reverse] at h1 h2
    simp only [bproj, hA.1, hs, h1, h2, List.reverse_reverse, hA.2 c hc, hJ c hc]

theorem mapM_ok {α β : Type} {f : α → Py β} {h : α → β} (hf : ∀ a, f a = .ok (h a)) (l : List α) :
    l.mapM f = .ok (l.map h) := by
  induction l with
  | nil => rfl
  | cons a l ih => simp only [List.mapM_cons, hf, ih, List.map_cons]; rfl

/-- `np.array([f(k) for k in range(j + 1)])`. -/
theorem tabulate_marr {F : ℕ → Py (Arr Num)} {h : ℕ → Cell → Num} {U : List Char} (hv : 0 < g.nv) (hU : 'v' ∉ U)
    (hF : ∀ k, ∃ C, F k = .ok C ∧ MArr g (U.map some) C (h k)) (j : ℕ) :
    ∃ T, Param.tabulate F j = .ok T ∧
      MArr (sampled g (j + 1)) (some 'v' :: U.map some) T (fun c => h c.v { c with v := 0 }) := by
  choose C h1 h2 using hF
  have hU' : some 'v' ∉ U.map some := by simpa using hU
  have e : (List.range (j + 1)).map C = C 0 :: (List.range j).map (fun k => C (k + 1)) := by
    rw [List.range_succ_eq_map, List.map_cons, List.map_map]; rfl
  refine ⟨⟨(j + 1) :: (C 0).shape, fun i => (((List.range (j + 1)).map C).getD (i.headD 0) (C 0)).get i.tail⟩, ?_, ?_, ?_⟩
  · simp only [Param.tabulate, mapM_ok h1, Py.ok_bind, e, stack, List.length_map, List.length_range]
    rw [if_pos]
    intro b hb
    obtain ⟨k, -, rfl⟩ := List.mem_map.1 hb
    rw [(h2 _).1, (h2 _).1]
  · simp only [List.map_cons, sizeM_sampled g _ hU', (h2 0).1]
    rfl
  · intro c hc
    have hk : c.v < j + 1 := hc.2.1
    simp only [List.map_cons, List.headD_cons, List.tail_cons]
    have : coordM c (some 'v') = c.v := rfl
    rw [this, List.getD_eq_getElem?_getD, List.getElem?_map, List.getElem?_range hk]
    simp only [Option.map_some, Option.getD_some]
    rw [← (h2 c.v).2 _ (sampled_has hv hc), coordM_noV c 0 hU']

/-! ### Means and central moments given age and position -/

/-- Axis letters with and without metallicity. -/
def lettersV (zIn : Bool) : List Char := if zIn then ['t','x','y','z'] else ['t','x','y']

/-- The factor of `sigma**k` in `get_central_moment_v_tx`. -/
def momF (f2 : ℝ) (k : ℕ) : ℝ := if k % 2 = 0 then (if k = 0 then f2 else (Nat.doubleFactorial (k - 1) : ℝ)) else 0

theorem momF_one (k : ℕ) : momF 1 k = stdMom k := by
  unfold momF stdMom
  split_ifs with h h0
  · subst h0; simp
  · rfl
  · rfl

theorem ParamIs.spreadZ (h : ParamIs p g m L) (hA : MArr g (['t','x','y'].map some) A f) :
    ∃ r, p.spreadZ A = .ok r ∧ MArr g (['t','x','y','z'].map some) r f := by
  have e1 : p.cube.ssps.deltaZ.shape.headD 0 = g.nz := by rw [h.cubeIs.deltaZ.1]; rfl
  have hj : joinR (['t','x','y'].map some).reverse (['z','t','x','y'].map some).reverse =
    some (['z','t','x','y'].map some).reverse := rfl
  have hs := joinR_shape g _ _ _ hj
  simp only [List.map_reverse] at hs
  have e : g.nz :: A.shape = (['z','t','x','y'].map some).map (sizeM g) := by rw [hA.1]; rfl
  have hB : MArr g (['z','t','x','y'].map some) ⟨(['z','t','x','y'].map some).map (sizeM g),
      fun i => A.get (bproj A.shape i)⟩ f := by
    refine ⟨rfl, fun c hc => ?_⟩
    obtain ⟨h1, -⟩ := joinR_idx g hc _ _ _ hj
    simp only [List.map_reverse] at h1
    simp only [bproj, hA.1, h1, List.reverse_reverse, hA.2 c hc]
  obtain ⟨r, k1, k2⟩ := hB.moveaxis (src := [0]) (dst := [-1]) (R := ['t','x','y','z'].map some) (by decide +kernel)
  refine ⟨r, ?_, k2⟩
  have kb : broadcastTo (g.nz :: A.shape) A = .ok ⟨(['z','t','x','y'].map some).map (sizeM g),
      fun i => A.get (bproj A.shape i)⟩ := by
    rw [e]
    unfold broadcastTo
    rw [hA.1, hs]
    simp
  simp only [Param.spreadZ, e1, kb, Py.ok_bind, k1]

theorem ParamIs.meanVtx (h : ParamIs p g m L) (lw : Bool) :
    ∃ E, p.meanVtx lw = .ok E ∧ MArr g (['t','x','y'].map some) E (fun c => .fin (m.mu c.t c.x c.y)) := by
  obtain ⟨E, h1, h2⟩ := h.muV
  exact ⟨E, by simp [Param.meanVtx, h1, Param.attr], IsArr.marr (by decide) h2⟩

theorem ParamIs.meanVtxz (h : ParamIs p g m L) (lw : Bool) :
    ∃ E, p.meanVtxz lw = .ok E ∧ MArr g (['t','x','y','z'].map some) E (fun c => .fin (m.mu c.t c.x c.y)) := by
  obtain ⟨E, h1, h2⟩ := h.meanVtx lw
  obtain ⟨r, h3, h4⟩ := h.spreadZ h2
  exact ⟨r, by simp only [Param.meanVtxz, h1, Py.ok_bind, h3], h4⟩

theorem ParamIs.centralVtx (h : ParamIs p g m L) (j : ℕ) :
    ∃ C, p.centralVtx j = .ok C ∧
      MArr g (['t','x','y'].map some) C (fun c => .fin (m.sig c.t c.x c.y ^ j * momF p.f2 j)) := by
  obtain ⟨S, h1, h2⟩ := h.sigV
  have h3 : MArr g (['t','x','y'].map some) S _ := IsArr.marr (by decide) h2
  by_cases hj : j % 2 = 0
  · refine ⟨Np.map (fun s => s.npow j * .fin (p.fact2 j)) S, by simp [Param.centralVtx, h1, Param.attr, hj],
      (h3.map _).congr fun c hc => ?_⟩
    simp only [Num.npow_fin, Num.fin_mul, momF, hj, if_true, Param.fact2]
  · refine ⟨full S.shape (.fin 0), by simp [Param.centralVtx, h1, Param.attr, hj], ?_, fun c hc => ?_⟩
    · simp only [full, h3.1]
    · simp [full, momF, hj]

theorem ParamIs.centralVtxz (h : ParamIs p g m L) (j : ℕ) :
    ∃ C, p.centralVtxz j = .ok C ∧
      MArr g (['t','x','y','z'].map some) C (fun c => .fin (m.sig c.t c.x c.y ^ j * momF p.f2 j)) := by
  obtain ⟨E, h1, h2⟩ := h.centralVtx j
  obtain ⟨r, h3, h4⟩ := h.spreadZ h2
  exact ⟨r, by simp only [Param.centralVtxz, h1, Py.ok_bind, h3], h4⟩

theorem ParamIs.meanE (h : ParamIs p g m L) (zIn lw : Bool) :
    ∃ E, (if zIn then p.meanVtxz lw else p.meanVtx lw) = .ok E ∧
      MArr g ((lettersV zIn).map some) E (fun c => .fin (m.mu c.t c.x c.y)) := by
  cases zIn
  · exact h.meanVtx lw
  · exact h.meanVtxz lw

theorem ParamIs.centE (h : ParamIs p g m L) (zIn : Bool) (j : ℕ) :
    ∃ C, (if zIn then p.centralVtxz else p.centralVtx) j = .ok C ∧
      MArr g ((lettersV zIn).map some) C (fun c => .fin (m.sig c.t c.x c.y ^ j * momF p.f2 j)) := by
  cases zIn
  · exact h.centralVtx j
  · exact h.centralVtxz j

/-! ### The helper -/

/-- One term of the expansion. -/
def termV (m : Ingredients) (f2 : ℝ) (j : ℕ) (al w : Num) (d : Cell) (k : ℕ) : Num :=
  (Num.fin (m.mu d.t d.x d.y) - al).npow (j - k) * .fin (m.sig d.t d.x d.y ^ k * momF f2 k) * w

theorem ParamIs.momentV' (h : ParamIs p g m L) (zIn lw : Bool) (j : ℕ) {W MU : Arr Num} {MW : List (Option Char)} {w al : Cell → Num}
    (hW : MArr g MW W w) (hMU : MArr g N MU al)
    (hMW : ixM (if zIn then [Ix.all, .all, .all, .all, .na] else [Ix.all, .all, .all, .na]) MW = some (MW ++ [none]))
    (hjW : joinR ((lettersV zIn).map some ++ [some 'v']).reverse (MW ++ [none]).reverse =
      some ((lettersV zIn).map some ++ [some 'v']).reverse) (hMv : some 'v' ∉ MW)
    (hN : joinR ((lettersV zIn).map some).reverse N.reverse = some ((lettersV zIn).map some).reverse)
    (hw : ∀ c v, w { c with v := v } = w c) (ha : ∀ c v, al { c with v := v } = al c)
    {axes : List ℤ} {S V : List Char} (hr : removable (lettersV zIn ++ ['v']) S)
    (hax : axesD (lettersV zIn ++ ['v']) axes S) (hV : (lettersV zIn ++ ['v']).diff S = V ++ ['v'])
    (hVl : lettersOK (V ++ ['v'])) (hSv : 'v' ∉ S) (hlast : axesD (V ++ ['v']) [-1] ['v'])
    (hdiff : (V ++ ['v']).diff ['v'] = V) :
    ∃ r, p.momentV axes zIn W j MU lw = .ok r ∧ MArr g (V.map some) r (fun c =>
      ∑ k : Fin (j + 1), .fin (j.choose k) * sumOver g S (fun d => termV m p.f2 j (al d) (w d) d k) c) := by
  have hv := h.proper.nv
  have hj1 : 0 < j + 1 := Nat.succ_pos j
  obtain ⟨E, e1, e2⟩ := h.meanE zIn lw
  have hVN : 'v' ∉ V := by
    have := hVl.1
    rw [List.nodup_append] at this
    exact fun hm => this.2.2 _ hm _ (by simp) rfl
  have hLv : some 'v' ∉ (lettersV zIn).map some := by cases zIn <;> decide
  -- exponents
  set U := lettersV zIn with hU
  have hUv : (U ++ ['v']).map some = U.map some ++ [some 'v'] := by simp
  have hjJ : joinR [some 'v'] (U.map some ++ [some 'v']).reverse = some (U.map some ++ [some 'v']).reverse := by
    rw [List.reverse_append]; simp [joinR, joinM, joinR_nil_left]
  have hsJ := joinR_shape (sampled g (j + 1)) _ _ _ hjJ
  have hshape : E.shape ++ [j + 1] = (U.map some ++ [some 'v']).map (sizeM (sampled g (j + 1))) := by
    rw [List.map_append, sizeM_sampled g _ hLv, e2.1]; rfl
  have eJ : broadcastTo (E.shape ++ [j + 1]) (vec (j + 1) (fun k => j - k)) =
      .ok ⟨(U.map some ++ [some 'v']).map (sizeM (sampled g (j + 1))),
        fun i => (vec (j + 1) (fun k => j - k)).get (bproj [j + 1] i)⟩ := by
    rw [hshape]
    unfold broadcastTo
    simp only [List.map_reverse] at hsJ
    have : (vec (j + 1) (fun k => j - k)).shape.reverse = ([some 'v'].map (sizeM (sampled g (j + 1)))) := rfl
    rw [this, hsJ]
    simp [vec]
  have hJ : ∀ c, (sampled g (j + 1)).Has c →
      (vec (j + 1) (fun k => j - k)).get (bproj [j + 1] ((U.map some ++ [some 'v']).map (coordM c))) = j - c.v := by
    intro c hc
    obtain ⟨h1, -⟩ := joinR_idx (sampled g (j + 1)) hc _ _ _ hjJ
    simp only [List.map_reverse] at h1
    have e : [j + 1] = ([some 'v'].map (sizeM (sampled g (j + 1)))).reverse := rfl
    rw [e]
    simp only [bproj, List.reverse_reverse, h1]
    rfl
  -- mean shifts
  obtain ⟨D, d1, d2⟩ := MArr.bop (R := U.map some) (· - ·) e2 hMU hN
  have hix : ixM (if zIn then [Ix.all, .all, .all, .all, .na] else [Ix.all, .all, .all, .na]) (U.map some) =
      some (U.map some ++ [none]) := by cases zIn <;> rfl
  obtain ⟨D', d3, d4⟩ := d2.getitem _ hix
  obtain ⟨W', w1, w2⟩ := hW.getitem _ hMW
  have hLn : some 'v' ∉ U.map some ++ [none] := by cases zIn <;> decide
  -- tables of central moments
  obtain ⟨C, c1, c2⟩ := tabulate_marr hv (by cases zIn <;> decide) (h.centE zIn) j
  have hmv : moveM [0] [-1] (some 'v' :: U.map some) = some (U.map some ++ [some 'v']) := by
    cases zIn <;> decide +kernel
  obtain ⟨C', c3, c4⟩ := c2.moveaxis hmv
  have j1 : joinR (U.map some ++ [none]).reverse (U.map some ++ [some 'v']).reverse =
      some (U.map some ++ [some 'v']).reverse := by cases zIn <;> rfl
  have j2 : joinR (U.map some ++ [some 'v']).reverse (U.map some ++ [some 'v']).reverse =
      some (U.map some ++ [some 'v']).reverse := joinR_self _
  obtain ⟨P, p1, p2⟩ := (d4.toG (n := j + 1) hv hLn).powN (N := U.map some ++ [some 'v'])
    (J := ⟨(U.map some ++ [some 'v']).map (sizeM (sampled g (j + 1))),
        fun i => (vec (j + 1) (fun k => j - k)).get (bproj [j + 1] i)⟩) (k := fun c => j - c.v) rfl hJ j1
  obtain ⟨Q, q1, q2⟩ := MArr.bop (R := U.map some ++ [some 'v']) (· * ·) p2 c4 j2
  obtain ⟨X, x1, x2⟩ := MArr.bop (R := U.map some ++ [some 'v']) (· * ·) q2 (w2.toG (n := j + 1) hv (by simpa using hMv)) hjW
  have x3 : MArr (sampled g (j + 1)) ((U ++ ['v']).map some) X (fun c => termV m p.f2 j (al c) (w c) c c.v) := by
    rw [hUv]
    refine x2.congr fun c hc => ?_
    simp only [termV]
    rw [← hw c 0, ← ha c 0]
  obtain ⟨Y, y1, y2⟩ := x3.sumL (by cases zIn <;> decide) hr hax hV
  have hch : Is1 (vec (j + 1) (fun k => Num.fin (Nat.choose j k))) (j + 1) (fun k => (Nat.choose j k : ℝ)) :=
    ⟨rfl, fun _ _ => rfl⟩
  obtain ⟨Z, z1, z2⟩ := MArr.bop (R := (V ++ ['v']).map some) (· * ·)
    (Is1.marr (g := sampled g (j + 1)) (ch := 'v') (F := fun k => (Nat.choose j k : ℝ)) hch) y2 (by
      rw [List.map_append, List.reverse_append]
      simp [joinR, joinM, joinR_nil_left])
  obtain ⟨r, r1, r2⟩ := z2.sumL hVl (S := ['v']) (by simp [removable]) hlast hdiff
  refine ⟨r, ?_, (r2.fromG hj1 (by simpa using hVN)).congr fun c hc => ?_⟩
  · unfold Param.momentV
    simp only [e1, eJ, d1, d3, w1, c1, c3, p1, q1, x1, y1, z1, r1, Py.ok_bind, Np.sub, Np.mul]
  · show ∑ k : Fin (j + 1), _ = _
    refine Finset.sum_congr rfl fun k _ => ?_
    have e : ∀ d : Cell, setL d 'v' k = { d with v := (k : ℕ) } := fun d => rfl
    have hsz : ∀ (T : List Char) (F : Cell → Num) (d : Cell), 'v' ∉ T →
        sumOver (sampled g (j + 1)) T F d = sumOver g T F d := by
      intro T
      induction T with
      | nil => intros; rfl
      | cons u T ih =>
        intro F d hu
        simp only [List.mem_cons, not_or] at hu
        have es : sizeL (sampled g (j + 1)) u = sizeL g u := by simp [sizeL, sampled, Ne.symm hu.1]
        simp only [sumOver]
        rw [ih _ _ hu.2]
        congr 1
        funext d'
        rw [← Finset.sum_range (fun i => F (setL d' u i)), ← Finset.sum_range (fun i => F (setL d' u i)), es]
    have hSA : ∀ ch ∈ S, AxisChar ch := fun ch hc' => by
      have := removable_sub hr ch hc'
      unfold AxisChar
      revert this
      rw [hU]
      cases zIn <;> simp [lettersV] <;> tauto
    have e0 : setL { c with v := 0 } 'v' (k : ℕ) = setL c 'v' k := rfl
    show Num.fin (j.choose k : ℝ) * sumOver (sampled g (j + 1)) S (fun c => termV m p.f2 j (al c) (w c) c c.v)
      (setL { c with v := 0 } 'v' k) = _
    rw [hsz _ _ _ hSv, e0, ← sumOver_setL g S _ _ c hSv (by decide) hSA]
    congr 2
    funext d
    rw [e, hw, ha]
    rfl

theorem ParamIs.momentV (h : ParamIs p g m L) (zIn lw : Bool) (j : ℕ) {W MU : Arr Num} {w al : Cell → Num}
    (hW : MArr g ((lettersV zIn).map some) W w) (hMU : MArr g N MU al)
    (hN : joinR ((lettersV zIn).map some).reverse N.reverse = some ((lettersV zIn).map some).reverse)
    (hw : ∀ c v, w { c with v := v } = w c) (ha : ∀ c v, al { c with v := v } = al c)
    {axes : List ℤ} {S V : List Char} (hr : removable (lettersV zIn ++ ['v']) S)
    (hax : axesD (lettersV zIn ++ ['v']) axes S) (hV : (lettersV zIn ++ ['v']).diff S = V ++ ['v'])
    (hVl : lettersOK (V ++ ['v'])) (hSv : 'v' ∉ S) (hlast : axesD (V ++ ['v']) [-1] ['v'])
    (hdiff : (V ++ ['v']).diff ['v'] = V) :
    ∃ r, p.momentV axes zIn W j MU lw = .ok r ∧ MArr g (V.map some) r (fun c =>
      ∑ k : Fin (j + 1), .fin (j.choose k) * sumOver g S (fun d => termV m p.f2 j (al d) (w d) d k) c) :=
  h.momentV' zIn lw j hW hMU (by cases zIn <;> rfl) (by cases zIn <;> rfl) (by cases zIn <;> decide) hN hw ha hr hax hV
    hVl hSv hlast hdiff

/-! ### Evaluation -/

/-- What the expansion computes at one age and pixel. -/
def gmom (f2 μ σ a : ℝ) (j : ℕ) : ℝ :=
  ∑ k ∈ Finset.range (j + 1), (μ - a) ^ (j - k) * (σ ^ k * momF f2 k) * (j.choose k : ℝ)

theorem gmom_one (μ σ a : ℝ) (j : ℕ) : gmom 1 μ σ a j = ∫ v, (v - a) ^ j ∂(normal μ σ) := by
  rw [normal_moment]; simp only [gmom, momF_one]

theorem termV_fin (m : Ingredients) (f2 : ℝ) (j : ℕ) (a w : ℝ) (d : Cell) (k : ℕ) :
    termV m f2 j (.fin a) (.fin w) d k =
      .fin ((m.mu d.t d.x d.y - a) ^ (j - k) * (m.sig d.t d.x d.y ^ k * momF f2 k) * w) := by
  simp [termV]

theorem momV_eval (hg : g.Proper) {S : List Char} {f2 : ℝ} {j : ℕ} {al : Cell → Num} {W D : Cell → ℝ} {a : ℝ} {c : Cell}
    (hal : ∀ u ∈ S, ∀ (d : Cell) (i : ℕ), al (setL d u i) = al d)
    (hD : ∀ u ∈ S, ∀ (d : Cell) (i : ℕ), D (setL d u i) = D d) (hac : D c ≠ 0 → al c = .fin a) :
    ∑ k : Fin (j + 1), Num.fin (j.choose k) *
      sumOver g S (fun d => termV m f2 j (al d) (condTable (W d) (D d) 1) d k) c =
    if D c = 0 then .nan else
      .fin (sumOver g S (fun d => W d * gmom f2 (m.mu d.t d.x d.y) (m.sig d.t d.x d.y) a j) c / D c) := by
  have e : ∀ k : ℕ, sumOver g S (fun d => termV m f2 j (al d) (condTable (W d) (D d) 1) d k) c =
      sumOver g S (fun d => termV m f2 j (al c) (condTable (W d) (D c) 1) d k) c := fun k =>
    sumOver_inv g S (fun c d => termV m f2 j (al c) (condTable (W d) (D c) 1) d k) c fun u hu d i => by
      rw [hal u hu, hD u hu]
  simp only [e]
  by_cases h0 : D c = 0
  · simp only [h0, if_true, condTable, termV, Num.mul_nan, sumOver_nan hg]
    rw [Fin.sum_univ_succ]
    simp
  · simp only [h0, if_false, hac h0, condTable, termV_fin, sumOver_fin, Num.fin_mul, Num.fin_sum]
    congr 1
    rw [← Finset.sum_range (fun k => ((j.choose k : ℕ) : ℝ) * sumOver g S (fun d =>
      (m.mu d.t d.x d.y - a) ^ (j - k) * (m.sig d.t d.x d.y ^ k * momF f2 k) * (W d / D c / 1)) c)]
    simp only [← sumOver_mul]
    rw [← sumOver_sum, div_eq_inv_mul, ← sumOver_mul]
    congr 1
    funext d
    simp only [gmom, Finset.mul_sum]
    refine Finset.sum_congr rfl fun k _ => ?_
    field_simp

/-! ### The joint distribution of age, position and metallicity -/

/-- The distribution behind all weights, with velocity spread evenly. -/
def PS (g : Grid) (m : Ingredients) (L : ℕ → ℕ → ℝ) (lw : Bool) : Cell → ℝ := wtdP g L (m.spread g) lw

def wU (zIn : Bool) : PyStr := if zIn then ['t','x','z'] else ['t','x']

/-- Conditioners whose weights come from a conditional distribution, and the axes summed. -/
def velCases : List (Bool × PyStr × List ℤ) :=
  [(false, ['x'], [0]), (false, ['t'], [1, 2]), (true, ['t','z'], [1, 2]), (true, ['x','z'], [0]), (true, ['z'], [0, 1, 2])]

theorem velCases_facts : ∀ q ∈ velCases, (wU q.1, q.2.1) ∈ nested ∧ DistChars q.2.1 ∧ 'v' ∉ q.2.1 ∧
    removable (lettersV q.1 ++ ['v']) (extraL (wU q.1) q.2.1) ∧
    axesD (lettersV q.1 ++ ['v']) q.2.2 (extraL (wU q.1) q.2.1) ∧
    (lettersV q.1 ++ ['v']).diff (extraL (wU q.1) q.2.1) = PyStr.replaceX q.2.1 ++ ['v'] ∧
    lettersOK (PyStr.replaceX q.2.1 ++ ['v']) ∧ 'v' ∉ extraL (wU q.1) q.2.1 ∧
    axesD (PyStr.replaceX q.2.1 ++ ['v']) [-1] ['v'] ∧
    (PyStr.replaceX q.2.1 ++ ['v']).diff ['v'] = PyStr.replaceX q.2.1 ∧
    (∀ u ∈ extraL (wU q.1) q.2.1, AxisChar u ∧ u ∉ PyStr.replaceX q.2.1) := by
  unfold AxisChar DistChars; decide +kernel

/-- A function of age and position only. -/
def OnTX (G : Cell → ℝ) : Prop := ∀ c d : Cell, coords ['t','x'] c = coords ['t','x'] d → G c = G d

theorem marg_onTX {P G : Cell → ℝ} (hG : OnTX G) (zIn : Bool) (c : Cell) :
    g.marg P (wU zIn) c * G c = g.marg (fun d => P d * G d) (wU zIn) c := by
  rw [mul_comm, ← marg_mul_of_coords]
  · simp only [mul_comm]
  · intro d hd
    refine hG d c ?_
    cases zIn <;> simp [wU, coords, coord1] at hd ⊢ <;> tauto

theorem sumOver_weights {P G : Cell → ℝ} (hG : OnTX G) {zIn : Bool} {b : PyStr} (hb : (wU zIn, b) ∈ nested) {c : Cell}
    (hc : g.Has c) : sumOver g (extraL (wU zIn) b) (fun d => g.marg P (wU zIn) d * G d) c = g.marg (fun d => P d * G d) b c := by
  simp only [marg_onTX hG zIn]
  exact sumOver_marg_nested g _ hb hc

/-- Moments with weights from a conditional distribution. -/
theorem ParamIs.momentNested (h : ParamIs p g m L) (lw : Bool) (j : ℕ) {q : Bool × PyStr × List ℤ} (hq : q ∈ velCases)
    {W MU : Arr Num} {al : List ℕ → Num} {a : List ℕ → ℝ}
    (hW : MArr g ((lettersV q.1).map some) W (fun c => condTable (g.marg (PS g m L lw) (wU q.1) c)
      (g.marg (PS g m L lw) q.2.1 c) 1))
    (hMU : MArr g N MU (fun c => al (coords q.2.1 c)))
    (hN : joinR ((lettersV q.1).map some).reverse N.reverse = some ((lettersV q.1).map some).reverse)
    (hal : ∀ c, g.Has c → g.marg (PS g m L lw) q.2.1 c ≠ 0 → al (coords q.2.1 c) = .fin (a (coords q.2.1 c))) :
    ∃ r, p.momentV q.2.2 q.1 W j MU lw = .ok r ∧ IsArr g q.2.1 r (fun c =>
      condTable (g.marg (fun d => PS g m L lw d *
        gmom p.f2 (m.mu d.t d.x d.y) (m.sig d.t d.x d.y) (a (coords q.2.1 c)) j) q.2.1 c)
        (g.marg (PS g m L lw) q.2.1 c) 1) := by
  obtain ⟨f1, f2, f2', f3, f4, f5, f6, f7, f8, f9, f10⟩ := velCases_facts q hq
  have hv : ∀ (w : PyStr), 'v' ∉ w → ∀ (c : Cell) v, g.marg (PS g m L lw) w { c with v := v } = g.marg (PS g m L lw) w c :=
    fun w hw c v => by simp only [Grid.marg, coords_noV hw]
  obtain ⟨r, h1, h2⟩ := h.momentV q.1 lw j hW hMU hN
    (fun c v => by rw [hv _ f2', hv]; cases q.1 <;> decide) (fun c v => by rw [coords_noV f2']) f3 f4 f5 f6 f7 f8 f9
  refine ⟨r, h1, MArr.isArr f2 (h2.congr fun c hc => ?_)⟩
  have hG : ∀ a, OnTX (fun d => gmom p.f2 (m.mu d.t d.x d.y) (m.sig d.t d.x d.y) a j) := fun a c d hcd => by
    simp [coords, coord1] at hcd; simp [hcd]
  rw [momV_eval h.proper (a := a (coords q.2.1 c))
    (fun u hu d i => by rw [coords_setL f2 (f10 u hu).1 (f10 u hu).2])
    (fun u hu d i => marg_setL g _ f2 (f10 u hu).1 (f10 u hu).2 d i) (hal c hc),
    sumOver_weights (hG _) f1 hc]
  simp [condTable]

/-- Means with weights from a conditional distribution: `sum(E * W, axes)` for arrays with the same axes. -/
theorem meanNested (hg : g.Proper) {zIn : Bool} {b : PyStr} (hb : (wU zIn, b) ∈ nested) (hd : DistChars b)
    (hx : ∀ u ∈ extraL (wU zIn) b, AxisChar u ∧ u ∉ PyStr.replaceX b) {P : Cell → ℝ} {U : List Char}
    {E W : Arr Num}
    (hE : MArr g (U.map some) E (fun c => .fin (m.mu c.t c.x c.y)))
    (hW : MArr g (U.map some) W (fun c => condTable (g.marg P (wU zIn) c) (g.marg P b c) 1))
    (hU : lettersOK U) (hr : removable U (extraL (wU zIn) b)) {axes : List ℤ}
    (ha : axesD U axes (extraL (wU zIn) b)) (hV : U.diff (extraL (wU zIn) b) = PyStr.replaceX b) :
    ∃ X r, Np.mul E W = .ok X ∧ Np.sum axes X = .ok r ∧
      IsArr g b r (fun c => condTable (g.marg (fun d => P d * m.mu d.t d.x d.y) b c) (g.marg P b c) 1) := by
  obtain ⟨X, h1, h2⟩ := MArr.bop (R := U.map some) (· * ·) hE hW (joinR_self _)
  obtain ⟨r, h3, h4⟩ := h2.sumL hU hr ha hV
  refine ⟨X, r, h1, h3, MArr.isArr hd (h4.congr fun c hc => ?_)⟩
  have e := sumOver_inv g (extraL (wU zIn) b)
    (fun c d => Num.fin (m.mu d.t d.x d.y) * condTable (g.marg P (wU zIn) d) (g.marg P b c) 1) c fun u hu d i => by
      funext d'
      rw [marg_setL g _ hd (hx u hu).1 (hx u hu).2]
  beta_reduce at e ⊢
  rw [e]
  by_cases h0 : g.marg P b c = 0
  · simp only [condTable, h0, if_true, Num.mul_nan, sumOver_nan hg]
  · simp only [condTable, h0, if_false, Num.fin_mul, sumOver_fin]
    have hG : OnTX (fun d => m.mu d.t d.x d.y) := fun c d hcd => by
      simp [coords, coord1] at hcd; simp [hcd]
    rw [← sumOver_weights hG hb hc, div_one, div_eq_inv_mul, ← sumOver_mul]
    congr 2
    funext d
    field_simp

end PKM
