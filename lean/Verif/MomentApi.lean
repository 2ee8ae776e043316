import Verif.Expect

/-! Lemmas: means, central moments and derived quantities of a component whose probability tables are
known. -/

open scoped Classical

noncomputable section

namespace PKM
open Np Component

variable {g : Grid}

/-! ### Element-wise operations on arrays of equal shape, or with one extra leading axis -/

theorem bop_same (op : Num → Num → Num) {A B : Arr Num} (h : A.shape = B.shape) :
    ∃ r, bop op A B = .ok r ∧ r.shape = A.shape ∧
      ∀ i, InBox A.shape i → r.get i = op (A.get i) (B.get i) := by
  refine ⟨⟨A.shape, fun i => op (A.get (bproj A.shape i)) (B.get (bproj B.shape i))⟩, ?_, rfl, ?_⟩
  · simp [bop, ← h, bshapeR_self]
  · intro i hi
    simp only [← h, bproj_self hi]

theorem bshapeR_prefix : ∀ (s t : List ℕ), bshapeR (s ++ t) s = some (s ++ t) ∧
    bshapeR s (s ++ t) = some (s ++ t)
  | [], t => by simp
  | n :: s, t => by simp [bshapeR, bshapeR_prefix s t]

theorem zipWith_prefix : ∀ {s i : List ℕ} (r : List ℕ), InBox s i →
    List.zipWith bidx s (i ++ r) = i
  | [], [], r, _ => by simp
  | n :: s, j :: i, r, h => by simp [zipWith_prefix r h.2, bidx_lt h.1]

theorem inBox_reverse_iff {s i : List ℕ} (h : InBox s i) : InBox s.reverse i.reverse := by
  induction s generalizing i with
  | nil => cases i <;> simp_all [InBox]
  | cons n s ih =>
    cases i with
    | nil => simp [InBox] at h
    | cons j i =>
      rw [List.reverse_cons, List.reverse_cons]
      exact inBox_append (ih h.2) ⟨h.1, trivial⟩

theorem bproj_lead {s i : List ℕ} (k : ℕ) (h : InBox s i) : bproj s (k :: i) = i := by
  unfold bproj
  rw [List.reverse_cons, zipWith_prefix [k] (inBox_reverse_iff h), List.reverse_reverse]

theorem bop_lead (op : Num → Num → Num) {A B : Arr Num} {n : ℕ} (h : A.shape = n :: B.shape) :
    ∃ r, bop op A B = .ok r ∧ r.shape = A.shape ∧
      ∀ k i, k < n → InBox B.shape i → r.get (k :: i) = op (A.get (k :: i)) (B.get i) := by
  refine ⟨⟨A.shape, fun i => op (A.get (bproj A.shape i)) (B.get (bproj B.shape i))⟩, ?_, rfl, ?_⟩
  · simp [bop, h, (bshapeR_prefix _ _).1]
  · intro k i hk hi
    have : InBox A.shape (k :: i) := by rw [h]; exact ⟨hk, hi⟩
    simp only [bproj_self this, bproj_lead k hi]

theorem bop_lead' (op : Num → Num → Num) {A B : Arr Num} {n : ℕ} (h : B.shape = n :: A.shape) :
    ∃ r, bop op A B = .ok r ∧ r.shape = B.shape ∧
      ∀ k i, k < n → InBox A.shape i → r.get (k :: i) = op (A.get i) (B.get (k :: i)) := by
  refine ⟨⟨B.shape, fun i => op (A.get (bproj A.shape i)) (B.get (bproj B.shape i))⟩, ?_, rfl, ?_⟩
  · simp [bop, h, (bshapeR_prefix _ _).2]
  · intro k i hk hi
    have : InBox B.shape (k :: i) := by rw [h]; exact ⟨hk, hi⟩
    simp only [bproj_self this, bproj_lead k hi]

/-! ### Results for one variable -/

/-- The array `r` holds, for each quantity `q` of variable `a`, the function `F q` of the
conditioners `b`. -/
def IsMom (g : Grid) (a b : PyStr) (r : Arr Num) (F : Char → Cell → Num) : Prop :=
  r.shape = compShape a ++ g.shapeOf b ∧
  ∀ q ∈ PyStr.replaceX a, ∀ c, g.Has c → r.get (compIdx q ++ coords b c) = F q c

theorem IsMom.congr {a b : PyStr} {r : Arr Num} {F F' : Char → Cell → Num} (h : IsMom g a b r F)
    (hF : ∀ q ∈ PyStr.replaceX a, ∀ c, g.Has c → F q c = F' q c) : IsMom g a b r F' :=
  ⟨h.1, fun q hq c hc => (h.2 q hq c hc).trans (hF q hq c hc)⟩

theorem isMom_tvz {q : Char} (hq : q ∈ ['t','v','z']) {b : PyStr} (hb : DistChars b) {r : Arr Num}
    {F : Char → Cell → Num} :
    IsMom g [q] b r F ↔ MArr g ((PyStr.replaceX b).map some) r (F q) := by
  rw [← larr_iff, ← isArr_iff hb]
  have h1 : PyStr.replaceX [q] = [q] := by fin_cases hq <;> rfl
  have h2 : compShape [q] = [] := by fin_cases hq <;> decide
  have h3 : compIdx q = [] := by fin_cases hq <;> decide
  simp [IsMom, IsArr, h1, h2, h3]

theorem isMom_x {b : PyStr} (hb : DistChars b) {r : Arr Num} {F : Char → Cell → Num} :
    IsMom g ['x'] b r F ↔ StackIs g ((PyStr.replaceX b).map some) r (F 'x') (F 'y') := by
  have h1 : PyStr.replaceX ['x'] = ['x','y'] := rfl
  have h2 : compShape ['x'] = [2] := by decide
  have h3 : compIdx 'x' = [0] := by decide
  have h4 : compIdx 'y' = [1] := by decide
  have e1 : ((PyStr.replaceX b).map some).map (sizeM g) = g.shapeOf b := by
    rw [shapeOf_letters g hb, List.map_map]; rfl
  have e2 : ∀ c, ((PyStr.replaceX b).map some).map (coordM c) = coords b c := by
    intro c; rw [coords_letters c hb, List.map_map]; rfl
  unfold IsMom StackIs
  simp only [h1, h2, h3, h4, e1, e2, List.mem_cons, List.not_mem_nil, or_false, forall_eq_or_imp,
    forall_eq, List.cons_append, List.nil_append]
  constructor
  · rintro ⟨k1, k2, k3⟩; exact ⟨k1, fun c hc => ⟨k2 c hc, k3 c hc⟩⟩
  · rintro ⟨k1, k2⟩; exact ⟨k1, fun c hc => (k2 c hc).1, fun c hc => (k2 c hc).2⟩

theorem inBox_comp {a b : PyStr} (ha : a ∈ [['t'],['v'],['x'],['z']]) {q : Char}
    (hq : q ∈ PyStr.replaceX a) {c : Cell} (hc : g.Has c) :
    InBox (compShape a ++ g.shapeOf b) (compIdx q ++ coords b c) := by
  refine inBox_append ?_ (inBox_coords hc b)
  fin_cases ha <;> revert q <;> simp [PyStr.replaceX, compShape, compIdx, InBox]

theorem IsMom.map {a b : PyStr} {r : Arr Num} {F : Char → Cell → Num} (k : Num → Num)
    (h : IsMom g a b r F) : IsMom g a b (Np.map k r) (fun q c => k (F q c)) :=
  ⟨h.1, fun q hq c hc => by simp [Np.map, h.2 q hq c hc]⟩

theorem IsMom.bop {a b : PyStr} {r r' : Arr Num} {F F' : Char → Cell → Num}
    (ha : a ∈ [['t'],['v'],['x'],['z']]) (op : Num → Num → Num)
    (h : IsMom g a b r F) (h' : IsMom g a b r' F') :
    ∃ s, Np.bop op r r' = .ok s ∧ IsMom g a b s (fun q c => op (F q c) (F' q c)) := by
  obtain ⟨s, h1, h2, h3⟩ := bop_same op (A := r) (B := r') (h.1.trans h'.1.symm)
  refine ⟨s, h1, h2.trans h.1, fun q hq c hc => ?_⟩
  rw [h3 _ (by rw [h.1]; exact inBox_comp ha hq hc), h.2 q hq c hc, h'.2 q hq c hc]

theorem headVar_distStr {a b : PyStr} (ha : DistChars a) (hb : DistChars b) :
    headVar (distStr a b) = a := by
  unfold headVar distStr
  split
  · rw [split_noUnderscore ha.noUnderscore]; rfl
  · rw [split_condStr ha.noUnderscore hb.noUnderscore]; rfl

theorem condVars_condStr {a b : PyStr} (ha : DistChars a) (hb : DistChars b) :
    condVars (condStr a b) = .ok b := by
  unfold condVars
  rw [split_condStr ha.noUnderscore hb.noUnderscore]

/-- Probability table of `a` given `b`. -/
def HasTab (getP : PyStr → Bool → Bool → Py (Arr Num)) (g : Grid) (lw : Bool) (P m : Cell → ℝ)
    (a b : PyStr) : Prop :=
  ∃ A, getP (distStr a b) false lw = .ok A ∧
    LArr g (PyStr.replaceX a ++ PyStr.replaceX b) A (tab g P m a b)

theorem singles : ∀ a ∈ marginals, a.length = 1 → a ∈ [['t'],['v'],['x'],['z']] := by
  decide +kernel

theorem indep_of_respects {a b : PyStr} (h : ValidPair a b) {m : Cell → ℝ} (hm : Respects b m) :
    Indep a m := by
  obtain ⟨h1, h2, h3, h4, -⟩ := validPair_facts a b h
  intro u hu d j
  refine hm _ _ (coords_setL h4 (h2 u (by simp [hu])) (fun h => ?_) d j)
  exact (List.nodup_append.1 h1).2.2 u hu u h rfl

theorem Respects.union_right {a b : PyStr} (h : ValidPair a b) {φ : Cell → ℝ} (hφ : Respects b φ) :
    Respects (unionStr a b) φ := by
  obtain ⟨h1, h2, h3, h4, h5, h6, -⟩ := validPair_facts a b h
  intro d d' e
  apply hφ
  rw [coords_letters _ (marginals_chars _ h5), coords_letters _ (marginals_chars _ h5)] at e
  rw [coords_letters _ h4, coords_letters _ h4]
  exact List.map_congr_left fun ch hch => (List.map_inj_left.1 e) ch (h6 ch (by simp [hch]))

theorem value_eq (g : Grid) {q : Char} {c d : Cell} (h : coordL c q = coordL d q) :
    g.value q c = g.value q d := by
  unfold coordL at h
  unfold Grid.value
  split_ifs at h ⊢ <;> rw [h]

theorem respects_value {a b : PyStr} (h : ValidPair a b) {q : Char} (hq : q ∈ PyStr.replaceX a) :
    Respects (unionStr a b) (g.value q) := by
  obtain ⟨h1, h2, h3, h4, h5, h6, -⟩ := validPair_facts a b h
  intro d d' e
  rw [coords_letters _ (marginals_chars _ h5), coords_letters _ (marginals_chars _ h5)] at e
  exact value_eq g ((List.map_inj_left.1 e) q (h6 q (by simp [hq])))

theorem value_setL {q u : Char} (hq : AxisChar q) (hu : AxisChar u) (h : q ≠ u) (d : Cell) (k : ℕ) :
    g.value q (setL d u k) = g.value q d := by
  apply value_eq
  rw [coordL_setL hu hq, if_neg h]

theorem respects_marg (P : Cell → ℝ) (b : PyStr) : Respects b (g.marg P b) := by
  intro d d' e; simp only [Grid.marg, e]

theorem respects_condWt (P : Cell → ℝ) (b : PyStr) : Respects b (g.condWt P b) := by
  intro d d' e; simp only [Grid.condWt, Grid.marg, e]

theorem freshB {a b : PyStr} (h : ValidPair a b) :
    FreshB (PyStr.replaceX a) ((PyStr.replaceX b).map some) := by
  obtain ⟨h1, h2, -⟩ := validPair_facts a b h
  intro d hd
  have hd' : d ∈ PyStr.replaceX b := by simpa using hd
  exact ⟨h2 d (by simp [hd']), fun e => (List.nodup_append.1 h1).2.2 d e d hd' rfl⟩

variable {P m : Cell → ℝ} {s : Self} {lw : Bool}

theorem single_cases {a b : PyStr} (h : ValidPair a b) (h1 : a.length = 1) :
    (∃ q ∈ (['t','v','z'] : List Char), a = [q]) ∨ a = ['x'] := by
  have ha : a ∈ marginals := by
    rcases h with h | h
    · exact h.2
    · exact (conditionals_letters _ h).2.2.2.2.2.2.2.1
  have := singles a ha h1
  fin_cases this
  · exact .inl ⟨'t', by simp, rfl⟩
  · exact .inl ⟨'v', by simp, rfl⟩
  · exact .inr rfl
  · exact .inl ⟨'z', by simp, rfl⟩

/-- Means computed by the default code. -/
theorem getMean_table (hg : g.Proper) (hcube : CubeIs s.cube g) {a b : PyStr} (h : ValidPair a b)
    (h1 : a.length = 1) (hn : s.meanHC (distStr a b) = none)
    (hT : HasTab (getP s) g lw P m a b) (hm : Respects b m) :
    ∃ r, getMean s (distStr a b) lw = .ok r ∧
      IsMom g a b r (fun q => expectM g P m (g.value q) b) := by
  obtain ⟨h2, h3, h4, h5, -⟩ := validPair_facts a b h
  have hh := headVar_distStr h4 h5
  have hgm : getMean s (distStr a b) lw = meanDefault s (distStr a b) lw := by
    simp [getMean, hh, h1, hn]
  have hI := indep_of_respects h hm
  obtain ⟨A, hA, hA'⟩ := hT
  rw [larr_iff, List.map_append] at hA'
  have hF := freshB h
  rcases single_cases h h1 with ⟨q, hq, rfl⟩ | rfl
  · have hr : PyStr.replaceX [q] = [q] := by fin_cases hq <;> rfl
    rw [hr] at hA' hF
    obtain ⟨r, hr1, hr2⟩ := meanDefault_tvz (s := s) (w := distStr [q] b) (lw := lw) hcube hq hF hh
      ⟨A, hA, hA'⟩
    refine ⟨r, hgm.trans hr1, (isMom_tvz hq h5).2 (hr2.congr fun c hc => ?_)⟩
    exact sum1D_table hg hq h hI (respects_value h (by simp [hr])) (fun d _ _ _ => rfl) hc
  · obtain ⟨r, hr1, hr2⟩ := meanDefault_x (s := s) (w := distStr ['x'] b) (lw := lw) hcube hF hh
      ⟨A, hA, hA'⟩
    refine ⟨r, hgm.trans hr1, (isMom_x h5).2 ⟨hr2.1, fun c hc => ⟨(hr2.2 c hc).1.trans ?_,
      (hr2.2 c hc).2.trans ?_⟩⟩⟩
    · exact sum2D_table hg (by decide) h hI (respects_value h (by decide))
        (fun d k => value_setL axis_x axis_y (by decide) d k) (fun d _ _ _ => rfl) hc
    · exact sum2D_table hg (by decide) h hI (respects_value h (by decide))
        (fun d k => value_setL axis_y axis_x (by decide) d k) (fun d _ _ _ => rfl) hc

/-- Moments about given centres computed by the default code: wherever the conditioning weight is
zero, or the centre is a number, the entry is the expectation. -/
theorem getNoncentral_pointwise (hg : g.Proper) (hcube : CubeIs s.cube g) {a b : PyStr} (h : ValidPair a b)
    (h1 : a.length = 1) (hn : s.ncmHC (distStr a b) = none)
    (hT : HasTab (getP s) g lw P m a b) (hm : Respects b m) {M : Arr Num} {F : Char → Cell → Num}
    (hM : IsMom g a b M F) {μ : Char → Cell → ℝ} (hμ : ∀ q, Respects b (μ q)) (j : ℕ) :
    ∃ r F', getNoncentralMoment s (distStr a b) j M lw = .ok r ∧ IsMom g a b r F' ∧
      ∀ q ∈ PyStr.replaceX a, ∀ c, g.Has c → (m c ≠ 0 → F q c = .fin (μ q c)) →
        F' q c = expectM g P m (fun d => (g.value q d - μ q d) ^ j) b c := by
  obtain ⟨h2, h3, h4, h5, -⟩ := validPair_facts a b h
  have hh := headVar_distStr h4 h5
  have hgm : getNoncentralMoment s (distStr a b) j M lw = momentDefault s (distStr a b) j M lw := by
    simp [getNoncentralMoment, hh, h1, hn]
  have hI := indep_of_respects h hm
  obtain ⟨A, hA, hA'⟩ := hT
  rw [larr_iff, List.map_append] at hA'
  have hFr := freshB h
  have hresp : ∀ q ∈ PyStr.replaceX a, Respects (unionStr a b) (fun d => (g.value q d - μ q d) ^ j) := by
    intro q hq d d' e
    simp only [respects_value (g := g) h hq d d' e, (hμ q).union_right h d d' e]
  have hμI : ∀ q, ∀ u ∈ PyStr.replaceX a, ∀ d k, μ q (setL d u k) = μ q d := fun q =>
    indep_of_respects h (hμ q)
  have hF : ∀ q ∈ PyStr.replaceX a, ∀ c, g.Has c → (m c ≠ 0 → F q c = .fin (μ q c)) →
      ∀ d, g.Has d → coords b d = coords b c → m d ≠ 0 → F q d = .fin (μ q d) := by
    intro q hq c hc hcF d hd e hne
    rw [← hM.2 q hq d hd, e, hM.2 q hq c hc, hcF (by rwa [hm c d e.symm]), hμ q c d e.symm]
  rcases single_cases h h1 with ⟨q, hq, rfl⟩ | rfl
  · have hr : PyStr.replaceX [q] = [q] := by fin_cases hq <;> rfl
    rw [hr] at hA' hFr
    obtain ⟨r, hr1, hr2⟩ := momentDefault_tvz (s := s) (w := distStr [q] b) (lw := lw) hcube hq hFr hh
      ⟨A, hA, hA'⟩ ((isMom_tvz hq h5).1 hM) j
    refine ⟨r, fun _ => _, hgm.trans hr1, (isMom_tvz hq h5).2 hr2, fun q' hq' c hc hcF => ?_⟩
    obtain rfl : q' = q := by simpa [hr] using hq'
    refine sum1D_table hg hq h hI (hresp q' (by simp [hr])) (fun d hd e hne => ?_) hc
    rw [hF q' (by simp [hr]) c hc hcF d hd e hne]; simp
  · obtain ⟨r, hr1, hr2⟩ := momentDefault_x (s := s) (w := distStr ['x'] b) (lw := lw) hcube hFr hh
      ⟨A, hA, hA'⟩ ((isMom_x h5).1 hM) j
    refine ⟨r, fun q => sum2D g q (if q = 'x' then 'y' else 'x')
      (fun c => (Num.fin (g.value q c) - F q c).npow j) (tab g P m ['x'] b), hgm.trans hr1,
      (isMom_x h5).2 hr2, ?_⟩
    intro q hq c hc hcF
    have hq' : q = 'x' ∨ q = 'y' := by simpa [PyStr.replaceX] using hq
    rcases hq' with rfl | rfl
    · show sum2D g 'x' 'y' _ _ _ = _
      refine sum2D_table hg (by decide) h hI (hresp 'x' (by decide)) (fun d k => ?_)
        (fun d hd e hne => ?_) hc
      · simp only [value_setL axis_x axis_y (by decide) d k, hμI 'x' 'y' (by decide)]
      · rw [hF 'x' (by decide) c hc hcF d hd e hne]; simp
    · show sum2D g 'y' 'x' _ _ _ = _
      refine sum2D_table hg (by decide) h hI (hresp 'y' (by decide)) (fun d k => ?_)
        (fun d hd e hne => ?_) hc
      · simp only [value_setL axis_y axis_x (by decide) d k, hμI 'y' 'x' (by decide)]
      · rw [hF 'y' (by decide) c hc hcF d hd e hne]; simp

/-- Moments about given centres computed by the default code. -/
theorem getNoncentral_table (hg : g.Proper) (hcube : CubeIs s.cube g) {a b : PyStr} (h : ValidPair a b)
    (h1 : a.length = 1) (hn : s.ncmHC (distStr a b) = none)
    (hT : HasTab (getP s) g lw P m a b) (hm : Respects b m) {M : Arr Num} {F : Char → Cell → Num}
    (hM : IsMom g a b M F) {μ : Char → Cell → ℝ} (hμ : ∀ q, Respects b (μ q))
    (hF : ∀ q ∈ PyStr.replaceX a, ∀ d, g.Has d → m d ≠ 0 → F q d = .fin (μ q d)) (j : ℕ) :
    ∃ r, getNoncentralMoment s (distStr a b) j M lw = .ok r ∧
      IsMom g a b r (fun q => expectM g P m (fun d => (g.value q d - μ q d) ^ j) b) := by
  obtain ⟨r, F', h2, h3, h4⟩ := getNoncentral_pointwise hg hcube h h1 hn hT hm hM hμ j
  exact ⟨r, h2, h3.congr fun q hq c hc => h4 q hq c hc (hF q hq c hc)⟩

/-- Mean as a real number. -/
def meanM (g : Grid) (P m : Cell → ℝ) (q : Char) (b : PyStr) (c : Cell) : ℝ :=
  g.marg (fun d => g.value q d * P d) b c / m c

theorem respects_meanM {b : PyStr} (hm : Respects b m) (q : Char) : Respects b (meanM g P m q b) := by
  intro d d' e
  simp only [meanM, hm d d' e, respects_marg (g := g) _ b d d' e]

/-- Central moments, given that the means are those of the same table. -/
theorem getCentral_of_mean (hg : g.Proper) (hcube : CubeIs s.cube g) {a b : PyStr} (h : ValidPair a b)
    (h1 : a.length = 1) (hn : s.ncmHC (distStr a b) = none)
    (hT : HasTab (getP s) g lw P m a b) (hm : Respects b m)
    (hmean : ∃ r, getMean s (distStr a b) lw = .ok r ∧
      IsMom g a b r (fun q => expectM g P m (g.value q) b)) (j : ℕ) :
    ∃ r, getCentralMoment s (distStr a b) j lw = .ok r ∧
      IsMom g a b r (fun q => expectM g P m (fun d => (g.value q d - meanM g P m q b d) ^ j) b) := by
  obtain ⟨h2, h3, h4, h5, -⟩ := validPair_facts a b h
  have hh := headVar_distStr h4 h5
  obtain ⟨M, hM, hM'⟩ := hmean
  -- the array passed on as centre
  have hmu : ∃ M2, (if headVar (distStr a b) ∈ [['t'], ['v'], ['z']] then getMean s (distStr a b) lw
      else if headVar (distStr a b) = ['x'] then do
        let m ← getMean s (distStr a b) lw
        let (mu1, mu2) ← unpack2 m
        stack [mu1, mu2]
      else .error .assertionError : Py (Arr Num)) = .ok M2 ∧
      IsMom g a b M2 (fun q => expectM g P m (g.value q) b) := by
    rw [hh]
    rcases single_cases h h1 with ⟨q, hq, rfl⟩ | rfl
    · have : [q] ∈ [['t'], ['v'], ['z']] := by fin_cases hq <;> decide
      exact ⟨M, by rw [if_pos this, hM], hM'⟩
    · obtain ⟨M1, M2, e1, e2, e3⟩ := unpack2_stack ((isMom_x h5).1 hM')
      obtain ⟨S, e4, e5⟩ := e2.stack2 e3
      refine ⟨S, ?_, (isMom_x h5).2 e5⟩
      have h0 : (['x'] : PyStr) ∉ [['t'], ['v'], ['z']] := by decide
      rw [if_neg h0, if_pos rfl, hM]
      simp [e1, e4]
  obtain ⟨M2, hM2, hM2'⟩ := hmu
  obtain ⟨r, hr, hr'⟩ := getNoncentral_table hg hcube h h1 hn hT hm hM2'
    (μ := fun q => meanM g P m q b) (fun q => respects_meanM hm q)
    (fun q _ d _ hne => by simp [expectM, hne, meanM]) j
  refine ⟨r, ?_, hr'⟩
  have e : getCentralMoment s (distStr a b) j lw = (if '_' ∈ distStr a b then do
      let b' ← condVars (distStr a b)
      let _dc ← s.cube.constructVolumeElement b'
      getNoncentralMoment s (distStr a b) j M2 lw
    else getNoncentralMoment s (distStr a b) j M2 lw) := by
    unfold getCentralMoment
    rw [hh] at hM2 ⊢
    rw [if_pos h1, hM2]
    rfl
  rw [e]
  by_cases hb : b = []
  · have : '_' ∉ distStr a b := by simp only [distStr, hb, if_true]; exact h4.noUnderscore
    rw [if_neg this, hr]
  · have hd : distStr a b = condStr a b := by simp [distStr, hb]
    have : '_' ∈ distStr a b := by rw [hd]; exact hasUnderscore_condStr a b
    obtain ⟨v, hv, -⟩ := volumeElement_plain hcube hg.nx hg.ny h5
    rw [if_pos this]
    have hcv : condVars (distStr a b) = .ok b := by rw [hd]; exact condVars_condStr h4 h5
    simp only [hcv, Py.ok_bind, hv, hr]

end PKM
