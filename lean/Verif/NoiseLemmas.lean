import Verif.Noise
import Verif.Gives

/-! Lemmas about noise levels and noisy data. -/

open scoped Classical

noncomputable section

namespace PKM
open Np

theorem mem_allIndices : ∀ {s i : List ℕ}, i ∈ allIndices s ↔ InBox s i
  | [], i => by cases i <;> simp [allIndices, InBox]
  | n :: s, [] => by simp [allIndices, InBox]
  | n :: s, j :: i => by
      simp only [allIndices, List.mem_flatMap, List.mem_range, List.mem_map, List.cons.injEq, InBox]
      constructor
      · rintro ⟨a, ha, b, hb, rfl, rfl⟩
        exact ⟨ha, mem_allIndices.1 hb⟩
      · rintro ⟨ha, hb⟩
        exact ⟨j, ha, i, mem_allIndices.2 hb, rfl, rfl⟩

/-- Datacube with finite values `Y`. -/
def IsCube (y : Arr Num) (s : List ℕ) (Y : List ℕ → ℝ) : Prop :=
  y.shape = s ∧ ∀ i, InBox s i → y.get i = .fin (Y i)

theorem foldl_npMax : ∀ (l : List ℝ) (x : ℝ), (l.map Num.fin).foldl Num.npMax (.fin x) = .fin (l.foldl max x)
  | [], x => rfl
  | a :: l, x => by
      simp only [List.map_cons, List.foldl_cons]
      have : Num.npMax (.fin x) (.fin a) = .fin (max x a) := by
        simp only [Num.npMax, Num.le]
        by_cases h : x ≤ a
        · simp only [h, if_true, max_eq_right]
        · simp only [h, if_false, max_eq_left (le_of_not_ge h)]
      rw [this, foldl_npMax l]

theorem foldl_max_spec : ∀ (l : List ℝ) (x : ℝ), x ≤ l.foldl max x ∧ (∀ a ∈ l, a ≤ l.foldl max x) ∧
    (l.foldl max x = x ∨ l.foldl max x ∈ l)
  | [], x => by simp
  | a :: l, x => by
      obtain ⟨h1, h2, h3⟩ := foldl_max_spec l (max x a)
      simp only [List.foldl_cons]
      refine ⟨(le_max_left _ _).trans h1, ?_, ?_⟩
      · intro b hb
        rcases List.mem_cons.1 hb with rfl | hb
        · exact (le_max_right _ _).trans h1
        · exact h2 b hb
      · rcases h3 with h3 | h3
        · rcases max_choice x a with h | h
          · left; rw [h3, h]
          · right; rw [h3, h]; simp
        · right; exact List.mem_cons_of_mem _ h3

theorem maxAll_spec {y : Arr Num} {s : List ℕ} {Y : List ℕ → ℝ} (h : IsCube y s Y) (hne : ∃ i, InBox s i) :
    ∃ i0, InBox s i0 ∧ (∀ i, InBox s i → Y i ≤ Y i0) ∧ maxAll y = .ok (.fin (Y i0)) := by
  obtain ⟨hs, hy⟩ := h
  have e : (allIndices y.shape).map y.get = ((allIndices s).map Y).map Num.fin := by
    rw [hs, List.map_map]
    exact List.map_congr_left fun i hi => hy i (mem_allIndices.1 hi)
  unfold maxAll
  rw [e]
  obtain ⟨i, hi⟩ := hne
  cases hl : allIndices s with
  | nil => have := mem_allIndices.2 hi; rw [hl] at this; simp at this
  | cons a l =>
    simp only [List.map_cons]
    obtain ⟨h1, h2, h3⟩ := foldl_max_spec (l.map Y) (Y a)
    rw [foldl_npMax]
    have hmem : ∃ i0 ∈ allIndices s, (l.map Y).foldl max (Y a) = Y i0 := by
      rcases h3 with h3 | h3
      · exact ⟨a, by rw [hl]; simp, h3⟩
      · obtain ⟨b, hb, hb'⟩ := List.mem_map.1 h3
        exact ⟨b, by rw [hl]; exact List.mem_cons_of_mem _ hb, hb'.symm⟩
    obtain ⟨i0, h4, h5⟩ := hmem
    refine ⟨i0, mem_allIndices.1 h4, fun j hj => ?_, by rw [h5]⟩
    rw [← h5]
    have := mem_allIndices.2 hj
    rw [hl] at this
    rcases List.mem_cons.1 this with rfl | hb
    · exact h1
    · exact h2 _ (List.mem_map_of_mem hb)

theorem bshapeR_same (s : List ℕ) : bshapeR s s = some s := bshapeR_self s

/-- Element-wise operations on arrays of the same shape. -/
theorem bop_eqShape {α β γ : Type} (f : α → β → γ) {a : Arr α} {b : Arr β} (h : a.shape = b.shape) :
    ∃ c, bop f a b = .ok c ∧ c.shape = a.shape ∧ ∀ i, InBox a.shape i → c.get i = f (a.get i) (b.get i) := by
  refine ⟨⟨a.shape, fun i => f (a.get (bproj a.shape i)) (b.get (bproj b.shape i))⟩, ?_, rfl, fun i hi => ?_⟩
  · unfold bop
    rw [← h, bshapeR_same]
    simp
  · simp only
    rw [← h, bproj_self hi]

/-- Array and scalar. -/
theorem bop_scalarR {α β γ : Type} (f : α → β → γ) (a : Arr α) (x : β) :
    ∃ c, bop f a (scalar x) = .ok c ∧ c.shape = a.shape ∧ ∀ i, InBox a.shape i → c.get i = f (a.get i) x := by
  refine ⟨⟨a.shape, fun i => f (a.get (bproj a.shape i)) x⟩, ?_, rfl, fun i hi => ?_⟩
  · simp [bop, scalar]
  · simp only
    rw [bproj_self hi]

/-- Scalar and array. -/
theorem bop_scalarL {α β γ : Type} (f : α → β → γ) (x : α) (b : Arr β) :
    ∃ c, bop f (scalar x) b = .ok c ∧ c.shape = b.shape ∧ ∀ i, InBox b.shape i → c.get i = f x (b.get i) := by
  refine ⟨⟨b.shape, fun i => f x (b.get (bproj b.shape i))⟩, ?_, rfl, fun i hi => ?_⟩
  · simp [bop, scalar]
  · simp only
    rw [bproj_self hi]

/-! ### Noisy data without memory -/

/-- Noise drawn with scale `σ`; `k` numbers have been drawn before. -/
def noiseOf (z : ℕ → ℝ) (k : ℕ) (s : List ℕ) (σ : Arr Num) : Py (Arr Num) := do
  let b ← bop Prod.mk (full s (.fin 0)) σ
  if ∀ i, InBox σ.shape i → Num.le (.fin 0) (σ.get i) then
    if ∀ i, InBox σ.shape i → σ.get i = .fin 0 then .ok (map (fun p => p.1 * .fin 1) b)
    else .ok ⟨b.shape, fun i => .fin (z (k + ravel b.shape i)) * (b.get i).2 + (b.get i).1⟩
  else .error .valueError

/-- `get_noisy_data` as a function of the datacube and of the number of earlier draws. -/
def noisyOf (z : ℕ → ℝ) (d : ℕ) (k : NoiseKind) (y : Arr Num) (snr : Num) : Py (Arr Num) := do
  let σ ← sigmaOf k y snr
  let e ← noiseOf z d y.shape σ
  Np.add y e

section
variable {z : ℕ → ℝ} {c : NoiseTarget} {o : Ptr} {y : Arr Num} {n : ℕ} {h : Heap}

theorem getYbar_run (hc : c.ybar = some o) (y : Arr Num) :
    Run n h c.getYbar (.ok y) (fun h' o' y' => h' = h ∧ o' = o ∧ y' = y) := by
  unfold NoiseTarget.getYbar
  rw [hc]
  exact Run.ok ⟨rfl, rfl, rfl⟩

theorem getSigma_run (hc : c.ybar = some o) (hy : Points h o y) (hn : n ≤ h.next) (k : NoiseKind) (snr : Num) :
    Run n h (getSigma c k snr) (sigmaOf k y snr) (fun h' r a => r.buf = h.next ∧ Heap.Keeps h.next h h' ∧
      Fresh h.next h' r a ∧ h'.drawn = h.drawn) := by
  show Run n h (c.getYbar >>= _) (do let y ← (.ok y : Py _); let y ← (.ok y : Py _); sigmaOf k y snr) _
  refine Run.bind (getYbar_run hc y) ?_
  rintro h' o' y' - - ⟨rfl, rfl, rfl⟩
  refine Run.bind (Run.read hy) ?_
  rintro h'' a b - - ⟨rfl, rfl, rfl⟩
  exact (Run.new _ hn).mono le_rfl fun _ _ _ _ h => h.2

/-- Number of draws for noise of scale `σ` in an array of shape `s`. -/
def drawsOf (s : List ℕ) (σ : Arr Num) : ℕ := if ∀ i, InBox σ.shape i → σ.get i = .fin 0 then 0 else s.prod

theorem normRvs_run (hn : n ≤ h.next) (s : List ℕ) (σ : Arr Num) :
    Run n h (normRvs z (full s (.fin 0)) σ) (noiseOf z h.drawn s σ) (fun h' r a => r.buf = h.next ∧ Fresh h.next h' r a ∧
      (σ.shape = s → h'.drawn = h.drawn + drawsOf s σ)) := by
  unfold normRvs noiseOf
  refine Run.bind (Run.lift (R := fun h' x x' => h' = h ∧ x = x') fun a ha => ⟨rfl, rfl⟩) ?_
  rintro h' x x' hx - ⟨rfl, rfl⟩
  by_cases h1 : ∀ i, InBox σ.shape i → Num.le (.fin 0) (σ.get i)
  · by_cases h2 : ∀ i, InBox σ.shape i → σ.get i = .fin 0
    · rw [if_pos h1, if_pos h2, if_pos h1, if_pos h2]
      refine (Run.new _ hn).mono le_rfl ?_
      rintro h'' r a - ⟨h3, h4, -, h5, h6⟩
      exact ⟨h4, h5, fun _ => by rw [drawsOf, if_pos h2]; exact h6⟩
    · rw [if_pos h1, if_neg h2, if_pos h1, if_neg h2]
      show Run n h' _ (do
        let k ← (.ok h'.drawn : Py ℕ)
        (.ok ⟨x.shape, fun i => Num.fin (z (k + ravel x.shape i)) * (x.get i).2 + (x.get i).1⟩ : Py (Arr Num))) _
      have hd : Run n h' (H.draw x.shape.prod) (.ok h'.drawn)
        (fun h'' k k' => k = k' ∧ h''.next = h'.next ∧ h''.drawn = h'.drawn + x.shape.prod) := ⟨⟨le_rfl, fun _ _ => rfl⟩, rfl, rfl, rfl⟩
      refine Run.bind hd ?_
      rintro h'' k k' - - ⟨rfl, h3, h3'⟩
      refine (Run.new _ (h3 ▸ hn)).mono le_rfl ?_
      rintro h8 r a - ⟨h4, h5, -, h6, h7⟩
      refine ⟨h3 ▸ h5, h3 ▸ h6, fun hs => ?_⟩
      obtain ⟨b, hb, hb1, -⟩ := bop_eqShape Prod.mk (a := full s (Num.fin 0)) (b := σ) hs.symm
      rw [hx] at hb
      injection hb with hb
      rw [drawsOf, if_neg h2, h7, h3', hb, hb1]
      rfl
  · rw [if_neg h1, if_neg h1]
    exact Run.throw

/-- Number of draws made by a call. -/
def Drew (k : NoiseKind) (y : Arr Num) (snr : Num) (h h' : Heap) : Prop :=
  ∀ σ, sigmaOf k y snr = .ok σ → σ.shape = y.shape → h'.drawn = h.drawn + drawsOf y.shape σ

theorem sample_run (hc : c.ybar = some o) (hy : Points h o y) (hn : n ≤ h.next) (k : NoiseKind) (snr : Num) :
    Run n h (sample z c k snr) (do let σ ← sigmaOf k y snr; noiseOf z h.drawn y.shape σ)
      (fun h' r a => (Points h' o y ∧ Fresh h.next h' r a) ∧ Drew k y snr h h') := by
  refine Run.mono (n := h.next) ?_ hn (fun _ _ _ _ h => h)
  unfold sample
  refine Run.bind (getSigma_run hc hy le_rfl k snr) ?_
  rintro h1 r σ hσ - ⟨h3, h4, h5, h6⟩
  have hy1 := hy.keep h4 hy.1
  show Run h.next h1 (c.getYbar >>= _) (do
    let y' ← (.ok y : Py _)
    let y' ← (.ok y' : Py _)
    let m ← (.ok (full y'.shape (Num.fin 0)) : Py _)
    let _ ← (.ok m : Py _)
    let s ← (.ok σ : Py _)
    noiseOf z h.drawn y.shape s) _
  refine Run.bind (getYbar_run hc y) ?_
  rintro _ _ _ - - ⟨rfl, rfl, rfl⟩
  refine Run.bind (Run.read hy1) ?_
  rintro _ _ _ - - ⟨rfl, rfl, rfl⟩
  refine Run.bind (Run.new _ h4.next) ?_
  rintro h7 mu m - - ⟨h8, h9, h10, h11, h12⟩
  obtain rfl : full _ (Num.fin 0) = m := by simpa using h8
  refine Run.bind (Run.read h11.2.2) ?_
  rintro _ _ _ - - ⟨rfl, rfl, rfl⟩
  refine Run.bind (Run.read (h5.2.2.keep h10 h5.2.2.1)) ?_
  rintro h7 _ σ - - ⟨rfl, rfl, rfl⟩
  have hd : h.drawn = h7.drawn := (h12.trans h6).symm
  rw [hd]
  have hy2 := hy1.keep h10 hy1.1
  refine (normRvs_run (n := h7.next) le_rfl _ _).mono (h4.next.trans h10.next) ?_
  rintro h13 r a h14 ⟨h16, h17, h18⟩
  refine ⟨⟨hy2.keep h14 hy2.1, by rw [h16]; exact h4.next.trans h10.next, h17.2.1, h17.2.2⟩, fun σ' e e' => ?_⟩
  rw [hσ] at e
  injection e with e
  subst e
  rw [h18 e', hd]

theorem getNoisyData_draws (hc : c.ybar = some o) (hy : Points h o y) (hn : n ≤ h.next) (k : NoiseKind) (snr : Num) :
    Run n h (getNoisyData z c k snr) (noisyOf z h.drawn k y snr)
      (fun h' r a => (Fresh h.next h' r a ∧ Points h' o y) ∧ Drew k y snr h h') := by
  have e : noisyOf z h.drawn k y snr = (do
      let y' ← (.ok y : Py _)
      let e ← (do let σ ← sigmaOf k y snr; noiseOf z h.drawn y.shape σ)
      let y' ← (.ok y' : Py _)
      let e ← (.ok e : Py _)
      Np.add y' e) := by
    unfold noisyOf
    cases sigmaOf k y snr <;> rfl
  rw [e]
  refine Run.mono (n := h.next) ?_ hn (fun _ _ _ _ h => h)
  unfold getNoisyData
  refine Run.bind (getYbar_run hc y) ?_
  rintro _ _ _ - - ⟨rfl, rfl, rfl⟩
  rename_i h o y
  refine Run.bind (sample_run hc hy le_rfl k snr) ?_
  rintro h1 r e - h2 ⟨⟨h3, h4⟩, hd⟩
  refine Run.bind (Run.read h3) ?_
  rintro _ _ _ - - ⟨rfl, rfl, rfl⟩
  refine Run.bind (Run.read h4.2.2) ?_
  rintro _ _ _ - - ⟨rfl, rfl, rfl⟩
  refine (Run.new _ le_rfl).mono h2.next ?_
  rintro h5 q a h6 ⟨h7, h8, -, h9, h10⟩
  exact ⟨⟨⟨h2.next.trans h9.1, h9.2⟩, h3.keep h6 h3.1⟩, fun σ e1 e2 => by rw [h10]; exact hd σ e1 e2⟩

theorem getNoisyData_run (hc : c.ybar = some o) (hy : Points h o y) (hn : n ≤ h.next) (k : NoiseKind) (snr : Num) :
    Run n h (getNoisyData z c k snr) (noisyOf z h.drawn k y snr) (fun h' r a => Fresh h.next h' r a ∧ Points h' o y) :=
  (getNoisyData_draws hc hy hn k snr).mono le_rfl fun _ _ _ _ h => h.1

end

end PKM
