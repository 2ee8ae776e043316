import Verif.MArrOps
import Verif.Gauss

/-! Lemmas: arrays of logarithms, arrays of values at bin edges. -/

open scoped Classical

noncomputable section

namespace PKM
open Np

variable {g : Grid} {M N R : List (Option Char)} {A B : Arr Num} {f h : Cell → Num} {q k : Cell → ℝ}

theorem MArr.addL (hA : MArr g M A (fun c => Num.lg (q c))) (hB : MArr g N B (fun c => Num.lg (k c)))
    (hq : ∀ c, g.Has c → 0 ≤ q c) (hk : ∀ c, g.Has c → 0 ≤ k c)
    (hj : joinR M.reverse N.reverse = some R.reverse) :
    ∃ r, Np.add A B = .ok r ∧ MArr g R r (fun c => Num.lg (q c * k c)) := by
  obtain ⟨r, h1, h2⟩ := MArr.bop (· + ·) hA hB hj
  exact ⟨r, h1, h2.congr fun c hc => Num.lg_add (hq c hc) (hk c hc)⟩

theorem MArr.iaddL (hA : MArr g M A (fun c => Num.lg (q c))) (hB : MArr g N B (fun c => Num.lg (k c)))
    (hq : ∀ c, g.Has c → 0 ≤ q c) (hk : ∀ c, g.Has c → 0 ≤ k c)
    (hj : joinR M.reverse N.reverse = some M.reverse) :
    ∃ r, Np.iadd A B = .ok r ∧ MArr g M r (fun c => Num.lg (q c * k c)) := by
  obtain ⟨r, h1, h2⟩ := MArr.iop (· + ·) hA hB hj
  exact ⟨r, h1, h2.congr fun c hc => Num.lg_add (hq c hc) (hk c hc)⟩

theorem MArr.subL (hA : MArr g M A (fun c => Num.lg (q c))) (hB : MArr g N B (fun c => Num.lg (k c)))
    (hq : ∀ c, g.Has c → 0 ≤ q c) (hk : ∀ c, g.Has c → 0 < k c)
    (hj : joinR M.reverse N.reverse = some R.reverse) :
    ∃ r, Np.sub A B = .ok r ∧ MArr g R r (fun c => Num.lg (q c / k c)) := by
  obtain ⟨r, h1, h2⟩ := MArr.bop (· - ·) hA hB hj
  exact ⟨r, h1, h2.congr fun c hc => Num.lg_sub (hq c hc) (hk c hc)⟩

/-- Sum of all entries. -/
theorem MArr.sumAll {U : List Char} (hA : MArr g (U.map some) A (fun c => .fin (q c)))
    (hU : lettersOK U) {c : Cell} (hc : g.Has c) :
    Np.sumAll A = Np.scalar (.fin (sumOver g U.reverse q c)) := by
  have h := larr_iff.2 hA
  unfold Np.sumAll
  congr 1
  rw [h.1, sumShape_letters g U A.get (fun c => Num.fin (q c)) c hU.1 hU.2 hc h.2, sumOver_fin]

theorem MArr.lseAll {U : List Char} (hA : MArr g (U.map some) A (fun c => Num.lg (q c)))
    (hq : ∀ c, g.Has c → 0 ≤ q c) (hU : lettersOK U) {c : Cell} (hc : g.Has c) :
    Np.logsumexpAll A = Np.scalar (Num.lg (sumOver g U.reverse q c)) := by
  have h1 : MArr g (U.map some) (Np.map Num.exp A) (fun c => .fin (q c)) :=
    (hA.map Num.exp).congr fun c hc => Num.exp_lg (hq c hc)
  unfold Np.logsumexpAll
  rw [h1.sumAll hU hc]
  rfl

/-! ### Values at bin edges -/

/-- The grid with one more entry along the axis `ch`. -/
def bump (g : Grid) (ch : Char) : Grid :=
  if ch = 't' then { g with nt := g.nt + 1 } else if ch = 'v' then { g with nv := g.nv + 1 }
  else if ch = 'x' then { g with nx := g.nx + 1 } else if ch = 'y' then { g with ny := g.ny + 1 }
  else { g with nz := g.nz + 1 }

theorem sizeL_bump {a b : Char} (ha : AxisChar a) (hb : AxisChar b) :
    sizeL (bump g a) b = if b = a then sizeL g b + 1 else sizeL g b := by
  unfold AxisChar at ha hb
  fin_cases ha <;> fin_cases hb <;> simp [bump, sizeL]

theorem has_bump {a : Char} (ha : AxisChar a) {c : Cell} (hc : g.Has c) (j : ℕ) (hj : j < sizeL g a + 1) :
    (bump g a).Has (setL c a j) := by
  obtain ⟨h1, h2, h3, h4, h5⟩ := hc
  unfold AxisChar at ha
  fin_cases ha <;> simp_all [bump, sizeL, setL, Grid.Has]

theorem has_of_bump {a : Char} (ha : AxisChar a) {c : Cell} (hc : (bump g a).Has c)
    {j : ℕ} (hj : j < sizeL g a) : g.Has (setL c a j) := by
  unfold AxisChar at ha
  fin_cases ha <;> simp_all [bump, sizeL, setL, Grid.Has]

/-- Arrays without the axis are also arrays on the bumped grid. -/
theorem MArr.bump {ch : Char} (hch : AxisChar ch) (hA : MArr g M A f) (hM : ∀ d, some d ∈ M → AxisChar d ∧ d ≠ ch)
    (hf : ∀ c j, f (setL c ch j) = f c) (hs : 0 < sizeL g ch) : MArr (bump g ch) M A f := by
  refine ⟨?_, fun c hc => ?_⟩
  · rw [hA.1]
    apply List.map_congr_left
    intro o ho
    cases o with
    | none => rfl
    | some d =>
      obtain ⟨h1, h2⟩ := hM d ho
      simp [sizeM, sizeL_bump hch h1, h2]
  · rw [← hf c 0, ← hA.2 _ (has_of_bump hch hc hs)]
    congr 1
    apply List.map_congr_left
    intro o ho
    cases o with
    | none => rfl
    | some d =>
      obtain ⟨h1, h2⟩ := hM d ho
      simp only [coordM]
      rw [coordL_setL hch h1, if_neg h2]

theorem map_coordM_setL {ch : Char} (hch : AxisChar ch) {M : List (Option Char)}
    (hM : ∀ d, some d ∈ M → AxisChar d ∧ d ≠ ch) (c : Cell) (j : ℕ) :
    M.map (coordM (setL c ch j)) = M.map (coordM c) := by
  apply List.map_congr_left
  intro o ho
  cases o with
  | none => rfl
  | some d =>
    obtain ⟨h1, h2⟩ := hM d ho
    simp only [coordM]
    rw [coordL_setL hch h1, if_neg h2]

theorem map_sizeM_bump {ch : Char} (hch : AxisChar ch) {M : List (Option Char)}
    (hM : ∀ d, some d ∈ M → AxisChar d ∧ d ≠ ch) :
    M.map (sizeM (PKM.bump g ch)) = M.map (sizeM g) := by
  apply List.map_congr_left
  intro o ho
  cases o with
  | none => rfl
  | some d =>
    obtain ⟨h1, h2⟩ := hM d ho
    simp [sizeM, sizeL_bump hch h1, h2]

/-- `a[:-1]`: values at lower edges. -/
theorem MArr.lower {ch : Char} (hch : AxisChar ch) (hA : MArr (PKM.bump g ch) (some ch :: M) A f)
    (hM : ∀ d, some d ∈ M → AxisChar d ∧ d ≠ ch) :
    ∃ r, Np.getitem [.sl 0 (some (-1))] A = .ok r ∧ MArr g (some ch :: M) r f := by
  have hs : A.shape = (sizeL g ch + 1) :: M.map (sizeM g) := by
    rw [hA.1]
    simp [sizeM, sizeL_bump hch hch, map_sizeM_bump hch hM]
  have hl : slLen (sizeL g ch + 1) 0 (some (-1)) = sizeL g ch := by
    simp [slLen, slStop, slStart]
  refine ⟨⟨(some ch :: M).map (sizeM g), fun i => A.get (ixIdx [.sl 0 (some (-1))] A.shape i)⟩, ?_, rfl,
    fun c hc => ?_⟩
  · simp [Np.getitem, hs, ixShape, hl, sizeM]
  · have h2 := hA.2 (setL c ch (coordL c ch)) (has_bump hch hc _ (by have := coordL_lt hc ch; omega))
    have e : setL c ch (coordL c ch) = c := by
      unfold AxisChar at hch
      fin_cases hch <;> simp [setL, coordL]
    rw [e] at h2
    rw [← h2]
    simp [hs, ixIdx, slStart]

/-- `a[1:]`: values at upper edges. -/
theorem MArr.upper {ch : Char} (hch : AxisChar ch) (hA : MArr (PKM.bump g ch) (some ch :: M) A f)
    (hM : ∀ d, some d ∈ M → AxisChar d ∧ d ≠ ch) :
    ∃ r, Np.getitem [.sl 1 none] A = .ok r ∧
      MArr g (some ch :: M) r (fun c => f (setL c ch (coordL c ch + 1))) := by
  have hs : A.shape = (sizeL g ch + 1) :: M.map (sizeM g) := by
    rw [hA.1]
    simp [sizeM, sizeL_bump hch hch, map_sizeM_bump hch hM]
  have hl : slLen (sizeL g ch + 1) 1 none = sizeL g ch := by
    simp [slLen, slStop, slStart]
  refine ⟨⟨(some ch :: M).map (sizeM g), fun i => A.get (ixIdx [.sl 1 none] A.shape i)⟩, ?_, rfl,
    fun c hc => ?_⟩
  · simp [Np.getitem, hs, ixShape, hl, sizeM]
  · have h2 := hA.2 (setL c ch (coordL c ch + 1)) (has_bump hch hc _ (by have := coordL_lt hc ch; omega))
    beta_reduce
    rw [← h2]
    simp only [List.map_cons, coordM, map_coordM_setL hch hM]
    rw [coordL_setL hch hch]
    simp [hs, ixIdx, slStart, add_comm]

/-- Logarithm of normal distribution functions. -/
theorem MArr.normLogcdf {μ σ x : Cell → ℝ} {loc scale X : Arr Num} {M N R : List (Option Char)}
    (hl : MArr g M loc (fun c => .fin (μ c))) (hs : MArr g M scale (fun c => .fin (σ c)))
    (hx : MArr g N X (fun c => .fin (x c))) (hσ : ∀ c, g.Has c → 0 < σ c)
    (hj : joinR N.reverse M.reverse = some R.reverse) (hj' : joinR R.reverse M.reverse = some R.reverse) :
    ∃ r, PKM.normLogcdf loc scale X = .ok r ∧
      MArr g R r (fun c => Num.lg (stdPhi ((x c - μ c) / σ c))) := by
  obtain ⟨d, h1, h2⟩ := MArr.bop (· - ·) hx hl hj
  obtain ⟨e, h3, h4⟩ := MArr.bop (· / ·) h2 hs hj'
  obtain ⟨r, h5, h6⟩ := MArr.bop (fun z s => if scaleOk s then normLogcdf01 z else .nan) h4 hs hj'
  have e1 : Np.sub X loc = .ok d := h1
  have e2 : Np.div d scale = .ok e := h3
  refine ⟨r, by simp only [PKM.normLogcdf, e1, e2, Py.ok_bind]; exact h5, h6.congr fun c hc => ?_⟩
  have := hσ c hc
  simp only [Num.fin_sub, Num.fin_div _ _ this.ne', scaleOk, this, if_true, normLogcdf01]

end PKM
