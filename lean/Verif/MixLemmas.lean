import Verif.Mixture
import Verif.Rows
import Verif.YbarLemmas

/-! Lemmas: probability functions of mixtures. -/

open scoped Classical

noncomputable section

namespace PKM
open Np

/-- Which of two cell distributions serves the marginal string `w`. -/
def pick (P Q : Cell → ℝ) (w : PyStr) : Cell → ℝ := if 'v' ∈ w then P else Q

/-- Result of a member's `_get_log_p_w`. -/
def childMarg (ch : Child) (w : PyStr) (density : Bool) : Py (Arr Num) :=
  match ch.logP w with
  | some f => f density false
  | none => .error .attributeError

/-- Member `i` of the mixture has weight `ω i > 0`; its mass-weighted marginals are those of the cell
distribution `P i` for strings with `v`, of `Q i` for strings without (the same distribution for
plain components). -/
structure MixIs (m : Mix) (g : Grid) (n : ℕ) (ω : ℕ → ℝ) (P Q : ℕ → Cell → ℝ) (L : ℕ → ℕ → ℝ) :
    Prop where
  pos : 0 < n
  proper : g.Proper
  cubeIs : CubeIs m.cube g
  children : m.children.length = n
  weights : m.weights.length = n
  weight : ∀ i < n, m.weights.getD i 0 = ω i
  wpos : ∀ i, 0 < ω i
  child : ∀ (i : ℕ) (hi : i < m.children.length) (density : Bool) (w : PyStr), w ∈ marginals →
    Gives (childMarg m.children[i] w density) g w
      (fun c => Num.lg (g.marg (pick (P i) (Q i) w) w c / dvol g density w c))
  nonnegP : ∀ i c, g.Has c → 0 ≤ P i c
  nonnegQ : ∀ i c, g.Has c → 0 ≤ Q i c
  absCont : ∀ i c, g.Has c → g.marg (Q i) ['t','x','z'] c = 0 → g.marg (P i) ['t','x','z'] c = 0
  light : IsArr g ['t','z'] m.cube.ssps.lightWeights (fun c => .fin (L c.t c.z))
  lightNonneg : ∀ t z, 0 ≤ L t z

theorem broadcastTo_isArr {g : Grid} {w : PyStr} {a : Arr Num} {f : Cell → Num} (h : IsArr g w a f) :
    ∃ r, broadcastTo (g.shapeOf w) a = .ok r ∧ IsArr g w r f := by
  refine ⟨⟨g.shapeOf w, fun i => a.get (bproj a.shape i)⟩, ?_, rfl, fun c hc => ?_⟩
  · simp [broadcastTo, h.1, bshapeR_self]
  · exact h.barr.2 c hc

theorem rowsLoop_some {g : Grid} {w : PyStr} {F : ℕ → Cell → Num} {f : Child × ℝ → Py (Arr Num)} :
    ∀ (cs : List (Child × ℝ)) (k : ℕ),
    (∀ (i : ℕ) (hi : i < cs.length), Gives (f cs[i]) g w (F (k + i))) →
    ∃ rows, Mix.rowsLoop f (some (g.shapeOf w)) cs = .ok rows ∧ rows.length = cs.length ∧
      ∀ (i : ℕ) (hi : i < rows.length), IsArr g w rows[i] (F (k + i))
  | [], _, _ => ⟨[], rfl, rfl, fun i hi => by simp at hi⟩
  | c :: cs, k, h => by
    obtain ⟨a, ha, ha'⟩ := h 0 (by simp)
    simp only [List.getElem_cons_zero] at ha
    obtain ⟨b, hb, hb'⟩ := broadcastTo_isArr ha'
    obtain ⟨rows, h1, h2, h3⟩ := rowsLoop_some cs (k + 1) (fun i hi => by
      have := h (i + 1) (by simpa using hi)
      simpa [Nat.add_assoc, Nat.add_comm 1 i] using this)
    refine ⟨b :: rows, by simp [Mix.rowsLoop, ha, hb, h1], by simp [h2], fun i hi => ?_⟩
    cases i with
    | zero => simpa using hb'
    | succ i =>
      have := h3 i (by simpa using hi)
      simpa [Nat.add_assoc, Nat.add_comm 1 i] using this

theorem rowsLoop_is {g : Grid} {w : PyStr} {F : ℕ → Cell → Num} {f : Child × ℝ → Py (Arr Num)}
    (cs : List (Child × ℝ))
    (h : ∀ (i : ℕ) (hi : i < cs.length), Gives (f cs[i]) g w (F i)) :
    ∃ rows, Mix.rowsLoop f none cs = .ok rows ∧ rows.length = cs.length ∧
      ∀ (i : ℕ) (hi : i < rows.length), IsArr g w rows[i] (F i) := by
  cases cs with
  | nil => exact ⟨[], rfl, rfl, fun i hi => by simp at hi⟩
  | cons c cs =>
    obtain ⟨a, ha, ha'⟩ := h 0 (by simp)
    simp only [List.getElem_cons_zero] at ha
    obtain ⟨rows, h1, h2, h3⟩ := rowsLoop_some cs 1 (fun i hi => by
      have := h (i + 1) (by simpa using hi)
      simpa [Nat.add_comm 1 i] using this)
    rw [← ha'.1] at h1
    refine ⟨a :: rows, by simp [Mix.rowsLoop, ha, h1], by simp [h2], fun i hi => ?_⟩
    cases i with
    | zero => simpa using ha'
    | succ i =>
      have := h3 i (by simpa using hi)
      simpa [Nat.add_comm 1 i] using this

section
variable {m : Mix} {g : Grid} {n : ℕ} {ω : ℕ → ℝ} {P Q : ℕ → Cell → ℝ} {L : ℕ → ℕ → ℝ}

theorem pick_nonneg (h : MixIs m g n ω P Q L) (i : ℕ) (w : PyStr) {c : Cell} (hc : g.Has c) :
    0 ≤ pick (P i) (Q i) w c := by
  unfold pick; split
  · exact h.nonnegP i c hc
  · exact h.nonnegQ i c hc

theorem Mix.massWtd_is (h : MixIs m g n ω P Q L) (density : Bool) {w : PyStr} (hw : w ∈ marginals) :
    ∃ A, Mix.massWtd m w density = .ok A ∧ Lead g n w A
      (fun i c => Num.lg (ω i * g.marg (pick (P i) (Q i) w) w c / dvol g density w c)) := by
  have hlen : (m.children.zip m.weights).length = n := by simp [h.children, h.weights]
  obtain ⟨rows, h1, h2, h3⟩ := rowsLoop_is (g := g) (w := w)
    (F := fun i c => Num.lg (ω i * g.marg (pick (P i) (Q i) w) w c / dvol g density w c))
    (f := Mix.logPi w density) (m.children.zip m.weights) (by
      intro i hi
      have hin : i < n := hlen ▸ hi
      obtain ⟨a, ha, ha'⟩ := h.child i (by rw [h.children]; exact hin) density w hw
      have hwi : (m.children.zip m.weights)[i].2 = ω i := by
        rw [← h.weight i hin]
        simp [List.getD, h.weights, hin]
      refine ⟨Np.map (fun v => Num.log (.fin (ω i)) + v) a, ?_, (ha'.map _).congr (fun c hc => ?_)⟩
      · unfold Mix.logPi
        rw [hwi]
        unfold childMarg at ha
        simp only [List.getElem_zip]
        split at ha
        · next f hf => rw [hf]; simp [ha]
        · cases ha
      · rw [Num.log_fin, Num.lg_add (h.wpos i).le (div_nonneg
          (marg_nonneg (fun d hd => pick_nonneg h i w hd) w c) (dvol_pos h.proper hc _ _).le), mul_div_assoc])
  have hpos : 0 < rows.length := by rw [h2, hlen]; exact h.pos
  match rows, hpos, h1, h2, h3 with
  | a :: r, _, h1, h2, h3 =>
    refine ⟨⟨(r.length + 1) :: a.shape, fun i => ((a :: r).getD (i.headD 0) a).get i.tail⟩,
      by simp [Mix.massWtd, h1], ?_⟩
    have hl : r.length + 1 = n := by rw [← hlen, ← h2]; simp
    refine ⟨?_, fun i hi c hc => ?_⟩
    · have := (h3 0 (by simp)).1
      simp only [List.getElem_cons_zero] at this
      rw [hl, this]
    · have hi' : i < (a :: r).length := by simpa [hl] using hi
      have := (h3 i hi').2 c hc
      simp only [List.headD_cons, List.tail_cons]
      refine Eq.trans ?_ this
      simp only [List.getD, List.getElem?_eq_getElem hi', Option.getD_some]

/-- Probability of member `i` and cell `c` within the mixture. -/
def rowP (g : Grid) (n : ℕ) (ω : ℕ → ℝ) (L : ℕ → ℕ → ℝ) (P : ℕ → Cell → ℝ) (lw : Bool) (i : ℕ) (c : Cell) : ℝ :=
  if lw then L c.t c.z * (ω i * P i c) / ∑ k : Fin n, ω k * totalLight g L (P k) else ω i * P i c

/-- The distribution of the mixture. -/
def mixP (n : ℕ) (ω : ℕ → ℝ) (P : ℕ → Cell → ℝ) (c : Cell) : ℝ := ∑ i : Fin n, ω i * P i c

theorem sumCells_mul (g : Grid) (k : ℝ) (f : Cell → ℝ) :
    g.sumCells (fun d => k * f d) = k * g.sumCells f := by
  simp only [Grid.sumCells, Finset.mul_sum]

theorem sumCells_fsum {ι : Type} (g : Grid) (s : Finset ι) (f : ι → Cell → ℝ) :
    g.sumCells (fun d => ∑ i ∈ s, f i d) = ∑ i ∈ s, g.sumCells (f i) := by
  unfold Grid.sumCells
  symm
  refine Finset.sum_comm.trans (Finset.sum_congr rfl fun t _ => ?_)
  refine Finset.sum_comm.trans (Finset.sum_congr rfl fun v _ => ?_)
  refine Finset.sum_comm.trans (Finset.sum_congr rfl fun x _ => ?_)
  refine Finset.sum_comm.trans (Finset.sum_congr rfl fun y _ => ?_)
  exact Finset.sum_comm

theorem marg_fsum {ι : Type} (g : Grid) (s : Finset ι) (f : ι → Cell → ℝ) (w : PyStr) (c : Cell) :
    g.marg (fun d => ∑ i ∈ s, f i d) w c = ∑ i ∈ s, g.marg (f i) w c := by
  unfold Grid.marg
  rw [← sumCells_fsum]
  congr 1
  funext d
  split <;> simp

theorem marg_mul_const (g : Grid) (k : ℝ) (f : Cell → ℝ) (w : PyStr) (c : Cell) :
    g.marg (fun d => k * f d) w c = k * g.marg f w c := by
  unfold Grid.marg
  rw [← sumCells_mul]
  congr 1
  funext d
  split <;> simp

/-- A factor that depends only on the variables of `w` can be taken out. -/
theorem marg_mul_of_coords {g : Grid} {k f : Cell → ℝ} {w : PyStr} {c : Cell}
    (hk : ∀ d, coords w d = coords w c → k d = k c) :
    g.marg (fun d => k d * f d) w c = k c * g.marg f w c := by
  rw [← marg_mul_const]
  unfold Grid.marg
  congr 1
  funext d
  by_cases e : coords w d = coords w c
  · rw [if_pos e, if_pos e]
    beta_reduce
    rw [hk d e]
  · rw [if_neg e, if_neg e]

theorem totalLight_mixP (g : Grid) (n : ℕ) (ω : ℕ → ℝ) (L : ℕ → ℕ → ℝ) (P : ℕ → Cell → ℝ) :
    totalLight g L (mixP n ω P) = ∑ k : Fin n, ω k * totalLight g L (P k) := by
  unfold totalLight mixP
  simp only [Finset.mul_sum, ← sumCells_mul]
  rw [← sumCells_fsum]
  congr 1
  funext d
  refine Finset.sum_congr rfl fun i _ => by ring

theorem sum_rowP (g : Grid) (n : ℕ) (ω : ℕ → ℝ) (L : ℕ → ℕ → ℝ) (P : ℕ → Cell → ℝ) (lw : Bool) (c : Cell) :
    ∑ i : Fin n, rowP g n ω L P lw i c = wtdP g L (mixP n ω P) lw c := by
  unfold rowP wtdP
  cases lw with
  | false => simp [mixP]
  | true =>
    simp only [if_true, Grid.lightP]
    rw [show g.sumCells (fun d => L d.t d.z * mixP n ω P d) = totalLight g L (mixP n ω P) from rfl,
      totalLight_mixP]
    simp only [div_eq_mul_inv, ← Finset.sum_mul, mixP, ← Finset.mul_sum]

theorem light_coords {w : PyStr} (hw : w = ['t','v','x','z'] ∨ w = ['t','x','z']) (L : ℕ → ℕ → ℝ) (c d : Cell)
    (h : coords w d = coords w c) : L d.t d.z = L c.t c.z := by
  rcases hw with rfl | rfl <;> simp [coords, coord1] at h <;> simp [h]

/-- The letters summed away by `lightWtd`. -/
def lwS (w : PyStr) : List Char :=
  (if 't' ∉ w then ['t'] else []) ++ (if 'x' ∉ w then ['y','x'] else []) ++ (if 'z' ∉ w then ['z'] else [])

def lwCur (w : PyStr) : PyStr := if 'v' ∈ w then ['t','v','x','z'] else ['t','x','z']

theorem lw_facts : ∀ w ∈ marginals,
    (lwCur w, w) ∈ nested ∧ (lwS w).Perm (extraL (lwCur w) w) ∧ (lwS w).Nodup ∧
    ('t' ∉ w → removable (PyStr.replaceX (lwCur w)) ['t'] ∧
      axesOK1 (PyStr.replaceX (lwCur w)) [1] ['t']) ∧
    ('x' ∉ w → removable (if 't' ∉ w then (PyStr.replaceX (lwCur w)).diff ['t'] else
        PyStr.replaceX (lwCur w)) ['y','x'] ∧
      axesOK1 (if 't' ∉ w then (PyStr.replaceX (lwCur w)).diff ['t'] else
        PyStr.replaceX (lwCur w)) [-3, -2] ['y','x']) ∧
    ('z' ∉ w → removable (if 'x' ∉ w then (if 't' ∉ w then (PyStr.replaceX (lwCur w)).diff ['t'] else
        PyStr.replaceX (lwCur w)).diff ['y','x'] else (if 't' ∉ w then
        (PyStr.replaceX (lwCur w)).diff ['t'] else PyStr.replaceX (lwCur w))) ['z'] ∧
      axesOK1 (if 'x' ∉ w then (if 't' ∉ w then (PyStr.replaceX (lwCur w)).diff ['t'] else
        PyStr.replaceX (lwCur w)).diff ['y','x'] else (if 't' ∉ w then
        (PyStr.replaceX (lwCur w)).diff ['t'] else PyStr.replaceX (lwCur w))) [-1] ['z']) ∧
    (if 'z' ∉ w then (if 'x' ∉ w then (if 't' ∉ w then (PyStr.replaceX (lwCur w)).diff ['t'] else
        PyStr.replaceX (lwCur w)).diff ['y','x'] else (if 't' ∉ w then
        (PyStr.replaceX (lwCur w)).diff ['t'] else PyStr.replaceX (lwCur w))).diff ['z'] else
        (if 'x' ∉ w then (if 't' ∉ w then (PyStr.replaceX (lwCur w)).diff ['t'] else
        PyStr.replaceX (lwCur w)).diff ['y','x'] else (if 't' ∉ w then
        (PyStr.replaceX (lwCur w)).diff ['t'] else PyStr.replaceX (lwCur w)))) = PyStr.replaceX w ∧
    lwCur w ∈ marginals ∧ (PyStr.replaceX (lwCur w)).Nodup ∧
    (∀ ch ∈ PyStr.replaceX (lwCur w), ch ∈ ['t','v','x','y','z']) ∧
    ('v' ∈ lwCur w ↔ 'v' ∈ w) := by
  decide +kernel

/-- Light weights broadcast along the component axis. -/
theorem addLight {A : Arr Num} {f : ℕ → Cell → Num} {lwA : Arr Num} {k : Cell → Num} {w : PyStr}
    (hl : IsArr g ['t','z'] lwA k) (h : Lead g n (lwCur w) A f) :
    ∃ l r, (if 'v' ∈ w then getitem [.na, .all, .na, .na, .na, .all] lwA
        else getitem [.na, .all, .na, .na, .all] lwA : Py (Arr Num)) = .ok l ∧
      Np.add A (Np.map Num.log l) = .ok r ∧
      Lead g n (lwCur w) r (fun i c => f i c + (k c).log) := by
  obtain ⟨hs, hg⟩ := hl
  simp [Grid.shapeOf, Grid.shape1] at hs
  obtain ⟨h1, h2⟩ := h
  rw [forall_cell] at hg
  unfold lwCur at h1 h2 ⊢
  by_cases hv : 'v' ∈ w
  · simp only [if_pos hv] at h1 h2 ⊢
    simp [Grid.shapeOf, Grid.shape1] at h1
    refine ⟨⟨[1, g.nt, 1, 1, 1, g.nz], fun i => lwA.get (ixIdx [.na, .all, .na, .na, .na, .all] lwA.shape i)⟩,
      ⟨n :: g.shapeOf ['t','v','x','z'], fun i => A.get (bproj A.shape i) +
        (lwA.get (ixIdx [.na, .all, .na, .na, .na, .all] lwA.shape
          (bproj [1, g.nt, 1, 1, 1, g.nz] i))).log⟩, ?_, ?_, rfl, fun i hi => ?_⟩
    · simp [getitem, hs, ixShape]
    · simp [Np.add, Np.bop, Np.map, h1, bshapeR, Grid.shapeOf, Grid.shape1]
    · have h2 := h2 i hi
      rw [forall_cell] at h2 ⊢
      intro t v x y z
      have := hg t v x y z
      simp [coords, coord1] at this
      have h2 := h2 t v x y z
      simp [coords, coord1] at h2
      simp [coords, coord1, bproj, hs, h1, ixIdx, this, h2, bidx_lt hi]
  · simp only [if_neg hv] at h1 h2 ⊢
    simp [Grid.shapeOf, Grid.shape1] at h1
    refine ⟨⟨[1, g.nt, 1, 1, g.nz], fun i => lwA.get (ixIdx [.na, .all, .na, .na, .all] lwA.shape i)⟩,
      ⟨n :: g.shapeOf ['t','x','z'], fun i => A.get (bproj A.shape i) +
        (lwA.get (ixIdx [.na, .all, .na, .na, .all] lwA.shape
          (bproj [1, g.nt, 1, 1, g.nz] i))).log⟩, ?_, ?_, rfl, fun i hi => ?_⟩
    · simp [getitem, hs, ixShape]
    · simp [Np.add, Np.bop, Np.map, h1, bshapeR, Grid.shapeOf, Grid.shape1]
    · have h2 := h2 i hi
      rw [forall_cell] at h2 ⊢
      intro t v x y z
      have := hg t v x y z
      simp [coords, coord1] at this
      have h2 := h2 t v x y z
      simp [coords, coord1] at h2
      simp [coords, coord1, bproj, hs, h1, ixIdx, this, h2, bidx_lt hi]

theorem rowP_nonneg (h : MixIs m g n ω P Q L) (lw : Bool) (w : PyStr) (i : ℕ) {c : Cell} (hc : g.Has c) :
    0 ≤ rowP g n ω L (fun i => pick (P i) (Q i) w) lw i c := by
  have h1 := mul_nonneg (h.wpos i).le (pick_nonneg h i w hc)
  unfold rowP
  split
  · exact div_nonneg (mul_nonneg (h.lightNonneg _ _) h1) (Finset.sum_nonneg fun k _ =>
      mul_nonneg (h.wpos k).le (sumCells_nonneg fun d hd =>
        mul_nonneg (h.lightNonneg _ _) (pick_nonneg h k w hd)))
  · exact h1

theorem marg_rowP_light (R : ℕ → Cell → ℝ) {cur : PyStr} (hcur : cur = ['t','v','x','z'] ∨ cur = ['t','x','z'])
    (i : ℕ) (c : Cell) : g.marg (rowP g n ω L R true i) cur c =
      L c.t c.z * (ω i * g.marg (R i) cur c) / ∑ k : Fin n, ω k * totalLight g L (R k) := by
  have e : rowP g n ω L R true i = fun d => (L d.t d.z) * ((ω i * (∑ k : Fin n, ω k * totalLight g L (R k))⁻¹) * R i d) := by
    funext d; simp only [rowP, if_true, div_eq_mul_inv]; ring
  rw [e, marg_mul_of_coords (k := fun d => L d.t d.z) (fun d hd => light_coords hcur L c d hd),
    marg_mul_const, div_eq_mul_inv]
  ring

theorem Mix.lightWtd_is (h : MixIs m g n ω P Q L) (density : Bool) {w : PyStr} (hw : w ∈ marginals)
    (hL : 0 < ∑ k : Fin n, ω k * totalLight g L (pick (P k) (Q k) w)) :
    ∃ A, Mix.lightWtd m w density = .ok A ∧ Lead g n w A
      (fun i c => Num.lg (g.marg (rowP g n ω L (fun i => pick (P i) (Q i) w) true i) w c /
        dvol g density w c)) := by
  obtain ⟨f1, f2, f3, f4, f5, f6, f7, f8, f9, f10, f11⟩ := lw_facts w hw
  have hcur : lwCur w = ['t','v','x','z'] ∨ lwCur w = ['t','x','z'] := by
    unfold lwCur; split <;> simp
  have hcurD := marginals_chars _ f8
  have hwD := marginals_chars _ hw
  have hpick : ∀ i, pick (P i) (Q i) (lwCur w) = pick (P i) (Q i) w := by
    intro i; unfold pick; simp only [f11]
  set R : ℕ → Cell → ℝ := fun i => pick (P i) (Q i) w with hR
  set TL := ∑ k : Fin n, ω k * totalLight g L (R k) with hTL
  have hRn : ∀ i c, g.Has c → 0 ≤ R i c := fun i c hc => pick_nonneg h i w hc
  obtain ⟨A0, hA0, hA0'⟩ := Mix.massWtd_is h false f8
  obtain ⟨l, A1, hl, hA1, hA1'⟩ := addLight h.light hA0'
  have hA1'' : Lead g n (lwCur w) A1 (fun i c => Num.lg (L c.t c.z * (ω i * g.marg (R i) (lwCur w) c))) :=
    hA1'.congr fun i _ c hc => by
      rw [hpick, Num.log_fin]
      simp only [dvol, Bool.false_eq_true, if_false, div_one]
      rw [Num.lg_add (mul_nonneg (h.wpos i).le (marg_nonneg (fun d hd => hRn i d hd) _ c))
        (h.lightNonneg _ _), mul_comm]
  have hnn : ∀ i c, 0 ≤ L c.t c.z * (ω i * g.marg (R i) (lwCur w) c) := fun i c =>
    mul_nonneg (h.lightNonneg _ _) (mul_nonneg (h.wpos i).le (marg_nonneg (fun d hd => hRn i d hd) _ c))
  have hne : ∃ c : Cell, g.Has c := ⟨⟨0, 0, 0, 0, 0⟩, h.proper.nt, h.proper.nv, h.proper.nx, h.proper.ny, h.proper.nz⟩
  obtain ⟨c0, hc0⟩ := hne
  have hexp : Lead g n (lwCur w) (Np.map Num.exp A1)
      (fun i c => .fin (L c.t c.z * (ω i * g.marg (R i) (lwCur w) c))) :=
    (hA1''.map Num.exp).congr fun i _ c hc => Num.exp_lg (hnn i c)
  have hlse : logsumexpAll A1 = scalar (Num.lg TL) := by
    unfold logsumexpAll
    rw [Lead.sumAll hcurD f9 f10 hexp hc0]
    simp only [Np.map, scalar, Num.log_fin]
    congr 2
    funext _
    congr 1
    refine Finset.sum_congr rfl fun k _ => ?_
    have e : ∀ c, L c.t c.z * (ω k * g.marg (R k) (lwCur w) c) =
        g.marg (fun d => ω k * (L d.t d.z * R k d)) (lwCur w) c := by
      intro c
      rw [marg_mul_const, marg_mul_of_coords (k := fun d => L d.t d.z)
        (fun d hd => light_coords hcur L c d hd)]
      ring
    simp only [e]
    rw [sumOver_marg_total g _ f8 hc0, sumCells_mul]
    rfl
  obtain ⟨A2, hA2, hA2'⟩ := hA1''.iopB (· - ·) (barr_scalar g _ (Num.lg TL))
  have hA2'' : Lead g n (lwCur w) A2 (fun i c => Num.lg (g.marg (rowP g n ω L R true i) (lwCur w) c)) :=
    hA2'.congr fun i _ c hc => by
      rw [marg_rowP_light R hcur]
      exact Num.lg_sub (hnn i c) hL
  have hrow : ∀ i < n, ∀ c, g.Has c → 0 ≤ g.marg (rowP g n ω L R true i) (lwCur w) c :=
    fun i _ c _ => marg_nonneg (fun d hd => rowP_nonneg h true w i hd) _ c
  have hLL := (lead_letters hcurD).1 hA2''
  have so_nn : ∀ (S : List Char), (∀ ch ∈ S, AxisChar ch) → ∀ (q : ℕ → Cell → ℝ),
      (∀ i < n, ∀ c, g.Has c → 0 ≤ q i c) → ∀ i < n, ∀ c, g.Has c → 0 ≤ sumOver g S (q i) c :=
    fun S hS q hq i hi c hc => sumOver_nonneg S hS hc (fun d hd => hq i hi d hd)
  have ax1 : ∀ ch ∈ (['t'] : List Char), AxisChar ch := by unfold AxisChar; decide
  have ax2 : ∀ ch ∈ (['y','x'] : List Char), AxisChar ch := by unfold AxisChar; decide
  have ax3 : ∀ ch ∈ (['z'] : List Char), AxisChar ch := by unfold AxisChar; decide
  have axif : ∀ (p : Prop) [Decidable p] (S : List Char), (∀ ch ∈ S, AxisChar ch) →
      ∀ ch ∈ (if p then S else []), AxisChar ch := by
    intro p _ S hS ch hch
    split at hch
    · exact hS ch hch
    · simp at hch
  have ndif : ∀ (p : Prop) [Decidable p] (U S : List Char), U.Nodup →
      (if p then U.diff S else U).Nodup := by
    intro p _ U S hU
    split
    · exact hU.diff
    · exact hU
  have axd : ∀ (p : Prop) [Decidable p] (U S : List Char), (∀ ch ∈ U, AxisChar ch) →
      ∀ ch ∈ (if p then U.diff S else U), AxisChar ch := by
    intro p _ U S hU ch hch
    split at hch
    · exact hU ch (List.diff_subset _ _ hch)
    · exact hU ch hch
  have axU : ∀ ch ∈ PyStr.replaceX (lwCur w), AxisChar ch := f10
  obtain ⟨B1, hB1, hB1'⟩ := hLL.lseIf hrow f9 axU ('t' ∉ w) (fun p => (f4 p).1) (fun p => (f4 p).2) ax1
  have n1 := so_nn _ (axif ('t' ∉ w) _ ax1) _ hrow
  obtain ⟨B2, hB2, hB2'⟩ := hB1'.lseIf n1 (ndif _ _ _ f9) (axd _ _ _ axU) ('x' ∉ w)
    (fun p => (f5 p).1) (fun p => (f5 p).2) ax2
  have n2 := so_nn _ (axif ('x' ∉ w) _ ax2) _ n1
  obtain ⟨B3, hB3, hB3'⟩ := hB2'.lseIf n2 (ndif _ _ _ (ndif _ _ _ f9)) (axd _ _ _ (axd _ _ _ axU)) ('z' ∉ w)
    (fun p => (f6 p).1) (fun p => (f6 p).2) ax3
  have hB3'' : Lead g n w B3 (fun i c => Num.lg (g.marg (rowP g n ω L R true i) w c)) := by
    refine (lead_letters hwD).2 ?_
    rw [f7] at hB3'
    refine hB3'.congr fun i _ c hc => ?_
    congr 1
    rw [← sumOver_marg_nested g _ f1 hc]
    have hx : ∀ ch ∈ lwS w, AxisChar ch := by
      intro ch hch
      simp only [lwS, List.mem_append] at hch
      rcases hch with (h | h) | h
      · exact axif _ _ ax1 ch h
      · exact axif _ _ ax2 ch h
      · exact axif _ _ ax3 ch h
    rw [← sumOver_perm g f2 f3 hx]
    simp only [lwS, sumOver_append]
  have e : Mix.lightWtd m w density = (if density = true then do
      let d ← m.cube.constructVolumeElement w
      isub B3 (Np.map Num.log d) else .ok B3) := by
    unfold Mix.lightWtd
    simp only [hl, Py.ok_bind]
    rw [show (if 'v' ∈ w then ['t','v','x','z'] else ['t','x','z']) = lwCur w from rfl, hA0]
    simp only [Py.ok_bind, hA1, hlse, isub, hA2, hB1, hB2, hB3]
  rw [e]
  cases density with
  | false => exact ⟨B3, rfl, by simpa [dvol] using hB3''⟩
  | true =>
    obtain ⟨d, hd, -, hdb⟩ := volumeElement_plain h.cubeIs h.proper.nx h.proper.ny hwD
    obtain ⟨C, hC, hC'⟩ := hB3''.iopB (· - ·) (hdb.map Num.log)
    refine ⟨C, by simp [hd, isub, hC], hC'.congr fun i _ c hc => ?_⟩
    rw [Num.log_fin]
    exact Num.lg_sub (marg_nonneg (fun d hd => rowP_nonneg h true w i hd) _ c) (volOf_pos h.proper hc _)

/-- Total light of the mixture, as seen by strings like `w`. -/
def mixLight (g : Grid) (n : ℕ) (ω : ℕ → ℝ) (L : ℕ → ℕ → ℝ) (P Q : ℕ → Cell → ℝ) (w : PyStr) : ℝ :=
  totalLight g L (mixP n ω (fun i => pick (P i) (Q i) w))

theorem Mix.marginalRows_is (h : MixIs m g n ω P Q L) (density lw : Bool) {w : PyStr} (hw : w ∈ marginals)
    (hlw : lw = true → 0 < mixLight g n ω L P Q w) :
    ∃ A, Mix.marginalRows m w density lw = .ok A ∧ Lead g n w A
      (fun i c => Num.lg (g.marg (rowP g n ω L (fun i => pick (P i) (Q i) w) lw i) w c /
        dvol g density w c)) := by
  cases lw with
  | true =>
    have := hlw rfl
    unfold mixLight at this
    rw [totalLight_mixP] at this
    exact Mix.lightWtd_is h density hw this
  | false =>
    obtain ⟨A, hA, hA'⟩ := Mix.massWtd_is h density hw
    refine ⟨A, hA, hA'.congr fun i _ c _ => ?_⟩
    have : rowP g n ω L (fun i => pick (P i) (Q i) w) false i = fun d => ω i * pick (P i) (Q i) w d := by
      funext d; simp [rowP]
    rw [this, marg_mul_const]

/-- Sum of the rows. -/
theorem Lead.collapse {A : Arr Num} {w : PyStr} {f : ℕ → Cell → Num} (h : Lead g n w A f) :
    ∃ r, Mix.collapseIf true A = .ok r ∧ IsArr g w r (fun c => (∑ i : Fin n, (f i c).exp).log) := by
  obtain ⟨r, hr, hr'⟩ := (h.map Num.exp).sum
  exact ⟨Np.map Num.log r, by simp [Mix.collapseIf, logsumexp, hr], hr'.map Num.log⟩

theorem Lead.collapse_lg {A : Arr Num} {w : PyStr} {q : ℕ → Cell → ℝ}
    (h : Lead g n w A (fun i c => Num.lg (q i c))) (hq : ∀ i < n, ∀ c, g.Has c → 0 ≤ q i c) :
    ∃ r, Mix.collapseIf true A = .ok r ∧ IsArr g w r (fun c => Num.lg (∑ i : Fin n, q i c)) := by
  obtain ⟨r, hr, hr'⟩ := h.collapse
  refine ⟨r, hr, hr'.congr fun c hc => ?_⟩
  rw [Finset.sum_congr rfl (fun (i : Fin n) _ => Num.exp_lg (hq i i.2 c hc)), Num.fin_sum, Num.log_fin]

theorem sum_marg_rowP (w : PyStr) (lw : Bool) (R : ℕ → Cell → ℝ) (c : Cell) :
    ∑ i : Fin n, g.marg (rowP g n ω L R lw i) w c = g.marg (wtdP g L (mixP n ω R) lw) w c := by
  rw [← marg_fsum]
  congr 1
  funext d
  exact sum_rowP g n ω L R lw d

theorem margRow_nonneg (h : MixIs m g n ω P Q L) (lw : Bool) (w v : PyStr) (i : ℕ) (c : Cell) :
    0 ≤ g.marg (rowP g n ω L (fun i => pick (P i) (Q i) v) lw i) w c :=
  marg_nonneg (fun _ hd => rowP_nonneg h lw v i hd) w c

/-- The mixture's joint table vanishes where its marginal table does. -/
theorem Mix.absCont (h : MixIs m g n ω P Q L) (lw : Bool) (p : PyStr × PyStr) (hp : p ∈ conditionals)
    (hlw : lw = true → ∀ w, 0 < mixLight g n ω L P Q w) {c : Cell} (hc : g.Has c) (i : ℕ)
    (h0 : g.marg (rowP g n ω L (fun i => pick (P i) (Q i) p.2) lw i) p.2 c = 0) :
    g.marg (rowP g n ω L (fun i => pick (P i) (Q i) (unionStr p.1 p.2)) lw i) (unionStr p.1 p.2) c = 0 := by
  by_cases hv : ('v' ∈ unionStr p.1 p.2 ↔ 'v' ∈ p.2)
  · have e : (fun i => pick (P i) (Q i) (unionStr p.1 p.2)) = fun i => pick (P i) (Q i) p.2 := by
      funext i; unfold pick; simp only [hv]
    rw [e]
    exact marg_zero_of_subset (fun d hd => rowP_nonneg h lw p.2 i hd)
      (fun d => coords_union_eq p hp c d) h0
  · have hfacts : ∀ p ∈ conditionals, ¬ ('v' ∈ unionStr p.1 p.2 ↔ 'v' ∈ p.2) →
        'v' ∈ unionStr p.1 p.2 ∧ 'v' ∉ p.2 ∧ ∀ ch ∈ PyStr.replaceX p.2, ch ∈ PyStr.replaceX ['t','x','z'] := by
      decide +kernel
    obtain ⟨v1, v2, v3⟩ := hfacts p hp hv
    obtain ⟨-, -, -, -, h5, -⟩ := conditionals_letters p hp
    have e1 : (fun i => pick (P i) (Q i) (unionStr p.1 p.2)) = P := by
      funext i; simp [pick, v1]
    have e2 : (fun i => pick (P i) (Q i) p.2) = Q := by
      funext i; simp [pick, v2]
    have nnQ : ∀ d, g.Has d → 0 ≤ rowP g n ω L Q lw i d := fun d hd => by
      have := rowP_nonneg h lw p.2 i hd; rwa [e2] at this
    have nnP : ∀ d, g.Has d → 0 ≤ rowP g n ω L P lw i d := fun d hd => by
      have := rowP_nonneg h lw (unionStr p.1 p.2) i hd; rwa [e1] at this
    rw [e2] at h0
    rw [e1]
    have key : ∀ d, g.Has d → coords (unionStr p.1 p.2) d = coords (unionStr p.1 p.2) c →
        rowP g n ω L P lw i d = 0 := by
      intro d hd hcd
      have hcd' := coords_union_eq p hp c d hcd
      have hm : g.marg (rowP g n ω L Q lw i) p.2 d = 0 := by
        rw [← h0]; unfold Grid.marg; simp only [hcd']
      have ht : g.marg (rowP g n ω L Q lw i) ['t','x','z'] d = 0 := by
        refine marg_zero_of_subset nnQ (fun d' hd' => ?_) hm
        rw [coords_letters _ (by unfold DistChars; decide), coords_letters _ (by unfold DistChars; decide)] at hd'
        rw [coords_letters _ h5, coords_letters _ h5]
        exact List.map_congr_left fun ch hch => (List.map_inj_left.1 hd') ch (v3 ch hch)
      have htP : g.marg (rowP g n ω L P lw i) ['t','x','z'] d = 0 := by
        cases lw with
        | false =>
          have ee : ∀ R : ℕ → Cell → ℝ, rowP g n ω L R false i = fun d => ω i * R i d := by
            intro R; funext d; simp [rowP]
          rw [ee, marg_mul_const] at ht ⊢
          rcases mul_eq_zero.1 ht with h1 | h1
          · exact absurd h1 (h.wpos i).ne'
          · rw [h.absCont i d hd h1, mul_zero]
        | true =>
          rw [marg_rowP_light _ (.inr rfl)] at ht ⊢
          have hTL : (∑ k : Fin n, ω k * totalLight g L (Q k)) ≠ 0 := by
            have := hlw rfl p.2
            unfold mixLight at this
            rw [e2, totalLight_mixP] at this
            exact this.ne'
          rcases div_eq_zero_iff.1 ht with h1 | h1
          · rcases mul_eq_zero.1 h1 with h2 | h2
            · rw [h2]; simp
            · rcases mul_eq_zero.1 h2 with h3 | h3
              · exact absurd h3 (h.wpos i).ne'
              · rw [h.absCont i d hd h3]; simp
          · exact absurd h1 hTL
      have := sumCells_zero_term (g := g) (f := fun d' => if coords ['t','x','z'] d' = coords ['t','x','z'] d
        then rowP g n ω L P lw i d' else 0)
        (fun d' hd' => by beta_reduce; split; exacts [nnP d' hd', le_rfl]) htP hd
      simpa using this
    unfold Grid.marg
    rw [show g.sumCells (fun d => if coords (unionStr p.1 p.2) d = coords (unionStr p.1 p.2) c then
      rowP g n ω L P lw i d else 0) = g.sumCells (fun _ => 0) from ?_]
    · simp [Grid.sumCells]
    · unfold Grid.sumCells
      refine Finset.sum_congr rfl fun t _ => Finset.sum_congr rfl fun v _ => Finset.sum_congr rfl
        fun x _ => Finset.sum_congr rfl fun y _ => Finset.sum_congr rfl fun z _ => ?_
      beta_reduce
      split
      · next hh => exact key _ ⟨t.2, v.2, x.2, y.2, z.2⟩ hh
      · rfl

theorem condTable_sum {ι : Type} (s : Finset ι) (hs : s.Nonempty) (J : ι → ℝ) (M d : ℝ) :
    ∑ i ∈ s, condTable (J i) M d = condTable (∑ i ∈ s, J i) M d := by
  unfold condTable
  by_cases hM : M = 0
  · simp only [if_pos hM]
    obtain ⟨i, hi⟩ := hs
    exact Num.sum_eq_nan hi rfl
  · simp only [if_neg hM, Num.fin_sum, div_eq_mul_inv, Finset.sum_mul]

theorem condTable_exp_log {j m d : ℝ} (hj : 0 ≤ j) (hm : 0 ≤ m) (hd : 0 < d) :
    (condTable j m d).log.exp = condTable j m d := by
  unfold condTable
  split
  · simp
  · rw [Num.log_fin, Num.exp_lg (by positivity)]

/-- The conditional distributions, one row per member, before `np.exp`. -/
theorem Mix.conditionalRows_is (h : MixIs m g n ω P Q L) (density lw : Bool) (p : PyStr × PyStr)
    (hp : p ∈ conditionals) (hlw : lw = true → ∀ w, 0 < mixLight g n ω L P Q w) :
    ∃ A, Mix.conditionalRows m (condStr p.1 p.2) density lw = .ok A ∧
      Lead g n (condStr p.1 p.2) A (fun i c => if density then
        Num.lg (g.marg (rowP g n ω L (fun i => pick (P i) (Q i) (unionStr p.1 p.2)) lw i) (unionStr p.1 p.2) c) -
        Num.lg (g.marg (wtdP g L (mixP n ω (fun i => pick (P i) (Q i) p.2)) lw) p.2 c) -
        Num.lg (g.volOf p.1 c) else
        Num.lg (g.marg (rowP g n ω L (fun i => pick (P i) (Q i) (unionStr p.1 p.2)) lw i) (unionStr p.1 p.2) c) -
        Num.lg (g.marg (wtdP g L (mixP n ω (fun i => pick (P i) (Q i) p.2)) lw) p.2 c)) := by
  obtain ⟨-, -, -, h4, h5, h6, h7, h8, h9, h10⟩ := conditionals_letters p hp
  obtain ⟨J, hJ, hJ'⟩ := Mix.marginalRows_is h false lw h10 (fun e => hlw e _)
  obtain ⟨M0, hM0, hM0'⟩ := Mix.marginalRows_is h false lw h9 (fun e => hlw e _)
  obtain ⟨M, hM, hM'⟩ := hM0'.collapse_lg (fun i _ c hc => div_nonneg (margRow_nonneg h lw _ _ i c)
    (dvol_pos h.proper hc _ _).le)
  have hM2 : IsArr g p.2 M (fun c => Num.lg (g.marg (wtdP g L (mixP n ω (fun i => pick (P i) (Q i) p.2)) lw) p.2 c)) :=
    hM'.congr fun c _ => by simp only [dvol, Bool.false_eq_true, if_false, div_one, sum_marg_rowP]
  obtain ⟨J2, hJ2, hJ2'⟩ := Lead.moveaxis p hp hJ'
  obtain ⟨C, hC, hC'⟩ := hJ2'.bopB (· - ·) (barr_trailing (a := p.1) hM2)
  rw [h7] at hJ2
  have hs := split_condStr (a := p.1) (b := p.2) (DistChars.noUnderscore h4) (DistChars.noUnderscore h5)
  have e1 : Mix.conditionalRows m (condStr p.1 p.2) density lw = (if density = true then do
      let dvol ← m.cube.constructVolumeElement (condStr p.1 p.2)
      sub C (Np.map Num.log dvol) else .ok C) := by
    unfold Mix.conditionalRows
    rw [hs]
    simp only [h7, hJ, hM0, hM, Py.ok_bind, hJ2, sub, hC]
  rw [e1]
  cases density with
  | false => exact ⟨C, rfl, hC'.congr fun i _ c _ => by simp [dvol]⟩
  | true =>
    obtain ⟨d, hd, hd'⟩ := volumeElement_cond h.cubeIs h.proper.nx h.proper.ny (a := p.1) (b := p.2) h4 h5
    obtain ⟨R, hR, hR'⟩ := hC'.bopB (· - ·) (hd'.map Num.log)
    exact ⟨R, by simp [hd, sub, hR], hR'.congr fun i _ c _ => by simp [dvol, Num.log_fin]⟩

theorem marginal_noUnderscore {w : PyStr} (hw : w ∈ marginals) : '_' ∉ w := by
  have : ∀ w ∈ marginals, '_' ∉ w := by decide +kernel
  exact this w hw

/-- All 15 marginals of a mixture. -/
theorem Mix.getP_marg (h : MixIs m g n ω P Q L) (density lw : Bool) {w : PyStr} (hw : w ∈ marginals)
    (hlw : lw = true → 0 < mixLight g n ω L P Q w) :
    Gives (Mix.getP m w true density lw) g w
      (fun c => .fin (g.marg (wtdP g L (mixP n ω (fun i => pick (P i) (Q i) w)) lw) w c / dvol g density w c)) := by
  obtain ⟨A, hA, hA'⟩ := Mix.marginalRows_is h density lw hw hlw
  have hnn : ∀ i < n, ∀ c, g.Has c → 0 ≤ g.marg (rowP g n ω L (fun i => pick (P i) (Q i) w) lw i) w c /
      dvol g density w c := fun i _ c hc =>
    div_nonneg (margRow_nonneg h lw _ _ i c) (dvol_pos h.proper hc _ _).le
  obtain ⟨r, hr, hr'⟩ := hA'.collapse_lg hnn
  refine ⟨Np.map Num.exp r, ?_, (hr'.map Num.exp).congr fun c hc => ?_⟩
  · simp [Mix.getP, Mix.getLogP, marginal_noUnderscore hw, hA, hr]
  · rw [Num.exp_lg (Finset.sum_nonneg fun (i : Fin n) _ => hnn i i.2 c hc)]
    simp only [div_eq_mul_inv, ← Finset.sum_mul, sum_marg_rowP]

/-- The same, one row per member. -/
theorem Mix.getP_marg_rows (h : MixIs m g n ω P Q L) (density lw : Bool) {w : PyStr} (hw : w ∈ marginals)
    (hlw : lw = true → 0 < mixLight g n ω L P Q w) :
    ∃ A, Mix.getP m w false density lw = .ok A ∧ Lead g n w A
      (fun i c => .fin (g.marg (rowP g n ω L (fun i => pick (P i) (Q i) w) lw i) w c / dvol g density w c)) := by
  obtain ⟨A, hA, hA'⟩ := Mix.marginalRows_is h density lw hw hlw
  refine ⟨Np.map Num.exp A, ?_, (hA'.map Num.exp).congr fun i hi c hc => ?_⟩
  · simp [Mix.getP, Mix.getLogP, marginal_noUnderscore hw, hA, Mix.collapseIf]
  · exact Num.exp_lg (div_nonneg (margRow_nonneg h lw _ _ i c) (dvol_pos h.proper hc _ _).le)

theorem condRow_exp (h : MixIs m g n ω P Q L) (density lw : Bool) (p : PyStr × PyStr)
    (hp : p ∈ conditionals) (hlw : lw = true → ∀ w, 0 < mixLight g n ω L P Q w) {c : Cell} (hc : g.Has c)
    {i : ℕ} (hi : i < n) :
    Num.exp (if density then
        Num.lg (g.marg (rowP g n ω L (fun i => pick (P i) (Q i) (unionStr p.1 p.2)) lw i) (unionStr p.1 p.2) c) -
        Num.lg (g.marg (wtdP g L (mixP n ω (fun i => pick (P i) (Q i) p.2)) lw) p.2 c) -
        Num.lg (g.volOf p.1 c) else
        Num.lg (g.marg (rowP g n ω L (fun i => pick (P i) (Q i) (unionStr p.1 p.2)) lw i) (unionStr p.1 p.2) c) -
        Num.lg (g.marg (wtdP g L (mixP n ω (fun i => pick (P i) (Q i) p.2)) lw) p.2 c)) =
      condTable (g.marg (rowP g n ω L (fun i => pick (P i) (Q i) (unionStr p.1 p.2)) lw i) (unionStr p.1 p.2) c)
        (g.marg (wtdP g L (mixP n ω (fun i => pick (P i) (Q i) p.2)) lw) p.2 c) (dvol g density p.1 c) := by
  have hM : 0 ≤ g.marg (wtdP g L (mixP n ω (fun i => pick (P i) (Q i) p.2)) lw) p.2 c := by
    rw [← sum_marg_rowP]
    exact Finset.sum_nonneg fun (i : Fin n) _ => margRow_nonneg h lw _ _ i c
  have hac : g.marg (wtdP g L (mixP n ω (fun i => pick (P i) (Q i) p.2)) lw) p.2 c = 0 →
      g.marg (rowP g n ω L (fun i => pick (P i) (Q i) (unionStr p.1 p.2)) lw i) (unionStr p.1 p.2) c = 0 := by
    intro h0
    rw [← sum_marg_rowP, Finset.sum_eq_zero_iff_of_nonneg (fun (i : Fin n) _ => margRow_nonneg h lw _ _ i c)] at h0
    exact Mix.absCont h lw p hp hlw hc i (h0 ⟨i, hi⟩ (Finset.mem_univ _))
  cases density with
  | false => simpa [dvol] using condTable_exp' (margRow_nonneg h lw _ _ i c) hM hac
  | true => simpa [dvol] using condTable_exp (margRow_nonneg h lw _ _ i c) hM (volOf_pos h.proper hc _) hac

/-- All 50 conditionals of a mixture. -/
theorem Mix.getP_cond (h : MixIs m g n ω P Q L) (density lw : Bool) (p : PyStr × PyStr)
    (hp : p ∈ conditionals) (hlw : lw = true → ∀ w, 0 < mixLight g n ω L P Q w) :
    Gives (Mix.getP m (condStr p.1 p.2) true density lw) g (condStr p.1 p.2)
      (fun c => condTable
        (g.marg (wtdP g L (mixP n ω (fun i => pick (P i) (Q i) (unionStr p.1 p.2))) lw) (unionStr p.1 p.2) c)
        (g.marg (wtdP g L (mixP n ω (fun i => pick (P i) (Q i) p.2)) lw) p.2 c) (dvol g density p.1 c)) := by
  obtain ⟨A, hA, hA'⟩ := Mix.conditionalRows_is h density lw p hp hlw
  obtain ⟨r, hr, hr'⟩ := hA'.collapse
  refine ⟨Np.map Num.exp r, ?_, (hr'.map Num.exp).congr fun c hc => ?_⟩
  · simp [Mix.getP, Mix.getLogP, hasUnderscore_condStr, hA, hr]
  · have hn : (Finset.univ : Finset (Fin n)).Nonempty := ⟨⟨0, h.pos⟩, Finset.mem_univ _⟩
    rw [Finset.sum_congr rfl fun (i : Fin n) _ => condRow_exp h density lw p hp hlw hc i.2, condTable_sum _ hn,
      sum_marg_rowP]
    refine condTable_exp_log ?_ ?_ (dvol_pos h.proper hc _ _)
    · rw [← sum_marg_rowP]
      exact Finset.sum_nonneg fun (i : Fin n) _ => margRow_nonneg h lw _ _ i c
    · rw [← sum_marg_rowP]
      exact Finset.sum_nonneg fun (i : Fin n) _ => margRow_nonneg h lw _ _ i c

/-- The same, one row per member. -/
theorem Mix.getP_cond_rows (h : MixIs m g n ω P Q L) (density lw : Bool) (p : PyStr × PyStr)
    (hp : p ∈ conditionals) (hlw : lw = true → ∀ w, 0 < mixLight g n ω L P Q w) :
    ∃ A, Mix.getP m (condStr p.1 p.2) false density lw = .ok A ∧ Lead g n (condStr p.1 p.2) A
      (fun i c => condTable
        (g.marg (rowP g n ω L (fun i => pick (P i) (Q i) (unionStr p.1 p.2)) lw i) (unionStr p.1 p.2) c)
        (g.marg (wtdP g L (mixP n ω (fun i => pick (P i) (Q i) p.2)) lw) p.2 c) (dvol g density p.1 c)) := by
  obtain ⟨A, hA, hA'⟩ := Mix.conditionalRows_is h density lw p hp hlw
  refine ⟨Np.map Num.exp A, ?_, (hA'.map Num.exp).congr fun i hi c hc =>
    condRow_exp h density lw p hp hlw hc hi⟩
  simp [Mix.getP, Mix.getLogP, hasUnderscore_condStr, hA, Mix.collapseIf]

end
end PKM
