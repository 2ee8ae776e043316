import Verif.SspInit
import Mathlib.Algebra.Order.Floor.Semiring
import Mathlib.Data.Rat.Floor

/-!
# C42-C44, C54: the grid of SSP parameters

`GridIs g n nt nz t z S` says that the object `g` has `nt` age bins with edges `t`, `nz` metallicity bins with edges `z`, and
spectrum `S k i j` at wavelength `k`, metallicity bin `i`, age bin `j`, in column `i * nt + j`.
-/

open scoped Classical

noncomputable section

namespace PKM
open Np

/-! ### Specification of rebinning -/

/-- `z'` are the outer edges of groups of `r` consecutive bins with edges `z`. -/
def OuterEdges (z z' : ℕ → ℝ) (n r : ℕ) : Prop := ∀ i, z' i = z (min (i * r) n)

/-- `S'` is, in every pair of groups, the average of `S` weighted with the bin areas. -/
def WeightedMeans (S S' : ℕ → ℕ → ℕ → ℝ) (z t : ℕ → ℝ) (nz nt zr tr : ℕ) : Prop :=
  ∀ k i j, S' k i j = (∑ a ∈ Finset.Ico (i * zr) (min ((i + 1) * zr) nz), ∑ b ∈ Finset.Ico (j * tr) (min ((j + 1) * tr) nt),
      S k a b * (width z a * width t b)) /
    ∑ a ∈ Finset.Ico (i * zr) (min ((i + 1) * zr) nz), ∑ b ∈ Finset.Ico (j * tr) (min ((j + 1) * tr) nt), width z a * width t b

/-- Number of groups: `n / r` rounded up. -/
theorem groups_eq_ceil {n r : ℕ} (hr : 0 < r) : groups n r = ⌈(n : ℚ) / r⌉₊ := by
  have hr' : (0 : ℚ) < r := by exact_mod_cast hr
  refine le_antisymm ?_ ?_
  · by_contra hlt
    have h1 := groups_le (i := ⌈(n : ℚ) / r⌉₊) hr (not_le.1 hlt)
    have h2 := (div_le_iff₀ hr').1 (Nat.le_ceil ((n : ℚ) / r))
    have : n ≤ ⌈(n : ℚ) / r⌉₊ * r := by exact_mod_cast h2
    omega
  · refine Nat.ceil_le.2 ((div_le_iff₀ hr').2 ?_)
    exact_mod_cast groups_ge hr

/-- Rebinning works on every grid with increasing edges and gives the grid of outer edges and weighted means. -/
theorem C42_rebin {g : SspGrid} {n nt nz : ℕ} {t z : ℕ → ℝ} {S : ℕ → ℕ → ℕ → ℝ} (h : GridIs g n nt nz t z S)
    {ageRebin zRebin : ℕ} (hz : ∀ i < nz, z i < z (i + 1)) (ht : ∀ j < nt, t j < t (j + 1))
    (ha : 0 < ageRebin) (hb : 0 < zRebin) (hn : 0 < n) (hnz : 0 < nz) (hnt : 0 < nt) :
    ∃ g' t' z' S', g.rebin ageRebin zRebin = .ok g' ∧
      GridIs g' n ⌈(nt : ℚ) / ageRebin⌉₊ ⌈(nz : ℚ) / zRebin⌉₊ t' z' S' ∧
      OuterEdges t t' nt ageRebin ∧ OuterEdges z z' nz zRebin ∧ WeightedMeans S S' z t nz nt zRebin ageRebin := by
  obtain ⟨g', hg', hG, -⟩ := rebin_is h hb ha (strictMonoOn_edges hz) (strictMonoOn_edges ht) hn hnz hnt
  rw [groups_eq_ceil ha, groups_eq_ceil hb] at hG
  exact ⟨g', _, _, _, hg', hG, fun _ => rfl, fun _ => rfl, fun _ _ _ => rfl⟩

/-- Every original bin is in exactly one group; the first and last edge are kept; the new bins are increasing. -/
theorem C42_partition {n r : ℕ} {z z' : ℕ → ℝ} (hz : ∀ i < n, z i < z (i + 1)) (h' : OuterEdges z z' n r) (hr : 0 < r) :
    (∀ a < n, ∃! i, i < ⌈(n : ℚ) / r⌉₊ ∧ a ∈ Finset.Ico (i * r) (min ((i + 1) * r) n)) ∧
    z' 0 = z 0 ∧ z' ⌈(n : ℚ) / r⌉₊ = z n ∧ ∀ i < ⌈(n : ℚ) / r⌉₊, z' i < z' (i + 1) := by
  rw [← groups_eq_ceil hr]
  refine ⟨fun a ha => ⟨a / r, ⟨?_, ?_⟩, ?_⟩, ?_, ?_, ?_⟩
  · by_contra hlt
    have h1 := Nat.mul_le_mul_right r (not_lt.1 hlt)
    have h2 := groups_ge (n := n) hr
    have h3 := Nat.div_mul_le_self a r
    omega
  · have h1 := Nat.div_mul_le_self a r
    have h2 := Nat.lt_mul_div_succ a hr
    have e : r * (a / r + 1) = (a / r + 1) * r := Nat.mul_comm _ _
    rw [Finset.mem_Ico]
    omega
  · rintro i ⟨-, hi⟩
    rw [Finset.mem_Ico] at hi
    have e : (i + 1) * r = i * r + r := by ring
    exact (Nat.div_eq_of_lt_le (by omega) (by omega)).symm
  · rw [h']; simp
  · rw [h', Nat.min_eq_right (groups_ge hr)]
  · intro i hi
    rw [h', h']
    exact groupEdge_lt hr hi (strictMonoOn_edges hz)

/-- Flux (spectrum times bin area) is conserved in every group, and in total. -/
theorem C42_flux {nt nz ageRebin zRebin : ℕ} {t t' z z' : ℕ → ℝ} {S S' : ℕ → ℕ → ℕ → ℝ}
    (hz : ∀ i < nz, z i < z (i + 1)) (ht : ∀ j < nt, t j < t (j + 1)) (ha : 0 < ageRebin) (hb : 0 < zRebin)
    (ht' : OuterEdges t t' nt ageRebin) (hz' : OuterEdges z z' nz zRebin)
    (hS : WeightedMeans S S' z t nz nt zRebin ageRebin) (k : ℕ) :
    (∀ i < ⌈(nz : ℚ) / zRebin⌉₊, ∀ j < ⌈(nt : ℚ) / ageRebin⌉₊, S' k i j * (width z' i * width t' j) =
      ∑ a ∈ Finset.Ico (i * zRebin) (min ((i + 1) * zRebin) nz), ∑ b ∈ Finset.Ico (j * ageRebin) (min ((j + 1) * ageRebin) nt),
        S k a b * (width z a * width t b)) ∧
    ∑ i ∈ Finset.range ⌈(nz : ℚ) / zRebin⌉₊, ∑ j ∈ Finset.range ⌈(nt : ℚ) / ageRebin⌉₊, S' k i j * (width z' i * width t' j) =
      ∑ a ∈ Finset.range nz, ∑ b ∈ Finset.range nt, S k a b * (width z a * width t b) := by
  rw [← groups_eq_ceil ha, ← groups_eq_ceil hb]
  obtain rfl : z' = groupEdge z nz zRebin := funext hz'
  obtain rfl : t' = groupEdge t nt ageRebin := funext ht'
  have key : ∀ i < groups nz zRebin, ∀ j < groups nt ageRebin,
      S' k i j * (width (groupEdge z nz zRebin) i * width (groupEdge t nt ageRebin) j) =
      ∑ a ∈ group nz zRebin i, ∑ b ∈ group nt ageRebin j, S k a b * (width z a * width t b) := by
    intro i hi j hj
    have hden : 0 < width (groupEdge z nz zRebin) i * width (groupEdge t nt ageRebin) j :=
      mul_pos (sub_pos.2 (groupEdge_lt hb hi (strictMonoOn_edges hz))) (sub_pos.2 (groupEdge_lt ha hj (strictMonoOn_edges ht)))
    have := area_sum hb ha hi hj z t
    rw [hS k i j]
    change _ / (∑ a ∈ group nz zRebin i, ∑ b ∈ group nt ageRebin j, width z a * width t b) * _ = _
    rw [this, div_mul_cancel₀ _ hden.ne']
    rfl
  refine ⟨key, ?_⟩
  have tot : ∀ {n r : ℕ} (hr : 0 < r) (f : ℕ → ℝ), ∑ i ∈ Finset.range (groups n r), ∑ a ∈ group n r i, f a =
      ∑ a ∈ Finset.range n, f a := by
    intro n r hr f
    have hstep : ∀ m ≤ groups n r, ∑ i ∈ Finset.range m, ∑ a ∈ group n r i, f a = ∑ a ∈ Finset.range (min (m * r) n), f a := by
      intro m
      induction m with
      | zero => simp
      | succ m ih =>
        intro hm
        rw [Finset.sum_range_succ, ih (by omega)]
        have h1 := groups_le hr (show m < groups n r by omega)
        have e : (m + 1) * r = m * r + r := by ring
        rw [Nat.min_eq_left h1.le]
        simp only [Finset.range_eq_Ico, group]
        exact Finset.sum_Ico_consecutive f (Nat.zero_le _) (by omega)
    rw [hstep _ le_rfl, Nat.min_eq_right (groups_ge hr)]
  have hrow : ∀ a, ∑ j ∈ Finset.range (groups nt ageRebin), ∑ b ∈ group nt ageRebin j, S k a b * (width z a * width t b) =
      ∑ b ∈ Finset.range nt, S k a b * (width z a * width t b) := fun a => tot ha _
  calc _ = ∑ i ∈ Finset.range (groups nz zRebin), ∑ a ∈ group nz zRebin i, ∑ b ∈ Finset.range nt,
        S k a b * (width z a * width t b) := by
        refine Finset.sum_congr rfl fun i hi => ?_
        rw [Finset.sum_congr rfl fun j hj => key i (Finset.mem_range.1 hi) j (Finset.mem_range.1 hj), Finset.sum_comm]
        exact Finset.sum_congr rfl fun a _ => hrow a
    _ = _ := tot hb _

/-- `age_rebin = z_rebin = 1` keeps edges, centres, widths and spectra. -/
theorem C42_identity {g : SspGrid} {n nt nz : ℕ} {t z : ℕ → ℝ} {S : ℕ → ℕ → ℕ → ℝ} (h : GridIs g n nt nz t z S)
    (hz : ∀ i < nz, z i < z (i + 1)) (ht : ∀ j < nt, t j < t (j + 1)) (hn : 0 < n) (hnz : 0 < nz) (hnt : 0 < nt) :
    ∃ g', g.rebin 1 1 = .ok g' ∧ GridIs g' n nt nz t z S := by
  obtain ⟨g', hg', hG, -⟩ := rebin_is h (zr := 1) (tr := 1) one_pos one_pos (strictMonoOn_edges hz) (strictMonoOn_edges ht) hn hnz hnt
  have e : ∀ m, groups m 1 = m := fun m => by simp [groups]
  have eE : ∀ (f : ℕ → ℝ) m i, i ≤ m → groupEdge f m 1 i = f i := fun f m i hi => by simp [groupEdge, hi]
  have eG : ∀ m i, i < m → group m 1 i = {i} := fun m i hi => by
    ext a
    simp only [group, Finset.mem_Ico, Finset.mem_singleton]
    omega
  rw [e, e] at hG
  refine ⟨g', hg', ⟨hG.tEdges.congr fun i hi => eE _ _ _ (by omega), hG.zEdges.congr fun i hi => eE _ _ _ (by omega),
    hG.tCents.congr fun i hi => ?_, hG.zCents.congr fun i hi => ?_, hG.deltaT.congr fun i hi => ?_,
    hG.deltaZ.congr fun i hi => ?_, hG.dims, hG.xShape, fun k hk i hi j hj => ?_⟩⟩
  · simp only [centre, eE _ _ _ hi.le, eE _ _ _ hi]
  · simp only [centre, eE _ _ _ hi.le, eE _ _ _ hi]
  · simp only [width, eE _ _ _ hi.le, eE _ _ _ hi]
  · simp only [width, eE _ _ _ hi.le, eE _ _ _ hi]
  · rw [hG.x k hk i hi j hj]
    have h1 : width z i * width t j ≠ 0 := (mul_pos (sub_pos.2 (hz i hi)) (sub_pos.2 (ht j hj))).ne'
    simp only [groupMean, eG _ _ hi, eG _ _ hj, Finset.sum_singleton]
    rw [mul_div_cancel_right₀ _ h1]

/-- A rebin factor of zero raises `ValueError`. -/
theorem C42_zero (g : SspGrid) (ageRebin : ℕ) : g.rebin ageRebin 0 = .error .valueError := by
  simp [SspGrid.rebin, rebinEdges, stride]

/-! ### C43 -/

/-- Tabulated values `x`, at least two and increasing: every value lies strictly inside its own bin, bins are adjacent (bin `i` runs
from edge `i` to edge `i + 1`) and increasing, if and only if it does not happen that the lowest edge is within 0.011 of zero while the
lowest value is not positive. -/
theorem C43_edges_iff {a : Arr Num} {n : ℕ} {x : ℕ → ℝ} (h : Is1 a (n + 2) x) (hx : ∀ i, i + 1 < n + 2 → x i < x (i + 1)) :
    ∃ e E, parEdgeLims a = .ok e ∧ Is1 e (n + 3) E ∧
      ((∀ i < n + 2, E i < x i ∧ x i < E (i + 1)) ↔ ¬ (|x 0 - (x 1 - x 0) / 2| < 11 / 1000 ∧ x 0 ≤ 0)) := by
  obtain ⟨e, he, he'⟩ := parEdgeLims_is h
  refine ⟨e, _, he, he', ?_⟩
  obtain ⟨h1, h2⟩ := edgeOf_bins hx
  have h01 := hx 0 (by omega)
  constructor
  · intro hb
    exact (edgeOf_first h01).1 (hb 0 (by omega)).1
  · intro hc i hi
    refine ⟨?_, h2 i hi⟩
    rcases Nat.eq_zero_or_pos i with rfl | hp
    · exact (edgeOf_first h01).2 hc
    · exact h1 i hp hi

/-- Positive increasing values, such as ages: every value strictly inside its own bin, bins adjacent.
The full property (all increasing values) is false, see `C43_snapped`; `C43_edges_iff` says exactly when it holds. -/
theorem C43_edges_partial {a : Arr Num} {n : ℕ} {x : ℕ → ℝ} (h : Is1 a (n + 2) x) (hx : ∀ i, i + 1 < n + 2 → x i < x (i + 1))
    (h0 : 0 < x 0) :
    ∃ e E, parEdgeLims a = .ok e ∧ Is1 e (n + 3) E ∧ (∀ i < n + 2, E i < x i ∧ x i < E (i + 1)) := by
  obtain ⟨e, E, he, he', hiff⟩ := C43_edges_iff h hx
  exact ⟨e, E, he, he', hiff.2 fun hc => absurd h0 (not_lt.2 hc.2)⟩

/-- Increasing values for which the property fails: metallicities -0.005 and 0.001 have lowest edge 0, above the lowest value. -/
theorem C43_snapped : ∃ e, parEdgeLims (vecOf [-5 / 1000, 1 / 1000]) = .ok e ∧ e.get [0] = .fin 0 ∧ (-5 / 1000 : ℝ) < 0 ∧
    (0 : ℝ) < 1 / 1000 := by
  obtain ⟨e, he, he'⟩ := parEdgeLims_is (n := 0) (vecOf_is [-5 / 1000, 1 / 1000])
  refine ⟨e, he, ?_, by norm_num, by norm_num⟩
  rw [he'.get 0 (by norm_num)]
  simp [edgeOf, lowEdge]
  intro hge
  rw [abs_of_neg (by norm_num)] at hge
  norm_num at hge

/-- Fewer than two tabulated values raise `IndexError`. -/
theorem C43_too_few {a : Arr Num} {n : ℕ} {x : ℕ → ℝ} (h : Is1 a n x) (hn : n < 2) : parEdgeLims a = .error .indexError :=
  parEdgeLims_short h hn

/-! ### C44 -/

/-- Increasing values whose bins contain them (by `C43_edges_iff`). -/
def GoodValues (n : ℕ) (x : ℕ → ℝ) : Prop :=
  (∀ i, i + 1 < n → x i < x (i + 1)) ∧ ¬ (|x 0 - (x 1 - x 0) / 2| < 11 / 1000 ∧ x 0 ≤ 0)

/-- What the constructor establishes, for all rebin factors. -/
theorem sspInit_is {d : MilesData} {n nt nz : ℕ} {t z : ℕ → ℝ} {S : ℕ → ℕ → ℕ → ℝ} (h : DataAre d n nt nz t z S)
    (hn : 0 < n) (hnt : 2 ≤ nt) (hnz : 2 ≤ nz) (hsize : nz * nt ≤ 100000) (ht : GoodValues nt t) (hz : GoodValues nz z)
    {ageRebin zRebin : ℕ} (ha : 0 < ageRebin) (hb : 0 < zRebin) :
    ∃ g, SspGrid.init d ageRebin zRebin = .ok g ∧
      GridIs g n (groups nt ageRebin) (groups nz zRebin) (groupEdge (edgeOf nt t) nt ageRebin) (groupEdge (edgeOf nz z) nz zRebin)
        (groupMean nz nt zRebin ageRebin (edgeOf nz z) (edgeOf nt t) S) ∧
      IdxAre g.parIdx nz nt ∧ g.xw = none ∧ g.lmd = d.lmd := by
  obtain ⟨nt, rfl⟩ : ∃ m, nt = m + 2 := ⟨nt - 2, by omega⟩
  obtain ⟨nz, rfl⟩ : ∃ m, nz = m + 2 := ⟨nz - 2, by omega⟩
  obtain ⟨g0, hg0, hG0, hl, hw, hP1, hP2⟩ := init0_is h hn hsize
  obtain ⟨g, hg, hG, hl', hP, hw'⟩ := rebin_is hG0 hb ha (strictMonoOn_edges (edgeOf_lt hz.1 hz.2))
    (strictMonoOn_edges (edgeOf_lt ht.1 ht.2)) hn (by omega) (by omega)
  refine ⟨g, ?_, hG, ?_, hw'.trans hw, hl'.trans hl⟩
  · unfold SspGrid.init
    rw [hg0, Py.ok_bind, hg]
  · rw [hP]; exact ⟨hP1, hP2⟩

/-- Age bins not rebinned: `get_ssp(c)` returns, for every column `c`, the spectrum in the column with the age and metallicity of its
bin; every column is `i * nt + j` for one pair of bins. With `age_rebin > 1` the property is false: see `C44_rebinned_error` and
`C44_rebinned_wrong`. -/
theorem C44_get_ssp_partial {d : MilesData} {n nt nz : ℕ} {t z : ℕ → ℝ} {S : ℕ → ℕ → ℕ → ℝ} (h : DataAre d n nt nz t z S)
    (hn : 0 < n) (hnt : 2 ≤ nt) (hnz : 2 ≤ nz) (hsize : nz * nt ≤ 100000) (ht : GoodValues nt t) (hz : GoodValues nz z)
    {zRebin : ℕ} (hb : 0 < zRebin) :
    ∃ g t' z' S' nz', SspGrid.init d 1 zRebin = .ok g ∧ GridIs g n nt nz' t' z' S' ∧
      (∀ i < nz', ∀ j < nt, ∃ s, g.getSsp ((i * nt + j : ℕ) : ℤ) "wavelength".toList =
        .ok (.fin (centre t' j), .fin (centre z' i), s) ∧ Is1 s n (fun k => S' k i j)) ∧
      (∀ c < nz' * nt, ∃ i < nz', ∃ j < nt, c = i * nt + j) ∧
      ∀ c, nz' * nt ≤ c → ∀ sp, g.getSsp (c : ℤ) sp = .error .indexError := by
  obtain ⟨g, hg, hG, hP, -, -⟩ := sspInit_is h hn hnt hnz hsize ht hz one_pos hb
  have e : groups nt 1 = nt := by simp [groups]
  rw [e] at hG
  have hle : groups nz zRebin ≤ nz := by
    unfold groups
    exact Nat.div_le_of_le_mul (by
      obtain ⟨r, rfl⟩ : ∃ r, zRebin = r + 1 := ⟨zRebin - 1, by omega⟩
      have : (r + 1) * nz = r * nz + nz := by ring
      have h2 : r ≤ r * nz := Nat.le_mul_of_pos_right r (by omega)
      omega)
  have hcol : ∀ c m, c < m * nt → ∃ i < m, ∃ j < nt, c = i * nt + j := fun c m hc =>
    ⟨c / nt, (Nat.div_lt_iff_lt_mul (by omega)).2 hc, c % nt, Nat.mod_lt _ (by omega), by
      have := Nat.div_add_mod c nt
      rw [Nat.mul_comm] at this
      exact this.symm⟩
  refine ⟨g, _, _, _, _, hg, hG, ?_, fun c hc => hcol c _ hc, ?_⟩
  · intro i hi j hj
    exact getSsp_ok hG hP hi hj (by omega) hj hi hj rfl
  · intro c hc sp
    by_cases hc0 : c < nz * nt
    · obtain ⟨i, hi, j, hj, rfl⟩ := hcol c nz hc0
      refine getSsp_out hG hP hi hj (Or.inl ?_) sp
      by_contra hlt
      have := col_lt (not_le.1 hlt) hj
      omega
    · unfold SspGrid.getSsp
      rw [col_err hP.1 (by omega), Py.error_bind]

/-- After rebinning ages with a factor of at least 2, `get_ssp` raises `IndexError` for an existing column. -/
theorem C44_rebinned_error {d : MilesData} {n nt nz : ℕ} {t z : ℕ → ℝ} {S : ℕ → ℕ → ℕ → ℝ} (h : DataAre d n nt nz t z S)
    (hn : 0 < n) (hnt : 2 ≤ nt) (hnz : 2 ≤ nz) (hsize : nz * nt ≤ 100000) (ht : GoodValues nt t) (hz : GoodValues nz z)
    {ageRebin zRebin : ℕ} (ha : 2 ≤ ageRebin) (hb : 0 < zRebin) (hz2 : zRebin < nz) :
    ∃ g c, SspGrid.init d ageRebin zRebin = .ok g ∧ (∃ m, g.X.shape = [n, m] ∧ c < m) ∧
      ∀ sp, g.getSsp (c : ℕ) sp = .error .indexError := by
  obtain ⟨g, hg, hG, hP, -, -⟩ := sspInit_is h hn hnt hnz hsize ht hz (by omega : 0 < ageRebin) hb
  have hlt : groups nt ageRebin < nt := by
    refine lt_of_not_ge fun hle => ?_
    have h1 := groups_le (n := nt) (i := nt - 1) (by omega : 0 < ageRebin) (by omega)
    have h2 : (nt - 1) * 2 ≤ (nt - 1) * ageRebin := Nat.mul_le_mul_left _ ha
    omega
  have h2 : 2 ≤ groups nz zRebin := by
    refine Nat.succ_le_of_lt (lt_of_not_ge fun hle => ?_)
    have h1 := groups_ge (n := nz) hb
    have h2 := Nat.mul_le_mul_right zRebin hle
    omega
  have hpos := groups_pos (n := nt) (r := ageRebin) (by omega) (by omega)
  refine ⟨g, groups nt ageRebin, hg, ⟨_, hG.xShape, ?_⟩, fun sp => ?_⟩
  · calc groups nt ageRebin < 2 * groups nt ageRebin := by omega
      _ ≤ _ := Nat.mul_le_mul_right _ h2
  · have := getSsp_out hG hP (i := 0) (j := groups nt ageRebin) (by omega) hlt (Or.inr le_rfl) sp
    simpa using this

/-- After rebinning ages with a factor of at least 2, `get_ssp` returns a spectrum with the age and metallicity of another bin, if there
are at least `nt + 1` columns: column `nt` holds a bin other than the first age bin of the second metallicity bin, whose age and
metallicity are returned. -/
theorem C44_rebinned_wrong {d : MilesData} {n nt nz : ℕ} {t z : ℕ → ℝ} {S : ℕ → ℕ → ℕ → ℝ} (h : DataAre d n nt nz t z S)
    (hn : 0 < n) (hnt : 2 ≤ nt) (hnz : 2 ≤ nz) (hsize : nz * nt ≤ 100000) (ht : GoodValues nt t) (hz : GoodValues nz z)
    {ageRebin zRebin : ℕ} (ha : 2 ≤ ageRebin) (hb : 0 < zRebin)
    (hcols : nt < ⌈(nz : ℚ) / zRebin⌉₊ * ⌈(nt : ℚ) / ageRebin⌉₊) :
    ∃ g nt' nz' t' z' S' s i j, SspGrid.init d ageRebin zRebin = .ok g ∧ GridIs g n nt' nz' t' z' S' ∧
      g.getSsp (nt : ℕ) "wavelength".toList = .ok (.fin (centre t' 0), .fin (centre z' 1), s) ∧
      i < nz' ∧ j < nt' ∧ nt = i * nt' + j ∧ Is1 s n (fun k => S' k i j) ∧ (i, j) ≠ (1, 0) := by
  rw [← groups_eq_ceil (by omega : 0 < ageRebin), ← groups_eq_ceil hb] at hcols
  obtain ⟨g, hg, hG, hP, -, -⟩ := sspInit_is h hn hnt hnz hsize ht hz (by omega : 0 < ageRebin) hb
  set nt' := groups nt ageRebin with hnt'
  have hlt : nt' < nt := by
    refine lt_of_not_ge fun hle => ?_
    have h1 := groups_le (n := nt) (i := nt - 1) (by omega : 0 < ageRebin) (by omega)
    have h2 : (nt - 1) * 2 ≤ (nt - 1) * ageRebin := Nat.mul_le_mul_left _ ha
    omega
  have hpos : 0 < nt' := groups_pos (n := nt) (r := ageRebin) (by omega) (by omega)
  have hi : nt / nt' < groups nz zRebin := (Nat.div_lt_iff_lt_mul hpos).2 hcols
  have hj : nt % nt' < nt' := Nat.mod_lt _ hpos
  have hd : nt = nt / nt' * nt' + nt % nt' := by
    have := Nat.div_add_mod nt nt'
    rw [Nat.mul_comm] at this
    exact this.symm
  have h1 : 1 ≤ nt / nt' := (Nat.one_le_div_iff hpos).2 hlt.le
  obtain ⟨s, hs, hs'⟩ := getSsp_ok hG hP (i := 1) (j := 0) (by omega) hpos (by omega) (by omega) hi hj (by omega)
  refine ⟨g, _, _, _, _, _, s, nt / nt', nt % nt', hg, hG, by simpa using hs, hi, hj, hd, hs', ?_⟩
  intro e
  have e1 : nt / nt' = 1 := congrArg Prod.fst e
  have e2 : nt % nt' = 0 := congrArg Prod.snd e
  rw [e1, e2] at hd
  omega

/-- Any other spacing raises `ValueError`; log-wavelength spectra need a cube to have been built from the object, else
`AttributeError`; afterwards the requested column of the resampled spectra is returned. -/
theorem C44_spacing {g : SspGrid} {n nt nz : ℕ} {t z : ℕ → ℝ} {S : ℕ → ℕ → ℕ → ℝ} (h : GridIs g n nt nz t z S)
    (hP : IdxAre g.parIdx nz nt) {i j : ℕ} (hi : i < nz) (hj : j < nt) :
    (∀ sp, sp ≠ "wavelength".toList → sp ≠ "log-wavelength".toList →
      g.getSsp ((i * nt + j : ℕ) : ℤ) sp = .error .valueError) ∧
    (g.xw = none → g.getSsp ((i * nt + j : ℕ) : ℤ) "log-wavelength".toList = .error .attributeError) ∧
    ∀ w m (f : ℕ → ℝ), g.xw = some w → w.shape = [m, nz * nt] → (∀ k < m, w.get [k, i * nt + j] = .fin (f k)) →
      ∃ s, g.getSsp ((i * nt + j : ℕ) : ℤ) "log-wavelength".toList = .ok (.fin (centre t j), .fin (centre z i), s) ∧ Is1 s m f := by
  obtain ⟨r, hr, hr0, hr1⟩ := col_get hP.1 (col_lt hi hj)
  obtain ⟨p0, p1⟩ := hP.2 i hi j hj
  obtain ⟨zz, hzz, hzz'⟩ := h.zCents.at hi
  obtain ⟨tt, htt, htt'⟩ := h.tCents.at hj
  have hne : ("log-wavelength".toList : PyStr) ≠ "wavelength".toList := by decide
  refine ⟨fun sp h1 h2 => ?_, fun hx => ?_, fun w m f hx hw hf => ?_⟩
  · unfold SspGrid.getSsp
    rw [hr, Py.ok_bind, hr0, p0, hzz, Py.ok_bind, hr1, p1, htt, Py.ok_bind, if_neg h1, if_neg h2]
  · unfold SspGrid.getSsp
    rw [hr, Py.ok_bind, hr0, p0, hzz, Py.ok_bind, hr1, p1, htt, Py.ok_bind, if_neg hne, if_pos rfl, hx]
  · obtain ⟨s, hs, hs'⟩ := colX hw (col_lt hi hj) hf
    refine ⟨s, ?_, hs'⟩
    unfold SspGrid.getSsp
    rw [hr, Py.ok_bind, hr0, p0, hzz, Py.ok_bind, hr1, p1, htt, Py.ok_bind, if_neg hne, if_pos rfl, hx]
    simp only [hs, Py.ok_bind, hzz'.get, htt'.get]

/-! ### C54 -/

/-- The object gives every cube built from it what the theorems about cubes assume of an SSP grid: edges, centres and widths of
increasing age and metallicity bins, and light weights `L(t, z)` that are the sums over wavelength of the spectra. -/
theorem C54_ssps {d : MilesData} {n nt nz : ℕ} {t z : ℕ → ℝ} {S : ℕ → ℕ → ℕ → ℝ} (h : DataAre d n nt nz t z S)
    (hn : 0 < n) (hnt : 2 ≤ nt) (hnz : 2 ≤ nz) (hsize : nz * nt ≤ 100000) (ht : GoodValues nt t) (hz : GoodValues nz z)
    {ageRebin zRebin : ℕ} (ha : 0 < ageRebin) (hb : 0 < zRebin) :
    ∃ g s nt' nz' t' z' S', SspGrid.init d ageRebin zRebin = .ok g ∧ g.toSSPs = .ok s ∧ GridIs g n nt' nz' t' z' S' ∧
      SspsAre s nt' nz' t' z' ∧ 0 < nt' ∧ 0 < nz' ∧ (∀ j < nt', t' j < t' (j + 1)) ∧ (∀ i < nz', z' i < z' (i + 1)) ∧
      s.lightWeights.shape = [nt', nz'] ∧
      ∀ j < nt', ∀ i < nz', s.lightWeights.get [j, i] = .fin (∑ k ∈ Finset.range n, S' k i j) := by
  obtain ⟨g, hg, hG, -, -, -⟩ := sspInit_is h hn hnt hnz hsize ht hz ha hb
  obtain ⟨L, hL, hL1, hL2⟩ := lightWeights_is hG
  obtain ⟨nt, rfl⟩ : ∃ m, nt = m + 2 := ⟨nt - 2, by omega⟩
  obtain ⟨nz, rfl⟩ : ∃ m, nz = m + 2 := ⟨nz - 2, by omega⟩
  refine ⟨g, ⟨g.zEdges, g.tEdges, g.zCents, g.tCents, g.deltaT, g.deltaZ, L⟩, _, _, _, _, _, hg, ?_, hG,
    ⟨hG.tEdges, hG.zEdges, hG.tCents, hG.zCents, hG.deltaT, hG.deltaZ⟩, groups_pos ha (by omega), groups_pos hb (by omega),
    fun j hj => groupEdge_lt ha hj (strictMonoOn_edges (edgeOf_lt ht.1 ht.2)),
    fun i hi => groupEdge_lt hb hi (strictMonoOn_edges (edgeOf_lt hz.1 hz.2)), hL1, hL2⟩
  simp only [SspGrid.toSSPs, hL, Py.ok_bind]

/-! ### Non-vacuity -/

/-- Four ages 1..4, three metallicities -2, -1, 0, two wavelengths. -/
def demoData : MilesData where
  tUnq := [1, 2, 3, 4]
  zUnq := [-2, -1, 0]
  lmd := [5000, 5001]
  X := ⟨[2, 12], fun i => .fin (1 + i.getD 0 0 + 10 * i.getD 1 0)⟩

theorem demoData_are : DataAre demoData 2 4 3 (fun j => j + 1) (fun i => i - 2)
    (fun k i j => 1 + k + 10 * ((i * 4 + j : ℕ) : ℝ)) := by
  refine ⟨⟨rfl, fun j hj => ?_⟩, ⟨rfl, fun i hi => ?_⟩, rfl, rfl, fun k _ i _ j _ => ?_⟩
  · interval_cases j <;> simp [demoData] <;> norm_num
  · interval_cases i <;> simp [demoData] <;> norm_num
  · simp [demoData]

theorem demo_t : GoodValues 4 (fun j => (j : ℝ) + 1) :=
  ⟨fun i _ => by push_cast; linarith, fun h => by have := h.2; norm_num at this⟩

theorem demo_z : GoodValues 3 (fun i => (i : ℝ) - 2) := by
  refine ⟨fun i _ => by push_cast; linarith, fun h => ?_⟩
  have := (abs_lt.1 h.1).1
  norm_num at this

/-- C42, C54: three metallicity and four age bins, rebinned by 2 in both. -/
example : ∃ g s nt' nz' t' z' S', SspGrid.init demoData 2 2 = .ok g ∧ g.toSSPs = .ok s ∧ GridIs g 2 nt' nz' t' z' S' ∧
    SspsAre s nt' nz' t' z' := by
  obtain ⟨g, s, a, b, c, e, f, h1, h2, h3, h4, -⟩ :=
    C54_ssps demoData_are (by norm_num) (by norm_num) (by norm_num) (by norm_num) demo_t demo_z (ageRebin := 2) (zRebin := 2)
      (by norm_num) (by norm_num)
  exact ⟨g, s, a, b, c, e, f, h1, h2, h3, h4⟩

/-- C42: hypotheses of `C42_rebin` hold for the object before rebinning. -/
example : ∃ g t z S, SspGrid.init0 demoData = .ok g ∧ GridIs g 2 4 3 t z S ∧ (∀ i < 3, z i < z (i + 1)) ∧
    ∀ j < 4, t j < t (j + 1) := by
  obtain ⟨g, h1, h2, -⟩ := init0_is (nt := 2) (nz := 1) demoData_are (by norm_num) (by norm_num)
  exact ⟨g, _, _, _, h1, h2, edgeOf_lt demo_z.1 demo_z.2, edgeOf_lt demo_t.1 demo_t.2⟩

/-- C42: the weighted means and outer edges exist, four bins in groups of 3 and 2. -/
example : ∃ t' z' S', OuterEdges (fun i => (i : ℝ)) t' 4 3 ∧ OuterEdges (fun i => (i : ℝ)) z' 3 2 ∧
    WeightedMeans (fun _ i j => (i : ℝ) + j) S' (fun i => (i : ℝ)) (fun i => (i : ℝ)) 3 4 2 3 :=
  ⟨_, _, _, fun _ => rfl, fun _ => rfl, fun _ _ _ => rfl⟩

/-- C43: ages 1, 2, 3, 4. -/
example : Is1 (vecOf [1, 2, 3, 4]) (2 + 2) (fun j => (j : ℝ) + 1) ∧ (∀ i : ℕ, i + 1 < 2 + 2 → (i : ℝ) + 1 < ((i + 1 : ℕ) : ℝ) + 1) := by
  refine ⟨⟨rfl, fun i hi => ?_⟩, fun i _ => by push_cast; linarith⟩
  interval_cases i <;> simp [vecOf, vec] <;> norm_num

/-- C44: an unrebinned object; one rebinned in age, where an error and a wrong answer occur. -/
example : (∃ g s, SspGrid.init demoData 1 1 = .ok g ∧
      g.getSsp ((2 * 4 + 3 : ℕ) : ℤ) "wavelength".toList = .ok s) ∧
    (∃ g, ∃ c : ℕ, SspGrid.init demoData 2 1 = .ok g ∧ ∀ sp, g.getSsp (c : ℤ) sp = .error .indexError) ∧
    ∃ g s, SspGrid.init demoData 2 1 = .ok g ∧ g.getSsp ((4 : ℕ) : ℤ) "wavelength".toList = .ok s := by
  refine ⟨?_, ?_, ?_⟩
  · obtain ⟨g, t', z', S', nz', h1, h2, h3, -⟩ := C44_get_ssp_partial demoData_are (by norm_num) (by norm_num) (by norm_num) (by norm_num)
      demo_t demo_z (zRebin := 1) one_pos
    obtain ⟨g', h1', h2', -⟩ := sspInit_is demoData_are (by norm_num) (by norm_num) (by norm_num) (by norm_num)
      demo_t demo_z (ageRebin := 1) (zRebin := 1) one_pos one_pos
    obtain rfl : g = g' := by rw [h1] at h1'; exact Except.ok.inj h1'
    have e := h2.dims.symm.trans h2'.dims
    simp [groups] at e
    obtain ⟨s, hs, -⟩ := h3 2 (by omega) 3 (by omega)
    exact ⟨g, _, h1, hs⟩
  · obtain ⟨g, c, h1, -, h2⟩ := C44_rebinned_error demoData_are (by norm_num) (by norm_num) (by norm_num) (by norm_num)
      demo_t demo_z (ageRebin := 2) (zRebin := 1) (by norm_num) one_pos (by norm_num)
    exact ⟨g, c, h1, h2⟩
  · obtain ⟨g, _, _, _, _, _, s, _, _, h1, -, h2, -⟩ := C44_rebinned_wrong demoData_are (by norm_num) (by norm_num) (by norm_num)
      (by norm_num) demo_t demo_z (ageRebin := 2) (zRebin := 1) (by norm_num) one_pos (by
        rw [← groups_eq_ceil (by norm_num), ← groups_eq_ceil (by norm_num)]; decide)
    exact ⟨g, _, h1, h2⟩

end PKM
