import Verif.Shared
import Verif.SspInit
import Verif.YbarLemmas
import Verif.InitLemmas
import Verif.Protocol
import Verif.Props.Cube

/-! Lemmas about SSP objects shared by several cubes. -/

open scoped Classical

noncomputable section

namespace PKM
open Np Component

namespace SharedSsps

theorem foldl_min (l : List ℝ) (x : ℝ) : l.foldl min x ≤ x ∧ (∀ y ∈ l, l.foldl min x ≤ y) ∧ (l.foldl min x = x ∨ l.foldl min x ∈ l) := by
  induction l generalizing x with
  | nil => simp
  | cons a l ih =>
    obtain ⟨h1, h2, h3⟩ := ih (min x a)
    refine ⟨h1.trans (min_le_left _ _), ?_, ?_⟩
    · intro y hy
      rcases List.mem_cons.1 hy with rfl | hy
      · exact h1.trans (min_le_right _ _)
      · exact h2 y hy
    · rw [List.foldl_cons]
      rcases h3 with h3 | h3
      · rw [h3]
        rcases min_choice x a with h | h <;> simp [h]
      · exact Or.inr (List.mem_cons_of_mem _ h3)

theorem foldl_max (l : List ℝ) (x : ℝ) : x ≤ l.foldl max x ∧ (∀ y ∈ l, y ≤ l.foldl max x) ∧ (l.foldl max x = x ∨ l.foldl max x ∈ l) := by
  induction l generalizing x with
  | nil => simp
  | cons a l ih =>
    obtain ⟨h1, h2, h3⟩ := ih (max x a)
    refine ⟨(le_max_left _ _).trans h1, ?_, ?_⟩
    · intro y hy
      rcases List.mem_cons.1 hy with rfl | hy
      · exact (le_max_right _ _).trans h1
      · exact h2 y hy
    · rw [List.foldl_cons]
      rcases h3 with h3 | h3
      · rw [h3]
        rcases max_choice x a with h | h <;> simp [h]
      · exact Or.inr (List.mem_cons_of_mem _ h3)

theorem amin_is {l : List ℝ} {lo : ℝ} (h : IsLeast {x | x ∈ l} lo) : amin l = .ok lo := by
  cases l with
  | nil => simp [IsLeast] at h
  | cons x l =>
    obtain ⟨h1, h2, h3⟩ := foldl_min l x
    simp only [amin]
    congr 1
    refine le_antisymm ?_ (h.2 ?_)
    · rcases List.mem_cons.1 h.1 with rfl | hy
      · exact h1
      · exact h2 _ hy
    · rcases h3 with h3 | h3
      · rw [h3]; exact List.mem_cons_self
      · exact List.mem_cons_of_mem _ h3

theorem amax_is {l : List ℝ} {hi : ℝ} (h : IsGreatest {x | x ∈ l} hi) : amax l = .ok hi := by
  cases l with
  | nil => simp [IsGreatest] at h
  | cons x l =>
    obtain ⟨h1, h2, h3⟩ := foldl_max l x
    simp only [amax]
    congr 1
    refine le_antisymm (h.2 ?_) ?_
    · rcases h3 with h3 | h3
      · rw [h3]; exact List.mem_cons_self
      · exact List.mem_cons_of_mem _ h3
    · rcases List.mem_cons.1 h.1 with rfl | hy
      · exact h1
      · exact h2 _ hy

theorem least_exists {l : List ℝ} (h : l ≠ []) : ∃ lo, IsLeast {x | x ∈ l} lo := by
  cases l with
  | nil => exact absurd rfl h
  | cons x l =>
    obtain ⟨h1, h2, h3⟩ := foldl_min l x
    refine ⟨l.foldl min x, ?_, ?_⟩
    · rcases h3 with h3 | h3
      · rw [h3]; exact List.mem_cons_self
      · exact List.mem_cons_of_mem _ h3
    · intro y hy
      rcases List.mem_cons.1 hy with rfl | hy
      · exact h1
      · exact h2 _ hy

theorem greatest_exists {l : List ℝ} (h : l ≠ []) : ∃ hi, IsGreatest {x | x ∈ l} hi := by
  cases l with
  | nil => exact absurd rfl h
  | cons x l =>
    obtain ⟨h1, h2, h3⟩ := foldl_max l x
    refine ⟨l.foldl max x, ?_, ?_⟩
    · rcases h3 with h3 | h3
      · rw [h3]; exact List.mem_cons_self
      · exact List.mem_cons_of_mem _ h3
    · intro y hy
      rcases List.mem_cons.1 hy with rfl | hy
      · exact h1
      · exact h2 _ hy

/-- What `resampled` returns. -/
theorem resampled_is {K : Interp1d} {g : SspGrid} {kind : PyStr} {dv lo hi : ℝ} (hX : g.X.shape.headD 0 = g.lmd.length)
    (hK : K.check kind g.lmd.length = .ok ()) (hlo : IsLeast {x | x ∈ g.lmd.map Real.log} lo)
    (hhi : IsGreatest {x | x ∈ g.lmd.map Real.log} hi) (hdv : dv ≠ 0) :
    resampled K dv kind g = .ok ⟨dv, (List.range ⌈(hi - lo) / (dv / 299792)⌉.toNat).map (fun i : ℕ => lo + i * (dv / 299792)),
      ⟨[⌈(hi - lo) / (dv / 299792)⌉.toNat, g.X.shape.getD 1 0], fun i =>
        if ((List.range ⌈(hi - lo) / (dv / 299792)⌉.toNat).map (fun i : ℕ => lo + i * (dv / 299792))).getD (i.getD 0 0) 0 < lo ∨
          hi < ((List.range ⌈(hi - lo) / (dv / 299792)⌉.toNat).map (fun i : ℕ => lo + i * (dv / 299792))).getD (i.getD 0 0) 0 then 0
        else K.eval kind (g.lmd.map Real.log) (fun j => finPart (g.X.get [j, i.getD 1 0]))
          (((List.range ⌈(hi - lo) / (dv / 299792)⌉.toNat).map (fun i : ℕ => lo + i * (dv / 299792))).getD (i.getD 0 0) 0)⟩⟩ := by
  have hne : dv / 299792 ≠ 0 := by positivity
  unfold resampled
  simp only [List.length_map, hX, if_true, hK, Py.ok_bind, amin_is hlo, amax_is hhi, arange, hne, if_false, List.length_range]

theorem resampled_dv {K : Interp1d} {g : SspGrid} {kind : PyStr} {dv : ℝ} {l : LogGrid} (h : resampled K dv kind g = .ok l) :
    l.dv = dv ∧ dv ≠ 0 ∧ l.Xw.shape.headD 0 = l.w.length := by
  unfold resampled at h
  obtain ⟨-, -, h⟩ := bind_ok h
  obtain ⟨lo, -, h⟩ := bind_ok h
  obtain ⟨hi, -, h⟩ := bind_ok h
  obtain ⟨w, hw, h⟩ := bind_ok h
  injection h with h
  subst h
  refine ⟨rfl, ?_, rfl⟩
  rintro rfl
  simp [arange] at hw

/-- Number of pixels. -/
theorem resampled_len {K : Interp1d} {g : SspGrid} {kind : PyStr} {dv : ℝ} {l : LogGrid} (h : resampled K dv kind g = .ok l) :
    ∃ lo hi, amin (g.lmd.map Real.log) = .ok lo ∧ amax (g.lmd.map Real.log) = .ok hi ∧
      l.w.length = ⌈(hi - lo) / (dv / 299792)⌉.toNat := by
  unfold resampled at h
  obtain ⟨-, -, h⟩ := bind_ok h
  obtain ⟨lo, hlo, h⟩ := bind_ok h
  obtain ⟨hi, hhi, h⟩ := bind_ok h
  obtain ⟨w, hw, h⟩ := bind_ok h
  injection h with h
  subst h
  refine ⟨lo, hi, hlo, hhi, ?_⟩
  unfold arange at hw
  split_ifs at hw
  injection hw with hw
  subst hw
  simp

/-- Success depends on the resolution only in that it is not zero. -/
theorem resampled_other {K : Interp1d} {g : SspGrid} {kind : PyStr} {dv dv' : ℝ} {l : LogGrid} (h : resampled K dv kind g = .ok l)
    (hd : dv' ≠ 0) : ∃ l', resampled K dv' kind g = .ok l' := by
  have hne : dv' / 299792 ≠ 0 := by positivity
  unfold resampled at h ⊢
  obtain ⟨_, h1, h⟩ := bind_ok h
  obtain ⟨lo, h2, h⟩ := bind_ok h
  obtain ⟨hi, h3, h⟩ := bind_ok h
  simp only [h1, h2, h3, Py.ok_bind, arange, hne, if_false]
  exact ⟨_, rfl⟩

/-- With a positive step there is a pixel iff there are two different wavelengths. -/
theorem pixels_pos {a d : ℝ} (hd : 0 < d) : 0 < ⌈a / (d / 299792)⌉.toNat ↔ 0 < a := by
  have : 0 < d / 299792 := by positivity
  rw [Int.pos_iff_toNat_pos.symm, Int.ceil_pos, div_pos_iff_of_pos_right this]

/-- The Fourier attributes of a resampled grid. -/
def fftOf (parDims : List ℕ) (l : LogGrid) : Option (ℕ × Arr ℂ) :=
  match Spectra.fourier l.dv l.Xw parDims none with
  | .ok sp => some (sp.nFft, sp.FXw)
  | .error _ => none

theorem fourier_some (l : LogGrid) (d : List ℕ) : ∃ sp, Spectra.fourier l.dv l.Xw d none = .ok sp ∧
    sp = ⟨l.dv, l.Xw, sp.nFft, sp.FXw, d⟩ := ⟨_, rfl, rfl⟩

end SharedSsps

open SharedSsps

/-- The velocity resolution of a cube. -/
def CubeArgs.dv (a : CubeArgs) : ℝ := (a.vrng.2 - a.vrng.1) / a.nv

theorem init_ok {S : SSPs} {a b c : ℤ} {p q r : ℝ × ℝ} {cube : IFUCube} (h : IFUCube.init S a b c p q r = .ok cube) :
    0 < a ∧ 0 < b ∧ 0 < c ∧ cube.vEdg = vec (c + 1).toNat (fun i => .fin (r.1 + i * ((r.2 - r.1) / c))) ∧
      ∀ S', IFUCube.init S' a b c p q r = .ok { cube with ssps := S' } := by
  have hpos : 0 < a ∧ 0 < b ∧ 0 < c := by
    by_contra hn
    exact C03_constructor_rejects S a b c p q r (by omega) cube h
  refine ⟨hpos.1, hpos.2.1, hpos.2.2, ?_, ?_⟩
  · rw [init_eq] at h
    obtain ⟨⟨dx, x⟩, -, h⟩ := bind_ok h
    obtain ⟨⟨dy, y⟩, -, h⟩ := bind_ok h
    obtain ⟨v, hv, h⟩ := bind_ok h
    obtain ⟨_, _, h⟩ := bind_ok h
    obtain ⟨_, _, h⟩ := bind_ok h
    obtain ⟨_, _, h⟩ := bind_ok h
    injection h with h
    subst h
    unfold linspace at hv
    rw [if_neg (by omega)] at hv
    injection hv with hv
    rw [← hv]
    have e : (((c + 1).toNat : ℕ) : ℝ) - 1 = c := by
      have : (((c + 1).toNat : ℕ) : ℤ) = c + 1 := Int.toNat_of_nonneg (by omega)
      have : (((c + 1).toNat : ℕ) : ℝ) = c + 1 := by exact_mod_cast this
      rw [this]; ring
    simp only [e]
  · intro S'
    rw [init_eq] at h ⊢
    obtain ⟨⟨dx, x⟩, h1, h⟩ := bind_ok h
    obtain ⟨⟨dy, y⟩, h2, h⟩ := bind_ok h
    obtain ⟨v, h3, h⟩ := bind_ok h
    obtain ⟨_, h4, h⟩ := bind_ok h
    obtain ⟨_, h5, h⟩ := bind_ok h
    obtain ⟨_, h6, h⟩ := bind_ok h
    injection h with h
    subst h
    simp only [h1, h2, h3, h4, h5, h6, Py.ok_bind]

theorem init_succeeds (S : SSPs) {a b c : ℤ} (ha : 0 < a) (hb : 0 < b) (hc : 0 < c) (p q r : ℝ × ℝ) :
    ∃ cube, IFUCube.init S a b c p q r = .ok cube := by
  obtain ⟨a, rfl⟩ := Int.eq_ofNat_of_zero_le ha.le
  obtain ⟨b, rfl⟩ := Int.eq_ofNat_of_zero_le hb.le
  obtain ⟨c, rfl⟩ := Int.eq_ofNat_of_zero_le hc.le
  obtain ⟨dx, x, h1, -⟩ := axisBlock_is p a (by omega)
  obtain ⟨dy, y, h2, -⟩ := axisBlock_is q b (by omega)
  obtain ⟨v, h3, hv⟩ := linspace_is r c
  obtain ⟨a1, h4, h4'⟩ := hv.at (k := 1) (by omega)
  obtain ⟨a0, h5, h5'⟩ := hv.at (k := 0) (by omega)
  obtain ⟨d, h6, -⟩ := h4'.bop (· - ·) h5' (Num.fin_sub _ _)
  rw [init_eq]
  simp only [Nat.cast_one, Nat.cast_zero] at h4 h5
  simp only [h1, h2, h3, h4, h5, sub, h6, Py.ok_bind]
  exact ⟨_, rfl⟩

/-- How the SSP object changes. -/
theorem makeCube_cases (K : Interp1d) (a : CubeArgs) (s : SharedSsps) :
    (∃ e, makeCube K a s = (.error e, s)) ∨
    ∃ l, resampled K a.dv a.kind s.grid = .ok l ∧
      ((∃ e, makeCube K a s = (.error e, { s with log := some l }) ∧ l.w.length = 0) ∨
       (∃ e, makeCube K a s = (.error e, { s with log := some l, fft := fftOf s.grid.parDims l }) ∧ l.w.length ≠ 0) ∨
       ∃ c lw, s.grid.lightWeights = .ok lw ∧ l.w.length ≠ 0 ∧
         makeCube K a s = (.ok c, ⟨s.grid, some l, fftOf s.grid.parDims l, some lw⟩) ∧
         ∃ S', IFUCube.init S' a.nx a.ny a.nv a.x1rng a.x2rng a.vrng = .ok c ∧
           S' = (⟨s.grid, some l, fftOf s.grid.parDims l, some lw⟩ : SharedSsps).toSSPs) := by
  unfold makeCube
  cases hc : IFUCube.init s.toSSPs a.nx a.ny a.nv a.x1rng a.x2rng a.vrng with
  | error e => exact Or.inl ⟨e, rfl⟩
  | ok c =>
    obtain ⟨h1, h2, h3, h4, h5⟩ := init_ok hc
    have hdv : finPart (c.vEdg.get [1]) - finPart (c.vEdg.get [0]) = a.dv := by
      rw [h4]
      simp [vec, finPart, CubeArgs.dv]
    simp only [hdv, logResample]
    cases hl : resampled K a.dv a.kind s.grid with
    | error e => exact Or.inl ⟨e, rfl⟩
    | ok l =>
      right
      refine ⟨l, rfl, ?_⟩
      simp only [Py.ok_bind, calcFourier]
      by_cases hw : l.w.length = 0
      · left
        exact ⟨.valueError, by simp only [hw, if_true], hw⟩
      · right
        obtain ⟨sp, hsp, -⟩ := fourier_some l s.grid.parDims
        have hf : fftOf s.grid.parDims l = some (sp.nFft, sp.FXw) := by simp only [fftOf, hsp]
        simp only [hw, if_false, hsp, Py.ok_bind, calcLight]
        cases hlw : s.grid.lightWeights with
        | error e =>
          left
          exact ⟨e, by rw [hf]; rfl, hw⟩
        | ok lw =>
          right
          refine ⟨_, lw, rfl, hw, by rw [hf]; rfl, _, h5 _, ?_⟩
          rw [hf]

end PKM
