import Verif.Props.FarPixels

/-!
# C117: a correlation of one means a straight line

The correlation that is returned is exactly 1 (or -1) if and only if the stars lie on a rising (falling) straight line in the plane of the two quantities.
-/

open scoped Classical

noncomputable section

namespace PKM
open Np Component

variable {cube : IFUCube} {stored : Arr Num} {g : Grid} {ρ : Cell → ℝ} {L : ℕ → ℕ → ℝ} {lw : Bool} {b : PyStr}

/-! ### Specification -/

/-- All cells with stars (`P d ≠ 0`) that have the values of `b` at `c` lie on the line `q' = α + β q`. -/
def OnLine (g : Grid) (P : Cell → ℝ) (b : PyStr) (c : Cell) (q q' : Char) (α β : ℝ) : Prop :=
  ∀ d, g.Has d → coords b d = coords b c → P d ≠ 0 → g.value q' d = α + β * g.value q d

/-- The correlations of `a0` and `a1` given `b` that `o` returns for the stars `P`: nan without stars and if one of the quantities does not vary, otherwise between
-1 and 1, and 1 or -1 exactly for stars on a rising or falling line. -/
def CorrelationIsLine (o : Obj) (g : Grid) (lw : Bool) (P : Cell → ℝ) (a0 a1 : Char) (b : PyStr) : Prop :=
  ∃ r, o.getCorrelation (distStr [a0, a1] b) lw = .ok r ∧ ∀ q q', varOf q = [a0] → varOf q' = [a1] → ∀ c, g.Has c →
    (r.get (compIdx q ++ compIdx q' ++ coords b c) = .nan ∧ (g.condWt P b c = 0 ∨ (∃ α, OnLine g P b c q q' α 0) ∨ ∃ α, OnLine g P b c q' q α 0)) ∨
    ¬ (g.condWt P b c = 0 ∨ (∃ α, OnLine g P b c q q' α 0) ∨ ∃ α, OnLine g P b c q' q α 0) ∧
    ∃ x : ℝ, r.get (compIdx q ++ compIdx q' ++ coords b c) = .fin x ∧ -1 ≤ x ∧ x ≤ 1 ∧
      (x = 1 ↔ ∃ α β, 0 < β ∧ OnLine g P b c q q' α β) ∧ (x = -1 ↔ ∃ α β, β < 0 ∧ OnLine g P b c q q' α β)

/-- The weight of the stars of `q` with the variables of `d`: those with its velocity if velocities are given, otherwise those with any velocity. -/
def popWeight (q : Pop) (L : ℕ → ℕ → ℝ) (lw : Bool) (b : PyStr) (d : Cell) : ℝ := Pop.wt L lw d * if 'v' ∈ b then q.joint d else q.stars d

/-- The same for the stars of the population `q`, at values of `b` that are `good`. -/
def PopCorrelationIsLine (o : Obj) (q : Pop) (g : Grid) (L : ℕ → ℕ → ℝ) (lw : Bool) (a0 a1 : Char) (b : PyStr) (good : Cell → Prop) : Prop :=
  ∃ r, o.getCorrelation (distStr [a0, a1] b) lw = .ok r ∧ ∀ k k', varOf k = [a0] → varOf k' = [a1] → ∀ c, g.Has c → good c →
    (r.get (compIdx k ++ compIdx k' ++ coords b c) = .nan ∧
      ((∃ α, OnLine g (popWeight q L lw b) b c k k' α 0) ∨ ∃ α, OnLine g (popWeight q L lw b) b c k' k α 0)) ∨
    ¬ ((∃ α, OnLine g (popWeight q L lw b) b c k k' α 0) ∨ ∃ α, OnLine g (popWeight q L lw b) b c k' k α 0) ∧
    ∃ x : ℝ, r.get (compIdx k ++ compIdx k' ++ coords b c) = .fin x ∧ -1 ≤ x ∧ x ≤ 1 ∧
      (x = 1 ↔ ∃ α β, 0 < β ∧ OnLine g (popWeight q L lw b) b c k k' α β) ∧ (x = -1 ↔ ∃ α β, β < 0 ∧ OnLine g (popWeight q L lw b) b c k k' α β)

/-! ### Lemmas -/

section
variable {Ω : Type} {E : (Ω → ℝ) → ℝ} (hE : Pos E) (X Y : Ω → ℝ)
include hE

theorem pos_square (β : ℝ) : E (fun d => (Y d - β * X d) ^ 2) = E (fun d => Y d ^ 2) - 2 * β * E (fun d => X d * Y d) + β ^ 2 * E (fun d => X d ^ 2) := by
  have e : E (fun d => (Y d - β * X d) ^ 2) = E (fun d => Y d ^ 2 + ((-2 * β) * (X d * Y d) + β ^ 2 * X d ^ 2)) := congrArg E (funext fun d => by ring)
  rw [e, hE.add, hE.add, hE.smul, hE.smul]
  ring

theorem pos_cov_le : |E (fun d => X d * Y d)| ≤ √(E (fun d => X d ^ 2) * E (fun d => Y d ^ 2)) :=
  Real.abs_le_sqrt (hE.cauchy X Y)

/-- The covariance is as large as possible exactly if the quantities are proportional. -/
theorem pos_cov_max (h : 0 < E (fun d => X d ^ 2)) (h' : 0 < E (fun d => Y d ^ 2)) :
    E (fun d => X d * Y d) = √(E (fun d => X d ^ 2) * E (fun d => Y d ^ 2)) ↔ ∃ β > 0, E (fun d => (Y d - β * X d) ^ 2) = 0 := by
  have hle := (abs_le.1 (pos_cov_le hE X Y)).2
  simp only [pos_square hE]
  set c := E (fun d => X d * Y d)
  set v := E (fun d => X d ^ 2)
  set w := E (fun d => Y d ^ 2)
  rw [Real.sqrt_mul h.le] at hle ⊢
  have sv : 0 < √v := Real.sqrt_pos.2 h
  have sw : 0 < √w := Real.sqrt_pos.2 h'
  have ev : √v ^ 2 = v := Real.sq_sqrt h.le
  have ew : √w ^ 2 = w := Real.sq_sqrt h'.le
  constructor
  · intro e
    refine ⟨√w / √v, div_pos sw sv, ?_⟩
    rw [e, ← ew, ← ev, Real.sqrt_sq sv.le, Real.sqrt_sq sw.le]
    field_simp
    ring
  · rintro ⟨β, hβ, e⟩
    have e1 : (√w - β * √v) ^ 2 + 2 * β * (√v * √w - c) = 0 := by
      rw [← e, ← ew, ← ev, Real.sqrt_sq sv.le, Real.sqrt_sq sw.le]; ring
    have h1 : 0 ≤ 2 * β * (√v * √w - c) := by
      have : 0 ≤ √v * √w - c := by linarith
      positivity
    have h2 : 2 * β * (√v * √w - c) = 0 := by nlinarith [sq_nonneg (√w - β * √v)]
    have h3 : √v * √w - c = 0 := (mul_eq_zero.1 h2).resolve_left (by positivity)
    linarith

omit hE in
/-- The values of `Y` at all points in `S` are `α + β X`. -/
def LineOn (S : Ω → Prop) (X Y : Ω → ℝ) (α β : ℝ) : Prop := ∀ d, S d → Y d = α + β * X d

theorem pos_line {S : Ω → Prop} (hz : ∀ φ : Ω → ℝ, E (fun d => φ d ^ 2) = 0 ↔ ∀ d, S d → φ d = 0) (β : ℝ) :
    E (fun d => ((Y d - E Y) - β * (X d - E X)) ^ 2) = 0 ↔ ∃ α, LineOn S X Y α β := by
  rw [hz]
  constructor
  · intro h
    exact ⟨E Y - β * E X, fun d hd => by have := h d hd; linarith⟩
  · rintro ⟨α, h⟩
    have h1 : E (fun d => (Y d - (α + β * X d)) ^ 2) = 0 := (hz _).2 fun d hd => by rw [h d hd, sub_self]
    have h2 : E (fun d => (Y d - (α + β * X d)) * 1) = 0 := by
      have := hE.cauchy (fun d => Y d - (α + β * X d)) (fun _ => 1)
      rw [h1, zero_mul] at this
      exact pow_eq_zero_iff two_ne_zero |>.1 (le_antisymm this (sq_nonneg _))
    have h3 : E (fun d => (Y d - (α + β * X d)) * 1) = E Y - α - β * E X := by
      have e : (fun d => (Y d - (α + β * X d)) * 1) = fun d => Y d + ((-α) * 1 + (-β) * X d) := funext fun d => by ring
      rw [e, hE.add, hE.add (fun _ => (-α) * 1), hE.smul (-α) (fun _ => 1), hE.smul (-β) X, hE.one]
      ring
    intro d hd
    have := h d hd
    have h4 : E Y = α + β * E X := by linarith
    rw [this, h4]
    ring

/-- Covariance over the root of the product of the variances. -/
theorem pos_cor {S : Ω → Prop} (hz : ∀ φ : Ω → ℝ, E (fun d => φ d ^ 2) = 0 ↔ ∀ d, S d → φ d = 0) {k v w : ℝ}
    (ek : E (fun d => (X d - E X) * (Y d - E Y)) = k) (ev : E (fun d => (X d - E X) ^ 2) = v) (ew : E (fun d => (Y d - E Y) ^ 2) = w) :
    (Num.fin k / Num.fin (√(v * w)) = .nan ∧ ((∃ α, LineOn S X Y α 0) ∨ ∃ α, LineOn S Y X α 0)) ∨
    ¬ ((∃ α, LineOn S X Y α 0) ∨ ∃ α, LineOn S Y X α 0) ∧
    ∃ x : ℝ, Num.fin k / Num.fin (√(v * w)) = .fin x ∧ -1 ≤ x ∧ x ≤ 1 ∧
      (x = 1 ↔ ∃ α β, 0 < β ∧ LineOn S X Y α β) ∧ (x = -1 ↔ ∃ α β, β < 0 ∧ LineOn S X Y α β) := by
  have flat : ∀ X Y : Ω → ℝ, (∃ α, LineOn S X Y α 0) ↔ E (fun d => (Y d - E Y) ^ 2) = 0 := fun X Y => by
    rw [← pos_line hE X Y hz 0]
    simp only [zero_mul, sub_zero]
  have n1 := hE.nonneg (fun d => (X d - E X) ^ 2) fun d => sq_nonneg _
  have n2 := hE.nonneg (fun d => (Y d - E Y) ^ 2) fun d => sq_nonneg _
  have cs := pos_cov_le hE (fun d => X d - E X) (fun d => Y d - E Y)
  have mx := pos_cov_max hE (fun d => X d - E X) (fun d => Y d - E Y)
  have mn := pos_cov_max hE (fun d => -1 * (X d - E X)) (fun d => Y d - E Y)
  have e1 : E (fun d => (-1 * (X d - E X)) ^ 2) = E (fun d => (X d - E X) ^ 2) := congrArg _ (funext fun d => by ring)
  have e2 : E (fun d => -1 * (X d - E X) * (Y d - E Y)) = -E (fun d => (X d - E X) * (Y d - E Y)) := by
    rw [← neg_one_mul (E _), ← hE.smul]
    exact congrArg _ (funext fun d => by ring)
  have e3 : ∀ β : ℝ, E (fun d => ((Y d - E Y) - β * (-1 * (X d - E X))) ^ 2) = E (fun d => ((Y d - E Y) - -β * (X d - E X)) ^ 2) := fun β =>
    congrArg _ (funext fun d => by ring)
  rw [e1, e2] at mn
  simp only [e3, pos_line hE X Y hz] at mn mx
  rw [flat X Y, flat Y X]
  rw [ek, ev, ew] at cs mx mn
  rw [ev] at n1 ⊢
  rw [ew] at n2 ⊢
  by_cases z : w = 0 ∨ v = 0
  · left
    have hz : v * w = 0 := mul_eq_zero.2 z.symm
    rw [hz, Real.sqrt_zero] at cs ⊢
    rw [abs_nonpos_iff.1 cs]
    exact ⟨Num.zero_div_zero, z⟩
  right
  obtain ⟨z2, z1⟩ := not_or.1 z
  have p1 : 0 < v := lt_of_le_of_ne n1 (Ne.symm z1)
  have p2 : 0 < w := lt_of_le_of_ne n2 (Ne.symm z2)
  have hs := Real.sqrt_pos.2 (mul_pos p1 p2)
  obtain ⟨l, u⟩ := abs_le.1 cs
  refine ⟨z, _, Num.fin_div _ _ hs.ne', ?_, ?_, ?_, ?_⟩
  · rw [le_div_iff₀ hs]; linarith
  · rw [div_le_iff₀ hs]; linarith
  · rw [div_eq_one_iff_eq hs.ne', mx p1 p2]
    exact ⟨fun ⟨β, hβ, α, hl⟩ => ⟨α, β, hβ, hl⟩, fun ⟨α, β, hβ, hl⟩ => ⟨β, hβ, α, hl⟩⟩
  · rw [div_eq_iff hs.ne', neg_one_mul, ← neg_eq_iff_eq_neg, mn p1 p2]
    exact ⟨fun ⟨β, hβ, α, hl⟩ => ⟨α, -β, by linarith, hl⟩, fun ⟨α, β, hβ, hl⟩ => ⟨-β, by linarith, α, by rwa [neg_neg]⟩⟩

end

section
variable {P : Cell → ℝ} {c : Cell}

/-- A sum of squares vanishes exactly if the squares of all stars do. -/
theorem marg_square_zero (hP : ∀ d, g.Has d → 0 ≤ P d) (φ : Cell → ℝ) :
    g.marg (fun d => φ d ^ 2 * P d) b c = 0 ↔ ∀ d, g.Has d ∧ coords b d = coords b c ∧ P d ≠ 0 → φ d = 0 := by
  have hn : ∀ d, g.Has d → 0 ≤ if coords b d = coords b c then φ d ^ 2 * P d else 0 := fun d hd => by
    split_ifs
    · exact mul_nonneg (sq_nonneg _) (hP d hd)
    · exact le_rfl
  constructor
  · rintro h d ⟨hd, e, hPd⟩
    by_contra hφ
    have : 0 < g.marg (fun d => φ d ^ 2 * P d) b c := by
      refine sumCells_pos_of hn hd ?_
      rw [if_pos e]
      exact mul_pos (by positivity) (lt_of_le_of_ne (hP d hd) hPd.symm)
    linarith
  · intro h
    rw [marg_congr (ψ := fun _ => 0 * 0) fun d hd e => ?_, marg_smul, zero_mul]
    by_cases hPd : P d = 0
    · simp [hPd]
    · simp [h d ⟨hd, e, hPd⟩]

theorem lineOn_iff (q q' : Char) (α β : ℝ) :
    LineOn (fun d => g.Has d ∧ coords b d = coords b c ∧ P d ≠ 0) (g.value q) (g.value q') α β ↔ OnLine g P b c q q' α β :=
  ⟨fun h d h1 h2 h3 => h d ⟨h1, h2, h3⟩, fun h d hd => h d hd.1 hd.2.1 hd.2.2⟩

theorem StdAt.onLine {o : Obj} (h : StdAt o g lw P b) (hN : b = [] → g.sumCells P = 1) {a0 a1 : Char} (hab : ValidPair [a0, a1] b) :
    CorrelationIsLine o g lw P a0 a1 b := by
  obtain ⟨hv0, hv1⟩ := validPair_sub hab
  obtain ⟨C, c1, c2⟩ := h.covarianceEx hab
  obtain ⟨V, v1, v2⟩ := h.centralEx hv0 rfl 2
  obtain ⟨W, w1, w2⟩ := h.centralEx hv1 rfl 2
  obtain ⟨r, r1, r2⟩ := corCore_table hab c1 c2 v1 v2 w1 w2
  refine ⟨r, r1, fun q q' hq hq' c hc => ?_⟩
  rw [r2.2 q (varOf_mem hq) q' (varOf_mem hq') c hc]
  by_cases h0 : g.condWt P b c = 0
  · left
    simp only [if_pos h0]
    exact ⟨rfl, .inl h0⟩
  have hE := pos_Ex h.nonneg h0 hN
  simp only [if_neg h0]
  simp only [h0, false_or]
  have key := pos_cor hE (g.value q) (g.value q') (fun φ => by
    rw [← marg_square_zero h.nonneg φ]
    exact div_eq_zero_iff.trans (or_iff_left h0)) rfl rfl rfl
  simp only [lineOn_iff] at key
  rw [Num.fin_mul, Num.sqrt_fin (mul_nonneg (hE.nonneg _ fun d => sq_nonneg _) (hE.nonneg _ fun d => sq_nonneg _))]
  exact key

/-- The same for populations with any velocities, except for correlations with velocities. -/
theorem PopAt.onLine {o : Obj} {q : Pop} {ask : PyStr → Prop} {good : Cell → Prop} (h : PopAt o q g L lw b ask good) {a0 a1 : Char}
    (hab : ValidPair [a0, a1] b) (ha0 : ask [a0]) (ha1 : ask [a1]) (n0 : a0 ≠ 'v') (n1 : a1 ≠ 'v') :
    PopCorrelationIsLine o q g L lw a0 a1 b good := by
  obtain ⟨r, r1, -, r3⟩ := h.correlation hab ha0 ha1
  refine ⟨r, r1, fun k k' hk hk' c hc hgood => ?_⟩
  have hkv : k ≠ 'v' := fun e => by subst e; exact n0 (by simpa [varOf] using hk.symm)
  have hkv' : k' ≠ 'v' := fun e => by subst e; exact n1 (by simpa [varOf] using hk'.symm)
  rw [r3 k (varOf_mem hk) k' (varOf_mem hk') c hc hgood]
  have h0 := (h.stars c hc hgood).1
  have hA : 0 < q.amount g L lw b c := lt_of_le_of_ne (h.ok.amount_nonneg h.proper h.lightNonneg b c) h0.symm
  have hW : ∀ d, g.Has d → 0 ≤ Pop.wt L lw d * q.cells g b d := fun d hd => mul_nonneg (wt_nonneg h.lightNonneg d) (h.ok.cells_nonneg b hd)
  have hE : Pos (fun f : Cell → ℝ => g.marg (fun d => f d * (Pop.wt L lw d * q.cells g b d)) b c / q.amount g L lw b c) := by
    refine ⟨fun φ ψ => ?_, fun s φ => ?_, fun φ hφ => ?_, ?_⟩
    · simp only [add_mul, marg_add, add_div]
    · simp only [mul_assoc, marg_smul, mul_div_assoc]
    · exact div_nonneg (marg_nonneg (fun d hd => mul_nonneg (hφ d) (hW d hd)) b c) hA.le
    · simp only [one_mul]
      rw [← Pop.amount_eq h.proper h.ok, div_self h0]
  have mean : ∀ k, k ≠ 'v' → g.marg (fun d => g.value k d * (Pop.wt L lw d * q.cells g b d)) b c / q.amount g L lw b c = q.mean g L lw b k c := fun k hk => by
    unfold Pop.mean
    rw [Pop.expect_num, Pop.num_eq h.proper h.ok hk]
  have key := pos_cor (k := q.cov g L lw b k k' c) (v := q.variance g L lw b k c) (w := q.variance g L lw b k' c)
    hE (g.value k) (g.value k') (fun φ => by
      rw [← marg_square_zero hW φ]
      exact div_eq_zero_iff.trans (or_iff_left h0)) (by
      beta_reduce
      rw [mean k hkv, mean k' hkv']
      unfold Pop.cov
      rw [expectOf_eq h.proper h.ok (fun d v => by rw [value_noV hkv, value_noV hkv'])]) (by
      beta_reduce
      rw [mean k hkv]
      unfold Pop.variance Pop.central
      rw [Pop.expect_num, Pop.num_eq h.proper h.ok hkv]) (by
      beta_reduce
      rw [mean k' hkv']
      unfold Pop.variance Pop.central
      rw [Pop.expect_num, Pop.num_eq h.proper h.ok hkv'])
  simp only [lineOn_iff] at key
  have hs : ∀ d, Pop.wt L lw d * q.cells g b d ≠ 0 ↔ popWeight q L lw b d ≠ 0 := fun d => by
    have hn : (g.nv : ℝ) ≠ 0 := by have := hc.2.1; exact_mod_cast (by omega : g.nv ≠ 0)
    unfold popWeight Pop.cells pick
    split_ifs
    · rfl
    · unfold Pop.flat
      simp [hn]
  unfold Pop.givenCov
  rw [if_neg hkv, if_neg hkv']
  unfold OnLine at key ⊢
  simp only [hs] at key
  exact key

end

/-! ### Theorems -/

/-- **C117, plain components**: for every pair of quantities, every `b` and both weightings. -/
theorem C117_plain (h : BaseIs cube stored g ρ L) (hlw : lw = true → 0 < totalLight g L (massP g ρ)) (a0 a1 : Char) (b : PyStr)
    (hab : ValidPair [a0, a1] b) (hN : b = [] → lw = false → g.sumCells (massP g ρ) = 1) :
    CorrelationIsLine (obj (baseSelf cube stored)) g lw (wtdP g L (massP g ρ) lw) a0 a1 b :=
  (h.std hlw b).onLine (fun e => total_one hlw (hN e)) hab

/-- **C117, mixtures** of plain components that have stars at all values of `b`. -/
theorem C117_mixture {m : Mix} {n : ℕ} {ω : ℕ → ℝ} {ρ : ℕ → Cell → ℝ} (h : PlainMix m g n ω ρ L)
    (hT : lw = true → ∀ i < n, 0 < totalLight g L (massP g (ρ i))) (a0 a1 : Char) (b : PyStr) (hab : ValidPair [a0, a1] b)
    (hN : b = [] → lw = false → g.sumCells (massP g (mixRho n ω ρ)) = 1)
    (hne : ∀ c, g.Has c → ∀ i < n, g.condWt (wtdP g L (massP g (ρ i)) lw) b c ≠ 0) :
    CorrelationIsLine (Mix.obj m) g lw (wtdP g L (massP g (mixRho n ω ρ)) lw) a0 a1 b :=
  (mix_std h hT b hne).onLine (fun e => total_one (fun e => by
    have := mix_light_pos h (hT e) []
    unfold mixLight at this
    simpa only [pick_same, mixP_massP] using this) (hN e)) hab

/-- **C117, parametric components**: disks and streams, for pairs of quantities without velocity (with velocity the covariance that is returned is
not the covariance of the stars, C68). -/
theorem C117_parametric {p : Param} {m : Ingredients} (h : ParamIs p g m L) (hf : p.f2 = 1) (hl : lw = true → (m.pop g).Shines g L)
    (a0 a1 : Char) (b : PyStr) (hab : ValidPair [a0, a1] b) (h0 : a0 ≠ 'v') (h1 : a1 ≠ 'v') :
    PopCorrelationIsLine (obj p.self) (m.pop g) g L lw a0 a1 b (fun c => (m.pop g).amount g L lw b c ≠ 0) :=
  (h.popAt hf hl b).onLine hab trivial trivial h0 h1

/-- **C117, mixtures** of all kinds of components, at values of `b` where all members have stars. -/
theorem C117_mixture_any {mx : Mix} {n : ℕ} {ω : ℕ → ℝ} {pop : ℕ → Pop} (h : MixOf mx g n ω pop L) (hl : lw = true → ∀ i < n, (pop i).Shines g L)
    (hm : ∀ (i : ℕ) (hi : i < mx.children.length), IsMember1 g L mx.children[i] (pop i)) (a0 a1 : Char) (b : PyStr) (hab : ValidPair [a0, a1] b)
    (h0 : a0 ≠ 'v') (h1 : a1 ≠ 'v') (hv : lw = false ∨ 'v' ∉ b) :
    PopCorrelationIsLine (Mix.obj mx) (mixPop n ω pop) g L lw a0 a1 b (fun c => (∀ i < n, (pop i).amount g L lw b c ≠ 0) ∧
      (b = [] → lw = false → (mixPop n ω pop).amount g L false [] c = 1)) :=
  (h.popAt hl hm b hv).onLine hab (by simp [h0]) (by simp [h1]) h0 h1

/-! ### The hypotheses are met -/

/-- A component whose older stars are faster: a star of age `i` has velocity `i`. -/
def lineRho (c : Cell) : ℝ := if c.t = c.v then 1 else 0

/-- Its array of logarithms. -/
def lineStored : Arr Num where
  shape := [2, 4, 5, 6, 3]
  get := fun i => Num.lg (lineRho ⟨i.getD 0 0, i.getD 1 0, i.getD 2 0, i.getD 3 0, i.getD 4 0⟩)

theorem lineRho_nonneg (c : Cell) : 0 ≤ lineRho c := by
  unfold lineRho
  split_ifs <;> norm_num

theorem line_pos {c : Cell} (hc : demoGrid.Has c) (e : c.t = c.v) : 0 < massP demoGrid lineRho c :=
  mul_pos (by simp [lineRho, e]) (cellVolume_pos demoGrid_proper hc)

theorem line_weight {c : Cell} (hc : demoGrid.Has c) (e : c.t = c.v) : demoGrid.condWt (massP demoGrid lineRho) ['x'] c ≠ 0 := by
  unfold Grid.condWt
  rw [if_neg (by simp)]
  refine (sumCells_pos (c := c) (fun d hd => ?_) hc ?_).ne'
  · split_ifs
    · exact massP_nonneg demoGrid_proper lineRho_nonneg hd
    · exact le_rfl
  · rw [if_pos rfl]
    exact line_pos hc e

theorem line_values : centre demoGrid.t 0 < centre demoGrid.t 1 ∧ centre demoGrid.v 0 < centre demoGrid.v 1 := by
  constructor <;> norm_num [demoGrid, cubeGrid, centre, evenEdges]

/-- Its stars are on a rising line. -/
theorem line_onLine (c : Cell) : ∃ α β, 0 < β ∧ OnLine demoGrid (massP demoGrid lineRho) ['x'] c 't' 'v' α β := by
  obtain ⟨h1, h2⟩ := line_values
  refine ⟨centre demoGrid.v 0 - (centre demoGrid.v 1 - centre demoGrid.v 0) / (centre demoGrid.t 1 - centre demoGrid.t 0) * centre demoGrid.t 0,
    (centre demoGrid.v 1 - centre demoGrid.v 0) / (centre demoGrid.t 1 - centre demoGrid.t 0), div_pos (by linarith) (by linarith), fun d hd _ hP => ?_⟩
  have e : d.t = d.v := by
    by_contra e
    exact hP (by simp [massP, lineRho, e])
  have ht : d.t < 2 := hd.1
  have hn : centre demoGrid.t 1 - centre demoGrid.t 0 ≠ 0 := by linarith
  show centre demoGrid.v d.v = _ + _ * centre demoGrid.t d.t
  rw [← e]
  rcases (by omega : d.t = 0 ∨ d.t = 1) with e0 | e0
  · rw [e0]; ring
  · rw [e0]; field_simp; ring

theorem line_not_flat (q q' : Char) (hq : demoGrid.value q' ⟨0, 0, 1, 2, 0⟩ ≠ demoGrid.value q' ⟨1, 1, 1, 2, 0⟩) :
    ¬ ∃ α, OnLine demoGrid (massP demoGrid lineRho) ['x'] ⟨0, 0, 1, 2, 0⟩ q q' α 0 := by
  rintro ⟨α, h⟩
  have hc : demoGrid.Has ⟨0, 0, 1, 2, 0⟩ := by refine ⟨?_, ?_, ?_, ?_, ?_⟩ <;> norm_num [demoGrid, cubeGrid]
  have hd : demoGrid.Has ⟨1, 1, 1, 2, 0⟩ := by refine ⟨?_, ?_, ?_, ?_, ?_⟩ <;> norm_num [demoGrid, cubeGrid]
  have h1 := h _ hc rfl (line_pos hc rfl).ne'
  have h2 := h _ hd rfl (line_pos hd rfl).ne'
  exact hq (by rw [h1, h2]; ring)

/-- The correlation of its ages and velocities is 1 in pixel (1, 2). -/
example : ∃ cube r, BaseIs cube lineStored demoGrid lineRho demoL ∧
    (obj (baseSelf cube lineStored)).getCorrelation (distStr ['t', 'v'] ['x']) false = .ok r ∧ r.get [1, 2] = .fin 1 := by
  obtain ⟨cube, -, -, hB, -⟩ := demoBase
  have h : BaseIs cube lineStored demoGrid lineRho demoL :=
    ⟨hB.proper, hB.cubeIs, ⟨rfl, fun c _ => rfl⟩, lineRho_nonneg, hB.light, hB.lightNonneg⟩
  obtain ⟨r, hr, hr'⟩ := C117_plain (lw := false) h (by simp) 't' 'v' ['x'] (by decide) (by simp)
  have hc : demoGrid.Has ⟨0, 0, 1, 2, 0⟩ := by refine ⟨?_, ?_, ?_, ?_, ?_⟩ <;> norm_num [demoGrid, cubeGrid]
  have ew : wtdP demoGrid demoL (massP demoGrid lineRho) false = massP demoGrid lineRho := rfl
  rw [ew] at hr'
  refine ⟨cube, r, h, hr, ?_⟩
  have key := hr' 't' 'v' rfl rfl ⟨0, 0, 1, 2, 0⟩ hc
  have hi : compIdx 't' ++ compIdx 'v' ++ coords ['x'] ⟨0, 0, 1, 2, 0⟩ = [1, 2] := rfl
  rw [hi] at key
  rcases key with ⟨-, h0⟩ | ⟨-, x, hx, -, -, h1, -⟩
  · rcases h0 with h0 | h0 | h0
    · exact absurd h0 (line_weight hc rfl)
    · exact absurd h0 (line_not_flat 't' 'v' line_values.2.ne)
    · exact absurd h0 (line_not_flat 'v' 't' line_values.1.ne)
  · rw [hx, h1.2 (line_onLine _)]

/-- The theorem for mixtures applies to the mixture of the earlier examples, weighted by light. -/
example : ∃ m, PlainMix m demoGrid 2 demoWeights demoRhos demoL ∧ CorrelationIsLine (Mix.obj m) demoGrid true
    (wtdP demoGrid demoL (massP demoGrid (mixRho 2 demoWeights demoRhos)) true) 't' 'z' [] := by
  obtain ⟨cube, m, -, -, h, -, hN, hT, -⟩ := demoMix
  exact ⟨m, h, C117_mixture h (fun _ => hT) 't' 'z' [] (by decide) (by simp) fun c _ i _ => by simp [Grid.condWt]⟩

/-- The theorem for disks applies to the disk of C49 after all its setters. -/
example : ∃ p m, ParamIs p demoGrid m demoL ∧ p.f2 = 1 ∧ (∀ c, (m.pop demoGrid).amount demoGrid demoL false [] c ≠ 0) ∧
    PopCorrelationIsLine (obj p.self) (m.pop demoGrid) demoGrid demoL false 't' 'z' [] (fun c => (m.pop demoGrid).amount demoGrid demoL false [] c ≠ 0) := by
  obtain ⟨p, m, h, hS, -, hf, -⟩ := demoDisk_pos 1
  exact ⟨p, m, h, hf, fun c => by rw [h.amount_nil]; exact one_ne_zero, C117_parametric h hf (by simp) 't' 'z' [] (by decide) (by decide) (by decide)⟩

/-- The correlation of positions and metallicities, at one age, of the mixture of the examples of C66, weighted by light. -/
example : ∃ m p t0, demoGrid.Has ⟨t0, 0, 0, 0, 0⟩ ∧ PopCorrelationIsLine (Mix.obj m) (mixPop 2 (fun i => if i = 0 then 1 / 4 else 3 / 4) p)
    demoGrid demoL true 'x' 'z' ['t'] (fun c => (∀ i < 2, (p i).amount demoGrid demoL true ['t'] c ≠ 0) ∧
    (['t'] = [] → true = false → (mixPop 2 (fun i => if i = 0 then 1 / 4 else 3 / 4) p).amount demoGrid demoL false [] c = 1)) := by
  obtain ⟨cube, p, mi, t0, hP, hf, ht, hpos, hmk⟩ := demoStarMix
  have hc : demoGrid.Has ⟨t0, 0, 0, 0, 0⟩ := by
    refine ⟨ht, ?_, ?_, ?_, ?_⟩ <;> norm_num [demoGrid, cubeGrid]
  obtain ⟨m, -, -, hB, h, hl, hm⟩ := hmk _ _ hc hc
  exact ⟨m, _, t0, hc, C117_mixture_any h (fun _ => hl) hm 'x' 'z' ['t'] (by decide) (by decide) (by decide) (.inr (by decide))⟩

end PKM
