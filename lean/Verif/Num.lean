import Mathlib.Analysis.SpecialFunctions.Log.Basic
import Mathlib.Analysis.SpecialFunctions.Pow.Real
import Mathlib.Algebra.BigOperators.Fin

/-!
# Numbers

`Num` models the values of a numpy `float64` array: exact reals plus the three special IEEE-754
values.  Simplifications (stated in DESIGN.md): no rounding, no overflow/underflow, no signed zero.
-/

open scoped Classical

noncomputable section

namespace PKM

/-- A float64 value: numpy scalar type used by every array in /repo/popkinmocks
(components/base.py, ifu_cube.py, ...).  Rounding, overflow and signed zeros are not modelled. -/
inductive Num
  | fin (r : ℝ)
  | pinf
  | ninf
  | nan

namespace Num

/-- IEEE addition (`a + b`), e.g. components/base.py:1034 `log_p_tvxz += log_dtvxz`. -/
def add : Num → Num → Num
  | fin a, fin b => fin (a + b)
  | nan, _ => nan
  | _, nan => nan
  | pinf, ninf => nan
  | ninf, pinf => nan
  | pinf, _ => pinf
  | _, pinf => pinf
  | ninf, _ => ninf
  | _, ninf => ninf

/-- IEEE negation. -/
def neg : Num → Num
  | fin a => fin (-a)
  | pinf => ninf
  | ninf => pinf
  | nan => nan

/-- An infinity with the sign of `r` (`0 * inf = nan`). -/
def infSign (r : ℝ) : Num := if 0 < r then pinf else if r < 0 then ninf else nan

/-- IEEE multiplication (`a * b`). -/
def mul : Num → Num → Num
  | fin a, fin b => fin (a * b)
  | nan, _ => nan
  | _, nan => nan
  | fin a, pinf => infSign a
  | fin a, ninf => infSign (-a)
  | pinf, fin b => infSign b
  | ninf, fin b => infSign (-b)
  | pinf, pinf => pinf
  | ninf, ninf => pinf
  | pinf, ninf => ninf
  | ninf, pinf => ninf

/-- IEEE division (`a / b`): `0/0 = nan`, `a/0 = ±inf`; the zero is taken as `+0`. -/
def div : Num → Num → Num
  | fin a, fin b => if b = 0 then infSign a else fin (a / b)
  | nan, _ => nan
  | _, nan => nan
  | fin _, pinf => fin 0
  | fin _, ninf => fin 0
  | pinf, fin b => if 0 ≤ b then pinf else ninf
  | ninf, fin b => if 0 ≤ b then ninf else pinf
  | pinf, pinf => nan
  | ninf, ninf => nan
  | pinf, ninf => nan
  | ninf, pinf => nan

/-- `np.exp`. -/
def exp : Num → Num
  | fin a => fin (Real.exp a)
  | pinf => pinf
  | ninf => fin 0
  | nan => nan

/-- `np.log`: `log 0 = -inf`, `log` of a negative number is nan. -/
def log : Num → Num
  | fin a => if 0 < a then fin (Real.log a) else if a = 0 then ninf else nan
  | pinf => pinf
  | ninf => nan
  | nan => nan

/-- `x ** 0.5`: nan for negative `x` (numpy: `(-inf)**0.5 = inf`, as C `pow`). -/
def sqrt : Num → Num
  | fin a => if 0 ≤ a then fin (Real.sqrt a) else nan
  | pinf => pinf
  | ninf => pinf
  | nan => nan

/-- `np.power(x, j)` / `x ** j` for an integer `j ≥ 0`; `nan ** 0 = inf ** 0 = 1` as in C `pow`. -/
def npow (x : Num) (j : ℕ) : Num :=
  if j = 0 then fin 1 else
  match x with
  | fin a => fin (a ^ j)
  | pinf => pinf
  | ninf => if j % 2 = 0 then pinf else ninf
  | nan => nan

/-- IEEE `<=` (false as soon as one side is nan). -/
def le : Num → Num → Prop
  | nan, _ => False
  | _, nan => False
  | ninf, _ => True
  | _, pinf => True
  | fin a, fin b => a ≤ b
  | pinf, _ => False
  | _, ninf => False

/-- IEEE `<`. -/
def lt : Num → Num → Prop
  | nan, _ => False
  | _, nan => False
  | fin a, fin b => a < b
  | ninf, ninf => False
  | ninf, _ => True
  | pinf, _ => False
  | fin _, pinf => True
  | fin _, ninf => False

instance : Add Num := ⟨add⟩
instance : Zero Num := ⟨fin 0⟩
instance : One Num := ⟨fin 1⟩
instance : Neg Num := ⟨neg⟩
instance : Sub Num := ⟨fun a b => add a (neg b)⟩
instance : Mul Num := ⟨mul⟩
instance : Div Num := ⟨div⟩
instance : Inhabited Num := ⟨nan⟩

instance : AddCommMonoid Num where
  add_assoc a b c := by
    show add (add a b) c = add a (add b c)
    cases a <;> cases b <;> cases c <;> simp [add, _root_.add_assoc]
  zero_add a := by show add (fin 0) a = a; cases a <;> simp [add]
  add_zero a := by show add a (fin 0) = a; cases a <;> simp [add]
  add_comm a b := by
    show add a b = add b a; cases a <;> cases b <;> simp [add, _root_.add_comm]
  nsmul := nsmulRec

theorem zero_def : (0 : Num) = fin 0 := rfl
theorem one_def : (1 : Num) = fin 1 := rfl

@[simp] theorem fin_add (a b : ℝ) : fin a + fin b = fin (a + b) := rfl
@[simp] theorem nan_add (a : Num) : nan + a = nan := by cases a <;> rfl
@[simp] theorem add_nan (a : Num) : a + nan = nan := by cases a <;> rfl
@[simp] theorem fin_add_ninf (a : ℝ) : fin a + ninf = ninf := rfl
@[simp] theorem ninf_add_fin (a : ℝ) : ninf + fin a = ninf := rfl
@[simp] theorem ninf_add_ninf : ninf + ninf = ninf := rfl
@[simp] theorem neg_fin (a : ℝ) : -fin a = fin (-a) := rfl
@[simp] theorem fin_sub (a b : ℝ) : fin a - fin b = fin (a - b) := by
  show add (fin a) (neg (fin b)) = _; simp [add, neg, sub_eq_add_neg]
@[simp] theorem nan_sub (a : Num) : nan - a = nan := by cases a <;> rfl
@[simp] theorem sub_nan (a : Num) : a - nan = nan := by cases a <;> rfl
@[simp] theorem ninf_sub_fin (a : ℝ) : ninf - fin a = ninf := rfl
@[simp] theorem fin_sub_ninf (a : ℝ) : fin a - ninf = pinf := rfl
@[simp] theorem ninf_sub_ninf : ninf - ninf = nan := rfl
@[simp] theorem fin_mul (a b : ℝ) : fin a * fin b = fin (a * b) := rfl
@[simp] theorem nan_mul (a : Num) : nan * a = nan := by cases a <;> rfl
@[simp] theorem mul_nan (a : Num) : a * nan = nan := by cases a <;> rfl
theorem fin_div (a b : ℝ) (h : b ≠ 0) : fin a / fin b = fin (a / b) := by
  show div _ _ = _; simp [div, h]
@[simp] theorem zero_div_zero : fin 0 / fin 0 = nan := by
  show div _ _ = _; simp [div, infSign]
@[simp] theorem nan_div (a : Num) : nan / a = nan := by cases a <;> rfl
@[simp] theorem div_nan (a : Num) : a / nan = nan := by cases a <;> rfl
theorem fin_div_zero (a : ℝ) : fin a / fin 0 = infSign a := by
  show div _ _ = _; simp [div]

@[simp] theorem exp_fin (a : ℝ) : exp (fin a) = fin (Real.exp a) := rfl
@[simp] theorem exp_ninf : exp ninf = fin 0 := rfl
@[simp] theorem exp_pinf : exp pinf = pinf := rfl
@[simp] theorem exp_nan : exp nan = nan := rfl
@[simp] theorem log_nan : log nan = nan := rfl
@[simp] theorem npow_fin (a : ℝ) (j : ℕ) : npow (fin a) j = fin (a ^ j) := by
  unfold npow; split
  · next h => simp [h]
  · rfl
@[simp] theorem npow_nan_succ (j : ℕ) : npow nan (j + 1) = nan := by simp [npow]
theorem npow_nan {j : ℕ} (h : j ≠ 0) : npow nan j = nan := by simp [npow, h]
theorem sqrt_fin {a : ℝ} (h : 0 ≤ a) : sqrt (fin a) = fin (Real.sqrt a) := by simp [sqrt, h]

theorem fin_injective : Function.Injective fin := fun _ _ h => by injection h

theorem fin_sum {ι : Type*} (s : Finset ι) (f : ι → ℝ) :
    ∑ i ∈ s, fin (f i) = fin (∑ i ∈ s, f i) := by
  classical
  induction s using Finset.induction_on with
  | empty => rfl
  | insert a s h ih => simp [Finset.sum_insert h, ih]

/-- A sum is nan as soon as one term is. -/
theorem sum_eq_nan {ι : Type*} {s : Finset ι} {f : ι → Num} {i : ι} (hi : i ∈ s)
    (h : f i = nan) : ∑ i ∈ s, f i = nan := by
  classical
  rw [← Finset.add_sum_erase s f hi, h, nan_add]

/-- If `fin` is the value of every term the sum is finite. -/
theorem sum_congr_fin {ι : Type*} (s : Finset ι) (f : ι → Num) (g : ι → ℝ)
    (h : ∀ i ∈ s, f i = fin (g i)) : ∑ i ∈ s, f i = fin (∑ i ∈ s, g i) := by
  rw [Finset.sum_congr rfl h, fin_sum]

/-- `lg p` is the floating point logarithm of the finite number `p`. -/
def lg (p : ℝ) : Num := log (fin p)

theorem lg_pos {p : ℝ} (h : 0 < p) : lg p = fin (Real.log p) := by simp [lg, log, h]
@[simp] theorem lg_zero : lg 0 = ninf := by simp [lg, log]
theorem log_fin (p : ℝ) : log (fin p) = lg p := rfl

theorem exp_lg {p : ℝ} (h : 0 ≤ p) : exp (lg p) = fin p := by
  rcases h.eq_or_lt with h | h
  · subst h; simp
  · rw [lg_pos h]; simp [Real.exp_log h]

theorem lg_add {p q : ℝ} (hp : 0 ≤ p) (hq : 0 ≤ q) : lg p + lg q = lg (p * q) := by
  rcases hp.eq_or_lt with h | h
  · subst h
    rcases hq.eq_or_lt with h' | h'
    · subst h'; simp
    · rw [lg_pos h']; simp
  · rcases hq.eq_or_lt with h' | h'
    · subst h'; rw [lg_pos h]; simp
    · rw [lg_pos h, lg_pos h', lg_pos (mul_pos h h'), fin_add, Real.log_mul h.ne' h'.ne']

theorem lg_sub {p q : ℝ} (hp : 0 ≤ p) (hq : 0 < q) : lg p - lg q = lg (p / q) := by
  rcases hp.eq_or_lt with h | h
  · subst h; rw [lg_pos hq]; simp
  · rw [lg_pos h, lg_pos hq, lg_pos (div_pos h hq), fin_sub, Real.log_div h.ne' hq.ne']

theorem lg_zero_sub : lg 0 - lg 0 = nan := by simp

theorem exp_lg_sub_zero {p : ℝ} (hp : 0 < p) : exp (lg p - lg 0) = pinf := by
  rw [lg_pos hp]; simp

end Num
end PKM
