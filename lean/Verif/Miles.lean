import Verif.Ssp
import Mathlib.Data.Nat.Digits.Defs
import Mathlib.Data.Finset.Sort

/-!
# Model of `read_miles.milesSSPs`: reading the files of SSP spectra

Arrays of file name parts are lists. A directory is the list of its file names with the content of each FITS file, and the cached array
`all_spectra.npy` if that file exists. Printing is not modelled (`list_mod_directories`, `mod_dir=None`).
-/

open scoped Classical

noncomputable section

namespace PKM
open Np

namespace PyStr

/-- `s.split("ab")` for a separator of two different characters (read_miles.py:64). -/
def split2 (a b : Char) : PyStr → List PyStr
  | [] => [[]]
  | [x] => [[x]]
  | x :: y :: r => if x = a ∧ y = b then [] :: split2 a b r else
      match split2 a b (y :: r) with
      | [] => [[x]]
      | h :: t => (x :: h) :: t

/-- Decimal digits. -/
def allDigits (s : PyStr) : Prop := ∀ c ∈ s, c.isDigit

/-- Natural number denoted by decimal digits. -/
def natVal (s : PyStr) : ℕ := s.foldl (fun n c => 10 * n + (c.toNat - '0'.toNat)) 0

/-- `float(s)` for an unsigned decimal numeral, with at least one digit and at most one point. -/
def unsignedFloat (s : PyStr) : Py ℝ :=
  match split '.' s with
  | [a] => if allDigits a ∧ a ≠ [] then .ok (natVal a) else .error .valueError
  | [a, b] => if allDigits a ∧ allDigits b ∧ a ++ b ≠ [] then .ok (natVal a + natVal b / 10 ^ b.length) else .error .valueError
  | _ => .error .valueError

/-- `float(s)`: an optional sign and a decimal numeral. Simplified: the value is exact; surrounding blanks, underscores, exponents,
`inf` and `nan`, which Python also accepts, raise `ValueError`. -/
def float (s : PyStr) : Py ℝ :=
  match s with
  | '-' :: r => do let x ← unsignedFloat r; .ok (-x)
  | '+' :: r => unsignedFloat r
  | _ => unsignedFloat s

end PyStr

/-- `l[k]` of a Python list, for a non-negative index. -/
def listAt {α : Type} (l : List α) (k : ℕ) : Py α :=
  match l[k]? with
  | some x => .ok x
  | none => .error .indexError

/-- `np.unique(l)`: sorted distinct values. -/
def unique (l : List ℝ) : List ℝ := l.toFinset.sort (· ≤ ·)

/-- Attributes of `read_miles.milesSSPs` holding the parts of the file names. -/
structure MilesFiles where
  modfiles : List PyStr
  imf : List PyStr
  zstr : List PyStr
  z : List ℝ
  tstr : List PyStr
  t : List ℝ
  endstr : List PyStr

/-- The repair of names with `iT` (read_miles.py:60-61). -/
def joinBasti : List PyStr → List PyStr
  | [a, b, c] => [a, b ++ 'T' :: c]
  | l => l

/-- Body of the loop in `split_modfiles` (read_miles.py:56-71). The order of errors is that of the code. -/
def splitModfile (m : MilesFiles) (mod : PyStr) : Py MilesFiles := do
  let tmp := PyStr.split 'Z' mod
  let i ← listAt tmp 0
  let rest ← listAt tmp 1
  let tmp := joinBasti (PyStr.split 'T' rest)
  let zs ← listAt tmp 0
  let rest ← listAt tmp 1
  let tmp := PyStr.split2 '_' 'i' rest
  let ts ← listAt tmp 0
  let es := tmp.tail
  let c ← listAt zs 0
  let z ← (if c = 'm' then do let x ← PyStr.float zs.tail; .ok (-x)
    else if c = 'p' then PyStr.float zs.tail
    else .error .valueError : Py ℝ)
  let t ← PyStr.float ts
  .ok { m with imf := m.imf ++ [i], zstr := m.zstr ++ [zs], z := m.z ++ [z], tstr := m.tstr ++ [ts], t := m.t ++ [t],
               endstr := m.endstr ++ es }

/-- `split_modfiles` (read_miles.py:50-77). -/
def splitModfiles (names : List PyStr) : Py MilesFiles :=
  names.foldlM splitModfile { modfiles := names, imf := [], zstr := [], z := [], tstr := [], t := [], endstr := [] }

/-- `a[idx]` for an array of positions. -/
def gather {α : Type} (l : List α) (idx : List ℕ) : Py (List α) := idx.mapM (listAt l)

/-- Selection of the same rows of all arrays (read_miles.py:94-100, 106-112). -/
def MilesFiles.select (m : MilesFiles) (idx : List ℕ) : Py MilesFiles := do
  let imf ← gather m.imf idx
  let zstr ← gather m.zstr idx
  let z ← gather m.z idx
  let tstr ← gather m.tstr idx
  let t ← gather m.t idx
  let endstr ← gather m.endstr idx
  let modfiles ← gather m.modfiles idx
  .ok { modfiles := modfiles, imf := imf, zstr := zstr, z := z, tstr := tstr, t := t, endstr := endstr }

/-- `np.where(cond)[0]` for a condition on the pairs `(z[k], t[k])`. -/
def whereZT (m : MilesFiles) (c : ℝ → ℝ → Prop) : List ℕ :=
  (List.range m.z.length).filter (fun k => c (m.z.getD k 0) (m.t.getD k 0))

/-- `filter_age_metallicity_limits` (read_miles.py:79-100). -/
def filterLimits (m : MilesFiles) (ageLim zLim : Option (ℝ × ℝ)) : Py MilesFiles :=
  let a := ageLim.getD (-3, 30)
  let b := zLim.getD (-3, 3)
  m.select (whereZT m (fun z t => a.1 ≤ t ∧ t ≤ a.2 ∧ b.1 ≤ z ∧ z ≤ b.2))

/-- Every `k`-th entry of a list, starting with the first. -/
def everyNth {α : Type} (k : ℕ) (l : List α) : List α :=
  (List.range l.length).filterMap (fun i => if i % k = 0 then l[i]? else none)

/-- `thin_model_grid` (read_miles.py:102-112); a step of zero raises `ValueError`, negative steps are not modelled. -/
def thinGrid (m : MilesFiles) (thinAge thinZ : ℕ) : Py MilesFiles :=
  if thinAge = 0 ∨ thinZ = 0 then .error .valueError
  else m.select (whereZT m (fun z t => t ∈ everyNth thinAge (unique m.t) ∧ z ∈ everyNth thinZ (unique m.z)))

/-- `join_modfiles` (read_miles.py:114-125). -/
def joinModfiles (m : MilesFiles) (z t : ℝ) : Py PyStr :=
  match whereZT m (fun z' t' => t' = t ∧ z' = z) with
  | [k] => do
    let i ← listAt m.imf k
    let zs ← listAt m.zstr k
    let ts ← listAt m.tstr k
    let es ← listAt m.endstr k
    .ok (i ++ 'Z' :: (zs ++ 'T' :: (ts ++ '_' :: 'i' :: es)))
  | _ => .error .valueError

/-- `check_age_metallicity_grid` (read_miles.py:127-134): the sorted distinct metallicities and ages. -/
def checkGrid (m : MilesFiles) : Py (List ℝ × List ℝ) :=
  let zU := unique m.z
  let tU := unique m.t
  if m.modfiles.length ≠ zU.length * tU.length then .error .valueError else .ok (zU, tU)

/-- A directory of FITS files: names in the order of `os.listdir`, data of each file, and the array in `all_spectra.npy`, assumed to be
two-dimensional. -/
structure MilesDir where
  names : List PyStr
  file : PyStr → Option (List ℝ)
  cache : Option (Arr Num)

/-- `read_spectrum` (read_miles.py:136-140). -/
def readSpectrum (dir : MilesDir) (m : MilesFiles) (z t : ℝ) : Py (List ℝ) := do
  let name ← joinModfiles m z t
  match dir.file name with
  | some s => .ok s
  | none => .error .fileNotFoundError

/-- `np.arange(3540.5, 7409.6 + 0.9, 0.9)` (read_miles.py:167), in exact arithmetic. -/
def milesLmd : List ℝ := (List.range 4300).map (fun i : ℕ => 7081 / 2 + (i : ℝ) * (9 / 10))

/-- `X[:, cnt] = s0` (read_miles.py:160). -/
def setCol (X : Arr Num) (c : ℕ) (s : List ℝ) : Py (Arr Num) := do
  let b ← broadcastTo [X.shape.getD 0 0] (vecOf s)
  .ok ⟨X.shape, fun i => if i.getD 1 0 = c then b.get [i.getD 0 0] else X.get i⟩

/-- The loops that fill `X` (read_miles.py:149-163). -/
def readGrid (dir : MilesDir) (m : MilesFiles) (zU tU lmd : List ℝ) : Py (Arr Num) := do
  let z0 ← listAt zU 0
  let t0 ← listAt tU 0
  let s0 ← readSpectrum dir m z0 t0
  if s0.length ≠ lmd.length then .error .valueError
  else do
    let r ← zU.foldlM (fun (st : Arr Num × ℕ) z => tU.foldlM (fun (st : Arr Num × ℕ) t => do
        let s ← readSpectrum dir m z t
        let X ← setCol st.1 st.2 s
        .ok (X, st.2 + 1)) st) (full [s0.length, zU.length * tU.length] (.fin 0), 0)
    .ok r.1

/-- `read_spectra` (read_miles.py:142-164). Without limits and thinning the cached array is loaded; if there is none, `self.X` is never
set and `np.save(.., self.X)` raises `AttributeError`. -/
def readSpectra (dir : MilesDir) (m : MilesFiles) (zU tU lmd : List ℝ) (isDefault : Prop) : Py (Arr Num) :=
  if isDefault then
    match dir.cache with
    | some X => .ok X
    | none => .error .attributeError
  else readGrid dir m zU tU lmd

/-- Attributes of the object after the constructor; `isDefault` says that it was built without limits and thinning (the attributes
`age_lim`, `z_lim`, `thin_age` and `thin_z` are used for nothing else after the constructor, read_miles.py:143-145). -/
structure MilesObj where
  isDefault : Prop
  files : MilesFiles
  zUnq : List ℝ
  tUnq : List ℝ
  lmd : List ℝ
  X : Arr Num

/-- `read_miles.milesSSPs.__init__` (read_miles.py:9-42). `all_spectra.npy` has already been removed from `dir.names`. -/
def MilesObj.init (dir : MilesDir) (ageLim zLim : Option (ℝ × ℝ)) (thinAge thinZ : ℕ) : Py MilesObj := do
  let m ← splitModfiles dir.names
  let m ← filterLimits m ageLim zLim
  let m ← thinGrid m thinAge thinZ
  let (zU, tU) ← checkGrid m
  let X ← readSpectra dir m zU tU milesLmd (ageLim = none ∧ zLim = none ∧ thinAge = 1 ∧ thinZ = 1)
  .ok { isDefault := ageLim = none ∧ zLim = none ∧ thinAge = 1 ∧ thinZ = 1, files := m, zUnq := zU, tUnq := tU, lmd := milesLmd, X := X }

/-- `truncate_wavelengths` (read_miles.py:169-180); `np.min` of an empty array raises `ValueError`. -/
def MilesObj.truncate (m : MilesObj) (lmdMin lmdMax : Option ℝ) : Py MilesObj :=
  match m.lmd.min?, m.lmd.max? with
  | some lo, some hi =>
    let a := lmdMin.getD lo
    let b := lmdMax.getD hi
    if a < lo ∨ hi < b then .error .valueError
    else do
      let idx := (List.range m.lmd.length).filter (fun k => a ≤ m.lmd.getD k 0 ∧ m.lmd.getD k 0 ≤ b)
      if ∃ k ∈ idx, m.X.shape.headD 0 ≤ k then .error .indexError
      else do
        let lmd ← gather m.lmd idx
        .ok { m with X := ⟨idx.length :: m.X.shape.tail, fun i => m.X.get (idx.getD (i.headD 0) 0 :: i.tail)⟩, lmd := lmd }
  | _, _ => .error .valueError

/-- `a[:-r]` for the length `n` of an axis and `0 ≤ r`: `a[:-0]` is empty. -/
def cutLen (n r : ℕ) : ℕ := if r = 0 then 0 else n - r

/-- `bin_pixels` (read_miles.py:182-193) for a non-negative integer argument. -/
def MilesObj.binPixels (m : MilesObj) (pix : ℕ) : Py MilesObj :=
  if pix = 1 then .ok m
  else match m.X.shape with
    | [n, p] =>
      if pix = 0 then .error .zeroDivisionError
      else
        let r := n % pix
        let l := m.lmd.take (cutLen m.lmd.length r)
        if l.length % pix ≠ 0 then .error .valueError
        else do
          let q := l.length / pix
          let lmd := (List.range q).map (fun k => ∑ a ∈ Finset.range pix, l.getD (a * q + k) 0)
          if p = 0 then .error .valueError
          else do
            let X ← reshape [pix, cutLen n r / pix, p] ⟨[cutLen n r, p], m.X.get⟩
            .ok { m with lmd := lmd, X := sumAxis1 0 X }
    | _ => .error .valueError

/-- `reset` (read_miles.py:195-197), with the directory afterwards: an object built without limits, whose `all_spectra.npy` is gone,
keeps its spectra and writes them to that file (read_miles.py:146-148, 163-164). -/
def MilesObj.reset (m : MilesObj) (dir : MilesDir) : Py (MilesObj × MilesDir) :=
  if m.isDefault then
    match dir.cache with
    | some X => .ok ({ m with lmd := milesLmd, X := X }, dir)
    | none => .ok ({ m with lmd := milesLmd }, { dir with cache := some m.X })
  else do
    let X ← readGrid dir m.files m.zUnq m.tUnq milesLmd
    .ok ({ m with lmd := milesLmd, X := X }, dir)

/-- What `model_grids.milesSSPs.__init__` reads of the object (model_grids.py:101-111). -/
def MilesObj.data (m : MilesObj) : MilesData := { tUnq := m.tUnq, zUnq := m.zUnq, lmd := m.lmd, X := m.X }

/-- `model_grids.milesSSPs(lmd_min, lmd_max, age_lim, z_lim, age_rebin, z_rebin)` (model_grids.py:98-140). -/
def milesSSPs (dir : MilesDir) (lmdMin lmdMax : ℝ) (ageLim zLim : Option (ℝ × ℝ)) (ageRebin zRebin : ℕ) : Py SspGrid := do
  let m ← MilesObj.init dir ageLim zLim 1 1
  let m ← m.truncate (some lmdMin) (some lmdMax)
  SspGrid.init m.data ageRebin zRebin

end PKM
