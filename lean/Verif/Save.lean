import Verif.Mixture
import Verif.Shared

/-!
# Model of saving components to files

`Component.dill_dump` and `Component.save_numpy` (components/base.py:1176-1225).

The file system is a tree of directories and files with POSIX path resolution; it has no symbolic links, no permissions and no limits.
External functions: what `dill.dump` and `np.savez` write is a parameter (`Pickle`, `npz`).
-/

open scoped Classical

noncomputable section

namespace PKM
open Np Component

/-- A directory, or a file and its contents. -/
inductive FsNode
  | dir
  | file (data : List UInt8)

/-- File system: what is found at each absolute path (the list of names from the root), and the working directory. -/
structure Fs where
  node : List PyStr → Option FsNode
  cwd : List PyStr

namespace Fs

/-- Names in a path: its non-empty parts between slashes. -/
def names (s : PyStr) : List PyStr := (PyStr.split '/' s).filter (· ≠ [])

/-- Where the resolution of a path starts. -/
def start (fs : Fs) (s : PyStr) : List PyStr := if s.head? = some '/' then [] else fs.cwd

/-- The exception of a lookup in something that is not a directory. -/
def inDir (fs : Fs) (p : List PyStr) : Py Unit :=
  match fs.node p with
  | none => .error .fileNotFoundError
  | some (.file _) => .error .notADirectoryError
  | some .dir => .ok ()

/-- Resolution of names, one after the other. -/
def walk (fs : Fs) : List PyStr → List PyStr → Py (List PyStr)
  | p, [] => .ok p
  | p, n :: ns => do
    fs.inDir p
    if n = ".".toList then walk fs p ns
    else if n = "..".toList then walk fs p.dropLast ns
    else walk fs (p ++ [n]) ns

/-- `os.path.isdir(s)` for a string `s`. -/
def isdir (fs : Fs) (s : PyStr) : Bool :=
  if s = [] then false
  else match fs.walk (fs.start s) (names s) with
    | .error _ => false
    | .ok p => match fs.node p with
      | some .dir => true
      | _ => false

/-- `fs` with something else at path `p`. -/
def set (fs : Fs) (p : List PyStr) (x : FsNode) : Fs := { fs with node := Function.update fs.node p (some x) }

/-- `os.mkdir(s)`. -/
def mkdir (fs : Fs) (s : PyStr) : Py Fs :=
  if s = [] then .error .fileNotFoundError
  else match (names s).getLast? with
    | none => .error .fileExistsError
    | some n => do
      let p ← fs.walk (fs.start s) (names s).dropLast
      fs.inDir p
      if n = ".".toList ∨ n = "..".toList then .error .fileExistsError
      else match fs.node (p ++ [n]) with
        | some _ => .error .fileExistsError
        | none => .ok (fs.set (p ++ [n]) .dir)

/-- `open(s, "wb")`: the path of the file, which is empty afterwards. -/
def openWb (fs : Fs) (s : PyStr) : Py (List PyStr × Fs) :=
  if s = [] then .error .fileNotFoundError
  else match (names s).getLast? with
    | none => .error .isADirectoryError
    | some n => do
      let p ← fs.walk (fs.start s) (names s).dropLast
      fs.inDir p
      if n = ".".toList ∨ n = "..".toList then .error .isADirectoryError
      else match fs.node (p ++ [n]) with
        | some .dir => .error .isADirectoryError
        | some (.file _) =>
          if s.getLast? = some '/' then .error .notADirectoryError else .ok (p ++ [n], fs.set (p ++ [n]) (.file []))
        | none =>
          if s.getLast? = some '/' then .error .isADirectoryError else .ok (p ++ [n], fs.set (p ++ [n]) (.file []))

/-- `open(s, "rb").read()`. -/
def read (fs : Fs) (s : PyStr) : Py (List UInt8) :=
  if s = [] then .error .fileNotFoundError
  else do
    let p ← fs.walk (fs.start s) (names s)
    match fs.node p with
    | none => .error .fileNotFoundError
    | some .dir => .error .isADirectoryError
    | some (.file d) => if s.getLast? = some '/' then .error .notADirectoryError else .ok d

end Fs

/-- `dill.dump(self, f)`: the bytes it writes, and the exception it ends with, if any. -/
structure Pickle where
  data : List UInt8
  err : Option PyErr

/-- `if os.path.isdir(direc) is False: os.mkdir(direc)` (base.py:1187-1188, 1205-1206); `os.path.isdir(None)` raises `TypeError`. -/
def ensureDir (direc : Option PyStr) (fs : Fs) : Py (PyStr × Fs) :=
  match direc with
  | none => .error .typeError
  | some d => if fs.isdir d then .ok (d, fs) else (fs.mkdir d).map (fun fs' => (d, fs'))

/-- `dill_dump(fname, direc)` (base.py:1176-1190): the outcome and the file system afterwards. -/
def dillDump (pk : Pickle) (fname : PyStr) (direc : Option PyStr) (fs : Fs) : Py Unit × Fs :=
  match ensureDir direc fs with
  | .error e => (.error e, fs)
  | .ok (d, fs1) =>
    match fs1.openWb (d ++ fname) with
    | .error e => (.error e, fs1)
    | .ok (p, fs2) =>
      (match pk.err with | none => .ok () | some e => .error e, fs2.set p (.file pk.data))

/-- File systems that a crash during `dill_dump` can leave behind: the one before, the one with the new directory, or one in which a part of
the data has been written (base.py:1187-1190; a file is written from its beginning). -/
def dillCrash (pk : Pickle) (fname : PyStr) (direc : Option PyStr) (fs : Fs) : Set Fs :=
  {fs' | fs' = fs ∨ ∃ d fs1, ensureDir direc fs = .ok (d, fs1) ∧ (fs' = fs1 ∨
    ∃ p fs2, fs1.openWb (d ++ fname) = .ok (p, fs2) ∧ ∃ k ≤ pk.data.length, fs' = fs2.set p (.file (pk.data.take k)))}

/-- What `save_numpy` hands to `np.savez` (base.py:1211-1225). -/
structure NpzData where
  yobs : Option (Arr Num)
  nx1 : ℕ
  nx2 : ℕ
  x1rng : ℝ × ℝ
  x2rng : ℝ × ℝ
  S : Arr ℝ
  w : List ℝ
  zEdges : Arr Num
  tEdges : Arr Num
  ybar : Arr Num
  vEdg : Arr Num
  f : Arr Num

/-- The file name used by `np.savez(file, ...)`: `.npz` is appended unless it is there. -/
def npzName (s : PyStr) : PyStr := if ".npz".toList <:+ s then s else s ++ ".npz".toList

/-- The arrays computed in `save_numpy` (base.py:1207-1224) for a mixture `m` of a cube with SSPs `s`. `u_edg` is not used. -/
def npzData (m : Mix) (s : SharedSsps) (yobs : Option (Arr Num)) : Py NpzData := do
  let p ← m.getP "tvxz".toList true true false
  let f ← moveaxis [0, 1, 2, 3, 4] [4, 2, 0, 1, 3] p
  match s.log with
  | none => .error .attributeError
  | some l => do
    let S ← reshapeInfer s.grid.parDims l.Xw
    match m.ybar with
    | none => .error .attributeError
    | some y =>
      .ok ⟨yobs, m.cube.nx, m.cube.ny, m.cube.x1rng, m.cube.x2rng, S, l.w, s.grid.zEdges, s.grid.tEdges, y, m.cube.vEdg, f⟩

/-- A mixture, or another component. `get_p` of other components has no argument `collapse_cmps` (base.py:33). -/
inductive AnyComponent
  | mixture (m : Mix)
  | other

/-- `save_numpy(fname, yobs, direc)` (base.py:1192-1225). `npz` are the bytes of an archive. -/
def saveNumpy (npz : NpzData → List UInt8) (c : AnyComponent) (s : SharedSsps) (fname : PyStr) (yobs : Option (Arr Num))
    (direc : Option PyStr) (fs : Fs) : Py Unit × Fs :=
  match ensureDir direc fs with
  | .error e => (.error e, fs)
  | .ok (d, fs1) =>
    match c with
    | .other => (.error .typeError, fs1)
    | .mixture m =>
      match npzData m s yobs with
      | .error e => (.error e, fs1)
      | .ok x =>
        match fs1.openWb (npzName (d ++ fname)) with
        | .error e => (.error e, fs1)
        | .ok (p, fs2) => (.ok (), fs2.set p (.file (npz x)))

end PKM
