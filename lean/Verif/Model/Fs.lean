import Verif.Model.Text

/-!
# File system and programs that use it

A path is the list of its components, the last one first, starting from a fixed root.  Two
different lists are two different places: no links, no `.` or `..` components.  A file holds a
value of a type `C` of contents.  Nothing deletes anything: pyoof never does.

A program is a tree of file system operations.  One operation is atomic; a program can be stopped
between any two of them, and several programs can be interleaved at this granularity.
-/

namespace Verif

/-- A resolved path, last component first. -/
abbrev Path := List Str

/-- `os.path.join(d, f)` for a component `f`. -/
abbrev Path.join (d : Path) (f : Str) : Path := f :: d

/-- What can be at a path. -/
inductive Node (C : Type)
  | dir
  | file (c : C)

/-- The contents of a file system. -/
abbrev FS (C : Type) := Path → Option (Node C)

namespace Fs

variable {C α β : Type}

/-- Is there a directory at `p`? The root always is one. -/
def isDir (fs : FS C) : Path → Bool
  | [] => true
  | p => match fs p with
    | some .dir => true
    | _ => false

/-- Is there a regular file at `p`? -/
def isFile (fs : FS C) (p : Path) : Bool := match fs p with
  | some (.file _) => true
  | _ => false

/-- `os.path.exists` -/
def present (fs : FS C) : Path → Bool
  | [] => true
  | p => (fs p).isSome

/-- The file system `fs` with `n` at `p`. -/
def update (fs : FS C) (p : Path) (n : Node C) : FS C := fun q => if q = p then some n else fs q

/-- File system operations: `os.path.exists`, `os.path.isdir`, `os.mkdir`, opening a file for
writing and storing `c` in it, reading a file. -/
inductive Op (C : Type)
  | present (p : Path)
  | isDir (p : Path)
  | mkdir (p : Path)
  | put (p : Path) (c : C)
  | read (p : Path)

/-- The answer: yes or success, no or failure (an `OSError`), the contents of the file read. -/
inductive Resp (C : Type)
  | yes
  | no
  | data (c : C)

/-- One operation. `mkdir` fails if there is something at `p` or if the parent is not a directory;
`put` fails if `p` is a directory or the parent is not; `read` fails unless `p` is a file. -/
def exec (fs : FS C) : Op C → Resp C × FS C
  | .present p => (if present fs p then .yes else .no, fs)
  | .isDir p => (if isDir fs p then .yes else .no, fs)
  | .mkdir p =>
    if !present fs p && isDir fs p.tail then (.yes, update fs p .dir) else (.no, fs)
  | .put p c =>
    if !isDir fs p && isDir fs p.tail then (.yes, update fs p (.file c)) else (.no, fs)
  | .read p => match fs p with
    | some (.file c) => (.data c, fs)
    | _ => (.no, fs)

/-- A program. -/
inductive Prog (C α : Type)
  | ret (a : α)
  | raise (e : PyErr)
  | op (o : Op C) (k : Resp C → Prog C α)

namespace Prog

/-- Sequential composition; an exception ends the program. -/
def bind (p : Prog C α) (f : α → Prog C β) : Prog C β :=
  match p with
  | ret a => f a
  | raise e => raise e
  | op o k => op o fun r => (k r).bind f

instance : Monad (Prog C) where
  pure := ret
  bind := bind

/-- A computation without file system access. -/
def lift (x : Py α) : Prog C α :=
  match x with
  | .ok a => ret a
  | .error e => raise e

/-- Running a program alone: its result and the file system afterwards. -/
def run : Prog C α → FS C → Py α × FS C
  | ret a, fs => (.ok a, fs)
  | raise e, fs => (.error e, fs)
  | op o k, fs => run (k (exec fs o).1) (exec fs o).2

/-- All file systems that occur in a run alone: those that can be left behind by a program that is
stopped at some point. -/
def trace : Prog C α → FS C → List (FS C)
  | ret _, fs => [fs]
  | raise _, fs => [fs]
  | op o k, fs => fs :: trace (k (exec fs o).1) (exec fs o).2

end Prog

/-! ## Library functions -/

/-- `os.path.exists(p)` -/
def existsP (p : Path) : Prog C Bool := .op (.present p) fun
  | .yes => .ret true
  | _ => .ret false

/-- `os.path.isdir(p)` -/
def isdirP (p : Path) : Prog C Bool := .op (.isDir p) fun
  | .yes => .ret true
  | _ => .ret false

/-- `os.mkdir(p)`; `false` stands for a raised `OSError`. -/
def mkdirP (p : Path) : Prog C Bool := .op (.mkdir p) fun
  | .yes => .ret true
  | _ => .ret false

/-- `os.makedirs` as in CPython's `os.py`: the missing parents first, then the directory.  The
result `false` stands for a raised `OSError`.  CPython ignores only a `FileExistsError` from the
parents; after any other failure there the `mkdir` below fails as well. -/
def makedirsB : Path → Bool → Prog C Bool
  | [], existOk => .ret existOk
  | f :: d, existOk => do
    let e ← existsP d
    if !e then
      let _ ← makedirsB d existOk
    let ok ← mkdirP (f :: d)
    if ok then return true
    else if !existOk then return false
    else isdirP (f :: d)

/-- `os.makedirs(p, exist_ok)` -/
def makedirs (p : Path) (existOk : Bool) : Prog C Unit := do
  let ok ← makedirsB p existOk
  if ok then return ()
  else .raise .osError

/-- `open(p, 'w')`, then write `c` and close. `part` is what is in the file in between. -/
def writeFile (part : C) (p : Path) (c : C) : Prog C Unit :=
  .op (.put p part) fun
  | .yes => .op (.put p c) fun
    | .yes => .ret ()
    | _ => .raise .osError
  | _ => .raise .osError

/-- Reading a file. -/
def readFile (p : Path) : Prog C C := .op (.read p) fun
  | .data c => .ret c
  | _ => .raise .fileNotFoundError

/-! ## Interleaving -/

/-- Several running programs over one file system. -/
structure Sys (C α : Type) (ι : Type) where
  proc : ι → Prog C α
  fs : FS C

/-- One process performs its next operation. -/
inductive Sys.Step {ι : Type} [DecidableEq ι] : Sys C α ι → Sys C α ι → Prop
  | mk (s : Sys C α ι) (i : ι) (o : Op C) (k : Resp C → Prog C α) (h : s.proc i = .op o k) :
      Sys.Step s ⟨Function.update s.proc i (k (exec s.fs o).1), (exec s.fs o).2⟩

end Fs

end Verif
