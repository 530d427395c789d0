import Verif.Model.File
/-!
# Paths and files as an operating system sees them

Paths are those of Unix.  There are no links: every file and directory has one place, the list of names leading to it from the root.
-/

namespace Verif.PathSpec

inductive Node
  | dir
  | file (c : File)

abbrev Name := List Char
abbrev Place := List Name
abbrev Fs := Place → Option Node

/-- The parts of a path between the slashes. -/
def parts : List Char → List Name
  | [] => [[]]
  | c :: cs =>
    match parts cs with
    | [] => [[]]
    | s :: ss => if c = '/' then [] :: s :: ss else (c :: s) :: ss

/-- A name that can be the name of a file in a directory. -/
def IsName (n : Name) : Prop := n ≠ [] ∧ n ≠ ['.'] ∧ n ≠ ['.', '.'] ∧ '/' ∉ n ∧ Char.ofNat 0 ∉ n

/-- From a place through one part of a path; every part is looked up in a directory. -/
def stepTo (fs : Fs) (cur : Option Place) (s : Name) : Option Place :=
  match cur with
  | none => none
  | some pl =>
    match fs pl with
    | some .dir =>
      if s = [] ∨ s = ['.'] then some pl
      else if s = ['.', '.'] then some pl.dropLast
      else some (pl ++ [s])
    | _ => none

/-- Where a path leads, from the working directory `cwd`; there need not be anything. -/
def leads (fs : Fs) (cwd : Place) (path : List Char) : Option Place :=
  if path = [] ∨ Char.ofNat 0 ∈ path then none
  else (parts path).foldl (stepTo fs) (some (if path.head? = some '/' then [] else cwd))

/-- What the path leads to. -/
def at? (fs : Fs) (cwd : Place) (path : List Char) : Option Node := (leads fs cwd path).bind fs

/-- The root is a directory, and whatever exists is in a directory. -/
structure Fs.Ok (fs : Fs) : Prop where
  root : fs [] = some .dir
  up : ∀ pl n, fs (pl ++ [n]) ≠ none → fs pl = some .dir

def Fs.set (fs : Fs) (q : Place) (c : File) : Fs := fun x => if x = q then some (.file c) else fs x

/-- The same place with `ext` added to the name. -/
def Beside (ext : Name) (pl q : Place) : Prop := ∃ d n, pl = d ++ [n] ∧ q = d ++ [n ++ ext]

end Verif.PathSpec

namespace Verif.PathSpec

/-- Where `decode -o out` may write: into the directory `out` (without `-o`: into the working directory), under some name, or, if `out` is
not a directory, to `out`. -/
def DecodePlace (fs : Fs) (cwd : Place) (out : Option (List Char)) (q : Place) : Prop :=
  match out with
  | none => ∃ n, IsName n ∧ q = cwd ++ [n]
  | some o => o ≠ ['-'] ∧ ∃ d, leads fs cwd o = some d ∧
      ((fs d = some .dir ∧ ∃ n, IsName n ∧ q = d ++ [n]) ∨ (fs d ≠ some .dir ∧ q = d))

/-- Where `encode -o out` and `sort -o out` may write: beside the input (without `-o`) or into the directory `out`, under the name of the
input with `ext` added, or, if `out` is not a directory, to `out`. -/
def OutPlace (fs : Fs) (cwd : Place) (ext : Name) (inFile : List Char) (out : Option (List Char)) (q : Place) : Prop :=
  match out with
  | none => ∃ pl, leads fs cwd inFile = some pl ∧ Beside ext pl q
  | some o => ∃ d, leads fs cwd o = some d ∧
      ((fs d = some .dir ∧ ∃ e n, leads fs cwd inFile = some (e ++ [n]) ∧ q = d ++ [n ++ ext]) ∨ (fs d ≠ some .dir ∧ q = d))

end Verif.PathSpec
