import Verif.Model.Encode
import Verif.Model.Decode
import Verif.Model.Sort
import Verif.Spec.Paths
/-!
# Which file a command writes to

`encode`, `decode` and `sort` as commands on a file system (`Verif/Spec/Paths.lean`): the computation of the name of the output file, the
checks for existing files, and then the models of the commands.  Texts of arguments are lists of characters.
-/

namespace Verif.Command
open PathSpec

/-- `Path::file_name` of the standard library (Unix): the last component; empty parts and `.` are no components (except that a leading
`.` is one, which is no file name either). -/
def lastComponent (path : List Char) : Option Name := (parts path).reverse.find? fun s => s ≠ [] ∧ s ≠ ['.']

/-- `get_file_name_part_of_path`, `src/file_utils.rs` 230-236. -/
def fileName (path : List Char) : Option Name :=
  match lastComponent path with
  | none => none
  | some s => if s = ['.', '.'] then none else some s

/-- `PathBuf::push` of the standard library (Unix). -/
def push (buf part : List Char) : List Char :=
  if part.head? = some '/' then part
  else if buf = [] ∨ buf.getLast? = some '/' then buf ++ part
  else buf ++ '/' :: part

/-- `make_path`, `src/misc_utils.rs` 176-184. -/
def makePath (ps : List (List Char)) : List Char := ps.foldl push []

/-- The world in which a command runs.  `canOpen`: can the file at this place be opened, or created, for writing (permissions, length of
names)?  `left`: what an output file holds after an error or panic in the middle; `self`: after `decode --multi-pass` or `sort`
from a file to itself, where reads and writes mix.  Both arbitrary. -/
structure World where
  fs : Fs
  cwd : Place
  canOpen : Place → Bool
  stdin : List Byte
  mtime : Option Int64
  left : File
  self : File

inductive Fail
  | noInput | noNamePart | inputIsDir | noName | refused | exists | open | scan (e : Scan.Err) | encode (e : Encode.Err) | panic

/-- `check_if_file_exists`, `src/file_utils.rs` 32-34. -/
def World.exists (w : World) (path : List Char) : Bool := (at? w.fs w.cwd path).isSome

/-- `check_if_file_is_dir`, `src/file_utils.rs` 40-42. -/
def World.isDir (w : World) (path : List Char) : Bool := match at? w.fs w.cwd path with | some .dir => true | _ => false

/-- `get_in_file!`, `src/cli_macros.rs` 195-215: the place and the contents. -/
def World.input (w : World) (path : List Char) : Except Fail (Place × File) :=
  match leads w.fs w.cwd path with
  | none => .error .noInput
  | some pl =>
    match w.fs pl with
    | none => .error .noInput
    | some node =>
      match fileName path with
      | none => .error .noNamePart
      | some _ =>
        match node with
        | .dir => .error .inputIsDir
        | .file c => .ok (pl, c)

/-- `FileWriter::new`, `src/file_writer.rs` 99-123, with `create(true)`: the place and the contents before (`[]` for a new file); `none`:
an error. -/
def World.open (w : World) (path : List Char) : Option (Place × File) :=
  match leads w.fs w.cwd path with
  | none => none
  | some pl =>
    if w.canOpen pl then
      match w.fs pl with
      | none => some (pl, [])
      | some (.file c) => some (pl, c)
      | some .dir => none
    else none

/-- The name of standard input and standard output, `src/file_utils.rs` 44-50. -/
def dash : List Char := ['-']

/-! ### `decode` -/

structure DecodeArgs where
  inFile : List Char
  out : Option (List Char)
  force : Bool

/-- `get_FNM`, `src/sbx_block/mod.rs` 44-56 and 674; `none` also for data blocks. -/
def refFnm (ref : Block) : Option Name :=
  match ref.data with
  | .metadata ms => match getMeta ms .fnm with | some (.fnm s) => some s.toList | _ => none
  | .data => none

/-- `recorded_file_name`, `src/decode_core.rs` 1683-1698. -/
def recordedName (ref : Block) : Except Fail (Option Name) :=
  match refFnm ref with
  | none => .ok none
  | some x =>
    match fileName x with
    | none => .error .noName
    | some s => .ok (some s)

/-- `out_file_path`, `src/decode_core.rs` 1700-1723; `none` is standard output. -/
def World.decodeOut (w : World) (out : Option (List Char)) (recorded : Option Name) : Except Fail (Option (List Char)) :=
  match out with
  | none =>
    match recorded with
    | none => .error .noName
    | some x => .ok (some x)
  | some o =>
    if o = dash then .ok none
    else if w.isDir o then
      match recorded with
      | none => .error .noName
      | some x => .ok (some (makePath [o, x]))
    else .ok (some o)

/-- `decode` (`Decode.decodeFile`) if the output file is the input file: it has been truncated when it is read, while the size of the
input was taken before, `src/decode_core.rs` 731 and 752-771. -/
def decodeSelf (E : Decode.Env) (p : Decode.Param) (ref : Block) (f : File) : Option File :=
  match Scan.dataParBurst p.ref true f ref with
  | .error _ => none
  | .ok dpb =>
    let r := Decode.rangeOf p.ref ref f
    match BlockRing.run2 (Encode.buffersInRotation + 1) (Decode.fileAct E.stop [] r.seekTo r.requiredLen ref dpb) (f.length + 3)
        BlockRing.fileWriter ⟨0, 0, Decode.Stats.zero⟩ ⟨Decode.openOut p.multiPass f, []⟩
        (Buffer.newMulti (Decode.cfg ref dpb false) E.lotCount Encode.buffersInRotation) with
    | none => none
    | some (_, d) => some (Decode.truncated ref d.file)

/-- What the output file holds after decoding; the second component tells whether success is reported. -/
def World.decoded (w : World) (E : Decode.Env) (p : Decode.Param) (ref : Block) (same : Bool) (f old : File) : File × Bool :=
  if same then
    if p.multiPass = none then
      match decodeSelf E p ref f with
      | none => (w.left, false)
      | some o => (o, true)
    else (w.self, true)
  else
    match Decode.toFile E p f old with
    | .ok (o, _) => (o, true)
    | .error _ => (w.left, false)

/-- `decode`, `src/cli_decode.rs` 97-135 and `decode_file`, `src/decode_core.rs` 1676-1776.  The file system afterwards, and an error or
nothing. -/
def World.decode (w : World) (E : Decode.Env) (p : Decode.Param) (a : DecodeArgs) : Fs × Except Fail Unit :=
  match w.input a.inFile with
  | .error e => (w.fs, .error e)
  | .ok (pl, f) =>
    match Scan.getRefBlockM p.ref p.ref.refChoice f E.stopRef (E.stop 0) with
    | .error e => (w.fs, .error (.scan e))
    | .ok (_, ref) =>
      match recordedName ref with
      | .error e => (w.fs, .error e)
      | .ok recorded =>
        match w.decodeOut a.out recorded with
        | .error e => (w.fs, .error e)
        | .ok none =>
          match Decode.toStdout E p f with
          | .ok _ => (w.fs, .ok ())
          | .error e => (w.fs, .error (.scan e))
        | .ok (some out) =>
          if !a.force && p.multiPass.isNone && w.exists out then (w.fs, .error .exists)
          else
            match Scan.dataParBurst p.ref true f ref with
            | .error e => (w.fs, .error (.scan e))
            | .ok _ =>
              match w.open out with
              | none => (w.fs, .error .open)
              | some (q, old) =>
                match w.decoded E p ref (decide (q = pl)) f old with
                | (o, ok) => (w.fs.set q o, if ok then .ok () else .error .panic)

/-! ### `encode` and `sort` -/

structure Args where
  inFile : List Char
  out : Option (List Char)
  force : Bool

/-- The name of the output file of `encode`, `src/cli_encode.rs` 102-122, and of `sort`, `src/cli_sort.rs` 51-61: `ext` is added to the
name of the input file.  (`unwrap` of a missing file name part: `panic`; the input file has been checked.) -/
def World.outName (w : World) (a : Args) (ext : Name) : Except Fail (List Char) :=
  match a.out with
  | none => .ok (a.inFile ++ ext)
  | some o =>
    if w.isDir o then
      match fileName a.inFile with
      | none => .error .panic
      | some n => .ok (makePath [o, n ++ ext])
    else .ok o

/-- `out_extension`, `src/cli_encode.rs` 98, with the dot of line 107 and 117. -/
def extension (v : Version) : Name := if v.usesRs then ".ecsbx".toList else ".sbx".toList

/-- What the container holds after encoding; the second component tells whether success is reported.  `same`: the input file has just been
truncated (`src/encode_core.rs` 481-510). -/
def World.encoded (w : World) (E : Encode.Env) (p : Encode.Param) (file : Option Name) (same : Bool) (f : List Byte) (out : List Char) :
    File × Bool :=
  match fileName out with
  | none => ([], false)
  | some n =>
    match Encode.encodeFile E { p with sbxName := String.ofList n } ⟨if same then [] else f, file.map fun n => (String.ofList n, w.mtime)⟩ with
    | (d, .ok _) => (d.file, true)
    | (d, .error _) => (d.file, false)

/-- From the name of the output file on, `src/cli_encode.rs` 263-291 and `src/encode_core.rs` 477-814. -/
def World.encodeTo (w : World) (E : Encode.Env) (p : Encode.Param) (force : Bool) (input : Option Place) (file : Option Name) (f : List Byte)
    (out : List Char) : Fs × Except Fail Unit :=
  if w.exists out && !force then (w.fs, .error .exists)
  else
    match w.open out with
    | none => (w.fs, .error .open)
    | some (q, _) =>
      match w.encoded E p file (decide (input = some q)) f out with
      | (o, ok) => (w.fs.set q o, if ok then .ok () else .error .panic)

/-- `encode`, `src/cli_encode.rs` 96-122 and 263-291 (without `--info-only`). -/
def World.encode (w : World) (E : Encode.Env) (p : Encode.Param) (a : Args) : Fs × Except Fail Unit :=
  if a.inFile = dash then
    match a.out with
    | none => (w.fs, .error .refused)
    | some o => if w.isDir o then (w.fs, .error .refused) else w.encodeTo E p a.force none none w.stdin o
  else
    match w.input a.inFile with
    | .error e => (w.fs, .error e)
    | .ok (pl, f) =>
      match w.outName a (extension p.version) with
      | .error e => (w.fs, .error e)
      | .ok out => w.encodeTo E p a.force (some pl) (fileName a.inFile) f out

/-- What the output file of `sort` holds. -/
def World.sorted (w : World) (E : Verif.Sort.Env) (p : Verif.Sort.Param) (same : Bool) (f old : File) : File × Bool :=
  if same then (w.self, true)
  else
    match Verif.Sort.sortFile E p f old with
    | .ok (some d, _) => (d.file, true)
    | .ok (none, _) => (old, true)
    | .error _ => (w.left, false)

/-- `sort`, `src/cli_sort.rs` 44-108 and `sort_file`, `src/sort_core.rs` 371-402. -/
def World.sort (w : World) (E : Verif.Sort.Env) (p : Verif.Sort.Param) (a : Args) (dryRun : Bool) : Fs × Except Fail Unit :=
  match w.input a.inFile with
  | .error e => (w.fs, .error e)
  | .ok (pl, f) =>
    match w.outName a ".sorted".toList with
    | .error e => (w.fs, .error e)
    | .ok out =>
      if w.exists out && !(a.force || p.multiPass.isSome || dryRun) then (w.fs, .error .exists)
      else
        match Scan.getRefBlockM p.ref p.ref.refChoice f E.stopRef (E.stop 0) with
        | .error e => (w.fs, .error (.scan e))
        | .ok (_, ref) =>
          match Scan.dataParBurst p.ref true f ref with
          | .error e => (w.fs, .error (.scan e))
          | .ok _ =>
            if dryRun then (w.fs, .ok ())
            else
              match w.open out with
              | none => (w.fs, .error .open)
              | some (q, old) =>
                match w.sorted E { p with toFile := true } (decide (q = pl)) f old with
                | (o, ok) => (w.fs.set q o, if ok then .ok () else .error .panic)

end Verif.Command
