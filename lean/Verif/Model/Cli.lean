import Verif.Model.Paths
import Verif.Model.Check
import Verif.Model.Repair
import Verif.Model.Update
import Verif.Model.Rescue
import Verif.Model.Calc
/-!
# Model of the command line: `src/bin/main.rs`, `src/cli_*.rs`

The library `clap` turns the arguments into a table of options (`ArgMatches`); the model starts from that table.  The functions `read…`
compute what the core of a command is called with, `run` is a whole command.

Simplified: messages are left out, and so is the order of the checks that all end a command with the same exit status before anything has
been done.
-/

namespace Verif.Cli
open PathSpec Command Scan Misc

/-- The arguments that take a value, by their names in the code. -/
inductive Val
  | inFile | out | outDir | logFile | uid | sbxVersion | rsData | rsParity | burst | hashType | fromPos | toInc | toExc
  | refFrom | refToInc | refToExc | guessBurstFrom | verbosity | blockType | fnm | snm | inFileSize
  deriving DecidableEq, Repr

/-- The flags. -/
inductive Flag
  | force | noMeta | json | infoOnly | multiPass | multiPassNoSkip | forceMisalign | verbose | reportBlank | hash | hashOnly
  | dryRun | skipWarning | showAll | guessBurst | noFnm | noSnm | noHsh
  deriving DecidableEq, Repr

/-- `ArgMatches` of clap: `value_of` and `is_present`. -/
structure Matches where
  value : Val → Option String
  flag : Flag → Bool

/-- How reading the options ends early: with `exit_with_msg!(usr ..)`, or by a panic (`unreachable!`, `unwrap`). -/
inductive Stop
  | usage | panic
  deriving DecidableEq, Repr

/-! ### Numbers -/

/-- The loop of `u64::from_str_radix(.., 10)` of the standard library: `checked_mul`, `to_digit` and `checked_add`. -/
def digits : Nat → List Char → Option Nat
  | acc, [] => some acc
  | acc, c :: cs =>
    if acc * 10 < 2 ^ 64 then
      if '0' ≤ c ∧ c ≤ '9' then
        let n := acc * 10 + (c.toNat - '0'.toNat)
        if n < 2 ^ 64 then digits n cs else none
      else none
    else none

/-- `u64::from_str` and `usize::from_str` of the standard library (64-bit machine). -/
def number : List Char → Option Nat
  | [] => none
  | ['+'] => none
  | ['-'] => none
  | '+' :: cs => digits 0 cs
  | cs => digits 0 cs

/-- `get_from_pos!`, `get_guess_burst_from_pos!`, `get_ref_from_pos!`, `get_burst_opt!`, `src/cli_macros.rs` 95-109, 133-147, 149-163,
396-413. -/
def optNumber (m : Matches) (v : Val) : Except Stop (Option Nat) :=
  match m.value v with
  | none => .ok none
  | some s =>
    match number s.toList with
    | some n => .ok (some n)
    | none => .error .usage

/-- `get_to_pos!` and `get_ref_to_pos!`, `src/cli_macros.rs` 111-131 and 165-188. -/
def optRangeEnd (m : Matches) (inc exc : Val) : Except Stop (Option RangeEnd) :=
  match m.value inc, m.value exc with
  | none, none => .ok none
  | some x, none =>
    match number x.toList with
    | some n => .ok (some (.inc n))
    | none => .error .usage
  | none, some x =>
    match number x.toList with
    | some n => .ok (some (.exc n))
    | none => .error .usage
  | some _, some _ => .error .panic

/-- `value_of(..).unwrap()` of an argument that clap requires. -/
def required (m : Matches) (v : Val) : Except Stop String :=
  match m.value v with
  | none => .error .panic
  | some s => .ok s

/-! ### Other options -/

/-- `get_pr_verbosity_level!`, `src/cli_macros.rs` 79-93, `string_to_verbosity_level`, `src/progress_report.rs` 351-358; only whether it is
accepted. -/
def checkVerbosity (m : Matches) : Except Stop Unit :=
  match m.value .verbosity with
  | none => .ok ()
  | some "0" => .ok ()
  | some "1" => .ok ()
  | some "2" => .ok ()
  | some _ => .error .usage

/-- The bytes of a string. -/
def utf8 (s : String) : List Byte := s.toUTF8.toList

/-- `get_uid!`, `src/cli_macros.rs` 447-459. -/
def optUid (m : Matches) : Except Stop (Option Uid) :=
  match m.value .uid with
  | none => .ok none
  | some s =>
    match parseUid (utf8 s) with
    | some u => .ok (some u)
    | none => .error .usage

/-- `get_data_or_parity_shards!`, `src/cli_macros.rs` 237-268. -/
def shardCount (m : Matches) (v : Val) : Except Stop Nat :=
  match m.value v with
  | none => .error .usage
  | some s =>
    match number s.toList with
    | some n => .ok n
    | none => .error .usage

/-- `get_burst_or_zero!`, `src/cli_macros.rs` 360-376. -/
def burstOrZero (m : Matches) : Except Stop Nat :=
  match m.value .burst with
  | none => .ok 0
  | some s =>
    match number s.toList with
    | some n => .ok n
    | none => .error .usage

/-- `get_ver_and_data_par_burst_w_defaults!`, `src/cli_macros.rs` 286-335, `src/encode_defaults.rs` 3-11. -/
def versionAndShards (m : Matches) : Except Stop (Version × Option Dpb) :=
  match m.value .sbxVersion with
  | none =>
    if (m.value .rsData).isSome then .error .usage
    else if (m.value .rsParity).isSome then .error .usage
    else if (m.value .burst).isSome then .error .usage
    else .ok (.v17, some ⟨10, 2, 12⟩)
  | some s =>
    match Version.ofString s with
    | none => .error .usage
    | some v =>
      if v.usesRs then do
        let data ← shardCount m .rsData
        let parity ← shardCount m .rsParity
        match checkShards data parity with
        | .error _ => .error .usage
        | .ok () => do
          let burst ← burstOrZero m
          return (v, some ⟨data, parity, burst⟩)
      else .ok (v, none)

/-- `--hash TYPE`, `src/cli_encode.rs` 124-130 and `src/cli_update.rs` 101-107. -/
def optHash (m : Matches) : Except Stop (Option HashType) :=
  match m.value .hashType with
  | none => .ok none
  | some s =>
    match HashType.ofStr s with
    | some t => .ok (some t)
    | none => .error .usage

/-- `get_multi_pass!`, `src/cli_macros.rs` 534-551. -/
def multiPass (m : Matches) : Except Stop (Option Decode.MultiPass) :=
  match m.flag .multiPass, m.flag .multiPassNoSkip with
  | false, false => .ok none
  | true, false => .ok (some .skipGood)
  | false, true => .ok (some .overwriteAll)
  | true, true => .error .panic

/-- `get_ref_block_choice!`, `src/cli_macros.rs` 461-474.  (`sort` has no option `--no-meta`; clap then says that it is not present.) -/
def refChoice (m : Matches) (hasNoMeta : Bool) : RefChoice :=
  if hasNoMeta && m.flag .noMeta then .any else .prefer .metadata

/-! ### What the cores are called with -/

/-- `encode`, `src/cli_encode.rs` 78-138; `random` is the uid of `fill_random_bytes`.  The name of the container is filled in later. -/
def readEncode (m : Matches) (random : Uid) : Except Stop (Encode.Param × Args) := do
  let uid ← optUid m
  let (version, dpb) ← versionAndShards m
  let inFile ← required m .inFile
  let hash ← optHash m
  checkVerbosity m
  let fromPos ← optNumber m .fromPos
  let toPos ← optRangeEnd m .toInc .toExc
  return ({ version, uid := uid.getD random, dpb, metaRequested := !m.flag .noMeta, hashType := hash.getD .sha256, fromPos, toPos, sbxName := "" },
    { inFile := inFile.toList, out := (m.value .out).map (·.toList), force := m.flag .force })

/-- The options of `decode`, `check` and `sort` that are about the place of blocks. -/
def readRef (m : Matches) (hasNoMeta : Bool) : Except Stop RefParam := do
  let burst ← optNumber m .burst
  let fromPos ← optNumber m .fromPos
  let toPos ← optRangeEnd m .toInc .toExc
  let refFrom ← optNumber m .refFrom
  let refTo ← optRangeEnd m .refToInc .refToExc
  let guessBurstFrom ← optNumber m .guessBurstFrom
  return { refChoice := refChoice m hasNoMeta, refFrom, refTo, guessBurstFrom, fromPos, toPos, forceMisalign := m.flag .forceMisalign, burst }

/-- `decode`, `src/cli_decode.rs` 93-129. -/
def readDecode (m : Matches) : Except Stop (Decode.Param × DecodeArgs) := do
  checkVerbosity m
  let ref ← readRef m true
  let inFile ← required m .inFile
  let mp ← multiPass m
  return ({ ref, multiPass := mp }, { inFile := inFile.toList, out := (m.value .out).map (·.toList), force := m.flag .force })

/-- `check`, `src/cli_check.rs` 62-105. -/
def readCheck (m : Matches) : Except Stop (Check.Param × List Char) := do
  checkVerbosity m
  let ref ← readRef m true
  let inFile ← required m .inFile
  return ({ ref, reportBlank := m.flag .reportBlank, verbose := m.flag .verbose,
            hashAction := if m.flag .hash then .hashAfterCheck else if m.flag .hashOnly then .hashOnly else .noHash }, inFile.toList)

/-- `sort`, `src/cli_sort.rs` 44-102. -/
def readSort (m : Matches) : Except Stop (Verif.Sort.Param × Args) := do
  let inFile ← required m .inFile
  let mp ← multiPass m
  checkVerbosity m
  let ref ← readRef m false
  return ({ ref, multiPass := mp, reportBlank := m.flag .reportBlank, toFile := !m.flag .dryRun },
    { inFile := inFile.toList, out := (m.value .out).map (·.toList), force := m.flag .force })

/-- `repair`, `src/cli_repair.rs` 38-81: burst level and name of the container. -/
def readRepair (m : Matches) : Except Stop (Option Nat × List Char) := do
  let inFile ← required m .inFile
  checkVerbosity m
  let burst ← optNumber m .burst
  return (burst, inFile.toList)

/-- `update`, `src/cli_update.rs` 90-180. -/
def readUpdate (m : Matches) : Except Stop (Update.Cli × List Char) := do
  let inFile ← required m .inFile
  checkVerbosity m
  let burst ← optNumber m .burst
  let hash ← optHash m
  return ({ fnm := m.value .fnm, snm := m.value .snm, hash, noFnm := m.flag .noFnm, noSnm := m.flag .noSnm, noHsh := m.flag .noHsh,
            dryRun := m.flag .dryRun, burst }, inFile.toList)

/-- `--only-pick-block TYPE`, `src/cli_rescue.rs` 59-67. -/
def optBlockType (m : Matches) : Except Stop (Option BlockType) :=
  match m.value .blockType with
  | none => .ok none
  | some "any" => .ok none
  | some "meta" => .ok (some .metadata)
  | some "data" => .ok (some .data)
  | some _ => .error .usage

/-- `rescue`, `src/cli_rescue.rs` 51-99: with the names of the image, of the output directory and of the log file. -/
def readRescue (m : Matches) : Except Stop (Rescue.Param × List Char × List Char × Option (List Char)) := do
  let onlyUid ← optUid m
  let onlyBlock ← optBlockType m
  let fromPos ← optNumber m .fromPos
  let toPos ← optRangeEnd m .toInc .toExc
  checkVerbosity m
  let inFile ← required m .inFile
  let outDir ← required m .outDir
  return ({ fromPos, toPos, forceMisalign := m.flag .forceMisalign, onlyBlock, onlyUid }, inFile.toList, outDir.toList,
    (m.value .logFile).map (·.toList))

/-- What `show_file` is called with, `struct Param`, `src/show_core.rs` 78-89. -/
structure ShowParam where
  showAll : Bool
  guessBurst : Bool
  guessBurstFrom : Option Nat
  forceMisalign : Bool
  fromPos : Option Nat
  toPos : Option RangeEnd
  uid : Option Uid

/-- `show`, `src/cli_show.rs` 28-55. -/
def readShow (m : Matches) : Except Stop (ShowParam × List Char) := do
  let inFile ← required m .inFile
  checkVerbosity m
  let fromPos ← optNumber m .fromPos
  let toPos ← optRangeEnd m .toInc .toExc
  let guessBurstFrom ← optNumber m .guessBurstFrom
  let uid ← optUid m
  return ({ showAll := m.flag .showAll, guessBurst := m.flag .guessBurst, guessBurstFrom, forceMisalign := m.flag .forceMisalign, fromPos, toPos, uid },
    inFile.toList)

/-- What `calc` computes with. -/
structure CalcParam where
  version : Version
  metaEnabled : Bool
  dpb : Option Dpb
  size : Nat

/-- `calc`, `src/cli_calc.rs` 31-46. -/
def readCalc (m : Matches) : Except Stop CalcParam := do
  let (version, dpb) ← versionAndShards m
  let s ← required m .inFileSize
  match number s.toList with
  | some size => return { version, metaEnabled := !m.flag .noMeta, dpb, size }
  | none => .error .usage

/-! ### Whole commands -/

/-- The exit status: `ok` is 0, `usage` is 1, `failed` is 2 or, after a panic, 101. -/
inductive Exit
  | ok | usage | failed
  deriving DecidableEq, Repr

def Stop.exit : Stop → Exit
  | .usage => .usage
  | .panic => .failed

/-- What a command is run with: the files, the uid drawn at random, what is waiting at standard input when a question is asked (`none`: reading
fails), the surroundings of the cores, and what `rescue` and `show` do (for `rescue` the files afterwards), which is not modelled here. -/
structure Shell where
  world : World
  random : Uid
  answer : Option (List Byte)
  enc : Encode.Env
  dec : Decode.Env
  chk : Check.Env
  srt : Verif.Sort.Env
  rep : Repair.Env
  upd : Update.Env
  rescued : Rescue.Param → List Char → List Char → Option (List Char) → Fs × Bool
  shown : ShowParam → File → Bool

inductive Cmd
  | calc | check | decode | encode | repair | rescue | show | sort | update
  deriving DecidableEq, Repr

/-- Errors of `get_in_file!` and of the checks of the output name, which are made before the core is called. -/
def early : Fail → Bool
  | .noInput | .noNamePart | .inputIsDir | .refused => true
  | _ => false

/-- `encode --info-only`, `src/cli_encode.rs` 140-262; asking for the metadata of an existing file does not fail (simplified). -/
def Shell.info (S : Shell) (p : Encode.Param) (a : Args) : Exit :=
  if a.inFile = dash then .usage
  else
    match S.world.input a.inFile with
    | .error _ => .usage
    | .ok (_, f) =>
      match S.world.outName a (extension p.version), Calc.calcNumbers p.version p.metaRequested p.dpb f.length with
      | .ok _, some _ => .ok
      | _, _ => .failed

/-- `encode`, `src/cli_encode.rs` 78-292. -/
def Shell.encode (S : Shell) (m : Matches) : Fs × Exit :=
  match readEncode m S.random with
  | .error e => (S.world.fs, e.exit)
  | .ok (p, a) =>
    if m.flag .infoOnly then (S.world.fs, S.info p a)
    else
      match S.world.encode S.enc p a with
      | (fs, .ok ()) => (fs, .ok)
      | (fs, .error .exists) => (fs, .usage)
      | (fs, .error e) => (fs, if early e then .usage else .failed)

/-- `decode`, `src/cli_decode.rs` 54-135.  (An existing output file is noticed by the core, `src/decode_core.rs` 1725-1735.) -/
def Shell.decode (S : Shell) (m : Matches) : Fs × Exit :=
  match readDecode m with
  | .error e => (S.world.fs, e.exit)
  | .ok (p, a) =>
    match S.world.decode S.dec p a with
    | (fs, .ok ()) => (fs, .ok)
    | (fs, .error e) => (fs, if early e then .usage else .failed)

/-- `check`, `src/cli_check.rs` 62-110. -/
def Shell.check (S : Shell) (m : Matches) : Fs × Exit :=
  (S.world.fs,
    match readCheck m with
    | .error e => e.exit
    | .ok (p, inFile) =>
      match S.world.input inFile with
      | .error _ => .usage
      | .ok (_, f) =>
        match Check.checkFile S.chk p f with
        | .ok _ => .ok
        | .error _ => .failed)

/-- `sort`, `src/cli_sort.rs` 44-108. -/
def Shell.sort (S : Shell) (m : Matches) : Fs × Exit :=
  match readSort m with
  | .error e => (S.world.fs, e.exit)
  | .ok (p, a) =>
    match S.world.sort S.srt p a (m.flag .dryRun) with
    | (fs, .ok ()) => (fs, .ok)
    | (fs, .error .exists) => (fs, .usage)
    | (fs, .error e) => (fs, if early e then .usage else .failed)

/-- `ask_if_wish_to_continue!`, `src/cli_macros.rs` 378-394: one byte is read into a buffer holding 0.  `none`: `unwrap` panics. -/
def askToContinue (answer : Option (List Byte)) : Option Bool :=
  answer.map fun bytes => bytes.headD 0 = 0x79

/-- Whether the question is asked, `src/cli_repair.rs` 54-57 and `src/cli_update.rs` 146-149. -/
def asks (m : Matches) : Bool := !m.flag .skipWarning && !m.flag .dryRun && !m.flag .json

/-- The question, then the rest of the command. -/
def Shell.afterAsking (S : Shell) (m : Matches) (rest : Fs × Exit) : Fs × Exit :=
  if asks m then
    match askToContinue S.answer with
    | none => (S.world.fs, .failed)
    | some false => (S.world.fs, .ok)
    | some true => rest
  else rest

/-- The call of the core of `repair`, `src/cli_repair.rs` 75-87.  The container is opened for writing unless this is a dry run (`src/repair_core.rs`
321-327); after an error in the middle it holds something. -/
def Shell.repairOn (S : Shell) (dry : Bool) (burst : Option Nat) (pl : Place) (f : File) : Fs × Exit :=
  match Repair.repairFile S.rep burst dry f with
  | .ok none => (S.world.fs, .ok)
  | .ok (some (d, _)) =>
    if dry then (S.world.fs, .ok) else if S.world.canOpen pl then (S.world.fs.set pl d.file, .ok) else (S.world.fs, .failed)
  | .error _ => if dry || !S.world.canOpen pl then (S.world.fs, .failed) else (S.world.fs.set pl S.world.left, .failed)

/-- `repair`, `src/cli_repair.rs` 38-88. -/
def Shell.repair (S : Shell) (m : Matches) : Fs × Exit :=
  match readRepair m with
  | .error e => (S.world.fs, e.exit)
  | .ok (burst, inFile) =>
    match S.world.input inFile with
    | .error _ => (S.world.fs, .usage)
    | .ok (pl, f) => S.afterAsking m (S.repairOn (m.flag .dryRun) burst pl f)

/-- The call of the core of `update`, `src/cli_update.rs` 170-187.  The container is opened for writing unless this is a dry run
(`src/update_core.rs` 287-293). -/
def Shell.updateOn (S : Shell) (c : Update.Cli) (pl : Place) (f : File) : Fs × Exit :=
  match Update.updateFile S.upd (c.param S.upd.hash) f with
  | (d, .ok _) => if c.dryRun then (S.world.fs, .ok) else if S.world.canOpen pl then (S.world.fs.set pl d.file, .ok) else (S.world.fs, .failed)
  | (d, .error _) => if c.dryRun || !S.world.canOpen pl then (S.world.fs, .failed) else (S.world.fs.set pl d.file, .failed)

/-- `update`, `src/cli_update.rs` 90-188. -/
def Shell.update (S : Shell) (m : Matches) : Fs × Exit :=
  match readUpdate m with
  | .error e => (S.world.fs, e.exit)
  | .ok (c, inFile) =>
    match S.world.input inFile with
    | .error _ => (S.world.fs, .usage)
    | .ok (pl, f) => S.afterAsking m (S.updateOn c pl f)

/-- `rescue`, `src/cli_rescue.rs` 51-104. -/
def Shell.rescue (S : Shell) (m : Matches) : Fs × Exit :=
  match readRescue m with
  | .error e => (S.world.fs, e.exit)
  | .ok (p, inFile, outDir, log) =>
    if !S.world.exists inFile then (S.world.fs, .usage)
    else if !S.world.exists outDir then (S.world.fs, .usage)
    else if !S.world.isDir outDir then (S.world.fs, .usage)
    else
      match S.rescued p inFile outDir log with
      | (fs, ok) => (fs, if ok then .ok else .failed)

/-- `show`, `src/cli_show.rs` 28-61. -/
def Shell.show (S : Shell) (m : Matches) : Fs × Exit :=
  (S.world.fs,
    match readShow m with
    | .error e => e.exit
    | .ok (p, inFile) =>
      match S.world.input inFile with
      | .error _ => .usage
      | .ok (_, f) => if S.shown p f then .ok else .failed)

/-- `calc`, `src/cli_calc.rs` 31-254. -/
def Shell.calc (S : Shell) (m : Matches) : Fs × Exit :=
  (S.world.fs,
    match readCalc m with
    | .error e => e.exit
    | .ok p => if (Calc.calcNumbers p.version p.metaEnabled p.dpb p.size).isSome then .ok else .failed)

/-- `real_main`, `src/bin/main.rs` 7-45: the files afterwards and the exit status. -/
def Shell.run (S : Shell) (m : Matches) : Cmd → Fs × Exit
  | .calc => S.calc m
  | .check => S.check m
  | .decode => S.decode m
  | .encode => S.encode m
  | .repair => S.repair m
  | .rescue => S.rescue m
  | .show => S.show m
  | .sort => S.sort m
  | .update => S.update m

end Verif.Cli
