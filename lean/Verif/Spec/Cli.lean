import Verif.Model.Cli
import Verif.Spec.Utils
/-!
# What the options of the command line mean
-/

namespace Verif.CliSpec
open Cli Misc

/-- The number that a row of decimal digits stands for: each digit times ten to the power of the number of digits behind it. -/
def value : List Char → Nat
  | [] => 0
  | c :: cs => (c.toNat - 48) * 10 ^ cs.length + value cs

/-- `s` writes `n` in decimal, perhaps with leading zeros or a plus sign; `n` has at most 64 bits. -/
def Numeral (s : String) (n : Nat) : Prop :=
  n < 2 ^ 64 ∧ ∃ ds, ds ≠ [] ∧ (s.toList = ds ∨ s.toList = '+' :: ds) ∧ (∀ c ∈ ds, '0' ≤ c ∧ c ≤ '9') ∧ value ds = n

/-- The option `v` gives the number `x`. -/
def Given (m : Matches) (v : Val) (x : Option Nat) : Prop :=
  (m.value v = none ∧ x = none) ∨ ∃ s n, m.value v = some s ∧ Numeral s n ∧ x = some n

/-- At most one of the options `inc` and `exc` is present, and gives the end `x`. -/
def GivenEnd (m : Matches) (inc exc : Val) (x : Option RangeEnd) : Prop :=
  (m.value inc = none ∧ m.value exc = none ∧ x = none) ∨
  (∃ s n, m.value inc = some s ∧ m.value exc = none ∧ Numeral s n ∧ x = some (.inc n)) ∨
  ∃ s n, m.value inc = none ∧ m.value exc = some s ∧ Numeral s n ∧ x = some (.exc n)

/-- The option for the uid gives `x`: 12 hexadecimal digits in upper or lower case. -/
def GivenUid (m : Matches) (x : Option Uid) : Prop :=
  (m.value .uid = none ∧ x = none) ∨
  ∃ s u, m.value .uid = some s ∧ UtilSpec.IsHex (utf8 s) ∧ (utf8 s).map UtilSpec.toLower = lowerHex u.bytes ∧ x = some u

/-- The version and the Reed-Solomon settings: all by default, or the version is stated, and with it, for the versions 17, 18 and 19, usable
numbers of shards, and perhaps the burst level. -/
def GivenSettings (m : Matches) (v : Version) (dpb : Option Dpb) : Prop :=
  (m.value .sbxVersion = none ∧ m.value .rsData = none ∧ m.value .rsParity = none ∧ m.value .burst = none ∧
    v = .v17 ∧ dpb = some ⟨10, 2, 12⟩) ∨
  (m.value .sbxVersion = some (toString v.num) ∧
    ((v.num ≤ 3 ∧ dpb = none) ∨
     ∃ d s t, 17 ≤ v.num ∧ dpb = some d ∧ m.value .rsData = some s ∧ Numeral s d.data ∧ m.value .rsParity = some t ∧ Numeral t d.parity ∧
       1 ≤ d.data ∧ 1 ≤ d.parity ∧ d.data + d.parity ≤ 256 ∧
       ((m.value .burst = none ∧ d.burst = 0) ∨ ∃ u, m.value .burst = some u ∧ Numeral u d.burst)))

/-- The names of the hash functions (in lower case) that are accepted. -/
def hashNames : HashType → List String
  | .sha1 => ["sha1"]
  | .sha256 => ["sha256", "sha2-256"]
  | .sha512 => ["sha512", "sha2-512-512"]
  | .blake2b_256 => ["blake2b-256"]
  | .blake2b_512 => ["blake2b-512"]
  | .blake2s_128 => ["blake2s-128"]
  | .blake2s_256 => ["blake2s-256"]
  | _ => []

def GivenHash (m : Matches) (x : Option HashType) : Prop :=
  (m.value .hashType = none ∧ x = none) ∨ ∃ s t, m.value .hashType = some s ∧ s.toLower ∈ hashNames t ∧ x = some t

/-- The level of progress reports is one of the three there are. -/
def VerbosityOk (m : Matches) : Prop := ∀ s, m.value .verbosity = some s → s = "0" ∨ s = "1" ∨ s = "2"

/-- What `--multi-pass` and `--multi-pass-no-skip` say. -/
def GivenPasses (m : Matches) (x : Option Decode.MultiPass) : Prop :=
  (x = none ∧ m.flag .multiPass = false ∧ m.flag .multiPassNoSkip = false) ∨
  (x = some .skipGood ∧ m.flag .multiPass = true ∧ m.flag .multiPassNoSkip = false) ∨
  (x = some .overwriteAll ∧ m.flag .multiPass = false ∧ m.flag .multiPassNoSkip = true)

/-- The options about places of blocks. -/
structure GivenRef (m : Matches) (r : Scan.RefParam) : Prop where
  fromPos : Given m .fromPos r.fromPos
  toPos : GivenEnd m .toInc .toExc r.toPos
  refFrom : Given m .refFrom r.refFrom
  refTo : GivenEnd m .refToInc .refToExc r.refTo
  guess : Given m .guessBurstFrom r.guessBurstFrom
  burst : Given m .burst r.burst
  misalign : r.forceMisalign = m.flag .forceMisalign

/-- Reference block: a metadata block if there is one, or with `--no-meta` any block. -/
def GivenChoice (m : Matches) (c : Scan.RefChoice) : Prop :=
  (m.flag .noMeta = true ∧ c = .any) ∨ (m.flag .noMeta = false ∧ c = .prefer .metadata)

/-- What clap guarantees: required arguments are there and conflicting ones are not. -/
structure Accepted (m : Matches) (c : Cmd) : Prop where
  inFile : c ≠ .calc → m.value .inFile ≠ none
  size : c = .calc → m.value .inFileSize ≠ none
  outDir : c = .rescue → m.value .outDir ≠ none
  ends : m.value .toInc = none ∨ m.value .toExc = none
  refEnds : m.value .refToInc = none ∨ m.value .refToExc = none
  passes : m.flag .multiPass = false ∨ m.flag .multiPassNoSkip = false

/-! ### What each command is asked to do -/

/-- The name `x` is the argument `v`. -/
def GivenName (m : Matches) (v : Val) (x : List Char) : Prop := ∃ s, m.value v = some s ∧ x = s.toList

/-- The name `x` is the argument `v`, which may be missing. -/
def GivenNameOpt (m : Matches) (v : Val) (x : Option (List Char)) : Prop :=
  (m.value v = none ∧ x = none) ∨ ∃ s, m.value v = some s ∧ x = some s.toList

/-- `encode`: `random` is used if no uid is stated, SHA-256 if no hash function is.  (`sbxName` is the name the output file gets later.) -/
structure GivenEncode (m : Matches) (random : Uid) (p : Encode.Param) (a : Command.Args) : Prop where
  verbosity : VerbosityOk m
  settings : GivenSettings m p.version p.dpb
  uid : ∃ u, GivenUid m u ∧ ((u = none ∧ p.uid = random) ∨ u = some p.uid)
  hash : ∃ t, GivenHash m t ∧ ((t = none ∧ p.hashType = .sha256) ∨ t = some p.hashType)
  noMeta : p.metaRequested = false ↔ m.flag .noMeta = true
  fromPos : Given m .fromPos p.fromPos
  toPos : GivenEnd m .toInc .toExc p.toPos
  name : p.sbxName = ""
  inFile : GivenName m .inFile a.inFile
  out : GivenNameOpt m .out a.out
  force : a.force = m.flag .force

structure GivenDecode (m : Matches) (p : Decode.Param) (a : Command.DecodeArgs) : Prop where
  verbosity : VerbosityOk m
  ref : GivenRef m p.ref
  choice : GivenChoice m p.ref.refChoice
  passes : GivenPasses m p.multiPass
  inFile : GivenName m .inFile a.inFile
  out : GivenNameOpt m .out a.out
  force : a.force = m.flag .force

structure GivenCheck (m : Matches) (p : Check.Param) (inFile : List Char) : Prop where
  verbosity : VerbosityOk m
  ref : GivenRef m p.ref
  choice : GivenChoice m p.ref.refChoice
  reportBlank : p.reportBlank = m.flag .reportBlank
  verbose : p.verbose = m.flag .verbose
  noHash : p.hashAction = .noHash ↔ m.flag .hash = false ∧ m.flag .hashOnly = false
  hash : p.hashAction = .hashAfterCheck ↔ m.flag .hash = true
  inFile : GivenName m .inFile inFile

structure GivenSort (m : Matches) (p : Verif.Sort.Param) (a : Command.Args) : Prop where
  verbosity : VerbosityOk m
  ref : GivenRef m p.ref
  choice : p.ref.refChoice = .prefer .metadata
  passes : GivenPasses m p.multiPass
  reportBlank : p.reportBlank = m.flag .reportBlank
  dryRun : p.toFile = false ↔ m.flag .dryRun = true
  inFile : GivenName m .inFile a.inFile
  out : GivenNameOpt m .out a.out
  force : a.force = m.flag .force

structure GivenRepair (m : Matches) (burst : Option Nat) (inFile : List Char) : Prop where
  verbosity : VerbosityOk m
  burst : Given m .burst burst
  inFile : GivenName m .inFile inFile

structure GivenUpdate (m : Matches) (c : Update.Cli) (inFile : List Char) : Prop where
  verbosity : VerbosityOk m
  burst : Given m .burst c.burst
  hash : GivenHash m c.hash
  fnm : c.fnm = m.value .fnm
  snm : c.snm = m.value .snm
  noFnm : c.noFnm = m.flag .noFnm
  noSnm : c.noSnm = m.flag .noSnm
  noHsh : c.noHsh = m.flag .noHsh
  dryRun : c.dryRun = m.flag .dryRun
  inFile : GivenName m .inFile inFile

structure GivenRescue (m : Matches) (p : Rescue.Param) (inFile outDir : List Char) (log : Option (List Char)) : Prop where
  verbosity : VerbosityOk m
  fromPos : Given m .fromPos p.fromPos
  toPos : GivenEnd m .toInc .toExc p.toPos
  misalign : p.forceMisalign = m.flag .forceMisalign
  uid : GivenUid m p.onlyUid
  block : (p.onlyBlock = none ∧ (m.value .blockType = none ∨ m.value .blockType = some "any")) ∨
    (p.onlyBlock = some .metadata ∧ m.value .blockType = some "meta") ∨ (p.onlyBlock = some .data ∧ m.value .blockType = some "data")
  inFile : GivenName m .inFile inFile
  outDir : GivenName m .outDir outDir
  log : GivenNameOpt m .logFile log

structure GivenShow (m : Matches) (p : ShowParam) (inFile : List Char) : Prop where
  verbosity : VerbosityOk m
  fromPos : Given m .fromPos p.fromPos
  toPos : GivenEnd m .toInc .toExc p.toPos
  guess : Given m .guessBurstFrom p.guessBurstFrom
  misalign : p.forceMisalign = m.flag .forceMisalign
  uid : GivenUid m p.uid
  all : p.showAll = m.flag .showAll
  guessBurst : p.guessBurst = m.flag .guessBurst
  inFile : GivenName m .inFile inFile

structure GivenCalc (m : Matches) (p : CalcParam) : Prop where
  settings : GivenSettings m p.version p.dpb
  noMeta : p.metaEnabled = false ↔ m.flag .noMeta = true
  size : ∃ s, m.value .inFileSize = some s ∧ Numeral s p.size

/-- The options of the command can be understood. -/
def OptionsOk (m : Matches) : Cmd → Prop
  | .calc => ∃ p, GivenCalc m p
  | .check => ∃ p i, GivenCheck m p i
  | .decode => ∃ p a, GivenDecode m p a
  | .encode => ∃ r p a, GivenEncode m r p a
  | .repair => ∃ b i, GivenRepair m b i
  | .rescue => ∃ p i o l, GivenRescue m p i o l
  | .show => ∃ p i, GivenShow m p i
  | .sort => ∃ p a, GivenSort m p a
  | .update => ∃ c i, GivenUpdate m c i

end Verif.CliSpec
