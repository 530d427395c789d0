/-!
# The messages of errors: `src/file_error.rs`, `src/stdin_error.rs`, `src/stdout_error.rs`, `src/log.rs` and `src/general_error.rs`

A text is a list of characters; `none` is a panic.
-/

namespace Verif.Errors

/-- `std::io::ErrorKind`, as far as the `match`es of the code name its cases; `unlisted` stands for all other cases (the `_` of the
`match`es), the number says which. -/
inductive IoKind
  | notFound | permissionDenied | connectionRefused | connectionReset | connectionAborted | notConnected | addrInUse | addrNotAvailable
  | brokenPipe | alreadyExists | wouldBlock | invalidInput | invalidData | timedOut | writeZero | interrupted | other | unexpectedEof
  | unlisted (n : Nat)
  deriving DecidableEq, Repr

/-- `write!(f, "File \"{}\" …", self.path)`. -/
def filePath (path : List Char) (what : String) : List Char := "File \"".toList ++ path ++ what.toList

/-- `<FileError as Display>::fmt`, `src/file_error.rs` 24-48. -/
def fileError (kind : IoKind) (path : List Char) : Option (List Char) :=
  match kind with
  | .notFound => some (filePath path "\" not found")
  | .permissionDenied => some (filePath path "\" permission denied")
  | .connectionRefused => none
  | .connectionReset => none
  | .connectionAborted => none
  | .notConnected => none
  | .addrInUse => none
  | .addrNotAvailable => none
  | .brokenPipe => none
  | .alreadyExists => none
  | .wouldBlock => none
  | .invalidInput => none
  | .invalidData => none
  | .timedOut => some (filePath path "\" operation timed out")
  | .writeZero => some (filePath path "\" failed write")
  | .interrupted => some (filePath path "\" operation interrupted")
  | .other => some (filePath path "\" unknown error")
  | .unexpectedEof => some (filePath path "\" unexpected EOF")
  | .unlisted _ => some "Unknown error".toList

/-- `<StdinError as Display>::fmt`, `src/stdin_error.rs` 20-44. -/
def stdinError (kind : IoKind) : Option (List Char) :=
  match kind with
  | .timedOut => some "stdin operation timed out".toList
  | .interrupted => some "stdin operation interrupted".toList
  | .other => some "stdin unknown error".toList
  | .unexpectedEof => some "stdin unexpected EOF".toList
  | .unlisted _ => some "Unknown error".toList
  | .notFound => none
  | .permissionDenied => none
  | .connectionRefused => none
  | .connectionReset => none
  | .connectionAborted => none
  | .notConnected => none
  | .addrInUse => none
  | .addrNotAvailable => none
  | .brokenPipe => none
  | .alreadyExists => none
  | .wouldBlock => none
  | .invalidInput => none
  | .invalidData => none
  | .writeZero => none

/-- `<StdoutError as Display>::fmt`, `src/stdout_error.rs` 20-44. -/
def stdoutError (kind : IoKind) : Option (List Char) :=
  match kind with
  | .timedOut => some "stdout operation timed out".toList
  | .interrupted => some "stdout operation interrupted".toList
  | .other => some "stdout unknown error".toList
  | .unexpectedEof => some "stdout unexpected EOF".toList
  | .unlisted _ => some "Unknown error".toList
  | .notFound => none
  | .permissionDenied => none
  | .connectionRefused => none
  | .connectionReset => none
  | .connectionAborted => none
  | .notConnected => none
  | .addrInUse => none
  | .addrNotAvailable => none
  | .brokenPipe => none
  | .alreadyExists => none
  | .wouldBlock => none
  | .invalidInput => none
  | .invalidData => none
  | .writeZero => none

/-- `<LogError as Display>::fmt`, `src/log.rs` 39-46; there is one kind only. -/
def logError (path : List Char) : List Char := "failed to parse log file \"".toList ++ path ++ "\"".toList

/-- `general_error::ErrorKind`, lines 7-14. -/
inductive Kind
  | file (kind : IoKind) (path : List Char)
  | stdin (kind : IoKind)
  | stdout (kind : IoKind)
  | log (path : List Char)
  | messageOnly (msg : List Char)
  deriving DecidableEq, Repr

/-- `<Error as Display>::fmt`, `src/general_error.rs` 33-44: what is printed for an error. -/
def display : Kind → Option (List Char)
  | .file k p => (fileError k p).map ("File error : ".toList ++ ·)
  | .stdin k => (stdinError k).map ("Stdin error : ".toList ++ ·)
  | .stdout k => (stdoutError k).map ("Stdout error : ".toList ++ ·)
  | .log p => some ("Log error : ".toList ++ logError p)
  | .messageOnly m => some ("Error : ".toList ++ m)

end Verif.Errors
