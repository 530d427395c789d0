import Verif.Model.Errors
import Mathlib.Data.List.Infix
/-!
# C63: the message of an error says what failed
-/

namespace Verif.Errors

/-- The kinds for which the code has words, for a file. -/
def ForFiles (k : IoKind) : Prop :=
  k = .notFound ∨ k = .permissionDenied ∨ k = .timedOut ∨ k = .writeZero ∨ k = .interrupted ∨ k = .other ∨ k = .unexpectedEof

/-- The kinds for which the code has words, for standard input and output. -/
def ForStreams (k : IoKind) : Prop := k = .timedOut ∨ k = .interrupted ∨ k = .other ∨ k = .unexpectedEof

/-- Errors for which the code has words. -/
def Worded : Kind → Prop
  | .file k _ => ForFiles k
  | .stdin k => ForStreams k
  | .stdout k => ForStreams k
  | .log _ => True
  | .messageOnly _ => True

/-- The kinds that `std` has names for in its later versions (`StorageFull`, `IsADirectory`, …), or that have none. -/
def IsUnlisted (k : IoKind) : Prop := ∃ n, k = .unlisted n

/-- **C63.** A message is printed exactly for the errors that the code has words for and for those of unlisted kinds; all others end the
program with a panic. -/
theorem C63_printed (e : Kind) :
    (∃ m, display e = some m) ↔
      Worded e ∨ (∃ n p, e = .file (.unlisted n) p) ∨ (∃ n, e = .stdin (.unlisted n)) ∨ (∃ n, e = .stdout (.unlisted n)) := by
  cases e with
  | file k p => cases k <;> simp [display, fileError, Worded, ForFiles]
  | stdin k => cases k <;> simp [display, stdinError, Worded, ForStreams]
  | stdout k => cases k <;> simp [display, stdoutError, Worded, ForStreams]
  | log p => simp [display, Worded]
  | messageOnly m => simp [display, Worded]

theorem infix_of {a b c d e p : List Char} (h1 : b = c ++ ['"']) (h2 : d = '"' :: e) : '"' :: p ++ ['"'] <:+: a ++ (b ++ p ++ d) :=
  ⟨a ++ c, e, by rw [h1, h2]; simp only [List.append_assoc, List.cons_append, List.nil_append]⟩

theorem quoted (p : List Char) (what rest : String) (h : what.toList = '"' :: rest.toList) :
    '"' :: p ++ ['"'] <:+: "File error : ".toList ++ filePath p what :=
  infix_of (c := "File ".toList) (by decide) h

/-- **C63.** The message of an error with a file, and that of an unreadable log file, contains the path, in quotes. -/
theorem C63_path (k : IoKind) (hk : ForFiles k) (p : List Char) :
    (∃ m, display (.file k p) = some m ∧ '"' :: p ++ ['"'] <:+: m) ∧ (∃ m, display (.log p) = some m ∧ '"' :: p ++ ['"'] <:+: m) := by
  constructor
  · rcases hk with rfl | rfl | rfl | rfl | rfl | rfl | rfl
    · exact ⟨_, rfl, quoted p _ " not found" (by decide)⟩
    · exact ⟨_, rfl, quoted p _ " permission denied" (by decide)⟩
    · exact ⟨_, rfl, quoted p _ " operation timed out" (by decide)⟩
    · exact ⟨_, rfl, quoted p _ " failed write" (by decide)⟩
    · exact ⟨_, rfl, quoted p _ " operation interrupted" (by decide)⟩
    · exact ⟨_, rfl, quoted p _ " unknown error" (by decide)⟩
    · exact ⟨_, rfl, quoted p _ " unexpected EOF" (by decide)⟩
  · exact ⟨_, rfl, infix_of (c := "failed to parse log file ".toList) (e := []) (by decide) (by decide)⟩

/-- The words for a kind of error of a file. -/
def ending : IoKind → List Char
  | .notFound => "\" not found".toList
  | .permissionDenied => "\" permission denied".toList
  | .timedOut => "\" operation timed out".toList
  | .writeZero => "\" failed write".toList
  | .interrupted => "\" operation interrupted".toList
  | .other => "\" unknown error".toList
  | .unexpectedEof => "\" unexpected EOF".toList
  | _ => []

theorem fileError_eq {k : IoKind} (hk : ForFiles k) (p : List Char) : fileError k p = some ("File \"".toList ++ (p ++ ending k)) := by
  rcases hk with rfl | rfl | rfl | rfl | rfl | rfl | rfl <;> exact congrArg some (List.append_assoc _ _ _)

theorem ending_suffix {k k' : IoKind} (hk : ForFiles k) (hk' : ForFiles k') (h : ending k <:+ ending k') : k = k' := by
  rcases hk with rfl | rfl | rfl | rfl | rfl | rfl | rfl <;> rcases hk' with rfl | rfl | rfl | rfl | rfl | rfl | rfl <;>
    first | rfl | (exact absurd h (by decide))

theorem fileError_inj {k k' : IoKind} (hk : ForFiles k) (hk' : ForFiles k') {p p' : List Char} (h : p ++ ending k = p' ++ ending k') :
    k = k' ∧ p = p' := by
  have h1 : ending k <:+ p' ++ ending k' := h ▸ List.suffix_append p _
  have h2 : ending k' <:+ p' ++ ending k' := List.suffix_append p' _
  have hkk : k = k' := by
    rcases List.suffix_or_suffix_of_suffix h1 h2 with h | h
    · exact ending_suffix hk hk' h
    · exact (ending_suffix hk' hk h).symm
  subst hkk
  exact ⟨rfl, List.append_cancel_right h⟩

/-- **C63.** The message determines the error: no two errors, with whatever paths and texts, are reported in the same words. -/
theorem C63_determined (e e' : Kind) (he : Worded e) (he' : Worded e') (h : display e = display e') : e = e' := by
  cases e with
  | file k p =>
    cases e' with
    | file k' p' =>
      simp only [display, fileError_eq he p, fileError_eq he' p', Option.map_some, Option.some.injEq, List.append_cancel_left_eq] at h
      obtain ⟨rfl, rfl⟩ := fileError_inj he he' h
      rfl
    | stdin k' => rw [display, fileError_eq he p, display] at h; cases hs : stdinError k' <;> simp [hs] at h
    | stdout k' => rw [display, fileError_eq he p, display] at h; cases hs : stdoutError k' <;> simp [hs] at h
    | log p' => simp [display, fileError_eq he p] at h
    | messageOnly m => simp [display, fileError_eq he p] at h
  | stdin k =>
    cases e' with
    | file k' p' => rw [display, display, fileError_eq he' p'] at h; cases hs : stdinError k <;> simp [hs] at h
    | stdin k' =>
      rcases he with rfl | rfl | rfl | rfl <;> rcases he' with rfl | rfl | rfl | rfl <;> first | rfl | (exact absurd h (by decide))
    | stdout k' =>
      rcases he with rfl | rfl | rfl | rfl <;> rcases he' with rfl | rfl | rfl | rfl <;> exact absurd h (by decide)
    | log p' => rcases he with rfl | rfl | rfl | rfl <;> simp [display, stdinError] at h
    | messageOnly m => rcases he with rfl | rfl | rfl | rfl <;> simp [display, stdinError] at h
  | stdout k =>
    cases e' with
    | file k' p' => rw [display, display, fileError_eq he' p'] at h; cases hs : stdoutError k <;> simp [hs] at h
    | stdin k' =>
      rcases he with rfl | rfl | rfl | rfl <;> rcases he' with rfl | rfl | rfl | rfl <;> exact absurd h (by decide)
    | stdout k' =>
      rcases he with rfl | rfl | rfl | rfl <;> rcases he' with rfl | rfl | rfl | rfl <;> first | rfl | (exact absurd h (by decide))
    | log p' => rcases he with rfl | rfl | rfl | rfl <;> simp [display, stdoutError] at h
    | messageOnly m => rcases he with rfl | rfl | rfl | rfl <;> simp [display, stdoutError] at h
  | log p =>
    cases e' with
    | file k' p' => simp [display, fileError_eq he' p'] at h
    | stdin k' => rcases he' with rfl | rfl | rfl | rfl <;> simp [display, stdinError] at h
    | stdout k' => rcases he' with rfl | rfl | rfl | rfl <;> simp [display, stdoutError] at h
    | log p' =>
      have h := List.append_cancel_left (Option.some.inj h)
      unfold logError at h
      rw [List.append_cancel_left (List.append_cancel_right h)]
    | messageOnly m => simp [display] at h
  | messageOnly m =>
    cases e' with
    | file k' p' => simp [display, fileError_eq he' p'] at h
    | stdin k' => rcases he' with rfl | rfl | rfl | rfl <;> simp [display, stdinError] at h
    | stdout k' => rcases he' with rfl | rfl | rfl | rfl <;> simp [display, stdoutError] at h
    | log p' => simp [display] at h
    | messageOnly m' =>
      simp only [display, Option.some.injEq, List.append_cancel_left_eq] at h
      rw [h]

example : (display (.file .notFound "x y".toList)).map String.ofList = some "File error : File \"x y\" not found" := by decide
example : Worded (.file .notFound "x y".toList) ∧ Worded (.log "rescue.log".toList) := ⟨Or.inl rfl, trivial⟩

/-- **C63 is violated** by a reader of standard output that goes away: `blkar decode file - | head` ends in a panic while the message is
being made, for `EPIPE` is `BrokenPipe`. -/
theorem C63_broken_pipe_violated : display (.stdout .brokenPipe) = none := rfl

/-- **C63 is violated** by a recorded file size of 2^63 or more: `set_len` (`src/file_writer.rs`) rejects it as `InvalidInput`, and the
message for this is a panic.  A full pipe or terminal in non-blocking mode gives `WouldBlock`, with the same result. -/
theorem C63_invalid_input_violated (p : List Char) :
    display (.file .invalidInput p) = none ∧ display (.stdout .wouldBlock) = none ∧ display (.stdin .wouldBlock) = none := ⟨rfl, rfl, rfl⟩

/-- **C63 is violated** by errors of unlisted kinds (with later versions of Rust a full disk is `StorageFull`): the message does not say
which file it is, the one for input is the same as the one for output but for the first word, and all of these kinds look alike. -/
theorem C63_unlisted_violated (n n' : Nat) (p p' : List Char) :
    display (.file (.unlisted n) p) = display (.file (.unlisted n') p') := rfl

end Verif.Errors
