import Verif.Lemmas.DeviceOut
import Verif.Props.DecodeStats
/-!
# C49: when a command reports success its output has been written

The operating system answers every write call with an error or with the number of bytes it has taken.  `carriedOut` and `arrives`
(`Spec/Device.lean`) say what a list of writes leaves behind.  The results of the commands on a device that takes everything are those
of the models used for the other properties (`Encode.encodeFile`, `Decode.toFile`, `Decode.toStdout`, `Sort.sortFile`).
-/

namespace Verif.Device
open DeviceSpec

/-! ### `encode` -/

/-- `encode` reports success exactly if it would on a device that takes everything and no call is answered with an error; the file is
what the answers make of the writes.  So errors are always reported - and numbers of bytes taken are never looked at. -/
theorem C49_encode (A : Answers) (E : Encode.Env) (p : Encode.Param) (inp : Encode.Input) (file : File) (rep : Encode.Report) :
    encode A E p inp = some (file, rep) ↔
      ∃ ws, Encode.encodeFile E p inp = (⟨[], ws⟩, .ok rep) ∧ carriedOut A 0 [] ws = some file := by
  unfold encode
  rcases encodeTo_both (plain_sim A false (by simp)) E p inp ⟨[], 0⟩ ⟨rfl, rfl⟩ with ⟨e1, e2⟩ | ⟨d, k, rep', e1, e2, e3, -⟩
  · rw [e1]
    constructor
    · intro h; cases h
    · rintro ⟨ws, h1, h2⟩
      have := e2 _ _ h1
      rw [PlainBad, h2] at this
      cases this
  · rw [e1]
    have hi := encodeFile_init e2
    obtain ⟨i, ws⟩ := k
    simp only at hi
    subst hi
    simp only [Option.map_some, Option.some.injEq, Prod.mk.injEq]
    rw [e2]
    constructor
    · rintro ⟨rfl, rfl⟩
      exact ⟨ws, rfl, e3⟩
    · rintro ⟨ws', h1, h2⟩
      simp only [Prod.mk.injEq, Disk.mk.injEq, true_and, Except.ok.injEq] at h1
      obtain ⟨rfl, rfl⟩ := h1
      simp only at e3
      rw [e3] at h2
      exact ⟨Option.some.inj h2, rfl⟩

/-- On a device whose calls take everything or are errors the container is complete.  (Missing for C49: answers that take a part, see
`C49_encode_violated`.) -/
theorem C49_encode_partial (A : Answers) (hA : WholeOrError A) (E : Encode.Env) (p : Encode.Param) (inp : Encode.Input) (file : File)
    (rep : Encode.Report) (h : encode A E p inp = some (file, rep)) : ∃ k, Encode.encodeFile E p inp = (k, .ok rep) ∧ k.file = file := by
  obtain ⟨ws, h1, h2⟩ := (C49_encode A E p inp file rep).1 h
  exact ⟨_, h1, (carriedOut_whole hA _ _ _ _ h2).symm⟩

/-- If no call is an error, `encode` reports the same as on a device that takes everything, however little is taken. -/
theorem C49_encode_unnoticed (A : Answers) (hA : NeverError A) (E : Encode.Env) (p : Encode.Param) (inp : Encode.Input) (k : Disk)
    (rep : Encode.Report) (h : Encode.encodeFile E p inp = (k, .ok rep)) : ∃ file, encode A E p inp = some (file, rep) := by
  have hi := encodeFile_init h
  obtain ⟨i, ws⟩ := k
  simp only at hi
  subst hi
  obtain ⟨g, hg⟩ := carriedOut_never hA ws 0 []
  exact ⟨g, (C49_encode A E p inp g rep).2 ⟨ws, h, hg⟩⟩

/-! ### `decode` to a file -/

/-- Decoding to a file (with `--multi-pass` the writer reads what is there; then only answers that take everything or are errors are
considered): `ws` are the writes of a run in which everything is taken, `out` and `R` what it leaves and reports.  The file is what the
answers make of `ws`, cut to the recorded size; the counters are the same; size and hash reported are those of the actual file. -/
theorem C49_decode (A : Answers) (E : Decode.Env) (p : Decode.Param) (f old : File)
    (hA : p.multiPass = some .skipGood → WholeOrError A) (file : File) (rep : Decode.Report)
    (h : decode A E p f old = some (file, rep)) :
    ∃ ws ref g out R, Decode.toFile E p f old = .ok (out, R) ∧ carriedOut A 0 (Decode.openOut p.multiPass old) ws = some g ∧
      out = Decode.truncated ref ((Decode.openOut p.multiPass old).writes ws) ∧ file = Decode.truncated ref g ∧
      rep.stats = R.stats ∧ rep.recorded = R.recorded ∧ (rep.outSize = file.length ∧ R.outSize = out.length) ∧
      rep.computed = Decode.hashFile E ref file ∧ R.computed = Decode.hashFile E ref out := by
  unfold decode at h
  unfold Decode.toFile
  cases hr : Scan.getRefBlockM p.ref p.ref.refChoice f E.stopRef (E.stop 0) with
  | error x => rw [hr] at h; cases h
  | ok r =>
    obtain ⟨pos, ref⟩ := r
    rw [hr] at h
    simp only [Option.map_eq_some_iff, Prod.mk.injEq] at h
    obtain ⟨⟨file', st⟩, hd, rfl, rfl⟩ := h
    rcases decodeFile_both (plain_sim_from A (p.multiPass == some .skipGood) (fun h => hA (beq_iff_eq.1 h)) (Decode.openOut p.multiPass old))
      E p (fun h => h) ref f old ⟨⟨rfl, rfl⟩, rfl⟩ with ⟨e1, -⟩ | ⟨d', k', st', e1, e2, ⟨e3, -⟩, e4⟩
    · rw [e1] at hd; cases hd
    · rw [e1] at hd
      cases hd
      obtain ⟨i, ws⟩ := k'
      simp only at e4
      subst e4
      simp only [e2]
      exact ⟨ws, ref, d'.file, _, _, rfl, e3, rfl, rfl, rfl, rfl, ⟨by trivial, rfl⟩, rfl, rfl⟩

/-- On a device whose calls take everything or are errors, what `decode` reports and leaves is what it should be.  (Missing for C49:
answers that take a part.) -/
theorem C49_decode_partial (A : Answers) (hA : WholeOrError A) (E : Decode.Env) (p : Decode.Param) (f old file : File) (rep : Decode.Report)
    (h : decode A E p f old = some (file, rep)) : Decode.toFile E p f old = .ok (file, rep) := by
  obtain ⟨ws, ref, g, out, R, h1, h2, rfl, rfl, h5, h6, ⟨h7, h8⟩, h9, h10⟩ := C49_decode A E p f old (fun _ => hA) file rep h
  have hg := carriedOut_whole hA _ _ _ _ h2
  subst hg
  rw [h1]
  obtain ⟨a, b, c, d⟩ := rep
  obtain ⟨a', b', c', d'⟩ := R
  simp only at h5 h6 h7 h8 h9 h10
  subst h5 h6 h7 h8 h9 h10
  rfl

/-- If no call is an error the same counters are reported as if everything had been taken.  (The hash reported need not be the same.) -/
theorem C49_decode_unnoticed (A : Answers) (hA : NeverError A) (E : Decode.Env) (p : Decode.Param) (hp : p.multiPass ≠ some .skipGood)
    (f old out : File) (R : Decode.Report) (h : Decode.toFile E p f old = .ok (out, R)) :
    ∃ file rep, decode A E p f old = some (file, rep) ∧ rep.stats = R.stats := by
  unfold Decode.toFile at h
  unfold decode
  cases hr : Scan.getRefBlockM p.ref p.ref.refChoice f E.stopRef (E.stop 0) with
  | error x => rw [hr] at h; cases h
  | ok r =>
    obtain ⟨pos, ref⟩ := r
    rw [hr] at h
    simp only at h ⊢
    rcases decodeFile_both (plain_sim A false (by simp)) E p (fun h => absurd (beq_iff_eq.1 h) hp) ref f old ⟨rfl, rfl⟩ with
      ⟨-, e⟩ | ⟨d', k', st', e1, e2, e3⟩
    · cases hd : Decode.decodeFile E p ref f old with
      | error x => rw [hd] at h; cases h
      | ok x =>
        obtain ⟨k, hk⟩ := e x hd
        obtain ⟨g, hg⟩ := carriedOut_never hA k.ops 0 k.init
        rw [PlainBad, hg] at hk
        cases hk
    · rw [e2] at h
      rw [e1]
      cases h
      exact ⟨_, _, rfl, rfl⟩

/-! ### `decode` to standard output -/

/-- The output should be `chunks`, one after the other; what arrives is what the answers make of them.  The report is that of a run in
which everything arrives: also the hash, which is that of the bytes handed over, not of the bytes that arrived. -/
theorem C49_stdout (A : Answers) (E : Decode.Env) (p : Decode.Param) (f : File) (out : List Byte) (rep : Decode.Report)
    (h : decodeOut A E p f = some (out, rep)) :
    ∃ chunks, Decode.toStdout E p f = .ok (chunks.flatten, rep) ∧ arrives A 0 chunks = some out := by
  unfold decodeOut at h
  unfold Decode.toStdout
  cases hr : Scan.getRefBlockM p.ref p.ref.refChoice f E.stopRef (E.stop 0) with
  | error x => rw [hr] at h; cases h
  | ok r =>
    obtain ⟨pos, ref⟩ := r
    rw [hr] at h
    simp only [Option.map_eq_some_iff, Prod.mk.injEq] at h
    obtain ⟨⟨o, st, hh⟩, hd, rfl, rfl⟩ := h
    rcases decodeStdout_both A E p ref f with ⟨e1, -⟩ | ⟨chunks, out, st', h', e1, e2, e3, -⟩
    · rw [e1] at hd; cases hd
    · rw [e1] at hd
      cases hd
      exact ⟨chunks, by simp only [e2], e3⟩

/-- If the calls take everything or are errors, the output is complete.  (Missing for C49: answers that take a part.) -/
theorem C49_stdout_partial (A : Answers) (hA : WholeOrError A) (E : Decode.Env) (p : Decode.Param) (f : File) (out : List Byte)
    (rep : Decode.Report) (h : decodeOut A E p f = some (out, rep)) : Decode.toStdout E p f = .ok (out, rep) := by
  obtain ⟨chunks, h1, h2⟩ := C49_stdout A E p f out rep h
  rw [h1, arrives_whole hA _ _ _ h2]

/-- If no call is an error the same is reported as if everything had arrived, however little has. -/
theorem C49_stdout_unnoticed (A : Answers) (hA : NeverError A) (E : Decode.Env) (p : Decode.Param) (f : File) (bytes : List Byte)
    (rep : Decode.Report) (h : Decode.toStdout E p f = .ok (bytes, rep)) : ∃ out, decodeOut A E p f = some (out, rep) := by
  unfold Decode.toStdout at h
  unfold decodeOut
  cases hr : Scan.getRefBlockM p.ref p.ref.refChoice f E.stopRef (E.stop 0) with
  | error x => rw [hr] at h; cases h
  | ok r =>
    obtain ⟨pos, ref⟩ := r
    rw [hr] at h
    simp only at h ⊢
    rcases decodeStdout_both A E p ref f with ⟨-, e⟩ | ⟨chunks, out, st', h', e1, e2, e3, -⟩
    · cases hd : Decode.decodeStdout E p ref f with
      | error x => rw [hd] at h; cases h
      | ok x => exact absurd hd (e hA x)
    · rw [e2] at h
      rw [e1]
      cases h
      exact ⟨out, rfl⟩

/-! ### `sort` -/

/-- `sort` looks at the numbers of bytes taken (its writer is buffered): when it reports success all writes have been carried out
completely, except possibly the last one, of which some number `j` of bytes have been. -/
theorem C49_sort (A : Answers) (E : Sort.Env) (hE : 0 < E.lotCount) (p : Sort.Param) (hp : p.toFile = true) (f old file : File)
    (st : Sort.Stats) (o : Sort.Order) (h : sort A E p f old = some (file, st, o)) :
    ∃ ws, Sort.sortFile E p f old = .ok (some ⟨Decode.openOut p.multiPass old, ws⟩, st, o) ∧
      (file = (Decode.openOut p.multiPass old).writes ws ∨
        ∃ ws' pos bs j, ws = ws' ++ [(pos, bs)] ∧ file = ((Decode.openOut p.multiPass old).writes ws').writeAt pos (bs.take j)) := by
  unfold sort at h
  unfold Sort.sortFile
  cases hr : Scan.getRefBlockM p.ref p.ref.refChoice f E.stopRef (E.stop 0) with
  | error x => rw [hr] at h; cases h
  | ok r =>
    obtain ⟨pos, ref⟩ := r
    rw [hr] at h
    simp only at h ⊢
    cases hb : Scan.dataParBurst p.ref true f ref with
    | error x => rw [hb] at h; cases h
    | ok dpb =>
      rw [hb] at h
      simp only [Option.map_eq_some_iff, Prod.mk.injEq] at h
      obtain ⟨⟨d, st', o'⟩, hs, rfl, rfl, rfl⟩ := h
      obtain ⟨k, e1, e2⟩ := sortWith_both (buffered_sim A) E p hp ref dpb f old _ (fun _ => .inl ⟨rfl, rfl⟩) hs
      obtain ⟨h1, h2⟩ := sortWith_short E hE p ref dpb f old e1
      obtain ⟨i, ws⟩ := k
      simp only at h2
      subst h2
      exact ⟨ws, e1, BufRel.close e2 h1⟩

/-- If every call takes at least one byte, `sort` has written everything.  (Missing for C49: an error when the last write is carried
out is not reported.) -/
theorem C49_sort_partial (A : Answers) (hA : ∀ n bs, bs ≠ [] → ∃ k, A n bs = some (k + 1)) (E : Sort.Env) (hE : 0 < E.lotCount)
    (p : Sort.Param) (hp : p.toFile = true) (f old file : File) (st : Sort.Stats) (o : Sort.Order)
    (h : sort A E p f old = some (file, st, o)) : ∃ k, Sort.sortFile E p f old = .ok (some k, st, o) ∧ file = k.file := by
  unfold sort at h
  unfold Sort.sortFile
  cases hr : Scan.getRefBlockM p.ref p.ref.refChoice f E.stopRef (E.stop 0) with
  | error x => rw [hr] at h; cases h
  | ok r =>
    obtain ⟨pos, ref⟩ := r
    rw [hr] at h
    simp only at h ⊢
    cases hb : Scan.dataParBurst p.ref true f ref with
    | error x => rw [hb] at h; cases h
    | ok dpb =>
      rw [hb] at h
      simp only [Option.map_eq_some_iff, Prod.mk.injEq] at h
      obtain ⟨⟨d, st', o'⟩, hs, rfl, rfl, rfl⟩ := h
      obtain ⟨k, e1, e2⟩ := sortWith_both (buffered_sim A) E p hp ref dpb f old _ (fun _ => .inl ⟨rfl, rfl⟩) hs
      obtain ⟨h1, -⟩ := sortWith_short E hE p ref dpb f old e1
      exact ⟨k, e1, (e2.flush h1 (flushLoop_progress hA _ _ (Nat.le_refl _))).2⟩

/-! ### Instances and violations -/

/-- Everything is taken except in call number `i`, where only one byte is. -/
def cutAt (i : Nat) : Answers := fun n bs => if n = i then some 1 else some bs.length

/-- Everything is taken, until call number `i` is refused. -/
def refuseAt (i : Nat) : Answers := fun n bs => if n = i then none else some bs.length

theorem cutAt_never (i : Nat) : NeverError (cutAt i) := by
  intro n bs h
  unfold cutAt at h
  split at h <;> cases h

theorem refuseAt_whole (i : Nat) : WholeOrError (refuseAt i) := by
  intro n bs k h
  unfold refuseAt at h
  split at h
  · cases h
  · simp only [Option.some.injEq] at h; omega

def tinyEncEnv : Encode.Env := ⟨Decode.tinyHash, ⟨fun _ _ _ => [], fun _ _ _ => none⟩, 1, 5, fun _ => false⟩
def tinyEncParam : Encode.Param := ⟨.v2, Decode.demoUid, none, true, .sha1, none, none, "a"⟩
/-- 200 bytes from standard input: two data blocks. -/
def tinyInput : Encode.Input := ⟨List.replicate 200 7, none⟩

def encLength (A : Answers) : Option Nat := (encode A tinyEncEnv tinyEncParam tinyInput).map (·.1.length)

set_option maxRecDepth 1000000 in
/-- Four writes: metadata, two data blocks, metadata again; refusing the last is reported. -/
example : encLength (refuseAt 3) = none ∧ encLength (refuseAt 4) = some 384 := by decide +kernel

set_option maxRecDepth 1000000 in
/-- **C49 is violated by `encode`.** The write of the last data block takes one byte only (the disk is full); then the metadata block is
written over the placeholder at the start.  Success is reported, but the container has lost its last block. -/
theorem C49_encode_violated : encLength (cutAt 2) = some 257 ∧ encLength (cutAt 100) = some 384 := by decide +kernel

/-- The "hash" is the sum. -/
def sumHash : HashFn := ⟨fun t bs => List.replicate t.digestLen (UInt8.ofNat (bs.map UInt8.toNat).sum), fun _ _ => List.length_replicate⟩
def sumEnv : Decode.Env := ⟨sumHash, 1, fun _ => [0], fun _ => false, fun _ => false, fun _ => false⟩

/-- Metadata and two data blocks. -/
def wholeFile : File :=
  Decode.tinyBlock .v2 0 ((metasToBytes [.fsz 200, .hsh (sumHash.bytes .sha1 (List.replicate 200 7))] 112).getD []) ++
    Decode.tinyBlock .v2 1 (List.replicate 112 7) ++ Decode.tinyBlock .v2 2 (List.replicate 88 7 ++ List.replicate 24 0x1A)

/-- The output and whether the hash recorded and the hash computed agree. -/
def shown (r : List Byte × Decode.Report) : List Byte × Bool := (r.1, decide (r.2.recorded = r.2.computed ∧ r.2.computed.isSome))
def decFile (A : Answers) : Option (List Byte × Bool) := (decode A sumEnv Decode.tinyParam wholeFile []).map shown
def decBytes (A : Answers) : Option (List Byte × Bool) := (decodeOut A sumEnv Decode.tinyParam wholeFile).map shown

set_option maxRecDepth 1000000 in
/-- Two writes; an error is reported. -/
example : decFile (refuseAt 2) = some (List.replicate 200 7, true) ∧ decFile (refuseAt 1) = none ∧
    decBytes (refuseAt 2) = some (List.replicate 200 7, true) ∧ decBytes (refuseAt 1) = none := by decide +kernel

set_option maxRecDepth 1000000 in
/-- **C49 is violated by `decode` to a file.** The second write takes one byte only: success is reported, the rest of the file consists
of zeros.  The hash reported tells (the file is read again). -/
theorem C49_decode_violated : decFile (cutAt 1) = some (List.replicate 113 7 ++ List.replicate 87 0, false) := by decide +kernel

set_option maxRecDepth 1000000 in
/-- **C49 is violated by `decode` to standard output.** 87 bytes are lost, success is reported, and the hash reported is the right one. -/
theorem C49_stdout_violated : decBytes (cutAt 1) = some (List.replicate 113 7, true) := by decide +kernel

def tinySort : Sort.Env := ⟨1, fun _ => false, fun _ => false⟩
def tinySortParam : Sort.Param := ⟨Decode.tinyParam.ref, none, false, true⟩
def sortLength (A : Answers) : Option Nat := (sort A tinySort tinySortParam wholeFile []).map (·.1.length)

set_option maxRecDepth 1000000 in
/-- Three writes, the last one is carried out when the writer is dropped; short answers are made up for by further calls. -/
example : sortLength (refuseAt 1) = none ∧ sortLength (cutAt 1) = some 384 ∧ sortLength (cutAt 2) = some 384 := by decide +kernel

set_option maxRecDepth 1000000 in
/-- **C49 is violated by `sort`.** The last write is refused; success is reported and the last block is missing. -/
theorem C49_sort_violated : sortLength (refuseAt 2) = some 256 := by decide +kernel

end Verif.Device
