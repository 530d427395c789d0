# Formal model of blockyarchive (blkar) in Lean 4

Source under study: `/repo` (read as text, never built or run here).
Model and proofs: `/verif/lean/Verif/**`, one Lake library, Lean 4.33.0 (+ single Mathlib modules where needed).

## Trusted base

* Lean's kernel (`lake build` only; no `native_decide`, `bv_decide`, added axioms or `sorry`).
* Axioms: every property theorem depends on at most `propext`, `Classical.choice`, `Quot.sound`
  (checked with `#print axioms`, see the end of this file).
* The reading of the Rust code that produced the model. Every definition cites the file and lines it models.
* External components are *parameters* of the model, never axioms:
  * Reed-Solomon codec (`reed_solomon_erasure` crate): structure `RsCodec` (`encode`, `reconstruct`), its laws in
    `RsCodec.Laws`. `Lemmas/Rs.lean` exhibits an instance satisfying the laws, so they are not contradictory.
  * Hash functions: structure `HashFn`, a function from hash type and bytes to a digest of the right length.
    Collision resistance is never assumed.
  * OS files: byte lists with `read at`, `write at` (zero-filling holes), `truncate`. Partial reads are modelled
    only where a property is about them.
  * `BufWriter` and the line buffered `Stdout` of Rust's standard library (1.46 and later; not in `/repo`): modelled in
    `Model/Device.lean` and `Model/LineWriter.lean`, used by C49 only.
  * Threads/channels/barrier: a small-step transition system, scheduling nondeterministic.
* Not modelled: the times and rates of progress reports (when they are printed, their counts and layout are modelled: C59, C64), the wall clock and the rules of time zones, argument parsing by `clap`, signal
  handling (the stop flag is modelled as "may stop at any iteration"), memory allocation failure.

## Conventions

* `Byte := UInt8`, files are `List Byte`.
* Machine integers are `Nat` (see C62) with an explicit range/overflow check when wrap-around matters
  (length byte of a metadata field, u32 sequence numbers), otherwise exact.
* Rust panics/`assert!`/`unwrap` are `Option`/`Except` failures or explicit preconditions stated in theorems.
* Property theorems live in `Verif/Props/*.lean`, helper lemmas next to the models.
* If the code violates a property: the negation is proved with a concrete witness (theorem suffix `_violated`)
  and the part that holds has suffix `_partial`.

## Plan per property

| id | modelled by | proof |
|----|-------------|-------|
| C01 | table generator, table CRC, bitwise spec | linearity of the shift register, induction on the string |
| C02 | CRC + block validity | register step is injective and linear; 16-bit window argument |
| C03 | header writer/parser | direct, byte lists |
| C04-C06 | metadata writer/parser/filter | induction over field list / over payload length |
| C07 | multihash writer/parser | case analysis on type, symbolic digest |
| C08-C09 | Block sync to/from buffer | composition of C01,C03,C04 |
| C10-C11 | write index / seq num at index, meta indices | div/mod arithmetic |
| C12-C13 | same + counting | each burst meets each set at most once; pigeonhole. `_super_sets`: only the bursts that hit the super block set count; `C12_one_burst`: one burst of `parity * burst` blocks |
| C14 | chunk write index | arithmetic bijection |
| C15-C16 | size tables | arithmetic; loop invariant for last partial set |
| C17,C18,C46 | utility functions | arithmetic / induction |
| C19 | Lot, DataBlockBuffer state machine | invariants by induction on operations, rotation arithmetic |
| C20 | pipeline transition system | invariant + termination measure, determinism of written sequence |
| C21-C23, C41 | encode/decode file models | refinement to "block map" view of files |
| C24,C43 | encode model | invariants over the write sequence |
| C25-C27 | repair model | per-set argument with codec law |
| C28-C29 | update model | list lemmas + file view |
| C30,C37 | sort model, skip-good write | file view |
| C31-C33 | rescue model, crash histories, log text | induction over image / history |
| C34-C36 | scanning, ref block, burst guess | induction; argmin lemma |
| C38, C48 | check model | counting |
| C49 | writers over an OS that refuses or shortens writes | simulation between pipelines |
| C50 | paths, names and existence checks of encode, decode, sort on a file system | case analysis; composition with C21 |
| C51 | repair model run twice, crash in between | every write is a right block; back to C25 |
| C52 | update model run twice, crash in between | invariant: each copy old, new or broken; idempotence of the change |
| C53 | numbers displayed by `encode` and `calc` | share of parity blocks carried through buffers and threads; counting valid places by a bijection with sequence numbers |
| C54 | the container tells what file is in it | fields of each metadata copy by computation from the rewritten metadata; the scan of `show` over the whole container; composition with C39 |
| C56 | a range selects whole blocks | the reader's places are the selected ones (C17 + division), the runs are folds over what is at the places; order of metadata and data writes of sort is irrelevant; samples of the burst guess shift with the container |
| C57 | the options of the command line | reading of the options characterised by an independent relation for each command, then case analysis of the whole commands over a file system; composed with C50 |
| C58 | the guessed burst level of damaged containers | a level that agrees with a block puts it at the same place (layout inverse, C11); places of the first set in closed form; pigeonhole over the bursts; composed with C25 |
| C59 | progress reporter, rescue log, command and pipeline as threads with two locks and four barriers | invariant on owners and phases over all schedules; a weight that goes down until the end (no deadlock), work that becomes constant under a fair scheduler (no starvation); invariants on the transcript |
| C60 | the output of every command with `--json` | the calls of the printer, command by command, are those of a document with given members (C39); the document is an object written down key by key in the specification |
| C61 | no file makes a command panic | the panics of the models (`.error .panic`) are shown unreachable: what the reference block and its fields are is derived for every file |
| C62 | positions computed with machine integers | the formulas once more with checked 64 and 32 bit operations; equality with the formulas on natural numbers, by bounds on every intermediate result |
| C63 | messages of errors | the `Display` implementations as functions to texts or panics; a text determines the error by its prefix and suffix |
| C64 | what progress reports look like | a terminal as lines and a cursor; invariant relating the widest report so far to the current line, induction over the events |
| C65 | a container keeps its file through any history of maintenance | an inductive relation of steps; the invariant `Kept` (container, fields, recorded values) is kept by each of them; induction over the history; composition with C21, C38 and C24 |
| C66 | up to three flipped bits in a block, and any odd number, are noticed | linearity of the register; errors as sums of powers of x; the order of x is 32767 (7, 31, 151 excluded by computation) and exceeds the bits of a block; parity is invariant as x + 1 divides the polynomial |
| C67 | what decode, check and repair say in words at the end is right | each text ↔ state of the blocks, through the counters of C38; success ↔ byte-for-byte container, through C25 and C26; decode and check through C21 and C42; interruptions and dry runs: violated |
| C68 | what check approves is intact; if check --hash approves, decode gives the recorded size and hash | counters of C38 compared with the places of the container that was written, bit errors through C66; hash: what C42 says is stored is what the file assembled from all blocks contains (C22), to standard output through C41; blank places, a missing end, duplicates: violated |
| C69 | what is left of several damaged copies, one behind the other: decode, sort, and sort + repair use every block intact in any of them | places of the concatenation are places of the copies; whatever is a block there is a block of the container; then C23, C30 and the sort-and-repair part of C55 |
| C70 | rescue on the command line, any number of times, then decode, or sort, repair and decode | the outcome of a run on a file system as a relation; invariant over runs (directories the same, log readable, directory as in C32); composed with the parts of C55 and with C57 |
| C71 | sequences of commands of any kind on one file system; the history of an archive | frame property of each command (what it changes its options name), induction over sessions; invariant `Kept` of C65 along histories on the file system, composed with C57 |
| C72 | `update` and `repair` of damaged containers, in any order and number | simulation: the damaged copy is always the safe copy with damage of C25 (`update_damaged`, `repair_crashed`), induction over the history, C25 at its end |
| C73 | `repair` and `decode` beyond the promise of the burst level | the loop over the sets treats each on its own (`run_sets`); C23 for what decoding then finds; layout arithmetic and the pigeonhole principle for the limits |
| C74 | `repair` run twice on any file of whole blocks | where every write of the first run falls (`OpOk.placed`, `Run.complete`), then C67's count of what the second run sees |
| C75 | two runs of `encode`, compared | both outputs are containers in the sense of the specification (C24); the payloads of a set as a function of the bytes in it (`payload_group`) |
| C76 | the texts of dates, `i64_secs_to_date_time_string` | the calendar is fixed by its rule for the next day; a reader of the text inverts the formatting |
| C77 | sort and decode of an arbitrary file | the output of sort is characterised place by place; the last block with each number is the same before and after |
| C78 | one `update` after the other | the fields with each id after a change, and their order, determine the field list; the field list determines the container |
| C79 | `repair` of a beginning of a container | what is missing counts as a burst; the per-set argument of C25 does not use the length; C58 for the level |
| C80 | `decode`, `sort`, `repair`, `update` on a container followed by something | places of the longer file are places of the container or of what follows; the samples for the level are the same; C22, C30, C26, writes of `update` stay inside |
| C81 | `repair` on a damaged container followed by something | the loops of C25 for a file that contains more than the container (`Filed`); all writes stay inside the container |
| C82 | `check` on a container followed by something | counters by C38 split at the end of the container; the stored data is looked up at places (C42), which only the container has blocks at |
| C83 | `show` and `decode` on containers one after the other | the walk over the file (C35) goes through a container piece by piece, so what follows is walked from its beginning; getting a file out by C80 |
| C84 | `rescue` and `sort` on containers one after the other | a container is a list of blocks of its uid and blank sectors, so C31 says what is saved; the places without blanks are those of a file for C30 |
| C85 | `update` then `decode` on the command line | C28_asked says what name is recorded, C57 what the commands do, C65 that the container decodes |
| C55 | a container is recovered from a disk image | composition: history of paused rescues (C32) gives whole blocks; `hasBlock` of the rescued file = blocks on the image; C23, C30_incomplete, C25, C21 |
| C39 | JSON printer model + JSON grammar | stack invariant; witnesses for string escaping |
| C40 | reader with arbitrary partial reads | witness of truncation; partial theorem |
| C42 | container hash model | refinement to encode |
| C44-C45 | tables | exhaustive case analysis |

Findings (places where the code disagrees with the property) are listed in the section *Findings* below as they
are proved.

## Status per property

Proved theorems carry the property id as prefix; `MANIFEST.json` lists them.

* **C01-C18, C44-C47** pure functions: `Props/{Checksum,Header,Metadata,Block,Layout,Sizes,Utils}.lean`.
* **C19** `Props/Buffer.lean`: the block buffer as a state machine, all operation sequences the users of the buffer can make.
* **C20** `Props/Pipeline.lean`: reader/encoder/writer ring as a transition system; no deadlock, termination, and the result
  is independent of the schedule. `Lemmas/BlockRingAll.lean` has the same for the block-buffer rings of the other commands.
* **C21-C23** `Props/Decode.lean`: decoding to a file (two-thread ring, output file with holes, final truncation, hashing).
  Not modelled: how the name of the output file is computed. The encoder's burst level must be at most 1000 (the largest one
  the decoder guesses) unless it is given to the decoder.
* **C24, C43** `Props/{Encode,Crash}.lean`: the whole encoder, from the input to the bytes on disk, at every crash point. The single
  block that is being written when the machine stops may be torn; the theorems say so in their hypotheses.
* **C25-C27, C38 (repair part)** `Model/Repair.lean` (`repair_core.rs`, `rs_codec/repairer.rs`), `Props/Repair.lean`. The codec is a
  parameter with the laws `RsCodec.Laws` (any `data` correct shards determine the code word; reconstruction succeeds iff
  there are that many). C25: per-block (`C25_blocks_restored`), whole file (`C25_restores`), for bursts (`C25_bursts`: at most
  `parity` bursts in each super block set, what is left of a damaged block may still carry a header; `C25_one_burst`: one long burst), for errors of up to 16 bits per block (`C25_bit_errors`) and
  encode-damage-repair-decode (`C25_roundtrip`). C26: all writes characterised for every file and interruption. C27: a dry run
  writes nothing; its counters are those of the real run for files of whole blocks. C38: the counters as counts of places.
* **C51** `Props/Resume.lean`, about the same model. `Crashed` (`Spec/Repair.lean`) says what a crash leaves of a list of writes: at each
  place what was there, or one of the blocks written there, or a torn one: a prefix of at least 4 bytes of it over what was there, which
  is not by accident a valid block. `C51_crash`: after that another repair restores every block; `C51_interrupted`: the same after an
  interruption. The first repair may be interrupted anywhere; the flag stays set once set (`Env.Sticky`), as `ctrlc` leaves it.
* **C34-C36** `Props/Scan.lean`: scanning for a reference block, choosing it, guessing the burst level.
* **C27 (update part), C28, C29** `Model/Update.lean` (`update_core.rs`, command line of `cli_update.rs`), `Props/Update.lean`; fields are
  specified in `Spec/Update.lean` (`changed`). C29: the two loops over the fields give exactly `changed`. C28: for every file,
  request and moment of interruption: an error means nothing was written; only bytes of valid metadata blocks change; without
  interruption a container becomes a container of the same bytes with the changed fields in every copy (`C28_container`), the
  hash being that of the stored file. `C28_asked` (`Props/UpdateAsked.lean`) says it in terms of the options, field by field: removed, set
  to the value given, or as before. The flag set by Ctrl-C stays set (`Env.Sticky`). C27: dry and real run give the same result.
* **C52** `Props/UpdateResume.lean`, about the same model. `Task` says what is updated: a container and a request that fits into the block.
  `Mixed`: after an interruption or a crash (`Crashed`, as in C51) each copy of the metadata is the old one, the new one or broken, and
  nothing else has changed. `C52_interrupted`, `C52_crash`: the second run gives what one run would have given, whichever copy it
  takes as its reference; `C52_repaired`: torn copies are put back by `repair`; `C52_all_torn`: with no copy left `update` only reports an
  error. If copies are torn, the burst level has to be given, since the guess looks at the blocks that are left.
* **C53** `Model/Calc.lean` (`cli_calc.rs`, the displayed `Stats` of `encode_core.rs`), `Props/Calc.lean`. `Describes`: the numbers are those
  obtained by counting the valid blocks in the file (`blocksHeld`), the container size is the length of the file. Not modelled: the text of
  the display, the throughput and time; the `u64` arithmetic of `calc` for files beyond the sequence numbers.
* **C54** `Spec/Recorded.lean` (`About`: what is known about the file; `About.Recorded`: the first field of each kind; `About.shown`: the JSON
  object), `Lemmas/ShowContainer.lean` (what `show` finds in a container: exactly the copies), `Props/Recorded.lean`.
* **C56** `Spec/Range.lean` (`Cut`: the selected blocks as a file of their own), `Props/Ranges.lean`. The commands run on the cut-out and on
  the whole file with the range give the same result; `C56_embedded` is the case of a container behind other bytes. The counters of `sort` for
  copies of the metadata block in order and of blocks in order depend on absolute positions and are left out of the comparison.
* **C57** `Model/Cli.lean` (all `src/cli_*.rs` and `src/bin/main.rs`, from clap's table of options to the files afterwards and the exit
  status), `Spec/Cli.lean` (what the options mean: a relation between the table and the parameters of each command), `Props/Cli.lean`.
  `C57_refused`: options that mean nothing are refused; for the others the command runs with exactly the parameters meant
  (`C57_encode`, ...). Messages are left out. Not modelled: clap itself (`Accepted` is what it guarantees), locale, `--help`.
* **C58** `Props/GuessDamaged.lean`, on the model of the guess (`Model/Scan.lean`) and of `repair`. `Fits`: a level agrees with all blocks that can be
  read among the first `parity + 1002` places. `C58_fits` needs only that no valid block is at a wrong place; the theorems on bursts have the damage of C25.
* **C59** `Props/Progress.lean`, on `Model/Progress.lean`: the threads are state machines, a step is one action on something shared, `run` moves them in
  any given order, `exec` for ever. The calls of each command are listed at the end of the model (`checkCalls`, ...); what they print between `pause` and
  `resume` is not part of this model. `Legal` (Spec) says which sequences of calls Rust's guards allow, without waiting for others while the lock is held.
  A barrier releases in the step of the second arrival. Trusted here: `Mutex`, `Barrier` and sequentially consistent atomics behave as documented; nobody
  panics while holding a lock (for the arithmetic of the reporter: C59_no_crash).
* **C60** `Model/Report.lean` (the printing part of `src/check_core.rs`, `decode_core.rs`, `encode_core.rs`, `sort_core.rs`, `repair_core.rs`, `update_core.rs`,
  `rescue_core.rs`, `cli_calc.rs` and `cli_encode.rs --info-only`, as calls of the printer of C39), `Spec/Report.lean` (the objects, key by key), `Props/Report.lean`,
  `ReportRepair.lean`, `ReportUpdate.lean`, `ReportMore.lean`. The text printed is parsed by the grammar of C39 (`parse`) and gives exactly the object specified,
  with the counters of the run of the model of the command. `C60_repair_listed_partial`: the lists of `repair` are those of the metadata places without a valid
  block and of the sets with missing blocks, in the file before the repair. `C60_update_partial`: the list of `update --verbose` names each field changed with the
  value before and after. Assumed: texts of errors, dates and recorded names are plain text (`PlainErrors`, `PlainDates`, `PlainName`), counters fit 64 bits
  (`DecodeFits`, `SortFits`, `NumbersFit`), no progress reports (the default with `--json`). Left out: blank lines between sections (white space),
  the line telling the name of the output file of `decode`.
* **C55** `Spec/Recover.lean` (`Scattered`: blocks of a container on an image; `foundIn`: how many of a set), `Props/Recover.lean`. `Paused`
  (`Spec/Rescue.lean`): any history of rescues stopped between two writes. `C32_paused`: then the output files grow by whole blocks, exactly those
  on the image. `C55_decode`, `C55_restore`; the middle part, sort and repair of any file that holds enough blocks, is `C55_sort_repair`.
* **C42** `Model/ContentHash.lean` (`sbx_container_content.rs`), `Props/ContentHash.lean`: a hash is reported exactly if all chunks are stored
  (`Spec/Stored.lean`), and it is the hash of these bytes; for every schedule of the two threads. Sizes that need more than
  2^32 - 1 sequence numbers (only possible with forged metadata) are outside of `C42_only_stored`.
* **C41** `decodeStdout` in `Model/Decode.lean`, `Props/Stdout.lean`: for a container whose blocks are where the layout puts them or damaged
  (`Spec/Stdout.lean`, `InPlace`), a decode to standard output writes the bytes a decode to a file leaves in the file, for both reading
  patterns and every schedule of the three threads. If blocks are misplaced the two differ by design: the stream can only blank them.
* **C30** `Model/Sort.lean` (`sort_core.rs`: reader, writer and counter thread, the metadata block sent besides the buffers),
  `Props/Sort.lean`: `C30_permuted` (any arrangement of the pieces of a container), `C30_roundtrip` (of what the encoder wrote),
  `C30_sorts` (also with garbage and foreign blocks in between), `C30_idempotent`, `C30_any_schedule`; `C38_sort` for the counters.
  The burst level must be stated for shuffled containers with parity: it is not in the metadata and the guess looks at positions.
* **C37** `Props/MultiPass.lean`, `Spec/MultiPass.lean`, for both kinds of output. Data output (decode): `C37_data_kept` (skip-good never
  changes a full non-blank chunk, any container and interruption), `C37_data_pass`, `C37_data_union`, `C37_data_complete` (any number of
  passes over damaged copies, both modes). Block output (sort): `C37_block_kept`, `C37_block_pass`, `C37_block_union`,
  `C37_block_complete`. Missing: the last partial chunk / the last 4096 bytes, where the property is false (see findings).

* **C31-C33** `Model/Rescue.lean` (`rescue_core.rs`, `rescue_buffer/mod.rs`, `log.rs`), `Spec/Rescue.lean`, `Props/Rescue.lean`. Three threads
  as a ring; every schedule. C31: `C31_rescue_partial` (any image: what the walk of `read_block_lazily` meets is appended exactly),
  `C31_image` (images of blocks and sectors that do not look like blocks: every block is saved), `C31_only_blocks`, `C31_names`.
  C32: `C32_resume` for every history of stopped or killed runs, each at any event and with a torn write, any moments at which the
  log timer fires, torn log writes, and read errors in the earlier runs. The order of traversal of the hash map is arbitrary.
  C33: `C33_round_trip_partial`, `C33_torn`, `C33_accepted`. Errors when writing to the output directory are the subject of C49
  (`Model/DeviceRescue.lean`). Not modelled: the order in which the operating system persists data after a power failure.

* **C40** `Model/Reader.lean` (`reader.rs`, `file_reader.rs` `read`, the reader thread of `encode_core.rs` on standard input),
  `Spec/Reader.lean`, `Props/Reader.lean`. The n-th call of `read` of the operating system delivers at most a given positive number of
  bytes (a parameter), `ErrorKind::Interrupted` is not modelled. The encoder over such a pipe is related to the encoder of
  `Model/Encode.lean` by a simulation of pipelines (`Lemmas/PipelineSim.lean`). `C40_prefix` (every pipe), `C40_whole_partial`.

* **C38 (check), C48** `Model/Check.lean` (`check_core.rs`), `Props/Check.lean`: the counters are the numbers of places holding metadata
  blocks, other blocks, zeros, and anything else, for every file and every interruption (`C38_check`). `C42_check`: the verdict about the
  hash says "matches" exactly if all chunks are stored and have the recorded digest, for every file. What is printed apart from
  the positions, and progress reports, are not modelled. `check` ignores an incomplete block at the end of the file.
* **C38 (decode)** `Props/DecodeStats.lean`, every file, option and interruption: `C38_decode_file`, `C38_decode_stdout_burst` and
  `C38_decode_stdout_seq` (the two reading patterns).
* **C49** `Model/Device.lean` (`writer.rs`, `file_writer.rs`, and again the writing parts of `encode_core.rs`, `decode_core.rs`,
  `sort_core.rs`, `data_block_buffer/mod.rs`), `Spec/Device.lean`, `Props/Device.lean`. Every write call is answered by the operating
  system with an error or a number of bytes taken (a parameter); `BufWriter` of the standard library (used by `sort` only) is modelled
  including its destructor, which ignores errors. The runs on such a device are related to the fault-free models by a simulation of
  pipelines (`Lemmas/Device*.lean`). `C49_encode` is an equivalence, `C49_decode`, `C49_stdout`, `C49_sort` say exactly what is left
  when success is reported. `Model/LineWriter.lean`, `Props/StdoutLines.lean`: standard output is line buffered, so that even with a
  system taking everything not all bytes of a piece are taken; `C49_stdout_lines` says what arrives, `C49_stdout_lines_partial` when
  everything does. `Model/DeviceRepair.lean`, `Props/DeviceRepair.lean`: `repair` and `update`, which write into the container they read. For any file
  and a system that takes everything or refuses (`C49_repair`, `C49_update`), and for damaged containers and any system
  (`C49_repair_container`, `C49_update_container`), the result is what the writes of the fault-free run leave; running the command again
  on a working system then gives the intended container (`C49_repair_again`, `C49_repair_refused`, `C49_update_again`,
  `C49_update_refused`). `Model/DeviceRescue.lean`, `Props/DeviceRescue.lean`: `rescue`, whose writer opens every file with a
  `BufWriter` once per buffer. Whatever the system answers, no thread panics or waits forever and every file gets some of the bytes of its
  blocks in their order (`C49_rescue`); if every call takes something, `rescue` does what C31 and C32 say (`C49_rescue_partial`,
  `C49_rescue_resume_partial`, by projecting executions); of one group at most the last 8192 bytes are lost without an error
  (`C49_rescue_group`). Not modelled: the log file and opening files on a failing system, refused `seek`, `set_len` and reads; `ErrorKind::Interrupted`.
* **C39** `Model/Json.lean` (`json_printer.rs`, `json_macros.rs`, the text functions of `misc_utils.rs`, `cli_macros.rs`),
  `Model/Show.lean` (`show_core.rs`), against a reader of RFC 8259 (`Spec/Json.lean`, `parse`). `C39_document_partial`: every nesting
  of sections and fields with plain values is read back exactly; `C39_show_partial`: the whole output of `show --json` for every file.
  The texts of dates are parameters (instantiated in C76). Upper and lower case are those of ASCII. Not modelled: the fields printed by the
  other commands (their statistics are instances of `C39_document_partial`).
* **C50** `Spec/Paths.lean` says what a file system and the meaning of a (Unix) path are; `Model/Paths.lean` has the name computations of
  `cli_encode.rs`, `cli_decode.rs`, `cli_sort.rs`, `decode_core.rs` (`decode_file`), `file_utils.rs` and `misc_utils.rs` (`make_path`), with
  `Path::file_name` and `PathBuf::push` of the standard library, followed by the models of the commands. `C50_*_place`: the only
  place where something changes; `C50_*_keeps`: nothing that exists is changed without `--force`; `C50_roundtrip`: `encode` then
  `decode` brings back name and contents (with C21). What an output file holds after an error in the middle is arbitrary. Not modelled:
  symbolic and hard links (also dangling ones, which `Path::exists` takes for missing), races between the check and the opening,
  Windows paths, `rescue`. (`--info-only`: C57.)
* **C61** `Lemmas/NoPanic.lean`, `Props/NoPanic.lean`. No new model: the models of the commands return `.error .panic` where the code has an `unwrap`, an assertion, an
  index or a division that may fail. `C61_block_read` (the way all commands read blocks), `C61_shards` (the shard numbers taken from a file are usable), then one
  theorem per command, for every file; `C61_encode` and `C61_encode_errors` (`Props/NoPanicEncode.lean`) for every input of `encode`. Exceptions: the findings below. Not covered: overflow (C62), output of names that are not ASCII with `--json`
  (`C39_panic_violated`), extreme `--burst` (`C15_super_set_violated`), messages (C63).
* **C62** `Model/Machine.lean` (`src/sbx_block/mod.rs` 216-543, `src/file_utils.rs` 52-228, `src/misc_utils.rs` 118-174, statement by statement with checked
  `u64`/`usize`/`u32` operations), `Props/Machine.lean`. `none` is what a debug build does; where the result is not `none`, a release build computes the same.
* **C63** `Model/Errors.lean` (`src/file_error.rs`, `stdin_error.rs`, `stdout_error.rs`, `general_error.rs` and `log.rs` 39-46), `Props/Errors.lean`. Which error of the
  operating system has which `ErrorKind` is the standard library's business; kinds the code does not name are one constructor with a number.
* **C64** `Model/ProgressText.lean` (`src/progress_report.rs` 129-137, 207-215, 293-344, 368-447, 489-546, 561-579), `Spec/Terminal.lean`, `Props/ProgressText.lean`. The
  texts of rates, and of counts above 1000, come from `f64` and are parameters: any printable ASCII text; in the JSON objects any finite decimal number that is
  not negative, which is what the code computes, as `f64_max(_, 0.1)` keeps it from dividing by 0. A terminal wider than the longest line is assumed. Reports
  and lines of the command go to the same terminal.
* **C65** `Props/History.lean`; no new model. `Setting` is what does not change, `Kept` the invariant, `Step` what may happen to a container (the steps call the models
  of the commands), `Steps` any number of them. The file after a step is the file the command leaves whether it succeeds or not for `update` and `repair`;
  after `sort`, and `rescue` with `sort`, it is the new file. Built on C21, C24, C25, C28, C29, C30, C38, C51, C52, C55, C58, C69.
* **C66** `Spec/BitErrors.lean` (the number of differing bits), `Lemmas/CrcDistance.lean`, `Props/BitErrors.lean`; no new model. The powers of x are computed by the
  kernel in pieces of at most 4681 steps.
* **C67** `Model/Verdict.lean` (the last line of the statistics without `--json`: `src/decode_core.rs` 441-460, `src/check_core.rs` 282-304, `src/repair_core.rs` 154-167),
  `Props/Verdict.lean`. The text of an error inside the line of `check` is a parameter. Damage is that of C25 (`Damaged`: what is left is the block or nothing that could be
  taken for it); files consist of whole blocks, for `C67_repair_complete` none of them cut off.
* **C68** no new model: `Props/Approved.lean` relates runs of `check` and of `decode`. Proved: `C68_counted` and `C68_bits` (exactly the changed places are counted),
  `C68_intact`, `C68_written`, `C68_decode`, `C68_stdout`. Hypotheses: no Ctrl-C, the whole file is checked, a reference block with version and uid of the container is
  found; for the hash the recorded size is not 0 and all chunks can be numbered (C42). Partial because the statement is false as it stands: see the findings.
* **C69** no new model: `Props/Copies.lean`, `CopiesCut.lean` (with `Spec/Copies.lean`: `LeftOf`, `Survives`, `survivingIn`). Proved: `C69_decode`, `C69_sort` (with and without error
  correction), `C69_restore`. Assumed: every place of a copy is unchanged or holds no valid block, copies are whole blocks, one metadata block is intact, the burst
  level is stated. The examples use two copies neither of which can be repaired alone.
* **C70** `Model/CliRescue.lean` (`rescue_from_file`, `src/rescue_core.rs` 237-455, and `RescueBuffer::write`, `src/rescue_buffer/mod.rs` 107-141, on the file
  system of `Model/Paths.lean`): places of the output files and of the log, what is appended, what the log holds afterwards (anything C59 allows), failure to
  open a file or the log, a log that is none. The outcome of a run is a relation `World.Rescued`, tied to the shell of C57 by the hypothesis that
  `Shell.rescued` is one of the possible outcomes. Proved: `C70_places` (every run, also with read errors), `C70_success` (success is reported only if all was written), `C70_wrong_log`, `C70_decode`, `C70_restore`
  (after any number of runs, `RescueSpec.Attempts`), `C70_possible` (a run exists, so the relation does not make the others vacuous). Simplified: a file is
  opened for each block instead of each group; if the image is one of the files written to, or the log is, nothing is claimed (`mixed`).
* **C71** no new model: `Spec/Session.lean` states for every command which place it may write, from the table of options alone (`MayWrite`), and what a
  session is: commands one after the other, each with its own options, working directory and surroundings, on the files the one before has left.
  `Props/Session.lean`: `C71_command` (a place whose contents changed is a file now, was no directory, and may be written), `C71_one`, `C71_session`,
  `C71_existing`, `C71_life` and `C71_archive` (encode, any history `Life`, decode). Not covered: links, and other programs changing files while a
  command runs. `rescue` enters with the outcomes of C70.
* **C72** no new model: `Props/Trace.lean` runs two copies of a container side by side (`Alongside`). `update` of a damaged container finds the same
  reference block and shard counts (an intact copy of the metadata is left, C13), writes the same bytes to each intact copy, and a hash only if all
  chunks are there (C42); so the two copies keep differing in damaged blocks only. `C72_trace`, `C72_order`, `C72_no_hash`.
* **C73** no new model: `Props/Limits.lean`, vocabulary in `Spec/Limits.lean` (`Savable`: the block of a chunk is unchanged, or enough blocks of its set
  are). `C73_per_set` (a set is completed if and only if enough is left, otherwise it is not touched), `C73_salvage` and `C73_roundtrip` (every byte of
  the output after `repair` and `decode`), `C73_sharp`, `C73_sharp_blocks` (C12 cannot be improved), `C73_optimal` (information-theoretic: for any
  way to compute parity and any program, by counting).
* **C74** (partial) no new model: `Props/Again.lean`. `C74_complete` (the state after an uninterrupted repair of any file of whole blocks), `C74_again_partial` (the
  second run writes nothing, and its counters). False for a file that ends with a part of a block (`C74_truncated_violated`). Assumed besides: the
  burst level is stated, the size is recorded, the file does not begin with a data block of the container.
* **C75** no new model: `Props/Reproduce.lean`, vocabulary in `Spec/Reproduce.lean` (`Made`: an uninterrupted successful run of `encode` on the whole
  input; `SameKind`: the settings that matter; `groupBytes`: the bytes of a set). `C75_same_blocks`, `C75_same_file_no_meta`, `C75_same_file`,
  `C75_reencode` (reproducibility), `C75_local`, `C75_one_chunk`, `C75_changed`, `C75_grows` (what a change of the file changes).
* **C76** `Model/Date.lean` (`src/time_utils.rs` 31-64), `Spec/Date.lean` (the Gregorian calendar given by the first of January 1970 and the rule for the
  next day; a reader of dates; `Promise`: what is expected of the crate `chrono`). `C76_calendar` (these rules determine the calendar), `C76_utc`,
  `C76_local`, `C76_distinct`, `C76_shown`, `C76_plain` (the dates satisfy the assumption `PlainDates` of C39, C54 and C60 for every `chrono`),
  `C76_show` (`show --json` of a new container). Trusted: `chrono` keeps `Promise`, `Local.from_utc_datetime` does not panic.
* **C77** `Spec/Sorted.lean` (what a file sorted is, for any file), models of `sort` and `decode` as for C30 and C29. `C77_sorted`, `C77_unique`
  (the specification leaves no freedom), `C77_again`, `C77_decode`, `C77_decode_no_metadata`. Sort takes the first metadata block and the last
  block with each other number; decode also lets the last one win, which is why both agree.
* **C78** `Spec/Compose.lean` (`Undo`: the request that takes another one back), model of `update` as for C28 and C65. `C78_repeat`, `C78_undo`,
  `C78_order`, `C78_last`; `update_iff`: an update succeeds exactly if the new fields fit.
* **C79** Model of `repair` as for C25. `C79_bursts`, `C79_cut_off`, `C79_roundtrip` (`Props/CutOff.lean`). If the file ends with a part of a
  block, that part must not be a valid block when filled up with zeros (it would be one if only zeros or, with equal checksum, other bytes are missing).
* **C80** Models of the four commands as before. `Foreign` says that what follows has no valid block of the container at a distance of whole
  blocks. `C80_decode`, `C80_sort`, `C80_repair`, `C80_update`, `C80_zeros`, `C80_container`, `C80_concatenated`, `C80_roundtrip`,
  `C80_embedded` (with C56: other bytes in front as well) (`Props/Followed.lean`). `C80_stdout`
  (`Props/FollowedStdout.lean`): the same for decoding to standard output. For `repair` what follows must also have no such block when filled up with zeros.
* **C81** Model of `repair` as before. `Lemmas/RepairWhole.lean` now has the two loops for files that contain more than the container
  (`Filed`, `meta_filed`, `sets_filed`), and the scan for the metadata block does not depend on what follows (`found_of_damage`).
  `C81_per_set`, `C81_restores`, `C81_bursts`, `C81_roundtrip` (`Props/FollowedRepair.lean`).
* **C08** also for the option of `sync_to_buffer` to keep the checksum: `C08_option_metadata`, `C08_option_data`, `C08_option_roundtrip`
  (`Props/BlockSync.lean`). No command uses the option; it is part of the interface of the library.
* **C82** Model of `check` as before. `C82_blocks`, `C82_hash`, `C82_intact`, `C82_concatenated`, `C82_range` (`Props/FollowedCheck.lean`).
* **C83** Models of `show` and `decode` as before. `C83_show_all`, `C83_show_uid`, `C83_show_first`, `C83_extract` (`Props/Archive.lean`).
* **C84** Models of `rescue` and `sort` as before. `blocksOnly` is a container without its blocks of zeros. `C84_split`, `C84_apart`, `C84_sorted`, `C84_resumed`
  (`Props/ArchiveRescue.lean`).
* **C85** Models of the command line, `update` and `decode` as before. `C85_renamed`, `C85_later`, `C85_nameless` (`Props/Renamed.lean`).

## Findings

Each entry is a theorem `*_violated` with a concrete witness; the part that does hold is the matching `*_partial`.

* **C04** A file name or container name that is empty is written with length byte 0 and dropped by the parser together
  with every field after it; a name longer than 255 bytes gets a wrapped length byte; shard counts whose total exceeds
  256 are written but filtered on reading.
* **C15, C53** With 4 shards and a burst level of `2^30` (any multiple of `2^32 / shards`) `calc_container_size` divides by zero, after
  truncating the size of a super block set to 32 bits (`C15_super_set_violated`): `calc` panics, and so does `encode` after having written
  the container. `calc` does not check the size of the file and truncates the number of blocks to 32 bits: it displays a container of 12800
  bytes for a file of 1.7 TB, which `encode` refuses (`C53_too_large_violated`).
* **C15** `calc_container_size` with burst protection and a last sequence number of `u32::MAX` (possible when
  `data + parity` divides `2^32 - 1`, e.g. 2+1, at the maximum file size) overflows its loop counter: panic in debug
  builds, endless loop in release builds.
* **C17** For an empty file the computed range has length 1; an exclusive end of 0 wraps around.
* **C24** Encoding an explicit byte range stores whole chunks, so up to one chunk more than asked for.
* **C43** Ctrl-C during encoding ends regularly and records the shortened data as if it were complete. When the input is
  standard input, `TooMuchMetadata` can be reported only after all data has been written.
* **C34** The position of the reference block is relative to where the scan started, so with `--ref-from-inc` the reported
  position is not a position in the file (`C34_position_relative`).
* **C36** Burst levels above 1000 are accepted by the encoder but never guessed by the decoder.
* **C25** At metadata places `repair` accepts any valid block of the container, whatever its sequence number; a copy of the
  metadata overwritten by another block is not restored (`C25_misplaced_violated`). Damage in the zero gaps between blocks is
  not undone either (hence the hypothesis `GapsClean` for equality of whole files).
* **C28, C29** `update --fnm/--snm` does not check the length of a name: more than 255 bytes wrap around in the length byte, so that
  the name changes and all fields behind it (size, hash, shard counts) are lost in all copies; the same with an empty name
  (`C28_long_name_violated`, `C28_empty_name_violated`).
* **C42** Hashing the content of a container of an empty file reports "Failed to decode data block" (`C42_empty_violated`): `check`
  with hash and `update --hash` fail for it.
* **C27** If the container ends with a part of a block, a real run may complete it with zeros by writing behind it, so that it
  reports other counters than a dry run (`C27_truncated_violated`).
* **C41** Decoding a container with Reed-Solomon shards of an *empty* file to standard output does not stop: the number of chunks (0) is
  compared after having been counted up (decode_core.rs 1177-1186), so zeros are written for every data sequence number up to
  2^32 - 1, i.e. terabytes (`C41_empty_violated`).
* **C37** In skip-good mode the check whether a chunk or block is already good wants a full read: a non-blank last chunk shorter than the
  data size is overwritten (`C37_last_chunk_violated`), and a good block with less than 4096 bytes (the largest block size) between its
  beginning and the end of the output file is overwritten (`C37_last_blocks_violated`; data_block_buffer/mod.rs 545-573).
* **C31** Rescue skips whatever a header announces: a valid block lying behind the remains of a header of a larger block is not saved
  (`C31_swallowed_violated`). A read error leaves the slot in the buffer, so that up to 4096 bytes that are not a block of the image are
  appended to a file, e.g. 512 zeros to `000000000000` (`C31_read_error_violated`). An empty image makes rescue run for ever, because
  the range computed for it is one byte long (`C31_empty_violated`).
* **C55** A rescue that dies in the middle of a write leaves part of a block in the output file; the rescue resumed appends behind it, so
  that all further blocks of that uid are not at multiples of the block size (`C55_torn_violated`). `decode`, `sort`, `repair` and `check`
  look only there and do not see them, although they have been saved (C32).
* **C32** The log is truncated before it is rewritten; a crash in between leaves a log that is refused, and the user has to remove it
  before rescue starts again, from the beginning (`C32_refused_violated`). Nothing is lost.
* **C33** If the last block reaches beyond the end of the range, the offset read back may be up to a block length earlier
  (`C33_straddle_violated`); resuming a completed rescue then saves that block again.
* **C40** `Reader::read` gives up after five calls of `read`, and a short chunk is taken for the end of the input. A pipe whose writer
  delivers less than a chunk in five calls (e.g. 4080 bytes of version 3 in lines of 80 characters) is cut there: encoding reports
  success, with a size and a hash that match the cut data (`C40_short_reads_violated`).
* **C39** Only quotation marks are escaped: a file name that ends with a backslash or contains a control character makes the output of
  `show --json` something that is not JSON, and so do the names `007` and `+5` (`C39_not_json_violated`). Names that read as numbers, truth
  values or `null` are not printed as strings; spaces around a name are lost; `strip_front_end_chars` uses character positions as
  byte positions, so names that are not ASCII are cut (`C39_changed_violated`) or make the program panic (`C39_panic_violated`). An error
  that occurs inside a nested section (a read error in `show`) is printed into the array of blocks, and the outer bracket is never closed
  (`C39_read_error_violated`, for every error message and all blocks shown before).
* **C38** Decoding to standard output in sequential order counts a metadata block that cannot be read as a failed *parity* block
  (decode_core.rs 1427-1429), also if the container has no parity (`C38_decode_metadata_violated`). In the burst error resistant order any
  block of the container at a metadata place counts as a metadata block (1051-1074; `C38_decode_mixed_violated`).
* **C48** `check --verbose` lists only blank blocks (and those only with `--report-blank`): blocks that are damaged in any other way are
  counted as failed but never listed (check_core.rs 388-416; `C48_unlisted_violated` for every file with such a block). The positions
  listed are relative to where the check starts (`C48_relative_violated`).
* **C42** If Ctrl-C is pressed during `check --hash`, hashing stops without an error, and the hash of the part read so far (of nothing, if
  Ctrl-C was pressed during the check of the blocks) is compared: "The hash of stored data does NOT match the recorded hash"
  is printed for an intact container (`C42_interrupted_violated`).
* **C49** `encode` and `decode` write with single calls of `File::write`/`Stdout::write` and ignore the number of bytes taken
  (encode_core.rs 467, data_block_buffer/mod.rs 597). If the disk is full while the last data block is written, the metadata block
  is then written over the placeholder and success is reported for a container without its last block (`C49_encode_violated`). Decoding
  to a file likewise (`C49_decode_violated`; the hash reported is that of the file). Decoding to standard output reports the hash of what
  should have arrived (`C49_stdout_violated`). No faulty system is needed for that: `Stdout` is line buffered, its `write` takes of a piece
  with a newline at most 1024 of the bytes after the last newline, so decoding a container with 4096-byte blocks to standard output drops
  bytes (`C49_stdout_lines_violated`), with the right hash reported. The other properties about decoding to standard output speak of the
  pieces handed to `Stdout::write`. `sort` writes through a `BufWriter` that is never flushed: an error in the last write is lost
  (`C49_sort_violated`). `repair` and `update` ignore the number of bytes taken as well (repair_core.rs 265 and 393, update_core.rs 335):
  a metadata block counted as repaired may be unreadable (`C49_repair_violated`), and an `update` that reports three changed blocks may
  have destroyed all of them (`C49_update_violated`). `rescue` leaves the last bytes of every group to the destructor of `BufWriter`, which
  ignores errors (rescue_buffer/mod.rs 119-134): on a full device it ends without an error, and the log says that the blocks have been
  processed, so that they are not looked for again when there is room (`C49_rescue_violated`).
* **C50** With `--force` nothing keeps `decode` and `encode` from opening their own input as output: it is truncated before it is read.
  `blkar decode --force c` on a container that records the name `c` leaves zeros (`C50_decode_self_violated`), `blkar encode --force b b`
  leaves the container of an empty file (`C50_encode_self_violated`); both report success.
* **C52** `update` overwrites metadata blocks in place. A container without Reed-Solomon has one, so that a crash during its write loses all
  metadata, and the next `update` fails (`C52_torn_violated`). C52 is about what can be promised: one copy left.
* `check` exits with status 0 although it found damaged blocks or a different hash (`src/cli_check.rs` 107-110 looks only at errors), so that a
  script cannot rely on the status (`C57_check_status_violated`).
* **C58** The guess may be wrong although the damage is within the promise of the level: with one data shard and level 2 or more, if of a container
  of one set only the first metadata block and the first data block are left, level 1 agrees as well, and `repair` without `--burst` writes the lost blocks
  to other places (`C58_single_violated`). For the container of an empty file with only the first block left it gives up (`C58_empty_violated`).
  In both cases `repair --burst` restores the container.
* **C59** `pause` does not wait for a report that is under way: the reporting thread looks at `active_flag`, and takes the locks and prints later
  (progress_report.rs 163-165). `check` and `repair` hold the lock on the statistics meanwhile, `show` and `update --verbose` do not, so that a line of
  progress may be printed into their output (`C59_pause_violated`). The thread that writes the log of `rescue` looks at `shutdown_flag` before it writes
  (log.rs 125): what was rescued since its last write is not in the log, and after a quick rescue there is no log (`C59_log_violated`); resuming then
  rescues blocks again. `100 * units_so_far` does not fit from 2^64/100 on, which only counts of bytes of 184 PB and more reach (`C59_overflow_violated`).
* **C60** `encode --info-only --json` of standard input opens the section `stats` before it finds that there is no information; only one bracket is closed
  and the output is not JSON (`C60_info_stdin_violated`). If reading fails while the list of `check --verbose`, `repair --verbose` or `update --verbose` is open,
  the message becomes a named element of an array (`C60_read_error_violated`). A message with a backslash, say of a file name, is not escaped
  (`C60_backslash_violated`, as in C39).
* **C61** A container whose metadata records the size 0 although there is a data block makes `check --hash` and `update --hash` panic: the content length 0 of
  the last block fails the assertion of data_block_buffer/mod.rs 436 (`C61_check_zero_size_violated`, `C61_update_zero_size_violated`).
* **C62** Burst levels of 2^62 are accepted and overflow (`C62_burst_violated`), recorded sizes near 2^64 overflow the number of chunks in `decode`
  (`C62_size_violated`) and, with many parity shards, from 2^63 on the number of blocks in `repair` (`C62_parity_count_violated`), a rescue log with a number
  of processed bytes near 2^64 overflows the position to continue from (`C62_range_violated`).
* **C63** The messages for kinds of errors that the authors thought impossible are panics. Possible they are: `blkar decode c - | head` gives `BrokenPipe`
  (`C63_broken_pipe_violated`), a recorded size of 2^63 or more gives `InvalidInput` from `set_len` (`C63_invalid_input_violated`). Kinds not named, such as
  those that later versions of Rust have for a full disk, give "Unknown error" without the path (`C63_unlisted_violated`).
* **C64** A report printed between `pause` and `resume` (C59) leaves the cursor at its end, so the next line of `show` or `update --verbose` is appended to
  the report (`C64_glued_violated`).
* **C66** The version byte is not covered by the checksum but is its start value, so bit k of it and bit k of the second byte of the uid cancel each other: of every
  block two flipped bits make a valid block of the other version with the same block size, with another uid (`C66_version_violated`). Only a reader that does
  not know the version accepts it: the search for a reference block, `rescue`, `show` without a uid.
* **C67** If Ctrl-C is pressed before `repair` has looked at the data blocks, it says "No repairs required", whatever they look like (`C67_interrupted_violated`): the
  counters only know what was looked at. A dry run says "All corrupted/missing blocks were repaired successfully" and has written nothing (`C67_dry_violated`). If
  Ctrl-C is pressed between writing and hashing, `decode` says of a right output file that its hash does NOT match (`C67_decode_interrupted_violated`), like `check` (C42).
* **C68** Without `--report-blank` `check` does not count blocks overwritten with zeros: a container of which only the first block is left is reported to have no failed
  block (`C68_blank_violated`); with `--report-blank` the gaps that are blank in every container with burst resistance are counted as failed. That the end of the
  container is missing is not noticed either, although the recorded size tells (`C68_truncated_violated`). If a container has a second valid block with the same
  number and other contents, `check --hash` approves the one at the right place while `decode` takes the last one (`C68_duplicate_violated`).
* **C69** A copy that ends in the middle of a block must not stand before another one: blocks are looked for at multiples of the block size from the beginning of
  the file, so nothing of the copies behind it is found (`C69_cut_violated`), and `decode` and `sort` do not say so. `--force-misalign` with `--from` finds them.
* **C70** `rescue` appends to whatever file of that name is in the output directory, also to one that is no rescued file, and does not notice if the image itself
  has such a name and lies there: it then appends to the image while reading it. It takes any file beginning with `bytes_processed=` and numbers for its log.
* **C74** If the file ends with a part of a block, `repair` may have to be run twice: the first run does not count that part as a block, but by writing behind it
  fills it up with zeros, which can make it a valid block of a set that was already given up (`C74_truncated_violated`).
* **C82** `check` has no notion of where the container ends, although the recorded size tells: of two intact containers one after the other (which `decode`,
  `sort`, `repair` and `update` treat correctly, C80) every block of the second one is reported as failed (`C82_concatenated`). With `--to-inc` or `--to-exc` one can avoid this (`C82_range`).
