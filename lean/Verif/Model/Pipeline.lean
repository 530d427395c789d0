import Mathlib.Logic.Function.Basic
/-!
# Model of the thread pipelines

`encode_file` (`src/encode_core.rs` 594-769), `decode` (`src/decode_core.rs` 837-990, 1039-1500), `hash` of a decoded file
(`src/decode_core.rs` 1599-1660), `sort_file` (`src/sort_core.rs` 436-700), `rescue_from_file` (`src/rescue_core.rs`
294-450) and the container hash (`src/sbx_container_content.rs` 55-190) all use the same construction: `n` threads in a
ring, connected by bounded channels, around which a fixed number of buffers circulates.  Each thread runs

```text
while let Some(buffer) = input.recv().unwrap() {   // `None` is the shutdown message
    ...                                            // may `break`
    output.send(Some(buffer)).unwrap();            // sort's reader may send one extra message before
}
output.send(None).unwrap();                        // worker_shutdown!, src/misc_macros.rs 645-654
barrier.wait();
```

and its channel ends are dropped when the closure returns, i.e. after the barrier.  What a thread does with a message is a
function of its own state (locals, the shared structures only it uses) and the message.  `Ctrl-C` and I/O results are part
of the state of the thread that observes them.
-/

namespace Verif.Pipeline

/-- A ring of `n` threads with states `S` and messages `M`.  `step i s m` is one loop body of thread `i`: the new state and
either the messages sent or `none` for `break`.  `cap i` is the capacity of the channel into thread `i`. -/
structure Ring (n : Nat) (S M : Type) where
  step : Fin n → S → M → S × Option (List M)
  cap : Fin n → Nat

/-- Where a thread is: waiting in `recv`; about to send the listed messages; about to send `None`; waiting at the barrier;
returned (its channel ends are dropped). -/
inductive Phase (M : Type)
  | recv
  | send (outs : List M)
  | closing
  | barrier
  | gone

structure Thread (S M : Type) where
  st : S
  phase : Phase M

/-- State of the whole pipeline.  `queue i` is the content of the channel into thread `i`, oldest message first. -/
structure Sys (n : Nat) (S M : Type) where
  thread : Fin n → Thread S M
  queue : Fin n → List (Option M)

/-- The thread the output channel of thread `i` leads to. -/
def next {n : Nat} (i : Fin n) : Fin n := if h : i.val + 1 < n then ⟨i.val + 1, h⟩ else ⟨0, by omega⟩

/-- Effect of a step on the channels. -/
inductive Effect (M : Type)
  | nothing
  | pop
  | push (m : Option M)

variable {n : Nat} {S M : Type}

/-- Has this thread reached the barrier? -/
def Phase.arrived : Phase M → Bool
  | .barrier | .gone => true
  | _ => false

/-- What a thread does next, given the oldest message of its input channel (if any), whether its output channel has room
and whether all threads have reached the barrier.  `none`: it has to wait (or has returned). -/
def Ring.act (R : Ring n S M) (i : Fin n) (t : Thread S M) (head : Option (Option M)) (room all : Bool) :
    Option (Thread S M × Effect M) :=
  match t.phase with
  | .recv =>
    match head with
    | none => none
    | some none => some ({ t with phase := .closing }, .pop)
    | some (some m) =>
      match R.step i t.st m with
      | (s, none) => some (⟨s, .closing⟩, .pop)
      | (s, some outs) => some (⟨s, .send outs⟩, .pop)
  | .send [] => some ({ t with phase := .recv }, .nothing)
  | .send (m :: outs) => if room then some ({ t with phase := .send outs }, .push (some m)) else none
  | .closing => if room then some ({ t with phase := .barrier }, .push none) else none
  | .barrier => if all then some ({ t with phase := .gone }, .nothing) else none
  | .gone => none

/-- Apply the effect of a step of thread `i` to the channels. -/
def applyEffect (i : Fin n) (q : Fin n → List (Option M)) : Effect M → Fin n → List (Option M)
  | .nothing => q
  | .pop => Function.update q i (q i).tail
  | .push m => Function.update q (next i) (q (next i) ++ [m])

/-- Does the channel into thread `i` have room for one more message? -/
def Ring.room (R : Ring n S M) (s : Sys n S M) (i : Fin n) : Bool := (s.queue i).length < R.cap i

/-- Have all threads reached the barrier? -/
def allArrived (s : Sys n S M) : Bool := decide (∀ i, (s.thread i).phase.arrived = true)

/-- One step of thread `i`, if it can make one. -/
def Ring.stepT (R : Ring n S M) (i : Fin n) (s : Sys n S M) : Option (Sys n S M) :=
  match R.act i (s.thread i) (s.queue i).head? (R.room s (next i)) (allArrived s) with
  | none => none
  | some (t, e) => some ⟨Function.update s.thread i t, applyEffect i s.queue e⟩

/-- One step of some thread: the scheduler is arbitrary. -/
def Ring.Step (R : Ring n S M) (s s' : Sys n S M) : Prop := ∃ i, R.stepT i s = some s'

/-- `k` steps. -/
inductive Ring.Steps (R : Ring n S M) : Nat → Sys n S M → Sys n S M → Prop
  | refl (s) : Steps R 0 s s
  | cons {k s t u} : R.Step s t → Steps R k t u → Steps R (k + 1) s u

/-- All threads have returned. -/
def Finished (s : Sys n S M) : Prop := ∀ i, (s.thread i).phase = .gone

/-- Situations in which `recv().unwrap()` or `send(..).unwrap()` panics: the other end of the channel is dropped. -/
def Panics (s : Sys n S M) : Prop :=
  ∃ i, (((s.thread i).phase = .closing ∨ ∃ m outs, (s.thread i).phase = .send (m :: outs)) ∧ (s.thread (next i)).phase = .gone)
    ∨ ((s.thread (next i)).phase = .recv ∧ s.queue (next i) = [] ∧ (s.thread i).phase = .gone)

/-- The state before the threads are spawned: all messages are in the channel into thread 0 (the reader). -/
def initial (st : Fin n → S) (ms : List M) : Sys n S M :=
  ⟨fun i => ⟨st i, .recv⟩, fun i => if i.val = 0 then ms.map some else []⟩

/-- Processing of a list of messages by one thread without interruption. -/
def Ring.stage (R : Ring n S M) (i : Fin n) : S → List M → Option (S × List M)
  | s, [] => some (s, [])
  | s, m :: ms =>
    match R.step i s m with
    | (_, none) => none
    | (s', some outs) => (Ring.stage R i s' ms).map fun r => (r.1, outs ++ r.2)

/-- Processing of a list of messages by the threads `is`, one after the other. -/
def Ring.pass (R : Ring n S M) : List (Fin n) → (Fin n → S) → List M → Option ((Fin n → S) × List M)
  | [], st, ms => some (st, ms)
  | i :: is, st, ms =>
    match R.stage i (st i) ms with
    | none => none
    | some (s', ms') => Ring.pass R is (Function.update st i s') ms'

/-- The sequential program the pipeline stands for: repeatedly take the oldest buffer, let all threads process it one after
the other and put it back; stop when the reader (thread 0) breaks.  `none`: not finished within `fuel` rounds, or another
thread breaks. -/
def Ring.runSeq (R : Ring (n + 1) S M) : Nat → (Fin (n + 1) → S) → List M → Option (Fin (n + 1) → S)
  | 0, _, _ => none
  | _, _, [] => none
  | fuel + 1, st, m :: ms =>
    match R.step 0 (st 0) m with
    | (s, none) => some (Function.update st 0 s)
    | (_, some _) =>
      match R.pass (List.finRange (n + 1)) st [m] with
      | none => none
      | some (st', ms') => Ring.runSeq R fuel st' (ms ++ ms')

end Verif.Pipeline
