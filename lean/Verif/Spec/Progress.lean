import Verif.Model.Progress
/-!
# Specification: what progress reporting may do

* which sequences of calls are allowed: those which Rust's guards allow and which never call `start`, `stop` or `join` while
  holding the lock on the statistics;
* how the output looks;
* what it means that no thread is neglected.
-/

namespace Verif.Progress

/-- The thread holds the lock on the statistics (or not) and goes on with the calls: it takes the lock only when it does not
hold it, changes counters and gives the lock back only when it holds it, waits for other threads only when it does not hold
it, and does not end while holding it. -/
def Legal : Bool → List Call → Prop
  | h, [] => h = false
  | h, .start :: k => h = false ∧ Legal false k
  | h, .stop :: k => h = false ∧ Legal false k
  | h, .join :: k => h = false ∧ Legal false k
  | h, .logStart :: k => h = false ∧ Legal false k
  | h, .logStop :: k => h = false ∧ Legal false k
  | h, .pause :: k => Legal h k
  | h, .resume :: k => Legal h k
  | h, .acquire :: k => h = false ∧ Legal true k
  | h, .add _ :: k => h = true ∧ Legal true k
  | h, .release :: k => h = true ∧ Legal false k

/-- How much one call adds to the counters. -/
def Call.amount : Call → Nat
  | .add d => d
  | _ => 0

/-- How much the command adds to the counters in all. -/
def amountOf (prog : List Call) (pipeline : List (List Nat)) : Nat :=
  (prog.map Call.amount).sum + (pipeline.map List.sum).sum

/-- The number of units which is shown. -/
def Event.shown : Event → Option Nat
  | .header => none
  | .line n _ _ => some n
  | .finish n => some n
  | .object n _ => some n
  | .erase => none

/-- A line of progress. -/
def Event.isLine : Event → Bool
  | .line _ _ _ => true
  | _ => false

/-- The output without the erasures. -/
def visible (out : List Event) : List Event := out.filter (· ≠ .erase)

/-- What may be visible: nothing at all at level 0; with `--json` one object after the other; else nothing, or the header,
lines of progress (at level 2 only), and at most one last line. -/
def Transcript (c : Cfg) (v : List Event) : Prop :=
  if c.level = .L0 then v = []
  else if c.json then ∀ e ∈ v, ∃ n, e = .object n c.total
  else v = [] ∨ ∃ lines fin, v = .header :: (lines ++ fin) ∧ (∀ e ∈ lines, c.level = .L2 ∧ e.isLine = true)
    ∧ (fin = [] ∨ ∃ n, fin = [.finish n])

/-- The differences shown are those to the number shown before (`last`; at first 0). -/
def AddsUp : Nat → List Event → Prop
  | _, [] => True
  | last, .line n d _ :: es => n = last + d ∧ AddsUp n es
  | _, .finish n :: es => AddsUp n es
  | _, .object n _ :: es => AddsUp n es
  | last, .header :: es => AddsUp last es
  | last, .erase :: es => AddsUp last es

/-- Whether reporting is suspended after these calls. -/
def pausedAfter (calls : List Call) : Bool :=
  calls.foldl (fun b x => match x with | .pause => true | .resume => false | _ => b) false

/-- The threads move for ever, in the order `σ`; a thread which cannot move is passed over. -/
def exec (c : Cfg) (s : St) (σ : Nat → Tid) : Nat → St
  | 0 => s
  | n + 1 =>
    match step c (exec c s σ n) (σ n) with
    | some s' => s'
    | none => exec c s σ n

/-- No thread is neglected: one which can move again and again does move again and again. -/
def Fair (c : Cfg) (s : St) (σ : Nat → Tid) : Prop :=
  ∀ t, (∀ n, ∃ m, n ≤ m ∧ (step c (exec c s σ m) t).isSome = true) →
    ∀ n, ∃ m, n ≤ m ∧ σ m = t ∧ (step c (exec c s σ m) t).isSome = true

end Verif.Progress
