/-!
# Model of progress reporting

`src/progress_report.rs` (`ProgressReporter`, `print_progress`, `make_message`) and the thread which writes the rescue log
(`src/log.rs` 100-200), which share the statistics of a command with the thread that runs the command and with the threads
of its pipeline.

Every thread is a state machine; a step of a thread is one action on something shared: taking or giving back one of the two
locks (`stats`, `context`), reading or writing a flag, arriving at a barrier, printing.  Any interleaving may happen.

Simplified: the two flag reads and the swap at the head of `pause`, and the two flag reads at the head of `stop`, are one step
each (`start_flag` and `shutdown_flag` are written by the thread that runs the command only, and `active_flag` is set to false
only by it).  Times and rates are not modelled (they are numbers computed with `f64` and printed); sleeping is a step without
effect; of a message the numbers of units and the percentage are kept.  A thread that waits at a barrier and is released
continues in the same step as the arrival that releases it.  A failing log write is not modelled here (see C32, C49).
-/

namespace Verif.Progress

/-- `PRVerbosityLevel`, `src/progress_report.rs` 15-20. -/
inductive Level
  | L0 | L1 | L2
  deriving DecidableEq, Repr

/-- `verbose_while_active`, `src/progress_report.rs` 44-65. -/
def Level.whileActive : Level → Bool
  | .L0 => false
  | .L1 => false
  | .L2 => true

/-- `verbose_when_done`, `src/progress_report.rs` 44-65. -/
def Level.whenDone : Level → Bool
  | .L0 => false
  | .L1 => true
  | .L2 => true

/-- `string_to_verbosity_level`, `src/progress_report.rs` 351-358. -/
def stringToLevel (s : String) : Option Level :=
  if s = "0" then some .L0 else if s = "1" then some .L1 else if s = "2" then some .L2 else none

/-- What is fixed when a reporter is made: the verbosity, whether `--json` was given (`VerbositySettings`,
`src/progress_report.rs` 38-65) and `total_units()` of the statistics. -/
structure Cfg where
  level : Level
  json : Bool
  total : Option Nat

/-- The part of `Context` which changes, `src/progress_report.rs` 67-78 (`max_print_length` and `last_report_time` are left
out). -/
structure Ctx where
  header : Bool
  finish : Bool
  last : Nat
  deriving DecidableEq, Repr

/-- What appears on standard error. -/
inductive Event
  /-- the header line -/
  | header
  /-- a line of progress: units so far, units since the last report, percentage -/
  | line (units diff : Nat) (percent : Option Nat)
  /-- the last line: units so far -/
  | finish (units : Nat)
  /-- an object with `unitsSoFar` and `totalUnits` -/
  | object (units : Nat) (total : Option Nat)
  /-- `pause` overwrites the line with blanks -/
  | erase
  deriving DecidableEq, Repr

/-- `100 * units_so_far` in `u64` and `calc_percent`, `src/progress_report.rs` 552-559.  `none`: the product does not fit
(a panic in a debug build, a wrong number in a release build). -/
def calcPercent (units total : Nat) : Option Nat :=
  if total = 0 then some 100
  else if 100 * units < 2 ^ 64 then some (min (100 * units / total) 100)
  else none

/-- `make_progress_bar`, `src/progress_report.rs` 600-617. -/
def makeProgressBar (percent : Nat) : List Char :=
  '[' :: (List.replicate (25 * percent / 100) '#' ++ List.replicate (25 - 25 * percent / 100) '-') ++ [']']

/-- The numbers of a message (`make_message`, `src/progress_report.rs` 449-475): units since the last report and the
percentage.  `none`: `units_so_far - last_reported_units` or `100 * units_so_far` is out of range. -/
def makeNumbers (total : Option Nat) (last units : Nat) : Option (Nat × Option Nat) :=
  if units < last then none
  else match total with
    | none => some (units - last, none)
    | some t => match calcPercent units t with
      | none => none
      | some p => some (units - last, some p)

/-- The body of `print_progress` once both locks are held, `src/progress_report.rs` 281-348.  `none`: arithmetic out of
range. -/
def printProgress (c : Cfg) (x : Ctx) (units : Nat) (fin : Bool) : Option (Ctx × List Event) :=
  if ((c.level.whileActive && !fin) || (c.level.whenDone && fin)) && !x.finish then
    match makeNumbers c.total x.last units with
    | none => none
    | some (d, p) =>
      some (⟨x.header || !c.json, fin, units⟩,
        if c.json then [.object units c.total]
        else (if x.header then [] else [.header]) ++ [if fin then .finish units else .line units d p])
  else some (x, [])

/-- Who holds a lock. -/
inductive Tid
  | main | runner | logger | worker (i : Nat)
  deriving DecidableEq, Repr

/-- What the thread that runs a command does to the reporter, the log and the statistics. -/
inductive Call
  | start | stop | pause | resume
  /-- `stats.lock().unwrap()` -/
  | acquire
  /-- change a counter, while holding the lock -/
  | add (d : Nat)
  /-- the guard goes out of scope -/
  | release
  /-- wait for the threads of the pipeline -/
  | join
  | logStart | logStop
  deriving DecidableEq, Repr

/-- Where the thread that runs the command is: between calls, or inside `start` (`src/progress_report.rs` 183-193), `pause`
(195-217), `stop` (223-231), or `start` and `stop` of the log (`src/log.rs` 148-160).  A `w` at the end: waiting at the
barrier. -/
inductive MPc
  | idle
  | st1 | st2 | st3 | st3w | st4 | st4w
  | pa1 | pa2 | pa3 | pa4
  | sp1 | sp2 | sp3 | sp4 | sp4w
  | ls1 | ls1w
  | lp1 | lp2 | lp2w
  deriving DecidableEq, Repr

/-- Which of the three calls of `print_progress` the reporting thread is in, `src/progress_report.rs` 155, 164, 168. -/
inductive Where
  | first | loop | final
  deriving DecidableEq, Repr

/-- Where in `print_progress` it is, `src/progress_report.rs` 278-279 and 349. -/
inductive Stage
  | acqS | acqC | emit | relC | relS
  deriving DecidableEq, Repr

/-- Where the reporting thread is, `src/progress_report.rs` 150-171. -/
inductive RPc
  | r0 | r0w
  | p (w : Where) (k : Stage)
  | r1 | r1w
  | chk | slp | act
  | r2 | r2w
  | done
  deriving DecidableEq, Repr

/-- Where the thread that writes the log is, `src/log.rs` 120-138.  After the shutdown barrier it waits at the start barrier
again, at which nobody arrives any more (`start_flag` is never cleared): `done`. -/
inductive LPc
  | l0 | l0w
  | chk | slp | acq | write
  | l1 | l1w
  | done
  deriving DecidableEq, Repr

/-- A thread of the pipeline: the amounts by which it is going to raise the counters, each under the lock, and whether it
holds the lock. -/
structure Worker where
  rounds : List Nat
  holding : Bool
  deriving DecidableEq, Repr

/-- Everything shared, and where every thread is. -/
structure St where
  mpc : MPc
  todo : List Call
  rpc : RPc
  lpc : LPc
  ws : List Worker
  sOwner : Option Tid
  cOwner : Option Tid
  started : Bool
  down : Bool
  active : Bool
  lstarted : Bool
  ldown : Bool
  units : Nat
  ctx : Ctx
  out : List Event
  /-- `units` in the log file -/
  log : Option Nat
  /-- arithmetic went out of range -/
  crash : Bool
  deriving DecidableEq, Repr

/-- `ProgressReporter::new` and `LogHandler::new`.  When the function that made them returns, whether by an error or not, the
handlers are dropped, and dropping them calls `stop` (`src/progress_report.rs` 234-238, `src/log.rs` 206-210). -/
def init (prog : List Call) (pipeline : List (List Nat)) (units : Nat) : St where
  mpc := .idle
  todo := prog ++ [.stop, .logStop]
  rpc := .r0
  lpc := .l0
  ws := pipeline.map fun r => ⟨r, false⟩
  sOwner := none
  cOwner := none
  started := false
  down := false
  active := true
  lstarted := false
  ldown := false
  units := units
  ctx := ⟨false, false, 0⟩
  out := []
  log := none
  crash := false

/-- Where the reporting thread continues when somebody else arrives at the start barrier, if it waits there. -/
def RPc.startReleased : RPc → Option RPc
  | .r0w => some (.p .first .acqS)
  | .r1w => some .chk
  | _ => none

/-- The same for the shutdown barrier. -/
def RPc.downReleased : RPc → Option RPc
  | .r2w => some .done
  | _ => none

/-- Where the thread that runs the command continues when the reporting thread arrives at the start barrier, if it waits
there. -/
def MPc.startReleased : MPc → Option MPc
  | .st3w => some .st4
  | .st4w => some .idle
  | _ => none

/-- The same for the shutdown barrier. -/
def MPc.downReleased : MPc → Option MPc
  | .sp4w => some .idle
  | _ => none

/-- The barriers of the log. -/
def LPc.startReleased : LPc → Option LPc
  | .l0w => some .chk
  | _ => none

/-- The barriers of the log. -/
def LPc.downReleased : LPc → Option LPc
  | .l1w => some .done
  | _ => none

/-- The barriers of the log. -/
def MPc.logStartReleased : MPc → Option MPc
  | .ls1w => some .idle
  | _ => none

/-- The barriers of the log. -/
def MPc.logDownReleased : MPc → Option MPc
  | .lp2w => some .idle
  | _ => none

/-- One of the calls begins. -/
def beginCall (s : St) (k : List Call) : Call → Option St
  | .start => if s.started then some { s with todo := k } else some { s with todo := k, started := true, mpc := .st1 }
  | .stop => if s.started && !s.down then some { s with todo := k, mpc := .sp1 } else some { s with todo := k }
  | .pause =>
    if s.started && !s.down then
      if s.active then some { s with todo := k, active := false, mpc := .pa1 }
      else some { s with todo := k }
    else some { s with todo := k }
  | .resume => some { s with todo := k, active := true }
  | .acquire => if s.sOwner = none then some { s with todo := k, sOwner := some .main } else none
  | .add d => some { s with todo := k, units := s.units + d }
  | .release => some { s with todo := k, sOwner := none }
  | .join => if s.ws.all fun w => w.rounds.isEmpty then some { s with todo := k } else none
  | .logStart => if s.lstarted then some { s with todo := k } else some { s with todo := k, lstarted := true, mpc := .ls1 }
  | .logStop => if s.lstarted && !s.ldown then some { s with todo := k, mpc := .lp1 } else some { s with todo := k }

/-- One step of the thread that runs the command.  `none`: it cannot move. -/
def stepMain (c : Cfg) (s : St) : Option St :=
  match s.mpc with
  | .idle =>
    match s.todo with
    | [] => none
    | x :: k => beginCall s k x
  -- `self.stats.lock().unwrap().set_start_time()`
  | .st1 => if s.sOwner = none then some { s with sOwner := some .main, mpc := .st2 } else none
  | .st2 => some { s with sOwner := none, mpc := .st3 }
  -- `self.start_barrier.wait()`, twice
  | .st3 =>
    match s.rpc.startReleased with
    | some r => some { s with mpc := .st4, rpc := r }
    | none => some { s with mpc := .st3w }
  | .st3w => none
  | .st4 =>
    match s.rpc.startReleased with
    | some r => some { s with mpc := .idle, rpc := r }
    | none => some { s with mpc := .st4w }
  | .st4w => none
  -- `self.context.lock().unwrap().verbosity_settings`
  | .pa1 => if s.cOwner = none then some { s with cOwner := some .main, mpc := .pa2 } else none
  | .pa2 =>
    if (c.level.whileActive || c.level.whenDone) && !c.json then some { s with cOwner := none, mpc := .pa3 }
    else some { s with cOwner := none, mpc := .idle }
  -- overwrite progress text
  | .pa3 => if s.cOwner = none then some { s with cOwner := some .main, mpc := .pa4 } else none
  | .pa4 => some { s with cOwner := none, out := s.out ++ [.erase], mpc := .idle }
  -- `self.stats.lock().unwrap().set_end_time()`
  | .sp1 => if s.sOwner = none then some { s with sOwner := some .main, mpc := .sp2 } else none
  | .sp2 => some { s with sOwner := none, mpc := .sp3 }
  | .sp3 => some { s with down := true, mpc := .sp4 }
  | .sp4 =>
    match s.rpc.downReleased with
    | some r => some { s with mpc := .idle, rpc := r }
    | none => some { s with mpc := .sp4w }
  | .sp4w => none
  | .ls1 =>
    match s.lpc.startReleased with
    | some l => some { s with mpc := .idle, lpc := l }
    | none => some { s with mpc := .ls1w }
  | .ls1w => none
  | .lp1 => some { s with ldown := true, mpc := .lp2 }
  | .lp2 =>
    match s.lpc.downReleased with
    | some l => some { s with mpc := .idle, lpc := l }
    | none => some { s with mpc := .lp2w }
  | .lp2w => none

/-- Where the reporting thread continues after `print_progress`. -/
def afterPrint : Where → RPc
  | .first => .r1
  | .loop => .chk
  | .final => .r2

/-- One step of the reporting thread, `src/progress_report.rs` 150-171 and 266-349. -/
def stepRunner (c : Cfg) (s : St) : Option St :=
  match s.rpc with
  | .r0 =>
    match s.mpc.startReleased with
    | some m => some { s with rpc := .p .first .acqS, mpc := m }
    | none => some { s with rpc := .r0w }
  | .r0w => none
  | .p w .acqS => if s.sOwner = none then some { s with sOwner := some .runner, rpc := .p w .acqC } else none
  | .p w .acqC => if s.cOwner = none then some { s with cOwner := some .runner, rpc := .p w .emit } else none
  | .p w .emit =>
    match printProgress c s.ctx s.units (w == .final) with
    | none => some { s with crash := true, rpc := .p w .relC }
    | some (x, es) => some { s with ctx := x, out := s.out ++ es, rpc := .p w .relC }
  | .p w .relC => some { s with cOwner := none, rpc := .p w .relS }
  | .p w .relS => some { s with sOwner := none, rpc := afterPrint w }
  | .r1 =>
    match s.mpc.startReleased with
    | some m => some { s with rpc := .chk, mpc := m }
    | none => some { s with rpc := .r1w }
  | .r1w => none
  | .chk => if s.down then some { s with rpc := .p .final .acqS } else some { s with rpc := .slp }
  | .slp => some { s with rpc := .act }
  | .act => if s.active then some { s with rpc := .p .loop .acqS } else some { s with rpc := .chk }
  | .r2 =>
    match s.mpc.downReleased with
    | some m => some { s with rpc := .done, mpc := m }
    | none => some { s with rpc := .r2w }
  | .r2w => none
  | .done => none

/-- One step of the thread that writes the log, `src/log.rs` 120-138. -/
def stepLogger (s : St) : Option St :=
  match s.lpc with
  | .l0 =>
    match s.mpc.logStartReleased with
    | some m => some { s with lpc := .chk, mpc := m }
    | none => some { s with lpc := .l0w }
  | .l0w => none
  | .chk => if s.ldown then some { s with lpc := .l1 } else some { s with lpc := .slp }
  | .slp => some { s with lpc := .acq }
  | .acq => if s.sOwner = none then some { s with sOwner := some .logger, lpc := .write } else none
  | .write => some { s with sOwner := none, log := some s.units, lpc := .chk }
  | .l1 =>
    match s.mpc.logDownReleased with
    | some m => some { s with lpc := .done, mpc := m }
    | none => some { s with lpc := .l1w }
  | .l1w => none
  | .done => none

/-- One step of a thread of the pipeline: take the lock; or change the counters and give the lock back. -/
def stepWorker (i : Nat) (s : St) : Option St :=
  match s.ws[i]? with
  | none => none
  | some ⟨[], _⟩ => none
  | some ⟨d :: r, true⟩ => some { s with ws := s.ws.set i ⟨r, false⟩, sOwner := none, units := s.units + d }
  | some ⟨d :: r, false⟩ =>
    if s.sOwner = none then some { s with ws := s.ws.set i ⟨d :: r, true⟩, sOwner := some (.worker i) } else none

/-- One step of a thread. -/
def step (c : Cfg) (s : St) : Tid → Option St
  | .main => stepMain c s
  | .runner => stepRunner c s
  | .logger => stepLogger s
  | .worker i => stepWorker i s

/-- The threads move in the given order; a thread which cannot move is passed over. -/
def run (c : Cfg) : St → List Tid → St
  | s, [] => s
  | s, t :: ts =>
    match step c s t with
    | some s' => run c s' ts
    | none => run c s ts

/-- The command has returned, and so have the threads of its pipeline. -/
def St.over (s : St) : Bool :=
  s.mpc == .idle && s.todo.isEmpty && s.ws.all fun w => w.rounds.isEmpty

/-! ## What the commands do -/

/-- `check_file` (`src/check_core.rs` 355-428): for every block, under the lock, one more unit and, if `b`, a message printed
between `pause` and `resume`; in the end a look at the counters and possibly an empty line printed in the same way. -/
def checkCalls (blocks : List (Nat × Bool)) (failed : Bool) : List Call :=
  [.start] ++ blocks.flatMap (fun x =>
      [.acquire, .add x.1] ++ (if x.2 then [.pause, .resume] else []) ++ [.release])
    ++ [.acquire, .release] ++ (if failed then [.pause, .resume] else []) ++ [.stop]

/-- `repair_file` (`src/repair_core.rs` 349-458): the metadata blocks under one lock, then every other block under its own.  -/
def repairCalls (metas blocks : List (Nat × Bool)) : List Call :=
  [.start, .acquire] ++ metas.flatMap (fun x => (if x.2 then [.pause, .resume] else []) ++ [.add x.1])
    ++ [.release, .acquire, .release]
    ++ blocks.flatMap (fun x => [.acquire, .add x.1] ++ (if x.2 then [.pause, .resume] else []) ++ [.release])
    ++ [.acquire, .release, .stop]

/-- `show_file` (`src/show_core.rs` 230-412) and `update_file` (`src/update_core.rs` 297-360): the lock is held for changing the
counters only; what is found is printed between `pause` and `resume` without it. -/
def showCalls (blocks : List (Nat × Bool)) : List Call :=
  [.start] ++ blocks.flatMap (fun x =>
      [.acquire, .add x.1, .release] ++ (if x.2 then [.pause, .resume] else []))
    ++ [.stop]

/-- `encode_file`, `decode`, `sort_file`, the container hash (`src/encode_core.rs` 619-801, `src/decode_core.rs` 865-1506,
`src/sort_core.rs` 434-705, `src/sbx_container_content.rs` 78-198): the counters are changed by the pipeline. -/
def pipelineCalls : List Call := [.start, .join, .stop]

/-- `rescue_from_file` (`src/rescue_core.rs` 309-458). -/
def rescueCalls : List Call := [.logStart, .start, .acquire, .release, .join, .stop, .logStop]

end Verif.Progress
