import Verif.Lemmas.ProgressLive
import Verif.Lemmas.ProgressEnd
import Verif.Lemmas.ProgressFair
import Verif.Lemmas.ProgressPause
import Mathlib.Data.List.Induction
/-!
# C59: Progress reporting neither hangs nor ends a command, and what it shows is right

`run c (init prog pipeline units) ts` is the state after the threads have moved in the order `ts`, where the thread that runs
the command makes the calls `prog` (then drops the handlers), and the threads of its pipeline raise the counters by the
amounts in `pipeline`, each time taking the lock.  `Legal` is in `Spec/Progress.lean`.  All schedules are covered.
-/

namespace Verif.Progress

/-- A schedule for the examples below: everybody in turn. -/
private def turns (n : Nat) : List Tid := (List.replicate n [Tid.main, .runner, .worker 0, .worker 1, .logger]).flatten

/-- The calls the commands make are legal. -/
theorem C59_commands : (∀ blocks failed, Legal false (checkCalls blocks failed))
    ∧ (∀ metas blocks, Legal false (repairCalls metas blocks)) ∧ (∀ blocks, Legal false (showCalls blocks))
    ∧ Legal false pipelineCalls ∧ Legal false rescueCalls := by
  have seg : ∀ (f : Nat × Bool → List Call) (b : Bool), (∀ x k, Legal b k → Legal b (f x ++ k)) →
      ∀ (xs : List (Nat × Bool)) (k : List Call), Legal b k → Legal b (xs.flatMap f ++ k) := by
    intro f b hf xs
    induction xs with
    | nil => intro k hk; simpa using hk
    | cons x xs ih => intro k hk; rw [List.flatMap_cons, List.append_assoc]; exact hf x _ (ih k hk)
  have hblock : ∀ (x : Nat × Bool) (k : List Call), Legal false k →
      Legal false (([.acquire, .add x.1] ++ (if x.2 then [.pause, .resume] else []) ++ [.release]) ++ k) := by
    intro x k hk; obtain ⟨d, b⟩ := x; cases b <;> simpa [Legal] using hk
  refine ⟨fun blocks failed => ?_, fun metas blocks => ?_, fun blocks => ?_, by simp [pipelineCalls, Legal],
    by simp [rescueCalls, Legal]⟩
  · simp only [checkCalls, List.append_assoc, List.cons_append, List.nil_append, Legal, true_and]
    have := seg _ false hblock blocks ([.acquire, .release] ++ (if failed then [.pause, .resume] else []) ++ [.stop])
      (by cases failed <;> simp [Legal])
    simpa only [List.append_assoc, List.cons_append, List.nil_append] using this
  · simp only [repairCalls, List.append_assoc, List.cons_append, List.nil_append, Legal, true_and]
    have h1 : Legal false (blocks.flatMap
        (fun x => [.acquire, .add x.1] ++ (if x.2 then [.pause, .resume] else []) ++ [.release])
          ++ [.acquire, .release, .stop]) :=
      seg _ false hblock blocks _ (by simp [Legal])
    have := seg (fun x => (if x.2 then [.pause, .resume] else []) ++ [.add x.1]) true
      (by intro x k hk; obtain ⟨d, b⟩ := x; cases b <;> simpa [Legal] using hk) metas
      (.release :: .acquire :: .release :: _) (by simp only [Legal, true_and]; exact h1)
    simpa only [List.append_assoc, List.cons_append, List.nil_append] using this
  · simp only [showCalls, List.append_assoc, List.cons_append, List.nil_append, Legal, true_and]
    have := seg (fun x => [.acquire, .add x.1, .release] ++ (if x.2 then [.pause, .resume] else [])) false
      (by intro x k hk; obtain ⟨d, b⟩ := x; cases b <;> simpa [Legal] using hk) blocks [.stop] (by simp [Legal])
    simpa only [List.append_assoc, List.cons_append, List.nil_append] using this

example : checkCalls [(1, true), (1, false)] true
    = [.start, .acquire, .add 1, .pause, .resume, .release, .acquire, .add 1, .release, .acquire, .release, .pause, .resume,
        .stop]
    ∧ ¬ Legal false [.start, .acquire, .stop, .release] := by
  refine ⟨rfl, ?_⟩; simp [Legal]

/-- So are the calls made when the command returns early, with an error, after any of them: the guard of the lock, if it is
held, is dropped, and then the handlers are.  All that follows is about such ends as well. -/
theorem C59_early {prog : List Call} (h : Legal false prog) (n : Nat) :
    Legal false (prog.take n) ∨ Legal false (prog.take n ++ [.release]) := by
  have key : ∀ (l : List Call) (n : Nat) (b : Bool), Legal b l → Legal b (l.take n) ∨ Legal b (l.take n ++ [.release]) := by
    intro l
    induction l with
    | nil => intro n b h; left; simpa using h
    | cons x l ih =>
      intro n b h
      cases n with
      | zero => cases b <;> simp [Legal]
      | succ n =>
        cases x <;> simp only [Legal] at h <;> simp only [List.take_succ_cons, List.cons_append, Legal]
        case pause => exact ih n _ h
        case resume => exact ih n _ h
        all_goals
          rcases ih n _ h.2 with e | e
          · exact Or.inl ⟨h.1, e⟩
          · exact Or.inr ⟨h.1, e⟩
  exact key prog n false h

example : Legal false ((checkCalls [(1, true), (1, false)] true).take 4 ++ [.release])
    ∧ ¬ Legal false ((checkCalls [(1, true), (1, false)] true).take 4) := by
  constructor <;> simp [checkCalls, Legal]

/-- No deadlock: wherever the threads are, they can go on until the command has returned. -/
theorem C59_no_deadlock (c : Cfg) {prog : List Call} (h : Legal false prog) (pipeline : List (List Nat)) (units : Nat)
    (ts : List Tid) : ∃ more, (run c (init prog pipeline units) (ts ++ more)).over = true := by
  obtain ⟨more, hm⟩ := reaches_end (c := c) _ _ (Nat.le_refl _) (inv_run (c := c) ts (inv_init h pipeline units))
  exact ⟨more, by rw [run_append]; exact hm⟩

example : (run ⟨.L2, false, some 8⟩ (init rescueCalls [[5], [3]] 0) (turns 3)).over = false
    ∧ (run ⟨.L2, false, some 8⟩ (init rescueCalls [[5], [3]] 0) (turns 3 ++ turns 40)).over = true := by
  exact ⟨by decide +kernel, by decide +kernel⟩

/-- No starvation: under a scheduler which neglects nobody the command returns, whatever the scheduler does otherwise. -/
theorem C59_ends (c : Cfg) {prog : List Call} (h : Legal false prog) (pipeline : List (List Nat)) (units : Nat)
    (σ : Nat → Tid) (hf : Fair c (init prog pipeline units) σ) : ∃ n, (exec c (init prog pipeline units) σ n).over = true :=
  fair_ends (inv_init h pipeline units) hf

/-- Such schedulers exist: -/
example : ∃ σ, Fair ⟨.L2, false, none⟩ (init rescueCalls [[5], [3]] 0) σ := by
  refine ⟨fun n => (turns 40).getD n .main, ?_⟩
  have hrun : ∀ (c : Cfg) (σ : Nat → Tid) (n : Nat) (s : St), exec c s σ n = run c s ((List.range n).map σ) := by
    intro c σ n s
    induction n with
    | zero => rfl
    | succ n ih =>
      rw [exec, ih, List.range_succ, List.map_append, run_append]
      simp only [List.map_cons, List.map_nil, run]
      cases step c (run c s (List.map σ (List.range n))) (σ n) <;> rfl
  generalize hσ : (fun n => (turns 40).getD n .main) = σ
  obtain ⟨e1, e2, e3, e4⟩ :
      (exec ⟨.L2, false, none⟩ (init rescueCalls [[5], [3]] 0) σ 200).todo = []
      ∧ (exec ⟨.L2, false, none⟩ (init rescueCalls [[5], [3]] 0) σ 200).mpc = .idle
      ∧ ((exec ⟨.L2, false, none⟩ (init rescueCalls [[5], [3]] 0) σ 200).rpc = .done
        ∧ (exec ⟨.L2, false, none⟩ (init rescueCalls [[5], [3]] 0) σ 200).lpc = .done)
      ∧ (exec ⟨.L2, false, none⟩ (init rescueCalls [[5], [3]] 0) σ 200).ws = [⟨[], false⟩, ⟨[], false⟩] := by
    rw [hrun, ← hσ]
    exact ⟨by decide +kernel, by decide +kernel, ⟨by decide +kernel, by decide +kernel⟩, by decide +kernel⟩
  have hend : ∀ t s, s.todo = [] → s.mpc = .idle → (s.rpc = .done ∧ s.lpc = .done) →
      s.ws = [⟨[], false⟩, ⟨[], false⟩] → step ⟨.L2, false, none⟩ s t = none := by
    intro t s h1 h2 h3 h4
    cases t with
    | main => simp [step, stepMain, h1, h2]
    | runner => simp [step, stepRunner, h3.1]
    | logger => simp [step, stepLogger, h3.2]
    | worker i =>
      match i with
      | 0 => simp [step, stepWorker, h4]
      | 1 => simp [step, stepWorker, h4]
      | i + 2 => simp [step, stepWorker, h4]
  have hfix : ∀ n, 200 ≤ n → exec ⟨.L2, false, none⟩ (init rescueCalls [[5], [3]] 0) σ n
      = exec ⟨.L2, false, none⟩ (init rescueCalls [[5], [3]] 0) σ 200 := by
    intro n hn
    induction hn with
    | refl => rfl
    | @step n hn ih => rw [Nat.succ_eq_add_one, exec, ih, hend _ _ e1 e2 e3 e4]
  intro t ht
  obtain ⟨m, hm, hen⟩ := ht 200
  rw [hfix m hm, hend _ _ e1 e2 e3 e4] at hen
  cases hen

/-- When the command has returned, the reporting thread has ended (if it was ever started), and nothing is printed any more,
whatever moves. -/
theorem C59_silent_after (c : Cfg) {prog : List Call} (h : Legal false prog) (pipeline : List (List Nat)) (units : Nat)
    (ts more : List Tid) (ho : (run c (init prog pipeline units) ts).over = true) :
    ((run c (init prog pipeline units) ts).started = true → (run c (init prog pipeline units) ts).rpc = .done)
      ∧ (run c (init prog pipeline units) (ts ++ more)).out = (run c (init prog pipeline units) ts).out := by
  rw [run_append]
  have hd := run_keeps (c := c) (P := Dropped) (fun _ _ _ h hs => dropped_step h hs) ts _ (dropped_init prog pipeline units)
  have hi := inv_run (c := c) ts (inv_init h pipeline units)
  generalize run c (init prog pipeline units) ts = s at ho hd hi
  simp only [St.over, Bool.and_eq_true, beq_iff_eq, List.isEmpty_iff] at ho
  obtain ⟨⟨hm, ht⟩, _⟩ := ho
  have hdown : s.started = true → s.down = true := by
    intro hs
    rcases hd with ⟨k, hk⟩ | ⟨_, hd⟩
    · rw [ht] at hk; simp at hk
    · rcases hd hs with hd | hd
      · exact hd
      · rw [hm] at hd; cases hd
  have hr : (s.started = true → s.rpc = .done) ∧ (s.started = false → s.rpc = .r0 ∨ s.rpc = .r0w) := by
    have hph := hi.phase
    rw [hm] at hph
    constructor
    · intro hs
      simpa [phaseOk, hs, hdown hs] using hph
    · intro hs
      have : s.down = false ∧ (s.rpc = .r0 ∨ s.rpc = .r0w) := by simpa [phaseOk, hs] using hph
      exact this.2
  refine ⟨hr.1, ?_⟩
  have hr' : s.rpc = .done ∨ s.rpc = .r0 ∨ s.rpc = .r0w := by
    cases hs : s.started with
    | true => exact Or.inl (hr.1 hs)
    | false => exact Or.inr (hr.2 hs)
  refine (run_keeps (c := c) (P := fun x => x.mpc = .idle ∧ x.todo = [] ∧ (x.rpc = .done ∨ x.rpc = .r0 ∨ x.rpc = .r0w)
    ∧ x.out = s.out) ?_ more s ⟨hm, ht, hr', rfl⟩).2.2.2
  rintro x x' t ⟨h1, h2, h3, h4⟩ hs
  cases t with
  | main => simp [step, stepMain, h1, h2] at hs
  | runner =>
    rcases h3 with h3 | h3 | h3
    · simp [step, stepRunner, h3] at hs
    · simp [step, stepRunner, h3, h1, MPc.startReleased] at hs
      subst hs
      exact ⟨rfl, h2, Or.inr (Or.inr rfl), h4⟩
    · simp [step, stepRunner, h3] at hs
  | logger =>
    simp only [step, stepLogger] at hs
    have e1 : x.mpc.logStartReleased = none := by rw [h1]; rfl
    have e2 : x.mpc.logDownReleased = none := by rw [h1]; rfl
    rw [e1, e2] at hs
    (repeat' split at hs) <;> first
      | contradiction
      | (cases hs; exact ⟨h1, h2, h3, h4⟩)
  | worker i =>
    simp only [step, stepWorker] at hs
    (repeat' split at hs) <;> first
      | contradiction
      | (cases hs; exact ⟨h1, h2, h3, h4⟩)

example : Legal false (showCalls [(512, true)])
    ∧ (run ⟨.L1, true, none⟩ (init (showCalls [(512, true)]) [] 0) (turns 50)).over = true
    ∧ (run ⟨.L1, true, none⟩ (init (showCalls [(512, true)]) [] 0) (turns 50)).out = [.object 512 none] :=
  ⟨C59_commands.2.2.1 _, by decide +kernel, by decide +kernel⟩

/-- Progress reporting never ends a command: as long as a hundred times the number of units fits into 64 bits, no subtraction
and no product goes out of range. -/
theorem C59_no_crash (c : Cfg) {prog : List Call} (h : Legal false prog) (pipeline : List (List Nat)) (units : Nat)
    (hT : 100 * (units + amountOf prog pipeline) < 2 ^ 64) (ts : List Tid) :
    (run c (init prog pipeline units) ts).crash = false :=
  (all_run h hT ts).2.2.crash

example : Legal false pipelineCalls ∧ 100 * (7 + amountOf pipelineCalls [[512, 512], [3]]) < 2 ^ 64
    ∧ amountOf pipelineCalls [[512, 512], [3]] = 1027 := ⟨C59_commands.2.2.2.1, by decide, by decide⟩

/-- What is on the screen: nothing at level 0; with `--json` objects only; else the header once and first, lines of progress
(at level 2), and at most one last line, after everything else. -/
theorem C59_transcript (c : Cfg) {prog : List Call} (h : Legal false prog) (pipeline : List (List Nat)) (units : Nat)
    (hT : 100 * (units + amountOf prog pipeline) < 2 ^ 64) (ts : List Tid) :
    Transcript c (visible (run c (init prog pipeline units) ts).out)
      ∧ (c.level = .L0 ∨ c.json = true → .erase ∉ (run c (init prog pipeline units) ts).out) := by
  have h2 := (all_run (c := c) h hT ts).2.2
  generalize run c (init prog pipeline units) ts = s at h2
  constructor
  · rw [Transcript]
    split
    · rename_i hl; rw [h2.l0 hl]; rfl
    · split
      · rename_i hj
        intro e he
        exact h2.json hj e (List.mem_filter.1 he).1
      · rename_i hj
        simp only [Bool.not_eq_true] at hj
        obtain ⟨h3, h4⟩ := h2.plain hj
        cases hh : s.ctx.header with
        | false => exact Or.inl (h3 hh)
        | true =>
          obtain ⟨lines, fin, hv, hl, hf⟩ := h4 hh
          refine Or.inr ⟨lines, fin, hv, hl, ?_⟩
          rw [hf]
          cases s.ctx.finish
          · exact Or.inl rfl
          · exact Or.inr ⟨_, rfl⟩
  · rintro (hl | hj) hmem
    · rw [h2.l0 hl] at hmem; cases hmem
    · obtain ⟨n, hn⟩ := h2.json hj _ hmem
      cases hn

example : (run ⟨.L2, false, some 2⟩ (init (checkCalls [(1, true), (1, false)] true) [] 0) (turns 50)).out
      = [.header, .line 0 0 (some 0), .erase, .line 2 2 (some 100), .erase, .line 2 0 (some 100), .finish 2] := by
  decide +kernel

/-- The option for the verbosity: only `0`, `1` and `2` are accepted; with `0` nothing is printed, with `1` no line of
progress. -/
theorem C59_levels (text : String) :
    ((stringToLevel text).isSome = true ↔ text = "0" ∨ text = "1" ∨ text = "2")
      ∧ ∀ level, stringToLevel text = some level →
        ∀ (c : Cfg), c.level = level → ∀ {prog : List Call}, Legal false prog → ∀ (pipeline : List (List Nat)) (units : Nat),
        100 * (units + amountOf prog pipeline) < 2 ^ 64 → ∀ ts,
          (text = "0" → (run c (init prog pipeline units) ts).out = [])
          ∧ (text = "1" → ∀ n d p, Event.line n d p ∉ (run c (init prog pipeline units) ts).out)
          ∧ (text = "2" → (run c (init prog pipeline units) ts).started = true →
              (run c (init prog pipeline units) ts).mpc = .idle → (run c (init prog pipeline units) ts).out ≠ []) := by
  refine ⟨?_, ?_⟩
  · simp only [stringToLevel]
    split
    · rename_i h; simp [h]
    · split
      · rename_i h; simp [h]
      · split
        · rename_i h; simp [h]
        · rename_i h1 h2 h3; simp [h1, h2, h3]
  · intro level hlevel c hc prog h pipeline units hT ts
    obtain ⟨hi, _, h2⟩ := all_run (c := c) h hT ts
    generalize run c (init prog pipeline units) ts = s at h2 hi
    refine ⟨?_, ?_, ?_⟩
    · rintro rfl
      have : level = .L0 := by simpa [stringToLevel] using hlevel.symm
      exact h2.l0 (by rw [hc, this])
    · rintro rfl n d p hmem
      have hl : level = .L1 := by simpa [stringToLevel] using hlevel.symm
      rw [hl] at hc
      cases hj : c.json with
      | true => obtain ⟨m, hm⟩ := h2.json hj _ hmem; cases hm
      | false =>
        have hv : Event.line n d p ∈ visible s.out := List.mem_filter.2 ⟨hmem, by simp⟩
        obtain ⟨h3, h4⟩ := h2.plain hj
        cases hh : s.ctx.header with
        | false => rw [h3 hh] at hv; cases hv
        | true =>
          obtain ⟨lines, fin, hv', hli, hf⟩ := h4 hh
          rw [hv'] at hv
          rcases List.mem_cons.1 hv with e | e
          · cases e
          · rcases List.mem_append.1 e with e | e
            · have := (hli _ e).1; rw [hc] at this; cases this
            · rw [hf] at e; split at e
              · simp at e
              · cases e
    · rintro rfl hs hm he
      have hl : level = .L2 := by simpa [stringToLevel] using hlevel.symm
      rw [hl] at hc
      have hph := hi.phase
      rw [hm, hs] at hph
      refine h2.hdr hc ?_ (by rw [he]; rfl)
      revert hph
      cases s.rpc with
      | p w k => cases s.down <;> cases w <;> cases k <;> simp [phaseOk, RPc.fresh, RPc.inLoop]
      | _ => cases s.down <;> simp [phaseOk, RPc.fresh, RPc.inLoop]

example : stringToLevel "1" = some .L1 ∧ stringToLevel "01" = none := by decide

/-- The numbers shown never go down, never exceed what has been processed, and the percentage shown with a number is the one
of that number, at most 100. -/
theorem C59_numbers (c : Cfg) {prog : List Call} (h : Legal false prog) (pipeline : List (List Nat)) (units : Nat)
    (hT : 100 * (units + amountOf prog pipeline) < 2 ^ 64) (ts : List Tid) :
    ((run c (init prog pipeline units) ts).out.filterMap Event.shown).Pairwise (· ≤ ·)
      ∧ (∀ n ∈ (run c (init prog pipeline units) ts).out.filterMap Event.shown,
          n ≤ (run c (init prog pipeline units) ts).units)
      ∧ (run c (init prog pipeline units) ts).units ≤ units + amountOf prog pipeline
      ∧ ∀ n d p, Event.line n d p ∈ (run c (init prog pipeline units) ts).out →
          (c.total = none → p = none)
          ∧ ∀ total, c.total = some total →
              p = some (if total = 0 then 100 else min (100 * n / total) 100) := by
  have h2 := (all_run (c := c) h hT ts).2.2
  generalize run c (init prog pipeline units) ts = s at h2
  refine ⟨h2.mono, fun n hn => Nat.le_trans (h2.bound n hn) h2.last, by have := h2.cons; omega, ?_⟩
  intro n d p hmem
  have := h2.lines n d p hmem
  refine ⟨fun hc => by rw [this, hc]; rfl, fun total hc => by rw [this, hc]; rfl⟩

example : Event.line 512 512 (some 50)
    ∈ (run ⟨.L2, false, some 1024⟩ (init (showCalls [(512, true)]) [] 0)
        (List.replicate 4 .main ++ List.replicate 7 .runner ++ [.main] ++ List.replicate 3 .runner
          ++ List.replicate 8 .main ++ List.replicate 3 .runner)).out := by decide +kernel

/-- The rates are computed from the right numbers: the difference in a line is the one to the number shown before. -/
theorem C59_differences (c : Cfg) {prog : List Call} (h : Legal false prog) (pipeline : List (List Nat)) (units : Nat)
    (hT : 100 * (units + amountOf prog pipeline) < 2 ^ 64) (ts : List Tid) :
    AddsUp 0 (run c (init prog pipeline units) ts).out :=
  (inv3_run h hT ts).adds

example : AddsUp 0 [.header, .line 5 5 none, .erase, .line 8 3 none, .finish 9] ∧ ¬ AddsUp 0 [.line 5 5 none, .line 8 8 none] := by
  simp [AddsUp]

/-- When `start` has returned at level 2, the header (or an object) is already there. -/
theorem C59_header_first (c : Cfg) {prog : List Call} (h : Legal false prog) (pipeline : List (List Nat)) (units : Nat)
    (hT : 100 * (units + amountOf prog pipeline) < 2 ^ 64) (ts : List Tid) (hl : c.level = .L2)
    (hs : (run c (init prog pipeline units) ts).started = true) (hm : (run c (init prog pipeline units) ts).mpc = .idle) :
    visible (run c (init prog pipeline units) ts).out ≠ [] := by
  obtain ⟨hi, _, h2⟩ := all_run (c := c) h hT ts
  generalize run c (init prog pipeline units) ts = s at h2 hi hs hm
  apply h2.hdr hl
  have hph := hi.phase
  rw [hm, hs] at hph
  revert hph
  cases s.rpc with
  | p w k => cases s.down <;> cases w <;> cases k <;> simp [phaseOk, RPc.fresh, RPc.inLoop]
  | _ => cases s.down <;> simp [phaseOk, RPc.fresh, RPc.inLoop]

example : (run ⟨.L2, false, some 2⟩ (init pipelineCalls [[1], [1]] 0) (turns 12)).started = true
    ∧ (run ⟨.L2, false, some 2⟩ (init pipelineCalls [[1], [1]] 0) (turns 12)).mpc = .idle := by
  exact ⟨by decide +kernel, by decide +kernel⟩

/-- A command which starts the reporter, calls `stop` and returns has printed its last report exactly once and as the very
last thing, at level 1 and 2.  The number in it is everything that was processed, if the pipeline is waited for right before
`stop` is called (or there is none, as in `check`, `repair` and `show`). -/
theorem C59_last_report (c : Cfg) {pre post : List Call} (h : Legal false (pre ++ .stop :: post)) (hstart : .start ∈ pre)
    (hstop : .stop ∉ pre) (pipeline : List (List Nat)) (hjoin : pre.getLast? = some .join ∨ ∀ r ∈ pipeline, r = [])
    (hpost : ∀ x ∈ post, x.amount = 0) (units : Nat)
    (hT : 100 * (units + amountOf pre pipeline) < 2 ^ 64) (hl : c.level ≠ .L0) (ts : List Tid)
    (ho : (run c (init (pre ++ .stop :: post) pipeline units) ts).over = true) :
    ∃ before, (run c (init (pre ++ .stop :: post) pipeline units) ts).out
        = before ++ [if c.json then .object (units + amountOf pre pipeline) c.total
            else .finish (units + amountOf pre pipeline)]
      ∧ ∀ n, Event.finish n ∉ before := by
  have hA : amountOf (pre ++ .stop :: post) pipeline = amountOf pre pipeline := by
    have : (post.map Call.amount).sum = 0 := by
      have : ∀ l : List Call, (∀ x ∈ l, x.amount = 0) → (l.map Call.amount).sum = 0 := by
        intro l
        induction l with
        | nil => intro _; rfl
        | cons a l ih =>
          intro hh
          rw [List.map_cons, List.sum_cons, hh a (List.mem_cons_self ..), ih (fun x hx => hh x (List.mem_cons_of_mem _ hx))]
      exact this _ hpost
    simp [amountOf, Call.amount] at this ⊢
    omega
  have hpost' : ∀ x ∈ post ++ [.stop, .logStop], x.amount = 0 := by
    intro x hx
    rcases List.mem_append.1 hx with hx | hx
    · exact hpost x hx
    · simp only [List.mem_cons, List.not_mem_nil, or_false] at hx
      rcases hx with rfl | rfl <;> rfl
  have h2i : Inv2 c (units + amountOf pre pipeline) (init (pre ++ .stop :: post) pipeline units) := by
    have := inv2_init (c := c) (pre ++ .stop :: post) pipeline units
    rwa [hA] at this
  generalize hTT : units + amountOf pre pipeline = T at hT h2i
  have hall := run_keeps (c := c) (P := fun s => (Inv s ∧ Inv1 c s ∧ Inv2 c T s) ∧ Joined (post ++ [.stop, .logStop]) T s
      ∧ (s.started = true ∨ .start ∈ s.todo))
    (fun s s' t h hs => ⟨⟨inv_step h.1.1 hs, inv1_step h.1.2.1 hs, inv2_step hT h.1.2.2 h.1.1 h.1.2.1 hs⟩,
      joined_step hpost' hT h.2.1 h.1.1 h.1.2.2 hs, started_step h.2.2 hs⟩) ts _
    ⟨⟨inv_init h pipeline units, inv1_init _ pipeline units, h2i⟩,
      joined_init hstop pipeline units _ hjoin, Or.inr (List.mem_append_left _ (List.mem_append_left _ hstart))⟩
  have hsil := (C59_silent_after c h pipeline units ts [] ho).1
  generalize run c (init (pre ++ .stop :: post) pipeline units) ts = s at ho hall hsil
  obtain ⟨⟨hi, _, h2⟩, hj, hst⟩ := hall
  simp only [St.over, Bool.and_eq_true, List.isEmpty_iff] at ho
  have hs : s.started = true := by
    rcases hst with hst | hst
    · exact hst
    · rw [ho.1.2] at hst; cases hst
  have hfin : s.ctx.finish = true := h2.fin.2 ⟨by rw [hsil hs]; rfl, hl⟩
  have hlast := hj.2 hfin
  obtain ⟨before, hb⟩ := h2.ends hfin
  rw [hlast] at hb
  refine ⟨before, hb, ?_⟩
  intro n hn
  cases hjs : c.json with
  | true =>
    obtain ⟨m, hm⟩ := h2.json hjs (.finish n) (by rw [hb]; exact List.mem_append_left _ hn)
    cases hm
  | false =>
    obtain ⟨h3, h4⟩ := h2.plain hjs
    rw [hjs] at hb
    simp only [Bool.false_eq_true, if_false] at hb
    have hv : visible s.out = visible before ++ [.finish T] := by
      rw [hb, visible_append]; rfl
    cases hh : s.ctx.header with
    | false => have := h3 hh; rw [hv] at this; simp at this
    | true =>
      obtain ⟨lines, fin, hv', hli, hf⟩ := h4 hh
      rw [hfin, hlast] at hf
      simp only [if_true] at hf
      rw [hv, hf, ← List.cons_append] at hv'
      have hvb := List.append_cancel_right hv'
      have : Event.finish n ∈ visible before := List.mem_filter.2 ⟨hn, by simp⟩
      rw [hvb] at this
      rcases List.mem_cons.1 this with e | e
      · cases e
      · have := (hli _ e).2; cases this

example : rescueCalls = [.logStart, .start, .acquire, .release, .join] ++ .stop :: [.logStop]
    ∧ Legal false ([.logStart, .start, .acquire, .release, .join] ++ .stop :: [.logStop])
    ∧ (run ⟨.L1, false, none⟩ (init rescueCalls [[5], [3]] 0) (turns 60)).over = true
    ∧ (run ⟨.L1, false, none⟩ (init rescueCalls [[5], [3]] 0) (turns 60)).out = [.header, .finish 8] := by
  refine ⟨rfl, by simp [Legal], by decide +kernel, by decide +kernel⟩

/-- While the thread that runs the command holds the lock on the statistics, nobody else prints: between `pause` and `resume`
the messages of `check` and `repair` are not torn apart. -/
theorem C59_quiet_partial (c : Cfg) {prog : List Call} (h : Legal false prog) (pipeline : List (List Nat)) (units : Nat)
    (ts : List Tid) (t : Tid) (ht : t ≠ .main) (s' : St)
    (hh : (run c (init prog pipeline units) ts).sOwner = some .main)
    (hs : step c (run c (init prog pipeline units) ts) t = some s') :
    s'.out = (run c (init prog pipeline units) ts).out := by
  have hi := inv_run (c := c) ts (inv_init h pipeline units)
  generalize run c (init prog pipeline units) ts = s at hi hh hs
  refine (quiet hs (fun e => ht e.1) ?_).1
  rintro ⟨_, w, hr⟩
  have := hi.sRun.2 (by rw [hr]; rfl)
  rw [hh] at this; cases this

example : (run ⟨.L2, false, some 2⟩ (init (checkCalls [(1, true), (1, false)] true) [] 0) (turns 12)).sOwner = some .main := by
  decide +kernel

/-- Between `pause` and `resume` at most one report is printed even without the lock: the one that was under way. -/
theorem C59_paused_partial (c : Cfg) {prog : List Call} (h : Legal false prog) (hstart : prog.head? = some .start)
    (pipeline : List (List Nat)) (units : Nat) (hT : 100 * (units + amountOf prog pipeline) < 2 ^ 64) (ts : List Tid)
    (made : List Call) (hmade : prog ++ [.stop, .logStop] = made ++ (run c (init prog pipeline units) ts).todo)
    (hp : pausedAfter made = true) (hm : (run c (init prog pipeline units) ts).mpc = .idle)
    (hd : (run c (init prog pipeline units) ts).down = false) (more : List Tid) (hmore : .main ∉ more) :
    ∃ es, (run c (init prog pipeline units) (ts ++ more)).out = (run c (init prog pipeline units) ts).out ++ es
      ∧ es.length ≤ 1 := by
  rw [run_append]
  have hI := all_run (c := c) h hT ts
  obtain ⟨pre, hc⟩ := called_run (c := c) prog pipeline units ts
  have := called_unique hc hmade
  subst this
  generalize run c (init prog pipeline units) ts = s at hI hc hm hd
  have hne : pre ≠ [] := by rintro rfl; cases hp
  refine suspended hT s.out more s hmore hI hm (hc.begun hstart hne) hd ?_ (Or.inl rfl)
  rcases hc.off hstart hp with e | e | e
  · rw [hd] at e; cases e
  · rw [hm] at e; cases e
  · exact e

/-- And after `resume` reporting goes on: at level 2, whenever it is not suspended and nobody holds the lock, the reporting
thread gets, by moving on, to print a report with the current number. -/
theorem C59_resumed (c : Cfg) {prog : List Call} (h : Legal false prog) (pipeline : List (List Nat)) (units : Nat)
    (hT : 100 * (units + amountOf prog pipeline) < 2 ^ 64) (ts : List Tid)
    (made : List Call) (hmade : prog ++ [.stop, .logStop] = made ++ (run c (init prog pipeline units) ts).todo)
    (hp : pausedAfter made = false) (hm : (run c (init prog pipeline units) ts).mpc = .idle)
    (hs : (run c (init prog pipeline units) ts).started = true) (hd : (run c (init prog pipeline units) ts).down = false)
    (hso : (run c (init prog pipeline units) ts).sOwner = none) (hl : c.level = .L2) :
    ∃ k e, (run c (init prog pipeline units) (ts ++ List.replicate k .runner)).out
        = (run c (init prog pipeline units) ts).out ++ [e]
      ∧ e.shown = some (run c (init prog pipeline units) ts).units := by
  have hI := all_run (c := c) h hT ts
  obtain ⟨pre, hc⟩ := called_run (c := c) prog pipeline units ts
  have := called_unique hc hmade
  subst this
  simp only [run_append]
  generalize run c (init prog pipeline units) ts = s at hI hc hm hd hs hso
  obtain ⟨k, hk⟩ := prints hT hI hm hs hd (hc.on hp) hso hl
  refine ⟨k, _, hk, ?_⟩
  cases c.json <;> rfl

/-- A `show` which is about to call `resume`, and one which has called it. -/
example : ∃ ts ts' made made', showCalls [(512, true)] ++ [.stop, .logStop]
      = made ++ (run ⟨.L2, false, none⟩ (init (showCalls [(512, true)]) [] 0) ts).todo ∧ pausedAfter made = true
    ∧ (run ⟨.L2, false, none⟩ (init (showCalls [(512, true)]) [] 0) ts).mpc = .idle
    ∧ (run ⟨.L2, false, none⟩ (init (showCalls [(512, true)]) [] 0) ts).down = false
    ∧ showCalls [(512, true)] ++ [.stop, .logStop]
      = made' ++ (run ⟨.L2, false, none⟩ (init (showCalls [(512, true)]) [] 0) ts').todo ∧ pausedAfter made' = false
    ∧ (run ⟨.L2, false, none⟩ (init (showCalls [(512, true)]) [] 0) ts').mpc = .idle
    ∧ (run ⟨.L2, false, none⟩ (init (showCalls [(512, true)]) [] 0) ts').sOwner = none :=
  ⟨List.replicate 4 .main ++ List.replicate 7 .runner ++ [.main] ++ List.replicate 3 .runner ++ List.replicate 8 .main,
    List.replicate 4 .main ++ List.replicate 7 .runner ++ [.main] ++ List.replicate 3 .runner ++ List.replicate 9 .main,
    [.start, .acquire, .add 512, .release, .pause], [.start, .acquire, .add 512, .release, .pause, .resume],
    by decide +kernel, by decide +kernel, by decide +kernel, by decide +kernel, by decide +kernel, by decide +kernel,
    by decide +kernel, by decide +kernel⟩

/-- Without the lock (`show`, `update --verbose`) that is not so: the reporting thread looks at `active_flag` first and prints
later, so a line of progress may appear after `pause` has returned and before `resume` is called, in the middle of what the
command prints. -/
theorem C59_pause_violated : ∃ (c : Cfg) (blocks : List (Nat × Bool)) (ts more : List Tid) (k : List Call),
    (run c (init (showCalls blocks) [] 0) ts).mpc = .idle
      ∧ (run c (init (showCalls blocks) [] 0) ts).todo = .resume :: k
      ∧ (run c (init (showCalls blocks) [] 0) ts).active = false
      ∧ .main ∉ more
      ∧ (run c (init (showCalls blocks) [] 0) (ts ++ more)).todo = .resume :: k
      ∧ (run c (init (showCalls blocks) [] 0) (ts ++ more)).out
          = (run c (init (showCalls blocks) [] 0) ts).out ++ [.line 512 512 (some 50)] :=
  ⟨⟨.L2, false, some 1024⟩, [(512, true)],
    -- start; the reporter goes through its loop and finds itself active; the block is counted; `pause`
    List.replicate 4 .main ++ List.replicate 7 .runner ++ [.main] ++ List.replicate 3 .runner
      ++ List.replicate 8 .main, List.replicate 3 .runner, [.stop, .stop, .logStop],
    by decide +kernel, by decide +kernel, by decide +kernel, by decide +kernel, by decide +kernel, by decide +kernel⟩

/-- The bar has 25 cells between its brackets whatever the percentage, and the part of them that is filled is the percentage,
rounded down. -/
theorem C59_bar (n total : Nat) (h : 100 * n < 2 ^ 64) : ∃ p, calcPercent n total = some p ∧ p ≤ 100
    ∧ (makeProgressBar p).length = 27 ∧ (makeProgressBar p).count '#' = 25 * p / 100
    ∧ (makeProgressBar p).count '-' = 25 - 25 * p / 100
    ∧ (total ≤ n → p = 100) ∧ (n < total → p < 100) := by
  have hp : calcPercent n total = some (percentOf total n) := by
    simp only [calcPercent, percentOf]
    by_cases ht : total = 0
    · simp [ht]
    · simp only [if_neg ht, if_pos h]
  have hle : percentOf total n ≤ 100 := by
    simp only [percentOf]; split
    · exact Nat.le_refl _
    · exact Nat.min_le_right _ _
  have h25 : 25 * percentOf total n / 100 ≤ 25 := by omega
  refine ⟨_, hp, hle, ?_, ?_, ?_, ?_, ?_⟩
  · simp [makeProgressBar]; omega
  · simp [makeProgressBar, List.count_append, List.count_replicate]
  · simp [makeProgressBar, List.count_append, List.count_replicate]
  · intro hn
    simp only [percentOf]
    split
    · rfl
    · rename_i ht
      refine Nat.min_eq_right ?_
      rw [Nat.le_div_iff_mul_le (by omega)]
      omega
  · intro hn
    simp only [percentOf]
    rw [if_neg (by omega)]
    refine Nat.lt_of_le_of_lt (Nat.min_le_left _ _) ?_
    rw [Nat.div_lt_iff_lt_mul (by omega)]
    omega

example : calcPercent 300 1000 = some 30 ∧ String.ofList (makeProgressBar 30) = "[#######------------------]" := by
  exact ⟨by decide, by decide⟩

/-- The bound is sharp: one hundredth of 2^64 units and `100 * units_so_far` no longer fits. -/
theorem C59_overflow_violated : ∃ n total, n < 2 ^ 64 ∧ total < 2 ^ 64 ∧ n ≤ total ∧ calcPercent n total = none :=
  ⟨2 ^ 64 / 100 + 1, 2 ^ 63, by decide, by decide, by decide, by decide⟩

/-- Whatever the log says has been true at some moment before. -/
theorem C59_log (c : Cfg) (prog : List Call) (pipeline : List (List Nat)) (units : Nat) (ts : List Tid) (n : Nat)
    (hn : (run c (init prog pipeline units) ts).log = some n) :
    ∃ before after, ts = before ++ after ∧ (run c (init prog pipeline units) before).units = n := by
  have key : ∀ s s' t, step c s t = some s' → s'.log = s.log ∨ s'.log = some s.units := by
    intro s s' t hs
    cases t with
    | main =>
      simp only [step, stepMain] at hs
      (repeat' split at hs) <;> first
        | contradiction
        | (cases hs; exact Or.inl rfl)
        | skip
      rename_i x k _
      cases x <;> simp only [beginCall] at hs <;> (repeat' split at hs) <;> cases hs <;> exact Or.inl rfl
    | runner =>
      simp only [step, stepRunner] at hs
      (repeat' split at hs) <;> first
        | contradiction
        | (cases hs; exact Or.inl rfl)
    | logger =>
      simp only [step, stepLogger] at hs
      (repeat' split at hs) <;> first
        | contradiction
        | (cases hs; exact Or.inl rfl)
        | (cases hs; exact Or.inr rfl)
    | worker i =>
      simp only [step, stepWorker] at hs
      (repeat' split at hs) <;> first
        | contradiction
        | (cases hs; exact Or.inl rfl)
  revert hn
  induction ts using List.reverseRecOn with
  | nil => intro hn; simp [run, init] at hn
  | append_singleton ts t ih =>
    intro hn
    rw [run_append, run] at hn
    have old : (run c (init prog pipeline units) ts).log = some n →
        ∃ before after, ts ++ [t] = before ++ after ∧ (run c (init prog pipeline units) before).units = n := by
      intro e
      obtain ⟨a, b, h1, h2⟩ := ih e
      exact ⟨a, b ++ [t], by rw [h1, List.append_assoc], h2⟩
    split at hn
    · rename_i s' hs
      rw [run] at hn
      rcases key _ _ _ hs with e | e
      · exact old (by rw [← e]; exact hn)
      · rw [e] at hn
        exact ⟨ts, [t], rfl, by simpa using hn⟩
    · rw [run] at hn; exact old hn

example : (run ⟨.L0, false, none⟩ (init rescueCalls [[5], [3]] 0) (turns 40)).log = some 8 := by
  decide +kernel

/-- But it need not be the last word: the thread that writes the log looks at `shutdown_flag` before it writes, so a rescue
may end without its last blocks in the log, even without any log at all. -/
theorem C59_log_violated : ∃ (c : Cfg) (ts : List Tid), (run c (init rescueCalls [[5], [3]] 0) ts).over = true
    ∧ (run c (init rescueCalls [[5], [3]] 0) ts).units = 8 ∧ (run c (init rescueCalls [[5], [3]] 0) ts).log = none :=
  ⟨⟨.L0, false, none⟩,
    -- the log thread is released from the start barrier and gets no time until the command has stopped
    [.logger, .main, .main] ++ List.replicate 4 .main ++ List.replicate 7 .runner ++ [.main, .worker 0, .worker 0, .worker 1, .worker 1]
      ++ List.replicate 10 .main ++ List.replicate 9 .runner ++ List.replicate 4 .main ++ List.replicate 2 .logger
      ++ List.replicate 4 .main,
    by decide +kernel, by decide +kernel, by decide +kernel⟩

end Verif.Progress
