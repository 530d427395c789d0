import Verif.Lemmas.DeviceRescue
import Verif.Props.Rescue
import Verif.Props.Pipeline
/-!
# C49, `rescue`: what arrives in the output files

`rescueRing` is the model of `rescue` on an operating system `A` that answers write calls; `Rescue.ring`, the model used for C31-C33, runs
on one that takes everything at once.
-/

namespace Verif.Device
open DeviceSpec RescueSpec Rescue Pipeline

/-- Every call takes something.  (What is left is offered again by `BufWriter`.) -/
def TakesSome (A : Answers) : Prop := ∀ n bs, bs ≠ [] → ∃ k, A n bs = some (k + 1)

/-- **C49, rescue.** Whatever the operating system answers and however the threads are scheduled: no thread panics or waits forever, and at
any moment every file of the output directory consists of what was in it before and of bytes of wanted blocks of its uid found in the
image, in the order in which they are there (but some may be missing). -/
theorem C49_rescue {A : Answers} {E : Env} (hE : Ok E) (he : NoErr E) (p : Param) {f : File} (hf : f ≠ []) (dir : Dir) {k : Nat}
    {s : Sys 3 (St × Files) Msg} (h : (rescueRing A E p f (required p f)).Steps k (rescueInitial E p f .zero dir) s) :
    ¬ Panics s ∧ (Finished s ∨ ∃ s', (rescueRing A E p f (required p f)).Step s s') ∧
    ∀ name, ∃ x, x.Sublist (contents p f name (saved p f)) ∧ (s.thread 2).st.2.dir name = dir name ++ x := by
  have hne : List.replicate E.buffers ((Counters.zero, Rescue.Buffer.new E.slots) : Msg) ≠ [] := by
    intro h
    have := congrArg List.length h
    rw [List.length_replicate] at this
    have := hE.buffers
    simp at *; omega
  obtain ⟨h1, h2⟩ := C20_no_deadlock (by decide) (rescueRing A E p f (required p f)) (fun _ => true) (fun _ _ => 0)
    (by
      intro i s m s' outs hstep
      have := rescue_one i s m s' outs hstep
      refine ⟨?_, ?_⟩
      · simp [this]
      · simp) (fun _ => (St.start p f .zero, ⟨dir, 0, false⟩)) (List.replicate E.buffers (.zero, Rescue.Buffer.new E.slots)) hne (fun _ _ => rfl)
    (by intro i; rw [List.length_replicate]; exact Nat.le_refl _) k s h
  refine ⟨h1, h2, fun name => ?_⟩
  have hsome : ∃ evs, Issued E p f .zero evs ∧ Some dir (s.thread 2).st.2.dir evs := by
    rcases follows h with ⟨-, ⟨j, hj⟩, hs⟩ | ⟨-, -, -, hs⟩
    · exact ⟨_, ⟨j, _, hj, rfl⟩, hs⟩
    · exact hs
  obtain ⟨evs, ⟨j, t, hj, rfl⟩, hs⟩ := hsome
  obtain ⟨x, hx, hd⟩ := hs name
  refine ⟨x, hx.trans ?_, hd⟩
  obtain ⟨all, c', bound, hR, -, hall⟩ := run_all hE (p := p) hf (c := .zero) (Nat.dvd_zero _)
  obtain ⟨rest, hrest⟩ := (hall j t hj).2.1
  obtain ⟨l, d, hl, -, hap⟩ := hR.written he
  have h3 : (appended name (t.thread 2).st.events).flatten.Sublist (appended name all).flatten := by
    rw [← hrest, appended_append, List.flatten_append]
    exact List.sublist_append_left _ _
  refine h3.trans ?_
  rw [hap]
  have h4 : saved p f = (l.filter fun x => Wanted p x.2) ++ ((walkAt p f c').filter fun x => Wanted p x.2) := by
    rw [← List.filter_append, ← hl]; rfl
  unfold contents
  rw [h4, List.filter_append, List.flatMap_append, List.flatMap_def]
  exact List.sublist_append_left _ _

/-- **C49, rescue.** On an operating system that takes something of every write `rescue` does what C31 says: it ends, no write fails, and
the files have grown by the wanted blocks. -/
theorem C49_rescue_partial {A : Answers} (hA : TakesSome A) {E : Env} (hE : Ok E) (hs : ∀ n, E.stop n = false) (he : NoErr E) (p : Param)
    {f : File} (hf : f ≠ []) (dir : Dir) :
    ∃ bound, ∀ k s, (rescueRing A E p f (required p f)).Steps k (rescueInitial E p f .zero dir) s → k ≤ bound ∧
      (s.thread 2).st.2.failed = false ∧
      ((∀ s', ¬ (rescueRing A E p f (required p f)).Step s s') → Finished s ∧
        ∀ name, (s.thread 2).st.2.dir name = dir name ++ contents p f name (saved p f)) := by
  obtain ⟨bound, hb⟩ := C31_rescue_partial hE hs he p hf dir
  refine ⟨bound, fun k s h => ?_⟩
  obtain ⟨h1, h2⟩ := hb k _ (progress_steps hA h)
  obtain ⟨h3, h4⟩ := follows_progress hA h
  refine ⟨h1, h3, fun hst => ?_⟩
  obtain ⟨g1, -, -, g2, -⟩ := h2 (stuck_proj hst)
  exact ⟨fun i => g1 i, fun name => by rw [h4]; exact g2 name⟩

/-- **C49, rescue.** On such an operating system this is so too if the rescue was interrupted before and is resumed (C32). -/
theorem C49_rescue_resume_partial {A : Answers} (hA : TakesSome A) {p : Param} {f : File} (hf : f ≠ []) (hlen : f.length < 2 ^ 64) {d0 d : Dir}
    {log : Option File} (h : Interrupted p f d0 d log) {E : Env} (hE : Ok E) (hs : ∀ n, E.stop n = false) (he : NoErr E) {c : Counters}
    (hc : readLog (required p f) log = some c) :
    ∃ bound, ∀ k s, (rescueRing A E p f (required p f)).Steps k (rescueInitial E p f c d) s → k ≤ bound ∧
      ((∀ s', ¬ (rescueRing A E p f (required p f)).Step s s') → Finished s ∧ (s.thread 2).st.2.failed = false ∧
        ∀ x ∈ saved p f, bytesOf p f x <:+: (s.thread 2).st.2.dir (nameOf x.2)) := by
  obtain ⟨bound, hb⟩ := C32_resume hf hlen h hE hs he hc
  refine ⟨bound, fun k s h => ?_⟩
  obtain ⟨h1, h2⟩ := hb k _ (progress_steps hA h)
  obtain ⟨h3, h4⟩ := follows_progress hA h
  refine ⟨h1, fun hst => ?_⟩
  obtain ⟨g1, -, -, g2⟩ := h2 (stuck_proj hst)
  exact ⟨fun i => g1 i, h3, fun x hx => by rw [h4]; exact g2 x hx⟩

/-- **C49, rescue.** Of the blocks of one buffer that belong into one file, at most 8192 bytes (the last ones) are lost without an error. -/
theorem C49_rescue_group (A : Answers) (d : Files) (name : List Byte) (blocks : List (List Byte)) (hb : ∀ b ∈ blocks, b.length < 8192) :
    ∃ n, (appendGroup A d name blocks).dir name = d.dir name ++ blocks.flatten.take n ∧
      ((appendGroup A d name blocks).failed = false → blocks.flatten.length ≤ n + 8192) :=
  (appendGroup_spec A d name blocks hb).2.1

/-! ### Instances and findings -/

/-- A sequential run of the model is one of the schedules. -/
theorem rescue_reach {A : Answers} {E : Env} {p : Param} {f : File} {c : Counters} {dir : Dir} {α : Type} {g : St × Files → α} {r : α} {fuel : Nat}
    (h : ((rescueRing A E p f (required p f)).runSeq fuel (fun _ => (St.start p f c, ⟨dir, 0, false⟩))
      (List.replicate E.buffers (.zero, Rescue.Buffer.new E.slots))).map (fun st => g (st 2)) = some r) :
    ∃ k z, (rescueRing A E p f (required p f)).Steps k (rescueInitial E p f c dir) z ∧ Finished z ∧ g (z.thread 2).st = r := by
  rw [Option.map_eq_some_iff] at h
  obtain ⟨st', hs, hev⟩ := h
  have hcap : ∀ i, (List.replicate E.buffers ((Counters.zero, Rescue.Buffer.new E.slots) : Msg)).length + 1 ≤
      (rescueRing A E p f (required p f)).cap i := by
    intro i; rw [List.length_replicate]; exact Nat.le_refl _
  obtain ⟨k, z, hz1, hz2, hz3, -⟩ := runSeq_all (fun i s m s' outs h => rescue_one i s m s' outs h) hcap hs
  exact ⟨k, z, hz1, hz2, by rw [hz3, hev]⟩

/-- A device that is full. -/
def full : Answers := fun _ _ => none

/-- A device that takes a byte at a time. -/
def slow : Answers := fun _ _ => some 1

theorem slow_takes : TakesSome slow := fun _ _ _ => ⟨0, rfl⟩

/-- A device that has room for one call, and of that only for 100 bytes. -/
def nearlyFull : Answers := fun n _ => if n = 0 then some 100 else none

set_option maxRecDepth 1000000 in
theorem full_run : ((rescueRing full smallEnv everything (blockA1 ++ blockA2) (required everything (blockA1 ++ blockA2))).runSeq 10
  (fun _ => (St.start everything (blockA1 ++ blockA2) .zero, ⟨fun _ => [], 0, false⟩)) [(.zero, Rescue.Buffer.new 1)]).map
    (fun st => ((st 2).1.events, (st 2).2.dir nameA, (st 2).2.failed)) =
    some ([.append nameA blockA1, .stats ⟨128, 0, 1⟩, .append nameA blockA2, .stats ⟨256, 0, 2⟩, .stats ⟨256, 0, 2⟩], [], false) := by
  decide +kernel

set_option maxRecDepth 1000000 in
theorem nearlyFull_run : ((rescueRing nearlyFull smallEnv everything (blockA1 ++ blockA2) (required everything (blockA1 ++ blockA2))).runSeq 10
  (fun _ => (St.start everything (blockA1 ++ blockA2) .zero, ⟨fun _ => [], 0, false⟩)) [(.zero, Rescue.Buffer.new 1)]).map
    (fun st => ((st 2).2.dir nameA, (st 2).2.failed)) = some (blockA1.take 100, false) := by
  decide +kernel

example : ∃ k s, (rescueRing nearlyFull smallEnv everything (blockA1 ++ blockA2) (required everything (blockA1 ++ blockA2))).Steps k
    (rescueInitial smallEnv everything (blockA1 ++ blockA2) .zero fun _ => []) s ∧ Finished s ∧ (s.thread 2).st.2.dir nameA = blockA1.take 100 ∧
    ∃ x, x.Sublist (contents everything (blockA1 ++ blockA2) nameA (saved everything (blockA1 ++ blockA2))) ∧
      (s.thread 2).st.2.dir nameA = [] ++ x := by
  obtain ⟨k, z, h1, h2, h3⟩ := rescue_reach (g := fun x => (x.2.dir nameA, x.2.failed)) nearlyFull_run
  exact ⟨k, z, h1, h2, (Prod.mk.inj h3).1, (C49_rescue small_ok (fun _ => rfl) everything demo_ne _ h1).2.2 nameA⟩

set_option maxRecDepth 1000000 in
theorem demo_contents : contents everything (blockA1 ++ blockA2) nameA (saved everything (blockA1 ++ blockA2)) = blockA1 ++ blockA2 := by
  decide +kernel

example (dir : Dir) : ∃ bound, ∀ k s, (rescueRing slow smallEnv everything (blockA1 ++ blockA2) (required everything (blockA1 ++ blockA2))).Steps k
    (rescueInitial smallEnv everything (blockA1 ++ blockA2) .zero dir) s → k ≤ bound ∧
      ((∀ s', ¬ (rescueRing slow smallEnv everything (blockA1 ++ blockA2) (required everything (blockA1 ++ blockA2))).Step s s') →
        (s.thread 2).st.2.dir nameA = dir nameA ++ (blockA1 ++ blockA2)) := by
  obtain ⟨bound, h⟩ := C49_rescue_partial slow_takes small_ok (fun _ => rfl) (fun _ => rfl) everything demo_ne dir
  refine ⟨bound, fun k s hk => ⟨(h k s hk).1, fun hst => ?_⟩⟩
  rw [((h k s hk).2.2 hst).2 nameA, demo_contents]

set_option maxRecDepth 1000000 in
example (d0 : Dir) : ∃ bound, ∀ k s, (rescueRing slow smallEnv everything (blockA1 ++ blockA2) (required everything (blockA1 ++ blockA2))).Steps k
    (rescueInitial smallEnv everything (blockA1 ++ blockA2) ⟨128, 0, 1⟩
      (d0.torn [.append nameA blockA1, .stats ⟨128, 0, 1⟩] (some (.append nameA blockA2)) 50)) s → k ≤ bound := by
  obtain ⟨bound, h⟩ := C49_rescue_resume_partial slow_takes demo_ne (by rw [demo_length]; decide) (demo_interrupted d0) small_ok (fun _ => rfl)
    (fun _ => rfl) (c := ⟨128, 0, 1⟩) (by decide +kernel)
  exact ⟨bound, fun k s hk => (h k s hk).1⟩

example : ∃ n, (appendGroup nearlyFull ⟨fun _ => [], 0, false⟩ nameA [List.replicate 4096 1, List.replicate 4096 2, List.replicate 4096 3]).dir nameA =
    [] ++ [List.replicate 4096 1, List.replicate 4096 2, List.replicate 4096 3].flatten.take n := by
  obtain ⟨n, h, -⟩ := C49_rescue_group nearlyFull ⟨fun _ => [], 0, false⟩ nameA
    [List.replicate 4096 1, List.replicate 4096 2, List.replicate 4096 3] (by
      intro b hb
      simp only [List.mem_cons, List.not_mem_nil, or_false] at hb
      rcases hb with rfl | rfl | rfl <;> rw [List.length_replicate] <;> decide)
  exact ⟨n, h⟩

set_option maxRecDepth 1000000 in
/-- **C49, finding.** If the device is full, `rescue` may end without an error although nothing has been saved: the last bytes of a group are
written by the destructor of `BufWriter`, which ignores errors.  The counters of the log tell that all blocks have been processed, so that a
resumed run does not look for them any more. -/
theorem C49_rescue_violated : ∃ (A : Answers) (E : Env) (p : Param) (f : File) (k : Nat) (s : Sys 3 (St × Files) Msg) (c c' : Counters),
    Ok E ∧ (rescueRing A E p f (required p f)).Steps k (rescueInitial E p f .zero fun _ => []) s ∧ Finished s ∧
    (s.thread 2).st.2.failed = false ∧ contents p f nameA (saved p f) = blockA1 ++ blockA2 ∧ (s.thread 2).st.2.dir nameA = [] ∧
    (s.thread 2).st.1.events.getLast? = some (.stats c) ∧ c.datas = 2 ∧ readLog (required p f) (some c.serialize) = some c' ∧
    required p f ≤ c'.bytes := by
  obtain ⟨k, z, h1, h2, h3⟩ := rescue_reach (g := fun x => (x.1.events, x.2.dir nameA, x.2.failed)) full_run
  simp only [Prod.mk.injEq] at h3
  obtain ⟨e1, e2, e3⟩ := h3
  exact ⟨full, smallEnv, everything, blockA1 ++ blockA2, k, z, ⟨256, 0, 2⟩, ⟨256, 0, 2⟩, small_ok, h1, h2, e3, demo_contents, e2,
    by rw [e1]; rfl, rfl, by decide +kernel, by decide +kernel⟩

end Verif.Device
