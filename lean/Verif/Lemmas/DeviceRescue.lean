import Verif.Model.DeviceRescue
import Verif.Lemmas.DeviceOut
import Verif.Lemmas.RescueRun
/-!
# Lemmas for C49: `rescue`
-/

namespace Verif.Device
open DeviceSpec RescueSpec
open Rescue (appended_append)

/-! ### Appending through a `BufWriter` -/

theorem writeAt_end (f : File) (bs : List Byte) : f.writeAt f.length bs = f ++ bs := by
  unfold File.writeAt
  split
  · rename_i h; rw [h]; simp
  · simp

/-- A writer that has been given `bytes` since the file was `base`. -/
structure Pending (base bytes : List Byte) (d : Buffered) : Prop where
  pos : d.pos = d.file.length
  all : d.file ++ d.buf = base ++ bytes
  old : base <+: d.file
  room : d.buf.length ≤ capacity

theorem flushLoop_pending (A : Os) {base bytes : List Byte} : ∀ fuel (d : Buffered), Pending base bytes d →
    Pending base bytes (d.flushLoop A fuel).1 ∧ ((d.flushLoop A fuel).2 = true → (d.flushLoop A fuel).1.buf = []) := by
  intro fuel
  induction fuel with
  | zero => intro d h; exact ⟨h, fun hb => by simpa [Buffered.flushLoop] using hb⟩
  | succ fuel ih =>
    intro d h
    unfold Buffered.flushLoop
    by_cases hb : d.buf = []
    · rw [if_pos hb]; exact ⟨h, fun _ => hb⟩
    rw [if_neg hb]
    cases hA : A d.calls d.buf with
    | none => exact ⟨⟨h.pos, h.all, h.old, h.room⟩, fun hx => by cases hx⟩
    | some k =>
      cases k with
      | zero => exact ⟨⟨h.pos, h.all, h.old, h.room⟩, fun hx => by cases hx⟩
      | succ k =>
        refine ih _ ⟨?_, ?_, ?_, ?_⟩
        · simp only [h.pos, writeAt_end, List.length_append]
        · simp only [h.pos, writeAt_end, List.append_assoc, List.take_append_drop]
          exact h.all
        · simp only [h.pos, writeAt_end]
          exact h.old.trans (List.prefix_append _ _)
        · simp only [List.length_drop]
          have := h.room
          omega

theorem offer_pending (A : Os) {base bytes bs : List Byte} (hbs : bs.length < capacity) (d : Buffered) (h : Pending base bytes d) :
    ((d.offer A bs).2 = true ∧ Pending base (bytes ++ bs) (d.offer A bs).1) ∨ ((d.offer A bs).2 = false ∧ Pending base bytes (d.offer A bs).1) := by
  have hadd : ∀ d' : Buffered, Pending base bytes d' → d'.buf.length + bs.length ≤ capacity →
      Pending base (bytes ++ bs) { d' with buf := d'.buf ++ bs } := by
    intro d' h' hl
    refine ⟨h'.pos, ?_, h'.old, by simp only [List.length_append]; exact hl⟩
    show d'.file ++ (d'.buf ++ bs) = _
    rw [← List.append_assoc, h'.all, List.append_assoc]
  unfold Buffered.offer
  by_cases hfull : capacity < d.buf.length + bs.length
  · rw [if_pos hfull]
    obtain ⟨h1, h2⟩ := flushLoop_pending A d.buf.length d h
    rcases hf : d.flush A with ⟨d', b⟩
    have hf' : d.flushLoop A d.buf.length = (d', b) := hf
    rw [hf'] at h1 h2
    cases b with
    | false => exact .inr ⟨rfl, h1⟩
    | true =>
      simp only
      rw [if_pos hbs]
      have hn : d'.buf = [] := h2 rfl
      exact .inl ⟨rfl, hadd d' h1 (by rw [hn]; simp only [List.length_nil]; omega)⟩
  · rw [if_neg hfull]
    simp only
    rw [if_pos hbs]
    exact .inl ⟨rfl, hadd d h (by omega)⟩

theorem appendBlocks_pending (A : Os) {base : List Byte} : ∀ (blocks : List (List Byte)) (bytes : List Byte) (d : Buffered),
    (∀ b ∈ blocks, b.length < capacity) → Pending base bytes d →
    ((appendBlocks A blocks d).2 = true ∧ Pending base (bytes ++ blocks.flatten) (appendBlocks A blocks d).1) ∨
      ((appendBlocks A blocks d).2 = false ∧ ∃ i, Pending base (bytes ++ (blocks.take i).flatten) (appendBlocks A blocks d).1) := by
  intro blocks
  induction blocks with
  | nil => intro bytes d _ h; exact .inl ⟨rfl, by simpa [appendBlocks] using h⟩
  | cons b blocks ih =>
    intro bytes d hb h
    unfold appendBlocks
    rcases offer_pending A (hb b (by simp)) d h with ⟨h1, h2⟩ | ⟨h1, h2⟩
    · rcases ho : d.offer A b with ⟨d', ok⟩
      rw [ho] at h1 h2
      simp only at h1 h2
      subst h1
      simp only
      rcases ih (bytes ++ b) d' (fun x hx => hb x (by simp [hx])) h2 with ⟨h3, h4⟩ | ⟨h3, i, h4⟩
      · exact .inl ⟨h3, by rw [List.flatten_cons, ← List.append_assoc]; exact h4⟩
      · exact .inr ⟨h3, i + 1, by rw [List.take_succ_cons, List.flatten_cons, ← List.append_assoc]; exact h4⟩
    · rcases ho : d.offer A b with ⟨d', ok⟩
      rw [ho] at h1 h2
      simp only at h1 h2
      subst h1
      simp only
      exact .inr ⟨trivial, 0, by simpa using h2⟩

/-- A device on which every call takes at least one byte: there are no errors. -/
theorem appendBlocks_progress {A : Os} (hA : ∀ n bs, bs ≠ [] → ∃ k, A n bs = some (k + 1)) : ∀ (blocks : List (List Byte)) (d : Buffered),
    (∀ b ∈ blocks, b.length < capacity) → (appendBlocks A blocks d).2 = true := by
  intro blocks
  induction blocks with
  | nil => intro d _; rfl
  | cons b blocks ih =>
    intro d hb
    unfold appendBlocks
    have : (d.offer A b).2 = true := by
      unfold Buffered.offer
      have hf : (d.flush A).2 = true := flushLoop_progress hA d.buf.length d (Nat.le_refl _)
      by_cases hfull : capacity < d.buf.length + b.length
      · rw [if_pos hfull]
        rcases hx : d.flush A with ⟨d', ok⟩
        rw [hx] at hf
        simp only at hf
        subst hf
        simp only
        rw [if_pos (hb b (by simp))]
      · rw [if_neg hfull]
        simp only
        rw [if_pos (hb b (by simp))]
    rcases ho : d.offer A b with ⟨d', ok⟩
    rw [ho] at this
    simp only at this
    subst this
    exact ih d' fun x hx => hb x (by simp [hx])

theorem appendGroup_spec (A : Os) (d : Files) (name : List Byte) (blocks : List (List Byte)) (hb : ∀ b ∈ blocks, b.length < capacity) :
    (∀ x, x ≠ name → (appendGroup A d name blocks).dir x = d.dir x) ∧
    (∃ n, (appendGroup A d name blocks).dir name = d.dir name ++ blocks.flatten.take n ∧
      ((appendGroup A d name blocks).failed = false → blocks.flatten.length ≤ n + capacity)) ∧
    ((∀ n bs, bs ≠ [] → ∃ k, A n bs = some (k + 1)) →
      (appendGroup A d name blocks).dir name = d.dir name ++ blocks.flatten ∧ (appendGroup A d name blocks).failed = d.failed) := by
  have h0 : Pending (d.dir name) [] ⟨d.dir name, (d.dir name).length, [], d.calls⟩ :=
    ⟨rfl, rfl, List.prefix_rfl, Nat.zero_le _⟩
  have hb2 := appendBlocks_pending A blocks [] _ hb h0
  unfold appendGroup
  rcases hw : appendBlocks A blocks ⟨d.dir name, (d.dir name).length, [], d.calls⟩ with ⟨w, ok⟩
  rw [hw] at hb2
  simp only [List.nil_append] at hb2
  simp only
  refine ⟨fun x hx => by simp [hx], ?_, fun hA => ?_⟩
  · simp only [Function.update_self]
    rcases hb2 with ⟨rfl, hp⟩ | ⟨rfl, i, hp⟩
    · obtain ⟨q, -⟩ := flushLoop_pending A w.buf.length w hp
      have q : Pending (d.dir name) blocks.flatten (w.flush A).1 := q
      obtain ⟨t, ht⟩ := q.old
      have hall := q.all
      have hroom := q.room
      rw [← ht, List.append_assoc] at hall
      have hall := List.append_cancel_left hall
      refine ⟨t.length, ?_, fun _ => ?_⟩
      · rw [← ht, ← hall, List.take_left']
        rfl
      · rw [← hall, List.length_append]
        omega
    · obtain ⟨q, -⟩ := flushLoop_pending A w.buf.length w hp
      have q : Pending (d.dir name) (blocks.take i).flatten (w.flush A).1 := q
      obtain ⟨t, ht⟩ := q.old
      have hall := q.all
      rw [← ht, List.append_assoc] at hall
      have hall := List.append_cancel_left hall
      refine ⟨t.length, ?_, fun h => by simp at h⟩
      have : blocks.flatten = (blocks.take i).flatten ++ (blocks.drop i).flatten := by rw [← List.flatten_append, List.take_append_drop]
      rw [← ht, this, ← hall, List.append_assoc, List.take_left']
      rfl
  · have hok := appendBlocks_progress hA blocks ⟨d.dir name, (d.dir name).length, [], d.calls⟩ hb
    rw [hw] at hok
    simp only at hok
    subst hok
    rcases hb2 with ⟨-, hp⟩ | ⟨h, -⟩
    · obtain ⟨q, qe⟩ := flushLoop_pending A w.buf.length w hp
      have hn := qe (flushLoop_progress hA w.buf.length w (Nat.le_refl _))
      have hall := q.all
      rw [hn, List.append_nil] at hall
      exact ⟨by simp only [Function.update_self]; exact hall, by simp⟩
    · cases h

/-! ### A buffer -/

/-- The blocks of a group. -/
def blocksOf (b : Rescue.Buffer) (g : Uid × List Nat) : List (List Byte) := g.2.filterMap fun i => b.slots[i]?.map fun s => s.data.take s.block.size

theorem blocksOf_short (b : Rescue.Buffer) (g : Uid × List Nat) : ∀ x ∈ blocksOf b g, x.length < capacity := by
  intro x hx
  unfold blocksOf at hx
  rw [List.mem_filterMap] at hx
  obtain ⟨i, -, hi⟩ := hx
  rw [Option.map_eq_some_iff] at hi
  obtain ⟨s, -, rfl⟩ := hi
  rw [List.length_take]
  have : s.block.size ≤ 4096 := by
    unfold Block.size
    cases s.block.header.version <;> decide
  unfold capacity
  omega

theorem after_group (dir : Dir) (name : List Byte) (blocks : List (List Byte)) :
    Dir.after dir (blocks.map (Rescue.Event.append name)) = Function.update dir name (dir name ++ blocks.flatten) := by
  induction blocks generalizing dir with
  | nil => simp [Dir.after]
  | cons b bs ih =>
    show Dir.after (carryOut dir (.append name b)) _ = _
    rw [ih]
    simp [carryOut]

theorem write_cons (b : Rescue.Buffer) (g : Uid × List Nat) (gs : List (Uid × List Nat)) :
    b.write (g :: gs) = (blocksOf b g).map (Rescue.Event.append (Misc.upperHex g.1.bytes)) ++ b.write gs := by
  unfold Rescue.Buffer.write blocksOf
  rw [List.flatMap_cons, List.map_filterMap]
  congr 2
  funext i
  cases b.slots[i]? <;> rfl

theorem after_append (d : Dir) (a b : List Rescue.Event) : Dir.after d (a ++ b) = Dir.after (Dir.after d a) b := List.foldl_append

theorem groups_good {A : Os} (hA : ∀ n bs, bs ≠ [] → ∃ k, A n bs = some (k + 1)) (b : Rescue.Buffer) :
    ∀ (gs : List (Uid × List Nat)) (d : Files), d.failed = false →
      (rescueGroups A b gs d).dir = Dir.after d.dir (b.write gs) ∧ (rescueGroups A b gs d).failed = false := by
  intro gs
  induction gs with
  | nil => intro d h; exact ⟨rfl, h⟩
  | cons g gs ih =>
    intro d h
    obtain ⟨h1, -, h3⟩ := appendGroup_spec A d (Misc.upperHex g.1.bytes) (blocksOf b g) (blocksOf_short b g)
    obtain ⟨h4, h5⟩ := h3 hA
    rw [h] at h5
    have h6 : (appendGroup A d (Misc.upperHex g.1.bytes) (blocksOf b g)).dir =
        Dir.after d.dir ((blocksOf b g).map (Rescue.Event.append (Misc.upperHex g.1.bytes))) := by
      rw [after_group]
      funext x
      by_cases hx : x = Misc.upperHex g.1.bytes
      · subst hx; rw [Function.update_self]; exact h4
      · rw [Function.update_of_ne hx]; exact h1 x hx
    have h7 : rescueGroups A b (g :: gs) d = rescueGroups A b gs (appendGroup A d (Misc.upperHex g.1.bytes) (blocksOf b g)) := by
      show (if (appendGroup A d (Misc.upperHex g.1.bytes) (blocksOf b g)).failed then _ else _) = _
      rw [h5]
      rfl
    rw [h7, write_cons, after_append, ← h6]
    exact ih _ h5

/-- Whatever the device does: a file gets some of the bytes meant for it, in their order. -/
theorem groups_sub (A : Os) (b : Rescue.Buffer) (x : List Byte) : ∀ (gs : List (Uid × List Nat)) (d : Files),
    ∃ y, y.Sublist (Rescue.appended x (b.write gs)).flatten ∧ (rescueGroups A b gs d).dir x = d.dir x ++ y := by
  intro gs
  induction gs with
  | nil => intro d; exact ⟨[], List.nil_sublist _, by simp [rescueGroups]⟩
  | cons g gs ih =>
    intro d
    obtain ⟨h1, ⟨n, h2, -⟩, -⟩ := appendGroup_spec A d (Misc.upperHex g.1.bytes) (blocksOf b g) (blocksOf_short b g)
    have h3 : ∃ y, y.Sublist (Rescue.appended x ((blocksOf b g).map (Rescue.Event.append (Misc.upperHex g.1.bytes)))).flatten ∧
        (appendGroup A d (Misc.upperHex g.1.bytes) (blocksOf b g)).dir x = d.dir x ++ y := by
      have h4 := congrFun (after_group (fun _ => []) (Misc.upperHex g.1.bytes) (blocksOf b g)) x
      rw [Rescue.after_eq] at h4
      by_cases hx : x = Misc.upperHex g.1.bytes
      · subst hx
        rw [Function.update_self] at h4
        simp only [List.nil_append] at h4
        exact ⟨_, by rw [h4]; exact List.take_sublist _ _, h2⟩
      · exact ⟨[], List.nil_sublist _, by rw [h1 x hx]; simp⟩
    have h7 : rescueGroups A b (g :: gs) d = if (appendGroup A d (Misc.upperHex g.1.bytes) (blocksOf b g)).failed then
      appendGroup A d (Misc.upperHex g.1.bytes) (blocksOf b g) else
        rescueGroups A b gs (appendGroup A d (Misc.upperHex g.1.bytes) (blocksOf b g)) := rfl
    obtain ⟨y, hy, h3⟩ := h3
    rw [h7, write_cons, appended_append, List.flatten_append]
    split
    · exact ⟨y, hy.trans (List.sublist_append_left _ _), h3⟩
    · obtain ⟨z, hz, h8⟩ := ih (appendGroup A d (Misc.upperHex g.1.bytes) (blocksOf b g))
      exact ⟨y ++ z, hy.append hz, by rw [h8, h3, List.append_assoc]⟩

/-! ### The pipeline -/

/-- Without the device. -/
def proj (s : Pipeline.Sys 3 (Rescue.St × Files) Rescue.Msg) : Pipeline.Sys 3 Rescue.St Rescue.Msg :=
  ⟨fun i => ⟨(s.thread i).st.1, (s.thread i).phase⟩, s.queue⟩

theorem proj_update (s : Pipeline.Sys 3 (Rescue.St × Files) Rescue.Msg) (i : Fin 3) (t : Pipeline.Thread (Rescue.St × Files) Rescue.Msg)
    (q : Fin 3 → List (Option Rescue.Msg)) :
    proj ⟨Function.update s.thread i t, q⟩ = ⟨Function.update (proj s).thread i ⟨t.st.1, t.phase⟩, q⟩ := by
  unfold proj
  congr 1
  funext j
  by_cases h : j = i
  · subst h; simp
  · simp [h]

theorem proj_phase (s : Pipeline.Sys 3 (Rescue.St × Files) Rescue.Msg) (i : Fin 3) : ((proj s).thread i).phase = (s.thread i).phase := rfl
theorem proj_st (s : Pipeline.Sys 3 (Rescue.St × Files) Rescue.Msg) (i : Fin 3) : ((proj s).thread i).st = (s.thread i).st.1 := rfl
theorem proj_queue (s : Pipeline.Sys 3 (Rescue.St × Files) Rescue.Msg) : (proj s).queue = s.queue := rfl

/-- The writer's state afterwards: the same, or that after a buffer. -/
def Wrote (A : Os) (E : Rescue.Env) (x y : Rescue.St × Files) : Prop :=
  y = x ∨ ∃ m : Rescue.Msg, (rescueGroups A m.2 (E.order x.1.turn m.2.groups) x.2).failed = false ∧
    y = ((Rescue.writerStep E x.1 m).1, rescueGroups A m.2 (E.order x.1.turn m.2.groups) x.2)

theorem step_proj {A : Os} {E : Rescue.Env} {p : Rescue.Param} {f : File} {req : Nat} {i : Fin 3} {s t : Pipeline.Sys 3 (Rescue.St × Files) Rescue.Msg}
    (h : (rescueRing A E p f req).stepT i s = some t) :
    ((Rescue.ring E p f req).stepT i (proj s) = some (proj t) ∧ Wrote A E (s.thread 2).st (t.thread 2).st ∧
        ((s.thread 2).phase.arrived = true → (t.thread 2).st = (s.thread 2).st) ∧
        ((s.thread 2).phase = .closing → (t.thread 2).st = (s.thread 2).st)) ∨
      ((s.thread 2).phase = .recv ∧ (t.thread 2).phase = .closing ∧ ∃ m : Rescue.Msg,
        (t.thread 2).st = ((s.thread 2).st.1, rescueGroups A m.2 (E.order (s.thread 2).st.1.turn m.2.groups) (s.thread 2).st.2) ∧
        (t.thread 2).st.2.failed = true ∧
        ∃ u, (Rescue.ring E p f req).stepT 2 (proj s) = some u ∧ (u.thread 2).st = (Rescue.writerStep E (s.thread 2).st.1 m).1) := by
  have same : ∀ (th : Pipeline.Thread (Rescue.St × Files) Rescue.Msg) (q : Fin 3 → List (Option Rescue.Msg)), th.st = (s.thread i).st →
      ((⟨Function.update s.thread i th, q⟩ : Pipeline.Sys 3 (Rescue.St × Files) Rescue.Msg).thread 2).st = (s.thread 2).st := by
    intro th q hst
    by_cases hi : (2 : Fin 3) = i
    · subst hi; simp [hst]
    · simp [hi]
  have keep : ∀ (th : Pipeline.Thread (Rescue.St × Files) Rescue.Msg) (e : Pipeline.Effect Rescue.Msg), th.st = (s.thread i).st →
      (Rescue.ring E p f req).act i ((proj s).thread i) ((proj s).queue i).head? ((Rescue.ring E p f req).room (proj s) (Pipeline.next i))
        (Pipeline.allArrived (proj s)) = some (⟨th.st.1, th.phase⟩, e) →
      ((Rescue.ring E p f req).stepT i (proj s) = some (proj ⟨Function.update s.thread i th, Pipeline.applyEffect i s.queue e⟩) ∧
        Wrote A E (s.thread 2).st ((⟨Function.update s.thread i th, Pipeline.applyEffect i s.queue e⟩ :
          Pipeline.Sys 3 (Rescue.St × Files) Rescue.Msg).thread 2).st ∧
        ((s.thread 2).phase.arrived = true → ((⟨Function.update s.thread i th, Pipeline.applyEffect i s.queue e⟩ :
          Pipeline.Sys 3 (Rescue.St × Files) Rescue.Msg).thread 2).st = (s.thread 2).st) ∧
        ((s.thread 2).phase = .closing → ((⟨Function.update s.thread i th, Pipeline.applyEffect i s.queue e⟩ :
          Pipeline.Sys 3 (Rescue.St × Files) Rescue.Msg).thread 2).st = (s.thread 2).st)) := by
    intro th e hst hact
    refine ⟨?_, .inl (same th _ hst), fun _ => same th _ hst, fun _ => same th _ hst⟩
    unfold Pipeline.Ring.stepT
    rw [hact, proj_update]
    rfl
  have hroom : (Rescue.ring E p f req).room (proj s) (Pipeline.next i) = (rescueRing A E p f req).room s (Pipeline.next i) := rfl
  have hall : Pipeline.allArrived (proj s) = Pipeline.allArrived s := rfl
  unfold Pipeline.Ring.stepT at h
  cases ha : (rescueRing A E p f req).act i (s.thread i) (s.queue i).head? ((rescueRing A E p f req).room s (Pipeline.next i)) (Pipeline.allArrived s) with
  | none => rw [ha] at h; cases h
  | some x =>
    obtain ⟨th, e⟩ := x
    rw [ha] at h
    simp only [Option.some.injEq] at h
    subst h
    unfold Pipeline.Ring.act at ha
    cases hp : (s.thread i).phase with
    | recv =>
      rw [hp] at ha
      simp only at ha
      cases hq : (s.queue i).head? with
      | none => rw [hq] at ha; cases ha
      | some o =>
        rw [hq] at ha
        cases o with
        | none =>
          simp only [Option.some.injEq, Prod.mk.injEq] at ha
          obtain ⟨rfl, rfl⟩ := ha
          exact .inl (keep _ _ rfl (by unfold Pipeline.Ring.act; simp [proj_phase, proj_st, proj_queue, hp, *]))
        | some m =>
          simp only at ha
          by_cases hi : i = 2
          · subst hi
            have hstep : (rescueRing A E p f req).step 2 (s.thread 2).st m =
                if (rescueGroups A m.2 (E.order (s.thread 2).st.1.turn m.2.groups) (s.thread 2).st.2).failed then
                  (((s.thread 2).st.1, rescueGroups A m.2 (E.order (s.thread 2).st.1.turn m.2.groups) (s.thread 2).st.2), none)
                else (((Rescue.writerStep E (s.thread 2).st.1 m).1, rescueGroups A m.2 (E.order (s.thread 2).st.1.turn m.2.groups) (s.thread 2).st.2),
                  (Rescue.writerStep E (s.thread 2).st.1 m).2) := rfl
            have : (Rescue.ring E p f req).act 2 ((proj s).thread 2) ((proj s).queue 2).head? ((Rescue.ring E p f req).room (proj s) (Pipeline.next 2))
                (Pipeline.allArrived (proj s)) = some (⟨(Rescue.writerStep E (s.thread 2).st.1 m).1, .send [(m.1, m.2.reset)]⟩, .pop) := by
              have hs2 : (Rescue.ring E p f req).step 2 (s.thread 2).st.1 m = Rescue.writerStep E (s.thread 2).st.1 m := rfl
              unfold Pipeline.Ring.act
              simp only [proj_phase, proj_st, proj_queue, hp, hq, hs2]
              rfl
            rw [hstep] at ha
            by_cases hf : (rescueGroups A m.2 (E.order (s.thread 2).st.1.turn m.2.groups) (s.thread 2).st.2).failed = true
            · rw [if_pos hf] at ha
              simp only [Option.some.injEq, Prod.mk.injEq] at ha
              obtain ⟨rfl, rfl⟩ := ha
              refine .inr ⟨hp, by simp, m, by simp, by simpa using hf, ⟨Function.update (proj s).thread 2 ⟨(Rescue.writerStep E (s.thread 2).st.1 m).1, .send [(m.1, m.2.reset)]⟩,
                  Pipeline.applyEffect 2 (proj s).queue .pop⟩, ?_, ?_⟩
              · unfold Pipeline.Ring.stepT
                rw [this]
              · simp
            · rw [if_neg hf] at ha
              have hout : (Rescue.writerStep E (s.thread 2).st.1 m).2 = some [(m.1, m.2.reset)] := rfl
              rw [hout] at ha
              simp only [Option.some.injEq, Prod.mk.injEq] at ha
              obtain ⟨rfl, rfl⟩ := ha
              refine .inl ⟨?_, .inr ⟨m, by simpa using hf, by simp⟩, fun h => by rw [hp] at h; simp [Pipeline.Phase.arrived] at h,
                fun h => by rw [hp] at h; cases h⟩
              unfold Pipeline.Ring.stepT
              rw [this, proj_update]
              rfl
          · have hstep : (rescueRing A E p f req).step i (s.thread i).st m =
                ((((Rescue.ring E p f req).step i (s.thread i).st.1 m).1, (s.thread i).st.2), ((Rescue.ring E p f req).step i (s.thread i).st.1 m).2) := by
              show (if i = 2 then _ else _) = _
              rw [if_neg hi]
            rw [hstep] at ha
            rcases hx : (Rescue.ring E p f req).step i (s.thread i).st.1 m with ⟨y, o⟩
            rw [hx] at ha
            have h2 : (2 : Fin 3) ≠ i := fun h => hi h.symm
            have done : ∀ (th : Pipeline.Thread (Rescue.St × Files) Rescue.Msg) (e : Pipeline.Effect Rescue.Msg),
                (Rescue.ring E p f req).act i ((proj s).thread i) ((proj s).queue i).head? ((Rescue.ring E p f req).room (proj s) (Pipeline.next i))
                  (Pipeline.allArrived (proj s)) = some (⟨th.st.1, th.phase⟩, e) →
                (Rescue.ring E p f req).stepT i (proj s) = some (proj ⟨Function.update s.thread i th, Pipeline.applyEffect i s.queue e⟩) ∧
                ((⟨Function.update s.thread i th, Pipeline.applyEffect i s.queue e⟩ :
                  Pipeline.Sys 3 (Rescue.St × Files) Rescue.Msg).thread 2).st = (s.thread 2).st := by
              intro th e hact
              refine ⟨?_, by simp [h2]⟩
              unfold Pipeline.Ring.stepT
              rw [hact, proj_update]
              rfl
            cases o with
            | none =>
              simp only [Option.some.injEq, Prod.mk.injEq] at ha
              obtain ⟨rfl, rfl⟩ := ha
              obtain ⟨d1, d2⟩ := done ⟨(y, (s.thread i).st.2), .closing⟩ .pop (by unfold Pipeline.Ring.act; simp [proj_phase, proj_st, proj_queue, hp, *])
              exact .inl ⟨d1, .inl d2, fun _ => d2, fun _ => d2⟩
            | some outs =>
              simp only [Option.some.injEq, Prod.mk.injEq] at ha
              obtain ⟨rfl, rfl⟩ := ha
              obtain ⟨d1, d2⟩ := done ⟨(y, (s.thread i).st.2), .send outs⟩ .pop (by unfold Pipeline.Ring.act; simp [proj_phase, proj_st, proj_queue, hp, *])
              exact .inl ⟨d1, .inl d2, fun _ => d2, fun _ => d2⟩
    | send outs =>
      rw [hp] at ha
      cases outs with
      | nil =>
        simp only [Option.some.injEq, Prod.mk.injEq] at ha
        obtain ⟨rfl, rfl⟩ := ha
        exact .inl (keep _ _ rfl (by unfold Pipeline.Ring.act; simp [proj_phase, proj_st, proj_queue, hp, *]))
      | cons m outs =>
        simp only at ha
        split at ha
        · rename_i hr
          simp only [Option.some.injEq, Prod.mk.injEq] at ha
          obtain ⟨rfl, rfl⟩ := ha
          exact .inl (keep _ _ rfl (by unfold Pipeline.Ring.act; simp [proj_phase, proj_st, proj_queue, hp, *]))
        · cases ha
    | closing =>
      rw [hp] at ha
      simp only at ha
      split at ha
      · rename_i hr
        simp only [Option.some.injEq, Prod.mk.injEq] at ha
        obtain ⟨rfl, rfl⟩ := ha
        exact .inl (keep _ _ rfl (by unfold Pipeline.Ring.act; simp [proj_phase, proj_st, proj_queue, hp, *]))
      · cases ha
    | barrier =>
      rw [hp] at ha
      simp only at ha
      split at ha
      · rename_i hr
        simp only [Option.some.injEq, Prod.mk.injEq] at ha
        obtain ⟨rfl, rfl⟩ := ha
        exact .inl (keep _ _ rfl (by unfold Pipeline.Ring.act; simp [proj_phase, proj_st, proj_queue, hp, *]))
      · cases ha
    | gone => rw [hp] at ha; cases ha

/-- A thread that closes stays so. -/
theorem stays {R : Pipeline.Ring 3 Rescue.St Rescue.Msg} {i j : Fin 3} {s t : Pipeline.Sys 3 Rescue.St Rescue.Msg} (h : R.stepT i s = some t)
    (hp : (s.thread j).phase = .closing ∨ (s.thread j).phase.arrived = true) :
    (t.thread j).phase = .closing ∨ (t.thread j).phase.arrived = true := by
  unfold Pipeline.Ring.stepT at h
  split at h
  · cases h
  · rename_i th e ha
    cases h
    by_cases hi : j = i
    · subst hi
      simp only [Function.update_self]
      unfold Pipeline.Ring.act at ha
      cases hq : (s.thread j).phase with
      | recv => rw [hq] at hp; simp [Pipeline.Phase.arrived] at hp
      | send outs => rw [hq] at hp; simp [Pipeline.Phase.arrived] at hp
      | closing =>
        rw [hq] at ha
        simp only at ha
        split at ha
        · cases ha; exact .inr rfl
        · cases ha
      | barrier =>
        rw [hq] at ha
        simp only at ha
        split at ha
        · cases ha; exact .inr rfl
        · cases ha
      | gone => rw [hq] at ha; cases ha
    · simpa [hi] using hp

/-- The directory has got some of the bytes of the events. -/
def Some (d0 d : Dir) (evs : List Rescue.Event) : Prop :=
  ∀ name, ∃ x, x.Sublist (Rescue.appended name evs).flatten ∧ d name = d0 name ++ x

/-- Up to an error of the writer the threads do what they do without a device, and afterwards the writer does nothing any more. -/
def Follows (E : Rescue.Env) (p : Rescue.Param) (f : File) (c : Rescue.Counters) (d0 : Dir) (s : Pipeline.Sys 3 (Rescue.St × Files) Rescue.Msg) : Prop :=
  ((s.thread 2).st.2.failed = false ∧ (∃ k, (Rescue.ring E p f (Rescue.required p f)).Steps k (Rescue.initial E p f c) (proj s)) ∧
    Some d0 (s.thread 2).st.2.dir (s.thread 2).st.1.events) ∨
  ((s.thread 2).st.2.failed = true ∧ ((s.thread 2).phase = .closing ∨ (s.thread 2).phase.arrived = true) ∧
    Issued E p f c (s.thread 2).st.1.events ∧ ∃ evs, Issued E p f c evs ∧ Some d0 (s.thread 2).st.2.dir evs)

theorem steps_snoc {n : Nat} {S M : Type} {R : Pipeline.Ring n S M} {k : Nat} {s t u : Pipeline.Sys n S M} (h : R.Steps k s t) (h' : R.Step t u) :
    R.Steps (k + 1) s u := by
  induction h with
  | refl s => exact .cons h' (.refl _)
  | cons a b ih => exact .cons a (ih h')

/-- Induction from the end. -/
theorem steps_ind {n : Nat} {S M : Type} {R : Pipeline.Ring n S M} {P : Pipeline.Sys n S M → Prop} {k : Nat} {s u : Pipeline.Sys n S M}
    (h : R.Steps k s u) (h0 : P s) (hstep : ∀ t t', P t → R.Step t t' → P t') : P u := by
  induction h with
  | refl s => exact h0
  | cons a b ih => exact ih (hstep _ _ h0 a)

theorem proj_initial (E : Rescue.Env) (p : Rescue.Param) (f : File) (c : Rescue.Counters) (dir : Dir) :
    proj (rescueInitial E p f c dir) = Rescue.initial E p f c := rfl

theorem some_groups {A : Os} {E : Rescue.Env} {d0 : Dir} {x : Rescue.St × Files} (h : Some d0 x.2.dir x.1.events) (m : Rescue.Msg) :
    Some d0 (rescueGroups A m.2 (E.order x.1.turn m.2.groups) x.2).dir (Rescue.writerStep E x.1 m).1.events := by
  intro name
  obtain ⟨y, hy, h1⟩ := h name
  obtain ⟨z, hz, h2⟩ := groups_sub A m.2 name (E.order x.1.turn m.2.groups) x.2
  refine ⟨y ++ z, ?_, by rw [h2, h1, List.append_assoc]⟩
  simp only [Rescue.writerStep, appended_append, List.flatten_append]
  refine hy.append (hz.trans (List.sublist_append_left _ _))

theorem follows {A : Os} {E : Rescue.Env} {p : Rescue.Param} {f : File} {c : Rescue.Counters} {d0 : Dir} {k : Nat}
    {s : Pipeline.Sys 3 (Rescue.St × Files) Rescue.Msg}
    (h : (rescueRing A E p f (Rescue.required p f)).Steps k (rescueInitial E p f c d0) s) : Follows E p f c d0 s := by
  refine steps_ind h (.inl ⟨rfl, ⟨0, .refl _⟩, fun x => ⟨[], List.nil_sublist _, (List.append_nil _).symm⟩⟩) ?_
  rintro t t' hf ⟨i, hi⟩
  rcases step_proj hi with ⟨h1, h2, h3, h4⟩ | ⟨hr, h2, m, h3, h4, u, h5, h6⟩
  · rcases hf with ⟨hn, ⟨k, hk⟩, hs⟩ | ⟨hn, hp, hev⟩
    · refine .inl ⟨?_, ⟨k + 1, steps_snoc hk ⟨i, h1⟩⟩, ?_⟩
      · rcases h2 with h2 | ⟨m, hm, h2⟩
        · rw [h2]; exact hn
        · rw [h2]; exact hm
      · rcases h2 with h2 | ⟨m, hm, h2⟩
        · rw [h2]; exact hs
        · rw [h2]; exact some_groups hs m
    · have he : (t'.thread 2).st = (t.thread 2).st := by
        rcases hp with hp | hp
        · exact h4 hp
        · exact h3 hp
      refine .inr ⟨by rw [he]; exact hn, stays h1 hp, by rw [he]; exact hev⟩
  · rcases hf with ⟨hn, ⟨k, hk⟩, hs⟩ | ⟨hn, hp, hev⟩
    · refine .inr ⟨h4, .inl h2, by rw [h3]; exact ⟨k, proj t, hk, rfl⟩, _, ⟨k + 1, u, steps_snoc hk ⟨2, h5⟩, rfl⟩, ?_⟩
      rw [h6, h3]
      exact some_groups hs m
    · rw [hr] at hp; simp [Pipeline.Phase.arrived] at hp

/-- On a device that takes something of every write nothing fails, and the directory is what the events make of it. -/
theorem follows_progress {A : Os} (hA : ∀ n bs, bs ≠ [] → ∃ k, A n bs = some (k + 1)) {E : Rescue.Env} {p : Rescue.Param} {f : File}
    {c : Rescue.Counters} {d0 : Dir} {k : Nat} {s : Pipeline.Sys 3 (Rescue.St × Files) Rescue.Msg}
    (h : (rescueRing A E p f (Rescue.required p f)).Steps k (rescueInitial E p f c d0) s) :
    (s.thread 2).st.2.failed = false ∧ (s.thread 2).st.2.dir = Dir.after d0 (s.thread 2).st.1.events := by
  refine steps_ind (P := fun s => (s.thread 2).st.2.failed = false ∧ (s.thread 2).st.2.dir = Dir.after d0 (s.thread 2).st.1.events) h
    ⟨rfl, rfl⟩ ?_
  rintro t t' ⟨hf, hd⟩ ⟨i, hi⟩
  rcases step_proj hi with ⟨h1, h2, h3, h4⟩ | ⟨-, h2, m, h3, h4, -⟩
  · rcases h2 with h2 | ⟨m, hm, h2⟩
    · rw [h2]; exact ⟨hf, hd⟩
    · rw [h2]
      refine ⟨hm, ?_⟩
      obtain ⟨g1, g2⟩ := groups_good hA m.2 (E.order (t.thread 2).st.1.turn m.2.groups) (t.thread 2).st.2 hf
      simp only [Rescue.writerStep]
      rw [g1, after_append, after_append, hd]
      rfl
  · rw [h3] at h4
    obtain ⟨g1, g2⟩ := groups_good hA m.2 (E.order (t.thread 2).st.1.turn m.2.groups) (t.thread 2).st.2 hf
    rw [g2] at h4
    cases h4

/-- On such a device an execution is one of the threads without a device. -/
theorem progress_steps {A : Os} (hA : ∀ n bs, bs ≠ [] → ∃ k, A n bs = some (k + 1)) {E : Rescue.Env} {p : Rescue.Param} {f : File}
    {c : Rescue.Counters} {d0 : Dir} {k : Nat} {s : Pipeline.Sys 3 (Rescue.St × Files) Rescue.Msg}
    (h : (rescueRing A E p f (Rescue.required p f)).Steps k (rescueInitial E p f c d0) s) :
    (Rescue.ring E p f (Rescue.required p f)).Steps k (Rescue.initial E p f c) (proj s) := by
  have gen : ∀ k (t s : Pipeline.Sys 3 (Rescue.St × Files) Rescue.Msg), (rescueRing A E p f (Rescue.required p f)).Steps k t s →
      ∀ j, (rescueRing A E p f (Rescue.required p f)).Steps j (rescueInitial E p f c d0) t →
      (Rescue.ring E p f (Rescue.required p f)).Steps k (proj t) (proj s) := by
    intro k t s h
    induction h with
    | refl s => intro _ _; exact .refl _
    | @cons k s t u h h' ih =>
      intro j hj
      have hj' := steps_snoc hj h
      obtain ⟨i, hi⟩ := h
      rcases step_proj hi with ⟨h1, -⟩ | ⟨-, -, m, -, h4, -⟩
      · exact .cons ⟨i, h1⟩ (ih _ hj')
      · rw [(follows_progress hA hj').1] at h4; cases h4
  exact gen k _ _ h 0 (.refl _)

/-- If no thread can go on, then none could without the device. -/
theorem stuck_proj {A : Os} {E : Rescue.Env} {p : Rescue.Param} {f : File} {req : Nat} {s : Pipeline.Sys 3 (Rescue.St × Files) Rescue.Msg}
    (h : ∀ t, ¬ (rescueRing A E p f req).Step s t) : ∀ t, ¬ (Rescue.ring E p f req).Step (proj s) t := by
  rintro t ⟨i, hi⟩
  cases hs : (rescueRing A E p f req).stepT i s with
  | some u => exact h u ⟨i, hs⟩
  | none =>
    have hroom : (Rescue.ring E p f req).room (proj s) (Pipeline.next i) = (rescueRing A E p f req).room s (Pipeline.next i) := rfl
    have hall : Pipeline.allArrived (proj s) = Pipeline.allArrived s := rfl
    unfold Pipeline.Ring.stepT Pipeline.Ring.act at hi hs
    rw [hroom, hall] at hi
    simp only [proj_phase, proj_queue] at hi
    cases hp : (s.thread i).phase with
    | recv =>
      rw [hp] at hi hs
      cases hq : (s.queue i).head? with
      | none => rw [hq] at hi; simp at hi
      | some o =>
        rw [hq] at hs
        cases o with
        | none => simp at hs
        | some m =>
          simp only at hs
          rcases hx : (rescueRing A E p f req).step i (s.thread i).st m with ⟨y, o⟩
          rw [hx] at hs
          cases o <;> simp at hs
    | send outs =>
      rw [hp] at hi hs
      cases outs with
      | nil => simp at hs
      | cons m outs =>
        cases hr : (rescueRing A E p f req).room s (Pipeline.next i) with
        | true => simp [hr] at hs
        | false => simp [hr] at hi
    | closing =>
      rw [hp] at hi hs
      cases hr : (rescueRing A E p f req).room s (Pipeline.next i) with
      | true => simp [hr] at hs
      | false => simp [hr] at hi
    | barrier =>
      rw [hp] at hi hs
      cases hr : Pipeline.allArrived s with
      | true => simp [hr] at hs
      | false => simp [hr] at hi
    | gone => rw [hp] at hi; simp at hi

theorem rescue_one {A : Os} {E : Rescue.Env} {p : Rescue.Param} {f : File} {req : Nat} (i : Fin 3) (s : Rescue.St × Files) (m : Rescue.Msg)
    (s' : Rescue.St × Files) (outs : List Rescue.Msg) (h : (rescueRing A E p f req).step i s m = (s', some outs)) : outs.length = 1 := by
  have h : (if i = 2 then
      if (rescueGroups A m.2 (E.order s.1.turn m.2.groups) s.2).failed then ((s.1, rescueGroups A m.2 (E.order s.1.turn m.2.groups) s.2), none)
      else (((Rescue.writerStep E s.1 m).1, rescueGroups A m.2 (E.order s.1.turn m.2.groups) s.2), (Rescue.writerStep E s.1 m).2)
    else ((((Rescue.ring E p f req).step i s.1 m).1, s.2), ((Rescue.ring E p f req).step i s.1 m).2)) = (s', some outs) := h
  split at h
  · split at h
    · simp at h
    · simp only [Rescue.writerStep, Prod.mk.injEq, Option.some.injEq] at h
      rw [← h.2]; rfl
  · simp only [Prod.mk.injEq] at h
    exact Rescue.ring_one i s.1 m _ outs (Prod.ext rfl h.2)

end Verif.Device
