import Verif.Lemmas.RescueFill
import Verif.Lemmas.RescueLog
import Verif.Lemmas.PipelineSeq
import Verif.Lemmas.PipelineMono
/-!
# A whole run of rescue: rounds of appends followed by an update of the counters
-/

namespace Verif.Rescue
open Format ScanSpec Scan Misc RescueSpec Pipeline

/-- The blocks still to be met after `c.bytes` bytes. -/
def walkAt (p : Param) (f : File) (c : Counters) : List (Nat × Block) :=
  walk (required p f) c.bytes (f.drop (base p f + c.bytes))

/-- The appends made for the blocks `l`. -/
structure WritesOf (E : Env) (p : Param) (f : File) (l : List (Nat × Block)) (evs : List Event) : Prop where
  appends : ∀ c, .stats c ∉ evs
  files : ∃ junk : List (Block × List Byte), (NoErr E → junk = []) ∧ ∀ name, appended name evs =
    ((l.filter fun x => Wanted p x.2).filter fun x => nameOf x.2 = name).map (bytesOf p f) ++
      (junk.filter fun x => nameOf x.1 = name).map (·.2)

/-- The events of a run from the counters `c` to the counters `c''`. -/
inductive Rounds (E : Env) (p : Param) (f : File) : Counters → List Event → Counters → Prop
  | stop (c) : Rounds E p f c [] c
  | round {c c'' : Counters} {l : List (Nat × Block)} {d : Nat} {evs rest : List Event} :
      walkAt p f c = l ++ walkAt p f (c.add l d) → (128 ∣ d ∨ f.length ≤ base p f + c.bytes + d) →
      (c.bytes < required p f → c.bytes + d ≤ f.length) → (required p f ≤ c.bytes → d = 0) → WritesOf E p f l evs →
      Rounds E p f (c.add l d) rest c'' → Rounds E p f c (evs ++ [.stats (c.add l d)] ++ rest) c''

/-- A buffer ready to be filled. -/
structure Idle (n : Nat) (b : Buffer) : Prop where
  len : b.slots.length = n
  used : b.used = 0
  groups : b.groups = []

theorem idle_new (n : Nat) : Idle n (Buffer.new n) := ⟨List.length_replicate, rfl, rfl⟩

theorem write_append (b : Buffer) (G : List (Uid × List Nat)) (c : Counters) : Event.stats c ∉ b.write G := by
  unfold Buffer.write
  intro h
  obtain ⟨g, -, hg⟩ := List.mem_flatMap.1 h
  obtain ⟨i, -, hi⟩ := List.mem_filterMap.1 hg
  obtain ⟨s, -, hs⟩ := Option.map_eq_some_iff.1 hi
  simp at hs

/-- What is known of the reader between two buffers. -/
structure Ready (p : Param) (f : File) (st : St) : Prop where
  inside : st.count.bytes < required p f → st.pos + required p f ≤ f.length + st.count.bytes
  place : st.count.bytes < required p f → st.pos = base p f + st.count.bytes

theorem Ready.walkAt_eq {p : Param} {f : File} {st : St} (h : Ready p f st) :
    walk (required p f) st.count.bytes (f.drop st.pos) = walkAt p f st.count := by
  unfold walkAt
  by_cases hb : st.count.bytes < required p f
  · rw [h.place hb]
  · rw [walk_past _ (by omega), walk_past _ (by omega)]

theorem add_bytes (c : Counters) (l : List (Nat × Block)) (d : Nat) : (c.add l d).bytes = c.bytes + d := rfl

/-- Filling, grouping and writing one buffer. -/
theorem round_spec {E : Env} (hE : Ok E) {p : Param} {f : File} {st st2 : St} {b : Buffer} (hb : Idle E.slots b) (hrun : st.run = true)
    (hr : Ready p f st) (c0 : Counters) :
    ∃ st' b' l d evs, readerStep E p f (required p f) st (c0, b) = (st', some [(st.count.add l d, b')]) ∧
      writerStep E st2 (st.count.add l d, b'.groupByUid) =
        ({ st2 with events := st2.events ++ (evs ++ [.stats (st.count.add l d)]), turn := st2.turn + 1 },
          some [(st.count.add l d, b'.groupByUid.reset)]) ∧
      Idle E.slots b'.groupByUid.reset ∧ Ready p f st' ∧ st'.count = st.count.add l d ∧
      walkAt p f st.count = l ++ walkAt p f (st.count.add l d) ∧ (128 ∣ d ∨ f.length ≤ base p f + st.count.bytes + d) ∧
      (st.count.bytes < required p f → st.count.bytes + d ≤ f.length) ∧ (required p f ≤ st.count.bytes → d = 0) ∧ WritesOf E p f l evs ∧
      (st'.run = true → f.length - st'.pos < f.length - st.pos) ∧
      (st'.run = false → (∀ n, E.stop n = false) → NoErr E → required p f ≤ st'.count.bytes) ∧
      (NoErr E → st'.failed = st.failed) ∧ st'.hung = st.hung := by
  obtain ⟨st', b', l, d, hf, hF⟩ := fill_spec E p f (required p f) (f.length + 2) st b (by rw [hb.used]; omega) hrun hr.inside (by omega)
  have hstep : readerStep E p f (required p f) st (c0, b) = (st', some [(st.count.add l d, b')]) := by
    unfold readerStep
    rw [hrun]
    simp only [Bool.not_true, Bool.false_eq_true, if_false]
    rw [hf]
    simp only
    rw [hF.count]
  have hcb : st'.count.bytes = st.count.bytes + d := by rw [hF.count]; rfl
  have hd0 : required p f ≤ st.count.bytes → d = 0 := by
    intro hle
    have hfl := hf
    unfold fill at hfl
    split at hfl
    · cases hfl; have := hF.pos; omega
    · split at hfl
      · cases hfl; have := hF.pos; simp only at this; omega
      · cases hfl; have := hF.pos; simp only at this; omega
  have hready : Ready p f st' := by
    constructor
    · intro h
      have := hr.inside (by omega)
      rw [hF.pos, hcb]; omega
    · intro h
      have := hr.place (by omega)
      rw [hF.pos, hcb]; omega
  have hsplit := hF.split
  rw [hr.walkAt_eq, hready.walkAt_eq, hF.count] at hsplit
  have hal : 128 ∣ d ∨ f.length ≤ base p f + st.count.bytes + d := by
    by_cases hlt : st.count.bytes < required p f
    · rw [← hr.place hlt, ← hF.pos]; exact hF.aligned
    · exact .inl (by rw [hd0 (by omega)]; exact ⟨0, rfl⟩)
  obtain ⟨junk, hj, hent⟩ := hF.entries
  rw [hb.used, List.take_zero, List.map_nil, List.nil_append] at hent
  refine ⟨st', b', l, d, b'.groupByUid.write (E.order st2.turn b'.groupByUid.groups), hstep, rfl, ?_, hready, hF.count, hsplit, hal, ?_, hd0, ?_, ?_,
    hF.stops, hF.failed, hF.rest.1⟩
  · exact ⟨by show (b'.slots.map Slot.reset).length = _; rw [List.length_map, hF.len, hb.len], rfl, rfl⟩
  · intro h
    have h1 := hr.inside h
    have h2 := hr.place h
    have := hF.inside
    omega
  · refine ⟨fun c => write_append _ _ c, junk, hj, ?_⟩
    intro name
    rw [write_groups b' _ (hE.order _ _).symm (by rw [hF.groups, hb.groups]) name]
    have h1 : ∀ S : List Slot, (S.filter fun s => upperHex s.block.header.uid.bytes = name).map (fun s => s.data.take s.block.size) =
        ((S.map Slot.entry).filter fun x => nameOf x.1 = name).map (·.2) := by
      intro S
      rw [List.filter_map, List.map_map]
      rfl
    rw [h1, hent, List.filter_append, List.map_append, List.filter_map, List.map_map]
    congr 1
    apply List.map_congr_left
    intro x hx
    have hxl : x ∈ l := (List.mem_filter.1 (List.mem_filter.1 hx).1).1
    have hxw : x ∈ walk (required p f) st.count.bytes (f.drop st.pos) := by
      rw [hF.split]; exact List.mem_append_left _ hxl
    obtain ⟨hge, hlt, -⟩ := walk_sound _ _ _ _ (Nat.le_refl _) x hxw
    have := hr.place (by omega)
    show f.readAt (st.pos + (x.1 - st.count.bytes)) _ = _
    unfold bytesOf
    rw [this, show base p f + st.count.bytes + (x.1 - st.count.bytes) = base p f + x.1 by omega]
  · intro h
    have := hF.goes h
    rw [hb.len, hb.used] at this
    have h1 := this.2 (by have := hE.slots; omega)
    have h2 := hF.inside
    rw [hF.pos]; omega

/-- The sequential run. -/
theorem run_spec {E : Env} (hE : Ok E) {p : Param} {f : File} : ∀ (n : Nat) (st : Fin 3 → St) (ms : List Msg), ms ≠ [] →
    (∀ m ∈ ms, Idle E.slots m.2) → (st 0).run = true → Ready p f (st 0) → f.length - (st 0).pos ≤ n →
    ∃ fuel st' evs c', (ring E p f (required p f)).runSeq fuel st ms = some st' ∧ (st' 2).events = (st 2).events ++ evs ∧
      Rounds E p f (st 0).count evs c' ∧ (st' 0).count = c' ∧ (NoErr E → (st' 0).failed = (st 0).failed) ∧ (st' 0).hung = (st 0).hung ∧
      ((∀ n, E.stop n = false) → NoErr E → required p f ≤ c'.bytes) := by
  intro n
  induction n with
  | zero =>
    intro st ms hne hidle hrun hready hn
    obtain ⟨m, ms', rfl⟩ := List.exists_cons_of_ne_nil hne
    obtain ⟨s0, b', l, d, evs, h0, h2, hidle', hready', hcnt, hw, hal, hle, hd0, hwr, hgo, hstop, hfail, hhung⟩ :=
      round_spec hE (st2 := st 2) (hidle m (List.mem_cons_self ..)) hrun hready m.1
    have hr0 : s0.run = false := by
      rcases Bool.eq_false_or_eq_true s0.run with h | h
      · have := hgo h; omega
      · exact h
    obtain ⟨st', e0, e1, e2, hrs⟩ := runSeq3 (R := ring E p f (required p f)) (fuel := 1) (ms := ms') (m := m) (st := st) h0 rfl h2
    refine ⟨2, Function.update st' 0 s0, evs ++ [.stats ((st 0).count.add l d)] ++ [], (st 0).count.add l d, ?_, ?_, ?_, ?_, ?_, ?_, ?_⟩
    · rw [hrs]
      obtain ⟨q, qs, hq⟩ : ∃ q qs, ms' ++ [((st 0).count.add l d, b'.groupByUid.reset)] = q :: qs := by
        cases ms' <;> simp
      rw [hq, Ring.runSeq]
      have : (ring E p f (required p f)).step 0 (st' 0) q = (s0, none) := by
        show readerStep _ _ _ _ _ _ = _
        unfold readerStep
        rw [e0, hr0]; rfl
      rw [this]
    · rw [Function.update_of_ne (by decide), e2]
      simp only [List.append_nil]
    · exact .round hw hal hle hd0 hwr (.stop _)
    · rw [Function.update_self]; exact hcnt
    · rw [Function.update_self]; exact hfail
    · rw [Function.update_self]; exact hhung
    · intro a b
      have := hstop hr0 a b
      rwa [hcnt] at this
  | succ n ih =>
    intro st ms hne hidle hrun hready hn
    obtain ⟨m, ms', rfl⟩ := List.exists_cons_of_ne_nil hne
    obtain ⟨s0, b', l, d, evs, h0, h2, hidle', hready', hcnt, hw, hal, hle, hd0, hwr, hgo, hstop, hfail, hhung⟩ :=
      round_spec hE (st2 := st 2) (hidle m (List.mem_cons_self ..)) hrun hready m.1
    rcases Bool.eq_false_or_eq_true s0.run with hr0 | hr0
    · have hrsAll : ∀ fuel, ∃ st', st' 0 = s0 ∧ (st' 2).events = (st 2).events ++ (evs ++ [.stats ((st 0).count.add l d)]) ∧
          (ring E p f (required p f)).runSeq (fuel + 1) st (m :: ms') = (ring E p f (required p f)).runSeq fuel st'
            (ms' ++ [((st 0).count.add l d, b'.groupByUid.reset)]) ∧
          st' = Function.update (Function.update (Function.update st 0 s0) 1 (st 1)) 2
            { st 2 with events := (st 2).events ++ (evs ++ [.stats ((st 0).count.add l d)]), turn := (st 2).turn + 1 } := by
        intro fuel
        refine ⟨_, rfl, rfl, ?_, rfl⟩
        have h1 : (ring E p f (required p f)).step 1 (st 1) ((st 0).count.add l d, b') = (st 1, some [((st 0).count.add l d, b'.groupByUid)]) := rfl
        have h0' : (ring E p f (required p f)).step 0 (st 0) m = (s0, some [((st 0).count.add l d, b')]) := h0
        have h2' : (ring E p f (required p f)).step 2 (st 2) ((st 0).count.add l d, b'.groupByUid) = _ := h2
        rw [Ring.runSeq, h0']
        have hf : List.finRange (2 + 1) = [0, 1, 2] := by decide
        simp only [hf, Ring.pass, Ring.stage, h0', Option.map_some, List.append_nil,
          Function.update_of_ne (show (1 : Fin 3) ≠ 0 by decide), h1, Function.update_of_ne (show (2 : Fin 3) ≠ 0 by decide),
          Function.update_of_ne (show (2 : Fin 3) ≠ 1 by decide), h2']
      obtain ⟨st1, e0, e2, -, hst1⟩ := hrsAll 0
      obtain ⟨fuel, st', evs', c', hs, hev, hR, hc, hfl, hh, hend⟩ := ih st1 (ms' ++ [((st 0).count.add l d, b'.groupByUid.reset)]) (by simp)
        (by
          intro x hx
          rcases List.mem_append.1 hx with hx | hx
          · exact hidle x (List.mem_cons_of_mem _ hx)
          · rw [List.mem_singleton.1 hx]; exact hidle')
        (by rw [e0]; exact hr0) (by rw [e0]; exact hready') (by rw [e0]; have := hgo hr0; omega)
      obtain ⟨st1', -, -, hrs, hst1'⟩ := hrsAll fuel
      rw [hst1', ← hst1] at hrs
      refine ⟨fuel + 1, st', evs ++ [.stats ((st 0).count.add l d)] ++ evs', c', by rw [hrs]; exact hs, ?_, ?_, hc, ?_, ?_, hend⟩
      · rw [hev, e2]; simp only [List.append_assoc]
      · rw [e0, hcnt] at hR
        exact .round hw hal hle hd0 hwr hR
      · intro h; rw [hfl h, e0, hfail h]
      · rw [hh, e0, hhung]
    · obtain ⟨st', e0, e1, e2, hrs⟩ := runSeq3 (R := ring E p f (required p f)) (fuel := 1) (ms := ms') (m := m) (st := st) h0 rfl h2
      refine ⟨2, Function.update st' 0 s0, evs ++ [.stats ((st 0).count.add l d)] ++ [], (st 0).count.add l d, ?_, ?_, ?_, ?_, ?_, ?_, ?_⟩
      · rw [hrs]
        obtain ⟨q, qs, hq⟩ : ∃ q qs, ms' ++ [((st 0).count.add l d, b'.groupByUid.reset)] = q :: qs := by
          cases ms' <;> simp
        rw [hq, Ring.runSeq]
        have : (ring E p f (required p f)).step 0 (st' 0) q = (s0, none) := by
          show readerStep _ _ _ _ _ _ = _
          unfold readerStep
          rw [e0, hr0]; rfl
        rw [this]
      · rw [Function.update_of_ne (by decide), e2]
        simp only [List.append_nil]
      · exact .round hw hal hle hd0 hwr (.stop _)
      · rw [Function.update_self]; exact hcnt
      · rw [Function.update_self]; exact hfail
      · rw [Function.update_self]; exact hhung
      · intro a b
        have := hstop hr0 a b
        rwa [hcnt] at this

/-- The scanned range lies in the file, and resuming after a multiple of 128 bytes goes on exactly there. -/
theorem range_spec (p : Param) {f : File} (hf : f ≠ []) :
    base p f + required p f ≤ f.length ∧ 1 ≤ required p f ∧
      ∀ n, 128 ∣ n → n < required p f → seekTo p f n = base p f + n := by
  have hlen : 1 ≤ f.length := List.length_pos_iff.2 hf
  have hlast : lastPossiblePos (.len f.length) = f.length - 1 := by simp [lastPossiblePos, hf]
  obtain ⟨start, hst⟩ : ∃ s, s = startPos p.fromPos p.forceMisalign 128 (f.length - 1) := ⟨_, rfl⟩
  have h1 : start ≤ f.length - 1 ∧ (p.forceMisalign = false → 128 ∣ start) := by
    rw [hst]
    unfold startPos align roundDown
    cases p.fromPos with
    | none => simp
    | some n =>
      cases p.forceMisalign with
      | true => simp
      | false =>
        simp only [Bool.false_eq_true, if_false]
        have := Nat.div_mul_le_self (min n (f.length - 1)) 128
        exact ⟨by omega, fun _ => ⟨_, Nat.mul_comm _ _⟩⟩
  have hseek : ∀ n, seekTo p f n = min (align p.forceMisalign 128 (start + n)) (f.length - 1) := by
    intro n
    unfold seekTo byteRange
    simp only [hlast, Option.getD_none]
    rw [hst]; rfl
  have hal : ∀ n, 128 ∣ n → align p.forceMisalign 128 (start + n) = start + n := by
    intro n hn
    unfold align roundDown
    cases hm : p.forceMisalign with
    | true => simp
    | false =>
      simp only [Bool.false_eq_true, if_false]
      exact Nat.div_mul_cancel (Nat.dvd_add (h1.2 hm) hn)
  have hreq : required p f = endInc p.toPos start (f.length - 1) - start + 1 := by
    unfold required byteRange
    simp only [hlast, Option.getD_none]
    rw [hst]; rfl
  have hend : endInc p.toPos start (f.length - 1) ≤ f.length - 1 := by
    unfold endInc
    split <;> omega
  have hbase : base p f = start := by
    unfold base
    rw [hseek, hal 0 ⟨0, rfl⟩]; omega
  rw [hbase, hreq]
  refine ⟨by omega, by omega, ?_⟩
  intro n hn hlt
  rw [hseek, hal n hn]
  omega

theorem ready_start (p : Param) {f : File} (hf : f ≠ []) {c : Counters} (hc : 128 ∣ c.bytes) : Ready p f (St.start p f c) := by
  obtain ⟨h1, h2, h3⟩ := range_spec p hf
  have hp : c.bytes < required p f → (St.start p f c).pos = base p f + c.bytes := fun h => h3 _ hc h
  constructor
  · intro h
    rw [hp h]
    show _ ≤ f.length + c.bytes
    omega
  · exact hp

theorem ring_one {E : Env} {p : Param} {f : File} {req : Nat} (i : Fin 3) (s : St) (m : Msg) (s' : St) (outs : List Msg)
    (h : (ring E p f req).step i s m = (s', some outs)) : outs.length = 1 := by
  match i with
  | 0 =>
    have h : readerStep E p f req s m = (s', some outs) := h
    unfold readerStep at h
    split at h
    · simp at h
    · split at h
      · simp at h
      · simp only [Prod.mk.injEq, Option.some.injEq] at h
        rw [← h.2]; rfl
  | 1 =>
    have h : grouperStep s m = (s', some outs) := h
    unfold grouperStep at h
    simp only [Prod.mk.injEq, Option.some.injEq] at h
    rw [← h.2]; rfl
  | 2 =>
    have h : writerStep E s m = (s', some outs) := h
    unfold writerStep at h
    simp only [Prod.mk.injEq, Option.some.injEq] at h
    rw [← h.2]; rfl

/-- Every schedule of the three threads ends, in the state of the sequential run; on the way the events issued are an initial part of
those of the whole run. -/
theorem run_all {E : Env} (hE : Ok E) {p : Param} {f : File} (hf : f ≠ []) {c : Counters} (hc : 128 ∣ c.bytes) :
    ∃ (evs : List Event) (c' : Counters) (bound : Nat), Rounds E p f c evs c' ∧
      ((∀ n, E.stop n = false) → NoErr E → required p f ≤ c'.bytes) ∧
      ∀ j s, (ring E p f (required p f)).Steps j (initial E p f c) s → j ≤ bound ∧ (s.thread 2).st.events <+: evs ∧
        ((∀ s', ¬ (ring E p f (required p f)).Step s s') → Finished s ∧ (s.thread 2).st.events = evs ∧ (s.thread 0).st.count = c' ∧
          (s.thread 0).st.hung = false ∧ (NoErr E → (s.thread 0).st.failed = false)) := by
  have hne : List.replicate E.buffers ((Counters.zero, Buffer.new E.slots) : Msg) ≠ [] := by
    intro h
    have := congrArg List.length h
    rw [List.length_replicate] at this
    have := hE.buffers
    simp at *; omega
  obtain ⟨fuel, st', evs, c', hs, hev, hR, hcnt, hfail, hhung, hend⟩ := run_spec hE f.length (fun _ => St.start p f c)
    (List.replicate E.buffers (.zero, Buffer.new E.slots)) hne (by
      intro m hm
      rw [List.eq_of_mem_replicate hm]; exact idle_new _) rfl (ready_start p hf hc) (by omega)
  have hcap : ∀ i, (List.replicate E.buffers ((Counters.zero, Buffer.new E.slots) : Msg)).length + 1 ≤ (ring E p f (required p f)).cap i := by
    intro i; rw [List.length_replicate]; exact Nat.le_refl _
  obtain ⟨k, z, hz1, hz2, hz3, hz4⟩ := runSeq_all (fun i s m s' outs h => ring_one i s m s' outs h) hcap hs
  have hzev : (z.thread 2).st.events = evs := by rw [hz3, hev]; rfl
  have hzstuck : ∀ s', ¬ (ring E p f (required p f)).Step z s' := by
    rintro z' ⟨i, hi⟩
    obtain ⟨t, e, ha, -⟩ := stepT_eq hi
    have := hz2 i
    simp [Ring.act, this] at ha
  refine ⟨evs, c', k, hR, hend, ?_⟩
  intro j s hjs
  obtain ⟨⟨l, hl⟩, hfin⟩ := hz4 j s hjs
  have hmono : (s.thread 2).st.events <+: (z.thread 2).st.events := by
    refine Ring.Steps.mono (i := 2) (r := fun x y : St => x.events <+: y.events) (fun _ => List.prefix_rfl) (fun _ _ _ h h' => h.trans h') ?_ hl
    intro s m
    show _ <+: (writerStep E s m).1.events
    unfold writerStep
    exact List.prefix_append _ _
  obtain ⟨l', hkl, -⟩ := hz1.unique hzstuck hjs
  refine ⟨by omega, by rw [← hzev]; exact hmono, ?_⟩
  intro hstuck
  have hsz : s = z := by
    cases hl with
    | refl => rfl
    | cons h _ => exact absurd h (hstuck _)
  subst hsz
  refine ⟨hz2, hzev, by rw [hz3]; exact hcnt, by rw [hz3, hhung]; rfl, fun h => by rw [hz3, hfail h]; rfl⟩

/-! ### What the events of a run amount to -/

theorem Rounds.written {E : Env} {p : Param} {f : File} {c c' : Counters} {evs : List Event} (h : Rounds E p f c evs c') (he : NoErr E) :
    ∃ l d, walkAt p f c = l ++ walkAt p f c' ∧ c' = c.add l d ∧ ∀ name, appended name evs =
      ((l.filter fun x => Wanted p x.2).filter fun x => nameOf x.2 = name).map (bytesOf p f) := by
  induction h with
  | stop c => exact ⟨[], 0, rfl, rfl, fun _ => rfl⟩
  | @round c c'' l d evs rest h1 h2 h3 h4 h5 _ ih =>
    obtain ⟨l', d', hl', hc', hap⟩ := ih
    refine ⟨l ++ l', d + d', by rw [h1, hl', List.append_assoc], by rw [hc', add_add], ?_⟩
    intro name
    obtain ⟨junk, hj, hw⟩ := h5.files
    rw [appended_append, appended_append, hw, hj he, hap]
    simp [Rescue.appended, List.filter_append]

theorem count_bound' {c : Counters} (h : c.metas < 2 ^ 64 ∧ c.datas < 2 ^ 64) (b : Block) :
    (c.count b).metas < 2 ^ 64 ∧ (c.count b).datas < 2 ^ 64 := by
  unfold Counters.count
  split
  · exact ⟨Nat.mod_lt _ (by decide), h.2⟩
  · exact ⟨h.1, Nat.mod_lt _ (by decide)⟩

theorem Rounds.last {E : Env} {p : Param} {f : File} {c c' : Counters} {evs : List Event} (h : Rounds E p f c evs c') :
    (evs = [] ∧ c' = c) ∨ evs.getLast? = some (.stats c') := by
  induction h with
  | stop c => exact .inl ⟨rfl, rfl⟩
  | round _ _ _ _ _ _ ih =>
    right
    rcases ih with ⟨rfl, rfl⟩ | ih
    · simp
    · rw [List.getLast?_append, ih]; rfl

/-- The counters after counting the blocks `l`. -/
theorem add_metas (c : Counters) (l : List (Nat × Block)) (d : Nat) (h : c.metas < 2 ^ 64 ∧ c.datas < 2 ^ 64) :
    (c.add l d).metas = (c.metas + l.countP fun x => x.2.blockType = .metadata) % 2 ^ 64 ∧
    (c.add l d).datas = (c.datas + l.countP fun x => x.2.blockType = .data) % 2 ^ 64 := by
  have : ∀ (l : List (Nat × Block)) (c : Counters), c.metas < 2 ^ 64 ∧ c.datas < 2 ^ 64 →
      (l.foldl (fun c x => c.count x.2) c).metas = (c.metas + l.countP fun x => x.2.blockType = .metadata) % 2 ^ 64 ∧
      (l.foldl (fun c x => c.count x.2) c).datas = (c.datas + l.countP fun x => x.2.blockType = .data) % 2 ^ 64 := by
    intro l
    induction l with
    | nil => intro c h; exact ⟨(Nat.mod_eq_of_lt h.1).symm, (Nat.mod_eq_of_lt h.2).symm⟩
    | cons x l ih =>
      intro c h
      have hlt := count_bound' h x.2
      obtain ⟨h1, h2⟩ := ih (c.count x.2) hlt
      rw [List.foldl_cons, h1, h2, List.countP_cons, List.countP_cons]
      unfold Counters.count
      cases hx : x.2.blockType
      · simp only [decide_true, reduceCtorEq, decide_false, if_true, Bool.false_eq_true, if_false]; constructor <;> omega
      · simp only [decide_true, reduceCtorEq, decide_false, if_true, Bool.false_eq_true, if_false]; constructor <;> omega
  exact this l c h

theorem count_bound {c : Counters} (h : c.metas < 2 ^ 64 ∧ c.datas < 2 ^ 64) (l : List (Nat × Block)) (d : Nat) :
    (c.add l d).metas < 2 ^ 64 ∧ (c.add l d).datas < 2 ^ 64 := by
  have : ∀ (l : List (Nat × Block)) (c : Counters), c.metas < 2 ^ 64 ∧ c.datas < 2 ^ 64 →
      (l.foldl (fun c x => c.count x.2) c).metas < 2 ^ 64 ∧ (l.foldl (fun c x => c.count x.2) c).datas < 2 ^ 64 := by
    intro l
    induction l with
    | nil => intro c h; exact h
    | cons x l ih =>
      intro c h
      exact ih _ (count_bound' h x.2)
  exact this l c h

/-- Counters that have been published: all blocks before them have been appended. -/
theorem Rounds.published {E : Env} {p : Param} {f : File} {c c' : Counters} {evs : List Event} (h : Rounds E p f c evs c') :
    ∀ (done : List Event) (c1 : Counters), done <+: evs → .stats c1 ∈ done → c.metas < 2 ^ 64 ∧ c.datas < 2 ^ 64 →
      (128 ∣ c.bytes ∨ f.length ≤ base p f + c.bytes) → c.bytes ≤ f.length →
    ∃ l, walkAt p f c = l ++ walkAt p f c1 ∧ (∀ x ∈ l, Wanted p x.2 → bytesOf p f x ∈ appended (nameOf x.2) done) ∧
      (128 ∣ c1.bytes ∨ f.length ≤ base p f + c1.bytes) ∧ c1.bytes ≤ f.length ∧ c1.metas < 2 ^ 64 ∧ c1.datas < 2 ^ 64 := by
  induction h with
  | stop c =>
    intro done c1 hd hm
    rw [List.prefix_nil.1 hd] at hm
    simp at hm
  | @round c c'' l d evs rest h1 h2 h3 h4 h5 _ ih =>
    intro done c1 hd hm hb hal hle
    have hb' := count_bound hb l d
    have hal' : 128 ∣ (c.add l d).bytes ∨ f.length ≤ base p f + (c.add l d).bytes := by
      rw [add_bytes]
      rcases hal with hal | hal
      · rcases h2 with h2 | h2
        · exact .inl (Nat.dvd_add hal h2)
        · exact .inr (by omega)
      · exact .inr (by omega)
    have hle' : (c.add l d).bytes ≤ f.length := by
      rw [add_bytes]
      by_cases hlt : c.bytes < required p f
      · exact h3 hlt
      · rw [h4 (by omega)]; omega
    have hwritten : ∀ done', evs <+: done' → ∀ x ∈ l, Wanted p x.2 → bytesOf p f x ∈ appended (nameOf x.2) done' := by
      rintro done' ⟨t, rfl⟩ x hx hw
      obtain ⟨junk, -, hf⟩ := h5.files
      rw [appended_append, hf]
      refine List.mem_append_left _ (List.mem_append_left _ ?_)
      exact List.mem_map.2 ⟨x, List.mem_filter.2 ⟨List.mem_filter.2 ⟨hx, by simpa using hw⟩, by simp⟩, rfl⟩
    rw [List.append_assoc] at hd
    rcases List.prefix_or_prefix_of_prefix hd (List.prefix_append evs _) with hd1 | ⟨d1, rfl⟩
    · exact absurd (hd1.subset hm) (h5.appends c1)
    · have hd1 := (List.prefix_append_right_inj _).1 hd
      rcases List.mem_append.1 hm with hm | hm
      · exact absurd hm (h5.appends c1)
      · cases d1 with
        | nil => simp at hm
        | cons e d2 =>
          rw [List.singleton_append, List.cons_prefix_cons] at hd1
          obtain ⟨rfl, hd2⟩ := hd1
          rcases List.mem_cons.1 hm with hm | hm
          · cases hm
            exact ⟨l, h1, hwritten _ (List.prefix_append _ _), hal', hle', hb'.1, hb'.2⟩
          · obtain ⟨l', e1, e2, e3⟩ := ih d2 c1 hd2 hm hb' hal' hle'
            refine ⟨l ++ l', by rw [h1, e1, List.append_assoc], ?_, e3⟩
            intro x hx hw
            rcases List.mem_append.1 hx with hx | hx
            · exact hwritten _ (List.prefix_append _ _) x hx hw
            · rw [appended_append]
              refine List.mem_append_right _ ?_
              have hc : appended (nameOf x.2) (.stats (c.add l d) :: d2) = appended (nameOf x.2) d2 := by simp [Rescue.appended]
              rw [hc]
              exact e2 x hx hw

end Verif.Rescue
