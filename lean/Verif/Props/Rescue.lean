import Verif.Lemmas.RescueLog
import Verif.Lemmas.RescueRun
import Verif.Props.Scan
/-!
# Rescuing blocks from an image (C31), resuming an interrupted rescue (C32), and its log (C33)
-/

namespace Verif.Rescue
open Format ScanSpec Scan Misc RescueSpec Pipeline

/-! ### C33: the log -/

/-- **C33.** A log that was written completely is read back with the same block counters and an aligned offset that is not after the
bytes processed; unless the last block processed reached beyond the end of the range, the offset is less than 128 bytes before. -/
theorem C33_round_trip_partial (total : Nat) (c : Counters) (h1 : c.bytes < 2 ^ 64) (h2 : c.metas < 2 ^ 64) (h3 : c.datas < 2 ^ 64) :
    ∃ c', readLog total (some c.serialize) = some c' ∧ c'.metas = c.metas ∧ c'.datas = c.datas ∧ 128 ∣ c'.bytes ∧
      c'.bytes ≤ c.bytes ∧ (c.bytes ≤ total → c.bytes < c'.bytes + 128) := by
  refine ⟨_, readLog_serialize total h1 h2 h3, rfl, rfl, ?_, ?_, ?_⟩
  · exact ⟨min c.bytes total / 128, by simp [roundDown, Nat.mul_comm]⟩
  · simp only [roundDown]; omega
  · simp only [roundDown]; omega

example : readLog 5000 (some (Counters.serialize ⟨4999, 3, 2 ^ 64 - 1⟩)) = some ⟨4992, 3, 2 ^ 64 - 1⟩ :=
  readLog_serialize 5000 (by decide) (by decide) (by decide)

/-- **C33.** Whatever is accepted gives an aligned offset inside the range. -/
theorem C33_accepted {total : Nat} {log : Option File} {c : Counters} (h : readLog total log = some c) :
    128 ∣ c.bytes ∧ c.bytes ≤ total ∧ c.metas < 2 ^ 64 ∧ c.datas < 2 ^ 64 := readLog_bound h

example : readLog 300 (some (Counters.serialize ⟨1000, 1, 2⟩)) = some ⟨256, 1, 2⟩ := by decide +kernel

/-- **C33.** A log of which only a part was written is not mistaken for another one: it is refused. -/
theorem C33_torn (total : Nat) (c : Counters) {n : Nat} (h : n < c.serialize.length) :
    readLog total (some (c.serialize.take n)) = none := readLog_torn total c h

example : readLog 5000 (some ((Counters.serialize ⟨4096, 10, 22⟩).take 80)) = none := by decide +kernel

/-! ### C31: what a complete rescue saves -/

/-- Everything a completed run that starts with the counters `c` does. -/
theorem complete_run {E : Env} (hE : Ok E) (hs : ∀ n, E.stop n = false) (he : NoErr E) {p : Param} {f : File} (hf : f ≠ [])
    {c : Counters} (hc : 128 ∣ c.bytes) :
    ∃ bound, ∀ k s, (ring E p f (required p f)).Steps k (initial E p f c) s → k ≤ bound ∧
      ((∀ s', ¬ (ring E p f (required p f)).Step s s') → Finished s ∧ (s.thread 0).st.failed = false ∧ (s.thread 0).st.hung = false ∧
        (c.bytes < required p f → ∃ d, required p f ≤ c.bytes + d ∧
          (s.thread 2).st.events.getLast? = some (.stats (c.add (walkAt p f c) d))) ∧
        ∀ name, appended name (s.thread 2).st.events =
          (((walkAt p f c).filter fun x => Wanted p x.2).filter fun x => nameOf x.2 = name).map (bytesOf p f)) := by
  obtain ⟨evs, c', bound, hR, hend, hall⟩ := run_all hE (p := p) hf hc
  refine ⟨bound, fun k s hk => ?_⟩
  obtain ⟨h1, -, h3⟩ := hall k s hk
  refine ⟨h1, fun hst => ?_⟩
  obtain ⟨g1, g2, g3, g4, g5⟩ := h3 hst
  obtain ⟨l, d, hl, hc', hap⟩ := hR.written he
  have hnil : walkAt p f c' = [] := walk_past _ (hend hs he)
  rw [hnil, List.append_nil] at hl
  refine ⟨g1, g5 he, g4, fun hlt => ⟨d, ?_, ?_⟩, fun name => by rw [g2, hap, hl]⟩
  · have := hend hs he
    rw [hc'] at this; exact this
  · rw [g2]
    rcases hR.last with ⟨-, h⟩ | h
    · have := hend hs he
      rw [h] at this; omega
    · rw [h, hc', hl]

theorem walkAt_zero (p : Param) (f : File) : walkAt p f .zero = walk (required p f) 0 (f.drop (base p f)) := rfl

/-- **C31.** A rescue that is not interrupted and meets no read error ends, under every schedule of its three threads, without
failing; then every output file has grown by exactly the wanted blocks of its uid that the walk over the selected range meets, bit
for bit and in the order of their appearance, and the counters last published tell that the range has been processed and how many
blocks of each type were met in it. -/
theorem C31_rescue_partial {E : Env} (hE : Ok E) (hs : ∀ n, E.stop n = false) (he : NoErr E) (p : Param) {f : File} (hf : f ≠ [])
    (dir : Dir) :
    ∃ bound, ∀ k s, (ring E p f (required p f)).Steps k (initial E p f .zero) s → k ≤ bound ∧
      ((∀ s', ¬ (ring E p f (required p f)).Step s s') → Finished s ∧ (s.thread 0).st.failed = false ∧ (s.thread 0).st.hung = false ∧
        (∀ name, dir.after (s.thread 2).st.events name = dir name ++ contents p f name (saved p f)) ∧
        ∃ c, (s.thread 2).st.events.getLast? = some (.stats c) ∧ required p f ≤ c.bytes ∧
          c.metas = (walk (required p f) 0 (f.drop (base p f))).countP (fun x => x.2.blockType = .metadata) % 2 ^ 64 ∧
          c.datas = (walk (required p f) 0 (f.drop (base p f))).countP (fun x => x.2.blockType = .data) % 2 ^ 64) := by
  obtain ⟨bound, h⟩ := complete_run hE hs he (p := p) hf (c := .zero) (Nat.dvd_zero _)
  refine ⟨bound, fun k s hk => ?_⟩
  obtain ⟨h1, h2⟩ := h k s hk
  refine ⟨h1, fun hst => ?_⟩
  obtain ⟨g1, g2, g3, g4, g5⟩ := h2 hst
  refine ⟨g1, g2, g3, fun name => ?_, ?_⟩
  · rw [after_eq, g5]
    unfold contents saved
    rw [List.flatMap_def]; rfl
  · obtain ⟨d, hd, hlast⟩ := g4 (range_spec p hf).2.1
    obtain ⟨m1, m2⟩ := add_metas .zero (walkAt p f .zero) d ⟨by decide, by decide⟩
    refine ⟨_, hlast, by rw [add_bytes]; exact hd, ?_, ?_⟩
    · rw [m1, walkAt_zero]; simp [Counters.zero]
    · rw [m2, walkAt_zero]; simp [Counters.zero]

/-- **C31.** The bytes saved are valid blocks of the image inside the range, and are filed under their own uid. -/
theorem C31_only_blocks (p : Param) (f : File) {x : Nat × Block} (hx : x ∈ saved p f) :
    x.1 < required p f ∧ Wanted p x.2 ∧ ∃ v uid seq payload, IsBlock (bytesOf p f x) v uid seq payload ∧ nameOf x.2 = upperHex uid.bytes := by
  obtain ⟨hx, hw⟩ := List.mem_filter.1 hx
  obtain ⟨-, h2, v, uid, seq, payload, hb, hxb⟩ := walk_sound _ _ 0 _ (Nat.le_refl _) x hx
  refine ⟨h2, by simpa using hw, v, uid, seq, payload, ?_, by rw [hxb]; rfl⟩
  have : bytesOf p f x = ((f.drop (base p f)).drop x.1).take (blockLen v) := by
    unfold bytesOf File.readAt
    rw [List.drop_drop, hxb]; rfl
  rw [this]
  simpa using hb

theorem whole_range {p : Param} (hp : p.fromPos = none ∧ p.toPos = none) (f : File) : base p f = 0 ∧ f.length ≤ required p f := by
  obtain ⟨h1, h2⟩ := hp
  unfold base seekTo required
  rw [h1, h2]
  constructor
  · unfold byteRange startPos align
    cases p.forceMisalign <;> simp [roundDown]
  · unfold byteRange startPos endInc
    have hlast : f.length ≤ lastPossiblePos (.len f.length) + 1 := by
      simp only [lastPossiblePos]
      split <;> omega
    simp
    omega

/-- Is this piece a block that belongs into the file `name`? -/
def belongs (p : Param) (name : List Byte) : Piece → Prop
  | .block v uid seq payload => Wanted p (blockOf v uid seq payload) ∧ upperHex uid.bytes = name
  | .junk _ => False

instance (p : Param) (name : List Byte) (q : Piece) : Decidable (belongs p name q) := by
  cases q <;> (unfold belongs; infer_instance)

theorem blocks_pieces (p : Param) (f pre tail : List Byte) (name : List Byte) (ps : List Piece) (hb : base p f = 0) :
    (∀ q ∈ ps, q.Ok) → f = pre ++ (ps.flatMap Piece.bytes ++ tail) →
    ((((located pre.length ps).filter fun x => Wanted p x.2).filter fun x => nameOf x.2 = name).map (bytesOf p f)) =
      (ps.filter fun q => belongs p name q).map Piece.bytes := by
  induction ps generalizing pre with
  | nil => intro _ _; rfl
  | cons q ps ih =>
    intro hps hf
    have ih := ih (pre ++ q.bytes) (fun r hr => hps r (List.mem_cons_of_mem _ hr))
      (by rw [hf, List.flatMap_cons]; simp only [List.append_assoc])
    rw [List.length_append] at ih
    cases q with
    | junk bs =>
      rw [List.filter_cons_of_neg (p := fun q => decide (belongs p name q)) (by rw [decide_eq_true_eq]; exact id)]
      exact ih
    | block v uid seq payload =>
      have hok : payload.length = blockLen v - 16 := hps _ (List.mem_cons_self ..)
      have hlen : (Piece.block v uid seq payload).bytes.length = blockLen v := isBlock_length (v := v) (uid := uid) (seq := seq) ⟨rfl, hok⟩
      rw [hlen] at ih
      have hbytes : bytesOf p f (pre.length, blockOf v uid seq payload) = (Piece.block v uid seq payload).bytes := by
        unfold bytesOf File.readAt
        rw [hb, hf, Nat.zero_add]
        simp only
        rw [List.drop_left, List.flatMap_cons, List.append_assoc]
        exact List.take_left' hlen
      show ((((pre.length, blockOf v uid seq payload) :: located (pre.length + blockLen v) ps).filter _).filter _).map _ = _
      by_cases hw : Wanted p (blockOf v uid seq payload)
      · rw [List.filter_cons_of_pos (by simpa using hw)]
        by_cases hn : upperHex uid.bytes = name
        · rw [List.filter_cons_of_pos (by rw [decide_eq_true_eq]; exact hn), List.filter_cons_of_pos (by simp [belongs, hw, hn]),
            List.map_cons, List.map_cons, ih, hbytes]
        · rw [List.filter_cons_of_neg (by rw [decide_eq_true_eq]; exact hn), List.filter_cons_of_neg (by simp [belongs, hn]), ih]
      · rw [List.filter_cons_of_neg (by simpa using hw), List.filter_cons_of_neg (by simp [belongs, hw]), ih]

theorem contents_pieces (p : Param) (f pre tail : List Byte) (name : List Byte) (ps : List Piece) (hb : base p f = 0)
    (hps : ∀ q ∈ ps, q.Ok) (hf : f = pre ++ (ps.flatMap Piece.bytes ++ tail)) :
    contents p f name ((located pre.length ps).filter fun x => Wanted p x.2) = (ps.filter fun q => belongs p name q).flatMap Piece.bytes := by
  unfold contents
  rw [List.flatMap_def, List.flatMap_def]
  exact congrArg List.flatten (blocks_pieces p f pre tail name ps hb hps hf)

/-- **C31.** On an image made of valid blocks, of damaged blocks that still begin with a header of their version, and of 128-byte
sectors that do not look like the beginning of a block, rescuing the whole image saves every block wanted, each in the file of its uid. -/
theorem C31_image {E : Env} (hE : Ok E) (hs : ∀ n, E.stop n = false) (he : NoErr E) (p : Param) (hp : p.fromPos = none ∧ p.toPos = none)
    (ps : List Piece) (hps : ∀ q ∈ ps, q.Ok) (tail : List Byte) (ht : tail.length < 128) (hf : ps.flatMap Piece.bytes ++ tail ≠ [])
    (dir : Dir) :
    ∃ bound, ∀ k s, (ring E p (ps.flatMap Piece.bytes ++ tail) (required p (ps.flatMap Piece.bytes ++ tail))).Steps k
        (initial E p (ps.flatMap Piece.bytes ++ tail) .zero) s → k ≤ bound ∧
      ((∀ s', ¬ (ring E p (ps.flatMap Piece.bytes ++ tail) (required p (ps.flatMap Piece.bytes ++ tail))).Step s s') →
        Finished s ∧ (s.thread 0).st.failed = false ∧ (s.thread 0).st.hung = false ∧
        ∀ name, dir.after (s.thread 2).st.events name = dir name ++ (ps.filter fun q => belongs p name q).flatMap Piece.bytes) := by
  obtain ⟨bound, h⟩ := C31_rescue_partial hE hs he p hf dir
  refine ⟨bound, fun k s hk => ⟨(h k s hk).1, fun hst => ?_⟩⟩
  obtain ⟨g1, g2, g3, g4, -⟩ := (h k s hk).2 hst
  refine ⟨g1, g2, g3, fun name => ?_⟩
  obtain ⟨hbase, hreq⟩ := whole_range hp (ps.flatMap Piece.bytes ++ tail)
  rw [g4]
  congr 1
  have hw := walk_pieces (required p (ps.flatMap Piece.bytes ++ tail)) ps hps tail ht 0 (by
    rw [List.length_append] at hreq; omega)
  unfold saved
  rw [hbase, List.drop_zero, hw]
  exact contents_pieces p _ [] tail name ps hbase hps rfl

/-- Files of different uids have different names. -/
theorem C31_names {a b : Uid} (h : upperHex a.bytes = upperHex b.bytes) : a = b := by
  exact upperHex_inj h


/-! ### C32: resuming -/

theorem after_infix {d : Dir} {evs : List Event} {name bs : List Byte} (h : bs ∈ appended name evs) : bs <:+: d.after evs name := by
  rw [after_eq]
  obtain ⟨s, t, hst⟩ := List.append_of_mem h
  rw [hst]
  simp only [List.flatten_append, List.flatten_cons]
  exact ⟨d name ++ s.flatten, t.flatten, by simp only [List.append_assoc]⟩

theorem after_keeps {d : Dir} {name bs : List Byte} (h : bs <:+: d name) (evs : List Event) : bs <:+: d.after evs name := by
  rw [after_eq]
  exact h.trans (List.prefix_append _ _).isInfix

theorem torn_keeps {d : Dir} {name bs : List Byte} {done : List Event} (h : bs <:+: d.after done name) (next : Option Event) (cut : Nat) :
    bs <:+: d.torn done next cut name := by
  unfold Dir.torn
  split
  · exact after_keeps h _
  · exact h

/-- The wanted blocks among `l` are in the directory. -/
def Present (p : Param) (f : File) (d : Dir) (l : List (Nat × Block)) : Prop :=
  ∀ x ∈ l, Wanted p x.2 → bytesOf p f x <:+: d (nameOf x.2)

/-- If the log is accepted, the blocks before the offset it gives are present. -/
def Safe (p : Param) (f : File) (d : Dir) (log : Option File) : Prop :=
  ∀ c, readLog (required p f) log = some c →
    Present p f d (walkAt p f .zero) ∨ ∃ l, walkAt p f .zero = l ++ walkAt p f c ∧ Present p f d l

theorem interrupted_safe {p : Param} {f : File} (hf : f ≠ []) (hlen : f.length < 2 ^ 64) {d0 d : Dir} {log : Option File}
    (h : Interrupted p f d0 d log) : Safe p f d log := by
  have hnone : ∀ d, Safe p f d none := by
    intro d c hc
    simp only [readLog, Option.some.injEq] at hc
    subst hc
    exact .inr ⟨[], rfl, by intro x hx; simp at hx⟩
  induction h with
  | fresh => exact hnone _
  | logRemoved _ _ => exact hnone _
  | @died d log log' c E done rest cut _ hE hc hI hlog ih =>
    have hmono : ∀ l, Present p f d l → Present p f (d.torn done rest.head? cut) l := fun l hl x hx hw =>
      torn_keeps (after_keeps (hl x hx hw) done) _ _
    have ihc := ih c hc
    obtain ⟨b1, b2, b3, b4⟩ := readLog_bound hc
    obtain ⟨r1, r2, -⟩ := range_spec p hf
    have same : ∀ c2 : Counters, c2.bytes = c.bytes →
        Present p f (d.torn done rest.head? cut) (walkAt p f .zero) ∨
          ∃ l, walkAt p f .zero = l ++ walkAt p f c2 ∧ Present p f (d.torn done rest.head? cut) l := by
      intro c2 h2
      have hw : walkAt p f c2 = walkAt p f c := by unfold walkAt; rw [h2]
      rw [hw]
      rcases ihc with h | ⟨l, hl, hp⟩
      · exact .inl (hmono _ h)
      · exact .inr ⟨l, hl, hmono _ hp⟩
    intro c2 hc2
    cases hlog with
    | untouched =>
      rw [hc] at hc2
      cases hc2
      exact same c rfl
    | @written c1 n hc1 =>
      have hn : ¬ n < c1.serialize.length := by
        intro hn
        rw [readLog_torn _ _ hn] at hc2
        simp at hc2
      rw [List.take_of_length_le (by omega)] at hc2
      rcases hc1 with rfl | hc1
      · rw [readLog_serialize _ (by omega) b3 b4] at hc2
        cases hc2
        apply same
        simp only [roundDown]
        obtain ⟨k, hk⟩ := b1
        omega
      · obtain ⟨evs, c', bound, hR, -, hall⟩ := run_all hE (p := p) hf b1
        obtain ⟨k, s, hk, hks⟩ := hI
        have hpre : done <+: evs := by
          have := (hall k s hk).2.1
          rw [hks] at this
          exact (List.prefix_append _ _).trans this
        obtain ⟨l, hl, hpl, hal, hle, m1, m2⟩ := hR.published done c1 hpre hc1 ⟨b3, b4⟩ (.inl b1) (by omega)
        have hpl' : Present p f (d.torn done rest.head? cut) l := fun x hx hw => torn_keeps (after_infix (hpl x hx hw)) _ _
        rw [readLog_serialize _ (by omega) m1 m2] at hc2
        cases hc2
        rcases ihc with h | ⟨l0, hl0, hp0⟩
        · exact .inl (hmono _ h)
        · have hsplit : walkAt p f .zero = (l0 ++ l) ++ walkAt p f c1 := by rw [hl0, hl, List.append_assoc]
          have hboth : Present p f (d.torn done rest.head? cut) (l0 ++ l) := by
            intro x hx hw
            rcases List.mem_append.1 hx with hx | hx
            · exact hmono _ hp0 x hx hw
            · exact hpl' x hx hw
          by_cases hw : walkAt p f c1 = []
          · rw [hw, List.append_nil] at hsplit
            exact .inl (hsplit ▸ hboth)
          · have hlt : c1.bytes < required p f := by
              by_contra hge
              exact hw (walk_past _ (by omega))
            have hd : 128 ∣ c1.bytes := hal.resolve_right fun h => hw (walk_end _ _ _ h)
            refine .inr ⟨l0 ++ l, ?_, hboth⟩
            have heq : walkAt p f ⟨roundDown (min c1.bytes (required p f)) 128, c1.metas, c1.datas⟩ = walkAt p f c1 := by
              unfold walkAt
              have : roundDown (min c1.bytes (required p f)) 128 = c1.bytes := by
                simp only [roundDown]
                obtain ⟨k, hk⟩ := hd
                omega
              simp only [this]
            rw [heq]
            exact hsplit

/-- **C32.** After any number of interruptions (the process is stopped or dies at any moment, in the middle of a write to an output
file or to the log; the timer that writes the log may have fired at any moments; the user may have removed the log), a run that
accepts the log it finds and completes leaves every block that an uninterrupted run would have saved in the file of its uid. -/
theorem C32_resume {p : Param} {f : File} (hf : f ≠ []) (hlen : f.length < 2 ^ 64) {d0 d : Dir} {log : Option File}
    (h : Interrupted p f d0 d log) {E : Env} (hE : Ok E) (hs : ∀ n, E.stop n = false) (he : NoErr E) {c : Counters}
    (hc : readLog (required p f) log = some c) :
    ∃ bound, ∀ k s, (ring E p f (required p f)).Steps k (initial E p f c) s → k ≤ bound ∧
      ((∀ s', ¬ (ring E p f (required p f)).Step s s') → Finished s ∧ (s.thread 0).st.failed = false ∧ (s.thread 0).st.hung = false ∧
        ∀ x ∈ saved p f, bytesOf p f x <:+: d.after (s.thread 2).st.events (nameOf x.2)) := by
  obtain ⟨bound, hb⟩ := complete_run hE hs he (p := p) hf (readLog_bound hc).1
  refine ⟨bound, fun k s hk => ⟨(hb k s hk).1, fun hst => ?_⟩⟩
  obtain ⟨g1, g2, g3, -, g5⟩ := (hb k s hk).2 hst
  refine ⟨g1, g2, g3, fun x hx => ?_⟩
  obtain ⟨hx, hw⟩ := List.mem_filter.1 hx
  have hw : Wanted p x.2 := by simpa using hw
  have hx : x ∈ walkAt p f .zero := hx
  rcases interrupted_safe hf hlen h c hc with hp | ⟨l, hl, hp⟩
  · exact after_keeps (hp x hx hw) _
  · rw [hl] at hx
    rcases List.mem_append.1 hx with hx | hx
    · exact after_keeps (hp x hx hw) _
    · apply after_infix
      rw [g5]
      exact List.mem_map.2 ⟨x, List.mem_filter.2 ⟨List.mem_filter.2 ⟨hx, by simpa using hw⟩, by simp⟩, rfl⟩

theorem paused_kept {p : Param} (hp : p.fromPos = none ∧ p.toPos = none) {f : File} (hf : f ≠ []) (hlen : f.length < 2 ^ 64) {d0 d : Dir}
    {log : Option File} (h : Paused p f d0 d log) :
    ∃ bs : List Byte → List (List Byte), (∀ name, d name = d0 name ++ (bs name).flatten) ∧
      (∀ name, ∀ b ∈ bs name, ∃ x ∈ walkAt p f .zero, Wanted p x.2 ∧ nameOf x.2 = name ∧ b = bytesOf p f x) ∧
      ∀ c, readLog (required p f) log = some c →
        ∃ l, walkAt p f .zero = l ++ walkAt p f c ∧ ∀ x ∈ l, Wanted p x.2 → bytesOf p f x ∈ bs (nameOf x.2) := by
  obtain ⟨hbase, hreq⟩ := whole_range hp f
  induction h with
  | fresh =>
    refine ⟨fun _ => [], fun _ => by simp, fun _ b hb => by simp at hb, fun c hc => ?_⟩
    simp only [readLog, Option.some.injEq] at hc
    subst hc
    exact ⟨[], rfl, by intro x hx; simp at hx⟩
  | logRemoved _ ih =>
    obtain ⟨bs, h1, h2, -⟩ := ih
    refine ⟨bs, h1, h2, fun c hc => ?_⟩
    simp only [readLog, Option.some.injEq] at hc
    subst hc
    exact ⟨[], rfl, by intro x hx; simp at hx⟩
  | @stopped d log log' c E done rest _ hE he hc hI hlog ih =>
    obtain ⟨bs, h1, h2, h3⟩ := ih
    obtain ⟨l0, hl0, hp0⟩ := h3 c hc
    obtain ⟨b1, b2, b3, b4⟩ := readLog_bound hc
    obtain ⟨r1, r2, -⟩ := range_spec p hf
    obtain ⟨evs, c', bound, hR, -, hall⟩ := run_all hE (p := p) hf b1
    obtain ⟨k, s, hk, hks⟩ := hI
    have hpre : done <+: evs := by
      have := (hall k s hk).2.1
      rw [hks] at this
      exact (List.prefix_append _ _).trans this
    obtain ⟨l, dd, hl, -, hap⟩ := hR.written he
    refine ⟨fun name => bs name ++ appended name done, fun name => ?_, fun name b hb => ?_, ?_⟩
    · rw [after_eq, h1, List.flatten_append, List.append_assoc]
    · rcases List.mem_append.1 hb with hb | hb
      · exact h2 name b hb
      · obtain ⟨t, rfl⟩ := hpre
        have hm : b ∈ appended name (done ++ t) := by rw [appended_append]; exact List.mem_append_left _ hb
        rw [hap] at hm
        obtain ⟨x, hx, rfl⟩ := List.mem_map.1 hm
        obtain ⟨hx, hn⟩ := List.mem_filter.1 hx
        obtain ⟨hx, hw⟩ := List.mem_filter.1 hx
        refine ⟨x, ?_, by simpa using hw, by simpa using hn, rfl⟩
        rw [hl0, hl]
        exact List.mem_append_right _ (List.mem_append_left _ hx)
    · have same : ∀ c2 : Counters, c2.bytes = c.bytes → ∃ l, walkAt p f .zero = l ++ walkAt p f c2 ∧
          ∀ x ∈ l, Wanted p x.2 → bytesOf p f x ∈ bs (nameOf x.2) ++ appended (nameOf x.2) done := by
        intro c2 e2
        have hw : walkAt p f c2 = walkAt p f c := by unfold walkAt; rw [e2]
        rw [hw]
        exact ⟨l0, hl0, fun x hx hwx => List.mem_append_left _ (hp0 x hx hwx)⟩
      intro c2 hc2
      cases hlog with
      | untouched =>
        rw [hc] at hc2
        cases hc2
        exact same c rfl
      | @written c1 n hc1 =>
        have hn : ¬ n < c1.serialize.length := by
          intro hn
          rw [readLog_torn _ _ hn] at hc2
          simp at hc2
        rw [List.take_of_length_le (by omega)] at hc2
        rcases hc1 with rfl | hc1
        · rw [readLog_serialize _ (by omega) b3 b4] at hc2
          cases hc2
          apply same
          simp only [roundDown]
          obtain ⟨k, hk⟩ := b1
          omega
        · obtain ⟨l1, hl1, hpl, hal, hle, m1, m2⟩ := hR.published done c1 hpre hc1 ⟨b3, b4⟩ (.inl b1) (by omega)
          rw [readLog_serialize _ (by omega) m1 m2] at hc2
          cases hc2
          refine ⟨l0 ++ l1, ?_, ?_⟩
          · rw [hl0, hl1, List.append_assoc]
            congr 2
            rw [hbase, Nat.zero_add] at hal
            by_cases hd : 128 ∣ c1.bytes
            · unfold walkAt
              have : roundDown (min c1.bytes (required p f)) 128 = c1.bytes := by
                simp only [roundDown]
                obtain ⟨k, hk⟩ := hd
                omega
              simp only [this]
            · have hge := hal.resolve_left hd
              have e1 : walkAt p f c1 = [] := by
                unfold walkAt
                exact walk_end _ _ _ (by omega)
              rw [e1]
              symm
              unfold walkAt
              rw [walk, dif_pos]
              left
              rw [List.length_drop]
              simp only [roundDown]
              omega
          · intro x hx hw
            rcases List.mem_append.1 hx with hx | hx
            · exact List.mem_append_left _ (hp0 x hx hw)
            · exact List.mem_append_right _ (hpl x hx hw)

/-- **C32, whole blocks.** If a rescue of a whole image is stopped any number of times between two writes, and resumed until it
completes, every file of the output directory has grown by whole blocks: those that an uninterrupted run would have saved, some of them
perhaps several times, and nothing else. -/
theorem C32_paused {p : Param} (hp : p.fromPos = none ∧ p.toPos = none) {f : File} (hf : f ≠ []) (hlen : f.length < 2 ^ 64) {d0 d : Dir}
    {log : Option File} (h : Paused p f d0 d log) {E : Env} (hE : Ok E) (hs : ∀ n, E.stop n = false) (he : NoErr E) {c : Counters}
    (hc : readLog (required p f) log = some c) :
    ∃ bound, ∀ k s, (ring E p f (required p f)).Steps k (initial E p f c) s → k ≤ bound ∧
      ((∀ s', ¬ (ring E p f (required p f)).Step s s') → Finished s ∧ (s.thread 0).st.failed = false ∧ (s.thread 0).st.hung = false ∧
        ∀ name, ∃ bs : List (List Byte), d.after (s.thread 2).st.events name = d0 name ++ bs.flatten ∧
          ∀ b, b ∈ bs ↔ ∃ x ∈ saved p f, nameOf x.2 = name ∧ b = bytesOf p f x) := by
  obtain ⟨bound, hb⟩ := complete_run hE hs he (p := p) hf (readLog_bound hc).1
  obtain ⟨bs, h1, h2, h3⟩ := paused_kept hp hf hlen h
  obtain ⟨l, hl, hpl⟩ := h3 c hc
  refine ⟨bound, fun k s hk => ⟨(hb k s hk).1, fun hst => ?_⟩⟩
  obtain ⟨g1, g2, g3, -, g5⟩ := (hb k s hk).2 hst
  refine ⟨g1, g2, g3, fun name => ⟨bs name ++ appended name (s.thread 2).st.events, ?_, fun b => ?_⟩⟩
  · rw [after_eq, h1, List.flatten_append, List.append_assoc]
  · have hsv : ∀ x, x ∈ saved p f ↔ x ∈ walkAt p f .zero ∧ Wanted p x.2 := by
      intro x
      unfold saved
      rw [List.mem_filter, decide_eq_true_eq]
      rfl
    rw [List.mem_append, g5, List.mem_map]
    simp only [hsv]
    constructor
    · rintro (hm | ⟨x, hx, rfl⟩)
      · obtain ⟨x, a, b, c, e⟩ := h2 name b hm
        exact ⟨x, ⟨a, b⟩, c, e⟩
      · obtain ⟨hx, hn⟩ := List.mem_filter.1 hx
        obtain ⟨hx, hw⟩ := List.mem_filter.1 hx
        exact ⟨x, ⟨by rw [hl]; exact List.mem_append_right _ hx, by simpa using hw⟩, by simpa using hn, rfl⟩
    · rintro ⟨x, ⟨hx, hw⟩, rfl, rfl⟩
      rw [hl] at hx
      rcases List.mem_append.1 hx with hx | hx
      · exact .inl (hpl x hx hw)
      · exact .inr ⟨x, List.mem_filter.2 ⟨List.mem_filter.2 ⟨hx, by simpa using hw⟩, by simp⟩, rfl⟩

/-- **C32.** Interruptions do not touch what the output files held before: they only grow. -/
theorem C32_only_appends {p : Param} {f : File} {d0 d : Dir} {log : Option File} (h : Interrupted p f d0 d log) (name : List Byte) :
    d0 name <+: d name := by
  induction h with
  | fresh => exact List.prefix_rfl
  | logRemoved _ ih => exact ih
  | @died d log log' c E done rest cut _ _ _ _ _ ih =>
    refine ih.trans ?_
    have h1 : d name <+: d.after done name := by rw [after_eq]; exact List.prefix_append _ _
    refine h1.trans ?_
    rcases rest.head? with _ | ⟨n, bs⟩ | _
    · exact List.prefix_rfl
    · show _ <+: (d.after done).after _ name
      rw [after_eq (d.after done)]; exact List.prefix_append _ _
    · exact List.prefix_rfl

/-! ### Instances and findings -/

/-- One buffer of one slot; nothing is interrupted and no read fails. -/
def smallEnv : Env := ⟨1, 1, fun _ => false, fun _ => .none, fun _ g => g⟩

theorem small_ok : Ok smallEnv := ⟨by decide, by decide, fun _ _ => .refl _⟩

/-- The whole image, every block. -/
def everything : Param := ⟨none, none, false, none, none⟩

/-- Two blocks of different files with a sector of zeros between them. -/
def uidA : Uid := ⟨[1, 2, 3, 4, 5, 6], rfl⟩
def uidB : Uid := ⟨[0xA, 2, 3, 4, 5, 6], rfl⟩
def demoImage : List Piece :=
  [.block .v2 uidA 1 (List.replicate 112 7), .junk (List.replicate 128 0), .block .v2 uidB 0 (List.replicate 112 8),
    .block .v2 uidA 2 (List.replicate 112 9)]

theorem demoImage_ok : ∀ q ∈ demoImage, q.Ok := by
  intro q hq
  simp only [demoImage, List.mem_cons, List.not_mem_nil, or_false] at hq
  rcases hq with rfl | rfl | rfl | rfl
  · exact List.length_replicate
  · refine .inl ⟨List.length_replicate, ?_⟩
    intro v crc uid seq h
    have := h.getElem (i := 0) (by rw [headerBytes_length]; omega)
    simp [headerBytes] at this
  · exact List.length_replicate
  · exact List.length_replicate

def nameA : List Byte := ascii "010203040506"
def blockA1 : List Byte := blockBytes .v2 uidA.bytes 1 (List.replicate 112 7)
def blockA2 : List Byte := blockBytes .v2 uidA.bytes 2 (List.replicate 112 9)

set_option maxRecDepth 1000000 in
theorem small_run : ((ring smallEnv everything (blockA1 ++ blockA2) (required everything (blockA1 ++ blockA2))).runSeq 10
  (fun _ => St.start everything (blockA1 ++ blockA2) .zero) [(.zero, Buffer.new 1)]).map (fun st => (st 2).events) =
    some [.append nameA blockA1, .stats ⟨128, 0, 1⟩, .append nameA blockA2, .stats ⟨256, 0, 2⟩, .stats ⟨256, 0, 2⟩] := by
  decide +kernel

/-- A sequential run of the model is one of the schedules. -/
theorem reach {E : Env} {p : Param} {f : File} {c : Counters} {evs : List Event} {fuel : Nat}
    (h : ((ring E p f (required p f)).runSeq fuel (fun _ => St.start p f c)
      (List.replicate E.buffers (.zero, Buffer.new E.slots))).map (fun st => (st 2).events) = some evs) :
    ∃ k z, (ring E p f (required p f)).Steps k (initial E p f c) z ∧ Finished z ∧ (z.thread 2).st.events = evs := by
  rw [Option.map_eq_some_iff] at h
  obtain ⟨st', hs, hev⟩ := h
  have hcap : ∀ i, (List.replicate E.buffers ((Counters.zero, Buffer.new E.slots) : Msg)).length + 1 ≤ (ring E p f (required p f)).cap i := by
    intro i; rw [List.length_replicate]; exact Nat.le_refl _
  obtain ⟨k, z, hz1, hz2, hz3, -⟩ := runSeq_all (fun i s m s' outs h => ring_one i s m s' outs h) hcap hs
  exact ⟨k, z, hz1, hz2, by rw [hz3, hev]⟩

set_option maxRecDepth 1000000 in
example (dir : Dir) :
    ∃ bound, ∀ k s, (ring smallEnv everything (demoImage.flatMap Piece.bytes ++ [1, 2]) (required everything (demoImage.flatMap Piece.bytes ++ [1, 2]))).Steps k
        (initial smallEnv everything (demoImage.flatMap Piece.bytes ++ [1, 2]) .zero) s → k ≤ bound ∧
      ((∀ s', ¬ (ring smallEnv everything (demoImage.flatMap Piece.bytes ++ [1, 2]) (required everything (demoImage.flatMap Piece.bytes ++ [1, 2]))).Step s s') →
        Finished s ∧ dir.after (s.thread 2).st.events nameA = dir nameA ++ (blockA1 ++ blockA2)) := by
  obtain ⟨bound, h⟩ := C31_image small_ok (fun _ => rfl) (fun _ => rfl) everything ⟨rfl, rfl⟩ demoImage demoImage_ok [1, 2] (by decide)
    (by simp) dir
  refine ⟨bound, fun k s hk => ⟨(h k s hk).1, fun hst => ?_⟩⟩
  obtain ⟨g1, -, -, g4⟩ := (h k s hk).2 hst
  refine ⟨g1, ?_⟩
  rw [g4]
  have : (demoImage.filter fun q => belongs everything nameA q).flatMap Piece.bytes = blockA1 ++ blockA2 := by decide +kernel
  rw [this]

/-- An interrupted rescue: the process died while the second block was being written, after the log had been written. -/
theorem demo_interrupted (d0 : Dir) : Interrupted everything (blockA1 ++ blockA2) d0
    (d0.torn [.append nameA blockA1, .stats ⟨128, 0, 1⟩] (some (.append nameA blockA2)) 50) (some (Counters.serialize ⟨128, 0, 1⟩)) := by
  obtain ⟨k, z, h1, -, h3⟩ := reach small_run
  have hl : LogAfter none .zero [.append nameA blockA1, .stats ⟨128, 0, 1⟩] (some ((Counters.serialize ⟨128, 0, 1⟩).take 1024)) :=
    .written 1024 (.inr (by simp))
  have ht : (Counters.serialize ⟨128, 0, 1⟩).take 1024 = Counters.serialize ⟨128, 0, 1⟩ :=
    List.take_of_length_le (serialize_length _)
  rw [ht] at hl
  exact .died (rest := [.append nameA blockA2, .stats ⟨256, 0, 2⟩, .stats ⟨256, 0, 2⟩]) 50 .fresh small_ok rfl ⟨k, z, h1, h3⟩ hl

/-- A rescue stopped after the first block. -/
theorem demo_paused (d0 : Dir) : Paused everything (blockA1 ++ blockA2) d0
    (d0.after [.append nameA blockA1, .stats ⟨128, 0, 1⟩]) (some (Counters.serialize ⟨128, 0, 1⟩)) := by
  obtain ⟨k, z, h1, -, h3⟩ := reach small_run
  have hl : LogAfter none .zero [.append nameA blockA1, .stats ⟨128, 0, 1⟩] (some ((Counters.serialize ⟨128, 0, 1⟩).take 1024)) :=
    .written 1024 (.inr (by simp))
  have ht : (Counters.serialize ⟨128, 0, 1⟩).take 1024 = Counters.serialize ⟨128, 0, 1⟩ :=
    List.take_of_length_le (serialize_length _)
  rw [ht] at hl
  exact .stopped (rest := [.append nameA blockA2, .stats ⟨256, 0, 2⟩, .stats ⟨256, 0, 2⟩]) .fresh small_ok (fun _ => rfl) rfl ⟨k, z, h1, h3⟩ hl

theorem demo_length : (blockA1 ++ blockA2).length = 256 := by decide +kernel

theorem demo_ne : blockA1 ++ blockA2 ≠ [] := by
  intro h
  have := demo_length
  rw [h] at this
  simp at this

example (d0 : Dir) : ∃ c, readLog (required everything (blockA1 ++ blockA2)) (some (Counters.serialize ⟨128, 0, 1⟩)) = some c ∧ c.bytes = 128 ∧
    ∃ bound, ∀ k s, (ring smallEnv everything (blockA1 ++ blockA2) (required everything (blockA1 ++ blockA2))).Steps k
        (initial smallEnv everything (blockA1 ++ blockA2) c) s → k ≤ bound ∧
      ((∀ s', ¬ (ring smallEnv everything (blockA1 ++ blockA2) (required everything (blockA1 ++ blockA2))).Step s s') →
        Finished s ∧ (s.thread 0).st.failed = false ∧ (s.thread 0).st.hung = false ∧
        ∀ x ∈ saved everything (blockA1 ++ blockA2), bytesOf everything (blockA1 ++ blockA2) x <:+:
          (d0.torn [.append nameA blockA1, .stats ⟨128, 0, 1⟩] (some (.append nameA blockA2)) 50).after (s.thread 2).st.events (nameOf x.2)) := by
  have hc : readLog (required everything (blockA1 ++ blockA2)) (some (Counters.serialize ⟨128, 0, 1⟩)) = some ⟨128, 0, 1⟩ := by decide +kernel
  exact ⟨⟨128, 0, 1⟩, hc, rfl, C32_resume demo_ne (by rw [demo_length]; decide) (demo_interrupted d0) small_ok (fun _ => rfl) (fun _ => rfl) hc⟩

example (d0 : Dir) : ∃ c, readLog (required everything (blockA1 ++ blockA2)) (some (Counters.serialize ⟨128, 0, 1⟩)) = some c ∧ c.bytes = 128 ∧
    ∃ bound, ∀ k s, (ring smallEnv everything (blockA1 ++ blockA2) (required everything (blockA1 ++ blockA2))).Steps k
        (initial smallEnv everything (blockA1 ++ blockA2) c) s → k ≤ bound ∧
      ((∀ s', ¬ (ring smallEnv everything (blockA1 ++ blockA2) (required everything (blockA1 ++ blockA2))).Step s s') →
        Finished s ∧ (s.thread 0).st.failed = false ∧ (s.thread 0).st.hung = false ∧
        ∀ name, ∃ bs : List (List Byte), (d0.after [.append nameA blockA1, .stats ⟨128, 0, 1⟩]).after (s.thread 2).st.events name =
            d0 name ++ bs.flatten ∧
          ∀ b, b ∈ bs ↔ ∃ x ∈ saved everything (blockA1 ++ blockA2), nameOf x.2 = name ∧ b = bytesOf everything (blockA1 ++ blockA2) x) := by
  have hc : readLog (required everything (blockA1 ++ blockA2)) (some (Counters.serialize ⟨128, 0, 1⟩)) = some ⟨128, 0, 1⟩ := by decide +kernel
  exact ⟨⟨128, 0, 1⟩, hc, rfl, C32_paused ⟨rfl, rfl⟩ demo_ne (by rw [demo_length]; decide) (demo_paused d0) small_ok (fun _ => rfl) (fun _ => rfl) hc⟩

example (d0 : Dir) : d0 nameA <+:
    d0.torn [.append nameA blockA1, .stats ⟨128, 0, 1⟩] (some (.append nameA blockA2)) 50 nameA :=
  C32_only_appends (demo_interrupted d0) nameA

example : (0, blockOf .v2 uidA 1 (List.replicate 112 7)) ∈ saved everything (demoImage.flatMap Piece.bytes ++ []) := by
  obtain ⟨hb, hr⟩ := whole_range (p := everything) ⟨rfl, rfl⟩ (demoImage.flatMap Piece.bytes ++ [])
  unfold saved
  rw [hb, List.drop_zero, walk_pieces _ demoImage demoImage_ok [] (by decide) 0 (by rw [List.append_nil] at hr ⊢; omega)]
  refine List.mem_filter.2 ⟨?_, by decide⟩
  unfold demoImage located
  exact List.mem_cons_self ..

example : upperHex uidA.bytes ≠ upperHex uidB.bytes := fun h => absurd (C31_names h) (by decide)

/-- A header of version 1 whose block was overwritten by a block of version 2. -/
def overwritten : File :=
  headerBytes .v1 0 uidB.bytes 5 ++ List.replicate 112 0 ++ blockA1 ++ List.replicate 256 0

set_option maxRecDepth 1000000 in
/-- **C31, finding.** A valid aligned block is missed if it lies behind something that looks like the header of a larger block, for
example inside the remains of a larger block that was partly overwritten: the walk steps over the whole length that header announces. -/
theorem C31_swallowed_violated : IsBlock (overwritten.readAt 128 (blockLen .v2)) .v2 uidA 1 (List.replicate 112 7) ∧
    128 + blockLen .v2 ≤ required everything overwritten ∧ saved everything overwritten = [] := by
  obtain ⟨hb, -⟩ := whole_range (p := everything) ⟨rfl, rfl⟩ overwritten
  refine ⟨⟨?_, List.length_replicate⟩, by decide +kernel, ?_⟩
  · have : overwritten.readAt 128 (blockLen .v2) = blockA1 := by decide +kernel
    exact this
  · have h1 : (match seenAt overwritten with | .skip n => decide (n = 512) | _ => false) = true := by decide +kernel
    have h2 : overwritten.drop 512 = [] := by decide +kernel
    unfold saved
    rw [hb, List.drop_zero, walk_eq]
    split
    · rfl
    · cases hs : seenAt overwritten with
      | eof => rfl
      | skip n =>
        rw [hs] at h1
        have hn : n = 512 := of_decide_eq_true h1
        subst hn
        simp only
        rw [h2, walk_eq]
        split <;> rfl
      | found n b => rw [hs] at h1; simp at h1

set_option maxRecDepth 1000000 in
theorem error_run : ((ring { smallEnv with err := fun _ => .first } everything [1, 2, 3] (required everything [1, 2, 3])).runSeq 10
      (fun _ => St.start everything [1, 2, 3] .zero) [(.zero, Buffer.new 1)]).map (fun st => (st 2).events) =
      some [.append (ascii "000000000000") (List.replicate 512 0), .stats .zero] := by
  decide +kernel

/-- **C31, finding.** When a read fails, the slot that was being filled is not given back: a block that is not in the image (here
512 zeros) is appended to an output file. -/
theorem C31_read_error_violated : ∃ (E : Env) (f : File), Ok E ∧ saved everything f = [] ∧
    ∃ k z, (ring E everything f (required everything f)).Steps k (initial E everything f .zero) z ∧ Finished z ∧
      ∀ dir : Dir, dir.after (z.thread 2).st.events (ascii "000000000000") = dir (ascii "000000000000") ++ List.replicate 512 0 := by
  obtain ⟨k, z, h1, h2, h3⟩ := reach error_run
  refine ⟨_, [1, 2, 3], ⟨by decide, by decide, fun _ _ => .refl _⟩, ?_, k, z, h1, h2, ?_⟩
  · obtain ⟨hb, -⟩ := whole_range (p := everything) ⟨rfl, rfl⟩ [1, 2, 3]
    unfold saved
    rw [hb, List.drop_zero, walk_eq]
    split <;> rfl
  · intro dir
    rw [h3, after_eq]
    generalize List.replicate 512 (0 : Byte) = z
    simp [appended]

theorem fill_empty {E : Env} (hs : ∀ n, E.stop n = false) (he : NoErr E) (p : Param) {req : Nat} (hr : 1 ≤ req) (fuel : Nat) :
    ∀ (st : St) (b : Buffer), st.count.bytes = 0 → b.used = 0 → 1 ≤ b.slots.length → fill E p [] req fuel st b = none := by
  induction fuel with
  | zero => intros; rfl
  | succ fuel ih =>
    intro st b hc hu hl
    unfold fill
    have hfull : b.isFull = false := by
      unfold Buffer.isFull; rw [hu]; exact decide_eq_false (by omega)
    rw [hfull, hs, hu]
    simp only [Bool.false_eq_true, if_false]
    rw [if_neg (by omega), List.getElem?_eq_getElem (by omega)]
    simp only
    have hread : ∀ s : Slot, readSlot (E.err st.checks) s [] st.pos = (s, some ⟨0, false, true⟩) := by
      intro s
      rw [he]
      unfold readSlot File.readAt
      simp [scanBlockSize]
    rw [hread]
    simp only [Bool.false_eq_true, if_false]
    apply ih
    · exact hc
    · simp [Buffer.cancel]
    · simp [Buffer.cancel]; omega

/-- **C31, finding.** On an empty image the reader never leaves its inner loop: whatever number of iterations it is given, it does
not finish filling its buffer (the program hangs until it is interrupted). -/
theorem C31_empty_violated {E : Env} (hE : Ok E) (hs : ∀ n, E.stop n = false) (he : NoErr E) (p : Param) (fuel : Nat) :
    fill E p [] (required p []) fuel (St.start p [] .zero) (Buffer.new E.slots) = none := by
  refine fill_empty hs he p ?_ fuel _ _ rfl rfl ?_
  · unfold required byteRange; simp
  · unfold Buffer.new
    rw [List.length_replicate]
    exact hE.slots

example (fuel : Nat) : fill smallEnv everything [] (required everything []) fuel (St.start everything [] .zero) (Buffer.new 1) = none :=
  C31_empty_violated small_ok (fun _ => rfl) (fun _ => rfl) everything fuel

/-- **C32, finding.** The log file is truncated when it is opened for being rewritten (`src/log.rs` 84-100); a process that dies
before the write leaves a log that is refused, so that the rescue cannot be resumed before the user has removed the log. -/
theorem C32_refused_violated (p : Param) (f : File) (d0 : Dir) : Interrupted p f d0 d0 (some []) ∧
    readLog (required p f) (some []) = none := by
  constructor
  · exact .died (log := none) (c := .zero) (E := smallEnv) (done := []) (rest := []) 0 .fresh small_ok rfl
      ⟨0, _, .refl _, rfl⟩ (.written 0 (.inl rfl))
  · have : statsP (List.replicate 1024 0) = none := by decide +kernel
    show deserialize (required p f) (List.replicate 1024 0) = none
    unfold deserialize
    rw [this]

def blockB : List Byte := blockBytes .v1 uidB.bytes 1 (List.replicate 496 7)

set_option maxRecDepth 1000000 in
theorem straddle_run : ((ring smallEnv { everything with toPos := some (.inc 0) } blockB (required { everything with toPos := some (.inc 0) } blockB)).runSeq 10
      (fun _ => St.start { everything with toPos := some (.inc 0) } blockB .zero) [(.zero, Buffer.new 1)]).map (fun st => (st 2).events) =
      some [.append (upperHex uidB.bytes) blockB, .stats ⟨512, 0, 1⟩, .stats ⟨512, 0, 1⟩] := by
  decide +kernel

/-- **C33, finding.** The offset is cut at the end of the range, but a block that begins inside the range may reach far beyond it: a
rescue of the first byte of an image that begins with a block of 512 bytes logs 512 bytes as processed, and the offset read back
is 0. -/
theorem C33_straddle_violated : ∃ (p : Param) (f : File) (c : Counters) (evs : List Event), Issued smallEnv p f .zero evs ∧ .stats c ∈ evs ∧
    c.bytes = 512 ∧ readLog (required p f) (some c.serialize) = some ⟨0, c.metas, c.datas⟩ := by
  obtain ⟨k, z, h1, -, h3⟩ := reach straddle_run
  exact ⟨_, blockB, ⟨512, 0, 1⟩, _, ⟨k, z, h1, h3⟩, by simp, rfl, by decide +kernel⟩

end Verif.Rescue
