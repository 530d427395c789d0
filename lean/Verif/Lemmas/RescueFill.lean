import Verif.Lemmas.RescueBuffer
/-!
# The reader of rescue fills a buffer with the next blocks of the walk
-/

namespace Verif.Rescue
open Format ScanSpec Scan Misc RescueSpec

theorem picks_iff (p : Param) (b : Block) : p.picks b = true ↔ Wanted p b := by
  unfold Param.picks Wanted
  rw [Bool.and_eq_true]
  refine and_congr ?_ ?_
  · cases p.onlyBlock with
    | none => simp
    | some t => simp; exact eq_comm
  · cases p.onlyUid with
    | none => simp
    | some t => simp; exact eq_comm

theorem lazy_eof {b b' : Block} {f : File} {pos : Nat} {r : LazyRead} (h : readBlockLazily b f pos = (b', r)) (he : r.eof = true) :
    r.usable = false ∧ r.lenRead = (f.drop pos).length := by
  have hlen : ∀ n, (f.readAt pos n).length = min n (f.drop pos).length := fun n => List.length_take
  unfold readBlockLazily at h
  simp only at h
  by_cases hl : (f.readAt pos scanBlockSize).length < scanBlockSize
  · rw [if_pos hl] at h
    cases h
    refine ⟨rfl, ?_⟩
    rw [hlen] at hl ⊢
    simp only
    omega
  · rw [if_neg hl] at h
    have hl1 : (f.readAt pos scanBlockSize).length = scanBlockSize := by
      rw [hlen] at hl ⊢; omega
    cases hb : b.syncHeader (f.readAt pos scanBlockSize) with
    | error e => rw [hb] at h; cases h; simp at he
    | ok block =>
      rw [hb] at h
      have hge : scanBlockSize ≤ block.size := size_ge _
      have hbuf : f.readAt pos scanBlockSize ++ f.readAt (pos + (f.readAt pos scanBlockSize).length) (block.size - scanBlockSize) =
          f.readAt pos block.size := by
        rw [hl1]
        unfold File.readAt
        rw [← List.drop_drop, ← List.take_add, Nat.add_sub_cancel' hge]
      simp only at h
      rw [hbuf] at h
      by_cases h2 : (f.readAt pos block.size).length < block.size
      · rw [if_pos h2] at h
        cases h
        refine ⟨rfl, ?_⟩
        simp only
        rw [hlen] at h2 ⊢
        omega
      · rw [if_neg h2] at h
        rcases hsf : block.syncFrom (f.readAt pos block.size) none none with ⟨b'', e⟩
        rw [hsf] at h
        cases e <;> (cases h; simp at he)

theorem blockLen_dvd (v : Version) : 128 ∣ blockLen v := by cases v <;> decide

theorem seenAt_dvd {bytes : List Byte} {n : Nat} (h : seenAt bytes = .skip n ∨ ∃ b, seenAt bytes = .found n b) : 128 ∣ n := by
  unfold seenAt at h
  split at h
  · simp at h
  · split at h
    · simp at h; omega
    · split at h
      · simp at h
      · split at h <;> (simp at h; obtain ⟨rfl, -⟩ | rfl := h <;> exact blockLen_dvd _)

theorem walk_end (req off : Nat) (f : File) {pos : Nat} (h : f.length ≤ pos) : walk req off (f.drop pos) = [] := by
  rw [walk_eq, List.drop_eq_nil_of_le h]
  split
  · rfl
  · simp [seenAt]

theorem walk_past {req off : Nat} (bytes : List Byte) (h : req ≤ off) : walk req off bytes = [] := by
  rw [walk_eq, if_pos h]

/-- What a slot holds, as far as it is written. -/
def Slot.entry (s : Slot) : Block × List Byte := (s.block, s.data.take s.block.size)

/-- Counters after the blocks `l` and `d` bytes. -/
def Counters.add (c : Counters) (l : List (Nat × Block)) (d : Nat) : Counters :=
  { l.foldl (fun c x => c.count x.2) c with bytes := c.bytes + d }

theorem count_bytes (c : Counters) (b : Block) : (c.count b).bytes = c.bytes := by
  unfold Counters.count; split <;> rfl

theorem count_set (c : Counters) (n : Nat) (b : Block) : ({ c with bytes := n } : Counters).count b = { c.count b with bytes := n } := by
  unfold Counters.count; split <;> rfl

theorem countAll_set (c : Counters) (n : Nat) (l : List (Nat × Block)) :
    l.foldl (fun c x => c.count x.2) { c with bytes := n } = { l.foldl (fun c x => c.count x.2) c with bytes := n } := by
  induction l generalizing c with
  | nil => rfl
  | cons x l ih => rw [List.foldl_cons, List.foldl_cons, count_set, ih]

theorem add_add (c : Counters) (l l' : List (Nat × Block)) (d d' : Nat) : (c.add l d).add l' d' = c.add (l ++ l') (d + d') := by
  unfold Counters.add
  rw [countAll_set, List.foldl_append]
  simp only [Nat.add_assoc]

/-- The result of filling a buffer. -/
structure Filled (E : Env) (p : Param) (f : File) (req : Nat) (st : St) (buf : Buffer) (st' : St) (buf' : Buffer)
    (l : List (Nat × Block)) (d : Nat) : Prop where
  len : buf'.slots.length = buf.slots.length
  groups : buf'.groups = buf.groups
  used : buf'.used ≤ buf.slots.length
  entries : ∃ junk : List (Block × List Byte), ((∀ n, E.err n = .none) → junk = []) ∧
    (buf'.slots.take buf'.used).map Slot.entry = (buf.slots.take buf.used).map Slot.entry ++
      (l.filter fun x => Wanted p x.2).map (fun x => (x.2, f.readAt (st.pos + (x.1 - st.count.bytes)) (blockLen x.2.header.version))) ++ junk
  split : walk req st.count.bytes (f.drop st.pos) = l ++ walk req st'.count.bytes (f.drop st'.pos)
  pos : st'.pos = st.pos + d
  count : st'.count = st.count.add l d
  aligned : 128 ∣ d ∨ f.length ≤ st'.pos
  goes : st'.run = true → buf'.used = buf.slots.length ∧ (buf.used < buf.slots.length → 0 < d)
  stops : st'.run = false → (∀ n, E.stop n = false) → (∀ n, E.err n = .none) → req ≤ st'.count.bytes
  failed : (∀ n, E.err n = .none) → st'.failed = st.failed
  inside : d ≤ f.length - st.pos
  rest : st'.hung = st.hung ∧ st'.turn = st.turn ∧ st'.events = st.events

theorem take_set_succ {α : Type} (l : List α) (i : Nat) (x : α) (h : i < l.length) : (l.set i x).take (i + 1) = l.take i ++ [x] := by
  rw [List.take_succ_eq_append_getElem (by simpa using h), List.take_set_of_le (Nat.le_refl _)]
  simp

theorem fill_spec (E : Env) (p : Param) (f : File) (req : Nat) (fuel : Nat) : ∀ (st : St) (buf : Buffer), buf.used ≤ buf.slots.length →
    st.run = true → (st.count.bytes < req → st.pos + req ≤ f.length + st.count.bytes) → f.length - st.pos + 1 ≤ fuel →
    ∃ st' buf' l d, fill E p f req fuel st buf = some (st', buf') ∧ Filled E p f req st buf st' buf' l d := by
  induction fuel with
  | zero => intro st buf _ _ _ h; omega
  | succ fuel ih =>
    intro st buf hu hrun hin hfuel
    unfold fill
    have hadd0 : st.count = st.count.add [] 0 := rfl
    by_cases hfull : buf.isFull = true
    · rw [if_pos hfull]
      have hfl : buf.used = buf.slots.length := by unfold Buffer.isFull at hfull; simpa using hfull
      exact ⟨_, _, [], 0, rfl, rfl, rfl, hu, ⟨[], fun _ => rfl, by simp⟩, rfl, rfl, hadd0, .inl ⟨0, rfl⟩,
        fun _ => ⟨hfl, fun h => absurd h (by omega)⟩, fun h => by rw [hrun] at h; simp at h, fun _ => rfl, Nat.zero_le _, rfl, rfl, rfl⟩
    · rw [if_neg hfull]
      have hlt : buf.used < buf.slots.length := by
        unfold Buffer.isFull at hfull
        have : buf.used ≠ buf.slots.length := by simpa using hfull
        omega
      by_cases hst : E.stop st.checks = true
      · rw [if_pos hst]
        exact ⟨_, _, [], 0, rfl, rfl, rfl, hu, ⟨[], fun _ => rfl, by simp⟩, rfl, rfl, hadd0, .inl ⟨0, rfl⟩, fun h => by simp at h,
          fun _ h => by rw [h] at hst; simp at hst, fun _ => rfl, Nat.zero_le _, rfl, rfl, rfl⟩
      · rw [if_neg hst]
        by_cases hr : req ≤ st.count.bytes
        · rw [if_pos hr]
          exact ⟨_, _, [], 0, rfl, rfl, rfl, hu, ⟨[], fun _ => rfl, by simp⟩, rfl, rfl, hadd0, .inl ⟨0, rfl⟩, fun h => by simp at h,
            fun _ _ _ => hr, fun _ => rfl, Nat.zero_le _, rfl, rfl, rfl⟩
        · rw [if_neg hr]
          have hget : buf.slots[buf.used]? = some buf.slots[buf.used] := List.getElem?_eq_getElem hlt
          rw [hget]
          simp only
          have hpos : st.pos < f.length := by have := hin (by omega); omega
          rcases readSlot_spec (E.err st.checks) buf.slots[buf.used] f st.pos with ⟨he, s', hs'⟩ | ⟨s', r, hs', hlazy, huse⟩
          · rw [hs']
            refine ⟨_, _, [], 0, rfl, by simp, rfl, hlt, ⟨[s'.entry], fun h => absurd (h _) he, ?_⟩, rfl, rfl, hadd0, .inl ⟨0, rfl⟩,
              fun h => by simp at h, fun _ _ h => absurd (h _) he, fun h => absurd (h _) he, Nat.zero_le _, rfl, rfl, rfl⟩
            simp only
            rw [take_set_succ _ _ _ hlt]
            simp
          · rw [hs']
            simp only
            have hc := readBlockLazily_spec buf.slots[buf.used].block f st.pos
            rw [hlazy] at hc
            unfold classify at hc
            simp only at hc
            -- the buffer after cancelling the slot
            have hcancel : ∀ (q : Buffer), q = ({ buf with slots := buf.slots.set buf.used s', used := buf.used + 1 } : Buffer).cancel →
                q.used = buf.used ∧ q.slots.length = buf.slots.length ∧ q.groups = buf.groups ∧ q.slots.take q.used = buf.slots.take buf.used := by
              rintro q rfl
              unfold Buffer.cancel
              refine ⟨rfl, by simp, rfl, ?_⟩
              simp only [Nat.add_sub_cancel]
              apply List.ext_getElem?
              intro i
              rw [List.getElem?_take, List.getElem?_take]
              split
              · rename_i hi
                rw [List.getElem?_modify, List.getElem?_set]
                have h1 : ¬ (buf.used = i) := by omega
                rw [if_neg h1, Option.map_eq_map]
                simp [h1]
              · rfl
            -- advancing by some bytes
            have hadv : ∀ (st1 : St) (q : Buffer) (w : List (Nat × Block)), st1.pos = st.pos + r.lenRead → st1.run = true →
                (0 < r.lenRead ∧ r.lenRead ≤ f.length - st.pos) → (128 ∣ r.lenRead ∨ f.length ≤ st1.pos) →
                st1.count = st.count.add w r.lenRead → q.slots.length = buf.slots.length → q.groups = buf.groups → q.used ≤ buf.slots.length →
                walk req st.count.bytes (f.drop st.pos) = w ++ walk req st1.count.bytes (f.drop st1.pos) →
                (q.slots.take q.used).map Slot.entry = (buf.slots.take buf.used).map Slot.entry ++
                  (w.filter fun x => Wanted p x.2).map (fun x => (x.2, f.readAt (st.pos + (x.1 - st.count.bytes)) (blockLen x.2.header.version))) →
                st1.failed = st.failed → st1.hung = st.hung ∧ st1.turn = st.turn ∧ st1.events = st.events →
                ∃ st' buf' l d, fill E p f req fuel st1 q = some (st', buf') ∧ Filled E p f req st buf st' buf' l d := by
              intro st1 q w h1 h2 ⟨h3, h3'⟩ h4 h5 h6 h7 h8 h9 h10 h11 h12
              have hb1 : st1.count.bytes = st.count.bytes + r.lenRead := by rw [h5]; rfl
              obtain ⟨st', buf', l, d, hf, hF⟩ := ih st1 q (by rw [h6]; exact h8) h2 (by
                intro hlt1
                have := hin (by omega)
                omega) (by omega)
              refine ⟨st', buf', w ++ l, r.lenRead + d, hf, ?_⟩
              refine ⟨by rw [hF.len, h6], by rw [hF.groups, h7], by have := hF.used; omega, ?_, by rw [h9, hF.split, List.append_assoc],
                by rw [hF.pos, h1]; omega, by rw [hF.count, h5, add_add], ?_, ?_, hF.stops, fun h => by rw [hF.failed h, h11], ?_, ?_⟩
              · obtain ⟨junk, hj, he⟩ := hF.entries
                refine ⟨junk, hj, ?_⟩
                rw [he, h10, List.filter_append, List.map_append, List.append_assoc, List.append_assoc, List.append_assoc, List.append_assoc]
                congr 2
                congr 1
                apply List.map_congr_left
                intro x hx
                have hxw : x ∈ walk req st1.count.bytes (f.drop st1.pos) := by
                  rw [hF.split]; exact List.mem_append_left _ (List.mem_filter.1 hx).1
                have := (walk_sound req _ _ _ (Nat.le_refl _) x hxw).1
                rw [h1, show st.pos + r.lenRead + (x.1 - st1.count.bytes) = st.pos + (x.1 - st.count.bytes) by omega]
              · rcases h4 with h4 | h4
                · rcases hF.aligned with h | h
                  · exact .inl (Nat.dvd_add h4 h)
                  · exact .inr h
                · right
                  rw [hF.pos]
                  exact Nat.le_trans h4 (Nat.le_add_right _ _)
              · intro h
                have := hF.goes h
                exact ⟨by rw [this.1, h6], fun _ => by omega⟩
              · have := hF.inside
                rw [h1] at this
                omega
              · exact ⟨hF.rest.1.trans h12.1, hF.rest.2.1.trans h12.2.1, hF.rest.2.2.trans h12.2.2⟩
            have hdrop : (f.drop st.pos).drop r.lenRead = f.drop (st.pos + r.lenRead) := List.drop_drop
            cases hu : r.usable with
            | false =>
              simp only [Bool.false_eq_true, if_false]
              obtain ⟨c1, c2, c3, c4⟩ := hcancel _ rfl
              cases he : r.eof with
              | true =>
                have hl := (lazy_eof hlazy he).2
                rw [List.length_drop] at hl
                have hend : f.length ≤ st.pos + r.lenRead := by omega
                refine hadv _ _ [] rfl hrun ⟨by omega, by omega⟩ (.inr hend) rfl c2 c3 (by rw [c1]; omega) ?_ (by rw [c4]; simp) rfl ⟨rfl, rfl, rfl⟩
                simp only
                rw [walk_end _ _ _ hend, walk_eq, if_neg hr, ← hc, he]
                rfl
              | false =>
                rw [he, hu] at hc
                simp only [Bool.false_eq_true, if_false] at hc
                have ha := seenAt_advance (.inl hc.symm)
                rw [List.length_drop] at ha
                refine hadv _ _ [] rfl hrun ⟨by omega, by omega⟩ (.inl (seenAt_dvd (.inl hc.symm))) rfl c2 c3 (by rw [c1]; omega) ?_ (by rw [c4]; simp) rfl ⟨rfl, rfl, rfl⟩
                simp only
                rw [walk_eq, if_neg hr, ← hc, ← hdrop]
                rfl
            | true =>
              simp only [if_true]
              obtain ⟨hd1, hd2⟩ := huse hu
              have he : r.eof = false := by
                rcases Bool.eq_false_or_eq_true r.eof with he | he
                · rw [(lazy_eof hlazy he).1] at hu; simp at hu
                · exact he
              rw [he, hu] at hc
              simp only [Bool.false_eq_true, if_false, if_true] at hc
              have ha := seenAt_advance (.inr ⟨_, hc.symm⟩)
              rw [List.length_drop] at ha
              have hcnt : ({ st.count with bytes := st.count.bytes + r.lenRead } : Counters).count s'.block =
                  st.count.add [(st.count.bytes, s'.block)] r.lenRead := by
                unfold Counters.add
                rw [count_set]; rfl
              have hw : walk req st.count.bytes (f.drop st.pos) = [(st.count.bytes, s'.block)] ++
                  walk req (st.count.bytes + r.lenRead) (f.drop (st.pos + r.lenRead)) := by
                rw [walk_eq, if_neg hr, ← hc, ← hdrop]
                rfl
              have hbytes : ∀ c : Counters, c.bytes = st.count.bytes + r.lenRead → (c.count s'.block).bytes = st.count.bytes + r.lenRead := by
                intro c hc; rw [count_bytes]; exact hc
              by_cases hp : p.picks s'.block = true
              · rw [if_pos hp]
                refine hadv _ _ [(st.count.bytes, s'.block)] rfl hrun ⟨by omega, by omega⟩ (.inl (seenAt_dvd (.inr ⟨_, hc.symm⟩))) hcnt
                  (by simp) rfl hlt ?_ ?_ rfl ⟨rfl, rfl, rfl⟩
                · simp only
                  rw [hbytes _ rfl]; exact hw
                · simp only
                  rw [take_set_succ _ _ _ hlt, List.map_append, List.filter_cons_of_pos (by simpa using (picks_iff p _).1 hp)]
                  simp only [List.filter_nil, List.map_cons, List.map_nil, Nat.sub_self, Nat.add_zero]
                  rw [← hd1]
                  rfl
              · rw [if_neg hp]
                obtain ⟨c1, c2, c3, c4⟩ := hcancel _ rfl
                refine hadv _ _ [(st.count.bytes, s'.block)] rfl hrun ⟨by omega, by omega⟩ (.inl (seenAt_dvd (.inr ⟨_, hc.symm⟩))) hcnt
                  c2 c3 (by rw [c1]; omega) ?_ ?_ rfl ⟨rfl, rfl, rfl⟩
                · simp only
                  rw [hbytes _ rfl]; exact hw
                · rw [c4, List.filter_cons_of_neg (by simpa using fun h => hp ((picks_iff p _).2 h))]
                  simp

end Verif.Rescue
