import Verif.Model.Reader
import Verif.Spec.Reader
import Verif.Lemmas.PipelineSim
/-!
# Encoding a pipe is encoding the bytes delivered before the first incomplete read
-/

namespace Verif.Reader
open Encode Layout FileUtils ReaderSpec Pipeline

theorem readLoop_eq (sizes : Nat → Nat) (tries : Nat) : ∀ (room : Nat) (rest : List Byte) (calls : Nat),
    (readLoop sizes tries room rest calls).1 = rest.take (min room (capacity sizes calls tries)) ∧
    (readLoop sizes tries room rest calls).2.1 = rest.drop (min room (capacity sizes calls tries)) := by
  induction tries with
  | zero => intro room rest calls; simp [readLoop, capacity]
  | succ tries ih =>
    intro room rest calls
    unfold readLoop
    split
    · subst_vars; simp
    · rename_i hroom
      simp only
      have hcap : capacity sizes calls (tries + 1) = (sizes calls + 1) + capacity sizes (calls + 1) tries := by
        unfold capacity
        rw [List.range_succ_eq_map, List.map_cons, List.sum_cons, List.map_map]
        congr 2
        apply List.map_congr_left
        intro i _
        simp only [Function.comp]
        congr 2; omega
      rw [hcap, (ih _ _ _).1, (ih _ _ _).2]
      have hlen : (rest.take (min room (sizes calls + 1))).length = min (min room (sizes calls + 1)) rest.length := List.length_take
      rw [hlen]
      by_cases hr : min room (sizes calls + 1) ≤ rest.length
      · rw [Nat.min_eq_left hr]
        have e : min room (sizes calls + 1 + capacity sizes (calls + 1) tries) =
            min room (sizes calls + 1) + min (room - min room (sizes calls + 1)) (capacity sizes (calls + 1) tries) := by omega
        rw [e]
        exact ⟨List.take_add.symm, by rw [List.drop_drop]⟩
      · have hm : min (min room (sizes calls + 1)) rest.length = rest.length := by omega
        rw [hm, List.drop_length, List.take_nil, List.append_nil, List.drop_nil, List.take_of_length_le (by omega),
          List.take_of_length_le (by omega), List.drop_eq_nil_of_le (by omega)]
        exact ⟨rfl, rfl⟩

theorem read_eq (sizes : Nat → Nat) (room : Nat) (rest : List Byte) (calls : Nat) :
    (read sizes room rest calls).1 = rest.take (min room (capacity sizes calls 5)) ∧
    (read sizes room rest calls).2.1 = rest.drop (min room (capacity sizes calls 5)) := readLoop_eq sizes 5 room rest calls

/-- The bytes delivered up to the first read that does not fill a chunk. -/
def delivered (sizes : Nat → Nat) (room : Nat) : (fuel : Nat) → (rest : List Byte) → (calls : Nat) → List Byte
  | 0, _, _ => []
  | fuel + 1, rest, calls =>
    let r := read sizes room rest calls
    if r.1.length < room then r.1 else r.1 ++ delivered sizes room fuel r.2.1 r.2.2

theorem delivered_step (sizes : Nat → Nat) {room : Nat} (hroom : 1 ≤ room) {fuel : Nat} {rest : List Byte} (calls : Nat) (h : rest.length < fuel) :
    (delivered sizes room fuel rest calls).take room = (read sizes room rest calls).1 ∧
    ((read sizes room rest calls).1.length = room → ∃ fuel', (read sizes room rest calls).2.1.length < fuel' ∧
      (delivered sizes room fuel rest calls).drop room = delivered sizes room fuel' (read sizes room rest calls).2.1 (read sizes room rest calls).2.2) := by
  obtain ⟨fuel, rfl⟩ : ∃ k, fuel = k + 1 := ⟨fuel - 1, by omega⟩
  obtain ⟨e1, e2⟩ := read_eq sizes room rest calls
  have hl : (read sizes room rest calls).1.length ≤ room := by rw [e1, List.length_take]; omega
  have hdel : delivered sizes room (fuel + 1) rest calls = if (read sizes room rest calls).1.length < room then (read sizes room rest calls).1
      else (read sizes room rest calls).1 ++ delivered sizes room fuel (read sizes room rest calls).2.1 (read sizes room rest calls).2.2 := rfl
  rw [hdel]
  split
  · rename_i hlt
    exact ⟨List.take_of_length_le hl, fun h => by omega⟩
  · have hle : (read sizes room rest calls).1.length = room := by omega
    refine ⟨List.take_left' hle, fun _ => ⟨fuel, ?_, List.drop_left' hle⟩⟩
    have h1 := hle
    rw [e1, List.length_take] at h1
    rw [e2, List.length_drop]
    omega

theorem delivered_prefix (sizes : Nat → Nat) (room fuel : Nat) : ∀ (rest : List Byte) (calls : Nat),
    delivered sizes room fuel rest calls <+: rest := by
  induction fuel with
  | zero => intro rest calls; exact List.nil_prefix
  | succ fuel ih =>
    intro rest calls
    obtain ⟨e1, e2⟩ := read_eq sizes room rest calls
    unfold delivered
    simp only
    split
    · rw [e1]; exact List.take_prefix _ _
    · obtain ⟨t, ht⟩ := ih (read sizes room rest calls).2.1 (read sizes room rest calls).2.2
      refine ⟨t, ?_⟩
      rw [List.append_assoc, ht, e1, e2, List.take_append_drop]

theorem delivered_quick (sizes : Nat → Nat) {room : Nat} (hroom : 1 ≤ room) (hq : Quick sizes room) (fuel : Nat) : ∀ (rest : List Byte) (calls : Nat),
    rest.length < fuel → delivered sizes room fuel rest calls = rest := by
  induction fuel with
  | zero => intro rest calls h; omega
  | succ fuel ih =>
    intro rest calls h
    obtain ⟨e1, e2⟩ := read_eq sizes room rest calls
    have hm : min room (capacity sizes calls 5) = room := Nat.min_eq_left (hq calls)
    rw [hm] at e1 e2
    unfold delivered
    simp only
    split
    · rename_i hlt
      rw [e1, List.length_take] at hlt
      rw [e1, List.take_of_length_le (by omega)]
    · rename_i hlt
      rw [e1, List.length_take] at hlt
      rw [ih _ _ (by rw [e2, List.length_drop]; omega), e1, e2, List.take_append_drop]

/-! ### The reader thread -/

theorem fields {a b : RdSt} (h : { a with rest := [] } = { b with rest := [] }) : a.run = b.run ∧ a.overflow = b.overflow ∧ a.hashed = b.hashed := by
  simp only [RdSt.mk.injEq] at h
  exact ⟨h.2.2.2.2.1, h.2.2.2.2.2.2.1, h.2.2.2.2.2.1⟩

/-- Equal except for the input. -/
def Same (a b : RdSt) : Prop := { a with rest := [] } = { b with rest := [] }

/-- What happens to the input. -/
def leaves (ds : Nat) (rest : List Byte) : RdAct → List Byte
  | .halt => rest
  | _ => rest.drop ds

theorem readAct_rest (p : Param) (stop : Nat → Bool) (req : Option Nat) (lastSeq : Nat) (st st' : RdSt) (hs : Same st st')
    (hr : st.rest.take p.version.dataSize = st'.rest.take p.version.dataSize) :
    (Encode.readAct p stop req lastSeq st = none ∧ Encode.readAct p stop req lastSeq st' = none) ∨
    ∃ a b act, Encode.readAct p stop req lastSeq st = some (a, act) ∧ Encode.readAct p stop req lastSeq st' = some (b, act) ∧ Same a b ∧
      a.rest = leaves p.version.dataSize st.rest act ∧ b.rest = leaves p.version.dataSize st'.rest act ∧
      (∀ c, act = .keep c → a.run = st.run ∧ (st.rest.take p.version.dataSize).length = p.version.dataSize) ∧
      ((∀ c, act ≠ .keep c) → a.run = false) := by
  obtain ⟨rest, processed, seq, lastSeen, run, hashed, overflow, checks⟩ := st
  obtain ⟨rest', processed', seq', lastSeen', run', hashed', overflow', checks'⟩ := st'
  unfold Same at hs
  simp only [RdSt.mk.injEq, true_and] at hs
  obtain ⟨rfl, rfl, rfl, rfl, rfl, rfl, rfl⟩ := hs
  simp only at hr
  unfold Encode.readAct
  simp only
  rw [← hr]
  split
  · exact .inr ⟨_, _, _, rfl, rfl, rfl, rfl, rfl, by simp, by simp⟩
  · split
    · exact .inr ⟨_, _, _, rfl, rfl, rfl, rfl, rfl, by simp, by simp⟩
    · split
      · exact .inr ⟨_, _, _, rfl, rfl, rfl, rfl, rfl, by simp, by simp⟩
      · split
        · exact .inr ⟨_, _, _, rfl, rfl, rfl, rfl, rfl, by simp, by simp⟩
        · split
          · exact .inr ⟨_, _, _, rfl, rfl, rfl, rfl, rfl, by simp, by simp⟩
          · rename_i hlen
            split
            · exact .inl ⟨rfl, rfl⟩
            · refine .inr ⟨_, _, _, rfl, rfl, rfl, rfl, rfl, fun c _ => ⟨rfl, ?_⟩, by simp⟩
              have : (rest.take p.version.dataSize).length ≤ p.version.dataSize := by rw [List.length_take]; omega
              omega

/-- State of the thread reading a pipe, and of one that reads completely. -/
structure RelRd (sizes : Nat → Nat) (p : Param) (st : RdSt) (calls : Nat) (st' : RdSt) : Prop where
  same : Same st st'
  rest : st.run = true → ∃ fuel, st.rest.length < fuel ∧ st'.rest = delivered sizes p.version.dataSize fuel st.rest calls

theorem dataSize_one (v : Version) : 1 ≤ v.dataSize := by cases v <;> decide

theorem readAct_sim (sizes : Nat → Nat) (p : Param) (stop : Nat → Bool) (lastSeq : Nat) {st st' : RdSt} {calls : Nat}
    (h : RelRd sizes p st calls st') (hrun : st.run = true) :
    (readAct sizes p stop lastSeq st calls = none ∧ Encode.readAct p stop none lastSeq st' = none) ∨
    ∃ a n b act, readAct sizes p stop lastSeq st calls = some ((a, n), act) ∧ Encode.readAct p stop none lastSeq st' = some (b, act) ∧
      RelRd sizes p a n b ∧ (∀ c, act = .keep c → a.run = true) := by
  obtain ⟨fuel, hf, hrest⟩ := h.rest hrun
  obtain ⟨d1, d2⟩ := delivered_step sizes (dataSize_one p.version) calls hf
  obtain ⟨e1, e2⟩ := read_eq sizes p.version.dataSize st.rest calls
  have hl : (read sizes p.version.dataSize st.rest calls).1.length ≤ p.version.dataSize := by rw [e1, List.length_take]; omega
  have hs : Same { st with rest := (read sizes p.version.dataSize st.rest calls).1 } st' := h.same
  have hmain := readAct_rest p stop none lastSeq { st with rest := (read sizes p.version.dataSize st.rest calls).1 } st' hs (by
    rw [hrest, d1]
    exact List.take_of_length_le hl)
  unfold readAct
  simp only
  rcases hmain with ⟨m1, m2⟩ | ⟨a, b, act, m1, m2, m3, m4, m5, m6, m7⟩
  · rw [m1]; exact .inl ⟨rfl, m2⟩
  · right
    rw [m1, m2]
    cases act with
    | halt => exact ⟨_, _, _, _, rfl, rfl, ⟨m3, fun hr => by rw [m7 (by simp)] at hr; simp at hr⟩, by simp⟩
    | undo c => exact ⟨_, _, _, _, rfl, rfl, ⟨m3, fun hr => by rw [m7 (by simp)] at hr; simp at hr⟩, by simp⟩
    | last c => exact ⟨_, _, _, _, rfl, rfl, ⟨m3, fun hr => by rw [m7 (by simp)] at hr; simp at hr⟩, by simp⟩
    | keep c =>
      obtain ⟨k1, k2⟩ := m6 c rfl
      simp only at k1 k2
      refine ⟨_, _, _, _, rfl, rfl, ⟨m3, fun _ => ?_⟩, fun _ _ => by simp only; rw [k1, hrun]⟩
      rw [List.take_of_length_le hl] at k2
      obtain ⟨fuel', g1, g2⟩ := d2 k2
      refine ⟨fuel', g1, ?_⟩
      rw [m5]
      show st'.rest.drop _ = _
      rw [hrest, g2]

theorem fillLoop_sim (sizes : Nat → Nat) (p : Param) (stop : Nat → Bool) (lastSeq fuel : Nat) : ∀ {st st' : RdSt} {calls : Nat} (b : Buffer),
    RelRd sizes p st calls st' → st.run = true →
    (fillLoop sizes p stop lastSeq fuel st calls b = none ∧ Encode.fillLoop p stop none lastSeq fuel st' b = none) ∨
    ∃ x n y b', fillLoop sizes p stop lastSeq fuel st calls b = some ((x, n), b') ∧
      Encode.fillLoop p stop none lastSeq fuel st' b = some (y, b') ∧ RelRd sizes p x n y := by
  induction fuel with
  | zero => intros; exact .inl ⟨rfl, rfl⟩
  | succ fuel ih =>
    intro st st' calls b h hrun
    unfold fillLoop Encode.fillLoop
    split
    · exact .inr ⟨_, _, _, _, rfl, rfl, h⟩
    · rcases readAct_sim sizes p stop lastSeq h hrun with ⟨m1, m2⟩ | ⟨x, n, y, act, m1, m2, m3, m4⟩
      · rw [m1, m2]; exact .inl ⟨rfl, rfl⟩
      · rw [m1, m2]
        cases act with
        | halt => exact .inr ⟨_, _, _, _, rfl, rfl, m3⟩
        | undo c =>
          simp only
          cases (b.fill (Slot.load p.cfg c)).bind Buffer.cancelSlot with
          | none => exact .inl ⟨rfl, rfl⟩
          | some b' => exact .inr ⟨_, _, _, _, rfl, rfl, m3⟩
        | last c =>
          simp only
          cases b.fill (Slot.load p.cfg c) with
          | none => exact .inl ⟨rfl, rfl⟩
          | some b' => exact .inr ⟨_, _, _, _, rfl, rfl, m3⟩
        | keep c =>
          simp only
          cases b.fill (Slot.load p.cfg c) with
          | none => exact .inl ⟨rfl, rfl⟩
          | some b' => exact ih b' m3 (m4 c rfl)

/-- The states of the threads. -/
structure Rel (sizes : Nat → Nat) (p : Param) (s : St) (t : Encode.St) : Prop where
  rd : RelRd sizes p s.base.rd s.calls t.rd
  wk : s.base.wk = t.wk
  wr : s.base.wr = t.wr
  panicked : s.base.panicked = t.panicked

theorem ring_sim (sizes : Nat → Nat) (rs : RsCodec) (p : Param) (stop : Nat → Bool) (lastSeq fuel : Nat) :
    Sim (ring sizes rs p stop lastSeq fuel) (Encode.ring rs p stop none lastSeq fuel) (Rel sizes p) := by
  intro i s t m h
  have hrun : s.base.rd.run = t.rd.run := (fields h.rd.same).1
  by_cases hi : i = 0
  · subst hi
    show (readerStep sizes p stop lastSeq fuel s m).2 = (Encode.readerStep p stop none lastSeq fuel t m).2 ∧
      Rel sizes p (readerStep sizes p stop lastSeq fuel s m).1 (Encode.readerStep p stop none lastSeq fuel t m).1
    unfold readerStep Encode.readerStep
    rw [← hrun]
    cases hr : s.base.rd.run with
    | false => exact ⟨rfl, h⟩
    | true =>
      simp only [Bool.not_true, Bool.false_eq_true, if_false]
      rcases fillLoop_sim sizes p stop lastSeq fuel m h.rd hr with ⟨m1, m2⟩ | ⟨x, n, y, b', m1, m2, m3⟩
      · rw [m1, m2]; exact ⟨rfl, h.rd, h.wk, h.wr, rfl⟩
      · rw [m1, m2]; exact ⟨rfl, m3, h.wk, h.wr, h.panicked⟩
  · by_cases hi1 : i = 1
    · subst hi1
      show (workerStep rs p s.base m).2 = (workerStep rs p t m).2 ∧ Rel sizes p ⟨(workerStep rs p s.base m).1, s.calls⟩ (workerStep rs p t m).1
      unfold workerStep
      split
      · exact ⟨rfl, h.rd, h.wk, h.wr, rfl⟩
      · exact ⟨rfl, h.rd, by simp only [h.wk], h.wr, h.panicked⟩
    · have e1 : (ring sizes rs p stop lastSeq fuel).step i s m = (⟨(writerStep s.base m).1, s.calls⟩, (writerStep s.base m).2) := by
        show (if i = 0 then _ else _) = _
        rw [if_neg hi]; simp only [if_neg hi1]
      have e2 : (Encode.ring rs p stop none lastSeq fuel).step i t m = writerStep t m := by
        show (if i = 0 then _ else if i = 1 then _ else _) = _
        rw [if_neg hi, if_neg hi1]
      rw [e1, e2]
      unfold writerStep
      rw [h.wr]
      exact ⟨rfl, h.rd, h.wk, rfl, h.panicked⟩

/-- The data part on a pipe. -/
theorem runThreads_eq (sizes : Nat → Nat) (E : Env) (p : Param) (bytes : List Byte) (d : Disk) {st : Encode.St}
    (h : Encode.runThreads E p ⟨delivered sizes p.version.dataSize (bytes.length + 1) bytes 0, none⟩ d = some st) :
    ∃ st', runThreads sizes E p bytes d = some st' ∧ Same st'.rd st.rd ∧ st'.wk = st.wk ∧ st'.wr = st.wr ∧ st'.panicked = st.panicked := by
  unfold Encode.runThreads at h
  unfold runThreads
  split at h
  · simp at h
  · rename_i lastSeq hls
    rw [hls]
    simp only
    rw [Option.map_eq_some_iff] at h
    obtain ⟨fin, hfin, rfl⟩ := h
    have hle := (delivered_prefix sizes p.version.dataSize (bytes.length + 1) bytes 0).length_le
    have hfin := runSeq_mono (fuel' := bytes.length + 3) (by simp only; omega) hfin
    rcases (ring_sim sizes E.rs p E.stop lastSeq (E.lotCount * p.cfg.direct + 1)).runSeq (bytes.length + 3)
      (fun _ => ⟨startSt p ⟨bytes, none⟩ d, 0⟩)
      (fun _ => startSt p ⟨delivered sizes p.version.dataSize (bytes.length + 1) bytes 0, none⟩ d)
      (Buffer.newMulti p.cfg E.lotCount buffersInRotation)
      (fun _ => ⟨⟨rfl, fun _ => ⟨bytes.length + 1, Nat.lt_succ_self _, rfl⟩⟩, rfl, rfl, rfl⟩) with ⟨e1, e2⟩ | ⟨a, b, e1, e2, e3⟩
    · have hfin' : (Encode.ring E.rs p E.stop none lastSeq (E.lotCount * p.cfg.direct + 1)).runSeq (bytes.length + 3)
        (fun _ => startSt p ⟨delivered sizes p.version.dataSize (bytes.length + 1) bytes 0, none⟩ d)
        (Buffer.newMulti p.cfg E.lotCount buffersInRotation) = some fin := hfin
      rw [e2] at hfin'; simp at hfin'
    · have hfin' : (Encode.ring E.rs p E.stop none lastSeq (E.lotCount * p.cfg.direct + 1)).runSeq (bytes.length + 3)
        (fun _ => startSt p ⟨delivered sizes p.version.dataSize (bytes.length + 1) bytes 0, none⟩ d)
        (Buffer.newMulti p.cfg E.lotCount buffersInRotation) = some fin := hfin
      rw [e2] at hfin'
      cases hfin'
      rw [e1]
      refine ⟨_, rfl, (e3 0).rd.same, (e3 1).wk, (e3 2).wr, ?_⟩
      simp only [(e3 0).panicked, (e3 1).panicked]

theorem encodeStdin_eq (sizes : Nat → Nat) (E : Env) (p : Param) (bytes : List Byte) {r : Disk × Except Err Report}
    (h : encodeFile E p ⟨delivered sizes p.version.dataSize (bytes.length + 1) bytes 0, none⟩ = r) (hp : r.2 ≠ .error .panic) :
    encodeStdin sizes E p bytes = r := by
  unfold encodeFile at h
  have ht : tooLarge p ⟨delivered sizes p.version.dataSize (bytes.length + 1) bytes 0, none⟩ = some false := rfl
  rw [ht] at h
  simp only at h
  unfold encodeStdin
  have hd : dummyMeta E p ⟨delivered sizes p.version.dataSize (bytes.length + 1) bytes 0, none⟩ = dummyMeta E p ⟨bytes, none⟩ := rfl
  rw [hd] at h
  cases hdd : dummyMeta E p ⟨bytes, none⟩ with
  | none => rw [hdd] at h; exact h
  | some d =>
    rw [hdd] at h
    simp only at h ⊢
    cases hr : Encode.runThreads E p ⟨delivered sizes p.version.dataSize (bytes.length + 1) bytes 0, none⟩ d with
    | none =>
      rw [hr] at h
      simp only at h
      rw [← h] at hp
      exact absurd rfl hp
    | some st =>
      rw [hr] at h
      obtain ⟨st', e1, e2, e3, e4, e5⟩ := runThreads_eq sizes E p bytes d hr
      rw [e1]
      simp only at h ⊢
      rw [← h]
      have hov : st'.rd.overflow = st.rd.overflow := (fields e2).2.1
      have hha : st'.rd.hashed = st.rd.hashed := (fields e2).2.2
      have hpack : ∀ t n x, packMetadata E.hash p ⟨delivered sizes p.version.dataSize (bytes.length + 1) bytes 0, none⟩ t n x =
          packMetadata E.hash p ⟨bytes, none⟩ t n x := fun _ _ _ => rfl
      unfold finish
      rw [e3, e4, e5, hov, hha]
      simp only [hpack]

end Verif.Reader
