import Verif.Lemmas.BufferEncode
import Verif.Model.Encode
import Mathlib.Tactic.Ring
/-!
# Lemmas about rotating several data block buffers
-/

namespace Verif
open Format ContainerSpec

theorem chunksOf_flatten {α : Type} {n : Nat} (hn : n ≠ 0) (l : List α) : (chunksOf n l).flatten = l := by
  induction h : l.length using Nat.strong_induction_on generalizing l with
  | _ k ih =>
    by_cases hl : l = []
    · subst hl; simp [chunksOf_nil]
    · have := List.length_pos_iff.2 hl
      rw [chunksOf_cons hn hl, List.flatten_cons, ih (l.drop n).length (by simp; omega) _ rfl, List.take_append_drop]

theorem chunksOf_map {α β : Type} (f : α → β) (n : Nat) (l : List α) : chunksOf n (l.map f) = (chunksOf n l).map (List.map f) := by
  induction h : l.length using Nat.strong_induction_on generalizing l with
  | _ k ih =>
    by_cases hn : n = 0
    · subst hn; simp [chunksOf]
    · by_cases hl : l = []
      · subst hl; simp [chunksOf_nil]
      · have := List.length_pos_iff.2 hl
        rw [chunksOf_cons hn hl, chunksOf_cons hn (by simpa using hl), List.map_cons, ← List.map_take, ← List.map_drop,
          ih (l.drop n).length (by simp; omega) _ rfl]

theorem mem_chunksOf {α : Type} {n : Nat} (l : List α) : ∀ cs ∈ chunksOf n l, cs ≠ [] ∧ cs.length ≤ n ∧ ∀ x ∈ cs, x ∈ l := by
  induction h : l.length using Nat.strong_induction_on generalizing l with
  | _ k ih =>
    intro cs hcs
    by_cases hn : n = 0
    · subst hn; rw [chunksOf] at hcs; simp at hcs
    · by_cases hl : l = []
      · subst hl; simp [chunksOf_nil] at hcs
      · have hpos := List.length_pos_iff.2 hl
        rw [chunksOf_cons hn hl, List.mem_cons] at hcs
        rcases hcs with rfl | hcs
        · refine ⟨?_, by simp, fun x hx => List.mem_of_mem_take hx⟩
          intro h'
          have := congrArg List.length h'
          rw [List.length_take, List.length_nil] at this; omega
        · obtain ⟨h1, h2, h3⟩ := ih (l.drop n).length (by simp; omega) _ rfl cs hcs
          exact ⟨h1, h2, fun x hx => List.mem_of_mem_drop (h3 x hx)⟩

/-- The bytes of the file a slot stands for. -/
def Item.chunk (it : Item) : List Byte :=
  match it.contentLen with
  | none => it.payload
  | some len => it.payload.take len

/-- An item as delivered by the reader of the encoder. -/
structure Item.Good (v : Version) (it : Item) : Prop where
  len : it.payload.length = v.dataSize
  pos : ∀ n, it.contentLen = some n → 0 < n ∧ n ≤ v.dataSize
  real : it.isPadding = false

theorem Slot.Filled.good {c : LotCfg} {s : Slot} (h : s.Filled c) : s.item.Good c.version := by
  refine ⟨h.item_length, ?_, h.isPadding⟩
  intro n hn
  have := h.content
  unfold Lot.lenOk at this
  have hn' : s.contentLen = some n := hn
  rw [hn'] at this
  simpa using this

theorem Item.Good.chunk_length {v : Version} {it : Item} (h : it.Good v) :
    it.chunk.length = it.contentLen.getD v.dataSize := by
  unfold Item.chunk
  cases hc : it.contentLen with
  | none => simpa using h.len
  | some n => have := (h.pos n hc).2; simp [h.len]; omega

theorem dataSize_eq (v : Version) : v.dataSize = blockLen v - 16 := by cases v <;> rfl

theorem padItem_chunk {v : Version} {it : Item} (h : it.Good v) : (padItem v it).payload = pad (blockLen v - 16) it.chunk := by
  rw [← dataSize_eq]
  unfold padItem Item.chunk pad
  cases hc : it.contentLen with
  | none => simp [h.len]
  | some n =>
    have := (h.pos n hc).2
    simp only
    split
    · simp only [List.length_take, h.len]; rw [Nat.min_eq_left this]
    · have : n = v.dataSize := by omega
      rw [List.take_of_length_le (by rw [h.len]; omega)]; simp [h.len]

theorem setItems_chunks {v : Version} {n : Nat} {cs : List Item} (h : ∀ it ∈ cs, it.Good v) :
    (setItems v n cs).map (·.payload) = dataShards (blockLen v - 16) n (cs.map Item.chunk) := by
  unfold setItems dataShards
  rw [List.map_append, List.map_map, List.map_map, List.map_replicate, List.length_map]
  congr 1
  · apply List.map_congr_left
    intro it hit
    exact padItem_chunk (h it hit)
  · congr 1
    simp [fillerItem, pad, dataSize_eq]

/-- Encoded slots carry the payloads of the specification. -/
theorem encItems_payloads {rs : RsCodec} {c : LotCfg} (hi : c.inputData = true) (hp : c.Pos) {its : List Item}
    (h : ∀ it ∈ its, it.Good c.version) :
    (encItems rs c its).map (·.payload) = payloads rs c.version c.dpb (its.map Item.chunk) := by
  unfold encItems payloads
  cases hd : c.dpb with
  | none =>
    have : ∀ cs, lotItems rs c cs = cs.map (padItem c.version) := by intro cs; simp [lotItems, hd]
    simp only [List.map_map]
    rw [show lotItems rs c = fun cs => cs.map (padItem c.version) from funext this, List.flatMap_def,
      ← List.map_flatten, chunksOf_flatten (Nat.pos_iff_ne_zero.1 hp), List.map_map]
    apply List.map_congr_left
    intro it hit
    exact padItem_chunk (h it hit)
  | some d =>
    have hdd : c.direct = d.data := by simp [LotCfg.direct, hi, hd]
    simp only [hdd]
    rw [List.map_flatMap, chunksOf_map, List.flatMap_map]
    rw [List.flatMap_def, List.flatMap_def]
    congr 1
    apply List.map_congr_left
    intro cs hcs
    have hg : ∀ it ∈ cs, it.Good c.version := fun it hit => h it ((mem_chunksOf its cs hcs).2.2 it hit)
    simp only [lotItems, hd, List.map_append, List.map_map]
    rw [setItems_chunks hg]
    congr 1
    simp [Function.comp_def]

theorem encItems_nil (rs : RsCodec) (c : LotCfg) : encItems rs c [] = [] := by simp [encItems, chunksOf_nil]

/-- Whole buffers can be encoded one after the other. -/
theorem encItems_append {rs : RsCodec} {c : LotCfg} (hp : c.Pos) (k : Nat) (a b : List Item) (h : a.length = k * c.direct) :
    encItems rs c (a ++ b) = encItems rs c a ++ encItems rs c b := by
  unfold encItems
  rw [chunksOf_append_mul (Nat.pos_iff_ne_zero.1 hp) k a b h, List.flatMap_append]

/-- Number of blocks of whole lots. -/
theorem encItems_length {rs : RsCodec} {c : LotCfg} (hrs : RsOk rs c) (hi : c.inputData = true) (hp : c.Pos) (k : Nat)
    (a : List Item) (h : a.length = k * c.direct) (hg : ∀ it ∈ a, it.payload.length = c.version.dataSize) :
    (encItems rs c a).length = k * c.lotSize := by
  induction k generalizing a with
  | zero => have : a = [] := List.length_eq_zero_iff.1 (by omega)
            subst this; simp [encItems_nil]
  | succ k ih =>
    have hl : (a.take c.direct).length = c.direct := by rw [List.length_take, h, Nat.succ_mul]; omega
    have hd : (a.drop c.direct).length = k * c.direct := by rw [List.length_drop, h, Nat.succ_mul]; omega
    rw [← List.take_append_drop c.direct a, encItems_append hp 1 _ _ (by omega), List.length_append,
      ih _ hd (fun it hit => hg it (List.mem_of_mem_drop hit))]
    have hne : a.take c.direct ≠ [] := by
      intro h'; rw [h'] at hl; have : 0 < c.direct := hp; simp at hl; omega
    have hg' : ∀ it ∈ a.take c.direct, it.payload.length = c.version.dataSize := fun it hit => hg it (List.mem_of_mem_take hit)
    have : (encItems rs c (a.take c.direct)).length = c.lotSize := by
      unfold encItems
      rw [chunksOf_short hne (by omega)]
      simp only [List.flatMap_cons, List.flatMap_nil, List.append_nil]
      rw [lotItems_length hrs hi (by omega) hg']
      cases hdp : c.dpb with
      | none => simp only [hl]; simp [LotCfg.direct, LotCfg.lotSize, hi, hdp]
      | some d => rfl
    rw [this, Nat.succ_mul]; omega

theorem encItems_mono {rs : RsCodec} {c : LotCfg} (hrs : RsOk rs c) (hi : c.inputData = true) (hp : c.Pos)
    (its : List Item) (hg : ∀ it ∈ its, it.payload.length = c.version.dataSize) :
    its.length / c.direct * c.lotSize ≤ (encItems rs c its).length ∧
    its.length ≤ (encItems rs c its).length := by
  have h1 : (its.take (its.length / c.direct * c.direct)).length = its.length / c.direct * c.direct := by
    rw [List.length_take]
    have := Nat.div_mul_le_self its.length c.direct
    omega
  have h2 := encItems_append (rs := rs) hp _ (its.take (its.length / c.direct * c.direct)) (its.drop (its.length / c.direct * c.direct)) h1
  rw [List.take_append_drop] at h2
  have h3 := encItems_length (rs := rs) hrs hi hp _ _ h1 (fun it hit => hg it (List.mem_of_mem_take hit))
  rw [h2, List.length_append, h3]
  refine ⟨by omega, ?_⟩
  have h4 : its.length = its.length / c.direct * c.direct + its.length % c.direct := by
    have := Nat.div_add_mod its.length c.direct; rw [Nat.mul_comm] at this; omega
  have h5 := Nat.mul_le_mul_left (its.length / c.direct) c.direct_le
  have hdl : (its.drop (its.length / c.direct * c.direct)).length = its.length % c.direct := by
    rw [List.length_drop]; omega
  have h6 : its.length % c.direct ≤ (encItems rs c (its.drop (its.length / c.direct * c.direct))).length := by
    by_cases h0 : its.length % c.direct = 0
    · omega
    · have hne : its.drop (its.length / c.direct * c.direct) ≠ [] := by
        intro h'; rw [h'] at hdl; simp at hdl; omega
      have hlt : its.length % c.direct < c.direct := Nat.mod_lt _ hp
      unfold encItems
      rw [chunksOf_short hne (by omega)]
      simp only [List.flatMap_cons, List.flatMap_nil, List.append_nil]
      rw [lotItems_length hrs hi (by omega) (fun it hit => hg it (List.mem_of_mem_drop hit))]
      have := c.direct_le
      cases c.dpb with
      | none => simp only; omega
      | some d => simp only; omega
  omega

/-- A start number, if it exists. -/
def startOf (s : Nat) : Option Nat := if s ≤ lastSeqNum then some s else none

/-- Blocks per buffer. -/
def perBuffer (c : LotCfg) (L : Nat) : Nat := L * c.lotSize

/-- A queue of empty buffers, the first of which is the `k`-th to be filled. -/
structure Rot (c : LotCfg) (L N k : Nat) (bufs : List Buffer) : Prop where
  len : bufs.length = N
  each : ∀ (j : Nat) b, bufs[j]? = some b → b.OK c ∧ b.used = [] ∧ b.lots.length = L ∧
    b.incre = N * perBuffer c L ∧ b.startSeq = startOf (1 + (k + j) * perBuffer c L)

theorem Rot.new {c : LotCfg} (hp : c.Pos) {L N : Nat} (hN : N * perBuffer c L < 2 ^ 32) :
    Rot c L N 0 (Buffer.newMulti c L N) := by
  refine ⟨by simp [Buffer.newMulti], ?_⟩
  intro j b hb
  simp only [Buffer.newMulti, List.getElem?_map, Option.map_eq_some_iff] at hb
  obtain ⟨i, hi, rfl⟩ := hb
  have hj : j < N ∧ i = j := by
    have hlt : j < N := by
      by_contra h'
      rw [List.getElem?_eq_none (by simpa using h')] at hi
      simp at hi
    rw [List.getElem?_range hlt] at hi
    exact ⟨hlt, by simpa using hi.symm⟩
  obtain ⟨hj, rfl⟩ := hj
  refine ⟨Buffer.new_OK hp _ _ _, Buffer.new_used _ _ _ _, by simp [Buffer.new], ?_, ?_⟩
  · simp only [Buffer.new]
    rw [Nat.mod_eq_of_lt (by unfold perBuffer at hN; rw [Nat.mul_comm]; exact hN)]
    unfold perBuffer; ring
  · simp only [Buffer.new, Nat.zero_add]
    have h1 : i * (L * c.lotSize) < 2 ^ 32 := by
      have : i * perBuffer c L ≤ N * perBuffer c L := Nat.mul_le_mul_right _ (by omega)
      unfold perBuffer at this hN; omega
    have h3 : i * perBuffer c L + perBuffer c L ≤ N * perBuffer c L := by
      have : (i + 1) * perBuffer c L ≤ N * perBuffer c L := Nat.mul_le_mul_right _ (by omega)
      rwa [Nat.succ_mul] at this
    unfold perBuffer at *
    by_cases h0 : L * c.lotSize = 0
    · rw [h0]; simp [startOf, lastSeqNum]
    · rw [Nat.mod_eq_of_lt h1, Nat.mod_eq_of_lt (by omega), startOf, if_pos (by unfold lastSeqNum; omega)]

theorem Rot.next {c : LotCfg} {L N k : Nat} {b b' : Buffer} {bs : List Buffer} (h : Rot c L N k (b :: bs))
    (hok : b'.OK c) (hu : b'.used = []) (hl : b'.lots.length = L) (hi : b'.incre = N * perBuffer c L)
    (hs : b'.startSeq = startOf (1 + (k + N) * perBuffer c L)) : Rot c L N (k + 1) (bs ++ [b']) := by
  have hlen := h.len
  simp at hlen
  refine ⟨by simp; omega, ?_⟩
  intro j x hx
  by_cases hj : j < bs.length
  · rw [List.getElem?_append_left hj] at hx
    have := h.each (j + 1) x (by simpa using hx)
    rw [show k + 1 + j = k + (j + 1) by omega]; exact this
  · rw [List.getElem?_append_right (by omega)] at hx
    have hj' : j - bs.length = 0 := by
      by_contra h0
      rw [List.getElem?_eq_none (by simp; omega)] at hx; simp at hx
    rw [hj'] at hx
    simp at hx
    subst hx
    refine ⟨hok, hu, hl, hi, ?_⟩
    rw [hs, show k + 1 + j = k + N by omega]

/-- A full buffer continues numbering after all the others. -/
theorem start_after {start incre : Nat} (hi : incre < 2 ^ 32) :
    (if true = true ∧ ¬ (lastSeqNum - incre < start) then some (start + incre) else none) = startOf (start + incre) := by
  unfold startOf lastSeqNum
  by_cases h : start + incre ≤ 2 ^ 32 - 1
  · rw [if_pos h, if_pos]; exact ⟨rfl, by omega⟩
  · rw [if_neg h, if_neg]
    rintro ⟨-, h'⟩; omega

theorem Lot.calc_post {c : LotCfg} {l : Lot} (h : l.Post c) : l.calcSlotWritePos.Post c := by
  refine ⟨h.cfg, by simp [Lot.calcSlotWritePos, Lot.mapBelow, h.len], ?_⟩
  intro s hs
  simp only [Lot.calcSlotWritePos, Lot.mapBelow, List.mem_mapIdx] at hs
  obtain ⟨i, hi, rfl⟩ := hs
  have := h.data l.slots[i] (List.getElem_mem hi)
  split <;> exact this

end Verif

namespace Verif
open Format ContainerSpec

theorem Slot.load_filled {c : LotCfg} {s : Slot} (h : s.Fresh c) {chunk : List Byte} (h0 : chunk ≠ [])
    (h1 : chunk.length ≤ c.version.dataSize) :
    (s.load c chunk).Filled c ∧ (s.load c chunk).item.chunk = chunk := by
  have hpos := List.length_pos_iff.2 h0
  have hbs := c.version.blockSize_eq
  have h16 : (s.data.take 16).length = 16 := by rw [List.length_take, h.len]; omega
  refine ⟨⟨h.version, h.uid, h.readPos, h.writePos, h.isPadding, ?_, ?_⟩, ?_⟩
  · simp only [Slot.load, List.length_append, h16, List.length_drop, h.len]; omega
  · unfold Slot.load Lot.lenOk
    simp only [h.contentLen]
    by_cases hlt : chunk.length < c.version.dataSize
    · simp only [if_pos hlt]; simp; exact ⟨hpos, h1⟩
    · simp only [if_neg hlt]
  · unfold Slot.load Slot.item Item.chunk Lot.payloadOf
    simp only [h.contentLen]
    rw [List.append_assoc, List.drop_left' h16]
    by_cases hlt : chunk.length < c.version.dataSize
    · simp only [if_pos hlt]; exact List.take_left' rfl
    · simp only [if_neg hlt]
      rw [List.drop_eq_nil_of_le (by rw [h.len]; omega), List.append_nil]

/-- Buffers in rotation: `b` is the one being filled, the `k`-th in the order of filling. -/
structure Front (c : LotCfg) (L N k : Nat) (b : Buffer) (bs : List Buffer) : Prop where
  ok : b.OK c
  filled : ∀ s ∈ b.used, s.Filled c
  lots : b.lots.length = L
  incre : b.incre = N * perBuffer c L
  start : b.startSeq = startOf (1 + k * perBuffer c L)
  len : bs.length + 1 = N
  rest : ∀ (j : Nat) x, bs[j]? = some x → x.OK c ∧ x.used = [] ∧ x.lots.length = L ∧
    x.incre = N * perBuffer c L ∧ x.startSeq = startOf (1 + (k + 1 + j) * perBuffer c L)

theorem Rot.front {c : LotCfg} {L N k : Nat} {b : Buffer} {bs : List Buffer} (h : Rot c L N k (b :: bs)) :
    Front c L N k b bs ∧ b.used = [] := by
  obtain ⟨h1, h2, h3, h4, h5⟩ := h.each 0 b rfl
  refine ⟨⟨h1, by simp [h2], h3, h4, by simpa using h5, by simpa using h.len, ?_⟩, h2⟩
  intro j x hx
  have := h.each (j + 1) x (by simpa using hx)
  rw [show k + 1 + j = k + (j + 1) by omega]; exact this

theorem Front.fill {c : LotCfg} (hp : c.Pos) {L N k : Nat} {b : Buffer} {bs : List Buffer} (h : Front c L N k b bs)
    (hf : b.isFull = false) {chunk : List Byte} (h0 : chunk ≠ []) (h1 : chunk.length ≤ c.version.dataSize) :
    ∃ b' s, b.fill (Slot.load c chunk) = some b' ∧ Front c L N k b' bs ∧ b'.used = b.used ++ [s] ∧ s.Filled c ∧
      s.item.chunk = chunk := by
  obtain ⟨s, hs, hfl⟩ := Buffer.fill_spec hp h.ok hf
  obtain ⟨b', e, ok, hu, hst, hin, hlo⟩ := hfl (Slot.load c chunk)
  obtain ⟨hsf, hsc⟩ := Slot.load_filled hs h0 h1
  refine ⟨b', s.load c chunk, e, ⟨ok, ?_, by rw [hlo, h.lots], by rw [hin, h.incre], by rw [hst, h.start], h.len, h.rest⟩,
    hu, hsf, hsc⟩
  intro x hx
  rw [hu] at hx
  rcases List.mem_append.1 hx with hx | hx
  · exact h.filled x hx
  · simp at hx; rw [hx]; exact hsf

theorem Front.cancel {c : LotCfg} {L N k : Nat} {b : Buffer} {bs : List Buffer} (h : Front c L N k b bs)
    {us : List Slot} {s : Slot} (hu : b.used = us ++ [s]) :
    ∃ b', b.cancelSlot = some b' ∧ Front c L N k b' bs ∧ b'.used = us := by
  obtain ⟨b', e, ok, hu', hst, hin, hlo⟩ := Buffer.cancel_spec h.ok hu (h.filled s (by rw [hu]; simp)).len
  refine ⟨b', e, ⟨ok, ?_, by rw [hlo, h.lots], by rw [hin, h.incre], by rw [hst, h.start], h.len, h.rest⟩, hu'⟩
  intro x hx
  rw [hu'] at hx
  exact h.filled x (by rw [hu]; exact List.mem_append_left _ hx)

theorem startOf_even {k S : Nat} (hS : 2 ∣ S) (h : k * S < 2 ^ 32) : startOf (1 + k * S) = some (1 + k * S) := by
  obtain ⟨m, rfl⟩ := hS
  rw [startOf, if_pos]
  unfold lastSeqNum
  have : k * (2 * m) = 2 * (k * m) := by ring
  omega

/-- Encoding the buffer being filled; if it was full the buffer continues after all the others. -/
theorem Front.encode {rs : RsCodec} {c : LotCfg} (hrs : RsOk rs c) (hi : c.inputData = true) (hp : c.Pos)
    {L N k : Nat} (hL0 : 0 < L) (hL : 2 ∣ L) (hN : N * perBuffer c L < 2 ^ 32) {b : Buffer} {bs : List Buffer}
    (h : Front c L N k b bs)
    (hb : k * perBuffer c L + (encItems rs c (b.used.map Slot.item)).length < 2 ^ 32) :
    ∃ b', b.encode rs = some b' ∧
      EncodedLots c (1 + k * perBuffer c L) b.used.length ((b.used.map (Lot.padCount c)).sum)
        (encItems rs c (b.used.map Slot.item)) b'.lots ∧
      (∀ b'' : Buffer, b''.startSeq = b'.startSeq → b''.incre = b'.incre → b''.lots.length = b'.lots.length →
        (∀ l ∈ b''.lots, l.Post c) → b.isFull = true → Rot c L N (k + 1) (bs ++ [b''.reset])) := by
  have hS : 2 ∣ perBuffer c L := Dvd.dvd.mul_right hL _
  have hst := startOf_even (k := k) hS (by omega)
  have hl : b.lots ≠ [] := by
    intro h'; have := h.lots; rw [h'] at this; simp at this; omega
  obtain ⟨b', e, -, hin, hlo, hse, hE⟩ := Buffer.encode_spec hrs hi hp h.ok hl h.filled (h.start.trans hst) (by omega) (by omega)
  refine ⟨b', e, hE, ?_⟩
  intro b'' h1 h2 h3 h4 hfull
  obtain ⟨r1, r2, r3, r4, r5⟩ := Buffer.reset_OK hp h4
  refine ⟨by simp [h.len], ?_⟩
  intro j x hx
  by_cases hj : j < bs.length
  · rw [List.getElem?_append_left hj] at hx
    exact h.rest j x hx
  · rw [List.getElem?_append_right (by omega)] at hx
    have hj' : j - bs.length = 0 := by
      by_contra h0
      rw [List.getElem?_eq_none (by simp; omega)] at hx; simp at hx
    rw [hj'] at hx
    simp at hx
    subst hx
    refine ⟨r1, r2, by rw [r3, h3, hlo, h.lots], by rw [r5, h2, hin, h.incre], ?_⟩
    rw [r4, h1, hse, hfull, start_after (by rw [h.incre]; exact hN), h.incre]
    congr 1
    have := h.len
    rw [show k + 1 + j = k + N by omega]; ring

theorem Buffer.full_iff {c : LotCfg} {L N k : Nat} {b : Buffer} {bs : List Buffer} (h : Front c L N k b bs) :
    b.isFull = true ↔ b.used.length = L * c.direct := by
  rw [← h.lots]; exact (Buffer.used_length_le h.ok).2

end Verif
