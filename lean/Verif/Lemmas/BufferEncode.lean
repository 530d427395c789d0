import Verif.Lemmas.Buffer
import Verif.Spec.Container
/-!
# Lemmas about `Lot::encode` and `DataBlockBuffer::encode`
-/

namespace Verif
open Format ContainerSpec

/-- Contents of a slot as far as encoding is concerned. -/
structure Item where
  payload : List Byte
  contentLen : Option Nat
  isPadding : Bool

def Slot.item (s : Slot) : Item := ⟨Lot.payloadOf s, s.contentLen, s.isPadding⟩

/-- Payload padded behind its content. -/
def padItem (v : Version) (it : Item) : Item :=
  match it.contentLen with
  | none => it
  | some len =>
    if len < v.dataSize then { it with payload := it.payload.take len ++ List.replicate (v.dataSize - len) 0x1A } else it

/-- A slot holding nothing but padding. -/
def fillerItem (v : Version) : Item := ⟨List.replicate v.dataSize 0x1A, none, true⟩

/-- The data shards of one set, padded to full size. -/
def setItems (v : Version) (n : Nat) (cs : List Item) : List Item :=
  cs.map (padItem v) ++ List.replicate (n - cs.length) (fillerItem v)

/-- What one lot contains after encoding. -/
def lotItems (rs : RsCodec) (c : LotCfg) (cs : List Item) : List Item :=
  match c.dpb with
  | none => cs.map (padItem c.version)
  | some d =>
    setItems c.version d.data cs ++
      (rs.encode d.data d.parity ((setItems c.version d.data cs).map (·.payload))).map fun p => ⟨p, none, false⟩

/-- An encoded slot. -/
def doneSlot (c : LotCfg) (seq : Nat) (it : Item) : Slot :=
  { block := blockOf c.version c.uid (UInt32.ofNat seq) it.payload
    data := blockBytes c.version c.uid.bytes (UInt32.ofNat seq) it.payload
    readPos := none, writePos := none, contentLen := it.contentLen, isPadding := it.isPadding }

/-- A slot filled by the reader of the encoder. -/
structure Slot.Filled (c : LotCfg) (s : Slot) : Prop where
  version : s.block.header.version = c.version
  uid : s.block.header.uid = c.uid
  readPos : s.readPos = none
  writePos : s.writePos = none
  isPadding : s.isPadding = false
  len : s.data.length = c.version.blockSize
  content : Lot.lenOk c s = true

/-- A slot just before its number is set. -/
structure Slot.Ready (c : LotCfg) (s : Slot) : Prop where
  version : s.block.header.version = c.version
  uid : s.block.header.uid = c.uid
  readPos : s.readPos = none
  writePos : s.writePos = none
  len : s.data.length = c.version.blockSize

theorem mapBelow_append (us fs : List Slot) (f : Nat → Slot → Slot) :
    Lot.mapBelow us.length f (us ++ fs) = us.mapIdx f ++ fs := by
  unfold Lot.mapBelow
  rw [List.mapIdx_append]
  congr 1
  · apply List.ext_getElem? ; intro i
    simp only [List.getElem?_mapIdx]
    by_cases h : i < us.length
    · simp [h]
    · rw [List.getElem?_eq_none (by omega)]; rfl
  · apply List.ext_getElem?; intro i
    simp only [List.getElem?_mapIdx]
    cases fs[i]? with
    | none => rfl
    | some x => rw [Option.map_some, if_neg (by omega)]

theorem mapIdx_const {α β : Type} (f : α → β) (l : List α) : l.mapIdx (fun _ x => f x) = l.map f := by
  apply List.ext_getElem?; intro i; simp

theorem Block.setSeq_ne (b : Block) (n : UInt32) (hn : n ≠ 0) :
    (b.setSeq n).data = .data ∧ (b.setSeq n).header = { b.header with seq := n } := by
  have h := Block.matchHeader_type { b with header := { b.header with seq := n } }
  have h2 := Block.matchHeader_header { b with header := { b.header with seq := n } }
  rw [Block.type_eq, if_neg hn] at h
  refine ⟨?_, h2⟩
  unfold Block.setSeq
  simp only [Block.blockType] at h
  revert h
  cases (Block.matchHeader { b with header := { b.header with seq := n } }).data <;> simp

theorem ofNat_ne_zero {n : Nat} (h1 : 1 ≤ n) (h2 : n < 2 ^ 32) : UInt32.ofNat n ≠ 0 := by
  intro h
  have := congrArg UInt32.toNat h
  rw [UInt32.toNat_ofNat_of_lt' (by simpa using h2)] at this
  simp at this; omega

/-- Numbering and serialising one slot. -/
theorem sync_ready {c : LotCfg} {s : Slot} (h : s.Ready c) {n : Nat} (h1 : 1 ≤ n) (h2 : n < 2 ^ 32) :
    Lot.syncOk { s with block := s.block.setSeq (UInt32.ofNat n) } = true ∧
    Lot.syncSlot { s with block := s.block.setSeq (UInt32.ofNat n) } = doneSlot c n s.item := by
  have hne := ofNat_ne_zero h1 h2
  obtain ⟨hd, hh⟩ := Block.setSeq_ne s.block _ hne
  set b := s.block.setSeq (UInt32.ofNat n) with hb
  have hv : b.header.version = c.version := by rw [hh]; exact h.version
  have hu : b.header.uid = c.uid := by rw [hh]; exact h.uid
  have hs : b.header.seq = UInt32.ofNat n := by rw [hh]
  have hsz : b.size = s.data.length := by unfold Block.size; rw [hv, h.len]
  have hsync := Block.syncTo_data b s.data hd (by omega)
  have hpl : b.payload s.data = s.data.drop 16 := by
    unfold Block.payload; rw [hsz, List.take_length]
  constructor
  · simp only [Lot.syncOk, hsync]
  · simp only [Lot.syncSlot, hsync]
    unfold doneSlot Slot.item Lot.payloadOf
    rw [hsz, List.drop_length, List.append_nil, hpl, hv, hu, hs, h.readPos, h.writePos]
    congr 1
    have hcrc : b.updateCrc s.data = ⟨⟨b.header.version, b.calcCrc s.data, b.header.uid, b.header.seq⟩, b.data⟩ := rfl
    rw [hcrc, Block.calcCrc_eq, hpl, hd, hv, hu, hs]
    unfold blockOf
    rw [if_neg hne]

/-- The final steps of `Lot::encode`: numbering and serialising a list of slots. -/
theorem finish_lot {c : LotCfg} {l : Lot} {ps fs : List Slot} {start : Nat} (hcfg : l.cfg = c) (hi : c.inputData = true)
    (hsl : l.slots = ps ++ fs) (hu : l.slotsUsed = ps.length) (hr : ∀ s ∈ ps, s.Ready c) (h1 : 1 ≤ start)
    (hb : start + ps.length ≤ 2 ^ 32) :
    (l.setSeqNums start).bind Lot.syncBlocks =
      some { l with slots := (ps.map Slot.item).mapIdx (fun i it => doneSlot c (start + i) it) ++ fs } := by
  have hcond : ¬ (0 < l.slotsUsed ∧ lastSeqNum < start + (l.slotsUsed - 1)) := by
    unfold lastSeqNum; omega
  have hq : ∀ i, i < ps.length → 1 ≤ start + i ∧ start + i < 2 ^ 32 := by intro i hi; omega
  unfold Lot.setSeqNums
  rw [hcfg, hi, hu] 
  rw [hu] at hcond
  simp only [Bool.not_true, Bool.false_eq_true, if_false]
  rw [if_neg hcond, hsl, mapBelow_append]
  simp only [Option.bind_some]
  have hlen : (ps.mapIdx fun i s => ({ s with block := s.block.setSeq (UInt32.ofNat (start + i)) } : Slot)).length
      = ps.length := by simp
  have hstep : (ps.mapIdx fun i s => ({ s with block := s.block.setSeq (UInt32.ofNat (start + i)) } : Slot)).all
      Lot.syncOk = true := by
    rw [List.all_eq_true]
    intro x hx
    rw [List.mem_mapIdx] at hx
    obtain ⟨i, hil, rfl⟩ := hx
    exact (sync_ready (hr _ (List.getElem_mem hil)) (hq i hil).1 (hq i hil).2).1
  unfold Lot.syncBlocks Lot.used
  simp only
  rw [List.take_left' (by rw [hlen]), hstep, if_pos rfl]
  congr 2
  conv_lhs => rw [← hlen]
  rw [mapBelow_append]
  congr 1
  apply List.ext_getElem?
  intro i
  simp only [List.getElem?_mapIdx, List.getElem?_map, Option.map_map]
  by_cases hil : i < ps.length
  · rw [List.getElem?_eq_getElem hil]
    simp only [Option.map_some, Function.comp]
    rw [(sync_ready (hr _ (List.getElem_mem hil)) (hq i hil).1 (hq i hil).2).2]
  · rw [List.getElem?_eq_none (by omega)]; rfl

theorem writePadding_payload {v : Version} {len : Nat} {d : List Byte} (hd : d.length = v.blockSize) (hl : len ≤ v.dataSize) :
    (writePadding v len d).drop 16 = (d.drop 16).take len ++ List.replicate (v.dataSize - len) 0x1A ∧
    (writePadding v len d).length = v.blockSize := by
  have hb := v.blockSize_eq
  unfold writePadding
  rw [List.drop_of_length_le (by omega : d.length ≤ v.blockSize), List.append_nil]
  constructor
  · rw [List.drop_append_of_le_length (by rw [List.length_take]; omega), List.drop_take]
    congr 2 <;> omega
  · rw [List.length_append, List.length_take, List.length_replicate]; omega

theorem padSlot_spec {c : LotCfg} {s : Slot} (h : s.Filled c) :
    (Lot.padSlot c s).Ready c ∧ (Lot.padSlot c s).item = padItem c.version s.item := by
  unfold Lot.padSlot padItem Slot.item
  cases hc : s.contentLen with
  | none => exact ⟨⟨h.version, h.uid, h.readPos, h.writePos, h.len⟩, by simp [hc]⟩
  | some len =>
    simp only
    split
    · rename_i hlt
      have hp := writePadding_payload h.len (Nat.le_of_lt hlt)
      refine ⟨⟨h.version, h.uid, h.readPos, h.writePos, hp.2⟩, ?_⟩
      simp only [Lot.payloadOf]
      rw [hp.1]
    · exact ⟨⟨h.version, h.uid, h.readPos, h.writePos, h.len⟩, by simp [hc]⟩

theorem makePadding_spec {c : LotCfg} {s : Slot} (h : s.Fresh c) :
    (Lot.makePadding c s).Ready c ∧ (Lot.makePadding c s).item = fillerItem c.version := by
  have hp := writePadding_payload h.len (Nat.zero_le c.version.dataSize)
  unfold Lot.makePadding Slot.item fillerItem
  refine ⟨⟨h.version, h.uid, h.readPos, h.writePos, hp.2⟩, ?_⟩
  simp only [Lot.payloadOf]
  rw [hp.1, h.contentLen]; simp

theorem setPayload_spec {c : LotCfg} {s : Slot} (h : s.Fresh c) {p : List Byte} (hp : p.length = c.version.dataSize) :
    (Lot.setPayload p s).Ready c ∧ (Lot.setPayload p s).item = ⟨p, none, false⟩ := by
  have hb := c.version.blockSize_eq
  have ht : (s.data.take 16).length = 16 := by rw [List.length_take, h.len]; omega
  refine ⟨⟨h.version, h.uid, h.readPos, h.writePos, ?_⟩, ?_⟩
  · simp only [Lot.setPayload, List.length_append, ht]; omega
  · unfold Slot.item Lot.setPayload Lot.payloadOf
    simp only
    rw [List.drop_left' ht, h.contentLen, h.isPadding]

/-- What the encoder needs from the codec for one lot. -/
def RsOk (rs : RsCodec) (c : LotCfg) : Prop :=
  ∀ d, c.dpb = some d → ∀ sh : List (List Byte), sh.length = d.data → (∀ x ∈ sh, x.length = c.version.dataSize) →
    (rs.encode d.data d.parity sh).length = d.parity ∧ ∀ x ∈ rs.encode d.data d.parity sh, x.length = c.version.dataSize

theorem RsCodec.Laws.rsOk {rs : RsCodec} (h : rs.Laws) {c : LotCfg}
    (hd : ∀ d, c.dpb = some d → 1 ≤ d.data ∧ 1 ≤ d.parity ∧ d.data + d.parity ≤ 256) : RsOk rs c :=
  fun d he sh hl hs => h.encode_length _ _ _ sh (hd d he).1 (hd d he).2.1 (hd d he).2.2 hl hs

theorem setItems_length (v : Version) (n : Nat) (cs : List Item) (h : cs.length ≤ n) : (setItems v n cs).length = n := by
  simp [setItems]; omega

theorem padItem_length {v : Version} {it : Item} (h : it.payload.length = v.dataSize) :
    (padItem v it).payload.length = v.dataSize := by
  unfold padItem
  split
  · exact h
  · split
    · simp [h]; omega
    · exact h

theorem setItems_payload {v : Version} {n : Nat} {cs : List Item} (h : ∀ it ∈ cs, it.payload.length = v.dataSize) :
    ∀ x ∈ (setItems v n cs).map (·.payload), x.length = v.dataSize := by
  intro x hx
  simp only [setItems, List.map_append, List.map_map, List.mem_append, List.mem_map, List.mem_replicate,
    List.map_replicate] at hx
  rcases hx with ⟨it, hit, rfl⟩ | ⟨_, rfl⟩
  · exact padItem_length (h it hit)
  · simp [fillerItem]

theorem lotItems_length {rs : RsCodec} {c : LotCfg} (hrs : RsOk rs c) (hi : c.inputData = true) {cs : List Item}
    (hl : cs.length ≤ c.direct) (hp : ∀ it ∈ cs, it.payload.length = c.version.dataSize) :
    (lotItems rs c cs).length = match c.dpb with | none => cs.length | some _ => c.lotSize := by
  unfold lotItems
  cases hd : c.dpb with
  | none => simp
  | some d =>
    have hl' : cs.length ≤ d.data := by simpa [LotCfg.direct, hi, hd] using hl
    have h1 := (hrs d hd ((setItems c.version d.data cs).map (·.payload)) (by simp [setItems_length _ _ _ hl'])
      (setItems_payload hp)).1
    simp [setItems_length _ _ _ hl', h1, LotCfg.lotSize, hi, hd]

theorem Slot.Filled.item_length {c : LotCfg} {s : Slot} (h : s.Filled c) : s.item.payload.length = c.version.dataSize := by
  have := c.version.blockSize_eq
  simp [Slot.item, Lot.payloadOf, h.len]; omega

/-- Effect of `Lot::encode` on a lot with at least one used slot. -/
theorem Lot.encode_spec {rs : RsCodec} {c : LotCfg} (hrs : RsOk rs c) (hi : c.inputData = true) {l : Lot} (hw : l.WF c)
    (h0 : 0 < l.slotsUsed) (hf : ∀ s ∈ l.used, s.Filled c) {start : Nat} (h1 : 1 ≤ start)
    (hb : start + (lotItems rs c (l.used.map Slot.item)).length ≤ 2 ^ 32) :
    ∃ fs, (∀ s ∈ fs, s.Fresh c) ∧ (lotItems rs c (l.used.map Slot.item)).length + fs.length = c.lotSize ∧
      l.encode rs start = some
      { cfg := c
        slots := (lotItems rs c (l.used.map Slot.item)).mapIdx (fun i it => doneSlot c (start + i) it) ++ fs
        slotsUsed := (lotItems rs c (l.used.map Slot.item)).length
        paddingBytes := (l.used.map (padCount c)).sum } := by
  have hul := Lot.used_length hw
  have hsl : l.slots = l.used ++ l.slots.drop l.slotsUsed := (List.take_append_drop _ _).symm
  have hact : l.active = true := by simp [Lot.active, h0]
  have hall : l.used.all (Lot.lenOk c) = true := by
    rw [List.all_eq_true]; exact fun s hs => (hf s hs).content
  have hdir : l.used.length ≤ c.direct := by rw [hul]; exact hw.le
  set us := l.used with hus
  set fs := l.slots.drop l.slotsUsed with hfs
  have hpad : mapBelow l.slotsUsed (fun _ => padSlot c) l.slots = us.map (padSlot c) ++ fs := by
    rw [hsl, ← hul, mapBelow_append, mapIdx_const]
  have hready : ∀ s ∈ us.map (padSlot c), s.Ready c := by
    intro s hs
    obtain ⟨x, hx, rfl⟩ := List.mem_map.1 hs
    exact (padSlot_spec (hf x hx)).1
  have hitems : (us.map (padSlot c)).map Slot.item = (us.map Slot.item).map (padItem c.version) := by
    rw [List.map_map, List.map_map]
    apply List.map_congr_left
    intro s hs
    exact (padSlot_spec (hf s hs)).2
  cases hd : c.dpb with
  | none =>
    have hli : lotItems rs c (us.map Slot.item) = (us.map Slot.item).map (padItem c.version) := by
      simp [lotItems, hd]
    refine ⟨fs, hw.unused, by rw [hli, List.length_map, List.length_map, ← List.length_append, ← hsl, hw.len], ?_⟩
    have hfill : l.fillInPadding = some { l with slots := us.map (padSlot c) ++ fs, paddingBytes := (us.map (padCount c)).sum } := by
      unfold fillInPadding
      simp only [hw.cfg, hi, hact, hall, ← hus, hd, hpad, hw.pad, Nat.zero_add, Bool.not_true, Bool.false_eq_true, if_false]
    unfold encode
    rw [hfill]
    have hrse : rsEncode rs { l with slots := us.map (padSlot c) ++ fs, paddingBytes := (us.map (padCount c)).sum } =
        some { l with slots := us.map (padSlot c) ++ fs, paddingBytes := (us.map (padCount c)).sum } := by
      unfold rsEncode active
      simp only [hw.cfg, hi, hd, h0, decide_true, Bool.not_true, Bool.false_eq_true, if_false]
    rw [Option.bind_some, hrse, Option.bind_some]
    rw [finish_lot (l := { l with slots := us.map (padSlot c) ++ fs, paddingBytes := (us.map (padCount c)).sum })
      (c := c) (ps := us.map (padSlot c)) (fs := fs) hw.cfg hi rfl (by simp [hul]) hready h1
      (by rw [hli] at hb; simpa using hb)]
    rw [hitems, hli, hw.cfg]
    simp [hul]
  | some d =>
    have hdd : c.direct = d.data := by simp [LotCfg.direct, hi, hd]
    have hll : c.lotSize = d.data + d.parity := by simp [LotCfg.lotSize, hi, hd]
    have hku : us.length ≤ d.data := by omega
    have hfl : fs.length = d.data + d.parity - us.length := by
      rw [hfs, List.length_drop, hw.len, hll, hul]
    set fs1 := fs.take (d.data - us.length) with hfs1
    set fs2 := fs.drop (d.data - us.length) with hfs2
    have hf12 : fs = fs1 ++ fs2 := (List.take_append_drop _ _).symm
    have hl1 : fs1.length = d.data - us.length := by rw [hfs1, List.length_take]; omega
    have hl2 : fs2.length = d.parity := by rw [hfs2, List.length_drop]; omega
    have hfr1 : ∀ s ∈ fs1, s.Fresh c := fun s hs => hw.unused s (by rw [← hfs, hf12]; exact List.mem_append_left _ hs)
    have hfr2 : ∀ s ∈ fs2, s.Fresh c := fun s hs => hw.unused s (by rw [← hfs, hf12]; exact List.mem_append_right _ hs)
    set ds := us.map (padSlot c) ++ fs1.map (makePadding c) with hds
    have hdsl : ds.length = d.data := by simp [hds, hl1]; omega
    have hpad2 : mapBelow d.data (fun i s => if i < l.slotsUsed then s else makePadding c s) (us.map (padSlot c) ++ fs) =
        ds ++ fs2 := by
      have hx : d.data = (us.map (padSlot c) ++ fs1).length := by simp [hl1]; omega
      rw [hf12, ← List.append_assoc, hx, mapBelow_append, List.mapIdx_append]
      congr 1
      rw [hds]
      congr 1
      · apply List.ext_getElem?; intro i
        simp only [List.getElem?_mapIdx]
        by_cases hil : i < us.length
        · rw [← hul]; simp [hil]
        · rw [List.getElem?_eq_none (by simp; omega)]; rfl
      · apply List.ext_getElem?; intro i
        simp only [List.getElem?_mapIdx, List.getElem?_map, List.length_map]
        rw [← hul]
        cases fs1[i]? with
        | none => rfl
        | some x => rw [Option.map_some, Option.map_some, if_neg (by omega)]
    have hfill : l.fillInPadding = some { l with slots := ds ++ fs2, paddingBytes := (us.map (padCount c)).sum, slotsUsed := d.data } := by
      unfold fillInPadding
      simp only [hw.cfg, hi, hact, hall, ← hus, hd, hpad, hw.pad, Nat.zero_add, Bool.not_true, Bool.false_eq_true, if_false]
      rw [if_pos (by omega), hpad2]
    have hrds : ∀ s ∈ ds, s.Ready c := by
      intro s hs
      rcases List.mem_append.1 hs with hs | hs
      · exact hready s hs
      · obtain ⟨x, hx, rfl⟩ := List.mem_map.1 hs
        exact (makePadding_spec (hfr1 x hx)).1
    have hids : ds.map Slot.item = setItems c.version d.data (us.map Slot.item) := by
      rw [hds, List.map_append, hitems, setItems]
      congr 1
      rw [List.map_map, List.length_map, ← hl1, ← List.map_const]
      apply List.map_congr_left
      intro s hs
      exact (makePadding_spec (hfr1 s hs)).2
    have hpds : ds.map payloadOf = (setItems c.version d.data (us.map Slot.item)).map (·.payload) := by
      rw [← hids, List.map_map]; rfl
    set par := rs.encode d.data d.parity ((setItems c.version d.data (us.map Slot.item)).map (·.payload)) with hpar
    have hparl := hrs d hd ((setItems c.version d.data (us.map Slot.item)).map (·.payload))
      (by rw [← hpds, List.length_map, hdsl])
      (setItems_payload (by
        intro it hit
        obtain ⟨s, hs, rfl⟩ := List.mem_map.1 hit
        exact (hf s hs).item_length))
    rw [← hpar] at hparl
    set ps2 := fs2.zipWith (fun s p => setPayload p s) par with hps2
    have hps2r : ∀ s ∈ ps2, s.Ready c := by
      intro s hs
      rw [hps2, List.mem_iff_getElem] at hs
      obtain ⟨i, hil, rfl⟩ := hs
      rw [List.getElem_zipWith]
      have hil2 := hil
      rw [List.length_zipWith] at hil2
      exact (setPayload_spec (hfr2 _ (List.getElem_mem (by omega))) (hparl.2 _ (List.getElem_mem (by omega)))).1
    have hps2i : ps2.map Slot.item = par.map fun p => ⟨p, none, false⟩ := by
      apply List.ext_getElem?
      intro i
      rw [hps2]
      simp only [List.getElem?_map, List.getElem?_zipWith]
      by_cases hil : i < d.parity
      · rw [List.getElem?_eq_getElem (by omega), List.getElem?_eq_getElem (by omega)]
        simp only [Option.map_some]
        rw [(setPayload_spec (hfr2 _ (List.getElem_mem (by omega))) (hparl.2 _ (List.getElem_mem (by omega)))).2]
      · rw [List.getElem?_eq_none (by omega), List.getElem?_eq_none (by omega)]; rfl
    have hli : lotItems rs c (us.map Slot.item) = (ds ++ ps2).map Slot.item := by
      unfold lotItems
      simp only [hd]
      rw [List.map_append, hids, hps2i]
    have hpl : ps2.length = d.parity := by rw [hps2, List.length_zipWith, hl2, hparl.1]; simp
    refine ⟨[], by simp, by rw [hli, List.length_map, List.length_append, hdsl, hpl, hll]; rfl, ?_⟩
    unfold encode
    rw [hfill, Option.bind_some]
    have hrse : rsEncode rs { l with slots := ds ++ fs2, paddingBytes := (us.map (padCount c)).sum, slotsUsed := d.data } =
        some { l with slots := ds ++ ps2, paddingBytes := (us.map (padCount c)).sum, slotsUsed := c.lotSize } := by
      unfold rsEncode active
      have hd0 : 0 < d.data := by omega
      simp only [hw.cfg, hi, hd, hd0, decide_true, Bool.not_true, Bool.false_eq_true, if_false, if_true]
      rw [List.take_left' hdsl, List.drop_left' hdsl, hpds]
    rw [hrse, Option.bind_some]
    have hlen : (ds ++ ps2).length = c.lotSize := by rw [List.length_append, hdsl, hpl, hll]
    rw [finish_lot (l := { l with slots := ds ++ ps2, paddingBytes := (us.map (padCount c)).sum, slotsUsed := c.lotSize })
      (c := c) (ps := ds ++ ps2) (fs := []) hw.cfg hi (by simp) hlen.symm
      (by intro s hs; rcases List.mem_append.1 hs with hs | hs; exacts [hrds s hs, hps2r s hs]) h1
      (by rw [hli, List.length_map] at hb; exact hb)]
    rw [hli, hw.cfg, List.length_map, hlen]

theorem chunksOf_nil {α : Type} (n : Nat) : chunksOf n ([] : List α) = [] := by
  rw [chunksOf]; simp

theorem chunksOf_cons {α : Type} {n : Nat} {l : List α} (hn : n ≠ 0) (hl : l ≠ []) :
    chunksOf n l = l.take n :: chunksOf n (l.drop n) := by
  rw [chunksOf]; simp [hn, hl]

theorem chunksOf_short {α : Type} {n : Nat} {l : List α} (hl : l ≠ []) (h : l.length ≤ n) : chunksOf n l = [l] := by
  have := List.length_pos_iff.2 hl
  rw [chunksOf_cons (by omega) hl, List.take_of_length_le h, List.drop_of_length_le h, chunksOf_nil]

theorem chunksOf_append {α : Type} {n : Nat} (hn : n ≠ 0) (a b : List α) (h : a.length = n) :
    chunksOf n (a ++ b) = a :: chunksOf n b := by
  have : a ++ b ≠ [] := by
    intro h'; have := congrArg List.length h'; rw [List.length_append, List.length_nil] at this; omega
  rw [chunksOf_cons hn this, List.take_left' h, List.drop_left' h]

/-- Appending behind whole pieces. -/
theorem chunksOf_append_mul {α : Type} {n : Nat} (hn : n ≠ 0) (k : Nat) (a b : List α) (h : a.length = k * n) :
    chunksOf n (a ++ b) = chunksOf n a ++ chunksOf n b := by
  induction k generalizing a with
  | zero =>
    have : a = [] := List.length_eq_zero_iff.1 (by omega)
    subst this; simp [chunksOf_nil]
  | succ k ih =>
    have hl : (a.take n).length = n := by rw [List.length_take, h, Nat.succ_mul]; omega
    have hd : (a.drop n).length = k * n := by rw [List.length_drop, h, Nat.succ_mul]; omega
    conv_lhs => rw [← List.take_append_drop n a, List.append_assoc, chunksOf_append hn _ _ hl, ih _ hd]
    conv_rhs => rw [← List.take_append_drop n a, chunksOf_append hn _ _ hl]
    simp

/-- All slots of a buffer's chunks after encoding. -/
def encItems (rs : RsCodec) (c : LotCfg) (cs : List Item) : List Item := (chunksOf c.direct cs).flatMap (lotItems rs c)

/-- Encoded slots with consecutive sequence numbers. -/
def place (c : LotCfg) (start : Nat) (its : List Item) : List Slot := its.mapIdx fun i it => doneSlot c (start + i) it

theorem place_append (c : LotCfg) (start : Nat) (a b : List Item) :
    place c start (a ++ b) = place c start a ++ place c (start + a.length) b := by
  unfold place
  rw [List.mapIdx_append]
  congr 1
  apply List.ext_getElem?; intro i
  simp only [List.getElem?_mapIdx]
  congr 2; funext it; congr 1; omega

@[simp] theorem place_length (c : LotCfg) (start : Nat) (a : List Item) : (place c start a).length = a.length := by
  simp [place]

/-- An encoded lot: still the right shape. -/
structure Lot.Post (c : LotCfg) (l : Lot) : Prop where
  cfg : l.cfg = c
  len : l.slots.length = c.lotSize
  data : ∀ s ∈ l.slots, s.data.length = c.version.blockSize

theorem Lot.Post.reset {c : LotCfg} {l : Lot} (h : l.Post c) : l.reset.WF c ∧ l.reset.slotsUsed = 0 := by
  refine ⟨⟨h.cfg, by simp [Lot.reset, h.len], Nat.zero_le _, rfl, ?_⟩, rfl⟩
  intro s hs
  have := List.mem_of_mem_drop hs
  simp only [Lot.reset, List.mem_map] at this
  obtain ⟨x, hx, rfl⟩ := this
  rw [h.cfg]
  exact Slot.reset_fresh c x (h.data x hx)

/-- Numbers reported by an encoded lot, added up: data blocks, padding blocks, parity blocks, padding bytes. -/
def sumCounts (lots : List Lot) : Nat × Nat × Nat × Nat :=
  ((lots.map (·.counts.1)).sum, (lots.map (·.counts.2.1)).sum, (lots.map (·.counts.2.2)).sum, (lots.map (·.paddingBytes)).sum)

theorem counts_foldl (lots : List Lot) (a : Nat × Nat × Nat) :
    lots.foldl (fun acc l => (acc.1 + l.counts.1, acc.2.1 + l.counts.2.1, acc.2.2 + l.counts.2.2)) a =
      (a.1 + (sumCounts lots).1, a.2.1 + (sumCounts lots).2.1, a.2.2 + (sumCounts lots).2.2.1) := by
  induction lots generalizing a with
  | nil => simp [sumCounts]
  | cons l ls ih =>
    rw [List.foldl_cons, ih]
    simp only [sumCounts, List.map_cons, List.sum_cons, Nat.add_assoc]

theorem Buffer.counts_eq (b : Buffer) :
    b.counts = ((sumCounts b.lots).1, (sumCounts b.lots).2.1, (sumCounts b.lots).2.2.1) := by
  unfold Buffer.counts; rw [counts_foldl]; simp

theorem doneSlot_len (c : LotCfg) (seq : Nat) (it : Item) (h : it.payload.length = c.version.dataSize) :
    (doneSlot c seq it).data.length = c.version.blockSize := by
  rw [doneSlot, blockBytes_length, h, c.version.blockSize_eq]

theorem lotItems_payload {rs : RsCodec} {c : LotCfg} (hrs : RsOk rs c) (hi : c.inputData = true) {cs : List Item}
    (hl : cs.length ≤ c.direct) (hp : ∀ it ∈ cs, it.payload.length = c.version.dataSize) :
    ∀ it ∈ lotItems rs c cs, it.payload.length = c.version.dataSize := by
  intro it hit
  unfold lotItems at hit
  cases hd : c.dpb with
  | none =>
    simp only [hd] at hit
    obtain ⟨x, hx, rfl⟩ := List.mem_map.1 hit
    exact padItem_length (hp x hx)
  | some d =>
    simp only [hd] at hit
    have hl' : cs.length ≤ d.data := by simpa [LotCfg.direct, hi, hd] using hl
    rcases List.mem_append.1 hit with hit | hit
    · exact setItems_payload hp _ (List.mem_map.2 ⟨it, hit, rfl⟩)
    · obtain ⟨x, hx, rfl⟩ := List.mem_map.1 hit
      exact (hrs d hd _ (by simp [setItems_length _ _ _ hl']) (setItems_payload hp)).2 x hx

theorem lotItems_padding {rs : RsCodec} {c : LotCfg} {cs : List Item}
    (hc : ∀ it ∈ cs, it.isPadding = false) :
    (lotItems rs c cs).countP (·.isPadding) = match c.dpb with | none => 0 | some d => d.data - cs.length := by
  have h1 : (cs.map (padItem c.version)).countP (·.isPadding) = 0 := by
    rw [List.countP_eq_zero]
    intro it hit
    obtain ⟨x, hx, rfl⟩ := List.mem_map.1 hit
    have : (padItem c.version x).isPadding = x.isPadding := by
      unfold padItem; split; rfl; split <;> rfl
    rw [this, hc x hx]; simp
  unfold lotItems
  cases hd : c.dpb with
  | none => simpa using h1
  | some d =>
    simp only
    rw [List.countP_append, setItems, List.countP_append, h1, List.countP_replicate]
    have h2 : ∀ l : List (List Byte), (l.map fun p => (⟨p, none, false⟩ : Item)).countP (·.isPadding) = 0 := by
      intro l; rw [List.countP_eq_zero]; intro it hit
      obtain ⟨x, hx, rfl⟩ := List.mem_map.1 hit; simp
    rw [h2]; simp [fillerItem]

/-- `P` of the `n` blocks are parity blocks: `parity` of every `data + parity`. -/
def ParityShare (dpb : Option Dpb) (P n : Nat) : Prop :=
  match dpb with
  | none => P = 0
  | some d => P * (d.data + d.parity) = n * d.parity

theorem ParityShare.add {dpb : Option Dpb} {P Q m n : Nat} (h1 : ParityShare dpb P m) (h2 : ParityShare dpb Q n) :
    ParityShare dpb (P + Q) (m + n) := by
  cases dpb with
  | none => simp only [ParityShare] at *; omega
  | some d => simp only [ParityShare] at *; rw [Nat.add_mul, Nat.add_mul, h1, h2]

theorem ParityShare.zero (dpb : Option Dpb) : ParityShare dpb 0 0 := by
  cases dpb <;> simp [ParityShare]

/-- Effect of `Lot::encode` in the form needed for adding up lots. -/
theorem Lot.encode_post {rs : RsCodec} {c : LotCfg} (hrs : RsOk rs c) (hi : c.inputData = true) {l : Lot} (hw : l.WF c)
    (h0 : 0 < l.slotsUsed) (hf : ∀ s ∈ l.used, s.Filled c) {start : Nat} (h1 : 1 ≤ start)
    (hb : start + (lotItems rs c (l.used.map Slot.item)).length ≤ 2 ^ 32) :
    ∃ l', l.encode rs start = some l' ∧ l'.Post c ∧ l'.used = place c start (lotItems rs c (l.used.map Slot.item)) ∧
      l'.paddingBytes = (l.used.map (padCount c)).sum ∧ l'.counts.1 = l'.counts.2.1 + l.used.length ∧
      l'.counts.1 + l'.counts.2.2 = (lotItems rs c (l.used.map Slot.item)).length ∧
      ParityShare c.dpb l'.counts.2.2 (lotItems rs c (l.used.map Slot.item)).length := by
  obtain ⟨fs, hfs, hfl, he⟩ := Lot.encode_spec hrs hi hw h0 hf h1 hb
  have hul := Lot.used_length hw
  have hil : (l.used.map Slot.item).length ≤ c.direct := by rw [List.length_map, hul]; exact hw.le
  have hip : ∀ it ∈ l.used.map Slot.item, it.payload.length = c.version.dataSize := by
    intro it hit
    obtain ⟨s, hs, rfl⟩ := List.mem_map.1 hit
    exact (hf s hs).item_length
  have hnp : ∀ it ∈ l.used.map Slot.item, it.isPadding = false := by
    intro it hit
    obtain ⟨s, hs, rfl⟩ := List.mem_map.1 hit
    exact (hf s hs).isPadding
  have hlen := lotItems_length hrs hi hil hip
  have hpp := lotItems_padding (rs := rs) (c := c) hnp
  have hused : ∀ (its : List Item) (fs : List Slot), (place c start its ++ fs).take its.length = place c start its := by
    intro its fs; rw [List.take_left' (place_length ..)]
  have hcp : ∀ its : List Item, (place c start its).countP (·.isPadding) = its.countP (·.isPadding) := by
    intro its
    have h : (place c start its).map (·.isPadding) = its.map (·.isPadding) := by
      apply List.ext_getElem?; intro i
      simp only [place, List.getElem?_map, List.getElem?_mapIdx, Option.map_map]
      rfl
    have := congrArg (List.countP id) h
    rw [List.countP_map, List.countP_map] at this
    exact this
  refine ⟨_, he, ⟨rfl, ?_, ?_⟩, ?_, rfl, ?_, ?_, ?_⟩
  · simpa using hfl
  · intro s hs
    rcases List.mem_append.1 hs with hs | hs
    · rw [List.mem_mapIdx] at hs
      obtain ⟨i, hil', rfl⟩ := hs
      exact doneSlot_len _ _ _ (lotItems_payload hrs hi hil hip _ (List.getElem_mem hil'))
    · exact (hfs s hs).len
  · simp only [Lot.used]
    exact hused _ _
  · have hcp' := hcp (lotItems rs c (l.used.map Slot.item))
    unfold place at hcp'
    generalize lotItems rs c (l.used.map Slot.item) = its at *
    have hpad : (Lot.used { cfg := c, slots := its.mapIdx (fun i it => doneSlot c (start + i) it) ++ fs, slotsUsed := its.length, paddingBytes := (l.used.map (padCount c)).sum }).countP (·.isPadding)
        = its.countP (·.isPadding) := by
      unfold Lot.used
      simp only
      rw [List.take_left' (by simp), hcp']
    simp only [counts, hpad, hpp]
    rw [List.length_map] at hlen hil
    cases hd : c.dpb with
    | none => simp only [hd] at hlen; simp [hlen]
    | some d =>
      have hdd : c.direct = d.data := by simp [LotCfg.direct, hi, hd]
      have hll : c.lotSize = d.data + d.parity := by simp [LotCfg.lotSize, hi, hd]
      rw [hdd] at hil
      simp only [hd] at hlen
      simp only [hlen, hll, List.length_map]
      omega
  · simp only [counts]
    cases hd : c.dpb with
    | none => simp
    | some d =>
      have hll : c.lotSize = d.data + d.parity := by simp [LotCfg.lotSize, hi, hd]
      simp only [hd] at hlen
      simp only [hlen, hll]
      rw [if_neg (by omega)]; omega
  · simp only [counts]
    cases hd : c.dpb with
    | none => simp [ParityShare]
    | some d =>
      have hll : c.lotSize = d.data + d.parity := by simp [LotCfg.lotSize, hi, hd]
      simp only [hd] at hlen
      simp only [hlen, hll, ParityShare]
      rw [if_neg (by omega), Nat.add_sub_cancel_left, Nat.mul_comm]

/-- A lot without used slots is left alone. -/
theorem Lot.encode_empty {rs : RsCodec} {c : LotCfg} (hi : c.inputData = true) {l : Lot} (hw : l.WF c)
    (h0 : l.slotsUsed = 0) (start : Nat) : l.encode rs start = some l := by
  have hmb : ∀ f, mapBelow 0 f l.slots = l.slots := by
    intro f
    unfold mapBelow
    apply List.ext_getElem?; intro i
    rw [List.getElem?_mapIdx]
    cases l.slots[i]? <;> simp
  have e1 : l.fillInPadding = some l := by
    unfold fillInPadding active; simp [hw.cfg, hi, h0]
  have e2 : rsEncode rs l = some l := by
    unfold rsEncode active; simp [hw.cfg, hi, h0]
  have e3 : l.setSeqNums start = some l := by
    unfold setSeqNums
    rw [hw.cfg, hi, h0, if_neg (by simp), if_neg (by simp), hmb, ← h0, ← hw.cfg]
  have e4 : l.syncBlocks = some l := by
    unfold syncBlocks Lot.used
    rw [h0, hmb, if_pos (by simp), ← h0]
  unfold encode
  rw [e1, Option.bind_some, e2, Option.bind_some, e3, Option.bind_some, e4]

theorem encodeLots_empty {rs : RsCodec} {c : LotCfg} (hi : c.inputData = true) {lots : List Lot}
    (h : ∀ l ∈ lots, l.WF c ∧ l.slotsUsed = 0) (n start : Nat) : Buffer.encodeLots rs n start lots = some lots := by
  induction lots generalizing start with
  | nil => rfl
  | cons l ls ih =>
    rw [Buffer.encodeLots, Lot.encode_empty hi (h l List.mem_cons_self).1 (h l List.mem_cons_self).2,
      ih (fun x hx => h x (List.mem_cons_of_mem _ hx))]

theorem Lot.WF.post {c : LotCfg} {l : Lot} (h : l.WF c) (h0 : l.slotsUsed = 0) : l.Post c :=
  ⟨h.cfg, h.len, fun s hs => (h.unused s (by rw [h0]; exact hs)).len⟩

/-- What is known about the lots after encoding: `its` are the encoded items, `k` the number of chunks. -/
structure EncodedLots (c : LotCfg) (start k pb : Nat) (its : List Item) (lots : List Lot) : Prop where
  post : ∀ l ∈ lots, l.Post c
  used : lots.flatMap Lot.used = place c start its
  padding : (sumCounts lots).2.2.2 = pb
  data : (sumCounts lots).1 = (sumCounts lots).2.1 + k
  total : (sumCounts lots).1 + (sumCounts lots).2.2.1 = its.length
  parity : ParityShare c.dpb (sumCounts lots).2.2.1 its.length

theorem EncodedLots.cons {c : LotCfg} {start k k' pb pb' : Nat} {its its' : List Item} {l : Lot} {lots : List Lot}
    (hp : l.Post c) (hu : l.used = place c start its) (hb : l.paddingBytes = pb) (hd : l.counts.1 = l.counts.2.1 + k)
    (ht : l.counts.1 + l.counts.2.2 = its.length) (hs : ParityShare c.dpb l.counts.2.2 its.length)
    (h : EncodedLots c (start + its.length) k' pb' its' lots) :
    EncodedLots c start (k + k') (pb + pb') (its ++ its') (l :: lots) := by
  have h3 := h.padding
  have h4 := h.data
  have h5 := h.total
  have h6 := hs.add h.parity
  simp only [sumCounts] at h3 h4 h5 h6
  refine ⟨?_, ?_, ?_, ?_, ?_, ?_⟩
  · intro x hx
    rcases List.mem_cons.1 hx with rfl | hx
    · exact hp
    · exact h.post x hx
  · rw [List.flatMap_cons, hu, h.used, place_append]
  · simp only [sumCounts, List.map_cons, List.sum_cons]; omega
  · simp only [sumCounts, List.map_cons, List.sum_cons]; omega
  · simp only [sumCounts, List.map_cons, List.sum_cons, List.length_append]; omega
  · simp only [sumCounts, List.map_cons, List.sum_cons, List.length_append]; exact h6

theorem EncodedLots.empty {c : LotCfg} {start : Nat} {lots : List Lot} (h : ∀ l ∈ lots, l.WF c ∧ l.slotsUsed = 0) :
    EncodedLots c start 0 0 [] lots := by
  have hz : ∀ (f : Lot → Nat), (∀ l ∈ lots, f l = 0) → (lots.map f).sum = 0 := by
    intro f hf
    clear h
    induction lots with
    | nil => rfl
    | cons l ls ih =>
      rw [List.map_cons, List.sum_cons, hf l List.mem_cons_self, ih fun x hx => hf x (List.mem_cons_of_mem _ hx)]
  have hc : ∀ l ∈ lots, l.counts = (0, 0, 0) := by
    intro l hl
    unfold Lot.counts Lot.used
    rw [(h l hl).2]
    cases l.cfg.dpb <;> simp
  refine ⟨fun l hl => (h l hl).1.post (h l hl).2, ?_, ?_, ?_, ?_, ?_⟩
  · rw [flatMap_used_empty h]; rfl
  · exact hz _ fun l hl => (h l hl).1.pad
  · unfold sumCounts
    dsimp only
    rw [hz _ fun l hl => by rw [hc l hl], hz _ fun l hl => by rw [hc l hl]]
  · unfold sumCounts
    dsimp only
    rw [hz _ fun l hl => by rw [hc l hl], hz _ fun l hl => by rw [hc l hl]]; rfl
  · unfold sumCounts
    dsimp only
    rw [hz _ fun l hl => by rw [hc l hl]]
    exact ParityShare.zero _

/-- `encodeLots` on lots of the shape of a filled buffer. -/
theorem encodeLots_spec {rs : RsCodec} {c : LotCfg} (hrs : RsOk rs c) (hi : c.inputData = true) (hp : c.Pos)
    (pre post : List Lot) (hpre : ∀ l ∈ pre, l.WF c ∧ l.slotsUsed = c.direct)
    (hpost : post = [] ∨ ∃ l rest, post = l :: rest ∧ l.WF c ∧ l.slotsUsed < c.direct ∧ ∀ r ∈ rest, r.WF c ∧ r.slotsUsed = 0)
    (hf : ∀ s ∈ (pre ++ post).flatMap Lot.used, s.Filled c) (start : Nat) (h1 : 1 ≤ start)
    (hb : start + (encItems rs c (((pre ++ post).flatMap Lot.used).map Slot.item)).length ≤ 2 ^ 32) :
    ∃ lots', Buffer.encodeLots rs c.lotSize start (pre ++ post) = some lots' ∧
      lots'.length = (pre ++ post).length ∧
      EncodedLots c start ((pre ++ post).flatMap Lot.used).length
        ((((pre ++ post).flatMap Lot.used).map (Lot.padCount c)).sum)
        (encItems rs c (((pre ++ post).flatMap Lot.used).map Slot.item)) lots' := by
  have hp0 : c.direct ≠ 0 := Nat.pos_iff_ne_zero.1 hp
  have hitl : ∀ l : Lot, l.WF c → (∀ s ∈ l.used, s.Filled c) → (l.used.map Slot.item).length ≤ c.direct ∧
      ∀ it ∈ l.used.map Slot.item, it.payload.length = c.version.dataSize := by
    intro l hw hfl
    refine ⟨by rw [List.length_map, Lot.used_length hw]; exact hw.le, ?_⟩
    intro it hit
    obtain ⟨s, hs, rfl⟩ := List.mem_map.1 hit
    exact (hfl s hs).item_length
  induction pre generalizing start with
  | nil =>
    rw [List.nil_append] at hf hb ⊢
    rcases hpost with rfl | ⟨l, rest, rfl, hw, hlt, hr⟩
    · refine ⟨[], rfl, rfl, ?_⟩
      have := EncodedLots.empty (c := c) (start := start) (lots := []) (by simp)
      simpa [encItems, chunksOf_nil] using this
    · by_cases h0 : l.slotsUsed = 0
      · have hall : ∀ x ∈ l :: rest, x.WF c ∧ x.slotsUsed = 0 := by
          intro x hx
          rcases List.mem_cons.1 hx with rfl | hx
          · exact ⟨hw, h0⟩
          · exact hr x hx
        refine ⟨_, encodeLots_empty hi hall _ _, rfl, ?_⟩
        rw [flatMap_used_empty hall]
        have := EncodedLots.empty (c := c) (start := start) hall
        simpa [encItems, chunksOf_nil] using this
      · have hfm : (l :: rest).flatMap Lot.used = l.used := by
          rw [List.flatMap_cons, flatMap_used_empty hr, List.append_nil]
        rw [hfm] at hf hb ⊢
        have hne : l.used.map Slot.item ≠ [] := by
          intro h
          have := congrArg List.length h
          rw [List.length_map, Lot.used_length hw] at this
          exact h0 this
        have hei : encItems rs c (l.used.map Slot.item) = lotItems rs c (l.used.map Slot.item) := by
          unfold encItems
          rw [chunksOf_short hne (hitl l hw hf).1]; simp
        rw [hei] at hb ⊢
        have hst : start % 2 ^ 32 = start := by
          apply Nat.mod_eq_of_lt
          have : 1 ≤ (lotItems rs c (l.used.map Slot.item)).length := by
            have hlen := lotItems_length hrs hi (hitl l hw hf).1 (hitl l hw hf).2
            rw [hlen]
            have := Lot.used_length hw
            have := c.direct_le
            cases hd : c.dpb with
            | none => simp only; rw [List.length_map]; omega
            | some d => simp only; have : 0 < c.direct := hp; omega
          omega
        obtain ⟨l', he, hpo, hu, hpb, hcd, hct, hcp⟩ := Lot.encode_post hrs hi hw (Nat.pos_of_ne_zero h0) hf h1 hb
        refine ⟨l' :: rest, ?_, rfl, ?_⟩
        · rw [Buffer.encodeLots, hst, he, encodeLots_empty hi hr]
        · have := EncodedLots.cons hpo hu hpb hcd hct hcp (EncodedLots.empty (start := start + _) hr)
          simpa using this
  | cons l ls ih =>
    obtain ⟨hw, hfull⟩ := hpre l List.mem_cons_self
    have hfl : ∀ s ∈ l.used, s.Filled c := fun s hs => hf s (by
      rw [List.cons_append, List.flatMap_cons]; exact List.mem_append_left _ hs)
    have hfr : ∀ s ∈ (ls ++ post).flatMap Lot.used, s.Filled c := fun s hs => hf s (by
      rw [List.cons_append, List.flatMap_cons]; exact List.mem_append_right _ hs)
    have hul := Lot.used_length hw
    have hsplit : encItems rs c (((l :: ls ++ post).flatMap Lot.used).map Slot.item) =
        lotItems rs c (l.used.map Slot.item) ++ encItems rs c (((ls ++ post).flatMap Lot.used).map Slot.item) := by
      unfold encItems
      rw [List.cons_append, List.flatMap_cons, List.map_append, chunksOf_append hp0 _ _ (by rw [List.length_map, hul, hfull])]
      rfl
    have hlen : (lotItems rs c (l.used.map Slot.item)).length = c.lotSize := by
      rw [lotItems_length hrs hi (hitl l hw hfl).1 (hitl l hw hfl).2]
      cases hd : c.dpb with
      | none => simp only; rw [List.length_map, hul, hfull]; simp [LotCfg.direct, LotCfg.lotSize, hi, hd]
      | some d => rfl
    rw [hsplit, List.length_append, hlen] at hb
    have hds := c.direct_le
    have hp' : 0 < c.direct := hp
    have hst : start % 2 ^ 32 = start := Nat.mod_eq_of_lt (by omega)
    obtain ⟨l', he, hpo, hu, hpb, hcd, hct, hcp⟩ := Lot.encode_post hrs hi hw (by omega) hfl h1 (by omega)
    obtain ⟨lots', he2, hl2, hE⟩ := ih (fun x hx => hpre x (List.mem_cons_of_mem _ hx)) hfr (start + c.lotSize)
      (by omega) (by omega)
    refine ⟨l' :: lots', ?_, by simp [hl2], ?_⟩
    · rw [List.cons_append, Buffer.encodeLots, hst, he, he2]
    · rw [← hlen] at hE
      have := EncodedLots.cons hpo hu hpb hcd hct hcp hE
      rw [hsplit, List.cons_append, List.flatMap_cons, List.length_append, List.map_append, List.sum_append]
      exact this

/-- Effect of `DataBlockBuffer::encode`. -/
theorem Buffer.encode_spec {rs : RsCodec} {c : LotCfg} (hrs : RsOk rs c) (hi : c.inputData = true) (hp : c.Pos)
    {b : Buffer} (hok : b.OK c) (hl : b.lots ≠ []) (hf : ∀ s ∈ b.used, s.Filled c) {start : Nat}
    (hs : b.startSeq = some start) (h1 : 1 ≤ start)
    (hb : start + (encItems rs c (b.used.map Slot.item)).length ≤ 2 ^ 32) :
    ∃ b', b.encode rs = some b' ∧ b'.lotsUsed = b.lotsUsed ∧ b'.incre = b.incre ∧ b'.lots.length = b.lots.length ∧
      b'.startSeq = (if b.isFull ∧ ¬ (lastSeqNum - b.incre < start) then some (start + b.incre) else none) ∧
      EncodedLots c start b.used.length ((b.used.map (Lot.padCount c)).sum) (encItems rs c (b.used.map Slot.item)) b'.lots := by
  obtain ⟨pre, post, hsp, hn, hpre, hpost⟩ := hok
  have hls : b.lotSize = c.lotSize := by
    unfold Buffer.lotSize
    cases hbl : b.lots with
    | nil => exact absurd hbl hl
    | cons l ls =>
      simp only
      have : l.WF c := by
        cases pre with
        | nil =>
          rcases hpost with rfl | ⟨l2, r2, rfl, hw, _⟩
          · rw [hbl] at hsp; simp at hsp
          · rw [hbl] at hsp; simp at hsp; rw [hsp.1]; exact hw
        | cons p ps =>
          rw [hbl] at hsp; simp at hsp
          rw [hsp.1]; exact (hpre p List.mem_cons_self).1
      rw [this.cfg]
  unfold Buffer.used at hf hb ⊢
  rw [hsp] at hf hb
  obtain ⟨lots', he, hlen, hE⟩ := encodeLots_spec hrs hi hp pre post hpre hpost hf start h1 hb
  refine ⟨{ b with
    lots := lots'
    startSeq := if b.isFull ∧ ¬ (lastSeqNum - b.incre < start) then some (start + b.incre) else none },
    ?_, rfl, rfl, by simp [hlen, hsp], rfl, ?_⟩
  · unfold Buffer.encode
    rw [hs]
    simp only [hls, hsp, he]
  · rw [hsp]; exact hE

/-- After encoding (and writing) a buffer, `reset` makes it empty again. -/
theorem Buffer.reset_OK {c : LotCfg} (hp : c.Pos) {b : Buffer} (h : ∀ l ∈ b.lots, l.Post c) :
    b.reset.OK c ∧ b.reset.used = [] ∧ b.reset.lots.length = b.lots.length ∧ b.reset.startSeq = b.startSeq ∧
      b.reset.incre = b.incre := by
  have he : ∀ l ∈ b.reset.lots, l.WF c ∧ l.slotsUsed = 0 := by
    intro l hl
    simp only [Buffer.reset, List.mem_map] at hl
    obtain ⟨x, hx, rfl⟩ := hl
    exact (h x hx).reset
  refine ⟨shape_empty hp he, flatMap_used_empty he, by simp [Buffer.reset], rfl, rfl⟩

end Verif
