import Verif.Lemmas.EncodeRead
import Verif.Lemmas.FileBlocks
import Verif.Lemmas.PipelineSeq
/-!
# Lemmas about the threads of the encoder: the data blocks they write and what they count
-/

namespace Verif.Encode
open Format ContainerSpec LayoutSpec

/-- Blocks with sequence numbers from `start` on and the block index at which each is written. -/
def dataWrites (v : Version) (uid : List Byte) (me : Option Bool) (dpb : Option Dpb) (start : Nat) (ps : List (List Byte)) :
    List (Nat × List Byte) :=
  ps.mapIdx fun i p => (Layout.dataWriteIndex (start + i) me dpb, blockBytes v uid (UInt32.ofNat (start + i)) p)

theorem dataWrites_append (v : Version) (uid : List Byte) (me : Option Bool) (dpb : Option Dpb) (start : Nat)
    (a b : List (List Byte)) :
    dataWrites v uid me dpb start (a ++ b) = dataWrites v uid me dpb start a ++ dataWrites v uid me dpb (start + a.length) b := by
  unfold dataWrites
  rw [List.mapIdx_append]
  congr 1
  apply List.ext_getElem?; intro i
  simp only [List.getElem?_mapIdx]
  congr 2; funext it; rw [Nat.add_comm i a.length, Nat.add_assoc]

theorem calc_used (l : Lot) :
    l.calcSlotWritePos.used =
      l.used.map fun s => { s with writePos := Lot.slotWritePos l.cfg s.block.header.seq.toNat } := by
  unfold Lot.used Lot.calcSlotWritePos Lot.mapBelow
  apply List.ext_getElem?; intro i
  simp only [List.getElem?_take, List.getElem?_map, List.getElem?_mapIdx]
  by_cases h : i < l.slotsUsed
  · simp [h]
  · simp [h]

/-- Writing an encoded buffer: one write for each block. -/
theorem write_spec {c : LotCfg} (hs : c.skipGood = false) (ho : c.outputType = .block) {start k pb : Nat} {its : List Item}
    {b : Buffer} (hE : EncodedLots c start k pb its b.lots) (hb : start + its.length ≤ 2 ^ 32) (f : Disk) :
    (b.write f).2 = f.writes (File.atPos c.version.blockSize
      (dataWrites c.version c.uid.bytes (some c.metaEnabled) c.dpb start (its.map (·.payload)))) := by
  unfold Buffer.write Buffer.calcSlotWritePos
  simp only
  have h1 : ∀ (lots : List Lot) (f : Disk), (∀ l ∈ lots, l.cfg = c) →
      (lots.map Lot.calcSlotWritePos).foldl (fun f l => l.write f) f =
        (lots.flatMap Lot.used).foldl
          (fun f s => Disk.writeAt f (Layout.dataWritePos c.version s.block.header.seq.toNat (some c.metaEnabled) c.dpb) s.data) f := by
    intro lots
    induction lots with
    | nil => intro f _; rfl
    | cons l ls ih =>
      intro f hc
      rw [List.map_cons, List.foldl_cons, ih _ (fun x hx => hc x (List.mem_cons_of_mem _ hx)), List.flatMap_cons, List.foldl_append]
      congr 1
      unfold Lot.write
      rw [calc_used, List.foldl_map]
      have hl := hc l List.mem_cons_self
      congr 1
      funext f s
      simp [Lot.writeSlot, Lot.slotWritePos, Lot.slotBytes, Lot.calcSlotWritePos, hl, hs, ho]
  rw [h1 _ _ (fun l hl => (hE.post l hl).cfg), hE.used]
  unfold File.atPos dataWrites place
  rw [← Disk.foldl_writeAt]
  have h2 : ∀ (its : List Item) (j : Nat) (f : Disk), start + j + its.length ≤ 2 ^ 32 →
      (its.mapIdx fun i it => doneSlot c (start + j + i) it).foldl
          (fun f s => Disk.writeAt f (Layout.dataWritePos c.version s.block.header.seq.toNat (some c.metaEnabled) c.dpb) s.data) f =
        ((its.map (·.payload)).mapIdx fun i p => (Layout.dataWriteIndex (start + j + i) (some c.metaEnabled) c.dpb,
          blockBytes c.version c.uid.bytes (UInt32.ofNat (start + j + i)) p)).foldl
          (fun f w => Disk.writeAt f (w.1 * c.version.blockSize) w.2) f := by
    intro its
    induction its with
    | nil => intro j f _; rfl
    | cons it its ih =>
      intro j f hj
      simp only [List.length_cons] at hj
      rw [List.map_cons, List.mapIdx_cons, List.mapIdx_cons, List.foldl_cons, List.foldl_cons]
      have := ih (j + 1)
      simp only [Nat.add_zero]
      have e : ∀ i, start + j + (i + 1) = start + (j + 1) + i := by intro i; omega
      simp only [e]
      rw [this _ (by omega)]
      congr 1
      simp only [doneSlot, blockOf]
      rw [UInt32.toNat_ofNat_of_lt' (by simpa using (show start + j < 2 ^ 32 by omega))]
      unfold Layout.dataWritePos
      rfl
  simpa using h2 its 0 f (by omega)

/-- Counters after adding blocks carrying `len` bytes of data. -/
def Adds (v : Version) (dpb : Option Dpb) (a b : Counters) (blocks len : Nat) : Prop :=
  ∃ D P B, b = ⟨a.dataBlocks + D, a.parityBlocks + P, a.paddingBytes + B⟩ ∧ D + P = blocks ∧ D * v.dataSize = B + len ∧
    ParityShare dpb P blocks

theorem Adds.trans {v : Version} {dpb : Option Dpb} {a b c : Counters} {m n l k : Nat} (h1 : Adds v dpb a b m l)
    (h2 : Adds v dpb b c n k) : Adds v dpb a c (m + n) (l + k) := by
  obtain ⟨D, P, B, rfl, e1, e2, e5⟩ := h1
  obtain ⟨D', P', B', rfl, e3, e4, e6⟩ := h2
  refine ⟨D + D', P + P', B + B', by simp [Nat.add_assoc], by omega, ?_, e5.add e6⟩
  rw [Nat.add_mul]; omega

theorem padCount_chunk {c : LotCfg} {s : Slot} (h : s.Filled c) : Lot.padCount c s + s.item.chunk.length = c.version.dataSize := by
  rw [h.good.chunk_length]
  have hp := h.good.pos
  unfold Lot.padCount
  have e : s.item.contentLen = s.contentLen := rfl
  rw [e] at hp ⊢
  cases hc : s.contentLen with
  | none => simp
  | some n =>
    have := hp n hc
    simp only [Option.getD_some]
    split <;> omega

theorem padCount_sum {c : LotCfg} {us : List Slot} (h : ∀ s ∈ us, s.Filled c) :
    (us.map (Lot.padCount c)).sum + ((us.map Slot.item).map Item.chunk).flatten.length = us.length * c.version.dataSize := by
  induction us with
  | nil => simp
  | cons s us ih =>
    have h1 := padCount_chunk (h s List.mem_cons_self)
    have h2 := ih fun x hx => h x (List.mem_cons_of_mem _ hx)
    simp only [List.map_cons, List.sum_cons, List.flatten_cons, List.length_append, List.length_cons, Nat.succ_mul]
    omega

theorem payloads_append {rs : RsCodec} {v : Version} {dpb : Option Dpb} {a b : List (List Byte)}
    (h : ∀ d, dpb = some d → d.data ≠ 0 ∧ ∃ k, a.length = k * d.data) :
    payloads rs v dpb (a ++ b) = payloads rs v dpb a ++ payloads rs v dpb b := by
  unfold payloads
  cases dpb with
  | none => simp
  | some d =>
    obtain ⟨h1, k, h2⟩ := h d rfl
    simp only
    rw [chunksOf_append_mul h1 k a b h2, List.flatMap_append]

/-- One round of the three threads: what the worker and the writer do with a buffer filled by the reader. -/
theorem round_spec {rs : RsCodec} {p : Param} (hrs : RsOk rs p.cfg) (hp : p.cfg.Pos) {L N k : Nat} (hL0 : 0 < L) (hL : 2 ∣ L)
    (hN : N * perBuffer p.cfg L < 2 ^ 32) {b : Buffer} {bs : List Buffer} (h : Front p.cfg L N k b bs)
    {cs : List (List Byte)} (hcs : (b.used.map Slot.item).map Item.chunk = cs)
    (hb : k * perBuffer p.cfg L + (payloads rs p.version p.dpb cs).length < 2 ^ 32) (s1 s2 : St) :
    ∃ b' wk', workerStep rs p s1 b = ({ s1 with wk := wk' }, some [b']) ∧
      Adds p.version p.dpb s1.wk wk' (payloads rs p.version p.dpb cs).length cs.flatten.length ∧
      writerStep s2 b' = ({ s2 with wr := s2.wr.writes (File.atPos p.version.blockSize (dataWrites p.version p.uid.bytes
        (some p.metaEnabled) p.dpb (1 + k * perBuffer p.cfg L) (payloads rs p.version p.dpb cs))) },
        some [b'.calcSlotWritePos.reset]) ∧
      (b.isFull = true → Rot p.cfg L N (k + 1) (bs ++ [b'.calcSlotWritePos.reset])) := by
  have hi : p.cfg.inputData = true := rfl
  have hpay : (encItems rs p.cfg (b.used.map Slot.item)).map (·.payload) = payloads rs p.version p.dpb cs := by
    rw [← hcs]
    refine encItems_payloads hi hp ?_
    intro it hit
    obtain ⟨s, hs, rfl⟩ := List.mem_map.1 hit
    exact (h.filled s hs).good
  have hlen : (encItems rs p.cfg (b.used.map Slot.item)).length = (payloads rs p.version p.dpb cs).length := by
    rw [← hpay, List.length_map]
  obtain ⟨b', e, hE, hrot⟩ := h.encode hrs hi hp hL0 hL hN (by rw [hlen]; exact hb)
  refine ⟨b', { dataBlocks := s1.wk.dataBlocks + b'.counts.1
                parityBlocks := s1.wk.parityBlocks + b'.counts.2.2
                paddingBytes := s1.wk.paddingBytes + (b'.paddingBytes + b'.counts.2.1 * p.version.dataSize) }, ?_, ?_, ?_, ?_⟩
  · unfold workerStep; rw [e]
  · have h1 := hE.padding
    have h2 := hE.data
    have h3 := hE.total
    have h4 := padCount_sum h.filled
    rw [hcs] at h4
    rw [Buffer.counts_eq]
    refine ⟨_, _, _, rfl, by rw [h3, hlen], ?_, by rw [← hlen]; exact hE.parity⟩
    have h5 : b'.paddingBytes = (sumCounts b'.lots).2.2.2 := rfl
    rw [h5, h1]
    simp only
    have hv : p.cfg.version = p.version := rfl
    rw [hv] at h4
    rw [h2, Nat.add_mul]
    omega
  · unfold writerStep
    simp only
    rw [write_spec rfl rfl hE (by rw [hlen]; omega), hpay]
    rfl
  · intro hf
    refine hrot _ rfl rfl (by simp [Buffer.calcSlotWritePos]) ?_ hf
    intro l hl
    simp only [Buffer.calcSlotWritePos, List.mem_map] at hl
    obtain ⟨x, hx, rfl⟩ := hl
    exact Lot.calc_post (hE.post x hx)

/-- All rounds. -/
theorem rounds {rs : RsCodec} {p : Param} (hok : p.Ok) (hrs : RsOk rs p.cfg) {stop : Nat → Bool} {required : Option Nat}
    {lastSeq L N : Nat} (hL0 : 0 < L) (hL : 2 ∣ L) (hN : N * perBuffer p.cfg L < 2 ^ 32) (hN0 : 0 < N) :
    ∀ (n k : Nat) (st : Fin 3 → St) (bufs : List Buffer) (cs : List (List Byte)) (stF : RdSt) (fuel : Nat),
      Rot p.cfg L N k bufs → plan p stop required lastSeq n (st 0).rd = some (cs, stF) → (st 0).rd.run = true →
      k * perBuffer p.cfg L + (payloads rs p.version p.dpb cs).length < 2 ^ 32 → n + 2 ≤ fuel →
      ∃ st', (ring rs p stop required lastSeq (L * p.cfg.direct + 1)).runSeq fuel st bufs = some st' ∧
        (st' 0).rd = stF ∧ (st' 0).panicked = (st 0).panicked ∧ (st' 1).panicked = (st 1).panicked ∧
        Adds p.version p.dpb (st 1).wk (st' 1).wk (payloads rs p.version p.dpb cs).length cs.flatten.length ∧
        (st' 2).wr = (st 2).wr.writes (File.atPos p.version.blockSize (dataWrites p.version p.uid.bytes
          (some p.metaEnabled) p.dpb (1 + k * perBuffer p.cfg L) (payloads rs p.version p.dpb cs))) := by
  have hp : p.cfg.Pos := by
    unfold LotCfg.Pos LotCfg.direct
    simp only [Param.cfg, if_true]
    cases hd : p.dpb with
    | none => simp
    | some d => exact (hok.shards d hd).1
  intro n
  induction n using Nat.strong_induction_on with
  | _ n ih =>
    intro k st bufs cs stF fuel hR hpl hrun hb hfuel
    obtain ⟨b, bs, rfl⟩ : ∃ b bs, bufs = b :: bs := by
      cases bufs with
      | nil => have := hR.len; simp at this; omega
      | cons b bs => exact ⟨b, bs, rfl⟩
    obtain ⟨hF, hu⟩ := hR.front
    obtain ⟨rd', b1, cs1, cs2, hfill, hF1, hcs, hch, hor⟩ := fillLoop_spec (p := p) (stop := stop) (required := required)
      (lastSeq := lastSeq) hp (fun st st' act h => readAct_chunk st st' act h) (L * p.cfg.direct + 1) (st 0).rd b n cs stF
      hF (by omega) hrun hpl
    rw [hu] at hch
    simp only [List.map_nil, List.nil_append] at hch
    have hpa : (b1.isFull = true ∨ cs2 = []) → payloads rs p.version p.dpb cs =
        payloads rs p.version p.dpb cs1 ++ payloads rs p.version p.dpb cs2 := by
      rintro (h | h)
      · rw [hcs]
        apply payloads_append
        intro d hd
        have := (Buffer.full_iff hF1).1 h
        refine ⟨by have := (hok.shards d hd).1; omega, L, ?_⟩
        have hl := congrArg List.length hch
        simp only [List.length_map] at hl
        rw [← hl, this]
        congr 1
        simp [LotCfg.direct, Param.cfg, hd]
      · subst h
        have : payloads rs p.version p.dpb [] = [] := by
          unfold payloads; cases p.dpb <;> simp [chunksOf_nil]
        rw [hcs]; simp [this]
    have hor' : b1.isFull = true ∨ cs2 = [] := by
      rcases hor with ⟨-, h, -⟩ | ⟨h, -⟩
      · exact .inr h
      · exact .inl h
    have hlen := congrArg List.length (hpa hor')
    rw [List.length_append] at hlen
    obtain ⟨b2, wk', e1, hadd, e2, hrot⟩ := round_spec hrs hp hL0 hL hN hF1 hch (by omega) (st 1) (st 2)
    obtain ⟨fuel, rfl⟩ : ∃ m, fuel = m + 1 := ⟨fuel - 1, by omega⟩
    have hst0 : (ring rs p stop required lastSeq (L * p.cfg.direct + 1)).step 0 (st 0) b = ({ st 0 with rd := rd' }, some [b1]) := by
      simp only [ring, if_true, readerStep, hrun, hfill]
      simp
    have hst1 : (ring rs p stop required lastSeq (L * p.cfg.direct + 1)).step 1 (st 1) b1 = ({ st 1 with wk := wk' }, some [b2]) := by
      simp only [ring]
      rw [if_neg (by decide), if_pos trivial, e1]
    have hst2 : (ring rs p stop required lastSeq (L * p.cfg.direct + 1)).step 2 (st 2) b2 = writerStep (st 2) b2 := by
      simp only [ring]
      rw [if_neg (by decide), if_neg (by decide)]
    rw [e2] at hst2
    obtain ⟨stn, n0, n1, n2, hrs'⟩ := Pipeline.runSeq3 (fuel := fuel) (ms := bs) hst0 hst1 hst2
    rw [hrs']
    generalize hw' : Disk.writes (st 2).wr _ = wr' at *
    rcases hor with ⟨rfl, rfl, hnr⟩ | ⟨hfull, hr', n', hn', hpl'⟩
    · obtain ⟨fuel, rfl⟩ : ∃ m, fuel = m + 1 := ⟨fuel - 1, by omega⟩
      rw [Pipeline.runSeq_end (by simp) (by
        intro m _
        simp only [ring, if_true, readerStep, n0, hnr]
        simp)]
      have hcs' : cs = cs1 := by rw [hcs]; simp
      subst hcs'
      refine ⟨_, rfl, by simp [n0], by simp [n0], by simp [n1], ?_, ?_⟩
      · rw [n1]; exact hadd
      · rw [n2, ← hw']
    · have hc1 : cs1.length = L * p.cfg.direct := by
        rw [← hch, List.length_map, List.length_map, (Buffer.full_iff hF1).1 hfull]
      have hpos : 0 < L * p.cfg.direct := Nat.mul_pos hL0 hp
      have hp1 : (payloads rs p.version p.dpb cs1).length = perBuffer p.cfg L := by
        rw [← hch]
        have := encItems_payloads (rs := rs) (c := p.cfg) rfl hp (its := b1.used.map Slot.item) (by
          intro it hit
          obtain ⟨s, hs, rfl⟩ := List.mem_map.1 hit
          exact (hF1.filled s hs).good)
        have e := congrArg List.length this
        rw [List.length_map] at e
        have hv : p.cfg.version = p.version := rfl
        have hd : p.cfg.dpb = p.dpb := rfl
        rw [hv, hd] at e
        rw [← e]
        refine encItems_length hrs rfl hp L _ (by rw [List.length_map, (Buffer.full_iff hF1).1 hfull]) ?_
        intro it hit
        obtain ⟨s, hs, rfl⟩ := List.mem_map.1 hit
        exact (hF1.filled s hs).item_length
      have hk1 : 1 + k * perBuffer p.cfg L + perBuffer p.cfg L = 1 + (k + 1) * perBuffer p.cfg L := by
        rw [Nat.succ_mul]; omega
      obtain ⟨st', r1, r2, r3, r4, r5, r6⟩ := ih n' (by omega) (k + 1) stn _ cs2 stF fuel (hrot hfull)
        (by rw [n0]; exact hpl') (by rw [n0]; exact hr') (by rw [Nat.succ_mul]; omega) (by omega)
      refine ⟨st', r1, r2, by rw [r3, n0], by rw [r4, n1], ?_, ?_⟩
      · rw [hlen, hcs, List.flatten_append, List.length_append]
        rw [n1] at r5
        exact hadd.trans r5
      · rw [r6, n2, ← hw', hpa hor', dataWrites_append, hp1, hk1]
        simp only [File.atPos, List.map_append]
        rw [Disk.writes_append]

end Verif.Encode
