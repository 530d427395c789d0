import Verif.Lemmas.BufferRotate
/-!
# C19: rotating buffers number blocks contiguously

A session fills buffers in rotation the way the threads of the encoder do it: slots are taken from (and given back to) the
buffer at the front; when it is full it is encoded, its blocks are output, and it is reset and queued at the end.
-/

namespace Verif
open Format ContainerSpec

/-- What a user of the buffers does: take a slot and put a chunk in it, or give the last slot back. -/
inductive BufOp
  | take (chunk : List Byte)
  | cancel

/-- The buffers in rotation and everything output so far. -/
structure Session where
  bufs : List Buffer
  out : List Slot

/-- Encode the buffer at the front and output its blocks. -/
def Session.flush (rs : RsCodec) (s : Session) : Option Session :=
  match s.bufs with
  | [] => none
  | b :: bs => (b.encode rs).map fun b' => ⟨bs ++ [b'.reset], s.out ++ b'.used⟩

/-- One operation; `none` is a panic. -/
def Session.step (rs : RsCodec) (c : LotCfg) (s : Session) (op : BufOp) : Option Session :=
  match op, s.bufs with
  | _, [] => none
  | .cancel, b :: bs => b.cancelSlot.map fun b' => ⟨b' :: bs, s.out⟩
  | .take chunk, b :: _ =>
    (if b.isFull then s.flush rs else some s).bind fun s =>
      match s.bufs with
      | [] => none
      | b :: bs => (b.fill (Slot.load c chunk)).map fun b' => ⟨b' :: bs, s.out⟩

/-- A whole session: `N` new buffers of `L` lots, the operations, and flushing the last buffer. -/
def Session.run (rs : RsCodec) (c : LotCfg) (L N : Nat) (ops : List BufOp) : Option (List Slot) :=
  ((ops.foldl (fun s op => s.bind fun s => s.step rs c op) (some ⟨Buffer.newMulti c L N, []⟩)).bind (Session.flush rs)).map
    (·.out)

/-- The chunks that should be kept: a cancellation drops the last chunk.  The second component is the number of chunks in
buffers that have already been passed on (`room` chunks each), which cannot be cancelled any more. -/
def keptStep (room : Nat) (s : List (List Byte) × Nat) (op : BufOp) : Option (List (List Byte) × Nat) :=
  match op with
  | .take chunk => some (s.1 ++ [chunk], if s.1.length = s.2 + room then s.2 + room else s.2)
  | .cancel => if s.2 < s.1.length then some (s.1.dropLast, s.2) else none

/-- The chunks kept by a list of operations. -/
def kept (room : Nat) (ops : List BufOp) : Option (List (List Byte) × Nat) :=
  ops.foldl (fun s op => s.bind fun s => keptStep room s op) (some ([], 0))

namespace BufferProofs

theorem foldl_none {α β : Type} (f : α → β → Option α) (l : List β) :
    l.foldl (fun s x => s.bind fun s => f s x) none = none := by
  induction l with
  | nil => rfl
  | cons x xs ih => simpa using ih

/-- Invariant of a session. -/
structure SInv (rs : RsCodec) (c : LotCfg) (L N : Nat) (s : Session) (ks : List (List Byte)) (base : Nat) : Prop where
  inv : ∃ k b bs done, s.bufs = b :: bs ∧ Front c L N k b bs ∧ done.length = k * (L * c.direct) ∧
    (∀ it ∈ done, it.Good c.version) ∧
    s.out = place c 1 (encItems rs c done) ∧ base = done.length ∧
    ks = (done ++ b.used.map Slot.item).map Item.chunk ∧ b.used.length ≤ L * c.direct

variable {rs : RsCodec} {c : LotCfg} {L N : Nat}

theorem flush_spec (hrs : RsOk rs c) (hi : c.inputData = true) (hp : c.Pos) (hL0 : 0 < L) (hL : 2 ∣ L)
    (hN : N * perBuffer c L < 2 ^ 32) {s : Session} {ks : List (List Byte)} {base : Nat} (h : SInv rs c L N s ks base)
    (hb : (payloads rs c.version c.dpb ks).length < 2 ^ 32) :
    ∃ s' its, s.flush rs = some s' ∧ s'.out = place c 1 (encItems rs c its) ∧ its.map Item.chunk = ks ∧
      (∀ it ∈ its, it.Good c.version) ∧
      (ks.length = base + L * c.direct → SInv rs c L N s' ks (base + L * c.direct) ∧
        ∀ b bs, s'.bufs = b :: bs → b.isFull = false) := by
  obtain ⟨k, b, bs, done, hbs, hF, hdl, hdg, hout, hbase, hks, hul⟩ := h.inv
  have hgu : ∀ it ∈ b.used.map Slot.item, it.Good c.version := by
    intro it hit
    obtain ⟨x, hx, rfl⟩ := List.mem_map.1 hit
    exact (hF.filled x hx).good
  have hg : ∀ it ∈ done ++ b.used.map Slot.item, it.Good c.version := by
    intro it hit
    rcases List.mem_append.1 hit with hit | hit
    · exact hdg it hit
    · exact hgu it hit
  have hdl' : done.length = (k * L) * c.direct := by rw [hdl]; ring
  have hlen := encItems_length (rs := rs) hrs hi hp _ done hdl' (fun it hit => (hdg it hit).len)
  have happ := encItems_append (rs := rs) hp _ done (b.used.map Slot.item) hdl'
  have hpl := encItems_payloads (rs := rs) hi hp hg
  have hkS : k * L * c.lotSize = k * perBuffer c L := by unfold perBuffer; ring
  have hb' : k * perBuffer c L + (encItems rs c (b.used.map Slot.item)).length < 2 ^ 32 := by
    rw [← hks] at hpl
    rw [← hpl, List.length_map, happ, List.length_append, hlen, hkS] at hb
    exact hb
  obtain ⟨b', e, hE, hrot⟩ := hF.encode hrs hi hp hL0 hL hN hb'
  refine ⟨⟨bs ++ [b'.reset], s.out ++ b'.used⟩, done ++ b.used.map Slot.item, ?_, ?_, hks.symm, hg, ?_⟩
  · unfold Session.flush; rw [hbs]; simp [e]
  · simp only
    rw [happ, place_append, hout, hlen, hkS]
    congr 1
    exact hE.used
  · intro hfull
    have hbf : b.used.length = L * c.direct := by
      have : ks.length = done.length + b.used.length := by rw [hks]; simp
      omega
    have hR := hrot b' rfl rfl rfl hE.post ((Buffer.full_iff hF).2 hbf)
    have hbl : L * c.direct ≠ 0 := Nat.mul_ne_zero (by omega) (Nat.pos_iff_ne_zero.1 hp)
    cases hbs' : bs ++ [b'.reset] with
    | nil => simp at hbs'
    | cons b2 bs2 =>
      rw [hbs'] at hR
      obtain ⟨hF2, hu2⟩ := hR.front
      refine ⟨⟨k + 1, b2, bs2, done ++ b.used.map Slot.item, rfl, hF2, ?_, hg, ?_, ?_, ?_, ?_⟩, ?_⟩
      · rw [List.length_append, List.length_map, hdl, hbf, Nat.succ_mul]
      · simp only
        rw [happ, place_append, hout, hlen, hkS]
        congr 1
        exact hE.used
      · rw [List.length_append, List.length_map, hbase, hbf]
      · rw [hu2, hks]; simp
      · rw [hu2]; simp
      · intro b3 bs3 h3
        simp at h3
        rw [← h3.1]
        cases hff : b2.isFull with
        | false => rfl
        | true =>
          have := (Buffer.full_iff hF2).1 hff
          rw [hu2] at this
          exact absurd this.symm hbl

theorem step_spec (hrs : RsOk rs c) (hi : c.inputData = true) (hp : c.Pos) (hL0 : 0 < L) (hL : 2 ∣ L)
    (hN : N * perBuffer c L < 2 ^ 32) {s : Session} {ks ks' : List (List Byte)} {base base' : Nat}
    (h : SInv rs c L N s ks base) (op : BufOp)
    (hop : ∀ ch, op = .take ch → ch ≠ [] ∧ ch.length ≤ c.version.dataSize)
    (hk : keptStep (L * c.direct) (ks, base) op = some (ks', base'))
    (hb : base' / c.direct * c.lotSize < 2 ^ 32) :
    ∃ s', s.step rs c op = some s' ∧ SInv rs c L N s' ks' base' := by
  have fillStep : ∀ (s : Session) (base : Nat) (chunk : List Byte), SInv rs c L N s ks base →
      (∀ b bs, s.bufs = b :: bs → b.isFull = false) → chunk ≠ [] → chunk.length ≤ c.version.dataSize →
      ∃ s', (match s.bufs with
        | [] => none
        | b :: bs => (b.fill (Slot.load c chunk)).map fun b' => (⟨b' :: bs, s.out⟩ : Session)) = some s' ∧
        SInv rs c L N s' (ks ++ [chunk]) base := by
    intro s base chunk h hnf hc0 hc1
    obtain ⟨k, b, bs, done, hbs, hF, hdl, hdg, hout, hbase, hks, hul⟩ := h.inv
    have hbf : b.isFull = false := hnf b bs hbs
    obtain ⟨b', sl, e, hF', hu, hsf, hsc⟩ := hF.fill hp hbf hc0 hc1
    refine ⟨⟨b' :: bs, s.out⟩, by rw [hbs]; simp [e], ⟨k, b', bs, done, rfl, hF', hdl, hdg, hout, hbase, ?_, ?_⟩⟩
    · rw [hu, hks]; simp [hsc]
    · have := (Buffer.used_length_le hF'.ok).1
      rwa [hF'.lots] at this
  obtain ⟨k, b, bs, done, hbs, hF, hdl, hdg, hout, hbase, hks, hul⟩ := h.inv
  cases op with
  | cancel =>
    simp only [keptStep] at hk
    split at hk
    · rename_i hlt
      simp only [Option.some.injEq, Prod.mk.injEq] at hk
      obtain ⟨rfl, rfl⟩ := hk
      have hne : b.used ≠ [] := by
        intro h'; rw [hks, h'] at hlt; simp at hlt; omega
      obtain ⟨us, sl, hu⟩ : ∃ us sl, b.used = us ++ [sl] := ⟨_, _, (List.dropLast_concat_getLast hne).symm⟩
      obtain ⟨b', e, hF', hu'⟩ := hF.cancel hu
      refine ⟨⟨b' :: bs, s.out⟩, by simp [Session.step, hbs, e], ⟨k, b', bs, done, rfl, hF', hdl, hdg, hout, hbase, ?_, ?_⟩⟩
      · rw [hu', hks, hu]
        simp only [List.map_append, List.map_cons, List.map_nil, ← List.append_assoc, List.dropLast_concat]
      · rw [hu'] ; rw [hu] at hul; simp at hul; omega
    · simp at hk
  | take chunk =>
    obtain ⟨hc0, hc1⟩ := hop chunk rfl
    simp only [keptStep, Option.some.injEq, Prod.mk.injEq] at hk
    obtain ⟨rfl, rfl⟩ := hk
    have hkl : ks.length = base + b.used.length := by rw [hks, hbase]; simp
    by_cases hfull : b.isFull = true
    · have hbl := (Buffer.full_iff hF).1 hfull
      have hkb : ks.length = base + L * c.direct := by omega
      rw [if_pos hkb] at hb ⊢
      have hbb : base + L * c.direct = (k * L + L) * c.direct := by rw [hbase, hdl]; ring
      rw [hbb, Nat.mul_div_cancel _ hp] at hb
      have hgu : ∀ it ∈ done ++ b.used.map Slot.item, it.Good c.version := by
        intro it hit
        rcases List.mem_append.1 hit with hit | hit
        · exact hdg it hit
        · obtain ⟨x, hx, rfl⟩ := List.mem_map.1 hit
          exact (hF.filled x hx).good
      have hpl : (payloads rs c.version c.dpb ks).length < 2 ^ 32 := by
        rw [hks, ← encItems_payloads hi hp hgu, List.length_map,
          encItems_length hrs hi hp (k * L + L) _ (by rw [← hbb, List.length_append, List.length_map, ← hbase, hbl])
            (fun it hit => (hgu it hit).len)]
        exact hb
      obtain ⟨s', its, e, -, -, -, hnext⟩ := flush_spec hrs hi hp hL0 hL hN h hpl
      obtain ⟨hS, hnf⟩ := hnext hkb
      obtain ⟨s2, e2, hS2⟩ := fillStep s' _ chunk hS hnf hc0 hc1
      refine ⟨s2, ?_, hS2⟩
      simp only [Session.step, hbs, hfull, if_true, e, Option.bind_some]
      exact e2
    · have hne : ¬ ks.length = base + L * c.direct := by
        intro h'
        exact hfull ((Buffer.full_iff hF).2 (by omega))
      rw [if_neg hne]
      obtain ⟨s2, e2, hS2⟩ := fillStep s _ chunk h (by
        intro b2 bs2 h2
        rw [hbs] at h2
        simp at h2
        rw [← h2.1]; simpa using hfull) hc0 hc1
      refine ⟨s2, ?_, hS2⟩
      simp only [Session.step, hbs, hfull]
      simpa [hbs] using e2

theorem keptStep_base {room : Nat} {a b : List (List Byte) × Nat} {op : BufOp} (h : keptStep room a op = some b) :
    a.2 ≤ b.2 ∧ (a.2 ≤ a.1.length → b.2 ≤ b.1.length) := by
  cases op with
  | take chunk =>
    simp only [keptStep, Option.some.injEq] at h
    subst h
    simp only [List.length_append, List.length_singleton]
    split <;> omega
  | cancel =>
    simp only [keptStep] at h
    split at h
    · simp only [Option.some.injEq] at h
      subst h
      simp only [List.length_dropLast]; omega
    · simp at h

theorem fold_base {room : Nat} (ops : List BufOp) : ∀ {a b : List (List Byte) × Nat},
    ops.foldl (fun s op => s.bind fun s => keptStep room s op) (some a) = some b →
    a.2 ≤ b.2 ∧ (a.2 ≤ a.1.length → b.2 ≤ b.1.length) := by
  induction ops with
  | nil => intro a b h; simp at h; subst h; exact ⟨Nat.le_refl _, id⟩
  | cons op ops ih =>
    intro a b h
    simp only [List.foldl_cons, Option.bind_some] at h
    cases hk : keptStep room a op with
    | none => rw [hk, foldl_none] at h; simp at h
    | some a' =>
      rw [hk] at h
      have := ih h
      have := keptStep_base hk
      omega

theorem run_spec (hrs : RsOk rs c) (hi : c.inputData = true) (hp : c.Pos) (hL0 : 0 < L) (hL : 2 ∣ L)
    (hN : N * perBuffer c L < 2 ^ 32) (ops : List BufOp) : ∀ {s : Session} {ks ks' : List (List Byte)} {base base' : Nat},
    SInv rs c L N s ks base →
    (∀ ch, .take ch ∈ ops → ch ≠ [] ∧ ch.length ≤ c.version.dataSize) →
    ops.foldl (fun s op => s.bind fun s => keptStep (L * c.direct) s op) (some (ks, base)) = some (ks', base') →
    base' / c.direct * c.lotSize < 2 ^ 32 →
    ∃ s', ops.foldl (fun s op => s.bind fun s => s.step rs c op) (some s) = some s' ∧ SInv rs c L N s' ks' base' := by
  induction ops with
  | nil => intro s ks ks' base base' h _ hk _; simp at hk; obtain ⟨rfl, rfl⟩ := hk; exact ⟨s, rfl, h⟩
  | cons op ops ih =>
    intro s ks ks' base base' h hop hk hb
    simp only [List.foldl_cons, Option.bind_some] at hk ⊢
    cases hk1 : keptStep (L * c.direct) (ks, base) op with
    | none => rw [hk1, foldl_none] at hk; simp at hk
    | some a =>
      rw [hk1] at hk
      have hbb : a.2 ≤ base' := (fold_base ops hk).1
      have hb1 : a.2 / c.direct * c.lotSize < 2 ^ 32 :=
        Nat.lt_of_le_of_lt (Nat.mul_le_mul_right _ (Nat.div_le_div_right hbb)) hb
      obtain ⟨s1, e1, h1⟩ := step_spec hrs hi hp hL0 hL hN h op (fun ch hch => hop ch (by rw [hch]; exact List.mem_cons_self))
        hk1 hb1
      rw [e1]
      exact ih h1 (fun ch hch => hop ch (List.mem_cons_of_mem _ hch)) hk hb

theorem init_inv (hp : c.Pos) (hN0 : 0 < N) (hN : N * perBuffer c L < 2 ^ 32) :
    SInv rs c L N ⟨Buffer.newMulti c L N, []⟩ [] 0 := by
  have hR := Rot.new hp hN
  cases hb : Buffer.newMulti c L N with
  | nil => have := hR.len; rw [hb] at this; simp at this; omega
  | cons b bs =>
    rw [hb] at hR
    obtain ⟨hF, hu⟩ := hR.front
    refine ⟨0, b, bs, [], rfl, hF, by simp, by simp, by simp [encItems_nil, place], rfl, by simp [hu], by simp [hu]⟩

theorem payloads_length_ge (hrs : RsOk rs c) (hi : c.inputData = true) (hp : c.Pos) {ks : List (List Byte)}
    (hks : ∀ ch ∈ ks, ch ≠ [] ∧ ch.length ≤ c.version.dataSize) {base : Nat} (hb : base ≤ ks.length) :
    base / c.direct * c.lotSize ≤ (payloads rs c.version c.dpb ks).length := by
  -- realise the chunks as items
  let mk : List Byte → Item := fun ch =>
    ⟨pad c.version.dataSize ch, if ch.length < c.version.dataSize then some ch.length else none, false⟩
  have hmk : ∀ ch ∈ ks, (mk ch).Good c.version ∧ (mk ch).chunk = ch := by
    intro ch hch
    obtain ⟨h0, h1⟩ := hks ch hch
    have := List.length_pos_iff.2 h0
    refine ⟨⟨by simp [mk, pad]; omega, ?_, rfl⟩, ?_⟩
    · intro n hn
      simp only [mk] at hn
      split at hn
      · simp at hn; omega
      · simp at hn
    · by_cases hlt : ch.length < c.version.dataSize
      · simp [mk, Item.chunk, if_pos hlt, pad]
      · have : c.version.dataSize - ch.length = 0 := by omega
        simp [mk, Item.chunk, if_neg hlt, pad, this]
  have hg : ∀ it ∈ ks.map mk, it.Good c.version := by
    intro it hit
    obtain ⟨ch, hch, rfl⟩ := List.mem_map.1 hit
    exact (hmk ch hch).1
  have hch : (ks.map mk).map Item.chunk = ks := by
    rw [List.map_map]
    conv_rhs => rw [← List.map_id ks]
    apply List.map_congr_left
    intro ch hch
    exact (hmk ch hch).2
  have h1 := (encItems_mono (rs := rs) hrs hi hp (ks.map mk) (fun it hit => (hg it hit).len)).1
  have h2 := encItems_payloads (rs := rs) hi hp hg
  rw [hch] at h2
  rw [← h2, List.length_map]
  refine Nat.le_trans ?_ h1
  rw [List.length_map]
  exact Nat.mul_le_mul_right _ (Nat.div_le_div_right hb)

theorem kept_mem {room : Nat} (ops : List BufOp) : ∀ {a b : List (List Byte) × Nat},
    ops.foldl (fun s op => s.bind fun s => keptStep room s op) (some a) = some b →
    ∀ ch ∈ b.1, ch ∈ a.1 ∨ .take ch ∈ ops := by
  induction ops with
  | nil => intro a b h; simp at h; subst h; intro ch hch; exact .inl hch
  | cons op ops ih =>
    intro a b h ch hch
    simp only [List.foldl_cons, Option.bind_some] at h
    cases hk : keptStep room a op with
    | none => rw [hk, foldl_none] at h; simp at h
    | some a' =>
      rw [hk] at h
      rcases ih h ch hch with h1 | h1
      · cases op with
        | take x =>
          simp only [keptStep, Option.some.injEq] at hk
          subst hk
          rcases List.mem_append.1 h1 with h1 | h1
          · exact .inl h1
          · simp at h1; subst h1; exact .inr List.mem_cons_self
        | cancel =>
          simp only [keptStep] at hk
          split at hk
          · simp only [Option.some.injEq] at hk; subst hk
            exact .inl (List.dropLast_subset _ h1)
          · simp at hk
      · exact .inr (List.mem_cons_of_mem _ h1)

end BufferProofs

open BufferProofs in
/-- **C19.**  Any list of take and cancel operations on any number `N` of buffers of `L` lots: no panic, and the blocks
output are numbered 1, 2, 3, ... without gap, overlap or reuse and carry exactly the payloads (data, padding, parity) that
belong to the chunks that were kept.  `L` is a positive multiple of 50 in the program (`num_cpus * 50`); the numbers of
blocks have to fit into 32 bits (see C15/C16 for what limits file sizes). -/
theorem C19_contiguous (rs : RsCodec) (c : LotCfg) (hrs : RsOk rs c) (hi : c.inputData = true) (hpos : 0 < c.direct)
    (L N : Nat) (hL0 : 0 < L) (hL : 2 ∣ L) (hN0 : 0 < N) (hN : N * (L * c.lotSize) < 2 ^ 32)
    (ops : List BufOp) (hops : ∀ ch, .take ch ∈ ops → ch ≠ [] ∧ ch.length ≤ blockLen c.version - 16)
    (chunks : List (List Byte)) (base : Nat) (hk : kept (L * c.direct) ops = some (chunks, base))
    (hb : (payloads rs c.version c.dpb chunks).length < 2 ^ 32) :
    ∃ out, Session.run rs c L N ops = some out ∧
      out.map (·.data) = (payloads rs c.version c.dpb chunks).mapIdx fun i p =>
        blockBytes c.version c.uid.bytes (UInt32.ofNat (i + 1)) p := by
  rw [← dataSize_eq] at hops
  have hmem : ∀ ch ∈ chunks, ch ≠ [] ∧ ch.length ≤ c.version.dataSize := by
    intro ch hch
    rcases kept_mem ops hk ch hch with h | h
    · simp at h
    · exact hops ch h
  have hbase : base ≤ chunks.length := (fold_base ops hk).2 (Nat.zero_le _)
  have hb1 := payloads_length_ge (rs := rs) hrs hi hpos hmem hbase
  obtain ⟨s1, e1, h1⟩ := run_spec hrs hi hpos hL0 hL hN ops (init_inv (rs := rs) hpos hN0 hN) hops hk (by omega)
  obtain ⟨s2, its, e2, hout, hits, hg, -⟩ := flush_spec hrs hi hpos hL0 hL hN h1 hb
  refine ⟨s2.out, ?_, ?_⟩
  · unfold Session.run; rw [e1, Option.bind_some, e2]; rfl
  · rw [hout, ← hits, ← encItems_payloads hi hpos hg]
    apply List.ext_getElem?
    intro i
    simp only [place, List.getElem?_map, List.getElem?_mapIdx, Option.map_map]
    cases (encItems rs c its)[i]? with
    | none => rfl
    | some it => simp [doneSlot, Nat.add_comm]

/-- **C19, numbers of the chunks.**  The `k`-th chunk kept (from 0) is the payload of the `k`-th block that is not a parity
block: number `k/d*(d+p) + k%d + 1` with Reed-Solomon, `k + 1` without. -/
theorem C19_chunk_number (rs : RsCodec) (v : Version) (dpb : Option Dpb)
    (hrs : ∀ d, dpb = some d → 0 < d.data ∧ ∀ shards : List (List Byte), shards.length = d.data →
      (∀ s ∈ shards, s.length = blockLen v - 16) → (rs.encode d.data d.parity shards).length = d.parity)
    (chunks : List (List Byte)) (hc : ∀ ch ∈ chunks, ch.length ≤ blockLen v - 16) (k : Nat) (ch : List Byte)
    (hk : chunks[k]? = some ch) :
    (payloads rs v dpb chunks)[match dpb with
      | none => k
      | some d => k / d.data * (d.data + d.parity) + k % d.data]? = some (pad (blockLen v - 16) ch) := by
  cases dpb with
  | none => simp [payloads, hk]
  | some d =>
    obtain ⟨hd, henc⟩ := hrs d rfl
    simp only
    induction hn : chunks.length using Nat.strong_induction_on generalizing chunks k with
    | _ n ih =>
      have hne : chunks ≠ [] := by rintro rfl; simp at hk
      have hpos := List.length_pos_iff.2 hne
      have hsl : ∀ cs : List (List Byte), cs.length ≤ d.data → (dataShards (blockLen v - 16) d.data cs).length = d.data := by
        intro cs hcs; simp [dataShards]; omega
      have hsz : ∀ cs : List (List Byte), (∀ x ∈ cs, x.length ≤ blockLen v - 16) →
          ∀ x ∈ dataShards (blockLen v - 16) d.data cs, x.length = blockLen v - 16 := by
        intro cs hcs x hx
        simp only [dataShards, List.mem_append, List.mem_map, List.mem_replicate] at hx
        rcases hx with ⟨y, hy, rfl⟩ | ⟨-, rfl⟩
        · have := hcs y hy; simp [pad]; omega
        · simp [pad]
      have h1 : (dataShards (blockLen v - 16) d.data (chunks.take d.data)).length = d.data := hsl _ (by simp)
      have h2 : (rs.encode d.data d.parity (dataShards (blockLen v - 16) d.data (chunks.take d.data))).length = d.parity :=
        henc _ h1 (hsz _ (fun x hx => hc x (List.mem_of_mem_take hx)))
      have hp : payloads rs v (some d) chunks =
          (dataShards (blockLen v - 16) d.data (chunks.take d.data) ++
            rs.encode d.data d.parity (dataShards (blockLen v - 16) d.data (chunks.take d.data))) ++
          payloads rs v (some d) (chunks.drop d.data) := by
        simp only [payloads]
        rw [chunksOf_cons (by omega) hne, List.flatMap_cons]
      rw [hp]
      by_cases hlt : k < d.data
      · rw [Nat.div_eq_of_lt hlt, Nat.mod_eq_of_lt hlt, Nat.zero_mul, Nat.zero_add, List.append_assoc,
          List.getElem?_append_left (by rw [h1]; exact hlt)]
        have hkl : k < chunks.length := by
          by_contra h'; rw [List.getElem?_eq_none (by omega)] at hk; simp at hk
        simp only [dataShards]
        rw [List.getElem?_append_left (by simp; omega), List.getElem?_map, List.getElem?_take_of_lt hlt, hk]; rfl
      · obtain ⟨j, rfl⟩ : ∃ j, k = d.data + j := ⟨k - d.data, by omega⟩
        have e1 : (d.data + j) / d.data = j / d.data + 1 := by rw [Nat.add_div_left _ hd]
        have e2 : (d.data + j) % d.data = j % d.data := Nat.add_mod_left _ _
        rw [e1, e2, List.getElem?_append_right (by simp only [List.length_append, h1, h2]; rw [Nat.succ_mul]; omega)]
        have e3 : (j / d.data + 1) * (d.data + d.parity) + j % d.data -
            (dataShards (blockLen v - 16) d.data (chunks.take d.data) ++
              rs.encode d.data d.parity (dataShards (blockLen v - 16) d.data (chunks.take d.data))).length =
            j / d.data * (d.data + d.parity) + j % d.data := by
          rw [List.length_append, h1, h2, Nat.succ_mul]; omega
        rw [e3]
        have hkd : (chunks.drop d.data)[j]? = some ch := by rw [List.getElem?_drop]; exact hk
        exact ih (chunks.drop d.data).length (by simp; omega) (chunks.drop d.data)
          (fun x hx => hc x (List.mem_of_mem_drop hx)) j hkd rfl

/-- **C19, parity numbers.**  The remaining `p` numbers of set `j` are the parity shards of that set. -/
theorem C19_parity_number (rs : RsCodec) (v : Version) (d : Dpb) (hd : 0 < d.data)
    (henc : ∀ shards : List (List Byte), shards.length = d.data → (∀ s ∈ shards, s.length = blockLen v - 16) →
      (rs.encode d.data d.parity shards).length = d.parity)
    (chunks : List (List Byte)) (hc : ∀ ch ∈ chunks, ch.length ≤ blockLen v - 16) (j i : Nat)
    (hj : j * d.data < chunks.length) (hi : i < d.parity) :
    (payloads rs v (some d) chunks)[j * (d.data + d.parity) + d.data + i]? =
      (rs.encode d.data d.parity (dataShards (blockLen v - 16) d.data ((chunks.drop (j * d.data)).take d.data)))[i]? := by
  induction j generalizing chunks with
  | zero =>
    have hne : chunks ≠ [] := by rintro rfl; simp at hj
    have h1 : (dataShards (blockLen v - 16) d.data (chunks.take d.data)).length = d.data := by simp [dataShards]
    simp only [payloads, Nat.zero_mul, Nat.zero_add, List.drop_zero]
    rw [chunksOf_cons (by omega) hne, List.flatMap_cons, List.append_assoc,
      List.getElem?_append_right (by rw [h1]; omega), h1, Nat.add_sub_cancel_left, List.getElem?_append_left]
    rw [henc _ h1]
    · exact hi
    · intro x hx
      simp only [dataShards, List.mem_append, List.mem_map, List.mem_replicate] at hx
      rcases hx with ⟨y, hy, rfl⟩ | ⟨-, rfl⟩
      · have := hc y (List.mem_of_mem_take hy); simp [pad]; omega
      · simp [pad]
  | succ j ih =>
    have hne : chunks ≠ [] := by rintro rfl; simp at hj
    have h1 : (dataShards (blockLen v - 16) d.data (chunks.take d.data)).length = d.data := by simp [dataShards]
    have h2 : (rs.encode d.data d.parity (dataShards (blockLen v - 16) d.data (chunks.take d.data))).length = d.parity := by
      apply henc _ h1
      intro x hx
      simp only [dataShards, List.mem_append, List.mem_map, List.mem_replicate] at hx
      rcases hx with ⟨y, hy, rfl⟩ | ⟨-, rfl⟩
      · have := hc y (List.mem_of_mem_take hy); simp [pad]; omega
      · simp [pad]
    have hih := ih (chunks.drop d.data) (fun x hx => hc x (List.mem_of_mem_drop hx))
      (by rw [List.length_drop]; rw [Nat.succ_mul] at hj; omega)
    rw [List.drop_drop, show d.data + j * d.data = (j + 1) * d.data by ring] at hih
    rw [← hih]
    simp only [payloads]
    rw [chunksOf_cons (by omega) hne, List.flatMap_cons, List.getElem?_append_right (by
      rw [List.length_append, h1, h2, Nat.succ_mul]; omega), List.length_append, h1, h2]
    congr 1
    rw [Nat.succ_mul]; omega

/-! ## Instances -/

/-- A toy code with 2 parity shards (not Reed-Solomon; only the number and the size of shards matters for numbering). -/
def toyRs : RsCodec where
  encode _ p shards := List.replicate p (shards.getD 0 [])
  reconstruct _ _ _ := none

def toyCfg : LotCfg :=
  { version := .v17, uid := ⟨[1, 2, 3, 4, 5, 6], rfl⟩, inputData := true, outputType := .block,
    dpb := some ⟨3, 2, 4⟩, metaEnabled := true, skipGood := false, defaultLotSize := 100 }

/-- Two buffers of two lots of 3+2 blocks; seven chunks, two cancellations, one rotation. -/
def toyOps : List BufOp :=
  [.take [1], .take [9], .cancel, .take [2], .take [3], .take [4], .take [5], .take [6], .take [7], .cancel, .take [8]]

example : ∃ out, Session.run toyRs toyCfg 2 2 toyOps = some out ∧ out.length = 15 ∧
    (out.map (·.data))[12]? = some (blockBytes .v17 [1, 2, 3, 4, 5, 6] 13 (List.replicate 496 0x1A)) := by
  have hk : kept (2 * toyCfg.direct) toyOps = some ([[1], [2], [3], [4], [5], [6], [8]], 6) := by decide
  have hpl : (payloads toyRs .v17 (some ⟨3, 2, 4⟩) [[1], [2], [3], [4], [5], [6], [8]]).length = 15 := by decide +kernel
  obtain ⟨out, h1, h2⟩ := C19_contiguous toyRs toyCfg
    (by
      intro d hd shards h1 h2
      simp only [toyCfg, Option.some.injEq] at hd
      subst hd
      refine ⟨by simp [toyRs], ?_⟩
      intro s hs
      simp only [toyRs, List.mem_replicate] at hs
      rw [hs.2]
      match shards, h1 with
      | [a, b, c], _ => exact h2 a (by simp)) rfl (by decide) 2 2 (by decide) (by decide) (by decide) (by decide) toyOps
    (by
      intro ch hch
      simp only [toyOps, List.mem_cons, BufOp.take.injEq, reduceCtorEq, false_or, List.not_mem_nil, or_false] at hch
      rcases hch with rfl | rfl | rfl | rfl | rfl | rfl | rfl | rfl | rfl <;> decide)
    _ _ hk (by rw [show toyCfg.version = .v17 from rfl, show toyCfg.dpb = some ⟨3, 2, 4⟩ from rfl, hpl]; decide)
  refine ⟨out, h1, ?_, ?_⟩
  · have := congrArg List.length h2
    rw [List.length_mapIdx, List.length_map] at this
    rw [this]; exact hpl
  · rw [h2, List.getElem?_mapIdx]
    have h3 : (payloads toyRs .v17 (some ⟨3, 2, 4⟩) [[1], [2], [3], [4], [5], [6], [8]])[12]? =
        some (List.replicate 496 0x1A) := by decide +kernel
    rw [show toyCfg.version = .v17 from rfl, show toyCfg.dpb = some ⟨3, 2, 4⟩ from rfl, h3]
    rfl

end Verif
