import Verif.Lemmas.BufferRotate
import Verif.Spec.Container
/-!
# Lemmas about the reader thread of the encoder
-/

namespace Verif.Encode
open Format ContainerSpec LayoutSpec

/-- What the reader does when buffers never run out: the chunks it keeps and its final state. -/
def plan (p : Param) (stop : Nat → Bool) (required : Option Nat) (lastSeq : Nat) : Nat → RdSt → Option (List (List Byte) × RdSt)
  | 0, _ => none
  | n + 1, st =>
    match readAct p stop required lastSeq st with
    | none => none
    | some (st', .halt) => some ([], st')
    | some (st', .undo _) => some ([], st')
    | some (st', .last chunk) => some ([chunk], st')
    | some (st', .keep chunk) => (plan p stop required lastSeq n st').map fun r => (chunk :: r.1, r.2)

/-- What is known about one iteration without knowing the state. -/
def ActOk (p : Param) (st st' : RdSt) : RdAct → Prop
  | .halt => st'.run = false
  | .undo c => st'.run = false ∧ c.length ≤ p.version.dataSize
  | .last c => st'.run = false ∧ c ≠ [] ∧ c.length ≤ p.version.dataSize
  | .keep c => st'.run = st.run ∧ c ≠ [] ∧ c.length ≤ p.version.dataSize

/-- The loop over one buffer follows the plan. -/
theorem fillLoop_spec {p : Param} {stop : Nat → Bool} {required : Option Nat} {lastSeq : Nat} {L N k : Nat} {bs : List Buffer}
    (hp : p.cfg.Pos) (hchunk : ∀ st st' act, readAct p stop required lastSeq st = some (st', act) →
      ActOk p st st' act) :
    ∀ (fuel : Nat) (st : RdSt) (b : Buffer) (n : Nat) (cs : List (List Byte)) (stF : RdSt),
      Front p.cfg L N k b bs → L * p.cfg.direct < fuel + b.used.length → st.run = true →
      plan p stop required lastSeq n st = some (cs, stF) →
      ∃ st' b' cs1 cs2, fillLoop p stop required lastSeq fuel st b = some (st', b') ∧ Front p.cfg L N k b' bs ∧
        cs = cs1 ++ cs2 ∧
        (b'.used.map Slot.item).map Item.chunk = (b.used.map Slot.item).map Item.chunk ++ cs1 ∧
        ((st' = stF ∧ cs2 = [] ∧ stF.run = false) ∨
         (b'.isFull = true ∧ st'.run = true ∧ ∃ n', n = n' + cs1.length ∧ plan p stop required lastSeq n' st' = some (cs2, stF))) := by
  intro fuel
  induction fuel with
  | zero =>
    intro st b n cs stF hF hfu hr hpl
    have := (Buffer.used_length_le hF.ok).1
    rw [hF.lots] at this
    omega
  | succ fuel ih =>
    intro st b n cs stF hF hfu hr hpl
    unfold fillLoop
    by_cases hfull : b.isFull = true
    · rw [if_pos hfull]
      exact ⟨st, b, [], cs, rfl, hF, rfl, by simp, .inr ⟨hfull, hr, n, by simp, hpl⟩⟩
    · rw [if_neg hfull]
      have hfull' : b.isFull = false := by simpa using hfull
      cases n with
      | zero => simp [plan] at hpl
      | succ n =>
        unfold plan at hpl
        cases hact : readAct p stop required lastSeq st with
        | none => rw [hact] at hpl; simp at hpl
        | some r =>
          obtain ⟨st', act⟩ := r
          rw [hact] at hpl
          have hc := hchunk st st' act hact
          unfold ActOk at hc
          cases act with
          | halt =>
            simp only [Option.some.injEq, Prod.mk.injEq] at hpl hc ⊢
            obtain ⟨rfl, rfl⟩ := hpl
            exact ⟨st', b, [], [], ⟨rfl, rfl⟩, hF, rfl, by simp, .inl ⟨rfl, rfl, hc⟩⟩
          | undo chunk =>
            simp only [Option.some.injEq, Prod.mk.injEq] at hpl hc
            obtain ⟨rfl, rfl⟩ := hpl
            obtain ⟨s, hs, hfl⟩ := Buffer.fill_spec hp hF.ok hfull'
            obtain ⟨b1, e1, ok1, hu1, hst1, hin1, hlo1⟩ := hfl (Slot.load p.cfg chunk)
            have hlen : (s.load p.cfg chunk).data.length = p.cfg.version.blockSize := by
              have hbs := p.cfg.version.blockSize_eq
              have : p.cfg.version.dataSize = p.version.dataSize := rfl
              simp only [Slot.load, List.length_append, List.length_take, List.length_drop, hs.len]; omega
            obtain ⟨b2, e2, ok2, hu2, hst2, hin2, hlo2⟩ := Buffer.cancel_spec ok1 hu1 hlen
            refine ⟨st', b2, [], [], by simp [e1, e2], ⟨ok2, by rw [hu2]; exact hF.filled, by rw [hlo2, hlo1, hF.lots],
              by rw [hin2, hin1, hF.incre], by rw [hst2, hst1, hF.start], hF.len, hF.rest⟩, rfl, by rw [hu2]; simp,
              .inl ⟨rfl, rfl, hc.1⟩⟩
          | last chunk =>
            simp only [Option.some.injEq, Prod.mk.injEq] at hpl hc
            obtain ⟨rfl, rfl⟩ := hpl
            obtain ⟨b', s, e, hF', hu, hsf, hsc⟩ := hF.fill hp hfull' hc.2.1 hc.2.2
            refine ⟨st', b', [chunk], [], by simp [e], hF', rfl, by rw [hu]; simp [hsc], .inl ⟨rfl, rfl, hc.1⟩⟩
          | keep chunk =>
            simp only [Option.map_eq_some_iff, Prod.mk.injEq] at hpl hc
            obtain ⟨⟨cs', stF'⟩, hpl', rfl, rfl⟩ := hpl
            obtain ⟨b', s, e, hF', hu, hsf, hsc⟩ := hF.fill hp hfull' hc.2.1 hc.2.2
            have hfu' : L * p.cfg.direct < fuel + b'.used.length := by rw [hu]; simp; omega
            obtain ⟨st2, b2, cs1, cs2, e2, hF2, hcs, hch, hor⟩ := ih st' b' n cs' stF' hF' hfu' (by rw [hc.1, hr]) hpl'
            refine ⟨st2, b2, chunk :: cs1, cs2, by simp only [e]; exact e2, hF2, by rw [hcs]; rfl, ?_, ?_⟩
            · rw [hch, hu]; simp [hsc]
            · rcases hor with h | ⟨h1, h2, n', h3, h4⟩
              · exact .inl h
              · exact .inr ⟨h1, h2, n', by simp; omega, h4⟩

/-- Shard counts, with `(1, 0)` for no Reed-Solomon. -/
def shards (p : Param) : Nat × Nat := match p.dpb with | none => (1, 0) | some d => (d.data, d.parity)

/-- Settings `encode_file` is called with: a shard setting exactly for the Reed-Solomon versions, at least one data shard and
at most 256 shards. -/
structure Param.Ok (p : Param) : Prop where
  consistent : verConsistent p.version p.dpb = true
  shards : ∀ d, p.dpb = some d → 1 ≤ d.data ∧ 1 ≤ d.parity ∧ d.data + d.parity ≤ 256

/-- Number of chunks for which there are sequence numbers. -/
def maxChunks (p : Param) : Nat := lastSeqNum / ((shards p).1 + (shards p).2) * (shards p).1

/-- Sequence number of the last block of the first `k` chunks, including parity blocks of complete sets. -/
def seqAfter (p : Param) (k : Nat) : Nat := k / (shards p).1 * ((shards p).1 + (shards p).2) + k % (shards p).1

/-- The chunks the reader wants when it has read `k`. -/
def wanted (p : Param) (required : Option Nat) (k : Nat) (rest : List Byte) : List (List Byte) :=
  match required with
  | none => chunksOf p.version.dataSize rest
  | some r => (chunksOf p.version.dataSize rest).take (ceilDiv r p.version.dataSize - k)

theorem Param.Ok.shards_pos {p : Param} (h : p.Ok) : 1 ≤ (Encode.shards p).1 ∧ (Encode.shards p).1 + (Encode.shards p).2 ≤ 256 := by
  unfold Encode.shards
  cases hd : p.dpb with
  | none => simp
  | some d => obtain ⟨h1, h2, h3⟩ := h.shards d hd; simp only; omega

theorem Param.Ok.lastSeq {p : Param} (h : p.Ok) : lastDataSeqNumExcParity p.version p.dpb =
    some (lastSeqNum / ((Encode.shards p).1 + (Encode.shards p).2) * ((Encode.shards p).1 + (Encode.shards p).2) - (Encode.shards p).2) := by
  have hc := h.consistent
  unfold Encode.shards
  cases hd : p.dpb with
  | none =>
    have hu : p.version.usesRs = false := by simpa [verConsistent, hd] using hc
    simp [lastDataSeqNumExcParity, hu]
  | some d =>
    have hu : p.version.usesRs = true := by simpa [verConsistent, hd] using hc
    obtain ⟨h1, h2, h3⟩ := h.shards d hd
    simp [lastDataSeqNumExcParity, maxBlockSetCount, hu]
    omega

theorem ceilDiv_le_iff {r ds k : Nat} (hds : 0 < ds) : ceilDiv r ds ≤ k ↔ r ≤ k * ds := by
  unfold ceilDiv
  have h := Nat.div_add_mod r ds
  have hm := Nat.mod_lt r hds
  split
  · rename_i h0
    constructor
    · intro hk
      have := Nat.mul_le_mul_left ds hk
      rw [Nat.mul_comm k]; omega
    · intro hk
      rw [← Nat.mul_div_cancel k hds]; exact Nat.div_le_div_right hk
  · rename_i h0
    constructor
    · intro hk
      have := Nat.mul_le_mul_left ds hk
      rw [Nat.mul_add, Nat.mul_one] at this
      rw [Nat.mul_comm k]; omega
    · intro hk
      by_contra hlt
      have : k ≤ r / ds := by omega
      have := Nat.mul_le_mul_left ds this
      rw [Nat.mul_comm k] at hk
      omega

/-- State of the reader after `k` chunks. -/
structure AtChunk (p : Param) (k : Nat) (st : RdSt) : Prop where
  le : k ≤ maxChunks p
  processed : st.processed = k * p.version.dataSize
  seq : st.seq = seqAfter p k
  lastSeen : st.lastSeen = decide (k = maxChunks p)
  run : st.run = true
  overflow : st.overflow = false

theorem seqAfter_arith {d q k m : Nat} (hd : 1 ≤ d) (hm : (m + 1) * (d + q) ≤ lastSeqNum) (hk : k < (m + 1) * d) :
    k / d * (d + q) + k % d ≠ lastSeqNum ∧
    ((k / d * (d + q) + k % d + 1) - 1) % (d + q) = k % d ∧
    (k % d = d - 1 → k / d * (d + q) + k % d + 1 + q = (k + 1) / d * (d + q) + (k + 1) % d ∧
      k / d * (d + q) + k % d + 1 + q ≤ lastSeqNum) ∧
    (k % d ≠ d - 1 → k / d * (d + q) + k % d + 1 = (k + 1) / d * (d + q) + (k + 1) % d) ∧
    (k / d * (d + q) + k % d + 1 = (m + 1) * (d + q) - q ↔ k + 1 = (m + 1) * d) := by
  have hmod : k % d < d := Nat.mod_lt _ hd
  have hdiv : k / d < m + 1 := (Nat.div_lt_iff_lt_mul hd).2 hk
  have hdec := Nat.div_add_mod k d
  have hle : k / d * (d + q) ≤ m * (d + q) := Nat.mul_le_mul_right _ (by omega)
  have hm' : (m + 1) * (d + q) = m * (d + q) + (d + q) := Nat.succ_mul _ _
  have e1 : k % d = d - 1 → (k + 1) / d = k / d + 1 ∧ (k + 1) % d = 0 := by
    intro h
    have : k + 1 = d * (k / d + 1) := by rw [Nat.mul_add, Nat.mul_one]; omega
    constructor
    · rw [this, Nat.mul_div_cancel_left _ hd]
    · rw [this, Nat.mul_mod_right]
  have e2 : k % d ≠ d - 1 → (k + 1) / d = k / d ∧ (k + 1) % d = k % d + 1 := by
    intro h
    have : k + 1 = d * (k / d) + (k % d + 1) := by omega
    constructor
    · rw [this, Nat.mul_add_div hd, Nat.div_eq_of_lt (show k % d + 1 < d by omega), Nat.add_zero]
    · rw [this, Nat.mul_add_mod, Nat.mod_eq_of_lt (by omega)]
  refine ⟨?_, ?_, ?_, ?_, ?_⟩
  · omega
  · rw [Nat.add_sub_cancel, Nat.mul_comm, Nat.mul_add_mod, Nat.mod_eq_of_lt (by omega)]
  · intro h
    obtain ⟨a, b⟩ := e1 h
    rw [a, b, Nat.succ_mul]
    constructor <;> omega
  · intro h
    obtain ⟨a, b⟩ := e2 h
    rw [a, b]; omega
  · constructor
    · intro h
      have : k / d = m := by
        by_contra hne
        have : (k / d + 1) * (d + q) ≤ m * (d + q) := Nat.mul_le_mul_right _ (by omega)
        rw [Nat.succ_mul] at this
        omega
      rw [this] at h hdec
      rw [Nat.succ_mul, Nat.mul_comm m d]
      omega
    · intro h
      have hkm : k / d = m := by
        have : k = m * d + (d - 1) := by rw [Nat.succ_mul] at h; omega
        rw [this, Nat.mul_comm, Nat.mul_add_div hd, Nat.div_eq_of_lt (by omega), Nat.add_zero]
      rw [hkm] at hdec ⊢
      rw [Nat.succ_mul, Nat.mul_comm m d] at h
      omega

/-- One iteration of the reader. -/
theorem readAct_spec {p : Param} (hok : p.Ok) {stop : Nat → Bool} {required : Option Nat} {lastSeq : Nat}
    (hls : lastDataSeqNumExcParity p.version p.dpb = some lastSeq) {k : Nat} {st : RdSt} (h : AtChunk p k st) :
    ∃ st' act, readAct p stop required lastSeq st = some (st', act) ∧
      match act with
      | .halt => st'.overflow = false ∧ st'.hashed = st.hashed ∧ (wanted p required k st.rest = [] ∨ ∃ n, stop n = true)
      | .undo _ => st'.hashed = st.hashed ∧ (st'.overflow = false ∧ wanted p required k st.rest = [] ∨
          st'.overflow = true ∧ k = maxChunks p ∧ wanted p required k st.rest ≠ [])
      | .last c => k < maxChunks p ∧ wanted p required k st.rest = [c] ∧ st'.overflow = false ∧
          st'.hashed = (if p.metaEnabled then st.hashed ++ c else st.hashed)
      | .keep c => k < maxChunks p ∧ AtChunk p (k + 1) st' ∧
          wanted p required k st.rest = c :: wanted p required (k + 1) st'.rest ∧
          st'.hashed = (if p.metaEnabled then st.hashed ++ c else st.hashed) ∧
          st'.rest.length < st.rest.length := by
  have hds : 0 < p.version.dataSize := p.version.dataSize_pos
  rw [hok.lastSeq, Option.some.injEq] at hls
  have hreq : ∀ r, required = some r → (r ≤ st.processed ↔ ceilDiv r p.version.dataSize ≤ k) := by
    intro r _; rw [h.processed, ceilDiv_le_iff hds]
  unfold readAct
  simp only
  by_cases hst : stop st.checks = true
  · rw [if_pos hst]
    exact ⟨_, _, rfl, h.overflow, rfl, .inr ⟨_, hst⟩⟩
  rw [if_neg hst]
  by_cases hrq : reached required st.processed = true
  · rw [if_pos hrq]
    refine ⟨_, _, rfl, h.overflow, rfl, .inl ?_⟩
    cases hr : required with
    | none => rw [hr] at hrq; simp [reached] at hrq
    | some r =>
      rw [hr] at hrq
      simp only [reached, decide_eq_true_eq] at hrq
      rw [hreq r hr] at hrq
      simp [wanted, Nat.sub_eq_zero_of_le hrq]
  rw [if_neg hrq]
  -- the chunk is wanted if there is one
  have hw : st.rest ≠ [] → wanted p required k st.rest =
      st.rest.take p.version.dataSize :: wanted p required (k + 1) (st.rest.drop p.version.dataSize) := by
    intro hne
    cases hr : required with
    | none => simp only [wanted]; rw [chunksOf_cons (by omega) hne]
    | some r =>
      rw [hr] at hrq
      simp only [reached, decide_eq_true_eq] at hrq
      rw [hreq r hr] at hrq
      simp only [wanted]
      rw [chunksOf_cons (by omega) hne]
      obtain ⟨m, hm⟩ : ∃ m, ceilDiv r p.version.dataSize - k = m + 1 := ⟨ceilDiv r p.version.dataSize - k - 1, by omega⟩
      rw [hm, List.take_succ_cons, show ceilDiv r p.version.dataSize - (k + 1) = m by omega]
  by_cases hc0 : st.rest.take p.version.dataSize = []
  · rw [if_pos hc0]
    have hr0 : st.rest = [] := by
      rcases List.take_eq_nil_iff.1 hc0 with h | h
      · omega
      · exact h
    refine ⟨_, _, rfl, rfl, .inl ⟨h.overflow, ?_⟩⟩
    rw [hr0]
    unfold wanted
    split <;> simp [chunksOf_nil]
  rw [if_neg hc0]
  have hne : st.rest ≠ [] := by rintro he; rw [he] at hc0; simp at hc0
  have hpos := List.length_pos_iff.2 hne
  obtain ⟨hd1, hd2⟩ := hok.shards_pos
  -- there is at least one complete set
  obtain ⟨m, hm⟩ : ∃ m, lastSeqNum / ((shards p).1 + (shards p).2) = m + 1 := by
    have : 1 ≤ lastSeqNum / ((shards p).1 + (shards p).2) := by
      rw [Nat.le_div_iff_mul_le (by omega)]; unfold lastSeqNum; omega
    exact ⟨lastSeqNum / ((shards p).1 + (shards p).2) - 1, by omega⟩
  have hmle : (m + 1) * ((shards p).1 + (shards p).2) ≤ lastSeqNum := by rw [← hm]; exact Nat.div_mul_le_self _ _
  have hmc : maxChunks p = (m + 1) * (shards p).1 := by unfold maxChunks; rw [hm]
  rw [hm] at hls
  by_cases hlast : k = maxChunks p
  · rw [if_pos (Or.inl (by rw [h.lastSeen]; simp [hlast]))]
    refine ⟨_, _, rfl, rfl, .inr ⟨rfl, hlast, ?_⟩⟩
    rw [hw hne]; simp
  have hk : k < maxChunks p := by have := h.le; omega
  have hls' : st.lastSeen = false := by rw [h.lastSeen]; simp [hlast]
  obtain ⟨a1, a2, a3, a4, a5⟩ := seqAfter_arith hd1 hmle (by rw [← hmc]; exact hk)
  rw [if_neg (by rw [hls', h.seq]; unfold seqAfter; simpa using a1)]
  by_cases hshort : (st.rest.take p.version.dataSize).length < p.version.dataSize
  · rw [if_pos hshort]
    refine ⟨_, _, rfl, hk, ?_, h.overflow, rfl⟩
    rw [hw hne]
    congr 1
    have : st.rest.drop p.version.dataSize = [] := by
      rw [List.length_take] at hshort
      exact List.drop_eq_nil_of_le (by omega)
    rw [this]
    unfold wanted
    split <;> simp [chunksOf_nil]
  rw [if_neg hshort]
  have hlen : (st.rest.take p.version.dataSize).length = p.version.dataSize := by
    have : (st.rest.take p.version.dataSize).length ≤ p.version.dataSize := by simp
    omega
  have hskip : skipParity p.dpb (st.seq + 1) = some (seqAfter p (k + 1)) := by
    rw [h.seq]
    unfold skipParity
    cases hd : p.dpb with
    | none =>
      have hs : shards p = (1, 0) := by simp [shards, hd]
      simp [seqAfter, hs, Nat.mod_one]
    | some d =>
      have hs : shards p = (d.data, d.parity) := by simp [shards, hd]
      unfold seqAfter
      rw [hs] at a2 a3 a4 ⊢
      simp only at a2 a3 a4 ⊢
      rw [a2]
      by_cases hmod : k % d.data = d.data - 1
      · rw [if_pos hmod, if_neg (by have := (a3 hmod).2; omega), (a3 hmod).1]
      · rw [if_neg hmod, a4 hmod]
  rw [hskip]
  refine ⟨_, _, rfl, hk, ⟨hk, ?_, rfl, ?_, h.run, h.overflow⟩, hw hne, rfl, ?_⟩
  · simp only [hlen, h.processed, Nat.succ_mul]
  · simp only [hls', Bool.false_or]
    rw [hmc, h.seq, ← hls]
    congr 1
    unfold seqAfter
    exact propext a5
  · simp only [List.length_drop]; omega

/-- What the reader keeps: a prefix of the wanted chunks; all of them if it is not stopped and sequence numbers suffice. -/
theorem plan_spec {p : Param} (hok : p.Ok) {stop : Nat → Bool} {required : Option Nat} {lastSeq : Nat}
    (hls : lastDataSeqNumExcParity p.version p.dpb = some lastSeq) :
    ∀ (n k : Nat) (st : RdSt), AtChunk p k st → st.rest.length < n →
      ∃ cs stF, plan p stop required lastSeq n st = some (cs, stF) ∧
        (∃ j, cs = (wanted p required k st.rest).take j) ∧ k + cs.length ≤ maxChunks p ∧
        stF.hashed = (if p.metaEnabled then st.hashed ++ cs.flatten else st.hashed) ∧
        (stF.overflow = true → k + cs.length = maxChunks p ∧ cs.length < (wanted p required k st.rest).length) ∧
        ((∀ n, stop n = false) → stF.overflow = false → cs = wanted p required k st.rest) := by
  intro n
  induction n with
  | zero => intro k st h hl; omega
  | succ n ih =>
    intro k st h hl
    obtain ⟨st', act, e, hact⟩ := readAct_spec hok (stop := stop) (required := required) hls h
    unfold plan
    rw [e]
    cases act with
    | halt =>
      simp only at hact
      obtain ⟨h1, h2, h3⟩ := hact
      refine ⟨[], st', rfl, ⟨0, by simp⟩, by simpa using h.le, by simp [h2], by simp [h1], ?_⟩
      intro hns _
      rcases h3 with h3 | ⟨m, hm⟩
      · exact h3.symm
      · rw [hns m] at hm; simp at hm
    | undo c =>
      simp only at hact
      obtain ⟨h2, h3⟩ := hact
      refine ⟨[], st', rfl, ⟨0, by simp⟩, by simpa using h.le, by simp [h2], ?_, ?_⟩
      · intro ho
        rcases h3 with ⟨h3, -⟩ | ⟨-, h4, h5⟩
        · rw [h3] at ho; simp at ho
        · exact ⟨by simpa using h4, by simpa using List.length_pos_iff.2 h5⟩
      · intro _ ho
        rcases h3 with ⟨-, h3⟩ | ⟨h3, -⟩
        · exact h3.symm
        · rw [h3] at ho; simp at ho
    | last c =>
      simp only at hact
      obtain ⟨h1, h2, h3, h4⟩ := hact
      refine ⟨[c], st', rfl, ⟨1, by rw [h2]; rfl⟩, by simp; omega, by simp [h4], by simp [h3], by simp [h2]⟩
    | keep c =>
      simp only at hact
      obtain ⟨h1, h2, h3, h4, h5⟩ := hact
      obtain ⟨cs, stF, i1, ⟨j, i2⟩, i3, i4, i5, i6⟩ := ih (k + 1) st' h2 (by omega)
      refine ⟨c :: cs, stF, by simp [i1], ⟨j + 1, by rw [h3, List.take_succ_cons, ← i2]⟩, by simp; omega, ?_, ?_, ?_⟩
      · rw [i4, h4]
        cases p.metaEnabled <;> simp
      · intro ho
        obtain ⟨a, b⟩ := i5 ho
        rw [h3]; simp; omega
      · intro hns ho
        rw [h3, ← i6 hns ho]

/-- The side condition of `fillLoop_spec`. -/
theorem readAct_chunk {p : Param} {stop : Nat → Bool} {required : Option Nat} {lastSeq : Nat} (st st' : RdSt) (act : RdAct)
    (h : readAct p stop required lastSeq st = some (st', act)) :
    ActOk p st st' act := by
  unfold ActOk
  unfold readAct at h
  simp only at h
  split at h
  · simp only [Option.some.injEq, Prod.mk.injEq] at h; obtain ⟨rfl, rfl⟩ := h; rfl
  split at h
  · simp only [Option.some.injEq, Prod.mk.injEq] at h; obtain ⟨rfl, rfl⟩ := h; rfl
  split at h
  · simp only [Option.some.injEq, Prod.mk.injEq] at h; obtain ⟨rfl, rfl⟩ := h; simp
  split at h
  · simp only [Option.some.injEq, Prod.mk.injEq] at h; obtain ⟨rfl, rfl⟩ := h; simp
  split at h
  · rename_i hne _ _
    simp only [Option.some.injEq, Prod.mk.injEq] at h; obtain ⟨rfl, rfl⟩ := h; simpa using hne
  split at h
  · simp at h
  · rename_i hne _ _ _ _ _
    simp only [Option.some.injEq, Prod.mk.injEq] at h; obtain ⟨rfl, rfl⟩ := h; simpa using hne

end Verif.Encode
