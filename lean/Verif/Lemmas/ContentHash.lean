import Verif.Lemmas.Expect
import Verif.Spec.Stored
/-!
# What the container hash hashes
-/

namespace Verif.ContentHash
open Format Scan ScanSpec Decode BlockRing Layout LayoutSpec DecodeSpec RepairSpec Expect

/-- The bytes hashed from number `s` on, with `n` more numbers available and `rest` bytes to go; `none`: a block is missing. -/
def content (ref : Block) (dpb : Option Dpb) (f : File) : Nat → Nat → Nat → Option (List Byte)
  | 0, _, _ => some []
  | n + 1, s, rest =>
    if isParityDpb s dpb then content ref dpb f n (s + 1) rest
    else
      match atPlace ref f (dataWriteIndex s none dpb) s with
      | none => none
      | some p =>
        if rest ≤ ref.header.version.dataSize then some (p.take rest)
        else (content ref dpb f n (s + 1) (rest - ref.header.version.dataSize)).map (p ++ ·)

theorem cfg_pos (ref : Block) (dpb : Option Dpb) : (cfg ref dpb).Pos := by
  unfold LotCfg.Pos LotCfg.direct cfg; simp

/-- A kept slot. -/
theorem hashed_loaded {ref : Block} {dpb : Option Dpb} {s : Nat} {p : List Byte} (h0 : 1 ≤ s) (h1 : s < 2 ^ 32)
    (hp : isParityDpb s dpb = false) {sl : Slot} (hf : sl.Fresh (cfg ref dpb)) (len : Option Nat)
    (hl : ∀ n, len = some n → 0 < n ∧ n ≤ ref.header.version.dataSize) :
    Lot.hashPart (cfg ref dpb) { loaded ref.header.version ref.header.uid (s, p) sl with contentLen := len } =
      some (match len with | none => p | some n => p.take n) := by
  have e : (blockOf ref.header.version ref.header.uid (UInt32.ofNat s) p).header.seq.toNat = s := ofNat_toNat32 h1
  have ht : (blockOf ref.header.version ref.header.uid (UInt32.ofNat s) p).blockType = .data := by
    rw [blockOf_type, if_neg]
    intro h
    rw [h] at e
    have : (blockOf ref.header.version ref.header.uid 0 p).header.seq.toNat = 0 := rfl
    omega
  unfold Lot.hashPart
  simp only [loaded, e, ht, hf.isPadding, cfg, hp, Lot.payloadOf, blockBytes_drop]
  cases len with
  | none => simp
  | some n =>
    have := hl n rfl
    simp [this]

theorem hash_runs (stop : Nat → Bool) (hstop : ∀ i, stop i = false) (f : File) (ref : Block) (dpb : Option Dpb) (total : Nat) :
    ∀ (n s processed checks : Nat), 1 ≤ s → s + n = lastSeqNum + 1 → 1 ≤ n → processed < total →
      ∃ fs rF, Runs (cfg ref dpb) (act stop f ref dpb total) n ⟨s, processed, checks, false⟩ fs rF ∧
        (content ref dpb f n s (total - processed) = none → rF.failed = true) ∧
        (∀ bytes, content ref dpb f n s (total - processed) = some bytes → rF.failed = false ∧
          ∀ ss, Kept (cfg ref dpb) fs ss → ss.flatMap (hashed (cfg ref dpb)) = bytes) ∧
        ∀ g ∈ fs, ∀ sl : Slot, sl.Fresh (cfg ref dpb) → Lot.hashPart (cfg ref dpb) (g sl) ≠ none := by
  intro n
  induction n with
  | zero => intros; omega
  | succ n ih =>
    intro s processed checks hs hsn _ hpr
    have hs32 : s < 2 ^ 32 := by unfold lastSeqNum at hsn; omega
    have hact : act stop f ref dpb total ⟨s, processed, checks, false⟩ = .slot (slotStep f ref dpb total ⟨s, processed, checks, false⟩) := by
      unfold act; rw [hstop]; rfl
    have hver : (cfg ref dpb).version = ref.header.version := rfl
    have hcfglen : ref.header.version.blockSize = (cfg ref dpb).version.blockSize := rfl
    set k := dataWriteIndex s none dpb with hk
    have hpos : dataWritePos ref.header.version s none dpb = k * ref.header.version.blockSize := rfl
    have hexp_len : ∀ sl : Slot, sl.Fresh (cfg ref dpb) →
        (expect f (k * ref.header.version.blockSize) ref s sl).1.data.length = (cfg ref dpb).version.blockSize := by
      intro sl hf
      cases hat : atPlace ref f k s with
      | none => exact (expect_none hat hver hf).2.1
      | some p =>
        rw [expect_some hat hver hf]
        have h1 := isBlock_length (atPlace_some.1 hat).2
        rw [(atPlace_some.1 hat).2.bytes] at h1
        simp only [loaded]
        rw [h1, blockLen_eq]; rfl
    -- what comes after this number
    by_cases hpar : isParityDpb s dpb = true
    · have hcont : content ref dpb f (n + 1) s (total - processed) = content ref dpb f n (s + 1) (total - processed) := by
        rw [content, if_pos hpar]
      rw [hcont]
      by_cases hlast : s = lastSeqNum
      · have hn : n = 0 := by omega
        subst hn
        refine ⟨[], ⟨s, processed, checks + 1, false⟩, ?_, by simp [content], ?_, by simp⟩
        · have := Runs.stop (c := cfg ref dpb) (act := act stop f ref dpb total) (n := 0) (r := ⟨s, processed, checks, false⟩)
            (f := fun sl => (expect f (k * ref.header.version.blockSize) ref s sl).1) (cancel := true)
            (r' := ⟨s, processed, checks + 1, false⟩) hact (by
              intro sl hf
              refine ⟨?_, hexp_len sl hf⟩
              unfold slotStep advance
              simp only [hpar, if_true, hpos]
              rw [if_pos hlast])
          simpa using this
        · intro bytes hb
          simp only [content, Option.some.injEq] at hb
          refine ⟨rfl, ?_⟩
          intro ss hss
          cases hss
          exact hb
      · obtain ⟨fs, rF, h1, h2, h3, h4⟩ := ih (s + 1) processed (checks + 1) (by omega) (by omega) (by omega) hpr
        refine ⟨fs, rF, ?_, h2, h3, h4⟩
        refine Runs.skip (f := fun sl => (expect f (k * ref.header.version.blockSize) ref s sl).1) hact ?_ h1
        intro sl hf
        refine ⟨?_, hexp_len sl hf⟩
        unfold slotStep advance
        simp only [hpar, if_true, hpos]
        rw [if_neg hlast]
    · simp only [Bool.not_eq_true] at hpar
      cases hat : atPlace ref f k s with
      | none =>
        have hcont : content ref dpb f (n + 1) s (total - processed) = none := by
          rw [content, if_neg (by simp [hpar]), ← hk, hat]
        refine ⟨[fun sl => (expect f (k * ref.header.version.blockSize) ref s sl).1], ⟨s, processed, checks + 1, true⟩, ?_, fun _ => rfl,
          fun b hb => by rw [hcont] at hb; simp at hb, ?_⟩
        · have := Runs.stop (c := cfg ref dpb) (act := act stop f ref dpb total) (n := n) (r := ⟨s, processed, checks, false⟩)
            (f := fun sl => (expect f (k * ref.header.version.blockSize) ref s sl).1) (cancel := false)
            (r' := ⟨s, processed, checks + 1, true⟩) hact (by
              intro sl hf
              refine ⟨?_, hexp_len sl hf⟩
              unfold slotStep
              simp only [hpar, Bool.false_eq_true, if_false, hpos]
              rw [(expect_none hat hver hf).1]
              simp)
          simpa using this
        · intro g hg sl hf
          rw [List.mem_singleton.1 hg]
          have := (expect_none hat hver hf).2.2.1
          unfold Lot.hashPart
          rw [this]
          split <;> simp
      | some p =>
        by_cases hrest : total - processed ≤ ref.header.version.dataSize
        · have hcont : content ref dpb f (n + 1) s (total - processed) = some (p.take (total - processed)) := by
            rw [content, if_neg (by simp [hpar]), ← hk, hat]
            simp only [if_pos hrest]
          refine ⟨[fun sl => { loaded ref.header.version ref.header.uid (s, p) sl with contentLen := some (total - processed) }],
            ⟨s, total, checks + 1, false⟩, ?_, fun h => by rw [hcont] at h; simp at h, ?_, ?_⟩
          · have := Runs.stop (c := cfg ref dpb) (act := act stop f ref dpb total) (n := n) (r := ⟨s, processed, checks, false⟩)
              (f := fun sl => { loaded ref.header.version ref.header.uid (s, p) sl with contentLen := some (total - processed) })
              (cancel := false) (r' := ⟨s, total, checks + 1, false⟩) hact (by
                intro sl hf
                refine ⟨?_, ?_⟩
                · unfold slotStep
                  simp only [hpar, Bool.false_eq_true, if_false, hpos]
                  rw [expect_some hat hver hf]
                  simp only [if_true]
                  rw [if_pos hrest]
                · have := hexp_len sl hf
                  rw [expect_some hat hver hf] at this
                  exact this)
            simpa using this
          · intro bytes hb
            rw [hcont] at hb
            simp only [Option.some.injEq] at hb
            refine ⟨rfl, ?_⟩
            intro ss hss
            cases hss with
            | cons h1 h2 =>
              cases h2
              obtain ⟨s0, hs0, rfl⟩ := h1
              simp only [List.flatMap_cons, List.flatMap_nil, List.append_nil, hashed]
              rw [hashed_loaded hs hs32 hpar hs0 (some (total - processed)) (by intro n hn; simp at hn; omega)]
              simpa using hb
          · intro g hg sl hf
            rw [List.mem_singleton.1 hg, hashed_loaded hs hs32 hpar hf (some (total - processed)) (by intro n hn; simp at hn; omega)]
            simp
        · have hcont : content ref dpb f (n + 1) s (total - processed) =
              (content ref dpb f n (s + 1) (total - (processed + ref.header.version.dataSize))).map (p ++ ·) := by
            rw [content, if_neg (by simp [hpar]), ← hk, hat]
            simp only [if_neg hrest]
            rw [Nat.sub_sub]
          have hkeep : ∀ sl : Slot, sl.Fresh (cfg ref dpb) → Lot.hashPart (cfg ref dpb) (loaded ref.header.version ref.header.uid (s, p) sl) = some p := by
            intro sl hf
            have := hashed_loaded (p := p) hs hs32 hpar hf none (by simp)
            have e : ({ loaded ref.header.version ref.header.uid (s, p) sl with contentLen := none } : Slot) =
                loaded ref.header.version ref.header.uid (s, p) sl := by
              simp [loaded, hf.contentLen]
            rw [e] at this
            exact this
          have hstep : ∀ sl : Slot, sl.Fresh (cfg ref dpb) → slotStep f ref dpb total ⟨s, processed, checks, false⟩ sl =
              advance ⟨s, processed + ref.header.version.dataSize, checks + 1, false⟩ (loaded ref.header.version ref.header.uid (s, p) sl) false ∧
              (loaded ref.header.version ref.header.uid (s, p) sl).data.length = (cfg ref dpb).version.blockSize := by
            intro sl hf
            refine ⟨?_, ?_⟩
            · unfold slotStep
              simp only [hpar, Bool.false_eq_true, if_false, hpos]
              rw [expect_some hat hver hf]
              simp only [if_true]
              rw [if_neg hrest]
            · have := hexp_len sl hf
              rw [expect_some hat hver hf] at this
              exact this
          rw [hcont]
          by_cases hlast : s = lastSeqNum
          · have hn : n = 0 := by omega
            subst hn
            refine ⟨[loaded ref.header.version ref.header.uid (s, p)], ⟨s, processed + ref.header.version.dataSize, checks + 1, false⟩, ?_,
              by simp [content], ?_, ?_⟩
            · have := Runs.stop (c := cfg ref dpb) (act := act stop f ref dpb total) (n := 0) (r := ⟨s, processed, checks, false⟩)
                (f := loaded ref.header.version ref.header.uid (s, p)) (cancel := false)
                (r' := ⟨s, processed + ref.header.version.dataSize, checks + 1, false⟩) hact (by
                  intro sl hf
                  refine ⟨?_, (hstep sl hf).2⟩
                  rw [(hstep sl hf).1]
                  unfold advance
                  rw [if_pos hlast])
              simpa using this
            · intro bytes hb
              simp only [content, Option.map_some, Option.some.injEq, List.append_nil] at hb
              refine ⟨rfl, ?_⟩
              intro ss hss
              cases hss with
              | cons h1 h2 =>
                cases h2
                obtain ⟨s0, hs0, rfl⟩ := h1
                simp only [List.flatMap_cons, List.flatMap_nil, List.append_nil, hashed, hkeep s0 hs0]
                exact hb
            · intro g hg sl hf
              rw [List.mem_singleton.1 hg, hkeep sl hf]
              simp
          · obtain ⟨fs, rF, h1, h2, h3, h4⟩ := ih (s + 1) (processed + ref.header.version.dataSize) (checks + 1) (by omega) (by omega)
              (by omega) (by omega)
            refine ⟨loaded ref.header.version ref.header.uid (s, p) :: fs, rF, ?_, ?_, ?_, ?_⟩
            · refine Runs.keep hact ?_ h1
              intro sl hf
              refine ⟨?_, (hstep sl hf).2⟩
              rw [(hstep sl hf).1]
              unfold advance
              rw [if_neg hlast]
            · intro hb; exact h2 (by simpa using hb)
            · intro bytes hb
              obtain ⟨b', hb', rfl⟩ := Option.map_eq_some_iff.1 hb
              obtain ⟨h5, h6⟩ := h3 b' hb'
              refine ⟨h5, ?_⟩
              intro ss hss
              cases hss with
              | cons h1 h2 =>
                obtain ⟨s0, hs0, rfl⟩ := h1
                rw [List.flatMap_cons, h6 _ h2]
                simp only [hashed, hkeep s0 hs0, Option.getD_some]
            · intro g hg sl hf
              rcases List.mem_cons.1 hg with rfl | hg
              · rw [hkeep sl hf]; simp
              · exact h4 g hg sl hf

/-- The container hash, for a size other than 0. -/
theorem hash_spec (H : HashFn) {lotCount : Nat} (hL : 0 < lotCount) {stop : Nat → Bool} (hstop : ∀ i, stop i = false) (t : HashType)
    (f : File) (ref : Block) (dpb : Option Dpb) {total : Nat} (ht : 0 < total) :
    hash H lotCount stop t f ref dpb total =
      match content ref dpb f lastSeqNum 1 total with
      | none => .error .other
      | some bytes => .ok (H.bytes t bytes) := by
  obtain ⟨fs, rF, h1, h2, h3, h4⟩ := hash_runs stop hstop f ref dpb total lastSeqNum 1 0 0 (by omega) (by omega)
    (by unfold lastSeqNum; omega) ht
  obtain ⟨ss, hk, e⟩ := run2_spec (cap := buffersInRotation + 1) (N := buffersInRotation) (fuel := 2 ^ 32 + 3) (cfg_pos ref dpb) hL
    (by unfold buffersInRotation; omega) (hasherReset_folds (cfg_pos ref dpb) lotCount) h1 h4 (by unfold lastSeqNum; omega) []
  unfold hash
  rw [e]
  simp only
  rw [Nat.sub_zero] at h2 h3
  cases hc : content ref dpb f lastSeqNum 1 total with
  | none => rw [h2 hc]; rfl
  | some bytes =>
    obtain ⟨h5, h6⟩ := h3 bytes hc
    rw [h5, foldl_append_flatMap, h6 ss hk]
    rfl

open StoredSpec

theorem chunkAt_iff {ref : Block} {dpb : Option Dpb} (hv : Valid dpb) {f : File} {j : Nat} {p : List Byte} :
    ChunkAt ref.header.version ref.header.uid dpb f j p ↔ atPlace ref f (dataWriteIndex (seqOf dpb j) none dpb) (seqOf dpb j) = some p := by
  rw [atPlace_some]
  constructor
  · rintro ⟨s, h1, h2, h3⟩
    rw [chunkOf_iff hv] at h2
    subst h2
    exact ⟨h1, h3⟩
  · rintro ⟨h1, h2⟩
    exact ⟨_, h1, (chunkOf_iff hv).2 rfl, h2⟩

theorem numbered_iff {dpb : Option Dpb} (hv : Valid dpb) {j : Nat} : Numbered dpb j ↔ seqOf dpb j < 2 ^ 32 := by
  constructor
  · rintro ⟨s, h1, h2⟩
    rw [chunkOf_iff hv] at h2
    subst h2; exact h1
  · intro h; exact ⟨_, h, (chunkOf_iff hv).2 rfl⟩

/-- Going on to the next chunk. -/
theorem content_skip {ref : Block} {dpb : Option Dpb} {f : File} {rest : Nat} : ∀ (m n s : Nat),
    (∀ s', s ≤ s' → s' < s + m → isParityDpb s' dpb = true) → content ref dpb f (n + m) s rest = content ref dpb f n (s + m) rest := by
  intro m
  induction m with
  | zero => intros; rfl
  | succ m ih =>
    intro n s h
    rw [show n + (m + 1) = (n + m) + 1 from rfl, content, if_pos (h s (by omega) (by omega)),
      ih n (s + 1) fun s' h1 h2 => h s' (by omega) (by omega)]
    rw [show s + 1 + m = s + (m + 1) by omega]

theorem content_next {ref : Block} {dpb : Option Dpb} (hv : Valid dpb) {f : File} {rest n j : Nat} (hn : seqOf dpb j + (n + 1) = 2 ^ 32) :
    content ref dpb f (n + 1) (seqOf dpb j) rest =
      match atPlace ref f (dataWriteIndex (seqOf dpb j) none dpb) (seqOf dpb j) with
      | none => none
      | some p =>
        if rest ≤ ref.header.version.dataSize then some (p.take rest)
        else if seqOf dpb (j + 1) < 2 ^ 32 then
          (content ref dpb f (2 ^ 32 - seqOf dpb (j + 1)) (seqOf dpb (j + 1)) (rest - ref.header.version.dataSize)).map (p ++ ·)
        else some p := by
  rw [content, if_neg (by simp [seqOf_not_parity hv])]
  cases atPlace ref f (dataWriteIndex (seqOf dpb j) none dpb) (seqOf dpb j) with
  | none => rfl
  | some p =>
    simp only
    split
    · rfl
    · have hs := seqOf_succ hv j
      split
      · have := content_skip (ref := ref) (dpb := dpb) (f := f) (rest := rest - ref.header.version.dataSize)
          (seqOf dpb (j + 1) - (seqOf dpb j + 1)) (2 ^ 32 - seqOf dpb (j + 1)) (seqOf dpb j + 1)
          fun s' h1 h2 => between_parity (j := j) hv (by omega) (by omega)
        rw [show 2 ^ 32 - seqOf dpb (j + 1) + (seqOf dpb (j + 1) - (seqOf dpb j + 1)) = n by omega,
          show seqOf dpb j + 1 + (seqOf dpb (j + 1) - (seqOf dpb j + 1)) = seqOf dpb (j + 1) by omega] at this
        rw [this]
      · have := content_skip (ref := ref) (dpb := dpb) (f := f) (rest := rest - ref.header.version.dataSize)
          n 0 (seqOf dpb j + 1)
          fun s' h1 h2 => between_parity (j := j) hv (by omega) (by omega)
        rw [Nat.zero_add] at this
        rw [this]
        simp [content]

theorem content_stored {ref : Block} {dpb : Option Dpb} (hv : Valid dpb) {f : File} {bytes : List Byte}
    (hst : Stored ref.header.version ref.header.uid dpb f bytes) : ∀ (m j : Nat), bytes.length - j * ref.header.version.dataSize ≤ m →
      j * ref.header.version.dataSize < bytes.length →
      content ref dpb f (2 ^ 32 - seqOf dpb j) (seqOf dpb j) (bytes.length - j * ref.header.version.dataSize) =
        some (bytes.drop (j * ref.header.version.dataSize)) := by
  intro m
  have hds := FileUtils.dataSize_pos ref.header.version
  induction m with
  | zero => intros; omega
  | succ m ih =>
    intro j hm hj
    obtain ⟨p, hp, hpre⟩ := hst j (by rw [← dataSize_eq]; exact hj)
    rw [← dataSize_eq] at hpre
    have hat := (chunkAt_iff hv).1 hp
    have h32 := (atPlace_some.1 hat).1
    obtain ⟨n, hn⟩ : ∃ n, seqOf dpb j + (n + 1) = 2 ^ 32 := ⟨2 ^ 32 - seqOf dpb j - 1, by omega⟩
    rw [show 2 ^ 32 - seqOf dpb j = n + 1 by omega, content_next hv hn, hat]
    simp only
    have hlen : p.length = ref.header.version.dataSize := by
      rw [(atPlace_some.1 hat).2.len, dataSize_eq]
    obtain ⟨q, hq⟩ := hpre
    split
    · rename_i hle
      congr 1
      rw [← hq, List.take_append_of_le_length (by simp; omega), List.take_take]
      apply List.take_of_length_le
      simp; omega
    · rename_i hgt
      have hsucc : (j + 1) * ref.header.version.dataSize = j * ref.header.version.dataSize + ref.header.version.dataSize := Nat.succ_mul _ _
      obtain ⟨p', hp', -⟩ := hst (j + 1) (by rw [← dataSize_eq]; omega)
      have h32' := (atPlace_some.1 ((chunkAt_iff hv).1 hp')).1
      rw [if_pos h32', Nat.sub_sub, ← hsucc, ih (j + 1) (by omega) (by omega)]
      simp only [Option.map_some, Option.some.injEq]
      have hqe : q = [] := by
        have := congrArg List.length hq
        simp at this
        exact List.length_eq_zero_iff.1 (by omega)
      rw [hqe, List.append_nil] at hq
      rw [← hq, hsucc, ← List.drop_drop, List.take_append_drop]

theorem content_missing {ref : Block} {dpb : Option Dpb} (hv : Valid dpb) {f : File} {total i : Nat}
    (hi : i * ref.header.version.dataSize < total) (hnum : seqOf dpb i < 2 ^ 32)
    (hmiss : atPlace ref f (dataWriteIndex (seqOf dpb i) none dpb) (seqOf dpb i) = none) : ∀ (m j : Nat), j + m = i →
      content ref dpb f (2 ^ 32 - seqOf dpb j) (seqOf dpb j) (total - j * ref.header.version.dataSize) = none := by
  intro m
  have hds := FileUtils.dataSize_pos ref.header.version
  induction m with
  | zero =>
    intro j hj
    obtain rfl : j = i := by omega
    obtain ⟨n, hn⟩ : ∃ n, seqOf dpb j + (n + 1) = 2 ^ 32 := ⟨2 ^ 32 - seqOf dpb j - 1, by omega⟩
    rw [show 2 ^ 32 - seqOf dpb j = n + 1 by omega, content_next hv hn, hmiss]
  | succ m ih =>
    intro j hj
    have hlt := seqOf_mono hv (show j < i by omega)
    have hle : seqOf dpb (j + 1) ≤ seqOf dpb i := by
      rcases Nat.lt_or_ge (j + 1) i with h | h
      · exact (seqOf_mono hv h).le
      · obtain rfl : j + 1 = i := by omega
        exact Nat.le_refl _
    obtain ⟨n, hn⟩ : ∃ n, seqOf dpb j + (n + 1) = 2 ^ 32 := ⟨2 ^ 32 - seqOf dpb j - 1, by omega⟩
    rw [show 2 ^ 32 - seqOf dpb j = n + 1 by omega, content_next hv hn]
    have hsucc : (j + 1) * ref.header.version.dataSize = j * ref.header.version.dataSize + ref.header.version.dataSize := Nat.succ_mul _ _
    have hmul := Nat.mul_le_mul_right ref.header.version.dataSize (show j + 1 ≤ i by omega)
    split
    · rfl
    · rw [if_neg (by omega), if_pos (by omega), Nat.sub_sub, ← hsucc, ih (j + 1) (by omega)]
      rfl

end Verif.ContentHash
