import Verif.Lemmas.Guess
/-!
# C34: choice of the reference block, C35: scanning, C36: guessing the burst error resistance level
-/

namespace Verif.Scan
open ScanSpec Format ContainerSpec LayoutSpec Layout Misc

/-! ### C35 -/

/-- **C35.** A scan that is not interrupted shows its visitor exactly the blocks among the pieces of an archive, with their offsets
and in order.  The archive may lie anywhere in the file; up to 127 bytes may follow it. -/
theorem C35_stream {S : Type} (visit : S → Nat → Block → S × Bool) (s : S) (pre tail : List Byte) (ps : List Piece) (required : Nat)
    (stop : Nat → Bool) (hstop : ∀ k, stop k = false) (hps : ∀ p ∈ ps, p.Ok) (ht : tail.length < 128)
    (hr : (ps.flatMap Piece.bytes).length ≤ required) (block : Block) :
    scanLoop (pre ++ (ps.flatMap Piece.bytes ++ tail)) pre.length required stop visit
        ((pre ++ (ps.flatMap Piece.bytes ++ tail)).length + 1) 0 block 0 s =
      visitAll visit s (located 0 ps) := by
  rw [scanLoop_all _ _ _ hstop, List.drop_left, walk_pieces required ps hps tail ht 0 (by omega)]

/-- **C35.** Whatever the file contains and whenever the scan is interrupted, what is shown to the visitor are valid blocks, at
increasing positions; and all valid blocks the walk over the bytes meets, unless interrupted. -/
theorem C35_sound {S : Type} (visit : S → Nat → Block → S × Bool) (s : S) (f : File) (seekTo required : Nat) (stop : Nat → Bool)
    (block : Block) :
    ∃ l, scanLoop f seekTo required stop visit (f.length + 1) 0 block 0 s = visitAll visit s l ∧
      l <+: walk required 0 (f.drop seekTo) ∧ ((∀ k, stop k = false) → l = walk required 0 (f.drop seekTo)) ∧
      (l.map (·.1)).Pairwise (· < ·) ∧
      ∀ pos b, (pos, b) ∈ l → pos < required ∧ ∃ v uid seq payload,
        IsBlock (f.readAt (seekTo + pos) (blockLen v)) v uid seq payload ∧ b = blockOf v uid seq payload := by
  obtain ⟨l, h1, h2, h3⟩ := scanLoop_spec f seekTo required stop visit (f.length + 1) 0 block 0 s (.inr (by omega))
  rw [Nat.add_zero] at h1 h3
  refine ⟨l, h2, h1, h3, ?_, ?_⟩
  · exact (walk_sorted required _ 0 _ (Nat.le_refl _)).sublist (h1.sublist.map _)
  · intro pos b hb
    obtain ⟨-, h4, v, uid, seq, p, h5, h6⟩ := walk_sound required _ 0 _ (Nat.le_refl _) (pos, b) (h1.subset hb)
    simp only [Nat.sub_zero, List.drop_drop] at h5
    exact ⟨h4, v, uid, seq, p, h5, h6⟩

theorem range_whole (n : Nat) :
    byteRange none none false 0 (.len n) none = ⟨if n = 0 then 1 else n, 0⟩ := by
  unfold byteRange
  simp only [lastPossiblePos, startPos, endInc, align, roundDown, Nat.add_zero, Bool.false_eq_true, if_false,
    Nat.zero_div, Nat.zero_mul, Nat.zero_min, Nat.sub_zero]
  split
  · rfl
  · congr 1; omega

/-- **C35.** `show --show-all` on an archive prints exactly its metadata blocks, with their positions. -/
theorem C35_show_all (ps : List Piece) (tail : List Byte) (hps : ∀ p ∈ ps, p.Ok) (ht : tail.length < 128) (stop : Nat → Bool)
    (hstop : ∀ k, stop k = false) :
    showFile (ps.flatMap Piece.bytes ++ tail) none none false none true stop =
      (located 0 ps).filter fun x => x.2.blockType = .metadata := by
  unfold showFile
  rw [range_whole]
  simp only
  have h := C35_stream (fun (out : List (Nat × Block)) pos b =>
    if b.blockType = .metadata ∧ (none : Option Uid).all (· = b.header.uid) then (out ++ [(pos + 0, b)], true) else (out, true))
    [] [] tail ps (if (ps.flatMap Piece.bytes ++ tail).length = 0 then 1 else (ps.flatMap Piece.bytes ++ tail).length) stop hstop hps ht
    (by rw [List.length_append]; split <;> omega) Block.dummy
  simp only [List.nil_append, List.length_nil] at h
  rw [h]
  clear h
  have key : ∀ (l out : List (Nat × Block)), visitAll (fun (out : List (Nat × Block)) pos b =>
      if b.blockType = .metadata ∧ (none : Option Uid).all (· = b.header.uid) then (out ++ [(pos + 0, b)], true) else (out, true)) out l =
      out ++ l.filter fun x => x.2.blockType = .metadata := by
    intro l
    induction l with
    | nil => intro out; simp [visitAll]
    | cons x l ih =>
      intro out
      obtain ⟨pos, b⟩ := x
      rw [visitAll_append]
      by_cases hb : b.blockType = .metadata
      · rw [if_pos ⟨hb, rfl⟩, List.filter_cons_of_pos (by simp [hb])]
        simp only
        rw [ih, List.append_assoc]; rfl
      · rw [if_neg (fun h => hb h.1), List.filter_cons_of_neg (by simp [hb])]
        simp only
        rw [ih]
  rw [key, List.nil_append]

/-- A damaged block: the header is whole, the checksum wrong. -/
def brokenBytes : List Byte := headerBytes .v18 0 Block.zeroUid.bytes 7 ++ List.replicate 112 3

set_option maxRecDepth 1000000 in
theorem broken_ok : (Piece.junk brokenBytes).Ok := by
  refine .inr ⟨.v18, rfl, ⟨0, Block.zeroUid, 7, List.prefix_append _ _⟩, ?_⟩
  intro uid seq payload h
  have hp : parse brokenBytes = none := by decide +kernel
  have : parse brokenBytes = some (blockOf .v18 uid seq payload) := by
    have hl : brokenBytes.length = blockLen .v18 := rfl
    rw [Block.parse_iff]
    exact ⟨.v18, uid, seq, payload, [], by rw [← hl, List.take_length]; exact h, by rw [← hl, List.take_length, List.append_nil], rfl⟩
  rw [hp] at this
  simp at this

/-- Pieces of a small archive: junk, a metadata block (version 2), a data block (version 1), a damaged block. -/
def demoPieces : List Piece :=
  [.junk (List.replicate 128 7), .block .v2 Block.zeroUid 0 (List.replicate 112 0x1A), .block .v1 Block.zeroUid 5 (List.replicate 496 1),
    .junk brokenBytes]

theorem demoPieces_ok : ∀ p ∈ demoPieces, p.Ok := by
  intro p hp
  simp only [demoPieces, List.mem_cons, List.not_mem_nil, or_false] at hp
  rcases hp with rfl | rfl | rfl | rfl
  · refine .inl ⟨by rw [List.length_replicate], ?_⟩
    intro v crc uid seq h
    have := h.getElem (i := 0) (by rw [headerBytes_length]; omega)
    simp [headerBytes] at this
  · exact List.length_replicate
  · exact List.length_replicate
  · exact broken_ok

example : showFile (demoPieces.flatMap Piece.bytes ++ [1, 2, 3]) none none false none true (fun _ => false) =
    [(128, blockOf .v2 Block.zeroUid 0 (List.replicate 112 0x1A))] := by
  rw [C35_show_all demoPieces [1, 2, 3] demoPieces_ok (by decide) _ (fun _ => rfl)]
  have h5 : ¬ (5 : UInt32) = 0 := by decide
  simp [-List.reduceReplicate, demoPieces, located, blockOf, Block.blockType, h5]

/-! ### C34 -/

/-- The first block of type `t` among those found. -/
def firstOf (t : BlockType) (l : List (Nat × Block)) : Option (Nat × Block) := l.find? fun x => x.2.blockType = t

/-- The documented choice: the first block, or the first one of the preferred type; a block of the other type only if there is none
of the preferred type and the preference is not an obligation. -/
def chosen (choice : RefChoice) (l : List (Nat × Block)) : Option (Nat × Block) :=
  match choice with
  | .any => l.head?
  | .prefer t => match firstOf t l with
    | some x => some x
    | none => l.head?
  | .mustBe t => firstOf t l

theorem visitAll_pick (choice : RefChoice) (l : List (Nat × Block)) :
    (visitAll (fun (s : RefSt) pos b => (s.record pos b, (s.record pos b).goesOn choice)) ⟨none, none⟩ l).pick choice =
      chosen choice l := by
  -- once a block of the other type is remembered, only the preferred type matters
  have keyM : ∀ (l : List (Nat × Block)) (d : Option (Nat × Block)) (c : RefChoice), c = .prefer .metadata ∨ c = .mustBe .metadata →
      ∃ d', visitAll (fun (s : RefSt) pos b => (s.record pos b, (s.record pos b).goesOn c)) ⟨none, d⟩ l = ⟨firstOf .metadata l, d'⟩ ∧
        (firstOf .metadata l = none → d' = d.or l.head?) := by
    intro l
    induction l with
    | nil => intro d c _; exact ⟨d, rfl, by simp⟩
    | cons x l ih =>
      intro d c hc
      obtain ⟨pos, b⟩ := x
      rw [visitAll_append]
      cases hb : b.blockType with
      | metadata =>
        refine ⟨d, ?_, ?_⟩
        · rcases hc with rfl | rfl <;> simp [RefSt.record, RefSt.goesOn, hb, firstOf]
        · simp [firstOf, hb]
      | data =>
        have hr : (RefSt.mk none d).record pos b = ⟨none, d.or (some (pos, b))⟩ := by
          cases d <;> simp [RefSt.record, hb]
        rw [hr]
        have hg : (RefSt.mk none (d.or (some (pos, b)))).goesOn c = true := by rcases hc with rfl | rfl <;> rfl
        rw [hg]
        simp only
        obtain ⟨d', h1, h2⟩ := ih (d.or (some (pos, b))) c hc
        have hf : firstOf .metadata ((pos, b) :: l) = firstOf .metadata l := by simp [firstOf, hb]
        rw [hf]
        refine ⟨d', h1, fun h => ?_⟩
        rw [h2 h]
        cases d <;> rfl
  have keyD : ∀ (l : List (Nat × Block)) (d : Option (Nat × Block)) (c : RefChoice), c = .prefer .data ∨ c = .mustBe .data →
      ∃ d', visitAll (fun (s : RefSt) pos b => (s.record pos b, (s.record pos b).goesOn c)) ⟨d, none⟩ l = ⟨d', firstOf .data l⟩ ∧
        (firstOf .data l = none → d' = d.or l.head?) := by
    intro l
    induction l with
    | nil => intro d c _; exact ⟨d, rfl, by simp⟩
    | cons x l ih =>
      intro d c hc
      obtain ⟨pos, b⟩ := x
      rw [visitAll_append]
      cases hb : b.blockType with
      | data =>
        refine ⟨d, ?_, ?_⟩
        · rcases hc with rfl | rfl <;> simp [RefSt.record, RefSt.goesOn, hb, firstOf]
        · simp [firstOf, hb]
      | metadata =>
        have hr : (RefSt.mk d none).record pos b = ⟨d.or (some (pos, b)), none⟩ := by
          cases d <;> simp [RefSt.record, hb]
        rw [hr]
        have hg : (RefSt.mk (d.or (some (pos, b))) none).goesOn c = true := by rcases hc with rfl | rfl <;> rfl
        rw [hg]
        simp only
        obtain ⟨d', h1, h2⟩ := ih (d.or (some (pos, b))) c hc
        have hf : firstOf .data ((pos, b) :: l) = firstOf .data l := by simp [firstOf, hb]
        rw [hf]
        refine ⟨d', h1, fun h => ?_⟩
        rw [h2 h]
        cases d <;> rfl
  cases choice with
  | any =>
    cases l with
    | nil => rfl
    | cons x l =>
      obtain ⟨pos, b⟩ := x
      rw [visitAll_append]
      cases hb : b.blockType <;> simp [RefSt.record, RefSt.goesOn, RefSt.pick, hb, chosen]
  | prefer t =>
    cases t with
    | metadata =>
      obtain ⟨d', h1, h2⟩ := keyM l none (.prefer .metadata) (.inl rfl)
      rw [h1]
      simp only [RefSt.pick, chosen]
      cases hf : firstOf .metadata l with
      | some x => rfl
      | none => rw [h2 hf]; rfl
    | data =>
      obtain ⟨d', h1, h2⟩ := keyD l none (.prefer .data) (.inl rfl)
      rw [h1]
      simp only [RefSt.pick, chosen]
      cases hf : firstOf .data l with
      | some x => rfl
      | none => rw [h2 hf]; rfl
  | mustBe t =>
    cases t with
    | metadata =>
      obtain ⟨d', h1, -⟩ := keyM l none (.mustBe .metadata) (.inr rfl)
      rw [h1]; rfl
    | data =>
      obtain ⟨d', h1, -⟩ := keyD l none (.mustBe .data) (.inr rfl)
      rw [h1]; rfl

/-- **C34.** The reference block is the documented choice among the blocks met by the walk over the range asked for.  (Its position is
counted from the start of that range.) -/
theorem C34_choice (f : File) (fromPos : Option Nat) (toPos : Option RangeEnd) (mis : Bool) (choice : RefChoice) (stop : Nat → Bool)
    (hstop : ∀ k, stop k = false) (r : Range) (hr : r = byteRange fromPos toPos mis 0 (.len f.length) none) :
    getRefBlock f fromPos toPos mis choice stop = chosen choice (walk r.requiredLen 0 (f.drop r.seekTo)) := by
  unfold getRefBlock
  rw [← hr]
  simp only
  rw [scanLoop_all _ _ _ hstop, visitAll_pick]

/-- **C34.** In an archive (pieces that are blocks or do not begin with a header) the reference block is the documented choice among
its blocks. -/
theorem C34_archive (ps : List Piece) (tail : List Byte) (hps : ∀ p ∈ ps, p.Ok) (ht : tail.length < 128) (choice : RefChoice)
    (stop : Nat → Bool) (hstop : ∀ k, stop k = false) :
    getRefBlock (ps.flatMap Piece.bytes ++ tail) none none false choice stop = chosen choice (located 0 ps) := by
  rw [C34_choice _ none none false choice stop hstop _ rfl, range_whole]
  simp only [List.drop_zero]
  rw [walk_pieces _ ps hps tail ht 0 (by rw [List.length_append]; split <;> omega)]

/-- **C34.** If the scan is interrupted the choice is made among the blocks met before; in any case the block chosen is a valid block
of the file. -/
theorem C34_interrupted (f : File) (fromPos : Option Nat) (toPos : Option RangeEnd) (mis : Bool) (choice : RefChoice)
    (stop : Nat → Bool) (r : Range) (hr : r = byteRange fromPos toPos mis 0 (.len f.length) none) :
    (∃ l, l <+: walk r.requiredLen 0 (f.drop r.seekTo) ∧ getRefBlock f fromPos toPos mis choice stop = chosen choice l) ∧
    ∀ pos b, getRefBlock f fromPos toPos mis choice stop = some (pos, b) →
      ∃ v uid seq payload, IsBlock (f.readAt (r.seekTo + pos) (blockLen v)) v uid seq payload ∧ b = blockOf v uid seq payload := by
  have h : ∃ l, l <+: walk r.requiredLen 0 (f.drop r.seekTo) ∧ getRefBlock f fromPos toPos mis choice stop = chosen choice l := by
    unfold getRefBlock
    rw [← hr]
    simp only
    obtain ⟨l, h2, h1, -⟩ := C35_sound (fun (s : RefSt) pos b => (s.record pos b, (s.record pos b).goesOn choice)) ⟨none, none⟩ f
      r.seekTo r.requiredLen stop Block.dummy
    exact ⟨l, h1, by rw [h2, visitAll_pick]⟩
  refine ⟨h, ?_⟩
  obtain ⟨l, h1, h2⟩ := h
  intro pos b hb
  rw [h2] at hb
  have hmem : (pos, b) ∈ l := by
    have hfirst : ∀ t, firstOf t l = some (pos, b) → (pos, b) ∈ l := fun t h => List.mem_of_find?_eq_some h
    cases choice with
    | any => exact List.mem_of_mem_head? (by simpa [chosen] using hb)
    | mustBe t => exact hfirst t hb
    | prefer t =>
      simp only [chosen] at hb
      split at hb
      · rename_i x hx
        simp only [Option.some.injEq] at hb
        subst hb
        exact hfirst t hx
      · exact List.mem_of_mem_head? (by simpa using hb)
  obtain ⟨-, -, v, uid, seq, p, h5, h6⟩ := walk_sound r.requiredLen _ 0 _ (Nat.le_refl _) (pos, b) (h1.subset hmem)
  simp only [Nat.sub_zero, List.drop_drop] at h5
  exact ⟨v, uid, seq, p, h5, h6⟩

example : getRefBlock (demoPieces.flatMap Piece.bytes) none none false (.prefer .data) (fun _ => false) =
    some (256, blockOf .v1 Block.zeroUid 5 (List.replicate 496 1)) := by
  have := C34_archive demoPieces [] demoPieces_ok (by decide) (.prefer .data) (fun _ => false) (fun _ => rfl)
  rw [List.append_nil] at this
  rw [this]
  have h5 : ¬ (5 : UInt32) = 0 := by decide
  simp [-List.reduceReplicate, demoPieces, located, chosen, firstOf, blockOf, Block.blockType, blockLen, h5]

/-- **C34, finding.** With a starting position the position returned (and shown to the user as that of the reference block) is not
the position in the file: it is counted from where the scan started. -/
theorem C34_position_relative (f : File) (n : Nat) (mis : Bool) (choice : RefChoice) (stop : Nat → Bool) (hstop : ∀ k, stop k = false)
    (hn : n < f.length) (ha : 128 ∣ n) :
    getRefBlock f (some n) none mis choice stop = getRefBlock (f.drop n) none none mis choice stop := by
  rw [C34_choice _ _ _ _ _ _ hstop _ rfl, C34_choice _ _ _ _ _ _ hstop _ rfl]
  have hal : ∀ m, m = n ∨ m = 0 → align mis 128 m = m := by
    intro m hm
    unfold align roundDown
    rcases hm with rfl | rfl
    · rw [Nat.div_mul_cancel ha]; simp
    · simp
  have h1 : byteRange (some n) none mis 0 (.len f.length) none = ⟨f.length - n, n⟩ := by
    unfold byteRange
    simp only [lastPossiblePos, startPos, endInc, Nat.add_zero, Option.getD_none, scanBlockSize]
    rw [if_neg (by omega), Nat.min_eq_left (by omega), hal n (.inl rfl), hal n (.inl rfl), Nat.min_eq_left (by omega)]
    congr 1; omega
  have h2 : byteRange none none mis 0 (.len (f.drop n).length) none = ⟨f.length - n, 0⟩ := by
    unfold byteRange
    simp only [lastPossiblePos, startPos, endInc, Nat.add_zero, Option.getD_none, scanBlockSize, List.length_drop]
    rw [if_neg (by omega), hal 0 (.inr rfl)]
    congr 1
    omega
  rw [h1, h2]
  simp

example : getRefBlock (demoPieces.flatMap Piece.bytes) (some 128) none false .any (fun _ => false) =
    some (0, blockOf .v2 Block.zeroUid 0 (List.replicate 112 0x1A)) := by
  have hl : (demoPieces.flatMap Piece.bytes).length = 896 := by
    have h4 : brokenBytes.length = 128 := rfl
    simp [-List.reduceReplicate, demoPieces, Piece.bytes, blockBytes, headerBytes, Block.zeroUid, h4]
  rw [C34_position_relative _ 128 false .any _ (fun _ => rfl) (by rw [hl]; omega) (by omega)]
  have hd : (demoPieces.flatMap Piece.bytes).drop 128 = (demoPieces.tail).flatMap Piece.bytes ++ [] := by
    rw [List.append_nil]
    simp only [demoPieces, List.flatMap_cons, List.tail_cons]
    exact List.drop_left' List.length_replicate
  rw [hd, C34_archive demoPieces.tail [] (fun p hp => demoPieces_ok p (List.mem_of_mem_tail hp)) (by decide) .any _ (fun _ => rfl)]
  simp [-List.reduceReplicate, demoPieces, located, chosen]

/-! ### C36 -/

/-- An undamaged Reed-Solomon container together with one of its metadata blocks as reference block. -/
structure Intact (v : Version) (uid : Uid) (d : Dpb) (ps : List (List Byte)) (f : File) (ref : Block) : Prop where
  usesRs : v.usesRs = true
  data : 1 ≤ d.data
  parity : 1 ≤ d.parity
  total : d.data + d.parity ≤ 256
  burst : d.burst ≤ maxBurst
  payloads : ∀ p ∈ ps, p.length = v.dataSize
  count : ps.length < 2 ^ 32
  image : ∃ mb mp, IsBlock mb v uid 0 mp ∧ Image v uid.bytes (some true) (some d) ps mb f
  version : ref.header.version = v
  refUid : ref.header.uid = uid
  fields : ∃ ms, ref.metas = some ms ∧ firstRsd ms = some d.data ∧ firstRsp ms = some d.parity

theorem me_irrel (k : Nat) (d : Dpb) (me me' : Option Bool) :
    seqAtIndex k me (some d) = seqAtIndex k me' (some d) := rfl

/-- The samples taken from an intact container. -/
theorem guess_samples {v : Version} {uid : Uid} {d : Dpb} {ps : List (List Byte)} {f : File} {ref : Block}
    (h : Intact v uid d ps f ref) :
    ∃ samples : List (Option Nat), guessBurst f none false ref = .ok (guessLevel d.data d.parity samples) ∧
      (∀ k, k < d.parity + 1002 → samples[k]? = some ((blockAt ref f (k * blockLen v)).map (·.header.seq.toNat))) ∧
      samples.length = d.parity + 1002 := by
  obtain ⟨ms, hm, hrd, hrp⟩ := h.fields
  refine ⟨sampleLoop f ref (fun _ b => some b.header.seq.toNat) (1 + d.parity + maxBurst + 1) 0 Block.dummy 0, ?_, ?_, ?_⟩
  · unfold guessBurst
    rw [h.version, h.usesRs, getRsd_meta hm, getRsp_meta hm, hrd, hrp]
    rfl
  · intro k hk
    rw [sampleLoop_spec, List.getElem?_map, List.getElem?_range (by unfold maxBurst; omega)]
    simp only [Option.map_some, Nat.zero_add, Option.some.injEq]
    rw [Block.size, h.version, ← blockLen_eq]
    cases blockAt ref f (k * blockLen v) <;> rfl
  · rw [sampleLoop_spec, List.length_map, List.length_range]; unfold maxBurst; omega

/-- The true level fits every sample. -/
theorem true_level_fits {v : Version} {uid : Uid} {d : Dpb} {ps : List (List Byte)} {f : File} {ref : Block}
    (h : Intact v uid d ps f ref) {k : Nat} {b : Block} (hb : blockAt ref f (k * blockLen v) = some b) :
    b.header.seq.toNat = seqAtIndex k none (some d) := by
  obtain ⟨mb, mp, h1, h2⟩ := h.image
  rw [me_irrel k d none (some true)]
  exact image_seqAt (by intro d' hd'; simp only [Option.some.injEq] at hd'; subst hd'; exact h.data) h2 h1 h.payloads h.count
    h.version h.refUid hb

/-- **C36.** The level guessed for an intact container gives every sampled block (the first `parity + 1002` places) its place, and
is not larger than the true one; if no level is guessed then all levels from 0 to 1000 do so. -/
theorem C36_fits {v : Version} {uid : Uid} {d : Dpb} {ps : List (List Byte)} {f : File} {ref : Block}
    (h : Intact v uid d ps f ref) :
    (guessBurst f none false ref = .ok none ∧
      ∀ l ≤ maxBurst, ∀ k < d.parity + 1002, ∀ b, blockAt ref f (k * blockLen v) = some b →
        b.header.seq.toNat = seqAtIndex k none (some ⟨d.data, d.parity, l⟩)) ∨
    ∃ l, guessBurst f none false ref = .ok (some l) ∧ l ≤ d.burst ∧
      ∀ k < d.parity + 1002, ∀ b, blockAt ref f (k * blockLen v) = some b →
        b.header.seq.toNat = seqAtIndex k none (some ⟨d.data, d.parity, l⟩) := by
  obtain ⟨samples, hg, hs, hsl⟩ := guess_samples h
  have hfit : ∀ l, mismatches ⟨d.data, d.parity, l⟩ 0 samples = 0 ↔
      ∀ k < d.parity + 1002, ∀ b, blockAt ref f (k * blockLen v) = some b →
        b.header.seq.toNat = seqAtIndex k none (some ⟨d.data, d.parity, l⟩) := by
    intro l
    rw [mismatches_eq_zero]
    constructor
    · intro hm k hk b hb
      have := hm k b.header.seq.toNat (by rw [hs k hk, hb]; rfl)
      rwa [Nat.zero_add] at this
    · intro hm k seq hk
      have hkl : k < d.parity + 1002 := by
        have := (List.getElem?_eq_some_iff.1 hk).1
        omega
      rw [hs k hkl] at hk
      cases hb : blockAt ref f (k * blockLen v) with
      | none => rw [hb] at hk; simp at hk
      | some b =>
        rw [hb] at hk
        simp only [Option.map_some, Option.some.injEq] at hk
        subst hk
        rw [Nat.zero_add]
        exact hm k hkl b hb
  have h0 : mismatches ⟨d.data, d.parity, d.burst⟩ 0 samples = 0 := (hfit _).2 fun k _ b hb => true_level_fits h hb
  rw [hg]
  rcases guessLevel_spec d.data d.parity samples _ rfl with ⟨h1, h2⟩ | ⟨c, h1, h2, h3, h4, h5⟩
  · refine .inl ⟨by rw [h1], ?_⟩
    intro l hl
    exact (hfit l).1 (by rw [h2 l hl d.burst h.burst]; exact h0)
  · refine .inr ⟨c, by rw [h1], ?_, (hfit c).1 ?_⟩
    · by_contra hc
      have := h4 d.burst (by omega)
      omega
    · have := h3 d.burst h.burst
      omega

theorem meta_places {v : Version} {uid : Uid} {d : Dpb} {ps : List (List Byte)} {f : File} {ref : Block}
    (h : Intact v uid d ps f ref) {mb mp : List Byte} (hmb : IsBlock mb v uid 0 mp) (him : Image v uid.bytes (some true) (some d) ps mb f) :
    ∀ i ≤ d.parity, blockAt ref f (i * (1 + d.burst) * blockLen v) = some (blockOf v uid 0 mp) := by
  intro i hi
  rw [blockAt_iff, h.version, h.refUid]
  refine ⟨0, mp, ?_, rfl⟩
  have := him.metas (i * (1 + d.burst)) (List.mem_map.2 ⟨i, List.mem_range.2 (by omega), rfl⟩)
  unfold File.readAt at this
  rwa [this]

/-- A level larger than the true one does not predict the second metadata block. -/
theorem larger_level {v : Version} {uid : Uid} {d : Dpb} {ps : List (List Byte)} {f : File} {ref : Block}
    (h : Intact v uid d ps f ref) : ∀ l, l ≤ maxBurst → d.burst < l → ∃ k < d.parity + 1002, ∃ b, blockAt ref f (k * blockLen v) = some b ∧
      b.header.seq.toNat ≠ seqAtIndex k none (some ⟨d.data, d.parity, l⟩) := by
  intro l hl hlt
  obtain ⟨mb, mp, hmb, him⟩ := h.image
  have hmeta := meta_places h hmb him
  have hpar := h.parity
  have hdat := h.data
  have htot := h.total
  unfold maxBurst at *
  refine ⟨1 + d.burst, by omega, _, by have := hmeta 1 hpar; rwa [Nat.one_mul] at this, ?_⟩
  show (0 : Nat) ≠ _
  refine (seqAtIndex_pos hdat htot hl (by omega) ?_).symm
  intro i hi he
  rcases Nat.eq_zero_or_pos i with rfl | hi0
  · omega
  · have : 1 * (1 + l) ≤ i * (1 + l) := Nat.mul_le_mul_right _ hi0
    omega

/-- **C36.** For an intact container some level is always guessed. -/
theorem C36_guesses {v : Version} {uid : Uid} {d : Dpb} {ps : List (List Byte)} {f : File} {ref : Block}
    (h : Intact v uid d ps f ref) : ∃ l ≤ d.burst, guessBurst f none false ref = .ok (some l) := by
  have hpar := h.parity
  have hbur := h.burst
  have hdat := h.data
  have htot := h.total
  rcases C36_fits h with ⟨-, h2⟩ | ⟨l, h1, h2, -⟩
  · exfalso
    rcases Nat.lt_or_ge d.burst maxBurst with hlt | hge
    · obtain ⟨k, hk, b, hb, hne⟩ := larger_level h (d.burst + 1) (by omega) (by omega)
      exact hne (h2 _ (by omega) k hk b hb)
    · have hB : d.burst = 1000 := by unfold maxBurst at *; omega
      obtain ⟨mb, mp, hmb, him⟩ := h.image
      have hb := meta_places h hmb him 1 hpar
      rw [hB] at hb
      have := h2 0 (by omega) (1 * (1 + 1000)) (by omega) _ hb
      refine seqAtIndex_pos hdat htot (by omega) (by omega) ?_ this.symm
      intro i hi he
      omega
  · exact ⟨l, h2, h1⟩

/-- **C36.** The true level is found for every intact container in which the last metadata copy is among the places sampled or
which has at least as many Reed-Solomon sets as the level says. -/
theorem C36_exact {v : Version} {uid : Uid} {d : Dpb} {ps : List (List Byte)} {f : File} {ref : Block}
    (h : Intact v uid d ps f ref)
    (hbig : d.parity * d.burst ≤ 1001 ∨ d.burst * (d.data + d.parity) ≤ ps.length) :
    guessBurst f none false ref = .ok (some d.burst) := by
  have hpar := h.parity
  have hbur := h.burst
  have hdat := h.data
  have htot := h.total
  obtain ⟨mb, mp, hmb, him⟩ := h.image
  have hmeta := meta_places h hmb him
  have hlarge := larger_level h
  have hsmall : ∀ l, l < d.burst → ∃ k < d.parity + 1002, ∃ b, blockAt ref f (k * blockLen v) = some b ∧
      b.header.seq.toNat ≠ seqAtIndex k none (some ⟨d.data, d.parity, l⟩) := by
    intro l hl
    unfold maxBurst at *
    rcases hbig with hbig | hbig
    · -- the last metadata copy
      refine ⟨d.parity * (1 + d.burst), ?_, _, hmeta d.parity (Nat.le_refl _), ?_⟩
      · rw [Nat.mul_add]; omega
      · show (0 : Nat) ≠ _
        refine (seqAtIndex_pos hdat htot (by omega) (by rw [Nat.mul_add]; omega) ?_).symm
        intro i hi he
        have h1 : i * (1 + l) ≤ d.parity * (1 + l) := Nat.mul_le_mul_right _ hi
        have h2 : d.parity * (1 + l) < d.parity * (1 + d.burst) := Nat.mul_lt_mul_of_pos_left (by omega) (by omega)
        omega
    · -- the first block of set number `l`
      have hlen : l * (d.data + d.parity) < ps.length := by
        have h1 : (l + 1) * (d.data + d.parity) ≤ d.burst * (d.data + d.parity) := Nat.mul_le_mul_right _ hl
        rw [Nat.succ_mul] at h1
        omega
      have hidx : dataWriteIndex (l * (d.data + d.parity) + 1) (some true) (some d) = 1 + l := by
        obtain ⟨D, P, B⟩ := d
        simp only at *
        unfold dataWriteIndex
        have hB : ¬ B = 0 := by omega
        simp only [if_neg hB, Nat.add_sub_cancel]
        have hlt : l * (D + P) < (D + P) * B := by
          rw [Nat.mul_comm]; exact Nat.mul_lt_mul_of_pos_left hl (by omega)
        rw [Nat.div_eq_of_lt hlt, Nat.mod_eq_of_lt hlt, Nat.mul_div_cancel _ (by omega), Nat.mul_mod_left]
        simp
      have hps := List.getElem?_eq_getElem hlen
      have hd := him.data _ _ hps
      rw [hidx] at hd
      refine ⟨1 + l, by omega, blockOf v uid (UInt32.ofNat (l * (d.data + d.parity) + 1)) ps[l * (d.data + d.parity)], ?_, ?_⟩
      · rw [blockAt_iff, h.version, h.refUid]
        refine ⟨_, _, ⟨hd, ?_⟩, rfl⟩
        rw [h.payloads _ (List.getElem_mem hlen), dataSize_eq]
      · have hcnt := h.count
        have : (blockOf v uid (UInt32.ofNat (l * (d.data + d.parity) + 1)) ps[l * (d.data + d.parity)]).header.seq.toNat =
            l * (d.data + d.parity) + 1 := ofNat_toNat32 (by omega)
        rw [this]
        have hz : seqAtIndex (1 + l) none (some ⟨d.data, d.parity, l⟩) = 0 := by
          rw [me_irrel _ _ none (some true)]
          refine C11_seq_of_meta (some true) _ _ (List.mem_map.2 ⟨1, List.mem_range.2 ?_, ?_⟩)
          · simp only; omega
          · simp
        rw [hz]; omega
  rcases C36_fits h with ⟨-, h2⟩ | ⟨l, h1, h2, h3⟩
  · -- not all levels fit
    exfalso
    rcases Nat.lt_or_ge d.burst maxBurst with hlt | hge
    · obtain ⟨k, hk, b, hb, hne⟩ := hlarge (d.burst + 1) (by omega) (by omega)
      exact hne (h2 _ (by omega) k hk b hb)
    · obtain ⟨k, hk, b, hb, hne⟩ := hsmall 0 (by unfold maxBurst at hge; omega)
      exact hne (h2 _ (by omega) k hk b hb)
  · rcases Nat.lt_or_ge l d.burst with hlt | hge
    · obtain ⟨k, hk, b, hb, hne⟩ := hsmall l hlt
      exact absurd (h3 k hk b hb) hne
    · rw [h1, Nat.le_antisymm h2 hge]

/-- **C36.** Damaged containers as well: a level is returned only if it has the fewest mismatches among the levels from 0 to 1000, fewer
than any smaller level and strictly fewer than some level. -/
theorem C36_best (f : File) (fromPos : Option GuessFrom) (mis : Bool) (ref : Block) (l : Nat)
    (h : guessBurst f fromPos mis ref = .ok (some l)) :
    ∃ d p samples, getRsd ref = .ok (some d) ∧ getRsp ref = .ok (some p) ∧ l ≤ maxBurst ∧
      (∀ k, k < p + 1002 → samples[k]? = some ((blockAt ref f (guessFromPos ref.size mis fromPos + k * ref.size)).map (·.header.seq.toNat))) ∧
      (∀ j ≤ maxBurst, mismatches ⟨d, p, l⟩ 0 samples ≤ mismatches ⟨d, p, j⟩ 0 samples) ∧
      (∀ j < l, mismatches ⟨d, p, l⟩ 0 samples < mismatches ⟨d, p, j⟩ 0 samples) ∧
      ∃ j ≤ maxBurst, mismatches ⟨d, p, l⟩ 0 samples < mismatches ⟨d, p, j⟩ 0 samples := by
  unfold guessBurst at h
  split at h
  · simp at h
  · cases h1 : getRsd ref with
    | error e => rw [h1] at h; cases e <;> simp [fieldOrErr] at h
    | ok od =>
      cases od with
      | none => rw [h1] at h; simp [fieldOrErr] at h
      | some d =>
        cases h2 : getRsp ref with
        | error e => rw [h1, h2] at h; cases e <;> simp [fieldOrErr] at h
        | ok op =>
          cases op with
          | none => rw [h1, h2] at h; simp [fieldOrErr] at h
          | some p =>
            rw [h1, h2] at h
            simp only [fieldOrErr, Except.ok.injEq] at h
            rcases guessLevel_spec d p _ _ rfl with ⟨h3, -⟩ | ⟨c, h3, h4, h5, h6, h7⟩
            · rw [h3] at h; simp at h
            · rw [h3] at h
              simp only [Option.some.injEq] at h
              subst h
              refine ⟨d, p, _, rfl, rfl, h4, ?_, h5, h6, h7⟩
              intro k hk
              rw [sampleLoop_spec, List.getElem?_map, List.getElem?_range (by unfold maxBurst; omega)]
              simp only [Option.map_some, Nat.zero_add, Option.some.injEq]
              cases blockAt ref f (guessFromPos ref.size mis fromPos + k * ref.size) <;> rfl

/-- A metadata payload that records two data shards and one parity shard. -/
def demoMetas : List Metadata := [.rsd 2, .rsp 1]

theorem demo_intact : ∃ f ref, Intact .v18 Block.zeroUid ⟨2, 1, 5⟩ (List.replicate 6 (List.replicate 112 9)) f ref := by
  have hfit : metaSpace demoMetas ≤ 112 := by decide
  obtain ⟨mp, hmp⟩ : ∃ mp, metasToBytes demoMetas 112 = some mp := by
    cases h : metasToBytes demoMetas 112 with
    | some mp => exact ⟨mp, rfl⟩
    | none =>
      have : metasToBytes demoMetas 112 ≠ none := by decide +kernel
      exact absurd h this
  have hl : mp.length = 112 := by
    have : (metasToBytes demoMetas 112).map List.length = some 112 := by decide +kernel
    rw [hmp] at this; simpa using this
  have hback : metasFromBytes mp = demoMetas := by
    have : (metasToBytes demoMetas 112).map metasFromBytes = some demoMetas := by decide +kernel
    rw [hmp] at this; simpa using this
  let mb := blockBytes .v18 Block.zeroUid.bytes 0 mp
  have hmb : IsBlock mb .v18 Block.zeroUid 0 mp := ⟨rfl, hl⟩
  have hps : ∀ p ∈ List.replicate 6 (List.replicate 112 (9 : Byte)), p.length = Version.v18.dataSize := by
    intro p hp
    rw [(List.mem_replicate.1 hp).2, List.length_replicate]; rfl
  have him := image_of_writes (v := .v18) (uid := Block.zeroUid) (me := true) (dpb := some ⟨2, 1, 5⟩)
    (by intro d hd; simp only [Option.some.injEq] at hd; subst hd; decide) (fun _ => rfl) hps (mb0 := mb) (mb := mb)
    (fun _ => isBlock_length hmb) (fun _ => isBlock_length hmb)
  refine ⟨_, blockOf .v18 Block.zeroUid 0 mp, ⟨rfl, by decide, by decide, by decide, by decide, hps, by decide, ⟨mb, mp, hmb, him⟩, rfl,
    rfl, ⟨demoMetas, ?_, rfl, rfl⟩⟩⟩
  simp [blockOf, Block.metas, hback]

example : ∃ f ref, Intact .v18 Block.zeroUid ⟨2, 1, 5⟩ (List.replicate 6 (List.replicate 112 9)) f ref ∧
    guessBurst f none false ref = .ok (some 5) := by
  obtain ⟨f, ref, h⟩ := demo_intact
  exact ⟨f, ref, h, C36_exact h (.inl (by decide))⟩

end Verif.Scan
