import Verif.Model.Scan
import Verif.Spec.Scan
import Verif.Lemmas.Block
/-!
# Lemmas about scanning
-/

namespace Verif

namespace Block
open Format

/-- Whether a buffer is accepted, and as what, does not depend on the block it is read into. -/
theorem read?_indep (b c : Block) (buf : List Byte) (hp : Option (Header → Bool)) : b.read? buf hp = c.read? buf hp := by
  ext x
  rw [read?_iff, read?_iff]

theorem parse_iff (buf : List Byte) (b : Block) :
    ScanSpec.parse buf = some b ↔ ∃ v uid seq payload rest, IsBlock (buf.take (blockLen v)) v uid seq payload ∧
        buf = buf.take (blockLen v) ++ rest ∧ b = blockOf v uid seq payload := by
  unfold ScanSpec.parse
  rw [read?_iff]
  constructor
  · rintro ⟨v, uid, seq, p, rest, h1, h2, h3, -⟩; exact ⟨v, uid, seq, p, rest, h1, h2, h3⟩
  · rintro ⟨v, uid, seq, p, rest, h1, h2, h3⟩; exact ⟨v, uid, seq, p, rest, h1, h2, h3, by simp⟩

end Block

namespace Scan
open ScanSpec Format

/-- What one step of a scan does: stop, go on `n` bytes further, or report a block and go on. -/
inductive Seen
  | eof
  | skip (n : Nat)
  | found (n : Nat) (b : Block)

def classify (r : Block × LazyRead) : Seen :=
  if r.2.eof then .eof else if r.2.usable then .found r.2.lenRead r.1 else .skip r.2.lenRead

/-- One step, in terms of the bytes from the current position on. -/
def seenAt (bytes : List Byte) : Seen :=
  if bytes.length < 128 then .eof
  else
    match Header.fromBytes (bytes.take 16) with
    | none => .skip 128
    | some hd =>
      if bytes.length < blockLen hd.version then .eof
      else
        match parse (bytes.take (blockLen hd.version)) with
        | none => .skip (blockLen hd.version)
        | some b => .found (blockLen hd.version) b

theorem size_ge (v : Version) : 128 ≤ v.blockSize := by cases v <;> decide

theorem readBlockLazily_spec (b : Block) (f : File) (pos : Nat) :
    classify (readBlockLazily b f pos) = seenAt (f.drop pos) := by
  unfold readBlockLazily seenAt
  simp only [File.readAt, scanBlockSize, List.length_take]
  by_cases h : (f.drop pos).length < 128
  · rw [if_pos (by omega), if_pos h]; rfl
  · rw [if_neg (by omega), if_neg h]
    have hsh : b.syncHeader ((f.drop pos).take 128) = match Header.fromBytes ((f.drop pos).take 16) with
        | none => .error .parseError
        | some h => .ok (Block.matchHeader { b with header := h }) := by
      unfold Block.syncHeader
      rw [if_neg (by rw [List.length_take]; omega), List.take_take]
      rfl
    rw [hsh]
    cases hd : Header.fromBytes ((f.drop pos).take 16) with
    | none =>
      simp only [classify]
      have : min 128 (f.drop pos).length = 128 := by omega
      simp only [Bool.false_eq_true, if_false, this]
    | some hdr =>
      simp only
      have hsz : (Block.matchHeader { b with header := hdr }).size = blockLen hdr.version := by
        rw [Block.size, Block.matchHeader_header, blockLen_eq]
      rw [hsz]
      have hge := size_ge hdr.version
      rw [← blockLen_eq] at hge
      have hmin : min 128 (f.drop pos).length = 128 := by omega
      have hbuf : (f.drop pos).take 128 ++ ((f.drop (pos + min 128 (f.drop pos).length)).take (blockLen hdr.version - 128)) =
          (f.drop pos).take (blockLen hdr.version) := by
        rw [hmin, ← List.drop_drop, ← List.take_add, Nat.add_sub_cancel' hge]
      rw [hbuf]
      simp only [List.length_take]
      by_cases h2 : (f.drop pos).length < blockLen hdr.version
      · rw [if_pos (by omega), if_pos h2]; rfl
      · rw [if_neg (by omega), if_neg h2]
        have hm : min (blockLen hdr.version) (f.drop pos).length = blockLen hdr.version := by omega
        rw [hm]
        have hp : parse ((f.drop pos).take (blockLen hdr.version)) =
            (Block.matchHeader { b with header := hdr }).read? ((f.drop pos).take (blockLen hdr.version)) none :=
          Block.read?_indep _ _ _ _
        rw [hp]
        unfold Block.read?
        rcases hs : (Block.matchHeader { b with header := hdr }).syncFrom ((f.drop pos).take (blockLen hdr.version)) none none with
          ⟨b', e⟩
        cases e <;> simp [classify]

theorem walk_eq (required off : Nat) (bytes : List Byte) :
    walk required off bytes =
      if required ≤ off then [] else
        match seenAt bytes with
        | .eof => []
        | .skip n => walk required (off + n) (bytes.drop n)
        | .found n b => (off, b) :: walk required (off + n) (bytes.drop n) := by
  rw [walk]
  unfold seenAt
  by_cases h : bytes.length < 128
  · rw [dif_pos (.inl h), if_pos h]; simp
  · by_cases h2 : required ≤ off
    · rw [dif_pos (.inr h2), if_pos h2]
    · rw [dif_neg (by omega), if_neg h2, if_neg h]
      split
      · rename_i h3; rw [h3]
      · rename_i hd h3
        rw [h3]
        simp only
        by_cases h4 : bytes.length < blockLen hd.version
        · rw [if_pos h4, if_pos h4]
        · rw [if_neg h4, if_neg h4]
          cases parse (bytes.take (blockLen hd.version)) <;> rfl

theorem seenAt_advance {bytes : List Byte} {n : Nat} (h : seenAt bytes = .skip n ∨ ∃ b, seenAt bytes = .found n b) :
    128 ≤ n ∧ n ≤ bytes.length := by
  unfold seenAt at h
  split at h
  · simp at h
  · rename_i hl
    split at h
    · simp at h; omega
    · rename_i hd _
      have hge := size_ge hd.version
      rw [← blockLen_eq] at hge
      split at h
      · simp at h
      · split at h <;> simp at h <;> omega

theorem visitAll_append {S : Type} (visit : S → Nat → Block → S × Bool) (s : S) (pos : Nat) (b : Block) (l : List (Nat × Block)) :
    visitAll visit s ((pos, b) :: l) = match visit s pos b with
      | (s, true) => visitAll visit s l
      | (s, false) => s := rfl

/-- The scanning loop shows the visitor an initial part of the blocks of the walk, all of them if it is not interrupted. -/
theorem scanLoop_spec {S : Type} (f : File) (seekTo required : Nat) (stop : Nat → Bool) (visit : S → Nat → Block → S × Bool)
    (fuel : Nat) : ∀ (k : Nat) (block : Block) (processed : Nat) (s : S), f.length < fuel + (seekTo + processed) ∨ f.length < fuel →
      ∃ l, l <+: walk required processed (f.drop (seekTo + processed)) ∧
        scanLoop f seekTo required stop visit fuel k block processed s = visitAll visit s l ∧
        ((∀ k, stop k = false) → l = walk required processed (f.drop (seekTo + processed))) := by
  induction fuel with
  | zero =>
    intro k block processed s hf
    have : f.length < seekTo + processed := by omega
    refine ⟨[], List.nil_prefix, rfl, fun _ => ?_⟩
    rw [walk_eq]
    rw [List.drop_eq_nil_of_le (by omega)]
    split
    · rfl
    · simp [seenAt]
  | succ fuel ih =>
    intro k block processed s hf
    unfold scanLoop
    by_cases hst : stop k = true
    · rw [if_pos hst]
      exact ⟨[], List.nil_prefix, rfl, fun h => by rw [h k] at hst; simp at hst⟩
    · rw [if_neg hst]
      by_cases hr : required ≤ processed
      · rw [if_pos hr]
        refine ⟨[], List.nil_prefix, rfl, fun _ => ?_⟩
        rw [walk_eq, if_pos hr]
      · rw [if_neg hr]
        have hc := readBlockLazily_spec block f (seekTo + processed)
        rcases hb : readBlockLazily block f (seekTo + processed) with ⟨block', res⟩
        rw [hb] at hc
        simp only [classify] at hc
        simp only
        rw [walk_eq, if_neg hr, ← hc]
        cases he : res.eof with
        | true => exact ⟨[], by simp, by simp [visitAll], by simp⟩
        | false =>
          rw [he] at hc
          simp only [Bool.false_eq_true, if_false] at hc ⊢
          have hadv : ∀ n, seenAt (f.drop (seekTo + processed)) = .skip n ∨ (∃ b, seenAt (f.drop (seekTo + processed)) = .found n b) →
              f.length < fuel + (seekTo + (processed + n)) ∨ f.length < fuel := by
            intro n hn
            have := seenAt_advance hn
            rw [List.length_drop] at this
            omega
          have hd : ∀ n, (f.drop (seekTo + processed)).drop n = f.drop (seekTo + (processed + n)) := by
            intro n; rw [List.drop_drop, Nat.add_assoc]
          cases hu : res.usable with
          | false =>
            rw [hu] at hc
            simp only [Bool.not_false, if_true, Bool.false_eq_true, if_false] at hc ⊢
            obtain ⟨l, h1, h2, h3⟩ := ih (k + 1) block' (processed + res.lenRead) s (hadv _ (.inl hc.symm))
            rw [hd]
            exact ⟨l, h1, h2, h3⟩
          | true =>
            rw [hu] at hc
            simp only [Bool.not_true, Bool.false_eq_true, if_false, if_true] at hc ⊢
            rw [hd]
            rcases hv : visit s processed block' with ⟨s', go⟩
            obtain ⟨l, h1, h2, h3⟩ := ih (k + 1) block' (processed + res.lenRead) s' (hadv _ (.inr ⟨_, hc.symm⟩))
            refine ⟨(processed, block') :: l, List.cons_prefix_cons.2 ⟨rfl, h1⟩, ?_, fun h => by rw [← h3 h]⟩
            rw [visitAll_append, hv]
            cases go with
            | true => exact h2
            | false => rfl

theorem scanLoop_all {S : Type} (f : File) (seekTo required : Nat) {stop : Nat → Bool} (hs : ∀ k, stop k = false)
    (visit : S → Nat → Block → S × Bool) (s : S) (block : Block) :
    scanLoop f seekTo required stop visit (f.length + 1) 0 block 0 s = visitAll visit s (walk required 0 (f.drop seekTo)) := by
  obtain ⟨l, -, h2, h3⟩ := scanLoop_spec f seekTo required stop visit (f.length + 1) 0 block 0 s (.inr (by omega))
  rw [h2, h3 hs, Nat.add_zero]

/-! ### What the walk finds -/

/-- Everything found is a valid block, at the offset reported. -/
theorem walk_sound (required : Nat) : ∀ (n off : Nat) (bytes : List Byte), bytes.length ≤ n → ∀ x ∈ walk required off bytes,
    off ≤ x.1 ∧ x.1 < required ∧ (∃ v uid seq payload,
      IsBlock ((bytes.drop (x.1 - off)).take (blockLen v)) v uid seq payload ∧ x.2 = blockOf v uid seq payload) := by
  intro n
  induction n with
  | zero =>
    intro off bytes hn x hx
    rw [walk_eq] at hx
    have : bytes = [] := List.length_eq_zero_iff.1 (by omega)
    subst this
    split at hx
    · simp at hx
    · simp [seenAt] at hx
  | succ n ih =>
    intro off bytes hn x hx
    rw [walk_eq] at hx
    split at hx
    · simp at hx
    · rename_i hr
      have step : ∀ m, (seenAt bytes = .skip m ∨ ∃ b, seenAt bytes = .found m b) → x ∈ walk required (off + m) (bytes.drop m) →
          off ≤ x.1 ∧ x.1 < required ∧ (∃ v uid seq payload,
            IsBlock ((bytes.drop (x.1 - off)).take (blockLen v)) v uid seq payload ∧ x.2 = blockOf v uid seq payload) := by
        intro m hm hx
        have ha := seenAt_advance hm
        obtain ⟨h1, h2, v, uid, seq, p, h3, h4⟩ := ih (off + m) (bytes.drop m) (by rw [List.length_drop]; omega) x hx
        refine ⟨by omega, h2, v, uid, seq, p, ?_, h4⟩
        rw [List.drop_drop] at h3
        rwa [show m + (x.1 - (off + m)) = x.1 - off by omega] at h3
      cases hs : seenAt bytes with
      | eof => rw [hs] at hx; simp at hx
      | skip m => rw [hs] at hx; exact step m (.inl hs) hx
      | found m b =>
        rw [hs] at hx
        rcases List.mem_cons.1 hx with rfl | hx
        · refine ⟨Nat.le_refl _, by omega, ?_⟩
          simp only [Nat.sub_self, List.drop_zero]
          unfold seenAt at hs
          split at hs
          · simp at hs
          · split at hs
            · simp at hs
            · rename_i hd hhd
              split at hs
              · simp at hs
              · split at hs
                · simp at hs
                · rename_i b' hb
                  simp only [Seen.found.injEq] at hs
                  obtain ⟨rfl, rfl⟩ := hs
                  rw [Block.parse_iff] at hb
                  obtain ⟨v, uid, seq, p, rest, h1, h2, h3⟩ := hb
                  refine ⟨v, uid, seq, p, ?_, h3⟩
                  -- the version in the header is that of the block
                  have hl : (bytes.take (blockLen hd.version)).take (blockLen v) = bytes.take (min (blockLen v) (blockLen hd.version)) :=
                    List.take_take
                  have hlen := congrArg List.length h1.bytes
                  rw [blockBytes_length, h1.len, List.take_take, List.length_take] at hlen
                  have : blockLen v ≤ blockLen hd.version := by
                    have := size_ge v; rw [← blockLen_eq] at this; omega
                  rwa [hl, Nat.min_eq_left this] at h1
        · exact step m (.inr ⟨_, hs⟩) hx

/-- Offsets increase. -/
theorem walk_sorted (required : Nat) : ∀ (n off : Nat) (bytes : List Byte), bytes.length ≤ n →
    ((walk required off bytes).map (·.1)).Pairwise (· < ·) := by
  intro n
  induction n with
  | zero =>
    intro off bytes hn
    have : bytes = [] := List.length_eq_zero_iff.1 (by omega)
    subst this
    rw [walk_eq]
    split
    · simp
    · simp [seenAt]
  | succ n ih =>
    intro off bytes hn
    rw [walk_eq]
    split
    · simp
    · cases hs : seenAt bytes with
      | eof => simp
      | skip m =>
        have ha := seenAt_advance (.inl hs)
        exact ih _ _ (by rw [List.length_drop]; omega)
      | found m b =>
        have ha := seenAt_advance (.inr ⟨_, hs⟩)
        simp only [List.map_cons, List.pairwise_cons]
        refine ⟨?_, ih _ _ (by rw [List.length_drop]; omega)⟩
        intro y hy
        obtain ⟨x, hx, rfl⟩ := List.mem_map.1 hy
        have := (walk_sound required _ _ _ (Nat.le_refl _) x hx).1
        omega

/-- What is seen where a block begins. -/
theorem seenAt_block {v : Version} {uid : Uid} {seq : UInt32} {payload : List Byte} (hp : payload.length = blockLen v - 16)
    (rest : List Byte) :
    seenAt (blockBytes v uid.bytes seq payload ++ rest) = .found (blockLen v) (blockOf v uid seq payload) := by
  have hge := size_ge v
  rw [← blockLen_eq] at hge
  have hbl : (blockBytes v uid.bytes seq payload).length = blockLen v := by
    rw [blockBytes_length, hp]; omega
  unfold seenAt
  rw [if_neg (by rw [List.length_append]; omega)]
  have : Header.fromBytes ((blockBytes v uid.bytes seq payload ++ rest).take 16) =
      some ⟨v, checksum v uid.bytes seq payload, uid, seq⟩ := by
    rw [Header.fromBytes_iff, List.take_append_of_le_length (by omega)]
    exact headerBytes_take _ _ _ _ _
  rw [this]
  simp only
  rw [if_neg (by rw [List.length_append]; omega), List.take_left' hbl]
  have : parse (blockBytes v uid.bytes seq payload) = some (blockOf v uid seq payload) := by
    rw [Block.parse_iff]
    have ht : (blockBytes v uid.bytes seq payload).take (blockLen v) = blockBytes v uid.bytes seq payload :=
      List.take_of_length_le (by omega)
    exact ⟨v, uid, seq, payload, [], ⟨ht, hp⟩, by rw [ht, List.append_nil], rfl⟩
  rw [this]

/-- What is seen where a damaged block begins whose header has kept its version. -/
theorem seenAt_broken {v : Version} {bs : List Byte} (hl : bs.length = blockLen v)
    (hh : ∃ crc, ∃ uid : Uid, ∃ seq, headerBytes v crc uid.bytes seq <+: bs) (hno : ∀ uid seq payload, ¬ IsBlock bs v uid seq payload)
    (rest : List Byte) : seenAt (bs ++ rest) = .skip (blockLen v) := by
  have hge := size_ge v
  rw [← blockLen_eq] at hge
  obtain ⟨crc, uid, seq, hpre⟩ := hh
  unfold seenAt
  rw [if_neg (by rw [List.length_append]; omega)]
  have : Header.fromBytes ((bs ++ rest).take 16) = some ⟨v, crc, uid, seq⟩ := by
    rw [Header.fromBytes_iff, List.take_append_of_le_length (by omega)]
    have := List.prefix_iff_eq_take.1 hpre
    rw [headerBytes_length] at this
    exact this.symm
  rw [this]
  simp only
  rw [if_neg (by rw [List.length_append]; omega), List.take_left' hl]
  cases hp : parse bs with
  | none => rfl
  | some b =>
    exfalso
    rw [Block.parse_iff] at hp
    obtain ⟨v', uid', seq', p, rest', h1, h2, -⟩ := hp
    have hpre' : headerBytes v' (checksum v' uid'.bytes seq' p) uid'.bytes seq' <+: bs := by
      refine List.IsPrefix.trans ?_ (List.take_prefix (blockLen v') bs)
      rw [h1.bytes]
      exact List.prefix_append _ _
    have e1 := List.prefix_iff_eq_take.1 hpre
    have e2 := List.prefix_iff_eq_take.1 hpre'
    rw [headerBytes_length] at e1 e2
    have hv : v' = v := by
      have a := (Header.fromBytes_iff _ ⟨v, crc, uid, seq⟩).2 e1.symm
      have b := (Header.fromBytes_iff _ ⟨v', checksum v' uid'.bytes seq' p, uid', seq'⟩).2 e2.symm
      rw [a] at b
      exact (congrArg Header.version (Option.some.inj b)).symm
    subst hv
    rw [List.take_of_length_le (by omega)] at h1
    exact hno _ _ _ h1

/-- A stream of valid blocks and pieces without header shows its blocks first, whatever follows. -/
theorem walk_pieces_append (required : Nat) (ps : List Piece) (hps : ∀ p ∈ ps, p.Ok) (tail : List Byte) :
    ∀ off, off + (ps.flatMap Piece.bytes).length ≤ required →
      walk required off (ps.flatMap Piece.bytes ++ tail) =
        located off ps ++ walk required (off + (ps.flatMap Piece.bytes).length) tail := by
  induction ps with
  | nil =>
    intro off _
    simp [located]
  | cons p ps ih =>
    intro off hoff
    have ih := ih (fun q hq => hps q (List.mem_cons_of_mem _ hq))
    have hp := hps p List.mem_cons_self
    rw [List.flatMap_cons, List.length_append] at hoff
    rw [walk_eq, List.flatMap_cons, List.append_assoc]
    cases p with
    | junk bs =>
      simp only [Piece.bytes] at hoff ⊢
      rcases hp with ⟨hl, hno⟩ | ⟨v, hl, hh, hno⟩
      case inr =>
        rw [if_neg (by have := size_ge v; rw [← blockLen_eq] at this; omega), seenAt_broken hl hh hno]
        simp only [located]
        rw [List.drop_left' hl, hl, ih _ (by omega), List.length_append, hl, Nat.add_assoc]
      rw [if_neg (by omega)]
      have hs : seenAt (bs ++ (ps.flatMap Piece.bytes ++ tail)) = .skip 128 := by
        unfold seenAt
        rw [if_neg (by rw [List.length_append]; omega)]
        have : Header.fromBytes ((bs ++ (ps.flatMap Piece.bytes ++ tail)).take 16) = none := by
          rw [List.take_append_of_le_length (by omega)]
          cases hh : Header.fromBytes (bs.take 16) with
          | none => rfl
          | some hd =>
            rw [Header.fromBytes_iff] at hh
            exact absurd (hh ▸ List.take_prefix 16 bs) (hno _ _ _ _)
        rw [this]
      rw [hs]
      simp only [located]
      rw [hl, List.drop_append_of_le_length (by omega), List.drop_of_length_le (by omega), List.nil_append, ih _ (by omega),
        List.length_append, hl, Nat.add_assoc]
    | block v uid seq payload =>
      simp only [Piece.Ok] at hp
      simp only [Piece.bytes] at hoff ⊢
      have hge := size_ge v
      rw [← blockLen_eq] at hge
      have hbl : (blockBytes v uid.bytes seq payload).length = blockLen v := by
        rw [blockBytes_length, hp]; omega
      rw [if_neg (by omega), seenAt_block hp]
      simp only [located]
      rw [List.drop_left' hbl, ih _ (by omega), List.length_append, hbl, Nat.add_assoc, List.cons_append]

/-- If what follows is shorter than a unit of the scan, exactly these. -/
theorem walk_pieces (required : Nat) (ps : List Piece) (hps : ∀ p ∈ ps, p.Ok) (tail : List Byte) (ht : tail.length < 128) :
    ∀ off, off + (ps.flatMap Piece.bytes).length ≤ required →
      walk required off (ps.flatMap Piece.bytes ++ tail) = located off ps := by
  intro off h
  have : walk required (off + (ps.flatMap Piece.bytes).length) tail = [] := by
    rw [walk_eq]
    split
    · rfl
    · simp [seenAt, ht]
  rw [walk_pieces_append required ps hps tail off h, this, List.append_nil]

/-- A walk that meets a block at once. -/
theorem walk_block {required off : Nat} {v : Version} {uid : Uid} {seq : UInt32} {payload : List Byte} (hp : payload.length = blockLen v - 16)
    (rest : List Byte) (h : off < required) :
    walk required off (blockBytes v uid.bytes seq payload ++ rest) =
      (off, blockOf v uid seq payload) :: walk required (off + blockLen v) rest := by
  have hge := size_ge v
  rw [← blockLen_eq] at hge
  have hbl : (blockBytes v uid.bytes seq payload).length = blockLen v := by
    rw [blockBytes_length, hp]; omega
  rw [walk_eq, if_neg (by omega), seenAt_block hp]
  simp only
  rw [List.drop_left' hbl]

end Scan
end Verif
