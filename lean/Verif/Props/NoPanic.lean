import Verif.Lemmas.NoPanic
import Verif.Props.ReportMore
/-!
# C61: no file makes a command panic

`.error .panic` (or `none`) is what the models return where the code would panic: a failed `unwrap` or assertion, a slice out of
range, an impossible Reed-Solomon setting.  The theorems below are about *every* file: nothing is assumed about its contents.
-/

namespace Verif.NoPanic
open Format Scan ScanSpec Layout LayoutSpec Misc

/-! ### Blocks and settings taken from the file -/

/-- **C61.** Whatever the bytes: reading a block never panics, if it is read the way the commands do it, i.e. a whole block of the size
that goes with the reference block, with the predicate that version and uid are those of the reference block. -/
theorem C61_block_read (b ref : Block) (buf : List Byte) (hl : ref.header.version.blockSize ≤ buf.length) :
    (b.syncFrom buf (some (sameVerUid ref)) none).2 ≠ some .panic := by
  have h16 := FileUtils.dataSize_pos ref.header.version
  have hs : ref.header.version.blockSize = ref.header.version.dataSize + 16 := by cases ref.header.version <;> rfl
  unfold Block.syncFrom
  split
  · rename_i e he
    unfold Block.syncHeader at he
    rw [if_neg (by omega)] at he
    split at he
    · simp only [Except.error.injEq] at he
      rw [← he]; simp
    · cases he
  · rename_i b' hb'
    split
    · simp
    · rename_i hp
      simp only [Block.optPred, Bool.not_eq_true', Bool.not_eq_false] at hp
      have hv : b'.header.version = ref.header.version := by
        unfold sameVerUid at hp
        simp only [Bool.and_eq_true, decide_eq_true_eq] at hp
        exact hp.1.symm
      split
      · rename_i hlt
        unfold Block.size at hlt
        rw [hv] at hlt
        omega
      · split
        · simp
        · simp only
          split <;> simp

/-- **C61.** Neither does reading blocks of any size and container, as `show`, `rescue` and the search for a reference block do it: the
first 128 bytes, and then the rest of the block whose header is there. -/
theorem C61_block_read_any (b b' : Block) (bytes rest : List Byte) (hl : 16 ≤ bytes.length) (h : b.syncHeader bytes = .ok b')
    (hw : b'.size ≤ (bytes ++ rest).length) :
    b.syncHeader bytes ≠ .error .panic ∧ (b'.syncFrom (bytes ++ rest) none none).2 ≠ some .panic := by
  refine ⟨by rw [h]; simp, ?_⟩
  have ht : (bytes ++ rest).take 16 = bytes.take 16 := by
    rw [List.take_append, show 16 - bytes.length = 0 by omega]; simp
  unfold Block.syncHeader at h
  rw [if_neg (by omega)] at h
  split at h
  · cases h
  rename_i hd hhd
  simp only [Except.ok.injEq] at h
  unfold Block.syncFrom Block.syncHeader
  rw [if_neg (by rw [List.length_append]; omega), ht, hhd]
  simp only [Block.optPred, Bool.not_true, Bool.false_eq_true, if_false]
  have hsz : (Block.matchHeader { b' with header := hd }).size = b'.size := by
    rw [← h]
    unfold Block.size
    have e : ∀ x : Block, (Block.matchHeader x).header = x.header := by
      intro x; unfold Block.matchHeader Block.switchType; split <;> (try split) <;> rfl
    rw [e, e]
  rw [if_neg (by rw [hsz]; omega)]
  split
  · simp
  · simp

/-- **C61.** The shard numbers taken from a file are ones Reed-Solomon works with (`ReedSolomon::new(..).unwrap()` does not panic) and
none of the divisors computed from them is 0. -/
theorem C61_shards (q : RefParam) (choice : RefChoice) (offset aligned : Bool) (f : File) (stop : Nat → Bool) (stopped : Bool) (pos : Nat) (ref : Block)
    (hr : (if aligned then getRefBlockAligned q choice f stop stopped else getRefBlockM q choice f stop stopped) = .ok (pos, ref)) (d : Dpb)
    (hd : dataParBurst q offset f ref = .ok (some d)) :
    1 ≤ d.data ∧ 1 ≤ d.parity ∧ d.data + d.parity ≤ 256 ∧ (1 ≤ d.burst → 0 < (d.data + d.parity) * d.burst) ∧
      ∃ c, Repair.Codec.new ref d = .ok c := by
  have hblk : ∃ v uid seq p, ref = blockOf v uid seq p := by
    have hx : ∃ a b c, getRefBlock f a b c choice stop = some (pos, ref) := by
      split at hr
      · unfold getRefBlockAligned at hr
        split at hr
        · split at hr <;> cases hr
        · rename_i x hx
          simp only [Except.ok.injEq] at hr
          rw [hr] at hx; exact ⟨_, _, _, hx⟩
      · unfold getRefBlockM at hr
        split at hr
        · split at hr <;> cases hr
        · rename_i x hx
          simp only [Except.ok.injEq] at hr
          rw [hr] at hx; exact ⟨_, _, _, hx⟩
    obtain ⟨a, b, c, hx⟩ := hx
    obtain ⟨v, uid, seq, p, -, h⟩ := (C34_interrupted f a b c choice stop _ rfl).2 _ _ hx
    exact ⟨v, uid, seq, p, h⟩
  obtain ⟨v, uid, seq, p, rfl⟩ := hblk
  have hsh := Decode.dataParBurst_shards hd
  simp only [Option.map_some] at hsh
  have key : 1 ≤ d.data ∧ 1 ≤ d.parity ∧ d.data + d.parity ≤ 256 := by
    split at hsh
    · by_cases hs : seq = 0
      · subst hs
        rw [getRsd_meta (Repair.metas_blockOf v uid p), getRsp_meta (Repair.metas_blockOf v uid p)] at hsh
        split at hsh
        · rename_i a b ha hb
          simp only [Except.ok.injEq] at ha hb
          simp only [Option.some.injEq, Prod.mk.injEq] at hsh
          obtain ⟨rfl, rfl⟩ := hsh
          exact Repair.shards_ok ha hb
        · cases hsh
      · have : getRsd (blockOf v uid seq p) = .error .incorrectBlockType := by
          unfold getRsd blockOf; simp [hs]
        rw [this] at hsh
        simp at hsh
    · cases hsh
  obtain ⟨h1, h2, h3⟩ := key
  refine ⟨h1, h2, h3, fun hb => Nat.mul_pos (by omega) hb, ?_⟩
  unfold Repair.Codec.new
  rw [if_neg (by omega)]
  exact ⟨_, rfl⟩

theorem dataParBurst_no_panic (q : RefParam) (offset : Bool) (f : File) (ref : Block) : dataParBurst q offset f ref ≠ .error .panic := by
  have h1 : ∀ b : Block, fieldOrErr (getRsd b) ≠ .error .panic := by
    intro b
    unfold getRsd
    split
    · simp [fieldOrErr]
    · unfold fieldOrErr
      split <;> simp_all
  have h2 : ∀ b : Block, fieldOrErr (getRsp b) ≠ .error .panic := by
    intro b
    unfold getRsp
    split
    · simp [fieldOrErr]
    · unfold fieldOrErr
      split <;> simp_all
  have h3 : ∀ a b, guessBurst f a b ref ≠ .error .panic := by
    intro a b
    unfold guessBurst
    split
    · simp
    · split
      · rename_i e he; intro h; cases h; exact h1 _ he
      · split
        · rename_i e he; intro h; cases h; exact h2 _ he
        · simp
  unfold dataParBurst
  split
  · split
    · rename_i e he; intro h; cases h; exact h1 _ he
    · split
      · rename_i e he; intro h; cases h; exact h2 _ he
      · split
        · rename_i e he
          intro h; cases h
          unfold burstOrGuess at he
          repeat' split at he
          all_goals first
            | (rename_i he'; simp only [Except.error.injEq] at he; subst he; exact h3 _ _ he')
            | cases he
        · simp
  · simp

theorem ref_no_panic {q : RefParam} {choice : RefChoice} {f : File} {stop : Nat → Bool} {stopped : Bool} :
    getRefBlockM q choice f stop stopped ≠ .error .panic ∧ getRefBlockAligned q choice f stop stopped ≠ .error .panic := by
  constructor
  · unfold getRefBlockM
    split
    · split <;> simp
    · simp
  · unfold getRefBlockAligned
    split
    · split <;> simp
    · simp

/-! ### The commands -/

/-- **C61.** `decode` into a file does not panic, whatever the container and the old output file contain and whenever it is
interrupted. -/
theorem C61_decode_file (E : Decode.Env) (hE : 0 < E.lotCount) (p : Decode.Param) (f old : File) :
    Decode.toFile E p f old ≠ .error .panic := by
  unfold Decode.toFile
  split
  · rename_i e he; intro h; cases h; exact ref_no_panic.1 he
  · rename_i pos ref hr
    split
    · rename_i e he
      intro h; cases h
      cases hd : dataParBurst p.ref true f ref with
      | error e =>
        unfold Decode.decodeFile at he
        rw [hd] at he
        cases he
        exact dataParBurst_no_panic _ _ _ _ hd
      | ok dpb =>
        obtain ⟨m, -, -, h⟩ := Decode.decodeFile_spec E hE p ref f old dpb hd
        rw [h] at he; cases he
    · simp

/-- **C61.** Neither does `decode` to standard output. -/
theorem C61_decode_stdout (E : Decode.Env) (hE : 0 < E.lotCount) (p : Decode.Param) (f : File) :
    Decode.toStdout E p f ≠ .error .panic := by
  unfold Decode.toStdout
  split
  · rename_i e he; intro h; cases h; exact ref_no_panic.1 he
  · rename_i pos ref hr
    split
    · rename_i e he
      intro h; cases h
      unfold Decode.decodeStdout at he
      cases hd : dataParBurst p.ref true f ref with
      | error e =>
        rw [hd] at he
        cases he
        exact dataParBurst_no_panic _ _ _ _ hd
      | ok dpb =>
        rw [hd] at he
        simp only at he
        split at he
        · rename_i ho
          by_cases hb : ∃ d, dpb = some d ∧ p.ref.fromPos = none ∧ p.ref.toPos = none
          · obtain ⟨d, rfl, hf, ht⟩ := hb
            unfold Decode.outThreads at ho
            rw [hf, ht] at ho
            simp only at ho
            obtain ⟨a, -, -, hm⟩ := Decode.metaPass_any E.stop f ref (metaAllPos ref.header.version (some d)) 0 Block.dummy Decode.Stats.zero
            rw [hm] at ho
            simp only at ho
            obtain ⟨n', fs, rF, m, g1, g2, g3, g4, g5, g6⟩ := Decode.any_runs (Decode.burst_iter E.stop f ref d) lastSeqNum 0 _ (by omega)
              (show (⟨1, 0, 0 + a, _⟩ : Decode.OutSt).next = 1 + 0 ∧ 0 < lastSeqNum from ⟨rfl, by decide⟩)
            obtain ⟨hs', out', e⟩ := Decode.threads_stats (fuel := 2 ^ 32 + f.length + 3) hE g2 (by unfold lastSeqNum at g1; omega) g6
            rw [e] at ho; cases ho
          · obtain ⟨n', fs, rF, m, g1, g2, g3, g4, g5, g6⟩ := Decode.any_runs
              (Decode.seq_iter E.stop f (Decode.rangeOf p.ref ref f).seekTo (Decode.rangeOf p.ref ref f).requiredLen ref dpb
                (guessStart E.order f p.ref.fromPos p.ref.forceMisalign ref dpb))
              (DecodeSpec.places ref f (Decode.rangeOf p.ref ref f).seekTo (Decode.rangeOf p.ref ref f).requiredLen) 0
              ⟨guessStart E.order f p.ref.fromPos p.ref.forceMisalign ref dpb, 0, 0, Decode.Stats.zero⟩ (by omega) ⟨rfl, by simp, Nat.zero_le _⟩
            have hpl : DecodeSpec.places ref f (Decode.rangeOf p.ref ref f).seekTo (Decode.rangeOf p.ref ref f).requiredLen ≤ f.length := by
              unfold DecodeSpec.places
              exact Nat.le_trans (Nat.min_le_right _ _) (Nat.le_trans (Nat.div_le_self _ _) (Nat.sub_le _ _))
            obtain ⟨hs', out', e⟩ := Decode.threads_stats (fuel := 2 ^ 32 + f.length + 3) hE g2 (by omega) g6
            have : Decode.outThreads E p ref f dpb (Decode.midThread ref) (2 ^ 32 + f.length + 3) = some (rF, hs', out') := by
              rw [← e]
              unfold Decode.outThreads
              split
              · rename_i h1 h2 h3
                exact absurd ⟨_, rfl, h2, h3⟩ hb
              · rfl
            rw [this] at ho; cases ho
        · cases he
    · simp

/-- **C61.** Neither does `sort`. -/
theorem C61_sort (E : Sort.Env) (hE : 0 < E.lotCount) (p : Sort.Param) (f old : File) : Sort.sortFile E p f old ≠ .error .panic := by
  unfold Sort.sortFile
  split
  · rename_i e he; intro h; cases h; exact ref_no_panic.1 he
  · rename_i pos ref hr
    split
    · rename_i e he; intro h; cases h; exact dataParBurst_no_panic _ _ _ _ he
    · rename_i dpb hd
      obtain ⟨m, -, -, A, B, out, fin, -, -, h, -⟩ := Sort.sortWith_spec E hE p ref dpb f old
      rw [h]; simp

/-- **C61.** Neither does `check`, nor the computation of the hash of the contents, unless the size recorded is 0. -/
theorem C61_check (E : Check.Env) (hE : 0 < E.lotCount) (p : Check.Param) (f : File) :
    Check.checkFile E p f ≠ .error .panic ∧
    ∀ R, Check.checkFile E p f = .ok R → ∀ pos ref, getRefBlockM p.ref p.ref.refChoice f E.stopRef (E.stopCheck 0) = .ok (pos, ref) →
      getFsz ref ≠ .ok (some 0) → ∀ h, R.hash = some h → h.2 ≠ .error .panic := by
  have hw : ∀ ref, Check.hashWanted p ref ≠ .error .panic := by
    intro ref
    unfold Check.hashWanted
    split
    · simp
    · split
      · simp
      · simp
      · rename_i n hn
        split
        · rename_i e he
          unfold getFsz at hn
          unfold getHsh at he
          split at hn
          · cases hn
          · rename_i hb; rw [hb] at he; cases he
        · simp
        · split <;> simp
  unfold Check.checkFile
  split
  · rename_i e he
    exact ⟨fun h => by cases h; exact ref_no_panic.1 he, fun R h => by cases h⟩
  · rename_i pos ref hr
    split
    · rename_i e he
      exact ⟨fun h => by cases h; exact hw _ he, fun R h => by cases h⟩
    · rename_i wanted hwa
      refine ⟨by simp, fun R h pos' ref' hr' hz x hx => ?_⟩
      rw [hr] at hr'
      simp only [Except.ok.injEq, Prod.mk.injEq] at hr' h
      obtain ⟨rfl, rfl⟩ := hr'
      subst h
      simp only at hx
      obtain ⟨⟨n, hb⟩, rfl, rfl⟩ := Option.map_eq_some_iff.1 hx
      simp only
      unfold Check.hashStored
      split
      · rename_i e he; intro h; cases h; exact dataParBurst_no_panic _ _ _ _ he
      · refine ContentHash.hash_no_panic E.hash hE E.stopHash _ f ref _ ?_
        rcases Nat.eq_zero_or_pos n with h0 | h0
        · exfalso
          subst h0
          unfold Check.hashWanted at hwa
          split at hwa
          · cases hwa
          · split at hwa
            · cases hwa
            · cases hwa
            · rename_i m hm
              split at hwa
              · cases hwa
              · cases hwa
              · split at hwa
                · simp only [Except.ok.injEq, Option.some.injEq, Prod.mk.injEq] at hwa
                  rw [hwa.1] at hm
                  exact hz hm
                · cases hwa
        · exact h0

/-- **C61.** Neither does `repair`. -/
theorem C61_repair (E : Repair.Env) (laws : E.rs.Laws) (burst : Option Nat) (dry : Bool) (f : File) :
    Repair.repairFile E burst dry f ≠ .error .panic := by
  intro h
  have h0 := h
  unfold Repair.repairFile at h
  simp only at h
  split at h
  · rename_i e he; cases h; exact ref_no_panic.2 he
  · rename_i pos ref href
    obtain ⟨v, uid, mp, rfl, hb⟩ := Repair.ref_inv href
    have hfound : getRefBlock f none none false (.mustBe .metadata) E.stopRef = some (pos, blockOf v uid 0 mp) := by
      unfold getRefBlockAligned at href
      split at href
      · split at href <;> simp at href
      · rename_i y hy
        simp only [Except.ok.injEq] at href
        rw [hy, href]
    split at h
    · rename_i hrs
      split at h
      · rename_i e he; cases h; exact dataParBurst_no_panic _ _ _ _ he
      · rename_i hd
        unfold dataParBurst at hd
        rw [if_pos hrs] at hd
        repeat' split at hd
        all_goals cases hd
      · rename_i d hd
        have hd' := hd
        unfold dataParBurst at hd
        rw [if_pos hrs, getRsd_meta (Repair.metas_blockOf v uid mp), getRsp_meta (Repair.metas_blockOf v uid mp)] at hd
        cases h1 : firstRsd (metasFromBytes mp) with
        | none => rw [h1] at hd; simp [fieldOrErr] at hd
        | some a =>
          cases h2 : firstRsp (metasFromBytes mp) with
          | none => rw [h1, h2] at hd; simp [fieldOrErr] at hd
          | some b =>
            rw [h1, h2] at hd
            simp only [fieldOrErr, Bool.false_eq_true, if_false, Bool.false_and] at hd
            cases h3 : burstOrGuess burst none false f (blockOf v uid 0 mp) with
            | error e => rw [h3] at hd; simp at hd
            | ok c =>
              rw [h3] at hd
              simp only [Except.ok.injEq, Option.some.injEq] at hd
              subst hd
              obtain ⟨mp', r1, r2, r3⟩ := C06_parsed_rewritable mp
              have hl := hb.len
              have hset : Repair.Setup E burst f v uid mp mp' ⟨a, b, c⟩ _ :=
                ⟨⟨pos, hfound, hb⟩, hrs, h1, h2, h3, rfl, by rw [← hl]; exact r1, by rw [r2, hl], r3⟩
              obtain ⟨dk', st', -, -, -, -, hrw, -⟩ := Repair.run_of_setup laws dry hset
              rw [Repair.ok_of_setup dry hset hrw] at h0
              cases h0
    · cases h

/-- **C61.** Neither does `update`, if a hash is asked for only of a type that can be computed (as the command line ensures) and only
of a container whose recorded size is not 0. -/
theorem C61_update (E : Update.Env) (hE : 0 < E.lotCount) (p : Update.Param) (ht : ∀ t, p.hashType = some t → t.supported = true) (f : File)
    (hz : ∀ pos ref, getRefBlockAligned p.ref (.mustBe .metadata) f E.stopRef (E.stopTest 0) = .ok (pos, ref) →
      p.hashType = none ∨ getFsz ref ≠ .ok (some 0)) :
    (Update.updateFile E p f).2 ≠ .error .panic := by
  have hub : ∀ ref dpb upd rem w stop d, (Update.updateBlocks ref dpb upd rem w stop d).2 ≠ .error .panic := by
    intro ref dpb upd rem w stop d
    rw [Update.updateBlocks_spec]
    simp only
    split <;> simp
  unfold Update.updateFile
  simp only
  split
  · rename_i e he; intro h; cases h; exact ref_no_panic.2 he
  · rename_i pos ref hr
    split
    · rename_i e he
      intro h; cases h
      unfold Update.sizeFor at he
      repeat' split at he
      all_goals (try cases he)
      rename_i t ht' _ _ _ hn
      exact hn (ht t ht')
    · rename_i size hs
      split
      · rename_i e he; intro h; cases h; exact dataParBurst_no_panic _ _ _ _ he
      · rename_i dpb hd
        split
        · rename_i d e he
          intro h; cases h
          have := hub ref dpb p.update p.remove false E.stopTest ⟨f, []⟩
          rw [he] at this; exact this rfl
        · rename_i d st he
          split
          · rename_i e hfe
            intro h; cases h
            unfold Update.fieldsFor at hfe
            split at hfe
            · cases hfe
            · rename_i t n
              split at hfe
              · rename_i e hh
                cases hfe
                refine ContentHash.hash_no_panic E.hash hE E.stopHash _ _ _ _ ?_ hh
                rcases Nat.eq_zero_or_pos n with h0 | h0
                · exfalso
                  subst h0
                  unfold Update.sizeFor at hs
                  split at hs
                  · cases hs
                  · rename_i t' ht'
                    split at hs
                    · cases hs
                    · cases hs
                    · rename_i m hm
                      split at hs
                      · simp only [Except.ok.injEq, Option.some.injEq, Prod.mk.injEq] at hs
                        rw [hs.2] at hm
                        rcases hz pos ref hr with h | h
                        · rw [h] at ht'; cases ht'
                        · exact h hm
                      · cases hs
                · exact h0
              · cases hfe
          · exact hub _ _ _ _ _ _ _

/-- **C61.** `show` never meets a block without fields (`get_FNM().unwrap()` etc. do not panic). -/
theorem C61_show (utc loc : Int64 → Option Json.Str) (f : File) (fromPos : Option Nat) (toPos : Option RangeEnd) (mis : Bool)
    (uid : Option Uid) (showAll : Bool) (stop : Nat → Bool) :
    Json.blocksMsgs utc loc 0 (showFile f fromPos toPos mis uid showAll stop) ≠ none := by
  have key : ∀ (l : List (Nat × Block)) (k : Nat), (∀ x ∈ l, x.2.blockType = .metadata) → Json.blocksMsgs utc loc k l ≠ none := by
    intro l
    induction l with
    | nil => intro k _; simp [Json.blocksMsgs]
    | cons x l ih =>
      intro k h
      obtain ⟨pos, b⟩ := x
      have hb := h _ List.mem_cons_self
      unfold Json.blocksMsgs
      split
      · rename_i hd
        simp [Block.blockType, hd] at hb
      · have := ih (k + 1) fun x hx => h x (List.mem_cons_of_mem _ hx)
        simpa using this
  exact key _ _ fun x hx => ((Json.showFile_bounds f fromPos toPos mis uid showAll stop).1 x hx).2

/-! ### Examples and what goes wrong -/

open Decode in
/-- A metadata block which records the size `n` and a hash, and a data block. -/
def sizedFile (n : UInt64) : File :=
  tinyBlock .v2 0 ((metasToBytes [.fsz n, .hsh ⟨.sha256, List.replicate 32 1, List.length_replicate⟩] 112).getD []) ++
    tinyBlock .v2 1 (List.replicate 112 7)

/-- The numbers a file gives, with `none` for an error. -/
def shards (f : File) : Option (Option Dpb) :=
  match getRefBlockM Decode.tinyParam.ref (.prefer .metadata) f (fun _ => false) false with
  | .error _ => none
  | .ok (_, ref) => match dataParBurst Decode.tinyParam.ref true f ref with | .ok d => some d | .error _ => none

set_option maxRecDepth 1000000 in
example : shards Decode.mixedFile = some (some ⟨1, 1, 0⟩) := by decide +kernel

open Decode in
set_option maxRecDepth 1000000 in
/-- Recorded shard numbers 0 and 5, and 200 and 100, are refused. -/
example : shards (tinyBlock .v18 0 ((metasToBytes [.rsd 0, .rsp 5] 112).getD [])) = none ∧
    shards (tinyBlock .v18 0 ((metasToBytes [.rsd 200, .rsp 100] 112).getD [])) = none := by decide +kernel

/-- How decoding to a file ends. -/
def decodeError (f : File) : Option Err := match Decode.toFile Decode.tinyEnv Decode.tinyParam f [] with | .ok _ => none | .error e => some e

set_option maxRecDepth 1000000 in
/-- Garbage is refused, a container of garbage is not. -/
example : decodeError (List.replicate 300 0x53) ≠ none ∧ decodeError Decode.mixedFile = none := by decide +kernel

def checkEnv : Check.Env := ⟨Decode.tinyHash, 1, fun _ => false, fun _ => false, fun _ => false⟩
def checkParam : Check.Param := ⟨Decode.tinyParam.ref, false, false, .hashOnly⟩

/-- How the computation of the hash in `check` ends: with a hash, an error, or a panic. -/
def checkHash (f : File) : Option (Option Err) :=
  match Check.checkFile checkEnv checkParam f with
  | .error _ => none
  | .ok R => R.hash.map fun h => match h.2 with | .ok _ => none | .error e => some e

set_option maxRecDepth 1000000 in
/-- The hash of the 100 bytes there are is computed ... -/
example : checkHash (sizedFile 100) = some none := by decide +kernel

set_option maxRecDepth 1000000 in
/-- ... and that of 200 bytes is an error. -/
example : checkHash (sizedFile 200) = some (some .other) := by decide +kernel

set_option maxRecDepth 1000000 in
/-- **C61 is violated.** If the recorded size is 0 and yet there is a data block, then `check --hash` panics: the content length 0 of the
last block fails the assertion of `src/data_block_buffer/mod.rs` 436. -/
theorem C61_check_zero_size_violated : checkHash (sizedFile 0) = some (some .panic) := by decide +kernel

def updateEnv : Update.Env := ⟨Decode.tinyHash, 1, fun _ => false, fun _ => false, fun _ => false, fun _ => false⟩
def updateParam : Update.Param := ⟨false, [.hsh ⟨.sha256, List.replicate 32 0, List.length_replicate⟩], [], some .sha256, none⟩

/-- How `update` ends. -/
def updateResult (f : File) : Option Err :=
  match (Update.updateFile updateEnv updateParam f).2 with
  | .ok _ => none
  | .error e => some e

set_option maxRecDepth 1000000 in
example : updateResult (sizedFile 100) = none := by decide +kernel

set_option maxRecDepth 1000000 in
/-- **C61 is violated** in the same way by `update` when a hash is asked for. -/
theorem C61_update_zero_size_violated : updateResult (sizedFile 0) = some .panic := by decide +kernel

end Verif.NoPanic
