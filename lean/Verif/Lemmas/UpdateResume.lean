import Verif.Props.Update
import Verif.Lemmas.RepairScan
/-!
# Lemmas about running `update` again (C52)
-/

namespace Verif.Update
open Format UpdateSpec RepairSpec ScanSpec Scan Layout Repair LayoutSpec ContainerSpec

theorem inPlace_self {upd ms : List Metadata}
    (h : ∀ m ∈ ms, ∀ x, lastFor upd m.id = some x → getMeta ms m.id = some x) : inPlace upd ms = ms := by
  apply List.ext_getElem?
  intro i
  rw [inPlace_get]
  cases hi : ms[i]? with
  | none => rfl
  | some m =>
    simp only [Option.map_some, Option.some.injEq]
    split
    · rfl
    · rename_i hnot
      cases hl : lastFor upd m.id with
      | none => rfl
      | some x =>
        have hg := h m (List.mem_of_getElem? hi) x hl
        have hnone : (ms.take i).find? (fun y => decide (y.id = m.id)) = none := by
          rw [List.find?_eq_none]
          intro y hy
          simp only [decide_eq_true_eq]
          intro e
          exact hnot (by rw [← e]; exact List.mem_map_of_mem hy)
        have hsplit : ms.find? (fun y => decide (y.id = m.id)) = some m := by
          obtain ⟨hlt, hm⟩ := List.getElem?_eq_some_iff.1 hi
          have e : ms = ms.take i ++ m :: ms.drop (i + 1) := by
            rw [← hm, List.getElem_cons_drop, List.take_append_drop]
          rw [e, List.find?_append, hnone]
          simp
        unfold getMeta at hg
        rw [hsplit] at hg
        simpa using hg.symm

/-- The same request again changes nothing more. -/
theorem changed_again (upd : List Metadata) (rem : List MetaId) (ms : List Metadata) :
    changed upd rem (changed upd rem ms) = changed upd rem ms := by
  set ms' := changed upd rem ms with hms'
  have h1 : inPlace upd ms' = ms' := by
    apply inPlace_self
    intro m hm x hx
    exact changed_get hx (changed_mem hm).2
  rw [show changed upd rem ms' = (inPlace upd ms' ++ added upd ms').filter fun m => m.id ∉ rem from rfl, h1, List.filter_append]
  have h2 : ms'.filter (fun m => m.id ∉ rem) = ms' := by
    rw [List.filter_eq_self]
    intro m hm
    simpa using (changed_mem hm).2
  have h3 : (added upd ms').filter (fun m => m.id ∉ rem) = [] := by
    rw [List.filter_eq_nil_iff]
    intro m hm hr
    obtain ⟨a, b⟩ := added_mem hm
    have hr' : m.id ∉ rem := by simpa using hr
    exact absurd (changed_get a hr') (by rw [getMeta_none.2 b]; simp)
  rw [h2, h3, List.append_nil]

/-! ### Which reference block is found -/

/-- In a file of whole places, each holding a block of the container, the rest of one, or nothing that looks like a block, the scan for
a metadata block finds one of those that are there. -/
theorem found_any {v : Version} {uid : Uid} {f : File} (hal : blockLen v ∣ f.length) {stop : Nat → Bool} (hstop : ∀ k, stop k = false)
    (hpl : ∀ k, k * blockLen v < f.length → (∃ seq p, IsBlock (piece v f k) v uid seq p) ∨ Broken v (piece v f k)) :
    (∀ k p, k * blockLen v < f.length → IsBlock (piece v f k) v uid 0 p →
      ∃ pos k' mp, getRefBlock f none none false (.mustBe .metadata) stop = some (pos, blockOf v uid 0 mp) ∧
        k' * blockLen v < f.length ∧ IsBlock (piece v f k') v uid 0 mp) ∧
    ((∀ k p, k * blockLen v < f.length → ¬ IsBlock (piece v f k) v uid 0 p) →
      getRefBlock f none none false (.mustBe .metadata) stop = none) := by
  obtain ⟨n, hn⟩ := hal
  rw [Nat.mul_comm] at hn
  have hu := blockLen_pos v
  have hlen : ∀ k, k < n → (piece v f k).length = blockLen v := by
    intro k hk
    refine piece_full ?_
    rw [hn]; exact Nat.mul_le_mul_right _ hk
  have hin : ∀ k, k * blockLen v < f.length ↔ k < n := by
    intro k
    rw [hn]
    exact Nat.mul_lt_mul_right hu
  have hspec : ∀ k, k < n → _ := fun k hk => piecesAt_spec (uid := uid) (hlen k hk) (hpl k ((hin k).2 hk))
  have hbytes : ((List.range n).flatMap fun k => piecesAt v uid (piece v f k)).flatMap Piece.bytes = f := by
    have e : ((List.range n).flatMap fun k => piecesAt v uid (piece v f k)).flatMap Piece.bytes =
        (List.range n).flatMap fun k => (f.drop (k * blockLen v)).take (blockLen v) := by
      rw [List.flatMap_assoc, List.flatMap_def, List.flatMap_def]
      congr 1
      apply List.map_congr_left
      intro k hk
      rw [List.mem_range] at hk
      exact (hspec k hk).2.1
    rw [e]
    exact flatMap_slices _ n f hn
  set ps := (List.range n).flatMap fun k => piecesAt v uid (piece v f k) with hpsdef
  have hok : ∀ p ∈ ps, p.Ok := by
    intro p hp
    rw [List.mem_flatMap] at hp
    obtain ⟨k, hk, hp⟩ := hp
    exact (hspec k (List.mem_range.1 hk)).1 p hp
  have harch := C34_archive ps [] hok (by simp) (.mustBe .metadata) stop hstop
  rw [List.append_nil, hbytes] at harch
  have hmem : ∀ pos b, chosen (.mustBe .metadata) (located 0 ps) = some (pos, b) →
      ∃ k' mp, b = blockOf v uid 0 mp ∧ k' * blockLen v < f.length ∧ IsBlock (piece v f k') v uid 0 mp := by
    intro pos b hx
    have hm : (pos, b) ∈ located 0 ps := List.mem_of_find?_eq_some hx
    have htype := List.find?_some hx
    simp only [decide_eq_true_eq] at htype
    obtain ⟨-, v', uid', seq', mp', h1, rfl, -⟩ := located_mem ps 0 pos b hok hm
    have h0 : seq' = 0 := by
      by_contra hne
      simp [blockOf, Block.blockType, hne] at htype
    subst h0
    rw [hpsdef, List.mem_flatMap] at h1
    obtain ⟨k, hk, hp⟩ := h1
    rw [List.mem_range] at hk
    obtain ⟨rfl, rfl, hb⟩ := (hspec k hk).2.2.1 _ _ _ _ hp
    exact ⟨k, mp', rfl, (hin k).2 hk, hb⟩
  constructor
  · intro k p hk hb
    have hk' := (hin k).1 hk
    obtain ⟨p', h1, rfl⟩ := (hspec k hk').2.2.2 0 p hb rfl
    obtain ⟨pos0, h0⟩ := located_of_mem ps 0 v uid 0 p' (List.mem_flatMap.2 ⟨k, List.mem_range.2 hk', h1⟩)
    have hsome : ∃ x, chosen (.mustBe .metadata) (located 0 ps) = some x := by
      show ∃ x, List.find? _ _ = some x
      rw [← Option.isSome_iff_exists, List.find?_isSome]
      exact ⟨_, h0, by simp [blockOf, Block.blockType]⟩
    obtain ⟨⟨pos, b⟩, hx⟩ := hsome
    obtain ⟨k', mp, rfl, a, c⟩ := hmem _ _ hx
    exact ⟨pos, k', mp, by rw [harch, hx], a, c⟩
  · intro hno
    rw [harch]
    cases hx : chosen (.mustBe .metadata) (located 0 ps) with
    | none => rfl
    | some x =>
      obtain ⟨k', mp, -, a, c⟩ := hmem x.1 x.2 hx
      exact absurd c (hno k' mp a)

/-- Guessing the burst level depends on the sequence numbers of the blocks and the recorded shard counts only. -/
theorem guess_congr {f g : File} {ref : Block}
    (h : ∀ k, (blockAt ref f (k * blockLen ref.header.version)).map (·.header.seq) =
      (blockAt ref g (k * blockLen ref.header.version)).map (·.header.seq)) :
    guessBurst f none false ref = guessBurst g none false ref := by
  unfold guessBurst
  simp only [sampleLoop_spec]
  have : ∀ j, ((blockAt ref f (guessFromPos ref.size false none + j * ref.size)).bind fun b => some b.header.seq.toNat) =
      (blockAt ref g (guessFromPos ref.size false none + j * ref.size)).bind fun b => some b.header.seq.toNat := by
    intro j
    have hj := h j
    unfold Block.size guessFromPos
    rw [blockLen_eq] at hj
    rw [Nat.zero_add]
    cases h1 : blockAt ref f (j * ref.header.version.blockSize) with
    | none => cases h2 : blockAt ref g (j * ref.header.version.blockSize) with
      | none => rfl
      | some b => rw [h1, h2] at hj; simp at hj
    | some a => cases h2 : blockAt ref g (j * ref.header.version.blockSize) with
      | none => rw [h1, h2] at hj; simp at hj
      | some b =>
        rw [h1, h2] at hj
        simp only [Option.map_some, Option.some.injEq] at hj
        simp [hj]
  simp only [this]

end Verif.Update
