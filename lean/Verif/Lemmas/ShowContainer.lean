import Verif.Lemmas.Guess
import Verif.Lemmas.RepairFile
import Verif.Props.Scan
/-!
# The blocks seen by a scan of a container
-/

namespace Verif.Scan
open Format ContainerSpec LayoutSpec ScanSpec Layout

theorem located_append : ∀ (a b : List Piece) (off : Nat), (∀ p ∈ a, p.Ok) →
    located off (a ++ b) = located off a ++ located (off + (a.flatMap Piece.bytes).length) b
  | [], b, off, _ => by simp [located]
  | .junk bs :: a, b, off, h => by
    simp only [List.cons_append, located, List.flatMap_cons, List.length_append, Piece.bytes]
    rw [located_append a b _ (fun p hp => h p (List.mem_cons_of_mem _ hp)), Nat.add_assoc]
  | .block v uid seq p :: a, b, off, h => by
    have hp : p.length = blockLen v - 16 := h _ List.mem_cons_self
    have hl : (blockBytes v uid.bytes seq p).length = blockLen v := isBlock_length ⟨rfl, hp⟩
    simp only [List.cons_append, located, List.flatMap_cons, List.length_append, Piece.bytes, hl]
    rw [located_append a b _ (fun p hp => h p (List.mem_cons_of_mem _ hp)), Nat.add_assoc]

theorem located_junk : ∀ (n off : Nat), located off (List.replicate n (.junk (List.replicate 128 0))) = []
  | 0, _ => rfl
  | n + 1, off => by rw [List.replicate_succ, located, located_junk n]

theorem zeros_ok : (Piece.junk (List.replicate 128 0)).Ok := by
  refine .inl ⟨List.length_replicate, ?_⟩
  intro v crc uid seq h
  have := h.getElem (i := 0) (by rw [headerBytes_length]; omega)
  simp [headerBytes] at this

theorem zeros_pieces : ∀ n : Nat, (List.replicate n (Piece.junk (List.replicate 128 0))).flatMap Piece.bytes = List.replicate (n * 128) 0
  | 0 => by simp
  | n + 1 => by
    rw [List.replicate_succ, List.flatMap_cons, zeros_pieces n, Piece.bytes, List.replicate_append_replicate]
    congr 1
    omega

variable {v : Version} {uid : Uid} {dpb : Option Dpb} {ps : List (List Byte)} {mb mp : List Byte} {f : File}

/-- The first `m` places of a container as pieces. -/
theorem container_pieces {me : Option Bool} (him : Image v uid.bytes me dpb ps mb f) (hmb : IsBlock mb v uid 0 mp)
    (hps : ∀ p ∈ ps, p.length = blockLen v - 16) (hn : ps.length ≤ lastSeqNum) (n : Nat) (hf : f.length = n * blockLen v) :
    ∀ m ≤ n, ∃ l : List Piece, (∀ p ∈ l, p.Ok) ∧ l.flatMap Piece.bytes = f.take (m * blockLen v) ∧
      (located 0 l).filter (fun x => x.2.blockType = .metadata) =
        ((List.range m).filter (· ∈ metaCopies me dpb)).map fun k => (k * blockLen v, blockOf v uid 0 mp)
  | 0, _ => ⟨[], by simp, by simp, by simp [located]⟩
  | m + 1, hm => by
    obtain ⟨l, h1, h2, h3⟩ := container_pieces him hmb hps hn n hf m (by omega)
    have hpos := blockLen_pos v
    have hml : (m + 1) * blockLen v ≤ f.length := by rw [hf]; exact Nat.mul_le_mul_right _ hm
    have hml' : m * blockLen v + blockLen v ≤ f.length := by rw [Nat.succ_mul] at hml; omega
    have hlen : (l.flatMap Piece.bytes).length = m * blockLen v := by rw [h2, List.length_take]; omega
    have htake : f.take ((m + 1) * blockLen v) = f.take (m * blockLen v) ++ f.readAt (m * blockLen v) (blockLen v) := by
      rw [Nat.succ_mul, List.take_add]; rfl
    have hadd : ∀ l' : List Piece, located 0 (l ++ l') = located 0 l ++ located (m * blockLen v) l' := by
      intro l'
      rw [located_append _ _ _ h1, hlen, Nat.zero_add]
    rw [List.range_succ, List.filter_append, List.map_append, htake]
    by_cases hk : m ∈ metaCopies me dpb
    · refine ⟨l ++ [.block v uid 0 mp], ?_, ?_, ?_⟩
      · intro p hp
        rcases List.mem_append.1 hp with hp | hp
        · exact h1 p hp
        · rw [List.mem_singleton.1 hp]; exact hmb.2
      · rw [List.flatMap_append, h2, him.metas m hk, List.flatMap_singleton, Piece.bytes, hmb.1]
      · rw [hadd, List.filter_append, h3]
        have ht : (blockOf v uid 0 mp).blockType = .metadata := rfl
        simp [located, hk, ht]
    · by_cases hd : ∃ i < ps.length, dataWriteIndex (i + 1) me dpb = m
      · obtain ⟨i, hi, hi'⟩ := hd
        have hd := him.data i _ (List.getElem?_eq_getElem hi)
        rw [hi'] at hd
        refine ⟨l ++ [.block v uid (UInt32.ofNat (i + 1)) ps[i]], ?_, ?_, ?_⟩
        · intro p hp
          rcases List.mem_append.1 hp with hp | hp
          · exact h1 p hp
          · rw [List.mem_singleton.1 hp]; exact hps _ (List.getElem_mem hi)
        · rw [List.flatMap_append, h2, hd, List.flatMap_singleton, Piece.bytes]
        · rw [hadd, List.filter_append, h3]
          have hs : UInt32.ofNat (i + 1) ≠ 0 := by
            intro h
            have := congrArg UInt32.toNat h
            unfold lastSeqNum at hn
            rw [UInt32.toNat_ofNat_of_lt' (by show i + 1 < 2 ^ 32; omega)] at this
            simp at this
          generalize UInt32.ofNat (i + 1) = s at hs
          have ht : (blockOf v uid s ps[i]).blockType = .data := by
            unfold blockOf Block.blockType; simp [hs]
          simp [located, hk, ht]
      · have hz := him.gaps m (by omega) hk (fun i hi he => hd ⟨i, hi, he⟩)
        obtain ⟨c, hc⟩ : ∃ c, blockLen v = c * 128 := by
          cases v
          · exact ⟨4, rfl⟩
          · exact ⟨1, rfl⟩
          · exact ⟨32, rfl⟩
          · exact ⟨4, rfl⟩
          · exact ⟨1, rfl⟩
          · exact ⟨32, rfl⟩
        refine ⟨l ++ List.replicate c (.junk (List.replicate 128 0)), ?_, ?_, ?_⟩
        · intro p hp
          rcases List.mem_append.1 hp with hp | hp
          · exact h1 p hp
          · rw [(List.mem_replicate.1 hp).2]; exact zeros_ok
        · rw [List.flatMap_append, h2, hz, zeros_pieces, hc]
        · rw [hadd, List.filter_append, h3, located_junk]
          simp [hk]

theorem metaCopies_sorted (me : Option Bool) (dpb : Option Dpb) : (metaCopies me dpb).Pairwise (· < ·) := by
  unfold metaCopies
  cases dpb with
  | none => simp only; split <;> simp
  | some d =>
    simp only
    rw [List.pairwise_map]
    refine List.pairwise_lt_range.imp ?_
    intro a b h
    exact Nat.mul_lt_mul_of_pos_right h (by omega)

theorem filter_range {n : Nat} {l : List Nat} (hs : l.Pairwise (· < ·)) (hl : ∀ k ∈ l, k < n) : (List.range n).filter (· ∈ l) = l := by
  refine List.Perm.eq_of_pairwise (le := (· < ·)) ?_ (List.pairwise_lt_range.filter _) hs ?_
  · intro a b _ _ h1 h2; omega
  · rw [List.perm_ext_iff_of_nodup (List.nodup_range.filter _) (hs.imp (by intro a b h; omega))]
    intro k
    simp only [List.mem_filter, List.mem_range, decide_eq_true_eq]
    exact ⟨fun h => h.2, fun h => ⟨hl k h, h⟩⟩

theorem visit_show_eq (u : Option Uid) (showAll : Bool) (seekTo : Nat) : ∀ (l out : List (Nat × Block)),
    visitAll (fun (out : List (Nat × Block)) pos b =>
      if b.blockType = .metadata ∧ u.all (· = b.header.uid) then (out ++ [(pos + seekTo, b)], showAll) else (out, true)) out l =
      out ++ ((if showAll then l.filter (fun x => x.2.blockType = .metadata ∧ u.all (· = x.2.header.uid))
        else (l.filter fun x => x.2.blockType = .metadata ∧ u.all (· = x.2.header.uid)).take 1).map fun x => (x.1 + seekTo, x.2))
  | [], out => by cases showAll <;> simp [visitAll]
  | (pos, b) :: l, out => by
    rw [visitAll_append]
    by_cases hb : b.blockType = .metadata ∧ u.all (· = b.header.uid)
    · rw [if_pos hb, List.filter_cons_of_pos (by simpa using hb)]
      cases showAll with
      | true => simp only [if_true]; rw [visit_show_eq u true seekTo l]; simp
      | false => simp
    · rw [if_neg hb, List.filter_cons_of_neg (by simpa using hb)]
      exact visit_show_eq u showAll seekTo l out

/-- The blocks `show` finds in a container. -/
theorem show_container {me : Option Bool} (him : Image v uid.bytes me dpb ps mb f) (hmb : IsBlock mb v uid 0 mp)
    (hps : ∀ p ∈ ps, p.length = blockLen v - 16) (hn : ps.length ≤ lastSeqNum) (u : Option Uid) (hu : u = none ∨ u = some uid)
    (showAll : Bool) (stop : Nat → Bool) (hstop : ∀ k, stop k = false) :
    showFile f none none false u showAll stop =
      (if showAll then metaCopies me dpb else (metaCopies me dpb).take 1).map fun k => (k * blockLen v, blockOf v uid 0 mp) := by
  have hpos := blockLen_pos v
  obtain ⟨n, hf⟩ := him.aligned
  rw [Nat.mul_comm] at hf
  obtain ⟨l, h1, h2, h3⟩ := container_pieces him hmb hps hn n hf n (Nat.le_refl _)
  rw [← hf, List.take_length] at h2
  rw [filter_range (metaCopies_sorted me dpb) (by
    intro k hk
    have := congrArg List.length (him.metas k hk)
    rw [isBlock_length hmb, File.readAt_length, hf] at this
    have h4 : k * blockLen v < n * blockLen v := by omega
    exact Nat.lt_of_mul_lt_mul_right h4)] at h3
  unfold showFile
  rw [range_whole]
  simp only
  have h := C35_stream (fun (out : List (Nat × Block)) pos b =>
    if b.blockType = .metadata ∧ u.all (· = b.header.uid) then (out ++ [(pos + 0, b)], showAll) else (out, true))
    [] [] [] l (if f.length = 0 then 1 else f.length) stop hstop h1 (by simp) (by rw [h2]; split <;> omega) Block.dummy
  rw [List.append_nil, List.nil_append, h2, List.length_nil] at h
  rw [h, visit_show_eq, List.nil_append]
  have hfil : (located 0 l).filter (fun x => x.2.blockType = .metadata ∧ u.all (· = x.2.header.uid)) =
      (metaCopies me dpb).map fun k => (k * blockLen v, blockOf v uid 0 mp) := by
    rw [← h3]
    apply List.filter_congr
    intro x hx
    by_cases ht : x.2.blockType = .metadata
    · have hm : x ∈ (located 0 l).filter (fun x => x.2.blockType = .metadata) := List.mem_filter.2 ⟨hx, by simpa using ht⟩
      rw [h3] at hm
      obtain ⟨k, -, rfl⟩ := List.mem_map.1 hm
      have hid : (blockOf v uid 0 mp).header.uid = uid := rfl
      rcases hu with rfl | rfl
      · simp
      · simp [hid]
    · simp [ht]
  rw [hfil]
  cases showAll with
  | false => simp only [Bool.false_eq_true, if_false, ← List.map_take, List.map_map]; rfl
  | true => simp

end Verif.Scan
