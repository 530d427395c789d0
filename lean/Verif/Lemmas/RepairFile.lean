import Verif.Lemmas.Repair
import Verif.Props.Layout
/-!
# Repair: what the writes leave alone
-/

namespace Verif.Repair
open Format RepairSpec Scan Layout LayoutSpec
open Classical

theorem fill_aligned {v : Version} {f : File} (h : blockLen v ∣ f.length) : fill v f = f := by
  unfold fill
  rw [Nat.mod_eq_zero_of_dvd h, Nat.sub_zero, Nat.mod_self]
  simp

/-- Zeros up to the length of a block. -/
def zpad (v : Version) (l : List Byte) : List Byte := l ++ List.replicate (blockLen v - l.length) 0

theorem zpad_full {v : Version} {l : List Byte} (h : l.length = blockLen v) : zpad v l = l := by
  unfold zpad; rw [h]; simp

theorem getElem?_zpad (v : Version) (l : List Byte) (hl : l.length ≤ blockLen v) (i : Nat) :
    (zpad v l)[i]? = if i < l.length then l[i]? else if i < blockLen v then some 0 else none := by
  unfold zpad
  split
  · rename_i h; rw [List.getElem?_append_left h]
  · rename_i h
    rw [List.getElem?_append_right (by omega), List.getElem?_replicate]
    split
    · rw [if_pos (by omega)]
    · rw [if_neg (by omega)]

theorem zeros_not_block {n : Nat} {v : Version} {uid : Uid} {seq : UInt32} {p : List Byte} : ¬ IsBlock (List.replicate n 0) v uid seq p := by
  intro h
  have h0 := congrArg (·[0]?) h.bytes
  rw [List.getElem?_replicate] at h0
  simp [blockBytes, headerBytes] at h0

theorem nil_not_block {v : Version} {uid : Uid} {seq : UInt32} {p : List Byte} : ¬ IsBlock [] v uid seq p :=
  zeros_not_block (n := 0)

theorem piece_beyond {v : Version} {f : File} {k : Nat} (h : f.length ≤ k * blockLen v) : piece v f k = [] := by
  unfold piece File.readAt
  rw [List.drop_eq_nil_of_le h, List.take_nil]

/-- Places of the filled file. -/
theorem piece_fill (v : Version) (f : File) (k : Nat) (h : k * blockLen v < f.length) : piece v (fill v f) k = zpad v (piece v f k) := by
  have hu := blockLen_pos v
  have hl := piece_length_le v f k
  apply List.ext_getElem?
  intro i
  rw [getElem?_zpad v _ hl]
  unfold piece at *
  rw [File.getElem?_readAt, File.readAt_length, File.getElem?_readAt]
  by_cases hi : i < blockLen v
  · rw [if_pos hi]
    by_cases hi' : i < min (blockLen v) (f.length - k * blockLen v)
    · rw [if_pos hi', if_pos hi]
      unfold fill
      rw [List.getElem?_append_left (by omega)]
    · rw [if_neg hi', if_pos hi]
      unfold fill
      rw [List.getElem?_append_right (by omega), List.getElem?_replicate, if_pos]
      have hd := Nat.div_add_mod f.length (blockLen v)
      have hm := Nat.mod_lt f.length hu
      have hk : k ≤ f.length / blockLen v := by
        rw [Nat.le_div_iff_mul_le hu]; omega
      have hk' : f.length / blockLen v < k + 1 := by
        rw [Nat.div_lt_iff_lt_mul hu, Nat.succ_mul]; omega
      have hkk : f.length / blockLen v = k := by omega
      rw [hkk, Nat.mul_comm] at hd
      rw [Nat.mod_eq_of_lt (a := blockLen v - _) (by omega)]
      omega
  · rw [if_neg hi, if_neg (by omega), if_neg hi]

theorem isBlock_fill {v : Version} {uid : Uid} {f : File} {k : Nat} {seq : UInt32} {p : List Byte} :
    IsBlock (zpad v (piece v f k)) v uid seq p ↔ IsBlock (piece v (fill v f) k) v uid seq p := by
  by_cases h : k * blockLen v < f.length
  · rw [piece_fill v f k h]
  · have h1 : piece v f k = [] := piece_beyond (by omega)
    have h2 : zpad v ([] : List Byte) = List.replicate (blockLen v) 0 := by simp [zpad]
    rw [h1, h2]
    constructor
    · intro hb; exact absurd hb zeros_not_block
    · intro hb
      exfalso
      have hl := isBlock_length hb
      unfold piece fill at hl
      rw [File.readAt_length, List.length_append, List.length_replicate] at hl
      have hu := blockLen_pos v
      have hd := Nat.div_add_mod f.length (blockLen v)
      have hm := Nat.mod_lt f.length hu
      have : (blockLen v - f.length % blockLen v) % blockLen v + f.length % blockLen v ≤ blockLen v := by
        by_cases hz : f.length % blockLen v = 0
        · rw [hz]; simp
        · rw [Nat.mod_eq_of_lt (by omega)]; omega
      have hq : f.length / blockLen v * blockLen v < f.length ∨ f.length % blockLen v = 0 := by
        rw [Nat.mul_comm]; omega
      have hle : (blockLen v - f.length % blockLen v) % blockLen v + f.length ≤ k * blockLen v := by
        by_cases hz : f.length % blockLen v = 0
        · rw [hz]; simp; omega
        · have : f.length / blockLen v < k := by
            rw [Nat.div_lt_iff_lt_mul hu]
            rcases Nat.lt_or_ge f.length (k * blockLen v) with h3 | h3
            · exact h3
            · have : f.length = k * blockLen v := by omega
              rw [this, Nat.mul_mod_left] at hz; omega
          have h4 : (f.length / blockLen v + 1) * blockLen v ≤ k * blockLen v := Nat.mul_le_mul_right _ this
          rw [Nat.succ_mul, Nat.mul_comm] at h4
          omega
      omega

theorem isBlock_of_fill {v : Version} {uid : Uid} {f : File} {k : Nat} {seq : UInt32} {p : List Byte}
    (h : IsBlock (piece v f k) v uid seq p) : IsBlock (piece v (fill v f) k) v uid seq p := by
  rw [← isBlock_fill, zpad_full (isBlock_length h)]
  exact h

theorem validAt_fill {v : Version} {uid : Uid} {f : File} {k : Nat} (h : ValidAt v uid f k) : ValidAt v uid (fill v f) k := by
  obtain ⟨seq, p, hb⟩ := h
  exact ⟨seq, p, isBlock_of_fill hb⟩

theorem present_fill {v : Version} {uid : Uid} {d : Dpb} {f : File} {s : Nat} (h : Present v uid d f s) : Present v uid d (fill v f) s := by
  obtain ⟨p, hb⟩ := h
  exact ⟨p, isBlock_of_fill hb⟩

/-- A write of a block elsewhere leaves a place alone, except that it may fill up a torn last block with zeros. -/
theorem piece_writeAt {v : Version} {g : File} {j k : Nat} (hjk : k ≠ j) {b : List Byte} (hb : b.length = blockLen v) :
    piece v (g.writeAt (j * blockLen v) b) k = piece v g k ∨ piece v (g.writeAt (j * blockLen v) b) k = zpad v (piece v g k) := by
  have hu := blockLen_pos v
  have hne : b ≠ [] := by rintro rfl; simp at hb; omega
  rcases Nat.lt_or_gt_of_ne hjk with h | h
  · right
    have hm : (k + 1) * blockLen v ≤ j * blockLen v := Nat.mul_le_mul_right _ h
    rw [Nat.succ_mul] at hm
    apply List.ext_getElem?
    intro i
    rw [getElem?_zpad v _ (piece_length_le v g k)]
    unfold piece
    rw [File.getElem?_readAt, File.readAt_length, File.getElem?_readAt]
    by_cases hi : i < blockLen v
    · rw [if_pos hi, File.getElem?_writeAt _ _ _ hne, if_pos (by omega)]
      by_cases hi' : k * blockLen v + i < g.length
      · rw [if_pos hi', if_pos (by omega), if_pos hi]
      · rw [if_neg hi', if_neg (by omega), if_pos hi]
    · rw [if_neg hi, if_neg (by omega), if_neg hi]
  · left
    have hm : (j + 1) * blockLen v ≤ k * blockLen v := Nat.mul_le_mul_right _ h
    rw [Nat.succ_mul] at hm
    apply List.ext_getElem?
    intro i
    unfold piece
    rw [File.getElem?_readAt, File.getElem?_readAt]
    split
    · rw [File.getElem?_writeAt _ _ _ hne, if_neg (by omega), if_neg (by omega)]
    · rfl

theorem piece_written {v : Version} {g : File} {j : Nat} {b : List Byte} (hb : b.length = blockLen v) :
    piece v (g.writeAt (j * blockLen v) b) j = b := by
  have hu := blockLen_pos v
  have hne : b ≠ [] := by rintro rfl; simp at hb; omega
  apply List.ext_getElem?
  intro i
  unfold piece
  rw [File.getElem?_readAt]
  split
  · rw [File.getElem?_writeAt _ _ _ hne, if_neg (by omega), if_pos (by omega), Nat.add_sub_cancel_left]
  · rw [List.getElem?_eq_none (by omega)]

/-- The writes are whole blocks at places, and place `k` is not among them. -/
def Spares (v : Version) (k : Nat) (ws : List (Nat × List Byte)) : Prop :=
  ∀ w ∈ ws, w.2.length = blockLen v ∧ ∃ j, j ≠ k ∧ w.1 = j * blockLen v

theorem piece_writes {v : Version} {k : Nat} {ws : List (Nat × List Byte)} (h : Spares v k ws) (g : File) :
    piece v (g.writes ws) k = piece v g k ∨ piece v (g.writes ws) k = zpad v (piece v g k) := by
  induction ws generalizing g with
  | nil => exact .inl rfl
  | cons w ws ih =>
    obtain ⟨hl, j, hj, hw⟩ := h w (by simp)
    have h1 := piece_writeAt (v := v) (g := g) (Ne.symm hj) hl
    rw [← hw] at h1
    have h2 := ih (fun x hx => h x (by simp [hx])) (g.writeAt w.1 w.2)
    have hzz : zpad v (zpad v (piece v g k)) = zpad v (piece v g k) := by
      apply zpad_full
      unfold zpad
      have := piece_length_le v g k
      simp; omega
    show piece v (File.writes (g.writeAt w.1 w.2) ws) k = _ ∨ piece v (File.writes (g.writeAt w.1 w.2) ws) k = _
    rcases h1 with h1 | h1 <;> rcases h2 with h2 | h2 <;> rw [h1] at h2
    · exact .inl h2
    · exact .inr h2
    · exact .inr h2
    · rw [hzz] at h2; exact .inr h2

theorem piece_writes_full {v : Version} {k : Nat} {ws : List (Nat × List Byte)} (h : Spares v k ws) {g : File}
    (hf : (piece v g k).length = blockLen v) : piece v (g.writes ws) k = piece v g k := by
  rcases piece_writes h g with h | h
  · exact h
  · rw [h, zpad_full hf]

/-- What is read at a place not written so far. -/
theorem seen {v : Version} {uid : Uid} {k : Nat} {ws : List (Nat × List Byte)} (h : Spares v k ws) (f : File) {seq : UInt32} {p : List Byte} :
    (IsBlock (piece v f k) v uid seq p → IsBlock (piece v (f.writes ws) k) v uid seq p) ∧
    (IsBlock (piece v (f.writes ws) k) v uid seq p → IsBlock (piece v (fill v f) k) v uid seq p) := by
  constructor
  · intro hb
    rw [piece_writes_full h (isBlock_length hb)]
    exact hb
  · intro hb
    rcases piece_writes h f with h | h
    · rw [h] at hb; exact isBlock_of_fill hb
    · rw [h, isBlock_fill] at hb; exact hb

/-! ### All writes of a run -/

/-- A write of `repair`: the metadata block at a metadata place without valid block, or the block with number `s` at its place, which
is missing, in a set with enough blocks. -/
def OpOk (v : Version) (uid : Uid) (d : Dpb) (mb : List Byte) (f : File) (top : Nat) (w : Nat × List Byte) : Prop :=
  (∃ k ∈ metaCopies (some true) (some d), ¬ ValidAt v uid f k ∧ w = (k * blockLen v, mb)) ∨
  ∃ s payload, 1 ≤ s ∧ s ≤ top ∧ ¬ Present v uid d f s ∧ payload.length = blockLen v - 16 ∧
    d.data ≤ presentIn v uid d (fill v f) ((s - 1) / (d.data + d.parity)) ∧
    w = (placeOf d s * blockLen v, blockBytes v uid.bytes (UInt32.ofNat s) payload)

theorem OpOk.mono {v : Version} {uid : Uid} {d : Dpb} {mb : List Byte} {f : File} {top top' : Nat} {w : Nat × List Byte}
    (h : OpOk v uid d mb f top w) (hle : top ≤ top') : OpOk v uid d mb f top' w := by
  rcases h with h | ⟨s, p, h1, h2, h3⟩
  · exact .inl h
  · exact .inr ⟨s, p, h1, by omega, h3⟩

theorem h16 (v : Version) : 16 ≤ blockLen v := by cases v <;> decide

theorem OpOk.length {v : Version} {uid : Uid} {d : Dpb} {mb : List Byte} {f : File} {top : Nat} {w : Nat × List Byte}
    (h : OpOk v uid d mb f top w) (hmb : mb.length = blockLen v) : w.2.length = blockLen v := by
  have := h16 v
  rcases h with ⟨k, _, _, rfl⟩ | ⟨s, p, _, _, _, hp, _, rfl⟩
  · exact hmb
  · rw [blockBytes_length, hp]; omega

theorem metaCopies_nodup (d : Dpb) : (metaCopies (some true) (some d)).Nodup := by
  unfold metaCopies
  rw [List.nodup_iff_pairwise_ne, List.pairwise_map]
  refine (List.nodup_iff_pairwise_ne.1 List.nodup_range).imp ?_
  intro a b hne h
  exact hne (Nat.eq_of_mul_eq_mul_right (by omega) h)

theorem placeOf_eq (d : Dpb) (s : Nat) : placeOf d s = dataWriteIndex s (some true) (some d) := rfl

/-- The writes of the metadata loop: with `seen k` saying which metadata places held a valid block when they were looked at. -/
theorem meta_ops {v : Version} {uid : Uid} {d : Dpb} {mb : List Byte} (hmb : mb.length = blockLen v) (dry : Bool) (f : File) :
    ∀ (ks : List Nat), ks.Nodup → (∀ k ∈ ks, k ∈ metaCopies (some true) (some d)) → ∃ ws : List (Nat × List Byte),
      (ks.foldl (metaOne v uid mb dry) (⟨f, []⟩, Stats.zero)).1 = ⟨f, ws⟩ ∧
      (ks.foldl (metaOne v uid mb dry) (⟨f, []⟩, Stats.zero)).2.blocks = ks.length ∧
      (dry = true → ws = []) ∧
      (∀ w ∈ ws, ∃ k ∈ ks, ¬ ValidAt v uid f k ∧ w = (k * blockLen v, mb)) ∧
      (dry = false → ∀ k ∈ ks, ¬ ValidAt v uid (fill v f) k → (k * blockLen v, mb) ∈ ws) := by
  intro ks
  induction ks using List.reverseRecOn with
  | nil => intro _ _; exact ⟨[], rfl, rfl, fun _ => rfl, by simp, by simp⟩
  | append_singleton ks k ih =>
    intro hnd hmem
    rw [List.nodup_append] at hnd
    obtain ⟨ws, h1, h2, h3, h4, h5⟩ := ih hnd.1 (fun x hx => hmem x (by simp [hx]))
    have hk : k ∉ ks := fun h => hnd.2.2 k h k (by simp) rfl
    rw [List.foldl_append]
    generalize ks.foldl (metaOne v uid mb dry) (⟨f, []⟩, Stats.zero) = x at *
    simp only [List.foldl_cons, List.foldl_nil]
    have hsp : Spares v k ws := by
      intro w hw
      obtain ⟨j, hj, _, rfl⟩ := h4 w hw
      exact ⟨hmb, j, fun e => hk (e ▸ hj), rfl⟩
    unfold metaOne
    have hfile : x.1.file = f.writes ws := by rw [h1]; rfl
    by_cases hv : ValidAt v uid x.1.file k
    · rw [if_pos hv]
      refine ⟨ws, h1, ?_, h3, ?_, ?_⟩
      · simp only [Stats.blocks, List.length_append, List.length_singleton] at h2 ⊢
        omega
      · intro w hw
        obtain ⟨j, hj, h⟩ := h4 w hw
        exact ⟨j, by simp [hj], h⟩
      · intro hdry j hj hnv
        rw [List.mem_append, List.mem_singleton] at hj
        rcases hj with hj | rfl
        · exact h5 hdry j hj hnv
        · obtain ⟨sq, p, hb⟩ := hv
          rw [hfile] at hb
          exact absurd ⟨sq, p, (seen hsp f).2 hb⟩ hnv
    · rw [if_neg hv]
      have hnf : ¬ ValidAt v uid f k := by
        rintro ⟨sq, p, hb⟩
        exact hv ⟨sq, p, by rw [hfile]; exact (seen hsp f).1 hb⟩
      have hbl : ∀ y : Disk, ((y, { x.2 with failed := x.2.failed + 1, metaRepaired := x.2.metaRepaired + 1 }) : Disk × Stats).2.blocks =
          (ks ++ [k]).length := by
        intro y
        simp only [Stats.blocks, List.length_append, List.length_singleton] at h2 ⊢
        omega
      cases dry with
      | true =>
        refine ⟨ws, h1, hbl _, h3, ?_, by simp⟩
        intro w hw
        rw [h3 rfl] at hw; simp at hw
      | false =>
        refine ⟨ws ++ [(k * blockLen v, mb)], by simp [h1, Disk.writes], hbl _, by simp, ?_, ?_⟩
        · intro w hw
          rw [List.mem_append, List.mem_singleton] at hw
          rcases hw with hw | rfl
          · obtain ⟨j, hj, h⟩ := h4 w hw
            exact ⟨j, by simp [hj], h⟩
          · exact ⟨k, by simp, hnf, rfl⟩
        · intro _ j hj hnv
          rw [List.mem_append, List.mem_singleton] at hj
          rw [List.mem_append, List.mem_singleton]
          rcases hj with hj | rfl
          · exact .inl (h5 rfl j hj hnv)
          · exact .inr rfl

theorem OpOk.spares {v : Version} {uid : Uid} {d : Dpb} (hd : 1 ≤ d.data) {mb : List Byte} (hmb : mb.length = blockLen v) {f : File}
    {top s : Nat} (hs : top < s) {ws : List (Nat × List Byte)} (h : ∀ w ∈ ws, OpOk v uid d mb f top w) : Spares v (placeOf d s) ws := by
  have hv : Valid (some d) := by intro x hx; cases hx; exact hd
  intro w hw
  refine ⟨(h w hw).length hmb, ?_⟩
  rcases h w hw with ⟨k, hk, _, rfl⟩ | ⟨s', p, h1, h2, _, _, _, rfl⟩
  · exact ⟨k, fun e => C10_data_not_meta (some true) (some d) hv s (by omega) (by rw [← placeOf_eq, ← e]; exact hk), rfl⟩
  · refine ⟨placeOf d s', fun e => ?_, rfl⟩
    have := C10_data_injective none (some d) hv s' s h1 (by omega) e
    omega

theorem presentIn_mono {v : Version} {uid : Uid} {d : Dpb} {f g : File} {t : Nat}
    (h : ∀ j < d.data + d.parity, Present v uid d f (t * (d.data + d.parity) + j + 1) → Present v uid d g (t * (d.data + d.parity) + j + 1)) :
    presentIn v uid d f t ≤ presentIn v uid d g t := by
  unfold presentIn
  apply List.countP_mono_left
  intro j hj hp
  simp only [decide_eq_true_eq] at hp ⊢
  exact h j (List.mem_range.1 hj) hp

/-- The writes of a run. -/
theorem Run.ops {rs : RsCodec} {v : Version} {uid : Uid} {d : Dpb} (hd : 1 ≤ d.data) {mb : List Byte} (hmb : mb.length = blockLen v)
    {dry : Bool} {f : File} {ws0 : List (Nat × List Byte)} {st0 : Stats}
    (h0 : ∀ w ∈ ws0, ∃ k ∈ metaCopies (some true) (some d), ¬ ValidAt v uid f k ∧ w = (k * blockLen v, mb))
    {m : Nat} {dk : Disk} {st : Stats} (h : Run rs v uid d dry ⟨f, ws0⟩ st0 m dk st) :
    ∃ ws, dk = ⟨f, ws0 ++ ws⟩ ∧ (dry = true → ws = []) ∧
      ∀ w ∈ ws0 ++ ws, OpOk v uid d mb f (m / (d.data + d.parity) * (d.data + d.parity)) w := by
  have hn : 0 < d.data + d.parity := by omega
  induction h with
  | start =>
    refine ⟨[], by simp, fun _ => rfl, ?_⟩
    intro w hw
    rw [List.append_nil] at hw
    exact .inl (h0 w hw)
  | read m dk st hr hm ih =>
    obtain ⟨ws, h1, h2, h3⟩ := ih
    refine ⟨ws, h1, h2, fun w hw => (h3 w hw).mono ?_⟩
    exact Nat.mul_le_mul_right _ (Nat.div_le_div_right (by omega))
  | set t m dk st ok ws1 hr hm hset ih =>
    obtain ⟨ws, h1, h2, h3⟩ := ih
    have hmt : m / (d.data + d.parity) = t := by
      have : m = t * (d.data + d.parity) + (d.data + d.parity - 1) := by rw [Nat.succ_mul] at hm; omega
      rw [this]
      exact (divmod_eq (by omega)).1
    have hmt' : (m + 1) / (d.data + d.parity) = t + 1 := by rw [hm, Nat.mul_div_cancel _ hn]
    rw [hmt] at h3
    rw [hmt']
    have hle : t * (d.data + d.parity) ≤ (t + 1) * (d.data + d.parity) := Nat.mul_le_mul_right _ (by omega)
    have h3' : ∀ w ∈ ws0 ++ ws, OpOk v uid d mb f ((t + 1) * (d.data + d.parity)) w := fun w hw => (h3 w hw).mono hle
    cases dry with
    | true => exact ⟨ws, h1, h2, h3'⟩
    | false =>
      refine ⟨ws ++ ws1, by simp [h1, Disk.writes], by simp, ?_⟩
      intro w hw
      rw [← List.append_assoc, List.mem_append] at hw
      rcases hw with hw | hw
      · exact h3' w hw
      · have hfile : dk.file = f.writes (ws0 ++ ws) := by rw [h1]; rfl
        obtain ⟨e1, e2, e3⟩ := hset
        cases ok with
        | false => rw [e2 rfl] at hw; simp at hw
        | true =>
          obtain ⟨out, ho, hol, _, rfl⟩ := e3 rfl
          rw [List.mem_filterMap] at hw
          obtain ⟨j, hj, hw⟩ := hw
          rw [List.mem_range] at hj
          split at hw
          · simp at hw
          · rename_i hnp
            rw [Option.map_eq_some_iff] at hw
            obtain ⟨o, hoj, rfl⟩ := hw
            have hsee : ∀ i, (∀ p seq, IsBlock (piece v f (placeOf d (t * (d.data + d.parity) + i + 1))) v uid seq p →
                  IsBlock (piece v dk.file (placeOf d (t * (d.data + d.parity) + i + 1))) v uid seq p) ∧
                (∀ p seq, IsBlock (piece v dk.file (placeOf d (t * (d.data + d.parity) + i + 1))) v uid seq p →
                  IsBlock (piece v (fill v f) (placeOf d (t * (d.data + d.parity) + i + 1))) v uid seq p) := by
              intro i
              have hsp := OpOk.spares hd hmb (s := t * (d.data + d.parity) + i + 1) (by omega) h3
              rw [hfile]
              exact ⟨fun p seq => (seen hsp f).1, fun p seq => (seen hsp f).2⟩
            refine .inr ⟨t * (d.data + d.parity) + j + 1, o, by omega, ?_, ?_, hol _ (List.mem_of_getElem? hoj), ?_, rfl⟩
            · rw [Nat.succ_mul]; omega
            · rintro ⟨p, hb⟩
              exact hnp ⟨p, (hsee j).1 _ _ hb⟩
            · have : (t * (d.data + d.parity) + j + 1 - 1) / (d.data + d.parity) = t := by
                rw [Nat.add_sub_cancel]; exact (divmod_eq hj).1
              rw [this]
              refine (e1.1 rfl).trans (presentIn_mono ?_)
              rintro i _ ⟨p, hb⟩
              exact ⟨p, (hsee i).2 _ _ hb⟩

end Verif.Repair
