import Verif.Lemmas.Block
import Verif.Model.DataBlockBuffer
/-!
# Lemmas about `DataBlockBuffer`: it behaves like a bounded list of slots
-/

namespace Verif
open Format

theorem Version.blockSize_eq (v : Version) : v.blockSize = 16 + v.dataSize := by cases v <;> rfl
theorem Version.dataSize_pos (v : Version) : 1 ≤ v.dataSize := by cases v <;> decide

theorem modify_mid {α : Type} (u : List α) (s : α) (t : List α) (f : α → α) :
    (u ++ s :: t).modify u.length f = u ++ f s :: t := by
  induction u with
  | nil => simp
  | cons x xs ih => simp [ih]

theorem set_mid {α : Type} (u : List α) (s s' : α) (t : List α) : (u ++ s :: t).set u.length s' = u ++ s' :: t := by
  induction u with
  | nil => simp
  | cons x xs ih => simp [ih]

theorem split_at {α : Type} {l : List α} {i : Nat} (h : i < l.length) :
    ∃ u s t, l = u ++ s :: t ∧ u.length = i := by
  refine ⟨l.take i, l[i], l.drop (i + 1), ?_, ?_⟩
  · rw [← List.drop_eq_getElem_cons, List.take_append_drop]
  · rw [List.length_take]; omega

/-- An unused slot: ready to be handed out (bytes and stored checksum are stale). -/
structure Slot.Fresh (c : LotCfg) (s : Slot) : Prop where
  version : s.block.header.version = c.version
  uid : s.block.header.uid = c.uid
  seq : s.block.header.seq = 1
  type : s.block.data = .data
  readPos : s.readPos = none
  writePos : s.writePos = none
  contentLen : s.contentLen = none
  isPadding : s.isPadding = false
  len : s.data.length = c.version.blockSize

theorem Slot.fresh_fresh (c : LotCfg) : (Slot.fresh c).Fresh c := by
  constructor <;> simp [Slot.fresh, Block.new, Header.new]

theorem Block.setSeq_one (b : Block) : (b.setSeq 1).data = .data ∧ (b.setSeq 1).header = { b.header with seq := 1 } := by
  have h := Block.matchHeader_type { b with header := { b.header with seq := 1 } }
  have h2 := Block.matchHeader_header { b with header := { b.header with seq := 1 } }
  rw [Block.type_eq] at h
  refine ⟨?_, h2⟩
  unfold Block.setSeq
  simp only [Block.blockType] at h
  revert h
  cases (Block.matchHeader { b with header := { b.header with seq := 1 } }).data <;> simp

theorem Slot.reset_fresh (c : LotCfg) (s : Slot) (h : s.data.length = c.version.blockSize) :
    (s.reset c).Fresh c := by
  have hs := Block.setSeq_one ((s.block.setVersion c.version).setUid c.uid)
  exact ⟨congrArg (·.version) hs.2, congrArg (·.uid) hs.2, congrArg (·.seq) hs.2, hs.1, rfl, rfl, rfl, rfl, h⟩

theorem Slot.reset_data (c : LotCfg) (s : Slot) : (s.reset c).data = s.data := rfl

/-- Invariant of a lot that is being filled. -/
structure Lot.WF (c : LotCfg) (l : Lot) : Prop where
  cfg : l.cfg = c
  len : l.slots.length = c.lotSize
  le : l.slotsUsed ≤ c.direct
  pad : l.paddingBytes = 0
  unused : ∀ s ∈ l.slots.drop l.slotsUsed, s.Fresh c

/-- The lots of a buffer with `n` full lots. -/
def Shape (c : LotCfg) (n : Nat) (lots : List Lot) : Prop :=
  ∃ pre post, lots = pre ++ post ∧ pre.length = n ∧ (∀ l ∈ pre, l.WF c ∧ l.slotsUsed = c.direct) ∧
    (post = [] ∨ ∃ l rest, post = l :: rest ∧ l.WF c ∧ l.slotsUsed < c.direct ∧ ∀ r ∈ rest, r.WF c ∧ r.slotsUsed = 0)

/-- Invariant of a buffer that is being filled. -/
def Buffer.OK (c : LotCfg) (b : Buffer) : Prop := Shape c b.lotsUsed b.lots

theorem LotCfg.direct_le (c : LotCfg) : c.direct ≤ c.lotSize := by
  unfold LotCfg.direct LotCfg.lotSize
  split
  · cases c.dpb <;> simp
  · exact Nat.le_refl _

/-- Settings with which a lot can be used at all: at least one slot (`assert!(default_lot_size > 0)`, line 179;
`ReedSolomon::new` refuses zero data shards). -/
def LotCfg.Pos (c : LotCfg) : Prop := 0 < c.direct

theorem Lot.used_length {c : LotCfg} {l : Lot} (h : l.WF c) : l.used.length = l.slotsUsed := by
  unfold Lot.used
  rw [List.length_take, h.len]
  have := h.le; have := c.direct_le
  omega

theorem flatMap_used_empty {c : LotCfg} {rest : List Lot} (h : ∀ r ∈ rest, r.WF c ∧ r.slotsUsed = 0) :
    rest.flatMap Lot.used = [] := by
  rw [List.flatMap_eq_nil_iff]
  intro r hr
  have := Lot.used_length (h r hr).1
  rw [(h r hr).2] at this
  exact List.length_eq_zero_iff.1 this

theorem flatMap_used_length {c : LotCfg} {pre : List Lot} (h : ∀ l ∈ pre, l.WF c ∧ l.slotsUsed = c.direct) :
    (pre.flatMap Lot.used).length = pre.length * c.direct := by
  induction pre with
  | nil => simp
  | cons l ls ih =>
    rw [List.flatMap_cons, List.length_append, ih (fun x hx => h x (List.mem_cons_of_mem _ hx)),
      Lot.used_length (h l List.mem_cons_self).1, (h l List.mem_cons_self).2, List.length_cons, Nat.succ_mul]
    omega

theorem Lot.new_WF (c : LotCfg) : (Lot.new c).WF c := by
  constructor
  · rfl
  · simp [Lot.new]
  · simp [Lot.new]
  · rfl
  · intro s hs
    have := List.mem_of_mem_drop hs
    simp only [Lot.new, List.mem_replicate] at this
    rw [this.2]; exact Slot.fresh_fresh c

theorem shape_empty {c : LotCfg} (hp : c.Pos) {lots : List Lot} (h : ∀ l ∈ lots, l.WF c ∧ l.slotsUsed = 0) :
    Shape c 0 lots := by
  refine ⟨[], lots, rfl, rfl, by simp, ?_⟩
  cases lots with
  | nil => exact .inl rfl
  | cons l ls =>
    refine .inr ⟨l, ls, rfl, (h l List.mem_cons_self).1, ?_, fun r hr => h r (List.mem_cons_of_mem _ hr)⟩
    rw [(h l List.mem_cons_self).2]; exact hp

theorem Buffer.new_OK {c : LotCfg} (hp : c.Pos) (n i t : Nat) : (Buffer.new c n i t).OK c := by
  refine shape_empty hp ?_
  intro l hl
  simp only [Buffer.new, List.mem_replicate] at hl
  rw [hl.2]; exact ⟨Lot.new_WF c, rfl⟩

theorem Buffer.new_used (c : LotCfg) (n i t : Nat) : (Buffer.new c n i t).used = [] := by
  simp only [Buffer.used, Buffer.new, List.flatMap_eq_nil_iff, List.mem_replicate]
  rintro l ⟨_, rfl⟩
  simp [Lot.used, Lot.new]

/-- Number of used slots and fullness. -/
theorem Buffer.used_length_le {c : LotCfg} {b : Buffer} (h : b.OK c) : b.used.length ≤ b.lots.length * c.direct ∧
    (b.isFull = true ↔ b.used.length = b.lots.length * c.direct) := by
  obtain ⟨pre, post, hl, hn, hpre, hpost⟩ := h
  have h1 := flatMap_used_length hpre
  unfold Buffer.used Buffer.isFull
  rw [hl, List.flatMap_append, List.length_append, List.length_append, h1, ← hn, Nat.add_mul]
  rcases hpost with rfl | ⟨l, rest, rfl, hw, hlt, hr⟩
  · simp
  · have h2 := Lot.used_length hw
    rw [List.flatMap_cons, List.length_append, h2, flatMap_used_empty hr, List.length_nil, List.length_cons, Nat.succ_mul]
    constructor
    · omega
    · constructor
      · intro h; simp at h
      · intro h; omega

/-- Taking a slot and changing it appends one element to the list of used slots. -/
theorem Buffer.fill_spec {c : LotCfg} (hp : c.Pos) {b : Buffer} (h : b.OK c) (hf : b.isFull = false) :
    ∃ s : Slot, s.Fresh c ∧ ∀ f : Slot → Slot,
      ∃ b', b.fill f = some b' ∧ b'.OK c ∧ b'.used = b.used ++ [f s] ∧
        b'.startSeq = b.startSeq ∧ b'.incre = b.incre ∧ b'.lots.length = b.lots.length := by
  obtain ⟨pre, post, hl, hn, hpre, hpost⟩ := h
  rcases hpost with rfl | ⟨l, rest, rfl, hw, hlt, hr⟩
  · simp [Buffer.isFull, hl, hn] at hf
  have hslot : l.slotsUsed < l.slots.length := by
    have := hw.len; have := c.direct_le; omega
  obtain ⟨u, s, t, hsl, hul⟩ := split_at hslot
  have hdrop : l.slots.drop l.slotsUsed = s :: t := by rw [hsl, ← hul, List.drop_left]
  have hs : s.Fresh c := hw.unused s (by rw [hdrop]; exact List.mem_cons_self)
  refine ⟨s, hs, fun f => ?_⟩
  have hget : b.lots[b.lotsUsed]? = some l := by
    rw [hl, ← hn, List.getElem?_append_right (Nat.le_refl _)]; simp
  have hgs : l.getSlot = some ({ l with slotsUsed := l.slotsUsed + 1 }, l.slotsUsed + 1 == c.direct) := by
    unfold Lot.getSlot; rw [hw.cfg, if_pos hlt]
  let l' : Lot := { l with slotsUsed := l.slotsUsed + 1, slots := u ++ f s :: t }
  have hmod : l.slots.modify l.slotsUsed f = u ++ f s :: t := by
    rw [hsl, ← hul, modify_mid]
  have hw' : l'.WF c := by
    refine ⟨hw.cfg, ?_, ?_, hw.pad, ?_⟩
    · have := hw.len; rw [hsl] at this; simpa [l'] using this
    · show l.slotsUsed + 1 ≤ _; omega
    · intro x hx
      have : (u ++ f s :: t).drop (l.slotsUsed + 1) = t := by
        rw [← hul, ← List.drop_drop, List.drop_left]; rfl
      simp only [l', this] at hx
      exact hw.unused x (by rw [hdrop]; exact List.mem_cons_of_mem _ hx)
  have hu' : l'.used = l.used ++ [f s] := by
    simp only [Lot.used, l']
    rw [hsl, ← hul, List.take_left]
    rw [show u.length + 1 = (u ++ [f s]).length by simp, show u ++ f s :: t = (u ++ [f s]) ++ t by simp, List.take_left]
  let n' := if l.slotsUsed + 1 == c.direct then b.lotsUsed + 1 else b.lotsUsed
  have hfill : b.fill f = some { b with lots := pre ++ l' :: rest, lotsUsed := n' } := by
    unfold Buffer.fill Buffer.getSlot
    rw [hget]; simp only [hgs]
    unfold Buffer.update
    simp only [hl, ← hn]
    rw [set_mid, modify_mid]
    simp only [hmod, l', n', hn]
  refine ⟨_, hfill, ?_, ?_, rfl, rfl, by simp [hl]⟩
  · show Shape c n' (pre ++ l' :: rest)
    by_cases hlast : l.slotsUsed + 1 = c.direct
    · refine ⟨pre ++ [l'], rest, by simp, by simp [n', hlast, hn], ?_, ?_⟩
      · intro x hx
        rcases List.mem_append.1 hx with hx | hx
        · exact hpre x hx
        · rw [List.mem_singleton.1 hx]; exact ⟨hw', hlast⟩
      · cases rest with
        | nil => exact .inl rfl
        | cons r rs =>
          refine .inr ⟨r, rs, rfl, (hr r List.mem_cons_self).1, ?_, fun x hx => hr x (List.mem_cons_of_mem _ hx)⟩
          rw [(hr r List.mem_cons_self).2]; exact hp
    · refine ⟨pre, l' :: rest, rfl, by simp [n', hlast, hn], hpre, .inr ⟨l', rest, rfl, hw', ?_, hr⟩⟩
      show l.slotsUsed + 1 < _; omega
  · simp only [Buffer.used, hl, List.flatMap_append, List.flatMap_cons, hu', flatMap_used_empty hr]
    simp

/-- Cancelling removes the last element of the list of used slots. -/
theorem Buffer.cancel_spec {c : LotCfg} {b : Buffer} (h : b.OK c) {us : List Slot} {s : Slot}
    (hu : b.used = us ++ [s]) (hs : s.data.length = c.version.blockSize) :
    ∃ b', b.cancelSlot = some b' ∧ b'.OK c ∧ b'.used = us ∧
      b'.startSeq = b.startSeq ∧ b'.incre = b.incre ∧ b'.lots.length = b.lots.length := by
  obtain ⟨pre, post, hl, hn, hpre, hpost⟩ := h
  -- cancelling in the lot `l` that holds the last used slot
  have lotCancel : ∀ l : Lot, l.WF c → 0 < l.slotsUsed → ∀ u, l.used = u ++ [s] →
      ∃ l', l.cancelSlot = some l' ∧ l'.WF c ∧ l'.used = u ∧ l'.slotsUsed = l.slotsUsed - 1 := by
    intro l hw h0 u hlu
    have hlen := Lot.used_length hw
    rw [hlu] at hlen
    have hul : u.length = l.slotsUsed - 1 := by simp at hlen; omega
    have hsl : l.slots = u ++ s :: l.slots.drop l.slotsUsed := by
      conv_lhs => rw [← List.take_append_drop l.slotsUsed l.slots]
      rw [show l.slots.take l.slotsUsed = u ++ [s] from hlu]; simp
    have hc : l.cancelSlot =
        some { l with slotsUsed := l.slotsUsed - 1, slots := u ++ Slot.reset c s :: l.slots.drop l.slotsUsed } := by
      unfold Lot.cancelSlot
      rw [if_pos ⟨h0, by rw [hw.cfg]; exact hw.le⟩, hw.cfg, ← hul]
      congr 2
      conv_lhs => rw [hsl]
      exact modify_mid ..
    refine ⟨_, hc, ⟨hw.cfg, ?_, ?_, hw.pad, ?_⟩, ?_, rfl⟩
    · have := hw.len; rw [hsl] at this; simpa using this
    · have := hw.le; show l.slotsUsed - 1 ≤ _; omega
    · intro x hx
      simp only [← hul, List.drop_left] at hx
      rcases List.mem_cons.1 hx with rfl | hx
      · exact Slot.reset_fresh c s hs
      · exact hw.unused x hx
    · simp only [Lot.used, ← hul, List.take_left]
  have last_eq : ∀ {a x : List Slot} {u : List Slot}, x ≠ [] → a ++ x = u ++ [s] → ∃ x', x = x' ++ [s] ∧ u = a ++ x' := by
    intro a x u hx he
    rcases List.eq_nil_or_concat x with rfl | ⟨x', y, rfl⟩
    · exact absurd rfl hx
    · rw [List.concat_eq_append, ← List.append_assoc] at he
      obtain ⟨h1, h2⟩ := List.append_inj' he rfl
      rw [List.concat_eq_append]
      exact ⟨x', by rw [h2], h1.symm⟩
  by_cases hback : post = [] ∨ ∃ l rest, post = l :: rest ∧ l.slotsUsed = 0
  · -- the last used slot is in the last full lot
    have hpostu : post.flatMap Lot.used = [] := by
      rcases hpost with rfl | ⟨l, rest, rfl, hw, hlt, hr⟩
      · rfl
      · rcases hback with h | ⟨l', rest', he, h0⟩
        · simp at h
        · injection he with he1 he2
          subst he1
          apply flatMap_used_empty (c := c)
          intro r hr'
          rcases List.mem_cons.1 hr' with rfl | hr'
          · exact ⟨hw, h0⟩
          · exact hr r hr'
    have hu2 : pre.flatMap Lot.used = us ++ [s] := by
      rw [← hu, Buffer.used, hl, List.flatMap_append, hpostu, List.append_nil]
    obtain ⟨pre', lp, rfl⟩ : ∃ pre' lp, pre = pre' ++ [lp] := by
      rcases List.eq_nil_or_concat pre with rfl | ⟨a, b, rfl⟩
      · simp at hu2
      · exact ⟨a, b, List.concat_eq_append ..⟩
    have hlp := hpre lp (by simp)
    have hd : 0 < c.direct := by
      by_contra h0
      have h0 : c.direct = 0 := by omega
      have := flatMap_used_length hpre
      rw [hu2, h0] at this
      simp at this
    have hne : lp.used ≠ [] := by
      intro h; have := Lot.used_length hlp.1
      rw [h, hlp.2] at this; simp at this; omega
    rw [List.flatMap_append, List.flatMap_singleton] at hu2
    obtain ⟨x', hx1, hx2⟩ := last_eq hne hu2
    obtain ⟨l', hc, hw', hu', hsu⟩ := lotCancel lp hlp.1 (by omega) x' hx1
    have hlots : b.lots = pre' ++ lp :: post := by rw [hl]; simp
    have hn' : b.lotsUsed = pre'.length + 1 := by rw [← hn]; simp
    have hget : b.lots[b.lotsUsed - 1]? = some lp := by
      rw [hlots, hn', Nat.add_sub_cancel, List.getElem?_append_right (Nat.le_refl _)]; simp
    have hact : b.active = some true := by
      unfold Buffer.active; rw [if_pos (by omega)]
    have hgp : b.lots[b.lotsUsed]? = post[0]? := by
      rw [hl, ← hn, List.getElem?_append_right (Nat.le_refl _)]; simp
    have hcancel : b.cancelSlot = some { b with lotsUsed := b.lotsUsed - 1, lots := pre' ++ l' :: post } := by
      unfold Buffer.cancelSlot
      rw [hact]
      have hk : b.shiftBack = true := by
        unfold Buffer.shiftBack
        rw [hgp]
        rcases hback with rfl | ⟨l, rest, rfl, h0⟩
        · simp
        · simp [h0]
      simp only [hk, if_true, hget, hc]
      rw [hlots, hn', Nat.add_sub_cancel, set_mid]
    refine ⟨_, hcancel, ?_, ?_, rfl, rfl, by simp [hlots]⟩
    · show Shape c (b.lotsUsed - 1) (pre' ++ l' :: post)
      refine ⟨pre', l' :: post, rfl, by omega, fun x hx => hpre x (by simp [hx]), .inr ⟨l', post, rfl, hw', by omega, ?_⟩⟩
      rcases hpost with rfl | ⟨l, rest, rfl, hw, hlt, hr⟩
      · simp
      · rcases hback with h | ⟨l2, rest2, he, h0⟩
        · simp at h
        · injection he with he1 he2
          subst he1
          intro r hr'
          rcases List.mem_cons.1 hr' with rfl | hr'
          · exact ⟨hw, h0⟩
          · exact hr r hr'
    · simp only [Buffer.used, List.flatMap_append, List.flatMap_cons, hpostu, hu']
      rw [hx2]; simp
  · -- the last used slot is in the lot being filled
    rcases hpost with rfl | ⟨l, rest, rfl, hw, hlt, hr⟩
    · simp at hback
    have h0 : 0 < l.slotsUsed := by
      by_contra h
      exact hback (.inr ⟨l, rest, rfl, by omega⟩)
    have hne : l.used ≠ [] := by
      intro h; have := Lot.used_length hw
      rw [h] at this; simp at this; omega
    have hu2 : pre.flatMap Lot.used ++ l.used = us ++ [s] := by
      rw [← hu, Buffer.used, hl, List.flatMap_append, List.flatMap_cons, flatMap_used_empty hr, List.append_nil]
    obtain ⟨x', hx1, hx2⟩ := last_eq hne hu2
    obtain ⟨l', hc, hw', hu', hsu⟩ := lotCancel l hw h0 x' hx1
    have hget : b.lots[b.lotsUsed]? = some l := by
      rw [hl, ← hn, List.getElem?_append_right (Nat.le_refl _)]; simp
    have hact : b.active = some true := by
      unfold Buffer.active
      split
      · rfl
      · rw [hget]; simp [h0]
    have hcancel : b.cancelSlot = some { b with lots := pre ++ l' :: rest } := by
      unfold Buffer.cancelSlot
      rw [hact]
      have hk : b.shiftBack = false := by
        unfold Buffer.shiftBack
        rw [hget]; simp; omega
      simp only [hk, Bool.false_eq_true, if_false, hget, hc]
      rw [hl, ← hn, set_mid]
    refine ⟨_, hcancel, ?_, ?_, rfl, rfl, by simp [hl]⟩
    · exact ⟨pre, l' :: rest, rfl, hn, hpre, .inr ⟨l', rest, rfl, hw', by omega, hr⟩⟩
    · simp only [Buffer.used, List.flatMap_append, List.flatMap_cons, flatMap_used_empty hr, hu']
      rw [hx2]; simp

end Verif
