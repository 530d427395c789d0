import Verif.Lemmas.RepairStats
/-!
# What a repair has written, on any file of whole blocks
-/

namespace Verif.Repair
open Format RepairSpec Scan Layout LayoutSpec
open Classical

/-- The writes are whole blocks at places. -/
def Placed (v : Version) (ws : List (Nat × List Byte)) : Prop := ∀ w ∈ ws, w.2.length = blockLen v ∧ ∃ j, w.1 = j * blockLen v

theorem writes_snoc (g : File) (ws : List (Nat × List Byte)) (w : Nat × List Byte) :
    g.writes (ws ++ [w]) = (g.writes ws).writeAt w.1 w.2 := by
  unfold File.writes
  rw [List.foldl_append]
  rfl

/-- What is at a place that has been written. -/
theorem piece_writes_mem {v : Version} {g : File} {k : Nat} {P : List Byte → Prop} (ws : List (Nat × List Byte)) :
    Placed v ws → (∀ w ∈ ws, w.1 = k * blockLen v → P w.2) → (∃ w ∈ ws, w.1 = k * blockLen v) →
    P (piece v (g.writes ws) k) ∧ (piece v (g.writes ws) k).length = blockLen v := by
  induction ws using List.reverseRecOn with
  | nil => rintro - - ⟨w, hw, -⟩; simp at hw
  | append_singleton ws w ih =>
    intro hpl hP hex
    obtain ⟨hl, j, hj⟩ := hpl w (by simp)
    rw [writes_snoc]
    by_cases hk : w.1 = k * blockLen v
    · rw [hk, piece_written hl]
      exact ⟨hP w (by simp) hk, hl⟩
    · have hjk : k ≠ j := by rintro rfl; exact hk hj
      obtain ⟨i1, i2⟩ := ih (fun x hx => hpl x (by simp [hx])) (fun x hx => hP x (by simp [hx])) (by
        obtain ⟨x, hx, hx'⟩ := hex
        rw [List.mem_append, List.mem_singleton] at hx
        rcases hx with hx | rfl
        · exact ⟨x, hx, hx'⟩
        · exact absurd hx' hk)
      rw [hj]
      rcases piece_writeAt (v := v) (g := g.writes ws) hjk hl with e | e
      · rw [e]; exact ⟨i1, i2⟩
      · rw [e, zpad_full i2]; exact ⟨i1, i2⟩

/-- A file of whole blocks stays one. -/
theorem dvd_writes {v : Version} {g : File} (hg : blockLen v ∣ g.length) (ws : List (Nat × List Byte)) :
    Placed v ws → blockLen v ∣ (g.writes ws).length := by
  induction ws using List.reverseRecOn with
  | nil => intro _; exact hg
  | append_singleton ws w ih =>
    intro hpl
    obtain ⟨hl, j, hj⟩ := hpl w (by simp)
    have hi := ih fun x hx => hpl x (by simp [hx])
    have hu := blockLen_pos v
    rw [writes_snoc, File.writeAt_length _ _ _ (by intro e; rw [e] at hl; simp at hl; omega), hl, hj]
    have h2 : blockLen v ∣ j * blockLen v + blockLen v := ⟨j + 1, by rw [Nat.mul_comm, Nat.mul_succ, Nat.mul_comm]⟩
    rcases Nat.le_total (g.writes ws).length (j * blockLen v + blockLen v) with h | h
    · rw [Nat.max_eq_right h]; exact h2
    · rw [Nat.max_eq_left h]; exact hi

theorem OpOk.placed {v : Version} {uid : Uid} {d : Dpb} {mb : List Byte} (hmb : mb.length = blockLen v) {f : File} {top : Nat}
    {ws : List (Nat × List Byte)} (h : ∀ w ∈ ws, OpOk v uid d mb f top w) : Placed v ws := by
  intro w hw
  refine ⟨(h w hw).length hmb, ?_⟩
  rcases h w hw with ⟨k, _, _, rfl⟩ | ⟨s, p, _, _, _, _, _, rfl⟩
  · exact ⟨k, rfl⟩
  · exact ⟨placeOf d s, rfl⟩

/-- The missing blocks of the sets that have been treated and have enough blocks are among the writes. -/
theorem Run.complete {rs : RsCodec} {v : Version} {uid : Uid} {d : Dpb} (hd : 1 ≤ d.data) {mb : List Byte} (hmb : mb.length = blockLen v)
    {f : File} (hf : blockLen v ∣ f.length) {ws0 : List (Nat × List Byte)} {st0 : Stats}
    (h0 : ∀ w ∈ ws0, ∃ k ∈ metaCopies (some true) (some d), ¬ ValidAt v uid f k ∧ w = (k * blockLen v, mb))
    {m : Nat} {dk : Disk} {st : Stats} (h : Run rs v uid d false ⟨f, ws0⟩ st0 m dk st) :
    ∀ t j, (t + 1) * (d.data + d.parity) ≤ m → d.data ≤ presentIn v uid d f t → j < d.data + d.parity →
      ¬ Present v uid d f (t * (d.data + d.parity) + j + 1) →
      ∃ w ∈ dk.ops, w.1 = placeOf d (t * (d.data + d.parity) + j + 1) * blockLen v := by
  have hn : 0 < d.data + d.parity := by omega
  have hsee : ∀ m dk st, Run rs v uid d false ⟨f, ws0⟩ st0 m dk st → ∀ s, m / (d.data + d.parity) * (d.data + d.parity) < s →
      (Present v uid d dk.file s ↔ Present v uid d f s) := by
    intro m dk st hr s hs
    obtain ⟨ws, h1, h2, h3⟩ := hr.ops hd hmb h0
    have hsp := OpOk.spares hd hmb hs h3
    have hfile : dk.file = f.writes (ws0 ++ ws) := by rw [h1]; rfl
    unfold Present
    rw [hfile]
    constructor
    · rintro ⟨p, hb⟩
      have := (seen hsp f).2 hb
      rw [fill_aligned hf] at this
      exact ⟨p, this⟩
    · rintro ⟨p, hb⟩
      exact ⟨p, (seen hsp f).1 hb⟩
  induction h with
  | start =>
    intro t j ht
    rw [Nat.succ_mul] at ht
    omega
  | read m dk st hr hm ih =>
    intro t j ht
    refine ih t j ?_
    rcases Nat.lt_or_ge m ((t + 1) * (d.data + d.parity)) with h | h
    · have : m + 1 = (t + 1) * (d.data + d.parity) := by omega
      rw [this, Nat.mul_mod_left] at hm
      exact absurd rfl hm
    · exact h
  | set t0 m dk st ok ws1 hr hm hset ih =>
    intro t j ht hen hj hnp
    simp only [Bool.false_eq_true, if_false]
    rcases Nat.lt_or_ge m ((t + 1) * (d.data + d.parity)) with h | h
    · have e : (t + 1) * (d.data + d.parity) = (t0 + 1) * (d.data + d.parity) := by omega
      have e := Nat.eq_of_mul_eq_mul_right hn e
      have : t = t0 := by omega
      subst this
      have hmt : m / (d.data + d.parity) = t := by
        have : m = t * (d.data + d.parity) + (d.data + d.parity - 1) := by rw [Nat.succ_mul] at hm; omega
        rw [this]
        exact (divmod_eq (by omega)).1
      have hs := hsee m dk st hr
      rw [hmt] at hs
      have hpin : presentIn v uid d dk.file t = presentIn v uid d f t := by
        unfold presentIn
        apply List.countP_congr
        intro j _
        simp only [decide_eq_true_eq]
        exact hs _ (by omega)
      obtain ⟨e1, e2, e3⟩ := hset
      obtain ⟨out, o1, o2, -, o4⟩ := e3 (e1.2 (by rw [hpin]; exact hen))
      have hnp' : ¬ Present v uid d dk.file (t * (d.data + d.parity) + j + 1) := fun x => hnp ((hs _ (by omega)).1 x)
      refine ⟨(placeOf d (t * (d.data + d.parity) + j + 1) * blockLen v,
        blockBytes v uid.bytes (UInt32.ofNat (t * (d.data + d.parity) + j + 1)) out[j]), ?_, rfl⟩
      show _ ∈ dk.ops ++ ws1
      rw [List.mem_append, o4, List.mem_filterMap]
      refine .inr ⟨j, List.mem_range.2 hj, ?_⟩
      rw [if_neg hnp', List.getElem?_eq_getElem (by omega)]
      rfl
    · obtain ⟨w, hw, hw'⟩ := ih t j h hen hj hnp
      exact ⟨w, List.mem_append_left _ hw, hw'⟩

end Verif.Repair
