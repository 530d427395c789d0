import Verif.Lemmas.RepairFile
/-!
# The counters of `repair`
-/

namespace Verif.Repair
open Format RepairSpec Scan Layout LayoutSpec
open Classical

theorem meta_stats {v : Version} {uid : Uid} {d : Dpb} {mb : List Byte} (hmb : mb.length = blockLen v) (dry : Bool) (f : File)
    (hf : blockLen v ∣ f.length) :
    ∀ (ks : List Nat), ks.Nodup → (∀ k ∈ ks, k ∈ metaCopies (some true) (some d)) →
      (ks.foldl (metaOne v uid mb dry) (⟨f, []⟩, Stats.zero)).2 =
        ⟨ks.countP fun k => decide (ValidAt v uid f k), 0, ks.length - ks.countP fun k => decide (ValidAt v uid f k),
          ks.length - ks.countP fun k => decide (ValidAt v uid f k), 0, 0⟩ := by
  intro ks
  induction ks using List.reverseRecOn with
  | nil => intro _ _; rfl
  | append_singleton ks k ih =>
    intro hnd hmem
    rw [List.nodup_append] at hnd
    have hk : k ∉ ks := fun h => hnd.2.2 k h k (by simp) rfl
    have hst := ih hnd.1 (fun x hx => hmem x (by simp [hx]))
    obtain ⟨ws, h1, h2, h3, h4, h5⟩ := meta_ops (uid := uid) (d := d) hmb dry f ks hnd.1 (fun x hx => hmem x (by simp [hx]))
    rw [List.foldl_append, List.countP_append, List.length_append, List.length_singleton]
    generalize ks.foldl (metaOne v uid mb dry) (⟨f, []⟩, Stats.zero) = x at *
    simp only [List.foldl_cons, List.foldl_nil]
    have hsp : Spares v k ws := by
      intro w hw
      obtain ⟨j, hj, _, rfl⟩ := h4 w hw
      exact ⟨hmb, j, fun e => hk (e ▸ hj), rfl⟩
    have hfile : x.1.file = f.writes ws := by rw [h1]; rfl
    have hiff : ValidAt v uid x.1.file k ↔ ValidAt v uid f k := by
      rw [hfile]
      constructor
      · rintro ⟨sq, p, hb⟩
        have := (seen hsp f).2 hb
        rw [fill_aligned hf] at this
        exact ⟨sq, p, this⟩
      · rintro ⟨sq, p, hb⟩
        exact ⟨sq, p, (seen hsp f).1 hb⟩
    have hle := List.countP_le_length (p := fun k => decide (ValidAt v uid f k)) (l := ks)
    unfold metaOne
    by_cases hv : ValidAt v uid x.1.file k
    · rw [if_pos hv, hst]
      have h := hiff.1 hv
      simp only [List.countP_singleton, h, decide_true, if_true, Stats.mk.injEq, true_and, and_true]
      omega
    · rw [if_neg hv, hst]
      have h : ¬ ValidAt v uid f k := fun x => hv (hiff.2 x)
      simp only [List.countP_singleton, h, decide_false, Bool.false_eq_true, if_false, Stats.mk.injEq, true_and, and_true]
      omega

theorem blocksIn_succ (v : Version) (uid : Uid) (d : Dpb) (f : File) (m : Nat) :
    blocksIn v uid d f (m + 1) = blocksIn v uid d f m + if Present v uid d f (m + 1) then 1 else 0 := by
  unfold blocksIn
  rw [List.range_succ, List.countP_append, List.countP_singleton]
  simp

theorem blocksIn_le (v : Version) (uid : Uid) (d : Dpb) (f : File) (m : Nat) : blocksIn v uid d f m ≤ m := by
  unfold blocksIn
  exact List.countP_le_length.trans (by simp)

theorem missingIn_succ (v : Version) (uid : Uid) (d : Dpb) (f : File) (ok : Bool) (n : Nat) :
    missingIn v uid d f ok (n + 1) = missingIn v uid d f ok n +
      if decide (d.data ≤ presentIn v uid d f n) = ok then d.data + d.parity - presentIn v uid d f n else 0 := by
  unfold missingIn
  rw [List.range_succ, List.map_append, List.sum_append]
  simp

theorem Run.stats {rs : RsCodec} {v : Version} {uid : Uid} {d : Dpb} (hd : 1 ≤ d.data) {mb : List Byte} (hmb : mb.length = blockLen v)
    {dry : Bool} {f : File} (hf : blockLen v ∣ f.length) {ws0 : List (Nat × List Byte)} {st0 : Stats}
    (h0 : ∀ w ∈ ws0, ∃ k ∈ metaCopies (some true) (some d), ¬ ValidAt v uid f k ∧ w = (k * blockLen v, mb))
    {m : Nat} {dk : Disk} {st : Stats} (h : Run rs v uid d dry ⟨f, ws0⟩ st0 m dk st) :
    st = ⟨st0.metaDecoded, st0.dataDecoded + blocksIn v uid d f m, st0.failed + (m - blocksIn v uid d f m), st0.metaRepaired,
      st0.dataRepaired + missingIn v uid d f true (m / (d.data + d.parity)),
      st0.repairFailed + missingIn v uid d f false (m / (d.data + d.parity))⟩ := by
  have hn : 0 < d.data + d.parity := by omega
  have hsee : ∀ m dk st, Run rs v uid d dry ⟨f, ws0⟩ st0 m dk st → ∀ s, m / (d.data + d.parity) * (d.data + d.parity) < s →
      (Present v uid d dk.file s ↔ Present v uid d f s) := by
    intro m dk st hr s hs
    obtain ⟨ws, h1, h2, h3⟩ := hr.ops hd hmb h0
    have hsp := OpOk.spares hd hmb hs h3
    have hfile : dk.file = f.writes (ws0 ++ ws) := by rw [h1]; rfl
    unfold Present
    rw [hfile]
    constructor
    · rintro ⟨p, hb⟩
      have := (seen hsp f).2 hb
      rw [fill_aligned hf] at this
      exact ⟨p, this⟩
    · rintro ⟨p, hb⟩
      exact ⟨p, (seen hsp f).1 hb⟩
  induction h with
  | start => simp [blocksIn, missingIn]
  | read m dk st hr hm ih =>
    have hq : (m + 1) / (d.data + d.parity) = m / (d.data + d.parity) := by
      rw [Nat.succ_div, if_neg (fun h => hm (Nat.mod_eq_zero_of_dvd h)), Nat.add_zero]
    have hiff := hsee m dk st hr (m + 1) (by have := Nat.div_mul_le_self m (d.data + d.parity); omega)
    have hle := blocksIn_le v uid d f m
    rw [hq, blocksIn_succ, ih]
    unfold Stats.read
    by_cases hp : Present v uid d f (m + 1)
    · simp only [hiff.2 hp, hp, decide_true, if_true, Stats.mk.injEq, true_and, and_true]
      omega
    · simp only [show ¬ Present v uid d dk.file (m + 1) from fun h => hp (hiff.1 h), hp, decide_false, Bool.false_eq_true, if_false,
        Stats.mk.injEq, true_and, and_true]
      omega
  | set t m dk st ok ws1 hr hm hset ih =>
    have hmt : m / (d.data + d.parity) = t := by
      have : m = t * (d.data + d.parity) + (d.data + d.parity - 1) := by rw [Nat.succ_mul] at hm; omega
      rw [this]
      exact (divmod_eq (by omega)).1
    have hmt' : (m + 1) / (d.data + d.parity) = t + 1 := by rw [hm, Nat.mul_div_cancel _ hn]
    have hs := hsee m dk st hr
    have hiff := hs (m + 1) (by have := Nat.div_mul_le_self m (d.data + d.parity); omega)
    have hpin : presentIn v uid d dk.file t = presentIn v uid d f t := by
      unfold presentIn
      apply List.countP_congr
      intro j _
      simp only [decide_eq_true_eq]
      exact hs _ (by rw [hmt]; omega)
    have hle := blocksIn_le v uid d f m
    have hok := hset.1
    rw [hpin] at hok
    rw [hmt', blocksIn_succ, missingIn_succ, missingIn_succ, hpin, ih, hmt]
    unfold Stats.read Stats.set
    cases ok with
    | true =>
      have hge := hok.1 rfl
      by_cases hp : Present v uid d f (m + 1)
      · simp only [hiff.2 hp, hp, hge, decide_true, if_true, Stats.mk.injEq, true_and, and_true, Bool.true_eq_false, if_false]
        omega
      · simp only [show ¬ Present v uid d dk.file (m + 1) from fun h => hp (hiff.1 h), hp, hge, decide_true, decide_false, if_true,
          Bool.false_eq_true, if_false, Stats.mk.injEq, true_and, and_true, Bool.true_eq_false]
        omega
    | false =>
      have hlt : ¬ d.data ≤ presentIn v uid d f t := fun h => by simpa using hok.2 h
      by_cases hp : Present v uid d f (m + 1)
      · simp only [hiff.2 hp, hp, hlt, decide_true, decide_false, if_true, Stats.mk.injEq, true_and, and_true, Bool.false_eq_true, if_false]
        omega
      · simp only [show ¬ Present v uid d dk.file (m + 1) from fun h => hp (hiff.1 h), hp, hlt, decide_true, decide_false, if_true,
          Bool.false_eq_true, if_false, Stats.mk.injEq, true_and, and_true]
        omega

end Verif.Repair
