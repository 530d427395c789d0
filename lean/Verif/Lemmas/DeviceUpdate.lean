import Verif.Lemmas.DeviceRepair
import Verif.Lemmas.UpdateLoop
/-!
# `update` on a device; what writes taken in part leave
-/

namespace Verif.Device
open DeviceSpec

theorem loop_ops (ref : Block) (upd : List Metadata) (rem : List MetaId) (write : Bool) (stop : Nat → Bool) : ∀ (ps : List Nat) (k : Nat) (s : Update.St),
    ∃ ws, (Update.loop ref upd rem write stop k ps s).1.disk = ⟨s.disk.init, s.disk.ops ++ ws⟩ ∧ (∀ w ∈ ws, w.1 ∈ ps) ∧
      (write = false → ws = []) := by
  intro ps
  induction ps with
  | nil => intro k s; exact ⟨[], by simp [Update.loop], by simp, fun _ => rfl⟩
  | cons p ps ih =>
    intro k s
    have hstay : ∃ ws, s.disk = ⟨s.disk.init, s.disk.ops ++ ws⟩ ∧ (∀ w ∈ ws, w.1 ∈ p :: ps) ∧ (write = false → ws = []) := ⟨[], by simp, by simp, fun _ => rfl⟩
    have hgo : ∀ t : Update.St, t.disk = s.disk → ∃ ws, (Update.loop ref upd rem write stop (k + 1) ps t).1.disk = ⟨s.disk.init, s.disk.ops ++ ws⟩ ∧
        (∀ w ∈ ws, w.1 ∈ p :: ps) ∧ (write = false → ws = []) := by
      intro t ht
      obtain ⟨ws, h1, h2, h3⟩ := ih (k + 1) t
      rw [ht] at h1
      exact ⟨ws, h1, fun w hw => List.mem_cons_of_mem _ (h2 w hw), h3⟩
    rw [Update.loop]
    split
    · exact hstay
    simp only
    split
    · exact hstay
    generalize s.block.syncFrom _ _ _ = r
    obtain ⟨b, e⟩ := r
    cases e with
    | some e => simp only; exact hgo _ rfl
    | none =>
      simp only
      split
      · exact hgo _ rfl
      · cases Update.change upd rem b with
        | error e => exact hstay
        | ok b =>
          simp only
          generalize b.syncTo none _ = x
          cases x with
          | error e => cases e <;> exact hstay
          | ok y =>
            simp only
            cases write
            · exact hgo _ rfl
            · obtain ⟨ws, h1, h2, -⟩ := ih (k + 1) { disk := s.disk.writeAt p (y.2.take ref.header.version.blockSize), buffer := y.2, block := y.1, stats := { s.stats with updated := s.stats.updated + 1 } }
              refine ⟨(p, y.2.take ref.header.version.blockSize) :: ws, ?_, ?_, fun h => by cases h⟩
              · simp only [if_true]
                rw [h1]
                simp [Disk.writeAt]
              · intro w hw
                rcases List.mem_cons.1 hw with rfl | hw
                · simp
                · exact List.mem_cons_of_mem _ (h2 w hw)

theorem updateLoop_sim {A : Os} {f : File} {place : Nat → Prop} {Q : List (Nat × List Byte) → Prop} (ref : Block)
    (R : Reads A f ref.header.version.blockSize place Q) (upd : List Metadata) (rem : List MetaId) (write : Bool) (stop : Nat → Bool) :
    ∀ (ps : List Nat) (k : Nat) (s : Update.St) (d : Plain) (dk0 : Disk), PlainRel A d s.disk → s.disk.init = f → ps.Nodup →
      (∀ p ∈ ps, place p) → (∀ w ∈ s.disk.ops, w.1 ∉ ps) → Q (Update.loop ref upd rem write stop k ps s).1.disk.ops →
      (updateLoop A ref upd rem write stop k ps { s with disk := dk0 } d).1.file = left A 0 f (Update.loop ref upd rem write stop k ps s).1.disk.ops ∧
      (((Update.loop ref upd rem write stop k ps s).2 = none ∧
          (updateLoop A ref upd rem write stop k ps { s with disk := dk0 } d).2 = some (Update.loop ref upd rem write stop k ps s).1.stats ∧
          PlainRel A (updateLoop A ref upd rem write stop k ps { s with disk := dk0 } d).1 ⟨f, (Update.loop ref upd rem write stop k ps s).1.disk.ops⟩) ∨
        ((updateLoop A ref upd rem write stop k ps { s with disk := dk0 } d).2 = none ∧
          ((Update.loop ref upd rem write stop k ps s).2 ≠ none ∨ carriedOut A 0 f (Update.loop ref upd rem write stop k ps s).1.disk.ops = none))) := by
  intro ps
  induction ps with
  | nil =>
    intro k s d dk0 hr hf _ _ _ _
    have := rel_left hr
    rw [hf] at this
    have hk : s.disk = ⟨f, s.disk.ops⟩ := by rw [← hf]
    refine ⟨this, .inl ⟨rfl, rfl, ?_⟩⟩
    show PlainRel A d ⟨f, s.disk.ops⟩
    rw [← hk]; exact hr
  | cons p ps ih =>
    intro k s d dk0 hr hf hnd hpl hops hQ
    have hk : s.disk = ⟨f, s.disk.ops⟩ := by rw [← hf]
    have hl := rel_left hr
    rw [hf] at hl
    have hr0 : PlainRel A d ⟨f, s.disk.ops⟩ := by rw [← hk]; exact hr
    have hQ0 : Q s.disk.ops := by
      obtain ⟨ws, e, -⟩ := loop_ops ref upd rem write stop (p :: ps) k s
      rw [e] at hQ
      exact R.earlier _ _ hQ
    have hread : d.file.readAt p ref.header.version.blockSize = s.disk.file.readAt p ref.header.version.blockSize := by
      have h1 := hr.1
      rw [hf] at h1
      have := R.same _ _ p hQ0 h1 (hpl p (by simp)) (fun w hw e => hops w hw (by rw [e]; simp))
      rw [this]
      unfold Disk.file
      rw [hf]
    have hgo := fun (t : Update.St) (ht : t.disk = s.disk) => ih (k + 1) t d dk0 (by rw [ht]; exact hr) (by rw [ht]; exact hf)
      (List.nodup_cons.1 hnd).2 (fun q hq => hpl q (by simp [hq])) (by rw [ht]; exact fun w hw h => hops w hw (by simp [h]))
    rw [Update.loop] at hQ ⊢
    rw [updateLoop]
    by_cases hst : stop k = true
    · simp only [if_pos hst]
      exact ⟨hl, .inl ⟨trivial, trivial, hr0⟩⟩
    simp only [if_neg hst] at hQ ⊢
    rw [hread]
    generalize s.disk.file.readAt p ref.header.version.blockSize = bytes at hQ ⊢
    by_cases hlen : bytes.length < ref.header.version.blockSize
    · simp only [if_pos hlen]
      exact ⟨hl, .inl ⟨trivial, trivial, hr0⟩⟩
    simp only [if_neg hlen] at hQ ⊢
    generalize s.block.syncFrom (bytes ++ s.buffer.drop bytes.length) (some (sameVerUid ref)) none = r at hQ ⊢
    obtain ⟨b, e⟩ := r
    cases e with
    | some e => simp only at hQ ⊢; exact hgo { s with buffer := bytes ++ s.buffer.drop bytes.length, block := b, stats := { s.stats with failed := s.stats.failed + 1 } } rfl hQ
    | none =>
      simp only at hQ ⊢
      by_cases hbt : b.blockType = .data
      · simp only [if_pos hbt] at hQ ⊢
        exact hgo { s with buffer := bytes ++ s.buffer.drop bytes.length, block := b, stats := { s.stats with failed := s.stats.failed + 1 } } rfl hQ
      simp only [if_neg hbt] at hQ ⊢
      cases hch : Update.change upd rem b with
      | error e => exact ⟨hl, .inr ⟨rfl, .inl (by simp)⟩⟩
      | ok b =>
        rw [hch] at hQ
        simp only at hQ ⊢
        cases hx : b.syncTo none (bytes ++ s.buffer.drop bytes.length) with
        | error e => cases e <;> exact ⟨hl, .inr ⟨rfl, .inl (by simp)⟩⟩
        | ok y =>
          obtain ⟨b', buffer⟩ := y
          rw [hx] at hQ
          simp only at hQ ⊢
          cases write
          · simp only [Bool.false_eq_true, if_false, Plain.writes] at hQ ⊢
            exact hgo { disk := s.disk, buffer := buffer, block := b', stats := { s.stats with updated := s.stats.updated + 1 } } rfl hQ
          · simp only [if_true] at hQ ⊢
            obtain ⟨w1, w2⟩ := rel_writes hr [(p, buffer.take ref.header.version.blockSize)]
            generalize hW : d.writes A [(p, buffer.take ref.header.version.blockSize)] = W at w1 w2 ⊢
            obtain ⟨d1, t⟩ := W
            rcases w2 with ⟨rfl, w2⟩ | ⟨rfl, w2⟩
            · simp only at w1 w2 ⊢
              refine ih (k + 1) { disk := s.disk.writeAt p (buffer.take ref.header.version.blockSize), buffer := buffer, block := b', stats := { s.stats with updated := s.stats.updated + 1 } }
                d1 dk0 w2 hf (List.nodup_cons.1 hnd).2 (fun q hq => hpl q (by simp [hq])) ?_ hQ
              intro w hw
              rcases List.mem_append.1 (show w ∈ s.disk.ops ++ [(p, buffer.take ref.header.version.blockSize)] from hw) with hw | hw
              · exact fun h => hops w hw (by simp [h])
              · simp only [List.mem_singleton] at hw
                rw [hw]; exact (List.nodup_cons.1 hnd).1
            · simp only at w1 w2 ⊢
              rw [hf] at w1 w2
              obtain ⟨ws, e, -⟩ := loop_ops ref upd rem true stop ps (k + 1) { disk := s.disk.writeAt p (buffer.take ref.header.version.blockSize), buffer := buffer, block := b', stats := { s.stats with updated := s.stats.updated + 1 } }
              have e' : (Update.loop ref upd rem true stop (k + 1) ps { disk := s.disk.writeAt p (buffer.take ref.header.version.blockSize), buffer := buffer, block := b', stats := { s.stats with updated := s.stats.updated + 1 } }).1.disk.ops =
                (s.disk.ops ++ [(p, buffer.take ref.header.version.blockSize)]) ++ ws := by rw [e]; rfl
              obtain ⟨b1, b2⟩ := bad_append w2 ws
              rw [e', b1, b2]
              exact ⟨w1, .inr ⟨trivial, .inr rfl⟩⟩

/-- What `update` does on a device, in terms of a run in which everything is taken. -/
theorem update_sim {A : Os} (E : Update.Env) (p : Update.Param) (f : File) (Q : List (Nat × List Byte) → Prop)
    (R : ∀ ref : Block, (∃ pos, Scan.getRefBlockAligned p.ref (.mustBe .metadata) f E.stopRef (E.stopTest 0) = .ok (pos, ref)) →
      ∃ place, Reads A f ref.header.version.blockSize place Q ∧ ∀ k, place (k * ref.header.version.blockSize))
    (hQ : Q (Update.updateFile E p f).1.ops) :
    update A E p f = (left A 0 f (Update.updateFile E p f).1.ops,
      if (carriedOut A 0 f (Update.updateFile E p f).1.ops).isSome then (Update.updateFile E p f).2.toOption else none) := by
  unfold Update.updateFile at hQ ⊢
  unfold update
  cases hr : Scan.getRefBlockAligned p.ref (.mustBe .metadata) f E.stopRef (E.stopTest 0) with
  | error e => rfl
  | ok x =>
    obtain ⟨pos, ref⟩ := x
    obtain ⟨place, R, hpl⟩ := R ref ⟨pos, hr⟩
    rw [hr] at hQ
    simp only at hQ ⊢
    cases hs : Update.sizeFor p ref with
    | error e => rfl
    | ok size =>
      rw [hs] at hQ
      simp only at hQ ⊢
      cases hd : Scan.dataParBurst p.ref false f ref with
      | error e => rfl
      | ok dpb =>
        rw [hd] at hQ
        simp only at hQ ⊢
        have hnil : Q [] := R.earlier [] _ hQ
        have hnd : (Layout.metaAllPos ref.header.version dpb).Nodup := by
          cases dpb with
          | none => rw [metaAllPos_eq, metaAllIndices_eq]; simp [LayoutSpec.metaCopies]
          | some d => exact metaAllPos_nodup _ _
        have hplace : ∀ q ∈ Layout.metaAllPos ref.header.version dpb, place q := by
          intro q hq
          rw [metaAllPos_eq] at hq
          obtain ⟨k, -, rfl⟩ := List.mem_map.1 hq
          exact hpl k
        have hstep : ∀ (upd : List Metadata) (write : Bool) (stop : Nat → Bool),
            Q (Update.updateBlocks ref dpb upd p.remove write stop ⟨f, []⟩).1.ops →
            (updateBlocks A ref dpb upd p.remove write stop ⟨f, 0⟩).1.file = left A 0 f (Update.updateBlocks ref dpb upd p.remove write stop ⟨f, []⟩).1.ops ∧
            ((∃ st, (Update.updateBlocks ref dpb upd p.remove write stop ⟨f, []⟩).2 = .ok st ∧
                (updateBlocks A ref dpb upd p.remove write stop ⟨f, 0⟩).2 = some st ∧
                PlainRel A (updateBlocks A ref dpb upd p.remove write stop ⟨f, 0⟩).1 ⟨f, (Update.updateBlocks ref dpb upd p.remove write stop ⟨f, []⟩).1.ops⟩) ∨
              ((updateBlocks A ref dpb upd p.remove write stop ⟨f, 0⟩).2 = none ∧
                ((∃ e, (Update.updateBlocks ref dpb upd p.remove write stop ⟨f, []⟩).2 = .error e) ∨
                  carriedOut A 0 f (Update.updateBlocks ref dpb upd p.remove write stop ⟨f, []⟩).1.ops = none))) := by
          intro upd write stop hq
          unfold Update.updateBlocks at hq ⊢
          unfold updateBlocks
          generalize hs0 : (⟨⟨f, []⟩, List.replicate largestBlockSize 0, Block.dummy, ⟨0, 0⟩⟩ : Update.St) = s0 at hq ⊢
          have hs1 : (⟨⟨[], []⟩, List.replicate largestBlockSize 0, Block.dummy, ⟨0, 0⟩⟩ : Update.St) = { s0 with disk := ⟨[], []⟩ } := by rw [← hs0]
          have hdk : s0.disk = ⟨f, []⟩ := by rw [← hs0]
          rw [hs1]
          have := updateLoop_sim ref R upd p.remove write stop (Layout.metaAllPos ref.header.version dpb) 0 s0 ⟨f, 0⟩ ⟨[], []⟩ (by rw [hdk]; exact ⟨rfl, rfl⟩)
            (by rw [hdk]) hnd hplace (by rw [hdk]; simp)
          generalize Update.loop ref upd p.remove write stop 0 (Layout.metaAllPos ref.header.version dpb) s0 = L at hq this ⊢
          obtain ⟨s', e⟩ := L
          cases e with
          | none =>
            simp only at hq this ⊢
            rcases this hq with ⟨t1, ⟨-, t2, t3⟩ | ⟨t2, t3⟩⟩
            · exact ⟨t1, .inl ⟨_, rfl, t2, t3⟩⟩
            · refine ⟨t1, .inr ⟨t2, .inr ?_⟩⟩
              rcases t3 with t3 | t3
              · exact absurd rfl t3
              · exact t3
          | some e =>
            simp only at hq this ⊢
            rcases this hq with ⟨t1, ⟨h, -⟩ | ⟨t2, -⟩⟩
            · cases h
            · exact ⟨t1, .inr ⟨t2, .inl ⟨e, rfl⟩⟩⟩
        have htest : (Update.updateBlocks ref dpb p.update p.remove false E.stopTest ⟨f, []⟩).1 = ⟨f, []⟩ := by
          obtain ⟨ws, e, -, h0⟩ := loop_ops ref p.update p.remove false E.stopTest (Layout.metaAllPos ref.header.version dpb) 0
            ⟨⟨f, []⟩, List.replicate largestBlockSize 0, Block.dummy, ⟨0, 0⟩⟩
          unfold Update.updateBlocks
          rw [h0 rfl] at e
          generalize Update.loop ref p.update p.remove false E.stopTest 0 (Layout.metaAllPos ref.header.version dpb)
            ⟨⟨f, []⟩, List.replicate largestBlockSize 0, Block.dummy, ⟨0, 0⟩⟩ = L at e ⊢
          obtain ⟨s', e'⟩ := L
          cases e' <;> simpa using e
        obtain ⟨t1, t2⟩ := hstep p.update false E.stopTest (by rw [htest]; exact hnil)
        rw [htest] at t1 t2
        generalize Update.updateBlocks ref dpb p.update p.remove false E.stopTest ⟨f, []⟩ = L at htest t2 hQ ⊢
        obtain ⟨dk, r⟩ := L
        simp only at htest t2
        subst htest
        generalize updateBlocks A ref dpb p.update p.remove false E.stopTest ⟨f, 0⟩ = T at t1 t2 ⊢
        obtain ⟨d1, o⟩ := T
        simp only at t1 t2
        rcases t2 with ⟨st, rfl, rfl, t3⟩ | ⟨rfl, t3⟩
        · have hd1 : d1 = ⟨f, 0⟩ := by
            obtain ⟨h1, h2⟩ := t3
            obtain ⟨a, b⟩ := d1
            simp only [carriedOut, Option.some.injEq, List.length_nil] at h1 h2
            rw [h1, h2]
          subst hd1
          simp only at hQ ⊢
          have hfile : (Disk.file ⟨f, []⟩) = f := rfl
          rw [hfile] at hQ ⊢
          cases hfl : Update.fieldsFor E p ref dpb f size with
          | error e => rfl
          | ok fields =>
            rw [hfl] at hQ
            simp only at hQ ⊢
            obtain ⟨u1, u2⟩ := hstep fields (!p.dryRun) E.stopRun hQ
            generalize Update.updateBlocks ref dpb fields p.remove (!p.dryRun) E.stopRun ⟨f, []⟩ = L at u1 u2 ⊢
            generalize updateBlocks A ref dpb fields p.remove (!p.dryRun) E.stopRun ⟨f, 0⟩ = T at u1 u2 ⊢
            obtain ⟨dk, r⟩ := L
            obtain ⟨d2, o⟩ := T
            simp only at u1 u2 ⊢
            rw [u1]
            rcases u2 with ⟨st, rfl, rfl, u3⟩ | ⟨rfl, ⟨e, rfl⟩ | u3⟩
            · have : carriedOut A 0 f dk.ops = some d2.file := u3.1
              rw [this]; rfl
            · split <;> rfl
            · rw [u3]; rfl
        · rcases t3 with ⟨e, rfl⟩ | t3
          · simp only
            rw [t1]; rfl
          · simp [carriedOut] at t3

/-! ### Writes taken in part -/

open RepairSpec

/-- Writing at most one block over a place that is there. -/
theorem piece_short {v : Version} {f : File} {j : Nat} (hin : (j + 1) * Format.blockLen v ≤ f.length) (b : List Byte) (hb : b.length ≤ Format.blockLen v) :
    (f.writeAt (j * Format.blockLen v) b).length = f.length ∧
      piece v (f.writeAt (j * Format.blockLen v) b) j = b ++ (piece v f j).drop b.length ∧
      ∀ k, k ≠ j → piece v (f.writeAt (j * Format.blockLen v) b) k = piece v f k := by
  by_cases hne : b = []
  · subst hne; rw [writeAt_nil]; simp
  rw [Nat.succ_mul] at hin
  have hout : ∀ i, i < j * Format.blockLen v ∨ (j + 1) * Format.blockLen v ≤ i → (f.writeAt (j * Format.blockLen v) b)[i]? = f[i]? := by
    intro i hi
    rw [Nat.succ_mul] at hi
    rw [File.getElem?_writeAt _ _ _ hne]
    split_ifs <;> first | rfl | omega
  refine ⟨by rw [File.writeAt_length _ _ _ hne]; omega, ?_, fun k hk => Update.piece_eq_of hk hout⟩
  apply List.ext_getElem?
  intro i
  unfold piece
  rw [File.getElem?_readAt, File.getElem?_writeAt _ _ _ hne]
  by_cases h1 : i < b.length
  · rw [List.getElem?_append_left h1, if_pos (by omega), if_neg (by omega), if_pos (by omega)]
    congr 1; omega
  · rw [List.getElem?_append_right (by omega), List.getElem?_drop, File.getElem?_readAt,
      show b.length + (i - b.length) = i by omega]
    split
    · rw [if_neg (by omega), if_neg (by omega)]
    · rfl

/-- Blocks written over places that are there. -/
def Inside (v : Version) (f : File) (ws : List (Nat × List Byte)) : Prop :=
  ∀ w ∈ ws, ∃ k, w.1 = k * Format.blockLen v ∧ w.2.length = Format.blockLen v ∧ (k + 1) * Format.blockLen v ≤ f.length

theorem carriedOut_inside {A : Answers} {v : Version} (ws : List (Nat × List Byte)) : ∀ n f g, Inside v f ws → carriedOut A n f ws = some g →
    g.length = f.length ∧ ∀ k, (∀ w ∈ ws, w.1 ≠ k * Format.blockLen v) → piece v g k = piece v f k := by
  induction ws with
  | nil => intro n f g _ h; simp only [carriedOut, Option.some.injEq] at h; subst h; exact ⟨rfl, fun _ _ => rfl⟩
  | cons w ws ih =>
    intro n f g hin h
    obtain ⟨pos, bs⟩ := w
    obtain ⟨j, hj, hl, hi⟩ := hin (pos, bs) (by simp)
    simp only at hj hl
    subst hj
    simp only [carriedOut] at h
    cases hA : A n bs with
    | none => rw [hA] at h; cases h
    | some m =>
      rw [hA] at h
      obtain ⟨p1, -, p3⟩ := piece_short hi (bs.take m) (by rw [List.length_take]; omega)
      obtain ⟨q1, q2⟩ := ih _ _ _ (fun w hw => by
        obtain ⟨k, h1, h2, h3⟩ := hin w (by simp [hw])
        exact ⟨k, h1, h2, by rw [p1]; exact h3⟩) h
      refine ⟨by rw [q1, p1], fun k hk => ?_⟩
      rw [q2 k fun w hw => hk w (by simp [hw]), p3 k]
      rintro rfl
      exact hk _ (List.mem_cons_self ..) rfl

theorem writes_inside {v : Version} {f : File} {ws : List (Nat × List Byte)} (h : Inside v f ws) {k : Nat}
    (hk : ∀ w ∈ ws, w.1 ≠ k * Format.blockLen v) : piece v (f.writes ws) k = piece v f k := by
  have hall : WholeOrError (fun _ (bs : List Byte) => some bs.length) := by intro n bs k h; cases h; exact Nat.le_refl _
  obtain ⟨g, hg⟩ := carriedOut_never (A := fun _ (bs : List Byte) => some bs.length) (by intro n bs h; cases h) ws 0 f
  rw [← carriedOut_whole hall _ _ _ _ hg]
  exact (carriedOut_inside ws 0 f g h hg).2 k hk

theorem reads_inside (A : Answers) (v : Version) (f : File) :
    Reads A f v.blockSize (fun p => ∃ k, p = k * v.blockSize) (Inside v f) where
  earlier ws ws' h := fun w hw => h w (by simp [hw])
  same ws g p hQ h := by
    rintro ⟨k, rfl⟩ hk
    rw [← blockLen_eq] at hk ⊢
    exact ((carriedOut_inside ws 0 f g hQ h).2 k hk).trans (writes_inside hQ hk).symm

/-- For every place `k` a block `c k`, written over it in `f`, whatever is taken of it: every place holds what it did, or begins with a
part of its block, the length of which is a number answered to a write of it. -/
theorem left_torn {A : Answers} {v : Version} {c : Nat → List Byte} (ws : List (Nat × List Byte)) : ∀ n f,
    (∀ w ∈ ws, ∃ k, w = (k * Format.blockLen v, c k) ∧ (c k).length = Format.blockLen v ∧ (k + 1) * Format.blockLen v ≤ f.length) →
    (left A n f ws).length = f.length ∧ ∀ k, piece v (left A n f ws) k = piece v f k ∨
      ∃ m, (k * Format.blockLen v, c k) ∈ ws ∧ (∃ i, A i (c k) = some m) ∧ piece v (left A n f ws) k = (c k).take m ++ (piece v f k).drop m := by
  induction ws with
  | nil => intro n f _; exact ⟨rfl, fun k => .inl rfl⟩
  | cons w ws ih =>
    intro n f hin
    obtain ⟨j, rfl, hfull, hi⟩ := hin w (by simp)
    have hff := Repair.piece_full (v := v) (c := f) (k := j) hi
    simp only [left]
    cases hA : A n (c j) with
    | none => exact ⟨rfl, fun k => .inl rfl⟩
    | some m =>
      simp only
      obtain ⟨p1, p2, p3⟩ := piece_short (v := v) (f := f) (j := j) hi ((c j).take m) (by rw [List.length_take]; omega)
      have p2' : piece v (f.writeAt (j * Format.blockLen v) ((c j).take m)) j = (c j).take m ++ (piece v f j).drop m := by
        rw [p2, List.length_take, hfull]
        congr 1
        by_cases hm : m ≤ Format.blockLen v
        · rw [Nat.min_eq_left hm]
        · rw [Nat.min_eq_right (by omega), List.drop_eq_nil_of_le (by omega), List.drop_eq_nil_of_le (by omega)]
      obtain ⟨q1, q2⟩ := ih (n + 1) (f.writeAt (j * Format.blockLen v) ((c j).take m)) (fun w hw => by
        obtain ⟨k, h1, h2, h3⟩ := hin w (by simp [hw])
        exact ⟨k, h1, h2, by rw [p1]; exact h3⟩)
      refine ⟨by rw [q1, p1], fun k => ?_⟩
      by_cases hkj : k = j
      · subst hkj
        right
        rcases q2 k with q | ⟨m', h1, h2, h3⟩
        · exact ⟨m, by simp, ⟨n, hA⟩, by rw [q, p2']⟩
        · rw [h3, p2']
          by_cases hmm : m' ≤ m
          · refine ⟨m, by simp, ⟨n, hA⟩, ?_⟩
            by_cases hm : m ≤ Format.blockLen v
            · apply List.ext_getElem?
              intro i
              simp only [List.getElem?_append, List.length_take, List.getElem?_drop, List.getElem?_take, hfull, Nat.min_eq_left hm,
                Nat.min_eq_left (Nat.le_trans hmm hm)]
              split_ifs <;> first | omega | (congr 1 <;> omega)
            · rw [List.take_of_length_le (i := m) (by omega), List.drop_eq_nil_of_le (i := m) (by omega), List.append_nil, List.take_append_drop]
          · refine ⟨m', by simp, h2, ?_⟩
            congr 1
            rw [List.drop_append, List.drop_eq_nil_of_le (by rw [List.length_take]; omega), List.nil_append, List.drop_drop, List.length_take, hfull]
            by_cases hm : m ≤ Format.blockLen v
            · congr 1; omega
            · rw [List.drop_eq_nil_of_le (by omega), List.drop_eq_nil_of_le (by omega)]
      · rcases q2 k with q | ⟨m', h1, h2, h3⟩
        · exact .inl (by rw [q, p3 k hkj])
        · exact .inr ⟨m', by simp [h1], h2, by rw [h3, p3 k hkj]⟩

/-- The same number of bytes is taken of every block: all of them are torn. -/
theorem left_const {m : Nat} {v : Version} {c : Nat → List Byte} (hm : m ≤ Format.blockLen v) (ws : List (Nat × List Byte)) : ∀ n f,
    (∀ w ∈ ws, ∃ k, w = (k * Format.blockLen v, c k) ∧ (c k).length = Format.blockLen v ∧ (k + 1) * Format.blockLen v ≤ f.length) →
    ∀ k, (k * Format.blockLen v, c k) ∈ ws → piece v (left (fun _ _ => some m) n f ws) k = (c k).take m ++ (piece v f k).drop m := by
  induction ws with
  | nil => intro n f _ k h; cases h
  | cons w ws ih =>
    intro n f hin k hk
    obtain ⟨j, rfl, hfull, hi⟩ := hin w (by simp)
    simp only [left]
    obtain ⟨p1, p2, p3⟩ := piece_short (v := v) (f := f) (j := j) hi ((c j).take m) (by rw [List.length_take]; omega)
    have p2' : piece v (f.writeAt (j * Format.blockLen v) ((c j).take m)) j = (c j).take m ++ (piece v f j).drop m := by
      rw [p2, List.length_take, hfull, Nat.min_eq_left hm]
    have hin' : ∀ w ∈ ws, ∃ k, w = (k * Format.blockLen v, c k) ∧ (c k).length = Format.blockLen v ∧
        (k + 1) * Format.blockLen v ≤ (f.writeAt (j * Format.blockLen v) ((c j).take m)).length := by
      intro w hw
      obtain ⟨k, h1, h2, h3⟩ := hin w (by simp [hw])
      exact ⟨k, h1, h2, by rw [p1]; exact h3⟩
    have hdone : (k * Format.blockLen v, c k) ∈ ws → piece v (left (fun _ _ => some m) (n + 1) (f.writeAt (j * Format.blockLen v) ((c j).take m)) ws) k =
        (c k).take m ++ (piece v (f.writeAt (j * Format.blockLen v) ((c j).take m)) k).drop m := ih (n + 1) _ hin' k
    by_cases hkj : k = j
    · subst hkj
      rcases (left_torn ws (n + 1) _ hin').2 k with q | ⟨-, h1, -⟩
      · rw [q, p2']
      · rw [hdone h1, p2', List.drop_left' (by rw [List.length_take, hfull, Nat.min_eq_left hm])]
    · rw [hdone, p3 k hkj]
      rcases List.mem_cons.1 hk with h | h
      · simp only [Prod.mk.injEq] at h
        exact absurd (Nat.eq_of_mul_eq_mul_right (blockLen_pos v) h.1) hkj
      · exact h

end Verif.Device
