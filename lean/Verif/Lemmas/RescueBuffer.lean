import Verif.Spec.Rescue
import Verif.Lemmas.Scan
import Verif.Lemmas.Utils
/-!
# Lemmas about the buffer of rescue: reading into a slot, grouping and writing
-/

namespace Verif.Rescue
open Format ScanSpec Scan Misc RescueSpec

theorem syncFrom_header {b b' : Block} {buf : List Byte} (h : b.syncFrom buf none none = (b', none)) :
    Header.fromBytes (buf.take 16) = some b'.header := by
  unfold Block.syncFrom at h
  split at h
  · simp at h
  · rename_i b1 hb1
    unfold Block.syncHeader at hb1
    split at hb1
    · simp at hb1
    · split at hb1
      · simp at hb1
      · rename_i hd hhd
        simp only [Except.ok.injEq] at hb1
        subst hb1
        split at h
        · simp at h
        · split at h
          · simp at h
          · split at h
            · simp at h
            · simp only [Block.optPred, Bool.not_true, Bool.false_eq_true, if_false, Prod.mk.injEq, and_true] at h
              rw [hhd, ← h]
              unfold Block.parseMetas
              split
              · split <;> simp [Block.matchHeader_header]
              · simp [Block.matchHeader_header]

/-- Reading into a slot: an injected error, or what `readBlockLazily` says, with the bytes of a usable block at the start of the slot. -/
theorem readSlot_spec (err : ReadErr) (s : Slot) (f : File) (pos : Nat) :
    (err ≠ .none ∧ ∃ s', readSlot err s f pos = (s', none)) ∨
    ∃ s' r, readSlot err s f pos = (s', some r) ∧ readBlockLazily s.block f pos = (s'.block, r) ∧
      (r.usable = true → s'.data.take s'.block.size = f.readAt pos (blockLen s'.block.header.version) ∧
        r.lenRead = blockLen s'.block.header.version) := by
  unfold readSlot readBlockLazily
  by_cases he : err = .first
  · rw [if_pos he]
    exact .inl ⟨by rw [he]; simp, _, rfl⟩
  · rw [if_neg he]
    simp only
    by_cases h1 : (f.readAt pos scanBlockSize).length < scanBlockSize
    · rw [if_pos h1, if_pos h1]
      exact .inr ⟨_, _, rfl, rfl, by simp⟩
    · rw [if_neg h1, if_neg h1]
      have hl : (f.readAt pos scanBlockSize).length = scanBlockSize := by
        have : (f.readAt pos scanBlockSize).length ≤ scanBlockSize := by
          unfold File.readAt; rw [List.length_take]; omega
        omega
      cases hs : s.block.syncHeader (f.readAt pos scanBlockSize) with
      | error e => exact .inr ⟨_, _, rfl, rfl, by simp⟩
      | ok block =>
        simp only
        by_cases he2 : err = .rest
        · rw [if_pos he2]
          exact .inl ⟨by rw [he2]; simp, _, rfl⟩
        · rw [if_neg he2]
          have hge : scanBlockSize ≤ block.size := size_ge _
          have hbuf : f.readAt pos scanBlockSize ++ f.readAt (pos + (f.readAt pos scanBlockSize).length) (block.size - scanBlockSize) =
              f.readAt pos block.size := by
            rw [hl]
            unfold File.readAt
            rw [← List.drop_drop, ← List.take_add, Nat.add_sub_cancel' hge]
          rw [hbuf]
          by_cases h2 : (f.readAt pos block.size).length < block.size
          · rw [if_pos h2, if_pos h2]
            exact .inr ⟨_, _, rfl, rfl, by simp⟩
          · rw [if_neg h2, if_neg h2]
            have hl2 : (f.readAt pos block.size).length = block.size := by
              have : (f.readAt pos block.size).length ≤ block.size := by
                unfold File.readAt; rw [List.length_take]; omega
              omega
            rcases hsf : block.syncFrom (f.readAt pos block.size) none none with ⟨b', e⟩
            cases e with
            | some e => exact .inr ⟨_, _, rfl, rfl, by simp⟩
            | none =>
              refine .inr ⟨_, _, rfl, rfl, fun _ => ?_⟩
              have hv : b'.header.version = block.header.version := by
                have h3 := syncFrom_header hsf
                unfold Block.syncHeader at hs
                rw [if_neg (by rw [hl]; decide)] at hs
                have h4 : (f.readAt pos block.size).take 16 = (f.readAt pos scanBlockSize).take 16 := by
                  unfold File.readAt
                  rw [List.take_take, List.take_take]
                  congr 1
                  have : scanBlockSize = 128 := rfl
                  omega
                rw [h4] at h3
                rw [h3] at hs
                simp only [Except.ok.injEq] at hs
                rw [← hs, Block.matchHeader_header]
              have hsz : b'.size = block.size := by unfold Block.size; rw [hv]
              have hbl : blockLen b'.header.version = block.size := by rw [blockLen_eq, hv]; rfl
              simp only
              rw [hsz, hbl, hl2]
              exact ⟨List.take_left' hl2, rfl⟩

/-! ### Grouping -/

/-- The contents appended to the file `name` by some events. -/
def appended (name : List Byte) (evs : List Event) : List (List Byte) :=
  evs.filterMap fun
    | .append n bs => if n = name then some bs else none
    | .stats _ => none

theorem appended_append (name : List Byte) (a b : List Event) : appended name (a ++ b) = appended name a ++ appended name b := by
  unfold appended; rw [List.filterMap_append]

theorem after_eq (d : Dir) (evs : List Event) (name : List Byte) : d.after evs name = d name ++ (appended name evs).flatten := by
  induction evs generalizing d with
  | nil => simp [Dir.after, appended]
  | cons e evs ih =>
    have h := ih (carryOut d e)
    unfold Dir.after at h ⊢
    rw [List.foldl_cons, h]
    have hc : appended name (e :: evs) = appended name [e] ++ appended name evs := appended_append name [e] evs
    rw [hc, List.flatten_append, ← List.append_assoc]
    congr 1
    cases e with
    | append n bs =>
      by_cases hn : n = name
      · subst hn; simp [carryOut, appended]
      · simp [carryOut, appended, hn, Function.update_of_ne (Ne.symm hn)]
    | stats c => simp [carryOut, appended]

/-- The groups collected so far list, for each uid met, the indices of the slots with it, in order. -/
structure GroupsOk (S : List (Uid × Nat)) (g : List (Uid × List Nat)) : Prop where
  nodup : (g.map (·.1)).Nodup
  val : ∀ u l, (u, l) ∈ g → l = (S.filter fun x => x.1 = u).map (·.2)
  all : ∀ x ∈ S, ∃ l, (x.1, l) ∈ g

theorem addGroup_mem (g : List (Uid × List Nat)) (uid : Uid) (i : Nat) (hn : (g.map (·.1)).Nodup) :
    ((Buffer.addGroup g uid i).map (·.1)).Nodup ∧ (∀ u, u ∈ (Buffer.addGroup g uid i).map (·.1) ↔ u ∈ g.map (·.1) ∨ u = uid) ∧
      ∀ u l, (u, l) ∈ Buffer.addGroup g uid i →
        (u ≠ uid ∧ (u, l) ∈ g) ∨ (u = uid ∧ ∃ l', l = l' ++ [i] ∧ ((u, l') ∈ g ∨ l' = [] ∧ u ∉ g.map (·.1))) := by
  induction g with
  | nil => simp [Buffer.addGroup]
  | cons x g ih =>
    obtain ⟨v, m⟩ := x
    rw [List.map_cons, List.nodup_cons] at hn
    obtain ⟨h1, h2, h3⟩ := ih hn.2
    unfold Buffer.addGroup
    by_cases hv : v = uid
    · rw [if_pos hv]
      subst hv
      refine ⟨by simpa using hn, by intro u; simp; tauto, ?_⟩
      intro u l hu
      rcases List.mem_cons.1 hu with h | h
      · cases h
        exact .inr ⟨rfl, m, rfl, .inl (List.mem_cons_self ..)⟩
      · refine .inl ⟨?_, List.mem_cons_of_mem _ h⟩
        rintro rfl
        exact hn.1 (List.mem_map.2 ⟨_, h, rfl⟩)
    · rw [if_neg hv]
      refine ⟨?_, ?_, ?_⟩
      · rw [List.map_cons, List.nodup_cons]
        refine ⟨?_, h1⟩
        rw [h2]
        rintro (h | h)
        · exact hn.1 h
        · exact hv h
      · intro u
        rw [List.map_cons, List.mem_cons, h2, List.map_cons, List.mem_cons]
        tauto
      · intro u l hu
        rcases List.mem_cons.1 hu with h | h
        · cases h
          exact .inl ⟨hv, List.mem_cons_self ..⟩
        · rcases h3 u l h with ⟨ha, hb⟩ | ⟨rfl, l', hl, hb⟩
          · exact .inl ⟨ha, List.mem_cons_of_mem _ hb⟩
          · refine .inr ⟨rfl, l', hl, ?_⟩
            rcases hb with hb | ⟨hb, hc⟩
            · exact .inl (List.mem_cons_of_mem _ hb)
            · refine .inr ⟨hb, ?_⟩
              rw [List.map_cons, List.mem_cons]
              rintro (h | h)
              · exact hv h.symm
              · exact hc h

theorem GroupsOk.add {S : List (Uid × Nat)} {g : List (Uid × List Nat)} (h : GroupsOk S g) (uid : Uid) (i : Nat) :
    GroupsOk (S ++ [(uid, i)]) (Buffer.addGroup g uid i) := by
  obtain ⟨h1, h2, h3⟩ := addGroup_mem g uid i h.nodup
  refine ⟨h1, ?_, ?_⟩
  · intro u l hu
    rw [List.filter_append, List.map_append]
    rcases h3 u l hu with ⟨ha, hb⟩ | ⟨rfl, l', rfl, hb⟩
    · rw [h.val u l hb]; simp [Ne.symm ha]
    · rcases hb with hb | ⟨rfl, hb⟩
      · rw [h.val _ _ hb]; simp
      · have : S.filter (fun x => x.1 = u) = [] := by
          rw [List.filter_eq_nil_iff]
          intro x hx hxu
          obtain ⟨l, hl⟩ := h.all x hx
          apply hb
          rw [← of_decide_eq_true hxu]
          exact List.mem_map.2 ⟨_, hl, rfl⟩
        rw [this]; simp
  · intro x hx
    have hk : x.1 ∈ (Buffer.addGroup g uid i).map (·.1) := by
      rw [h2]
      rcases List.mem_append.1 hx with hx | hx
      · obtain ⟨l, hl⟩ := h.all x hx
        exact .inl (List.mem_map.2 ⟨_, hl, rfl⟩)
      · rw [List.mem_singleton.1 hx]; exact .inr rfl
    obtain ⟨⟨u, l⟩, hy, he⟩ := List.mem_map.1 hk
    simp only at he
    subst he
    exact ⟨l, hy⟩

theorem groups_ok (S : List (Uid × Nat)) : ∀ (T : List (Uid × Nat)) (g : List (Uid × List Nat)), GroupsOk T g →
    GroupsOk (T ++ S) (S.foldl (fun g x => Buffer.addGroup g x.1 x.2) g) := by
  induction S with
  | nil => intro T g h; simpa using h
  | cons x S ih =>
    intro T g h
    have := ih (T ++ [x]) _ (h.add x.1 x.2)
    rw [List.append_assoc] at this
    exact this

theorem upperHex_inj {u v : Uid} (h : upperHex u.bytes = upperHex v.bytes) : u = v := by
  have h1 : hexToBytes (upperHex u.bytes) = some (.ok u.bytes) := by
    unfold hexToBytes upperHex
    rw [print_length, print_valid _ (fun n => (digit_upper n).2.1), hexPairs_print _ (fun n => (digit_upper n).1)]
    simp
  have h2 : hexToBytes (upperHex v.bytes) = some (.ok v.bytes) := by
    unfold hexToBytes upperHex
    rw [print_length, print_valid _ (fun n => (digit_upper n).2.1), hexPairs_print _ (fun n => (digit_upper n).1)]
    simp
  rw [h, h2] at h1
  simp only [Option.some.injEq, Except.ok.injEq] at h1
  cases u; cases v; simp_all

/-- The slots in use, grouped and written in whatever order of the groups: every file gets its blocks, in order. -/
theorem write_groups (b : Buffer) (G : List (Uid × List Nat)) (hG : (b.groupByUid).groups.Perm G) (hg : b.groups = []) (name : List Byte) :
    appended name (b.groupByUid.write G) =
      ((b.slots.take b.used).filter fun s => upperHex s.block.header.uid.bytes = name).map fun s => s.data.take s.block.size := by
  -- the groups
  have hok : GroupsOk ((b.slots.take b.used).zipIdx.map fun x => (x.1.block.header.uid, x.2)) b.groupByUid.groups := by
    have := groups_ok ((b.slots.take b.used).zipIdx.map fun x => (x.1.block.header.uid, x.2)) [] [] ⟨by simp, by simp, by simp⟩
    rw [List.nil_append, List.foldl_map] at this
    unfold Buffer.groupByUid
    rw [hg]
    exact this
  have hnd : (G.map (·.1)).Nodup := (hG.map _).nodup_iff.1 hok.nodup
  have hval : ∀ u l, (u, l) ∈ G → l.filterMap (fun i => b.slots[i]?) = (b.slots.take b.used).filter fun s => s.block.header.uid = u := by
    intro u l hul
    rw [hok.val u l (hG.mem_iff.2 hul)]
    rw [List.filter_map, List.map_map, List.filterMap_map]
    have hz : ∀ (L : List (Slot × Nat)), (∀ x ∈ L, b.slots[x.2]? = some x.1) →
        (L.filter ((fun x : Uid × Nat => decide (x.1 = u)) ∘ fun x => (x.1.block.header.uid, x.2))).filterMap
          ((fun i => b.slots[i]?) ∘ ((fun x : Uid × Nat => x.2) ∘ fun x : Slot × Nat => (x.1.block.header.uid, x.2))) =
        (L.map (·.1)).filter fun s => s.block.header.uid = u := by
      intro L
      induction L with
      | nil => intro _; rfl
      | cons x L ih =>
        intro hL
        have hx := hL x (List.mem_cons_self ..)
        have := ih fun y hy => hL y (List.mem_cons_of_mem _ hy)
        by_cases hu : x.1.block.header.uid = u
        · rw [List.filter_cons_of_pos (by simp [hu]), List.filterMap_cons]
          simp only [Function.comp, hx, List.map_cons]
          rw [List.filter_cons_of_pos (by simp [hu])]
          congr 1
        · rw [List.filter_cons_of_neg (by simp [hu]), List.map_cons, List.filter_cons_of_neg (by simp [hu])]
          exact this
    rw [hz]
    · rw [List.zipIdx_map_fst]
    · rintro ⟨s, i⟩ hx
      have := List.mem_zipIdx_iff_getElem?.1 hx
      simp only at this ⊢
      rw [List.getElem?_take] at this
      split at this
      · exact this
      · simp at this
  have hall : ∀ s ∈ b.slots.take b.used, ∃ l, (s.block.header.uid, l) ∈ G := by
    intro s hs
    obtain ⟨i, hi⟩ := List.getElem?_of_mem hs
    obtain ⟨l, hl⟩ := hok.all (s.block.header.uid, i) (List.mem_map.2 ⟨(s, i), List.mem_zipIdx_iff_getElem?.2 hi, rfl⟩)
    exact ⟨l, hG.mem_iff.1 hl⟩
  -- what one group contributes
  have hone : ∀ (u : Uid) (l : List Nat), (u, l) ∈ G → appended name (l.filterMap fun i => b.slots[i]?.map fun s =>
      Event.append (upperHex u.bytes) (s.data.take s.block.size)) =
      if upperHex u.bytes = name then ((b.slots.take b.used).filter fun s => s.block.header.uid = u).map fun s => s.data.take s.block.size
      else [] := by
    intro u l hul
    rw [← hval u l hul]
    have : (l.filterMap fun i => b.slots[i]?.map fun s => Event.append (upperHex u.bytes) (s.data.take s.block.size)) =
        (l.filterMap fun i => b.slots[i]?).map fun s => Event.append (upperHex u.bytes) (s.data.take s.block.size) := by
      rw [List.map_filterMap]
    rw [this]
    unfold appended
    rw [List.filterMap_map]
    split
    · rename_i hn
      simp only [Function.comp_def, hn, if_true]
      rw [← List.filterMap_eq_map]; rfl
    · rename_i hn
      simp only [Function.comp_def, hn, if_false]
      simp
  unfold Buffer.write
  have hsl : b.groupByUid.slots = b.slots := rfl
  simp only [hsl]
  -- at most one group has the name
  by_cases hex : ∃ u l, (u, l) ∈ G ∧ upperHex u.bytes = name
  · obtain ⟨u, l, hul, hn⟩ := hex
    have hfil : (b.slots.take b.used).filter (fun s => upperHex s.block.header.uid.bytes = name) =
        (b.slots.take b.used).filter fun s => s.block.header.uid = u := by
      apply List.filter_congr
      intro s _
      rw [Bool.eq_iff_iff]
      simp only [decide_eq_true_eq]
      constructor
      · intro h; exact upperHex_inj (h.trans hn.symm)
      · intro h; rw [h]; exact hn
    rw [hfil]
    have hgen : ∀ G' : List (Uid × List Nat), (G'.map (·.1)).Nodup → (∀ x ∈ G', x ∈ G) → appended name (G'.flatMap fun g => g.2.filterMap fun i =>
        b.slots[i]?.map fun s => .append (upperHex g.1.bytes) (s.data.take s.block.size)) =
        if (u, l) ∈ G' then ((b.slots.take b.used).filter fun s => s.block.header.uid = u).map fun s => s.data.take s.block.size else [] := by
      intro G'
      induction G' with
      | nil => intro _ _; rfl
      | cons x G' ih =>
        intro hn' hsub
        rw [List.map_cons, List.nodup_cons] at hn'
        rw [List.flatMap_cons, appended_append, ih hn'.2 fun y hy => hsub y (List.mem_cons_of_mem _ hy),
          hone x.1 x.2 (hsub x (List.mem_cons_self ..))]
        by_cases hxu : x.1 = u
        · have hxe : x = (u, l) := by
            have e1 := hok.val x.1 x.2 (hG.mem_iff.2 (hsub x (List.mem_cons_self ..)))
            have e2 := hok.val u l (hG.mem_iff.2 hul)
            rw [hxu, ← e2] at e1
            exact Prod.ext hxu e1
          have hnot : (u, l) ∉ G' := by
            intro hmem
            apply hn'.1
            rw [hxu]
            exact List.mem_map.2 ⟨_, hmem, rfl⟩
          rw [if_neg hnot, hxu, if_pos hn, List.append_nil, if_pos (by rw [hxe]; exact List.mem_cons_self ..)]
        · have hne : upperHex x.1.bytes ≠ name := fun h => hxu (upperHex_inj (h.trans hn.symm))
          rw [if_neg hne, List.nil_append]
          have : (u, l) ∈ x :: G' ↔ (u, l) ∈ G' := by
            rw [List.mem_cons]
            constructor
            · rintro (h | h)
              · exact absurd (by rw [← h]) hxu
              · exact h
            · exact .inr
          simp only [this]
    rw [hgen G hnd (fun _ h => h), if_pos hul]
  · have hfil : (b.slots.take b.used).filter (fun s => upperHex s.block.header.uid.bytes = name) = [] := by
      rw [List.filter_eq_nil_iff]
      intro s hs hn
      obtain ⟨l, hl⟩ := hall s hs
      exact hex ⟨_, l, hl, of_decide_eq_true hn⟩
    rw [hfil, List.map_nil]
    have hgen : ∀ G' : List (Uid × List Nat), (∀ x ∈ G', x ∈ G) → appended name (G'.flatMap fun g => g.2.filterMap fun i =>
        b.slots[i]?.map fun s => .append (upperHex g.1.bytes) (s.data.take s.block.size)) = [] := by
      intro G'
      induction G' with
      | nil => intro _; rfl
      | cons x G' ih =>
        intro hsub
        rw [List.flatMap_cons, appended_append, ih fun y hy => hsub y (List.mem_cons_of_mem _ hy),
          hone x.1 x.2 (hsub x (List.mem_cons_self ..)), if_neg, List.append_nil]
        intro h
        exact hex ⟨x.1, x.2, hsub x (List.mem_cons_self ..), h⟩
    exact hgen G fun _ h => h

end Verif.Rescue
