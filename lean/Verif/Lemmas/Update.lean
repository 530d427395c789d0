import Verif.Model.Update
import Verif.Spec.Update
/-!
# Lemmas about changing metadata fields
-/

namespace Verif.Update
open UpdateSpec

theorem lastFor_cons (m : Metadata) (upd : List Metadata) (id : MetaId) :
    lastFor (m :: upd) id = (lastFor upd id).or (if m.id = id then some m else none) := by
  unfold lastFor
  rw [List.reverse_cons, List.find?_append]
  congr 1
  simp [List.find?_cons]
  split <;> simp_all

theorem lastFor_none {upd : List Metadata} {id : MetaId} : lastFor upd id = none ↔ id ∉ upd.map (·.id) := by
  unfold lastFor
  simp [List.find?_eq_none]

theorem lastFor_id {upd : List Metadata} {id : MetaId} {m : Metadata} (h : lastFor upd id = some m) : m.id = id := by
  unfold lastFor at h
  simpa using List.find?_some h

theorem lastFor_mem {upd : List Metadata} {id : MetaId} {m : Metadata} (h : lastFor upd id = some m) : m ∈ upd := by
  unfold lastFor at h
  simpa using List.mem_of_find?_eq_some h

theorem replaceFirst_id (m : Metadata) (ms : List Metadata) :
    (Block.replaceFirst (fun x => x.id = m.id) m ms).map (·.id) = ms.map (·.id) := by
  induction ms with
  | nil => rfl
  | cons x xs ih =>
    unfold Block.replaceFirst
    split
    · rename_i h; simp only [decide_eq_true_eq] at h; simp [h]
    · simp [ih]

theorem replaceFirst_get (m : Metadata) (ms : List Metadata) (i : Nat) :
    (Block.replaceFirst (fun x => x.id = m.id) m ms)[i]? =
      (ms[i]?).map fun x => if x.id = m.id ∧ m.id ∉ (ms.take i).map (·.id) then m else x := by
  induction ms generalizing i with
  | nil => rfl
  | cons x xs ih =>
    unfold Block.replaceFirst
    by_cases h : x.id = m.id
    · rw [if_pos (by simpa using h)]
      cases i with
      | zero => simp [h]
      | succ i =>
        simp only [List.getElem?_cons_succ, List.take_succ_cons, List.map_cons, h, List.mem_cons, true_or, not_true, and_false,
          if_false]
        simp
    · rw [if_neg (by simpa using h)]
      cases i with
      | zero => simp [h]
      | succ i =>
        have h' : ¬ m.id = x.id := fun e => h e.symm
        simp only [List.getElem?_cons_succ, ih, List.take_succ_cons, List.map_cons, List.mem_cons, h', false_or]

theorem mem_firstOccs {α : Type} [DecidableEq α] {l : List α} {a : α} : a ∈ firstOccs l ↔ a ∈ l := by
  induction l with
  | nil => simp [firstOccs]
  | cons x l ih =>
    unfold firstOccs
    by_cases h : a = x
    · simp [h]
    · simp [h, ih]

theorem firstOccs_filter {α : Type} [DecidableEq α] (p : α → Bool) (l : List α) : firstOccs (l.filter p) = (firstOccs l).filter p := by
  induction l with
  | nil => rfl
  | cons x l ih =>
    by_cases h : p x = true
    · rw [List.filter_cons_of_pos h, firstOccs, firstOccs, ih, List.filter_cons_of_pos h, List.filter_filter, List.filter_filter]
      congr 2; funext y; rw [Bool.and_comm]
    · rw [List.filter_cons_of_neg h, firstOccs, List.filter_cons_of_neg h, ih, List.filter_filter]
      apply List.filter_congr
      intro y hy
      by_cases hyx : y = x
      · subst hyx; simp [h]
      · simp [hyx]

theorem filterMap_congr' {α β : Type} {f g : α → Option β} {l : List α} (h : ∀ a ∈ l, f a = g a) : l.filterMap f = l.filterMap g := by
  induction l with
  | nil => rfl
  | cons a l ih =>
    rw [List.filterMap_cons, List.filterMap_cons, h a List.mem_cons_self, ih fun x hx => h x (List.mem_cons_of_mem _ hx)]

theorem getMeta_none {ms : List Metadata} {id : MetaId} : getMeta ms id = none ↔ id ∉ ms.map (·.id) := by
  unfold getMeta
  simp [List.find?_eq_none]

theorem updateMetaList_eq (upd ms : List Metadata) :
    upd.foldl Block.updateMetaList ms = inPlace upd ms ++ added upd ms := by
  induction upd generalizing ms with
  | nil =>
    have : inPlace [] ms = ms := by
      unfold inPlace
      apply List.ext_getElem?
      intro i
      rw [List.getElem?_mapIdx]
      cases ms[i]? <;> simp [lastFor]
    rw [this]
    simp [added, firstOccs]
  | cons m upd ih =>
    rw [List.foldl_cons, ih]
    by_cases hm : m.id ∈ ms.map (·.id)
    · have e : Block.updateMetaList ms m = Block.replaceFirst (fun x => x.id = m.id) m ms := by
        unfold Block.updateMetaList
        cases h : getMeta ms m.id with
        | none => exact absurd hm (getMeta_none.1 h)
        | some _ => rfl
      rw [e]
      congr 1
      · unfold inPlace
        apply List.ext_getElem?
        intro i
        rw [List.getElem?_mapIdx, List.getElem?_mapIdx, replaceFirst_get, Option.map_map]
        cases hi : ms[i]? with
        | none => rfl
        | some x =>
          simp only [Option.map_some, Function.comp_apply, Option.some.injEq]
          simp only [List.map_take, replaceFirst_id, lastFor_cons]
          by_cases hx : x.id = m.id
          · by_cases hb : m.id ∈ (ms.map (·.id)).take i
            · have hb' : x.id ∈ (ms.map (·.id)).take i := by rw [hx]; exact hb
              simp [hx, hb]
            · simp only [hx, hb, not_false_eq_true, and_self, if_true, if_false]
              cases lastFor upd m.id <;> simp
          · have hx' : ¬ m.id = x.id := fun e => hx e.symm
            simp only [hx, false_and, if_false, hx', Option.or_none]
      · unfold added
        rw [replaceFirst_id, List.map_cons, List.filter_cons_of_neg (by simpa using hm)]
        apply filterMap_congr'
        intro id hid
        rw [lastFor_cons]
        have : ¬ m.id = id := by
          intro e
          rw [mem_firstOccs, List.mem_filter] at hid
          rw [← e] at hid
          simp only [decide_eq_true_eq] at hid
          exact hid.2 hm
        simp [this]
    · have e : Block.updateMetaList ms m = ms ++ [m] := by
        unfold Block.updateMetaList
        rw [getMeta_none.2 hm]
      rw [e]
      have h1 : inPlace upd (ms ++ [m]) = inPlace (m :: upd) ms ++ [(lastFor upd m.id).getD m] := by
        unfold inPlace
        rw [List.mapIdx_append]
        congr 1
        · apply List.ext_getElem?
          intro i
          rw [List.getElem?_mapIdx, List.getElem?_mapIdx]
          cases hi : ms[i]? with
          | none => rfl
          | some x =>
            have hlt := (List.getElem?_eq_some_iff.1 hi).1
            have hx : ¬ m.id = x.id := by
              intro e
              exact hm (by rw [e]; exact List.mem_map_of_mem (List.mem_of_getElem? hi))
            simp only [Option.map_some, Option.some.injEq]
            rw [List.take_append_of_le_length (by omega), lastFor_cons]
            simp [hx]
        · simp only [List.mapIdx_cons, List.mapIdx_nil, Nat.zero_add]
          rw [List.take_left' rfl, if_neg hm]
      have h2 : added (m :: upd) ms = (lastFor upd m.id).getD m :: added upd (ms ++ [m]) := by
        unfold added
        rw [List.map_cons, List.filter_cons_of_pos (by simpa using hm), firstOccs, List.filterMap_cons, lastFor_cons]
        have : (lastFor upd m.id).or (if m.id = m.id then some m else none) = some ((lastFor upd m.id).getD m) := by
          cases lastFor upd m.id <;> simp
        rw [this]
        simp only
        congr 1
        rw [← firstOccs_filter, List.filter_filter]
        have e2 : (upd.map (·.id)).filter (fun a => decide (a ≠ m.id) && decide (a ∉ ms.map (·.id))) =
            (upd.map (·.id)).filter (fun a => decide (a ∉ (ms ++ [m]).map (·.id))) := by
          apply List.filter_congr
          intro a _
          rw [Bool.eq_iff_iff]
          simp only [Bool.and_eq_true, decide_eq_true_eq, List.map_append, List.mem_append, List.map_cons, List.map_nil,
            List.mem_singleton, not_or]
          exact And.comm
        rw [e2]
        apply filterMap_congr'
        intro id hid
        rw [lastFor_cons]
        have : ¬ m.id = id := by
          intro e
          rw [mem_firstOccs, List.mem_filter] at hid
          rw [← e] at hid
          simp at hid
        simp [this]
      rw [h1, h2]
      simp

theorem updateMetas_eq (b : Block) (ms upd : List Metadata) (h : b.data = .metadata ms) :
    b.updateMetas upd = .ok { b with data := .metadata (upd.foldl Block.updateMetaList ms) } := by
  induction upd generalizing b ms with
  | nil =>
    unfold Block.updateMetas
    simp only [List.foldl_nil, ← h]
  | cons m upd ih =>
    unfold Block.updateMetas Block.updateMeta
    rw [h]
    simp only
    rw [ih _ (Block.updateMetaList ms m) rfl]
    rfl

theorem change_eq (upd : List Metadata) (rem : List MetaId) (b : Block) (ms : List Metadata) (h : b.data = .metadata ms) :
    change upd rem b = .ok { b with data := .metadata (changed upd rem ms) } := by
  unfold change
  rw [updateMetas_eq b ms upd h]
  simp only [Block.removeMetas]
  rw [updateMetaList_eq]
  unfold changed
  congr 3
  apply List.filter_congr
  intro m _
  simp

end Verif.Update
