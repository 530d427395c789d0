import Verif.Spec.Compose
import Verif.Lemmas.UpdateFields
/-!
# Changing fields twice
-/

namespace Verif.ComposeSpec
open UpdateSpec Update

/-- The fields with one id. -/
def only (id : MetaId) (ms : List Metadata) : List Metadata := ms.filter fun m => m.id = id

theorem getMeta_only (ms : List Metadata) (id : MetaId) : getMeta ms id = (only id ms).head? := by
  unfold getMeta only
  rw [List.head?_filter]

theorem only_nil {ms : List Metadata} {id : MetaId} : only id ms = [] ↔ id ∉ ms.map (·.id) := by
  unfold only
  simp [List.filter_eq_nil_iff]

theorem only_replaceFirst (m : Metadata) (ms : List Metadata) (id : MetaId) :
    only id (Block.replaceFirst (fun x => x.id = m.id) m ms) =
      if m.id = id ∧ m.id ∈ ms.map (·.id) then m :: (only id ms).tail else only id ms := by
  induction ms with
  | nil => simp [Block.replaceFirst]
  | cons x ms ih =>
    unfold only at ih ⊢
    unfold Block.replaceFirst
    by_cases hx : x.id = m.id
    · rw [if_pos (by simpa using hx)]
      by_cases hm : m.id = id
      · rw [if_pos ⟨hm, by simp [hx]⟩, List.filter_cons_of_pos (by simpa using hm), List.filter_cons_of_pos (by simpa [hx] using hm)]
        rfl
      · rw [if_neg (fun h => hm h.1), List.filter_cons_of_neg (by simpa using hm), List.filter_cons_of_neg (by simpa [hx] using hm)]
    · rw [if_neg (by simpa using hx)]
      by_cases hxi : x.id = id
      · have hm : m.id ≠ id := fun h => hx (hxi.trans h.symm)
        rw [if_neg (fun h => hm h.1), List.filter_cons_of_pos (by simpa using hxi), ih, if_neg (fun h => hm h.1),
          List.filter_cons_of_pos (by simpa using hxi)]
      · rw [List.filter_cons_of_neg (by simpa using hxi), ih, List.filter_cons_of_neg (by simpa using hxi)]
        have : (m.id ∈ (x :: ms).map (·.id)) ↔ m.id ∈ ms.map (·.id) := by
          rw [List.map_cons, List.mem_cons]
          constructor
          · rintro (h | h)
            · exact absurd h.symm hx
            · exact h
          · exact .inr
        simp only [this]

theorem only_updateMetaList (ms : List Metadata) (m : Metadata) (id : MetaId) :
    only id (Block.updateMetaList ms m) = if m.id = id then m :: (only id ms).tail else only id ms := by
  unfold Block.updateMetaList
  cases h : getMeta ms m.id with
  | none =>
    have hn := getMeta_none.1 h
    simp only
    by_cases hm : m.id = id
    · rw [if_pos hm]
      have : only id ms = [] := only_nil.2 (hm ▸ hn)
      unfold only at this ⊢
      rw [List.filter_append, this]
      simp [hm]
    · rw [if_neg hm]
      unfold only
      simp [hm]
  | some x =>
    have hin : m.id ∈ ms.map (·.id) := by
      by_contra hc
      rw [getMeta_none.2 hc] at h
      simp at h
    simp only
    rw [only_replaceFirst]
    simp only [hin, and_true]

theorem only_fold (upd ms : List Metadata) (id : MetaId) :
    only id (upd.foldl Block.updateMetaList ms) = match lastFor upd id with
      | none => only id ms
      | some m => m :: (only id ms).tail := by
  induction upd generalizing ms with
  | nil => rfl
  | cons m upd ih =>
    rw [List.foldl_cons, ih, lastFor_cons, only_updateMetaList]
    cases h : lastFor upd id with
    | some x =>
      simp only [Option.some_or]
      split <;> simp
    | none =>
      by_cases hm : m.id = id
      · simp [hm]
      · simp [hm]

/-- The fields with one id after a change. -/
theorem only_changed (upd : List Metadata) (rem : List MetaId) (ms : List Metadata) (id : MetaId) :
    only id (changed upd rem ms) = if id ∈ rem then [] else match lastFor upd id with
      | none => only id ms
      | some m => m :: (only id ms).tail := by
  unfold changed
  rw [← updateMetaList_eq, ← only_fold]
  unfold only
  rw [List.filter_filter]
  split
  · rename_i h
    rw [List.filter_eq_nil_iff]
    intro m _
    simp only [Bool.and_eq_true, decide_eq_true_eq]
    rintro ⟨rfl, h'⟩
    exact h' h
  · rename_i h
    apply List.filter_congr
    intro m _
    by_cases hm : m.id = id
    · simp [hm, h]
    · simp [hm]

/-- A list of fields is determined by its ids and the fields with each id. -/
theorem eq_of_only : ∀ {a b : List Metadata}, a.map (·.id) = b.map (·.id) → (∀ id, only id a = only id b) → a = b
  | [], [], _, _ => rfl
  | [], _ :: _, h, _ => by simp at h
  | _ :: _, [], h, _ => by simp at h
  | x :: a, y :: b, h, ho => by
    rw [List.map_cons, List.map_cons, List.cons.injEq] at h
    have hxy := ho x.id
    unfold only at hxy
    rw [List.filter_cons_of_pos (by simp), List.filter_cons_of_pos (by simp [h.1]), List.cons.injEq] at hxy
    obtain ⟨rfl, hxy⟩ := hxy
    congr 1
    refine eq_of_only h.2 (fun id => ?_)
    by_cases hi : x.id = id
    · subst hi; exact hxy
    · have := ho id
      unfold only at this ⊢
      rwa [List.filter_cons_of_neg (by simpa using hi), List.filter_cons_of_neg (by simpa using hi)] at this

/-- The field read after a change. -/
theorem getMeta_changed (upd : List Metadata) (rem : List MetaId) (ms : List Metadata) (id : MetaId) :
    getMeta (changed upd rem ms) id = if id ∈ rem then none else (lastFor upd id).or (getMeta ms id) := by
  rw [getMeta_only, only_changed, getMeta_only]
  split
  · rfl
  · cases lastFor upd id <;> rfl

theorem firstOccs_none {l : List MetaId} {p : MetaId → Bool} (h : ∀ a ∈ l, p a = false) : firstOccs (l.filter p) = [] := by
  rw [List.filter_eq_nil_iff.2 (by intro a ha; simp [h a ha])]
  rfl

/-- Changes that only set fields are taken back. -/
theorem changed_back {u u' : List Metadata} {r' : List MetaId} {ms : List Metadata}
    (hu : ∀ id, lastFor u' id = if id ∈ u.map (·.id) then getMeta ms id else none)
    (hr : ∀ id, id ∈ r' ↔ id ∈ u.map (·.id) ∧ id ∉ ms.map (·.id)) : changed u' r' (changed u [] ms) = ms := by
  have hu' : ∀ id ∈ u'.map (·.id), id ∈ ms.map (·.id) := by
    intro id hid
    by_contra hn
    have h1 := hu id
    rw [getMeta_none.2 hn, ite_self, lastFor_none] at h1
    exact h1 hid
  apply eq_of_only
  · rw [changed_ids, changed_ids]
    simp only [List.not_mem_nil, not_false_eq_true, decide_true, List.filter_true]
    rw [firstOccs_none (l := u'.map (·.id)), List.append_nil, List.filter_append]
    · have h1 : (ms.map (·.id)).filter (fun x => decide (x ∉ r')) = ms.map (·.id) := by
        rw [List.filter_eq_self]
        intro a ha
        simp only [decide_eq_true_eq, hr]
        exact fun h => h.2 ha
      rw [h1, List.filter_eq_nil_iff.2, List.append_nil]
      intro a ha
      rw [mem_firstOccs, List.mem_filter] at ha
      simp only [decide_eq_true_eq, not_not, hr]
      exact ⟨ha.1, by simpa using ha.2⟩
    · intro a ha
      simp only [decide_eq_false_iff_not, not_not]
      exact List.mem_append_left _ (hu' a ha)
  · intro id
    rw [only_changed, only_changed, hu]
    simp only [List.not_mem_nil, if_false]
    by_cases h1 : id ∈ u.map (·.id)
    · rw [if_pos h1]
      cases h2 : getMeta ms id with
      | none =>
        rw [if_pos ((hr id).2 ⟨h1, getMeta_none.1 h2⟩), only_nil.2 (getMeta_none.1 h2)]
      | some m =>
        rw [if_neg (fun h => by rw [getMeta_none.2 ((hr id).1 h).2] at h2; simp at h2)]
        simp only
        have e : (match lastFor u id with | none => only id ms | some m => m :: (only id ms).tail).tail = (only id ms).tail := by
          cases lastFor u id <;> rfl
        rw [e]
        rw [getMeta_only] at h2
        cases ho : only id ms with
        | nil => rw [ho] at h2; simp at h2
        | cons x l => rw [ho] at h2; simp at h2; rw [h2]; rfl
    · rw [if_neg h1, if_neg (fun h => h1 ((hr id).1 h).1), lastFor_none.2 h1]

/-- Changes of different fields: the order does not matter for what is read. -/
theorem changed_order {u1 u2 : List Metadata} {r1 r2 : List MetaId} {ms : List Metadata}
    (h : ∀ id, id ∈ u1.map (·.id) ∨ id ∈ r1 → ¬ (id ∈ u2.map (·.id) ∨ id ∈ r2)) (id : MetaId) :
    only id (changed u2 r2 (changed u1 r1 ms)) = only id (changed u1 r1 (changed u2 r2 ms)) := by
  rw [only_changed, only_changed, only_changed, only_changed]
  by_cases h1 : id ∈ u1.map (·.id) ∨ id ∈ r1
  · have h2 := h id h1
    rw [not_or] at h2
    rw [lastFor_none.2 h2.1, if_neg h2.2, if_neg h2.2]
  · rw [not_or] at h1
    rw [lastFor_none.2 h1.1, if_neg h1.2, if_neg h1.2]

theorem changed_order_eq {u1 u2 : List Metadata} {r1 r2 : List MetaId} {ms : List Metadata}
    (h : ∀ id, id ∈ u1.map (·.id) ∨ id ∈ r1 → ¬ (id ∈ u2.map (·.id) ∨ id ∈ r2)) (hin : ∀ id ∈ u1.map (·.id), id ∈ ms.map (·.id)) :
    changed u2 r2 (changed u1 r1 ms) = changed u1 r1 (changed u2 r2 ms) := by
  refine eq_of_only ?_ (changed_order h)
  have e1 : (changed u1 r1 ms).map (·.id) = (ms.map (·.id)).filter fun x => decide (x ∉ r1) := by
    rw [changed_ids, firstOccs_none (l := u1.map (·.id)), List.append_nil]
    intro a ha
    simpa using hin a ha
  rw [changed_ids u2 r2 (changed u1 r1 ms), e1, changed_ids u1 r1 (changed u2 r2 ms), changed_ids u2 r2 ms,
    firstOccs_none (l := u1.map (·.id)), List.append_nil]
  · have e2 : (u2.map (·.id)).filter (fun x => decide (x ∉ (ms.map (·.id)).filter fun x => decide (x ∉ r1))) =
        (u2.map (·.id)).filter fun x => decide (x ∉ ms.map (·.id)) := by
      apply List.filter_congr
      intro a ha
      have : a ∉ r1 := fun hr => h a (.inr hr) (.inl ha)
      simp [this]
    have e3 : (firstOccs ((u2.map (·.id)).filter fun x => decide (x ∉ ms.map (·.id)))).filter (fun x => decide (x ∉ r1)) =
        firstOccs ((u2.map (·.id)).filter fun x => decide (x ∉ ms.map (·.id))) := by
      rw [List.filter_eq_self]
      intro a ha
      rw [mem_firstOccs, List.mem_filter] at ha
      simp only [decide_eq_true_eq]
      exact fun hr => h a (.inr hr) (.inl ha.1)
    rw [e2, ← e3, ← List.filter_append, e3, List.filter_filter, List.filter_filter]
    congr 1
    funext x
    rw [Bool.and_comm]
  · intro a ha
    have h2 := h a (.inl ha)
    rw [not_or] at h2
    simp only [decide_eq_false_iff_not, not_not]
    rw [List.mem_filter]
    exact ⟨List.mem_append_left _ (hin a ha), by simpa using h2.2⟩

/-- A change is made up for by a later one of the same fields. -/
theorem changed_over {u1 u2 : List Metadata} {r1 r2 : List MetaId} {ms : List Metadata}
    (h : ∀ id, id ∈ u1.map (·.id) ∨ id ∈ r1 → id ∈ u2.map (·.id) ∨ id ∈ r2) (id : MetaId) :
    getMeta (changed u2 r2 (changed u1 r1 ms)) id = getMeta (changed u2 r2 ms) id := by
  rw [getMeta_changed, getMeta_changed u2]
  by_cases hr : id ∈ r2
  · rw [if_pos hr, if_pos hr]
  · rw [if_neg hr, if_neg hr]
    by_cases hu : id ∈ u2.map (·.id)
    · cases h2 : lastFor u2 id with
      | none => exact absurd hu (lastFor_none.1 h2)
      | some m => rfl
    · have : ¬ (id ∈ u1.map (·.id) ∨ id ∈ r1) := fun h1 => (h id h1).elim hu hr
      rw [not_or] at this
      rw [getMeta_changed, if_neg this.2, lastFor_none.2 this.1]
      simp

theorem changed_over_eq {u1 u2 : List Metadata} {r2 : List MetaId} {ms : List Metadata}
    (h : ∀ id, id ∈ u1.map (·.id) → id ∈ u2.map (·.id) ∨ id ∈ r2) (hin : ∀ id ∈ u1.map (·.id), id ∈ ms.map (·.id)) :
    changed u2 r2 (changed u1 [] ms) = changed u2 r2 ms := by
  have e1 : (changed u1 [] ms).map (·.id) = ms.map (·.id) := by
    rw [changed_ids, firstOccs_none (l := u1.map (·.id)), List.append_nil]
    · simp
    · intro a ha
      simpa using hin a ha
  refine eq_of_only ?_ (fun id => ?_)
  · rw [changed_ids, changed_ids u2, e1]
  · rw [only_changed, only_changed u2, only_changed]
    simp only [List.not_mem_nil, if_false]
    by_cases hr : id ∈ r2
    · rw [if_pos hr, if_pos hr]
    · rw [if_neg hr, if_neg hr]
      cases h2 : lastFor u2 id with
      | none =>
        have : id ∉ u1.map (·.id) := fun h1 => (h id h1).elim (lastFor_none.1 h2) hr
        rw [lastFor_none.2 this]
      | some m =>
        cases lastFor u1 id <;> rfl

end Verif.ComposeSpec
