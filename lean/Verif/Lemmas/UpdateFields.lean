import Verif.Lemmas.UpdateLoop
/-!
# What `changed` gives
-/

namespace Verif.Update
open Format UpdateSpec RepairSpec ScanSpec Scan Layout Repair LayoutSpec

theorem firstOccs_nodup {α : Type} [DecidableEq α] (l : List α) : (firstOccs l).Nodup := by
  induction l with
  | nil => simp [firstOccs]
  | cons a l ih =>
    unfold firstOccs
    rw [List.nodup_cons]
    exact ⟨by simp, ih.filter _⟩

theorem inPlace_get (upd ms : List Metadata) (i : Nat) :
    (inPlace upd ms)[i]? = (ms[i]?).map fun m => if m.id ∈ (ms.take i).map (·.id) then m else (lastFor upd m.id).getD m := by
  unfold inPlace
  rw [List.getElem?_mapIdx]

theorem getD_id (upd : List Metadata) (m : Metadata) : ((lastFor upd m.id).getD m).id = m.id := by
  cases h : lastFor upd m.id with
  | none => rfl
  | some x => exact lastFor_id h

theorem inPlace_ids (upd ms : List Metadata) : (inPlace upd ms).map (·.id) = ms.map (·.id) := by
  apply List.ext_getElem?
  intro i
  rw [List.getElem?_map, List.getElem?_map, inPlace_get]
  cases ms[i]? with
  | none => rfl
  | some m =>
    simp only [Option.map_some]
    split
    · rfl
    · rw [getD_id]

theorem added_ids (upd ms : List Metadata) :
    (added upd ms).map (·.id) = firstOccs ((upd.map (·.id)).filter (· ∉ ms.map (·.id))) := by
  unfold added
  rw [List.map_filterMap]
  have : ∀ l : List MetaId, (∀ x ∈ l, x ∈ upd.map (·.id)) →
      l.filterMap (fun x => (lastFor upd x).map (·.id)) = l := by
    intro l
    induction l with
    | nil => intro _; rfl
    | cons x l ih =>
      intro hl
      cases h : lastFor upd x with
      | none => exact absurd (hl x List.mem_cons_self) (lastFor_none.1 h)
      | some m =>
        rw [List.filterMap_cons, h]
        simp only [Option.map_some, lastFor_id h]
        rw [ih fun y hy => hl y (List.mem_cons_of_mem _ hy)]
  exact this _ fun x hx => (List.mem_filter.1 (mem_firstOccs.1 hx)).1

theorem added_mem {upd ms : List Metadata} {m : Metadata} (h : m ∈ added upd ms) : lastFor upd m.id = some m ∧ m.id ∉ ms.map (·.id) := by
  unfold added at h
  obtain ⟨x, hx, hm⟩ := List.mem_filterMap.1 h
  rw [lastFor_id hm]
  exact ⟨hm, by simpa using (List.mem_filter.1 (mem_firstOccs.1 hx)).2⟩

/-- A field that is looked up among the changed ones. -/
theorem find_inPlace (upd : List Metadata) (id : MetaId) (ms : List Metadata) (m : Metadata) (hm : lastFor upd id = some m)
    (h : id ∈ ms.map (·.id)) : (inPlace upd ms).find? (fun x => x.id = id) = some m := by
  rw [List.find?_eq_some_iff_getElem]
  have hid := lastFor_id hm
  refine ⟨by simp [hid], ?_⟩
  have hex : ∃ (i : Nat), ∃ x : Metadata, ms[i]? = some x ∧ x.id = id := by
    obtain ⟨x, hx, e⟩ := List.mem_map.1 h
    obtain ⟨i, hi⟩ := List.mem_iff_getElem?.1 hx
    exact ⟨i, x, hi, e⟩
  classical
  obtain ⟨x, hx, hxe⟩ := Nat.find_spec hex
  set i := Nat.find hex with hi
  have hmin : ∀ j < i, ∀ y, ms[j]? = some y → y.id ≠ id := fun j hj y hy e => Nat.find_min hex hj ⟨y, hy, e⟩
  have hlt := (List.getElem?_eq_some_iff.1 hx).1
  have hl : (inPlace upd ms).length = ms.length := by unfold inPlace; simp
  have hnot : x.id ∉ (ms.take i).map (·.id) := by
    intro hmem
    obtain ⟨y, hy, e⟩ := List.mem_map.1 hmem
    obtain ⟨j, hj⟩ := List.mem_iff_getElem?.1 hy
    rw [List.getElem?_take] at hj
    split at hj
    · rename_i hji
      exact hmin j hji y hj (e.trans hxe)
    · simp at hj
  refine ⟨i, by omega, ?_, ?_⟩
  · have : (inPlace upd ms)[i]? = some m := by
      rw [inPlace_get, hx, Option.map_some, if_neg hnot, hxe, hm]; rfl
    exact (List.getElem?_eq_some_iff.1 this).2
  · intro j hj
    have hjl : j < ms.length := by omega
    have hids : ((inPlace upd ms)[j]'(by omega)).id = ms[j].id := by
      have := congrArg (·[j]?) (inPlace_ids upd ms)
      simp only [List.getElem?_map] at this
      rw [List.getElem?_eq_getElem (by omega), List.getElem?_eq_getElem hjl] at this
      simpa using this
    simp only [hids, Bool.not_eq_true', decide_eq_false_iff_not]
    exact hmin j hj _ (List.getElem?_eq_getElem hjl)

theorem find_added (upd : List Metadata) (id : MetaId) (ms : List Metadata) (m : Metadata) (hm : lastFor upd id = some m)
    (h : id ∉ ms.map (·.id)) : (added upd ms).find? (fun x => x.id = id) = some m := by
  have hin : id ∈ (added upd ms).map (·.id) := by
    rw [added_ids, mem_firstOccs, List.mem_filter]
    refine ⟨?_, by simpa using h⟩
    by_contra hc
    rw [lastFor_none.2 hc] at hm
    simp at hm
  cases hf : (added upd ms).find? (fun x => x.id = id) with
  | none =>
    obtain ⟨x, hx, e⟩ := List.mem_map.1 hin
    have := List.find?_eq_none.1 hf x hx
    simp [e] at this
  | some x =>
    have h1 := added_mem (List.mem_of_find?_eq_some hf)
    have h2 : x.id = id := by simpa using List.find?_some hf
    rw [h2, hm] at h1
    exact congrArg some (Option.some.inj h1.1).symm

theorem changed_get {upd : List Metadata} {rem : List MetaId} {ms : List Metadata} {id : MetaId} {m : Metadata}
    (hm : lastFor upd id = some m) (hr : id ∉ rem) : getMeta (changed upd rem ms) id = some m := by
  unfold getMeta changed
  rw [List.find?_filter]
  have : (inPlace upd ms ++ added upd ms).find? (fun x => x.id = id) = some m := by
    rw [List.find?_append]
    by_cases h : id ∈ ms.map (·.id)
    · rw [find_inPlace upd id ms m hm h]; rfl
    · rw [find_added upd id ms m hm h]
      have : (inPlace upd ms).find? (fun x => x.id = id) = none := by
        rw [List.find?_eq_none]
        intro x hx
        have : x.id ∈ ms.map (·.id) := by rw [← inPlace_ids upd]; exact List.mem_map_of_mem hx
        simp only [decide_eq_true_eq]
        rintro rfl
        exact h this
      rw [this]; rfl
  rw [← this]
  congr 1
  funext x
  by_cases h : x.id = id <;> simp [h, hr]

theorem changed_others (upd : List Metadata) (rem : List MetaId) (ms : List Metadata) :
    (changed upd rem ms).filter (fun m => m.id ∉ upd.map (·.id)) = ms.filter fun m => m.id ∉ upd.map (·.id) ∧ m.id ∉ rem := by
  unfold changed
  rw [List.filter_filter, List.filter_append]
  have h2 : (added upd ms).filter (fun m => decide (m.id ∉ upd.map (·.id)) && decide (m.id ∉ rem)) = [] := by
    rw [List.filter_eq_nil_iff]
    intro m hm
    have := (added_mem hm).1
    have : m.id ∈ upd.map (·.id) := by
      by_contra hc
      rw [lastFor_none.2 hc] at this
      simp at this
    simp only [Bool.and_eq_true, decide_eq_true_eq, not_and]
    intro h; exact absurd this h
  rw [h2, List.append_nil]
  have key : ∀ (pre ms : List Metadata),
      (ms.mapIdx fun i m => if m.id ∈ ((pre ++ ms).take (pre.length + i)).map (·.id) then m else (lastFor upd m.id).getD m).filter
        (fun m => decide (m.id ∉ upd.map (·.id)) && decide (m.id ∉ rem)) = ms.filter fun m => m.id ∉ upd.map (·.id) ∧ m.id ∉ rem := by
    intro pre ms
    induction ms generalizing pre with
    | nil => rfl
    | cons x ms ih =>
      rw [List.mapIdx_cons, List.filter_cons, List.filter_cons]
      have := ih (pre ++ [x])
      simp only [List.append_assoc, List.singleton_append, List.length_append, List.length_singleton] at this
      have e : (fun (i : Nat) (m : Metadata) =>
          if m.id ∈ ((pre ++ x :: ms).take (pre.length + (i + 1))).map (·.id) then m else (lastFor upd m.id).getD m) =
          fun (i : Nat) (m : Metadata) =>
          if m.id ∈ ((pre ++ x :: ms).take (pre.length + 1 + i)).map (·.id) then m else (lastFor upd m.id).getD m := by
        funext i m; rw [Nat.add_assoc pre.length 1 i, Nat.add_comm 1 i]
      rw [e, this]
      by_cases hx : x.id ∈ upd.map (·.id)
      · have hid : (if x.id ∈ ((pre ++ x :: ms).take (pre.length + 0)).map (·.id) then x else (lastFor upd x.id).getD x).id = x.id := by
          split
          · rfl
          · exact getD_id upd x
        rw [hid]
        simp [hx]
      · have hv : (if x.id ∈ ((pre ++ x :: ms).take (pre.length + 0)).map (·.id) then x else (lastFor upd x.id).getD x) = x := by
          split
          · rfl
          · rw [lastFor_none.2 hx]; rfl
        rw [hv]
        simp only [Bool.decide_and]
  have := key [] ms
  simpa [inPlace] using this

theorem changed_ids (upd : List Metadata) (rem : List MetaId) (ms : List Metadata) :
    (changed upd rem ms).map (·.id) =
      (ms.map (·.id) ++ firstOccs ((upd.map (·.id)).filter (· ∉ ms.map (·.id)))).filter (· ∉ rem) := by
  unfold changed
  rw [← added_ids, ← inPlace_ids upd ms, ← List.map_append, List.filter_map]
  rfl

theorem changed_mem {upd : List Metadata} {rem : List MetaId} {ms : List Metadata} {m : Metadata} (h : m ∈ changed upd rem ms) :
    (m ∈ ms ∨ m ∈ upd) ∧ m.id ∉ rem := by
  unfold changed at h
  obtain ⟨h1, h2⟩ := List.mem_filter.1 h
  refine ⟨?_, by simpa using h2⟩
  rcases List.mem_append.1 h1 with h | h
  · obtain ⟨i, hi⟩ := List.mem_iff_getElem?.1 h
    rw [inPlace_get] at hi
    obtain ⟨x, hx, e⟩ := Option.map_eq_some_iff.1 hi
    split at e
    · subst e; exact .inl (List.mem_of_getElem? hx)
    · cases hl : lastFor upd x.id with
      | none => rw [hl] at e; simp at e; subst e; exact .inl (List.mem_of_getElem? hx)
      | some y => rw [hl] at e; simp at e; subst e; exact .inr (lastFor_mem hl)
  · exact .inr (lastFor_mem (added_mem h).1)

/-! ### The test run uses fields of the same size -/

theorem lastFor_map {g : Metadata → Metadata} (hid : ∀ m, (g m).id = m.id) (upd : List Metadata) (id : MetaId) :
    lastFor (upd.map g) id = (lastFor upd id).map g := by
  induction upd with
  | nil => rfl
  | cons m upd ih =>
    rw [List.map_cons, lastFor_cons, lastFor_cons, ih, hid]
    cases lastFor upd id with
    | none => split <;> simp [*]
    | some x => simp

theorem changed_space {g : Metadata → Metadata} (hid : ∀ m, (g m).id = m.id) {upd : List Metadata} (hsp : ∀ m ∈ upd, (g m).space = m.space)
    (rem : List MetaId) (ms : List Metadata) : metaSpace (changed (upd.map g) rem ms) = metaSpace (changed upd rem ms) := by
  have hmap : (upd.map g).map (·.id) = upd.map (·.id) := by rw [List.map_map]; congr 1; funext m; exact hid m
  have hlast : ∀ (m : Metadata), (((lastFor (upd.map g) m.id).getD m).id, ((lastFor (upd.map g) m.id).getD m).space) =
      (((lastFor upd m.id).getD m).id, ((lastFor upd m.id).getD m).space) := by
    intro m
    rw [lastFor_map hid]
    cases h : lastFor upd m.id with
    | none => rfl
    | some x => simp only [Option.map_some, Option.getD_some, hid, hsp x (lastFor_mem h)]
  have h1 : (inPlace (upd.map g) ms).map (fun m => (m.id, m.space)) = (inPlace upd ms).map fun m => (m.id, m.space) := by
    apply List.ext_getElem?
    intro i
    rw [List.getElem?_map, List.getElem?_map, inPlace_get, inPlace_get, Option.map_map, Option.map_map]
    congr 1
    funext m
    simp only [Function.comp]
    split
    · rfl
    · exact hlast m
  have h2 : (added (upd.map g) ms).map (fun m => (m.id, m.space)) = (added upd ms).map fun m => (m.id, m.space) := by
    unfold added
    rw [hmap, List.map_filterMap, List.map_filterMap]
    congr 1
    funext x
    rw [lastFor_map hid]
    cases h : lastFor upd x with
    | none => rfl
    | some m => simp only [Option.map_some, hid, hsp m (lastFor_mem h)]
  have h3 : ∀ a b : List Metadata, a.map (fun m => (m.id, m.space)) = b.map (fun m => (m.id, m.space)) →
      metaSpace (a.filter fun m => m.id ∉ rem) = metaSpace (b.filter fun m => m.id ∉ rem) := by
    intro a
    induction a with
    | nil => intro b hb; simp at hb; subst hb; rfl
    | cons x a ih =>
      intro b hb
      cases b with
      | nil => simp at hb
      | cons y b =>
        simp only [List.map_cons, List.cons.injEq, Prod.mk.injEq] at hb
        rw [List.filter_cons, List.filter_cons, hb.1.1]
        have := ih b hb.2
        split
        · unfold metaSpace at *
          simp only [List.map_cons, List.sum_cons, this, hb.1.2]
        · exact this
  unfold changed
  apply h3
  rw [List.map_append, List.map_append, h1, h2]

theorem setHash_id (h : HashBytes) (m : Metadata) : (setHash h m).id = m.id := by cases m <;> rfl

theorem setHash_space {h : HashBytes} {m : Metadata} (hm : ∀ h', m = .hsh h' → h.ty = h'.ty.ctxType) : (setHash h m).space = m.space := by
  cases m with
  | hsh h' =>
    have := hm h' rfl
    unfold setHash Metadata.space
    simp only [this]
    cases h'.ty <;> rfl
  | _ => rfl

end Verif.Update
