import Verif.Lemmas.ReportStats
import Verif.Lemmas.UpdateLoop
/-!
# What `update` lists with `--json --verbose`
-/

namespace Verif.Report
open Json JsonSpec Scan Misc Layout

theorem good_field {utc loc : Int64 → Option Str} (hd : PlainDates utc loc) {m : Metadata} (h : FieldPlain m) :
    Good false (metaText utc loc m) (fieldV utc loc m) := by
  cases m with
  | fnm s => exact good_name h
  | snm s => exact good_name h
  | fsz n => exact good_dec n.toNat_lt
  | fdt t => show Good false (dateText utc loc t) (strV (dateShown (utc t) (loc t))); rw [dateShown_eq]; exact good_date hd t
  | sdt t => show Good false (dateText utc loc t) (strV (dateShown (utc t) (loc t))); rw [dateShown_eq]; exact good_date hd t
  | hsh x => exact good_hashText x
  | rsd n => exact good_dec (Nat.lt_trans n.toNat_lt (by decide))
  | rsp n => exact good_dec (Nat.lt_trans n.toNat_lt (by decide))

theorem good_id (id : MetaId) : Good false (idText id) (strV (idName id).toList) := by
  have key : ∀ (v : Str) (c : Char), Plain v → c ∈ v → c.isDigit = false → c ∉ "+nulltrefas".toList → Good false v (strV v) :=
    fun v c h1 h2 h3 h4 => good_name (plainName_of_char h1 h2 h3 h4)
  have hp : Plain (idText id) := by cases id <;> exact ⟨by decide, by decide, by decide, by decide⟩
  cases id
  · exact key _ 'F' hp (by decide) (by decide) (by decide)
  · exact key _ 'S' hp (by decide) (by decide) (by decide)
  · exact key _ 'F' hp (by decide) (by decide) (by decide)
  · exact key _ 'F' hp (by decide) (by decide) (by decide)
  · exact key _ 'S' hp (by decide) (by decide) (by decide)
  · exact key _ 'S' hp (by decide) (by decide) (by decide)
  · exact key _ 'S' hp (by decide) (by decide) (by decide)
  · exact key _ 'S' hp (by decide) (by decide) (by decide)

theorem changeCalls_doc {utc loc : Int64 → Option Str} (hd : PlainDates utc loc) (id : MetaId) (old new : Option Metadata)
    (ho : ∀ m, old = some m → FieldPlain m) (hn : ∀ m, new = some m → FieldPlain m) :
    Doc .square (changeCalls id ((old.map (metaText utc loc)).getD nullText) ((new.map (metaText utc loc)).getD nullText))
      [([], changeShown utc loc (id, old, new))] := by
  have h1 := good_opt old (metaText utc loc) (fieldV utc loc) fun m hm => good_field hd (ho m hm)
  have h2 := good_opt new (metaText utc loc) (fieldV utc loc) fun m hm => good_field hd (hn m hm)
  exact Doc.elem (b := .curly) (Doc.fld (k := "field") (by decide +kernel) (good_id id)
    (Doc.fld (k := "from") (by decide +kernel) h1 (Doc.fld (k := "to") (by decide +kernel) h2 Doc.nil)))

theorem filter_members {α β : Type} (c : α → Prop) [DecidablePred c] (F : α → β) : ∀ l : List α,
    ((l.flatMap fun a => if c a then [(([] : List Nat), F a)] else []).map Prod.snd) = (l.filter fun a => c a).map F
  | [] => rfl
  | a :: l => by
    rw [List.flatMap_cons, List.map_append, filter_members c F l, List.filter_cons]
    by_cases h : c a <;> simp [h]

theorem changesCalls_doc {utc loc : Int64 → Option Str} (hd : PlainDates utc loc) (upd : List Metadata) (rem : List MetaId) (k pos : Nat)
    (old : List Metadata) (hk : k < 2 ^ 64) (hp : pos < 2 ^ 64) (hu : ∀ m ∈ upd, FieldPlain m) (ho : ∀ m ∈ old, FieldPlain m) :
    Doc .square (changesCalls utc loc upd rem k pos old) [([], updatedShown utc loc upd rem (k, pos, old))] := by
  have hget : ∀ id m, getMeta old id = some m → FieldPlain m := fun id m h => ho m (List.mem_of_find?_eq_some h)
  have h1 := Doc.flatMap (b := .square) (f := fun m => match getMeta old m.id with
        | none => changeCalls m.id nullText (metaText utc loc m)
        | some o => if o ≠ m then changeCalls m.id (metaText utc loc o) (metaText utc loc m) else [])
      (g := fun m => if old.find? (·.id = m.id) ≠ some m then [([], changeShown utc loc (m.id, old.find? (·.id = m.id), some m))] else []) upd (by
    intro m hm
    have := changeCalls_doc hd m.id (getMeta old m.id) (some m) (hget _) (fun x hx => by cases hx; exact hu m hm)
    have e : old.find? (·.id = m.id) = getMeta old m.id := rfl
    simp only [e]
    cases hg : getMeta old m.id with
    | none => rw [hg] at this; simpa using this
    | some o =>
      rw [hg] at this
      by_cases hom : o = m
      · simp [hom, Doc.nil]
      · simpa [hom] using this)
  have h2 := Doc.flatMap (b := .square) (f := fun id => match getMeta old id with
        | none => []
        | some o => changeCalls id (metaText utc loc o) nullText)
      (g := fun id => if (old.find? (·.id = id)).isSome then [([], changeShown utc loc (id, old.find? (·.id = id), none))] else []) rem (by
    intro id _
    have := changeCalls_doc hd id (getMeta old id) none (hget _) (fun x hx => by cases hx)
    have e : old.find? (·.id = id) = getMeta old id := rfl
    simp only [e]
    cases hg : getMeta old id with
    | none => simp [Doc.nil]
    | some o => rw [hg] at this; simpa using this)
  have h3 := Doc.sect (s := "changes") (k := "changes") (by decide +kernel) (by decide) (h1.append h2)
  have h4 : Doc .curly [fld "Metadata block number : " (dec k), fld "Found at byte : " (dec pos)]
      [(key "metadataBlockNumber", numV k), (key "foundAtByte", numV pos)] := by fields
  have h5 := Doc.elem (b := .curly) (h4.append h3)
  have e : sectValue .square ((upd.flatMap fun m => if old.find? (·.id = m.id) ≠ some m then [(([] : List Nat), changeShown utc loc (m.id, old.find? (·.id = m.id), some m))] else []) ++
      rem.flatMap fun id => if (old.find? (·.id = id)).isSome then [([], changeShown utc loc (id, old.find? (·.id = id), none))] else []) =
      .arr ((changesOf upd rem old).map (changeShown utc loc)) := by
    unfold sectValue changesOf
    simp only
    rw [List.map_append, List.map_append, filter_members (fun m : Metadata => old.find? (·.id = m.id) ≠ some m),
      filter_members (fun id => (old.find? (·.id = id)).isSome = true), List.filter_map, List.filter_map, List.map_map, List.map_map]
    have e1 : (rem.filter fun id => decide ((old.find? (·.id = id)).isSome = true)) =
        rem.filter ((fun x : MetaId × Option Metadata × Option Metadata => x.2.1.isSome) ∘ fun id => (id, old.find? (·.id = id), none)) :=
      List.filter_congr fun x _ => Bool.decide_eq_true
    rw [e1]
    rfl
  rw [e] at h5
  exact h5

theorem updateChangeCalls_doc {utc loc : Int64 → Option Str} (hd : PlainDates utc loc) (verbose : Bool) (upd : List Metadata) (rem : List MetaId)
    (l : List (Nat × Nat × List Metadata)) (hu : ∀ m ∈ upd, FieldPlain m)
    (hl : ∀ x ∈ l, x.1 < 2 ^ 64 ∧ x.2.1 < 2 ^ 64 ∧ ∀ m ∈ x.2.2, FieldPlain m) :
    Doc .curly (updateChangeCalls utc loc verbose upd rem l) (updatesShown utc loc verbose upd rem l) := by
  unfold updateChangeCalls updatesShown
  cases verbose
  · exact Doc.nil
  · have h1 := Doc.flatMap (b := .square) (f := fun x : Nat × Nat × List Metadata => changesCalls utc loc upd rem x.1 x.2.1 x.2.2)
      (g := fun x => [([], updatedShown utc loc upd rem x)]) l (fun x hx => changesCalls_doc hd upd rem _ _ _ (hl x hx).1 (hl x hx).2.1 hu (hl x hx).2.2)
    have h2 := Doc.sect (s := "metadata changes") (k := "metadataChanges") (by decide +kernel) (by decide) h1
    have e : ∀ l : List (Nat × Nat × List Metadata), (l.flatMap fun x => [(([] : List Nat), updatedShown utc loc upd rem x)]).map Prod.snd =
        l.map (updatedShown utc loc upd rem) := by
      intro l
      induction l with
      | nil => rfl
      | cons x l ih => rw [List.flatMap_cons, List.map_append, ih]; rfl
    unfold sectValue at h2
    simp only [e] at h2
    exact h2

/-! ### What is listed -/

section listed
open Format UpdateSpec RepairSpec ScanSpec Repair LayoutSpec Update

theorem fieldsThere_eq (ref : Block) (f : File) (k : Nat) : fieldsThere ref.header.version ref.header.uid f k = fieldsAt ref f k := by
  unfold fieldsThere
  split
  · next h => exact (fieldsAt_iff.2 ⟨_, h.choose_spec, rfl⟩).symm
  · next h =>
    symm
    rw [Option.eq_none_iff_forall_ne_some]
    intro ms hms
    obtain ⟨p, hp, -⟩ := fieldsAt_iff.1 hms
    exact h ⟨p, hp⟩

/-- What is listed for the places treated, counting from `i`. -/
def traceOf (ref : Block) (f : File) (i : Nat) (ks : List Nat) : List (Nat × Nat × List Metadata) :=
  (ks.zipIdx i).filterMap fun x => (fieldsAt ref f x.1).map fun ms => (x.2, x.1 * ref.header.version.blockSize, ms)

theorem updateTrace_spec (ref : Block) (upd : List Metadata) (rem : List MetaId) (w : Bool) (stop : Nat → Bool) (f : File) :
    ∀ (ks : List Nat) (i : Nat) (s : St), ks.Nodup → s.buffer.length = 4096 →
      (∀ k ∈ ks, piece ref.header.version s.disk.file k = piece ref.header.version f k) →
      updateTrace ref upd rem w stop i (ks.map (· * ref.header.version.blockSize)) s =
        traceOf ref f i (course (isFull ref f) (fits ref upd rem f) stop i ks).1 := by
  have h16 := size_ge ref.header.version
  have hbs : ref.header.version.blockSize ≤ 4096 := by cases ref.header.version <;> decide
  intro ks
  induction ks with
  | nil => intro i s _ _ _; rfl
  | cons k ks ih =>
    intro i s hnd hl hp
    rw [List.nodup_cons] at hnd
    have hpk := hp k List.mem_cons_self
    have hrd : s.disk.file.readAt (k * ref.header.version.blockSize) ref.header.version.blockSize = piece ref.header.version f k := by
      rw [← hpk]; unfold piece; rw [blockLen_eq]
    have hple := piece_length_le ref.header.version f k
    by_cases hs : stop i = true
    · have hc : course (isFull ref f) (fits ref upd rem f) stop i (k :: ks) = ([], false) := by simp [course, hs]
      rw [hc, List.map_cons]
      unfold updateTrace
      rw [if_pos hs]
      rfl
    by_cases hfull : (piece ref.header.version f k).length < ref.header.version.blockSize
    · have hc : course (isFull ref f) (fits ref upd rem f) stop i (k :: ks) = ([], false) := by
        have : isFull ref f k = false := by unfold isFull; rw [blockLen_eq]; simpa using hfull
        simp [course, this]
      rw [hc, List.map_cons]
      unfold updateTrace
      rw [if_neg hs]
      simp only [hrd]
      rw [if_pos hfull]
      rfl
    have hF : isFull ref f k = true := by unfold isFull; rw [blockLen_eq]; simpa using hfull
    have hlen : (piece ref.header.version f k).length = blockLen ref.header.version := by rw [blockLen_eq] at hple ⊢; omega
    have hbl : (piece ref.header.version f k ++ s.buffer.drop (piece ref.header.version f k).length).length = 4096 := by
      rw [List.length_append, List.length_drop]; rw [← blockLen_eq] at hbs; omega
    have hskip : ∀ b : Block, fieldsAt ref f k = none →
        updateTrace ref upd rem w stop (i + 1) (ks.map (· * ref.header.version.blockSize))
          { s with
            buffer := piece ref.header.version f k ++ s.buffer.drop (piece ref.header.version f k).length
            block := b
            stats := { s.stats with failed := s.stats.failed + 1 } } =
          traceOf ref f i (course (isFull ref f) (fits ref upd rem f) stop i (k :: ks)).1 := by
      intro b hnone
      have hc : course (isFull ref f) (fits ref upd rem f) stop i (k :: ks) =
          (k :: (course (isFull ref f) (fits ref upd rem f) stop (i + 1) ks).1,
            (course (isFull ref f) (fits ref upd rem f) stop (i + 1) ks).2) := by
        have : fits ref upd rem f k = true := by unfold fits; rw [hnone]
        simp [course, this, hs, hF]
      rw [ih (i + 1)
        { s with
            buffer := piece ref.header.version f k ++ s.buffer.drop (piece ref.header.version f k).length
            block := b
            stats := { s.stats with failed := s.stats.failed + 1 } }
        hnd.2 hbl fun k' hk' => hp k' (List.mem_cons_of_mem _ hk'), hc]
      unfold traceOf
      rw [List.zipIdx_cons, List.filterMap_cons, hnone]
      rfl
    rw [List.map_cons]
    unfold updateTrace
    rw [if_neg hs]
    simp only [hrd]
    rw [if_neg hfull]
    rcases hsync : s.block.syncFrom (piece ref.header.version f k ++ s.buffer.drop (piece ref.header.version f k).length)
      (some (sameVerUid ref)) none with ⟨b, _ | e⟩
    · simp only
      obtain ⟨seq, payload, hb, rfl⟩ := (syncFrom_front hlen).1 hsync
      by_cases h0 : seq = 0
      · subst h0
        have hfa : fieldsAt ref f k = some (metasFromBytes payload) := fieldsAt_iff.2 ⟨payload, hb, rfl⟩
        have hd : (blockOf ref.header.version ref.header.uid 0 payload).data = .metadata (metasFromBytes payload) := by simp [blockOf]
        rw [hd]
        simp only
        rw [change_eq upd rem _ _ hd]
        simp only
        rw [Block.syncTo_meta _ _ (changed upd rem (metasFromBytes payload)) rfl rfl
          (by show ref.header.version.blockSize ≤ _; rw [hbl]; exact hbs)]
        have hsz : Block.size { blockOf ref.header.version ref.header.uid 0 payload with
            data := .metadata (changed upd rem (metasFromBytes payload)) } = ref.header.version.blockSize := rfl
        rw [hsz]
        by_cases hfit : metaSpace (changed upd rem (metasFromBytes payload)) ≤ ref.header.version.blockSize - 16
        · obtain ⟨bs, h1, h2, -⟩ := (C05_metadata_write (changed upd rem (metasFromBytes payload)) (ref.header.version.blockSize - 16)).2 hfit
          rw [h1]
          simp only
          have hfits : fits ref upd rem f k = true := by
            unfold fits; rw [hfa]; simp only [decide_eq_true_eq]; rw [blockLen_eq]; exact hfit
          have hc : course (isFull ref f) (fits ref upd rem f) stop i (k :: ks) =
              (k :: (course (isFull ref f) (fits ref upd rem f) stop (i + 1) ks).1,
                (course (isFull ref f) (fits ref upd rem f) stop (i + 1) ks).2) := by
            simp [course, hfits, hs, hF]
          have hnl : (blockBytes ref.header.version ref.header.uid.bytes 0 bs).length = ref.header.version.blockSize := by
            rw [blockBytes_length, h2]; omega
          have htake : (blockBytes (blockOf ref.header.version ref.header.uid 0 payload).header.version
              (blockOf ref.header.version ref.header.uid 0 payload).header.uid.bytes 0 bs ++
              List.drop ref.header.version.blockSize (piece ref.header.version f k ++ s.buffer.drop (piece ref.header.version f k).length)).take
                ref.header.version.blockSize = blockBytes ref.header.version ref.header.uid.bytes 0 bs := List.take_left' hnl
          rw [htake]
          rw [ih (i + 1)
            { disk := if w then s.disk.writeAt (k * ref.header.version.blockSize) (blockBytes ref.header.version ref.header.uid.bytes 0 bs)
                else s.disk,
              buffer := blockBytes (blockOf ref.header.version ref.header.uid 0 payload).header.version
                (blockOf ref.header.version ref.header.uid 0 payload).header.uid.bytes 0 bs ++
                List.drop ref.header.version.blockSize (piece ref.header.version f k ++ s.buffer.drop (piece ref.header.version f k).length),
              block := Block.updateCrc { blockOf ref.header.version ref.header.uid 0 payload with
                data := .metadata (changed upd rem (metasFromBytes payload)) } 
                ((piece ref.header.version f k ++ s.buffer.drop (piece ref.header.version f k).length).take 16 ++ bs),
              stats := { s.stats with updated := s.stats.updated + 1 } } hnd.2
            (by
              have hh : (blockBytes (blockOf ref.header.version ref.header.uid 0 payload).header.version
                (blockOf ref.header.version ref.header.uid 0 payload).header.uid.bytes 0 bs).length = ref.header.version.blockSize := hnl
              simp only [List.length_append, List.length_drop, hh] at hbl ⊢
              omega)
            (by
              intro k' hk'
              have hne : k' ≠ k := by rintro rfl; exact hnd.1 hk'
              rw [← hp k' (List.mem_cons_of_mem _ hk')]
              cases w with
              | false => rfl
              | true =>
                simp only [if_true]
                rw [show (s.disk.writeAt _ _) = s.disk.writes [_] from rfl, Disk.file_writes, ← blockLen_eq]
                exact piece_eq_of hne (over (hpk ▸ hlen) (by rw [hnl, blockLen_eq])).2.2)]
          rw [hc]
          unfold traceOf
          rw [List.zipIdx_cons, List.filterMap_cons, hfa]
          rfl
        · rw [(C05_metadata_write _ _).1.2 (by omega)]
          simp only
          have hfits : fits ref upd rem f k = false := by
            unfold fits; rw [hfa]; simp only [decide_eq_false_iff_not]; rw [blockLen_eq]; exact hfit
          have hc : course (isFull ref f) (fits ref upd rem f) stop i (k :: ks) = ([], true) := by
            simp [course, hfits, hs, hF]
          rw [hc]
          rfl
      · have hnone : fieldsAt ref f k = none := by
          rw [Option.eq_none_iff_forall_ne_some]
          intro ms hms
          obtain ⟨p, hp1, -⟩ := fieldsAt_iff.1 hms
          exact h0 (isBlock_seq hb hp1).1
        have hd : (blockOf ref.header.version ref.header.uid seq payload).data = .data := by simp [blockOf, h0]
        rw [hd]
        exact hskip _ hnone
    · simp only
      refine hskip _ ?_
      rw [Option.eq_none_iff_forall_ne_some]
      intro ms hms
      obtain ⟨p, hp1, -⟩ := fieldsAt_iff.1 hms
      rw [(syncFrom_front hlen).2 ⟨0, p, hp1, rfl⟩] at hsync
      simp at hsync

theorem traceOf_take (ref : Block) (f : File) (dpb : Option Dpb) (n : Nat) :
    traceOf ref f 0 ((metaCopies (some true) dpb).take n) = updatedIn ref.header.version ref.header.uid f dpb n := by
  unfold traceOf updatedIn
  simp only [fieldsThere_eq, blockLen_eq]

theorem filterMap_length {α β : Type} (g : α → Option β) (F : α × Nat → β → γ) : ∀ (l : List α) (i : Nat),
    ((l.zipIdx i).filterMap fun x => (g x.1).map (F x)).length = l.countP fun a => (g a).isSome
  | [], _ => rfl
  | a :: l, i => by
    rw [List.zipIdx_cons, List.filterMap_cons, List.countP_cons]
    have := filterMap_length g F l (i + 1)
    cases h : g a <;> simp [h, this]

theorem traceOf_bound {ref : Block} {f : File} {ks : List Nat} (hs : ks.Pairwise (· < ·)) {x : Nat × Nat × List Metadata}
    (hx : x ∈ traceOf ref f 0 ks) : x.1 ≤ x.2.1 ∧ x.2.1 ≤ f.length ∧ ∃ k payload, IsBlock (piece ref.header.version f k) ref.header.version ref.header.uid 0 payload ∧
      x.2.2 = metasFromBytes payload := by
  unfold traceOf at hx
  obtain ⟨⟨k, i⟩, h1, h2⟩ := List.mem_filterMap.1 hx
  obtain ⟨ms, h3, h4⟩ := Option.map_eq_some_iff.1 h2
  obtain ⟨payload, h5, h6⟩ := fieldsAt_iff.1 h3
  have h7 := fieldsAt_full h3
  have h16 := size_ge ref.header.version
  simp only at h3 h4 h5 h7
  subst h4
  obtain ⟨-, hi, hk⟩ := List.mem_zipIdx h1
  have hik : ∀ (l : List Nat), l.Pairwise (· < ·) → ∀ j, (hj : j < l.length) → j ≤ l[j] := by
    intro l hl j
    induction j with
    | zero => intro _; exact Nat.zero_le _
    | succ j ih =>
      intro hj
      have h := List.pairwise_iff_getElem.1 hl j (j + 1) (by omega) hj (by omega)
      have := ih (by omega)
      omega
  have h8 := hik ks hs i (by omega)
  simp only [Nat.sub_zero] at hk
  rw [← hk] at h8
  refine ⟨?_, ?_, k, payload, h5, h6⟩
  · show i ≤ k * ref.header.version.blockSize
    have := Nat.mul_le_mul_left k (show 1 ≤ ref.header.version.blockSize by omega)
    omega
  · show k * ref.header.version.blockSize ≤ f.length
    unfold piece File.readAt at h7
    rw [List.length_take, List.length_drop, blockLen_eq] at h7
    omega

end listed

end Verif.Report
