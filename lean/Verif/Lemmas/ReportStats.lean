import Verif.Lemmas.Report
import Verif.Props.Check
/-!
# The statistics printed by the commands with `--json`
-/

namespace Verif.Report
open Json JsonSpec Scan Misc Layout

/-- A value that is not free text. -/
macro "val" : tactic => `(tactic| first
  | exact good_ver _ | exact good_bsize _ | exact good_dsize _ | exact good_time _ | exact good_hashText _ | exact good_optHash _ | exact good_null
  | exact good_uidV _ | exact good_dec (by assumption) | exact good_dec (by omega))

/-- Fields one after another. -/
macro "fields" : tactic => `(tactic|
  repeat' (first | exact Doc.nil | refine Doc.fld (by decide +kernel) (by val) ?_ | refine Doc.fldQ (by decide +kernel) (by val) ?_))

theorem Doc.given {b : Bool} {cs : List Call} {ms : Members} (h : b = true → Doc .curly cs ms) : Doc .curly (if b then cs else []) (given b ms) := by
  unfold JsonSpec.given
  cases b
  · exact Doc.nil
  · exact h rfl

theorem Doc.append3 {b : Bracket} {c c' : List Call} {m₁ m₂ m₃ m' : Members} (h : Doc b c (m₁ ++ (m₂ ++ m₃))) (h' : Doc b c' m') :
    Doc b (c ++ c') (m₁ ++ (m₂ ++ (m₃ ++ m'))) := by
  have := h.append h'
  simpa only [List.append_assoc] using this

theorem checkStats_doc {errText : Err → Str} (he : PlainErrors errText) (tc th : Int) (v : Version) (r : Check.Report)
    (hr : ∀ s, r.blocks = some s → s.blocks < 2 ^ 64) :
    Doc .curly (checkStats errText tc th v r) [(key "stats", .obj (JsonSpec.checkStats errText tc th v r.blocks r.hash))] := by
  unfold checkStats JsonSpec.checkStats
  obtain ⟨bl, h⟩ := r
  simp only at hr ⊢
  refine stats_doc ?_
  rw [List.append_assoc, List.append_assoc]
  refine Doc.fld (by decide +kernel) (by val) (Doc.append ?_ (Doc.append ?_ ?_))
  · cases bl with
    | none => exact Doc.nil
    | some s =>
      have hs := hr s rfl
      have hs' : s.metas + s.datas + s.failed + s.okayBlank < 2 ^ 64 := hs
      simp only [checkedCalls]
      fields
  · cases h with
    | none => exact Doc.nil
    | some x =>
      obtain ⟨a, b⟩ := x
      simp only [hashedCalls]
      cases b with
      | ok b => simp only [hashTime]; fields
      | error e => exact Doc.fld (by decide +kernel) (by val) (Doc.fld (by decide +kernel) (good_name (he e)) (Doc.fld (by decide +kernel) (by val) .nil))
  · have : (hashTime th h) = (match h with | some (_, .ok _) => th | _ => 0) := by unfold hashTime; rfl
    rw [this]
    fields

theorem failedCalls_doc (l : List Nat) (h : ∀ x ∈ l, x < 2 ^ 64) : Doc .curly (failedCalls l) (failedShown l) := by
  unfold failedCalls failedShown
  have := objects_doc (f := fun pos => [fld "pos : " (dec pos)]) (g := fun pos => [(key "pos", numV pos)]) l
    (fun x hx => by have := h x hx; fields)
  have := Doc.sect (s := "blocks failed") (k := "blocksFailed") (by decide +kernel) (by decide) this
  simpa [sectValue, Function.comp_def] using this

theorem decodeStats_doc (td th : Int) (uid : Uid) (v : Version) (toStdout : Bool) (n : Nat) (r : Decode.Report) (h : DecodeFits n r) :
    Doc .curly (decodeStats td th uid v toStdout n r) [(key "stats", .obj (JsonSpec.decodeStats td th uid v toStdout n r))] := by
  unfold decodeStats JsonSpec.decodeStats
  obtain ⟨h1, h2, h3⟩ := h
  have hb : decodeBlocks toStdout r.stats < 2 ^ 64 := by unfold decodeBlocks; split <;> omega
  refine stats_doc ?_
  have h5 : Doc .curly (decodeFailed v toStdout r.stats) (JsonSpec.given (!toStdout) [(key "numberOfBlocksFailedToDecode", numV r.stats.failed)] ++
      JsonSpec.given toStdout [(key "numberOfBlocksFailedToDecodeMetadata", numV r.stats.metaFailed),
        (key "numberOfBlocksFailedToDecodeData", numV r.stats.dataFailed)] ++
      JsonSpec.given (toStdout && v.usesRs) [(key "numberOfBlocksFailedToDecodeParity", numV r.stats.parityFailed)]) := by
    unfold decodeFailed JsonSpec.given
    cases v.usesRs <;> cases toStdout <;> simp only [Bool.not_false, Bool.not_true, Bool.and_self, Bool.and_true, Bool.and_false, Bool.false_eq_true,
      if_true, if_false, List.nil_append, List.append_nil, List.cons_append] <;> fields
  simp only [List.append_assoc] at h5 ⊢
  refine Doc.append ?_ (Doc.append (Doc.given fun _ => ?_) (Doc.append3 h5 (Doc.append ?_ (Doc.append (Doc.given fun _ => ?_) (Doc.append ?_
    (Doc.append (Doc.given fun _ => ?_) ?_))))))
  · fields
  · fields
  · fields
  · fields
  · fields
  · fields
  · have e : (td + if (!toStdout && r.computed.isSome) = true then th else 0) = if (!toStdout && r.computed.isSome) = true then td + th else td := by
      split <;> simp
    rw [e]
    fields

theorem encodeStats_doc (t : Int) (uid : Uid) (v : Version) (n : Calc.Numbers) (h : Option HashBytes) (hn : NumbersFit n) :
    Doc .curly (encodeStats t uid v n h) [(key "stats", .obj (JsonSpec.encodeStats t uid v n h))] := by
  unfold encodeStats JsonSpec.encodeStats
  obtain ⟨h1, h2, h3, h4, h5, h6⟩ := hn
  refine stats_doc (Doc.append (Doc.append ?_ (Doc.given fun _ => ?_)) ?_) <;> fields

theorem infoTime_good {utc loc : Int64 → Option Str} (hd : PlainDates utc loc) (t : Option Int64) :
    Good false (infoTime utc loc t) (orNull (t.map fun t => strV (
      if (utc t).isSome ∧ (loc t).isSome then dateShown (utc t) (loc t) else "Invalid file modification time".toList))) := by
  cases t with
  | none => exact good_null
  | some t =>
    have hg := good_date hd t
    unfold infoTime
    unfold dateText at hg
    simp only [Option.map_some, orNull, Option.getD_some, dateShown]
    have hbad : Good false "Invalid file modification time".toList (strV "Invalid file modification time".toList) :=
      good_name (plainName_of_space ⟨by decide, by decide, by decide, by decide⟩ (by decide))
    cases hu : utc t with
    | none => simpa [hu] using hbad
    | some u =>
      cases hl : loc t with
      | none => simpa [hu, hl] using hbad
      | some l => simpa [hu, hl] using hg

theorem infoStats_doc {utc loc : Int64 → Option Str} (hd : PlainDates utc loc) (v : Version) (dpb : Option Dpb) (hv : dpb.isSome = v.usesRs) (size : Nat)
    (i : Info) (hn : PlainName i.name) (ho : PlainName i.out) (h1 : DpbFits dpb) (h2 : size < 2 ^ 64) (h3 : i.size < 2 ^ 64) :
    ∃ cs, infoStats utc loc v dpb size i = some cs ∧
      Doc .curly cs [(key "stats", .obj (JsonSpec.infoStats utc loc v dpb i.name i.out i.size size i.time))] := by
  unfold infoStats JsonSpec.infoStats
  have ht := infoTime_good hd i.time
  have hdoc : ∀ {cs : List Call} {ms : Members}, Doc .curly cs ms → Doc .curly (stats (
    [fld "File name                    : " i.name,
     fld "SBX container name           : " i.out,
     fld "SBX container version        : " (dec v.num),
     fld "SBX container block size     : " (dec v.blockSize),
     fld "SBX container data  size     : " (dec v.dataSize)] ++ cs ++
    [fld "File size                    : " (dec i.size),
     fld "SBX container size           : " (dec size),
     fld "File modification time       : " (infoTime utc loc i.time)])) [(key "stats", .obj (
      [(key "fileName", strV i.name),
       (key "sbxContainerName", strV i.out),
       (key "sbxContainerVersion", numV v.num),
       (key "sbxContainerBlockSize", numV v.blockSize),
       (key "sbxContainerDataSize", numV v.dataSize)] ++ ms ++
      [(key "fileSize", numV i.size),
       (key "sbxContainerSize", numV size),
       (key "fileModificationTime", orNull (i.time.map fun t => strV (
          if (utc t).isSome ∧ (loc t).isSome then dateShown (utc t) (loc t) else "Invalid file modification time".toList)))]))] := by
    intro cs ms h
    refine stats_doc (Doc.append (Doc.append ?_ h) ?_)
    · refine Doc.fld (by decide +kernel) (good_name hn) (Doc.fld (by decide +kernel) (good_name ho) ?_)
      fields
    · refine Doc.fld (by decide +kernel) (by val) (Doc.fld (by decide +kernel) (by val) (Doc.fld (by decide +kernel) ht .nil))
  cases dpb with
  | none =>
    rw [← hv]
    exact ⟨_, rfl, hdoc Doc.nil⟩
  | some d =>
    obtain ⟨a, b, c⟩ := h1 d rfl
    rw [← hv]
    refine ⟨_, rfl, hdoc ?_⟩
    fields

theorem calcStats_doc (v : Version) (dpb : Option Dpb) (hv : dpb.isSome = v.usesRs) (n : Calc.Numbers) (h1 : DpbFits dpb) (hn : NumbersFit n) :
    ∃ cs, calcStats v dpb n = some cs ∧ Doc .curly cs [(key "stats", .obj (JsonSpec.calcStats v dpb n))] := by
  unfold calcStats JsonSpec.calcStats JsonSpec.given
  obtain ⟨g1, g2, g3, g4, g5, g6⟩ := hn
  cases dpb with
  | none =>
    rw [← hv]
    refine ⟨_, rfl, stats_doc ?_⟩
    simp only [Option.isSome_none, Bool.false_eq_true, if_false, if_true, Bool.not_false, List.cons_append, List.nil_append, List.append_nil,
      Option.map_none, orNull, Option.getD_none]
    fields
  | some d =>
    obtain ⟨a, b, c⟩ := h1 d rfl
    rw [← hv]
    refine ⟨_, rfl, stats_doc ?_⟩
    simp only [Option.isSome_some, Bool.false_eq_true, if_false, if_true, Bool.not_true, List.cons_append, List.nil_append, List.append_nil,
      Option.map_some, orNull, Option.getD_some]
    fields

theorem sortStats_doc (t : Int) (v : Version) (s : Sort.Stats) (o : Sort.Order) (h : SortFits s o) :
    Doc .curly (sortStats t v s o) [(key "stats", .obj (JsonSpec.sortStats t v s o))] := by
  unfold sortStats JsonSpec.sortStats
  unfold SortFits at h
  have hb : s.blocks < 2 ^ 64 := by unfold Sort.Stats.blocks; omega
  have hb' : s.metas + s.datas + s.parities + s.failed + s.okayBlank < 2 ^ 64 := hb
  refine stats_doc (Doc.append (Doc.append (Doc.append (Doc.append ?_ (Doc.given fun _ => ?_)) ?_) (Doc.given fun _ => ?_)) ?_) <;> fields

theorem rescueStats_doc (c : Rescue.Counters) (h1 : c.bytes < 2 ^ 64) (h2 : c.metas + c.datas < 2 ^ 64) :
    Doc .curly (rescueStats c) [(key "stats", .obj (JsonSpec.rescueStats c))] := by
  refine stats_doc ?_
  fields

theorem repairStats_doc (t : Int) (v : Version) (s : Repair.Stats) (h : RepairFits s) :
    Doc .curly (repairStats t v s) [(key "stats", .obj (JsonSpec.repairStats t v s))] := by
  unfold RepairFits at h
  have hb : s.blocks < 2 ^ 64 := by unfold Repair.Stats.blocks; omega
  have hb' : s.metaDecoded + s.dataDecoded + s.failed < 2 ^ 64 := hb
  refine stats_doc ?_
  fields

theorem updateStats_doc (t : Int) (v : Version) (s : Update.Stats) (h : s.updated + s.failed < 2 ^ 64) :
    Doc .curly (updateStats t v s) [(key "stats", .obj (JsonSpec.updateStats t v s))] := by
  refine stats_doc ?_
  fields

end Verif.Report
