import Verif.Props.ReportRepair
import Verif.Props.ReportUpdate
import Verif.Props.Sort
import Verif.Props.DecodeStats
import Verif.Props.Check
import Verif.Props.Calc
/-!
# C60: consequences, cases in which it fails, and instances
-/

namespace Verif.Report
open Json JsonSpec Scan Misc Layout DecodeSpec CheckSpec

/-- The value under a key. -/
def at? (k : String) : Val → Option Val
  | .obj ms => (ms.find? fun m => m.1 = key k).map Prod.snd
  | _ => none

theorem at_skip {k : String} {a b : Members} (h : ∀ m ∈ a, m.1 ≠ key k) : at? k (.obj (a ++ b)) = at? k (.obj b) := by
  unfold at?
  simp only
  rw [List.find?_append, List.find?_eq_none.2 (fun m hm => by simpa using h m hm), Option.none_or]

/-- **C60 with C38.** What a program that reads the output of `check --json` finds as the number of failed blocks is the number of damaged
places among those looked at, together with the blank ones if these are to be reported; and the number of blocks processed is the number of
places looked at, which are all of them unless the run is interrupted. -/
theorem C60_check_counts (errText : Err → Str) (he : PlainErrors errText) (tc th : Int) (E : Check.Env) (p : Check.Param) (f : File)
    (hf : f.length < 2 ^ 63) (hb : ∀ b, p.ref.burst = some b → b < 2 ^ 64) (r : Check.Report) (h : Check.checkFile E p f = .ok r)
    (st : Check.Stats) (hst : r.blocks = some st) :
    ∃ doc stats pos ref m, (checkJson errText tc th E p f).bind parse = some doc ∧ at? "error" doc = some .null ∧ at? "stats" doc = some stats ∧
      getRefBlockM p.ref p.ref.refChoice f E.stopRef (E.stopCheck 0) = .ok (pos, ref) ∧
      (let v := ref.header.version
       let uid := ref.header.uid
       let start := (Check.rangeOf p.ref ref f).seekTo
       ((∀ i, E.stopCheck i = false) → m = places ref f start (Check.rangeOf p.ref ref f).requiredLen) ∧
       at? "numberOfBlocksProcessed" stats = some (numV m) ∧
       at? "numberOfBlocksPassedCheckMetadata" stats = some (numV (countPlaces v f start m (IsMeta v uid))) ∧
       at? "numberOfBlocksPassedCheckData" stats = some (numV (countPlaces v f start m (IsData v uid))) ∧
       at? "numberOfBlocksFailedCheck" stats = some (numV (countPlaces v f start m (IsBad v uid) +
         if p.reportBlank then countPlaces v f start m IsBlank else 0))) := by
  obtain ⟨pos, ref, h1, h2⟩ := (C60_check_partial errText he tc th E p f hf hb).1 r h
  obtain ⟨pos', ref', m, h3, -, h4, h5, h6, -, h7, h8⟩ := Check.C38_check E p f r h st hst
  rw [h1] at h3
  cases h3
  have hpre : ∀ k : String, key k ≠ key "refBlockInfo" → key k ≠ key "blocksFailed" → key k ≠ key "burstErrorResistanceLevel" →
      ∀ m ∈ checkPreface p f pos ref r, m.1 ≠ key k := by
    intro k k1 k2 k3 m hm
    unfold checkPreface at hm
    rcases List.mem_append.1 hm with hm | hm
    · rcases List.mem_append.1 hm with hm | hm
      · unfold refShown given at hm
        split at hm
        · rw [List.mem_singleton.1 hm]; exact k1.symm
        · cases hm
      · split at hm
        · unfold given failedShown at hm
          split at hm
          · rw [List.mem_singleton.1 hm]; exact k2.symm
          · cases hm
        · cases hm
    · split at hm
      · unfold burstShown at hm
        split at hm
        · rw [List.mem_singleton.1 hm]; exact k3.symm
        · cases hm
      · cases hm
  refine ⟨_, .obj (JsonSpec.checkStats errText tc th ref.header.version r.blocks r.hash), pos, ref, m, h2, ?_, ?_, h1, h4, ?_⟩
  · rw [at_skip (hpre "error" (by decide) (by decide) (by decide))]
    rfl
  · rw [at_skip (hpre "stats" (by decide) (by decide) (by decide))]
    rfl
  · rw [hst]
    unfold JsonSpec.checkStats
    simp only [← h5, ← h6, ← h7]
    refine ⟨?_, rfl, rfl, rfl⟩
    rw [← h8]
    rfl

/-! ### Cases in which it fails -/

/-- **C60 violated.** `encode --info-only --json` with standard input: the section `stats` has been opened when the error is found, and only
one bracket is closed, so the output is not JSON. -/
theorem C60_info_stdin_violated : ∃ text, infoErr "No information is available for stdin input".toList = some text ∧ parse text = none := by
  refine ⟨_, rfl, ?_⟩
  decide +kernel

/-- What is printed if reading fails while an array is open: `src/check_core.rs` 361-421, `src/repair_core.rs` 351-464 and
`src/update_core.rs` 299-358 return with `?` without closing it. -/
def openArrayErr (before : List Call) (name : String) (elements : List Call) (text : Str) : Option Str :=
  output (before ++ .openB (some name.toList) .square :: elements) (.err text)

/-- **C60 violated.** If reading fails while the list of failed blocks (`check --verbose`), of metadata blocks or sets to be repaired
(`repair`) or of changes (`update --verbose`) is open, the output is not JSON: the message becomes an element of the array, with a name.
Here it is the first read that fails. -/
theorem C60_read_error_violated : ∀ name ∈ ["blocks failed", "metadata repairs", "data repairs", "metadata changes"],
    ∃ text, openArrayErr [] name [] "Input/output error".toList = some text ∧ parse text = none := by
  intro name hn
  simp only [List.mem_cons, List.not_mem_nil, or_false] at hn
  rcases hn with rfl | rfl | rfl | rfl
  all_goals
    refine ⟨_, rfl, ?_⟩
    decide +kernel

/-- **C60 violated.** A message with a backslash that does not begin an escape sequence (say, because a name of a file is part of the message)
makes the output invalid. -/
theorem C60_backslash_violated : ∃ text, output [] (.err "File \"a\\docs\" does not exist".toList) = some text ∧ parse text = none := by
  refine ⟨_, rfl, ?_⟩
  decide +kernel

/-! ### Instances -/

section instances

/-- Some messages. -/
def demoText (_ : ε) : Str := "Failed to find reference block".toList

theorem demo_errors {ε : Type} : PlainErrors (demoText (ε := ε)) := fun _ =>
  plainName_of_space (v := "Failed to find reference block".toList) ⟨by decide, by decide, by decide, by decide⟩ (by decide)

def demoDate (_ : Int64) : Option Str := some "2019-01-01 00:00:00".toList

theorem demo_dates : PlainDates demoDate demoDate := by
  intro t s h
  rcases h with h | h <;> cases h <;> exact ⟨by decide, by decide, by decide, by decide⟩

set_option maxRecDepth 1000000 in
/-- `check --verbose --report-blank`: one block passes, a damaged and a blank one do not. -/
example : ∃ r doc stats, Check.checkFile Check.smallEnv (Check.smallParam none) (Check.smallFile (List.replicate 128 0xFF ++ List.replicate 128 0)) = .ok r ∧
    (checkJson demoText 5 0 Check.smallEnv (Check.smallParam none) (Check.smallFile (List.replicate 128 0xFF ++ List.replicate 128 0))).bind
      parse = some doc ∧ at? "stats" doc = some stats ∧ at? "error" doc = some .null ∧ r.blocks = some ⟨1, 0, 2, 0, [256]⟩ := by
  have h : Check.counted none (List.replicate 128 0xFF ++ List.replicate 128 0) = some ⟨1, 0, 2, 0, [256]⟩ := by decide +kernel
  unfold Check.counted at h
  split at h
  · next r hr =>
    obtain ⟨doc, stats, pos, ref, m, h1, h2, h3, -⟩ := C60_check_counts demoText demo_errors 5 0 Check.smallEnv (Check.smallParam none) _
      (by decide +kernel) (fun b hb => by cases hb) r hr _ h
    exact ⟨r, doc, stats, hr, h1, h3, h2, h⟩
  · cases h

set_option maxRecDepth 1000000 in
/-- `decode` of a container with a damaged block, to a file and to standard output. -/
example : (∃ out r, Decode.toFile Decode.tinyEnv Decode.tinyParam Decode.plainFile [] = .ok (out, r) ∧ DecodeFits Decode.plainFile.length r) ∧
    ∃ out r, Decode.toStdout Decode.tinyEnv Decode.tinyParam Decode.plainFile = .ok (out, r) ∧ DecodeFits Decode.plainFile.length r := by
  constructor
  · have h : (match Decode.toFile Decode.tinyEnv Decode.tinyParam Decode.plainFile [] with
      | .ok (_, r) => some (r.stats, r.outSize) | .error _ => none) = some (⟨1, 1, 0, 1, 0, 0, 0⟩, 200) := by decide +kernel
    split at h
    · next out r hr =>
      simp only [Option.some.injEq, Prod.mk.injEq] at h
      exact ⟨out, r, hr, by unfold DecodeFits; rw [h.1, h.2]; decide +kernel⟩
    · cases h
  · have h : (match Decode.toStdout Decode.tinyEnv Decode.tinyParam Decode.plainFile with
      | .ok (_, r) => some (r.stats, r.outSize) | .error _ => none) = some (⟨1, 1, 0, 0, 0, 1, 0⟩, 200) := by decide +kernel
    split at h
    · next out r hr =>
      simp only [Option.some.injEq, Prod.mk.injEq] at h
      exact ⟨out, r, hr, by unfold DecodeFits; rw [h.1, h.2]; decide +kernel⟩
    · cases h

set_option maxRecDepth 1000000 in
/-- `sort` of the same container. -/
example : ∃ out s o, Sort.sortFile ⟨1, fun _ => false, fun _ => false⟩ ⟨Decode.tinyParam.ref, none, false, true⟩ Decode.plainFile [] = .ok (out, s, o) ∧
    SortFits s o := by
  have h : (match Sort.sortFile ⟨1, fun _ => false, fun _ => false⟩ ⟨Decode.tinyParam.ref, none, false, true⟩ Decode.plainFile [] with
    | .ok (_, s, o) => some (s, o) | .error _ => none) = some (⟨1, 1, 0, 1, 0, 1, 0⟩, ⟨1, 0, 0, 0⟩) := by decide +kernel
  split at h
  · next out s o hr =>
    simp only [Option.some.injEq, Prod.mk.injEq] at h
    exact ⟨out, s, o, hr, by unfold SortFits; rw [h.1, h.2]; decide +kernel⟩
  · cases h

/-- `calc` of 1000 bytes. -/
example : (∃ n, Calc.calcNumbers .v17 true (some ⟨10, 2, 3⟩) 1000 = some n ∧ NumbersFit n) ∧ DpbFits (some ⟨10, 2, 3⟩) :=
  ⟨⟨⟨3, 10, 2, 15, 1000, 512 * 37⟩, by decide, by unfold NumbersFit; decide⟩, by intro d hd; cases hd; decide⟩

open Encode in
theorem demo_numbers : ∃ d rep, encodeFile (demoEnv fun _ => false) (demoParam .v17 (some ⟨10, 2, 3⟩) none)
      ⟨List.replicate 1000 7, some ("a.txt", some 5)⟩ = (d, .ok rep) ∧
    Calc.encodeNumbers (demoParam .v17 (some ⟨10, 2, 3⟩) none) rep.counters = some ⟨3, 10, 2, 15, 1000, 512 * 37⟩ ∧ d.file.length = 512 * 37 := by
  obtain ⟨h1, h2⟩ := demo_ok (v := .v17) (dpb := some ⟨10, 2, 3⟩) none rfl (by simp) (fun _ => false)
  obtain ⟨d, rep, h⟩ := C24_succeeds _ _ h2 h1 ⟨List.replicate 1000 7, some ("a.txt", some 5)⟩ (by
    intro mx hmx
    rw [maxSize_eq h1] at hmx
    cases hmx
    decide +kernel) (by intro _; decide +kernel)
  obtain ⟨r, r1, r2, r3⟩ := Calc.C53_calc_partial _ _ h2 h1 _ (by
    refine ⟨by decide +kernel, ?_⟩
    intro n t ht
    simp only [Option.some.injEq, Prod.mk.injEq] at ht
    rw [← ht.1]
    decide +kernel) d rep (.inr ⟨rfl, rfl⟩) (fun _ => rfl) h (by
      intro x hx _
      cases hx
      decide) (by decide +kernel)
  have hl : (List.replicate 1000 (7 : Byte)).length = 1000 := List.length_replicate
  rw [hl] at r1
  have hc : Calc.calcNumbers .v17 true (some ⟨10, 2, 3⟩) 1000 = some ⟨3, 10, 2, 15, 1000, 512 * 37⟩ := by decide
  have e : (some r : Option Calc.Numbers) = some ⟨3, 10, 2, 15, 1000, 512 * 37⟩ := by rw [← hc, ← r1]; rfl
  cases e
  exact ⟨d, rep, h, r2, r3.size.symm⟩

/-- `encode` of 1000 bytes. -/
example : ∃ p E inp d rep n, Encode.encodeFile E p inp = (d, .ok rep) ∧ Calc.encodeNumbers p rep.counters = some n ∧ NumbersFit n := by
  obtain ⟨d, rep, h1, h2, -⟩ := demo_numbers
  exact ⟨_, _, _, d, rep, _, h1, h2, by unfold NumbersFit; decide⟩

/-- `encode --info-only`. -/
example : ∃ size, FileUtils.containerSize .v17 (some true) (some ⟨10, 2, 3⟩) 1000 = some size ∧ size < 2 ^ 64 ∧
    (infoJson demoDate demoDate .v17 true (some ⟨10, 2, 3⟩) ⟨"my notes.txt".toList, "my notes.txt.ecsbx".toList, 1000, some 5⟩).bind parse =
      some (.obj [(key "stats", .obj (JsonSpec.infoStats demoDate demoDate .v17 (some ⟨10, 2, 3⟩) "my notes.txt".toList "my notes.txt.ecsbx".toList 1000
        size (some 5))), (key "error", .null)]) :=
  ⟨512 * 37, by decide, by decide, C60_info_partial demoDate demoDate demo_dates .v17 true (some ⟨10, 2, 3⟩) rfl
    ⟨"my notes.txt".toList, "my notes.txt.ecsbx".toList, 1000, some 5⟩
    (plainName_of_space ⟨by decide, by decide, by decide, by decide⟩ (by decide))
    (plainName_of_space ⟨by decide, by decide, by decide, by decide⟩ (by decide)) (by intro d hd; cases hd; decide) (by decide) _ (by decide) (by decide)⟩

/-- `rescue`. -/
example : (rescueJson ⟨1536, 1, 2⟩).bind parse = some (.obj [(key "stats", .obj (JsonSpec.rescueStats ⟨1536, 1, 2⟩)), (key "error", .null)]) :=
  C60_rescue_partial _ (by decide) (by decide)

open Repair in
/-- `repair` of a container with two damaged blocks. -/
example : ∃ f dk st, repairFile demoEnv (some 3) false f = .ok (some (dk, st)) ∧
    ∃ mp, Sees demoEnv (some 3) f .v17 demoOwner mp demoDpb ∧ Format.blockLen .v17 ∣ f.length ∧ f.length < 2 ^ 63 := by
  obtain ⟨dk0, rep0, mp, henc, h⟩ := demo_sound'
  obtain ⟨d1, rep1, e1, -, e3⟩ := demo_numbers
  rw [henc] at e1
  simp only [Prod.mk.injEq] at e1
  rw [← e1.1] at e3
  obtain ⟨f, h1, h2, h3, h5⟩ := demo_damage h
  obtain ⟨hc, hd, hr⟩ := case_of_bursts demo_laws demo_calm h (by decide) (bursts := [(0, 2)]) h2 (by decide) (few (by decide)) h3
  obtain ⟨dk, st, r1, -, r2⟩ := C25_restores demoEnv demo_laws demo_calm _ _ _ _ _ mp _ f hc hd h5 hr
  have hal : Format.blockLen .v17 ∣ f.length := by rw [h2]; exact h.container.aligned
  refine ⟨f, dk, st, r1, mp, hc.sees, hal, ?_⟩
  rw [h2, e3]
  decide

/-- A file with one metadata block. -/
def onePayload : List Byte := (metasToBytes [.fnm "my notes", .fsz 5] 112).getD []
def oneBlock : File := Format.blockBytes .v2 Block.zeroUid.bytes 0 onePayload

/-- `update --fnm "new name" --no-snm`. -/
def oneParam : Update.Param := ⟨false, [.fnm "new name"], [.snm], none, none⟩

def oneEnv : Update.Env := ⟨Check.smallHash, 2, fun _ => false, fun _ => false, fun _ => false, fun _ => false⟩

def okOf {ε α : Type} : Except ε α → Option α
  | .ok a => some a
  | .error _ => none

theorem okOf_some {ε α : Type} {x : Except ε α} {a : α} (h : okOf x = some a) : x = .ok a := by
  cases x with
  | ok s => exact congrArg Except.ok (Option.some.inj h)
  | error e => cases h

set_option maxRecDepth 1000000 in
theorem one_run : okOf (Update.updateFile oneEnv oneParam oneBlock).2 = some ⟨1, 0⟩ := by decide +kernel

set_option maxRecDepth 1000000 in
theorem one_length : oneBlock.length = 128 := by decide +kernel

set_option maxRecDepth 1000000 in
theorem one_fields : metasFromBytes onePayload = [.fnm "my notes", .fsz 5] := by decide +kernel

theorem one_plain : RecordedPlain oneBlock := by
  intro v uid k payload h m hm
  have hl := isBlock_length h
  have hp : (RepairSpec.piece v oneBlock k).length ≤ 128 - k * Format.blockLen v := by
    unfold RepairSpec.piece File.readAt
    rw [List.length_take, List.length_drop, one_length]; omega
  rw [hl] at hp
  have hk : k = 0 := by
    rcases k with _ | k
    · rfl
    · rw [Nat.succ_mul] at hp
      have : 128 ≤ Format.blockLen v := by cases v <;> decide
      omega
  subst hk
  have hb : RepairSpec.piece v oneBlock 0 = oneBlock := by
    unfold RepairSpec.piece File.readAt
    rw [Nat.zero_mul, List.drop_zero, List.take_of_length_le (by rw [one_length]; cases v <;> decide)]
  rw [hb] at h
  have h1 : Format.IsBlock oneBlock .v2 Block.zeroUid 0 onePayload := ⟨rfl, by decide +kernel⟩
  have h2 : ∀ w, oneBlock.take (Format.blockLen w) = oneBlock := fun w =>
    List.take_of_length_le (by rw [one_length]; cases w <;> decide)
  have e := (C09_unique oneBlock v .v2 uid Block.zeroUid 0 0 payload onePayload (by rw [h2]; exact h) (by rw [h2]; exact h1)).2.2.2
  rw [e, one_fields, List.mem_cons, List.mem_singleton] at hm
  rcases hm with rfl | rfl
  · exact plainName_of_space ⟨by decide, by decide, by decide, by decide⟩ (by decide)
  · trivial

theorem one_updated : (Update.updateFile oneEnv oneParam oneBlock).2 = .ok ⟨1, 0⟩ := okOf_some one_run

/-- `update --json --verbose`. -/
example : ∃ st, (Update.updateFile oneEnv oneParam oneBlock).2 = .ok st ∧ st.updated + st.failed < 2 ^ 64 ∧ RecordedPlain oneBlock ∧
    ∀ m ∈ oneParam.update, FieldPlain m := by
  refine ⟨_, one_updated, by decide, one_plain, ?_⟩
  intro m hm
  rw [List.mem_singleton.1 hm]
  exact plainName_of_space ⟨by decide, by decide, by decide, by decide⟩ (by decide)

end instances

end Verif.Report
