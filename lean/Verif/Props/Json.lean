import Verif.Lemmas.Show
/-!
# C39: JSON output
-/

namespace Verif.Json
open JsonSpec Scan Misc ScanSpec Format

/-- **C39, the part that holds.** Whatever nesting of sections and fields is printed, if the values are plain text, the printer does not
panic, all brackets are closed, and the text is JSON with exactly these sections and fields. -/
theorem C39_document_partial (doc : Items) (h : doc.Ok .curly) :
    ∃ p, Printer.run .new (Items.sect none .curly doc .nil).calls = some p ∧ p.contexts = [] ∧ parse p.out = some (.obj doc.members) :=
  parse_document h

/-- A document with nesting: statistics, and two blocks in an array. -/
def demoDoc : Items :=
  .field 0 (lab "SBX" ["container", "version"]) 2 false "17".toList <|
  .sect (some (lab "blocks" [])) .square
    (.sect none .curly (.field 2 (lab "pos" []) 1 false "128".toList (.field 0 (lab "success" []) 1 false "true".toList .nil))
      (.sect none .curly .nil .nil)) <|
  .field 0 ⟨"Number".toList, [⟨false, "written".toList⟩, ⟨true, "data".toList⟩]⟩ 0 false "say \"hi\"".toList <|
  .field 0 (lab "File" ["UID"]) 3 true "000000000001".toList .nil

theorem not_odd {v : Str} (h : v.head? ≠ some '+' ∧ v.head? ≠ some '0') : ¬ OddNumber v := by
  rintro (⟨r, rfl, -⟩ | ⟨r, rfl, -⟩)
  · exact h.1 rfl
  · exact h.2 rfl

theorem demoDoc_ok : demoDoc.Ok .curly := by
  refine ⟨rfl, lab_ok (by decide), ⟨by decide, by decide, by decide, by decide⟩, fun _ => not_odd (by decide), ?_⟩
  refine ⟨by simp, ?_, ⟨by simp, by simp, ?_, ⟨by simp, by simp, trivial, trivial⟩⟩, ?_⟩
  · intro l hl
    cases hl
    exact lab_ok (by decide)
  · exact ⟨rfl, lab_ok (by decide), ⟨by decide, by decide, by decide, by decide⟩, fun _ => not_odd (by decide),
      rfl, lab_ok (by decide), ⟨by decide, by decide, by decide, by decide⟩, fun _ => not_odd (by decide), trivial⟩
  · refine ⟨rfl, ⟨⟨by decide, by decide⟩, by decide, by simp⟩, ⟨by decide, by decide, by decide, by decide⟩, fun _ => not_odd (by decide), ?_⟩
    exact ⟨rfl, lab_ok (by decide), ⟨by decide, by decide, by decide, by decide⟩, fun h => by simp at h, trivial⟩

example : ∃ p, Printer.run .new (Items.sect none .curly demoDoc .nil).calls = some p ∧ parse p.out = some (.obj [
    (key "sbxContainerVersion", .num "17".toList),
    (key "blocks", .arr [.obj [(key "pos", .num "128".toList), (key "success", .bool true)], .obj []]),
    (key "numberWrittenData", .str (codes "say \"hi\"".toList)),
    (key "fileUID", .str (codes "000000000001".toList))]) := by
  obtain ⟨p, h1, -, h2⟩ := C39_document_partial demoDoc demoDoc_ok
  exact ⟨p, h1, h2⟩

/-! ### `show --json` -/

theorem increasing_length : ∀ (l : List Nat) (a n : Nat), l.Pairwise (· < ·) → (∀ x ∈ l, a ≤ x ∧ x < n) → l.length ≤ n - a
  | [], _, _, _, _ => Nat.zero_le _
  | x :: l, a, n, hp, h => by
    have hx := h x List.mem_cons_self
    rw [List.pairwise_cons] at hp
    have := increasing_length l (x + 1) n hp.2 (fun y hy => ⟨hp.1 y hy, (h y (List.mem_cons_of_mem _ hy)).2⟩)
    rw [List.length_cons]
    omega

theorem visit_show (uid : Option Uid) (showAll : Bool) (seekTo : Nat) : ∀ (l out : List (Nat × Block)),
    ∃ l' : List (Nat × Block), l'.Sublist l ∧ (∀ x ∈ l', x.2.blockType = .metadata) ∧
    visitAll (fun (out : List (Nat × Block)) pos b =>
      if b.blockType = .metadata ∧ uid.all (· = b.header.uid) then (out ++ [(pos + seekTo, b)], showAll) else (out, true)) out l =
      out ++ l'.map fun x => (x.1 + seekTo, x.2)
  | [], out => ⟨[], .slnil, by simp, by simp [visitAll]⟩
  | (pos, b) :: l, out => by
    rw [visitAll_append]
    by_cases hb : b.blockType = .metadata ∧ uid.all (· = b.header.uid)
    · rw [if_pos hb]
      cases showAll with
      | true =>
        obtain ⟨l', h1, h2, h3⟩ := visit_show uid true seekTo l (out ++ [(pos + seekTo, b)])
        refine ⟨(pos, b) :: l', h1.cons₂ _, ?_, ?_⟩
        · intro x hx
          rcases List.mem_cons.1 hx with rfl | hx
          · exact hb.1
          · exact h2 x hx
        · simp only [if_true]
          rw [h3]
          simp
      | false =>
        refine ⟨[(pos, b)], List.singleton_sublist.2 List.mem_cons_self, ?_, ?_⟩
        · intro x hx
          rw [List.mem_singleton.1 hx]
          exact hb.1
        · simp
    · rw [if_neg hb]
      obtain ⟨l', h1, h2, h3⟩ := visit_show uid showAll seekTo l out
      exact ⟨l', h1.cons _, h2, by simpa using h3⟩

theorem showFile_bounds (f : File) (fromPos : Option Nat) (toPos : Option RangeEnd) (mis : Bool) (uid : Option Uid) (showAll : Bool)
    (stop : Nat → Bool) :
    (∀ x ∈ showFile f fromPos toPos mis uid showAll stop, x.1 < f.length ∧ x.2.blockType = .metadata) ∧
      (showFile f fromPos toPos mis uid showAll stop).length ≤ f.length := by
  generalize hL : showFile f fromPos toPos mis uid showAll stop = L
  unfold showFile at hL
  simp only at hL
  obtain ⟨l, h1, -, -, h2, h3⟩ := C35_sound (fun (out : List (Nat × Block)) pos b =>
      if b.blockType = .metadata ∧ uid.all (· = b.header.uid) then
        (out ++ [(pos + (byteRange fromPos toPos mis 0 (.len f.length) none).seekTo, b)], showAll) else (out, true))
    [] f (byteRange fromPos toPos mis 0 (.len f.length) none).seekTo (byteRange fromPos toPos mis 0 (.len f.length) none).requiredLen
    stop Block.dummy
  rw [h1] at hL
  obtain ⟨l', h4, h5, h6⟩ := visit_show uid showAll (byteRange fromPos toPos mis 0 (.len f.length) none).seekTo l []
  rw [h6, List.nil_append] at hL
  generalize (byteRange fromPos toPos mis 0 (.len f.length) none).seekTo = seekTo at *
  have hb : ∀ x ∈ l', x.1 + seekTo < f.length := by
    intro x hx
    obtain ⟨-, v, u, seq, p, h7, -⟩ := h3 x.1 x.2 (h4.subset hx)
    have h8 := isBlock_length h7
    have h9 := size_ge v
    rw [← blockLen_eq] at h9
    simp only [File.readAt, List.length_take, List.length_drop] at h8
    omega
  subst hL
  refine ⟨?_, ?_⟩
  · intro x hx
    obtain ⟨y, hy, rfl⟩ := List.mem_map.1 hx
    exact ⟨hb y hy, h5 y hy⟩
  · have := increasing_length (l'.map (·.1)) 0 f.length (h2.sublist (h4.map _)) (by
      intro x hx
      obtain ⟨y, hy, rfl⟩ := List.mem_map.1 hx
      have := hb y hy
      omega)
    simpa using this

/-- **C39, the part that holds, for `show --json`.** Whatever the file contains, whatever the options are and whenever the scan is
interrupted: if the names recorded in the blocks shown are plain text that does not read as a number, a truth value or `null`, the
output is JSON, and is exactly the object that lists these blocks with their fields. -/
theorem C39_show_partial (utc loc : Int64 → Option Str) (hd : PlainDates utc loc) (f : File) (hf : f.length < 2 ^ 63)
    (fromPos : Option Nat) (toPos : Option RangeEnd) (mis : Bool) (uid : Option Uid) (showAll : Bool) (stop : Nat → Bool)
    (hn : ∀ x ∈ showFile f fromPos toPos mis uid showAll stop, NamesPlain x.2) :
    ∃ text, showJson utc loc f fromPos toPos mis uid showAll stop = some text ∧
      parse text = some (.obj [
        (key "blocks", .arr (shownBlocks utc loc 0 (showFile f fromPos toPos mis uid showAll stop))),
        (key "error", .null)]) := by
  obtain ⟨hb, hl⟩ := showFile_bounds f fromPos toPos mis uid showAll stop
  obtain ⟨it, h1, h2, h3⟩ := blocks_doc hd (showFile f fromPos toPos mis uid showAll stop) 0 (by omega)
    (fun x hx => ⟨by have := (hb x hx).1; omega, (hb x hx).2, hn x hx⟩)
  have hok : (Items.sect (some (lab "blocks" [])) .square it (.field 0 (lab "error" []) 1 false "null".toList .nil)).Ok .curly := by
    refine ⟨by simp, ?_, h1, rfl, lab_ok (by decide), ⟨by decide, by decide, by decide, by decide⟩, fun _ => not_odd (by decide), trivial⟩
    intro l hl
    cases hl
    exact lab_ok (by decide)
  obtain ⟨p, h4, -, h5⟩ := C39_document_partial _ hok
  refine ⟨p.out, ?_, ?_⟩
  · unfold showJson
    rw [h2]
    have : (Items.sect none .curly (.sect (some (lab "blocks" [])) .square it (.field 0 (lab "error" []) 1 false "null".toList .nil)) .nil).calls =
        .openB none .curly :: .openB (some "blocks".toList) .square :: (it.calls ++ .close :: exitOk) := by
      simp only [Items.calls, List.cons_append, List.append_assoc]
      rfl
    rw [this] at h4
    rw [Option.bind_eq_bind, Option.bind_some, Option.bind_eq_bind, h4]
    rfl
  · rw [h5]
    simp only [Items.members, h3]
    rfl

/-- A container that consists of one metadata block recording a name and a size. -/
def namedFile (name : String) : File :=
  blockBytes .v2 Block.zeroUid.bytes 0 ((metasToBytes [.fnm name, .fsz 5] 112).getD [])

/-- What `show --json` prints for it. -/
def shown (name : String) : Option Str :=
  showJson (fun _ => none) (fun _ => none) (namedFile name) none none false none true (fun _ => false)

/-- The string shown as name of the file. -/
def nameShown (name : String) : Option (List Nat) := do (← fileNameShown (← parse (← shown name))).string

set_option maxRecDepth 1000000 in
theorem named_fields : (showFile (namedFile "my notes.txt") none none false none true (fun _ => false)).all (fun x =>
    decide (x.2.data = .metadata [.fnm "my notes.txt", .fsz 5])) = true := by
  decide +kernel

theorem named_plain : ∀ x ∈ showFile (namedFile "my notes.txt") none none false none true (fun _ => false), NamesPlain x.2 := by
  intro x hx ms hms m hm
  have := List.all_eq_true.1 named_fields x hx
  rw [decide_eq_true_eq, hms] at this
  cases this
  simp only [List.mem_cons, List.not_mem_nil, or_false] at hm
  rcases hm with rfl | rfl
  · exact ⟨⟨by decide, by decide, by decide, by decide⟩, by decide, by decide, by decide, by decide, not_odd (by decide)⟩
  · trivial

set_option maxRecDepth 1000000 in
example : ∃ text, shown "my notes.txt" = some text ∧ (∃ v, parse text = some v) ∧ nameShown "my notes.txt" = some (key "my notes.txt") := by
  have hl : (namedFile "my notes.txt").length < 2 ^ 63 := by decide +kernel
  obtain ⟨text, h1, h2⟩ := C39_show_partial (fun _ => none) (fun _ => none) (by simp [PlainDates]) _ hl none none false none true
    (fun _ => false) named_plain
  refine ⟨text, h1, ⟨_, h2⟩, ?_⟩
  decide +kernel

/-! ### What does not hold -/

set_option maxRecDepth 1000000 in
/-- **C39 is violated.** A file name that ends with a backslash, or contains a line break, makes the output something that is not JSON:
only quotation marks are escaped.  A name like `007` or `+5` is printed as a number, which is not a JSON number. -/
theorem C39_not_json_violated : ∀ name ∈ ["a\\", "a\nb", "007", "+5"], (shown name).map (fun text => (parse text).isNone) = some true := by
  decide +kernel

set_option maxRecDepth 1000000 in
/-- **C39 is violated.** The file name `12` is shown as a number, `null` as if no name were recorded; spaces around a name and characters
from the end of a name that is not ASCII are lost. -/
theorem C39_changed_violated :
    (((shown "12").bind parse).bind fileNameShown).bind Val.number = some "12".toList ∧
    (((shown "null").bind parse).bind fileNameShown).map Val.isNull = some true ∧
    nameShown " a " = some (key "a") ∧ nameShown "日本.txt" = some (key "日本") := by
  decide +kernel

set_option maxRecDepth 1000000 in
/-- **C39 is violated.** On some names that are not ASCII the program panics: positions counted in characters are used as positions
in bytes. -/
theorem C39_panic_violated : shown "é" = none := by
  decide +kernel

/-- A field among the elements of an array. -/
def strayField (x : Str) : Str := '"' :: ("error".toList ++ '"' :: ':' :: x)

theorem elements_stray (fuel : Nat) (x : Str) : elements fuel (strayField x) = none := by
  cases fuel with
  | zero => rw [elements]
  | succ fuel =>
    rw [elements]
    cases fuel with
    | zero => rw [value]; rfl
    | succ fuel =>
      have h : value (fuel + 1) (strayField x) = some (.str (codes "error".toList), ':' :: x) := by
        unfold strayField
        rw [value_str, show "error".toList = escapeQuotes "error".toList from rfl, stringRest_escaped _ _ (by decide)]
        rfl
      simp only [Option.bind_eq_bind, h, Option.bind_some]
      rw [skip_cons (by decide)]
      rfl

theorem elements_error (x : Str) : ∀ (it : Items) (fuel : Nat), it.Ok .square → it ≠ .nil → need it ≤ fuel →
    elements fuel (itemsText true it ++ ',' :: strayField x) = none
  | .nil, _, _, h, _ => absurd rfl h
  | .field .., _, h, _, _ => absurd h.1 (by simp)
  | .sect n b inner rest, fuel, hok, _, hf => by
    obtain ⟨h1, hn, hi, hrest⟩ := hok
    have hnone : n = none := by
      cases n with
      | none => rfl
      | some l => exact absurd (h1.2 rfl) (by simp)
    subst hnone
    have hf' : 2 + need inner + need rest ≤ fuel := hf
    obtain ⟨fuel, rfl⟩ : ∃ k, fuel = k + 2 := ⟨fuel - 2, by omega⟩
    have e : itemsText true (.sect none b inner rest) ++ ',' :: strayField x =
        b.openChar :: '\n' :: (itemsText true inner ++ b.closeChar :: ('\n' :: (itemsText false rest ++ ',' :: strayField x))) := by
      simp [itemsText, nameText]
    rw [e, elements]
    simp only [Option.bind_eq_bind, value_sect (readsBack inner) hi (fuel := fuel) (by omega), Option.bind_some, skip_newline]
    by_cases hne : rest = .nil
    · subst hne
      rw [show itemsText false .nil ++ ',' :: strayField x = ',' :: strayField x from rfl, skip_cons (by decide)]
      simp only
      rw [show skip (strayField x) = strayField x from skip_cons (by decide) _, elements_stray]
      rfl
    · rw [text_true hne, List.cons_append, skip_cons (by decide)]
      obtain ⟨b, q, hq⟩ := text_square hne hrest
      have hs : skip (itemsText true rest ++ ',' :: strayField x) = itemsText true rest ++ ',' :: strayField x := by
        rw [hq]; exact skip_cons (isWs_open b) _
      simp only [hs, elements_error x rest (fuel + 1) hrest hne (by omega)]
      rfl

theorem array_error (x : Str) (it : Items) (hok : it.Ok .square) (fuel : Nat) (hf : need it ≤ fuel) :
    value (fuel + 1) ('[' :: '\n' :: (itemsText true it ++ ((if flag true it then [] else [',']) ++ strayField x))) = none := by
  by_cases hne : it = .nil
  · subst hne
    show value (fuel + 1) ('[' :: '\n' :: strayField x) = none
    rw [value_square_cons (c := '"') (by rw [skip_newline]; exact skip_cons (by decide) _) (by decide)]
    have := elements_stray fuel x
    unfold strayField at this
    rw [this]
    rfl
  · have hfl : flag true it = false := by
      cases it with
      | nil => exact absurd rfl hne
      | field => rfl
      | sect => rfl
    have := elements_error x it fuel hok hne hf
    obtain ⟨b, s, hs⟩ := text_square hne hok
    rw [hfl, if_neg (by simp), List.cons_append, List.nil_append]
    rw [hs] at this ⊢
    rw [value_square_cons (c := b.openChar) (t := s ++ ',' :: strayField x) (by rw [skip_newline]; exact skip_cons (isWs_open b) _)
      (by cases b <;> decide)]
    rw [List.cons_append] at this
    rw [this]
    rfl

theorem members_none {l : Label} (hl : l.Ok) {fuel : Nat} {t : Str} (hskip : skip t = t) (hv : value fuel t = none) :
    members (fuel + 1) (nameText (some l) ++ t) = none := by
  have e : nameText (some l) ++ t = '"' :: (l.key ++ '"' :: ':' :: ' ' :: t) := by simp [nameText]
  rw [e, members]
  simp only [Option.bind_eq_bind, key_codes hl, Option.bind_some]
  rw [skip_cons (by decide)]
  simp only [skip_space, hskip, hv, Option.bind_none]

/-- **C39 is violated.** If reading fails during the scan, the output is not JSON: the error is printed into the array of blocks, and
the outer bracket is not closed.  Whatever the blocks shown before and the error message are. -/
theorem C39_read_error_violated (utc loc : Int64 → Option Str) (hd : PlainDates utc loc) (l : List (Nat × Block)) (err : Str)
    (hl : l.length < 2 ^ 64) (h : ∀ x ∈ l, x.1 < 2 ^ 64 ∧ x.2.blockType = .metadata ∧ NamesPlain x.2) :
    ∃ text, showJsonErr utc loc l err = some text ∧ parse text = none := by
  obtain ⟨it, h1, h2, -⟩ := blocks_doc hd l 0 (by omega) h
  obtain ⟨x, hx⟩ : ∃ x, ∀ first, fieldText "error".toList err false first = some ((if first then [] else [',']) ++ strayField x) :=
    ⟨' ' :: ((if skipQuotes false err then escapeQuotes err else '"' :: escapeQuotes err ++ ['"']) ++ ['\n']), by
      intro first
      unfold fieldText
      rw [show toCamelcase "error".toList = some "error".toList from by decide]
      simp [strayField]⟩
  refine ⟨"{\n".toList ++ (nameText (some (lab "blocks" [])) ++
    ('[' :: '\n' :: (itemsText true it ++ ((if flag true it then [] else [',']) ++ strayField (x ++ "]\n".toList))))), ?_, ?_⟩
  · unfold showJsonErr
    rw [h2]
    simp only [Option.bind_eq_bind, Option.bind_some]
    have hrun : Printer.run .new (.openB none .curly :: .openB (some "blocks".toList) .square :: it.calls) =
        some ⟨⟨flag true it, .square⟩ :: ⟨false, .curly⟩ :: [], "{\n\"blocks\": [\n".toList ++ itemsText true it⟩ := by
      rw [run_cons]
      show Printer.run _ _ = _
      rw [run_cons]
      exact run_items it .square true _ _ h1
    rw [hrun]
    simp only [Option.bind_some, Printer.exitErr, Option.bind_eq_bind, hx]
    unfold Printer.closeBracket
    simp only [Option.bind_some]
    congr 1
    simp [nameText, strayField]
    rfl
  · unfold JsonSpec.parse
    rw [show ("{\n".toList : Str) = '{' :: ['\n'] from rfl]
    generalize hX : nameText (some (lab "blocks" [])) ++
      ('[' :: '\n' :: (itemsText true it ++ ((if flag true it then [] else [',']) ++ strayField (x ++ "]\n".toList)))) = X
    have hlen : need it + 2 ≤ X.length := by
      have := need_le it true
      rw [← hX]
      simp only [List.length_cons, List.length_append]
      omega
    have hXq : ∃ Y, X = '"' :: Y := by
      rw [← hX]; exact ⟨_, rfl⟩
    obtain ⟨Y, hY⟩ := hXq
    rw [show ['{', '\n'] ++ X = '{' :: '\n' :: X from rfl, skip_cons (by decide)]
    rw [value_curly_cons (c := '"') (t := Y) (by rw [skip_newline, hY]; exact skip_cons (by decide) _) (by decide), ← hY]
    obtain ⟨k, hk⟩ : ∃ k, ('{' :: '\n' :: X).length = k + 2 ∧ need it ≤ k := ⟨X.length, rfl, by omega⟩
    rw [hk.1, ← hX, members_none (lab_ok (by decide)) (skip_cons (by decide) _) (array_error _ it h1 k hk.2)]
    rfl

example : ∃ text, showJsonErr (fun _ => none) (fun _ => none)
    (showFile (namedFile "my notes.txt") none none false none true (fun _ => false)) "Input/output error".toList = some text ∧
      parse text = none := by
  have hl : (namedFile "my notes.txt").length < 2 ^ 63 := by decide +kernel
  obtain ⟨hb, hn⟩ := showFile_bounds (namedFile "my notes.txt") none none false none true (fun _ => false)
  exact C39_read_error_violated _ _ (by simp [PlainDates]) _ _ (by omega)
    (fun x hx => ⟨by have := (hb x hx).1; omega, (hb x hx).2, named_plain x hx⟩)

end Verif.Json
