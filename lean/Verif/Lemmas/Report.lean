import Verif.Spec.Report
import Verif.Props.Json
/-!
# Lemmas on the JSON output of the commands
-/

namespace Verif.Report
open Json JsonSpec Scan Misc Layout

/-! ### Documents -/

/-- One document behind another. -/
def cat : Items → Items → Items
  | .nil, y => y
  | .field b l a f v rest, y => .field b l a f v (cat rest y)
  | .sect n b inner rest, y => .sect n b inner (cat rest y)

theorem cat_ok {br : Bracket} : ∀ {x y : Items}, x.Ok br → y.Ok br → (cat x y).Ok br
  | .nil, _, _, hy => hy
  | .field .., _, ⟨h1, h2, h3, h4, h5⟩, hy => ⟨h1, h2, h3, h4, cat_ok h5 hy⟩
  | .sect .., _, ⟨h1, h2, h3, h4⟩, hy => ⟨h1, h2, h3, cat_ok h4 hy⟩

theorem cat_calls : ∀ (x y : Items), (cat x y).calls = x.calls ++ y.calls
  | .nil, _ => rfl
  | .field b l a f v rest, y => by simp only [cat, Items.calls, cat_calls rest y, List.cons_append]
  | .sect n b inner rest, y => by simp only [cat, Items.calls, cat_calls rest y, List.cons_append, List.append_assoc]

theorem cat_members : ∀ (x y : Items), (cat x y).members = x.members ++ y.members
  | .nil, _ => rfl
  | .field b l a f v rest, y => by simp only [cat, Items.members, cat_members rest y, List.cons_append]
  | .sect n b inner rest, y => by simp only [cat, Items.members, cat_members rest y, List.cons_append]

/-- Calls that print members. -/
def Doc (b : Bracket) (cs : List Call) (ms : Members) : Prop := ∃ it : Items, it.Ok b ∧ it.calls = cs ∧ it.members = ms

theorem Doc.nil {b : Bracket} : Doc b [] [] := ⟨.nil, trivial, rfl, rfl⟩

theorem Doc.append {b : Bracket} {c₁ c₂ : List Call} {m₁ m₂ : Members} (h₁ : Doc b c₁ m₁) (h₂ : Doc b c₂ m₂) : Doc b (c₁ ++ c₂) (m₁ ++ m₂) := by
  obtain ⟨x, hx, rfl, rfl⟩ := h₁
  obtain ⟨y, hy, rfl, rfl⟩ := h₂
  exact ⟨cat x y, cat_ok hx hy, cat_calls x y, cat_members x y⟩

theorem Doc.flatMap {α : Type} {b : Bracket} {f : α → List Call} {g : α → Members} : ∀ (l : List α), (∀ a ∈ l, Doc b (f a) (g a)) →
    Doc b (l.flatMap f) (l.flatMap g)
  | [], _ => Doc.nil
  | a :: l, h => by
    rw [List.flatMap_cons, List.flatMap_cons]
    exact (h a List.mem_cons_self).append (Doc.flatMap l fun x hx => h x (List.mem_cons_of_mem _ hx))

/-! ### Labels -/

/-- A word, its parentheses told apart. -/
def readWord : Str → Word
  | [] => ⟨false, []⟩
  | c :: s => if c = '(' then ⟨true, s.dropLast⟩ else ⟨false, c :: s⟩

/-- A text up to the colon and the space behind it. -/
def readLabel (s : Str) : Nat × Label × Nat :=
  let b := (s.takeWhile (· = ' ')).length
  let body := (s.drop b).reverse.drop 2
  let a := (body.takeWhile (· = ' ')).length
  match splitSpace (body.drop a).reverse with
  | [] => (b, ⟨[], []⟩, a)
  | w :: ws => (b, ⟨w, ws.map readWord⟩, a)

/-- `s` is a label with key `k`. -/
def goodLabel (s k : Str) : Bool :=
  let x := readLabel s
  decide (List.replicate x.1 ' ' ++ x.2.1.text ++ List.replicate x.2.2 ' ' ++ [':', ' '] = s) && !x.2.1.first.isEmpty &&
    x.2.1.first.all wordChar && (x.2.1.rest.all fun w => (!w.paren || !w.chars.isEmpty) && w.chars.all wordChar) &&
    (match x.2.1.rest.getLast? with | some w => !w.chars.isEmpty | none => true) && decide (x.2.1.key = k)

theorem goodLabel_ok {s k : Str} (h : goodLabel s k = true) :
    ∃ (b a : Nat) (l : Label), l.Ok ∧ l.key = k ∧ ∀ v, message b l a v = s ++ v := by
  unfold goodLabel at h
  generalize readLabel s = x at h
  obtain ⟨b, l, a⟩ := x
  simp only [Bool.and_eq_true, decide_eq_true_eq, Bool.not_eq_true', List.isEmpty_eq_false_iff, List.all_eq_true, Bool.or_eq_true] at h
  obtain ⟨⟨⟨⟨⟨h1, h2⟩, h3⟩, h4⟩, h5⟩, h6⟩ := h
  refine ⟨b, a, l, ⟨⟨h2, h3⟩, fun w hw => ⟨fun hp => ?_, (h4 w hw).2⟩, fun w hw => ?_⟩, h6, fun v => ?_⟩
  · rcases (h4 w hw).1 with h | h
    · rw [hp] at h; cases h
    · exact h
  · rw [hw] at h5
    simpa using h5
  · rw [← h1, message]
    simp

theorem Doc.msg {f : Bool} {s : Str} {k : String} {v : Str} {x : Val} (h : goodLabel s k.toList = true) (hv : Good f v x) :
    Doc .curly [.msg f (s ++ v)] [(key k, x)] := by
  obtain ⟨b, a, l, h1, h2, h3⟩ := goodLabel_ok h
  obtain ⟨g1, g2, g3⟩ := hv
  refine ⟨.field b l a f v .nil, ⟨rfl, h1, g1, g2, trivial⟩, ?_, ?_⟩
  · simp only [Items.calls, h3]
  · simp only [Items.members, h2, g3]
    rfl

/-- A field in front of others. -/
theorem Doc.fld {s k : String} {v : Str} {x : Val} {cs : List Call} {ms : Members} (h : goodLabel s.toList k.toList = true)
    (hv : Good false v x) (hr : Doc .curly cs ms) : Doc .curly (fld s v :: cs) ((key k, x) :: ms) :=
  (Doc.msg h hv).append hr

theorem Doc.fldQ {s k : String} {v : Str} {x : Val} {cs : List Call} {ms : Members} (h : goodLabel s.toList k.toList = true)
    (hv : Good true v x) (hr : Doc .curly cs ms) : Doc .curly (fldQ s v :: cs) ((key k, x) :: ms) :=
  (Doc.msg h hv).append hr

/-- The value of a section. -/
def sectValue (b : Bracket) (ms : Members) : Val :=
  match b with
  | .curly => .obj ms
  | .square => .arr (ms.map Prod.snd)

theorem Doc.sect {s k : String} {b : Bracket} {cs : List Call} {ms : Members}
    (h : goodLabel (s.toList ++ [':', ' ']) k.toList = true) (h0 : s.toList.head? ≠ some ' ' ∧ s.toList.getLast? ≠ some ' ') (hi : Doc b cs ms) :
    Doc .curly (Report.sect (some s) b cs) [(key k, sectValue b ms)] := by
  obtain ⟨n, a, l, h1, h2, h3⟩ := goodLabel_ok h
  obtain ⟨it, hok, rfl, rfl⟩ := hi
  have e : l.text = s.toList := by
    have := h3 []
    unfold message at this
    have e1 : List.replicate n ' ' ++ l.text ++ List.replicate a ' ' = s.toList := by
      have h4 : (List.replicate n ' ' ++ l.text ++ List.replicate a ' ') ++ [':', ' '] = s.toList ++ [':', ' '] := by simpa using this
      exact List.append_cancel_right h4
    have hn : n = 0 := by
      cases n with
      | zero => rfl
      | succ n => exact absurd (by rw [← e1]; rfl) h0.1
    have ha : a = 0 := by
      rcases Nat.eq_zero_or_pos a with h | h
      · exact h
      · refine absurd ?_ h0.2
        rw [← e1, List.getLast?_append, List.getLast?_replicate]
        simp [show a ≠ 0 by omega]
    subst hn; subst ha
    simpa using e1
  refine ⟨.sect (some l) b it .nil, ⟨by simp, fun l' hl' => by cases hl'; exact h1, hok, trivial⟩, ?_, ?_⟩
  · simp only [Items.calls, Option.map_some, e, Report.sect]
  · simp only [Items.members, h2]
    cases b <;> rfl

theorem Doc.elem {b : Bracket} {cs : List Call} {ms : Members} (hi : Doc b cs ms) :
    Doc .square (Report.sect none b cs) [([], sectValue b ms)] := by
  obtain ⟨it, hok, rfl, rfl⟩ := hi
  refine ⟨.sect none b it .nil, ⟨by simp, by simp, hok, trivial⟩, ?_, ?_⟩
  · simp only [Items.calls, Option.map_none, Report.sect]
  · simp only [Items.members]
    cases b <;> rfl

/-! ### The whole output -/

theorem exitOk_doc : ∀ {cs : List Call} {ms : Members}, Doc .curly cs ms →
    ∃ p, Printer.run .new (.openB none .curly :: (cs ++ [.close])) = some p ∧ parse p.out = some (.obj ms) := by
  rintro cs ms ⟨it, hok, rfl, rfl⟩
  obtain ⟨p, h1, -, h2⟩ := C39_document_partial it hok
  exact ⟨p, h1, h2⟩

theorem output_ok {before cs : List Call} {m₁ m₂ : Members} (h₁ : Doc .curly before m₁) (h₂ : Doc .curly cs m₂) :
    (output before (.ok cs)).bind parse = some (.obj (m₁ ++ (m₂ ++ [(key "error", .null)]))) := by
  have hd := h₁.append (h₂.append (Doc.msg (f := false) (s := "error : ".toList) (k := "error") (v := nullText) (by decide +kernel) good_null))
  obtain ⟨p, hp, hq⟩ := exitOk_doc hd
  have e : before ++ cs ++ exitOk = before ++ (cs ++ [Call.msg false ("error : ".toList ++ nullText)]) ++ [.close] := by
    simp [exitOk, nullText]
  simp only [output]
  rw [e, hp, Option.map_some, Option.bind_some, hq]

theorem exitErr_eq {p : Printer} {text : Str} (ht : Plain text) :
    p.exitErr text = p.run [.msg false ("error : ".toList ++ text), .close] := by
  have hsp : splitKeyVal ("error : ".toList ++ text) = some ("error".toList, text) := by
    have := splitKeyVal_message (l := lab "error" []) (lab_ok (by decide)) ht 0 1
    exact this
  unfold Printer.exitErr
  rw [run_cons, call_msg]
  unfold Printer.maybeJson
  cases hc : p.contexts with
  | nil => rfl
  | cons x xs =>
    simp only [Option.bind_eq_bind, hsp, Option.bind_some]
    cases fieldText "error".toList text false x.firstItem with
    | none => rfl
    | some t =>
      simp only [Option.bind_some, Option.pure_def]
      rw [run_cons, call_close]
      unfold Printer.closeBracket
      simp only [hc]
      rfl

theorem output_err {before : List Call} {m : Members} (h : Doc .curly before m) {text : Str} (ht : PlainName text) :
    (output before (.err text)).bind parse = some (.obj (m ++ [(key "error", strV text)])) := by
  have hd := h.append (Doc.msg (f := false) (s := "error : ".toList) (k := "error") (by decide +kernel) (good_name ht))
  obtain ⟨p, hp, hq⟩ := exitOk_doc hd
  simp only [output]
  have e : ((Printer.new.run (.openB none .curly :: before)).bind fun p => p.exitErr text) = some p := by
    rw [← hp, List.append_assoc, ← List.cons_append, run_append]
    congr 1
    funext q
    rw [exitErr_eq ht.1]
    rfl
  rw [e, Option.map_some, Option.bind_some, hq]

theorem output_whole {errText : Err → Str} (he : PlainErrors errText) {before : List Call} {m : Members} (h : Doc .curly before m)
    {r : Except Err (List Call)} {q : Except Err Members}
    (hr : match r, q with
      | .ok cs, .ok ms => Doc .curly cs [(key "stats", .obj ms)]
      | .error e, .error e' => e = e'
      | _, _ => False) :
    (output before (endOf errText r)).bind parse = whole errText m q := by
  cases r with
  | ok cs =>
    cases q with
    | error => exact absurd hr (by simp)
    | ok ms => exact output_ok h hr
  | error e =>
    cases q with
    | ok => exact absurd hr (by simp)
    | error e' =>
      simp only at hr
      subst hr
      have hs := output_ok h (Doc.nil (b := .curly))
      cases e with
      | stopped => exact hs
      | panic => rfl
      | noRefBlock => exact output_err h (he _)
      | refNotMeta => exact output_err h (he _)
      | missingField => exact output_err h (he _)
      | guessFailed => exact output_err h (he _)
      | blockError => exact output_err h (he _)
      | tooMuchMetadata => exact output_err h (he _)
      | noSize => exact output_err h (he _)
      | hashMismatch => exact output_err h (he _)
      | other => exact output_err h (he _)

/-! ### Values -/

theorem plainName_of_char {v : Str} (h : Plain v) {c : Char} (hc : c ∈ v) (h1 : c.isDigit = false) (h2 : c ∉ "+nulltrefas".toList) : PlainName v := by
  have hn : ¬ IsNumber v := fun hn => by
    have := hn.2.1 _ hc
    rw [h1] at this; cases this
  have hw : ∀ w : Str, (∀ d ∈ w, d ∈ "+nulltrefas".toList) → v ≠ w := by
    rintro w hw rfl
    exact h2 (hw c hc)
  refine ⟨h, hw _ (by decide), hw _ (by decide), hw _ (by decide), hn, ?_⟩
  rintro (⟨r, rfl, hr⟩ | ⟨r, rfl, -, hr⟩)
  · rcases List.mem_cons.1 hc with rfl | hc
    · exact h2 (by decide)
    · have := hr.2.1 _ hc
      rw [h1] at this; cases this
  · exact hn hr

theorem pad2_eq (n : Int) : pad2 n = twoDigits n := by
  unfold pad2 twoDigits dec
  split
  · rfl
  · split <;> rfl

theorem twoDigits_chars (n : Int) : (∀ c ∈ twoDigits n, c.isDigit = true ∨ c = '-') ∧ twoDigits n ≠ [] := by
  unfold twoDigits
  have hd : ∀ c ∈ Nat.toDigits 10 n.natAbs, c.isDigit = true := fun c hc => Nat.isDigit_of_mem_toDigits (by omega) (by omega) hc
  constructor
  · intro c hc
    rcases List.mem_append.1 hc with h | h
    · split at h
      · exact .inr (by simpa using h)
      · split at h
        · rw [List.mem_singleton.1 h]; exact .inl (by decide)
        · simp at h
    · exact .inl (hd c h)
  · intro h
    exact Nat.toDigits_ne_nil (List.append_eq_nil_iff.1 h).2

theorem timeText_eq (t : Int) : timeText t = clock t := by
  have h1 : t - t.tdiv 3600 * 3600 = t.tmod 3600 := by
    have := Int.mul_tdiv_add_tmod t 3600
    omega
  have h2 : t.tmod 3600 - (t.tmod 3600).tdiv 60 * 60 = t.tmod 60 := by
    have h3 := Int.mul_tdiv_add_tmod (t.tmod 3600) 60
    have h4 : (t.tmod 3600).tmod 60 = t.tmod 60 := Int.tmod_tmod_of_dvd t (by decide)
    omega
  have e : secondsToHms t = (t.tdiv 3600, (t.tmod 3600).tdiv 60, t.tmod 60) := by
    unfold secondsToHms
    have h5 : t - t.tdiv 3600 * 60 * 60 = t.tmod 3600 := by omega
    simp only [show (60 * 60 : Int) = 3600 from rfl, h5, h2]
  unfold timeText clock
  rw [e]
  simp only [pad2_eq, List.append_assoc, List.cons_append, List.nil_append]

theorem good_time (t : Int) : Good false (timeText t) (strV (clock t)) := by
  rw [timeText_eq]
  refine good_name (plainName_of_char (c := ':') ?_ ?_ (by decide) (by decide))
  · unfold clock
    generalize t.tdiv 3600 = a
    generalize (t.tmod 3600).tdiv 60 = b
    generalize t.tmod 60 = c
    have key : ∀ x ∈ twoDigits a ++ [':'] ++ twoDigits b ++ [':'] ++ twoDigits c, x.isDigit = true ∨ x = '-' ∨ x = ':' := by
      intro x hx
      simp only [List.mem_append, List.mem_singleton] at hx
      rcases hx with (((h | h) | h) | h) | h
      · rcases (twoDigits_chars a).1 x h with h | h <;> simp [h]
      · simp [h]
      · rcases (twoDigits_chars b).1 x h with h | h <;> simp [h]
      · simp [h]
      · rcases (twoDigits_chars c).1 x h with h | h <;> simp [h]
    have hsp : ' ' ∉ twoDigits a ++ [':'] ++ twoDigits b ++ [':'] ++ twoDigits c := fun h => by
      rcases key _ h with h | h | h <;> revert h <;> decide
    refine ⟨fun x hx => ?_, by simp, fun h => hsp (List.mem_of_head? h), fun h => hsp (List.mem_of_getLast? h)⟩
    rcases key x hx with h | rfl | rfl
    · obtain ⟨h1, h2, h3, -⟩ := digit_plain h
      exact ⟨h1, h2, h3⟩
    · decide
    · decide
  · unfold clock; simp

theorem hashLabel_eq (t : HashType) : hashName t = hashLabel t := by cases t <;> rfl

theorem good_hashText (h : HashBytes) : Good false (hashText h) (hashV h) := by
  have := good_hash h
  unfold hashV
  rw [← hashLabel_eq, ← lower_eq]
  exact this

theorem good_optHash (h : Option HashBytes) : Good false (optHashText h) (orNull (h.map hashV)) := by
  cases h with
  | none => exact good_null
  | some h => exact good_hashText h

theorem good_uidV (u : Uid) : Good true (ofAscii (upperHex u.bytes)) (uidV u) := by
  have := good_uid u
  rw [upper_eq] at this ⊢
  exact this

theorem good_ver (v : Version) : Good false (dec v.num) (numV v.num) := good_dec (by cases v <;> decide)
theorem good_bsize (v : Version) : Good false (dec v.blockSize) (numV v.blockSize) := good_dec (by cases v <;> decide)
theorem good_dsize (v : Version) : Good false (dec v.dataSize) (numV v.dataSize) := good_dec (by cases v <;> decide)

/-! ### Pieces -/

theorem stats_doc {cs : List Call} {ms : Members} (h : Doc .curly cs ms) : Doc .curly (stats cs) [(key "stats", .obj ms)] :=
  Doc.sect (by decide +kernel) (by decide) h

theorem refCalls_doc (verbose : Bool) {pos : Nat} (hp : pos < 2 ^ 64) (ref : Block) :
    Doc .curly (refCalls verbose (.ok (pos, ref))) (refShown verbose pos ref) := by
  unfold refCalls refShown given
  simp only
  split
  · refine Doc.sect (b := .curly) (by decide +kernel) (by decide) ?_
    refine .fld (by decide +kernel) ?_ (.fld (by decide +kernel) (good_ver _) (.fld (by decide +kernel) (good_dec hp) .nil))
    split
    · exact good_name ⟨⟨by decide, by decide, by decide, by decide⟩, by decide, by decide, by decide, by decide, not_odd (by decide)⟩
    · exact good_name ⟨⟨by decide, by decide, by decide, by decide⟩, by decide, by decide, by decide, by decide, not_odd (by decide)⟩
  · exact Doc.nil

theorem burstCalls_doc {x : Except Err (Option Dpb)} (h : ∀ d, x = .ok (some d) → d.burst < 2 ^ 64) : Doc .curly (burstCalls x) (burstShown x) := by
  match x, h with
  | .ok (some d), h => exact .fld (by decide +kernel) (good_dec (h d rfl)) .nil
  | .ok none, _ => exact Doc.nil
  | .error _, _ => exact Doc.nil

theorem objects_doc {α : Type} {f : α → List Call} {g : α → Members} (l : List α) (h : ∀ a ∈ l, Doc .curly (f a) (g a)) :
    Doc .square (l.flatMap fun a => Report.sect none .curly (f a)) (l.map fun a => ([], .obj (g a))) := by
  have := Doc.flatMap (b := .square) (f := fun a => Report.sect none .curly (f a)) (g := fun a => [([], Val.obj (g a))]) l
    fun a ha => Doc.elem (h a ha)
  have e : ∀ l : List α, l.flatMap (fun a => [(([] : List Nat), Val.obj (g a))]) = l.map fun a => ([], .obj (g a)) := fun l => by
    induction l with
    | nil => rfl
    | cons a l ih => rw [List.flatMap_cons, ih]; rfl
  rwa [e] at this

end Verif.Report
