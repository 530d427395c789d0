import Verif.Lemmas.Date
import Verif.Props.Recorded
/-!
# C76: the dates that are displayed are those recorded
-/

namespace Verif.DateSpec
open Json JsonSpec Date Report

/-- **C76, the calendar.** The first principles determine the date of every day, past and future. -/
theorem C76_calendar : ∃! cal, IsCalendar cal :=
  ⟨calendar, calendar_ok, fun _ h => calendar_unique h calendar_ok⟩

variable {C : Chrono} {cal : Int → Day} {offset : Int64 → Int}

theorem IsAt.reads (hc : IsCalendar cal) {secs : Int} {x : DateTime} (h : IsAt cal secs x) : readDate (format x) = some x := by
  obtain ⟨h1, h2, h3, h4⟩ := hc.valid (secs / 86400)
  rw [← h.date] at h1 h2 h3 h4
  simp only at h1 h2 h3 h4
  have := (monthLen_pos x.year x.month).2
  have := h.hour
  have := h.minute
  have := h.second
  exact readDate_format (by omega) (by omega) (by omega) (by omega) (by omega)

/-- A date and time belongs to one moment. -/
theorem IsAt.unique (hc : IsCalendar cal) {s t : Int} {x : DateTime} (h : IsAt cal s x) (h' : IsAt cal t x) : s = t := by
  have e1 : s / 86400 = t / 86400 := by
    rw [← hc.number (s / 86400), ← h.date, h'.date, hc.number]
  have e2 : s % 86400 = t % 86400 := by rw [← h.time, h'.time]
  omega

/-- **C76.** The text of a time in UTC, read by a human, is the date of the calendar and the time of day of the recorded moment. -/
theorem C76_utc (hC : Promise C cal offset) (t : Int64) (s : Str) (h : dateTimeString C .utc t = some s) :
    ∃ x, readDate s = some x ∧ IsAt cal t.toInt x := by
  unfold dateTimeString at h
  cases hx : C.naive t with
  | none => rw [hx] at h; cases h
  | some x =>
    rw [hx] at h
    simp only [Option.some.injEq] at h
    have := hC.right t x hx
    exact ⟨x, by rw [← h]; exact this.reads hC.calendar, this⟩

/-- **C76.** The text of the local time is that of the same moment with the offset of the time zone. -/
theorem C76_local (hC : Promise C cal offset) (t : Int64) (s : Str) (h : dateTimeString C .loc t = some s) :
    ∃ x, readDate s = some x ∧ IsAt cal (t.toInt + offset t) x := by
  unfold dateTimeString at h
  cases hx : C.naive t with
  | none => rw [hx] at h; cases h
  | some x =>
    rw [hx] at h
    simp only [Option.some.injEq] at h
    have := hC.localTime t x hx
    exact ⟨_, by rw [← h]; exact this.reads hC.calendar, this⟩

/-- **C76.** Different times are displayed differently. -/
theorem C76_distinct (hC : Promise C cal offset) (t t' : Int64) (s : Str) (h : dateTimeString C .utc t = some s)
    (h' : dateTimeString C .utc t' = some s) : t = t' := by
  obtain ⟨x, h1, h2⟩ := C76_utc hC t s h
  obtain ⟨x', h1', h2'⟩ := C76_utc hC t' s h'
  rw [h1] at h1'
  cases h1'
  exact Int64.toInt_inj.1 (h2.unique hC.calendar h2')

/-- **C76.** What `show`, `update --verbose` and `encode --info-only` print for a recorded time: both texts, if the year is between -262143 and
262142; otherwise both texts or a message, never something else. -/
theorem C76_shown (hC : Promise C cal offset) (t : Int64) :
    (∃ u l x y, dateText (dateTimeString C .utc) (dateTimeString C .loc) t = u ++ " (UTC)  ".toList ++ l ++ " (Local)".toList ∧
      readDate u = some x ∧ IsAt cal t.toInt x ∧ readDate l = some y ∧ IsAt cal (t.toInt + offset t) y) ∨
    dateText (dateTimeString C .utc) (dateTimeString C .loc) t = "Invalid recorded date time".toList ∧
      ((cal (t.toInt / 86400)).year < -262143 ∨ 262142 < (cal (t.toInt / 86400)).year) := by
  cases hx : C.naive t with
  | none =>
    right
    have e : ∀ m, dateTimeString C m t = none := by intro m; unfold dateTimeString; rw [hx]
    constructor
    · unfold dateText; rw [e, e]
    · by_contra hn
      exact hC.total t (by omega) (by omega) hx
  | some x =>
    left
    have e1 : dateTimeString C .utc t = some (format x) := by unfold dateTimeString; rw [hx]
    have e2 : dateTimeString C .loc t = some (format (C.toLocal x)) := by unfold dateTimeString; rw [hx]
    refine ⟨format x, format (C.toLocal x), x, C.toLocal x, ?_, (hC.right t x hx).reads hC.calendar, hC.right t x hx,
      (hC.localTime t x hx).reads hC.calendar, hC.localTime t x hx⟩
    unfold dateText
    rw [e1, e2]

theorem isDigit_plain {c : Char} (h : c.isDigit = true) : 0x20 ≤ c.toNat ∧ c.toNat < 0x7F ∧ c ≠ '\\' ∧ c ≠ ' ' := by
  have : 48 ≤ c.toNat ∧ c.toNat ≤ 57 := by
    unfold Char.isDigit at h
    simp only [Bool.and_eq_true, decide_eq_true_eq] at h
    exact ⟨h.1, h.2⟩
  refine ⟨by omega, by omega, ?_, ?_⟩ <;> rintro rfl <;> revert this <;> decide

theorem format_plain {x : DateTime} : Plain (format x) := by
  have hi : ∀ c ∈ intText x.year, c.isDigit = true ∨ c = '-' := by
    intro c hc
    unfold intText at hc
    have hd : ∀ c ∈ dec x.year.natAbs, c.isDigit = true := fun c hc => Nat.isDigit_of_mem_toDigits (by omega) (by omega) hc
    split at hc
    · rcases List.mem_cons.1 hc with h | h
      · exact .inr h
      · exact .inl (hd c h)
    · exact .inl (hd c hc)
  have hp : ∀ (n : Int) c, c ∈ pad2 n → c.isDigit = true ∨ c = '-' := by
    intro n c hc; rw [pad2_eq] at hc; exact (twoDigits_chars n).1 c hc
  have hall : ∀ c ∈ format x, c.isDigit = true ∨ c = '-' ∨ c = ':' ∨ c = ' ' := by
    intro c hc
    unfold format at hc
    simp only [List.mem_append, List.mem_cons] at hc
    rcases hc with h | h | h | h | h | h | h | h | h | h | h
    · rcases hi c h with h | h <;> simp [h]
    · simp [h]
    · rcases hp _ c h with h | h <;> simp [h]
    · simp [h]
    · rcases hp _ c h with h | h <;> simp [h]
    · simp [h]
    · rcases hp _ c h with h | h <;> simp [h]
    · simp [h]
    · rcases hp _ c h with h | h <;> simp [h]
    · simp [h]
    · rcases hp _ c h with h | h <;> simp [h]
  have hsp : ∀ c, (c.isDigit = true ∨ c = '-') → c ≠ ' ' := by
    intro c h
    rcases h with h | h
    · exact (isDigit_plain h).2.2.2
    · rw [h]; decide
  have hne : intText x.year ≠ [] := by
    unfold intText dec
    split
    · simp
    · exact Nat.toDigits_ne_nil
  have hpne : ∀ n : Int, pad2 n ≠ [] := by intro n; rw [pad2_eq]; exact (twoDigits_chars n).2
  refine ⟨?_, ?_, ?_, ?_⟩
  · intro c hc
    rcases hall c hc with h | rfl | rfl | rfl
    · exact ⟨(isDigit_plain h).1, (isDigit_plain h).2.1, (isDigit_plain h).2.2.1⟩
    all_goals decide
  · unfold format
    simp
  · unfold format
    cases h : intText x.year with
    | nil => exact absurd h hne
    | cons c r =>
      rw [List.cons_append, List.head?_cons]
      intro he
      exact hsp c (hi c (by rw [h]; exact List.mem_cons_self)) (Option.some.inj he)
  · have : format x = (intText x.year ++ '-' :: (pad2 x.month ++ '-' :: (pad2 x.day ++ ' ' :: (pad2 x.hour ++ ':' :: (pad2 x.minute ++ [':']))))) ++
        pad2 x.second := by
      unfold format
      simp only [List.append_assoc, List.cons_append, List.nil_append]
    rw [this, List.getLast?_append_of_ne_nil _ (hpne _)]
    intro he
    exact hsp _ (hp _ _ (List.mem_of_getLast? he)) rfl

/-- **C76.** The texts are plain, as the theorems about the JSON output (C39, C54, C60) assume. -/
theorem C76_plain (C : Chrono) : PlainDates (dateTimeString C .utc) (dateTimeString C .loc) := by
  have key : ∀ m t s, dateTimeString C m t = some s → Plain s := by
    intro m t s h
    unfold dateTimeString at h
    split at h
    · cases h
    · split at h <;> · cases h; exact format_plain
  intro t s h
  rcases h with h | h <;> exact key _ t s h

/-- `s` consists of two texts, which a reader understands as the moment `t` in UTC and in local time. -/
def Says (cal : Int → Day) (offset : Int64 → Int) (t : Int64) (s : Str) : Prop :=
  ∃ u l x y, s = u ++ " (UTC)  ".toList ++ l ++ " (Local)".toList ∧ readDate u = some x ∧ IsAt cal t.toInt x ∧
    readDate l = some y ∧ IsAt cal (t.toInt + offset t) y

/-- Years that chrono can handle. -/
def Usual (cal : Int → Day) (t : Int64) : Prop := -262143 ≤ (cal (t.toInt / 86400)).year ∧ (cal (t.toInt / 86400)).year ≤ 262142

theorem shown_says (hC : Promise C cal offset) {t : Int64} (h : Usual cal t) :
    Says cal offset t (dateShown (dateTimeString C .utc t) (dateTimeString C .loc t)) := by
  cases hx : C.naive t with
  | none => exact absurd hx (hC.total t h.1 h.2)
  | some x =>
    have e1 : dateTimeString C .utc t = some (format x) := by unfold dateTimeString; rw [hx]
    have e2 : dateTimeString C .loc t = some (format (C.toLocal x)) := by unfold dateTimeString; rw [hx]
    refine ⟨format x, format (C.toLocal x), x, C.toLocal x, ?_, (hC.right t x hx).reads hC.calendar, hC.right t x hx,
      (hC.localTime t x hx).reads hC.calendar, hC.localTime t x hx⟩
    rw [e1, e2]
    rfl

/-- The value of a field of the first block in the JSON output of `show`. -/
def fieldShown (v : Val) (name : String) : Option Val := ((v.member "blocks").bind Val.first).bind (Val.member name)

/-- **C76.** `show --json` of a container tells when it was made and when the file was last changed. -/
theorem C76_show (hC : Promise C cal offset) (E : Encode.Env) (p : Encode.Param) (hE : E.Ok p) (hok : p.Ok) (inp : Encode.Input)
    (hn : Encode.NamesOk p inp) (d : Disk) (rep : Encode.Report)
    (h : Encode.encodeFile E p inp = (d, .ok rep)) (hme : p.metaEnabled = true)
    (hnames : PlainName p.sbxName.toList ∧ ∀ n t, inp.file = some (n, t) → PlainName n.toList) (hf : d.file.length < 2 ^ 63)
    (stop : Nat → Bool) (hstop : ∀ k, stop k = false) (hu : Usual cal E.startTime) :
    ∃ text v, showJson (dateTimeString C .utc) (dateTimeString C .loc) d.file none none false none false stop = some text ∧
      parse text = some v ∧
      (∃ s, fieldShown v "sbxEncodingTime" = some (strV s) ∧ Says cal offset E.startTime s) ∧
      ∀ n t, inp.file = some (n, some t) → Usual cal t → ∃ s, fieldShown v "fileModificationTime" = some (strV s) ∧ Says cal offset t s := by
  obtain ⟨stored, hh, -⟩ := Encode.C24_recorded E p hE hok inp hn d rep h
  obtain ⟨⟨text, h1, h2⟩, -⟩ := Encode.C54_show E p hE hok inp hn d rep h hme stored hh (dateTimeString C .utc) (dateTimeString C .loc)
    ⟨hnames.1, hnames.2, C76_plain C⟩ hf none (.inl rfl) stop hstop
  refine ⟨text, _, h1, h2, ⟨_, rfl, shown_says hC hu⟩, ?_⟩
  intro n t hi ht
  refine ⟨dateShown (dateTimeString C .utc t) (dateTimeString C .loc t), ?_, shown_says hC ht⟩
  have : (Encode.about E p inp stored).modified = some t := by unfold Encode.about; rw [hi]; rfl
  show some (orNull ((Encode.about E p inp stored).modified.map _)) = _
  rw [this]
  rfl

/-! ### Instances -/

/-- The date and time of a moment. -/
def ofSecs (s : Int) : DateTime :=
  ⟨(calendar (s / 86400)).year, (calendar (s / 86400)).month, (calendar (s / 86400)).day,
    (s % 86400 / 3600).toNat, (s % 3600 / 60).toNat, (s % 60).toNat⟩

theorem ofSecs_at (s : Int) : IsAt calendar s (ofSecs s) where
  date := rfl
  time := by unfold ofSecs; simp only; omega
  hour := by unfold ofSecs; simp only; omega
  minute := by unfold ofSecs; simp only; omega
  second := by unfold ofSecs; simp only; omega

/-- One hour east of Greenwich. -/
def demoChrono : Chrono where
  naive t := some (ofSecs t.toInt)
  toLocal x := ofSecs ((⟨x.year, x.month, x.day⟩ : Day).number * 86400 + x.hour * 3600 + x.minute * 60 + x.second + 3600)

theorem demo_promise : Promise demoChrono calendar fun _ => 3600 where
  calendar := calendar_ok
  right t x h := by
    cases h
    exact ofSecs_at _
  total t _ _ := by simp [demoChrono]
  localTime t x h := by
    cases h
    have h := ofSecs_at t.toInt
    have e : (⟨(ofSecs t.toInt).year, (ofSecs t.toInt).month, (ofSecs t.toInt).day⟩ : Day).number * 86400 + (ofSecs t.toInt).hour * 3600 +
        (ofSecs t.toInt).minute * 60 + (ofSecs t.toInt).second = t.toInt := by
      rw [h.date, calendar_ok.number]
      have := h.time
      omega
    unfold demoChrono
    simp only
    rw [e]
    exact ofSecs_at _

/-- A leap day, and a moment before 1970. -/
example : dateTimeString demoChrono .utc 68169600 = some "1972-02-29 00:00:00".toList ∧
    dateTimeString demoChrono .loc 68169600 = some "1972-02-29 01:00:00".toList ∧
    dateTimeString demoChrono .utc (-1) = some "1969-12-31 23:59:59".toList := by
  decide +kernel

example : ∃ x, readDate "1972-02-29 01:00:00".toList = some x ∧ IsAt calendar (68169600 + 3600) x :=
  C76_local demo_promise 68169600 _ (by decide +kernel)

example : readDate "-5-03-01 00:00:07".toList = some ⟨-5, 3, 1, 0, 0, 7⟩ := by decide +kernel

open Encode Format LayoutSpec ContainerSpec in
example : ∃ d rep text v s, encodeFile (demoEnv fun _ => false) (demoParam .v17 (some ⟨10, 2, 0⟩) none)
      ⟨List.replicate 1000 7, some ("a.txt", some 5)⟩ = (d, .ok rep) ∧
    showJson (dateTimeString demoChrono .utc) (dateTimeString demoChrono .loc) d.file none none false none false (fun _ => false) = some text ∧
    parse text = some v ∧ fieldShown v "fileModificationTime" = some (strV s) ∧ Says calendar (fun _ => 3600) 5 s := by
  obtain ⟨h1, h2⟩ := demo_ok (v := .v17) (dpb := some ⟨10, 2, 0⟩) none rfl (by simp) (fun _ => false)
  obtain ⟨d, rep, h⟩ := C24_succeeds _ _ h2 h1 ⟨List.replicate 1000 7, some ("a.txt", some 5)⟩ (by
    intro mx hmx
    rw [maxSize_eq h1] at hmx
    cases hmx
    decide +kernel) (by intro _; decide +kernel)
  have hn : NamesOk (demoParam .v17 (some ⟨10, 2, 0⟩) none) ⟨List.replicate 1000 7, some ("a.txt", some 5)⟩ := by
    refine ⟨by decide +kernel, ?_⟩
    intro n t ht
    simp only [Option.some.injEq, Prod.mk.injEq] at ht
    rw [← ht.1]
    decide +kernel
  have hh := C24_whole_input _ _ h2 h1 _ hn d rep (.inr ⟨rfl, rfl⟩) (fun _ => rfl) h
  have hlen : d.file.length < 2 ^ 63 := by
    obtain ⟨mb, hc, -⟩ := hh.container
    obtain ⟨n, hl⟩ := hc.aligned
    rcases n with _ | n
    · omega
    · have hb : blockLen (demoParam .v17 (some ⟨10, 2, 0⟩) none).version = 512 := rfl
      rw [hb] at hl
      rcases hc.tight n (by rw [hl, hb]; omega) with hk | ⟨i, hi, hk⟩
      · have : n ∈ [0, 1, 2] := hk
        simp only [List.mem_cons, List.not_mem_nil, or_false] at this
        omega
      · have hl12 : (payloads (demoEnv fun _ => false).rs .v17 (some ⟨10, 2, 0⟩) (fileChunks .v17 (List.replicate 1000 7))).length = 12 := by
          decide +kernel
        have : ∀ i < 12, Layout.dataWriteIndex (i + 1) (some true) (some ⟨10, 2, 0⟩) < 100 := by decide +kernel
        have := this i (by rw [← hl12]; exact hi)
        have e : Layout.dataWriteIndex (i + 1) (some true) (some ⟨10, 2, 0⟩) = n := hk
        omega
  obtain ⟨text, v, a1, a2, -, a4⟩ := C76_show demo_promise _ _ h2 h1 _ hn d rep h rfl (by
    refine ⟨?_, ?_⟩
    · exact ⟨⟨by decide, by decide, by decide, by decide⟩, by decide, by decide, by decide, by decide, not_odd (by decide)⟩
    · intro n t ht
      simp only [Option.some.injEq, Prod.mk.injEq] at ht
      rw [← ht.1]
      exact ⟨⟨by decide, by decide, by decide, by decide⟩, by decide, by decide, by decide, by decide, not_odd (by decide)⟩)
    hlen (fun _ => false) (fun _ => rfl) (by unfold Usual; decide +kernel)
  obtain ⟨s, b1, b2⟩ := a4 "a.txt" 5 rfl (by unfold Usual; decide +kernel)
  exact ⟨d, rep, text, v, s, h, a1, a2, b1, b2⟩

end Verif.DateSpec
