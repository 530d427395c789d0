import Verif.Model.ProgressText
import Verif.Spec.Terminal
import Verif.Props.Progress
import Verif.Lemmas.JsonParse
import Verif.Lemmas.Show
/-!
# C64: what progress reports look like
-/

namespace Verif.Progress
open Json Report Terminal

/-! ### Specification -/

/-- A text without control characters, all in ASCII. -/
def Printable (s : Str) : Prop := ∀ c ∈ s, 0x20 ≤ c.toNat ∧ c.toNat < 0x7f

/-- The texts of rates are printable. -/
def Times.Printable (t : Times) : Prop := Progress.Printable t.cur ∧ Progress.Printable t.avg

/-- So are header, unit and counts. -/
def Words.Printable (w : Words) : Prop := Progress.Printable w.header ∧ Progress.Printable w.unit ∧ ∀ n, Progress.Printable (w.big n)

/-- The text that belongs to an event. -/
def Out.text (w : Words) (t : Times) : Out → Str
  | .report .header => w.header
  | .report (.line units diff percent) => activeMessage w t units diff percent
  | .report (.finish units) => finishMessage w t units
  | .report (.object units total) => objectText w t units total
  | .report .erase => []
  | .say text => text

/-- Does the event end the line? -/
def Out.ends : Out → Bool
  | .report (.line _ _ _) => false
  | .report .erase => false
  | _ => true

/-- What should be seen: each report takes the place of the one before, the lines that are finished stay. -/
def expected (w : Words) (clock : Nat → Times) : (k : Nat) → List Str × Str → List Out → List Str × Str
  | _, seen, [] => seen
  | k, (above, _), o :: os =>
    expected w clock (k + 1)
      (if o.ends then (above ++ [o.text w (clock k)], []) else (above, o.text w (clock k))) os

/-- Whole lines are printed only when no line of progress is to be seen (`free`). -/
def Orderly : (free : Bool) → List Out → Prop
  | _, [] => True
  | _, .report (.line _ _ _) :: os => Orderly false os
  | _, .report (.finish _) :: os => Orderly true os
  | _, .report .erase :: os => Orderly true os
  | free, _ :: os => free = true ∧ Orderly true os

/-! ### Proofs -/

theorem Printable.append {a b : Str} (ha : Printable a) (hb : Printable b) : Printable (a ++ b) := by
  intro c hc
  rcases List.mem_append.1 hc with h | h
  · exact ha c h
  · exact hb c h

theorem printable_blanks (n : Nat) : Printable (List.replicate n ' ') := by
  intro c hc
  rw [(List.mem_replicate.1 hc).2]
  decide

theorem printable_byteLen {s : Str} (h : Printable s) : byteLen s = s.length :=
  byteLen_ascii fun c hc => ascii_of_lt (by have := h c hc; omega)

theorem put_printable {s : Screen} {c : Char} (h : 0x20 ≤ c.toNat) (hcol : s.col ≤ s.line.length) :
    s.put c = ⟨s.above, s.line.take s.col ++ c :: s.line.drop (s.col + 1), s.col + 1⟩ := by
  unfold Screen.put
  rw [if_neg (by rintro rfl; exact absurd h (by decide)), if_neg (by rintro rfl; exact absurd h (by decide)), Nat.sub_eq_zero_of_le hcol]
  simp

theorem puts_printable : ∀ (x : Str) (s : Screen), Printable x → s.col ≤ s.line.length →
    s.puts x = ⟨s.above, s.line.take s.col ++ x ++ s.line.drop (s.col + x.length), s.col + x.length⟩
  | [], s, _, _ => by simp [Screen.puts]
  | c :: x, s, hx, hcol => by
    have hc := hx c List.mem_cons_self
    rw [Screen.puts, List.foldl_cons, put_printable hc.1 hcol]
    have hlen : (s.line.take s.col).length = s.col := by rw [List.length_take]; omega
    have := puts_printable x ⟨s.above, s.line.take s.col ++ c :: s.line.drop (s.col + 1), s.col + 1⟩
      (fun d hd => hx d (List.mem_cons_of_mem _ hd)) (by simp [hlen])
    rw [Screen.puts] at this
    rw [this]
    simp only [Screen.mk.injEq, true_and, List.length_cons]
    refine ⟨?_, by omega⟩
    have e1 : ∀ (A B : Str), A.length = s.col → (A ++ c :: B).take (s.col + 1) = A ++ [c] := by
      rintro A B hA
      rw [← hA, List.take_length_add_append]
      rfl
    have e2 : ∀ (A B : Str), A.length = s.col → (A ++ c :: B).drop (s.col + 1 + x.length) = B.drop x.length := by
      rintro A B hA
      rw [← hA, Nat.add_assoc, List.drop_length_add_append, Nat.add_comm 1, List.drop_succ_cons]
    rw [e1 _ _ hlen, e2 _ _ hlen, List.drop_drop]
    simp [show s.col + 1 + x.length = s.col + (x.length + 1) by omega]

theorem puts_append (s : Screen) (a b : Str) : s.puts (a ++ b) = (s.puts a).puts b := by simp [Screen.puts]

theorem puts_return (s : Screen) (x : Str) : s.puts ('\r' :: x) = ({ s with col := 0 } : Screen).puts x := by
  simp [Screen.puts, Screen.put]

theorem puts_newline (s : Screen) : s.puts ['\n'] = ⟨s.above ++ [s.line], [], 0⟩ := by
  simp [Screen.puts, Screen.put]

theorem dec_printable (n : Nat) : Printable (dec n) := by
  intro c hc
  have := digit_facts (Nat.isDigit_of_mem_toDigits (by decide) (by decide) hc)
  omega

theorem pad2_printable (n : Int) : Printable (pad2 n) := by
  unfold pad2
  split
  · exact Printable.append (a := ['-']) (by intro c hc; rw [List.mem_singleton.1 hc]; decide) (dec_printable _)
  · split
    · exact Printable.append (a := ['0']) (by intro c hc; rw [List.mem_singleton.1 hc]; decide) (dec_printable _)
    · exact dec_printable _

theorem time_printable (t : Int) : Printable (timeText t) := by
  have colon : Printable [':'] := by intro c hc; rw [List.mem_singleton.1 hc]; decide
  exact (pad2_printable _).append (colon.append ((pad2_printable _).append (colon.append (pad2_printable _))))

instance (s : Str) : Decidable (Printable s) := by unfold Printable; infer_instance

theorem bar_printable (p : Nat) : Printable (makeProgressBar p) := by
  intro c hc
  simp only [makeProgressBar, List.cons_append, List.mem_cons, List.mem_append, List.mem_replicate, List.not_mem_nil, or_false] at hc
  rcases hc with rfl | (⟨-, rfl⟩ | ⟨-, rfl⟩) | rfl <;> decide

theorem count_printable {w : Words} (h : w.Printable) (n : Nat) : Printable (readableCount w n) := by
  unfold readableCount
  refine Printable.append (Printable.append ?_ (by decide)) h.2.1
  split
  · exact (printable_blanks _).append (dec_printable n)
  · exact h.2.2 n

theorem active_printable {w : Words} (hw : w.Printable) {t : Times} (h : t.Printable) (units diff : Nat) (percent : Option Nat) :
    Printable (activeMessage w t units diff percent) := by
  unfold activeMessage
  refine Printable.append (Printable.append (Printable.append (Printable.append (Printable.append (Printable.append
    (Printable.append (Printable.append ?_ (count_printable hw units)) (by decide)) ?_) (by decide)) (time_printable _)) (by decide)) ?_) (by decide)
  · cases percent with
    | none => intro c hc; cases hc
    | some p =>
      exact Printable.append (Printable.append (Printable.append (bar_printable p) (by decide)) ((printable_blanks _).append (dec_printable p)))
        (by decide)
  · split
    · decide
    · exact h.1
  · split
    · decide
    · exact Printable.append (by decide) (time_printable _)

theorem finish_printable {w : Words} (hw : w.Printable) {t : Times} (h : t.Printable) (units : Nat) : Printable (finishMessage w t units) :=
  Printable.append (Printable.append (Printable.append (Printable.append (Printable.append (Printable.append (by decide) (count_printable hw units)) (by decide))
    (time_printable _)) (by decide)) h.2) (by decide)

theorem object_text_printable {w : Words} (h1 : Printable w.header) (h2 : Printable w.unit) {t : Times}
    (h3 : ∀ v ∈ t.curNum.toList ++ t.leftNum.toList ++ [t.avgNum, t.usedNum], Printable v) (units : Nat) (total : Option Nat) :
    Printable (objectText w t units total) := by
  have hf : ∀ key v, Printable key.toList → Printable v → Printable (jsonField key v) := fun key v hk hv =>
    Printable.append (Printable.append (Printable.append (Printable.append (by decide) hk) (by decide)) hv) (by decide)
  have ho : ∀ key (v : Option Str), Printable key.toList → (∀ x, v = some x → Printable x) → Printable (jsonOpt key v) := by
    intro key v hk hv
    cases v with
    | none => intro c hc; cases hc
    | some x => exact hf key x hk (hv x rfl)
  unfold objectText
  refine Printable.append (Printable.append (Printable.append (Printable.append (Printable.append (Printable.append (Printable.append
    (Printable.append (Printable.append (Printable.append (Printable.append (by decide) h1) (by decide)) h2) (by decide))
    (hf _ _ (by decide) (dec_printable _))) (ho _ _ (by decide) ?_)) (ho _ _ (by decide) ?_)) (hf _ _ (by decide) ?_))
    (hf _ _ (by decide) ?_)) (ho _ _ (by decide) ?_)) (by decide)
  · intro x hx
    cases total with
    | none => cases hx
    | some n => cases hx; exact dec_printable n
  · intro x hx
    exact h3 x (by simp [hx])
  · exact h3 _ (by simp)
  · exact h3 _ (by simp)
  · intro x hx
    exact h3 x (by simp [hx])

/-- The texts that are printed have no control characters. -/
def Out.Fine (w : Words) (t : Times) : Out → Prop
  | .report (.object units total) => Progress.Printable (objectText w t units total)
  | .say text => Progress.Printable text
  | _ => w.Printable ∧ t.Printable

theorem fine_text {w : Words} {t : Times} {o : Out} (h : o.Fine w t) : Printable (o.text w t) := by
  cases o with
  | say text => exact h
  | report e =>
    cases e with
    | header => exact h.1.1
    | line n d p => exact active_printable h.1 h.2 n d p
    | finish n => exact finish_printable h.1 h.2 n
    | object n t => exact h
    | erase => intro c hc; cases hc

/-- The terminal shows what should be seen, and the cursor is where the next report may start. -/
def Agree (s : Screen) (maxLen : Nat) (free : Bool) (e : List Str × Str) : Prop :=
  List.Forall₂ Shows s.above e.1 ∧ Shows s.line e.2 ∧ s.line.length ≤ maxLen ∧ s.col ≤ s.line.length ∧ (free = true → s.col = 0 ∧ e.2 = [])

theorem forall₂_concat {s : List Str} {e : List Str} (h : List.Forall₂ Shows s e) {a b : Str} (h' : Shows a b) :
    List.Forall₂ Shows (s ++ [a]) (e ++ [b]) := by
  induction h with
  | nil => exact .cons h' .nil
  | cons hx _ ih => exact .cons hx ih

theorem shows_nil {n : Nat} {l x : Str} (h : Shows l []) : Shows (x ++ l.drop n) x := by
  obtain ⟨m, rfl⟩ := h
  exact ⟨m - n, by simp [List.drop_replicate]⟩

theorem shows_blank : Shows [] [] := ⟨0, rfl⟩

theorem whole_line {s : Screen} {maxLen : Nat} {e : List Str × Str} (h : Agree s maxLen true e) {x : Str} (hx : Printable x) :
    Agree (s.puts (x ++ ['\n'])) maxLen true (e.1 ++ [x], []) := by
  obtain ⟨h1, h2, h3, h4, h5⟩ := h
  obtain ⟨h6, h7⟩ := h5 rfl
  rw [puts_append, puts_printable x s hx h4, puts_newline]
  refine ⟨forall₂_concat h1 ?_, shows_blank, Nat.zero_le _, Nat.le_refl _, fun _ => ⟨rfl, rfl⟩⟩
  rw [h7] at h2
  simp only [h6, List.take_zero, List.nil_append]
  exact shows_nil h2

theorem progress_line {s : Screen} {maxLen : Nat} {free : Bool} {e : List Str × Str} (h : Agree s maxLen free e) {x : Str} (hx : Printable x) :
    ∃ s', s.puts ('\r' :: padRight (max maxLen (byteLen x)) x) = s' ∧ s'.above = s.above ∧ Shows s'.line x ∧
      s'.line.length = max maxLen (byteLen x) ∧ s'.col = s'.line.length := by
  obtain ⟨h1, h2, h3, h4, h5⟩ := h
  rw [printable_byteLen hx]
  have hl : (padRight (max maxLen x.length) x).length = max maxLen x.length := by
    rw [padRight, List.length_append, List.length_replicate]; omega
  refine ⟨_, rfl, ?_⟩
  rw [puts_return, puts_printable (padRight _ x) _ (hx.append (printable_blanks _)) (Nat.zero_le _)]
  simp only [List.take_zero, List.nil_append, Nat.zero_add]
  have hd : s.line.drop (padRight (max maxLen x.length) x).length = [] := List.drop_eq_nil_of_le (by omega)
  rw [hd, List.append_nil]
  exact ⟨trivial, ⟨_, rfl⟩, hl, rfl⟩

theorem agree_step {w : Words} {t : Times} {s : Screen} {maxLen : Nat} {free : Bool} {e : List Str × Str} (h : Agree s maxLen free e)
    {o : Out} {os : List Out} (hf : o.Fine w t) (ho : Orderly free (o :: os)) :
    ∃ free', Orderly free' os ∧ Agree (s.puts (emit w t maxLen o).2) (emit w t maxLen o).1 free'
      (if o.ends then (e.1 ++ [o.text w t], []) else (e.1, o.text w t)) := by
  have hx := fine_text hf
  cases o with
  | say text =>
    obtain ⟨rfl, ho⟩ := ho
    exact ⟨true, ho, whole_line h hx⟩
  | report ev =>
    cases ev with
    | header =>
      obtain ⟨rfl, ho⟩ := ho
      exact ⟨true, ho, whole_line h hx⟩
    | object n tot =>
      obtain ⟨rfl, ho⟩ := ho
      exact ⟨true, ho, whole_line h hx⟩
    | line n d p =>
      obtain ⟨s', hs, ha, hl, hlen, hcol⟩ := progress_line h hx
      refine ⟨false, ho, ?_⟩
      simp only [emit, Out.ends, Out.text, Bool.false_eq_true, if_false]
      simp only [Out.text] at hs
      rw [hs]
      exact ⟨ha ▸ h.1, hl, Nat.le_of_eq hlen, Nat.le_of_eq hcol, fun hh => absurd hh (by decide)⟩
    | finish n =>
      obtain ⟨s', hs, ha, hl, hlen, hcol⟩ := progress_line h hx
      refine ⟨true, ho, ?_⟩
      simp only [emit, Out.ends, Out.text, if_true]
      simp only [Out.text] at hs
      rw [puts_append, hs, puts_newline]
      exact ⟨ha ▸ forall₂_concat h.1 hl, shows_blank, Nat.zero_le _, Nat.le_refl _, fun _ => ⟨rfl, rfl⟩⟩
    | erase =>
      obtain ⟨h1, h2, h3, h4, h5⟩ := h
      refine ⟨true, ho, ?_⟩
      simp only [emit, Out.ends, Out.text, Bool.false_eq_true, if_false]
      rw [List.cons_append, puts_return, puts_append, puts_printable _ _ (printable_blanks _) (Nat.zero_le _)]
      rw [puts_return]
      simp only [Screen.puts, List.foldl_nil, List.take_zero, List.nil_append]
      have hd : s.line.drop (0 + (List.replicate maxLen ' ').length) = [] := List.drop_eq_nil_of_le (by simp; omega)
      rw [hd, List.append_nil]
      exact ⟨h1, ⟨maxLen, rfl⟩, by simp, Nat.zero_le _, fun _ => ⟨rfl, rfl⟩⟩

theorem agree_all {w : Words} {clock : Nat → Times} : ∀ (os : List Out) (k maxLen : Nat) (s : Screen) (free : Bool) (e : List Str × Str),
    (∀ i (h : i < os.length), (os[i]).Fine w (clock (k + i))) → Orderly free os → Agree s maxLen free e →
    ∃ m f, Agree (s.puts (render w clock k maxLen os)) m f (expected w clock k e os)
  | [], k, maxLen, s, free, e, _, _, h => ⟨maxLen, free, h⟩
  | o :: os, k, maxLen, s, free, e, hf, ho, h => by
    obtain ⟨free', ho', h'⟩ := agree_step h (hf 0 (by simp)) ho
    rw [render, puts_append]
    exact agree_all os (k + 1) _ _ free' _ (fun i hi => by
      have := hf (i + 1) (by simpa using hi)
      rw [show k + (i + 1) = k + 1 + i by omega] at this
      simpa using this) ho' h'

/-- **C64.** What the terminal shows is what should be seen: every report takes the place of the one before, of which nothing is left; a
line that the command prints after the report has been erased stands alone; the last report and the header stay. -/
theorem C64_screen (w : Words) (clock : Nat → Times) (os : List Out) (hf : ∀ i (h : i < os.length), (os[i]).Fine w (clock i))
    (ho : Orderly true os) :
    List.Forall₂ Shows (blank.puts (render w clock 0 0 os)).above (expected w clock 0 ([], []) os).1 ∧
      Shows (blank.puts (render w clock 0 0 os)).line (expected w clock 0 ([], []) os).2 := by
  obtain ⟨m, f, h⟩ := agree_all os 0 0 blank true ([], []) (fun i hi => by simpa using hf i hi) ho
    ⟨.nil, shows_blank, Nat.le_refl _, Nat.le_refl _, fun _ => ⟨rfl, rfl⟩⟩
  exact ⟨h.1, h.2.1⟩

/-- Reports of `show`, as in `src/show_core.rs`. -/
def demoWords : Words := ⟨"SBX block scanning progress".toList, "bytes".toList, fun n => padLeft 7 (dec (n / 1000)) ++ ".00K".toList⟩

def demoTimes : Times := ⟨"5.12K bytes/s".toList, "5.12K bytes/s".toList, 7, 9, some "5120.5".toList, "5120".toList, "7.25".toList, some "9".toList⟩

theorem demoTimes_printable : demoTimes.Printable := by
  unfold demoTimes Times.Printable Printable
  decide

theorem demoWords_printable : demoWords.Printable :=
  ⟨by unfold demoWords Printable; decide, by unfold demoWords Printable; decide, fun n =>
    ((printable_blanks _).append (dec_printable _)).append (by unfold Printable; decide)⟩

/-- A number padded to a width greater than its length has a blank before it. -/
theorem padLeft_blank {w : Nat} {s : Str} (h : s.length < w) : ∃ a, padLeft w s = a ++ ' ' :: s := by
  refine ⟨List.replicate (w - s.length - 1) ' ', ?_⟩
  unfold padLeft
  obtain ⟨k, hk⟩ : ∃ k, w - s.length = k + 1 := ⟨w - s.length - 1, by omega⟩
  rw [hk, List.replicate_succ']
  simp

theorem dec_short {n : Nat} (h : n ≤ 1000) : (dec n).length < 7 := by
  have : ∀ m < 1001, (dec m).length < 7 := by decide +kernel
  exact this n (by omega)

/-- **C64.** Counts up to 1000 are shown in full, in every line of progress and in the last one; and so is the percentage. -/
theorem C64_exact (w : Words) (t : Times) (n : Nat) (hn : n ≤ 1000) (diff : Nat) (percent : Option Nat) :
    ' ' :: dec n ++ ' ' :: w.unit <:+: finishMessage w t n ∧ ' ' :: dec n ++ ' ' :: w.unit <:+: activeMessage w t n diff percent ∧
      ∀ p, percent = some p → ' ' :: dec p ++ ['%'] <:+: activeMessage w t n diff percent := by
  obtain ⟨a, ha⟩ := padLeft_blank (dec_short hn)
  have e : readableCount w n = a ++ (' ' :: dec n ++ ' ' :: w.unit) := by
    unfold readableCount
    rw [if_pos hn, ha]
    simp
  refine ⟨?_, ?_, ?_⟩
  · unfold finishMessage
    rw [e]
    exact ⟨"Processed : ".toList ++ a, "  Time elapsed : ".toList ++ timeText t.used ++ "  Average rate : ".toList ++ t.avg ++ "  ".toList,
      by simp only [List.append_assoc]⟩
  · unfold activeMessage
    rw [e]
    refine ⟨(match percent with
      | some p => makeProgressBar p ++ "  ".toList ++ padLeft 3 (dec p) ++ "%  ".toList
      | none => []) ++ a, "  cur : ".toList ++ (if diff = 0 then "N/A".toList else t.cur) ++ "  used : ".toList ++ timeText t.used ++ "  ".toList ++
      (if diff = 0 ∨ percent = none then "N/A".toList else "left : ".toList ++ timeText t.left) ++ "  ".toList, ?_⟩
    cases percent <;> simp only [List.append_assoc]
  · rintro p rfl
    have hp : ∃ b, "  ".toList ++ padLeft 3 (dec p) = b ++ ' ' :: dec p := by
      by_cases h : (dec p).length < 3
      · obtain ⟨b, hb⟩ := padLeft_blank h
        exact ⟨"  ".toList ++ b, by rw [hb, List.append_assoc]⟩
      · refine ⟨[' '], ?_⟩
        unfold padLeft
        rw [Nat.sub_eq_zero_of_le (by omega)]
        rfl
    obtain ⟨b, hb⟩ := hp
    unfold activeMessage
    simp only [List.append_assoc]
    generalize (if diff = 0 then "N/A".toList else t.cur) = y
    generalize (if diff = 0 ∨ some p = none then "N/A".toList else "left : ".toList ++ timeText t.left) = z
    refine ⟨makeProgressBar p ++ b, "  ".toList ++ (readableCount w n ++ ("  cur : ".toList ++ (y ++ ("  used : ".toList ++ (timeText t.used ++ ("  ".toList ++
      (z ++ "  ".toList))))))), ?_⟩
    rw [← List.append_assoc "  ".toList (padLeft 3 (dec p)), hb]
    simp only [List.append_assoc, List.cons_append, List.nil_append]
    rfl

/-- The terminal shows two blocks of reports, cut by a line of the command, and the last line. -/
example : Orderly true [.report .header, .report (.line 512 512 (some 50)), .report .erase, .say "Found metadata block number : 0".toList,
      .report (.line 600 88 (some 58)), .report (.finish 1024)]
    ∧ (expected demoWords (fun _ => demoTimes) 0 ([], []) [.report .header, .report (.line 512 512 (some 50)), .report .erase,
        .say "Found metadata block number : 0".toList, .report (.line 600 88 (some 58)), .report (.finish 1024)]).1.map String.ofList
      = ["SBX block scanning progress", "Found metadata block number : 0",
        "Processed :       1.00K bytes  Time elapsed : 00:00:07  Average rate : 5.12K bytes/s  "]
    ∧ String.ofList (activeMessage demoWords demoTimes 512 512 (some 50))
      = "[############-------------]   50%      512 bytes  cur : 5.12K bytes/s  used : 00:00:07  left : 00:00:09  " := by
  refine ⟨⟨rfl, rfl, trivial⟩, ?_, ?_⟩ <;> decide +kernel

/-- The lines of the command have to come after the report has been erased.  Without the lock (`show`, `update --verbose`) the reporting
thread may print once more in between (`C59_pause_violated`), and then what the command prints is glued to the report. -/
theorem C64_glued_violated : ∃ (w : Words) (clock : Nat → Times) (text : Str), w.Printable ∧ (∀ k, (clock k).Printable) ∧ Printable text
    ∧ ∀ line ∈ (blank.puts (render w clock 0 0 [.report .header, .report .erase, .report (.line 512 512 none), .say text])).above,
      ¬ Shows line text := by
  refine ⟨demoWords, fun _ => demoTimes, "Found".toList, demoWords_printable, fun _ => demoTimes_printable, by unfold Printable; decide, ?_⟩
  have h : ∀ line : Str, Shows line "Found".toList → line.head? = some 'F' := by
    rintro line ⟨n, rfl⟩
    rfl
  intro line hm hs
  have key : ∀ line ∈ (blank.puts (render demoWords (fun _ => demoTimes) 0 0 [.report .header, .report .erase, .report (.line 512 512 none),
      .say "Found".toList])).above, line.head? ≠ some 'F' := by decide +kernel
  exact key line hm (h line hs)

theorem orderly_lines : ∀ (l : List Event) (free : Bool), (∀ e ∈ l, e = .erase ∨ e.isLine = true ∨ ∃ n, e = .finish n) → Orderly free (l.map .report)
  | [], _, _ => trivial
  | e :: l, free, h => by
    have ih : ∀ f, Orderly f (l.map Out.report) := fun f => orderly_lines l f fun x hx => h x (List.mem_cons_of_mem _ hx)
    rcases h e List.mem_cons_self with rfl | he | ⟨n, rfl⟩
    · exact ih _
    · cases e <;> first | exact ih _ | cases he
    · exact ih _

theorem orderly_transcript {c : Cfg} : ∀ {l : List Event}, Transcript c (visible l) → (c.level = .L0 ∨ c.json = true → .erase ∉ l) →
    Orderly true (l.map .report) := by
  intro l h he
  unfold Transcript at h
  split at h
  · rename_i hl
    cases l with
    | nil => trivial
    | cons e l =>
      exfalso
      have : e = .erase := by
        by_contra hne
        simp [visible, hne] at h
      exact he (Or.inl hl) (this ▸ List.mem_cons_self)
  · split at h
    · rename_i hj
      have hno := he (Or.inr hj)
      have key : ∀ l : List Event, (∀ e ∈ l, ∃ n t, e = .object n t) → Orderly true (l.map .report) := by
        intro l
        induction l with
        | nil => intro _; trivial
        | cons e l ih =>
          intro h
          obtain ⟨n, t, rfl⟩ := h e List.mem_cons_self
          exact ⟨rfl, ih fun x hx => h x (List.mem_cons_of_mem _ hx)⟩
      refine key l fun e hm => ?_
      obtain ⟨n, hn⟩ := h e (List.mem_filter.2 ⟨hm, by
        have : e ≠ .erase := fun hx => hno (hx ▸ hm)
        simpa using this⟩)
      exact ⟨n, _, hn⟩
    · clear he
      induction l with
      | nil => trivial
      | cons e l ih =>
        by_cases hee : e = .erase
        · subst hee
          exact ih (by simpa [visible] using h)
        · have hv : visible (e :: l) = e :: visible l := by simp [visible, hee]
          rw [hv] at h
          rcases h with h | ⟨lines, fin, h, hl, hf⟩
          · cases h
          · obtain ⟨rfl, h'⟩ := List.cons.inj h
            refine ⟨rfl, orderly_lines l true fun x hx => ?_⟩
            by_cases hxe : x = .erase
            · exact Or.inl hxe
            · have : x ∈ visible l := List.mem_filter.2 ⟨hx, by simpa using hxe⟩
              rw [h'] at this
              rcases List.mem_append.1 this with h1 | h1
              · exact Or.inr (Or.inl (hl x h1).2)
              · rcases hf with rfl | ⟨n, rfl⟩
                · cases h1
                · exact Or.inr (Or.inr ⟨n, List.mem_singleton.1 h1⟩)

theorem expected_append (w : Words) (clock : Nat → Times) : ∀ (a b : List Out) (k : Nat) (e : List Str × Str),
    expected w clock k e (a ++ b) = expected w clock (k + a.length) (expected w clock k e a) b
  | [], b, k, e => rfl
  | o :: a, b, k, (x, y) => by
    rw [List.cons_append, expected, expected, expected_append w clock a b]
    rw [List.length_cons, show k + 1 + a.length = k + (a.length + 1) by omega]

theorem expected_lines (w : Words) (clock : Nat → Times) : ∀ (l : List Event) (k : Nat) (e : List Str × Str), (∀ x ∈ l, x = .erase ∨ x.isLine = true) →
    (expected w clock k e (l.map .report)).1 = e.1
  | [], _, _, _ => rfl
  | x :: l, k, (a, b), h => by
    have ih := fun e => expected_lines w clock l (k + 1) e fun x hx => h x (List.mem_cons_of_mem _ hx)
    rw [List.map_cons, expected, ih]
    rcases h x List.mem_cons_self with rfl | hx
    · rfl
    · cases x <;> first | rfl | cases hx

theorem expected_header (w : Words) (clock : Nat → Times) {r : List Event} : ∀ (l : List Event) (k : Nat) (y : Str), visible l = .header :: r →
    (∀ x ∈ r, x.isLine = true) → (expected w clock k ([], y) (l.map .report)).1 = [w.header]
  | [], _, _, h, _ => by cases h
  | e :: l, k, y, h, hr => by
    by_cases he : e = .erase
    · subst he
      rw [List.map_cons, expected]
      exact expected_header w clock l (k + 1) _ (by simpa [visible] using h) hr
    · have hv : visible (e :: l) = e :: visible l := by simp [visible, he]
      rw [hv] at h
      obtain ⟨rfl, h'⟩ := List.cons.inj h
      rw [List.map_cons, expected]
      refine (expected_lines w clock l _ _ fun x hx => ?_).trans rfl
      by_cases hxe : x = .erase
      · exact Or.inl hxe
      · exact Or.inr (hr x (h' ▸ List.mem_filter.2 ⟨hx, by simpa using hxe⟩))

/-- **C64.** When a command is over, its progress report (at level 1 and 2, without `--json`) has left exactly two lines: the header and
the last line, with everything that was processed; what was shown in between is gone. This holds however the threads were scheduled. -/
theorem C64_finished (c : Cfg) (hj : c.json = false) {pre post : List Call} (h : Legal false (pre ++ .stop :: post)) (hstart : .start ∈ pre)
    (hstop : .stop ∉ pre) (pipeline : List (List Nat)) (hjoin : pre.getLast? = some .join ∨ ∀ r ∈ pipeline, r = [])
    (hpost : ∀ x ∈ post, x.amount = 0) (units : Nat)
    (hT : 100 * (units + amountOf pre pipeline) < 2 ^ 64) (hl : c.level ≠ .L0) (ts : List Tid)
    (ho : (run c (init (pre ++ .stop :: post) pipeline units) ts).over = true)
    (w : Words) (hw : w.Printable) (clock : Nat → Times) (hc : ∀ k, (clock k).Printable) (s : Screen)
    (hs : s = blank.puts (render w clock 0 0 ((run c (init (pre ++ .stop :: post) pipeline units) ts).out.map .report))) :
    ∃ k, List.Forall₂ Shows s.above [w.header, finishMessage w (clock k) (units + amountOf pre pipeline)] ∧ Shows s.line [] := by
  have hA : amountOf (pre ++ .stop :: post) pipeline = amountOf pre pipeline := by
    have : (post.map Call.amount).sum = 0 := by
      clear h ho hs
      induction post with
      | nil => rfl
      | cons a l ih =>
        rw [List.map_cons, List.sum_cons, hpost a List.mem_cons_self, ih fun x hx => hpost x (List.mem_cons_of_mem _ hx)]
    simp [amountOf, Call.amount] at this ⊢
    omega
  obtain ⟨before, hout, hbefore⟩ := C59_last_report c h hstart hstop pipeline hjoin hpost units hT hl ts ho
  obtain ⟨htr, her⟩ := C59_transcript c h pipeline units (by rw [hA]; exact hT) ts
  generalize (run c (init (pre ++ .stop :: post) pipeline units) ts).out = out at *
  simp only [hj, Bool.false_eq_true, if_false] at hout
  have hord := orderly_transcript htr her
  unfold Transcript at htr
  rw [if_neg hl, hj, if_neg (by decide)] at htr
  have hfine : ∀ i (h : i < (out.map Out.report).length), ((out.map Out.report)[i]).Fine w (clock i) := by
    intro i hi
    rw [List.getElem_map]
    have hm : out[i]'(by simpa using hi) ∈ out := List.getElem_mem _
    generalize out[i]'(by simpa using hi) = ev at *
    cases ev with
    | object n t =>
      exfalso
      have hv : Event.object n t ∈ visible out := List.mem_filter.2 ⟨hm, by simp⟩
      rcases htr with h0 | ⟨lines, fin, h0, hl', hf⟩
      · rw [h0] at hv; cases hv
      · rw [h0] at hv
        rcases List.mem_cons.1 hv with h1 | h1
        · cases h1
        · rcases List.mem_append.1 h1 with h1 | h1
          · exact absurd (hl' _ h1).2 Bool.false_ne_true
          · rcases hf with rfl | ⟨n, rfl⟩
            · cases h1
            · cases List.mem_singleton.1 h1
    | header => exact ⟨hw, hc _⟩
    | line n d p => exact ⟨hw, hc _⟩
    | finish n => exact ⟨hw, hc _⟩
    | erase => exact ⟨hw, hc _⟩
  obtain ⟨h1, h2⟩ := C64_screen w clock (out.map .report) hfine hord
  rw [← hs] at h1 h2
  refine ⟨before.length, ?_⟩
  have hexp : expected w clock 0 ([], []) (out.map .report) = ([w.header, finishMessage w (clock before.length) (units + amountOf pre pipeline)], []) := by
    rw [hout, List.map_append, expected_append, List.length_map, Nat.zero_add]
    have hfst : (expected w clock 0 ([], []) (before.map .report)).1 = [w.header] := by
      rcases htr with h0 | ⟨lines, fin, h0, hl', hf⟩
      · rw [hout] at h0; simp [visible] at h0
      · have hv : visible before ++ [.finish (units + amountOf pre pipeline)] = .header :: (lines ++ fin) := by
          rw [← h0, hout]; simp [visible]
        rcases hvb : visible before with _ | ⟨e, r⟩
        · rw [hvb] at hv; cases (List.cons.inj hv).1
        · rw [hvb, List.cons_append] at hv
          obtain ⟨rfl, hr⟩ := List.cons.inj hv
          refine expected_header w clock before 0 [] hvb fun x hx => ?_
          rcases hf with rfl | ⟨n, rfl⟩
          · rw [List.append_nil] at hr
            exact absurd (hl' (.finish _) (hr ▸ List.mem_append_right _ (List.mem_singleton.2 rfl))).2 Bool.false_ne_true
          · rw [(List.append_inj' hr rfl).1] at hx
            exact (hl' x hx).2
    rw [List.map_cons, List.map_nil, expected, expected]
    simp only [Out.ends, if_true, Out.text, hfst]
    rfl
  rw [hexp] at h1 h2
  exact ⟨h1, h2⟩

example : rescueCalls = [.logStart, .start, .acquire, .release, .join] ++ .stop :: [.logStop]
    ∧ (run ⟨.L1, false, some 8⟩ (init rescueCalls [[5], [3]] 0)
        (List.replicate 60 [Tid.main, .runner, .worker 0, .worker 1, .logger]).flatten).over = true
    ∧ String.ofList (finishMessage demoWords demoTimes 8) = "Processed :       8 bytes  Time elapsed : 00:00:07  Average rate : 5.12K bytes/s  " := by
  exact ⟨rfl, by decide +kernel, by decide +kernel⟩

/-! ### With `--json` -/

section
open JsonSpec

/-- A finite number that is not negative, as `{}` prints an `f64`: digits without a leading zero, and possibly a point and digits. -/
def Decimal (v : Str) : Prop :=
  ∃ i f, v = i ++ f ∧ i ≠ [] ∧ (∀ c ∈ i, c.isDigit = true) ∧ (∀ r, i = '0' :: r → r = []) ∧
    (f = [] ∨ ∃ d, f = '.' :: d ∧ d ≠ [] ∧ ∀ c ∈ d, c.isDigit = true)

theorem digits1_stop {v : Str} (hne : v ≠ []) (hd : ∀ c ∈ v, c.isDigit = true) {c : Char} (hc : c.isDigit = false) (r : Str) :
    digits1 (v ++ c :: r) = some (v, c :: r) := by
  unfold digits1
  have h1 : (v ++ c :: r).takeWhile Char.isDigit = v := by
    rw [List.takeWhile_append_of_pos hd, List.takeWhile_cons_of_neg (by simp [hc])]
    simp
  have h2 : (v ++ c :: r).dropWhile Char.isDigit = c :: r := by
    rw [List.dropWhile_append_of_pos hd, List.dropWhile_cons_of_neg (by simp [hc])]
  rw [h1, h2, if_neg hne]

theorem intPart_stop {v : Str} (hne : v ≠ []) (hd : ∀ c ∈ v, c.isDigit = true) (hz : ∀ r, v = '0' :: r → r = []) {c : Char}
    (hc : c.isDigit = false) (r : Str) : intPart (v ++ c :: r) = some (v, c :: r) := by
  cases v with
  | nil => exact absurd rfl hne
  | cons a v =>
    by_cases h0 : a = '0'
    · subst h0
      have : v = [] := hz v rfl
      subst this
      rfl
    · have : intPart (a :: v ++ c :: r) = digits1 (a :: v ++ c :: r) := by
        show intPart (a :: (v ++ c :: r)) = _
        unfold intPart
        split
        · next heq => exact absurd (List.cons.inj heq).1 h0
        · rfl
      rw [this]
      exact digits1_stop (by simp) hd hc r

theorem value_decimal {v : Str} (h : Decimal v) (fuel : Nat) (r : Str) : value (fuel + 1) (v ++ ' ' :: r) = some (.num v, ' ' :: r) := by
  obtain ⟨i, f, rfl, hne, hd, hz, hf⟩ := h
  have hnum : number (i ++ f ++ ' ' :: r) = some (i ++ f, ' ' :: r) := by
    have hs : ∀ t, signPart (i ++ t) = ([], i ++ t) := by
      intro t
      cases i with
      | nil => exact absurd rfl hne
      | cons a i =>
        have := digit_facts (hd a List.mem_cons_self)
        rw [List.cons_append]
        unfold signPart
        split
        · next heq => rw [(List.cons.inj heq).1] at this; exact absurd this (by decide)
        · rfl
    unfold number
    rw [List.append_assoc, hs]
    rcases hf with rfl | ⟨d, rfl, hdn, hdd⟩
    · rw [List.nil_append]
      simp only [Option.bind_eq_bind, intPart_stop hne hd hz (show (' ').isDigit = false by decide), Option.bind_some]
      rw [show fracPart (' ' :: r) = some ([], ' ' :: r) from rfl]
      simp only [Option.bind_some]
      rw [show expPart (' ' :: r) = some ([], ' ' :: r) from by simp [expPart]]
      simp
    · rw [List.cons_append]
      simp only [Option.bind_eq_bind, intPart_stop hne hd hz (show ('.').isDigit = false by decide), Option.bind_some]
      rw [show fracPart ('.' :: (d ++ ' ' :: r)) = some ('.' :: d, ' ' :: r) from by
        simp [fracPart, digits1_stop hdn hdd (show (' ').isDigit = false by decide)]]
      simp only [Option.bind_some]
      rw [show expPart (' ' :: r) = some ([], ' ' :: r) from by simp [expPart]]
      simp
  cases i with
  | nil => exact absurd rfl hne
  | cons c i =>
    have hc := digit_facts (hd c List.mem_cons_self)
    have hn : ∀ d : Char, (d.toNat < 0x30 ∨ 0x39 < d.toNat) → c ≠ d := by
      rintro d hd rfl; omega
    show value (fuel + 1) (c :: (i ++ f ++ ' ' :: r)) = _
    rw [value, if_neg (hn _ (by decide)), if_neg (hn _ (by decide)), if_neg (hn _ (by decide)), if_neg (hn _ (by decide)),
      if_neg (hn _ (by decide)), if_neg (hn _ (by decide))]
    have : number (c :: (i ++ f ++ ' ' :: r)) = some (c :: i ++ f, ' ' :: r) := hnum
    rw [this]
    rfl

theorem members_last {fuel : Nat} {s₀ s₁ s₂ r : Str} {k : List Nat} {x : Val} (hk : stringRest s₀ = some (k, ':' :: s₁))
    (hv : value fuel (skip s₁) = some (x, s₂)) (hs : skip s₂ = '}' :: r) : members (fuel + 1) ('"' :: s₀) = some ([(k, x)], r) := by
  rw [members]
  simp only [Option.bind_eq_bind, hk, Option.bind_some]
  rw [skip_cons (by decide)]
  simp only [hv, Option.bind_some, hs]

theorem members_more {fuel : Nat} {s₀ s₁ s₂ s₃ r : Str} {k : List Nat} {x : Val} {ms : List (List Nat × Val)}
    (hk : stringRest s₀ = some (k, ':' :: s₁)) (hv : value fuel (skip s₁) = some (x, s₂)) (hs : skip s₂ = ',' :: s₃)
    (hm : members fuel (skip s₃) = some (ms, r)) : members (fuel + 1) ('"' :: s₀) = some ((k, x) :: ms, r) := by
  rw [members]
  simp only [Option.bind_eq_bind, hk, Option.bind_some]
  rw [skip_cons (by decide)]
  simp only [hv, Option.bind_some, hs, hm]
  rfl

/-- Text that needs no escapes. -/
def Bare (s : Str) : Prop := ∀ c ∈ s, 0x20 ≤ c.toNat ∧ c ≠ '\\' ∧ c ≠ '"'

instance (s : Str) : Decidable (Bare s) := inferInstanceAs (Decidable (∀ c ∈ s, 0x20 ≤ c.toNat ∧ c ≠ '\\' ∧ c ≠ '"'))

theorem stringRest_bare {v : Str} (h : Bare v) (r : Str) : stringRest (v ++ '"' :: r) = some (codes v, r) := by
  have := stringRest_escaped v r fun c hc => ⟨(h c hc).1, (h c hc).2.1⟩
  rwa [escape_plain fun hq => (h _ hq).2.2 rfl] at this

/-- Fields with numbers, as they are printed. -/
def fieldsText (fs : List (String × Str)) : Str := fs.flatMap fun p => jsonField p.1 p.2

theorem decimal_head {v : Str} (h : Decimal v) (r : Str) : skip (v ++ r) = v ++ r := by
  obtain ⟨i, f, rfl, hne, hd, -⟩ := h
  cases i with
  | nil => exact absurd rfl hne
  | cons c i =>
    refine skip_cons ?_ _
    have := digit_facts (hd c List.mem_cons_self)
    have hn : ∀ d : Char, d.toNat < 0x30 → c ≠ d := by rintro d hd rfl; omega
    simp [isWs, hn ' ' (by decide), hn '\t' (by decide), hn '\n' (by decide), hn '\r' (by decide)]

theorem members_fields : ∀ (fs : List (String × Str)) (k : String) (v : Str) (fuel : Nat), (∀ p ∈ (k, v) :: fs, Bare p.1.toList ∧ Decimal p.2) →
    fs.length + 2 ≤ fuel → members fuel ('"' :: (k.toList ++ '"' :: ':' :: ' ' :: (v ++ ' ' :: (fieldsText fs ++ ['}'])))) =
      some (((k, v) :: fs).map fun p => (codes p.1.toList, .num p.2), [])
  | [], k, v, fuel, h, hf => by
    obtain ⟨fuel, rfl⟩ : ∃ n, fuel = n + 2 := ⟨fuel - 2, by simp at hf; omega⟩
    obtain ⟨hk, hv⟩ := h (k, v) List.mem_cons_self
    refine members_last (stringRest_bare hk _) ?_ ?_ (x := .num v) (s₂ := ' ' :: (fieldsText [] ++ ['}']))
    · rw [skip_space, decimal_head hv]; exact value_decimal hv fuel _
    · rfl
  | (k', v') :: fs, k, v, fuel, h, hf => by
    rw [List.length_cons] at hf
    obtain ⟨fuel, rfl⟩ : ∃ n, fuel = n + 2 := ⟨fuel - 2, by omega⟩
    obtain ⟨hk, hv⟩ := h (k, v) List.mem_cons_self
    have ih := members_fields fs k' v' (fuel + 1) (fun p hp => h p (List.mem_cons_of_mem _ hp)) (by omega)
    rw [List.map_cons]
    refine members_more (stringRest_bare hk _) ?_ ?_ ?_ (x := .num v) (s₂ := ' ' :: (fieldsText ((k', v') :: fs) ++ ['}']))
      (s₃ := '"' :: (k'.toList ++ '"' :: ':' :: ' ' :: (v' ++ ' ' :: (fieldsText fs ++ ['}']))))
    · rw [skip_space, decimal_head hv]; exact value_decimal hv (fuel := fuel) _
    · rw [skip_space]
      have : fieldsText ((k', v') :: fs) ++ ['}'] = ',' :: '"' :: (k'.toList ++ '"' :: ':' :: ' ' :: (v' ++ ' ' :: (fieldsText fs ++ ['}']))) := by
        simp [fieldsText, jsonField]
      rw [this]
      exact skip_cons (by decide) _
    · rw [skip_cons (by decide)]
      exact ih

/-- The fields of a report in the order of the code. -/
def numbers (t : Times) (units : Nat) (total : Option Nat) : List (String × Str) :=
  [("unitsSoFar", dec units)] ++ (total.map fun n => ("totalUnits", dec n)).toList ++ (t.curNum.map fun v => ("curPerSec", v)).toList ++
    [("avgPerSec", t.avgNum), ("timeUsed", t.usedNum)] ++ (t.leftNum.map fun v => ("timeLeft", v)).toList

theorem dec_decimal (n : Nat) : Decimal (dec n) := by
  exact ⟨dec n, [], by simp, Nat.toDigits_ne_nil, fun c hc => Nat.isDigit_of_mem_toDigits (by omega) (by omega) hc, head_toDigits n, Or.inl rfl⟩

/-- **C64.** With `--json` every report is one JSON object: header, unit, the units so far, and, where there are any, the total, the rates
and the times. -/
theorem C64_json (w : Words) (hh : Bare w.header) (hu : Bare w.unit) (t : Times) (units : Nat) (total : Option Nat)
    (h1 : ∀ v ∈ t.curNum, Decimal v) (h2 : Decimal t.avgNum) (h3 : Decimal t.usedNum) (h4 : ∀ v ∈ t.leftNum, Decimal v) :
    parse (objectText w t units total) = some (.obj ([(codes "header".toList, .str (codes w.header)), (codes "unit".toList, .str (codes w.unit))] ++
      (numbers t units total).map fun p => (codes p.1.toList, .num p.2))) := by
  have hn : ∀ p ∈ numbers t units total, Bare p.1.toList ∧ Decimal p.2 := by
    intro p hp
    have b1 : Bare "unitsSoFar".toList := by decide
    have b2 : Bare "totalUnits".toList := by decide
    have b3 : Bare "curPerSec".toList := by decide
    have b4 : Bare "avgPerSec".toList := by decide
    have b5 : Bare "timeUsed".toList := by decide
    have b6 : Bare "timeLeft".toList := by decide
    unfold numbers at hp
    rcases List.mem_append.1 hp with hp | hp
    · rcases List.mem_append.1 hp with hp | hp
      · rcases List.mem_append.1 hp with hp | hp
        · rcases List.mem_append.1 hp with hp | hp
          · rw [List.mem_singleton.1 hp]; exact ⟨b1, dec_decimal _⟩
          · cases total with
            | none => cases hp
            | some n => rw [List.mem_singleton.1 hp]; exact ⟨b2, dec_decimal _⟩
        · cases hc : t.curNum with
          | none => rw [hc] at hp; cases hp
          | some v => rw [hc] at hp; rw [List.mem_singleton.1 hp]; exact ⟨b3, h1 v hc⟩
      · rcases List.mem_cons.1 hp with rfl | hp
        · exact ⟨b4, h2⟩
        · rw [List.mem_singleton.1 hp]; exact ⟨b5, h3⟩
    · cases hc : t.leftNum with
      | none => rw [hc] at hp; cases hp
      | some v => rw [hc] at hp; rw [List.mem_singleton.1 hp]; exact ⟨b6, h4 v hc⟩
  obtain ⟨fs, hfs⟩ : ∃ fs, numbers t units total = ("unitsSoFar", dec units) :: fs := ⟨_, by unfold numbers; rfl⟩
  have htext : objectText w t units total = '{' :: '"' :: ("header".toList ++ '"' :: ':' :: ' ' :: '"' :: (w.header ++ '"' :: ',' :: ' ' ::
      '"' :: ("unit".toList ++ '"' :: ':' :: ' ' :: '"' :: (w.unit ++ '"' :: (fieldsText (numbers t units total) ++ ['}']))))) := by
    have : fieldsText (numbers t units total) = jsonField "unitsSoFar" (dec units) ++
      jsonOpt "totalUnits" (total.map dec) ++ jsonOpt "curPerSec" t.curNum ++ jsonField "avgPerSec" t.avgNum ++
      jsonField "timeUsed" t.usedNum ++ jsonOpt "timeLeft" t.leftNum := by
      unfold numbers fieldsText
      cases total <;> cases t.curNum <;> cases t.leftNum <;> simp [jsonOpt, -String.toList]
    rw [this]
    unfold objectText
    generalize jsonField "unitsSoFar" (dec units) = a₁
    generalize jsonOpt "totalUnits" (total.map dec) = a₂
    generalize jsonOpt "curPerSec" t.curNum = a₃
    generalize jsonField "avgPerSec" t.avgNum = a₄
    generalize jsonField "timeUsed" t.usedNum = a₅
    generalize jsonOpt "timeLeft" t.leftNum = a₆
    simp only [List.append_assoc]
    rfl
  rw [hfs] at hn htext ⊢
  have hlen : fs.length + 4 ≤ (objectText w t units total).length := by
    have : ∀ l : List (String × Str), l.length ≤ (fieldsText l).length := by
      intro l
      induction l with
      | nil => exact Nat.zero_le _
      | cons p l ih =>
        simp only [fieldsText, List.flatMap_cons, List.length_append, List.length_cons, jsonField] at ih ⊢
        have : (",\"".toList).length = 2 := rfl
        omega
    have := this (("unitsSoFar", dec units) :: fs)
    rw [htext]
    simp only [List.length_cons, List.length_append] at this ⊢
    omega
  obtain ⟨n, hn'⟩ : ∃ n, (objectText w t units total).length = n + 3 := ⟨_, (Nat.sub_add_cancel (by omega)).symm⟩
  have hm := members_fields fs "unitsSoFar" (dec units) (n + 1) hn (by omega)
  have key : value (n + 4) (objectText w t units total) = some (.obj ([(codes "header".toList, .str (codes w.header)),
      (codes "unit".toList, .str (codes w.unit))] ++ (("unitsSoFar", dec units) :: fs).map fun p => (codes p.1.toList, .num p.2)), []) := by
    have b1 : Bare "header".toList := by decide
    have b2 : Bare "unit".toList := by decide
    rw [htext, value_curly_cons (skip_cons (by decide) _) (by decide)]
    have hT : fieldsText (("unitsSoFar", dec units) :: fs) ++ ['}'] =
        ',' :: '"' :: ("unitsSoFar".toList ++ '"' :: ':' :: ' ' :: (dec units ++ ' ' :: (fieldsText fs ++ ['}']))) := by
      simp [fieldsText, jsonField]
    have m1 := members_more (fuel := n + 1) (stringRest_bare b2 (':' :: ' ' :: '"' :: (w.unit ++ '"' :: (fieldsText (("unitsSoFar", dec units) :: fs) ++ ['}']))))
      (x := .str (codes w.unit)) (s₂ := fieldsText (("unitsSoFar", dec units) :: fs) ++ ['}'])
      (by rw [skip_space, skip_cons (by decide), value_str, stringRest_bare hu]; rfl)
      (by rw [hT]; exact skip_cons (by decide) _) (by rw [skip_cons (by decide)]; exact hm)
    have m2 := members_more (fuel := n + 2) (stringRest_bare b1 (':' :: ' ' :: '"' :: (w.header ++ '"' :: ',' :: ' ' ::
      '"' :: ("unit".toList ++ '"' :: ':' :: ' ' :: '"' :: (w.unit ++ '"' :: (fieldsText (("unitsSoFar", dec units) :: fs) ++ ['}']))))))
      (x := .str (codes w.header))
      (by rw [skip_space, skip_cons (by decide), value_str, stringRest_bare hh]; rfl)
      (skip_cons (by decide) _) (by rw [skip_space, skip_cons (by decide)]; exact m1)
    rw [m2]
    rfl
  unfold parse
  have hsk : skip (objectText w t units total) = objectText w t units total := by rw [htext]; exact skip_cons (by decide) _
  rw [hsk, hn', key]
  rfl

example : Bare demoWords.header ∧ Bare demoWords.unit ∧ Decimal "5120.5".toList
    ∧ String.ofList (objectText demoWords demoTimes 512 (some 1024)) = "{\"header\": \"SBX block scanning progress\", \"unit\": \"bytes\",\"unitsSoFar\": 512 ,\"totalUnits\": 1024 ,\"curPerSec\": 5120.5 ,\"avgPerSec\": 5120 ,\"timeUsed\": 7.25 ,\"timeLeft\": 9 }" :=
  ⟨by decide, by decide, ⟨"5120".toList, ".5".toList, rfl, by decide, by decide, fun r h => absurd (List.cons.inj h).1 (by decide), Or.inr ⟨['5'], rfl, by decide, by decide⟩⟩,
    by decide +kernel⟩

end

end Verif.Progress
