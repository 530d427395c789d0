import Verif.Model.LineWriter
import Verif.Spec.Device
import Verif.Lemmas.DeviceOut

namespace Verif.Device
open DeviceSpec

namespace LineWriter

theorem lines_none : ∀ {bs : List Byte}, lines bs = none → 10 ∉ bs := by
  intro bs
  induction bs with
  | nil => simp
  | cons b bs ih =>
    intro h
    unfold lines at h
    split at h
    · cases h
    · rename_i hb
      split at h
      · cases h
      · rename_i hn
        simp only [List.mem_cons, not_or]
        exact ⟨fun e => hn e.symm, ih hb⟩

theorem lines_some : ∀ {bs : List Byte} {n : Nat}, lines bs = some n →
    ∃ pre rest, bs = pre ++ 10 :: rest ∧ 10 ∉ rest ∧ n = pre.length + 1 := by
  intro bs
  induction bs with
  | nil => intro n h; cases h
  | cons b bs ih =>
    intro n h
    unfold lines at h
    split at h
    · rename_i m hm
      simp only [Option.some.injEq] at h
      obtain ⟨pre, rest, h1, h2, h3⟩ := ih hm
      exact ⟨b :: pre, rest, by rw [h1]; rfl, h2, by rw [← h, h3]; rfl⟩
    · rename_i hm
      split at h
      · rename_i hb
        simp only [Option.some.injEq] at h
        exact ⟨[], bs, by rw [hb]; rfl, lines_none hm, h.symm⟩
      · cases h

theorem takeWhile_append_stop {l : List Byte} (h : 10 ∉ l) (l' : List Byte) : (l ++ 10 :: l').takeWhile (fun b => b ≠ 10) = l := by
  induction l with
  | nil => simp
  | cons b l ih =>
    simp only [List.mem_cons, not_or] at h
    rw [List.cons_append, List.takeWhile_cons, if_pos (by simpa using fun e => h.1 e.symm), ih h.2]

theorem afterLines_eq (pre : List Byte) {rest : List Byte} (h : 10 ∉ rest) : afterLines (pre ++ 10 :: rest) = rest := by
  unfold afterLines
  rw [List.reverse_append, List.reverse_cons, List.append_assoc, List.singleton_append,
    takeWhile_append_stop (by simpa using h), List.reverse_reverse]

theorem bufWrite_exit (w : LineWriter) (bs : List Byte) : (w.bufWrite bs).1.exit = w.exit ++ bs ∧ (w.bufWrite bs).2 = bs.length := by
  unfold bufWrite
  by_cases h1 : bs.length < capacity - w.buf.length
  · rw [if_pos h1]; simp [exit, flush]
  · rw [if_neg h1]
    by_cases h2 : capacity - w.buf.length < bs.length
    · simp only [if_pos h2]
      split <;> simp [exit, flush]
    · simp only [if_neg h2]
      by_cases h3 : capacity ≤ bs.length
      · have : w.buf = [] := by
          have : w.buf.length = 0 := by have : 0 < capacity := by decide
                                        omega
          exact List.length_eq_zero_iff.1 this
        rw [if_pos h3]
        simp [exit, flush, this]
      · rw [if_neg h3]; simp [exit, flush]

theorem flushIfCompleted_exit (w : LineWriter) : w.flushIfCompleted.exit = w.exit := by
  unfold flushIfCompleted
  split
  · simp [exit, flush]
  · rfl

/-- A piece written adds the bytes taken, and that is the number returned. -/
theorem write_exit (w : LineWriter) (bs : List Byte) :
    (w.write bs).1.exit = w.exit ++ bs.take (lineTaken bs) ∧ (w.write bs).2 = lineTaken bs := by
  unfold write
  cases h : lines bs with
  | none =>
    have hn := lines_none h
    obtain ⟨h1, h2⟩ := bufWrite_exit w.flushIfCompleted bs
    simp only [h1, h2, flushIfCompleted_exit, lineTaken, if_neg hn, List.take_length, and_self]
  | some n =>
    obtain ⟨pre, rest, rfl, hr, rfl⟩ := lines_some h
    have hm : (10 : Byte) ∈ pre ++ 10 :: rest := by simp
    have e1 : (pre ++ 10 :: rest).take (pre.length + 1) = pre ++ [10] := by
      rw [List.take_append]; simp
    have e2 : (pre ++ 10 :: rest).drop (pre.length + 1) = rest := by
      rw [List.drop_append]; simp
    have e3 : lineTaken (pre ++ 10 :: rest) = pre.length + 1 + min 1024 rest.length := by
      unfold lineTaken
      rw [if_pos hm, afterLines_eq pre hr]
      simp only [List.length_append, List.length_cons]
      omega
    have e4 : (pre ++ 10 :: rest).take (lineTaken (pre ++ 10 :: rest)) = pre ++ 10 :: rest.take 1024 := by
      rw [e3]
      have : pre ++ 10 :: rest = (pre ++ [10]) ++ rest := by simp
      rw [this, List.take_append, List.take_of_length_le (by simp)]
      simp only [List.length_append, List.length_cons, List.length_nil, Nat.zero_add, Nat.add_sub_cancel_left, List.append_assoc,
        List.singleton_append]
      congr 2
      rw [List.take_eq_take_iff]
      omega
    refine ⟨?_, ?_⟩
    · rw [e4]
      simp [exit, flush, e1, e2, capacity]
    · rw [e3]
      simp [e2, capacity]

end LineWriter

/-- What is at standard output at the end of the program is what arrives. -/
theorem lineWriter_arrives (chunks : List (List Byte)) : ∀ (w : LineWriter) n,
    ∃ out, arrives lineBuffered n chunks = some out ∧ (w.writes chunks).exit = w.exit ++ out := by
  induction chunks with
  | nil => intro w n; exact ⟨[], rfl, by simp [LineWriter.writes]⟩
  | cons c cs ih =>
    intro w n
    obtain ⟨out, h1, h2⟩ := ih (w.write c).1 (n + 1)
    refine ⟨c.take (lineTaken c) ++ out, ?_, ?_⟩
    · rw [arrives, h1]
      rfl
    · have : w.writes (c :: cs) = (w.write c).1.writes cs := rfl
      rw [this, h2, (LineWriter.write_exit w c).1, List.append_assoc]

theorem lineTaken_short {bs : List Byte} (h : bs.length ≤ 1024) : lineTaken bs = bs.length := by
  have : (afterLines bs).length ≤ bs.length := by
    unfold afterLines
    rw [List.length_reverse, ← List.length_reverse (as := bs)]
    exact (List.takeWhile_prefix _).length_le
  unfold lineTaken
  split <;> omega

theorem lineTaken_noLine {bs : List Byte} (h : 10 ∉ bs) : lineTaken bs = bs.length := by
  unfold lineTaken
  rw [if_neg h]

theorem arrives_lines_all : ∀ (chunks : List (List Byte)) n out, (∀ c ∈ chunks, lineTaken c = c.length) →
    arrives lineBuffered n chunks = some out → out = chunks.flatten := by
  intro chunks
  induction chunks with
  | nil => intro n out _ h; simp [arrives] at h; simp [h]
  | cons c cs ih =>
    intro n out hc h
    rw [arrives] at h
    cases ha : arrives lineBuffered (n + 1) cs with
    | none => rw [ha] at h; cases h
    | some out' =>
      rw [ha] at h
      simp only [lineBuffered, Option.some.injEq] at h
      rw [← h, hc c List.mem_cons_self, List.take_length, ih (n + 1) out' (fun x hx => hc x (List.mem_cons_of_mem _ hx)) ha]
      rfl

end Verif.Device
