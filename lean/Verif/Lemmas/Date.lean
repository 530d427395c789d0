import Verif.Spec.Date
import Verif.Lemmas.Report
import Mathlib.Logic.Function.Iterate
/-!
# Lemmas about the calendar and the texts of dates
-/

namespace Verif.DateSpec
open Json Date Report

/-! ### Days are numbered -/

/-- Days before the first of January of a year. -/
def yearStart (y : Int) : Int := 365 * (y - 1970) + ((y - 1) / 4 - (y - 1) / 100 + (y - 1) / 400) - 477

/-- Days of a year before a month. -/
def monthStart (y : Int) (m : Nat) : Nat := ((List.range (m - 1)).map fun i => monthLen y (i + 1)).sum

/-- The number of a day. -/
def Day.number (x : Day) : Int := yearStart x.year + monthStart x.year x.month + x.day - 1

theorem leap_iff (y : Int) : leap y = true ↔ y % 4 = 0 ∧ (y % 100 ≠ 0 ∨ y % 400 = 0) := by
  unfold leap; exact decide_eq_true_iff

theorem monthStart_succ (y : Int) {m : Nat} (h : 1 ≤ m) : monthStart y (m + 1) = monthStart y m + monthLen y m := by
  unfold monthStart
  rw [show m + 1 - 1 = (m - 1) + 1 by omega, List.range_succ, List.map_append, List.sum_append, List.map_singleton, List.sum_singleton,
    Nat.sub_add_cancel h]

theorem year_length (y : Int) : monthStart y 12 + 31 = if leap y then 366 else 365 := by
  unfold monthStart monthLen
  cases leap y <;> decide

theorem yearStart_succ (y : Int) : yearStart (y + 1) = yearStart y + (if leap y then 366 else 365) := by
  unfold yearStart
  split
  · rename_i h
    rw [leap_iff] at h
    omega
  · rename_i h
    rw [leap_iff] at h
    omega

theorem monthLen_pos (y : Int) (m : Nat) : 28 ≤ monthLen y m ∧ monthLen y m ≤ 31 := by
  unfold monthLen
  split
  · split <;> omega
  · split <;> omega

theorem next_exists {x : Day} (h : x.Exists) : x.next.Exists := by
  obtain ⟨h1, h2, h3, h4⟩ := h
  unfold Day.next
  split
  · exact ⟨h1, h2, Nat.le_add_left _ _, by assumption⟩
  · split
    · exact ⟨Nat.le_add_left _ _, by assumption, Nat.le_refl _, by have := (monthLen_pos x.year (x.month + 1)).1; simp only; omega⟩
    · exact ⟨Nat.le_refl _, by simp only; omega, Nat.le_refl _, by have := (monthLen_pos (x.year + 1) 1).1; simp only; omega⟩

theorem next_number {x : Day} (h : x.Exists) : x.next.number = x.number + 1 := by
  obtain ⟨h1, h2, h3, h4⟩ := h
  unfold Day.next Day.number
  split
  · simp only; omega
  · split
    · simp only
      rw [monthStart_succ _ h1]
      omega
    · have hm : x.month = 12 := by omega
      have e := year_length x.year
      have hl : monthLen x.year 12 = 31 := rfl
      rename_i hd _
      rw [hm, hl] at hd h4
      simp only
      rw [yearStart_succ, hm, show monthStart (x.year + 1) 1 = 0 from rfl]
      split
      · rename_i hlp; rw [if_pos hlp] at e; omega
      · rename_i hlp; rw [if_neg hlp] at e; omega

theorem IsCalendar.number {cal : Int → Day} (h : IsCalendar cal) (n : Int) : (cal n).number = n := by
  induction n using Int.induction_on with
  | zero => rw [h.epoch]; rfl
  | succ k ih => rw [h.next, next_number (h.valid _), ih]
  | pred k ih =>
    have e := h.next (-(k : Int) - 1)
    rw [Int.sub_add_cancel] at e
    have := next_number (h.valid (-(k : Int) - 1))
    rw [← e, ih] at this
    omega

/-! ### The calendar exists and is unique -/

/-- The day before. -/
def Day.prev (x : Day) : Day :=
  if 1 < x.day then ⟨x.year, x.month, x.day - 1⟩
  else if 1 < x.month then ⟨x.year, x.month - 1, monthLen x.year (x.month - 1)⟩
  else ⟨x.year - 1, 12, 31⟩

theorem prev_exists {x : Day} (h : x.Exists) : x.prev.Exists := by
  obtain ⟨h1, h2, h3, h4⟩ := h
  unfold Day.prev
  split
  · exact ⟨h1, h2, by simp only; omega, by simp only; omega⟩
  · split
    · exact ⟨by simp only; omega, by simp only; omega, by have := (monthLen_pos x.year (x.month - 1)).1; simp only; omega, Nat.le_refl _⟩
    · exact ⟨by simp only; decide, by simp only; decide, by simp only; decide, by simp only; exact Nat.le_refl _⟩

theorem next_prev {x : Day} (h : x.Exists) : x.prev.next = x := by
  obtain ⟨y, m, d⟩ := x
  obtain ⟨h1, h2, h3, h4⟩ := h
  simp only at h1 h2 h3 h4
  unfold Day.prev
  by_cases hd : 1 < d
  · simp only [if_pos hd, Day.next]
    rw [if_pos (by omega), Nat.sub_add_cancel h3]
  · by_cases hm : 1 < m
    · simp only [if_neg hd, if_pos hm, Day.next]
      rw [if_neg (Nat.lt_irrefl _), if_pos (by omega), Nat.sub_add_cancel h1, show d = 1 by omega]
    · simp only [if_neg hd, if_neg hm, Day.next]
      rw [if_neg (by show ¬ 31 < 31; omega), if_neg (by omega), Int.sub_add_cancel, show d = 1 by omega, show m = 1 by omega]

/-- The calendar. -/
def calendar : Int → Day
  | .ofNat n => Day.next^[n] ⟨1970, 1, 1⟩
  | .negSucc n => Day.prev^[n + 1] ⟨1970, 1, 1⟩

theorem iterate_exists {g : Day → Day} (hg : ∀ {x : Day}, x.Exists → (g x).Exists) (n : Nat) {x : Day} (h : x.Exists) : (g^[n] x).Exists := by
  induction n with
  | zero => exact h
  | succ n ih => rw [Function.iterate_succ_apply']; exact hg ih

theorem epoch_exists : (⟨1970, 1, 1⟩ : Day).Exists := ⟨by decide, by decide, by decide, by decide⟩

theorem calendar_ok : IsCalendar calendar where
  valid n := by
    cases n with
    | ofNat n => exact iterate_exists next_exists n epoch_exists
    | negSucc n => exact iterate_exists prev_exists (n + 1) epoch_exists
  epoch := rfl
  next n := by
    cases n with
    | ofNat n => exact Function.iterate_succ_apply' Day.next n _
    | negSucc n =>
      cases n with
      | zero => rfl
      | succ n =>
        show Day.prev^[n + 1] ⟨1970, 1, 1⟩ = (Day.prev^[n + 1 + 1] ⟨1970, 1, 1⟩).next
        rw [Function.iterate_succ_apply' Day.prev (n + 1), next_prev (iterate_exists prev_exists (n + 1) epoch_exists)]

theorem next_inj {x y : Day} (hx : x.Exists) (hy : y.Exists) (h : x.next = y.next) : x = y := by
  obtain ⟨a, m, d⟩ := x
  obtain ⟨b, n, e⟩ := y
  obtain ⟨h1, h2, h3, h4⟩ := hx
  obtain ⟨k1, k2, k3, k4⟩ := hy
  unfold Day.next at h
  simp only at h1 h2 h3 h4 k1 k2 k3 k4 h
  have := monthLen_pos a m
  have := monthLen_pos b n
  by_cases c1 : d < monthLen a m
  · rw [if_pos c1] at h
    by_cases c2 : e < monthLen b n
    · rw [if_pos c2] at h
      simp only [Day.mk.injEq] at h ⊢
      omega
    · rw [if_neg c2] at h
      split at h <;> simp only [Day.mk.injEq] at h <;> omega
  · rw [if_neg c1] at h
    by_cases c2 : e < monthLen b n
    · rw [if_pos c2] at h
      split at h <;> simp only [Day.mk.injEq] at h <;> omega
    · rw [if_neg c2] at h
      split at h <;> split at h <;> simp only [Day.mk.injEq] at h
      · obtain ⟨rfl, hm, -⟩ := h
        have : m = n := by omega
        subst this
        simp only [Day.mk.injEq, true_and]
        omega
      · omega
      · omega
      · have : a = b := by omega
        have : m = n := by omega
        subst a m
        simp only [Day.mk.injEq, true_and]
        omega

theorem calendar_unique {cal cal' : Int → Day} (h : IsCalendar cal) (h' : IsCalendar cal') : cal = cal' := by
  funext n
  induction n using Int.induction_on with
  | zero => rw [h.epoch, h'.epoch]
  | succ k ih => rw [h.next, h'.next, ih]
  | pred k ih =>
    apply next_inj (h.valid _) (h'.valid _)
    rw [← h.next, ← h'.next, Int.sub_add_cancel, ih]

/-! ### Texts -/

theorem pad2_two : ∀ n < 100, pad2 (n : Nat) = [Nat.digitChar (n / 10), Nat.digitChar (n % 10)] ∧
    readNat [Nat.digitChar (n / 10), Nat.digitChar (n % 10)] = some n := by
  decide +kernel

theorem readNat_dec (n : Nat) : readNat (dec n) = some n := by
  unfold readNat dec
  have : (Nat.toDigits 10 n).all Char.isDigit = true := by
    rw [List.all_eq_true]
    exact fun c hc => Nat.isDigit_of_mem_toDigits (by omega) (by omega) hc
  rw [if_pos ⟨Nat.toDigits_ne_nil, this⟩, Nat.ofDigitChars_ten_toDigits]

theorem dec_head (n : Nat) : ∃ c r, dec n = c :: r ∧ c.isDigit = true := by
  cases h : dec n with
  | nil => exact absurd h Nat.toDigits_ne_nil
  | cons c r =>
    refine ⟨c, r, rfl, Nat.isDigit_of_mem_toDigits (b := 10) (n := n) (by omega) (by omega) ?_⟩
    unfold dec at h
    rw [h]
    exact List.mem_cons_self

theorem readInt_text (y : Int) : readInt (intText y) = some y := by
  unfold intText
  split
  · unfold readInt
    simp only
    rw [readNat_dec, Option.map_some]
    congr 1
    rw [Int.ofNat_eq_natCast]
    omega
  · obtain ⟨c, r, e, hc⟩ := dec_head y.natAbs
    have hne : c ≠ '-' := by rintro rfl; revert hc; decide
    rw [e]
    unfold readInt
    split
    · rename_i h
      exact absurd (List.cons.inj h).1 hne
    · rw [← e, readNat_dec, Option.map_some]
      congr 1
      rw [Int.ofNat_eq_natCast]
      omega

/-- Texts of two-digit numbers are read back. -/
theorem readDate_format {x : DateTime} (h1 : x.month < 100) (h2 : x.day < 100) (h3 : x.hour < 100) (h4 : x.minute < 100) (h5 : x.second < 100) :
    readDate (format x) = some x := by
  obtain ⟨e1, r1⟩ := pad2_two _ h1
  obtain ⟨e2, r2⟩ := pad2_two _ h2
  obtain ⟨e3, r3⟩ := pad2_two _ h3
  obtain ⟨e4, r4⟩ := pad2_two _ h4
  obtain ⟨e5, r5⟩ := pad2_two _ h5
  unfold readDate format
  rw [e1, e2, e3, e4, e5]
  simp only [List.reverse_append, List.reverse_cons, List.reverse_nil, List.nil_append, List.cons_append, List.append_assoc,
    List.reverse_reverse, r1, r2, r3, r4, r5, readInt_text]
  rfl

end Verif.DateSpec
