import Verif.Model.File
import Mathlib.Tactic.Ring
/-!
# Files seen as sequences of equally long units
-/

namespace Verif.File

variable {u : Nat}

/-- The `k`-th unit of `u` bytes. -/
def unit (u : Nat) (f : File) (k : Nat) : List Byte := readAt f (k * u) u

/-- The `k`-th unit, zeros beyond the end. -/
def unit0 (u : Nat) (f : File) (k : Nat) : List Byte := if k * u < f.length then unit u f k else List.replicate u 0

/-- The last of the writes to unit `k`. -/
def lastWrite (ws : List (Nat × List Byte)) (k : Nat) : Option (List Byte) :=
  (ws.reverse.find? (·.1 == k)).map (·.2)

/-- The writes with unit indices turned into positions. -/
def atPos (u : Nat) (ws : List (Nat × List Byte)) : List (Nat × List Byte) := ws.map fun w => (w.1 * u, w.2)

theorem readAt_length (f : File) (pos n : Nat) : (readAt f pos n).length = min n (f.length - pos) := by
  simp [readAt]

theorem readAt_append_left {a b : File} {pos n : Nat} (h : pos + n ≤ a.length) : readAt (a ++ b) pos n = readAt a pos n := by
  unfold readAt
  rw [List.drop_append_of_le_length (by omega), List.take_append_of_le_length (by simp; omega)]

theorem readAt_append_right {a b : File} {pos n : Nat} (h : a.length ≤ pos) : readAt (a ++ b) pos n = readAt b (pos - a.length) n := by
  unfold readAt
  rw [List.drop_append, List.drop_eq_nil_of_le h, List.nil_append]

theorem getElem?_readAt (f : File) (pos n i : Nat) : (readAt f pos n)[i]? = if i < n then f[pos + i]? else none := by
  unfold readAt
  rw [List.getElem?_take]
  split
  · rw [List.getElem?_drop]
  · rfl

/-- Bytes after a write. -/
theorem getElem?_writeAt (f : File) (pos : Nat) (d : List Byte) (hd : d ≠ []) (i : Nat) :
    (writeAt f pos d)[i]? =
      if i < pos then (if i < f.length then f[i]? else some 0)
      else if i < pos + d.length then d[i - pos]? else f[i]? := by
  unfold writeAt
  rw [if_neg hd]
  by_cases h1 : i < pos
  · rw [if_pos h1]
    by_cases h2 : i < f.length
    · rw [if_pos h2, List.append_assoc, List.append_assoc, List.getElem?_append_left (by simp; omega), List.getElem?_take_of_lt h1]
    · rw [if_neg h2, List.append_assoc, List.getElem?_append_left (by simp; omega),
        List.getElem?_append_right (by simp; omega), List.getElem?_replicate, if_pos]
      simp; omega
  · rw [if_neg h1]
    have hl : (f.take pos ++ List.replicate (pos - f.length) 0).length = pos := by simp; omega
    by_cases h2 : i < pos + d.length
    · rw [if_pos h2, List.append_assoc, List.getElem?_append_right (by omega), hl, List.getElem?_append_left (by omega)]
    · rw [if_neg h2, List.append_assoc, List.getElem?_append_right (by omega), hl, List.getElem?_append_right (by omega),
        List.getElem?_drop]
      congr 1; omega

theorem writeAt_length (f : File) (pos : Nat) (d : List Byte) (hd : d ≠ []) :
    (writeAt f pos d).length = max f.length (pos + d.length) := by
  unfold writeAt
  rw [if_neg hd]
  simp; omega

theorem unit_length (hd : u ∣ f.length) {k : Nat} (h : k * u < f.length) : (unit u f k).length = u := by
  obtain ⟨m, hm⟩ := hd
  rw [unit, readAt_length, hm]
  rw [hm, Nat.mul_comm] at h
  have hkm : k < m := Nat.lt_of_mul_lt_mul_left h
  have : (k + 1) * u ≤ m * u := Nat.mul_le_mul_right _ hkm
  rw [Nat.succ_mul] at this
  rw [Nat.mul_comm u m]; omega

theorem unit_eq_nil {f : File} {k : Nat} (h : f.length ≤ k * u) : unit u f k = [] := by
  simp [unit, readAt, List.drop_eq_nil_of_le h]

theorem unit_writeAt (hu : 0 < u) {f : File} (hf : u ∣ f.length) {j : Nat} {d : List Byte} (hd : d.length = u) :
    u ∣ (writeAt f (j * u) d).length ∧ (writeAt f (j * u) d).length = max f.length ((j + 1) * u) ∧
    ∀ k, k * u < (writeAt f (j * u) d).length → unit u (writeAt f (j * u) d) k = if k = j then d else unit0 u f k := by
  have hne : d ≠ [] := by rintro rfl; simp at hd; omega
  have hl := writeAt_length f (j * u) d hne
  rw [hd] at hl
  have hl2 : (writeAt f (j * u) d).length = max f.length ((j + 1) * u) := by rw [hl, Nat.succ_mul]
  have hdv : u ∣ (writeAt f (j * u) d).length := by
    rw [hl2]
    rcases Nat.le_total f.length ((j + 1) * u) with h | h
    · rw [Nat.max_eq_right h]; exact Dvd.intro_left _ rfl
    · rw [Nat.max_eq_left h]; exact hf
  refine ⟨hdv, hl2, ?_⟩
  intro k hk
  have hkl := unit_length hdv hk
  apply List.ext_getElem?
  intro i
  by_cases hi : i < u
  · rw [unit, getElem?_readAt, if_pos hi, getElem?_writeAt _ _ _ hne, hd]
    by_cases hkj : k = j
    · subst hkj
      rw [if_neg (by omega), if_pos (by omega), if_pos rfl]
      congr 1; omega
    · rw [if_neg hkj]
      have hcmp : k * u + u ≤ j * u ∨ j * u + u ≤ k * u := by
        rcases Nat.lt_or_gt_of_ne hkj with h | h
        · left; have : (k + 1) * u ≤ j * u := Nat.mul_le_mul_right _ h
          rwa [Nat.succ_mul] at this
        · right; have : (j + 1) * u ≤ k * u := Nat.mul_le_mul_right _ h
          rwa [Nat.succ_mul] at this
      unfold unit0
      by_cases hkf : k * u < f.length
      · have hfl := unit_length hf hkf
        rw [if_pos hkf, unit, getElem?_readAt, if_pos hi]
        have hin : k * u + i < f.length := by
          rw [unit, readAt_length] at hfl; omega
        rcases hcmp with h | h
        · rw [if_pos (by omega), if_pos hin]
        · rw [if_neg (by omega), if_neg (by omega)]
      · rw [if_neg hkf, List.getElem?_replicate, if_pos hi]
        rcases hcmp with h | h
        · rw [if_pos (by omega), if_neg (by omega)]
        · rw [hl] at hk; omega
  · rw [List.getElem?_eq_none (by omega)]
    symm
    apply List.getElem?_eq_none
    split
    · omega
    · unfold unit0
      split
      · rename_i h1 h2; rw [unit_length hf h2]; omega
      · simp; omega

/-- A write of less than a unit leaves the other units alone. -/
theorem unit_torn {f : File} (hf : u ∣ f.length) {j : Nat} {d : List Byte} (hd : d.length ≤ u) {k : Nat} (hkj : k ≠ j)
    (hk : (k + 1) * u ≤ (writeAt f (j * u) d).length) : unit u (writeAt f (j * u) d) k = unit0 u f k := by
  by_cases hne : d = []
  · subst hne
    have e : writeAt f (j * u) [] = f := by simp [writeAt]
    rw [e] at hk ⊢
    by_cases hu : u = 0
    · subst hu; simp [unit, unit0, readAt]
    · rw [unit0, if_pos (by rw [Nat.succ_mul] at hk; omega)]
  have hl := writeAt_length f (j * u) d hne
  rw [Nat.succ_mul] at hk
  have hkl : (unit u (writeAt f (j * u) d) k).length = u := by rw [unit, readAt_length]; omega
  apply List.ext_getElem?
  intro i
  by_cases hi : i < u
  · rw [unit, getElem?_readAt, if_pos hi, getElem?_writeAt _ _ _ hne]
    have hcmp : k * u + u ≤ j * u ∨ j * u + u ≤ k * u := by
      rcases Nat.lt_or_gt_of_ne hkj with h | h
      · left; have : (k + 1) * u ≤ j * u := Nat.mul_le_mul_right _ h
        rwa [Nat.succ_mul] at this
      · right; have : (j + 1) * u ≤ k * u := Nat.mul_le_mul_right _ h
        rwa [Nat.succ_mul] at this
    unfold unit0
    by_cases hkf : k * u < f.length
    · have hfl := unit_length hf hkf
      rw [if_pos hkf, unit, getElem?_readAt, if_pos hi]
      have hin : k * u + i < f.length := by
        rw [unit, readAt_length] at hfl; omega
      rcases hcmp with h | h
      · rw [if_pos (by omega), if_pos hin]
      · rw [if_neg (by omega), if_neg (by omega)]
    · rw [if_neg hkf, List.getElem?_replicate, if_pos hi]
      rcases hcmp with h | h
      · rw [if_pos (by omega), if_neg (by omega)]
      · omega
  · rw [List.getElem?_eq_none (by omega)]
    symm
    apply List.getElem?_eq_none
    unfold unit0
    split
    · rename_i h2; rw [unit_length hf h2]; omega
    · simp; omega

/-- Number of units after a sequence of writes. -/
def maxUnits (n : Nat) (ws : List (Nat × List Byte)) : Nat := ws.foldl (fun n w => max n (w.1 + 1)) n

theorem maxUnits_le {n m : Nat} {ws : List (Nat × List Byte)} : maxUnits n ws ≤ m ↔ n ≤ m ∧ ∀ w ∈ ws, w.1 < m := by
  induction ws generalizing n with
  | nil => simp [maxUnits]
  | cons w ws ih =>
    show maxUnits (max n (w.1 + 1)) ws ≤ m ↔ _
    rw [ih]
    simp only [List.mem_cons, forall_eq_or_imp]
    constructor
    · rintro ⟨h1, h2⟩; exact ⟨by omega, by omega, h2⟩
    · rintro ⟨h1, h2, h3⟩; exact ⟨by omega, h3⟩

theorem lastWrite_append (a b : List (Nat × List Byte)) (k : Nat) : lastWrite (a ++ b) k = (lastWrite b k).or (lastWrite a k) := by
  unfold lastWrite
  rw [List.reverse_append, List.find?_append]
  cases b.reverse.find? (·.1 == k) <;> simp

theorem lastWrite_cons (w : Nat × List Byte) (ws : List (Nat × List Byte)) (k : Nat) :
    lastWrite (w :: ws) k = (lastWrite ws k).or (if w.1 = k then some w.2 else none) := by
  rw [show w :: ws = [w] ++ ws from rfl, lastWrite_append]
  congr 1
  unfold lastWrite
  by_cases h : w.1 = k <;> simp [h]

theorem lastWrite_some {ws : List (Nat × List Byte)} {k : Nat} {d : List Byte} (h : lastWrite ws k = some d) : (k, d) ∈ ws := by
  unfold lastWrite at h
  rw [Option.map_eq_some_iff] at h
  obtain ⟨w, hw, rfl⟩ := h
  have h1 := List.mem_of_find?_eq_some hw
  have h2 := List.find?_some hw
  simp at h1 h2
  rw [← h2]; exact h1

theorem lastWrite_none {ws : List (Nat × List Byte)} {k : Nat} : lastWrite ws k = none ↔ ∀ w ∈ ws, w.1 ≠ k := by
  unfold lastWrite
  rw [Option.map_eq_none_iff, List.find?_eq_none]
  simp only [List.mem_reverse, beq_iff_eq, ne_eq]

/-- If all writes to unit `k` carry the same bytes, the order does not matter. -/
theorem lastWrite_of_all {ws : List (Nat × List Byte)} {k : Nat} {d : List Byte} (hm : ∃ w ∈ ws, w.1 = k)
    (h : ∀ w ∈ ws, w.1 = k → w.2 = d) : lastWrite ws k = some d := by
  cases hl : lastWrite ws k with
  | none =>
    obtain ⟨w, hw, hk⟩ := hm
    exact absurd hk (lastWrite_none.1 hl w hw)
  | some d' => exact congrArg some (h _ (lastWrite_some hl) rfl)

/-- The content of a file after a sequence of unit-aligned writes. -/
theorem unit_writes (hu : 0 < u) (ws : List (Nat × List Byte)) (hw : ∀ w ∈ ws, w.2.length = u) :
    ∀ {f : File}, u ∣ f.length →
    (writes f (atPos u ws)).length = maxUnits (f.length / u) ws * u ∧
    ∀ k, k < maxUnits (f.length / u) ws → unit u (writes f (atPos u ws)) k = (lastWrite ws k).getD (unit0 u f k) := by
  induction ws with
  | nil =>
    intro f hf
    refine ⟨(Nat.div_mul_cancel hf).symm, ?_⟩
    intro k hk
    simp only [maxUnits, List.foldl_nil] at hk
    have : k * u < f.length := by rw [← Nat.div_mul_cancel hf]; exact Nat.mul_lt_mul_of_pos_right hk hu
    simp [writes, atPos, lastWrite, unit0, this]
  | cons w ws ih =>
    intro f hf
    obtain ⟨h1, h2, h3⟩ := unit_writeAt hu hf (hw w List.mem_cons_self) (j := w.1)
    obtain ⟨i1, i2⟩ := ih (fun x hx => hw x (List.mem_cons_of_mem _ hx)) h1
    have hdiv : (writeAt f (w.1 * u) w.2).length / u = max (f.length / u) (w.1 + 1) := by
      rw [h2]
      rcases Nat.le_total f.length ((w.1 + 1) * u) with h | h
      · rw [Nat.max_eq_right h, Nat.mul_div_cancel _ hu]
        have := Nat.div_le_div_right (c := u) h
        rw [Nat.mul_div_cancel _ hu] at this
        omega
      · rw [Nat.max_eq_left h]
        have := Nat.div_le_div_right (c := u) h
        rw [Nat.mul_div_cancel _ hu] at this
        omega
    rw [hdiv] at i1 i2
    have hmu : maxUnits (f.length / u) (w :: ws) = maxUnits (max (f.length / u) (w.1 + 1)) ws := rfl
    rw [hmu]
    refine ⟨i1, ?_⟩
    intro k hk
    have := i2 k hk
    show unit u (writes (writeAt f (w.1 * u) w.2) (atPos u ws)) k = _
    rw [this, lastWrite_cons]
    cases hl : lastWrite ws k with
    | some d => simp
    | none =>
      simp only [Option.getD_none, Option.none_or]
      by_cases hkl : k * u < (writeAt f (w.1 * u) w.2).length
      · rw [unit0, if_pos hkl, h3 k hkl]
        by_cases hkj : k = w.1
        · simp [hkj]
        · have : ¬ w.1 = k := fun h => hkj h.symm
          simp [hkj, this]
      · rw [unit0, if_neg hkl]
        rw [h2] at hkl
        have hwk : ¬ w.1 = k := by rintro rfl; rw [Nat.succ_mul] at hkl; omega
        simp only [if_neg hwk, Option.getD_none, unit0]
        rw [if_neg (by omega)]

theorem writes_append (f : File) (a b : List (Nat × List Byte)) : writes f (a ++ b) = writes (writes f a) b := by
  simp [writes]

/-- A file that consists of whole units is determined by them. -/
theorem ext_units (hu : 0 < u) {f g : File} (n : Nat) (hf : f.length = n * u) (hg : g.length = n * u)
    (h : ∀ k < n, unit u f k = unit u g k) : f = g := by
  apply List.ext_getElem?
  intro i
  by_cases hi : i < n * u
  · have hk : i / u < n := (Nat.div_lt_iff_lt_mul hu).2 hi
    have := congrArg (fun l => l[i % u]?) (h (i / u) hk)
    simp only [unit, getElem?_readAt, if_pos (Nat.mod_lt i hu)] at this
    have e : i / u * u + i % u = i := by rw [Nat.mul_comm]; exact Nat.div_add_mod i u
    rwa [e] at this
  · rw [List.getElem?_eq_none (by omega), List.getElem?_eq_none (by omega)]

/-- Units of a concatenation of blocks. -/
theorem unit_flatten (bs : List (List Byte)) (hb : ∀ b ∈ bs, b.length = u) (k : Nat) :
    unit u bs.flatten k = (bs[k]?).getD [] := by
  induction bs generalizing k with
  | nil => simp [unit, readAt]
  | cons b bs ih =>
    have hl := hb b List.mem_cons_self
    cases k with
    | zero => simp [unit, readAt, ← hl]
    | succ k =>
      rw [unit, List.flatten_cons, readAt_append_right (by rw [hl, Nat.succ_mul]; omega), hl,
        show (k + 1) * u - u = k * u by rw [Nat.succ_mul]; omega]
      exact ih (fun x hx => hb x (List.mem_cons_of_mem _ hx)) k

end Verif.File

namespace Verif.Disk

/-- More writes. -/
def writes (d : Disk) (ws : List (Nat × List Byte)) : Disk := { d with ops := d.ops ++ ws }

theorem writes_nil (d : Disk) : d.writes [] = d := by simp [writes]

theorem writes_append (d : Disk) (a b : List (Nat × List Byte)) : d.writes (a ++ b) = (d.writes a).writes b := by
  simp [writes]

theorem file_writes (d : Disk) (ws : List (Nat × List Byte)) : (d.writes ws).file = File.writes d.file ws := by
  unfold file writes
  rw [File.writes_append]

theorem foldl_writeAt {α : Type} (g : α → Nat × List Byte) (l : List α) (d : Disk) :
    l.foldl (fun d a => d.writeAt (g a).1 (g a).2) d = d.writes (l.map g) := by
  induction l generalizing d with
  | nil => simp [writes]
  | cons a l ih =>
    rw [List.foldl_cons, ih, List.map_cons]
    simp [writes, writeAt]

end Verif.Disk
