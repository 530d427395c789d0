import Verif.Model.Rescue
/-!
# Lemmas about the rescue log
-/

namespace Verif.Rescue
open Misc

theorem digit_toNat {d : Nat} (h : d < 10) : (UInt8.ofNat (48 + d)).toNat = 48 + d := by
  rw [UInt8.toNat_ofNat']
  omega

theorem isDigit_ofNat {d : Nat} (h : d < 10) : isDigit (UInt8.ofNat (48 + d)) = true := by
  unfold isDigit
  rw [Bool.and_eq_true]
  constructor
  · apply decide_eq_true
    rw [UInt8.le_iff_toNat_le, digit_toNat h]
    show 48 ≤ _; omega
  · apply decide_eq_true
    rw [UInt8.le_iff_toNat_le, digit_toNat h]
    show _ ≤ 57; omega

theorem digitsOf_digits (k n : Nat) : ∀ b ∈ digitsOf k n, isDigit b = true := by
  induction k generalizing n with
  | zero => simp [digitsOf]
  | succ k ih =>
    intro b hb
    unfold digitsOf at hb
    split at hb
    · rename_i h
      rw [List.mem_singleton.1 hb]; exact isDigit_ofNat h
    · rcases List.mem_append.1 hb with hb | hb
      · exact ih _ b hb
      · rw [List.mem_singleton.1 hb]; exact isDigit_ofNat (Nat.mod_lt _ (by decide))

theorem digitsOf_length (k n : Nat) : (digitsOf k n).length ≤ k := by
  induction k generalizing n with
  | zero => simp [digitsOf]
  | succ k ih =>
    unfold digitsOf
    split
    · simp
    · have := ih (n / 10)
      simp; omega

theorem digitsOf_value (k n : Nat) (h : n < 10 ^ k) :
    (digitsOf k n).foldl (fun acc d => acc * 10 + (d.toNat - 48)) 0 = n := by
  induction k generalizing n with
  | zero => simp at h; simp [digitsOf, h]
  | succ k ih =>
    unfold digitsOf
    split
    · rename_i hn
      simp only [List.foldl_cons, List.foldl_nil, digit_toNat hn]; omega
    · rw [List.foldl_append, ih _ (by rw [Nat.pow_succ] at h; omega)]
      simp only [List.foldl_cons, List.foldl_nil, digit_toNat (Nat.mod_lt n (show 0 < 10 by decide))]
      omega

theorem decimal_ne_nil (n : Nat) : decimal n ≠ [] := by
  unfold decimal digitsOf
  split <;> simp

theorem parse_decimal {n : Nat} (h : n < 2 ^ 64) : parseU64 (decimal n) = some n := by
  unfold parseU64 decimal
  simp only
  rw [digitsOf_value 20 n (Nat.lt_trans h (by decide)), if_pos h]

theorem lineP_line (key : List Byte) (n : Nat) (rest : List Byte) :
    lineP key (key ++ decimal n ++ [10] ++ rest) = some (decimal n, rest) := by
  unfold lineP
  have hp : key.isPrefixOf (key ++ decimal n ++ [10] ++ rest) = true := by
    rw [List.isPrefixOf_iff_prefix, List.append_assoc, List.append_assoc]; exact List.prefix_append _ _
  have hd : (key ++ decimal n ++ [10] ++ rest).drop key.length = decimal n ++ (10 :: rest) := by
    rw [List.append_assoc, List.append_assoc, List.drop_left]; rfl
  have ht : (decimal n ++ (10 :: rest)).takeWhile isDigit = decimal n := by
    rw [List.takeWhile_append_of_pos (l₁ := decimal n) (fun b hb => digitsOf_digits 20 n b hb)]
    rw [List.takeWhile_cons_of_neg (by decide), List.append_nil]
  rw [if_pos hp, hd]
  simp only
  rw [ht, if_neg (decimal_ne_nil n), List.drop_left]
  rfl

/-- A line accepted by the parser. -/
theorem lineP_some {key s ds rest : List Byte} (h : lineP key s = some (ds, rest)) : s = key ++ ds ++ [10] ++ rest ∧
    ∀ b ∈ ds, isDigit b = true := by
  unfold lineP at h
  split at h
  · rename_i hp
    rw [List.isPrefixOf_iff_prefix] at hp
    obtain ⟨t, rfl⟩ := hp
    rw [List.drop_left] at h
    simp only at h
    split at h
    · simp at h
    · split at h
      · rename_i r hr
        simp only [Option.some.injEq, Prod.mk.injEq] at h
        obtain ⟨rfl, rfl⟩ := h
        refine ⟨?_, fun b hb => List.all_eq_true.1 List.all_takeWhile b hb⟩
        have h1 := List.takeWhile_append_dropWhile (p := isDigit) (l := t)
        have h2 : t.drop (t.takeWhile isDigit).length = t.dropWhile isDigit := by
          have h3 := List.drop_left (l₁ := t.takeWhile isDigit) (l₂ := t.dropWhile isDigit)
          rwa [h1] at h3
        rw [h2] at hr
        rw [hr] at h1
        simp only [List.append_assoc, List.singleton_append]
        rw [h1]
      · simp at h
  · simp at h

theorem statsP_serialize {c : Counters} (h1 : c.bytes < 2 ^ 64) (h2 : c.metas < 2 ^ 64) (h3 : c.datas < 2 ^ 64) (rest : List Byte) :
    statsP (c.serialize ++ rest) = some (c.bytes, (c.metas + c.datas) % 2 ^ 64, c.metas, c.datas) := by
  unfold statsP Counters.serialize
  have e : keyBytes ++ decimal c.bytes ++ [10] ++ (keyBlocks ++ decimal ((c.metas + c.datas) % 2 ^ 64) ++ [10]) ++
      (keyMetas ++ decimal c.metas ++ [10]) ++ (keyDatas ++ decimal c.datas ++ [10]) ++ rest =
      keyBytes ++ decimal c.bytes ++ [10] ++ (keyBlocks ++ decimal ((c.metas + c.datas) % 2 ^ 64) ++ [10] ++
      (keyMetas ++ decimal c.metas ++ [10] ++ (keyDatas ++ decimal c.datas ++ [10] ++ rest))) := by
    simp only [List.append_assoc]
  rw [e, lineP_line]
  simp only
  rw [lineP_line]
  simp only
  rw [lineP_line]
  simp only
  rw [lineP_line]
  simp only
  rw [parse_decimal h1, parse_decimal h2, parse_decimal h3, parse_decimal (Nat.mod_lt _ (by decide))]

theorem digits_no_newline {l : List Byte} (h : ∀ b ∈ l, isDigit b = true) : l.count 10 = 0 := by
  rw [List.count_eq_zero]
  intro hm
  have := h _ hm
  revert this; decide

/-- The parser needs four line ends. -/
theorem statsP_newlines {s : List Byte} {r : Nat × Nat × Nat × Nat} (h : statsP s = some r) : 4 ≤ s.count 10 := by
  unfold statsP at h
  split at h
  · simp at h
  · rename_i h1
    split at h
    · simp at h
    · rename_i h2
      split at h
      · simp at h
      · rename_i h3
        split at h
        · simp at h
        · rename_i h4
          rw [(lineP_some h1).1, (lineP_some h2).1, (lineP_some h3).1, (lineP_some h4).1]
          simp only [List.count_append, List.count_singleton_self]
          omega

theorem serialize_newlines (c : Counters) : c.serialize.count 10 = 4 := by
  unfold Counters.serialize
  have hk : ∀ n, (decimal n).count 10 = 0 := fun n => digits_no_newline (digitsOf_digits 20 n)
  have k1 : keyBytes.count 10 = 0 := by decide +kernel
  have k2 : keyBlocks.count 10 = 0 := by decide +kernel
  have k3 : keyMetas.count 10 = 0 := by decide +kernel
  have k4 : keyDatas.count 10 = 0 := by decide +kernel
  simp only [List.count_append, List.count_singleton_self, hk, k1, k2, k3, k4]

theorem serialize_length (c : Counters) : c.serialize.length ≤ logMaxSize := by
  unfold Counters.serialize
  have hk : ∀ n, (decimal n).length ≤ 20 := fun n => digitsOf_length 20 n
  have k1 : keyBytes.length = 16 := by decide +kernel
  have k2 : keyBlocks.length = 17 := by decide +kernel
  have k3 : keyMetas.length = 22 := by decide +kernel
  have k4 : keyDatas.length = 22 := by decide +kernel
  simp only [List.length_append, List.length_singleton, k1, k2, k3, k4]
  have h1 := hk c.bytes
  have h2 := hk ((c.metas + c.datas) % 2 ^ 64)
  have h3 := hk c.metas
  have h4 := hk c.datas
  unfold logMaxSize
  omega

theorem readLog_serialize (total : Nat) {c : Counters} (h1 : c.bytes < 2 ^ 64) (h2 : c.metas < 2 ^ 64) (h3 : c.datas < 2 ^ 64) :
    readLog total (some c.serialize) = some ⟨roundDown (min c.bytes total) 128, c.metas, c.datas⟩ := by
  unfold readLog deserialize File.readAt
  simp only [List.drop_zero]
  rw [List.take_of_length_le (serialize_length c), statsP_serialize h1 h2 h3]
  rfl

/-- A log that is cut short is not accepted. -/
theorem readLog_torn (total : Nat) (c : Counters) {n : Nat} (h : n < c.serialize.length) :
    readLog total (some (c.serialize.take n)) = none := by
  have hlen := serialize_length c
  unfold readLog deserialize File.readAt
  simp only [List.drop_zero]
  rw [List.take_of_length_le (by rw [List.length_take]; omega)]
  cases hs : statsP (c.serialize.take n ++ List.replicate (logMaxSize - (c.serialize.take n).length) 0) with
  | none => rfl
  | some r =>
    exfalso
    have h4 := statsP_newlines hs
    rw [List.count_append, List.count_replicate, if_neg (by decide)] at h4
    have htot := serialize_newlines c
    obtain ⟨init, hi⟩ : ∃ init, c.serialize = init ++ [10] := by
      unfold Counters.serialize
      exact ⟨_, by simp only [← List.append_assoc]; rfl⟩
    rw [hi] at h htot
    rw [hi, List.take_append_of_le_length (by simp at h; omega)] at h4
    rw [List.count_append, List.count_singleton_self] at htot
    have : (init.take n).count 10 ≤ init.count 10 := (List.take_sublist n init).count_le 10
    omega

theorem readLog_bound {total : Nat} {log : Option File} {c : Counters} (h : readLog total log = some c) :
    128 ∣ c.bytes ∧ c.bytes ≤ total ∧ c.metas < 2 ^ 64 ∧ c.datas < 2 ^ 64 := by
  cases log with
  | none =>
    unfold readLog at h
    cases h
    exact ⟨⟨0, rfl⟩, Nat.zero_le _, by decide, by decide⟩
  | some f =>
    unfold readLog deserialize at h
    simp only at h
    split at h
    · simp at h
    · rename_i b n m d hs
      cases h
      have hp : ∀ ds x, parseU64 ds = some x → x < 2 ^ 64 := by
        intro ds x hx
        unfold parseU64 at hx
        simp only at hx
        split at hx
        · rename_i hlt
          cases hx; exact hlt
        · simp at hx
      have hmd : m < 2 ^ 64 ∧ d < 2 ^ 64 := by
        unfold statsP at hs
        split at hs
        · simp at hs
        · split at hs
          · simp at hs
          · split at hs
            · simp at hs
            · split at hs
              · simp at hs
              · split at hs
                · rename_i h3 h4
                  cases hs
                  exact ⟨hp _ _ h3, hp _ _ h4⟩
                · simp at hs
      refine ⟨?_, ?_, hmd.1, hmd.2⟩
      · show 128 ∣ roundDown _ _
        exact ⟨_, by unfold roundDown; rw [show scanBlockSize = 128 from rfl]; exact Nat.mul_comm _ _⟩
      · show roundDown _ _ ≤ _
        unfold roundDown
        have := Nat.div_mul_le_self (min b total) scanBlockSize
        omega

end Verif.Rescue
