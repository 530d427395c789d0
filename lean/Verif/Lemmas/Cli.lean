import Verif.Spec.Cli
import Verif.Props.Utils
/-!
# Lemmas about reading options
-/

namespace Verif.Cli
open CliSpec Misc Scan Command

theorem bind_ok {α β : Type} {x : Except Stop α} {f : α → Except Stop β} {b : β} : (x >>= f) = .ok b ↔ ∃ a, x = .ok a ∧ f a = .ok b := by
  cases x with
  | error e => exact ⟨fun h => by simp [bind, Except.bind] at h, fun ⟨a, h, _⟩ => by simp at h⟩
  | ok a => exact ⟨fun h => ⟨a, rfl, h⟩, fun ⟨a', h, h'⟩ => by cases h; exact h'⟩

theorem pure_ok {α : Type} {a b : α} : (pure a : Except Stop α) = .ok b ↔ a = b := by
  simp [pure, Except.pure]

/-! ### Numbers -/

theorem digit_lt {c : Char} (h : '0' ≤ c ∧ c ≤ '9') : c.toNat - 48 < 10 := by
  have h2 : c.toNat ≤ '9'.toNat := h.2
  have : '9'.toNat = 57 := rfl
  omega

theorem digits_eq (ds : List Char) (acc n : Nat) :
    digits acc ds = some n ↔ (ds ≠ [] → acc * 10 ^ ds.length + value ds < 2 ^ 64) ∧ (∀ c ∈ ds, '0' ≤ c ∧ c ≤ '9') ∧
      acc * 10 ^ ds.length + value ds = n := by
  induction ds generalizing acc with
  | nil => simp [digits, value]
  | cons c cs ih =>
    have hpos : 0 < 10 ^ cs.length := Nat.pow_pos (by omega)
    have heq : acc * 10 ^ (c :: cs).length + value (c :: cs) = (acc * 10 + (c.toNat - 48)) * 10 ^ cs.length + value cs := by
      simp only [value, List.length_cons, Nat.pow_succ]
      rw [Nat.add_mul, Nat.mul_assoc, Nat.mul_comm (10 ^ cs.length) 10, Nat.add_assoc]
    have hge : acc * 10 + (c.toNat - 48) ≤ (acc * 10 + (c.toNat - 48)) * 10 ^ cs.length := Nat.le_mul_of_pos_right _ hpos
    rw [heq]
    unfold digits
    have h48 : '0'.toNat = 48 := rfl
    simp only [h48]
    constructor
    · intro h
      split at h
      · split at h
        · split at h
          · obtain ⟨h1, h2, h3⟩ := (ih _).1 h
            refine ⟨fun _ => ?_, ?_, h3⟩
            · by_cases hc : cs = []
              · subst hc; simpa [value] using ‹acc * 10 + (c.toNat - 48) < 2 ^ 64›
              · exact h1 hc
            · intro x hx
              rcases List.mem_cons.1 hx with rfl | hx
              · assumption
              · exact h2 x hx
          · simp at h
        · simp at h
      · simp at h
    · rintro ⟨h1, h2, h3⟩
      have h1 := h1 (by simp)
      rw [if_pos (by omega), if_pos (h2 c (by simp)), if_pos (by omega)]
      exact (ih _).2 ⟨fun _ => h1, fun x hx => h2 x (List.mem_cons_of_mem _ hx), h3⟩

theorem digits_zero {ds : List Char} (hne : ds ≠ []) (n : Nat) :
    digits 0 ds = some n ↔ n < 2 ^ 64 ∧ (∀ c ∈ ds, '0' ≤ c ∧ c ≤ '9') ∧ value ds = n := by
  rw [digits_eq]
  constructor
  · rintro ⟨h1, h2, h3⟩
    have := h1 hne
    refine ⟨by omega, h2, by omega⟩
  · rintro ⟨h1, h2, h3⟩
    exact ⟨fun _ => by omega, h2, by omega⟩

theorem number_iff (s : String) (n : Nat) : number s.toList = some n ↔ Numeral s n := by
  unfold Numeral
  generalize s.toList = l
  unfold number
  split
  · constructor
    · intro h; simp at h
    · rintro ⟨_, ds, hne, h | h, _⟩
      · exact absurd h.symm hne
      · simp at h
  · constructor
    · intro h; simp at h
    · rintro ⟨_, ds, hne, h | h, hd, _⟩
      · exact absurd (hd '+' (by rw [← h]; simp)) (by decide)
      · simp at h; exact absurd h hne
  · constructor
    · intro h; simp at h
    · rintro ⟨_, ds, hne, h | h, hd, _⟩
      · exact absurd (hd '-' (by rw [← h]; simp)) (by decide)
      · simp at h
  · rename_i cs h1
    have hcs : cs ≠ [] := by rintro rfl; exact h1 rfl
    rw [digits_zero hcs]
    constructor
    · rintro ⟨a, b, c⟩; exact ⟨a, cs, hcs, .inr rfl, b, c⟩
    · rintro ⟨a, ds, hne, h | h, hd, hv⟩
      · exact absurd (hd '+' (by rw [← h]; simp)) (by decide)
      · simp only [List.cons.injEq, true_and] at h; subst h; exact ⟨a, hd, hv⟩
  · rename_i h1 h2 h3 h4
    rw [digits_zero h1]
    constructor
    · rintro ⟨a, b, c⟩; exact ⟨a, _, h1, .inl rfl, b, c⟩
    · rintro ⟨a, ds, hne, h | h, hd, hv⟩
      · subst h; exact ⟨a, hd, hv⟩
      · exact absurd h (h4 ds)

/-! ### Single options -/

theorem optNumber_iff (m : Matches) (v : Val) (x : Option Nat) : optNumber m v = .ok x ↔ Given m v x := by
  unfold optNumber Given
  cases h : m.value v with
  | none => simp [eq_comm]
  | some s =>
    simp only [reduceCtorEq, false_and, false_or, Option.some.injEq, exists_and_left, exists_eq_left']
    cases hn : number s.toList with
    | none =>
      simp only [reduceCtorEq, false_iff, not_exists, not_and]
      intro n h' _
      rw [(number_iff s n).2 h'] at hn
      simp at hn
    | some k =>
      simp only [Except.ok.injEq]
      constructor
      · rintro rfl; exact ⟨k, (number_iff s k).1 hn, rfl⟩
      · rintro ⟨n, h', rfl⟩
        rw [(number_iff s n).2 h'] at hn
        exact hn.symm

theorem optRangeEnd_iff (m : Matches) (a b : Val) (x : Option RangeEnd) : optRangeEnd m a b = .ok x ↔ GivenEnd m a b x := by
  unfold optRangeEnd GivenEnd
  cases ha : m.value a with
  | none =>
    cases hb : m.value b with
    | none => simp [eq_comm]
    | some s =>
      dsimp only
      cases hn : number s.toList with
      | none =>
        simp only [reduceCtorEq, false_iff]
        rintro (h | ⟨_, _, h, _⟩ | ⟨s', n, _, h, h', _⟩)
        · simp at h
        · simp at h
        · cases h; rw [(number_iff s n).2 h'] at hn; simp at hn
      | some k =>
        simp only [Except.ok.injEq]
        constructor
        · rintro rfl; exact .inr (.inr ⟨s, k, by simp, by simp, (number_iff s k).1 hn, rfl⟩)
        · rintro (h | ⟨_, _, h, _⟩ | ⟨s', n, _, h, h', rfl⟩)
          · simp at h
          · simp at h
          · cases h; rw [(number_iff s n).2 h'] at hn; cases hn; rfl
  | some s =>
    cases hb : m.value b with
    | none =>
      dsimp only
      cases hn : number s.toList with
      | none =>
        simp only [reduceCtorEq, false_iff]
        rintro (h | ⟨s', n, h, _, h', _⟩ | ⟨_, _, h, _⟩)
        · simp at h
        · cases h; rw [(number_iff s n).2 h'] at hn; simp at hn
        · simp at h
      | some k =>
        simp only [Except.ok.injEq]
        constructor
        · rintro rfl; exact .inr (.inl ⟨s, k, by simp, by simp, (number_iff s k).1 hn, rfl⟩)
        · rintro (h | ⟨s', n, h, _, h', rfl⟩ | ⟨_, _, h, _⟩)
          · simp at h
          · cases h; rw [(number_iff s n).2 h'] at hn; cases hn; rfl
          · simp at h
    | some t => simp

theorem required_iff (m : Matches) (v : Val) (s : String) : required m v = .ok s ↔ m.value v = some s := by
  unfold required
  cases m.value v <;> simp

theorem checkVerbosity_iff (m : Matches) (u : Unit) : checkVerbosity m = .ok u ↔ VerbosityOk m := by
  unfold checkVerbosity VerbosityOk
  cases h : m.value .verbosity with
  | none => simp
  | some s =>
    constructor
    · intro h' s' hs'
      cases hs'
      split at h' <;> simp_all
    · intro h'
      rcases h' s rfl with rfl | rfl | rfl <;> rfl

theorem parseUid_iff (s : List Byte) (u : Uid) : parseUid s = some u ↔ UtilSpec.IsHex s ∧ s.map UtilSpec.toLower = lowerHex u.bytes := by
  constructor
  · intro h
    refine ⟨((C18_uid u s).2.2.1 ⟨u, h⟩).1, ?_⟩
    unfold parseUid at h
    split at h
    · rename_i x hx
      split at h
      · cases h; exact (C18_parse_print s x hx).symm
      · simp at h
    · simp at h
  · rintro ⟨h1, h2⟩
    have hl : s.length = 12 := by
      have := congrArg List.length h2
      rw [List.length_map] at this
      rw [this]
      have h4 : (lowerHex u.bytes).length = 2 * u.bytes.length := print_length _ _
      rw [h4, u.len]
    obtain ⟨u', hu'⟩ := (C18_uid u s).2.2.2 ⟨h1, hl⟩
    rw [hu']
    have hp : s.map UtilSpec.toLower = lowerHex u'.bytes := by
      unfold parseUid at hu'
      split at hu'
      · rename_i x hx
        split at hu'
        · cases hu'; exact (C18_parse_print s x hx).symm
        · simp at hu'
      · simp at hu'
    have e1 := (C18_uid u s).2.1
    have e2 := (C18_uid u' s).2.1
    rw [← hp, h2, e1] at e2
    exact e2.symm

theorem optUid_iff (m : Matches) (x : Option Uid) : optUid m = .ok x ↔ GivenUid m x := by
  unfold optUid GivenUid
  cases h : m.value .uid with
  | none => simp [eq_comm]
  | some s =>
    dsimp only
    cases hn : parseUid (utf8 s) with
    | none =>
      simp only [reduceCtorEq, false_iff, false_and, false_or]
      rintro ⟨s', u, h, h1, h2, _⟩
      cases h
      rw [(parseUid_iff _ u).2 ⟨h1, h2⟩] at hn
      simp at hn
    | some k =>
      simp only [Except.ok.injEq, reduceCtorEq, false_and, false_or]
      constructor
      · rintro rfl
        obtain ⟨h1, h2⟩ := (parseUid_iff _ k).1 hn
        exact ⟨s, k, rfl, h1, h2, rfl⟩
      · rintro ⟨s', u, h, h1, h2, rfl⟩
        cases h
        rw [(parseUid_iff _ u).2 ⟨h1, h2⟩] at hn
        exact hn.symm

theorem shardCount_iff (m : Matches) (v : Val) (n : Nat) : shardCount m v = .ok n ↔ ∃ s, m.value v = some s ∧ Numeral s n := by
  unfold shardCount
  cases h : m.value v with
  | none => simp
  | some s =>
    simp only [Option.some.injEq, exists_eq_left']
    cases hn : number s.toList with
    | none =>
      simp only [reduceCtorEq, false_iff]
      intro h'
      rw [(number_iff s n).2 h'] at hn
      simp at hn
    | some k =>
      rw [← number_iff, hn]
      simp

theorem burstOrZero_iff (m : Matches) (n : Nat) :
    burstOrZero m = .ok n ↔ (m.value .burst = none ∧ n = 0) ∨ ∃ s, m.value .burst = some s ∧ Numeral s n := by
  unfold burstOrZero
  cases h : m.value .burst with
  | none => simp [eq_comm]
  | some s =>
    simp only [Option.some.injEq, exists_eq_left', reduceCtorEq, false_and, false_or]
    cases hn : number s.toList with
    | none =>
      simp only [reduceCtorEq, false_iff]
      intro h'
      rw [(number_iff s n).2 h'] at hn
      simp at hn
    | some k =>
      rw [← number_iff, hn]
      simp

theorem ofString_iff (s : String) (v : Version) : Version.ofString s = some v ↔ s = toString v.num := by
  constructor
  · intro h
    unfold Version.ofString at h
    split at h <;> (try simp at h) <;> subst h <;> rfl
  · rintro rfl
    cases v <;> rfl

theorem versionAndShards_iff (m : Matches) (v : Version) (dpb : Option Dpb) : versionAndShards m = .ok (v, dpb) ↔ GivenSettings m v dpb := by
  unfold versionAndShards GivenSettings
  cases hv : m.value .sbxVersion with
  | none =>
    simp only [reduceCtorEq, false_and, or_false, true_and]
    cases m.value .rsData with
    | some _ => simp
    | none =>
      cases m.value .rsParity with
      | some _ => simp
      | none =>
        cases m.value .burst with
        | some _ => simp
        | none => simp [eq_comm]
  | some s =>
    simp only [reduceCtorEq, false_and, false_or]
    cases ho : Version.ofString s with
    | none =>
      simp only [reduceCtorEq, false_iff, not_and]
      intro h
      cases h
      rw [(ofString_iff _ v).2 rfl] at ho
      simp at ho
    | some w =>
      have hs := (ofString_iff s w).1 ho
      subst hs
      have hw : ∀ v : Version, some (toString w.num) = some (toString v.num) ↔ w = v := by
        intro v
        constructor
        · intro h
          have := (ofString_iff _ v).2 (Option.some.inj h)
          rw [(ofString_iff _ w).2 rfl] at this
          exact Option.some.inj this
        · rintro rfl; rfl
      rw [hw]
      have hrs : w.usesRs = true ↔ 17 ≤ w.num := by cases w <;> decide
      have hrs' : w.usesRs = false ↔ w.num ≤ 3 := by cases w <;> decide
      simp only
      split
      · rename_i hu
        simp only [bind_ok, shardCount_iff]
        constructor
        · rintro ⟨d, ⟨s, h1, h2⟩, p, ⟨t, h3, h4⟩, h⟩
          split at h
          · simp at h
          · rename_i hc
            obtain ⟨b, h5, h6⟩ := bind_ok.1 h
            rw [pure_ok] at h6
            cases h6
            obtain ⟨c1, c2, c3⟩ := (C45_accepted d p).1 hc
            exact ⟨rfl, .inr ⟨_, s, t, hrs.1 hu, rfl, h1, h2, h3, h4, c1, c2, c3, (burstOrZero_iff m b).1 h5⟩⟩
        · rintro ⟨rfl, ⟨h, _⟩ | ⟨d, s, t, -, rfl, h1, h2, h3, h4, h5, h6, h7, h8⟩⟩
          · rw [hrs'.2 h] at hu; simp at hu
          · refine ⟨d.data, ⟨s, h1, h2⟩, d.parity, ⟨t, h3, h4⟩, ?_⟩
            rw [(C45_accepted _ _).2 ⟨h5, h6, h7⟩]
            exact bind_ok.2 ⟨d.burst, (burstOrZero_iff m _).2 h8, rfl⟩
      · rename_i hu
        simp only [Bool.not_eq_true] at hu
        simp only [Except.ok.injEq, Prod.mk.injEq]
        constructor
        · rintro ⟨rfl, rfl⟩; exact ⟨rfl, .inl ⟨hrs'.1 hu, rfl⟩⟩
        · rintro ⟨rfl, ⟨-, rfl⟩ | ⟨d, s, t, h, _⟩⟩
          · exact ⟨rfl, rfl⟩
          · rw [hrs.2 h] at hu; simp at hu

theorem ofStr_iff (s : String) (t : HashType) : HashType.ofStr s = some t ↔ s.toLower ∈ hashNames t := by
  unfold HashType.ofStr
  generalize s.toLower = l
  constructor
  · intro h
    split at h
    · rename_i t' ht'
      split at h
      · cases h
        unfold HashType.ofLower at ht'
        split at ht' <;> (try simp at ht') <;> subst ht' <;> (try simp [hashNames]) <;> simp_all [HashType.supported]
      · simp at h
    · simp at h
  · intro h
    cases t <;> simp only [hashNames, List.mem_cons, List.not_mem_nil, or_false] at h <;> (try rcases h with rfl | rfl) <;> (try subst h) <;> rfl

theorem optHash_iff (m : Matches) (x : Option HashType) : optHash m = .ok x ↔ GivenHash m x := by
  unfold optHash GivenHash
  cases h : m.value .hashType with
  | none => simp [eq_comm]
  | some s =>
    simp only [reduceCtorEq, false_and, false_or]
    cases hn : HashType.ofStr s with
    | none =>
      simp only [reduceCtorEq, false_iff]
      rintro ⟨s', t, h, h', _⟩
      cases h
      rw [(ofStr_iff s t).2 h'] at hn
      simp at hn
    | some k =>
      simp only [Except.ok.injEq]
      constructor
      · rintro rfl; exact ⟨s, k, rfl, (ofStr_iff s k).1 hn, rfl⟩
      · rintro ⟨s', t, h, h', rfl⟩
        cases h
        rw [(ofStr_iff s t).2 h'] at hn
        exact hn.symm

theorem multiPass_iff (m : Matches) (x : Option Decode.MultiPass) : multiPass m = .ok x ↔ GivenPasses m x := by
  unfold multiPass GivenPasses
  cases m.flag .multiPass <;> cases m.flag .multiPassNoSkip <;> simp [eq_comm]

theorem readRef_iff (m : Matches) (b : Bool) (r : RefParam) : readRef m b = .ok r ↔ GivenRef m r ∧ r.refChoice = refChoice m b := by
  unfold readRef
  simp only [bind_ok, pure_ok, optNumber_iff, optRangeEnd_iff]
  constructor
  · rintro ⟨_, h1, _, h2, _, h3, _, h4, _, h5, _, h6, rfl⟩
    exact ⟨⟨h2, h3, h4, h5, h6, h1, rfl⟩, rfl⟩
  · rintro ⟨⟨h2, h3, h4, h5, h6, h1, h7⟩, h8⟩
    refine ⟨_, h1, _, h2, _, h3, _, h4, _, h5, _, h6, ?_⟩
    cases r
    simp_all

theorem refChoice_iff (m : Matches) (c : RefChoice) : c = refChoice m true ↔ GivenChoice m c := by
  unfold refChoice GivenChoice
  cases m.flag .noMeta <;> simp

theorem optBlockType_iff (m : Matches) (x : Option BlockType) : optBlockType m = .ok x ↔
    (x = none ∧ (m.value .blockType = none ∨ m.value .blockType = some "any")) ∨ (x = some .metadata ∧ m.value .blockType = some "meta") ∨
    (x = some .data ∧ m.value .blockType = some "data") := by
  unfold optBlockType
  split
  · rename_i h; rw [h]; simp [eq_comm]
  · rename_i h; rw [h]; simp [eq_comm]
  · rename_i h; rw [h]; simp [eq_comm]
  · rename_i h; rw [h]; simp [eq_comm]
  · rename_i h1 h2 h3 h; rw [h]; simp_all

end Verif.Cli
