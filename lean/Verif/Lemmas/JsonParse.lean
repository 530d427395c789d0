import Verif.Lemmas.Json
/-!
# Lemmas on the JSON printer: the text printed is read back
-/

namespace Verif.Json
open JsonSpec

/-! ### Strings -/

theorem stringRest_quote (r : Str) : stringRest ('"' :: r) = some ([], r) := by
  cases r <;> (rw [stringRest.eq_def]; simp)

theorem stringRest_esc (t : Str) : stringRest ('\\' :: '"' :: t) = (stringRest t).map fun p => (0x22 :: p.1, p.2) := by
  rw [stringRest.eq_def]
  simp only [show ('\\' = '"') = False from by simp, show ('"' = 'u') = False from by simp, if_false, if_true]
  rw [show escapes.lookup '"' = some 0x22 from rfl]
  simp only [Option.bind_eq_bind, Option.bind_some]
  cases stringRest t <;> rfl

theorem stringRest_char {c : Char} (h1 : c ≠ '"') (h2 : c ≠ '\\') (h3 : 0x20 ≤ c.toNat) {t : Str} (ht : t ≠ []) :
    stringRest (c :: t) = (stringRest t).map fun p => (c.toNat :: p.1, p.2) := by
  cases t with
  | nil => exact absurd rfl ht
  | cons d s =>
    rw [stringRest.eq_def]
    simp only [Option.bind_eq_bind, if_neg h1, if_neg h2, if_neg (show ¬ c.toNat < 0x20 by omega)]
    cases stringRest (d :: s) <;> rfl

theorem stringRest_escaped : ∀ (v r : Str), (∀ c ∈ v, 0x20 ≤ c.toNat ∧ c ≠ '\\') →
    stringRest (escapeQuotes v ++ '"' :: r) = some (codes v, r)
  | [], r, _ => stringRest_quote r
  | c :: v, r, h => by
    have ih := stringRest_escaped v r (fun d hd => h d (List.mem_cons_of_mem _ hd))
    obtain ⟨h3, h2⟩ := h c List.mem_cons_self
    have e : escapeQuotes (c :: v) = (if c = '"' then ['\\', c] else [c]) ++ escapeQuotes v := by
      unfold escapeQuotes; rw [List.flatMap_cons]
    rw [e]
    by_cases hc : c = '"'
    · subst hc
      rw [if_pos rfl]
      show stringRest ('\\' :: '"' :: (escapeQuotes v ++ '"' :: r)) = _
      rw [stringRest_esc, ih]
      rfl
    · rw [if_neg hc]
      show stringRest (c :: (escapeQuotes v ++ '"' :: r)) = _
      rw [stringRest_char hc h2 h3 (by simp), ih]
      rfl

theorem escape_plain {v : Str} (h : '"' ∉ v) : escapeQuotes v = v := by
  induction v with
  | nil => rfl
  | cons c v ih =>
    unfold escapeQuotes at ih ⊢
    rw [List.flatMap_cons, ih (fun hv => h (List.mem_cons_of_mem _ hv)), if_neg (fun hc => h (by rw [hc]; exact List.mem_cons_self))]
    rfl

/-! ### Numbers -/

theorem digit_facts {c : Char} (h : c.isDigit = true) : 0x30 ≤ c.toNat ∧ c.toNat ≤ 0x39 := by
  unfold Char.isDigit at h
  simp only [Bool.and_eq_true, decide_eq_true_eq, UInt32.le_iff_toNat_le, ge_iff_le] at h
  have e : c.toNat = c.val.toNat := rfl
  simp at h
  omega

theorem not_digit_newline : ('\n').isDigit = false := by decide

theorem digits1_newline {v : Str} (hne : v ≠ []) (hd : ∀ c ∈ v, c.isDigit = true) (r : Str) :
    digits1 (v ++ '\n' :: r) = some (v, '\n' :: r) := by
  unfold digits1
  have h1 : (v ++ '\n' :: r).takeWhile Char.isDigit = v := by
    rw [List.takeWhile_append_of_pos hd, List.takeWhile_cons_of_neg (by decide)]
    simp
  have h2 : (v ++ '\n' :: r).dropWhile Char.isDigit = '\n' :: r := by
    rw [List.dropWhile_append_of_pos hd, List.dropWhile_cons_of_neg (by decide)]
  rw [h1, h2, if_neg hne]

theorem number_digits {v : Str} (h : IsNumber v) (hz : ∀ r, v = '0' :: r → r = []) (r : Str) :
    number (v ++ '\n' :: r) = some (v, '\n' :: r) := by
  obtain ⟨hne, hd, -⟩ := h
  cases v with
  | nil => exact absurd rfl hne
  | cons c v =>
    have hc := digit_facts (hd c List.mem_cons_self)
    have hi : intPart (c :: v ++ '\n' :: r) = some (c :: v, '\n' :: r) := by
      by_cases h0 : c = '0'
      · subst h0
        have : v = [] := hz v rfl
        subst this
        rfl
      · have : intPart (c :: v ++ '\n' :: r) = digits1 (c :: v ++ '\n' :: r) := by
          show intPart (c :: (v ++ '\n' :: r)) = _
          unfold intPart
          split
          · next heq => exact absurd (List.cons.inj heq).1 h0
          · rfl
        rw [this]
        exact digits1_newline (by simp) hd r
    have hs : signPart (c :: v ++ '\n' :: r) = ([], c :: v ++ '\n' :: r) := by
      unfold signPart
      split
      · next heq =>
        rw [(List.cons.inj heq).1] at hc
        exact absurd hc (by decide)
      · rfl
    unfold number
    rw [hs]
    simp only [Option.bind_eq_bind, hi, Option.bind_some]
    rw [show fracPart ('\n' :: r) = some ([], '\n' :: r) from rfl]
    simp only [Option.bind_some]
    rw [show expPart ('\n' :: r) = some ([], '\n' :: r) from by simp [expPart]]
    simp

/-! ### Fields -/

theorem parseU64_isSome (v : Str) : (parseU64 v).isSome = true ↔ IsNumber v ∨ ∃ r, v = '+' :: r ∧ IsNumber r := by
  unfold parseU64 IsNumber
  by_cases hp : ∃ r, v = '+' :: r
  · obtain ⟨r, rfl⟩ := hp
    simp only [show dropPlus ('+' :: r) = r from rfl]
    constructor
    · intro h
      by_cases h' : r ≠ [] ∧ r.all Char.isDigit = true ∧ Nat.ofDigitChars 10 r 0 < 2 ^ 64
      · exact .inr ⟨r, rfl, h'.1, List.all_eq_true.1 h'.2.1, h'.2.2⟩
      · rw [if_neg h'] at h
        cases h
    · rintro (⟨-, h, -⟩ | ⟨s, hs, h1, h2, h3⟩)
      · exact absurd (h '+' List.mem_cons_self) (by decide)
      · cases hs
        rw [if_pos ⟨h1, List.all_eq_true.2 h2, h3⟩]; rfl
  · have e : dropPlus v = v := by
      unfold dropPlus
      split
      · next r => exact absurd ⟨_, rfl⟩ hp
      · rfl
    simp only [e]
    constructor
    · intro h
      by_cases h' : v ≠ [] ∧ v.all Char.isDigit = true ∧ Nat.ofDigitChars 10 v 0 < 2 ^ 64
      · exact .inl ⟨h'.1, List.all_eq_true.1 h'.2.1, h'.2.2⟩
      · rw [if_neg h'] at h
        cases h
    · rintro (⟨h1, h2, h3⟩ | ⟨s, hs, -⟩)
      · rw [if_pos ⟨h1, List.all_eq_true.2 h2, h3⟩]; rfl
      · exact absurd ⟨s, hs⟩ hp

theorem value_str (fuel : Nat) (s : Str) : value (fuel + 1) ('"' :: s) = (stringRest s).map fun p => (.str p.1, p.2) := by
  rw [value]; simp

theorem value_num (fuel : Nat) {v : Str} (h : IsNumber v) (s : Str) : value (fuel + 1) (v ++ s) = (number (v ++ s)).map fun p => (.num p.1, p.2) := by
  obtain ⟨hne, hd, -⟩ := h
  cases v with
  | nil => exact absurd rfl hne
  | cons c v =>
    have hc := digit_facts (hd c List.mem_cons_self)
    have hn : ∀ d : Char, (d.toNat < 0x30 ∨ 0x39 < d.toNat) → c ≠ d := by
      rintro d hd rfl; omega
    show value (fuel + 1) (c :: (v ++ s)) = _
    rw [value, if_neg (hn _ (by decide)), if_neg (hn _ (by decide)), if_neg (hn _ (by decide)), if_neg (hn _ (by decide)),
      if_neg (hn _ (by decide)), if_neg (hn _ (by decide))]
    rfl

/-- A printed value is read back. -/
theorem value_scalar {f : Bool} {v : Str} (hv : Plain v) (ho : f = false → ¬ OddNumber v) (fuel : Nat) (r : Str) :
    value (fuel + 1) (scalarText f v ++ '\n' :: r) = some (scalar f v, '\n' :: r) := by
  have hq : ∀ r, value (fuel + 1) (('"' :: escapeQuotes v ++ ['"']) ++ r) = some (.str (codes v), r) := by
    intro r
    have e : ('"' :: escapeQuotes v ++ ['"']) ++ r = '"' :: (escapeQuotes v ++ '"' :: r) := by simp
    rw [e, value_str, stringRest_escaped v r (fun c hc => ⟨(hv.1 c hc).1, (hv.1 c hc).2.2⟩)]
    rfl
  unfold scalarText scalar skipQuotes
  cases f with
  | true => simpa using hq ('\n' :: r)
  | false =>
    specialize ho rfl
    simp only [Bool.not_false, Bool.true_and, Bool.false_eq_true, if_false]
    by_cases h1 : v = "null".toList
    · subst h1; rfl
    by_cases h2 : v = "true".toList
    · subst h2; rfl
    by_cases h3 : v = "false".toList
    · subst h3; rfl
    rw [if_neg h1, if_neg h2, if_neg h3]
    have hb : (v == "null".toList || v == "true".toList || v == "false".toList || (parseU64 v).isSome) = (parseU64 v).isSome := by
      rw [beq_eq_false_iff_ne.2 h1, beq_eq_false_iff_ne.2 h2, beq_eq_false_iff_ne.2 h3]; rfl
    rw [hb]
    by_cases hn : IsNumber v
    · rw [if_pos ((parseU64_isSome v).2 (.inl hn)), if_pos hn]
      have hqv : '"' ∉ v := fun h => absurd (hn.2.1 _ h) (by decide)
      rw [escape_plain hqv, value_num fuel hn, number_digits hn (by
        intro r hr
        refine Classical.byContradiction fun hne => ho (.inr ⟨r, hr, hne, hn⟩)) r]
      rfl
    · rw [if_neg hn, if_neg (by
        intro h
        rcases (parseU64_isSome v).1 h with h | h
        · exact hn h
        · exact ho (.inl h))]
      exact hq _

/-! ### Documents -/

/-- Depth needed to read a document. -/
def need : Items → Nat
  | .nil => 0
  | .field _ _ _ _ _ rest => 2 + need rest
  | .sect _ _ inner rest => 2 + need inner + need rest

theorem need_le : ∀ (it : Items) (first : Bool), need it ≤ (itemsText first it).length
  | .nil, _ => Nat.zero_le _
  | .field b l a f v rest, first => by
    have := need_le rest false
    simp only [need, itemsText, List.length_append, List.length_cons, nameText, List.length_nil]
    omega
  | .sect n b inner rest, first => by
    have h1 := need_le inner true
    have h2 := need_le rest false
    simp only [need, itemsText, List.length_append, List.length_cons]
    omega

theorem case_table : ∀ n : Fin 128, wordChar (Char.ofNat n) = true →
    wordChar (Char.ofNat n).toLower = true ∧ wordChar (Char.ofNat n).toUpper = true := by decide +kernel

theorem wordChar_case {c : Char} (h : wordChar c = true) : wordChar c.toLower = true ∧ wordChar c.toUpper = true := by
  have hc : Char.ofNat c.toNat = c := by simp
  have := case_table ⟨c.toNat, (wordChar_ascii h).1⟩
  rw [hc] at this
  exact this h

theorem key_chars {l : Label} (h : l.Ok) : ∀ c ∈ l.key, wordChar c = true := by
  intro c hc
  unfold Label.key at hc
  rcases List.mem_append.1 hc with hc | hc
  · obtain ⟨d, hd, rfl⟩ := List.mem_map.1 hc
    exact (wordChar_case (h.1.2 d hd)).1
  · obtain ⟨w, hw, hc⟩ := List.mem_flatMap.1 hc
    have hcs := (h.2.1 w hw).2
    unfold capital at hc
    split at hc
    · cases hc
    · next d s heq =>
      rw [heq] at hcs
      rcases List.mem_cons.1 hc with rfl | hc
      · exact (wordChar_case (hcs d List.mem_cons_self)).2
      · exact hcs c (List.mem_cons_of_mem _ hc)

theorem key_codes {l : Label} (h : l.Ok) (r : Str) : stringRest (l.key ++ '"' :: r) = some (codes l.key, r) := by
  have hk : ∀ c ∈ l.key, 0x20 ≤ c.toNat ∧ c ≠ '\\' ∧ c ≠ '"' := by
    intro c hc
    obtain ⟨-, h2, h3⟩ := wordChar_ascii (key_chars h c hc)
    simp only [List.mem_cons, not_or] at h3
    exact ⟨by omega, h3.2.2.2.2.2.1, h3.2.2.2.2.1⟩
  have := stringRest_escaped l.key r (fun c hc => ⟨(hk c hc).1, (hk c hc).2.1⟩)
  rwa [escape_plain (fun h => (hk _ h).2.2 rfl)] at this

theorem skip_cons {c : Char} (h : isWs c = false) (r : Str) : skip (c :: r) = c :: r := by
  unfold skip
  rw [List.dropWhile_cons_of_neg (by rw [h]; simp)]

theorem skip_newline (r : Str) : skip ('\n' :: r) = skip r := by
  unfold skip
  rw [List.dropWhile_cons_of_pos (by decide)]

theorem skip_space (r : Str) : skip (' ' :: r) = skip r := by
  unfold skip
  rw [List.dropWhile_cons_of_pos (by decide)]

theorem scalarText_head {f : Bool} {v : Str} (hv : Plain v) (ho : f = false → ¬ OddNumber v) (r : Str) :
    skip (scalarText f v ++ r) = scalarText f v ++ r := by
  unfold scalarText
  split
  · next h =>
    obtain ⟨c, v', rfl⟩ : ∃ c v', v = c :: v' := by
      cases v with
      | nil => exact absurd rfl hv.2.1
      | cons c v' => exact ⟨c, v', rfl⟩
    have hc := hv.1 c List.mem_cons_self
    have h1 : c ≠ ' ' := fun h => hv.2.2.1 (by rw [h]; rfl)
    have hw : isWs c = false := by
      unfold isWs
      have : ∀ d : Char, d.toNat < 0x20 → decide (c = d) = false := by
        intro d hd
        rw [decide_eq_false_iff_not]
        rintro rfl; omega
      rw [this '\t' (by decide), this '\n' (by decide), this '\r' (by decide), decide_eq_false h1]
      rfl
    have e : escapeQuotes (c :: v') = (if c = '"' then ['\\', c] else [c]) ++ escapeQuotes v' := by
      unfold escapeQuotes; rw [List.flatMap_cons]
    rw [e]
    split
    · exact skip_cons (by decide) _
    · exact skip_cons hw _
  · exact skip_cons (by decide) _

theorem isWs_open (b : Bracket) : isWs b.openChar = false := by cases b <;> rfl

theorem text_true {it : Items} (hne : it ≠ .nil) : itemsText false it = ',' :: itemsText true it := by
  cases it with
  | nil => exact absurd rfl hne
  | field b l a f v rest => simp [itemsText]
  | sect n b inner rest => simp [itemsText]

/-- A document begins with a quotation mark in an object. -/
theorem text_curly {it : Items} (hne : it ≠ .nil) (h : it.Ok .curly) : ∃ s, itemsText true it = '"' :: s := by
  cases it with
  | nil => exact absurd rfl hne
  | field b l a f v rest => exact ⟨_, rfl⟩
  | sect n b inner rest =>
    obtain ⟨h1, -⟩ := h
    obtain ⟨l, rfl⟩ := Option.isSome_iff_exists.1 (h1.1 rfl)
    exact ⟨_, rfl⟩

/-- A document begins with a bracket in an array. -/
theorem text_square {it : Items} (hne : it ≠ .nil) (h : it.Ok .square) : ∃ (b : Bracket) (s : Str), itemsText true it = b.openChar :: s := by
  cases it with
  | nil => exact absurd rfl hne
  | field b l a f v rest => exact absurd h.1 (by simp)
  | sect n b inner rest =>
    obtain ⟨h1, -⟩ := h
    have : n = none := by
      cases n with
      | none => rfl
      | some l => exact absurd (h1.2 rfl) (by simp)
    subst this
    exact ⟨b, _, rfl⟩

/-- What a section is read as. -/
def sectVal (b : Bracket) (inner : Items) : Val :=
  match b with
  | .curly => .obj inner.members
  | .square => .arr (inner.members.map Prod.snd)

/-- Reading a list of items in brackets. -/
def ReadsBack (it : Items) : Prop :=
  (it.Ok .curly → it ≠ .nil → ∀ fuel, need it ≤ fuel → ∀ r, members fuel (itemsText true it ++ '}' :: r) = some (it.members, r)) ∧
  (it.Ok .square → it ≠ .nil → ∀ fuel, need it ≤ fuel → ∀ r,
    elements fuel (itemsText true it ++ ']' :: r) = some (it.members.map Prod.snd, r))

theorem value_curly_nil {fuel : Nat} {s r : Str} (h : skip s = '}' :: r) : value (fuel + 1) ('{' :: s) = some (.obj [], r) := by
  rw [value, if_pos rfl, h]
  rfl

theorem value_curly_cons {fuel : Nat} {s t : Str} {c : Char} (h : skip s = c :: t) (hc : c ≠ '}') :
    value (fuel + 1) ('{' :: s) = (members fuel (c :: t)).map fun p => (.obj p.1, p.2) := by
  rw [value, if_pos rfl, h]
  split
  · next heq => exact absurd (List.cons.inj heq).1 hc
  · rfl

theorem value_square_nil {fuel : Nat} {s r : Str} (h : skip s = ']' :: r) : value (fuel + 1) ('[' :: s) = some (.arr [], r) := by
  rw [value, if_neg (by decide), if_pos rfl, h]
  rfl

theorem value_square_cons {fuel : Nat} {s t : Str} {c : Char} (h : skip s = c :: t) (hc : c ≠ ']') :
    value (fuel + 1) ('[' :: s) = (elements fuel (c :: t)).map fun p => (.arr p.1, p.2) := by
  rw [value, if_neg (by decide), if_pos rfl, h]
  split
  · next heq => exact absurd (List.cons.inj heq).1 hc
  · rfl

theorem value_sect {b : Bracket} {inner : Items} (hr : ReadsBack inner) (hok : inner.Ok b) {fuel : Nat} (hf : need inner ≤ fuel) (r : Str) :
    value (fuel + 1) (b.openChar :: '\n' :: (itemsText true inner ++ b.closeChar :: r)) = some (sectVal b inner, r) := by
  cases b with
  | curly =>
    show value (fuel + 1) ('{' :: '\n' :: (itemsText true inner ++ '}' :: r)) = _
    by_cases hne : inner = .nil
    · subst hne
      exact value_curly_nil (by rw [skip_newline]; exact skip_cons (by decide) _)
    · obtain ⟨s, hs⟩ := text_curly hne hok
      have := hr.1 hok hne fuel hf r
      rw [hs] at this ⊢
      rw [value_curly_cons (c := '"') (t := s ++ '}' :: r) (by rw [skip_newline]; exact skip_cons (by decide) _) (by decide)]
      rw [List.cons_append] at this
      rw [this]
      rfl
  | square =>
    show value (fuel + 1) ('[' :: '\n' :: (itemsText true inner ++ ']' :: r)) = _
    by_cases hne : inner = .nil
    · subst hne
      exact value_square_nil (by rw [skip_newline]; exact skip_cons (by decide) _)
    · obtain ⟨b, s, hs⟩ := text_square hne hok
      have := hr.2 hok hne fuel hf r
      rw [hs] at this ⊢
      rw [value_square_cons (c := b.openChar) (t := s ++ ']' :: r) (by rw [skip_newline]; exact skip_cons (isWs_open b) _)
        (by cases b <;> decide)]
      rw [List.cons_append] at this
      rw [this]
      rfl

/-- One member, with a value that is read back. -/
theorem members_step {l : Label} (hl : l.Ok) {fuel : Nat} {t : Str} {v : Val} {rest : Items} {s : Str} (hskip : skip t = t)
    (hv : value fuel t = some (v, '\n' :: (itemsText false rest ++ '}' :: s))) (hok : rest.Ok .curly)
    (hr : rest ≠ .nil → members fuel (itemsText true rest ++ '}' :: s) = some (rest.members, s)) :
    members (fuel + 1) (nameText (some l) ++ t) = some ((codes l.key, v) :: rest.members, s) := by
  have e : nameText (some l) ++ t = '"' :: (l.key ++ '"' :: ':' :: ' ' :: t) := by simp [nameText]
  rw [e, members]
  simp only [Option.bind_eq_bind, key_codes hl, Option.bind_some]
  rw [skip_cons (by decide)]
  simp only [skip_space, hskip, hv, Option.bind_some, skip_newline]
  by_cases hne : rest = .nil
  · subst hne
    rw [show itemsText false .nil ++ '}' :: s = '}' :: s from rfl, skip_cons (by decide)]
    rfl
  · rw [text_true hne, List.cons_append, skip_cons (by decide)]
    obtain ⟨q, hq⟩ := text_curly hne hok
    have hs : skip (itemsText true rest ++ '}' :: s) = itemsText true rest ++ '}' :: s := by
      rw [hq]; exact skip_cons (by decide) _
    simp only [hs, hr hne, Option.bind_some]
    rfl

/-- One element. -/
theorem elements_step {fuel : Nat} {t : Str} {v : Val} {rest : Items} {s : Str}
    (hv : value fuel t = some (v, '\n' :: (itemsText false rest ++ ']' :: s))) (hok : rest.Ok .square)
    (hr : rest ≠ .nil → elements fuel (itemsText true rest ++ ']' :: s) = some (rest.members.map Prod.snd, s)) :
    elements (fuel + 1) t = some (v :: rest.members.map Prod.snd, s) := by
  rw [elements]
  simp only [Option.bind_eq_bind, hv, Option.bind_some, skip_newline]
  by_cases hne : rest = .nil
  · subst hne
    rw [show itemsText false .nil ++ ']' :: s = ']' :: s from rfl, skip_cons (by decide)]
    rfl
  · rw [text_true hne, List.cons_append, skip_cons (by decide)]
    obtain ⟨b, q, hq⟩ := text_square hne hok
    have hs : skip (itemsText true rest ++ ']' :: s) = itemsText true rest ++ ']' :: s := by
      rw [hq]; exact skip_cons (isWs_open b) _
    simp only [hs, hr hne, Option.bind_some]
    rfl

theorem readsBack : ∀ it : Items, ReadsBack it
  | .nil => ⟨fun _ h => absurd rfl h, fun _ h => absurd rfl h⟩
  | .field b l a f v rest => by
    refine ⟨fun hok _ fuel hf r => ?_, fun hok => absurd hok.1 (by simp)⟩
    obtain ⟨-, hl, hv, ho, hrest⟩ := hok
    have hf' : 2 + need rest ≤ fuel := hf
    obtain ⟨fuel, rfl⟩ : ∃ k, fuel = k + 2 := ⟨fuel - 2, by omega⟩
    have ih := readsBack rest
    have e : itemsText true (.field b l a f v rest) ++ '}' :: r =
        nameText (some l) ++ (scalarText f v ++ '\n' :: (itemsText false rest ++ '}' :: r)) := by simp [itemsText]
    rw [e]
    exact members_step hl (scalarText_head hv ho _) (value_scalar hv ho fuel _) hrest
      (fun hne => ih.1 hrest hne _ (by omega) r)
  | .sect n b inner rest => by
    have ih1 := readsBack inner
    have ih2 := readsBack rest
    refine ⟨fun hok _ fuel hf r => ?_, fun hok _ fuel hf r => ?_⟩
    · obtain ⟨h1, hn, hi, hrest⟩ := hok
      obtain ⟨l, rfl⟩ := Option.isSome_iff_exists.1 (h1.1 rfl)
      have hf' : 2 + need inner + need rest ≤ fuel := hf
      obtain ⟨fuel, rfl⟩ : ∃ k, fuel = k + 2 := ⟨fuel - 2, by omega⟩
      have e : itemsText true (.sect (some l) b inner rest) ++ '}' :: r =
          nameText (some l) ++ (b.openChar :: '\n' :: (itemsText true inner ++ b.closeChar :: ('\n' :: (itemsText false rest ++ '}' :: r)))) := by
        simp [itemsText]
      rw [e]
      have := members_step (hn l rfl) (v := sectVal b inner) (skip_cons (isWs_open b) _)
        (value_sect ih1 hi (fuel := fuel) (by omega) ('\n' :: (itemsText false rest ++ '}' :: r))) hrest
        (fun hne => ih2.1 hrest hne _ (by omega) r)
      rw [this]
      cases b <;> rfl
    · obtain ⟨h1, hn, hi, hrest⟩ := hok
      have hnone : n = none := by
        cases n with
        | none => rfl
        | some l => exact absurd (h1.2 rfl) (by simp)
      subst hnone
      have hf' : 2 + need inner + need rest ≤ fuel := hf
      obtain ⟨fuel, rfl⟩ : ∃ k, fuel = k + 2 := ⟨fuel - 2, by omega⟩
      have e : itemsText true (.sect none b inner rest) ++ ']' :: r =
          b.openChar :: '\n' :: (itemsText true inner ++ b.closeChar :: ('\n' :: (itemsText false rest ++ ']' :: r))) := by
        simp [itemsText, nameText]
      rw [e]
      have := elements_step (v := sectVal b inner)
        (value_sect ih1 hi (fuel := fuel) (by omega) ('\n' :: (itemsText false rest ++ ']' :: r))) hrest
        (fun hne => ih2.2 hrest hne _ (by omega) r)
      rw [this]
      cases b <;> rfl

/-- A whole document is printed and read back. -/
theorem parse_document {b : Bracket} {inner : Items} (h : inner.Ok b) :
    ∃ p, Printer.run .new (Items.sect none b inner .nil).calls = some p ∧ p.contexts = [] ∧ parse p.out = some (sectVal b inner) := by
  refine ⟨⟨[], b.openChar :: '\n' :: (itemsText true inner ++ b.closeChar :: ['\n'])⟩, ?_, rfl, ?_⟩
  · rw [Items.calls, run_cons, call_open]
    show (Printer.openBracket ⟨[], []⟩ none b).bind _ = _
    unfold Printer.openBracket
    simp only [Option.map_some, Option.bind_some]
    rw [run_append, run_items inner b true [] _ h]
    simp only [Option.bind_some]
    rw [run_cons, call_close]
    unfold Printer.closeBracket
    simp [Printer.run, Items.calls]
  · unfold parse
    rw [skip_cons (isWs_open b)]
    have hlen : need inner ≤ (b.openChar :: '\n' :: (itemsText true inner ++ b.closeChar :: ['\n'])).length := by
      have := need_le inner true
      simp only [List.length_cons, List.length_append]
      omega
    rw [value_sect (readsBack inner) h hlen ['\n']]
    rfl

end Verif.Json
