import Verif.Spec.Json
/-!
# Lemmas on the JSON printer: the text printed
-/

namespace Verif.Json
open JsonSpec

/-! ### ASCII strings -/

def Ascii (s : Str) : Prop := ∀ c ∈ s, c.utf8Size = 1

theorem ascii_of_lt {c : Char} (h : c.toNat < 0x80) : c.utf8Size = 1 := by
  unfold Char.utf8Size
  have : c.val.toNat < 0x80 := h
  have hv : c.val ≤ 0x7F := by
    rw [UInt32.le_iff_toNat_le]
    show c.val.toNat ≤ 127
    omega
  simp [hv]

theorem Ascii.append {a b : Str} (h1 : Ascii a) (h2 : Ascii b) : Ascii (a ++ b) := by
  intro c hc
  rcases List.mem_append.1 hc with h | h
  · exact h1 c h
  · exact h2 c h

theorem Ascii.left {a b : Str} (h : Ascii (a ++ b)) : Ascii a := fun c hc => h c (List.mem_append_left _ hc)
theorem Ascii.right {a b : Str} (h : Ascii (a ++ b)) : Ascii b := fun c hc => h c (List.mem_append_right _ hc)

theorem byteLen_ascii {s : Str} (h : Ascii s) : byteLen s = s.length := by
  unfold byteLen
  induction s with
  | nil => rfl
  | cons c s ih =>
    rw [List.map_cons, List.sum_cons, ih (fun c hc => h c (List.mem_cons_of_mem _ hc)), h c List.mem_cons_self, List.length_cons]
    omega

theorem byteLen_append (a b : Str) : byteLen (a ++ b) = byteLen a + byteLen b := by
  unfold byteLen
  rw [List.map_append, List.sum_append]

theorem dropBytes_append {a : Str} (h : Ascii a) (b : Str) : dropBytes (a ++ b) a.length = some b := by
  induction a with
  | nil => unfold dropBytes; cases b <;> rfl
  | cons c a ih =>
    have hc := h c List.mem_cons_self
    show dropBytes (c :: (a ++ b)) (a.length + 1) = _
    unfold dropBytes
    rw [if_pos (by omega), hc]
    exact ih (fun c hc => h c (List.mem_cons_of_mem _ hc))

theorem takeBytes_append {a : Str} (h : Ascii a) (b : Str) : takeBytes (a ++ b) a.length = some a := by
  induction a with
  | nil => unfold takeBytes; cases b <;> rfl
  | cons c a ih =>
    have hc := h c List.mem_cons_self
    show takeBytes (c :: (a ++ b)) (a.length + 1) = _
    unfold takeBytes
    rw [if_pos (by omega), hc]
    have := ih (fun c hc => h c (List.mem_cons_of_mem _ hc))
    show Option.map _ (takeBytes (a ++ b) a.length) = _
    rw [this]; rfl

theorem slice_mid {a m : Str} (ha : Ascii a) (hm : Ascii m) (b : Str) : slice (a ++ (m ++ b)) a.length (a.length + m.length) = some m := by
  unfold slice
  rw [if_pos (by omega), dropBytes_append ha]
  show takeBytes (m ++ b) _ = _
  rw [show a.length + m.length - a.length = m.length from by omega]
  exact takeBytes_append hm b

/-! ### `strip_front_end_chars` -/

theorem stripLoop_skip (chars : Str) : ∀ (a : Str) (i : Nat) (st : Option Nat) (e : Nat) (rest : Str), (∀ c ∈ a, c ∈ chars) →
    stripLoop chars i st e (a ++ rest) = stripLoop chars (i + a.length) st e rest := by
  intro a
  induction a with
  | nil => intros; rfl
  | cons c a ih =>
    intro i st e rest h
    show stripLoop chars i st e (c :: (a ++ rest)) = _
    rw [stripLoop, if_pos (h c List.mem_cons_self), ih _ _ _ _ (fun c hc => h c (List.mem_cons_of_mem _ hc))]
    rw [List.length_cons, show i + 1 + a.length = i + (a.length + 1) from by omega]

theorem stripLoop_some (chars : Str) : ∀ (m : Str) (i k e : Nat) (rest : Str), (∀ c, m.getLast? = some c → c ∉ chars) → m ≠ [] →
    stripLoop chars i (some k) e (m ++ rest) = stripLoop chars (i + m.length) (some k) (i + m.length - 1) rest := by
  intro m
  induction m with
  | nil => intro i k e rest _ h; exact absurd rfl h
  | cons c m ih =>
    intro i k e rest h _
    show stripLoop chars i (some k) e (c :: (m ++ rest)) = _
    by_cases hm : m = []
    · subst hm
      have hc : c ∉ chars := h c rfl
      rw [stripLoop, if_neg hc]
      rfl
    · have hl : ∀ c, m.getLast? = some c → c ∉ chars := by
        intro d hd
        refine h d ?_
        rw [List.getLast?_cons_of_ne_nil hm]
        exact hd
      have e1 : i + 1 + m.length = i + (c :: m).length := by rw [List.length_cons]; omega
      rw [stripLoop]
      by_cases hc : c ∈ chars
      · rw [if_pos hc, ih _ _ _ _ hl hm, e1]
      · rw [if_neg hc]
        show stripLoop chars (i + 1) (some k) i (m ++ rest) = _
        rw [ih _ _ _ _ hl hm, e1]

theorem strip_eq {chars a m b : Str} (ha : Ascii a) (hm : Ascii m) (hb : Ascii b) (h1 : ∀ c ∈ a, c ∈ chars) (h2 : ∀ c ∈ b, c ∈ chars)
    (h3 : ∀ c, m.head? = some c → c ∉ chars) (h4 : ∀ c, m.getLast? = some c → c ∉ chars) (hne : m ≠ []) :
    strip chars (a ++ (m ++ b)) = some m := by
  have hlen : 0 < m.length := List.length_pos_iff.2 hne
  have hl : stripLoop chars 0 none 0 (a ++ (m ++ b)) = (some a.length, a.length + m.length - 1) := by
    rw [stripLoop_skip chars a 0 none 0 _ h1]
    obtain ⟨c, m', rfl⟩ : ∃ c m', m = c :: m' := by
      cases m with
      | nil => exact absurd rfl hne
      | cons c m' => exact ⟨c, m', rfl⟩
    show stripLoop chars (0 + a.length) none 0 (c :: (m' ++ b)) = _
    rw [stripLoop, if_neg (h3 c rfl)]
    show stripLoop chars (0 + a.length + 1) (some (0 + a.length)) (0 + a.length) (m' ++ b) = _
    have hend : ∀ i st e, stripLoop chars i st e b = (st, e) := by
      intro i st e
      have := stripLoop_skip chars b i st e [] h2
      rw [List.append_nil] at this
      rw [this]; rfl
    by_cases hm' : m' = []
    · subst hm'
      show stripLoop chars _ _ _ b = _
      rw [hend]
      simp
    · rw [stripLoop_some chars m' _ _ _ _ _ hm', hend]
      · rw [List.length_cons]
        simp only [Prod.mk.injEq, Option.some.injEq]
        omega
      · intro d hd
        refine h4 d ?_
        rw [List.getLast?_cons_of_ne_nil hm']
        exact hd
  unfold strip
  rw [hl]
  simp only
  have hbl : byteLen (a ++ (m ++ b)) = a.length + (m.length + b.length) := by
    rw [byteLen_ascii (ha.append (hm.append hb))]; simp
  rw [if_pos (by omega)]
  show slice _ a.length (a.length + m.length - 1 + 1) = _
  rw [show a.length + m.length - 1 + 1 = a.length + m.length from by omega]
  exact slice_mid ha hm b

/-! ### Labels -/

theorem wordChar_ascii {c : Char} (h : wordChar c = true) : c.toNat < 0x80 ∧ 0x20 < c.toNat ∧ c ∉ [' ', '(', ')', ':', '"', '\\'] := by
  have hc : c.toNat < 0x80 ∧ 0x20 < c.toNat := by
    unfold wordChar Char.isAlphanum Char.isAlpha Char.isUpper Char.isLower Char.isDigit at h
    simp only [Bool.or_eq_true, Bool.and_eq_true, decide_eq_true_eq, UInt32.le_iff_toNat_le, ge_iff_le] at h
    have e : c.toNat = c.val.toNat := rfl
    rcases h with (((⟨⟨h1, h2⟩ | ⟨h1, h2⟩⟩ | ⟨h1, h2⟩) | h) | h) | h
    all_goals first
      | (subst h; decide)
      | (have a1 := h1; have a2 := h2; simp at a1 a2; omega)
  refine ⟨hc.1, hc.2, ?_⟩
  intro hm
  simp only [List.mem_cons, List.not_mem_nil, or_false] at hm
  rcases hm with rfl | rfl | rfl | rfl | rfl | rfl <;> revert h <;> decide

theorem splitSpace_plain : ∀ (w : Str), ' ' ∉ w → splitSpace w = [w]
  | [], _ => rfl
  | c :: w, h => by
    rw [splitSpace, if_neg (fun hc => h (by rw [hc]; exact List.mem_cons_self)),
      splitSpace_plain w (fun hw => h (List.mem_cons_of_mem _ hw))]

theorem splitSpace_append : ∀ (w rest : Str), ' ' ∉ w → splitSpace (w ++ ' ' :: rest) = w :: splitSpace rest
  | [], rest, _ => by rw [List.nil_append, splitSpace, if_pos rfl]
  | c :: w, rest, h => by
    show splitSpace (c :: (w ++ ' ' :: rest)) = _
    rw [splitSpace, if_neg (fun hc => h (by rw [hc]; exact List.mem_cons_self)),
      splitSpace_append w rest (fun hw => h (List.mem_cons_of_mem _ hw))]

theorem splitSpace_words : ∀ (ws : List Str) (w : Str), ' ' ∉ w → (∀ v ∈ ws, ' ' ∉ v) →
    splitSpace (w ++ ws.flatMap fun v => ' ' :: v) = w :: ws
  | [], w, h, _ => by simpa using splitSpace_plain w h
  | v :: ws, w, h, hs => by
    rw [List.flatMap_cons]
    show splitSpace (w ++ ' ' :: (v ++ ws.flatMap fun v => ' ' :: v)) = _
    rw [splitSpace_append w _ h, splitSpace_words ws v (hs v List.mem_cons_self) (fun u hu => hs u (List.mem_cons_of_mem _ hu))]

theorem wordOk_ascii {w : Str} (h : ∀ c ∈ w, wordChar c = true) : Ascii w := fun c hc => ascii_of_lt (wordChar_ascii (h c hc)).1

theorem wordOk_not {w : Str} (h : ∀ c ∈ w, wordChar c = true) {c : Char} (hc : c ∈ [' ', '(', ')', ':', '"', '\\']) : c ∉ w :=
  fun hw => (wordChar_ascii (h c hw)).2.2 hc

theorem word_space {w : Word} (h : ∀ c ∈ w.chars, wordChar c = true) : ' ' ∉ w.text := by
  have := wordOk_not h (c := ' ') (by simp)
  unfold Word.text
  split
  · simp [this]
  · exact this

theorem camelWord_eq {w : Word} (hp : w.paren = true → w.chars ≠ []) (h : ∀ c ∈ w.chars, wordChar c = true) :
    camelWord w.text = some (capital w.chars) := by
  by_cases hne : w.chars = []
  · have hw : w.paren = false := by
      cases hb : w.paren with
      | false => rfl
      | true => exact absurd hne (hp hb)
    unfold Word.text
    rw [hw, hne]
    rfl
  have ha := wordOk_ascii h
  have hh : ∀ c ∈ w.chars, c ∉ [' ', '(', ')'] := by
    intro c hc hm
    refine (wordChar_ascii (h c hc)).2.2 ?_
    simp only [List.mem_cons, List.not_mem_nil, or_false] at hm ⊢
    rcases hm with h | h | h <;> simp [h]
  have h3 : ∀ c, w.chars.head? = some c → c ∉ [' ', '(', ')'] := fun c hc => hh c (List.mem_of_head? hc)
  have h4 : ∀ c, w.chars.getLast? = some c → c ∉ [' ', '(', ')'] := fun c hc => hh c (List.mem_of_getLast? hc)
  have hs : strip [' ', '(', ')'] w.text = some w.chars := by
    unfold Word.text
    split
    · have := strip_eq (chars := [' ', '(', ')']) (a := ['(']) (m := w.chars) (b := [')']) (fun c hc => by
        rw [List.mem_singleton.1 hc]; rfl) ha (fun c hc => by rw [List.mem_singleton.1 hc]; rfl)
        (fun c hc => by rw [List.mem_singleton.1 hc]; decide) (fun c hc => by rw [List.mem_singleton.1 hc]; decide) h3 h4 hne
      exact this
    · have := strip_eq (chars := [' ', '(', ')']) (a := []) (m := w.chars) (b := []) (fun c hc => by cases hc) ha (fun c hc => by cases hc)
        (fun c hc => by cases hc) (fun c hc => by cases hc) h3 h4 hne
      rw [List.append_nil] at this
      exact this
  unfold camelWord
  rw [hs, Option.map_some]
  cases w.chars <;> rfl

theorem mapM_some {α β : Type} (f : α → Option β) (g : α → β) : ∀ (l : List α), (∀ a ∈ l, f a = some (g a)) → l.mapM f = some (l.map g)
  | [], _ => rfl
  | a :: l, h => by
    rw [List.mapM_cons, h a List.mem_cons_self, mapM_some f g l (fun b hb => h b (List.mem_cons_of_mem _ hb))]
    rfl

theorem toCamelcase_label {l : Label} (h : l.Ok) : toCamelcase l.text = some l.key := by
  obtain ⟨⟨-, h1⟩, h2, -⟩ := h
  have e : l.text = l.first ++ (l.rest.map Word.text).flatMap fun v => ' ' :: v := by
    unfold Label.text
    rw [List.flatMap_map]
  unfold toCamelcase
  rw [e, splitSpace_words _ _ (wordOk_not h1 (by simp)) (by
    intro v hv
    obtain ⟨w, hw, rfl⟩ := List.mem_map.1 hv
    exact word_space (h2 w hw).2)]
  simp only
  rw [List.mapM_map]
  rw [mapM_some (camelWord ∘ Word.text) (fun w : Word => capital w.chars) _ (fun w hw => camelWord_eq (h2 w hw).1 (h2 w hw).2)]
  simp only [Option.map_some]
  unfold Label.key
  rw [List.flatMap_def]

/-- The characters of a label. -/
theorem label_chars {l : Label} (h : l.Ok) : ∀ c ∈ l.text, wordChar c = true ∨ c ∈ [' ', '(', ')'] := by
  obtain ⟨⟨-, h1⟩, h2, -⟩ := h
  intro c hc
  unfold Label.text at hc
  rcases List.mem_append.1 hc with hc | hc
  · exact .inl (h1 c hc)
  · obtain ⟨w, hw, hc⟩ := List.mem_flatMap.1 hc
    rcases List.mem_cons.1 hc with rfl | hc
    · exact .inr (by simp)
    · unfold Word.text at hc
      split at hc
      · rcases List.mem_cons.1 hc with rfl | hc
        · exact .inr (by simp)
        · rcases List.mem_append.1 hc with hc | hc
          · exact .inl ((h2 w hw).2 c hc)
          · rw [List.mem_singleton.1 hc]; exact .inr (by simp)
      · exact .inl ((h2 w hw).2 c hc)

theorem label_ascii {l : Label} (h : l.Ok) : Ascii l.text := by
  intro c hc
  rcases label_chars h c hc with h | h
  · exact ascii_of_lt (wordChar_ascii h).1
  · simp only [List.mem_cons, List.not_mem_nil, or_false] at h
    rcases h with rfl | rfl | rfl <;> rfl

theorem label_colon {l : Label} (h : l.Ok) : ':' ∉ l.text := by
  intro hc
  rcases label_chars h _ hc with h | h
  · exact absurd h (by decide)
  · exact absurd h (by decide)

theorem label_ne {l : Label} (h : l.Ok) : l.text ≠ [] := by
  unfold Label.text
  intro hn
  exact h.1.1 (List.append_eq_nil_iff.1 hn).1

theorem label_head {l : Label} (h : l.Ok) (c : Char) (hc : l.text.head? = some c) : c ∉ [' '] := by
  obtain ⟨⟨hne, h1⟩, -⟩ := h
  unfold Label.text at hc
  cases hf : l.first with
  | nil => exact absurd hf hne
  | cons d s =>
    rw [hf] at hc
    have hd : d = c := by simpa using hc
    subst hd
    have := (wordChar_ascii (h1 d (by rw [hf]; exact List.mem_cons_self))).2.2
    intro hm
    exact this (by rw [List.mem_singleton.1 hm]; simp)

theorem label_last {l : Label} (h : l.Ok) (c : Char) (hc : l.text.getLast? = some c) : c ∉ [' '] := by
  obtain ⟨⟨hne, h1⟩, h2, h3⟩ := h
  have key : wordChar c = true ∨ c = ')' := by
    unfold Label.text at hc
    rcases List.eq_nil_or_concat l.rest with hr | ⟨ws, w, hr⟩
    · rw [hr] at hc
      simp only [List.flatMap_nil, List.append_nil] at hc
      exact .inl (h1 c (List.mem_of_getLast? hc))
    · rw [hr, List.concat_eq_append] at hc
      rw [List.flatMap_append, List.flatMap_cons, List.flatMap_nil, List.append_nil, ← List.append_assoc] at hc
      have hw := h2 w (by rw [hr]; simp)
      have hwt : w.text ≠ [] := by
        unfold Word.text
        split
        · simp
        · exact h3 w (by rw [hr]; simp)
      rw [List.getLast?_append, List.getLast?_cons_of_ne_nil hwt, List.getLast?_eq_some_getLast hwt, Option.some_or, ← List.getLast?_eq_some_getLast hwt] at hc
      unfold Word.text at hc
      split at hc
      · right
        rw [List.getLast?_append] at hc
        simpa using hc.symm
      · exact .inl (hw.2 c (List.mem_of_getLast? hc))
  intro hm
  rw [List.mem_singleton.1 hm] at key
  rcases key with h | h <;> exact absurd h (by decide)

/-! ### Messages -/

theorem plain_ascii {v : Str} (h : Plain v) : Ascii v := fun c hc => ascii_of_lt (by have := h.1 c hc; omega)

theorem spaces_mem (n : Nat) : ∀ c ∈ List.replicate n ' ', c ∈ [' '] := fun c hc => by
  rw [(List.mem_replicate.1 hc).2]; simp

theorem spaces_ascii (n : Nat) : Ascii (List.replicate n ' ') := fun c hc => by
  rw [(List.mem_replicate.1 hc).2]; rfl

theorem splitKeyVal_message {l : Label} {v : Str} (hl : l.Ok) (hv : Plain v) (b a : Nat) :
    splitKeyVal (message b l a v) = some (l.text, v) := by
  have hva := plain_ascii hv
  have hla := label_ascii hl
  generalize hpre : List.replicate b ' ' ++ l.text ++ List.replicate a ' ' = pre
  have hp : Ascii pre := by rw [← hpre]; exact ((spaces_ascii b).append hla).append (spaces_ascii a)
  have hnc : ':' ∉ pre := by
    rw [← hpre]
    simp only [List.mem_append, not_or]
    exact ⟨⟨fun h => absurd (spaces_mem b _ h) (by decide), label_colon hl⟩, fun h => absurd (spaces_mem a _ h) (by decide)⟩
  have hm : message b l a v = pre ++ (':' :: ' ' :: v) := by unfold message; rw [hpre]
  have hcol : colon (message b l a v) = pre.length := by
    unfold colon
    rw [hm, List.findIdx?_append]
    rw [List.findIdx?_eq_none_iff.2 (by
      intro c hc
      rw [decide_eq_false_iff_not]
      rintro rfl
      exact hnc hc)]
    simp [List.findIdx?_cons]
  have e1 : slice (message b l a v) 0 pre.length = some pre := by
    have := slice_mid (a := []) (m := pre) (fun c hc => by cases hc) hp (':' :: ' ' :: v)
    simpa [hm] using this
  have e2 : strip [' '] pre = some l.text := by
    rw [← hpre, List.append_assoc]
    exact strip_eq (spaces_ascii b) hla (spaces_ascii a) (spaces_mem b) (spaces_mem a) (label_head hl) (label_last hl) (label_ne hl)
  have hsp : Ascii (' ' :: v) := by
    intro c hc
    rcases List.mem_cons.1 hc with rfl | hc
    · rfl
    · exact hva c hc
  have hpc : Ascii (pre ++ [':']) := hp.append (fun c hc => by rw [List.mem_singleton.1 hc]; rfl)
  have e3 : slice (message b l a v) (pre.length + 1) (byteLen (message b l a v)) = some (' ' :: v) := by
    have := slice_mid (a := pre ++ [':']) (m := ' ' :: v) hpc hsp []
    have hb : byteLen (message b l a v) = (pre ++ [':']).length + (' ' :: v).length := by
      rw [hm, show pre ++ ':' :: ' ' :: v = (pre ++ [':']) ++ (' ' :: v) from by simp, byteLen_ascii (hpc.append hsp), List.length_append]
    rw [hb, show pre.length + 1 = (pre ++ [':']).length from by simp]
    rw [← this, hm]
    simp
  have e4 : strip [' '] (' ' :: v) = some v := by
    have := strip_eq (chars := [' ']) (a := [' ']) (m := v) (b := []) (fun c hc => by rw [List.mem_singleton.1 hc]; rfl) hva
      (fun c hc => by cases hc) (fun c hc => hc) (fun c hc => by cases hc)
      (fun c hc hm => hv.2.2.1 (by rw [hc, List.mem_singleton.1 hm])) (fun c hc hm => hv.2.2.2 (by rw [hc, List.mem_singleton.1 hm])) hv.2.1
    rw [List.append_nil] at this
    exact this
  unfold splitKeyVal
  rw [hcol, e1]
  simp only [Option.bind_eq_bind, Option.bind_some, e2, e3, e4]
  rfl

/-! ### The text of a document -/

/-- Text of a field. -/
def scalarText (force : Bool) (v : Str) : Str := if skipQuotes force v then escapeQuotes v else '"' :: escapeQuotes v ++ ['"']

/-- Text of a label in front of a section. -/
def nameText : Option Label → Str
  | none => []
  | some l => '"' :: l.key ++ ['"', ':', ' ']

/-- The text of a document; `first` tells whether nothing stands before it in the same brackets. -/
def itemsText : (first : Bool) → Items → Str
  | _, .nil => []
  | first, .field _ l _ f v rest =>
    (if first then [] else [',']) ++ (nameText (some l) ++ (scalarText f v ++ '\n' :: itemsText false rest))
  | first, .sect n b inner rest =>
    (if first then [] else [',']) ++ (nameText n ++ (b.openChar :: '\n' :: (itemsText true inner ++ b.closeChar :: '\n' :: itemsText false rest)))

theorem run_append (p : Printer) (a b : List Call) : p.run (a ++ b) = (p.run a).bind fun q => q.run b := by
  induction a generalizing p with
  | nil => rfl
  | cons c a ih =>
    show (p.call c).bind (fun q => q.run (a ++ b)) = ((p.call c).bind fun q => q.run a).bind _
    cases hc : p.call c with
    | none => rfl
    | some q =>
      simp only [Option.bind_some]
      exact ih q

/-- The flag after a document. -/
def flag : Bool → Items → Bool
  | first, .nil => first
  | _, _ => false

theorem flag_false (it : Items) : flag false it = false := by cases it <;> rfl

theorem call_msg (p : Printer) (f : Bool) (t : Str) : p.call (.msg f t) = p.maybeJson f t := rfl
theorem call_open (p : Printer) (n : Option Str) (b : Bracket) : p.call (.openB n b) = p.openBracket n b := rfl
theorem call_close (p : Printer) : p.call .close = p.closeBracket := rfl
theorem run_cons (p : Printer) (c : Call) (cs : List Call) : p.run (c :: cs) = (p.call c).bind fun q => q.run cs := rfl

/-- Within brackets, the calls of a document print its text. -/
theorem run_items : ∀ (it : Items) (br : Bracket) (first : Bool) (xs : List Ctx) (out : Str), it.Ok br →
    Printer.run ⟨⟨first, br⟩ :: xs, out⟩ it.calls = some ⟨⟨flag first it, br⟩ :: xs, out ++ itemsText first it⟩ := by
  intro it
  induction it with
  | nil => intro br first xs out _; simp [Items.calls, Printer.run, itemsText, flag]
  | field b l a f v rest ih =>
    intro br first xs out h
    obtain ⟨rfl, hl, hv, -, hr⟩ := h
    have h1 : Printer.call ⟨⟨first, .curly⟩ :: xs, out⟩ (.msg f (message b l a v)) =
        some ⟨⟨false, .curly⟩ :: xs, out ++ ((if first then [] else [',']) ++ (nameText (some l) ++ (scalarText f v ++ ['\n'])))⟩ := by
      rw [call_msg]
      unfold Printer.maybeJson
      simp only
      rw [splitKeyVal_message hl hv b a]
      simp only [Option.bind_eq_bind, Option.bind_some, fieldText]
      rw [toCamelcase_label hl]
      simp [nameText, scalarText, List.append_assoc]
    rw [Items.calls, run_cons, h1]
    simp only [Option.bind_some]
    rw [ih .curly false xs _ hr, flag_false]
    simp [itemsText, flag, List.append_assoc]
  | sect n b inner rest ih1 ih2 =>
    intro br first xs out h
    obtain ⟨-, hn, hi, hr⟩ := h
    have h1 : Printer.call ⟨⟨first, br⟩ :: xs, out⟩ (.openB (n.map Label.text) b) =
        some ⟨⟨true, b⟩ :: ⟨false, br⟩ :: xs, out ++ (if first then [] else [',']) ++ nameText n ++ [b.openChar, '\n']⟩ := by
      rw [call_open]
      unfold Printer.openBracket
      simp only
      cases n with
      | none => simp [nameText]
      | some l =>
        simp only [Option.map_some]
        rw [toCamelcase_label (hn l rfl)]
        simp [nameText]
    rw [Items.calls, run_cons, h1]
    simp only [Option.bind_some]
    rw [run_append, ih1 b true _ _ hi]
    simp only [Option.bind_some]
    rw [run_cons, call_close]
    unfold Printer.closeBracket
    simp only [Option.bind_some]
    rw [ih2 br false xs _ hr, flag_false]
    simp [itemsText, flag, List.append_assoc]

end Verif.Json
