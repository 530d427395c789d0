import Verif.Lemmas.JsonParse
import Verif.Spec.Show
import Verif.Props.Scan
/-!
# Lemmas on the JSON output of `show`
-/

namespace Verif.Json
open JsonSpec Scan Misc ScanSpec

/-- A text that is printed and read back as a value. -/
def Good (f : Bool) (v : Str) (x : Val) : Prop := Plain v ∧ (f = false → ¬ OddNumber v) ∧ scalar f v = x

theorem good_name {v : Str} (h : PlainName v) : Good false v (strV v) := by
  obtain ⟨h1, h2, h3, h4, h5, h6⟩ := h
  refine ⟨h1, fun _ => h6, ?_⟩
  unfold scalar
  rw [if_neg (by simp), if_neg h2, if_neg h3, if_neg h4, if_neg h5]
  rfl

theorem good_null : Good false nullText .null := by
  refine ⟨⟨by decide, by decide, by decide, by decide⟩, fun _ => ?_, rfl⟩
  rintro (⟨r, h, -⟩ | ⟨r, h, -⟩) <;> exact absurd (List.cons.inj h).1 (by decide)

theorem digit_plain {c : Char} (h : c.isDigit = true) : 0x20 ≤ c.toNat ∧ c.toNat < 0x7F ∧ c ≠ '\\' ∧ c ≠ ' ' ∧ c ≠ '+' := by
  obtain ⟨h1, h2⟩ := digit_facts h
  refine ⟨by omega, by omega, ?_, ?_, ?_⟩ <;> (rintro rfl; revert h1 h2; decide)

theorem head_toDigits : ∀ (n : Nat) (r : Str), Nat.toDigits 10 n = '0' :: r → r = [] := by
  intro n
  induction n using Nat.strongRecOn with
  | _ n ih =>
    intro r h
    by_cases hn : n < 10
    · rw [Nat.toDigits_of_lt_base hn] at h
      exact (List.cons.inj h).2.symm
    · rw [Nat.toDigits_of_base_le (by omega) (by omega)] at h
      cases hd : Nat.toDigits 10 (n / 10) with
      | nil => exact absurd hd Nat.toDigits_ne_nil
      | cons c s =>
        rw [hd, List.cons_append] at h
        obtain ⟨rfl, -⟩ := List.cons.inj h
        have hs := ih (n / 10) (by omega) s hd
        subst hs
        have : Nat.ofDigitChars 10 (Nat.toDigits 10 (n / 10)) 0 = n / 10 := Nat.ofDigitChars_ten_toDigits
        rw [hd] at this
        have h0 : Nat.ofDigitChars 10 ['0'] 0 = 0 := by decide
        omega

theorem isNumber_dec {n : Nat} (h : n < 2 ^ 64) : IsNumber (dec n) :=
  ⟨Nat.toDigits_ne_nil, fun c hc => Nat.isDigit_of_mem_toDigits (by omega) (by omega) hc, by
    unfold dec; rw [Nat.ofDigitChars_ten_toDigits]; exact h⟩

theorem good_dec {n : Nat} (h : n < 2 ^ 64) : Good false (dec n) (numV n) := by
  have hn := isNumber_dec h
  have hmem : ∀ c ∈ dec n, c.isDigit = true := hn.2.1
  have hno : ∀ c : Char, c.isDigit = false → c ∉ dec n := fun c hc hm => by
    rw [hmem c hm] at hc; cases hc
  refine ⟨⟨fun c hc => ?_, hn.1, ?_, ?_⟩, fun _ => ?_, ?_⟩
  · obtain ⟨a, b, c, -⟩ := digit_plain (hmem c hc)
    exact ⟨a, b, c⟩
  · intro h
    exact hno ' ' (by decide) (List.mem_of_head? h)
  · intro h
    exact hno ' ' (by decide) (List.mem_of_getLast? h)
  · rintro (⟨r, hr, -⟩ | ⟨r, hr, hne, -⟩)
    · exact hno '+' (by decide) (by rw [hr]; exact List.mem_cons_self)
    · exact hne (head_toDigits n r hr)
  · unfold scalar
    rw [if_neg (by simp), if_neg, if_neg, if_neg, if_pos hn]
    · rfl
    · intro h; exact hno 'f' (by decide) (by rw [h]; decide)
    · intro h; exact hno 't' (by decide) (by rw [h]; decide)
    · intro h; exact hno 'n' (by decide) (by rw [h]; decide)

theorem plainName_of_space {v : Str} (h : Plain v) (hs : ' ' ∈ v) : PlainName v := by
  have hn : ¬ IsNumber v := fun hn => absurd (hn.2.1 _ hs) (by decide)
  refine ⟨h, ?_, ?_, ?_, hn, ?_⟩
  · rintro rfl; revert hs; decide
  · rintro rfl; revert hs; decide
  · rintro rfl; revert hs; decide
  · rintro (⟨r, rfl, hr⟩ | ⟨r, rfl, -, hr⟩)
    · rcases List.mem_cons.1 hs with h | h
      · exact absurd h (by decide)
      · exact absurd (hr.2.1 _ h) (by decide)
    · exact hn hr

/-- Pieces of text. -/
def PlainPart (v : Str) : Prop := ∀ c ∈ v, 0x20 ≤ c.toNat ∧ c.toNat < 0x7F ∧ c ≠ '\\'

theorem PlainPart.append {a b : Str} (h1 : PlainPart a) (h2 : PlainPart b) : PlainPart (a ++ b) := by
  intro c hc
  rcases List.mem_append.1 hc with h | h
  · exact h1 c h
  · exact h2 c h

theorem plain_mk {a b : Str} (h : PlainPart (a ++ b)) {x y : Char} (ha : a.head? = some x) (hb : b.getLast? = some y) (hx : x ≠ ' ') (hy : y ≠ ' ') :
    Plain (a ++ b) := by
  refine ⟨h, ?_, ?_, ?_⟩
  · intro hn
    rw [(List.append_eq_nil_iff.1 hn).1] at ha
    cases ha
  · rw [List.head?_append, ha]
    intro he
    exact hx (Option.some.inj he)
  · rw [List.getLast?_append, hb]
    intro he
    exact hy (Option.some.inj he)

theorem good_date {utc loc : Int64 → Option Str} (hd : PlainDates utc loc) (t : Int64) :
    Good false (dateText utc loc t) (strV (dateText utc loc t)) := by
  refine good_name ?_
  unfold dateText
  split
  · next u l hu hl =>
    have h1 := hd t u (.inl hu)
    have h2 := hd t l (.inr hl)
    obtain ⟨x, hx⟩ : ∃ x, u.head? = some x := by
      cases hu' : u with
      | nil => exact absurd hu' h1.2.1
      | cons x s => exact ⟨x, rfl⟩
    have e : u ++ " (UTC)  ".toList ++ l ++ " (Local)".toList = u ++ (" (UTC)  ".toList ++ (l ++ " (Local)".toList)) := by
      simp only [List.append_assoc]
    rw [e]
    refine plainName_of_space (plain_mk ?_ hx (y := ')') ?_ ?_ (by decide)) ?_
    · exact PlainPart.append h1.1 (PlainPart.append (by unfold PlainPart; decide) (PlainPart.append h2.1 (by unfold PlainPart; decide)))
    · rw [List.getLast?_append, List.getLast?_append]; rfl
    · rintro rfl; exact h1.2.2.1 hx
    · exact List.mem_append_right _ (List.mem_append_left _ (by decide))
  · refine plainName_of_space ⟨by decide, by decide, by decide, by decide⟩ (by decide)

theorem hexTable : ∀ n : Fin 256, PlainPart (ofAscii (hexByte 0x41 (UInt8.ofNat n))) ∧ ' ' ∉ ofAscii (hexByte 0x41 (UInt8.ofNat n)) ∧
    PlainPart (ofAscii (hexByte 0x61 (UInt8.ofNat n))) ∧ ' ' ∉ ofAscii (hexByte 0x61 (UInt8.ofNat n)) := by
  unfold PlainPart; decide +kernel

theorem hexTable' (b : Byte) : PlainPart (ofAscii (hexByte 0x41 b)) ∧ ' ' ∉ ofAscii (hexByte 0x41 b) ∧
    PlainPart (ofAscii (hexByte 0x61 b)) ∧ ' ' ∉ ofAscii (hexByte 0x61 b) := by
  have := hexTable ⟨b.toNat, b.toNat_lt⟩
  simpa using this

theorem ofAscii_flatMap (g : Byte → List Byte) (l : List Byte) : ofAscii (l.flatMap g) = l.flatMap fun b => ofAscii (g b) := by
  unfold ofAscii
  rw [List.map_flatMap]

theorem upper_plain (l : List Byte) : PlainPart (ofAscii (upperHex l)) ∧ ' ' ∉ ofAscii (upperHex l) := by
  unfold upperHex
  rw [ofAscii_flatMap]
  constructor
  · intro c hc
    obtain ⟨b, -, hb⟩ := List.mem_flatMap.1 hc
    exact (hexTable' b).1 c hb
  · intro hc
    obtain ⟨b, -, hb⟩ := List.mem_flatMap.1 hc
    exact (hexTable' b).2.1 hb

theorem lower_plain (l : List Byte) : PlainPart (ofAscii (lowerHex l)) ∧ ' ' ∉ ofAscii (lowerHex l) := by
  unfold lowerHex
  rw [ofAscii_flatMap]
  constructor
  · intro c hc
    obtain ⟨b, -, hb⟩ := List.mem_flatMap.1 hc
    exact (hexTable' b).2.2.1 c hb
  · intro hc
    obtain ⟨b, -, hb⟩ := List.mem_flatMap.1 hc
    exact (hexTable' b).2.2.2 hb

theorem good_uid (u : Uid) : Good true (ofAscii (upperHex u.bytes)) (strV (ofAscii (upperHex u.bytes))) := by
  obtain ⟨h1, h2⟩ := upper_plain u.bytes
  refine ⟨⟨h1, ?_, ?_, ?_⟩, fun h => absurd h (by simp), rfl⟩
  · intro h
    have : (ofAscii (upperHex u.bytes)).length = 12 := by
      unfold ofAscii upperHex
      rw [List.length_map, List.length_flatMap]
      have : ∀ l : List Byte, (l.map fun b => (hexByte 0x41 b).length).sum = 2 * l.length := by
        intro l
        induction l with
        | nil => rfl
        | cons b l ih => rw [List.map_cons, List.sum_cons, ih, List.length_cons]; show 2 + _ = _; omega
      rw [this, u.len]
    rw [h] at this
    cases this
  · intro h; exact h2 (List.mem_of_head? h)
  · intro h; exact h2 (List.mem_of_getLast? h)

theorem good_hash (h : HashBytes) : Good false (hashName h.ty ++ " - ".toList ++ ofAscii (lowerHex h.digest))
    (strV (hashName h.ty ++ " - ".toList ++ ofAscii (lowerHex h.digest))) := by
  refine good_name ?_
  obtain ⟨h1, h2⟩ := lower_plain h.digest
  have hn : PlainPart (hashName h.ty) ∧ ∃ x, (hashName h.ty).head? = some x ∧ x ≠ ' ' := by
    unfold PlainPart
    cases h.ty <;> exact ⟨by decide, _, rfl, by decide⟩
  obtain ⟨hn, x, hx, hx'⟩ := hn
  rw [List.append_assoc]
  have hlast : ∃ y, (" - ".toList ++ ofAscii (lowerHex h.digest)).getLast? = some y ∧ y ≠ ' ' := by
    have hne : ofAscii (lowerHex h.digest) ≠ [] := by
      intro he
      have hl := h.len
      have : (ofAscii (lowerHex h.digest)).length = 0 := by rw [he]; rfl
      unfold ofAscii lowerHex at this
      rw [List.length_map] at this
      have h0 : h.digest = [] := by
        cases hd : h.digest with
        | nil => rfl
        | cons b l => rw [hd, List.flatMap_cons] at this; simp [hexByte] at this
      rw [h0] at hl
      cases ht : h.ty <;> rw [ht] at hl <;> cases hl
    refine ⟨(ofAscii (lowerHex h.digest)).getLast hne, ?_, ?_⟩
    · rw [List.getLast?_append, List.getLast?_eq_some_getLast hne]; rfl
    · intro he
      exact h2 (by rw [← he]; exact List.getLast_mem hne)
  obtain ⟨y, hy, hy'⟩ := hlast
  refine plainName_of_space (plain_mk ?_ hx hy hx' hy') ?_
  · exact PlainPart.append hn (PlainPart.append (by unfold PlainPart; decide) h1)
  · exact List.mem_append_right _ (List.mem_append_left _ (by decide))

/-! ### Recorded fields -/

theorem getMeta_recorded {α : Type} {id : MetaId} {get : Metadata → Option α} (h : ∀ m, m.id = id ↔ (get m).isSome = true) (ms : List Metadata) :
    (getMeta ms id).bind get = recorded ms get := by
  unfold getMeta recorded
  induction ms with
  | nil => rfl
  | cons m ms ih =>
    rw [List.find?_cons, List.findSome?_cons]
    by_cases hm : m.id = id
    · have := (h m).1 hm
      obtain ⟨a, ha⟩ := Option.isSome_iff_exists.1 this
      simp [hm, ha]
    · have : get m = none := by
        cases hg : get m with
        | none => rfl
        | some a => exact absurd ((h m).2 (by rw [hg]; rfl)) hm
      simp [hm, this, ih]

theorem good_opt {α : Type} (o : Option α) (t : α → Str) (V : α → Val) (h : ∀ a, o = some a → Good false (t a) (V a)) :
    Good false ((o.map t).getD nullText) (orNull (o.map V)) := by
  cases o with
  | none => exact good_null
  | some a => exact h a rfl

theorem recorded_map {α β : Type} (ms : List Metadata) (get : Metadata → Option α) (V : α → β) :
    recorded ms (fun m => (get m).map V) = (recorded ms get).map V := by
  unfold recorded
  induction ms with
  | nil => rfl
  | cons m ms ih =>
    rw [List.findSome?_cons, List.findSome?_cons]
    cases get m with
    | none => exact ih
    | some a => rfl

theorem recorded_mem {α : Type} {ms : List Metadata} {get : Metadata → Option α} {a : α} (h : recorded ms get = some a) :
    ∃ m ∈ ms, get m = some a := by
  unfold recorded at h
  exact List.exists_of_findSome?_eq_some h

theorem good_fnm {ms : List Metadata} (h : ∀ s, Metadata.fnm s ∈ ms → PlainName s.toList) :
    Good false (match getMeta ms .fnm with | some (.fnm x) => x.toList | _ => nullText)
      (orNull (recorded ms fun | .fnm x => some (strV x.toList) | _ => none)) := by
  let get : Metadata → Option String := fun | .fnm x => some x | _ => none
  have e1 : (match getMeta ms .fnm with | some (.fnm x) => x.toList | _ => nullText) = ((recorded ms get).map fun x => x.toList).getD nullText := by
    rw [← getMeta_recorded (id := .fnm) (get := get) (by intro m; cases m <;> simp [get, Metadata.id])]
    cases getMeta ms .fnm with
    | none => rfl
    | some m => cases m <;> rfl
  have e2 : (recorded ms fun | .fnm x => some (strV x.toList) | _ => none) = (recorded ms get).map fun x => strV x.toList := by
    rw [← recorded_map]
    congr 1
    funext m
    cases m <;> rfl
  rw [e1, e2]
  refine good_opt _ _ _ (fun x hx => ?_)
  obtain ⟨m, hm, hg⟩ := recorded_mem hx
  refine good_name (h x ?_)
  cases m <;> simp [get] at hg
  rw [← hg]; exact hm

theorem good_snm {ms : List Metadata} (h : ∀ s, Metadata.snm s ∈ ms → PlainName s.toList) :
    Good false (match getMeta ms .snm with | some (.snm x) => x.toList | _ => nullText)
      (orNull (recorded ms fun | .snm x => some (strV x.toList) | _ => none)) := by
  let get : Metadata → Option String := fun | .snm x => some x | _ => none
  have e1 : (match getMeta ms .snm with | some (.snm x) => x.toList | _ => nullText) = ((recorded ms get).map fun x => x.toList).getD nullText := by
    rw [← getMeta_recorded (id := .snm) (get := get) (by intro m; cases m <;> simp [get, Metadata.id])]
    cases getMeta ms .snm with
    | none => rfl
    | some m => cases m <;> rfl
  have e2 : (recorded ms fun | .snm x => some (strV x.toList) | _ => none) = (recorded ms get).map fun x => strV x.toList := by
    rw [← recorded_map]
    congr 1
    funext m
    cases m <;> rfl
  rw [e1, e2]
  refine good_opt _ _ _ (fun x hx => ?_)
  obtain ⟨m, hm, hg⟩ := recorded_mem hx
  refine good_name (h x ?_)
  cases m <;> simp [get] at hg
  rw [← hg]; exact hm

theorem good_rsd {ms : List Metadata} :
    Good false (match getMeta ms .rsd with | some (.rsd x) => dec x.toNat | _ => nullText)
      (orNull (recorded ms fun | .rsd x => some (numV x.toNat) | _ => none)) := by
  let get : Metadata → Option UInt8 := fun | .rsd x => some x | _ => none
  have e1 : (match getMeta ms .rsd with | some (.rsd x) => dec x.toNat | _ => nullText) = ((recorded ms get).map fun x => dec x.toNat).getD nullText := by
    rw [← getMeta_recorded (id := .rsd) (get := get) (by intro m; cases m <;> simp [get, Metadata.id])]
    cases getMeta ms .rsd with
    | none => rfl
    | some m => cases m <;> rfl
  have e2 : (recorded ms fun | .rsd x => some (numV x.toNat) | _ => none) = (recorded ms get).map fun x => numV x.toNat := by
    rw [← recorded_map]
    congr 1
    funext m
    cases m <;> rfl
  rw [e1, e2]
  refine good_opt _ _ _ (fun x hx => ?_)
  obtain ⟨m, hm, hg⟩ := recorded_mem hx
  exact good_dec (by have := x.toNat_lt; omega)

theorem good_rsp {ms : List Metadata} :
    Good false (match getMeta ms .rsp with | some (.rsp x) => dec x.toNat | _ => nullText)
      (orNull (recorded ms fun | .rsp x => some (numV x.toNat) | _ => none)) := by
  let get : Metadata → Option UInt8 := fun | .rsp x => some x | _ => none
  have e1 : (match getMeta ms .rsp with | some (.rsp x) => dec x.toNat | _ => nullText) = ((recorded ms get).map fun x => dec x.toNat).getD nullText := by
    rw [← getMeta_recorded (id := .rsp) (get := get) (by intro m; cases m <;> simp [get, Metadata.id])]
    cases getMeta ms .rsp with
    | none => rfl
    | some m => cases m <;> rfl
  have e2 : (recorded ms fun | .rsp x => some (numV x.toNat) | _ => none) = (recorded ms get).map fun x => numV x.toNat := by
    rw [← recorded_map]
    congr 1
    funext m
    cases m <;> rfl
  rw [e1, e2]
  refine good_opt _ _ _ (fun x hx => ?_)
  obtain ⟨m, hm, hg⟩ := recorded_mem hx
  exact good_dec (by have := x.toNat_lt; omega)

theorem good_fsz {ms : List Metadata} :
    Good false (match getMeta ms .fsz with | some (.fsz x) => dec x.toNat | _ => nullText)
      (orNull (recorded ms fun | .fsz x => some (numV x.toNat) | _ => none)) := by
  let get : Metadata → Option UInt64 := fun | .fsz x => some x | _ => none
  have e1 : (match getMeta ms .fsz with | some (.fsz x) => dec x.toNat | _ => nullText) = ((recorded ms get).map fun x => dec x.toNat).getD nullText := by
    rw [← getMeta_recorded (id := .fsz) (get := get) (by intro m; cases m <;> simp [get, Metadata.id])]
    cases getMeta ms .fsz with
    | none => rfl
    | some m => cases m <;> rfl
  have e2 : (recorded ms fun | .fsz x => some (numV x.toNat) | _ => none) = (recorded ms get).map fun x => numV x.toNat := by
    rw [← recorded_map]
    congr 1
    funext m
    cases m <;> rfl
  rw [e1, e2]
  refine good_opt _ _ _ (fun x hx => ?_)
  obtain ⟨m, hm, hg⟩ := recorded_mem hx
  exact good_dec (by have := x.toNat_lt; omega)

theorem good_fdt {ms : List Metadata} {utc loc : Int64 → Option Str} (hd : PlainDates utc loc) :
    Good false (match getMeta ms .fdt with | some (.fdt x) => dateText utc loc x | _ => nullText)
      (orNull (recorded ms fun | .fdt x => some (strV (dateText utc loc x)) | _ => none)) := by
  let get : Metadata → Option Int64 := fun | .fdt x => some x | _ => none
  have e1 : (match getMeta ms .fdt with | some (.fdt x) => dateText utc loc x | _ => nullText) = ((recorded ms get).map fun x => dateText utc loc x).getD nullText := by
    rw [← getMeta_recorded (id := .fdt) (get := get) (by intro m; cases m <;> simp [get, Metadata.id])]
    cases getMeta ms .fdt with
    | none => rfl
    | some m => cases m <;> rfl
  have e2 : (recorded ms fun | .fdt x => some (strV (dateText utc loc x)) | _ => none) = (recorded ms get).map fun x => strV (dateText utc loc x) := by
    rw [← recorded_map]
    congr 1
    funext m
    cases m <;> rfl
  rw [e1, e2]
  refine good_opt _ _ _ (fun x hx => ?_)
  obtain ⟨m, hm, hg⟩ := recorded_mem hx
  exact good_date hd x

theorem good_sdt {ms : List Metadata} {utc loc : Int64 → Option Str} (hd : PlainDates utc loc) :
    Good false (match getMeta ms .sdt with | some (.sdt x) => dateText utc loc x | _ => nullText)
      (orNull (recorded ms fun | .sdt x => some (strV (dateText utc loc x)) | _ => none)) := by
  let get : Metadata → Option Int64 := fun | .sdt x => some x | _ => none
  have e1 : (match getMeta ms .sdt with | some (.sdt x) => dateText utc loc x | _ => nullText) = ((recorded ms get).map fun x => dateText utc loc x).getD nullText := by
    rw [← getMeta_recorded (id := .sdt) (get := get) (by intro m; cases m <;> simp [get, Metadata.id])]
    cases getMeta ms .sdt with
    | none => rfl
    | some m => cases m <;> rfl
  have e2 : (recorded ms fun | .sdt x => some (strV (dateText utc loc x)) | _ => none) = (recorded ms get).map fun x => strV (dateText utc loc x) := by
    rw [← recorded_map]
    congr 1
    funext m
    cases m <;> rfl
  rw [e1, e2]
  refine good_opt _ _ _ (fun x hx => ?_)
  obtain ⟨m, hm, hg⟩ := recorded_mem hx
  exact good_date hd x

theorem good_hsh {ms : List Metadata} :
    Good false (match getMeta ms .hsh with | some (.hsh x) => hashName x.ty ++ " - ".toList ++ ofAscii (lowerHex x.digest) | _ => nullText)
      (orNull (recorded ms fun | .hsh x => some (strV (hashName x.ty ++ " - ".toList ++ ofAscii (lowerHex x.digest))) | _ => none)) := by
  let get : Metadata → Option HashBytes := fun | .hsh x => some x | _ => none
  have e1 : (match getMeta ms .hsh with | some (.hsh x) => hashName x.ty ++ " - ".toList ++ ofAscii (lowerHex x.digest) | _ => nullText) = ((recorded ms get).map fun x => hashName x.ty ++ " - ".toList ++ ofAscii (lowerHex x.digest)).getD nullText := by
    rw [← getMeta_recorded (id := .hsh) (get := get) (by intro m; cases m <;> simp [get, Metadata.id])]
    cases getMeta ms .hsh with
    | none => rfl
    | some m => cases m <;> rfl
  have e2 : (recorded ms fun | .hsh x => some (strV (hashName x.ty ++ " - ".toList ++ ofAscii (lowerHex x.digest))) | _ => none) = (recorded ms get).map fun x => strV (hashName x.ty ++ " - ".toList ++ ofAscii (lowerHex x.digest)) := by
    rw [← recorded_map]
    congr 1
    funext m
    cases m <;> rfl
  rw [e1, e2]
  refine good_opt _ _ _ (fun x hx => ?_)
  obtain ⟨m, hm, hg⟩ := recorded_mem hx
  exact good_hash x

/-! ### The document -/

/-- A field of the description of a block: label, spaces behind it, quotes, value. -/
structure Field where
  label : Label
  pad : Nat
  force : Bool
  text : Str

def fieldItems : List Field → Items
  | [] => .nil
  | x :: xs => .field 0 x.label x.pad x.force x.text (fieldItems xs)

theorem fieldItems_ok : ∀ {xs : List Field}, (∀ x ∈ xs, x.label.Ok ∧ Plain x.text ∧ (x.force = false → ¬ OddNumber x.text)) →
    (fieldItems xs).Ok .curly
  | [], _ => trivial
  | x :: xs, h => ⟨rfl, (h x List.mem_cons_self).1, (h x List.mem_cons_self).2.1, (h x List.mem_cons_self).2.2,
      fieldItems_ok fun y hy => h y (List.mem_cons_of_mem _ hy)⟩

theorem fieldItems_members : ∀ (xs : List Field), (fieldItems xs).members = xs.map fun x => (codes x.label.key, scalar x.force x.text)
  | [] => rfl
  | x :: xs => by rw [fieldItems, Items.members, fieldItems_members xs]; rfl

theorem fieldItems_calls : ∀ (xs : List Field), (fieldItems xs).calls = xs.map fun x => .msg x.force (message 0 x.label x.pad x.text)
  | [] => rfl
  | x :: xs => by rw [fieldItems, Items.calls, fieldItems_calls xs]; rfl

/-- A label given by its words. -/
def lab (first : String) (rest : List String) : Label := ⟨first.toList, rest.map fun w => ⟨false, w.toList⟩⟩

/-- The fields printed for a block. -/
def blockFields (utc loc : Int64 → Option Str) (k pos : Nat) (h : Header) (ms : List Metadata) : List Field :=
  [⟨lab "Metadata" ["block", "number"], 1, false, dec k⟩,
   ⟨lab "Found" ["at", "byte"], 10, false, dec pos⟩,
   ⟨lab "File" ["UID"], 15, true, ofAscii (upperHex h.uid.bytes)⟩,
   ⟨lab "File" ["name"], 14, false, match getMeta ms .fnm with | some (.fnm x) => x.toList | _ => nullText⟩,
   ⟨lab "SBX" ["container", "name"], 5, false, match getMeta ms .snm with | some (.snm x) => x.toList | _ => nullText⟩,
   ⟨lab "SBX" ["container", "version"], 2, false, dec h.version.num⟩,
   ⟨lab "RS" ["data", "shard", "count"], 4, false,
     if h.version.usesRs then match getMeta ms .rsd with | some (.rsd x) => dec x.toNat | _ => nullText else nullText⟩,
   ⟨lab "RS" ["parity", "shard", "count"], 2, false,
     if h.version.usesRs then match getMeta ms .rsp with | some (.rsp x) => dec x.toNat | _ => nullText else nullText⟩,
   ⟨lab "File" ["size"], 14, false, match getMeta ms .fsz with | some (.fsz x) => dec x.toNat | _ => nullText⟩,
   ⟨lab "File" ["modification", "time"], 1, false, match getMeta ms .fdt with | some (.fdt x) => dateText utc loc x | _ => nullText⟩,
   ⟨lab "SBX" ["encoding", "time"], 6, false, match getMeta ms .sdt with | some (.sdt x) => dateText utc loc x | _ => nullText⟩,
   ⟨lab "Hash" [], 19, false, match getMeta ms .hsh with
     | some (.hsh x) => hashName x.ty ++ " - ".toList ++ ofAscii (lowerHex x.digest)
     | _ => nullText⟩]

theorem blockMsgs_eq (utc loc : Int64 → Option Str) (k pos : Nat) (h : Header) (ms : List Metadata) :
    blockMsgs utc loc k pos h ms = .openB none .curly :: ((fieldItems (blockFields utc loc k pos h ms)).calls ++ [.close]) := by
  rw [fieldItems_calls]
  rfl

theorem lab_ok {first : String} {rest : List String} (h : (!first.toList.isEmpty && first.toList.all wordChar &&
    rest.all fun w => !w.toList.isEmpty && w.toList.all wordChar) = true) : (lab first rest).Ok := by
  simp only [Bool.and_eq_true, Bool.not_eq_true', List.isEmpty_eq_false_iff, List.all_eq_true] at h
  refine ⟨⟨h.1.1, h.1.2⟩, fun w hw => ?_, fun w hw => ?_⟩
  · obtain ⟨s, hs, rfl⟩ := List.mem_map.1 hw
    exact ⟨fun hp => absurd hp (by simp), (h.2 s hs).2⟩
  · obtain ⟨s, hs, rfl⟩ := List.mem_map.1 (List.mem_of_getLast? hw)
    exact (h.2 s hs).1

theorem hex_tables : ∀ b : Byte, ofAscii (hexByte 0x41 b) = hexText "0123456789ABCDEF" [b] ∧
    ofAscii (hexByte 0x61 b) = hexText "0123456789abcdef" [b] := by
  have : ∀ n : Fin 256, ofAscii (hexByte 0x41 (UInt8.ofNat n)) = hexText "0123456789ABCDEF" [UInt8.ofNat n] ∧
      ofAscii (hexByte 0x61 (UInt8.ofNat n)) = hexText "0123456789abcdef" [UInt8.ofNat n] := by decide +kernel
  intro b
  have h := this ⟨b.toNat, b.toNat_lt⟩
  simpa using h

theorem upper_eq (bs : List Byte) : ofAscii (upperHex bs) = hexText "0123456789ABCDEF" bs := by
  induction bs with
  | nil => rfl
  | cons b bs ih =>
    have e1 : ofAscii (upperHex (b :: bs)) = ofAscii (hexByte 0x41 b) ++ ofAscii (upperHex bs) := by
      simp [ofAscii, upperHex]
    have e2 : hexText "0123456789ABCDEF" (b :: bs) = hexText "0123456789ABCDEF" [b] ++ hexText "0123456789ABCDEF" bs := by
      simp [hexText]
    rw [e1, e2, ih, (hex_tables b).1]

theorem lower_eq (bs : List Byte) : ofAscii (lowerHex bs) = hexText "0123456789abcdef" bs := by
  induction bs with
  | nil => rfl
  | cons b bs ih =>
    have e1 : ofAscii (lowerHex (b :: bs)) = ofAscii (hexByte 0x61 b) ++ ofAscii (lowerHex bs) := by
      simp [ofAscii, lowerHex]
    have e2 : hexText "0123456789abcdef" (b :: bs) = hexText "0123456789abcdef" [b] ++ hexText "0123456789abcdef" bs := by
      simp [hexText]
    rw [e1, e2, ih, (hex_tables b).2]

theorem hashLabel_eq (t : HashType) : hashLabel t = hashName t := by cases t <;> rfl

theorem dateShown_eq (utc loc : Int64 → Option Str) (t : Int64) : dateShown (utc t) (loc t) = dateText utc loc t := by
  unfold dateShown dateText
  cases utc t <;> cases loc t <;> rfl

theorem block_good {utc loc : Int64 → Option Str} (hd : PlainDates utc loc) {k pos : Nat} (hk : k < 2 ^ 64) (hp : pos < 2 ^ 64) (h : Header)
    {ms : List Metadata} (hn : ∀ m ∈ ms, match m with | .fnm s | .snm s => PlainName s.toList | _ => True) :
    (fieldItems (blockFields utc loc k pos h ms)).Ok .curly ∧
    Val.obj (fieldItems (blockFields utc loc k pos h ms)).members = shownBlock utc loc k pos h.version h.uid.bytes ms := by
  have g1 := good_dec hk
  have g2 := good_dec hp
  have g3 := good_uid h.uid
  have g4 := good_fnm (ms := ms) (fun s hs => hn _ hs)
  have g5 := good_snm (ms := ms) (fun s hs => hn _ hs)
  have g6 : Good false (dec h.version.num) (numV h.version.num) := good_dec (by cases h.version <;> decide)
  have g7 : Good false (if h.version.usesRs then match getMeta ms .rsd with | some (.rsd x) => dec x.toNat | _ => nullText else nullText)
      (if h.version.usesRs then orNull (recorded ms fun | .rsd n => some (numV n.toNat) | _ => none) else .null) := by
    split
    · exact good_rsd
    · exact good_null
  have g8 : Good false (if h.version.usesRs then match getMeta ms .rsp with | some (.rsp x) => dec x.toNat | _ => nullText else nullText)
      (if h.version.usesRs then orNull (recorded ms fun | .rsp n => some (numV n.toNat) | _ => none) else .null) := by
    split
    · exact good_rsp
    · exact good_null
  have g9 := good_fsz (ms := ms)
  have g10 := good_fdt (ms := ms) hd
  have g11 := good_sdt (ms := ms) hd
  have g12 := good_hsh (ms := ms)
  constructor
  · refine fieldItems_ok ?_
    intro x hx
    simp only [blockFields, List.mem_cons, List.not_mem_nil, or_false] at hx
    rcases hx with rfl | rfl | rfl | rfl | rfl | rfl | rfl | rfl | rfl | rfl | rfl | rfl
    · exact ⟨lab_ok (by decide), g1.1, g1.2.1⟩
    · exact ⟨lab_ok (by decide), g2.1, g2.2.1⟩
    · exact ⟨lab_ok (by decide), g3.1, g3.2.1⟩
    · exact ⟨lab_ok (by decide), g4.1, g4.2.1⟩
    · exact ⟨lab_ok (by decide), g5.1, g5.2.1⟩
    · exact ⟨lab_ok (by decide), g6.1, g6.2.1⟩
    · exact ⟨lab_ok (by decide), g7.1, g7.2.1⟩
    · exact ⟨lab_ok (by decide), g8.1, g8.2.1⟩
    · exact ⟨lab_ok (by decide), g9.1, g9.2.1⟩
    · exact ⟨lab_ok (by decide), g10.1, g10.2.1⟩
    · exact ⟨lab_ok (by decide), g11.1, g11.2.1⟩
    · exact ⟨lab_ok (by decide), g12.1, g12.2.1⟩
  · rw [fieldItems_members]
    unfold blockFields shownBlock
    simp only [← upper_eq, ← lower_eq, hashLabel_eq, dateShown_eq]
    simp only [List.map_cons, List.map_nil, g1.2.2, g2.2.2, g3.2.2, g4.2.2, g5.2.2, g6.2.2, g7.2.2, g8.2.2, g9.2.2, g10.2.2, g11.2.2, g12.2.2]
    rfl

/-- All blocks as one document. -/
theorem blocks_doc {utc loc : Int64 → Option Str} (hd : PlainDates utc loc) : ∀ (l : List (Nat × Block)) (k : Nat), k + l.length < 2 ^ 64 →
    (∀ x ∈ l, x.1 < 2 ^ 64 ∧ x.2.blockType = .metadata ∧ NamesPlain x.2) →
    ∃ it : Items, it.Ok .square ∧ blocksMsgs utc loc k l = some it.calls ∧ it.members.map Prod.snd = shownBlocks utc loc k l
  | [], _, _, _ => ⟨.nil, trivial, rfl, rfl⟩
  | (pos, b) :: l, k, hk, h => by
    obtain ⟨h1, h2, h3⟩ := h (pos, b) List.mem_cons_self
    rw [List.length_cons] at hk
    obtain ⟨it, i1, i2, i3⟩ := blocks_doc hd l (k + 1) (by omega) (fun x hx => h x (List.mem_cons_of_mem _ hx))
    have h2' : b.blockType = .metadata := h2
    unfold Block.blockType at h2'
    cases hb : b.data with
    | data => rw [hb] at h2'; cases h2'
    | metadata ms =>
      obtain ⟨o1, o2⟩ := block_good hd (k := k) (pos := pos) (by omega) h1 b.header (h3 ms hb)
      refine ⟨.sect none .curly (fieldItems (blockFields utc loc k pos b.header ms)) it, ⟨by simp, by simp, o1, i1⟩, ?_, ?_⟩
      · unfold blocksMsgs
        simp only [hb, i2, Option.map_some, blockMsgs_eq]
        rw [Items.calls]
        simp
      · unfold shownBlocks
        simp only [hb, Items.members, List.map_cons, i3, o2]

end Verif.Json
