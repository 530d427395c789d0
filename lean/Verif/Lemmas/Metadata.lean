import Verif.Spec.Metadata
/-! Helper lemmas for the metadata writer and parser. -/

namespace Verif

theorem isPrefixOf_append_self (t r : List Byte) : t.isPrefixOf (t ++ r) = true := by
  rw [List.isPrefixOf_iff_prefix]; exact List.prefix_append t r

@[simp] theorem tag_append (t r : List Byte) : tag t (t ++ r) = some r := by
  simp [tag]

theorem tag_eq_some {t input r : List Byte} : tag t input = some r ↔ input = t ++ r := by
  unfold tag
  constructor
  · intro h
    split at h
    · rename_i hp
      rw [List.isPrefixOf_iff_prefix] at hp
      obtain ⟨q, rfl⟩ := hp
      simp at h
      rw [h]
    · simp at h
  · rintro rfl
    simp

theorem tag_id_ne {i j : MetaId} (h : i ≠ j) (r : List Byte) : tag i.bytes (j.bytes ++ r) = none := by
  cases i <;> cases j <;> first | (exact absurd rfl h) | simp [tag, MetaId.bytes, List.isPrefixOf]

theorem strBytes_length (s : String) : (strBytes s).length = s.utf8ByteSize := by
  simp [strBytes]

theorem fromUtf8?_strBytes (s : String) : fromUtf8? (strBytes s) = some s := by
  unfold fromUtf8? strBytes
  have : (⟨s.toByteArray.data.toList.toArray⟩ : ByteArray) = s.toByteArray := by simp
  rw [this]
  unfold String.fromUTF8?
  rw [dif_pos s.isValidUTF8]
  rfl

theorem strBytes_of_fromUtf8? {bs : List Byte} {s : String} (h : fromUtf8? bs = some s) : strBytes s = bs := by
  unfold fromUtf8? String.fromUTF8? at h
  split at h
  · simp only [Option.some.injEq] at h
    subst h
    simp [strBytes, String.fromUTF8]
  · simp at h

theorem i64_roundtrip (t : Int64) : i64OfNat (i64ToNat t) = t := by
  simp [i64OfNat, i64ToNat]

theorem HashType.totalLen_lt (t : HashType) : t.totalLen < 256 := by cases t <;> decide

theorem infoBytes_length (m : Metadata) : m.infoBytes.length = m.infoSize := by
  cases m <;> simp [Metadata.infoBytes, Metadata.infoSize, HashBytes.toBytes, HashType.totalLen, HashBytes.len]
  all_goals omega

theorem singleBytes_length (m : Metadata) : m.singleBytes.length = m.size := by
  have : m.id.bytes.length = 3 := by cases m <;> rfl
  simp [Metadata.singleBytes, infoBytes_length, this, Metadata.size]
  omega

theorem size_eq_space (m : Metadata) : m.size = m.space := by
  cases m <;> simp [Metadata.size, Metadata.infoSize, Metadata.space, strBytes_length]
  rename_i h
  obtain ⟨ty, d, l⟩ := h
  cases ty <;> rfl

/-! ### multihash -/

theorem hashOneP_toBytes_self (h : HashBytes) (r : List Byte) :
    hashOneP h.ty (UInt8.ofNat h.ty.totalLen :: (h.toBytes ++ r)) = some (h, r) := by
  have h1 : tag [UInt8.ofNat h.ty.totalLen] (UInt8.ofNat h.ty.totalLen :: (h.toBytes ++ r)) =
      some (h.toBytes ++ r) := tag_append _ _
  unfold hashOneP
  rw [h1]
  simp only [HashBytes.toBytes, List.append_assoc]
  rw [tag_append]
  simp only
  rw [tag_append]
  simp only
  rw [dif_pos (by simp [h.len])]
  congr 1
  obtain ⟨ty, d, l⟩ := h
  simp [← l]

theorem hashOneP_ne {t : HashType} (h : HashBytes) (r : List Byte)
    (hne : (UInt8.ofNat t.totalLen, t.funcType) ≠ (UInt8.ofNat h.ty.totalLen, h.ty.funcType)) :
    hashOneP t (UInt8.ofNat h.ty.totalLen :: (h.toBytes ++ r)) = none := by
  obtain ⟨ty, d, l⟩ := h
  cases t <;> cases ty <;>
    first
    | (exact absurd rfl hne)
    | simp [hashOneP, tag, HashBytes.toBytes, HashType.totalLen, HashType.funcType, HashType.digestLen,
        List.isPrefixOf]

/-- Canonical hash types are those the parser can return. -/
theorem multihashP_toBytes (h : HashBytes) (hc : h.ty ≠ .sha2_256 ∧ h.ty ≠ .sha2_512_512) (r : List Byte) :
    multihashP (UInt8.ofNat h.ty.totalLen :: (h.toBytes ++ r)) = some (h, r) := by
  have hs := hashOneP_toBytes_self h r
  have hn : ∀ t, (UInt8.ofNat t.totalLen, t.funcType) ≠ (UInt8.ofNat h.ty.totalLen, h.ty.funcType) →
    hashOneP t (UInt8.ofNat h.ty.totalLen :: (h.toBytes ++ r)) = none := fun t => hashOneP_ne h r
  generalize UInt8.ofNat h.ty.totalLen :: (h.toBytes ++ r) = input at hs hn
  obtain ⟨ty, d, l⟩ := h
  simp only at hs hn hc
  cases ty <;> simp only [ne_eq, not_true_eq_false, false_and, and_false, reduceCtorEq, not_false_eq_true,
    and_self] at hc <;>
  simp [multihashP, hashParserOrder, List.findSome?, hs, hn .sha1, hn .sha256, hn .sha2_512_256, hn .sha512,
    hn .blake2b_256, hn .blake2b_512, hn .blake2s_128, hn .blake2s_256,
    HashType.totalLen, HashType.funcType, HashType.digestLen]

theorem hashOneP_inv {t : HashType} {input r : List Byte} {h : HashBytes} (hp : hashOneP t input = some (h, r)) :
    h.ty = t ∧ input = UInt8.ofNat t.totalLen :: (h.toBytes ++ r) := by
  unfold hashOneP at hp
  split at hp
  · simp at hp
  · rename_i r1 h1
    split at hp
    · simp at hp
    · rename_i r2 h2
      split at hp
      · simp at hp
      · rename_i r3 h3
        split at hp
        · rename_i hl
          simp only [Option.some.injEq, Prod.mk.injEq] at hp
          obtain ⟨rfl, rfl⟩ := hp
          rw [tag_eq_some] at h1 h2 h3
          subst h1 h2 h3
          simp [HashBytes.toBytes]
        · simp at hp

theorem multihashP_inv {input r : List Byte} {h : HashBytes} (hp : multihashP input = some (h, r)) :
    h.ty ≠ .sha2_256 ∧ h.ty ≠ .sha2_512_512 ∧ input = UInt8.ofNat h.ty.totalLen :: (h.toBytes ++ r) := by
  unfold multihashP at hp
  rw [List.findSome?_eq_some_iff] at hp
  obtain ⟨l1, t, l2, hl, hp, _⟩ := hp
  obtain ⟨h1, h2⟩ := hashOneP_inv hp
  subst h1
  have hmem : h.ty ∈ hashParserOrder := by rw [hl]; simp
  refine ⟨?_, ?_, h2⟩ <;> intro he <;> rw [he] at hmem <;> exact absurd hmem (by decide)

/-! ### field parsers -/

/-- The unchecked form of a field. -/
def Metadata.unchecked : Metadata → Unchecked
  | .fnm s => .fnm (strBytes s)
  | .snm s => .snm (strBytes s)
  | .fsz n => .fsz n
  | .fdt t => .fdt t
  | .sdt t => .sdt t
  | .hsh h => .hsh h
  | .rsd n => .rsd n
  | .rsp n => .rsp n

theorem strP_self (id : MetaId) (k : List Byte → Unchecked) (bs r : List Byte) (h1 : 1 ≤ bs.length)
    (h2 : bs.length ≤ 255) :
    strP id k (id.bytes ++ ([UInt8.ofNat bs.length] ++ (bs ++ r))) = some (k bs, r) := by
  unfold strP
  rw [tag_append]
  have : (UInt8.ofNat bs.length).toNat = bs.length := by
    rw [UInt8.toNat_ofNat']; omega
  simp [this, h1]

theorem numP_self (id : MetaId) (w : Nat) (k : List Byte → Unchecked) (bs r : List Byte) (hb : bs.length = w)
    (h1 : 1 ≤ w) (h2 : w ≤ 255) :
    numP id w k (id.bytes ++ ([UInt8.ofNat w] ++ (bs ++ r))) = some (k bs, r) := by
  unfold numP
  rw [tag_append]
  have : (UInt8.ofNat w).toNat = w := by
    rw [UInt8.toNat_ofNat']; omega
  simp [this, h1]
  simp [← hb]

theorem strP_ne {i j : MetaId} (h : i ≠ j) (k : List Byte → Unchecked) (r : List Byte) :
    strP i k (j.bytes ++ r) = none := by
  simp [strP, tag_id_ne h]

theorem numP_ne {i j : MetaId} (h : i ≠ j) (w : Nat) (k : List Byte → Unchecked) (r : List Byte) :
    numP i w k (j.bytes ++ r) = none := by
  simp [numP, tag_id_ne h]

theorem hshP_ne {j : MetaId} (h : .hsh ≠ j) (r : List Byte) : hshP (j.bytes ++ r) = none := by
  simp [hshP, tag_id_ne h]

theorem metaAltP_single (m : Metadata) (hm : m.Storable) (r : List Byte) :
    metaAltP (m.singleBytes ++ r) = some (m.unchecked, r) := by
  unfold Metadata.singleBytes
  simp only [List.append_assoc]
  cases m with
  | fnm s =>
    simp only [Metadata.Storable, ← strBytes_length] at hm
    simp [metaAltP, Metadata.id, Metadata.infoSize, Metadata.infoBytes, Metadata.unchecked]
    have := strP_self .fnm .fnm (strBytes s) r hm.1 hm.2
    simp at this
    simp [this]
  | snm s =>
    simp only [Metadata.Storable, ← strBytes_length] at hm
    simp [metaAltP, Metadata.id, Metadata.infoSize, Metadata.infoBytes, Metadata.unchecked]
    have := strP_self .snm .snm (strBytes s) r hm.1 hm.2
    simp at this
    simp [this, strP_ne]
  | fsz n =>
    have := numP_self .fsz 8 (fun b => .fsz (UInt64.ofNat (beNat b))) (beBytes 8 n.toNat) r (by simp)
      (by omega) (by omega)
    simp [metaAltP, Metadata.id, Metadata.infoSize, Metadata.infoBytes, Metadata.unchecked] at this ⊢
    simp [this, strP_ne]
    rw [beNat_beBytes, Nat.mod_eq_of_lt (by have := n.toNat_lt; omega)]
    simp
  | fdt t =>
    have := numP_self .fdt 8 (fun b => .fdt (i64OfNat (beNat b))) (beBytes 8 (i64ToNat t)) r (by simp)
      (by omega) (by omega)
    simp [metaAltP, Metadata.id, Metadata.infoSize, Metadata.infoBytes, Metadata.unchecked] at this ⊢
    simp [this, strP_ne, numP_ne]
    rw [beNat_beBytes, Nat.mod_eq_of_lt (by unfold i64ToNat; have := t.toBitVec.isLt; omega)]
    simp [i64_roundtrip]
  | sdt t =>
    have := numP_self .sdt 8 (fun b => .sdt (i64OfNat (beNat b))) (beBytes 8 (i64ToNat t)) r (by simp)
      (by omega) (by omega)
    simp [metaAltP, Metadata.id, Metadata.infoSize, Metadata.infoBytes, Metadata.unchecked] at this ⊢
    simp [this, strP_ne, numP_ne]
    rw [beNat_beBytes, Nat.mod_eq_of_lt (by unfold i64ToNat; have := t.toBitVec.isLt; omega)]
    simp [i64_roundtrip]
  | hsh h =>
    have := multihashP_toBytes h hm r
    simp [metaAltP, Metadata.id, Metadata.infoSize, Metadata.infoBytes, Metadata.unchecked]
    simp [strP_ne, numP_ne, hshP, this]
  | rsd n =>
    have := numP_self .rsd 1 (fun b => .rsd (headByte b)) [n] r (by simp) (by omega) (by omega)
    simp [metaAltP, Metadata.id, Metadata.infoSize, Metadata.infoBytes, Metadata.unchecked] at this ⊢
    simp [this, strP_ne, numP_ne, hshP_ne]
    rfl
  | rsp n =>
    have := numP_self .rsp 1 (fun b => .rsp (headByte b)) [n] r (by simp) (by omega) (by omega)
    simp [metaAltP, Metadata.id, Metadata.infoSize, Metadata.infoBytes, Metadata.unchecked] at this ⊢
    simp [this, strP_ne, numP_ne, hshP_ne]
    rfl

theorem tag_padding (i : MetaId) (k : Nat) : tag i.bytes (List.replicate k (0x1A : Byte)) = none := by
  cases k with
  | zero => cases i <;> simp [tag, MetaId.bytes, List.isPrefixOf]
  | succ k => cases i <;> simp [tag, MetaId.bytes, List.isPrefixOf, List.replicate_succ]

theorem metaAltP_padding (k : Nat) : metaAltP (List.replicate k (0x1A : Byte)) = none := by
  simp [metaAltP, strP, numP, hshP, tag_padding]

theorem metaAltP_shrinks {input r : List Byte} {m : Unchecked} (h : metaAltP input = some (m, r)) :
    r.length < input.length := by
  have hstr : ∀ i k, strP i k input = some (m, r) → r.length < input.length := by
    intro i k h
    unfold strP at h
    split at h
    · simp at h
    · simp at h
    · rename_i n rest ht
      rw [tag_eq_some] at ht
      split at h
      · simp at h
        rw [ht, ← h.2]; simp; omega
      · simp at h
  have hnum : ∀ i w k, numP i w k input = some (m, r) → r.length < input.length := by
    intro i w k h
    unfold numP at h
    split at h
    · simp at h
    · simp at h
    · rename_i n rest ht
      rw [tag_eq_some] at ht
      split at h
      · simp at h
        rw [ht, ← h.2]; simp; omega
      · simp at h
  have hh : hshP input = some (m, r) → r.length < input.length := by
    intro h
    unfold hshP at h
    split at h
    · simp at h
    · rename_i rest ht
      rw [tag_eq_some] at ht
      simp only [Option.map_eq_some_iff] at h
      obtain ⟨⟨hb, r'⟩, h1, h2⟩ := h
      simp at h2
      have := (multihashP_inv h1).2.2
      rw [ht, this, ← h2.2]; simp; omega
  unfold metaAltP at h
  simp only [Option.orElse_eq_orElse, Option.orElse_eq_or, Option.or_eq_some_iff] at h
  rcases h with h | ⟨_, h | ⟨_, h | ⟨_, h | ⟨_, h | ⟨_, h | ⟨_, h | ⟨_, h⟩⟩⟩⟩⟩⟩⟩
  all_goals first | exact hstr _ _ h | exact hnum _ _ _ h | exact hh h

/-- More fuel than the input length changes nothing. -/
theorem metaManyP_fuel {n : Nat} {input : List Byte} (h : input.length ≤ n) :
    metaManyP n input = metaManyP input.length input := by
  induction n using Nat.strongRecOn generalizing input with
  | ind n ih =>
    cases n with
    | zero =>
      have : input.length = 0 := by omega
      rw [this]
    | succ n =>
      by_cases he : input.length = n + 1
      · rw [he]
      · rw [← ih n (by omega) (by omega)]
        cases n with
        | zero =>
          have : input = [] := List.eq_nil_of_length_eq_zero (by omega)
          subst this
          simp [metaManyP, metaAltP, strP, numP, hshP, tag, MetaId.bytes, List.isPrefixOf]
        | succ n =>
          simp only [metaManyP]
          split
          · rfl
          · rename_i m rest hm
            have := metaAltP_shrinks hm
            congr 1
            have e1 := ih (n + 1) (by omega) (input := rest) (by omega)
            have e2 := ih n (by omega) (input := rest) (by omega)
            simp only [metaManyP] at e1
            rw [e2, ← e1]

theorem metaP_eq (input : List Byte) : metaP input =
    match metaAltP input with
    | none => []
    | some (m, rest) => m :: metaP rest := by
  unfold metaP
  cases hl : input.length with
  | zero =>
    have : input = [] := List.eq_nil_of_length_eq_zero hl
    subst this
    simp [metaManyP, metaAltP, strP, numP, hshP, tag, MetaId.bytes, List.isPrefixOf]
  | succ n =>
    rw [metaManyP]
    split
    · rename_i h; simp [h]
    · rename_i m rest h
      have := metaAltP_shrinks h
      rw [metaManyP_fuel (by omega)]
      simp [h]

theorem metaP_fields (ms : List Metadata) (h : ∀ m ∈ ms, m.Storable) (k : Nat) :
    metaP ((ms.map Metadata.singleBytes).flatten ++ List.replicate k 0x1A) = ms.map Metadata.unchecked := by
  induction ms with
  | nil => rw [metaP_eq]; simp [metaAltP_padding]
  | cons m ms ih =>
    rw [metaP_eq, List.map_cons, List.flatten_cons, List.append_assoc, metaAltP_single m (h m (by simp))]
    simp only [List.map_cons]
    rw [ih (fun m hm => h m (by simp [hm]))]

/-! ### filter -/

theorem filter_fold (ms : List Metadata) (h : ∀ m ∈ ms, m.Storable) (st : FilterState) :
    (ms.map Metadata.unchecked).foldl filterStep st =
      ⟨st.res ++ ms, st.rsd <|> firstRsd ms, st.rsp <|> firstRsp ms⟩ := by
  induction ms generalizing st with
  | nil => simp [firstRsd, firstRsp]
  | cons m ms ih =>
    have hm := h m (by simp)
    rw [List.map_cons, List.foldl_cons, ih (fun m hm => h m (by simp [hm]))]
    cases m <;> simp [Metadata.unchecked, filterStep, fromUtf8?_strBytes, firstRsd, firstRsp, List.findSome?_cons]
    case rsd n =>
      have : 1 ≤ n.toNat := hm
      simp [this]
    case rsp n =>
      have : 1 ≤ n.toNat := hm
      simp [this]

theorem filterInvalid_unchecked (ms : List Metadata) (h : ∀ m ∈ ms, m.Storable) (hs : ShardsOk ms) :
    filterInvalid (ms.map Metadata.unchecked) = ms := by
  unfold filterInvalid
  simp only [filter_fold ms h]
  simp only [Option.none_or, List.nil_append, Option.orElse_eq_orElse, Option.orElse_eq_or]
  split
  · rename_i d p hd hp
    have := hs d p hd hp
    rw [if_neg (by omega)]
  · rfl

theorem metasToBytes_eq (ms : List Metadata) (n : Nat) :
    metasToBytes ms n =
      if metaSpace ms ≤ n then
        some ((ms.map Metadata.singleBytes).flatten ++ List.replicate (n - metaSpace ms) 0x1A)
      else none := by
  induction ms generalizing n with
  | nil => simp [metasToBytes, metaSpace]
  | cons m ms ih =>
    have hsp : metaSpace (m :: ms) = m.size + metaSpace ms := by simp [metaSpace, size_eq_space]
    rw [metasToBytes, Metadata.singleToBytes]
    by_cases h1 : n < m.size
    · simp only [h1, if_true]
      rw [if_neg (by omega)]
    · simp only [h1, if_false, singleBytes_length, ih]
      by_cases h2 : metaSpace ms ≤ n - m.size
      · rw [if_pos h2, if_pos (by omega), hsp]
        simp [Nat.sub_sub]
      · rw [if_neg h2, if_neg (by omega)]
        rfl

theorem flatten_singleBytes_length (ms : List Metadata) :
    (ms.map Metadata.singleBytes).flatten.length = metaSpace ms := by
  induction ms with
  | nil => rfl
  | cons m ms ih => simp [singleBytes_length, metaSpace, size_eq_space] at ih ⊢; omega

theorem metasToBytes_length {ms : List Metadata} {n : Nat} {bs : List Byte} (h : metasToBytes ms n = some bs) :
    bs.length = n := by
  rw [metasToBytes_eq] at h
  split at h
  · simp only [Option.some.injEq] at h
    rw [← h, List.length_append, flatten_singleBytes_length, List.length_replicate]; omega
  · simp at h

theorem metas_roundtrip {ms : List Metadata} {n : Nat} {bs : List Byte} (hst : ∀ m ∈ ms, m.Storable)
    (hsh : ShardsOk ms) (h : metasToBytes ms n = some bs) : metasFromBytes bs = ms := by
  rw [metasToBytes_eq] at h
  split at h
  · simp only [Option.some.injEq] at h
    rw [← h, metasFromBytes, metaP_fields ms hst, filterInvalid_unchecked ms hst hsh]
  · simp at h

end Verif
