import Verif.Lemmas.Metadata
/-!
# What the metadata parser can return on arbitrary bytes
-/

namespace Verif

/-- Space taken by a raw field. -/
def Unchecked.space : Unchecked → Nat
  | .fnm bs | .snm bs => 4 + bs.length
  | .fsz _ | .fdt _ | .sdt _ => 12
  | .hsh h => 4 + h.ty.totalLen
  | .rsd _ | .rsp _ => 5

/-- What every parsed raw field satisfies. -/
def Unchecked.Sane : Unchecked → Prop
  | .fnm bs | .snm bs => 1 ≤ bs.length ∧ bs.length ≤ 255
  | .hsh h => h.ty ≠ .sha2_256 ∧ h.ty ≠ .sha2_512_512
  | _ => True

theorem strP_inv {id : MetaId} {k : List Byte → Unchecked} {input r : List Byte} {m : Unchecked}
    (h : strP id k input = some (m, r)) :
    ∃ bs : List Byte, 1 ≤ bs.length ∧ bs.length ≤ 255 ∧ m = k bs ∧
      input = id.bytes ++ (UInt8.ofNat bs.length :: (bs ++ r)) := by
  unfold strP at h
  split at h
  · simp at h
  · simp at h
  · rename_i n rest ht
    rw [tag_eq_some] at ht
    split at h
    · rename_i hn
      simp only [Option.some.injEq, Prod.mk.injEq] at h
      have hl : (rest.take n.toNat).length = n.toNat := by simp; omega
      refine ⟨rest.take n.toNat, by omega, ?_, h.1.symm, ?_⟩
      · have := n.toNat_lt; omega
      · rw [hl, ← h.2]; simpa using ht
    · simp at h

theorem numP_inv {id : MetaId} {w : Nat} {k : List Byte → Unchecked} {input r : List Byte} {m : Unchecked}
    (h : numP id w k input = some (m, r)) :
    ∃ bs : List Byte, bs.length = w ∧ m = k bs ∧
      input = id.bytes ++ (UInt8.ofNat w :: (bs ++ r)) := by
  unfold numP at h
  split at h
  · simp at h
  · simp at h
  · rename_i n rest ht
    rw [tag_eq_some] at ht
    split at h
    · rename_i hn
      simp only [Option.some.injEq, Prod.mk.injEq] at h
      have hl : (rest.take w).length = w := by simp; omega
      refine ⟨rest.take w, hl, h.1.symm, ?_⟩
      rw [← h.2, ← hn.2.1]; simpa using ht
    · simp at h

theorem MetaId.bytes_length (i : MetaId) : i.bytes.length = 3 := by cases i <;> rfl

theorem metaAltP_inv {input r : List Byte} {m : Unchecked} (h : metaAltP input = some (m, r)) :
    m.Sane ∧ input.length = m.space + r.length := by
  have hstr : ∀ i k, (∀ bs, (k bs : Unchecked) = .fnm bs ∨ k bs = .snm bs) → strP i k input = some (m, r) →
      m.Sane ∧ input.length = m.space + r.length := by
    intro i k hk h
    obtain ⟨bs, h1, h2, rfl, rfl⟩ := strP_inv h
    rcases hk bs with hk | hk <;> simp [hk, Unchecked.Sane, Unchecked.space, MetaId.bytes_length, h1, h2] <;> omega
  have hnum : ∀ i w k, (∀ bs : List Byte, bs.length = w → (k bs : Unchecked).Sane ∧ (k bs).space = 4 + w) →
      numP i w k input = some (m, r) → m.Sane ∧ input.length = m.space + r.length := by
    intro i w k hk h
    obtain ⟨bs, h1, rfl, rfl⟩ := numP_inv h
    refine ⟨(hk bs h1).1, ?_⟩
    rw [(hk bs h1).2]; simp [MetaId.bytes_length]; omega
  have hh : hshP input = some (m, r) → m.Sane ∧ input.length = m.space + r.length := by
    intro h
    unfold hshP at h
    split at h
    · simp at h
    · rename_i rest ht
      rw [tag_eq_some] at ht
      simp only [Option.map_eq_some_iff] at h
      obtain ⟨⟨hb, r'⟩, h1, h2⟩ := h
      simp at h2
      obtain ⟨ha, hb', hc⟩ := multihashP_inv h1
      rw [← h2.1, ← h2.2]
      refine ⟨⟨ha, hb'⟩, ?_⟩
      rw [ht, hc]
      simp [MetaId.bytes_length, Unchecked.space, HashBytes.toBytes, HashType.totalLen, hb.len]; omega
  unfold metaAltP at h
  simp only [Option.orElse_eq_orElse, Option.orElse_eq_or, Option.or_eq_some_iff] at h
  rcases h with h | ⟨_, h | ⟨_, h | ⟨_, h | ⟨_, h | ⟨_, h | ⟨_, h | ⟨_, h⟩⟩⟩⟩⟩⟩⟩
  · exact hstr _ _ (by simp) h
  · exact hstr _ _ (by simp) h
  · exact hnum _ _ _ (by simp [Unchecked.Sane, Unchecked.space]) h
  · exact hnum _ _ _ (by simp [Unchecked.Sane, Unchecked.space]) h
  · exact hnum _ _ _ (by simp [Unchecked.Sane, Unchecked.space]) h
  · exact hh h
  · exact hnum _ _ _ (by simp [Unchecked.Sane, Unchecked.space]) h
  · exact hnum _ _ _ (by simp [Unchecked.Sane, Unchecked.space]) h

theorem metaP_inv (input : List Byte) :
    (∀ u ∈ metaP input, u.Sane) ∧ ((metaP input).map Unchecked.space).sum ≤ input.length := by
  induction hn : input.length using Nat.strongRecOn generalizing input with
  | ind n ih =>
    rw [metaP_eq]
    split
    · simp
    · rename_i m rest h
      obtain ⟨h1, h2⟩ := metaAltP_inv h
      have h3 := metaAltP_shrinks h
      obtain ⟨i1, i2⟩ := ih rest.length (by omega) rest rfl
      refine ⟨?_, ?_⟩
      · intro u hu
        rcases List.mem_cons.1 hu with rfl | hu
        · exact h1
        · exact i1 u hu
      · simp only [List.map_cons, List.sum_cons]; omega

/-- The fields `filterStep` keeps. -/
def Unchecked.check : Unchecked → Option Metadata
  | .fnm x => (fromUtf8? x).map .fnm
  | .snm x => (fromUtf8? x).map .snm
  | .fsz n => some (.fsz n)
  | .fdt n => some (.fdt n)
  | .sdt n => some (.sdt n)
  | .hsh h => some (.hsh h)
  | .rsd d => if 1 ≤ d.toNat then some (.rsd d) else none
  | .rsp d => if 1 ≤ d.toNat then some (.rsp d) else none

theorem filter_fold_check (us : List Unchecked) (st : FilterState) :
    us.foldl filterStep st =
      ⟨st.res ++ us.filterMap Unchecked.check, st.rsd <|> firstRsd (us.filterMap Unchecked.check),
        st.rsp <|> firstRsp (us.filterMap Unchecked.check)⟩ := by
  induction us generalizing st with
  | nil => simp [firstRsd, firstRsp]
  | cons u us ih =>
    rw [List.foldl_cons, ih]
    cases u <;> simp [filterStep, List.filterMap_cons, Unchecked.check, firstRsd, firstRsp]
    case fnm x => cases h : fromUtf8? x <;> simp
    case snm x => cases h : fromUtf8? x <;> simp
    case rsd d => split <;> simp
    case rsp d => split <;> simp

theorem check_sane {u : Unchecked} {m : Metadata} (hu : u.Sane) (h : u.check = some m) :
    m.Storable ∧ m.space = u.space := by
  cases u <;> simp [Unchecked.check] at h
  case fnm x =>
    obtain ⟨s, hs, rfl⟩ := h
    have := strBytes_of_fromUtf8? hs
    simp only [Unchecked.Sane] at hu
    simp only [Metadata.Storable, Metadata.space, Unchecked.space, ← strBytes_length, this]
    exact ⟨hu, trivial⟩
  case snm x =>
    obtain ⟨s, hs, rfl⟩ := h
    have := strBytes_of_fromUtf8? hs
    simp only [Unchecked.Sane] at hu
    simp only [Metadata.Storable, Metadata.space, Unchecked.space, ← strBytes_length, this]
    exact ⟨hu, trivial⟩
  case fsz n => subst h; simp [Metadata.Storable, Metadata.space, Unchecked.space]
  case fdt n => subst h; simp [Metadata.Storable, Metadata.space, Unchecked.space]
  case sdt n => subst h; simp [Metadata.Storable, Metadata.space, Unchecked.space]
  case hsh n =>
    subst h
    refine ⟨hu, ?_⟩
    rw [← size_eq_space]
    simp [Metadata.size, Metadata.infoSize, Unchecked.space]
  case rsd n => obtain ⟨h1, rfl⟩ := h; exact ⟨h1, rfl⟩
  case rsp n => obtain ⟨h1, rfl⟩ := h; exact ⟨h1, rfl⟩

theorem filterMap_space_le (us : List Unchecked) (h : ∀ u ∈ us, u.Sane) :
    metaSpace (us.filterMap Unchecked.check) ≤ (us.map Unchecked.space).sum := by
  induction us with
  | nil => simp [metaSpace]
  | cons u us ih =>
    have ih := ih (fun u hu => h u (by simp [hu]))
    rw [List.filterMap_cons]
    split
    · simp; omega
    · rename_i m hm
      have := (check_sane (h u (by simp)) hm).2
      simp [metaSpace] at ih ⊢; omega

theorem metaSpace_filter_le (p : Metadata → Bool) (ms : List Metadata) : metaSpace (ms.filter p) ≤ metaSpace ms := by
  induction ms with
  | nil => simp
  | cons m ms ih =>
    rw [List.filter_cons]
    split <;> simp [metaSpace] at ih ⊢ <;> omega

theorem filterInvalid_eq (us : List Unchecked) : filterInvalid us =
    (let ms := us.filterMap Unchecked.check
     match firstRsd ms, firstRsp ms with
     | some d, some p => if d + p > 256 then ms.filter (fun m => m.id != .rsd && m.id != .rsp) else ms
     | _, _ => ms) := by
  simp [filterInvalid, filter_fold_check]
  rfl

theorem firstRsd_filter (ms : List Metadata) : firstRsd (ms.filter (fun m => m.id != .rsd && m.id != .rsp)) = none := by
  unfold firstRsd
  rw [List.findSome?_eq_none_iff]
  intro m hm
  have := (List.mem_filter.1 hm).2
  cases m <;> simp_all [Metadata.id]

theorem metasFromBytes_sane (bs : List Byte) :
    (∀ m ∈ metasFromBytes bs, m.Storable) ∧ ShardsOk (metasFromBytes bs) ∧
      metaSpace (metasFromBytes bs) ≤ bs.length := by
  obtain ⟨h1, h2⟩ := metaP_inv bs
  have hst : ∀ m ∈ (metaP bs).filterMap Unchecked.check, m.Storable := by
    intro m hm
    obtain ⟨u, hu, hc⟩ := List.mem_filterMap.1 hm
    exact (check_sane (h1 u hu) hc).1
  have hsp := filterMap_space_le _ h1
  unfold metasFromBytes
  rw [filterInvalid_eq]
  simp only
  split
  · rename_i d p hd hp
    split
    · refine ⟨fun m hm => hst m (List.mem_filter.1 hm).1, ?_, ?_⟩
      · intro d p hd; rw [firstRsd_filter] at hd; simp at hd
      · have := metaSpace_filter_le (fun m => m.id != .rsd && m.id != .rsp) ((metaP bs).filterMap Unchecked.check)
        omega
    · refine ⟨hst, ?_, by omega⟩
      intro d' p' hd' hp'
      rw [hd] at hd'; rw [hp] at hp'; simp at hd' hp'; omega
  · rename_i hno
    refine ⟨hst, ?_, by omega⟩
    intro d p hd hp
    exact (hno d p hd hp).elim

end Verif
