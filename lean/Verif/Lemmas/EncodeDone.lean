import Verif.Lemmas.EncodeFile
import Verif.Lemmas.MetadataParse
import Verif.Lemmas.Sizes
/-!
# The metadata written by the encoder and when encoding succeeds
-/

namespace Verif.Encode
open Format ContainerSpec LayoutSpec FileUtils

/-- What is read at most: everything, or the wanted number of bytes rounded up to whole chunks. -/
def clip (p : Param) (required : Option Nat) (rest : List Byte) : List Byte :=
  match required with
  | none => rest
  | some r => rest.take (ceilDiv r p.version.dataSize * p.version.dataSize)

theorem wanted_eq (p : Param) (required : Option Nat) (rest : List Byte) :
    wanted p required 0 rest = chunksOf p.version.dataSize (clip p required rest) := by
  unfold wanted clip
  cases required with
  | none => rfl
  | some r => simp only [Nat.sub_zero]; exact chunksOf_take (dataSize_pos _) _ _

theorem prefix_chunks {n : Nat} (hn : 0 < n) {l : List Byte} {cs : List (List Byte)} (h : ∃ j, cs = (chunksOf n l).take j) :
    cs.flatten <+: l ∧ cs = chunksOf n cs.flatten := by
  obtain ⟨j, rfl⟩ := h
  rw [chunksOf_take hn, chunksOf_flatten (Nat.pos_iff_ne_zero.1 hn)]
  exact ⟨List.take_prefix _ _, rfl⟩

/-! ### Metadata fields -/

theorem u8_ofNat {n : Nat} (h : n < 256) : (UInt8.ofNat n).toNat = n := UInt8.toNat_ofNat_of_lt' h

/-- Names the format can record. -/
def NamesOk (p : Param) (inp : Input) : Prop :=
  (1 ≤ p.sbxName.utf8ByteSize ∧ p.sbxName.utf8ByteSize ≤ 255) ∧
  ∀ n t, inp.file = some (n, t) → 1 ≤ n.utf8ByteSize ∧ n.utf8ByteSize ≤ 255

/-- Space for the fields (3 bytes of id and 1 of length each). -/
def needed (p : Param) (inp : Input) : Nat :=
  (match inp.file with | some (name, _) => 4 + name.utf8ByteSize | none => 0) + (4 + p.sbxName.utf8ByteSize) + 12 +
  (match inp.file with | some (_, some _) => 12 | _ => 0) + 12 + (4 + p.hashType.totalLen) + (if p.version.usesRs then 10 else 0)

theorem mem_pack {H : HashFn} {p : Param} {inp : Input} {t : Int64} {fs : Option Nat} {h : Option HashBytes} {m : Metadata}
    (hm : m ∈ packMetadata H p inp t fs h) :
    (∃ n t, inp.file = some (n, t) ∧ m = .fnm n) ∨ m = .snm p.sbxName ∨ (∃ n, m = .fsz n) ∨ (∃ t, m = .fdt t) ∨ (∃ t, m = .sdt t) ∨
    m = .hsh (h.getD (H.bytes p.hashType [])) ∨
    ∃ d, p.dpb = some d ∧ (m = .rsd (UInt8.ofNat d.data) ∨ m = .rsp (UInt8.ofNat d.parity)) := by
  unfold packMetadata at hm
  simp only [List.mem_append, or_assoc] at hm
  rcases hm with hm | hm | hm | hm | hm | hm
  · split at hm
    · rename_i n t heq
      simp only [List.mem_singleton] at hm
      exact .inl ⟨_, _, heq, hm⟩
    · simp at hm
  · simp only [List.mem_singleton] at hm
    exact .inr (.inl hm)
  · split at hm
    · simp only [List.mem_singleton] at hm
      exact .inr (.inr (.inl ⟨_, hm⟩))
    · simp at hm
  · split at hm
    · simp only [List.mem_singleton] at hm
      exact .inr (.inr (.inr (.inl ⟨_, hm⟩)))
    · simp at hm
  · simp only [List.mem_cons, List.not_mem_nil, or_false] at hm
    rcases hm with hm | hm
    · exact .inr (.inr (.inr (.inr (.inl ⟨_, hm⟩))))
    · exact .inr (.inr (.inr (.inr (.inr (.inl hm)))))
  · unfold rsMetas at hm
    split at hm
    · rename_i d _ hd
      simp only [List.mem_cons, List.not_mem_nil, or_false] at hm
      exact .inr (.inr (.inr (.inr (.inr (.inr ⟨d, hd, hm⟩)))))
    · simp at hm

theorem hashBytes_storable (H : HashFn) (t : HashType) (bytes : List Byte) : (Metadata.hsh (H.bytes t bytes)).Storable := by
  simp only [Metadata.Storable, HashFn.bytes]
  cases t <;> simp [HashType.ctxType]

theorem pack_storable {H : HashFn} {p : Param} (hok : p.Ok) {inp : Input} (hn : NamesOk p inp) (t : Int64) (fs : Option Nat)
    (bytes : Option (List Byte)) :
    (∀ m ∈ packMetadata H p inp t fs (bytes.map (H.bytes p.hashType)), m.Storable) ∧
    ShardsOk (packMetadata H p inp t fs (bytes.map (H.bytes p.hashType))) := by
  constructor
  · intro m hm
    rcases mem_pack hm with ⟨n, t, h1, rfl⟩ | rfl | ⟨n, rfl⟩ | ⟨n, rfl⟩ | ⟨n, rfl⟩ | rfl | ⟨d, hd, rfl | rfl⟩
    · exact hn.2 n t h1
    · exact hn.1
    · trivial
    · trivial
    · trivial
    · cases bytes with
      | none => exact hashBytes_storable H _ _
      | some b => exact hashBytes_storable H _ _
    · obtain ⟨h1, h2, h3⟩ := hok.shards d hd
      simp only [Metadata.Storable]
      rw [u8_ofNat (by omega)]; exact h1
    · obtain ⟨h1, h2, h3⟩ := hok.shards d hd
      simp only [Metadata.Storable]
      rw [u8_ofNat (by omega)]; exact h2
  · intro a b ha hb
    unfold firstRsd at ha
    unfold firstRsp at hb
    obtain ⟨m, hm, hma⟩ := List.exists_of_findSome?_eq_some ha
    obtain ⟨m', hm', hmb⟩ := List.exists_of_findSome?_eq_some hb
    split at hma
    · rename_i n
      split at hmb
      · rename_i n'
        simp only [Option.some.injEq] at hma hmb
        subst hma hmb
        rcases mem_pack hm with ⟨_, _, _, h⟩ | h | ⟨_, h⟩ | ⟨_, h⟩ | ⟨_, h⟩ | h | ⟨d, hd, h | h⟩ <;> cases h
        rcases mem_pack hm' with ⟨_, _, _, h⟩ | h | ⟨_, h⟩ | ⟨_, h⟩ | ⟨_, h⟩ | h | ⟨d', hd', h | h⟩ <;> cases h
        rw [hd] at hd'; cases hd'
        obtain ⟨h1, h2, h3⟩ := hok.shards d hd
        rw [u8_ofNat (by omega), u8_ofNat (by omega)]
        exact h3
      · simp at hmb
    · simp at hma

theorem pack_fields (H : HashFn) (p : Param) (inp : Input) (t : Int64) (fs : Option Nat) (h : Option HashBytes) :
    firstFsz (packMetadata H p inp t fs h) = fs.map (fun n => (UInt64.ofNat n).toNat) ∧
    firstHsh (packMetadata H p inp t fs h) = some (h.getD (H.bytes p.hashType [])) := by
  unfold packMetadata firstFsz firstHsh rsMetas
  rcases inp.file with _ | ⟨n, _ | t⟩ <;> cases fs <;> cases p.version.usesRs <;> rcases p.dpb with _ | d <;> simp [List.findSome?]

theorem pack_rs {p : Param} (hok : p.Ok) (H : HashFn) (inp : Input) (t : Int64) (fs : Option Nat) (h : Option HashBytes) :
    firstRsd (packMetadata H p inp t fs h) = p.dpb.map (·.data) ∧
    firstRsp (packMetadata H p inp t fs h) = p.dpb.map (·.parity) := by
  have hc := hok.consistent
  unfold verConsistent at hc
  cases hd : p.dpb with
  | none =>
    rw [hd] at hc
    have hu : p.version.usesRs = false := by simpa using hc
    unfold packMetadata firstRsd firstRsp rsMetas
    rw [hu, hd]
    rcases inp.file with _ | ⟨n, _ | t⟩ <;> cases fs <;> simp [List.findSome?]
  | some d =>
    rw [hd] at hc
    have hu : p.version.usesRs = true := by simpa using hc
    obtain ⟨h1, h2, h3⟩ := hok.shards d hd
    have e1 : (UInt8.ofNat d.data).toNat = d.data := u8_ofNat (by omega)
    have e2 : (UInt8.ofNat d.parity).toNat = d.parity := u8_ofNat (by omega)
    unfold packMetadata firstRsd firstRsp rsMetas
    rw [hu, hd]
    rcases inp.file with _ | ⟨n, _ | t⟩ <;> cases fs <;> simp [List.findSome?] <;> exact ⟨by simpa using e1, by simpa using e2⟩

theorem hash_space (H : HashFn) (t : HashType) (bytes : List Byte) :
    (Metadata.hsh (H.bytes t bytes)).space = 4 + t.totalLen := by
  simp only [Metadata.space, HashFn.bytes]
  cases t <;> decide

theorem pack_space {p : Param} (hok : p.Ok) (H : HashFn) (inp : Input) (t : Int64) (fs : Option Nat) (bytes : Option (List Byte)) :
    metaSpace (packMetadata H p inp t fs (bytes.map (H.bytes p.hashType))) + (if fs = none then 12 else 0) = needed p inp := by
  have hc := hok.consistent
  unfold verConsistent at hc
  have hh : (Metadata.hsh ((bytes.map (H.bytes p.hashType)).getD (H.bytes p.hashType []))).space = 4 + p.hashType.totalLen := by
    cases bytes <;> exact hash_space H _ _
  unfold packMetadata metaSpace needed rsMetas
  simp only [List.map_append, List.sum_append, List.map_cons, List.map_nil, List.sum_cons, List.sum_nil, hh]
  cases hd : p.dpb with
  | none =>
    rw [hd] at hc
    have hu : p.version.usesRs = false := by simpa using hc
    rw [hu]
    rcases inp.file with _ | ⟨n, _ | t⟩ <;> cases fs <;> simp [Metadata.space] <;> omega
  | some d =>
    rw [hd] at hc
    have hu : p.version.usesRs = true := by simpa using hc
    rw [hu]
    rcases inp.file with _ | ⟨n, _ | t⟩ <;> cases fs <;> simp [Metadata.space] <;> omega

/-- Reading back a metadata block written by the encoder. -/
theorem records_pack {p : Param} (hok : p.Ok) {H : HashFn} {inp : Input} (hn : NamesOk p inp) {t : Int64} {fs : Option Nat}
    {bytes : Option (List Byte)} {mb : List Byte}
    (h : metaBlockBytes p.version p.uid (packMetadata H p inp t fs (bytes.map (H.bytes p.hashType))) = some mb) :
    Records p.version p.uid mb (packMetadata H p inp t fs (bytes.map (H.bytes p.hashType))) := by
  rw [metaBlockBytes_eq, Option.map_eq_some_iff] at h
  obtain ⟨pl, h1, rfl⟩ := h
  obtain ⟨hst, hsh⟩ := pack_storable (H := H) hok hn t fs bytes
  exact ⟨pl, ⟨rfl, by rw [metasToBytes_length h1, dataSize_eq]⟩, metas_roundtrip hst hsh h1⟩

/-! ### When encoding succeeds -/

theorem maxSize_eq {p : Param} (hok : p.Ok) : maxDataFileSize p.version p.dpb = some (maxChunks p * p.version.dataSize) := by
  have hc := hok.consistent
  unfold maxDataFileSize maxChunks shards
  cases hd : p.dpb with
  | none =>
    have hu : p.version.usesRs = false := by simpa [verConsistent, hd] using hc
    simp [hu]
  | some d =>
    have hu : p.version.usesRs = true := by simpa [verConsistent, hd] using hc
    obtain ⟨h1, h2, h3⟩ := hok.shards d hd
    simp [hu, maxBlockSetCount]
    omega

/-- Number of bytes to be encoded. -/
def wantedLen (p : Param) (inp : Input) : Nat := (required p inp).getD inp.bytes.length

theorem wanted_length_le {p : Param} {inp : Input} (h : wantedLen p inp ≤ maxChunks p * p.version.dataSize) :
    (wanted p (required p inp) 0 (startBytes p inp)).length ≤ maxChunks p := by
  have hds := dataSize_pos p.version
  rw [wanted_eq, chunksOf_length hds, ceilDiv_le_iff hds]
  unfold wantedLen at h
  unfold clip
  cases hr : required p inp with
  | none =>
    rw [hr] at h
    have : startBytes p inp = inp.bytes := by
      unfold required at hr
      unfold startBytes
      rw [Option.map_eq_none_iff] at hr
      rw [hr]
    simpa [this] using h
  | some r =>
    rw [hr] at h
    simp only [Option.getD_some] at h
    rw [← ceilDiv_le_iff hds] at h
    simp only [List.length_take]
    exact Nat.le_trans (Nat.min_le_left _ _) (Nat.mul_le_mul_right _ h)

/-- Encoding succeeds if there are enough sequence numbers and the metadata fits. -/
theorem encode_succeeds {E : Env} {p : Param} (hE : E.Ok p) (hok : p.Ok) (inp : Input)
    (hsz : wantedLen p inp ≤ maxChunks p * p.version.dataSize) (hm : p.metaEnabled = true → needed p inp ≤ p.version.dataSize) :
    ∃ d rep, encodeFile E p inp = (d, .ok rep) := by
  have h1 : tooLarge p inp = some false := by
    unfold tooLarge
    unfold wantedLen at hsz
    cases hr : required p inp with
    | none => rfl
    | some r =>
      rw [hr] at hsz
      rw [maxSize_eq hok]
      simpa using hsz
  have hfit : ∀ t fs bytes, p.metaEnabled = true →
      metaBlockBytes p.version p.uid (packMetadata E.hash p inp t fs (Option.map (E.hash.bytes p.hashType) bytes)) ≠ none := by
    intro t fs bytes hme
    rw [metaBlockBytes_eq, metasToBytes_eq, if_pos]
    · simp
    · have := pack_space hok E.hash inp t fs bytes
      have := hm hme
      omega
  have h2 : dummyMeta E p inp ≠ none := by
    unfold dummyMeta
    split
    · rename_i hme
      simpa using hfit 0 (required p inp) none hme
    · simp
  obtain ⟨cs, mb0, d, res, e, _, _, _, _, _, hout⟩ := encodeFile_spec hE hok inp h1 h2
  cases hout with
  | overflow h3 h4 => have := wanted_length_le hsz; omega
  | tooMuch hme h3 => exact absurd h3 (hfit E.startTime (some cs.flatten.length) (some cs.flatten) hme)
  | done rep => exact ⟨_, rep, e⟩

end Verif.Encode
