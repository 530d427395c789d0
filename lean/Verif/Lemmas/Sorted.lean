import Verif.Spec.Sorted
import Verif.Props.Sort
/-!
# Lemmas about sorting an arbitrary file
-/

namespace Verif.SortedSpec
open Format ScanSpec DecodeSpec LayoutSpec ContainerSpec Layout Scan Decode

theorem lastWrite_range {n : Nat} {g : Nat → Option (Nat × List Byte)} {s : Nat} {p : List Byte} :
    File.lastWrite ((List.range n).filterMap g) s = some p ↔
      ∃ k, k < n ∧ g k = some (s, p) ∧ ∀ j, k < j → j < n → ∀ p', g j ≠ some (s, p') := by
  induction n with
  | zero => simp [File.lastWrite]
  | succ n ih =>
    rw [List.range_succ, List.filterMap_append, File.lastWrite_append]
    have hlast : File.lastWrite ([n].filterMap g) s = match g n with
        | some x => if x.1 = s then some x.2 else none
        | none => none := by
      cases hg : g n with
      | none => simp [hg, File.lastWrite]
      | some x => by_cases hx : x.1 = s <;> simp [hg, File.lastWrite, hx]
    rw [hlast]
    by_cases hn : ∃ q, g n = some (s, q)
    · obtain ⟨q, hq⟩ := hn
      rw [hq]
      simp only [if_true, Option.some_or, Option.some.injEq]
      constructor
      · rintro rfl
        exact ⟨n, by omega, hq, fun j h1 h2 => by omega⟩
      · rintro ⟨k, h1, h2, h3⟩
        by_cases hk : k = n
        · subst hk; rw [hq] at h2; simpa using h2
        · exact absurd hq (h3 n (by omega) (by omega) q)
    · have : (match g n with | some x => if x.1 = s then some x.2 else none | none => none) = (none : Option (List Byte)) := by
        cases hg : g n with
        | none => rfl
        | some x =>
          simp only
          rw [if_neg]
          rintro rfl
          exact hn ⟨x.2, hg⟩
      rw [this, Option.none_or, ih]
      constructor
      · rintro ⟨k, h1, h2, h3⟩
        refine ⟨k, by omega, h2, fun j j1 j2 p' hj => ?_⟩
        by_cases hjn : j = n
        · subst hjn; exact hn ⟨p', hj⟩
        · exact h3 j j1 (by omega) p' hj
      · rintro ⟨k, h1, h2, h3⟩
        have hk : k ≠ n := by rintro rfl; exact hn ⟨p, h2⟩
        exact ⟨k, by omega, h2, fun j j1 j2 => h3 j j1 (by omega)⟩

theorem isBlock_inside {v : Version} {uid : Uid} {f : File} {k : Nat} {s : UInt32} {p : List Byte}
    (h : IsBlock (place v f k) v uid s p) : k < f.length / blockLen v := by
  have hl := isBlock_length h
  unfold place at hl
  rw [File.readAt_length] at hl
  have hpos := blockLen_pos v
  rw [Nat.lt_div_iff_mul_lt hpos]
  omega

theorem look_iff {ref : Block} {f : File} {k : Nat} {s : UInt32} {p : List Byte} :
    look ref f 0 k = some (s.toNat, p) ↔ IsBlock (place ref.header.version f k) ref.header.version ref.header.uid s p := by
  rw [look_some, Nat.zero_add]
  simp only [UInt32.ofNat_toNat]
  exact ⟨fun h => h.2, fun h => ⟨UInt32.toNat_lt s, h⟩⟩

theorem lastBlock_iff {ref : Block} {f : File} {s : UInt32} {p : List Byte} :
    LastBlock ref.header.version ref.header.uid f s p ↔
      File.lastWrite ((List.range (f.length / blockLen ref.header.version)).filterMap (look ref f 0)) s.toNat = some p := by
  rw [lastWrite_range]
  constructor
  · rintro ⟨k, h1, h2⟩
    exact ⟨k, isBlock_inside h1, look_iff.2 h1, fun j j1 _ p' hj => h2 j j1 p' (look_iff.1 hj)⟩
  · rintro ⟨k, h1, h2, h3⟩
    exact ⟨k, look_iff.1 h2, fun j j1 p' hj => h3 j j1 (isBlock_inside hj) p' (look_iff.2 hj)⟩

/-- The same for the data and parity blocks only. -/
theorem lastWrite_dataAt {ref : Block} {f : File} {n s : Nat} (hs : s ≠ 0) :
    File.lastWrite (((List.range n).filterMap (Sort.dataAt ref f 0)).map (·.2)) s =
      File.lastWrite ((List.range n).filterMap (look ref f 0)) s := by
  rw [List.map_filterMap]
  apply Option.ext
  intro p
  rw [lastWrite_range, lastWrite_range]
  have he : ∀ k q, Option.map (·.2) (Sort.dataAt ref f 0 k) = some (s, q) ↔ look ref f 0 k = some (s, q) := by
    intro k q
    rw [Option.map_eq_some_iff]
    constructor
    · rintro ⟨x, h1, h2⟩
      have := (Sort.dataAt_some.1 h1).2.2
      rw [h2] at this
      exact this
    · intro h
      exact ⟨(_, s, q), Sort.dataAt_some.2 ⟨rfl, hs, h⟩, rfl⟩
  simp only [he, ne_eq]

theorem lastWrite_placed {v : Version} {uid : Uid} {dpb : Option Dpb} (hv : Valid dpb) {s : Nat} (hs : s ≠ 0)
    (l : List (Nat × List Byte)) (hl : ∀ x ∈ l, x.1 ≠ 0) :
    File.lastWrite (l.map fun x => (dataWriteIndex x.1 (some true) dpb, blockBytes v uid.bytes (UInt32.ofNat x.1) x.2))
      (dataWriteIndex s (some true) dpb) = (File.lastWrite l s).map fun p => blockBytes v uid.bytes (UInt32.ofNat s) p := by
  induction l with
  | nil => rfl
  | cons x l ih =>
    rw [List.map_cons, File.lastWrite_cons, File.lastWrite_cons, ih (fun y hy => hl y (List.mem_cons_of_mem _ hy))]
    have hx := hl x List.mem_cons_self
    by_cases h : x.1 = s
    · rw [if_pos h, if_pos (by rw [h]), h]
      cases File.lastWrite l s <;> rfl
    · rw [if_neg h, if_neg (fun e => h (C10_data_injective _ _ hv _ _ (by omega) (by omega) e)), Option.or_none, Option.or_none]

theorem firstMeta_iff {ref : Block} {f : File} {p : List Byte} :
    FirstMeta ref.header.version ref.header.uid f p ↔ p.length = blockLen ref.header.version - 16 ∧
      (List.range (f.length / blockLen ref.header.version)).findSome? (Sort.metaAt ref f 0) =
        some (blockBytes ref.header.version ref.header.uid.bytes 0 p) := by
  have hsome : ∀ k mb, Sort.metaAt ref f 0 k = some mb ↔
      ∃ p, IsBlock (place ref.header.version f k) ref.header.version ref.header.uid 0 p ∧ mb = place ref.header.version f k := by
    intro k mb
    rw [Sort.metaAt_some, Nat.zero_add]
    rfl
  constructor
  · rintro ⟨k, h1, h2⟩
    refine ⟨h1.len, ?_⟩
    cases hf : (List.range (f.length / blockLen ref.header.version)).findSome? (Sort.metaAt ref f 0) with
    | none =>
      rw [List.findSome?_eq_none_iff] at hf
      have := hf k (List.mem_range.2 (isBlock_inside h1))
      rw [(hsome k _).2 ⟨p, h1, rfl⟩] at this
      simp at this
    | some mb =>
      rw [List.findSome?_eq_some_iff] at hf
      obtain ⟨l1, a, l2, e, h3, h4⟩ := hf
      obtain ⟨q, h5, rfl⟩ := (hsome a mb).1 h3
      have ha : ¬ a < k := fun h => h2 a h q h5
      have hk : ¬ k < a := by
        intro h
        have hkm : k ∈ l1 := by
          have hn := congrArg (·[l1.length]?) e
          simp only [List.getElem?_append_right (Nat.le_refl _), Nat.sub_self, List.getElem?_cons_zero] at hn
          rw [List.getElem?_range (by
            by_contra hc
            rw [List.getElem?_eq_none (by rw [List.length_range]; omega)] at hn
            simp at hn)] at hn
          simp only [Option.some.injEq] at hn
          have hk2 := congrArg (·[k]?) e
          simp only [List.getElem?_append_left (by omega : k < l1.length)] at hk2
          rw [List.getElem?_range (isBlock_inside h1)] at hk2
          exact List.mem_of_getElem? hk2.symm
        have := h4 k hkm
        rw [(hsome k _).2 ⟨p, h1, rfl⟩] at this
        simp at this
      have : a = k := by omega
      subst this
      rw [h1.bytes]
  · rintro ⟨hl, hf⟩
    rw [List.findSome?_eq_some_iff] at hf
    obtain ⟨l1, a, l2, e, h3, h4⟩ := hf
    obtain ⟨q, h5, h6⟩ := (hsome a _).1 h3
    refine ⟨a, ⟨h6.symm, hl⟩, ?_⟩
    intro j hj p' hp'
    have hn := congrArg (·[l1.length]?) e
    simp only [List.getElem?_append_right (Nat.le_refl _), Nat.sub_self, List.getElem?_cons_zero] at hn
    rw [List.getElem?_range (by
      by_contra hc
      rw [List.getElem?_eq_none (by rw [List.length_range]; omega)] at hn
      simp at hn)] at hn
    simp only [Option.some.injEq] at hn
    have hk2 := congrArg (·[j]?) e
    simp only [List.getElem?_append_left (by omega : j < l1.length)] at hk2
    rw [List.getElem?_range (isBlock_inside hp')] at hk2
    have := h4 j (List.mem_of_getElem? hk2.symm)
    rw [(hsome j _).2 ⟨p', hp', rfl⟩] at this
    simp at this

/-- The output of `sort` as a sequence of writes. -/
theorem sort_writes (E : Sort.Env) (hE : E.Calm) (q : Sort.Param) (hq : Sort.Whole q) (f old : File) (pos : Nat) (ref : Block)
    (dpb : Option Dpb) (hr : getRefBlockM q.ref q.ref.refChoice f E.stopRef (E.stop 0) = .ok (pos, ref))
    (hd : dataParBurst q.ref true f ref = .ok dpb) :
    ∃ d st o A B, Sort.sortFile E q f old = .ok (some d, st, o) ∧
      ((List.range (f.length / blockLen ref.header.version)).filterMap (Sort.dataAt ref f 0)).map (·.2) = A ++ B ∧
      d.file = File.writes [] (File.atPos ref.header.version.blockSize
        ((A.map fun x => (dataWriteIndex x.1 (some true) dpb, blockBytes ref.header.version ref.header.uid.bytes (UInt32.ofNat x.1) x.2)) ++
          ((((List.range (f.length / blockLen ref.header.version)).findSome? (Sort.metaAt ref f 0)).toList.flatMap (metaWrites dpb)) ++
          (B.map fun x => (dataWriteIndex x.1 (some true) dpb, blockBytes ref.header.version ref.header.uid.bytes (UInt32.ofNat x.1) x.2))))) := by
  obtain ⟨m, -, hm, A, B, out, fin, h1, h2, h3, h4⟩ := Sort.sortWith_spec E hE.lots q ref dpb f old
  have hm := hm hE.stop
  have hseek : (rangeOf q.ref ref f).seekTo = 0 := by
    unfold rangeOf; rw [hq.fromPos, hq.toPos, range_all]
  have hpl : places ref f (rangeOf q.ref ref f).seekTo (rangeOf q.ref ref f).requiredLen = f.length / blockLen ref.header.version := by
    unfold rangeOf; rw [hq.fromPos, hq.toPos]; exact places_all
  rw [hpl] at hm
  subst hm
  rw [hseek] at h1 h2 h3
  rw [hq.toFile, hq.single] at h4
  simp only [if_true] at h4
  cases hout : out with
  | none => rw [hout] at h4; simp at h4
  | some d =>
    refine ⟨d, fin.2, (A ++ B).foldl (Sort.orderAt ref.header.version dpb (0 % ref.header.version.blockSize)) ⟨0, 0, 0, 0⟩,
      A.map (·.2), B.map (·.2), ?_, by rw [h1, List.map_append], ?_⟩
    · unfold Sort.sortFile
      rw [hr]
      simp only
      rw [hd]
      simp only
      rw [h3, hout]
    · rw [hout] at h4
      simp only [Option.map_some, Option.some.injEq] at h4
      have hfound : fin.1 = (List.range (f.length / blockLen ref.header.version)).findSome? (Sort.metaAt ref f 0) := by
        rw [h2, Sort.tally_found, Option.none_or]
      rw [hfound] at h4
      have hsk : ((none : Option MultiPass) == some MultiPass.skipGood) = false := rfl
      have hold : openOut none old = [] := rfl
      rw [h4, hsk, hold]
      cases (List.range (f.length / blockLen ref.header.version)).findSome? (Sort.metaAt ref f 0) with
      | none =>
        simp only [Option.toList_none, List.foldl_nil, List.flatMap_nil, List.nil_append]
        rw [Sort.putBlocks_writes, Sort.putBlocks_writes, ← File.writes_append]
        unfold File.atPos
        rw [← List.map_append]
      | some mb =>
        simp only [Option.toList_some, List.foldl_cons, List.foldl_nil, List.flatMap_cons, List.flatMap_nil, List.append_nil]
        rw [Sort.putBlocks_writes, Sort.putMetas_writes, Sort.putBlocks_writes, ← File.writes_append, ← File.writes_append]
        unfold File.atPos
        rw [← List.map_append, ← List.map_append]

end Verif.SortedSpec
