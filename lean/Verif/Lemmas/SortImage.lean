import Verif.Lemmas.Sort
import Verif.Props.Decode
/-!
# Lemmas about the output of `sort`
-/

namespace Verif.Sort
open Format ScanSpec DecodeSpec LayoutSpec ContainerSpec Layout Scan

/-- Writing the blocks of a container in any order and any number of times gives the container. -/
theorem image_of_set {v : Version} {uid : Uid} {me : Option Bool} {dpb : Option Dpb} (hv : Valid dpb)
    {ps : List (List Byte)} (hps : ∀ p ∈ ps, p.length = v.dataSize) {mb : List Byte} (hm : mb.length = v.blockSize)
    (ws : List (Nat × List Byte))
    (h1 : ∀ w ∈ ws, (w.1 ∈ metaCopies me dpb ∧ w.2 = mb) ∨
      ∃ i p, ps[i]? = some p ∧ w = (dataWriteIndex (i + 1) me dpb, blockBytes v uid.bytes (UInt32.ofNat (i + 1)) p))
    (h2 : ∀ k ∈ metaCopies me dpb, ∃ w ∈ ws, w.1 = k)
    (h3 : ∀ i < ps.length, ∃ w ∈ ws, w.1 = dataWriteIndex (i + 1) me dpb) :
    Image v uid.bytes me dpb ps mb (File.writes [] (File.atPos v.blockSize ws)) := by
  have hu : 0 < v.blockSize := by rw [← blockLen_eq]; exact blockLen_pos v
  have hbs := v.blockSize_eq
  have hlen : ∀ w ∈ ws, w.2.length = v.blockSize := by
    intro w hw
    rcases h1 w hw with ⟨-, h⟩ | ⟨i, p, hp, rfl⟩
    · rw [h, hm]
    · simp only
      rw [blockBytes_length, hps p (List.mem_of_getElem? hp), hbs]
  obtain ⟨hL, hU⟩ := File.unit_writes hu ws hlen (f := []) (by simp)
  simp only [List.length_nil, Nat.zero_div] at hL hU
  set f := File.writes [] (File.atPos v.blockSize ws) with hf
  have hmax : ∀ w ∈ ws, w.1 < File.maxUnits 0 ws := (File.maxUnits_le.1 (Nat.le_refl (File.maxUnits 0 ws))).2
  have hdm : ∀ i, dataWriteIndex (i + 1) me dpb ∉ metaCopies me dpb :=
    fun i => C10_data_not_meta me dpb hv (i + 1) (by omega)
  have hdata : ∀ (i : Nat) p, ps[i]? = some p → File.lastWrite ws (dataWriteIndex (i + 1) me dpb) =
      some (blockBytes v uid.bytes (UInt32.ofNat (i + 1)) p) := by
    intro i p hp
    apply File.lastWrite_of_all
    · exact h3 i (List.getElem?_eq_some_iff.1 hp).1
    · intro w hw hk
      rcases h1 w hw with ⟨h, -⟩ | ⟨j, q, hq, rfl⟩
      · rw [hk] at h; exact absurd h (hdm i)
      · simp only at hk ⊢
        have := C10_data_injective me dpb hv (j + 1) (i + 1) (by omega) (by omega) hk
        have hij : j = i := by omega
        subst hij
        rw [hp] at hq
        simp at hq
        rw [hq]
  have hmeta : ∀ k ∈ metaCopies me dpb, File.lastWrite ws k = some mb := by
    intro k hk
    apply File.lastWrite_of_all
    · exact h2 k hk
    · intro w hw hwk
      rcases h1 w hw with ⟨-, h⟩ | ⟨j, q, hq, rfl⟩
      · exact h
      · simp only at hwk; rw [← hwk] at hk; exact absurd hk (hdm j)
  refine ⟨?_, ?_, ?_, ?_, ?_⟩
  · rw [blockLen_eq, hL]; exact Nat.dvd_mul_left _ _
  · intro i p hp
    rw [blockLen_eq]
    obtain ⟨w, hw, hwk⟩ := h3 i (List.getElem?_eq_some_iff.1 hp).1
    have := hU _ (hmax w hw)
    rw [hwk] at this
    simp only [hdata i p hp, Option.getD_some] at this
    exact this
  · intro k hk
    rw [blockLen_eq]
    obtain ⟨w, hw, hwk⟩ := h2 k hk
    have := hU k (by rw [← hwk]; exact hmax w hw)
    simp only [hmeta k hk, Option.getD_some] at this
    exact this
  · intro k hk hkm hkd
    rw [blockLen_eq] at hk ⊢
    have hk' : k < File.maxUnits 0 ws := by
      rw [hL] at hk; exact Nat.lt_of_mul_lt_mul_right hk
    have := hU k hk'
    rw [File.lastWrite_none.2] at this
    · rw [Option.getD_none, File.unit0, if_neg (by simp)] at this
      exact this
    · intro w hw hwk
      rcases h1 w hw with ⟨h, -⟩ | ⟨j, q, hq, rfl⟩
      · rw [hwk] at h; exact hkm h
      · simp only at hwk
        exact hkd j (List.getElem?_eq_some_iff.1 hq).1 hwk
  · intro k hk
    rw [blockLen_eq, hL] at hk
    have hk' : File.maxUnits 0 ws = k + 1 := Nat.eq_of_mul_eq_mul_right hu hk
    by_contra hno
    rw [not_or, not_exists] at hno
    have : File.maxUnits 0 ws ≤ k := by
      rw [File.maxUnits_le]
      refine ⟨by omega, ?_⟩
      intro w hw
      have hlt := hmax w hw
      rw [hk'] at hlt
      have hne : w.1 ≠ k := by
        intro hwk
        rcases h1 w hw with ⟨h, -⟩ | ⟨j, q, hq, rfl⟩
        · rw [hwk] at h; exact hno.1 h
        · simp only at hwk
          exact hno.2 j ⟨(List.getElem?_eq_some_iff.1 hq).1, hwk⟩
      omega
    omega

/-- Without `skip`, blocks are simply written. -/
theorem putBlocks_writes (ref : Block) (dpb : Option Dpb) (l : List (Nat × List Byte)) (out : File) :
    l.foldl (putBlock ref dpb false) out = File.writes out (File.atPos ref.header.version.blockSize
      (l.map fun x => (dataWriteIndex x.1 (some true) dpb, blockBytes ref.header.version ref.header.uid.bytes (UInt32.ofNat x.1) x.2))) := by
  induction l generalizing out with
  | nil => rfl
  | cons x l ih =>
    rw [List.foldl_cons, ih]
    rfl

theorem putMetas_writes (ref : Block) (dpb : Option Dpb) (mb : List Byte) (out : File) :
    putMetas ref dpb false mb out = File.writes out (File.atPos ref.header.version.blockSize (metaWrites dpb mb)) := by
  unfold putMetas metaWrites File.atPos File.writes
  rw [metaAllPos_eq, metaAllIndices_eq, List.map_map, List.foldl_map, List.foldl_map]
  simp

/-- The metadata block found first. -/
theorem tally_found (ref : Block) (dpb : Option Dpb) (f : File) (start : Nat) (rb : Bool) (ks : List Nat) (a : Option (List Byte) × Stats) :
    (ks.foldl (tally ref dpb f start rb) a).1 = a.1.or (ks.findSome? (metaAt ref f start)) := by
  induction ks generalizing a with
  | nil => simp
  | cons k ks ih =>
    rw [List.foldl_cons, ih, List.findSome?_cons]
    unfold tally metaAt
    cases look ref f start k with
    | none => rfl
    | some x =>
      by_cases hx : x.1 = 0
      · simp only [hx, if_true, Option.bind_some]
        cases a.1 <;> simp
      · simp [hx]

theorem metaAt_some {ref : Block} {f : File} {start k : Nat} {mb : List Byte} :
    metaAt ref f start k = some mb ↔ ∃ p, IsBlock (f.readAt (start + k * blockLen ref.header.version) (blockLen ref.header.version))
      ref.header.version ref.header.uid 0 p ∧ mb = f.readAt (start + k * blockLen ref.header.version) (blockLen ref.header.version) := by
  unfold metaAt
  rw [Option.bind_eq_some_iff]
  constructor
  · rintro ⟨x, hx, h⟩
    by_cases h0 : x.1 = 0
    · rw [if_pos h0] at h
      simp only [Option.some.injEq] at h
      have := (Decode.look_some.1 hx).2
      rw [h0] at this
      exact ⟨x.2, this, h.symm⟩
    · simp [h0] at h
  · rintro ⟨p, h1, rfl⟩
    exact ⟨(0, p), Decode.look_some.2 ⟨by show (0 : Nat) < 2 ^ 32; decide, h1⟩, by simp⟩

end Verif.Sort
