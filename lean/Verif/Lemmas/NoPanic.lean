import Verif.Lemmas.ContentHash
import Verif.Lemmas.DecodeStats
/-!
# Runs that do not panic, for every file and every interruption
-/

namespace Verif.ContentHash
open Format Scan ScanSpec Decode BlockRing Layout LayoutSpec DecodeSpec RepairSpec Expect

/-- The reader of the container hash ends, and what it hands over can be hashed. -/
theorem hash_any_runs (stop : Nat → Bool) (f : File) (ref : Block) (dpb : Option Dpb) (total : Nat) :
    ∀ (n s processed checks : Nat), s + n = lastSeqNum + 1 → 1 ≤ n → processed < total →
      ∃ fs rF, Runs (cfg ref dpb) (act stop f ref dpb total) n ⟨s, processed, checks, false⟩ fs rF ∧
        ∀ g ∈ fs, ∀ sl : Slot, sl.Fresh (cfg ref dpb) → Lot.hashPart (cfg ref dpb) (g sl) ≠ none := by
  intro n
  induction n with
  | zero => intros; omega
  | succ n ih =>
    intro s processed checks hsn _ hpr
    by_cases hst : stop checks = true
    · exact ⟨[], ⟨s, processed, checks, false⟩, .halt (by unfold act; rw [if_pos hst]), by simp⟩
    simp only [Bool.not_eq_true] at hst
    have hact : act stop f ref dpb total ⟨s, processed, checks, false⟩ = .slot (slotStep f ref dpb total ⟨s, processed, checks, false⟩) := by
      unfold act; rw [hst]; rfl
    have hver : (cfg ref dpb).version = ref.header.version := rfl
    set k := dataWriteIndex s none dpb with hk
    have hpos : dataWritePos ref.header.version s none dpb = k * ref.header.version.blockSize := rfl
    set F : Slot → Slot := fun sl => (expect f (k * ref.header.version.blockSize) ref s sl).1 with hF
    have hlen : ∀ sl : Slot, sl.Fresh (cfg ref dpb) → (F sl).data.length = (cfg ref dpb).version.blockSize := fun sl hf =>
      expect_len hver hf
    have hcl : ∀ sl : Slot, sl.Fresh (cfg ref dpb) → (F sl).contentLen = none := fun sl hf => expect_content hf
    have hok : ∀ sl : Slot, sl.Fresh (cfg ref dpb) → (expect f (k * ref.header.version.blockSize) ref s sl).2.2 = (atPlace ref f k s).isSome :=
      fun sl hf => (expect_any hver hf).1
    have hhash : ∀ sl : Slot, sl.Fresh (cfg ref dpb) → Lot.hashPart (cfg ref dpb) (F sl) ≠ none := fun sl hf =>
      hashPart_ok fun n hn => by rw [hcl sl hf] at hn; cases hn
    -- going on or stopping at the last number
    have goOn : ∀ (pr : Nat) (cancel : Bool), pr < total →
        (∀ sl : Slot, sl.Fresh (cfg ref dpb) → slotStep f ref dpb total ⟨s, processed, checks, false⟩ sl =
          advance ⟨s, pr, checks + 1, false⟩ (F sl) cancel) →
        ∃ fs rF, Runs (cfg ref dpb) (act stop f ref dpb total) (n + 1) ⟨s, processed, checks, false⟩ fs rF ∧
          ∀ g ∈ fs, ∀ sl : Slot, sl.Fresh (cfg ref dpb) → Lot.hashPart (cfg ref dpb) (g sl) ≠ none := by
      intro pr cancel hp hstep
      by_cases hlast : s = lastSeqNum
      · refine ⟨if cancel then [] else [F], ⟨s, pr, checks + 1, false⟩, Runs.stop hact fun sl hf => ⟨?_, hlen sl hf⟩, ?_⟩
        · rw [hstep sl hf]; unfold advance; rw [if_pos hlast]
        · intro g hg sl hf
          cases cancel with
          | true => simp at hg
          | false =>
            rw [if_neg (by simp)] at hg
            rw [List.mem_singleton.1 hg]
            exact hhash sl hf
      · obtain ⟨fs, rF, h1, h2⟩ := ih (s + 1) pr (checks + 1) (by omega) (by omega) hp
        have hs' : ∀ sl : Slot, sl.Fresh (cfg ref dpb) → slotStep f ref dpb total ⟨s, processed, checks, false⟩ sl =
            (⟨s + 1, pr, checks + 1, false⟩, F sl, cancel, true) := by
          intro sl hf
          rw [hstep sl hf]; unfold advance; rw [if_neg hlast]
        cases cancel with
        | true => exact ⟨fs, rF, .skip hact (fun sl hf => ⟨hs' sl hf, hlen sl hf⟩) h1, h2⟩
        | false =>
          refine ⟨F :: fs, rF, .keep hact (fun sl hf => ⟨hs' sl hf, hlen sl hf⟩) h1, ?_⟩
          intro g hg sl hf
          rcases List.mem_cons.1 hg with rfl | hg
          · exact hhash sl hf
          · exact h2 g hg sl hf
    by_cases hpar : isParityDpb s dpb = true
    · refine goOn processed true hpr fun sl hf => ?_
      unfold slotStep
      simp only [hpar, if_true, hpos]
      rfl
    simp only [Bool.not_eq_true] at hpar
    by_cases hat : (atPlace ref f k s).isSome = true
    · by_cases hrest : total - processed ≤ ref.header.version.dataSize
      · refine ⟨[fun sl => { F sl with contentLen := some (total - processed) }], ⟨s, total, checks + 1, false⟩, ?_, ?_⟩
        · have := Runs.stop (c := cfg ref dpb) (act := act stop f ref dpb total) (n := n) (r := ⟨s, processed, checks, false⟩)
            (f := fun sl => { F sl with contentLen := some (total - processed) }) (cancel := false)
            (r' := ⟨s, total, checks + 1, false⟩) hact (by
              intro sl hf
              refine ⟨?_, hlen sl hf⟩
              unfold slotStep
              simp only [hpar, Bool.false_eq_true, if_false, hpos]
              rw [hok sl hf]
              simp only [hat, if_true]
              rw [if_pos hrest])
          simpa using this
        · intro g hg sl hf
          rw [List.mem_singleton.1 hg]
          refine hashPart_ok fun n hn => ?_
          simp only [Option.some.injEq] at hn
          exact ⟨by omega, by rw [hver]; omega⟩
      · refine goOn (processed + ref.header.version.dataSize) false (by omega) fun sl hf => ?_
        unfold slotStep
        simp only [hpar, Bool.false_eq_true, if_false, hpos]
        rw [hok sl hf]
        simp only [hat, if_true]
        rw [if_neg hrest]
    · simp only [Bool.not_eq_true] at hat
      refine ⟨[F], ⟨s, processed, checks + 1, true⟩, ?_, ?_⟩
      · have := Runs.stop (c := cfg ref dpb) (act := act stop f ref dpb total) (n := n) (r := ⟨s, processed, checks, false⟩)
          (f := F) (cancel := false) (r' := ⟨s, processed, checks + 1, true⟩) hact (by
            intro sl hf
            refine ⟨?_, hlen sl hf⟩
            unfold slotStep
            simp only [hpar, Bool.false_eq_true, if_false, hpos]
            rw [hok sl hf]
            simp only [hat, Bool.false_eq_true, if_false]
            rfl)
        simpa using this
      · intro g hg sl hf
        rw [List.mem_singleton.1 hg]
        exact hhash sl hf

theorem hash_no_panic (H : HashFn) {lotCount : Nat} (hL : 0 < lotCount) (stop : Nat → Bool) (t : HashType) (f : File) (ref : Block)
    (dpb : Option Dpb) {total : Nat} (ht : 0 < total) : hash H lotCount stop t f ref dpb total ≠ .error .panic := by
  obtain ⟨fs, rF, h1, h4⟩ := hash_any_runs stop f ref dpb total lastSeqNum 1 0 0 (by omega) (by unfold lastSeqNum; omega) ht
  obtain ⟨ss, hk, e⟩ := run2_spec (cap := buffersInRotation + 1) (N := buffersInRotation) (fuel := 2 ^ 32 + 3) (cfg_pos ref dpb) hL
    (by unfold buffersInRotation; omega) (hasherReset_folds (cfg_pos ref dpb) lotCount) h1 h4 (by unfold lastSeqNum; omega) []
  unfold hash
  rw [e]
  simp only
  split <;> simp

end Verif.ContentHash
