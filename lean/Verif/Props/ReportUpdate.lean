import Verif.Props.Report
import Verif.Props.Update
import Verif.Lemmas.ReportUpdate
/-!
# C60: what `update` prints with `--json`
-/

namespace Verif.Report
open Json JsonSpec Scan Misc Layout Update Format UpdateSpec RepairSpec ScanSpec Repair LayoutSpec

/-- What can be there before an error of `update`. -/
def UpdatePreface (before : Members) : Prop :=
  ∀ m ∈ before, m.1 = key "refBlockInfo" ∨ m.1 = key "burstErrorResistanceLevel" ∨ m.1 = key "metadataChanges"

theorem updatePreface {before : Members} (h : Preface before) : UpdatePreface before := fun m hm => by
  rcases h m hm with h | h
  · exact .inl h
  · exact .inr (.inl h)

theorem fieldsFor_plain {E : Update.Env} {p : Param} {ref : Block} {dpb : Option Dpb} {f : File} {size : Option (HashType × Nat)} {fields : List Metadata}
    (h : fieldsFor E p ref dpb f size = .ok fields) (hp : ∀ m ∈ p.update, FieldPlain m) : ∀ m ∈ fields, FieldPlain m := by
  unfold fieldsFor at h
  split at h
  · cases h; exact hp
  · split at h
    · cases h
    · cases h
      intro m hm
      obtain ⟨x, hx, rfl⟩ := List.mem_map.1 hm
      have := hp x hx
      unfold setHash
      split
      · trivial
      · exact this

theorem wanted_of {E : Update.Env} {p : Param} {v : Version} {uid : Uid} {mp : List Byte} {dpb : Option Dpb} {f : File} {size : Option (HashType × Nat)}
    {fields : List Metadata} (hz : sizeFor p (blockOf v uid 0 mp) = .ok size) (hf : fieldsFor E p (blockOf v uid 0 mp) dpb f size = .ok fields) :
    Wanted E p f v uid mp dpb fields := by
  unfold Wanted
  unfold sizeFor at hz
  cases ht : p.hashType with
  | none =>
    rw [ht] at hz
    simp only [Except.ok.injEq] at hz
    subst hz
    simp only [fieldsFor, Except.ok.injEq] at hf
    simp only [hf]
  | some t =>
    rw [ht, getFsz_meta Decode.metas_blockOf] at hz
    cases hn : firstFsz (metasFromBytes mp) with
    | none => rw [hn] at hz; simp at hz
    | some n =>
      rw [hn] at hz
      simp only at hz
      split at hz
      · simp only [Except.ok.injEq] at hz
        subst hz
        unfold fieldsFor at hf
        simp only at hf
        split at hf
        · simp at hf
        · rename_i h hh
          simp only [Except.ok.injEq] at hf
          exact ⟨n, h, rfl, hh, hf.symm⟩
      · simp at hz

/-- **C60, `update`.** If error messages, dates, and the names recorded or to be recorded are plain text, the output of `update --json` is one
JSON object.  If `update` succeeds it has the counters of the run, and with `--verbose` the changes to the blocks that are updated: these are
the metadata blocks of the container found at the first `n` metadata places, and `n` is the number of blocks processed. -/
theorem C60_update_partial (errText : Err → Str) (he : PlainErrors errText) (utc loc : Int64 → Option Str) (hd : PlainDates utc loc) (t : Int)
    (verbose : Bool) (E : Update.Env) (p : Param) (hb : ∀ b, p.burst = some b → b < 2 ^ 64) (hu : ∀ m ∈ p.update, FieldPlain m)
    (f : File) (hf : f.length < 2 ^ 63) (hr : RecordedPlain f) :
    (∀ st, (updateFile E p f).2 = .ok st → st.updated + st.failed < 2 ^ 64 →
      ∃ pos v uid mp dpb fields, getRefBlock f none none false (.mustBe .metadata) E.stopRef = some (pos, blockOf v uid 0 mp) ∧
        Sees E p f v uid mp dpb ∧ Wanted E p f v uid mp dpb fields ∧
        (updateJson errText utc loc t verbose E p f).bind parse =
          whole errText (refShown verbose pos (blockOf v uid 0 mp) ++ burstShown (.ok dpb) ++
              updatesShown utc loc verbose fields p.remove (updatedIn v uid f dpb (st.updated + st.failed)))
            (.ok (JsonSpec.updateStats t v st)) ∧
        (updatedIn v uid f dpb (st.updated + st.failed)).length = st.updated) ∧
    (∀ e, (updateFile E p f).2 = .error e →
      ∃ before, UpdatePreface before ∧ (updateJson errText utc loc t verbose E p f).bind parse = whole errText before (.error e)) := by
  rcases hcase : updateFile E p f with ⟨dk, res⟩
  unfold updateFile at hcase
  unfold updateJson
  simp only at hcase ⊢
  cases hfound : getRefBlockAligned p.ref (.mustBe .metadata) f E.stopRef (E.stopTest 0) with
  | error e' =>
    rw [hfound] at hcase
    cases hcase
    refine ⟨fun _ h => (by cases h), fun e h => ⟨[], updatePreface preface_nil, ?_⟩⟩
    cases h
    exact output_whole he Doc.nil rfl
  | ok x =>
    obtain ⟨pos, ref⟩ := x
    rw [hfound] at hcase
    simp only at hcase ⊢
    have hpos := ref_posA hfound
    have hraw : getRefBlock f none none false (.mustBe .metadata) E.stopRef = some (pos, ref) := by
      unfold getRefBlockAligned at hfound
      simp only [Param.ref] at hfound
      split at hfound
      · split at hfound <;> cases hfound
      · next x hx => cases hfound; exact hx
    have hdr := refCalls_doc verbose (pos := pos) (by omega) ref
    cases hz : sizeFor p ref with
    | error e' =>
      rw [hz] at hcase
      cases hcase
      refine ⟨fun _ h => (by cases h), fun e h => ⟨_, updatePreface (preface_ref verbose pos ref), ?_⟩⟩
      cases h
      exact output_whole he hdr rfl
    | ok size =>
      rw [hz] at hcase
      simp only at hcase ⊢
      have hd2 := hdr.append (burst_doc (q := p.ref) hb false f ref)
      have hpre := updatePreface (preface_append (preface_ref verbose pos ref) (preface_burst (dataParBurst p.ref false f ref)))
      cases hdp : dataParBurst p.ref false f ref with
      | error e' =>
        rw [hdp] at hcase hd2 hpre
        cases hcase
        refine ⟨fun _ h => (by cases h), fun e h => ⟨_, hpre, ?_⟩⟩
        cases h
        exact output_whole he hd2 rfl
      | ok dpb =>
        rw [hdp] at hcase hd2 hpre
        simp only at hcase ⊢
        have hfst : (updateBlocks ref dpb p.update p.remove false E.stopTest ⟨f, []⟩).1 = ⟨f, []⟩ := by
          rw [updateBlocks_spec]; rfl
        rcases htest : updateBlocks ref dpb p.update p.remove false E.stopTest ⟨f, []⟩ with ⟨d, e' | st0⟩
        · rw [htest] at hcase
          cases hcase
          refine ⟨fun _ h => (by cases h), fun e h => ⟨_, hpre, ?_⟩⟩
          cases h
          exact output_whole he hd2 rfl
        · rw [htest] at hcase hfst
          simp only at hcase hfst ⊢
          subst hfst
          have hfile : (⟨f, []⟩ : Disk).file = f := rfl
          rw [hfile] at hcase ⊢
          cases hff : fieldsFor E p ref dpb f size with
          | error e' =>
            rw [hff] at hcase
            cases hcase
            refine ⟨fun _ h => (by cases h), fun e h => ⟨_, hpre, ?_⟩⟩
            cases h
            exact output_whole he hd2 rfl
          | ok fields =>
            rw [hff] at hcase
            simp only at hcase ⊢
            have hplain := fieldsFor_plain hff hu
            have htr := updateTrace_spec ref fields p.remove (!p.dryRun) E.stopRun f (metaCopies (some true) dpb) 0
              ⟨⟨f, []⟩, List.replicate largestBlockSize 0, Block.dummy, ⟨0, 0⟩⟩ ((metaCopies_sorted dpb).imp Nat.ne_of_lt) (by show (List.replicate 4096 (0 : Byte)).length = 4096; rw [List.length_replicate]) (fun _ _ => rfl)
            have hposs : metaAllPos ref.header.version dpb = (metaCopies (some true) dpb).map (· * ref.header.version.blockSize) := by
              rw [metaAllPos_eq, metaAllIndices_eq]
            rw [hposs, htr]
            have hpfx := List.prefix_iff_eq_take.1 (course_prefix (isFull ref f) (fits ref fields p.remove f) E.stopRun 0 (metaCopies (some true) dpb))
            have hspec := updateBlocks_spec ref dpb fields p.remove (!p.dryRun) E.stopRun ⟨f, []⟩
            rw [hcase, hfile] at hspec
            rw [hcase]
            generalize hL : (course (isFull ref f) (fits ref fields p.remove f) E.stopRun 0 (metaCopies (some true) dpb)) = L at hspec hpfx
            have hsorted : L.1.Pairwise (· < ·) := by
              rw [hpfx]
              exact (metaCopies_sorted dpb).sublist (List.take_sublist _ _)
            have hdu := updateChangeCalls_doc hd verbose fields p.remove (traceOf ref f 0 L.1) hplain (by
              intro x hx
              obtain ⟨h1, h2, k, payload, h3, h4⟩ := traceOf_bound hsorted hx
              refine ⟨by omega, by omega, ?_⟩
              rw [h4]
              exact hr _ _ k payload h3)
            refine ⟨fun st h hfit => ?_, fun e h => ?_⟩
            · subst h
              obtain ⟨v, uid, mp, rfl, -⟩ := found_block hraw
              have hst := (Prod.mk.injEq _ _ _ _ ▸ hspec).2
              split at hst
              · cases hst
              · simp only [Except.ok.injEq] at hst
                have hn : st.updated + st.failed = L.1.length := by
                  rw [hst]
                  have := List.length_eq_countP_add_countP (p := fun k => (fieldsAt (blockOf v uid 0 mp) f k).isSome) (l := L.1)
                  simp only
                  rw [this]
                  congr 1
                  refine List.countP_congr fun k _ => ?_
                  cases fieldsAt (blockOf v uid 0 mp) f k <;> simp
                have hup : updatedIn v uid f dpb (st.updated + st.failed) = traceOf (blockOf v uid 0 mp) f 0 L.1 := by
                  rw [hn]
                  have := traceOf_take (blockOf v uid 0 mp) f dpb L.1.length
                  rw [← hpfx] at this
                  rw [this]
                  rfl
                refine ⟨pos, v, uid, mp, dpb, fields, hraw, ⟨⟨pos, hraw⟩, hdp⟩, ?_, ?_, ?_⟩
                · exact wanted_of hz hff
                · rw [hup]
                  have := output_whole (r := .ok (updateStats t v st)) (q := .ok (JsonSpec.updateStats t v st)) he (hd2.append hdu)
                    (updateStats_doc t v st hfit)
                  show (output _ (endOf errText (.ok (updateStats t v st)))).bind parse = _
                  simpa only [List.append_assoc, endOf] using this
                · rw [hup, hst]
                  unfold traceOf
                  rw [filterMap_length]
            · subst h
              refine ⟨_, ?_, output_whole (r := .error e) (q := .error e) he (hd2.append hdu) rfl⟩
              intro m hm
              rcases List.mem_append.1 hm with hm | hm
              · exact hpre m hm
              · unfold updatesShown given at hm
                split at hm
                · rw [List.mem_singleton.1 hm]; exact .inr (.inr rfl)
                · cases hm

end Verif.Report
