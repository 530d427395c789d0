import Verif.Props.Report
import Verif.Props.Repair
import Verif.Lemmas.ReportRepair
/-!
# C60: what `repair` prints with `--json`
-/

namespace Verif.Report
open Json JsonSpec Scan Misc Layout

/-- Lists that fit. -/
theorem lists_doc {verbose : Bool} {v : Version} {d : Dpb} (h1 : 1 ≤ d.data) (h2 : d.data + d.parity ≤ 256) (hb : d.burst < 2 ^ 40)
    {places : List Nat} {sets : List SetReport} (hp : places.Sublist (metaAllPos v (some d)))
    (hs : ∀ r ∈ sets, r.present.length = d.data + d.parity ∧ r.first ≤ 1 + lastSeqNum) :
    Doc .curly (metaRepairCalls verbose places ++ dataRepairCalls verbose v d sets)
      (metaRepairsShown verbose places ++ dataRepairsShown verbose v d sets) := by
  refine Doc.append (metaRepairCalls_doc _ _ fun x hx => metaPos_bound h2 hb (hp.subset hx)) (dataRepairCalls_doc _ _ _ _ fun r hr => ?_)
  obtain ⟨e1, e2⟩ := hs r hr
  have hl : lastSeqNum < 2 ^ 32 := by decide
  refine ⟨by omega, fun s hs => dataPos_bound h1 h2 hb ?_⟩
  obtain ⟨i, hi, hi'⟩ := List.mem_filterMap.1 hs
  have hi := List.mem_range.1 hi
  split at hi'
  · cases hi'; omega
  · cases hi'

/-- **C60, `repair`.** If error messages are plain text, the output of `repair --json` is one JSON object, whatever the file contains.  If
`repair` succeeds it has the counters of the run; and the metadata places listed as repaired are as many as the counter says, and so are the
blocks listed as missing in the sets with and without success.  Nothing but the reference block is shown if the version has no Reed-Solomon
code. -/
theorem C60_repair_partial (errText : Err → Str) (he : PlainErrors errText) (t : Int) (verbose : Bool) (E : Repair.Env) (burst : Option Nat)
    (hb : ∀ b, burst = some b → b < 2 ^ 40) (dry : Bool) (f : File) (hf : f.length < 2 ^ 63) :
    (∀ dk st, Repair.repairFile E burst dry f = .ok (some (dk, st)) →
      ∃ pos ref d places sets, getRefBlock f none none false (.mustBe .metadata) E.stopRef = some (pos, ref) ∧
        (repairJson errText t verbose E burst dry f).bind parse =
          whole errText (refShown verbose pos ref ++ [(key "burstErrorResistanceLevel", numV d.burst)] ++ metaRepairsShown verbose places ++
            dataRepairsShown verbose ref.header.version d sets) (.ok (JsonSpec.repairStats t ref.header.version st)) ∧
        places.Sublist (metaAllPos ref.header.version (some d)) ∧ places.length = st.metaRepaired ∧
        missingTotal true sets = st.dataRepaired ∧ missingTotal false sets = st.repairFailed) ∧
    (Repair.repairFile E burst dry f = .ok none →
      ∃ pos ref, getRefBlock f none none false (.mustBe .metadata) E.stopRef = some (pos, ref) ∧
        (repairJson errText t verbose E burst dry f).bind parse = some (.obj (refShown verbose pos ref ++ [(key "error", .null)]))) ∧
    (∀ e, Repair.repairFile E burst dry f = .error e →
      ∃ before, Preface before ∧ (repairJson errText t verbose E burst dry f).bind parse = whole errText before (.error e)) := by
  unfold Repair.repairFile repairJson
  simp only
  generalize hp : (⟨.mustBe .metadata, none, none, none, none, none, false, burst⟩ : RefParam) = p
  have hpb : ∀ b, p.burst = some b → b < 2 ^ 40 := by rw [← hp]; exact hb
  cases hfound : getRefBlockAligned p (.mustBe .metadata) f E.stopRef (E.stopMeta 0) with
  | error e' =>
    refine ⟨fun _ _ h => (by cases h), fun h => (by cases h), fun e h => ⟨[], preface_nil, ?_⟩⟩
    cases h
    exact output_whole he Doc.nil rfl
  | ok x =>
    obtain ⟨pos, ref⟩ := x
    have hpos := ref_posA hfound
    have hraw : getRefBlock f none none false (.mustBe .metadata) E.stopRef = some (pos, ref) := by
      unfold getRefBlockAligned at hfound
      rw [← hp] at hfound
      simp only at hfound
      split at hfound
      · split at hfound <;> cases hfound
      · next x hx => cases hfound; exact hx
    have hd := refCalls_doc verbose (pos := pos) (by omega) ref
    by_cases hrs : ref.header.version.usesRs = true
    · simp only [hrs, if_true]
      cases hdp : dataParBurst p false f ref with
      | error e' =>
        refine ⟨fun _ _ h => (by cases h), fun h => (by cases h), fun e h => ⟨_, preface_ref verbose pos ref, ?_⟩⟩
        cases h
        exact output_whole he hd rfl
      | ok y =>
        cases y with
        | none =>
          refine ⟨fun _ _ h => (by cases h), fun h => (by cases h), fun e h => ⟨[], preface_nil, ?_⟩⟩
          cases h
          rfl
        | some d =>
          have hbd : d.burst < 2 ^ 40 := burst_lt (by decide) hpb hdp
          have hd2 := hd.append (burstCalls_doc (x := .ok (some d)) fun d' h => by cases h; exact Nat.lt_trans hbd (by decide))
          have hpre := preface_append (preface_ref verbose pos ref) (preface_burst (.ok (some d)))
          simp only
          cases htot : Repair.totalBlocks ref d f with
          | error e' =>
            refine ⟨fun _ _ h => (by cases h), fun h => (by cases h), fun e h => ⟨_, hpre, ?_⟩⟩
            cases h
            exact output_whole he hd2 rfl
          | ok total =>
            simp only
            cases hw : Repair.repairWith E dry ref d total f with
            | error e' =>
              refine ⟨fun _ _ h => (by cases h), fun h => (by cases h), fun e h => ⟨_, hpre, ?_⟩⟩
              cases h
              rw [repairCalls_error hw]
              exact output_whole he hd2 rfl
            | ok z =>
              obtain ⟨dk, st⟩ := z
              refine ⟨fun dk' st' h => ?_, fun h => (by cases h), fun e h => (by cases h)⟩
              cases h
              obtain ⟨h1, h2, places, sets, h3, h4, h5, h6, h7, h8⟩ := repairCalls_spec (t := t) (verbose := verbose) hw
              refine ⟨pos, ref, d, places, sets, hraw, ?_, h4, h5, ?_, ?_⟩
              · rw [h3]
                have := output_whole (r := .ok (repairStats t ref.header.version st)) (q := .ok (JsonSpec.repairStats t ref.header.version st)) he (hd2.append (lists_doc (verbose := verbose) h1 h2 hbd h4 h6))
                  (repairStats_doc t ref.header.version st (repairWith_fits hw))
                simpa only [List.append_assoc, burstShown, endOf] using this
              · rw [← missingIn_eq]; exact h7
              · rw [← missingIn_eq]; exact h8
    · simp only [hrs, Bool.false_eq_true, if_false]
      refine ⟨fun _ _ h => (by cases h), fun _ => ⟨pos, ref, hraw, ?_⟩, fun e h => (by cases h)⟩
      exact output_ok (cs := []) hd Doc.nil

section listed
open Format RepairSpec Repair LayoutSpec FileUtils
open Classical

/-- What an uninterrupted run lists. -/
theorem repairCalls_listed {E : Env} (laws : E.rs.Laws) (hE : E.Calm) {burst : Option Nat} (dry : Bool) {f : File} {v : Version} {uid : Uid}
    {mp mp' : List Byte} {d : Dpb} {total : Nat} (h : Setup E burst f v uid mp mp' d total) (hf : blockLen v ∣ f.length) (t : Int) (verbose : Bool)
    {dk : Disk} {st : Stats} (hw : repairWith E dry (blockOf v uid 0 mp) d total f = .ok (dk, st)) :
    repairCalls t verbose E dry (blockOf v uid 0 mp) d total f = .ok (
      metaRepairCalls verbose (((metaCopies (some true) (some d)).filter fun k => ¬ ValidAt v uid f k).map (· * blockLen v)) ++
      dataRepairCalls verbose v d ((List.range (examined v d mp f / (d.data + d.parity))).map (JsonSpec.setOf v uid d f)),
      repairStats t v st) := by
  obtain ⟨h1, h2, h3⟩ := shards_ok h.data h.parity
  have hval : Valid (some d) := by intro x hx; cases hx; exact h1
  have hmb : (blockBytes v uid.bytes 0 mp').length = blockLen v := by
    rw [blockBytes_length, h.size]; have := h16 v; omega
  have hbs : blockLen v ≤ 4096 := by cases v <;> decide
  have hge := h16 v
  have hml : (metaCopies (some true) (some d)).length = 1 + d.parity := by unfold metaCopies; simp
  unfold repairWith Codec.new at hw
  unfold repairCalls Codec.new
  rw [if_neg (by omega)] at hw ⊢
  simp only at hw ⊢
  obtain ⟨ref', e1, e2⟩ := RefOk.syncTo (b := blockOf v uid 0 mp) (v := v) (uid := uid) (ms := metasFromBytes mp) ⟨rfl, rfl, rfl, by simp [blockOf]⟩ h.rewritten
    (buf := List.replicate 4096 0) (by rw [List.length_replicate]; exact hbs)
  rw [e1] at hw ⊢
  have hpos : metaAllPos (blockOf v uid 0 mp).header.version (some d) = (metaCopies (some true) (some d)).map (· * v.blockSize) := by
    show metaAllPos v (some d) = _
    rw [metaAllPos_eq, metaAllIndices_eq]
  simp only [hpos] at hw ⊢
  have hbuf : (blockBytes v uid.bytes 0 mp' ++ (List.replicate 4096 (0 : Byte)).drop (blockLen v)).length = 4096 := by
    simp only [List.length_append, blockBytes_length, h.size, List.length_drop, List.length_replicate]; omega
  have hmt := metaTrace_spec (ref := blockOf v uid 0 mp) (ms := metasFromBytes mp) (mp := mp') h.rewritten h.size dry E.stopMeta hE.metas f hf
    (metaCopies (some true) (some d)) 0
    ⟨⟨f, []⟩, blockBytes v uid.bytes 0 mp' ++ (List.replicate 4096 (0 : Byte)).drop (blockLen v), Block.dummy, ref', Stats.zero⟩ []
    (metaCopies_nodup d) rfl (fun k _ w hw => by cases hw) e2 hbuf
  obtain ⟨s', n, f1, f2, f3, f4⟩ := metaLoop_spec (ref := blockOf v uid 0 mp) (ms := metasFromBytes mp) (mp := mp') h.rewritten h.size dry E.stopMeta
    (metaCopies (some true) (some d)) 0
    ⟨⟨f, []⟩, blockBytes v uid.bytes 0 mp' ++ (List.replicate 4096 (0 : Byte)).drop (blockLen v), Block.dummy, ref', Stats.zero⟩ e2 hbuf
  have hn : n = (metaCopies (some true) (some d)).length := by
    rcases f3 with f3 | f3
    · exact f3
    · rw [hE.metas] at f3; cases f3
  rw [hn, List.take_length] at f4
  have hst := meta_stats (uid := uid) (d := d) hmb dry f hf _ (metaCopies_nodup d) (fun k hk => hk)
  obtain ⟨ws, g1, -, -, g4, -⟩ := meta_ops (uid := uid) (d := d) hmb dry f _ (metaCopies_nodup d) (fun k hk => hk)
  have hbsz : (blockOf v uid 0 mp).header.version.blockSize = v.blockSize := rfl
  rw [hbsz] at f1 hmt
  have hmv : (blockOf v uid 0 mp).header.version = v := rfl
  have hmu : (blockOf v uid 0 mp).header.uid = uid := rfl
  rw [hmv, hmu] at f4
  simp only at f4
  rw [← f4] at hst g1
  simp only at hst g1
  simp only [f1, hmt] at hw ⊢
  have hb1 : s'.stats.blocks = 1 + d.parity := by
    rw [hst, hml]
    have : (metaCopies (some true) (some d)).countP (fun k => decide (ValidAt v uid f k)) ≤ 1 + d.parity := by
      rw [← hml]; exact List.countP_le_length
    simp only [Stats.blocks]
    omega
  obtain ⟨m, i1, i2, i3, i4, i5⟩ := dataTrace_spec (ref := blockOf v uid 0 mp) laws h1 h2 h3 hmb dry total E.stopData hf g4 (st0 := s'.stats)
    lastSeqNum 0
    ⟨s'.disk, ⟨0, List.replicate (d.data + d.parity) (List.replicate (blockOf v uid 0 mp).size 0), List.replicate (d.data + d.parity) false, blockOf v uid 0 mp⟩,
      s'.block, s'.stats⟩ (by unfold lastSeqNum; omega) (by rw [g1]; exact .start) (by
        rw [Nat.zero_div, Nat.zero_mod]
        refine ⟨rfl, by simp, by simp, ?_, rfl, rfl, by intro j hj; omega, by intro j hj; omega⟩
        intro b hb
        rw [List.eq_of_mem_replicate hb, List.length_replicate]
        unfold Block.size
        rw [blockLen_eq])
  have htot : examined v d mp f = min lastSeqNum (total - (1 + d.parity)) := by
    have := h.total
    unfold examined
    cases hfs : firstFsz (metasFromBytes mp) with
    | none =>
      rw [hfs] at this
      rw [this, blockLen_eq]
    | some size =>
      rw [hfs] at this
      simp only at this ⊢
      rw [this, totalBlockCount, dataBlockCount_eq v (some d) hval, ← dataSize_eq]
      have e : metaBlockCount none (some d) = 1 + d.parity := rfl
      rw [e, Nat.add_sub_cancel_left]
  have hm : m = examined v d mp f := by
    rw [htot]
    rw [hb1] at i2 i3
    rcases i2 with e6 | e6 | e6
    · omega
    · rw [hE.data] at e6; simp at e6
    · omega
  rw [Nat.zero_div, List.drop_zero, hm] at i5
  rw [Nat.zero_add] at i5
  rw [i5]
  split at hw
  · cases hw
  · next s hs =>
    cases hw
    simp only [hs, ← blockLen_eq]
    rfl

/-- **C60, `repair --verbose`.** What an uninterrupted `repair --json --verbose` lists, dry run or not, when it is run on a file of whole
blocks: the positions of the metadata places without valid block, and the sets of which blocks are missing, each with the answer to whether
enough blocks are left, and with the numbers and positions of the missing blocks.  Sets are listed up to the number of blocks examined. -/
theorem C60_repair_listed_partial (errText : Err → Str) (he : PlainErrors errText) (t : Int) (verbose : Bool) (E : Env) (laws : E.rs.Laws)
    (hE : E.Calm) (burst : Option Nat) (hb : ∀ b, burst = some b → b < 2 ^ 40) (dry : Bool) (f : File) (hf : f.length < 2 ^ 63)
    (v : Version) (uid : Uid) (mp : List Byte) (d : Dpb) (hs : Sees E burst f v uid mp d) (hal : blockLen v ∣ f.length) (dk : Disk) (st : Stats)
    (h : repairFile E burst dry f = .ok (some (dk, st))) :
    ∃ pos, getRefBlock f none none false (.mustBe .metadata) E.stopRef = some (pos, blockOf v uid 0 mp) ∧
      (repairJson errText t verbose E burst dry f).bind parse = whole errText
        (refShown verbose pos (blockOf v uid 0 mp) ++ [(key "burstErrorResistanceLevel", numV d.burst)] ++
          metaRepairsShown verbose (((metaCopies (some true) (some d)).filter fun k => ¬ ValidAt v uid f k).map (· * blockLen v)) ++
          dataRepairsShown verbose v d ((List.range (examined v d mp f / (d.data + d.parity))).map (JsonSpec.setOf v uid d f)))
        (.ok (JsonSpec.repairStats t v st)) := by
  obtain ⟨mp', total, hset⟩ := hs.setup
  obtain ⟨dk', st', -, -, -, -, hr, -⟩ := run_of_setup laws dry hset
  rw [ok_of_setup dry hset hr] at h
  simp only [Except.ok.injEq, Option.some.injEq, Prod.mk.injEq] at h
  obtain ⟨rfl, rfl⟩ := h
  obtain ⟨h1, h2, h3⟩ := shards_ok hs.data hs.parity
  have hl := repairCalls_listed laws hE dry hset hal t verbose hr
  obtain ⟨pos, hp, -⟩ := hs.found
  refine ⟨pos, hp, ?_⟩
  unfold repairJson getRefBlockAligned
  simp only
  rw [hp]
  simp only
  have hv : (blockOf v uid 0 mp).header.version.usesRs = true := hs.rs
  rw [if_pos hv]
  have hdp : dataParBurst ⟨.mustBe .metadata, none, none, none, none, none, false, burst⟩ false f (blockOf v uid 0 mp) = .ok (some d) := by
    unfold dataParBurst
    rw [if_pos hv, getRsd_meta (metas_blockOf v uid mp), getRsp_meta (metas_blockOf v uid mp), hset.data, hset.parity]
    simp only [fieldOrErr, Bool.false_eq_true, if_false, Bool.false_and]
    rw [hset.burst]
  have hbd : d.burst < 2 ^ 40 := burst_lt (by decide) (q := ⟨.mustBe .metadata, none, none, none, none, none, false, burst⟩) hb hdp
  rw [hdp]
  simp only
  rw [totalBlocks_eq, ← hset.total]
  simp only
  rw [hl]
  have hd := refCalls_doc verbose (pos := pos) (by have := ref_pos hp; omega) (blockOf v uid 0 mp)
  have hd2 := hd.append (burstCalls_doc (x := .ok (some d)) fun d' h => by cases h; exact Nat.lt_trans hbd (by decide))
  have hex : examined v d mp f ≤ lastSeqNum := Nat.min_le_left _ _
  have := output_whole (r := .ok (repairStats t v st')) (q := .ok (JsonSpec.repairStats t v st')) he
    (hd2.append (lists_doc (verbose := verbose) (v := v) (d := d)
      (places := ((metaCopies (some true) (some d)).filter fun k => ¬ ValidAt v uid f k).map (· * blockLen v))
      (sets := (List.range (examined v d mp f / (d.data + d.parity))).map (JsonSpec.setOf v uid d f)) h1 h3 hbd (by
        rw [metaAllPos_eq, metaAllIndices_eq, blockLen_eq]
        exact List.Sublist.map _ List.filter_sublist) (by
        intro r hr
        obtain ⟨q, hq, rfl⟩ := List.mem_map.1 hr
        have hq := List.mem_range.1 hq
        refine ⟨by simp [JsonSpec.setOf], ?_⟩
        show q * (d.data + d.parity) + 1 ≤ _
        have h4 := Nat.mul_le_mul_right (d.data + d.parity) (Nat.le_of_lt hq)
        have h5 := Nat.div_mul_le_self (examined v d mp f) (d.data + d.parity)
        omega)))
    (repairStats_doc t v st' (repairWith_fits hr))
  simpa only [List.append_assoc, burstShown, endOf] using this

end listed

end Verif.Report
