import Verif.Lemmas.ReportStats
import Verif.Lemmas.RepairStats
/-!
# What `repair` and `update` list with `--json --verbose`
-/

namespace Verif.Report
open Json JsonSpec Scan Misc Layout

/-! ### `repair`: the calls -/

theorem metaRepairCalls_doc (verbose : Bool) (l : List Nat) (h : ∀ x ∈ l, x < 2 ^ 64) :
    Doc .curly (metaRepairCalls verbose l) (metaRepairsShown verbose l) := by
  unfold metaRepairCalls metaRepairsShown
  cases verbose
  · exact Doc.sect (s := "metadata repairs") (k := "metadataRepairs") (b := .square) (by decide +kernel) (by decide) Doc.nil
  · have := objects_doc (f := fun pos => [.msg false "seq num : 0".toList, fld "pos : " (dec pos)])
      (g := fun pos => [(key "seqNum", numV 0), (key "pos", numV pos)]) l (fun x hx => by
        have := h x hx
        exact (Doc.msg (f := false) (s := "seq num : ".toList) (k := "seqNum") (v := dec 0) (by decide +kernel) (good_dec (by decide))).append (by fields))
    have := Doc.sect (s := "metadata repairs") (k := "metadataRepairs") (by decide +kernel) (by decide) this
    simpa [sectValue, Function.comp_def] using this

theorem missing_members (v : Version) (d : Dpb) (r : SetReport) : ∀ l : List Nat,
    ((l.flatMap fun i => if r.present[i]? = some false then [(([] : List Nat), blockShown v d (r.first + i))] else []).map Prod.snd) =
    (l.filterMap fun i => if r.present[i]? = some false then some (r.first + i) else none).map (blockShown v d)
  | [] => rfl
  | i :: l => by
    rw [List.flatMap_cons, List.map_append, missing_members v d r l, List.filterMap_cons]
    split <;> simp

theorem missingCalls_doc (v : Version) (d : Dpb) (r : SetReport) (h : SetFits v d r) :
    ∃ ms, Doc .square (missingCalls v d r) ms ∧ ms.map Prod.snd = (missingSeqs r).map (blockShown v d) := by
  refine ⟨_, Doc.flatMap (g := fun i => if r.present[i]? = some false then [(([] : List Nat), blockShown v d (r.first + i))] else [])
    (List.range r.present.length) ?_, missing_members v d r _⟩
  intro i hi
  split
  · next hp =>
    have h1 := h.1
    have h2 := List.mem_range.1 hi
    have h3 := h.2 (r.first + i) (List.mem_filterMap.2 ⟨i, hi, by rw [if_pos hp]⟩)
    have h4 : r.first + i < 2 ^ 64 := by omega
    have h5 : dataWriteIndex (r.first + i) none (some d) * v.blockSize < 2 ^ 64 := h3
    have := Doc.elem (b := .curly) (cs := [fld "seq num : " (dec (r.first + i)), fld "pos : " (dec (dataWriteIndex (r.first + i) none (some d) * v.blockSize))])
      (ms := [(key "seqNum", numV (r.first + i)), (key "pos", numV (dataWritePos v (r.first + i) none (some d)))]) (by fields)
    exact this
  · exact Doc.nil

theorem missing_pos (r : SetReport) : 0 < r.missing ↔ missingSeqs r ≠ [] := by
  unfold SetReport.missing missingSeqs
  rw [List.countP_pos_iff]
  constructor
  · rintro ⟨b, hb, h⟩
    obtain ⟨i, hi⟩ := List.mem_iff_getElem?.1 hb
    have hb' : b = false := by simpa using h
    subst hb'
    intro hn
    have : r.first + i ∈ ([] : List Nat) := by
      rw [← hn]
      exact List.mem_filterMap.2 ⟨i, List.mem_range.2 (List.getElem?_eq_some_iff.1 hi).1, by rw [if_pos hi]⟩
    cases this
  · intro h
    obtain ⟨x, hx⟩ := List.exists_mem_of_ne_nil _ h
    obtain ⟨i, -, hi⟩ := List.mem_filterMap.1 hx
    split at hi
    · next hp => exact ⟨false, List.mem_of_getElem? hp, by simp⟩
    · cases hi

theorem setCalls_doc (v : Version) (d : Dpb) (r : SetReport) (h : SetFits v d r) :
    Doc .square (setCalls v d r) (if missingSeqs r ≠ [] then [([], setShown v d r)] else []) := by
  unfold setCalls
  by_cases hm : missingSeqs r ≠ []
  · rw [if_pos ((missing_pos r).2 hm), if_pos hm]
    obtain ⟨ms, h1, h2⟩ := missingCalls_doc v d r h
    have h3 := Doc.sect (s := "blocks") (k := "blocks") (by decide +kernel) (by decide) h1
    have hb := h.1
    have h4 : r.first < 2 ^ 64 := by omega
    have h5 : r.first + r.present.length - 1 < 2 ^ 64 := by omega
    have hs : Good false (if r.success then "true".toList else "false".toList) (.bool r.success) := by
      cases r.success
      · exact ⟨⟨by decide, by decide, by decide, by decide⟩, fun _ => not_odd (by decide), rfl⟩
      · exact ⟨⟨by decide, by decide, by decide, by decide⟩, fun _ => not_odd (by decide), rfl⟩
    have h6 := Doc.msg (f := false) (s := "success : ".toList) (k := "success") (by decide +kernel) hs
    have h7 : Doc .curly [fld "block set start : " (dec r.first), fld "block set end inclusive : " (dec (r.first + r.present.length - 1))]
        [(key "blockSetStart", numV r.first), (key "blockSetEndInclusive", numV (r.first + r.present.length - 1))] := by fields
    have h8 := Doc.elem (h6.append (h7.append h3))
    have e : "success : ".toList ++ (if r.success then "true".toList else "false".toList) =
        if r.success then "success : true".toList else "success : false".toList := by cases r.success <;> rfl
    rw [e] at h8
    have e2 : sectValue .square ms = .arr ((missingSeqs r).map (blockShown v d)) := by unfold sectValue; simp only [h2]
    rw [e2] at h8
    exact h8
  · rw [if_neg (fun h => hm ((missing_pos r).1 h)), if_neg hm]
    exact Doc.nil

theorem dataRepairCalls_doc (verbose : Bool) (v : Version) (d : Dpb) (l : List SetReport) (h : ∀ r ∈ l, SetFits v d r) :
    Doc .curly (dataRepairCalls verbose v d l) (dataRepairsShown verbose v d l) := by
  unfold dataRepairCalls dataRepairsShown
  cases verbose
  · exact Doc.sect (s := "data repairs") (k := "dataRepairs") (b := .square) (by decide +kernel) (by decide) Doc.nil
  · have h1 := Doc.flatMap l fun r hr => setCalls_doc v d r (h r hr)
    have h2 := Doc.sect (s := "data repairs") (k := "dataRepairs") (by decide +kernel) (by decide) h1
    have e : ∀ l : List SetReport, (l.flatMap fun r => if missingSeqs r ≠ [] then [(([] : List Nat), setShown v d r)] else []).map Prod.snd =
        (l.filter fun r => missingSeqs r ≠ []).map (setShown v d) := by
      intro l
      induction l with
      | nil => rfl
      | cons r l ih =>
        rw [List.flatMap_cons, List.map_append, ih, List.filter_cons]
        by_cases hm : missingSeqs r = [] <;> simp [hm]
    unfold sectValue at h2
    simp only [e] at h2
    exact h2

/-! ### `repair`: what is listed -/

theorem metaTrace_sub (ref : Block) (dry : Bool) (stop : Nat → Bool) : ∀ (ps : List Nat) (k : Nat) (s : Repair.MetaSt),
    (metaTrace ref dry stop k ps s).Sublist ps
  | [], _, _ => .slnil
  | p :: ps, k, s => by
    rw [metaTrace]
    split
    · exact List.nil_sublist _
    · split
      · exact List.nil_sublist _
      · next s' _ =>
        have ih := metaTrace_sub ref dry stop ps (k + 1) s'
        split
        · exact ih.cons₂ _
        · exact ih.cons _

theorem metaStep_count {ref : Block} {dry : Bool} {s s' : Repair.MetaSt} {p : Nat} (h : Repair.metaStep ref dry s p = .ok s') :
    s'.stats.metaRepaired = s.stats.metaRepaired ∨ s'.stats.metaRepaired = s.stats.metaRepaired + 1 := by
  unfold Repair.metaStep at h
  dsimp only at h
  repeat' split at h
  all_goals first
    | contradiction
    | (simp only [Except.ok.injEq] at h; subst h; first | exact .inl rfl | exact .inr rfl)

theorem metaStep_zero {ref : Block} {dry : Bool} {s s' : Repair.MetaSt} {p : Nat} (h : Repair.metaStep ref dry s p = .ok s') :
    s'.stats.dataRepaired = s.stats.dataRepaired ∧ s'.stats.repairFailed = s.stats.repairFailed := by
  unfold Repair.metaStep at h
  dsimp only at h
  repeat' split at h
  all_goals first
    | contradiction
    | (simp only [Except.ok.injEq] at h; subst h; exact ⟨rfl, rfl⟩)

theorem meta_zero (ref : Block) (dry : Bool) (stop : Nat → Bool) : ∀ (ps : List Nat) (k : Nat) (s m : Repair.MetaSt),
    Repair.metaLoop ref dry stop k ps s = .ok m →
    m.stats.dataRepaired = s.stats.dataRepaired ∧ m.stats.repairFailed = s.stats.repairFailed
  | [], _, s, m, h => by cases h; exact ⟨rfl, rfl⟩
  | p :: ps, k, s, m, h => by
    rw [Repair.metaLoop] at h
    split at h
    · cases h; exact ⟨rfl, rfl⟩
    · split at h
      · cases h
      · next s' hstep =>
        have h1 := meta_zero ref dry stop ps (k + 1) s' m h
        have h2 := metaStep_zero hstep
        exact ⟨h1.1.trans h2.1, h1.2.trans h2.2⟩

theorem metaTrace_length (ref : Block) (dry : Bool) (stop : Nat → Bool) : ∀ (ps : List Nat) (k : Nat) (s m : Repair.MetaSt),
    Repair.metaLoop ref dry stop k ps s = .ok m → (metaTrace ref dry stop k ps s).length + s.stats.metaRepaired = m.stats.metaRepaired
  | [], _, s, m, h => by
    cases h
    simp [metaTrace]
  | p :: ps, k, s, m, h => by
    rw [Repair.metaLoop] at h
    rw [metaTrace]
    split at h
    · next hs => cases h; rw [if_pos hs]; simp
    · next hs =>
      rw [if_neg hs]
      split at h
      · cases h
      · next s' hstep =>
        simp only [hstep]
        have ih := metaTrace_length ref dry stop ps (k + 1) s' m h
        rcases metaStep_count hstep with e | e
        · rw [if_neg (by omega)]
          simp only [List.nil_append]
          omega
        · rw [if_pos (by omega)]
          simp only [List.singleton_append, List.length_cons]
          omega

theorem resync_present (first : Nat) : ∀ (is : List Nat) (c c' : Repair.Codec), Repair.Codec.resync first is c = .ok c' → c'.present = c.present
  | [], c, c', h => by cases h; rfl
  | i :: is, c, c', h => by
    rw [Repair.Codec.resync] at h
    split at h
    · exact resync_present first is c c' h
    · split at h
      · cases h
      · have := resync_present first is _ c' h
        exact this
    · cases h

theorem repair_present {rs : RsCodec} {v : Version} {d : Dpb} {seq : Nat} {c c' : Repair.Codec} {ok : Bool} {n : Nat} {ws : List (Nat × List Byte)}
    (h : c.repair rs v d seq = .ok (c', ok, n, ws)) : c'.present = c.present ∧ n = c.missing d := by
  unfold Repair.Codec.repair at h
  dsimp only at h
  split at h
  · cases h; exact ⟨rfl, rfl⟩
  · split at h
    · cases h
    · next c1 h1 =>
      have := resync_present _ _ _ _ h1
      cases h
      refine ⟨this, ?_⟩
      unfold Repair.Codec.missing
      rw [this]

theorem mark_facts (ref : Block) (seq : Nat) (bytes : List Byte) (s : Repair.DataSt) :
    (Repair.mark ref seq bytes s).codec.present.length = s.codec.present.length ∧
    (Repair.mark ref seq bytes s).stats.dataRepaired = s.stats.dataRepaired ∧
    (Repair.mark ref seq bytes s).stats.repairFailed = s.stats.repairFailed := by
  unfold Repair.mark
  dsimp only
  split
  · exact ⟨List.length_set, rfl, rfl⟩
  · split
    · exact ⟨List.length_set, rfl, rfl⟩
    · split
      · exact ⟨List.length_set, rfl, rfl⟩
      · refine ⟨List.length_set, ?_, ?_⟩ <;> (dsimp only; split <;> rfl)

theorem dataLoop_metas (rs : RsCodec) (ref : Block) (d : Dpb) (dry : Bool) (total : Nat) (stop : Nat → Bool) :
    ∀ (fuel seq : Nat) (s s' : Repair.DataSt), Repair.dataLoop rs ref d dry total stop fuel seq s = .ok s' →
      s'.stats.metaRepaired = s.stats.metaRepaired := by
  have hmark : ∀ seq bytes s, (Repair.mark ref seq bytes s).stats.metaRepaired = s.stats.metaRepaired := by
    intro seq bytes s
    unfold Repair.mark
    dsimp only
    split
    · rfl
    · split
      · rfl
      · split
        · rfl
        · dsimp only; split <;> rfl
  intro fuel
  induction fuel with
  | zero => intro seq s s' h; cases h; rfl
  | succ fuel ih =>
    intro seq s s' h
    rw [Repair.dataLoop] at h
    split at h
    · cases h; rfl
    · split at h
      · cases h; rfl
      · split at h
        · cases h
        · next s1 hstep =>
          rw [ih _ _ _ h]
          unfold Repair.dataStep at hstep
          dsimp only at hstep
          split at hstep
          · unfold Repair.repairSet at hstep
            split at hstep
            · cases hstep
            · cases hstep
              dsimp only
              split <;> exact hmark _ _ _
          · cases hstep
            exact hmark _ _ _

theorem missing_eq {n : Nat} {l : List Bool} (h : l.length = n) : n - l.countP (· = true) = l.countP (· = false) := by
  have : l.countP (· = true) + l.countP (· = false) = l.length := by
    induction l generalizing n with
    | nil => rfl
    | cons b l ih =>
      have := ih rfl
      cases b <;> simp [List.countP_cons] <;> simp at this <;> omega
  omega

/-- How many blocks were missing in the sets that were repaired, or not. -/
def missingIn (ok : Bool) (l : List SetReport) : Nat := ((l.filter (·.success = ok)).map SetReport.missing).sum

theorem missing_count (first : Nat) : ∀ (l : List Bool) (k : Nat),
    ((List.range l.length).filterMap fun i => if l[i]? = some false then some (first + (k + i)) else none).length = l.countP (· = false) := by
  intro l
  induction l with
  | nil => intro k; rfl
  | cons b l ih =>
    intro k
    rw [List.length_cons, List.range_succ_eq_map, List.filterMap_cons, List.filterMap_map, List.countP_cons]
    have := ih (k + 1)
    have e : ((fun i => if (b :: l)[i]? = some false then some (first + (k + i)) else none) ∘ Nat.succ) =
        fun i => if l[i]? = some false then some (first + (k + 1 + i)) else none := by
      funext i
      simp only [Function.comp, Nat.succ_eq_add_one, List.getElem?_cons_succ]
      congr 2
      omega
    rw [e]
    cases b
    · simpa using this
    · simpa using this

theorem missing_seqs (r : SetReport) : r.missing = (missingSeqs r).length := by
  have := missing_count r.first r.present 0
  simp only [Nat.zero_add] at this
  exact this.symm

theorem missingIn_eq (ok : Bool) (l : List SetReport) : missingIn ok l = missingTotal ok l := by
  unfold missingIn missingTotal
  congr 1
  exact List.map_congr_left fun r _ => missing_seqs r

theorem dataTrace_facts (rs : RsCodec) (ref : Block) (d : Dpb) (dry : Bool) (total : Nat) (stop : Nat → Bool) :
    ∀ (fuel seq : Nat) (s s' : Repair.DataSt), s.codec.present.length = d.data + d.parity →
      Repair.dataLoop rs ref d dry total stop fuel seq s = .ok s' →
      (∀ r ∈ dataTrace rs ref d dry total stop fuel seq s, r.present.length = d.data + d.parity ∧ r.first ≤ seq + fuel) ∧
      missingIn true (dataTrace rs ref d dry total stop fuel seq s) + s.stats.dataRepaired = s'.stats.dataRepaired ∧
      missingIn false (dataTrace rs ref d dry total stop fuel seq s) + s.stats.repairFailed = s'.stats.repairFailed := by
  intro fuel
  induction fuel with
  | zero => intro seq s s' hl h; cases h; simp [dataTrace, missingIn]
  | succ fuel ih =>
    intro seq s s' hl h
    rw [Repair.dataLoop] at h
    rw [dataTrace]
    split at h
    · next hs => cases h; rw [if_pos hs]; simp [missingIn]
    · next hs =>
      rw [if_neg hs]
      split at h
      · next ht => cases h; rw [if_pos ht]; simp [missingIn]
      · next ht =>
        rw [if_neg ht]
        split at h
        · cases h
        · next s1 hstep =>
          simp only [hstep]
          unfold Repair.dataStep at hstep
          dsimp only at hstep
          obtain ⟨m1, m2, m3⟩ := mark_facts ref seq (s.disk.file.readAt (dataWritePos ref.header.version seq none (some d)) ref.header.version.blockSize) s
          generalize Repair.mark ref seq (s.disk.file.readAt (dataWritePos ref.header.version seq none (some d)) ref.header.version.blockSize) s = m at *
          by_cases hi : m.codec.index = d.data + d.parity
          · rw [if_pos hi] at hstep ⊢
            unfold Repair.repairSet at hstep
            split at hstep
            · cases hstep
            · next c ok n ws hrep =>
              obtain ⟨p1, p2⟩ := repair_present hrep
              cases hstep
              simp only [hrep]
              have hl1 : c.present.length = d.data + d.parity := by rw [p1, m1, hl]
              have hn : n = m.codec.present.countP (· = false) := by
                rw [p2]
                exact missing_eq (by rw [m1, hl])
              have hfirst : (seq - 1) / (d.data + d.parity) * (d.data + d.parity) + 1 ≤ seq + (fuel + 1) := by
                have := Nat.div_mul_le_self (seq - 1) (d.data + d.parity)
                omega
              obtain ⟨i1, i2, i3⟩ := ih (seq + 1) _ s' hl1 h
              refine ⟨?_, ?_, ?_⟩
              · intro r hr
                rcases List.mem_append.1 hr with hr | hr
                · rw [List.mem_singleton.1 hr]
                  exact ⟨by rw [m1, hl], hfirst⟩
                · have := i1 r hr
                  exact ⟨this.1, by omega⟩
              · cases ok <;> simp only [missingIn, Bool.false_eq_true, if_false, if_true] at i2 ⊢ <;>
                  simp [SetReport.missing] <;> simp at hn i2 <;> omega
              · cases ok <;> simp only [missingIn, Bool.false_eq_true, if_false, if_true] at i3 ⊢ <;>
                  simp [SetReport.missing] <;> simp at hn i3 <;> omega
          · rw [if_neg hi] at hstep ⊢
            cases hstep
            obtain ⟨i1, i2, i3⟩ := ih (seq + 1) _ s' (by rw [m1, hl]) h
            simp only [List.nil_append]
            exact ⟨fun r hr => ⟨(i1 r hr).1, by have := (i1 r hr).2; omega⟩, by omega, by omega⟩

/-- Places are not too far away. -/
theorem dataPos_bound {v : Version} {d : Dpb} (h0 : 1 ≤ d.data) (h1 : d.data + d.parity ≤ 256) (h2 : d.burst < 2 ^ 40) {s : Nat} (hs : s < 2 ^ 33) :
    dataWritePos v s none (some d) < 2 ^ 64 := by
  have hv : v.blockSize ≤ 4096 := by cases v <;> decide
  obtain ⟨data, parity, burst⟩ := d
  simp only at h0 h1 h2
  have hidx : dataWriteIndex s none (some ⟨data, parity, burst⟩) ≤ 1 + parity + s + (data + parity) * burst := by
    unfold dataWriteIndex
    dsimp only
    split
    · omega
    · generalize hS : (data + parity) * burst = S
      have e1 := Nat.div_add_mod (s - 1) S
      have e2 : (s - 1) % S / (data + parity) * (data + parity) + (s - 1) % S % (data + parity) = (s - 1) % S := by
        rw [Nat.mul_comm]; exact Nat.div_add_mod _ _
      have hnew : (s - 1) % S % (data + parity) * burst + (s - 1) % S / (data + parity) ≤ S + (s - 1) % S := by
        have h3 : (s - 1) % S % (data + parity) * burst ≤ S := by
          rw [← hS]
          exact Nat.mul_le_mul_right _ (Nat.le_of_lt (Nat.mod_lt _ (by omega)))
        have h4 := Nat.div_le_self ((s - 1) % S) (data + parity)
        omega
      split
      · split <;> omega
      · omega
  have h3 : (data + parity) * burst ≤ 256 * 2 ^ 40 := Nat.mul_le_mul h1 (Nat.le_of_lt h2)
  have h4 : dataWriteIndex s none (some ⟨data, parity, burst⟩) * v.blockSize ≤ (1 + parity + s + (data + parity) * burst) * 4096 := Nat.mul_le_mul hidx hv
  unfold dataWritePos
  generalize (data + parity) * burst = S at *
  omega

/-- Metadata places are not too far away. -/
theorem metaPos_bound {v : Version} {d : Dpb} (h1 : d.data + d.parity ≤ 256) (h2 : d.burst < 2 ^ 40) {p : Nat} (hp : p ∈ metaAllPos v (some d)) :
    p < 2 ^ 64 := by
  have hv : v.blockSize ≤ 4096 := by cases v <;> decide
  rw [metaAllPos_eq, metaAllIndices_eq] at hp
  obtain ⟨k, hk, rfl⟩ := List.mem_map.1 hp
  unfold LayoutSpec.metaCopies at hk
  obtain ⟨j, hj, rfl⟩ := List.mem_map.1 hk
  have hj := List.mem_range.1 hj
  have h3 : j * (1 + d.burst) ≤ 256 * 2 ^ 40 := Nat.mul_le_mul (by omega) (by omega)
  have h4 : j * (1 + d.burst) * v.blockSize ≤ 256 * 2 ^ 40 * 4096 := Nat.mul_le_mul h3 hv
  have h5 : 256 * 2 ^ 40 * 4096 < 2 ^ 64 := by decide
  exact Nat.lt_of_le_of_lt h4 h5

/-- All counters together. -/
def sumOf (s : Repair.Stats) : Nat := s.metaDecoded + s.dataDecoded + s.failed + s.metaRepaired + s.dataRepaired + s.repairFailed

theorem metaStep_sum {ref : Block} {dry : Bool} {s s' : Repair.MetaSt} {p : Nat} (h : Repair.metaStep ref dry s p = .ok s') :
    sumOf s'.stats ≤ sumOf s.stats + 2 := by
  unfold Repair.metaStep at h
  dsimp only at h
  repeat' split at h
  all_goals first
    | contradiction
    | (simp only [Except.ok.injEq] at h; subst h; simp only [sumOf]; omega)

theorem metaLoop_sum (ref : Block) (dry : Bool) (stop : Nat → Bool) : ∀ (ps : List Nat) (k : Nat) (s s' : Repair.MetaSt),
    Repair.metaLoop ref dry stop k ps s = .ok s' → sumOf s'.stats ≤ sumOf s.stats + 2 * ps.length
  | [], k, s, s', h => by cases h; simp
  | p :: ps, k, s, s', h => by
    rw [Repair.metaLoop] at h
    split at h
    · cases h; omega
    · split at h
      · cases h
      · next s1 h1 =>
        have h2 := metaStep_sum h1
        have h3 := metaLoop_sum ref dry stop ps _ _ _ h
        rw [List.length_cons]
        omega

theorem mark_sum (ref : Block) (seq : Nat) (bytes : List Byte) (s : Repair.DataSt) : sumOf (Repair.mark ref seq bytes s).stats ≤ sumOf s.stats + 1 := by
  unfold Repair.mark
  dsimp only
  split
  · simp only [sumOf]; omega
  · split
    · simp only [sumOf]; omega
    · split
      · simp only [sumOf]; omega
      · dsimp only; split <;> simp only [sumOf] <;> omega

theorem dataLoop_sum (rs : RsCodec) (ref : Block) (d : Dpb) (dry : Bool) (total : Nat) (stop : Nat → Bool) :
    ∀ (fuel seq : Nat) (s s' : Repair.DataSt), Repair.dataLoop rs ref d dry total stop fuel seq s = .ok s' →
      sumOf s'.stats ≤ sumOf s.stats + fuel * (1 + d.data + d.parity) := by
  intro fuel
  induction fuel with
  | zero => intro seq s s' h; cases h; omega
  | succ fuel ih =>
    intro seq s s' h
    rw [Repair.dataLoop] at h
    rw [Nat.succ_mul]
    split at h
    · cases h; omega
    · split at h
      · cases h; omega
      · split at h
        · cases h
        · next s1 hstep =>
          have h1 := ih _ _ _ h
          unfold Repair.dataStep at hstep
          dsimp only at hstep
          have h2 := mark_sum ref seq (s.disk.file.readAt (dataWritePos ref.header.version seq none (some d)) ref.header.version.blockSize) s
          generalize Repair.mark ref seq (s.disk.file.readAt (dataWritePos ref.header.version seq none (some d)) ref.header.version.blockSize) s = m at *
          split at hstep
          · unfold Repair.repairSet at hstep
            split at hstep
            · cases hstep
            · next c ok n ws hrep =>
              obtain ⟨p1, p2⟩ := repair_present hrep
              cases hstep
              have h3 : n ≤ d.data + d.parity := by
                rw [p2]; exact Nat.sub_le _ _
              dsimp only at h1
              cases ok <;> simp only [sumOf, if_true, if_false, Bool.false_eq_true] at h1 h2 ⊢ <;> omega
          · cases hstep
            omega

/-- All counters fit into 64 bits. -/
theorem repairWith_fits {E : Repair.Env} {dry : Bool} {ref : Block} {d : Dpb} {total : Nat} {f : File} {dk : Disk}
    {st : Repair.Stats} (h : Repair.repairWith E dry ref d total f = .ok (dk, st)) : RepairFits st := by
  unfold Repair.repairWith at h
  split at h
  · cases h
  · next codec hc =>
    split at h
    · cases h
    · split at h
      · cases h
      · next m hm =>
        split at h
        · cases h
        · next s hs =>
          cases h
          have h1 := metaLoop_sum _ _ _ _ _ _ _ hm
          have h2 := dataLoop_sum _ _ _ _ _ _ _ _ _ _ hs
          have h3 : (metaAllPos ref.header.version (some d)).length = 1 + d.parity := by
            rw [metaAllPos_eq, metaAllIndices_eq, List.length_map]; unfold LayoutSpec.metaCopies; simp
          have h4 : d.data + d.parity ≤ 256 := by
            unfold Repair.Codec.new at hc
            split at hc
            · cases hc
            · omega
          rw [h3] at h1
          have h5 : sumOf Repair.Stats.zero = 0 := rfl
          have h6 : lastSeqNum * (1 + d.data + d.parity) ≤ lastSeqNum * 257 := Nat.mul_le_mul_left _ (by omega)
          have h7 : lastSeqNum * 257 < 2 ^ 63 := by decide
          show sumOf _ < 2 ^ 64
          dsimp only at h1 h2
          omega

/-- What is known about the lists of a run that gets to its end. -/
theorem repairCalls_spec {t : Int} {verbose : Bool} {E : Repair.Env} {dry : Bool} {ref : Block} {d : Dpb} {total : Nat} {f : File} {dk : Disk}
    {st : Repair.Stats} (h : Repair.repairWith E dry ref d total f = .ok (dk, st)) :
    1 ≤ d.data ∧ d.data + d.parity ≤ 256 ∧ ∃ places sets,
      repairCalls t verbose E dry ref d total f =
        .ok (metaRepairCalls verbose places ++ dataRepairCalls verbose ref.header.version d sets, repairStats t ref.header.version st) ∧
      places.Sublist (metaAllPos ref.header.version (some d)) ∧ places.length = st.metaRepaired ∧
      (∀ r ∈ sets, r.present.length = d.data + d.parity ∧ r.first ≤ 1 + lastSeqNum) ∧
      missingIn true sets = st.dataRepaired ∧ missingIn false sets = st.repairFailed := by
  unfold Repair.repairWith at h
  unfold repairCalls
  split at h
  · cases h
  · next codec hc =>
    have hd : 1 ≤ d.data ∧ d.data + d.parity ≤ 256 ∧ codec.present.length = d.data + d.parity := by
      unfold Repair.Codec.new at hc
      split at hc
      · cases hc
      · cases hc
        exact ⟨by omega, by omega, by simp⟩
    refine ⟨hd.1, hd.2.1, ?_⟩
    split at h
    · cases h
    · next ref' buffer hsync =>
      split at h
      · cases h
      · next m hm =>
        split at h
        · cases h
        · next s hs =>
          cases h
          simp only [hc, hsync, hm, hs]
          have h1 := metaTrace_length _ _ _ _ _ _ _ hm
          have h2 := dataLoop_metas _ _ _ _ _ _ _ _ _ _ hs
          obtain ⟨h3, h4, h5⟩ := dataTrace_facts _ _ _ _ _ _ _ _ _ _ hd.2.2 hs
          have h6 := meta_zero _ _ _ _ _ _ _ hm
          refine ⟨_, _, rfl, metaTrace_sub _ _ _ _ _ _, ?_, h3, ?_, ?_⟩
          · rw [h2, ← h1]; rfl
          · simp only [h6.1] at h4
            rw [← h4]; rfl
          · simp only [h6.2] at h5
            rw [← h5]; rfl

theorem repairCalls_error {t : Int} {verbose : Bool} {E : Repair.Env} {dry : Bool} {ref : Block} {d : Dpb} {total : Nat} {f : File}
    {e : Err} (h : Repair.repairWith E dry ref d total f = .error e) : repairCalls t verbose E dry ref d total f = .error e := by
  unfold Repair.repairWith at h
  unfold repairCalls
  split at h
  · next hc => cases h; simp only [hc]
  · next hc =>
    split at h
    · next hy => cases h; simp only [hc, hy]
    · next hy =>
      split at h
      · next hm => cases h; simp only [hc, hy, hm]
      · next m hm =>
        split at h
        · next hs => cases h; simp only [hc, hy, hm, hs]
        · cases h

/-! ### `repair`: what the lists mean -/

section meaning
open Format RepairSpec Repair
open Classical

/-- The bad places of the metadata, in order; writes made before do not matter. -/
theorem metaTrace_spec {ref : Block} {ms : List Metadata} {mp : List Byte}
    (hm : metasToBytes ms (blockLen ref.header.version - 16) = some mp) (hmp : mp.length = blockLen ref.header.version - 16)
    (dry : Bool) (stop : Nat → Bool) (hstop : ∀ k, stop k = false) (f : File) (hf : blockLen ref.header.version ∣ f.length) :
    ∀ (ks : List Nat) (i : Nat) (s : MetaSt) (ws : List (Nat × List Byte)), ks.Nodup → s.disk = ⟨f, ws⟩ →
      (∀ k ∈ ks, Spares ref.header.version k ws) →
      RefOk ref.header.version ref.header.uid ms s.ref → s.buffer.length = 4096 →
      metaTrace ref dry stop i (ks.map (· * ref.header.version.blockSize)) s =
        (ks.filter fun k => ¬ ValidAt ref.header.version ref.header.uid f k).map (· * ref.header.version.blockSize) := by
  intro ks
  induction ks with
  | nil => intro i s ws _ _ _ _ _; rfl
  | cons k ks ih =>
    intro i s ws hnd hdk hsp hr hl
    rw [List.map_cons, metaTrace, hstop, if_neg (by simp)]
    obtain ⟨s1, e1, e2, e3, e4⟩ := metaStep_spec hm hmp dry s k hr hl
    simp only [e1]
    have hnd := List.nodup_cons.1 hnd
    have hk := hsp k (by simp)
    have hiff : ValidAt ref.header.version ref.header.uid s.disk.file k ↔ ValidAt ref.header.version ref.header.uid f k := by
      have hfile : s.disk.file = f.writes ws := by rw [hdk]; rfl
      rw [hfile]
      constructor
      · rintro ⟨sq, p, hb⟩
        have := (seen hk f).2 hb
        rw [fill_aligned hf] at this
        exact ⟨sq, p, this⟩
      · rintro ⟨sq, p, hb⟩
        exact ⟨sq, p, (seen hk f).1 hb⟩
    unfold metaOne at e4
    by_cases hv : ValidAt ref.header.version ref.header.uid f k
    · rw [if_pos (hiff.2 hv)] at e4
      simp only [Prod.mk.injEq] at e4
      rw [if_neg (by rw [e4.2]; simp), List.nil_append, List.filter_cons_of_neg (by simp [hv])]
      exact ih (i + 1) s1 ws hnd.2 (by rw [e4.1, hdk]) (fun k hk => hsp k (by simp [hk])) e2 e3
    · rw [if_neg (fun h => hv (hiff.1 h))] at e4
      simp only [Prod.mk.injEq] at e4
      rw [if_pos (by rw [e4.2]; simp), List.singleton_append, List.filter_cons_of_pos (by simp [hv]), List.map_cons]
      congr 1
      cases dry with
      | true => exact ih (i + 1) s1 ws hnd.2 (by rw [e4.1, if_pos rfl, hdk]) (fun k hk => hsp k (by simp [hk])) e2 e3
      | false =>
        refine ih (i + 1) s1 (ws ++ [(k * blockLen ref.header.version, blockBytes ref.header.version ref.header.uid.bytes 0 mp)]) hnd.2
          (by rw [e4.1, hdk]; rfl) ?_ e2 e3
        intro j hj w hw
        rcases List.mem_append.1 hw with hw | hw
        · exact hsp j (by simp [hj]) w hw
        · rw [List.mem_singleton.1 hw]
          refine ⟨?_, k, fun e => hnd.1 (e ▸ hj), rfl⟩
          have := h16 ref.header.version
          rw [blockBytes_length, hmp]
          omega

/-- What is looked at later is as it was before the data loop. -/
theorem Run.later {rs : RsCodec} {v : Version} {uid : Uid} {d : Dpb} (hd : 1 ≤ d.data) {mb : List Byte} (hmb : mb.length = blockLen v)
    {dry : Bool} {f : File} (hf : blockLen v ∣ f.length) {ws0 : List (Nat × List Byte)} {st0 : Stats}
    (h0 : ∀ w ∈ ws0, ∃ k ∈ LayoutSpec.metaCopies (some true) (some d), ¬ ValidAt v uid f k ∧ w = (k * blockLen v, mb))
    {m : Nat} {dk : Disk} {st : Stats} (hr : Run rs v uid d dry ⟨f, ws0⟩ st0 m dk st) (s : Nat)
    (hs : m / (d.data + d.parity) * (d.data + d.parity) < s) : Present v uid d dk.file s ↔ Present v uid d f s := by
  obtain ⟨ws, h1, h2, h3⟩ := hr.ops hd hmb h0
  have hsp := OpOk.spares hd hmb hs h3
  have hfile : dk.file = f.writes (ws0 ++ ws) := by rw [h1]; rfl
  unfold Present
  rw [hfile]
  constructor
  · rintro ⟨p, hb⟩
    have := (seen hsp f).2 hb
    rw [fill_aligned hf] at this
    exact ⟨p, this⟩
  · rintro ⟨p, hb⟩
    exact ⟨p, (seen hsp f).1 hb⟩

theorem flags_eq {v : Version} {uid : Uid} {d : Dpb} {g : File} {t : Nat} {c : Codec}
    (h : Loaded v uid d g t (d.data + d.parity) c) :
    c.present = (List.range (d.data + d.parity)).map fun j => decide (Present v uid d g (t * (d.data + d.parity) + j + 1)) := by
  apply List.ext_getElem?
  intro j
  by_cases hj : j < d.data + d.parity
  · rw [h.flag j hj, List.getElem?_map, List.getElem?_range hj]; rfl
  · rw [List.getElem?_eq_none (by rw [h.flags]; omega), List.getElem?_eq_none (by simp; omega)]

/-- The reports on sets: one for each set completed. -/
theorem dataTrace_spec {rs : RsCodec} (laws : rs.Laws) {ref : Block} {d : Dpb} (h1 : 1 ≤ d.data) (h2 : 1 ≤ d.parity)
    (h3 : d.data + d.parity ≤ 256) {mb : List Byte} (hmb : mb.length = blockLen ref.header.version) (dry : Bool) (total : Nat) (stop : Nat → Bool)
    {f : File} (hf : blockLen ref.header.version ∣ f.length) {ws0 : List (Nat × List Byte)} {st0 : Stats}
    (h0 : ∀ w ∈ ws0, ∃ k ∈ LayoutSpec.metaCopies (some true) (some d), ¬ ValidAt ref.header.version ref.header.uid f k ∧
      w = (k * blockLen ref.header.version, mb)) :
    ∀ (fuel m : Nat) (s : DataSt), m + fuel < 2 ^ 32 → Run rs ref.header.version ref.header.uid d dry ⟨f, ws0⟩ st0 m s.disk s.stats →
      Loaded ref.header.version ref.header.uid d s.disk.file (m / (d.data + d.parity)) (m % (d.data + d.parity)) s.codec →
      ∃ m', m ≤ m' ∧
        (m' = m + fuel ∨ stop (m' + 1) = true ∨ total ≤ st0.blocks + m') ∧ (m' = m ∨ st0.blocks + m' ≤ total) ∧ m' ≤ m + fuel ∧
        dataTrace rs ref d dry total stop fuel (m + 1) s =
          ((List.range (m' / (d.data + d.parity))).drop (m / (d.data + d.parity))).map (setOf ref.header.version ref.header.uid d f) := by
  intro fuel
  induction fuel with
  | zero => intro m s _ hr hl; exact ⟨m, Nat.le_refl m, .inl rfl, .inl rfl, by omega, by simp [dataTrace]⟩
  | succ fuel ih =>
    intro m s hm hr hl
    have hn : 0 < d.data + d.parity := by omega
    have stay : ∀ x : List SetReport, x = [] →
        x = ((List.range (m / (d.data + d.parity))).drop (m / (d.data + d.parity))).map (setOf ref.header.version ref.header.uid d f) := by
      rintro _ rfl; simp
    rw [dataTrace]
    by_cases hs : stop (m + 1) = true
    · rw [if_pos hs]
      exact ⟨m, Nat.le_refl m, .inr (.inl hs), .inl rfl, by omega, stay _ rfl⟩
    · rw [if_neg hs]
      by_cases ht : total ≤ s.stats.blocks
      · rw [if_pos ht]
        rw [hr.blocks] at ht
        exact ⟨m, Nat.le_refl m, .inr (.inr ht), .inl rfl, by omega, stay _ rfl⟩
      · rw [if_neg ht]
        rw [hr.blocks] at ht
        have hdm : m / (d.data + d.parity) * (d.data + d.parity) + m % (d.data + d.parity) = m := by
          rw [Nat.mul_comm]; exact Nat.div_add_mod _ _
        have hlt : m % (d.data + d.parity) < d.data + d.parity := Nat.mod_lt _ hn
        have hload := hl.read hlt
        rw [hdm] at hload
        unfold dataStep
        simp only
        rw [dataPos_eq]
        obtain ⟨b, hb⟩ := mark_eq ref d (m + 1) (by omega) (by omega) s.disk.file s
        rw [hb]
        simp only
        rw [hload.index]
        by_cases hfull : m % (d.data + d.parity) + 1 = d.data + d.parity
        · rw [if_pos hfull]
          have hm1 : m + 1 = (m / (d.data + d.parity) + 1) * (d.data + d.parity) := by rw [Nat.succ_mul]; omega
          rw [hfull] at hload
          obtain ⟨c', ok, ws, r1, r2, r3⟩ := repair_spec laws h1 h2 h3 hload (by omega)
          unfold repairSet
          simp only
          rw [← hm1] at r1
          rw [r1]
          simp only [if_true]
          have hz : (m + 1) % (d.data + d.parity) = 0 := by rw [hm1, Nat.mul_mod_left]
          have hq : (m + 1) / (d.data + d.parity) = m / (d.data + d.parity) + 1 := by rw [hm1, Nat.mul_div_cancel _ hn]
          have hfold : ws.foldl (fun (dk : Disk) w => dk.writeAt w.1 w.2) s.disk = s.disk.writes ws := by
            have := Disk.foldl_writeAt id ws s.disk
            simpa using this
          rw [hfold]
          obtain ⟨m', i1, i2, i3, i4, i5⟩ := ih (m + 1) ⟨_, c', b, _⟩ (by omega) (.set _ _ _ _ ok ws hr hm1 r2) (by rw [hz]; exact r3 _ _)
          refine ⟨m', by omega, ?_, ?_, by omega, ?_⟩
          · rcases i2 with e | e | e
            · exact .inl (by omega)
            · exact .inr (.inl e)
            · exact .inr (.inr e)
          · rcases i3 with e | e
            · exact .inr (by omega)
            · exact .inr e
          · refine (congrArg (_ ++ ·) i5).trans ?_
            have hlt' : m / (d.data + d.parity) < m' / (d.data + d.parity) := by
              have := Nat.div_le_div_right (c := d.data + d.parity) i1
              omega
            rw [hq, List.drop_eq_getElem_cons (i := m / (d.data + d.parity)) (by simpa using hlt'), List.map_cons, List.getElem_range,
              if_pos hfull, List.singleton_append]
            congr 1
            unfold JsonSpec.setOf
            have hse : ∀ j, Present ref.header.version ref.header.uid d s.disk.file (m / (d.data + d.parity) * (d.data + d.parity) + j + 1) ↔
                Present ref.header.version ref.header.uid d f (m / (d.data + d.parity) * (d.data + d.parity) + j + 1) :=
              fun j => Run.later h1 hmb hf h0 hr _ (by omega)
            congr 1
            · have hpin : presentIn ref.header.version ref.header.uid d s.disk.file (m / (d.data + d.parity)) =
                  presentIn ref.header.version ref.header.uid d f (m / (d.data + d.parity)) := by
                unfold presentIn
                apply List.countP_congr
                intro j _
                simp only [decide_eq_true_eq]
                exact hse j
              have := r2.1
              rw [hpin] at this
              rw [Bool.eq_iff_iff, this, decide_eq_true_eq]
            · rw [flags_eq hload]
              apply List.map_congr_left
              intro j _
              rw [decide_eq_decide]
              exact hse j
        · rw [if_neg hfull]
          simp only [if_neg hfull]
          have hz : (m + 1) / (d.data + d.parity) = m / (d.data + d.parity) ∧
              (m + 1) % (d.data + d.parity) = m % (d.data + d.parity) + 1 := by
            have e : m + 1 = m / (d.data + d.parity) * (d.data + d.parity) + (m % (d.data + d.parity) + 1) := by omega
            have := divmod_eq (m := d.data + d.parity) (q := m / (d.data + d.parity)) (r := m % (d.data + d.parity) + 1) (by omega)
            rw [← e] at this
            exact this
          obtain ⟨m', i1, i2, i3, i4, i5⟩ := ih (m + 1) ⟨_, _, b, _⟩ (by omega) (.read _ _ _ hr (by rw [hz.2]; omega)) (by rw [hz.1, hz.2]; exact hload)
          refine ⟨m', by omega, ?_, ?_, by omega, ?_⟩
          · rcases i2 with e | e | e
            · exact .inl (by omega)
            · exact .inr (.inl e)
            · exact .inr (.inr e)
          · rcases i3 with e | e
            · exact .inr (by omega)
            · exact .inr e
          · rw [hz.1] at i5
            exact i5

end meaning

end Verif.Report
