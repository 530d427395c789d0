import Verif.Lemmas.ReportStats
/-!
# C60: with `--json`, each command prints one JSON object with its counters and the error
-/

namespace Verif.Report
open Json JsonSpec Scan Misc Layout ScanSpec Format

/-! ### Bounds -/

theorem ref_pos {f : File} {fromPos : Option Nat} {toPos : Option RangeEnd} {mis : Bool} {choice : RefChoice} {stop : Nat → Bool} {pos : Nat} {ref : Block}
    (h : getRefBlock f fromPos toPos mis choice stop = some (pos, ref)) : pos < f.length := by
  obtain ⟨v, uid, seq, payload, h7, -⟩ := (C34_interrupted f _ _ _ _ _ _ rfl).2 pos ref h
  have h8 := isBlock_length h7
  have h9 := size_ge v
  rw [← blockLen_eq] at h9
  simp only [File.readAt, List.length_take, List.length_drop] at h8
  omega

theorem ref_posM {q : RefParam} {choice : RefChoice} {f : File} {stop : Nat → Bool} {b : Bool} {pos : Nat} {ref : Block}
    (h : getRefBlockM q choice f stop b = .ok (pos, ref)) : pos < f.length := by
  unfold getRefBlockM at h
  split at h
  · split at h <;> cases h
  · rename_i x hx
    cases h
    exact ref_pos hx

theorem ref_posA {q : RefParam} {choice : RefChoice} {f : File} {stop : Nat → Bool} {b : Bool} {pos : Nat} {ref : Block}
    (h : getRefBlockAligned q choice f stop b = .ok (pos, ref)) : pos < f.length := by
  unfold getRefBlockAligned at h
  split at h
  · split at h <;> cases h
  · rename_i x hx
    cases h
    exact ref_pos hx

theorem burst_lt {q : RefParam} {n : Nat} (hn : 2000 < n) (hb : ∀ b, q.burst = some b → b < n) {offset : Bool} {f : File} {ref : Block} {d : Dpb}
    (h : dataParBurst q offset f ref = .ok (some d)) : d.burst < n := by
  have hg : ∀ {x : Option GuessFrom} {m : Bool} {b : Nat}, burstOrGuess q.burst x m f ref = .ok b → b < n := by
    intro x m b h
    unfold burstOrGuess at h
    split at h
    · rename_i b hq
      cases h
      exact hb _ hq
    · split at h
      · split at h
        · cases h
        · cases hg : guessBurst f x m ref with
          | error e => rw [hg] at h; cases h
          | ok y =>
            cases y with
            | none => rw [hg] at h; cases h
            | some l =>
              rw [hg] at h
              cases h
              obtain ⟨_, _, _, _, _, h1, _⟩ := C36_best _ _ _ _ _ hg
              exact Nat.lt_of_le_of_lt h1 (Nat.lt_trans (by decide) hn)
      · cases h
        omega
  unfold dataParBurst at h
  split at h
  · split at h
    · cases h
    · split at h
      · cases h
      · split at h
        · cases h
        · rename_i hburst
          cases h
          exact hg hburst
  · cases h

theorem burst_bound {q : RefParam} (hb : ∀ b, q.burst = some b → b < 2 ^ 64) {offset : Bool} {f : File} {ref : Block} {d : Dpb}
    (h : dataParBurst q offset f ref = .ok (some d)) : d.burst < 2 ^ 64 := burst_lt (by decide) hb h

theorem burst_doc {q : RefParam} (hb : ∀ b, q.burst = some b → b < 2 ^ 64) (offset : Bool) (f : File) (ref : Block) :
    Doc .curly (burstCalls (dataParBurst q offset f ref)) (burstShown (dataParBurst q offset f ref)) :=
  burstCalls_doc fun _ h => burst_bound hb h

theorem preface_nil : Preface [] := by simp [Preface]

theorem preface_ref (verbose : Bool) (pos : Nat) (ref : Block) : Preface (refShown verbose pos ref) := by
  cases verbose
  · exact preface_nil
  · intro m hm
    rw [List.mem_singleton.1 hm]
    exact .inl rfl

theorem preface_burst (x : Except Err (Option Dpb)) : Preface (burstShown x) := by
  match x with
  | .ok (some d) =>
    intro m hm
    rw [List.mem_singleton.1 hm]
    exact .inr rfl
  | .ok none => exact preface_nil
  | .error _ => exact preface_nil

theorem preface_append {a b : Members} (ha : Preface a) (hb : Preface b) : Preface (a ++ b) := by
  intro m hm
  rcases List.mem_append.1 hm with h | h
  · exact ha m h
  · exact hb m h

/-! ### `check` -/

theorem listed_bound {E : Check.Env} {p : Check.Param} {f : File} {r : Check.Report} (h : Check.checkFile E p f = .ok r) {st : Check.Stats}
    (hst : r.blocks = some st) : st.blocks ≤ f.length ∧ ∀ x ∈ st.listed.reverse, x ≤ f.length := by
  have hp : ∀ (ref : Block) (start req m : Nat), m ≤ DecodeSpec.places ref f start req → m ≤ (f.length - start) / blockLen ref.header.version :=
    fun ref start req m hm => Nat.le_trans hm (Nat.min_le_right _ _)
  constructor
  · obtain ⟨pos, ref, m, -, h1, -, -, -, -, -, h2⟩ := Check.C38_check E p f r h st hst
    have h3 := hp _ _ _ _ h1
    have h4 := Nat.div_le_self (f.length - (Check.rangeOf p.ref ref f).seekTo) (blockLen ref.header.version)
    unfold Check.Stats.blocks
    omega
  · obtain ⟨pos, ref, m, -, h1, -, h2⟩ := Check.C48_listed_partial E p f r h st hst
    have h3 := hp _ _ _ _ h1
    rw [h2]
    intro x hx
    split at hx
    · obtain ⟨k, hk, rfl⟩ := List.mem_map.1 hx
      have hk := List.mem_range.1 (List.mem_filter.1 hk).1
      have h4 : k * blockLen ref.header.version ≤ (f.length - (Check.rangeOf p.ref ref f).seekTo) / blockLen ref.header.version * blockLen ref.header.version :=
        Nat.mul_le_mul_right _ (by omega)
      have h5 := Nat.div_mul_le_self (f.length - (Check.rangeOf p.ref ref f).seekTo) (blockLen ref.header.version)
      omega
    · cases hx

/-- What is shown before the statistics of `check`. -/
def checkPreface (p : Check.Param) (f : File) (pos : Nat) (ref : Block) (r : Check.Report) : Members :=
  refShown p.verbose pos ref ++
  (match r.blocks with | some s => given p.verbose (failedShown s.listed.reverse) | none => []) ++
  (match r.hash with | some _ => burstShown (dataParBurst p.ref true f ref) | none => [])

/-- **C60, `check`.** If error messages are plain text, the output of `check --json` is one JSON object, whatever the file contains, whatever
the options are and whenever the run is interrupted.  If `check` succeeds the object has the counters and hashes of the run under `stats`, and
`error` is null.  If it fails there are no statistics, and `error` is the message. -/
theorem C60_check_partial (errText : Err → Str) (he : PlainErrors errText) (tc th : Int) (E : Check.Env) (p : Check.Param) (f : File)
    (hf : f.length < 2 ^ 63) (hb : ∀ b, p.ref.burst = some b → b < 2 ^ 64) :
    (∀ r, Check.checkFile E p f = .ok r →
      ∃ pos ref, getRefBlockM p.ref p.ref.refChoice f E.stopRef (E.stopCheck 0) = .ok (pos, ref) ∧
        (checkJson errText tc th E p f).bind parse =
          whole errText (checkPreface p f pos ref r) (.ok (JsonSpec.checkStats errText tc th ref.header.version r.blocks r.hash))) ∧
    (∀ e, Check.checkFile E p f = .error e → ∃ before, Preface before ∧ (checkJson errText tc th E p f).bind parse = whole errText before (.error e)) := by
  cases hfound : getRefBlockM p.ref p.ref.refChoice f E.stopRef (E.stopCheck 0) with
  | error e' =>
    have hc : Check.checkFile E p f = .error e' := by unfold Check.checkFile; rw [hfound]
    rw [hc]
    refine ⟨fun r h => (by cases h), fun e h => ⟨[], preface_nil, ?_⟩⟩
    cases h
    unfold checkJson
    simp only [hfound, hc]
    exact output_whole he Doc.nil rfl
  | ok x =>
    obtain ⟨pos, ref⟩ := x
    have hpos := ref_posM hfound
    have hd := refCalls_doc p.verbose (pos := pos) (by omega) ref
    constructor
    · intro r hr
      refine ⟨pos, ref, rfl, ?_⟩
      unfold checkJson
      simp only [hfound, hr]
      have hbl : ∀ s, r.blocks = some s → s.blocks ≤ f.length ∧ ∀ x ∈ s.listed.reverse, x ≤ f.length := fun s hs => listed_bound hr hs
      refine output_whole (r := .ok (checkStats errText tc th ref.header.version r)) he ?_
        (checkStats_doc he tc th _ r fun s hs => by have := (hbl s hs).1; omega)
      unfold checkBefore checkPreface
      rw [List.append_assoc (refShown _ _ _)]
      refine Doc.append hd (Doc.append ?_ ?_)
      · cases hs : r.blocks with
        | some s => exact Doc.given fun _ => failedCalls_doc _ fun x hx => by have := (hbl s hs).2 x hx; omega
        | none => exact Doc.nil
      · cases r.hash with
        | some _ => exact burst_doc hb true f ref
        | none => exact Doc.nil
    · intro e hr
      refine ⟨_, preface_ref p.verbose pos ref, ?_⟩
      unfold checkJson
      simp only [hfound, hr]
      exact output_whole he hd rfl

/-! ### `decode` -/

/-- **C60, `decode`.** -/
theorem C60_decode_partial (errText : Err → Str) (he : PlainErrors errText) (td th : Int) (verbose : Bool) (E : Decode.Env) (p : Decode.Param)
    (f old : File) (hf : f.length < 2 ^ 63) (hb : ∀ b, p.ref.burst = some b → b < 2 ^ 64) :
    (∀ out r, Decode.toFile E p f old = .ok (out, r) → DecodeFits f.length r →
      ∃ pos ref, getRefBlockM p.ref p.ref.refChoice f E.stopRef (E.stop 0) = .ok (pos, ref) ∧
        (decodeJson errText td th verbose false E p f old).bind parse =
          whole errText (refShown verbose pos ref ++ burstShown (dataParBurst p.ref true f ref))
            (.ok (JsonSpec.decodeStats td th ref.header.uid ref.header.version false f.length r))) ∧
    (∀ out r, Decode.toStdout E p f = .ok (out, r) → DecodeFits f.length r →
      ∃ pos ref, getRefBlockM p.ref p.ref.refChoice f E.stopRef (E.stop 0) = .ok (pos, ref) ∧
        (decodeJson errText td th verbose true E p f old).bind parse =
          whole errText (refShown verbose pos ref ++ burstShown (dataParBurst p.ref true f ref))
            (.ok (JsonSpec.decodeStats td th ref.header.uid ref.header.version true f.length r))) ∧
    (∀ e, Decode.toFile E p f old = .error e →
      ∃ before, Preface before ∧ (decodeJson errText td th verbose false E p f old).bind parse = whole errText before (.error e)) ∧
    (∀ e, Decode.toStdout E p f = .error e →
      ∃ before, Preface before ∧ (decodeJson errText td th verbose true E p f old).bind parse = whole errText before (.error e)) := by
  cases hfound : getRefBlockM p.ref p.ref.refChoice f E.stopRef (E.stop 0) with
  | error e' =>
    have h1 : Decode.toFile E p f old = .error e' := by unfold Decode.toFile; rw [hfound]
    have h2 : Decode.toStdout E p f = .error e' := by unfold Decode.toStdout; rw [hfound]
    rw [h1, h2]
    refine ⟨fun _ _ h => (by cases h), fun _ _ h => (by cases h), fun e h => ⟨[], preface_nil, ?_⟩, fun e h => ⟨[], preface_nil, ?_⟩⟩
    all_goals
      cases h
      unfold decodeJson
      simp only [hfound]
      exact output_whole he Doc.nil rfl
  | ok x =>
    obtain ⟨pos, ref⟩ := x
    have hpos := ref_posM hfound
    have hd := (refCalls_doc verbose (pos := pos) (by omega) ref).append (burst_doc hb true f ref)
    have hpre := preface_append (preface_ref verbose pos ref) (preface_burst (dataParBurst p.ref true f ref))
    refine ⟨fun out r hr hfit => ⟨pos, ref, rfl, ?_⟩, fun out r hr hfit => ⟨pos, ref, rfl, ?_⟩, fun e hr => ⟨_, hpre, ?_⟩, fun e hr => ⟨_, hpre, ?_⟩⟩
    all_goals
      unfold decodeJson
      simp only [hfound, hr, if_true, if_false, Bool.false_eq_true]
    · exact output_whole (r := .ok _) he hd (decodeStats_doc td th _ _ false _ r hfit)
    · exact output_whole (r := .ok _) he hd (decodeStats_doc td th _ _ true _ r hfit)
    · exact output_whole (r := .error _) he hd rfl
    · exact output_whole (r := .error _) he hd rfl

/-! ### `encode` -/

/-- **C60, `encode`.** -/
theorem C60_encode_partial (errText : Encode.Err → Str) (he : PlainErrors errText) (t : Int) (p : Encode.Param) :
    (∀ r n, Calc.encodeNumbers p r.counters = some n → NumbersFit n →
      (encodeJson errText t p (.ok r)).bind parse =
        some (.obj [(key "stats", .obj (JsonSpec.encodeStats t p.uid p.version n r.hash)), (key "error", .null)])) ∧
    (∀ e, e ≠ .panic → (encodeJson errText t p (.error e)).bind parse = some (.obj [(key "error", strV (errText e))])) := by
  constructor
  · intro r n hn hfit
    unfold encodeJson
    simp only [hn, Option.bind_some]
    exact output_ok Doc.nil (encodeStats_doc t p.uid p.version n r.hash hfit)
  · intro e hne
    have h : (encodeJson errText t p (.error e)) = output [] (.err (errText e)) := by
      cases e <;> first | exact absurd rfl hne | rfl
    rw [h]
    exact output_err Doc.nil (he e)

/-- **C60, `encode --info-only`.** -/
theorem C60_info_partial (utc loc : Int64 → Option Str) (hd : PlainDates utc loc) (v : Version) (metaEnabled : Bool) (dpb : Option Dpb)
    (hv : dpb.isSome = v.usesRs) (i : Info) (hn : PlainName i.name) (ho : PlainName i.out) (h1 : DpbFits dpb) (h3 : i.size < 2 ^ 64)
    (size : Nat) (hs : FileUtils.containerSize v (some metaEnabled) dpb i.size = some size) (h2 : size < 2 ^ 64) :
    (infoJson utc loc v metaEnabled dpb i).bind parse =
      some (.obj [(key "stats", .obj (JsonSpec.infoStats utc loc v dpb i.name i.out i.size size i.time)), (key "error", .null)]) := by
  unfold infoJson
  obtain ⟨cs, h4, h5⟩ := infoStats_doc hd v dpb hv size i hn ho h1 h2 h3
  simp only [hs, h4, Option.bind_some]
  exact output_ok Doc.nil h5

/-! ### `calc` -/

/-- **C60, `calc`.** -/
theorem C60_calc_partial (v : Version) (metaEnabled : Bool) (dpb : Option Dpb) (hv : dpb.isSome = v.usesRs) (h1 : DpbFits dpb) (size : Nat)
    (n : Calc.Numbers) (hn : Calc.calcNumbers v metaEnabled dpb size = some n) (h2 : NumbersFit n) :
    (calcJson v metaEnabled dpb size).bind parse =
      some (.obj [(key "stats", .obj (JsonSpec.calcStats v dpb n)), (key "error", .null)]) := by
  unfold calcJson
  obtain ⟨cs, h4, h5⟩ := calcStats_doc v dpb hv n h1 h2
  simp only [hn, h4, Option.bind_some]
  exact output_ok Doc.nil h5

/-! ### `sort` -/

/-- **C60, `sort`.** -/
theorem C60_sort_partial (errText : Err → Str) (he : PlainErrors errText) (t : Int) (verbose : Bool) (E : Sort.Env) (p : Sort.Param)
    (f old : File) (hf : f.length < 2 ^ 63) (hb : ∀ b, p.ref.burst = some b → b < 2 ^ 64) :
    (∀ out s o, Sort.sortFile E p f old = .ok (out, s, o) → SortFits s o →
      ∃ pos ref, getRefBlockM p.ref p.ref.refChoice f E.stopRef (E.stop 0) = .ok (pos, ref) ∧
        (sortJson errText t verbose E p f old).bind parse =
          whole errText (refShown verbose pos ref ++ burstShown (dataParBurst p.ref true f ref))
            (.ok (JsonSpec.sortStats t ref.header.version s o))) ∧
    (∀ e, Sort.sortFile E p f old = .error e →
      ∃ before, Preface before ∧ (sortJson errText t verbose E p f old).bind parse = whole errText before (.error e)) := by
  cases hfound : getRefBlockM p.ref p.ref.refChoice f E.stopRef (E.stop 0) with
  | error e' =>
    have h1 : Sort.sortFile E p f old = .error e' := by unfold Sort.sortFile; rw [hfound]
    rw [h1]
    refine ⟨fun _ _ _ h => (by cases h), fun e h => ⟨[], preface_nil, ?_⟩⟩
    cases h
    unfold sortJson
    simp only [hfound]
    exact output_whole he Doc.nil rfl
  | ok x =>
    obtain ⟨pos, ref⟩ := x
    have hpos := ref_posM hfound
    have hd := (refCalls_doc verbose (pos := pos) (by omega) ref).append (burst_doc hb true f ref)
    have hpre := preface_append (preface_ref verbose pos ref) (preface_burst (dataParBurst p.ref true f ref))
    refine ⟨fun out s o hr hfit => ⟨pos, ref, rfl, ?_⟩, fun e hr => ⟨_, hpre, ?_⟩⟩
    all_goals
      unfold sortJson
      simp only [hfound, hr]
    · exact output_whole (r := .ok _) he hd (sortStats_doc t _ s o hfit)
    · exact output_whole (r := .error _) he hd rfl

/-! ### `rescue` -/

/-- **C60, `rescue`.** -/
theorem C60_rescue_partial (c : Rescue.Counters) (h1 : c.bytes < 2 ^ 64) (h2 : c.metas + c.datas < 2 ^ 64) :
    (rescueJson c).bind parse = some (.obj [(key "stats", .obj (JsonSpec.rescueStats c)), (key "error", .null)]) :=
  output_ok Doc.nil (rescueStats_doc c h1 h2)

end Verif.Report
