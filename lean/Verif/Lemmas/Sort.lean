import Verif.Model.Sort
import Verif.Lemmas.Decode
/-!
# Lemmas about `sort`
-/

namespace Verif.Sort
open Format ScanSpec DecodeSpec LayoutSpec BlockRing Scan

/-- Position, sequence number and payload of the data or parity block at the `k`-th place. -/
def dataAt (ref : Block) (f : File) (start k : Nat) : Option (Nat × Nat × List Byte) :=
  (look ref f start k).bind fun x => if x.1 = 0 then none else some (start + k * blockLen ref.header.version, x)

/-- The bytes of the metadata block at the `k`-th place. -/
def metaAt (ref : Block) (f : File) (start k : Nat) : Option (List Byte) :=
  (look ref f start k).bind fun x =>
    if x.1 = 0 then some (f.readAt (start + k * blockLen ref.header.version) (blockLen ref.header.version)) else none

/-- The metadata block found first and the counters after looking at one more place. -/
def tally (ref : Block) (dpb : Option Dpb) (f : File) (start : Nat) (reportBlank : Bool) (a : Option (List Byte) × Stats) (k : Nat) :
    Option (List Byte) × Stats :=
  let bs := f.readAt (start + k * blockLen ref.header.version) (blockLen ref.header.version)
  match look ref f start k with
  | none =>
    (a.1, if Misc.bufferIsBlank bs && !reportBlank then { a.2 with okayBlank := a.2.okayBlank + 1 }
      else { a.2 with failed := a.2.failed + 1 })
  | some x =>
    if x.1 = 0 then
      let st := if a.1.isSome then a.2 else
        let y := checkMetas ref.header.version dpb start bs f
        { a.2 with metaSame := a.2.metaSame + y.1, metaDiff := a.2.metaDiff + y.2 }
      (a.1.or (some bs), { st with metas := st.metas + 1 })
    else
      (a.1, if Layout.isParityDpb x.1 dpb then { a.2 with parities := a.2.parities + 1 } else { a.2 with datas := a.2.datas + 1 })

/-- The change made to a slot that is kept. -/
def loadedAt (v : Version) (uid : Uid) (x : Nat × Nat × List Byte) (s : Slot) : Slot :=
  { Decode.loaded v uid x.2 s with readPos := some x.1 }

/-- What the reader does. -/
theorem sort_runs (stop : Nat → Bool) (f : File) (seekTo required : Nat) (ref : Block) (dpb : Option Dpb) (rb : Bool) (c : LotCfg)
    (hv : c.version = ref.header.version) :
    ∀ (N k checks : Nat) (a : Option (List Byte) × Stats), places ref f seekTo required - k ≤ N →
      ∃ m n rF, k + m ≤ max k (places ref f seekTo required) ∧ n ≤ N + 1 ∧
        ((∀ i, stop i = false) → k ≤ places ref f seekTo required → k + m = places ref f seekTo required) ∧
        Runs c (act stop f seekTo required ref dpb rb) n ⟨k * blockLen ref.header.version, checks, a.1, a.2⟩
          (((List.range' k m).filterMap (dataAt ref f seekTo)).map (loadedAt ref.header.version ref.header.uid)) rF ∧
        (rF.found, rF.stats) = (List.range' k m).foldl (tally ref dpb f seekTo rb) a := by
  set L := blockLen ref.header.version with hLdef
  have hLpos : 0 < L := by rw [hLdef, blockLen_eq]; have := size_ge ref.header.version; omega
  intro N
  induction N with
  | zero =>
    intro k checks a hN
    by_cases hs : stop checks = true
    · refine ⟨0, 1, ⟨k * L, checks, a.1, a.2⟩, by omega, by omega, ?_, ?_, rfl⟩
      · intro h; rw [h] at hs; simp at hs
      · exact .halt (by simp [act, hs])
    by_cases hr : required ≤ k * L
    · refine ⟨0, 1, ⟨k * L, checks, a.1, a.2⟩, by omega, by omega, ?_, ?_, rfl⟩
      · intro _ h; omega
      · exact .halt (by simp [act, hr])
    · have hplaces : (f.length - seekTo) / L ≤ k := by
        have h1 : ¬ ceilDiv required L ≤ k := by rw [Encode.ceilDiv_le_iff hLpos]; exact hr
        unfold places at hN
        rw [← hLdef] at hN
        omega
      have hshort : f.length - seekTo < k * L + L := by
        have := Nat.lt_succ_of_le hplaces
        rw [Nat.div_lt_iff_lt_mul hLpos, Nat.succ_mul] at this
        exact this
      set r1 : RdSt := ⟨k * L + (f.readAt (seekTo + k * L) L).length, checks + 1, a.1, a.2⟩ with hr1
      refine ⟨0, 1, r1, by omega, by omega, fun _ h => by omega, ?_, rfl⟩
      have := Runs.stop (c := c) (act := act stop f seekTo required ref dpb rb) (n := 0) (r := ⟨k * L, checks, a.1, a.2⟩)
        (g := slotStep f seekTo ref dpb rb ⟨k * L, checks, a.1, a.2⟩)
        (f := fun s => { s with data := f.readAt (seekTo + k * L) L ++ s.data.drop (f.readAt (seekTo + k * L) L).length })
        (cancel := true) (r' := r1) (by simp only [act]; rw [if_neg hs, if_neg hr]) ?_
      · simpa using this
      · intro s hf
        have hlen : s.data.length = L := by rw [hf.len, hv, hLdef, blockLen_eq]
        have hrl : (f.readAt (seekTo + k * L) L).length < L := by rw [File.readAt_length]; omega
        constructor
        · unfold slotStep
          simp only [hlen]
          rw [if_pos hrl]
        · simp only [List.length_append, List.length_drop, hlen]
          rw [hv, ← blockLen_eq, ← hLdef]; omega
  | succ N ih =>
    intro k checks a hN
    by_cases hs : stop checks = true
    · refine ⟨0, 1, ⟨k * L, checks, a.1, a.2⟩, by omega, by omega, ?_, ?_, rfl⟩
      · intro h; rw [h] at hs; simp at hs
      · exact .halt (by simp [act, hs])
    by_cases hk : places ref f seekTo required ≤ k
    · obtain ⟨m, n, rF, h1, h2, h3, h4, h5⟩ := ih k checks a (by omega)
      exact ⟨m, n, rF, h1, by omega, h3, h4, h5⟩
    · have hk1 : ¬ ceilDiv required L ≤ k := by unfold places at hk; rw [← hLdef] at hk; omega
      have hr : ¬ required ≤ k * L := by rwa [Encode.ceilDiv_le_iff hLpos] at hk1
      have hfull : (f.readAt (seekTo + k * L) L).length = L := by
        have : k + 1 ≤ (f.length - seekTo) / L := by unfold places at hk; rw [← hLdef] at hk; omega
        rw [Nat.le_div_iff_mul_le hLpos, Nat.succ_mul] at this
        rw [File.readAt_length]; omega
      obtain ⟨m, n, rF, h1, h2, h3, h4, h5⟩ := ih (k + 1) (checks + 1) (tally ref dpb f seekTo rb a k) (by omega)
      rw [show (k + 1) * L = k * L + L from Nat.succ_mul _ _] at h4
      refine ⟨m + 1, n + 1, rF, by omega, by omega, fun ha hb => by have := h3 ha (by omega); omega, ?_, ?_⟩
      · rw [List.range'_succ, List.filterMap_cons]
        have hact : act stop f seekTo required ref dpb rb ⟨k * L, checks, a.1, a.2⟩ =
            .slot (slotStep f seekTo ref dpb rb ⟨k * L, checks, a.1, a.2⟩) := by
          simp only [act]; rw [if_neg hs, if_neg hr]
        have hbuf : ∀ s : Slot, s.data.length = L →
            f.readAt (seekTo + k * L) s.data.length ++ s.data.drop (f.readAt (seekTo + k * L) s.data.length).length =
              f.readAt (seekTo + k * L) L := by
          intro s hs
          rw [hs, hfull, List.drop_eq_nil_of_le (by omega), List.append_nil]
        cases hlook : look ref f seekTo k with
        | none =>
          have hd : dataAt ref f seekTo k = none := by unfold dataAt; rw [hlook]; rfl
          rw [hd]
          simp only
          refine Runs.skip (f := fun s => { s with
            block := (s.block.syncFrom (f.readAt (seekTo + k * L) L) (some (sameVerUid ref)) none).1
            data := f.readAt (seekTo + k * L) L }) hact ?_ h4
          intro s hfr
          have hlen : s.data.length = L := by rw [hfr.len, hv, hLdef, blockLen_eq]
          refine ⟨?_, by rw [hfull, hv, hLdef, blockLen_eq]⟩
          unfold slotStep
          simp only [hbuf s hlen]
          simp only [hlen, hfull]
          rw [if_neg (by omega)]
          have hno : s.block.read? (f.readAt (seekTo + k * L) L) (some (sameVerUid ref)) = none := by
            unfold look at hlook
            rw [Option.map_eq_none_iff] at hlook
            unfold blockAt at hlook
            rw [Block.read?_indep s.block Block.dummy]
            exact hlook
          unfold Block.read? at hno
          rcases hsy : s.block.syncFrom (f.readAt (seekTo + k * L) L) (some (sameVerUid ref)) none with ⟨b, e⟩
          rw [hsy] at hno
          cases e with
          | none => simp at hno
          | some e => simp only [tally, hlook, ← hLdef]
        | some x =>
          obtain ⟨hx, hb⟩ := Decode.look_some.1 hlook
          have hdata : f.readAt (seekTo + k * L) L = blockBytes ref.header.version ref.header.uid.bytes (UInt32.ofNat x.1) x.2 :=
            hb.bytes
          have hyes : ∀ s : Slot, s.block.syncFrom (f.readAt (seekTo + k * L) L) (some (sameVerUid ref)) none =
              (blockOf ref.header.version ref.header.uid (UInt32.ofNat x.1) x.2, none) := by
            intro s
            rw [Block.syncFrom_none]
            exact (readSame_iff (by rw [hfull])).2 ⟨_, _, hb, rfl⟩
          have e : (blockOf ref.header.version ref.header.uid (UInt32.ofNat x.1) x.2).header.seq.toNat = x.1 := by
            simp only [blockOf]; exact ofNat_toNat32 hx
          by_cases hx0 : x.1 = 0
          · have hd : dataAt ref f seekTo k = none := by unfold dataAt; rw [hlook]; simp [hx0]
            rw [hd]
            simp only
            have htype : (blockOf ref.header.version ref.header.uid (UInt32.ofNat x.1) x.2).blockType = .metadata := by
              rw [Decode.blockOf_type, hx0]; rfl
            refine Runs.skip (f := fun s => { s with
              block := blockOf ref.header.version ref.header.uid (UInt32.ofNat x.1) x.2
              data := f.readAt (seekTo + k * L) L }) hact ?_ h4
            intro s hfr
            have hlen : s.data.length = L := by rw [hfr.len, hv, hLdef, blockLen_eq]
            refine ⟨?_, by rw [hfull, hv, hLdef, blockLen_eq]⟩
            unfold slotStep
            simp only [hbuf s hlen]
            simp only [hlen, hfull]
            rw [if_neg (by omega), hyes]
            simp only [htype, if_true]
            simp only [tally, hlook, hx0, if_true, ← hLdef]
          · have hd : dataAt ref f seekTo k = some (seekTo + k * L, x) := by unfold dataAt; rw [hlook]; simp [hx0, hLdef]
            rw [hd]
            simp only [List.map_cons]
            have htype : (blockOf ref.header.version ref.header.uid (UInt32.ofNat x.1) x.2).blockType ≠ .metadata := by
              rw [Decode.blockOf_type, if_neg]
              · decide
              · intro h
                apply hx0
                rw [← ofNat_toNat32 hx, h]; rfl
            refine Runs.keep hact ?_ h4
            intro s hfr
            have hlen : s.data.length = L := by rw [hfr.len, hv, hLdef, blockLen_eq]
            refine ⟨?_, by simp only [loadedAt, Decode.loaded]; rw [← hdata, hfull, hv, hLdef, blockLen_eq]⟩
            unfold slotStep
            simp only [hbuf s hlen]
            simp only [hlen, hfull]
            rw [if_neg (by omega), hyes]
            simp only [htype, if_false, e]
            simp only [tally, hlook, hx0, if_false, loadedAt, Decode.loaded, hdata]
      · rw [List.range'_succ, List.foldl_cons]
        exact h5

/-! ### The three threads -/

/-- Once found, the metadata block stays. -/
theorem act_found {stop : Nat → Bool} {f : File} {seekTo required : Nat} {ref : Block} {dpb : Option Dpb} {rb : Bool} {r : RdSt}
    {mb : List Byte} (hr : r.found = some mb) :
    match act stop f seekTo required ref dpb rb r with
    | .halt r' => r'.found = some mb
    | .slot g => ∀ s, (g s).1.found = some mb := by
  unfold act
  by_cases h1 : stop r.checks = true
  · rw [if_pos h1]; exact hr
  · rw [if_neg h1]
    by_cases h2 : required ≤ r.processed
    · rw [if_pos h2]; exact hr
    · rw [if_neg h2]
      simp only
      intro s
      unfold slotStep
      simp only
      split
      · exact hr
      · split
        · split
          · simp [hr]
          · exact hr
        · exact hr

theorem fillLoop_found {a : RdSt → Act RdSt} {mb : List Byte}
    (ha : ∀ r : RdSt, r.found = some mb → match a r with | .halt r' => r'.found = some mb | .slot g => ∀ s, (g s).1.found = some mb) :
    ∀ (fuel : Nat) (r : RdSt) (b : Buffer) (x : RdSt × Bool × Buffer), r.found = some mb → fillLoop a fuel r b = some x →
      x.1.found = some mb := by
  intro fuel
  induction fuel with
  | zero => intro r b x _ h; simp [fillLoop] at h
  | succ n ih =>
    intro r b x hr h
    rw [fillLoop] at h
    by_cases hf : b.isFull = true
    · rw [if_pos hf] at h
      simp only [Option.some.injEq] at h
      rw [← h]; exact hr
    · rw [if_neg hf] at h
      have := ha r hr
      cases hact : a r with
      | halt r' =>
        rw [hact] at h this
        simp only [Option.some.injEq] at h
        rw [← h]; exact this
      | slot g =>
        rw [hact] at h this
        simp only at h this
        cases hs : slotAt b with
        | none => rw [hs] at h; simp at h
        | some s =>
          rw [hs] at h
          simp only at h
          cases hb : b.fill fun _ => (g s).2.1 with
          | none => rw [hb] at h; simp at h
          | some b1 =>
            rw [hb] at h
            simp only at h
            cases hb2 : (if (g s).2.2.1 = true then b1.cancelSlot else some b1) with
            | none => rw [hb2] at h; simp at h
            | some b2 =>
              rw [hb2] at h
              simp only at h
              by_cases hg : (g s).2.2.2 = true
              · rw [if_pos hg] at h; exact ih _ _ _ (this s) h
              · rw [if_neg hg] at h
                simp only [Option.some.injEq] at h
                rw [← h]; exact this s

theorem runs_found {c : LotCfg} {a : RdSt → Act RdSt} {mb : List Byte}
    (ha : ∀ r : RdSt, r.found = some mb → match a r with | .halt r' => r'.found = some mb | .slot g => ∀ s, (g s).1.found = some mb)
    {n : Nat} {r : RdSt} {fs : List (Slot → Slot)} {rF : RdSt} (h : Runs c a n r fs rF) (hr : r.found = some mb) :
    rF.found = some mb := by
  induction h with
  | halt he => have := ha _ hr; rw [he] at this; exact this
  | stop he hg =>
    have := ha _ hr; rw [he] at this
    have h1 := this (Slot.fresh c)
    rw [(hg _ (Slot.fresh_fresh c)).1] at h1; exact h1
  | skip he hg _ ih =>
    have := ha _ hr; rw [he] at this
    have h1 := this (Slot.fresh c)
    rw [(hg _ (Slot.fresh_fresh c)).1] at h1; exact ih h1
  | keep he hg _ ih =>
    have := ha _ hr; rw [he] at this
    have h1 := this (Slot.fresh c)
    rw [(hg _ (Slot.fresh_fresh c)).1] at h1; exact ih h1

/-- What the writer does with a slot. -/
def wr (c : LotCfg) (d : Disk) (s : Slot) : Disk := Lot.writeSlot c d (placed c s)

/-- What the counter does with a slot (when there is no panic). -/
def cnt (c : LotCfg) (readOffset : Nat) (dpb : Option Dpb) (o : Order) (s : Slot) : Order :=
  (countSlot readOffset dpb o (placed c s)).getD o

theorem calc_used {c : LotCfg} {b : Buffer} (h : b.OK c) : b.calcSlotWritePos.used = b.used.map (placed c) := by
  unfold Buffer.used Buffer.calcSlotWritePos
  have key : ∀ (lots : List Lot), (∀ l ∈ lots, l.cfg = c) →
      (lots.map Lot.calcSlotWritePos).flatMap Lot.used = (lots.flatMap Lot.used).map (placed c) := by
    intro lots
    induction lots with
    | nil => intro _; rfl
    | cons l ls ih =>
      intro hc
      rw [List.map_cons, List.flatMap_cons, ih (fun x hx => hc x (List.mem_cons_of_mem _ hx)), List.flatMap_cons, List.map_append,
        Encode.calc_used, hc l List.mem_cons_self]
      rfl
  exact key b.lots fun l hl => (OK_lots h l hl).cfg

theorem count_fold {c : LotCfg} {readOffset : Nat} {dpb : Option Dpb} {ss : List Slot}
    (hg : ∀ s ∈ ss, ∀ o, countSlot readOffset dpb o (placed c s) ≠ none) (o : Order) :
    (ss.map (placed c)).foldlM (countSlot readOffset dpb) o = some (ss.foldl (cnt c readOffset dpb) o) := by
  induction ss generalizing o with
  | nil => rfl
  | cons s ss ih =>
    rw [List.map_cons, List.foldlM_cons, List.foldl_cons]
    have h := hg s List.mem_cons_self o
    cases h1 : countSlot readOffset dpb o (placed c s) with
    | none => exact absurd h1 h
    | some o' =>
      have e : cnt c readOffset dpb o s = o' := by unfold cnt; rw [h1]; rfl
      rw [e]
      exact ih (fun s hs => hg s (List.mem_cons_of_mem _ hs)) o'

/-- The metadata block sent when the reader's state changes from `r` to `r'`. -/
def sent (r r' : RdSt) : List (List Byte) := if r.found.isNone then r'.found.toList else []

theorem sent_trans {r r' rF : RdSt} (h1 : ∀ mb, r.found = some mb → r'.found = some mb)
    (h2 : ∀ mb, r'.found = some mb → rF.found = some mb) :
    sent r rF = sent r r' ++ sent r' rF := by
  unfold sent
  cases h : r.found with
  | some mb => rw [h1 mb h]; simp
  | none =>
    cases h' : r'.found with
    | some mb => rw [h2 mb h']; simp
    | none => simp

/-- The rounds of the three threads: the metadata block is written at some time before, between or after the other blocks. -/
theorem sort_rounds {c : LotCfg} (hp : c.Pos) {L fuelI : Nat} (hL : 0 < L) {stop : Nat → Bool} {f : File} {seekTo required : Nat}
    {ref : Block} {dpb : Option Dpb} {rb skip : Bool} {readOffset : Nat} :
    ∀ (n : Nat) (r : RdSt) (fs : List (Slot → Slot)) (rF : RdSt) (st : Fin 3 → St) (bufs : List Buffer) (fuel : Nat),
      Runs c (act stop f seekTo required ref dpb rb) n r fs rF →
      (∀ g ∈ fs, ∀ s : Slot, s.Fresh c → ∀ o, countSlot readOffset dpb o (placed c (g s)) ≠ none) → bufs ≠ [] →
      (∀ b ∈ bufs, Idle c L b) → (st 0).rd = r → (st 0).run = true → n < fuelI → n + 2 ≤ fuel →
      ∃ st' ssA ssB, (ring (act stop f seekTo required ref dpb rb) fuelI ref dpb skip readOffset).runSeq fuel st (bufs.map .buf) =
          some st' ∧ Kept c fs (ssA ++ ssB) ∧
        (st' 0).rd = rF ∧ (st' 0).panicked = (st 0).panicked ∧ (st' 1).panicked = (st 1).panicked ∧
        (st' 2).panicked = (st 2).panicked ∧
        (st' 1).out = (st 1).out.map (fun d =>
          ssB.foldl (wr c) ((sent r rF).foldl (fun d mb => writeMetas ref dpb skip mb d) (ssA.foldl (wr c) d))) ∧
        (st' 2).order = (ssA ++ ssB).foldl (cnt c readOffset dpb) (st 2).order := by
  intro n
  induction n using Nat.strong_induction_on with
  | _ n ih =>
    intro r fs rF st bufs fuel hR hg hne hidle hrd hrun hfi hfuel
    obtain ⟨b, bs, rfl⟩ : ∃ b bs, bufs = b :: bs := by
      cases bufs with
      | nil => exact absurd rfl hne
      | cons b bs => exact ⟨b, bs, rfl⟩
    have hb := hidle b List.mem_cons_self
    obtain ⟨r', run, b1, fs1, fs2, ss1, e, h1, h2, h3, h4, h5, h6, h7⟩ := fillLoop_spec hp n r fs rF b fuelI hR hb.ok hfi
    rw [hb.empty, List.nil_append] at h5
    have hg1 : ∀ s ∈ ss1, ∀ o, countSlot readOffset dpb o (placed c s) ≠ none :=
      good_of_kept (Good := fun s => ∀ o, countSlot readOffset dpb o (placed c s) ≠ none)
        (fun g hg' => hg g (by rw [h3]; exact List.mem_append_left _ hg')) h4
    have hmono : ∀ mb, r.found = some mb → r'.found = some mb := fun mb hmb =>
      fillLoop_found (fun r hr => act_found hr) _ _ _ _ hmb e
    set R := ring (act stop f seekTo required ref dpb rb) fuelI ref dpb skip readOffset with hRdef
    obtain ⟨fuel, rfl⟩ : ∃ m, fuel = m + 1 := ⟨fuel - 1, by omega⟩
    -- the reader
    have hst0 : R.step 0 (st 0) (.buf b) = ({ st 0 with rd := r', run := run }, some ((sent r r').map Msg.metaBlock ++ [.buf b1])) := by
      simp only [hRdef, ring, if_true, readerStep, hrun, hrd, e]
      unfold sent
      cases r.found <;> cases r'.found <;> simp
    -- the writer
    have hwrite : ∀ d : Disk, (b1.write d).2 = ss1.foldl (wr c) d := by
      intro d
      obtain ⟨b', e', -⟩ := (fileWriter_folds hp L).spec d b1 h1 (by rw [h2, hb.lots]) (by rw [h5]; exact h6) (fun _ _ => trivial)
      unfold fileWriter at e'
      simp only [Option.some.injEq, Prod.mk.injEq] at e'
      rw [e'.1, h5]; rfl
    have hst1 : ∀ s : St, R.step 1 s (.buf b1) = ({ s with out := s.out.map fun d => ss1.foldl (wr c) d },
        some [.buf b1.calcSlotWritePos]) := by
      intro s
      simp only [hRdef, ring]
      rw [if_neg (by decide), if_pos trivial]
      unfold writerStep
      rcases s with ⟨a1, a2, a3, a4, a5⟩
      cases a3 with
      | none => rfl
      | some d => simp only [hwrite]; rfl
    have hst1' : ∀ (s : St) (mb : List Byte), R.step 1 s (.metaBlock mb) =
        ({ s with out := s.out.map (writeMetas ref dpb skip mb) }, some []) := by
      intro s mb
      simp only [hRdef, ring]
      rw [if_neg (by decide), if_pos trivial]
      rfl
    have hstage : R.stage 1 (st 1) ((sent r r').map Msg.metaBlock ++ [.buf b1]) = some
        ({ st 1 with out := (st 1).out.map fun d => ss1.foldl (wr c) ((sent r r').foldl (fun d mb => writeMetas ref dpb skip mb d) d) },
          [.buf b1.calcSlotWritePos]) := by
      unfold sent
      cases r.found with
      | some mb => simp [Pipeline.Ring.stage, hst1]
      | none =>
        cases r'.found with
        | none => simp [Pipeline.Ring.stage, hst1]
        | some mb => simp [Pipeline.Ring.stage, hst1, hst1', Function.comp_def]
    -- the counter
    have hst2 : R.step 2 (st 2) (.buf b1.calcSlotWritePos) =
        ({ st 2 with order := ss1.foldl (cnt c readOffset dpb) (st 2).order }, some [.buf b1.calcSlotWritePos.reset]) := by
      simp only [hRdef, ring]
      rw [if_neg (by decide), if_neg (by decide)]
      unfold counterStep
      simp only
      rw [calc_used h1, h5, count_fold hg1]
    have hi2 : Idle c L b1.calcSlotWritePos.reset := by
      have := calc_reset_idle hp h1 (by rw [h5]; exact h6)
      rwa [h2, hb.lots] at this
    set stn : Fin 3 → St := Function.update (Function.update (Function.update st 0 { st 0 with rd := r', run := run }) 1
      { st 1 with out := (st 1).out.map fun d => ss1.foldl (wr c) ((sent r r').foldl (fun d mb => writeMetas ref dpb skip mb d) d) }) 2
      { st 2 with order := ss1.foldl (cnt c readOffset dpb) (st 2).order } with hstn
    have n0 : stn 0 = { st 0 with rd := r', run := run } := rfl
    have n1 : stn 1 = { st 1 with
      out := (st 1).out.map fun d => ss1.foldl (wr c) ((sent r r').foldl (fun d mb => writeMetas ref dpb skip mb d) d) } := rfl
    have n2 : stn 2 = { st 2 with order := ss1.foldl (cnt c readOffset dpb) (st 2).order } := rfl
    have hround : R.runSeq (fuel + 1) st ((b :: bs).map .buf) = R.runSeq fuel stn ((bs ++ [b1.calcSlotWritePos.reset]).map .buf) := by
      rw [List.map_cons, Pipeline.Ring.runSeq, hst0]
      have hf : List.finRange (2 + 1) = [0, 1, 2] := by decide
      have hs0 : R.stage 0 (st 0) [.buf b] = some ({ st 0 with rd := r', run := run }, (sent r r').map Msg.metaBlock ++ [.buf b1]) := by
        simp [Pipeline.Ring.stage, hst0]
      have hs2 : R.stage 2 (st 2) [.buf b1.calcSlotWritePos] =
          some ({ st 2 with order := ss1.foldl (cnt c readOffset dpb) (st 2).order }, [.buf b1.calcSlotWritePos.reset]) := by
        simp [Pipeline.Ring.stage, hst2]
      simp only [hf, Pipeline.Ring.pass, hs0, Function.update_of_ne (show (1 : Fin 3) ≠ 0 by decide), hstage,
        Function.update_of_ne (show (2 : Fin 3) ≠ 0 by decide), Function.update_of_ne (show (2 : Fin 3) ≠ 1 by decide), hs2,
        List.map_append, List.map_cons, List.map_nil]
      rfl
    rw [hround]
    rcases h7 with ⟨rfl, rfl, rfl⟩ | ⟨rfl, n', hn', hlt, hR'⟩
    · obtain ⟨fuel, rfl⟩ : ∃ m, fuel = m + 1 := ⟨fuel - 1, by omega⟩
      rw [Pipeline.runSeq_end (by simp) (by
        intro m hm
        obtain ⟨b', -, rfl⟩ := List.mem_map.1 hm
        simp only [hRdef, ring, if_true, readerStep, n0]
        simp)]
      refine ⟨stn, [], ss1, rfl, by rw [h3]; simpa using h4, by rw [n0], by rw [n0], by rw [n1], by rw [n2], by rw [n1]; rfl,
        by rw [n2]; rfl⟩
    · have hlt' := hlt (hb.notFull hp hL)
      obtain ⟨st', ssA, ssB, r1, r2, r3, r4, r5, r6, r7, r8⟩ := ih n' hlt' r' fs2 rF stn (bs ++ [b1.calcSlotWritePos.reset]) fuel hR'
        (fun f hf => hg f (by rw [h3]; exact List.mem_append_right _ hf)) (by simp) (by
          intro x hx
          rcases List.mem_append.1 hx with hx | hx
          · exact hidle x (List.mem_cons_of_mem _ hx)
          · rw [List.mem_singleton.1 hx]; exact hi2) (by rw [n0]) (by rw [n0]) (by omega) (by omega)
      have hmono' : ∀ mb, r'.found = some mb → rF.found = some mb := fun mb hmb => runs_found (fun r hr => act_found hr) hR' hmb
      have hkept : Kept c fs (ss1 ++ (ssA ++ ssB)) := by rw [h3]; exact h4.append r2
      have hord : (st' 2).order = (ss1 ++ (ssA ++ ssB)).foldl (cnt c readOffset dpb) (st 2).order := by
        rw [r8, n2, List.foldl_append (l := ss1)]
      have hsent := sent_trans hmono hmono'
      by_cases hr : r'.found = none
      · -- the metadata block comes later
        have hs1 : sent r r' = [] := by unfold sent; rw [hr]; simp
        refine ⟨st', ss1 ++ ssA, ssB, r1, by rw [List.append_assoc]; exact hkept, r3, by rw [r4, n0], by rw [r5, n1], by rw [r6, n2], ?_,
          by rw [List.append_assoc]; exact hord⟩
        rw [r7, n1, hsent, hs1]
        simp only [List.nil_append, List.foldl_nil, Option.map_map, Function.comp_def, List.foldl_append]
      · -- it has been sent
        have hs2 : sent r' rF = [] := by
          unfold sent
          cases h : r'.found with
          | none => exact absurd h hr
          | some mb => rfl
        refine ⟨st', [], ss1 ++ (ssA ++ ssB), r1, hkept, r3, by rw [r4, n0], by rw [r5, n1], by rw [r6, n2], ?_, hord⟩
        rw [r7, n1, hsent, hs2]
        simp only [List.append_nil, List.foldl_nil, Option.map_map, Function.comp_def, List.foldl_append]

end Verif.Sort

namespace Verif.Sort
open Format ScanSpec DecodeSpec LayoutSpec BlockRing Scan

/-! ### The output file -/

/-- The file has at `pos` a valid block with version and uid of `ref` and sequence number `seq`, and at least `room` bytes from
there on. -/
def holds (ref : Block) (out : File) (pos seq room : Nat) : Bool :=
  decide (pos + room ≤ out.length) && (blockAt ref out pos).any fun b => b.header.seq.toNat == seq

/-- What the writer does with a data or parity block, in terms of the output file. -/
def putBlock (ref : Block) (dpb : Option Dpb) (skip : Bool) (out : File) (x : Nat × List Byte) : File :=
  let pos := Layout.dataWritePos ref.header.version x.1 (some true) dpb
  if skip && holds ref out pos x.1 largestBlockSize then out
  else out.writeAt pos (blockBytes ref.header.version ref.header.uid.bytes (UInt32.ofNat x.1) x.2)

/-- What the writer does with a metadata block, in terms of the output file. -/
def putMetas (ref : Block) (dpb : Option Dpb) (skip : Bool) (mb : List Byte) (out : File) : File :=
  (Layout.metaAllPos ref.header.version dpb).foldl
    (fun out p => if skip && holds ref out p 0 ref.header.version.blockSize then out else out.writeAt p mb) out

theorem read_none_iff {ref b : Block} {f : File} {pos : Nat} (hl : pos + largestBlockSize ≤ f.length) :
    (Block.dummy.read? (f.readAt pos largestBlockSize) none = some b ∧ b.header.version = ref.header.version ∧
      b.header.uid = ref.header.uid) ↔ blockAt ref f pos = some b := by
  have hle : ∀ v : Version, blockLen v ≤ largestBlockSize := by intro v; cases v <;> decide
  have htake : ∀ v : Version, (f.readAt pos largestBlockSize).take (blockLen v) = f.readAt pos (blockLen v) := by
    intro v
    unfold File.readAt
    rw [List.take_take, Nat.min_eq_left (hle v)]
  rw [blockAt_iff, Block.read?_iff]
  constructor
  · rintro ⟨⟨v, uid, seq, p, rest, h1, h2, rfl, -⟩, rfl, rfl⟩
    rw [htake] at h1
    exact ⟨seq, p, h1, rfl⟩
  · rintro ⟨seq, p, h1, rfl⟩
    refine ⟨⟨ref.header.version, ref.header.uid, seq, p, _, ?_, (List.take_append_drop (blockLen ref.header.version) _).symm, rfl, by simp⟩,
      rfl, rfl⟩
    rw [htake]; exact h1

theorem doWrite_holds {ref : Block} {dpb : Option Dpb} {skip : Bool} {s : Slot} {seq : UInt32} {p : List Byte}
    (hs : s.block = blockOf ref.header.version ref.header.uid seq p) (pos : Nat) (f : File) :
    Lot.doWrite (cfg ref dpb skip) s pos f = !holds ref f pos seq.toNat largestBlockSize := by
  unfold Lot.doWrite holds
  simp only [cfg, hs]
  by_cases hl : pos + largestBlockSize ≤ f.length
  · have h1 : ¬ (f.readAt pos largestBlockSize).length < largestBlockSize := by
      rw [File.readAt_length]; omega
    simp only [h1, decide_false, Bool.false_or, hl, decide_true, Bool.true_and]
    cases hr : Block.dummy.read? (f.readAt pos largestBlockSize) none with
    | none =>
      cases hb : blockAt ref f pos with
      | none => rfl
      | some b => rw [((read_none_iff hl).2 hb).1] at hr; simp at hr
    | some b =>
      simp only [blockOf]
      by_cases hm : b.header.version = ref.header.version ∧ b.header.uid = ref.header.uid
      · rw [(read_none_iff hl).1 ⟨hr, hm.1, hm.2⟩]
        simp only [hm.1, hm.2, Option.any_some, ne_eq, not_true, decide_false, Bool.false_or]
        rw [Bool.eq_iff_iff]
        constructor
        · intro h; have h' := of_decide_eq_true h; simpa [UInt32.toNat_inj] using h'
        · intro h; exact decide_eq_true (by simpa [UInt32.toNat_inj] using h)
      · have hb : blockAt ref f pos = none := by
          cases hb : blockAt ref f pos with
          | none => rfl
          | some b' =>
            have := (read_none_iff hl).2 hb
            rw [this.1] at hr
            simp only [Option.some.injEq] at hr
            subst hr
            exact absurd this.2 hm
        rw [hb]
        rw [not_and_or] at hm
        rcases hm with hm | hm <;> simp [hm]
  · have h0 : 0 < largestBlockSize := by decide
    have h1 : (f.readAt pos largestBlockSize).length < largestBlockSize := by
      rw [File.readAt_length]; omega
    simp [h1, hl]

theorem wr_putBlock {ref : Block} {dpb : Option Dpb} {skip : Bool} {x : Nat × Nat × List Byte} {s : Slot} (hx : x.2.1 < 2 ^ 32)
    (d : Disk) :
    (wr (cfg ref dpb skip) d (loadedAt ref.header.version ref.header.uid x s)).file = putBlock ref dpb skip d.file x.2 := by
  have e : (blockOf ref.header.version ref.header.uid (UInt32.ofNat x.2.1) x.2.2).header.seq.toNat = x.2.1 := by
    simp only [blockOf]; exact ofNat_toNat32 hx
  unfold wr Lot.writeSlot putBlock
  have hw : (placed (cfg ref dpb skip) (loadedAt ref.header.version ref.header.uid x s)).writePos =
      some (Layout.dataWritePos ref.header.version x.2.1 (some true) dpb) := by
    unfold placed Lot.slotWritePos
    simp only [loadedAt, Decode.loaded, cfg, e]
  rw [hw]
  simp only
  rw [doWrite_holds (seq := UInt32.ofNat x.2.1) (p := x.2.2) rfl, Bool.not_not, ofNat_toNat32 hx]
  have hb : Lot.slotBytes (cfg ref dpb skip) (placed (cfg ref dpb skip) (loadedAt ref.header.version ref.header.uid x s)) =
      blockBytes ref.header.version ref.header.uid.bytes (UInt32.ofNat x.2.1) x.2.2 := rfl
  rw [hb]
  have hsk : (cfg ref dpb skip).skipGood = skip := rfl
  rw [hsk]
  split
  · rfl
  · rw [Disk.file_writeAt]

theorem kept_fold {ref : Block} {dpb : Option Dpb} {skip : Bool} {l : List (Nat × Nat × List Byte)} (hl : ∀ x ∈ l, x.2.1 < 2 ^ 32)
    {ss : List Slot} (hk : Kept (cfg ref dpb skip) (l.map (loadedAt ref.header.version ref.header.uid)) ss) :
    ∀ d : Disk, (ss.foldl (wr (cfg ref dpb skip)) d).file = (l.map (·.2)).foldl (putBlock ref dpb skip) d.file := by
  induction l generalizing ss with
  | nil => intro d; cases hk; rfl
  | cons x l ih =>
    intro d
    rw [List.map_cons] at hk
    cases hk with
    | cons h hk =>
      obtain ⟨s0, h0, rfl⟩ := h
      rw [List.foldl_cons, ih (fun y hy => hl y (List.mem_cons_of_mem _ hy)) hk, List.map_cons, List.foldl_cons,
        wr_putBlock (hl x List.mem_cons_self)]

theorem doWriteMeta_holds (ref : Block) (skip : Bool) (p : Nat) (out : File) :
    doWriteMeta ref skip p out = !(skip && holds ref out p 0 ref.header.version.blockSize) := by
  unfold doWriteMeta holds
  cases skip with
  | false => rfl
  | true =>
    simp only [Bool.not_true, Bool.false_or, Bool.true_and]
    by_cases hl : p + ref.header.version.blockSize ≤ out.length
    · have h1 : ¬ (out.readAt p ref.header.version.blockSize).length < ref.header.version.blockSize := by
        rw [File.readAt_length]; omega
      simp only [h1, decide_false, Bool.false_or, hl, decide_true, Bool.true_and]
      have hb : blockAt ref out p = Block.dummy.read? (out.readAt p ref.header.version.blockSize) (some (sameVerUid ref)) := by
        unfold blockAt File.readAt
        rw [blockLen_eq]
      rw [hb]
      cases Block.dummy.read? (out.readAt p ref.header.version.blockSize) (some (sameVerUid ref)) with
      | none => rfl
      | some b =>
        simp only [Option.any_some]
        rw [Bool.eq_iff_iff]
        simp [← UInt32.toNat_inj]
    · have h0 := size_ge ref.header.version
      have h1 : (out.readAt p ref.header.version.blockSize).length < ref.header.version.blockSize := by
        rw [File.readAt_length]; omega
      simp [h1, hl]

theorem writeMetas_file (ref : Block) (dpb : Option Dpb) (skip : Bool) (mb : List Byte) (d : Disk) :
    (writeMetas ref dpb skip mb d).file = putMetas ref dpb skip mb d.file := by
  unfold writeMetas putMetas
  generalize Layout.metaAllPos ref.header.version dpb = ps
  induction ps generalizing d with
  | nil => rfl
  | cons p ps ih =>
    rw [List.foldl_cons, List.foldl_cons, ih]
    congr 1
    rw [doWriteMeta_holds]
    cases hh : skip && holds ref d.file p 0 ref.header.version.blockSize with
    | true => simp
    | false => simp [Disk.file_writeAt]

theorem cfg_pos (ref : Block) (dpb : Option Dpb) (skip : Bool) : (cfg ref dpb skip).Pos := by
  unfold LotCfg.Pos LotCfg.direct cfg; simp

/-- Counting of a block read at position `x.1`. -/
def orderAt (v : Version) (dpb : Option Dpb) (readOffset : Nat) (o : Order) (x : Nat × Nat × List Byte) : Order :=
  if x.1 - readOffset = Layout.dataWritePos v x.2.1 (some true) dpb then
    if Layout.isParityDpb x.2.1 dpb then { o with paritySame := o.paritySame + 1 } else { o with dataSame := o.dataSame + 1 }
  else if Layout.isParityDpb x.2.1 dpb then { o with parityDiff := o.parityDiff + 1 } else { o with dataDiff := o.dataDiff + 1 }

theorem countSlot_loaded {ref : Block} {dpb : Option Dpb} {skip : Bool} {x : Nat × Nat × List Byte} (hx : x.2.1 < 2 ^ 32)
    (readOffset : Nat) (o : Order) (s : Slot) :
    countSlot readOffset dpb o (placed (cfg ref dpb skip) (loadedAt ref.header.version ref.header.uid x s)) =
      some (orderAt ref.header.version dpb readOffset o x) := by
  have e : (blockOf ref.header.version ref.header.uid (UInt32.ofNat x.2.1) x.2.2).header.seq.toNat = x.2.1 := by
    simp only [blockOf]; exact ofNat_toNat32 hx
  unfold countSlot placed Lot.slotWritePos orderAt
  simp only [loadedAt, Decode.loaded, cfg, e]
  split <;> rfl

theorem kept_order {ref : Block} {dpb : Option Dpb} {skip : Bool} {readOffset : Nat} {l : List (Nat × Nat × List Byte)}
    (hl : ∀ x ∈ l, x.2.1 < 2 ^ 32) {ss : List Slot}
    (hk : Kept (cfg ref dpb skip) (l.map (loadedAt ref.header.version ref.header.uid)) ss) :
    ∀ o, ss.foldl (cnt (cfg ref dpb skip) readOffset dpb) o = l.foldl (orderAt ref.header.version dpb readOffset) o := by
  induction l generalizing ss with
  | nil => intro d; cases hk; rfl
  | cons x l ih =>
    intro o
    rw [List.map_cons] at hk
    cases hk with
    | cons h hk =>
      obtain ⟨s0, h0, rfl⟩ := h
      rw [List.foldl_cons, ih (fun y hy => hl y (List.mem_cons_of_mem _ hy)) hk, List.foldl_cons]
      congr 1
      unfold cnt
      rw [countSlot_loaded (hl x List.mem_cons_self)]
      rfl

theorem dataAt_some {ref : Block} {f : File} {start k : Nat} {x : Nat × Nat × List Byte} :
    dataAt ref f start k = some x ↔ x.1 = start + k * blockLen ref.header.version ∧ x.2.1 ≠ 0 ∧ look ref f start k = some x.2 := by
  unfold dataAt
  rw [Option.bind_eq_some_iff]
  constructor
  · rintro ⟨y, hy, h⟩
    by_cases h0 : y.1 = 0
    · simp [h0] at h
    · rw [if_neg h0] at h
      simp only [Option.some.injEq] at h
      subst h
      exact ⟨rfl, h0, hy⟩
  · rintro ⟨h1, h2, h3⟩
    exact ⟨x.2, h3, by rw [if_neg h2, ← h1]⟩

theorem dataAt_lt {ref : Block} {f : File} {start : Nat} {ks : List Nat} : ∀ x ∈ ks.filterMap (dataAt ref f start), x.2.1 < 2 ^ 32 := by
  intro x hx
  obtain ⟨k, -, hk⟩ := List.mem_filterMap.1 hx
  exact (Decode.look_some.1 (dataAt_some.1 hk).2.2).1

theorem Kept.split {c : LotCfg} {fs : List (Slot → Slot)} {a b : List Slot} (h : Kept c fs (a ++ b)) :
    ∃ fa fb, fs = fa ++ fb ∧ Kept c fa a ∧ Kept c fb b := by
  induction a generalizing fs with
  | nil => exact ⟨[], fs, rfl, .nil, h⟩
  | cons x a ih =>
    cases h with
    | cons h1 h2 =>
      obtain ⟨fa, fb, rfl, h3, h4⟩ := ih h2
      exact ⟨_ :: fa, fb, rfl, .cons h1 h3, h4⟩

/-- Sorting: the first `m` places are looked at (all of them unless interrupted); the data and parity blocks found are put in
place one after the other, the metadata block found first somewhere in between. -/
theorem sortWith_spec (E : Env) (hE : 0 < E.lotCount) (p : Param) (ref : Block) (dpb : Option Dpb) (f old : File) :
    ∃ m, m ≤ places ref f (Decode.rangeOf p.ref ref f).seekTo (Decode.rangeOf p.ref ref f).requiredLen ∧
      ((∀ i, E.stop i = false) → m = places ref f (Decode.rangeOf p.ref ref f).seekTo (Decode.rangeOf p.ref ref f).requiredLen) ∧
      ∃ A B out fin, (List.range m).filterMap (dataAt ref f (Decode.rangeOf p.ref ref f).seekTo) = A ++ B ∧
        fin = (List.range m).foldl (tally ref dpb f (Decode.rangeOf p.ref ref f).seekTo p.reportBlank) (none, Stats.zero) ∧
        sortWith E p ref dpb f old = .ok (out, fin.2,
          (A ++ B).foldl (orderAt ref.header.version dpb ((Decode.rangeOf p.ref ref f).seekTo % ref.header.version.blockSize)) ⟨0, 0, 0, 0⟩) ∧
        out.map Disk.file = if p.toFile then
          some ((B.map (·.2)).foldl (putBlock ref dpb (p.multiPass == some .skipGood))
            (fin.1.toList.foldl (fun o mb => putMetas ref dpb (p.multiPass == some .skipGood) mb o)
              ((A.map (·.2)).foldl (putBlock ref dpb (p.multiPass == some .skipGood)) (Decode.openOut p.multiPass old))))
          else none := by
  set r := Decode.rangeOf p.ref ref f with hr
  set skip := p.multiPass == some Decode.MultiPass.skipGood with hskip
  obtain ⟨m, n, rF, h1, h2, h3, h4, h5⟩ := sort_runs E.stop f r.seekTo r.requiredLen ref dpb p.reportBlank (cfg ref dpb skip) rfl
    (places ref f r.seekTo r.requiredLen) 0 0 (none, Stats.zero) (by omega)
  refine ⟨m, by omega, fun hs => by have := h3 hs (by omega); omega, ?_⟩
  have hpl : places ref f r.seekTo r.requiredLen ≤ f.length := by
    unfold places
    exact Nat.le_trans (Nat.min_le_right _ _) (Nat.le_trans (Nat.div_le_self _ _) (Nat.sub_le _ _))
  rw [Nat.zero_mul] at h4
  have hlt := dataAt_lt (ref := ref) (f := f) (start := r.seekTo) (ks := List.range' 0 m)
  set O : Option Disk := if p.toFile then some ⟨Decode.openOut p.multiPass old, []⟩ else none with hO
  obtain ⟨st', ssA, ssB, e, hk, k1, k2, k3, k4, k5, k6⟩ := sort_rounds (fuelI := f.length + 3) (cfg_pos ref dpb skip) hE
    (skip := skip) (readOffset := r.seekTo % ref.header.version.blockSize) n _ _ rF
    (fun _ => start O) (Buffer.newMulti (cfg ref dpb skip) E.lotCount buffersInRotation)
    (f.length + 4) h4 (by
      intro g hg s _ o
      obtain ⟨x, hx, rfl⟩ := List.mem_map.1 hg
      rw [countSlot_loaded (hlt x hx)]; simp) (by
      intro h'; have := congrArg List.length h'; simp [Buffer.newMulti, buffersInRotation] at this)
    (newMulti_idle (cfg_pos ref dpb skip) E.lotCount buffersInRotation) rfl rfl (by omega) (by omega)
  obtain ⟨fa, fb, hfab, ka, kb⟩ := Kept.split hk
  rw [List.map_eq_append_iff] at hfab
  obtain ⟨A, B, hAB, rfl, rfl⟩ := hfab
  have hltA : ∀ x ∈ A, x.2.1 < 2 ^ 32 := fun x hx => hlt x (by rw [hAB]; exact List.mem_append_left _ hx)
  have hltB : ∀ x ∈ B, x.2.1 < 2 ^ 32 := fun x hx => hlt x (by rw [hAB]; exact List.mem_append_right _ hx)
  refine ⟨A, B, (st' 1).out, _, by rw [List.range_eq_range']; exact hAB, rfl, ?_, ?_⟩
  · unfold sortWith
    simp only [← hr, ← hskip, ← hO]
    rw [e]
    simp only [k1, k2, k3, k4, k6]
    rw [kept_order hlt hk, hAB]
    rw [List.range_eq_range', ← h5]
    rfl
  · rw [k5, Option.map_map, hO, List.range_eq_range', ← h5]
    simp only [start, sent, Option.isNone_none, if_true]
    split
    · simp only [Option.map_some, Function.comp_apply]
      rw [kept_fold hltB kb]
      congr 2
      cases rF.found with
      | none =>
        simp only [Option.toList_none, List.foldl_nil]
        rw [kept_fold hltA ka]; rfl
      | some mb =>
        simp only [Option.toList_some, List.foldl_cons, List.foldl_nil]
        rw [writeMetas_file, kept_fold hltA ka]; rfl
    · rfl

end Verif.Sort
