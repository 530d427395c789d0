import Verif.Spec.Recorded
import Verif.Lemmas.ShowContainer
import Verif.Props.Encode
import Verif.Props.Json
/-!
# C54: a container tells the name, dates, size and hash of the file in it
-/

namespace Verif.Encode
open Format ContainerSpec LayoutSpec JsonSpec RecordedSpec Json Scan

/-- What should be recorded about an input of which `stored` has been stored. -/
def about (E : Env) (p : Param) (inp : Input) (stored : List Byte) : About where
  name := inp.file.map (·.1)
  modified := inp.file.bind (·.2)
  container := p.sbxName
  made := E.startTime
  size := stored.length
  hashType := p.hashType
  digest := (E.hash.bytes p.hashType stored).digest
  shards := p.dpb.map fun d => (d.data, d.parity)

theorem label_ctx (t : HashType) : hashLabel t.ctxType = hashLabel t := by cases t <;> rfl

theorem pack_about {E : Env} {p : Param} (hok : p.Ok) (inp : Input) {stored : List Byte} (hs : stored.length < 2 ^ 64) :
    (about E p inp stored).Recorded (finalMetas E p inp stored) := by
  have hc := hok.consistent
  unfold verConsistent at hc
  have hh : hashLabel (E.hash.bytes p.hashType stored).ty = hashLabel p.hashType := label_ctx _
  cases hd : p.dpb with
  | none =>
    rw [hd] at hc
    have hu : p.version.usesRs = false := by simpa using hc
    rcases hf : inp.file with _ | ⟨n, _ | t⟩ <;>
      constructor <;>
      simp [about, finalMetas, packMetadata, rsMetas, recorded, hf, hd, hu, hh, List.findSome?] <;> omega
  | some d =>
    rw [hd] at hc
    have hu : p.version.usesRs = true := by simpa using hc
    obtain ⟨h1, h2, h3⟩ := hok.shards d hd
    have hda : d.data % 256 = d.data := Nat.mod_eq_of_lt (by omega)
    have hpa : d.parity % 256 = d.parity := Nat.mod_eq_of_lt (by omega)
    rcases hf : inp.file with _ | ⟨n, _ | t⟩ <;>
      constructor <;>
      simp [about, finalMetas, packMetadata, rsMetas, recorded, hf, hd, hu, hh, List.findSome?, hda, hpa] <;> omega

/-- The fields of the metadata blocks are `finalMetas` for the bytes stored. -/
theorem container_fields {E : Env} {p : Param} (hE : E.Ok p) (hok : p.Ok) {inp : Input} (hn : NamesOk p inp) {d : Disk} {rep : Report}
    (h : encodeFile E p inp = (d, .ok rep)) (hme : p.metaEnabled = true) {stored : List Byte} (hh : Holds E p d rep stored) :
    ∃ mb mp, stored.length < 2 ^ 64 ∧
      Image p.version p.uid.bytes (some true) p.dpb (payloads E.rs p.version p.dpb (fileChunks p.version stored)) mb d.file ∧
      IsBlock mb p.version p.uid 0 mp ∧ metasFromBytes mp = finalMetas E p inp stored := by
  obtain ⟨mp, stored', h1, h2⟩ := container_metas hE hok hn h hme
  obtain ⟨mb, hc, hr⟩ := hh.container
  obtain ⟨ms, ⟨mp', h3, h4⟩, h5, h6, -⟩ := hr hme
  unfold IsContainer at hc
  rw [hme] at hc
  have h0 : (0 : Nat) ∈ metaCopies (some true) p.dpb := by
    cases p.dpb with
    | none => simp [metaCopies]
    | some d => exact List.mem_map.2 ⟨0, List.mem_range.2 (by omega), by simp⟩
  have h7 := hc.metas 0 h0
  rw [Nat.zero_mul] at h7
  rw [h7] at h1
  obtain ⟨-, rfl⟩ := isBlock_seq h1 h3
  rw [h4] at h2
  have e1 : (UInt64.ofNat stored'.length).toNat = stored.length := by
    rw [h2, finalMetas, (pack_fields _ _ _ _ _ _).1, Option.map_some] at h5
    exact Option.some.inj h5
  have e2 : E.hash.bytes p.hashType stored' = E.hash.bytes p.hashType stored := by
    rw [h2, finalMetas, (pack_fields _ _ _ _ _ _).2] at h6
    exact Option.some.inj h6
  have hlt : stored.length < 2 ^ 64 := by
    rw [← e1]; exact (UInt64.ofNat stored'.length).toNat_lt
  refine ⟨mb, mp, hlt, hc, h3, ?_⟩
  rw [h4, h2]
  unfold finalMetas packMetadata
  have e3 : UInt64.ofNat stored'.length = UInt64.ofNat stored.length := by
    rw [← e1, UInt64.ofNat_toNat]
  simp only [e2, e3]

/-- **C54.** After every successful run with metadata, interrupted or not, every metadata block records the name of the file, its
modification time, the name of the container, the time of encoding, and size and hash of the bytes stored, and the shard counts. -/
theorem C54_recorded (E : Env) (p : Param) (hE : E.Ok p) (hok : p.Ok) (inp : Input) (hn : NamesOk p inp) (d : Disk) (rep : Report)
    (h : encodeFile E p inp = (d, .ok rep)) (hme : p.metaEnabled = true) :
    (∃ stored, Holds E p d rep stored) ∧ ∀ stored, Holds E p d rep stored → ∀ k ∈ metaCopies (some true) p.dpb, ∃ ms,
      Records p.version p.uid (d.file.readAt (k * blockLen p.version) (blockLen p.version)) ms ∧ (about E p inp stored).Recorded ms := by
  refine ⟨(C24_recorded E p hE hok inp hn d rep h).imp fun _ h => h.1, fun stored hh k hk => ?_⟩
  obtain ⟨mb, mp, h2, h3, h4, h5⟩ := container_fields hE hok hn h hme hh
  refine ⟨_, ⟨mp, ?_, h5⟩, pack_about hok inp h2⟩
  rw [h3.metas k hk]
  exact h4

theorem shownBlock_about {a : About} {ms : List Metadata} (h : a.Recorded ms) (utc loc : Int64 → Option Str) (i pos : Nat) (v : Version)
    (uid : Uid) (hs : a.shards.isSome = v.usesRs) : shownBlock utc loc i pos v uid.bytes ms = a.shown utc loc i pos v uid := by
  have hmap : ∀ {α β : Type} (g : Metadata → Option α) (f : α → β) (g' : Metadata → Option β), (∀ m, g' m = (g m).map f) →
      recorded ms g' = (recorded ms g).map f := by
    intro α β g f g' hg
    unfold recorded
    rw [List.map_findSome?]
    congr 1
    exact funext hg
  have h1 := h.hashType
  have h2 := h.digest
  rw [hmap (fun | .hsh h => some h | _ => none) (fun h => hashLabel h.ty) _ (by intro m; cases m <;> rfl)] at h1
  rw [hmap (fun | .hsh h => some h | _ => none) (fun h => h.digest) _ (by intro m; cases m <;> rfl)] at h2
  obtain ⟨x, hx, hx1⟩ := Option.map_eq_some_iff.1 h1
  rw [hx, Option.map_some, Option.some.injEq] at h2
  have e1 := (hmap (fun | .fnm s => some s | _ => none) (fun s => strV s.toList) (fun | .fnm s => some (strV s.toList) | _ => none)
    (by intro m; cases m <;> rfl)).trans (congrArg _ h.name)
  have e2 := (hmap (fun | .snm s => some s | _ => none) (fun s => strV s.toList) (fun | .snm s => some (strV s.toList) | _ => none)
    (by intro m; cases m <;> rfl)).trans (congrArg _ h.container)
  have e3 := (hmap (fun | .rsd n => some n.toNat | _ => none) numV (fun | .rsd n => some (numV n.toNat) | _ => none)
    (by intro m; cases m <;> rfl)).trans (congrArg _ h.data)
  have e4 := (hmap (fun | .rsp n => some n.toNat | _ => none) numV (fun | .rsp n => some (numV n.toNat) | _ => none)
    (by intro m; cases m <;> rfl)).trans (congrArg _ h.parity)
  have e5 := (hmap (fun | .fsz n => some n.toNat | _ => none) numV (fun | .fsz n => some (numV n.toNat) | _ => none)
    (by intro m; cases m <;> rfl)).trans (congrArg _ h.size)
  have e6 := (hmap (fun | .fdt t => some t | _ => none) (dateV utc loc) (fun | .fdt t => some (strV (dateShown (utc t) (loc t))) | _ => none)
    (by intro m; cases m <;> rfl)).trans (congrArg _ h.modified)
  have e7 := (hmap (fun | .sdt t => some t | _ => none) (dateV utc loc) (fun | .sdt t => some (strV (dateShown (utc t) (loc t))) | _ => none)
    (by intro m; cases m <;> rfl)).trans (congrArg _ h.made)
  have e8 := (hmap (fun | .hsh h => some h | _ => none)
    (fun h => strV (hashLabel h.ty ++ " - ".toList ++ hexText "0123456789abcdef" h.digest))
    (fun | .hsh h => some (strV (hashLabel h.ty ++ " - ".toList ++ hexText "0123456789abcdef" h.digest)) | _ => none)
    (by intro m; cases m <;> rfl)).trans (congrArg _ hx)
  have f3 : (if v.usesRs then orNull (recorded ms fun | .rsd n => some (numV n.toNat) | _ => none) else .null) =
      orNull (a.shards.map fun s => numV s.1) := by
    rw [← hs]
    cases hsh : a.shards with
    | none => rfl
    | some x => rw [hsh] at e3; exact congrArg orNull e3
  have f4 : (if v.usesRs then orNull (recorded ms fun | .rsp n => some (numV n.toNat) | _ => none) else .null) =
      orNull (a.shards.map fun s => numV s.2) := by
    rw [← hs]
    cases hsh : a.shards with
    | none => rfl
    | some x => rw [hsh] at e4; exact congrArg orNull e4
  rw [Option.map_some, hx1, h2] at e8
  unfold shownBlock About.shown
  congr 1
  iterate 3 refine congrArg (List.cons _) ?_
  refine congr (congrArg _ (congrArg (Prod.mk _) (congrArg orNull e1))) ?_
  refine congr (congrArg _ (congrArg (Prod.mk _) (congrArg orNull e2))) ?_
  refine congrArg (List.cons _) ?_
  refine congr (congrArg _ (congrArg (Prod.mk _) f3)) ?_
  refine congr (congrArg _ (congrArg (Prod.mk _) f4)) ?_
  refine congr (congrArg _ (congrArg (Prod.mk _) (congrArg orNull e5))) ?_
  refine congr (congrArg _ (congrArg (Prod.mk _) (congrArg orNull e6))) ?_
  refine congr (congrArg _ (congrArg (Prod.mk _) (congrArg orNull e7))) ?_
  exact congr (congrArg _ (congrArg (Prod.mk _) (congrArg orNull e8))) rfl

/-- Names and dates are plain text (other names: C39). -/
def PlainText (p : Param) (inp : Input) (utc loc : Int64 → Option Str) : Prop :=
  PlainName p.sbxName.toList ∧ (∀ n t, inp.file = some (n, t) → PlainName n.toList) ∧ PlainDates utc loc

theorem shownBlocks_copies {a : About} {v : Version} {uid : Uid} {mp : List Byte} (h : a.Recorded (metasFromBytes mp))
    (hs : a.shards.isSome = v.usesRs) (utc loc : Int64 → Option Str) : ∀ (l : List Nat) (i : Nat),
    shownBlocks utc loc i (l.map fun k => (k * blockLen v, blockOf v uid 0 mp)) =
      (l.zipIdx i).map fun x => a.shown utc loc x.2 (x.1 * blockLen v) v uid
  | [], _ => rfl
  | k :: l, i => by
    rw [List.map_cons, List.zipIdx_cons, List.map_cons, ← shownBlocks_copies h hs utc loc l (i + 1), ← shownBlock_about h utc loc i _ v uid hs]
    rfl

/-- **C54.** `show --json` of the container prints these: for the first metadata block, or with `--show-all` for all of them with their
positions, also if only this container is asked for. -/
theorem C54_show (E : Env) (p : Param) (hE : E.Ok p) (hok : p.Ok) (inp : Input) (hn : NamesOk p inp) (d : Disk) (rep : Report)
    (h : encodeFile E p inp = (d, .ok rep)) (hme : p.metaEnabled = true) (stored : List Byte)
    (hh : Holds E p d rep stored) (utc loc : Int64 → Option Str) (hp : PlainText p inp utc loc) (hf : d.file.length < 2 ^ 63)
    (u : Option Uid) (hu : u = none ∨ u = some p.uid) (stop : Nat → Bool) (hstop : ∀ k, stop k = false) :
    (∃ text, showJson utc loc d.file none none false u false stop = some text ∧ parse text = some (.obj [
        (key "blocks", .arr [(about E p inp stored).shown utc loc 0 0 p.version p.uid]), (key "error", .null)])) ∧
    (∃ text, showJson utc loc d.file none none false u true stop = some text ∧ parse text = some (.obj [
        (key "blocks", .arr ((metaCopies (some true) p.dpb).zipIdx.map fun x =>
          (about E p inp stored).shown utc loc x.2 (x.1 * blockLen p.version) p.version p.uid)), (key "error", .null)])) := by
  obtain ⟨mb, mp, h2, h3, h4, h5⟩ := container_fields hE hok hn h hme hh
  have ha := pack_about (E := E) hok inp h2
  rw [← h5] at ha
  have hs : (about E p inp stored).shards.isSome = p.version.usesRs := by
    have hc := hok.consistent
    unfold verConsistent at hc
    unfold about
    rw [Option.isSome_map]
    exact (beq_iff_eq.1 hc).symm
  have hps : ∀ q ∈ payloads E.rs p.version p.dpb (fileChunks p.version stored), q.length = blockLen p.version - 16 := by
    rw [← dataSize_eq]
    exact (payloads_spec (hE.rsLen hok) hok.valid (fun c hc => by
      rw [dataSize_eq]; exact (mem_chunksOf _ c hc).2.1)).2
  have hplain : NamesPlain (blockOf p.version p.uid 0 mp) := by
    intro ms hms m hm
    have : ms = metasFromBytes mp := (BlockData.metadata.inj hms).symm
    rw [this, h5] at hm
    rcases mem_pack hm with ⟨n, t, hf, rfl⟩ | rfl | ⟨_, rfl⟩ | ⟨_, rfl⟩ | ⟨_, rfl⟩ | rfl | ⟨_, _, rfl | rfl⟩
    · exact hp.2.1 n t hf
    · exact hp.1
    all_goals trivial
  have main : ∀ showAll, ∃ text, showJson utc loc d.file none none false u showAll stop = some text ∧ parse text = some (.obj [
        (key "blocks", .arr (shownBlocks utc loc 0 (showFile d.file none none false u showAll stop))), (key "error", .null)]) := by
    intro showAll
    refine C39_show_partial utc loc hp.2.2 _ hf none none false u showAll stop ?_
    rw [show_container h3 h4 hps hh.numbers u hu showAll stop hstop]
    intro x hx
    obtain ⟨k, -, rfl⟩ := List.mem_map.1 hx
    exact hplain
  refine ⟨?_, ?_⟩
  · obtain ⟨text, t1, t2⟩ := main false
    refine ⟨text, t1, ?_⟩
    rw [t2, show_container h3 h4 hps hh.numbers u hu false stop hstop, if_neg (by simp), shownBlocks_copies ha hs]
    have : (metaCopies (some true) p.dpb).take 1 = [0] := by
      cases p.dpb with
      | none => rfl
      | some d => simp [metaCopies, List.range_succ_eq_map, Nat.add_comm 1]
    rw [this]
    simp
  · obtain ⟨text, t1, t2⟩ := main true
    refine ⟨text, t1, ?_⟩
    rw [t2, show_container h3 h4 hps hh.numbers u hu true stop hstop, if_pos rfl, shownBlocks_copies ha hs]

set_option maxRecDepth 100000 in
/-- A file of 1000 bytes in a container with parity: three copies of the metadata, found by `show --show-all --json`. -/
example : ∃ d rep text, encodeFile (demoEnv fun _ => false) (demoParam .v17 (some ⟨10, 2, 0⟩) none)
      ⟨List.replicate 1000 7, some ("a.txt", some 5)⟩ = (d, .ok rep) ∧
    showJson (fun _ => some "some day".toList) (fun _ => none) d.file none none false none true (fun _ => false) = some text ∧
    parse text = some (.obj [(key "blocks", .arr ([0, 1, 2].zipIdx.map fun x =>
      About.shown ⟨some "a.txt", some 5, "a.sbx", 1234567, 1000, .sha256, beBytes 8 1000 ++ List.replicate 24 0, some (10, 2)⟩
        (fun _ => some "some day".toList) (fun _ => none) x.2 (x.1 * 512) .v17 ⟨[1, 2, 3, 4, 5, 6], rfl⟩)), (key "error", .null)]) := by
  obtain ⟨h1, h2⟩ := demo_ok (v := .v17) (dpb := some ⟨10, 2, 0⟩) none rfl (by simp) (fun _ => false)
  obtain ⟨d, rep, h⟩ := C24_succeeds _ _ h2 h1 ⟨List.replicate 1000 7, some ("a.txt", some 5)⟩ (by
    intro mx hmx
    rw [maxSize_eq h1] at hmx
    cases hmx
    decide +kernel) (by intro _; decide +kernel)
  have hn : NamesOk (demoParam .v17 (some ⟨10, 2, 0⟩) none) ⟨List.replicate 1000 7, some ("a.txt", some 5)⟩ := by
    refine ⟨by decide +kernel, ?_⟩
    intro n t ht
    simp only [Option.some.injEq, Prod.mk.injEq] at ht
    rw [← ht.1]
    decide +kernel
  have hh := C24_whole_input _ _ h2 h1 _ hn d rep (.inr ⟨rfl, rfl⟩) (fun _ => rfl) h
  have hlen : d.file.length < 2 ^ 63 := by
    obtain ⟨mb, hc, -⟩ := hh.container
    obtain ⟨n, hl⟩ := hc.aligned
    rcases n with _ | n
    · omega
    · have hb : blockLen (demoParam .v17 (some ⟨10, 2, 0⟩) none).version = 512 := rfl
      rw [hb] at hl
      rcases hc.tight n (by rw [hl, hb]; omega) with hk | ⟨i, hi, hk⟩
      · have : n ∈ [0, 1, 2] := hk
        simp only [List.mem_cons, List.not_mem_nil, or_false] at this
        omega
      · have hl12 : (payloads (demoEnv fun _ => false).rs .v17 (some ⟨10, 2, 0⟩) (fileChunks .v17 (List.replicate 1000 7))).length = 12 := by
          decide +kernel
        have : ∀ i < 12, Layout.dataWriteIndex (i + 1) (some true) (some ⟨10, 2, 0⟩) < 100 := by decide +kernel
        have := this i (by rw [← hl12]; exact hi)
        have e : Layout.dataWriteIndex (i + 1) (some true) (some ⟨10, 2, 0⟩) = n := hk
        omega
  have hp : PlainText (demoParam .v17 (some ⟨10, 2, 0⟩) none) ⟨List.replicate 1000 7, some ("a.txt", some 5)⟩
      (fun _ => some "some day".toList) (fun _ => none) := by
    refine ⟨?_, ?_, ?_⟩
    · exact ⟨⟨by decide, by decide, by decide, by decide⟩, by decide, by decide, by decide, by decide, not_odd (by decide)⟩
    · intro n t ht
      simp only [Option.some.injEq, Prod.mk.injEq] at ht
      rw [← ht.1]
      exact ⟨⟨by decide, by decide, by decide, by decide⟩, by decide, by decide, by decide, by decide, not_odd (by decide)⟩
    · intro t s hs
      rcases hs with hs | hs
      · cases hs
        exact ⟨by decide, by decide, by decide, by decide⟩
      · cases hs
  obtain ⟨-, text, t1, t2⟩ := C54_show _ _ h2 h1 _ hn d rep h rfl _ hh (fun _ => some "some day".toList) (fun _ => none) hp hlen
    none (.inl rfl) (fun _ => false) (fun _ => rfl)
  · refine ⟨d, rep, text, h, t1, ?_⟩
    have ha : about (demoEnv fun _ => false) (demoParam .v17 (some ⟨10, 2, 0⟩) none)
        ⟨List.replicate 1000 7, some ("a.txt", some 5)⟩ (List.replicate 1000 7) =
        ⟨some "a.txt", some 5, "a.sbx", 1234567, 1000, .sha256, beBytes 8 1000 ++ List.replicate 24 0, some (10, 2)⟩ := by
      unfold about
      rw [List.length_replicate]
      congr 1
    rw [t2, ha]
    rfl

end Verif.Encode
