import Verif.Props.UpdateAsked
import Verif.Props.Session
/-!
# C85: `update` decides under which name `decode` restores the file
-/

namespace Verif.Cli
open PathSpec Command CliSpec RescueSpec SessionSpec History Format

/-- What a successful `update` on the command line leaves. -/
theorem updated {S : Setting} (hS : S.Ok) {ms : List Metadata} {f : File} (hk : History.Kept S ms f) {T : Shell} (hw : T.world.fs.Ok) {m : Matches}
    {c : Update.Cli} {i : List Char} (h : GivenUpdate m c i) {cp : Place} (h1 : leads T.world.fs T.world.cwd i = some cp)
    (h2 : T.world.fs cp = some (.file f)) (h3 : T.world.canOpen cp = true) (hd : m.flag .dryRun = false) (hg : GoesAhead T m)
    (hE : T.upd.Calm) (hH : T.upd.hash = S.hash) (hq : Request S c) {fs1 : Fs} (hrun : T.run m .update = (fs1, .ok)) :
    fs1.Ok ∧ ∃ g ms', fs1 cp = some (.file g) ∧ History.Kept S ms' g ∧
      getMeta ms' .fnm = if c.noFnm then none else match c.fnm with | some s => some (.fnm s) | none => getMeta ms .fnm := by
  obtain ⟨u1, u2⟩ := C57_update T hw m c i h cp f h1 h2 h3 hd hg
  rw [hrun] at u1 u2
  obtain ⟨st, hst⟩ := u2.1 rfl
  rw [hH] at u1 hst
  obtain ⟨ms', k1, k2, -⟩ := ComposeSpec.C28_asked S hS ms f hk T.upd hE hH c hq (by rw [h.dryRun]; exact hd) st hst
  simp only at u1
  refine ⟨by rw [u1]; exact set_file_ok hw h2 _, _, ms', ?_, k1, k2⟩
  rw [u1]
  simp only [Fs.set, if_true]

/-- **C85.** A new name stays. After `update --fnm n` of a container, and then any commands that do not write the container, updates of other
fields, damage that `repair` can deal with and repairs, `decode` restores the stored file and calls it `n`. -/
theorem C85_later (S : Setting) (hS : S.Ok) (ms : List Metadata) (f : File) (hk : History.Kept S ms f) (T : Shell) (hw : T.world.fs.Ok) (m : Matches)
    (c : Update.Cli) (i : List Char) (h : GivenUpdate m c i) (cp : Place) (h1 : leads T.world.fs T.world.cwd i = some cp)
    (h2 : T.world.fs cp = some (.file f)) (h3 : T.world.canOpen cp = true) (hd : m.flag .dryRun = false) (hg : GoesAhead T m)
    (hE : T.upd.Calm) (hH : T.upd.hash = S.hash) (hq : Request S c) (n : Name) (hn : IsName n) (hc : c.fnm = some (String.ofList n)) (fs1 : Fs)
    (hrun : T.run m .update = (fs1, .ok)) (ids : List MetaId) (fs2 : Fs) (hlife : Life S cp ids fs1 fs2) (hids : MetaId.fnm ∉ ids)
    (T' : Shell) (k : Matches) (q : Decode.Param) (b : DecodeArgs) (d : Place) (hT : T'.world.fs = fs2)
    (hH' : T'.dec.hash = S.hash) (hb : k.value .burst ≠ none ∨ k.value .guessBurstFrom = none ∧ ∀ x, S.dpb = some x → x.burst ≤ 1000)
    (hi : DecodesInto T' k q b cp d (d ++ [n])) : T'.run k .decode = (fs2.set (d ++ [n]) S.bytes, .ok) := by
  obtain ⟨ok1, g, ms', g1, g2, g3⟩ := updated hS hk hw h h1 h2 h3 hd hg hE hH hq hrun
  have hno : c.noFnm = false := by
    cases hx : c.noFnm with
    | false => rfl
    | true => have := hq.ok.1 hx; rw [hc] at this; cases this
  rw [hno, hc] at g3
  have hburst : q.ref.burst ≠ none ∨ q.ref.guessBurstFrom = none ∧ ∀ d, S.dpb = some d → d.burst ≤ 1000 := by
    rcases hb with hb | ⟨hb, hx⟩
    · exact .inl (given_some hi.given.ref.burst hb)
    · exact .inr ⟨given_none hi.given.ref.guess hb, hx⟩
  obtain ⟨ok2, g', ms2, l1, l2, l3, -⟩ := C71_life S hS cp ms' g g2 ids fs1 fs2 ok1 g1 hlife
  obtain ⟨mp, pos, dpb, e1, e2, e3, e4⟩ := kept_decodes hS l2 hi.calm hH' hi.whole hi.ref hburst
  rw [← hT]
  refine decodes_into hi (by rw [hT]; exact ok2) hn (by rw [hT]; exact l1) ?_ e2 e3 e4
  rw [e1, get_filter, l3 _ hids, ← get_filter]
  exact g3

/-- **C85.** After `update --fnm n` of a container, `decode`, told no name for its output or a directory, restores the stored file, and calls it `n`
whatever it was called before. -/
theorem C85_renamed (S : Setting) (hS : S.Ok) (ms : List Metadata) (f : File) (hk : History.Kept S ms f) (T : Shell) (hw : T.world.fs.Ok) (m : Matches)
    (c : Update.Cli) (i : List Char) (h : GivenUpdate m c i) (cp : Place) (h1 : leads T.world.fs T.world.cwd i = some cp)
    (h2 : T.world.fs cp = some (.file f)) (h3 : T.world.canOpen cp = true) (hd : m.flag .dryRun = false) (hg : GoesAhead T m)
    (hE : T.upd.Calm) (hH : T.upd.hash = S.hash) (hq : Request S c) (n : Name) (hn : IsName n) (hc : c.fnm = some (String.ofList n)) (fs1 : Fs)
    (hrun : T.run m .update = (fs1, .ok)) (T' : Shell) (k : Matches) (q : Decode.Param) (b : DecodeArgs) (d : Place) (hT : T'.world.fs = fs1)
    (hH' : T'.dec.hash = S.hash) (hb : k.value .burst ≠ none ∨ k.value .guessBurstFrom = none ∧ ∀ x, S.dpb = some x → x.burst ≤ 1000)
    (hi : DecodesInto T' k q b cp d (d ++ [n])) : T'.run k .decode = (fs1.set (d ++ [n]) S.bytes, .ok) := by
  exact C85_later S hS ms f hk T hw m c i h cp h1 h2 h3 hd hg hE hH hq n hn hc fs1 hrun [] fs1 .start (by simp) T' k q b d hT hH' hb hi

/-- **C85.** After `update --no-fnm` of a container, `decode` has to be told a name: told none, or a directory, it fails and writes nothing. -/
theorem C85_nameless (S : Setting) (hS : S.Ok) (ms : List Metadata) (f : File) (hk : History.Kept S ms f) (T : Shell) (hw : T.world.fs.Ok) (m : Matches)
    (c : Update.Cli) (i : List Char) (h : GivenUpdate m c i) (cp : Place) (h1 : leads T.world.fs T.world.cwd i = some cp)
    (h2 : T.world.fs cp = some (.file f)) (h3 : T.world.canOpen cp = true) (hd : m.flag .dryRun = false) (hg : GoesAhead T m)
    (hE : T.upd.Calm) (hH : T.upd.hash = S.hash) (hq : Request S c) (hc : c.noFnm = true) (fs1 : Fs)
    (hrun : T.run m .update = (fs1, .ok)) (T' : Shell) (k : Matches) (q : Decode.Param) (b : DecodeArgs) (d dst : Place) (hT : T'.world.fs = fs1)
    (hi : DecodesInto T' k q b cp d dst) : (T'.run k .decode).1 = fs1 ∧ (T'.run k .decode).2 ≠ .ok := by
  obtain ⟨ok1, g, ms', g1, g2, g3⟩ := updated hS hk hw h h1 h2 h3 hd hg hE hH hq hrun
  rw [hc, if_pos rfl] at g3
  obtain ⟨mp, hcon, hmp, hms⟩ := g2.container
  have href := Decode.ref_at_start hi.ref hi.calm.stopRef (T'.dec.stop 0) (Decode.container_start hcon ⟨rfl, metasToBytes_length hms⟩)
  have hrec : recordedName (blockOf S.version S.uid 0 mp) = .ok none := by
    unfold recordedName
    rw [refFnm_meta Decode.metas_blockOf, hmp, g3]
  have hout : T'.world.decodeOut b.out none = .error .noName := by
    obtain ⟨i1, ⟨i2, i3⟩ | ⟨o, i2, i3, i4⟩⟩ := hi.out
    · rw [i2]; rfl
    · rw [i2]
      have hdr : T'.world.isDir o = true := by
        unfold World.isDir at?
        rw [i4, Option.bind_some, i1]
      unfold World.decodeOut
      simp only
      rw [if_neg (show ¬ o = dash from i3), hdr]
      rfl
  have hdec : T'.world.decode T'.dec q b = (fs1, .error .noName) := by
    unfold World.decode
    rw [input_of_leads (by rw [hT]; exact ok1) hi.input (by rw [hT]; exact g1)]
    dsimp only
    rw [href]
    dsimp only
    rw [hrec]
    dsimp only
    rw [hout, hT]
  obtain ⟨d1, d2⟩ := C57_decode T' k q b hi.given
  rw [hdec] at d1 d2
  exact ⟨d1, fun e => by cases d2.1 e⟩

/-! ### Instances -/

/-- A shell in which a container that stores 600 bytes may be updated and decoded. -/
noncomputable def renameShell (fs : Fs) : Shell := { deskShell fs with upd := Update.calmEnv, dec := Decode.calmEnv }

/-- `update b --fnm c --skip-warning`, then `decode b`: there is a file `c`. -/
example : ∃ f fs1, History.Kept ComposeSpec.small [.fnm "a", .fsz 600] f ∧
    (renameShell (desk [(['b'], f)])).run (table [(.inFile, "b"), (.fnm, "c")] [.skipWarning]) .update = (fs1, .ok) ∧
    (renameShell fs1).run (table [(.inFile, "b")] []) .decode = (fs1.set [['c']] Decode.demoBytes, .ok) := by
  obtain ⟨f, hk⟩ := ComposeSpec.small_kept
  have hg : GivenUpdate (table [(.inFile, "b"), (.fnm, "c")] [.skipWarning]) ⟨some "c", none, none, false, false, false, false, none⟩ ['b'] :=
    (read_update _ _ _).1 (by rfl)
  have hq : Request ComposeSpec.small ⟨some "c", none, none, false, false, false, false, none⟩ :=
    ⟨⟨by simp, by simp, by simp⟩, (by intro s hs; cases hs; decide +kernel), (by intro s hs; cases hs), (by intro t ht; cases ht),
      ComposeSpec.small_burst _⟩
  obtain ⟨⟨st, hst⟩, -⟩ := ComposeSpec.small_runs hk _ hq rfl (by
    change metaSpace (UpdateSpec.changed [.fnm "c"] [] [.fnm "a", .fsz 600]) ≤ 496
    decide +kernel)
  obtain ⟨u1, u2⟩ := C57_update (renameShell (desk [(['b'], f)])) (desk_ok _) _ _ _ hg [['b']] f (b_leads (desk_ok _)) (by rfl) rfl rfl (.inl rfl)
  have hrun : (renameShell (desk [(['b'], f)])).run (table [(.inFile, "b"), (.fnm, "c")] [.skipWarning]) .update = (_, .ok) :=
    Prod.ext u1 (u2.2 ⟨st, hst⟩)
  refine ⟨f, _, hk, hrun, ?_⟩
  have hok := (updated ComposeSpec.small_ok hk (desk_ok _) hg (b_leads (desk_ok _)) (by rfl) rfl rfl (.inl rfl) Update.calm rfl hq hrun).1
  exact C85_renamed ComposeSpec.small ComposeSpec.small_ok _ f hk (renameShell (desk [(['b'], f)])) (desk_ok _) _ _ _ hg [['b']]
    (b_leads (desk_ok _)) (by rfl) rfl rfl (.inl rfl) Update.calm rfl hq ['c'] ⟨by decide, by decide, by decide, by decide, by decide⟩ rfl _ hrun
    (renameShell _) (table [(.inFile, "b")] []) Decode.plainParam ⟨['b'], none, false⟩ [] rfl rfl (.inr ⟨rfl, by intro x hx; cases hx⟩)
    ⟨(read_decode _ _ _).1 (by with_unfolding_all rfl), Decode.calm, ⟨rfl, rfl, rfl⟩, rfl, ⟨rfl, rfl⟩, ⟨rfl, rfl⟩, b_leads hok,
      ⟨hok.root, .inl ⟨rfl, rfl⟩⟩, by decide, rfl, .inl (by rfl)⟩

/-- `update b --no-fnm --skip-warning`, then `decode b`: an error, and no file. -/
example : ∃ f fs1, History.Kept ComposeSpec.small [.fnm "a", .fsz 600] f ∧
    (renameShell (desk [(['b'], f)])).run (table [(.inFile, "b")] [.noFnm, .skipWarning]) .update = (fs1, .ok) ∧
    ((renameShell fs1).run (table [(.inFile, "b")] []) .decode).1 = fs1 ∧ ((renameShell fs1).run (table [(.inFile, "b")] []) .decode).2 ≠ .ok := by
  obtain ⟨f, hk⟩ := ComposeSpec.small_kept
  have hg : GivenUpdate (table [(.inFile, "b")] [.noFnm, .skipWarning]) ⟨none, none, none, true, false, false, false, none⟩ ['b'] :=
    (read_update _ _ _).1 (by rfl)
  have hq : Request ComposeSpec.small ⟨none, none, none, true, false, false, false, none⟩ :=
    ⟨⟨by simp, by simp, by simp⟩, (by intro s hs; cases hs), (by intro s hs; cases hs), (by intro t ht; cases ht), ComposeSpec.small_burst _⟩
  obtain ⟨⟨st, hst⟩, -⟩ := ComposeSpec.small_runs hk _ hq rfl (by
    change metaSpace (UpdateSpec.changed [] [.fnm] [.fnm "a", .fsz 600]) ≤ 496
    decide +kernel)
  obtain ⟨u1, u2⟩ := C57_update (renameShell (desk [(['b'], f)])) (desk_ok _) _ _ _ hg [['b']] f (b_leads (desk_ok _)) (by rfl) rfl rfl (.inl rfl)
  have hrun : (renameShell (desk [(['b'], f)])).run (table [(.inFile, "b")] [.noFnm, .skipWarning]) .update = (_, .ok) :=
    Prod.ext u1 (u2.2 ⟨st, hst⟩)
  have hok := (updated ComposeSpec.small_ok hk (desk_ok _) hg (b_leads (desk_ok _)) (by rfl) rfl rfl (.inl rfl) Update.calm rfl hq hrun).1
  refine ⟨f, _, hk, hrun, ?_⟩
  exact C85_nameless ComposeSpec.small ComposeSpec.small_ok _ f hk (renameShell (desk [(['b'], f)])) (desk_ok _) _ _ _ hg [['b']]
    (b_leads (desk_ok _)) (by rfl) rfl rfl (.inl rfl) Update.calm rfl hq rfl _ hrun
    (renameShell _) (table [(.inFile, "b")] []) Decode.plainParam ⟨['b'], none, false⟩ [] [['c']] rfl
    ⟨(read_decode _ _ _).1 (by with_unfolding_all rfl), Decode.calm, ⟨rfl, rfl, rfl⟩, rfl, ⟨rfl, rfl⟩, ⟨rfl, rfl⟩, b_leads hok,
      ⟨hok.root, .inl ⟨rfl, rfl⟩⟩, by decide, rfl, .inl (by rfl)⟩

/-- `update b --fnm c --skip-warning`, `update b --snm x --skip-warning`, then `decode b`: there is a file `c`. -/
example : ∃ f fs1, History.Kept ComposeSpec.small [.fnm "a", .fsz 600] f ∧
    (renameShell (desk [(['b'], f)])).run (table [(.inFile, "b"), (.fnm, "c")] [.skipWarning]) .update = (fs1, .ok) ∧
    ∃ fs2 r, (renameShell fs1).run (table [(.inFile, "b"), (.snm, "x")] [.skipWarning]) .update = (fs2, r) ∧
      (renameShell fs2).run (table [(.inFile, "b")] []) .decode = (fs2.set [['c']] Decode.demoBytes, .ok) := by
  obtain ⟨f, hk⟩ := ComposeSpec.small_kept
  have hg : GivenUpdate (table [(.inFile, "b"), (.fnm, "c")] [.skipWarning]) ⟨some "c", none, none, false, false, false, false, none⟩ ['b'] :=
    (read_update _ _ _).1 (by rfl)
  have hq : Request ComposeSpec.small ⟨some "c", none, none, false, false, false, false, none⟩ :=
    ⟨⟨by simp, by simp, by simp⟩, (by intro s hs; cases hs; decide +kernel), (by intro s hs; cases hs), (by intro t ht; cases ht),
      ComposeSpec.small_burst _⟩
  obtain ⟨⟨st, hst⟩, -⟩ := ComposeSpec.small_runs hk _ hq rfl (by
    change metaSpace (UpdateSpec.changed [.fnm "c"] [] [.fnm "a", .fsz 600]) ≤ 496
    decide +kernel)
  obtain ⟨u1, u2⟩ := C57_update (renameShell (desk [(['b'], f)])) (desk_ok _) _ _ _ hg [['b']] f (b_leads (desk_ok _)) (by rfl) rfl rfl (.inl rfl)
  obtain ⟨fs1, hrun, hc1⟩ : ∃ fs1, (renameShell (desk [(['b'], f)])).run (table [(.inFile, "b"), (.fnm, "c")] [.skipWarning]) .update = (fs1, .ok) ∧
      fs1 [['c']] = none := ⟨_, Prod.ext u1 (u2.2 ⟨st, hst⟩), by rfl⟩
  obtain ⟨hok, g, ms', g1, g2, -⟩ :=
    updated ComposeSpec.small_ok hk (desk_ok _) hg (b_leads (desk_ok _)) (by rfl) rfl rfl (.inl rfl) Update.calm rfl hq hrun
  refine ⟨f, fs1, hk, hrun, _, _, rfl, ?_⟩
  have hg2 : GivenUpdate (table [(.inFile, "b"), (.snm, "x")] [.skipWarning]) ⟨none, some "x", none, false, false, false, false, none⟩ ['b'] :=
    (read_update _ _ _).1 (by rfl)
  have hq2 : Request ComposeSpec.small ⟨none, some "x", none, false, false, false, false, none⟩ :=
    ⟨⟨by simp, by simp, by simp⟩, (by intro s hs; cases hs), (by intro s hs; cases hs; decide +kernel), (by intro t ht; cases ht),
      ComposeSpec.small_burst _⟩
  have life := Life.update (S := ComposeSpec.small) (renameShell fs1) _ _ _ (.start (fs := fs1) (cp := [['b']])) hg2 (b_leads hok) Update.calm rfl hq2
    (by simp)
  obtain ⟨v1, -⟩ := C57_update (renameShell fs1) hok _ _ _ hg2 [['b']] g (b_leads hok) g1 rfl rfl (.inl rfl)
  have hok2 : ((renameShell fs1).run (table [(.inFile, "b"), (.snm, "x")] [.skipWarning]) .update).1.Ok := by
    rw [v1]; exact set_file_ok hok g1 _
  have hc2 : ((renameShell fs1).run (table [(.inFile, "b"), (.snm, "x")] [.skipWarning]) .update).1 [['c']] = none := by
    rw [v1, ← hc1]; rfl
  exact C85_later ComposeSpec.small ComposeSpec.small_ok _ f hk (renameShell (desk [(['b'], f)])) (desk_ok _) _ _ _ hg [['b']]
    (b_leads (desk_ok _)) (by rfl) rfl rfl (.inl rfl) Update.calm rfl hq ['c'] ⟨by decide, by decide, by decide, by decide, by decide⟩ rfl _ hrun
    _ _ life (by decide)
    (renameShell _) (table [(.inFile, "b")] []) Decode.plainParam ⟨['b'], none, false⟩ [] rfl rfl (.inr ⟨rfl, by intro x hx; cases hx⟩)
    ⟨(read_decode _ _ _).1 (by with_unfolding_all rfl), Decode.calm, ⟨rfl, rfl, rfl⟩, rfl, ⟨rfl, rfl⟩, ⟨rfl, rfl⟩, b_leads hok2,
      ⟨hok2.root, .inl ⟨rfl, rfl⟩⟩, by decide, rfl, .inl hc2⟩

end Verif.Cli
