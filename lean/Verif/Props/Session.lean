import Verif.Spec.Session
import Verif.Props.CliRescue
import Verif.Props.History
/-!
# C71: files are safe from all commands that are not told to write them
-/

namespace Verif.Cli
open PathSpec Command CliSpec RescueSpec SessionSpec

/-! ### One command -/

/-- What is known of a place that has changed. -/
structure Written (w : World) (fs : Fs) (q : Place) : Prop where
  file : ∃ c, fs q = some (.file c)
  noDir : w.fs q ≠ some .dir
  up : ∃ d n, q = d ++ [n] ∧ w.fs d = some .dir

theorem written_set {w : World} {path : List Char} (hw : w.fs.Ok) {q : Place} (h1 : leads w.fs w.cwd path = some q) (h2 : w.fs q ≠ some .dir)
    (c : File) : Written w (w.fs.set q c) q := by
  obtain ⟨_, n, d, -, -, -, h3, -, h4⟩ := leads_file hw h1 h2
  exact ⟨⟨c, by unfold Fs.set; rw [if_pos rfl]⟩, h2, d, n, h3, h4⟩

theorem not_flag {b : Bool} (h : ¬ b = true) : b = false := by simpa using h

theorem passes_none {m : Matches} {x : Option Decode.MultiPass} (h : GivenPasses m x) (h1 : m.flag .multiPass = false)
    (h2 : m.flag .multiPassNoSkip = false) : x = none := by
  rcases h with ⟨x, -⟩ | ⟨-, x, -⟩ | ⟨-, -, x⟩
  · exact x
  · rw [h1] at x; cases x
  · rw [h2] at x; cases x

theorem setLog_kept {fs : Fs} {lp : Option Place} {log : Option File} {q : Place} (h : fs q ≠ none) : setLog fs lp log q ≠ none := by
  unfold setLog
  split
  · unfold Fs.set
    split
    · simp
    · exact h
  · exact h

/-- `rescue` makes and removes no directory, and removes no file. -/
theorem rescued_dirs {w : World} {E : Rescue.Env} {p : Rescue.Param} {i o : List Char} {l : Option (List Char)} {d : Place}
    (ho : leads w.fs w.cwd o = some d) (hd : w.fs d = some .dir) (ha : ∀ lp old, LogAt w l lp old → Apart w i o lp) {r : Fs × Bool}
    (h : w.Rescued E p i o l r) : SameDirs w.fs r.1 ∧ ∀ q, w.fs q ≠ none → r.1 q ≠ none := by
  cases h with
  | badLog => exact ⟨fun _ => Iff.rfl, fun _ h => h⟩
  | noLog => exact ⟨fun _ => Iff.rfl, fun _ h => h⟩
  | refused => exact ⟨fun _ => Iff.rfl, fun _ h => h⟩
  | directory a b hlog =>
    exact ⟨setLog_dirs (fun _ => Iff.rfl) (fun q hq => by subst hq; exact logAt_not_dir hlog), fun q hq => setLog_kept hq⟩
  | mixed a b c => exact absurd (ha _ _ b) c
  | @ran ip' f' lp old c k s done rest fs log a b hlog hap hc hsteps hterm hhung hev hput hrest hleft =>
    have hn : HexNames done := fun name bs hm => steps_names hsteps name bs (by rw [hev]; exact List.mem_append_left _ hm)
    have hg := putAll_grown ho hd hn hput
    refine ⟨setLog_dirs hg.dirs ?_, fun q hq => setLog_kept (hg.kept q hq)⟩
    intro q hq e
    subst hq
    exact logAt_not_dir hlog ((hg.dirs q).2 e)

/-- **C71, one command.** If a command changes something at `q`, then there is a file now, there was no directory, it is in a directory that existed
before, and the command may write it. -/
theorem C71_command (T : Shell) (hw : T.world.fs.Ok) (m : Matches) (c : Cmd) (hf : Faithful T m c) (q : Place)
    (h : (T.run m c).1 q ≠ T.world.fs q) : Written T.world (T.run m c).1 q ∧ MayWrite T.world m q c := by
  cases c with
  | «calc» => exact absurd rfl h
  | check => exact absurd rfl h
  | «show» => exact absurd rfl h
  | encode =>
    by_cases hi : m.flag .infoOnly = true
    · rw [C57_looks T m .encode hi] at h
      exact absurd rfl h
    · cases hr : readEncode m T.random with
      | error e =>
        exfalso
        simp only [Shell.run] at h
        unfold Shell.encode at h
        rw [hr] at h
        exact h rfl
      | ok pa =>
        obtain ⟨p, a⟩ := pa
        have hg := (read_encode _ _ _ _).1 hr
        obtain ⟨e1, -⟩ := C57_encode T m p a hg (not_flag hi)
        rw [e1] at h ⊢
        refine ⟨?_, not_flag hi, ?_, p.version, p.dpb, a.inFile, a.out, hg.settings, hg.inFile, hg.out, (C50_encode_place T.world hw T.enc p a q h).1⟩
        · rcases encode_cases T.world T.enc p a with e | ⟨out, q1, c, -, ⟨old, h2⟩, e, -⟩
          · rw [e] at h; exact absurd rfl h
          · rw [e] at h ⊢
            cases set_ne h
            obtain ⟨l1, l2, -⟩ := open_some h2
            exact written_set hw l1 l2 c
        · by_contra hc
          rw [not_or] at hc
          exact h (C50_encode_keeps T.world T.enc p a (by rw [hg.force]; exact not_flag hc.2) q hc.1)
  | decode =>
    cases hr : readDecode m with
    | error e =>
      exfalso
      simp only [Shell.run] at h
      unfold Shell.decode at h
      rw [hr] at h
      exact h rfl
    | ok pa =>
      obtain ⟨p, a⟩ := pa
      have hg := (read_decode _ _ _).1 hr
      obtain ⟨e1, -⟩ := C57_decode T m p a hg
      rw [e1] at h ⊢
      refine ⟨?_, ?_, a.out, hg.out, (C50_decode_place T.world T.dec p a q h).1⟩
      · rcases decode_cases T.world T.dec p a with e | ⟨ref, recorded, out, q1, c, -, -, -, ⟨old, h2⟩, e⟩
        · rw [e] at h; exact absurd rfl h
        · rw [e] at h ⊢
          cases set_ne h
          obtain ⟨l1, l2, -⟩ := open_some h2
          exact written_set hw l1 l2 c
      · by_contra hc
        rw [not_or, not_or, not_or] at hc
        exact h (C50_decode_keeps T.world T.dec p a (by rw [hg.force]; exact not_flag hc.2.1)
          (passes_none hg.passes (not_flag hc.2.2.1) (not_flag hc.2.2.2)) q hc.1)
  | sort =>
    cases hr : readSort m with
    | error e =>
      exfalso
      simp only [Shell.run] at h
      unfold Shell.sort at h
      rw [hr] at h
      exact h rfl
    | ok pa =>
      obtain ⟨p, a⟩ := pa
      have hg := (read_sort _ _ _).1 hr
      obtain ⟨e1, -⟩ := C57_sort T m p a hg
      rw [e1] at h ⊢
      obtain ⟨k1, k2, -⟩ := C50_sort_place T.world hw T.srt p a _ q h
      refine ⟨?_, k1, ?_, a.inFile, a.out, hg.inFile, hg.out, k2⟩
      · rcases sort_cases T.world T.srt p a (m.flag .dryRun) with e | ⟨out, q1, c, -, -, ⟨old, h2⟩, e, -⟩
        · rw [e] at h; exact absurd rfl h
        · rw [e] at h ⊢
          cases set_ne h
          obtain ⟨l1, l2, -⟩ := open_some h2
          exact written_set hw l1 l2 c
      · by_contra hc
        rw [not_or, not_or, not_or] at hc
        exact h (C50_sort_keeps T.world T.srt p a _ (by rw [hg.force]; exact not_flag hc.2.1)
          (passes_none hg.passes (not_flag hc.2.2.1) (not_flag hc.2.2.2)) q hc.1)
  | repair =>
    simp only [Shell.run] at h ⊢
    rcases repair_fs T m with e | ⟨b, i, pl, f, c, hg, hin, hd, -, -, e⟩
    · rw [e] at h; exact absurd rfl h
    · rw [e] at h ⊢
      cases set_ne h
      obtain ⟨k1, k2, -⟩ := (input_iff _ _ _ _).1 hin
      exact ⟨written_set hw k1 (by rw [k2]; simp) c, hd, ⟨f, k2⟩, i, hg.inFile, k1⟩
  | update =>
    simp only [Shell.run] at h ⊢
    rcases update_fs T m with e | ⟨b, i, pl, f, c, hg, hin, hd, -, -, e⟩
    · rw [e] at h; exact absurd rfl h
    · rw [e] at h ⊢
      cases set_ne h
      obtain ⟨k1, k2, -⟩ := (input_iff _ _ _ _).1 hin
      exact ⟨written_set hw k1 (by rw [k2]; simp) c, hd, ⟨f, k2⟩, i, hg.inFile, k1⟩
  | rescue =>
    cases hr : readRescue m with
    | error e =>
      exfalso
      simp only [Shell.run] at h
      unfold Shell.rescue at h
      rw [hr] at h
      exact h rfl
    | ok pa =>
      obtain ⟨p, i, o, l⟩ := pa
      have hg := (read_rescue _ _ _ _ _).1 hr
      have hif : T.world.exists i = true ∧ T.world.isDir o = true ∧ (T.run m .rescue).1 = (T.rescued p i o l).1 := by
        simp only [Shell.run] at h ⊢
        unfold Shell.rescue at h ⊢
        rw [hr] at h ⊢
        dsimp only at h ⊢
        split at h
        · exact absurd rfl h
        · split at h
          · exact absurd rfl h
          · split at h
            · exact absurd rfl h
            · rename_i h1 h2 h3
              rw [if_neg h1, if_neg h2, if_neg h3]
              exact ⟨by simpa using h1, by simpa using h3, rfl⟩
      obtain ⟨h1, h2, h3⟩ := hif
      rw [h3] at h ⊢
      obtain ⟨⟨E, hE⟩, hap⟩ := hf rfl p i o l hg h1 h2
      obtain ⟨d, ho, hd⟩ : ∃ d, leads T.world.fs T.world.cwd o = some d ∧ T.world.fs d = some .dir := by
        unfold World.isDir PathSpec.at? at h2
        cases e : leads T.world.fs T.world.cwd o with
        | none => rw [e] at h2; simp at h2
        | some d =>
          rw [e] at h2
          refine ⟨d, rfl, ?_⟩
          simp only [Option.bind_some] at h2
          split at h2
          · assumption
          · simp at h2
      obtain ⟨hdirs, hkept⟩ := rescued_dirs ho hd hap hE
      have hnd : T.world.fs q ≠ some .dir := fun e => h (by rw [e]; exact (hdirs q).1 e)
      have hfile : ∃ c, (T.rescued p i o l).1 q = some (.file c) := by
        cases e : (T.rescued p i o l).1 q with
        | none =>
          by_cases e' : T.world.fs q = none
          · exact absurd (e.trans e'.symm) h
          · exact absurd e (hkept q e')
        | some node => cases node with
          | dir => exact absurd ((hdirs q).2 e) hnd
          | file c => exact ⟨c, rfl⟩
      rcases C70_places T.world E p i o l d ho hd hap _ hE q h with ⟨u, c, k1, -, -⟩ | ⟨path, k1, k2, k3⟩
      · exact ⟨⟨hfile, hnd, d, hexName u, k1, hd⟩, .inl ⟨o, d, u, hg.outDir, ho, k1⟩⟩
      · obtain ⟨_, n, e, -, -, -, k4, -, k5⟩ := leads_file hw k2 hnd
        refine ⟨⟨hfile, hnd, e, n, k4, k5⟩, .inr ⟨path, ?_, k2, k3⟩⟩
        rcases hg.log with ⟨-, x⟩ | ⟨s, x, y⟩
        · rw [x] at k1; cases k1
        · rw [y] at k1; cases k1; exact ⟨s, x, rfl⟩

/-- **C71, one file.** Every command except `rescue` changes at most one file. -/
theorem C71_one (T : Shell) (m : Matches) (c : Cmd) (hc : c ≠ .rescue) (q q' : Place)
    (h : (T.run m c).1 q ≠ T.world.fs q) (h' : (T.run m c).1 q' ≠ T.world.fs q') : q = q' := by
  have key : (T.run m c).1 = T.world.fs ∨ ∃ x y, (T.run m c).1 = T.world.fs.set x y := by
    cases c with
    | «calc» => exact .inl rfl
    | check => exact .inl rfl
    | «show» => exact .inl rfl
    | rescue => exact absurd rfl hc
    | encode =>
      simp only [Shell.run]
      unfold Shell.encode
      split
      · exact .inl rfl
      · rename_i p a _
        split
        · exact .inl rfl
        · have := encode_cases T.world T.enc p a
          split <;> rename_i he <;> rw [he] at this <;> exact this.imp_right fun ⟨_, x, y, _, _, e, _⟩ => ⟨x, y, e⟩
    | decode =>
      simp only [Shell.run]
      unfold Shell.decode
      split
      · exact .inl rfl
      · rename_i p a _
        have := decode_cases T.world T.dec p a
        split <;> rename_i he <;> rw [he] at this <;> exact this.imp_right fun ⟨_, _, _, x, y, _, _, _, _, e⟩ => ⟨x, y, e⟩
    | sort =>
      simp only [Shell.run]
      unfold Shell.sort
      split
      · exact .inl rfl
      · rename_i p a _
        have := sort_cases T.world T.srt p a (m.flag .dryRun)
        split <;> rename_i he <;> rw [he] at this <;> exact this.imp_right fun ⟨_, x, y, _, _, _, e, _⟩ => ⟨x, y, e⟩
    | repair => exact (repair_fs T m).imp_right fun ⟨_, _, x, _, y, _, _, _, _, _, e⟩ => ⟨x, y, e⟩
    | update => exact (update_fs T m).imp_right fun ⟨_, _, x, _, y, _, _, _, _, _, e⟩ => ⟨x, y, e⟩
  rcases key with e | ⟨x, y, e⟩
  · rw [e] at h; exact absurd rfl h
  · rw [e] at h h'
    rw [set_ne h, set_ne h']

/-! ### Sequences of commands -/

/-- The files stay as files should be. -/
theorem run_ok (T : Shell) (hw : T.world.fs.Ok) (m : Matches) (c : Cmd) (hf : Faithful T m c) :
    (T.run m c).1.Ok ∧ SameDirs T.world.fs (T.run m c).1 := by
  have hdirs : SameDirs T.world.fs (T.run m c).1 := by
    intro q
    by_cases hq : (T.run m c).1 q = T.world.fs q
    · rw [hq]
    · obtain ⟨⟨⟨x, h1⟩, h2, -⟩, -⟩ := C71_command T hw m c hf q hq
      rw [h1]
      exact ⟨fun e => absurd e h2, fun e => by cases e⟩
  refine ⟨⟨(hdirs _).1 hw.root, fun pl n hne => (hdirs pl).1 ?_⟩, hdirs⟩
  by_cases hq : (T.run m c).1 (pl ++ [n]) = T.world.fs (pl ++ [n])
  · rw [hq] at hne
    exact hw.up pl n hne
  · obtain ⟨⟨-, -, d, n', h1, h2⟩, -⟩ := C71_command T hw m c hf _ hq
    rw [(List.append_inj' h1 rfl).1]
    exact h2

/-- **C71.** After any number of commands, run with any options in any directories and surroundings, whatever they meet and whether they succeed: a place
that none of them may write is as it was, and the directories are the same. -/
theorem C71_session (q : Place) (fs fs' : Fs) (hok : fs.Ok) (h : Session (fun w m c => ¬ MayWrite w m q c) fs fs') :
    fs' q = fs q ∧ SameDirs fs fs' ∧ fs'.Ok := by
  induction h with
  | start => exact ⟨rfl, fun _ => Iff.rfl, hok⟩
  | run T m c _ hf hp ih =>
    obtain ⟨h1, h2, h3⟩ := ih
    obtain ⟨k1, k2⟩ := run_ok T h3 m c hf
    refine ⟨?_, h2.trans k2, k1⟩
    rw [← h1]
    by_contra hne
    exact hp (C71_command T h3 m c hf q hne).2

/-- **C71, existing files.** Without `--force` and several passes, a file that exists is lost to no sequence of commands: it stays as it is unless it is
named to `repair` or `update`, lies in the directory to which files are rescued, or is the log. -/
theorem C71_existing (q : Place) (fs fs' : Fs) (hok : fs.Ok) (hq : fs q ≠ none) (h : Session (Spares q) fs fs') : fs' q = fs q := by
  suffices fs' q = fs q ∧ fs'.Ok from this.1
  induction h with
  | start => exact ⟨rfl, hok⟩
  | run T m c _ hf hp ih =>
    obtain ⟨h1, h3⟩ := ih
    refine ⟨?_, (run_ok T h3 m c hf).1⟩
    rw [← h1]
    by_contra hne
    have hm := (C71_command T h3 m c hf q hne).2
    have hnone : T.world.fs q ≠ none := by rw [h1]; exact hq
    cases c with
    | «calc» => exact hm
    | check => exact hm
    | «show» => exact hm
    | encode =>
      rcases hm.2.1 with e | e
      · exact hnone e
      · rw [show m.flag .force = false from hp] at e; cases e
    | decode =>
      rcases hm.1 with e | e | e | e
      · exact hnone e
      · rw [hp.1] at e; cases e
      · rw [hp.2.1] at e; cases e
      · rw [hp.2.2] at e; cases e
    | sort =>
      rcases hm.2.1 with e | e | e | e
      · exact hnone e
      · rw [hp.1] at e; cases e
      · rw [hp.2.1] at e; cases e
      · rw [hp.2.2] at e; cases e
    | repair =>
      obtain ⟨e1, -, i, e2, e3⟩ := hm
      rcases hp with e | e
      · rw [e1] at e; cases e
      · exact e i e2 e3
    | update =>
      obtain ⟨e1, -, i, e2, e3⟩ := hm
      rcases hp with e | e
      · rw [e1] at e; cases e
      · exact e i e2 e3
    | rescue =>
      rcases hm with ⟨o, d, u, e1, e2, e3⟩ | ⟨l, e1, e2, -⟩
      · exact hp.1 o d _ e1 e2 e3
      · exact hp.2 l e1 e2

/-! ### A container among the files -/

open History ContainerSpec Format

/-- The name recorded is the name of a file (or there is none). -/
def NameOk (ms : List Metadata) : Prop := ∀ s, getMeta ms .fnm = some (.fnm s) → ∃ n, fileName s.toList = some n

/-- What may happen while there is the container of the setting `S` at `cp`, with the fields it is asked to change. -/
inductive Life (S : Setting) (cp : Place) : List MetaId → Fs → Fs → Prop
  | start {fs : Fs} : Life S cp [] fs fs
  /-- any command that may not write the container -/
  | command {ids : List MetaId} {fs : Fs} (T : Shell) (m : Matches) (c : Cmd) : Life S cp ids fs T.world.fs → Faithful T m c →
      ¬ MayWrite T.world m cp c → Life S cp ids fs (T.run m c).1
  /-- files other than the container are made, changed or removed -/
  | outside {ids : List MetaId} {fs fs1 fs2 : Fs} : Life S cp ids fs fs1 → fs2.Ok → fs2 cp = fs1 cp → Life S cp ids fs fs2
  /-- `update` of the container, whether the question is answered with yes or not, and whether there is room or not -/
  | update {ids : List MetaId} {fs : Fs} (T : Shell) (m : Matches) (c : Update.Cli) (i : List Char) : Life S cp ids fs T.world.fs →
      GivenUpdate m c i → leads T.world.fs T.world.cwd i = some cp → T.upd.Calm → T.upd.hash = S.hash → Request S c →
      (∀ s, c.fnm = some s → ∃ n, fileName s.toList = some n) → Life S cp (ids ++ asked c) fs (T.run m .update).1
  /-- the container is damaged (or not), then repaired -/
  | repair {ids : List MetaId} {fs fs1 : Fs} {f g : File} {d : Dpb} (T : Shell) (m : Matches) (i : List Char) : Life S cp ids fs fs1 →
      fs1 cp = some (.file f) → T.world.fs = fs1.set cp g → S.dpb = some d → 1 ≤ d.burst → Damaged S d f g → GivenRepair m (some d.burst) i →
      leads T.world.fs T.world.cwd i = some cp → T.rep.Calm → T.rep.rs = S.rs → m.flag .dryRun = false → GoesAhead T m → T.world.canOpen cp = true →
      Life S cp ids fs (T.run m .repair).1

theorem get_filter (ms : List Metadata) (id : MetaId) : getMeta ms id = (ms.filter fun m => m.id = id).head? := by
  unfold getMeta
  rw [List.head?_filter]

/-- The name recorded after `update`. -/
theorem name_after {H : HashFn} {bytes : List Byte} {c : Update.Cli} (hok : c.Ok) (hc : ∀ s, c.fnm = some s → ∃ n, fileName s.toList = some n)
    {ms : List Metadata} (hms : NameOk ms) : NameOk (UpdateSpec.changed ((c.param H).filled H bytes) (c.param H).remove ms) := by
  intro s hs
  cases hn : c.fnm with
  | none =>
    have hid : MetaId.fnm ∉ ((c.param H).filled H bytes).map (·.id) := by
      rw [Update.filled_ids]
      unfold Update.Cli.param
      rw [hn]
      cases c.hash <;> cases c.snm <;> simp [Metadata.id]
    rw [get_filter, Update.changed_filter hid] at hs
    split at hs
    · cases hs
    · rw [← get_filter] at hs
      exact hms s hs
  | some t =>
    have hrem : MetaId.fnm ∉ (c.param H).remove := by
      have hno : c.noFnm = false := by
        cases hx : c.noFnm with
        | false => rfl
        | true => have := hok.1 hx; rw [hn] at this; simp at this
      unfold Update.Cli.param
      rw [hno]
      cases c.noHsh <;> cases c.noSnm <;> simp
    have hlast : UpdateSpec.lastFor ((c.param H).filled H bytes) .fnm = some (.fnm t) := by
      unfold Update.Param.filled Update.Cli.param UpdateSpec.lastFor UpdateSpec.withHash
      rw [hn]
      cases c.hash <;> cases c.snm <;> simp [Metadata.id]
    rw [Update.changed_get hlast hrem] at hs
    cases hs
    exact hc _ hn

/-- A place that is not the root is in a directory. -/
theorem set_file_ok {fs : Fs} (h : fs.Ok) {q : Place} {f : File} (hq : fs q = some (.file f)) (g : File) : (fs.set q g).Ok := by
  rcases List.eq_nil_or_concat q with rfl | ⟨d, n, rfl⟩
  · rw [h.root] at hq; cases hq
  · rw [List.concat_eq_append] at hq ⊢
    exact set_ok h (by rw [hq]; simp) ⟨d, n, rfl, h.up d n (by rw [hq]; simp)⟩ g

theorem update_outcome (T : Shell) (hw : T.world.fs.Ok) (m : Matches) (c : Update.Cli) (i : List Char) (h : GivenUpdate m c i) (pl : Place) (f : File)
    (h1 : leads T.world.fs T.world.cwd i = some pl) (h2 : T.world.fs pl = some (.file f)) :
    (T.run m .update).1 = T.world.fs ∨ (T.run m .update).1 = T.world.fs.set pl (Update.updateFile T.upd (c.param T.upd.hash) f).1.file := by
  by_cases hd : m.flag .dryRun = true
  · exact .inl (C57_looks T m .update hd)
  by_cases hg : GoesAhead T m
  · cases ho : T.world.canOpen pl with
    | true => exact .inr (C57_update T hw m c i h pl f h1 h2 ho (not_flag hd) hg).1
    | false =>
      left
      funext q
      by_contra hne
      obtain ⟨s, f', k1, k2, -, k3⟩ := C57_container T m .update (.inr rfl) q hne
      obtain ⟨s', k4, k5⟩ := h.inFile
      rw [k1] at k4
      cases k4
      rw [← k5, h1] at k2
      cases k2
      rw [ho] at k3
      cases k3
  · unfold GoesAhead at hg
    rw [not_or, not_or] at hg
    exact .inl (C57_question T m .update (.inr rfl) (not_flag hg.1) (not_flag hg.2.1) fun rest e => hg.2.2 ⟨rest, e⟩)

/-- **C71, a container.** Whatever happens of this, there is a container of the same file at the place, what is recorded in it is right, and the fields
no `update` was about are as before. -/
theorem C71_life (S : Setting) (hS : S.Ok) (cp : Place) (ms : List Metadata) (f : File) (hk : History.Kept S ms f) (ids : List MetaId) (fs fs' : Fs)
    (hok : fs.Ok) (hf : fs cp = some (.file f)) (h : Life S cp ids fs fs') :
    fs'.Ok ∧ ∃ g ms', fs' cp = some (.file g) ∧ History.Kept S ms' g ∧ (∀ id ∉ ids, ms'.filter (fun m => m.id = id) = ms.filter (fun m => m.id = id)) ∧
      (NameOk ms → NameOk ms') := by
  induction h with
  | start => exact ⟨hok, f, ms, hf, hk, fun _ _ => rfl, id⟩
  | command T m c _ hfa hm ih =>
    obtain ⟨h1, g, ms', h2, h3⟩ := ih hok hf
    refine ⟨(run_ok T h1 m c hfa).1, g, ms', ?_, h3⟩
    rw [← h2]
    by_contra hne
    exact hm (C71_command T h1 m c hfa cp hne).2
  | outside _ ho he ih =>
    obtain ⟨-, g, ms', h2, h3⟩ := ih hok hf
    exact ⟨ho, g, ms', he.trans h2, h3⟩
  | update T m c i _ hg hl hcalm hH hreq hname ih =>
    obtain ⟨h1, g, ms', h2, h3, h4, h5⟩ := ih hok hf
    have hstay : ∀ id ∉ _ ++ asked c, _ := fun id hid => h4 id fun e => hid (List.mem_append_left _ e)
    rcases update_outcome T h1 m c i hg cp g hl h2 with e | e
    · rw [e]
      exact ⟨h1, g, ms', h2, h3, hstay, h5⟩
    · rw [e, hH]
      obtain ⟨ms2, k1, k2⟩ := update_step hS h3 T.upd hcalm hH c hreq
      refine ⟨set_file_ok h1 h2 _, _, ms2, by unfold Fs.set; rw [if_pos rfl], k1, ?_, ?_⟩
      · intro id hid
        rcases k2 with rfl | rfl
        · exact hstay id hid
        · rw [List.mem_append, not_or] at hid
          obtain ⟨r1, r2⟩ := request_ids S.hash c id hid.2
          rw [Update.changed_filter (by rw [Update.filled_ids]; exact r1), if_neg r2]
          exact h4 id hid.1
      · intro hn
        rcases k2 with rfl | rfl
        · exact h5 hn
        · exact name_after hreq.ok hname (h5 hn)
  | @repair ids fs fs1 f' g d T m i _ hf' hT hd hB hdam hg hl hcalm hrs hdry hgo hopen ih =>
    obtain ⟨h1, g0, ms', h2, h3, h4⟩ := ih hok hf
    rw [hf'] at h2
    cases h2
    have hg2 : T.world.fs cp = some (.file g) := by rw [hT]; unfold Fs.set; rw [if_pos rfl]
    have hw : T.world.fs.Ok := by rw [hT]; exact set_file_ok h1 hf' g
    obtain ⟨mp, hs, -⟩ := h3.sound hS hd
    obtain ⟨bursts, b1, b2, b3⟩ := hdam.bursts
    rw [← hrs] at hs
    obtain ⟨dk, st, r1, -, -, -, -⟩ := Repair.C25_bursts T.rep (hrs ▸ hS.laws) hcalm S.version S.uid d S.bytes mp _ g hs hB bursts hdam.length b1 b2 b3
    have hrep := repair_step hS h3 hcalm hrs hd hB hdam
    unfold repaired at hrep
    rw [r1] at hrep
    have hrep : dk.file = f' := hrep
    rw [C57_repair T hw m _ i hg cp g hl hg2 hopen hdry hgo dk st r1]
    exact ⟨set_file_ok hw hg2 _, dk.file, ms', by simp only [Fs.set, if_true], by rw [hrep]; exact h3, h4⟩

/-- What encoding on the command line leaves: a container of the file, under the name of the file. -/
theorem encode_kept (w : World) (hw : w.fs.Ok) (hlim : w.Limits) (E : Encode.Env) (p : Encode.Param) (hE : E.Ok p) (hok : p.Ok)
    (hs : ∀ n, E.stop n = false) (hrange : p.fromPos = none ∧ p.toPos = none) (hme : p.metaEnabled = true)
    (hsup : p.hashType.supported = true) (a : Args) (ha : a.inFile ≠ ['-']) (e : Place) (n : Name) (f : File)
    (hin : leads w.fs w.cwd a.inFile = some (e ++ [n])) (hf : w.fs (e ++ [n]) = some (.file f)) (fs1 : Fs)
    (henc : w.encode E p a = (fs1, .ok ())) :
    ∃ cp c, fs1 = w.fs.set cp c ∧ fs1.Ok ∧ OutPlace w.fs w.cwd (if p.version.usesRs then ".ecsbx".toList else ".sbx".toList) a.inFile a.out cp ∧
      IsName n ∧ (cp ≠ e ++ [n] → Setting.Ok ⟨E.rs, E.hash, p.version, p.uid, p.dpb, f⟩ ∧
        ∃ ms, History.Kept ⟨E.rs, E.hash, p.version, p.uid, p.dpb, f⟩ ms c ∧ getMeta ms .fnm = some (.fnm (String.ofList n))) := by
  have hnd : w.fs (e ++ [n]) ≠ some .dir := by rw [hf]; simp
  obtain ⟨_, last, d0, -, n1, n2, n3, -⟩ := leads_file hw hin hnd
  obtain ⟨-, hl0⟩ := List.append_inj' n3 rfl
  simp only [List.cons.injEq, and_true] at hl0
  subst hl0
  have hinp : w.input a.inFile = .ok (e ++ [n], f) := input_of_leads hw hin hf
  unfold World.encode at henc
  rw [if_neg (show ¬ a.inFile = dash from ha), hinp] at henc
  simp only at henc
  cases ho : w.outName a (extension p.version) with
  | error x => rw [ho] at henc; cases henc
  | ok out =>
    rw [ho] at henc
    simp only at henc
    obtain ⟨cp, old, m, dk, rep, c1, c2, rfl, c4⟩ := encodeTo_ok henc
    obtain ⟨l1, l2, -⟩ := open_some c1
    obtain ⟨ini, last, d1, -, m1, m2, m3, -, m5⟩ := leads_file hw l1 l2
    rw [c2, Option.some.injEq] at m1
    subst m1
    refine ⟨cp, dk.file, rfl, set_ok hw l2 ⟨d1, m, m3, m5⟩ _,
      outName_place hw (extension_ok _).1 (ext_long _ (extension_ok _).2) hinp ho c1, n2, fun hne => ?_⟩
    rw [n1] at c4
    have hdec : decide (some (e ++ [n]) = some cp) = false := by
      simp only [Option.some.injEq, decide_eq_false_iff_not]; exact fun h => hne h.symm
    rw [hdec] at c4
    simp only [Bool.false_eq_true, if_false, Option.map_some] at c4
    set p' : Encode.Param := { p with sbxName := String.ofList m } with hp'
    have hok' : p'.Ok := ⟨hok.consistent, hok.shards⟩
    have hE' : E.Ok p' := ⟨hE.laws, hE.pos, hE.even, hE.room⟩
    have hcan2 : w.canOpen cp = true := by
      unfold World.open at c1
      rw [l1] at c1
      simp only at c1
      split at c1
      · assumption
      · cases c1
    have hnames : Encode.NamesOk p' ⟨f, some (String.ofList n, w.mtime)⟩ := by
      refine ⟨⟨isName_bytes m2.1, hlim cp m (by rw [m3]; simp) (.inr hcan2)⟩, ?_⟩
      intro x t hx
      simp only [Option.some.injEq, Prod.mk.injEq] at hx
      rw [← hx.1]
      exact ⟨isName_bytes n2.1, hlim (e ++ [n]) n (by simp) (.inl (by rw [hf]; simp))⟩
    obtain ⟨hS, ms, hk, -⟩ := encoded_kept E p' hE' hok' _ hnames dk rep (.inr hrange) hs c4 hme hsup
    refine ⟨hS, ms, hk, ?_⟩
    obtain ⟨mp, stored, b1, b2⟩ := Encode.container_metas hE' hok' hnames c4 hme
    obtain ⟨mp', hcon, hmp, hms⟩ := hk.container
    have hb' := Decode.container_start hcon ⟨rfl, metasToBytes_length hms⟩
    rw [← hmp, ← (Scan.isBlock_seq b1 hb').2, b2]
    rfl

/-- The directory into which `decode` is told to decode all of the container at `src`; the file `dst` there is another one than the container: new, or to
be overwritten. -/
structure DecodesInto (T : Shell) (k : Matches) (q : Decode.Param) (b : DecodeArgs) (src d : Place) (dst : Place) : Prop where
  given : GivenDecode k q b
  calm : T.dec.Calm
  range : NoRange k
  refFrom : k.value .refFrom = none
  refTo : k.value .refToInc = none ∧ k.value .refToExc = none
  passes : k.flag .multiPass = false ∧ k.flag .multiPassNoSkip = false
  input : leads T.world.fs T.world.cwd b.inFile = some src
  out : IntoDir T.world.fs T.world.cwd b.out d
  other : dst ≠ src
  canOpen : T.world.canOpen dst = true
  free : T.world.fs dst = none ∨ k.flag .force = true ∧ ∃ old, T.world.fs dst = some (.file old)

theorem DecodesInto.whole {T : Shell} {k : Matches} {q : Decode.Param} {b : DecodeArgs} {src d dst : Place} (h : DecodesInto T k q b src d dst) :
    Decode.Whole q :=
  ⟨given_none h.given.ref.fromPos h.range.fromPos, givenEnd_none h.given.ref.toPos h.range.toInc h.range.toExc,
    passes_none h.given.passes h.passes.1 h.passes.2⟩

theorem DecodesInto.ref {T : Shell} {k : Matches} {q : Decode.Param} {b : DecodeArgs} {src d dst : Place} (h : DecodesInto T k q b src d dst) :
    Decode.DefaultRef q.ref := by
  refine ⟨given_none h.given.ref.refFrom h.refFrom, givenEnd_none h.given.ref.refTo h.refTo.1 h.refTo.2, h.whole.fromPos, ?_⟩
  rcases h.given.choice with ⟨-, x⟩ | ⟨-, x⟩
  · exact .inl x
  · exact .inr (.inl x)

/-- Decoding into a directory puts a file with the recorded name there. -/
theorem decodes_into {T : Shell} {k : Matches} {q : Decode.Param} {b : DecodeArgs} {src d : Place} {n : Name}
    (h : DecodesInto T k q b src d (d ++ [n])) (hw : T.world.fs.Ok) (hn : IsName n) {f out : File} (hf : T.world.fs src = some (.file f))
    {v : Version} {uid : Uid} {mp : List Byte} (hname : getMeta (metasFromBytes mp) .fnm = some (.fnm (String.ofList n))) {pos : Nat}
    (href : Scan.getRefBlockM q.ref q.ref.refChoice f T.dec.stopRef (T.dec.stop 0) = .ok (pos, blockOf v uid 0 mp)) {dpb : Option Dpb}
    (hd : Scan.dataParBurst q.ref true f (blockOf v uid 0 mp) = .ok dpb) (hto : ∀ old, ∃ R, Decode.toFile T.dec q f old = .ok (out, R)) :
    T.run k .decode = (T.world.fs.set (d ++ [n]) out, .ok) := by
  have hrec : recordedName (blockOf v uid 0 mp) = .ok (some n) := by
    unfold recordedName
    rw [refFnm_meta Decode.metas_blockOf, hname]
    simp only [String.toList_ofList]
    rw [fileName_name hn.1 hn.2.1 hn.2.2.1 hn.2.2.2.1]
  have hout : ∃ out', T.world.decodeOut b.out (some n) = .ok (some out') ∧ leads T.world.fs T.world.cwd out' = some (d ++ [n]) := by
    obtain ⟨i1, ⟨i2, i3⟩ | ⟨o, i2, i3, i4⟩⟩ := h.out
    · rw [i2]
      rw [i3] at i1 ⊢
      exact ⟨n, rfl, leads_name' hn i1⟩
    · rw [i2]
      refine ⟨makePath [o, n], ?_, leads_makePath' hn i4 i1⟩
      have hdr : T.world.isDir o = true := by
        unfold World.isDir at?
        rw [i4, Option.bind_some, i1]
      unfold World.decodeOut
      simp only
      rw [if_neg (show ¬ o = dash from i3), hdr]
      rfl
  obtain ⟨out', o1, o2⟩ := hout
  have hnd : T.world.fs (d ++ [n]) ≠ some .dir := by
    rcases h.free with e | ⟨-, old, e⟩ <;> rw [e] <;> simp
  have hdec := decode_ok (input_of_leads hw h.input hf) href hrec o1 hd o2 h.canOpen h.other hnd
    (h.free.imp_right fun e => by rw [h.given.force]; exact e.1) hto
  obtain ⟨d1, d2⟩ := C57_decode T k q b h.given
  rw [hdec] at d1 d2
  exact Prod.ext d1 (d2.2 rfl)

/-- What decoding a container finds. -/
theorem kept_decodes {S : Setting} (hS : S.Ok) {ms : List Metadata} {g : File} (hk : History.Kept S ms g) {D : Decode.Env} (hD : D.Calm)
    (hH : D.hash = S.hash) {q : Decode.Param} (hq : Decode.Whole q) (hr : Decode.DefaultRef q.ref)
    (hb : q.ref.burst ≠ none ∨ q.ref.guessBurstFrom = none ∧ ∀ d, S.dpb = some d → d.burst ≤ 1000) :
    ∃ mp pos dpb, metasFromBytes mp = ms ∧
      Scan.getRefBlockM q.ref q.ref.refChoice g D.stopRef (D.stop 0) = .ok (pos, blockOf S.version S.uid 0 mp) ∧
      Scan.dataParBurst q.ref true g (blockOf S.version S.uid 0 mp) = .ok dpb ∧ ∀ old, ∃ R, Decode.toFile D q g old = .ok (S.bytes, R) := by
  have hall : ∀ old, ∃ R, Decode.toFile D q g old = .ok (S.bytes, R) := fun old =>
    let ⟨R, r, _⟩ := C65_decode S hS ms g g hk [] .nil D hD hH q hq hr hb old
    ⟨R, r⟩
  obtain ⟨mp, hcon, hmp, hms⟩ := hk.container
  have href := Decode.ref_at_start hr hD.stopRef (D.stop 0) (Decode.container_start hcon ⟨rfl, metasToBytes_length hms⟩)
  obtain ⟨R, hR⟩ := hall []
  obtain ⟨pos, ref', dpb, full, g1, g2, -⟩ := Decode.toFile_ok hD hq hR
  rw [href] at g1
  simp only [Except.ok.injEq, Prod.mk.injEq] at g1
  obtain ⟨-, rfl⟩ := g1
  exact ⟨mp, 0, dpb, hmp, href, g2, hall⟩

/-- **C71, an archive.** A file is encoded on the command line.  Then anything may happen that does not write the container (whatever is done to other
files, by these commands or not), it may be updated, and damaged in bursts and repaired.  After that, `decode` still restores the file: under
the name the user says, and, if the recorded name has not been changed, under that name in the directory the user says or works in. -/
theorem C71_archive (S : Shell) (hw : S.world.fs.Ok) (hlim : S.world.Limits) (hs : ∀ n, S.enc.stop n = false)
    -- encoding
    (m : Matches) (p : Encode.Param) (a : Args) (hg : GivenEncode m S.random p a) (hE : S.enc.Ok p) (hi : m.flag .infoOnly = false)
    (hrange : NoRange m) (hme : m.flag .noMeta = false ∨ 17 ≤ p.version.num) (ha : a.inFile ≠ ['-']) (e : Place) (n : Name) (f : File)
    (hin : leads S.world.fs S.world.cwd a.inFile = some (e ++ [n])) (hf : S.world.fs (e ++ [n]) = some (.file f)) (fs1 : Fs)
    (henc : S.run m .encode = (fs1, .ok)) :
    ∃ cp, OutPlace S.world.fs S.world.cwd (if p.version.usesRs then ".ecsbx".toList else ".sbx".toList) a.inFile a.out cp ∧
      (cp ≠ e ++ [n] → ∀ (ids : List MetaId) (fs' : Fs), Life ⟨S.enc.rs, S.enc.hash, p.version, p.uid, p.dpb, f⟩ cp ids fs1 fs' →
        -- decoding
        ∀ (T : Shell) (k : Matches) (q : Decode.Param) (b : DecodeArgs), T.world.fs = fs' → T.dec.hash = S.enc.hash →
          (k.value .burst ≠ none ∨ k.value .guessBurstFrom = none ∧ ∀ x, p.dpb = some x → x.burst ≤ 1000) →
          (∀ dst, DecodesTo T k q b cp dst → T.run k .decode = (fs'.set dst f, .ok)) ∧
          (MetaId.fnm ∉ ids → ∀ d, DecodesInto T k q b cp d (d ++ [n]) → T.run k .decode = (fs'.set (d ++ [n]) f, .ok))) := by
  obtain ⟨c1, c2⟩ := C57_encode S m p a hg hi
  rw [henc] at c1 c2
  have h2 := c2.1 rfl
  have henc' : S.world.encode S.enc p a = (fs1, .ok ()) := Prod.ext c1.symm h2
  have hmeta : p.metaEnabled = true := by
    unfold Encode.Param.metaEnabled
    rcases hme with hme | hme
    · have := hg.noMeta
      rw [hme] at this
      cases hp : p.metaRequested
      · exact absurd (this.1 hp) (by simp)
      · simp
    · have : p.version.forcesMeta = true := by revert hme; cases p.version <;> decide
      rw [this]; rfl
  have hpr : p.fromPos = none ∧ p.toPos = none := ⟨given_none hg.fromPos hrange.fromPos, givenEnd_none hg.toPos hrange.toInc hrange.toExc⟩
  obtain ⟨cp, c, k1, k2, k3, k4, k5⟩ := encode_kept S.world hw hlim S.enc p hE (settings_ok hg.settings) hs hpr hmeta (hash_supported hg.hash)
    a ha e n f hin hf fs1 henc'
  refine ⟨cp, k3, ?_⟩
  intro hne ids fs' hlife T k q b hT hH hb
  obtain ⟨hS, ms, hk, hfn⟩ := k5 hne
  have hcp : fs1 cp = some (.file c) := by rw [k1]; simp only [Fs.set, if_true]
  obtain ⟨h1, g, ms', h3, h4, h5, h6⟩ := C71_life _ hS cp ms c hk ids fs1 fs' k2 hcp hlife
  have hwT : T.world.fs.Ok := by rw [hT]; exact h1
  have hgT : T.world.fs cp = some (.file g) := by rw [hT]; exact h3
  have hburst : ∀ {q : Decode.Param}, GivenRef k q.ref → q.ref.burst ≠ none ∨ q.ref.guessBurstFrom = none ∧ ∀ d, p.dpb = some d → d.burst ≤ 1000 := by
    intro q hq
    rcases hb with hb | ⟨hb, hx⟩
    · exact .inl (given_some hq.burst hb)
    · exact .inr ⟨given_none hq.guess hb, hx⟩
  constructor
  · intro dst hd
    obtain ⟨mp, pos, dpb, e1, e2, e3, e4⟩ := kept_decodes hS h4 hd.calm hH hd.whole hd.ref (hburst hd.given.ref)
    rw [← hT]
    refine decodes hd hwT hgT ?_ e2 e3 e4
    have : NameOk ms := by
      intro s hs
      rw [hfn] at hs
      cases hs
      exact ⟨n, by rw [String.toList_ofList]; exact fileName_name k4.1 k4.2.1 k4.2.2.1 k4.2.2.2.1⟩
    have := h6 this
    rw [← e1] at this
    exact this
  · intro hid d hd
    obtain ⟨mp, pos, dpb, e1, e2, e3, e4⟩ := kept_decodes hS h4 hd.calm hH hd.whole hd.ref (hburst hd.given.ref)
    rw [← hT]
    refine decodes_into hd hwT k4 hgT ?_ e2 e3 e4
    rw [e1, get_filter, h5 _ hid, ← get_filter]
    exact hfn

/-! ## Examples -/

/-- A shell with these files. -/
noncomputable def deskShell (fs : Fs) : Shell := { smallShell [] with world := { deskWorld [] with fs := fs } }

def two (f : File) : Fs := desk [(['b'], f), (['x'], [1])]

theorem b_leads {fs : Fs} (h : fs.Ok) : leads fs [] ['b'] = some [['b']] :=
  leads_name' ⟨by decide, by decide, by decide, by decide, by decide⟩ h.root

theorem given_b {m : Matches} {i : List Char} (hm : m.value .inFile = some "b") (h : GivenName m .inFile i) : i = ['b'] := by
  obtain ⟨s, h1, rfl⟩ := h
  rw [hm] at h1
  cases h1
  rfl

/-- `update b`, then `repair b`, then `check x`: whatever `b` is and whatever becomes of it, `x` is as before. -/
example (f : File) : ∃ fs1 fs2 fs3, (deskShell (two f)).run (table [(.inFile, "b"), (.fnm, "c")] [.skipWarning]) .update = fs1 ∧
    (deskShell fs1.1).run (table [(.inFile, "b")] [.skipWarning]) .repair = fs2 ∧ (deskShell fs2.1).run (table [(.inFile, "x")] []) .check = fs3 ∧
    fs3.1 [['x']] = some (.file [1]) := by
  have hok : (two f).Ok := desk_ok _
  have h1 : Session (fun w m c => ¬ MayWrite w m [['x']] c) (two f)
      ((deskShell (two f)).run (table [(.inFile, "b"), (.fnm, "c")] [.skipWarning]) .update).1 := by
    refine .run (deskShell (two f)) _ .update .start (fun h => by cases h) ?_
    rintro ⟨-, -, i, hi, hl⟩
    rw [given_b rfl hi] at hl
    have := (b_leads hok).symm.trans hl
    revert this
    decide
  refine ⟨_, _, _, rfl, rfl, rfl, ?_⟩
  generalize (deskShell (two f)).run (table [(.inFile, "b"), (.fnm, "c")] [.skipWarning]) .update = r1 at h1
  have hok1 := (C71_session _ _ _ hok h1).2.2
  have h2 : Session (fun w m c => ¬ MayWrite w m [['x']] c) (two f) ((deskShell r1.1).run (table [(.inFile, "b")] [.skipWarning]) .repair).1 := by
    refine .run (deskShell r1.1) _ .repair h1 (fun h => by cases h) ?_
    rintro ⟨-, -, i, hi, hl⟩
    rw [given_b rfl hi] at hl
    have := (b_leads hok1).symm.trans hl
    revert this
    decide
  generalize (deskShell r1.1).run (table [(.inFile, "b")] [.skipWarning]) .repair = r2 at h2
  exact (C71_session _ _ _ hok (.run (deskShell r2.1) (table [(.inFile, "x")] []) .check h2 (fun h => by cases h) (fun h => h))).1

/-- `encode x`, `decode x.ecsbx`, `sort b x`: without `--force` what is there is not overwritten. -/
example (f : File) : ∃ fs1 fs2 fs3, (deskShell (two f)).run (table [(.inFile, "x")] []) .encode = fs1 ∧
    (deskShell fs1.1).run (table [(.inFile, "x.ecsbx")] []) .decode = fs2 ∧ (deskShell fs2.1).run (table [(.inFile, "b"), (.out, "x")] []) .sort = fs3 ∧
    fs3.1 [['x']] = some (.file [1]) := by
  have h1 : Session (Spares [['x']]) (two f) ((deskShell (two f)).run (table [(.inFile, "x")] []) .encode).1 :=
    .run (deskShell (two f)) _ .encode .start (fun h => by cases h) rfl
  refine ⟨_, _, _, rfl, rfl, rfl, ?_⟩
  generalize (deskShell (two f)).run (table [(.inFile, "x")] []) .encode = r1 at h1
  have h2 : Session (Spares [['x']]) (two f) ((deskShell r1.1).run (table [(.inFile, "x.ecsbx")] []) .decode).1 :=
    .run (deskShell r1.1) _ .decode h1 (fun h => by cases h) ⟨rfl, rfl, rfl⟩
  generalize (deskShell r1.1).run (table [(.inFile, "x.ecsbx")] []) .decode = r2 at h2
  exact C71_existing [['x']] (two f) _ (desk_ok _) (by intro h; cases h)
    (.run (deskShell r2.1) (table [(.inFile, "b"), (.out, "x")] []) .sort h2 (fun h => by cases h) ⟨rfl, rfl, rfl⟩)

/-- `rescue i . l` leaves the image as it is (`desk_scene`: there are `i` and nothing else). -/
example (img : File) (hne : img ≠ []) (hlen : img.length < 2 ^ 64) : ∃ r, World.Rescued (deskWorld [(['i'], img)]) Rescue.smallEnv Rescue.everything ['i'] ['.']
      (some ['l']) r ∧ ∀ q, ((calmShell (deskWorld [(['i'], img)]).fs r).run (table [(.inFile, "i"), (.outDir, "."), (.logFile, "l")] []) .rescue).1 q ≠
        (deskWorld [(['i'], img)]).fs q → q = [['l']] ∨ ∃ u, q = [hexName u] := by
  have hsc := desk_scene img [] rfl
  obtain ⟨r, hr⟩ := C70_possible _ _ _ _ _ _ _ Rescue.everything ⟨rfl, rfl⟩ hsc hne hlen _ .start Rescue.smallEnv Rescue.small_ok (fun _ => rfl) (fun _ => rfl)
  have hg : GivenRescue (table [(.inFile, "i"), (.outDir, "."), (.logFile, "l")] []) Rescue.everything ['i'] ['.'] (some ['l']) :=
    (read_rescue _ _ _ _ _).1 (by with_unfolding_all rfl)
  refine ⟨r, hr, fun q hq => ?_⟩
  have hf : Faithful (calmShell (deskWorld [(['i'], img)]).fs r) (table [(.inFile, "i"), (.outDir, "."), (.logFile, "l")] []) .rescue := by
    intro _ p i o l hg' _ _
    have e := ((read_rescue _ _ _ _ _).2 hg').symm.trans ((read_rescue _ _ _ _ _).2 hg)
    simp only [Except.ok.injEq, Prod.mk.injEq] at e
    obtain ⟨rfl, rfl, rfl, rfl⟩ := e
    refine ⟨⟨_, hr⟩, fun lp old hl => ?_⟩
    have hlog : LogAt (deskWorld [(['i'], img)]) (some ['l']) lp old := hl
    have hlp : lp = some [['l']] := by
      have h := leads_name' (fs := (deskWorld [(['i'], img)]).fs) (n := ['l']) (cwd := []) ⟨by decide, by decide, by decide, by decide, by decide⟩ rfl
      cases hlog with
      | nowhere a => cases h.symm.trans a
      | new a _ => exact a.symm.trans h
      | file a _ => exact a.symm.trans h
    rw [hlp]
    exact hsc.apart
  rcases (C71_command _ (desk_ok _) _ _ hf q hq).2 with ⟨o, d, u, ⟨s, ho, rfl⟩, hd, rfl⟩ | ⟨l, ⟨s, hl, rfl⟩, hl2, -⟩
  · cases ho
    cases (show some [] = some d from hd)
    exact .inr ⟨u, rfl⟩
  · cases hl
    have h := leads_name' (fs := (deskWorld [(['i'], img)]).fs) (n := ['l']) (cwd := []) ⟨by decide, by decide, by decide, by decide, by decide⟩ rfl
    exact .inl (Option.some.inj (hl2.symm.trans h))

set_option maxRecDepth 1000000 in
theorem trip_run : ∃ fs1, (tripShell tripWorld).run (table [(.inFile, "b"), (.sbxVersion, "2"), (.hashType, "sha1")] []) .encode = (fs1, .ok) := by
  have hg : GivenEncode (table [(.inFile, "b"), (.sbxVersion, "2"), (.hashType, "sha1")] []) (tripShell tripWorld).random
      { Device.tinyEncParam with sbxName := "" } ⟨['b'], none, false⟩ := (read_encode _ _ _ _).1 (by with_unfolding_all rfl)
  obtain ⟨c1, c2⟩ := C57_encode (tripShell tripWorld) _ _ _ hg rfl
  have h := trip_encodes
  unfold left? at h
  have h2 : (tripWorld.encode tripEnv { Device.tinyEncParam with sbxName := "" } ⟨['b'], none, false⟩).2 = .ok () := by
    revert h
    cases (tripWorld.encode tripEnv { Device.tinyEncParam with sbxName := "" } ⟨['b'], none, false⟩).2 with
    | ok u => intro _; rfl
    | error e => intro h; cases h
  exact ⟨_, Prod.ext rfl (c2.2 h2)⟩

/-- `encode b` has made one file, and changed no other. -/
example : ∃ fs1 q, (tripShell tripWorld).run (table [(.inFile, "b"), (.sbxVersion, "2"), (.hashType, "sha1")] []) .encode = (fs1, .ok) ∧
    fs1 q ≠ tripWorld.fs q ∧ ∀ q', fs1 q' ≠ tripWorld.fs q' → q = q' := by
  obtain ⟨fs1, hrun⟩ := trip_run
  have hg : GivenEncode (table [(.inFile, "b"), (.sbxVersion, "2"), (.hashType, "sha1")] []) (tripShell tripWorld).random
      { Device.tinyEncParam with sbxName := "" } ⟨['b'], none, false⟩ := (read_encode _ _ _ _).1 (by with_unfolding_all rfl)
  have hE : tripEnv.Ok { Device.tinyEncParam with sbxName := "" } := ⟨RsWitness.codec_laws, Nat.zero_lt_two, Nat.dvd_refl 2, by decide⟩
  have hin : leads tripWorld.fs tripWorld.cwd ['b'] = some ([] ++ [['b']]) := b_leads (desk_ok _)
  obtain ⟨cp, c, h1, -, ho, -⟩ := C57_roundtrip (tripShell tripWorld) (desk_ok _) trip_limits (fun _ => rfl) _ _ _ hg hE rfl ⟨rfl, rfl, rfl⟩
    (.inl rfl) (by decide) [] ['b'] (List.replicate 200 7) hin (by rfl) fs1 hrun
  have hcp : cp = ["b.sbx".toList] := by
    obtain ⟨pl, e1, d, n, e2, e3⟩ := ho
    have e1' : leads tripWorld.fs tripWorld.cwd ['b'] = some pl := e1
    rw [hin, Option.some.injEq] at e1'
    obtain ⟨rfl, e5⟩ := List.append_inj' (e1'.trans e2) rfl
    simp only [List.cons.injEq, and_true] at e5
    subst e5
    exact e3
  have hne : fs1 cp ≠ tripWorld.fs cp := by
    rw [h1, hcp]
    simp only [Fs.set, if_true]
    intro h
    cases h
  refine ⟨fs1, cp, hrun, hne, fun q' hq' => ?_⟩
  exact C71_one (tripShell tripWorld) (table [(.inFile, "b"), (.sbxVersion, "2"), (.hashType, "sha1")] []) .encode (by decide) cp q' (by rw [hrun]; exact hne)
    (by rw [hrun]; exact hq')

/-- `b` is gone. -/
def without (fs : Fs) : Fs := fun pl => if pl = [['b']] then none else fs pl

theorem without_ok {fs : Fs} (h : fs.Ok) (hb : fs [['b']] ≠ some .dir) : (without fs).Ok := by
  refine ⟨?_, fun pl n hn => ?_⟩
  · unfold without
    rw [if_neg (by decide)]
    exact h.root
  · unfold without at hn ⊢
    split at hn
    · exact absurd rfl hn
    · have h2 := h.up pl n hn
      rw [if_neg]
      · exact h2
      · rintro rfl
        exact hb h2

/-- A shell with these files, in which `b.sbx` may be updated and decoded. -/
noncomputable def laterShell (fs : Fs) : Shell := { tripShell { deskWorld [] with fs := fs } with answer := some [121, 10] }

/-- `encode b`; `b` is removed; `update b.sbx --snm x`, answered with yes; `decode b.sbx`: the file `b` is there again. -/
example : ∃ fs1 fs2, (tripShell tripWorld).run (table [(.inFile, "b"), (.sbxVersion, "2"), (.hashType, "sha1")] []) .encode = (fs1, .ok) ∧
    (laterShell (without fs1)).run (table [(.inFile, "b.sbx"), (.snm, "x")] []) .update = fs2 ∧
    (laterShell fs2.1).run (table [(.inFile, "b.sbx")] []) .decode = (fs2.1.set [['b']] (List.replicate 200 7), .ok) := by
  obtain ⟨fs1, hrun⟩ := trip_run
  refine ⟨fs1, _, hrun, rfl, ?_⟩
  have hg : GivenEncode (table [(.inFile, "b"), (.sbxVersion, "2"), (.hashType, "sha1")] []) (tripShell tripWorld).random
      { Device.tinyEncParam with sbxName := "" } ⟨['b'], none, false⟩ := (read_encode _ _ _ _).1 (by with_unfolding_all rfl)
  have hE : tripEnv.Ok { Device.tinyEncParam with sbxName := "" } := ⟨RsWitness.codec_laws, Nat.zero_lt_two, Nat.dvd_refl 2, by decide⟩
  have hin : leads tripWorld.fs tripWorld.cwd ['b'] = some ([] ++ [['b']]) := b_leads (desk_ok _)
  obtain ⟨cp, ho, h⟩ := C71_archive (tripShell tripWorld) (desk_ok _) trip_limits (fun _ => rfl) _ _ _ hg hE rfl ⟨rfl, rfl, rfl⟩
    (.inl rfl) (by decide) [] ['b'] (List.replicate 200 7) hin (by rfl) fs1 hrun
  obtain ⟨pl, e1, d, n, e2, e3⟩ := ho
  have e1' : leads tripWorld.fs tripWorld.cwd ['b'] = some pl := e1
  rw [hin, Option.some.injEq] at e1'
  have e4 : ([] : Place) ++ [['b']] = d ++ [n] := e1'.trans e2
  obtain ⟨rfl, e5⟩ := List.append_inj' e4 rfl
  simp only [List.cons.injEq, and_true] at e5
  subst e5
  have hcp : cp = ["b.sbx".toList] := e3
  subst hcp
  have ok1 : fs1.Ok := by
    have := (run_ok (tripShell tripWorld) (desk_ok _) (table [(.inFile, "b"), (.sbxVersion, "2"), (.hashType, "sha1")] []) .encode (fun h => by cases h)).1
    rwa [hrun] at this
  have hb : fs1 [['b']] = some (.file (List.replicate 200 7)) := by
    have := C71_existing [['b']] tripWorld.fs _ (desk_ok _) (by intro h; cases h) (.run (tripShell tripWorld)
      (table [(.inFile, "b"), (.sbxVersion, "2"), (.hashType, "sha1")] []) .encode .start (fun h => by cases h) rfl)
    rw [hrun] at this
    exact this
  have ok2 : (without fs1).Ok := without_ok ok1 (by rw [hb]; intro h; cases h)
  have sbx : IsName "b.sbx".toList := ⟨by decide, by decide, by decide, by decide, by decide⟩
  have hu : GivenUpdate (table [(.inFile, "b.sbx"), (.snm, "x")] []) ⟨none, some "x", none, false, false, false, false, none⟩ "b.sbx".toList :=
    (read_update _ _ _).1 (by rfl)
  have life := Life.update (S := ⟨tripEnv.rs, tripEnv.hash, .v2, Decode.demoUid, none, List.replicate 200 7⟩) (laterShell (without fs1)) _ _ _
    (.outside (fs2 := without fs1) (.start (fs := fs1) (cp := ["b.sbx".toList])) ok2 (by unfold without; rw [if_neg (by decide)])) hu (leads_name' sbx ok2.root)
    ⟨Nat.one_pos, fun _ => rfl, fun _ => rfl, fun _ => rfl, fun _ => rfl⟩ rfl
    ⟨⟨by simp, by simp, by simp⟩, by simp, by intro s hs; cases hs; exact ⟨by decide +kernel, by decide +kernel⟩, by simp, by intro d hd; cases hd⟩ (by simp)
  refine (h (by decide) _ _ life (laterShell _) (table [(.inFile, "b.sbx")] []) Decode.plainParam ⟨"b.sbx".toList, none, false⟩ rfl rfl
    (.inr ⟨rfl, by intro x h; cases h⟩)).2 (by decide) [] ?_
  have hgone : Session (fun w m c => ¬ MayWrite w m [['b']] c) (without fs1)
      ((laterShell (without fs1)).run (table [(.inFile, "b.sbx"), (.snm, "x")] []) .update).1 := by
    refine .run (laterShell (without fs1)) _ .update .start (fun h => by cases h) ?_
    rintro ⟨-, ⟨f, hf⟩, -⟩
    cases hf
  obtain ⟨g1, -, g2⟩ := C71_session _ _ _ ok2 hgone
  generalize (laterShell (without fs1)).run (table [(.inFile, "b.sbx"), (.snm, "x")] []) .update = r2 at g1 g2 ⊢
  exact ⟨(read_decode _ _ _).1 (by with_unfolding_all rfl), ⟨Nat.one_pos, fun _ => rfl, fun _ => rfl, fun _ => rfl⟩, ⟨rfl, rfl, rfl⟩, rfl, ⟨rfl, rfl⟩, ⟨rfl, rfl⟩,
    leads_name' sbx g2.root, ⟨g2.root, .inl ⟨rfl, rfl⟩⟩, by decide, rfl, .inl g1⟩

theorem desk_set (f g : File) : desk [(['b'], g)] = (desk [(['b'], f)]).set [['b']] g := by
  funext pl
  unfold Fs.set
  split
  · rename_i h; rw [h]; rfl
  · rename_i h
    match pl, h with
    | [], _ => rfl
    | [n], h =>
      have hn : (n == ['b']) = false := by
        rw [beq_eq_false_iff_ne]
        rintro rfl
        exact h rfl
      simp only [desk, List.lookup, hn]
    | _ :: _ :: _, _ => rfl

/-- The container `b` loses two blocks, and `repair b --burst 3` is run. -/
example : ∃ ms f g, History.Kept demo ms f ∧ g ≠ f ∧ Life demo [['b']] [] (deskWorld [(['b'], f)]).fs
      ((repairShell g (some [121, 10])).run (table [(.inFile, "b"), (.burst, "3")] []) .repair).1 ∧
    ∃ g' ms', ((repairShell g (some [121, 10])).run (table [(.inFile, "b"), (.burst, "3")] []) .repair).1 [['b']] = some (.file g') ∧
      History.Kept demo ms' g' := by
  obtain ⟨hS, dk, rep, ms, -, hk⟩ := demo_start
  obtain ⟨mp, hs, -⟩ := hk.sound hS rfl
  obtain ⟨g1, d1, d2, d3, d4⟩ := Repair.demo_damage hs
  have hg : GivenRepair (table [(.inFile, "b"), (.burst, "3")] []) (some 3) ['b'] := (read_repair _ _ _).1 (by rfl)
  have life := Life.repair (S := demo) (cp := [['b']]) (ids := []) (fs := (deskWorld [(['b'], dk.file)]).fs) (g := g1) (repairShell g1 (some [121, 10])) _ _ .start
    (by rfl) (by
      exact desk_set _ _) rfl (by decide) ⟨d2, ⟨[(0, 2)], by decide, few (by decide), d3⟩, d4⟩ hg (b_leads (desk_ok _)) Repair.demo_calm rfl rfl
    (.inr (.inr ⟨[10], rfl⟩)) rfl
  obtain ⟨-, g', ms', r1, r2, -⟩ := C71_life demo hS [['b']] ms dk.file hk [] _ _ (desk_ok _) (by rfl) life
  exact ⟨ms, dk.file, g1, hk, d1, life, g', ms', r1, r2⟩

end Verif.Cli
