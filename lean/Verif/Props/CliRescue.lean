import Verif.Lemmas.CliRescue
import Verif.Props.Cli
import Verif.Props.Recover
/-!
# C70: rescuing, and restoring what was rescued, on the command line
-/

namespace Verif.Cli
open PathSpec Command CliSpec Misc Scan Format ScanSpec DecodeSpec RecoverSpec RescueSpec Pipeline ContainerSpec Recover LayoutSpec

/-! ### Where `rescue` writes -/

theorem logAt_unique {w : World} {l : Option (List Char)} {lp lp' : Option Place} {old old' : Option File} (h : LogAt w l lp old)
    (h' : LogAt w l lp' old') : lp' = lp ∧ old' = old := by
  cases h with
  | noOption => cases h'; exact ⟨rfl, rfl⟩
  | nowhere a =>
    cases h' with
    | nowhere b => exact ⟨rfl, rfl⟩
    | new b => rw [a] at b; cases b
    | file b => rw [a] at b; cases b
  | new a b =>
    cases h' with
    | nowhere a' => rw [a] at a'; cases a'
    | new a' b' => rw [a] at a'; cases a'; exact ⟨rfl, rfl⟩
    | file a' b' => rw [a] at a'; cases a'; rw [b] at b'; cases b'
  | file a b =>
    cases h' with
    | nowhere a' => rw [a] at a'; cases a'
    | new a' b' => rw [a] at a'; cases a'; rw [b] at b'; cases b'
    | file a' b' => rw [a] at a'; cases a'; rw [b] at b'; cases b'; exact ⟨rfl, rfl⟩

theorem logAt_in {w : World} {l : Option (List Char)} {lp : Option Place} {old : Option File} (h : LogAt w l lp old) : logIn w.fs lp = old := by
  cases h with
  | noOption => rfl
  | nowhere a => rfl
  | new a b => simp only [logIn, b]
  | file a b => simp only [logIn, b]

theorem logAt_not_dir {w : World} {l : Option (List Char)} {q : Place} {old : Option File} (h : LogAt w l (some q) old) : w.fs q ≠ some .dir := by
  cases h with
  | new a b => rw [b]; simp
  | file a b => rw [b]; simp

theorem setLog_ne {fs : Fs} {lp : Option Place} {log : Option File} {q : Place} (h : lp ≠ some q) : setLog fs lp log q = fs q := by
  unfold setLog
  split
  · rename_i pl c
    unfold Fs.set
    rw [if_neg (fun e => h (by rw [e]))]
  · rfl

theorem setLog_dirs {fs fs' : Fs} (h : SameDirs fs fs') {lp : Option Place} {log : Option File} (hl : ∀ q, lp = some q → fs' q ≠ some .dir) :
    SameDirs fs (setLog fs' lp log) := by
  unfold setLog
  split
  · exact h.set (hl _ rfl) _
  · exact h

theorem readLog_some {total : Nat} {c : File} {ct : Rescue.Counters} (h : Rescue.readLog total (some c) = some ct) :
    Rescue.ascii "bytes_processed=" <+: c := by
  have hk : Rescue.keyBytes.isPrefixOf (c.readAt 0 Rescue.logMaxSize ++ List.replicate (Rescue.logMaxSize - c.length) 0) = true := by
    unfold Rescue.readLog Rescue.deserialize Rescue.statsP Rescue.lineP at h
    by_contra hc
    rw [Bool.not_eq_true] at hc
    simp [hc] at h
  rw [List.isPrefixOf_iff_prefix] at hk
  have e : Rescue.keyBytes = [98, 121, 116, 101, 115, 95, 112, 114, 111, 99, 101, 115, 115, 101, 100, 61] := by decide +kernel
  have hlen : Rescue.keyBytes.length = 16 := by rw [e]; rfl
  have h0 : ∀ x ∈ Rescue.keyBytes, x ≠ 0 := by rw [e]; decide
  show Rescue.keyBytes <+: c
  -- the zeros behind the file are not part of the key
  have hr : c.readAt 0 Rescue.logMaxSize = c.take 1024 := by unfold File.readAt; rfl
  rw [hr] at hk
  by_cases hl : 16 ≤ c.length
  · have : Rescue.keyBytes <+: c.take 1024 :=
      List.prefix_of_prefix_length_le hk (List.prefix_append _ _) (by rw [hlen, List.length_take]; omega)
    exact this.trans (List.take_prefix _ _)
  · exfalso
    have hx : (c.take 1024 ++ List.replicate (Rescue.logMaxSize - c.length) (0 : Byte))[c.length]? = some 0 := by
      rw [List.take_of_length_le (by omega), List.getElem?_append_right (Nat.le_refl _), Nat.sub_self, List.getElem?_replicate, if_pos]
      show 0 < 1024 - c.length
      omega
    obtain ⟨t, ht⟩ := hk
    rw [← ht, List.getElem?_append_left (by omega)] at hx
    exact h0 0 (List.mem_of_getElem? hx) rfl

/-- **C70, where.** Whatever happens - errors of reading, Ctrl-C, files that cannot be opened - `rescue` changes nothing but files in the output
directory whose names are 12 upper case hexadecimal digits, and the log.  To the former it only appends; the latter did not exist before, or was a
log. -/
theorem C70_places (w : World) (E : Rescue.Env) (p : Rescue.Param) (i o : List Char) (l : Option (List Char)) (d : Place)
    (ho : leads w.fs w.cwd o = some d) (hd : w.fs d = some .dir) (ha : ∀ lp old, LogAt w l lp old → Apart w i o lp) (r : Fs × Bool)
    (h : w.Rescued E p i o l r) (q : Place) (hq : r.1 q ≠ w.fs q) :
    (∃ u c, q = d ++ [hexName u] ∧ r.1 q = some (.file c) ∧ bytesAt w.fs q <+: c) ∨
    (∃ path, l = some path ∧ leads w.fs w.cwd path = some q ∧ IsLog w.fs q) := by
  cases h with
  | badLog => exact absurd rfl hq
  | noLog => exact absurd rfl hq
  | refused => exact absurd rfl hq
  | @directory ip lp old log c a b hlog hleft hc =>
    right
    by_cases hlq : lp = some q
    · subst hlq
      rcases hc with rfl | ⟨size, hc⟩
      · cases hlog with
        | new x y => exact ⟨_, rfl, x, .inl y⟩
        | file x y => exact absurd (by simp only [setLog, Fs.set, if_true]; exact y.symm) hq
      · cases hlog with
        | new x y => exact ⟨_, rfl, x, .inl y⟩
        | file x y => exact ⟨_, rfl, x, .inr ⟨_, y, readLog_some hc⟩⟩
    · exact absurd (setLog_ne hlq) hq
  | mixed a b c => exact absurd (ha _ _ b) c
  | @ran ip' f' lp old c k s done rest fs log a b hlog hap hc hsteps hterm hhung hev hput hrest hleft =>
    have hn : HexNames done := fun name bs hm => steps_names hsteps name bs (by rw [hev]; exact List.mem_append_left _ hm)
    have hg := putAll_grown ho hd hn hput
    simp only at hq ⊢
    by_cases hlq : lp = some q
    · right
      subst hlq
      cases hlog with
      | new x y => exact ⟨_, rfl, x, .inl y⟩
      | file x y => exact ⟨_, rfl, x, .inr ⟨_, y, readLog_some hc⟩⟩
    · rw [setLog_ne hlq] at hq ⊢
      left
      by_contra hcon
      refine hq (hg.other q fun u hu => hcon ?_)
      subst hu
      have h1 := congrFun hg.files (upperHex u.bytes)
      rw [dirAt_hex, Rescue.after_eq, dirAt_hex] at h1
      have hx : ∃ c, fs (d ++ [hexName u]) = some (.file c) := by
        have hnd : fs (d ++ [hexName u]) ≠ some .dir := by
          intro e
          exact hq (by rw [e, (hg.dirs _).2 e])
        cases e : fs (d ++ [hexName u]) with
        | none =>
          exfalso
          have : w.fs (d ++ [hexName u]) = none := by
            by_contra hne
            exact hg.kept _ hne e
          exact hq (by rw [e, this])
        | some node => cases node with
          | dir => exact absurd e hnd
          | file c => exact ⟨c, rfl⟩
      obtain ⟨c, hx⟩ := hx
      refine ⟨u, c, rfl, hx, ?_⟩
      have h2 : bytesAt fs (d ++ [hexName u]) = c := by unfold bytesAt; rw [hx]
      rw [h2] at h1
      rw [h1]
      exact List.prefix_append _ _

/-- **C70, success.** If a run that meets no read error and is not stopped reports success, then everything there is to save is in the output directory,
behind what was there before - whatever files could not be opened. -/
theorem C70_success (w : World) (E : Rescue.Env) (hE : Ok E) (hs : ∀ n, E.stop n = false) (he : NoErr E) (p : Rescue.Param) (i o : List Char)
    (l : Option (List Char)) (d : Place) (ho : leads w.fs w.cwd o = some d) (hd : w.fs d = some .dir) (lp : Option Place) (hl : LogAt w l lp none)
    (ha : Apart w i o lp) (r : Fs × Bool) (h : w.Rescued E p i o l r) (ip : Place) (f : File) (hi : leads w.fs w.cwd i = some ip)
    (hf : w.fs ip = some (.file f)) (hne : f ≠ []) (hok : r.2 = true) (name : List Byte) :
    dirAt r.1 d name = dirAt w.fs d name ++ contents p f name (saved p f) := by
  cases h with
  | badLog => cases hok
  | noLog => cases hok
  | refused => cases hok
  | directory a b c => cases hok
  | mixed a b c =>
    obtain ⟨rfl, -⟩ := logAt_unique hl b
    exact absurd ha c
  | @ran ip' f' lp' old c k s done rest fs log a b hlog hap hc hsteps hterm hhung hev hput hrest hleft =>
    rw [hi] at a
    cases a
    rw [hf] at b
    cases b
    obtain ⟨rfl, rfl⟩ := logAt_unique hl hlog
    cases hc
    simp only [Bool.and_eq_true, List.isEmpty_iff] at hok
    have hdone : (s.thread 2).st.events = done := by rw [hev, hok.1, List.append_nil]
    have hn : HexNames done := by rw [← hdone]; exact steps_names hsteps
    have hg := putAll_grown ho hd hn hput
    obtain ⟨bound, hb⟩ := Rescue.C31_rescue_partial hE hs he p hne (dirAt w.fs d)
    obtain ⟨-, -, -, g4, -⟩ := (hb k s hsteps).2 hterm
    have hx : dirAt (setLog fs lp' log) d name = dirAt fs d name := by
      unfold dirAt
      split
      · rename_i hx
        obtain ⟨u, rfl⟩ := hx
        unfold bytesAt
        show (match setLog fs lp' log (d ++ [hexName u]) with | some (.file c) => c | _ => []) = _
        rw [setLog_ne (ha.log u _ (rescuePath_leads ho hd u))]
        rfl
      · rfl
    show dirAt (setLog fs lp' log) d name = _
    rw [hx, hg.files, ← hdone]
    exact g4 name

/-- **C70, no log.** If the file named as log is no log, nothing is changed and the exit status says that the command failed. -/
theorem C70_wrong_log (S : Shell) (m : Matches) (p : Rescue.Param) (i o path : List Char) (hg : GivenRescue m p i o (some path)) (E : Rescue.Env)
    (hr : S.world.Rescued E p i o (some path) (S.rescued p i o (some path))) (ip lp : Place) (f c : File)
    (hi : leads S.world.fs S.world.cwd i = some ip) (hf : S.world.fs ip = some (.file f)) (hl : leads S.world.fs S.world.cwd path = some lp)
    (hc : S.world.fs lp = some (.file c)) (hno : ¬ Rescue.ascii "bytes_processed=" <+: c) (ha : Apart S.world i o (some lp)) :
    (S.run m .rescue).1 = S.world.fs ∧ (S.run m .rescue).2 ≠ .ok := by
  have hres : S.rescued p i o (some path) = (S.world.fs, false) := by
    generalize S.rescued p i o (some path) = r at hr
    have hlog : LogAt S.world (some path) (some lp) (some c) := .file hl hc
    cases hr with
    | badLog => rfl
    | noLog => rfl
    | refused => rfl
    | directory a b c => rw [hi] at a; cases a; rw [hf] at b; cases b
    | mixed a b c =>
      obtain ⟨rfl, rfl⟩ := logAt_unique hlog b
      exact absurd ha c
    | ran a b hlog' hap hct =>
      obtain ⟨rfl, rfl⟩ := logAt_unique hlog hlog'
      exact absurd (readLog_some hct) hno
  rcases C57_rescue S m p i o (some path) hg with h | ⟨-, -, h1, h2⟩
  · rw [h]; exact ⟨rfl, by simp⟩
  · rw [hres] at h1 h2
    refine ⟨h1, fun e => ?_⟩
    have := h2.1 e
    cases this

/-! ### Several runs -/

/-- The circumstances of a rescue: the image `f`, the directory `d` in which files for blocks can be written, and a log that does not exist yet and
can be written (or no log). -/
structure Scene (w : World) (i o : List Char) (l : Option (List Char)) (f : File) (d : Place) (lp : Option Place) : Prop where
  image : ∃ ip, leads w.fs w.cwd i = some ip ∧ w.fs ip = some (.file f)
  out : leads w.fs w.cwd o = some d
  dir : w.fs d = some .dir
  writable : CanWrite w d
  log : LogAt w l lp none
  logOk : l = none ∨ ∃ q, lp = some q ∧ w.canOpen q = true
  apart : Apart w i o lp

/-- What is known of the files after some runs. -/
structure Kept (w : World) (p : Rescue.Param) (f : File) (d : Place) (lp : Option Place) (fs : Fs) : Prop where
  dirs : SameDirs w.fs fs
  other : ∀ q, (∀ u, q ≠ d ++ [hexName u]) → lp ≠ some q → fs q = w.fs q
  paused : Paused p f (dirAt w.fs d) (dirAt fs d) (logIn fs lp)
  readable : ∃ c, Rescue.readLog (Rescue.required p f) (logIn fs lp) = some c

theorem apart_congr {w : World} {i o : List Char} {lp : Option Place} {fs : Fs} (h : SameDirs w.fs fs) (ha : Apart w i o lp) :
    Apart { w with fs := fs } i o lp := by
  constructor
  · intro u q hq
    rw [← leads_congr h] at hq ⊢
    exact ha.image u q hq
  · intro u q hq
    rw [← leads_congr h] at hq
    exact ha.log u q hq
  · rw [← leads_congr h]
    exact ha.logImage

theorem apart_place {w : World} {i o : List Char} {lp : Option Place} {d : Place} (ha : Apart w i o lp) (ho : leads w.fs w.cwd o = some d)
    (hd : w.fs d = some .dir) (u : Uid) : lp ≠ some (d ++ [hexName u]) ∧ leads w.fs w.cwd i ≠ some (d ++ [hexName u]) :=
  ⟨ha.log u _ (rescuePath_leads ho hd u), ha.image u _ (rescuePath_leads ho hd u)⟩

/-- The log is at the same place later. -/
theorem logAt_later {w : World} {l : Option (List Char)} {lp : Option Place} {fs : Fs} (hdirs : SameDirs w.fs fs) (h : LogAt w l lp none) :
    LogAt { w with fs := fs } l lp (logIn fs lp) := by
  cases h with
  | noOption => exact .noOption
  | nowhere a => exact .nowhere (by rw [← leads_congr hdirs]; exact a)
  | @new path pl a b =>
    have hnd : fs pl ≠ some .dir := fun e => by rw [(hdirs pl).2 e] at b; cases b
    simp only [logIn]
    cases e : fs pl with
    | none => exact .new (by rw [← leads_congr hdirs]; exact a) e
    | some node => cases node with
      | dir => exact absurd e hnd
      | file c => exact .file (by rw [← leads_congr hdirs]; exact a) e

theorem Scene.start {w : World} {i o : List Char} {l : Option (List Char)} {f : File} {d : Place} {lp : Option Place} (h : Scene w i o l f d lp)
    (p : Rescue.Param) : Kept w p f d lp w.fs := by
  have hl := logAt_in h.log
  refine ⟨fun _ => Iff.rfl, fun _ _ _ => rfl, ?_, ?_⟩
  · rw [hl]; exact .fresh
  · rw [hl]; exact ⟨.zero, rfl⟩

/-- The circumstances do not change, except for the log. -/
theorem Kept.image {w : World} {i o : List Char} {l : Option (List Char)} {f : File} {d : Place} {lp : Option Place} {p : Rescue.Param} {fs : Fs}
    (k : Kept w p f d lp fs) (h : Scene w i o l f d lp) : ∃ ip, leads fs w.cwd i = some ip ∧ fs ip = some (.file f) := by
  obtain ⟨ip, h1, h2⟩ := h.image
  refine ⟨ip, by rw [← leads_congr k.dirs]; exact h1, ?_⟩
  rw [k.other ip ?_ ?_]
  · exact h2
  · intro u e
    exact (apart_place h.apart h.out h.dir u).2 (by rw [h1, e])
  · intro e
    rcases h.apart.logImage with h3 | h3
    · rw [h3] at e; cases e
    · exact h3 (by rw [h1, e])

/-- One more run that meets no read error: what is kept, and what it did. -/
theorem Kept.run {w : World} {i o : List Char} {l : Option (List Char)} {f : File} {d : Place} {lp : Option Place} {p : Rescue.Param} {fs : Fs}
    (k : Kept w p f d lp fs) (h : Scene w i o l f d lp) (hf : f ≠ []) (hlen : f.length < 2 ^ 64) {E : Rescue.Env} (hE : Ok E) (he : NoErr E) {r : Fs × Bool}
    (hr : World.Rescued { w with fs := fs } E p i o l r) :
    Kept w p f d lp r.1 ∧ ∃ c n s, Rescue.readLog (Rescue.required p f) (logIn fs lp) = some c ∧
      (Rescue.ring E p f (Rescue.required p f)).Steps n (Rescue.initial E p f c) s ∧
      (∀ s', ¬ (Rescue.ring E p f (Rescue.required p f)).Step s s') ∧
      dirAt r.1 d = (dirAt fs d).after (s.thread 2).st.events ∧ r.2 = !(s.thread 0).st.failed := by
  obtain ⟨ip, i1, i2⟩ := k.image h
  have hlog := logAt_later k.dirs h.log
  have ho : leads fs w.cwd o = some d := by rw [← leads_congr k.dirs]; exact h.out
  have hd : fs d = some .dir := (k.dirs d).1 h.dir
  cases hr with
  | @badLog path pl a b c =>
    subst a
    have b' : leads fs w.cwd path = some pl := b
    have c' : fs pl = some .dir := c
    cases hl : h.log with
    | nowhere x => rw [leads_congr k.dirs] at x; rw [x] at b'; cases b'
    | new x y =>
      rw [leads_congr k.dirs] at x
      rw [x] at b'
      cases b'
      rw [(k.dirs _).2 c'] at y
      cases y
  | @noLog path a b =>
    subst a
    have b' : leads fs w.cwd path = none := b
    rcases h.logOk with e | ⟨q, rfl, -⟩
    · cases e
    · cases hl : h.log with
      | new x y => rw [leads_congr k.dirs] at x; rw [x] at b'; cases b'
  | @refused ip' f' lp' old a b hlog' hc =>
    exfalso
    have a' : leads fs w.cwd i = _ := a
    rw [i1] at a'; cases a'
    have b' : fs ip = _ := b
    rw [i2] at b'; cases b'
    obtain ⟨-, e2⟩ := logAt_unique hlog hlog'
    obtain ⟨c, hk⟩ := k.readable
    rw [e2, hk] at hc
    cases hc
  | directory a b c =>
    have a' : leads fs w.cwd i = _ := a
    rw [i1] at a'; cases a'
    have b' : fs ip = _ := b
    rw [i2] at b'; cases b'
  | mixed a b c =>
    obtain ⟨rfl, -⟩ := logAt_unique hlog b
    exact absurd (apart_congr k.dirs h.apart) c
  | @ran ip' f' lp' old c n s done rest fs' log a b hlog' hap hc hsteps hterm hhung hev hput hrest hleft =>
    have a' : leads fs w.cwd i = _ := a
    rw [i1] at a'
    cases a'
    have b' : fs ip = _ := b
    rw [i2] at b'
    cases b'
    obtain ⟨e1, e2⟩ := logAt_unique hlog hlog'
    have e1 := e1.symm
    subst e1 e2
    have hn : HexNames (done ++ rest) := by rw [← hev]; exact steps_names hsteps
    have hg := putAll_grown (w := { w with fs := fs }) ho hd (fun name bs hm => hn name bs (List.mem_append_left _ hm)) hput
    -- the files can be opened
    have hw : ∀ u : Uid, w.canOpen (d ++ [hexName u]) = true ∧ fs' (d ++ [hexName u]) ≠ some .dir := fun u =>
      ⟨(h.writable u).1, fun e => (h.writable u).2 (((k.dirs _).trans (hg.dirs _)).2 e)⟩
    have hlogOk : l = none ∨ ({ w with fs := fs } : World).canLog lp := by
      rcases h.logOk with e | ⟨q, e1, e2⟩
      · exact .inl e
      · right; rw [e1]; exact e2
    have hrest : rest = [] := by
      rcases hrest with e | ⟨e, es, e1, e2⟩ | ⟨e1, e2⟩
      · exact e
      · exfalso
        refine put_some (w := { w with fs := fs }) (fs := fs') (e := e) (d := d) ?_ ?_ hw ?_ e2
        · rw [← leads_congr hg.dirs]; exact ho
        · exact (hg.dirs d).1 hd
        · intro name bs hm
          rw [List.mem_singleton] at hm
          exact hn name bs (by rw [e1, ← hm]; simp)
      · exact absurd (hlogOk.resolve_left e1) e2
    subst hrest
    rw [List.append_nil] at hev hn
    have hlp : ∀ u, lp ≠ some (d ++ [hexName u]) := fun u => (apart_place h.apart h.out h.dir u).1
    -- contents of the directory and of the log
    have hdir : dirAt (setLog fs' lp log) d = dirAt fs' d := by
      funext name
      unfold dirAt
      split
      · rename_i hx
        obtain ⟨u, rfl⟩ := hx
        unfold bytesAt
        show (match setLog fs' lp log (d ++ [hexName u]) with | some (.file c) => c | _ => []) = _
        rw [setLog_ne (hlp u)]
        rfl
      · rfl
    have hother : ∀ q, lp = some q → fs' q = fs q := fun q hq => hg.other q fun u e => hlp u (by rw [hq, e])
    have hlogin : logIn (setLog fs' lp log) lp = log := by
      cases hlpe : lp with
      | none =>
        rcases hleft with e | ⟨e, -⟩
        · rw [e, hlpe]; rfl
        · rw [hlpe] at e; exact e.elim
      | some q =>
        cases log with
        | some c => simp only [setLog, logIn, Fs.set, if_true]
        | none =>
          simp only [setLog, logIn]
          rw [hother q hlpe]
          rcases hleft with e | ⟨-, _, -, e⟩
          · rw [hlpe] at e
            simp only [logIn] at e
            exact e.symm
          · cases e
    have hafter : LogAfter (logIn fs lp) c done log := by
      rcases hleft with e | ⟨-, c', e1, e2⟩
      · rw [e]; exact .untouched
      · rw [e2, ← List.take_length (l := c'.serialize)]
        exact .written _ e1
    have hdirs : SameDirs w.fs (setLog fs' lp log) := by
      refine setLog_dirs (k.dirs.trans hg.dirs) fun q hq => ?_
      rw [hother q hq]
      subst hq
      exact logAt_not_dir hlog
    refine ⟨⟨hdirs, ?_, ?_, ?_⟩, c, n, s, hc, hsteps, hterm, ?_, ?_⟩
    · intro q hq hlq
      show setLog fs' lp log q = _
      rw [setLog_ne hlq, hg.other q hq]
      exact k.other q hq hlq
    · show Paused p f _ (dirAt (setLog fs' lp log) d) (logIn (setLog fs' lp log) lp)
      rw [hdir, hg.files, hlogin]
      exact .stopped (rest := []) k.paused hE he hc ⟨n, s, hsteps, by rw [List.append_nil]; exact hev⟩ hafter
    · show ∃ c, Rescue.readLog _ (logIn (setLog fs' lp log) lp) = some c
      rw [hlogin]
      rcases hleft with e | ⟨-, c', e1, e2⟩
      · rw [e]; exact ⟨c, hc⟩
      · obtain ⟨b1, b2, b3, b4⟩ := Rescue.readLog_bound hc
        obtain ⟨r1, r2, -⟩ := Rescue.range_spec p hf
        obtain ⟨evs, cc, bound, hR, -, hall⟩ := Rescue.run_all hE (p := p) hf b1
        rw [e2]
        rcases e1 with rfl | e1
        · exact ⟨_, Rescue.readLog_serialize _ (by omega) b3 b4⟩
        · have hpre : done <+: evs := by
            have := (hall n s hsteps).2.1
            rw [hev] at this
            exact this
          obtain ⟨-, -, -, -, hle, m1, m2⟩ := hR.published done c' hpre e1 ⟨b3, b4⟩ (.inl b1) (by omega)
          exact ⟨_, Rescue.readLog_serialize _ (by omega) m1 m2⟩
    · show dirAt (setLog fs' lp log) d = _
      rw [hdir, hg.files, hev]
    · simp

theorem Attempts.kept {w : World} {i o : List Char} {l : Option (List Char)} {f : File} {d : Place} {lp : Option Place} {p : Rescue.Param} {fs : Fs}
    (h : Scene w i o l f d lp) (hf : f ≠ []) (hlen : f.length < 2 ^ 64) (ha : Attempts w p i o l fs) : Kept w p f d lp fs := by
  induction ha with
  | start => exact h.start p
  | again _ hE he hr ih => exact (ih.run h hf hlen hE he hr).1

/-- A run that is not stopped, after any number of runs that were. -/
theorem last_run {w : World} {i o : List Char} {l : Option (List Char)} {f : File} {d : Place} {lp : Option Place} {p : Rescue.Param} {fs : Fs}
    (hp : p.fromPos = none ∧ p.toPos = none) (h : Scene w i o l f d lp) (hf : f ≠ []) (hlen : f.length < 2 ^ 64) (ha : Attempts w p i o l fs)
    {E : Rescue.Env} (hE : Ok E) (hs : ∀ n, E.stop n = false) (he : NoErr E) {r : Fs × Bool} (hr : World.Rescued { w with fs := fs } E p i o l r) :
    Kept w p f d lp r.1 ∧ r.2 = true ∧ ∀ name, ∃ bs : List (List Byte), dirAt r.1 d name = dirAt w.fs d name ++ bs.flatten ∧
      ∀ b, b ∈ bs ↔ ∃ x ∈ saved p f, nameOf x.2 = name ∧ b = bytesOf p f x := by
  have k := Attempts.kept h hf hlen ha
  obtain ⟨k', c, n, s, hc, h1, h2, h3, h4⟩ := k.run h hf hlen hE he hr
  obtain ⟨bound, hrun⟩ := Rescue.C32_paused hp hf hlen k.paused hE hs he hc
  obtain ⟨g1, g2, g3, g4⟩ := (hrun n s h1).2 h2
  refine ⟨k', by rw [h4, g2]; rfl, fun name => ?_⟩
  rw [h3]
  exact g4 name

/-! ### The commands afterwards -/

theorem ok_later {w : World} {i o : List Char} {l : Option (List Char)} {f : File} {d : Place} {lp : Option Place} {p : Rescue.Param} {fs : Fs}
    (hw : w.fs.Ok) (h : Scene w i o l f d lp) (k : Kept w p f d lp fs) : fs.Ok := by
  refine ⟨(k.dirs _).1 hw.root, fun pl n hne => ?_⟩
  by_cases h1 : ∃ u, pl ++ [n] = d ++ [hexName u]
  · obtain ⟨u, e⟩ := h1
    obtain ⟨e1, -⟩ := List.append_inj' e rfl
    rw [e1]
    exact (k.dirs d).1 h.dir
  · by_cases h2 : lp = some (pl ++ [n])
    · have hl := h.log
      rw [h2] at hl
      cases hl with
      | new a b =>
        obtain ⟨_, last, d', -, -, -, e, -, hd'⟩ := leads_file hw a (by rw [b]; simp)
        obtain ⟨e1, -⟩ := List.append_inj' e rfl
        rw [e1]
        exact (k.dirs d').1 hd'
    · rw [k.other _ (fun u e => h1 ⟨u, e⟩) h2] at hne
      exact (k.dirs pl).1 (hw.up pl n hne)

/-- `decode` is told to decode all of the file at `src` to a file at `dst`, which is another one: new, or to be overwritten. -/
structure DecodesTo (T : Shell) (k : Matches) (q : Decode.Param) (b : DecodeArgs) (src dst : Place) : Prop where
  given : GivenDecode k q b
  calm : T.dec.Calm
  range : NoRange k
  refFrom : k.value .refFrom = none
  refTo : k.value .refToInc = none ∧ k.value .refToExc = none
  passes : k.flag .multiPass = false ∧ k.flag .multiPassNoSkip = false
  input : leads T.world.fs T.world.cwd b.inFile = some src
  out : ∃ o, b.out = some o ∧ o ≠ ['-'] ∧ leads T.world.fs T.world.cwd o = some dst
  other : dst ≠ src
  canOpen : T.world.canOpen dst = true
  free : T.world.fs dst = none ∨ k.flag .force = true ∧ ∃ old, T.world.fs dst = some (.file old)

theorem DecodesTo.whole {T : Shell} {k : Matches} {q : Decode.Param} {b : DecodeArgs} {src dst : Place} (h : DecodesTo T k q b src dst) :
    Decode.Whole q := by
  refine ⟨given_none h.given.ref.fromPos h.range.fromPos, givenEnd_none h.given.ref.toPos h.range.toInc h.range.toExc, ?_⟩
  rcases h.given.passes with ⟨x, -⟩ | ⟨-, x, -⟩ | ⟨-, -, x⟩
  · exact x
  · rw [h.passes.1] at x; cases x
  · rw [h.passes.2] at x; cases x

theorem DecodesTo.ref {T : Shell} {k : Matches} {q : Decode.Param} {b : DecodeArgs} {src dst : Place} (h : DecodesTo T k q b src dst) :
    Decode.DefaultRef q.ref := by
  refine ⟨given_none h.given.ref.refFrom h.refFrom, givenEnd_none h.given.ref.refTo h.refTo.1 h.refTo.2, h.whole.fromPos, ?_⟩
  rcases h.given.choice with ⟨-, x⟩ | ⟨-, x⟩
  · exact .inl x
  · exact .inr (.inl x)

theorem DecodesTo.seeks {T : Shell} {k : Matches} {q : Decode.Param} {b : DecodeArgs} {src dst : Place} (h : DecodesTo T k q b src dst)
    (hm : k.flag .noMeta = false) : SeeksMeta q.ref := by
  refine ⟨h.ref.refFrom, h.ref.refTo, h.ref.fromPos, ?_⟩
  rcases h.given.choice with ⟨x, -⟩ | ⟨-, x⟩
  · rw [hm] at x; cases x
  · exact .inl x

/-- The name recorded in the metadata is the name of a file (or there is none). -/
def Named (mp : List Byte) : Prop := ∀ s, getMeta (metasFromBytes mp) .fnm = some (.fnm s) → ∃ n, fileName s.toList = some n

theorem Named.recorded {mp : List Byte} (h : Named mp) (v : Version) (uid : Uid) : ∃ n, recordedName (blockOf v uid 0 mp) = .ok n := by
  unfold recordedName
  rw [refFnm_meta Decode.metas_blockOf]
  cases hg : getMeta (metasFromBytes mp) .fnm with
  | none => exact ⟨none, rfl⟩
  | some x =>
    cases x with
    | fnm s =>
      obtain ⟨n, hn⟩ := h s hg
      exact ⟨some n, by simp only [hn]⟩
    | _ => exact ⟨none, rfl⟩

theorem decodes {T : Shell} {k : Matches} {q : Decode.Param} {b : DecodeArgs} {src dst : Place} (h : DecodesTo T k q b src dst)
    (hw : T.world.fs.Ok) {f out : File} (hf : T.world.fs src = some (.file f)) {v : Version} {uid : Uid} {mp : List Byte} (hn : Named mp) {pos : Nat}
    (href : getRefBlockM q.ref q.ref.refChoice f T.dec.stopRef (T.dec.stop 0) = .ok (pos, blockOf v uid 0 mp)) {dpb : Option Dpb}
    (hd : dataParBurst q.ref true f (blockOf v uid 0 mp) = .ok dpb) (hto : ∀ old, ∃ R, Decode.toFile T.dec q f old = .ok (out, R)) :
    T.run k .decode = (T.world.fs.set dst out, .ok) := by
  obtain ⟨n, hrec⟩ := hn.recorded v uid
  obtain ⟨o, o1, o2, o3⟩ := h.out
  have hnd : T.world.fs dst ≠ some .dir := by
    rcases h.free with e | ⟨-, old, e⟩ <;> rw [e] <;> simp
  have hout : T.world.decodeOut b.out n = .ok (some o) := by
    have hnot : T.world.isDir o = false := by
      unfold World.isDir at?
      rw [o3, Option.bind_some]
      rcases h.free with e | ⟨-, old, e⟩ <;> rw [e]
    unfold World.decodeOut
    rw [o1]
    simp only
    rw [if_neg (show ¬ o = dash from o2), hnot]
    rfl
  have hdec := decode_ok (input_of_leads hw h.input hf) href hrec hout hd o3 h.canOpen h.other hnd
    (h.free.imp_right fun e => by rw [h.given.force]; exact e.1) hto
  obtain ⟨d1, d2⟩ := C57_decode T k q b h.given
  rw [hdec] at d1 d2
  exact Prod.ext d1 (d2.2 rfl)

/-- `sort` is told to sort all of the file at `src` to a file at `dst`, which is another one: new, or to be overwritten. -/
structure SortsTo (T : Shell) (k : Matches) (q : Verif.Sort.Param) (a : Args) (src dst : Place) : Prop where
  given : GivenSort k q a
  calm : T.srt.Calm
  range : NoRange k
  refFrom : k.value .refFrom = none
  refTo : k.value .refToInc = none ∧ k.value .refToExc = none
  passes : k.flag .multiPass = false ∧ k.flag .multiPassNoSkip = false
  dryRun : k.flag .dryRun = false
  input : leads T.world.fs T.world.cwd a.inFile = some src
  out : ∃ o, a.out = some o ∧ leads T.world.fs T.world.cwd o = some dst
  other : dst ≠ src
  canOpen : T.world.canOpen dst = true
  free : T.world.fs dst = none ∨ k.flag .force = true ∧ ∃ old, T.world.fs dst = some (.file old)

theorem SortsTo.whole {T : Shell} {k : Matches} {q : Verif.Sort.Param} {a : Args} {src dst : Place} (h : SortsTo T k q a src dst) :
    Verif.Sort.Whole q := by
  refine ⟨given_none h.given.ref.fromPos h.range.fromPos, givenEnd_none h.given.ref.toPos h.range.toInc h.range.toExc, ?_, ?_⟩
  · rcases h.given.passes with ⟨x, -⟩ | ⟨-, x, -⟩ | ⟨-, -, x⟩
    · exact x
    · rw [h.passes.1] at x; cases x
    · rw [h.passes.2] at x; cases x
  · cases hx : q.toFile with
    | true => rfl
    | false => have := h.given.dryRun.1 hx; rw [h.dryRun] at this; cases this

theorem sorts {T : Shell} {k : Matches} {q : Verif.Sort.Param} {a : Args} {src dst : Place} (h : SortsTo T k q a src dst)
    (hw : T.world.fs.Ok) {f out : File} (hf : T.world.fs src = some (.file f)) {pos : Nat} {ref : Block}
    (href : getRefBlockM q.ref q.ref.refChoice f T.srt.stopRef (T.srt.stop 0) = .ok (pos, ref)) {dpb : Option Dpb}
    (hd : dataParBurst q.ref true f ref = .ok dpb)
    (hto : ∃ dk st o, Verif.Sort.sortFile T.srt q f (bytesAt T.world.fs dst) = .ok (some dk, st, o) ∧ dk.file = out) :
    T.run k .sort = (T.world.fs.set dst out, .ok) := by
  obtain ⟨o, o1, o3⟩ := h.out
  have hnot : T.world.isDir o = false := by
    unfold World.isDir at?
    rw [o3, Option.bind_some]
    rcases h.free with e | ⟨-, old, e⟩ <;> rw [e]
  have hout : T.world.outName a ".sorted".toList = .ok o := by
    unfold World.outName
    rw [o1]
    simp only
    rw [hnot]
    rfl
  have hex : (T.world.exists o && !(a.force || q.multiPass.isSome || k.flag .dryRun)) = false := by
    rcases h.free with e | ⟨e, -⟩
    · have : T.world.exists o = false := by unfold World.exists at?; rw [o3, Option.bind_some, e]; rfl
      rw [this, Bool.false_and]
    · rw [h.given.force, e]; simp
  have hop : T.world.open o = some (dst, bytesAt T.world.fs dst) := by
    unfold World.open bytesAt
    rw [o3]
    simp only [h.canOpen, if_true]
    rcases h.free with e | ⟨-, old, e⟩ <;> rw [e]
  obtain ⟨dk, st, o', e1, e2⟩ := hto
  have hsort : T.world.sort T.srt q a (k.flag .dryRun) = (T.world.fs.set dst out, .ok ()) := by
    unfold World.sort
    rw [input_of_leads hw h.input hf]
    simp only
    rw [hout]
    simp only
    rw [hex]
    simp only [Bool.false_eq_true, if_false]
    rw [href]
    simp only
    rw [hd]
    simp only [h.dryRun, Bool.false_eq_true, if_false]
    rw [hop]
    have hq : ({ q with toFile := true } : Verif.Sort.Param) = q := by
      have := h.whole.toFile
      cases q
      simp only at this
      rw [this]
    simp only [World.sorted, decide_eq_true_eq]
    rw [if_neg h.other, hq, e1]
    simp only [e2, if_true]
  obtain ⟨d1, d2⟩ := C57_sort T k q a h.given
  rw [hsort] at d1 d2
  exact Prod.ext d1 (d2.2 rfl)

/-- The image on which pieces of containers and rubbish lie. -/
def imageOf (ps : List Piece) (tail : List Byte) : File := ps.flatMap Piece.bytes ++ tail

/-- Rescuing on the command line: the file of the uid holds the blocks on the image. -/
theorem rescues {w : World} (hw : w.fs.Ok) {i o : List Char} {l : Option (List Char)} {d : Place} {lp : Option Place} {p : Rescue.Param}
    (hp : p.fromPos = none ∧ p.toPos = none) {uid : Uid} (hall : p.onlyBlock = none ∧ (p.onlyUid = none ∨ p.onlyUid = some uid))
    {v : Version} {pl : List (List Byte)} {mp : List Byte} {ps : List Piece} (h : Scattered v uid pl mp ps)
    {tail : List Byte} (ht : tail.length < 128) (hlen : (imageOf ps tail).length < 2 ^ 64) (hsc : Scene w i o l (imageOf ps tail) d lp)
    (hnew : w.fs (d ++ [hexName uid]) = none) {S : Shell} {fs : Fs} (hfs : Attempts w p i o l fs) (hS : S.world = { w with fs := fs })
    {m : Matches} (hm : GivenRescue m p i o l) {E : Rescue.Env} (hE : Ok E) (hs : ∀ n, E.stop n = false) (he : NoErr E)
    (hr : S.world.Rescued E p i o l (S.rescued p i o l)) :
    ∃ fs' g, S.run m .rescue = (fs', .ok) ∧ fs'.Ok ∧ fs' (d ++ [hexName uid]) = some (.file g) ∧
      (∀ q, (∀ u, q ≠ d ++ [hexName u]) → lp ≠ some q → fs' q = w.fs q) ∧ (∀ s pay, HasBlock v uid g s pay ↔ Piece.block v uid s pay ∈ ps) ∧
      ∀ {q : RefParam}, SeeksMeta q → ∀ {stop : Nat → Bool}, (∀ i, stop i = false) → ∀ b,
        ∃ pos, getRefBlockM q q.refChoice g stop b = .ok (pos, blockOf v uid 0 mp) := by
  rw [hS] at hr
  obtain ⟨k, k1, k2⟩ := last_run hp hsc (image_nonempty h tail) hlen hfs hE hs he hr
  obtain ⟨bs, b1, b4⟩ := k2 (upperHex uid.bytes)
  obtain ⟨b2, b3⟩ := rescued_blocks hp hall h ht b4
  obtain ⟨f1, f2⟩ := rescued_file h b2 b3
  have hg : bytesAt (S.rescued p i o l).1 (d ++ [hexName uid]) = bs.flatten := by
    rw [dirAt_hex, dirAt_hex] at b1
    rw [b1]
    unfold bytesAt
    rw [hnew]
    rfl
  have hne : bs.flatten ≠ [] := by
    intro e
    obtain ⟨j, hj⟩ := (f1 0 mp).2 h.known
    have hl := isBlock_length hj
    have hu := blockLen_pos v
    rw [e] at hl
    unfold File.readAt at hl
    simp at hl
    omega
  have hfile : (S.rescued p i o l).1 (d ++ [hexName uid]) = some (.file bs.flatten) := by
    unfold bytesAt at hg
    split at hg
    · rename_i c hc
      rw [hc, hg]
    · exact absurd hg.symm hne
  refine ⟨(S.rescued p i o l).1, bs.flatten, ?_, ok_later hw hsc k, hfile, k.other, f1,
    fun hr _ hst b => f2 hr.refFrom hr.refTo hr.fromPos hr.choice hst b⟩
  have kk := Attempts.kept hsc (image_nonempty h tail) hlen hfs
  obtain ⟨ip, i1, i2⟩ := kk.image hsc
  have hin : S.world.exists i = true := by
    unfold World.exists at?
    rw [hS]
    show ((leads fs w.cwd i).bind fs).isSome = true
    rw [i1, Option.bind_some, i2]
    rfl
  have hod : (leads fs w.cwd o).bind fs = some .dir := by
    rw [← leads_congr kk.dirs, hsc.out, Option.bind_some]
    exact (kk.dirs d).1 hsc.dir
  have ho : S.world.exists o = true := by
    unfold World.exists at?
    rw [hS]
    show ((leads fs w.cwd o).bind fs).isSome = true
    rw [hod]
    rfl
  have ho' : S.world.isDir o = true := by
    unfold World.isDir at?
    rw [hS]
    show (match (leads fs w.cwd o).bind fs with | some .dir => true | _ => false) = true
    rw [hod]
  simp only [Shell.run]
  unfold Shell.rescue
  rw [(read_rescue _ _ _ _ _).2 hm]
  simp only [hin, ho, ho', Bool.not_true, Bool.false_eq_true, if_false, k1, if_true]

/-- **C70, decode.** On an image some of the blocks of a container lie in any order, among blocks of other containers and rubbish.  `rescue` is run
on it any number of times, each time stopped by Ctrl-C or not, and finally once without being stopped; `decode` of the file named after the uid
then writes a file of the original size, in which every byte whose block is on the image is the original one and the others are zero.  If all
data blocks are on the image, it is the original file. -/
theorem C70_decode (w : World) (hw : w.fs.Ok) (i o : List Char) (l : Option (List Char)) (d : Place) (lp : Option Place) (p : Rescue.Param)
    (hp : p.fromPos = none ∧ p.toPos = none) (uid : Uid) (hall : p.onlyBlock = none ∧ (p.onlyUid = none ∨ p.onlyUid = some uid))
    -- the image
    (rs : RsCodec) (v : Version) (dpb : Option Dpb) (bytes mp : List Byte) (hrs : RsLen rs v dpb) (hv : Valid dpb)
    (hc : verConsistent v dpb = true) (hsz : firstFsz (metasFromBytes mp) = some bytes.length)
    (hsh : firstRsd (metasFromBytes mp) = dpb.map (·.data) ∧ firstRsp (metasFromBytes mp) = dpb.map (·.parity)) (hn : Named mp)
    (ps : List Piece) (h : Scattered v uid (payloads rs v dpb (fileChunks v bytes)) mp ps) (tail : List Byte) (ht : tail.length < 128)
    (hlen : (imageOf ps tail).length < 2 ^ 64) (hsc : Scene w i o l (imageOf ps tail) d lp) (hnew : w.fs (d ++ [hexName uid]) = none)
    -- rescue
    (S : Shell) (fs : Fs) (hfs : Attempts w p i o l fs) (hS : S.world = { w with fs := fs }) (m : Matches) (hm : GivenRescue m p i o l)
    (E : Rescue.Env) (hE : Ok E) (hs : ∀ n, E.stop n = false) (he : NoErr E) (hr : S.world.Rescued E p i o l (S.rescued p i o l)) :
    ∃ fs', S.run m .rescue = (fs', .ok) ∧ (∀ q, (∀ u, q ≠ d ++ [hexName u]) → lp ≠ some q → fs' q = w.fs q) ∧
      -- decode
      ∀ (T : Shell) (k : Matches) (q : Decode.Param) (b : DecodeArgs) (dst : Place), T.world.fs = fs' →
        DecodesTo T k q b (d ++ [hexName uid]) dst → k.flag .noMeta = false → (∀ x, dpb = some x → q.ref.burst = some x.burst) →
        ∃ out, T.run k .decode = (fs'.set dst out, .ok) ∧ out.length = bytes.length ∧
          (∀ j < bytes.length,
            ((∃ seq pay, Piece.block v uid seq pay ∈ ps ∧ chunkOf dpb seq.toNat = some (j / (blockLen v - 16))) → out[j]? = bytes[j]?) ∧
            ((¬ ∃ seq pay, Piece.block v uid seq pay ∈ ps ∧ chunkOf dpb seq.toNat = some (j / (blockLen v - 16))) → out[j]? = some 0)) ∧
          ((∀ j, j * (blockLen v - 16) < bytes.length → ∃ seq pay, Piece.block v uid seq pay ∈ ps ∧ chunkOf dpb seq.toNat = some j) →
            out = bytes) := by
  obtain ⟨fs', g, r1, r2, r3, r4, f1, f2⟩ := rescues hw hp hall h ht hlen hsc hnew hfs hS hm hE hs he hr
  refine ⟨fs', r1, r4, ?_⟩
  intro T k q b dst hT hdt hmeta hb
  obtain ⟨o1, o2, o3⟩ := rescued_only h f1
  obtain ⟨pos, href⟩ := f2 (hdt.seeks hmeta) hdt.calm.stopRef (T.dec.stop 0)
  have hd := Verif.Sort.shards_given (uid := uid) g hc hsh q.ref true hb
  have hall : ∀ old, ∃ out R, Decode.toFile T.dec q g old = .ok (out, R) ∧ out.length = bytes.length ∧ ∀ j < bytes.length,
      (HasChunk v uid dpb g (j / (blockLen v - 16)) → out[j]? = bytes[j]?) ∧
      (¬ HasChunk v uid dpb g (j / (blockLen v - 16)) → out[j]? = some 0) := by
    intro old
    obtain ⟨full, -, e2⟩ := Decode.decodeFile_whole T.dec hdt.calm.lots hdt.calm.stop hdt.whole (blockOf v uid 0 mp) g old dpb hd
    have : ∃ out R, Decode.toFile T.dec q g old = .ok (out, R) := by
      unfold Decode.toFile
      rw [href]
      simp only
      rw [e2]
      exact ⟨_, _, rfl⟩
    obtain ⟨out, R, hto⟩ := this
    obtain ⟨c1, c2⟩ := Decode.C23_damage T.dec hdt.calm q hdt.whole _ _ _ _ hto pos _ href rs v uid dpb bytes rfl rfl hrs hv hc _
      Decode.metas_blockOf hsz hsh o1
    exact ⟨out, R, hto, c1, c2⟩
  obtain ⟨out, -, -, c1, c2⟩ := hall []
  have hto : ∀ old, ∃ R, Decode.toFile T.dec q g old = .ok (out, R) := by
    intro old
    obtain ⟨out', R, e, d1, d2⟩ := hall old
    have : out' = out := by
      refine List.ext_getElem? fun j => ?_
      by_cases hj : j < bytes.length
      · by_cases hcj : HasChunk v uid dpb g (j / (blockLen v - 16))
        · rw [(d2 j hj).1 hcj, (c2 j hj).1 hcj]
        · rw [(d2 j hj).2 hcj, (c2 j hj).2 hcj]
      · rw [List.getElem?_eq_none (by omega), List.getElem?_eq_none (by omega)]
    exact ⟨R, by rw [e, this]⟩
  have hrun := decodes hdt (by rw [hT]; exact r2) (by rw [hT]; exact r3) hn href hd hto
  rw [hT] at hrun
  have c3 : ∀ j < bytes.length,
            ((∃ seq pay, Piece.block v uid seq pay ∈ ps ∧ chunkOf dpb seq.toNat = some (j / (blockLen v - 16))) → out[j]? = bytes[j]?) ∧
            ((¬ ∃ seq pay, Piece.block v uid seq pay ∈ ps ∧ chunkOf dpb seq.toNat = some (j / (blockLen v - 16))) → out[j]? = some 0) := by
    intro j hj
    have hch : HasChunk v uid dpb g (j / (blockLen v - 16)) ↔
        ∃ seq pay, Piece.block v uid seq pay ∈ ps ∧ chunkOf dpb seq.toNat = some (j / (blockLen v - 16)) := by
      unfold HasChunk
      simp only [f1]
    rw [← hch]
    exact c2 j hj
  refine ⟨out, hrun, c1, c3, fun hfull => ?_⟩
  refine List.ext_getElem? fun j => ?_
  by_cases hj : j < bytes.length
  · refine (c3 j hj).1 (hfull _ ?_)
    exact Nat.lt_of_le_of_lt (Nat.div_mul_le_self _ _) hj
  · rw [List.getElem?_eq_none (by omega), List.getElem?_eq_none (by omega)]

/-- **C70, restore.** If of every Reed-Solomon set of the container at least as many blocks as it has data shards are on the image, and a metadata
block, then `rescue` (run as often as one likes, the last time without being stopped), `sort`, `repair` and `decode` restore the container, byte for byte, and the
file.  Each of the commands reports success, and changes nothing but the file it writes. -/
theorem C70_restore (w : World) (hw : w.fs.Ok) (i o : List Char) (l : Option (List Char)) (d : Place) (lp : Option Place) (p : Rescue.Param)
    (hp : p.fromPos = none ∧ p.toPos = none) (uid : Uid) (hall : p.onlyBlock = none ∧ (p.onlyUid = none ∨ p.onlyUid = some uid))
    -- the image
    (rs : RsCodec) (laws : rs.Laws) (v : Version) (dp : Dpb) (bytes mp : List Byte) (c : File) (hc : Repair.Sound rs v uid dp bytes mp c)
    (hn : Named mp) (ps : List Piece) (h : Scattered v uid (payloads rs v (some dp) (fileChunks v bytes)) mp ps) (tail : List Byte)
    (ht : tail.length < 128)
    (henough : ∀ t, t * (dp.data + dp.parity) < (payloads rs v (some dp) (fileChunks v bytes)).length → dp.data ≤ foundIn v uid dp ps t)
    (hlen : (imageOf ps tail).length < 2 ^ 64) (hsc : Scene w i o l (imageOf ps tail) d lp) (hnew : w.fs (d ++ [hexName uid]) = none)
    -- rescue
    (S : Shell) (fs : Fs) (hfs : Attempts w p i o l fs) (hS : S.world = { w with fs := fs }) (m : Matches) (hm : GivenRescue m p i o l)
    (E : Rescue.Env) (hE : Ok E) (hs : ∀ n, E.stop n = false) (he : NoErr E) (hr : S.world.Rescued E p i o l (S.rescued p i o l)) :
    ∃ fs1, S.run m .rescue = (fs1, .ok) ∧ (∀ q, (∀ u, q ≠ d ++ [hexName u]) → lp ≠ some q → fs1 q = w.fs q) ∧
      -- sort
      ∀ (T : Shell) (ms : Matches) (qs : Verif.Sort.Param) (a : Args) (cp : Place), T.world.fs = fs1 →
        SortsTo T ms qs a (d ++ [hexName uid]) cp → qs.ref.burst = some dp.burst →
        ∃ g, T.run ms .sort = (fs1.set cp g, .ok) ∧
        -- repair
        ∀ (R : Shell) (mr : Matches) (ir : List Char), R.world.fs = fs1.set cp g → R.rep.rs = rs → R.rep.Calm →
          GivenRepair mr (some dp.burst) ir → leads R.world.fs R.world.cwd ir = some cp → R.world.canOpen cp = true → mr.flag .dryRun = false →
          GoesAhead R mr →
          R.run mr .repair = (fs1.set cp c, .ok) ∧
          -- decode
          ∀ (D : Shell) (md : Matches) (qd : Decode.Param) (b : DecodeArgs) (dst : Place), D.world.fs = fs1.set cp c →
            DecodesTo D md qd b cp dst → (qd.ref.burst ≠ none ∨ qd.ref.guessBurstFrom = none ∧ dp.burst ≤ 1000) →
            D.run md .decode = ((fs1.set cp c).set dst bytes, .ok) := by
  obtain ⟨fs1, g0, r1, r2, r3, r4, f1, f2⟩ := rescues hw hp hall h ht hlen hsc hnew hfs hS hm hE hs he hr
  refine ⟨fs1, r1, r4, ?_⟩
  intro T ms qs a cp hT hst hb
  obtain ⟨o1, o2, o3⟩ := rescued_only h f1
  have hseek : SeeksMeta qs.ref := ⟨given_none hst.given.ref.refFrom hst.refFrom, givenEnd_none hst.given.ref.refTo hst.refTo.1 hst.refTo.2,
    hst.whole.fromPos, .inl hst.given.choice⟩
  obtain ⟨pos, href⟩ := f2 hseek hst.calm.stopRef (T.srt.stop 0)
  have hd := Verif.Sort.shards_given (uid := uid) (dpb := some dp) g0 (v := v) (mp := mp) (by simp [verConsistent, hc.rs])
    (by rw [hc.data, hc.parity]; exact ⟨rfl, rfl⟩) qs.ref true (by intro x hx; cases hx; exact hb)
  have hsr : ∀ R : Repair.Env, R.rs = rs → R.Calm → ∃ dk st o dk' st', Verif.Sort.sortFile T.srt qs g0 (bytesAt T.world.fs cp) = .ok (some dk, st, o) ∧
      Repair.repairFile R (some dp.burst) false dk.file = .ok (some (dk', st')) ∧ st'.repairFailed = 0 ∧ dk'.file = c := by
    rintro R rfl hR
    refine C55_sort_repair T.srt hst.calm qs hst.whole R laws hR v uid dp bytes mp c g0 _ hc pos href hb o1 o2 o3 fun t ht => ?_
    have e : heldIn v uid dp g0 t = foundIn v uid dp ps t := by
      unfold heldIn foundIn OnImage
      refine List.countP_congr fun j _ => ?_
      rw [@decide_eq_true_iff _ (Classical.propDecidable _), @decide_eq_true_iff _ (Classical.propDecidable _)]
      simp only [f1]
    rw [e]
    exact henough t ht
  obtain ⟨dk, st, o', _, _, s1, -⟩ := hsr ⟨rs, fun _ => false, fun _ => false, fun _ => false⟩ rfl ⟨fun _ => rfl, fun _ => rfl, fun _ => rfl⟩
  have hTok : T.world.fs.Ok := by rw [hT]; exact r2
  have hsort := sorts hst hTok (by rw [hT]; exact r3) href hd ⟨dk, st, o', s1, rfl⟩
  rw [hT] at hsort
  refine ⟨dk.file, hsort, ?_⟩
  have hnd : fs1 cp ≠ some .dir := by
    rw [← hT]
    rcases hst.free with e | ⟨-, old, e⟩ <;> rw [e] <;> simp
  have hup : ∃ e n, cp = e ++ [n] ∧ fs1 e = some .dir := by
    obtain ⟨_, -, ho⟩ := hst.out
    rw [hT] at ho
    obtain ⟨_, last, e, -, -, -, h1, -, h2⟩ := leads_file r2 ho hnd
    exact ⟨e, last, h1, h2⟩
  intro R mr ir hR hrs hcalm hg hl hcan hdry hgo
  obtain ⟨dk1, st1, o1', dk', st', s2, s3, s4, s5⟩ := hsr R.rep hrs hcalm
  rw [s1] at s2
  simp only [Except.ok.injEq, Prod.mk.injEq, Option.some.injEq] at s2
  obtain ⟨rfl, -⟩ := s2
  have hset : ∀ x : File, (fs1.set cp x) cp = some (.file x) := fun x => by unfold Fs.set; rw [if_pos rfl]
  have hrep := C57_repair R (by rw [hR]; exact set_ok r2 hnd hup _) mr _ ir hg cp dk.file hl (by rw [hR]; exact hset _) hcan hdry hgo dk' st' s3
  rw [hR, s5] at hrep
  have hss : (fs1.set cp dk.file).set cp c = fs1.set cp c := by
    funext q
    unfold Fs.set
    split <;> rfl
  rw [hss] at hrep
  refine ⟨hrep, ?_⟩
  intro D md qd b dst hD hdt hbd
  obtain ⟨h1, h2, h3⟩ := Repair.shards_ok hc.data hc.parity
  have hto : ∀ old, ∃ out, Decode.toFile D.dec qd c old = .ok (bytes, out) := by
    intro old
    obtain ⟨out, e1, -⟩ := Decode.C21_container D.dec hdt.calm qd hdt.whole hdt.ref rs v uid (some dp) bytes _ c old (by
        intro x hx sh e1 e2
        cases hx
        exact laws.encode_length _ _ _ _ h1 h2 h3 e1 e2) (by intro x hx; cases hx; exact ⟨h1, h2, h3⟩)
      (by simp [verConsistent, hc.rs]) hc.container _ ⟨mp, ⟨rfl, metasToBytes_length hc.plain⟩, rfl⟩ hc.sized
      (by rw [hc.data, hc.parity]; exact ⟨rfl, rfl⟩) hc.numbers (hbd.imp_right fun e => ⟨e.1, by intro x hx; cases hx; exact e.2⟩)
    exact ⟨out, e1⟩
  have hm0 : (0 : Nat) ∈ metaCopies (some true) (some dp) := List.mem_map.2 ⟨0, List.mem_range.2 (by omega), by simp⟩
  have hstart : IsBlock (c.readAt 0 (blockLen v)) v uid 0 mp := by
    have := hc.container.metas 0 hm0
    rw [Nat.zero_mul] at this
    rw [this]
    exact ⟨rfl, metasToBytes_length hc.plain⟩
  have hrefd := Decode.ref_at_start hdt.ref hdt.calm.stopRef (D.dec.stop 0) hstart
  obtain ⟨R0, hR0⟩ := hto []
  obtain ⟨pos', ref', dpb', full, g1, g2, -⟩ := Decode.toFile_ok hdt.calm hdt.whole hR0
  rw [hrefd] at g1
  simp only [Except.ok.injEq, Prod.mk.injEq] at g1
  obtain ⟨-, rfl⟩ := g1
  have := decodes hdt (by rw [hD]; exact set_ok r2 hnd hup _) (by rw [hD]; exact hset _) hn hrefd g2 hto
  rw [hD] at this
  exact this

/-! ### Such runs exist -/

/-- If runs cannot be longer than `bound` steps, one of them comes to its end. -/
theorem exists_end {S M : Type} {n : Nat} (R : Ring n S M) (a : Sys n S M) (bound : Nat) (h : ∀ k s, R.Steps k a s → k ≤ bound) :
    ∃ k s, R.Steps k a s ∧ ∀ s', ¬ R.Step s s' := by
  induction bound generalizing a with
  | zero =>
    refine ⟨0, a, .refl a, fun s' hs => ?_⟩
    have := h 1 s' (.cons hs (.refl _))
    omega
  | succ b ih =>
    by_cases hx : ∃ t, R.Step a t
    · obtain ⟨t, ht⟩ := hx
      obtain ⟨k, s, h1, h2⟩ := ih t fun k s hk => by
        have := h (k + 1) s (.cons ht hk)
        omega
      exact ⟨k + 1, s, .cons ht h1, h2⟩
    · exact ⟨0, a, .refl a, fun s' hs => hx ⟨s', hs⟩⟩

theorem putAll_exists {w : World} {o : List Char} {d : Place} : ∀ {evs : List Rescue.Event} {fs : Fs}, leads fs w.cwd o = some d → fs d = some .dir →
    (∀ u : Uid, w.canOpen (d ++ [hexName u]) = true ∧ fs (d ++ [hexName u]) ≠ some .dir) → HexNames evs → ∃ fs', w.putAll o fs evs = some fs' := by
  intro evs
  induction evs with
  | nil => intro fs _ _ _ _; exact ⟨fs, rfl⟩
  | cons e es ih =>
    intro fs ho hd hc hn
    have hn1 : HexNames [e] := fun name bs h => hn name bs (by rw [List.mem_singleton] at h; rw [h]; exact List.mem_cons_self)
    cases hp : w.put o fs e with
    | none => exact absurd hp (put_some ho hd hc hn1)
    | some fs1 =>
      have hg := put_grown ho hd hn1 hp
      obtain ⟨fs', h'⟩ := ih (fs := fs1) (by rw [← leads_congr hg.dirs]; exact ho) ((hg.dirs d).1 hd)
        (fun u => ⟨(hc u).1, fun e => (hc u).2 ((hg.dirs _).2 e)⟩) (fun name bs h => hn name bs (List.mem_cons_of_mem _ h))
      exact ⟨fs', by simp only [World.putAll, hp, h']⟩

/-- In the circumstances of C70, `rescue` can be run again, and comes to its end. -/
theorem C70_possible (w : World) (i o : List Char) (l : Option (List Char)) (f : File) (d : Place) (lp : Option Place) (p : Rescue.Param)
    (hp : p.fromPos = none ∧ p.toPos = none) (h : Scene w i o l f d lp) (hf : f ≠ []) (hlen : f.length < 2 ^ 64) (fs : Fs)
    (ha : Attempts w p i o l fs) (E : Rescue.Env) (hE : Ok E) (hs : ∀ n, E.stop n = false) (he : NoErr E) :
    ∃ r, World.Rescued { w with fs := fs } E p i o l r := by
  have k := Attempts.kept h hf hlen ha
  obtain ⟨c, hc⟩ := k.readable
  obtain ⟨bound, hrun⟩ := Rescue.C32_paused hp hf hlen k.paused hE hs he hc
  obtain ⟨n, s, h1, h2⟩ := exists_end _ _ bound fun k s hk => (hrun k s hk).1
  obtain ⟨g1, g2, g3, g4⟩ := (hrun n s h1).2 h2
  obtain ⟨ip, i1, i2⟩ := k.image h
  obtain ⟨fs', hput⟩ := putAll_exists (w := { w with fs := fs }) (o := o) (d := d) (fs := fs) (by rw [← leads_congr k.dirs]; exact h.out)
    ((k.dirs d).1 h.dir) (fun u => ⟨(h.writable u).1, fun e => (h.writable u).2 ((k.dirs _).2 e)⟩) (steps_names h1)
  exact ⟨_, .ran (w := { w with fs := fs }) (rest := []) i1 i2 (logAt_later k.dirs h.log) (apart_congr k.dirs h.apart) hc h1 h2 g3
    (List.append_nil _).symm hput (.inl rfl) (.inl rfl)⟩

/-! ### Examples -/

theorem desk_not_dir (files : List (Name × File)) (n : Name) : desk files [n] ≠ some .dir := by
  unfold desk
  cases files.lookup n <;> simp

/-- The image is the file `i` in the current directory, the output goes to the current directory, the log is `l`. -/
theorem desk_scene (f : File) (files : List (Name × File)) (hl : files.lookup ['l'] = none) :
    Scene (deskWorld ((['i'], f) :: files)) ['i'] ['.'] (some ['l']) f [] (some [['l']]) := by
  have hi : leads (deskWorld ((['i'], f) :: files)).fs (deskWorld ((['i'], f) :: files)).cwd ['i'] = some ([] ++ [['i']]) :=
    leads_name' ⟨by decide, by decide, by decide, by decide, by decide⟩ rfl
  have hll : leads (deskWorld ((['i'], f) :: files)).fs (deskWorld ((['i'], f) :: files)).cwd ['l'] = some ([] ++ [['l']]) :=
    leads_name' ⟨by decide, by decide, by decide, by decide, by decide⟩ rfl
  have ho : leads (deskWorld ((['i'], f) :: files)).fs (deskWorld ((['i'], f) :: files)).cwd ['.'] = some [] := by rfl
  have hne : ∀ (u : Uid) (c : Char), ([hexName u] : Place) ≠ [[c]] := by
    intro u c e
    have h1 := hexName_length u
    simp only [List.cons.injEq, and_true] at e
    rw [e] at h1
    cases h1
  refine ⟨⟨_, hi, rfl⟩, ho, rfl, fun u => ⟨rfl, desk_not_dir _ _⟩, .new hll ?_, .inr ⟨_, rfl, rfl⟩, ?_, ?_, .inr ?_⟩
  · show ((List.lookup ['l'] ((['i'], f) :: files)).map Node.file) = none
    rw [List.lookup_cons]
    simp [hl]
  · intro u q hq
    rw [rescuePath_leads ho rfl u] at hq
    cases hq
    rw [hi]
    exact fun e => hne u 'i' (Option.some.inj e).symm
  · intro u q hq
    rw [rescuePath_leads ho rfl u] at hq
    cases hq
    intro e
    exact hne u 'l' (Option.some.inj e).symm
  · rw [hi]
    decide

/-- The container of 1000 bytes, version 17, 10 data and 2 parity shards, burst level 3; `a.txt` is recorded in it. -/
theorem demo_named : ∃ mp c, Repair.Sound RsWitness.codec .v17 Repair.demoOwner Repair.demoDpb (List.replicate 1000 7) mp c ∧ Named mp := by
  obtain ⟨dk, rep, mp, henc, h⟩ := Repair.demo_sound'
  refine ⟨mp, dk.file, h, ?_⟩
  obtain ⟨h1, h2⟩ := Encode.demo_ok (v := .v17) (dpb := some ⟨10, 2, 3⟩) none rfl (by simp) (fun _ => false)
  have hnames : Encode.NamesOk (Encode.demoParam .v17 (some ⟨10, 2, 3⟩) none) ⟨List.replicate 1000 7, some ("a.txt", some 5)⟩ := by
    refine ⟨by decide +kernel, ?_⟩
    intro n t ht
    simp only [Option.some.injEq, Prod.mk.injEq] at ht
    rw [← ht.1]
    decide +kernel
  obtain ⟨mp', stored, b1, b2⟩ := Encode.container_metas h2 h1 hnames henc rfl
  have hm0 : (0 : Nat) ∈ metaCopies (some true) (some Repair.demoDpb) := List.mem_map.2 ⟨0, List.mem_range.2 (by omega), by simp⟩
  have hstart : IsBlock (dk.file.readAt 0 (blockLen .v17)) .v17 Repair.demoOwner 0 mp := by
    have := h.container.metas 0 hm0
    rw [Nat.zero_mul] at this
    rw [this]
    exact ⟨rfl, metasToBytes_length h.plain⟩
  have e : mp' = mp := by rw [← Repair.isBlock_payload b1, ← Repair.isBlock_payload hstart]; rfl
  rw [e] at b2
  intro s hs
  rw [b2] at hs
  have e2 : getMeta (Encode.finalMetas (Encode.demoEnv fun _ => false) (Encode.demoParam .v17 (some ⟨10, 2, 3⟩) none)
    ⟨List.replicate 1000 7, some ("a.txt", some 5)⟩ stored) .fnm = some (.fnm "a.txt") := rfl
  rw [e2] at hs
  cases hs
  exact ⟨"a.txt".toList, by decide +kernel⟩

/-- A shell with these files, in which nothing goes wrong. -/
noncomputable def calmShell (fs : Fs) (r : Fs × Bool) : Shell :=
  { smallShell [] with
    world := { deskWorld [] with fs := fs }, srt := Verif.Sort.calmEnv, rep := Repair.demoEnv, dec := Decode.calmEnv, rescued := fun _ _ _ _ => r }

/-- `blkar rescue i . l`, which was stopped once and is run again, `blkar sort 010203040506 s --burst 3`, `blkar repair s --burst 3 -y`,
`blkar decode s f`: of the 12 data and parity blocks of the first set two are lost, and the file is restored. -/
example : ∃ (mp : List Byte) (c : File) (ps : List Piece) (r r' : Fs × Bool),
    Repair.Sound RsWitness.codec .v17 Repair.demoOwner Repair.demoDpb (List.replicate 1000 7) mp c ∧ ¬ OnImage .v17 Repair.demoOwner ps 1 ∧
    World.Rescued (deskWorld [(['i'], imageOf ps [1, 2])]) Rescue.smallEnv Rescue.everything ['i'] ['.'] (some ['l']) r ∧
    (calmShell r.1 r').run (table [(.inFile, "i"), (.outDir, "."), (.logFile, "l")] []) .rescue = (r'.1, .ok) ∧
    ∃ g, (calmShell r'.1 r).run (table [(.inFile, "010203040506"), (.out, "s"), (.burst, "3")] []) .sort = (r'.1.set [['s']] g, .ok) ∧
      (calmShell (r'.1.set [['s']] g) r).run (table [(.inFile, "s"), (.burst, "3")] [.skipWarning]) .repair = (r'.1.set [['s']] c, .ok) ∧
      (calmShell (r'.1.set [['s']] c) r).run (table [(.inFile, "s"), (.out, "f")] []) .decode =
        ((r'.1.set [['s']] c).set [['f']] (List.replicate 1000 7), .ok) := by
  obtain ⟨mp, c, h, hn⟩ := demo_named
  obtain ⟨h1, h2⟩ := demo_scattered h
  set ps := demoImage (payloads RsWitness.codec .v17 (some Repair.demoDpb) (fileChunks .v17 (List.replicate 1000 7))) mp with hps
  have hlen : (imageOf ps [1, 2]).length < 2 ^ 64 := demo_small h1
  have hne : imageOf ps [1, 2] ≠ [] := image_nonempty h1 _
  have hsc := desk_scene (imageOf ps [1, 2]) [] rfl
  obtain ⟨r, hr⟩ := C70_possible _ _ _ _ _ _ _ Rescue.everything ⟨rfl, rfl⟩ hsc hne hlen _ .start Rescue.smallEnv Rescue.small_ok (fun _ => rfl) (fun _ => rfl)
  have ha := Attempts.start.again Rescue.small_ok (fun _ => rfl) hr
  obtain ⟨r', hr'⟩ := C70_possible _ _ _ _ _ _ _ Rescue.everything ⟨rfl, rfl⟩ hsc hne hlen _ ha Rescue.smallEnv Rescue.small_ok (fun _ => rfl) (fun _ => rfl)
  have hg : GivenRescue (table [(.inFile, "i"), (.outDir, "."), (.logFile, "l")] []) Rescue.everything ['i'] ['.'] (some ['l']) :=
    (read_rescue _ _ _ _ _).1 (by with_unfolding_all rfl)
  obtain ⟨fs1, e1, e2, e3⟩ := C70_restore _ (desk_ok _) _ _ _ _ _ Rescue.everything ⟨rfl, rfl⟩ Repair.demoOwner ⟨rfl, .inl rfl⟩ RsWitness.codec
    RsWitness.codec_laws .v17 Repair.demoDpb _ mp c h hn ps h1 [1, 2] (by decide) h2 hlen hsc (by rfl) (calmShell r.1 r') r.1 ha rfl _ hg
    Rescue.smallEnv Rescue.small_ok (fun _ => rfl) (fun _ => rfl) hr'
  have hrun : (calmShell r.1 r').run (table [(.inFile, "i"), (.outDir, "."), (.logFile, "l")] []) .rescue = (r'.1, .ok) := by
    rcases C57_rescue (calmShell r.1 r') _ _ _ _ _ hg with h | ⟨-, -, x, -⟩
    · rw [e1] at h
      cases h
    · rw [e1] at x ⊢
      exact Prod.ext x rfl
  have hfs1 : fs1 = r'.1 := by rw [e1] at hrun; exact (Prod.ext_iff.1 hrun).1
  subst hfs1
  have hshort : ∀ (u : Uid) (c : Char), ([[c]] : Place) ≠ [] ++ [hexName u] := by
    intro u c e
    have h1 := hexName_length u
    simp only [List.nil_append, List.cons.injEq, and_true] at e
    rw [← e] at h1
    cases h1
  have hroot : r'.1 [] = some .dir := e2 [] (fun u e => by simp at e) (by simp)
  have hs : r'.1 [['s']] = none := e2 [['s']] (fun u => hshort u 's') (by decide)
  have hf : r'.1 [['f']] = none := e2 [['f']] (fun u => hshort u 'f') (by decide)
  have hname : "010203040506".toList = hexName Repair.demoOwner := by decide +kernel
  have name1 : ∀ (fs : Fs) (x : Char), IsName [x] → fs [] = some .dir → leads fs [] [x] = some [[x]] := fun fs x hx hd => leads_name' hx hd
  have is : IsName ['s'] := ⟨by decide, by decide, by decide, by decide, by decide⟩
  have iff' : IsName ['f'] := ⟨by decide, by decide, by decide, by decide, by decide⟩
  obtain ⟨g, s1, s2⟩ := e3 (calmShell r'.1 r) (table [(.inFile, "010203040506"), (.out, "s"), (.burst, "3")] []) Verif.Sort.burstParam
    ⟨"010203040506".toList, some ['s'], false⟩ [['s']] rfl
    ⟨(read_sort _ _ _).1 (by with_unfolding_all rfl), Verif.Sort.calm, ⟨rfl, rfl, rfl⟩, rfl, ⟨rfl, rfl⟩, ⟨rfl, rfl⟩, rfl, by
        show leads r'.1 [] "010203040506".toList = _
        rw [hname]
        exact leads_name' (hexName_isName _) hroot, ⟨_, rfl, name1 _ _ is hroot⟩, hshort _ 's', rfl, .inl hs⟩ rfl
  have hdir : ∀ x, (r'.1.set [['s']] x) [] = some .dir := fun x => by unfold Fs.set; rw [if_neg (by decide)]; exact hroot
  obtain ⟨q1, q2⟩ := s2 (calmShell (r'.1.set [['s']] g) r) (table [(.inFile, "s"), (.burst, "3")] [.skipWarning]) ['s'] rfl rfl Repair.demo_calm
    ((read_repair _ _ _).1 (by with_unfolding_all rfl)) (name1 _ _ is (hdir g)) rfl rfl (.inl rfl)
  have q3 := q2 (calmShell (r'.1.set [['s']] c) r) (table [(.inFile, "s"), (.out, "f")] []) Decode.plainParam ⟨['s'], some ['f'], false⟩ [['f']] rfl
    ⟨(read_decode _ _ _).1 (by with_unfolding_all rfl), Decode.calm, ⟨rfl, rfl, rfl⟩, rfl, ⟨rfl, rfl⟩, ⟨rfl, rfl⟩, name1 _ _ is (hdir c),
      ⟨_, rfl, by decide, name1 _ _ iff' (hdir c)⟩, by decide, rfl, .inl (by
        show (r'.1.set [['s']] c) [['f']] = none
        unfold Fs.set
        rw [if_neg (by decide)]
        exact hf)⟩ (.inr ⟨rfl, by decide⟩)
  refine ⟨mp, c, ps, r, r', h, ?_, hr, hrun, g, s1, q1, q3⟩
  rintro ⟨p, hp⟩
  rw [hps] at hp
  rcases (demo_mem _).1 hp with e | e | ⟨j, hj, q, hq, e⟩ | e
  · cases e
  · exact absurd (Piece.block.inj e).1 (by decide)
  · have h4 := congrArg UInt32.toNat (Piece.block.inj e).2.2.1
    rw [UInt32.toNat_ofNat_of_lt' (n := j + 3) (by show j + 3 < 2 ^ 32; omega)] at h4
    have h4 : 1 = j + 3 := h4
    omega
  · exact absurd (Piece.block.inj e).2.2.1 (by decide)

/-- `blkar rescue i . l`, then `blkar decode 010203040506 f --burst 3`: the last byte is there. -/
example : ∃ (ps : List Piece) (r : Fs × Bool) (out : File),
    (calmShell (desk [(['i'], imageOf ps [1, 2])]) r).run (table [(.inFile, "i"), (.outDir, "."), (.logFile, "l")] []) .rescue = (r.1, .ok) ∧
    (calmShell r.1 r).run (table [(.inFile, "010203040506"), (.out, "f"), (.burst, "3")] []) .decode = (r.1.set [['f']] out, .ok) ∧
    out.length = 1000 ∧ out[999]? = some 7 := by
  obtain ⟨mp, c, h, hn⟩ := demo_named
  obtain ⟨h1, h2⟩ := demo_scattered h
  set ps := demoImage (payloads RsWitness.codec .v17 (some Repair.demoDpb) (fileChunks .v17 (List.replicate 1000 7))) mp with hps
  have hlen : (imageOf ps [1, 2]).length < 2 ^ 64 := demo_small h1
  have hsc := desk_scene (imageOf ps [1, 2]) [] rfl
  obtain ⟨r, hr⟩ := C70_possible _ _ _ _ _ _ _ Rescue.everything ⟨rfl, rfl⟩ hsc (image_nonempty h1 _) hlen _ .start Rescue.smallEnv Rescue.small_ok
    (fun _ => rfl) (fun _ => rfl)
  have hg : GivenRescue (table [(.inFile, "i"), (.outDir, "."), (.logFile, "l")] []) Rescue.everything ['i'] ['.'] (some ['l']) :=
    (read_rescue _ _ _ _ _).1 (by with_unfolding_all rfl)
  obtain ⟨fs1, e1, e2, e3⟩ := C70_decode _ (desk_ok _) _ _ _ _ _ Rescue.everything ⟨rfl, rfl⟩ Repair.demoOwner ⟨rfl, .inl rfl⟩ RsWitness.codec
    .v17 (some Repair.demoDpb) (List.replicate 1000 7) mp (by
      intro x hx sh e1 e2
      cases hx
      exact RsWitness.codec_laws.encode_length _ _ _ _ (by decide) (by decide) (by decide) e1 e2) (by intro x hx; cases hx; decide)
    (by decide) h.sized (by rw [h.data, h.parity]; exact ⟨rfl, rfl⟩) hn ps h1 [1, 2] (by decide) hlen hsc (by rfl)
    (calmShell (desk [(['i'], imageOf ps [1, 2])]) r) _ .start rfl _ hg Rescue.smallEnv Rescue.small_ok (fun _ => rfl) (fun _ => rfl) hr
  have hrun : (calmShell (desk [(['i'], imageOf ps [1, 2])]) r).run (table [(.inFile, "i"), (.outDir, "."), (.logFile, "l")] []) .rescue = (r.1, .ok) := by
    rcases C57_rescue (calmShell (desk [(['i'], imageOf ps [1, 2])]) r) _ _ _ _ _ hg with h | ⟨-, -, x, -⟩
    · rw [e1] at h
      cases h
    · rw [e1] at x ⊢
      exact Prod.ext x rfl
  have hfs1 : fs1 = r.1 := by rw [e1] at hrun; exact (Prod.ext_iff.1 hrun).1
  subst hfs1
  have hshort : ∀ (u : Uid) (c : Char), ([[c]] : Place) ≠ [] ++ [hexName u] := by
    intro u c e
    have h1 := hexName_length u
    simp only [List.nil_append, List.cons.injEq, and_true] at e
    rw [← e] at h1
    cases h1
  have hroot : r.1 [] = some .dir := e2 [] (fun u e => by simp at e) (by simp)
  have hf : r.1 [['f']] = none := e2 [['f']] (fun u => hshort u 'f') (by decide)
  have hname : "010203040506".toList = hexName Repair.demoOwner := by decide +kernel
  obtain ⟨out, q1, q2, q3, -⟩ := e3 (calmShell r.1 r) (table [(.inFile, "010203040506"), (.out, "f"), (.burst, "3")] [])
    { Decode.plainParam with ref := Verif.Sort.burstParam.ref } ⟨"010203040506".toList, some ['f'], false⟩ [['f']] rfl
    ⟨(read_decode _ _ _).1 (by with_unfolding_all rfl), Decode.calm, ⟨rfl, rfl, rfl⟩, rfl, ⟨rfl, rfl⟩, ⟨rfl, rfl⟩, by
        show leads r.1 [] "010203040506".toList = _
        rw [hname]
        exact leads_name' (hexName_isName _) hroot,
      ⟨_, rfl, by decide, leads_name' ⟨by decide, by decide, by decide, by decide, by decide⟩ hroot⟩, hshort _ _, rfl, .inl hf⟩ rfl
    (by intro x hx; cases hx; rfl)
  refine ⟨ps, r, out, hrun, q1, by rw [q2, List.length_replicate], ?_⟩
  have hcnt := (Repair.payloads_count RsWitness.codec_laws (v := .v17) (d := Repair.demoDpb) (by decide) (by decide) (by decide)
    (List.replicate 1000 7)).1
  rw [(q3 999 (by rw [List.length_replicate]; decide)).1 ⟨3, (payloads RsWitness.codec .v17 (some Repair.demoDpb)
      (fileChunks .v17 (List.replicate 1000 7)))[2]'(by rw [hcnt, List.length_replicate]; decide),
      (demo_mem _).2 (.inr (.inr (.inl ⟨0, by decide, _, List.getElem?_eq_getElem _, rfl⟩))), by decide⟩]
  rw [List.getElem?_replicate]
  rfl

/-- The image is not changed, whatever happens. -/
example (f : File) (E : Rescue.Env) (p : Rescue.Param) (r : Fs × Bool)
    (h : World.Rescued (deskWorld [(['i'], f)]) E p ['i'] ['.'] (some ['l']) r) : r.1 [['i']] = some (.file f) := by
  have hsc := desk_scene f [] rfl
  have hf : (deskWorld [(['i'], f)]).fs [['i']] = some (.file f) := rfl
  rw [← hf]
  by_contra hne
  rcases C70_places _ E p _ _ _ _ hsc.out hsc.dir (fun lp old hl => by
      obtain ⟨e, -⟩ := logAt_unique hsc.log hl
      rw [e]
      exact hsc.apart) r h _ hne with ⟨u, c, e, -, -⟩ | ⟨path, e1, e2, -⟩
  · have h1 := hexName_length u
    simp only [List.nil_append, List.cons.injEq, and_true] at e
    rw [← e] at h1
    cases h1
  · cases e1
    have hl : leads (deskWorld [(['i'], f)]).fs (deskWorld [(['i'], f)]).cwd ['l'] = some ([] ++ [['l']]) :=
      leads_name' ⟨by decide, by decide, by decide, by decide, by decide⟩ rfl
    rw [hl] at e2
    exact absurd e2 (by decide)

/-- An image of two blocks with the uid `010203040506`. -/
example : ∃ r, World.Rescued (deskWorld [(['i'], Rescue.blockA1 ++ Rescue.blockA2)]) Rescue.smallEnv Rescue.everything ['i'] ['.'] (some ['l']) r ∧
    r.2 = true ∧ ∀ name, dirAt r.1 [] name = dirAt (deskWorld [(['i'], Rescue.blockA1 ++ Rescue.blockA2)]).fs [] name ++
      contents Rescue.everything (Rescue.blockA1 ++ Rescue.blockA2) name (saved Rescue.everything (Rescue.blockA1 ++ Rescue.blockA2)) := by
  have hsc := desk_scene (Rescue.blockA1 ++ Rescue.blockA2) [] rfl
  have hlen : (Rescue.blockA1 ++ Rescue.blockA2).length < 2 ^ 64 := by decide +kernel
  obtain ⟨r, hr⟩ := C70_possible _ _ _ _ _ _ _ Rescue.everything ⟨rfl, rfl⟩ hsc Rescue.demo_ne hlen _ .start Rescue.smallEnv Rescue.small_ok
    (fun _ => rfl) (fun _ => rfl)
  obtain ⟨-, hok, -⟩ := last_run ⟨rfl, rfl⟩ hsc Rescue.demo_ne hlen .start Rescue.small_ok (fun _ => rfl) (fun _ => rfl) hr
  exact ⟨r, hr, hok, C70_success _ _ Rescue.small_ok (fun _ => rfl) (fun _ => rfl) _ _ _ _ _ hsc.out hsc.dir _ hsc.log hsc.apart r hr [['i']] _
    (leads_name' ⟨by decide, by decide, by decide, by decide, by decide⟩ rfl) rfl Rescue.demo_ne hok⟩

/-- A file `l` that is no log is not overwritten. -/
example (r : Fs × Bool) (h : World.Rescued { deskWorld [(['i'], [1]), (['l'], [1, 2, 3])] with fs := desk [(['i'], [1]), (['l'], [1, 2, 3])] }
      Rescue.smallEnv Rescue.everything ['i'] ['.'] (some ['l']) r) :
    ((calmShell (desk [(['i'], [1]), (['l'], [1, 2, 3])]) r).run (table [(.inFile, "i"), (.outDir, "."), (.logFile, "l")] []) .rescue).1 =
      desk [(['i'], [1]), (['l'], [1, 2, 3])] := by
  have hg : GivenRescue (table [(.inFile, "i"), (.outDir, "."), (.logFile, "l")] []) Rescue.everything ['i'] ['.'] (some ['l']) :=
    (read_rescue _ _ _ _ _).1 (by with_unfolding_all rfl)
  have hi : leads (desk [(['i'], [1]), (['l'], [1, 2, 3])]) [] ['i'] = some ([] ++ [['i']]) :=
    leads_name' ⟨by decide, by decide, by decide, by decide, by decide⟩ rfl
  have hl : leads (desk [(['i'], [1]), (['l'], [1, 2, 3])]) [] ['l'] = some ([] ++ [['l']]) :=
    leads_name' ⟨by decide, by decide, by decide, by decide, by decide⟩ rfl
  have ho : leads (desk [(['i'], [1]), (['l'], [1, 2, 3])]) [] ['.'] = some [] := by rfl
  have hshort : ∀ (u : Uid) (c : Char), ([[c]] : Place) ≠ [] ++ [hexName u] := by
    intro u c e
    have h1 := hexName_length u
    simp only [List.nil_append, List.cons.injEq, and_true] at e
    rw [← e] at h1
    cases h1
  refine (C70_wrong_log (calmShell (desk [(['i'], [1]), (['l'], [1, 2, 3])]) r) _ _ _ _ _ hg Rescue.smallEnv h _ _ [1] [1, 2, 3] hi rfl hl rfl (by decide +kernel)
    ⟨?_, ?_, .inr ?_⟩).1
  · intro u q hq e
    have hq : leads (desk [(['i'], [1]), (['l'], [1, 2, 3])]) [] _ = some q := hq
    rw [rescuePath_leads ho rfl u] at hq
    cases hq
    have e : leads (desk [(['i'], [1]), (['l'], [1, 2, 3])]) [] ['i'] = _ := e
    rw [hi] at e
    exact hshort u 'i' (Option.some.inj e)
  · intro u q hq e
    have hq : leads (desk [(['i'], [1]), (['l'], [1, 2, 3])]) [] _ = some q := hq
    rw [rescuePath_leads ho rfl u] at hq
    cases hq
    exact hshort u 'l' (Option.some.inj e)
  · show leads (desk [(['i'], [1]), (['l'], [1, 2, 3])]) [] ['i'] ≠ _
    rw [hi]
    decide

end Verif.Cli
