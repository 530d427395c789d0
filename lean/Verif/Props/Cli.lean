import Verif.Lemmas.Cli
import Verif.Props.Paths
import Verif.Props.Repair
import Verif.Props.Update
import Verif.Props.Check
import Verif.Props.DeviceRepair
/-!
# C57: the options of the command line
-/

namespace Verif.Cli
open CliSpec Misc Scan Command PathSpec

theorem nameOpt_iff (m : Matches) (v : Val) (x : Option (List Char)) : x = (m.value v).map (·.toList) ↔ GivenNameOpt m v x := by
  unfold GivenNameOpt
  cases m.value v <;> simp

/-! ### What the commands are called with -/

theorem read_encode (m : Matches) (r : Uid) (p : Encode.Param) (a : Args) : readEncode m r = .ok (p, a) ↔ GivenEncode m r p a := by
  unfold readEncode
  simp only [bind_ok, pure_ok, optUid_iff, required_iff, optHash_iff, checkVerbosity_iff, optNumber_iff, optRangeEnd_iff]
  constructor
  · rintro ⟨u, h1, ⟨v, d⟩, h2, i, h3, t, h4, _, h5, _, h6, _, h7, h⟩
    cases h
    refine ⟨h5, (versionAndShards_iff m v d).1 h2, ⟨u, h1, ?_⟩, ⟨t, h4, ?_⟩, by simp, h6, h7, rfl, ⟨i, h3, rfl⟩, (nameOpt_iff m _ _).1 rfl, rfl⟩
    · cases u <;> simp
    · cases t <;> simp
  · rintro ⟨h5, h2, ⟨u, h1, hu⟩, ⟨t, h4, ht⟩, hm, h6, h7, hn, ⟨i, h3, hi⟩, ho, hf⟩
    refine ⟨u, h1, (p.version, p.dpb), (versionAndShards_iff m _ _).2 h2, i, h3, t, h4, (), h5, _, h6, _, h7, ?_⟩
    have ho := (nameOpt_iff m _ _).2 ho
    have e1 : u.getD r = p.uid := by rcases hu with ⟨rfl, h⟩ | rfl <;> simp [*]
    have e2 : t.getD .sha256 = p.hashType := by rcases ht with ⟨rfl, h⟩ | rfl <;> simp [*]
    have e3 : (!m.flag .noMeta) = p.metaRequested := by
      revert hm; cases p.metaRequested <;> cases m.flag .noMeta <;> simp
    dsimp only
    rw [e1, e2, e3, ← ho, ← hi, ← hf, ← hn]

theorem read_decode (m : Matches) (p : Decode.Param) (a : DecodeArgs) : readDecode m = .ok (p, a) ↔ GivenDecode m p a := by
  unfold readDecode
  simp only [bind_ok, pure_ok, required_iff, checkVerbosity_iff, readRef_iff, multiPass_iff]
  constructor
  · rintro ⟨_, h1, r, ⟨h2, h2'⟩, i, h3, mp, h4, h⟩
    cases h
    exact ⟨h1, h2, (refChoice_iff m _).1 h2', h4, ⟨i, h3, rfl⟩, (nameOpt_iff m _ _).1 rfl, rfl⟩
  · rintro ⟨h1, h2, h2', h4, ⟨i, h3, hi⟩, ho, hf⟩
    refine ⟨(), h1, p.ref, ⟨h2, (refChoice_iff m _).2 h2'⟩, i, h3, _, h4, ?_⟩
    have ho := (nameOpt_iff m _ _).2 ho
    rw [← ho, ← hi, ← hf]

theorem read_check (m : Matches) (p : Check.Param) (i : List Char) : readCheck m = .ok (p, i) ↔ GivenCheck m p i := by
  unfold readCheck
  simp only [bind_ok, pure_ok, required_iff, checkVerbosity_iff, readRef_iff]
  constructor
  · rintro ⟨_, h1, r, ⟨h2, h2'⟩, i, h3, h⟩
    cases h
    refine ⟨h1, h2, (refChoice_iff m _).1 h2', rfl, rfl, ?_, ?_, i, h3, rfl⟩ <;>
      (dsimp only; cases m.flag .hash <;> cases m.flag .hashOnly <;> simp)
  · rintro ⟨h1, h2, h2', h4, h5, h6, h7, i, h3, hi⟩
    refine ⟨(), h1, p.ref, ⟨h2, (refChoice_iff m _).2 h2'⟩, i, h3, ?_⟩
    rw [hi, ← h4, ← h5]
    rcases p with ⟨r, rb, vb, ha⟩
    dsimp only at h6 h7 ⊢
    congr 2
    revert h6 h7
    cases ha <;> cases m.flag .hash <;> cases m.flag .hashOnly <;> simp

theorem read_sort (m : Matches) (p : Verif.Sort.Param) (a : Args) : readSort m = .ok (p, a) ↔ GivenSort m p a := by
  unfold readSort
  simp only [bind_ok, pure_ok, required_iff, checkVerbosity_iff, readRef_iff, multiPass_iff]
  constructor
  · rintro ⟨i, h3, mp, h4, _, h1, r, ⟨h2, h2'⟩, h⟩
    cases h
    exact ⟨h1, h2, h2', h4, rfl, by simp, ⟨i, h3, rfl⟩, (nameOpt_iff m _ _).1 rfl, rfl⟩
  · rintro ⟨h1, h2, h2', h4, h5, h6, ⟨i, h3, hi⟩, ho, hf⟩
    refine ⟨i, h3, _, h4, (), h1, p.ref, ⟨h2, by rw [h2']; rfl⟩, ?_⟩
    have ho := (nameOpt_iff m _ _).2 ho
    have e : (!m.flag .dryRun) = p.toFile := by revert h6; cases p.toFile <;> cases m.flag .dryRun <;> simp
    rw [← ho, ← hi, ← hf, ← h5, e]

theorem read_repair (m : Matches) (b : Option Nat) (i : List Char) : readRepair m = .ok (b, i) ↔ GivenRepair m b i := by
  unfold readRepair
  simp only [bind_ok, pure_ok, required_iff, checkVerbosity_iff, optNumber_iff]
  constructor
  · rintro ⟨i, h3, _, h1, b, h2, h⟩
    cases h
    exact ⟨h1, h2, i, h3, rfl⟩
  · rintro ⟨h1, h2, i, h3, hi⟩
    exact ⟨i, h3, (), h1, b, h2, by rw [hi]⟩

theorem read_update (m : Matches) (c : Update.Cli) (i : List Char) : readUpdate m = .ok (c, i) ↔ GivenUpdate m c i := by
  unfold readUpdate
  simp only [bind_ok, pure_ok, required_iff, checkVerbosity_iff, optNumber_iff, optHash_iff]
  constructor
  · rintro ⟨i, h3, _, h1, b, h2, t, h4, h⟩
    cases h
    exact ⟨h1, h2, h4, rfl, rfl, rfl, rfl, rfl, rfl, i, h3, rfl⟩
  · rintro ⟨h1, h2, h4, a1, a2, a3, a4, a5, a6, i, h3, hi⟩
    refine ⟨i, h3, (), h1, _, h2, _, h4, ?_⟩
    rw [← a1, ← a2, ← a3, ← a4, ← a5, ← a6, hi]

theorem read_rescue (m : Matches) (p : Rescue.Param) (i o : List Char) (l : Option (List Char)) :
    readRescue m = .ok (p, i, o, l) ↔ GivenRescue m p i o l := by
  unfold readRescue
  simp only [bind_ok, pure_ok, required_iff, checkVerbosity_iff, optNumber_iff, optRangeEnd_iff, optUid_iff, optBlockType_iff]
  constructor
  · rintro ⟨u, h1, b, h2, _, h3, _, h4, _, h5, i, h6, o, h7, h⟩
    cases h
    exact ⟨h5, h3, h4, rfl, h1, h2, ⟨i, h6, rfl⟩, ⟨o, h7, rfl⟩, (nameOpt_iff m _ _).1 rfl⟩
  · rintro ⟨h5, h3, h4, hm, h1, h2, ⟨i, h6, hi⟩, ⟨o, h7, ho⟩, hl⟩
    refine ⟨_, h1, _, h2, _, h3, _, h4, (), h5, i, h6, o, h7, ?_⟩
    rw [← (nameOpt_iff m _ _).2 hl, hi, ho, ← hm]

theorem read_show (m : Matches) (p : ShowParam) (i : List Char) : readShow m = .ok (p, i) ↔ GivenShow m p i := by
  unfold readShow
  simp only [bind_ok, pure_ok, required_iff, checkVerbosity_iff, optNumber_iff, optRangeEnd_iff, optUid_iff]
  constructor
  · rintro ⟨i, h1, _, h2, _, h3, _, h4, _, h5, _, h6, h⟩
    cases h
    exact ⟨h2, h3, h4, h5, rfl, h6, rfl, rfl, i, h1, rfl⟩
  · rintro ⟨h2, h3, h4, h5, a1, h6, a2, a3, i, h1, hi⟩
    refine ⟨i, h1, (), h2, _, h3, _, h4, _, h5, _, h6, ?_⟩
    rw [← a1, ← a2, ← a3, hi]

theorem read_calc (m : Matches) (p : CalcParam) : readCalc m = .ok p ↔ GivenCalc m p := by
  unfold readCalc
  simp only [bind_ok, required_iff]
  constructor
  · rintro ⟨⟨v, d⟩, h1, s, h2, h⟩
    dsimp only at h
    split at h
    · rename_i n hn
      rw [pure_ok] at h
      cases h
      exact ⟨(versionAndShards_iff m v d).1 h1, by simp, s, h2, (number_iff s n).1 hn⟩
    · simp at h
  · rintro ⟨h1, h2, s, h3, h4⟩
    refine ⟨(p.version, p.dpb), (versionAndShards_iff m _ _).2 h1, s, h3, ?_⟩
    dsimp only
    rw [(number_iff s p.size).2 h4]
    have e : (!m.flag .noMeta) = p.metaEnabled := by revert h2; cases p.metaEnabled <;> cases m.flag .noMeta <;> simp
    simp only [pure_ok, e]

/-! ### Options that cannot be understood -/

theorem bind_panic {α β : Type} {x : Except Stop α} {f : α → Except Stop β} (h1 : x ≠ .error .panic) (h2 : ∀ a, f a ≠ .error .panic) :
    (x >>= f) ≠ .error .panic := by
  cases x with
  | error e => intro h; exact h1 (by simpa [bind, Except.bind] using h)
  | ok a => exact h2 a

theorem pure_panic {α : Type} (a : α) : (pure a : Except Stop α) ≠ .error .panic := by simp [pure, Except.pure]

theorem optNumber_panic (m : Matches) (v : Val) : optNumber m v ≠ .error .panic := by
  unfold optNumber; split <;> (try split) <;> simp

theorem optRangeEnd_panic {m : Matches} {a b : Val} (h : m.value a = none ∨ m.value b = none) : optRangeEnd m a b ≠ .error .panic := by
  unfold optRangeEnd
  split
  · simp
  · split <;> simp
  · split <;> simp
  · rename_i h1 h2; rcases h with h | h <;> simp_all

theorem required_panic {m : Matches} {v : Val} (h : m.value v ≠ none) : required m v ≠ .error .panic := by
  unfold required; split <;> simp_all

theorem checkVerbosity_panic (m : Matches) : checkVerbosity m ≠ .error .panic := by
  unfold checkVerbosity; split <;> simp

theorem optUid_panic (m : Matches) : optUid m ≠ .error .panic := by
  unfold optUid; split <;> (try split) <;> simp

theorem optHash_panic (m : Matches) : optHash m ≠ .error .panic := by
  unfold optHash; split <;> (try split) <;> simp

theorem shardCount_panic (m : Matches) (v : Val) : shardCount m v ≠ .error .panic := by
  unfold shardCount; split <;> (try split) <;> simp

theorem burstOrZero_panic (m : Matches) : burstOrZero m ≠ .error .panic := by
  unfold burstOrZero; split <;> (try split) <;> simp

theorem optBlockType_panic (m : Matches) : optBlockType m ≠ .error .panic := by
  unfold optBlockType; split <;> simp

theorem multiPass_panic {m : Matches} (h : m.flag .multiPass = false ∨ m.flag .multiPassNoSkip = false) : multiPass m ≠ .error .panic := by
  unfold multiPass; split <;> simp_all

theorem versionAndShards_panic (m : Matches) : versionAndShards m ≠ .error .panic := by
  unfold versionAndShards
  split
  · split <;> (try split) <;> (try split) <;> simp
  · split
    · simp
    · split
      · refine bind_panic (shardCount_panic _ _) fun _ => bind_panic (shardCount_panic _ _) fun _ => ?_
        split
        · simp
        · exact bind_panic (burstOrZero_panic _) fun _ => pure_panic _
      · simp

theorem readRef_panic {m : Matches} {c : Cmd} (h : Accepted m c) (b : Bool) : readRef m b ≠ .error .panic := by
  unfold readRef
  exact bind_panic (optNumber_panic _ _) fun _ => bind_panic (optNumber_panic _ _) fun _ => bind_panic (optRangeEnd_panic h.ends) fun _ =>
    bind_panic (optNumber_panic _ _) fun _ => bind_panic (optRangeEnd_panic h.refEnds) fun _ => bind_panic (optNumber_panic _ _) fun _ =>
    pure_panic _

/-- Reading the options of a command, without the result. -/
def reads (m : Matches) (r : Uid) : Cmd → Except Stop Unit
  | .calc => (readCalc m).map fun _ => ()
  | .check => (readCheck m).map fun _ => ()
  | .decode => (readDecode m).map fun _ => ()
  | .encode => (readEncode m r).map fun _ => ()
  | .repair => (readRepair m).map fun _ => ()
  | .rescue => (readRescue m).map fun _ => ()
  | .show => (readShow m).map fun _ => ()
  | .sort => (readSort m).map fun _ => ()
  | .update => (readUpdate m).map fun _ => ()

theorem map_panic {α : Type} {x : Except Stop α} (h : x ≠ .error .panic) : x.map (fun _ => ()) ≠ .error .panic := by
  cases x <;> simp_all [Except.map]

theorem reads_panic {m : Matches} {c : Cmd} (h : Accepted m c) (r : Uid) : reads m r c ≠ .error .panic := by
  cases c
  · refine map_panic ?_
    refine bind_panic (versionAndShards_panic _) fun _ => bind_panic (required_panic (h.size rfl)) fun _ => ?_
    split
    · exact pure_panic _
    · simp
  · exact map_panic (bind_panic (checkVerbosity_panic _) fun _ => bind_panic (readRef_panic h _) fun _ =>
      bind_panic (required_panic (h.inFile (by simp))) fun _ => pure_panic _)
  · exact map_panic (bind_panic (checkVerbosity_panic _) fun _ => bind_panic (readRef_panic h _) fun _ =>
      bind_panic (required_panic (h.inFile (by simp))) fun _ => bind_panic (multiPass_panic h.passes) fun _ => pure_panic _)
  · exact map_panic (bind_panic (optUid_panic _) fun _ => bind_panic (versionAndShards_panic _) fun _ =>
      bind_panic (required_panic (h.inFile (by simp))) fun _ => bind_panic (optHash_panic _) fun _ => bind_panic (checkVerbosity_panic _) fun _ =>
      bind_panic (optNumber_panic _ _) fun _ => bind_panic (optRangeEnd_panic h.ends) fun _ => pure_panic _)
  · exact map_panic (bind_panic (required_panic (h.inFile (by simp))) fun _ => bind_panic (checkVerbosity_panic _) fun _ =>
      bind_panic (optNumber_panic _ _) fun _ => pure_panic _)
  · exact map_panic (bind_panic (optUid_panic _) fun _ => bind_panic (optBlockType_panic _) fun _ => bind_panic (optNumber_panic _ _) fun _ =>
      bind_panic (optRangeEnd_panic h.ends) fun _ => bind_panic (checkVerbosity_panic _) fun _ =>
      bind_panic (required_panic (h.inFile (by simp))) fun _ => bind_panic (required_panic (h.outDir rfl)) fun _ => pure_panic _)
  · exact map_panic (bind_panic (required_panic (h.inFile (by simp))) fun _ => bind_panic (checkVerbosity_panic _) fun _ =>
      bind_panic (optNumber_panic _ _) fun _ => bind_panic (optRangeEnd_panic h.ends) fun _ => bind_panic (optNumber_panic _ _) fun _ =>
      bind_panic (optUid_panic _) fun _ => pure_panic _)
  · exact map_panic (bind_panic (required_panic (h.inFile (by simp))) fun _ => bind_panic (multiPass_panic h.passes) fun _ =>
      bind_panic (checkVerbosity_panic _) fun _ => bind_panic (readRef_panic h _) fun _ => pure_panic _)
  · exact map_panic (bind_panic (required_panic (h.inFile (by simp))) fun _ => bind_panic (checkVerbosity_panic _) fun _ =>
      bind_panic (optNumber_panic _ _) fun _ => bind_panic (optHash_panic _) fun _ => pure_panic _)

theorem encode_random {m : Matches} {r : Uid} {p : Encode.Param} {a : Args} (h : GivenEncode m r p a) (r' : Uid) :
    ∃ p', GivenEncode m r' p' a := by
  obtain ⟨u, hu, h'⟩ := h.uid
  rcases h' with ⟨rfl, -⟩ | rfl
  · exact ⟨{ p with uid := r' }, { h with uid := ⟨none, hu, .inl ⟨rfl, rfl⟩⟩ }⟩
  · exact ⟨p, { h with uid := ⟨_, hu, .inr rfl⟩ }⟩

/-- Reading succeeds exactly for options that can be understood. -/
theorem reads_iff (m : Matches) (r : Uid) (c : Cmd) : reads m r c = .ok () ↔ OptionsOk m c := by
  have key : ∀ {α : Type} (x : Except Stop α), x.map (fun _ => ()) = .ok () ↔ ∃ a, x = .ok a := by
    intro α x; cases x <;> simp [Except.map]
  cases c <;> simp only [reads, key, OptionsOk]
  · simp only [read_calc]
  · constructor
    · rintro ⟨⟨p, i⟩, h⟩; exact ⟨p, i, (read_check _ _ _).1 h⟩
    · rintro ⟨p, i, h⟩; exact ⟨(p, i), (read_check _ _ _).2 h⟩
  · constructor
    · rintro ⟨⟨p, i⟩, h⟩; exact ⟨p, i, (read_decode _ _ _).1 h⟩
    · rintro ⟨p, i, h⟩; exact ⟨(p, i), (read_decode _ _ _).2 h⟩
  · constructor
    · rintro ⟨⟨p, i⟩, h⟩; exact ⟨r, p, i, (read_encode _ _ _ _).1 h⟩
    · rintro ⟨r', p, i, h⟩
      obtain ⟨p', h'⟩ := encode_random h r
      exact ⟨(p', i), (read_encode _ _ _ _).2 h'⟩
  · constructor
    · rintro ⟨⟨p, i⟩, h⟩; exact ⟨p, i, (read_repair _ _ _).1 h⟩
    · rintro ⟨p, i, h⟩; exact ⟨(p, i), (read_repair _ _ _).2 h⟩
  · constructor
    · rintro ⟨⟨p, i, o, l⟩, h⟩; exact ⟨p, i, o, l, (read_rescue _ _ _ _ _).1 h⟩
    · rintro ⟨p, i, o, l, h⟩; exact ⟨(p, i, o, l), (read_rescue _ _ _ _ _).2 h⟩
  · constructor
    · rintro ⟨⟨p, i⟩, h⟩; exact ⟨p, i, (read_show _ _ _).1 h⟩
    · rintro ⟨p, i, h⟩; exact ⟨(p, i), (read_show _ _ _).2 h⟩
  · constructor
    · rintro ⟨⟨p, i⟩, h⟩; exact ⟨p, i, (read_sort _ _ _).1 h⟩
    · rintro ⟨p, i, h⟩; exact ⟨(p, i), (read_sort _ _ _).2 h⟩
  · constructor
    · rintro ⟨⟨p, i⟩, h⟩; exact ⟨p, i, (read_update _ _ _).1 h⟩
    · rintro ⟨p, i, h⟩; exact ⟨(p, i), (read_update _ _ _).2 h⟩

theorem run_error (S : Shell) (m : Matches) (c : Cmd) (e : Stop) (h : reads m S.random c = .error e) : S.run m c = (S.world.fs, e.exit) := by
  have key : ∀ {α : Type} (x : Except Stop α), x.map (fun _ => ()) = .error e → x = .error e := by
    intro α x; cases x <;> simp [Except.map]
  cases c <;> (replace h := key _ h; simp only [Shell.run])
  · unfold Shell.calc; rw [h]
  · unfold Shell.check; rw [h]
  · unfold Shell.decode; rw [h]
  · unfold Shell.encode; rw [h]
  · unfold Shell.repair; rw [h]
  · unfold Shell.rescue; rw [h]
  · unfold Shell.show; rw [h]
  · unfold Shell.sort; rw [h]
  · unfold Shell.update; rw [h]

/-- **C57.** A command whose options cannot be understood says so by its exit status and does nothing. -/
theorem C57_refused (S : Shell) (m : Matches) (c : Cmd) (hc : Accepted m c) (h : ¬ OptionsOk m c) : S.run m c = (S.world.fs, .usage) := by
  cases hr : reads m S.random c with
  | ok u => exact absurd ((reads_iff m S.random c).1 hr) h
  | error e =>
    rw [run_error S m c e hr]
    cases e with
    | usage => rfl
    | panic => exact absurd hr (reads_panic hc _)

/-! ### Exit status and files -/

/-- **C57.** `encode` encodes with the settings stated, and says whether it succeeded. -/
theorem C57_encode (S : Shell) (m : Matches) (p : Encode.Param) (a : Args) (h : GivenEncode m S.random p a) (hi : m.flag .infoOnly = false) :
    (S.run m .encode).1 = (S.world.encode S.enc p a).1 ∧ ((S.run m .encode).2 = .ok ↔ (S.world.encode S.enc p a).2 = .ok ()) := by
  simp only [Shell.run]
  unfold Shell.encode
  rw [(read_encode _ _ _ _).2 h]
  simp only [hi, Bool.false_eq_true, if_false]
  split
  · rename_i he; rw [he]; simp
  · rename_i he; rw [he]; simp
  · rename_i e _ he; rw [he]; cases early e <;> simp

/-- **C57.** `decode` decodes as asked, and says whether it succeeded. -/
theorem C57_decode (S : Shell) (m : Matches) (p : Decode.Param) (a : DecodeArgs) (h : GivenDecode m p a) :
    (S.run m .decode).1 = (S.world.decode S.dec p a).1 ∧ ((S.run m .decode).2 = .ok ↔ (S.world.decode S.dec p a).2 = .ok ()) := by
  simp only [Shell.run]
  unfold Shell.decode
  rw [(read_decode _ _ _).2 h]
  dsimp only
  split
  · rename_i he; rw [he]; simp
  · rename_i e he; rw [he]; cases early e <;> simp

/-- **C57.** `sort` sorts as asked, and says whether it succeeded. -/
theorem C57_sort (S : Shell) (m : Matches) (p : Verif.Sort.Param) (a : Args) (h : GivenSort m p a) :
    (S.run m .sort).1 = (S.world.sort S.srt p a (m.flag .dryRun)).1 ∧
    ((S.run m .sort).2 = .ok ↔ (S.world.sort S.srt p a (m.flag .dryRun)).2 = .ok ()) := by
  simp only [Shell.run]
  unfold Shell.sort
  rw [(read_sort _ _ _).2 h]
  dsimp only
  split
  · rename_i he; rw [he]; simp
  · rename_i he; rw [he]; simp
  · rename_i e _ he; rw [he]; cases early e <;> simp

theorem input_iff (w : World) (path : List Char) (pl : Place) (f : File) :
    w.input path = .ok (pl, f) ↔ leads w.fs w.cwd path = some pl ∧ w.fs pl = some (.file f) ∧ ∃ n, fileName path = some n := by
  unfold World.input
  constructor
  · intro h
    split at h
    · simp at h
    · split at h
      · simp at h
      · split at h
        · simp at h
        · split at h
          · simp at h
          · simp only [Except.ok.injEq, Prod.mk.injEq] at h
            obtain ⟨rfl, rfl⟩ := h
            exact ⟨‹_›, ‹_›, _, ‹_›⟩
  · rintro ⟨h1, h2, n, h3⟩
    simp only [h1, h2, h3]

/-- A path that leads to a file can be the input of a command. -/
theorem input_of_leads {w : World} (hw : w.fs.Ok) {path : List Char} {pl : Place} {f : File} (h1 : leads w.fs w.cwd path = some pl)
    (h2 : w.fs pl = some (.file f)) : w.input path = .ok (pl, f) := by
  obtain ⟨_, last, _, -, n1, _⟩ := leads_file hw h1 (by rw [h2]; simp)
  exact (input_iff w path pl f).2 ⟨h1, h2, last, n1⟩

/-- The commands that only look: `check`, `show` and `calc`, `encode --info-only`, and the others with `--dry-run`. -/
def LooksOnly (m : Matches) : Cmd → Prop
  | .check | .show | .calc => True
  | .encode => m.flag .infoOnly = true
  | .repair | .update | .sort => m.flag .dryRun = true
  | .decode | .rescue => False

theorem afterAsking_fs (S : Shell) (m : Matches) (r : Fs × Exit) : (S.afterAsking m r).1 = S.world.fs ∨ S.afterAsking m r = r := by
  unfold Shell.afterAsking
  split
  · split
    · exact .inl rfl
    · exact .inl rfl
    · exact .inr rfl
  · exact .inr rfl

theorem repairOn_fs (S : Shell) (dry : Bool) (b : Option Nat) (pl : Place) (f : File) :
    (S.repairOn dry b pl f).1 = S.world.fs ∨ dry = false ∧ S.world.canOpen pl = true ∧ (S.repairOn dry b pl f).2 ≠ .usage ∧
      ∃ c, (S.repairOn dry b pl f).1 = S.world.fs.set pl c := by
  unfold Shell.repairOn
  split
  · exact .inl rfl
  · cases dry
    · cases S.world.canOpen pl
      · exact .inl rfl
      · exact .inr ⟨rfl, rfl, by simp, _, rfl⟩
    · exact .inl rfl
  · cases dry
    · cases S.world.canOpen pl
      · exact .inl rfl
      · exact .inr ⟨rfl, rfl, by simp, _, rfl⟩
    · exact .inl rfl

theorem updateOn_fs (S : Shell) (c : Update.Cli) (pl : Place) (f : File) :
    (S.updateOn c pl f).1 = S.world.fs ∨ c.dryRun = false ∧ S.world.canOpen pl = true ∧ (S.updateOn c pl f).2 ≠ .usage ∧
      ∃ x, (S.updateOn c pl f).1 = S.world.fs.set pl x := by
  unfold Shell.updateOn
  split
  · cases c.dryRun
    · cases S.world.canOpen pl
      · exact .inl rfl
      · exact .inr ⟨rfl, rfl, by simp, _, rfl⟩
    · exact .inl rfl
  · cases c.dryRun
    · cases S.world.canOpen pl
      · exact .inl rfl
      · exact .inr ⟨rfl, rfl, by simp, _, rfl⟩
    · exact .inl rfl

/-- What `repair` does to the files: nothing, or it changes the container, if it is no dry run. -/
theorem repair_fs (S : Shell) (m : Matches) : (S.repair m).1 = S.world.fs ∨ ∃ b i pl f c, GivenRepair m b i ∧ S.world.input i = .ok (pl, f) ∧
    m.flag .dryRun = false ∧ S.world.canOpen pl = true ∧ (S.repair m).2 ≠ .usage ∧ (S.repair m).1 = S.world.fs.set pl c := by
  unfold Shell.repair
  split
  · exact .inl rfl
  · rename_i b i hr
    split
    · exact .inl rfl
    · rename_i pl f hin
      rcases afterAsking_fs S m (S.repairOn (m.flag .dryRun) b pl f) with e | e
      · exact .inl e
      · rw [e]
        rcases repairOn_fs S (m.flag .dryRun) b pl f with e | ⟨h1, h2, h3, c, h4⟩
        · exact .inl e
        · exact .inr ⟨b, i, pl, f, c, (read_repair _ _ _).1 hr, hin, h1, h2, h3, h4⟩

theorem update_fs (S : Shell) (m : Matches) : (S.update m).1 = S.world.fs ∨ ∃ b i pl f c, GivenUpdate m b i ∧ S.world.input i = .ok (pl, f) ∧
    m.flag .dryRun = false ∧ S.world.canOpen pl = true ∧ (S.update m).2 ≠ .usage ∧ (S.update m).1 = S.world.fs.set pl c := by
  unfold Shell.update
  split
  · exact .inl rfl
  · rename_i b i hr
    have hg := (read_update _ _ _).1 hr
    split
    · exact .inl rfl
    · rename_i pl f hin
      rcases afterAsking_fs S m (S.updateOn b pl f) with e | e
      · exact .inl e
      · rw [e]
        rcases updateOn_fs S b pl f with e | ⟨h1, h2, h3, c, h4⟩
        · exact .inl e
        · exact .inr ⟨b, i, pl, f, c, hg, hin, by rw [← hg.dryRun, h1], h2, h3, h4⟩

/-- **C57.** Commands that only look change no file, whatever the files, the other options and the surroundings are. -/
theorem C57_looks (S : Shell) (m : Matches) (c : Cmd) (h : LooksOnly m c) : (S.run m c).1 = S.world.fs := by
  cases c <;> simp only [LooksOnly] at h <;> simp only [Shell.run]
  · rfl
  · rfl
  · unfold Shell.encode
    split
    · rfl
    · rw [if_pos h]
  · rcases repair_fs S m with e | ⟨_, _, _, _, _, _, _, hd, _⟩
    · exact e
    · rw [h] at hd; cases hd
  · rfl
  · unfold Shell.sort
    split
    · rfl
    · rename_i p a hr
      have : (S.world.sort S.srt p a (m.flag .dryRun)).1 = S.world.fs := by
        rcases sort_cases S.world S.srt p a (m.flag .dryRun) with e | ⟨_, _, _, hd, _⟩
        · exact e
        · rw [h] at hd; cases hd
      split <;> (rename_i he; rw [he] at this; exact this)
  · rcases update_fs S m with e | ⟨_, _, _, _, _, _, _, hd, _⟩
    · exact e
    · rw [h] at hd; cases hd

/-- **C57.** `repair` and `update` change no file but the one named. -/
theorem C57_container (S : Shell) (m : Matches) (c : Cmd) (hc : c = .repair ∨ c = .update) (q : Place) (h : (S.run m c).1 q ≠ S.world.fs q) :
    ∃ s f, m.value .inFile = some s ∧ leads S.world.fs S.world.cwd s.toList = some q ∧ S.world.fs q = some (.file f) ∧
      S.world.canOpen q = true := by
  rcases hc with rfl | rfl <;> simp only [Shell.run] at h
  · rcases repair_fs S m with e | ⟨b, i, pl, f, c, h1, h2, -, h3, -, h4⟩
    · rw [e] at h; exact absurd rfl h
    · rw [h4] at h
      cases set_ne h
      obtain ⟨s, hs, rfl⟩ := h1.inFile
      obtain ⟨h5, h6, -⟩ := (input_iff _ _ _ _).1 h2
      exact ⟨s, f, hs, h5, h6, h3⟩
  · rcases update_fs S m with e | ⟨b, i, pl, f, c, h1, h2, -, h3, -, h4⟩
    · rw [e] at h; exact absurd rfl h
    · rw [h4] at h
      cases set_ne h
      obtain ⟨s, hs, rfl⟩ := h1.inFile
      obtain ⟨h5, h6, -⟩ := (input_iff _ _ _ _).1 h2
      exact ⟨s, f, hs, h5, h6, h3⟩

theorem afterAsking_no {S : Shell} {m : Matches} (hask : asks m = true) (ha : ∀ rest, S.answer ≠ some (121 :: rest)) (r : Fs × Exit) :
    (S.afterAsking m r).1 = S.world.fs := by
  unfold Shell.afterAsking
  rw [if_pos hask]
  split
  · rfl
  · rfl
  · rename_i h
    exfalso
    unfold askToContinue at h
    cases hans : S.answer with
    | none => rw [hans] at h; simp at h
    | some l =>
      rw [hans] at h
      cases l with
      | nil => revert h; decide
      | cons b l =>
        have : b = 121 := by
          simp only [Option.map_some, Option.some.injEq, List.headD_cons] at h
          exact @of_decide_eq_true _ _ h
        subst this
        exact ha l hans

/-- **C57.** `repair` and `update` ask before they change anything, unless they are told not to (`--skip-warning`, `--json`); any answer
that does not begin with `y` leaves everything as it is. -/
theorem C57_question (S : Shell) (m : Matches) (c : Cmd) (hc : c = .repair ∨ c = .update) (hy : m.flag .skipWarning = false)
    (hj : m.flag .json = false) (ha : ∀ rest, S.answer ≠ some (121 :: rest)) : (S.run m c).1 = S.world.fs := by
  by_cases hd : m.flag .dryRun = true
  · exact C57_looks S m c (by rcases hc with rfl | rfl <;> exact hd)
  · have hask : asks m = true := by simp [asks, hy, hj, hd]
    rcases hc with rfl | rfl <;> simp only [Shell.run]
    · unfold Shell.repair
      split
      · rfl
      · split
        · rfl
        · exact afterAsking_no hask ha _
    · unfold Shell.update
      split
      · rfl
      · split
        · rfl
        · exact afterAsking_no hask ha _

theorem decode_early (w : World) (E : Decode.Env) (p : Decode.Param) (a : DecodeArgs) (fs : Fs) (e : Fail) (h : w.decode E p a = (fs, .error e))
    (he : early e = true) : fs = w.fs := by
  unfold World.decode at h
  repeat' split at h
  all_goals first
    | (cases h; rfl)
    | (cases h; cases he; done)
    | (cases h; done)

theorem encodeTo_early (w : World) (E : Encode.Env) (p : Encode.Param) (force : Bool) (input : Option Place) (file : Option Name) (f : List Byte)
    (out : List Char) (fs : Fs) (e : Fail) (h : w.encodeTo E p force input file f out = (fs, .error e)) (he : early e = true ∨ e = .exists) :
    fs = w.fs := by
  unfold World.encodeTo at h
  repeat' split at h
  all_goals first
    | (cases h; rfl)
    | (cases h; rcases he with he | he <;> cases he; done)
    | (cases h; done)

theorem encode_early (w : World) (E : Encode.Env) (p : Encode.Param) (a : Args) (fs : Fs) (e : Fail) (h : w.encode E p a = (fs, .error e))
    (he : early e = true ∨ e = .exists) : fs = w.fs := by
  unfold World.encode at h
  repeat' split at h
  all_goals first
    | (cases h; rfl)
    | exact encodeTo_early _ _ _ _ _ _ _ _ _ _ h he

theorem sort_early (w : World) (E : Verif.Sort.Env) (p : Verif.Sort.Param) (a : Args) (dry : Bool) (fs : Fs) (e : Fail)
    (h : w.sort E p a dry = (fs, .error e)) (he : early e = true ∨ e = .exists) : fs = w.fs := by
  unfold World.sort at h
  repeat' split at h
  all_goals first
    | (cases h; rfl)
    | (cases h; rcases he with he | he <;> cases he; done)
    | (cases h; done)

/-- **C57.** An exit status for wrong usage means that nothing has been changed. -/
theorem C57_usage (S : Shell) (m : Matches) (c : Cmd) (h : (S.run m c).2 = .usage) : (S.run m c).1 = S.world.fs := by
  cases c <;> simp only [Shell.run] at h ⊢
  · rfl
  · rfl
  · unfold Shell.decode at h ⊢
    split
    · rfl
    · rename_i p a hr
      rw [hr] at h
      dsimp only at h
      cases hd : S.world.decode S.dec p a with
      | mk fs r =>
        rw [hd] at h
        cases r with
        | ok u => simp at h
        | error e =>
          dsimp only at h ⊢
          split at h
          · exact decode_early _ _ _ _ _ _ hd ‹_›
          · simp at h
  · unfold Shell.encode at h ⊢
    split
    · rfl
    · rename_i p a hr
      rw [hr] at h
      dsimp only at h
      split
      · rfl
      · rename_i hi
        rw [if_neg hi] at h
        split
        · rename_i he; rw [he] at h; simp at h
        · rename_i he; exact encode_early _ _ _ _ _ _ he (.inr rfl)
        · rename_i e hne he
          rw [he] at h
          refine encode_early _ _ _ _ _ _ he (.inl ?_)
          by_contra hc
          simp [hc] at h
  · rcases repair_fs S m with e | ⟨_, _, _, _, _, _, _, _, _, hu, _⟩
    · exact e
    · exact absurd h hu
  · unfold Shell.rescue at h ⊢
    split
    · rfl
    · rename_i p i o l hr
      rw [hr] at h
      dsimp only at h
      split
      · rfl
      · split
        · rfl
        · split
          · rfl
          · rename_i h1 h2 h3
            rw [if_neg h1, if_neg h2, if_neg h3] at h
            exfalso
            revert h
            cases (S.rescued p i o l).2 <;> simp
  · rfl
  · unfold Shell.sort at h ⊢
    split
    · rfl
    · rename_i p a hr
      rw [hr] at h
      dsimp only at h
      split
      · rename_i he; rw [he] at h; simp at h
      · rename_i he; exact sort_early _ _ _ _ _ _ _ he (.inr rfl)
      · rename_i e hne he
        rw [he] at h
        refine sort_early _ _ _ _ _ _ _ he (.inl ?_)
        by_contra hc
        simp [hc] at h
  · rcases update_fs S m with e | ⟨_, _, _, _, _, _, _, _, _, hu, _⟩
    · exact e
    · exact absurd h hu

/-- What says that `repair` and `update` go ahead. -/
def GoesAhead (S : Shell) (m : Matches) : Prop :=
  m.flag .skipWarning = true ∨ m.flag .json = true ∨ ∃ rest, S.answer = some (121 :: rest)

theorem afterAsking_yes {S : Shell} {m : Matches} (h : GoesAhead S m) (r : Fs × Exit) : S.afterAsking m r = r := by
  unfold Shell.afterAsking
  split
  · rename_i hask
    rcases h with h | h | ⟨rest, h⟩
    · simp [asks, h] at hask
    · simp [asks, h] at hask
    · rw [h]; rfl
  · rfl

/-- **C57.** `repair`, when it goes ahead, leaves what repairing with the burst level stated gives. -/
theorem C57_repair (S : Shell) (hw : S.world.fs.Ok) (m : Matches) (b : Option Nat) (i : List Char) (h : GivenRepair m b i) (pl : Place) (f : File)
    (h1 : leads S.world.fs S.world.cwd i = some pl) (h2 : S.world.fs pl = some (.file f)) (h3 : S.world.canOpen pl = true)
    (hd : m.flag .dryRun = false) (hg : GoesAhead S m) (d : Disk) (st : Repair.Stats)
    (hr : Repair.repairFile S.rep b false f = .ok (some (d, st))) : S.run m .repair = (S.world.fs.set pl d.file, .ok) := by
  simp only [Shell.run]
  unfold Shell.repair
  rw [(read_repair _ _ _).2 h]
  dsimp only
  rw [input_of_leads hw h1 h2]
  dsimp only
  rw [afterAsking_yes hg, hd]
  unfold Shell.repairOn
  rw [hr, h3]
  rfl

/-- **C57.** `update`, when it goes ahead, leaves what updating with the fields stated gives, and says whether it succeeded. -/
theorem C57_update (S : Shell) (hw : S.world.fs.Ok) (m : Matches) (c : Update.Cli) (i : List Char) (h : GivenUpdate m c i) (pl : Place) (f : File)
    (h1 : leads S.world.fs S.world.cwd i = some pl) (h2 : S.world.fs pl = some (.file f)) (h3 : S.world.canOpen pl = true)
    (hd : m.flag .dryRun = false) (hg : GoesAhead S m) :
    (S.run m .update).1 = S.world.fs.set pl (Update.updateFile S.upd (c.param S.upd.hash) f).1.file ∧
    ((S.run m .update).2 = .ok ↔ ∃ st, (Update.updateFile S.upd (c.param S.upd.hash) f).2 = .ok st) := by
  simp only [Shell.run]
  unfold Shell.update
  rw [(read_update _ _ _).2 h]
  dsimp only
  rw [input_of_leads hw h1 h2]
  dsimp only
  rw [afterAsking_yes hg]
  unfold Shell.updateOn
  rw [h3, h.dryRun, hd]
  cases Update.updateFile S.upd (c.param S.upd.hash) f with
  | mk d r => cases r <;> simp

/-- **C57.** `check` looks at the blocks as asked; its exit status says whether it came to an end. -/
theorem C57_check (S : Shell) (hw : S.world.fs.Ok) (m : Matches) (p : Check.Param) (i : List Char) (h : GivenCheck m p i) (pl : Place) (f : File)
    (h1 : leads S.world.fs S.world.cwd i = some pl) (h2 : S.world.fs pl = some (.file f)) :
    (S.run m .check).2 = .ok ↔ ∃ r, Check.checkFile S.chk p f = .ok r := by
  simp only [Shell.run]
  unfold Shell.check
  rw [(read_check _ _ _).2 h]
  dsimp only
  rw [input_of_leads hw h1 h2]
  dsimp only
  cases Check.checkFile S.chk p f <;> simp


/-- **C57.** `rescue` starts only if the image exists and the place for the output is a directory. -/
theorem C57_rescue (S : Shell) (m : Matches) (p : Rescue.Param) (i o : List Char) (l : Option (List Char)) (h : GivenRescue m p i o l) :
    S.run m .rescue = (S.world.fs, .usage) ∨ leads S.world.fs S.world.cwd i ≠ none ∧
      (∃ d, leads S.world.fs S.world.cwd o = some d ∧ S.world.fs d = some .dir) ∧
      (S.run m .rescue).1 = (S.rescued p i o l).1 ∧ ((S.run m .rescue).2 = .ok ↔ (S.rescued p i o l).2 = true) := by
  simp only [Shell.run]
  unfold Shell.rescue
  rw [(read_rescue _ _ _ _ _).2 h]
  dsimp only
  split
  · exact .inl rfl
  · split
    · exact .inl rfl
    · split
      · exact .inl rfl
      · rename_i h1 h2 h3
        refine .inr ⟨?_, ?_, rfl, ?_⟩
        · intro e
          unfold World.exists PathSpec.at? at h1
          rw [e] at h1
          simp at h1
        · unfold World.isDir PathSpec.at? at h3
          cases e : leads S.world.fs S.world.cwd o with
          | none => rw [e] at h3; simp at h3
          | some d =>
            rw [e] at h3
            refine ⟨d, rfl, ?_⟩
            simp only [Option.bind_some] at h3
            split at h3
            · assumption
            · simp at h3
        · cases (S.rescued p i o l).2 <;> simp

/-! ### Encoding and decoding -/

theorem settings_ok {m : Matches} {p : Encode.Param} (h : GivenSettings m p.version p.dpb) : p.Ok := by
  rcases h with ⟨-, -, -, -, h1, h2⟩ | ⟨-, ⟨h1, h2⟩ | ⟨d, s, t, h1, h2, -, -, -, -, h3, h4, h5, -⟩⟩
  · refine ⟨?_, ?_⟩
    · rw [h1, h2]; rfl
    · intro d hd; rw [h2] at hd; cases hd; decide
  · refine ⟨?_, ?_⟩
    · rw [h2]; revert h1; cases p.version <;> decide
    · intro d hd; rw [h2] at hd; cases hd
  · refine ⟨?_, ?_⟩
    · rw [h2]; revert h1; cases p.version <;> simp [Version.num, verConsistent, Version.usesRs]
    · intro d' hd; rw [h2] at hd; cases hd; exact ⟨h3, h4, h5⟩

theorem hash_supported {m : Matches} {p : Encode.Param} (h : ∃ t, GivenHash m t ∧ ((t = none ∧ p.hashType = .sha256) ∨ t = some p.hashType)) :
    p.hashType.supported = true := by
  obtain ⟨t, h1, ⟨-, h2⟩ | rfl⟩ := h
  · rw [h2]; rfl
  · rcases h1 with ⟨-, h1⟩ | ⟨s, t, -, h2, h3⟩
    · cases h1
    · cases h3
      revert h2
      cases p.hashType <;> simp [hashNames, HashType.supported]

/-- No option selects a part of the file. -/
structure NoRange (m : Matches) : Prop where
  fromPos : m.value .fromPos = none
  toInc : m.value .toInc = none
  toExc : m.value .toExc = none

theorem given_none {m : Matches} {v : Val} {x : Option Nat} (h : Given m v x) (hv : m.value v = none) : x = none := by
  rcases h with ⟨-, h⟩ | ⟨s, n, h, -⟩
  · exact h
  · rw [hv] at h; cases h

theorem given_some {m : Matches} {v : Val} {x : Option Nat} (h : Given m v x) (hv : m.value v ≠ none) : x ≠ none := by
  rcases h with ⟨h, -⟩ | ⟨s, n, -, -, h⟩
  · exact absurd h hv
  · rw [h]; simp

theorem givenEnd_none {m : Matches} {v w : Val} {x : Option RangeEnd} (h : GivenEnd m v w x) (hv : m.value v = none) (hw : m.value w = none) :
    x = none := by
  rcases h with ⟨-, -, h⟩ | ⟨s, n, h, -⟩ | ⟨s, n, -, h, -⟩
  · exact h
  · rw [hv] at h; cases h
  · rw [hw] at h; cases h

/-- **C57.** Encoding a file on the command line, with any settings for which there is metadata, and later decoding the container on the command
line makes the same file again.  The encoder must have succeeded; the decoder is told the burst level or guesses it (up to 1000), and writes to a new
file or is told to overwrite. -/
theorem C57_roundtrip (S : Shell) (hw : S.world.fs.Ok) (hlim : S.world.Limits) (hs : ∀ n, S.enc.stop n = false)
    -- encoding
    (m : Matches) (p : Encode.Param) (a : Args) (hg : GivenEncode m S.random p a) (hE : S.enc.Ok p) (hi : m.flag .infoOnly = false)
    (hrange : NoRange m) (hme : m.flag .noMeta = false ∨ 17 ≤ p.version.num) (ha : a.inFile ≠ ['-']) (e : Place) (n : Name) (f : File)
    (hin : leads S.world.fs S.world.cwd a.inFile = some (e ++ [n])) (hf : S.world.fs (e ++ [n]) = some (.file f)) (fs1 : Fs)
    (henc : S.run m .encode = (fs1, .ok)) :
    ∃ cp c, fs1 = S.world.fs.set cp c ∧ S.world.fs cp ≠ some .dir ∧
      OutPlace S.world.fs S.world.cwd (if p.version.usesRs then ".ecsbx".toList else ".sbx".toList) a.inFile a.out cp ∧
      -- decoding
      (cp ≠ e ++ [n] → ∀ (T : Shell) (k : Matches) (q : Decode.Param) (b : DecodeArgs) (d : Place), T.world.fs = fs1 → T.dec.Calm →
        T.dec.hash = S.enc.hash → GivenDecode k q b → NoRange k → k.value .refFrom = none → k.value .refToInc = none → k.value .refToExc = none →
        k.flag .multiPass = false → k.flag .multiPassNoSkip = false →
        (k.value .burst ≠ none ∨ k.value .guessBurstFrom = none ∧ ∀ x, p.dpb = some x → x.burst ≤ 1000) →
        leads fs1 T.world.cwd b.inFile = some cp → IntoDir fs1 T.world.cwd b.out d → T.world.canOpen (d ++ [n]) = true → d ++ [n] ≠ cp →
        (fs1 (d ++ [n]) = none ∨ k.flag .force = true ∧ ∃ old, fs1 (d ++ [n]) = some (.file old)) →
        T.run k .decode = (fs1.set (d ++ [n]) f, .ok)) := by
  obtain ⟨c1, c2⟩ := C57_encode S m p a hg hi
  rw [henc] at c1 c2
  have h2 := c2.1 rfl
  have henc' : S.world.encode S.enc p a = (fs1, .ok ()) := Prod.ext c1.symm h2
  have hmeta : p.metaEnabled = true := by
    unfold Encode.Param.metaEnabled
    rcases hme with hme | hme
    · have := hg.noMeta
      rw [hme] at this
      cases hp : p.metaRequested
      · exact absurd (this.1 hp) (by simp)
      · simp
    · have : p.version.forcesMeta = true := by revert hme; cases p.version <;> decide
      rw [this]; rfl
  have hpr : p.fromPos = none ∧ p.toPos = none := ⟨given_none hg.fromPos hrange.fromPos, givenEnd_none hg.toPos hrange.toInc hrange.toExc⟩
  obtain ⟨cp, c, k1, k2, k3, k4⟩ := C50_roundtrip S.world hw hlim S.enc p hE (settings_ok hg.settings) hs hpr hmeta (hash_supported hg.hash)
    a ha e n f hin hf fs1 henc'
  refine ⟨cp, c, k1, k2, k3, ?_⟩
  intro hne T k q b d hT hD hash hk hr h3 h4 h5 h6 h7 hb hcon hdir hcan hdn hnew
  have hmp : q.multiPass = none := by
    rcases hk.passes with ⟨h, -⟩ | ⟨-, h, -⟩ | ⟨-, -, h⟩
    · exact h
    · rw [h6] at h; cases h
    · rw [h7] at h; cases h
  have hfp := given_none hk.ref.fromPos hr.fromPos
  have hdec := k4 hne T.dec hD hash q ⟨hfp, givenEnd_none hk.ref.toPos hr.toInc hr.toExc, hmp⟩
    ⟨given_none hk.ref.refFrom h3, givenEnd_none hk.ref.refTo h4 h5, hfp, by
      rcases hk.choice with ⟨-, h⟩ | ⟨-, h⟩
      · exact .inl h
      · exact .inr (.inl h)⟩
    (by
      rcases hb with hb | ⟨hb, hx⟩
      · exact .inl (given_some hk.ref.burst hb)
      · exact .inr ⟨given_none hk.ref.guess hb, hx⟩)
    T.world b d hT hcon hdir hcan hdn (by rw [hk.force]; exact hnew)
  obtain ⟨d1, d2⟩ := C57_decode T k q b hk
  rw [hdec] at d1 d2
  exact Prod.ext d1 (d2.2 rfl)

/-! ### Examples -/

/-- A table of options. -/
def table (vals : List (Val × String)) (flags : List Flag) : Matches := ⟨fun v => vals.lookup v, fun f => flags.contains f⟩

theorem table_accepted (vals : List (Val × String)) (flags : List Flag) (h : (vals.lookup .inFile).isSome = true ∧
    (vals.lookup .inFileSize).isSome = true ∧ (vals.lookup .outDir).isSome = true)
    (h1 : vals.lookup .toInc = none ∨ vals.lookup .toExc = none) (h2 : vals.lookup .refToInc = none ∨ vals.lookup .refToExc = none)
    (h3 : flags.contains .multiPass = false ∨ flags.contains .multiPassNoSkip = false) (c : Cmd) : Accepted (table vals flags) c :=
  ⟨fun _ => Option.isSome_iff_ne_none.1 h.1, fun _ => Option.isSome_iff_ne_none.1 h.2.1, fun _ => Option.isSome_iff_ne_none.1 h.2.2, h1, h2, h3⟩

/-- `encode b`: version 17, 10 data and 2 parity shards, burst level 12, SHA-256, metadata. -/
example : GivenEncode (table [(.inFile, "b")] []) Decode.demoUid ⟨.v17, Decode.demoUid, some ⟨10, 2, 12⟩, true, .sha256, none, none, ""⟩
    ⟨['b'], none, false⟩ := (read_encode _ _ _ _).1 (by rfl)

/-- Numbers may have leading zeros and a plus sign, the names of hash functions capital letters, and uids both. -/
example : GivenEncode (table [(.inFile, "b"), (.out, "c"), (.sbxVersion, "19"), (.rsData, "05"), (.rsParity, "+3"), (.burst, "7"), (.hashType, "SHA1"),
      (.uid, "00aAFf000102"), (.fromPos, "512"), (.toExc, "1024")] [.force])
    Decode.demoUid ⟨.v19, ⟨[0, 0xAA, 0xFF, 0, 1, 2], rfl⟩, some ⟨5, 3, 7⟩, true, .sha1, some 512, some (.exc 1024), ""⟩ ⟨['b'], some ['c'], true⟩ :=
  (read_encode _ _ _ _).1 (by with_unfolding_all rfl)

/-- A shell in which there is the file `b`. -/
def smallShell (f : File) : Shell :=
  { world := deskWorld [(['b'], f)], random := Decode.demoUid, answer := none, enc := Device.tinyEncEnv, dec := Decode.tinyEnv, chk := Check.smallEnv,
    srt := ⟨1, fun _ => false, fun _ => false⟩, rep := ⟨⟨fun _ _ _ => [], fun _ _ _ => none⟩, fun _ => false, fun _ => false, fun _ => false⟩,
    upd := ⟨Decode.tinyHash, 1, fun _ => false, fun _ => false, fun _ => false, fun _ => false⟩, rescued := fun _ _ _ _ => (fun _ => none, true),
    shown := fun _ _ => true }

/-- Not a number, a negative number, one that is too big, a shard count of zero, too many shards, shard counts without a version or for a version
without parity that lacks them, an odd number of digits. -/
example : ∀ bad ∈ [[(Val.fromPos, "x")], [(.fromPos, "")], [(.fromPos, "-5")], [(.fromPos, "18446744073709551616")],
      [(.sbxVersion, "17"), (.rsData, "0"), (.rsParity, "2")], [(.sbxVersion, "17"), (.rsData, "200"), (.rsParity, "57")], [(.rsData, "10")],
      [(.sbxVersion, "17"), (.rsData, "10")], [(.sbxVersion, "4")], [(.uid, "00aAFf00010")], [(.hashType, "md5")], [(.verbosity, "3")]],
    (smallShell [1]).run (table ([(.inFile, "b"), (.inFileSize, "0"), (.outDir, "c")] ++ bad) []) .encode = ((smallShell [1]).world.fs, .usage) := by
  intro bad hb
  refine C57_refused _ _ .encode ?_ ?_
  · simp only [List.mem_cons, List.not_mem_nil, or_false] at hb
    rcases hb with rfl | rfl | rfl | rfl | rfl | rfl | rfl | rfl | rfl | rfl | rfl | rfl <;>
      exact table_accepted _ _ ⟨rfl, rfl, rfl⟩ (.inl rfl) (.inl rfl) (.inl rfl) _
  · rw [← reads_iff _ Decode.demoUid]
    have key : ∀ x : Except Stop Unit, (match x with | .ok _ => true | .error _ => false) = false → x ≠ .ok () := by
      intro x h e; rw [e] at h; cases h
    refine key _ ?_
    revert bad
    decide +kernel

set_option maxRecDepth 1000000 in
/-- **C57 is violated.** The second block of the container is damaged, `check` counts it as failed, and its exit status says success. -/
theorem C57_check_status_violated : ∃ p r st, GivenCheck (table [(.inFile, "b"), (.refFrom, "0")] [.reportBlank, .verbose]) p ['b'] ∧
    Check.checkFile Check.smallEnv p (Check.smallFile (List.replicate 128 0xFF)) = .ok r ∧ r.blocks = some st ∧ st.failed = 1 ∧
    ((smallShell (Check.smallFile (List.replicate 128 0xFF))).run (table [(.inFile, "b"), (.refFrom, "0")] [.reportBlank, .verbose]) .check).2 = .ok := by
  have hg : GivenCheck (table [(.inFile, "b"), (.refFrom, "0")] [.reportBlank, .verbose]) (Check.smallParam none) ['b'] :=
    (read_check _ _ _).1 (by rfl)
  have h := Check.C48_unlisted_example_violated
  unfold Check.counted at h
  cases hc : Check.checkFile Check.smallEnv (Check.smallParam none) (Check.smallFile (List.replicate 128 0xFF)) with
  | error e => rw [hc] at h; cases h
  | ok r =>
    rw [hc] at h
    refine ⟨_, r, _, hg, hc, h, rfl, ?_⟩
    refine (C57_check (smallShell _) (desk_ok _) _ _ _ hg [['b']] _ (leads_name' ⟨by decide, by decide, by decide, by decide, by decide⟩ rfl) (by rfl)).2 ⟨r, hc⟩

set_option maxRecDepth 1000000 in
theorem trip_encodes : (left? (tripWorld.encode tripEnv { Device.tinyEncParam with sbxName := "" } ⟨['b'], none, false⟩) ['b']).2 = true := by
  decide +kernel

/-- A shell in which `encode` and `decode` work. -/
noncomputable def tripShell (w : World) : Shell := { smallShell [] with world := w, enc := tripEnv, random := Decode.demoUid }

/-- `blkar encode b --sbx-version 2 --hash sha1` makes `b.sbx`, and then `blkar decode b.sbx --force` writes `b` again. -/
example : ∃ fs1, (tripShell tripWorld).run (table [(.inFile, "b"), (.sbxVersion, "2"), (.hashType, "sha1")] []) .encode = (fs1, .ok) ∧
    ∀ (w' : World), w'.fs = fs1 → w'.cwd = [] → w'.canOpen [['b']] = true →
      (tripShell w').run (table [(.inFile, "b.sbx")] [.force]) .decode = (fs1.set [['b']] (List.replicate 200 7), .ok) := by
  have hg : GivenEncode (table [(.inFile, "b"), (.sbxVersion, "2"), (.hashType, "sha1")] []) (tripShell tripWorld).random
      { Device.tinyEncParam with sbxName := "" } ⟨['b'], none, false⟩ := (read_encode _ _ _ _).1 (by with_unfolding_all rfl)
  obtain ⟨c1, c2⟩ := C57_encode (tripShell tripWorld) _ _ _ hg rfl
  have h := trip_encodes
  unfold left? at h
  have h2 : (tripWorld.encode tripEnv { Device.tinyEncParam with sbxName := "" } ⟨['b'], none, false⟩).2 = .ok () := by
    revert h
    cases (tripWorld.encode tripEnv { Device.tinyEncParam with sbxName := "" } ⟨['b'], none, false⟩).2 with
    | ok u => intro _; rfl
    | error e => intro h; cases h
  have hin : leads tripWorld.fs tripWorld.cwd ['b'] = some ([] ++ [['b']]) :=
    leads_name' ⟨by decide, by decide, by decide, by decide, by decide⟩ rfl
  have h3 := c2.2 h2
  generalize hr : (tripShell tripWorld).run _ Cmd.encode = r at c1 c2 h3
  obtain ⟨fs1, x⟩ := r
  cases h3
  refine ⟨fs1, rfl, ?_⟩
  have hE : tripEnv.Ok { Device.tinyEncParam with sbxName := "" } := ⟨RsWitness.codec_laws, Nat.zero_lt_two, Nat.dvd_refl 2, by decide⟩
  obtain ⟨cp, c, h1, hnd, ho, h2⟩ := C57_roundtrip (tripShell tripWorld) (desk_ok _) trip_limits (fun _ => rfl) _ _ _ hg hE rfl ⟨rfl, rfl, rfl⟩
    (.inl rfl) (by decide) [] ['b'] (List.replicate 200 7) hin (by rfl) fs1 hr
  obtain ⟨pl, e1, d, n, e2, e3⟩ := ho
  have e1' : leads tripWorld.fs tripWorld.cwd ['b'] = some pl := e1
  rw [hin, Option.some.injEq] at e1'
  have e4 : ([] : Place) ++ [['b']] = d ++ [n] := e1'.trans e2
  obtain ⟨rfl, e5⟩ := List.append_inj' e4 rfl
  simp only [List.cons.injEq, and_true] at e5
  subst e5
  have hcp : cp = ["b.sbx".toList] := e3
  subst hcp
  intro w' hw' hcwd hcan
  have hroot : fs1 [] = some .dir := by rw [h1]; rfl
  have hd : GivenDecode (table [(.inFile, "b.sbx")] [.force]) Decode.plainParam ⟨"b.sbx".toList, none, true⟩ := (read_decode _ _ _).1 (by rfl)
  refine h2 (by decide) (tripShell w') _ _ _ [] hw' ⟨Nat.one_pos, fun _ => rfl, fun _ => rfl, fun _ => rfl⟩ rfl hd ⟨rfl, rfl, rfl⟩ rfl rfl rfl rfl rfl
    (.inr ⟨rfl, by intro x h; cases h⟩) ?_ ⟨hroot, .inl ⟨rfl, hcwd.symm⟩⟩ hcan (by decide) (.inr ⟨rfl, List.replicate 200 7, by rw [h1]; rfl⟩)
  show leads fs1 w'.cwd _ = _
  rw [hcwd]
  exact leads_name' ⟨by decide, by decide, by decide, by decide, by decide⟩ hroot

/-- A shell in which `repair` works; somebody types `answer`. -/
noncomputable def repairShell (f : File) (answer : Option (List Byte)) : Shell := { smallShell f with rep := Repair.demoEnv, answer := answer }

/-- `blkar repair b --burst 3`: after the answer `y` the two blocks that are gone have been restored; after `n` nothing has happened. -/
example : ∃ c f : File, f ≠ c ∧
    (repairShell f (some [121, 10])).run (table [(.inFile, "b"), (.burst, "3")] []) .repair = ((deskWorld [(['b'], f)]).fs.set [['b']] c, .ok) ∧
    ((repairShell f (some [110, 10])).run (table [(.inFile, "b"), (.burst, "3")] []) .repair).1 = (deskWorld [(['b'], f)]).fs := by
  obtain ⟨mp, c, h⟩ := Repair.demo_sound
  obtain ⟨f, f0, f1, h2, ho, h3, h5⟩ := Device.demo_wiped h
  obtain ⟨dk, st, r1, -, -, -, r3⟩ := Repair.C25_bursts Repair.demoEnv Repair.demo_laws Repair.demo_calm .v17 Repair.demoOwner Repair.demoDpb _ mp c f
    h (by decide) [(0, 2)] h2 (by decide) (few (by decide)) h3
  have hg : GivenRepair (table [(.inFile, "b"), (.burst, "3")] []) (some 3) ['b'] := (read_repair _ _ _).1 (by rfl)
  refine ⟨c, f, ?_, ?_, ?_⟩
  · intro e
    have h0 := (Repair.image_meta h.container (metasToBytes_length h.plain) (k := 0) (by decide)).1
    have hm : Format.IsBlock (RepairSpec.piece .v17 c 0) .v17 Repair.demoOwner 0 mp := ⟨h0, metasToBytes_length h.plain⟩
    rw [← e, f0] at hm
    exact Repair.zeros_not_block hm
  · have := C57_repair (repairShell f (some [121, 10])) (desk_ok _) _ _ _ hg [['b']] f
      (leads_name' ⟨by decide, by decide, by decide, by decide, by decide⟩ rfl) (by rfl) rfl rfl (.inr (.inr ⟨[10], rfl⟩)) dk st r1
    rw [this, r3 h5]
    rfl
  · exact C57_question (repairShell f (some [110, 10])) _ .repair (.inl rfl) rfl rfl (by intro rest h; cases h)

set_option maxRecDepth 1000000 in
/-- `blkar update b --fnm c --skip-warning` changes the file name in the metadata block. -/
example : ((smallShell (namedContainer "a")).run (table [(.inFile, "b"), (.fnm, "c")] [.skipWarning]) .update).2 = .ok ∧
    (left? (((smallShell (namedContainer "a")).run (table [(.inFile, "b"), (.fnm, "c")] [.skipWarning]) .update).1, .ok ()) ['b']).1 =
      some (namedContainer "c") := by
  have hg : GivenUpdate (table [(.inFile, "b"), (.fnm, "c")] [.skipWarning])
      { fnm := some "c", snm := none, hash := none, noFnm := false, noSnm := false, noHsh := false, dryRun := false, burst := none } ['b'] :=
    (read_update _ _ _).1 (by rfl)
  obtain ⟨h1, h2⟩ := C57_update (smallShell (namedContainer "a")) (desk_ok _) _ _ _ hg [['b']] _
    (leads_name' ⟨by decide, by decide, by decide, by decide, by decide⟩ rfl) (by rfl) rfl rfl (.inl rfl)
  rw [h1, h2]
  constructor
  · have h : (match (Update.updateFile (smallShell []).upd
        (({ fnm := some "c", snm := none, hash := none, noFnm := false, noSnm := false, noHsh := false, dryRun := false, burst := none } : Update.Cli).param
          Decode.tinyHash) (namedContainer "a")).2 with | .ok _ => true | .error _ => false) = true := by decide +kernel
    revert h
    show _ → ∃ st, (Update.updateFile (smallShell []).upd _ (namedContainer "a")).2 = .ok st
    intro h
    split at h
    · exact ⟨_, ‹_›⟩
    · cases h
  · decide +kernel

end Verif.Cli
