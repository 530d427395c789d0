import Verif.Lemmas.Range
import Verif.Props.Decode
import Verif.Props.Check
import Verif.Props.Sort
/-!
# C56: a range of positions selects whole blocks of the container
-/

namespace Verif
open Format ScanSpec DecodeSpec LayoutSpec RangeSpec Misc Scan

theorem roundDown_lt {x L : Nat} (hL : 0 < L) : roundDown x L ≤ x ∧ x < roundDown x L + L := by
  unfold roundDown
  have h1 := Nat.div_add_mod x L
  have h2 := Nat.mod_lt x hL
  have h3 : x / L * L = L * (x / L) := Nat.mul_comm _ _
  omega

/-- **C56.** There always is exactly one selection, whatever the options, for a file that is not empty; only `--to-exc 0` is excluded (see
C17). -/
theorem C56_selection (fromByte : Option Nat) (toByte : Option RangeEnd) (mis : Bool) (v : Version) (f : File) (hf : f ≠ [])
    (hto : toByte ≠ some (.exc 0)) : ∃! g, Cut fromByte toByte mis (blockLen v) f g := by
  obtain ⟨h1, h2⟩ := places_iff (fromByte := fromByte) (mis := mis) (ref := blockOf v Block.zeroUid 0 []) hf hto
  refine ⟨f.readAt _ (_ * blockLen v), ⟨_, _, h1, h2, rfl⟩, ?_⟩
  rintro g' ⟨start, m, g1, g2, rfl⟩
  have e1 := isStart_unique (blockLen_pos v) g1 h1
  subst e1
  have e2 := lt_iff_eq fun k => (g2 k).trans (h2 k).symm
  rw [e2]

/-- **C56, decode.** Decoding the part of a file selected by a range is the same as decoding a file that consists of the selected blocks
only: output, counters and hash.  (`hr`, `hr'`, `hd`, `hd'`: the same reference block, shard counts and burst level are used for both.) -/
theorem C56_decode (E : Decode.Env) (hE : E.Calm) (p q : Decode.Param) (f g old : File) (hf : f ≠ [])
    (hto : p.ref.toPos ≠ some (.exc 0)) (pos pos' : Nat) (ref : Block) (dpb : Option Dpb)
    (hr : getRefBlockM p.ref p.ref.refChoice f E.stopRef (E.stop 0) = .ok (pos, ref))
    (hr' : getRefBlockM q.ref q.ref.refChoice g E.stopRef (E.stop 0) = .ok (pos', ref))
    (hd : dataParBurst p.ref true f ref = .ok dpb) (hd' : dataParBurst q.ref true g ref = .ok dpb)
    (hcut : Cut p.ref.fromPos p.ref.toPos p.ref.forceMisalign (blockLen ref.header.version) f g)
    (hq1 : q.ref.fromPos = none) (hq2 : q.ref.toPos = none) (hmp : q.multiPass = p.multiPass) :
    Decode.toFile E p f old = Decode.toFile E q g old := by
  obtain ⟨m, -, hm, h1⟩ := Decode.decodeFile_spec E hE.lots p ref f old dpb hd
  obtain ⟨m', -, hm', h2⟩ := Decode.decodeFile_spec E hE.lots q ref g old dpb hd'
  obtain ⟨c1, c2, c3, c4⟩ := hcut.same (mis' := q.ref.forceMisalign) hf hto ref.header.version.blockSize (blockLen_eq _).symm
    (Decode.rangeOf p.ref ref f) (Decode.rangeOf q.ref ref g) rfl (by unfold Decode.rangeOf; rw [hq1, hq2])
  have hm := hm hE.stop
  have hm' := hm' hE.stop
  rw [c2, ← hm] at hm'
  subst hm'
  rw [c1] at h2
  have e1 : (List.range m').filterMap (look ref g 0) = (List.range m').filterMap (look ref f (Decode.rangeOf p.ref ref f).seekTo) :=
    List.filterMap_congr fun k hk => (c4 k (by rw [← hm]; exact List.mem_range.1 hk)).symm
  have e2 : (List.range m').map (look ref g 0) = (List.range m').map (look ref f (Decode.rangeOf p.ref ref f).seekTo) :=
    List.map_congr_left fun k hk => (c4 k (by rw [← hm]; exact List.mem_range.1 hk)).symm
  rw [e1, e2, hmp, ← h1] at h2
  unfold Decode.toFile
  rw [hr, hr']
  simp only [h2]

/-- **C56, check.** Blocks are checked unless only the hash is asked for; checking the part of a file selected by a range gives the same
counters as checking a file that consists of the selected blocks only. -/
theorem C56_check (E : Check.Env) (hE : ∀ i, E.stopCheck i = false) (p q : Check.Param) (f g : File) (hf : f ≠ [])
    (hto : p.ref.toPos ≠ some (.exc 0)) (pos pos' : Nat) (ref : Block) (r r' : Check.Report)
    (h : Check.checkFile E p f = .ok r) (h' : Check.checkFile E q g = .ok r')
    (hr : getRefBlockM p.ref p.ref.refChoice f E.stopRef (E.stopCheck 0) = .ok (pos, ref))
    (hr' : getRefBlockM q.ref q.ref.refChoice g E.stopRef (E.stopCheck 0) = .ok (pos', ref))
    (hcut : Cut p.ref.fromPos p.ref.toPos p.ref.forceMisalign (blockLen ref.header.version) f g)
    (hq1 : q.ref.fromPos = none) (hq2 : q.ref.toPos = none) (hb : q.reportBlank = p.reportBlank) (hv : q.verbose = p.verbose)
    (ha : q.hashAction = p.hashAction) :
    (r.blocks = none ↔ p.hashAction = .hashOnly) ∧ r.blocks = r'.blocks := by
  have none_iff : ∀ {p : Check.Param} {f : File} {r : Check.Report}, Check.checkFile E p f = .ok r →
      (r.blocks = none ↔ p.hashAction = .hashOnly) := by
    intro p f r h
    unfold Check.checkFile at h
    split at h
    · simp at h
    · split at h
      · simp at h
      · simp only [Except.ok.injEq] at h
        subst h
        simp only
        split
        · rename_i h; simp [h]
        · rename_i h; simp [h]
  refine ⟨none_iff h, ?_⟩
  cases hb1 : r.blocks with
  | none => exact ((none_iff h').2 (by rw [ha]; exact (none_iff h).1 hb1)).symm
  | some st =>
    cases hb2 : r'.blocks with
    | none =>
      have := (none_iff h).2 (by rw [← ha]; exact (none_iff h').1 hb2)
      rw [hb1] at this; cases this
    | some st' =>
      obtain ⟨pos1, ref1, m, a1, -, a2, rfl⟩ := Check.checkFile_blocks h hb1
      obtain ⟨pos2, ref2, m', b1, -, b2, rfl⟩ := Check.checkFile_blocks h' hb2
      rw [hr] at a1
      rw [hr'] at b1
      cases a1
      cases b1
      obtain ⟨c1, c2, c3, c4⟩ := hcut.same (mis' := q.ref.forceMisalign) hf hto ref.header.version.blockSize (blockLen_eq _).symm
        (Check.rangeOf p.ref ref f) (Check.rangeOf q.ref ref g) rfl (by unfold Check.rangeOf; rw [hq1, hq2])
      have a2 := a2 hE
      have b2 := b2 hE
      rw [c2, ← a2] at b2
      subst b2
      rw [c1]
      congr 1
      have : ∀ (l : List Nat) (s : Check.Stats), (∀ k ∈ l, k < m') →
          l.foldl (Check.stepAt p ref f (Check.rangeOf p.ref ref f).seekTo) s = l.foldl (Check.stepAt q ref g 0) s := by
        intro l
        induction l with
        | nil => intro s _; rfl
        | cons k l ih =>
          intro s hl
          rw [List.foldl_cons, List.foldl_cons, ih _ (fun k hk => hl k (List.mem_cons_of_mem _ hk))]
          have e : CheckSpec.placeBytes ref.header.version f (Check.rangeOf p.ref ref f).seekTo k =
              CheckSpec.placeBytes ref.header.version g 0 k := c3 k (by rw [← a2]; exact hl k List.mem_cons_self)
          have : Check.stepAt p ref f (Check.rangeOf p.ref ref f).seekTo s k = Check.stepAt q ref g 0 s k := by
            unfold Check.stepAt
            rw [e, hb, hv]
          rw [this]
      exact this _ _ fun k hk => List.mem_range.1 hk

/-- The place of the metadata blocks among the other writes does not matter. -/
theorem metas_anywhere {u : Nat} (hu : 0 < u) (A B A' B' M : List (Nat × List Byte)) (h : A ++ B = A' ++ B')
    (hA : ∀ w ∈ A ++ B, w.2.length = u) (hM : ∀ w ∈ M, w.2.length = u) (hdisj : ∀ w ∈ M, ∀ x ∈ A ++ B, w.1 ≠ x.1) :
    File.writes [] (File.atPos u (A ++ (M ++ B))) = File.writes [] (File.atPos u (A' ++ (M ++ B'))) := by
  have hmem : ∀ w, w ∈ A ++ (M ++ B) ↔ w ∈ A' ++ (M ++ B') := by
    intro w
    have := congrArg (fun l => w ∈ l) h
    simp only [List.mem_append, eq_iff_iff] at this ⊢
    tauto
  have hlen : ∀ w ∈ A ++ (M ++ B), w.2.length = u := by
    intro w hw
    simp only [List.mem_append] at hw hA
    rcases hw with hw | hw | hw
    · exact hA w (.inl hw)
    · exact hM w hw
    · exact hA w (.inr hw)
  have hlen' : ∀ w ∈ A' ++ (M ++ B'), w.2.length = u := fun w hw => hlen w ((hmem w).2 hw)
  obtain ⟨l1, u1⟩ := File.unit_writes hu _ hlen (f := []) (by simp)
  obtain ⟨l2, u2⟩ := File.unit_writes hu _ hlen' (f := []) (by simp)
  simp only [List.length_nil, Nat.zero_div] at l1 l2 u1 u2
  have hmax : File.maxUnits 0 (A ++ (M ++ B)) = File.maxUnits 0 (A' ++ (M ++ B')) := by
    apply Nat.le_antisymm
    · exact File.maxUnits_le.2 ⟨Nat.zero_le _, fun w hw => (File.maxUnits_le.1 (Nat.le_refl _)).2 w ((hmem w).1 hw)⟩
    · exact File.maxUnits_le.2 ⟨Nat.zero_le _, fun w hw => (File.maxUnits_le.1 (Nat.le_refl _)).2 w ((hmem w).2 hw)⟩
  have hlast : ∀ k, File.lastWrite (A ++ (M ++ B)) k = File.lastWrite (A' ++ (M ++ B')) k := by
    intro k
    have hAB : (File.lastWrite B k).or (File.lastWrite A k) = (File.lastWrite B' k).or (File.lastWrite A' k) := by
      rw [← File.lastWrite_append, ← File.lastWrite_append, h]
    rw [File.lastWrite_append, File.lastWrite_append, File.lastWrite_append, File.lastWrite_append]
    cases hMk : File.lastWrite M k with
    | none => simpa using hAB
    | some d =>
      have hm := File.lastWrite_some hMk
      have hno : ∀ l, (∀ w ∈ l, w ∈ A ++ B) → File.lastWrite l k = none :=
        fun l hl => File.lastWrite_none.2 fun w hw e => hdisj _ hm w (hl w hw) e.symm
      rw [hno B (fun w hw => List.mem_append_right _ hw), hno B' (fun w hw => h ▸ List.mem_append_right _ hw)]
      simp
  refine File.ext_units hu _ l1 (by rw [l2, hmax]) fun k hk => ?_
  rw [u1 k hk, u2 k (by omega), hlast]

/-- **C56, sort.** Sorting the part of a file selected by a range (into a new file) gives the same output as sorting a file that consists
of the selected blocks only, and the same numbers of blocks of each kind. -/
theorem C56_sort (E : Sort.Env) (hE : E.Calm) (p q : Sort.Param) (f g old : File) (hf : f ≠ [])
    (hto : p.ref.toPos ≠ some (.exc 0)) (pos pos' : Nat) (ref : Block) (dpb : Option Dpb) (hv : Valid dpb)
    (hr : getRefBlockM p.ref p.ref.refChoice f E.stopRef (E.stop 0) = .ok (pos, ref))
    (hr' : getRefBlockM q.ref q.ref.refChoice g E.stopRef (E.stop 0) = .ok (pos', ref))
    (hd : dataParBurst p.ref true f ref = .ok dpb) (hd' : dataParBurst q.ref true g ref = .ok dpb)
    (hcut : Cut p.ref.fromPos p.ref.toPos p.ref.forceMisalign (blockLen ref.header.version) f g)
    (hq1 : q.ref.fromPos = none) (hq2 : q.ref.toPos = none) (hmp : p.multiPass = none) (hmp' : q.multiPass = none)
    (htf : q.toFile = p.toFile) (hrb : q.reportBlank = p.reportBlank) :
    ∃ out st o out' st' o', Sort.sortFile E p f old = .ok (out, st, o) ∧ Sort.sortFile E q g old = .ok (out', st', o') ∧
      out.map Disk.file = out'.map Disk.file ∧ st.metas = st'.metas ∧ st.datas = st'.datas ∧ st.parities = st'.parities ∧
      st.failed = st'.failed ∧ st.okayBlank = st'.okayBlank := by
  obtain ⟨m, -, hm, A, B, out, fin, h1, h2, h3, h4⟩ := Sort.sortWith_spec E hE.lots p ref dpb f old
  obtain ⟨m', -, hm', A', B', out', fin', h1', h2', h3', h4'⟩ := Sort.sortWith_spec E hE.lots q ref dpb g old
  obtain ⟨c1, c2, c3, c4⟩ := hcut.same (mis' := q.ref.forceMisalign) hf hto ref.header.version.blockSize (blockLen_eq _).symm
    (Decode.rangeOf p.ref ref f) (Decode.rangeOf q.ref ref g) rfl (by unfold Decode.rangeOf; rw [hq1, hq2])
  have hm := hm hE.stop
  have hm' := hm' hE.stop
  rw [c2, ← hm] at hm'
  subst hm'
  rw [← hm] at c3 c4
  rw [c1] at h1' h2' h3'
  set start := (Decode.rangeOf p.ref ref f).seekTo with hstart
  have hs : Sort.sortFile E p f old = Sort.sortWith E p ref dpb f old := by
    unfold Sort.sortFile; rw [hr]; simp only; rw [hd]
  have hs' : Sort.sortFile E q g old = Sort.sortWith E q ref dpb g old := by
    unfold Sort.sortFile; rw [hr']; simp only; rw [hd']
  refine ⟨_, _, _, _, _, _, hs.trans h3, hs'.trans h3', ?_, ?_⟩
  · -- the files
    have hsame : (A.map (·.2)) ++ (B.map (·.2)) = (A'.map (·.2)) ++ (B'.map (·.2)) := by
      rw [← List.map_append, ← List.map_append, ← h1, ← h1', List.map_filterMap, List.map_filterMap]
      refine List.filterMap_congr fun k hk => ?_
      unfold Sort.dataAt
      rw [c4 k (List.mem_range.1 hk)]
      cases look ref g 0 k with
      | none => rfl
      | some x =>
        simp only [Option.bind_some]
        split <;> rfl
    have hfound : fin.1 = fin'.1 := by
      rw [h2, h2', Sort.tally_found, Sort.tally_found, Option.none_or, Option.none_or]
      have : ∀ l : List Nat, (∀ k ∈ l, k < m') → l.findSome? (Sort.metaAt ref f start) = l.findSome? (Sort.metaAt ref g 0) := by
        intro l
        induction l with
        | nil => intro _; rfl
        | cons k l ih =>
          intro hl
          rw [List.findSome?_cons, List.findSome?_cons, ih fun k hk => hl k (List.mem_cons_of_mem _ hk)]
          have hk := hl k List.mem_cons_self
          have : Sort.metaAt ref f start k = Sort.metaAt ref g 0 k := by
            unfold Sort.metaAt
            rw [c4 k hk, c3 k hk]
          rw [this]
      exact this _ fun k hk => List.mem_range.1 hk
    have hmlen : ∀ mb, fin'.1 = some mb → mb.length = ref.header.version.blockSize := by
      intro mb hmb
      rw [h2', Sort.tally_found, Option.none_or] at hmb
      obtain ⟨k, -, hk⟩ := List.exists_of_findSome?_eq_some hmb
      obtain ⟨pl, hp, rfl⟩ := Sort.metaAt_some.1 hk
      rw [isBlock_length hp, blockLen_eq]
    have hdlen : ∀ x ∈ (A.map (·.2)) ++ (B.map (·.2)), x.1 ≠ 0 ∧ x.2.length = ref.header.version.dataSize := by
      intro x hx
      rw [← List.map_append, ← h1] at hx
      obtain ⟨y, hy, rfl⟩ := List.mem_map.1 hx
      obtain ⟨k, -, hk⟩ := List.mem_filterMap.1 hy
      obtain ⟨-, hne, hl⟩ := Sort.dataAt_some.1 hk
      obtain ⟨-, hb⟩ := Decode.look_some.1 hl
      exact ⟨hne, by rw [hb.len, dataSize_eq]⟩
    have hsk : ((none : Option Decode.MultiPass) == some Decode.MultiPass.skipGood) = false := rfl
    rw [h4, h4', htf, hmp, hmp', hsk, hfound]
    split
    · congr 1
      have hold : Decode.openOut none old = [] := rfl
      rw [hold]
      set at' : Nat × List Byte → Nat × List Byte :=
        fun x => (Layout.dataWriteIndex x.1 (some true) dpb, blockBytes ref.header.version ref.header.uid.bytes (UInt32.ofNat x.1) x.2) with hat
      have hw : ∀ X Y : List (Nat × Nat × List Byte), (Y.map (·.2)).foldl (Sort.putBlock ref dpb false)
          (fin'.1.toList.foldl (fun o mb => Sort.putMetas ref dpb false mb o) ((X.map (·.2)).foldl (Sort.putBlock ref dpb false) [])) =
          File.writes [] (File.atPos ref.header.version.blockSize ((X.map (·.2)).map at' ++
            (fin'.1.toList.flatMap (metaWrites dpb) ++ (Y.map (·.2)).map at'))) := by
        intro X Y
        unfold File.atPos
        rw [List.map_append, List.map_append, File.writes_append, File.writes_append, Sort.putBlocks_writes, Sort.putBlocks_writes]
        cases fin'.1 with
        | none => rfl
        | some mb =>
          simp only [Option.toList_some, List.foldl_cons, List.foldl_nil, List.flatMap_cons, List.flatMap_nil, List.append_nil]
          rw [Sort.putMetas_writes]
          rfl
      rw [hw, hw]
      have hu : 0 < ref.header.version.blockSize := by rw [← blockLen_eq]; exact blockLen_pos _
      refine metas_anywhere hu _ _ _ _ _ (by
        have := congrArg (List.map at') hsame
        rwa [List.map_append, List.map_append] at this) ?_ ?_ ?_
      · intro w hw
        rw [← List.map_append (f := at')] at hw
        obtain ⟨x, hx, rfl⟩ := List.mem_map.1 hw
        show (blockBytes _ _ _ _).length = _
        rw [blockBytes_length, (hdlen x hx).2, Version.blockSize_eq]
      · intro w hw
        obtain ⟨mb, hmb, hw⟩ := List.mem_flatMap.1 hw
        obtain ⟨k, -, rfl⟩ := List.mem_map.1 hw
        exact hmlen mb (by simpa using hmb)
      · intro w hw x hx
        obtain ⟨mb, hmb, hw⟩ := List.mem_flatMap.1 hw
        obtain ⟨k, hk, rfl⟩ := List.mem_map.1 hw
        rw [← List.map_append (f := at')] at hx
        obtain ⟨y, hy, rfl⟩ := List.mem_map.1 hx
        intro e
        simp only [hat] at e
        rw [e] at hk
        exact C10_data_not_meta (some true) dpb hv y.1 (by have := (hdlen y hy).1; omega) hk
    · rfl
  · -- the counters
    have key : ∀ (l : List Nat) (a b : Option (List Byte) × Sort.Stats), (∀ k ∈ l, k < m') →
        a.2.metas = b.2.metas → a.2.datas = b.2.datas → a.2.parities = b.2.parities → a.2.failed = b.2.failed →
        a.2.okayBlank = b.2.okayBlank →
        let x := (l.foldl (Sort.tally ref dpb f start p.reportBlank) a).2
        let y := (l.foldl (Sort.tally ref dpb g 0 p.reportBlank) b).2
        x.metas = y.metas ∧ x.datas = y.datas ∧ x.parities = y.parities ∧ x.failed = y.failed ∧ x.okayBlank = y.okayBlank := by
      intro l
      induction l with
      | nil => intro a b _ e1 e2 e3 e4 e5; exact ⟨e1, e2, e3, e4, e5⟩
      | cons k l ih =>
        intro a b hl e1 e2 e3 e4 e5
        rw [List.foldl_cons, List.foldl_cons]
        have hk := hl k List.mem_cons_self
        refine ih _ _ (fun k hk => hl k (List.mem_cons_of_mem _ hk)) ?_ ?_ ?_ ?_ ?_ <;>
        · unfold Sort.tally
          rw [c4 k hk, c3 k hk]
          cases look ref g 0 k with
          | none => simp only; split <;> simp [e1, e2, e3, e4, e5]
          | some x =>
            simp only
            split
            · split <;> split <;> simp [e1, e2, e3, e4, e5]
            · split <;> simp [e1, e2, e3, e4, e5]
    rw [h2, h2', hrb]
    exact key _ _ _ (fun k hk => List.mem_range.1 hk) rfl rfl rfl rfl rfl

/-! ### The burst level -/

theorem blockAt_behind {ref : Block} {pre c : File} (pos : Nat) : blockAt ref (pre ++ c) (pre.length + pos) = blockAt ref c pos := by
  unfold blockAt
  rw [List.drop_append, List.drop_eq_nil_of_le (by omega), List.nil_append]
  congr 3; omega

theorem guess_behind {ref : Block} {pre c : File} {from1 : Option GuessFrom} {mis1 mis2 : Bool}
    (h : guessFromPos ref.size mis1 from1 = pre.length) : guessBurst (pre ++ c) from1 mis1 ref = guessBurst c none mis2 ref := by
  unfold guessBurst
  rw [h]
  simp only [guessFromPos, sampleLoop_spec, blockAt_behind, Nat.zero_add]

/-- **C56, burst level.** The burst level is guessed from the beginning of the container even if `FROM` is somewhere in its middle: at
position 0, or with `--force-misalign` at the first position that is a whole number of blocks before `FROM`.  Whatever is in front of that
position does not matter. -/
theorem C56_burst (p q : RefParam) (pre c : File) (ref : Block) (x : Nat) (hx : p.fromPos = some x) (hg : p.guessBurstFrom = none)
    (hpre : if p.forceMisalign then pre.length < blockLen ref.header.version ∧ ∃ j, x = pre.length + j * blockLen ref.header.version
      else pre = [])
    (hq1 : q.fromPos = none) (hq2 : q.guessBurstFrom = none) (hb : p.burst = q.burst) :
    dataParBurst p true (pre ++ c) ref = dataParBurst q true c ref := by
  have hpos : guessFromPos ref.size p.forceMisalign p.guessFrom = pre.length := by
    unfold RefParam.guessFrom
    rw [hg, hx]
    simp only [Option.map_some, guessFromPos]
    split
    · rename_i hm
      rw [if_pos hm] at hpre
      obtain ⟨h1, j, rfl⟩ := hpre
      show _ % ref.header.version.blockSize = _
      rw [← blockLen_eq, Nat.add_mul_mod_self_right, Nat.mod_eq_of_lt h1]
    · rename_i hm
      rw [if_neg hm] at hpre
      subst hpre; rfl
  have hq : q.guessFrom = none := by unfold RefParam.guessFrom; rw [hq1, hq2]; rfl
  unfold dataParBurst burstOrGuess
  simp only [if_true, Bool.true_and, hb, hq]
  rw [guess_behind hpos (mis2 := q.forceMisalign)]

/-- **C56, burst level.** With `--guess-burst-from` the burst level is guessed from the given position on, rounded down to a multiple of
the block size unless misalignment is forced. -/
theorem C56_burst_from (p q : RefParam) (pre c : File) (ref : Block) (x : Nat) (hg : p.guessBurstFrom = some x)
    (hpre : if p.forceMisalign then pre.length = x
      else pre.length ≤ x ∧ x < pre.length + blockLen ref.header.version ∧ blockLen ref.header.version ∣ pre.length)
    (hq1 : q.fromPos = none) (hq2 : q.guessBurstFrom = none) (hb : p.burst = q.burst) :
    dataParBurst p true (pre ++ c) ref = dataParBurst q true c ref := by
  have hpos : guessFromPos ref.size p.forceMisalign p.guessFrom = pre.length := by
    unfold RefParam.guessFrom
    rw [hg]
    simp only [guessFromPos]
    split
    · rename_i hm
      rw [if_pos hm] at hpre
      exact hpre.symm
    · rename_i hm
      rw [if_neg hm] at hpre
      obtain ⟨h1, h2, j, hj⟩ := hpre
      show roundDown x ref.header.version.blockSize = _
      rw [← blockLen_eq]
      unfold roundDown
      have : x / blockLen ref.header.version = j := by
        rw [Nat.div_eq_iff (blockLen_pos _), Nat.mul_comm j]; omega
      rw [this, hj, Nat.mul_comm]
  have hq : q.guessFrom = none := by unfold RefParam.guessFrom; rw [hq1, hq2]; rfl
  unfold dataParBurst burstOrGuess
  simp only [if_true, Bool.true_and, hb, hq]
  rw [guess_behind hpos (mis2 := q.forceMisalign)]

/-! ### A container behind other bytes -/

/-- **C56.** A container that begins somewhere in a file, behind any `pre.length` bytes, is decoded with `FROM` set to where it begins and
`--force-misalign` (which can be left out if that is a multiple of the block size) just as if it were a file of its own.  The burst level
has to be stated unless there is no error correction or the container begins in the first block.  (`hr`, `hr'`: the reference block used is the same.) -/
theorem C56_embedded (E : Decode.Env) (hE : E.Calm) (p q : Decode.Param) (pre c old : File) (hc : c ≠ []) (pos pos' : Nat) (ref : Block)
    (hL : blockLen ref.header.version ∣ c.length)
    (hr : getRefBlockM p.ref p.ref.refChoice (pre ++ c) E.stopRef (E.stop 0) = .ok (pos, ref))
    (hr' : getRefBlockM q.ref q.ref.refChoice c E.stopRef (E.stop 0) = .ok (pos', ref))
    (hfrom : p.ref.fromPos = some pre.length) (hto : p.ref.toPos = none) (hg : p.ref.guessBurstFrom = none)
    (hal : p.ref.forceMisalign = true ∨ blockLen ref.header.version ∣ pre.length)
    (hburst : p.ref.burst ≠ none ∨ pre.length < blockLen ref.header.version ∨ ref.header.version.usesRs = false)
    (hq1 : q.ref.fromPos = none) (hq2 : q.ref.toPos = none) (hq3 : q.ref.guessBurstFrom = none) (hqb : q.ref.burst = p.ref.burst)
    (hmp : q.multiPass = p.multiPass) :
    Decode.toFile E p (pre ++ c) old = Decode.toFile E q c old := by
  have hLpos := blockLen_pos ref.header.version
  have hclen := List.length_pos_iff.2 hc
  have hlen : (pre ++ c).length = pre.length + c.length := List.length_append
  have hd : dataParBurst p.ref true (pre ++ c) ref = dataParBurst q.ref true c ref := by
    rcases hburst with hb | hb | hb
    · obtain ⟨b, hb⟩ := Option.ne_none_iff_exists'.1 hb
      unfold dataParBurst burstOrGuess
      rw [hqb, hb]
    rotate_left
    · unfold dataParBurst
      rw [if_neg (by simp [hb]), if_neg (by simp [hb])]
    · refine C56_burst p.ref q.ref pre c ref pre.length hfrom hg ?_ hq1 hq3 hqb.symm
      split
      · exact ⟨hb, 0, by omega⟩
      · rename_i hm
        rcases hal with h | ⟨j, hj⟩
        · exact absurd h hm
        · have : j = 0 := by
            rw [hj] at hb
            by_contra h0
            have : blockLen ref.header.version * 1 ≤ blockLen ref.header.version * j := Nat.mul_le_mul_left _ (by omega)
            omega
          subst this
          exact List.eq_nil_of_length_eq_zero (by omega)
  have hcut : Cut p.ref.fromPos p.ref.toPos p.ref.forceMisalign (blockLen ref.header.version) (pre ++ c) c := by
    obtain ⟨m, hm⟩ := hL
    refine ⟨pre.length, m, ⟨_, rfl, ?_⟩, ?_, ?_⟩
    · rw [hfrom, Option.getD_some]
      split
      · omega
      · rename_i hmis
        exact ⟨by omega, by omega, hal.resolve_left hmis⟩
    · intro k
      rw [hto, hlen, hm, Nat.mul_comm _ m]
      have h1 : (k + 1) * blockLen ref.header.version ≤ m * blockLen ref.header.version ↔ k + 1 ≤ m :=
        ⟨fun h => Nat.le_of_mul_le_mul_right h hLpos, fun h => Nat.mul_le_mul_right _ h⟩
      simp only [inRequested, or_true, and_true]
      omega
    · rw [File.readAt_append_right (Nat.le_refl _), Nat.sub_self, Nat.mul_comm, ← hm]
      simp [File.readAt]
  cases hd' : dataParBurst q.ref true c ref with
  | ok dpb =>
    exact C56_decode E hE p q _ c old (by simp [hc]) (by rw [hto]; simp) pos pos' ref dpb hr hr' (by rw [hd, hd']) hd' hcut hq1 hq2 hmp
  | error e =>
    unfold Decode.toFile
    rw [hr, hr']
    simp only
    unfold Decode.decodeFile
    rw [hd, hd']

/-! ### An instance: five bytes, then a container of two blocks, looked at from position 5 -/

def rangedFile : File := [1, 2, 3, 4, 5] ++ Check.smallFile (List.replicate 128 0xFF)

def rangedParam : Check.Param :=
  ⟨⟨.prefer .metadata, some 5, none, none, some 5, none, true, none⟩, true, true, .noHash⟩

def refAt (p : Check.Param) (f : File) : Option (Nat × Block) :=
  match getRefBlockM p.ref p.ref.refChoice f (fun _ => false) false with
  | .ok x => some x
  | .error _ => none

def smallRef : Block := blockOf .v2 Block.zeroUid 0 ((metasToBytes [.fsz 5] 112).getD [])

theorem refAt_ok {p : Check.Param} {f : File} {x : Nat × Block} (h : refAt p f = some x) :
    getRefBlockM p.ref p.ref.refChoice f (fun _ => false) false = .ok x := by
  unfold refAt at h
  split at h
  · rename_i e; rw [e]; cases h; rfl
  · cases h

set_option maxRecDepth 1000000 in
theorem ranged_refs : refAt rangedParam rangedFile = some (0, smallRef) ∧
    refAt (Check.smallParam none) (Check.smallFile (List.replicate 128 0xFF)) = some (0, smallRef) := by
  decide +kernel

theorem small_length : (Check.smallFile (List.replicate 128 0xFF)).length = 256 := by decide +kernel

theorem ranged_cut : Cut (some 5) none true 128 rangedFile (Check.smallFile (List.replicate 128 0xFF)) := by
  have hl : rangedFile.length = 261 := by unfold rangedFile; rw [List.length_append, small_length]; rfl
  refine ⟨5, 2, ⟨5, by rw [hl]; rfl, rfl⟩, fun k => ?_, ?_⟩
  · rw [hl]; simp only [inRequested, or_true, and_true]; omega
  · unfold rangedFile
    rw [File.readAt_append_right (by decide)]
    have : (Check.smallFile (List.replicate 128 0xFF)).readAt 0 256 = Check.smallFile (List.replicate 128 0xFF) := by
      unfold File.readAt
      rw [List.drop_zero, List.take_of_length_le (by rw [small_length])]
    exact this.symm

set_option maxRecDepth 1000000 in
/-- One block passes and one is damaged, as in the file without the five bytes. -/
example : ∃ r r', Check.checkFile Check.smallEnv rangedParam rangedFile = .ok r ∧
    Check.checkFile Check.smallEnv (Check.smallParam none) (Check.smallFile (List.replicate 128 0xFF)) = .ok r' ∧
    r'.blocks = some ⟨1, 0, 1, 0, []⟩ ∧ r.blocks = r'.blocks := by
  obtain ⟨h1, h2⟩ := ranged_refs
  have e1 := refAt_ok h1
  have e2 := refAt_ok h2
  have k1 : ∃ r, Check.checkFile Check.smallEnv rangedParam rangedFile = .ok r := by
    unfold Check.checkFile Check.smallEnv
    rw [e1]; exact ⟨_, rfl⟩
  have k2 : ∃ r, Check.checkFile Check.smallEnv (Check.smallParam none) (Check.smallFile (List.replicate 128 0xFF)) = .ok r := by
    unfold Check.checkFile Check.smallEnv
    rw [e2]; exact ⟨_, rfl⟩
  obtain ⟨r, k1⟩ := k1
  obtain ⟨r', k2⟩ := k2
  have hc := Check.C48_unlisted_example_violated
  unfold Check.counted at hc
  rw [k2] at hc
  refine ⟨r, r', k1, k2, hc, ?_⟩
  refine (C56_check Check.smallEnv (fun _ => rfl) rangedParam (Check.smallParam none) _ _ (by simp [rangedFile]) (by simp [rangedParam]) 0 0
    smallRef r r' k1 k2 e1 e2 ?_ rfl rfl rfl rfl rfl).2
  exact ranged_cut

/-- Decoding skips the five bytes as well. -/
example (E : Decode.Env) (hE : E.Calm) (old : File) :
    Decode.toFile E ⟨rangedParam.ref, none⟩ rangedFile old =
      Decode.toFile E ⟨(Check.smallParam none).ref, none⟩ (Check.smallFile (List.replicate 128 0xFF)) old := by
  obtain ⟨h1, h2⟩ := ranged_refs
  have e1 := refAt_ok h1
  have e2 := refAt_ok h2
  have hs : E.stopRef = fun _ => false := funext hE.stopRef
  refine C56_embedded E hE _ _ [1, 2, 3, 4, 5] _ old ?_ 0 0 smallRef ?_ ?_ ?_ rfl rfl rfl (.inl rfl) (.inr (by decide)) rfl rfl rfl rfl rfl
  · intro h
    have := small_length
    rw [h] at this; cases this
  · rw [small_length]; decide
  · rw [hs, hE.stop]; exact e1
  · rw [hs, hE.stop]; exact e2

end Verif
