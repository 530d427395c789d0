import Verif.Props.Archive
import Verif.Props.CliRescue
import Verif.Props.Compose
import Verif.Props.Rescue
/-!
# C84: rescuing an archive takes it apart

`rescue` on a file of several containers (or on a disk on which they happen to stand one after the other) puts the blocks of each
container, in their order, into a file of its own.
-/

namespace Verif.Archive
open Format ContainerSpec LayoutSpec Layout RepairSpec ScanSpec Scan History Misc Followed RescueSpec

/-- The places of a container that are not blank. -/
def nonblank (v : Version) (f : File) : List (List Byte) := (chunksOf (blockLen v) f).filter fun b => b ≠ List.replicate (blockLen v) 0

/-- A container without its blank places: what is left if the blocks of zeros are taken out. -/
def blocksOnly (v : Version) (f : File) : File := (nonblank v f).flatten

theorem chunks_range {n m : Nat} (hn : 0 < n) {f : File} (hf : f.length = m * n) :
    chunksOf n f = (List.range m).map fun k => f.readAt (k * n) n := by
  refine List.ext_getElem? fun i => ?_
  rw [Decode.chunksOf_getElem? hn, List.getElem?_map]
  by_cases hi : i < m
  · have : i * n < f.length := by rw [hf]; exact Nat.mul_lt_mul_of_pos_right hi hn
    rw [if_pos this, List.getElem?_range hi]
    rfl
  · have : ¬ i * n < f.length := by rw [hf]; exact Nat.not_lt.2 (Nat.mul_le_mul_right _ (by omega))
    rw [if_neg this, List.getElem?_eq_none (by simpa using hi)]
    rfl

/-- Is it to be rescued into the file `name`?  (Only a restriction to another uid prevents it.) -/
def Goes (p : Rescue.Param) (name : List Byte) (uid : Uid) : Prop := upperHex uid.bytes = name ∧ ∀ u, p.onlyUid = some u → uid = u

theorem belongs_block {p : Rescue.Param} (hp : p.onlyBlock = none) {name : List Byte} {v : Version} {uid : Uid} {seq : UInt32} {pl : List Byte} :
    Rescue.belongs p name (.block v uid seq pl) ↔ Goes p name uid := by
  unfold Rescue.belongs Wanted Goes
  rw [hp]
  constructor
  · rintro ⟨⟨-, h⟩, h'⟩
    exact ⟨h', h⟩
  · rintro ⟨h', h⟩
    exact ⟨⟨by simp, h⟩, h'⟩

open Classical in
/-- What is saved of a single block. -/
theorem filter_block {p : Rescue.Param} (hp : p.onlyBlock = none) (name : List Byte) (v : Version) (uid : Uid) (seq : UInt32) (pl : List Byte) :
    ([Piece.block v uid seq pl].filter fun q => Rescue.belongs p name q).map Piece.bytes =
      if Goes p name uid then [blockBytes v uid.bytes seq pl] else [] := by
  by_cases h : Goes p name uid
  · rw [if_pos h, List.filter_cons_of_pos (by rw [decide_eq_true_eq]; exact (belongs_block hp).2 h), List.filter_nil, List.map_singleton]
    rfl
  · rw [if_neg h, List.filter_cons_of_neg (by rw [decide_eq_true_eq]; exact fun h' => h ((belongs_block hp).1 h')), List.filter_nil]
    rfl

theorem filter_junk (p : Rescue.Param) (name : List Byte) (c : Nat) (bs : List Byte) :
    ((List.replicate c (Piece.junk bs)).filter fun q => Rescue.belongs p name q) = [] := by
  rw [List.filter_eq_nil_iff]
  intro q hq
  rw [(List.mem_replicate.1 hq).2, decide_eq_true_eq]
  exact id

open Classical in
/-- The first `m` places of a container as pieces, and what is saved of them. -/
theorem container_blocks {v : Version} {uid : Uid} {dpb : Option Dpb} {ps : List (List Byte)} {mb mp : List Byte} {f : File} {me : Option Bool}
    (him : Image v uid.bytes me dpb ps mb f) (hmb : IsBlock mb v uid 0 mp)
    (hps : ∀ p ∈ ps, p.length = blockLen v - 16) (n : Nat) (hf : f.length = n * blockLen v) :
    ∀ m ≤ n, ∃ l : List Piece, (∀ p ∈ l, p.Ok) ∧ l.flatMap Piece.bytes = f.take (m * blockLen v) ∧
      ∀ (p : Rescue.Param) (name : List Byte), p.onlyBlock = none →
        (l.filter fun q => Rescue.belongs p name q).map Piece.bytes =
          if Goes p name uid then ((List.range m).map fun k => f.readAt (k * blockLen v) (blockLen v)).filter fun b => b ≠ List.replicate (blockLen v) 0 else []
  | 0, _ => ⟨[], by simp, by simp, by simp⟩
  | m + 1, hm => by
    obtain ⟨l, h1, h2, h3⟩ := container_blocks him hmb hps n hf m (by omega)
    have htake : f.take ((m + 1) * blockLen v) = f.take (m * blockLen v) ++ f.readAt (m * blockLen v) (blockLen v) := by
      rw [Nat.succ_mul, List.take_add]; rfl
    have hadd : ∀ l' : List Piece, (∀ q ∈ l', q.Ok) → l'.flatMap Piece.bytes = f.readAt (m * blockLen v) (blockLen v) →
        (∀ (p : Rescue.Param) (name : List Byte), p.onlyBlock = none →
          (l'.filter fun q => Rescue.belongs p name q).map Piece.bytes = if Goes p name uid then
            (if f.readAt (m * blockLen v) (blockLen v) = List.replicate (blockLen v) 0 then [] else [f.readAt (m * blockLen v) (blockLen v)]) else []) →
        ∃ l : List Piece, (∀ p ∈ l, p.Ok) ∧ l.flatMap Piece.bytes = f.take ((m + 1) * blockLen v) ∧
          ∀ (p : Rescue.Param) (name : List Byte), p.onlyBlock = none →
            (l.filter fun q => Rescue.belongs p name q).map Piece.bytes =
              if Goes p name uid then ((List.range (m + 1)).map fun k => f.readAt (k * blockLen v) (blockLen v)).filter fun b => b ≠ List.replicate (blockLen v) 0 else [] := by
      intro l' g1 g2 g3
      refine ⟨l ++ l', ?_, ?_, ?_⟩
      · intro q hq
        exact (List.mem_append.1 hq).elim (h1 q) (g1 q)
      · rw [List.flatMap_append, h2, g2, htake]
      · intro p name hp
        rw [List.filter_append, List.map_append, h3 p name hp, g3 p name hp, List.range_succ, List.map_append, List.filter_append, List.map_singleton]
        split
        · congr 1
          split
          · rename_i hz
            rw [List.filter_cons_of_neg (by simpa using hz), List.filter_nil]
          · rename_i hz
            rw [List.filter_cons_of_pos (by simpa using hz), List.filter_nil]
        · rfl
    have hone : ∀ seq pl, pl.length = blockLen v - 16 → f.readAt (m * blockLen v) (blockLen v) = blockBytes v uid.bytes seq pl →
        ∃ l : List Piece, (∀ p ∈ l, p.Ok) ∧ l.flatMap Piece.bytes = f.take ((m + 1) * blockLen v) ∧
          ∀ (p : Rescue.Param) (name : List Byte), p.onlyBlock = none →
            (l.filter fun q => Rescue.belongs p name q).map Piece.bytes =
              if Goes p name uid then ((List.range (m + 1)).map fun k => f.readAt (k * blockLen v) (blockLen v)).filter fun b => b ≠ List.replicate (blockLen v) 0 else [] := by
      intro seq pl hl he
      refine hadd [.block v uid seq pl] ?_ ?_ ?_
      · intro q hq
        rw [List.mem_singleton.1 hq]
        exact hl
      · rw [List.flatMap_singleton, he]; rfl
      · intro p name hp
        rw [filter_block hp]
        have hz : f.readAt (m * blockLen v) (blockLen v) ≠ List.replicate (blockLen v) 0 := by
          intro hz
          exact Repair.zeros_not_block (n := blockLen v) (v := v) (uid := uid) (seq := seq) (p := pl) (hz ▸ ⟨he, hl⟩)
        rw [if_neg hz, he]
    by_cases hk : m ∈ metaCopies me dpb
    · exact hone 0 mp hmb.2 ((him.metas m hk).trans hmb.1)
    · by_cases hd : ∃ i < ps.length, dataWriteIndex (i + 1) me dpb = m
      · obtain ⟨i, hi, hi'⟩ := hd
        have hd := him.data i _ (List.getElem?_eq_getElem hi)
        rw [hi'] at hd
        exact hone _ _ (hps _ (List.getElem_mem hi)) hd
      · have hml : (m + 1) * blockLen v ≤ f.length := by rw [hf]; exact Nat.mul_le_mul_right _ hm
        have hpos := blockLen_pos v
        rw [Nat.succ_mul] at hml
        have hz := him.gaps m (by omega) hk (fun i hi he => hd ⟨i, hi, he⟩)
        obtain ⟨c, hc⟩ : ∃ c, blockLen v = c * 128 := by
          cases v
          · exact ⟨4, rfl⟩
          · exact ⟨1, rfl⟩
          · exact ⟨32, rfl⟩
          · exact ⟨4, rfl⟩
          · exact ⟨1, rfl⟩
          · exact ⟨32, rfl⟩
        refine hadd (List.replicate c (.junk (List.replicate 128 0))) ?_ ?_ ?_
        · intro q hq
          rw [(List.mem_replicate.1 hq).2]; exact zeros_ok
        · rw [hz, zeros_pieces, hc]
        · intro p name _
          rw [filter_junk, if_pos hz]
          simp

open Classical in
/-- A container as pieces, and what is saved of them. -/
theorem item_blocks {x : Item} (hx : x.Good) : ∃ l : List Piece, (∀ p ∈ l, p.Ok) ∧ l.flatMap Piece.bytes = x.file ∧
    ∀ (p : Rescue.Param) (name : List Byte), p.onlyBlock = none →
      (l.filter fun q => Rescue.belongs p name q).map Piece.bytes =
        if Goes p name x.setting.uid then nonblank x.setting.version x.file else [] := by
  obtain ⟨hS, hk⟩ := hx
  obtain ⟨mp, hcon, hmp, hms⟩ := hk.container
  have hblock : IsBlock (blockBytes x.setting.version x.setting.uid.bytes 0 mp) x.setting.version x.setting.uid 0 mp :=
    ⟨rfl, metasToBytes_length hms⟩
  obtain ⟨n, hn⟩ := hcon.aligned
  rw [Nat.mul_comm] at hn
  obtain ⟨l, h1, h2, h3⟩ := container_blocks hcon hblock (fun p hp => by rw [payload_lengths hS p hp, dataSize_eq]) n hn n (Nat.le_refl _)
  rw [← hn, List.take_length] at h2
  refine ⟨l, h1, h2, fun p name hp => ?_⟩
  rw [h3 p name hp]
  unfold nonblank
  rw [chunks_range (blockLen_pos _) hn]

open Classical in
theorem archive_blocks : ∀ (xs : List Item), (∀ x ∈ xs, x.Good) → ∃ l : List Piece, (∀ p ∈ l, p.Ok) ∧ l.flatMap Piece.bytes = archive xs ∧
    ∀ (p : Rescue.Param) (name : List Byte), p.onlyBlock = none →
      (l.filter fun q => Rescue.belongs p name q).map Piece.bytes =
        (xs.filter fun x => Goes p name x.setting.uid).flatMap fun x => nonblank x.setting.version x.file
  | [], _ => ⟨[], by simp, rfl, by simp⟩
  | x :: xs, h => by
    obtain ⟨l, h1, h2, h3⟩ := archive_blocks xs fun y hy => h y (List.mem_cons_of_mem _ hy)
    obtain ⟨l', g1, g2, g3⟩ := item_blocks (h x List.mem_cons_self)
    refine ⟨l' ++ l, fun q hq => (List.mem_append.1 hq).elim (g1 q) (h1 q), ?_, fun p name hp => ?_⟩
    · rw [List.flatMap_append, g2, h2]; rfl
    · rw [List.filter_append, List.map_append, g3 p name hp, h3 p name hp]
      by_cases hg : Goes p name x.setting.uid
      · rw [if_pos hg, List.filter_cons_of_pos (by simpa using hg), List.flatMap_cons]
      · rw [if_neg hg, List.filter_cons_of_neg (by simpa using hg), List.nil_append]

open Classical in
/-- **C84.** Rescuing an archive: every schedule of the threads ends, and then each file of the output directory has got the blocks of
the containers with that uid (if no other uid was asked for), container by container, in the order of the archive.  Nothing else
is put anywhere. -/
theorem C84_split {E : Rescue.Env} (hE : Ok E) (hs : ∀ n, E.stop n = false) (he : NoErr E) (p : Rescue.Param)
    (hp : p.fromPos = none ∧ p.toPos = none) (hb : p.onlyBlock = none) (xs : List Item) (hxs : ∀ x ∈ xs, x.Good) (tail : File)
    (ht : tail.length < 128) (hne : archive xs ++ tail ≠ []) (dir : Dir) :
    ∃ bound, ∀ k s, (Rescue.ring E p (archive xs ++ tail) (Rescue.required p (archive xs ++ tail))).Steps k
        (Rescue.initial E p (archive xs ++ tail) .zero) s → k ≤ bound ∧
      ((∀ s', ¬ (Rescue.ring E p (archive xs ++ tail) (Rescue.required p (archive xs ++ tail))).Step s s') →
        Pipeline.Finished s ∧ (s.thread 0).st.failed = false ∧
        ∀ name, dir.after (s.thread 2).st.events name =
          dir name ++ (xs.filter fun x => Goes p name x.setting.uid).flatMap fun x => blocksOnly x.setting.version x.file) := by
  obtain ⟨l, h1, h2, h3⟩ := archive_blocks xs hxs
  have := Rescue.C31_image hE hs he p hp l h1 tail ht (by rw [h2]; exact hne) dir
  rw [h2] at this
  obtain ⟨bound, h⟩ := this
  refine ⟨bound, fun k s hk => ⟨(h k s hk).1, fun hst => ?_⟩⟩
  obtain ⟨g1, g2, -, g3⟩ := (h k s hk).2 hst
  refine ⟨g1, g2, fun name => ?_⟩
  rw [g3 name, List.flatMap_def, h3 p name hb, List.flatMap_def, List.flatMap_def, List.flatten_flatten, List.map_map]
  rfl

/-- A container without burst resistance has no blank places. -/
theorem blocksOnly_dense {x : Item} (hx : x.Good) (hd : ∀ d, x.setting.dpb = some d → d.burst = 0) :
    blocksOnly x.setting.version x.file = x.file := by
  obtain ⟨hS, hk⟩ := hx
  obtain ⟨mp, hcon, hmp, hms⟩ := hk.container
  generalize hv : x.setting.version = v at *
  generalize x.setting.uid = uid at *
  generalize hf : x.file = f at *
  have hpl : ∀ p ∈ payloads x.setting.rs v x.setting.dpb (fileChunks v x.setting.bytes), p.length = blockLen v - 16 := by
    intro p hp
    rw [← hv] at hp ⊢
    rw [payload_lengths hS p hp, dataSize_eq]
  unfold IsContainer at hcon
  generalize payloads x.setting.rs v x.setting.dpb (fileChunks v x.setting.bytes) = ps at hcon hpl
  obtain ⟨n, hn⟩ := hcon.aligned
  rw [Nat.mul_comm] at hn
  have hpos := blockLen_pos v
  obtain ⟨c, hc1, hc2⟩ : ∃ c, (∀ k, k ∈ metaCopies (some true) x.setting.dpb ↔ k < c) ∧
      ∀ i, dataWriteIndex (i + 1) (some true) x.setting.dpb = c + i := by
    cases hdp : x.setting.dpb with
    | none => exact ⟨1, by intro k; simp [metaCopies], by intro i; simp [dataWriteIndex]⟩
    | some d =>
      obtain ⟨a, b, e⟩ := d
      have := hd _ hdp
      simp only at this
      subst this
      exact ⟨1 + b, by intro k; simp [metaCopies], by intro i; simp [dataWriteIndex]⟩
  have hfull : ∀ k < n, f.readAt (k * blockLen v) (blockLen v) ≠ List.replicate (blockLen v) 0 := by
    intro k hkn hz
    by_cases hkc : k < c
    · have h := hcon.metas k ((hc1 k).2 hkc)
      rw [hz] at h
      exact Repair.zeros_not_block (n := blockLen v) (v := v) (uid := uid) (seq := 0) (p := mp) ⟨h, metasToBytes_length hms⟩
    · obtain ⟨j, rfl⟩ : ∃ j, n = j + 1 := ⟨n - 1, by omega⟩
      rcases hcon.tight j hn with h | ⟨i, hi, h⟩
      · rw [hc1] at h; omega
      · rw [hc2] at h
        have hlt : k - c < ps.length := by omega
        have h := hcon.data (k - c) _ (List.getElem?_eq_getElem hlt)
        rw [hc2, show c + (k - c) = k by omega, hz] at h
        exact Repair.zeros_not_block (n := blockLen v) (v := v) (uid := uid) (seq := UInt32.ofNat (k - c + 1)) (p := ps[k - c])
          ⟨h, hpl _ (List.getElem_mem hlt)⟩
  unfold blocksOnly nonblank
  rw [List.filter_eq_self.2, chunksOf_flatten (by omega)]
  intro b hb
  rw [chunks_range hpos hn] at hb
  obtain ⟨k, hk, rfl⟩ := List.mem_map.1 hb
  simpa using hfull k (List.mem_range.1 hk)

theorem alone : ∀ {xs : List Item}, (xs.map fun x => x.setting.uid).Nodup → ∀ {x : Item}, x ∈ xs → ∀ (P : Item → Bool), P x = true →
    (∀ y ∈ xs, P y = true → y.setting.uid = x.setting.uid) → xs.filter P = [x]
  | y :: ys, hn, x, hx, P, hP, hu => by
    rw [List.map_cons, List.nodup_cons] at hn
    rcases List.mem_cons.1 hx with rfl | hx
    · rw [List.filter_cons_of_pos hP, List.filter_eq_nil_iff.2]
      intro z hz hPz
      exact hn.1 (List.mem_map.2 ⟨z, hz, hu z (List.mem_cons_of_mem _ hz) hPz⟩)
    · rw [List.filter_cons_of_neg, alone hn.2 hx P hP fun z hz => hu z (List.mem_cons_of_mem _ hz)]
      intro hPy
      exact hn.1 (List.mem_map.2 ⟨x, hx, (hu y List.mem_cons_self hPy).symm⟩)

/-- **C84.** If the containers have different uids, `rescue` takes the archive apart: each container gets a file of its own, which consists of
its blocks; without burst resistance it is the container byte for byte. All other files stay as they are. -/
theorem C84_apart {E : Rescue.Env} (hE : Ok E) (hs : ∀ n, E.stop n = false) (he : NoErr E) (p : Rescue.Param)
    (hp : p.fromPos = none ∧ p.toPos = none) (hb : p.onlyBlock = none ∧ p.onlyUid = none) (xs : List Item) (hxs : ∀ x ∈ xs, x.Good)
    (hu : (xs.map fun x => x.setting.uid).Nodup) (tail : File) (ht : tail.length < 128) (hne : archive xs ++ tail ≠ []) (dir : Dir)
    (hnew : ∀ x ∈ xs, dir (upperHex x.setting.uid.bytes) = []) :
    ∃ bound, ∀ k s, (Rescue.ring E p (archive xs ++ tail) (Rescue.required p (archive xs ++ tail))).Steps k
        (Rescue.initial E p (archive xs ++ tail) .zero) s → k ≤ bound ∧
      ((∀ s', ¬ (Rescue.ring E p (archive xs ++ tail) (Rescue.required p (archive xs ++ tail))).Step s s') →
        (∀ x ∈ xs, dir.after (s.thread 2).st.events (upperHex x.setting.uid.bytes) = blocksOnly x.setting.version x.file ∧
          ((∀ d, x.setting.dpb = some d → d.burst = 0) →
            dir.after (s.thread 2).st.events (upperHex x.setting.uid.bytes) = x.file)) ∧
        ∀ name, (∀ x ∈ xs, upperHex x.setting.uid.bytes ≠ name) → dir.after (s.thread 2).st.events name = dir name) := by
  classical
  obtain ⟨bound, h⟩ := C84_split hE hs he p hp hb.1 xs hxs tail ht hne dir
  refine ⟨bound, fun k s hk => ⟨(h k s hk).1, fun hst => ?_⟩⟩
  obtain ⟨-, -, g⟩ := (h k s hk).2 hst
  have hgo : ∀ name uid, Goes p name uid ↔ upperHex uid.bytes = name := by
    intro name uid
    unfold Goes
    rw [hb.2]
    simp
  constructor
  · intro x hx
    have e : dir.after (s.thread 2).st.events (upperHex x.setting.uid.bytes) = blocksOnly x.setting.version x.file := by
      rw [g, hnew x hx, List.nil_append, alone hu hx _ (by simp [hgo]), List.flatMap_singleton]
      intro y _ hy
      exact Rescue.C31_names ((hgo _ _).1 (by simpa using hy))
    exact ⟨e, fun hd => e.trans (blocksOnly_dense (hxs x hx) hd)⟩
  · intro name hname
    rw [g, List.filter_eq_nil_iff.2, List.flatMap_nil, List.append_nil]
    intro x hx hgx
    exact hname x hx ((hgo _ _).1 (by simpa using hgx))

/-! ### Sorting what was rescued -/

/-- `sort` puts the blank places back, also if the blocks are in another order or there several times. -/
theorem sort_nonblank {x : Item} (hx : x.Good) (bs : List (List Byte)) (hbs : ∀ b, b ∈ bs ↔ b ∈ nonblank x.setting.version x.file) (S : Sort.Env) (hS : S.Calm) (q : Sort.Param) (hq : Sort.Whole q)
    (hrf : q.ref.refFrom = none) (hrt : q.ref.refTo = none) (hch : q.ref.refChoice = .prefer .metadata ∨ q.ref.refChoice = .mustBe .metadata)
    (hb : ∀ d, x.setting.dpb = some d → q.ref.burst = some d.burst) (old : File) :
    ∃ dk st o, Sort.sortFile S q bs.flatten old = .ok (some dk, st, o) ∧ dk.file = x.file := by
  obtain ⟨hS', hk⟩ := hx
  obtain ⟨mp, hcon, hmp, hms⟩ := hk.container
  have hpos := blockLen_pos x.setting.version
  have hblock : IsBlock (blockBytes x.setting.version x.setting.uid.bytes 0 mp) x.setting.version x.setting.uid 0 mp :=
    ⟨rfl, metasToBytes_length hms⟩
  obtain ⟨n, hn⟩ := hcon.aligned
  rw [Nat.mul_comm] at hn
  refine Sort.C30_permuted S hS q hq hrf hrt hch x.setting.rs x.setting.version x.setting.uid x.setting.dpb x.setting.bytes _ x.file old _
    hS'.lengths (fun d hd => (hS'.shards d hd).1) hS'.consistent hcon x.metas ⟨mp, hblock, hmp⟩ ⟨hk.data, hk.parity⟩ hS'.numbers hb
    (fun b hb => (List.mem_filter.1 ((hbs b).1 hb)).1) ?_ (fun b hb _ hz => (hbs b).2 (List.mem_filter.2 ⟨hb, by simpa using hz⟩))
  have h0 : (0 : Nat) ∈ metaCopies (some true) x.setting.dpb := by
    cases x.setting.dpb <;> simp [metaCopies]
  have hm := hcon.metas 0 h0
  refine (hbs _).2 (List.mem_filter.2 ⟨?_, ?_⟩)
  · rw [chunks_range hpos hn, ← hm]
    refine List.mem_map.2 ⟨0, ?_, rfl⟩
    rw [List.mem_range]
    rcases Nat.eq_zero_or_pos n with h | h
    · exfalso
      rw [h, Nat.zero_mul] at hn
      rw [List.length_eq_zero_iff.1 hn] at hm
      have := congrArg List.length hm
      rw [isBlock_length hblock] at this
      simp [File.readAt] at this
      omega
    · exact h
  · rw [decide_eq_true_eq]
    intro hz
    exact Repair.zeros_not_block (n := blockLen x.setting.version) (v := x.setting.version) (uid := x.setting.uid) (seq := 0) (p := mp) (hz ▸ hblock)

/-- **C84.** With burst resistance too: sorting what was rescued of a container gives the container back, byte for byte. -/
theorem C84_sorted {E : Rescue.Env} (hE : Ok E) (hs : ∀ n, E.stop n = false) (he : NoErr E) (p : Rescue.Param)
    (hp : p.fromPos = none ∧ p.toPos = none) (hb : p.onlyBlock = none ∧ p.onlyUid = none) (xs : List Item) (hxs : ∀ x ∈ xs, x.Good)
    (hu : (xs.map fun x => x.setting.uid).Nodup) (tail : File) (ht : tail.length < 128) (hne : archive xs ++ tail ≠ []) (dir : Dir)
    (hnew : ∀ x ∈ xs, dir (upperHex x.setting.uid.bytes) = []) :
    ∃ bound, ∀ k s, (Rescue.ring E p (archive xs ++ tail) (Rescue.required p (archive xs ++ tail))).Steps k
        (Rescue.initial E p (archive xs ++ tail) .zero) s → k ≤ bound ∧
      ((∀ s', ¬ (Rescue.ring E p (archive xs ++ tail) (Rescue.required p (archive xs ++ tail))).Step s s') →
        ∀ x ∈ xs, ∀ (S : Sort.Env), S.Calm → ∀ (q : Sort.Param), Sort.Whole q → q.ref.refFrom = none → q.ref.refTo = none →
          (q.ref.refChoice = .prefer .metadata ∨ q.ref.refChoice = .mustBe .metadata) →
          (∀ d, x.setting.dpb = some d → q.ref.burst = some d.burst) → ∀ old,
          ∃ dk st o, Sort.sortFile S q (dir.after (s.thread 2).st.events (upperHex x.setting.uid.bytes)) old = .ok (some dk, st, o) ∧
            dk.file = x.file) := by
  obtain ⟨bound, h⟩ := C84_apart hE hs he p hp hb xs hxs hu tail ht hne dir hnew
  refine ⟨bound, fun k s hk => ⟨(h k s hk).1, fun hst x hx S hS q hq hrf hrt hch hbu old => ?_⟩⟩
  rw [(((h k s hk).2 hst).1 x hx).1]
  exact sort_nonblank (hxs x hx) _ (fun _ => Iff.rfl) S hS q hq hrf hrt hch hbu old

open Classical in
/-- **C84.** The rescue may also be stopped between two writes and resumed, any number of times, with or without its log: what is in the files
then may have come more than once, but sorting a file still gives the container back, byte for byte. -/
theorem C84_resumed {E : Rescue.Env} (hE : Ok E) (hs : ∀ n, E.stop n = false) (he : NoErr E) (p : Rescue.Param)
    (hp : p.fromPos = none ∧ p.toPos = none) (hb : p.onlyBlock = none ∧ p.onlyUid = none) (xs : List Item) (hxs : ∀ x ∈ xs, x.Good)
    (hu : (xs.map fun x => x.setting.uid).Nodup) (tail : File) (ht : tail.length < 128) (hne : archive xs ++ tail ≠ [])
    (hlen : (archive xs ++ tail).length < 2 ^ 64) (dir0 dir : Dir) (hnew : ∀ x ∈ xs, dir0 (upperHex x.setting.uid.bytes) = [])
    (log : Option File) (hpause : Paused p (archive xs ++ tail) dir0 dir log) (ct : Rescue.Counters)
    (hct : Rescue.readLog (Rescue.required p (archive xs ++ tail)) log = some ct) :
    ∃ bound, ∀ k s, (Rescue.ring E p (archive xs ++ tail) (Rescue.required p (archive xs ++ tail))).Steps k
        (Rescue.initial E p (archive xs ++ tail) ct) s → k ≤ bound ∧
      ((∀ s', ¬ (Rescue.ring E p (archive xs ++ tail) (Rescue.required p (archive xs ++ tail))).Step s s') →
        ∀ x ∈ xs, ∀ (S : Sort.Env), S.Calm → ∀ (q : Sort.Param), Sort.Whole q → q.ref.refFrom = none → q.ref.refTo = none →
          (q.ref.refChoice = .prefer .metadata ∨ q.ref.refChoice = .mustBe .metadata) →
          (∀ d, x.setting.dpb = some d → q.ref.burst = some d.burst) → ∀ old,
          ∃ dk st o, Sort.sortFile S q (dir.after (s.thread 2).st.events (upperHex x.setting.uid.bytes)) old = .ok (some dk, st, o) ∧
            dk.file = x.file) := by
  obtain ⟨l, h1, h2, h3⟩ := archive_blocks xs hxs
  obtain ⟨bound, h⟩ := Rescue.C32_paused hp hne hlen hpause hE hs he hct
  refine ⟨bound, fun k s hk => ⟨(h k s hk).1, fun hst x hx S hS q hq hrf hrt hch hbu old => ?_⟩⟩
  obtain ⟨-, -, -, g⟩ := (h k s hk).2 hst
  obtain ⟨bs, e, hbs⟩ := g (upperHex x.setting.uid.bytes)
  rw [e, hnew x hx, List.nil_append]
  refine sort_nonblank (hxs x hx) bs (fun b => ?_) S hS q hq hrf hrt hch hbu old
  have hone : (xs.filter fun y => Goes p (upperHex x.setting.uid.bytes) y.setting.uid) = [x] := by
    refine alone hu hx _ (by simp [Goes, hb.2]) ?_
    intro y _ hy
    rw [decide_eq_true_eq] at hy
    exact Rescue.C31_names hy.1
  have hl := h3 p (upperHex x.setting.uid.bytes) hb.1
  rw [hone, List.flatMap_singleton] at hl
  obtain ⟨hbase, hreq⟩ := Rescue.whole_range hp (archive xs ++ tail)
  have hw := walk_pieces (Rescue.required p (archive xs ++ tail)) l h1 tail ht 0 (by
    rw [h2]; rw [List.length_append] at hreq; omega)
  rw [h2] at hw
  rw [hbs, ← hl, ← Rescue.blocks_pieces p (archive xs ++ tail) [] tail _ l hbase h1 (by rw [h2]; rfl), List.mem_map]
  unfold saved
  rw [hbase, List.drop_zero, hw]
  constructor
  · rintro ⟨y, hy, hn, rfl⟩
    exact ⟨y, List.mem_filter.2 ⟨hy, decide_eq_true hn⟩, rfl⟩
  · rintro ⟨y, hy, rfl⟩
    obtain ⟨hy, hn⟩ := List.mem_filter.1 hy
    exact ⟨y, hy, of_decide_eq_true hn, rfl⟩

/-! ### Instances -/

/-- Two containers: version 17 with shards and burst level 3, and version 1 without error correction. -/
theorem two : ∃ x y : Item, (∀ w ∈ [x, y], w.Good) ∧ (([x, y].map fun w => w.setting.uid).Nodup) ∧
    x.setting = demo ∧ y.setting.dpb = none := by
  obtain ⟨hS, dk, rep, ms, -, hk⟩ := demo_start
  obtain ⟨c, hc⟩ := ComposeSpec.small_kept
  refine ⟨⟨demo, ms, dk.file⟩, ⟨ComposeSpec.small, [.fnm "a", .fsz 600], c⟩, ?_, ?_, rfl, rfl⟩
  · intro w hw
    simp only [List.mem_cons, List.not_mem_nil, or_false] at hw
    rcases hw with rfl | rfl
    · exact ⟨hS, hk⟩
    · exact ⟨ComposeSpec.small_ok, hc⟩
  · simp only [List.map_cons, List.map_nil, List.nodup_cons, List.mem_singleton, List.not_mem_nil, not_false_eq_true, List.nodup_nil, and_true]
    intro h
    have := congrArg Uid.bytes h
    revert this
    change ¬ ([1, 2, 3, 4, 5, 6] : List Byte) = [9, 8, 7, 6, 5, 4]
    decide

/-- C84_split, C84_apart, C84_sorted: both containers and 100 more bytes, rescued into an empty directory. -/
example : ∃ x y : Item, ∃ f : File, f = archive [x, y] ++ List.replicate 100 1 ∧ ∃ bound,
    ∀ k s, (Rescue.ring Rescue.smallEnv Rescue.everything f (Rescue.required Rescue.everything f)).Steps k
        (Rescue.initial Rescue.smallEnv Rescue.everything f .zero) s → k ≤ bound ∧
      ((∀ s', ¬ (Rescue.ring Rescue.smallEnv Rescue.everything f (Rescue.required Rescue.everything f)).Step s s') →
        Dir.after (fun _ => []) (s.thread 2).st.events (upperHex y.setting.uid.bytes) = y.file ∧
        ∃ dk st o, Sort.sortFile Sort.calmEnv Sort.burstParam
            (Dir.after (fun _ => []) (s.thread 2).st.events (upperHex x.setting.uid.bytes)) [] = .ok (some dk, st, o) ∧ dk.file = x.file) := by
  obtain ⟨x, y, h1, h2, h3, h4⟩ := two
  have hne : archive [x, y] ++ List.replicate 100 1 ≠ [] := by
    intro h
    have := congrArg List.length h
    simp at this
  refine ⟨x, y, _, rfl, ?_⟩
  obtain ⟨b1, r1⟩ := C84_apart Rescue.small_ok (fun _ => rfl) (fun _ => rfl) Rescue.everything ⟨rfl, rfl⟩ ⟨rfl, rfl⟩ [x, y] h1 h2
    (List.replicate 100 1) (by simp) hne (fun _ => []) (fun _ _ => rfl)
  obtain ⟨b2, r2⟩ := C84_sorted Rescue.small_ok (fun _ => rfl) (fun _ => rfl) Rescue.everything ⟨rfl, rfl⟩ ⟨rfl, rfl⟩ [x, y] h1 h2
    (List.replicate 100 1) (by simp) hne (fun _ => []) (fun _ _ => rfl)
  refine ⟨b1, fun k s hk => ⟨(r1 k s hk).1, fun hst => ⟨?_, ?_⟩⟩⟩
  · exact (((r1 k s hk).2 hst).1 y (by simp)).2 (by rw [h4]; intro d hd; cases hd)
  · refine (r2 k s hk).2 hst x (by simp) Sort.calmEnv Sort.calm Sort.burstParam ⟨rfl, rfl, rfl, rfl⟩ rfl rfl (.inl rfl) ?_ []
    rw [h3]
    intro d hd
    cases hd
    rfl

/-- C84_resumed: a rescue is run to its end, its log is removed, and it is run again. -/
example : ∃ x : Item, ∃ f : File, f = archive [x] ++ [1, 2, 3] ∧ x.Good ∧ ∃ evs, Issued Rescue.smallEnv Rescue.everything f .zero evs ∧ ∃ bound,
    ∀ k s, (Rescue.ring Rescue.smallEnv Rescue.everything f (Rescue.required Rescue.everything f)).Steps k
        (Rescue.initial Rescue.smallEnv Rescue.everything f .zero) s → k ≤ bound ∧
      ((∀ s', ¬ (Rescue.ring Rescue.smallEnv Rescue.everything f (Rescue.required Rescue.everything f)).Step s s') →
        ∃ dk st o, Sort.sortFile Sort.calmEnv Sort.burstParam
            (Dir.after (Dir.after (fun _ => []) evs) (s.thread 2).st.events (upperHex x.setting.uid.bytes)) [] = .ok (some dk, st, o) ∧
          dk.file = x.file) := by
  obtain ⟨c, hc⟩ := ComposeSpec.small_kept
  have hx : ∀ w ∈ [Item.mk ComposeSpec.small [.fnm "a", .fsz 600] c], w.Good := by
    intro w hw
    rw [List.mem_singleton] at hw
    rw [hw]
    exact ⟨ComposeSpec.small_ok, hc⟩
  have hu : ([Item.mk ComposeSpec.small [.fnm "a", .fsz 600] c].map fun w => w.setting.uid).Nodup := by simp
  have hne : archive [Item.mk ComposeSpec.small [.fnm "a", .fsz 600] c] ++ [1, 2, 3] ≠ [] := by simp
  have hlen : (archive [Item.mk ComposeSpec.small [.fnm "a", .fsz 600] c] ++ [1, 2, 3]).length < 2 ^ 64 := by
    have e : archive [Item.mk ComposeSpec.small [.fnm "a", .fsz 600] c] = c := by simp [archive]
    rw [e, List.length_append]
    obtain ⟨mp, hcon, -⟩ := hc.container
    obtain ⟨n, hn⟩ := hcon.aligned
    have hnum : _ ≤ lastSeqNum := ComposeSpec.small_ok.numbers
    have hv : blockLen ComposeSpec.small.version = 512 := rfl
    rw [hv] at hn
    have : n ≤ lastSeqNum + 1 := by
      rcases Nat.eq_zero_or_pos n with h | h
      · omega
      · rcases hcon.tight (n - 1) (by rw [hv, hn, Nat.sub_add_cancel h, Nat.mul_comm]) with h' | ⟨i, hi, h'⟩
        · simp [metaCopies, ComposeSpec.small] at h'
          omega
        · have h'' : 1 + i = n - 1 := by
            simpa [dataWriteIndex, ComposeSpec.small] using h'
          have := Nat.lt_of_lt_of_le hi hnum
          omega
    rw [hn]
    unfold lastSeqNum at this
    simp only [List.length_cons, List.length_nil]
    omega
  refine ⟨Item.mk ComposeSpec.small [.fnm "a", .fsz 600] c, _, rfl, hx _ (by simp), ?_⟩
  obtain ⟨b1, r1⟩ := C84_split Rescue.small_ok (fun _ => rfl) (fun _ => rfl) Rescue.everything ⟨rfl, rfl⟩ rfl _ hx [1, 2, 3] (by decide) hne
    (fun _ => [])
  obtain ⟨n, z, hz, -⟩ := Cli.exists_end _ _ b1 fun k s hk => (r1 k s hk).1
  refine ⟨_, ⟨n, z, hz, rfl⟩, ?_⟩
  obtain ⟨b2, r2⟩ := C84_resumed Rescue.small_ok (fun _ => rfl) (fun _ => rfl) Rescue.everything ⟨rfl, rfl⟩ ⟨rfl, rfl⟩ _ hx hu [1, 2, 3] (by decide)
    hne hlen (fun _ => []) _ (fun _ _ => rfl) none
    (.logRemoved (.stopped (rest := []) .fresh Rescue.small_ok (fun _ => rfl) rfl ⟨n, z, hz, (List.append_nil _).symm⟩ .untouched)) .zero rfl
  refine ⟨b2, fun k s hk => ⟨(r2 k s hk).1, fun hst => ?_⟩⟩
  exact (r2 k s hk).2 hst _ (by simp) Sort.calmEnv Sort.calm Sort.burstParam ⟨rfl, rfl, rfl, rfl⟩ rfl rfl (.inl rfl)
    (by intro d hd; cases hd) []

end Verif.Archive
