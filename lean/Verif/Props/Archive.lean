import Verif.Props.Followed
import Verif.Lemmas.ShowContainer
/-!
# C83: containers one after the other are an archive

`cat a.sbx b.sbx c.sbx > all` makes one file of several containers.  `show --show-all` lists what is in it, and what is listed there is
what is needed to get each file out.
-/

namespace Verif.Archive
open Format ContainerSpec LayoutSpec Layout RepairSpec ScanSpec Scan History Misc Followed

/-- A container: how it was made, what its metadata records now, and its bytes. -/
structure Item where
  setting : Setting
  metas : List Metadata
  file : File

/-- It is the container of its file, in its current state (C65). -/
def Item.Good (x : Item) : Prop := x.setting.Ok ∧ Kept x.setting x.metas x.file

/-- The file that consists of them. -/
def archive (xs : List Item) : File := xs.flatMap Item.file

/-- What is listed for a block: position, version, uid, and the fields recorded. -/
def entry (x : Nat × Block) : Nat × Version × Uid × Option (List Metadata) := (x.1, x.2.header.version, x.2.header.uid, x.2.metas)

/-- The list that belongs to an archive beginning at `off`: for every container the places of its copies of the metadata. -/
def contents : Nat → List Item → List (Nat × Version × Uid × Option (List Metadata))
  | _, [] => []
  | off, x :: xs => (metaCopies (some true) x.setting.dpb).map (fun k =>
      (off + k * blockLen x.setting.version, x.setting.version, x.setting.uid, some x.metas)) ++ contents (off + x.file.length) xs

/-! ### Walking -/

theorem walk_shift (d : Nat) : ∀ (n r off : Nat) (l : List Byte), l.length ≤ n →
    walk (r + d) (off + d) l = (walk r off l).map fun x => (x.1 + d, x.2) := by
  intro n
  induction n with
  | zero =>
    intro r off l hl
    have : l = [] := List.length_eq_zero_iff.1 (by omega)
    subst this
    conv_lhs => rw [walk, dif_pos (.inl (by decide))]
    conv_rhs => rw [walk, dif_pos (.inl (by decide))]
    rfl
  | succ n ih =>
    intro r off l hl
    conv_lhs => rw [walk]
    conv_rhs => rw [walk]
    by_cases h : l.length < 128 ∨ r ≤ off
    · rw [dif_pos (by omega), dif_pos h]
      rfl
    · rw [dif_neg (by omega), dif_neg h]
      have hs : ∀ m, 0 < m → walk (r + d) (off + d + m) (l.drop m) = (walk r (off + m) (l.drop m)).map fun x => (x.1 + d, x.2) := by
        intro m hm
        rw [show off + d + m = off + m + d by omega]
        exact ih r (off + m) (l.drop m) (by rw [List.length_drop]; omega)
      cases Header.fromBytes (l.take 16) with
      | none => exact hs 128 (by omega)
      | some hd =>
        simp only
        split
        · rfl
        · cases ScanSpec.parse (l.take (blockLen hd.version)) with
          | none => exact hs _ (blockLen_pos _)
          | some b =>
            simp only [List.map_cons]
            rw [hs _ (blockLen_pos _)]

/-- What an uninterrupted `show` over the whole file finds. -/
theorem show_walk (f : File) (u : Option Uid) (showAll : Bool) (stop : Nat → Bool) (hstop : ∀ k, stop k = false) :
    showFile f none none false u showAll stop =
      (if showAll then (walk f.length 0 f).filter (fun x => x.2.blockType = .metadata ∧ u.all (· = x.2.header.uid))
        else ((walk f.length 0 f).filter (fun x => x.2.blockType = .metadata ∧ u.all (· = x.2.header.uid))).take 1) := by
  have hw : walk (if f.length = 0 then 1 else f.length) 0 f = walk f.length 0 f := by
    split
    · rename_i h
      conv_lhs => rw [walk, dif_pos (.inl (by omega))]
      conv_rhs => rw [walk, dif_pos (.inl (by omega))]
    · rfl
  unfold showFile
  rw [range_whole]
  simp only
  rw [scanLoop_all _ _ _ hstop, visit_show_eq, List.nil_append, List.drop_zero, hw]
  simp

/-- The blocks of a container, whatever follows it. -/
theorem show_append {x : Item} (hx : x.Good) (z : File) (u : Option Uid) (stop : Nat → Bool) (hstop : ∀ k, stop k = false) :
    showFile (x.file ++ z) none none false u true stop =
      showFile x.file none none false u true stop ++
        (showFile z none none false u true stop).map fun y => (y.1 + x.file.length, y.2) := by
  obtain ⟨hS, hk⟩ := hx
  obtain ⟨mp, hcon, hmp, hms⟩ := hk.container
  have hblock : IsBlock (blockBytes x.setting.version x.setting.uid.bytes 0 mp) x.setting.version x.setting.uid 0 mp :=
    ⟨rfl, metasToBytes_length hms⟩
  obtain ⟨n, hn⟩ := hcon.aligned
  rw [Nat.mul_comm] at hn
  obtain ⟨l, h1, h2, -⟩ := container_pieces hcon hblock (fun p hp => by rw [payload_lengths hS p hp, dataSize_eq]) hS.numbers n hn n (Nat.le_refl _)
  rw [← hn, List.take_length] at h2
  rw [show_walk _ u true stop hstop, show_walk _ u true stop hstop, show_walk _ u true stop hstop]
  simp only [if_true]
  have e1 := walk_pieces_append (x.file ++ z).length l h1 z 0 (by rw [h2, List.length_append]; omega)
  have e2 := walk_pieces x.file.length l h1 [] (by simp) 0 (by rw [h2]; omega)
  rw [h2, Nat.zero_add] at e1
  rw [h2, List.append_nil] at e2
  have e3 := walk_shift x.file.length z.length z.length 0 z (Nat.le_refl _)
  rw [Nat.zero_add] at e3
  rw [e1, e2, List.length_append, Nat.add_comm x.file.length, e3, List.filter_append, List.filter_map]
  rfl

/-- What is listed for a container alone. -/
theorem show_alone {x : Item} (hx : x.Good) (stop : Nat → Bool) (hstop : ∀ k, stop k = false) :
    (showFile x.file none none false none true stop).map entry = (metaCopies (some true) x.setting.dpb).map fun k =>
      (k * blockLen x.setting.version, x.setting.version, x.setting.uid, some x.metas) := by
  obtain ⟨hS, hk⟩ := hx
  obtain ⟨mp, hcon, hmp, hms⟩ := hk.container
  have hblock : IsBlock (blockBytes x.setting.version x.setting.uid.bytes 0 mp) x.setting.version x.setting.uid 0 mp :=
    ⟨rfl, metasToBytes_length hms⟩
  rw [show_container hcon hblock (fun p hp => by rw [payload_lengths hS p hp, dataSize_eq]) hS.numbers none (.inl rfl) true stop hstop,
    if_pos rfl, List.map_map]
  refine List.map_congr_left fun k _ => ?_
  show (_, _, _, (blockOf x.setting.version x.setting.uid 0 mp).metas) = _
  rw [Decode.metas_blockOf, hmp]
  rfl

theorem contents_shift (d : Nat) : ∀ (xs : List Item) (off : Nat),
    (contents off xs).map (fun y => (y.1 + d, y.2)) = contents (off + d) xs
  | [], _ => rfl
  | x :: xs, off => by
    unfold contents
    rw [List.map_append, List.map_map, contents_shift d xs, show off + x.file.length + d = off + d + x.file.length by omega]
    congr 1
    refine List.map_congr_left fun k _ => ?_
    show (off + _ + d, _) = (off + d + _, _)
    rw [Nat.add_right_comm]

/-- **C83.** `show --show-all` on an archive lists the copies of the metadata of each of the containers, with their positions, in the order
of the file. -/
theorem C83_show_all (xs : List Item) (hxs : ∀ x ∈ xs, x.Good) (tail : File) (ht : tail.length < 128) (stop : Nat → Bool)
    (hstop : ∀ k, stop k = false) :
    (showFile (archive xs ++ tail) none none false none true stop).map entry = contents 0 xs := by
  induction xs with
  | nil =>
    unfold archive contents
    rw [show_walk _ _ _ _ hstop, if_pos rfl, walk, dif_pos (.inl (by simpa using ht))]
    rfl
  | cons x xs ih =>
    have ih := ih fun y hy => hxs y (List.mem_cons_of_mem _ hy)
    have hx := hxs x List.mem_cons_self
    unfold archive at ih ⊢
    rw [List.flatMap_cons, List.append_assoc, show_append hx _ none stop hstop, List.map_append, show_alone hx stop hstop, List.map_map]
    unfold contents
    have e : (showFile (xs.flatMap Item.file ++ tail) none none false none true stop).map (entry ∘ fun y => (y.1 + x.file.length, y.2)) =
        contents (0 + x.file.length) xs := by
      rw [← contents_shift, ← ih, List.map_map]
      rfl
    rw [e]
    congr 1
    refine List.map_congr_left fun k _ => ?_
    rw [Nat.zero_add]

/-- **C83.** With a uid only what belongs to it is listed, and without `--show-all` the first entry of the list; in every file. -/
theorem C83_show_uid (f : File) (u : Uid) (stop : Nat → Bool) (hstop : ∀ k, stop k = false) :
    showFile f none none false (some u) true stop =
      (showFile f none none false none true stop).filter (fun x => x.2.header.uid = u) := by
  rw [show_walk _ _ _ _ hstop, show_walk _ _ _ _ hstop, if_pos rfl, if_pos rfl, List.filter_filter]
  refine List.filter_congr fun x _ => ?_
  simp [eq_comm, and_comm]

theorem C83_show_first (f : File) (u : Option Uid) (stop : Nat → Bool) (hstop : ∀ k, stop k = false) :
    showFile f none none false u false stop = (showFile f none none false u true stop).take 1 := by
  rw [show_walk _ _ _ _ hstop, show_walk _ _ _ _ hstop, if_pos rfl]
  rfl

/-! ### Getting a file out -/

theorem foreign_append {v : Version} {uid : Uid} {a b : File} (hal : blockLen v ∣ a.length) (ha : Foreign v uid a) (hb : Foreign v uid b) :
    Foreign v uid (a ++ b) := fun k ⟨s, p, h⟩ => ha k ⟨s, p, (block_append hal hb k s p).1 h⟩

theorem item_aligned {x : Item} (hx : x.Good) : blockLen x.setting.version ∣ x.file.length := by
  obtain ⟨mp, hcon, -, -⟩ := hx.2.container
  exact hcon.aligned

theorem rest_foreign (S : Setting) : ∀ (xs : List Item), (∀ y ∈ xs, y.Good ∧ y.setting.version = S.version ∧ y.setting.uid ≠ S.uid) →
    Foreign S.version S.uid (archive xs) ∧ blockLen S.version ∣ (archive xs).length
  | [], _ => ⟨fun k ⟨_, _, h⟩ => by simp [archive, piece, File.readAt] at h; exact Repair.nil_not_block h, by simp [archive]⟩
  | x :: xs, h => by
    obtain ⟨i1, i2⟩ := rest_foreign S xs fun y hy => h y (List.mem_cons_of_mem _ hy)
    obtain ⟨hx, hv, hu⟩ := h x List.mem_cons_self
    have hal := item_aligned hx
    rw [hv] at hal
    unfold archive at i1 i2 ⊢
    rw [List.flatMap_cons]
    refine ⟨foreign_append hal (C80_container S x.setting hx.1 x.metas x.file hx.2 (by rw [hv]) (.inr hu)).1 i1, ?_⟩
    rw [List.length_append]
    exact Nat.dvd_add hal i2

theorem contents_append : ∀ (as bs : List Item) (off : Nat), contents off (as ++ bs) = contents off as ++ contents (off + (archive as).length) bs
  | [], bs, off => by simp [contents, archive]
  | a :: as, bs, off => by
    rw [List.cons_append]
    simp only [contents]
    rw [contents_append as bs]
    unfold archive
    rw [List.flatMap_cons, List.length_append, List.append_assoc, Nat.add_assoc]

/-- **C83.** In an archive of containers of the same version with different uids each container is listed with the position where it begins,
and `decode` with this position (`--from`, `--ref-from`, `--force-misalign`) gives its file and its hash. -/
theorem C83_extract (as bs : List Item) (x : Item) (hxs : ∀ y ∈ as ++ x :: bs, y.Good) (hv : ∀ y ∈ bs, y.setting.version = x.setting.version)
    (hu : ∀ y ∈ bs, y.setting.uid ≠ x.setting.uid) (stop : Nat → Bool) (hstop : ∀ k, stop k = false) :
    ∃ pos, (pos, x.setting.version, x.setting.uid, some x.metas) ∈
        (showFile (archive (as ++ x :: bs)) none none false (some x.setting.uid) true stop).map entry ∧
      ∀ (D : Decode.Env) (_ : D.Calm) (p : Decode.Param) (_ : p.multiPass = none) (_ : p.ref.fromPos = some pos) (_ : p.ref.toPos = none)
        (_ : p.ref.refFrom = some pos) (_ : p.ref.refTo = none) (_ : p.ref.forceMisalign = true) (_ : p.ref.guessBurstFrom = none)
        (_ : p.ref.refChoice = .any ∨ p.ref.refChoice = .prefer .metadata ∨ p.ref.refChoice = .mustBe .metadata)
        (_ : Decode.BurstKnown p.ref.burst x.setting.dpb x.setting.blocks) (_ : p.ref.burst ≠ none ∨ x.setting.dpb = none) (old : File),
        ∃ R, Decode.toFile D p (archive (as ++ x :: bs)) old = .ok (x.setting.bytes, R) ∧ R.recorded = firstHsh x.metas ∧
          (∀ h, firstHsh x.metas = some h → h.ty.supported = true → R.computed = some (D.hash.bytes h.ty x.setting.bytes)) := by
  have hx := hxs x (by simp)
  obtain ⟨hz, hzl⟩ := rest_foreign x.setting bs fun y hy => ⟨hxs y (by simp [hy]), hv y hy, hu y hy⟩
  refine ⟨(archive as).length, ?_, ?_⟩
  · have hall := C83_show_all (as ++ x :: bs) hxs [] (by decide) stop hstop
    rw [List.append_nil] at hall
    have hmem : ((archive as).length, x.setting.version, x.setting.uid, some x.metas) ∈ contents 0 (as ++ x :: bs) := by
      rw [contents_append, Nat.zero_add]
      refine List.mem_append_right _ (List.mem_append_left _ (List.mem_map.2 ⟨0, ?_, by simp⟩))
      cases x.setting.dpb with
      | none => simp [metaCopies]
      | some d => simp [metaCopies]
    rw [← hall] at hmem
    obtain ⟨b, hb, he⟩ := List.mem_map.1 hmem
    rw [C83_show_uid _ _ _ hstop]
    refine List.mem_map.2 ⟨b, List.mem_filter.2 ⟨hb, ?_⟩, he⟩
    simp only [entry, Prod.mk.injEq] at he
    simp [he.2.2.1]
  · intro D hD p h1 h2 h3 h4 h5 h6 h7 h8 h9 h10 old
    have e : archive (as ++ x :: bs) = archive as ++ (x.file ++ archive bs) := by
      unfold archive
      rw [List.flatMap_append, List.flatMap_cons]
    rw [e]
    exact C80_embedded x.setting hx.1 x.metas (archive as) x.file (archive bs) hx.2 hz hzl D hD p h1 h2 h3 h4 h5 h6 h7 h8 h9
      (h10.imp_right .inr) old

/-! ### Instances -/

/-- C83_show_all, C83_show_uid, C83_extract: the container of a file between two others, listed and taken out. -/
example : ∃ x y : Item, x.Good ∧ y.Good ∧
    ((showFile (archive [y, x, y]) none none false none true (fun _ => false)).map entry).length = 9 ∧
    ∃ pos R, (pos, x.setting.version, x.setting.uid, some x.metas) ∈
        (showFile (archive [y, x, y]) none none false (some x.setting.uid) true (fun _ => false)).map entry ∧
      Decode.toFile Decode.calmEnv ⟨⟨.any, some pos, none, none, some pos, none, true, some 3⟩, none⟩ (archive [y, x, y]) [] =
        .ok (x.setting.bytes, R) := by
  obtain ⟨hS, dk, rep, ms, -, hk⟩ := demo_start
  obtain ⟨hT, ms', c', hk'⟩ := other_start
  have hx : (Item.mk demo ms dk.file).Good := ⟨hS, hk⟩
  have hy : (Item.mk other ms' c').Good := ⟨hT, hk'⟩
  have hall : ∀ z ∈ [Item.mk other ms' c'] ++ Item.mk demo ms dk.file :: [Item.mk other ms' c'], z.Good := by
    intro z hz
    simp only [List.cons_append, List.nil_append, List.mem_cons, List.not_mem_nil, or_false] at hz
    rcases hz with rfl | rfl | rfl
    · exact hy
    · exact hx
    · exact hy
  refine ⟨_, _, hx, hy, ?_, ?_⟩
  · have := C83_show_all _ hall [] (by decide) (fun _ => false) (fun _ => rfl)
    rw [List.append_nil] at this
    refine (congrArg List.length this).trans ?_
    simp only [contents, List.cons_append, List.nil_append, List.length_append, List.length_map, List.length_nil]
    rfl
  · obtain ⟨pos, h1, h2⟩ := C83_extract [Item.mk other ms' c'] [Item.mk other ms' c'] (Item.mk demo ms dk.file) hall
      (by
        intro z hz
        rw [List.mem_singleton] at hz
        subst hz
        rfl) (by
        intro z hz
        rw [List.mem_singleton] at hz
        subst hz
        intro h
        have := congrArg Uid.bytes h
        revert this
        change ¬ ([9, 8, 7, 6, 5, 4] : List Byte) = [1, 2, 3, 4, 5, 6]
        decide) (fun _ => false) (fun _ => rfl)
    obtain ⟨R, h3, -⟩ := h2 Decode.calmEnv Decode.calm ⟨⟨.any, some pos, none, none, some pos, none, true, some 3⟩, none⟩ rfl rfl rfl rfl rfl
      rfl rfl (.inl rfl) demo_burst (.inl (by simp)) []
    exact ⟨pos, R, h1, h3⟩

/-- C83_show_first: of the three copies in a container the first one is shown. -/
example : ∃ x : Item, x.Good ∧ (showFile (archive [x]) none none false none false (fun _ => false)).length = 1 := by
  obtain ⟨hS, dk, rep, ms, -, hk⟩ := demo_start
  have hx : (Item.mk demo ms dk.file).Good := ⟨hS, hk⟩
  refine ⟨_, hx, ?_⟩
  have := C83_show_all [Item.mk demo ms dk.file] (by simpa using hx) [] (by decide) (fun _ => false) (fun _ => rfl)
  rw [List.append_nil] at this
  have hl := congrArg List.length this
  simp only [contents, List.length_append, List.length_map, List.length_nil] at hl
  rw [C83_show_first _ none _ (fun _ => rfl), List.length_take, hl]
  rfl

end Verif.Archive
