import Verif.Lemmas.RepairFile
/-!
# Repair of a damaged container
-/

namespace Verif.Repair
open Format RepairSpec Scan Layout LayoutSpec ContainerSpec FileUtils
open Classical

theorem flatMap_block {α β : Type} (n : Nat) (hn : 0 < n) (g : α → List β) : ∀ (l : List α), (∀ x ∈ l, (g x).length = n) →
    ∀ (t : Nat), t * n < (l.flatMap g).length → ∃ x ∈ l, ∀ j < n, (l.flatMap g)[t * n + j]? = (g x)[j]? := by
  intro l
  induction l with
  | nil => intro _ t ht; simp at ht
  | cons a l ih =>
    intro hl t ht
    have ha := hl a (by simp)
    cases t with
    | zero =>
      refine ⟨a, by simp, ?_⟩
      intro j hj
      rw [List.flatMap_cons, Nat.zero_mul, Nat.zero_add, List.getElem?_append_left (by omega)]
    | succ t =>
      rw [List.flatMap_cons, List.length_append, Nat.succ_mul] at ht
      obtain ⟨x, hx, hj⟩ := ih (fun x hx => hl x (by simp [hx])) t (by omega)
      refine ⟨x, by simp [hx], ?_⟩
      intro j hjn
      rw [List.flatMap_cons, List.getElem?_append_right (by rw [ha, Nat.succ_mul]; omega), ← hj j hjn, ha]
      congr 1
      rw [Nat.succ_mul]; omega

/-- Every set of the container is a code word. -/
theorem payloads_set {rs : RsCodec} (laws : rs.Laws) {v : Version} {d : Dpb} (h1 : 1 ≤ d.data) (h2 : 1 ≤ d.parity)
    (h3 : d.data + d.parity ≤ 256) (bytes : List Byte) (t : Nat)
    (ht : t * (d.data + d.parity) < (payloads rs v (some d) (fileChunks v bytes)).length) :
    ∃ ds : List (List Byte), ds.length = d.data ∧ (∀ x ∈ ds, x.length = blockLen v - 16) ∧
      ∀ j < d.data + d.parity, (payloads rs v (some d) (fileChunks v bytes))[t * (d.data + d.parity) + j]? =
        (ds ++ rs.encode d.data d.parity ds)[j]? := by
  have key : ∀ g ∈ chunksOf d.data (fileChunks v bytes), (dataShards (blockLen v - 16) d.data g).length = d.data ∧
      (∀ x ∈ dataShards (blockLen v - 16) d.data g, x.length = blockLen v - 16) := by
    intro g hg
    obtain ⟨_, e2, e3⟩ := mem_chunksOf _ g hg
    refine ⟨dataShards_length e2, mem_dataShards fun c hcg => ?_⟩
    exact (mem_chunksOf _ c (e3 c hcg)).2.1
  obtain ⟨g, hg, hj⟩ := flatMap_block (d.data + d.parity) (by omega) (fun cs => dataShards (blockLen v - 16) d.data cs ++
    rs.encode d.data d.parity (dataShards (blockLen v - 16) d.data cs)) (chunksOf d.data (fileChunks v bytes)) (by
      intro x hx
      obtain ⟨k1, k2⟩ := key x hx
      rw [List.length_append, k1, (laws.encode_length _ _ _ _ h1 h2 h3 k1 k2).1]) t ht
  obtain ⟨k1, k2⟩ := key g hg
  exact ⟨_, k1, k2, hj⟩

/-- Half-way between the damaged container `f` and the container `c`. -/
structure Near (v : Version) (c f g : File) : Prop where
  short : g.length ≤ c.length
  pieces : ∀ k, piece v g k = piece v c k ∨ piece v g k = piece v f k ∨ piece v g k = zpad v (piece v f k)

/-- A write of a block of the container to its place. -/
def RightOp (v : Version) (c : File) (w : Nat × List Byte) : Prop :=
  ∃ k, w = (k * blockLen v, piece v c k) ∧ (k + 1) * blockLen v ≤ c.length

/-- A write of a block of `c` to its place, within the first `e` bytes. -/
def OpIn (v : Version) (c : File) (e : Nat) (w : Nat × List Byte) : Prop :=
  ∃ k, w = (k * blockLen v, piece v c k) ∧ (k + 1) * blockLen v ≤ e

theorem OpIn.right {v : Version} {c : File} {e : Nat} (he : e ≤ c.length) {w : Nat × List Byte} (h : OpIn v c e w) : RightOp v c w := by
  obtain ⟨k, h1, h2⟩ := h
  exact ⟨k, h1, h2.trans he⟩

theorem piece_full {v : Version} {c : File} {k : Nat} (h : (k + 1) * blockLen v ≤ c.length) : (piece v c k).length = blockLen v := by
  unfold piece
  rw [File.readAt_length]
  rw [Nat.succ_mul] at h
  omega

theorem zpad_zpad (v : Version) (f : File) (k : Nat) : zpad v (zpad v (piece v f k)) = zpad v (piece v f k) := by
  apply zpad_full
  unfold zpad
  have := piece_length_le v f k
  simp; omega

theorem place_or_end {v : Version} {c : File} (hc : blockLen v ∣ c.length) (k : Nat) :
    (k + 1) * blockLen v ≤ c.length ∨ c.length ≤ k * blockLen v := by
  obtain ⟨n, hn⟩ := hc
  rw [hn, Nat.mul_comm _ n]
  rcases Nat.lt_or_ge k n with h | h
  · exact .inl (Nat.mul_le_mul_right _ h)
  · exact .inr (Nat.mul_le_mul_right _ h)

theorem Near.write {v : Version} {c f g : File} (hc : blockLen v ∣ c.length) (h : Near v c f g) {w : Nat × List Byte} (hw : RightOp v c w) :
    Near v c f (g.writeAt w.1 w.2) ∧ (∀ j, piece v g j = piece v c j → piece v (g.writeAt w.1 w.2) j = piece v c j) ∧
    ∀ j, w.1 = j * blockLen v → piece v (g.writeAt w.1 w.2) j = piece v c j := by
  obtain ⟨k, rfl, hk⟩ := hw
  have hf := piece_full hk
  have hu := blockLen_pos v
  simp only
  have hshort : (g.writeAt (k * blockLen v) (piece v c k)).length ≤ c.length := by
    rw [File.writeAt_length _ _ _ (by intro e; rw [e] at hf; simp at hf; omega), hf]
    have := h.short
    rw [Nat.succ_mul] at hk
    omega
  have hw : piece v (g.writeAt (k * blockLen v) (piece v c k)) k = piece v c k := piece_written hf
  refine ⟨⟨hshort, ?_⟩, ?_, ?_⟩
  · intro j
    by_cases hj : j = k
    · subst hj
      exact .inl hw
    · rcases place_or_end hc j with hin | hout
      · rcases piece_writeAt (v := v) (g := g) hj hf with e | e
        · simp only [e]; exact h.pieces j
        · simp only [e]
          rcases h.pieces j with e' | e' | e'
          · rw [e', zpad_full (piece_full hin)]; exact .inl rfl
          · rw [e']; exact .inr (.inr rfl)
          · rw [e', zpad_zpad]; exact .inr (.inr rfl)
      · exact .inl (by rw [piece_beyond hout, piece_beyond (by omega)])
  · intro j hj
    by_cases hjk : j = k
    · subst hjk; exact hw
    · rcases place_or_end hc j with hin | hout
      · rcases piece_writeAt (v := v) (g := g) hjk hf with e | e
        · rw [e, hj]
        · rw [e, hj, zpad_full (piece_full hin)]
      · rw [piece_beyond hout, piece_beyond (by omega)]
  · intro j hj
    have := Nat.eq_of_mul_eq_mul_right hu hj
    subst this
    exact hw

theorem Near.writes {v : Version} {c f : File} (hc : blockLen v ∣ c.length) : ∀ (ws : List (Nat × List Byte)) (g : File), Near v c f g →
    (∀ w ∈ ws, RightOp v c w) →
    Near v c f (g.writes ws) ∧ (∀ j, piece v g j = piece v c j → piece v (g.writes ws) j = piece v c j) ∧
    ∀ w ∈ ws, ∀ j, w.1 = j * blockLen v → piece v (g.writes ws) j = piece v c j := by
  intro ws
  induction ws with
  | nil => intro g h _; exact ⟨h, fun j hj => hj, by simp⟩
  | cons w ws ih =>
    intro g h hw
    obtain ⟨h1, h2, h3⟩ := h.write hc (hw w (by simp))
    obtain ⟨i1, i2, i3⟩ := ih _ h1 (fun x hx => hw x (by simp [hx]))
    refine ⟨i1, fun j hj => i2 j (h2 j hj), ?_⟩
    intro x hx j hj
    rcases List.mem_cons.1 hx with rfl | hx
    · exact i2 j (h3 j hj)
    · exact i3 x hx j hj

/-- Reading a place half-way: what can be taken for a block of the container there is the container's, or was there before. -/
theorem Near.block {v : Version} {uid : Uid} {c f g : File} (h : Near v c f g) {k : Nat} {seq : UInt32} {p : List Byte}
    (hb : IsBlock (piece v g k) v uid seq p) : piece v g k = piece v c k ∨ IsBlock (piece v (fill v f) k) v uid seq p := by
  rcases h.pieces k with e | e | e
  · exact .inl e
  · right; rw [e] at hb; exact isBlock_of_fill hb
  · right; rw [e, isBlock_fill] at hb; exact hb

theorem Near.kept {v : Version} {c f g : File} (h : Near v c f g) {k : Nat} (hin : (k + 1) * blockLen v ≤ c.length)
    (hf : piece v f k = piece v c k) : piece v g k = piece v c k := by
  rcases h.pieces k with e | e | e
  · exact e
  · rw [e, hf]
  · rw [e, hf, zpad_full (piece_full hin)]

theorem Near.refl {v : Version} {c f : File} (h : f.length ≤ c.length) : Near v c f f := ⟨h, fun _ => .inr (.inl rfl)⟩

section Whole
variable {rs : RsCodec} {v : Version} {uid : Uid} {d : Dpb} {ps : List (List Byte)} {mp : List Byte} {c f : File}

/-- Places of blocks lie within the container. -/
theorem image_data (hc : Image v uid.bytes (some true) (some d) ps (blockBytes v uid.bytes 0 mp) c)
    (hps : ∀ p ∈ ps, p.length = blockLen v - 16) {s : Nat} (h1 : 1 ≤ s) (h2 : s ≤ ps.length) :
    ∃ p, ps[s - 1]? = some p ∧ IsBlock (piece v c (placeOf d s)) v uid (UInt32.ofNat s) p ∧ (placeOf d s + 1) * blockLen v ≤ c.length := by
  obtain ⟨p, hp⟩ : ∃ p, ps[s - 1]? = some p := ⟨_, List.getElem?_eq_getElem (by omega)⟩
  have hd := hc.data (s - 1) p hp
  rw [show s - 1 + 1 = s by omega] at hd
  have hl := hps p (List.mem_of_getElem? hp)
  have hlen := congrArg List.length hd
  rw [blockBytes_length, File.readAt_length, hl] at hlen
  refine ⟨p, hp, ⟨hd, hl⟩, ?_⟩
  have := h16 v
  rw [Nat.succ_mul]
  unfold placeOf
  have : dataWriteIndex s none (some d) = dataWriteIndex s (some true) (some d) := rfl
  rw [this]
  omega

theorem image_meta (hc : Image v uid.bytes (some true) (some d) ps (blockBytes v uid.bytes 0 mp) c)
    (hmp : mp.length = blockLen v - 16) {k : Nat} (hk : k ∈ metaCopies (some true) (some d)) :
    piece v c k = blockBytes v uid.bytes 0 mp ∧ (k + 1) * blockLen v ≤ c.length := by
  have hd := hc.metas k hk
  have hlen := congrArg List.length hd
  rw [blockBytes_length, File.readAt_length, hmp] at hlen
  have := h16 v
  rw [Nat.succ_mul]
  exact ⟨hd, by omega⟩

/-- The blocks of a container in a file that may contain more: they all lie within its first `e` bytes. -/
structure Filed (v : Version) (uid : Uid) (d : Dpb) (ps : List (List Byte)) (e : Nat) (c : File) : Prop where
  aligned : blockLen v ∣ c.length
  inside : e ≤ c.length
  data : ∀ s, 1 ≤ s → s ≤ ps.length → ∃ p, ps[s - 1]? = some p ∧ IsBlock (piece v c (placeOf d s)) v uid (UInt32.ofNat s) p ∧
    (placeOf d s + 1) * blockLen v ≤ e

theorem image_filed (hc : Image v uid.bytes (some true) (some d) ps (blockBytes v uid.bytes 0 mp) c)
    (hps : ∀ p ∈ ps, p.length = blockLen v - 16) : Filed v uid d ps c.length c :=
  ⟨hc.aligned, Nat.le_refl _, fun _ h1 h2 => image_data hc hps h1 h2⟩

/-- The metadata loop on a damaged container. -/
theorem meta_filed {e : Nat} (hc : Filed v uid d ps e c)
    (hmetas : ∀ k ∈ metaCopies (some true) (some d), piece v c k = blockBytes v uid.bytes 0 mp ∧ (k + 1) * blockLen v ≤ e) (hdam : Damaged v uid d ps.length c f) :
    ∀ (ks : List Nat) (dk : Disk) (st : Stats), (∀ k ∈ ks, k ∈ metaCopies (some true) (some d)) → Near v c f dk.file →
      let r := ks.foldl (metaOne v uid (blockBytes v uid.bytes 0 mp) false) (dk, st)
      Near v c f r.1.file ∧ r.2.blocks = st.blocks + ks.length ∧ r.2.repairFailed = st.repairFailed ∧
      (∀ j, piece v dk.file j = piece v c j → piece v r.1.file j = piece v c j) ∧
      (∀ k ∈ ks, piece v r.1.file k = piece v c k) ∧ ((∀ w ∈ dk.ops, OpIn v c e w) → ∀ w ∈ r.1.ops, OpIn v c e w) := by
  intro ks
  induction ks with
  | nil => intro dk st _ h; exact ⟨h, rfl, rfl, fun j hj => hj, by simp, fun h => h⟩
  | cons k ks ih =>
    intro dk st hks h
    simp only [List.foldl_cons]
    obtain ⟨hpc, hin0⟩ := hmetas k (hks k (by simp))
    have hin := hin0.trans hc.inside
    unfold metaOne
    by_cases hv : ValidAt v uid dk.file k
    · rw [if_pos hv]
      have hk : piece v dk.file k = piece v c k := by
        obtain ⟨sq, p, hb⟩ := hv
        rcases h.block hb with e | e
        · exact e
        · rcases hdam.metas k (hks k (by simp)) with e' | e'
          · exact h.kept hin e'
          · exact absurd ⟨sq, p, e⟩ e'
      obtain ⟨i1, i2, i3, i4, i5, i6⟩ := ih dk { st with metaDecoded := st.metaDecoded + 1 } (fun x hx => hks x (by simp [hx])) h
      refine ⟨i1, ?_, i3, i4, ?_, i6⟩
      · refine i2.trans ?_
        simp only [Stats.blocks, List.length_cons]
        omega
      · intro x hx
        rcases List.mem_cons.1 hx with rfl | hx
        · exact i4 _ hk
        · exact i5 x hx
    · rw [if_neg hv]
      simp only [Bool.false_eq_true, if_false]
      have hro : ∀ w ∈ [(k * blockLen v, blockBytes v uid.bytes 0 mp)], OpIn v c e w := by
        intro w hw
        rw [List.mem_singleton] at hw
        exact ⟨k, by rw [hw, hpc], hin0⟩
      obtain ⟨w1, w2, w3⟩ := Near.writes hc.aligned [(k * blockLen v, blockBytes v uid.bytes 0 mp)] _ h (fun w hw => (hro w hw).right hc.inside)
      rw [← Disk.file_writes] at w1 w2 w3
      obtain ⟨i1, i2, i3, i4, i5, i6⟩ := ih (dk.writes [(k * blockLen v, blockBytes v uid.bytes 0 mp)])
        { st with failed := st.failed + 1, metaRepaired := st.metaRepaired + 1 } (fun x hx => hks x (by simp [hx])) w1
      refine ⟨i1, ?_, i3, fun j hj => i4 j (w2 j hj), ?_, fun h0 => i6 fun w hw => ?_⟩
      · refine i2.trans ?_
        simp only [Stats.blocks, List.length_cons]
        omega
      · intro x hx
        rcases List.mem_cons.1 hx with rfl | hx
        · exact i4 _ (w3 _ (List.mem_singleton_self _) _ rfl)
        · exact i5 x hx
      · rcases List.mem_append.1 hw with hw | hw
        · exact h0 w hw
        · exact hro w hw

/-- The data loop on a damaged container, set by set: those that have kept enough blocks are completed. -/
theorem sets_filed {e : Nat} (h1 : 1 ≤ d.data) (hc : Filed v uid d ps e c)
    (hsets : ∀ t, t * (d.data + d.parity) < ps.length → (t + 1) * (d.data + d.parity) ≤ ps.length →
      ∃ ds : List (List Byte), ds.length = d.data ∧ (∀ x ∈ ds, x.length = blockLen v - 16) ∧
        ∀ j < d.data + d.parity, ps[t * (d.data + d.parity) + j]? = (ds ++ rs.encode d.data d.parity ds)[j]?)
    (hdam : Damaged v uid d ps.length c f)
    {dk0 dk : Disk} {st0 st : Stats}
    (hnear : Near v c f dk0.file) {m : Nat} (h : Run rs v uid d false dk0 st0 m dk st) (hm : m ≤ ps.length) :
    Near v c f dk.file ∧ ((∀ t < m / (d.data + d.parity), d.data ≤ unchangedIn v d c f t) → st.repairFailed = st0.repairFailed) ∧ (∀ j, piece v dk0.file j = piece v c j → piece v dk.file j = piece v c j) ∧
      (∀ t < m / (d.data + d.parity), d.data ≤ unchangedIn v d c f t → ∀ j < d.data + d.parity,
        piece v dk.file (placeOf d (t * (d.data + d.parity) + j + 1)) = piece v c (placeOf d (t * (d.data + d.parity) + j + 1))) ∧
      ((∀ w ∈ dk0.ops, OpIn v c e w) → ∀ w ∈ dk.ops, OpIn v c e w) := by
  have hn : 0 < d.data + d.parity := by omega
  have hrf : ∀ (s : Stats) b, (s.read b).repairFailed = s.repairFailed := by intro s b; cases b <;> rfl
  induction h with
  | start => exact ⟨hnear, fun _ => rfl, fun j hj => hj, by intro t ht; simp at ht, fun h => h⟩
  | read m dk st hr hmod ih =>
    obtain ⟨i1, i2, i3, i4, i5⟩ := ih (by omega)
    have hdiv : (m + 1) / (d.data + d.parity) = m / (d.data + d.parity) := by
      have e := Nat.div_add_mod (m + 1) (d.data + d.parity)
      have hlt := Nat.mod_lt (m + 1) hn
      have : m = (m + 1) / (d.data + d.parity) * (d.data + d.parity) + ((m + 1) % (d.data + d.parity) - 1) := by
        rw [Nat.mul_comm] at e; omega
      conv_rhs => rw [this]
      exact (divmod_eq (by omega)).1.symm
    rw [hdiv]
    exact ⟨i1, fun hall => by rw [hrf, i2 hall], i3, i4, i5⟩
  | set t m dk st ok ws hr hmt hset ih =>
    obtain ⟨i1, i2, i3, i4, i5⟩ := ih (by omega)
    have hmt' : m / (d.data + d.parity) = t := by
      have : m = t * (d.data + d.parity) + (d.data + d.parity - 1) := by rw [Nat.succ_mul] at hmt; omega
      rw [this]
      exact (divmod_eq (by omega)).1
    have hmt'' : (m + 1) / (d.data + d.parity) = t + 1 := by rw [hmt, Nat.mul_div_cancel _ hn]
    rw [hmt'] at i2 i4
    rw [hmt'']
    have hbound : (t + 1) * (d.data + d.parity) ≤ ps.length := by omega
    have hsm : (t + 1) * (d.data + d.parity) = t * (d.data + d.parity) + (d.data + d.parity) := Nat.succ_mul _ _
    have hset' : ∀ j < d.data + d.parity, ∃ p, ps[t * (d.data + d.parity) + j]? = some p ∧
        IsBlock (piece v c (placeOf d (t * (d.data + d.parity) + j + 1))) v uid (UInt32.ofNat (t * (d.data + d.parity) + j + 1)) p ∧
        (placeOf d (t * (d.data + d.parity) + j + 1) + 1) * blockLen v ≤ e := by
      intro j hj
      exact hc.data (s := t * (d.data + d.parity) + j + 1) (by omega) (by omega)
    have hpres : ∀ j < d.data + d.parity, Present v uid d dk.file (t * (d.data + d.parity) + j + 1) →
        piece v dk.file (placeOf d (t * (d.data + d.parity) + j + 1)) = piece v c (placeOf d (t * (d.data + d.parity) + j + 1)) := by
      rintro j hj ⟨p, hb⟩
      obtain ⟨-, -, -, hin⟩ := hset' j hj
      rcases i1.block hb with e | e
      · exact e
      · rcases hdam.blocks (t * (d.data + d.parity) + j + 1) (by omega) (by omega) with e' | e'
        · exact i1.kept (hin.trans hc.inside) e'
        · exact absurd ⟨p, e⟩ e'
    have henough : d.data ≤ unchangedIn v d c f t → d.data ≤ presentIn v uid d dk.file t := by
      intro hrec
      refine hrec.trans ?_
      unfold unchangedIn presentIn
      apply List.countP_mono_left
      intro j hj hp
      rw [List.mem_range] at hj
      simp only [decide_eq_true_eq] at hp ⊢
      obtain ⟨p, -, hb, hin⟩ := hset' j hj
      exact ⟨p, by rw [i1.kept (hin.trans hc.inside) hp]; exact hb⟩
    obtain ⟨s1, s2, s3⟩ := hset
    cases ok with
    | false =>
      have hno : ¬ d.data ≤ unchangedIn v d c f t := fun hrec => by simpa using s1.2 (henough hrec)
      obtain rfl := s2 rfl
      simp only [Bool.false_eq_true, if_false]
      rw [Disk.file_writes]
      refine ⟨i1, fun hall => absurd (hall t (by omega)) hno, i3, ?_, fun h0 w hw => ?_⟩
      · intro t' ht' hr'
        rcases Nat.lt_succ_iff_lt_or_eq.1 ht' with hlt | rfl
        · exact i4 t' hlt hr'
        · exact absurd hr' hno
      · rcases List.mem_append.1 hw with hw | hw
        · exact i5 h0 w hw
        · simp at hw
    | true =>
    obtain ⟨out, ho, hol, hfit, rfl⟩ := s3 rfl
    obtain ⟨ds, d1, d2, d3⟩ := hsets t (by omega) hbound
    have hout := hfit ds d1 d2 (by
      intro j payload hb hj
      obtain ⟨p, hp, hbc, hin⟩ := hset' j hj
      rw [hpres j hj ⟨payload, hb⟩] at hb
      rw [← d3 j hj, hp]
      have e1 := isBlock_payload hb
      have e2 := isBlock_payload hbc
      rw [← e1, ← e2])
    subst hout
    simp only [Bool.false_eq_true, if_false]
    rw [Disk.file_writes]
    have hright : ∀ w ∈ (List.range (d.data + d.parity)).filterMap (fun j =>
        if Present v uid d dk.file (t * (d.data + d.parity) + j + 1) then none
        else ((ds ++ rs.encode d.data d.parity ds)[j]?).map fun o => (placeOf d (t * (d.data + d.parity) + j + 1) * blockLen v,
          blockBytes v uid.bytes (UInt32.ofNat (t * (d.data + d.parity) + j + 1)) o)), OpIn v c e w := by
      intro w hw
      rw [List.mem_filterMap] at hw
      obtain ⟨j, hj, hw⟩ := hw
      rw [List.mem_range] at hj
      split at hw
      · simp at hw
      · rw [Option.map_eq_some_iff] at hw
        obtain ⟨o, hoj, rfl⟩ := hw
        obtain ⟨p, hp, hbc, hin⟩ := hset' j hj
        rw [d3 j hj, hoj] at hp
        cases hp
        exact ⟨_, by rw [hbc.bytes], hin⟩
    obtain ⟨w1, w2, w3⟩ := Near.writes hc.aligned _ _ i1 (fun w hw => (hright w hw).right hc.inside)
    refine ⟨w1, ?_, fun j hj => w2 j (i3 j hj), ?_, fun h0 w hw => ?_⟩
    · intro hall
      simp only [Stats.set, if_true]
      rw [hrf, i2 fun t' ht' => hall t' (by omega)]
    · intro t' ht' hr' j hj
      rcases Nat.lt_succ_iff_lt_or_eq.1 ht' with hlt | heq
      · exact w2 _ (i4 t' hlt hr' j hj)
      · rw [heq]
        by_cases hp : Present v uid d dk.file (t * (d.data + d.parity) + j + 1)
        · exact w2 _ (hpres j hj hp)
        · obtain ⟨p, hpp, -, -⟩ := hset' j hj
          rw [d3 j hj] at hpp
          refine w3 (placeOf d (t * (d.data + d.parity) + j + 1) * blockLen v,
            blockBytes v uid.bytes (UInt32.ofNat (t * (d.data + d.parity) + j + 1)) p) ?_ _ rfl
          rw [List.mem_filterMap]
          exact ⟨j, List.mem_range.2 hj, by rw [if_neg hp, hpp]; rfl⟩
    · rcases List.mem_append.1 hw with hw | hw
      · exact i5 h0 w hw
      · exact hright w hw

/-- The same for a file that ends with the container. -/
theorem meta_whole (hc : Image v uid.bytes (some true) (some d) ps (blockBytes v uid.bytes 0 mp) c)
    (hmp : mp.length = blockLen v - 16) (hdam : Damaged v uid d ps.length c f) :
    ∀ (ks : List Nat) (dk : Disk) (st : Stats), (∀ k ∈ ks, k ∈ metaCopies (some true) (some d)) → Near v c f dk.file →
      let r := ks.foldl (metaOne v uid (blockBytes v uid.bytes 0 mp) false) (dk, st)
      Near v c f r.1.file ∧ r.2.blocks = st.blocks + ks.length ∧ r.2.repairFailed = st.repairFailed ∧
      (∀ j, piece v dk.file j = piece v c j → piece v r.1.file j = piece v c j) ∧
      (∀ k ∈ ks, piece v r.1.file k = piece v c k) ∧ ((∀ w ∈ dk.ops, RightOp v c w) → ∀ w ∈ r.1.ops, RightOp v c w) :=
  fun ks dk st hks h => meta_filed (ps := []) (e := c.length) ⟨hc.aligned, Nat.le_refl _, by intro s a b; simp at b; omega⟩
    (fun _ hk => image_meta hc hmp hk) ⟨hdam.short, hdam.metas, by intro s a b; simp at b; omega⟩ ks dk st hks h

/-- The same for a file that ends with the container. -/
theorem run_sets (h1 : 1 ≤ d.data)
    (hc : Image v uid.bytes (some true) (some d) ps (blockBytes v uid.bytes 0 mp) c) (hps : ∀ p ∈ ps, p.length = blockLen v - 16)
    (hsets : ∀ t, t * (d.data + d.parity) < ps.length → (t + 1) * (d.data + d.parity) ≤ ps.length →
      ∃ ds : List (List Byte), ds.length = d.data ∧ (∀ x ∈ ds, x.length = blockLen v - 16) ∧
        ∀ j < d.data + d.parity, ps[t * (d.data + d.parity) + j]? = (ds ++ rs.encode d.data d.parity ds)[j]?)
    (hdam : Damaged v uid d ps.length c f)
    {dk0 dk : Disk} {st0 st : Stats}
    (hnear : Near v c f dk0.file) {m : Nat} (h : Run rs v uid d false dk0 st0 m dk st) (hm : m ≤ ps.length) :
    Near v c f dk.file ∧ ((∀ t < m / (d.data + d.parity), d.data ≤ unchangedIn v d c f t) → st.repairFailed = st0.repairFailed) ∧ (∀ j, piece v dk0.file j = piece v c j → piece v dk.file j = piece v c j) ∧
      (∀ t < m / (d.data + d.parity), d.data ≤ unchangedIn v d c f t → ∀ j < d.data + d.parity,
        piece v dk.file (placeOf d (t * (d.data + d.parity) + j + 1)) = piece v c (placeOf d (t * (d.data + d.parity) + j + 1))) ∧
      ((∀ w ∈ dk0.ops, RightOp v c w) → ∀ w ∈ dk.ops, RightOp v c w) :=
  sets_filed h1 (image_filed hc hps) hsets hdam hnear h hm

/-- The data loop on a damaged container, if all sets have kept enough blocks. -/
theorem run_whole (h1 : 1 ≤ d.data)
    (hc : Image v uid.bytes (some true) (some d) ps (blockBytes v uid.bytes 0 mp) c) (hps : ∀ p ∈ ps, p.length = blockLen v - 16)
    (hsets : ∀ t, t * (d.data + d.parity) < ps.length → (t + 1) * (d.data + d.parity) ≤ ps.length →
      ∃ ds : List (List Byte), ds.length = d.data ∧ (∀ x ∈ ds, x.length = blockLen v - 16) ∧
        ∀ j < d.data + d.parity, ps[t * (d.data + d.parity) + j]? = (ds ++ rs.encode d.data d.parity ds)[j]?)
    (hdam : Damaged v uid d ps.length c f)
    (hrec : ∀ t, t * (d.data + d.parity) < ps.length → d.data ≤ unchangedIn v d c f t) {dk0 dk : Disk} {st0 st : Stats}
    (hnear : Near v c f dk0.file) {m : Nat} (h : Run rs v uid d false dk0 st0 m dk st) (hm : m ≤ ps.length) :
    Near v c f dk.file ∧ st.repairFailed = st0.repairFailed ∧ (∀ j, piece v dk0.file j = piece v c j → piece v dk.file j = piece v c j) ∧
      (∀ s, 1 ≤ s → s ≤ m / (d.data + d.parity) * (d.data + d.parity) → piece v dk.file (placeOf d s) = piece v c (placeOf d s)) ∧
      ((∀ w ∈ dk0.ops, RightOp v c w) → ∀ w ∈ dk.ops, RightOp v c w) := by
  have hn : 0 < d.data + d.parity := by omega
  have hlt : ∀ t < m / (d.data + d.parity), d.data ≤ unchangedIn v d c f t := by
    intro t ht
    have := (Nat.le_div_iff_mul_le hn).1 (show t + 1 ≤ m / (d.data + d.parity) from ht)
    rw [Nat.succ_mul] at this
    exact hrec t (by omega)
  obtain ⟨r1, r2, r3, r4, r5⟩ := run_sets h1 hc hps hsets hdam hnear h hm
  refine ⟨r1, r2 hlt, r3, ?_, r5⟩
  intro s hs1 hs2
  have e := Nat.div_add_mod (s - 1) (d.data + d.parity)
  have hmod := Nat.mod_lt (s - 1) hn
  have hq : (s - 1) / (d.data + d.parity) < m / (d.data + d.parity) := (Nat.div_lt_iff_lt_mul hn).2 (by omega)
  have := r4 _ hq (hlt _ hq) _ hmod
  rw [Nat.mul_comm] at e
  rwa [show (s - 1) / (d.data + d.parity) * (d.data + d.parity) + (s - 1) % (d.data + d.parity) + 1 = s by omega] at this

/-- A file near the container with all its blocks is the container. -/
theorem near_complete (hc : Image v uid.bytes (some true) (some d) ps (blockBytes v uid.bytes 0 mp) c)
    (hps : ∀ p ∈ ps, p.length = blockLen v - 16) (hmp : mp.length = blockLen v - 16)
    (hgaps : GapsClean v d ps.length f) {g : File} (h : Near v c f g)
    (hm : ∀ k ∈ metaCopies (some true) (some d), piece v g k = piece v c k)
    (hd : ∀ s, 1 ≤ s → s ≤ ps.length → piece v g (placeOf d s) = piece v c (placeOf d s)) : g = c := by
  have hu := blockLen_pos v
  obtain ⟨n, hn⟩ := hc.aligned
  have hlen : g.length = c.length := by
    have hs := h.short
    cases n with
    | zero => simp at hn; simp [hn] at hs ⊢; exact List.length_eq_zero_iff.1 (by rw [hs]; rfl)
    | succ k =>
      have hn' : c.length = (k + 1) * blockLen v := by rw [hn, Nat.mul_comm]
      have hfull : (piece v g k).length = blockLen v := by
        rcases hc.tight k hn' with e | ⟨i, hi, e⟩
        · rw [hm k e, piece_full (by omega)]
        · have := hd (i + 1) (by omega) (by omega)
          rw [show placeOf d (i + 1) = k from e] at this
          rw [this, piece_full (by omega)]
      unfold piece at hfull
      rw [File.readAt_length] at hfull
      rw [Nat.succ_mul] at hn'
      omega
  refine File.ext_units hu n (by rw [hlen, hn, Nat.mul_comm]) (by rw [hn, Nat.mul_comm]) ?_
  intro k hk
  have hin : (k + 1) * blockLen v ≤ c.length := by
    rw [hn, Nat.mul_comm]; exact Nat.mul_le_mul_left _ hk
  show piece v g k = piece v c k
  by_cases hkm : k ∈ metaCopies (some true) (some d)
  · exact hm k hkm
  · by_cases hkd : ∃ s, 1 ≤ s ∧ s ≤ ps.length ∧ placeOf d s = k
    · obtain ⟨s, a, b, rfl⟩ := hkd
      exact hd s a b
    · have hz := hc.gaps k (by rw [Nat.succ_mul] at hin; omega) hkm (by
        intro i hi e
        exact hkd ⟨i + 1, by omega, by omega, e⟩)
      have hgl : (piece v g k).length = blockLen v := piece_full (by omega)
      obtain ⟨z, hz'⟩ := hgaps k hkm (fun s a b e => hkd ⟨s, a, b, e⟩)
      have hcz : piece v c k = List.replicate (blockLen v) 0 := hz
      rcases h.pieces k with e | e | e
      · exact e
      · rw [hcz]
        rw [e, hz'] at hgl ⊢
        rw [List.length_replicate] at hgl
        rw [hgl]
      · rw [e, hz', hcz]
        have hle := piece_length_le v f k
        rw [hz', List.length_replicate] at hle
        unfold zpad
        rw [List.length_replicate, List.replicate_append_replicate]
        congr 1; omega

end Whole

end Verif.Repair
