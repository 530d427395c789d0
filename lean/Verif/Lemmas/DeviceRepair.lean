import Verif.Model.DeviceRepair
import Verif.Lemmas.DeviceSim
import Verif.Lemmas.RepairWhole
/-!
# `repair` and `update` on a device: comparison with a run in which everything is taken
-/

namespace Verif.Device
open DeviceSpec

/-! ### Writes -/

theorem left_some {A : Answers} (ws : List (Nat × List Byte)) : ∀ n f g, carriedOut A n f ws = some g → left A n f ws = g := by
  induction ws with
  | nil => intro n f g h; simpa [carriedOut, left] using h
  | cons w ws ih =>
    intro n f g h
    simp only [carriedOut, left] at h ⊢
    cases hk : A n w.2 with
    | none => rw [hk] at h; cases h
    | some k => rw [hk] at h; exact ih _ _ _ h

theorem left_append (A : Answers) (ws ws' : List (Nat × List Byte)) : ∀ n f,
    left A n f (ws ++ ws') = match carriedOut A n f ws with
      | none => left A n f ws
      | some g => left A (n + ws.length) g ws' := by
  induction ws with
  | nil => intro n f; rfl
  | cons w ws ih =>
    intro n f
    simp only [List.cons_append, left, carriedOut, List.length_cons]
    cases A n w.2 with
    | none => rfl
    | some k =>
      simp only
      rw [ih, Nat.add_right_comm, Nat.add_assoc]

theorem writes_eq (A : Os) (ws : List (Nat × List Byte)) : ∀ d : Plain,
    (d.writes A ws).1.file = left A d.calls d.file ws ∧
      ((d.writes A ws).2 = true ∧ carriedOut A d.calls d.file ws = some (d.writes A ws).1.file ∧ (d.writes A ws).1.calls = d.calls + ws.length ∨
        (d.writes A ws).2 = false ∧ carriedOut A d.calls d.file ws = none) := by
  induction ws with
  | nil => intro d; exact ⟨rfl, .inl ⟨rfl, rfl, rfl⟩⟩
  | cons w ws ih =>
    intro d
    simp only [Plain.writes, Plain.write, left, carriedOut]
    cases A d.calls w.2 with
    | none => exact ⟨rfl, .inr ⟨rfl, rfl⟩⟩
    | some k =>
      obtain ⟨h1, h2⟩ := ih ⟨d.file.writeAt w.1 (w.2.take k), d.calls + 1⟩
      refine ⟨h1, ?_⟩
      rcases h2 with ⟨e1, e2, e3⟩ | ⟨e1, e2⟩
      · exact .inl ⟨e1, e2, by rw [e3, List.length_cons]; show d.calls + 1 + _ = _; omega⟩
      · exact .inr ⟨e1, e2⟩

/-- Carrying out a list of writes on a device that has taken `k.ops`. -/
theorem rel_writes {A : Os} {d : Plain} {k : Disk} (h : PlainRel A d k) (ws : List (Nat × List Byte)) :
    (d.writes A ws).1.file = left A 0 k.init (k.ops ++ ws) ∧
      ((d.writes A ws).2 = true ∧ PlainRel A (d.writes A ws).1 ⟨k.init, k.ops ++ ws⟩ ∨
        (d.writes A ws).2 = false ∧ carriedOut A 0 k.init (k.ops ++ ws) = none) := by
  obtain ⟨h1, h2⟩ := h
  obtain ⟨w1, w2⟩ := writes_eq A ws d
  rw [left_append, carriedOut_append, h1, Nat.zero_add, ← h2]
  refine ⟨w1, ?_⟩
  simp only [Option.bind_some]
  rcases w2 with ⟨e1, e2, e3⟩ | ⟨e1, e2⟩
  · refine .inl ⟨e1, ?_, ?_⟩
    · show carriedOut A 0 k.init (k.ops ++ ws) = _
      rw [carriedOut_append, h1, Nat.zero_add, ← h2]
      exact e2
    · rw [e3, List.length_append, h2]
  · exact .inr ⟨e1, e2⟩

theorem bad_append {A : Answers} {n : Nat} {f : File} {ws : List (Nat × List Byte)} (h : carriedOut A n f ws = none) (ws' : List (Nat × List Byte)) :
    carriedOut A n f (ws ++ ws') = none ∧ left A n f (ws ++ ws') = left A n f ws := by
  rw [carriedOut_append, left_append, h]
  exact ⟨rfl, rfl⟩

/-! ### `repair` -/

/-- One metadata place: what is done depends on what is read there, and at most this place is written to. -/
theorem metaStep_frame (ref : Block) (dry : Bool) (s : Repair.MetaSt) (p : Nat) (g : File)
    (h : g.readAt p ref.header.version.blockSize = s.disk.file.readAt p ref.header.version.blockSize) :
    (∀ e, Repair.metaStep ref dry s p = .error e → Repair.metaStep ref dry { s with disk := ⟨g, []⟩ } p = .error e) ∧
    ∀ s', Repair.metaStep ref dry s p = .ok s' → ∃ ws, Repair.metaStep ref dry { s with disk := ⟨g, []⟩ } p = .ok { s' with disk := ⟨g, ws⟩ } ∧
      s'.disk = ⟨s.disk.init, s.disk.ops ++ ws⟩ ∧ ∀ w ∈ ws, w.1 = p := by
  have h' : (Disk.file ⟨g, []⟩).readAt p ref.header.version.blockSize = s.disk.file.readAt p ref.header.version.blockSize := h
  unfold Repair.metaStep
  simp only [h']
  generalize hR : s.disk.file.readAt p ref.header.version.blockSize = bytes
  generalize hr : (if bytes.length < ref.header.version.blockSize then (s.block, true)
    else match s.block.syncFrom (bytes ++ s.buffer.drop bytes.length) (some (sameVerUid ref)) none with
      | (b, none) => (b, false)
      | (b, some _) => (b, true)) = r
  obtain ⟨b, t⟩ := r
  cases t
  · simp only [Bool.false_eq_true, if_false]
    refine ⟨fun e h => (by cases h), ?_⟩
    intro s' h
    cases h
    exact ⟨[], rfl, by simp, by simp⟩
  · simp only [if_true]
    cases s.ref.syncTo none (bytes ++ s.buffer.drop bytes.length) with
    | error x => exact ⟨fun e h => by cases h; rfl, fun s' h => by cases h⟩
    | ok y =>
      refine ⟨fun e h => (by cases h), ?_⟩
      intro s' h
      cases h
      cases dry
      · exact ⟨[_], rfl, rfl, by intro w hw; simp only [List.mem_singleton] at hw; rw [hw]⟩
      · exact ⟨[], rfl, by simp, by simp⟩

theorem foldl_ops (ws : List (Nat × List Byte)) : ∀ dk : Disk, ws.foldl (fun dk w => dk.writeAt w.1 w.2) dk = ⟨dk.init, dk.ops ++ ws⟩ := by
  induction ws with
  | nil => intro dk; simp
  | cons w ws ih => intro dk; rw [List.foldl_cons, ih]; simp [Disk.writeAt]

theorem mark_frame (ref : Block) (seq : Nat) (bytes : List Byte) (s : Repair.DataSt) (dk : Disk) :
    Repair.mark ref seq bytes { s with disk := dk } = { Repair.mark ref seq bytes s with disk := dk } ∧
      (Repair.mark ref seq bytes s).disk = s.disk ∧ (Repair.mark ref seq bytes s).codec.index = s.codec.index + 1 := by
  unfold Repair.mark
  simp only
  split
  · exact ⟨rfl, rfl, rfl⟩
  · generalize s.block.syncFrom bytes (some (sameVerUid ref)) none = r
    obtain ⟨b, e⟩ := r
    cases e with
    | some e => exact ⟨rfl, rfl, rfl⟩
    | none =>
      simp only
      split <;> exact ⟨rfl, rfl, rfl⟩

theorem repair_index {rs : RsCodec} {v : Version} {d : Dpb} {seq : Nat} {c c' : Repair.Codec} {ok : Bool} {missing : Nat}
    {blocks : List (Nat × List Byte)} (h : c.repair rs v d seq = .ok (c', ok, missing, blocks)) :
    c'.index = 0 ∧ ∀ w ∈ blocks, ∃ i < d.data + d.parity,
      w.1 = Layout.dataWritePos v ((seq - 1) / (d.data + d.parity) * (d.data + d.parity) + 1 + i) none (some d) := by
  unfold Repair.Codec.repair at h
  simp only at h
  cases hr : rs.reconstruct d.data d.parity c.shards with
  | none =>
    rw [hr] at h
    simp only [Except.ok.injEq, Prod.mk.injEq] at h
    obtain ⟨rfl, -, -, rfl⟩ := h
    exact ⟨rfl, by simp⟩
  | some out =>
    rw [hr] at h
    simp only at h
    split at h
    · cases h
    · simp only [Except.ok.injEq, Prod.mk.injEq] at h
      obtain ⟨rfl, -, -, rfl⟩ := h
      refine ⟨rfl, ?_⟩
      intro w hw
      unfold Repair.Codec.repaired at hw
      simp only [List.mem_filterMap, List.mem_range] at hw
      obtain ⟨i, hi, e⟩ := hw
      split at e
      · simp only [Option.some.injEq] at e
        exact ⟨i, hi, by rw [← e]⟩
      · cases e

/-- One data or parity block: what is done depends on what is read there; writes go to the places of the set which has been read. -/
theorem dataStep_frame (rs : RsCodec) (ref : Block) (d : Dpb) (dry : Bool) (seq : Nat) (s : Repair.DataSt) (g : File)
    (hd : 0 < d.data) (hi : s.codec.index = (seq - 1) % (d.data + d.parity)) (hs : 1 ≤ seq)
    (h : g.readAt (Layout.dataWritePos ref.header.version seq none (some d)) ref.header.version.blockSize =
      s.disk.file.readAt (Layout.dataWritePos ref.header.version seq none (some d)) ref.header.version.blockSize) :
    (∀ e, Repair.dataStep rs ref d dry seq s = .error e → Repair.dataStep rs ref d dry seq { s with disk := ⟨g, []⟩ } = .error e) ∧
    ∀ s', Repair.dataStep rs ref d dry seq s = .ok s' → ∃ ws, Repair.dataStep rs ref d dry seq { s with disk := ⟨g, []⟩ } = .ok { s' with disk := ⟨g, ws⟩ } ∧
      s'.disk = ⟨s.disk.init, s.disk.ops ++ ws⟩ ∧ s'.codec.index = seq % (d.data + d.parity) ∧
      ∀ w ∈ ws, ∃ i, 1 ≤ i ∧ i ≤ seq ∧ w.1 = Layout.dataWritePos ref.header.version i none (some d) := by
  have h' : (Disk.file ⟨g, []⟩).readAt (Layout.dataWritePos ref.header.version seq none (some d)) ref.header.version.blockSize =
    s.disk.file.readAt (Layout.dataWritePos ref.header.version seq none (some d)) ref.header.version.blockSize := h
  unfold Repair.dataStep
  simp only [h']
  generalize s.disk.file.readAt (Layout.dataWritePos ref.header.version seq none (some d)) ref.header.version.blockSize = bytes
  obtain ⟨m1, m2, m3⟩ := mark_frame ref seq bytes s ⟨g, []⟩
  rw [m1]
  generalize Repair.mark ref seq bytes s = t at m2 m3
  have hn : 0 < d.data + d.parity := by omega
  rw [hi] at m3
  have hmod : seq % (d.data + d.parity) = if (seq - 1) % (d.data + d.parity) + 1 = d.data + d.parity then 0 else (seq - 1) % (d.data + d.parity) + 1 := by
    have h1 : (seq - 1 + 1) % (d.data + d.parity) = ((seq - 1) % (d.data + d.parity) + 1) % (d.data + d.parity) := by
      rw [Nat.add_mod, Nat.add_mod ((seq - 1) % _) 1, Nat.mod_mod]
    rw [Nat.sub_add_cancel hs] at h1
    rw [h1]
    have := Nat.mod_lt (seq - 1) hn
    split
    · rename_i e; rw [e, Nat.mod_self]
    · exact Nat.mod_eq_of_lt (by omega)
  simp only
  rw [m3]
  split
  · rename_i htrig
    rw [if_pos htrig] at hmod
    unfold Repair.repairSet
    simp only
    cases hc : t.codec.repair rs ref.header.version d seq with
    | error e => exact ⟨fun e h => (by cases h; rfl), fun s' h => (by cases h)⟩
    | ok x =>
      obtain ⟨c, ok, missing, blocks⟩ := x
      simp only
      refine ⟨fun e h => (by cases h), ?_⟩
      intro s' h
      cases h
      obtain ⟨r1, r2⟩ := repair_index hc
      simp only
      cases dry
      · refine ⟨blocks, ?_, ?_, ?_, ?_⟩
        · simp only [Bool.false_eq_true, if_false, foldl_ops, List.nil_append]
        · simp only [Bool.false_eq_true, if_false, foldl_ops, m2]
        · rw [r1, hmod]
        · intro w hw
          obtain ⟨i, hi', e⟩ := r2 w hw
          refine ⟨_, by omega, ?_, e⟩
          have := Nat.div_add_mod (seq - 1) (d.data + d.parity)
          rw [Nat.mul_comm] at this
          omega
      · exact ⟨[], rfl, by simp [m2], by rw [r1, hmod], by simp⟩
  · rename_i htrig
    rw [if_neg htrig] at hmod
    refine ⟨fun e h => (by cases h), ?_⟩
    intro s' h
    cases h
    exact ⟨[], rfl, by simp [m2], by rw [m3, hmod], by simp⟩

theorem metaLoop_ops (ref : Block) (dry : Bool) (stop : Nat → Bool) : ∀ (ps : List Nat) (k : Nat) (s s' : Repair.MetaSt),
    Repair.metaLoop ref dry stop k ps s = .ok s' → ∃ ws, s'.disk = ⟨s.disk.init, s.disk.ops ++ ws⟩ ∧ ∀ w ∈ ws, w.1 ∈ ps := by
  intro ps
  induction ps with
  | nil => intro k s s' h; cases h; exact ⟨[], by simp, by simp⟩
  | cons p ps ih =>
    intro k s s' h
    rw [Repair.metaLoop] at h
    split at h
    · cases h; exact ⟨[], by simp, by simp⟩
    · cases hm : Repair.metaStep ref dry s p with
      | error e => rw [hm] at h; cases h
      | ok t =>
        rw [hm] at h
        obtain ⟨ws, -, e, hp⟩ := (metaStep_frame ref dry s p _ rfl).2 t hm
        obtain ⟨ws', e', hp'⟩ := ih _ _ _ h
        refine ⟨ws ++ ws', by rw [e', e]; simp, ?_⟩
        intro w hw
        rcases List.mem_append.1 hw with hw | hw
        · rw [hp w hw]; simp
        · exact List.mem_cons_of_mem _ (hp' w hw)

theorem dataLoop_ops (rs : RsCodec) (ref : Block) (d : Dpb) (hd : 0 < d.data) (dry : Bool) (total : Nat) (stop : Nat → Bool) :
    ∀ (n seq : Nat) (s s' : Repair.DataSt), 1 ≤ seq → s.codec.index = (seq - 1) % (d.data + d.parity) →
    Repair.dataLoop rs ref d dry total stop n seq s = .ok s' → ∃ ws, s'.disk = ⟨s.disk.init, s.disk.ops ++ ws⟩ := by
  intro n
  induction n with
  | zero => intro seq s s' _ _ h; cases h; exact ⟨[], by simp⟩
  | succ n ih =>
    intro seq s s' hs hi h
    rw [Repair.dataLoop] at h
    split at h
    · cases h; exact ⟨[], by simp⟩
    split at h
    · cases h; exact ⟨[], by simp⟩
    cases hm : Repair.dataStep rs ref d dry seq s with
    | error e => rw [hm] at h; cases h
    | ok t =>
      rw [hm] at h
      obtain ⟨ws, -, e, hi', -⟩ := (dataStep_frame rs ref d dry seq s _ hd hi hs rfl).2 t hm
      obtain ⟨ws', e'⟩ := ih (seq + 1) _ _ (by omega) (by rw [hi']; simp) h
      exact ⟨ws ++ ws', by rw [e', e]; simp⟩

/-- As long as the writes issued are of the kind `Q`, a place not written to reads on the device as if everything had been taken. -/
structure Reads (A : Answers) (f : File) (len : Nat) (place : Nat → Prop) (Q : List (Nat × List Byte) → Prop) : Prop where
  earlier : ∀ ws ws', Q (ws ++ ws') → Q ws
  same : ∀ ws g p, Q ws → carriedOut A 0 f ws = some g → place p → (∀ w ∈ ws, w.1 ≠ p) → g.readAt p len = (f.writes ws).readAt p len

/-- How a run on the device (`out`) compares with a run in which everything is taken and which has issued the writes `ops`: the same
result, or an error because a call was refused. -/
def Compares {α : Type} (A : Os) (f : File) (ops : List (Nat × List Byte)) (same : α → Prop) (out : Plain × Option α) : Prop :=
  out.1.file = left A 0 f ops ∧
    ((∃ x, out.2 = some x ∧ same x) ∧ PlainRel A out.1 ⟨f, ops⟩ ∨ out.2 = none ∧ carriedOut A 0 f ops = none)

theorem rel_left {A : Os} {d : Plain} {k : Disk} (h : PlainRel A d k) : d.file = left A 0 k.init k.ops := (left_some _ _ _ _ h.1).symm

theorem repairMeta_sim {A : Os} {f : File} {place : Nat → Prop} {Q : List (Nat × List Byte) → Prop} (ref : Block)
    (R : Reads A f ref.header.version.blockSize place Q) (dry : Bool) (stop : Nat → Bool) :
    ∀ (ps : List Nat) (k : Nat) (s : Repair.MetaSt) (d : Plain) (dk0 : Disk), PlainRel A d s.disk → s.disk.init = f → ps.Nodup →
      (∀ p ∈ ps, place p) → (∀ w ∈ s.disk.ops, w.1 ∉ ps) →
      ((∀ ws, Q ws) ∨ ∃ s', Repair.metaLoop ref dry stop k ps s = .ok s' ∧ Q s'.disk.ops) →
      match Repair.metaLoop ref dry stop k ps s with
      | .error _ => (repairMeta A ref dry stop k ps { s with disk := dk0 } d).2 = none
      | .ok s' => Compares A f s'.disk.ops (fun x => ∃ dk, x = { s' with disk := dk }) (repairMeta A ref dry stop k ps { s with disk := dk0 } d) := by
  intro ps
  induction ps with
  | nil =>
    intro k s d dk0 hr hf _ _ _ _
    have := rel_left hr
    rw [hf] at this
    have hk : s.disk = ⟨f, s.disk.ops⟩ := by rw [← hf]
    refine ⟨this, .inl ⟨⟨_, rfl, dk0, rfl⟩, ?_⟩⟩
    rw [← hk]; exact hr
  | cons p ps ih =>
    intro k s d dk0 hr hf hnd hpl hops hQ
    have hk : s.disk = ⟨f, s.disk.ops⟩ := by rw [← hf]
    rw [Repair.metaLoop] at hQ ⊢
    rw [repairMeta]
    by_cases hst : stop k = true
    · simp only [if_pos hst]
      have := rel_left hr
      rw [hf] at this
      refine ⟨this, .inl ⟨⟨_, rfl, dk0, rfl⟩, ?_⟩⟩
      rw [← hk]; exact hr
    simp only [if_neg hst] at hQ ⊢
    have hQ0 : Q s.disk.ops := by
      rcases hQ with hQ | ⟨s', h1, h2⟩
      · exact hQ _
      · cases hm : Repair.metaStep ref dry s p with
        | error e => rw [hm] at h1; cases h1
        | ok t =>
          rw [hm] at h1
          obtain ⟨ws, -, e, -⟩ := (metaStep_frame ref dry s p _ rfl).2 t hm
          obtain ⟨ws', e', -⟩ := metaLoop_ops _ _ _ _ _ _ _ h1
          rw [e', e, List.append_assoc] at h2
          exact R.earlier _ _ h2
    have hread : d.file.readAt p ref.header.version.blockSize = s.disk.file.readAt p ref.header.version.blockSize := by
      have h1 := hr.1
      rw [hf] at h1
      have := R.same _ _ p hQ0 h1 (hpl p (by simp)) (fun w hw e => hops w hw (by rw [e]; simp))
      rw [this]
      unfold Disk.file
      rw [hf]
    obtain ⟨fe, fo⟩ := metaStep_frame ref dry s p d.file hread
    cases hm : Repair.metaStep ref dry s p with
    | error e =>
      have := fe e hm
      simp only at this ⊢
      rw [this]
    | ok t =>
      obtain ⟨ws, e1, e2, e3⟩ := fo t hm
      rw [hm] at hQ
      simp only at hQ e1 ⊢
      rw [e1]
      simp only
      obtain ⟨w1, w2⟩ := rel_writes hr ws
      have hin : t.disk.init = f := by rw [e2, ← hf]
      have hto : t.disk.ops = s.disk.ops ++ ws := by rw [e2]
      generalize hW : d.writes A ws = W at w1 w2
      obtain ⟨d1, b⟩ := W
      rcases w2 with ⟨rfl, w2⟩ | ⟨rfl, w2⟩
      · simp only at w1 w2 ⊢
        have hr1 : PlainRel A d1 t.disk := by rw [e2]; exact w2
        refine ih (k + 1) t d1 ⟨d.file, ws⟩ hr1 hin (List.nodup_cons.1 hnd).2 (fun q hq => hpl q (by simp [hq])) ?_ hQ
        intro w hw
        rw [hto] at hw
        rcases List.mem_append.1 hw with hw | hw
        · exact fun h => hops w hw (by simp [h])
        · rw [e3 w hw]; exact (List.nodup_cons.1 hnd).1
      · simp only at w1 w2 ⊢
        rw [hf, ← hto] at w1 w2
        cases hl : Repair.metaLoop ref dry stop (k + 1) ps t with
        | error e => simp only
        | ok s' =>
          obtain ⟨ws', e', -⟩ := metaLoop_ops _ _ _ _ _ _ _ hl
          obtain ⟨b1, b2⟩ := bad_append w2 ws'
          simp only
          rw [e']
          exact ⟨by rw [b2]; exact w1, .inr ⟨rfl, b1⟩⟩

/-- Places of data and parity blocks. -/
def dataPos (v : Version) (d : Dpb) (i : Nat) : Nat := Layout.dataWritePos v i none (some d)

theorem dataPos_inj {v : Version} {d : Dpb} (hd : 0 < d.data) {i j : Nat} (hi : 1 ≤ i) (hj : 1 ≤ j) (h : dataPos v d i = dataPos v d j) : i = j := by
  unfold dataPos Layout.dataWritePos at h
  have hb : 0 < v.blockSize := by cases v <;> decide
  exact C10_data_injective none (some d) (by intro x hx; cases hx; exact hd) i j hi hj (Nat.eq_of_mul_eq_mul_right hb h)

theorem repairData_sim {A : Os} {f : File} {place : Nat → Prop} {Q : List (Nat × List Byte) → Prop} (rs : RsCodec) (ref : Block)
    (R : Reads A f ref.header.version.blockSize place Q) (d : Dpb) (hd : 0 < d.data) (dry : Bool) (total : Nat) (stop : Nat → Bool)
    (hpl : ∀ i, 1 ≤ i → place (dataPos ref.header.version d i)) :
    ∀ (n seq : Nat) (s : Repair.DataSt) (dv : Plain) (dk0 : Disk), 1 ≤ seq → s.codec.index = (seq - 1) % (d.data + d.parity) →
      PlainRel A dv s.disk → s.disk.init = f → (∀ w ∈ s.disk.ops, ∀ i, seq ≤ i → w.1 ≠ dataPos ref.header.version d i) →
      ((∀ ws, Q ws) ∨ ∃ s', Repair.dataLoop rs ref d dry total stop n seq s = .ok s' ∧ Q s'.disk.ops) →
      match Repair.dataLoop rs ref d dry total stop n seq s with
      | .error _ => (repairData A rs ref d dry total stop n seq { s with disk := dk0 } dv).2 = none
      | .ok s' => Compares A f s'.disk.ops (fun x => x = s'.stats) (repairData A rs ref d dry total stop n seq { s with disk := dk0 } dv) := by
  intro n
  induction n with
  | zero =>
    intro seq s dv dk0 hs hi hr hf _ _
    have := rel_left hr
    rw [hf] at this
    have hk : s.disk = ⟨f, s.disk.ops⟩ := by rw [← hf]
    refine ⟨this, .inl ⟨⟨_, rfl, rfl⟩, ?_⟩⟩
    rw [← hk]; exact hr
  | succ n ih =>
    intro seq s dv dk0 hs hi hr hf hops hQ
    have hk : s.disk = ⟨f, s.disk.ops⟩ := by rw [← hf]
    have hstay : Compares A f s.disk.ops (fun x => x = s.stats) (dv, some s.stats) := by
      have := rel_left hr
      rw [hf] at this
      refine ⟨this, .inl ⟨⟨_, rfl, rfl⟩, ?_⟩⟩
      rw [← hk]; exact hr
    rw [Repair.dataLoop] at hQ ⊢
    rw [repairData]
    by_cases hst : stop seq = true
    · simp only [if_pos hst]; exact hstay
    simp only [if_neg hst] at hQ ⊢
    by_cases htot : total ≤ s.stats.blocks
    · simp only [if_pos htot]; exact hstay
    simp only [if_neg htot] at hQ ⊢
    have hQ0 : Q s.disk.ops := by
      rcases hQ with hQ | ⟨s', h1, h2⟩
      · exact hQ _
      · cases hm : Repair.dataStep rs ref d dry seq s with
        | error e => rw [hm] at h1; cases h1
        | ok t =>
          rw [hm] at h1
          obtain ⟨ws, -, e, hi', -⟩ := (dataStep_frame rs ref d dry seq s _ hd hi hs rfl).2 t hm
          obtain ⟨ws', e'⟩ := dataLoop_ops rs ref d hd dry total stop n (seq + 1) _ _ (by omega) (by rw [hi']; simp) h1
          rw [e', e, List.append_assoc] at h2
          exact R.earlier _ _ h2
    have hread : dv.file.readAt (Layout.dataWritePos ref.header.version seq none (some d)) ref.header.version.blockSize =
        s.disk.file.readAt (Layout.dataWritePos ref.header.version seq none (some d)) ref.header.version.blockSize := by
      have h1 := hr.1
      rw [hf] at h1
      have := R.same _ _ _ hQ0 h1 (hpl seq hs) (fun w hw => hops w hw seq (Nat.le_refl _))
      unfold dataPos at this
      rw [this]
      unfold Disk.file
      rw [hf]
    obtain ⟨fe, fo⟩ := dataStep_frame rs ref d dry seq s dv.file hd hi hs hread
    cases hm : Repair.dataStep rs ref d dry seq s with
    | error e =>
      have := fe e hm
      simp only at this ⊢
      rw [this]
    | ok t =>
      obtain ⟨ws, e1, e2, hi', e3⟩ := fo t hm
      rw [hm] at hQ
      simp only at hQ e1 ⊢
      rw [e1]
      simp only
      obtain ⟨w1, w2⟩ := rel_writes hr ws
      have hin : t.disk.init = f := by rw [e2, ← hf]
      have hto : t.disk.ops = s.disk.ops ++ ws := by rw [e2]
      have hi2 : t.codec.index = (seq + 1 - 1) % (d.data + d.parity) := by rw [hi']; simp
      generalize hW : dv.writes A ws = W at w1 w2
      obtain ⟨d1, b⟩ := W
      rcases w2 with ⟨rfl, w2⟩ | ⟨rfl, w2⟩
      · simp only at w1 w2 ⊢
        have hr1 : PlainRel A d1 t.disk := by rw [e2]; exact w2
        refine ih (seq + 1) t d1 ⟨dv.file, ws⟩ (by omega) hi2 hr1 hin ?_ hQ
        intro w hw i hi3
        rw [hto] at hw
        rcases List.mem_append.1 hw with hw | hw
        · exact hops w hw i (by omega)
        · obtain ⟨j, h1, h2, h3⟩ := e3 w hw
          rw [h3]
          intro e
          have := dataPos_inj hd h1 (by omega) e
          omega
      · simp only at w1 w2 ⊢
        rw [hf, ← hto] at w1 w2
        cases hl : Repair.dataLoop rs ref d dry total stop n (seq + 1) t with
        | error e => simp only
        | ok s' =>
          obtain ⟨ws', e'⟩ := dataLoop_ops rs ref d hd dry total stop n (seq + 1) _ _ (by omega) hi2 hl
          obtain ⟨b1, b2⟩ := bad_append w2 ws'
          simp only
          rw [e']
          exact ⟨by rw [b2]; exact w1, .inr ⟨rfl, b1⟩⟩

theorem codec_new {ref : Block} {d : Dpb} {c : Repair.Codec} (h : Repair.Codec.new ref d = .ok c) : 0 < d.data ∧ c.index = 0 := by
  unfold Repair.Codec.new at h
  split at h
  · cases h
  · cases h
    exact ⟨by omega, rfl⟩

theorem meta_pos {v : Version} {d : Dpb} {p : Nat} (h : p ∈ Layout.metaAllPos v (some d)) :
    ∃ k ∈ LayoutSpec.metaCopies (some true) (some d), p = k * v.blockSize := by
  rw [metaAllPos_eq, metaAllIndices_eq] at h
  obtain ⟨k, hk, e⟩ := List.mem_map.1 h
  exact ⟨k, hk, e.symm⟩

theorem metaAllPos_nodup (v : Version) (d : Dpb) : (Layout.metaAllPos v (some d)).Nodup := by
  rw [metaAllPos_eq, metaAllIndices_eq]
  have hb : 0 < v.blockSize := by cases v <;> decide
  exact (Repair.metaCopies_nodup d).map fun a b h => Nat.eq_of_mul_eq_mul_right hb h

theorem meta_not_data {v : Version} {d : Dpb} (hd : 0 < d.data) {p : Nat} (h : p ∈ Layout.metaAllPos v (some d)) (i : Nat) (hi : 1 ≤ i) :
    p ≠ dataPos v d i := by
  obtain ⟨k, hk, rfl⟩ := meta_pos h
  have hb : 0 < v.blockSize := by cases v <;> decide
  unfold dataPos Layout.dataWritePos
  intro e
  have := Nat.eq_of_mul_eq_mul_right hb e
  refine C10_data_not_meta none (some d) (by intro x hx; cases hx; exact hd) i hi ?_
  rw [← this]
  exact hk

theorem repairWith_sim {A : Os} (E : Repair.Env) (dry : Bool) (ref : Block) (d : Dpb) (total : Nat) {f : File} {place : Nat → Prop}
    {Q : List (Nat × List Byte) → Prop} (R : Reads A f ref.header.version.blockSize place Q)
    (hpl : 0 < d.data → (∀ p ∈ Layout.metaAllPos ref.header.version (some d), place p) ∧ ∀ i, 1 ≤ i → place (dataPos ref.header.version d i))
    (hQ : (∀ ws, Q ws) ∨ ∃ dk st, Repair.repairWith E dry ref d total f = .ok (dk, st) ∧ Q dk.ops) :
    match Repair.repairWith E dry ref d total f with
    | .error _ => (repairWith A E dry ref d total f).2 = none
    | .ok (dk, st) => dk.init = f ∧ Compares A f dk.ops (fun x => x = st) (repairWith A E dry ref d total f) := by
  unfold Repair.repairWith at hQ ⊢
  unfold repairWith
  generalize lastSeqNum = N at hQ ⊢
  generalize List.replicate 4096 (0 : Byte) = B at hQ ⊢
  cases hc : Repair.Codec.new ref d with
  | error e => simp only
  | ok codec =>
    have hd := (codec_new hc).1
    have hi0 := (codec_new hc).2
    have hp1 := (hpl hd).1
    have hp2 := (hpl hd).2
    rw [hc] at hQ
    simp only at hQ ⊢
    cases hs : ref.syncTo none B with
    | error e => simp only
    | ok x =>
      obtain ⟨ref', buffer⟩ := x
      rw [hs] at hQ
      simp only at hQ ⊢
      have hrel : PlainRel A ⟨f, 0⟩ ⟨f, []⟩ := ⟨rfl, rfl⟩
      have hm := repairMeta_sim ref R dry E.stopMeta (Layout.metaAllPos ref.header.version (some d)) 0
        ⟨⟨f, []⟩, buffer, Block.dummy, ref', Repair.Stats.zero⟩ ⟨f, 0⟩ ⟨f, []⟩ hrel rfl (metaAllPos_nodup _ _) hp1 (by simp) (by
          rcases hQ with hQ | ⟨dk, st, h1, h2⟩
          · exact .inl hQ
          · right
            cases hl : Repair.metaLoop ref dry E.stopMeta 0 (Layout.metaAllPos ref.header.version (some d))
                ⟨⟨f, []⟩, buffer, Block.dummy, ref', Repair.Stats.zero⟩ with
            | error e => rw [hl] at h1; cases h1
            | ok m =>
              rw [hl] at h1
              simp only at h1
              cases hd' : Repair.dataLoop E.rs ref d dry total E.stopData N 1 ⟨m.disk, codec, m.block, m.stats⟩ with
              | error e => rw [hd'] at h1; cases h1
              | ok s =>
                rw [hd'] at h1
                simp only [Except.ok.injEq, Prod.mk.injEq] at h1
                obtain ⟨rfl, rfl⟩ := h1
                obtain ⟨ws, e⟩ := dataLoop_ops E.rs ref d hd dry total E.stopData N 1 _ _ (by omega) (by simp [hi0]) hd'
                rw [e] at h2
                exact ⟨m, rfl, R.earlier _ _ h2⟩)
      cases hl : Repair.metaLoop ref dry E.stopMeta 0 (Layout.metaAllPos ref.header.version (some d))
          ⟨⟨f, []⟩, buffer, Block.dummy, ref', Repair.Stats.zero⟩ with
      | error e =>
        rw [hl] at hm
        simp only at hm ⊢
        generalize repairMeta A ref dry E.stopMeta 0 (Layout.metaAllPos ref.header.version (some d))
          ⟨⟨f, []⟩, buffer, Block.dummy, ref', Repair.Stats.zero⟩ ⟨f, 0⟩ = r at hm ⊢
        obtain ⟨r1, r2⟩ := r
        simp only at hm
        subst hm
        rfl
      | ok m =>
        rw [hl] at hm hQ
        simp only at hm hQ ⊢
        obtain ⟨ws, e, hw⟩ := metaLoop_ops _ _ _ _ _ _ _ hl
        simp only [List.nil_append] at e
        generalize repairMeta A ref dry E.stopMeta 0 (Layout.metaAllPos ref.header.version (some d))
          ⟨⟨f, []⟩, buffer, Block.dummy, ref', Repair.Stats.zero⟩ ⟨f, 0⟩ = r at hm ⊢
        obtain ⟨dv, r2⟩ := r
        obtain ⟨h1, h2⟩ := hm
        simp only at h1 h2
        rcases h2 with ⟨⟨x, rfl, dk', rfl⟩, h3⟩ | ⟨rfl, h3⟩
        · simp only
          have hm' : m.disk = ⟨f, m.disk.ops⟩ := by rw [e]
          have := repairData_sim E.rs ref R d hd dry total E.stopData hp2 N 1 ⟨m.disk, codec, m.block, m.stats⟩ dv dk' (by omega)
            (by simp [hi0]) (by rw [hm']; exact h3) (by rw [e]) (by
              intro w hw' i hi
              rw [e] at hw'
              exact meta_not_data hd (hw w hw') i hi) (by
              rcases hQ with hQ | ⟨dk, st, h1, h2⟩
              · exact .inl hQ
              · right
                cases hd' : Repair.dataLoop E.rs ref d dry total E.stopData N 1 ⟨m.disk, codec, m.block, m.stats⟩ with
                | error e => rw [hd'] at h1; cases h1
                | ok s =>
                  rw [hd'] at h1
                  simp only [Except.ok.injEq, Prod.mk.injEq] at h1
                  obtain ⟨rfl, rfl⟩ := h1
                  exact ⟨s, rfl, h2⟩)
          cases hd' : Repair.dataLoop E.rs ref d dry total E.stopData N 1 ⟨m.disk, codec, m.block, m.stats⟩ with
          | error e => rw [hd'] at this; exact this
          | ok s =>
            rw [hd'] at this
            obtain ⟨ws', e'⟩ := dataLoop_ops E.rs ref d hd dry total E.stopData N 1 _ _ (by omega) (by simp [hi0]) hd'
            refine ⟨?_, this⟩
            rw [e']
            simp only
            rw [e]
        · simp only
          cases hd' : Repair.dataLoop E.rs ref d dry total E.stopData N 1 ⟨m.disk, codec, m.block, m.stats⟩ with
          | error e => simp only
          | ok s =>
            obtain ⟨ws', e'⟩ := dataLoop_ops E.rs ref d hd dry total E.stopData N 1 _ _ (by omega) (by simp [hi0]) hd'
            obtain ⟨b1, b2⟩ := bad_append h3 ws'
            simp only at e' ⊢
            rw [e']
            refine ⟨by rw [e], ?_, .inr ⟨rfl, b1⟩⟩
            rw [b2]; exact h1

/-- Answers that take everything or are errors. -/
theorem reads_whole {A : Answers} (hA : WholeOrError A) (f : File) (len : Nat) (place : Nat → Prop) : Reads A f len place fun _ => True where
  earlier _ _ _ := trivial
  same ws g p _ h _ _ := by rw [carriedOut_whole hA _ _ _ _ h]

end Verif.Device
