import Verif.Lemmas.Device
/-!
# The devices, and the configuration of the buffers
-/

namespace Verif.Device
open BlockRing DeviceSpec

/-! ### Unbuffered files -/

theorem carriedOut_append (A : Answers) (ws ws' : List (Nat × List Byte)) : ∀ n f,
    carriedOut A n f (ws ++ ws') = (carriedOut A n f ws).bind fun g => carriedOut A (n + ws.length) g ws' := by
  induction ws with
  | nil => intro n f; rfl
  | cons w ws ih =>
    intro n f
    obtain ⟨pos, bs⟩ := w
    simp only [List.cons_append, carriedOut, List.length_cons]
    cases A n bs with
    | none => rfl
    | some k => simp only; rw [ih, Nat.add_right_comm, Nat.add_assoc]

theorem carriedOut_whole {A : Answers} (hA : WholeOrError A) (ws : List (Nat × List Byte)) : ∀ n f g, carriedOut A n f ws = some g →
    g = f.writes ws := by
  induction ws with
  | nil => intro n f g h; simp only [carriedOut, Option.some.injEq] at h; exact h.symm
  | cons w ws ih =>
    intro n f g h
    obtain ⟨pos, bs⟩ := w
    simp only [carriedOut] at h
    cases hk : A n bs with
    | none => rw [hk] at h; simp at h
    | some k =>
      rw [hk] at h
      simp only at h
      rw [List.take_of_length_le (hA _ _ _ hk)] at h
      exact ih _ _ _ h

theorem carriedOut_never {A : Answers} (hA : NeverError A) (ws : List (Nat × List Byte)) : ∀ n f, ∃ g, carriedOut A n f ws = some g := by
  induction ws with
  | nil => intro n f; exact ⟨f, rfl⟩
  | cons w ws ih =>
    intro n f
    obtain ⟨pos, bs⟩ := w
    simp only [carriedOut]
    cases hk : A n bs with
    | none => exact absurd hk (hA _ _)
    | some k => exact ih _ _

/-- The device has taken what it was given, as told by the answers. -/
def PlainRel (A : Os) (d : Plain) (k : Disk) : Prop := carriedOut A 0 k.init k.ops = some d.file ∧ d.calls = k.ops.length

/-- A call was answered with an error. -/
def PlainBad (A : Os) (k : Disk) : Prop := carriedOut A 0 k.init k.ops = none

theorem plain_sim (A : Os) (reads : Bool) (hA : reads = true → WholeOrError A) :
    DevSim (plain A) (PlainRel A) (PlainBad A) (fun _ => True) reads where
  write d k pos bs h := by
    obtain ⟨h1, h2⟩ := h
    have e : carriedOut A 0 (k.writeAt pos bs).init (k.writeAt pos bs).ops =
        match A d.calls bs with
        | none => none
        | some n => some (d.file.writeAt pos (bs.take n)) := by
      show carriedOut A 0 k.init (k.ops ++ [(pos, bs)]) = _
      rw [carriedOut_append, h1, h2]
      simp only [Option.bind_some, Nat.zero_add, carriedOut]
      cases A k.ops.length bs <;> rfl
    simp only [plain, Plain.write]
    cases ha : A d.calls bs with
    | none => rw [ha] at e; exact .inl ⟨rfl, e⟩
    | some n =>
      rw [ha] at e
      refine .inr ⟨_, rfl, e, ?_⟩
      simp [Disk.writeAt, h2]
  read hr d k pos len h := by
    refine .inr ⟨d, _, rfl, h, fun _ => ?_⟩
    rw [carriedOut_whole (hA hr) _ _ _ _ h.1]
    rfl
  bad_write k pos bs h := by
    show carriedOut A 0 k.init (k.ops ++ [(pos, bs)]) = none
    rw [carriedOut_append, h]; rfl
  vacuous d k h := absurd trivial h
  ok_write _ _ _ _ := trivial

/-! ### Buffered files -/

theorem writeAt_nil (f : File) (pos : Nat) : f.writeAt pos [] = f := by simp [File.writeAt]

theorem writeAt_writeAt (f : File) (pos : Nat) (a b : List Byte) :
    (f.writeAt pos a).writeAt (pos + a.length) b = f.writeAt pos (a ++ b) := by
  by_cases ha : a = []
  · subst ha; rw [writeAt_nil]; simp
  by_cases hb : b = []
  · subst hb; rw [writeAt_nil]; simp
  have hab : a ++ b ≠ [] := by simp [ha]
  apply List.ext_getElem?
  intro i
  rw [File.getElem?_writeAt _ _ _ hb, File.getElem?_writeAt _ _ _ ha, File.getElem?_writeAt _ _ _ hab, File.writeAt_length _ _ _ ha]
  rw [List.length_append]
  by_cases h1 : i < pos
  · simp only [if_pos h1, if_pos (show i < pos + a.length by omega)]
    by_cases h2 : i < f.length
    · rw [if_pos (show i < max f.length (pos + a.length) by omega), if_pos h2]
    · rw [if_pos (show i < max f.length (pos + a.length) by omega), if_neg h2]
  · by_cases h3 : i < pos + a.length
    · simp only [if_neg h1, if_pos h3, if_pos (show i < pos + (a.length + b.length) by omega)]
      rw [if_pos (show i < max f.length (pos + a.length) by omega), List.getElem?_append_left (by omega)]
    · simp only [if_neg h1, if_neg h3, ← Nat.add_assoc]
      by_cases h4 : i < pos + a.length + b.length
      · rw [if_pos h4, if_pos h4, List.getElem?_append_right (by omega), Nat.sub_sub]
      · rw [if_neg h4, if_neg h4]

theorem flushLoop_spec (A : Os) : ∀ fuel (d : Buffered), d.buf.length ≤ fuel →
    (∃ j, (d.flushLoop A fuel).1.file = d.file.writeAt d.pos (d.buf.take j)) ∧
      ((d.flushLoop A fuel).2 = true → (d.flushLoop A fuel).1.buf = [] ∧
        (d.flushLoop A fuel).1.file = d.file.writeAt d.pos d.buf) := by
  intro fuel
  induction fuel with
  | zero =>
    intro d h
    have hb : d.buf = [] := List.eq_nil_of_length_eq_zero (by omega)
    unfold Buffered.flushLoop
    refine ⟨⟨0, ?_⟩, fun _ => ⟨hb, ?_⟩⟩
    · rw [List.take_zero, writeAt_nil]
    · rw [hb, writeAt_nil]
  | succ fuel ih =>
    intro d h
    unfold Buffered.flushLoop
    by_cases hb : d.buf = []
    · rw [if_pos hb]
      refine ⟨⟨0, ?_⟩, fun _ => ⟨hb, ?_⟩⟩
      · rw [List.take_zero, writeAt_nil]
      · rw [hb, writeAt_nil]
    · rw [if_neg hb]
      have hl : 0 < d.buf.length := List.length_pos_iff.2 hb
      split
      · refine ⟨⟨0, ?_⟩, fun h => by simp at h⟩
        rw [List.take_zero, writeAt_nil]
      · refine ⟨⟨0, ?_⟩, fun h => by simp at h⟩
        rw [List.take_zero, writeAt_nil]
      · rename_i k _
        obtain ⟨⟨j, h1⟩, h2⟩ := ih ⟨d.file.writeAt d.pos (d.buf.take (k + 1)), d.pos + (d.buf.take (k + 1)).length, d.buf.drop (k + 1),
          d.calls + 1⟩ (by simp only [List.length_drop]; omega)
        refine ⟨⟨k + 1 + j, ?_⟩, fun hok => ?_⟩
        · rw [h1]
          simp only
          rw [writeAt_writeAt, ← List.take_add]
        · obtain ⟨g1, g2⟩ := h2 hok
          refine ⟨g1, ?_⟩
          rw [g2]
          simp only
          rw [writeAt_writeAt, List.take_append_drop]

/-- All writes issued are at most a block. -/
def Short (k : Disk) : Prop := ∀ w ∈ k.ops, w.2.length ≤ largestBlockSize

/-- Everything is in the file, or everything but the last write, which is in the buffer. -/
def BufRel (d : Buffered) (k : Disk) : Prop :=
  Short k → (d.buf = [] ∧ d.file = k.file) ∨ ∃ ws, k.ops = ws ++ [(d.pos, d.buf)] ∧ d.file = k.init.writes ws

theorem BufRel.flush {A : Os} {d : Buffered} {k : Disk} (h : BufRel d k) (hk : Short k) (hok : (d.flush A).2 = true) :
    (d.flush A).1.buf = [] ∧ (d.flush A).1.file = k.file := by
  obtain ⟨h1, h2⟩ := (flushLoop_spec A d.buf.length d (Nat.le_refl _)).2 hok
  refine ⟨h1, ?_⟩
  show (d.flushLoop A d.buf.length).1.file = _
  rw [h2]
  rcases h hk with ⟨e1, e2⟩ | ⟨ws, e1, e2⟩
  · rw [e1, writeAt_nil, e2]
  · rw [e2]
    unfold Disk.file
    rw [e1]
    unfold File.writes
    rw [List.foldl_append]
    rfl

theorem BufRel.close {A : Os} {d : Buffered} {k : Disk} (h : BufRel d k) (hk : Short k) :
    d.close A = k.file ∨
      ∃ ws pos bs j, k.ops = ws ++ [(pos, bs)] ∧ d.close A = (k.init.writes ws).writeAt pos (bs.take j) := by
  obtain ⟨j, hj⟩ := (flushLoop_spec A d.buf.length d (Nat.le_refl _)).1
  have hc : d.close A = d.file.writeAt d.pos (d.buf.take j) := hj
  rw [hc]
  rcases h hk with ⟨e1, e2⟩ | ⟨ws, e1, e2⟩
  · left; rw [e1, List.take_nil, writeAt_nil, e2]
  · right; exact ⟨ws, d.pos, d.buf, j, e1, by rw [e2]⟩

theorem buffered_sim (A : Os) : DevSim (buffered A) BufRel (fun _ => True) Short true where
  write d k pos bs h := by
    simp only [buffered, Buffered.write, Buffered.seek]
    rcases hf : d.flush A with ⟨d1, b⟩
    cases b with
    | false => exact .inl ⟨rfl, trivial⟩
    | true =>
      simp only
      have hfl : Short k → d1.buf = [] ∧ d1.file = k.file := by
        intro hk
        have := h.flush hk (A := A) (by rw [hf])
        rw [hf] at this
        exact this
      by_cases hs : Short (k.writeAt pos bs)
      · have hbs : bs.length ≤ largestBlockSize := hs (pos, bs) (by simp [Disk.writeAt])
        have hk : Short k := fun w hw => hs w (by simp [Disk.writeAt, hw])
        obtain ⟨g1, g2⟩ := hfl hk
        have hcap : ¬ capacity < d1.buf.length + bs.length := by
          rw [g1]; simp only [List.length_nil, Nat.zero_add, capacity]
          have : largestBlockSize = 4096 := rfl
          omega
        have hcap2 : bs.length < capacity := by
          have : largestBlockSize = 4096 := rfl
          unfold capacity; omega
        unfold Buffered.put
        simp only
        rw [if_neg hcap]
        simp only
        rw [if_pos hcap2]
        refine .inr ⟨_, rfl, fun _ => .inr ⟨k.ops, ?_, ?_⟩⟩
        · simp only [g1, List.nil_append]; rfl
        · simp only; rw [g2]; rfl
      · have hv : ∀ d', BufRel d' (k.writeAt pos bs) := fun d' hh => absurd hh hs
        cases hr : Buffered.put A { d1 with pos := pos } bs with
        | none => exact .inl ⟨rfl, trivial⟩
        | some d' => exact .inr ⟨d', rfl, hv d'⟩
  read _ d k pos len h := by
    simp only [buffered, Buffered.read, Buffered.seek]
    rcases hf : d.flush A with ⟨d1, b⟩
    cases b with
    | false => exact .inl ⟨rfl, trivial⟩
    | true =>
      simp only
      have hfl : Short k → d1.buf = [] ∧ d1.file = k.file := by
        intro hk
        have := h.flush hk (A := A) (by rw [hf])
        rw [hf] at this
        exact this
      refine .inr ⟨_, _, rfl, fun hk => .inl (hfl hk), fun hk => ?_⟩
      rw [(hfl hk).2]
  bad_write _ _ _ _ := trivial
  vacuous d k h := ⟨fun hk => absurd hk h, trivial⟩
  ok_write k pos bs h := fun w hw => h w (by simp [Disk.writeAt, hw])

end Verif.Device
