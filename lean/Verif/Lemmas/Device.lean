import Verif.Model.Device
import Verif.Spec.Device
import Verif.Lemmas.FileBlocks
import Verif.Lemmas.PipelineSim
/-!
# Commands writing to a fallible device, compared with the same commands when all writes are carried out
-/

namespace Verif.Pipeline

variable {n : Nat} {S S' M : Type} {R : Ring (n + 1) S M} {R' : Ring (n + 1) S' M} {rel : Fin (n + 1) → S → S' → Prop} {bad : Fin (n + 1) → S' → Prop}
  {P : M → Prop}

/-- Threads of `R` either do what those of `R'` do, or give up; in that case `bad` holds of the corresponding thread of `R'`, for ever.
`P` holds of all messages. -/
structure SimTo (R : Ring (n + 1) S M) (R' : Ring (n + 1) S' M) (rel : Fin (n + 1) → S → S' → Prop) (bad : Fin (n + 1) → S' → Prop)
    (P : M → Prop) : Prop where
  step : ∀ i s s' m, P m → rel i s s' →
    ((R.step i s m).2 = none ∧ i ≠ 0 ∧ bad i (R'.step i s' m).1) ∨
      ((R.step i s m).2 = (R'.step i s' m).2 ∧ rel i (R.step i s m).1 (R'.step i s' m).1)
  sticky : ∀ i s' m, bad i s' → bad i (R'.step i s' m).1
  msgs : ∀ i s' m, P m → ∀ outs, (R'.step i s' m).2 = some outs → ∀ x ∈ outs, P x

theorem SimTo.stage_sticky (h : SimTo R R' rel bad P) (i : Fin (n + 1)) (ms : List M) : ∀ s a o, bad i s → R'.stage i s ms = some (a, o) →
    bad i a := by
  induction ms with
  | nil => intro s a o hb e; simp only [Ring.stage, Option.some.injEq, Prod.mk.injEq] at e; rw [← e.1]; exact hb
  | cons m ms ih =>
    intro s a o hb e
    unfold Ring.stage at e
    have h1 := h.sticky i s m hb
    rcases hs : R'.step i s m with ⟨t, x⟩
    rw [hs] at e h1
    cases x with
    | none => simp at e
    | some outs =>
      simp only at e
      rcases hr : R'.stage i t ms with _ | ⟨b, o'⟩
      · rw [hr] at e; simp at e
      · rw [hr] at e
        simp only [Option.map_some, Option.some.injEq, Prod.mk.injEq] at e
        rw [← e.1]; exact ih t b o' h1 hr

theorem SimTo.pass_sticky (h : SimTo R R' rel bad P) (j : Fin (n + 1)) (is : List (Fin (n + 1))) :
    ∀ (st a : Fin (n + 1) → S') (ms o : List M), bad j (st j) → R'.pass is st ms = some (a, o) → bad j (a j) := by
  induction is with
  | nil => intro st a ms o hb e; simp only [Ring.pass, Option.some.injEq, Prod.mk.injEq] at e; rw [← e.1]; exact hb
  | cons i is ih =>
    intro st a ms o hb e
    unfold Ring.pass at e
    rcases hr : R'.stage i (st i) ms with _ | ⟨b, o'⟩
    · rw [hr] at e; simp at e
    · rw [hr] at e
      refine ih _ a o' o ?_ e
      by_cases hj : j = i
      · subst hj; simpa using h.stage_sticky j ms _ _ _ hb hr
      · simpa [Function.update_of_ne hj] using hb

theorem SimTo.run_sticky (h : SimTo R R' rel bad P) (j : Fin (n + 1)) (fuel : Nat) :
    ∀ (st a : Fin (n + 1) → S') (ms : List M), bad j (st j) → R'.runSeq fuel st ms = some a → bad j (a j) := by
  induction fuel with
  | zero => intro st a ms _ e; simp [Ring.runSeq] at e
  | succ fuel ih =>
    intro st a ms hb e
    cases ms with
    | nil => simp [Ring.runSeq] at e
    | cons m ms =>
      unfold Ring.runSeq at e
      rcases hs : R'.step 0 (st 0) m with ⟨t, x⟩
      rw [hs] at e
      cases x with
      | none =>
        simp only [Option.some.injEq] at e
        rw [← e]
        by_cases hj : j = 0
        · subst hj; have := h.sticky 0 _ m hb; rw [hs] at this; simpa using this
        · simpa [Function.update_of_ne hj] using hb
      | some outs =>
        simp only at e
        rcases hr : R'.pass (List.finRange (n + 1)) st [m] with _ | ⟨b, o'⟩
        · rw [hr] at e; simp at e
        · rw [hr] at e
          exact ih b a _ (h.pass_sticky j _ _ _ _ _ hb hr) e

theorem SimTo.stage (h : SimTo R R' rel bad P) (i : Fin (n + 1)) (ms : List M) (hP : ∀ m ∈ ms, P m) : ∀ s s', rel i s s' →
    (R.stage i s ms = none ∧ (∀ b o, R'.stage i s' ms = some (b, o) → bad i b)) ∨
      ∃ a b o, R.stage i s ms = some (a, o) ∧ R'.stage i s' ms = some (b, o) ∧ rel i a b ∧ ∀ x ∈ o, P x := by
  induction ms with
  | nil => intro s s' hr; exact .inr ⟨s, s', [], rfl, rfl, hr, by simp⟩
  | cons m ms ih =>
    intro s s' hr
    have h0 := h.step i s s' m (hP m List.mem_cons_self) hr
    have hm := h.msgs i s' m (hP m List.mem_cons_self)
    unfold Ring.stage
    rcases hs : R.step i s m with ⟨t, o⟩
    rcases hs' : R'.step i s' m with ⟨t', o'⟩
    rw [hs, hs'] at h0
    rw [hs'] at hm
    simp only at h0 hm
    rcases h0 with ⟨rfl, -, hb⟩ | ⟨rfl, h2⟩
    · refine .inl ⟨rfl, ?_⟩
      intro b o e
      cases o' with
      | none => simp at e
      | some outs =>
        simp only at e
        rcases hr : R'.stage i t' ms with _ | ⟨b', o''⟩
        · rw [hr] at e; simp at e
        · rw [hr] at e
          simp only [Option.map_some, Option.some.injEq, Prod.mk.injEq] at e
          rw [← e.1]; exact h.stage_sticky i ms _ _ _ hb hr
    · cases o with
      | none => exact .inl ⟨rfl, by simp⟩
      | some outs =>
        simp only
        rcases ih (fun x hx => hP x (List.mem_cons_of_mem _ hx)) t t' h2 with ⟨e1, e2⟩ | ⟨a, b, o, e1, e2, e3, e4⟩
        · rw [e1]
          refine .inl ⟨rfl, ?_⟩
          intro b o e
          rcases hr : R'.stage i t' ms with _ | ⟨b', o''⟩
          · rw [hr] at e; simp at e
          · rw [hr] at e
            simp only [Option.map_some, Option.some.injEq, Prod.mk.injEq] at e
            rw [← e.1]; exact e2 _ _ hr
        · rw [e1, e2]; exact .inr ⟨a, b, outs ++ o, rfl, rfl, e3, fun x hx =>
            (List.mem_append.1 hx).elim (hm outs rfl x) (e4 x)⟩

theorem SimTo.pass (h : SimTo R R' rel bad P) (is : List (Fin (n + 1))) : ∀ (st : Fin (n + 1) → S) (st' : Fin (n + 1) → S') (ms : List M),
    (∀ m ∈ ms, P m) → (∀ i, rel i (st i) (st' i)) →
    (R.pass is st ms = none ∧ (∀ b o, R'.pass is st' ms = some (b, o) → ∃ i, bad i (b i))) ∨
      ∃ a b o, R.pass is st ms = some (a, o) ∧ R'.pass is st' ms = some (b, o) ∧ (∀ i, rel i (a i) (b i)) ∧ ∀ x ∈ o, P x := by
  induction is with
  | nil => intro st st' ms hP hr; exact .inr ⟨st, st', ms, rfl, rfl, hr, hP⟩
  | cons i is ih =>
    intro st st' ms hP hr
    unfold Ring.pass
    rcases h.stage i ms hP (st i) (st' i) (hr i) with ⟨e1, e2⟩ | ⟨a, b, o, e1, e2, e3, e4⟩
    · rw [e1]
      refine .inl ⟨rfl, ?_⟩
      intro b o e
      rcases hx : R'.stage i (st' i) ms with _ | ⟨b', o'⟩
      · rw [hx] at e; simp at e
      · rw [hx] at e
        refine ⟨i, h.pass_sticky i is _ _ _ _ ?_ e⟩
        simpa using e2 _ _ hx
    · rw [e1, e2]
      apply ih _ _ _ e4
      intro j
      by_cases hj : j = i
      · subst hj; simpa using e3
      · simpa [Function.update_of_ne hj] using hr j

theorem SimTo.runSeq (h : SimTo R R' rel bad P) (fuel : Nat) :
    ∀ (st : Fin (n + 1) → S) (st' : Fin (n + 1) → S') (ms : List M), (∀ m ∈ ms, P m) →
    (∀ i, rel i (st i) (st' i)) →
    (R.runSeq fuel st ms = none ∧ ∀ b, R'.runSeq fuel st' ms = some b → ∃ i, bad i (b i)) ∨
      ∃ a b, R.runSeq fuel st ms = some a ∧ R'.runSeq fuel st' ms = some b ∧ ∀ i, rel i (a i) (b i) := by
  induction fuel with
  | zero => intros; exact .inl ⟨rfl, by simp [Ring.runSeq]⟩
  | succ fuel ih =>
    intro st st' ms hP hr
    cases ms with
    | nil => exact .inl ⟨rfl, by simp [Ring.runSeq]⟩
    | cons m ms =>
      have h0 := h.step 0 (st 0) (st' 0) m (hP m List.mem_cons_self) (hr 0)
      unfold Ring.runSeq
      rcases hs : R.step 0 (st 0) m with ⟨t, o⟩
      rcases hs' : R'.step 0 (st' 0) m with ⟨t', o'⟩
      rw [hs, hs'] at h0
      simp only [ne_eq, not_true_eq_false, false_and, and_false, false_or] at h0
      obtain ⟨rfl, h2⟩ := h0
      cases o with
      | none =>
        refine .inr ⟨_, _, rfl, rfl, ?_⟩
        intro j
        by_cases hj : j = 0
        · subst hj; simpa using h2
        · simpa [Function.update_of_ne hj] using hr j
      | some outs =>
        simp only
        rcases h.pass (List.finRange (n + 1)) st st' [m] (fun x hx => by
            rw [List.mem_singleton.1 hx]; exact hP m List.mem_cons_self) hr with ⟨e1, e2⟩ | ⟨a, b, o, e1, e2, e3, e4⟩
        · rw [e1]
          refine .inl ⟨rfl, ?_⟩
          intro b e
          rcases hx : R'.pass (List.finRange (n + 1)) st' [m] with _ | ⟨b', o'⟩
          · rw [hx] at e; simp at e
          · rw [hx] at e
            obtain ⟨i, hi⟩ := e2 _ _ hx
            exact ⟨i, h.run_sticky i fuel _ _ _ hi e⟩
        · rw [e1, e2]
          refine ih a b _ ?_ e3
          intro x hx
          rcases List.mem_append.1 hx with hx | hx
          · exact hP x (List.mem_cons_of_mem _ hx)
          · exact e4 x hx

end Verif.Pipeline

namespace Verif.Device
open BlockRing DeviceSpec

/-- A device compared with a file on which all writes are carried out.  `bad` holds of the files for which the device has refused a
write; `ok` restricts the writes considered; `reads`: the device may be read. -/
structure DevSim {D : Type} (o : Out D) (rel : D → Disk → Prop) (bad ok : Disk → Prop) (reads : Bool) : Prop where
  write : ∀ d k pos bs, rel d k →
    (o.write d pos bs = none ∧ bad (k.writeAt pos bs)) ∨ ∃ d', o.write d pos bs = some d' ∧ rel d' (k.writeAt pos bs)
  read : reads = true → ∀ d k pos len, rel d k →
    (o.read d pos len = none ∧ bad k) ∨ ∃ d' bs, o.read d pos len = some (d', bs) ∧ rel d' k ∧ (ok k → bs = k.file.readAt pos len)
  bad_write : ∀ k pos bs, bad k → bad (k.writeAt pos bs)
  vacuous : ∀ d k, ¬ ok k → rel d k ∧ bad k
  ok_write : ∀ k pos bs, ok (k.writeAt pos bs) → ok k

/-- Either the device has refused (and then `bad` holds of the file), or device and file are related. -/
def Both {D : Type} (rel : D → Disk → Prop) (bad : Disk → Prop) (d : Option D) (k : Disk) : Prop :=
  (d = none ∧ bad k) ∨ ∃ d', d = some d' ∧ rel d' k

theorem Both.foldlM {D α : Type} {rel : D → Disk → Prop} {bad : Disk → Prop} {f : D → α → Option D} {g : Disk → α → Disk}
    (h : ∀ d k a, rel d k → Both rel bad (f d a) (g k a)) (hb : ∀ k a, bad k → bad (g k a)) (l : List α) :
    ∀ d k, rel d k → Both rel bad (l.foldlM f d) (l.foldl g k) := by
  have hbs : ∀ (l : List α) k, bad k → bad (l.foldl g k) := by
    intro l
    induction l with
    | nil => intro k hk; exact hk
    | cons a l ih => intro k hk; exact ih _ (hb k a hk)
  induction l with
  | nil => intro d k hr; exact .inr ⟨d, rfl, hr⟩
  | cons a l ih =>
    intro d k hr
    rw [List.foldlM_cons, List.foldl_cons]
    rcases h d k a hr with ⟨e, hbad⟩ | ⟨d', e, hr'⟩
    · rw [e]; exact .inl ⟨rfl, hbs l _ hbad⟩
    · rw [e]; exact ih d' _ hr'

theorem foldl_bad {α : Type} {bad : Disk → Prop} {g : Disk → α → Disk} (hb : ∀ k a, bad k → bad (g k a)) (l : List α) :
    ∀ k, bad k → bad (l.foldl g k) := by
  induction l with
  | nil => intro k hk; exact hk
  | cons a l ih => intro k hk; exact ih _ (hb k a hk)

theorem readAt_zero (f : File) (pos len : Nat) : File.readAt (f.readAt pos len) 0 len = f.readAt pos len := by
  unfold File.readAt
  rw [List.drop_zero, List.take_take, Nat.min_self]

theorem doWrite_read (c : LotCfg) (s : Slot) (pos : Nat) (f : File) :
    Lot.doWrite c s 0 (f.readAt pos (checkLen c)) = Lot.doWrite c s pos f := by
  unfold Lot.doWrite checkLen
  cases c.outputType <;> simp only [readAt_zero]

variable {D : Type} {o : Out D} {rel : D → Disk → Prop} {bad ok : Disk → Prop} {reads : Bool}

theorem DevSim.writeSlot (h : DevSim o rel bad ok reads) {c : LotCfg} (hs : c.skipGood = true → reads = true) (d : D) (k : Disk) (s : Slot)
    (hr : rel d k) : Both rel bad (writeSlot o c d s) (Lot.writeSlot c k s) := by
  unfold Device.writeSlot Lot.writeSlot
  cases s.writePos with
  | none => exact .inr ⟨d, rfl, hr⟩
  | some pos =>
    simp only
    cases hsk : c.skipGood with
    | false => simpa [Both] using h.write d k pos (Lot.slotBytes c s) hr
    | true =>
      simp only [if_true, Bool.true_and]
      rcases h.read (hs hsk) d k pos (checkLen c) hr with ⟨e, hb⟩ | ⟨d', bs, e, hr', hbs⟩
      · rw [e]
        refine .inl ⟨rfl, ?_⟩
        split
        · exact hb
        · exact h.bad_write _ _ _ hb
      · rw [e]
        simp only
        by_cases hok : ok k
        · rw [hbs hok, doWrite_read]
          cases Lot.doWrite c s pos k.file with
          | true => simpa [Both] using h.write d' k pos (Lot.slotBytes c s) hr'
          | false => exact .inr ⟨d', rfl, hr'⟩
        · have hbad : bad (if (!Lot.doWrite c s pos k.file) = true then k else k.writeAt pos (Lot.slotBytes c s)) := by
            split
            · exact (h.vacuous d k hok).2
            · exact h.bad_write _ _ _ (h.vacuous d k hok).2
          have hrel : ∀ d', rel d' (if (!Lot.doWrite c s pos k.file) = true then k else k.writeAt pos (Lot.slotBytes c s)) := by
            intro d'
            split
            · exact (h.vacuous d' k hok).1
            · exact (h.vacuous d' _ fun hk => hok (h.ok_write _ _ _ hk)).1
          split
          · cases hw : o.write d' pos (Lot.slotBytes c s) with
            | none => exact .inl ⟨rfl, hbad⟩
            | some d2 => exact .inr ⟨d2, rfl, hrel d2⟩
          · exact .inr ⟨d', rfl, hrel d'⟩

theorem DevSim.bad_slot (h : DevSim o rel bad ok reads) (c : LotCfg) (k : Disk) (s : Slot) (hb : bad k) : bad (Lot.writeSlot c k s) := by
  unfold Lot.writeSlot
  split
  · exact hb
  · split
    · exact hb
    · exact h.bad_write _ _ _ hb

/-- The lots of a buffer check what is in the output file only if `reads`. -/
def SkipIs (reads : Bool) (b : Buffer) : Prop := ∀ c ∈ b.lots.map (·.cfg), c.skipGood = true → reads = true

theorem DevSim.lots (h : DevSim o rel bad ok reads) (ls : List Lot) (hs : ∀ l ∈ ls, l.cfg.skipGood = true → reads = true) :
    ∀ d k, rel d k → Both rel bad (ls.foldlM (writeLot o) d) (ls.foldl (fun d l => l.write d) k) := by
  induction ls with
  | nil => intro d k hr; exact .inr ⟨d, rfl, hr⟩
  | cons l ls ih =>
    intro d k hr
    have h1 : Both rel bad (writeLot o d l) (l.write k) := by
      unfold writeLot Lot.write
      exact Both.foldlM (fun d k s hr => h.writeSlot (hs l List.mem_cons_self) d k s hr) (fun k s hb => h.bad_slot _ k s hb) _ d k hr
    rw [List.foldlM_cons, List.foldl_cons]
    rcases h1 with ⟨e, hb⟩ | ⟨d', e, hr'⟩
    · rw [e]
      refine .inl ⟨rfl, ?_⟩
      exact foldl_bad (fun k (l : Lot) hb => foldl_bad (fun k s hb => h.bad_slot _ k s hb) _ k hb) ls _ hb
    · rw [e]; exact ih (fun l hl => hs l (List.mem_cons_of_mem _ hl)) d' _ hr'

theorem DevSim.bad_buffer (h : DevSim o rel bad ok reads) (b : Buffer) (k : Disk) (hb : bad k) : bad (b.write k).2 :=
  foldl_bad (fun k (l : Lot) hb => foldl_bad (fun k s hb => h.bad_slot _ k s hb) _ k hb) _ _ hb

theorem calc_cfgs (b : Buffer) : b.calcSlotWritePos.lots.map (·.cfg) = b.lots.map (·.cfg) := by
  unfold Buffer.calcSlotWritePos Lot.calcSlotWritePos
  rw [List.map_map]
  rfl

theorem DevSim.buffer (h : DevSim o rel bad ok reads) (b : Buffer) (hs : SkipIs reads b) (d : D) (k : Disk) (hr : rel d k) :
    (writeBuffer o b d = none ∧ bad (b.write k).2) ∨ ∃ d', writeBuffer o b d = some ((b.write k).1, d') ∧ rel d' (b.write k).2 := by
  unfold writeBuffer Buffer.write
  rcases h.lots b.calcSlotWritePos.lots (fun l hl => hs l.cfg (by rw [← calc_cfgs]; exact List.mem_map_of_mem hl)) d k hr with ⟨e, hb⟩ | ⟨d', e, hr'⟩
  · rw [e]; exact .inl ⟨rfl, hb⟩
  · rw [e]; exact .inr ⟨d', rfl, hr'⟩

end Verif.Device
