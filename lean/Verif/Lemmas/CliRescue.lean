import Verif.Spec.CliRescue
import Verif.Props.Paths
import Verif.Props.Rescue
import Verif.Lemmas.DeviceRescue
/-!
# Rescue on a file system: names, places and contents
-/

namespace Verif.Command
open PathSpec Rescue Pipeline RescueSpec Misc

/-! ### Names -/

theorem text_inj {a b : List Byte} (h : text a = text b) : a = b := by
  unfold text at h
  have hi : Function.Injective fun b : Byte => Char.ofNat b.toNat := by
    intro x y hxy
    have : ∀ z : Byte, (Char.ofNat z.toNat).toNat = z.toNat := by
      intro z
      have hz := z.toNat_lt
      have hv : (z.toNat).isValidChar := .inl (by omega)
      unfold Char.ofNat
      rw [dif_pos hv]
      rfl
    have h1 := congrArg Char.toNat hxy
    simp only [this] at h1
    exact UInt8.toNat_inj.1 h1
  exact List.map_injective_iff.2 hi h

theorem hexByte_digit (b x : Byte) (hx : x ∈ hexByte 0x41 b) :
    Char.ofNat x.toNat ≠ '/' ∧ Char.ofNat x.toNat ≠ Char.ofNat 0 ∧ Char.ofNat x.toNat ≠ '.' := by
  have key : ∀ n : Fin 16, Char.ofNat (hexDigit 0x41 n).toNat ≠ '/' ∧ Char.ofNat (hexDigit 0x41 n).toNat ≠ Char.ofNat 0 ∧
      Char.ofNat (hexDigit 0x41 n).toNat ≠ '.' := by decide +kernel
  have hb := b.toNat_lt
  simp only [hexByte, List.mem_cons, List.not_mem_nil, or_false] at hx
  rcases hx with rfl | rfl
  · exact key ⟨b.toNat / 16, by omega⟩
  · exact key ⟨b.toNat % 16, by omega⟩

theorem hexName_mem {u : Uid} {c : Char} (h : c ∈ hexName u) : c ≠ '/' ∧ c ≠ Char.ofNat 0 ∧ c ≠ '.' := by
  obtain ⟨x, hx, rfl⟩ := List.mem_map.1 h
  obtain ⟨b, -, hb⟩ := List.mem_flatMap.1 hx
  exact hexByte_digit b x hb

theorem hexByte_length (b : Byte) : (hexByte 0x41 b).length = 2 := rfl

theorem upperHex_length (l : List Byte) : (upperHex l).length = 2 * l.length := by
  unfold upperHex
  induction l with
  | nil => rfl
  | cons b l ih => rw [List.flatMap_cons, List.length_append, ih, hexByte_length, List.length_cons]; omega

theorem hexName_length (u : Uid) : (hexName u).length = 12 := by
  unfold hexName text
  rw [List.length_map, upperHex_length, u.2]

theorem hexName_isName (u : Uid) : IsName (hexName u) := by
  have hl := hexName_length u
  refine ⟨?_, ?_, ?_, ?_, ?_⟩
  · intro e; rw [e] at hl; cases hl
  · intro e; rw [e] at hl; cases hl
  · intro e; rw [e] at hl; cases hl
  · intro h; exact (hexName_mem h).1 rfl
  · intro h; exact (hexName_mem h).2.1 rfl

theorem hexName_inj {u v : Uid} (h : hexName u = hexName v) : u = v := C31_names (text_inj h)

/-! ### The names of the writer's events -/

/-- Only files named after uids are appended to. -/
def HexNames (evs : List Event) : Prop := ∀ name bs, .append name bs ∈ evs → ∃ u : Uid, name = upperHex u.bytes

theorem write_names (b : Rescue.Buffer) (g : List (Uid × List Nat)) : HexNames (b.write g) := by
  intro name bs h
  unfold Rescue.Buffer.write at h
  obtain ⟨x, -, hx⟩ := List.mem_flatMap.1 h
  obtain ⟨i, -, hi⟩ := List.mem_filterMap.1 hx
  obtain ⟨s, -, hs⟩ := Option.map_eq_some_iff.1 hi
  cases hs
  exact ⟨_, rfl⟩

theorem step_names {E : Rescue.Env} {p : Rescue.Param} {f : File} {req : Nat} {s t : Sys 3 St Msg} (h : (ring E p f req).Step s t)
    (hs : HexNames (s.thread 2).st.events) : HexNames (t.thread 2).st.events := by
  obtain ⟨i, h⟩ := h
  unfold Ring.stepT at h
  split at h
  · cases h
  · rename_i th e ha
    simp only [Option.some.injEq] at h
    rw [← h]
    simp only
    by_cases hi : (2 : Fin 3) = i
    · subst hi
      rw [Function.update_self]
      unfold Ring.act at ha
      split at ha
      · split at ha
        · cases ha
        · simp only [Option.some.injEq, Prod.mk.injEq] at ha
          rw [← ha.1]; exact hs
        · rename_i m _
          have hst : (ring E p f req).step 2 (s.thread 2).st m = writerStep E (s.thread 2).st m := rfl
          rw [hst] at ha
          unfold writerStep at ha
          simp only [Option.some.injEq, Prod.mk.injEq] at ha
          rw [← ha.1]
          intro name bs hm
          simp only [List.mem_append, List.mem_singleton, reduceCtorEq, or_false] at hm
          rcases hm with hm | hm
          · exact hs _ _ hm
          · exact write_names _ _ _ _ hm
      · simp only [Option.some.injEq, Prod.mk.injEq] at ha
        rw [← ha.1]; exact hs
      · split at ha
        · simp only [Option.some.injEq, Prod.mk.injEq] at ha
          rw [← ha.1]; exact hs
        · cases ha
      · split at ha
        · simp only [Option.some.injEq, Prod.mk.injEq] at ha
          rw [← ha.1]; exact hs
        · cases ha
      · split at ha
        · simp only [Option.some.injEq, Prod.mk.injEq] at ha
          rw [← ha.1]; exact hs
        · cases ha
      · cases ha
    · rw [Function.update_of_ne hi]; exact hs

theorem steps_names {E : Rescue.Env} {p : Rescue.Param} {f : File} {c : Counters} {k : Nat} {s : Sys 3 St Msg}
    (h : (ring E p f (required p f)).Steps k (initial E p f c) s) : HexNames (s.thread 2).st.events :=
  Device.steps_ind (P := fun s => HexNames (s.thread 2).st.events) h (by intro name bs h; cases h) fun _ _ h1 h2 => step_names h2 h1

/-! ### Places -/

/-- The same directories. -/
def SameDirs (fs fs' : Fs) : Prop := ∀ q, fs q = some .dir ↔ fs' q = some .dir

theorem stepTo_congr {fs fs' : Fs} (h : SameDirs fs fs') (o : Option Place) (s : Name) : stepTo fs o s = stepTo fs' o s := by
  unfold stepTo
  cases o with
  | none => rfl
  | some pl =>
    simp only
    by_cases hd : fs pl = some .dir
    · rw [hd, (h pl).1 hd]
    · have hd' : ¬ fs' pl = some .dir := fun e => hd ((h pl).2 e)
      split
      · exact absurd ‹_› hd
      · rfl

theorem leads_congr {fs fs' : Fs} (h : SameDirs fs fs') (cwd : Place) (p : List Char) : leads fs cwd p = leads fs' cwd p := by
  unfold leads
  split
  · rfl
  · have : stepTo fs = stepTo fs' := by funext o s; exact stepTo_congr h o s
    rw [this]

theorem SameDirs.rfl' (fs : Fs) : SameDirs fs fs := fun _ => Iff.rfl

theorem SameDirs.set {fs fs' : Fs} (h : SameDirs fs fs') {q : Place} (hq : fs' q ≠ some .dir) (c : File) : SameDirs fs (fs'.set q c) := by
  intro x
  unfold Fs.set
  split
  · rename_i e
    subst e
    rw [h x]
    simp [hq]
  · exact h x

theorem SameDirs.trans {a b c : Fs} (h : SameDirs a b) (h' : SameDirs b c) : SameDirs a c := fun q => (h q).trans (h' q)

theorem rescuePath_leads {fs : Fs} {cwd d : Place} {o : List Char} (ho : leads fs cwd o = some d) (hd : fs d = some .dir) (u : Uid) :
    leads fs cwd (rescuePath o (upperHex u.bytes)) = some (d ++ [hexName u]) := leads_makePath' (hexName_isName u) ho hd

/-! ### Contents -/

/-- What a file system `fs'` has in common with an earlier one after some appends to files of blocks in the directory `d`. -/
structure Grown (d : Place) (fs fs' : Fs) (evs : List Event) : Prop where
  dirs : SameDirs fs fs'
  other : ∀ q, (∀ u, q ≠ d ++ [hexName u]) → fs' q = fs q
  files : dirAt fs' d = (dirAt fs d).after evs
  kept : ∀ q, fs q ≠ none → fs' q ≠ none

theorem Grown.refl (d : Place) (fs : Fs) : Grown d fs fs [] := ⟨fun _ => Iff.rfl, fun _ _ => rfl, rfl, fun _ h => h⟩

theorem Grown.trans {d : Place} {a b c : Fs} {x y : List Event} (h : Grown d a b x) (h' : Grown d b c y) : Grown d a c (x ++ y) :=
  ⟨h.dirs.trans h'.dirs, fun q hq => (h'.other q hq).trans (h.other q hq), by
    rw [h'.files, h.files]; unfold Dir.after; rw [List.foldl_append], fun q hq => h'.kept q (h.kept q hq)⟩

theorem dirAt_hex (fs : Fs) (d : Place) (u : Uid) : dirAt fs d (upperHex u.bytes) = bytesAt fs (d ++ [hexName u]) := by
  unfold dirAt
  rw [if_pos ⟨u, rfl⟩]
  rfl

theorem open_bytes {w : World} {path : List Char} {q : Place} {old : File} (h : w.open path = some (q, old)) :
    old = bytesAt w.fs q ∧ w.canOpen q = true := by
  unfold World.open at h
  split at h
  · cases h
  · split at h
    · rename_i pl _ hc
      split at h
      · rename_i hx
        simp only [Option.some.injEq, Prod.mk.injEq] at h
        obtain ⟨rfl, rfl⟩ := h
        exact ⟨by unfold bytesAt; rw [hx], hc⟩
      · rename_i c hx
        simp only [Option.some.injEq, Prod.mk.injEq] at h
        obtain ⟨rfl, rfl⟩ := h
        exact ⟨by unfold bytesAt; rw [hx], hc⟩
      · cases h
    · cases h

theorem put_grown {w : World} {o : List Char} {d : Place} {fs fs' : Fs} {e : Event} (ho : leads fs w.cwd o = some d) (hd : fs d = some .dir)
    (hn : HexNames [e]) (h : w.put o fs e = some fs') : Grown d fs fs' [e] := by
  cases e with
  | stats c =>
    simp only [World.put, Option.some.injEq] at h
    subst h
    exact ⟨fun _ => Iff.rfl, fun _ _ => rfl, rfl, fun _ h => h⟩
  | append name bs =>
    obtain ⟨u, rfl⟩ := hn name bs (List.mem_singleton.2 rfl)
    simp only [World.put] at h
    split at h
    · cases h
    · rename_i q old hop
      simp only [Option.some.injEq] at h
      subst h
      obtain ⟨l1, l2, -⟩ := open_some hop
      obtain ⟨l3, -⟩ := open_bytes hop
      have hq : q = d ++ [hexName u] := by
        have := rescuePath_leads (cwd := w.cwd) ho hd u
        have l1' : leads fs w.cwd (rescuePath o (upperHex u.bytes)) = some q := l1
        rw [this, Option.some.injEq] at l1'
        exact l1'.symm
      subst hq
      refine ⟨(SameDirs.rfl' fs).set l2 _, ?_, ?_, ?_⟩
      · intro x hx
        unfold Fs.set
        rw [if_neg (hx u)]
      · funext name
        simp only [Dir.after, List.foldl_cons, List.foldl_nil, carryOut]
        by_cases hx : ∃ v : Uid, name = upperHex v.bytes
        · obtain ⟨v, rfl⟩ := hx
          rw [dirAt_hex]
          by_cases hv : v = u
          · subst hv
            rw [Function.update_self, dirAt_hex, l3]
            unfold bytesAt Fs.set
            rw [if_pos rfl]
          · have h1 : upperHex v.bytes ≠ upperHex u.bytes := fun e => hv (C31_names e)
            have h2 : d ++ [hexName v] ≠ d ++ [hexName u] := by
              intro e
              have := List.append_cancel_left e
              simp only [List.cons.injEq, and_true] at this
              exact hv (hexName_inj this)
            rw [Function.update_of_ne h1, dirAt_hex]
            unfold bytesAt Fs.set
            rw [if_neg h2]
        · have h1 : name ≠ upperHex u.bytes := fun e => hx ⟨u, e⟩
          rw [Function.update_of_ne h1]
          unfold dirAt
          rw [if_neg hx, if_neg hx]
      · intro x hx
        unfold Fs.set
        split
        · simp
        · exact hx

theorem putAll_grown {w : World} {o : List Char} {d : Place} : ∀ {evs : List Event} {fs fs' : Fs}, leads fs w.cwd o = some d → fs d = some .dir →
    HexNames evs → w.putAll o fs evs = some fs' → Grown d fs fs' evs := by
  intro evs
  induction evs with
  | nil =>
    intro fs fs' _ _ _ h
    simp only [World.putAll, Option.some.injEq] at h
    subst h
    exact .refl d fs
  | cons e es ih =>
    intro fs fs' ho hd hn h
    simp only [World.putAll] at h
    split at h
    · cases h
    · rename_i fs1 hp
      have h1 := put_grown ho hd (fun name bs hm => hn name bs (by simp only [List.mem_singleton] at hm; simp [hm])) hp
      have h2 := ih (by rw [← leads_congr h1.dirs]; exact ho) ((h1.dirs d).1 hd) (fun name bs hm => hn name bs (List.mem_cons_of_mem _ hm)) h
      exact h1.trans h2

/-- All files for blocks can be opened. -/
def CanWrite (w : World) (d : Place) : Prop := ∀ u : Uid, w.canOpen (d ++ [hexName u]) = true ∧ w.fs (d ++ [hexName u]) ≠ some .dir

theorem put_some {w : World} {o : List Char} {d : Place} {fs : Fs} {e : Event} (ho : leads fs w.cwd o = some d) (hd : fs d = some .dir)
    (hc : ∀ u : Uid, w.canOpen (d ++ [hexName u]) = true ∧ fs (d ++ [hexName u]) ≠ some .dir) (hn : HexNames [e]) : w.put o fs e ≠ none := by
  cases e with
  | stats c => simp [World.put]
  | append name bs =>
    obtain ⟨u, rfl⟩ := hn name bs (List.mem_singleton.2 rfl)
    have hl := rescuePath_leads (cwd := w.cwd) ho hd u
    have hop : ({ w with fs := fs } : World).open (rescuePath o (upperHex u.bytes)) ≠ none := by
      unfold World.open
      simp only
      rw [hl]
      simp only [(hc u).1, if_true]
      have := (hc u).2
      split
      · simp
      · simp
      · rename_i hx; exact absurd hx this
    simp only [World.put]
    split
    · exact absurd ‹_› hop
    · simp

end Verif.Command
