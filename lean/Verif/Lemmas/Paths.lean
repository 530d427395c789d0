import Verif.Model.Paths

namespace Verif.Command
open PathSpec

/-! ### Parts of paths -/

theorem parts_ne : ∀ p, parts p ≠ [] := by
  intro p
  induction p with
  | nil => simp [parts]
  | cons c cs ih =>
    unfold parts
    split
    · simp
    · split <;> simp

theorem parts_slash (cs : List Char) : parts ('/' :: cs) = [] :: parts cs := by
  rw [parts]
  have := parts_ne cs
  split
  · contradiction
  · rename_i s ss h
    rw [if_pos rfl, ← h]

theorem parts_cons {c : Char} (h : c ≠ '/') {cs : List Char} {s : Name} {ss : List Name} (e : parts cs = s :: ss) :
    parts (c :: cs) = (c :: s) :: ss := by
  rw [parts, e]
  simp only
  rw [if_neg h]

theorem parts_mem : ∀ (p : List Char) (s : Name), s ∈ parts p → '/' ∉ s ∧ ∀ c ∈ s, c ∈ p := by
  intro p
  induction p with
  | nil => intro s hs; simp [parts] at hs; simp [hs]
  | cons c cs ih =>
    intro s hs
    by_cases hc : c = '/'
    · subst hc
      rw [parts_slash] at hs
      rcases List.mem_cons.1 hs with rfl | hs
      · simp
      · exact ⟨(ih s hs).1, fun x hx => List.mem_cons_of_mem _ ((ih s hs).2 x hx)⟩
    · cases e : parts cs with
      | nil => exact absurd e (parts_ne cs)
      | cons t ts =>
        rw [parts_cons hc e] at hs
        rw [e] at ih
        rcases List.mem_cons.1 hs with rfl | hs
        · have := ih t List.mem_cons_self
          refine ⟨?_, ?_⟩
          · rw [List.mem_cons, not_or]; exact ⟨fun h => hc h.symm, this.1⟩
          · intro x hx
            rcases List.mem_cons.1 hx with rfl | hx
            · exact List.mem_cons_self
            · exact List.mem_cons_of_mem _ (this.2 x hx)
        · have := ih s (List.mem_cons_of_mem _ hs)
          exact ⟨this.1, fun x hx => List.mem_cons_of_mem _ (this.2 x hx)⟩

theorem parts_name : ∀ {n : List Char}, '/' ∉ n → parts n = [n] := by
  intro n
  induction n with
  | nil => intro _; rfl
  | cons c cs ih =>
    intro h
    rw [List.mem_cons, not_or] at h
    exact parts_cons (fun e => h.1 e.symm) (ih h.2)

theorem parts_join : ∀ (p q : List Char), parts (p ++ '/' :: q) = parts p ++ parts q := by
  intro p q
  induction p with
  | nil => rw [List.nil_append, parts_slash]; rfl
  | cons c cs ih =>
    rw [List.cons_append]
    by_cases hc : c = '/'
    · subst hc; rw [parts_slash, parts_slash, ih]; rfl
    · cases e : parts cs with
      | nil => exact absurd e (parts_ne cs)
      | cons t ts =>
        rw [e] at ih
        rw [parts_cons hc e, parts_cons hc (ih.trans rfl)]
        rfl

/-- A path is what precedes the last slash, and the last part. -/
theorem parts_last (p : List Char) : ∃ ini last, parts p = ini ++ [last] ∧ '/' ∉ last ∧
    ((ini = [] ∧ p = last) ∨ ∃ q, p = q ++ '/' :: last ∧ ini = parts q) := by
  induction p with
  | nil => exact ⟨[], [], rfl, by simp, .inl ⟨rfl, rfl⟩⟩
  | cons c cs ih =>
    obtain ⟨ini, last, h1, h2, h3⟩ := ih
    by_cases hc : c = '/'
    · subst hc
      refine ⟨[] :: ini, last, by rw [parts_slash, h1]; rfl, h2, .inr ?_⟩
      rcases h3 with ⟨rfl, rfl⟩ | ⟨q, rfl, rfl⟩
      · exact ⟨[], rfl, rfl⟩
      · exact ⟨'/' :: q, rfl, by rw [parts_slash]⟩
    · rcases h3 with ⟨rfl, rfl⟩ | ⟨q, rfl, rfl⟩
      · refine ⟨[], c :: cs, by rw [parts_cons hc h1]; rfl, ?_, .inl ⟨rfl, rfl⟩⟩
        rw [List.mem_cons, not_or]
        exact ⟨fun e => hc e.symm, h2⟩
      · cases e : parts q with
        | nil => exact absurd e (parts_ne q)
        | cons t ts =>
          rw [e] at h1
          exact ⟨(c :: t) :: ts, last, by rw [parts_cons hc h1]; rfl, h2, .inr ⟨c :: q, rfl, by rw [parts_cons hc e]⟩⟩

theorem parts_append {p e : List Char} {ini : List Name} {last : Name} (h : parts p = ini ++ [last]) (he : '/' ∉ e) :
    parts (p ++ e) = ini ++ [last ++ e] := by
  obtain ⟨ini', last', h1, h2, h3⟩ := parts_last p
  obtain ⟨rfl, hl⟩ := List.append_inj' (h.symm.trans h1) rfl
  simp only [List.cons.injEq, and_true] at hl
  subst hl
  have hn : '/' ∉ last ++ e := by
    rw [List.mem_append, not_or]; exact ⟨h2, he⟩
  rcases h3 with ⟨rfl, rfl⟩ | ⟨q, rfl, rfl⟩
  · exact parts_name hn
  · rw [List.append_assoc, List.cons_append, parts_join, parts_name hn]

/-! ### Names -/

theorem fileName_some {p : List Char} {s : Name} (h : fileName p = some s) :
    s ∈ parts p ∧ s ≠ [] ∧ s ≠ ['.'] ∧ s ≠ ['.', '.'] ∧ '/' ∉ s := by
  unfold fileName at h
  cases hc : lastComponent p with
  | none => rw [hc] at h; cases h
  | some x =>
    rw [hc] at h
    simp only at h
    split at h
    · cases h
    · rename_i hd
      simp only [Option.some.injEq] at h
      subst h
      have h1 := List.find?_some hc
      have h2 := List.mem_of_find?_eq_some hc
      simp only [decide_eq_true_eq] at h1
      rw [List.mem_reverse] at h2
      exact ⟨h2, h1.1, h1.2, hd, (parts_mem p x h2).1⟩

theorem fileName_isName {p : List Char} {s : Name} (h : fileName p = some s) (h0 : Char.ofNat 0 ∉ s) : IsName s := by
  obtain ⟨-, h1, h2, h3, h4⟩ := fileName_some h
  exact ⟨h1, h2, h3, h4, h0⟩

theorem fileName_of_last {p : List Char} {ini : List Name} {last : Name} (h : parts p = ini ++ [last]) (h1 : last ≠ []) (h2 : last ≠ ['.'])
    (h3 : last ≠ ['.', '.']) : fileName p = some last := by
  unfold fileName lastComponent
  rw [h, List.reverse_append]
  simp only [List.reverse_cons, List.reverse_nil, List.nil_append, List.singleton_append, List.find?_cons]
  simp only [ne_eq, h1, not_false_eq_true, h2, and_self, decide_true, h3, if_false]

theorem fileName_name {n : Name} (h : n ≠ []) (h1 : n ≠ ['.']) (h2 : n ≠ ['.', '.']) (h3 : '/' ∉ n) : fileName n = some n :=
  fileName_of_last (ini := []) (parts_name h3) h h1 h2

/-! ### Where paths lead -/

theorem foldl_none (fs : Fs) (ps : List Name) : ps.foldl (stepTo fs) none = none := by
  induction ps with
  | nil => rfl
  | cons s ss ih => exact ih

theorem leads_some {fs : Fs} {cwd pl : Place} {p : List Char} (h : leads fs cwd p = some pl) : p ≠ [] ∧ Char.ofNat 0 ∉ p ∧
    (parts p).foldl (stepTo fs) (some (if p.head? = some '/' then [] else cwd)) = some pl := by
  unfold leads at h
  split at h
  · cases h
  · rename_i hn
    rw [not_or] at hn
    exact ⟨hn.1, hn.2, h⟩

theorem stepTo_name {fs : Fs} {o : Option Place} {n : Name} {q : Place} (h1 : n ≠ []) (h2 : n ≠ ['.']) (h3 : n ≠ ['.', '.'])
    (h : stepTo fs o n = some q) : ∃ d, o = some d ∧ fs d = some .dir ∧ q = d ++ [n] := by
  unfold stepTo at h
  cases o with
  | none => cases h
  | some d =>
    simp only at h
    split at h
    · rename_i hd
      rw [if_neg (by rw [not_or]; exact ⟨h1, h2⟩), if_neg h3] at h
      simp only [Option.some.injEq] at h
      exact ⟨d, rfl, hd, h.symm⟩
    · cases h

theorem stepTo_empty {fs : Fs} {o : Option Place} {q : Place} (h : stepTo fs o [] = some q) : o = some q ∧ fs q = some .dir := by
  unfold stepTo at h
  cases o with
  | none => cases h
  | some d =>
    simp only at h
    split at h
    · rename_i hd
      rw [if_pos (.inl trivial)] at h
      simp only [Option.some.injEq] at h
      subst h
      exact ⟨rfl, hd⟩
    · cases h

theorem leads_name {fs : Fs} {cwd q : Place} {n : Name} (h1 : n ≠ []) (h2 : n ≠ ['.']) (h3 : n ≠ ['.', '.']) (h4 : '/' ∉ n)
    (h : leads fs cwd n = some q) : Char.ofNat 0 ∉ n ∧ q = cwd ++ [n] := by
  obtain ⟨-, h0, h⟩ := leads_some h
  rw [parts_name h4, if_neg (by intro e; exact h4 (List.mem_of_mem_head? e))] at h
  obtain ⟨d, e1, -, e2⟩ := stepTo_name (o := some cwd) h1 h2 h3 h
  simp only [Option.some.injEq] at e1
  subst e1
  exact ⟨h0, e2⟩

theorem makePath_eq {o n : List Char} (ho : o ≠ []) (hn : '/' ∉ n) :
    makePath [o, n] = if o.getLast? = some '/' then o ++ n else o ++ '/' :: n := by
  have e1 : push [] o = o := by unfold push; split <;> simp
  have e2 : n.head? ≠ some '/' := fun e => hn (List.mem_of_mem_head? e)
  unfold makePath
  simp only [List.foldl_cons, List.foldl_nil, e1]
  unfold push
  rw [if_neg e2]
  simp only [ho, false_or]

/-- A name put behind a directory leads into that directory. -/
theorem leads_makePath {fs : Fs} {cwd d q : Place} {o : List Char} {n : Name} (h1 : n ≠ []) (h2 : n ≠ ['.']) (h3 : n ≠ ['.', '.'])
    (h4 : '/' ∉ n) (ho : leads fs cwd o = some d) (h : leads fs cwd (makePath [o, n]) = some q) : Char.ofNat 0 ∉ n ∧ q = d ++ [n] := by
  obtain ⟨o1, o2, o3⟩ := leads_some ho
  obtain ⟨-, p2, p3⟩ := leads_some h
  rw [makePath_eq o1 h4] at p2 p3
  split at p3
  · rename_i hl
    rw [if_pos hl] at p2
    obtain ⟨o', rfl⟩ : ∃ o', o = o' ++ ['/'] := ⟨o.dropLast, by
      rw [List.getLast?_eq_some_getLast o1, Option.some.injEq] at hl
      rw [← hl, List.dropLast_concat_getLast o1]⟩
    have e : o' ++ ['/'] ++ n = o' ++ '/' :: n := by simp
    have hh : (o' ++ ['/'] ++ n).head? = (o' ++ ['/']).head? := by cases o' <;> rfl
    rw [hh, e, parts_join, parts_name h4, List.foldl_append] at p3
    rw [parts_join, List.foldl_append] at o3
    obtain ⟨d', e1, -, e2⟩ := stepTo_name h1 h2 h3 p3
    obtain ⟨e3, -⟩ := stepTo_empty o3
    rw [e1, Option.some.injEq] at e3
    exact ⟨fun hm => p2 (List.mem_append_right _ hm), by rw [e2, e3]⟩
  · rename_i hl
    rw [if_neg hl] at p2
    have hh : (o ++ '/' :: n).head? = o.head? := by cases o <;> first | rfl | exact absurd rfl o1
    rw [hh, parts_join, parts_name h4, List.foldl_append, o3] at p3
    obtain ⟨d', e1, -, e2⟩ := stepTo_name (o := some d) h1 h2 h3 p3
    rw [Option.some.injEq] at e1
    exact ⟨fun hm => p2 (List.mem_append_right _ (List.mem_cons_of_mem _ hm)), by rw [e2, e1]⟩

/-- All places on the way are directories. -/
theorem foldl_dir {fs : Fs} (hf : fs.Ok) : ∀ (ps : List Name) (s : Name) {o : Option Place} {q : Place},
    (ps ++ [s]).foldl (stepTo fs) o = some q → (s = [] ∨ s = ['.'] ∨ s = ['.', '.']) → fs q = some .dir := by
  intro ps s o q h hs
  rw [List.foldl_append] at h
  simp only [List.foldl_cons, List.foldl_nil] at h
  generalize ps.foldl (stepTo fs) o = x at h
  unfold stepTo at h
  cases x with
  | none => cases h
  | some d =>
    simp only at h
    split at h
    · rename_i hd
      split at h
      · simp only [Option.some.injEq] at h; rw [← h]; exact hd
      · rename_i hn
        rw [not_or] at hn
        have h3 : s = ['.', '.'] := by
          rcases hs with h | h | h
          · exact absurd h hn.1
          · exact absurd h hn.2
          · exact h
        rw [if_pos h3, Option.some.injEq] at h
        rw [← h]
        by_cases hd0 : d = []
        · rw [hd0]; exact hf.root
        · refine hf.up d.dropLast (d.getLast hd0) ?_
          rw [List.dropLast_concat_getLast hd0, hd]
          simp
    · cases h

/-- A path to something that is not a directory ends with its name. -/
theorem leads_file {fs : Fs} (hf : fs.Ok) {cwd q : Place} {p : List Char} (h : leads fs cwd p = some q) (hq : fs q ≠ some .dir) :
    ∃ ini last d, parts p = ini ++ [last] ∧ fileName p = some last ∧ IsName last ∧ q = d ++ [last] ∧
      ini.foldl (stepTo fs) (some (if p.head? = some '/' then [] else cwd)) = some d ∧ fs d = some .dir := by
  obtain ⟨h1, h2, h3⟩ := leads_some h
  obtain ⟨ini, last, e1, e2, -⟩ := parts_last p
  rw [e1] at h3
  have hn : ¬ (last = [] ∨ last = ['.'] ∨ last = ['.', '.']) := fun hs => hq (foldl_dir hf ini last h3 hs)
  rw [not_or, not_or] at hn
  rw [List.foldl_append] at h3
  obtain ⟨d, f1, f2, f3⟩ := stepTo_name hn.1 hn.2.1 hn.2.2 h3
  refine ⟨ini, last, d, e1, fileName_of_last e1 hn.1 hn.2.1 hn.2.2, ⟨hn.1, hn.2.1, hn.2.2, e2, ?_⟩, f3, f1, f2⟩
  intro hm
  exact h2 ((parts_mem p last (by rw [e1]; simp)).2 _ hm)

/-- With a suffix the path leads to the same directory. -/
theorem leads_suffix {fs : Fs} (hf : fs.Ok) {cwd pl q : Place} {p e : List Char} (he : '/' ∉ e) (hd : ∀ n : Name, n ++ e ≠ [] ∧ n ++ e ≠ ['.'] ∧
    n ++ e ≠ ['.', '.']) (h : leads fs cwd p = some pl) (hp : fs pl ≠ some .dir) (h' : leads fs cwd (p ++ e) = some q) : Beside e pl q := by
  obtain ⟨ini, last, d, e1, -, -, e4, e5, e6⟩ := leads_file hf h hp
  obtain ⟨h1, -, -⟩ := leads_some h
  obtain ⟨-, -, h3⟩ := leads_some h'
  have hh : (p ++ e).head? = p.head? := by cases p <;> first | rfl | exact absurd rfl h1
  rw [parts_append e1 he, hh, List.foldl_append, e5] at h3
  obtain ⟨d', f1, -, f3⟩ := stepTo_name (o := some d) (hd last).1 (hd last).2.1 (hd last).2.2 h3
  rw [Option.some.injEq] at f1
  exact ⟨d, last, e4, by rw [f3, ← f1]⟩

theorem set_ne {fs : Fs} {q x : Place} {c : File} (h : fs.set q c x ≠ fs x) : x = q := by
  unfold Fs.set at h
  split at h
  · assumption
  · exact absurd rfl h

theorem open_some {w : World} {path : List Char} {q : Place} {old : File} (h : w.open path = some (q, old)) :
    leads w.fs w.cwd path = some q ∧ w.fs q ≠ some .dir ∧ (w.exists path = false → w.fs q = none) := by
  unfold World.open at h
  cases hl : leads w.fs w.cwd path with
  | none => rw [hl] at h; cases h
  | some pl =>
    rw [hl] at h
    simp only at h
    split at h
    · unfold World.exists at?
      rw [hl]
      simp only [Option.bind_some]
      cases hn : w.fs pl with
      | none =>
        rw [hn] at h
        simp only [Option.some.injEq, Prod.mk.injEq] at h
        rw [← h.1, hn]
        simp
      | some node =>
        rw [hn] at h
        cases node with
        | dir => cases h
        | file c =>
          simp only [Option.some.injEq, Prod.mk.injEq] at h
          rw [← h.1, hn]
          simp
    · cases h

theorem isDir_true {w : World} {path : List Char} (h : w.isDir path = true) :
    ∃ d, leads w.fs w.cwd path = some d ∧ w.fs d = some .dir := by
  unfold World.isDir at? at h
  cases hl : leads w.fs w.cwd path with
  | none => rw [hl] at h; cases h
  | some pl =>
    rw [hl] at h
    simp only [Option.bind_some] at h
    cases hn : w.fs pl with
    | none => rw [hn] at h; cases h
    | some node =>
      rw [hn] at h
      cases node with
      | dir => exact ⟨pl, rfl, hn⟩
      | file c => cases h

theorem input_ok {w : World} {path : List Char} {pl : Place} {f : File} (h : w.input path = .ok (pl, f)) :
    leads w.fs w.cwd path = some pl ∧ w.fs pl = some (.file f) ∧ fileName path ≠ none := by
  unfold World.input at h
  cases hl : leads w.fs w.cwd path with
  | none => rw [hl] at h; cases h
  | some x =>
    rw [hl] at h
    simp only at h
    cases hn : w.fs x with
    | none => rw [hn] at h; cases h
    | some node =>
      rw [hn] at h
      simp only at h
      cases hf : fileName path with
      | none => rw [hf] at h; cases h
      | some n =>
        rw [hf] at h
        cases node with
        | dir => cases h
        | file c =>
          simp only [Except.ok.injEq, Prod.mk.injEq] at h
          rw [h.1, h.2] at hn
          rw [h.1]
          exact ⟨rfl, hn ▸ (h.1 ▸ rfl), by simp⟩

end Verif.Command
