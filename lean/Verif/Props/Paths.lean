import Verif.Lemmas.Paths
import Verif.Props.Decode
import Verif.Props.Device
/-!
# C50: files are written only where the user said, and existing files are kept
-/

namespace Verif.Command
open PathSpec

/-! ### `decode` -/

theorem recordedName_some {ref : Block} {n : Name} (h : recordedName ref = .ok (some n)) : ∃ r, refFnm ref = some r ∧ fileName r = some n := by
  unfold recordedName at h
  cases hr : refFnm ref with
  | none => rw [hr] at h; cases h
  | some x =>
    rw [hr] at h
    simp only at h
    cases hf : fileName x with
    | none => rw [hf] at h; cases h
    | some s =>
      rw [hf] at h
      simp only [Except.ok.injEq, Option.some.injEq] at h
      exact ⟨x, rfl, by rw [hf, h]⟩

/-- What `decode` does to the file system: nothing, or it writes the file its output name leads to. -/
theorem decode_cases (w : World) (E : Decode.Env) (p : Decode.Param) (a : DecodeArgs) :
    (w.decode E p a).1 = w.fs ∨ ∃ ref recorded out q c, recordedName ref = .ok recorded ∧ w.decodeOut a.out recorded = .ok (some out) ∧
      (a.force = false → p.multiPass = none → w.exists out = false) ∧ (∃ old, w.open out = some (q, old)) ∧
      (w.decode E p a).1 = w.fs.set q c := by
  unfold World.decode
  split
  · exact .inl rfl
  · split
    · exact .inl rfl
    · rename_i pos ref _
      split
      · exact .inl rfl
      · rename_i recorded hrec
        split
        · exact .inl rfl
        · split <;> exact .inl rfl
        · rename_i out hout
          split
          · exact .inl rfl
          · rename_i hex
            split
            · exact .inl rfl
            · split
              · exact .inl rfl
              · rename_i q old hop
                refine .inr ⟨ref, recorded, out, q, _, hrec, hout, ?_, ⟨old, hop⟩, rfl⟩
                intro hf hm
                rw [hf, hm] at hex
                simpa using hex

/-- **C50.** Whatever the container says, `decode` changes at most one file: one in the directory chosen (or the working directory),
under a plain name, or the one chosen. -/
theorem C50_decode_place (w : World) (E : Decode.Env) (p : Decode.Param) (a : DecodeArgs) (q : Place)
    (h : (w.decode E p a).1 q ≠ w.fs q) : DecodePlace w.fs w.cwd a.out q ∧ ∀ q', (w.decode E p a).1 q' ≠ w.fs q' → q' = q := by
  rcases decode_cases w E p a with e | ⟨ref, recorded, out, q1, c, h1, h2, -, ⟨old, h4⟩, e⟩
  · rw [e] at h; exact absurd rfl h
  · have hq : q = q1 := by rw [e] at h; exact set_ne h
    subst hq
    refine ⟨?_, fun q' h' => by rw [e] at h'; exact set_ne h'⟩
    obtain ⟨l1, l2, -⟩ := open_some h4
    unfold World.decodeOut at h2
    unfold DecodePlace
    cases ha : a.out with
    | none =>
      rw [ha] at h2
      cases recorded with
      | none => cases h2
      | some n =>
        simp only [Except.ok.injEq, Option.some.injEq] at h2
        subst h2
        obtain ⟨r, -, hr⟩ := recordedName_some h1
        obtain ⟨-, n1, n2, n3, n4⟩ := fileName_some hr
        obtain ⟨n5, n6⟩ := leads_name n1 n2 n3 n4 l1
        exact ⟨n, ⟨n1, n2, n3, n4, n5⟩, n6⟩
    | some o =>
      rw [ha] at h2
      simp only at h2 ⊢
      split at h2
      · cases h2
      · rename_i hd
        refine ⟨hd, ?_⟩
        split at h2
        · rename_i hdir
          obtain ⟨d, d1, d2⟩ := isDir_true hdir
          cases recorded with
          | none => cases h2
          | some n =>
            simp only [Except.ok.injEq, Option.some.injEq] at h2
            subst h2
            obtain ⟨r, -, hr⟩ := recordedName_some h1
            obtain ⟨-, n1, n2, n3, n4⟩ := fileName_some hr
            obtain ⟨n5, n6⟩ := leads_makePath n1 n2 n3 n4 d1 l1
            exact ⟨d, d1, .inl ⟨d2, n, ⟨n1, n2, n3, n4, n5⟩, n6⟩⟩
        · simp only [Except.ok.injEq, Option.some.injEq] at h2
          subst h2
          exact ⟨q, l1, .inr ⟨l2, rfl⟩⟩

/-- **C50.** Without `--force` and multi-pass, `decode` changes nothing that exists (in particular not the container). -/
theorem C50_decode_keeps (w : World) (E : Decode.Env) (p : Decode.Param) (a : DecodeArgs) (hf : a.force = false) (hm : p.multiPass = none)
    (q : Place) (hq : w.fs q ≠ none) : (w.decode E p a).1 q = w.fs q := by
  rcases decode_cases w E p a with e | ⟨ref, recorded, out, q1, c, -, -, h3, ⟨old, h4⟩, e⟩
  · rw [e]
  · rw [e]
    by_contra hc
    have := set_ne hc
    subst this
    exact hq ((open_some h4).2.2 (h3 hf hm))

/-! ### `encode` and `sort` -/

/-- The output name leads to a place the user may expect. -/
theorem outName_place {w : World} (hw : w.fs.Ok) {a : Args} {ext : Name} (he : '/' ∉ ext) (hd : ∀ n : Name, n ++ ext ≠ [] ∧ n ++ ext ≠ ['.'] ∧
    n ++ ext ≠ ['.', '.']) {pl : Place} {f : File} (hin : w.input a.inFile = .ok (pl, f)) {out : List Char} (ho : w.outName a ext = .ok out)
    {q : Place} {old : File} (hop : w.open out = some (q, old)) : OutPlace w.fs w.cwd ext a.inFile a.out q := by
  obtain ⟨i1, i2, -⟩ := input_ok hin
  obtain ⟨l1, l2, -⟩ := open_some hop
  have hnd : w.fs pl ≠ some .dir := by rw [i2]; simp
  unfold World.outName at ho
  unfold OutPlace
  cases ha : a.out with
  | none =>
    rw [ha] at ho
    simp only [Except.ok.injEq] at ho
    subst ho
    exact ⟨pl, i1, leads_suffix hw he hd i1 hnd l1⟩
  | some o =>
    rw [ha] at ho
    simp only at ho ⊢
    split at ho
    · rename_i hdir
      obtain ⟨d, d1, d2⟩ := isDir_true hdir
      obtain ⟨ini, last, e, -, e2, e3, e4, -⟩ := leads_file hw i1 hnd
      rw [e2] at ho
      simp only [Except.ok.injEq] at ho
      subst ho
      have hs : '/' ∉ last ++ ext := by
        rw [List.mem_append, not_or]; exact ⟨e3.2.2.2.1, he⟩
      obtain ⟨-, n6⟩ := leads_makePath (hd last).1 (hd last).2.1 (hd last).2.2 hs d1 l1
      exact ⟨d, d1, .inl ⟨d2, e, last, by rw [i1, e4], n6⟩⟩
    · simp only [Except.ok.injEq] at ho
      subst ho
      exact ⟨q, l1, .inr ⟨l2, rfl⟩⟩

theorem ext_long (ext : Name) (h : 3 ≤ ext.length) (n : Name) : n ++ ext ≠ [] ∧ n ++ ext ≠ ['.'] ∧ n ++ ext ≠ ['.', '.'] := by
  refine ⟨fun e => ?_, fun e => ?_, fun e => ?_⟩ <;>
  · have := congrArg List.length e
    simp only [List.length_append, List.length_nil, List.length_cons] at this
    omega

theorem extension_ok (v : Version) : '/' ∉ extension v ∧ 3 ≤ (extension v).length := by cases v <;> decide

theorem encodeTo_cases (w : World) (E : Encode.Env) (p : Encode.Param) (force : Bool) (input : Option Place) (file : Option Name) (f : List Byte)
    (out : List Char) : (w.encodeTo E p force input file f out).1 = w.fs ∨ ∃ q c, (force = false → w.exists out = false) ∧
      (∃ old, w.open out = some (q, old)) ∧ (w.encodeTo E p force input file f out).1 = w.fs.set q c := by
  unfold World.encodeTo
  split
  · exact .inl rfl
  · rename_i hex
    split
    · exact .inl rfl
    · rename_i q old hop
      refine .inr ⟨q, _, ?_, ⟨old, hop⟩, rfl⟩
      intro hf
      rw [hf] at hex
      simpa using hex

theorem encode_cases (w : World) (E : Encode.Env) (p : Encode.Param) (a : Args) :
    (w.encode E p a).1 = w.fs ∨ ∃ out q c, (a.force = false → w.exists out = false) ∧ (∃ old, w.open out = some (q, old)) ∧
      (w.encode E p a).1 = w.fs.set q c ∧
      ((a.inFile = dash ∧ a.out = some out ∧ w.isDir out = false) ∨
        (∃ pl f, w.input a.inFile = .ok (pl, f)) ∧ w.outName a (extension p.version) = .ok out) := by
  unfold World.encode
  split
  · rename_i hd
    split
    · exact .inl rfl
    · rename_i o ho
      split
      · exact .inl rfl
      · rename_i hdir
        rcases encodeTo_cases w E p a.force none none w.stdin o with e | ⟨q, c, h1, h2, e⟩
        · exact .inl e
        · exact .inr ⟨o, q, c, h1, h2, e, .inl ⟨hd, ho, by simpa using hdir⟩⟩
  · split
    · exact .inl rfl
    · rename_i pl f hin
      split
      · exact .inl rfl
      · rename_i out ho
        rcases encodeTo_cases w E p a.force (some pl) (fileName a.inFile) f out with e | ⟨q, c, h1, h2, e⟩
        · exact .inl e
        · exact .inr ⟨out, q, c, h1, h2, e, .inr ⟨⟨pl, f, hin⟩, ho⟩⟩

/-- **C50.** `encode` changes at most one file: the one chosen, or one in the directory chosen (without `-o`: beside the input), named like
the input with the extension. -/
theorem C50_encode_place (w : World) (hw : w.fs.Ok) (E : Encode.Env) (p : Encode.Param) (a : Args) (q : Place)
    (h : (w.encode E p a).1 q ≠ w.fs q) : OutPlace w.fs w.cwd (if p.version.usesRs then ".ecsbx".toList else ".sbx".toList) a.inFile a.out q ∧
      ∀ q', (w.encode E p a).1 q' ≠ w.fs q' → q' = q := by
  rcases encode_cases w E p a with e | ⟨out, q1, c, -, ⟨old, h2⟩, e, h3⟩
  · rw [e] at h; exact absurd rfl h
  · have hq : q = q1 := by rw [e] at h; exact set_ne h
    subst hq
    refine ⟨?_, fun q' h' => by rw [e] at h'; exact set_ne h'⟩
    rcases h3 with ⟨-, ho, hd⟩ | ⟨⟨pl, f, hin⟩, ho⟩
    · obtain ⟨l1, l2, -⟩ := open_some h2
      rw [ho]
      exact ⟨q, l1, .inr ⟨l2, rfl⟩⟩
    · exact outName_place hw (extension_ok _).1 (ext_long _ (extension_ok _).2) hin ho h2

/-- **C50.** Without `--force`, `encode` changes nothing that exists. -/
theorem C50_encode_keeps (w : World) (E : Encode.Env) (p : Encode.Param) (a : Args) (hf : a.force = false) (q : Place) (hq : w.fs q ≠ none) :
    (w.encode E p a).1 q = w.fs q := by
  rcases encode_cases w E p a with e | ⟨out, q1, c, h1, ⟨old, h2⟩, e, -⟩
  · rw [e]
  · rw [e]
    by_contra hc
    have := set_ne hc
    subst this
    exact hq ((open_some h2).2.2 (h1 hf))

/-- The name of the container can be recorded whenever the container could be opened: the `unwrap` in `pack_metadata`
(`src/encode_core.rs` 381) does not panic. -/
theorem C50_encode_name (w : World) (hw : w.fs.Ok) (out : List Char) (q : Place) (old : File) (h : w.open out = some (q, old)) :
    ∃ d n, fileName out = some n ∧ IsName n ∧ q = d ++ [n] := by
  obtain ⟨l1, l2, -⟩ := open_some h
  obtain ⟨_, last, d, -, e2, e3, e4, -⟩ := leads_file hw l1 l2
  exact ⟨d, last, e2, e3, e4⟩

theorem sort_cases (w : World) (E : Verif.Sort.Env) (p : Verif.Sort.Param) (a : Args) (dry : Bool) :
    (w.sort E p a dry).1 = w.fs ∨ ∃ out q c, dry = false ∧ (a.force = false → p.multiPass = none → w.exists out = false) ∧
      (∃ old, w.open out = some (q, old)) ∧ (w.sort E p a dry).1 = w.fs.set q c ∧
      (∃ pl f, w.input a.inFile = .ok (pl, f)) ∧ w.outName a ".sorted".toList = .ok out := by
  unfold World.sort
  split
  · exact .inl rfl
  · rename_i pl f hin
    split
    · exact .inl rfl
    · rename_i out ho
      split
      · exact .inl rfl
      · rename_i hex
        split
        · exact .inl rfl
        · split
          · exact .inl rfl
          · split
            · exact .inl rfl
            · rename_i hdry
              split
              · exact .inl rfl
              · rename_i q old hop
                refine .inr ⟨out, q, _, by simpa using hdry, ?_, ⟨old, hop⟩, rfl, ⟨pl, f, hin⟩, ho⟩
                intro hf hm
                have hd : dry = false := by simpa using hdry
                rw [hf, hm, hd] at hex
                simpa using hex

/-- **C50.** `sort` changes at most one file: the one chosen, or one in the directory chosen (without `-o`: beside the input), named like the
input with `.sorted`; nothing at all with `--dry-run`. -/
theorem C50_sort_place (w : World) (hw : w.fs.Ok) (E : Verif.Sort.Env) (p : Verif.Sort.Param) (a : Args) (dry : Bool) (q : Place)
    (h : (w.sort E p a dry).1 q ≠ w.fs q) : dry = false ∧ OutPlace w.fs w.cwd ".sorted".toList a.inFile a.out q ∧
      ∀ q', (w.sort E p a dry).1 q' ≠ w.fs q' → q' = q := by
  rcases sort_cases w E p a dry with e | ⟨out, q1, c, h0, -, ⟨old, h2⟩, e, ⟨pl, f, hin⟩, ho⟩
  · rw [e] at h; exact absurd rfl h
  · have hq : q = q1 := by rw [e] at h; exact set_ne h
    subst hq
    exact ⟨h0, outName_place hw (by decide) (ext_long _ (by decide)) hin ho h2, fun q' h' => by rw [e] at h'; exact set_ne h'⟩

/-- **C50.** Without `--force` and multi-pass, `sort` changes nothing that exists. -/
theorem C50_sort_keeps (w : World) (E : Verif.Sort.Env) (p : Verif.Sort.Param) (a : Args) (dry : Bool) (hf : a.force = false)
    (hm : p.multiPass = none) (q : Place) (hq : w.fs q ≠ none) : (w.sort E p a dry).1 q = w.fs q := by
  rcases sort_cases w E p a dry with e | ⟨out, q1, c, -, h1, ⟨old, h2⟩, e, -⟩
  · rw [e]
  · rw [e]
    by_contra hc
    have := set_ne hc
    subst this
    exact hq ((open_some h2).2.2 (h1 hf hm))

/-! ### There and back -/

theorem leads_name' {fs : Fs} {cwd : Place} {n : Name} (hn : IsName n) (hd : fs cwd = some .dir) : leads fs cwd n = some (cwd ++ [n]) := by
  obtain ⟨h1, h2, h3, h4, h5⟩ := hn
  unfold leads
  rw [if_neg (by rw [not_or]; exact ⟨h1, h5⟩), parts_name h4,
    if_neg (fun e : n.head? = some '/' => h4 (List.mem_of_mem_head? e))]
  simp only [List.foldl_cons, List.foldl_nil, stepTo, hd]
  rw [if_neg (by rw [not_or]; exact ⟨h1, h2⟩), if_neg h3]

theorem leads_makePath' {fs : Fs} {cwd d : Place} {o : List Char} {n : Name} (hn : IsName n) (ho : leads fs cwd o = some d)
    (hd : fs d = some .dir) : leads fs cwd (makePath [o, n]) = some (d ++ [n]) := by
  obtain ⟨h1, h2, h3, h4, h5⟩ := hn
  obtain ⟨o1, o2, o3⟩ := leads_some ho
  have hs : stepTo fs (some d) n = some (d ++ [n]) := by
    simp only [stepTo, hd]
    rw [if_neg (by rw [not_or]; exact ⟨h1, h2⟩), if_neg h3]
  rw [makePath_eq o1 h4]
  unfold leads
  split
  · rename_i hl
    obtain ⟨o', rfl⟩ : ∃ o', o = o' ++ ['/'] := ⟨o.dropLast, by
      rw [List.getLast?_eq_some_getLast o1, Option.some.injEq] at hl
      rw [← hl, List.dropLast_concat_getLast o1]⟩
    have e : o' ++ ['/'] ++ n = o' ++ '/' :: n := by simp
    have hh : (o' ++ ['/'] ++ n).head? = (o' ++ ['/']).head? := by cases o' <;> rfl
    rw [if_neg (by
      rw [not_or, List.mem_append, not_or]
      exact ⟨by simp, o2, h5⟩), hh, e, parts_join, parts_name h4, List.foldl_append]
    rw [parts_join, List.foldl_append] at o3
    obtain ⟨e3, -⟩ := stepTo_empty o3
    rw [e3]
    exact hs
  · have hh : (o ++ '/' :: n).head? = o.head? := by cases o <;> first | rfl | exact absurd rfl o1
    rw [if_neg (by
      rw [not_or, List.mem_append, not_or, List.mem_cons, not_or]
      exact ⟨by simp, o2, by decide, h5⟩), hh, parts_join, parts_name h4, List.foldl_append, o3]
    exact hs

theorem set_ok {fs : Fs} (hf : fs.Ok) {q : Place} (hq : fs q ≠ some .dir) (hup : ∃ d n, q = d ++ [n] ∧ fs d = some .dir) (c : File) :
    (fs.set q c).Ok := by
  have hne : ∀ x, fs x = some .dir → x ≠ q := fun x hx e => hq (e ▸ hx)
  refine ⟨?_, ?_⟩
  · unfold Fs.set
    rw [if_neg (hne _ hf.root)]
    exact hf.root
  · intro pl n hn
    have hd : fs pl = some .dir := by
      unfold Fs.set at hn
      split at hn
      · rename_i e
        obtain ⟨d, m, rfl, h⟩ := hup
        rw [(List.append_inj' e rfl).1]
        exact h
      · exact hf.up pl n hn
    unfold Fs.set
    rw [if_neg (hne _ hd)]
    exact hd

theorem refFnm_meta {ref : Block} {ms : List Metadata} (h : ref.metas = some ms) :
    refFnm ref = match getMeta ms .fnm with | some (.fnm s) => some s.toList | _ => none := by
  unfold Block.metas at h
  unfold refFnm
  cases hd : ref.data with
  | data => rw [hd] at h; cases h
  | metadata ms' =>
    rw [hd] at h
    simp only [Option.some.injEq] at h
    subst h
    rfl

theorem encodeTo_ok {w : World} {E : Encode.Env} {p : Encode.Param} {force : Bool} {input : Option Place} {file : Option Name} {f : List Byte}
    {out : List Char} {fs1 : Fs} (h : w.encodeTo E p force input file f out = (fs1, .ok ())) :
    ∃ q old n d rep, w.open out = some (q, old) ∧ fileName out = some n ∧ fs1 = w.fs.set q d.file ∧
      Encode.encodeFile E { p with sbxName := String.ofList n }
        ⟨if decide (input = some q) then [] else f, file.map fun n => (String.ofList n, w.mtime)⟩ = (d, .ok rep) := by
  unfold World.encodeTo at h
  split at h
  · cases h
  · split at h
    · cases h
    · rename_i q old hop
      cases hn : fileName out with
      | none => unfold World.encoded at h; rw [hn] at h; cases h
      | some n =>
        cases he : Encode.encodeFile E { p with sbxName := String.ofList n }
            ⟨if decide (input = some q) then [] else f, file.map fun n => (String.ofList n, w.mtime)⟩ with
        | mk d r =>
          unfold World.encoded at h
          rw [hn] at h
          simp only at h
          rw [he] at h
          cases r with
          | error x => cases h
          | ok rep =>
            simp only [if_true, Prod.mk.injEq, and_true] at h
            exact ⟨q, old, n, d, rep, hop, rfl, h.symm, he⟩

/-- Names have at most 255 bytes. -/
def World.Limits (w : World) : Prop := ∀ pl n, n ∈ pl → (w.fs pl ≠ none ∨ w.canOpen pl = true) → (String.ofList n).utf8ByteSize ≤ 255

theorem isName_bytes {n : Name} (h : n ≠ []) : 1 ≤ (String.ofList n).utf8ByteSize := by
  have : (String.ofList n).utf8ByteSize ≠ 0 := fun e => h (String.ofList_eq_empty_iff.1 (String.utf8ByteSize_eq_zero_iff.1 e))
  omega

/-- `decode` to a new file, or to one that may be overwritten, succeeds if decoding does. -/
theorem decode_ok {w : World} {E : Decode.Env} {p : Decode.Param} {a : DecodeArgs} {pl q : Place} {f o : File}
    {pos : Nat} {ref : Block} {dpb : Option Dpb} {n : Option Name} {out : List Char} (hin : w.input a.inFile = .ok (pl, f))
    (href : Scan.getRefBlockM p.ref p.ref.refChoice f E.stopRef (E.stop 0) = .ok (pos, ref)) (hrec : recordedName ref = .ok n)
    (hout : w.decodeOut a.out n = .ok (some out)) (hdpb : Scan.dataParBurst p.ref true f ref = .ok dpb)
    (hl : leads w.fs w.cwd out = some q) (hopen : w.canOpen q = true) (hq : q ≠ pl) (hd : w.fs q ≠ some .dir)
    (hnew : w.fs q = none ∨ a.force = true) (hdec : ∀ old, ∃ R, Decode.toFile E p f old = .ok (o, R)) :
    w.decode E p a = (w.fs.set q o, .ok ()) := by
  have hex : (!a.force && p.multiPass.isNone && w.exists out) = false := by
    rcases hnew with h | h
    · have : w.exists out = false := by unfold World.exists at?; rw [hl, Option.bind_some, h]; rfl
      rw [this, Bool.and_false]
    · rw [h]; simp
  have hop : ∃ old, w.open out = some (q, old) := by
    unfold World.open
    rw [hl]
    simp only [hopen, if_true]
    cases hx : w.fs q with
    | none => exact ⟨[], rfl⟩
    | some node => cases node with
      | dir => exact absurd hx hd
      | file c => exact ⟨c, rfl⟩
  obtain ⟨old, hop⟩ := hop
  obtain ⟨R, hR⟩ := hdec old
  unfold World.decode
  rw [hin]
  simp only
  rw [href]
  simp only
  rw [hrec]
  simp only
  rw [hout]
  simp only
  rw [hex]
  simp only [Bool.false_eq_true, if_false]
  rw [hdpb]
  simp only
  rw [hop]
  simp only [World.decoded, decide_eq_true_eq]
  rw [if_neg hq, hR]
  rfl

/-- The directory `decode` is told to write to. -/
def IntoDir (fs : Fs) (cwd : Place) (out : Option (List Char)) (d : Place) : Prop :=
  fs d = some .dir ∧ ((out = none ∧ d = cwd) ∨ ∃ o, out = some o ∧ o ≠ ['-'] ∧ leads fs cwd o = some d)

/-- **C50, C21.** After a successful `encode` of a file, `decode` of the container into any directory in which there is no such file (or
with `--force`) puts there a file with the name and the contents of the original one, and changes nothing else. -/
theorem C50_roundtrip (w : World) (hw : w.fs.Ok) (hlim : w.Limits) (E : Encode.Env) (p : Encode.Param) (hE : E.Ok p) (hok : p.Ok)
    (hs : ∀ n, E.stop n = false) (hrange : p.fromPos = none ∧ p.toPos = none) (hme : p.metaEnabled = true)
    (hsup : p.hashType.supported = true) (a : Args) (ha : a.inFile ≠ ['-']) (e : Place) (n : Name) (f : File)
    (hin : leads w.fs w.cwd a.inFile = some (e ++ [n])) (hf : w.fs (e ++ [n]) = some (.file f)) (fs1 : Fs)
    (henc : w.encode E p a = (fs1, .ok ())) :
    ∃ cp c, fs1 = w.fs.set cp c ∧ w.fs cp ≠ some .dir ∧
      OutPlace w.fs w.cwd (if p.version.usesRs then ".ecsbx".toList else ".sbx".toList) a.inFile a.out cp ∧
      (cp ≠ e ++ [n] → ∀ (D : Decode.Env), D.Calm → D.hash = E.hash → ∀ (q : Decode.Param), Decode.Whole q → Decode.DefaultRef q.ref →
        (q.ref.burst ≠ none ∨ q.ref.guessBurstFrom = none ∧ ∀ x, p.dpb = some x → x.burst ≤ 1000) →
        ∀ (w' : World) (b : DecodeArgs) (d : Place), w'.fs = fs1 →
        leads fs1 w'.cwd b.inFile = some cp → IntoDir fs1 w'.cwd b.out d → w'.canOpen (d ++ [n]) = true → d ++ [n] ≠ cp →
        (fs1 (d ++ [n]) = none ∨ b.force = true ∧ ∃ old, fs1 (d ++ [n]) = some (.file old)) →
        w'.decode D q b = (fs1.set (d ++ [n]) f, .ok ())) := by
  have hnd : w.fs (e ++ [n]) ≠ some .dir := by rw [hf]; simp
  obtain ⟨_, last, d0, -, n1, n2, n3, -⟩ := leads_file hw hin hnd
  obtain ⟨-, hl0⟩ := List.append_inj' n3 rfl
  simp only [List.cons.injEq, and_true] at hl0
  subst hl0
  have hinp : w.input a.inFile = .ok (e ++ [n], f) := by
    unfold World.input
    rw [hin]
    simp only
    rw [hf]
    simp only
    rw [n1]
  unfold World.encode at henc
  rw [if_neg (show ¬ a.inFile = dash from ha), hinp] at henc
  simp only at henc
  cases ho : w.outName a (extension p.version) with
  | error x => rw [ho] at henc; cases henc
  | ok out =>
    rw [ho] at henc
    simp only at henc
    obtain ⟨cp, old, m, dk, rep, c1, c2, rfl, c4⟩ := encodeTo_ok henc
    refine ⟨cp, dk.file, rfl, (open_some c1).2.1, outName_place hw (extension_ok _).1 (ext_long _ (extension_ok _).2) hinp ho c1, ?_⟩
    intro hne D hD hash q hq hr hb w' b d hw' hcon hdir hcan hdn hnew
    obtain ⟨l1, l2, -⟩ := open_some c1
    obtain ⟨ini, last, d1, -, m1, m2, m3, -, m5⟩ := leads_file hw l1 l2
    rw [c2, Option.some.injEq] at m1
    subst m1
    -- the encoder's input
    rw [n1] at c4
    have hdec : decide (some (e ++ [n]) = some cp) = false := by
      simp only [Option.some.injEq, decide_eq_false_iff_not]; exact fun h => hne h.symm
    rw [hdec] at c4
    simp only [Bool.false_eq_true, if_false, Option.map_some] at c4
    set p' : Encode.Param := { p with sbxName := String.ofList m } with hp'
    have hok' : p'.Ok := ⟨hok.consistent, hok.shards⟩
    have hE' : E.Ok p' := ⟨hE.laws, hE.pos, hE.even, hE.room⟩
    have hcan2 : w.canOpen cp = true := by
      unfold World.open at c1
      rw [l1] at c1
      simp only at c1
      split at c1
      · assumption
      · cases c1
    have hnames : Encode.NamesOk p' ⟨f, some (String.ofList n, w.mtime)⟩ := by
      refine ⟨⟨isName_bytes m2.1, hlim cp m (by rw [m3]; simp) (.inr hcan2)⟩, ?_⟩
      intro x t hx
      simp only [Option.some.injEq, Prod.mk.injEq] at hx
      rw [← hx.1]
      exact ⟨isName_bytes n2.1, hlim (e ++ [n]) n (by simp) (.inl (by rw [hf]; simp))⟩
    have hall : ∀ old, ∃ R, Decode.toFile D q dk.file old = .ok (f, R) := by
      intro old
      obtain ⟨R, hR, -⟩ := Decode.C21_roundtrip E p' hE' hok' _ hnames dk rep (.inr hrange) hs c4 hme hsup D hD hash q hq hr hb old
      exact ⟨R, hR⟩
    obtain ⟨mp, stored, b1, b2⟩ := Encode.container_metas hE' hok' hnames c4 hme
    have href := Decode.ref_at_start hr hD.stopRef (D.stop 0) b1
    have hrec : recordedName (blockOf p'.version p'.uid 0 mp) = .ok (some n) := by
      unfold recordedName
      rw [refFnm_meta Decode.metas_blockOf, b2]
      have : getMeta (Encode.finalMetas E p' ⟨f, some (String.ofList n, w.mtime)⟩ stored) .fnm = some (.fnm (String.ofList n)) := rfl
      rw [this]
      simp only [String.toList_ofList]
      rw [fileName_name n2.1 n2.2.1 n2.2.2.1 n2.2.2.2.1]
    obtain ⟨R, hR⟩ := hall []
    obtain ⟨pos, ref', dpb, full, g1, g2, -⟩ := Decode.toFile_ok hD hq hR
    rw [href] at g1
    simp only [Except.ok.injEq, Prod.mk.injEq] at g1
    obtain ⟨-, rfl⟩ := g1
    -- the file system after encoding
    set fs1 := w.fs.set cp dk.file with hfs1
    have hfs1ok : fs1.Ok := set_ok hw l2 ⟨d1, m, m3, m5⟩ _
    have hcp : fs1 cp = some (.file dk.file) := by rw [hfs1]; unfold Fs.set; rw [if_pos rfl]
    obtain ⟨_, bn, _, -, k1, -⟩ := leads_file hfs1ok hcon (by rw [hcp]; simp)
    have hinp' : w'.input b.inFile = .ok (cp, dk.file) := by
      unfold World.input
      rw [hw', hcon]
      simp only
      rw [hcp]
      simp only
      rw [k1]
    have hout : ∃ out', w'.decodeOut b.out (some n) = .ok (some out') ∧ leads w'.fs w'.cwd out' = some (d ++ [n]) := by
      obtain ⟨i1, ⟨i2, i3⟩ | ⟨o, i2, i3, i4⟩⟩ := hdir
      · rw [i2]
        rw [i3] at i1 ⊢
        exact ⟨n, rfl, by rw [hw']; exact leads_name' n2 i1⟩
      · rw [i2]
        refine ⟨makePath [o, n], ?_, by rw [hw']; exact leads_makePath' n2 i4 i1⟩
        have hdr : w'.isDir o = true := by
          unfold World.isDir at?
          rw [hw', i4, Option.bind_some, i1]
        unfold World.decodeOut
        simp only
        rw [if_neg (show ¬ o = dash from i3), hdr]
        rfl
    obtain ⟨out', o1, o2⟩ := hout
    have := decode_ok (w := w') (a := b) hinp' href hrec o1 g2 o2 hcan hdn (by
      rw [hw']
      rcases hnew with h | ⟨-, old, h⟩ <;> rw [h] <;> simp) (by
      rw [hw']
      rcases hnew with h | h
      · exact .inl h
      · exact .inr h.1) hall
    rw [this, hw']

/-! ### Small file systems -/

/-- The root directory with these files. -/
def desk (files : List (Name × File)) : Fs
  | [] => some .dir
  | [n] => (files.lookup n).map .file
  | _ => none

theorem desk_ok (files : List (Name × File)) : (desk files).Ok := by
  refine ⟨rfl, ?_⟩
  intro pl n h
  cases pl with
  | nil => rfl
  | cons a l =>
    cases l with
    | nil => exact absurd rfl h
    | cons b l => exact absurd rfl h

/-- A command started in the root directory; every file can be opened. -/
def deskWorld (files : List (Name × File)) : World := ⟨desk files, [], fun _ => true, [], none, [], []⟩

/-- What there is afterwards under a name, and whether the command succeeded. -/
def left? (r : Fs × Except Fail Unit) (n : Name) : Option (List Byte) × Bool :=
  (match r.1 [n] with | some (.file c) => some c | _ => none, match r.2 with | .ok _ => true | .error _ => false)

/-- A container in which the name `name` is recorded: metadata and two data blocks. -/
def namedContainer (name : String) : File :=
  Decode.tinyBlock .v2 0 ((metasToBytes [.fnm name, .fsz 200] 112).getD []) ++
    Decode.tinyBlock .v2 1 (List.replicate 112 7) ++ Decode.tinyBlock .v2 2 (List.replicate 88 7 ++ List.replicate 24 0x1A)

def decodeDesk (files : List (Name × File)) (c : Name) (out : Option (List Char)) (force : Bool) : Fs × Except Fail Unit :=
  (deskWorld files).decode Decode.tinyEnv Decode.tinyParam ⟨c, out, force⟩

set_option maxRecDepth 1000000 in
/-- Decoding without `-o` writes the file named in the container; a recorded path is reduced to its last part; what exists is kept, unless
`--force` is given; a recorded `..` is an error. -/
example :
    left? (decodeDesk [(['c'], namedContainer "b")] ['c'] none false) ['b'] = (some (List.replicate 200 7), true) ∧
    left? (decodeDesk [(['c'], namedContainer "/x/../b")] ['c'] none false) ['b'] = (some (List.replicate 200 7), true) ∧
    left? (decodeDesk [(['c'], namedContainer "b"), (['b'], [1])] ['c'] none false) ['b'] = (some [1], false) ∧
    left? (decodeDesk [(['c'], namedContainer "b"), (['b'], [1])] ['c'] none true) ['b'] = (some (List.replicate 200 7), true) ∧
    left? (decodeDesk [(['c'], namedContainer "x/..")] ['c'] none true) ['x'] = (none, false) := by decide +kernel

set_option maxRecDepth 1000000 in
/-- **C50 is violated.** `blkar decode --force c` with a container `c` in which the name `c` is recorded: the container is replaced by
200 zeros, and success is reported. -/
theorem C50_decode_self_violated :
    left? (decodeDesk [(['c'], namedContainer "c")] ['c'] none true) ['c'] = (some (List.replicate 200 0), true) := by decide +kernel

def encodeDesk (files : List (Name × File)) (c : Name) (out : Option (List Char)) (force : Bool) : Fs × Except Fail Unit :=
  (deskWorld files).encode Device.tinyEncEnv Device.tinyEncParam ⟨c, out, force⟩

set_option maxRecDepth 1000000 in
/-- Encoding `b` makes `b.sbx`; an existing `b.sbx` is kept. -/
example :
    (left? (encodeDesk [(['b'], List.replicate 200 7)] ['b'] none false) "b.sbx".toList).1.map List.length = some 384 ∧
    left? (encodeDesk [(['b'], List.replicate 200 7), ("b.sbx".toList, [1])] ['b'] none false) "b.sbx".toList = (some [1], false) := by
  decide +kernel

set_option maxRecDepth 1000000 in
/-- **C50 is violated.** `blkar encode --force b b` replaces the file `b` by a container of an empty file, and success is reported. -/
theorem C50_encode_self_violated : (left? (encodeDesk [(['b'], List.replicate 200 7)] ['b'] (some ['b']) true) ['b']).2 = true ∧
    (left? (encodeDesk [(['b'], List.replicate 200 7)] ['b'] (some ['b']) true) ['b']).1.map List.length = some 128 := by decide +kernel

/-- Version 2, SHA-1 (here: the number of bytes), two lots per buffer. -/
noncomputable def tripEnv : Encode.Env := ⟨Decode.tinyHash, RsWitness.codec, 2, 5, fun _ => false⟩

theorem trip_ok : tripEnv.Ok Device.tinyEncParam ∧ Device.tinyEncParam.Ok := by
  refine ⟨⟨RsWitness.codec_laws, Nat.zero_lt_two, Nat.dvd_refl 2, by decide⟩, ⟨rfl, ?_⟩⟩
  intro d h
  cases h

/-- A file `b`; only files whose names have at most 255 bytes can be opened. -/
def tripWorld : World := { deskWorld [(['b'], List.replicate 200 7)] with
  canOpen := fun pl => pl.all fun n => decide ((String.ofList n).utf8ByteSize ≤ 255) }

theorem trip_limits : tripWorld.Limits := by
  intro pl n hn h
  rcases h with h | h
  · have hb : pl = [['b']] := by
      cases pl with
      | nil => cases hn
      | cons x l =>
        cases l with
        | nil =>
          by_contra hc
          refine h ?_
          have hx : (x == ['b']) = false := by
            rw [beq_eq_false_iff_ne]
            intro e
            exact hc (by rw [e])
          show ((List.lookup x [(['b'], List.replicate 200 7)]).map Node.file) = none
          simp only [List.lookup, hx, Option.map_none]
        | cons y l => exact absurd rfl h
    rw [hb, List.mem_singleton] at hn
    rw [hn]
    decide +kernel
  · have := List.all_eq_true.1 h n hn
    exact of_decide_eq_true this

set_option maxRecDepth 1000000 in
theorem trip_encodes : (left? (tripWorld.encode tripEnv Device.tinyEncParam ⟨['b'], none, false⟩) ['b']).2 = true := by decide +kernel

/-- Encoding `b` makes `b.sbx`, and decoding `b.sbx` with `--force` from any directory writes `b` again (whatever has become of the rest of
the world). -/
example : ∃ fs1, tripWorld.encode tripEnv Device.tinyEncParam ⟨['b'], none, false⟩ = (fs1, .ok ()) ∧
    ∀ (w' : World), w'.fs = fs1 → w'.cwd = [] → w'.canOpen [['b']] = true →
      w'.decode Decode.tinyEnv Decode.plainParam ⟨"b.sbx".toList, none, true⟩ = (fs1.set [['b']] (List.replicate 200 7), .ok ()) := by
  have h := trip_encodes
  unfold left? at h
  generalize hr : tripWorld.encode tripEnv Device.tinyEncParam ⟨['b'], none, false⟩ = r at h ⊢
  obtain ⟨fs1, x⟩ := r
  cases x with
  | error e => cases h
  | ok u =>
    have hin : leads tripWorld.fs tripWorld.cwd ['b'] = some [['b']] := by decide +kernel
    obtain ⟨cp, c, h1, hnd, ho, h2⟩ := C50_roundtrip tripWorld (desk_ok _) trip_limits tripEnv Device.tinyEncParam trip_ok.1 trip_ok.2
      (fun _ => rfl) ⟨rfl, rfl⟩ rfl rfl ⟨['b'], none, false⟩ (by decide) [] ['b'] (List.replicate 200 7) hin (by rfl) fs1 hr
    obtain ⟨pl, e1, d, n, e2, e3⟩ := ho
    rw [hin, Option.some.injEq] at e1
    have e4 : ([] : Place) ++ [['b']] = d ++ [n] := e1.trans e2
    obtain ⟨rfl, e5⟩ := List.append_inj' e4 rfl
    simp only [List.cons.injEq, and_true] at e5
    subst e5
    have hcp : cp = ["b.sbx".toList] := e3
    subst hcp
    refine ⟨fs1, rfl, ?_⟩
    intro w' hw' hcwd hcan
    have hroot : fs1 [] = some .dir := by rw [h1]; rfl
    refine h2 (by decide) Decode.tinyEnv ⟨Nat.one_pos, fun _ => rfl, fun _ => rfl, fun _ => rfl⟩ rfl Decode.plainParam Decode.plain_whole
      Decode.plain_ref (.inr ⟨rfl, by intro x h; cases h⟩) w' _ [] hw' ?_ ⟨hroot, .inl ⟨rfl, hcwd.symm⟩⟩ hcan (by decide) (.inr ⟨rfl, List.replicate 200 7, by rw [h1]; rfl⟩)
    rw [hcwd]
    exact leads_name' ⟨by decide, by decide, by decide, by decide, by decide⟩ hroot

end Verif.Command
