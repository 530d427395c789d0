import Verif.Spec.MultiPass
import Verif.Props.Sort
/-!
# C37: several passes
-/

namespace Verif.Decode
open Format ScanSpec DecodeSpec LayoutSpec ContainerSpec Layout Scan MultiPassSpec

/-- The whole container is decoded. -/
structure WholeRange (p : RefParam) : Prop where
  fromPos : p.fromPos = none
  toPos : p.toPos = none

/-- Chunk `j` is there in full, and not only zeros. -/
def NonBlank (u : Nat) (f : File) (j : Nat) : Prop := (j + 1) * u ≤ f.length ∧ ∃ b ∈ f.readAt (j * u) u, b ≠ 0

theorem put_keeps {u : Nat} (hu : 0 < u) {dpb : Option Dpb} {out : File} {x : Nat × List Byte} (hx : x.2.length = u) {j : Nat}
    (h : NonBlank u out j) : (put u dpb true out x).readAt (j * u) u = out.readAt (j * u) u ∧ NonBlank u (put u dpb true out x) j := by
  have key : (put u dpb true out x).readAt (j * u) u = out.readAt (j * u) u ∧ out.length ≤ (put u dpb true out x).length := by
    unfold put
    split
    · exact ⟨rfl, Nat.le_refl _⟩
    · rename_i i hi
      split
      · exact ⟨rfl, Nat.le_refl _⟩
      · rename_i hno
        have hne : x.2 ≠ [] := by intro h0; rw [h0] at hx; simp at hx; omega
        have hij : i ≠ j := by
          rintro rfl
          apply hno
          obtain ⟨h1, b, hb, hb0⟩ := h
          rw [Nat.succ_mul] at h1
          simp only [Bool.true_and, Bool.not_eq_true', Bool.or_eq_false_iff, decide_eq_false_iff_not, Nat.not_lt]
          refine ⟨by rw [File.readAt_length]; omega, ?_⟩
          rw [List.all_eq_false]
          exact ⟨b, hb, by simpa using hb0⟩
        constructor
        · apply List.ext_getElem?
          intro t
          rw [File.getElem?_readAt, File.getElem?_readAt]
          split
          · rename_i ht
            rw [File.getElem?_writeAt _ _ _ hne, hx]
            have h1 := h.1
            rw [Nat.succ_mul] at h1
            rcases Nat.lt_or_gt_of_ne hij with hlt | hgt
            · have := Nat.mul_le_mul_right u hlt
              rw [Nat.succ_mul] at this
              rw [if_neg (by omega), if_neg (by omega)]
            · have := Nat.mul_le_mul_right u hgt
              rw [Nat.succ_mul] at this
              rw [if_pos (by omega), if_pos (by omega)]
          · rfl
        · rw [File.writeAt_length _ _ _ hne]; omega
  obtain ⟨k1, k2⟩ := key
  refine ⟨k1, ?_, ?_⟩
  · have := h.1; omega
  · rw [k1]; exact h.2

/-- **C37, data output.** A pass in skip-good mode leaves every chunk alone that is there in full and not blank, whatever container is
read (even one whose blocks have other contents), whether or not the pass is interrupted; except that the file is cut to the recorded size. -/
theorem C37_data_kept (E : Env) (hE : 0 < E.lotCount) (q : Param) (hq : q.multiPass = some .skipGood) (g old out : File) (R : Report)
    (h : toFile E q g old = .ok (out, R)) :
    ∃ pos ref, getRefBlockM q.ref q.ref.refChoice g E.stopRef (E.stop 0) = .ok (pos, ref) ∧
      ∀ j, NonBlank (blockLen ref.header.version - 16) old j →
        (∀ n, refFsz ref = some n → (j + 1) * (blockLen ref.header.version - 16) ≤ n) →
        out.readAt (j * (blockLen ref.header.version - 16)) (blockLen ref.header.version - 16) =
          old.readAt (j * (blockLen ref.header.version - 16)) (blockLen ref.header.version - 16) := by
  unfold toFile at h
  cases hr : getRefBlockM q.ref q.ref.refChoice g E.stopRef (E.stop 0) with
  | error e => rw [hr] at h; simp at h
  | ok x =>
    obtain ⟨pos, ref⟩ := x
    rw [hr] at h
    simp only at h
    refine ⟨pos, ref, rfl, ?_⟩
    cases hd : dataParBurst q.ref true g ref with
    | error e => unfold decodeFile at h; rw [hd] at h; simp at h
    | ok dpb =>
      obtain ⟨m, -, -, e⟩ := decodeFile_spec E hE q ref g old dpb hd
      rw [e] at h
      simp only [Except.ok.injEq, Prod.mk.injEq] at h
      obtain ⟨rfl, -⟩ := h
      intro j hj hn
      rw [← dataSize_eq] at hj hn ⊢
      have hu := FileUtils.dataSize_pos ref.header.version
      rw [hq]
      have hopen : openOut (some MultiPass.skipGood) old = old := rfl
      have hsk : (some MultiPass.skipGood == some MultiPass.skipGood) = true := rfl
      rw [hopen, hsk]
      have hlens : ∀ x ∈ (List.range m).filterMap (look ref g (rangeOf q.ref ref g).seekTo), x.2.length = ref.header.version.dataSize := by
        intro x hx
        obtain ⟨k, -, hk⟩ := List.mem_filterMap.1 hx
        rw [(look_some.1 hk).2.len, dataSize_eq]
      have hfold : ∀ (l : List (Nat × List Byte)) (o : File), (∀ x ∈ l, x.2.length = ref.header.version.dataSize) →
          NonBlank ref.header.version.dataSize o j →
          (l.foldl (put ref.header.version.dataSize dpb true) o).readAt (j * ref.header.version.dataSize) ref.header.version.dataSize =
            o.readAt (j * ref.header.version.dataSize) ref.header.version.dataSize ∧
          NonBlank ref.header.version.dataSize (l.foldl (put ref.header.version.dataSize dpb true) o) j := by
        intro l
        induction l with
        | nil => intro o _ h; exact ⟨rfl, h⟩
        | cons x l ih =>
          intro o hl ho
          obtain ⟨p1, p2⟩ := put_keeps hu (dpb := dpb) (hl x List.mem_cons_self) ho
          obtain ⟨q1, q2⟩ := ih _ (fun y hy => hl y (List.mem_cons_of_mem _ hy)) p2
          rw [List.foldl_cons]
          exact ⟨q1.trans p1, q2⟩
      obtain ⟨f1, f2⟩ := hfold _ old hlens hj
      rw [← f1]
      unfold truncated
      cases hf : refFsz ref with
      | none => rfl
      | some n =>
        have hn := hn n hf
        simp only
        apply List.ext_getElem?
        intro t
        rw [File.getElem?_readAt, File.getElem?_readAt]
        split
        · rename_i ht
          rw [Nat.succ_mul] at hn
          have := f2.1
          rw [Nat.succ_mul] at this
          rw [setLen_get _ _ _ (by omega), if_pos (by omega)]
        · rfl

theorem put_chunks {u : Nat} (hu : 0 < u) {bytes : List Byte} {dpb : Option Dpb} {skip : Bool} {S : Nat → Prop} {out : File}
    (h : Chunks u bytes S out) {x : Nat × List Byte} (hx : x.2.length = u)
    (hr : ∀ j, chunkOf dpb x.1 = some j → ∀ t < u, j * u + t < bytes.length → x.2[t]? = bytes[j * u + t]?) :
    Chunks u bytes (fun j => S j ∨ chunkOf dpb x.1 = some j) (put u dpb skip out x) := by
  have hne : x.2 ≠ [] := by intro h0; rw [h0] at hx; simp at hx; omega
  unfold put
  cases hc : chunkOf dpb x.1 with
  | none =>
    refine ⟨?_, ?_, ?_⟩
    · intro i h1 h2 h3
      exact h.right i h1 h2 (h3.resolve_right (by simp))
    · intro i h1 h2
      exact h.blank i h1 (fun h3 => h2 (.inl h3))
    · intro j hj
      exact h.there j (hj.resolve_right (by simp))
  | some j =>
    simp only [Option.some.injEq]
    split
    · rename_i hs
      simp only [Bool.and_eq_true, Bool.not_eq_true', Bool.or_eq_false_iff, decide_eq_false_iff_not, Nat.not_lt] at hs
      obtain ⟨-, h1, h2⟩ := hs
      rw [List.all_eq_false] at h2
      obtain ⟨b, hb, hb0⟩ := h2
      have hSj : S j := by
        by_contra hno
        obtain ⟨t, ht⟩ := List.mem_iff_getElem?.1 hb
        rw [File.getElem?_readAt] at ht
        split at ht
        · rename_i htu
          have hlt : j * u + t < out.length := (List.getElem?_eq_some_iff.1 ht).1
          rw [h.blank (j * u + t) hlt (by
            rw [Nat.add_comm, Nat.add_mul_div_right _ _ hu, Nat.div_eq_of_lt htu, Nat.zero_add]; exact hno)] at ht
          simp only [Option.some.injEq] at ht
          subst ht
          simp at hb0
        · simp at ht
      have heq : (fun k => S k ∨ j = k) = S := by
        funext k
        apply propext
        constructor
        · rintro (h | rfl)
          · exact h
          · exact hSj
        · exact .inl
      rw [heq]; exact h
    · have hl : (out.writeAt (j * u) x.2).length = max out.length (j * u + u) := by
        rw [File.writeAt_length _ _ _ hne, hx]
      have hdiv : ∀ i, j * u ≤ i → i < j * u + u → i / u = j := by
        intro i h1 h2
        rw [show i = (i - j * u) + j * u by omega, Nat.add_mul_div_right _ _ hu, Nat.div_eq_of_lt (by omega), Nat.zero_add]
      have hdiv' : ∀ i, i / u = j → j * u ≤ i ∧ i < j * u + u := by
        intro i h1
        have a := Nat.div_add_mod i u
        have b := Nat.mod_lt i hu
        rw [h1, Nat.mul_comm] at a
        omega
      refine ⟨?_, ?_, ?_⟩
      · intro i h1 h2 h3
        rw [File.getElem?_writeAt _ _ _ hne, hx]
        by_cases hj : i / u = j
        · obtain ⟨a1, a2⟩ := hdiv' i hj
          rw [if_neg (by omega), if_pos a2]
          have := hr j hc (i - j * u) (by omega) (by omega)
          rw [this]; congr 1; omega
        · have hS : S (i / u) := h3.resolve_right (fun e => hj e.symm)
          have hlt : i < out.length := by
            have := h.there _ hS
            have h4 := Nat.div_add_mod i u
            have h5 := Nat.mod_lt i hu
            rw [Nat.succ_mul, Nat.mul_comm (i / u)] at this
            omega
          have : ¬ (j * u ≤ i ∧ i < j * u + u) := fun ⟨a, b⟩ => hj (hdiv i a b)
          by_cases h6 : i < j * u
          · rw [if_pos h6, if_pos hlt]; exact h.right i hlt h2 hS
          · rw [if_neg h6, if_neg (by omega)]; exact h.right i hlt h2 hS
      · intro i h1 h2
        rw [File.getElem?_writeAt _ _ _ hne, hx]
        have hj : i / u ≠ j := fun e => h2 (.inr e.symm)
        have hS : ¬ S (i / u) := fun e => h2 (.inl e)
        have : ¬ (j * u ≤ i ∧ i < j * u + u) := fun ⟨a, b⟩ => hj (hdiv i a b)
        rw [hl] at h1
        by_cases h6 : i < j * u
        · rw [if_pos h6]
          split
          · rename_i hlt; exact h.blank i hlt hS
          · rfl
        · rw [if_neg h6, if_neg (by omega)]
          exact h.blank i (by omega) hS
      · intro k hk
        rw [hl]
        rcases hk with hk | rfl
        · have := h.there k hk; omega
        · rw [Nat.succ_mul]; omega

theorem chunks_setLen {u : Nat} (hu : 0 < u) {bytes : List Byte} {S : Nat → Prop} {out : File} (h : Chunks u bytes S out) :
    Chunks u bytes S (out.setLen bytes.length) := by
  refine ⟨?_, ?_, ?_⟩
  · intro i h1 h2 h3
    have hlt : i < out.length := by
      have := h.there _ h3
      have h4 := Nat.div_add_mod i u
      have h5 := Nat.mod_lt i hu
      rw [Nat.succ_mul, Nat.mul_comm (i / u)] at this
      omega
    rw [setLen_get _ _ _ h2, if_pos hlt]
    exact h.right i hlt h2 h3
  · intro i h1 h2
    rw [setLen_length] at h1
    rw [setLen_get _ _ _ h1]
    split
    · rename_i hlt; exact h.blank i hlt h2
    · rfl
  · intro j _
    rw [setLen_length]; omega

/-- **C37, one more pass of data output.** The output file has the chunks `S` and is blank elsewhere; a damaged copy `g` of the
container is decoded into it in either multi-pass mode.  Then it has the chunks `S'`, with `S ⊆ S' ⊆ S ∪ chunks of g`, and
`S' = S ∪ chunks of g` if the pass is not interrupted. -/
theorem C37_data_pass (E : Env) (hE : 0 < E.lotCount) (q : Param) (hq : q.multiPass ≠ none) (hw : WholeRange q.ref) (g old out : File)
    (R : Report) (h : toFile E q g old = .ok (out, R)) (pos : Nat) (ref : Block)
    (hr : getRefBlockM q.ref q.ref.refChoice g E.stopRef (E.stop 0) = .ok (pos, ref)) (rs : RsCodec) (v : Version) (uid : Uid)
    (dpb : Option Dpb) (bytes : List Byte) (hver : ref.header.version = v) (huid : ref.header.uid = uid)
    (hrs : RsLen rs v dpb) (hv : Valid dpb) (hc : verConsistent v dpb = true)
    (hsz : ∀ n, refFsz ref = some n → n = bytes.length)
    (hsh : ∀ ms, ref.metas = some ms → firstRsd ms = dpb.map (·.data) ∧ firstRsp ms = dpb.map (·.parity))
    (hdam : OnlyBlocksOf rs v uid dpb bytes g) (S : Nat → Prop) (hS : Chunks (blockLen v - 16) bytes S old) :
    ∃ S' : Nat → Prop, Chunks (blockLen v - 16) bytes S' out ∧ (∀ j, S j → S' j) ∧ (∀ j, S' j → S j ∨ HasChunk v uid dpb g j) ∧
      ((∀ i, E.stop i = false) → ∀ j, HasChunk v uid dpb g j → S' j) ∧
      (refFsz ref = some bytes.length → out.length = bytes.length) := by
  subst hver huid
  unfold toFile at h
  rw [hr] at h
  simp only at h
  cases hd : dataParBurst q.ref true g ref with
  | error e => unfold decodeFile at h; rw [hd] at h; simp at h
  | ok dpb' =>
    obtain ⟨m, hm1, hm2, e⟩ := decodeFile_spec E hE q ref g old dpb' hd
    rw [e] at h
    simp only [Except.ok.injEq, Prod.mk.injEq] at h
    obtain ⟨rfl, -⟩ := h
    have hseek : (rangeOf q.ref ref g).seekTo = 0 := by
      unfold rangeOf; rw [hw.fromPos, hw.toPos, range_all]
    have hpl : places ref g (rangeOf q.ref ref g).seekTo (rangeOf q.ref ref g).requiredLen = g.length / blockLen ref.header.version := by
      unfold rangeOf; rw [hw.fromPos, hw.toPos]; exact places_all
    rw [hpl] at hm1 hm2
    rw [hseek]
    have hchunk : chunkOf dpb' = chunkOf dpb := by
      funext s
      exact congrFun (chunkOf_congr (dataParBurst_eq (dpb := dpb) hd hc hsh)) s
    have hopen : openOut q.multiPass old = old := by unfold openOut; rw [if_neg hq]
    rw [hopen]
    rw [← dataSize_eq] at hS ⊢
    have hu := FileUtils.dataSize_pos ref.header.version
    have hfound : ∀ x ∈ (List.range m).filterMap (look ref g 0), x.1 < 2 ^ 32 ∧
        HasBlock ref.header.version ref.header.uid g (UInt32.ofNat x.1) x.2 ∧ x.2.length = ref.header.version.dataSize := by
      intro x hx
      obtain ⟨k, hk, hkx⟩ := List.mem_filterMap.1 hx
      have hk' : k < g.length / blockLen ref.header.version := by have := List.mem_range.1 hk; omega
      have hmem := mem_found.1 (List.mem_filterMap.2 ⟨k, List.mem_range.2 hk', hkx⟩)
      refine ⟨hmem.1, hmem.2, ?_⟩
      rw [(look_some.1 hkx).2.len, dataSize_eq]
    have hfold : ∀ (l : List (Nat × List Byte)) (S : Nat → Prop) (o : File),
        (∀ x ∈ l, x.1 < 2 ^ 32 ∧ HasBlock ref.header.version ref.header.uid g (UInt32.ofNat x.1) x.2 ∧
          x.2.length = ref.header.version.dataSize) →
        Chunks ref.header.version.dataSize bytes S o →
        Chunks ref.header.version.dataSize bytes (fun j => S j ∨ ∃ x ∈ l, chunkOf dpb x.1 = some j)
          (l.foldl (put ref.header.version.dataSize dpb' (q.multiPass == some .skipGood)) o) := by
      intro l
      induction l with
      | nil =>
        intro S o _ h
        simpa using h
      | cons x l ih =>
        intro S o hl ho
        rw [List.foldl_cons]
        obtain ⟨x1, x2, x3⟩ := hl x List.mem_cons_self
        have := put_chunks hu (dpb := dpb') (skip := q.multiPass == some .skipGood) ho (x := x) x3 (by
          intro j hj t ht hlt
          rw [hchunk, chunkOf_iff hv] at hj
          have hne : UInt32.ofNat x.1 ≠ 0 := by
            intro h0
            have h1 := congrArg UInt32.toNat h0
            rw [ofNat_toNat32 x1] at h1
            have := seqOf_pos (dpb := dpb) (j := j)
            simp at h1
            omega
          have hp := hdam _ _ hne x2
          rw [ofNat_toNat32 x1, hj] at hp
          have := ((payload_bytes hrs hv bytes j).1 _ hp).2 t ht
          rw [this, List.getElem?_eq_getElem hlt]; rfl)
        have := ih _ _ (fun y hy => hl y (List.mem_cons_of_mem _ hy)) this
        have heq : (fun j => (S j ∨ chunkOf dpb' x.1 = some j) ∨ ∃ y ∈ l, chunkOf dpb y.1 = some j) =
            (fun j => S j ∨ ∃ y ∈ x :: l, chunkOf dpb y.1 = some j) := by
          funext j
          apply propext
          rw [hchunk]
          simp only [List.mem_cons, exists_eq_or_imp]
          tauto
        rw [heq] at this
        exact this
    have hC := hfold _ S old hfound hS
    refine ⟨fun j => S j ∨ ∃ x ∈ (List.range m).filterMap (look ref g 0), chunkOf dpb x.1 = some j, ?_, fun j hj => .inl hj, ?_, ?_, ?_⟩
    · unfold truncated
      cases hf : refFsz ref with
      | none => exact hC
      | some n => rw [hsz n hf]; exact chunks_setLen hu hC
    · rintro j (hj | ⟨x, hx, hxj⟩)
      · exact .inl hj
      · obtain ⟨x1, x2, -⟩ := hfound x hx
        exact .inr ⟨_, x.2, x2, by rw [ofNat_toNat32 x1]; exact hxj⟩
    · intro hs j hj
      obtain ⟨s, p, h1, h2⟩ := hj
      right
      refine ⟨(s.toNat, p), ?_, h2⟩
      rw [hm2 hs, mem_found']
      exact h1
    · intro hf
      unfold truncated
      rw [hf]
      exact setLen_length _ _

/-- A pass that is not interrupted, over a damaged copy of the container of `bytes` (see `C37_data_pass`). -/
structure PassOver (rs : RsCodec) (v : Version) (uid : Uid) (dpb : Option Dpb) (bytes : List Byte) (E : Env) (q : Param) (g : File) :
    Prop where
  lots : 0 < E.lotCount
  stop : ∀ i, E.stop i = false
  multi : q.multiPass ≠ none
  range : WholeRange q.ref
  only : OnlyBlocksOf rs v uid dpb bytes g
  ref : ∃ pos ref, getRefBlockM q.ref q.ref.refChoice g E.stopRef (E.stop 0) = .ok (pos, ref) ∧ ref.header.version = v ∧
    ref.header.uid = uid ∧ (∀ n, refFsz ref = some n → n = bytes.length) ∧
    ∀ ms, ref.metas = some ms → firstRsd ms = dpb.map (·.data) ∧ firstRsp ms = dpb.map (·.parity)

/-- Several passes with the same output file, one after the other; `none` if one of them fails. -/
noncomputable def passes (old : File) : List (Env × Param × File) → Option File
  | [] => some old
  | x :: xs => match toFile x.1 x.2.1 x.2.2 old with
    | .error _ => none
    | .ok (out, _) => passes out xs

/-- **C37, union of passes.** Passes over any number of damaged copies, in any order, leave in a new output file exactly the chunks that
are intact in at least one of the copies. -/
theorem C37_data_union (rs : RsCodec) (v : Version) (uid : Uid) (dpb : Option Dpb) (bytes : List Byte) (hrs : RsLen rs v dpb)
    (hv : Valid dpb) (hc : verConsistent v dpb = true) (ps : List (Env × Param × File))
    (hps : ∀ x ∈ ps, PassOver rs v uid dpb bytes x.1 x.2.1 x.2.2) (out : File) (h : passes [] ps = some out) :
    Chunks (blockLen v - 16) bytes (fun j => ∃ x ∈ ps, HasChunk v uid dpb x.2.2 j) out := by
  have key : ∀ (ps : List (Env × Param × File)) (old : File) (S : Nat → Prop),
      (∀ x ∈ ps, PassOver rs v uid dpb bytes x.1 x.2.1 x.2.2) → Chunks (blockLen v - 16) bytes S old → passes old ps = some out →
      Chunks (blockLen v - 16) bytes (fun j => S j ∨ ∃ x ∈ ps, HasChunk v uid dpb x.2.2 j) out := by
    intro ps
    induction ps with
    | nil =>
      intro old S _ hS h
      simp only [passes, Option.some.injEq] at h
      subst h
      simpa using hS
    | cons x ps ih =>
      intro old S hps hS h
      rw [passes] at h
      cases ht : toFile x.1 x.2.1 x.2.2 old with
      | error e => rw [ht] at h; simp at h
      | ok y =>
        obtain ⟨mid, R⟩ := y
        rw [ht] at h
        simp only at h
        have hx := hps x List.mem_cons_self
        obtain ⟨pos, ref, r1, r2, r3, r4, r5⟩ := hx.ref
        obtain ⟨S', s1, s2, s3, s4, -⟩ := C37_data_pass x.1 hx.lots x.2.1 hx.multi hx.range x.2.2 old mid R ht pos ref r1 rs v uid dpb
          bytes r2 r3 hrs hv hc r4 r5 hx.only S hS
        have := ih mid S' (fun y hy => hps y (List.mem_cons_of_mem _ hy)) s1 h
        have heq : (fun j => S' j ∨ ∃ y ∈ ps, HasChunk v uid dpb y.2.2 j) =
            (fun j => S j ∨ ∃ y ∈ x :: ps, HasChunk v uid dpb y.2.2 j) := by
          funext j
          apply propext
          simp only [List.mem_cons, exists_eq_or_imp]
          constructor
          · rintro (h | h)
            · rcases s3 j h with h | h
              · exact .inl h
              · exact .inr (.inl h)
            · exact .inr (.inr h)
          · rintro (h | h | h)
            · exact .inl (s2 j h)
            · exact .inl (s4 hx.stop j h)
            · exact .inr h
        rw [heq] at this
        exact this
  have h0 : Chunks (blockLen v - 16) bytes (fun _ => False) [] := ⟨by simp, by simp, by simp⟩
  simpa using key ps [] _ hps h0 h

/-- **C37, complete.** If every chunk is intact in at least one copy and the last copy read tells the size, the file is restored. -/
theorem C37_data_complete (rs : RsCodec) (v : Version) (uid : Uid) (dpb : Option Dpb) (bytes : List Byte) (hrs : RsLen rs v dpb)
    (hv : Valid dpb) (hc : verConsistent v dpb = true) (ps : List (Env × Param × File)) (E : Env) (q : Param) (g : File)
    (hps : ∀ x ∈ ps ++ [(E, q, g)], PassOver rs v uid dpb bytes x.1 x.2.1 x.2.2) (out : File)
    (hsize : ∀ pos ref, getRefBlockM q.ref q.ref.refChoice g E.stopRef (E.stop 0) = .ok (pos, ref) → refFsz ref = some bytes.length)
    (hall : ∀ j, j * (blockLen v - 16) < bytes.length → ∃ x ∈ ps ++ [(E, q, g)], HasChunk v uid dpb x.2.2 j)
    (h : passes [] (ps ++ [(E, q, g)]) = some out) : out = bytes := by
  have hC := C37_data_union rs v uid dpb bytes hrs hv hc _ hps out h
  have hlen : out.length = bytes.length := by
    have : ∀ (ps : List (Env × Param × File)) (old : File), passes old (ps ++ [(E, q, g)]) = some out →
        ∃ old' R, toFile E q g old' = .ok (out, R) := by
      intro ps
      induction ps with
      | nil =>
        intro old h
        simp only [List.nil_append, passes] at h
        cases ht : toFile E q g old with
        | error e => rw [ht] at h; simp at h
        | ok y => rw [ht] at h; simp at h; subst h; exact ⟨old, y.2, ht⟩
      | cons x ps ih =>
        intro old h
        rw [List.cons_append, passes] at h
        split at h
        · simp at h
        · exact ih _ h
    obtain ⟨old', R, ht⟩ := this ps [] h
    unfold toFile at ht
    cases hr : getRefBlockM q.ref q.ref.refChoice g E.stopRef (E.stop 0) with
    | error e => rw [hr] at ht; simp at ht
    | ok x =>
      obtain ⟨pos, ref⟩ := x
      rw [hr] at ht
      simp only at ht
      cases hd : dataParBurst q.ref true g ref with
      | error e => unfold decodeFile at ht; rw [hd] at ht; simp at ht
      | ok dpb' =>
        obtain ⟨m, -, -, e⟩ := decodeFile_spec E (hps (E, q, g) (by simp)).lots q ref g old' dpb' hd
        rw [e] at ht
        simp only [Except.ok.injEq, Prod.mk.injEq] at ht
        obtain ⟨rfl, -⟩ := ht
        unfold truncated
        rw [hsize pos ref hr]
        exact setLen_length _ _
  apply List.ext_getElem?
  intro i
  by_cases hi : i < bytes.length
  · refine hC.right i (by omega) hi (hall _ ?_)
    exact Nat.lt_of_le_of_lt (Nat.div_mul_le_self i _) hi
  · rw [List.getElem?_eq_none (by omega), List.getElem?_eq_none (by omega)]

end Verif.Decode

namespace Verif.Sort
open Format ScanSpec DecodeSpec LayoutSpec ContainerSpec Layout Scan Decode Misc MultiPassSpec

/-! ### Block output -/

theorem readAt_writeAt_other {u : Nat} (hu : 0 < u) {out : File} {b : List Byte} (hb : b.length = u) {j k : Nat} (hjk : j ≠ k)
    (hk : (k + 1) * u ≤ out.length) : (out.writeAt (j * u) b).readAt (k * u) u = out.readAt (k * u) u := by
  have hne : b ≠ [] := by intro h0; rw [h0] at hb; simp at hb; omega
  apply List.ext_getElem?
  intro t
  rw [File.getElem?_readAt, File.getElem?_readAt]
  split
  · rename_i ht
    rw [File.getElem?_writeAt _ _ _ hne, hb]
    rw [Nat.succ_mul] at hk
    rcases Nat.lt_or_gt_of_ne hjk with hlt | hgt
    · have := Nat.mul_le_mul_right u hlt
      rw [Nat.succ_mul] at this
      rw [if_neg (by omega), if_neg (by omega)]
    · have := Nat.mul_le_mul_right u hgt
      rw [Nat.succ_mul] at this
      rw [if_pos (by omega), if_pos (by omega)]
  · rfl

/-- The output file still has at place `k` what it had at first, and is not shorter. -/
def Same (u : Nat) (old : File) (k : Nat) (out : File) : Prop :=
  out.readAt (k * u) u = old.readAt (k * u) u ∧ old.length ≤ out.length

theorem same_write {u : Nat} (hu : 0 < u) {old out : File} {k : Nat} (hk : (k + 1) * u ≤ old.length) (h : Same u old k out)
    {b : List Byte} (hb : b.length = u) {j : Nat} (hjk : j ≠ k) : Same u old k (out.writeAt (j * u) b) := by
  have hne : b ≠ [] := by intro h0; rw [h0] at hb; simp at hb; omega
  refine ⟨?_, ?_⟩
  · rw [readAt_writeAt_other hu hb hjk (by have := h.2; omega)]; exact h.1
  · rw [File.writeAt_length _ _ _ hne]; have := h.2; omega

theorem holds_iff {ref : Block} {out : File} {pos seq room : Nat} (hs : seq < 2 ^ 32) :
    holds ref out pos seq room = true ↔ pos + room ≤ out.length ∧
      ∃ p, IsBlock (out.readAt pos (blockLen ref.header.version)) ref.header.version ref.header.uid (UInt32.ofNat seq) p := by
  unfold holds
  rw [Bool.and_eq_true, decide_eq_true_eq, Option.any_eq_true]
  refine and_congr_right fun _ => ?_
  constructor
  · rintro ⟨b, hb, hbs⟩
    rw [blockAt_iff] at hb
    obtain ⟨s, p, hp, rfl⟩ := hb
    rw [beq_iff_eq] at hbs
    have : s = UInt32.ofNat seq := by
      rw [← hbs]; simp [blockOf]
    subst this
    exact ⟨p, hp⟩
  · rintro ⟨p, hp⟩
    refine ⟨blockOf _ _ _ p, blockAt_iff.2 ⟨_, p, hp, rfl⟩, ?_⟩
    rw [beq_iff_eq]
    simp only [blockOf]
    exact ofNat_toNat32 hs


/-- A place of the archive that a pass must leave alone: a valid block of the archive with the sequence number that belongs there, with
`largestBlockSize` (4096) bytes from its beginning to the end of the file if it is not metadata. -/
inductive Good (v : Version) (uid : Uid) (dpb : Option Dpb) (old : File) : Nat → Prop
  | data (s : Nat) (p : List Byte) (h1 : 1 ≤ s) (h2 : s < 2 ^ 32)
      (h : IsBlock (old.readAt (dataWriteIndex s (some true) dpb * blockLen v) (blockLen v)) v uid (UInt32.ofNat s) p)
      (room : dataWriteIndex s (some true) dpb * blockLen v + 4096 ≤ old.length) : Good v uid dpb old (dataWriteIndex s (some true) dpb)
  | metadata (k : Nat) (hk : k ∈ metaCopies (some true) dpb) (p : List Byte)
      (h : IsBlock (old.readAt (k * blockLen v) (blockLen v)) v uid 0 p) : Good v uid dpb old k

theorem good_room {v : Version} {uid : Uid} {dpb : Option Dpb} {old : File} {k : Nat} (h : Good v uid dpb old k) :
    (k + 1) * blockLen v ≤ old.length := by
  cases h with
  | data s p h1 h2 h room =>
    have : blockLen v ≤ 4096 := by cases v <;> decide
    rw [Nat.succ_mul]; omega
  | metadata k hk p h =>
    have := isBlock_length h
    rw [File.readAt_length] at this
    have := blockLen_pos v
    rw [Nat.succ_mul]; omega

theorem putBlock_same {ref : Block} {dpb : Option Dpb} (hv : Valid dpb) {old out : File} {k : Nat}
    (hg : Good ref.header.version ref.header.uid dpb old k) (h : Same (blockLen ref.header.version) old k out) {x : Nat × List Byte}
    (hx : 1 ≤ x.1 ∧ x.1 < 2 ^ 32 ∧ x.2.length = blockLen ref.header.version - 16) :
    Same (blockLen ref.header.version) old k (putBlock ref dpb true out x) := by
  obtain ⟨x1, x2, x3⟩ := hx
  have hu := blockLen_pos ref.header.version
  have h16 : 16 < blockLen ref.header.version := by cases ref.header.version <;> decide
  unfold putBlock
  simp only [Bool.true_and]
  rw [dataWritePos, ← blockLen_eq]
  by_cases hk : dataWriteIndex x.1 (some true) dpb = k
  · rw [if_pos]
    · exact h
    · rw [holds_iff x2]
      cases hg with
      | data s p h1 h2 hb room =>
        have := C10_data_injective _ _ hv _ _ x1 h1 hk
        subst this
        refine ⟨?_, p, ?_⟩
        · have := h.2
          show _ + 4096 ≤ _
          omega
        · rw [h.1]; exact hb
      | metadata k hk' p hb =>
        rw [← hk] at hk'
        exact absurd hk' (C10_data_not_meta _ _ hv _ x1)
  · split
    · exact h
    · refine same_write hu (good_room hg) h ?_ hk
      rw [blockBytes_length, x3]; omega

theorem putMetas_same {ref : Block} {dpb : Option Dpb} (hv : Valid dpb) {old out : File} {k : Nat}
    (hg : Good ref.header.version ref.header.uid dpb old k) (h : Same (blockLen ref.header.version) old k out) {mb : List Byte}
    (hmb : mb.length = blockLen ref.header.version) :
    Same (blockLen ref.header.version) old k (putMetas ref dpb true mb out) := by
  have hu := blockLen_pos ref.header.version
  unfold putMetas
  rw [metaAllPos_eq, metaAllIndices_eq, List.foldl_map]
  have hfold : ∀ (l : List Nat) (out : File), (∀ j ∈ l, j ∈ metaCopies (some true) dpb) → Same (blockLen ref.header.version) old k out →
      Same (blockLen ref.header.version) old k (l.foldl (fun out j => if true && holds ref out (j * ref.header.version.blockSize) 0
        ref.header.version.blockSize then out else out.writeAt (j * ref.header.version.blockSize) mb) out) := by
    intro l
    induction l with
    | nil => intro out _ h; exact h
    | cons j l ih =>
      intro out hl h
      rw [List.foldl_cons]
      apply ih _ (fun i hi => hl i (List.mem_cons_of_mem _ hi))
      have hj := hl j List.mem_cons_self
      simp only [Bool.true_and]
      rw [← blockLen_eq]
      by_cases hk : j = k
      · subst hk
        rw [if_pos]
        · exact h
        · rw [holds_iff (by decide)]
          have hr := good_room hg
          have := h.2
          rw [Nat.succ_mul] at hr
          refine ⟨by omega, ?_⟩
          cases hg with
          | data s p h1 h2 hb room => exact absurd hj (C10_data_not_meta _ _ hv _ h1)
          | metadata k hk' p hb => exact ⟨p, by rw [h.1]; exact hb⟩
      · split
        · exact h
        · exact same_write hu (good_room hg) h hmb hk
  exact hfold _ _ (fun _ h => h) h

theorem found_metas {ref : Block} {dpb : Option Dpb} {f : File} {start : Nat} {rb : Bool} {m : Nat} {mb : List Byte}
    (h : ((List.range m).foldl (tally ref dpb f start rb) (none, Stats.zero)).1 = some mb) :
    ∃ k < m, ∃ p, IsBlock mb ref.header.version ref.header.uid 0 p ∧
      f.readAt (start + k * blockLen ref.header.version) (blockLen ref.header.version) = mb := by
  rw [tally_found, Option.none_or] at h
  obtain ⟨k, hk, hx⟩ := List.exists_of_findSome?_eq_some h
  obtain ⟨p, hp, e⟩ := metaAt_some.1 hx
  exact ⟨k, List.mem_range.1 hk, p, e ▸ hp, e.symm⟩

theorem foldl_keeps {α β : Type} (P : α → Prop) (f : α → β → α) (l : List β) (a : α) (ha : P a) (h : ∀ a, ∀ b ∈ l, P a → P (f a b)) :
    P (l.foldl f a) := by
  induction l generalizing a with
  | nil => exact ha
  | cons x l ih =>
    exact ih _ (h a x List.mem_cons_self ha) (fun a b hb => h a b (List.mem_cons_of_mem _ hb))

/-- **C37, block output.** A pass in skip-good mode leaves every good block alone (`Good`: see there for the room that is needed),
whatever container is read (even one whose blocks have other contents), whether or not the pass is interrupted. -/
theorem C37_block_kept (E : Env) (hE : 0 < E.lotCount) (q : Param) (hq : q.multiPass = some .skipGood) (g old : File) (d : Disk)
    (st : Stats) (o : Order) (h : sortFile E q g old = .ok (some d, st, o)) :
    ∃ pos ref dpb, getRefBlockM q.ref q.ref.refChoice g E.stopRef (E.stop 0) = .ok (pos, ref) ∧ dataParBurst q.ref true g ref = .ok dpb ∧
      (Valid dpb → ∀ k, Good ref.header.version ref.header.uid dpb old k →
        d.file.readAt (k * blockLen ref.header.version) (blockLen ref.header.version) =
          old.readAt (k * blockLen ref.header.version) (blockLen ref.header.version)) := by
  unfold sortFile at h
  cases hr : getRefBlockM q.ref q.ref.refChoice g E.stopRef (E.stop 0) with
  | error e => rw [hr] at h; simp at h
  | ok x =>
    obtain ⟨pos, ref⟩ := x
    rw [hr] at h
    simp only at h
    cases hd : dataParBurst q.ref true g ref with
    | error e => rw [hd] at h; simp at h
    | ok dpb =>
      rw [hd] at h
      simp only at h
      refine ⟨pos, ref, dpb, rfl, hd, ?_⟩
      intro hv k hk
      obtain ⟨m, -, -, A, B, out, fin, h1, h2, h3, h4⟩ := sortWith_spec E hE q ref dpb g old
      rw [h3] at h
      simp only [Except.ok.injEq, Prod.mk.injEq] at h
      obtain ⟨rfl, -, -⟩ := h
      by_cases htf : q.toFile = true
      swap
      · rw [if_neg htf] at h4; simp at h4
      rw [if_pos htf, hq] at h4
      have hsk : (some MultiPass.skipGood == some MultiPass.skipGood) = true := rfl
      have hopen : openOut (some MultiPass.skipGood) old = old := rfl
      rw [hsk, hopen] at h4
      simp only [Option.map_some, Option.some.injEq] at h4
      have hx : ∀ x ∈ (A ++ B).map (·.2), 1 ≤ x.1 ∧ x.1 < 2 ^ 32 ∧ x.2.length = blockLen ref.header.version - 16 := by
        intro x hx
        obtain ⟨y, hy, rfl⟩ := List.mem_map.1 hx
        rw [← h1] at hy
        obtain ⟨i, -, hi⟩ := List.mem_filterMap.1 hy
        obtain ⟨-, a, b⟩ := dataAt_some.1 hi
        obtain ⟨c1, c2⟩ := look_some.1 b
        exact ⟨by omega, c1, c2.len⟩
      rw [List.map_append] at hx
      have h0 : Same (blockLen ref.header.version) old k old := ⟨rfl, Nat.le_refl _⟩
      have hA := foldl_keeps _ (putBlock ref dpb true) (A.map (·.2)) _ h0 (fun a b hb ha =>
        putBlock_same hv hk ha (hx b (List.mem_append_left _ hb)))
      have hM := foldl_keeps _ (fun o mb => putMetas ref dpb true mb o) fin.1.toList _ hA (fun a b hb ha => by
        have hb' : fin.1 = some b := by
          cases hf : fin.1 with
          | none => rw [hf] at hb; simp at hb
          | some c => rw [hf] at hb; simp at hb; rw [hb]
        rw [h2] at hb'
        obtain ⟨-, -, p, hp, -⟩ := found_metas hb'
        exact putMetas_same hv hk ha (isBlock_length hp))
      have hB := foldl_keeps _ (putBlock ref dpb true) (B.map (·.2)) _ hM (fun a b hb ha =>
        putBlock_same hv hk ha (hx b (List.mem_append_right _ hb)))
      rw [← h4] at hB
      exact hB.1

theorem place_write {u : Nat} (hu : 0 < u) {c out : File} {S : Nat → Prop} (h : Places u c S out) {k : Nat} {b : List Byte}
    (hb : b.length = u) (hc : c.readAt (k * u) u = b) : Places u c (fun j => S j ∨ k = j) (out.writeAt (k * u) b) := by
  obtain ⟨w1, w2, w3⟩ := File.unit_writeAt hu h.aligned (j := k) hb
  refine ⟨w1, ?_, ?_, ?_⟩
  · intro j hj
    have hlen : (j + 1) * u ≤ (out.writeAt (k * u) b).length := by
      rw [w2]
      rcases hj with hj | rfl
      · have := (h.right j hj).1; omega
      · omega
    refine ⟨hlen, ?_⟩
    have := w3 j (by rw [Nat.succ_mul] at hlen; omega)
    rw [File.unit] at this
    rw [this]
    by_cases hjk : j = k
    · subst hjk; rw [if_pos rfl, hc]
    · rw [if_neg hjk]
      have hS := hj.resolve_right (fun e => hjk e.symm)
      obtain ⟨r1, r2⟩ := h.right j hS
      rw [File.unit0, if_pos (by rw [Nat.succ_mul] at r1; omega)]
      exact r2
  · intro j hj hno
    have := w3 j hj
    rw [File.unit] at this
    rw [this, if_neg (fun e => hno (.inr e.symm)), File.unit0]
    split
    · rename_i hlt; exact h.blank j hlt (fun e => hno (.inl e))
    · rfl
  · intro j hj
    rw [w2] at hj
    rcases Nat.le_total out.length ((k + 1) * u) with hle | hle
    · rw [Nat.max_eq_right hle] at hj
      right
      have := Nat.eq_of_mul_eq_mul_right hu hj
      omega
    · rw [Nat.max_eq_left hle] at hj
      exact .inl (h.tight j hj)

theorem place_has {u : Nat} {c out : File} {S : Nat → Prop} (h : Places u c S out) {v : Version} {uid : Uid} {seq : UInt32}
    {p : List Byte} {k : Nat} (hu : u = blockLen v) (hb : IsBlock (out.readAt (k * u) u) v uid seq p) : S k := by
  by_contra hno
  have hl := isBlock_length hb
  rw [File.readAt_length] at hl
  have := blockLen_pos v
  rw [h.blank k (by omega) hno, hu] at hb
  exact zeros_no_block hb

theorem putBlock_place {ref : Block} {dpb : Option Dpb} {skip : Bool} {c out : File} {S : Nat → Prop}
    (h : Places (blockLen ref.header.version) c S out) {x : Nat × List Byte}
    (hx : x.1 < 2 ^ 32 ∧ x.2.length = blockLen ref.header.version - 16)
    (hc : c.readAt (dataWriteIndex x.1 (some true) dpb * blockLen ref.header.version) (blockLen ref.header.version) =
      blockBytes ref.header.version ref.header.uid.bytes (UInt32.ofNat x.1) x.2) :
    Places (blockLen ref.header.version) c (fun j => S j ∨ dataWriteIndex x.1 (some true) dpb = j) (putBlock ref dpb skip out x) := by
  have h16 : 16 < blockLen ref.header.version := by cases ref.header.version <;> decide
  unfold putBlock
  simp only
  rw [dataWritePos, ← blockLen_eq]
  split
  · rename_i hs
    rw [Bool.and_eq_true, holds_iff hx.1] at hs
    obtain ⟨-, -, p, hp⟩ := hs
    have hS := place_has h rfl hp
    have heq : (fun j => S j ∨ dataWriteIndex x.1 (some true) dpb = j) = S := by
      funext j; apply propext
      constructor
      · rintro (h | rfl)
        · exact h
        · exact hS
      · exact .inl
    rw [heq]; exact h
  · exact place_write (blockLen_pos _) h (by rw [blockBytes_length, hx.2]; omega) hc

theorem putMetas_place {ref : Block} {dpb : Option Dpb} {skip : Bool} {c out : File} {S : Nat → Prop}
    (h : Places (blockLen ref.header.version) c S out) {mb : List Byte} (hmb : mb.length = blockLen ref.header.version)
    (hc : ∀ k ∈ metaCopies (some true) dpb, c.readAt (k * blockLen ref.header.version) (blockLen ref.header.version) = mb) :
    Places (blockLen ref.header.version) c (fun j => S j ∨ j ∈ metaCopies (some true) dpb) (putMetas ref dpb skip mb out) := by
  unfold putMetas
  rw [metaAllPos_eq, metaAllIndices_eq, List.foldl_map]
  have hfold : ∀ (l : List Nat) (S : Nat → Prop) (out : File), (∀ j ∈ l, j ∈ metaCopies (some true) dpb) →
      Places (blockLen ref.header.version) c S out →
      Places (blockLen ref.header.version) c (fun j => S j ∨ j ∈ l)
        (l.foldl (fun out j => if skip && holds ref out (j * ref.header.version.blockSize) 0
        ref.header.version.blockSize then out else out.writeAt (j * ref.header.version.blockSize) mb) out) := by
    intro l
    induction l with
    | nil => intro S out _ h; simpa using h
    | cons k l ih =>
      intro S out hl h
      rw [List.foldl_cons]
      have heq : (fun j => S j ∨ j ∈ k :: l) = fun j => (S j ∨ k = j) ∨ j ∈ l := by
        funext j; apply propext
        rw [List.mem_cons, or_assoc, eq_comm (a := j)]
      rw [heq]
      apply ih _ _ (fun i hi => hl i (List.mem_cons_of_mem _ hi))
      rw [← blockLen_eq]
      split
      · rename_i hs
        rw [Bool.and_eq_true, holds_iff (by decide)] at hs
        obtain ⟨-, -, p, hp⟩ := hs
        have hS := place_has h rfl hp
        have heq : (fun j => S j ∨ k = j) = S := by
          funext j; apply propext
          constructor
          · rintro (h | rfl)
            · exact h
            · exact hS
          · exact .inl
        rw [heq]; exact h
      · exact place_write (blockLen_pos _) h hmb (hc k (hl k List.mem_cons_self))
  exact hfold _ _ _ (fun _ h => h) h

/-- The places of the archive that a copy `g` has the block for: those of data and parity blocks, and all metadata places if there is a
metadata block. -/
def HasPlace (v : Version) (uid : Uid) (dpb : Option Dpb) (g : File) (k : Nat) : Prop :=
  (∃ s p, s ≠ 0 ∧ s < 2 ^ 32 ∧ HasBlock v uid g (UInt32.ofNat s) p ∧ dataWriteIndex s (some true) dpb = k) ∨
    (k ∈ metaCopies (some true) dpb ∧ ∃ p, HasBlock v uid g 0 p)

/-- **C37, one more pass of block output.** The output file has the places `S` of the container `c` and is blank elsewhere; a damaged
copy `g` of the container is sorted into it in either multi-pass mode.  Then it has the places `S'`, with `S ⊆ S' ⊆ S ∪ places of g`,
and `S' = S ∪ places of g` if the pass is not interrupted. -/
theorem C37_block_pass (E : Env) (hE : 0 < E.lotCount) (q : Param) (hq : q.multiPass ≠ none) (hw : WholeRange q.ref) (g old : File)
    (d : Disk) (st : Stats) (o : Order) (h : sortFile E q g old = .ok (some d, st, o)) (pos : Nat) (ref : Block)
    (hr : getRefBlockM q.ref q.ref.refChoice g E.stopRef (E.stop 0) = .ok (pos, ref)) (rs : RsCodec) (v : Version) (uid : Uid)
    (dpb : Option Dpb) (bytes mb mp : List Byte) (c : File) (hver : ref.header.version = v) (huid : ref.header.uid = uid)
    (hd : dataParBurst q.ref true g ref = .ok dpb)
    (hc : IsContainer rs v uid.bytes true dpb bytes mb c) (hmb : IsBlock mb v uid 0 mp)
    (hdam : OnlyBlocksOf rs v uid dpb bytes g) (hmetas : ∀ p, HasBlock v uid g 0 p → p = mp)
    (S : Nat → Prop) (hS : Places (blockLen v) c S old) :
    ∃ S' : Nat → Prop, Places (blockLen v) c S' d.file ∧ (∀ k, S k → S' k) ∧ (∀ k, S' k → S k ∨ HasPlace v uid dpb g k) ∧
      ((∀ i, E.stop i = false) → ∀ k, HasPlace v uid dpb g k → S' k) := by
  subst hver huid
  unfold sortFile at h
  rw [hr] at h
  simp only at h
  rw [hd] at h
  simp only at h
  obtain ⟨m, hm1, hm2, A, B, out, fin, h1, h2, h3, h4⟩ := sortWith_spec E hE q ref dpb g old
  rw [h3] at h
  simp only [Except.ok.injEq, Prod.mk.injEq] at h
  obtain ⟨rfl, -, -⟩ := h
  by_cases htf : q.toFile = true
  swap
  · rw [if_neg htf] at h4; simp at h4
  rw [if_pos htf] at h4
  have hopen : openOut q.multiPass old = old := by unfold openOut; rw [if_neg hq]
  have hseek : (rangeOf q.ref ref g).seekTo = 0 := by
    unfold rangeOf; rw [hw.fromPos, hw.toPos, range_all]
  have hpl : places ref g (rangeOf q.ref ref g).seekTo (rangeOf q.ref ref g).requiredLen = g.length / blockLen ref.header.version := by
    unfold rangeOf; rw [hw.fromPos, hw.toPos]; exact places_all
  rw [hpl] at hm1 hm2
  rw [hseek] at h1 h2
  rw [hopen] at h4
  simp only [Option.map_some, Option.some.injEq] at h4
  have hsub : ∀ x ∈ (A ++ B).map (·.2), x.1 ≠ 0 ∧ x.1 < 2 ^ 32 ∧ HasBlock ref.header.version ref.header.uid g (UInt32.ofNat x.1) x.2 := by
    intro x hx
    rw [← h1] at hx
    obtain ⟨y, hy, rfl⟩ := List.mem_map.1 hx
    obtain ⟨i, hi, hy⟩ := List.mem_filterMap.1 hy
    refine mem_dataAt.1 (List.mem_map.2 ⟨y, List.mem_filterMap.2 ⟨i, List.mem_range.2 ?_, hy⟩, rfl⟩)
    have := List.mem_range.1 hi
    omega
  have hblk : ∀ x ∈ (A ++ B).map (·.2), (x.1 < 2 ^ 32 ∧ x.2.length = blockLen ref.header.version - 16) ∧
      c.readAt (dataWriteIndex x.1 (some true) dpb * blockLen ref.header.version) (blockLen ref.header.version) =
        blockBytes ref.header.version ref.header.uid.bytes (UInt32.ofNat x.1) x.2 := by
    intro x hx
    obtain ⟨a1, a2, a3⟩ := hsub x hx
    have hne : UInt32.ofNat x.1 ≠ 0 := by
      intro h0
      apply a1
      rw [← ofNat_toNat32 a2, h0]; rfl
    have hp := hdam _ _ hne a3
    rw [ofNat_toNat32 a2] at hp
    obtain ⟨k, hk⟩ := a3
    refine ⟨⟨a2, hk.len⟩, ?_⟩
    have := hc.data _ _ hp
    rw [Nat.sub_add_cancel (by omega)] at this
    exact this
  rw [List.map_append] at hsub hblk
  have hfold : ∀ (l : List (Nat × List Byte)) (S : Nat → Prop) (o : File),
      (∀ x ∈ l, (x.1 < 2 ^ 32 ∧ x.2.length = blockLen ref.header.version - 16) ∧
        c.readAt (dataWriteIndex x.1 (some true) dpb * blockLen ref.header.version) (blockLen ref.header.version) =
          blockBytes ref.header.version ref.header.uid.bytes (UInt32.ofNat x.1) x.2) →
      Places (blockLen ref.header.version) c S o →
      Places (blockLen ref.header.version) c (fun j => S j ∨ ∃ x ∈ l, dataWriteIndex x.1 (some true) dpb = j)
        (l.foldl (putBlock ref dpb (q.multiPass == some .skipGood)) o) := by
    intro l
    induction l with
    | nil => intro S o _ h; simpa using h
    | cons x l ih =>
      intro S o hl ho
      rw [List.foldl_cons]
      have := ih _ _ (fun y hy => hl y (List.mem_cons_of_mem _ hy))
        (putBlock_place (skip := q.multiPass == some .skipGood) ho (hl x List.mem_cons_self).1 (hl x List.mem_cons_self).2)
      have heq : (fun j => (S j ∨ dataWriteIndex x.1 (some true) dpb = j) ∨ ∃ y ∈ l, dataWriteIndex y.1 (some true) dpb = j) =
          (fun j => S j ∨ ∃ y ∈ x :: l, dataWriteIndex y.1 (some true) dpb = j) := by
        funext j
        apply propext
        simp only [List.mem_cons, exists_eq_or_imp]
        tauto
      rw [heq] at this
      exact this
  have hA := hfold (A.map (·.2)) S old (fun x hx => hblk x (List.mem_append_left _ hx)) hS
  have hMeta : ∀ b, fin.1 = some b → b = mb ∧ HasBlock ref.header.version ref.header.uid g 0 mp := by
    intro b hb
    rw [h2] at hb
    obtain ⟨k, -, p, hp, hk⟩ := found_metas hb
    have hg : HasBlock ref.header.version ref.header.uid g 0 p := ⟨k, by rw [Nat.zero_add] at hk; rw [hk]; exact hp⟩
    have := hmetas p hg
    subst this
    exact ⟨by rw [hp.bytes, hmb.bytes], hg⟩
  have hM : Places (blockLen ref.header.version) c
      (fun j => (S j ∨ ∃ x ∈ A.map (·.2), dataWriteIndex x.1 (some true) dpb = j) ∨ (fin.1.isSome = true ∧ j ∈ metaCopies (some true) dpb))
      (fin.1.toList.foldl (fun o mb => putMetas ref dpb (q.multiPass == some .skipGood) mb o)
        ((A.map (·.2)).foldl (putBlock ref dpb (q.multiPass == some .skipGood)) old)) := by
    cases hf : fin.1 with
    | none => simpa using hA
    | some b =>
      obtain ⟨rfl, -⟩ := hMeta b hf
      have := putMetas_place (skip := q.multiPass == some .skipGood) hA (isBlock_length hmb) hc.metas
      simpa using this
  have hB := hfold (B.map (·.2)) _ _ (fun x hx => hblk x (List.mem_append_right _ hx)) hM
  rw [← h4] at hB
  refine ⟨_, hB, fun k hk => .inl (.inl (.inl hk)), ?_, ?_⟩
  · rintro k (((hk | ⟨x, hx, rfl⟩) | ⟨hk1, hk2⟩) | ⟨x, hx, rfl⟩)
    · exact .inl hk
    · obtain ⟨a1, a2, a3⟩ := hsub x (List.mem_append_left _ hx)
      exact .inr (.inl ⟨x.1, x.2, a1, a2, a3, rfl⟩)
    · obtain ⟨b, hb⟩ := Option.isSome_iff_exists.1 hk1
      exact .inr (.inr ⟨hk2, mp, (hMeta b hb).2⟩)
    · obtain ⟨a1, a2, a3⟩ := hsub x (List.mem_append_right _ hx)
      exact .inr (.inl ⟨x.1, x.2, a1, a2, a3, rfl⟩)
  · intro hs
    have hm := hm2 hs
    subst hm
    rintro k (⟨s, p, b1, b2, b3, rfl⟩ | ⟨hk, p, hp⟩)
    · have := mem_dataAt.2 ⟨b1, b2, b3⟩
      rw [h1, List.map_append] at this
      rcases List.mem_append.1 this with h | h
      · exact .inl (.inl (.inr ⟨_, h, rfl⟩))
      · exact .inr ⟨_, h, rfl⟩
    · refine .inl (.inr ⟨?_, hk⟩)
      rw [h2, tally_found, Option.none_or, List.findSome?_isSome_iff]
      obtain ⟨k, hk, h⟩ := List.mem_filterMap.1 ((mem_found (ref := ref) (f := g) (x := (0, p))).2
        ⟨by show (0 : Nat) < 2 ^ 32; decide, hp⟩)
      refine ⟨k, hk, ?_⟩
      unfold metaAt
      rw [h]
      simp

/-- A pass that is not interrupted, over a damaged copy of the container of `bytes` (see `C37_block_pass`). -/
structure PassOver (rs : RsCodec) (v : Version) (uid : Uid) (dpb : Option Dpb) (bytes mp : List Byte) (E : Env) (q : Param) (g : File) :
    Prop where
  lots : 0 < E.lotCount
  stop : ∀ i, E.stop i = false
  multi : q.multiPass ≠ none
  range : WholeRange q.ref
  only : OnlyBlocksOf rs v uid dpb bytes g
  metas : ∀ p, HasBlock v uid g 0 p → p = mp
  ref : ∃ pos ref, getRefBlockM q.ref q.ref.refChoice g E.stopRef (E.stop 0) = .ok (pos, ref) ∧ ref.header.version = v ∧
    ref.header.uid = uid ∧ dataParBurst q.ref true g ref = .ok dpb

/-- Several passes with the same output file, one after the other; `none` if one of them fails. -/
noncomputable def passes (old : File) : List (Env × Param × File) → Option File
  | [] => some old
  | x :: xs => match sortFile x.1 x.2.1 x.2.2 old with
    | .ok (some d, _, _) => passes d.file xs
    | _ => none

/-- **C37, union of passes.** Passes over any number of damaged copies, in any order, leave in a new output file exactly the places that
at least one of the copies has the block for. -/
theorem C37_block_union (rs : RsCodec) (v : Version) (uid : Uid) (dpb : Option Dpb) (bytes mb mp : List Byte) (c : File)
    (hc : IsContainer rs v uid.bytes true dpb bytes mb c) (hmb : IsBlock mb v uid 0 mp) (ps : List (Env × Param × File))
    (hps : ∀ x ∈ ps, PassOver rs v uid dpb bytes mp x.1 x.2.1 x.2.2) (out : File) (h : passes [] ps = some out) :
    Places (blockLen v) c (fun k => ∃ x ∈ ps, HasPlace v uid dpb x.2.2 k) out := by
  have key : ∀ (ps : List (Env × Param × File)) (old : File) (S : Nat → Prop),
      (∀ x ∈ ps, PassOver rs v uid dpb bytes mp x.1 x.2.1 x.2.2) → Places (blockLen v) c S old → passes old ps = some out →
      Places (blockLen v) c (fun j => S j ∨ ∃ x ∈ ps, HasPlace v uid dpb x.2.2 j) out := by
    intro ps
    induction ps with
    | nil =>
      intro old S _ hS h
      simp only [passes, Option.some.injEq] at h
      subst h
      simpa using hS
    | cons x ps ih =>
      intro old S hps hS h
      rw [passes] at h
      split at h
      · rename_i d st o ht
        have hx := hps x List.mem_cons_self
        obtain ⟨pos, ref, r1, r2, r3, r4⟩ := hx.ref
        obtain ⟨S', s1, s2, s3, s4⟩ := C37_block_pass x.1 hx.lots x.2.1 hx.multi hx.range x.2.2 old d st o ht pos ref r1 rs v uid dpb
          bytes mb mp c r2 r3 r4 hc hmb hx.only hx.metas S hS
        have := ih d.file S' (fun y hy => hps y (List.mem_cons_of_mem _ hy)) s1 h
        have heq : (fun j => S' j ∨ ∃ y ∈ ps, HasPlace v uid dpb y.2.2 j) =
            (fun j => S j ∨ ∃ y ∈ x :: ps, HasPlace v uid dpb y.2.2 j) := by
          funext j
          apply propext
          simp only [List.mem_cons, exists_eq_or_imp]
          constructor
          · rintro (h | h)
            · rcases s3 j h with h | h
              · exact .inl h
              · exact .inr (.inl h)
            · exact .inr (.inr h)
          · rintro (h | h | h)
            · exact .inl (s2 j h)
            · exact .inl (s4 hx.stop j h)
            · exact .inr h
        rw [heq] at this
        exact this
      · simp at h
  have h0 : Places (blockLen v) c (fun _ => False) [] := by
    refine ⟨by simp, by simp, by simp, ?_⟩
    intro k hk
    have := blockLen_pos v
    rw [Nat.succ_mul] at hk
    simp at hk
    omega
  simpa using key ps [] _ hps h0 h

/-- **C37, complete.** If every data and parity block is intact in at least one copy, and a metadata block in at least one, the
container is restored. -/
theorem C37_block_complete (rs : RsCodec) (v : Version) (uid : Uid) (dpb : Option Dpb) (bytes mb mp : List Byte) (c : File)
    (hrs : RsLen rs v dpb) (hv : Valid dpb) (hc : IsContainer rs v uid.bytes true dpb bytes mb c) (hmb : IsBlock mb v uid 0 mp)
    (hn : (payloads rs v dpb (fileChunks v bytes)).length ≤ lastSeqNum) (ps : List (Env × Param × File))
    (hps : ∀ x ∈ ps, PassOver rs v uid dpb bytes mp x.1 x.2.1 x.2.2)
    (hall : ∀ i p, (payloads rs v dpb (fileChunks v bytes))[i]? = some p → ∃ x ∈ ps, HasBlock v uid x.2.2 (UInt32.ofNat (i + 1)) p)
    (hmeta : ∃ x ∈ ps, ∃ p, HasBlock v uid x.2.2 0 p) (out : File) (h : passes [] ps = some out) : out = c := by
  have hP := C37_block_union rs v uid dpb bytes mb mp c hc hmb ps hps out h
  have hpl := (payloads_spec (rs := rs) hrs hv (cs := fileChunks v bytes) (by
    intro c hcm
    unfold fileChunks at hcm
    rw [← dataSize_eq] at hcm
    exact (mem_chunksOf _ c hcm).2.1)).2
  have hused : ∀ k, (∃ x ∈ ps, HasPlace v uid dpb x.2.2 k) ↔ k ∈ metaCopies (some true) dpb ∨
      ∃ i < (payloads rs v dpb (fileChunks v bytes)).length, dataWriteIndex (i + 1) (some true) dpb = k := by
    intro k
    constructor
    · rintro ⟨x, hx, ⟨s, p, a1, a2, a3, rfl⟩ | ⟨hk, -⟩⟩
      · right
        have hne : UInt32.ofNat s ≠ 0 := by
          intro h0
          apply a1
          rw [← ofNat_toNat32 a2, h0]; rfl
        have := (hps x hx).only _ _ hne a3
        rw [ofNat_toNat32 a2] at this
        exact ⟨s - 1, (List.getElem?_eq_some_iff.1 this).1, by rw [Nat.sub_add_cancel (by omega)]⟩
      · exact .inl hk
    · rintro (hk | ⟨i, hi, rfl⟩)
      · obtain ⟨x, hx, hp⟩ := hmeta
        exact ⟨x, hx, .inr ⟨hk, hp⟩⟩
      · obtain ⟨x, hx, hb⟩ := hall i _ (List.getElem?_eq_getElem hi)
        have : lastSeqNum < 2 ^ 32 := by decide
        exact ⟨x, hx, .inl ⟨i + 1, _, by omega, by omega, hb, rfl⟩⟩
  refine Image.unique hpl (fun _ => by rw [isBlock_length hmb, blockLen_eq]) ⟨hP.aligned, ?_, ?_, ?_, ?_⟩ hc
  · intro i p hp
    rw [(hP.right _ ((hused _).2 (.inr ⟨i, (List.getElem?_eq_some_iff.1 hp).1, rfl⟩))).2]
    exact hc.data i p hp
  · intro k hk
    rw [(hP.right _ ((hused _).2 (.inl hk))).2]
    exact hc.metas k hk
  · intro k hk h1 h2
    refine hP.blank k hk (fun h3 => ?_)
    rcases (hused k).1 h3 with h4 | ⟨i, hi, h4⟩
    · exact h1 h4
    · exact h2 i hi h4
  · intro k hk
    exact (hused k).1 (hP.tight k hk)

end Verif.Sort

namespace Verif.Demo
open Format ScanSpec DecodeSpec LayoutSpec ContainerSpec Layout Scan Decode MultiPassSpec

/-- A sector of junk in place of a block. -/
def junk : List Byte := List.replicate 512 3

theorem junk_no {v : Version} {uid : Uid} {seq : UInt32} {p : List Byte} : ¬ IsBlock junk v uid seq p := by
  intro h
  have h0 := congrArg (·[0]?) h.bytes
  rw [junk, List.getElem?_replicate] at h0
  simp [blockBytes, headerBytes] at h0

/-- What is in a damaged copy of the container `Demo.file`. -/
theorem copies (mp : List Byte) (hl : mp.length = 496) (bs : List (List Byte))
    (hbs : ∀ b ∈ bs, b = demoBlock 0 mp ∨ b = demoBlock 1 demoPayload1 ∨ b = demoBlock 2 demoPayload2 ∨ b = junk) :
    (∀ b ∈ bs, b.length = blockLen .v1) ∧
    (∀ seq p, HasBlock .v1 demoUid bs.flatten seq p ↔ (demoBlock seq p ∈ bs ∧ p.length = 496)) ∧
    (∀ p, HasBlock .v1 demoUid bs.flatten 0 p → p = mp) ∧
    (∀ rs, OnlyBlocksOf rs .v1 demoUid none demoBytes bs.flatten) := by
  have hi0 := demo_is 0 mp hl
  have hi1 := demo_is 1 demoPayload1 List.length_replicate
  have hi2 := demo_is 2 demoPayload2 demo_len2
  have hlen : ∀ b ∈ bs, b.length = blockLen .v1 := by
    intro b hb
    rcases hbs b hb with rfl | rfl | rfl | rfl
    · exact isBlock_length hi0
    · exact isBlock_length hi1
    · exact isBlock_length hi2
    · exact List.length_replicate
  have hhas : ∀ seq p, HasBlock .v1 demoUid bs.flatten seq p ↔ (demoBlock seq p ∈ bs ∧ p.length = 496) := by
    intro seq p
    rw [hasBlock_flatten hlen]
    constructor
    · rintro ⟨b, hb, h⟩
      have := h.bytes
      refine ⟨?_, h.len⟩
      rw [demoBlock, ← this]; exact hb
    · rintro ⟨h, hp⟩
      exact ⟨_, h, demo_is seq p hp⟩
  refine ⟨hlen, hhas, ?_, ?_⟩
  · intro p h
    obtain ⟨h1, h2⟩ := (hhas 0 p).1 h
    have hp := demo_is 0 p h2
    rcases hbs _ h1 with e | e | e | e <;> rw [e] at hp
    · exact (isBlock_seq hp hi0).2
    · exact absurd (isBlock_seq hp hi1).1 (by decide)
    · exact absurd (isBlock_seq hp hi2).1 (by decide)
    · exact absurd hp junk_no
  · intro rs seq p h0 h
    obtain ⟨h1, h2⟩ := (hhas seq p).1 h
    have hp := demo_is seq p h2
    rw [demo_payloads]
    rcases hbs _ h1 with e | e | e | e <;> rw [e] at hp
    · exact absurd (isBlock_seq hp hi0).1 h0
    · obtain ⟨rfl, rfl⟩ := isBlock_seq hp hi1; rfl
    · obtain ⟨rfl, rfl⟩ := isBlock_seq hp hi2; rfl
    · exact absurd hp junk_no

/-- The first copy has lost block 1. -/
def copy1 (mp : List Byte) : List (List Byte) := [demoBlock 0 mp, junk, demoBlock 2 demoPayload2]
/-- The second copy has lost block 2. -/
def copy2 (mp : List Byte) : List (List Byte) := [demoBlock 0 mp, demoBlock 1 demoPayload1, junk]

end Verif.Demo

namespace Verif.Decode
open Format ScanSpec DecodeSpec LayoutSpec ContainerSpec Layout Scan MultiPassSpec

/-- `blkar decode --multi-pass-no-skip` and `--multi-pass`. -/
def passParam (m : MultiPass) : Param := ⟨plainParam.ref, some m⟩

theorem demo_ref (mp : List Byte) (hl : mp.length = 496) (bs : List (List Byte)) (m : MultiPass) :
    getRefBlockM (passParam m).ref (passParam m).ref.refChoice (demoBlock 0 mp :: bs).flatten calmEnv.stopRef (calmEnv.stop 0) =
      .ok (0, blockOf .v1 demoUid 0 mp) := (demo_decode mp hl bs).1

theorem demo_pass (mp : List Byte) (hl : mp.length = 496) (bs : List (List Byte)) (m : MultiPass) (old : File) :
    ∃ R, toFile calmEnv (passParam m) (demoBlock 0 mp :: bs).flatten old = .ok (truncated (blockOf .v1 demoUid 0 mp)
      (((List.range ((demoBlock 0 mp :: bs).flatten.length / blockLen .v1)).filterMap
        (look (blockOf .v1 demoUid 0 mp) (demoBlock 0 mp :: bs).flatten 0)).foldl
        (put 496 none (some m == some .skipGood)) old), R) := by
  obtain ⟨n, -, hn, e⟩ := decodeFile_spec calmEnv calm.lots (passParam m) (blockOf .v1 demoUid 0 mp) (demoBlock 0 mp :: bs).flatten old none rfl
  have hn := hn calm.stop
  have hseek : (rangeOf (passParam m).ref (blockOf .v1 demoUid 0 mp) (demoBlock 0 mp :: bs).flatten).seekTo = 0 := by
    unfold rangeOf
    rw [show (passParam m).ref.fromPos = none from rfl, show (passParam m).ref.toPos = none from rfl, range_all]
  have hpl : places (blockOf .v1 demoUid 0 mp) (demoBlock 0 mp :: bs).flatten
      (rangeOf (passParam m).ref (blockOf .v1 demoUid 0 mp) (demoBlock 0 mp :: bs).flatten).seekTo
      (rangeOf (passParam m).ref (blockOf .v1 demoUid 0 mp) (demoBlock 0 mp :: bs).flatten).requiredLen =
      (demoBlock 0 mp :: bs).flatten.length / blockLen .v1 := by
    unfold rangeOf
    rw [show (passParam m).ref.fromPos = none from rfl, show (passParam m).ref.toPos = none from rfl]
    exact places_all
  rw [hpl] at hn
  subst hn
  rw [hseek] at e
  unfold toFile
  rw [demo_ref mp hl bs m]
  simp only
  rw [e]
  exact ⟨_, rfl⟩

theorem demo_over (mp : List Byte) (hl : mp.length = 496) (hm : metasFromBytes mp = [.fsz 600]) (bs : List (List Byte))
    (hbs : ∀ b ∈ demoBlock 0 mp :: bs, b = demoBlock 0 mp ∨ b = demoBlock 1 demoPayload1 ∨ b = demoBlock 2 demoPayload2 ∨ b = Demo.junk)
    (m : MultiPass) : PassOver RsWitness.codec .v1 demoUid none demoBytes calmEnv (passParam m) (demoBlock 0 mp :: bs).flatten := by
  refine ⟨calm.lots, calm.stop, by simp [passParam], ⟨rfl, rfl⟩, (Demo.copies mp hl _ hbs).2.2.2 _, 0, _,
    demo_ref mp hl bs m, rfl, rfl, ?_, ?_⟩
  · intro n hn
    rw [refFsz_meta metas_blockOf, hm] at hn
    rw [demo_len]
    simpa [firstFsz] using hn.symm
  · intro ms hms
    rw [metas_blockOf, hm] at hms
    cases hms
    exact ⟨rfl, rfl⟩

/-- Two copies that lost different blocks restore the file (`C37_data_complete`), whichever modes are used. -/
example (m1 m2 : MultiPass) : ∃ mp, passes [] [(calmEnv, passParam m1, (Demo.copy1 mp).flatten), (calmEnv, passParam m2, (Demo.copy2 mp).flatten)] =
    some demoBytes := by
  obtain ⟨mp, hl, hm⟩ := demo_meta
  have hb1 : ∀ b ∈ Demo.copy1 mp, b = demoBlock 0 mp ∨ b = demoBlock 1 demoPayload1 ∨ b = demoBlock 2 demoPayload2 ∨ b = Demo.junk := by
    intro b hb
    simp only [Demo.copy1, List.mem_cons, List.not_mem_nil, or_false] at hb
    rcases hb with h | h | h
    · exact .inl h
    · exact .inr (.inr (.inr h))
    · exact .inr (.inr (.inl h))
  have hb2 : ∀ b ∈ Demo.copy2 mp, b = demoBlock 0 mp ∨ b = demoBlock 1 demoPayload1 ∨ b = demoBlock 2 demoPayload2 ∨ b = Demo.junk := by
    intro b hb
    simp only [Demo.copy2, List.mem_cons, List.not_mem_nil, or_false] at hb
    rcases hb with h | h | h
    · exact .inl h
    · exact .inr (.inl h)
    · exact .inr (.inr (.inr h))
  obtain ⟨R1, h1⟩ := demo_pass mp hl [Demo.junk, demoBlock 2 demoPayload2] m1 []
  set out1 := truncated (blockOf .v1 demoUid 0 mp) _ with ho1
  clear_value out1
  obtain ⟨R2, h2⟩ := demo_pass mp hl [demoBlock 1 demoPayload1, Demo.junk] m2 out1
  set out2 := truncated (blockOf .v1 demoUid 0 mp) _ with ho2
  clear_value out2
  refine ⟨mp, ?_⟩
  have hp : passes [] [(calmEnv, passParam m1, (Demo.copy1 mp).flatten), (calmEnv, passParam m2, (Demo.copy2 mp).flatten)] = some out2 := by
    unfold Demo.copy1 Demo.copy2
    simp only [passes, h1, h2]
  rw [hp]
  congr 1
  refine C37_data_complete RsWitness.codec .v1 demoUid none demoBytes (Demo.rsLen_none _ _) (by intro d hd; cases hd) rfl
    [(calmEnv, passParam m1, (Demo.copy1 mp).flatten)] calmEnv (passParam m2) (Demo.copy2 mp).flatten ?_ out2 ?_ ?_ hp
  · intro x hx
    simp only [List.cons_append, List.nil_append, List.mem_cons, List.not_mem_nil, or_false] at hx
    rcases hx with rfl | rfl
    · exact demo_over mp hl hm _ hb1 m1
    · exact demo_over mp hl hm _ hb2 m2
  · intro pos ref hr
    have hr' := demo_ref mp hl [demoBlock 1 demoPayload1, Demo.junk] m2
    unfold Demo.copy2 at hr
    rw [hr'] at hr
    simp only [Except.ok.injEq, Prod.mk.injEq] at hr
    obtain ⟨-, rfl⟩ := hr
    rw [refFsz_meta metas_blockOf, hm, demo_len]; rfl
  · intro j hj
    rw [demo_len] at hj
    have hj2 : j = 0 ∨ j = 1 := by
      have : blockLen .v1 - 16 = 496 := rfl
      rw [this] at hj; omega
    rcases hj2 with rfl | rfl
    · refine ⟨_, List.mem_append_right _ List.mem_cons_self, 1, demoPayload1, ?_, rfl⟩
      exact ((Demo.copies mp hl _ hb2).2.1 _ _).2 ⟨by simp [Demo.copy2], List.length_replicate⟩
    · refine ⟨_, List.mem_append_left _ List.mem_cons_self, 2, demoPayload2, ?_, rfl⟩
      exact ((Demo.copies mp hl _ hb1).2.1 _ _).2 ⟨by simp [Demo.copy1], demo_len2⟩

theorem demo_found (mp : List Byte) (hl : mp.length = 496) :
    (List.range ((Demo.file mp).length / blockLen .v1)).filterMap (look (blockOf .v1 demoUid 0 mp) (Demo.file mp) 0) =
      [(0, mp), (1, demoPayload1), (2, demoPayload2)] := by
  have hi0 := demo_is 0 mp hl
  have hi1 := demo_is 1 demoPayload1 List.length_replicate
  have hi2 := demo_is 2 demoPayload2 demo_len2
  have hb : ∀ b ∈ [demoBlock 0 mp, demoBlock 1 demoPayload1, demoBlock 2 demoPayload2], b.length = blockLen .v1 := by
    intro b hb
    simp only [List.mem_cons, List.not_mem_nil, or_false] at hb
    rcases hb with rfl | rfl | rfl
    · exact isBlock_length hi0
    · exact isBlock_length hi1
    · exact isBlock_length hi2
  have hu := File.unit_flatten _ hb
  unfold File.unit at hu
  have hlen : (Demo.file mp).length / blockLen .v1 = 3 := by
    unfold Demo.file
    simp only [List.flatten_cons, List.flatten_nil, List.append_nil, List.length_append, isBlock_length hi0, isBlock_length hi1,
      isBlock_length hi2]
    decide
  have h : ∀ (k s : Nat) (p : List Byte), s < 2 ^ 32 →
      IsBlock (File.readAt (Demo.file mp) (0 + k * blockLen .v1) (blockLen .v1)) .v1 demoUid (UInt32.ofNat s) p →
      look (blockOf .v1 demoUid 0 mp) (Demo.file mp) 0 k = some (s, p) := fun k s p hs hk =>
    (look_some (ref := blockOf .v1 demoUid 0 mp) (x := (s, p))).2 ⟨hs, hk⟩
  have e0 := h 0 0 mp (by decide) (by rw [Nat.zero_add]; unfold Demo.file; rw [hu 0]; exact hi0)
  have e1 := h 1 1 demoPayload1 (by decide) (by rw [Nat.zero_add]; unfold Demo.file; rw [hu 1]; exact hi1)
  have e2 := h 2 2 demoPayload2 (by decide) (by rw [Nat.zero_add]; unfold Demo.file; rw [hu 2]; exact hi2)
  rw [hlen]
  show [0, 1, 2].filterMap _ = _
  simp only [List.filterMap_cons, e0, e1, e2, List.filterMap_nil]

/-- A file of 600 bytes that has nothing to do with the container. -/
def otherBytes : File := List.replicate 600 5

/-- The first chunk is left alone (`C37_data_kept`); the last one is shorter than a chunk, so it is written although there are no
blank bytes in it. -/
theorem demo_skip (mp : List Byte) (hl : mp.length = 496) (hm : metasFromBytes mp = [.fsz 600]) :
    ∃ R, toFile calmEnv (passParam .skipGood) (Demo.file mp) otherBytes = .ok (List.replicate 496 5 ++ List.replicate 104 8, R) := by
  obtain ⟨R, h⟩ := demo_pass mp hl [demoBlock 1 demoPayload1, demoBlock 2 demoPayload2] .skipGood otherBytes
  have h' : toFile calmEnv (passParam .skipGood) (Demo.file mp) otherBytes = .ok (truncated (blockOf .v1 demoUid 0 mp)
      (((List.range ((Demo.file mp).length / blockLen .v1)).filterMap
        (look (blockOf .v1 demoUid 0 mp) (Demo.file mp) 0)).foldl (put 496 none true) otherBytes), R) := h
  rw [demo_found mp hl] at h'
  refine ⟨R, ?_⟩
  rw [h']
  congr 2
  unfold truncated
  rw [refFsz_meta metas_blockOf, hm]
  show File.setLen _ 600 = _
  rw [List.foldl_cons, show put 496 none true otherBytes (0, mp) = otherBytes from rfl]
  decide +kernel

/-- **C37 is violated for the last chunk of the file** (data output): a pass in skip-good mode overwrites a chunk that is not blank,
with other bytes, if the file ends within the chunk. -/
theorem C37_last_chunk_violated : ∃ g old out R, toFile calmEnv (passParam .skipGood) g old = .ok (out, R) ∧
    (∀ b ∈ old, b ≠ 0) ∧ old.length = 600 ∧ out.length = 600 ∧ old[599]? = some 5 ∧ out[599]? = some 8 := by
  obtain ⟨mp, hl, hm⟩ := demo_meta
  obtain ⟨R, h⟩ := demo_skip mp hl hm
  refine ⟨Demo.file mp, otherBytes, _, R, h, ?_, List.length_replicate, by rw [List.length_append, List.length_replicate, List.length_replicate],
    by decide +kernel, by decide +kernel⟩
  intro b hb
  rw [(List.mem_replicate.1 hb).2]
  decide

/-- An instance of `C37_data_kept`: the chunk written first stays although the container has other bytes for it. -/
example : ∃ g out R, toFile calmEnv (passParam .skipGood) g otherBytes = .ok (out, R) ∧ NonBlank 496 otherBytes 0 ∧
    out.readAt 0 496 = otherBytes.readAt 0 496 := by
  obtain ⟨mp, hl, hm⟩ := demo_meta
  obtain ⟨R, h⟩ := demo_skip mp hl hm
  have hnb : NonBlank 496 otherBytes 0 := by
    refine ⟨by decide +kernel, 5, ?_, by decide⟩
    decide +kernel
  refine ⟨_, _, R, h, hnb, ?_⟩
  obtain ⟨pos, ref, h1, h2⟩ := C37_data_kept calmEnv calm.lots _ rfl _ _ _ _ h
  have hr := demo_ref mp hl [demoBlock 1 demoPayload1, demoBlock 2 demoPayload2] .skipGood
  have h1' := hr.symm.trans h1
  simp only [Except.ok.injEq, Prod.mk.injEq] at h1'
  obtain ⟨-, rfl⟩ := h1'
  have := h2 0 hnb (by
    intro n hn
    rw [refFsz_meta metas_blockOf, hm] at hn
    cases hn
    show (0 + 1) * (512 - 16) ≤ 600
    decide)
  rwa [Nat.zero_mul] at this

end Verif.Decode

namespace Verif.Sort
open Format ScanSpec DecodeSpec LayoutSpec ContainerSpec Layout Scan Decode Misc MultiPassSpec

/-- `blkar sort --multi-pass-no-skip` and `--multi-pass`. -/
def passParam (m : MultiPass) : Param := ⟨plainParam.ref, some m, false, true⟩

theorem demo_ref (mp : List Byte) (hl : mp.length = 496) (bs : List (List Byte)) (m : MultiPass) :
    getRefBlockM (passParam m).ref (passParam m).ref.refChoice (demoBlock 0 mp :: bs).flatten calmEnv.stopRef (calmEnv.stop 0) =
      .ok (0, blockOf .v1 demoUid 0 mp) := (demo_decode mp hl bs).1

theorem demo_pass_ok (mp : List Byte) (hl : mp.length = 496) (bs : List (List Byte)) (m : MultiPass) (old : File) :
    ∃ d st o, sortFile calmEnv (passParam m) (demoBlock 0 mp :: bs).flatten old = .ok (some d, st, o) := by
  unfold sortFile
  rw [demo_ref mp hl bs m]
  obtain ⟨n, -, -, A, B, out, fin, -, -, h3, h4⟩ := sortWith_spec calmEnv calm.lots (passParam m) (blockOf .v1 demoUid 0 mp) none
    (demoBlock 0 mp :: bs).flatten old
  cases hout : out with
  | none => rw [hout, if_pos (show (passParam m).toFile = true from rfl)] at h4; simp at h4
  | some d =>
    rw [hout] at h3
    exact ⟨d, _, _, h3⟩

theorem demo_over (mp : List Byte) (hl : mp.length = 496) (bs : List (List Byte))
    (hbs : ∀ b ∈ demoBlock 0 mp :: bs, b = demoBlock 0 mp ∨ b = demoBlock 1 demoPayload1 ∨ b = demoBlock 2 demoPayload2 ∨ b = Demo.junk)
    (m : MultiPass) : PassOver RsWitness.codec .v1 demoUid none demoBytes mp calmEnv (passParam m) (demoBlock 0 mp :: bs).flatten :=
  ⟨calm.lots, calm.stop, by simp [passParam], ⟨rfl, rfl⟩, (Demo.copies mp hl _ hbs).2.2.2 _, (Demo.copies mp hl _ hbs).2.2.1, 0, _,
    demo_ref mp hl bs m, rfl, rfl, rfl⟩

/-- Two copies that lost different blocks restore the container (`C37_block_complete`), whichever modes are used. -/
example (m1 m2 : MultiPass) : ∃ mp, passes [] [(calmEnv, passParam m1, (Demo.copy1 mp).flatten), (calmEnv, passParam m2, (Demo.copy2 mp).flatten)] =
    some (Demo.file mp) := by
  obtain ⟨mp, hl, hm⟩ := demo_meta
  have hb1 : ∀ b ∈ Demo.copy1 mp, b = demoBlock 0 mp ∨ b = demoBlock 1 demoPayload1 ∨ b = demoBlock 2 demoPayload2 ∨ b = Demo.junk := by
    intro b hb
    simp only [Demo.copy1, List.mem_cons, List.not_mem_nil, or_false] at hb
    rcases hb with h | h | h
    · exact .inl h
    · exact .inr (.inr (.inr h))
    · exact .inr (.inr (.inl h))
  have hb2 : ∀ b ∈ Demo.copy2 mp, b = demoBlock 0 mp ∨ b = demoBlock 1 demoPayload1 ∨ b = demoBlock 2 demoPayload2 ∨ b = Demo.junk := by
    intro b hb
    simp only [Demo.copy2, List.mem_cons, List.not_mem_nil, or_false] at hb
    rcases hb with h | h | h
    · exact .inl h
    · exact .inr (.inl h)
    · exact .inr (.inr (.inr h))
  obtain ⟨d1, st1, o1, h1⟩ := demo_pass_ok mp hl [Demo.junk, demoBlock 2 demoPayload2] m1 []
  obtain ⟨d2, st2, o2, h2⟩ := demo_pass_ok mp hl [demoBlock 1 demoPayload1, Demo.junk] m2 d1.file
  refine ⟨mp, ?_⟩
  have hp : passes [] [(calmEnv, passParam m1, (Demo.copy1 mp).flatten), (calmEnv, passParam m2, (Demo.copy2 mp).flatten)] = some d2.file := by
    unfold Demo.copy1 Demo.copy2
    simp only [passes, h1, h2]
  rw [hp]
  congr 1
  refine C37_block_complete RsWitness.codec .v1 demoUid none demoBytes _ mp _ (Demo.rsLen_none _ _) (by intro d hd; cases hd)
    (Demo.plain_container RsWitness.codec mp hl) (demo_is 0 mp hl) (by rw [demo_payloads]; show 2 ≤ 2 ^ 32 - 1; decide) _ ?_ ?_ ?_ _ hp
  · intro x hx
    simp only [List.mem_cons, List.not_mem_nil, or_false] at hx
    rcases hx with rfl | rfl
    · exact demo_over mp hl _ hb1 m1
    · exact demo_over mp hl _ hb2 m2
  · intro i p hi
    rw [demo_payloads] at hi
    have hi2 : i = 0 ∨ i = 1 := by
      have := (List.getElem?_eq_some_iff.1 hi).1
      simp at this; omega
    rcases hi2 with rfl | rfl
    · simp only [List.getElem?_cons_zero, Option.some.injEq] at hi
      subst hi
      refine ⟨_, List.mem_cons_of_mem _ List.mem_cons_self, ?_⟩
      exact ((Demo.copies mp hl _ hb2).2.1 _ _).2 ⟨by simp [Demo.copy2], List.length_replicate⟩
    · simp only [List.getElem?_cons_succ, List.getElem?_cons_zero, Option.some.injEq] at hi
      subst hi
      refine ⟨_, List.mem_cons_self, ?_⟩
      exact ((Demo.copies mp hl _ hb1).2.1 _ _).2 ⟨by simp [Demo.copy1], demo_len2⟩
  · exact ⟨_, List.mem_cons_self, mp, ((Demo.copies mp hl _ hb1).2.1 _ _).2 ⟨by simp [Demo.copy1], hl⟩⟩

/-- An earlier result: metadata, and a block 1 with other contents, followed by `n` blank blocks. -/
def earlier (mp : List Byte) (n : Nat) : File := [demoBlock 0 mp, demoBlock 1 (List.replicate 496 6)].flatten ++ List.replicate (512 * n) 0

theorem earlier_unit (mp : List Byte) (hl : mp.length = 496) (n : Nat) :
    (earlier mp n).readAt (1 * blockLen .v1) (blockLen .v1) = demoBlock 1 (List.replicate 496 6) ∧ (earlier mp n).length = 1024 + 512 * n := by
  have hi0 := isBlock_length (demo_is 0 mp hl)
  have hi1 := isBlock_length (demo_is 1 (List.replicate 496 6) List.length_replicate)
  have hbl : blockLen .v1 = 512 := rfl
  rw [hbl] at hi0 hi1
  constructor
  · unfold earlier File.readAt
    rw [hbl, List.flatten_cons, List.append_assoc, List.drop_left' (by rw [hi0]), List.flatten_cons, List.flatten_nil, List.append_nil,
      List.take_left' hi1]
  · unfold earlier
    simp only [List.flatten_cons, List.flatten_nil, List.append_nil, List.length_append, List.length_replicate, hi0, hi1]

/-- An instance of `C37_block_kept`: block 1 stays, although the copy has another block 1. -/
example : ∃ mp d st o, sortFile calmEnv (passParam .skipGood) (Demo.file mp) (earlier mp 10) = .ok (some d, st, o) ∧
    d.file.readAt (1 * 512) 512 = demoBlock 1 (List.replicate 496 6) := by
  obtain ⟨mp, hl, hm⟩ := demo_meta
  obtain ⟨d, st, o, h⟩ := demo_pass_ok mp hl [demoBlock 1 demoPayload1, demoBlock 2 demoPayload2] .skipGood (earlier mp 10)
  refine ⟨mp, d, st, o, h, ?_⟩
  obtain ⟨pos, ref, dpb, h1, h2, h3⟩ := C37_block_kept calmEnv calm.lots _ rfl _ _ _ _ _ h
  have hr := demo_ref mp hl [demoBlock 1 demoPayload1, demoBlock 2 demoPayload2] .skipGood
  have h1' := hr.symm.trans h1
  simp only [Except.ok.injEq, Prod.mk.injEq] at h1'
  obtain ⟨-, rfl⟩ := h1'
  have hd : dpb = none := by
    have : dataParBurst (passParam .skipGood).ref true (demoBlock 0 mp :: [demoBlock 1 demoPayload1, demoBlock 2 demoPayload2]).flatten
      (blockOf .v1 demoUid 0 mp) = .ok none := rfl
    rw [this] at h2
    cases h2; rfl
  subst hd
  obtain ⟨e1, e2⟩ := earlier_unit mp hl 10
  have := h3 (by intro d hd; cases hd) 1 (Good.data 1 (List.replicate 496 6) (by decide) (by decide) (by
      show IsBlock ((earlier mp 10).readAt (1 * blockLen .v1) (blockLen .v1)) _ _ _ _
      rw [e1]; exact demo_is 1 _ List.length_replicate) (by
      rw [e2]
      show 1 * 512 + 4096 ≤ 1024 + 512 * 10
      decide))
  exact this.trans e1

/-- **C37 is violated near the end of the output file** (block output): the check reads 4096 bytes, so a good block with fewer bytes up
to the end of the output file is overwritten in skip-good mode. -/
theorem C37_last_blocks_violated : ∃ g old d st o, sortFile calmEnv (passParam .skipGood) g old = .ok (some d, st, o) ∧
    old.readAt (1 * 512) 512 = demoBlock 1 (List.replicate 496 6) ∧ d.file.readAt (1 * 512) 512 = demoBlock 1 demoPayload1 := by
  obtain ⟨mp, hl, hm⟩ := demo_meta
  have hi0 := isBlock_length (demo_is 0 mp hl)
  have hi1 := demo_is 1 demoPayload1 List.length_replicate
  have hi2 := demo_is 2 demoPayload2 demo_len2
  obtain ⟨e1, e2⟩ := earlier_unit mp hl 0
  set ref := blockOf .v1 demoUid 0 mp with hrefdef
  obtain ⟨n, -, hn, A, B, out, fin, h1, h2, h3, h4⟩ := sortWith_spec calmEnv calm.lots (passParam .skipGood) ref none
    (Demo.file mp) (earlier mp 0)
  have hn := hn calm.stop
  have hseek : (rangeOf (passParam .skipGood).ref ref (Demo.file mp)).seekTo = 0 := by
    unfold rangeOf
    rw [show (passParam .skipGood).ref.fromPos = none from rfl, show (passParam .skipGood).ref.toPos = none from rfl, range_all]
  have hpl : places ref (Demo.file mp) (rangeOf (passParam .skipGood).ref ref (Demo.file mp)).seekTo
      (rangeOf (passParam .skipGood).ref ref (Demo.file mp)).requiredLen = (Demo.file mp).length / blockLen .v1 := by
    unfold rangeOf
    rw [show (passParam .skipGood).ref.fromPos = none from rfl, show (passParam .skipGood).ref.toPos = none from rfl]
    exact places_all
  rw [hpl] at hn
  subst hn
  rw [hseek] at h1 h2
  rw [if_pos (show (passParam .skipGood).toFile = true from rfl)] at h4
  cases hout : out with
  | none => rw [hout] at h4; simp at h4
  | some d =>
    rw [hout] at h3 h4
    simp only [Option.map_some, Option.some.injEq] at h4
    have hsort : ∃ st o, sortFile calmEnv (passParam .skipGood) (Demo.file mp) (earlier mp 0) = .ok (some d, st, o) := by
      unfold sortFile
      rw [show getRefBlockM (passParam .skipGood).ref (passParam .skipGood).ref.refChoice (Demo.file mp) calmEnv.stopRef (calmEnv.stop 0) =
        .ok (0, ref) from demo_ref mp hl _ .skipGood]
      exact ⟨_, _, h3⟩
    obtain ⟨st, o, hsort⟩ := hsort
    refine ⟨Demo.file mp, earlier mp 0, d, st, o, hsort, e1, ?_⟩
    · have hdata : (A ++ B).map (·.2) = [(1, demoPayload1), (2, demoPayload2)] := by
        rw [← h1]
        have hf := demo_found mp hl
        have : ∀ (l : List Nat), ((l.filterMap (dataAt ref (Demo.file mp) 0)).map (·.2)) =
            (l.filterMap (look ref (Demo.file mp) 0)).filter (fun x => x.1 ≠ 0) := by
          intro l
          induction l with
          | nil => rfl
          | cons k l ih =>
            rw [List.filterMap_cons, List.filterMap_cons]
            have hdk : dataAt ref (Demo.file mp) 0 k = (look ref (Demo.file mp) 0 k).bind fun x =>
              if x.1 = 0 then none else some (0 + k * blockLen ref.header.version, x) := rfl
            cases hk : look ref (Demo.file mp) 0 k with
            | none => rw [hk] at hdk; rw [hdk]; exact ih
            | some x =>
              rw [hk, Option.bind_some] at hdk
              by_cases h0 : x.1 = 0
              · rw [if_pos h0] at hdk; rw [hdk]; simp only; rw [ih, List.filter_cons_of_neg (by simpa using h0)]
              · rw [if_neg h0] at hdk; rw [hdk]; simp only; rw [List.map_cons, ih, List.filter_cons_of_pos (by simpa using h0)]
        rw [this, hf]
        rfl
      rw [List.map_append] at hdata
      have hbl : blockLen .v1 = 512 := rfl
      have hw : ∀ (out : File) (k : Nat) (b : List Byte), k ≤ 2 → b.length = 512 → (512 ∣ out.length ∧ out.length ≤ 1536) →
          (512 ∣ (out.writeAt (k * 512) b).length ∧ (out.writeAt (k * 512) b).length ≤ 1536) ∧
          (k = 1 → (out.writeAt (k * 512) b).readAt (1 * 512) 512 = b) ∧
          (k ≠ 1 → 1024 ≤ out.length → (out.writeAt (k * 512) b).readAt (1 * 512) 512 = out.readAt (1 * 512) 512) := by
        intro out k b hk hb hP
        obtain ⟨w1, w2, w3⟩ := File.unit_writeAt (by decide : 0 < 512) hP.1 (j := k) hb
        refine ⟨⟨w1, by rw [w2]; omega⟩, ?_, ?_⟩
        · rintro rfl
          have := w3 1 (by rw [w2]; omega)
          rwa [if_pos rfl] at this
        · intro h1 h2
          exact readAt_writeAt_other (by decide) hb h1 (by omega)
      have hput : ∀ (out : File) (s : Nat) (p : List Byte), s = 1 ∨ s = 2 → p.length = 496 → out.length ≤ 1536 →
          putBlock ref none true out (s, p) = out.writeAt (s * 512) (demoBlock (UInt32.ofNat s) p) := by
        intro out s p hs hp hl
        unfold putBlock
        have hpos : dataWritePos ref.header.version s (some true) none = s * 512 := by
          rcases hs with rfl | rfl <;> rfl
        simp only [hpos]
        rw [if_neg]
        · rfl
        · rw [Bool.true_and, holds_iff (by rcases hs with rfl | rfl <;> decide)]
          rintro ⟨h, -⟩
          have : largestBlockSize = 4096 := rfl
          omega
      -- the two invariants
      have hq1 : ∀ out : File, (512 ∣ out.length ∧ out.length ≤ 1536) →
          (512 ∣ (putBlock ref none true out (1, demoPayload1)).length ∧ (putBlock ref none true out (1, demoPayload1)).length ≤ 1536) ∧
          (putBlock ref none true out (1, demoPayload1)).readAt (1 * 512) 512 = demoBlock 1 demoPayload1 := by
        intro out hP
        rw [hput out 1 demoPayload1 (.inl rfl) List.length_replicate hP.2]
        obtain ⟨a, b, -⟩ := hw out 1 (demoBlock (UInt32.ofNat 1) demoPayload1) (by decide) (isBlock_length hi1) hP
        exact ⟨a, b rfl⟩
      have hroom : ∀ out : File, out.readAt (1 * 512) 512 = demoBlock 1 demoPayload1 → 1024 ≤ out.length := by
        intro out h
        have := congrArg List.length h
        rw [File.readAt_length, isBlock_length hi1] at this
        omega
      have hq2 : ∀ out : File, ((512 ∣ out.length ∧ out.length ≤ 1536) ∧ out.readAt (1 * 512) 512 = demoBlock 1 demoPayload1) →
          (512 ∣ (putBlock ref none true out (2, demoPayload2)).length ∧ (putBlock ref none true out (2, demoPayload2)).length ≤ 1536) ∧
          (putBlock ref none true out (2, demoPayload2)).readAt (1 * 512) 512 = demoBlock 1 demoPayload1 := by
        rintro out ⟨hP, h⟩
        rw [hput out 2 demoPayload2 (.inr rfl) demo_len2 hP.2]
        obtain ⟨a, -, b⟩ := hw out 2 (demoBlock (UInt32.ofNat 2) demoPayload2) (by decide) (isBlock_length hi2) hP
        exact ⟨a, (b (by decide) (hroom _ h)).trans h⟩
      have hqm : ∀ out : File, (512 ∣ out.length ∧ out.length ≤ 1536) →
          ∀ r : File, r = fin.1.toList.foldl (fun o mb => putMetas ref none true mb o) out →
          (512 ∣ r.length ∧ r.length ≤ 1536) ∧ (out.readAt (1 * 512) 512 = demoBlock 1 demoPayload1 →
            r.readAt (1 * 512) 512 = demoBlock 1 demoPayload1) := by
        rintro out hP r rfl
        cases hf : fin.1 with
        | none => exact ⟨hP, id⟩
        | some mb =>
          rw [h2] at hf
          obtain ⟨-, -, p, hp, -⟩ := found_metas hf
          have hml := isBlock_length hp
          obtain ⟨a, -, b⟩ := hw out 0 mb (by decide) hml hP
          rw [Option.toList_some, List.foldl_cons, List.foldl_nil]
          unfold putMetas
          rw [metaAllPos_eq, metaAllIndices_eq]
          show (512 ∣ (ite _ out (out.writeAt (0 * 512) mb)).length ∧ (ite _ out (out.writeAt (0 * 512) mb)).length ≤ 1536) ∧
            (_ → (ite _ out (out.writeAt (0 * 512) mb)).readAt (1 * 512) 512 = _)
          split
          · exact ⟨hP, id⟩
          · exact ⟨a, fun h => (b (by decide) (hroom _ h)).trans h⟩
      have hP0 : 512 ∣ (earlier mp 0).length ∧ (earlier mp 0).length ≤ 1536 := by rw [e2]; decide
      have hskip : ((passParam .skipGood).multiPass == some MultiPass.skipGood) = true := rfl
      have hopen : openOut (passParam .skipGood).multiPass (earlier mp 0) = earlier mp 0 := rfl
      rw [hskip, hopen] at h4
      rw [h4]
      rcases List.append_eq_cons_iff.1 hdata with ⟨a1, a2⟩ | ⟨t, a1, a2⟩
      · rw [a1, a2]
        obtain ⟨b1, -⟩ := hqm _ hP0 _ rfl
        exact (hq2 _ (hq1 _ b1)).2
      · rcases List.append_eq_cons_iff.1 a2.symm with ⟨a3, a4⟩ | ⟨t', a3, a4⟩
        · rw [a1, a3, a4]
          obtain ⟨b1, b2⟩ := hq1 _ hP0
          obtain ⟨c1, c2⟩ := hqm _ b1 _ rfl
          exact (hq2 _ ⟨c1, c2 b2⟩).2
        · obtain ⟨rfl, a5⟩ := List.append_eq_nil_iff.1 a4.symm
          rw [a1, a3, a5]
          exact (hqm _ (hq2 _ (hq1 _ hP0)).1 _ rfl).2 (hq2 _ (hq1 _ hP0)).2

end Verif.Sort
