import Verif.Props.Compose
/-!
# C28: `update` does to every field what the options ask for
-/

namespace Verif.ComposeSpec
open Format ContainerSpec LayoutSpec UpdateSpec History

/-- **C28.** After an `update` that succeeded, the container has the file name, the name of the SBX file and the hash that the options ask
for: a field that is to be removed is gone, one that is given has the value given (the hash: that of the stored file), and one that is not
mentioned has the value it had. All the other fields are as before. -/
theorem C28_asked (S : Setting) (hS : S.Ok) (ms : List Metadata) (c : File) (hk : Kept S ms c) (E : Update.Env) (hE : E.Calm)
    (hH : E.hash = S.hash) (q : Update.Cli) (hq : Request S q) (hd : q.dryRun = false) (st : Update.Stats)
    (h : (Update.updateFile E (q.param S.hash) c).2 = .ok st) :
    ∃ ms', Kept S ms' (Update.updateFile E (q.param S.hash) c).1.file ∧
      (getMeta ms' .fnm = if q.noFnm then none else match q.fnm with | some s => some (.fnm s) | none => getMeta ms .fnm) ∧
      (getMeta ms' .snm = if q.noSnm then none else match q.snm with | some s => some (.snm s) | none => getMeta ms .snm) ∧
      (getMeta ms' .hsh = if q.noHsh then none else
        match q.hash with | some t => some (.hsh (S.hash.bytes t S.bytes)) | none => getMeta ms .hsh) ∧
      ∀ id, id ≠ .fnm → id ≠ .snm → id ≠ .hsh → getMeta ms' id = getMeta ms id := by
  have h1 := update_iff hS hk E hE hH q hq hd
  have hg : ∀ id, getMeta (after S q ms) id =
      if id ∈ removes q then none else (lastFor ((q.param S.hash).filled S.hash S.bytes) id).or (getMeta ms id) := by
    intro id
    unfold after
    rw [getMeta_changed, remove_eq]
  refine ⟨after S q ms, h1.2 (h1.1.1 ⟨st, h⟩), ?_, ?_, ?_, ?_⟩
  · rw [hg, lastFor_filled]
    unfold removes
    cases q.fnm <;> cases q.noFnm <;> cases q.noSnm <;> cases q.noHsh <;> simp
  · rw [hg, lastFor_filled]
    unfold removes
    cases q.snm <;> cases q.noFnm <;> cases q.noSnm <;> cases q.noHsh <;> simp
  · rw [hg, lastFor_filled]
    unfold removes
    cases q.hash <;> cases q.noFnm <;> cases q.noSnm <;> cases q.noHsh <;> simp
  · intro id a b d
    rw [hg, lastFor_filled]
    unfold removes
    cases id <;> first
      | exact absurd rfl a
      | exact absurd rfl b
      | exact absurd rfl d
      | (cases q.noFnm <;> cases q.noSnm <;> cases q.noHsh <;> simp)

/-! ### Instances -/

/-- `update --no-fnm --snm s`: the file name is gone, the name of the SBX file is there, and the size is as before. -/
def dropFnm : Update.Cli := ⟨none, some "s", none, true, false, false, false, none⟩

theorem dropFnm_ok : Request small dropFnm :=
  ⟨⟨by simp [dropFnm], by simp [dropFnm], by simp [dropFnm]⟩, (by intro s hs; cases hs), (by intro s hs; cases hs; decide +kernel),
    (by intro t ht; cases ht), small_burst _⟩

example : ∃ c ms', Kept small [.fnm "a", .fsz 600] c ∧ Kept small ms' (Update.updateFile Update.calmEnv (dropFnm.param small.hash) c).1.file ∧
    getMeta ms' .fnm = none ∧ getMeta ms' .snm = some (.snm "s") ∧ getMeta ms' .hsh = none ∧ getMeta ms' .fsz = some (.fsz 600) := by
  obtain ⟨c, hk⟩ := small_kept
  obtain ⟨⟨st, hst⟩, -⟩ := small_runs hk dropFnm dropFnm_ok rfl (by
    change metaSpace (changed [.snm "s"] [.fnm] [.fnm "a", .fsz 600]) ≤ 496
    decide +kernel)
  obtain ⟨ms', h1, h2, h3, h4, h5⟩ := C28_asked small small_ok _ c hk _ Update.calm rfl dropFnm dropFnm_ok rfl st hst
  exact ⟨c, ms', hk, h1, h2, h3, h4, (h5 .fsz (by decide) (by decide) (by decide)).trans rfl⟩

/-- `update --fnm b`: the new name. -/
example : ∃ c ms', Kept small [.fnm "a", .fsz 600] c ∧ Kept small ms' (Update.updateFile Update.calmEnv (setFnm.param small.hash) c).1.file ∧
    getMeta ms' .fnm = some (.fnm "b") ∧ getMeta ms' .snm = none := by
  obtain ⟨c, hk⟩ := small_kept
  obtain ⟨⟨st, hst⟩, -⟩ := small_runs hk setFnm setFnm_ok rfl (by
    change metaSpace (changed [.fnm "b"] [] [.fnm "a", .fsz 600]) ≤ 496
    decide +kernel)
  obtain ⟨ms', h1, h2, h3, h4, h5⟩ := C28_asked small small_ok _ c hk _ Update.calm rfl setFnm setFnm_ok rfl st hst
  exact ⟨c, ms', hk, h1, h2, h3⟩

end Verif.ComposeSpec
