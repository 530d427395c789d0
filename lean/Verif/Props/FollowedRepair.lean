import Verif.Props.Followed
/-!
# C81: repairing a damaged container that is followed by something

`repair` puts the blocks back, and leaves alone whatever follows the container.
-/

namespace Verif.Followed
open Format ContainerSpec LayoutSpec Layout RepairSpec UpdateSpec ScanSpec Scan DecodeSpec History Misc
open Repair (Near Sees Sound OpIn Filed)

theorem fill_dvd (v : Version) (f : File) : blockLen v ∣ (fill v f).length := by
  have hu := blockLen_pos v
  unfold fill
  rw [List.length_append, List.length_replicate]
  have h1 := Nat.div_add_mod f.length (blockLen v)
  have h2 := Nat.mod_lt f.length hu
  by_cases h0 : f.length % blockLen v = 0
  · rw [h0, Nat.sub_zero, Nat.mod_self, Nat.add_zero]
    exact Nat.dvd_of_mod_eq_zero h0
  · rw [Nat.mod_eq_of_lt (a := blockLen v - f.length % blockLen v) (by omega)]
    refine ⟨f.length / blockLen v + 1, ?_⟩
    rw [Nat.mul_add]
    omega

theorem fill_longer (v : Version) (f : File) : f.length ≤ (fill v f).length := by
  unfold fill
  rw [List.length_append]
  omega

/-- What `repair` does to a damaged container that is followed by something. -/
theorem sets_followed {E : Repair.Env} (laws : E.rs.Laws) (hE : E.Calm) {burst : Option Nat} {v : Version} {uid : Uid} {d : Dpb}
    {bytes mp : List Byte} {c f z : File} (h : Sound E.rs v uid d bytes mp c) (hlen : f.length = c.length)
    (hsees : Sees E burst (f ++ z) v uid mp d)
    (hdam : Damaged v uid d (payloads E.rs v (some d) (fileChunks v bytes)).length c f) :
    ∃ dk st g, Repair.repairFile E burst false (f ++ z) = .ok (some (dk, st)) ∧ dk.file = g ++ z ∧ g.length = c.length ∧
      (∀ w ∈ dk.ops, w.1 + w.2.length ≤ c.length) ∧
      ((∀ t, t * (d.data + d.parity) < (payloads E.rs v (some d) (fileChunks v bytes)).length → d.data ≤ unchangedIn v d c f t) →
        st.repairFailed = 0) ∧ Near v c f g ∧
      (∀ k ∈ metaCopies (some true) (some d), piece v g k = piece v c k) ∧
      ∀ t, t * (d.data + d.parity) < (payloads E.rs v (some d) (fileChunks v bytes)).length → d.data ≤ unchangedIn v d c f t →
        ∀ j < d.data + d.parity,
          piece v g (placeOf d (t * (d.data + d.parity) + j + 1)) = piece v c (placeOf d (t * (d.data + d.parity) + j + 1)) := by
  obtain ⟨h1, h2, h3⟩ := Repair.shards_ok h.data h.parity
  obtain ⟨hcnt, hps⟩ := Repair.payloads_count laws (v := v) h1 h2 h3 bytes
  have hmp := metasToBytes_length h.plain
  have hu := blockLen_pos v
  have hal := h.container.aligned
  have half : blockLen v ∣ f.length := by rw [hlen]; exact hal
  have hin : ∀ {k}, (k + 1) * blockLen v ≤ c.length → k * blockLen v < c.length := by
    intro k hk
    rw [Nat.succ_mul] at hk
    omega
  have hpc : ∀ {k} (y : File), (k + 1) * blockLen v ≤ c.length → piece v (c ++ y) k = piece v c k := fun y hk =>
    (piece_append hal y _).1 (hin hk)
  have hpf : ∀ {k} (g y : File), g.length = c.length → (k + 1) * blockLen v ≤ c.length → piece v (g ++ y) k = piece v g k := fun g y hg hk =>
    (piece_append (by rw [hg]; exact hal) y _).1 (by rw [hg]; exact hin hk)
  have hdata := fun {s} (a : 1 ≤ s) b => Repair.image_data h.container hps (s := s) a b
  have hmetas := fun {k} hk => Repair.image_meta h.container hmp (k := k) hk
  have hfiled : Filed v uid d (payloads E.rs v (some d) (fileChunks v bytes)) c.length (c ++ fill v z) := by
    refine ⟨?_, by rw [List.length_append]; omega, ?_⟩
    · rw [List.length_append]
      exact Nat.dvd_add hal (fill_dvd v z)
    · intro s a b
      obtain ⟨p, e1, e2, e3⟩ := hdata a b
      exact ⟨p, e1, by rw [hpc _ e3]; exact e2, e3⟩
  have hunch : ∀ t, t * (d.data + d.parity) < (payloads E.rs v (some d) (fileChunks v bytes)).length →
      unchangedIn v d (c ++ fill v z) (f ++ z) t = unchangedIn v d c f t := by
    intro t ht
    have hmul : (t + 1) * (d.data + d.parity) ≤ (payloads E.rs v (some d) (fileChunks v bytes)).length := by
      rw [hcnt] at ht ⊢
      unfold blocksFor at ht ⊢
      simp only at ht ⊢
      exact Nat.mul_le_mul_right _ (Nat.lt_of_mul_lt_mul_right ht)
    rw [Nat.succ_mul] at hmul
    unfold unchangedIn
    apply List.countP_congr
    intro j hj
    rw [List.mem_range] at hj
    obtain ⟨-, -, -, e3⟩ := hdata (s := t * (d.data + d.parity) + j + 1) (by omega) (by omega)
    rw [hpc _ e3, hpf f z hlen e3]
  have hdam' : Damaged v uid d (payloads E.rs v (some d) (fileChunks v bytes)).length (c ++ fill v z) (f ++ z) := by
    have hff := Repair.fill_aligned half
    refine ⟨?_, ?_, ?_⟩
    · rw [List.length_append, List.length_append, hlen]
      have := fill_longer v z
      omega
    · intro k hk
      have e3 := (hmetas hk).2
      rw [hpc _ e3, hpf f z hlen e3, fill_append half]
      refine (hdam.metas k hk).imp_right fun hn => ?_
      rw [hff] at hn
      unfold ValidAt at hn ⊢
      rwa [hpf f _ hlen e3]
    · intro s a b
      obtain ⟨-, -, -, e3⟩ := hdata a b
      rw [hpc _ e3, hpf f z hlen e3, fill_append half]
      refine (hdam.blocks s a b).imp_right fun hn => ?_
      rw [hff] at hn
      unfold Present at hn ⊢
      rwa [hpf f _ hlen e3]
  obtain ⟨dk, st, a1, a2, -, a4, a5, a6, a7⟩ := Repair.sets_restored_in laws hE hsees h.numbers h.plain h.sized hfiled
    (fun k hk => ⟨by rw [hpc _ (hmetas hk).2]; exact (hmetas hk).1, (hmetas hk).2⟩) hdam'
  have hops : ∀ w ∈ dk.ops, Repair.RightOp v c w := by
    intro w hw
    obtain ⟨k, e1, e2⟩ := a7 w hw
    exact ⟨k, by rw [e1, hpc _ e2], e2⟩
  have hbound : ∀ w ∈ dk.ops, w.1 + w.2.length ≤ c.length := by
    intro w hw
    obtain ⟨k, rfl, e2⟩ := hops w hw
    simp only
    rw [Repair.piece_full e2]
    rwa [Nat.succ_mul] at e2
  have hfile : dk.file = File.writes f dk.ops ++ z := by
    rw [← writes_append_inside _ f (fun w hw => by rw [hlen]; exact hbound w hw), ← a6]
    rfl
  obtain ⟨w1, -, -⟩ := Near.writes hal dk.ops f (Near.refl (v := v) (c := c) (f := f) (by omega)) hops
  have hgl : (File.writes f dk.ops).length = c.length := by
    have : ∀ (ws : List (Nat × List Byte)) (x : File), (∀ w ∈ ws, w.1 + w.2.length ≤ x.length) → (File.writes x ws).length = x.length := by
      intro ws
      induction ws with
      | nil => intro x _; rfl
      | cons w ws ih =>
        intro x hx
        have h0 := writeAt_length_inside (hx w List.mem_cons_self)
        unfold File.writes at ih ⊢
        rw [List.foldl_cons, ih _ (fun y hy => by rw [h0]; exact hx y (List.mem_cons_of_mem _ hy)), h0]
    rw [this _ _ (fun w hw => by rw [hlen]; exact hbound w hw), hlen]
  refine ⟨dk, st, _, a1, hfile, hgl, hbound, fun hrec => a2 fun t ht => by rw [hunch t ht]; exact hrec t ht, w1, ?_, ?_⟩
  · intro k hk
    have e3 := (hmetas hk).2
    have := a4 k hk
    rwa [hfile, hpf _ _ hgl e3, hpc _ e3] at this
  · intro t ht hr j hj
    have hmul : (t + 1) * (d.data + d.parity) ≤ (payloads E.rs v (some d) (fileChunks v bytes)).length := by
      rw [hcnt] at ht ⊢
      unfold blocksFor at ht ⊢
      simp only at ht ⊢
      exact Nat.mul_le_mul_right _ (Nat.lt_of_mul_lt_mul_right ht)
    rw [Nat.succ_mul] at hmul
    obtain ⟨-, -, -, e3⟩ := hdata (s := t * (d.data + d.parity) + j + 1) (by omega) (by omega)
    have := a5 t ht (by rw [hunch t ht]; exact hr) j hj
    rwa [hfile, hpf _ _ hgl e3, hpc _ e3] at this

/-- **C81.** Set by set: if a container is damaged in place and followed by anything at all, `repair` writes nothing behind the
container, restores all its metadata blocks, and every set that has kept as many blocks as it has data blocks. -/
theorem C81_per_set (E : Repair.Env) (laws : E.rs.Laws) (hE : E.Calm) (burst : Option Nat) (v : Version) (uid : Uid) (d : Dpb)
    (bytes mp : List Byte) (c f z : File) (h : Sound E.rs v uid d bytes mp c) (hlen : f.length = c.length)
    (hsees : Sees E burst (f ++ z) v uid mp d)
    (hdam : Damaged v uid d (payloads E.rs v (some d) (fileChunks v bytes)).length c f) :
    ∃ dk st g, Repair.repairFile E burst false (f ++ z) = .ok (some (dk, st)) ∧ dk.file = g ++ z ∧ g.length = c.length ∧
      (∀ w ∈ dk.ops, w.1 + w.2.length ≤ c.length) ∧
      (∀ k ∈ metaCopies (some true) (some d), piece v g k = piece v c k) ∧
      ∀ t, t * (d.data + d.parity) < (payloads E.rs v (some d) (fileChunks v bytes)).length → d.data ≤ unchangedIn v d c f t →
        ∀ j < d.data + d.parity,
          piece v g (placeOf d (t * (d.data + d.parity) + j + 1)) = piece v c (placeOf d (t * (d.data + d.parity) + j + 1)) := by
  obtain ⟨dk, st, g, a1, a2, a3, a4, -, -, a5, a6⟩ := sets_followed laws hE h hlen hsees hdam
  exact ⟨dk, st, g, a1, a2, a3, a4, a5, a6⟩

/-- **C81.** If every set has lost at most `parity` of its blocks, and there is no damage between the blocks, the result is the container
followed by what followed it before. -/
theorem C81_restores (E : Repair.Env) (laws : E.rs.Laws) (hE : E.Calm) (burst : Option Nat) (v : Version) (uid : Uid) (d : Dpb)
    (bytes mp : List Byte) (c f z : File) (h : Sound E.rs v uid d bytes mp c) (hlen : f.length = c.length)
    (hsees : Sees E burst (f ++ z) v uid mp d)
    (hdam : Damaged v uid d (payloads E.rs v (some d) (fileChunks v bytes)).length c f)
    (hgaps : GapsClean v d (payloads E.rs v (some d) (fileChunks v bytes)).length f)
    (hrec : ∀ t, t * (d.data + d.parity) < (payloads E.rs v (some d) (fileChunks v bytes)).length → d.data ≤ unchangedIn v d c f t) :
    ∃ dk st, Repair.repairFile E burst false (f ++ z) = .ok (some (dk, st)) ∧ st.repairFailed = 0 ∧ dk.file = c ++ z := by
  obtain ⟨h1, h2, h3⟩ := Repair.shards_ok h.data h.parity
  obtain ⟨hcnt, hps⟩ := Repair.payloads_count laws (v := v) h1 h2 h3 bytes
  obtain ⟨dk, st, g, a1, a2, a3, -, a4, a5, a6, a7⟩ := sets_followed laws hE h hlen hsees hdam
  refine ⟨dk, st, a1, a4 hrec, ?_⟩
  rw [a2, Repair.near_complete h.container hps (metasToBytes_length h.plain) hgaps a5 a6 ?_]
  intro s hs1 hs2
  have hn : 0 < d.data + d.parity := by omega
  have e := Nat.div_add_mod (s - 1) (d.data + d.parity)
  have hmod := Nat.mod_lt (s - 1) hn
  rw [Nat.mul_comm] at e
  have hlt : (s - 1) / (d.data + d.parity) * (d.data + d.parity) < (payloads E.rs v (some d) (fileChunks v bytes)).length := by omega
  have := a7 _ hlt (hrec _ hlt) _ hmod
  rwa [show (s - 1) / (d.data + d.parity) * (d.data + d.parity) + (s - 1) % (d.data + d.parity) + 1 = s by omega] at this

/-- **C81.** The promise of the burst error resistance level holds for a container followed by anything at all: damage in bursts of up to
`burst` blocks, at most `parity` of them in each super block set, is repaired, and what follows stays as it is. -/
theorem C81_bursts (E : Repair.Env) (laws : E.rs.Laws) (hE : E.Calm) (v : Version) (uid : Uid) (d : Dpb) (bytes mp : List Byte) (c f z : File)
    (h : Sound E.rs v uid d bytes mp c) (hB : 1 ≤ d.burst) (bursts : List (Nat × Nat)) (hlen : f.length = c.length)
    (hsize : ∀ b ∈ bursts, b.2 ≤ d.burst) (hcount : ∀ s, (within d bursts s).length ≤ d.parity)
    (hdmg : ∀ k, piece v f k = piece v c k ∨ hit bursts k = true ∧ Broken v (piece v f k))
    (hgaps : GapsClean v d (payloads E.rs v (some d) (fileChunks v bytes)).length f) :
    ∃ dk st, Repair.repairFile E (some d.burst) false (f ++ z) = .ok (some (dk, st)) ∧ st.repairFailed = 0 ∧ dk.file = c ++ z := by
  obtain ⟨hcase, hdam, hrec⟩ := Repair.case_of_bursts laws hE h hB hlen hsize hcount hdmg
  have hk : ∃ k ∈ metaCopies (some true) (some d), piece v f k = piece v c k := by
    obtain ⟨k, hk, hh⟩ := C13_super_sets d hB (Repair.shards_ok h.data h.parity).1 (some true) bursts
      (fun b hb => by have := hsize b hb; omega) (hcount 0)
    refine ⟨k, hk, (hdmg k).resolve_right ?_⟩
    rw [hh]
    simp
  exact C81_restores E laws hE _ v uid d bytes mp c f z h hlen
    ⟨Repair.found_of_damage laws hE h hlen (fun k => (hdmg k).imp_right (·.2)) hk z, h.rs, h.data, h.parity, .inl rfl⟩ hdam hgaps hrec

/-- **C81.** Encoding, appending something else, damage, repairing and decoding give back the input. -/
theorem C81_roundtrip (E : Encode.Env) (p : Encode.Param) (hE : E.Ok p) (hok : p.Ok) (inp : Encode.Input) (hn : Encode.NamesOk p inp)
    (dk : Disk) (rep : Encode.Report) (hrange : inp.file = none ∨ p.fromPos = none ∧ p.toPos = none) (hs : ∀ n, E.stop n = false)
    (henc : Encode.encodeFile E p inp = (dk, .ok rep)) (d : Dpb) (hd : p.dpb = some d) (hB : 1 ≤ d.burst)
    (hsup : p.hashType.supported = true)
    (f z : File) (bursts : List (Nat × Nat)) (hlen : f.length = dk.file.length)
    (hsize : ∀ b ∈ bursts, b.2 ≤ d.burst) (hcount : ∀ s, (within d bursts s).length ≤ d.parity)
    (hdmg : ∀ k, piece p.version f k = piece p.version dk.file k ∨ hit bursts k = true ∧ Broken p.version (piece p.version f k))
    (hgaps : GapsClean p.version d (payloads E.rs p.version (some d) (fileChunks p.version inp.bytes)).length f)
    (hz : Foreign p.version p.uid z)
    (R : Repair.Env) (hR : R.Calm) (hrs : R.rs = E.rs)
    (D : Decode.Env) (hD : D.Calm) (q : Decode.Param) (hq : Decode.Whole q) (hr : Decode.DefaultRef q.ref) (hg : q.ref.guessFrom = none)
    (hb : Decode.BurstKnown q.ref.burst p.dpb (payloads E.rs p.version p.dpb (fileChunks p.version inp.bytes)).length) (old : File) :
    ∃ dk' st out, Repair.repairFile R (some d.burst) false (f ++ z) = .ok (some (dk', st)) ∧ st.repairFailed = 0 ∧
      dk'.file = dk.file ++ z ∧ Decode.toFile D q dk'.file old = .ok (inp.bytes, out) := by
  have hme : p.metaEnabled = true := hok.meta (by rw [hd]; simp)
  have hh := Encode.C24_whole_input E p hE hok inp hn dk rep hrange hs henc
  obtain ⟨mb, hc, hrec⟩ := hh.container
  obtain ⟨ms, ⟨mp, hmb, rfl⟩, h2, h3, h4, h5, h6⟩ := hrec hme
  rw [hme] at hc
  have hnum := hh.numbers
  rw [hd] at hc h4 h5 hnum
  rw [hmb.bytes, blockBytes_drop] at h6
  have hcons : p.version.usesRs = true := by
    have := hok.consistent
    rw [hd] at this
    simpa [verConsistent] using this
  obtain ⟨dk', st, r1, r2, r3⟩ := C81_bursts R (by rw [hrs]; exact hE.laws) hR p.version p.uid d inp.bytes mp dk.file f z
    ⟨by rw [hrs, ← hmb.bytes]; exact hc, by rw [hrs]; exact hnum, h6, h2, hcons, h4, h5⟩ hB bursts hlen hsize hcount hdmg (by rw [hrs]; exact hgaps)
  obtain ⟨hS, ms, hk, -⟩ := encoded_kept E p hE hok inp hn dk rep hrange hs henc hme hsup
  obtain ⟨out, o1, -⟩ := C80_decode _ hS ms dk.file z hk hz D hD q hq hr hg hb old
  exact ⟨dk', st, out, r1, r2, r3, by rw [r3]; exact o1⟩

/-! ### Instances -/

/-- C81_per_set, C81_restores, C81_bursts, C81_roundtrip: a container of version 17 followed by 700 zeros, with the metadata block and
the first data block lost. -/
example : ∃ (c f : File) (dk' : Disk) (st : Repair.Stats) (out : _), f ≠ c ∧
    Repair.repairFile Repair.demoEnv (some 3) false (f ++ List.replicate 700 0) = .ok (some (dk', st)) ∧ dk'.file = c ++ List.replicate 700 0 ∧
    Decode.toFile Decode.calmEnv Decode.plainParam dk'.file [] = .ok (List.replicate 1000 7, out) := by
  obtain ⟨h1, h2⟩ := Encode.demo_ok (v := .v17) (dpb := some ⟨10, 2, 3⟩) none rfl (by simp) (fun _ => false)
  obtain ⟨dk, rep, mp, henc, h⟩ := Repair.demo_sound'
  obtain ⟨f, e1, e2, e3, e5⟩ := Repair.demo_damage h
  obtain ⟨dk', st, out, r1, -, r2, r3⟩ := C81_roundtrip _ _ h2 h1 _ (by
    refine ⟨by decide +kernel, ?_⟩
    intro n t ht
    simp only [Option.some.injEq, Prod.mk.injEq] at ht
    rw [← ht.1]
    decide +kernel) dk rep (.inr ⟨rfl, rfl⟩) (fun _ => rfl) henc Repair.demoDpb rfl (by decide) rfl f (List.replicate 700 0) [(0, 2)] e2 (by decide)
    (few (by decide)) e3 e5 (C80_zeros _ _ 700).1
    Repair.demoEnv Repair.demo_calm rfl Decode.calmEnv Decode.calm Decode.plainParam Decode.plain_whole Decode.plain_ref rfl (guessable rfl _) []
  exact ⟨dk.file, f, dk', st, out, e1, r1, r2, r3⟩

end Verif.Followed
