import Verif.Props.Repair
/-!
# C51: a repair that was cut short is finished by repairing again
-/

namespace Verif.Repair
open Format RepairSpec ScanSpec Scan Layout LayoutSpec ContainerSpec FileUtils
open Classical

/-- Once set, the interrupt flag stays set. -/
def Env.Sticky (E : Env) : Prop := ∀ n, E.stopMeta n = true → ∀ s, E.stopData s = true

/-- An interrupted scan for a metadata block finds the same block as one that goes to the end, if it finds any. -/
theorem ref_same {f : File} {stop stop' : Nat → Bool} (h' : ∀ k, stop' k = false) {x y : Nat × Block}
    (hx : getRefBlock f none none false (.mustBe .metadata) stop = some x)
    (hy : getRefBlock f none none false (.mustBe .metadata) stop' = some y) : x = y := by
  obtain ⟨⟨l, ⟨t, ht⟩, h2⟩, -⟩ := C34_interrupted f none none false (.mustBe .metadata) stop _ rfl
  rw [h2] at hx
  rw [C34_choice f none none false _ stop' h' _ rfl, ← ht] at hy
  have hx : l.find? _ = some x := hx
  have hy : (l ++ t).find? _ = some y := hy
  rw [List.find?_append, hx] at hy
  exact Option.some.inj hy

/-- Every write of a repair, even of an interrupted one, is the right block at its place, where it was not. -/
theorem ops_right {E : Env} (laws : E.rs.Laws) (hE : E.Sticky) {v : Version} {uid : Uid} {d : Dpb} {bytes mp : List Byte} {c f : File}
    (h : Sound E.rs v uid d bytes mp c) (hB : 1 ≤ d.burst) {bursts : List (Nat × Nat)} (hlen : f.length = c.length)
    (hsize : ∀ b ∈ bursts, b.2 ≤ d.burst) (hcount : ∀ s, (within d bursts s).length ≤ d.parity)
    (hdmg : ∀ k, piece v f k = piece v c k ∨ hit bursts k = true ∧ Broken v (piece v f k)) {dk : Disk} {st : Stats}
    (hr : repairFile E (some d.burst) false f = .ok (some (dk, st))) :
    dk.init = f ∧ ∀ w ∈ dk.ops, ∃ k, w = (k * blockLen v, piece v c k) ∧ (k + 1) * blockLen v ≤ c.length ∧ ValidAt v uid c k ∧
      piece v f k ≠ piece v c k := by
  have hE0 : Env.Calm ⟨E.rs, fun _ => false, fun _ => false, fun _ => false⟩ := ⟨fun _ => rfl, fun _ => rfl, fun _ => rfl⟩
  obtain ⟨hcase, hdam, hrec⟩ := case_of_bursts (E := ⟨E.rs, fun _ => false, fun _ => false, fun _ => false⟩) laws hE0 h hB hlen hsize hcount
    hdmg
  obtain ⟨h1, h2, h3⟩ := shards_ok h.data h.parity
  obtain ⟨hcnt, hps⟩ := payloads_count laws (v := v) h1 h2 h3 bytes
  have hmp := metasToBytes_length h.plain
  have hval : Valid (some d) := by intro x hx; cases hx; exact h1
  -- what the interrupted run sees
  obtain ⟨v', uid', mp1, d', hsees⟩ := sees_of_ok hr
  obtain ⟨pos', f1, f2⟩ := hsees.found
  obtain ⟨pos, g1, g2⟩ := hcase.sees.found
  have heq := ref_same hE0.ref f1 g1
  simp only [Prod.mk.injEq] at heq
  obtain ⟨rfl, hblk⟩ := heq
  have hv : v' = v := congrArg (fun b : Block => b.header.version) hblk
  subst hv
  have hu : uid' = uid := congrArg (fun b : Block => b.header.uid) hblk
  subst hu
  obtain rfl : mp1 = mp := (isBlock_seq f2 g2).2
  have hsees : Sees E (some d.burst) f v' uid' mp1 d := by
    refine ⟨⟨pos', f1, f2⟩, h.rs, h.data, h.parity, .inl rfl⟩
  obtain ⟨mp', total, hset⟩ := hsees.setup
  have hmp' : mp' = mp1 := by
    have := hset.rewritten
    rw [h.plain] at this
    exact (Option.some.inj this).symm
  subst hmp'
  obtain ⟨dk2, st2, dk1, st1, n, m, e1, e2, e3, e4, e5, e6, e7, e8, e9⟩ := run_of_setup laws false hset
  have hdk := ok_of_setup false hset e1
  rw [hr] at hdk
  simp only [Except.ok.injEq, Option.some.injEq, Prod.mk.injEq] at hdk
  obtain ⟨rfl, rfl⟩ := hdk
  obtain ⟨m1, m2, m3, -, m5, m6⟩ := meta_whole h.container hset.size hdam ((metaCopies (some true) (some d)).take n) ⟨f, []⟩ Stats.zero
    (fun k hk => List.mem_of_mem_take hk) (Near.refl hdam.short)
  rw [← e2] at m1 m2 m6
  simp only at m1 m2 m6
  have htot : total = (1 + d.parity) + (payloads E.rs v' (some d) (fileChunks v' bytes)).length := by
    rw [hset.total, h.sized]
    simp only
    rw [totalBlockCount, dataBlockCount_eq v' (some d) hval, hcnt]
    rfl
  have hml : (metaCopies (some true) (some d)).length = 1 + d.parity := by unfold metaCopies; simp
  have hm : m ≤ (payloads E.rs v' (some d) (fileChunks v' bytes)).length := by
    rcases e4 with e4 | e4
    · have hb1 : st1.blocks = 1 + d.parity := by rw [m2, List.length_take, hml, e4]; simp [Stats.zero, Stats.blocks]
      rw [hb1, htot] at e7
      omega
    · rcases e9 with e9 | e9
      · omega
      · rw [hE n e4] at e9; simp at e9
  have hnum := h.numbers
  obtain ⟨-, -, -, -, r5⟩ := run_whole h1 h.container hps
    (fun t ht _ => payloads_set laws h1 h2 h3 bytes t ht) hdam hrec m1 e5 hm
  have hright := r5 (m6 (by simp))
  obtain ⟨-, hi, top, mp2, hl2, hok⟩ := ops_of_sees laws hsees hr
  refine ⟨hi, ?_⟩
  intro w hw
  obtain ⟨k, hwk, hin⟩ := hright w hw
  have hu := blockLen_pos v'
  have hplace : ∀ (j : Nat) (b : List Byte), w = (j * blockLen v', b) → j = k ∧ b = piece v' c k := by
    intro j b hj
    rw [hwk] at hj
    simp only [Prod.mk.injEq] at hj
    exact ⟨(Nat.eq_of_mul_eq_mul_right hu hj.1).symm, hj.2.symm⟩
  rcases hok w hw with ⟨j, hj, hnv, e⟩ | ⟨s, p, a1, a2, a3, a4, a5, e⟩
  · obtain ⟨rfl, hb⟩ := hplace _ _ e
    have hvc : ValidAt v' uid' c j := ⟨0, mp', by rw [(image_meta h.container hmp hj).1]; exact ⟨rfl, hmp⟩⟩
    refine ⟨j, hwk, hin, hvc, fun e => hnv ?_⟩
    unfold ValidAt
    rw [e]
    exact hvc
  · obtain ⟨rfl, hb⟩ := hplace _ _ e
    have hbc : IsBlock (piece v' c (placeOf d s)) v' uid' (UInt32.ofNat s) p := ⟨hb.symm, a4⟩
    refine ⟨_, hwk, hin, ⟨_, _, hbc⟩, fun e => a3 ⟨p, ?_⟩⟩
    rw [e]
    exact hbc

/-- **C51.** A container damaged within its burst error resistance is being repaired, and the repair is interrupted, or the machine
crashes during it or afterwards (before the writes have reached the disk).  Then another `repair` puts all blocks back, as if nothing
had happened. -/
theorem C51_crash (E : Env) (laws : E.rs.Laws) (hE : E.Sticky) (v : Version) (uid : Uid) (d : Dpb) (bytes mp : List Byte) (c f : File)
    (h : Sound E.rs v uid d bytes mp c) (hB : 1 ≤ d.burst) (bursts : List (Nat × Nat)) (hlen : f.length = c.length)
    (hsize : ∀ b ∈ bursts, b.2 ≤ d.burst) (hcount : ∀ s, (within d bursts s).length ≤ d.parity)
    (hdmg : ∀ k, piece v f k = piece v c k ∨ hit bursts k = true ∧ Broken v (piece v f k)) (dk : Disk) (st : Stats)
    (hr : repairFile E (some d.burst) false f = .ok (some (dk, st))) (g : File) (hg : Crashed v dk.ops f g)
    (E' : Env) (hrs : E'.rs = E.rs) (hE' : E'.Calm) :
    ∃ dk' st', repairFile E' (some d.burst) false g = .ok (some (dk', st')) ∧ st'.repairFailed = 0 ∧
      (∀ k ∈ metaCopies (some true) (some d), piece v dk'.file k = piece v c k) ∧
      (∀ s, 1 ≤ s → s ≤ (payloads E.rs v (some d) (fileChunks v bytes)).length →
        piece v dk'.file (placeOf d s) = piece v c (placeOf d s)) ∧
      (GapsClean v d (payloads E.rs v (some d) (fileChunks v bytes)).length f → dk'.file = c) := by
  obtain ⟨-, hops⟩ := ops_right laws hE h hB hlen hsize hcount hdmg hr
  obtain ⟨hgl, hgp⟩ := hg
  have hu := blockLen_pos v
  have hplace : ∀ k b, (k * blockLen v, b) ∈ dk.ops → b = piece v c k ∧ (k + 1) * blockLen v ≤ c.length ∧ ValidAt v uid c k ∧
      piece v f k ≠ piece v c k := by
    intro k b hb
    obtain ⟨k', e, h1, h2, h3⟩ := hops _ hb
    simp only [Prod.mk.injEq] at e
    have := Nat.eq_of_mul_eq_mul_right hu e.1
    subst this
    exact ⟨e.2, h1, h2, h3⟩
  have hcase : ∀ k, piece v g k = piece v c k ∨ hit bursts k = true ∧ Broken v (piece v g k) := by
    intro k
    rcases hgp k with e | ⟨b, n, hb, hn, e, hnb⟩
    · rw [e]; exact hdmg k
    · obtain ⟨rfl, hin, ⟨sq, p, hvc⟩, hne⟩ := hplace k b hb
      have hbl := isBlock_length hvc
      by_cases hfull : n < blockLen v
      · right
        refine ⟨((hdmg k).resolve_left hne).1, .inr ⟨header_of_four ?_ ?_, hnb hfull⟩⟩
        · rw [piece_full (by rw [hgl, hlen]; exact hin)]
          exact h16 v
        · rw [e, List.take_append_of_le_length (by rw [List.length_take]; omega), List.take_take, Nat.min_eq_left hn]
          exact (IsBlock.checksum_field hvc).1
      · left
        rw [e, List.take_of_length_le (by omega), List.drop_eq_nil_of_le (by have := piece_length_le v f k; omega), List.append_nil]
  have hsound : Sound E'.rs v uid d bytes mp c := by rw [hrs]; exact h
  have hlaws : E'.rs.Laws := by rw [hrs]; exact laws
  obtain ⟨dk', st', r1, r2, r3, r4, r5⟩ := C25_bursts E' hlaws hE' v uid d bytes mp c g hsound hB bursts (by omega) hsize hcount hcase
  rw [hrs] at r4 r5
  refine ⟨dk', st', r1, r2, r3, r4, fun hgaps => r5 ?_⟩
  intro k hk hs
  rcases hgp k with e | ⟨b, n, hb, -, -, -⟩
  · rw [e]; exact hgaps k hk hs
  · obtain ⟨-, hin, ⟨sq, p, hvc⟩, -⟩ := hplace k b hb
    have hz : piece v c k = List.replicate (blockLen v) 0 :=
      h.container.gaps k (by rw [Nat.succ_mul] at hin; omega) hk fun i hi => hs (i + 1) (by omega) (by omega)
    rw [hz] at hvc
    exact absurd hvc zeros_not_block

theorem writes_length_ge {ws : List (Nat × List Byte)} (h : ∀ w ∈ ws, w.2 ≠ []) (f : File) : f.length ≤ (f.writes ws).length := by
  induction ws generalizing f with
  | nil => exact Nat.le_refl _
  | cons w ws ih =>
    refine Nat.le_trans ?_ (ih (fun x hx => h x (by simp [hx])) (f.writeAt w.1 w.2))
    rw [File.writeAt_length _ _ _ (h w (by simp))]
    omega

/-- The file a repair leaves is a special case: all writes are done. -/
theorem crashed_all {v : Version} {uid : Uid} {c f : File} (hal : blockLen v ∣ c.length) (hlen : f.length = c.length) {dk : Disk}
    (hi : dk.init = f) (hops : ∀ w ∈ dk.ops, ∃ k, w = (k * blockLen v, piece v c k) ∧ (k + 1) * blockLen v ≤ c.length ∧ ValidAt v uid c k ∧
      piece v f k ≠ piece v c k) : Crashed v dk.ops f dk.file := by
  have hu := blockLen_pos v
  have hfile : dk.file = f.writes dk.ops := by rw [← hi]; rfl
  have hright : ∀ w ∈ dk.ops, RightOp v c w := by
    intro w hw
    obtain ⟨k, e, h1, -, -⟩ := hops w hw
    exact ⟨k, e, h1⟩
  obtain ⟨w1, w2, w3⟩ := Near.writes hal dk.ops f (Near.refl (by omega)) hright
  have hge : f.length ≤ (f.writes dk.ops).length := by
    refine writes_length_ge (fun w hw e => ?_) f
    obtain ⟨k, rfl, h1, -, -⟩ := hops w hw
    have := piece_full h1
    simp only at e
    rw [e] at this
    simp at this
    omega
  rw [hfile]
  refine ⟨by have := w1.short; omega, ?_⟩
  intro k
  by_cases hk : ∃ b, (k * blockLen v, b) ∈ dk.ops
  · obtain ⟨b, hb⟩ := hk
    right
    obtain ⟨k', e, h1, -, -⟩ := hops _ hb
    simp only [Prod.mk.injEq] at e
    have := Nat.eq_of_mul_eq_mul_right hu e.1
    subst this
    have hb' := e.2
    subst hb'
    have h16 := h16 v
    refine ⟨_, blockLen v, hb, by omega, ?_, fun hlt => absurd hlt (Nat.lt_irrefl _)⟩
    rw [w3 _ hb k rfl, List.take_of_length_le (by rw [piece_full h1]), List.drop_eq_nil_of_le (piece_length_le v f k), List.append_nil]
  · left
    rcases place_or_end hal k with hin | hout
    · refine piece_writes_full ?_ (piece_full (by omega))
      intro w hw
      obtain ⟨j, rfl, h1, -, -⟩ := hops w hw
      exact ⟨piece_full h1, j, fun e => hk ⟨_, by rw [← e]; exact hw⟩, rfl⟩
    · have := w1.short
      rw [piece_beyond (by omega), piece_beyond (by omega)]

/-- **C51.** In particular if the first repair was interrupted by the user. -/
theorem C51_interrupted (E : Env) (laws : E.rs.Laws) (hE : E.Sticky) (v : Version) (uid : Uid) (d : Dpb) (bytes mp : List Byte)
    (c f : File) (h : Sound E.rs v uid d bytes mp c) (hB : 1 ≤ d.burst) (bursts : List (Nat × Nat)) (hlen : f.length = c.length)
    (hsize : ∀ b ∈ bursts, b.2 ≤ d.burst) (hcount : ∀ s, (within d bursts s).length ≤ d.parity)
    (hdmg : ∀ k, piece v f k = piece v c k ∨ hit bursts k = true ∧ Broken v (piece v f k)) (dk : Disk) (st : Stats)
    (hr : repairFile E (some d.burst) false f = .ok (some (dk, st)))
    (E' : Env) (hrs : E'.rs = E.rs) (hE' : E'.Calm) :
    ∃ dk' st', repairFile E' (some d.burst) false dk.file = .ok (some (dk', st')) ∧ st'.repairFailed = 0 ∧
      (∀ k ∈ metaCopies (some true) (some d), piece v dk'.file k = piece v c k) ∧
      (∀ s, 1 ≤ s → s ≤ (payloads E.rs v (some d) (fileChunks v bytes)).length →
        piece v dk'.file (placeOf d s) = piece v c (placeOf d s)) ∧
      (GapsClean v d (payloads E.rs v (some d) (fileChunks v bytes)).length f → dk'.file = c) := by
  obtain ⟨hi, hops⟩ := ops_right laws hE h hB hlen hsize hcount hdmg hr
  exact C51_crash E laws hE v uid d bytes mp c f h hB bursts hlen hsize hcount hdmg dk st hr dk.file
    (crashed_all h.container.aligned hlen hi hops) E' hrs hE'

/-! ### Instances -/

/-- The user interrupts the repair once the first metadata block is written. -/
noncomputable def hastyEnv : Env := ⟨RsWitness.codec, fun _ => false, fun n => decide (1 ≤ n), fun _ => true⟩

/-- C51_interrupted: metadata block and first data block lost, the repair interrupted and repeated. -/
example : ∃ c f dk st dk' st', f ≠ c ∧ repairFile hastyEnv (some 3) false f = .ok (some (dk, st)) ∧
    repairFile demoEnv (some 3) false dk.file = .ok (some (dk', st')) ∧ dk'.file = c := by
  obtain ⟨mp, c, h⟩ := demo_sound
  obtain ⟨f, h1, h2, h3, h5⟩ := demo_damage h
  obtain ⟨hc, -, -⟩ := case_of_bursts demo_laws demo_calm h (by decide) (bursts := [(0, 2)]) h2 (by decide) (few (by decide)) h3
  obtain ⟨dk, st, r1⟩ := C26_total hastyEnv demo_laws (some 3) false f _ _ mp demoDpb
    ⟨hc.sees.found, hc.sees.rs, hc.sees.data, hc.sees.parity, .inl rfl⟩
  obtain ⟨dk', st', r2, -, -, -, r3⟩ := C51_interrupted hastyEnv demo_laws (fun _ _ _ => rfl) .v17 demoOwner demoDpb _ mp c f h (by decide)
    [(0, 2)] h2 (by decide) (few (by decide)) h3 dk st r1 demoEnv rfl demo_calm
  exact ⟨c, f, dk, st, dk', st', h1, r1, r2, r3 h5⟩

set_option maxRecDepth 1000000 in
/-- A block of version 17 of which only the first 4 bytes have been written. -/
theorem torn_bad {uid : Uid} {seq : UInt32} {p : List Byte} :
    ¬ IsBlock ([0x53, 0x42, 0x78, 0x11] ++ List.replicate 508 0) .v17 uid seq p := by
  intro h
  have := (IsBlock.checksum_field h).2
  revert this
  decide +kernel

/-- C51_crash: the power fails while the first metadata block is being written and nothing else has reached the disk. -/
example : ∃ c f dk st g dk' st', repairFile demoEnv (some 3) false f = .ok (some (dk, st)) ∧ Crashed .v17 dk.ops f g ∧ g ≠ f ∧ g ≠ dk.file ∧
    repairFile demoEnv (some 3) false g = .ok (some (dk', st')) ∧ dk'.file = c := by
  obtain ⟨mp, c, h⟩ := demo_sound
  have hmp := metasToBytes_length h.plain
  have hal := h.container.aligned
  obtain ⟨f, h1, h2, h3, h5⟩ := demo_damage0 h
  have hsticky : demoEnv.Sticky := fun n hn => by simp [demoEnv] at hn
  obtain ⟨dk, st, r1, -, r2, -⟩ := C25_bursts demoEnv demo_laws demo_calm .v17 demoOwner demoDpb _ mp c f h (by decide) [(0, 2)] h2
    (by decide) (few (by decide)) h3
  obtain ⟨hi, hops⟩ := ops_right demo_laws hsticky h (by decide) h2 (by decide) (few (by decide)) h3 r1
  obtain ⟨m0, hin⟩ := image_meta h.container hmp (k := 0) (by decide)
  have hm : IsBlock (piece .v17 c 0) .v17 demoOwner 0 mp := ⟨m0, hmp⟩
  have hop : (0 * blockLen .v17, piece .v17 c 0) ∈ dk.ops := by
    rcases (crashed_all hal h2 hi hops).2 0 with e | ⟨b, n, hb, -⟩
    · exfalso
      rw [r2 0 (by decide)] at e
      rw [e, h1] at hm
      exact zeros_not_block hm
    · obtain ⟨k, e, -⟩ := hops _ hb
      simp only [Prod.mk.injEq] at e
      have := Nat.eq_of_mul_eq_mul_right (blockLen_pos .v17) e.1
      subst this
      rw [← e.2]
      exact hb
  have h4 := (IsBlock.checksum_field hm).1
  obtain ⟨p1, p2, p3⟩ := put_spec (v := .v17) (c := f) (k := 0) (b := [0x53, 0x42, 0x78, 0x11] ++ List.replicate 508 0) (by
    simp [-List.reduceReplicate, blockLen]) (by rw [h2]; exact hal) (by rw [h2]; exact hin)
  have hg : Crashed .v17 dk.ops f (put .v17 f 0 ([0x53, 0x42, 0x78, 0x11] ++ List.replicate 508 0)) := by
    refine ⟨p1, fun k => ?_⟩
    by_cases hk : k = 0
    · subst hk
      refine .inr ⟨_, 4, hop, Nat.le_refl 4, ?_, fun _ uid seq p => by rw [p2]; exact torn_bad⟩
      rw [p2, h4, h1, List.drop_replicate]
      rfl
    · exact .inl (p3 k hk)
  obtain ⟨dk', st', q1, -, -, -, q2⟩ := C51_crash demoEnv demo_laws hsticky .v17 demoOwner demoDpb _ mp c f h (by decide)
    [(0, 2)] h2 (by decide) (few (by decide)) h3 dk st r1 _ hg demoEnv rfl demo_calm
  refine ⟨c, f, dk, st, _, dk', st', r1, hg, ?_, ?_, q1, q2 h5⟩
  · intro e
    rw [e, h1] at p2
    have := congrArg List.head? p2
    simp [-List.reduceReplicate, List.head?_replicate, blockLen] at this
  · intro e
    rw [e, r2 0 (by decide)] at p2
    rw [p2] at hm
    exact torn_bad hm

end Verif.Repair
