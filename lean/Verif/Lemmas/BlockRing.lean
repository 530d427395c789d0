import Verif.Model.BlockRing
import Verif.Lemmas.EncodeRun
import Verif.Lemmas.PipelineMono
/-!
# Lemmas about threads that read blocks into data block buffers
-/

namespace Verif.BlockRing
open Format

variable {R C : Type}

/-- What the reader does, independently of buffers: the changes made to the slots it keeps, in order, and its final
state. -/
inductive Runs (c : LotCfg) (act : R → Act R) : Nat → R → List (Slot → Slot) → R → Prop
  | halt {n r r'} : act r = .halt r' → Runs c act (n + 1) r [] r'
  | stop {n r g} {f : Slot → Slot} {cancel r'} : act r = .slot g →
      (∀ s : Slot, s.Fresh c → g s = (r', f s, cancel, false) ∧ (f s).data.length = c.version.blockSize) →
      Runs c act (n + 1) r (if cancel then [] else [f]) r'
  | skip {n r g} {f : Slot → Slot} {r1 fs r'} : act r = .slot g →
      (∀ s : Slot, s.Fresh c → g s = (r1, f s, true, true) ∧ (f s).data.length = c.version.blockSize) →
      Runs c act n r1 fs r' → Runs c act (n + 1) r fs r'
  | keep {n r g} {f : Slot → Slot} {r1 fs r'} : act r = .slot g →
      (∀ s : Slot, s.Fresh c → g s = (r1, f s, false, true) ∧ (f s).data.length = c.version.blockSize) →
      Runs c act n r1 fs r' → Runs c act (n + 1) r (f :: fs) r'

/-- `ss` are the results of the changes `fs` on unused slots. -/
def Kept (c : LotCfg) (fs : List (Slot → Slot)) (ss : List Slot) : Prop :=
  List.Forall₂ (fun f s => ∃ s0 : Slot, s0.Fresh c ∧ s = f s0) fs ss

theorem slotAt_spec {c : LotCfg} {b : Buffer} (h : b.OK c) (hf : b.isFull = false) :
    ∃ s, slotAt b = some s ∧ s.Fresh c := by
  obtain ⟨pre, post, hl, hn, hpre, hpost⟩ := h
  rcases hpost with rfl | ⟨l, rest, rfl, hw, hlt, hr⟩
  · simp [Buffer.isFull, hl, hn] at hf
  have hslot : l.slotsUsed < l.slots.length := by
    have := hw.len; have := c.direct_le; omega
  have hget : b.lots[b.lotsUsed]? = some l := by
    rw [hl, ← hn, List.getElem?_append_right (Nat.le_refl _)]; simp
  have hgs : l.getSlot = some ({ l with slotsUsed := l.slotsUsed + 1 }, l.slotsUsed + 1 == c.direct) := by
    unfold Lot.getSlot; rw [hw.cfg, if_pos hlt]
  have hlen : b.lotsUsed < b.lots.length := by rw [hl, ← hn]; simp
  refine ⟨l.slots[l.slotsUsed], ?_, hw.unused _ ?_⟩
  · unfold slotAt Buffer.getSlot
    rw [hget]; simp only [hgs]
    rw [List.getElem?_set_self hlen]
    simp [hslot]
  · rw [List.drop_eq_getElem_cons hslot]; exact List.mem_cons_self

/-- The loop over one buffer. -/
theorem fillLoop_spec {c : LotCfg} (hp : c.Pos) {act : R → Act R} :
    ∀ (n : Nat) (r : R) (fs : List (Slot → Slot)) (rF : R) (b : Buffer) (fuel : Nat), Runs c act n r fs rF → b.OK c →
      n < fuel →
      ∃ r' run b' fs1 fs2 ss, fillLoop act fuel r b = some (r', run, b') ∧ b'.OK c ∧ b'.lots.length = b.lots.length ∧
        fs = fs1 ++ fs2 ∧ Kept c fs1 ss ∧ b'.used = b.used ++ ss ∧ (∀ s ∈ ss, s.data.length = c.version.blockSize) ∧
        ((run = false ∧ r' = rF ∧ fs2 = []) ∨
          (run = true ∧ ∃ n', n' ≤ n ∧ (b.isFull = false → n' < n) ∧ Runs c act n' r' fs2 rF)) := by
  intro n
  induction n with
  | zero => intro r fs rF b fuel h; cases h
  | succ n ih =>
    intro r fs rF b fuel h hok hfuel
    obtain ⟨fuel, rfl⟩ : ∃ m, fuel = m + 1 := ⟨fuel - 1, by omega⟩
    rw [fillLoop]
    cases hfull : b.isFull with
    | true =>
      exact ⟨r, true, b, [], fs, [], rfl, hok, rfl, rfl, .nil, by simp, by simp, .inr ⟨rfl, n + 1, Nat.le_refl _, by simp, h⟩⟩
    | false =>
      obtain ⟨s, hs, hfr⟩ := slotAt_spec hok hfull
      simp only [Bool.false_eq_true, if_false]
      have fill : ∀ s' : Slot, s'.data.length = c.version.blockSize → ∃ b1 b2, b.fill (fun _ => s') = some b1 ∧
          b1.OK c ∧ b1.lots.length = b.lots.length ∧ b1.used = b.used ++ [s'] ∧
          b1.cancelSlot = some b2 ∧ b2.OK c ∧ b2.lots.length = b.lots.length ∧ b2.used = b.used := by
        intro s' hs'
        obtain ⟨_, _, hfill⟩ := Buffer.fill_spec hp hok hfull
        obtain ⟨b1, e1, h1, h2, -, -, h3⟩ := hfill fun _ => s'
        obtain ⟨b2, e2, h4, h5, -, -, h6⟩ := Buffer.cancel_spec h1 h2 hs'
        exact ⟨b1, b2, e1, h1, h3, h2, e2, h4, by rw [h6, h3], h5⟩
      cases h with
      | halt ha =>
        rw [ha]
        exact ⟨_, _, _, [], [], [], rfl, hok, rfl, rfl, .nil, by simp, by simp, .inl ⟨rfl, rfl, rfl⟩⟩
      | @stop _ _ g f cancel _ ha hg =>
        obtain ⟨e, hlen⟩ := hg s hfr
        obtain ⟨b1, b2, e1, h1, h2, h3, e2, h4, h5, h6⟩ := fill (f s) hlen
        rw [ha]
        simp only [hs, e, e1]
        cases cancel with
        | true =>
          simp only [if_true, e2, Bool.false_eq_true, if_false]
          exact ⟨_, _, _, [], [], [], rfl, h4, h5, rfl, .nil, by simp [h6], by simp, .inl ⟨rfl, rfl, rfl⟩⟩
        | false =>
          simp only [Bool.false_eq_true, if_false]
          exact ⟨_, _, _, [f], [], [f s], rfl, h1, h2, rfl, .cons ⟨s, hfr, rfl⟩ .nil, h3, by simpa using hlen,
            .inl ⟨rfl, rfl, rfl⟩⟩
      | @skip _ _ g f r1 _ _ ha hg hrest =>
        obtain ⟨e, hlen⟩ := hg s hfr
        obtain ⟨b1, b2, e1, h1, h2, h3, e2, h4, h5, h6⟩ := fill (f s) hlen
        rw [ha]
        simp only [hs, e, e1, if_true, e2]
        obtain ⟨r', run, b', fs1, fs2, ss, r1, r2, r3, r4, r5, r6, r7, r8⟩ := ih _ _ _ b2 fuel hrest h4 (by omega)
        refine ⟨r', run, b', fs1, fs2, ss, r1, r2, by rw [r3, h5], r4, r5, by rw [r6, h6], r7, ?_⟩
        rcases r8 with r8 | ⟨r8, n', r9, -, r10⟩
        · exact .inl r8
        · exact .inr ⟨r8, n', by omega, fun _ => by omega, r10⟩
      | @keep _ _ g f r1 fs _ ha hg hrest =>
        obtain ⟨e, hlen⟩ := hg s hfr
        obtain ⟨b1, b2, e1, h1, h2, h3, e2, h4, h5, h6⟩ := fill (f s) hlen
        rw [ha]
        simp only [hs, e, e1, if_true, Bool.false_eq_true, if_false]
        obtain ⟨r', run, b', fs1, fs2, ss, r1, r2, r3, r4, r5, r6, r7, r8⟩ := ih _ _ _ b1 fuel hrest h1 (by omega)
        refine ⟨r', run, b', f :: fs1, fs2, f s :: ss, r1, r2, by rw [r3, h2], by rw [r4]; rfl, .cons ⟨s, hfr, rfl⟩ r5,
          by rw [r6, h3]; simp, ?_, ?_⟩
        · intro x hx
          rcases List.mem_cons.1 hx with rfl | hx
          · exact hlen
          · exact r7 x hx
        rcases r8 with r8 | ⟨r8, n', r9, -, r10⟩
        · exact .inl r8
        · exact .inr ⟨r8, n', by omega, fun _ => by omega, r10⟩

/-- A buffer waiting for the reader. -/
structure Idle (c : LotCfg) (L : Nat) (b : Buffer) : Prop where
  ok : b.OK c
  empty : b.used = []
  lots : b.lots.length = L

theorem Idle.notFull {c : LotCfg} (hp : c.Pos) {L : Nat} (hL : 0 < L) {b : Buffer} (h : Idle c L b) : b.isFull = false := by
  cases hf : b.isFull with
  | false => rfl
  | true =>
    have := (Buffer.used_length_le h.ok).2.1 hf
    rw [h.empty, h.lots] at this
    have h2 : 0 < L * c.direct := Nat.mul_pos hL hp
    rw [List.length_nil] at this; omega

theorem newMulti_idle {c : LotCfg} (hp : c.Pos) (L N : Nat) : ∀ b ∈ Buffer.newMulti c L N, Idle c L b := by
  intro b hb
  simp only [Buffer.newMulti, List.mem_map] at hb
  obtain ⟨i, -, rfl⟩ := hb
  exact ⟨Buffer.new_OK hp _ _ _, Buffer.new_used _ _ _ _, by simp [Buffer.new]⟩

/-- What a thread does with a buffer: it folds `h` over the used slots (all of which satisfy `Good`). -/
structure Folds (c : LotCfg) (L : Nat) (Good : Slot → Prop) (f : C → Buffer → Option (C × Buffer)) (h : C → Slot → C) (idle : Bool) :
    Prop where
  spec : ∀ x b, b.OK c → b.lots.length = L → (∀ s ∈ b.used, s.data.length = c.version.blockSize) → (∀ s ∈ b.used, Good s) →
    ∃ b', f x b = some (b.used.foldl h x, b') ∧ (if idle then Idle c L b' else b' = b)

theorem good_of_kept {c : LotCfg} {Good : Slot → Prop} {fs : List (Slot → Slot)} {ss : List Slot}
    (hg : ∀ f ∈ fs, ∀ s : Slot, s.Fresh c → Good (f s)) (h : Kept c fs ss) : ∀ s ∈ ss, Good s := by
  induction h with
  | nil => simp
  | cons hs _ ih =>
    obtain ⟨s0, h0, rfl⟩ := hs
    intro x hx
    rcases List.mem_cons.1 hx with rfl | hx
    · exact hg _ List.mem_cons_self s0 h0
    · exact ih (fun f hf => hg f (List.mem_cons_of_mem _ hf)) x hx

theorem Kept.append {c : LotCfg} {fs fs' : List (Slot → Slot)} {ss ss' : List Slot} (h : Kept c fs ss) (h' : Kept c fs' ss') :
    Kept c (fs ++ fs') (ss ++ ss') := by
  induction h with
  | nil => exact h'
  | cons hs _ ih => exact .cons hs ih

/-- The rounds of two threads. -/
theorem ring2_rounds {c : LotCfg} (hp : c.Pos) {L cap fuelI : Nat} (hL : 0 < L) {act : R → Act R} {Good : Slot → Prop}
    {last : C → Buffer → Option (C × Buffer)} {h : C → Slot → C} (hl : Folds c L Good last h true) :
    ∀ (n : Nat) (r : R) (fs : List (Slot → Slot)) (rF : R) (st : Fin 2 → St R C) (bufs : List Buffer) (fuel : Nat),
      Runs c act n r fs rF → (∀ f ∈ fs, ∀ s : Slot, s.Fresh c → Good (f s)) → bufs ≠ [] → (∀ b ∈ bufs, Idle c L b) →
      (st 0).rd = r → (st 0).run = true → n < fuelI → n + 2 ≤ fuel →
      ∃ st' ss, (ring2 cap act fuelI last).runSeq fuel st bufs = some st' ∧ Kept c fs ss ∧
        (st' 0).rd = rF ∧ (st' 0).panicked = (st 0).panicked ∧ (st' 1).panicked = (st 1).panicked ∧
        (st' 1).con = ss.foldl h (st 1).con := by
  intro n
  induction n using Nat.strong_induction_on with
  | _ n ih =>
    intro r fs rF st bufs fuel hR hg hne hidle hrd hrun hfi hfuel
    obtain ⟨b, bs, rfl⟩ : ∃ b bs, bufs = b :: bs := by
      cases bufs with
      | nil => exact absurd rfl hne
      | cons b bs => exact ⟨b, bs, rfl⟩
    have hb := hidle b List.mem_cons_self
    obtain ⟨r', run, b', fs1, fs2, ss1, e, h1, h2, h3, h4, h5, h6, h7⟩ := fillLoop_spec hp n r fs rF b fuelI hR hb.ok hfi
    rw [hb.empty, List.nil_append] at h5
    have hg1 : ∀ s ∈ ss1, Good s := good_of_kept (fun f hf => hg f (by rw [h3]; exact List.mem_append_left _ hf)) h4
    obtain ⟨b2, e2, hi2⟩ := hl.spec (st 1).con b' h1 (by rw [h2, hb.lots]) (by rw [h5]; exact h6) (by rw [h5]; exact hg1)
    simp only [if_true] at hi2
    obtain ⟨fuel, rfl⟩ : ∃ m, fuel = m + 1 := ⟨fuel - 1, by omega⟩
    have hst0 : (ring2 cap act fuelI last).step 0 (st 0) b = ({ st 0 with rd := r', run := run }, some [b']) := by
      simp only [ring2, if_true, readerStep, hrun, hrd, e]
      simp
    have hst1 : (ring2 cap act fuelI last).step 1 (st 1) b' = ({ st 1 with con := b'.used.foldl h (st 1).con }, some [b2]) := by
      simp only [ring2]
      rw [if_neg (by decide)]
      simp only [consumerStep, e2]
    obtain ⟨stn, n0, n1, hrs'⟩ := Pipeline.runSeq2 (fuel := fuel) (ms := bs) hst0 hst1
    rw [hrs']
    rcases h7 with ⟨rfl, rfl, rfl⟩ | ⟨rfl, n', hn', hlt, hR'⟩
    · obtain ⟨fuel, rfl⟩ : ∃ m, fuel = m + 1 := ⟨fuel - 1, by omega⟩
      rw [Pipeline.runSeq_end (by simp) (by
        intro m _
        simp only [ring2, if_true, readerStep, n0]
        simp)]
      refine ⟨stn, ss1, rfl, by rw [h3]; simpa using h4, by rw [n0], by rw [n0], by rw [n1], by rw [n1, h5]⟩
    · have hlt' := hlt (hb.notFull hp hL)
      obtain ⟨st', ss2, r1, r2, r3, r4, r5, r6⟩ := ih n' hlt' r' fs2 rF stn (bs ++ [b2]) fuel hR'
        (fun f hf => hg f (by rw [h3]; exact List.mem_append_right _ hf)) (by simp) (by
          intro x hx
          rcases List.mem_append.1 hx with hx | hx
          · exact hidle x (List.mem_cons_of_mem _ hx)
          · rw [List.mem_singleton.1 hx]; exact hi2) (by rw [n0]) (by rw [n0]) (by omega) (by omega)
      refine ⟨st', ss1 ++ ss2, r1, by rw [h3]; exact h4.append r2, r3, by rw [r4, n0], by rw [r5, n1], ?_⟩
      rw [r6, n1, List.foldl_append, h5]

/-- The rounds of three threads. -/
theorem ring3_rounds {c : LotCfg} (hp : c.Pos) {L cap fuelI : Nat} (hL : 0 < L) {act : R → Act R} {Good : Slot → Prop}
    {mid last : C → Buffer → Option (C × Buffer)} {hm h : C → Slot → C} (hmid : Folds c L Good mid hm false)
    (hl : Folds c L Good last h true) :
    ∀ (n : Nat) (r : R) (fs : List (Slot → Slot)) (rF : R) (st : Fin 3 → St R C) (bufs : List Buffer) (fuel : Nat),
      Runs c act n r fs rF → (∀ f ∈ fs, ∀ s : Slot, s.Fresh c → Good (f s)) → bufs ≠ [] → (∀ b ∈ bufs, Idle c L b) →
      (st 0).rd = r → (st 0).run = true → n < fuelI → n + 2 ≤ fuel →
      ∃ st' ss, (ring3 cap act fuelI mid last).runSeq fuel st bufs = some st' ∧ Kept c fs ss ∧
        (st' 0).rd = rF ∧ (st' 0).panicked = (st 0).panicked ∧ (st' 1).panicked = (st 1).panicked ∧
        (st' 2).panicked = (st 2).panicked ∧
        (st' 1).con = ss.foldl hm (st 1).con ∧ (st' 2).con = ss.foldl h (st 2).con := by
  intro n
  induction n using Nat.strong_induction_on with
  | _ n ih =>
    intro r fs rF st bufs fuel hR hg hne hidle hrd hrun hfi hfuel
    obtain ⟨b, bs, rfl⟩ : ∃ b bs, bufs = b :: bs := by
      cases bufs with
      | nil => exact absurd rfl hne
      | cons b bs => exact ⟨b, bs, rfl⟩
    have hb := hidle b List.mem_cons_self
    obtain ⟨r', run, b', fs1, fs2, ss1, e, h1, h2, h3, h4, h5, h6, h7⟩ := fillLoop_spec hp n r fs rF b fuelI hR hb.ok hfi
    rw [hb.empty, List.nil_append] at h5
    have hg1 : ∀ s ∈ ss1, Good s := good_of_kept (fun f hf => hg f (by rw [h3]; exact List.mem_append_left _ hf)) h4
    obtain ⟨b1, e1, hi1⟩ := hmid.spec (st 1).con b' h1 (by rw [h2, hb.lots]) (by rw [h5]; exact h6) (by rw [h5]; exact hg1)
    simp only [Bool.false_eq_true, if_false] at hi1
    subst hi1
    obtain ⟨b2, e2, hi2⟩ := hl.spec (st 2).con b1 h1 (by rw [h2, hb.lots]) (by rw [h5]; exact h6) (by rw [h5]; exact hg1)
    simp only [if_true] at hi2
    obtain ⟨fuel, rfl⟩ : ∃ m, fuel = m + 1 := ⟨fuel - 1, by omega⟩
    have hst0 : (ring3 cap act fuelI mid last).step 0 (st 0) b = ({ st 0 with rd := r', run := run }, some [b1]) := by
      simp only [ring3, if_true, readerStep, hrun, hrd, e]
      simp
    have hst1 : (ring3 cap act fuelI mid last).step 1 (st 1) b1 = ({ st 1 with con := b1.used.foldl hm (st 1).con }, some [b1]) := by
      simp only [ring3]
      rw [if_neg (by decide), if_pos trivial]
      simp only [consumerStep, e1]
    have hst2 : (ring3 cap act fuelI mid last).step 2 (st 2) b1 = ({ st 2 with con := b1.used.foldl h (st 2).con }, some [b2]) := by
      simp only [ring3]
      rw [if_neg (by decide), if_neg (by decide)]
      simp only [consumerStep, e2]
    obtain ⟨stn, n0, n1, n2, hrs'⟩ := Pipeline.runSeq3 (fuel := fuel) (ms := bs) hst0 hst1 hst2
    rw [hrs']
    rcases h7 with ⟨rfl, rfl, rfl⟩ | ⟨rfl, n', hn', hlt, hR'⟩
    · obtain ⟨fuel, rfl⟩ : ∃ m, fuel = m + 1 := ⟨fuel - 1, by omega⟩
      rw [Pipeline.runSeq_end (by simp) (by
        intro m _
        simp only [ring3, if_true, readerStep, n0]
        simp)]
      refine ⟨stn, ss1, rfl, by rw [h3]; simpa using h4, by rw [n0], by rw [n0], by rw [n1], by rw [n2], by rw [n1, h5],
        by rw [n2, h5]⟩
    · have hlt' := hlt (hb.notFull hp hL)
      obtain ⟨st', ss2, r1, r2, r3, r4, r5, r6, r7, r8⟩ := ih n' hlt' r' fs2 rF stn (bs ++ [b2]) fuel hR'
        (fun f hf => hg f (by rw [h3]; exact List.mem_append_right _ hf)) (by simp) (by
          intro x hx
          rcases List.mem_append.1 hx with hx | hx
          · exact hidle x (List.mem_cons_of_mem _ hx)
          · rw [List.mem_singleton.1 hx]; exact hi2) (by rw [n0]) (by rw [n0]) (by omega) (by omega)
      refine ⟨st', ss1 ++ ss2, r1, by rw [h3]; exact h4.append r2, r3, by rw [r4, n0], by rw [r5, n1], by rw [r6, n2], ?_, ?_⟩
      · rw [r7, n1, List.foldl_append, h5]
      · rw [r8, n2, List.foldl_append, h5]

theorem run2_spec {c : LotCfg} (hp : c.Pos) {L cap N n fuel : Nat} (hL : 0 < L) (hN : 0 < N) {act : R → Act R} {Good : Slot → Prop}
    {last : C → Buffer → Option (C × Buffer)} {h : C → Slot → C} (hl : Folds c L Good last h true) {r rF : R}
    {fs : List (Slot → Slot)} (hr : Runs c act n r fs rF) (hg : ∀ f ∈ fs, ∀ s : Slot, s.Fresh c → Good (f s)) (hn : n < fuel) (x : C) :
    ∃ ss, Kept c fs ss ∧ run2 cap act fuel last r x (Buffer.newMulti c L N) = some (rF, ss.foldl h x) := by
  obtain ⟨st', ss, e, hk, h1, h2, h3, h4⟩ := ring2_rounds (cap := cap) hp hL hl n r fs rF (fun _ => ⟨r, true, x, false⟩)
    (Buffer.newMulti c L N) (fuel + 1) hr hg (by
      intro h'; have := congrArg List.length h'; simp [Buffer.newMulti] at this; omega) (newMulti_idle hp L N) rfl rfl hn (by omega)
  refine ⟨ss, hk, ?_⟩
  unfold run2
  rw [e]
  simp only [h1, h2, h3, h4]
  simp

theorem run3_spec {c : LotCfg} (hp : c.Pos) {L cap N n fuel : Nat} (hL : 0 < L) (hN : 0 < N) {act : R → Act R} {Good : Slot → Prop}
    {mid last : C → Buffer → Option (C × Buffer)} {hm h : C → Slot → C} (hmid : Folds c L Good mid hm false)
    (hl : Folds c L Good last h true) {r rF : R}
    {fs : List (Slot → Slot)} (hr : Runs c act n r fs rF) (hg : ∀ f ∈ fs, ∀ s : Slot, s.Fresh c → Good (f s)) (hn : n < fuel) (x : C) :
    ∃ ss, Kept c fs ss ∧
      run3 cap act fuel mid last r x (Buffer.newMulti c L N) = some (rF, ss.foldl hm x, ss.foldl h x) := by
  obtain ⟨st', ss, e, hk, h1, h2, h3, h4, h5, h6⟩ := ring3_rounds (cap := cap) hp hL hmid hl n r fs rF (fun _ => ⟨r, true, x, false⟩)
    (Buffer.newMulti c L N) (fuel + 1) hr hg (by
      intro h'; have := congrArg List.length h'; simp [Buffer.newMulti] at this; omega) (newMulti_idle hp L N) rfl rfl hn (by omega)
  refine ⟨ss, hk, ?_⟩
  unfold run3
  rw [e]
  simp only [h1, h2, h3, h4, h5, h6]
  simp

/-! ### The threads that go through the buffers -/

/-- A slot with its write position. -/
def placed (c : LotCfg) (s : Slot) : Slot := { s with writePos := Lot.slotWritePos c s.block.header.seq.toNat }

theorem OK_lots {c : LotCfg} {b : Buffer} (h : b.OK c) : ∀ l ∈ b.lots, l.WF c := by
  obtain ⟨pre, post, hl, hn, hpre, hpost⟩ := h
  intro l hm
  rw [hl, List.mem_append] at hm
  rcases hm with hm | hm
  · exact (hpre l hm).1
  · rcases hpost with rfl | ⟨l', rest, rfl, hw, -, hr⟩
    · simp at hm
    · rcases List.mem_cons.1 hm with rfl | hm
      · exact hw
      · exact (hr l hm).1

theorem OK_post {c : LotCfg} {b : Buffer} (h : b.OK c) (hd : ∀ s ∈ b.used, s.data.length = c.version.blockSize) :
    ∀ l ∈ b.lots, l.Post c := by
  intro l hl
  have hw := OK_lots h l hl
  refine ⟨hw.cfg, hw.len, ?_⟩
  intro s hs
  rw [← List.take_append_drop l.slotsUsed l.slots, List.mem_append] at hs
  rcases hs with hs | hs
  · exact hd s (by unfold Buffer.used; rw [List.mem_flatMap]; exact ⟨l, hl, hs⟩)
  · exact (hw.unused s hs).len

theorem calc_reset_idle {c : LotCfg} (hp : c.Pos) {b : Buffer} (h : b.OK c) (hd : ∀ s ∈ b.used, s.data.length = c.version.blockSize) :
    Idle c b.lots.length b.calcSlotWritePos.reset := by
  obtain ⟨r1, r2, r3, -, -⟩ := Buffer.reset_OK hp (b := b.calcSlotWritePos) (by
    intro l hl
    simp only [Buffer.calcSlotWritePos, List.mem_map] at hl
    obtain ⟨x, hx, rfl⟩ := hl
    exact Lot.calc_post (OK_post h hd x hx))
  exact ⟨r1, r2, by rw [r3]; simp [Buffer.calcSlotWritePos]⟩

theorem fileWriter_folds {c : LotCfg} (hp : c.Pos) (L : Nat) :
    Folds c L (fun _ => True) fileWriter (fun d s => Lot.writeSlot c d (placed c s)) true := by
  constructor
  intro x b hok hL hd _
  refine ⟨b.calcSlotWritePos.reset, ?_, ?_⟩
  · unfold fileWriter Buffer.write Buffer.calcSlotWritePos
    simp only [Option.some.injEq, Prod.mk.injEq, and_true]
    have key : ∀ (lots : List Lot) (f : Disk), (∀ l ∈ lots, l.cfg = c) →
        (lots.map Lot.calcSlotWritePos).foldl (fun f l => l.write f) f =
          (lots.flatMap Lot.used).foldl (fun d s => Lot.writeSlot c d (placed c s)) f := by
      intro lots
      induction lots with
      | nil => intro f _; rfl
      | cons l ls ih =>
        intro f hc
        rw [List.map_cons, List.foldl_cons, ih _ (fun x hx => hc x (List.mem_cons_of_mem _ hx)), List.flatMap_cons, List.foldl_append]
        congr 1
        unfold Lot.write
        rw [Encode.calc_used, List.foldl_map]
        have hl := hc l List.mem_cons_self
        have h2 : l.calcSlotWritePos.cfg = c := hl
        rw [h2, hl]
        rfl
    exact key b.lots x fun l hl => (OK_lots hok l hl).cfg
  · simp only [if_true]
    have := calc_reset_idle hp hok hd
    rwa [hL] at this

theorem foldl_append_flatMap {α : Type} (g : α → List Byte) (xs : List α) (out : List Byte) :
    xs.foldl (fun o x => o ++ g x) out = out ++ xs.flatMap g := by
  induction xs generalizing out with
  | nil => simp
  | cons x xs ih => rw [List.foldl_cons, ih, List.flatMap_cons, List.append_assoc]

theorem stdoutWriter_folds {c : LotCfg} (hp : c.Pos) (L : Nat) :
    Folds c L (fun _ => True) stdoutWriter (fun out s => out ++ Lot.emitSlot c (placed c s)) true := by
  constructor
  intro x b hok hL hd _
  refine ⟨b.calcSlotWritePos.reset, ?_, ?_⟩
  · unfold stdoutWriter Buffer.emit Buffer.calcSlotWritePos
    simp only [Option.some.injEq, Prod.mk.injEq, and_true]
    rw [foldl_append_flatMap]
    congr 1
    have key : ∀ (lots : List Lot), (∀ l ∈ lots, l.cfg = c) →
        (lots.map Lot.calcSlotWritePos).flatMap Lot.emit =
          (lots.flatMap Lot.used).flatMap fun s => Lot.emitSlot c (placed c s) := by
      intro lots
      induction lots with
      | nil => intro _; rfl
      | cons l ls ih =>
        intro hc
        rw [List.map_cons, List.flatMap_cons, ih (fun x hx => hc x (List.mem_cons_of_mem _ hx)), List.flatMap_cons, List.flatMap_append]
        congr 1
        unfold Lot.emit
        rw [Encode.calc_used, List.flatMap_map]
        have hl := hc l List.mem_cons_self
        have h2 : l.calcSlotWritePos.cfg = c := hl
        rw [h2, hl]
        rfl
    exact key b.lots fun l hl => (OK_lots hok l hl).cfg
  · simp only [if_true]
    have := calc_reset_idle hp hok hd
    rwa [hL] at this

/-- The bytes a slot contributes to a hash (when there is no panic). -/
def hashed (c : LotCfg) (s : Slot) : List Byte := (Lot.hashPart c s).getD []

theorem hashPart_spec {c : LotCfg} {b : Buffer} (hok : b.OK c) (hg : ∀ s ∈ b.used, Lot.hashPart c s ≠ none) :
    b.hashPart = some (b.used.flatMap (hashed c)) := by
  unfold Buffer.hashPart
  have key : ∀ (lots : List Lot), (∀ l ∈ lots, l.cfg = c) →
      lots.flatMap (fun l => l.used.map (Lot.hashPart l.cfg)) = (lots.flatMap Lot.used).map (Lot.hashPart c) := by
    intro lots
    induction lots with
    | nil => intro _; rfl
    | cons l ls ih =>
      intro hc
      rw [List.flatMap_cons, ih (fun x hx => hc x (List.mem_cons_of_mem _ hx)), List.flatMap_cons, List.map_append,
        hc l List.mem_cons_self]
  rw [key b.lots fun l hl => (OK_lots hok l hl).cfg]
  change ((b.used).map (Lot.hashPart c)).foldr _ (some []) = _
  revert hg
  generalize b.used = us
  intro hg
  induction us with
  | nil => rfl
  | cons s us ih =>
    rw [List.map_cons, List.foldr_cons, ih (fun x hx => hg x (List.mem_cons_of_mem _ hx)), List.flatMap_cons]
    have := hg s List.mem_cons_self
    unfold hashed
    cases h : Lot.hashPart c s with
    | none => exact absurd h this
    | some x => rfl

theorem hasher_folds (c : LotCfg) (L : Nat) :
    Folds c L (fun s => Lot.hashPart c s ≠ none) hasher (fun out s => out ++ hashed c s) false := by
  constructor
  intro x b hok hL hd hg
  refine ⟨b, ?_, by simp⟩
  unfold hasher
  rw [hashPart_spec hok hg, foldl_append_flatMap]
  rfl

theorem hasherReset_folds {c : LotCfg} (hp : c.Pos) (L : Nat) :
    Folds c L (fun s => Lot.hashPart c s ≠ none) hasherReset (fun out s => out ++ hashed c s) true := by
  constructor
  intro x b hok hL hd hg
  refine ⟨b.reset, ?_, ?_⟩
  · unfold hasherReset
    rw [hashPart_spec hok hg, foldl_append_flatMap]
    rfl
  · simp only [if_true]
    obtain ⟨r1, r2, r3, -, -⟩ := Buffer.reset_OK hp (OK_post hok hd)
    exact ⟨r1, r2, by rw [r3, hL]⟩

theorem Folds.weaken {c : LotCfg} {L : Nat} {G G' : Slot → Prop} {f : C → Buffer → Option (C × Buffer)} {h : C → Slot → C} {i : Bool}
    (hf : Folds c L G f h i) (hg : ∀ s, G' s → G s) : Folds c L G' f h i :=
  ⟨fun x b h1 h2 h3 h4 => hf.spec x b h1 h2 h3 fun s hs => hg s (h4 s hs)⟩

end Verif.BlockRing
