import Verif.Lemmas.ProgressEnd
/-!
# Lemmas: differences, `pause` and `resume`
-/

namespace Verif.Progress

/-! ### The differences add up -/

/-- The number shown last. -/
def lastOf : Nat → List Event → Nat
  | l, [] => l
  | _, .line n _ _ :: es => lastOf n es
  | _, .finish n :: es => lastOf n es
  | _, .object n _ :: es => lastOf n es
  | l, .header :: es => lastOf l es
  | l, .erase :: es => lastOf l es

theorem addsUp_append : ∀ (a b : List Event) (l : Nat), AddsUp l (a ++ b) ↔ AddsUp l a ∧ AddsUp (lastOf l a) b
  | [], b, l => by simp [AddsUp, lastOf]
  | e :: a, b, l => by
    cases e <;> simp only [List.cons_append, AddsUp, lastOf, addsUp_append a b, and_assoc]

theorem lastOf_append : ∀ (a b : List Event) (l : Nat), lastOf l (a ++ b) = lastOf (lastOf l a) b
  | [], b, l => rfl
  | e :: a, b, l => by cases e <;> simp only [List.cons_append, lastOf, lastOf_append a b]

structure Inv3 (s : St) : Prop where
  adds : AddsUp 0 s.out
  last : lastOf 0 s.out = s.ctx.last

theorem inv3_step {c : Cfg} {T : Nat} {s s' : St} {t : Tid} (hT : 100 * T < 2 ^ 64) (h : Inv3 s) (h2 : Inv2 c T s)
    (hs : step c s t = some s') : Inv3 s' := by
  obtain ⟨ha, hl⟩ := h
  by_cases h1 : t = .main ∧ s.mpc = .pa4
  · obtain ⟨rfl, hm⟩ := h1
    simp only [step, stepMain, hm] at hs
    cases hs
    exact ⟨(addsUp_append ..).2 ⟨ha, by simp [AddsUp]⟩, by simp only [lastOf_append]; exact hl⟩
  · by_cases hb : t = .runner ∧ ∃ w, s.rpc = .p w .emit
    · obtain ⟨rfl, w, hr⟩ := hb
      have hu : 100 * s.units < 2 ^ 64 := by have := h2.cons; omega
      have hf' : s.ctx.finish = false := by
        cases e : s.ctx.finish with
        | false => rfl
        | true => have := (h2.fin.1 e).1; rw [hr] at this; cases w <;> cases this
      have hlast := h2.last
      simp only [step, stepRunner, hr, printProgress_eq h2.last hu hf'] at hs
      split at hs
      · rename_i he
        split at he <;> cases he
      · rename_i x es he
        split at he
        · cases he
          cases hs
          constructor
          · simp only [addsUp_append, hl]
            refine ⟨ha, ?_⟩
            cases c.json <;> cases s.ctx.header <;> cases (w == Where.final) <;> simp [AddsUp] <;> omega
          · simp only [lastOf_append, hl]
            cases c.json <;> cases s.ctx.header <;> cases (w == Where.final) <;> simp [lastOf]
        · cases he
          cases hs
          exact ⟨by simpa using ha, by simpa using hl⟩
    · obtain ⟨e1, e2, _⟩ := quiet hs h1 hb
      exact ⟨by rw [e1]; exact ha, by rw [e1, e2]; exact hl⟩

theorem inv3_run {c : Cfg} {prog : List Call} {pl : List (List Nat)} {u : Nat} (h : Legal false prog)
    (hT : 100 * (u + amountOf prog pl) < 2 ^ 64) (ts : List Tid) : Inv3 (run c (init prog pl u) ts) :=
  (run_keeps (c := c) (P := fun s => (Inv s ∧ Inv1 c s ∧ Inv2 c (u + amountOf prog pl) s) ∧ Inv3 s)
    (fun _ _ _ h hs => ⟨⟨inv_step h.1.1 hs, inv1_step h.1.2.1 hs, inv2_step hT h.1.2.2 h.1.1 h.1.2.1 hs⟩,
      inv3_step hT h.2 h.1.2.2 hs⟩) ts _
    ⟨⟨inv_init h pl u, inv1_init prog pl u, inv2_init prog pl u⟩, ⟨by simp [init, AddsUp], by simp [init, lastOf]⟩⟩).2

/-! ### Which calls have been made -/

theorem pausedAfter_snoc (pre : List Call) (x : Call) :
    pausedAfter (pre ++ [x]) = match x with | .pause => true | .resume => false | _ => pausedAfter pre := by
  simp only [pausedAfter, List.foldl_append, List.foldl_cons, List.foldl_nil]
  cases x <;> rfl

structure Called (prog : List Call) (s : St) (pre : List Call) : Prop where
  eq : prog ++ [.stop, .logStop] = pre ++ s.todo
  on : pausedAfter pre = false → s.active = true
  off : prog.head? = some .start → pausedAfter pre = true → s.down = true ∨ s.mpc.stopping = true ∨ s.active = false
  begun : prog.head? = some .start → pre ≠ [] → s.started = true

theorem others_active {c : Cfg} {s s' : St} {t : Tid} (ht : t ≠ .main) (hs : step c s t = some s') :
    s'.active = s.active := by
  cases t with
  | main => exact absurd rfl ht
  | runner =>
    simp only [step, stepRunner] at hs
    (repeat' split at hs) <;> first
      | contradiction
      | (cases hs; rfl)
  | logger =>
    simp only [step, stepLogger] at hs
    (repeat' split at hs) <;> first
      | contradiction
      | (cases hs; rfl)
  | worker i =>
    simp only [step, stepWorker] at hs
    (repeat' split at hs) <;> first
      | contradiction
      | (cases hs; rfl)

theorem main_active {c : Cfg} {s s' : St} (hm : s.mpc ≠ .idle) (hs : stepMain c s = some s') :
    s'.active = s.active := by
  simp only [stepMain] at hs
  split at hs
  · rename_i e; exact absurd e hm
  all_goals
    (repeat' split at hs) <;> first
      | contradiction
      | (cases hs; rfl)

theorem called_step {c : Cfg} {prog : List Call} {s s' : St} {t : Tid} (h : ∃ pre, Called prog s pre)
    (hs : step c s t = some s') : ∃ pre, Called prog s' pre := by
  obtain ⟨pre, h⟩ := h
  by_cases ht : t = .main
  · subst ht
    rcases main_todo (c := c) hs with ⟨hm, e1, e2, _, e3, _, e5⟩ | ⟨hm, x, k, e1, e2, e3, e4, e5, e6, e7, e8, _⟩
    · have ea := main_active hm hs
      refine ⟨pre, by rw [e1]; exact h.eq, by rw [ea]; exact h.on, ?_, by rw [e2]; exact h.begun⟩
      intro hp hq
      rcases h.off hp hq with hd | hd | hd
      · left
        rcases e3 with e3 | e3
        · rw [e3]; exact hd
        · exact e3.2
      · rcases e5 hd with e | e
        · exact Or.inr (Or.inl e)
        · exact Or.inl e
      · right; right; rw [ea]; exact hd
    · have heq := h.eq
      rw [e1] at heq
      refine ⟨pre ++ [x], ⟨by rw [heq, e2]; simp, ?_, ?_, ?_⟩⟩
      · rw [pausedAfter_snoc]
        simp only [step, stepMain, hm, e1] at hs
        have := h.on
        cases x <;> simp only [beginCall] at hs <;> (repeat' split at hs) <;> first
          | contradiction
          | (cases hs; intro e; first | rfl | cases e | exact this e)
      · intro hp
        rw [pausedAfter_snoc]
        have hst : pre ≠ [] → s.started = true := h.begun hp
        have hpre : pre = [] → x = .start := by
          intro e
          rw [e, List.nil_append] at heq
          cases prog with
          | nil => cases hp
          | cons y p =>
            simp only [List.head?_cons, Option.some.injEq] at hp
            simp only [List.cons_append, List.cons.injEq] at heq
            rw [← heq.1, hp]
        have hoff := h.off hp
        rw [hm] at hoff
        simp only [MPc.stopping, Bool.false_eq_true, false_or] at hoff
        simp only [step, stepMain, hm, e1] at hs
        cases x with
        | pause =>
          intro _
          have hst := hst (fun e => by have := hpre e; cases this)
          simp only [beginCall, hst, Bool.true_and] at hs
          cases hd : s.down with
          | true => left; rw [e4]; exact hd
          | false =>
            right; right
            simp only [hd, Bool.not_false, if_true] at hs
            split at hs
            · cases hs; rfl
            · rename_i hna; cases hs; simpa using hna
        | resume => intro e; cases e
        | stop =>
          intro hq
          rcases hoff hq with hd | hd
          · left; rw [e4]; exact hd
          · simp only [beginCall] at hs
            split at hs
            · cases hs; exact Or.inr (Or.inl rfl)
            · cases hs; exact Or.inr (Or.inr hd)
        | _ =>
          intro hq
          rcases hoff hq with hd | hd
          · left; rw [e4]; exact hd
          · right; right
            simp only [beginCall] at hs
            (repeat' split at hs) <;> first
              | contradiction
              | (cases hs; exact hd)
      · intro hp _
        by_cases e : pre = []
        · rw [e, List.nil_append] at heq
          cases prog with
          | nil => cases hp
          | cons y p =>
            simp only [List.head?_cons, Option.some.injEq] at hp
            simp only [List.cons_append, List.cons.injEq] at heq
            exact e6 (by rw [← heq.1, hp])
        · by_cases ex : x = .start
          · exact e6 ex
          · rw [e5 ex]; exact h.begun hp e
  · obtain ⟨e1, e2, e3, e4, _⟩ := others ht hs
    have ea := others_active ht hs
    refine ⟨pre, by rw [e1]; exact h.eq, by rw [ea]; exact h.on, ?_, by rw [e2]; exact h.begun⟩
    intro hp hq
    rcases h.off hp hq with hd | hd | hd
    · left; rw [e3]; exact hd
    · right; left; rw [e4 hd]; exact hd
    · right; right; rw [ea]; exact hd

theorem called_run {c : Cfg} (prog : List Call) (pl : List (List Nat)) (u : Nat) (ts : List Tid) :
    ∃ pre, Called prog (run c (init prog pl u) ts) pre :=
  run_keeps (c := c) (P := fun s => ∃ pre, Called prog s pre) (fun _ _ _ h hs => called_step h hs) ts _
    ⟨[], by simp [init], fun _ => rfl, by simp [pausedAfter], fun _ e => absurd rfl e⟩

theorem called_unique {prog : List Call} {s : St} {pre pre' : List Call} (h : Called prog s pre)
    (h' : prog ++ [.stop, .logStop] = pre' ++ s.todo) : pre = pre' := by
  rw [h.eq] at h'
  exact List.append_cancel_right h'

/-! ### While reporting is suspended -/

/-- The reporting thread is about to print. -/
def RPc.about : RPc → Bool
  | .p _ .acqS | .p _ .acqC | .p _ .emit => true
  | _ => false

theorem header_known {c : Cfg} {T : Nat} {s : St} (h2 : Inv2 c T s) (hl : c.level = .L2) (hf : s.rpc.fresh = false)
    (hj : c.json = false) : s.ctx.header = true := by
  cases hh : s.ctx.header with
  | true => rfl
  | false => exact absurd ((h2.plain hj).1 hh) (h2.hdr hl hf)

theorem loop_emit {c : Cfg} {T : Nat} {s : St} (hT : 100 * T < 2 ^ 64) (h2 : Inv2 c T s) (hr : s.rpc = .p .loop .emit) :
    ∃ x es, stepRunner c s = some { s with ctx := x, out := s.out ++ es, rpc := .p .loop .relC } ∧ es.length ≤ 1
      ∧ (c.level = .L2 → es = [if c.json then .object s.units c.total
          else .line s.units (s.units - s.ctx.last) (c.total.map fun t => percentOf t s.units)]) := by
  have hu : 100 * s.units < 2 ^ 64 := by have := h2.cons; omega
  have hf : s.ctx.finish = false := by
    cases e : s.ctx.finish with
    | false => rfl
    | true => have := (h2.fin.1 e).1; rw [hr] at this; cases this
  by_cases hl : c.level = .L2
  · refine ⟨⟨s.ctx.header || !c.json, false, s.units⟩, [if c.json then .object s.units c.total
          else .line s.units (s.units - s.ctx.last) (c.total.map fun t => percentOf t s.units)], ?_, by simp, fun _ => rfl⟩
    simp only [stepRunner, hr, printProgress_eq h2.last hu hf, hl, Level.whileActive, Level.whenDone]
    cases hj : c.json with
    | true => rfl
    | false =>
      have hh := header_known h2 hl (by rw [hr]; rfl) hj
      simp [hh]
  · refine ⟨s.ctx, [], ?_, by simp, fun e => absurd e hl⟩
    simp only [stepRunner, hr, printProgress_eq h2.last hu hf]
    cases hl' : c.level with
    | L2 => exact absurd hl' hl
    | L0 => simp [Level.whileActive, Level.whenDone]
    | L1 => simp [Level.whileActive, Level.whenDone]

theorem suspended {c : Cfg} {T : Nat} (hT : 100 * T < 2 ^ 64) (out : List Event) : ∀ (more : List Tid) (s : St),
    .main ∉ more → (Inv s ∧ Inv1 c s ∧ Inv2 c T s) → s.mpc = .idle → s.started = true → s.down = false → s.active = false →
    (s.out = out ∨ s.rpc.about = false ∧ ∃ e, s.out = out ++ [e]) →
    ∃ es, (run c s more).out = out ++ es ∧ es.length ≤ 1
  | [], s, _, _, _, _, _, _, ho => by
    rcases ho with ho | ⟨_, e, ho⟩
    · exact ⟨[], by simpa [run] using ho, by simp⟩
    · exact ⟨[e], by simpa [run] using ho, by simp⟩
  | t :: more, s, hne, hI, hm, hst, hd, ha, ho => by
    simp only [List.mem_cons, not_or] at hne
    rw [run]
    split
    · rename_i s' hs
      have ht : t ≠ .main := fun e => hne.1 e.symm
      obtain ⟨_, e2, e3, _, _, _⟩ := others ht hs
      have ea := others_active ht hs
      have hI' : Inv s' ∧ Inv1 c s' ∧ Inv2 c T s' :=
        ⟨inv_step hI.1 hs, inv1_step hI.2.1 hs, inv2_step hT hI.2.2 hI.1 hI.2.1 hs⟩
      have hloop : s.rpc.inLoop = true := by
        have := hI.1.phase
        simpa [phaseOk, hm, hst, hd] using this
      have hm' : s'.mpc = .idle := by
        cases t with
        | main => exact absurd rfl ht
        | runner =>
          simp only [step, stepRunner] at hs
          have k1 : s.mpc.startReleased = none := by rw [hm]; rfl
          have k2 : s.mpc.downReleased = none := by rw [hm]; rfl
          rw [k1, k2] at hs
          (repeat' split at hs) <;> first
            | contradiction
            | (cases hs; exact hm)
        | logger =>
          simp only [step, stepLogger] at hs
          have k1 : s.mpc.logStartReleased = none := by rw [hm]; rfl
          have k2 : s.mpc.logDownReleased = none := by rw [hm]; rfl
          rw [k1, k2] at hs
          (repeat' split at hs) <;> first
            | contradiction
            | (cases hs; exact hm)
        | worker i =>
          simp only [step, stepWorker] at hs
          (repeat' split at hs) <;> first
            | contradiction
            | (cases hs; exact hm)
      refine suspended hT out more s' hne.2 hI' hm' (by rw [e2]; exact hst) (by rw [e3]; exact hd) (by rw [ea]; exact ha) ?_
      by_cases hr : t = .runner
      · subst hr
        by_cases hemit : ∃ w, s.rpc = .p w .emit
        · obtain ⟨w, hw⟩ := hemit
          have hw' : w = .loop := by rw [hw] at hloop; cases w <;> simp [RPc.inLoop] at hloop ⊢
          subst hw'
          obtain ⟨x, es, hx, hlen, _⟩ := loop_emit hT hI.2.2 hw
          have : s' = { s with ctx := x, out := s.out ++ es, rpc := .p .loop .relC } := by
            have h := hs; simp only [step] at h; rw [hx] at h; cases h; rfl
          subst this
          rcases ho with ho | ⟨ho, _⟩
          · match es, hlen with
            | [], _ => left; simpa using ho
            | [e], _ => right; exact ⟨rfl, e, by simp only [ho]⟩
          · rw [hw] at ho; cases ho
        · have hq := quiet hs (by rintro ⟨e, _⟩; cases e) (by rintro ⟨_, e⟩; exact hemit e)
          rcases ho with ho | ⟨ho, e, ho'⟩
          · left; rw [hq.1]; exact ho
          · right
            refine ⟨?_, e, by rw [hq.1]; exact ho'⟩
            simp only [step] at hs
            cases hrr : s.rpc with
            | p w k =>
              rw [hrr] at ho hloop
              cases k <;> simp only [RPc.about] at ho <;> first | (cases ho; done) | skip
              · simp only [stepRunner, hrr] at hs; cases hs; rfl
              · simp only [stepRunner, hrr] at hs; cases hs
                cases w <;> simp [RPc.inLoop] at hloop
                rfl
            | chk => simp only [stepRunner, hrr, hd] at hs; cases hs; rfl
            | slp => simp only [stepRunner, hrr] at hs; cases hs; rfl
            | act => simp only [stepRunner, hrr, ha] at hs; cases hs; rfl
            | _ => rw [hrr] at hloop; cases hloop
      · have hq := quiet hs (fun e => ht e.1) (fun e => hr e.1)
        have hrpc : s'.rpc = s.rpc := by
          cases t with
          | main => exact absurd rfl ht
          | runner => exact absurd rfl hr
          | logger =>
            simp only [step, stepLogger] at hs
            (repeat' split at hs) <;> first
              | contradiction
              | (cases hs; rfl)
          | worker i =>
            simp only [step, stepWorker] at hs
            (repeat' split at hs) <;> first
              | contradiction
              | (cases hs; rfl)
        rw [hq.1, hrpc]; exact ho
    · exact suspended hT out more s hne.2 hI hm hst hd ha ho

/-! ### While it is not -/

theorem run_one {c : Cfg} {s s' : St} {t : Tid} (h : step c s t = some s') (ts : List Tid) : run c s (t :: ts) = run c s' ts := by
  rw [run, h]

theorem prints_from {c : Cfg} {T : Nat} {s : St} (hT : 100 * T < 2 ^ 64) (hI : Inv s ∧ Inv1 c s ∧ Inv2 c T s)
    (hr : s.rpc = .p .loop .acqS) (hm : s.mpc = .idle) (hso : s.sOwner = none) (hl : c.level = .L2) :
    (run c s (List.replicate 3 .runner)).out = s.out ++ [if c.json then .object s.units c.total
          else .line s.units (s.units - s.ctx.last) (c.total.map fun t => percentOf t s.units)] := by
  have hc : s.cOwner = none := by
    cases hc : s.cOwner with
    | none => rfl
    | some t =>
      cases t with
      | main => have := hI.1.cMain.1 hc; rw [hm] at this; cases this
      | runner => have := hI.1.cRun.1 hc; rw [hr] at this; cases this
      | logger => exact absurd hc hI.1.cOth.1
      | worker i => exact absurd hc (hI.1.cOth.2 i)
  have s1 : step c s .runner = some { s with sOwner := some .runner, rpc := .p .loop .acqC } := by
    simp [step, stepRunner, hr, hso]
  have s2 : step c { s with sOwner := some .runner, rpc := .p .loop .acqC } .runner
      = some { s with sOwner := some .runner, cOwner := some .runner, rpc := .p .loop .emit } := by
    simp [step, stepRunner, hc]
  have hq1 := quiet s1 (by rintro ⟨e, _⟩; cases e) (by rintro ⟨_, w, e⟩; rw [hr] at e; cases e)
  have hq2 := quiet s2 (by rintro ⟨e, _⟩; cases e) (by rintro ⟨_, w, e⟩; cases e)
  have h2 := inv2_quiet (inv2_quiet hI.2.2 (cons_step s1) hq1) (cons_step s2) hq2
  obtain ⟨x, es, hx, _, hes⟩ := loop_emit hT h2 rfl
  have hes := hes hl
  have hx : step c { s with sOwner := some .runner, cOwner := some .runner, rpc := .p .loop .emit } .runner = some _ := hx
  rw [show List.replicate 3 Tid.runner = [.runner, .runner, .runner] from rfl, run_one s1, run_one s2,
    run_one hx, run, hes]

theorem prints {c : Cfg} {T : Nat} {s : St} (hT : 100 * T < 2 ^ 64) (hI : Inv s ∧ Inv1 c s ∧ Inv2 c T s)
    (hm : s.mpc = .idle) (hst : s.started = true) (hd : s.down = false) (ha : s.active = true) (hso : s.sOwner = none)
    (hl : c.level = .L2) :
    ∃ k, (run c s (List.replicate k .runner)).out = s.out ++ [if c.json then .object s.units c.total
          else .line s.units (s.units - s.ctx.last) (c.total.map fun t => percentOf t s.units)] := by
  have hloop : s.rpc.inLoop = true := by
    have := hI.1.phase
    simpa [phaseOk, hm, hst, hd] using this
  have keep : ∀ {s s' : St}, (Inv s ∧ Inv1 c s ∧ Inv2 c T s) → step c s .runner = some s' →
      (Inv s' ∧ Inv1 c s' ∧ Inv2 c T s') :=
    fun hI hs => ⟨inv_step hI.1 hs, inv1_step hI.2.1 hs, inv2_step hT hI.2.2 hI.1 hI.2.1 hs⟩
  have fromAct : ∀ s : St, (Inv s ∧ Inv1 c s ∧ Inv2 c T s) → s.rpc = .act → s.mpc = .idle → s.active = true → s.sOwner = none →
      (run c s (List.replicate 4 .runner)).out = s.out ++ [if c.json then .object s.units c.total
          else .line s.units (s.units - s.ctx.last) (c.total.map fun t => percentOf t s.units)] := by
    intro s hI hr hm ha hso
    have s1 : step c s .runner = some { s with rpc := .p .loop .acqS } := by simp [step, stepRunner, hr, ha]
    rw [show List.replicate 4 Tid.runner = .runner :: List.replicate 3 .runner from rfl, run_one s1]
    exact prints_from hT (keep hI s1) rfl hm hso hl
  have fromSlp : ∀ s : St, (Inv s ∧ Inv1 c s ∧ Inv2 c T s) → s.rpc = .slp → s.mpc = .idle → s.active = true → s.sOwner = none →
      (run c s (List.replicate 5 .runner)).out = s.out ++ [if c.json then .object s.units c.total
          else .line s.units (s.units - s.ctx.last) (c.total.map fun t => percentOf t s.units)] := by
    intro s hI hr hm ha hso
    have s1 : step c s .runner = some { s with rpc := .act } := by simp [step, stepRunner, hr]
    rw [show List.replicate 5 Tid.runner = .runner :: List.replicate 4 .runner from rfl, run_one s1]
    exact fromAct _ (keep hI s1) rfl hm ha hso
  cases hr : s.rpc with
  | p w k =>
    have hw : w = .loop := by rw [hr] at hloop; cases w <;> simp [RPc.inLoop] at hloop ⊢
    subst hw
    cases k with
    | acqS => exact ⟨3, prints_from hT hI hr hm hso hl⟩
    | _ => have := hI.1.sRun.2 (by rw [hr]; rfl); rw [hso] at this; cases this
  | chk =>
    have s1 : step c s .runner = some { s with rpc := .slp } := by simp [step, stepRunner, hr, hd]
    refine ⟨6, ?_⟩
    rw [show List.replicate 6 Tid.runner = .runner :: List.replicate 5 .runner from rfl, run_one s1]
    exact fromSlp _ (keep hI s1) rfl hm ha hso
  | slp => exact ⟨5, fromSlp s hI hr hm ha hso⟩
  | act => exact ⟨4, fromAct s hI hr hm ha hso⟩
  | _ => rw [hr] at hloop; cases hloop

end Verif.Progress
