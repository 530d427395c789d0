import Verif.Lemmas.ProgressOut
/-!
# Lemmas: how a command ends
-/

namespace Verif.Progress

def MPc.stopping : MPc → Bool
  | .sp1 | .sp2 | .sp3 => true
  | _ => false

/-- The other threads do not touch what the thread that runs the command has to do, nor the flags. -/
theorem others {c : Cfg} {s s' : St} {t : Tid} (ht : t ≠ .main) (hs : step c s t = some s') :
    s'.todo = s.todo ∧ s'.started = s.started ∧ s'.down = s.down ∧ (s.mpc.stopping = true → s'.mpc = s.mpc)
      ∧ (s'.mpc.stopping = true → s'.mpc = s.mpc)
      ∧ ((s.ws.all fun w => w.rounds.isEmpty) = true → (s'.ws.all fun w => w.rounds.isEmpty) = true) := by
  obtain ⟨mpc, todo, rpc, lpc, ws, so, co, started, down, active, ls, ld, units, ctx, out, log, crash⟩ := s
  cases t with
  | main => exact absurd rfl ht
  | runner =>
    simp only [step] at hs
    cases rpc
    case r0 =>
      simp only [stepRunner] at hs
      cases mpc <;> simp only [MPc.startReleased] at hs <;> cases hs <;> simp [MPc.stopping]
    case r1 =>
      simp only [stepRunner] at hs
      cases mpc <;> simp only [MPc.startReleased] at hs <;> cases hs <;> simp [MPc.stopping]
    case r2 =>
      simp only [stepRunner] at hs
      cases mpc <;> simp only [MPc.downReleased] at hs <;> cases hs <;> simp [MPc.stopping]
    case p w k =>
      cases k <;> simp only [stepRunner] at hs <;> (repeat' split at hs) <;> first
        | contradiction
        | (cases hs; simp)
    all_goals
      simp only [stepRunner] at hs
      (repeat' split at hs) <;> first
        | contradiction
        | (cases hs; simp; done)
  | logger =>
    simp only [step] at hs
    cases lpc
    case l0 =>
      simp only [stepLogger] at hs
      cases mpc <;> simp only [MPc.logStartReleased] at hs <;> cases hs <;> simp [MPc.stopping]
    case l1 =>
      simp only [stepLogger] at hs
      cases mpc <;> simp only [MPc.logDownReleased] at hs <;> cases hs <;> simp [MPc.stopping]
    all_goals
      simp only [stepLogger] at hs
      (repeat' split at hs) <;> first
        | contradiction
        | (cases hs; simp; done)
  | worker i =>
    simp only [step, stepWorker] at hs
    split at hs
    · cases hs
    · cases hs
    · rename_i d r hw
      cases hs
      refine ⟨rfl, rfl, rfl, fun _ => rfl, fun _ => rfl, fun ha => ?_⟩
      have := List.all_eq_true.1 ha _ (List.mem_of_getElem? hw)
      simp at this
    · rename_i d r hw
      split at hs
      · cases hs
        refine ⟨rfl, rfl, rfl, fun _ => rfl, fun _ => rfl, fun ha => ?_⟩
        have := List.all_eq_true.1 ha _ (List.mem_of_getElem? hw)
        simp at this
      · cases hs

/-- The thread that runs the command makes its calls in order. -/
theorem main_todo {c : Cfg} {s s' : St} (hs : stepMain c s = some s') :
    (s.mpc ≠ .idle ∧ s'.todo = s.todo ∧ s'.started = s.started ∧ s'.ws = s.ws
        ∧ (s'.down = s.down ∨ s.mpc = .sp3 ∧ s'.down = true)
        ∧ (s'.mpc.stopping = true → s.mpc.stopping = true)
        ∧ (s.mpc.stopping = true → s'.mpc.stopping = true ∨ s'.down = true))
    ∨ (s.mpc = .idle ∧ ∃ x k, s.todo = x :: k ∧ s'.todo = k ∧ s'.ws = s.ws ∧ s'.down = s.down
        ∧ (x ≠ .start → s'.started = s.started) ∧ (x = .start → s'.started = true)
        ∧ (x = .stop → s.started = true → s.down = true ∨ s'.mpc = .sp1)
        ∧ (x ≠ .stop → s'.mpc.stopping = false)
        ∧ (x = .join → (s.ws.all fun w => w.rounds.isEmpty) = true)) := by
  obtain ⟨mpc, todo, rpc, lpc, ws, so, co, started, down, active, ls, ld, units, ctx, out, log, crash⟩ := s
  cases mpc
  case idle =>
    right
    refine ⟨rfl, ?_⟩
    cases todo with
    | nil => simp [stepMain] at hs
    | cons x k =>
      refine ⟨x, k, rfl, ?_⟩
      cases x <;> simp only [stepMain, beginCall] at hs <;> (repeat' split at hs) <;> cases hs <;>
        simp_all [MPc.stopping]
  case st3 | st4 | sp4 =>
    left
    simp only [stepMain] at hs
    split at hs <;> cases hs <;> simp [MPc.stopping]
  case ls1 | lp2 =>
    left
    simp only [stepMain] at hs
    split at hs <;> cases hs <;> simp [MPc.stopping]
  all_goals
    left
    simp only [stepMain] at hs
    (repeat' split at hs) <;> first
      | contradiction
      | (cases hs; simp [MPc.stopping]; done)

/-- Once the handlers have been dropped, the reporter has been told to stop. -/
def Dropped (s : St) : Prop :=
  (∃ k, s.todo = k ++ [.stop, .logStop])
    ∨ ((s.todo = [.logStop] ∨ s.todo = []) ∧ (s.started = true → s.down = true ∨ s.mpc.stopping = true))

theorem dropped_step {c : Cfg} {s s' : St} {t : Tid} (h : Dropped s) (hs : step c s t = some s') : Dropped s' := by
  by_cases ht : t = .main
  · subst ht
    rcases main_todo (c := c) hs with ⟨_, e1, e2, _, e3, e4, e5⟩ | ⟨hm, x, k, e1, e2, _, e3, e4, _, e5, _⟩
    · rcases h with ⟨k, hk⟩ | ⟨hk, hd⟩
      · exact Or.inl ⟨k, by rw [e1]; exact hk⟩
      · refine Or.inr ⟨by rw [e1]; exact hk, ?_⟩
        rw [e2]
        intro hst
        rcases hd hst with hd | hd
        · rcases e3 with e3 | e3
          · left; rw [e3]; exact hd
          · left; exact e3.2
        · exact (e5 hd).symm
    · rcases h with ⟨q, hk⟩ | ⟨hk, hd⟩
      · cases q with
        | nil =>
          rw [List.nil_append, e1] at hk
          simp only [List.cons.injEq] at hk
          obtain ⟨rfl, rfl⟩ := hk
          refine Or.inr ⟨Or.inl e2, ?_⟩
          rw [e4 (by simp)]
          intro hst
          rcases e5 rfl hst with h1 | h1
          · left; rw [e3]; exact h1
          · right; rw [h1]; rfl
        | cons y q =>
          rw [List.cons_append, e1] at hk
          simp only [List.cons.injEq] at hk
          exact Or.inl ⟨q, by rw [e2]; exact hk.2⟩
      · rcases hk with hk | hk
        · rw [e1] at hk
          simp only [List.cons.injEq] at hk
          obtain ⟨rfl, rfl⟩ := hk
          refine Or.inr ⟨Or.inr e2, ?_⟩
          rw [e4 (by simp)]
          intro hst
          rcases hd hst with hd | hd
          · left; rw [e3]; exact hd
          · rw [hm] at hd; cases hd
        · rw [e1] at hk; cases hk
  · obtain ⟨e1, e2, e3, e4, _, _⟩ := others ht hs
    rcases h with ⟨k, hk⟩ | ⟨hk, hd⟩
    · exact Or.inl ⟨k, by rw [e1]; exact hk⟩
    · refine Or.inr ⟨by rw [e1]; exact hk, ?_⟩
      rw [e2, e3]
      intro hst
      rcases hd hst with hd | hd
      · exact Or.inl hd
      · right; rw [e4 hd]; exact hd

theorem dropped_init (prog : List Call) (pl : List (List Nat)) (u : Nat) : Dropped (init prog pl u) :=
  Or.inl ⟨prog, rfl⟩

/-- `start` has been called or is still to come. -/
theorem started_step {c : Cfg} {s s' : St} {t : Tid} (h : s.started = true ∨ .start ∈ s.todo)
    (hs : step c s t = some s') : s'.started = true ∨ .start ∈ s'.todo := by
  by_cases ht : t = .main
  · subst ht
    rcases main_todo (c := c) hs with ⟨_, e1, e2, _⟩ | ⟨_, x, k, e1, e2, _, _, e4, e4', _⟩
    · rw [e1, e2]; exact h
    · by_cases hx : x = .start
      · exact Or.inl (e4' hx)
      · rw [e2, e4 hx]
        rw [e1] at h
        rcases h with h | h
        · exact Or.inl h
        · rcases List.mem_cons.1 h with h | h
          · exact absurd h.symm hx
          · exact Or.inr h
  · obtain ⟨e1, e2, _⟩ := others ht hs
    rw [e1, e2]; exact h

/-- The pipeline has been waited for (or there is none) before `stop` is called. -/
def Joined (post : List Call) (T : Nat) (s : St) : Prop :=
  ((∃ k, s.todo = k ++ .stop :: post ∧ .stop ∉ k ∧ s.down = false ∧ s.mpc.stopping = false
      ∧ (k.getLast? = some .join ∨ (s.ws.all fun w => w.rounds.isEmpty) = true))
    ∨ (s.todo <:+ post ∧ (s.ws.all fun w => w.rounds.isEmpty) = true))
  ∧ (s.ctx.finish = true → s.ctx.last = T)

theorem left_zero {post : List Call} (hp : ∀ x ∈ post, x.amount = 0) {s : St} (h : s.todo <:+ post)
    (hw : (s.ws.all fun w => w.rounds.isEmpty) = true) : s.left = 0 := by
  have h1 : (s.todo.map Call.amount).sum = 0 := by
    have : ∀ l : List Call, (∀ x ∈ l, x.amount = 0) → (l.map Call.amount).sum = 0 := by
      intro l
      induction l with
      | nil => intro _; rfl
      | cons a l ih =>
        intro hh
        rw [List.map_cons, List.sum_cons, hh a (List.mem_cons_self ..), ih (fun x hx => hh x (List.mem_cons_of_mem _ hx))]
    exact this _ (fun x hx => hp x (h.subset hx))
  have h2 : ∀ ws : List Worker, (ws.all fun w => w.rounds.isEmpty) = true → (ws.map fun w => w.rounds.sum).sum = 0 := by
    intro ws
    induction ws with
    | nil => intro _; rfl
    | cons a ws ih =>
      intro hh
      simp only [List.all_cons, Bool.and_eq_true] at hh
      have : a.rounds = [] := List.isEmpty_iff.1 hh.1
      simp [this, ih hh.2]
  rw [St.left, h1, h2 _ hw]

theorem joined_step {c : Cfg} {T : Nat} {post : List Call} (hp : ∀ x ∈ post, x.amount = 0) {s s' : St} {t : Tid}
    (hT : 100 * T < 2 ^ 64) (hj : Joined post T s) (hi : Inv s)
    (h2 : Inv2 c T s) (hs : step c s t = some s') : Joined post T s' := by
  obtain ⟨hj, hf⟩ := hj
  refine ⟨?_, ?_⟩
  · by_cases ht : t = .main
    · subst ht
      rcases main_todo (c := c) hs with ⟨_, e1, _, e2, e3, e4, _⟩ | ⟨_, x, k, e1, e2, e3, e4, _, _, _, e5, e6⟩
      · rcases hj with ⟨k, hk, hns, hd, hst, hl⟩ | ⟨hk, hw⟩
        · refine Or.inl ⟨k, by rw [e1]; exact hk, hns, ?_, ?_, by rw [e2]; exact hl⟩
          · rcases e3 with e3 | e3
            · rw [e3]; exact hd
            · rw [e3.1] at hst; cases hst
          · cases e : s'.mpc.stopping with
            | false => rfl
            | true => rw [e4 e] at hst; cases hst
        · exact Or.inr ⟨by rw [e1]; exact hk, by rw [e2]; exact hw⟩
      · rcases hj with ⟨q, hk, hns, hd, _, hl⟩ | ⟨hk, hw⟩
        · cases q with
          | nil =>
            rw [List.nil_append, e1] at hk
            simp only [List.cons.injEq] at hk
            obtain ⟨rfl, rfl⟩ := hk
            rcases hl with hl | hl
            · cases hl
            · exact Or.inr ⟨by rw [e2]; exact List.suffix_rfl, by rw [e3]; exact hl⟩
          | cons y q =>
            rw [List.cons_append, e1] at hk
            simp only [List.cons.injEq] at hk
            obtain ⟨rfl, rfl⟩ := hk
            simp only [List.mem_cons, not_or] at hns
            refine Or.inl ⟨q, e2, hns.2, by rw [e4]; exact hd, e5 (fun e => hns.1 e.symm), ?_⟩
            rw [e3]
            rcases hl with hl | hl
            · cases q with
              | nil => exact Or.inr (e6 (by simpa using hl))
              | cons z q => left; rwa [List.getLast?_cons_cons] at hl
            · exact Or.inr hl
        · refine Or.inr ⟨?_, by rw [e3]; exact hw⟩
          rw [e2]
          rw [e1] at hk
          exact (List.suffix_cons x k).trans hk
    · obtain ⟨e1, _, e3, _, e4, e5⟩ := others ht hs
      rcases hj with ⟨k, hk, hns, hd, hst, hl⟩ | ⟨hk, hw⟩
      · refine Or.inl ⟨k, by rw [e1]; exact hk, hns, by rw [e3]; exact hd, ?_, hl.imp_right e5⟩
        cases e : s'.mpc.stopping with
        | false => rfl
        | true => rw [e4 e] at e; rw [e] at hst; cases hst
      · exact Or.inr ⟨by rw [e1]; exact hk, e5 hw⟩
  · by_cases ha : t = .main ∧ s.mpc = .pa4
    · obtain ⟨rfl, hm⟩ := ha
      simp only [step, stepMain, hm] at hs
      cases hs
      exact hf
    · by_cases hb : t = .runner ∧ ∃ w, s.rpc = .p w .emit
      · obtain ⟨rfl, w, hr⟩ := hb
        have hu : 100 * s.units < 2 ^ 64 := by have := h2.cons; omega
        have hf' : s.ctx.finish = false := by
          cases e : s.ctx.finish with
          | false => rfl
          | true => have := (h2.fin.1 e).1; rw [hr] at this; cases w <;> cases this
        simp only [step, stepRunner, hr, printProgress_eq h2.last hu hf'] at hs
        split at hs
        · rename_i he
          split at he <;> cases he
        · rename_i x es he
          split at he
          · cases he
            cases hs
            intro hw
            have hw' : w = .final := by cases w <;> first | rfl | (simp at hw)
            subst hw'
            have hph := hi.phase
            rw [hr] at hph
            have hd : s.down = true := by
              revert hph
              cases s.mpc <;> cases s.started <;> cases s.down <;> simp [phaseOk, RPc.inFirst, RPc.inLoop, RPc.inFinal]
            rcases hj with ⟨_, _, _, hd', _⟩ | ⟨hk, hw⟩
            · rw [hd] at hd'; cases hd'
            · have := left_zero hp hk hw
              have := h2.cons
              simp only; omega
          · cases he
            cases hs
            exact hf
      · have := (quiet hs ha hb).2.1
        rw [this]; exact hf

theorem joined_init {pre post : List Call} (h : .stop ∉ pre) (pl : List (List Nat)) (u T : Nat)
    (hl : pre.getLast? = some .join ∨ ∀ r ∈ pl, r = []) :
    Joined (post ++ [.stop, .logStop]) T (init (pre ++ .stop :: post) pl u) := by
  refine ⟨Or.inl ⟨pre, by simp [init], h, rfl, rfl, hl.imp_right ?_⟩, by simp [init]⟩
  intro hl
  simp only [init, List.all_map, List.all_eq_true, Function.comp]
  intro r hr
  rw [hl r hr]; rfl

end Verif.Progress
