import Verif.Det.Inv
import Verif.Det.Demo
import Verif.Props.Launch

/-!
# C53: async and then without a thread id

For arbitrary user code `U` (any number of threads and calls) and every schedule.  `made`, `returned` and `left` are the events of the
ghost log of these overloads (`DEv`, Det/Model.lean); `bodyStart u p` says that thread `u` calls the function of the future with state `p`.

* `C53_call`: what a call that returns normally returns, and that the event `returned` says so.
* `C53_made`, `C53_returned`, `C53_thread`: the function is called only on the thread that was started for it, which is not the caller.
* `C53_left`: a detached thread leaves its only `wait` after starting a task, or because it was notified for exit.
* `C53_lost`: the function is not always called, even though nothing fails.
-/
namespace Itc
open Core Sync Det
section
variable {α φ δ χ : Type} {U : DApp α φ δ χ} {u0 : δ} {f0 : φ} {s s' : DSt α φ δ}

/-- What is claimed about the events of the log. -/
def Det.EvOK (U : DApp α φ δ χ) (u0 : δ) (f0 : φ) (s : DSt α φ δ) : DEv α → Prop
  | .made t n id => n ≠ t ∧ id ≠ 0 ∧ (∃ c, .registered c id n ∈ s.log) ∧ .regRes t n id ∈ s.log
  | .returned t id p r => .made t r.n id ∈ s.data.ad.dlog ∧ MadeFor 0 id r.as r.body s.data.sd p
  | .left t => ∃ sw c rest, DR U u0 f0 sw ∧ Later (client (detApp U)) sw s ∧ sw.stk t = .client (.app .tWait) :: rest ∧ sw.loc t = some c ∧
      ((∃ c x, Since sw.log (.started t c x) s.log) ∨ .exitSet c ∈ s.log)

theorem Det.EvOK.mono {l : Lbl χ} (hs : step (client (detApp U)) s l = some s') {e : DEv α} (h : EvOK U u0 f0 s e) : EvOK U u0 f0 s' e := by
  cases e with
  | made t n id =>
    obtain ⟨h1, h2, ⟨c, h3⟩, h4⟩ := h
    exact ⟨h1, h2, ⟨c, step_logm hs h3⟩, step_logm hs h4⟩
  | returned t id p r => exact ⟨dlog_mem hs h.1, h.2.mono (step_ext hs)⟩
  | left t =>
    obtain ⟨sw, c, rest, h1, h2, h3, h4, h5⟩ := h
    refine ⟨sw, c, rest, h1, h2.snoc hs, h3, h4, ?_⟩
    rcases h5 with ⟨c, x, h5⟩ | h5
    · exact .inl ⟨c, x, h5.step hs⟩
    · exact .inr (step_logm hs h5)

theorem Det.ev_ok (hr : DR U u0 f0 s) {e : DEv α} (h : e ∈ s.data.ad.dlog) : EvOK U u0 f0 s e := by
  refine Reach.induct (fun s : DSt α φ δ => ∀ e ∈ s.data.ad.dlog, EvOK U u0 f0 s e) ?_ ?_ hr e h
  · intro e h
    simp [Core.init] at h
  · intro s l s' hr ih hs e h
    rcases dlog_step hs with hd | ⟨t, ch, f, rest, a, rfl, hexc, hst, hd⟩
    · rw [hd] at h; exact (ih e h).mono hs
    · have hterm : s.term = false := by
        simp only [step] at hs; split at hs; contradiction; rename_i h; simp at h; exact h.2
      by_cases ho : e ∈ s.data.ad.dlog
      · exact (ih e ho).mono hs
      · suffices EvOK U u0 f0 s e from this.mono hs
        generalize s'.data.ad = d' at hd h
        cases hd <;> first | exact absurd h ho | skip
        case dId r id hrv =>
          rcases List.mem_cons.1 h with rfl | h
          · obtain ⟨h1, id', c, h2, h3, h4, h5⟩ := at_id hr hst hterm
            cases hrv.symm.trans h2
            exact ⟨h1, h3, ⟨c, h4⟩, h5⟩
          · exact absurd h ho
        case dRet r id p hrv =>
          rcases List.mem_cons.1 h with rfl | h
          · obtain ⟨h1, p', h2, h3⟩ := at_ret hr hst hterm hexc
            cases hrv.symm.trans h2
            exact ⟨h1, h3⟩
          · exact absurd h ho
        case tUnreg =>
          rcases List.mem_cons.1 h with rfl | h
          · obtain ⟨sw, c, h1, h2, h3, h4, h5⟩ := at_unreg hr hst hterm hexc
            exact ⟨sw, c, rest, h1, h2, h3, h4, h5⟩
          · exact absurd h ho

/-- The thread that a call of `t` starts is another thread; the id that `detached_thread` got from its registration is valid, and is registered for
    that thread. -/
theorem C53_made (hr : DR U u0 f0 s) {t n id : Nat} (h : .made t n id ∈ s.data.ad.dlog) :
    n ≠ t ∧ id ≠ 0 ∧ (∃ c, .registered c id n ∈ s.log) ∧ .regRes t n id ∈ s.log := ev_ok hr h

/-- The future that a call gives its caller is that of a state made for the given function and policy and the id of the thread that this call
    has started. -/
theorem C53_returned (hr : DR U u0 f0 s) {t id p : Nat} {r : Req α} (h : .returned t id p r ∈ s.data.ad.dlog) :
    .made t r.n id ∈ s.data.ad.dlog ∧ p < s.data.sd.nst ∧ (s.data.sd.st p).owner = .pkg ∧ (s.data.sd.st p).req = some ⟨id, r.as, p, r.body⟩ :=
  let h' := ev_ok hr h
  ⟨h'.1, h'.2.2⟩

/-- **C53.** The function given to async / then without a thread id is called on the thread that was started for it, which is not the caller. -/
theorem C53_thread (hr : DR U u0 f0 s) {t id p u : Nat} {r : Req α} (h : .returned t id p r ∈ s.data.ad.dlog)
    (hb : .bodyStart u p ∈ s.data.sd.slog) : u = r.n ∧ u ≠ t := by
  obtain ⟨h1, h2, h3, h4⟩ := C53_returned hr h
  obtain ⟨h5, h6, ⟨c, h7⟩, -⟩ := C53_made hr h1
  suffices u = r.n from ⟨this, this ▸ h5⟩
  obtain ⟨v, i, as, o, hl, hp⟩ := C34_place hr hb h3
  obtain ⟨k, hk, rfl, hi⟩ := C34_given hr hl
  rw [h4] at hk
  cases hk
  rw [if_neg h6] at hi
  subst hi
  rcases hp with ⟨-, rfl, rfl⟩ | ⟨-, c', a, hc', -⟩
  · rcases C34_own hr hl with h0 | ⟨c', hc'⟩
    · exact absurd h0 h6
    · have := C07_registration_unique hr hc' h7
      exact this.2 (this.1.2 rfl)
  · have := C07_registration_unique hr hc' h7
    exact this.2 (this.1.2 rfl)

/-- A detached thread leaves its `wait` only after it has started a task since it came there, or when it was notified for exit. It is registered
    when it calls `wait`. -/
theorem C53_left (hr : DR U u0 f0 s) {t : Nat} (h : .left t ∈ s.data.ad.dlog) :
    ∃ sw c rest, DR U u0 f0 sw ∧ Later (client (detApp U)) sw s ∧ sw.stk t = .client (.app .tWait) :: rest ∧ sw.loc t = some c ∧
      ((∃ c x, Since sw.log (.started t c x) s.log) ∨ .exitSet c ∈ s.log) := ev_ok hr h

/-- Phases of a call. -/
def Det.DPh (r : Req α) : SFrame α (DFrame α φ) → Prop
  | .app (.dIn r') => r' = r
  | .app (.dReg r') => r' = r
  | .app (.dId r') => r' = r
  | .app (.dCall r' _) => r' = r
  | .app (.dRet r' _) => r' = r
  | _ => False

theorem Det.dPh (t : Nat) (r : Req α) (rest : List (Fr α (DFrame α φ))) :
    LPh (client (detApp U)) ({ ad := { u := u0 } } : Data α (DData α δ)) (.app (.usr f0)) t rest (fun f _ => DPh r f)
      (fun v s => ∃ id p, v = .nat p ∧ .returned t id p r ∈ s.data.ad.dlog) where
  mono {s s' f l} hr hs h _ _ _ := h
  thr {s s' f e g ch} hr h hg _ _ := by
    cases f <;> simp only [DPh] at h
    rename_i f
    cases f <;> simp [DPh, client, detApp, sThrow] at h hg
  cl {s s' f ch d' x} hr hst hexc h hs hstep hdata := by
    cases client_cs hstep with
    | app g ad sa hA =>
      have hd := det_ds hA
      clear hA hstep
      cases hd <;> simp only [DPh] at h <;> try subst h
      case dRet id p h => exact ⟨id, p, rfl, by rw [hdata]; simp [St.view]⟩
      all_goals first | exact fun _ => rfl | exact h.elim | trivial
    | sync f sd x hS => cases hS <;> exact h.elim

/-- A call that returns normally returns the future that is recorded in `returned` for these arguments. -/
theorem C53_call {s0 : DSt α φ δ} (hr : DR U u0 f0 s0) {t n : Nat} {r : Req α} {rest : List (Fr α (DFrame α φ))}
    (hst : s0.stk t = .client (.app (.dIn r)) :: rest) (hf : Frag (client (detApp U)) t rest s0 n s) {l : Lbl χ}
    (hs : step (client (detApp U)) s l = some s') (hend : s'.stk t = rest) (hexc : (s'.thr t).exc = none) :
    ∃ id p, (s'.thr t).rv = .nat p ∧ .returned t id p r ∈ s'.data.ad.dlog :=
  (dPh t r rest).fin hr hst rfl hf hs hend hexc

end

/-- The function is not always called: thread 7 was started for the task 6, another thread has notified it for exit before its id was known to
    the caller, it has unregistered itself and ended; only then did the constructor of `detached_thread` register it (again, with id 3). The task
    was accepted for that registration, nobody is left to run it, and the caller waits for its future. -/
theorem C53_lost : ∃ s : DSt Nat Nat Unit, DR (dtable det2) () 1 s ∧
    (.returned 0 3 0 { n := 7, body := 6 } ∈ s.data.ad.dlog ∧ .left 7 ∈ s.data.ad.dlog ∧ (s.thr 7).status = .free) ∧
    (.accepted 0 2 3 (.fut 0 6) ∈ s.log ∧ (s.ctxs 2).pend = [.fut 0 6] ∧ (s.ctxs 2).native = 7) ∧
    ((s.stk 0).head? = some (.core (.parked 0 none)) ∧ (s.stk 0).getD 1 (.core .unreg) = .client (.swAfter (.fw 0) 1 0) ∧ (s.data.sd.st 0).status = .notSet) := by
  obtain ⟨s, h1, h2⟩ := dwit (l := det2) (ls := go 0 10 ++ go 7 6 ++ go 5 6 ++ go 7 8 ++ go 0 23)
    (fun s => (decide (.returned 0 3 0 { n := 7, body := 6 } ∈ s.data.ad.dlog ∧ .left 7 ∈ s.data.ad.dlog ∧ (s.thr 7).status = .free),
      decide (.accepted 0 2 3 (.fut 0 6) ∈ s.log ∧ (s.ctxs 2).pend = [.fut 0 6] ∧ (s.ctxs 2).native = 7),
      decide ((s.stk 0).head? = some (.core (.parked 0 none)) ∧ (s.stk 0).getD 1 (.core .unreg) = .client (.swAfter (.fw 0) 1 0) ∧
        (s.data.sd.st 0).status = .notSet))) (b := (true, true, true)) (by decide +kernel)
  simp only [Prod.mk.injEq, decide_eq_true_eq] at h2
  exact ⟨s, h1, h2⟩

/-! ## The hypotheses are met -/

/-- `C53_made`, `C53_returned`, `C53_thread`, `C53_left`: main has called `async(f)`; the function was called on thread 7, which has left its wait. -/
example : ∃ s : DSt Nat Nat Unit, DR (dtable det1) () 1 s ∧ .made 0 7 2 ∈ s.data.ad.dlog ∧ .returned 0 2 0 { n := 7, body := 4 } ∈ s.data.ad.dlog ∧
    .left 7 ∈ s.data.ad.dlog ∧ .bodyStart 7 0 ∈ s.data.sd.slog := by
  obtain ⟨s, h1, h2⟩ := dwit (l := det1) (ls := go 0 20 ++ go 7 30 ++ go 0 1)
    (fun s => (decide (.made 0 7 2 ∈ s.data.ad.dlog), decide (.returned 0 2 0 { n := 7, body := 4 } ∈ s.data.ad.dlog), decide (.left 7 ∈ s.data.ad.dlog),
      decide (.bodyStart 7 0 ∈ s.data.sd.slog))) (b := (true, true, true, true)) (by decide +kernel)
  simp only [Prod.mk.injEq, decide_eq_true_eq] at h2
  exact ⟨s, h1, h2⟩

/-- The same for `then(f)`. -/
example : ∃ s : DSt Nat Nat Unit, DR (dtable det3) () 1 s ∧ .returned 0 2 1 { n := 7, on := some (some 0), as := true, body := 7 } ∈ s.data.ad.dlog ∧
    .bodyStart 7 1 ∈ s.data.sd.slog := by
  obtain ⟨s, h1, h2⟩ := dwit (l := det3) (ls := go 0 38 ++ go 7 7)
    (fun s => (decide (.returned 0 2 1 { n := 7, on := some (some 0), as := true, body := 7 } ∈ s.data.ad.dlog),
      decide (.bodyStart 7 1 ∈ s.data.sd.slog))) (b := (true, true)) (by decide +kernel)
  simp only [Prod.mk.injEq, decide_eq_true_eq] at h2
  exact ⟨s, h1, h2⟩

/-- `C53_left`, second case: the thread was notified for exit and has started no task. -/
example : ∃ s : DSt Nat Nat Unit, DR (dtable det2) () 1 s ∧ .left 7 ∈ s.data.ad.dlog ∧ .exitSet 1 ∈ s.log ∧ ∀ c k, .started 7 c k ∉ s.log := by
  obtain ⟨s, h1, h2⟩ := dwit (l := det2) (ls := go 0 10 ++ go 7 6 ++ go 5 6 ++ go 7 8)
    (fun s => (decide (.left 7 ∈ s.data.ad.dlog), decide (.exitSet 1 ∈ s.log), s.log.all (fun e => !(e matches .started _ _ _))))
    (b := (true, true, true)) (by decide +kernel)
  simp only [Prod.mk.injEq, decide_eq_true_eq] at h2
  refine ⟨s, h1, h2.1, h2.2.1, fun c k hm => ?_⟩
  have := List.all_eq_true.1 h2.2.2 _ hm
  simp at this

/-- `C53_call`: a call and the step with which it returns. -/
example : ∃ s0 n s s' : _, DR (dtable det1) () 1 s0 ∧ s0.stk 0 = .client (.app (.dIn { n := 7, body := 4 })) :: [.client (.app (.usr 3))] ∧
    Frag (client (detApp (dtable det1))) 0 [.client (.app (.usr 3))] s0 n s ∧ step (client (detApp (dtable det1))) s (.th 0 .go) = some s' ∧
    (decide (s'.stk 0 = [.client (.app (.usr 3))]), (s'.thr 0).exc, (s'.thr 0).rv) = (true, none, .nat 0) :=
  dfragWit (l := det1) (ls1 := go 0 5) (ls2 := go 0 15)
    (obs := fun _ _ _ s' => (decide (s'.stk 0 = [.client (.app (.usr 3))]), (s'.thr 0).exc, (s'.thr 0).rv)) (by decide +kernel)

/-- `then(f)` of a future without state throws, but only after it has started the thread, which stays in its wait. -/
theorem C53_then_throws : ∃ s : DSt Nat Nat Unit, DR (dtable det4) () 1 s ∧ (s.thr 0).exc = some .noState ∧ (s.thr 7).status = .running ∧
    .made 0 7 2 ∈ s.data.ad.dlog := by
  obtain ⟨s, h1, h2⟩ := dwit (l := det4) (ls := go 7 0 ++ go 0 15)
    (fun s => ((s.thr 0).exc, (s.thr 7).status, decide (.made 0 7 2 ∈ s.data.ad.dlog))) (b := (some .noState, .running, true)) (by decide +kernel)
  simp only [Prod.mk.injEq, decide_eq_true_eq] at h2
  exact ⟨s, h1, h2⟩

end Itc
