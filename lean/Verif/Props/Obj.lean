import Verif.Obj.Reg
import Verif.Core.Demo

/-!
# C51: thread objects always join

The statements are about the ghost log of class thread (`OEv`, Obj/Model.lean), about the contents of the objects, and about the
threads of the core machine.  Objects are used by arbitrary user code on any number of threads.

* `since o log` is what happened to object `o` since the latest operation on it began.
* `Done t o op x l`: operation `op` of thread `t` began on object `o` with content `x`, and, if `x` was joinable, notify_for_exit was
  called with the id of `x`, then `std::thread::join` with the handle of `x`, and the latter has returned.
-/
namespace Itc
open Core Obj
namespace Obj
section
variable {τ φ δ χ : Type}

/-- The events of object `o` since the latest operation on `o` began (newest first). -/
def since (o : Nat) : List OEv → List OEv := opLog o

/-- The object, whose content was `x`, has no handle; if it had one, its thread has been asked to exit and joined. -/
def Done (t o : Nat) (op : Op) (x : TObj) (l : List OEv) : Prop := Fin t o op x l

/-- What is claimed about the events of the log, given the log before them. -/
def EvOk : OEv → List OEv → Prop
  | .gone t o h, post => h = none ∧ ∃ x, Fin t o .dtor x (opLog o post)
  | .swapped t o, post => ∃ x, Fin t o .assign x (opLog o post)
  | _, _ => True

def LogOk (l : List OEv) : Prop := ∀ pre e post, l = pre ++ e :: post → EvOk e post

theorem LogOk.cons {e : OEv} {l : List OEv} (h : LogOk l) (he : EvOk e l) : LogOk (e :: l) := by
  intro pre e' post hl
  cases pre with
  | nil => cases hl; exact he
  | cons a pre => cases hl; exact h pre e' post rfl

theorem log_ok {U : User τ φ δ χ} {ud : δ} {f : φ} {s : OSt τ φ δ} (hr : OR U ud f s) : LogOk s.data.olog := by
  refine Reach.induct (fun s : OSt τ φ δ => LogOk s.data.olog) ?_ ?_ hr
  · intro pre e post h
    simp [Core.init] at h
  · intro s l s' hr q hs
    have hp : s.term = false := by
      cases l <;> simp only [step] at hs <;> (split at hs; contradiction; rename_i h; simp at h; exact h.2)
    cases l with
    | tick n => rw [step_tick _ s s' n hs]; exact q
    | th t ch =>
      rcases data_step hs with ⟨h1, h2⟩ | ⟨f, rest, a, hexc, hold, hos, hact⟩
      · rw [h2]; exact q
      · have hpf := pf_reach hr (t := t) (g := f) (by rw [hold]; simp) hp
        generalize hd : s'.data = d' at *
        generalize hrv : (s.thr t).rv = rv at hos
        cases hos
        case asSwap o o' x x' h h' =>
          obtain ⟨y, -, h2⟩ := hpf
          exact q.cons ⟨y, h2⟩
        case dtBad o x h hn =>
          obtain ⟨y, h1, h2⟩ := hpf
          rw [h] at h1; cases h1; simp at hn
        case dtStd o x h hn =>
          obtain ⟨y, h1, h2⟩ := hpf
          exact q.cons ⟨rfl, y, h2⟩
        all_goals first | exact q | exact q.cons trivial

end
end Obj
section
variable {τ φ δ χ : Type} {U : User τ φ δ χ} {ud : δ} {f : φ} {s s' : OSt τ φ δ} {t : Nat} {ch : Ch χ}

/-- C51, destruction: whenever `~std::thread` runs for an object, the object has no handle, so nothing joinable is destroyed; and if
    it had one when `~thread` began, its thread has been notified for exit and joined in between, in this order, by the same thread. -/
theorem C51_destroyed (hr : OR U ud f s) {pre post : List OEv} {t o : Nat} {h : Option Nat}
    (hlog : s.data.olog = pre ++ .gone t o h :: post) : h = none ∧ ∃ x, Done t o .dtor x (since o post) :=
  log_ok hr pre _ post hlog

/-- C51, move assignment: the same when `operator=` exchanges the contents of the left operand. -/
theorem C51_assigned (hr : OR U ud f s) {pre post : List OEv} {t o : Nat}
    (hlog : s.data.olog = pre ++ .swapped t o :: post) : ∃ x, Done t o .assign x (since o post) :=
  log_ok hr pre _ post hlog

/-- The event `asks` is a call of `notify_for_exit` with that id. -/
theorem C51_asks (hs : step (client U) s (.th t ch) = some s') {u o id : Nat}
    (hlog : s'.data.olog = .asks u o id :: s.data.olog) :
    u = t ∧ ∃ k rest, s'.stk t = .core (.exitLook id) :: .client k :: rest ∧ ∃ g, s.stk t = .client g :: rest := by
  rcases data_step hs with ⟨h1, h2⟩ | ⟨f, rest, a, hexc, hold, hos, hact⟩
  · rw [h2] at hlog; exact absurd (congrArg List.length hlog) (by simp)
  · generalize hd : s'.data = d' at *
    generalize hrv : (s.thr t).rv = rv at hos
    cases hos
    case jnAsk K x h =>
      simp only [olog_ev, List.cons.injEq, OEv.asks.injEq, and_true] at hlog
      obtain ⟨rfl, rfl, rfl⟩ := hlog
      exact ⟨rfl, _, _, hact.1, _, hold⟩
    all_goals first
      | (simp [OData.exch, olog_ev, olog_put, olog_set] at hlog; done)
      | exact absurd (congrArg List.length hlog) (by simp)

/-- The event `joins` is a call of `std::thread::join` with that handle. -/
theorem C51_joins (hs : step (client U) s (.th t ch) = some s') {u o n : Nat}
    (hlog : s'.data.olog = .joins u o n :: s.data.olog) :
    u = t ∧ n ≠ t ∧ ∃ k rest, s'.stk t = .core (.joinIn n) :: .client k :: rest ∧ ∃ g, s.stk t = .client g :: rest := by
  rcases data_step hs with ⟨h1, h2⟩ | ⟨f, rest, a, hexc, hold, hos, hact⟩
  · rw [h2] at hlog; exact absurd (congrArg List.length hlog) (by simp)
  · generalize hd : s'.data = d' at *
    generalize hrv : (s.thr t).rv = rv at hos
    cases hos
    case jnStd K x n h hn ht =>
      simp only [olog_ev, olog_put, List.cons.injEq, OEv.joins.injEq, and_true] at hlog
      obtain ⟨rfl, rfl, rfl⟩ := hlog
      exact ⟨rfl, ht, _, _, hact.1, _, hold⟩
    all_goals first
      | (simp [OData.exch, olog_ev, olog_put, olog_set] at hlog; done)
      | exact absurd (congrArg List.length hlog) (by simp)

/-- `std::thread::join` returns only when the thread has ended. -/
theorem C51_join_waits (hs : step (client U) s (.th t ch) = some s') (hexc : (s.thr t).exc = none) {n : Nat} {rest : List (Frame τ (OFrame φ))}
    (hst : s.stk t = .core (.joinIn n) :: rest) : (s.thr n).status = .zombie ∧ s'.stk t = rest := by
  rcases step_cl hs with ⟨f', rest', d', a, hexc', hold, -⟩ | ⟨f', rest', hexc', hold, hcs, hdata, hcore⟩ |
    ⟨e, hexc', -⟩ | ⟨e, f', k, rest', hexc', -⟩ | ⟨e, f', rest', hexc', -⟩ |
    ⟨e, g0, g', rest', hexc', -⟩ | ⟨e, g0, rest', hexc', -⟩ | ⟨hold, -⟩
  · rw [hst] at hold; cases hold
  · rw [hst] at hold; cases hold
    simp only [stepCore] at hcore
    split at hcore
    · rename_i hz
      obtain rfl := Option.some.inj hcore
      exact ⟨hz, by simp [St.stk, St.ret]⟩
    · contradiction
  all_goals first
    | (rw [hexc] at hexc'; contradiction)
    | (rw [hst] at hold; contradiction)

/-- C51, pairing: an object in no operation that has a handle also has the id of the thread of that handle: the id registered by the
    latest constructor that started a thread with that native id. -/
theorem C51_paired (hr : OR U ud f s) (hp : s.term = false) {o n id : Nat} (h : s.data.slot o = some ⟨⟨some n, id⟩, false⟩) :
    lastMade n s.data.olog = some id :=
  (pairs_reach hr hp).idle o _ h n rfl

/-- C51, ownership: no two objects have the same handle. -/
theorem C51_one_owner (hr : OR U ud f s) {o o' n : Nat} {x x' : Slot} (h : s.data.slot o = some x) (h' : s.data.slot o' = some x')
    (hx : x.obj.native = some n) (hx' : x'.obj.native = some n) : o = o' := by
  have := (own_reach hr).uniq (h := .inl o) (h' := .inl o') (n := n) (by simp [hf, slotH, h, hx]) (by simp [hf, slotH, h', hx'])
  simpa using this

/-- C51, ownership: the thread of a handle has been neither joined nor detached. -/
theorem C51_handle_live (hr : OR U ud f s) {o n : Nat} {x : Slot} (h : s.data.slot o = some x) (hx : x.obj.native = some n) :
    (s.thr n).status ≠ .free ∧ (s.thr n).detached = false := by
  have := (own_reach hr).live (h := .inl o) (n := n) (by simp [hf, slotH, h, hx])
  exact ⟨this.1, by simpa using this.2⟩

/-- C51, the id: what the constructor stores is the id, not `invalid_id()`, under which `register_thread` has registered the very
    native thread that the constructor has started. -/
theorem C51_made (hr : OR U ud f s) {t o n id : Nat} (h : .made t o n id ∈ s.data.olog) :
    id ≠ 0 ∧ (∃ c, Ev.registered c id n ∈ s.log) ∧ Ev.regRes t n id ∈ s.log :=
  ⟨((ids_reach hr).made t o n id h).1.1, ((ids_reach hr).made t o n id h).1.2, ((ids_reach hr).made t o n id h).2⟩

/-- C51, the id: the id that `join`, `operator=` and `~thread` of an object with a handle ask to exit (`x.id`, see `Done`) is
    the one of the native thread that they join (`n`), and of no other: no other native thread ever has it. -/
theorem C51_asks_own (hr : OR U ud f s) {t o n : Nat} {op : Op} {x : TObj} (h : .began t o op x ∈ s.data.olog) (hx : x.native = some n) :
    (∃ c, Ev.registered c x.id n ∈ s.log) ∧ ∀ c m, Ev.registered c x.id m ∈ s.log → m = n := by
  obtain ⟨c, hc⟩ := ((ids_reach hr).began t o op x h n hx).2
  refine ⟨⟨c, hc⟩, fun c' m h' => ?_⟩
  have := C07_registration_unique hr h' hc
  exact this.2 (this.1.2 rfl)

/-- C51, C07: a task sent to the id of a thread object is executed by the thread of that object only. -/
theorem C51_reaches (hr : OR U ud f s) {t o n id u c v : Nat} {k k' : τ} (h : .made t o n id ∈ s.data.olog)
    (ha : Ev.accepted u c id k ∈ s.log) (hst : Ev.started v c k' ∈ s.log) : v = n := by
  obtain ⟨-, ⟨c', h1⟩, -⟩ := C51_made hr h
  obtain ⟨i, h2, h3⟩ := C07_right_thread hr (.inl hst)
  obtain rfl := h3 u id k ha
  have := C07_registration_unique hr h2 h1
  exact this.2 (this.1.2 rfl)


/-! ## Concrete cases -/

/-- User code given by a table of labelled actions (label 0 returns). -/
def tableUser (l : List (OAct Nat Nat)) (hnd : Nat → Option Nat := fun _ => none) : User Nat Nat Unit Unit where
  run k := k
  destroy _ := 0
  step _ d f _ ch := match ch with
    | .go => some (d, match f with | 0 => .ret .unit | n + 1 => l.getD n (.ret .unit))
    | _ => none
  onThrow f _ := hnd f

def oexec (l : List (OAct Nat Nat)) (ls : List (Lbl Unit)) (hnd : Nat → Option Nat := fun _ => none) : Option (OSt Nat Nat Unit) :=
  run (client (tableUser l hnd)) (init { ud := () } (.usr 1)) ls

theorem owit {β : Type} {l : List (OAct Nat Nat)} {ls : List (Lbl Unit)} {hnd : Nat → Option Nat}
    (g : OSt Nat Nat Unit → β) {b : β} (h : (oexec l ls hnd).map g = some b) : ∃ s, OR (tableUser l hnd) () 1 s ∧ g s = b := by
  obtain ⟨s, h1, h2⟩ := Option.map_eq_some_iff.1 h
  exact ⟨s, ⟨ls, h1⟩, h2⟩

theorem ostepWit {β : Type} {l : List (OAct Nat Nat)} {ls : List (Lbl Unit)} {lb : Lbl Unit} {hnd : Nat → Option Nat}
    (g : OSt Nat Nat Unit → OSt Nat Nat Unit → β) {b : β}
    (h : ((oexec l ls hnd).bind fun s => (step (client (tableUser l hnd)) s lb).map fun s' => g s s') = some b) :
    ∃ s s', OR (tableUser l hnd) () 1 s ∧ step (client (tableUser l hnd)) s lb = some s' ∧ g s s' = b := by
  obtain ⟨s, h1, h⟩ := Option.bind_eq_some_iff.1 h
  obtain ⟨s', h2, h3⟩ := Option.map_eq_some_iff.1 h
  exact ⟨s, s', ⟨ls, h1⟩, h2, h3⟩

/-- Main starts threads 5 and 6 in objects 0 and 1, swaps the objects, moves 0 into a new object 2, assigns 2 over 1 and destroys 0,
    1, 2. -/
def objDemo : List (OAct Nat Nat) :=
  [.obj (.make 0 5 0) 2, .obj (.make 1 6 0) 3, .obj (.swap 0 1) 4, .obj (.moveNew 2 0) 5, .obj (.assign 1 2) 6, .obj (.dtor 0) 7,
   .obj (.dtor 1) 8, .obj (.dtor 2) 0]

def objRun : List (Lbl Unit) := go 0 27 ++ go 5 2 ++ go 0 13 ++ go 6 2 ++ go 0 8

/-- Meets the hypotheses of `C51_destroyed`: the destructor of object 1 has asked thread 6 (id 2) to exit and joined it. -/
example : ∃ s, OR (tableUser objDemo) () 1 s ∧ s.data.olog =
    [.gone 0 2 none, .began 0 2 .dtor ⟨none, 1⟩] ++ .gone 0 1 none ::
    [.joined 0 1 6, .joins 0 1 6, .asks 0 1 2, .began 0 1 .dtor ⟨some 6, 2⟩, .gone 0 0 none, .began 0 0 .dtor ⟨none, 2⟩,
     .swapped 0 1, .joined 0 1 5, .joins 0 1 5, .asks 0 1 1, .began 0 1 .assign ⟨some 5, 1⟩, .made 0 1 6 2, .made 0 0 5 1] :=
  owit (ls := objRun) (fun s => s.data.olog) (by decide +kernel)

/-- Meets the hypotheses of `C51_assigned`: the assignment over object 1 has asked thread 5 (id 1) to exit and joined it. -/
example : ∃ s, OR (tableUser objDemo) () 1 s ∧ s.data.olog =
    [] ++ .swapped 0 1 ::
    [.joined 0 1 5, .joins 0 1 5, .asks 0 1 1, .began 0 1 .assign ⟨some 5, 1⟩, .made 0 1 6 2, .made 0 0 5 1] :=
  owit (ls := go 0 27 ++ go 5 2 ++ go 0 3) (fun s => s.data.olog) (by decide +kernel)

/-- Meets the hypotheses of `C51_asks`. -/
example : ∃ s s', OR (tableUser objDemo) () 1 s ∧ step (client (tableUser objDemo)) s (.th 0 .go) = some s' ∧
    (s'.data.olog == .asks 0 1 1 :: s.data.olog) = true :=
  ostepWit (ls := go 0 22) (fun s s' => s'.data.olog == .asks 0 1 1 :: s.data.olog) (by decide +kernel)

/-- Meets the hypotheses of `C51_joins`. -/
example : ∃ s s', OR (tableUser objDemo) () 1 s ∧ step (client (tableUser objDemo)) s (.th 0 .go) = some s' ∧
    (s'.data.olog == .joins 0 1 5 :: s.data.olog) = true :=
  ostepWit (ls := go 0 26) (fun s s' => s'.data.olog == .joins 0 1 5 :: s.data.olog) (by decide +kernel)

/-- Meets the hypotheses of `C51_join_waits`: main waits in `join` for thread 5, which has just ended. -/
example : ∃ s s', OR (tableUser objDemo) () 1 s ∧ step (client (tableUser objDemo)) s (.th 0 .go) = some s' ∧
    ((s.thr 0).exc, s.stk 0 == .core (.joinIn 5) :: (s.stk 0).tail) = (none, true) :=
  ostepWit (ls := go 0 27 ++ go 5 2) (fun s _ => ((s.thr 0).exc, s.stk 0 == .core (.joinIn 5) :: (s.stk 0).tail)) (by decide +kernel)

/-- Meets the hypotheses of `C51_paired`, `C51_one_owner` and `C51_handle_live`: after the swap, object 0 has thread 6 with id 2 and
    object 1 has thread 5 with id 1. -/
example : ∃ s, OR (tableUser objDemo) () 1 s ∧ (s.term, s.data.slot 0, s.data.slot 1) =
    (false, some ⟨⟨some 6, 2⟩, false⟩, some ⟨⟨some 5, 1⟩, false⟩) :=
  owit (ls := go 0 18) (fun s => (s.term, s.data.slot 0, s.data.slot 1)) (by decide +kernel)

/-- Meets the hypotheses of `C51_made` and `C51_asks_own`. -/
example : ∃ s, OR (tableUser objDemo) () 1 s ∧
    (decide (.made 0 1 6 2 ∈ s.data.olog) && decide (.began 0 1 .dtor ⟨some 6, 2⟩ ∈ s.data.olog)) = true :=
  owit (ls := objRun) (fun s => decide (.made 0 1 6 2 ∈ s.data.olog) && decide (.began 0 1 .dtor ⟨some 6, 2⟩ ∈ s.data.olog)) (by decide +kernel)

/-- Main starts thread 5, which registers itself and waits for a task, and sends it task 0. -/
def reachDemo : List (OAct Nat Nat) := [.obj (.make 0 5 3) 2, .core (.invoke 1 0) 0, .core .registerThis 4, .core .wait 0]

/-- Meets the hypotheses of `C51_reaches`. -/
example : ∃ s, OR (tableUser reachDemo) () 1 s ∧
    (decide (.made 0 0 5 1 ∈ s.data.olog) && decide (Ev.accepted 0 0 1 0 ∈ s.log) && decide (Ev.started 5 0 0 ∈ s.log)) = true :=
  owit (ls := go 0 12 ++ go 5 7) (fun s => decide (.made 0 0 5 1 ∈ s.data.olog) && decide (Ev.accepted 0 0 1 0 ∈ s.log) &&
    decide (Ev.started 5 0 0 ∈ s.log)) (by decide +kernel)

/-- Main starts thread 5 in object 0, moves it into object 1 and joins the moved-from object 0; the handler at label 4 runs on. -/
def staleDemo : List (OAct Nat Nat) := [.obj (.make 0 5 0) 2, .obj (.moveNew 1 0) 3, .obj (.join 0) 4, .ret .unit, .obj (.dtor 0) 0]

set_option synthInstance.maxSize 1024 in
set_option synthInstance.maxHeartbeats 400000 in
/-- Not part of the claim, but worth knowing: a moved-from object keeps its id (the move constructor is the implicit one), so `join`
    on it asks the thread of the *new* owner to exit, and then throws, because there is no handle. -/
theorem C51_stale_id : ∃ s, OR (tableUser staleDemo fun _ => some 5) () 1 s ∧
    (s.data.olog, s.data.slot 0, s.data.slot 1, s.log.filter (fun e => match e with | .exitSet _ => true | _ => false), s.stk 0) =
    ([.asks 0 0 1, .began 0 0 .join ⟨none, 1⟩, .made 0 0 5 1], some ⟨⟨none, 1⟩, false⟩, some ⟨⟨some 5, 1⟩, false⟩, [.exitSet 0],
     [.client (.usr 5)]) :=
  owit (ls := go 0 19) (fun s => (s.data.olog, s.data.slot 0, s.data.slot 1,
    s.log.filter (fun e => match e with | .exitSet _ => true | _ => false), s.stk 0)) (by decide +kernel)

end
end Itc
