import Verif.Sync.Base

/-!
# when_all / when_any (threadpp/when_all_any.hpp)

An application of the synchronisation layer (`Verif.Sync.Model`) that offers `when_all` and `when_any` to arbitrary user code `WApp`.
Modelled are the iterator versions, `when_all(first, last)` (when_all_any.hpp:215-256) and `when_any(first, last)` (:281-366), and the variadic
versions (`tup = true`), `when_all(futures...)` (:258-279 with `when_inner_helper`, `apply_helper` :155-185) and `when_any(futures...)`
(:367-414 with `when_any_inner_helper` :60-84, `when_any_helper_struct` :86-122, `fill_result_helper` :124-127, 146-153).  The variadic versions
differ in when they ask for the future (at the end), in when_any filling the result and the states before it attaches, and in asking
for the id of the thread for each input.

Simplifications:
* An input future is named by its shared state; `none` is a future without a state, for which the header documents undefined
  behaviour (:17-20, 33-36): the model terminates.
* The context object is one record; `std::shared_ptr` is its reference count `refs`, without the copies that the helpers of the variadic
  versions hold for the duration of the call. Its constructor and the assignments :234-235, 322-325, 276, 399-402 are one step.
* `std::tuple` and `std::vector` are lists; the tuple has all its elements from the beginning. The order of the assignments inside a
  locked region (:166-167 against :246-247, :73-74 against :341-342) is not visible.
* The locked regions of the lambdas are one step apart from `set_value`, which is a call of the lower layer, the assignment after it, and
  lock / unlock.
* `std::move(result)` binds a reference in promise::set_value (future.hpp:253); the vector is moved from inside
  future_state::set_value after the check that the state is not ready (future_state.hpp:144-149). The model does not empty
  `slots`; every later set_value is refused before it reads the argument.
-/
namespace Itc
namespace When
open Core Sync

/-- Functors: those of the user and the lambdas :243-252, 336-351, 163-172, 68-83: context `c`, index `i`, the future `q` they are given. -/
inductive WTask (α : Type)
  | usr (a : α)
  | wk (c i q : Nat)
  deriving DecidableEq

/-- The contexts :223-230, :295-318, :267-274 and :381-396. -/
structure Ctx where
  any : Bool := false
  tup : Bool := false              -- of a variadic version
  total : Nat := 0                 -- total_futures / total
  ready : Nat := 0                 -- ready_futures / ready (0, 1)
  processed : Nat := 0             -- processed
  index : Nat := 0                 -- result.index
  pset : Bool := false             -- promise_set / result_moved
  slots : List (Option Nat) := []  -- result / result.futures: the shared state of each future
  states : List Nat := []          -- states
  refs : Nat := 0                  -- reference count of shared_context
  ins : List (Nat × Bool) := []    -- ghost: the inputs (shared state, is a shared_future)
  made : List Nat := []            -- ghost: indices whose lambda was passed to then
  done : List Nat := []            -- ghost: indices whose lambda was run
  freed : List Nat := []           -- ghost: indices whose lambda was destroyed
  ended : List Nat := []           -- ghost: indices whose lambda has returned
  failed : List Nat := []          -- ghost: indices whose lambda has thrown
  rel : Nat := 0                   -- ghost: when_all / when_any has released its reference
  abort : Bool := false            -- ghost: it has done so because of an exception

/-- Ghost events. -/
inductive WEv
  | returned (t c : Nat) (any : Bool) (ins : List Nat) (p : Nat)
    -- when_any / when_all of thread `t`, with context `c`, for these inputs gives its caller the future with state `p`
  deriving DecidableEq

structure WData (δ : Type) where
  u : δ
  ctx : Nat → Ctx := fun _ => {}
  nctx : Nat := 0
  wlog : List WEv := []

/-- How when_all / when_any ends. -/
inductive Fin
  | ret (p : Nat)
  | thr (e : Exn)
  deriving DecidableEq

/-- Actions of user code. -/
inductive WAct (α φ : Type)
  | goto (f : φ)
  | push (f k : φ)
  | core (a : Api α φ) (k : φ)
  | sync (a : SApi α) (k : φ)
  | when (tup any : Bool) (l : List (Option Nat × Bool)) (k : φ)  -- when_any / when_all
  | ret (v : Val)
  | throw (e : Exn)
  | terminate

/-- User code. -/
structure WApp (α φ δ χ : Type) where
  run : α → φ
  destroy : α → φ
  step : View → δ → φ → Val → Ch χ → Option (δ × WAct α φ)
  onThrow : φ → Exn → Option φ

/-- Program points. The comment gives the code that the next step executes. `p` (the state of the future) and `id` are 0 in the variadic
    versions, which do not have them yet. -/
inductive WFrame (φ : Type)
  | usr (f : φ)
  | wIn (tup any : Bool) (l : List (Option Nat × Bool))         -- :219-223, 232, 290-295, 320; 260, 275-276, 369-371, 398-402
  | mkS (c : Nat) | mkG (c : Nat) | mkD (c : Nat)               -- make_ready_future, future.hpp:546-549
  | wGet (c : Nat) (l : List (Nat × Bool))                      -- :233, 321
  | wGot (c : Nat) (l : List (Nat × Bool))                      -- :234-237, 322-329
  | wLoop (c p id i : Nat) (l : List (Nat × Bool))              -- :239-242, 330-336, 356; 158-163, 183-184, 64-68, 92, 94, 405
  | wNext (c p id i : Nat) (l : List (Nat × Bool))              -- :352, 93
  | aIn (c p : Nat)                                             -- :357-360, 406-409, the lock is held
  | aSet (c p : Nat)                                            -- :361, 410
  | aUnl (c : Nat) (r : Fin)                                    -- :363, 412
  | gGet (c : Nat) | gGot (c : Nat)                             -- :278, 413
  | rel (c : Nat) (r : Fin)                                     -- end of when_all / when_any: ~shared_ptr
  | fin (r : Fin)
  | kIn (c i q : Nat)                                           -- :245, 338, 165, 70
  | kBody (c i q : Nat)                                         -- :246-250, 339-347, 166-170, 71-79
  | kSet (c i : Nat)                                            -- :348, 80
  | kAll (c i : Nat)                                            -- :251, 171
  | kUnl (c i : Nat)                                            -- :252, 351, 172, 83
  | kEnd (c i : Nat)
  | kThr (c i : Nat) (e : Exn)                                  -- unwinding of the lock_guard
  | kFin (e : Exn)
  | dIn (c i q : Nat)                                           -- destructor of the lambda: ~shared_ptr
  | dEnd
  deriving DecidableEq

section
variable {α φ δ χ : Type}

/-- User code and functors inside core calls. -/
def mapW : Api α φ → Api (WTask α) (WFrame φ)
  | .registerThis => .registerThis
  | .registerNative n => .registerNative n
  | .unregisterThis => .unregisterThis
  | .notifyExit id => .notifyExit id
  | .invoke id k => .invoke id (.usr k)
  | .invokePackaged id k => .invoke id (.usr k)
  | .dispatch id k => .dispatch id (.usr k)
  | .pending id => .pending id
  | .allIds => .allIds
  | .wait => .wait
  | .waitFor d => .waitFor d
  | .process => .process
  | .processFor d => .processFor d
  | .sleepFor d => .sleepFor d
  | .init cb => .init (cb.map .usr)
  | .shutdown T => .shutdown T
  | .spawn n f => .spawn n (.usr f)
  | .join n => .join n
  | .detach n => .detach n

/-- Calls of user code into the synchronisation layer. The user's promise objects and std::mutex objects have the even names, those of
    the contexts the odd ones. -/
def mapS : SApi α → SApi (WTask α)
  | .lock n => .lock (2 * n)
  | .unlock n => .unlock (2 * n)
  | .cvWait n m => .cvWait n (2 * m)
  | .cvWaitFor n m d => .cvWaitFor n (2 * m) d
  | .notifyOne n => .notifyOne n
  | .notifyAll n => .notifyAll n
  | .mLock m => .mLock m
  | .mTry m => .mTry m
  | .mUnlock m => .mUnlock m
  | .promNew q v => .promNew (2 * q) v
  | .promDtor q => .promDtor (2 * q)
  | .promMove q q' => .promMove (2 * q) (2 * q')
  | .promSet q r => .promSet (2 * q) r
  | .getFuture q => .getFuture (2 * q)
  | .futWait p => .futWait p
  | .futWaitFor p d => .futWaitFor p d
  | .futGet p => .futGet p
  | .isReady p => .isReady p
  | .hasError p => .hasError p
  | .futThen p id as v a => .futThen p id as v (.usr a)
  | .async id as v a => .async id as v (.usr a)
  | .package q v => .package (2 * q) v
  | .runTask p a => .runTask p (.usr a)
  | .dropTask p a => .dropTask p (.usr a)

def liftW : WAct α φ → SAct (WTask α) (WFrame φ)
  | .goto f => .goto (.usr f)
  | .push f k => .push (.usr f) (.usr k)
  | .core a k => .core (mapW a) (.usr k)
  | .sync a k => .sync (mapS a) (.usr k)
  | .when tup any l k => .push (.wIn tup any l) (.usr k)
  | .ret v => .ret v
  | .throw e => .throw e
  | .terminate => .terminate

/-- The inputs, if all of them have a state. -/
def allSome : List (Option Nat × Bool) → Option (List (Nat × Bool))
  | [] => some []
  | (none, _) :: _ => none
  | (some q, b) :: l => (allSome l).map ((q, b) :: ·)

/-- The promise object (and the mutex) of a context. -/
def pob (c : Nat) : Nat := 2 * c + 1

/-- A future in a result: 0 without state, else the number of the state plus one. -/
def code : Option Nat → Nat
  | none => 0
  | some q => q + 1

/-- The value given to set_value, :250, 347, 360, 170, 79, 409. -/
def Ctx.value (x : Ctx) : Val :=
  if x.any then .anyRes (some x.index) (x.slots.map code) else .ids (x.slots.map code)

/-- The value of the result for no inputs, :221, 292, 260, 371; the index is size_t(-1). -/
def emptyVal (any : Bool) : Val := if any then .anyRes none [] else .ids []

/-- `recover_input_futures`, :306-317, 392-395, 97-107 -/
def recover : List (Option Nat) → List Nat → List (Option Nat)
  | none :: l, q :: m => some q :: recover l m
  | some q :: l, _ :: m => some q :: recover l m
  | l, _ => l

def WData.upd (d : WData δ) (c : Nat) (x : Ctx) : WData δ := { d with ctx := set d.ctx c x }

/-- The new context of when_any / when_all: `tup` has all elements of the tuple; when_any has filled it and the states (:146-153). -/
def newCtx (tup any : Bool) (ins : List (Nat × Bool)) : Ctx :=
  { any := any, tup := tup, total := ins.length, refs := 1, ins := ins
    slots := if tup then ins.map (fun x => if any then some x.1 else none) else []
    states := if tup && any then ins.map (·.1) else [] }

/-- Release of a reference; afterwards `k`. The last one destroys the context and its promise. -/
def release (d : WData δ) (c : Nat) (x : Ctx) (k : WFrame φ) : WData δ × SAct (WTask α) (WFrame φ) :=
  (d.upd c { x with refs := x.refs - 1 }, if x.refs - 1 = 0 then .sync (.promDtor (pob c)) k else .goto k)

/-- The code of when_all / when_any. -/
def wstep (v : View) (d : WData δ) (rv : Val) : WFrame φ → WData δ × SAct (WTask α) (WFrame φ)
  | .usr _ => (d, .terminate)
  | .wIn tup any l =>
    match allSome l with
    | none => (d, .terminate)
    | some ins =>
      ({ d.upd d.nctx (newCtx tup any ins) with nctx := d.nctx + 1 },
        .sync (.promNew (pob d.nctx) false)
          (if ins = [] then .mkS d.nctx else if tup then .wLoop d.nctx 0 0 0 ins else .wGet d.nctx ins))
  | .mkS c => (d, .sync (.promSet (pob c) (.val (emptyVal (d.ctx c).any))) (.mkG c))
  | .mkG c => (d, .sync (.getFuture (pob c)) (.mkD c))
  | .mkD c =>
    match rv with
    | .nat p => (d, .goto (.rel c (.ret p)))
    | _ => (d, .terminate)
  | .wGet c l => (d, .sync (.getFuture (pob c)) (.wGot c l))
  | .wGot c l =>
    match rv with
    | .nat p => (d, .goto (.wLoop c p v.id 0 l))
    | _ => (d, .terminate)
  | .wLoop c p _ _ [] =>
    (d, if (d.ctx c).any then .sync (.lock (pob c)) (.aIn c p)
      else if (d.ctx c).tup then .goto (.gGet c) else .goto (.rel c (.ret p)))
  | .wLoop c p id i ((q, sh) :: l) =>
    -- future::then moves the state out of result[index] (future.hpp:729), shared_future::then copies it
    (d.upd c { d.ctx c with
        slots := if (d.ctx c).tup then (d.ctx c).slots.set i (if sh then some q else none)
          else (d.ctx c).slots ++ [if sh then some q else none]
        states := if (d.ctx c).any && !(d.ctx c).tup then (d.ctx c).states ++ [q] else (d.ctx c).states
        refs := (d.ctx c).refs + 1
        made := (d.ctx c).made ++ [i] },
      .sync (.futThen (some q) (if (d.ctx c).tup then v.id else id) false true (.wk c i q)) (.wNext c p id i l))
  | .wNext c p id i l =>
    (d.upd c { d.ctx c with processed := (d.ctx c).processed + if (d.ctx c).any then 1 else 0 }, .goto (.wLoop c p id (i + 1) l))
  | .aIn c p =>
    if (d.ctx c).ready ≠ 0 ∧ (d.ctx c).pset = false then
      (d.upd c { d.ctx c with slots := recover (d.ctx c).slots (d.ctx c).states },
        .sync (.promSet (pob c) (.val { d.ctx c with slots := recover (d.ctx c).slots (d.ctx c).states }.value)) (.aSet c p))
    else (d, .goto (.aUnl c (.ret p)))
  | .aSet c p => (d.upd c { d.ctx c with pset := true }, .goto (.aUnl c (.ret p)))
  | .aUnl c r =>
    (d, .sync (.unlock (pob c)) (match r with
      | .ret p => if (d.ctx c).tup then .gGet c else .rel c (.ret p)
      | .thr e => .rel c (.thr e)))
  | .gGet c => (d, .sync (.getFuture (pob c)) (.gGot c))
  | .gGot c =>
    match rv with
    | .nat p => (d, .goto (.rel c (.ret p)))
    | _ => (d, .terminate)
  | .rel c r =>
    match r with
    | .ret p =>
      let x := release d c { d.ctx c with rel := (d.ctx c).rel + 1 } (.fin r)
      ({ x.1 with wlog := .returned v.tid c (d.ctx c).any ((d.ctx c).ins.map (·.1)) p :: d.wlog }, x.2)
    | .thr _ => release d c { d.ctx c with rel := (d.ctx c).rel + 1, abort := true } (.fin r)
  | .fin r =>
    match r with
    | .ret p => (d, .ret (.nat p))
    | .thr e => (d, .throw e)
  | .kIn c i q => (d, .sync (.lock (pob c)) (.kBody c i q))
  | .kBody c i q =>
    if (d.ctx c).any then
      if (d.ctx c).ready = 0 then
        let x := { d.ctx c with index := i, ready := 1, slots := (d.ctx c).slots.set i (some q), done := (d.ctx c).done ++ [i] }
        if x.processed = x.total ∧ x.pset = false then
          let y := { x with slots := recover x.slots x.states }
          (d.upd c y, .sync (.promSet (pob c) (.val y.value)) (.kSet c i))
        else (d.upd c x, .goto (.kUnl c i))
      else (d.upd c { d.ctx c with done := (d.ctx c).done ++ [i] }, .goto (.kUnl c i))
    else
      let x := { d.ctx c with slots := (d.ctx c).slots.set i (some q), ready := (d.ctx c).ready + 1, done := (d.ctx c).done ++ [i] }
      (d.upd c x, if x.ready = x.total then .sync (.promSet (pob c) (.val x.value)) (.kAll c i) else .goto (.kUnl c i))
  | .kSet c i => (d.upd c { d.ctx c with pset := true }, .goto (.kUnl c i))
  | .kAll c i => (d, .goto (.kUnl c i))
  | .kUnl c i => (d, .sync (.unlock (pob c)) (.kEnd c i))
  | .kEnd c i => (d.upd c { d.ctx c with ended := (d.ctx c).ended ++ [i] }, .ret .unit)
  | .kThr c i e => (d.upd c { d.ctx c with failed := (d.ctx c).failed ++ [i] }, .sync (.unlock (pob c)) (.kFin e))
  | .kFin e => (d, .throw e)
  | .dIn c i _ => release d c { d.ctx c with freed := (d.ctx c).freed ++ [i] } .dEnd
  | .dEnd => (d, .ret .unit)

/-- Unwinding of the objects of when_all / when_any and of the lambdas. -/
def wthrow : WFrame φ → Exn → Option (WFrame φ)
  | .mkS c, e => some (.rel c (.thr e))
  | .mkG c, e => some (.rel c (.thr e))
  | .mkD c, e => some (.rel c (.thr e))
  | .wGet c _, e => some (.rel c (.thr e))
  | .wGot c _, e => some (.rel c (.thr e))
  | .wNext c _ _ _ _, e => some (.rel c (.thr e))
  | .aSet c _, e => some (.aUnl c (.thr e))
  | .gGot c, e => some (.rel c (.thr e))
  | .kSet c i, e => some (.kThr c i e)
  | .kAll c i, e => some (.kThr c i e)
  | _, _ => none

/-- when_all and when_any plus user code are an application of the synchronisation layer. -/
def whenApp (U : WApp α φ δ χ) : App (WTask α) (WFrame φ) (WData δ) χ where
  run
    | .usr a => .usr (U.run a)
    | .wk c i q => .kIn c i q
  destroy
    | .usr a => .usr (U.destroy a)
    | .wk c i q => .dIn c i q
  step v d f rv ch :=
    match f with
    | .usr g =>
      match U.step v d.u g rv ch with
      | none => none
      | some (u, a) => some ({ d with u := u }, liftW a)
    | f =>
      match ch with
      | .go => some (wstep v d rv f)
      | _ => none
  onThrow f e :=
    match f with
    | .usr g => (U.onThrow g e).map .usr
    | f => wthrow f e

abbrev WSt (α φ δ : Type) := SSt (WTask α) (WFrame φ) (WData δ)

/-- States reachable with user code `U`. -/
abbrev WR (U : WApp α φ δ χ) (u : δ) (f : φ) (s : WSt α φ δ) : Prop := SR (whenApp U) { u := u } (.usr f) s

end
end When
end Itc
