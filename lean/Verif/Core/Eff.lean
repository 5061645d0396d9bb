import Verif.Core.Model

/-!
# Effect summary of one step (proof infrastructure, no claims)

`step_eff` classifies every step of the core machine into about twenty-five effects on the registry, the contexts,
the stacks, the thread-local pointers and the log.
-/
namespace Itc
namespace Core
section
variable {τ φ δ χ : Type}

/-- The frame holds a `shared_ptr` to context `c`. -/
def Frame.holds (c : Nat) : Frame τ φ → Bool
  | .core (.regDone d _) => d == c
  | .core (.release d _ _) => d == c
  | .core (.exitSet d) => d == c
  | .core (.invPush d _) => d == c
  | .core (.pendRead d) => d == c
  | _ => false

/-- The frame is a `process_one` of context `c` executing or destroying a task. -/
def Frame.task (c : Nat) : Frame τ φ → Bool
  | .core (.ran d _ _) => d == c
  | .core (.freed d _ _) => d == c
  | _ => false

/-- The frame is `~thread_context` of context `c`. -/
def Frame.dl (c : Nat) : Frame τ φ → Bool
  | .core (.destroyList d _ _ _) => d == c
  | _ => false

/-- Frames that never have a callee: the ones blocked or holding a `shared_ptr`. -/
def Frame.leaf : Frame τ φ → Bool
  | .core (.regDone _ _) => true
  | .core (.release _ _ _) => true
  | .core (.exitSet _) => true
  | .core (.invPush _ _) => true
  | .core (.pendRead _) => true
  | .core (.parked _ _) => true
  | _ => false

def Frame.isUnreg : Frame τ φ → Bool
  | .core .unregClear => true
  | _ => false

/-- Frames with no bookkeeping attached. -/
def Frame.plain : Frame τ φ → Bool
  | .core (.regDone _ _) => false
  | .core (.release _ _ _) => false
  | .core (.exitSet _) => false
  | .core (.invPush _ _) => false
  | .core (.pendRead _) => false
  | .core (.ran _ _ _) => false
  | .core (.freed _ _ _) => false
  | .core .unregClear => false
  | .core (.parked _ _) => false
  | _ => true

def Ev.neutral : Ev τ → Bool
  | .refused _ _ _ => true
  | .inlined _ _ _ => true
  | .pendRes _ _ _ _ => false
  | .inc _ => true
  | .dec _ => true
  | .ret _ _ _ => true
  | _ => false

/-- What a `ret` event produced by a frame that holds or destroys a context rests on. -/
def RetOK (t : Nat) (log : List (Ev τ)) : Fn → Val → Prop
  | .register n, v => ∃ id, v = .nat id ∧ Ev.regRes t n id ∈ log
  | .invoke id, v => v = .bool true ∧ ∃ c k, Ev.accepted t c id k ∈ log
  | .pending id, v => ∃ c n, v = .nat n ∧ Ev.pendRes t c id n ∈ log
  | .notifyExit, _ => True
  | .internal, _ => True
  | _, _ => False

/-- What a frame of thread `t` about to return rests on. -/
def FrOK (t : Nat) (log : List (Ev τ)) : Frame τ φ → Prop
  | .core (.regDone c _) => ∃ id n, Ev.registered c id n ∈ log ∧ Ev.regRes t n id ∈ log
  | .core (.retv (some id)) => ∃ k, Ev.refused t id k ∈ log
  | .core (.retv none) => ∃ id k, Ev.inlined t id k ∈ log
  | .core (.dispRan k) => ∃ id, Ev.inlined t id k ∈ log
  | .core (.ran c k _) => Ev.started t c k ∈ log
  | .core (.release _ f v) => RetOK t log f v
  | .core (.destroyList _ _ f v) => RetOK t log f v
  | _ => True

/-- What is known about the state in which a neutral event is produced.  `old`: the frame on top,
    `l`: the log before the event. -/
def EvOK (s : St τ φ δ) (t : Nat) (old : Frame τ φ) (e : Ev τ) (l : List (Ev τ)) : Prop :=
  match e with
  | .refused u id _ => u = t ∧ (id = 0 ∨ s.find id = none)
  | .inlined u id _ => u = t ∧ s.getId t = id
  | .ret u f v => u = t ∧
    match f with
    | .allIds => v = .ids (s.contexts.map (·.1))
    | .pending id => (id = 0 ∨ s.find id = none) ∧ v = .nat 0
    | .process => (s.thr t).loc = none ∨
        ∃ c, (s.thr t).loc = some c ∧ ((s.ctxs c).exit = true ∨ (s.ctxs c).pop = none)
    | .invoke id => v = .bool false ∧ (old = .core (.retv (some id)) ∨ ∃ k, Ev.refused t id k ∈ l)
    | .dispatch => v = .bool true ∧ old = .core (.retv none)
    | .register _ => False
    | _ => True
  | _ => True

def EvsOK (s : St τ φ δ) (t : Nat) (old : Frame τ φ) : List (Ev τ) → Prop
  | [] => True
  | e :: post => EvOK s t old e (post ++ s.log) ∧ EvsOK s t old post

def St.stk (s : St τ φ δ) : Nat → List (Frame τ φ) := fun u => (s.thr u).stack
def St.loc (s : St τ φ δ) : Nat → Option Nat := fun u => (s.thr u).loc

/-- The registry is unchanged. -/
structure SameReg (s s' : St τ φ δ) : Prop where
  gen : s'.gen = s.gen
  idMap : s'.idMap = s.idMap
  contexts : s'.contexts = s.contexts
  nctx : s'.nctx = s.nctx

inductive Eff (C : Client τ φ δ χ) (s : St τ φ δ) (t : Nat) (s' : St τ φ δ) : Prop
  | ctl (es : List (Ev τ)) (old : Frame τ φ) (new rest : List (Frame τ φ))
      (hreg : SameReg s s') (hctx : s'.ctxs = s.ctxs) (hloc : s'.loc = s.loc)
      (hold : s.stk t = old :: rest) (holdp : old.plain = true)
      (hstk : s'.stk = upd s.stk t (new ++ rest)) (hnewp : ∀ f ∈ new, f.plain = true)
      (hdl : ∀ c, ∀ f ∈ new, f.dl c = true → old.dl c = true)
      (hlog : s'.log = es ++ s.log) (hes : ∀ e ∈ es, e.neutral = true) (hok : EvsOK s t old es)
      (hfr : FrOK t s.log old → ∀ f ∈ new, FrOK t s'.log f)
  | halt (hreg : SameReg s s') (hctx : s'.ctxs = s.ctxs) (hloc : s'.loc = s.loc)
      (hstk : s'.stk = s.stk) (hlog : s'.log = s.log)
  | fin (hreg : SameReg s s') (hctx : s'.ctxs = s.ctxs) (hold : s.stk t = [])
      (hloc : s'.loc = upd s.loc t none) (hstk : s'.stk = s.stk) (hlog : s'.log = s.log)
  | spawn (n : Nat) (f : φ) (v : Val) (rest : List (Frame τ φ)) (hreg : SameReg s s') (hctx : s'.ctxs = s.ctxs)
      (hold : s.stk t = .core (.spawnIn n f) :: rest) (hfree : (s.thr n).status = .free) (hne : n ≠ t)
      (hloc : s'.loc = upd s.loc n none)
      (hstk : s'.stk = upd (upd s.stk n [.client f]) t rest) (hlog : s'.log = .ret t .spawn v :: s.log)
  | regFound (n? : Option Nat) (n c : Nat) (self : Bool) (rest : List (Frame τ φ))
      (hold : s.stk t = .core (.regLook n?) :: rest) (hself : self = true → n = t) (hfind : s.find (s.regId n) = some c)
      (hgen : s'.gen = s.regGen n) (hidm : s'.idMap = s.idMap) (hcon : s'.contexts = s.contexts)
      (hn : s'.nctx = s.nctx)
      (hctx : s'.ctxs = upd s.ctxs c { s.ctxs c with holders := t :: (s.ctxs c).holders })
      (hloc : s'.loc = s.loc) (hstk : s'.stk = upd s.stk t (.core (.regDone c self) :: rest))
      (hlog : s'.log = .regRes t n (s.ctxs c).id :: s.log)
  | regNew (n? : Option Nat) (n : Nat) (self : Bool) (rest : List (Frame τ φ))
      (hold : s.stk t = .core (.regLook n?) :: rest) (hself : self = true → n = t) (hfind : s.find (s.regId n) = none)
      (hgen : s'.gen = s.regGen n) (hidm : s'.idMap = upd s.idMap n (some (s.regId n)))
      (hcon : s'.contexts = s.contexts ++ [(s.regId n, s.nctx)])
      (hn : s'.nctx = s.nctx + 1)
      (hctx : s'.ctxs = upd s.ctxs s.nctx { native := n, id := s.regId n, holders := [t] })
      (hloc : s'.loc = s.loc) (hstk : s'.stk = upd s.stk t (.core (.regDone s.nctx self) :: rest))
      (hlog : s'.log = .regRes t n (s.regId n) :: .registered s.nctx (s.regId n) n :: s.log)
  | regDone (c : Nat) (self : Bool) (rest : List (Frame τ φ)) (hreg : SameReg s s') (hctx : s'.ctxs = s.ctxs)
      (hold : s.stk t = .core (.regDone c self) :: rest)
      (hloc : s'.loc = if self then upd s.loc t (some c) else s.loc)
      (hstk : s'.stk = upd s.stk t (.core (.release c (.register (s.ctxs c).native) (.nat (s.ctxs c).id)) :: rest))
      (hlog : s'.log = s.log)
  | unregNone (rest : List (Frame τ φ)) (hreg : SameReg s s') (hctx : s'.ctxs = s.ctxs)
      (hold : s.stk t = .core .unreg :: rest) (hfind : s.find (s.getId t) = none)
      (hloc : s'.loc = s.loc) (hstk : s'.stk = upd s.stk t (.core .unregClear :: rest)) (hlog : s'.log = s.log)
  | unreg (c : Nat) (rest : List (Frame τ φ)) (hold : s.stk t = .core .unreg :: rest)
      (hfind : s.find (s.getId t) = some c)
      (hgen : s'.gen = s.gen) (hn : s'.nctx = s.nctx)
      (hidm : s'.idMap = upd s.idMap (s.ctxs c).native none)
      (hcon : s'.contexts = s.contexts.filter (fun p => !(p.1 == s.getId t)))
      (hctx : s'.ctxs = upd s.ctxs c { s.ctxs c with holders := t :: (s.ctxs c).holders })
      (hloc : s'.loc = s.loc)
      (hstk : s'.stk = upd s.stk t (.core (.release c .internal .unit) :: .core .unregClear :: rest))
      (hlog : s'.log = .unregistered c (s.getId t) (s.ctxs c).native ::
        (if rest.any Frame.inTask then .nestedUnreg t c :: s.log else s.log))
  | unregClear (rest : List (Frame τ φ)) (hreg : SameReg s s') (hctx : s'.ctxs = s.ctxs)
      (hold : s.stk t = .core .unregClear :: rest) (hloc : s'.loc = upd s.loc t none)
      (hstk : s'.stk = upd s.stk t rest) (hlog : s'.log = .ret t .unregister .unit :: s.log)
  | hold (id c : Nat) (f g : Frame τ φ) (rest : List (Frame τ φ)) (hreg : SameReg s s')
      (hold : s.stk t = f :: rest) (hf : f.plain = true) (hg : ∀ d, g.holds d = (c == d))
      (hgt : ∀ d, g.task d = false) (hgu : g.isUnreg = false) (hgd : ∀ d, g.dl d = false)
      (hgp : ∀ d dl, g ≠ .core (.parked d dl)) (hgr : ∀ d b, g ≠ .core (.regDone d b)) (hgf : ∀ log, FrOK t log g)
      (hfind : s.find id = some c)
      (hctx : s'.ctxs = upd s.ctxs c { s.ctxs c with holders := t :: (s.ctxs c).holders })
      (hloc : s'.loc = s.loc) (hstk : s'.stk = upd s.stk t (g :: rest)) (hlog : s'.log = s.log)
  | relLast (c : Nat) (f : Fn) (v : Val) (rest : List (Frame τ φ)) (hreg : SameReg s s')
      (hold : s.stk t = .core (.release c f v) :: rest)
      (hemp : (s.ctxs c).holders.erase t = []) (hnot : ∀ i, (i, c) ∉ s.contexts)
      (hctx : s'.ctxs = upd s.ctxs c { s.ctxs c with
        holders := [], life := .dying, tasks := [], proc := [], idx := 0 })
      (hloc : s'.loc = s.loc)
      (hstk : s'.stk = upd s.stk t (.core (.destroyList c (s.ctxs c).pend f v) :: rest))
      (hlog : s'.log = ((s.ctxs c).pend.map (Ev.dropped t c)).reverse ++ s.log)
  | relKeep (c : Nat) (f : Fn) (v : Val) (rest : List (Frame τ φ)) (hreg : SameReg s s')
      (hold : s.stk t = .core (.release c f v) :: rest)
      (hkeep : (s.ctxs c).holders.erase t ≠ [] ∨ ∃ i, (i, c) ∈ s.contexts)
      (hctx : s'.ctxs = upd s.ctxs c { s.ctxs c with holders := (s.ctxs c).holders.erase t })
      (hloc : s'.loc = s.loc)
      (hstk : s'.stk = upd s.stk t rest) (hlog : s'.log = .ret t f v :: s.log)
  | destroyed (c : Nat) (f : Fn) (v : Val) (rest : List (Frame τ φ)) (hreg : SameReg s s')
      (hold : s.stk t = .core (.destroyList c [] f v) :: rest)
      (hctx : s'.ctxs = upd s.ctxs c { s.ctxs c with life := .dead })
      (hloc : s'.loc = s.loc)
      (hstk : s'.stk = upd s.stk t rest) (hlog : s'.log = .ret t f v :: s.log)
  | exitSet (c : Nat) (rest : List (Frame τ φ)) (hreg : SameReg s s')
      (hold : s.stk t = .core (.exitSet c) :: rest) (halive : (s.ctxs c).life = .alive)
      (hctx : s'.ctxs = upd s.ctxs c { s.ctxs c with exit := true, wakeup := true, cv := true })
      (hloc : s'.loc = s.loc)
      (hstk : s'.stk = upd s.stk t (.core (.release c .notifyExit .unit) :: rest))
      (hlog : s'.log = .exitSet c :: s.log)
  | invPush (c : Nat) (k : τ) (rest : List (Frame τ φ)) (hreg : SameReg s s')
      (hold : s.stk t = .core (.invPush c k) :: rest) (halive : (s.ctxs c).life = .alive)
      (hctx : s'.ctxs = upd s.ctxs c
        { s.ctxs c with tasks := (s.ctxs c).tasks ++ [k], wakeup := true, cv := true })
      (hloc : s'.loc = s.loc)
      (hstk : s'.stk = upd s.stk t (.core (.release c (.invoke (s.ctxs c).id) (.bool true)) :: rest))
      (hlog : s'.log = .accepted t c (s.ctxs c).id k :: s.log)
  | pendRead (c : Nat) (n : Nat) (rest : List (Frame τ φ)) (hreg : SameReg s s') (hctx : s'.ctxs = s.ctxs)
      (hold : s.stk t = .core (.pendRead c) :: rest)
      (halive : (s.ctxs c).life = .alive)
      (hval : n = (s.ctxs c).depth + ((s.ctxs c).proc.length - (s.ctxs c).idx) + (s.ctxs c).tasks.length)
      (hloc : s'.loc = s.loc)
      (hstk : s'.stk = upd s.stk t (.core (.release c (.pending (s.ctxs c).id) (.nat n)) :: rest))
      (hlog : s'.log = .pendRes t c (s.ctxs c).id n :: s.log)
  | start (c : Nat) (k : τ) (x : Ctx τ) (r : Cont) (f : Frame τ φ) (rest : List (Frame τ φ)) (w : Bool)
      (hreg : SameReg s s') (hold : s.stk t = f :: rest)
      (hf : (f.plain = true ∧ s.loc t = some c ∧ w = (s.ctxs c).wakeup) ∨
            (∃ dl, f = .core (.parked c dl) ∧ w = false))
      (halive : (s.ctxs c).life = .alive)
      (hpop : ({ s.ctxs c with wakeup := w } : Ctx τ).pop = some (k, x))
      (hctx : s'.ctxs = upd s.ctxs c x)
      (hloc : s'.loc = s.loc)
      (hstk : s'.stk = upd s.stk t (.client (C.run k) :: .core (.ran c k r) :: rest))
      (hlog : s'.log = .started t c k :: s.log)
  | park (c : Nat) (d : Option Nat) (rest : List (Frame τ φ)) (hreg : SameReg s s')
      (hold : s.stk t = .core (.waitIn d) :: rest) (hlc : s.loc t = some c)
      (halive : (s.ctxs c).life = .alive) (hpop : (s.ctxs c).pop = none) (hexit : (s.ctxs c).exit = false)
      (hctx : s'.ctxs = upd s.ctxs c { s.ctxs c with wakeup := false, cv := false })
      (hloc : s'.loc = s.loc)
      (hstk : s'.stk = upd s.stk t (.core (.parked c (d.map (s.clock + ·))) :: rest)) (hlog : s'.log = s.log)
  | rewait (c : Nat) (dl : Option Nat) (rest : List (Frame τ φ)) (hreg : SameReg s s')
      (hold : s.stk t = .core (.parked c dl) :: rest)
      (halive : (s.ctxs c).life = .alive) (hw : (s.ctxs c).wakeup = false)
      (hctx : s'.ctxs = upd s.ctxs c { s.ctxs c with cv := false })
      (hloc : s'.loc = s.loc) (hstk : s'.stk = s.stk) (hlog : s'.log = s.log)
  | parkRet (c : Nat) (dl : Option Nat) (b : Bool) (rest : List (Frame τ φ)) (hreg : SameReg s s')
      (hold : s.stk t = .core (.parked c dl) :: rest)
      (halive : (s.ctxs c).life = .alive) (hpop : ({ s.ctxs c with wakeup := false } : Ctx τ).pop = none)
      (hctx : s'.ctxs = upd s.ctxs c { s.ctxs c with wakeup := false })
      (hloc : s'.loc = s.loc) (hstk : s'.stk = upd s.stk t rest)
      (hlog : s'.log = .ret t .wait (.cv b) :: s.log)
  | ran (c : Nat) (k : τ) (r : Cont) (rest : List (Frame τ φ)) (hreg : SameReg s s') (hctx : s'.ctxs = s.ctxs)
      (hold : s.stk t = .core (.ran c k r) :: rest)
      (hloc : s'.loc = s.loc)
      (hstk : s'.stk = upd s.stk t (.client (C.destroy k) :: .core (.freed c k r) :: rest))
      (hlog : s'.log = s.log)
  | freed (c : Nat) (k : τ) (r : Cont) (new rest : List (Frame τ φ)) (es : List (Ev τ)) (hreg : SameReg s s')
      (hold : s.stk t = .core (.freed c k r) :: rest) (halive : (s.ctxs c).life = .alive)
      (hctx : s'.ctxs = upd s.ctxs c { s.ctxs c with depth := (s.ctxs c).depth - 1 })
      (hloc : s'.loc = s.loc)
      (hstk : s'.stk = upd s.stk t (new ++ rest)) (hnewp : ∀ f ∈ new, f.plain = true)
      (hnewd : ∀ c, ∀ f ∈ new, f.dl c = false)
      (hlog : s'.log = es ++ .finished t c k :: s.log) (hes : ∀ e ∈ es, e.neutral = true)
      (hes' : es = [] ∨ ∃ b, es = [.ret t .wait (.cv b)]) (hfr : ∀ f ∈ new, FrOK t s'.log f)
  | threw (c : Nat) (k : τ) (r : Cont) (e : Exn) (rest : List (Frame τ φ)) (hreg : SameReg s s')
      (hctx : s'.ctxs = s.ctxs)
      (hold : s.stk t = .core (.ran c k r) :: rest) (hloc : s'.loc = s.loc)
      (hstk : s'.stk = upd s.stk t (.client (C.destroy k) :: .core (.rethrow e) :: rest))
      (hlog : s'.log = .threw t c :: s.log)

@[simp] theorem upd_self {β : Type} (f : Nat → β) (a : Nat) : upd f a (f a) = f := by
  funext x; by_cases h : x = a <;> simp [upd, h]

@[simp] theorem upd_upd {β : Type} (f : Nat → β) (a : Nat) (b b' : β) : upd (upd f a b) a b' = upd f a b' := by
  funext x; by_cases h : x = a <;> simp [upd, h]

theorem stk_upd (th : Nat → Thr τ φ) (t : Nat) (x : Thr τ φ) :
    (fun u => (upd th t x u).stack) = upd (fun u => (th u).stack) t x.stack := by
  funext u; by_cases h : u = t <;> simp [upd, h]

theorem loc_upd (th : Nat → Thr τ φ) (t : Nat) (x : Thr τ φ) :
    (fun u => (upd th t x u).loc) = upd (fun u => (th u).loc) t x.loc := by
  funext u; by_cases h : u = t <;> simp [upd, h]

theorem upd_same_loc (th : Nat → Thr τ φ) (t : Nat) : upd (fun u => (th u).loc) t (th t).loc = fun u => (th u).loc :=
  upd_self _ _

theorem loc_def (s : St τ φ δ) (t : Nat) : s.loc t = (s.thr t).loc := rfl
theorem stk_def (s : St τ φ δ) (t : Nat) : s.stk t = (s.thr t).stack := rfl

theorem locs_eq (s : St τ φ δ) : s.loc = fun u => (s.thr u).loc := rfl
theorem stks_eq (s : St τ φ δ) : s.stk = fun u => (s.thr u).stack := rfl

/-- Closes the field equations of an `Eff` constructor. -/
local macro "eff" : tactic => `(tactic|
  first
  | assumption
  | exact ⟨rfl, rfl, rfl, rfl⟩
  | rfl
  | (simp [locs_eq, stks_eq, St.setStk, St.ret, St.ev, St.setCtx, St.hold, St.startTask, stk_upd, loc_upd,
      upd_same_loc, Frame.plain, Frame.dl, Ev.neutral, EvsOK, EvOK, FrOK]; done)
  | (simp_all [locs_eq, stks_eq, St.setStk, St.ret, St.ev, St.setCtx, St.hold, St.startTask, stk_upd, loc_upd,
      upd_same_loc, Frame.plain, Frame.dl, Ev.neutral, EvsOK, EvOK, FrOK]; done))

/-- A `ctl` step: the frame `f` is replaced by `new`. -/
local macro "ctl" es:term "," old:term "," new:term "," rest:term : tactic => `(tactic|
  (refine Eff.ctl (es := $es) (old := $old) (new := $new) (rest := $rest) ?_ ?_ ?_ ?_ ?_ ?_ ?_ ?_ ?_ ?_ ?_ ?_ <;> eff))

set_option maxHeartbeats 1000000 in
theorem stepCore_eff (C : Client τ φ δ χ) (s s' : St τ φ δ) (t : Nat) (f : CF τ φ) (rest : List (Frame τ φ))
    (ch : Ch χ) (hstk : (s.thr t).stack = .core f :: rest) (hrun : (s.thr t).status = .running)
    (h : stepCore C s t f rest ch = some s') : Eff C s t s' := by
  cases f with
  | regLook n? =>
    simp only [stepCore] at h
    have hself : n?.isNone = true → n?.getD t = t := by cases n? <;> simp
    split at h
    · exact absurd h (by simp)
    · split at h
      · rename_i c hf
        obtain rfl := Option.some.inj h
        exact .regFound n? (n?.getD t) c _ rest hstk hself hf rfl rfl rfl rfl rfl (by eff) (by eff) rfl
      · rename_i hf
        obtain rfl := Option.some.inj h
        exact .regNew n? (n?.getD t) _ rest hstk hself hf rfl rfl rfl rfl rfl (by eff) (by eff) rfl
  | regDone c self =>
    simp only [stepCore] at h
    obtain rfl := Option.some.inj h
    cases self
    · exact .regDone c false rest ⟨rfl, rfl, rfl, rfl⟩ rfl hstk (by eff) (by eff) rfl
    · exact .regDone c true rest ⟨rfl, rfl, rfl, rfl⟩ rfl hstk (by eff) (by eff) rfl
  | unreg =>
    simp only [stepCore] at h
    split at h
    · exact absurd h (by simp)
    · split at h
      · rename_i hf
        obtain rfl := Option.some.inj h
        exact .unregNone rest ⟨rfl, rfl, rfl, rfl⟩ rfl hstk hf (by eff) (by eff) rfl
      · rename_i c hf
        obtain rfl := Option.some.inj h
        exact .unreg c rest hstk hf rfl rfl rfl rfl rfl (by eff) (by eff) rfl
  | unregClear =>
    simp only [stepCore] at h
    obtain rfl := Option.some.inj h
    exact .unregClear rest ⟨rfl, rfl, rfl, rfl⟩ rfl hstk (by eff) (by eff) rfl
  | release c f v =>
    simp only [stepCore] at h
    split at h
    · rename_i hc
      obtain rfl := Option.some.inj h
      simp only [Bool.and_eq_true, List.isEmpty_iff, Bool.not_eq_true', List.any_eq_false, beq_iff_eq,
        Prod.forall] at hc
      exact .relLast c f v rest ⟨rfl, rfl, rfl, rfl⟩ hstk hc.1 (fun i hi => hc.2 i c hi rfl)
        (by simp [St.setCtx, St.setStk, hc.1]) (by eff) (by eff) rfl
    · rename_i hc
      obtain rfl := Option.some.inj h
      refine .relKeep c f v rest ⟨rfl, rfl, rfl, rfl⟩ hstk ?_ rfl (by eff) (by eff) rfl
      simp only [Bool.and_eq_true, List.isEmpty_iff, Bool.not_eq_true', List.any_eq_false, beq_iff_eq,
        Prod.forall] at hc
      by_cases he : (s.ctxs c).holders.erase t = []
      · refine .inr (Classical.byContradiction fun hn => hc ⟨he, fun i d hd hdc => hn ⟨i, hdc ▸ hd⟩⟩)
      · exact .inl he
  | destroyList c l f v =>
    cases l with
    | nil =>
      simp only [stepCore] at h
      obtain rfl := Option.some.inj h
      exact .destroyed c f v rest ⟨rfl, rfl, rfl, rfl⟩ hstk rfl (by eff) (by eff) rfl
    | cons k l =>
      simp only [stepCore] at h
      obtain rfl := Option.some.inj h
      ctl [], (.core (.destroyList c (k :: l) f v)), [.client (C.destroy k), .core (.destroyList c l f v)], rest
  | exitLook id =>
    simp only [stepCore] at h
    split at h
    · exact absurd h (by simp)
    · split at h
      · obtain rfl := Option.some.inj h
        ctl [.ret t .notifyExit .unit], (.core (.exitLook id)), [], rest
      · rename_i c hf
        obtain rfl := Option.some.inj h
        exact .hold id c _ (.core (.exitSet c)) rest ⟨rfl, rfl, rfl, rfl⟩ hstk rfl (fun _ => rfl) (fun _ => rfl)
          rfl (fun _ => rfl) (by simp) (by simp) (fun _ => trivial) hf rfl (by eff) (by eff) rfl
  | exitSet c =>
    simp only [stepCore] at h
    split at h
    · obtain rfl := Option.some.inj h
      exact .halt ⟨rfl, rfl, rfl, rfl⟩ rfl rfl rfl rfl
    · rename_i hal
      obtain rfl := Option.some.inj h
      exact .exitSet c rest ⟨rfl, rfl, rfl, rfl⟩ hstk (by simpa using hal) rfl (by eff) (by eff) rfl
  | invLook id k own =>
    simp only [stepCore] at h
    have href : (id = 0 ∨ s.find id = none) → (if own = true then
        some ((s.ev (.refused t id k)).setStk t
          (.client (C.destroy k) :: .core (.retv (some id)) :: rest))
      else some ((s.ev (.refused t id k)).ret t rest (.invoke id) (.bool false))) = some s' → Eff C s t s' := by
      intro hid h
      split at h
      · obtain rfl := Option.some.inj h
        ctl [.refused t id k], (.core (.invLook id k own)),
          [.client (C.destroy k), .core (.retv (some id))], rest
      · obtain rfl := Option.some.inj h
        ctl [.ret t (.invoke id) (.bool false), .refused t id k], (.core (.invLook id k own)), [], rest
    split at h
    · exact href (.inl ‹_›) h
    · split at h
      · exact absurd h (by simp)
      · split at h
        · exact href (.inr ‹_›) h
        · rename_i c hf
          obtain rfl := Option.some.inj h
          exact .hold id c _ (.core (.invPush c k)) rest ⟨rfl, rfl, rfl, rfl⟩ hstk rfl (fun _ => rfl) (fun _ => rfl)
            rfl (fun _ => rfl) (by simp) (by simp) (fun _ => trivial) hf rfl (by eff) (by eff) rfl
  | invPush c k =>
    simp only [stepCore] at h
    split at h
    · obtain rfl := Option.some.inj h
      exact .halt ⟨rfl, rfl, rfl, rfl⟩ rfl rfl rfl rfl
    · rename_i hal
      obtain rfl := Option.some.inj h
      exact .invPush c k rest ⟨rfl, rfl, rfl, rfl⟩ hstk (by simpa using hal) rfl (by eff) (by eff) rfl
  | retv d =>
    cases d with
    | none =>
      simp only [stepCore] at h
      obtain rfl := Option.some.inj h
      ctl [.ret t .dispatch (.bool true)], (.core (.retv none)), [], rest
    | some id =>
      simp only [stepCore] at h
      obtain rfl := Option.some.inj h
      ctl [.ret t (.invoke id) (.bool false)], (.core (.retv (some id))), [], rest
  | dispatch id k =>
    simp only [stepCore] at h
    split at h
    · obtain rfl := Option.some.inj h
      ctl [.inlined t id k], (.core (.dispatch id k)), [.client (C.run k), .core (.dispRan k)], rest
    · obtain rfl := Option.some.inj h
      ctl [], (.core (.dispatch id k)), [.core (.invLook id k true)], rest
  | dispRan k =>
    simp only [stepCore] at h
    obtain rfl := Option.some.inj h
    refine Eff.ctl (es := []) (old := (.core (.dispRan k))) (new := [.client (C.destroy k), .core (.retv none)])
      (rest := rest) ?_ ?_ ?_ ?_ ?_ ?_ ?_ ?_ ?_ ?_ ?_ ?_
    rotate_right
    · rintro ⟨id, hid⟩ f hf
      simp only [List.mem_cons, List.not_mem_nil, or_false] at hf
      rcases hf with rfl | rfl
      · trivial
      · exact ⟨id, k, hid⟩
    all_goals eff
  | pendLook id =>
    simp only [stepCore] at h
    split at h
    · obtain rfl := Option.some.inj h
      ctl [.ret t (.pending id) (.nat 0)], (.core (.pendLook id)), [], rest
    · split at h
      · exact absurd h (by simp)
      · split at h
        · obtain rfl := Option.some.inj h
          ctl [.ret t (.pending id) (.nat 0)], (.core (.pendLook id)), [], rest
        · rename_i c hf
          obtain rfl := Option.some.inj h
          exact .hold id c _ (.core (.pendRead c)) rest ⟨rfl, rfl, rfl, rfl⟩ hstk rfl (fun _ => rfl) (fun _ => rfl)
            rfl (fun _ => rfl) (by simp) (by simp) (fun _ => trivial) hf rfl (by eff) (by eff) rfl
  | pendRead c =>
    simp only [stepCore] at h
    split at h
    · obtain rfl := Option.some.inj h
      exact .halt ⟨rfl, rfl, rfl, rfl⟩ rfl rfl rfl rfl
    · rename_i hal
      obtain rfl := Option.some.inj h
      exact .pendRead c _ rest ⟨rfl, rfl, rfl, rfl⟩ rfl hstk (by simpa using hal) rfl (by eff) (by eff) rfl
  | allIds =>
    simp only [stepCore] at h
    split at h
    · exact absurd h (by simp)
    · obtain rfl := Option.some.inj h
      ctl [.ret t .allIds (.ids (s.contexts.map (·.1)))], (.core .allIds), [], rest
  | waitIn d =>
    simp only [stepCore] at h
    split at h
    · obtain rfl := Option.some.inj h
      ctl [.ret t .wait (.cv false)], (.core (.waitIn d)), [], rest
    · rename_i c hl
      split at h
      · obtain rfl := Option.some.inj h
        exact .halt ⟨rfl, rfl, rfl, rfl⟩ rfl rfl rfl rfl
      · rename_i hal
        split at h
        · rename_i k x hp
          obtain rfl := Option.some.inj h
          exact .start c k x (.toWait false) _ rest _ ⟨rfl, rfl, rfl, rfl⟩ hstk (.inl ⟨rfl, hl, rfl⟩) (by simpa using hal) hp rfl
            (by eff) (by eff) rfl
        · rename_i hp
          split at h
          · obtain rfl := Option.some.inj h
            ctl [.ret t .wait (.cv false)], (.core (.waitIn d)), [], rest
          · rename_i hx
            obtain rfl := Option.some.inj h
            exact .park c d rest ⟨rfl, rfl, rfl, rfl⟩ hstk hl (by simpa using hal) hp (by simpa using hx) rfl
              (by eff) (by eff) rfl
  | parked c dl =>
    simp only [stepCore] at h
    split at h
    · obtain rfl := Option.some.inj h
      exact .halt ⟨rfl, rfl, rfl, rfl⟩ rfl rfl rfl rfl
    · rename_i hal
      have hal : (s.ctxs c).life = .alive := by simpa using hal
      have hproc : ∀ b, (match ({ s.ctxs c with wakeup := false } : Ctx τ).pop with
          | some (k, x) => some (s.startTask C t c k x (.toWait b) rest)
          | none => some ((s.setCtx c { s.ctxs c with wakeup := false }).ret t rest .wait (.cv b))) = some s' →
          Eff C s t s' := by
        intro b h
        split at h
        · rename_i k x hp
          obtain rfl := Option.some.inj h
          exact .start c k x (.toWait b) _ rest _ ⟨rfl, rfl, rfl, rfl⟩ hstk (.inr ⟨dl, rfl, rfl⟩) hal hp rfl
            (by eff) (by eff) rfl
        · rename_i hp
          obtain rfl := Option.some.inj h
          exact .parkRet c dl b rest ⟨rfl, rfl, rfl, rfl⟩ hstk hal hp rfl (by eff) (by eff) rfl
      split at h
      · split at h
        · split at h
          · exact hproc _ h
          · rename_i hw
            obtain rfl := Option.some.inj h
            exact .rewait c dl rest ⟨rfl, rfl, rfl, rfl⟩ hstk hal (by simpa using hw) rfl rfl rfl rfl
        · exact absurd h (by simp)
      · split at h
        · exact hproc _ h
        · exact absurd h (by simp)
      · split at h
        · exact absurd h (by simp)
        · split at h
          · exact hproc _ h
          · exact absurd h (by simp)
      · exact absurd h (by simp)
  | waitForIn d =>
    simp only [stepCore] at h
    split at h
    · obtain rfl := Option.some.inj h
      ctl [.ret t .waitFor (.cv false)], (.core (.waitForIn d)), [], rest
    · obtain rfl := Option.some.inj h
      ctl [], (.core (.waitForIn d)), [.core (.waitIn (some (d.toNat / 1000 * 1000)))], rest
  | ran c k r =>
    simp only [stepCore] at h
    obtain rfl := Option.some.inj h
    exact .ran c k r rest ⟨rfl, rfl, rfl, rfl⟩ rfl hstk (by eff) (by eff) rfl
  | freed c k r =>
    simp only [stepCore] at h
    split at h
    · obtain rfl := Option.some.inj h
      exact .halt ⟨rfl, rfl, rfl, rfl⟩ rfl rfl rfl rfl
    · rename_i hal
      have hal : (s.ctxs c).life = .alive := by simpa using hal
      cases r with
      | toWait b =>
        obtain rfl := Option.some.inj h
        exact .freed c k _ [] rest [.ret t .wait (.cv b)] ⟨rfl, rfl, rfl, rfl⟩ hstk hal rfl (by eff) (by eff)
          (by simp) (by simp) rfl (by simp [Ev.neutral]) (by simp) (by simp)
      | toAll =>
        obtain rfl := Option.some.inj h
        exact .freed c k _ [.core .procAll] rest [] ⟨rfl, rfl, rfl, rfl⟩ hstk hal rfl (by eff) (by eff)
          (by simp [Frame.plain]) (by simp [Frame.dl]) rfl (by simp) (by simp) (by simp [FrOK])
      | toFor e =>
        obtain rfl := Option.some.inj h
        exact .freed c k _ [.core (.procFor e)] rest [] ⟨rfl, rfl, rfl, rfl⟩ hstk hal rfl (by eff) (by eff)
          (by simp [Frame.plain]) (by simp [Frame.dl]) rfl (by simp) (by simp) (by simp [FrOK])
  | procAll =>
    simp only [stepCore] at h
    split at h
    · obtain rfl := Option.some.inj h
      ctl [.ret t .process .unit], (.core .procAll), [], rest
    · rename_i c hl
      split at h
      · obtain rfl := Option.some.inj h
        exact .halt ⟨rfl, rfl, rfl, rfl⟩ rfl rfl rfl rfl
      · rename_i hal
        split at h
        · obtain rfl := Option.some.inj h
          ctl [.ret t .process .unit], (.core .procAll), [], rest
        · split at h
          · rename_i k x hp
            obtain rfl := Option.some.inj h
            exact .start c k x .toAll _ rest _ ⟨rfl, rfl, rfl, rfl⟩ hstk (.inl ⟨rfl, hl, rfl⟩) (by simpa using hal) hp rfl
              (by eff) (by eff) rfl
          · obtain rfl := Option.some.inj h
            ctl [.ret t .process .unit], (.core .procAll), [], rest
  | procForIn d =>
    simp only [stepCore] at h
    split at h
    · obtain rfl := Option.some.inj h
      ctl [.ret t .processFor .unit], (.core (.procForIn d)), [], rest
    · obtain rfl := Option.some.inj h
      ctl [], (.core (.procForIn d)), [.core (.procFor (s.clock + d.toNat / 1000 * 1000))], rest
  | procFor e =>
    simp only [stepCore] at h
    split at h
    · obtain rfl := Option.some.inj h
      ctl [.ret t .processFor .unit], (.core (.procFor e)), [], rest
    · rename_i c hl
      split at h
      · obtain rfl := Option.some.inj h
        exact .halt ⟨rfl, rfl, rfl, rfl⟩ rfl rfl rfl rfl
      · rename_i hal
        split at h
        · obtain rfl := Option.some.inj h
          ctl [.ret t .processFor .unit], (.core (.procFor e)), [], rest
        · split at h
          · rename_i k x hp
            obtain rfl := Option.some.inj h
            exact .start c k x (.toFor e) _ rest _ ⟨rfl, rfl, rfl, rfl⟩ hstk (.inl ⟨rfl, hl, rfl⟩) (by simpa using hal) hp rfl
              (by eff) (by eff) rfl
          · obtain rfl := Option.some.inj h
            ctl [.ret t .processFor .unit], (.core (.procFor e)), [], rest
  | sleepIn d =>
    simp only [stepCore] at h
    split at h
    · obtain rfl := Option.some.inj h
      ctl [.ret t .sleepFor .unit], (.core (.sleepIn d)), [], rest
    · obtain rfl := Option.some.inj h
      ctl [], (.core (.sleepIn d)), [.core (.sleep (s.clock + d.toNat) s.clock)], rest
  | sleep e now =>
    simp only [stepCore] at h
    split at h
    · split at h
      · obtain rfl := Option.some.inj h
        ctl [.ret t .sleepFor .unit], (.core (.sleep e now)), [], rest
      · obtain rfl := Option.some.inj h
        ctl [], (.core (.sleep e now)), [.core (.waitForIn ((e - now : Nat) : Int)), .core (.sleepNow e)], rest
    · obtain rfl := Option.some.inj h
      ctl [.ret t .sleepFor .unit], (.core (.sleep e now)), [], rest
  | sleepNow e =>
    simp only [stepCore] at h
    obtain rfl := Option.some.inj h
    ctl [], (.core (.sleepNow e)), [.core (.sleep e s.clock)], rest
  | initIn cb =>
    simp only [stepCore] at h
    split at h
    · obtain rfl := Option.some.inj h
      ctl [.ret t .init .unit, .inc t], (.core (.initIn cb)), [], rest
    · obtain rfl := Option.some.inj h
      ctl [.inc t], (.core (.initIn cb)), [.core (.regLook none), .core (.initCfg cb)], rest
  | initCfg cb =>
    simp only [stepCore] at h
    split at h
    · exact absurd h (by simp)
    · cases cb with
      | none =>
        obtain rfl := Option.some.inj h
        ctl [.ret t .init .unit], (.core (.initCfg none)), [], rest
      | some f =>
        obtain rfl := Option.some.inj h
        ctl [], (.core (.initCfg (some f))), [.client f, .core .initEnd], rest
  | initEnd =>
    simp only [stepCore] at h
    obtain rfl := Option.some.inj h
    ctl [.ret t .init .unit], (.core .initEnd), [], rest
  | sdIn T =>
    simp only [stepCore] at h
    split at h
    · obtain rfl := Option.some.inj h
      ctl [.ret t .shutdown (.int (-1))], (.core (.sdIn T)), [], rest
    · obtain rfl := Option.some.inj h
      ctl [], (.core (.sdIn T)), [.core (.sdDec T)], rest
  | sdDec T =>
    simp only [stepCore] at h
    split at h
    · obtain rfl := Option.some.inj h
      ctl [.ret t .shutdown (.int (-1)), .dec t], (.core (.sdDec T)), [], rest
    · obtain rfl := Option.some.inj h
      ctl [.dec t], (.core (.sdDec T)), [.core .unreg, .core (.sdLog T)], rest
  | sdLog T =>
    simp only [stepCore] at h
    split at h
    · obtain rfl := Option.some.inj h
      ctl [], (.core (.sdLog T)), [.core (.sdIds T)], rest
    · rename_i f _
      obtain rfl := Option.some.inj h
      ctl [], (.core (.sdLog T)), [.client f, .core (.sdIds T)], rest
  | sdIds T =>
    simp only [stepCore] at h
    split at h
    · exact absurd h (by simp)
    · obtain rfl := Option.some.inj h
      ctl [], (.core (.sdIds T)), [.core (.sdNotify (s.contexts.map (·.1)) T)], rest
  | sdNotify l T =>
    cases l with
    | nil =>
      simp only [stepCore] at h
      split at h
      · exact absurd h (by simp)
      · split at h
        · split at h
          · obtain rfl := Option.some.inj h
            ctl [.ret t .shutdown (.int 0)], (.core (.sdNotify [] T)), [], rest
          · rename_i f _
            obtain rfl := Option.some.inj h
            ctl [], (.core (.sdNotify [] T)), [.client f, .core (.sdEnd 0)], rest
        · obtain rfl := Option.some.inj h
          ctl [], (.core (.sdNotify [] T)), [.core (.sdPark (s.clock + T))], rest
    | cons i l =>
      simp only [stepCore] at h
      obtain rfl := Option.some.inj h
      ctl [], (.core (.sdNotify (i :: l) T)), [.core (.exitLook i), .core (.sdNotify l T)], rest
  | sdPark dl =>
    simp only [stepCore] at h
    split at h
    · exact absurd h (by simp)
    · have hfin : ∀ v : Int, (match s.logCb with
        | none => some (s.ret t rest .shutdown (.int v))
        | some f => some (({ s with gOwner := some t } : St τ φ δ).setStk t
            (.client f :: .core (.sdEnd v) :: rest))) = some s' → Eff C s t s' := by
        intro v h
        split at h
        · obtain rfl := Option.some.inj h
          ctl [.ret t .shutdown (.int v)], (.core (.sdPark dl)), [], rest
        · rename_i f _
          obtain rfl := Option.some.inj h
          ctl [], (.core (.sdPark dl)), [.client f, .core (.sdEnd v)], rest
      split at h
      · split at h
        · split at h
          · exact hfin _ h
          · obtain rfl := Option.some.inj h
            exact .halt ⟨rfl, rfl, rfl, rfl⟩ rfl rfl rfl rfl
        · exact absurd h (by simp)
      · split at h
        · exact hfin _ h
        · exact absurd h (by simp)
      · split at h
        · exact hfin _ h
        · exact absurd h (by simp)
      · exact absurd h (by simp)
  | sdEnd v =>
    simp only [stepCore] at h
    obtain rfl := Option.some.inj h
    ctl [.ret t .shutdown (.int v)], (.core (.sdEnd v)), [], rest
  | spawnIn n f =>
    simp only [stepCore] at h
    split at h
    · rename_i hfr
      have hne : n ≠ t := by rintro rfl; rw [hrun] at hfr; simp at hfr
      obtain rfl := Option.some.inj h
      refine .spawn n f .unit rest ⟨rfl, rfl, rfl, rfl⟩ rfl hstk hfr hne ?_ ?_ rfl
      · have : upd (fun u => (s.thr u).loc) n none t = (s.thr t).loc := upd_ne _ _ hne.symm
        simp only [locs_eq, St.ret, loc_upd, upd_ne _ _ hne.symm]
        conv => lhs; rw [← this, upd_self]
      · simp only [stks_eq, St.ret, stk_upd]
    · exact absurd h (by simp)
  | joinIn n =>
    simp only [stepCore] at h
    split at h
    · rename_i hfr
      have hne : n ≠ t := by rintro rfl; rw [hrun] at hfr; simp at hfr
      obtain rfl := Option.some.inj h
      refine .ctl [.ret t .join .unit] (.core (.joinIn n)) [] rest ⟨rfl, rfl, rfl, rfl⟩ rfl ?_ hstk (by eff) ?_ (by eff) (by eff) rfl
        (by eff) (by eff) (by simp)
      · simp only [locs_eq, St.ret, loc_upd, upd_ne _ _ hne.symm, upd_same_loc]
      · simp only [stks_eq, St.ret, stk_upd]
        congr 1
        exact upd_self (fun u => (s.thr u).stack) n
    · exact absurd h (by simp)
  | detachIn n =>
    simp only [stepCore] at h
    split at h
    · rename_i hfr
      have hne : n ≠ t := by rintro rfl; rw [hrun] at hfr; simp at hfr
      obtain rfl := Option.some.inj h
      refine .ctl [.ret t .detach .unit] (.core (.detachIn n)) [] rest ⟨rfl, rfl, rfl, rfl⟩ rfl ?_ hstk (by eff) ?_ (by eff) (by eff) rfl
        (by eff) (by eff) (by simp)
      · simp only [locs_eq, St.ret, loc_upd, upd_ne _ _ hne.symm, upd_same_loc]
      · simp only [stks_eq, St.ret, stk_upd]
        congr 1
        exact upd_self (fun u => (s.thr u).stack) n
    · rename_i hfr
      obtain rfl := Option.some.inj h
      refine .ctl [.ret t .detach .unit] (.core (.detachIn n)) [] rest ⟨rfl, rfl, rfl, rfl⟩ rfl ?_ hstk (by eff) ?_ (by eff) (by eff) rfl
        (by eff) (by eff) (by simp)
      · funext u
        simp only [St.loc, St.ret, upd]
        split
        · subst_vars
          split
          · subst_vars; rfl
          · rfl
        · split
          · subst_vars; rfl
          · rfl
      · funext u
        simp only [St.stk, St.ret, upd]
        split
        · rfl
        · split
          · subst_vars; rfl
          · rfl
    · obtain rfl := Option.some.inj h
      ctl [.ret t .detach .unit], (.core (.detachIn n)), [], rest
  | rethrow e =>
    simp only [stepCore] at h
    obtain rfl := Option.some.inj h
    ctl [], (.core (.rethrow e)), [], rest

theorem entry_dl (a : Api τ φ) (c : Nat) : (Frame.core a.entry : Frame τ φ).dl c = false := by
  cases a <;> rfl

theorem entry_plain (a : Api τ φ) : (Frame.core a.entry : Frame τ φ).plain = true := by
  cases a <;> rfl

theorem entry_fr (a : Api τ φ) (t : Nat) (log : List (Ev τ)) : FrOK t log (Frame.core a.entry : Frame τ φ) := by
  cases a <;> trivial

theorem stepClient_eff (C : Client τ φ δ χ) (s s' : St τ φ δ) (t : Nat) (f : φ) (rest : List (Frame τ φ))
    (ch : Ch χ) (hstk : (s.thr t).stack = .client f :: rest)
    (h : stepClient C s t f rest ch = some s') : Eff C s t s' := by
  simp only [stepClient] at h
  split at h
  · exact absurd h (by simp)
  · rename_i d a _
    cases a with
    | goto f' =>
      obtain rfl := Option.some.inj h
      ctl [], (.client f), [.client f'], rest
    | push g f' =>
      obtain rfl := Option.some.inj h
      ctl [], (.client f), [.client g, .client f'], rest
    | call a f' =>
      obtain rfl := Option.some.inj h
      have := entry_plain a
      have := entry_dl a
      have := entry_fr a t s.log
      refine Eff.ctl (es := []) (old := (.client f)) (new := [.core a.entry, .client f'])
        (rest := rest) ?_ ?_ ?_ ?_ ?_ ?_ ?_ ?_ ?_ ?_ ?_ ?_
      rotate_right
      · rintro - f hf
        simp only [List.mem_cons, List.not_mem_nil, or_false] at hf
        rcases hf with rfl | rfl
        · assumption
        · trivial
      all_goals eff
    | ret v =>
      obtain rfl := Option.some.inj h
      ctl [], (.client f), [], rest
    | throw e =>
      obtain rfl := Option.some.inj h
      ctl [], (.client f), [], rest
    | terminate =>
      obtain rfl := Option.some.inj h
      exact .halt ⟨rfl, rfl, rfl, rfl⟩ rfl rfl rfl rfl

theorem stepExc_eff (C : Client τ φ δ χ) (s : St τ φ δ) (t : Nat) (e : Exn) (stk : List (Frame τ φ))
    (hstk : (s.thr t).stack = stk) : Eff C s t (stepExc C s t e stk) := by
  cases stk with
  | nil => exact .halt ⟨rfl, rfl, rfl, rfl⟩ rfl rfl rfl rfl
  | cons f rest =>
    cases f with
    | client f =>
      simp only [stepExc]
      split
      · rename_i f' _
        ctl [], (.client f), [.client f'], rest
      · ctl [], (.client f), [], rest
    | core f =>
      cases f
      case ran c k r => exact .threw c k r e rest ⟨rfl, rfl, rfl, rfl⟩ rfl hstk (by simp [stepExc]; eff) (by simp [stepExc]; eff) rfl
      case dispRan k =>
        simp only [stepExc]
        ctl [], (.core (.dispRan k)), [.client (C.destroy k), .core (.rethrow e)], rest
      case initEnd => simp only [stepExc]; ctl [], (.core .initEnd), [], rest
      case sdEnd v => simp only [stepExc]; ctl [], (.core (.sdEnd v)), [], rest
      case sleepNow v => simp only [stepExc]; ctl [], (.core (.sleepNow v)), [], rest
      case sdIds v => simp only [stepExc]; ctl [], (.core (.sdIds v)), [], rest
      all_goals exact .halt ⟨rfl, rfl, rfl, rfl⟩ rfl rfl rfl rfl

theorem step_eff (C : Client τ φ δ χ) (s s' : St τ φ δ) (t : Nat) (ch : Ch χ)
    (h : step C s (.th t ch) = some s') : Eff C s t s' := by
  simp only [step] at h
  split at h
  · exact absurd h (by simp)
  · split at h
    · exact absurd h (by simp)
    · rename_i hrun
      have hrun : (s.thr t).status = .running := by simpa using hrun
      split at h
      · obtain rfl := Option.some.inj h
        exact stepExc_eff C s t _ _ rfl
      · split at h
        · rename_i hs
          obtain rfl := Option.some.inj h
          refine .fin ⟨rfl, rfl, rfl, rfl⟩ rfl hs (by simp [stepEnd, locs_eq, loc_upd]) ?_ rfl
          simp only [stepEnd, stks_eq, stk_upd]
          rw [← hs]
          exact upd_self (fun u => (s.thr u).stack) t
        · rename_i f rest hs
          exact stepCore_eff C s s' t f rest ch hs hrun h
        · rename_i f rest hs
          exact stepClient_eff C s s' t f rest ch hs h

theorem step_tick (C : Client τ φ δ χ) (s s' : St τ φ δ) (n : Nat)
    (h : step C s (.tick n) = some s') : s' = { s with clock := s.clock + n } := by
  simp only [step] at h
  split at h
  · exact absurd h (by simp)
  · exact (Option.some.inj h).symm

/-- Induction over executions. -/
theorem Reach.induct {C : Client τ φ δ χ} {d : δ} {f : φ} (P : St τ φ δ → Prop) (h0 : P (init d f))
    (hstep : ∀ s l s', Reach C d f s → P s → step C s l = some s' → P s') {s : St τ φ δ} (hr : Reach C d f s) :
    P s := by
  obtain ⟨ls, h⟩ := hr
  suffices H : ∀ (s0 : St τ φ δ), Reach C d f s0 → P s0 → run C s0 ls = some s → P s from H _ ⟨[], rfl⟩ h0 h
  clear h
  induction ls with
  | nil => intro s0 _ hp h; obtain rfl := Option.some.inj h; exact hp
  | cons l ls ih =>
    intro s0 hr0 hp h
    simp only [run] at h
    split at h
    · exact absurd h (by simp)
    · rename_i s1 h1
      refine ih s1 ?_ (hstep _ _ _ hr0 hp h1) h
      obtain ⟨ls0, h0⟩ := hr0
      refine ⟨ls0 ++ [l], ?_⟩
      clear h hp
      generalize init d f = a at h0
      induction ls0 generalizing a with
      | nil => obtain rfl := Option.some.inj h0; simp [run, h1]
      | cons m ms ihm =>
        simp only [run, List.cons_append] at h0 ⊢
        split at h0
        · exact absurd h0 (by simp)
        · exact ihm _ h0

end
end Core
end Itc
