import Verif.Core.Ctl

/-!
# What a step does to the stack of its thread (proof infrastructure, no claims)

`CTo C s t f new`: a step of the core program point `f` replaces it by the frames `new`.
-/
namespace Itc
namespace Core
section
variable {τ φ δ χ : Type}

inductive CTo (C : Client τ φ δ χ) (s : St τ φ δ) (t : Nat) : CF τ φ → List (Frame τ φ) → Prop
  | regLook (n? : Option Nat) (c : Nat) (b : Bool) : CTo C s t (.regLook n?) [.core (.regDone c b)]
  | regDone (c : Nat) (b : Bool) (n : Nat) (v : Val) : CTo C s t (.regDone c b) [.core (.release c (.register n) v)]
  | unreg1 : CTo C s t .unreg [.core .unregClear]
  | unreg2 (c : Nat) : CTo C s t .unreg [.core (.release c .internal .unit), .core .unregClear]
  | relLast (c : Nat) (f : Fn) (v : Val) : CTo C s t (.release c f v) [.core (.destroyList c (s.ctxs c).pend f v)]
  | destroy (c : Nat) (k : τ) (l : List τ) (f : Fn) (v : Val) :
      CTo C s t (.destroyList c (k :: l) f v) [.client (C.destroy k), .core (.destroyList c l f v)]
  | exitLook (id c : Nat) : CTo C s t (.exitLook id) [.core (.exitSet c)]
  | exitSet (c : Nat) : CTo C s t (.exitSet c) [.core (.release c .notifyExit .unit)]
  | invRef (id : Nat) (k : τ) (h : id = 0 ∨ s.find id = none) :
      CTo C s t (.invLook id k true) [.client (C.destroy k), .core (.retv (some id))]
  | invFound (id : Nat) (k : τ) (own : Bool) (c : Nat) (h : s.find id = some c) :
      CTo C s t (.invLook id k own) [.core (.invPush c k)]
  | invPush (c : Nat) (k : τ) : CTo C s t (.invPush c k) [.core (.release c (.invoke (s.ctxs c).id) (.bool true))]
  | dispInl (id : Nat) (k : τ) (h : s.getId t = id) :
      CTo C s t (.dispatch id k) [.client (C.run k), .core (.dispRan k)]
  | dispInv (id : Nat) (k : τ) (h : s.getId t ≠ id) : CTo C s t (.dispatch id k) [.core (.invLook id k true)]
  | dispRan (k : τ) : CTo C s t (.dispRan k) [.client (C.destroy k), .core (.retv none)]
  | pendLook (id c : Nat) : CTo C s t (.pendLook id) [.core (.pendRead c)]
  | pendRead (c n : Nat) : CTo C s t (.pendRead c) [.core (.release c (.pending (s.ctxs c).id) (.nat n))]
  | waitRun (d : Option Nat) (c : Nat) (k : τ) (hk : k ∈ (s.ctxs c).pend) :
      CTo C s t (.waitIn d) [.client (C.run k), .core (.ran c k (.toWait false))]
  | waitPark (d : Option Nat) (c : Nat) : CTo C s t (.waitIn d) [.core (.parked c (d.map (s.clock + ·)))]
  | parkStay (c : Nat) (dl : Option Nat) : CTo C s t (.parked c dl) [.core (.parked c dl)]
  | parkRun (c : Nat) (dl : Option Nat) (k : τ) (b : Bool) (hk : k ∈ (s.ctxs c).pend) :
      CTo C s t (.parked c dl) [.client (C.run k), .core (.ran c k (.toWait b))]
  | waitFor (d : Int) (n : Nat) : CTo C s t (.waitForIn d) [.core (.waitIn (some n))]
  | ran (c : Nat) (k : τ) (r : Cont) : CTo C s t (.ran c k r) [.client (C.destroy k), .core (.freed c k r)]
  | freedAll (c : Nat) (k : τ) : CTo C s t (.freed c k .toAll) [.core .procAll]
  | freedFor (c : Nat) (k : τ) (e : Nat) : CTo C s t (.freed c k (.toFor e)) [.core (.procFor e)]
  | procAll (c : Nat) (k : τ) (hk : k ∈ (s.ctxs c).pend) : CTo C s t .procAll [.client (C.run k), .core (.ran c k .toAll)]
  | procForIn (d : Int) (e : Nat) : CTo C s t (.procForIn d) [.core (.procFor e)]
  | procFor (e c : Nat) (k : τ) (hk : k ∈ (s.ctxs c).pend) :
      CTo C s t (.procFor e) [.client (C.run k), .core (.ran c k (.toFor e))]
  | sleepIn (d : Int) (e : Nat) : CTo C s t (.sleepIn d) [.core (.sleep e s.clock)]
  | sleep (e now : Nat) : CTo C s t (.sleep e now) [.core (.waitForIn ((e - now : Nat) : Int)), .core (.sleepNow e)]
  | sleepNow (e : Nat) : CTo C s t (.sleepNow e) [.core (.sleep e s.clock)]
  | initIn (cb : Option φ) : CTo C s t (.initIn cb) [.core (.regLook none), .core (.initCfg cb)]
  | initCfg (f : φ) : CTo C s t (.initCfg (some f)) [.client f, .core .initEnd]
  | sdIn (T : Nat) : CTo C s t (.sdIn T) [.core (.sdDec T)]
  | sdDec (T : Nat) : CTo C s t (.sdDec T) [.core .unreg, .core (.sdLog T)]
  | sdLog1 (T : Nat) : CTo C s t (.sdLog T) [.core (.sdIds T)]
  | sdLog2 (T : Nat) (f : φ) (h : s.logCb = some f) : CTo C s t (.sdLog T) [.client f, .core (.sdIds T)]
  | sdIds (T : Nat) (l : List Nat) : CTo C s t (.sdIds T) [.core (.sdNotify l T)]
  | sdNotify (i : Nat) (l : List Nat) (T : Nat) :
      CTo C s t (.sdNotify (i :: l) T) [.core (.exitLook i), .core (.sdNotify l T)]
  | sdNotifyEnd (T : Nat) (f : φ) (v : Int) (h : s.logCb = some f) :
      CTo C s t (.sdNotify [] T) [.client f, .core (.sdEnd v)]
  | sdNotifyPark (T dl : Nat) : CTo C s t (.sdNotify [] T) [.core (.sdPark dl)]
  | sdParkStay (dl : Nat) : CTo C s t (.sdPark dl) [.core (.sdPark dl)]
  | sdParkEnd (dl : Nat) (f : φ) (v : Int) (h : s.logCb = some f) : CTo C s t (.sdPark dl) [.client f, .core (.sdEnd v)]

/-- The frame can return to its caller, with this value. -/
def CF.popV : CF τ φ → Val → Prop
  | .unregClear, v => v = .unit
  | .release _ _ w, v => v = w
  | .destroyList _ l _ w, v => l = [] ∧ v = w
  | .exitLook _, v => v = .unit
  | .invLook _ _ own, v => own = false ∧ v = .bool false
  | .retv none, v => v = .bool true
  | .retv (some _), v => v = .bool false
  | .pendLook _, v => v = .nat 0
  | .allIds, _ => True
  | .waitIn _, v => v = .cv false
  | .parked _ _, v => ∃ b, v = .cv b
  | .waitForIn d, v => d ≤ 0 ∧ v = .cv false
  | .freed _ _ (.toWait b), v => v = .cv b
  | .procAll, v => v = .unit
  | .procForIn _, v => v = .unit
  | .procFor _, v => v = .unit
  | .sleepIn _, v => v = .unit
  | .sleep _ _, v => v = .unit
  | .initIn _, v => v = .unit
  | .initCfg cb, v => cb = none ∧ v = .unit
  | .initEnd, v => v = .unit
  | .sdIn _, _ => True
  | .sdDec _, _ => True
  | .sdNotify l _, _ => l = []
  | .sdPark _, _ => True
  | .sdEnd _, _ => True
  | .spawnIn _ _, _ => True
  | .joinIn _, _ => True
  | .detachIn _, _ => True
  | _, _ => False

theorem prepare_pend (x : Ctx τ) : x.prepare.pend = x.pend := by
  unfold Ctx.prepare
  split
  · rename_i h
    simp only [Bool.and_eq_true, Bool.not_eq_true', decide_eq_false_iff_not, Nat.not_lt] at h
    simp [Ctx.pend, h.1]
  · rfl

theorem pop_mem {x y : Ctx τ} {k : τ} (h : x.pop = some (k, y)) : k ∈ x.pend := by
  unfold Ctx.pop at h
  split at h
  · rename_i k' hk
    simp only [Option.some.injEq, Prod.mk.injEq] at h
    obtain ⟨rfl, -⟩ := h
    rw [← prepare_pend]
    simp only [Ctx.pend, List.mem_append]
    left
    rw [List.mem_iff_getElem?]
    exact ⟨0, by simpa using hk⟩
  · contradiction

/-- What a step of a core program point does to its own thread. -/
inductive CoreStep (C : Client τ φ δ χ) (s : St τ φ δ) (t : Nat) (f : CF τ φ) (rest : List (Frame τ φ)) (s' : St τ φ δ) : Prop
  | to (new : List (Frame τ φ)) (h : CTo C s t f new) (hst : s'.stk t = new ++ rest) (hexc : (s'.thr t).exc = none)
      (hrv : (s'.thr t).rv = (s.thr t).rv)
  | pop (v : Val) (h : f.popV v) (hst : s'.stk t = rest) (hrv : (s'.thr t).rv = v) (hexc : (s'.thr t).exc = none)
  | rethrow (e : Exn) (h : f = .rethrow e) (hst : s'.stk t = rest) (hexc : (s'.thr t).exc = some e)
  | ub (h : s'.ub = true) (hst : s'.stk t = s.stk t) (hexc : (s'.thr t).exc = none)

theorem stk_setStk' (s : St τ φ δ) (t : Nat) (l : List (Frame τ φ)) : (s.setStk t l).stk t = l := by
  simp [St.stk, St.setStk]

theorem ret_stk' (s : St τ φ δ) (t : Nat) (l : List (Frame τ φ)) (f : Fn) (v : Val) : (s.ret t l f v).stk t = l := by
  simp [St.stk, St.ret]

theorem ret_rv (s : St τ φ δ) (t : Nat) (l : List (Frame τ φ)) (f : Fn) (v : Val) : ((s.ret t l f v).thr t).rv = v := by
  simp [St.ret]

local macro "cto" x:term : tactic => `(tactic|
  (refine CoreStep.to _ $x (stk_setStk' _ _ _) ?_ ?_ <;>
    simp [St.stk, St.setStk, St.ev, St.setCtx, St.hold, St.startTask, *]))

local macro "cpop" : tactic => `(tactic|
  (refine CoreStep.pop _ ?_ (ret_stk' _ _ _ _ _) (ret_rv _ _ _ _ _) ?_ <;>
    first | (simp [CF.popV]; done) | (simp [CF.popV, *]; done) | (simp [St.ret, St.setCtx, St.ev, *]; done) | skip))

local macro "cub" : tactic => `(tactic| (exact CoreStep.ub rfl rfl ‹_›))

set_option maxHeartbeats 1000000 in
theorem stepCore_cs (C : Client τ φ δ χ) (s s' : St τ φ δ) (t : Nat) (f : CF τ φ) (rest : List (Frame τ φ)) (ch : Ch χ)
    (hst : s.stk t = .core f :: rest) (hexc : (s.thr t).exc = none) (hrun : (s.thr t).status = .running)
    (h : stepCore C s t f rest ch = some s') : CoreStep C s t f rest s' := by
  cases f with
  | regLook n? =>
    simp only [stepCore] at h
    repeat' (split at h)
    · contradiction
    · obtain rfl := Option.some.inj h; cto (.regLook _ _ _)
    · obtain rfl := Option.some.inj h; cto (.regLook _ _ _)
  | regDone c self =>
    simp only [stepCore] at h
    obtain rfl := Option.some.inj h
    cases self <;> cto (.regDone _ _ _ _)
  | unreg =>
    simp only [stepCore] at h
    repeat' (split at h)
    · contradiction
    · obtain rfl := Option.some.inj h; cto .unreg1
    · obtain rfl := Option.some.inj h; cto (.unreg2 _)
    · obtain rfl := Option.some.inj h; cto (.unreg2 _)
  | unregClear =>
    simp only [stepCore] at h
    obtain rfl := Option.some.inj h
    refine CoreStep.pop .unit ?_ ?_ ?_ ?_ <;> simp [St.stk, St.ret, CF.popV, *]
  | release c f v =>
    simp only [stepCore] at h
    split at h
    · obtain rfl := Option.some.inj h; cto (.relLast _ _ _)
    · obtain rfl := Option.some.inj h; cpop
  | destroyList c l f v =>
    cases l <;> simp only [stepCore] at h
    · obtain rfl := Option.some.inj h; cpop
    · obtain rfl := Option.some.inj h; cto (.destroy _ _ _ _ _)
  | exitLook id =>
    simp only [stepCore] at h
    repeat' (split at h)
    · contradiction
    · obtain rfl := Option.some.inj h; cpop
    · obtain rfl := Option.some.inj h; cto (.exitLook _ _)
  | exitSet c =>
    simp only [stepCore] at h
    split at h
    · obtain rfl := Option.some.inj h; cub
    · obtain rfl := Option.some.inj h; cto (.exitSet _)
  | invLook id k own =>
    simp only [stepCore] at h
    have key : ∀ (own : Bool) (hr : id = 0 ∨ s.find id = none), (if own = true then
        some ((s.ev (.refused t id k)).setStk t (.client (C.destroy k) :: .core (.retv (some id)) :: rest))
        else some ((s.ev (.refused t id k)).ret t rest (.invoke id) (.bool false))) = some s' →
        CoreStep C s t (.invLook id k own) rest s' := by
      intro own hr h
      split at h
      · rename_i ho
        subst ho
        obtain rfl := Option.some.inj h; cto (.invRef _ _ hr)
      · rename_i ho
        have ho : own = false := by simpa using ho
        subst ho
        obtain rfl := Option.some.inj h; cpop
    split at h
    · exact key _ (.inl ‹_›) h
    · split at h
      · contradiction
      · split at h
        · exact key _ (.inr ‹_›) h
        · obtain rfl := Option.some.inj h; cto (.invFound _ _ _ _ ‹_›)
  | invPush c k =>
    simp only [stepCore] at h
    split at h
    · obtain rfl := Option.some.inj h; cub
    · obtain rfl := Option.some.inj h; cto (.invPush _ _)
  | retv d => cases d <;> simp only [stepCore] at h <;> obtain rfl := Option.some.inj h <;> cpop
  | dispatch id k =>
    simp only [stepCore] at h
    split at h
    · obtain rfl := Option.some.inj h; cto (.dispInl _ _ ‹_›)
    · obtain rfl := Option.some.inj h; cto (.dispInv _ _ ‹_›)
  | dispRan k =>
    simp only [stepCore] at h
    obtain rfl := Option.some.inj h; cto (.dispRan _)
  | pendLook id =>
    simp only [stepCore] at h
    repeat' (split at h)
    · obtain rfl := Option.some.inj h; cpop
    · contradiction
    · obtain rfl := Option.some.inj h; cpop
    · obtain rfl := Option.some.inj h; cto (.pendLook _ _)
  | pendRead c =>
    simp only [stepCore] at h
    split at h
    · obtain rfl := Option.some.inj h; cub
    · obtain rfl := Option.some.inj h; cto (.pendRead _ _)
  | allIds =>
    simp only [stepCore] at h
    split at h
    · contradiction
    · obtain rfl := Option.some.inj h; cpop
  | waitIn d =>
    simp only [stepCore] at h
    repeat' (split at h)
    · obtain rfl := Option.some.inj h; cpop
    · obtain rfl := Option.some.inj h; cub
    · rename_i hp; obtain rfl := Option.some.inj h; cto (.waitRun _ _ _ (pop_mem hp))
    · obtain rfl := Option.some.inj h; cpop
    · obtain rfl := Option.some.inj h; cto (.waitPark _ _)
  | parked c dl =>
    simp only [stepCore] at h
    have key : ∀ b : Bool, (match ({ s.ctxs c with wakeup := false } : Ctx τ).pop with
        | some (k, x) => some (s.startTask C t c k x (.toWait b) rest)
        | none => some ((s.setCtx c { s.ctxs c with wakeup := false }).ret t rest .wait (.cv b))) = some s' →
        CoreStep C s t (.parked c dl) rest s' := by
      intro b h
      split at h
      · rename_i k x hp
        have hk : k ∈ (s.ctxs c).pend := pop_mem (x := { s.ctxs c with wakeup := false }) hp
        obtain rfl := Option.some.inj h; cto (.parkRun _ _ _ _ hk)
      · obtain rfl := Option.some.inj h; cpop
    split at h
    · obtain rfl := Option.some.inj h; cub
    · split at h
      · split at h
        · split at h
          · exact key _ h
          · obtain rfl := Option.some.inj h
            exact CoreStep.to _ (.parkStay c dl) hst hexc rfl
        · contradiction
      · split at h
        · exact key _ h
        · contradiction
      · split at h
        · contradiction
        · split at h
          · exact key _ h
          · contradiction
      · contradiction
  | waitForIn d =>
    simp only [stepCore] at h
    split at h
    · obtain rfl := Option.some.inj h; cpop
    · obtain rfl := Option.some.inj h; cto (.waitFor _ _)
  | ran c k r =>
    simp only [stepCore] at h
    obtain rfl := Option.some.inj h; cto (.ran _ _ _)
  | freed c k r =>
    simp only [stepCore] at h
    split at h
    · obtain rfl := Option.some.inj h; cub
    · split at h
      · obtain rfl := Option.some.inj h; cpop
      · obtain rfl := Option.some.inj h; cto (.freedAll _ _)
      · obtain rfl := Option.some.inj h; cto (.freedFor _ _ _)
  | procAll =>
    simp only [stepCore] at h
    repeat' (split at h)
    · obtain rfl := Option.some.inj h; cpop
    · obtain rfl := Option.some.inj h; cub
    · obtain rfl := Option.some.inj h; cpop
    · rename_i hp; obtain rfl := Option.some.inj h; cto (.procAll _ _ (pop_mem hp))
    · obtain rfl := Option.some.inj h; cpop
  | procForIn d =>
    simp only [stepCore] at h
    split at h
    · obtain rfl := Option.some.inj h; cpop
    · obtain rfl := Option.some.inj h; cto (.procForIn _ _)
  | procFor e =>
    simp only [stepCore] at h
    repeat' (split at h)
    · obtain rfl := Option.some.inj h; cpop
    · obtain rfl := Option.some.inj h; cub
    · obtain rfl := Option.some.inj h; cpop
    · rename_i hp; obtain rfl := Option.some.inj h; cto (.procFor _ _ _ (pop_mem hp))
    · obtain rfl := Option.some.inj h; cpop
  | sleepIn d =>
    simp only [stepCore] at h
    split at h
    · obtain rfl := Option.some.inj h; cpop
    · obtain rfl := Option.some.inj h; cto (.sleepIn _ _)
  | sleep e now =>
    simp only [stepCore] at h
    repeat' (split at h)
    · obtain rfl := Option.some.inj h; cpop
    · obtain rfl := Option.some.inj h; cto (.sleep _ _)
    · obtain rfl := Option.some.inj h; cpop
  | sleepNow e =>
    simp only [stepCore] at h
    obtain rfl := Option.some.inj h; cto (.sleepNow _)
  | initIn cb =>
    simp only [stepCore] at h
    split at h
    · obtain rfl := Option.some.inj h; cpop
    · obtain rfl := Option.some.inj h; cto (.initIn _)
  | initCfg cb =>
    simp only [stepCore] at h
    repeat' (split at h)
    · contradiction
    · obtain rfl := Option.some.inj h; cpop
    · obtain rfl := Option.some.inj h; cto (.initCfg _)
  | initEnd =>
    simp only [stepCore] at h
    obtain rfl := Option.some.inj h; cpop
  | sdIn T =>
    simp only [stepCore] at h
    split at h
    · obtain rfl := Option.some.inj h; cpop
    · obtain rfl := Option.some.inj h; cto (.sdIn _)
  | sdDec T =>
    simp only [stepCore] at h
    split at h
    · obtain rfl := Option.some.inj h; cpop
    · obtain rfl := Option.some.inj h; cto (.sdDec _)
  | sdLog T =>
    simp only [stepCore] at h
    split at h
    · obtain rfl := Option.some.inj h; cto (.sdLog1 _)
    · obtain rfl := Option.some.inj h; cto (.sdLog2 _ _ ‹_›)
  | sdIds T =>
    simp only [stepCore] at h
    split at h
    · contradiction
    · obtain rfl := Option.some.inj h; cto (.sdIds _ _)
  | sdNotify l T =>
    cases l with
    | cons i l =>
      simp only [stepCore] at h
      obtain rfl := Option.some.inj h; cto (.sdNotify _ _ _)
    | nil =>
      simp only [stepCore] at h
      repeat' (split at h)
      · contradiction
      · obtain rfl := Option.some.inj h; cpop
      · obtain rfl := Option.some.inj h; cto (.sdNotifyEnd _ _ _ ‹_›)
      · obtain rfl := Option.some.inj h; cto (.sdNotifyPark _ _)
  | sdPark dl =>
    simp only [stepCore] at h
    have key : ∀ v : Int, (match s.logCb with
        | none => some (s.ret t rest .shutdown (.int v))
        | some f => some (({ s with gOwner := some t } : St τ φ δ).setStk t (.client f :: .core (.sdEnd v) :: rest))) = some s' →
          CoreStep C s t (.sdPark dl) rest s' := by
      intro v h
      split at h
      · obtain rfl := Option.some.inj h; cpop
      · obtain rfl := Option.some.inj h; cto (.sdParkEnd _ _ _ ‹_›)
    split at h
    · contradiction
    · split at h
      · split at h
        · split at h
          · exact key _ h
          · obtain rfl := Option.some.inj h
            exact CoreStep.to _ (.sdParkStay dl) hst hexc rfl
        · contradiction
      · split at h
        · exact key _ h
        · contradiction
      · split at h
        · exact key _ h
        · contradiction
      · contradiction
  | sdEnd v =>
    simp only [stepCore] at h
    obtain rfl := Option.some.inj h; cpop
  | spawnIn n f =>
    simp only [stepCore] at h
    split at h
    · rename_i hf
      have hne : t ≠ n := by rintro rfl; rw [hrun] at hf; contradiction
      obtain rfl := Option.some.inj h
      refine CoreStep.pop _ (by simp [CF.popV]) ?_ rfl ?_ <;> simp [St.stk, St.ret, upd_ne _ _ hne, *]
    · contradiction
  | joinIn n =>
    simp only [stepCore] at h
    split at h
    · rename_i hf
      have hne : t ≠ n := by rintro rfl; rw [hrun] at hf; contradiction
      obtain rfl := Option.some.inj h
      refine CoreStep.pop _ (by simp [CF.popV]) ?_ rfl ?_ <;> simp [St.stk, St.ret, upd_ne _ _ hne, *]
    · contradiction
  | detachIn n =>
    simp only [stepCore] at h
    split at h
    · rename_i hf
      have hne : t ≠ n := by rintro rfl; rw [hrun] at hf; contradiction
      obtain rfl := Option.some.inj h
      refine CoreStep.pop _ (by simp [CF.popV]) ?_ rfl ?_ <;> simp [St.stk, St.ret, upd_ne _ _ hne, *]
    · obtain rfl := Option.some.inj h
      by_cases hne : t = n
      · subst hne
        refine CoreStep.pop _ (by simp [CF.popV]) ?_ rfl ?_ <;> simp [St.stk, St.ret, *]
      · refine CoreStep.pop _ (by simp [CF.popV]) ?_ rfl ?_ <;> simp [St.stk, St.ret, upd_ne _ _ hne, *]
    · obtain rfl := Option.some.inj h
      cpop
  | rethrow e =>
    simp only [stepCore] at h
    obtain rfl := Option.some.inj h
    exact .rethrow e rfl (by simp [St.stk]) (by simp)

/-- Core frames that an exception passes without a handler. -/
def CF.unwinds : CF τ φ → Bool
  | .initEnd => true
  | .sdEnd _ => true
  | .sleepNow _ => true
  | .sdIds _ => true
  | _ => false

/-- The functor that a frame executes. -/
def CF.running : CF τ φ → Option τ
  | .ran _ k _ => some k
  | .dispRan k => some k
  | _ => none

/-- What an action of client code does to the stack above `rest`. -/
def ActTo (s s' : St τ φ δ) (t : Nat) (rest : List (Frame τ φ)) : Act τ φ → Prop
  | .goto f => s'.stk t = .client f :: rest ∧ (s'.thr t).exc = none ∧ (s'.thr t).rv = (s.thr t).rv
  | .push g f => s'.stk t = .client g :: .client f :: rest ∧ (s'.thr t).exc = none ∧ (s'.thr t).rv = (s.thr t).rv
  | .call a f => s'.stk t = .core a.entry :: .client f :: rest ∧ (s'.thr t).exc = none ∧ (s'.thr t).rv = (s.thr t).rv
  | .ret v => s'.stk t = rest ∧ (s'.thr t).exc = none ∧ (s'.thr t).rv = v
  | .throw e => s'.stk t = rest ∧ (s'.thr t).exc = some e
  | .terminate => s'.stk t = s.stk t ∧ s'.term = true ∧ (s'.thr t).exc = none

/-- Classification of the steps of a thread. -/
inductive Cl (C : Client τ φ δ χ) (s : St τ φ δ) (t : Nat) (ch : Ch χ) (s' : St τ φ δ) : Prop
  | cl (f : φ) (rest : List (Frame τ φ)) (d : δ) (a : Act τ φ) (hexc : (s.thr t).exc = none)
      (hold : s.stk t = .client f :: rest) (hstep : C.step (s.view t) s.data f (s.thr t).rv ch = some (d, a))
      (hdata : s'.data = d) (hact : ActTo s s' t rest a) (hlog : s'.log = s.log) (hctx : s'.ctxs = s.ctxs)
      (hcb : s'.logCb = s.logCb) (hloc : s'.loc = s.loc) (hcon : s'.contexts = s.contexts)
      (hck : s'.clock = s.clock)
  | core (f : CF τ φ) (rest : List (Frame τ φ)) (hexc : (s.thr t).exc = none)
      (hold : s.stk t = .core f :: rest) (hcs : CoreStep C s t f rest s') (hdata : s'.data = s.data)
      (hcore : stepCore C s t f rest ch = some s')
  | halt (e : Exn) (hexc : (s.thr t).exc = some e) (hst : s'.stk t = s.stk t) (hterm : s'.term = true)
      (hexc' : (s'.thr t).exc = some e) (hdata : s'.data = s.data) (hlog : s'.log = s.log) (hctx : s'.ctxs = s.ctxs)
  | task (e : Exn) (f : CF τ φ) (k : τ) (rest : List (Frame τ φ)) (hexc : (s.thr t).exc = some e)
      (hold : s.stk t = .core f :: rest) (hf : f.running = some k)
      (hst : s'.stk t = .client (C.destroy k) :: .core (.rethrow e) :: rest) (hexc' : (s'.thr t).exc = none)
      (hdata : s'.data = s.data) (hlog : ∃ es, s'.log = es ++ s.log ∧ ∀ e ∈ es, ∃ u c, e = .threw u c)
      (hctx : s'.ctxs = s.ctxs)
  | cpop (e : Exn) (f : CF τ φ) (rest : List (Frame τ φ)) (hexc : (s.thr t).exc = some e)
      (hold : s.stk t = .core f :: rest) (hf : f.unwinds = true) (hst : s'.stk t = rest)
      (hexc' : (s'.thr t).exc = some e) (hdata : s'.data = s.data) (hlog : s'.log = s.log) (hctx : s'.ctxs = s.ctxs)
  | catch (e : Exn) (g g' : φ) (rest : List (Frame τ φ)) (hexc : (s.thr t).exc = some e)
      (hold : s.stk t = .client g :: rest) (hg : C.onThrow g e = some g') (hst : s'.stk t = .client g' :: rest)
      (hexc' : (s'.thr t).exc = none) (hdata : s'.data = s.data) (hlog : s'.log = s.log) (hctx : s'.ctxs = s.ctxs)
  | pop (e : Exn) (g : φ) (rest : List (Frame τ φ)) (hexc : (s.thr t).exc = some e)
      (hold : s.stk t = .client g :: rest) (hg : C.onThrow g e = none) (hst : s'.stk t = rest)
      (hexc' : (s'.thr t).exc = some e) (hdata : s'.data = s.data) (hlog : s'.log = s.log) (hctx : s'.ctxs = s.ctxs)
  | fin (hold : s.stk t = []) (hst : s'.stk t = []) (hexc' : (s'.thr t).exc = none) (hdata : s'.data = s.data)
      (hlog : s'.log = s.log) (hctx : s'.ctxs = s.ctxs)

theorem stepCore_data (C : Client τ φ δ χ) (s s' : St τ φ δ) (t : Nat) (f : CF τ φ) (rest : List (Frame τ φ)) (ch : Ch χ)
    (h : stepCore C s t f rest ch = some s') : s'.data = s.data := by
  cases f with
  | retv d => cases d <;> simp only [stepCore] at h <;> obtain rfl := Option.some.inj h <;> rfl
  | destroyList c l f v => cases l <;> simp only [stepCore] at h <;> obtain rfl := Option.some.inj h <;> rfl
  | regDone c self => cases self <;> simp only [stepCore] at h <;> obtain rfl := Option.some.inj h <;> rfl
  | sdNotify l T =>
    cases l with
    | cons i l => simp only [stepCore] at h; obtain rfl := Option.some.inj h; rfl
    | nil =>
      simp only [stepCore] at h
      repeat' (split at h)
      all_goals first | contradiction | (obtain rfl := Option.some.inj h; rfl)
  | _ =>
    simp only [stepCore] at h
    repeat' (split at h)
    all_goals first | contradiction | (obtain rfl := Option.some.inj h; rfl)

theorem stepCore_logCb (C : Client τ φ δ χ) (s s' : St τ φ δ) (t : Nat) (f : CF τ φ) (rest : List (Frame τ φ)) (ch : Ch χ)
    (h : stepCore C s t f rest ch = some s') : s'.logCb = s.logCb ∨ s'.logCb = none ∨ f = .initCfg s'.logCb := by
  cases f with
  | retv d => cases d <;> simp only [stepCore] at h <;> obtain rfl := Option.some.inj h <;> exact .inl rfl
  | destroyList c l f v => cases l <;> simp only [stepCore] at h <;> obtain rfl := Option.some.inj h <;> exact .inl rfl
  | regDone c self => cases self <;> simp only [stepCore] at h <;> obtain rfl := Option.some.inj h <;> exact .inl rfl
  | sdNotify l T =>
    cases l with
    | cons i l => simp only [stepCore] at h; obtain rfl := Option.some.inj h; exact .inl rfl
    | nil =>
      simp only [stepCore] at h
      repeat' (split at h)
      all_goals first | contradiction | (obtain rfl := Option.some.inj h; exact .inl rfl)
  | initCfg cb =>
    simp only [stepCore] at h
    repeat' (split at h)
    all_goals first | contradiction | (obtain rfl := Option.some.inj h; exact .inr (.inr rfl))
  | _ =>
    simp only [stepCore] at h
    repeat' (split at h)
    all_goals first | contradiction | (obtain rfl := Option.some.inj h; exact .inl rfl) | (obtain rfl := Option.some.inj h; exact .inr (.inl rfl))

theorem step_cl {C : Client τ φ δ χ} {s s' : St τ φ δ} {t : Nat} {ch : Ch χ} (h : step C s (.th t ch) = some s') :
    Cl C s t ch s' := by
  simp only [step] at h
  split at h
  · contradiction
  split at h
  · contradiction
  rename_i hrun
  have hrun : (s.thr t).status = .running := by simpa using hrun
  split at h
  · rename_i e he
    obtain rfl := Option.some.inj h
    cases hst : (s.thr t).stack with
    | nil => exact .halt e he rfl rfl he rfl rfl rfl
    | cons f rest =>
      cases f with
      | client g =>
        cases hg : C.onThrow g e with
        | some g' =>
          exact .catch e g g' rest he hst hg (by simp [stepExc, hg, St.stk]) (by simp [stepExc, hg]) (by simp [stepExc, hg])
            (by simp [stepExc, hg]) (by simp [stepExc, hg])
        | none =>
          exact .pop e g rest he hst hg (by simp [stepExc, hg, St.stk, St.setStk]) (by simp [stepExc, hg, St.setStk, he])
            (by simp [stepExc, hg, St.setStk]) (by simp [stepExc, hg, St.setStk]) (by simp [stepExc, hg, St.setStk])
      | core f =>
        cases f
        case ran c k r =>
          exact .task e _ k rest he hst rfl (by simp [stepExc, St.stk]) (by simp [stepExc]) rfl
            ⟨[.threw t c], rfl, by simp⟩ rfl
        case dispRan k =>
          exact .task e _ k rest he hst rfl (by simp [stepExc, St.stk]) (by simp [stepExc]) rfl ⟨[], rfl, by simp⟩ rfl
        case initEnd => exact .cpop e _ rest he hst rfl (by simp [stepExc, St.stk]) (by simp [stepExc, he]) rfl rfl rfl
        case sdEnd v => exact .cpop e _ rest he hst rfl (by simp [stepExc, St.stk]) (by simp [stepExc, he]) rfl rfl rfl
        case sleepNow v =>
          exact .cpop e _ rest he hst rfl (by simp [stepExc, St.stk, St.setStk]) (by simp [stepExc, he, St.setStk]) rfl rfl rfl
        case sdIds v =>
          exact .cpop e _ rest he hst rfl (by simp [stepExc, St.stk, St.setStk]) (by simp [stepExc, he, St.setStk]) rfl rfl rfl
        all_goals exact .halt e he rfl rfl he rfl rfl rfl
  · rename_i he
    split at h
    · rename_i hs
      obtain rfl := Option.some.inj h
      exact .fin hs (by simp [stepEnd, St.stk]) (by simp [stepEnd]) rfl rfl rfl
    · rename_i f rest hs
      exact .core f rest he hs (stepCore_cs C s s' t f rest ch hs he hrun h) (stepCore_data C s s' t f rest ch h) h
    · rename_i f rest hs
      simp only [stepClient] at h
      split at h
      · contradiction
      · rename_i d a hd
        refine .cl f rest d a he hs hd ?_ ?_ ?_ ?_ ?_ ?_ ?_ ?_
        all_goals
          cases a <;> simp only at h <;> obtain rfl := Option.some.inj h <;>
            first
            | rfl
            | (simp [ActTo, St.stk, St.setStk, he]; done)
            | (funext u; simp only [St.loc, St.setStk, upd]; split <;> simp_all)

/-- What a step does to the stacks of the other threads. -/
theorem step_oth {C : Client τ φ δ χ} {s s' : St τ φ δ} {t u : Nat} {ch : Ch χ} (hfree : FreeOK s) (hu : u ≠ t)
    (hs : step C s (.th t ch) = some s') : (s'.stk u = s.stk u ∧ ((s'.thr u).exc = (s.thr u).exc ∨ (s'.thr u).exc = none)) ∨
      ∃ f rest, s.stk t = .core (.spawnIn u f) :: rest ∧ (s.thr t).exc = none ∧ s.stk u = [] ∧ s'.stk u = [.client f] ∧
        (s'.thr u).exc = none := by
  have hx := step_exc_other hu hs
  have hsp : ∀ f rest, s.stk t = .core (.spawnIn u f) :: rest → (s.thr u).status = .free → s'.stk u = [.client f] →
      (s.thr t).exc = none ∧ s.stk u = [] ∧ (s'.thr u).exc = none := by
    intro f rest hst hfr hst'
    have h1 := hfree u (by simp [hfr])
    refine ⟨?_, h1.1, ?_⟩
    · rcases step_cl hs with _ | ⟨_, _, he⟩ | ⟨e, he, h⟩ | ⟨e, f', k, r, he, h, hf⟩ | ⟨e, f', r, he, h, hf⟩ | ⟨e, g, g', r, he, h⟩ |
        ⟨e, g, r, he, h⟩ | ⟨h⟩
      · assumption
      · exact he
      · simp only [step] at hs
        rw [he] at hs
        simp only [St.stk] at hst
        simp only [hst, stepExc] at hs
        split at hs
        · contradiction
        split at hs
        · contradiction
        obtain rfl := Option.some.inj hs
        simp [St.stk, h1.1] at hst'
      · rw [hst] at h; obtain ⟨h, -⟩ := List.cons.inj h; cases h; simp [CF.running] at hf
      · rw [hst] at h; obtain ⟨h, -⟩ := List.cons.inj h; cases h; simp [CF.unwinds] at hf
      · rw [hst] at h; obtain ⟨h, -⟩ := List.cons.inj h; cases h
      · rw [hst] at h; obtain ⟨h, -⟩ := List.cons.inj h; cases h
      · rw [hst] at h; cases h
    · rcases hx with hx | hx
      · rw [hx]; exact h1.2.2
      · exact hx
  by_cases h : s.stk u = []
  · have he := step_eff C s s' t ch hs
    cases he with
    | spawn n f v rest hreg hctx hold hfr hne' hloc hstk =>
      have h2 := congrFun hstk u
      rw [upd_ne _ _ hu] at h2
      by_cases hn : u = n
      · subst hn
        have h3 : s'.stk u = [.client f] := by rw [h2]; simp
        obtain ⟨h4, h5, h6⟩ := hsp f rest hold hfr h3
        exact .inr ⟨f, rest, hold, h4, h5, h3, h6⟩
      · exact .inl ⟨by rw [h2]; exact upd_ne _ _ hn, hx⟩
    | _ => left; refine ⟨?_, hx⟩; simp_all [upd_ne]
  · exact .inl ⟨step_stk_other (Ne.symm hu) hfree hs h, hx⟩

theorem step_pend {C : Client τ φ δ χ} {s s' : St τ φ δ} {t c : Nat} {k : τ} (he : Eff C s t s')
    (hk : k ∈ (s'.ctxs c).pend) : k ∈ (s.ctxs c).pend ∨ ∃ rest, s.stk t = .core (.invPush c k) :: rest := by
  have key : ∀ {c' : Nat} {x : Ctx τ}, s'.ctxs = upd s.ctxs c' x → (∀ k ∈ x.pend, k ∈ (s.ctxs c').pend) → k ∈ (s.ctxs c).pend := by
    intro c' x h1 h2
    rw [h1] at hk
    by_cases hc : c = c'
    · subst hc; rw [upd_same] at hk; exact h2 k hk
    · rw [upd_ne _ _ hc] at hk; exact hk
  cases he
  case invPush c' k' rest hreg hold halive hctx hloc hstk hlog =>
    rw [hctx] at hk
    by_cases hc : c = c'
    · subst hc
      rw [upd_same] at hk
      simp only [Ctx.pend, ← List.append_assoc, List.mem_append, List.mem_singleton] at hk ⊢
      rcases hk with hk | rfl
      · exact .inl hk
      · exact .inr ⟨rest, hold⟩
    · rw [upd_ne _ _ hc] at hk; exact .inl hk
  case start c' k' x r f rest w hreg hold hf halive hpop hctx hloc hstk hlog =>
    left
    refine key hctx fun k hk => ?_
    have := (pop_some hpop).1
    have h2 : (s.ctxs c').pend = ({ s.ctxs c' with wakeup := w } : Ctx τ).pend := rfl
    rw [h2, this]
    exact List.mem_cons_of_mem _ hk
  all_goals left
  all_goals first
    | (rw [show s'.ctxs = s.ctxs from ‹_›] at hk; exact hk)
    | (refine key ‹_› ?_; intro k hk; simp only [Ctx.pend] at hk ⊢; exact hk)
    | (refine key ‹_› ?_; intro k hk; simp [Ctx.pend] at hk)

end
end Core
end Itc
