import Verif.Obj.Model
import Verif.Core.Lin

/-!
# Invariants of thread objects (proof infrastructure, no claims)

* `OS`: the steps of class thread, as a relation.
* Every operation in progress on an object holds a token for it; a busy object has at most one token (`tok_ok`), so nobody else
  changes it.
* `Q`: what each program point knows about its object and about the events of the operation in progress.
* `H`: a native handle is in at most one place, and its thread is neither detached nor joined.
-/
namespace Itc
namespace Obj
open Core
section
variable {τ φ δ χ : Type}

abbrev OSt (τ φ δ : Type) := St τ (OFrame φ) (OData δ)
abbrev OR (U : User τ φ δ χ) (ud : δ) (f : φ) (s : OSt τ φ δ) : Prop := Core.Reach (client U) { ud := ud } (.usr f) s

inductive OS (t : Nat) (d : OData δ) : OFrame φ → Val → OData δ → Act τ (OFrame φ) → Prop
  | halt (f : OFrame φ) (rv : Val) : OS t d f rv d .terminate
  | new (o : Nat) (rv : Val) (h : d.slot o = none) : OS t d (.new o) rv (d.put o {} false) (.ret .unit)
  | mkIn (o n : Nat) (f : φ) (rv : Val) (h : d.slot o = none) :
      OS t d (.mkIn o n f) rv (d.put o {} true) (.call (.spawn n (.usr f)) (.mkReg o n))
  | mkReg (o n : Nat) (rv : Val) : OS t d (.mkReg o n) rv (d.put o { native := some n } true) (.call (.registerNative n) (.mkId o n))
  | mkId (o n id : Nat) : OS t d (.mkId o n) (.nat id) ((d.put o { native := some n, id := id } false).ev (.made t o n id)) (.ret .unit)
  | mvIn (o o' : Nat) (x : TObj) (rv : Val) (h : d.slot o = none) (h' : d.slot o' = some ⟨x, false⟩) :
      OS t d (.mvIn o o') rv ((d.put o x false).put o' { x with native := none } false) (.ret .unit)
  | swIn (o o' : Nat) (x x' : TObj) (rv : Val) (h : d.slot o = some ⟨x, false⟩) (h' : d.slot o' = some ⟨x', false⟩) :
      OS t d (.swIn o o') rv (d.exch o o' x x') (.ret .unit)
  | asJoin (o o' : Nat) (x x' : TObj) (rv : Val) (h : d.slot o = some ⟨x, false⟩) (h' : d.slot o' = some ⟨x', false⟩)
      (hx : x.native ≠ none) :
      OS t d (.asIn o o') rv (((d.put o' x' true).put o x true).ev (.began t o .assign x)) (.goto (.jnAsk (.assign o o')))
  | asNo (o o' : Nat) (x x' : TObj) (rv : Val) (h : d.slot o = some ⟨x, false⟩) (h' : d.slot o' = some ⟨x', false⟩)
      (hx : x.native = none) :
      OS t d (.asIn o o') rv (((d.put o' x' true).put o x true).ev (.began t o .assign x)) (.goto (.asSwap o o'))
  | asSwap (o o' : Nat) (x x' : Slot) (rv : Val) (h : d.slot o = some x) (h' : d.slot o' = some x') :
      OS t d (.asSwap o o') rv ((d.exch o o' x.obj x'.obj).ev (.swapped t o)) (.ret .unit)
  | jnIn (o : Nat) (x : TObj) (rv : Val) (h : d.slot o = some ⟨x, false⟩) :
      OS t d (.jnIn o) rv ((d.put o x true).ev (.began t o .join x)) (.goto (.jnAsk (.join o)))
  | jnOut (o : Nat) (x : Slot) (rv : Val) (h : d.slot o = some x) : OS t d (.jnOut o) rv (d.put o x.obj false) (.ret .unit)
  | jnFail (o : Nat) (e : Exn) (x : Slot) (rv : Val) (h : d.slot o = some x) : OS t d (.jnFail o e) rv (d.put o x.obj false) (.throw e)
  | jnAsk (K : JK) (x : Slot) (rv : Val) (h : d.slot K.obj = some x) :
      OS t d (.jnAsk K) rv (d.ev (.asks t K.obj x.obj.id)) (.call (.notifyExit x.obj.id) (.jnStd K))
  | jnBad (K : JK) (x : Slot) (e : Exn) (rv : Val) (h : d.slot K.obj = some x) :
      OS t d (.jnStd K) rv d (.goto (K.fail e))
  | jnStd (K : JK) (x : Slot) (n : Nat) (rv : Val) (h : d.slot K.obj = some x) (hn : x.obj.native = some n) (ht : n ≠ t) :
      OS t d (.jnStd K) rv ((d.put K.obj { x.obj with native := none } true).ev (.joins t K.obj n)) (.call (.join n) (.jnEnd K n))
  | jnEnd (K : JK) (n : Nat) (rv : Val) : OS t d (.jnEnd K n) rv (d.ev (.joined t K.obj n)) (.goto K.next)
  | deBad (o : Nat) (e : Exn) (rv : Val) : OS t d (.deIn o) rv d (.throw e)
  | deIn (o n : Nat) (x : TObj) (rv : Val) (h : d.slot o = some ⟨x, false⟩) (hn : x.native = some n) :
      OS t d (.deIn o) rv (d.put o { x with native := none } true) (.call (.detach n) (.deEnd o))
  | deEnd (o : Nat) (x : Slot) (rv : Val) (h : d.slot o = some x) : OS t d (.deEnd o) rv (d.put o x.obj false) (.ret .unit)
  | dtJoin (o : Nat) (x : TObj) (rv : Val) (h : d.slot o = some ⟨x, false⟩) (hx : x.native ≠ none) :
      OS t d (.dtIn o) rv ((d.put o x true).ev (.began t o .dtor x)) (.goto (.jnAsk (.dtor o)))
  | dtNo (o : Nat) (x : TObj) (rv : Val) (h : d.slot o = some ⟨x, false⟩) (hx : x.native = none) :
      OS t d (.dtIn o) rv ((d.put o x true).ev (.began t o .dtor x)) (.goto (.dtStd o))
  | dtBad (o : Nat) (x : Slot) (rv : Val) (h : d.slot o = some x) (hx : x.obj.native ≠ none) :
      OS t d (.dtStd o) rv (d.ev (.gone t o x.obj.native)) .terminate
  | dtStd (o : Nat) (x : Slot) (rv : Val) (h : d.slot o = some x) (hx : x.obj.native = none) :
      OS t d (.dtStd o) rv ((d.setSlot o none).ev (.gone t o none)) (.ret .unit)
  | idIn (o : Nat) (v rv : Val) : OS t d (.idIn o) rv d (.ret v)
  | jaIn (o : Nat) (v rv : Val) : OS t d (.jaIn o) rv d (.ret v)

theorem idle_some {d : OData δ} {o : Nat} {x : TObj} (h : d.idle o = some x) : d.slot o = some ⟨x, false⟩ := by
  unfold OData.idle at h
  split at h
  · rename_i h1; cases h; exact h1
  · contradiction

theorem ostep_os {v : View} {d d' : OData δ} {f : OFrame φ} {rv : Val} {a : Act τ (OFrame φ)} (h : ostep v d f rv = some (d', a)) :
    OS v.tid d f rv d' a := by
  cases f <;> simp only [ostep] at h <;> repeat' (split at h)
  all_goals try contradiction
  all_goals simp only [Option.some.injEq, Prod.mk.injEq] at h; obtain ⟨rfl, rfl⟩ := h
  all_goals try exact .halt _ _
  all_goals first
    | exact .new _ _ (by rename_i h; simpa using h)
    | exact .mkIn _ _ _ _ (by rename_i h; simpa using h)
    | exact .mkReg _ _ _
    | exact .mkId _ _ _
    | exact .mvIn _ _ _ _ ‹_› (idle_some ‹_›)
    | exact .swIn _ _ _ _ _ (idle_some ‹_›) (idle_some ‹_›)
    | exact .asSwap _ _ _ _ _ ‹_› ‹_›
    | exact .jnIn _ _ _ (idle_some ‹_›)
    | exact .jnOut _ _ _ ‹_›
    | exact .jnFail _ _ _ _ ‹_›
    | exact .jnAsk _ _ _ ‹_›
    | exact .jnEnd _ _ _
    | exact .deEnd _ _ _ ‹_›
    | exact .asJoin _ _ _ _ _ (idle_some ‹_›) (idle_some ‹_›) (by rename_i h; simpa [Option.isSome_iff_ne_none] using h)
    | exact .asNo _ _ _ _ _ (idle_some ‹_›) (idle_some ‹_›) (by rename_i h; simpa using h)
    | exact .jnBad _ _ _ _ ‹_›
    | exact .jnStd _ _ _ _ ‹_› ‹_› ‹_›
    | exact .deBad _ _ _
    | exact .deIn _ _ _ _ (idle_some ‹_›) ‹_›
    | exact .dtJoin _ _ _ (idle_some ‹_›) (by rename_i h; simpa [Option.isSome_iff_ne_none] using h)
    | exact .dtNo _ _ _ (idle_some ‹_›) (by rename_i h; simpa using h)
    | exact .dtBad _ _ _ ‹_› (by rename_i h; simpa [Option.isSome_iff_ne_none] using h)
    | exact .dtStd _ _ _ ‹_› (by rename_i h; simpa using h)
    | exact .idIn _ _ _
    | exact .jaIn _ _ _


/-- A step of the client: user code (which does not touch objects), or class thread. -/
theorem client_os {U : User τ φ δ χ} {v : View} {d d' : OData δ} {f : OFrame φ} {rv : Val} {ch : Ch χ} {a : Act τ (OFrame φ)}
    (h : (client U).step v d f rv ch = some (d', a)) :
    (∃ g oa, f = .usr g ∧ d'.slot = d.slot ∧ d'.olog = d.olog ∧ a = liftAct oa) ∨ OS v.tid d f rv d' a := by
  unfold client at h
  simp only at h
  split at h
  · split at h
    · contradiction
    · simp only [Option.some.injEq, Prod.mk.injEq] at h
      obtain ⟨rfl, rfl⟩ := h
      exact .inl ⟨_, _, rfl, rfl, rfl, rfl⟩
  · split at h
    · exact .inr (ostep_os h)
    · contradiction

/-! ## Tokens -/

def JK.objs : JK → List Nat
  | .join o => [o]
  | .assign o o' => [o, o']
  | .dtor o => [o]

/-- The objects on which a program point is in the middle of an operation. -/
def objs : OFrame φ → List Nat
  | .mkReg o _ => [o]
  | .mkId o _ => [o]
  | .asSwap o o' => [o, o']
  | .jnOut o => [o]
  | .jnFail o _ => [o]
  | .jnAsk K => K.objs
  | .jnStd K => K.objs
  | .jnEnd K _ => K.objs
  | .deEnd o => [o]
  | .dtStd o => [o]
  | _ => []

def tk (o : Nat) (f : OFrame φ) : Nat := if o ∈ objs f then 1 else 0

def busyN (d : OData δ) (o : Nat) : Nat :=
  match d.slot o with
  | some ⟨_, true⟩ => 1
  | _ => 0

theorem busyN_of {d : OData δ} {o : Nat} {x : TObj} (h : d.slot o = some ⟨x, true⟩) : busyN d o = 1 := by simp [busyN, h]
theorem busyN_idle {d : OData δ} {o : Nat} {x : TObj} (h : d.slot o = some ⟨x, false⟩) : busyN d o = 0 := by simp [busyN, h]
theorem busyN_none {d : OData δ} {o : Nat} (h : d.slot o = none) : busyN d o = 0 := by simp [busyN, h]
theorem busyN_le (d : OData δ) (o : Nat) : busyN d o ≤ 1 := by unfold busyN; split <;> omega

theorem slot_put (d : OData δ) (o u : Nat) (x : TObj) (b : Bool) : (d.put o x b).slot u = if u = o then some ⟨x, b⟩ else d.slot u := by
  simp [OData.put, OData.setSlot, upd]

theorem slot_set (d : OData δ) (o u : Nat) (x : Option Slot) : (d.setSlot o x).slot u = if u = o then x else d.slot u := by
  simp [OData.setSlot, upd]

theorem slot_ev (d : OData δ) (e : OEv) (u : Nat) : (d.ev e).slot u = d.slot u := rfl
theorem olog_ev (d : OData δ) (e : OEv) : (d.ev e).olog = e :: d.olog := rfl
theorem olog_put (d : OData δ) (o : Nat) (x : TObj) (b : Bool) : (d.put o x b).olog = d.olog := rfl
theorem olog_set (d : OData δ) (o : Nat) (x : Option Slot) : (d.setSlot o x).olog = d.olog := rfl

theorem fail_objs (K : JK) (e : Exn) : ∀ o ∈ objs (K.fail e : OFrame φ), o ∈ K.objs := by
  cases K <;> simp [JK.fail, objs, JK.objs]

theorem next_objs (K : JK) : objs (K.next : OFrame φ) = K.objs := by cases K <;> rfl

theorem obj_objs (K : JK) : K.obj ∈ K.objs := by cases K <;> simp [JK.obj, JK.objs]

/-- The tokens of the frames that an action creates. -/
def actTk (o : Nat) (f : OFrame φ) : Act τ (OFrame φ) → Nat
  | .goto g => tk o g
  | .push g k => tk o g + tk o k
  | .call _ k => tk o k
  | .terminate => tk o f
  | _ => 0

theorem entry_objs (a : OApi φ) : objs a.entry = [] := by cases a <;> rfl

theorem os_tok {t : Nat} {d d' : OData δ} {f : OFrame φ} {rv : Val} {a : Act τ (OFrame φ)} (h : OS t d f rv d' a) (o : Nat) :
    actTk o f a + busyN d o ≤ tk o f + busyN d' o := by
  have hb := busyN_le d o
  have hle : ∀ {f g : OFrame φ}, (∀ o ∈ objs g, o ∈ objs f) → tk o g ≤ tk o f := by
    intro f g h; unfold tk; grind
  cases h
  case jnBad K x e h =>
    have := hle (f := .jnStd K) (fail_objs (φ := φ) K e)
    simp only [actTk, busyN, slot_ev]; omega
  case jnEnd K n =>
    have := hle (f := .jnEnd K n) (g := K.next) (by rw [next_objs]; exact fun _ h => h)
    simp only [actTk, busyN, slot_ev]; omega
  case jnStd K x n h _ _ =>
    have := obj_objs K
    simp only [actTk, busyN, tk, objs, slot_ev, slot_put]
    grind
  case halt => simp only [actTk]; omega
  all_goals simp only [actTk, tk, objs, JK.objs, busyN, slot_ev, slot_put, slot_set, OData.exch, List.mem_cons, List.not_mem_nil, or_false, if_false]
  all_goals grind

theorem tk_usr (o : Nat) (g : φ) : tk o (.usr g) = 0 := rfl
theorem tk_entry (o : Nat) (a : OApi φ) : tk o a.entry = 0 := by simp [tk, entry_objs]

theorem lift_tok (o : Nat) (g : φ) (a : OAct τ φ) : actTk o (.usr g) (liftAct a) = 0 := by
  cases a with
  | core a k => simp only [liftAct]; cases mapApi a <;> rfl
  | obj a k => simp [liftAct, actTk, tk_usr, tk_entry]
  | _ => rfl

/-! ## Stacks -/

def Adj : Frame τ (OFrame φ) → Frame τ (OFrame φ) → Prop := fun l u =>
  (∀ o n, l = .client (.mkReg o n) → ∃ f, u = .core (.spawnIn n f)) ∧
  (∀ n f, u = .core (.spawnIn n f) → ∃ o, l = .client (.mkReg o n)) ∧
  (∀ n, l ≠ .core (.joinIn n)) ∧ (∀ n, l ≠ .core (.detachIn n))

theorem adj_free {l u : Frame τ (OFrame φ)} (hl : ∀ o n, l ≠ .client (.mkReg o n)) (hu : ∀ n f, u ≠ .core (.spawnIn n f))
    (hj : (∀ n, l ≠ .core (.joinIn n)) ∧ (∀ n, l ≠ .core (.detachIn n))) : Adj l u :=
  ⟨fun o n h => absurd h (hl o n), fun n f h => absurd h (hu n f), hj⟩

theorem adj_core {C : Client τ (OFrame φ) (OData δ) χ} {s : OSt τ φ δ} {t : Nat} {f : CF τ (OFrame φ)} {l : Frame τ (OFrame φ)} {pre : List (Frame τ (OFrame φ))} {g : Frame τ (OFrame φ)}
    (hc : CTo C s t f (pre ++ [g])) (h : Adj l (.core f)) : Adj l g := by
  have hl : ∀ o n, l ≠ .client (.mkReg o n) := by
    rintro o n rfl
    obtain ⟨f', hf⟩ := h.1 o n rfl
    cases hf
    generalize pre ++ [g] = new at hc
    cases hc
  refine adj_free hl ?_ h.2.2
  rintro n f' rfl
  generalize hnew : pre ++ [Frame.core (.spawnIn n f')] = new at hc
  have : Frame.core (.spawnIn n f') ∈ new := by rw [← hnew]; simp
  cases hc <;> simp at this

theorem adj_call {U : User τ φ δ χ} {v : View} {d d' : OData δ} {f g : OFrame φ} {rv : Val} {ch : Ch χ} {a : Act τ (OFrame φ)} {u : Frame τ (OFrame φ)}
    (h : (client U).step v d f rv ch = some (d', a)) (hu : a.callee = some u) (hg : a.cont = some g) : Adj (.client g) u := by
  rcases client_os h with ⟨g', oa, rfl, -, -, rfl⟩ | h
  · cases oa <;> simp only [liftAct] at hu hg
    case core a k =>
      split at hu
      · rename_i a' ha
        rw [ha] at hg
        simp only [Act.cont, Act.callee, Option.some.injEq] at hg hu
        subst hg hu
        refine adj_free (by simp) ?_ (by simp)
        intro n f h
        cases a <;> simp only [mapApi] at ha <;> cases ha <;> simp [Api.entry] at h
      · simp [Act.callee] at hu
    all_goals
      simp only [Act.cont, Act.callee, Option.some.injEq, reduceCtorEq] at hg hu
    all_goals
      subst hg hu
      exact adj_free (by simp) (by simp) (by simp)
  · cases h <;> simp only [Act.cont, Act.callee, Option.some.injEq, reduceCtorEq] at hg hu <;> subst hg hu
    case mkIn => exact ⟨fun o n h => by cases h; exact ⟨_, rfl⟩, fun n f h => by cases h; exact ⟨_, rfl⟩, by simp, by simp⟩
    all_goals exact adj_free (by simp) (by simp [Api.entry]) (by simp)

def stacking (U : User τ φ δ χ) (J : OSt τ φ δ → Prop) : Stacking (client U) J where
  nt _ := False
  Adj := Adj
  closed l := by
    refine ⟨?_, ?_, ?_, ?_⟩
    · intro s t ch f rest d' a g _ _ _ hs hg h
      refine ⟨fun o n hl => ?_, fun n f hf => by simp at hf, h.2.2⟩
      obtain ⟨f', hf⟩ := h.1 o n hl
      simp at hf
    · intro s t f pre g hc h; exact adj_core hc h
    · intro g e g' _ _ h
      refine ⟨fun o n hl => ?_, fun n f hf => by simp at hf, h.2.2⟩
      obtain ⟨f', hf⟩ := h.1 o n hl
      simp at hf
    · intro f k e _ hk h
      refine ⟨fun o n hl => ?_, fun n f hf => by simp at hf, h.2.2⟩
      obtain ⟨f', hf⟩ := h.1 o n hl
      cases hf; simp [CF.running] at hk
  call := by intro s t ch f rest d' a u g _ _ _ hs hu hg; exact adj_call hs hu hg
  core := by
    intro s t f rest u g _ _ h
    cases h <;> exact adj_free (by simp) (by simp) (by simp)
  task := by intro f k e _ _; exact adj_free (by simp) (by simp) (by simp)
  noThrow := by intro s t ch f l rest d' e _ _ _ _; exact id
  pop := by intro l f e h; exact h.elim
  unwind := by intro l f h; exact h.elim
  rethrow := by intro l e _; exact id

def isUsr : OFrame φ → Prop := fun f => ∃ g, f = .usr g

theorem codes {U : User τ φ δ χ} {ud : δ} {f : φ} {s : OSt τ φ δ} (hr : OR U ud f s) : Codes isUsr s := by
  refine Codes.reach ?_ hr
  intro v d f rv ch d' a k h
  rcases client_os h with ⟨g', oa, rfl, -, -, hx⟩ | h
  · cases oa <;> simp only [liftAct] at hx <;> try contradiction
    rename_i a0 k0
    split at hx
    · rename_i a' ha
      cases hx
      cases a0 <;> simp only [mapApi] at ha <;> cases ha <;> simp [ApiOK]
      intro cb hf
      exact ⟨_, rfl⟩
    · contradiction
  · generalize hx : (Act.call a k : Act τ (OFrame φ)) = b at h
    cases h <;> cases hx <;> simp [ApiOK]
    exact ⟨_, rfl⟩


def wts (o : Nat) : Wts τ (OFrame φ) (OData δ) where
  eq := false
  wt _ := 0
  wl _ := 0
  wr _ := 0
  lo := tk o
  hi f _ := tk o f
  hx := tk o
  out _ := 0
  inn d := busyN d o

theorem lw_zero (o : Nat) (f : CF τ (OFrame φ)) : f.lw (wts (δ := δ) o) = 0 := by
  cases f <;> simp only [CF.lw, wts]
  rename_i l _ _
  induction l with
  | nil => rfl
  | cons a l ih => simp [ih]

theorem tw_zero (o : Nat) (f : CF τ (OFrame φ)) : f.tw (wts (δ := δ) o) = 0 := by
  cases f <;> simp only [CF.tw] <;> first | rfl | exact lw_zero o _

theorem hi_lo (o : Nat) (v : Val) (l : Frame τ (OFrame φ)) : l.hi (wts (δ := δ) o) v = l.lo (wts (δ := δ) o) := by
  cases l with
  | client f => rfl
  | core f => simp [Frame.hi, Frame.lo, lw_zero, tw_zero]

theorem hx_lo (o : Nat) (l : Frame τ (OFrame φ)) : l.hx (wts (δ := δ) o) = l.lo (wts (δ := δ) o) := by
  cases l with
  | client f => rfl
  | core f => simp [Frame.hx, Frame.lo, lw_zero, tw_zero]

theorem topHi_lo (o : Nat) (v : Val) (l : List (Frame τ (OFrame φ))) : topHi (wts (δ := δ) o) v l = losum (wts (δ := δ) o) l := by
  cases l <;> simp [topHi, hi_lo]

theorem topHx_lo (o : Nat) (l : List (Frame τ (OFrame φ))) : topHx (wts (δ := δ) o) l = losum (wts (δ := δ) o) l := by
  cases l <;> simp [topHx, hx_lo]

theorem thw_lo (o : Nat) (s : OSt τ φ δ) (t : Nat) : thw (wts o) s t = losum (wts (δ := δ) o) (s.stk t) := by
  unfold thw stw
  split
  · exact topHi_lo ..
  · exact topHx_lo ..

theorem newW_act (o : Nat) (f : OFrame φ) (v : Val) (rest : List (Frame τ (OFrame φ))) (a : Act τ (OFrame φ)) :
    newW (wts (δ := δ) o) f v rest a = actTk o f a + losum (wts (δ := δ) o) rest := by
  cases a <;> simp only [newW, actTk, topHi_lo, topHx_lo, tw_zero] <;> simp [wts]

def isUsrF : Frame τ (OFrame φ) → Prop
  | .client f => isUsr f
  | .core _ => False

/-- The bottom of every stack is user code. -/
def botL : List (Frame τ (OFrame φ)) → Prop
  | [] => True
  | [f] => isUsrF f
  | _ :: g :: l => botL (g :: l)

theorem botL_app {f : Frame τ (OFrame φ)} : ∀ {pre : List (Frame τ (OFrame φ))}, botL (pre ++ [f]) → isUsrF f
  | [], h => h
  | [_], h => h
  | _ :: g :: l, h => botL_app (pre := g :: l) h

theorem botL_cons {f : Frame τ (OFrame φ)} {l : List (Frame τ (OFrame φ))} (h : l ≠ []) : botL (f :: l) ↔ botL l := by
  cases l with
  | nil => exact absurd rfl h
  | cons g l => exact Iff.rfl

theorem botL_tail {f : Frame τ (OFrame φ)} {l : List (Frame τ (OFrame φ))} (h : botL (f :: l)) : botL l := by
  cases l with
  | nil => trivial
  | cons g l => exact h

theorem botL_rep {f g : Frame τ (OFrame φ)} {l : List (Frame τ (OFrame φ))} (h : botL (f :: l)) (hfg : isUsrF f → isUsrF g) : botL (g :: l) := by
  cases l with
  | nil => exact hfg h
  | cons x l => exact h

theorem botL_app2 {l : List (Frame τ (OFrame φ))} (h : botL l) (hne : l ≠ []) : ∀ pre, botL (pre ++ l)
  | [] => h
  | f :: pre => by
    show botL (f :: (pre ++ l))
    rw [botL_cons (by simp [hne])]
    exact botL_app2 h hne pre

theorem bot_reach {U : User τ φ δ χ} {ud : δ} {f : φ} {s : OSt τ φ δ} (h : OR U ud f s) (t : Nat) : botL (s.stk t) := by
  revert t
  refine Reach.induct (fun s => ∀ t, botL (s.stk t)) ?_ ?_ h
  · intro t
    simp only [Core.init, St.stk, upd]
    split <;> first | exact ⟨_, rfl⟩ | trivial
  · intro s l s' hr q hs u
    cases l with
    | tick n => rw [step_tick _ s s' n hs]; exact q u
    | th t ch =>
      by_cases hu : u = t
      · subst hu
        have hq := q u
        rcases step_cl hs with ⟨f, rest, d', a, hexc, hold, hstep, hdata, hact, -⟩ | ⟨f, rest, hexc, hold, hcs, hdata, -⟩ |
          ⟨e, hexc, hst, -, -, hdata, -⟩ |
          ⟨e, f, k, rest, hexc, hold, hf, hst, hexc', hdata, -⟩ | ⟨e, f, rest, hexc, hold, hf, hst, -, hdata, -⟩ |
          ⟨e, g, g', rest, hexc, hold, hg, hst, hexc', hdata, -⟩ | ⟨e, g, rest, hexc, hold, hg, hst, -, hdata, -⟩ | ⟨hold, hst, hexc', hdata, -⟩
        · rw [hold] at hq
          by_cases hrest : rest = []
          · subst hrest
            have hq0 : isUsr f := hq
            obtain ⟨g, rfl⟩ := hq0
            rcases client_os hstep with ⟨g', oa, -, -, -, rfl⟩ | h
            · cases oa with
              | core a k =>
                simp only [liftAct] at hact
                cases ha : mapApi a <;> simp only [ha, ActTo] at hact <;> rw [hact.1]
                · rw [hold]; exact hq
                · exact ⟨_, rfl⟩
              | _ => simp only [liftAct, ActTo] at hact; (try rw [hact.1]); first | exact ⟨_, rfl⟩ | trivial | (rw [hold]; exact hq)
            · cases h; simp only [ActTo] at hact; rw [hact.1, hold]; exact hq
          · have hq' := (botL_cons hrest).1 hq
            cases a <;> simp only [ActTo] at hact <;> rw [hact.1]
            · exact botL_app2 hq' hrest [_]
            · exact botL_app2 hq' hrest [_, _]
            · exact botL_app2 hq' hrest [_, _]
            · exact hq'
            · exact hq'
            · rw [hold]; exact hq
        · rw [hold] at hq
          have hrest : rest ≠ [] := by rintro rfl; exact hq
          have hq' := (botL_cons hrest).1 hq
          rcases hcs with ⟨new, h, hst, hexc', hrv⟩ | ⟨v, h, hst, hrv, hexc'⟩ | ⟨e, rfl, hst, hexc'⟩ | ⟨hub, hst, hexc'⟩
          · rw [hst]; exact botL_app2 hq' hrest _
          · rw [hst]; exact hq'
          · rw [hst]; exact hq'
          · rw [hst, hold]; exact hq
        · rw [hst]; exact hq
        · rw [hold] at hq
          have hrest : rest ≠ [] := by rintro rfl; exact hq
          rw [hst]; exact botL_app2 ((botL_cons hrest).1 hq) hrest [_, _]
        · rw [hold] at hq; rw [hst]; exact botL_tail hq
        · rw [hold] at hq; rw [hst]
          refine botL_rep hq ?_
          rintro ⟨x, rfl⟩
          simp only [client, oThrow, Option.map_eq_some_iff] at hg
          obtain ⟨y, -, rfl⟩ := hg
          exact ⟨_, rfl⟩
        · rw [hold] at hq; rw [hst]; exact botL_tail hq
        · rw [hst]; trivial
      · rcases hr.stk_oth hu hs with ⟨h, -⟩ | ⟨f, rest, h, -, h4, h5, h6⟩
        · rw [h]; exact q u
        · rw [h5]
          exact (codes hr).code t (.spawnIn u f) (by rw [h]; simp) u

def lin (U : User τ φ δ χ) (ud : δ) (f : φ) (o : Nat) : Lin (client U) (OR U ud f) (stacking U (OR U ud f)) where
  toWts := wts o
  code := isUsr
  code_hi := by rintro f v ⟨g, rfl⟩; rfl
  code_ok h := codes h
  run k v := by simp [Rel, wts, client, tk_usr]
  destroy k v := by simp [Rel, wts, client, tk_usr]
  destroyR k v := by simp [Rel, wts, client, tk_usr]
  bot := by
    intro s t pre f hr h
    have := bot_reach hr t
    rw [h] at this
    have := botL_app this
    cases f with
    | core f => exact this.elim
    | client f => obtain ⟨g, rfl⟩ := this; exact ⟨_, rfl, rfl⟩
  step := by
    intro s t ch f rest d' a hr hexc hold hstep
    rw [newW_act]
    simp only [wts, Rel]
    rcases client_os hstep with ⟨g, oa, rfl, h1, h2, rfl⟩ | h
    · rw [lift_tok, tk_usr]
      have : busyN d' o = busyN s.data o := by simp [busyN, h1]
      simp; omega
    · have := os_tok h o
      simp; omega
  pop := by intro l f v _ _; rw [hi_lo, tw_zero]; exact Rel.rfl' (by omega)
  unw := by intro l f _ _; rw [hx_lo]; exact Rel.refl _
  catch' := by
    intro g e g' _ h
    cases g <;> simp only [client, oThrow, Option.map_eq_some_iff, reduceCtorEq] at h
    obtain ⟨y, -, rfl⟩ := h
    simp [Rel, wts, tk_usr]
  cpop := by intro g e l _ _ _; rw [hx_lo]; exact Nat.le_add_left _ _

/-- At most one operation is in progress on an object, and only if it is busy. -/
theorem tok_ok {U : User τ φ δ χ} {ud : δ} {f : φ} {s : OSt τ φ δ} (hr : OR U ud f s) (o : Nat) :
    ∃ N, (∀ i, N ≤ i → s.stk i = []) ∧ nsum N (fun t => losum (wts (δ := δ) o) (s.stk t)) ≤ busyN s.data o := by
  obtain ⟨N, h1, h2⟩ := (lin U ud f o).sound (fun _ h => h) (tk_usr o f) (by simp [lin, wts, Rel, busyN]) hr
  refine ⟨N, fun i hi => (h1 i hi).1, ?_⟩
  have e : nsum N (thw (lin U ud f o).toWts s) = nsum N (fun t => losum (wts (δ := δ) o) (s.stk t)) :=
    nsum_congr fun i _ => thw_lo o s i
  rw [e] at h2
  have h2 : nsum N (fun t => losum (wts (δ := δ) o) (s.stk t)) + _ + 0 ≤ busyN s.data o := h2
  omega

theorem tok_busy {U : User τ φ δ χ} {ud : δ} {f : φ} {s : OSt τ φ δ} (hr : OR U ud f s) {t o : Nat} {g : OFrame φ}
    (hg : .client g ∈ s.stk t) (ho : o ∈ objs g) : busyN s.data o = 1 := by
  obtain ⟨N, h1, h2⟩ := tok_ok hr o
  have ht : t < N := by
    rcases Nat.lt_or_ge t N with h | h
    · exact h
    · rw [h1 t h] at hg; simp at hg
  have := nsum_le (f := fun t => losum (wts (δ := δ) o) (s.stk t)) ht
  have h3 : tk o g ≤ losum (wts (δ := δ) o) (s.stk t) := lsum_mem (w := Frame.lo (wts (δ := δ) o)) hg
  have : tk o g = 1 := by simp [tk, ho]
  have := busyN_le s.data o
  omega

theorem tok_top {U : User τ φ δ χ} {ud : δ} {f : φ} {s : OSt τ φ δ} (hr : OR U ud f s) {t u o : Nat} {g g' : OFrame φ}
    {rest : List (Frame τ (OFrame φ))}
    (hst : s.stk t = .client g :: rest) (ho : o ∈ objs g) (hg : .client g' ∈ s.stk u) (ho' : o ∈ objs g')
    (hne : u ≠ t ∨ .client g' ∈ rest) : False := by
  obtain ⟨N, h1, h2⟩ := tok_ok hr o
  have lt : ∀ {t}, s.stk t ≠ [] → t < N := by
    intro t hne
    rcases Nat.lt_or_ge t N with h | h
    · exact h
    · exact absurd (h1 t h) hne
  have ht : t < N := lt (by rw [hst]; simp)
  have hu : u < N := lt (by rintro h; rw [h] at hg; simp at hg)
  have e1 : tk o g = 1 := by simp [tk, ho]
  have e2 : tk o g' = 1 := by simp [tk, ho']
  have := busyN_le s.data o
  have e3 : losum (wts (δ := δ) o) (s.stk t) = tk o g + losum (wts (δ := δ) o) rest := by rw [hst]; simp [Frame.lo, wts]
  by_cases hut : u = t
  · have hne : .client g' ∈ rest := hne.resolve_left (fun h => h hut)
    have h3 : tk o g' ≤ losum (wts (δ := δ) o) rest := lsum_mem (w := Frame.lo (wts (δ := δ) o)) hne
    have := nsum_le (f := fun t => losum (wts (δ := δ) o) (s.stk t)) ht
    omega
  · have h3 : tk o g' ≤ losum (wts (δ := δ) o) (s.stk u) := lsum_mem (w := Frame.lo (wts (δ := δ) o)) hg
    have := nsum_le2 (f := fun t => losum (wts (δ := δ) o) (s.stk t)) (Ne.symm hut) ht hu
    omega


/-! ## What the program points know -/

def OEv.obj : OEv → Nat
  | .made _ o _ _ => o
  | .began _ o _ _ => o
  | .asks _ o _ => o
  | .joins _ o _ => o
  | .joined _ o _ => o
  | .swapped _ o => o
  | .gone _ o _ => o

def OEv.isBegan : OEv → Bool
  | .began _ _ _ _ => true
  | _ => false

/-- The events about object `o` since the latest operation on it began, newest first. -/
def opLog (o : Nat) : List OEv → List OEv
  | [] => []
  | e :: l => if e.obj = o then (if e.isBegan then [e] else e :: opLog o l) else opLog o l

/-- The object, whose content was `x`, is not joinable; if it was, its thread has been asked to exit and joined. -/
def Fin (t o : Nat) (op : Op) (x : TObj) (l : List OEv) : Prop :=
  (x.native = none ∧ l = [.began t o op x]) ∨
  ∃ n, x.native = some n ∧ l = [.joined t o n, .joins t o n, .asks t o x.id, .began t o op x]

def PF (d : OData δ) (t : Nat) : OFrame φ → Prop
  | .mkReg o _ => d.slot o = some ⟨{}, true⟩
  | .mkId o n => d.slot o = some ⟨⟨some n, 0⟩, true⟩
  | .jnAsk K => ∃ x, d.slot K.obj = some ⟨x, true⟩ ∧ opLog K.obj d.olog = [.began t K.obj K.op x]
  | .jnStd K => ∃ x, d.slot K.obj = some ⟨x, true⟩ ∧ opLog K.obj d.olog = [.asks t K.obj x.id, .began t K.obj K.op x]
  | .jnEnd K n => ∃ id, d.slot K.obj = some ⟨⟨none, id⟩, true⟩ ∧
      opLog K.obj d.olog = [.joins t K.obj n, .asks t K.obj id, .began t K.obj K.op ⟨some n, id⟩]
  | .asSwap o _ => ∃ x, d.slot o = some ⟨⟨none, x.id⟩, true⟩ ∧ Fin t o .assign x (opLog o d.olog)
  | .dtStd o => ∃ x, d.slot o = some ⟨⟨none, x.id⟩, true⟩ ∧ Fin t o .dtor x (opLog o d.olog)
  | .jnOut o => ∃ x : TObj, d.slot o = some ⟨x, true⟩ ∧ x.native = none
  | .deEnd o => ∃ x : TObj, d.slot o = some ⟨x, true⟩ ∧ x.native = none
  | _ => True

theorem opLog_ev {d : OData δ} {e : OEv} {o : Nat} (h : e.obj ≠ o) : opLog o (d.ev e).olog = opLog o d.olog := by
  simp [OData.ev, opLog, h]

theorem opLog_evs {d : OData δ} {e : OEv} {o : Nat} (h : e.obj = o) (hb : e.isBegan = false) : opLog o (d.ev e).olog = e :: opLog o d.olog := by
  simp [OData.ev, opLog, h, hb]

theorem opLog_began {d : OData δ} {t o : Nat} {op : Op} {x : TObj} : opLog o (d.ev (.began t o op x)).olog = [.began t o op x] := by
  simp [OData.ev, opLog, OEv.obj, OEv.isBegan]

/-- A step changes only objects it has a token of, or idle ones. -/
theorem os_keep {t : Nat} {d d' : OData δ} {f : OFrame φ} {rv : Val} {a : Act τ (OFrame φ)} (h : OS t d f rv d' a) {o : Nat}
    (hf : o ∉ objs f) (hb : busyN d o = 1) : d'.slot o = d.slot o ∧ opLog o d'.olog = opLog o d.olog := by
  have hni : ∀ x, d.slot o ≠ some ⟨x, false⟩ := by intro x hx; rw [busyN_idle hx] at hb; contradiction
  have hnn : d.slot o ≠ none := by intro hx; rw [busyN_none hx] at hb; contradiction
  cases h
  case jnBad K x e h => exact ⟨rfl, rfl⟩
  case jnAsk K x h => 
    have := obj_objs K
    simp only [objs] at hf
    refine ⟨rfl, opLog_ev ?_⟩
    simp only [OEv.obj]; rintro rfl; exact hf this
  case jnEnd K n =>
    have := obj_objs K
    simp only [objs] at hf
    refine ⟨rfl, opLog_ev ?_⟩
    simp only [OEv.obj]; rintro rfl; exact hf this
  case jnStd K x n h _ _ =>
    have := obj_objs K
    simp only [objs] at hf
    refine ⟨?_, opLog_ev ?_⟩
    · rw [slot_ev, slot_put, if_neg]; rintro rfl; exact hf this
    · simp only [OEv.obj]; rintro rfl; exact hf this
  all_goals
    simp only [objs, JK.objs, List.mem_cons, List.not_mem_nil, or_false, not_or] at hf
    simp only [OData.exch, slot_ev, slot_put, slot_set, olog_ev, olog_put, olog_set, opLog, OEv.obj]
    grind

theorem fail_pf (d : OData δ) (t : Nat) (K : JK) (e : Exn) : PF d t (K.fail e : OFrame φ) := by cases K <;> trivial

/-- The frame that an action of class thread creates. -/
theorem os_pf {t : Nat} {d d' : OData δ} {f g : OFrame φ} {rv : Val} {a : Act τ (OFrame φ)} (h : OS t d f rv d' a)
    (hf : PF d t f) (hg : a.cont = some g) : PF d' t g := by
  cases h <;> simp only [Act.cont, Option.some.injEq, reduceCtorEq] at hg <;> subst hg
  case mkIn o n f h => simp [PF, slot_put]
  case mkReg o n => simp [PF, slot_put]
  case asJoin o o' x x' h h' hx =>
    exact ⟨x, by simp [slot_ev, slot_put, JK.obj], opLog_began⟩
  case asNo o o' x x' h h' hx =>
    exact ⟨x, by simp [slot_ev, slot_put, JK.obj, ← hx], .inl ⟨hx, opLog_began⟩⟩
  case jnIn o x h => exact ⟨x, by simp [slot_ev, slot_put, JK.obj], opLog_began⟩
  case jnAsk K x h =>
    obtain ⟨y, h1, h2⟩ := hf
    rw [h] at h1; cases h1
    exact ⟨y, h, (opLog_evs (o := K.obj) (e := .asks t K.obj y.id) rfl rfl).trans (by rw [h2])⟩
  case jnBad K x e h => exact fail_pf _ _ _ _
  case jnStd K x n h hn ht =>
    obtain ⟨y, h1, h2⟩ := hf
    rw [h] at h1; cases h1
    refine ⟨y.id, ?_, ?_⟩
    · simp [slot_ev, slot_put]
    · simp only at hn
      rw [← hn]
      exact (opLog_evs (o := K.obj) (e := .joins t K.obj n) rfl rfl).trans (by rw [olog_put, h2])
  case jnEnd K n =>
    obtain ⟨id, h1, h2⟩ := hf
    cases K with
    | join o => exact ⟨_, h1, rfl⟩
    | assign o o' =>
      refine ⟨⟨some n, id⟩, h1, .inr ⟨n, rfl, ?_⟩⟩
      simp only [JK.obj, JK.op] at h2 ⊢
      rw [opLog_evs (o := o) (e := .joined t o n) rfl rfl, h2]
    | dtor o =>
      refine ⟨⟨some n, id⟩, h1, .inr ⟨n, rfl, ?_⟩⟩
      simp only [JK.obj, JK.op] at h2 ⊢
      rw [opLog_evs (o := o) (e := .joined t o n) rfl rfl, h2]
  case deIn o n x h hn => exact ⟨⟨none, x.id⟩, by simp [slot_put], rfl⟩
  case dtJoin o x h hx => exact ⟨x, by simp [slot_ev, slot_put, JK.obj], opLog_began⟩
  case dtNo o x h hx => exact ⟨x, by simp [slot_ev, slot_put, JK.obj, ← hx], .inl ⟨hx, opLog_began⟩⟩

/-- A frame of an operation in progress; `PF` is trivial for the others. -/
theorem pf_free {d : OData δ} {t : Nat} {g : OFrame φ} (h : objs g = []) : PF d t g := by
  cases g <;> first | trivial | (simp [objs] at h; done) | skip
  case jnAsk K => cases K <;> simp [objs, JK.objs] at h
  case jnStd K => cases K <;> simp [objs, JK.objs] at h
  case jnEnd K _ => cases K <;> simp [objs, JK.objs] at h

theorem pf_keep {d d' : OData δ} {t : Nat} {g : OFrame φ} (h : ∀ o ∈ objs g, d'.slot o = d.slot o ∧ opLog o d'.olog = opLog o d.olog)
    (hg : PF d t g) : PF d' t g := by
  cases g <;> first | trivial | skip
  case jnAsk K => have := h _ (obj_objs K); simp only [PF] at hg ⊢; rw [this.1, this.2]; exact hg
  case jnStd K => have := h _ (obj_objs K); simp only [PF] at hg ⊢; rw [this.1, this.2]; exact hg
  case jnEnd K n => have := h _ (obj_objs K); simp only [PF] at hg ⊢; rw [this.1, this.2]; exact hg
  all_goals
    simp only [objs, List.mem_cons, List.not_mem_nil, or_false, forall_eq_or_imp, forall_eq] at h
    simp only [PF] at hg ⊢
    simp only [h]
    exact hg

theorem os_push {t : Nat} {d d' : OData δ} {f g k : OFrame φ} {rv : Val} (h : OS (τ := τ) t d f rv d' (.push g k)) : False := by
  generalize ha : (.push g k : Act τ (OFrame φ)) = a at h
  cases h <;> cases ha

/-- Where client frames come from. -/
theorem new_frame {U : User τ φ δ χ} {ud : δ} {f : φ} {s s' : OSt τ φ δ} (hr : OR U ud f s) {t u : Nat} {ch : Ch χ}
    (hs : step (client U) s (.th t ch) = some s') {g : OFrame φ} (hg : .client g ∈ s'.stk u) :
    isUsr g ∨ objs g = [] ∨ (.client g ∈ s.stk u ∧ (u ≠ t ∨ s'.data = s.data ∨ ∃ x rest, s.stk t = x :: rest ∧ .client g ∈ rest)) ∨
    (u = t ∧ ∃ f rest, ∃ a : Act τ (OFrame φ), (s.thr t).exc = none ∧ s.stk t = .client f :: rest ∧ OS t s.data f (s.thr t).rv s'.data a ∧
      (a.cont = some g ∨ s'.term = true)) := by
  by_cases hu : u = t
  · subst hu
    have cl := codes hr
    rcases step_cl hs with ⟨f, rest, d', a, hexc, hold, hstep, hdata, hact, -⟩ | ⟨f, rest, hexc, hold, hcs, hdata, -⟩ |
      ⟨e, hexc, hst, -, -, hdata, -⟩ |
      ⟨e, f, k, rest, hexc, hold, hf, hst, hexc', hdata, -⟩ | ⟨e, f, rest, hexc, hold, hf, hst, -, hdata, -⟩ |
      ⟨e, g0, g', rest, hexc, hold, hg', hst, hexc', hdata, -⟩ | ⟨e, g0, rest, hexc, hold, hg', hst, -, hdata, -⟩ | ⟨hold, hst, hexc', hdata, -⟩
    · have old : .client g ∈ rest → .client g ∈ s.stk u ∧ (u ≠ u ∨ s'.data = s.data ∨ ∃ x rest, s.stk u = x :: rest ∧ .client g ∈ rest) :=
        fun h => ⟨by rw [hold]; simp [h], .inr (.inr ⟨_, _, hold, h⟩)⟩
      rcases client_os hstep with ⟨g', oa, rfl, -, -, rfl⟩ | h
      · cases oa with
        | core a k =>
          simp only [liftAct] at hact
          cases ha : mapApi a <;> simp only [ha, ActTo] at hact <;> rw [hact.1] at hg
          · rw [hold] at hg
            simp only [List.mem_cons, Frame.client.injEq] at hg
            rcases hg with rfl | hg
            · exact .inl ⟨_, rfl⟩
            · exact .inr (.inr (.inl (old hg)))
          · simp only [List.mem_cons, Frame.client.injEq, reduceCtorEq, false_or] at hg
            rcases hg with rfl | hg
            · exact .inl ⟨_, rfl⟩
            · exact .inr (.inr (.inl (old hg)))
        | obj a k =>
          simp only [liftAct, ActTo] at hact
          rw [hact.1] at hg
          simp only [List.mem_cons, Frame.client.injEq] at hg
          rcases hg with rfl | rfl | hg
          · exact .inr (.inl (entry_objs a))
          · exact .inl ⟨_, rfl⟩
          · exact .inr (.inr (.inl (old hg)))
        | push g1 k =>
          simp only [liftAct, ActTo] at hact
          rw [hact.1] at hg
          simp only [List.mem_cons, Frame.client.injEq] at hg
          rcases hg with rfl | rfl | hg
          · exact .inl ⟨_, rfl⟩
          · exact .inl ⟨_, rfl⟩
          · exact .inr (.inr (.inl (old hg)))
        | goto g1 =>
          simp only [liftAct, ActTo] at hact
          rw [hact.1] at hg
          simp only [List.mem_cons, Frame.client.injEq] at hg
          rcases hg with rfl | hg
          · exact .inl ⟨_, rfl⟩
          · exact .inr (.inr (.inl (old hg)))
        | ret v => simp only [liftAct, ActTo] at hact; rw [hact.1] at hg; exact .inr (.inr (.inl (old hg)))
        | throw v => simp only [liftAct, ActTo] at hact; rw [hact.1] at hg; exact .inr (.inr (.inl (old hg)))
        | terminate =>
          simp only [liftAct, ActTo] at hact; rw [hact.1, hold] at hg
          simp only [List.mem_cons, Frame.client.injEq] at hg
          rcases hg with rfl | hg
          · exact .inl ⟨_, rfl⟩
          · exact .inr (.inr (.inl (old hg)))
      · subst hdata
        have h : OS u s.data f (s.thr u).rv s'.data a := h
        have mk := fun hc : a.cont = some g => (⟨rfl, f, rest, a, hexc, hold, h, .inl hc⟩ : u = u ∧ ∃ f rest, ∃ a : Act τ (OFrame φ), (s.thr u).exc = none ∧
          s.stk u = .client f :: rest ∧ OS u s.data f (s.thr u).rv s'.data a ∧ (a.cont = some g ∨ s'.term = true))
        cases a <;> simp only [ActTo] at hact <;> rw [hact.1] at hg
        · simp only [List.mem_cons, Frame.client.injEq] at hg
          rcases hg with rfl | hg
          · exact .inr (.inr (.inr (mk rfl)))
          · exact .inr (.inr (.inl (old hg)))
        · exact (os_push h).elim
        · simp only [List.mem_cons, Frame.client.injEq, reduceCtorEq, false_or] at hg
          rcases hg with rfl | hg
          · exact .inr (.inr (.inr (mk rfl)))
          · exact .inr (.inr (.inl (old hg)))
        · exact .inr (.inr (.inl (old hg)))
        · exact .inr (.inr (.inl (old hg)))
        · rw [hold] at hg
          simp only [List.mem_cons, Frame.client.injEq] at hg
          rcases hg with rfl | hg
          · exact .inr (.inr (.inr ⟨rfl, _, rest, _, hexc, hold, h, .inr hact.2.1⟩))
          · exact .inr (.inr (.inl (old hg)))
    · have old : .client g ∈ rest → .client g ∈ s.stk u ∧ (u ≠ u ∨ s'.data = s.data ∨ ∃ x rest, s.stk u = x :: rest ∧ .client g ∈ rest) :=
        fun h => ⟨by rw [hold]; simp [h], .inr (.inl hdata)⟩
      rcases hcs with ⟨new, h, hst, hexc', hrv⟩ | ⟨v, h, hst, hrv, hexc'⟩ | ⟨e, rfl, hst, hexc'⟩ | ⟨hub, hst, hexc'⟩
      · rw [hst] at hg
        rcases List.mem_append.1 hg with hg | hg
        · left
          have hc := cl.code u f (by rw [hold]; simp)
          cases h <;> simp only [List.mem_cons, List.not_mem_nil, or_false, Frame.client.injEq, reduceCtorEq] at hg <;> subst hg
          case initCfg => exact hc _ rfl 0
          case sdLog2 h => exact cl.cb _ h
          case sdNotifyEnd h => exact cl.cb _ h
          case sdParkEnd h => exact cl.cb _ h
          all_goals exact ⟨_, rfl⟩
        · exact .inr (.inr (.inl (old hg)))
      · rw [hst] at hg; exact .inr (.inr (.inl (old hg)))
      · rw [hst] at hg; exact .inr (.inr (.inl (old hg)))
      · rw [hst] at hg; exact .inr (.inr (.inl ⟨hg, .inr (.inl hdata)⟩))
    · rw [hst] at hg; exact .inr (.inr (.inl ⟨hg, .inr (.inl hdata)⟩))
    · rw [hst] at hg
      simp only [List.mem_cons, Frame.client.injEq, reduceCtorEq, false_or] at hg
      rcases hg with rfl | hg
      · exact .inl ⟨_, rfl⟩
      · exact .inr (.inr (.inl ⟨by rw [hold]; simp [hg], .inr (.inl hdata)⟩))
    · rw [hst] at hg
      exact .inr (.inr (.inl ⟨by rw [hold]; simp [hg], .inr (.inl hdata)⟩))
    · rw [hst] at hg
      simp only [List.mem_cons, Frame.client.injEq] at hg
      rcases hg with rfl | hg
      · left
        cases g0 <;> simp only [client, oThrow, Option.map_eq_some_iff, reduceCtorEq] at hg'
        obtain ⟨y, -, rfl⟩ := hg'
        exact ⟨_, rfl⟩
      · exact .inr (.inr (.inl ⟨by rw [hold]; simp [hg], .inr (.inl hdata)⟩))
    · rw [hst] at hg
      exact .inr (.inr (.inl ⟨by rw [hold]; simp [hg], .inr (.inl hdata)⟩))
    · rw [hst] at hg; simp at hg
  · rcases hr.stk_oth hu hs with ⟨h', -⟩ | ⟨f, rest, h', -, -, h2, -⟩
    · rw [h'] at hg
      exact .inr (.inr (.inl ⟨hg, .inl hu⟩))
    · rw [h2] at hg
      simp only [List.mem_cons, Frame.client.injEq, List.not_mem_nil, or_false] at hg
      subst hg
      exact .inl ((codes hr).code t (.spawnIn u g) (by rw [h']; simp) 0)

/-- Data changes only in steps of client code. -/
theorem data_step {U : User τ φ δ χ} {s s' : OSt τ φ δ} {t : Nat} {ch : Ch χ} (hs : step (client U) s (.th t ch) = some s') :
    (s'.data.slot = s.data.slot ∧ s'.data.olog = s.data.olog) ∨
    ∃ f rest, ∃ a : Act τ (OFrame φ), (s.thr t).exc = none ∧ s.stk t = .client f :: rest ∧ OS t s.data f (s.thr t).rv s'.data a ∧ ActTo s s' t rest a := by
  rcases step_cl hs with ⟨f, rest, d', a, hexc, hold, hstep, hdata, hact, -⟩ | ⟨f, rest, hexc, hold, hcs, hdata, -⟩ |
    ⟨e, hexc, hst, -, -, hdata, -⟩ |
    ⟨e, f, k, rest, hexc, hold, hf, hst, hexc', hdata, -⟩ | ⟨e, f, rest, hexc, hold, hf, hst, -, hdata, -⟩ |
    ⟨e, g, g', rest, hexc, hold, hg', hst, hexc', hdata, -⟩ | ⟨e, g, rest, hexc, hold, hg', hst, -, hdata, -⟩ | ⟨hold, hst, hexc', hdata, -⟩
  · subst hdata
    rcases client_os hstep with ⟨g', oa, rfl, h1, h2, rfl⟩ | h
    · exact .inl ⟨h1, h2⟩
    · exact .inr ⟨f, rest, a, hexc, hold, h, hact⟩
  all_goals rw [hdata]; exact .inl ⟨rfl, rfl⟩

theorem pf_reach {U : User τ φ δ χ} {ud : δ} {f : φ} {s : OSt τ φ δ} (hr : OR U ud f s) {t : Nat} {g : OFrame φ}
    (hg : .client g ∈ s.stk t) (hp : s.term = false) : PF s.data t g := by
  have q : s.term = false → ∀ t g, .client g ∈ s.stk t → PF s.data t g := by
    refine Reach.induct (fun s : OSt τ φ δ => s.term = false → ∀ t g, .client g ∈ s.stk t → PF s.data t g) ?_ ?_ hr
    · intro _ t g hg
      by_cases ht : t = 0
      · subst ht; simp [Core.init, St.stk] at hg; subst hg; trivial
      · simp [Core.init, St.stk, upd_ne _ _ ht] at hg
    · intro s l s' hr q hs hp'
      have hp : s.term = false := by
        cases l <;> simp only [step] at hs <;> (split at hs; contradiction; rename_i h; simp at h; exact h.2)
      cases l with
      | tick n => rw [step_tick _ s s' n hs]; exact q hp
      | th t ch =>
        intro u g hg
        rcases new_frame hr hs hg with ⟨x, rfl⟩ | h | ⟨hg0, hw⟩ | ⟨rfl, f, rest, a, hexc, hold, hos, hc⟩
        · trivial
        · exact pf_free h
        · refine pf_keep ?_ (q hp u g hg0)
          intro o ho
          rcases data_step hs with ⟨h1, h2⟩ | ⟨f, rest, a, hexc, hold, hos, -⟩
          · rw [h1, h2]; exact ⟨rfl, rfl⟩
          · rcases hw with hw | hw | ⟨x, rest', hw, hw'⟩
            · refine os_keep hos ?_ (tok_busy hr hg0 ho)
              intro hof
              exact tok_top hr hold hof hg0 ho (.inl hw)
            · rw [hw]; exact ⟨rfl, rfl⟩
            · refine os_keep hos ?_ (tok_busy hr hg0 ho)
              intro hof
              rw [hold] at hw; cases hw
              exact tok_top hr hold hof hg0 ho (.inr hw')
        · have hf := q hp u f (by rw [hold]; simp)
          rcases hc with hc | hc
          · exact os_pf hos hf hc
          · rw [hp'] at hc; contradiction
  exact q hp t g hg

end
end Obj
end Itc
