import Verif.Cap.Model

/-!
# C70: the arguments that a task passes on

The specification looks at the events only: `holder k` is the object that has task `k`, if making an object of another one, and assigning one to another
one, both hand the task over.
-/
namespace Itc
open Cap
namespace Cap
variable {β : Type} {s s' s0 : St β} {k o : Nat}

/-- Specification: the object that has task `k` after an event, if `h` had it before. -/
def hand (k : Nat) (h : Option Nat) : Ev β → Option Nat
  | .packed o k' => if k' = k then some o else h
  | .moved o o' => if h = some o then some o' else h
  | .assigned o o' => if h = some o then some o' else if h = some o' then none else h
  | .destroyed o => if h = some o then none else h
  | .called _ _ _ => h
  | .bad _ => h

/-- Specification: the object that has task `k`. -/
def holder (k : Nat) : List (Ev β) → Option Nat
  | [] => none
  | e :: l => hand k (holder k l) e

/-- Specification: task `k` was called (by way of some object). -/
def Called (k : Nat) (l : List (Ev β)) : Prop := ∃ o v, .called o k v ∈ l

/-! ### Invariants -/

/-- The lambdas that objects point to exist, each belongs to one object, and their tags are old. -/
structure Wf (s : St β) : Prop where
  fresh : ∀ c, s.nlam ≤ c → s.lam c = none
  some_ : ∀ o c, s.fn o = some (some c) → (s.lam c).isSome
  inj : ∀ o o' c, s.fn o = some (some c) → s.fn o' = some (some c) → o = o'
  tag : ∀ c a, s.lam c = some a → a.tag < s.ntag
  old : ∀ o k, .packed o k ∈ s.log → k < s.ntag

theorem Wf.lt (h : Wf s) {o c : Nat} (hf : s.fn o = some (some c)) : c < s.nlam := by
  have := h.some_ o c hf
  by_cases hc : s.nlam ≤ c
  · rw [h.fresh c hc] at this; cases this
  · omega

theorem Wf.init : Wf ({} : St β) := ⟨by simp, by simp, by simp, by simp, by simp⟩

theorem Wf.step (h : Wf s) {op : Op β} (hs : step s op = some s') : Wf s' := by
  have hlt := @Wf.lt _ _ h
  obtain ⟨h1, h2, h3, h4, h5⟩ := h
  cases op <;> simp only [Cap.step] at hs
  all_goals (repeat' split at hs)
  all_goals first | (cases hs; done) | skip
  all_goals cases hs
  all_goals
    refine ⟨?_, ?_, ?_, ?_, ?_⟩ <;> simp only [St.ev, St.dup, St.free, Cap.set] <;> grind [Lam.hollow, Option.map_eq_some_iff, Option.isSome_map]

theorem Steps.wf (h : Wf s) (hs : Steps s s') : Wf s' := by
  induction hs with
  | refl => exact h
  | snoc _ op hs ih => exact ih.step hs

theorem Reach.wf (h : Reach s) : Wf s := Steps.wf .init h

theorem called_call {o k' : Nat} {v : List (Cell β)} {l : List (Ev β)} : Called k (.called o k' v :: l) ↔ k' = k ∨ Called k l := by
  simp only [Called, List.mem_cons, Ev.called.injEq]
  constructor
  · rintro ⟨o, v, ⟨_, h, _⟩ | h⟩
    · exact .inl h.symm
    · exact .inr ⟨o, v, h⟩
  · rintro (h | ⟨o, v, h⟩)
    · exact ⟨_, _, .inl ⟨rfl, h.symm, rfl⟩⟩
    · exact ⟨o, v, .inr h⟩

theorem called_packed {o k' : Nat} {l : List (Ev β)} : Called k (.packed o k' :: l) ↔ Called k l := by simp [Called]
theorem called_moved {o o' : Nat} {l : List (Ev β)} : Called k (.moved o o' :: l) ↔ Called k l := by simp [Called]
theorem called_assigned {o o' : Nat} {l : List (Ev β)} : Called k (.assigned o o' :: l) ↔ Called k l := by simp [Called]
theorem called_destroyed {o : Nat} {l : List (Ev β)} : Called k (.destroyed o :: l) ↔ Called k l := by simp [Called]
theorem called_bad {o : Nat} {l : List (Ev β)} : Called k (.bad o :: l) ↔ Called k l := by simp [Called]

/-- The holder has the values `V`; nobody else has any. -/
structure Has (k : Nat) (V : List (Cell β)) (s : St β) : Prop where
  lt : k < s.ntag
  hold : ∀ o, holder k s.log = some o → ∃ c a, s.fn o = some (some c) ∧ s.lam c = some a ∧ a.tag = k ∧ (¬ Called k s.log → a.val = V)
  others : ¬ Called k s.log → ∀ o c a, s.fn o = some (some c) → s.lam c = some a → a.tag = k → holder k s.log = some o ∨ ∀ x ∈ a.val, x = none

theorem hollow_val {a : Lam β} : ∀ x ∈ a.hollow.val, x = none := by simp [Lam.hollow]

theorem hollow_tag {a : Lam β} : a.hollow.tag = a.tag := rfl

theorem Has.step {V : List (Cell β)} (hw : Wf s) (h : Has k V s) {op : Op β} (hs : step s op = some s') : Has k V s' := by
  have hlt := @Wf.lt _ _ hw
  obtain ⟨h1, h2, h3, h4, h5⟩ := hw
  obtain ⟨g1, g2, g3⟩ := h
  cases op <;> simp only [Cap.step] at hs
  all_goals (repeat' split at hs)
  all_goals first | (cases hs; done) | skip
  all_goals cases hs
  all_goals
    refine ⟨?_, ?_, ?_⟩ <;> simp only [St.ev, St.dup, St.free, Cap.set, called_call, called_packed, called_moved, called_assigned, called_destroyed, called_bad, holder, hand] <;>
      first
      | grind (splits := 14) [Option.map_eq_some_iff, hollow_val, hollow_tag]
      | (rename_i o o' _ _ c _ hf hf'
         intro o1 h
         by_cases hh : holder k s.log = some o
         · rw [if_pos hh] at h
           cases h
           obtain ⟨c', a, e1, e2, e3, e4⟩ := g2 o hh
           refine ⟨s.nlam, a, ?_, ?_, e3, e4⟩ <;> grind
         · rw [if_neg hh] at h
           have hne : o1 ≠ o' := by grind
           have h' : holder k s.log = some o1 := by grind
           obtain ⟨c', a, e1, e2, e3, e4⟩ := g2 o1 h'
           refine ⟨c', a, ?_, ?_, e3, e4⟩ <;> grind)

theorem Has.pack (hw : Wf s0) {o0 : Nat} {args : List (Cat × Nat)} (hp : Cap.step s0 (.pack o0 args) = some s) :
    Has s0.ntag (args.map fun a => s0.var a.2) s := by
  have hlt := @Wf.lt _ _ hw
  obtain ⟨h1, h2, h3, h4, h5⟩ := hw
  simp only [Cap.step] at hp
  split at hp
  · cases hp
    refine ⟨by simp, fun o ho => ⟨s0.nlam, _, ?_, if_pos rfl, rfl, fun _ => rfl⟩, ?_⟩ <;>
      simp only [Cap.set, called_packed, holder, hand] at * <;> grind
  · cases hp

theorem Has.steps {V : List (Cell β)} (hw : Wf s) (h : Has k V s) (hs : Steps s s') : Has k V s' := by
  induction hs with
  | refl => exact h
  | snoc hp op hs ih => exact ih.step (Steps.wf hw hp) hs

end Cap

variable {β : Type} {s s' s0 s1 : St β} {o o0 x : Nat} {args : List (Cat × Nat)} {after : List (Cell β)} {op : Op β}

/-- **C70.** `invoke` was called with function and arguments `args` (variables of the caller, each as an lvalue or an rvalue) and has made a task.  Whatever
    was done since then with tasks and variables: if the task was not called yet, calling the object that has it is possible and passes the
    values that the variables had at the call of `invoke`, in the order of the arguments. -/
theorem C70_args (hr : Reach s0) (hp : step s0 (.pack o0 args) = some s1) (hs : Steps s1 s) (hh : holder s0.ntag s.log = some o)
    (hn : ¬ Called s0.ntag s.log) :
    (∃ after s', step s (.call o after) = some s') ∧
    ∀ after s', step s (.call o after) = some s' → s'.log = .called o s0.ntag (args.map fun a => s0.var a.2) :: s.log := by
  have hw := hr.wf.step hp
  obtain ⟨c, a, e1, e2, e3, e4⟩ := ((Has.pack hr.wf hp).steps hw hs).hold o hh
  constructor
  · exact ⟨a.val, _, by simp only [Cap.step, e1, e2]; rfl⟩
  · intro after s' hc
    simp only [Cap.step, e1, e2] at hc
    split at hc
    · cases hc
      simp only [St.ev, e3, e4 hn]
    · cases hc

/-- **C70, the other objects.** As long as the task was not called, calling any other object throws, or calls another task, or passes nothing but
    objects that were moved out: there is never a second copy of the arguments. -/
theorem C70_others (hr : Reach s0) (hp : step s0 (.pack o0 args) = some s1) (hs : Steps s1 s) (hh : holder s0.ntag s.log ≠ some o)
    (hn : ¬ Called s0.ntag s.log) (hc : step s (.call o after) = some s') :
    s'.log = .bad o :: s.log ∨ ∃ k v, s'.log = .called o k v :: s.log ∧ (k = s0.ntag → ∀ x ∈ v, x = none) := by
  have hw := hr.wf.step hp
  have ho := ((Has.pack hr.wf hp).steps hw hs).others hn o
  simp only [Cap.step] at hc
  split at hc
  · cases hc
  · cases hc; exact .inl rfl
  · rename_i c hf
    split at hc
    · cases hc
    · rename_i a hl
      split at hc
      · cases hc
        exact .inr ⟨_, _, rfl, fun hk => (ho c a hf hl hk).resolve_left hh⟩
      · cases hc

/-- **C70, the caller.** Making a task moves the values of the rvalue arguments out of the variables of the caller and changes no other variable; no
    later operation on tasks changes a variable. -/
theorem C70_caller (hs : step s op = some s') :
    (∀ x v, s'.var x = v → s.var x ≠ v → (∃ v', op = .write x v') ∨ v = none ∧ ∃ o args, op = .pack o args ∧ (.rv, x) ∈ args ∧ ¬ (.lv, x) ∈ args) ∧
    ∀ o args x, op = .pack o args → (.rv, x) ∈ args → s'.var x = none := by
  constructor
  · intro x v e hne
    cases op
    case write y w =>
      cases hs
      simp only [Cap.set] at e
      split at e
      · rename_i h; cases h; exact .inl ⟨_, rfl⟩
      · exact absurd e hne
    case pack o args =>
      simp only [Cap.step] at hs
      split at hs
      · rename_i hok
        cases hs
        simp only [moveOut] at e
        split at e
        · rename_i hx
          refine .inr ⟨e.symm, o, args, rfl, hx, fun hl => ?_⟩
          have hc := List.all_eq_true.1 hok.2 _ hx
          simp only [reduceCtorEq, decide_false, Bool.false_or, decide_eq_true_eq] at hc
          obtain ⟨p, q, rfl⟩ := List.append_of_mem hx
          rcases List.mem_append.1 hl with h | h
          · have hp := List.count_pos_iff.2 (show x ∈ p.map (fun a => a.2) from List.mem_map_of_mem (f := fun a => a.2) h)
            simp only [List.map_append, List.map_cons, List.count_append, List.count_cons_self] at hc hp
            omega
          · rcases List.mem_cons.1 h with h | h
            · cases h
            · have hp := List.count_pos_iff.2 (show x ∈ q.map (fun a => a.2) from List.mem_map_of_mem (f := fun a => a.2) h)
              simp only [List.map_append, List.map_cons, List.count_append, List.count_cons_self] at hc hp
              omega
        · exact absurd e hne
      · cases hs
    all_goals
      exfalso
      apply hne
      rw [← e]
      simp only [Cap.step] at hs
      (repeat' split at hs) <;> cases hs <;> rfl
  · rintro o args x rfl hx
    simp only [Cap.step] at hs
    split at hs
    · cases hs
      simp [moveOut, hx]
    · cases hs

/-! ### The theorems are not vacuous -/

def runOps (s : St Nat) : List (Op Nat) → Option (St Nat)
  | [] => some s
  | op :: l => (Cap.step s op).bind (runOps · l)

theorem runOps_steps : ∀ (l : List (Op Nat)) (s s' : St Nat), runOps s l = some s' → Steps s s' := by
  have app : ∀ {a b c : St Nat}, Steps b c → Steps a b → Steps a c := by
    intro a b c h h0
    induction h with
    | refl => exact h0
    | snoc _ op hs ih => exact .snoc ih op hs
  intro l
  induction l with
  | nil => rintro s s' h; cases h; exact .refl _
  | cons op l ih =>
    intro s s' h
    obtain ⟨s1, h1, h2⟩ := Option.bind_eq_some_iff.1 h
    exact app (ih s1 s' h2) (.snoc (.refl _) op h1)

/-- Variable 0 is the function, 1 is passed as an lvalue, 2 as an rvalue. -/
def capInit : List (Op Nat) := [.write 0 (some 10), .write 1 (some 5), .write 2 (some 7)]

def capVars : St Nat := (runOps {} capInit).getD {}

def capArgs : List (Cat × Nat) := [(.lv, 0), (.lv, 1), (.rv, 2)]

/-- `C70_args`: the caller changes its variable, the task is moved, copied and assigned; the last object has it and passes 10, 5, 7. -/
example : ∃ s1 s s' : St Nat, Reach capVars ∧ Cap.step capVars (.pack 0 capArgs) = some s1 ∧ Steps s1 s ∧ holder 0 s.log = some 3 ∧ ¬ Called 0 s.log ∧
    Cap.step s (.call 3 [none, none, none]) = some s' ∧ s'.log.head? = some (.called 3 0 [some 10, some 5, some 7]) ∧ s1.var 2 = none ∧ s1.var 1 = some 5 := by
  let s1 := (Cap.step capVars (.pack 0 capArgs)).getD {}
  let l : List (Op Nat) := [.write 1 (some 99), .move 0 1, .copy 1 2, .write 0 (some 1), .write 2 (some 2), .pack 3 [(.lv, 0)], .cassign 2 3, .destroy 2, .destroy 0]
  let s := (runOps s1 l).getD {}
  refine ⟨s1, s, (Cap.step s (.call 3 [none, none, none])).getD {}, runOps_steps capInit _ _ rfl, rfl, runOps_steps l _ _ rfl, by decide, ?_, rfl, by decide, by decide, by decide⟩
  rintro ⟨o, v, h⟩
  have : s.log = [.destroyed 0, .destroyed 2, .assigned 2 3, .packed 3 1, .moved 1 2, .moved 0 1, .packed 0 0] := by decide
  rw [this] at h
  simp at h

/-- `C70_others`: the object that was copied from passes nothing, the one that was moved from throws. -/
example : ∃ s1 s s' s'' : St Nat, Reach capVars ∧ Cap.step capVars (.pack 0 capArgs) = some s1 ∧ Steps s1 s ∧ holder 0 s.log = some 2 ∧ ¬ Called 0 s.log ∧
    Cap.step s (.call 0 [none, none, none]) = some s' ∧ s'.log.head? = some (.called 0 0 [none, none, none]) ∧
    Cap.step s (.call 1 []) = some s'' ∧ s''.log.head? = some (.bad 1) := by
  let s1 := (Cap.step capVars (.pack 0 capArgs)).getD {}
  let l : List (Op Nat) := [.copy 0 1, .move 1 2]
  let s := (runOps s1 l).getD {}
  refine ⟨s1, s, (Cap.step s (.call 0 [none, none, none])).getD {}, (Cap.step s (.call 1 [])).getD {}, runOps_steps capInit _ _ rfl, rfl, runOps_steps l _ _ rfl,
    by decide, ?_, rfl, by decide, rfl, by decide⟩
  rintro ⟨o, v, h⟩
  have : s.log = [.moved 1 2, .moved 0 1, .packed 0 0] := by decide
  rw [this] at h
  simp at h

end Itc
