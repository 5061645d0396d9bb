import Verif.Core.Frag

/-! # The global mutex, exceptions, blocked threads (proof infrastructure) -/
namespace Itc
namespace Core
section
variable {τ φ δ χ : Type}

/-- Frames of `init`/`shutdown` waiting for the log callback they called with the global mutex held. -/
def Frame.isG : Frame τ φ → Bool
  | .core .initEnd => true
  | .core (.sdEnd _) => true
  | _ => false

/-- Effect of a step of thread `t` on the ownership of the global mutex. -/
inductive GStep (s : St τ φ δ) (t : Nat) (s' : St τ φ δ) : Prop
  | same (old : Frame τ φ) (rest : List (Frame τ φ)) (hold : s.stk t = old :: rest)
      (hcnt : (s'.stk t).countP Frame.isG = rest.countP Frame.isG)
      (hsub : ∀ v, Frame.core (.sdEnd v) ∈ s'.stk t → Frame.core (.sdEnd v) ∈ rest)
      (hg : s'.gOwner = s.gOwner) (ho : old.isG = false)
      (hc : s'.contexts = s.contexts ∨ s.gOwner = none)
  | stay (hstk : s'.stk t = s.stk t) (hg : s'.gOwner = s.gOwner) (hc : s'.contexts = s.contexts)
  | take (old : Frame τ φ) (g : φ) (x : Frame τ φ) (rest : List (Frame τ φ)) (hold : s.stk t = old :: rest)
      (hstk : s'.stk t = .client g :: x :: rest) (ho : old.isG = false) (hx : x.isG = true)
      (hv : ∀ v, x = .core (.sdEnd v) → v = s.contexts.length)
      (hg0 : s.gOwner = none) (hg : s'.gOwner = some t) (hc : s'.contexts = s.contexts)
  | drop (old : Frame τ φ) (rest : List (Frame τ φ)) (hold : s.stk t = old :: rest) (hstk : s'.stk t = rest)
      (ho : old.isG = true) (hg : s'.gOwner = none) (hc : s'.contexts = s.contexts)

/-- Closes a `GStep.same` or `GStep.stay` goal. -/
local macro "gs" : tactic => `(tactic|
  first
  | (refine GStep.stay ?_ ?_ ?_ <;> rfl)
  | (refine GStep.same _ _ ‹_› ?_ ?_ rfl rfl ?_ <;>
      first
      | (exact Or.inl rfl)
      | (simp [St.stk, St.setStk, St.ret, St.ev, St.setCtx, St.hold, St.startTask, List.countP_cons, Frame.isG]; done)
      | (simp_all; done)))

theorem stepCore_g (C : Client τ φ δ χ) (s s' : St τ φ δ) (t : Nat) (f : CF τ φ) (rest : List (Frame τ φ))
    (ch : Ch χ) (hstk : s.stk t = .core f :: rest) (h : stepCore C s t f rest ch = some s') : GStep s t s' := by
  cases f with
  | initCfg cb =>
    simp only [stepCore] at h
    split at h
    · contradiction
    · rename_i hg
      have hg' : s.gOwner = none := by simpa using hg
      split at h
      · obtain rfl := Option.some.inj h; gs
      · rename_i g
        obtain rfl := Option.some.inj h
        exact .take _ g (.core .initEnd) rest hstk (by simp [St.stk, St.setStk]) rfl rfl (by simp) hg' rfl rfl
  | initEnd =>
    simp only [stepCore] at h
    obtain rfl := Option.some.inj h
    exact .drop _ rest hstk (by simp [St.stk, St.ret]) rfl rfl rfl
  | sdEnd v =>
    simp only [stepCore] at h
    obtain rfl := Option.some.inj h
    exact .drop _ rest hstk (by simp [St.stk, St.ret]) rfl rfl rfl
  | sdNotify l T =>
    cases l with
    | cons i l =>
      simp only [stepCore] at h
      obtain rfl := Option.some.inj h
      gs
    | nil =>
      simp only [stepCore] at h
      split at h
      · contradiction
      · rename_i hg
        have hg' : s.gOwner = none := by simpa using hg
        split at h
        · rename_i he
          split at h
          · obtain rfl := Option.some.inj h; gs
          · rename_i g _
            obtain rfl := Option.some.inj h
            refine .take _ g (.core (.sdEnd 0)) rest hstk (by simp [St.stk, St.setStk]) rfl rfl ?_ hg' rfl rfl
            intro v hv
            simp only [List.isEmpty_iff] at he
            rw [he]
            simp at hv
            simp [← hv]
        · obtain rfl := Option.some.inj h
          gs
  | sdPark dl =>
    simp only [stepCore] at h
    split at h
    · contradiction
    · rename_i hg
      have hg' : s.gOwner = none := by simpa using hg
      have key : ∀ v : Int, v = s.contexts.length → (match s.logCb with
        | none => some (s.ret t rest .shutdown (.int v))
        | some f => some (({ s with gOwner := some t } : St τ φ δ).setStk t (.client f :: .core (.sdEnd v) :: rest))) = some s' →
          GStep s t s' := by
        intro v hv h
        split at h
        · obtain rfl := Option.some.inj h; gs
        · rename_i g _
          obtain rfl := Option.some.inj h
          refine .take _ g (.core (.sdEnd v)) rest hstk (by simp [St.stk, St.setStk]) rfl rfl ?_ hg' rfl rfl
          intro w hw
          simp at hw
          rw [← hw, hv]
      split at h
      · split at h
        · split at h
          · rename_i he
            simp only [List.isEmpty_iff] at he
            exact key 0 (by rw [he]; rfl) h
          · obtain rfl := Option.some.inj h; gs
        · contradiction
      · split at h
        · rename_i he
          simp only [List.isEmpty_iff] at he
          exact key 0 (by rw [he]; rfl) h
        · contradiction
      · split at h
        · exact key _ rfl h
        · contradiction
      · contradiction
  | retv d => cases d <;> simp only [stepCore] at h <;> obtain rfl := Option.some.inj h <;> gs
  | destroyList c l f v => cases l <;> simp only [stepCore] at h <;> obtain rfl := Option.some.inj h <;> gs
  | regDone c self =>
    simp only [stepCore] at h
    obtain rfl := Option.some.inj h
    cases self <;> gs
  | spawnIn n f =>
    simp only [stepCore] at h
    split at h
    · obtain rfl := Option.some.inj h; gs
    · contradiction
  | joinIn n =>
    simp only [stepCore] at h
    split at h
    · obtain rfl := Option.some.inj h; gs
    · contradiction
  | detachIn n =>
    simp only [stepCore] at h
    split at h <;> obtain rfl := Option.some.inj h <;> gs
  | _ =>
    simp only [stepCore] at h
    repeat' (split at h)
    all_goals first | contradiction | (obtain rfl := Option.some.inj h; gs)

theorem entry_isG (a : Api τ φ) : (Frame.core a.entry : Frame τ φ).isG = false := by
  cases a <;> rfl

theorem step_g (C : Client τ φ δ χ) (s s' : St τ φ δ) (t : Nat) (ch : Ch χ)
    (h : step C s (.th t ch) = some s') : GStep s t s' := by
  simp only [step] at h
  split at h
  · contradiction
  split at h
  · contradiction
  split at h
  · obtain rfl := Option.some.inj h
    cases hst : (s.thr t).stack with
    | nil => exact .stay rfl rfl rfl
    | cons g rest =>
      cases g with
      | client g =>
        simp only [stepExc]
        have hst' : s.stk t = .client g :: rest := hst
        split
        · rename_i g' _
          gs
        · gs
      | core g =>
        have hst' : s.stk t = .core g :: rest := hst
        cases g
        case initEnd => exact .drop _ rest hst' (by simp [stepExc, St.stk]) rfl rfl rfl
        case sdEnd => exact .drop _ rest hst' (by simp [stepExc, St.stk]) rfl rfl rfl
        all_goals (simp only [stepExc]; gs)
  · split at h
    · obtain rfl := Option.some.inj h
      exact .stay (by simp [stepEnd, St.stk, *]) rfl rfl
    · exact stepCore_g C s s' t _ _ ch ‹_› h
    · rename_i g rest hst
      have hst' : s.stk t = .client g :: rest := hst
      simp only [stepClient] at h
      split at h
      · contradiction
      · split at h <;> obtain rfl := Option.some.inj h
        · gs
        · gs
        · rename_i a f' _
          refine GStep.same _ _ hst' ?_ ?_ rfl rfl (.inl rfl)
          · have hcl : (Frame.client f' : Frame τ φ).isG = false := rfl
            simp [St.stk, St.setStk, List.countP_cons, entry_isG, hcl]
          · intro v hv
            have h1 : (Frame.core a.entry : Frame τ φ) ≠ .core (.sdEnd v) := by
              intro h; have := entry_isG a; rw [h] at this; simp [Frame.isG] at this
            simpa [St.stk, St.setStk, Ne.symm h1] using hv
        · gs
        · gs
        · gs

/-- The stack of a thread that did not move: unchanged, or the thread has just been created. -/
theorem step_stk_other' {C : Client τ φ δ χ} {s s' : St τ φ δ} {t u : Nat} {ch : Ch χ} (hfree : FreeOK s) (hu : u ≠ t)
    (hs : step C s (.th t ch) = some s') : s'.stk u = s.stk u ∨ s.stk u = [] ∧ ∃ f, s'.stk u = [.client f] := by
  by_cases h : s.stk u = []
  · have he := step_eff C s s' t ch hs
    cases he with
    | spawn n f v rest hreg hctx hold hfr hne' hloc hstk =>
      rw [hstk, upd_ne _ _ hu]
      by_cases hn : u = n
      · subst hn; exact .inr ⟨h, f, by simp⟩
      · exact .inl (upd_ne _ _ hn)
    | _ => left; simp_all [upd_ne]
  · exact .inl (step_stk_other (Ne.symm hu) hfree hs h)

/-- Ownership of the global mutex shows on the stacks. -/
structure GInv (s : St τ φ δ) : Prop where
  own : ∀ t, (s.stk t).countP Frame.isG = if s.gOwner = some t then 1 else 0
  val : ∀ t v, Frame.core (.sdEnd v) ∈ s.stk t → v = s.contexts.length

theorem GInv.mem {s : St τ φ δ} (q : GInv s) {t : Nat} {f : Frame τ φ} (hf : f ∈ s.stk t) (hg : f.isG = true) :
    s.gOwner = some t := by
  have := q.own t
  split at this
  · assumption
  · rw [List.countP_eq_zero] at this
    exact absurd hg (this _ hf)

theorem GInv.step {C : Client τ φ δ χ} {s s' : St τ φ δ} (hfree : FreeOK s) (q : GInv s) (l : Lbl χ)
    (hs : Core.step C s l = some s') : GInv s' := by
  cases l with
  | tick n => rw [step_tick C s s' n hs]; exact ⟨q.own, q.val⟩
  | th t ch =>
    have hg := step_g C s s' t ch hs
    have hoth := fun u (hu : u ≠ t) => step_stk_other' (C := C) hfree hu hs
    constructor
    · intro u
      have h0 := q.own u
      by_cases hu : u = t
      · subst hu
        cases hg with
        | same old rest hold hcnt hsub hg ho hc =>
          rw [hg, hcnt, ← h0, hold]
          simp [List.countP_cons, ho]
        | stay hstk hg hc => rw [hg, hstk, h0]
        | take old g x rest hold hstk ho hx hv hg0 hg hc =>
          rw [hg0, hold, List.countP_cons] at h0
          rw [hg, hstk, List.countP_cons, List.countP_cons]
          have hcl : (Frame.client g : Frame τ φ).isG = false := rfl
          simp only [ho, hx, hcl, reduceCtorEq, if_true, if_false, Bool.false_eq_true] at h0 ⊢
          omega
        | drop old rest hold hstk ho hg hc =>
          rw [hold] at h0
          rw [hg, hstk]
          simp only [List.countP_cons, ho, if_true] at h0
          simp only [reduceCtorEq, if_false]
          split at h0 <;> omega
      · have hne : s'.gOwner = some u ↔ s.gOwner = some u := by
          cases hg with
          | same old rest hold hcnt hsub hg ho hc => rw [hg]
          | stay hstk hg hc => rw [hg]
          | take old g x rest hold hstk ho hx hv hg0 hg hc => rw [hg0, hg]; simp [Ne.symm hu]
          | drop old rest hold hstk ho hg hc =>
            rw [hg, q.mem (t := t) (by rw [hold]; simp) ho]
            simp [Ne.symm hu]
        rcases hoth u hu with h | ⟨h1, f, h⟩
        · rw [h, h0]; simp only [hne]
        · rw [h1] at h0
          rw [h]
          simp only [hne]
          rw [← h0]; rfl
    · intro u v hm
      by_cases hu : u = t
      · subst hu
        cases hg with
        | same old rest hold hcnt hsub hg ho hc =>
          have hm' : Frame.core (.sdEnd v) ∈ s.stk u := by rw [hold]; simp [hsub v hm]
          have h1 := q.mem hm' rfl
          rw [q.val u v hm']
          rcases hc with hc | hc
          · rw [hc]
          · rw [hc] at h1; simp at h1
        | stay hstk hg hc => rw [hstk] at hm; rw [hc]; exact q.val u v hm
        | take old g x rest hold hstk ho hx hv hg0 hg hc =>
          rw [hstk] at hm
          rw [hc]
          simp only [List.mem_cons, reduceCtorEq, false_or] at hm
          rcases hm with hm | hm
          · exact hv v hm.symm
          · exact q.val u v (by rw [hold]; simp [hm])
        | drop old rest hold hstk ho hg hc =>
          rw [hstk] at hm
          rw [hc]
          exact q.val u v (by rw [hold]; simp [hm])
      · rcases hoth u hu with h | ⟨h1, f, h⟩
        · rw [h] at hm
          have h1 := q.mem hm rfl
          rw [q.val u v hm]
          cases hg with
          | same old rest hold hcnt hsub hg ho hc =>
            rcases hc with hc | hc
            · rw [hc]
            · rw [hc] at h1; simp at h1
          | stay hstk hg hc => rw [hc]
          | take old g x rest hold hstk ho hx hv hg0 hg hc => rw [hc]
          | drop old rest hold hstk ho hg hc => rw [hc]
        · rw [h] at hm; simp at hm

theorem GInv.reach {C : Client τ φ δ χ} {d : δ} {f : φ} {s : St τ φ δ} (h : Reach C d f s) : GInv s := by
  refine (Reach.induct (fun s => FreeOK s ∧ GInv s) ⟨FreeOK.init d f, ?_, ?_⟩ ?_ h).2
  · intro t
    by_cases ht : t = 0
    · subst ht; simp [Core.init, St.stk, Frame.isG]
    · simp [Core.init, St.stk, upd_ne _ _ ht]
  · intro t v hm
    by_cases ht : t = 0
    · subst ht; simp [Core.init, St.stk] at hm
    · simp [Core.init, St.stk, upd_ne _ _ ht] at hm
  · intro s l s' _ hs hst
    exact ⟨hs.1.step l hst, hs.2.step hs.1 l hst⟩

/-! ## Exceptions -/

theorem stepCore_exc (C : Client τ φ δ χ) (s s' : St τ φ δ) (t : Nat) (f : CF τ φ) (rest : List (Frame τ φ))
    (ch : Ch χ) (hf : ∀ e, f ≠ .rethrow e) (he : (s.thr t).exc = none) (h : stepCore C s t f rest ch = some s') :
    (s'.thr t).exc = none := by
  rw [← he]
  have hupd : ∀ (n : Nat) (x : Thr τ φ), x.exc = (s.thr n).exc → (upd s.thr n x t).exc = (s.thr t).exc := by
    intro n x hx
    by_cases h : t = n
    · subst h; simpa using hx
    · rw [upd_ne _ _ h]
  cases f with
  | retv d => cases d <;> simp only [stepCore] at h <;> obtain rfl := Option.some.inj h <;> simp [St.ret]
  | destroyList c l f v =>
    cases l <;> simp only [stepCore] at h <;> obtain rfl := Option.some.inj h <;> simp [St.ret, St.setStk, St.setCtx]
  | sdNotify l T =>
    cases l <;> simp only [stepCore] at h
    all_goals (repeat' (split at h))
    all_goals first | contradiction | (obtain rfl := Option.some.inj h; simp [St.ret, St.setStk])
  | rethrow e => exact absurd rfl (hf e)
  | regDone c self =>
    simp only [stepCore] at h
    obtain rfl := Option.some.inj h
    cases self <;> simp [St.setStk]
  | _ =>
    simp only [stepCore] at h
    repeat' (split at h)
    all_goals first
      | contradiction
      | (obtain rfl := Option.some.inj h
         first
         | rfl
         | (simp [St.ret, St.setStk, St.setCtx, St.ev, St.hold, St.startTask]; done)
         | (simp only [St.ret, upd_same]; exact hupd _ _ rfl)
         | (simp only [St.ret, upd_same]; grind [upd]))

/-- After a step of `t`: no exception propagates in `t`, or the top frame was popped, or nothing moved. -/
theorem step_exc {C : Client τ φ δ χ} {s s' : St τ φ δ} {t : Nat} {ch : Ch χ} (hs : step C s (.th t ch) = some s') :
    (s'.thr t).exc = none ∨ (∃ old, s.stk t = old :: s'.stk t) ∨ ((s.thr t).exc ≠ none ∧ s'.stk t = s.stk t) := by
  simp only [step] at hs
  split at hs
  · contradiction
  split at hs
  · contradiction
  split at hs
  · rename_i e he
    obtain rfl := Option.some.inj hs
    unfold stepExc
    split
    · exact .inr (.inr ⟨by simp [he], rfl⟩)
    · exact .inl (by simp)
    · exact .inl (by simp)
    · rename_i hst; exact .inr (.inl ⟨_, by simp only [St.stk, upd_same]; exact hst⟩)
    · rename_i hst; exact .inr (.inl ⟨_, by simp only [St.stk, upd_same]; exact hst⟩)
    · rename_i hst; exact .inr (.inl ⟨_, by simp only [St.stk, St.setStk, upd_same]; exact hst⟩)
    · rename_i hst; exact .inr (.inl ⟨_, by simp only [St.stk, St.setStk, upd_same]; exact hst⟩)
    · exact .inr (.inr ⟨by simp [he], rfl⟩)
    · rename_i hst
      split
      · exact .inl (by simp)
      · exact .inr (.inl ⟨_, by simp only [St.stk, St.setStk, upd_same]; exact hst⟩)
  · rename_i he
    split at hs
    · obtain rfl := Option.some.inj hs
      exact .inl (by simp [stepEnd])
    · rename_i g rest hst
      cases g with
      | rethrow e =>
        simp only [stepCore] at hs
        obtain rfl := Option.some.inj hs
        exact .inr (.inl ⟨_, by simp only [St.stk, upd_same]; exact hst⟩)
      | _ =>
        left
        exact stepCore_exc C s s' t _ rest ch (by simp) he hs
    · rename_i g rest hst
      simp only [stepClient] at hs
      split at hs
      · contradiction
      · split at hs <;> obtain rfl := Option.some.inj hs
        · exact .inl (by simp [St.setStk, he])
        · exact .inl (by simp [St.setStk, he])
        · exact .inl (by simp [St.setStk, he])
        · exact .inl (by simp [he])
        · exact .inr (.inl ⟨_, by simp only [St.stk, upd_same]; exact hst⟩)
        · exact .inl (by simp [he])

theorem step_exc_other {C : Client τ φ δ χ} {s s' : St τ φ δ} {t u : Nat} {ch : Ch χ} (hu : u ≠ t)
    (hs : step C s (.th t ch) = some s') : (s'.thr u).exc = (s.thr u).exc ∨ (s'.thr u).exc = none := by
  simp only [step] at hs
  split at hs
  · contradiction
  split at hs
  · contradiction
  rename_i hrun
  have hrun : (s.thr t).status = .running := by simpa using hrun
  split at hs
  · obtain rfl := Option.some.inj hs
    unfold stepExc
    repeat' split
    all_goals first | exact .inl rfl | (left; simp [St.setStk, upd_ne _ _ hu])
  · split at hs
    · obtain rfl := Option.some.inj hs
      left; simp [stepEnd, upd_ne _ _ hu]
    · rcases stepCore_thr C s s' t _ _ ch hrun hs with ⟨x, h, -⟩ | ⟨n, f, -, h⟩ | ⟨n, -, h⟩ | ⟨n, -, h⟩
      · left; rw [h, upd_ne _ _ hu]
      all_goals
        rw [h, upd_ne _ _ hu]
        by_cases hn : u = n
        · subst hn; simp
        · left; rw [upd_ne _ _ hn]
    · simp only [stepClient] at hs
      split at hs
      · contradiction
      · split at hs <;> obtain rfl := Option.some.inj hs
        all_goals first | exact .inl rfl | (left; simp [St.setStk, upd_ne _ _ hu])

/-- While an exception propagates, no frame of the thread is blocked or holds a `shared_ptr`. -/
def EInv (s : St τ φ δ) : Prop := ∀ t, (s.thr t).exc ≠ none → ∀ f ∈ s.stk t, f.leaf = false

theorem EInv.reach {C : Client τ φ δ χ} {d : δ} {f : φ} {s : St τ φ δ} (h : Reach C d f s) : EInv s := by
  refine Reach.induct EInv ?_ ?_ h
  · intro t
    by_cases ht : t = 0
    · subst ht; simp [Core.init]
    · simp [Core.init, upd_ne _ _ ht]
  · intro s l s' hr q hs
    cases l with
    | tick n => rw [step_tick C s s' n hs]; exact q
    | th t ch =>
      intro u hu f hf
      by_cases hut : u = t
      · subst hut
        rcases step_exc hs with h | ⟨old, h⟩ | ⟨h1, h2⟩
        · exact absurd h hu
        · exact (WF.reach hr).tail u f (by rw [h]; exact hf)
        · exact q u h1 f (by rw [← h2]; exact hf)
      · rcases step_exc_other hut hs with h | h
        · rcases step_stk_other' (FreeOK.reach hr) hut hs with h2 | ⟨-, g, h2⟩
          · exact q u (by rw [← h]; exact hu) f (by rw [← h2]; exact hf)
          · rw [h2] at hf; simp at hf; subst hf; rfl
        · exact absurd h hu

/-! ## Blocked threads -/

/-- A blocked thread whose wake-up flag is set has a task to run or was notified for exit. -/
def PInv (s : St τ φ δ) : Prop := ∀ t c dl rest, s.stk t = .core (.parked c dl) :: rest →
  (s.ctxs c).wakeup = true → (s.ctxs c).pend ≠ [] ∨ (s.ctxs c).exit = true

theorem WF.parked {s : St τ φ δ} (h : WF s) {t c : Nat} {dl : Option Nat} {rest : List (Frame τ φ)}
    (hs : s.stk t = .core (.parked c dl) :: rest) (hal : (s.ctxs c).life = .alive) : InReg s c := by
  rcases (h.loc t c (h.prk t c dl rest hs)).2.2 with h1 | h1 | ⟨r, h1⟩ | ⟨f, v, r, h1⟩
  · exact h1
  · exact absurd hal h1.1
  · rw [hs] at h1; simp at h1
  · rw [hs] at h1; simp at h1

set_option tactic.hygienic false in
theorem PInv.step {C : Client τ φ δ χ} {s s' : St τ φ δ} (h : WF s) (q : PInv s) {t : Nat} (he : Eff C s t s') :
    PInv s' := by
  intro u c dl0 rest0 hs
  have hL : (Frame.core (.parked c dl0) : Frame τ φ).leaf = true := rfl
  have ht := h.tail t
  have hp := @plain_leaf τ φ
  have h0 := q u c dl0
  have hl0 := h.prk u c dl0
  have hlt := h.loc t
  have hlu := h.loc u
  by_cases hut : u = t
  · subst hut
    cases he
    case ctl =>
      exfalso
      rw [hstk, upd_same] at hs
      rw [hold] at ht
      cases new with
      | nil => simp at hs; grind
      | cons g new => grind
    case freed =>
      exfalso
      rw [hstk, upd_same] at hs
      rw [hold] at ht
      cases new with
      | nil => simp at hs; grind
      | cons g new => grind
    case halt => rw [hstk] at hs; rw [hctx]; exact h0 _ hs
    case fin => rw [hstk, hold] at hs; simp at hs
    case rewait =>
      rw [hstk] at hs
      rw [hctx]
      have h1 := h0 _ hs
      grind [upd_app, Ctx.pend]
    case park =>
      rw [hstk, upd_same] at hs
      simp at hs
      obtain ⟨⟨rfl, -⟩, -⟩ := hs
      rw [hctx]
      simp
    all_goals
      exfalso
      rw [hstk] at hs
      grind [upd_app]
  · have hold' : ∃ r, s.stk u = .core (.parked c dl0) :: r := by
      cases he
      case spawn =>
        rw [hstk, upd_ne _ _ hut] at hs
        by_cases hun : u = n
        · subst hun; simp at hs
        · rw [upd_ne _ _ hun] at hs; exact ⟨_, hs⟩
      all_goals
        rw [hstk] at hs
        try rw [upd_ne _ _ hut] at hs
        exact ⟨_, hs⟩
    obtain ⟨r, hr⟩ := hold'
    have h1 := h0 r hr
    have h2 := hlu c (hl0 r hr)
    have hpt := h.prk t
    cases he
    case regNew =>
      rw [hctx, upd_ne _ _ (by omega)]
      exact h1
    case start =>
      have hl : s.loc t = some c_1 := by
        rcases hf with ⟨-, h3, -⟩ | ⟨dl, rfl, -⟩
        · exact h3
        · exact h.prk t _ dl rest hold
      have h3 := hlt c_1 hl
      rw [hctx]
      rw [upd_ne _ _ (by rintro rfl; exact hut (h2.2.1.symm.trans h3.2.1))]
      exact h1
    case rewait =>
      have h3 := hlt c_1 (hpt _ _ _ hold)
      rw [hctx]
      rw [upd_ne _ _ (by rintro rfl; exact hut (h2.2.1.symm.trans h3.2.1))]
      exact h1
    case parkRet =>
      have h3 := hlt c_1 (hpt _ _ _ hold)
      rw [hctx]
      rw [upd_ne _ _ (by rintro rfl; exact hut (h2.2.1.symm.trans h3.2.1))]
      exact h1
    case park =>
      have h3 := hlt c_1 hlc
      rw [hctx]
      rw [upd_ne _ _ (by rintro rfl; exact hut (h2.2.1.symm.trans h3.2.1))]
      exact h1
    case relLast =>
      have h4 := h.held (t := t) (c := c_1) (f := .core (.release c_1 f v)) (by simp [hold]) (by simp [Frame.holds])
      rw [hctx]
      by_cases hcc : c = c_1
      · subst hcc
        obtain ⟨i, hi⟩ := h.parked hr h4.2
        exact absurd hi (hnot i)
      · rw [upd_ne _ _ hcc]; exact h1
    case invPush =>
      rw [hctx]
      by_cases hcc : c = c_1
      · subst hcc; simp [Ctx.pend]
      · rw [upd_ne _ _ hcc]; exact h1
    all_goals
      rw [hctx]
      grind [upd_app, Ctx.pend]

theorem PInv.reach {C : Client τ φ δ χ} {d : δ} {f : φ} {s : St τ φ δ} (h : Reach C d f s) : PInv s := by
  refine Reach.induct PInv ?_ ?_ h
  · intro t c dl rest hs
    by_cases ht : t = 0
    · subst ht; simp [Core.init, St.stk] at hs
    · simp [Core.init, St.stk, upd_ne _ _ ht] at hs
  · intro s l s' hr q hs
    cases l with
    | tick n => rw [step_tick C s s' n hs]; exact q
    | th t ch => exact q.step (WF.reach hr) (step_eff C s s' t ch hs)

set_option tactic.hygienic false in
/-- A thread that stays blocked keeps its reasons to continue. -/
theorem park_persist {C : Client τ φ δ χ} {s s' : St τ φ δ} (h : WF s) {t u c : Nat} (he : Eff C s t s')
    {dl0 dl1 : Option Nat} {r r' : List (Frame τ φ)}
    (hr : s.stk u = .core (.parked c dl0) :: r) (hs : s'.stk u = .core (.parked c dl1) :: r') (hreg : InReg s c)
    (h1 : (s.ctxs c).pend ≠ [] ∨ (s.ctxs c).exit = true) :
    InReg s' c ∧ ((s'.ctxs c).pend ≠ [] ∨ (s'.ctxs c).exit = true) := by
  have hL : (Frame.core (.parked c dl1) : Frame τ φ).leaf = true := rfl
  have ht := h.tail t
  have hp := @plain_leaf τ φ
  have hl0 := h.prk u c dl0
  have hlt := h.loc t
  have hlu := h.loc u
  by_cases hut : u = t
  · subst hut
    cases he
    case ctl =>
      exfalso
      rw [hr] at hold
      obtain ⟨rfl, -⟩ := List.cons.inj hold
      simp [Frame.plain] at holdp
    case halt => rw [hctx, inReg_same hreg_1.contexts]; exact ⟨hreg, h1⟩
    case fin => rw [hold] at hr; simp at hr
    case rewait =>
      rw [hctx, inReg_same hreg_1.contexts]
      grind [upd_app, Ctx.pend]
    case start =>
      exfalso
      rw [hstk, upd_same] at hs
      simp at hs
    case parkRet =>
      exfalso
      rw [hstk, upd_same] at hs
      rw [hold, hs] at ht
      grind
    case hold =>
      exfalso
      rw [‹s.stk u = _ :: rest›] at hr
      obtain ⟨rfl, -⟩ := List.cons.inj hr
      simp [Frame.plain] at hf
    all_goals
      exfalso
      rw [hold] at hr
      simp at hr
  · have h2 := hlu c (hl0 r hr)
    have hpt := h.prk t
    cases he
    case regNew =>
      rw [hctx, upd_ne _ _ (by omega)]
      obtain ⟨i, hi⟩ := hreg
      exact ⟨⟨i, by rw [hcon]; simp [hi]⟩, h1⟩
    case regFound =>
      obtain ⟨i, hi⟩ := hreg
      refine ⟨⟨i, by rw [hcon]; exact hi⟩, ?_⟩
      rw [hctx]
      grind [upd_app, Ctx.pend]
    case unreg =>
      have h3 := hlt c_1 (h.unreg_loc hfind)
      have hcc : c ≠ c_1 := by rintro rfl; exact hut (h2.2.1.symm.trans h3.2.1)
      obtain ⟨i, hi⟩ := hreg
      have h4 := h.mem i c hi
      have h5 := mem_of_find h hfind
      refine ⟨⟨i, ?_⟩, ?_⟩
      · rw [hcon]
        simp only [List.mem_filter, Bool.not_eq_true', beq_eq_false_iff_ne, ne_eq]
        refine ⟨hi, ?_⟩
        intro h6
        exact hcc (h.inj c c_1 h4.1 h5.1 (by rw [h4.2.1, h5.2.1]; exact h6))
      · rw [hctx, upd_ne _ _ hcc]; exact h1
    case start =>
      have hl : s.loc t = some c_1 := by
        rcases hf with ⟨-, h3, -⟩ | ⟨dl, rfl, -⟩
        · exact h3
        · exact h.prk t _ dl rest hold
      have h3 := hlt c_1 hl
      rw [inReg_same hreg_1.contexts, hctx]
      rw [upd_ne _ _ (by rintro rfl; exact hut (h2.2.1.symm.trans h3.2.1))]
      exact ⟨hreg, h1⟩
    case relLast =>
      rw [inReg_same hreg_1.contexts, hctx]
      by_cases hcc : c = c_1
      · subst hcc
        obtain ⟨i, hi⟩ := hreg
        exact absurd hi (hnot i)
      · rw [upd_ne _ _ hcc]; exact ⟨hreg, h1⟩
    case invPush =>
      rw [inReg_same hreg_1.contexts, hctx]
      by_cases hcc : c = c_1
      · subst hcc; simp [Ctx.pend, hreg]
      · rw [upd_ne _ _ hcc]; exact ⟨hreg, h1⟩
    all_goals
      rw [inReg_same hreg_1.contexts, hctx]
      grind [upd_app, Ctx.pend]

/-- A thread with frames is running. -/
theorem running_of_stk {s : St τ φ δ} (h : FreeOK s) {t : Nat} (hs : s.stk t ≠ []) : (s.thr t).status = .running := by
  by_contra hn
  exact hs (h t hn).1

end
end Core
end Itc
