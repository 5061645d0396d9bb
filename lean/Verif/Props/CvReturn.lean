import Verif.Props.Notify
import Verif.Props.Cv
import Verif.Props.Future
import Verif.Core.Called

/-!
# What `condition_variable::wait` and `wait_for` return for: C68

`condition_variable::wait` (condition_variable.hpp:36-48) has no predicate: the caller loops.  It nevertheless does not return for no
reason: a task that the waiting thread executes, or a wakeup that was meant for something else, does not end it.  For every application
code and every schedule.
-/
namespace Itc
open Core Sync
section
variable {α φ δ χ : Type} {A : App α φ δ χ} {ad : δ} {i0 : φ} {s s' s0 : SSt α φ δ}

/-! ## Specification vocabulary -/

/-- Since `s0` a call of `notify_one`, `notify_all` on condition variable `n` took the entry of a waiter with the id that thread `t` had,
    and interrupted that waiter. -/
def NotifiedSince (A : App α φ δ χ) (s0 s : SSt α φ δ) (n t : Nat) : Prop :=
  ∃ es u l i k sm, s.data.sd.slog = es ++ s0.data.sd.slog ∧ .took u (.cv n) l ∈ es ∧ (i, k) ∈ l ∧ .sig u k ∈ es ∧
    Later (client A) s0 sm ∧ Later (client A) sm s ∧ sm.getId t = i

/-! ## Proof -/

/-- The entry `(i, k)` was in the list of waiters, some time since `s0`. -/
def Came (A : App α φ δ χ) (ad : δ) (i0 : φ) (s0 : SSt α φ δ) (t n i k : Nat) (s : SSt α φ δ) : Prop :=
  ∃ sm, SR A ad i0 sm ∧ Later (client A) s0 sm ∧ Later (client A) sm s ∧ (i, k) ∈ sm.data.sd.sem (.cv n) ∧ sm.getId t = i

theorem Came.snoc {t n i k : Nat} {l : Lbl χ} (h : Came A ad i0 s0 t n i k s) (hs : step (client A) s l = some s') : Came A ad i0 s0 t n i k s' := by
  obtain ⟨sm, h1, h2, h3, h4⟩ := h
  exact ⟨sm, h1, h2, h3.snoc hs, h4⟩

theorem later_slog (h : Later (client A) s s') : ∃ es, s'.data.sd.slog = es ++ s.data.sd.slog := by
  refine h.ind (P := fun x => ∃ es, x.data.sd.slog = es ++ s.data.sd.slog) ?_ ⟨[], rfl⟩
  rintro x l y hs ⟨es, he⟩
  obtain ⟨es', he'⟩ := (step_ext hs).log
  exact ⟨es' ++ es, by rw [he', he, List.append_assoc]⟩

theorem Came.notified {t n i k : Nat} (hr : SR A ad i0 s) (h : Came A ad i0 s0 t n i k s) (ht : s.data.sd.tok k = true) : NotifiedSince A s0 s n t := by
  obtain ⟨sm, hrm, h1, h2, h3, h4⟩ := h
  obtain ⟨e1, he1⟩ := later_slog h1
  obtain ⟨e2, he2⟩ := later_slog h2
  have hI := sem_I hr
  have hM := sem_I hrm
  obtain ⟨u, hu⟩ := (hI.tokSig k).1 ht
  obtain ⟨S, l, i', hl, hi, -⟩ := hI.sigTook hu
  obtain ⟨u1, hen⟩ := hI.tookEnt hl hi
  obtain ⟨u2, hen2⟩ := hM.ent h3
  obtain ⟨-, rfl, rfl⟩ := hI.entUq hen (by rw [he2]; exact List.mem_append_right _ hen2)
  have hg := hM.goneSem h3
  have n1 : .took u (.cv n) l ∉ sm.data.sd.slog := fun h => hg (List.mem_flatMap.2 ⟨_, h, List.mem_map.2 ⟨_, hi, rfl⟩⟩)
  have n2 : .sig u k ∉ sm.data.sd.slog := fun h => hg (hM.tokGone ((hM.tokSig k).2 ⟨u, h⟩))
  rw [he2] at hl hu
  exact ⟨e2 ++ e1, u, l, i', k, sm, by rw [he2, he1, List.append_assoc], List.mem_append_left _ ((List.mem_append.1 hl).resolve_right n1), hi,
    List.mem_append_left _ ((List.mem_append.1 hu).resolve_right n2), h1, h2, h4⟩

theorem addWaiter_mem (d : SData α) (t : Nat) (S : SemId) (i : Nat) : (i, (d.addWaiter t S i).2) ∈ (d.addWaiter t S i).1.sem S := by
  unfold SData.addWaiter
  split
  · rename_i w h
    have h1 := List.find?_some h
    have h2 := List.mem_of_find?_eq_some h
    obtain ⟨a, b⟩ := w
    simp only [beq_iff_eq] at h1
    subst h1
    exact h2
  · simp [Sync.set]

/-- Phases of condition_variable::wait. -/
def CwPh (A : App α φ δ χ) (ad : δ) (i0 : φ) (s0 : SSt α φ δ) (t : Nat) (rest : List (Fr α φ)) (n m : Nat) (s : SSt α φ δ) : SFrame α φ → Prop
  | .cwIn n' m' => n' = n ∧ m' = m
  | .swIn w => w = .cv n m
  | .swLoop w i k => w = .cv n m ∧ Came A ad i0 s0 t n i k s
  | .swChk w i k => w = .cv n m ∧ Came A ad i0 s0 t n i k s
  | .swBefore w i k => w = .cv n m ∧ Came A ad i0 s0 t n i k s
  | .swAfter w i k => w = .cv n m ∧ Came A ad i0 s0 t n i k s
  | .swRem w i k y => w = .cv n m ∧ Came A ad i0 s0 t n i k s ∧
      (s.data.sd.tok k = true ∨ s.stk t = .client (.swRem w i k y) :: rest ∧ s.notified t = true)
  | _ => False

theorem CwPh.frag (hr : SR A ad i0 s0) {t j n m : Nat} {rest : List (Fr α φ)} (hst : s0.stk t = .client (.cwIn n m) :: rest)
    (hf : Frag (client A) t rest s0 j s) : ∃ pre f, s.stk t = pre ++ .client f :: rest ∧ (s.term = true ∨
      Later (client A) s0 s ∧ CwPh A ad i0 s0 t rest n m s f) := by
  refine SFrag.ind (fun f s => Later (client A) s0 s ∧ CwPh A ad i0 s0 t rest n m s f) hr hst ⟨.refl, rfl, rfl⟩ (fun g s h => h.2) ?_ ?_ ?_ hf
  · intro s1 s2 f g d' a ch hr1 hst1 he hp hS hc hd hs hck hst2
    obtain ⟨hL, hp⟩ := hp
    refine ⟨hL.snoc hs, ?_⟩
    cases hS <;> first | exact False.elim hp | (cases hc; done) | skip
    case cwIn => obtain ⟨rfl, rfl⟩ := hp; cases hc; exact rfl
    case swIn =>
      cases hp; cases hc
      obtain ⟨-, hl, hcx, -⟩ := own_notified hst1 hs he
      refine ⟨rfl, s2, hr1.step hs, hL.snoc hs, .refl, ?_, ?_⟩
      · rw [hd]; exact addWaiter_mem _ _ _ _
      · simp only [St.getId, hl, hcx]; rfl
    case swSig h => cases hc; exact ⟨hp.1, hp.2.snoc hs, .inl (by rw [hd]; exact h)⟩
    case swNot => cases hc; exact ⟨hp.1, hp.2.snoc hs⟩
    case swExit h =>
      cases hc
      exact ⟨hp.1, hp.2.snoc hs, .inr ⟨hst2, (own_notified hst1 hs he).1.trans h⟩⟩
    case swStay => cases hc; exact ⟨hp.1, hp.2.snoc hs⟩
    case swBefore => cases hc; exact ⟨hp.1, hp.2.snoc hs⟩
    case swAfterN => cases hc; exact ⟨hp.1, hp.2.snoc hs⟩
    case swAfterL => cases hc; exact ⟨hp.1, hp.2.snoc hs⟩
    case swRemM => cases hp.1
    case swRemF => cases hp.1
  · intro s1 s2 f g e hr1 hst1 he hp hnt hf hd
    exfalso
    cases f <;> first | exact hp.2 | exact hnt trivial | (cases hf; done)
  · intro s1 s2 f l hr1 hp hs h1 h2 h3
    obtain ⟨hL, hp⟩ := hp
    refine ⟨hL.snoc hs, ?_⟩
    cases f <;> first
      | exact hp
      | exact ⟨hp.1, hp.2.snoc hs⟩
      | skip
    obtain ⟨hw, hk, hp⟩ := hp
    refine ⟨hw, hk.snoc hs, hp.imp (tok_mono hr1 hs) ?_⟩
    rintro ⟨a, b⟩
    obtain ⟨e1, -, -, -, e5⟩ := still hr1 (by rw [a]; simp) hs (h3 a)
    exact ⟨e1.trans a, e5 b⟩

/-- `condition_variable::wait` returns only if, since it was called, a `notify_one` or `notify_all` on that condition variable picked the
    entry of this thread and interrupted it, or the thread is notified for exit (or not registered). -/
theorem C68_wait (hr : SR A ad i0 s0) {t j n m : Nat} {rest : List (Fr α φ)} (hst : s0.stk t = .client (.cwIn n m) :: rest)
    (hf : Frag (client A) t rest s0 j s) {l : Lbl χ} (hs : step (client A) s l = some s') (hend : s'.stk t = rest) (hexc : (s'.thr t).exc = none) :
    (s'.thr t).rv = .unit ∧ (NotifiedSince A s0 s' n t ∨ s'.notified t = true) := by
  obtain ⟨pre, f, hg, hph⟩ := CwPh.frag hr hst hf
  have hr1 := hf.reach hr
  obtain ⟨-, h3⟩ := hph.resolve_left (by rw [step_live hs]; simp)
  obtain ⟨rfl, hlast, ch, rfl⟩ := SFrag.last hr1 hg hs hend (by rintro g rfl; exact h3)
  cases hlast with
  | ret v d' he hS hdata hexc' hrv =>
    generalize hret : (.ret v : Act (STask α) (SFrame α φ)) = a at hS
    obtain ⟨ho, -, -, hck⟩ := own_notified hg hs he
    cases hS <;> first
      | exact False.elim h3
      | (cases hret; done)
      | (have := h3.1; cases this; done)
      | skip
    case swRemC => 
      cases hret; obtain ⟨h1, hk, h3⟩ := h3; cases h1
      refine ⟨hrv, h3.imp (fun h => (hk.snoc hs).notified (hr1.step hs) (tok_mono hr1 hs h)) fun h => ho.trans h.2⟩
  | throw e d' he hS hdata hexc' => rw [hexc] at hexc'; cases hexc'
  | unwind e he hnt hf hdata hexc' => rw [hexc] at hexc'; cases hexc'

/-- Phases of condition_variable::wait_for(d) called at time `c0`. -/
def CfPh (A : App α φ δ χ) (ad : δ) (i0 : φ) (s0 : SSt α φ δ) (t : Nat) (rest : List (Fr α φ)) (n m : Nat) (d c0 : Int) (s : SSt α φ δ) :
    SFrame α φ → Prop
  | .cfIn n' m' d' => n' = n ∧ m' = m ∧ d' = d
  | .wfIn w d' => w = .cv n m ∧ d' = d
  | .wfAdd w now e => w = .cv n m ∧ c0 + d ≤ e ∧ now ≤ s.clock
  | .wfLoop w i k now e b => (w = .cv n m ∧ c0 + d ≤ e ∧ now ≤ s.clock ∧ (b = true → e ≤ s.clock + 999)) ∧ Came A ad i0 s0 t n i k s
  | .wfChk w i k now e b => (w = .cv n m ∧ c0 + d ≤ e ∧ now ≤ s.clock ∧ (b = true → e ≤ s.clock + 999)) ∧ Came A ad i0 s0 t n i k s
  | .wfBefore w i k now e => (w = .cv n m ∧ c0 + d ≤ e ∧ now ≤ s.clock) ∧ Came A ad i0 s0 t n i k s
  | .wfAfter w i k e => (w = .cv n m ∧ c0 + d ≤ e ∧ Inner A ad i0 t (.wfAfter w i k e) e rest s) ∧ Came A ad i0 s0 t n i k s
  | .wfNow w i k e b => (w = .cv n m ∧ c0 + d ≤ e ∧ (b = true → e ≤ s.clock + 999)) ∧ Came A ad i0 s0 t n i k s
  | .wfRem w i b k y => (w = .cv n m ∧ (b = true → c0 + d ≤ s.clock + 999)) ∧ Came A ad i0 s0 t n i k s ∧
      (b = true ∨ s.data.sd.tok k = true ∨ s.stk t = .client (.wfRem w i b k y) :: rest ∧ s.notified t = true)
  | _ => False

theorem CfPh.frag (hr : SR A ad i0 s0) {t j n m : Nat} {d : Int} {rest : List (Fr α φ)} (hst : s0.stk t = .client (.cfIn n m d) :: rest)
    (hf : Frag (client A) t rest s0 j s) : ∃ pre f, s.stk t = pre ++ .client f :: rest ∧ (s.term = true ∨
      (Later (client A) s0 s ∧ s0.clock ≤ s.clock) ∧ CfPh A ad i0 s0 t rest n m d s0.clock s f) := by
  refine SFrag.ind (fun f s => (Later (client A) s0 s ∧ s0.clock ≤ s.clock) ∧ CfPh A ad i0 s0 t rest n m d s0.clock s f) hr hst
    ⟨⟨.refl, Nat.le_refl _⟩, rfl, rfl, rfl⟩ (fun g s h => h.2) ?_ ?_ ?_ hf
  · intro s1 s2 f g d' a ch hr1 hst1 he hp hS hc hd hs hck hst2
    obtain ⟨⟨hL, hle⟩, hp⟩ := hp
    refine ⟨⟨hL.snoc hs, by omega⟩, ?_⟩
    have hv : (s1.view t).clock = s1.clock := rfl
    cases hS <;> first | exact False.elim hp | (cases hc; done) | skip
    case cfIn => obtain ⟨rfl, rfl, rfl⟩ := hp; cases hc; exact ⟨rfl, rfl⟩
    case wfIn => obtain ⟨rfl, rfl⟩ := hp; cases hc; exact ⟨rfl, by simp only [hv]; omega, by rw [hck, hv]; omega⟩
    case wfAdd =>
      obtain ⟨rfl, h1, h2⟩ := hp; cases hc
      obtain ⟨-, hl, hcx, -⟩ := own_notified hst1 hs he
      refine ⟨⟨rfl, h1, by rw [hck]; omega, by simp⟩, s2, hr1.step hs, hL.snoc hs, .refl, ?_, ?_⟩
      · rw [hd]; exact addWaiter_mem _ _ _ _
      · simp only [St.getId, hl, hcx]; rfl
    case wfSig h => obtain ⟨⟨rfl, h1, h2, h3⟩, hk⟩ := hp; cases hc; exact ⟨⟨rfl, fun h => by have := h3 h; rw [hck]; omega⟩, hk.snoc hs, .inr (.inl (by rw [hd]; exact h))⟩
    case wfTime => obtain ⟨⟨rfl, h1, h2, h3⟩, hk⟩ := hp; cases hc; exact ⟨⟨rfl, fun h => by rw [hck]; omega⟩, hk.snoc hs, .inl rfl⟩
    case wfNot => obtain ⟨⟨rfl, h1, h2, h3⟩, hk⟩ := hp; cases hc; exact ⟨⟨rfl, h1, by rw [hck]; omega, by rw [hck]; exact h3⟩, hk.snoc hs⟩
    case wfExit h =>
      obtain ⟨⟨rfl, h1, h2, h3⟩, hk⟩ := hp; cases hc
      exact ⟨⟨rfl, fun h => by have := h3 h; rw [hck]; omega⟩, hk.snoc hs, .inr (.inr ⟨hst2, (own_notified hst1 hs he).1.trans h⟩)⟩
    case wfStay => obtain ⟨⟨rfl, h1, h2, h3⟩, hk⟩ := hp; cases hc; exact ⟨⟨rfl, h1, by rw [hck]; omega⟩, hk.snoc hs⟩
    case wfBefore i k now e =>
      obtain ⟨⟨rfl, h1, h2⟩, hk⟩ := hp; cases hc
      exact ⟨⟨rfl, h1, .inl ⟨s2, 0, now, hr1.step hs, hst2, by rw [hck]; exact h2, .here _ hst2⟩⟩, hk.snoc hs⟩
    case wfAfterN h => obtain ⟨⟨rfl, -⟩, -⟩ := hp; contradiction
    case wfAfterL i k e l h hl =>
      obtain ⟨⟨rfl, h1, h2⟩, hk⟩ := hp; cases hc
      refine ⟨⟨rfl, h1, fun h => ?_⟩, hk.snoc hs⟩
      rcases h2 with ⟨s3, n, now, -, -, -, hfr⟩ | ⟨-, h3⟩
      · obtain ⟨pre, f, hfr⟩ := hfr.active
        exact (top_ne (hst1.symm.trans hfr)).elim
      · rw [hck]; exact h3 he (by simpa using h)
    case wfNow => obtain ⟨⟨rfl, h1, h2⟩, hk⟩ := hp; cases hc; exact ⟨⟨rfl, h1, by rw [hck, hv]; omega, by rw [hck]; exact h2⟩, hk.snoc hs⟩
    case wfRemV => obtain ⟨⟨h1, -⟩, -⟩ := hp; cases h1
  · intro s1 s2 f g e hr1 hst1 he hp hnt hf hd
    exfalso
    cases f <;> first | exact hp.2 | exact hnt trivial | (cases hf; done)
  · intro s1 s2 f l hr1 hp hs h1 h2 h3
    obtain ⟨⟨hL, hle⟩, hp⟩ := hp
    have hck := step_clock hs
    have key : ∀ {b : Bool} {x : Int}, (b = true → x ≤ s1.clock + 999) → (b = true → x ≤ s2.clock + 999) := fun h hb => by have := h hb; omega
    refine ⟨⟨hL.snoc hs, by omega⟩, ?_⟩
    cases f <;> first
      | exact hp
      | exact ⟨hp.1, hp.2.1, by have := hp.2.2; omega⟩
      | exact ⟨⟨hp.1.1, hp.1.2.1, by have := hp.1.2.2; omega⟩, hp.2.snoc hs⟩
      | exact ⟨⟨hp.1.1, hp.1.2.1, by have := hp.1.2.2.1; omega, key hp.1.2.2.2⟩, hp.2.snoc hs⟩
      | exact ⟨⟨hp.1.1, hp.1.2.1, key hp.1.2.2⟩, hp.2.snoc hs⟩
      | exact ⟨⟨hp.1.1, hp.1.2.1, hp.1.2.2.step hr1 hs h2 h3⟩, hp.2.snoc hs⟩
      | skip
    obtain ⟨⟨hw, hb⟩, hk, hp⟩ := hp
    refine ⟨⟨hw, key hb⟩, hk.snoc hs, hp.imp id (.imp (tok_mono hr1 hs) ?_)⟩
    rintro ⟨a, b⟩
    obtain ⟨e1, -, -, -, e5⟩ := still hr1 (by rw [a]; simp) hs (h3 a)
    exact ⟨e1.trans a, e5 b⟩

/-- `condition_variable::wait_for(d)` returns `timeout` (`.cv true`) only if `d` has passed since the call (but for 999 ns: the code rounds the remaining
    time down to microseconds), and `no_timeout` only if, since the call, a `notify_one` or `notify_all` on that condition variable picked
    the entry of this thread and interrupted it, or the thread is notified for exit (or not registered). -/
theorem C68_wait_for (hr : SR A ad i0 s0) {t j n m : Nat} {d : Int} {rest : List (Fr α φ)} (hst : s0.stk t = .client (.cfIn n m d) :: rest)
    (hf : Frag (client A) t rest s0 j s) {l : Lbl χ} (hs : step (client A) s l = some s') (hend : s'.stk t = rest) (hexc : (s'.thr t).exc = none) :
    ((s'.thr t).rv = .cv true ∧ (s0.clock : Int) + d ≤ s'.clock + 999) ∨
    ((s'.thr t).rv = .cv false ∧ (NotifiedSince A s0 s' n t ∨ s'.notified t = true)) := by
  obtain ⟨pre, f, hg, hph⟩ := CfPh.frag hr hst hf
  have hr1 := hf.reach hr
  obtain ⟨-, h3⟩ := hph.resolve_left (by rw [step_live hs]; simp)
  obtain ⟨rfl, hlast, ch, rfl⟩ := SFrag.last hr1 hg hs hend (by rintro g rfl; exact h3)
  cases hlast with
  | ret v d' he hS hdata hexc' hrv =>
    generalize hret : (.ret v : Act (STask α) (SFrame α φ)) = a at hS
    obtain ⟨ho, -, -, hck⟩ := own_notified hg hs he
    cases hS <;> first
      | exact False.elim h3
      | (cases hret; done)
      | (have := h3.1; cases this; done)
      | (have := h3.1.1; cases this; done)
      | skip
    case wfRemC i k y b =>
      cases hret; obtain ⟨⟨h1, h2⟩, hk, h3⟩ := h3; cases h1
      cases b
      · refine .inr ⟨hrv, (h3.resolve_left (by simp)).imp (fun h => (hk.snoc hs).notified (hr1.step hs) (tok_mono hr1 hs h)) fun h => ho.trans h.2⟩
      · exact .inl ⟨hrv, by rw [hck]; exact h2 rfl⟩
  | throw e d' he hS hdata hexc' => rw [hexc] at hexc'; cases hexc'
  | unwind e he hnt hf hdata hexc' => rw [hexc] at hexc'; cases hexc'

end

/-! ## Examples -/

/-- Main waits on condition variable 0; thread 1 sends main a task, then notifies. -/
def demoCvR (a : SApi Nat) : List (SAct Nat Nat) :=
  [.core .registerThis 2, .core (.spawn 1 10) 3, .sync (.lock 0) 4, .sync a 5, .sync (.unlock 0) 6, .ret .unit,
   .ret .unit, .ret .unit, .ret .unit, .core (.invoke 1 20) 11, .sync (.lock 0) 12, .sync (.notifyAll 0) 13, .sync (.unlock 0) 14, .ret .unit,
   .ret .unit, .ret .unit, .ret .unit, .ret .unit, .ret .unit, .ret .unit, .ret .unit]

set_option synthInstance.maxSize 1024 in
set_option synthInstance.maxHeartbeats 400000 in
/-- Hypotheses of `C68_wait`: the wait executes the task, goes on waiting, is notified, and returns; main is not notified for exit. -/
example : ∃ s0 n s s', SR (tableApp (demoCvR (.cvWait 0 0))) () 1 s0 ∧ s0.stk 0 = .client (.cwIn 0 0) :: [.client (.app 5)] ∧
    Frag (demo (demoCvR (.cvWait 0 0))) 0 [.client (.app 5)] s0 n s ∧ step (demo (demoCvR (.cvWait 0 0))) s (.th 0 .go) = some s' ∧
    (s'.stk 0, (s'.thr 0).exc, s'.notified 0, s0.data.sd.slog, s'.data.sd.slog) = ([.client (.app 5)], none, false, [],
      [.left 0 (.cv 0) [] 0 .sig, .sig 1 0, .took 1 (.cv 0) [(1, 0)], .enter 0 (.cv 0) 1 0]) :=
  sfragWit (ls1 := go 0 9) (ls2 := go 0 6 ++ go 1 4 ++ go 0 10 ++ go 1 14 ++ go 0 7) (hnd := fun _ => none)
    (obs := fun s0 _ _ s' => (s'.stk 0, (s'.thr 0).exc, s'.notified 0, s0.data.sd.slog, s'.data.sd.slog)) (by decide +kernel)

/-- Hypotheses of `C68_wait_for`: `timeout`. -/
example : ∃ s0 n s s', SR (tableApp (demoCvR (.cvWaitFor 0 0 1500))) () 1 s0 ∧ s0.stk 0 = .client (.cfIn 0 0 1500) :: [.client (.app 5)] ∧
    Frag (demo (demoCvR (.cvWaitFor 0 0 1500))) 0 [.client (.app 5)] s0 n s ∧ step (demo (demoCvR (.cvWaitFor 0 0 1500))) s (.th 0 .go) = some s' ∧
    (s'.stk 0, (s'.thr 0).exc, (s'.thr 0).rv, s'.clock) = ([.client (.app 5)], none, .cv true, 1600) :=
  sfragWit (ls1 := go 0 9) (ls2 := go 0 8 ++ [.tick 1600, .th 0 .timeout] ++ go 0 3) (hnd := fun _ => none)
    (obs := fun _ _ _ s' => (s'.stk 0, (s'.thr 0).exc, (s'.thr 0).rv, s'.clock)) (by decide +kernel)

/-- Hypotheses of `C68_wait_for`: `no_timeout`, notified. -/
example : ∃ s0 n s s', SR (tableApp (demoCvR (.cvWaitFor 0 0 1500))) () 1 s0 ∧ s0.stk 0 = .client (.cfIn 0 0 1500) :: [.client (.app 5)] ∧
    Frag (demo (demoCvR (.cvWaitFor 0 0 1500))) 0 [.client (.app 5)] s0 n s ∧ step (demo (demoCvR (.cvWaitFor 0 0 1500))) s (.th 0 .go) = some s' ∧
    (s'.stk 0, (s'.thr 0).exc, (s'.thr 0).rv, s'.notified 0) = ([.client (.app 5)], none, .cv false, false) :=
  sfragWit (ls1 := go 0 9) (ls2 := go 0 8 ++ go 1 4 ++ go 0 11 ++ go 1 14 ++ go 0 8) (hnd := fun _ => none)
    (obs := fun _ _ _ s' => (s'.stk 0, (s'.thr 0).exc, (s'.thr 0).rv, s'.notified 0)) (by decide +kernel)

end Itc
