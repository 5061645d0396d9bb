import Verif.Props.Outcome
import Verif.Sync.Waits
import Verif.Sync.Asy

/-!
# C33, C37: the calls behind the events

The events of the ghost log about continuations and functions, tied to the calls that were made: `bodyRet t p v` and `bodyThrew t p e` to a call of the
function given to async / then that thread `t` has made and that ended so; `attached t q p` to the call of `then` that returned the future with state `p`.
-/
namespace Itc
open Core Sync
section
variable {α φ δ χ : Type} {A : App α φ δ χ} {ad : δ} {i0 : φ} {s s' s0 : SSt α φ δ}

/-- Thread `t` has called the function `a` of the packaged task with state `p`. That call has ended: with the exception `o`, or normally with result `v`. -/
def Ran (A : App α φ δ χ) (ad : δ) (i0 : φ) (t p : Nat) (a : α) (o : Option Exn) (v : Val) (s : SSt α φ δ) : Prop :=
  ∃ s1 n s2 l s3 rest, SR A ad i0 s1 ∧ s1.stk t = .client (.app (A.run a)) :: .client (.ftSet p) :: rest ∧
    Frag (client A) t (.client (.ftSet p) :: rest) s1 n s2 ∧ step (client A) s2 l = some s3 ∧ s3.stk t = .client (.ftSet p) :: rest ∧
    (s3.thr t).exc = o ∧ (o = none → (s3.thr t).rv = v) ∧ Later (client A) s3 s

theorem Ran.mono {t p : Nat} {a : α} {o : Option Exn} {v : Val} {l : Lbl χ} (h : Ran A ad i0 t p a o v s) (hs : step (client A) s l = some s') :
    Ran A ad i0 t p a o v s' := by
  obtain ⟨s1, n, s2, l', s3, rest, h1, h2, h3, h4, h5, h6, h7, h8⟩ := h
  exact ⟨s1, n, s2, l', s3, rest, h1, h2, h3, h4, h5, h6, h7, h8.snoc hs⟩

/-- The function is the one that was given to async / then for this state. -/
def Given (d : SData α) (p : Nat) (a : α) : Prop := (d.st p).owner = .pkg → ∃ k, (d.st p).req = some k ∧ k.body = a

theorem ftSet_only {run destroy : α → φ} {v : View} {d d' : SData α} {rv : Val} {f : SFrame α φ} {x : Act (STask α) (SFrame α φ)} {p : Nat}
    (h : SS run destroy v d rv f d' x) (hc : x.cont = some (.ftSet p)) : ∃ a, f = .ftRun p a ∧ x = .push (.app (run a)) (.ftSet p) := by
  cases h
  case laRet K c => cases K <;> simp only [laNext] at hc <;> (try split at hc) <;> simp [Act.cont] at hc
  case laEnd K c => cases K <;> simp only [laNext] at hc <;> (try split at hc) <;> simp [Act.cont] at hc
  case ftRun q a => simp [Act.cont] at hc; subst hc; exact ⟨a, rfl, rfl⟩
  all_goals simp [Act.cont] at hc

/-- `ftSet` is only the continuation of a call. -/
def fnCalls (A : App α φ δ χ) (i0 : φ) : Calls (client A) (.app i0) where
  isW f := ∃ p, f = .ftSet p
  ok _ _ := True
  init := by simp
  run k := by cases k <;> simp [client]
  destroy k := by cases k <;> simp [client]
  act := by
    intro v d f rv ch d' a h
    cases client_cs h with
    | app g ad sa hA =>
      cases sa <;> simp [liftAct, CAct]
      case core b k => cases b <;> simp [mapApi, ApiOK]
      case sync b k => cases b <;> simp [SApi.entry]
    | sync f sd a hS =>
      cases hS
      case laRet K c => cases K <;> simp only [laNext] <;> (try split) <;> simp [CAct]
      case laEnd K c => cases K <;> simp only [laNext] <;> (try split) <;> simp [CAct]
      all_goals simp [CAct, ApiOK]
      all_goals (try split) <;> simp
  throw := by
    rintro f e f' h ⟨p, rfl⟩
    cases f <;> simp [client, sThrow] at h

/-- When the frame has the control, the call of the function has ended. -/
theorem ftSet_ran (hr : SR A ad i0 s) {t p : Nat} {rest : List (Fr α φ)} (hst : s.stk t = .client (.ftSet p) :: rest) (hterm : s.term = false) :
    ∃ a, Ran A ad i0 t p a (s.thr t).exc (s.thr t).rv s ∧ Given s.data.sd p a := by
  obtain ⟨x, -, h⟩ := (fnCalls A i0).sound hr (pre := []) (by rw [hst]; rfl) ⟨p, rfl⟩
  obtain ⟨-, h⟩ := h.resolve_left (by simp)
  obtain ⟨sp, s1, f, n, s2, l, s3, h1, h2, h3, h4, h5, h6⟩ := h
  obtain ⟨h6, h7, -⟩ := h6 hterm
  obtain ⟨h8, h9, h10, ch, b, h11, h12, h13⟩ := h1
  have key : ∃ a, f = .ftRun p a ∧ b = .push (.app (A.run a)) (.ftSet p) := by
    generalize s1.data = d1 at h12
    cases client_cs h12 with
    | app g ad sa hA => cases sa <;> simp [liftAct, Act.cont] at h13
    | sync f sd a hS => exact ftSet_only hS h13
  obtain ⟨a, rfl, rfl⟩ := key
  have hx : x = .client (.app (A.run a)) := by
    obtain ⟨y, hS, hact⟩ := own_ss h9 h11 (by
      cases step_cl h11 with
      | cl f r0 d' b hexc => exact hexc
      | core f r0 hexc => exact hexc
      | halt e hexc hst' => have := h10.symm.trans (hst'.trans h9); have := congrArg List.length this; simp at this
      | task e f k' r0 hexc hold => rw [h9] at hold; cases hold
      | cpop e f r0 hexc hold => rw [h9] at hold; cases hold
      | «catch» e g g' r0 hexc hold hg hst' => rw [h9] at hold; cases hold; cases hg
      | pop e g r0 hexc hold hg hst' => rw [h9] at hold; cases hold; have := congrArg List.length (h10.symm.trans hst'); simp at this; omega
      | fin hold hst' => rw [h9] at hold; cases hold) (by simp)
    generalize s1.data.sd = d1 at hS
    cases hS
    have := h10.symm.trans hact.1
    simpa using this
  subst hx
  refine ⟨a, ⟨s1, n, s2, l, s3, rest, h8.step h11, h10, h2, h3, h4, h6.symm, fun _ => h7.symm, h5⟩, ?_⟩
  have hq := (ty4_F h8 (t := t) (g := .ftRun p a) (by rw [h9]; simp) : bq _ p a)
  have hext : Ext sp.data.sd s.data.sd :=
    (((Later.refl.snoc h11).trans h2.later).trans ((Later.refl.snoc h3).trans h5)).ind (P := fun x => Ext sp.data.sd x.data.sd)
      (fun hs h => h.trans (step_ext hs)) (.refl _)
  intro ho
  have := hq.2 ((hext.owner hq.1).symm.trans ho)
  rw [hext.req hq.1]
  exact this

theorem Given.mono {d d' : SData α} {p : Nat} {a : α} (he : Ext d d') (hp : p < d.nst) (h : Given d p a) : Given d' p a := by
  intro ho
  rw [he.req hp]
  exact h ((he.owner hp).symm.trans ho)

/-- **C37.** `bodyRet t p v` means that thread `t` has called the function that was given to async / then for the state `p`, and that this call has
    returned `v`. -/
theorem C37_returned (hr : SR A ad i0 s) {t p : Nat} {v : Val} (h : .bodyRet t p v ∈ s.data.sd.slog) :
    ∃ a, Ran A ad i0 t p a none v s ∧ Given s.data.sd p a := by
  refine Reach.induct (fun s : SSt α φ δ => .bodyRet t p v ∈ s.data.sd.slog → ∃ a, Ran A ad i0 t p a none v s ∧ Given s.data.sd p a) ?_ ?_ hr h
  · intro h; simp [Core.init] at h
  · intro s l s' hr ih hs h
    by_cases h0 : .bodyRet t p v ∈ s.data.sd.slog
    · obtain ⟨a, h1, h2⟩ := ih h0
      have h5 := ty5_I hr
      exact ⟨a, h1.mono hs, h2.mono (step_ext hs) (h5.lt _ _ (h5.ret _ _ _ h0))⟩
    · cases l with
      | tick n => rw [step_tick _ s s' n hs] at h; exact absurd h h0
      | th u ch =>
        obtain ⟨rfl, h1, h2, rest, h3⟩ := (C37_events hs).1 v h h0
        obtain ⟨a, h4, h5⟩ := ftSet_ran hr h3 (step_live hs)
        rw [h1, h2] at h4
        exact ⟨a, h4.mono hs, h5.mono (step_ext hs) (ty1_top hr h3).1⟩

/-- **C37.** `bodyThrew t p e` means that thread `t` has called the function that was given to async / then for the state `p`, and that this call has ended
    with the exception `e`. -/
theorem C37_threw (hr : SR A ad i0 s) {t p : Nat} {e : Exn} (h : .bodyThrew t p e ∈ s.data.sd.slog) :
    ∃ a v, Ran A ad i0 t p a (some e) v s ∧ Given s.data.sd p a := by
  have key : ∀ s : SSt α φ δ, SR A ad i0 s → .client (.ftThrew p e) ∈ s.stk t → ∃ a v, Ran A ad i0 t p a (some e) v s ∧ Given s.data.sd p a := by
    intro s hr
    refine Reach.induct (fun s : SSt α φ δ => .client (.ftThrew p e) ∈ s.stk t → ∃ a v, Ran A ad i0 t p a (some e) v s ∧ Given s.data.sd p a) ?_ ?_ hr
    · intro h
      simp only [Core.init, St.stk, upd] at h
      split at h <;> simp at h
    · intro s l s' hr ih hs h
      by_cases h0 : .client (.ftThrew p e) ∈ s.stk t
      · obtain ⟨a, v, h1, h2⟩ := ih h0
        exact ⟨a, v, h1.mono hs, h2.mono (step_ext hs) (show tkOk _ _ from ty1_F hr h0).1⟩
      · cases l with
        | tick n => rw [step_tick _ s s' n hs] at h; exact absurd h h0
        | th u ch =>
          obtain ⟨rfl, h1, rest, h3⟩ := C37_caught hr hs h h0
          obtain ⟨a, h4, h5⟩ := ftSet_ran hr h3 (step_live hs)
          rw [h1] at h4
          exact ⟨a, _, h4.mono hs, h5.mono (step_ext hs) (ty1_top hr h3).1⟩
  refine Reach.induct (fun s : SSt α φ δ => .bodyThrew t p e ∈ s.data.sd.slog → ∃ a v, Ran A ad i0 t p a (some e) v s ∧ Given s.data.sd p a) ?_ ?_ hr h
  · intro h; simp [Core.init] at h
  · intro s l s' hr ih hs h
    by_cases h0 : .bodyThrew t p e ∈ s.data.sd.slog
    · obtain ⟨a, v, h1, h2⟩ := ih h0
      have h5 := ty5_I hr
      exact ⟨a, v, h1.mono hs, h2.mono (step_ext hs) (h5.lt _ _ (h5.threw _ _ _ h0))⟩
    · cases l with
      | tick n => rw [step_tick _ s s' n hs] at h; exact absurd h h0
      | th u ch =>
        obtain ⟨rfl, rest, h3⟩ := (C37_events hs).2 e h h0
        obtain ⟨a, v, h4, h5⟩ := key s hr (by rw [h3]; simp)
        exact ⟨a, v, h4.mono hs, h5.mono (step_ext hs) (show tkOk _ _ from ty1_top hr h3).1⟩

/-- **C33.** A call of `then` on the state `q` that returns normally has attached, to `q`, the continuation whose future it returns: the state of that
    future was made by this call, for this function and this thread id. -/
theorem C33_then (hr : SR A ad i0 s0) {t n id q : Nat} {as b : Bool} {a : α} {rest : List (Fr α φ)}
    (hst : s0.stk t = .client (SApi.futThen (some q) id as b a).entry :: rest) (hf : Frag (client A) t rest s0 n s) {l : Lbl χ}
    (hs : step (client A) s l = some s') (hend : s'.stk t = rest) (hexc : (s'.thr t).exc = none) :
    ∃ p, (s'.thr t).rv = .nat p ∧ s0.data.sd.nst ≤ p ∧ (s'.data.sd.st p).owner = .pkg ∧ (s'.data.sd.st p).req = some ⟨id, as, p, a⟩ ∧
      .attached t q p ∈ s'.data.sd.slog := by
  obtain ⟨p, h1, h2, h3⟩ := then_att hr hst hf hs hend hexc
  exact ⟨p, h1, h2.1, h2.2.2.1, h2.2.2.2, h3⟩

end

/-- `C37_returned`, `C37_threw`. -/
example : ∃ s : DSt, SR (tableApp demoOut) () 1 s ∧ (decide (.bodyRet 1 0 (.nat 5) ∈ s.data.sd.slog), (s.data.sd.st 0).owner,
    decide (.bodyThrew 1 1 (.user 3) ∈ s.data.sd.slog), (s.data.sd.st 1).owner) = (true, .pkg, true, .pkg) :=
  swit (l := demoOut) (ls := go 0 8 ++ go 1 4 ++ go 0 63 ++ go 1 26) (hnd := fun _ => none)
    (fun s => (decide (.bodyRet 1 0 (.nat 5) ∈ s.data.sd.slog), (s.data.sd.st 0).owner, decide (.bodyThrew 1 1 (.user 3) ∈ s.data.sd.slog),
      (s.data.sd.st 1).owner)) (by decide +kernel)

/-- `C33_then`. -/
example : ∃ s0 n s s' : _, SR (tableApp demoRet) () 1 s0 ∧ s0.stk 0 = .client (SApi.futThen (some 0) 0 false false 9).entry :: [.client (.app 4)] ∧
    Frag (client (tableApp demoRet)) 0 [.client (.app 4)] s0 n s ∧ step (client (tableApp demoRet)) s (.th 0 .go) = some s' ∧
    (decide (s'.stk 0 = [.client (.app 4)]), (s'.thr 0).exc, (s'.thr 0).rv, decide (.attached 0 0 1 ∈ s'.data.sd.slog)) = (true, none, .nat 1, true) :=
  sfragWit (l := demoRet) (ls1 := go 0 25) (ls2 := go 0 19) (hnd := fun _ => none)
    (obs := fun _ _ _ s' => (decide (s'.stk 0 = [.client (.app 4)]), (s'.thr 0).exc, (s'.thr 0).rv, decide (.attached 0 0 1 ∈ s'.data.sd.slog)))
    (by decide +kernel)

end Itc
