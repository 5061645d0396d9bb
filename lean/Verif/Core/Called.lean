import Verif.Core.TopOnly
import Verif.Core.Frag
import Verif.Props.Results

/-!
# Frames that wait for a call (proof infrastructure, no claims)

A client frame may carry the first program point of the call whose continuation it is.  If such frames get on a stack by that call
only, then every occurrence of one on a stack comes with the execution of the call, from that program point on.
-/
namespace Itc
namespace Core
section
variable {τ φ δ χ : Type} {C : Client τ φ δ χ} {d : δ} {f0 : φ} {s s' : St τ φ δ}

/-- What is required of an action: see `Waits`. -/
def WAct (W : φ → Option (Frame τ φ)) : Act τ φ → Prop
  | .goto g => W g = none
  | .push g k => W g = none ∧ ∀ x, W k = some x → x = .client g
  | .call a k => (∀ x, W k = some x → x = .core a.entry) ∧ ApiOK (fun _ g => W g = none) (fun _ => True) a
  | _ => True

/-- `W k = some a`: the frame `k` is the continuation of the call that begins at `a`, and of nothing else. -/
structure Waits (C : Client τ φ δ χ) (f0 : φ) where
  W : φ → Option (Frame τ φ)
  init : W f0 = none
  run : ∀ k, W (C.run k) = none
  destroy : ∀ k, W (C.destroy k) = none
  act : ∀ {v d f rv ch d' a}, C.step v d f rv ch = some (d', a) → WAct W a
  throw : ∀ {f e f'}, C.onThrow f e = some f' → W f' = none

/-- In `s0` thread `t` has just called `a` with continuation `k :: rest`: the caller was at program point `f`, in state `sp`. -/
def CalledAt (C : Client τ φ δ χ) (d : δ) (f0 : φ) (t : Nat) (a : Frame τ φ) (k : φ) (rest : List (Frame τ φ)) (sp s0 : St τ φ δ) (f : φ) : Prop :=
  Reach C d f0 sp ∧ sp.stk t = .client f :: rest ∧ s0.stk t = a :: .client k :: rest ∧
    ∃ ch b, step C sp (.th t ch) = some s0 ∧ C.step (sp.view t) sp.data f (sp.thr t).rv ch = some (s0.data, b) ∧ b.cont = some k

/-- The call `a` with continuation `k :: rest` is under way in `s`. -/
def InCall (C : Client τ φ δ χ) (d : δ) (f0 : φ) (t : Nat) (a : Frame τ φ) (k : φ) (rest : List (Frame τ φ)) (s : St τ φ δ) : Prop :=
  ∃ sp s0 f n, CalledAt C d f0 t a k rest sp s0 f ∧ Frag C t (.client k :: rest) s0 n s

theorem CalledAt.reach {t : Nat} {a : Frame τ φ} {k f : φ} {rest : List (Frame τ φ)} {sp s0 : St τ φ δ} (h : CalledAt C d f0 t a k rest sp s0 f) :
    Reach C d f0 s0 := by
  obtain ⟨h1, -, -, ch, b, h2, -⟩ := h
  exact h1.step h2

theorem run_app (ls ls' : List (Lbl χ)) : Core.run C s (ls ++ ls') = (Core.run C s ls).bind fun x => Core.run C x ls' := by
  induction ls generalizing s with
  | nil => rfl
  | cons l ls ih =>
    simp only [List.cons_append, Core.run]
    split
    · rfl
    · exact ih

/-- `s'` is reached from `s`. -/
def Later (C : Client τ φ δ χ) (s s' : St τ φ δ) : Prop := ∃ ls, Core.run C s ls = some s'

theorem Later.refl : Later C s s := ⟨[], rfl⟩

theorem Later.snoc {s'' : St τ φ δ} {l : Lbl χ} (h : Later C s s') (hs : step C s' l = some s'') : Later C s s'' := by
  obtain ⟨ls, h⟩ := h
  exact ⟨ls ++ [l], by rw [run_app, h]; simp [Core.run, hs]⟩

theorem Later.trans {s'' : St τ φ δ} (h : Later C s s') (h' : Later C s' s'') : Later C s s'' := by
  obtain ⟨ls, h⟩ := h
  obtain ⟨ls', h'⟩ := h'
  exact ⟨ls ++ ls', by rw [run_app, h]; exact h'⟩

theorem Later.ind {P : St τ φ δ → Prop} (hP : ∀ {s l s'}, step C s l = some s' → P s → P s') (h : Later C s s') (h0 : P s) : P s' := by
  obtain ⟨ls, h⟩ := h
  induction ls generalizing s with
  | nil => cases h; exact h0
  | cons l ls ih =>
    simp only [Core.run] at h
    split at h
    · contradiction
    · rename_i s1 hs; exact ih (hP hs h0) h

theorem Later.log (h : Later C s s') : ∃ es, s'.log = es ++ s.log :=
  h.ind (P := fun x => ∃ es, x.log = es ++ s.log) (by
    rintro s1 l s2 hs ⟨es, h⟩
    obtain ⟨es', h'⟩ := step_grow hs
    exact ⟨es' ++ es, by rw [h', h, List.append_assoc]⟩) ⟨[], rfl⟩

theorem Later.mem (h : Later C s s') {e : Ev τ} (he : e ∈ s.log) : e ∈ s'.log := by
  obtain ⟨es, h⟩ := h.log
  rw [h]; simp [he]

theorem Frag.later {t n : Nat} {rest : List (Frame τ φ)} (h : Frag C t rest s n s') : Later C s s' := by
  induction h with
  | here f h => exact .refl
  | next l pre f h hs hst hno ih => exact ih.snoc hs
  | start l pre f h hs hst hlen c k hlog ih => exact ih.snoc hs

/-- The call `a` with continuation `k :: rest` has ended, by the step from `s1` to `s2`; nothing else happened on the thread since. -/
def AfterCall (C : Client τ φ δ χ) (d : δ) (f0 : φ) (t : Nat) (a : Frame τ φ) (k : φ) (rest : List (Frame τ φ)) (s : St τ φ δ) : Prop :=
  ∃ sp s0 f n s1 l s2, CalledAt C d f0 t a k rest sp s0 f ∧ Frag C t (.client k :: rest) s0 n s1 ∧
    step C s1 l = some s2 ∧ s2.stk t = .client k :: rest ∧ Later C s2 s ∧
    (s.term = false → (s.thr t).exc = (s2.thr t).exc ∧ (s.thr t).rv = (s2.thr t).rv ∧ (s.thr t).loc = (s2.thr t).loc)

theorem AfterCall.mono {t : Nat} {a : Frame τ φ} {k : φ} {rest : List (Frame τ φ)} (h : AfterCall C d f0 t a k rest s) {l : Lbl χ}
    (hs : step C s l = some s') (hterm : s'.term = false → s.term = false ∧ (s'.thr t).exc = (s.thr t).exc ∧ (s'.thr t).rv = (s.thr t).rv ∧
      (s'.thr t).loc = (s.thr t).loc) : AfterCall C d f0 t a k rest s' := by
  obtain ⟨sp, s0, f, n, s1, l1, s2, h1, h3, h4, h5, h6, h7⟩ := h
  refine ⟨sp, s0, f, n, s1, l1, s2, h1, h3, h4, h5, h6.snoc hs, ?_⟩
  intro ht
  obtain ⟨ha, hb, hc, hd⟩ := hterm ht
  rw [hb, hc, hd]
  exact h7 ha

/-- What is required of an action: see `Calls`. -/
def CAct (isW : φ → Prop) (ok : φ → Frame τ φ → Prop) : Act τ φ → Prop
  | .goto g => ¬ isW g
  | .push g k => ¬ isW g ∧ (isW k → ok k (.client g))
  | .call a k => (isW k → ok k (.core a.entry)) ∧ ApiOK (fun _ g => ¬ isW g) (fun _ => True) a
  | _ => True

/-- The frames `isW` get on a stack only as the continuation of a call, which begins at a frame `a` with `ok k a`. -/
structure Calls (C : Client τ φ δ χ) (f0 : φ) where
  isW : φ → Prop
  ok : φ → Frame τ φ → Prop
  init : ¬ isW f0
  run : ∀ k, ¬ isW (C.run k)
  destroy : ∀ k, ¬ isW (C.destroy k)
  act : ∀ {v d f rv ch d' a}, C.step v d f rv ch = some (d', a) → CAct isW ok a
  throw : ∀ {f e f'}, C.onThrow f e = some f' → ¬ isW f'

theorem Calls.sound (w : Calls C f0) (hr : Reach C d f0 s) {t : Nat} {pre : List (Frame τ φ)} {k : φ} {rest : List (Frame τ φ)}
    (hst : s.stk t = pre ++ .client k :: rest) (hk : w.isW k) :
    ∃ a, w.ok k a ∧ (pre ≠ [] ∧ InCall C d f0 t a k rest s ∨ pre = [] ∧ AfterCall C d f0 t a k rest s) := by
  refine Reach.induct (fun s : St τ φ δ => ∀ t pre k rest, s.stk t = pre ++ .client k :: rest → w.isW k →
    ∃ a, w.ok k a ∧ (pre ≠ [] ∧ InCall C d f0 t a k rest s ∨ pre = [] ∧ AfterCall C d f0 t a k rest s)) ?_ ?_ hr t pre k rest hst hk
  · intro t pre k rest hst hk
    exfalso
    by_cases h1 : t = 0
    · subst h1
      simp only [Core.init, St.stk, upd_same] at hst
      cases pre with
      | nil => simp at hst; obtain ⟨rfl, -⟩ := hst; exact w.init hk
      | cons x pre => have := congrArg List.length hst; simp at this
    · simp [Core.init, St.stk, upd_ne _ _ h1] at hst
  clear hst hk hr
  intro s l s' hr q hs t pre k rest hst hk
  have hr' := hr.step hs
  have grow : ∀ {a}, InCall C d f0 t a k rest s → pre ≠ [] → InCall C d f0 t a k rest s' := by
    rintro a ⟨sp, s0, f, n, h1, h3⟩ hp
    obtain ⟨ys, y, rfl⟩ : ∃ ys y, pre = ys ++ [y] := ⟨pre.dropLast, pre.getLast hp, (List.dropLast_concat_getLast hp).symm⟩
    obtain ⟨m, h4⟩ := h3.snoc hs (pre := ys) (f := y) (by rw [hst]; simp)
    exact ⟨sp, s0, f, m, h1, h4⟩
  have done : ∀ {a}, InCall C d f0 t a k rest s → pre = [] → AfterCall C d f0 t a k rest s' := by
    rintro a ⟨sp, s0, f, n, h1, h3⟩ rfl
    exact ⟨sp, s0, f, n, s, l, s', h1, h3, hs, hst, .refl, fun _ => ⟨rfl, rfl, rfl⟩⟩
  have fromIn : ∀ {a}, InCall C d f0 t a k rest s → pre ≠ [] ∧ InCall C d f0 t a k rest s' ∨ pre = [] ∧ AfterCall C d f0 t a k rest s' := by
    intro a h
    by_cases hp : pre = []
    · exact .inr ⟨hp, done h hp⟩
    · exact .inl ⟨hp, grow h hp⟩
  have same : s'.stk t = s.stk t → (s'.term = false → s.term = false ∧ (s'.thr t).exc = (s.thr t).exc ∧ (s'.thr t).rv = (s.thr t).rv ∧
      (s'.thr t).loc = (s.thr t).loc) →
      ∃ a, w.ok k a ∧ (pre ≠ [] ∧ InCall C d f0 t a k rest s' ∨ pre = [] ∧ AfterCall C d f0 t a k rest s') := by
    intro h1 h2
    obtain ⟨a, ha, ⟨h3, h4⟩ | ⟨h3, h4⟩⟩ := q t pre k rest (h1 ▸ hst) hk
    · exact ⟨a, ha, .inl ⟨h3, grow h4 h3⟩⟩
    · exact ⟨a, ha, .inr ⟨h3, h4.mono hs h2⟩⟩
  have noterm : s.term = false := by
    cases l <;> simp only [step] at hs <;> split at hs <;> simp_all
  cases l with
  | tick n => exact same (by rw [step_tick _ s s' n hs]; rfl) (fun _ => ⟨noterm, by rw [step_tick _ s s' n hs], by rw [step_tick _ s s' n hs], by rw [step_tick _ s s' n hs]⟩)
  | th u ch =>
    by_cases hu : t = u
    · subst hu
      have old : ∀ {top r0 new}, s.stk t = top :: r0 → s'.stk t = new ++ r0 → (∀ p, new ≠ pre ++ .client k :: p) →
          ∃ a, w.ok k a ∧ (pre ≠ [] ∧ InCall C d f0 t a k rest s' ∨ pre = [] ∧ AfterCall C d f0 t a k rest s') := by
        intro top r0 new h1 h2 h3
        rw [hst] at h2
        rcases split_at h2.symm with ⟨p, h, -⟩ | ⟨p, rfl, hp⟩
        · exact absurd h (h3 p)
        · obtain ⟨a, ha, ⟨-, h4⟩ | ⟨h4, -⟩⟩ := q t (top :: p) k rest (by rw [h1, hp]; rfl) hk
          · exact ⟨a, ha, fromIn h4⟩
          · cases h4
      have one : ∀ {x : φ}, ¬ w.isW x → ∀ p, [Frame.client x] ≠ pre ++ .client k :: p := by
        intro x hx p h
        cases pre with
        | nil => simp at h; obtain ⟨rfl, -⟩ := h; exact hx hk
        | cons y pre => have := congrArg List.length h; simp at this
      have no : ∀ p, ([] : List (Frame τ φ)) ≠ pre ++ .client k :: p := by intro p h; simp at h
      have code := Codes.reach (P := fun g => ¬ w.isW g) (fun h => (w.act h).2) hr
      cases step_cl hs with
      | halt e hexc hst' hterm => exact same hst' (fun h => by rw [hterm] at h; cases h)
      | fin hold hst' => rw [hst'] at hst; simp at hst
      | task e f k' r0 hexc hold hf hst' hexc' =>
        refine old (new := [_, _]) hold hst' ?_
        intro p hp
        cases pre with
        | nil => simp at hp; obtain ⟨rfl, -⟩ := hp; exact absurd hk (w.destroy _)
        | cons y pre =>
          cases pre with
          | nil => simp at hp
          | cons z pre => have := congrArg List.length hp; simp at this
      | cpop e f r0 hexc hold hf hst' => exact old (new := []) hold hst' no
      | «catch» e g g' r0 hexc hold hg hst' => exact old (new := [_]) hold hst' (one (w.throw hg))
      | pop e g r0 hexc hold hg hst' => exact old (new := []) hold hst' no
      | core f r0 hexc hold hcs hdata hcore =>
        have hcode := code.code t f (by rw [hold]; simp)
        cases hcs with
        | «to» new h hst' hexc' hrv =>
          refine old hold hst' ?_
          intro p hp
          obtain rfl := h.head hp
          have : ¬ w.isW k := by
            cases h <;> simp only [List.nil_append, List.cons.injEq, Frame.client.injEq, reduceCtorEq, false_and] at hp <;>
              first
              | (rw [← hp.1]; first | exact w.run _ | exact w.destroy _ | done)
              | (rw [← hp.1]; exact code.cb _ (by assumption))
              | (rw [← hp.1]; exact hcode _ (by simp) 0)
          exact absurd hk this
        | pop v h hst' => exact old (new := []) hold hst' no
        | rethrow e h hst' => exact old (new := []) hold hst' no
        | ub h hst' he =>
          obtain ⟨a, ha, ⟨h3, h4⟩ | ⟨h3, h4⟩⟩ := q t pre k rest (hst' ▸ hst) hk
          · exact ⟨a, ha, .inl ⟨h3, grow h4 h3⟩⟩
          · rw [hst', h3, List.nil_append, hold] at hst; simp at hst
      | cl f r0 d' b hexc hold hstep hdata hact =>
        cases b with
        | goto y => exact old (new := [_]) hold hact.1 (one (w.act hstep))
        | push y z =>
          by_cases hp : pre = [.client y] ∧ z = k ∧ rest = r0
          · obtain ⟨rfl, rfl, rfl⟩ := hp
            exact ⟨_, (w.act hstep).2 hk, .inl ⟨by simp, s, s', f, 0, ⟨hr, hold, hst, ch, _, hs, by rw [hdata]; exact hstep, rfl⟩, .here _ hst⟩⟩
          · refine old (new := [_, _]) hold hact.1 ?_
            intro p hp'
            have hst2 := hact.1
            cases pre with
            | nil => simp at hp'; obtain ⟨rfl, -⟩ := hp'; exact absurd hk (w.act hstep).1
            | cons x pre =>
              cases pre with
              | nil =>
                simp at hp'
                obtain ⟨rfl, rfl, rfl⟩ := hp'
                rw [hst] at hst2
                simp at hst2
                exact hp ⟨rfl, rfl, hst2⟩
              | cons z pre => have := congrArg List.length hp'; simp at this
        | call b y =>
          by_cases hp : pre = [.core b.entry] ∧ y = k ∧ rest = r0
          · obtain ⟨rfl, rfl, rfl⟩ := hp
            exact ⟨_, (w.act hstep).1 hk, .inl ⟨by simp, s, s', f, 0, ⟨hr, hold, hst, ch, _, hs, by rw [hdata]; exact hstep, rfl⟩, .here _ hst⟩⟩
          · refine old (new := [_, _]) hold hact.1 ?_
            intro p hp'
            have hst2 := hact.1
            cases pre with
            | nil => simp at hp'
            | cons x pre =>
              cases pre with
              | nil =>
                simp at hp'
                obtain ⟨rfl, rfl, rfl⟩ := hp'
                rw [hst] at hst2
                simp at hst2
                exact hp ⟨rfl, rfl, hst2⟩
              | cons z pre => have := congrArg List.length hp'; simp at this
        | ret v => exact old (new := []) hold hact.1 no
        | throw e => exact old (new := []) hold hact.1 no
        | terminate => exact same hact.1 (fun h => by rw [hact.2.1] at h; cases h)
    · rcases step_oth (FreeOK.reach hr) hu hs with ⟨h1, -⟩ | ⟨f, r, h2, -, -, h3, -⟩
      · refine same h1 (fun _ => ⟨noterm, ?_⟩)
        have h5 := step_thr_other (FreeOK.reach hr) hu (by rw [← h1, hst]; simp) hs
        exact ⟨h5.2.2.1, h5.2.1, h5.2.2.2⟩
      · exfalso
        rw [h3] at hst
        cases pre with
        | nil =>
          simp at hst
          obtain ⟨rfl, -⟩ := hst
          have code := Codes.reach (P := fun g => ¬ w.isW g) (fun h => (w.act h).2) hr
          have := code.code u (.spawnIn t f) (by rw [h2]; simp)
          exact absurd hk (this 0)
        | cons x pre => have := congrArg List.length hst; simp at this

def Waits.calls (w : Waits C f0) : Calls C f0 where
  isW k := (w.W k).isSome
  ok k a := w.W k = some a
  init := by rw [w.init]; simp
  run k := by rw [w.run]; simp
  destroy k := by rw [w.destroy]; simp
  act h := by
    rename_i a
    have hn : ∀ g, w.W g = none ↔ ¬ (w.W g).isSome = true := fun g => by simp
    have := w.act h
    cases a with
    | goto g => exact (hn g).1 this
    | push g k => exact ⟨(hn g).1 this.1, fun hk => by obtain ⟨x, hx⟩ := Option.isSome_iff_exists.1 hk; rw [hx, this.2 x hx]⟩
    | call a k =>
      refine ⟨fun hk => by obtain ⟨x, hx⟩ := Option.isSome_iff_exists.1 hk; rw [hx, this.1 x hx], ?_⟩
      have h2 := this.2
      simp only [hn] at h2
      exact h2
    | _ => trivial
  throw h := by rw [w.throw h]; simp

theorem Waits.sound (w : Waits C f0) (hr : Reach C d f0 s) {t : Nat} {pre : List (Frame τ φ)} {k : φ} {rest : List (Frame τ φ)} {a : Frame τ φ}
    (hst : s.stk t = pre ++ .client k :: rest) (hk : w.W k = some a) :
    pre ≠ [] ∧ InCall C d f0 t a k rest s ∨ pre = [] ∧ AfterCall C d f0 t a k rest s := by
  obtain ⟨a', h1, h2⟩ := w.calls.sound hr hst (by simp [Waits.calls, hk])
  cases hk.symm.trans h1
  exact h2

/-- What `register_thread` has returned is the id under which the native thread is registered. -/
theorem AfterCall.reg {t : Nat} {a : Frame τ φ} {k : φ} {rest : List (Frame τ φ)} (h : AfterCall C d f0 t a k rest s) {m : Option Nat}
    (ha : a = .core (.regLook m)) (hterm : s.term = false) :
    ∃ id c, (s.thr t).rv = .nat id ∧ id ≠ 0 ∧ Ev.registered c id (m.getD t) ∈ s.log ∧ Ev.regRes t (m.getD t) id ∈ s.log := by
  obtain ⟨sp, s0, f, n, s1, l1, s2, h1, h3, h4, h5, h6, h7⟩ := h
  obtain ⟨id, x, y, hrv, h0, hlog, hreg⟩ := C02_call h1.reach (by rw [h1.2.2.1, ha]) h3 h4 h5
  obtain ⟨c, hc⟩ := regOf_mem hreg
  refine ⟨id, c, (h7 hterm).2.1.trans hrv, h0, h6.mem ?_, h6.mem ?_⟩
  · rw [hlog]; simp at hc ⊢; grind
  · rw [hlog]; simp

/-- A phase predicate for calls of client functions (with the frames `rest` below). -/
structure LPh (C : Client τ φ δ χ) (d : δ) (f0 : φ) (t : Nat) (rest : List (Frame τ φ)) (Φ : φ → St τ φ δ → Prop) (R : Val → St τ φ δ → Prop) : Prop where
  mono : ∀ {s s' f l}, Reach C d f0 s → step C s l = some s' → Φ f s → (∃ pre, s.stk t = pre ++ .client f :: rest) →
    (∃ pre, s'.stk t = pre ++ .client f :: rest) → (s.stk t = .client f :: rest → ∀ ch, l ≠ .th t ch) → Φ f s'
  cl : ∀ {s s' f ch d' a}, Reach C d f0 s → s.stk t = .client f :: rest → (s.thr t).exc = none → Φ f s → step C s (.th t ch) = some s' →
    C.step (s.view t) s.data f (s.thr t).rv ch = some (d', a) → s'.data = d' →
    match a with
    | .goto g => s'.stk t = .client g :: rest → Φ g s'
    | .push x k => s'.stk t = .client x :: .client k :: rest → Φ k s'
    | .call x k => s'.stk t = .core x.entry :: .client k :: rest → Φ k s'
    | .ret v => R v s'
    | _ => True
  thr : ∀ {s s' f e g ch}, Reach C d f0 s → Φ f s → C.onThrow f e = some g → step C s (.th t ch) = some s' → s'.data = s.data → Φ g s'

theorem LPh.own {t : Nat} {Φ : φ → St τ φ δ → Prop} {R : Val → St τ φ δ → Prop} {rest : List (Frame τ φ)} (P : LPh C d f0 t rest Φ R) {s s' : St τ φ δ} {f : φ}
    {ch : Ch χ} (hr : Reach C d f0 s) (hst : s.stk t = .client f :: rest) (hΦ : Φ f s) (hs : step C s (.th t ch) = some s') :
    (s'.stk t = rest ∧ ((s'.thr t).exc = none → R (s'.thr t).rv s')) ∨ ∃ pre g, s'.stk t = pre ++ .client g :: rest ∧ (s'.term = true ∨ Φ g s') := by
  cases step_cl hs with
  | cl f' r' d' a hexc hold hstep hdata hact =>
    rw [hst] at hold; cases hold
    have h := P.cl hr hst hexc hΦ hs hstep hdata
    cases a with
    | goto y => exact .inr ⟨[], y, hact.1, .inr (h hact.1)⟩
    | push y z => exact .inr ⟨[_], z, hact.1, .inr (h hact.1)⟩
    | call y z => exact .inr ⟨[_], z, hact.1, .inr (h hact.1)⟩
    | ret v => exact .inl ⟨hact.1, fun _ => by rw [hact.2.2]; exact h⟩
    | throw e => exact .inl ⟨hact.1, fun hn => by rw [hact.2] at hn; cases hn⟩
    | terminate => exact .inr ⟨[], f, by rw [hact.1, hst]; rfl, .inl hact.2.1⟩
  | core f' r' hexc hold => rw [hst] at hold; cases hold
  | halt e hexc hst' hterm => exact .inr ⟨[], f, by rw [hst', hst]; rfl, .inl hterm⟩
  | task e f' k r' hexc hold => rw [hst] at hold; cases hold
  | cpop e f' r' hexc hold => rw [hst] at hold; cases hold
  | «catch» e g g' r' hexc hold hg hst' hexc' hdata => rw [hst] at hold; cases hold; exact .inr ⟨[], g', hst', .inr (P.thr hr hΦ hg hs hdata)⟩
  | pop e g r' hexc hold hg hst' hexc' => rw [hst] at hold; cases hold; exact .inl ⟨hst', fun hn => by rw [hexc'] at hn; cases hn⟩
  | fin hold => rw [hst] at hold; cases hold

theorem LPh.frag {t n : Nat} {Φ : φ → St τ φ δ → Prop} {R : Val → St τ φ δ → Prop} {rest : List (Frame τ φ)} (P : LPh C d f0 t rest Φ R) {s0 s : St τ φ δ} {f : φ}
    (hr : Reach C d f0 s0) (hst : s0.stk t = .client f :: rest) (h0 : Φ f s0) (hf : Frag C t rest s0 n s) :
    ∃ pre g, s.stk t = pre ++ .client g :: rest ∧ (s.term = true ∨ Φ g s) := by
  have live : ∀ {s l s'}, step C s l = some s' → s.term = false := by
    intro s l s' hs
    cases l <;> simp only [step] at hs <;> split at hs <;> simp_all
  obtain ⟨pre, f', h1, g, rfl, h2⟩ := Frag.ind' (fun _ f s => ∃ g, f = .client g ∧ (s.term = true ∨ Φ g s)) hr (by
      intro f' hf'
      rw [hst] at hf'
      cases hf'
      exact ⟨_, rfl, .inr h0⟩) (by
      rintro s1 n f1 ch s2 pre f2 hr1 h1 ⟨g, rfl, hg⟩ hs h2
      have hg := hg.resolve_left (by rw [live hs]; simp)
      have : ∃ g, f2 = .client g ∧ (s2.term = true ∨ Φ g s2) := by
        rcases P.own hr1 h1 hg hs with ⟨h, -⟩ | ⟨p, g', h, hg'⟩
        · exact absurd (h.symm.trans h2) top_ne
        · obtain ⟨-, rfl⟩ := top_uniq (h2.symm.trans h)
          exact ⟨_, rfl, hg'⟩
      exact ⟨fun _ => this, fun _ => this⟩) (by
      rintro s1 n f1 l s2 hr1 ⟨g, rfl, hg⟩ hs h1 h2 h3
      exact ⟨g, rfl, .inr (P.mono hr1 hs (hg.resolve_left (by rw [live hs]; simp)) h1 h2 h3)⟩) hf
  exact ⟨pre, g, h1, h2⟩

theorem LPh.fin {t n : Nat} {Φ : φ → St τ φ δ → Prop} {R : Val → St τ φ δ → Prop} {rest : List (Frame τ φ)} (P : LPh C d f0 t rest Φ R) {s0 s s' : St τ φ δ} {f : φ}
    {l : Lbl χ} (hr : Reach C d f0 s0) (hst : s0.stk t = .client f :: rest) (h0 : Φ f s0) (hf : Frag C t rest s0 n s)
    (hs : step C s l = some s') (hend : s'.stk t = rest) (hexc : (s'.thr t).exc = none) : R (s'.thr t).rv s' := by
  obtain ⟨pre, g, h1, h2⟩ := P.frag hr hst h0 hf
  have hr1 := hf.reach hr
  have hne : s.stk t ≠ [] := by rw [h1]; simp
  have h2 := h2.resolve_left (by cases l <;> simp only [step] at hs <;> split at hs <;> simp_all)
  cases l with
  | tick m => rw [step_tick _ s s' m hs] at hend; exact absurd (hend.symm.trans h1) top_ne
  | th u ch =>
    by_cases hu : u = t
    · subst hu
      cases pre with
      | nil =>
        rcases P.own hr1 h1 h2 hs with ⟨-, h⟩ | ⟨p, g', h, -⟩
        · exact h hexc
        · exact absurd (hend.symm.trans h) top_ne
      | cons x pre =>
        obtain ⟨new, hn⟩ := step_stk_self hs (g := x) (r := pre ++ .client g :: rest) (by simpa using h1)
        rw [← List.append_assoc] at hn
        exact absurd (hend.symm.trans hn) top_ne
    · rw [step_stk_other hu (FreeOK.reach hr1) hs hne] at hend
      exact absurd (hend.symm.trans h1) top_ne

/-- Frame `k` (above `rest`) has called `a`: the call is running, or it has ended and nothing else happened on the thread since. -/
def Nest (C : Client τ φ δ χ) (d : δ) (f0 : φ) (t : Nat) (a : Frame τ φ) (k : φ) (rest : List (Frame τ φ)) (s : St τ φ δ) : Prop :=
  ∃ s0 n, Reach C d f0 s0 ∧ s0.stk t = a :: .client k :: rest ∧
    (Frag C t (.client k :: rest) s0 n s ∨
      ∃ s1 l s2, Frag C t (.client k :: rest) s0 n s1 ∧ step C s1 l = some s2 ∧ s2.stk t = .client k :: rest ∧ Later C s2 s ∧
        s.stk t = .client k :: rest ∧ (s.thr t).exc = (s2.thr t).exc ∧ (s.thr t).rv = (s2.thr t).rv)

theorem Nest.start {t : Nat} {a : Frame τ φ} {k : φ} {rest : List (Frame τ φ)} (hr : Reach C d f0 s) (hst : s.stk t = a :: .client k :: rest) :
    Nest C d f0 t a k rest s := ⟨s, 0, hr, hst, .inl (.here _ hst)⟩

theorem Nest.mono {t : Nat} {a : Frame τ φ} {k : φ} {rest : List (Frame τ φ)} {l : Lbl χ} (hr : Reach C d f0 s) (h : Nest C d f0 t a k rest s)
    (hs : step C s l = some s') (h2 : ∃ pre, s'.stk t = pre ++ .client k :: rest) (h3 : s.stk t = .client k :: rest → ∀ ch, l ≠ .th t ch) :
    Nest C d f0 t a k rest s' := by
  obtain ⟨s0, n, h4, h5, h6⟩ := h
  rcases h6 with h6 | ⟨s1, l1, s2, h6, h7, h8, h9, h10, h11, h12⟩
  · obtain ⟨pre, h2⟩ := h2
    by_cases hp : pre = []
    · subst hp
      exact ⟨s0, n, h4, h5, .inr ⟨s, l, s', h6, hs, h2, .refl, h2, rfl, rfl⟩⟩
    · obtain ⟨ys, y, rfl⟩ : ∃ ys y, pre = ys ++ [y] := ⟨pre.dropLast, pre.getLast hp, (List.dropLast_concat_getLast hp).symm⟩
      obtain ⟨m, h8⟩ := h6.snoc hs (pre := ys) (f := y) (by rw [h2]; simp)
      exact ⟨s0, m, h4, h5, .inl h8⟩
  · have hl := h3 h10
    refine ⟨s0, n, h4, h5, .inr ⟨s1, l1, s2, h6, h7, h8, h9.snoc hs, ?_⟩⟩
    cases l with
    | tick n => rw [step_tick _ s s' n hs]; exact ⟨h10, h11, h12⟩
    | th u ch =>
      have hu : t ≠ u := fun h => hl ch (by rw [h])
      have h8 := step_stk_other (Ne.symm hu) (FreeOK.reach hr) hs (by rw [h10]; simp)
      have h9 := step_thr_other (FreeOK.reach hr) hu (by rw [h10]; simp) hs
      exact ⟨h8.trans h10, h9.2.2.1.trans h11, h9.2.1.trans h12⟩

/-- When the frame has the control again, the call has ended. -/
theorem Nest.ended {t : Nat} {a : Frame τ φ} {k : φ} {rest : List (Frame τ φ)} (h : Nest C d f0 t a k rest s) (hst : s.stk t = .client k :: rest) :
    ∃ s0 n s1 l s2, Reach C d f0 s0 ∧ s0.stk t = a :: .client k :: rest ∧ Frag C t (.client k :: rest) s0 n s1 ∧ step C s1 l = some s2 ∧
      s2.stk t = .client k :: rest ∧ Later C s2 s ∧ (s.thr t).exc = (s2.thr t).exc ∧ (s.thr t).rv = (s2.thr t).rv := by
  obtain ⟨s0, n, h4, h5, h6⟩ := h
  rcases h6 with h6 | ⟨s1, l1, s2, h6, h7, h8, h9, h10, h11, h12⟩
  · have : ∃ pre f, s.stk t = pre ++ f :: .client k :: rest := by
      cases h6 with
      | here f h => exact ⟨[], f, h⟩
      | next l pre f _ _ h _ => exact ⟨pre, f, h⟩
      | start l pre f _ _ h _ _ _ _ => exact ⟨pre, f, h⟩
    obtain ⟨pre, f, h8⟩ := this
    exact absurd (hst.symm.trans h8) top_ne
  · exact ⟨s0, n, s1, l1, s2, h4, h5, h6, h7, h8, h9, h11, h12⟩

end
end Core
end Itc
