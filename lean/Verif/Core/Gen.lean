import Verif.Core.Cl

/-!
# Invariants of client code (proof infrastructure, no claims)

Three generic induction principles over the executions of an arbitrary client:
`Typing` (a fact about every client frame and every task object), `Stacking` (which frame may be directly above which) and
`Counting` (a weight of frames, summed over each thread's stack, equals a quantity of the client's data).
-/
namespace Itc
namespace Core
section
variable {τ φ δ χ : Type}

theorem Reach.stk_oth {C : Client τ φ δ χ} {d : δ} {f : φ} {s s' : St τ φ δ} {t u : Nat} {ch : Ch χ} (hr : Reach C d f s)
    (hu : u ≠ t) (hs : Core.step C s (.th t ch) = some s') :
    (s'.stk u = s.stk u ∧ ((s'.thr u).exc = (s.thr u).exc ∨ (s'.thr u).exc = none)) ∨
      ∃ f rest, s.stk t = .core (.spawnIn u f) :: rest ∧ (s.thr t).exc = none ∧ s.stk u = [] ∧ s'.stk u = [.client f] ∧
        (s'.thr u).exc = none := step_oth (FreeOK.reach hr) hu hs

/-! ## Typing -/

def ApiOK (PF : Nat → φ → Prop) (PT : τ → Prop) : Api τ φ → Prop
  | .invoke _ k => PT k
  | .invokePackaged _ k => PT k
  | .dispatch _ k => PT k
  | .init cb => ∀ f ∈ cb, ∀ u, PF u f
  | .spawn _ f => ∀ u, PF u f
  | _ => True

def ActOK (PF : Nat → φ → Prop) (PT : τ → Prop) (t : Nat) : Act τ φ → Prop
  | .goto f => PF t f
  | .push g f => PF t g ∧ PF t f
  | .call a f => PF t f ∧ ApiOK PF PT a
  | _ => True

def CFOK (PF : Nat → φ → Prop) (PT : τ → Prop) : CF τ φ → Prop
  | .invLook _ k _ => PT k
  | .invPush _ k => PT k
  | .dispatch _ k => PT k
  | .dispRan k => PT k
  | .ran _ k _ => PT k
  | .destroyList _ l _ _ => ∀ k ∈ l, PT k
  | .initIn cb => ∀ f ∈ cb, ∀ u, PF u f
  | .initCfg cb => ∀ f ∈ cb, ∀ u, PF u f
  | .spawnIn _ f => ∀ u, PF u f
  | _ => True

def FrTy (PF : Nat → φ → Prop) (PT : τ → Prop) (t : Nat) : Frame τ φ → Prop
  | .client f => PF t f
  | .core f => CFOK PF PT f

/-- A fact `PF` about every client frame and `PT` about every task object, given an invariant `I` of the data.
    `J` is an invariant already established. -/
structure Typing (C : Client τ φ δ χ) (J : St τ φ δ → Prop) where
  I : δ → Prop
  PF : δ → Nat → φ → Prop
  PT : δ → τ → Prop
  step : ∀ {s : St τ φ δ} {t : Nat} {ch : Ch χ} {f : φ} {rest : List (Frame τ φ)} {d' : δ} {a : Act τ φ}, J s →
    (s.thr t).exc = none → s.stk t = .client f :: rest → I s.data → PF s.data t f →
    C.step (s.view t) s.data f (s.thr t).rv ch = some (d', a) →
    I d' ∧ (∀ u g, PF s.data u g → PF d' u g) ∧ (∀ k, PT s.data k → PT d' k) ∧ ActOK (PF d') (PT d') t a
  task : ∀ {d k}, PT d k → ∀ t, PF d t (C.run k) ∧ PF d t (C.destroy k)
  throw : ∀ {s : St τ φ δ} {t f rest e f'}, J s → s.stk t = .client f :: rest → (s.thr t).exc = some e → PF s.data t f → C.onThrow f e = some f' → PF s.data t f'

structure Typing.Ok {C : Client τ φ δ χ} {J : St τ φ δ → Prop} (T : Typing C J) (s : St τ φ δ) : Prop where
  data : T.I s.data
  fr : ∀ t, ∀ f ∈ s.stk t, FrTy (T.PF s.data) (T.PT s.data) t f
  pend : ∀ c, ∀ k ∈ (s.ctxs c).pend, T.PT s.data k
  cb : ∀ f, s.logCb = some f → ∀ u, T.PF s.data u f

theorem FrTy.mono {PF PF' : Nat → φ → Prop} {PT PT' : τ → Prop} (h1 : ∀ u g, PF u g → PF' u g) (h2 : ∀ k, PT k → PT' k) {t : Nat}
    {f : Frame τ φ} (h : FrTy PF PT t f) : FrTy PF' PT' t f := by
  cases f with
  | client f => exact h1 _ _ h
  | core f => cases f <;> simp only [FrTy, CFOK] at h ⊢ <;> grind

theorem ApiOK.entry {PF : Nat → φ → Prop} {PT : τ → Prop} {a : Api τ φ} (h : ApiOK PF PT a) : CFOK PF PT a.entry := by
  cases a <;> exact h

theorem Typing.sound {C : Client τ φ δ χ} {J : St τ φ δ → Prop} (T : Typing C J) {d : δ} {f : φ}
    (hJ : ∀ s, Reach C d f s → J s) (hd : T.I d) (hf : T.PF d 0 f) {s : St τ φ δ} (h : Reach C d f s) : T.Ok s := by
  refine Reach.induct T.Ok ?_ ?_ h
  · refine ⟨hd, ?_, ?_, ?_⟩
    · intro t g hg
      by_cases ht : t = 0
      · subst ht; simp [Core.init, St.stk] at hg; subst hg; exact hf
      · simp [Core.init, St.stk, upd_ne _ _ ht] at hg
    · intro c k hk; simp [Core.init, Ctx.pend] at hk
    · intro f hf; simp [Core.init] at hf
  · intro s l s' hr q hs
    cases l with
    | tick n => rw [step_tick C s s' n hs]; exact ⟨q.data, q.fr, q.pend, q.cb⟩
    | th t ch =>
      have hpend : ∀ c, ∀ k ∈ (s'.ctxs c).pend, T.PT s.data k := by
        intro c k hk
        rcases step_pend (step_eff C s s' t ch hs) hk with h | ⟨rest, h⟩
        · exact q.pend c k h
        · have := q.fr t (.core (.invPush c k)) (by rw [h]; simp)
          simpa [FrTy, CFOK] using this
      have hcb : s'.logCb = s.logCb ∨ s'.logCb = none ∨ ∃ rest, s.stk t = .core (.initCfg s'.logCb) :: rest := by
        have h0 := hs
        simp only [Core.step] at h0
        split at h0
        · contradiction
        split at h0
        · contradiction
        split at h0
        · obtain rfl := Option.some.inj h0
          left
          unfold stepExc
          repeat' split
          all_goals rfl
        split at h0
        · obtain rfl := Option.some.inj h0; exact .inl rfl
        · rename_i f rest hst
          rcases stepCore_logCb C s s' t f rest ch h0 with h | h | h
          · exact .inl h
          · exact .inr (.inl h)
          · exact .inr (.inr ⟨rest, by rw [← h]; exact hst⟩)
        · simp only [stepClient] at h0
          split at h0
          · contradiction
          · split at h0 <;> obtain rfl := Option.some.inj h0 <;> exact .inl rfl
      have hcb' : ∀ f, s'.logCb = some f → ∀ u, T.PF s.data u f := by
        intro f hf
        rcases hcb with h | h | ⟨rest, h⟩
        · exact q.cb f (by rw [← h]; exact hf)
        · rw [h] at hf; contradiction
        · have := q.fr t (.core (.initCfg s'.logCb)) (by rw [h]; simp)
          simp only [FrTy, CFOK] at this
          exact this f hf
      have hoth : ∀ u, u ≠ t → ∀ f ∈ s'.stk u, FrTy (T.PF s.data) (T.PT s.data) u f := by
        intro u hu g hg
        rcases hr.stk_oth hu hs with ⟨h, -⟩ | ⟨f, rest, h, -, -, h2, -⟩
        · exact q.fr u g (by rw [← h]; exact hg)
        · rw [h2] at hg
          simp at hg; subst hg
          have := q.fr t (.core (.spawnIn u f)) (by rw [h]; simp)
          exact this u
      have same : s'.data = s.data → (∀ f ∈ s'.stk t, FrTy (T.PF s.data) (T.PT s.data) t f) → T.Ok s' := by
        intro h1 h2
        refine ⟨h1 ▸ q.data, ?_, h1 ▸ hpend, h1 ▸ hcb'⟩
        intro u
        rw [h1]
        by_cases hu : u = t
        · subst hu; exact h2
        · exact hoth u hu
      rcases step_cl hs with ⟨f, rest, d', a, hexc, hold, hstep, hdata, hact, -⟩ | ⟨f, rest, hexc, hold, hcs, hdata, -⟩ | ⟨e, hexc, hst, -, -, hdata, -⟩ |
        ⟨e, f, k, rest, hexc, hold, hf, hst, -, hdata, -⟩ | ⟨e, f, rest, hexc, hold, hf, hst, -, hdata, -⟩ |
        ⟨e, g, g', rest, hexc, hold, hg, hst, -, hdata, -⟩ | ⟨e, g, rest, hexc, hold, hg, hst, -, hdata, -⟩ | ⟨hold, hst, -, hdata, -⟩
      · have q1 := q.fr t (.client f) (by rw [hold]; simp)
        obtain ⟨h1, h2, h3, h4⟩ := T.step (hJ s hr) hexc hold q.data q1 hstep
        rw [← hdata] at h1 h2 h3 h4
        refine ⟨h1, ?_, fun c k hk => h3 k (hpend c k hk), fun f hf u => h2 u f (hcb' f hf u)⟩
        intro u g hg
        by_cases hu : u = t
        · subst hu
          have hrest : ∀ g ∈ rest, FrTy (T.PF s'.data) (T.PT s'.data) u g := fun g hg =>
            (q.fr u g (by rw [hold]; simp [hg])).mono h2 h3
          cases a <;> simp only [ActTo] at hact
          · rw [hact.1] at hg; simp only [List.mem_cons] at hg
            rcases hg with rfl | hg
            · exact h4
            · exact hrest g hg
          · rw [hact.1] at hg; simp only [List.mem_cons] at hg
            rcases hg with rfl | rfl | hg
            · exact h4.1
            · exact h4.2
            · exact hrest g hg
          · rw [hact.1] at hg; simp only [List.mem_cons] at hg
            rcases hg with rfl | rfl | hg
            · exact h4.2.entry
            · exact h4.1
            · exact hrest g hg
          · rw [hact.1] at hg; exact hrest g hg
          · rw [hact.1] at hg; exact hrest g hg
          · rw [hact.1] at hg; exact (q.fr u g hg).mono h2 h3
        · exact (hoth u hu g hg).mono h2 h3
      · have q1 := q.fr t (.core f) (by rw [hold]; simp)
        have q2 : ∀ g ∈ rest, FrTy (T.PF s.data) (T.PT s.data) t g := fun g hg => q.fr t g (by rw [hold]; simp [hg])
        refine same hdata ?_
        rcases hcs with ⟨new, h, hst, -⟩ | ⟨v, -, hst, -⟩ | ⟨e, -, hst, -⟩ | ⟨-, hst, -⟩
        · rw [hst]
          intro g hg
          rcases List.mem_append.1 hg with hg | hg
          · have task := fun k (h : T.PT s.data k) => T.task h t
            have hq : ∀ {k : τ} {c : Nat}, k ∈ (s.ctxs c).pend → T.PT s.data k := fun {k c} h => q.pend c k h
            cases h <;> simp only [List.mem_cons, List.not_mem_nil, or_false] at hg <;>
              simp only [FrTy, CFOK] at q1 <;>
              rcases hg with rfl | rfl <;> simp only [FrTy, CFOK]
            all_goals first
              | exact trivial
              | exact q1
              | exact (task _ q1).1
              | exact (task _ q1).2
              | exact (task _ (hq ‹_›)).1
              | exact hq ‹_›
              | exact q.cb _ ‹_› _
              | exact q.pend _
              | exact (task _ (q1 _ (by simp))).2
              | exact fun k hk => q1 k (by simp [hk])
              | exact q1 _ rfl t
          · exact q2 g hg
        · rw [hst]; exact q2
        · rw [hst]; exact q2
        · rw [hst]; exact q.fr t
      · exact same hdata (by rw [hst]; exact q.fr t)
      · have q1 := q.fr t (.core f) (by rw [hold]; simp)
        refine same hdata ?_
        rw [hst]
        intro g hg
        simp only [List.mem_cons] at hg
        have hk : T.PT s.data k := by
          cases f <;> simp only [CF.running] at hf <;> first | contradiction | (obtain rfl := Option.some.inj hf; exact q1)
        rcases hg with rfl | rfl | hg
        · exact (T.task hk t).2
        · exact trivial
        · exact q.fr t g (by rw [hold]; simp [hg])
      · refine same hdata ?_
        rw [hst]
        intro g hg
        exact q.fr t g (by rw [hold]; simp [hg])
      · have q1 := q.fr t (.client g) (by rw [hold]; simp)
        refine same hdata ?_
        rw [hst]
        intro x hx
        simp only [List.mem_cons] at hx
        rcases hx with rfl | hx
        · exact T.throw (hJ s hr) hold hexc q1 hg
        · exact q.fr t x (by rw [hold]; simp [hx])
      · refine same hdata ?_
        rw [hst]
        intro g hg
        exact q.fr t g (by rw [hold]; simp [hg])
      · exact same hdata (by rw [hst]; simp)

/-! ## Stacking -/

/-- The continuation frame of an action that does not leave the activation. -/
def Act.cont : Act τ φ → Option φ
  | .goto f => some f
  | .push _ f => some f
  | .call _ f => some f
  | _ => none

/-- The frame that an action pushes. -/
def Act.callee : Act τ φ → Option (Frame τ φ)
  | .push g _ => some (.client g)
  | .call a _ => some (.core a.entry)
  | _ => none

/-- A family of frames that an activation never leaves. `nt`: frames at which no exception arrives. -/
structure Closed (C : Client τ φ δ χ) (J : St τ φ δ → Prop) (nt G : Frame τ φ → Prop) : Prop where
  client : ∀ {s : St τ φ δ} {t : Nat} {ch : Ch χ} {f : φ} {rest : List (Frame τ φ)} {d' : δ} {a : Act τ φ} {g : φ}, J s →
    (s.thr t).exc = none → s.stk t = .client f :: rest → C.step (s.view t) s.data f (s.thr t).rv ch = some (d', a) →
    a.cont = some g → G (.client f) → G (.client g)
  core : ∀ {s : St τ φ δ} {t : Nat} {f : CF τ φ} {pre : List (Frame τ φ)} {g : Frame τ φ}, CTo C s t f (pre ++ [g]) →
    G (.core f) → G g
  handler : ∀ {g e g'}, ¬ nt (.client g) → C.onThrow g e = some g' → G (.client g) → G (.client g')
  task : ∀ {f : CF τ φ} {k e}, ¬ nt (.core f) → f.running = some k → G (.core f) → G (.core (.rethrow e))

/-- Which frame may be directly above which: `Adj lower upper`; no exception arrives at `nt` frames. -/
structure Stacking (C : Client τ φ δ χ) (J : St τ φ δ → Prop) where
  nt : Frame τ φ → Prop
  Adj : Frame τ φ → Frame τ φ → Prop
  closed : ∀ l, Closed C J nt (Adj l)
  call : ∀ {s : St τ φ δ} {t : Nat} {ch : Ch χ} {f : φ} {rest : List (Frame τ φ)} {d' : δ} {a : Act τ φ} {u : Frame τ φ} {g : φ}, J s →
    (s.thr t).exc = none → s.stk t = .client f :: rest → C.step (s.view t) s.data f (s.thr t).rv ch = some (d', a) →
    a.callee = some u → a.cont = some g → Adj (.client g) u
  core : ∀ {s : St τ φ δ} {t : Nat} {f : CF τ φ} {rest : List (Frame τ φ)} {u g : Frame τ φ}, J s → s.stk t = .core f :: rest → CTo C s t f [u, g] → Adj g u
  task : ∀ {f : CF τ φ} {k e}, ¬ nt (.core f) → f.running = some k → Adj (.core (.rethrow e)) (.client (C.destroy k))
  noThrow : ∀ {s : St τ φ δ} {t : Nat} {ch : Ch χ} {f : φ} {l : Frame τ φ} {rest : List (Frame τ φ)} {d' : δ} {e : Exn}, J s →
    s.stk t = .client f :: l :: rest → C.step (s.view t) s.data f (s.thr t).rv ch = some (d', .throw e) → Adj l (.client f) → ¬ nt l
  pop : ∀ {l : Frame τ φ} {f e}, nt l → Adj l (.client f) → C.onThrow f e = none → nt (.client f)
  unwind : ∀ {l : Frame τ φ} {f : CF τ φ}, nt l → Adj l (.core f) → f.unwinds = true → nt (.core f)
  rethrow : ∀ {l : Frame τ φ} {e}, Adj l (.core (.rethrow e)) → ¬ nt l

/-- Each frame of the list (top first) may be directly above the next. -/
def chain (Adj : Frame τ φ → Frame τ φ → Prop) : List (Frame τ φ) → Prop
  | u :: l :: rest => Adj l u ∧ chain Adj (l :: rest)
  | _ => True

theorem chain_tail {Adj : Frame τ φ → Frame τ φ → Prop} {u : Frame τ φ} {rest : List (Frame τ φ)} (h : chain Adj (u :: rest)) :
    chain Adj rest := by
  cases rest with
  | nil => trivial
  | cons l rest => exact h.2

theorem chain_replace {Adj : Frame τ φ → Frame τ φ → Prop} {u u' : Frame τ φ} {rest : List (Frame τ φ)} (h : chain Adj (u :: rest))
    (hu : ∀ l, Adj l u → Adj l u') : chain Adj (u' :: rest) := by
  cases rest with
  | nil => trivial
  | cons l rest => exact ⟨hu l h.1, h.2⟩

theorem chain_mid {Adj : Frame τ φ → Frame τ φ → Prop} {u l : Frame τ φ} {pre rest : List (Frame τ φ)}
    (h : chain Adj (pre ++ u :: l :: rest)) : Adj l u := by
  induction pre with
  | nil => exact h.1
  | cons a pre ih => exact ih (chain_tail h)

structure Stacking.Ok {C : Client τ φ δ χ} {J : St τ φ δ → Prop} (S : Stacking C J) (s : St τ φ δ) : Prop where
  chain : ∀ t, chain S.Adj (s.stk t)
  exc : ∀ t f rest, (s.thr t).exc ≠ none → s.stk t = f :: rest → ¬ S.nt f

theorem CTo.shape {C : Client τ φ δ χ} {s : St τ φ δ} {t : Nat} {f : CF τ φ} {new : List (Frame τ φ)} (h : CTo C s t f new) :
    (∃ g, new = [g]) ∨ ∃ u g, new = [u, g] := by
  cases h <;> first | exact .inl ⟨_, rfl⟩ | exact .inr ⟨_, _, rfl⟩

theorem Stacking.sound {C : Client τ φ δ χ} {J : St τ φ δ → Prop} (S : Stacking C J) {d : δ} {f : φ}
    (hJ : ∀ s, Reach C d f s → J s) {s : St τ φ δ} (h : Reach C d f s) : S.Ok s := by
  refine Reach.induct S.Ok ?_ ?_ h
  · constructor
    · intro t
      by_cases ht : t = 0
      · subst ht; simp [Core.init, St.stk, Core.chain]
      · simp [Core.init, St.stk, upd_ne _ _ ht, Core.chain]
    · intro t g rest hg
      by_cases ht : t = 0
      · subst ht; simp [Core.init] at hg
      · simp [Core.init, upd_ne _ _ ht] at hg
  · intro s l s' hr q hs
    cases l with
    | tick n => rw [step_tick C s s' n hs]; exact ⟨q.chain, q.exc⟩
    | th t ch =>
      have key : Core.chain S.Adj (s'.stk t) → (∀ f rest, (s'.thr t).exc ≠ none → s'.stk t = f :: rest → ¬ S.nt f) → S.Ok s' := by
        intro h1 h2
        constructor
        · intro u
          by_cases hu : u = t
          · subst hu; exact h1
          · rcases hr.stk_oth hu hs with ⟨h, -⟩ | ⟨f, rest, h, -, -, h2, -⟩
            · rw [h]; exact q.chain u
            · rw [h2]; trivial
        · intro u
          by_cases hu : u = t
          · subst hu; exact h2
          · intro f rest he hst
            rcases hr.stk_oth hu hs with ⟨h, h2⟩ | ⟨f, rest, h, -, -, h2, h3⟩
            · rcases h2 with h2 | h2
              · exact q.exc u f rest (by rw [← h2]; exact he) (by rw [← h]; exact hst)
              · exact absurd h2 he
            · exact absurd h3 he
      have qc := q.chain t
      rcases step_cl hs with ⟨f, rest, d', a, hexc, hold, hstep, hdata, hact, -⟩ | ⟨f, rest, hexc, hold, hcs, hdata, -⟩ | ⟨e, hexc, hst, -, -, hdata, -⟩ |
        ⟨e, f, k, rest, hexc, hold, hf, hst, hexc', hdata, -⟩ | ⟨e, f, rest, hexc, hold, hf, hst, -, hdata, -⟩ |
        ⟨e, g, g', rest, hexc, hold, hg, hst, hexc', hdata, -⟩ | ⟨e, g, rest, hexc, hold, hg, hst, -, hdata, -⟩ | ⟨hold, hst, hexc', hdata, -⟩
      · rw [hold] at qc
        have hj := hJ s hr
        have cl := fun {g : φ} (h : a.cont = some g) => chain_replace qc fun l hl => (S.closed l).client hj hexc hold hstep h hl
        cases a <;> simp only [ActTo] at hact
        · refine key ?_ (fun f rest he => absurd hact.2.1 he)
          rw [hact.1]; exact cl rfl
        · refine key ?_ (fun f rest he => absurd hact.2.1 he)
          rw [hact.1]; exact ⟨S.call hj hexc hold hstep rfl rfl, cl rfl⟩
        · refine key ?_ (fun f rest he => absurd hact.2.1 he)
          rw [hact.1]; exact ⟨S.call hj hexc hold hstep rfl rfl, cl rfl⟩
        · refine key ?_ (fun f rest he => absurd hact.2.1 he)
          rw [hact.1]; exact chain_tail qc
        · refine key ?_ ?_
          · rw [hact.1]; exact chain_tail qc
          · intro f' rest' he hst
            rw [hact.1] at hst
            subst hst
            exact S.noThrow hj hold hstep qc.1
        · refine key ?_ (fun f rest he => absurd hact.2.2 he)
          rw [hact.1, hold]; exact qc
      · rw [hold] at qc
        rcases hcs with ⟨new, h, hst, hexc', -⟩ | ⟨v, -, hst, -, hexc'⟩ | ⟨e, rfl, hst, -⟩ | ⟨-, hst, hexc'⟩
        · refine key ?_ (fun f rest he => absurd hexc' he)
          rw [hst]
          rcases h.shape with ⟨g, rfl⟩ | ⟨u, g, rfl⟩
          · exact chain_replace qc fun l hl => (S.closed l).core (pre := []) h hl
          · exact ⟨S.core (hJ s hr) hold h, chain_replace qc fun l hl => (S.closed l).core (pre := [u]) h hl⟩
        · exact key (by rw [hst]; exact chain_tail qc) (fun f rest he => absurd hexc' he)
        · refine key (by rw [hst]; exact chain_tail qc) ?_
          intro f' rest' he hst'
          rw [hst] at hst'
          subst hst'
          exact S.rethrow qc.1
        · exact key (by rw [hst, hold]; exact qc) (fun f rest he => absurd hexc' he)
      · refine key (by rw [hst]; exact qc) ?_
        intro f rest he h
        exact q.exc t f rest (by simp [hexc]) (by rw [← hst]; exact h)
      · have hnt := q.exc t _ _ (by simp [hexc]) hold
        rw [hold] at qc
        refine key ?_ (fun f rest he => absurd hexc' he)
        rw [hst]
        exact ⟨S.task hnt hf, chain_replace qc fun l hl => (S.closed l).task hnt hf hl⟩
      · have hnt := q.exc t _ _ (by simp [hexc]) hold
        rw [hold] at qc
        refine key (by rw [hst]; exact chain_tail qc) ?_
        intro f' rest' he hst'
        rw [hst] at hst'
        subst hst'
        exact fun h => hnt (S.unwind h qc.1 hf)
      · have hnt := q.exc t _ _ (by simp [hexc]) hold
        rw [hold] at qc
        refine key ?_ (fun f rest he => absurd hexc' he)
        rw [hst]
        exact chain_replace qc fun l hl => (S.closed l).handler hnt hg hl
      · have hnt := q.exc t _ _ (by simp [hexc]) hold
        rw [hold] at qc
        refine key (by rw [hst]; exact chain_tail qc) ?_
        intro f' rest' he hst'
        rw [hst] at hst'
        subst hst'
        exact fun h => hnt (S.pop h qc.1 hg)
      · exact key (by rw [hst]; trivial) (fun f rest he => absurd hexc' he)

/-! ## Families along an activation -/

/-- The bottom frame of an activation stays in a closed family. -/
theorem Frag.family {C : Client τ φ δ χ} {J : St τ φ δ → Prop} {S : Stacking C J} {G : Frame τ φ → Prop} (hG : Closed C J S.nt G)
    {d : δ} {f : φ} (hJ : ∀ s, Reach C d f s → J s) {t n : Nat} {rest : List (Frame τ φ)} {s s' : St τ φ δ}
    (hr : Reach C d f s) (h : Frag C t rest s n s') {g : Frame τ φ} (hg : s.stk t = g :: rest) (hgG : G g) :
    ∃ pre g', s'.stk t = pre ++ g' :: rest ∧ G g' := by
  have one : ∀ {s1 s2 : St τ φ δ} {l : Lbl χ} {pre : List (Frame τ φ)} {f' : Frame τ φ}, Reach C d f s1 → Core.step C s1 l = some s2 →
      s2.stk t = pre ++ f' :: rest → (∃ pre g', s1.stk t = pre ++ g' :: rest ∧ G g') → ∃ pre g', s2.stk t = pre ++ g' :: rest ∧ G g' := by
    intro s1 s2 l pre f' hr1 hs hst ih
    obtain ⟨pre1, g1, h1, h2⟩ := ih
    cases l with
    | tick n => rw [step_tick C s1 s2 n hs]; exact ⟨pre1, g1, h1, h2⟩
    | th u ch =>
      by_cases hu : u = t
      · subst hu
        cases pre1 with
        | cons x pre1 =>
          obtain ⟨new, hn⟩ := step_stk_self hs (g := x) (r := pre1 ++ g1 :: rest) (by simpa using h1)
          exact ⟨new ++ pre1, g1, by rw [hn]; simp, h2⟩
        | nil =>
          have hok := S.sound hJ hr1
          simp only [List.nil_append] at h1
          have nope : s2.stk u = rest → False := by
            intro h; rw [h] at hst
            have := congrArg List.length hst; simp at this; omega
          rcases step_cl hs with ⟨f, rest', d', a, hexc, hold, hstep, hdata, hact, -⟩ | ⟨f, rest', hexc, hold, hcs, hdata, -⟩ | ⟨e, hexc, hst, -, -, hdata, -⟩ |
            ⟨e, f, k, rest', hexc, hold, hf, hst, hexc', hdata, -⟩ | ⟨e, f, rest', hexc, hold, hf, hst, -, hdata, -⟩ |
            ⟨e, g, g', rest', hexc, hold, hg, hst, hexc', hdata, -⟩ | ⟨e, g, rest', hexc, hold, hg, hst, -, hdata, -⟩ | ⟨hold, hst, hexc', hdata, -⟩
          · rw [h1] at hold
            obtain ⟨rfl, rfl⟩ := List.cons.inj hold
            have cl := fun {g : φ} (h : a.cont = some g) => hG.client (hJ s1 hr1) hexc h1 hstep h h2
            cases a <;> simp only [ActTo] at hact
            · exact ⟨[], _, hact.1, cl rfl⟩
            · exact ⟨[_], _, hact.1, cl rfl⟩
            · exact ⟨[_], _, hact.1, cl rfl⟩
            · exact (nope hact.1).elim
            · exact (nope hact.1).elim
            · exact ⟨[], _, by rw [hact.1, h1]; rfl, h2⟩
          · rw [h1] at hold
            obtain ⟨rfl, rfl⟩ := List.cons.inj hold
            rcases hcs with ⟨new, h, hst, hexc', -⟩ | ⟨v, -, hst, -, hexc'⟩ | ⟨e, rfl, hst, -⟩ | ⟨-, hst, hexc'⟩
            · rcases h.shape with ⟨g, rfl⟩ | ⟨u', g, rfl⟩
              · exact ⟨[], g, hst, hG.core (pre := []) h h2⟩
              · exact ⟨[u'], g, hst, hG.core (pre := [u']) h h2⟩
            · exact (nope hst).elim
            · exact (nope hst).elim
            · exact ⟨[], _, by rw [hst, h1]; rfl, h2⟩
          · exact ⟨[], _, by rw [hst, h1]; rfl, h2⟩
          · rw [h1] at hold
            obtain ⟨rfl, rfl⟩ := List.cons.inj hold
            exact ⟨[_], _, hst, hG.task (hok.exc u _ _ (by simp [hexc]) h1) hf h2⟩
          · rw [h1] at hold
            obtain ⟨rfl, rfl⟩ := List.cons.inj hold
            exact (nope hst).elim
          · rw [h1] at hold
            obtain ⟨rfl, rfl⟩ := List.cons.inj hold
            exact ⟨[], _, hst, hG.handler (hok.exc u _ _ (by simp [hexc]) h1) hg h2⟩
          · rw [h1] at hold
            obtain ⟨rfl, rfl⟩ := List.cons.inj hold
            exact (nope hst).elim
          · rw [h1] at hold; contradiction
      · have : s1.stk t ≠ [] := by rw [h1]; simp
        exact ⟨pre1, g1, by rw [step_stk_other hu (FreeOK.reach hr1) hs this]; exact h1, h2⟩
  induction h with
  | here f' hst => exact ⟨[], g, hg, hgG⟩
  | next l pre f' h hs hst hno ih => exact one (h.reach hr) hs hst ih
  | start l pre f' h hs hst hlen c k hlog ih => exact one (h.reach hr) hs hst ih

/-! ## Counting -/

def Frame.wt (w : φ → Nat) : Frame τ φ → Nat
  | .client f => w f
  | .core _ => 0

def Act.wt (w : φ → Nat) (f : φ) : Act τ φ → Nat
  | .goto g => w g
  | .push g k => w g + w k
  | .call _ k => w k
  | .terminate => w f
  | _ => 0

def wsum (w : φ → Nat) (l : List (Frame τ φ)) : Nat := (l.map (Frame.wt w)).sum

@[simp] theorem wsum_nil (w : φ → Nat) : wsum w ([] : List (Frame τ φ)) = 0 := rfl
@[simp] theorem wsum_client (w : φ → Nat) (f : φ) (l : List (Frame τ φ)) : wsum w (.client f :: l) = w f + wsum w l := by
  simp [wsum, Frame.wt]
@[simp] theorem wsum_core (w : φ → Nat) (f : CF τ φ) (l : List (Frame τ φ)) : wsum w (.core f :: l) = wsum w l := by
  simp [wsum, Frame.wt]
@[simp] theorem wsum_append (w : φ → Nat) (l l' : List (Frame τ φ)) : wsum w (l ++ l') = wsum w l + wsum w l' := by
  simp [wsum]

theorem wsum_mem {w : φ → Nat} {f : φ} {l : List (Frame τ φ)} (h : .client f ∈ l) : w f ≤ wsum w l := by
  induction l with
  | nil => simp at h
  | cons a l ih =>
    rcases List.mem_cons.1 h with rfl | h
    · simp
    · have := ih h
      cases a <;> simp <;> omega

/-- The weights of the client frames of every thread add up to `own`. -/
structure Counting (C : Client τ φ δ χ) (J : St τ φ δ → Prop) (S : Stacking C J) where
  w : φ → Nat
  own : δ → Nat → Nat
  step : ∀ {s : St τ φ δ} {t : Nat} {ch : Ch χ} {f : φ} {rest : List (Frame τ φ)} {d' : δ} {a : Act τ φ}, J s →
    (s.thr t).exc = none → s.stk t = .client f :: rest → C.step (s.view t) s.data f (s.thr t).rv ch = some (d', a) →
    w f + wsum w rest = own s.data t →
    a.wt w f + own s.data t = w f + own d' t ∧ ∀ u, u ≠ t → own d' u = own s.data u
  run : ∀ k, w (C.run k) = 0
  destroy : ∀ k, w (C.destroy k) = 0
  api : ∀ {s : St τ φ δ} {t : Nat} {ch : Ch χ} {f : φ} {rest : List (Frame τ φ)} {d' : δ} {a : Api τ φ} {k : φ}, J s →
    s.stk t = .client f :: rest → C.step (s.view t) s.data f (s.thr t).rv ch = some (d', .call a k) →
    ApiOK (fun _ f => w f = 0) (fun _ => True) a
  handler : ∀ {g e g'}, ¬ S.nt (.client g) → C.onThrow g e = some g' → w g' = w g
  pop : ∀ {g e}, ¬ S.nt (.client g) → C.onThrow g e = none → w g = 0

structure Counting.Ok {C : Client τ φ δ χ} {J : St τ φ δ → Prop} {S : Stacking C J} (N : Counting C J S) (s : St τ φ δ) : Prop where
  sum : ∀ t, wsum N.w (s.stk t) = N.own s.data t
  code : ∀ t, ∀ f, .core f ∈ s.stk t → CFOK (fun _ f => N.w f = 0) (fun _ => True) f
  cb : ∀ f, s.logCb = some f → N.w f = 0

theorem stepLogCb {C : Client τ φ δ χ} {s s' : St τ φ δ} {t : Nat} {ch : Ch χ} (h0 : Core.step C s (.th t ch) = some s') :
    s'.logCb = s.logCb ∨ s'.logCb = none ∨ ∃ rest, s.stk t = .core (.initCfg s'.logCb) :: rest := by
  simp only [Core.step] at h0
  split at h0
  · contradiction
  split at h0
  · contradiction
  split at h0
  · obtain rfl := Option.some.inj h0
    left
    unfold stepExc
    repeat' split
    all_goals rfl
  split at h0
  · obtain rfl := Option.some.inj h0; exact .inl rfl
  · rename_i f rest hst
    rcases stepCore_logCb C s s' t f rest ch h0 with h | h | h
    · exact .inl h
    · exact .inr (.inl h)
    · exact .inr (.inr ⟨rest, by rw [← h]; exact hst⟩)
  · simp only [stepClient] at h0
    split at h0
    · contradiction
    · split at h0 <;> obtain rfl := Option.some.inj h0 <;> exact .inl rfl

theorem Counting.sound {C : Client τ φ δ χ} {J : St τ φ δ → Prop} {S : Stacking C J} (N : Counting C J S) {d : δ} {f : φ}
    (hJ : ∀ s, Reach C d f s → J s) (hf : N.w f = 0) (hd : ∀ t, N.own d t = 0) {s : St τ φ δ} (h : Reach C d f s) : N.Ok s := by
  refine Reach.induct N.Ok ?_ ?_ h
  · refine ⟨?_, ?_, ?_⟩
    · intro t
      by_cases ht : t = 0
      · subst ht; simp [Core.init, St.stk, hf, hd]
      · simp [Core.init, St.stk, upd_ne _ _ ht, hd]
    · intro t g hg
      by_cases ht : t = 0
      · subst ht; simp [Core.init, St.stk] at hg
      · simp [Core.init, St.stk, upd_ne _ _ ht] at hg
    · intro f hf; simp [Core.init] at hf
  · intro s l s' hr q hs
    cases l with
    | tick n => rw [step_tick C s s' n hs]; exact ⟨q.sum, q.code, q.cb⟩
    | th t ch =>
      have hcb : ∀ f, s'.logCb = some f → N.w f = 0 := by
        intro f hf
        rcases stepLogCb hs with h | h | ⟨rest, h⟩
        · exact q.cb f (by rw [← h]; exact hf)
        · rw [h] at hf; contradiction
        · have := q.code t (.initCfg s'.logCb) (by rw [h]; simp)
          exact this f hf 0
      have key : (∀ u, u ≠ t → N.own s'.data u = N.own s.data u) → wsum N.w (s'.stk t) = N.own s'.data t →
          (∀ f, .core f ∈ s'.stk t → CFOK (fun _ f => N.w f = 0) (fun _ => True) f) → N.Ok s' := by
        intro h1 h2 h3
        refine ⟨?_, ?_, hcb⟩
        · intro u
          by_cases hu : u = t
          · subst hu; exact h2
          · rw [h1 u hu, ← q.sum u]
            rcases hr.stk_oth hu hs with ⟨h, -⟩ | ⟨f, rest, h, -, h4, h5, -⟩
            · rw [h]
            · rw [h4, h5]
              have := q.code t (.spawnIn u f) (by rw [h]; simp)
              simpa using this u
        · intro u
          by_cases hu : u = t
          · subst hu; exact h3
          · intro g hg
            rcases hr.stk_oth hu hs with ⟨h, -⟩ | ⟨f, rest, h, -, h4, h5, -⟩
            · exact q.code u g (by rw [← h]; exact hg)
            · rw [h5] at hg; simp at hg
      have same : s'.data = s.data → wsum N.w (s'.stk t) = wsum N.w (s.stk t) →
          (∀ f, .core f ∈ s'.stk t → CFOK (fun _ f => N.w f = 0) (fun _ => True) f) → N.Ok s' := by
        intro h1 h2 h3
        exact key (by rw [h1]; simp) (by rw [h1, h2]; exact q.sum t) h3
      have qs := q.sum t
      have qc := q.code t
      have hok := S.sound hJ hr
      rcases step_cl hs with ⟨f, rest, d', a, hexc, hold, hstep, hdata, hact, -⟩ | ⟨f, rest, hexc, hold, hcs, hdata, -⟩ | ⟨e, hexc, hst, -, -, hdata, -⟩ |
        ⟨e, f, k, rest, hexc, hold, hf, hst, hexc', hdata, -⟩ | ⟨e, f, rest, hexc, hold, hf, hst, -, hdata, -⟩ |
        ⟨e, g, g', rest, hexc, hold, hg, hst, hexc', hdata, -⟩ | ⟨e, g, rest, hexc, hold, hg, hst, -, hdata, -⟩ | ⟨hold, hst, hexc', hdata, -⟩
      · rw [hold] at qs qc
        rw [wsum_client] at qs
        obtain ⟨h1, h2⟩ := N.step (hJ s hr) hexc hold hstep qs
        rw [← hdata] at h1 h2
        refine key h2 ?_ ?_
        · cases a <;> simp only [ActTo] at hact <;> simp only [Act.wt] at h1 <;> rw [hact.1] <;> try simp only [wsum_client, wsum_core]
          all_goals try omega
          rw [hold]; simp only [wsum_client]; omega
        · intro g hg
          have hrest : .core g ∈ rest → CFOK (fun _ f => N.w f = 0) (fun _ => True) g := fun h => qc g (by simp [h])
          cases a <;> simp only [ActTo] at hact <;> rw [hact.1] at hg
          · exact hrest (by simpa using hg)
          · exact hrest (by simpa using hg)
          · simp only [List.mem_cons, Frame.core.injEq, reduceCtorEq, false_or] at hg
            rcases hg with rfl | hg
            · exact (N.api (hJ s hr) hold hstep).entry
            · exact hrest hg
          · exact hrest hg
          · exact hrest hg
          · exact q.code t g hg
      · rw [hold] at qc
        have q1 := qc f (by simp)
        have hrest : ∀ g, .core g ∈ rest → CFOK (fun _ f => N.w f = 0) (fun _ => True) g := fun g h => qc g (by simp [h])
        rcases hcs with ⟨new, h, hst, -⟩ | ⟨v, -, hst, -⟩ | ⟨e, -, hst, -⟩ | ⟨-, hst, -⟩
        · refine same hdata ?_ ?_
          · rw [hst, hold]
            have : wsum N.w new = 0 := by
              cases h <;> simp only [wsum_client, wsum_core, wsum_nil, N.run, N.destroy, Nat.add_zero, Nat.zero_add]
              all_goals first
                | exact q.cb _ ‹_›
                | exact q1 _ rfl 0
            simp [this]
          · rw [hst]
            intro g hg
            rcases List.mem_append.1 hg with hg | hg
            · cases h <;> simp only [List.mem_cons, List.not_mem_nil, or_false, Frame.core.injEq, reduceCtorEq, false_or] at hg <;>
                simp only [CFOK] at q1 <;> (try rcases hg with rfl | rfl) <;> (try subst hg) <;> simp only [CFOK, implies_true] <;> try exact q1
            · exact hrest g hg
        · exact same hdata (by rw [hst, hold]; simp) (by rw [hst]; exact hrest)
        · exact same hdata (by rw [hst, hold]; simp) (by rw [hst]; exact hrest)
        · exact same hdata (by rw [hst]) (by rw [hst]; exact q.code t)
      · exact same hdata (by rw [hst]) (by rw [hst]; exact qc)
      · rw [hold] at qc
        refine same hdata (by rw [hst, hold]; simp [N.destroy]) ?_
        rw [hst]
        intro g hg
        simp only [List.mem_cons, Frame.core.injEq, reduceCtorEq, false_or] at hg
        rcases hg with rfl | hg
        · trivial
        · exact qc g (by simp [hg])
      · rw [hold] at qc
        refine same hdata (by rw [hst, hold]; simp) ?_
        rw [hst]
        exact fun g hg => qc g (by simp [hg])
      · have hnt := hok.exc t _ _ (by simp [hexc]) hold
        rw [hold] at qc
        refine same hdata (by rw [hst, hold]; simp [N.handler hnt hg]) ?_
        rw [hst]
        exact fun g hg => qc g (by simpa using hg)
      · have hnt := hok.exc t _ _ (by simp [hexc]) hold
        rw [hold] at qc
        refine same hdata (by rw [hst, hold]; simp [N.pop hnt hg]) ?_
        rw [hst]
        exact fun g hg => qc g (by simp [hg])
      · exact same hdata (by rw [hst, hold]) (by rw [hst]; simp)

end
end Core
end Itc
