import Verif.Core.Own
import Verif.Core.Called

/-!
# A registration that was removed serves no thread again (proof infrastructure, no claims)
-/
namespace Itc
namespace Core
section
variable {τ φ δ χ : Type} {C : Client τ φ δ χ} {d : δ} {f0 : φ}

theorem loc_new {s s' : St τ φ δ} {t n c : Nat} (he : Eff C s t s') (hw : WF s) (h : s'.loc n = some c) : s.loc n = some c ∨ InReg s c := by
  have same : s'.loc = s.loc → s.loc n = some c := fun e => e ▸ h
  cases he
  case regDone c' self rest hreg hctx hold hloc hstk hlog =>
    cases self with
    | false => exact .inl (same (by simpa using hloc))
    | true =>
      obtain ⟨-, i', hi'⟩ := hw.regd t c' rest hold
      simp only [if_true] at hloc
      by_cases hn : n = t
      · subst hn
        rw [hloc, upd_same] at h
        cases h
        exact .inr ⟨i', hi'⟩
      · rw [hloc, upd_ne _ _ hn] at h; exact .inl h
  case fin hreg hctx hold hloc hstk hlog =>
    by_cases hn : n = t
    · subst hn; rw [hloc, upd_same] at h; cases h
    · rw [hloc, upd_ne _ _ hn] at h; exact .inl h
  case spawn m f v rest hreg hctx hold hfree hne hloc hstk hlog =>
    by_cases hn : n = m
    · subst hn; rw [hloc, upd_same] at h; cases h
    · rw [hloc, upd_ne _ _ hn] at h; exact .inl h
  case unregClear rest hreg hctx hold hloc hstk hlog =>
    by_cases hn : n = t
    · subst hn; rw [hloc, upd_same] at h; cases h
    · rw [hloc, upd_ne _ _ hn] at h; exact .inl h
  all_goals exact .inl (same (by assumption))

/-- Where the frames of a thread that have an owner come from: they were there; they continue a frame of the same owner; or they were started from the queue of
    the owner, or by a dispatch of the owner. -/
theorem Own.new {J : St τ φ δ → Prop} {T : Post C J} (O : Own C J T) (hJ : ∀ s, Reach C d f0 s → J s) {n id : Nat} {s s' : St τ φ δ} {ch : Ch χ} {f : φ}
    (hr : Reach C d f0 s) (hs : step C s (.th n ch) = some s') (hm : .client f ∈ s'.stk n) (ho : O.o f = some id) :
    s'.stk n = s.stk n ∨ ∃ g r, s.stk n = g :: r ∧ (.client f ∈ r ∨
      (∃ f1 d' a, g = .client f1 ∧ O.o f1 = some id ∧ C.step (s.view n) s.data f1 (s.thr n).rv ch = some (d', a) ∧ a.cont = some f) ∨
      (∃ x c k, f = C.run k ∧ s'.stk n = .client f :: .core x :: r ∧ s'.loc n = some c ∧ c < s.nctx ∧ (s.ctxs c).id = id)) := by
  have hj := hJ s hr
  have he := step_eff C s s' n ch hs
  have hlog := log_mono he
  have hw := WF.reach hr
  cases hst0 : s.stk n with
  | nil =>
    rcases step_cl hs with ⟨f, rest, d', a, hexc, hold, -⟩ | ⟨f, rest, hexc, hold, -⟩ | ⟨e, hexc, hst', -⟩ | ⟨e, f, k, rest, hexc, hold, -⟩ | ⟨e, f, rest, hexc, hold, -⟩ |
      ⟨e, g, g', rest, hexc, hold, -⟩ | ⟨e, g, rest, hexc, hold, -⟩ | ⟨hold, hst', -⟩
    all_goals first | (rw [hst0] at hold; cases hold; done) | exact .inl (by rw [hst']; try exact hst0)
  | cons g r =>
    have mem : ∀ {new : List (Frame τ φ)}, s'.stk n = new ++ r → (.client f ∈ new →
        (∃ f1 d' a, g = .client f1 ∧ O.o f1 = some id ∧ C.step (s.view n) s.data f1 (s.thr n).rv ch = some (d', a) ∧ a.cont = some f) ∨
        (∃ x c k, f = C.run k ∧ s'.stk n = .client f :: .core x :: r ∧ s'.loc n = some c ∧ c < s.nctx ∧ (s.ctxs c).id = id)) →
        s'.stk n = g :: r ∨ ∃ g' r', g :: r = g' :: r' ∧ (.client f ∈ r' ∨
          (∃ f1 d' a, g' = .client f1 ∧ O.o f1 = some id ∧ C.step (s.view n) s.data f1 (s.thr n).rv ch = some (d', a) ∧ a.cont = some f) ∨
          (∃ x c k, f = C.run k ∧ s'.stk n = .client f :: .core x :: r' ∧ s'.loc n = some c ∧ c < s.nctx ∧ (s.ctxs c).id = id)) := by
      intro new h1 h2
      rw [h1] at hm
      refine .inr ⟨g, r, rfl, ?_⟩
      rcases List.mem_append.1 hm with h | h
      · exact .inr (h2 h)
      · exact .inl h
    rcases step_cl hs with ⟨f1, r1, d', a, hexc, hold, hstep, hdata, hact, -⟩ | ⟨f1, r1, hexc, hold, hcs, hdata, hcore⟩ | ⟨e, hexc, hst', -⟩ |
      ⟨e, f1, k, r1, hexc, hold, hf, hst', -⟩ | ⟨e, f1, r1, hexc, hold, hf, hst', -⟩ |
      ⟨e, f1, f1', r1, hexc, hold, hg, hst', -⟩ | ⟨e, f1, r1, hexc, hold, hg, hst', -⟩ | ⟨hold, hst', -⟩
    · rw [hst0] at hold; cases hold
      have hk := fun {k} (h : a.cont = some k) => O.cont (id := id) hstep h
      cases a <;> simp only [ActTo] at hact
      case goto x =>
        refine mem (new := [_]) hact.1 fun h => ?_
        obtain rfl := Frame.client.inj (List.mem_singleton.1 h)
        exact .inl ⟨_, _, _, rfl, hk rfl ho, hstep, rfl⟩
      case push x y =>
        refine mem (new := [_, _]) hact.1 fun h => ?_
        simp only [List.mem_cons, List.not_mem_nil, or_false, Frame.client.injEq] at h
        rcases h with rfl | rfl
        · rw [O.push hj hst0 hstep] at ho; cases ho
        · exact .inl ⟨_, _, _, rfl, hk rfl ho, hstep, rfl⟩
      case call x y =>
        refine mem (new := [_, _]) hact.1 fun h => ?_
        simp only [List.mem_cons, List.not_mem_nil, or_false, Frame.client.injEq, reduceCtorEq, false_or] at h
        subst h
        exact .inl ⟨_, _, _, rfl, hk rfl ho, hstep, rfl⟩
      case ret v => exact mem (new := []) hact.1 (by simp)
      case throw v => exact mem (new := []) hact.1 (by simp)
      case terminate => exact .inl (hact.1.trans hst0)
    · rw [hst0] at hold; cases hold
      have cod := (O.code hj).code n _ (by rw [hst0]; simp : .core f1 ∈ s.stk n)
      have hcb := (O.code hj).cb
      have hp := (T.sound hJ hr).fr n f1
      have hlg := (T.sound hJ hr).log
      have ran : ∀ {k c' r'}, s'.stk n = .client (C.run k) :: .core (.ran c' k r') :: r → k ∈ (s.ctxs c').pend → f = C.run k →
          ∃ x c k, f = C.run k ∧ s'.stk n = .client f :: .core x :: r ∧ s'.loc n = some c ∧ c < s.nctx ∧ (s.ctxs c).id = id := by
        rintro k c' r' h1 h2 rfl
        have h3 : k ∈ accs c' s.log := by rw [(QInv.reach hr).cons c']; simp [h2]
        obtain ⟨v, i, h4⟩ := mem_accs h3
        obtain ⟨rfl, -⟩ := O.run hj (hlg v c' i k h4) ho
        obtain ⟨l1, l2, h5⟩ := List.append_of_mem h4
        obtain ⟨m, h6⟩ := (LInv.reach hr).hist.split h5
        have h7 : Ev.registered c' id m ∈ s.log := by rw [h5]; simp [h6]
        have e1 := ((LInv.reach hr).regd _ _ _).1 h7
        exact ⟨_, c', _, rfl, h1, start_loc he hw hst0 h1, e1.1, e1.2.1⟩
      rcases hcs with ⟨new, h, hst', hloc'⟩ | ⟨v, -, hst', -⟩ | ⟨e, -, hst', -⟩ | ⟨-, hst', -⟩
      · refine mem hst' fun hn => ?_
        clear mem
        cases h <;> first
          | (simp at hn; done)
          | skip
        all_goals simp only [List.mem_cons, List.not_mem_nil, or_false, Frame.client.injEq, reduceCtorEq] at hn
        all_goals first
          | (subst hn; rw [O.destroy] at ho; cases ho; done)
          | (exact .inr (ran hst' (by assumption) hn))
          | (subst hn; rw [hcb _ (by assumption)] at ho; cases ho; done)
          | skip
        · rename_i id' k' hid
          subst hn
          obtain ⟨rfl, hne⟩ := O.run hj (hp id' k' (by rw [hst0]; simp) rfl) ho
          simp only [St.getId] at hid
          split at hid
          · exact absurd hid.symm hne
          · rename_i c1 hc1
            obtain ⟨h1, h2, -⟩ := hw.loc n c1 hc1
            refine .inr ⟨_, c1, _, rfl, hst', ?_, h1, hid⟩
            have hid' : s.getId n = id := by simp only [St.getId]; rw [show (s.thr n).loc = some c1 from hc1]; exact hid
            simp only [stepCore, hid', if_true, Option.some.injEq] at hcore
            subst hcore
            simpa [St.setStk, St.ev, St.loc, upd] using hc1
        · subst hn
          simp only [CFOK] at cod
          rw [cod _ rfl 0] at ho; cases ho
      · exact mem (new := []) hst' (by simp)
      · exact mem (new := []) hst' (by simp)
      · exact .inl (hst'.trans hst0)
    · exact .inl (hst'.trans hst0)
    · rw [hst0] at hold; cases hold
      refine mem (new := [_, _]) hst' fun h => ?_
      simp only [List.mem_cons, List.not_mem_nil, or_false, Frame.client.injEq, reduceCtorEq] at h
      subst h
      rw [O.destroy] at ho; cases ho
    · rw [hst0] at hold; cases hold
      exact mem (new := []) hst' (by simp)
    · rw [hst0] at hold; cases hold
      refine mem (new := [_]) hst' fun h => ?_
      obtain rfl := Frame.client.inj (List.mem_singleton.1 h)
      rw [O.throw hg] at ho; cases ho
    · rw [hst0] at hold; cases hold
      exact mem (new := []) hst' (by simp)
    · rw [hst0] at hold; cases hold

/-- Context `c` of thread `n`, with this id, is not registered any more and is not the local context of the thread, and none of the thread's frames belong to it. -/
structure Own.Gone {J : St τ φ δ → Prop} {T : Post C J} (O : Own C J T) (n c id : Nat) (s : St τ φ δ) : Prop where
  ev : Ev.registered c id n ∈ s.log
  reg : ¬ InReg s c
  loc : s.loc n ≠ some c
  fr : ∀ f, .client f ∈ s.stk n → O.o f ≠ some id

theorem Own.gone {J : St τ φ δ → Prop} {T : Post C J} (O : Own C J T) (hJ : ∀ s, Reach C d f0 s → J s) {n c id : Nat} {s s' : St τ φ δ} {l : Lbl χ}
    (hr : Reach C d f0 s) (hs : step C s l = some s') (h : O.Gone n c id s) : O.Gone n c id s' := by
  have hj := hJ s hr
  cases l with
  | tick n => rw [step_tick _ s s' n hs]; exact ⟨h.ev, h.reg, h.loc, h.fr⟩
  | th t ch =>
    have he := step_eff C s s' t ch hs
    have hlog := log_mono he
    have hw := WF.reach hr
    have hc := ((LInv.reach hr).regd c id n).1 h.ev
    have hloc : s'.loc n ≠ some c := fun hl => (loc_new he hw hl).elim h.loc h.reg
    refine ⟨hlog _ h.ev, fun hi => h.reg (own_back he hc.1 hi), hloc, fun f hm ho => ?_⟩
    by_cases hu : n = t
    · subst hu
      rcases O.new hJ hr hs hm ho with h1 | ⟨g, r, h1, h2 | ⟨f1, d', a, rfl, h2, -⟩ | ⟨x, c1, k, -, -, h2, h3, h4⟩⟩
      · rw [h1] at hm; exact h.fr f hm ho
      · exact h.fr f (by rw [h1]; simp [h2]) ho
      · exact h.fr f1 (by rw [h1]; simp) h2
      · have := hw.toRegOK.inj _ _ h3 hc.1 (h4.trans hc.2.1.symm)
        subst this
        exact hloc h2
    · rcases hr.stk_oth hu hs with ⟨h1, -⟩ | ⟨f', r', h1, -, -, h3, -⟩
      · rw [h1] at hm; exact h.fr f hm ho
      · rw [h3] at hm
        obtain rfl := Frame.client.inj (List.mem_singleton.1 hm)
        have := (O.code hj).code t (.spawnIn n f) (by rw [h1]; simp)
        simp only [CFOK] at this
        rw [this 0] at ho; cases ho

theorem loc_keep {s s' : St τ φ δ} {t : Nat} (he : Eff C s t s') {f : φ} {r : List (Frame τ φ)} (hst : s.stk t = .client f :: r) : s'.loc t = s.loc t := by
  cases he
  case regDone c' self rest hreg hctx hold hloc hstk hlog => rw [hst] at hold; cases hold
  case fin hreg hctx hold hloc hstk hlog => rw [hst] at hold; cases hold
  case spawn m f v rest hreg hctx hold hfree hne hloc hstk hlog => rw [hst] at hold; cases hold
  case unregClear rest hreg hctx hold hloc hstk hlog => rw [hst] at hold; cases hold
  all_goals exact congrFun (by assumption) t

/-- The thread of context `c` was told to exit, and none of its frames that belong to the context have got beyond the check of this: they are not in `B`. -/
structure Own.Out {J : St τ φ δ → Prop} {T : Post C J} (O : Own C J T) (B : φ → Prop) (n c id : Nat) (s : St τ φ δ) : Prop where
  ev : Ev.registered c id n ∈ s.log
  exit : Ev.exitSet c ∈ s.log
  tail : ∀ g r f, s.stk n = g :: r → .client f ∈ r → O.o f ≠ some id
  top : ∀ f r, s.stk n = .client f :: r → O.o f = some id → ¬ B f ∧ s.loc n = some c

theorem Own.out {J : St τ φ δ → Prop} {T : Post C J} (O : Own C J T) (hJ : ∀ s, Reach C d f0 s → J s) {B : φ → Prop} (hrun : ∀ k, ¬ B (C.run k))
    (hB : ∀ {v d f rv ch d' a}, ¬ B f → O.o f ≠ none → v.exit = true → C.step v d f rv ch = some (d', a) → a.cont = none)
    {n c id : Nat} {s s' : St τ φ δ} {l : Lbl χ}
    (hr : Reach C d f0 s) (hs : step C s l = some s') (h : O.Out B n c id s) : O.Out B n c id s' := by
  have hj := hJ s hr
  cases l with
  | tick n => rw [step_tick _ s s' n hs]; exact ⟨h.ev, h.exit, h.tail, h.top⟩
  | th t ch =>
    have he := step_eff C s s' t ch hs
    have hlog := log_mono he
    have hw := WF.reach hr
    have hc := ((LInv.reach hr).regd c id n).1 h.ev
    by_cases hu : n = t
    · subst hu
      have noc : ∀ {f1 r d' a}, s.stk n = .client f1 :: r → O.o f1 = some id → C.step (s.view n) s.data f1 (s.thr n).rv ch = some (d', a) → a.cont = none := by
        intro f1 r d' a h1 h2 h3
        obtain ⟨h4, h5⟩ := h.top _ _ h1 h2
        refine hB h4 (by rw [h2]; simp) ?_ h3
        have h5 : (s.thr n).loc = some c := h5
        simp only [St.view, St.notified, h5]
        exact ((QInv.reach hr).exit c).2 h.exit
      refine ⟨hlog _ h.ev, hlog _ h.exit, fun g r f hst hm ho => ?_, fun f r hst ho => ?_⟩
      · rcases O.new hJ hr hs (by rw [hst]; exact List.mem_cons_of_mem _ hm) ho with h1 | ⟨g', r', h1, h2 | ⟨f1, d', a, rfl, h2, h3, h4⟩ | ⟨x, c1, k, -, h2, -⟩⟩
        · exact h.tail g r f (h1 ▸ hst) hm ho
        · exact h.tail _ _ f h1 h2 ho
        · rw [noc h1 h2 h3] at h4; cases h4
        · rw [hst] at h2; cases h2
          simp only [List.mem_cons, reduceCtorEq, false_or] at hm
          exact h.tail _ _ f h1 hm ho
      · rcases O.new hJ hr hs (by rw [hst]; exact List.mem_cons_self) ho with h1 | ⟨g', r', h1, h2 | ⟨f1, d', a, rfl, h2, h3, h4⟩ | ⟨x, c1, k, rfl, -, h2, h3, h4⟩⟩
        · have := h.top f r (h1 ▸ hst) ho
          exact ⟨this.1, (loc_keep he (h1 ▸ hst)).trans this.2⟩
        · exact absurd ho (h.tail _ _ f h1 h2)
        · rw [noc h1 h2 h3] at h4; cases h4
        · have := hw.toRegOK.inj _ _ h3 hc.1 (h4.trans hc.2.1.symm)
          subst this
          exact ⟨hrun k, h2⟩
    · have hno : ∀ {f' r'}, s.stk t = .core (.spawnIn n f') :: r' → O.o f' ≠ some id := by
        intro f' r' h1 ho
        have := (O.code hj).code t (.spawnIn n f') (by rw [h1]; simp)
        simp only [CFOK] at this
        rw [this 0] at ho; cases ho
      rcases hr.stk_oth hu hs with ⟨h1, -⟩ | ⟨f', r', h1, -, -, h3, -⟩
      · refine ⟨hlog _ h.ev, hlog _ h.exit, fun g r f hst hm ho => h.tail g r f (h1 ▸ hst) hm ho, fun f r hst ho => ?_⟩
        have hst := h1 ▸ hst
        have := h.top f r hst ho
        exact ⟨this.1, (step_thr_other hw.free hu (by rw [hst]; simp) hs).2.2.2.trans this.2⟩
      · refine ⟨hlog _ h.ev, hlog _ h.exit, fun g r f hst hm ho => ?_, fun f r hst ho => ?_⟩
        · rw [h3] at hst; cases hst; cases hm
        · rw [h3] at hst; cases hst; exact absurd ho (hno h1)

end
end Core
end Itc
