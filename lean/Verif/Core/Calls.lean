import Verif.Props.Lifecycle
import Verif.Core.Cl

/-!
# The results of register_thread(native id) and dispatch, per call (proof infrastructure, no claims)
-/
namespace Itc
namespace Core
section
variable {τ φ δ χ : Type} {C : Client τ φ δ χ} {d : δ} {f0 : φ}

/-- A phase predicate for calls (with the frames `rest` below) that stay inside core frames. -/
structure CPh (C : Client τ φ δ χ) (d : δ) (f0 : φ) (t : Nat) (rest : List (Frame τ φ)) (Φ : CF τ φ → St τ φ δ → Prop) (R : St τ φ δ → Prop) : Prop where
  mono : ∀ {s s' f l}, Reach C d f0 s → step C s l = some s' → Φ f s → Φ f s'
  core : ∀ {s s' f ch}, Reach C d f0 s → s.stk t = .core f :: rest → (s.thr t).exc = none → Φ f s → step C s (.th t ch) = some s' →
    stepCore C s t f rest ch = some s' → (s'.stk t = rest ∧ R s') ∨ ∃ pre g, s'.stk t = pre ++ .core g :: rest ∧ Φ g s'
  task : ∀ {s f k e}, Reach C d f0 s → s.stk t = .core f :: rest → (s.thr t).exc = some e → Φ f s → f.running = some k → Φ (.rethrow e) s
  unw : ∀ {s f}, Φ f s → f.unwinds = false

theorem CPh.own {t : Nat} {Φ : CF τ φ → St τ φ δ → Prop} {R : St τ φ δ → Prop} {rest : List (Frame τ φ)} (P : CPh C d f0 t rest Φ R) {s s' : St τ φ δ} {f : CF τ φ}
    {ch : Ch χ} (hr : Reach C d f0 s) (hst : s.stk t = .core f :: rest) (hΦ : Φ f s) (hs : step C s (.th t ch) = some s') :
    (s'.stk t = rest ∧ R s') ∨ ∃ pre g, s'.stk t = pre ++ .core g :: rest ∧ Φ g s' := by
  cases step_cl hs with
  | cl f' r' d' a hexc hold => rw [hst] at hold; cases hold
  | core f' r' hexc hold hcs hdata hcore => rw [hst] at hold; cases hold; exact P.core hr hst hexc hΦ hs hcore
  | halt e hexc hst' => exact .inr ⟨[], f, by rw [hst', hst]; rfl, P.mono hr hs hΦ⟩
  | task e f' k r' hexc hold hf hst' =>
    rw [hst] at hold; cases hold
    exact .inr ⟨[_], _, hst', P.mono hr hs (P.task hr hst hexc hΦ hf)⟩
  | cpop e f' r' hexc hold hf => rw [hst] at hold; cases hold; rw [P.unw hΦ] at hf; cases hf
  | «catch» e g g' r' hexc hold => rw [hst] at hold; cases hold
  | pop e g r' hexc hold => rw [hst] at hold; cases hold
  | fin hold => rw [hst] at hold; cases hold

theorem CPh.frag {t n : Nat} {Φ : CF τ φ → St τ φ δ → Prop} {R : St τ φ δ → Prop} {rest : List (Frame τ φ)} (P : CPh C d f0 t rest Φ R) {s0 s : St τ φ δ} {f : CF τ φ}
    (hr : Reach C d f0 s0) (hst : s0.stk t = .core f :: rest) (h0 : Φ f s0) (hf : Frag C t rest s0 n s) :
    ∃ pre g, s.stk t = pre ++ .core g :: rest ∧ Φ g s := by
  obtain ⟨pre, f', h1, g, rfl, h2⟩ := Frag.ind (fun _ f s => ∃ g, f = .core g ∧ Φ g s) hr (by
      intro f' hf'
      rw [hst] at hf'
      cases hf'
      exact ⟨_, rfl, h0⟩) (by
      rintro s1 n f1 ch s2 pre f2 hr1 h1 ⟨g, rfl, hg⟩ hs h2
      have : ∃ g, f2 = .core g ∧ Φ g s2 := by
        rcases P.own hr1 h1 hg hs with ⟨h, -⟩ | ⟨p, g', h, hg'⟩
        · exact absurd (h.symm.trans h2) top_ne
        · obtain ⟨-, rfl⟩ := top_uniq (h2.symm.trans h)
          exact ⟨_, rfl, hg'⟩
      exact ⟨fun _ => this, fun _ => this⟩) (by
      rintro s1 n f1 l s2 hr1 ⟨g, rfl, hg⟩ hs - -
      exact ⟨g, rfl, P.mono hr1 hs hg⟩) hf
  exact ⟨pre, g, h1, h2⟩

theorem CPh.fin {t n : Nat} {Φ : CF τ φ → St τ φ δ → Prop} {R : St τ φ δ → Prop} {rest : List (Frame τ φ)} (P : CPh C d f0 t rest Φ R) {s0 s s' : St τ φ δ} {f : CF τ φ}
    {l : Lbl χ} (hr : Reach C d f0 s0) (hst : s0.stk t = .core f :: rest) (h0 : Φ f s0) (hf : Frag C t rest s0 n s)
    (hs : step C s l = some s') (hend : s'.stk t = rest) : R s' := by
  obtain ⟨pre, g, h1, h2⟩ := P.frag hr hst h0 hf
  have hr1 := hf.reach hr
  have hne : s.stk t ≠ [] := by rw [h1]; simp
  cases l with
  | tick m => rw [step_tick _ s s' m hs] at hend; exact absurd (hend.symm.trans h1) top_ne
  | th u ch =>
    by_cases hu : u = t
    · subst hu
      cases pre with
      | nil =>
        rcases P.own hr1 h1 h2 hs with ⟨-, h⟩ | ⟨p, g', h, -⟩
        · exact h
        · exact absurd (hend.symm.trans h) top_ne
      | cons x pre =>
        obtain ⟨new, hn⟩ := step_stk_self hs (g := x) (r := pre ++ .core g :: rest) (by simpa using h1)
        rw [← List.append_assoc] at hn
        exact absurd (hend.symm.trans hn) top_ne
    · rw [step_stk_other hu (FreeOK.reach hr1) hs hne] at hend
      exact absurd (hend.symm.trans h1) top_ne

/-! ## register_thread(native id) -/

def RegPh (n : Nat) : CF τ φ → St τ φ δ → Prop
  | .regLook m, _ => m = some n
  | .regDone c self, s => self = false ∧ ∃ id, Ev.registered c id n ∈ s.log
  | .release _ fn v, s => fn = .register n ∧ ∃ c id, v = .nat id ∧ Ev.registered c id n ∈ s.log
  | .destroyList _ _ fn v, s => fn = .register n ∧ ∃ c id, v = .nat id ∧ Ev.registered c id n ∈ s.log
  | _, _ => False

theorem step_logm {s s' : St τ φ δ} {l : Lbl χ} (hs : step C s l = some s') {e : Ev τ} (h : e ∈ s.log) : e ∈ s'.log := by
  cases l with
  | tick m => rw [step_tick _ s s' m hs]; exact h
  | th t ch => exact log_mono (step_eff _ _ _ _ _ hs) _ h

theorem regPh (t n : Nat) (rest : List (Frame τ φ)) : CPh C d f0 t rest (RegPh n) (fun s => ∃ c id, (s.thr t).rv = .nat id ∧ Ev.registered c id n ∈ s.log) where
  mono {s s' f l} hr hs h := by
    cases f <;> simp only [RegPh] at h ⊢ <;> first | exact h | skip
    · exact ⟨h.1, h.2.imp fun _ => step_logm hs⟩
    · obtain ⟨h1, c, id, h2, h3⟩ := h; exact ⟨h1, c, id, h2, step_logm hs h3⟩
    · obtain ⟨h1, c, id, h2, h3⟩ := h; exact ⟨h1, c, id, h2, step_logm hs h3⟩
  task {s f k e} hr hst he h hf := by cases f <;> first | exact h.elim | cases hf
  unw {s f} h := by cases f <;> first | exact h.elim | rfl
  core {s s' f ch} hr hst he h hs hc := by
    cases f <;> simp only [RegPh] at h <;> first | exact h.elim | skip
    case regLook m =>
      subst h
      simp only [stepCore] at hc
      split at hc
      · cases hc
      split at hc
      · rename_i c hcf
        obtain rfl := Option.some.inj hc
        refine .inr ⟨[], .regDone c false, by simp [St.stk, St.setStk], rfl, (s.ctxs c).id, ?_⟩
        obtain ⟨hm, hnat, -⟩ := (WF.reach hr).toRegOK.find_regId_some hcf
        have := ((LInv.reach hr).regd c _ n).2 ⟨((WF.reach hr).mem _ _ hm).1, rfl, hnat⟩
        exact step_logm hs this
      · obtain rfl := Option.some.inj hc
        exact .inr ⟨[], .regDone s.nctx false, by simp [St.stk, St.setStk], rfl, s.regId n, by simp [St.ev, St.setStk]⟩
    case regDone c self =>
      obtain ⟨rfl, id, h⟩ := h
      simp only [stepCore] at hc
      obtain rfl := Option.some.inj hc
      obtain ⟨h1, h2, h3⟩ := ((LInv.reach hr).regd c id n).1 h
      exact .inr ⟨[], .release c (.register n) (.nat id), by simp [St.stk, St.setStk, h2, h3], rfl, c, id, rfl, by simpa [St.setStk] using h⟩
    case release c fn v =>
      obtain ⟨rfl, c', id, rfl, h⟩ := h
      simp only [stepCore] at hc
      split at hc <;> obtain rfl := Option.some.inj hc
      · exact .inr ⟨[], .destroyList c _ (.register n) (.nat id), by simp [St.stk, St.setStk]; rfl, rfl, c', id, rfl, by simp [St.setStk, h]⟩
      · exact .inl ⟨by simp [St.stk, St.ret], c', id, by simp [St.ret], by simp [St.ret, St.ev, St.setCtx, h]⟩
    case destroyList c l fn v =>
      obtain ⟨rfl, c', id, rfl, h⟩ := h
      cases l with
      | cons k l =>
        simp only [stepCore] at hc
        obtain rfl := Option.some.inj hc
        exact .inr ⟨[_], .destroyList c l (.register n) (.nat id), by simp [St.stk, St.setStk]; rfl, rfl, c', id, rfl, by simp [St.setStk, h]⟩
      | nil =>
        simp only [stepCore] at hc
        obtain rfl := Option.some.inj hc
        exact .inl ⟨by simp [St.stk, St.ret], c', id, by simp [St.ret], by simp [St.ret, St.ev, St.setCtx, h]⟩

/-! ## dispatch -/

def DisPh (t id : Nat) (k : τ) : CF τ φ → St τ φ δ → Prop
  | .dispatch i k', _ => i = id ∧ k' = k
  | .invLook i k' own, _ => i = id ∧ k' = k ∧ own = true
  | .invPush c k', s => k' = k ∧ ∃ n, Ev.registered c id n ∈ s.log
  | .release _ _ _, s => ∃ c, Ev.accepted t c id k ∈ s.log
  | .destroyList _ _ _ _, s => ∃ c, Ev.accepted t c id k ∈ s.log
  | .dispRan _, s => Ev.inlined t id k ∈ s.log
  | .rethrow _, s => Ev.inlined t id k ∈ s.log
  | .retv none, s => Ev.inlined t id k ∈ s.log
  | .retv (some _), s => Ev.refused t id k ∈ s.log
  | _, _ => False

/-- How a `dispatch` ended. -/
def DisR (t id : Nat) (k : τ) (l : List (Ev τ)) : Prop := (∃ c, Ev.accepted t c id k ∈ l) ∨ Ev.inlined t id k ∈ l ∨ Ev.refused t id k ∈ l

theorem disPh (t id : Nat) (k : τ) (rest : List (Frame τ φ)) : CPh C d f0 t rest (DisPh t id k) (fun s => DisR t id k s.log) where
  mono {s s' f l} hr hs h := by
    cases f <;> simp only [DisPh] at h ⊢ <;> first | exact h | skip
    case invPush => exact ⟨h.1, h.2.imp fun _ => step_logm hs⟩
    case retv o => cases o <;> exact step_logm hs h
    all_goals first | exact step_logm hs h | exact h.imp fun _ => step_logm hs
  task {s f k e} hr hst he h hf := by cases f <;> first | exact h.elim | (cases hf; done) | exact h
  unw {s f} h := by cases f <;> first | exact h.elim | rfl
  core {s s' f ch} hr hst he h hs hc := by
    cases f <;> simp only [DisPh] at h <;> first | exact h.elim | skip
    case dispatch i k' =>
      obtain ⟨rfl, rfl⟩ := h
      simp only [stepCore] at hc
      split at hc <;> obtain rfl := Option.some.inj hc
      · exact .inr ⟨[_], .dispRan k', by simp [St.stk, St.setStk]; rfl, by simp [DisPh, St.ev, St.setStk]⟩
      · exact .inr ⟨[], .invLook i k' true, by simp [St.stk, St.setStk], rfl, rfl, rfl⟩
    case invLook i k' own =>
      obtain ⟨rfl, rfl, rfl⟩ := h
      simp only [stepCore] at hc
      have rf : ∀ {s'}, (if true = true then some ((s.ev (.refused t i k')).setStk t (.client (C.destroy k') :: .core (.retv (some i)) :: rest))
          else some ((s.ev (.refused t i k')).ret t rest (.invoke i) (.bool false))) = some s' →
          (s'.stk t = rest ∧ DisR t i k' s'.log) ∨ ∃ pre g, s'.stk t = pre ++ .core g :: rest ∧ DisPh t i k' g s' := by
        intro s' h
        simp only [if_true, Option.some.injEq] at h
        subst h
        exact .inr ⟨[_], .retv (some i), by simp [St.stk, St.setStk]; rfl, by simp [DisPh, St.ev, St.setStk]⟩
      split at hc
      · exact rf hc
      split at hc
      · cases hc
      split at hc
      · exact rf hc
      · rename_i c hcf
        obtain rfl := Option.some.inj hc
        refine .inr ⟨[], .invPush c k', by simp [St.stk, St.setStk], rfl, (s.ctxs c).native, ?_⟩
        obtain ⟨h1, h2⟩ := (WF.reach hr).mem _ _ (find_some hcf)
        have := ((LInv.reach hr).regd c i _).2 ⟨h1, h2.1, rfl⟩
        exact step_logm hs this
    case invPush c k' =>
      obtain ⟨rfl, n, h⟩ := h
      obtain ⟨h1, h2, h3⟩ := ((LInv.reach hr).regd c id n).1 h
      simp only [stepCore] at hc
      split at hc <;> obtain rfl := Option.some.inj hc
      · exact .inr ⟨[], .invPush c k', hst, rfl, n, h⟩
      · exact .inr ⟨[], .release c _ _, by simp [St.stk, St.setStk]; exact ⟨rfl, rfl⟩, c, by simp [St.setStk, St.ev, h2]⟩
    case release c fn v =>
      simp only [stepCore] at hc
      split at hc <;> obtain rfl := Option.some.inj hc
      · exact .inr ⟨[], .destroyList c _ fn v, by simp [St.stk, St.setStk]; rfl, by simpa [DisPh, St.setStk] using h⟩
      · exact .inl ⟨by simp [St.stk, St.ret], .inl (by simpa [St.ret, St.ev, St.setCtx] using h)⟩
    case destroyList c l fn v =>
      cases l with
      | cons k l =>
        simp only [stepCore] at hc
        obtain rfl := Option.some.inj hc
        exact .inr ⟨[_], .destroyList c l fn v, by simp [St.stk, St.setStk]; rfl, by simpa [DisPh, St.setStk] using h⟩
      | nil =>
        simp only [stepCore] at hc
        obtain rfl := Option.some.inj hc
        exact .inl ⟨by simp [St.stk, St.ret], .inl (by simpa [St.ret, St.ev, St.setCtx] using h)⟩
    case retv o =>
      cases o <;> simp only [stepCore] at hc <;> obtain rfl := Option.some.inj hc
      · exact .inl ⟨by simp [St.stk, St.ret], .inr (.inl (by simpa [St.ret, St.ev] using h))⟩
      · exact .inl ⟨by simp [St.stk, St.ret], .inr (.inr (by simpa [St.ret, St.ev] using h))⟩
    case dispRan k' =>
      simp only [stepCore] at hc
      obtain rfl := Option.some.inj hc
      exact .inr ⟨[_], .retv none, by simp [St.stk, St.setStk]; rfl, by simpa [DisPh, St.setStk] using h⟩
    case rethrow e =>
      simp only [stepCore] at hc
      obtain rfl := Option.some.inj hc
      exact .inl ⟨by simp [St.stk], .inr (.inl (by simpa [St.setStk] using h))⟩

end
end Core
end Itc
