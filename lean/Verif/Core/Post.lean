import Verif.Core.Gen
import Verif.Core.Log

/-!
# Where queued tasks come from (proof infrastructure, no claims)

`Post`: a fact about every (thread, target id, task) handed to invoke / invoke_packaged_task / dispatch by the client.  It holds
for every task accepted by a queue, with the thread that accepted it and the id of the queue's owner.
-/
namespace Itc
namespace Core
section
variable {τ φ δ χ : Type}

/-- What an api call posts. -/
def Api.post : Api τ φ → Option (Nat × τ)
  | .invoke i k => some (i, k)
  | .invokePackaged i k => some (i, k)
  | .dispatch i k => some (i, k)
  | _ => none

/-- What a core frame is about to post. -/
def CF.post (ctxs : Nat → Ctx τ) : CF τ φ → Option (Nat × τ)
  | .invLook i k _ => some (i, k)
  | .invPush c k => some ((ctxs c).id, k)
  | .dispatch i k => some (i, k)
  | _ => none

structure Post (C : Client τ φ δ χ) (J : St τ φ δ → Prop) where
  P : δ → Nat → Nat → τ → Prop
  step : ∀ {s : St τ φ δ} {t f rest ch d' a}, J s → (s.thr t).exc = none → s.stk t = .client f :: rest →
    C.step (s.view t) s.data f (s.thr t).rv ch = some (d', a) →
    (∀ u i k, P s.data u i k → P d' u i k) ∧ (∀ api f' i k, a = .call api f' → api.post = some (i, k) → P d' t i k)

structure Post.Ok {C : Client τ φ δ χ} {J : St τ φ δ → Prop} (T : Post C J) (s : St τ φ δ) : Prop where
  fr : ∀ t f i k, .core f ∈ s.stk t → f.post s.ctxs = some (i, k) → T.P s.data t i k
  log : ∀ t c i k, Ev.accepted t c i k ∈ s.log → T.P s.data t i k

theorem Api.entry_post {a : Api τ φ} (ctxs : Nat → Ctx τ) : a.entry.post ctxs = a.post := by cases a <;> rfl

theorem accepted_new {C : Client τ φ δ χ} {s s' : St τ φ δ} {t u c i : Nat} {k : τ} (he : Eff C s t s') (h : Ev.accepted u c i k ∈ s'.log) :
    Ev.accepted u c i k ∈ s.log ∨ u = t ∧ i = (s.ctxs c).id ∧ ∃ rest, s.stk t = .core (.invPush c k) :: rest := by
  cases he
  case invPush c' k' rest hreg hold halive hctx hloc hstk hlog =>
    rw [hlog] at h
    simp only [List.mem_cons, Ev.accepted.injEq] at h
    rcases h with ⟨rfl, rfl, rfl, rfl⟩ | h
    · exact .inr ⟨rfl, rfl, rest, hold⟩
    · exact .inl h
  case ctl es _ _ _ _ _ _ _ _ _ _ _ hlog hes _ _ =>
    rw [hlog] at h
    rcases List.mem_append.1 h with h | h
    · have := hes _ h; simp [Ev.neutral] at this
    · exact .inl h
  all_goals
    left
    grind [Ev.neutral]

theorem Post.sound {C : Client τ φ δ χ} {J : St τ φ δ → Prop} (T : Post C J) {d : δ} {f : φ}
    (hJ : ∀ s, Reach C d f s → J s) {s : St τ φ δ} (h : Reach C d f s) : T.Ok s := by
  refine Reach.induct T.Ok ?_ ?_ h
  · refine ⟨?_, by simp [Core.init]⟩
    intro t g i k hg
    by_cases ht : t = 0
    · subst ht; simp [Core.init, St.stk] at hg
    · simp [Core.init, St.stk, upd_ne _ _ ht] at hg
  · intro s l s' hr q hs
    cases l with
    | tick n => rw [step_tick C s s' n hs]; exact ⟨q.fr, q.log⟩
    | th t ch =>
      have he := step_eff C s s' t ch hs
      have keep : ∀ {u : Nat} {f : CF τ φ} {i : Nat} {k : τ}, .core f ∈ s.stk u → f.post s'.ctxs = some (i, k) → f.post s.ctxs = some (i, k) := by
        intro u f i k hf hp
        cases f <;> first | exact hp | skip
        rename_i c k'
        have hc := ((WF.reach hr).held hf (c := c) (by simp [Frame.holds])).1
        simp only [CF.post] at hp ⊢
        rw [(same_id he c hc).2] at hp
        exact hp
      have main : (∀ u i k, T.P s.data u i k → T.P s'.data u i k) →
          (∀ f i k, .core f ∈ s'.stk t → f.post s'.ctxs = some (i, k) → .core f ∈ s.stk t ∨ T.P s'.data t i k) → T.Ok s' := by
        intro h1 h2
        refine ⟨?_, ?_⟩
        · intro u f i k hf hp
          by_cases hu : u = t
          · subst hu
            rcases h2 f i k hf hp with h | h
            · exact h1 _ _ _ (q.fr u f i k h (keep h hp))
            · exact h
          · rcases hr.stk_oth hu hs with ⟨h, -⟩ | ⟨g, rest, h, -, -, h3, -⟩
            · rw [h] at hf
              exact h1 _ _ _ (q.fr u f i k hf (keep hf hp))
            · rw [h3] at hf; simp at hf
        · intro u c i k h
          rcases accepted_new he h with h | ⟨rfl, rfl, rest, h⟩
          · exact h1 _ _ _ (q.log _ _ _ _ h)
          · exact h1 _ _ _ (q.fr u (.invPush c k) _ k (by rw [h]; simp) rfl)
      rcases step_cl hs with ⟨f, rest, d', a, hexc, hold, hstep, hdata, hact, -⟩ | ⟨f, rest, hexc, hold, hcs, hdata, -⟩ | ⟨e, hexc, hst, -, -, hdata, -⟩ |
        ⟨e, f, k, rest, hexc, hold, hf, hst, -, hdata, -⟩ | ⟨e, f, rest, hexc, hold, hf, hst, -, hdata, -⟩ |
        ⟨e, g, g', rest, hexc, hold, hg, hst, -, hdata, -⟩ | ⟨e, g, rest, hexc, hold, hg, hst, -, hdata, -⟩ | ⟨hold, hst, -, hdata, -⟩
      · obtain ⟨h1, h2⟩ := T.step (hJ s hr) hexc hold hstep
        rw [← hdata] at h1 h2
        refine main h1 ?_
        intro g i k hg hp
        have hrest : Frame.core g ∈ rest → Frame.core g ∈ s.stk t := fun h => by rw [hold]; simp [h]
        cases a <;> simp only [ActTo] at hact <;> rw [hact.1] at hg <;>
          try simp only [List.mem_cons, Frame.core.injEq, reduceCtorEq, false_or] at hg
        · exact .inl (hrest hg)
        · exact .inl (hrest hg)
        · rcases hg with rfl | hg
          · exact .inr (h2 _ _ _ _ rfl (by rw [← Api.entry_post s'.ctxs]; exact hp))
          · exact .inl (hrest hg)
        · exact .inl (hrest hg)
        · exact .inl (hrest hg)
        · exact .inl hg
      · have hrest : ∀ g, Frame.core g ∈ rest → Frame.core g ∈ s.stk t := fun g h => by rw [hold]; simp [h]
        refine main (by rw [hdata]; exact fun _ _ _ h => h) ?_
        intro g i k hg hp
        rw [hdata]
        rcases hcs with ⟨new, h, hst, -⟩ | ⟨v, -, hst, -⟩ | ⟨e, -, hst, -⟩ | ⟨-, hst, -⟩
        · rw [hst] at hg
          rcases List.mem_append.1 hg with hg | hg
          · right
            cases h <;> simp only [List.mem_cons, List.not_mem_nil, or_false, Frame.core.injEq, reduceCtorEq, false_or] at hg <;>
              (try subst hg) <;> (try (rcases hg with rfl | rfl)) <;> first | (cases hp; done) | skip
            case invFound id k' own c hfind =>
              obtain ⟨hc, hid, -⟩ := mem_of_find (WF.reach hr) hfind
              simp only [CF.post, (same_id he c hc).2, hid, Option.some.injEq, Prod.mk.injEq] at hp
              obtain ⟨rfl, rfl⟩ := hp
              exact q.fr t (.invLook id k' own) _ _ (by rw [hold]; simp) rfl
            case dispInv id k' h =>
              simp only [CF.post, Option.some.injEq, Prod.mk.injEq] at hp
              obtain ⟨rfl, rfl⟩ := hp
              exact q.fr t (.dispatch id k') _ _ (by rw [hold]; simp) rfl
            all_goals cases hp
          · exact .inl (hrest g hg)
        · rw [hst] at hg; exact .inl (hrest g hg)
        · rw [hst] at hg; exact .inl (hrest g hg)
        · rw [hst] at hg; exact .inl hg
      all_goals
        refine main (by rw [hdata]; exact fun _ _ _ h => h) ?_
        intro g' i k hg hp
        left
        rw [hst] at hg
        first
          | exact hg
          | (rw [hold]; simp only [List.mem_cons, Frame.core.injEq, reduceCtorEq, false_or] at hg ⊢; first | exact hg | exact .inr hg)
          | (exfalso; simp at hg; done)
          | (simp only [List.mem_cons, Frame.core.injEq, reduceCtorEq, false_or] at hg
             rcases hg with rfl | hg
             · cases hp
             · rw [hold]; simp [hg])

end
end Core
end Itc
