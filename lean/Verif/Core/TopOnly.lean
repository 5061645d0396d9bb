import Verif.Core.Calls
import Verif.Core.Cl
import Verif.Core.Top

/-!
# Frames that never wait for a callee (proof infrastructure, no claims)
-/
namespace Itc
namespace Core
section
variable {τ φ δ χ : Type} {C : Client τ φ δ χ} {d : δ} {f0 : φ} {s s' : St τ φ δ}

theorem split_at {β : Type} {l1 l2 new r : List β} {x : β} (h : new ++ r = l1 ++ x :: l2) : (∃ p, new = l1 ++ x :: p ∧ l2 = p ++ r) ∨ ∃ p, l1 = new ++ p ∧ r = p ++ x :: l2 := by
  induction new generalizing l1 with
  | nil => exact .inr ⟨l1, rfl, h⟩
  | cons y new ih =>
    cases l1 with
    | nil =>
      simp only [List.cons_append, List.nil_append, List.cons.injEq] at h
      obtain ⟨rfl, rfl⟩ := h
      exact .inl ⟨new, rfl, rfl⟩
    | cons z l1 =>
      simp only [List.cons_append, List.cons.injEq] at h
      obtain ⟨rfl, h⟩ := h
      rcases ih h with ⟨p, rfl, rfl⟩ | ⟨p, rfl, rfl⟩
      · exact .inl ⟨p, rfl, rfl⟩
      · exact .inr ⟨p, rfl, rfl⟩

/-- Client frames are pushed by the core on top only. -/
theorem CTo.head {t : Nat} {f : CF τ φ} {new : List (Frame τ φ)} (h : CTo C s t f new) {pre p : List (Frame τ φ)} {k : φ}
    (hn : new = pre ++ .client k :: p) : pre = [] := by
  cases h <;> cases pre with
  | nil => rfl
  | cons x pre =>
    exfalso
    simp only [List.cons_append, List.cons.injEq] at hn
    have hn := hn.2
    cases pre with
    | nil => simp at hn
    | cons y pre => have := congrArg List.length hn; simp at this

/-- A frame that is not the continuation of a call, and does not handle exceptions, is on top of its stack, and there is no exception. -/
theorem top_only {G : φ → Prop} (hc : ∀ {v d f rv ch d' a k}, C.step v d f rv ch = some (d', a) → (∃ g, a = .push g k) ∨ (∃ b, a = .call b k) → ¬ G k)
    (ht : ∀ {g e g'}, C.onThrow g e = some g' → ¬ G g') (hr : Reach C d f0 s) {t : Nat} {pre : List (Frame τ φ)} {k : φ} {rest : List (Frame τ φ)}
    (hst : s.stk t = pre ++ .client k :: rest) (hk : G k) : pre = [] ∧ (s.thr t).exc = none := by
  refine Reach.induct (fun s : St τ φ δ => ∀ t pre k rest, s.stk t = pre ++ .client k :: rest → G k → pre = [] ∧ (s.thr t).exc = none) ?_ ?_ hr t pre k rest hst hk
  · intro t pre k rest hst hk
    by_cases h1 : t = 0
    · subst h1
      refine ⟨?_, by simp [Core.init]⟩
      simp only [Core.init, St.stk, upd_same] at hst
      cases pre with
      | nil => rfl
      | cons x pre => have := congrArg List.length hst; simp at this
    · simp [Core.init, St.stk, upd_ne _ _ h1] at hst
  clear hst hk hr
  intro s l s' hr q hs
  cases l with
  | tick n => rw [step_tick _ s s' n hs]; exact q
  | th u ch =>
    intro t pre k rest hst hk
    by_cases hu : t = u
    · subst hu
      have old : ∀ {top r0 new}, s.stk t = top :: r0 → s'.stk t = new ++ r0 → ∃ p, new = pre ++ .client k :: p := by
        intro top r0 new h1 h2
        rw [hst] at h2
        rcases split_at h2.symm with ⟨p, h, -⟩ | ⟨p, rfl, hp⟩
        · exact ⟨p, h⟩
        · have := (q t (top :: p) k rest (by rw [h1, hp]; rfl) hk).1
          cases this
      have one : ∀ {x : Frame τ φ} {p}, [x] = pre ++ .client k :: p → pre = [] := by
        intro x p h
        cases pre with
        | nil => rfl
        | cons y pre => have := congrArg List.length h; simp at this
      cases step_cl hs with
      | halt e hexc hst' => rw [(q t pre k rest (hst' ▸ hst) hk).2] at hexc; cases hexc
      | fin hold hst' => rw [hst'] at hst; simp at hst
      | task e f k' r0 hexc hold hf hst' hexc' =>
        obtain ⟨p, hp⟩ := old (new := [_, _]) hold hst'
        refine ⟨?_, hexc'⟩
        cases pre with
        | nil => rfl
        | cons y pre =>
          cases pre with
          | nil => simp at hp
          | cons z pre => have := congrArg List.length hp; simp at this
      | cpop e f r0 hexc hold hf hst' => obtain ⟨p, hp⟩ := old (new := []) hold hst'; simp at hp
      | «catch» e g g' r0 hexc hold hg hst' =>
        obtain ⟨p, hp⟩ := old (new := [_]) hold hst'
        obtain rfl := one hp
        cases hp
        exact absurd hk (ht hg)
      | pop e g r0 hexc hold hg hst' => obtain ⟨p, hp⟩ := old (new := []) hold hst'; simp at hp
      | core f r0 hexc hold hcs hdata hcore =>
        cases hcs with
        | «to» new h hst' hexc' hrv =>
          obtain ⟨p, hp⟩ := old hold hst'
          exact ⟨h.head hp, hexc'⟩
        | pop v h hst' => obtain ⟨p, hp⟩ := old (new := []) hold hst'; simp at hp
        | rethrow e h hst' => obtain ⟨p, hp⟩ := old (new := []) hold hst'; simp at hp
        | ub h hst' he => exact ⟨(q t pre k rest (hst' ▸ hst) hk).1, he⟩
      | cl f r0 d' a hexc hold hstep hdata hact =>
        cases a with
        | goto y => obtain ⟨p, hp⟩ := old (new := [_]) hold hact.1; exact ⟨one hp, hact.2.1⟩
        | push y z =>
          obtain ⟨p, hp⟩ := old (new := [_, _]) hold hact.1
          refine ⟨?_, hact.2.1⟩
          cases pre with
          | nil => rfl
          | cons y pre =>
            cases pre with
            | nil => simp at hp; obtain ⟨-, rfl, -⟩ := hp; exact absurd hk (hc hstep (.inl ⟨_, rfl⟩))
            | cons z pre => have := congrArg List.length hp; simp at this
        | call b y =>
          obtain ⟨p, hp⟩ := old (new := [_, _]) hold hact.1
          refine ⟨?_, hact.2.1⟩
          cases pre with
          | nil => rfl
          | cons y pre =>
            cases pre with
            | nil => simp at hp; obtain ⟨-, rfl, -⟩ := hp; exact absurd hk (hc hstep (.inr ⟨_, rfl⟩))
            | cons z pre => have := congrArg List.length hp; simp at this
        | ret v => obtain ⟨p, hp⟩ := old (new := []) hold hact.1; simp at hp
        | throw e => obtain ⟨p, hp⟩ := old (new := []) hold hact.1; simp at hp
        | terminate => exact ⟨(q t pre k rest (hact.1 ▸ hst) hk).1, hact.2.2⟩
    · rcases step_stk_other' (FreeOK.reach hr) hu hs with h1 | ⟨h0, f, h1⟩
      · have h2 := q t pre k rest (h1 ▸ hst) hk
        refine ⟨h2.1, ?_⟩
        rw [(step_thr_other (FreeOK.reach hr) hu (by rw [← h1, hst]; simp) hs).2.2.1]
        exact h2.2
      · rcases step_oth (FreeOK.reach hr) hu hs with ⟨h2, -⟩ | ⟨f, r, -, -, -, h2, h3⟩
        · rw [h0, h1] at h2; cases h2
        · refine ⟨?_, h3⟩
          rw [h1] at hst
          cases pre with
          | nil => rfl
          | cons x pre => have := congrArg List.length hst; simp at this

end
end Core
end Itc
