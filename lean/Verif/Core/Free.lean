import Verif.Core.Eff

/-! # Threads that are not running have no stack (proof infrastructure) -/
namespace Itc
namespace Core
section
variable {τ φ δ χ : Type}

/-- A thread slot that is not running is empty. -/
def FreeOK (s : St τ φ δ) : Prop :=
  ∀ n, (s.thr n).status ≠ .running → (s.thr n).stack = [] ∧ (s.thr n).loc = none ∧ (s.thr n).exc = none

/-- Only thread `t` changed and it is still running. -/
def OnlyT (s s' : St τ φ δ) (t : Nat) : Prop :=
  ∃ x : Thr τ φ, s'.thr = upd s.thr t x ∧ x.status = .running ∧ x.detached = (s.thr t).detached

theorem stepCore_thr (C : Client τ φ δ χ) (s s' : St τ φ δ) (t : Nat) (f : CF τ φ) (rest : List (Frame τ φ))
    (ch : Ch χ) (hrun : (s.thr t).status = .running)
    (h : stepCore C s t f rest ch = some s') :
    OnlyT s s' t ∨
    (∃ n f, (s.thr n).status = .free ∧ s'.thr = upd (upd s.thr n { status := .running, stack := [.client f] }) t
      { s.thr t with stack := rest, rv := .unit }) ∨
    (∃ n, (s.thr n).status = .zombie ∧ s'.thr = upd (upd s.thr n { s.thr n with status := .free }) t
      { s.thr t with stack := rest, rv := .unit }) ∨
    (∃ n, (s.thr n).status = .running ∧ s'.thr = upd (upd s.thr n { s.thr n with detached := true }) t
      { upd s.thr n { s.thr n with detached := true } t with stack := rest, rv := .unit }) := by
  have hid : s.thr = upd s.thr t (s.thr t) := (upd_self _ _).symm
  cases f
  case spawnIn n f =>
    simp only [stepCore] at h
    split at h
    · rename_i hfr
      have hne : t ≠ n := by rintro rfl; rw [hrun] at hfr; simp at hfr
      obtain rfl := Option.some.inj h
      exact .inr (.inl ⟨n, f, hfr, by simp [St.ret, upd_ne _ _ hne]⟩)
    · exact absurd h (by simp)
  case joinIn n =>
    simp only [stepCore] at h
    split at h
    · rename_i hfr
      have hne : t ≠ n := by rintro rfl; rw [hrun] at hfr; simp at hfr
      obtain rfl := Option.some.inj h
      exact .inr (.inr (.inl ⟨n, hfr, by simp [St.ret, upd_ne _ _ hne]⟩))
    · exact absurd h (by simp)
  case detachIn n =>
    simp only [stepCore] at h
    split at h
    · rename_i hfr
      have hne : t ≠ n := by rintro rfl; rw [hrun] at hfr; simp at hfr
      obtain rfl := Option.some.inj h
      exact .inr (.inr (.inl ⟨n, hfr, by simp [St.ret, upd_ne _ _ hne]⟩))
    · rename_i hfr
      obtain rfl := Option.some.inj h
      exact .inr (.inr (.inr ⟨n, hfr, rfl⟩))
    · obtain rfl := Option.some.inj h
      exact .inl ⟨_, rfl, hrun, rfl⟩
  case sdNotify l T =>
    left
    cases l <;> simp only [stepCore] at h
    all_goals repeat' split at h
    all_goals first
      | contradiction
      | (obtain rfl := Option.some.inj h
         first
         | exact ⟨_, rfl, hrun, rfl⟩
         | exact ⟨_, hid, hrun, rfl⟩)
  case destroyList c l f v =>
    left
    cases l <;> simp only [stepCore] at h
    all_goals repeat' split at h
    all_goals first
      | contradiction
      | (obtain rfl := Option.some.inj h
         first
         | exact ⟨_, rfl, hrun, rfl⟩
         | exact ⟨_, hid, hrun, rfl⟩)
  all_goals
    left
    simp only [stepCore] at h
    repeat' split at h
  all_goals first
    | contradiction
    | (obtain rfl := Option.some.inj h
       first
       | exact ⟨_, rfl, hrun, rfl⟩
       | exact ⟨_, hid, hrun, rfl⟩
       | exact ⟨{ s.thr t with loc := some _, stack := _ }, upd_upd _ _ _ _ |>.trans (by simp; rfl), hrun, rfl⟩
       | exact ⟨{ s.thr t with loc := none, stack := rest, rv := .unit }, by simp [St.ret], hrun, rfl⟩)

theorem FreeOK.step {C : Client τ φ δ χ} {s s' : St τ φ δ} (hok : FreeOK s) (l : Lbl χ)
    (h : step C s l = some s') : FreeOK s' := by
  cases l with
  | tick n => rw [step_tick C s s' n h]; exact hok
  | th t ch =>
    simp only [Core.step] at h
    split at h
    · exact absurd h (by simp)
    split at h
    · exact absurd h (by simp)
    rename_i hrun
    have hrun : (s.thr t).status = .running := by simpa using hrun
    have only : OnlyT s s' t → FreeOK s' := by
      rintro ⟨x, hx, hr, -⟩ n hn
      rw [hx] at hn ⊢
      by_cases hnt : n = t
      · subst hnt; simp [hr] at hn
      · simp only [upd_ne _ _ hnt] at hn ⊢; exact hok n hn
    split at h
    · obtain rfl := Option.some.inj h
      apply only
      have hid : s.thr = upd s.thr t (s.thr t) := (upd_self _ _).symm
      generalize (s.thr t).stack = stk
      unfold stepExc
      repeat' split
      all_goals first
        | exact ⟨_, rfl, hrun, rfl⟩
        | exact ⟨_, hid, hrun, rfl⟩
    · split at h
      · obtain rfl := Option.some.inj h
        intro n hn
        by_cases hnt : n = t
        · subst hnt; simp [stepEnd]
        · simp only [stepEnd, upd_ne _ _ hnt] at hn ⊢; exact hok n hn
      · rename_i f rest hs
        rcases stepCore_thr C s s' t f rest ch hrun h with ho | ⟨n, g, hf, he⟩ | ⟨n, hf, he⟩ | ⟨n, hf, he⟩
        · exact only ho
        · intro m hm
          rw [he] at hm ⊢
          by_cases hmt : m = t
          · subst hmt; simp [hrun] at hm
          · simp only [upd_ne _ _ hmt] at hm ⊢
            by_cases hmn : m = n
            · subst hmn; simp at hm
            · simp only [upd_ne _ _ hmn] at hm ⊢; exact hok m hm
        · intro m hm
          rw [he] at hm ⊢
          by_cases hmt : m = t
          · subst hmt; simp [hrun] at hm
          · simp only [upd_ne _ _ hmt] at hm ⊢
            by_cases hmn : m = n
            · subst hmn; simp only [upd_same]; exact hok m (by simp [hf])
            · simp only [upd_ne _ _ hmn] at hm ⊢; exact hok m hm
        · intro m hm
          rw [he] at hm ⊢
          by_cases hmt : m = t
          · subst hmt
            by_cases hmn : m = n
            · subst hmn; simp [hrun] at hm
            · simp [upd_ne _ _ hmn, hrun] at hm
          · simp only [upd_ne _ _ hmt] at hm ⊢
            by_cases hmn : m = n
            · subst hmn; simp [hf] at hm
            · simp only [upd_ne _ _ hmn] at hm ⊢; exact hok m hm
      · rename_i f rest hs
        apply only
        have hid : s.thr = upd s.thr t (s.thr t) := (upd_self _ _).symm
        simp only [stepClient] at h
        repeat' split at h
        all_goals first
          | contradiction
          | (obtain rfl := Option.some.inj h
             first
             | exact ⟨_, rfl, hrun, rfl⟩
             | exact ⟨_, hid, hrun, rfl⟩)

theorem FreeOK.init (d : δ) (f : φ) : FreeOK (Core.init d f : St τ φ δ) := by
  intro n hn
  by_cases h : n = 0
  · subst h; simp [Core.init] at hn
  · simp [Core.init, upd_ne _ _ h]

theorem FreeOK.reach {C : Client τ φ δ χ} {d : δ} {f : φ} {s : St τ φ δ} (h : Reach C d f s) : FreeOK s :=
  Reach.induct FreeOK (.init d f) (fun _ l _ _ ho hs => FreeOK.step ho l hs) h

end
end Core
end Itc
