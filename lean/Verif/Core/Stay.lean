import Verif.Core.Called
import Verif.Core.Keep
import Verif.Props.Calls

/-!
# Registering and waiting (proof infrastructure, no claims)

What is known after certain calls, see `Core.Called`.
-/
namespace Itc
namespace Core
section
variable {τ φ δ χ : Type} {C : Client τ φ δ χ} {d : δ} {f0 : φ} {s s' : St τ φ δ}

theorem spPh (t n : Nat) (g : φ) (rest : List (Frame τ φ)) : CPh C d f0 t rest (fun f _ => f = .spawnIn n g) (fun _ => n ≠ t) where
  mono _ _ h := h
  task _ _ _ h hf := by subst h; cases hf
  unw h := by subst h; rfl
  core {s s' f ch} hr hst he h hs hc := by
    subst h
    have hrun : (s.thr t).status = .running := by
      simp only [step] at hs
      split at hs
      · contradiction
      split at hs
      · contradiction
      · rename_i h; simpa using h
    simp only [stepCore] at hc
    split at hc
    · rename_i hfree
      obtain rfl := Option.some.inj hc
      exact .inl ⟨by simp [St.ret, St.stk], by rintro rfl; rw [hrun] at hfree; cases hfree⟩
    · contradiction

/-- A thread that has been started is another one. -/
theorem AfterCall.spawn {t : Nat} {a : Frame τ φ} {k : φ} {rest : List (Frame τ φ)} (h : AfterCall C d f0 t a k rest s) {n : Nat} {g : φ}
    (ha : a = .core (.spawnIn n g)) : n ≠ t := by
  obtain ⟨sp, s0, f, m, s1, l1, s2, h1, h3, h4, h5, h6, h7⟩ := h
  exact (spPh t n g _).fin h1.reach (by rw [h1.2.2.1, ha]) rfl h3 h4 h5

/-- Phases of `register_this_thread`. -/
def RsPh (t : Nat) (rest : List (Frame τ φ)) (g : Frame τ φ) (s : St τ φ δ) : Prop :=
  s.stk t = g :: rest ∧ (g = .core (.regLook none) ∨ (∃ c, g = .core (.regDone c true)) ∨
    ∃ c fn v, g = .core (.release c fn v) ∧ s.loc t = some c ∧ InReg s c)

theorem rs_env {t : Nat} {rest : List (Frame τ φ)} {g : Frame τ φ} (hr : Reach C d f0 s) (h : RsPh t rest g s) {l : Lbl χ}
    (hs : step C s l = some s') (hl : ∀ ch, l ≠ .th t ch) : RsPh t rest g s' := by
  cases l with
  | tick n => rw [step_tick _ s s' n hs]; exact h
  | th u ch =>
    have hu : t ≠ u := by rintro rfl; exact hl ch rfl
    have hne : s.stk t ≠ [] := by rw [h.1]; simp
    have ho := step_thr_other (FreeOK.reach hr) hu hne hs
    refine ⟨ho.1.trans h.1, ?_⟩
    rcases h.2 with h | h | ⟨c, fn, v, h1, h2, h3⟩
    · exact .inl h
    · exact .inr (.inl h)
    · exact .inr (.inr ⟨c, fn, v, h1, ho.2.2.2.trans h2, (pend_keep (WF.reach hr) (step_eff C s s' u ch hs) hu h2 h3).1⟩)

theorem rs_own {t : Nat} {rest : List (Frame τ φ)} {g : Frame τ φ} (hr : Reach C d f0 s) (h : RsPh t rest g s) {ch : Ch χ}
    (hs : step C s (.th t ch) = some s') : (∃ g', RsPh t rest g' s') ∨ s'.stk t = rest ∧ ∃ c, s'.loc t = some c := by
  obtain ⟨g', rfl⟩ : ∃ g', g = .core g' := by rcases h.2 with rfl | ⟨c, rfl⟩ | ⟨c, fn, v, rfl, -⟩ <;> exact ⟨_, rfl⟩
  rcases step_core hs h.1 with ⟨-, hc⟩ | ⟨e, -, rfl⟩
  · rcases h.2 with h1 | ⟨c, h1⟩ | ⟨c, fn, v, h1, h2, h3⟩ <;> cases h1
    · simp only [stepCore] at hc
      split at hc
      · contradiction
      split at hc <;> obtain rfl := Option.some.inj hc
      · rename_i c hc
        exact .inl ⟨.core (.regDone c true), by simp [St.stk, St.setStk], .inr (.inl ⟨c, rfl⟩)⟩
      · exact .inl ⟨.core (.regDone s.nctx true), by simp [St.stk, St.setStk], .inr (.inl ⟨s.nctx, rfl⟩)⟩
    · have hreg := ((WF.reach hr).regd t c rest h.1).2
      simp only [stepCore] at hc
      obtain rfl := Option.some.inj hc
      refine .inl ⟨.core (.release c (.register (s.ctxs c).native) (.nat (s.ctxs c).id)), by simp [St.stk, St.setStk], .inr (.inr ⟨c, _, _, rfl, by simp [St.loc, St.setStk], hreg⟩)⟩
    · simp only [stepCore] at hc
      split at hc
      · rename_i hemp
        obtain ⟨i, hi⟩ := h3
        simp at hemp
        exact absurd rfl (hemp.2 i c hi)
      · obtain rfl := Option.some.inj hc
        exact .inr ⟨by simp [St.ret, St.stk], c, by simpa [St.ret, St.loc, St.setCtx] using h2⟩
  · rcases h.2 with h1 | ⟨c, h1⟩ | ⟨c, fn, v, h1, h2, h3⟩ <;> cases h1
    · exact .inl ⟨_, h⟩
    · exact .inl ⟨_, h⟩
    · exact .inl ⟨_, h⟩

theorem AfterCall.regSelf {t : Nat} {a : Frame τ φ} {k : φ} {rest : List (Frame τ φ)} (h : AfterCall C d f0 t a k rest s)
    (ha : a = .core (.regLook none)) (hterm : s.term = false) : ∃ c, s.loc t = some c := by
  obtain ⟨sp, s0, f, m, s1, l1, s2, h1, h3, h4, h5, h6, h7⟩ := h
  have hr0 := h1.reach
  have hst := h1.2.2.1
  rw [ha] at hst
  obtain ⟨pre, g, hg, hph⟩ := Frag.ind' (fun _ g s => RsPh t (.client k :: rest) g s) hr0
    (by intro g hg; rw [hst] at hg; cases hg; exact ⟨hst, .inl rfl⟩)
    (by
      intro sa n fa ch sb pre fb hra hsa hph hs hsb
      have : RsPh t (.client k :: rest) fb sb := by
        rcases rs_own hra hph hs with ⟨g', hg'⟩ | ⟨hg', -⟩
        · obtain ⟨-, rfl⟩ := top_uniq (a := pre) (b := []) (hsb.symm.trans hg'.1)
          exact hg'
        · exact absurd (hg'.symm.trans hsb) top_ne
      exact ⟨fun _ => this, fun _ => this⟩)
    (by
      intro sa n fa l sb hra hph hs hsa hsb hl
      exact rs_env hra hph hs (hl hph.1)) h3
  have hr1 := h3.reach hr0
  obtain ⟨rfl, ch, rfl⟩ := Frag.last (n := m) hr1 hg h4 h5
  rcases rs_own hr1 hph h4 with ⟨g', hg'⟩ | ⟨-, c, hc⟩
  · have := congrArg List.length (hg'.1.symm.trans h5)
    simp at this
  · exact ⟨c, (h7 hterm).2.2.trans hc⟩

/-- A fragment with a task started at its own level. -/
theorem Frag.since {t n : Nat} {rest : List (Frame τ φ)} (h : Frag C t rest s n s') : n = 0 ∨ ∃ c k, Since s.log (.started t c k) s'.log := by
  induction h with
  | here f h => exact .inl rfl
  | next l pre f h hs hst hno ih => exact ih.imp id fun ⟨c, k, h⟩ => ⟨c, k, h.step hs⟩
  | start l pre f h hs hst hlen c k hlog ih =>
    obtain ⟨es, he⟩ := h.later.log
    exact .inr ⟨c, k, [], es, by rw [hlog, he]; simp⟩

/-- Phases of `wait` before it runs a task. -/
def WsPh (t : Nat) (rest : List (Frame τ φ)) (o : Option Nat) (n : Nat) (g : Frame τ φ) (s : St τ φ δ) : Prop :=
  n = 0 → s.stk t = g :: rest ∧ s.loc t = o ∧ (g = .core (.waitIn none) ∨ ∃ c dl, g = .core (.parked c dl))

theorem ws_env {t n : Nat} {rest : List (Frame τ φ)} {o : Option Nat} {g : Frame τ φ} (hr : Reach C d f0 s) (h : WsPh t rest o n g s) {l : Lbl χ}
    (hs : step C s l = some s') (hl : s.stk t = g :: rest → ∀ ch, l ≠ .th t ch) : WsPh t rest o n g s' := by
  intro hn
  have h := h hn
  cases l with
  | tick n => rw [step_tick _ s s' n hs]; exact h
  | th u ch =>
    have hu : t ≠ u := by rintro rfl; exact hl h.1 ch rfl
    have hne : s.stk t ≠ [] := by rw [h.1]; simp
    have ho := step_thr_other (FreeOK.reach hr) hu hne hs
    exact ⟨ho.1.trans h.1, ho.2.2.2.trans h.2.1, h.2.2⟩

theorem ws_own {t : Nat} {rest : List (Frame τ φ)} {o : Option Nat} {g : Frame τ φ} (h : WsPh t rest o 0 g s) {ch : Ch χ}
    (hs : step C s (.th t ch) = some s') (hno : ¬ ∃ c k, s'.log = .started t c k :: s.log) : (∃ g', WsPh t rest o 0 g' s') ∨ s'.stk t = rest := by
  obtain ⟨h1, h2, h3⟩ := h rfl
  obtain ⟨g', rfl⟩ : ∃ g', g = .core g' := by rcases h3 with rfl | ⟨c, dl, rfl⟩ <;> exact ⟨_, rfl⟩
  rcases step_core hs h1 with ⟨-, hc⟩ | ⟨e, -, rfl⟩
  · rcases h3 with h3 | ⟨c, dl, h3⟩ <;> cases h3
    · simp only [stepCore] at hc
      split at hc
      · obtain rfl := Option.some.inj hc
        exact .inr (by simp [St.ret, St.stk])
      · split at hc
        · obtain rfl := Option.some.inj hc
          exact .inl ⟨_, h⟩
        split at hc
        · obtain rfl := Option.some.inj hc
          exact absurd ⟨_, _, rfl⟩ hno
        split at hc <;> obtain rfl := Option.some.inj hc
        · exact .inr (by simp [St.ret, St.stk])
        · rename_i c _ _ _ _ _
          refine .inl ⟨.core (.parked c none), fun _ => ⟨by simp [St.stk, St.setStk, St.setCtx], by simpa [St.loc, St.setStk, St.setCtx] using h2, .inr ⟨_, _, rfl⟩⟩⟩
    · simp only [stepCore] at hc
      split at hc
      · obtain rfl := Option.some.inj hc
        exact .inl ⟨_, h⟩
      have pro : ∀ b, (match ({ s.ctxs c with wakeup := false } : Ctx τ).pop with
          | some (k, x) => some (s.startTask C t c k x (.toWait b) rest)
          | none => some ((s.setCtx c { s.ctxs c with wakeup := false }).ret t rest .wait (.cv b))) = some s' → s'.stk t = rest := by
        intro b hc
        split at hc <;> obtain rfl := Option.some.inj hc
        · exact absurd ⟨_, _, rfl⟩ hno
        · simp [St.ret, St.stk]
      split at hc
      · split at hc
        · split at hc
          · exact .inr (pro _ hc)
          · obtain rfl := Option.some.inj hc
            exact .inl ⟨_, h⟩
        · contradiction
      · split at hc
        · exact .inr (pro _ hc)
        · contradiction
      · split at hc
        · contradiction
        · split at hc
          · exact .inr (pro _ hc)
          · contradiction
      · cases hc
  · rcases h3 with h3 | ⟨c, dl, h3⟩ <;> cases h3 <;> exact .inl ⟨_, h⟩

/-- After `wait` of a thread that was registered when it called it. -/
theorem AfterCall.wait {t : Nat} {a : Frame τ φ} {k : φ} {rest : List (Frame τ φ)} (h : AfterCall C d f0 t a k rest s)
    (ha : a = .core (.waitIn none)) (hterm : s.term = false) (hexc : (s.thr t).exc = none) :
    ∃ sp s0 f, CalledAt C d f0 t a k rest sp s0 f ∧ Later C s0 s ∧ ((∃ c x, Since s0.log (.started t c x) s.log) ∨ s0.loc t = none ∨
      ∃ c, s0.loc t = some c ∧ Ev.exitSet c ∈ s.log) := by
  obtain ⟨sp, s0, f, m, s1, l1, s2, h1, h3, h4, h5, h6, h7⟩ := h
  refine ⟨sp, s0, f, h1, (h3.later.snoc h4).trans h6, ?_⟩
  have hr0 := h1.reach
  have hst := h1.2.2.1
  rw [ha] at hst
  obtain ⟨pre, g, hg, hph⟩ := Frag.ind' (WsPh t (.client k :: rest) (s0.loc t)) hr0
    (by intro g hg; rw [hst] at hg; cases hg; exact fun _ => ⟨hst, rfl, .inl rfl⟩)
    (by
      intro sa n fa ch sb pre fb hra hsa hph hs hsb
      refine ⟨fun _ h => by omega, ?_⟩
      intro hno hn
      subst hn
      rcases ws_own hph hs hno with ⟨g', hg'⟩ | hg'
      · obtain ⟨-, rfl⟩ := top_uniq (a := pre) (b := []) (hsb.symm.trans (hg' rfl).1)
        exact hg' rfl
      · exact absurd (hg'.symm.trans hsb) top_ne)
    (by
      intro sa n fa l sb hra hph hs hsa hsb hl
      exact ws_env hra hph hs hl) h3
  have hup : ∀ {e}, e ∈ s1.log → e ∈ s.log := fun h => h6.mem (step_logm h4 h)
  rcases h3.since with rfl | ⟨c, x, hc⟩
  · rcases C13_reason hr0 .wait hst h3 h4 h5 ((h7 hterm).1.symm.trans hexc) with h | h | ⟨c, h, h'⟩ | ⟨w, h, -⟩
    · cases h
    · exact .inr (.inl ((hph rfl).2.1.symm.trans h))
    · exact .inr (.inr ⟨c, (hph rfl).2.1.symm.trans h, hup h'⟩)
    · cases h
  · obtain ⟨es, he⟩ := h6.log
    exact .inl ⟨c, x, by rw [he]; exact (hc.step h4).grow⟩

end
end Core
end Itc
