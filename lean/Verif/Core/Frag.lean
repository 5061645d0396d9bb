import Verif.Core.Log

/-!
# Execution fragments during one call

`Frag C t rest s n s'`: an execution from `s` to `s'` (any threads may run) during which one activation of thread `t`, the
one directly above `rest` on its stack, stays active; `n` counts the queued tasks that this activation itself starts
(tasks started by deeper activations are not counted).
-/
namespace Itc
namespace Core
section
variable {τ φ δ χ : Type}

inductive Frag (C : Client τ φ δ χ) (t : Nat) (rest : List (Frame τ φ)) (s : St τ φ δ) : Nat → St τ φ δ → Prop
  | here (f : Frame τ φ) (h : s.stk t = f :: rest) : Frag C t rest s 0 s
  | next {n : Nat} {s1 s2 : St τ φ δ} (l : Lbl χ) (pre : List (Frame τ φ)) (f : Frame τ φ) (h : Frag C t rest s n s1)
      (hs : step C s1 l = some s2) (hst : s2.stk t = pre ++ f :: rest)
      (hno : ¬ ((s1.stk t).length = rest.length + 1 ∧ ∃ c k, s2.log = .started t c k :: s1.log)) :
      Frag C t rest s n s2
  | start {n : Nat} {s1 s2 : St τ φ δ} (l : Lbl χ) (pre : List (Frame τ φ)) (f : Frame τ φ) (h : Frag C t rest s n s1)
      (hs : step C s1 l = some s2) (hst : s2.stk t = pre ++ f :: rest)
      (hlen : (s1.stk t).length = rest.length + 1) (c : Nat) (k : τ) (hlog : s2.log = .started t c k :: s1.log) :
      Frag C t rest s (n + 1) s2

theorem step_stk_other {C : Client τ φ δ χ} {s s' : St τ φ δ} {t u : Nat} {ch : Ch χ} (hu : u ≠ t)
    (hfree : FreeOK s) (hs : step C s (.th u ch) = some s') (hne : s.stk t ≠ []) : s'.stk t = s.stk t := by
  have he := step_eff C s s' u ch hs
  have ht : t ≠ u := fun h => hu h.symm
  cases he with
  | ctl es old new rest hreg hctx hloc hold holdp hstk => rw [hstk, upd_ne _ _ ht]
  | spawn n f v rest hreg hctx hold hfr hne' hloc hstk =>
    rw [hstk, upd_ne _ _ ht, upd_ne]
    rintro rfl
    exact hne (hfree t (by simp [hfr])).1
  | unreg c rest hold hfind hgen hn' hidm hcon hctx hloc hstk hlog' => rw [hstk, upd_ne _ _ ht]
  | relLast c f v rest hreg hold hemp hnot hctx hloc hstk hlog' => rw [hstk, upd_ne _ _ ht]
  | freed c k r new rest es hreg hold halive hctx hloc hstk hnewp hnewd hlog' hes hes' => rw [hstk, upd_ne _ _ ht]
  | halt hreg hctx hloc hstk hlog' => rw [hstk]
  | fin hreg hctx hold hloc hstk hlog' => rw [hstk]
  | regFound n? n c self rest hold hself hfind hgen hidm hcon hn' hctx hloc hstk hlog' => rw [hstk, upd_ne _ _ ht]
  | regNew n? n self rest hold hself hfind hgen hidm hcon hn' hctx hloc hstk hlog' => rw [hstk, upd_ne _ _ ht]
  | regDone c self rest hreg hctx hold hloc hstk hlog' => rw [hstk, upd_ne _ _ ht]
  | unregNone rest hreg hctx hold hfind hloc hstk hlog' => rw [hstk, upd_ne _ _ ht]
  | unregClear rest hreg hctx hold hloc hstk hlog' => rw [hstk, upd_ne _ _ ht]
  | hold id c f g rest hreg hold hf hg hgt hgu hgd hgp hgr hgf hfind hctx hloc hstk hlog' => rw [hstk, upd_ne _ _ ht]
  | relKeep c f v rest hreg hold hkeep hctx hloc hstk hlog' => rw [hstk, upd_ne _ _ ht]
  | destroyed c f v rest hreg hold hctx hloc hstk hlog' => rw [hstk, upd_ne _ _ ht]
  | exitSet c rest hreg hold halive hctx hloc hstk hlog' => rw [hstk, upd_ne _ _ ht]
  | invPush c k rest hreg hold halive hctx hloc hstk hlog' => rw [hstk, upd_ne _ _ ht]
  | pendRead c n rest hreg hctx hold halive hval hloc hstk hlog' => rw [hstk, upd_ne _ _ ht]
  | start c k x r f rest w hreg hold hf halive hpop hctx hloc hstk hlog' => rw [hstk, upd_ne _ _ ht]
  | park c d rest hreg hold hlc halive hpop hexit hctx hloc hstk hlog' => rw [hstk, upd_ne _ _ ht]
  | rewait c dl rest hreg hold halive hw hctx hloc hstk hlog' => rw [hstk]
  | parkRet c dl b rest hreg hold halive hpop hctx hloc hstk hlog' => rw [hstk, upd_ne _ _ ht]
  | ran c k r rest hreg hctx hold hloc hstk hlog' => rw [hstk, upd_ne _ _ ht]
  | threw c k r e rest hreg hctx hold hloc hstk hlog' => rw [hstk, upd_ne _ _ ht]

/-- A step of a thread touches only the top of its stack. -/
theorem step_stk_self {C : Client τ φ δ χ} {s s' : St τ φ δ} {t : Nat} {ch : Ch χ} {g : Frame τ φ}
    {r : List (Frame τ φ)} (hs : step C s (.th t ch) = some s') (hst : s.stk t = g :: r) :
    ∃ new, s'.stk t = new ++ r := by
  have he := step_eff C s s' t ch hs
  have key : ∀ {new rest : List (Frame τ φ)} {old}, s.stk t = old :: rest → s'.stk = upd s.stk t (new ++ rest) →
      ∃ new, s'.stk t = new ++ r := by
    intro new rest old h1 h2
    rw [hst] at h1
    obtain ⟨rfl, rfl⟩ := List.cons.inj h1
    exact ⟨new, by rw [h2]; simp⟩
  cases he with
  | ctl es old new rest hreg hctx hloc hold holdp hstk => exact key hold hstk
  | spawn n f v rest hreg hctx hold hfr hne' hloc hstk =>
    rw [hst] at hold
    obtain ⟨rfl, rfl⟩ := List.cons.inj hold
    exact ⟨[], by rw [hstk]; simp⟩
  | unreg c rest hold hfind hgen hn' hidm hcon hctx hloc hstk hlog' => exact key (new := [_, _]) hold hstk
  | relLast c f v rest hreg hold hemp hnot hctx hloc hstk hlog' => exact key (new := [_]) hold hstk
  | freed c k r new rest es hreg hold halive hctx hloc hstk hnewp hnewd hlog' hes hes' => exact key hold hstk
  | halt hreg hctx hloc hstk hlog' => exact ⟨[g], by rw [hstk]; simpa using hst⟩
  | fin hreg hctx hold hloc hstk hlog' => rw [hold] at hst; simp at hst
  | regFound n? n c self rest hold hself hfind hgen hidm hcon hn' hctx hloc hstk hlog' => exact key (new := [_]) hold hstk
  | regNew n? n self rest hold hself hfind hgen hidm hcon hn' hctx hloc hstk hlog' => exact key (new := [_]) hold hstk
  | regDone c self rest hreg hctx hold hloc hstk hlog' => exact key (new := [_]) hold hstk
  | unregNone rest hreg hctx hold hfind hloc hstk hlog' => exact key (new := [_]) hold hstk
  | unregClear rest hreg hctx hold hloc hstk hlog' => exact key (new := []) hold hstk
  | hold id c f g rest hreg hold hf hg hgt hgu hgd hgp hgr hgf hfind hctx hloc hstk hlog' => exact key (new := [_]) hold hstk
  | relKeep c f v rest hreg hold hkeep hctx hloc hstk hlog' => exact key (new := []) hold hstk
  | destroyed c f v rest hreg hold hctx hloc hstk hlog' => exact key (new := []) hold hstk
  | exitSet c rest hreg hold halive hctx hloc hstk hlog' => exact key (new := [_]) hold hstk
  | invPush c k rest hreg hold halive hctx hloc hstk hlog' => exact key (new := [_]) hold hstk
  | pendRead c n rest hreg hctx hold halive hval hloc hstk hlog' => exact key (new := [_]) hold hstk
  | start c k x r f rest w hreg hold hf halive hpop hctx hloc hstk hlog' => exact key (new := [_, _]) hold hstk
  | park c d rest hreg hold hlc halive hpop hexit hctx hloc hstk hlog' => exact key (new := [_]) hold hstk
  | rewait c dl rest hreg hold halive hw hctx hloc hstk hlog' => exact ⟨[g], by rw [hstk]; simpa using hst⟩
  | parkRet c dl b rest hreg hold halive hpop hctx hloc hstk hlog' => exact key (new := []) hold hstk
  | ran c k r rest hreg hctx hold hloc hstk hlog' => exact key (new := [_, _]) hold hstk
  | threw c k r e rest hreg hctx hold hloc hstk hlog' => exact key (new := [_, _]) hold hstk

theorem Reach.step {C : Client τ φ δ χ} {d : δ} {f : φ} {s s' : St τ φ δ} {l : Lbl χ} (h : Reach C d f s)
    (hs : Core.step C s l = some s') : Reach C d f s' := by
  obtain ⟨ls, hl⟩ := h
  refine ⟨ls ++ [l], ?_⟩
  have : ∀ (ls : List (Lbl χ)) (a : St τ φ δ), run C a ls = some s → run C a (ls ++ [l]) = some s' := by
    intro ls
    induction ls with
    | nil => intro a ha; simp only [run] at ha; obtain rfl := Option.some.inj ha; simp [run, hs]
    | cons x ls ih =>
      intro a ha
      simp only [run, List.cons_append] at ha ⊢
      split at ha
      · simp at ha
      · exact ih _ ha
  exact this ls _ hl

theorem Frag.reach {C : Client τ φ δ χ} {d : δ} {f : φ} {t n : Nat} {rest : List (Frame τ φ)} {s s' : St τ φ δ}
    (h : Frag C t rest s n s') (hr : Reach C d f s) : Reach C d f s' := by
  induction h with
  | here => exact hr
  | next l pre f h hs hst hno ih => exact ih.step hs
  | start l pre f h hs hst hlen c k hlog ih => exact ih.step hs

theorem step_clock {C : Client τ φ δ χ} {s s' : St τ φ δ} {l : Lbl χ} (hs : step C s l = some s') :
    s.clock ≤ s'.clock := by
  cases l with
  | tick n => rw [step_tick C s s' n hs]; simp
  | th t ch =>
    simp only [step] at hs
    split at hs
    · simp at hs
    split at hs
    · simp at hs
    split at hs
    · obtain rfl := Option.some.inj hs
      unfold stepExc
      repeat' split
      all_goals simp [St.setStk]
    · split at hs
      · obtain rfl := Option.some.inj hs; simp [stepEnd]
      · rename_i f rest _
        have : s'.clock = s.clock := by
          cases f with
          | retv d => cases d <;> simp only [stepCore] at hs <;> obtain rfl := Option.some.inj hs <;> rfl
          | destroyList c l f v => cases l <;> simp only [stepCore] at hs <;> obtain rfl := Option.some.inj hs <;> rfl
          | sdNotify l T =>
            cases l <;> simp only [stepCore] at hs
            all_goals (repeat' (split at hs))
            all_goals first | contradiction | (obtain rfl := Option.some.inj hs; rfl)
          | _ =>
            simp only [stepCore] at hs
            repeat' (split at hs)
            all_goals first | contradiction | (obtain rfl := Option.some.inj hs; rfl)
        omega
      · simp only [stepClient] at hs
        split at hs
        · simp at hs
        · split at hs <;> obtain rfl := Option.some.inj hs <;> simp [St.setStk]

/-- Induction over a fragment: `Φ n f s` is a property of the activation's current frame `f`.  `own`: the activation itself
    takes a step.  `env`: anything else happens and the frame does not move. -/
theorem Frag.ind' {C : Client τ φ δ χ} {d : δ} {f0 : φ} {t n : Nat} {rest : List (Frame τ φ)} {s s' : St τ φ δ}
    (Φ : Nat → Frame τ φ → St τ φ δ → Prop) (hr : Reach C d f0 s)
    (h0 : ∀ f, s.stk t = f :: rest → Φ 0 f s)
    (own : ∀ s1 n f1 ch s2 pre f2, Reach C d f0 s1 → s1.stk t = f1 :: rest → Φ n f1 s1 →
      step C s1 (.th t ch) = some s2 → s2.stk t = pre ++ f2 :: rest →
      ((∃ c k, s2.log = .started t c k :: s1.log) → Φ (n + 1) f2 s2) ∧
      ((¬ ∃ c k, s2.log = .started t c k :: s1.log) → Φ n f2 s2))
    (env : ∀ s1 n f1 l s2, Reach C d f0 s1 → Φ n f1 s1 → step C s1 l = some s2 →
      (∃ pre, s1.stk t = pre ++ f1 :: rest) → (∃ pre, s2.stk t = pre ++ f1 :: rest) →
      (s1.stk t = f1 :: rest → ∀ ch, l ≠ .th t ch) → Φ n f1 s2)
    (h : Frag C t rest s n s') : ∃ pre f', s'.stk t = pre ++ f' :: rest ∧ Φ n f' s' := by
  have uniq : ∀ {a b : List (Frame τ φ)} {x y}, a ++ x :: rest = b ++ y :: rest → a = b ∧ x = y := by
    intro a b x y hab
    have h1 : (a ++ [x]) ++ rest = (b ++ [y]) ++ rest := by simpa using hab
    have h2 := List.append_cancel_right h1
    exact ⟨(List.append_inj' h2 rfl).1, by simpa using (List.append_inj' h2 rfl).2⟩
  have notStarted : ∀ {s1 s2 : St τ φ δ} {l : Lbl χ}, step C s1 l = some s2 →
      (∃ c k, s2.log = .started t c k :: s1.log) → ∃ ch, l = .th t ch := by
    intro s1 s2 l hs ⟨c, k, hlog⟩
    cases l with
    | tick m =>
      rw [step_tick C s1 s2 m hs] at hlog
      exact absurd hlog (by simp)
    | th u ch =>
      by_cases hu : u = t
      · subst hu; exact ⟨ch, rfl⟩
      · exfalso
        have he := step_eff C s1 s2 u ch hs
        have key : ∀ {e : Ev τ}, s2.log = e :: s1.log → e ≠ .started t c k → False := fun h1 h2 =>
          h2 (List.cons.inj (h1.symm.trans hlog)).1
        have keyn : s2.log = s1.log → False := fun h1 => by rw [h1] at hlog; simp at hlog
        have keyl : ∀ {es : List (Ev τ)}, s2.log = es ++ s1.log → Ev.started t c k ∉ es → False := fun h1 h2 => by
          have : _ ++ s1.log = [Ev.started t c k] ++ s1.log := h1.symm.trans hlog
          exact h2 (by rw [List.append_cancel_right this]; simp)
        cases he with
        | ctl es old new rest hreg hctx hloc hold holdp hstk hnewp hdl hlog' hes =>
          exact keyl hlog' (fun hm => by have := hes _ hm; simp [Ev.neutral] at this)
        | spawn n f v rest hreg hctx hold hfr hne' hloc hstk hlog' => exact key hlog' (by simp)
        | unreg c rest hold hfind hgen hn' hidm hcon hctx hloc hstk hlog' =>
          split at hlog'
          · exact keyl (es := [_, _]) hlog' (by simp)
          · exact key hlog' (by simp)
        | relLast c f v rest hreg hold hemp hnot hctx hloc hstk hlog' => exact keyl hlog' (by simp)
        | freed c k r new rest es hreg hold halive hctx hloc hstk hnewp hnewd hlog' hes hes' =>
          rcases hes' with rfl | ⟨b, rfl⟩
          · exact key hlog' (by simp)
          · exact keyl (es := [_, _]) hlog' (by simp)
        | halt hreg hctx hloc hstk hlog' => exact keyn hlog'
        | fin hreg hctx hold hloc hstk hlog' => exact keyn hlog'
        | regFound n? n c self rest hold hself hfind hgen hidm hcon hn' hctx hloc hstk hlog' => exact key hlog' (by simp)
        | regNew n? n self rest hold hself hfind hgen hidm hcon hn' hctx hloc hstk hlog' => exact keyl (es := [_, _]) hlog' (by simp)
        | regDone c self rest hreg hctx hold hloc hstk hlog' => exact keyn hlog'
        | unregNone rest hreg hctx hold hfind hloc hstk hlog' => exact keyn hlog'
        | unregClear rest hreg hctx hold hloc hstk hlog' => exact key hlog' (by simp)
        | hold id c f g rest hreg hold hf hg hgt hgu hgd hgp hgr hgf hfind hctx hloc hstk hlog' => exact keyn hlog'
        | relKeep c f v rest hreg hold hkeep hctx hloc hstk hlog' => exact key hlog' (by simp)
        | destroyed c f v rest hreg hold hctx hloc hstk hlog' => exact key hlog' (by simp)
        | exitSet c rest hreg hold halive hctx hloc hstk hlog' => exact key hlog' (by simp)
        | invPush c k rest hreg hold halive hctx hloc hstk hlog' => exact key hlog' (by simp)
        | pendRead c n rest hreg hctx hold halive hval hloc hstk hlog' => exact key hlog' (by simp)
        | start c' k' x r f rest w hreg hold hf halive hpop hctx hloc hstk hlog' =>
          exact key hlog' (fun h => hu (Ev.started.inj h).1)
        | park c d rest hreg hold hlc halive hpop hexit hctx hloc hstk hlog' => exact keyn hlog'
        | rewait c dl rest hreg hold halive hw hctx hloc hstk hlog' => exact keyn hlog'
        | parkRet c dl b rest hreg hold halive hpop hctx hloc hstk hlog' => exact key hlog' (by simp)
        | ran c k r rest hreg hctx hold hloc hstk hlog' => exact keyn hlog'
        | threw c k r e rest hreg hctx hold hloc hstk hlog' => exact key hlog' (by simp)
  -- one step, with `b` telling whether the activation starts a task
  have one : ∀ {s1 s2 : St τ φ δ} {m : Nat} {l : Lbl χ} {pre0 pre : List (Frame τ φ)} {f1 f : Frame τ φ},
      Reach C d f0 s1 → s1.stk t = pre0 ++ f1 :: rest → Φ m f1 s1 → step C s1 l = some s2 →
      s2.stk t = pre ++ f :: rest →
      ((pre0 = [] ∧ ∃ c k, s2.log = .started t c k :: s1.log) → Φ (m + 1) f s2) ∧
      ((¬ (pre0 = [] ∧ ∃ c k, s2.log = .started t c k :: s1.log)) → Φ m f s2) := by
    intro s1 s2 m l pre0 pre f1 f hr1 h1 hφ hs h2
    by_cases hp : pre0 = []
    · subst hp
      by_cases hl : ∃ ch, l = .th t ch
      · obtain ⟨ch, rfl⟩ := hl
        have := own s1 m f1 ch s2 pre f hr1 h1 hφ hs h2
        exact ⟨fun hh => this.1 hh.2, fun hh => this.2 (fun h => hh ⟨rfl, h⟩)⟩
      · have hsame : s2.stk t = s1.stk t := by
          cases l with
          | tick k => rw [step_tick C s1 s2 k hs]; rfl
          | th u ch =>
            exact step_stk_other (fun h => hl ⟨ch, by rw [h]⟩) (FreeOK.reach hr1) hs (by rw [h1]; simp)
        have h3 : pre ++ f :: rest = [] ++ f1 :: rest := by rw [← h2, hsame, h1]
        obtain ⟨rfl, rfl⟩ := uniq h3
        exact ⟨fun hh => absurd (notStarted hs hh.2) hl,
          fun _ => env s1 m f l s2 hr1 hφ hs ⟨[], h1⟩ ⟨[], h2⟩ (fun _ ch h => hl ⟨ch, h⟩)⟩
    · refine ⟨fun hh => absurd hh.1 hp, fun _ => ?_⟩
      have hsame : ∃ q, s2.stk t = q ++ f1 :: rest := by
        cases l with
        | tick k => rw [step_tick C s1 s2 k hs]; exact ⟨pre0, h1⟩
        | th u ch =>
          by_cases hu : u = t
          · subst hu
            cases pre0 with
            | nil => exact absurd rfl hp
            | cons g pre0 =>
              obtain ⟨new, hnew⟩ := step_stk_self hs (g := g) (r := pre0 ++ f1 :: rest) (by simpa using h1)
              exact ⟨new ++ pre0, by simpa using hnew⟩
          · exact ⟨pre0, by rw [step_stk_other hu (FreeOK.reach hr1) hs (by rw [h1]; simp)]; exact h1⟩
      obtain ⟨q, hq⟩ := hsame
      obtain ⟨rfl, rfl⟩ := uniq (h2.symm.trans hq)
      exact env s1 m f l s2 hr1 hφ hs ⟨pre0, h1⟩ ⟨pre, hq⟩ (fun h => absurd (uniq (b := []) (h1.symm.trans h)).1 hp)
  induction h with
  | here f h => exact ⟨[], f, h, h0 f h⟩
  | next l pre f h hs hst hno ih =>
    obtain ⟨pre0, f1, h1, hφ⟩ := ih
    refine ⟨pre, f, hst, (one (h.reach hr) h1 hφ hs hst).2 ?_⟩
    rintro ⟨rfl, hh⟩
    exact hno ⟨by rw [h1]; simp, hh⟩
  | start l pre f h hs hst hlen c k hlog ih =>
    obtain ⟨pre0, f1, h1, hφ⟩ := ih
    refine ⟨pre, f, hst, (one (h.reach hr) h1 hφ hs hst).1 ⟨?_, c, k, hlog⟩⟩
    rw [h1] at hlen
    simp only [List.length_append, List.length_cons] at hlen
    exact List.length_eq_zero_iff.1 (by omega)

theorem Frag.ind {C : Client τ φ δ χ} {d : δ} {f0 : φ} {t n : Nat} {rest : List (Frame τ φ)} {s s' : St τ φ δ}
    (Φ : Nat → Frame τ φ → St τ φ δ → Prop) (hr : Reach C d f0 s)
    (h0 : ∀ f, s.stk t = f :: rest → Φ 0 f s)
    (own : ∀ s1 n f1 ch s2 pre f2, Reach C d f0 s1 → s1.stk t = f1 :: rest → Φ n f1 s1 →
      step C s1 (.th t ch) = some s2 → s2.stk t = pre ++ f2 :: rest →
      ((∃ c k, s2.log = .started t c k :: s1.log) → Φ (n + 1) f2 s2) ∧
      ((¬ ∃ c k, s2.log = .started t c k :: s1.log) → Φ n f2 s2))
    (env : ∀ s1 n f1 l s2, Reach C d f0 s1 → Φ n f1 s1 → step C s1 l = some s2 →
      (∃ pre, s1.stk t = pre ++ f1 :: rest) → (∃ pre, s2.stk t = pre ++ f1 :: rest) → Φ n f1 s2)
    (h : Frag C t rest s n s') : ∃ pre f', s'.stk t = pre ++ f' :: rest ∧ Φ n f' s' := by
  exact Frag.ind' Φ hr h0 own (fun s1 n f1 l s2 a b c d e _ => env s1 n f1 l s2 a b c d e) h

/-- One more step of a fragment. -/
theorem Frag.snoc {C : Client τ φ δ χ} {t n : Nat} {rest pre : List (Frame τ φ)} {f : Frame τ φ} {s s1 s2 : St τ φ δ} {l : Lbl χ}
    (h : Frag C t rest s n s1) (hs : step C s1 l = some s2) (hst : s2.stk t = pre ++ f :: rest) : ∃ m, Frag C t rest s m s2 := by
  by_cases hc : (s1.stk t).length = rest.length + 1 ∧ ∃ c k, s2.log = .started t c k :: s1.log
  · obtain ⟨h1, c, k, h2⟩ := hc
    exact ⟨n + 1, .start l pre f h hs hst h1 c k h2⟩
  · exact ⟨n, .next l pre f h hs hst hc⟩

end
end Core
end Itc
