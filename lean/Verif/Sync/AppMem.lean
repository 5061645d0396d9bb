import Verif.Sync.Call

/-!
# Where frames of the application come from (proof infrastructure, no claims)
-/
namespace Itc
namespace Sync
open Core
section
variable {α φ δ χ : Type} {A : App α φ δ χ} {ad0 : δ} {f0 : φ}

def appT (T : φ → Prop) : SFrame α φ → Prop
  | .app g => T g
  | _ => True

/-- Application frames that are entered from outside of the application: tasks and code of threads. -/
structure Entry (A : App α φ δ χ) (T : φ → Prop) : Prop where
  run : ∀ a, T (A.run a)
  destroy : ∀ a, T (A.destroy a)
  code : ∀ {v ad f rv ch ad' a k}, A.step v ad f rv ch = some (ad', .core a k) → ApiOK (fun _ => T) (fun _ => True) a

theorem Entry.codes {T : φ → Prop} (B : Entry A T) {s : SSt α φ δ} (h : SR A ad0 f0 s) : Codes (appT (α := α) T) s := by
  refine Codes.reach ?_ h
  intro v d f rv ch d' a k hs
  have key : ∀ x, (client A).step v d f rv ch = some (d', x) → x = .call a k → ApiOK (fun _ g => appT (α := α) T g) (fun _ => True) a := by
    intro x hs hx
    cases client_cs hs with
    | app g ad sa hA =>
      clear hs
      cases sa <;> simp [liftAct] at hx
      obtain ⟨rfl, -⟩ := hx
      rename_i a' k'
      have := B.code hA
      clear hA
      cases a' <;> simp only [mapApi, ApiOK] at this ⊢ <;> first | trivial | exact this | skip
      intro f hf u
      simp only [Option.mem_def, Option.map_eq_some_iff] at hf
      obtain ⟨g, hg, rfl⟩ := hf
      exact this g hg u
    | sync f sd x hS =>
      cases hS
      case laRet K c => exact (laNext_call hx).elim
      case laEnd K c => exact (laNext_call hx).elim
      all_goals first | (cases hx; done) | (cases hx; trivial)
  exact key _ hs rfl

theorem Entry.ss_new {T : φ → Prop} (B : Entry A T) {v : View} {d d' : SData α} {rv : Val} {f : SFrame α φ} {a : Act (STask α) (SFrame α φ)}
    (h : SS A.run A.destroy v d rv f d' a) : (∀ g, a = .goto g → appT (α := α) T g) ∧ (∀ g k, a = .push g k → appT (α := α) T g ∧ appT (α := α) T k) ∧
      ∀ b k, a = .call b k → appT (α := α) T k := by
  cases h
  case laRet K c => cases K <;> simp only [laNext] <;> (try split) <;> simp [appT]
  case laEnd K c => cases K <;> simp only [laNext] <;> (try split) <;> simp [appT]
  case ftRun p b => exact ⟨by simp, by rintro g k h; cases h; exact ⟨B.run b, trivial⟩, by simp⟩
  case ftDtor p b => exact ⟨by simp, by rintro g k h; cases h; exact ⟨B.destroy b, trivial⟩, by simp⟩
  all_goals (refine ⟨?_, ?_, ?_⟩ <;> intros <;> first | contradiction | (rename_i h; cases h; first | trivial | exact ⟨trivial, trivial⟩))

/-- A frame of the application was there before, was entered from outside, or was put there by a step of the application. -/
theorem Entry.mem {T : φ → Prop} (B : Entry A T) {s s' : SSt α φ δ} (h : SR A ad0 f0 s) {t u : Nat} {ch : Ch χ}
    (hs : Core.step (client A) s (.th t ch) = some s') {g : φ} (hg : .client (.app g) ∈ s'.stk u) :
    .client (.app g) ∈ s.stk u ∨ (T g ∧ s'.data.ad = s.data.ad) ∨ (u ≠ t ∧ T g) ∨
    (u = t ∧ ∃ f rest a ch', (s.thr t).exc = none ∧ s.stk t = .client (.app f) :: rest ∧ A.step (s.view t) s.data.ad f (s.thr t).rv ch' = some (s'.data.ad, a) ∧
      ((liftAct a).cont = some (.app g) ∨ ∃ k, a = .push g k)) ∨
    (u = t ∧ ∃ f e rest, s.stk t = .client (.app f) :: rest ∧ A.onThrow f e = some g ∧ s'.data.ad = s.data.ad) := by
  by_cases hu : u = t
  · subst hu
    have low : ∀ top r0 new, s.stk u = top :: r0 → s'.stk u = new ++ r0 → .client (.app g) ∉ new → .client (.app g) ∈ s.stk u := by
      intro top r0 new h1 h2 h3
      rw [h2] at hg
      rcases List.mem_append.1 hg with h | h
      · exact absurd h h3
      · rw [h1]; simp [h]
    cases mvT h (B.codes h) (by intro k; cases k <;> first | trivial | exact B.run _) (by intro k; cases k <;> first | trivial | exact B.destroy _) hs with
    | sync f r0 a he hst0 hS hact had =>
      obtain ⟨n1, n2, n3⟩ := B.ss_new hS
      by_cases ht : T g
      · exact .inr (.inl ⟨ht, had⟩)
      left
      cases a with
      | goto x => exact low _ _ [.client x] hst0 hact.1 (by intro hm; simp at hm; subst hm; exact ht (n1 _ rfl))
      | push x k' => exact low _ _ [.client x, .client k'] hst0 hact.1 (by
          intro hm
          have := n2 _ _ rfl
          simp at hm
          rcases hm with rfl | rfl
          · exact ht this.1
          · exact ht this.2)
      | call b k' => exact low _ _ [.core b.entry, .client k'] hst0 hact.1 (by
          intro hm; simp at hm; subst hm; exact ht (n3 _ _ rfl))
      | ret v => exact low _ _ [] hst0 hact.1 (by simp)
      | throw v => exact low _ _ [] hst0 hact.1 (by simp)
      | terminate => rw [hact.1] at hg; exact hg
    | app f r0 a he hst0 hd hact hA =>
      by_cases hn : (liftAct a).cont = some (.app g) ∨ ∃ k, a = .push g k
      · obtain ⟨ch', hA⟩ := hA
        exact .inr (.inr (.inr (.inl ⟨rfl, f, r0, a, ch', he, hst0, hA, hn⟩)))
      left
      rw [not_or, not_exists] at hn
      cases a with
      | ret v => exact low _ _ [] hst0 hact.1 (by simp)
      | throw v => exact low _ _ [] hst0 hact.1 (by simp)
      | terminate => rw [hact.1] at hg; exact hg
      | goto x => exact low _ _ [.client (.app x)] hst0 hact.1 (by intro hm; simp at hm; subst hm; exact hn.1 rfl)
      | push x k => exact low _ _ [.client (.app x), .client (.app k)] hst0 hact.1 (by
          intro hm; simp at hm
          rcases hm with rfl | rfl
          · exact hn.2 _ rfl
          · exact hn.1 rfl)
      | core b k => exact low _ _ [.core (mapApi b).entry, .client (.app k)] hst0 hact.1 (by intro hm; simp at hm; subst hm; exact hn.1 rfl)
      | sync b k => exact low _ _ [.client b.entry, .client (.app k)] hst0 hact.1 (by
          intro hm; simp at hm
          rcases hm with hm | rfl
          · cases b <;> cases hm
          · exact hn.1 rfl)
    | hand e f f' r0 he hst0 hn hf hst' he' hd had =>
      rw [hst'] at hg
      rcases List.mem_cons.1 hg with hm | hm
      · cases hm
        have : ∃ y, f = .app y ∧ A.onThrow y e = some g := by
          cases f <;> simp only [sThrow, Option.map_eq_some_iff, Option.some.injEq, reduceCtorEq, SFrame.app.injEq] at hf <;> (try split at hf) <;> first
            | (cases hf; done)
            | (obtain ⟨y, hy, rfl⟩ := hf; exact ⟨_, rfl, hy⟩)
        obtain ⟨y, rfl, hy⟩ := this
        exact .inr (.inr (.inr (.inr ⟨rfl, y, e, r0, hst0, hy, had⟩)))
      · left; rw [hst0]; simp [hm]
    | drop e f r0 he hst0 hn hf hst' he' hd had => exact .inl (low _ _ [] hst0 hst' (by simp))
    | core f r0 new hst0 hpre hst' hd had =>
      by_cases ht : T g
      · exact .inr (.inl ⟨ht, had⟩)
      · exact .inl (low _ _ new hst0 hst' (fun hm => ht (hpre _ hm)))
    | still hst' he' hd had => rw [hst'] at hg; exact .inl hg
  · rcases mv_othT h (B.codes h) hs hu with ⟨h1, -⟩ | ⟨h1, x, h2, h3⟩
    · rw [h1] at hg; exact .inl hg
    · rw [h2] at hg; simp at hg; subst hg; exact .inr (.inr (.inl ⟨hu, h3⟩))

/-- Data of the application: induction over the steps of the application. -/
theorem data_ind (P : δ → Prop) (h0 : P ad0) (hstep : ∀ {s : SSt α φ δ} {t ch f rest ad' a}, SR A ad0 f0 s → P s.data.ad → (s.thr t).exc = none →
    s.stk t = .client (.app f) :: rest → A.step (s.view t) s.data.ad f (s.thr t).rv ch = some (ad', a) → P ad') {s : SSt α φ δ} (h : SR A ad0 f0 s) :
    P s.data.ad := by
  refine Reach.induct (fun s => P s.data.ad) h0 ?_ h
  intro s l s' hr q hs
  cases l with
  | tick n => rw [step_tick _ s s' n hs]; exact q
  | th t ch =>
    cases mv hr hs with
    | app g rest a he hst hd hact hA =>
      obtain ⟨ch', hA⟩ := hA
      exact hstep hr q he hst hA
    | sync f rest a he hst hS hact had => rw [had]; exact q
    | hand e f f' rest he hst hn hf hst' he' hd had => rw [had]; exact q
    | drop e f rest he hst hn hf hst' he' hd had => rw [had]; exact q
    | core f rest pre hst hpre hst' hd had => rw [had]; exact q
    | still hst' he' hd had => rw [had]; exact q

end
end Sync
end Itc
