import Verif.Sync.Place

/-!
# How a step changes the stack of a thread, seen from the synchronisation layer (proof infrastructure, no claims)
-/
namespace Itc
namespace Sync
open Core
section
variable {α φ δ χ : Type}

/-- Frames pushed by the core: tasks and code of the application, and its own frames. -/
def corePre (T : SFrame α φ → Prop) (l : List (Fr α φ)) : Prop := ∀ g, .client g ∈ l → T g

/-- What a step of thread `t` does to its stack and to the data of the layer. -/
inductive Mv (T : SFrame α φ → Prop) (A : App α φ δ χ) (s s' : SSt α φ δ) (t : Nat) : Prop
  | sync (f : SFrame α φ) (rest : List (Fr α φ)) (a : Act (STask α) (SFrame α φ)) (he : (s.thr t).exc = none)
      (hst : s.stk t = .client f :: rest) (hS : SS A.run A.destroy (s.view t) s.data.sd (s.thr t).rv f s'.data.sd a) (hact : ActTo s s' t rest a)
      (had : s'.data.ad = s.data.ad)
  | app (g : φ) (rest : List (Fr α φ)) (a : SAct α φ) (he : (s.thr t).exc = none) (hst : s.stk t = .client (.app g) :: rest)
      (hd : s'.data.sd = s.data.sd) (hact : ActTo s s' t rest (liftAct a))
      (hA : ∃ ch, A.step (s.view t) s.data.ad g (s.thr t).rv ch = some (s'.data.ad, a))
  | hand (e : Exn) (f f' : SFrame α φ) (rest : List (Fr α φ)) (he : (s.thr t).exc = some e) (hst : s.stk t = .client f :: rest)
      (hn : ¬ nt (α := α) (.client f)) (hf : sThrow A.onThrow f e = some f') (hst' : s'.stk t = .client f' :: rest) (he' : (s'.thr t).exc = none)
      (hd : s'.data.sd = s.data.sd) (had : s'.data.ad = s.data.ad)
  | drop (e : Exn) (f : SFrame α φ) (rest : List (Fr α φ)) (he : (s.thr t).exc = some e) (hst : s.stk t = .client f :: rest)
      (hn : ¬ nt (α := α) (.client f)) (hf : sThrow A.onThrow f e = none) (hst' : s'.stk t = rest) (he' : (s'.thr t).exc = some e)
      (hd : s'.data.sd = s.data.sd) (had : s'.data.ad = s.data.ad)
  | core (f : CF (STask α) (SFrame α φ)) (rest pre : List (Fr α φ)) (hst : s.stk t = .core f :: rest) (hpre : corePre T pre)
      (hst' : s'.stk t = pre ++ rest) (hd : s'.data.sd = s.data.sd) (had : s'.data.ad = s.data.ad)
  | still (hst' : s'.stk t = s.stk t) (he' : (s'.thr t).exc = (s.thr t).exc ∨ s.stk t = []) (hd : s'.data.sd = s.data.sd) (had : s'.data.ad = s.data.ad)

theorem mvT {T : SFrame α φ → Prop} {A : App α φ δ χ} {ad : δ} {i0 : φ} {s s' : SSt α φ δ} {t : Nat} {ch : Ch χ} (hr : SR A ad i0 s)
    (hcd : Codes T s) (hrun : ∀ k, T ((client A).run k)) (hdes : ∀ k, T ((client A).destroy k))
    (hs : Core.step (client A) s (.th t ch) = some s') : Mv T A s s' t := by
  have hok := stk_ok hr
  rcases step_cl hs with ⟨f, rest, d', a, hexc', hold, hstep, hdata, hact, -⟩ | ⟨f, rest, hexc', hold, hcs, hdata, -⟩ | ⟨e, hexc', hst', -, he', hdata, -⟩ |
    ⟨e, f, k, rest, hexc', hold, hf, hst', he', hdata, -⟩ | ⟨e, f, rest, hexc', hold, hf, hst', he', hdata, -⟩ |
    ⟨e, g', g'', rest, hexc', hold, hg, hst', he', hdata, -⟩ | ⟨e, g', rest, hexc', hold, hg, hst', he', hdata, -⟩ | ⟨hold, hst', he', hdata, -⟩
  · cases client_cs hstep with
    | app g ad sa hA => exact .app g rest sa hexc' hold (by rw [hdata]) hact ⟨_, by rw [hdata]; exact hA⟩
    | sync f sd a hS => exact .sync f rest a hexc' hold (by rw [hdata]; exact hS) hact (by rw [hdata])
  · rcases hcs with ⟨new, h, hst', -⟩ | ⟨v, hv, hst', hrv, -⟩ | ⟨e, -, hst', he⟩ | ⟨-, hst', he⟩
    · refine .core f rest new hold ?_ hst' (by rw [hdata]) (by rw [hdata])
      have hco := hcd.code t f (by rw [hold]; simp)
      intro g hg
      cases h <;> simp only [List.mem_cons, List.not_mem_nil, or_false, reduceCtorEq, false_or, Frame.client.injEq] at hg <;>
        (try subst hg) <;> first
        | exact hrun _
        | exact hdes _
        | exact hcd.cb _ ‹_›
        | exact hco _ rfl 0
    · exact .core f rest [] hold (by simp [corePre]) hst' (by rw [hdata]) (by rw [hdata])
    · exact .core f rest [] hold (by simp [corePre]) hst' (by rw [hdata]) (by rw [hdata])
    · exact .still hst' (.inl (he.trans hexc'.symm)) (by rw [hdata]) (by rw [hdata])
  · exact .still hst' (.inl (he'.trans hexc'.symm)) (by rw [hdata]) (by rw [hdata])
  · exact .core f rest [.client ((client A).destroy k), .core (.rethrow e)] hold
      (by intro g hg; simp at hg; subst hg; exact hdes k) (by rw [hst']; rfl) (by rw [hdata]) (by rw [hdata])
  · exact .core f rest [] hold (by simp [corePre]) hst' (by rw [hdata]) (by rw [hdata])
  · exact .hand e g' g'' rest hexc' hold (hok.exc t _ _ (by simp [hexc']) hold) hg hst' he' (by rw [hdata]) (by rw [hdata])
  · exact .drop e g' rest hexc' hold (hok.exc t _ _ (by simp [hexc']) hold) hg hst' he' (by rw [hdata]) (by rw [hdata])
  · exact .still (hst'.trans hold.symm) (.inr hold) (by rw [hdata]) (by rw [hdata])

theorem mv {A : App α φ δ χ} {ad : δ} {i0 : φ} {s s' : SSt α φ δ} {t : Nat} {ch : Ch χ} (hr : SR A ad i0 s)
    (hs : Core.step (client A) s (.th t ch) = some s') : Mv trivF A s s' t :=
  mvT hr (codes hr) (by intro k; cases k <;> trivial) (by intro k; cases k <;> trivial) hs

/-- A thread that does not step keeps its stack, or starts with code of the application. -/
theorem mv_othT {T : SFrame α φ → Prop} {A : App α φ δ χ} {ad : δ} {i0 : φ} {s s' : SSt α φ δ} {t u : Nat} {ch : Ch χ} (hr : SR A ad i0 s)
    (hcd : Codes T s)
    (hs : Core.step (client A) s (.th t ch) = some s') (hu : u ≠ t) :
    (s'.stk u = s.stk u ∧ (s.stk u ≠ [] → (s'.thr u).exc = (s.thr u).exc)) ∨ s.stk u = [] ∧ ∃ g, s'.stk u = [.client g] ∧ T g := by
  by_cases hne : s.stk u = []
  · rcases hr.stk_oth hu hs with ⟨h, -⟩ | ⟨f, rest, h, -, h4, h5, -⟩
    · exact .inl ⟨h, fun h => absurd hne h⟩
    · exact .inr ⟨hne, f, h5, hcd.code t (.spawnIn u f) (by rw [h]; simp) u⟩
  · obtain ⟨h1, h2, h3, -⟩ := step_thr_other (FreeOK.reach hr) hu hne hs
    exact .inl ⟨h1, fun _ => h3⟩

theorem mv_oth {A : App α φ δ χ} {ad : δ} {i0 : φ} {s s' : SSt α φ δ} {t u : Nat} {ch : Ch χ} (hr : SR A ad i0 s)
    (hs : Core.step (client A) s (.th t ch) = some s') (hu : u ≠ t) :
    (s'.stk u = s.stk u ∧ (s.stk u ≠ [] → (s'.thr u).exc = (s.thr u).exc)) ∨ s.stk u = [] ∧ ∃ g, s'.stk u = [.client g] ∧ trivF g :=
  mv_othT hr (codes hr) hs hu

/-- A new frame: pushed by the core, entry of a function called by the application, or result of a step of the layer. -/
theorem mem_mv {A : App α φ δ χ} {ad : δ} {i0 : φ} {s s' : SSt α φ δ} {t u : Nat} {ch : Ch χ} (hr : SR A ad i0 s)
    (hs : Core.step (client A) s (.th t ch) = some s') {g : SFrame α φ} (hg : .client g ∈ s'.stk u) :
    .client g ∈ s.stk u ∨ trivF g ∨ (∃ a : SApi α, g = a.entry) ∨
    (u = t ∧ ∃ f rest a, (s.thr t).exc = none ∧ s.stk t = .client f :: rest ∧
      SS A.run A.destroy (s.view t) s.data.sd (s.thr t).rv f s'.data.sd a ∧ ActTo s s' t rest a ∧
      (a = .goto g ∨ (∃ k, a = .push g k) ∨ (∃ f, a = .push f g) ∨ ∃ b, a = .call b g)) ∨
    (u = t ∧ ∃ e f rest, (s.thr t).exc = some e ∧ s.stk t = .client f :: rest ∧ ¬ nt (α := α) (.client f) ∧ sThrow A.onThrow f e = some g ∧
      s'.stk t = .client g :: rest ∧ s'.data.sd = s.data.sd) := by
  by_cases hu : u = t
  · subst hu
    cases mv hr hs with
    | sync f rest a he hst hS hact =>
      have hrest : .client g ∈ rest → .client g ∈ s.stk u := fun h => by rw [hst]; simp [h]
      cases a with
      | goto f' =>
        rw [hact.1] at hg
        rcases List.mem_cons.1 hg with h | h
        · cases h; exact .inr (.inr (.inr (.inl ⟨rfl, f, rest, _, he, hst, hS, hact, .inl rfl⟩)))
        · exact .inl (hrest h)
      | push f' k =>
        rw [hact.1] at hg
        rcases List.mem_cons.1 hg with h | h
        · cases h; exact .inr (.inr (.inr (.inl ⟨rfl, f, rest, _, he, hst, hS, hact, .inr (.inl ⟨k, rfl⟩)⟩)))
        rcases List.mem_cons.1 h with h | h
        · cases h; exact .inr (.inr (.inr (.inl ⟨rfl, f, rest, _, he, hst, hS, hact, .inr (.inr (.inl ⟨f', rfl⟩))⟩)))
        · exact .inl (hrest h)
      | call b k =>
        rw [hact.1] at hg
        rcases List.mem_cons.1 hg with h | h
        · cases h
        rcases List.mem_cons.1 h with h | h
        · cases h; exact .inr (.inr (.inr (.inl ⟨rfl, f, rest, _, he, hst, hS, hact, .inr (.inr (.inr ⟨b, rfl⟩))⟩)))
        · exact .inl (hrest h)
      | ret v => rw [hact.1] at hg; exact .inl (hrest hg)
      | throw v => rw [hact.1] at hg; exact .inl (hrest hg)
      | terminate => rw [hact.1] at hg; exact .inl hg
    | app x rest a he hst hd hact =>
      have hrest : .client g ∈ rest → .client g ∈ s.stk u := fun h => by rw [hst]; simp [h]
      cases a <;> simp only [liftAct, ActTo] at hact <;> rw [hact.1] at hg
      · rcases List.mem_cons.1 hg with h | h
        · cases h; exact .inr (.inl trivial)
        · exact .inl (hrest h)
      · rcases List.mem_cons.1 hg with h | h
        · cases h; exact .inr (.inl trivial)
        rcases List.mem_cons.1 h with h | h
        · cases h; exact .inr (.inl trivial)
        · exact .inl (hrest h)
      · rcases List.mem_cons.1 hg with h | h
        · cases h
        rcases List.mem_cons.1 h with h | h
        · cases h; exact .inr (.inl trivial)
        · exact .inl (hrest h)
      · rcases List.mem_cons.1 hg with h | h
        · cases h; exact .inr (.inr (.inl ⟨_, rfl⟩))
        rcases List.mem_cons.1 h with h | h
        · cases h; exact .inr (.inl trivial)
        · exact .inl (hrest h)
      · exact .inl (hrest hg)
      · exact .inl (hrest hg)
      · exact .inl hg
    | hand e f f' rest he hst hn hf hst' he' hd =>
      rw [hst'] at hg
      rcases List.mem_cons.1 hg with h | h
      · cases h; exact .inr (.inr (.inr (.inr ⟨rfl, e, f, rest, he, hst, hn, hf, hst', hd⟩)))
      · exact .inl (by rw [hst]; simp [h])
    | drop e f rest he hst hn hf hst' he' hd => rw [hst'] at hg; exact .inl (by rw [hst]; simp [hg])
    | core f rest pre hst hpre hst' hd =>
      rw [hst'] at hg
      rcases List.mem_append.1 hg with h | h
      · exact .inr (.inl (hpre _ h))
      · exact .inl (by rw [hst]; simp [h])
    | still hst' he' hd => rw [hst'] at hg; exact .inl hg
  · rcases mv_oth hr hs hu with ⟨h, -⟩ | ⟨-, g', h, hg'⟩
    · rw [h] at hg; exact .inl hg
    · rw [h] at hg; simp at hg; subst hg; exact .inr (.inl hg')

/-- A frame that disappears: it was on top, and the thread made a step with it. -/
theorem lost_mv {A : App α φ δ χ} {ad : δ} {i0 : φ} {s s' : SSt α φ δ} {t u : Nat} {ch : Ch χ} (hr : SR A ad i0 s)
    (hs : Core.step (client A) s (.th t ch) = some s') {g : SFrame α φ} (hg : .client g ∈ s.stk u) :
    .client g ∈ s'.stk u ∨ (u = t ∧ ∃ rest, s.stk t = .client g :: rest ∧
      ((∃ a, (s.thr t).exc = none ∧ SS A.run A.destroy (s.view t) s.data.sd (s.thr t).rv g s'.data.sd a ∧ ActTo s s' t rest a) ∨
       (∃ x, g = .app x) ∨
       (∃ e g', (s.thr t).exc = some e ∧ sThrow A.onThrow g e = some g' ∧ s'.stk t = .client g' :: rest ∧ s'.data.sd = s.data.sd) ∨
       (∃ e, (s.thr t).exc = some e ∧ ¬ nt (α := α) (.client g) ∧ sThrow A.onThrow g e = none))) := by
  by_cases hu : u = t
  · subst hu
    cases mv hr hs with
    | sync f rest a he hst hS hact =>
      rw [hst] at hg
      rcases List.mem_cons.1 hg with h | h
      · cases h; exact .inr ⟨rfl, rest, hst, .inl ⟨a, he, hS, hact⟩⟩
      · left; cases a <;> simp only [ActTo] at hact <;> rw [hact.1] <;> first | exact h | (rw [hst]; simp [h]; done) | simp [h]
    | app x rest a he hst hd hact =>
      rw [hst] at hg
      rcases List.mem_cons.1 hg with h | h
      · cases h; exact .inr ⟨rfl, rest, hst, .inr (.inl ⟨x, rfl⟩)⟩
      · left; cases a <;> simp only [liftAct, ActTo] at hact <;> rw [hact.1] <;> first | exact h | (rw [hst]; simp [h]; done) | simp [h]
    | hand e f f' rest he hst hn hf hst' he' hd =>
      rw [hst] at hg
      rcases List.mem_cons.1 hg with h | h
      · cases h; exact .inr ⟨rfl, rest, hst, .inr (.inr (.inl ⟨e, f', he, hf, hst', hd⟩))⟩
      · left; rw [hst']; simp [h]
    | drop e f rest he hst hn hf hst' he' hd =>
      rw [hst] at hg
      rcases List.mem_cons.1 hg with h | h
      · cases h; exact .inr ⟨rfl, rest, hst, .inr (.inr (.inr ⟨e, he, hn, hf⟩))⟩
      · left; rw [hst']; exact h
    | core f rest pre hst hpre hst' hd =>
      rw [hst] at hg
      rcases List.mem_cons.1 hg with h | h
      · cases h
      · left; rw [hst']; simp [h]
    | still hst' he' hd => rw [hst']; exact .inl hg
  · rcases mv_oth hr hs hu with ⟨h, -⟩ | ⟨h0, g', h, hg'⟩
    · rw [h]; exact .inl hg
    · rw [h0] at hg; cases hg

end
end Sync
end Itc
