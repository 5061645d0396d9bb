import Verif.Sync.AFut
import Verif.Props.Future

/-!
# Core calls of the application (proof infrastructure, no claims)

`AC`: application frames `k` with `E k = some b` only continue after the core call `b`; `R` is what is known when the call is over.
-/
namespace Itc
namespace Sync
open Core
section
variable {α φ δ χ : Type} {A : App α φ δ χ} {ad0 : δ} {f0 : φ}

structure AC (A : App α φ δ χ) (ad0 : δ) (f0 : φ) where
  E : φ → Option (Api α φ)
  R : SSt α φ δ → Nat → φ → Api α φ → Prop
  e0 : E f0 = none
  run : ∀ a, E (A.run a) = none ∧ E (A.destroy a) = none
  throw : ∀ {f e f'}, A.onThrow f e = some f' → E f' = none
  code : ∀ {v ad f rv ch ad' a k}, A.step v ad f rv ch = some (ad', .core a k) → ApiOK (fun _ g => E g = none) (fun _ => True) a
  push : ∀ {v ad f rv ch ad' g k}, A.step v ad f rv ch = some (ad', .push g k) → E g = none
  cont : ∀ {v ad f rv ch ad' a k b}, A.step v ad f rv ch = some (ad', a) → (liftAct a).cont = some (.app k) → E k = some b → a = .core b k
  fin : ∀ {s0 s s' : SSt α φ δ} {t n : Nat} {b : Api α φ} {k : φ} {rest : List (Fr α φ)} {l : Lbl χ}, E k = some b → SR A ad0 f0 s0 →
    s0.stk t = .core (mapApi b).entry :: .client (.app k) :: rest → Frag (client A) t (.client (.app k) :: rest) s0 n s →
    Core.step (client A) s l = some s' → s'.stk t = .client (.app k) :: rest → R s' t k b
  stab : ∀ {s s' : SSt α φ δ} {t : Nat} {b : Api α φ} {k : φ} {rest : List (Fr α φ)} {l : Lbl χ}, E k = some b → SR A ad0 f0 s → s.stk t = .client (.app k) :: rest →
    R s t k b → Core.step (client A) s l = some s' → s'.stk t = .client (.app k) :: rest → R s' t k b

namespace AC
variable (B : AC A ad0 f0)

theorem entry : Entry A (fun g => B.E g = none) := ⟨fun a => (B.run a).1, fun a => (B.run a).2, B.code⟩

def Ok (s : SSt α φ δ) : Prop :=
  ∀ t pre k rest b, s.stk t = pre ++ .client (.app k) :: rest → B.E k = some b →
    (∃ s0 n, SR A ad0 f0 s0 ∧ s0.stk t = .core (mapApi b).entry :: .client (.app k) :: rest ∧ Frag (client A) t (.client (.app k) :: rest) s0 n s) ∨
    (pre = [] ∧ B.R s t k b)

/-- The frame stays at its place. -/
theorem keep {s s' : SSt α φ δ} (hr : SR A ad0 f0 s) (q : B.Ok s) {l : Lbl χ} (hs : Core.step (client A) s l = some s') {t : Nat} {pre pre' : List (Fr α φ)}
    {k : φ} {rest : List (Fr α φ)} {b : Api α φ} (h0 : s.stk t = pre ++ .client (.app k) :: rest) (h1 : s'.stk t = pre' ++ .client (.app k) :: rest)
    (hk : B.E k = some b) (hpp : pre = [] → pre' = []) :
    (∃ s0 n, SR A ad0 f0 s0 ∧ s0.stk t = .core (mapApi b).entry :: .client (.app k) :: rest ∧ Frag (client A) t (.client (.app k) :: rest) s0 n s') ∨
    (pre' = [] ∧ B.R s' t k b) := by
  rcases q t pre k rest b h0 hk with ⟨s0, n, r0, e0, hf⟩ | ⟨rfl, hR⟩
  · rcases Sync.Frag.inner hf hs ⟨pre', h1⟩ with ⟨m, hf'⟩ | he
    · exact .inl ⟨s0, m, r0, e0, hf'⟩
    · refine .inr ⟨?_, B.fin hk r0 e0 hf hs he⟩
      rw [he] at h1
      have := congrArg List.length h1
      simp at this
      exact this
  · obtain rfl := hpp rfl
    exact .inr ⟨rfl, B.stab hk hr h0 hR hs h1⟩

theorem ok {s : SSt α φ δ} (h : SR A ad0 f0 s) : B.Ok s := by
  refine Reach.induct (fun s => B.Ok s) ?_ ?_ h
  · intro t pre k rest b hst hk
    exfalso
    have hm : .client (.app k) ∈ (Core.init { sd := {}, ad := ad0 } (.app f0) : SSt α φ δ).stk t := by rw [hst]; simp
    by_cases h1 : t = 0
    · subst h1; simp [Core.init, St.stk] at hm; subst hm; rw [B.e0] at hk; cases hk
    · simp [Core.init, St.stk, upd_ne _ _ h1] at hm
  intro s l s' hr q hs
  cases l with
  | tick n =>
    intro t pre k rest b hst hk
    have h0 : s'.stk t = s.stk t := by rw [step_tick _ s s' n hs]; rfl
    exact B.keep hr q hs (h0 ▸ hst) hst hk (fun h => h)
  | th u ch =>
    intro t pre k rest b hst hk
    have hne : ∀ new, (∀ x ∈ new, x ≠ (.client (.app k) : Fr α φ)) → ∀ top r0, s.stk t = top :: r0 → s'.stk t = new ++ r0 → ((∃ s0 n, SR A ad0 f0 s0 ∧ s0.stk t = .core (mapApi b).entry :: .client (.app k) :: rest ∧ Frag (client A) t (.client (.app k) :: rest) s0 n s') ∨
    (pre = [] ∧ B.R s' t k b)) := by
      intro new hnew top r0 h1 h2
      rw [hst] at h2
      rcases AF.split_new h2.symm with hm | ⟨p, rfl, hp⟩
      · exact absurd rfl (hnew _ hm)
      · exact B.keep hr q hs (pre := top :: p) (by rw [h1, hp]; rfl) hst hk (by simp)
    by_cases hu : t = u
    · subst hu
      have nT : ∀ g, appT (α := α) (fun g => B.E g = none) g → (.client g : Fr α φ) ≠ .client (.app k) := by
        rintro g hg e
        cases e
        simp only [appT] at hg
        rw [hk] at hg; cases hg
      cases mvT hr (B.entry.codes hr) (by intro k; cases k <;> first | trivial | exact B.entry.run _) (by intro k; cases k <;> first | trivial | exact B.entry.destroy _) hs with
      | sync f r0 a he hst0 hS hact had =>
        obtain ⟨n1, n2, n3⟩ := B.entry.ss_new hS
        cases a with
        | goto x => exact hne [.client x] (by simpa using nT _ (n1 _ rfl)) _ _ hst0 hact.1
        | push x y => exact hne [.client x, .client y] (by
            have h1 := nT _ (n2 _ _ rfl).1
            have h2 := nT _ (n2 _ _ rfl).2
            intro z hz; simp only [List.mem_cons, List.not_mem_nil, or_false] at hz
            rcases hz with rfl | rfl <;> assumption) _ _ hst0 hact.1
        | call a y => exact hne [.core a.entry, .client y] (by simpa using nT _ (n3 _ _ rfl)) _ _ hst0 hact.1
        | ret v => exact hne [] (by simp) _ _ hst0 hact.1
        | throw v => exact hne [] (by simp) _ _ hst0 hact.1
        | terminate => exact B.keep hr q hs (hact.1 ▸ hst) hst hk (fun h => h)
      | app f r0 a he hst0 hd hact hA =>
        obtain ⟨ch', hA⟩ := hA
        by_cases hc : (liftAct a).cont = some (.app k)
        · obtain rfl := B.cont hA hc hk
          have h1 : s'.stk t = .core (mapApi b).entry :: .client (.app k) :: r0 := hact.1
          rw [hst] at h1
          have hp : pre = [.core (mapApi b).entry] ∧ rest = r0 ∨ ∃ p, pre = .core (mapApi b).entry :: .client (.app k) :: p ∧ r0 = p ++ .client (.app k) :: rest := by
            cases pre with
            | nil => simp at h1
            | cons x pre =>
              simp at h1
              obtain ⟨rfl, h1⟩ := h1
              cases pre with
              | nil => simp at h1; exact .inl ⟨rfl, h1⟩
              | cons y pre => simp at h1; exact .inr ⟨pre, by rw [h1.1], h1.2.symm⟩
          rcases hp with ⟨rfl, rfl⟩ | ⟨p, rfl, hp⟩
          · exact .inl ⟨s', 0, hr.step hs, hact.1, .here _ hact.1⟩
          · exact B.keep hr q hs (pre := .client (.app f) :: p) (by rw [hst0, hp]; rfl) hst hk (by simp)
        · cases a with
          | goto x => exact hne [.client (.app x)] (by simp; rintro rfl; exact hc rfl) _ _ hst0 hact.1
          | push x y => exact hne [.client (.app x), .client (.app y)] (by
              simp
              refine ⟨?_, ?_⟩ <;> rintro rfl
              · rw [B.push hA] at hk; cases hk
              · exact hc rfl) _ _ hst0 hact.1
          | core b y => exact hne [.core (mapApi b).entry, .client (.app y)] (by simp; rintro rfl; exact hc rfl) _ _ hst0 hact.1
          | sync b y => exact hne [.client b.entry, .client (.app y)] (by
              intro z hz; simp only [List.mem_cons, List.not_mem_nil, or_false] at hz
              rcases hz with rfl | rfl
              · intro hm; cases b <;> cases hm
              · intro hm; cases hm; exact hc rfl) _ _ hst0 hact.1
          | ret v => exact hne [] (by simp) _ _ hst0 hact.1
          | throw v => exact hne [] (by simp) _ _ hst0 hact.1
          | terminate => exact B.keep hr q hs (hact.1 ▸ hst) hst hk (fun h => h)
      | hand e f f' r0 he hst0 hn hf hst' he' hd had =>
        refine hne [.client f'] ?_ _ _ hst0 hst'
        simp only [List.mem_cons, List.not_mem_nil, or_false, forall_eq]
        intro hm
        cases hm
        cases f <;> simp only [sThrow, Option.map_eq_some_iff, Option.some.injEq, reduceCtorEq, SFrame.app.injEq] at hf <;> (try split at hf) <;> first
          | (cases hf; done)
          | (obtain ⟨y, hy, rfl⟩ := hf; rw [B.throw hy] at hk; cases hk)
      | drop e f r0 he hst0 hn hf hst' he' hd had => exact hne [] (by simp) _ _ hst0 hst'
      | core f r0 new hst0 hpre hst' hd had =>
        refine hne new ?_ _ _ hst0 hst'
        rintro x hx rfl
        exact nT _ (hpre _ hx) rfl
      | still hst' he' hd had => exact B.keep hr q hs (hst' ▸ hst) hst hk (fun h => h)
    · rcases mv_othT hr (B.entry.codes hr) hs hu with ⟨h1, -⟩ | ⟨h1, x, h2, h3⟩
      · exact B.keep hr q hs (h1 ▸ hst) hst hk (fun h => h)
      · exfalso
        have hm : Frame.client (SFrame.app k) ∈ s'.stk t := by rw [hst]; simp
        rw [h2] at hm; simp at hm; subst hm
        simp only [appT] at h3
        rw [hk] at h3; cases h3

theorem top {s : SSt α φ δ} (h : SR A ad0 f0 s) {t : Nat} {k : φ} {rest : List (Fr α φ)} {b : Api α φ} (hst : s.stk t = .client (.app k) :: rest)
    (hk : B.E k = some b) : B.R s t k b := by
  rcases B.ok h t [] k rest b hst hk with ⟨s0, n, -, -, hf⟩ | ⟨-, hR⟩
  · exact absurd hst (AF.Frag.ne hf)
  · exact hR

end AC

end
end Sync
end Itc
