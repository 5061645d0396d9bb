import Verif.Sync.AFut

/-!
# Frames that the application only goes to (proof infrastructure, no claims)

`AG`: application frames `k` with `G k` are reached by `goto` only; such a frame is on top of its stack, and there is no exception.
-/
namespace Itc
namespace Sync
open Core
section
variable {α φ δ χ : Type} {A : App α φ δ χ} {ad0 : δ} {f0 : φ}

structure AG (A : App α φ δ χ) (f0 : φ) (G : φ → Prop) : Prop where
  e0 : ¬ G f0
  entry : Entry A (fun g => ¬ G g)
  throw : ∀ {f e f'}, A.onThrow f e = some f' → ¬ G f'
  push : ∀ {v ad f rv ch ad' g k}, A.step v ad f rv ch = some (ad', .push g k) → ¬ G g ∧ ¬ G k
  core : ∀ {v ad f rv ch ad' a k}, A.step v ad f rv ch = some (ad', .core a k) → ¬ G k
  sync : ∀ {v ad f rv ch ad' a k}, A.step v ad f rv ch = some (ad', .sync a k) → ¬ G k

theorem AG.ok {G : φ → Prop} (B : AG A f0 G) {s : SSt α φ δ} (h : SR A ad0 f0 s) {t : Nat} {pre : List (Fr α φ)} {k : φ} {rest : List (Fr α φ)}
    (hst : s.stk t = pre ++ .client (.app k) :: rest) (hk : G k) : pre = [] ∧ (s.thr t).exc = none := by
  refine Reach.induct (fun s : SSt α φ δ => ∀ t pre k rest, s.stk t = pre ++ .client (.app k) :: rest → G k → pre = [] ∧ (s.thr t).exc = none) ?_ ?_ h t pre k rest hst hk
  · intro t pre k rest hst hk
    exfalso
    have hm : .client (.app k) ∈ (Core.init { sd := {}, ad := ad0 } (.app f0) : SSt α φ δ).stk t := by rw [hst]; simp
    by_cases h1 : t = 0
    · subst h1; simp [Core.init, St.stk] at hm; subst hm; exact B.e0 hk
    · simp [Core.init, St.stk, upd_ne _ _ h1] at hm
  intro s l s' hr q hs
  cases l with
  | tick n =>
    intro t pre k rest hst hk
    rw [step_tick _ s s' n hs] at hst ⊢
    exact q t pre k rest hst hk
  | th u ch =>
    intro t pre k rest hst hk
    have low : ∀ new, (∀ x ∈ new, x ≠ (.client (.app k) : Fr α φ)) → ∀ top r0, s.stk t = top :: r0 → s'.stk t = new ++ r0 → False := by
      intro new hnew top r0 h1 h2
      rw [hst] at h2
      rcases AF.split_new h2.symm with hm | ⟨p, rfl, hp⟩
      · exact absurd rfl (hnew _ hm)
      · have := (q t (top :: p) k rest (by rw [h1, hp]; rfl) hk).1
        cases this
    by_cases hu : t = u
    · subst hu
      have nT : ∀ g, appT (α := α) (fun g => ¬ G g) g → (.client g : Fr α φ) ≠ .client (.app k) := by
        rintro g hg e
        cases e
        exact hg hk
      cases mvT hr (B.entry.codes hr) (by intro k; cases k <;> first | trivial | exact B.entry.run _) (by intro k; cases k <;> first | trivial | exact B.entry.destroy _) hs with
      | sync f r0 a he hst0 hS hact had =>
        obtain ⟨n1, n2, n3⟩ := B.entry.ss_new hS
        cases a with
        | goto x => exact (low [.client x] (by simpa using nT _ (n1 _ rfl)) _ _ hst0 hact.1).elim
        | push x y => exact (low [.client x, .client y] (by
            have h1 := nT _ (n2 _ _ rfl).1
            have h2 := nT _ (n2 _ _ rfl).2
            intro z hz; simp only [List.mem_cons, List.not_mem_nil, or_false] at hz
            rcases hz with rfl | rfl <;> assumption) _ _ hst0 hact.1).elim
        | call a y => exact (low [.core a.entry, .client y] (by simpa using nT _ (n3 _ _ rfl)) _ _ hst0 hact.1).elim
        | ret v => exact (low [] (by simp) _ _ hst0 hact.1).elim
        | throw v => exact (low [] (by simp) _ _ hst0 hact.1).elim
        | terminate => exact ⟨(q t pre k rest (hact.1 ▸ hst) hk).1, hact.2.2⟩
      | app f r0 a he hst0 hd hact hA =>
        obtain ⟨ch', hA⟩ := hA
        cases a with
        | goto x =>
          by_cases hx : x = k
          · subst hx
            have h1 : s'.stk t = .client (.app x) :: r0 := hact.1
            refine ⟨?_, hact.2.1⟩
            rw [hst] at h1
            cases pre with
            | nil => rfl
            | cons y pre =>
              simp at h1
              have := (q t (.client (.app f) :: pre) x rest (by rw [hst0, ← h1.2]; rfl) hk).1
              cases this
          · exact (low [.client (.app x)] (by simp; exact hx) _ _ hst0 hact.1).elim
        | push x y => exact (low [.client (.app x), .client (.app y)] (by
            have := B.push hA
            simp
            refine ⟨?_, ?_⟩ <;> rintro rfl
            · exact this.1 hk
            · exact this.2 hk) _ _ hst0 hact.1).elim
        | core b y => exact (low [.core (mapApi b).entry, .client (.app y)] (by simp; rintro rfl; exact B.core hA hk) _ _ hst0 hact.1).elim
        | sync b y => exact (low [.client b.entry, .client (.app y)] (by
            intro z hz; simp only [List.mem_cons, List.not_mem_nil, or_false] at hz
            rcases hz with rfl | rfl
            · intro hm; cases b <;> cases hm
            · intro hm; cases hm; exact B.sync hA hk) _ _ hst0 hact.1).elim
        | ret v => exact (low [] (by simp) _ _ hst0 hact.1).elim
        | throw v => exact (low [] (by simp) _ _ hst0 hact.1).elim
        | terminate => exact ⟨(q t pre k rest (hact.1 ▸ hst) hk).1, hact.2.2⟩
      | hand e f f' r0 he hst0 hn hf hst' he' hd had =>
        refine (low [.client f'] ?_ _ _ hst0 hst').elim
        simp only [List.mem_cons, List.not_mem_nil, or_false, forall_eq]
        intro hm
        cases hm
        cases f <;> simp only [sThrow, Option.map_eq_some_iff, Option.some.injEq, reduceCtorEq, SFrame.app.injEq] at hf <;> (try split at hf) <;> first
          | (cases hf; done)
          | (obtain ⟨y, hy, rfl⟩ := hf; exact B.throw hy hk)
      | drop e f r0 he hst0 hn hf hst' he' hd had => exact (low [] (by simp) _ _ hst0 hst').elim
      | core f r0 new hst0 hpre hst' hd had =>
        refine (low new ?_ _ _ hst0 hst').elim
        rintro x hx rfl
        exact nT _ (hpre _ hx) rfl
      | still hst' he' hd had =>
        have h1 := q t pre k rest (hst' ▸ hst) hk
        refine ⟨h1.1, ?_⟩
        rcases he' with he' | he'
        · rw [he']; exact h1.2
        · rw [hst', he'] at hst; simp at hst
    · rcases mv_othT hr (B.entry.codes hr) hs hu with ⟨h1, h2⟩ | ⟨h1, x, h2, h3⟩
      · have h3 := q t pre k rest (h1 ▸ hst) hk
        refine ⟨h3.1, ?_⟩
        have h4 : s.stk t ≠ [] := by rw [← h1, hst]; simp
        rw [h2 h4]; exact h3.2
      · exfalso
        have hm : Frame.client (SFrame.app k) ∈ s'.stk t := by rw [hst]; simp
        rw [h2] at hm; simp at hm; subst hm
        exact h3 hk

end
end Sync
end Itc
