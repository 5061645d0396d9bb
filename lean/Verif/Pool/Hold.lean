import Verif.Sync.AHold
import Verif.Pool.Sec

/-!
# Who holds the mutex of a pool (proof infrastructure, no claims)
-/
namespace Itc
namespace Sync
open Core
section
variable {α φ δ χ : Type} {A : App α φ δ χ} {ad0 : δ} {f0 : φ}

/-- A thread that waits for a mutex it owns has a frame of the critical section below the function that waits. -/
theorem AH.waits (B : AH A f0) (hl : ∀ {v ad f rv ch ad' k}, A.step v ad f rv ch = some (ad', .sync (.lock B.n) k) → ¬ B.H f) {s : SSt α φ δ}
    (h : SR A ad0 f0 s) : ∀ u k rest, s.stk u = .client (.lkIn B.n) :: k :: rest → s.data.sd.lk (.user B.n) = some u →
      ∃ f, .client f ∈ rest ∧ B.hf f := by
  refine Reach.induct (fun s : SSt α φ δ => ∀ u k rest, s.stk u = .client (.lkIn B.n) :: k :: rest → s.data.sd.lk (.user B.n) = some u →
      ∃ f, .client f ∈ rest ∧ B.hf f) ?_ ?_ h
  · intro u k rest _ h; simp [Core.init] at h
  · intro s l s' hr q hs
    cases l with
    | tick n => rw [step_tick _ s s' n hs]; exact q
    | th t ch =>
      have hrun : ∀ k, B.T ((client A).run k) := by
        intro k; cases k <;> first | trivial | exact (B.run _).1
      have hdes : ∀ k, B.T ((client A).destroy k) := by
        intro k; cases k <;> first | trivial | exact (B.run _).2
      have hm := mvT hr (B.codes hr) hrun hdes hs
      have ok := B.ok hr
      have hch := (stk_ok hr).chain t
      have hnb : ∀ {x : Fr α φ} {r r'}, s.stk t = x :: r → r ≠ .client (.lkIn B.n) :: r' := by
        rintro x r r' hx rfl
        rw [hx] at hch
        exact hch.1
      have hlk : ∀ u, s'.data.sd.lk (.user B.n) = some u → s.data.sd.lk (.user B.n) = some u ∨ u = t := by
        intro u hu
        cases hm with
        | sync f rest a he hst hS hact had =>
          rcases ss_lk hS (ok.cv t f (by rw [hst]; simp)) hu with ⟨h, -⟩ | ⟨-, -, h⟩
          · exact .inl h
          · exact .inr h
        | app g rest a he hst hd => rw [hd] at hu; exact .inl hu
        | hand e f f' rest he hst hn hf hst' he' hd => rw [hd] at hu; exact .inl hu
        | drop e f rest he hst hn hf hst' he' hd => rw [hd] at hu; exact .inl hu
        | core f rest pre hst hpre hst' hd => rw [hd] at hu; exact .inl hu
        | still hst' he' hd => rw [hd] at hu; exact .inl hu
      intro u k rest hu hlku
      by_cases hut : u = t
      · subst hut
        cases hm with
        | sync f rest' a he hst hS hact had =>
          have hf0 := ok.cv u f (by rw [hst]; simp)
          have hto := ss_to hS hf0
          cases a with
          | goto g => rw [hact.1] at hu; simp only [List.cons.injEq, Frame.client.injEq] at hu; exact absurd hu.1 (hto g (.inl rfl)).2
          | push g k => rw [hact.1] at hu; simp only [List.cons.injEq, Frame.client.injEq] at hu; exact absurd hu.1 (hto g (.inr (.inl ⟨_, rfl⟩))).2
          | call b k => rw [hact.1] at hu; simp at hu
          | ret v => rw [hact.1] at hu; exact absurd hu (hnb hst)
          | throw v => rw [hact.1] at hu; exact absurd hu (hnb hst)
          | terminate =>
            rw [hact.1] at hu
            rcases ss_lk hS hf0 hlku with ⟨h, -⟩ | ⟨-, ⟨r, h⟩, -⟩
            · exact q u k rest hu h
            · cases h
        | app g rest' a he hst hd hact hA =>
          obtain ⟨ch', hA⟩ := hA
          rw [hd] at hlku
          cases a with
          | goto g => rw [hact.1] at hu; simp at hu
          | push g k => rw [hact.1] at hu; simp at hu
          | core a k => rw [hact.1] at hu; simp at hu
          | sync a k' =>
            rw [hact.1] at hu
            simp only [List.cons.injEq, Frame.client.injEq] at hu
            obtain ⟨h1, rfl, rfl⟩ := hu
            cases a <;> simp [SApi.entry] at h1
            subst h1
            obtain ⟨f, h2, h3⟩ := ok.held u hlku
            rw [hst] at h2
            rcases List.mem_cons.1 h2 with h2 | h2
            · cases h2; exact absurd h3 (hl hA)
            · exact ⟨f, h2, h3⟩
          | ret v => rw [hact.1] at hu; exact absurd hu (hnb hst)
          | throw v => rw [hact.1] at hu; exact absurd hu (hnb hst)
          | terminate => rw [hact.1] at hu; exact q u k rest hu hlku
        | hand e f f' rest' he hst hn hf hst' he' hd =>
          rw [hst'] at hu
          simp only [List.cons.injEq, Frame.client.injEq] at hu
          rw [hu.1] at hf
          cases f <;> simp [sThrow] at hf
        | drop e f rest' he hst hn hf hst' he' hd => rw [hst'] at hu; exact absurd hu (hnb hst)
        | core f rest' pre hst hpre hst' hd =>
          rw [hst'] at hu
          cases pre with
          | nil => exact absurd hu (hnb hst)
          | cons x pre =>
            simp only [List.cons_append, List.cons.injEq] at hu
            rw [hu.1] at hpre
            exact absurd rfl (B.T_ncv (hpre _ List.mem_cons_self)).2.1
        | still hst' he' hd => rw [hst'] at hu; rw [hd] at hlku; exact q u k rest hu hlku
      · rcases hlk u hlku with h | h
        · rcases mv_othT hr (B.codes hr) hs hut with ⟨h1, -⟩ | ⟨-, g, h1, -⟩
          · rw [h1] at hu; exact q u k rest hu h
          · rw [h1] at hu; simp at hu
        · exact absurd h hut

end
end Sync
namespace Pool
open Core Sync
section
variable {α φ δ χ : Type} {U : PApp α φ δ χ} {u0 : δ} {f0 : φ}

/-- Frames between the lock and the unlock of `guard_` of pool `i`. -/
def inGuard (i : Nat) (f : PFrame α φ) : Prop := ∃ b, secF f = some (i, b)

/-- Those that call nothing but lock and unlock functions. -/
def quietG (i : Nat) : PFrame α φ → Prop
  | .nw _ _ _ _ => False
  | .clUnl _ _ _ => False
  | .caLoop _ _ _ _ => False
  | f => inGuard i f

theorem mapS_ncv (i : Nat) {a : SApi α} {b : SApi (PTask α)} (h : mapS a = some b) : b.ncv (gd i) ∧ b ≠ .lock (gd i) := by
  cases a <;> simp only [mapS, Option.some.injEq, reduceCtorEq] at h <;> subst h <;>
    simp only [SApi.ncv, true_and, ne_eq, reduceCtorEq, not_false_eq_true, and_true, SApi.lock.injEq, gd] <;> omega

theorem usr_ng (i : Nat) (g : φ) : ¬ inGuard i (.usr g : PFrame α φ) := by rintro ⟨b, h⟩; cases h
theorem usr_nq (i : Nat) (g : φ) : ¬ quietG i (.usr g : PFrame α φ) := usr_ng i g

def ah (U : PApp α φ δ χ) (f0 : φ) (i : Nat) : AH (poolApp U) (.usr f0) where
  n := gd i
  H := inGuard i
  Q := quietG i
  q0 := usr_nq i f0
  h0 := usr_ng i f0
  run a := by cases a <;> refine ⟨?_, ?_⟩ <;> (rintro ⟨b, h⟩; cases h)
  code hs := code_z (F := fun g => ¬ quietG i g) (usr_nq i) (by rintro ⟨b, h⟩; cases h) hs
  app := by
    intro v ad f rv ch ad' sa hs
    cases pool_pc hs with
    | usr g ch u wa hU =>
      have hl := liftP_cases wa
      clear hs hU
      have h0 := usr_ng (α := α) i g
      generalize liftP wa = y at hl
      cases hl
      · exact fun h => (h0 h).elim
      · exact ⟨usr_nq _ _, fun h => (h0 h).elim⟩
      · exact ⟨usr_nq _ _, fun h => (h0 h).elim⟩
      · rename_i h
        exact ⟨(mapS_ncv i h).1, fun h => (usr_nq _ _ h).elim, fun h' => absurd h' (mapS_ncv i h).2, fun h => (h0 h).elim⟩
      · exact ⟨usr_nq _ _, fun h => (h0 h).elim⟩
      · exact h0
      · exact h0
      · trivial
    | ck x d' id c hP => rintro ⟨b, h⟩; cases h; exact ⟨_, rfl⟩
    | ps f d' a hf hb hP =>
      clear hs
      cases hP <;> first
        | trivial
        | (rintro ⟨b, h⟩; cases h; done)
        | (rintro ⟨b, h⟩; cases h; exact ⟨_, rfl⟩)
        | (refine ⟨?_, ?_⟩ <;> (rintro ⟨b, h⟩; cases h; done))
        | (refine ⟨fun h => h, ?_⟩; (rintro ⟨b, h⟩; cases h; exact ⟨_, rfl⟩))
        | (refine ⟨trivial, ?_, ?_, ?_⟩ <;> first
            | (rintro ⟨b, h⟩; cases h; done)
            | (intro h; cases h; done)
            | (intro h; exact h.elim)
            | (rintro ⟨b, h⟩; cases h; exact .inr rfl)
            | (rintro ⟨b, h⟩; cases h; exact .inl ⟨_, rfl⟩)
            | (rintro ⟨b, h⟩; cases h; rfl)
            | (intro h; cases gd_inj (SApi.lock.inj h); exact ⟨_, rfl⟩))
        | skip
  throw := by
    intro f e h hq
    cases f <;> first | (obtain ⟨b, h⟩ := h; cases h; done) | exact absurd h hq | skip
    all_goals
      obtain ⟨b, h⟩ := h
      cases h
      exact ⟨_, rfl, _, rfl⟩

theorem lock_out {i : Nat} {v ad f rv ch ad' k} (hs : (poolApp U).step v ad f rv ch = some (ad', .sync (.lock (gd i)) k)) : ¬ inGuard i f := by
  generalize hx : (SAct.sync (.lock (gd i)) k : SAct (PTask α) (PFrame α φ)) = x at hs
  cases pool_pc hs with
  | usr g => exact usr_ng i g
  | ck => cases hx
  | ps f d' a hf hb hP =>
    cases hP <;> first | (cases hx; done) | (rintro ⟨b, h⟩; cases h; done)

/-- A thread that waits for the mutex of a pool it owns. -/
theorem self_wait {s : PSt α φ δ} (hr : PR U u0 f0 s) {t i : Nat} {k : _} {rest : _} (hst : s.stk t = .client (.lkIn (gd i)) :: k :: rest)
    (hlk : s.data.sd.lk (.user (gd i)) = some t) : ∃ g, .client (.app g) ∈ rest ∧ inGuard i g := by
  obtain ⟨f, h1, h2⟩ := (ah U f0 i).waits (fun h => lock_out h) hr t k rest hst hlk
  cases f <;> first | exact False.elim h2 | skip
  · exact ⟨_, h1, h2⟩
  · rename_i m
    exfalso
    have hc := (stk_ok hr).chain t
    rw [hst] at hc
    have : ∀ (l : List (Fr (PTask α) (PFrame α φ))) x, Core.chain Adj (x :: l) → Frame.client (.lkUn m) ∉ l := by
      intro l
      induction l with
      | nil => intro x _ h; cases h
      | cons y l ih =>
        intro x hx h
        rcases List.mem_cons.1 h with h | h
        · subst h; exact hx.1
        · exact ih y hx.2 h
    exact this _ _ hc.2 h1

end
end Pool
end Itc
