import Verif.Props.LiveTimed
import Verif.Props.LiveWait

/-!
# C63: condition_variable::wait_for and future::wait_for return

For an arbitrary application of this layer and infinite execution in which time passes; vocabulary of `Verif.Props.Live`.
-/
namespace Itc
open Core Sync
section
variable {α φ δ χ : Type} {A : App α φ δ χ} {ad : δ} {i0 : φ} {s s' : SSt α φ δ}

/-! ## A waiter of a future is signalled only if the future is ready -/

theorem took_ready (hr : SR A ad i0 s) : ∀ {t p : Nat} {l : List (Nat × Nat)}, .took t (.fut p) l ∈ s.data.sd.slog → rdy s.data.sd p := by
  refine Reach.induct (fun s => ∀ {t p : Nat} {l : List (Nat × Nat)}, .took t (.fut p) l ∈ s.data.sd.slog → rdy s.data.sd p) ?_ ?_ hr
  · intro t p l h; simp [Core.init] at h
  · intro s l s' hr ih hs t p x hx
    have keep : rdy s.data.sd p → rdy s'.data.sd p := fun h => ⟨Nat.lt_of_lt_of_le h.1 (step_ext hs).nst, (step_ext hs).ready h.1 h.2⟩
    rcases step_sd hs with h | ⟨t, ch, f, rest, a, rfl, hexc, hst, hS⟩
    · rw [h] at hx; exact keep (ih hx)
    · cases sem_eff hS with
      | quiet _ _ _ h4 =>
        rcases h4 with h4 | ⟨e, h5, h4⟩
        · rw [h4] at hx; exact keep (ih hx)
        · rw [h4] at hx
          rcases List.mem_cons.1 hx with rfl | hx
          · cases h5
          · exact keep (ih hx)
      | add _ _ _ _ _ _ h4 => rw [h4] at hx; exact keep (ih (by simpa using hx))
      | rem _ _ _ _ _ _ _ _ h4 => rw [h4] at hx; exact keep (ih (by simpa using hx))
      | sig _ _ _ _ _ _ _ _ _ h4 => rw [h4] at hx; exact keep (ih (by simpa using hx))
      | take S l r hS hf h1 h2 h3 h4 =>
        rw [h4] at hx
        rcases List.mem_cons.1 hx with hx | hx
        · have ht := ty1_top hr hst
          refine keep ?_
          clear keep hs
          generalize s'.data.sd = d at *
          cases hx
          rcases hf with ⟨n, rfl⟩ | ⟨K, rfl⟩
          · cases hS; simp at h4
          · cases hS
            simp only [List.cons.injEq, SEv.took.injEq, true_and, and_true] at h4
            cases K with
            | fut q cs => cases h4.1; exact ht.1
            | _ => simp [NK.sem] at h4
        · exact keep (ih hx)

theorem tok_ready (hr : SR A ad i0 s) {u p i k : Nat} {g : SFrame α φ} (hg : .client g ∈ s.stk u) (hw : wtok g = some (.fut p, i, k))
    (hk : s.data.sd.tok k = true) : s.data.sd.ready p = true := by
  have hI := sem_I hr
  obtain ⟨t, ht⟩ := (hI.tokSig k).1 hk
  obtain ⟨S, l, j, h1, h2, -⟩ := hI.sigTook ht
  obtain ⟨a, ha⟩ := (sem_F hr hg).wt _ _ _ hw
  obtain ⟨b, hb⟩ := hI.tookEnt h1 h2
  obtain ⟨-, rfl, -⟩ := hI.entUq ha hb
  exact (took_ready hr h1).2

/-! ## The calls -/

section
variable {r : Run (client A)} {u j m : Nat} {l : Option Nat} {f x : SFrame α φ} {rest : List (Fr α φ)} {w : W}

/-- While thread `u` stays at one place above `L`, others do not hold the lock `n` all the time. -/
def Frees (r : Run (client A)) (u : Nat) (n : Lk) (L : List (Fr α φ)) : Prop :=
  ∀ i x, (∀ m, i ≤ m → (r.st m).stk u = .client x :: L) → ∃ m, i ≤ m ∧ ∀ v, (r.st m).data.sd.lk n = some v → v = u

/-- If thread `u` does not hold the lock `n` when it calls a function above `L`, it does not hold it when the call has returned (tasks that the call executes
    do not take it without releasing it). -/
def Leaves (r : Run (client A)) (u : Nat) (n : Lk) (L : List (Fr α φ)) : Prop :=
  ∀ i m, r.Ends u L i m → (r.st i).data.sd.lk n ≠ some u → (r.st m).data.sd.lk n ≠ some u

/-- A lock is taken only by the thread that makes the step. -/
theorem lk_got {run destroy : α → φ} {v : View} {d d' : SData α} {rv : Val} {f : SFrame α φ} {a : Act (STask α) (SFrame α φ)}
    (hS : SS run destroy v d rv f d' a) {u : Nat} {n : Lk} (hu : v.tid ≠ u) (h : d'.lk n = some u) : d.lk n = some u := by
  have put : ∀ (l : Lk) (o : Option Nat), o ≠ some u → set d.lk l o n = some u → d.lk n = some u := by
    intro l o ho h
    by_cases hm : n = l
    · subst hm; rw [set_same] at h; exact absurd h ho
    · rwa [set_ne _ _ hm] at h
  have relW : ∀ w : W, (d.relLk w.lk).lk n = some u → d.lk n = some u := by
    intro w h
    cases hw : w.lk with
    | none => rwa [hw] at h
    | some l => rw [hw] at h; exact put l none (by simp) h
  cases hS
  case swBefore w i k => exact relW w h
  case wfBefore w i k now e => exact relW w h
  case swIn => rwa [addW_lk] at h
  case wfAdd => rwa [addW_lk] at h
  all_goals first
    | exact h
    | exact put _ _ (fun h => hu (Option.some.inj h)) h
    | exact put _ _ (by simp) h

/-- A thread that stays where it is does not get hold of a lock. -/
theorem lk_stays {r : Run (client A)} {u m0 : Nat} {n : Lk} {x : SFrame α φ} {L : List (Fr α φ)} (hx : ∀ g, x ≠ .app g)
    (hgo : ∀ v d rv d' a, SS A.run A.destroy v d rv x d' a → ∃ y, a = .goto y ∧ y ≠ x)
    (he : ∀ m, m0 ≤ m → ((r.st m).thr u).exc = none) (hst : ∀ m, m0 ≤ m → (r.st m).stk u = .client x :: L) (h0 : (r.st m0).data.sd.lk n ≠ some u) :
    ∀ k, (r.st (m0 + k)).data.sd.lk n ≠ some u := by
  intro k
  induction k with
  | zero => exact h0
  | succ k ih =>
    intro h
    have hok := r.ok (m0 + k)
    rcases step_sd hok with h1 | ⟨t, ch, f, rest, a, hl, hexc, hold, hS⟩
    · exact ih (h1 ▸ h)
    · by_cases ht : t = u
      · subst ht
        rw [hl] at hok
        obtain ⟨a, h2, h3⟩ := own_ss (hst _ (by omega)) hok (he _ (by omega)) hx
        obtain ⟨y, rfl, hy⟩ := hgo _ _ _ _ _ h2
        have h4 := h3.1
        have h5 := hst (m0 + k + 1) (by omega)
        rw [h4] at h5
        exact hy (by injection h5 with h5 _; injection h5)
      · exact ih (lk_got hS ht h)

structure SEnv (r : Run (client A)) (ad : δ) (i0 : φ) (u : Nat) (l : Option Nat) (w : W) (f : SFrame α φ) (rest : List (Fr α φ)) : Prop where
  hr : SR A ad i0 (r.st 0)
  fair : r.Strong u
  time : r.Time
  unr : ∀ c, l = some c → ∀ j id n, .unregistered c id n ∉ (r.st j).log
  lock : ∀ n, w.lk = some n → Frees r u n (.client f :: rest)
  keep : ∀ n, w.lk = some n → ∀ i k e, Leaves r u n (.client (.wfAfter w i k e) :: .client f :: rest)
  tasks : ∀ c, l = some c → ∀ i k e b, FromTasks r u c (.toWait b) (.client (.wfAfter w i k e) :: .client f :: rest)

variable (h : SEnv r ad i0 u l w f rest)
include h

theorem SEnv.env : TEnv r { sd := {}, ad := ad } (.app i0) u l := ⟨h.hr, h.fair.just, h.unr⟩

/-- The next step of the call. -/
theorem SEnv.next (hx : ∀ g, x ≠ .app g) (ha : AtT r u l f rest j m [.client x])
    (hs : ∀ n, m ≤ n → (∀ m', m ≤ m' → (r.st m').stk u = .client x :: .client f :: rest ∧ ((r.st m').thr u).exc = none) →
      ∃ m', n ≤ m' ∧ ∃ y, sstep A.run A.destroy ((r.st m').view u) (r.st m').data.sd x ((r.st m').thr u).rv = some y) :
    ∃ m' sd a, m ≤ m' ∧ AtT r u l f rest j m' [.client x] ∧ SS A.run A.destroy ((r.st m').view u) (r.st m').data.sd ((r.st m').thr u).rv x sd a ∧
      (r.st (m' + 1)).data.sd = sd ∧ ActTo (r.st m') (r.st (m' + 1)) u (.client f :: rest) a ∧ (r.st (m' + 1)).loc u = (r.st m').loc u := by
  obtain ⟨m', h1, h2, ⟨ch, h3⟩, h4⟩ := r.nextF h.hr h.fair (i := m) (by rw [ha.stk]; simp) fun n hn hsame => by
    obtain ⟨m', h1, ⟨sd, y⟩, hy⟩ := hs n hn fun m' hm => ⟨(hsame m' hm).stk.trans ha.stk, (hsame m' hm).exc.trans ha.exc⟩
    refine ⟨m', h1, .go, ?_⟩
    rw [step_th (r.reach h.hr m') (r.good m').1 (r.good m').2 ((hsame m' (by omega)).stk.trans ha.stk) ((hsame m' (by omega)).exc.trans ha.exc)]
    simp only [stepClient]
    have : (client A).step ((r.st m').view u) (r.st m').data x ((r.st m').thr u).rv .go = some ({ (r.st m').data with sd := sd }, y) := by
      cases x <;> first | exact absurd rfl (hx _) | (simp only [client, hy])
    rw [this]
    cases y <;> rfl
  have hA : AtT r u l f rest j m' [.client x] := by
    refine ⟨Nat.le_trans ha.le h1, h2.stk.trans ha.stk, h2.exc.trans ha.exc, h2.loc.trans ha.loc, fun q ha' hb => ?_⟩
    rcases Nat.lt_or_ge q m with hq | hq
    · exact ha.suf q ha' hq
    · exact ⟨[], _, by rw [(h4 q hq (by omega)).stk, ha.stk]; rfl⟩
  have hok := r.ok m'
  rw [h3] at hok
  cases step_cl hok with
  | cl f r' d' a _ hold hstep hdata hact =>
    rw [hA.stk] at hold; cases hold
    cases client_cs hstep with
    | app g ad sa hA => exact absurd rfl (hx g)
    | sync f sd x hS => exact ⟨m', sd, a, h1, hA, hS, by rw [hdata], hact, congrFun ‹(r.st (m' + 1)).loc = _› u⟩
  | core f r' _ hold => rw [hA.stk] at hold; cases hold
  | fin he hold => rw [hA.stk] at he; cases he
  | _ => have := hA.exc; simp_all

/-- The next step of a call that never blocks there. -/
theorem SEnv.go (hx : ∀ g, x ≠ .app g) (ha : AtT r u l f rest j m [.client x])
    (hs : ∀ m, ∃ y, sstep A.run A.destroy ((r.st m).view u) (r.st m).data.sd x ((r.st m).thr u).rv = some y) :
    ∃ m' sd a, m ≤ m' ∧ AtT r u l f rest j m' [.client x] ∧ SS A.run A.destroy ((r.st m').view u) (r.st m').data.sd ((r.st m').thr u).rv x sd a ∧
      (r.st (m' + 1)).data.sd = sd ∧ ActTo (r.st m') (r.st (m' + 1)) u (.client f :: rest) a ∧ (r.st (m' + 1)).loc u = (r.st m').loc u :=
  h.next hx ha fun n _ _ => ⟨n, Nat.le_refl _, hs n⟩

/-- The lock becomes free. -/
theorem SEnv.free {q n : Nat} {L : Lk} (hq : w.lk = some L) (hx : ∀ g, x ≠ .app g) (hgo : ∀ v d rv d' a, SS A.run A.destroy v d rv x d' a → ∃ y, a = .goto y ∧ y ≠ x)
    (h0 : (r.st q).data.sd.lk L ≠ some u) (hqn : q ≤ n) (hst : ∀ m', q ≤ m' → (r.st m').stk u = .client x :: .client f :: rest ∧ ((r.st m').thr u).exc = none) :
    ∃ m', n ≤ m' ∧ (r.st m').data.sd.lk L = none := by
  obtain ⟨m', h1, h2⟩ := h.lock L hq n x fun m hm => (hst m (by omega)).1
  refine ⟨m', h1, ?_⟩
  cases hl : (r.st m').data.sd.lk L with
  | none => rfl
  | some v =>
    obtain rfl := h2 v hl
    obtain ⟨k, rfl⟩ := Nat.exists_eq_add_of_le (show q ≤ m' by omega)
    exact absurd hl (lk_stays hx hgo (fun m hm => (hst m hm).2) (fun m hm => (hst m hm).1) h0 k)

/-- One round of wait_for: the wait is over, or the clock has been read again. -/
theorem SEnv.round {i k : Nat} {now e : Int} {b : Bool} (ha : AtT r u l f rest j m [.client (.wfLoop w i k now e b)]) :
    (∃ m' m1 b' y, m < m' ∧ m1 < m' ∧ AtT r u l f rest j m' [.client (.wfRem w i b' k y)] ∧
      (b' = true ∨ (∃ g, (r.st m1).stk u = .client g :: .client f :: rest ∧ wtok g = some (w.sem, i, k) ∧ (r.st m1).data.sd.tok k = true) ∨ (r.st m1).notified u = true ∧ (r.st m1).loc u = l)) ∨
    ∃ m' b', m < m' ∧ AtT r u l f rest j m' [.client (.wfLoop w i k (r.st (m' - 1)).clock e b')] ∧ now < e := by
  obtain ⟨m1, sd, a, h1, h2, h3, h4, h5, h6⟩ := h.go (by simp) ha fun m => by
    simp only [sstep]; repeat' split
    all_goals exact ⟨_, rfl⟩
  cases h3 with
  | wfSig _ _ _ _ _ _ hk =>
    exact .inl ⟨m1 + 1, m1, _, _, by omega, by omega, h2.succ h5.1 h5.2.1 h6, .inr (.inl ⟨_, h2.stk, rfl, hk⟩)⟩
  | wfTime => exact .inl ⟨m1 + 1, m1, _, _, by omega, by omega, h2.succ h5.1 h5.2.1 h6, .inl rfl⟩
  | wfNot _ _ _ _ _ _ _ hlt =>
  have h7 : AtT r u l f rest j (m1 + 1) [.client (.wfChk w i k now e b)] := h2.succ h5.1 h5.2.1 h6
  clear h4 h5 h6
  obtain ⟨m2, sd, a, h8, h2, h3, h4, h5, h6⟩ := h.go (by simp) h7 fun m => by
    simp only [sstep]; repeat' split
    all_goals exact ⟨_, rfl⟩
  cases h3 with
  | wfExit _ _ _ _ _ _ hx =>
    exact .inl ⟨m2 + 1, m2, _, _, by omega, by omega, h2.succ h5.1 h5.2.1 h6, .inr (.inr ⟨hx, h2.loc⟩)⟩
  | wfStay =>
  have h9 : AtT r u l f rest j (m2 + 1) [.client (.wfBefore w i k now e)] := h2.succ h5.1 h5.2.1 h6
  clear h4 h5 h6
  obtain ⟨m3, sd, a, h10, h2, h3, h4, h5, h6⟩ := h.go (by simp) h9 fun m => ⟨_, rfl⟩
  cases h3
  have h11 : AtT r u l (.wfAfter w i k e) (.client f :: rest) (m3 + 1) (m3 + 1) [.core (.waitForIn (e - now))] :=
    ⟨Nat.le_refl _, h5.1, h5.2.1, h6.trans h2.loc, fun q h1 h2 => by omega⟩
  have hrel : ∀ n, w.lk = some n → (r.st (m3 + 1)).data.sd.lk n ≠ some u := by
    intro n hn
    rw [h4, hn]
    simp [SData.relLk, SData.setLk]
  obtain ⟨m4, h12, h13'⟩ := TEnv.waitFor h.env h.time (g := []) h11 (by simp) fun b =>
    ⟨fun c hc k' => (h.tasks c hc i k e b k').1, fun c hc k' => (h.tasks c hc i k e b k').2⟩
  have h13 : AtT r u l f rest j m4 [.client (.wfAfter w i k e)] := by
    refine ⟨by have := h2.le; omega, h13'.stk, h13'.exc, h13'.loc, fun q h1 h3 => ?_⟩
    rcases Nat.lt_or_ge q m3 with hq | hq
    · exact h2.suf q h1 hq
    rcases Nat.lt_or_eq_of_le hq with hq | rfl
    · obtain ⟨pre, x, hx⟩ := h13'.suf q hq h3
      exact ⟨pre ++ [x], _, by simpa using hx⟩
    · exact ⟨[], _, h2.stk⟩
  clear h4 h5 h6
  obtain ⟨m5, sd, a, h14, h2, h3, h4, h5, h6⟩ := h.next (by simp) h13 fun n hn hst => by
    cases hl : w.lk with
    | none => exact ⟨n, Nat.le_refl _, _, by simp only [sstep, hl, takeLk]; rfl⟩
    | some q =>
      obtain ⟨m', h1, h2⟩ := h.free hl (by simp) (by intro v d rv d' a hS; cases hS <;> exact ⟨_, rfl, by simp⟩)
        (h.keep q hl i k e _ _ ⟨by omega, h13'.stk, h13'.suf⟩ (hrel q hl)) hn hst
      exact ⟨m', h1, by simp [sstep, takeLk, hl, h2]⟩
  have h15 : ∃ b, AtT r u l f rest j (m5 + 1) [.client (.wfNow w i k e b)] := by
    cases h3 <;> exact ⟨_, h2.succ h5.1 h5.2.1 h6⟩
  obtain ⟨b', h15⟩ := h15
  clear h3 h4 h5 h6
  obtain ⟨m6, sd, a, h16, h2, h3, h4, h5, h6⟩ := h.go (by simp) h15 fun m => ⟨_, rfl⟩
  cases h3
  exact .inr ⟨m6 + 1, b', by omega, h2.succ h5.1 h5.2.1 h6, by omega⟩

/-- The wait of wait_for is over at some time. -/
theorem SEnv.loop {i k : Nat} {now e : Int} {b : Bool} (ha : AtT r u l f rest j m [.client (.wfLoop w i k now e b)]) :
    ∃ m' m1 b' y, m < m' ∧ m1 < m' ∧ AtT r u l f rest j m' [.client (.wfRem w i b' k y)] ∧
      (b' = true ∨ (∃ g, (r.st m1).stk u = .client g :: .client f :: rest ∧ wtok g = some (w.sem, i, k) ∧ (r.st m1).data.sd.tok k = true) ∨ (r.st m1).notified u = true ∧ (r.st m1).loc u = l) := by
  obtain ⟨M, hM⟩ := h.time e.toNat
  have hck : ∀ m', M ≤ m' → e ≤ ((r.st m').clock : Int) := fun m' hm => by have := r.clock_le hm; omega
  suffices hk : ∀ q m now b, M + 1 - m ≤ q → (m ≤ M ∨ e ≤ now) → AtT r u l f rest j m [.client (.wfLoop w i k now e b)] →
      ∃ m' m1 b' y, m < m' ∧ m1 < m' ∧ AtT r u l f rest j m' [.client (.wfRem w i b' k y)] ∧
      (b' = true ∨ (∃ g, (r.st m1).stk u = .client g :: .client f :: rest ∧ wtok g = some (w.sem, i, k) ∧ (r.st m1).data.sd.tok k = true) ∨ (r.st m1).notified u = true ∧ (r.st m1).loc u = l) by
    rcases Nat.le_total m M with h1 | h1
    · exact hk _ m now b (Nat.le_refl _) (.inl h1) ha
    · rcases h.round ha with h2 | ⟨m2, b2, h2, hA2, -⟩
      · exact h2
      · obtain ⟨m3, m1, b', y, h3, h4⟩ := hk _ m2 _ _ (Nat.le_refl _) (.inr (hck _ (by omega))) hA2
        exact ⟨m3, m1, b', y, by omega, h4⟩
  intro q
  induction q with
  | zero =>
    intro m now b h0 h1 ha
    rcases h.round ha with h2 | ⟨m2, b2, -, -, h3⟩
    · exact h2
    · omega
  | succ q ih =>
    intro m now b h0 h1 ha
    rcases h.round ha with h2 | ⟨m2, b2, h2, hA2, -⟩
    · exact h2
    · obtain ⟨m3, m1, b', y, h3, h4⟩ := ih m2 _ _ (by omega) (by
        rcases Nat.lt_or_ge M m2 with h4 | h4
        · exact .inr (hck _ (by omega))
        · exact .inl h4) hA2
      exact ⟨m3, m1, b', y, by omega, h4⟩

/-- semaphore::wait_for up to the removal of the waiter. -/
theorem SEnv.waitFor {dur : Int} (ha : AtT r u l f rest j m [.client (.wfIn w dur)]) :
    ∃ m' m1 i k b' y, m < m' ∧ m1 < m' ∧ AtT r u l f rest j m' [.client (.wfRem w i b' k y)] ∧
      (b' = true ∨ (∃ g, (r.st m1).stk u = .client g :: .client f :: rest ∧ wtok g = some (w.sem, i, k) ∧ (r.st m1).data.sd.tok k = true) ∨ (r.st m1).notified u = true ∧ (r.st m1).loc u = l) := by
  obtain ⟨m1, sd, a, h1, h2, h3, h4, h5, h6⟩ := h.go (by simp) ha fun m => ⟨_, rfl⟩
  cases h3
  have h7 := h2.succ (G := [.client _]) h5.1 h5.2.1 h6
  clear h4 h5 h6
  obtain ⟨m2, sd, a, h8, h2, h3, h4, h5, h6⟩ := h.go (by simp) h7 fun m => ⟨_, rfl⟩
  cases h3
  have h9 := h2.succ (G := [.client _]) h5.1 h5.2.1 h6
  obtain ⟨m', m1, b', y, h10, h11⟩ := h.loop h9
  exact ⟨m', m1, _, _, b', y, by omega, h11⟩

end

section
variable {r : Run (client A)} {u j m p : Nat} {l : Option Nat} {f x : SFrame α φ} {rest : List (Fr α φ)} {dur : Int}

theorem notified_le {r : Run (client A)} (hr : SR A ad i0 (r.st 0)) (h1 : (r.st j).notified u = true) (h2 : (r.st m).loc u = (r.st j).loc u) (h3 : j ≤ m) :
    (r.st m).notified u = true := by
  have h2 : ((r.st m).thr u).loc = ((r.st j).thr u).loc := h2
  simp only [St.notified, h2] at h1 ⊢
  cases hc : ((r.st j).thr u).loc with
  | none => rfl
  | some c =>
    simp only [hc] at h1 ⊢
    exact ((QInv.reach (r.reach hr m)).exit c).2 (r.logm h3 (((QInv.reach (r.reach hr j)).exit c).1 h1))

/-- The loop of future::wait_for, when it does not begin another wait. -/
theorem SEnv.futEnd (h : SEnv r ad i0 u l (.fv p dur) f rest) (ha : AtT r u l f rest j m [.client (.fvLoop p dur)])
    (hq : ∀ m', m ≤ m' → (r.st m').data.sd.ready p = true ∨ ((r.st m').loc u = l → (r.st m').notified u = true)) : ∃ m', m < m' ∧ AtT r u l f rest j m' [] := by
  obtain ⟨m1, sd, a, h1, h2, h3, h4, h5, h6⟩ := h.go (by simp) ha fun m => by
    simp only [sstep]; repeat' split
    all_goals exact ⟨_, rfl⟩
  cases h3 with
  | fvOk => exact ⟨m1 + 1, by omega, h2.succ h5.1 h5.2.1 h6⟩
  | fvNot _ _ hn =>
  have hno : ∀ m', m1 ≤ m' → (r.st m').loc u = l → (r.st m').notified u = true := by
    intro m' hm hl
    rcases hq m1 h1 with h7 | h7
    · rw [h7] at hn; cases hn
    · exact notified_le h.hr (h7 h2.loc) (hl.trans h2.loc.symm) hm
  have h7 : AtT r u l f rest j (m1 + 1) [.client (.fvChk p dur)] := h2.succ h5.1 h5.2.1 h6
  clear h4 h5 h6
  obtain ⟨m2, sd, a, h8, h2, h3, h4, h5, h6⟩ := h.go (by simp) h7 fun m => by
    simp only [sstep]; repeat' split
    all_goals exact ⟨_, rfl⟩
  cases h3 with
  | fvExit => exact ⟨m2 + 1, by omega, h2.succ h5.1 h5.2.1 h6⟩
  | fvStay _ _ hx =>
    have hx : (r.st m2).notified u = false := hx
    rw [hno m2 (by omega) h2.loc] at hx; cases hx

theorem SEnv.fut (h : SEnv r ad i0 u l (.fv p dur) f rest) (ha : AtT r u l f rest j m [.client (.fvIn p dur)]) (hg : (r.st m).data.sd.lk (.guard p) ≠ some u) : ∃ m', m < m' ∧ AtT r u l f rest j m' [] := by
  obtain ⟨m0, sd, a, h0, h2, h3, h4, h5, h6⟩ := h.next (by simp) ha fun n hn hst => by
    obtain ⟨m', h1, h2⟩ := h.free rfl (by simp) (by intro v d rv d' a hS; cases hS <;> exact ⟨_, rfl, by simp⟩) hg hn hst
    exact ⟨m', h1, by simp [sstep, h2]⟩
  cases h3
  have h7 : AtT r u l f rest j (m0 + 1) [.client (.fvLoop p dur)] := h2.succ h5.1 h5.2.1 h6
  clear h4 h5 h6
  obtain ⟨m1, sd, a, h1, h2, h3, h4, h5, h6⟩ := h.go (by simp) h7 fun m => by
    simp only [sstep]; repeat' split
    all_goals exact ⟨_, rfl⟩
  cases h3 with
  | fvOk => exact ⟨m1 + 1, by omega, h2.succ h5.1 h5.2.1 h6⟩
  | fvNot _ _ hn =>
  have h7 : AtT r u l f rest j (m1 + 1) [.client (.fvChk p dur)] := h2.succ h5.1 h5.2.1 h6
  clear h4 h5 h6
  obtain ⟨m2, sd, a, h8, h2, h3, h4, h5, h6⟩ := h.go (by simp) h7 fun m => by
    simp only [sstep]; repeat' split
    all_goals exact ⟨_, rfl⟩
  cases h3 with
  | fvExit => exact ⟨m2 + 1, by omega, h2.succ h5.1 h5.2.1 h6⟩
  | fvStay =>
  have h9 : AtT r u l f rest j (m2 + 1) [.client (.wfIn (.fv p dur) dur)] := h2.succ h5.1 h5.2.1 h6
  clear h4 h5 h6
  obtain ⟨m3, m4, i, k, b, y, h10, h11, h12, hwhy⟩ := h.waitFor h9
  obtain ⟨m5, sd, a, h13, h2, h3, h4, h5, h6⟩ := h.go (by simp) h12 fun m => ⟨_, rfl⟩
  cases h3
  have h14 : AtT r u l f rest j (m5 + 1) [.client (.fvRes p dur b)] := h2.succ h5.1 h5.2.1 h6
  clear h4 h5 h6
  obtain ⟨m6, sd, a, h15, h2, h3, h4, h5, h6⟩ := h.go (by simp) h14 fun m => by
    simp only [sstep]; split <;> exact ⟨_, rfl⟩
  cases h3 with
  | fvTime => exact ⟨m6 + 1, by omega, h2.succ h5.1 h5.2.1 h6⟩
  | fvAgain =>
    obtain ⟨m7, h16, h17⟩ := h.futEnd (m := m6 + 1) (h2.succ h5.1 h5.2.1 h6) fun m' hm => by
      rcases hwhy with hb | ⟨g, h16, h17, h18⟩ | ⟨h16, h17⟩
      · cases hb
      · exact .inl (Run.ready_le h.hr (tok_ready (r.reach h.hr m4) (by rw [h16]; simp) h17 h18) (by omega))
      · exact .inr fun hl => notified_le h.hr h16 (hl.trans h17.symm) (by omega)
    exact ⟨m7, by omega, h17⟩

theorem SEnv.futIn (h : SEnv r ad i0 u l (.fv p dur) f rest) (ha : AtT r u l f rest j m [.client (.fvIn? (some p) dur)])
    (hg : ∀ g, .client g ∈ .client f :: rest → gw p g ≠ 1) : ∃ m', m < m' ∧ AtT r u l f rest j m' [] := by
  obtain ⟨m1, sd, a, h1, h2, h3, h4, h5, h6⟩ := h.go (by simp) ha fun m => by
    simp only [sstep]; repeat' split
    all_goals exact ⟨_, rfl⟩
  cases h3 with
  | fvS =>
    obtain ⟨m', h7, h8⟩ := h.fut (m := m1 + 1) (h2.succ h5.1 h5.2.1 h6) (guard_none (r.reach h.hr _) (pre := [.client (.fvIn p dur)]) h5.1 hg (by simp [gw]))
    exact ⟨m', by omega, h8⟩
  | fvBad => have := (r.good (m1 + 1)).2; rw [h5.2.1] at this; cases this

theorem SEnv.cv {n q : Nat} (h : SEnv r ad i0 u l (.cv n q) f rest) (ha : AtT r u l f rest j m [.client (.cfIn n q dur)]) : ∃ m', m < m' ∧ AtT r u l f rest j m' [] := by
  obtain ⟨m1, sd, a, h1, h2, h3, h4, h5, h6⟩ := h.go (by simp) ha fun m => by
    simp only [sstep]; repeat' split
    all_goals exact ⟨_, rfl⟩
  cases h3 with
  | cfBad => have := (r.good (m1 + 1)).2; rw [h5.2.1] at this; cases this
  | cfIn =>
  have h7 : AtT r u l f rest j (m1 + 1) [.client (.wfIn (.cv n q) dur)] := h2.succ h5.1 h5.2.1 h6
  clear h4 h5 h6
  obtain ⟨m3, m4, i, k, b, y, h10, h11, h12, -⟩ := h.waitFor h7
  obtain ⟨m5, sd, a, h13, h2, h3, h4, h5, h6⟩ := h.go (by simp) h12 fun m => ⟨_, rfl⟩
  cases h3
  exact ⟨m5 + 1, by omega, h2.succ h5.1 h5.2.1 h6⟩

end

section
variable {r : Run (client A)} {u j : Nat} {f : SFrame α φ} {rest : List (Fr α φ)}

/-- **C63.** condition_variable::wait_for, with the lock `q`, returns without an exception, provided that the scheduler is strongly fair to the thread, time passes,
    the tasks that the call executes return and do not keep the lock, and others do not hold the lock for ever while the thread wants to have it back; unless
    the thread is unregistered. -/
theorem C63_cv (hr : SR A ad i0 (r.st 0)) (hf : r.Strong u) (ht : r.Time) {n q : Nat} {dur : Int} (hl : Frees r u (.user q) (.client f :: rest))
    (hT : ∀ c i k e b, (r.st j).loc u = some c → FromTasks r u c (.toWait b) (.client (.wfAfter (.cv n q) i k e) :: .client f :: rest))
    (hk : ∀ i k e, Leaves r u (.user q) (.client (.wfAfter (.cv n q) i k e) :: .client f :: rest))
    (hst : (r.st j).stk u = .client (SApi.cvWaitFor n q dur).entry :: .client f :: rest) (hexc : ((r.st j).thr u).exc = none) :
    (∃ m, r.Ends u (.client f :: rest) j m ∧ ((r.st m).thr u).exc = none) ∨ ∃ c m id n, (r.st j).loc u = some c ∧ .unregistered c id n ∈ (r.st m).log :=
  back_of fun hu => SEnv.cv ⟨hr, hf, ht, hu, fun _ hn => by cases hn; exact hl, fun _ hn => by cases hn; exact hk,
    fun c hc i k e b => hT c i k e b hc⟩ (atT_of hst hexc)

/-- **C63.** The same for future::wait_for; the lock is the guard of the shared state, which the thread does not hold when it makes the call. -/
theorem C63_future (hr : SR A ad i0 (r.st 0)) (hf : r.Strong u) (ht : r.Time) {p : Nat} {dur : Int} (hl : Frees r u (.guard p) (.client f :: rest))
    (hT : ∀ c i k e b, (r.st j).loc u = some c → FromTasks r u c (.toWait b) (.client (.wfAfter (.fv p dur) i k e) :: .client f :: rest))
    (hst : (r.st j).stk u = .client (SApi.futWaitFor (some p) dur).entry :: .client f :: rest) (hexc : ((r.st j).thr u).exc = none)
    (hg : (r.st j).data.sd.lk (.guard p) ≠ some u) :
    (∃ m, r.Ends u (.client f :: rest) j m ∧ ((r.st m).thr u).exc = none) ∨ ∃ c m id n, (r.st j).loc u = some c ∧ .unregistered c id n ∈ (r.st m).log :=
  have hnh : ∀ g, .client g ∈ .client f :: rest → gw p g ≠ 1 := fun g h4 h5 => hg (guard_own (r.reach hr j) (by rw [hst]; exact List.mem_cons_of_mem _ h4) h5)
  back_of fun hu => SEnv.futIn ⟨hr, hf, ht, hu, fun _ hn => by cases hn; exact hl,
    fun _ hn i k e i' m' he _ => by cases hn; exact guard_none (r.reach hr m') (pre := [.client (.wfAfter (.fv p dur) i k e)]) he.2.1 hnh (by simp [gw]),
    fun c hc i k e b => hT c i k e b hc⟩ (atT_of hst hexc) hnh

end

/-! ## Examples: thread 1 sends a task to main, which calls a function with a limit and executes the task -/

def sTimedProg (y x : SApi Nat) : List (SAct Nat Nat) :=
  [.core .registerThis 2, .core (.spawn 1 5) 3, .sync y 4, .sync x 8, .core .registerThis 6, .core (.invoke 1 7) 8]

theorem frees_end {P : List (SAct Nat Nat)} {r : Run (client (tableApp P))} {ls : List (Lbl Unit)}
    (he : (sexec P ls).map (fun s => (s.stk 0).isEmpty) = some true)
    (h : ∀ s', sexec P ls = some s' → ∀ i, r.st (ls.length + i) = { s' with clock := s'.clock + i }) (n : Lk) (L : List (Fr Nat Nat)) : Frees r 0 n L := by
  intro i x hi
  obtain ⟨s', h1, h2⟩ := Option.map_eq_some_iff.1 he
  have h3 := hi (ls.length + i) (by omega)
  rw [h s' h1 i] at h3
  have h3 : s'.stk 0 = _ := h3
  rw [h3] at h2
  cases h2

def afterTop : List (Fr Nat Nat) → Bool | .client (.wfAfter _ _ _ _) :: _ => true | _ => false

theorem leaves_of {P : List (SAct Nat Nat)} {r : Run (client (tableApp P))} {ls : List (Lbl Unit)} {n : Lk}
    (he : (sexec P ls).map (fun s => (s.stk 0).isEmpty) = some true)
    (h : ∀ s', sexec P ls = some s' → ∀ i, r.st (ls.length + i) = { s' with clock := s'.clock + i })
    (hobs : ∀ (i : Nat) (g : DSt → Bool) (b : Bool), i ≤ ls.length → (sexec P (ls.take i)).map g = some b → g (r.st i) = b)
    (htab : ∀ m < ls.length + 1, (sexec P (ls.take m)).map (fun s => afterTop (s.stk 0) && decide (s.data.sd.lk n = some 0)) = some false)
    (w : W) (i k : Nat) (e : Int) (L : List (Fr Nat Nat)) : Leaves r 0 n (.client (.wfAfter w i k e) :: L) := by
  intro i' m hE _ hc
  have hst := hE.2.1
  rcases Nat.lt_or_ge m (ls.length + 1) with hm | hm
  · have := hobs m _ _ (by omega) (htab m hm)
    simp [hst, hc, afterTop] at this
  · obtain ⟨q, rfl⟩ := Nat.exists_eq_add_of_le (show ls.length ≤ m by omega)
    obtain ⟨s', h1, h2⟩ := Option.map_eq_some_iff.1 he
    rw [h s' h1 q] at hst
    have h3 : s'.stk 0 = _ := hst
    rw [h3] at h2
    cases h2

/-- Hypotheses of `C63_cv`. -/
example : ∃ r : Run (client (tableApp (sTimedProg (.lock 0) (.cvWaitFor 0 0 5000)))), SR (tableApp (sTimedProg (.lock 0) (.cvWaitFor 0 0 5000))) () 1 (r.st 0) ∧
    r.Strong 0 ∧ r.Time ∧ (r.st 9).stk 0 = [.client (SApi.cvWaitFor 0 0 5000).entry, .client (.app 8)] ∧ ((r.st 9).thr 0).exc = none ∧ (r.st 9).loc 0 = some 0 ∧
    (∀ n L, Frees r 0 n L) ∧ (∀ L rr, FromTasks r 0 0 rr L) ∧
    ∀ i k e, Leaves r 0 (.user 0) [.client (.wfAfter (.cv 0 0) i k e), .client (.app 8)] := by
  obtain ⟨r, h1, h2, h3, h4, h5, h6⟩ := timed_run (C := client (tableApp (sTimedProg (.lock 0) (.cvWaitFor 0 0 5000)))) (d := { sd := {}, ad := () }) (f0 := .app 1)
    (ls := Core.go 0 17 ++ Core.go 1 7 ++ Core.go 0 5 ++ [.tick 6000] ++ Core.go 0 6) (x := .app 7) (rr := .toWait false)
    (L := [.client (.wfAfter (.cv 0 0) 1 0 5000), .client (.app 8)]) 25 (isRan := ranTop) (isFreed := freedTop)
    (fun _ _ _ _ => rfl) (fun _ _ _ _ => rfl) (by decide +kernel) (by decide +kernel) (by decide +kernel) (by decide +kernel) (by decide +kernel) (by decide +kernel)
    (by decide)
  refine ⟨r, h1, h2, h3, h5 (fun s => s.stk 0) 9 _ (by decide) (by decide +kernel), h5 (fun s => (s.thr 0).exc) 9 _ (by decide) (by decide +kernel),
    h5 (fun s => s.loc 0) 9 _ (by decide) (by decide +kernel), frees_end (by decide +kernel) h6, h4,
    fun i k e => leaves_of (by decide +kernel) h6 (fun i g b => h5 g i b) (by decide +kernel) _ _ _ _ _⟩

/-- Hypotheses of `C63_future`. -/
example : ∃ r : Run (client (tableApp (sTimedProg (.promNew 0 false) (.futWaitFor (some 0) 5000)))), SR (tableApp (sTimedProg (.promNew 0 false) (.futWaitFor (some 0) 5000))) () 1 (r.st 0) ∧
    r.Strong 0 ∧ r.Time ∧ (r.st 9).stk 0 = [.client (SApi.futWaitFor (some 0) 5000).entry, .client (.app 8)] ∧ ((r.st 9).thr 0).exc = none ∧ (r.st 9).loc 0 = some 0 ∧
    (∀ n L, Frees r 0 n L) ∧ (∀ L rr, FromTasks r 0 0 rr L) ∧ (r.st 9).data.sd.lk (.guard 0) ≠ some 0 := by
  obtain ⟨r, h1, h2, h3, h4, h5, h6⟩ := timed_run (C := client (tableApp (sTimedProg (.promNew 0 false) (.futWaitFor (some 0) 5000)))) (d := { sd := {}, ad := () }) (f0 := .app 1)
    (ls := Core.go 0 20 ++ Core.go 1 7 ++ Core.go 0 5 ++ [.tick 6000] ++ Core.go 0 7) (x := .app 7) (rr := .toWait false)
    (L := [.client (.wfAfter (.fv 0 5000) 1 0 5000), .client (.app 8)]) 28 (isRan := ranTop) (isFreed := freedTop)
    (fun _ _ _ _ => rfl) (fun _ _ _ _ => rfl) (by decide +kernel) (by decide +kernel) (by decide +kernel) (by decide +kernel) (by decide +kernel) (by decide +kernel)
    (by decide)
  exact ⟨r, h1, h2, h3, h5 (fun s => s.stk 0) 9 _ (by decide) (by decide +kernel), h5 (fun s => (s.thr 0).exc) 9 _ (by decide) (by decide +kernel),
    h5 (fun s => s.loc 0) 9 _ (by decide) (by decide +kernel), frees_end (by decide +kernel) h6, h4,
    by rw [h5 (fun s => s.data.sd.lk (.guard 0)) 9 none (by decide) (by decide +kernel)]; simp⟩

end
end Itc
