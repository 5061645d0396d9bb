import Verif.Sync.Nest
import Verif.Sync.Demo

/-!
# Notifications reach their waiters (C22, C23, C25)

A waiter of a semaphore is an entry `(id, token)` in its list; `wtok` gives the semaphore, id and token of a program point inside
`semaphore::wait` / `wait_for`.  Ids are the ids of registered threads, 0 for unregistered ones.
-/
namespace Itc
open Core Sync
section
variable {α φ δ χ : Type} {A : App α φ δ χ} {ad : δ} {i0 : φ} {s0 s s' : SSt α φ δ}

/-- What holds of an earlier waiter when a `notify_all` returns. -/
theorem notify_done (hr : SR A ad i0 s0) {v n : Nat} {K : NK α} {rest : List (Fr α φ)}
    (hK : ∀ p l, K ≠ .fut p l) (hst : s0.stk v = .client (.naIn K) :: rest) (hf : Frag (client A) v rest s0 n s) {l : Lbl χ}
    (hs : step (client A) s l = some s') (hend : s'.stk v = rest) {u i k : Nat} (hent : .enter u K.sem i k ∈ s0.data.sd.slog) (hi : i ≠ 0) :
    s'.data.sd.tok k = true ∨ (∃ w, Delivering s' w i k) ∨ ∃ w l k' y, .left w K.sem l k' y ∈ s'.data.sd.slog ∧ (i, k) ∈ l := by
  have hr' := (hf.reach hr).step hs
  have hg := na_gone hr hK hst hf hs hend hent
  have hent' : .enter u K.sem i k ∈ s'.data.sd.slog := slog_mono hs (hf.slog hent)
  rcases fate hr' hent' hi with h | h | ⟨w, g, h1, h2⟩ | h
  · exact absurd hg ((sem_I hr').goneSem h)
  · exact .inl h
  · exact .inr (.inl ⟨w, g, h1, .inl h2⟩)
  · exact .inr (.inr h)

/-- Not the notifier itself, if the entry was in the list when it started. -/
theorem notifier_done (hr : SR A ad i0 s0) {v : Nat} {g : SFrame α φ} {rest : List (Fr α φ)} (hst : s0.stk v = .client g :: rest)
    (hend : s'.stk v = rest) {S : SemId} {i k w : Nat} (hk : (i, k) ∈ s0.data.sd.sem S) (hd : Delivering s' w i k) : w ≠ v := by
  rintro rfl
  obtain ⟨g, hg, hd⟩ := hd
  rw [hend] at hg
  have h0 := sem_F hr (t := w) (f := g) (by rw [hst]; simp [hg])
  have : ∃ S l, .took w S l ∈ s0.data.sd.slog ∧ (i, k) ∈ l := by
    rcases hd with h | h
    · exact h0.td _ h
    · exact (h0.cr _ _ h).1
  obtain ⟨S', l, h1, h2⟩ := this
  exact (sem_I hr).goneSem hk (List.mem_flatMap.2 ⟨_, h1, List.mem_map.2 ⟨_, h2, rfl⟩⟩)

/-- Thread `v` calls `notify_all` of condition variable `n` in state `s0`; in `s'` the call has returned.  Every registered waiter
    that was in the list when the call began is signalled and, if it is blocked, can wake up at once; unless another notifier
    took it and is still delivering, or the entry was removed from the list by a wait of its owner that ended (which is then
    another wait of the same thread that ended by time-out or exit, if the wait is still going on).

    The full claim has no such exceptions.  The first one is real: a concurrent `notify_all` may have taken the entry without having
    signalled it yet, see `C22_concurrent`. -/
theorem C22_notify_all_partial (hr : SR A ad i0 s0) {v m n : Nat} {rest : List (Fr α φ)} (hst : s0.stk v = .client (.naIn (.cv n)) :: rest)
    (hf : Frag (client A) v rest s0 m s) {l : Lbl χ} (hs : step (client A) s l = some s') (hend : s'.stk v = rest)
    (hub : s'.ub = false) (hterm : s'.term = false) {i k : Nat} (hk : (i, k) ∈ s0.data.sd.sem (.cv n)) (hi : i ≠ 0) :
    (s'.data.sd.tok k = true ∧ ∀ u, BlockedIn s' u (.cv n) i k → CanWake (client A) s' u) ∨
    (∃ w, w ≠ v ∧ Delivering s' w i k) ∨
    ∃ w l k' y, .left w (.cv n) l k' y ∈ s'.data.sd.slog ∧ (i, k) ∈ l ∧ ∀ u, BlockedIn s' u (.cv n) i k → w = u ∧ y ≠ .sig := by
  have hr' := (hf.reach hr).step hs
  obtain ⟨u0, hent⟩ := (sem_I hr).ent hk
  rcases notify_done hr (K := .cv n) (by simp) hst hf hs hend hent hi with h | ⟨w, hw⟩ | ⟨w, l, k', y, h1, h2⟩
  · by_cases hex : ∃ w, w ≠ v ∧ Delivering s' w i k
    · exact .inr (.inl hex)
    · refine .inl ⟨h, fun u hb => ?_⟩
      rcases blocked_wakes hr' hub hterm hb h with h | ⟨w, -, hw⟩
      · exact h
      · exact absurd ⟨w, notifier_done hr hst hend hk hw, hw⟩ hex
  · exact .inr (.inl ⟨w, notifier_done hr hst hend hk hw, hw⟩)
  · refine .inr (.inr ⟨w, l, k', y, h1, h2, ?_⟩)
    rintro u ⟨c, dl, g, r, hst, hw, -⟩
    exact (ni hr').lost u g _ _ _ (by rw [hst]; simp) hw hi w l k' y h1 h2

/-- The same without exceptions, for a waiter that no other notifier took and that was not removed from the list by its owner. -/
theorem C22_notify_all (hr : SR A ad i0 s0) {v m n : Nat} {rest : List (Fr α φ)} (hst : s0.stk v = .client (.naIn (.cv n)) :: rest)
    (hf : Frag (client A) v rest s0 m s) {l : Lbl χ} (hs : step (client A) s l = some s') (hend : s'.stk v = rest)
    (hub : s'.ub = false) (hterm : s'.term = false) {i k : Nat} (hk : (i, k) ∈ s0.data.sd.sem (.cv n)) (hi : i ≠ 0)
    (halone : ∀ w l, .took w (.cv n) l ∈ s'.data.sd.slog → (i, k) ∈ l → w = v)
    (hagain : ∀ w l k' y, .left w (.cv n) l k' y ∈ s'.data.sd.slog → (i, k) ∉ l) :
    s'.data.sd.tok k = true ∧ ∀ u, BlockedIn s' u (.cv n) i k → CanWake (client A) s' u := by
  have hr' := (hf.reach hr).step hs
  obtain ⟨u0, hent⟩ := (sem_I hr).ent hk
  rcases C22_notify_all_partial hr hst hf hs hend hub hterm hk hi with h | ⟨w, hne, g, hg, hd⟩ | ⟨w, l, k', y, h1, h2, -⟩
  · exact h
  · have : ∃ S l, .took w S l ∈ s'.data.sd.slog ∧ (i, k) ∈ l := by
      have h0 := sem_F hr' hg
      rcases hd with h | h
      · exact h0.td _ h
      · exact (h0.cr _ _ h).1
    obtain ⟨S, l, h1, h2⟩ := this
    obtain ⟨x, hx⟩ := (sem_I hr').tookEnt h1 h2
    obtain ⟨-, rfl, -⟩ := (sem_I hr').entUq hx (slog_mono hs (hf.slog hent))
    exact absurd (halone w l h1 h2) hne
  · exact absurd h2 (hagain w l k' y h1)

/-! ## notify_one -/

/-- The front entry of a waiter list is the one whose wait began first. -/
theorem C23_longest (hr : SR A ad i0 s) {S : SemId} {i k i' k' : Nat} {r : List (Nat × Nat)} (hk : s.data.sd.sem S = (i, k) :: r)
    (hk' : (i', k') ∈ r) : ∃ u u' l1 l2 l3, s.data.sd.slog = l1 ++ .enter u' S i' k' :: (l2 ++ .enter u S i k :: l3) := by
  have hI := sem_I hr
  have hlt : k < k' := by
    have := hI.inc S
    rw [hk] at this
    exact (List.pairwise_cons.1 this).1 k' (List.mem_map.2 ⟨_, hk', rfl⟩)
  obtain ⟨u, hu⟩ := hI.ent (S := S) (i := i) (k := k) (by rw [hk]; simp)
  obtain ⟨u', hu'⟩ := hI.ent (S := S) (i := i') (k := k') (by rw [hk]; simp [hk'])
  refine ⟨u, u', ?_⟩
  obtain ⟨l1, l2, h⟩ := List.append_of_mem hu
  have ho := hI.entOrd
  rw [h] at hu' ho
  rw [h]
  rcases List.mem_append.1 hu' with h1 | h1
  · obtain ⟨l3, l4, rfl⟩ := List.append_of_mem h1
    exact ⟨l3, l4, l2, by simp⟩
  · rcases List.mem_cons.1 h1 with h1 | h1
    · cases h1; omega
    · exfalso
      rw [List.filterMap_append, List.pairwise_append] at ho
      have := (List.pairwise_cons.1 (show List.Pairwise (· > ·) (k :: l2.filterMap entT) from ho.2.1)).1 k' (List.mem_filterMap.2 ⟨_, h1, rfl⟩)
      omega

/-- Phases of a `notify_one` that took `l` out of the list. -/
def N1Ph (n : Nat) (l : List (Nat × Nat)) (f : SFrame α φ) (s : SSt α φ δ) : Prop :=
  f = .nLoop (.cv n) l ∨
  (∃ i k, l = [(i, k)] ∧ i ≠ 0 ∧ s.data.sd.tok k = true ∧ (f = .nCall (.cv n) i k [] ∨ f = .nAfter (.cv n) i k [] ∨ f = .term none)) ∨
  (f = .nLoop (.cv n) [] ∧ ∀ i k, (i, k) ∈ l → i ≠ 0 → s.data.sd.tok k = true)

theorem N1Ph.move {n : Nat} {l : List (Nat × Nat)} {f : SFrame α φ} (h : N1Ph n l f s)
    (ht : ∀ k, s.data.sd.tok k = true → s'.data.sd.tok k = true) : N1Ph n l f s' := by
  rcases h with h | ⟨i, k, h1, h2, h3, h4⟩ | ⟨h, h1⟩
  · exact .inl h
  · exact .inr (.inl ⟨i, k, h1, h2, ht _ h3, h4⟩)
  · exact .inr (.inr ⟨h, fun i k h2 h3 => ht _ (h1 i k h2 h3)⟩)

theorem tok_mono {l : Lbl χ} (hr : SR A ad i0 s) (hs : step (client A) s l = some s') {k : Nat} (h : s.data.sd.tok k = true) : s'.data.sd.tok k = true := by
  obtain ⟨t, ht⟩ := ((sem_I hr).tokSig k).1 h
  exact ((sem_I (hr.step hs)).tokSig k).2 ⟨t, slog_mono hs ht⟩

theorem N1Ph.frag (hr : SR A ad i0 s0) {v m n : Nat} {x : List (Nat × Nat)} (hx : x.length ≤ 1) {rest : List (Fr α φ)}
    (hst : s0.stk v = .client (.nLoop (.cv n) x) :: rest)
    (hf : Frag (client A) v rest s0 m s) : ∃ pre f, s.stk v = pre ++ .client f :: rest ∧ (s.term = true ∨ N1Ph n x f s) := by
  refine SFrag.ind (N1Ph n x) hr hst (.inl rfl) ?_ ?_ ?_ ?_ hf
  · rintro g s (h | ⟨_, _, _, _, _, h | h | h⟩ | ⟨h, -⟩) <;> cases h
  · intro s1 s2 f g d' a ch hr1 hst1 he hp hS hc hd hs hck hst2
    rcases hp with rfl | ⟨i, k, h1, h2, h3, rfl | rfl | rfl⟩ | ⟨rfl, h⟩
    · generalize hK : NK.cv n = K at hS
      cases hS <;> first | (cases hc; done) | (cases hK; done) | skip
      · cases hc
        subst hK
        rename_i k r
        obtain rfl : r = [] := List.length_eq_zero_iff.1 (by simpa using hx)
        exact .inr (.inr ⟨rfl, fun i k' h hi => by simp at h; exact absurd h.1 hi⟩)
      · cases hc
        subst hK
        rename_i i k r hi
        obtain rfl : r = [] := List.length_eq_zero_iff.1 (by simpa using hx)
        exact .inr (.inl ⟨i, k, rfl, hi, by rw [hd]; simp, .inl rfl⟩)
    · cases hS; cases hc; exact .inr (.inl ⟨i, k, h1, h2, by rw [hd]; exact h3, .inr (.inl rfl)⟩)
    · cases hS; cases hc; exact .inr (.inr ⟨rfl, fun i' k' h hi => by rw [h1] at h; cases List.mem_singleton.1 h; rw [hd]; exact h3⟩)
    · cases hS; cases hc
    · cases hS; cases hc
  · intro s1 s2 f g e hr1 hst1 he hp hnt hf hd
    rcases hp with rfl | ⟨i, k, h1, h2, h3, rfl | rfl | rfl⟩ | ⟨rfl, h⟩
    · exact (hnt trivial).elim
    · exact (hnt trivial).elim
    · cases hf; exact .inr (.inl ⟨i, k, h1, h2, by rw [hd]; exact h3, .inr (.inr rfl)⟩)
    · cases hf
    · exact (hnt trivial).elim
  · intro s1 s2 f l hr1 hp hs h1 h2 h3
    exact hp.move fun k => tok_mono hr1 hs

/-- The step that takes the front entry. -/
theorem n1_take (hr : SR A ad i0 s0) {v n : Nat} {rest : List (Fr α φ)} (hst : s0.stk v = .client (.n1In n) :: rest)
    {ch : Ch χ} {s1 : SSt α φ δ} (hs0 : step (client A) s0 (.th v ch) = some s1) :
    s1.stk v = .client (.nLoop (.cv n) ((s0.data.sd.sem (.cv n)).take 1)) :: rest ∧ s1.data.sd.tok = s0.data.sd.tok ∧
    s1.data.sd.sem = set s0.data.sd.sem (.cv n) (s0.data.sd.sem (.cv n)).tail ∧
    .took v (.cv n) ((s0.data.sd.sem (.cv n)).take 1) ∈ s1.data.sd.slog := by
  obtain ⟨a, hS, hact⟩ := own_ss hst hs0 (nt_exc hr hst trivial) (by simp)
  generalize s1.data.sd = d at hS
  cases hS
  exact ⟨hact.1, rfl, rfl, List.mem_cons_self⟩

/-- `notify_one` of condition variable `n`: thread `v` takes the front entry out of the list (`s0` to `s1`; nothing else
    changes), and while it executes the code of `notify_one` itself (not another task or destructor) it signals no other
    entry.  With an empty list it signals nobody. -/
theorem C23_nobody_else (hr : SR A ad i0 s0) {v m n : Nat} {rest : List (Fr α φ)} (hst : s0.stk v = .client (.n1In n) :: rest)
    {ch : Ch χ} {s1 : SSt α φ δ} (hs0 : step (client A) s0 (.th v ch) = some s1) (hf : Frag (client A) v rest s1 m s)
    {f : Fr α φ} (hown : s.stk v = f :: rest) {ch' : Ch χ} (hs : step (client A) s (.th v ch') = some s') :
    (s1.data.sd.sem (.cv n) = (s0.data.sd.sem (.cv n)).tail ∧ (∀ S, S ≠ .cv n → s1.data.sd.sem S = s0.data.sd.sem S) ∧
      s1.data.sd.tok = s0.data.sd.tok) ∧
    s'.data.sd.sem = s.data.sd.sem ∧
    ∀ k, s.data.sd.tok k = false → s'.data.sd.tok k = true → ∃ i, i ≠ 0 ∧ (s0.data.sd.sem (.cv n)).head? = some (i, k) := by
  obtain ⟨h1, h2, h3, -⟩ := n1_take hr hst hs0
  refine ⟨⟨by rw [h3]; simp, fun S hS => by rw [h3]; exact set_ne _ _ hS, h2⟩, ?_⟩
  have hr1 := hr.step hs0
  obtain ⟨pre, g, hst', hp⟩ := N1Ph.frag hr1 (by simp; omega) h1 hf
  have hp := hp.resolve_left (by rw [step_live hs]; simp)
  obtain ⟨rfl, rfl⟩ := top_uniq (a := []) (hown.symm.trans hst')
  rcases step_sd hs with h | ⟨t, c, g', r, a, hl, hexc, hst2, hS⟩
  · rw [h]; exact ⟨rfl, fun k h1 h2 => by rw [h1] at h2; cases h2⟩
  · cases hl
    rw [hown] at hst2
    cases hst2
    rcases hp with rfl | ⟨i, k, h4, h5, h6, rfl | rfl | rfl⟩ | ⟨rfl, -⟩
    · generalize hl : (s0.data.sd.sem (.cv n)).take 1 = l at hS
      generalize hd : s'.data.sd = d' at hS
      cases hS
      · exact ⟨rfl, fun k h1 h2 => by rw [h1] at h2; cases h2⟩
      · exact ⟨rfl, fun k h1 h2 => by rw [h1] at h2; cases h2⟩
      · rename_i i k r hi
        refine ⟨rfl, fun k' h1 h2 => ⟨i, hi, ?_⟩⟩
        by_cases hk : k' = k
        · subst hk
          cases hq : s0.data.sd.sem (.cv n) with
          | nil => simp [hq] at hl
          | cons x l => rw [hq] at hl; simp at hl; simp [hl.1]
        · have h2 := (set_ne s.data.sd.tok true hk).symm.trans h2; rw [h1] at h2; cases h2
    all_goals
      generalize hd : s'.data.sd = d' at hS
      cases hS
      exact ⟨rfl, fun k h1 h2 => by rw [h1] at h2; cases h2⟩

/-- When `notify_one` has returned, the waiter that was longest in the list is signalled, and if it is blocked it can wake up at once.
    The full claim is about all waiters; it is false if the front entry belongs to an unregistered thread, with id 0: semaphore.cpp:43-48
    signals valid ids only, see `C23_swallowed`. -/
theorem C23_signals_partial (hr : SR A ad i0 s0) {v m n : Nat} {rest : List (Fr α φ)} (hst : s0.stk v = .client (.n1In n) :: rest)
    {ch : Ch χ} {s1 : SSt α φ δ} (hs0 : step (client A) s0 (.th v ch) = some s1) (hf : Frag (client A) v rest s1 m s)
    {l : Lbl χ} (hs : step (client A) s l = some s') (hend : s'.stk v = rest) (hub : s'.ub = false) (hterm : s'.term = false)
    {i k : Nat} (hk : (s0.data.sd.sem (.cv n)).head? = some (i, k)) (hi : i ≠ 0) :
    s'.data.sd.tok k = true ∧ ∀ u, BlockedIn s' u (.cv n) i k → CanWake (client A) s' u := by
  obtain ⟨h1, h2, h3, h4⟩ := n1_take hr hst hs0
  obtain ⟨r, hq⟩ : ∃ r, s0.data.sd.sem (.cv n) = (i, k) :: r := by
    cases hq : s0.data.sd.sem (.cv n) with
    | nil => simp [hq] at hk
    | cons x l => rw [hq] at hk; simp at hk; subst hk; exact ⟨l, rfl⟩
  have hl : (s0.data.sd.sem (.cv n)).take 1 = [(i, k)] := by rw [hq]; rfl
  rw [hl] at h1 h4
  have hr1 := hr.step hs0
  have hrs := hf.reach hr1
  have hr' := hrs.step hs
  obtain ⟨pre, g, hst', hp⟩ := N1Ph.frag hr1 (by simp) h1 hf
  have hp := hp.resolve_left (by rw [step_live hs]; simp)
  have htok : s.data.sd.tok k = true := by
    rcases hp with rfl | ⟨i', k', h5, h6, h7, -⟩ | ⟨rfl, h⟩
    · exfalso
      obtain ⟨rfl, hlast, -⟩ := SFrag.last hrs hst' hs hend (by simp)
      cases hlast with
      | ret v d' _ hS => generalize hret : (.ret v : Act (STask α) (SFrame α φ)) = a at hS; cases hS <;> cases hret
      | throw v d' _ hS => generalize hret : (.throw v : Act (STask α) (SFrame α φ)) = a at hS; cases hS <;> cases hret
      | unwind e _ hnt _ _ => exact hnt trivial
    · cases h5; exact h7
    · exact h i k (by simp) hi
  have htok' := tok_mono hrs hs htok
  refine ⟨htok', fun u hb => ?_⟩
  rcases blocked_wakes hr' hub hterm hb htok' with h | ⟨w, -, g', hg', hd⟩
  · exact h
  · exfalso
    have hwv : w ≠ v := notifier_done hr hst hend (by rw [hq]; simp) ⟨g', hg', hd⟩
    have : ∃ S l, .took w S l ∈ s'.data.sd.slog ∧ (i, k) ∈ l := by
      have h0 := sem_F hr' hg'
      rcases hd with h | h
      · exact h0.td _ h
      · exact (h0.cr _ _ h).1
    obtain ⟨S, l', h5, h6⟩ := this
    exact hwv ((sem_I hr').taker_uniq (taken_iff.2 ⟨S, l', i, h5, h6, hi⟩)
      (taken_iff.2 ⟨.cv n, _, i, slog_mono hs (hf.slog h4), by simp, hi⟩))

/-! ## A notification after the lock was released ends the wait -/

/-- A waiter about to release the lock (inside `wait` or `wait_for`) has entered the list already. -/
theorem wait_entered (hr : SR A ad i0 s) {u i k : Nat} {g : SFrame α φ} {S : SemId} (hg : .client g ∈ s.stk u) (hw : wtok g = some (S, i, k)) :
    ∃ u', .enter u' S i k ∈ s.data.sd.slog := (sem_F hr hg).wt _ _ _ hw

theorem run_slog {ls : List (Lbl χ)} (h : run (client A) s ls = some s') {e : SEv} (he : e ∈ s.data.sd.slog) : e ∈ s'.data.sd.slog := by
  induction ls generalizing s with
  | nil => cases h; exact he
  | cons l ls ih =>
    simp only [run] at h
    split at h
    · cases h
    · rename_i s1 hs
      exact ih h (slog_mono hs he)

theorem run_reach {ls : List (Lbl χ)} (h : run (client A) s ls = some s') (hr : SR A ad i0 s) : SR A ad i0 s' := by
  induction ls generalizing s with
  | nil => cases h; exact hr
  | cons l ls ih =>
    simp only [run] at h
    split at h
    · cases h
    · rename_i s1 hs
      exact ih h (hr.step hs)

/-- A program point of `wait` / `wait_for` of condition variable `n` with lock `m` at which the waiter is about to release the lock. -/
def Releasing (n m i k : Nat) (g : SFrame α φ) : Prop :=
  g = .swBefore (.cv n m) i k ∨ ∃ now e, g = .wfBefore (.cv n m) i k now e

/-- Thread `u` waits on condition variable `n` and is about to release lock `m` in state `s1`.  Later, in `s0` (after any number of steps,
    in which somebody may have taken the lock), a thread `v` begins `notify_all`, which has returned in `s'`.  If that wait is still going on in
    `s'` (anywhere on the stack: under tasks that themselves wait), then it is signalled and, if blocked, can wake up at once; or another notifier that took the entry is still
    delivering; or a later wait of the same thread on the same condition variable, nested in a task processed by this wait, removed the entry when it
    ended by time-out or exit.

    The last case is the defect: the full claim is false, see `C25_lost`. -/
theorem C25_notified_partial (hr : SR A ad i0 s1) {u i k n m : Nat} {r : List (Fr α φ)} {g : SFrame α φ} (hst1 : s1.stk u = .client g :: r)
    (hg : Releasing n m i k g) (hi : i ≠ 0)
    {ls : List (Lbl χ)} (hrun : run (client A) s1 ls = some s0)
    {v q : Nat} {rest : List (Fr α φ)} (hst : s0.stk v = .client (.naIn (.cv n)) :: rest) (hf : Frag (client A) v rest s0 q s)
    {l : Lbl χ} (hs : step (client A) s l = some s') (hend : s'.stk v = rest) (hub : s'.ub = false) (hterm : s'.term = false)
    {g' : SFrame α φ} (hg' : .client g' ∈ s'.stk u) (hw : wtok g' = some (.cv n, i, k)) :
    (s'.data.sd.tok k = true ∧ (BlockedIn s' u (.cv n) i k → CanWake (client A) s' u)) ∨ (∃ w, Delivering s' w i k) ∨
    ∃ l k' y, .left u (.cv n) l k' y ∈ s'.data.sd.slog ∧ (i, k) ∈ l ∧ y ≠ .sig := by
  have hr0 := run_reach hrun hr
  have hr' := (hf.reach hr0).step hs
  have hwg : wtok g = some (.cv n, i, k) := by rcases hg with rfl | ⟨_, _, rfl⟩ <;> rfl
  obtain ⟨u', hent⟩ := wait_entered hr (g := g) (by rw [hst1]; simp) hwg
  rcases notify_done hr0 (K := .cv n) (by simp) hst hf hs hend (run_slog hrun hent) hi with h | h | ⟨w, l, k', y, h1, h2⟩
  · by_cases hex : ∃ w, Delivering s' w i k
    · exact .inr (.inl hex)
    · refine .inl ⟨h, fun hb => ?_⟩
      rcases blocked_wakes hr' hub hterm hb h with h | ⟨w, -, hw⟩
      · exact h
      · exact absurd ⟨w, hw⟩ hex
  · exact .inr (.inl h)
  · obtain ⟨rfl, hy⟩ := (ni hr').lost u g' _ _ _ hg' hw hi w l k' y h1 h2
    exact .inr (.inr ⟨l, k', y, h1, h2, hy⟩)

/-- A signalled wait that is back from `this_thread::wait` returns as soon as it gets the lock. -/
theorem C25_returns (hr : SR A ad i0 s) {u i k n m : Nat} {rest : List (Fr α φ)} (hst : s.stk u = .client (.swAfter (.cv n m) i k) :: rest)
    (hexc : (s.thr u).exc = none) (hub : s.ub = false) (hterm : s.term = false) (htok : s.data.sd.tok k = true) (hlk : s.data.sd.lk (.user m) = none) :
    ∃ s', run (client A) s [.th u .go, .th u .go, .th u .go] = some s' ∧ s'.stk u = rest ∧ (s'.thr u).exc = none ∧ s'.data.sd.lk (.user m) = some u := by
  have hrun := running_of_stk (FreeOK.reach hr) (t := u) (by rw [hst]; simp)
  have hst' : (s.thr u).stack = .client (.swAfter (.cv n m) i k) :: rest := hst
  simp [run, step, hub, hterm, hrun, hexc, hst', stepClient, client, sstep, takeLk, hlk, htok, W.lk, W.sem, St.setStk, SData.setLk, SData.remWaiter,
    St.stk, St.view, liftAct]

end
/-! ## Concrete cases -/

set_option synthInstance.maxSize 1024
set_option synthInstance.maxHeartbeats 400000

/-- Main waits on condition variable 0; thread 1 notifies all: hypotheses of `C22_notify_all` (and of `C25_notified_partial`, main released the
    lock before). -/
example : ∃ s0 n s s', SR (tableApp demo6) () 1 s0 ∧ s0.stk 1 = .client (.naIn (.cv 0)) :: [.client (.app 12)] ∧
    Frag (demo demo6) 1 [.client (.app 12)] s0 n s ∧ step (demo demo6) s (.th 1 .go) = some s' ∧
    (s'.stk 1, s0.data.sd.sem (.cv 0), s'.term, s'.data.sd.tok 0, s'.stk 0) =
      ([.client (.app 12)], [(1, 0)], false, true, [.core (.parked 0 none), .client (.swAfter (.cv 0 0) 1 0), .client (.app 5)]) :=
  sfragWit (ls1 := go 0 15 ++ go 1 3) (ls2 := go 1 8) (hnd := fun _ => none)
    (obs := fun s0 _ _ s' => (s'.stk 1, s0.data.sd.sem (.cv 0), s'.term, s'.data.sd.tok 0, s'.stk 0)) (by decide +kernel)

/-- Main waits on condition variable 0; threads 1 and 2 notify all. -/
def demo7 : List (SAct Nat Nat) :=
  [.core .registerThis 2, .core (.spawn 1 10) 3, .core (.spawn 2 10) 4, .sync (.lock 0) 5, .sync (.cvWait 0 0) 6, .ret .unit,
   .ret .unit, .ret .unit, .ret .unit, .sync (.notifyAll 0) 11, .ret .unit]

/-- Why `C22_notify_all_partial` has its second case: main waits, thread 1 has taken the waiters and has not signalled them yet, thread 2's
    `notify_all` finds no waiter and returns; main is not signalled and cannot wake up. -/
theorem C22_concurrent : ∃ s0 n s s', SR (tableApp demo7) () 1 s0 ∧ s0.stk 2 = .client (.naIn (.cv 0)) :: [.client (.app 11)] ∧
    Frag (demo demo7) 2 [.client (.app 11)] s0 n s ∧ step (demo demo7) s (.th 2 .go) = some s' ∧
    (s'.stk 2, s'.data.sd.tok 0, s'.stk 0, s'.stk 1, (step (demo demo7) s' (.th 0 .go)).isNone) =
      ([.client (.app 11)], false, [.core (.parked 0 none), .client (.swAfter (.cv 0 0) 1 0), .client (.app 6)],
        [.client (.nLoop (.cv 0) [(1, 0)]), .client (.app 11)], true) :=
  sfragWit (ls1 := go 0 17 ++ go 1 2 ++ go 2 1) (ls2 := go 2 1) (hnd := fun _ => none)
    (obs := fun _ _ _ s' => (s'.stk 2, s'.data.sd.tok 0, s'.stk 0, s'.stk 1, (step (demo demo7) s' (.th 0 .go)).isNone)) (by decide +kernel)

/-- Main and thread 1 (both registered) wait on condition variable 0; thread 2 notifies one. -/
def demo8 : List (SAct Nat Nat) :=
  [.core .registerThis 2, .core (.spawn 1 10) 3, .core (.spawn 2 20) 4, .sync (.lock 0) 5, .sync (.cvWait 0 0) 6, .ret .unit,
   .ret .unit, .ret .unit, .ret .unit, .core .registerThis 11, .sync (.lock 1) 12, .sync (.cvWait 0 1) 13, .ret .unit,
   .ret .unit, .ret .unit, .ret .unit, .ret .unit, .ret .unit, .ret .unit, .sync (.notifyOne 0) 21, .ret .unit]

/-- Two waiters, thread 2 notifies one of them: hypotheses of `C23_nobody_else` and `C23_signals_partial` (here from the call to its return;
    the first step takes the front entry). -/
example : ∃ s0 n s s', SR (tableApp demo8) () 1 s0 ∧ s0.stk 2 = .client (.n1In 0) :: [.client (.app 21)] ∧
    Frag (demo demo8) 2 [.client (.app 21)] s0 n s ∧ step (demo demo8) s (.th 2 .go) = some s' ∧
    (s'.stk 2, s0.data.sd.sem (.cv 0), s'.data.sd.sem (.cv 0), s'.data.sd.tok 0, s'.data.sd.tok 1) =
      ([.client (.app 21)], [(1, 0), (2, 1)], [(2, 1)], true, false) :=
  sfragWit (ls1 := go 0 17 ++ go 1 13 ++ go 2 1) (ls2 := go 2 8) (hnd := fun _ => none)
    (obs := fun s0 _ _ s' => (s'.stk 2, s0.data.sd.sem (.cv 0), s'.data.sd.sem (.cv 0), s'.data.sd.tok 0, s'.data.sd.tok 1)) (by decide +kernel)

/-- Main (not registered) and thread 1 (registered) wait on condition variable 0; thread 2 notifies one. -/
def demo8b : List (SAct Nat Nat) :=
  [.goto 2, .core (.spawn 1 10) 3, .core (.spawn 2 20) 4, .sync (.lock 0) 5, .sync (.cvWait 0 0) 6, .ret .unit,
   .ret .unit, .ret .unit, .ret .unit, .core .registerThis 11, .sync (.lock 1) 12, .sync (.cvWait 0 1) 13, .ret .unit,
   .ret .unit, .ret .unit, .ret .unit, .ret .unit, .ret .unit, .ret .unit, .sync (.notifyOne 0) 21, .ret .unit]

/-- `notify_one` takes the entry of the unregistered waiter out of the list and signals nobody. -/
theorem C23_swallowed : ∃ s0 n s s', SR (tableApp demo8b) () 1 s0 ∧ s0.stk 2 = .client (.n1In 0) :: [.client (.app 21)] ∧
    Frag (demo demo8b) 2 [.client (.app 21)] s0 n s ∧ step (demo demo8b) s (.th 2 .go) = some s' ∧
    (s'.stk 2, s0.data.sd.sem (.cv 0), s'.data.sd.sem (.cv 0), s'.data.sd.tok 0, s'.data.sd.tok 1) =
      ([.client (.app 21)], [(0, 0), (1, 1)], [(1, 1)], false, false) :=
  sfragWit (ls1 := go 0 11 ++ go 1 13 ++ go 2 1) (ls2 := go 2 2) (hnd := fun _ => none)
    (obs := fun s0 _ _ s' => (s'.stk 2, s0.data.sd.sem (.cv 0), s'.data.sd.sem (.cv 0), s'.data.sd.tok 0, s'.data.sd.tok 1)) (by decide +kernel)

/-- Main waits on condition variable 0 and meanwhile runs a task, given to it by thread 1, that waits on it for 5 ns; then thread 1 takes the
    lock and notifies. -/
def demo9 : List (SAct Nat Nat) :=
  [.core .registerThis 2, .core (.spawn 1 10) 3, .sync (.lock 0) 4, .sync (.cvWait 0 0) 5, .sync (.unlock 0) 6, .ret .unit,
   .ret .unit, .ret .unit, .ret .unit, .core (.invoke 1 20) 11, .sync (.lock 0) 12, .sync (.notifyAll 0) 13, .sync (.unlock 0) 14, .ret .unit,
   .ret .unit, .ret .unit, .ret .unit, .ret .unit, .ret .unit, .sync (.lock 0) 21, .sync (.cvWaitFor 0 0 5) 22, .sync (.unlock 0) 23, .ret .unit]

/-- A defect (`remove_waiter`, semaphore.cpp:178-189, removes by thread id): the inner wait times out and removes the waiter entry of the outer
    wait too.  Thread 1 then takes the lock, which the outer wait had released, and calls `notify_all`: it finds no waiter.  Main stays
    blocked: it is not signalled, it has no task, it cannot wake up. -/
theorem C25_lost : ∃ s0 n s s', SR (tableApp demo9) () 1 s0 ∧ s0.stk 1 = .client (.naIn (.cv 0)) :: [.client (.app 13)] ∧
    Frag (demo demo9) 1 [.client (.app 13)] s0 n s ∧ step (demo demo9) s (.th 1 .go) = some s' ∧
    ((s'.stk 1, s0.data.sd.lk (.user 0), s'.data.sd.tok 0), s'.stk 0, (s'.ctxs 0).pend, s0.data.sd.slog, (step (demo demo9) s' (.th 0 .go)).isNone) =
      (([.client (.app 13)], some 1, false), [.core (.parked 0 none), .client (.swAfter (.cv 0 0) 1 0), .client (.app 5)], [],
        [.left 0 (.cv 0) [(1, 0)] 0 .time, .enter 0 (.cv 0) 1 0], true) :=
  sfragWit (ls1 := go 0 15 ++ go 1 4 ++ go 0 12 ++ [.tick 9, .th 0 .timeout] ++ go 0 15 ++ go 1 3) (ls2 := go 1 1) (hnd := fun _ => none)
    (obs := fun s0 _ _ s' => ((s'.stk 1, s0.data.sd.lk (.user 0), s'.data.sd.tok 0), s'.stk 0, (s'.ctxs 0).pend, s0.data.sd.slog,
      (step (demo demo9) s' (.th 0 .go)).isNone)) (by decide +kernel)

/-- A signalled wait is back from `this_thread::wait` and the lock is free: hypotheses of `C25_returns`. -/
example : ∃ s, SR (tableApp demo6) () 1 s ∧ (s.stk 0, (s.thr 0).exc, s.data.sd.tok 0, s.data.sd.lk (.user 0)) =
    ([.client (.swAfter (.cv 0 0) 1 0), .client (.app 5)], none, true, none) :=
  swit (ls := go 0 15 ++ go 1 14 ++ go 0 5) (hnd := fun _ => none) (fun s => (s.stk 0, (s.thr 0).exc, s.data.sd.tok 0, s.data.sd.lk (.user 0))) (by decide +kernel)

end Itc
