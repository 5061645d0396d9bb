import Verif.Sync.Took
import Verif.Props.LiveFut

/-!
# C61: future::wait and get return once the future is ready

For an arbitrary application of this layer and infinite execution; vocabulary of `Verif.Props.Live`.
-/
namespace Itc
open Core Sync
section
variable {α φ δ χ : Type} {A : App α φ δ χ} {ad : δ} {i0 : φ} {r : Run (client A)} {u c p j m : Nat} {f x : SFrame α φ} {rest : List (Fr α φ)}

/-- Assumptions on an execution in which thread `u`, registered as `c`, waits for the state `p` from `f` above `rest`: the scheduler is strongly fair to it; again
    and again no other thread holds the guard of the state; the tasks that the wait executes return, as do their destructors. -/
structure WaitsFor (r : Run (client A)) (u c p : Nat) (f : SFrame α φ) (rest : List (Fr α φ)) : Prop where
  fair : r.Strong u
  guard : ∀ i, ∃ m, i ≤ m ∧ ∀ v, (r.st m).data.sd.lk (.guard p) = some v → v = u
  run : ∀ i k t b, r.Returns u ((client A).run t) (.core (.ran c t (.toWait b)) :: .client (.swAfter (.fw p) i k) :: .client f :: rest)
  drop : ∀ i k t b, r.Returns u ((client A).destroy t) (.core (.freed c t (.toWait b)) :: .client (.swAfter (.fw p) i k) :: .client f :: rest)

/-- A wait of thread `u` for `p` is in progress whose entry has been removed by another wait of `u` for `p`, one that ended by time-out or exit (the
    defect of C32). -/
def Robbed (r : Run (client A)) (u p : Nat) : Prop :=
  ∃ m g i k l k' y, .client g ∈ (r.st m).stk u ∧ wtok g = some (.fut p, i, k) ∧ .left u (.fut p) l k' y ∈ (r.st m).data.sd.slog ∧ (i, k) ∈ l ∧ y ≠ .sig

/-- A thread does not hold the guard of `p` if it is not at a place where it is held. -/
theorem guard_none {s : SSt α φ δ} (hr : SR A ad i0 s) {pre : List (Fr α φ)} {L : List (Fr α φ)} (hst : s.stk u = pre ++ L)
    (hL : ∀ g, .client g ∈ L → gw p g ≠ 1) (hp : ∀ g, .client g ∈ pre → gw p g ≠ 1) : s.data.sd.lk (.guard p) ≠ some u := by
  intro h
  obtain ⟨g, h1, h2⟩ := guard_held hr h
  rw [hst, List.mem_append] at h1
  exact h1.elim (fun h => hp g h h2) fun h => hL g h h2

/-- At the time `m` thread `u` is at `x` in a call that has begun by the time `j`. -/
structure AtW (r : Run (client A)) (u j : Nat) (L : List (Fr α φ)) (m : Nat) (x : SFrame α φ) : Prop where
  le : j ≤ m
  stk : (r.st m).stk u = .client x :: L
  exc : ((r.st m).thr u).exc = none
  suf : ∀ m', j ≤ m' → m' ≤ m → ∃ pre y, (r.st m').stk u = pre ++ y :: L

/-- The call that has begun by the time `j` returns without an exception. -/
def Back (r : Run (client A)) (u j : Nat) (L : List (Fr α φ)) : Prop := ∃ m, r.Ends u L j m ∧ ((r.st m).thr u).exc = none

structure WEnv (r : Run (client A)) (ad : δ) (i0 : φ) (u c p j id : Nat) (f : SFrame α φ) (rest : List (Fr α φ)) (M : Nat) : Prop extends WaitsFor r u c p f rest where
  hr : SR A ad i0 (r.st 0)
  above : Above u c (.client f :: rest) (r.st j)
  reg : .registered c id u ∈ (r.st j).log
  unr : ∀ j id n, .unregistered c id n ∉ (r.st j).log
  rdy : ∀ m, M ≤ m → (r.st m).data.sd.ready p = true
  rob : ¬ Robbed r u p
  nh : ∀ g, .client g ∈ .client f :: rest → gw p g ≠ 1

theorem pre_suf {L L' : List (Fr α φ)} (h : ∃ pre y, L' = pre ++ y :: L) : L <:+ L' := by
  obtain ⟨pre, y, rfl⟩ := h
  exact ⟨pre ++ [y], by simp⟩

section
variable {id M : Nat} (h : WEnv r ad i0 u c p j id f rest M)
include h

theorem WEnv.at {m : Nat} (hj : j ≤ m) (hs : ∀ m', j ≤ m' → m' ≤ m → ∃ pre y, (r.st m').stk u = pre ++ y :: .client f :: rest) :
    (r.st m).loc u = some c ∧ InReg (r.st m) c ∧ ((r.st m).ctxs c).id = id ∧ (r.st m).getId u = id ∧ id ≠ 0 ∧ (r.st m).find id = some c := by
  obtain ⟨-, -, -, hloc⟩ := r.above h.hr hj h.reg h.unr h.above fun m' h1 h2 => pre_suf (hs m' h1 h2)
  have hin := r.inReg h.hr (r.logm hj h.reg) (h.unr m)
  have hid := ((LInv.reach (r.reach h.hr m)).regd c id u).1 (r.logm hj h.reg)
  have hw := WF.reach (r.reach h.hr m)
  obtain ⟨i', hi'⟩ := hin
  have h3 := hw.mem i' c hi'
  have h4 := hw.ids c h3.1
  refine ⟨hloc, ⟨i', hi'⟩, hid.2.1, ?_, by omega, ?_⟩
  · have : ((r.st m).thr u).loc = some c := hloc
    simp [St.getId, this, hid.2.1]
  · rw [hid.2.1] at h3
    exact hw.toRegOK.find_of_mem (h3.2.1 ▸ hi')

/-- The guard of the state becomes free. -/
theorem WEnv.free {n : Nat} {pre : List (Fr α φ)} (hp : ∀ g, .client g ∈ pre → gw p g ≠ 1) (hst : ∀ m, n ≤ m → (r.st m).stk u = pre ++ .client f :: rest) :
    ∃ m, n ≤ m ∧ (r.st m).data.sd.lk (.guard p) = none := by
  obtain ⟨m, h1, h2⟩ := h.guard n
  refine ⟨m, h1, ?_⟩
  cases hl : (r.st m).data.sd.lk (.guard p) with
  | none => rfl
  | some v =>
    obtain rfl := h2 v hl
    exact absurd hl (guard_none (r.reach h.hr m) (hst m h1) h.nh hp)

theorem WEnv.enab (hx : ∀ g, x ≠ .app g) (hst : (r.st m).stk u = .client x :: .client f :: rest) (he : ((r.st m).thr u).exc = none)
    (hs : ∃ y, sstep A.run A.destroy ((r.st m).view u) (r.st m).data.sd x ((r.st m).thr u).rv = some y) : ∃ ch, (step (client A) (r.st m) (.th u ch)).isSome := by
  refine ⟨.go, ?_⟩
  obtain ⟨⟨sd, y⟩, hy⟩ := hs
  rw [step_th (r.reach h.hr m) (r.good m).1 (r.good m).2 hst he]
  simp only [stepClient]
  have : (client A).step ((r.st m).view u) (r.st m).data x ((r.st m).thr u).rv .go = some ({ (r.st m).data with sd := sd }, y) := by
    cases x <;> first | exact absurd rfl (hx _) | (simp only [client, hy])
  rw [this]
  cases y <;> rfl

/-- The next step of the call. -/
theorem WEnv.next (hx : ∀ g, x ≠ .app g) (ha : AtW r u j (.client f :: rest) m x)
    (hs : ∀ n, m ≤ n → (∀ m', n ≤ m' → (r.st m').stk u = .client x :: .client f :: rest) →
      ∃ m', n ≤ m' ∧ ∃ y, sstep A.run A.destroy ((r.st m').view u) (r.st m').data.sd x ((r.st m').thr u).rv = some y) :
    ∃ m' sd a, m ≤ m' ∧ AtW r u j (.client f :: rest) m' x ∧ SS A.run A.destroy ((r.st m').view u) (r.st m').data.sd ((r.st m').thr u).rv x sd a ∧
      (r.st (m' + 1)).data.sd = sd ∧ ActTo (r.st m') (r.st (m' + 1)) u (.client f :: rest) a := by
  obtain ⟨m', h1, h2, ⟨ch, h3⟩, h4⟩ := r.nextF h.hr h.fair (i := m) (by rw [ha.stk]; simp) fun n hn hsame => by
    obtain ⟨m', h1, h2⟩ := hs n hn fun m' hm => (hsame m' (by omega)).stk.trans ha.stk
    exact ⟨m', h1, h.enab hx ((hsame m' (by omega)).stk.trans ha.stk) ((hsame m' (by omega)).exc.trans ha.exc) h2⟩
  have hA : AtW r u j (.client f :: rest) m' x := by
    refine ⟨Nat.le_trans ha.le h1, h2.stk.trans ha.stk, h2.exc.trans ha.exc, fun q ha' hb => ?_⟩
    rcases Nat.le_total q m with hq | hq
    · exact ha.suf q ha' hq
    · exact ⟨[], _, by rw [(h4 q hq hb).stk, ha.stk]; rfl⟩
  have hok := r.ok m'
  rw [h3] at hok
  cases step_cl hok with
  | cl f r' d' a _ hold hstep hdata hact =>
    rw [hA.stk] at hold; cases hold
    cases client_cs hstep with
    | app g ad sa hA => exact absurd rfl (hx g)
    | sync f sd x hS => exact ⟨m', sd, a, h1, hA, hS, by rw [hdata], hact⟩
  | core f r' _ hold => rw [hA.stk] at hold; cases hold
  | fin he hold => rw [hA.stk] at he; cases he
  | _ => have := hA.exc; simp_all

theorem AtW.succ {y : SFrame α φ} (ha : AtW r u j (.client f :: rest) m x) (h1 : (r.st (m + 1)).stk u = .client y :: .client f :: rest)
    (h2 : ((r.st (m + 1)).thr u).exc = none) : AtW r u j (.client f :: rest) (m + 1) y := by
  refine ⟨Nat.le_succ_of_le ha.le, h1, h2, fun q h3 h4 => ?_⟩
  rcases Nat.lt_or_eq_of_le h4 with h4 | rfl
  · exact ha.suf q h3 (by omega)
  · exact ⟨[], _, h1⟩

theorem AtW.back (ha : AtW r u j (.client f :: rest) m x) (h1 : (r.st (m + 1)).stk u = .client f :: rest)
    (h2 : ((r.st (m + 1)).thr u).exc = none) : Back r u j (.client f :: rest) :=
  ⟨m + 1, ⟨by have := ha.le; omega, h1, fun q h3 h4 => ha.suf q h3 (by omega)⟩, h2⟩

omit h in
theorem WEnv.always {P : Nat → Prop} {Q : Nat → Prop} (h : ∀ m, P m) : ∀ n, m ≤ n → Q n → ∃ m', n ≤ m' ∧ P m' := fun n _ _ => ⟨n, Nat.le_refl _, h n⟩

/-- The places of a wait, with a bound on what is left to do once the future is ready. -/
inductive Ph (p id : Nat) : Nat → SFrame α φ → Prop
  | fwIn : Ph p id 1 (.fwIn p)
  | fwLoop : Ph p id 0 (.fwLoop p)
  | fwChk : Ph p id 0 (.fwChk p)
  | swIn : Ph p id 0 (.swIn (.fw p))
  | swLoop (k : Nat) : Ph p id 2 (.swLoop (.fw p) id k)
  | swChk (k : Nat) : Ph p id 5 (.swChk (.fw p) id k)
  | swBefore (k : Nat) : Ph p id 4 (.swBefore (.fw p) id k)
  | swAfter (k : Nat) : Ph p id 3 (.swAfter (.fw p) id k)
  | swRem (k : Nat) (y : Why) : Ph p id 1 (.swRem (.fw p) id k y)

/-- A wait that is parked ends once the future is ready. -/
theorem WEnv.park {k i : Nat} {dl : Option Nat} (hc : Calm r { sd := {}, ad := ad } (.app i0) u c (.swAfter (.fw p) id k) (.client f :: rest)) (hi : j ≤ i)
    (h0 : Above u c (.client (.swAfter (.fw p) id k) :: .client f :: rest) (r.st i))
    (hsj : ∀ m', j ≤ m' → m' ≤ i → ∃ pre y, (r.st m').stk u = pre ++ y :: .client f :: rest)
    (hpk : ∀ m', m ≤ m' → Round r u c (.swAfter (.fw p) id k) (.client f :: rest) i m' [.core (.parked c dl)]) : False := by
  obtain ⟨n, h1, h2⟩ := h.free (n := max m M) (pre := [.core (.parked c dl), .client (.swAfter (.fw p) id k)]) (by simp [gw, W.gw])
    fun m' hm => (hpk m' (by omega)).stk
  have hR := hpk n (by omega)
  have hst := hR.stk
  have hr := r.reach h.hr n
  have hg : .client (.swAfter (.fw p) id k) ∈ (r.st n).stk u := by rw [hst]; simp
  obtain ⟨ha, hb, hid, -, hi0, -⟩ := h.at (m := n) (by have := hR.le; omega) fun m' h3 h4 => by
    rcases Nat.le_total m' i with h5 | h5
    · exact hsj m' h3 h5
    · obtain ⟨pre, hp⟩ := hR.suf m' h5 h4
      exact ⟨pre, _, hp.symm⟩
  rcases settled hr hg rfl hi0 (h.rdy n (by omega)) (no_note hr h2) with htok | ⟨l, k', y, h3, h4, h5⟩
  · rcases deliver hr (r.good n).2 (S := .fut p) (i := id) (k := k) (.blk _ _ _ hst (by simp [isBlk]) rfl) ha hb hid htok with h3 | ⟨v, -, hd⟩
    · exact hc.wakes h0 hpk (by omega) h3
    · obtain ⟨g, h3, h4⟩ := hd.delivering
      have := guard_own hr h3 (took_guard hr hg rfl h3 h4).1
      rw [h2] at this; cases this
  · exact h.rob ⟨n, _, _, _, l, k', y, hg, rfl, h3, h4, h5⟩

/-- A step of the wait: it returns, or gets to its next place; which is nearer to the end if the future is ready. -/
theorem WEnv.one {q : Nat} (ha : AtW r u j (.client f :: rest) m x) (hx : Ph p id q x) : Back r u j (.client f :: rest) ∨
    ∃ m' x' q', m < m' ∧ AtW r u j (.client f :: rest) m' x' ∧ Ph p id q' x' ∧ (M ≤ m → q' < q) := by
  cases hx with
  | fwIn =>
    obtain ⟨m', sd, a, h1, h2, h3, h4, h5⟩ := h.next (by simp) ha fun n _ hst => by
      obtain ⟨m', h1, h2⟩ := h.free (n := n) (pre := [.client (.fwIn p)]) (by simp [gw]) hst
      exact ⟨m', h1, by simp [sstep, h2]⟩
    cases h3
    exact .inr ⟨m' + 1, _, _, by omega, AtW.succ h h2 h5.1 h5.2.1, .fwLoop, fun _ => by omega⟩
  | fwLoop =>
    obtain ⟨m', sd, a, h1, h2, h3, h4, h5⟩ := h.next (by simp) ha (WEnv.always fun m => by
      simp only [sstep]; split <;> exact ⟨_, rfl⟩)
    cases h3 with
    | fwOk => exact .inl (AtW.back h h2 h5.1 h5.2.1)
    | fwNot _ hn => exact .inr ⟨m' + 1, _, _, by omega, AtW.succ h h2 h5.1 h5.2.1, .fwChk, fun hM => by rw [h.rdy m' (by omega)] at hn; cases hn⟩
  | fwChk =>
    obtain ⟨m', sd, a, h1, h2, h3, h4, h5⟩ := h.next (by simp) ha (WEnv.always fun m => by
      simp only [sstep]; split <;> exact ⟨_, rfl⟩)
    cases h3 with
    | fwExit => exact .inl (AtW.back h h2 h5.1 h5.2.1)
    | fwStay =>
      exact .inr ⟨m' + 1, _, _, by omega, AtW.succ h h2 h5.1 h5.2.1, .swIn, fun hM => by
        have := early_not (r.reach h.hr m') h2.stk h2.exc (p := p) rfl
        rw [h.rdy m' (by omega)] at this; cases this⟩
  | swIn =>
    obtain ⟨m', sd, a, h1, h2, h3, h4, h5⟩ := h.next (by simp) ha (WEnv.always fun m => ⟨_, rfl⟩)
    cases h3
    have hid : ((r.st m').view u).id = id := (h.at h2.le h2.suf).2.2.2.1
    rw [hid] at h5
    exact .inr ⟨m' + 1, _, _, by omega, AtW.succ h h2 h5.1 h5.2.1, .swLoop _, fun hM => by
      have := early_not (r.reach h.hr m') h2.stk h2.exc (p := p) rfl
      rw [h.rdy m' (by omega)] at this; cases this⟩
  | swLoop k =>
    obtain ⟨m', sd, a, h1, h2, h3, h4, h5⟩ := h.next (by simp) ha (WEnv.always fun m => by
      simp only [sstep]; split <;> exact ⟨_, rfl⟩)
    cases h3 with
    | swSig => exact .inr ⟨m' + 1, _, _, by omega, AtW.succ h h2 h5.1 h5.2.1, .swRem _ _, fun hM => by omega⟩
    | swNot _ _ _ hn =>
      refine .inr ⟨m' + 1, _, _, by omega, AtW.succ h h2 h5.1 h5.2.1, .swChk _, fun hM => False.elim ?_⟩
      have hr := r.reach h.hr m'
      have hg : .client (.swLoop (.fw p) id k) ∈ (r.st m').stk u := by rw [h2.stk]; simp
      rcases settled hr hg rfl (h.at h2.le h2.suf).2.2.2.2.1 (h.rdy m' (by omega)) (top_note hr h2.stk (by simp [gw, W.gw, one]) (by simp [wtok]))
        with htok | ⟨l, k', y, h3, h4, h5⟩
      · rw [hn] at htok; cases htok
      · exact h.rob ⟨m', _, _, _, l, k', y, hg, rfl, h3, h4, h5⟩
  | swChk k =>
    obtain ⟨m', sd, a, h1, h2, h3, h4, h5⟩ := h.next (by simp) ha (WEnv.always fun m => by
      simp only [sstep]; split <;> exact ⟨_, rfl⟩)
    cases h3 with
    | swExit => exact .inr ⟨m' + 1, _, _, by omega, AtW.succ h h2 h5.1 h5.2.1, .swRem _ _, fun hM => by omega⟩
    | swStay => exact .inr ⟨m' + 1, _, _, by omega, AtW.succ h h2 h5.1 h5.2.1, .swBefore _, fun hM => by omega⟩
  | swRem k y =>
    obtain ⟨m', sd, a, h1, h2, h3, h4, h5⟩ := h.next (by simp) ha (WEnv.always fun m => ⟨_, rfl⟩)
    cases h3
    exact .inr ⟨m' + 1, _, _, by omega, AtW.succ h h2 h5.1 h5.2.1, .fwLoop, fun hM => by omega⟩
  | swAfter k =>
    obtain ⟨m', sd, a, h1, h2, h3, h4, h5⟩ := h.next (by simp) ha fun n _ hst => by
      obtain ⟨m', h1, h2⟩ := h.free (n := n) (pre := [.client (.swAfter (.fw p) id k)]) (by simp [gw]) hst
      exact ⟨m', h1, by simp [sstep, takeLk, W.lk, h2]⟩
    cases h3 <;> exact .inr ⟨m' + 1, _, _, by omega, AtW.succ h h2 h5.1 h5.2.1, .swLoop _, fun hM => by omega⟩
  | swBefore k =>
    obtain ⟨m', sd, a, h1, h2, h3, h4, h5⟩ := h.next (by simp) ha (WEnv.always fun m => ⟨_, rfl⟩)
    cases h3
    have hst : (r.st (m' + 1)).stk u = .core (.waitIn none) :: .client (.swAfter (.fw p) id k) :: .client f :: rest := h5.1
    have hc : Calm r { sd := {}, ad := ad } (.app i0) u c (.swAfter (.fw p) id k) (.client f :: rest) :=
      ⟨h.hr, h.fair.just, .of h.unr, fun t b => h.run _ _ t b, fun t b => h.drop _ _ t b⟩
    have hsj : ∀ q, j ≤ q → q ≤ m' + 1 → ∃ pre y, (r.st q).stk u = pre ++ y :: .client f :: rest := by
      intro q h3 h4
      rcases Nat.lt_or_eq_of_le h4 with h4 | rfl
      · exact h2.suf q h3 (by omega)
      · exact ⟨[_], _, hst⟩
    have h0 : Above u c (.client (.swAfter (.fw p) id k) :: .client f :: rest) (r.st (m' + 1)) :=
      ⟨[_], hst, by simp, (h.at (by have := h2.le; omega) hsj).1⟩
    have hR : Round r u c (.swAfter (.fw p) id k) (.client f :: rest) (m' + 1) (m' + 1) [.core (.waitIn none)] :=
      ⟨Nat.le_refl _, hst, h5.2.1, fun q h3 h4 => by obtain rfl := Nat.le_antisymm h4 h3; rw [hst]; exact List.suffix_cons _ _⟩
    rcases Round.wait hc h0 hR with ⟨n, h6, h7⟩ | ⟨n, dl, h6, h7⟩
    · obtain ⟨n', h8, h9⟩ := h7.back hc h0
      refine .inr ⟨n', _, _, by omega, ⟨by have := h2.le; omega, h9.stk, h9.exc, fun q h3 h4 => ?_⟩, .swAfter k, fun _ => by omega⟩
      rcases Nat.le_total q (m' + 1) with hq | hq
      · exact hsj q h3 hq
      · obtain ⟨pre, hp⟩ := h9.suf q hq h4
        exact ⟨pre, _, hp.symm⟩
    · exact (h.park hc (by have := h2.le; omega) h0 hsj h7).elim

theorem WEnv.done {q : Nat} (ha : AtW r u j (.client f :: rest) m x) (hx : Ph p id q x) (hM : M ≤ m) : Back r u j (.client f :: rest) := by
  induction q using Nat.strong_induction_on generalizing m x with
  | _ q ih =>
    rcases h.one ha hx with h1 | ⟨m', x', q', h1, h2, h3, h4⟩
    · exact h1
    · exact ih q' (h4 hM) h2 h3 (by omega)

theorem WEnv.all {q : Nat} (ha : AtW r u j (.client f :: rest) m x) (hx : Ph p id q x) : Back r u j (.client f :: rest) := by
  by_cases hM : M ≤ m
  · exact h.done ha hx hM
  · generalize hd : M - m = d
    induction d using Nat.strong_induction_on generalizing m x q with
    | _ d ih =>
      rcases h.one ha hx with h1 | ⟨m', x', q', h1, h2, h3, h4⟩
      · exact h1
      · by_cases hM' : M ≤ m'
        · exact h.done h2 h3 hM'
        · exact ih (M - m') (by omega) h2 h3 hM' rfl

end

theorem Run.ready_le (hr : SR A ad i0 (r.st 0)) {M m : Nat} (hM : (r.st M).data.sd.ready p = true) (hm : M ≤ m) : (r.st m).data.sd.ready p = true := by
  obtain ⟨k, rfl⟩ := Nat.exists_eq_add_of_le hm
  induction k with
  | zero => exact hM
  | succ k ih =>
    refine (step_ext (r.ok (M + k))).ready ?_ (ih (by omega))
    by_contra hc
    have := (ty1_I (r.reach hr (M + k))).fresh p (by omega)
    have h1 := ih (by omega)
    rw [SData.ready, this] at h1
    simp at h1

/-- The wait proper. -/
theorem wait_ends (hr : SR A ad i0 (r.st 0)) (h : WaitsFor r u c p f rest) {M : Nat} (hM : (r.st M).data.sd.ready p = true)
    (hst : (r.st j).stk u = .client (.fwIn p) :: .client f :: rest) (hexc : ((r.st j).thr u).exc = none) (hloc : (r.st j).loc u = some c)
    (hg : (r.st j).data.sd.lk (.guard p) ≠ some u) :
    Back r u j (.client f :: rest) ∨ (∃ m id n, .unregistered c id n ∈ (r.st m).log) ∨ Robbed r u p := by
  by_contra hcon
  simp only [not_or, not_exists] at hcon
  obtain ⟨h1, h2, h3⟩ := hcon
  have h0 : Above u c (.client f :: rest) (r.st j) := ⟨[_], hst, by simp, hloc⟩
  obtain ⟨id, hreg⟩ := h0.reg (r.reach hr j)
  have hE : WEnv r ad i0 u c p j id f rest M := ⟨h, hr, h0, hreg, h2, fun m hm => Run.ready_le hr hM hm, h3,
    fun g h4 h5 => hg (guard_own (r.reach hr j) (by rw [hst]; exact List.mem_cons_of_mem _ h4) h5)⟩
  exact h1 (hE.all ⟨Nat.le_refl _, hst, hexc, fun m' h4 h5 => ⟨[], .client (.fwIn p), (Nat.le_antisymm h5 h4) ▸ hst⟩⟩ .fwIn)

/-- The check for a state at the beginning of a call. -/
theorem check_state (hr : SR A ad i0 (r.st 0)) (hf : r.Strong u) {L : List (Fr α φ)} (hx : ∀ g, x ≠ .app g) (hst : (r.st j).stk u = .client x :: L)
    (hexc : ((r.st j).thr u).exc = none)
    (hs : ∀ n, j ≤ n → (∀ m', n ≤ m' → (r.st m').stk u = .client x :: L) →
      ∃ m', n ≤ m' ∧ ∃ y, sstep A.run A.destroy ((r.st m').view u) (r.st m').data.sd x ((r.st m').thr u).rv = some y) :
    ∃ m sd a, j ≤ m ∧ (∀ m', j ≤ m' → m' ≤ m → Same u (r.st j) (r.st m')) ∧
      SS A.run A.destroy ((r.st m).view u) (r.st m).data.sd ((r.st m).thr u).rv x sd a ∧ ActTo (r.st m) (r.st (m + 1)) u L a ∧
      (r.st (m + 1)).loc u = (r.st j).loc u ∧ (r.st (m + 1)).data.sd = sd := by
  obtain ⟨m', h1, h2, ⟨ch, h3⟩, h4⟩ := r.nextF hr hf (i := j) (by rw [hst]; simp) fun n hn hsame => by
    obtain ⟨m', h1, ⟨sd, y⟩, hy⟩ := hs n hn fun m' hm => (hsame m' (by omega)).stk.trans hst
    refine ⟨m', h1, .go, ?_⟩
    rw [step_th (r.reach hr m') (r.good m').1 (r.good m').2 ((hsame m' (by omega)).stk.trans hst) ((hsame m' (by omega)).exc.trans hexc)]
    simp only [stepClient]
    have : (client A).step ((r.st m').view u) (r.st m').data x ((r.st m').thr u).rv .go = some ({ (r.st m').data with sd := sd }, y) := by
      cases x <;> first | exact absurd rfl (hx _) | (simp only [client, hy])
    rw [this]
    cases y <;> rfl
  have hok := r.ok m'
  rw [h3] at hok
  have h2s := h2.stk.trans hst
  have h2e := h2.exc.trans hexc
  cases step_cl hok with
  | cl f r' d' a _ hold hstep hdata hact =>
    rw [h2s] at hold; cases hold
    cases client_cs hstep with
    | app g ad sa hA => exact absurd rfl (hx g)
    | sync f sd x hS => exact ⟨m', sd, a, h1, h4, hS, hact, (congrFun ‹(r.st (m' + 1)).loc = _› u).trans h2.loc, by rw [hdata]⟩
  | core f r' _ hold => rw [h2s] at hold; cases hold
  | fin he hold => rw [h2s] at he; cases he
  | _ => simp_all

/-- **C61.** A registered thread calls future::wait, and the future is or becomes ready.  Then the call returns, without an exception; unless the thread is
    unregistered by a task that the call executes, or the entry of a wait has been removed by another wait of the same thread. -/
theorem C61_wait (hr : SR A ad i0 (r.st 0)) (h : WaitsFor r u c p f rest) (hM : ∃ M, (r.st M).data.sd.ready p = true)
    (hst : (r.st j).stk u = .client (SApi.futWait (some p)).entry :: .client f :: rest) (hexc : ((r.st j).thr u).exc = none)
    (hloc : (r.st j).loc u = some c) (hg : (r.st j).data.sd.lk (.guard p) ≠ some u) :
    (∃ m, r.Ends u (.client f :: rest) j m ∧ ((r.st m).thr u).exc = none) ∨ (∃ m id n, .unregistered c id n ∈ (r.st m).log) ∨ Robbed r u p := by
  obtain ⟨M, hM⟩ := hM
  have hnh : ∀ g, .client g ∈ .client f :: rest → gw p g ≠ 1 := fun g h4 h5 => hg (guard_own (r.reach hr j) (by rw [hst]; exact List.mem_cons_of_mem _ h4) h5)
  obtain ⟨m, sd, a, h1, h2, h3, h4, hl, -⟩ := check_state hr h.fair (by simp [SApi.entry]) hst hexc (WEnv.always fun m => by
    simp only [SApi.entry, sstep]; split <;> exact ⟨_, rfl⟩)
  cases h3 with
  | fwBad => have := (r.good (m + 1)).2; rw [h4.2.1] at this; cases this
  | fwS _ hp =>
    rcases wait_ends hr h hM h4.1 h4.2.1 (hl.trans hloc)
        (guard_none (r.reach hr _) (pre := [.client (.fwIn p)]) h4.1 hnh (by simp [gw])) with ⟨m', ⟨h5, h6, h7⟩, h8⟩ | h5
    · refine .inl ⟨m', ⟨by omega, h6, fun q h9 h10 => ?_⟩, h8⟩
      by_cases hq : q ≤ m
      · exact ⟨[], _, (h2 q h9 hq).stk.trans hst⟩
      · exact h7 q (by omega) h10
    · exact .inr h5

/-- **C61.** The same for get, which may throw the exception of the future. -/
theorem C61_get (hr : SR A ad i0 (r.st 0)) (h : WaitsFor r u c p (.fgVal p) (.client f :: rest)) (hM : ∃ M, (r.st M).data.sd.ready p = true)
    (hst : (r.st j).stk u = .client (SApi.futGet (some p)).entry :: .client f :: rest) (hexc : ((r.st j).thr u).exc = none)
    (hloc : (r.st j).loc u = some c) (hg : (r.st j).data.sd.lk (.guard p) ≠ some u) :
    (∃ m, r.Ends u (.client f :: rest) j m) ∨ (∃ m id n, .unregistered c id n ∈ (r.st m).log) ∨ Robbed r u p := by
  obtain ⟨M, hM⟩ := hM
  have hnh : ∀ g, .client g ∈ .client f :: rest → gw p g ≠ 1 := fun g h4 h5 => hg (guard_own (r.reach hr j) (by rw [hst]; exact List.mem_cons_of_mem _ h4) h5)
  obtain ⟨m, sd, a, h1, h2, h3, h4, hl, -⟩ := check_state hr h.fair (by simp [SApi.entry]) hst hexc (WEnv.always fun m => by
    simp only [SApi.entry, sstep]; split <;> exact ⟨_, rfl⟩)
  cases h3 with
  | fgBad => have := (r.good (m + 1)).2; rw [h4.2.1] at this; cases this
  | fgS _ hp =>
    rcases wait_ends hr h hM h4.1 h4.2.1 (hl.trans hloc)
        (guard_none (r.reach hr _) (pre := [.client (.fwIn p), .client (.fgVal p)]) h4.1 hnh (by simp [gw])) with ⟨m', ⟨h5, h6, h7⟩, h8⟩ | h5
    · obtain ⟨n, sd, a, g1, g2, g3, g4, -, -⟩ := check_state hr h.fair (by simp) h6 h8 fun n _ hs => by
        obtain ⟨m', h1, h2⟩ := h.guard n
        refine ⟨m', h1, ?_⟩
        have h2 : (r.st m').data.sd.lk (.guard p) = none := by
          cases hv : (r.st m').data.sd.lk (.guard p) with
          | none => rfl
          | some v =>
            obtain rfl := h2 v hv
            exact absurd hv (guard_none (r.reach hr m') (pre := [.client (.fgVal p)]) (hs m' h1) hnh (by simp [gw]))
        simp only [sstep, h2, Option.isSome_none, Bool.false_eq_true, if_false]
        repeat' split
        all_goals exact ⟨_, rfl⟩
      refine .inl ⟨n + 1, by omega, ?_, fun q h9 h10 => ?_⟩
      · cases g3 <;> exact g4.1
      · by_cases hq : q ≤ m
        · exact ⟨[], _, (h2 q h9 hq).stk.trans hst⟩
        by_cases hq' : q < m'
        · obtain ⟨pre, x, hx⟩ := h7 q (by omega) hq'
          exact ⟨pre ++ [x], _, by simpa using hx⟩
        · exact ⟨[], _, (g2 q (by omega) (by omega)).stk.trans h6⟩
    · exact .inr h5

/-! ## Example: main executes its loop, thread 1 sends it a function with async and waits for the result -/

def waitProg (x : SApi Nat) : List (SAct Nat Nat) :=
  [.core .registerThis 2, .core (.spawn 1 5) 3, .core .wait 3, .ret (.nat 7), .core .registerThis 6, .sync (.async 1 true false 4) 7, .sync x 8]

def isRan : List (Fr Nat Nat) → Bool | _ :: .core (.ran _ _ _) :: _ => true | _ => false
def isFreed : List (Fr Nat Nat) → Bool | _ :: .core (.freed _ _ _) :: _ => true | _ => false

/-- The execution that goes on from `ls` for ever, in which thread 1 waits from `f` above `rest`, and executes one task, at the time `k`. -/
theorem wait_run {P : List (SAct Nat Nat)} {ls : List (Lbl Unit)} {f : SFrame Nat Nat} {rest : List (Fr Nat Nat)} (k : Nat)
    (hend : (sexec P ls).map (fun s => (s.ub, s.term, decide ((s.thr 1).status = .running), (s.stk 1).isEmpty, s.data.sd.lk (.guard 0))) = some (false, false, false, true, none))
    (htab : (List.range (ls.length + 1)).map (fun i => (sexec P (ls.take i)).map fun s => (isRan (s.stk 1), isFreed (s.stk 1))) =
      (List.range (ls.length + 1)).map fun i => some (decide (i = k), decide (i = k + 2)))
    (h0 : (sexec P (ls.take k)).map (fun s => (s.stk 1).tail) = some (.core (.ran 1 .noop (.toWait false)) :: .client (.swAfter (.fw 0) 2 0) :: .client f :: rest))
    (h1 : (sexec P (ls.take (k + 1))).map (fun s => (s.stk 1, (s.thr 1).exc)) =
      some (.core (.ran 1 .noop (.toWait false)) :: .client (.swAfter (.fw 0) 2 0) :: .client f :: rest, none))
    (h2 : (sexec P (ls.take (k + 2))).map (fun s => (s.stk 1).tail) = some (.core (.freed 1 .noop (.toWait false)) :: .client (.swAfter (.fw 0) 2 0) :: .client f :: rest))
    (h3 : (sexec P (ls.take (k + 3))).map (fun s => (s.stk 1, (s.thr 1).exc)) =
      some (.core (.freed 1 .noop (.toWait false)) :: .client (.swAfter (.fw 0) 2 0) :: .client f :: rest, none)) :
    ∃ r : Run (client (tableApp P)), SR (tableApp P) () 1 (r.st 0) ∧ WaitsFor r 1 1 0 f rest ∧
      ∀ {β : Type} (g : DSt → β) (i : Nat) (b : β), (sexec P (ls.take i)).map g = some b → g (r.st i) = b := by
  obtain ⟨s', hs', ho⟩ := Option.map_eq_some_iff.1 hend
  simp only [Prod.mk.injEq] at ho
  obtain ⟨r, hr0, hr, hl⟩ := Run.ofList hs' ho.1 ho.2.1
  have hobs : ∀ {β : Type} (g : DSt → β) (i : Nat) (b : β), (sexec P (ls.take i)).map g = some b → g (r.st i) = b := by
    intro β g i b h
    simp only [sexec, hr i, Option.map_some] at h
    exact Option.some.inj h
  have htab' : ∀ i, i ≤ ls.length → isRan ((r.st i).stk 1) = decide (i = k) ∧ isFreed ((r.st i).stk 1) = decide (i = k + 2) := by
    intro i hi
    have h4 := congrArg (fun l => l[i]?) htab
    simp only [List.getElem?_map, List.getElem?_range (show i < ls.length + 1 by omega), Option.map_some, sexec, hr i] at h4
    have h5 := Option.some.inj (Option.some.inj h4)
    simp only [Prod.mk.injEq] at h5
    exact h5
  have hlt : ∀ i, (r.st i).stk 1 ≠ [] → i ≤ ls.length := by
    intro i hi
    by_contra hc
    exact hi (by rw [hl i (by omega)]; exact List.isEmpty_iff.1 ho.2.2.2.1)
  refine ⟨r, by rw [hr0]; exact ⟨[], rfl⟩, ⟨?_, ?_, ?_, ?_⟩, hobs⟩
  · intro i hi
    obtain ⟨q, h4, ch, h5⟩ := hi (max i ls.length) (by omega)
    rw [hl _ (by omega)] at h5
    have := of_decide_eq_false ho.2.2.1
    simp [step, ho.1, ho.2.1, this] at h5
  · intro i
    exact ⟨max i ls.length, by omega, by rw [hl _ (by omega), ho.2.2.2.2]; simp⟩
  · intro i tk t b q hq _
    have := htab' q (hlt q (by rw [hq]; simp))
    rw [hq] at this
    have hk : q = k := by simpa [isRan] using this.1
    subst hk
    have e0 := hobs _ _ _ h0
    have e1 := hobs _ _ _ h1
    simp only [hq, List.tail_cons, Prod.mk.injEq] at e0 e1
    exact ⟨q + 1, by omega, e1.1.trans e0.symm, e1.2, fun m h4 h5 => by
      rcases (show m = q ∨ m = q + 1 by omega) with rfl | rfl
      · rw [hq]; exact List.suffix_cons _ _
      · rw [e1.1, e0]; exact List.suffix_refl _⟩
  · intro i tk t b q hq _
    have := htab' q (hlt q (by rw [hq]; simp))
    rw [hq] at this
    have hk : q = k + 2 := by simpa [isFreed] using this.2
    subst hk
    have e0 := hobs _ _ _ h2
    have e1 := hobs _ _ _ h3
    simp only [hq, List.tail_cons, Prod.mk.injEq] at e0 e1
    exact ⟨k + 3, by omega, e1.1.trans e0.symm, e1.2, fun m h4 h5 => by
      rcases (show m = k + 2 ∨ m = k + 3 by omega) with rfl | rfl
      · rw [hq]; exact List.suffix_cons _ _
      · rw [e1.1, e0]; exact List.suffix_refl _⟩

/-- Hypotheses of `C61_get`. -/
example : ∃ r : Run (client (tableApp (waitProg (.futGet (some 0))))), SR (tableApp (waitProg (.futGet (some 0)))) () 1 (r.st 0) ∧
    WaitsFor r 1 1 0 (.fgVal 0) [.client (.app 8)] ∧ (r.st 36).data.sd.ready 0 = true ∧
    (r.st 20).stk 1 = [.client (SApi.futGet (some 0)).entry, .client (.app 8)] ∧ ((r.st 20).thr 1).exc = none ∧ (r.st 20).loc 1 = some 1 ∧
    (r.st 20).data.sd.lk (.guard 0) ≠ some 1 := by
  obtain ⟨r, h1, h2, h3⟩ := wait_run (P := waitProg (.futGet (some 0))) (ls := Core.go 0 8 ++ Core.go 1 21 ++ Core.go 0 26 ++ Core.go 1 12) (f := .fgVal 0)
    (rest := [.client (.app 8)]) 56 (by decide +kernel) (by decide +kernel) (by decide +kernel) (by decide +kernel) (by decide +kernel) (by decide +kernel)
  exact ⟨r, h1, h2, h3 (fun s => s.data.sd.ready 0) 36 _ (by decide +kernel), h3 (fun s => s.stk 1) 20 _ (by decide +kernel),
    h3 (fun s => (s.thr 1).exc) 20 _ (by decide +kernel), h3 (fun s => s.loc 1) 20 _ (by decide +kernel),
    by rw [h3 (fun s => s.data.sd.lk (.guard 0)) 20 none (by decide +kernel)]; simp⟩

/-- Hypotheses of `C61_wait`. -/
example : ∃ r : Run (client (tableApp (waitProg (.futWait (some 0))))), SR (tableApp (waitProg (.futWait (some 0)))) () 1 (r.st 0) ∧
    WaitsFor r 1 1 0 (.app 8) [] ∧ (r.st 36).data.sd.ready 0 = true ∧
    (r.st 20).stk 1 = [.client (SApi.futWait (some 0)).entry, .client (.app 8)] ∧ ((r.st 20).thr 1).exc = none ∧ (r.st 20).loc 1 = some 1 ∧
    (r.st 20).data.sd.lk (.guard 0) ≠ some 1 := by
  obtain ⟨r, h1, h2, h3⟩ := wait_run (P := waitProg (.futWait (some 0))) (ls := Core.go 0 8 ++ Core.go 1 21 ++ Core.go 0 26 ++ Core.go 1 11) (f := .app 8)
    (rest := []) 56 (by decide +kernel) (by decide +kernel) (by decide +kernel) (by decide +kernel) (by decide +kernel) (by decide +kernel)
  exact ⟨r, h1, h2, h3 (fun s => s.data.sd.ready 0) 36 _ (by decide +kernel), h3 (fun s => s.stk 1) 20 _ (by decide +kernel),
    h3 (fun s => (s.thr 1).exc) 20 _ (by decide +kernel), h3 (fun s => s.loc 1) 20 _ (by decide +kernel),
    by rw [h3 (fun s => s.data.sd.lk (.guard 0)) 20 none (by decide +kernel)]; simp⟩

end
end Itc
